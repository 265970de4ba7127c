import Verif.Props.Rounded
import Verif.Props.Invariance
import Verif.Props.Angular

/-!
# C87: division by zero

In the model `x / 0 = 0`; torch returns inf or nan.  Here the operation-by-operation program of the pena backend (`Model/Rounded`)
runs with an arithmetic in which `x / 0` is an arbitrary value.  If the results do not depend on that value, no division by
zero has any influence on them.
-/

namespace MieDiff

open Complex Spec

/-- Exact arithmetic, except that `x / 0` is `j x`. -/
noncomputable def junkArith (j : ℂ → ℂ) : Arith := { exactArith with div := fun x y => if y = 0 then j x else x / y }

section
variable (j : ℂ → ℂ)

theorem junk_div {x y : ℂ} (hy : y ≠ 0) : (junkArith j).div x y = exactArith.div x y := by
  show (if y = 0 then j x else x / y) = x / y
  rw [if_neg hy]

theorem junk_guard_ne (v : ℂ) : exactArith.guard v ≠ 0 := by
  have hep := solverEps_pos
  intro h
  unfold Arith.guard at h
  split_ifs at h with h1
  · have h1 : ‖v‖ < solverEps := h1
    have h2 : v + (solverEps : ℂ) = 0 := h
    have h3 : v = -(solverEps : ℂ) := by linear_combination h2
    rw [h3, norm_neg, norm_real, Real.norm_of_nonneg hep.le] at h1
    exact lt_irrefl _ h1
  · have h1 : ¬ ‖v‖ < solverEps := h1
    rw [h, norm_zero] at h1
    exact h1 hep

theorem junk_guard (v : ℂ) : (junkArith j).guard v = exactArith.guard v := rfl

theorem junk_d1Down {zs : ℂ} (hz : zs ≠ 0) (N k : ℕ) : (junkArith j).d1Down zs N k = exactArith.d1Down zs N k := by
  induction k with
  | zero => rfl
  | succ k ih =>
    simp only [Arith.d1Down, ih, junk_guard, junk_div j hz]
    rw [junk_div j (by exact junk_guard_ne _)]
    rfl

theorem junk_d1 (n N : ℕ) (z : ℂ) : (junkArith j).d1 n N z = exactArith.d1 n N z := by
  funext k
  simp only [Arith.d1, junk_guard, junk_d1Down j (junk_guard_ne z)]

theorem junk_pzD3 (z : ℂ) (D : ℕ → ℂ) (k : ℕ) : (junkArith j).pzD3 z D k = exactArith.pzD3 z D k := by
  induction k with
  | zero => rfl
  | succ k ih =>
    simp only [Arith.pzD3, ih, junk_guard, junk_div j (junk_guard_ne _)]
    rfl

theorem junk_d3 (z : ℂ) (D : ℕ → ℂ) : (junkArith j).d3 z D = exactArith.d3 z D := by
  funext k
  simp only [Arith.d3, junk_pzD3]

theorem junk_q (z1 z2 x1 x2 : ℂ) (D11 D12 D31 D32 : ℕ → ℂ) (k : ℕ) :
    (junkArith j).q z1 z2 x1 x2 D11 D12 D31 D32 k = exactArith.q z1 z2 x1 x2 D11 D12 D31 D32 k := by
  induction k with
  | zero =>
    simp only [Arith.q, junk_guard, junk_div j (junk_guard_ne _)]
    rfl
  | succ k ih =>
    simp only [Arith.q, ih, junk_guard, junk_div j (junk_guard_ne _)]
    rfl

theorem junk_prodSeq (f0 z : ℂ) (D : ℕ → ℂ) (k : ℕ) : (junkArith j).prodSeq f0 z D k = exactArith.prodSeq f0 z D k := by
  induction k with
  | zero => rfl
  | succ k ih =>
    simp only [Arith.prodSeq, ih, junk_guard, junk_div j (junk_guard_ne _)]
    rfl

theorem junk_update (p q H a b c d Q : ℂ) : (junkArith j).update p q H a b c d Q = exactArith.update p q H a b c d Q := by
  simp only [Arith.update, junk_guard]
  rw [junk_div j (by exact junk_guard_ne _)]
  rfl

theorem junk_step (n N : ℕ) (st : Arith.State) (l : ℂ × ℂ) : (junkArith j).step n N st l = exactArith.step n N st l := by
  simp only [Arith.step, junk_d1, junk_d3, junk_update]
  congr 1 <;> funext i <;> rw [junk_q] <;> rfl

theorem junk_fold (n N : ℕ) (rest : List (ℂ × ℂ)) (st : Arith.State) :
    rest.foldl ((junkArith j).step n N) st = rest.foldl (exactArith.step n N) st := by
  congr 1
  funext st l
  exact junk_step j n N st l

theorem junk_final (t a b c d : ℂ) : (junkArith j).final t a b c d = exactArith.final t a b c d := by
  simp only [Arith.final, junk_guard]
  rw [junk_div j (by exact junk_guard_ne _)]
  rfl

theorem junk_coefs (n N : ℕ) (st : Arith.State) (hm : st.m ≠ 0) (i : ℕ) :
    (junkArith j).coefs n N st i = exactArith.coefs n N st i := by
  simp only [Arith.coefs, junk_d1, junk_d3, junk_prodSeq, junk_final, junk_guard, junk_div j hm, junk_div j (junk_guard_ne _)]
  rfl

theorem fold_m (n N : ℕ) : ∀ (rest : List (ℂ × ℂ)) (st : Arith.State),
    (rest.foldl (exactArith.step n N) st).m = st.m ∨ ∃ l ∈ rest, (rest.foldl (exactArith.step n N) st).m = l.1
  | [], _ => .inl rfl
  | l :: rest, st => by
    rw [List.foldl_cons]
    rcases fold_m n N rest (exactArith.step n N st l) with h | ⟨l', h, h'⟩
    · exact .inr ⟨l, by simp, h⟩
    · exact .inr ⟨l', by simp [h], h'⟩

theorem junk_layers {p : Particle1} (he : p.epsEnv ≠ 0) : (junkArith j).layers p = exactArith.layers p := by
  have h : csqrt p.epsEnv ≠ 0 := csqrt_ne_zero he
  unfold Arith.layers
  congr 1
  refine List.map_congr_left fun e _ => ?_
  exact junk_div j h

theorem junk_mie {p : Particle1} (he : p.epsEnv ≠ 0) (hl : ∀ e ∈ p.epsLayers, e ≠ 0) (n N i : ℕ) :
    (junkArith j).mie n N p i = exactArith.mie n N p i := by
  unfold Arith.mie
  rw [junk_layers j he]
  have hm : ∀ l ∈ exactArith.layers p, l.1 ≠ 0 := by
    intro l h
    obtain ⟨e, he', h'⟩ := List.mem_map.1 (List.of_mem_zip (a := l.1) (b := l.2) h).1
    rw [← h']
    exact div_ne_zero (csqrt_ne_zero (hl e he')) (csqrt_ne_zero he)
  revert hm
  generalize exactArith.layers p = L
  intro hm
  rcases L with _ | ⟨l, rest⟩
  · rfl
  · show (junkArith j).coefs n N (rest.foldl ((junkArith j).step n N) ((junkArith j).init n N l)) i = _
    rw [junk_fold]
    have e : (junkArith j).init n N l = exactArith.init n N l := by
      simp only [Arith.init, junk_d1]
      rfl
    rw [e, junk_coefs]
    rcases fold_m n N rest (exactArith.init n N l) with h | ⟨l', h, h'⟩
    · rw [h]; exact hm l (by simp)
    · rw [h']; exact hm l' (by simp [h])

theorem junk_cross {p : Particle1} (he : p.epsEnv ≠ 0) (hl : ∀ e ∈ p.epsLayers, e ≠ 0) (hk : p.k0 ≠ 0) (hr : p.rLayers.getLastD 0 ≠ 0)
    (n N : ℕ) : (junkArith j).cross n N p = exactArith.cross n N p := by
  have h1 : csqrt p.epsEnv ≠ 0 := csqrt_ne_zero he
  have hkk : (p.k0 * csqrt p.epsEnv) * (p.k0 * csqrt p.epsEnv) ≠ 0 := by
    have := mul_ne_zero hk h1
    exact mul_ne_zero this this
  have hgeo : (Real.pi : ℂ) * (((p.rLayers.getLastD 0 : ℝ) : ℂ) * ((p.rLayers.getLastD 0 : ℝ) : ℂ)) ≠ 0 := by
    have a : (Real.pi : ℂ) ≠ 0 := by exact_mod_cast Real.pi_ne_zero
    have b : ((p.rLayers.getLastD 0 : ℝ) : ℂ) ≠ 0 := by exact_mod_cast hr
    exact mul_ne_zero a (mul_ne_zero b b)
  have hterm : ∀ i v, (junkArith j).mpTerm (p.k0 * csqrt p.epsEnv) i v = exactArith.mpTerm (p.k0 * csqrt p.epsEnv) i v := by
    intro i v
    unfold Arith.mpTerm
    rw [junk_div j (by exact hkk)]
    rfl
  have hd : ∀ c : ℂ, (junkArith j).div c ((Real.pi : ℂ) * (((p.rLayers.getLastD 0 : ℝ) : ℂ) * ((p.rLayers.getLastD 0 : ℝ) : ℂ))) =
      exactArith.div c ((Real.pi : ℂ) * (((p.rLayers.getLastD 0 : ℝ) : ℂ) * ((p.rLayers.getLastD 0 : ℝ) : ℂ))) :=
    fun c => junk_div j hgeo
  unfold Arith.cross Arith.crossWith
  simp only [junk_mie j he hl]
  have hh : ((junkArith j).host p).2 = p.k0 * csqrt p.epsEnv := rfl
  have hh' : (exactArith.host p).2 = p.k0 * csqrt p.epsEnv := rfl
  rw [hh, hh']
  simp only [hterm]
  have hg : (junkArith j).mul ((junkArith j).pi : ℂ) ((junkArith j).mul ((p.rLayers.getLastD 0 : ℝ) : ℂ) ((p.rLayers.getLastD 0 : ℝ) : ℂ)) =
      (Real.pi : ℂ) * (((p.rLayers.getLastD 0 : ℝ) : ℂ) * ((p.rLayers.getLastD 0 : ℝ) : ℂ)) := rfl
  rw [hg]
  simp only [hd]
  rfl

end

/-- C87: the pena backend never divides by zero, for any wavenumber, permittivities and outer radius different from zero, any
number of layers and any order, lossy, lossless or active, resonant or not: whatever value stands for `x / 0`, the returned
coefficients and cross sections are the same. -/
theorem C87_pena {B : Backends} {p : Particle1} {backend w : String} {nMax : Option ℤ} {ri : Bool} {o : MieOut}
    (hb : backend.toLower = "pena") (h : mieCoefficients codeD1 B p backend w nMax ri = .ok o) (he : p.epsEnv ≠ 0)
    (hl : ∀ e ∈ p.epsLayers, e ≠ 0) (hk : p.k0 ≠ 0) (hr : p.rLayers.getLastD 0 ≠ 0) (j : ℂ → ℂ) :
    let n := o.nMax.toNat
    o.a = (List.range n).map (fun i => ((junkArith j).mie n 15 p (i + 1)).1) ∧
    o.b = (List.range n).map (fun i => ((junkArith j).mie n 15 p (i + 1)).2) ∧
    (let cs := crossSections o.k o.rS o.a o.b
     (junkArith j).cross n 15 p = ⟨cs.csExt, cs.csSca, cs.csAbs, cs.qExt, cs.qSca, cs.qAbs⟩) := by
  have run := mieCoefficients_pena_inv hb h
  have hn : o.nMax = (o.nMax.toNat : ℤ) := (Int.toNat_of_nonneg (by have := run.pos; omega)).symm
  obtain ⟨-, h1, h2, h3⟩ := C78_exact_arithmetic (N := 15) (by norm_num) hb h hn
  refine ⟨?_, ?_, ?_⟩
  · simp only [junk_mie j he hl]; exact h1
  · simp only [junk_mie j he hl]; exact h2
  · rw [junk_cross j he hl hk hr]; exact h3

/-- C87 for `angular_scattering`: the degree of polarisation is a quotient whose denominator is zero exactly where both amplitudes
vanish.  In the forward direction that never happens for a particle that extinguishes light. -/
theorem C87_polarisation {theta : ℝ} {a b : List ℂ} {o : Angular} (h : angularScattering theta a b = .ok o) :
    o.polDegree = (o.iPer - o.iPar) / (o.iPer + o.iPar) ∧ (o.iPer + o.iPar = 0 ↔ o.S1 = 0 ∧ o.S2 = 0) ∧
    (theta = 0 → b.length = a.length → ∀ k r : ℝ, (crossSections (k : ℂ) r a b).csExt ≠ 0 → o.iPer + o.iPar ≠ 0) := by
  have hiff : o.polDegree = (o.iPer - o.iPar) / (o.iPer + o.iPar) ∧ (o.iPer + o.iPar = 0 ↔ o.S1 = 0 ∧ o.S2 = 0) := by
    unfold angularScattering at h
    cases hp : piTau a.length (Real.cos theta) with
    | error e => rw [hp] at h; cases h
    | ok q =>
      rw [hp] at h
      obtain rfl := Except.ok.inj h
      refine ⟨rfl, ?_⟩
      constructor
      · intro h0
        have h0 : ‖ampSum a b q.1.tail q.2.tail‖ ^ 2 + ‖ampSum a b q.2.tail q.1.tail‖ ^ 2 = 0 := h0
        have h1 : ‖ampSum a b q.1.tail q.2.tail‖ = 0 := by nlinarith [sq_nonneg ‖ampSum a b q.1.tail q.2.tail‖, sq_nonneg ‖ampSum a b q.2.tail q.1.tail‖]
        have h2 : ‖ampSum a b q.2.tail q.1.tail‖ = 0 := by nlinarith [sq_nonneg ‖ampSum a b q.1.tail q.2.tail‖, sq_nonneg ‖ampSum a b q.2.tail q.1.tail‖]
        exact ⟨norm_eq_zero.1 h1, norm_eq_zero.1 h2⟩
      · rintro ⟨h1, h2⟩
        have h1 : ampSum a b q.1.tail q.2.tail = 0 := h1
        have h2 : ampSum a b q.2.tail q.1.tail = 0 := h2
        show ‖ampSum a b q.1.tail q.2.tail‖ ^ 2 + ‖ampSum a b q.2.tail q.1.tail‖ ^ 2 = 0
        rw [h1, h2]; simp
  refine ⟨hiff.1, hiff.2, ?_⟩
  rintro rfl hab k r hext h0
  have ha : a ≠ [] := by
    rintro rfl
    have : b = [] := List.length_eq_zero_iff.1 hab
    subst this
    exact hext (by simp [crossSections, mpTerms])
  obtain ⟨o', h1, h2⟩ := C03_optical_theorem k r a b ha hab
  obtain rfl : o' = o := by rw [h] at h1; exact (Except.ok.inj h1).symm
  rw [h2, (hiff.2.1 h0).1] at hext
  simp at hext

/-- C87 fails for the degree of polarisation: for a sphere of the permittivity of its host (and any other particle with
vanishing coefficients) it is `0 / 0` at every angle. -/
theorem C87_matched_polarisation {B : Backends} {k0 env : ℂ} {r : ℝ} {backend w : String} {nMax : Option ℤ} {ri : Bool} {o : MieOut}
    (hb : backend.toLower = "pena") (h : mieCoefficients codeD1 B ⟨k0, [r], [env], env⟩ backend w nMax ri = .ok o) (henv : env ≠ 0)
    (h1 : 1e-30 ≤ ‖k0 * csqrt env * (r : ℂ)‖) (h2 : ‖k0 * csqrt env * (r : ℂ)‖ ≤ 1 / 2) (theta : ℝ) :
    ∃ s, angularScattering theta o.a o.b = .ok s ∧ s.iPer - s.iPar = 0 ∧ s.iPer + s.iPar = 0 := by
  obtain ⟨ha, hb'⟩ := C08_small_sphere hb h henv h1 h2
  rw [ha, hb']
  have hz : ∀ p q : List ℝ, ampSum (List.replicate o.nMax.toNat (0 : ℂ)) (List.replicate o.nMax.toNat 0) p q = 0 := by
    intro p q
    unfold ampSum
    refine List.sum_eq_zero fun x hx => ?_
    obtain ⟨i, -, rfl⟩ := List.mem_map.1 hx
    have : (List.replicate o.nMax.toNat (0 : ℂ)).getD i 0 = 0 := by
      rw [List.getD_eq_getElem?_getD, List.getElem?_replicate]
      split_ifs <;> rfl
    simp only [this]
    ring
  have run := mieCoefficients_pena_inv hb h
  have hn : 1 ≤ o.nMax.toNat := by have := run.pos; omega
  unfold angularScattering
  rw [List.length_replicate, piTau_eq _ hn]
  exact ⟨_, rfl, by simp only [hz]; ring, by simp only [hz]; simp⟩

/-- A gold-like core in a lossless shell: the hypotheses of `C87_pena` hold and the call returns. -/
example (B : Backends) (j : ℂ → ℂ) : ∃ o : MieOut, mieCoefficients codeD1 B ⟨1, [1, 2], [-10 + I, 2], 1⟩ "pena" "recurrence" (some 3) = .ok o ∧
    o.a = (List.range 3).map (fun i => ((junkArith j).mie 3 15 ⟨1, [1, 2], [-10 + I, 2], 1⟩ (i + 1)).1) := by
  have hp : "pena".toLower = "pena" := by decide +kernel
  obtain ⟨o, h, hn⟩ := mieCoefficients_pena_ok (K := codeD1) (B := B) (p := ⟨1, [1, 2], [-10 + I, 2], 1⟩) (w := "recurrence")
    (depthD1_fun 3 15 (by norm_num)) hp (by norm_num) (by simp only [strictlyIncreasing]; norm_num) (by simp) (by simp)
  have := (C87_pena hp h (by simp) (by
    intro e he
    rcases List.mem_cons.1 he with rfl | he
    · intro h0; have := congrArg Complex.im h0; simp at this
    · rw [List.mem_singleton.1 he]; norm_num) (by simp) (by simp) j).1
  refine ⟨o, h, ?_⟩
  rw [hn] at this
  exact this

/-- An index-matched sphere of size parameter 1/2 in a medium of index 1: the call returns and the degree of polarisation at a right
angle is `0 / 0`. -/
example (B : Backends) : ∃ (o : MieOut) (s : Angular), mieCoefficients codeD1 B ⟨1, [1 / 2], [1], 1⟩ "pena" "recurrence" (some 3) = .ok o ∧
    angularScattering (Real.pi / 2) o.a o.b = .ok s ∧ s.iPer - s.iPar = 0 ∧ s.iPer + s.iPar = 0 := by
  have hp : "pena".toLower = "pena" := by decide +kernel
  have c1 : csqrt 1 = 1 := by have := csqrt_nat_sq (r := 1) (by norm_num); simpa using this
  obtain ⟨o, h, hn⟩ := mieCoefficients_pena_ok (K := codeD1) (B := B) (p := ⟨1, [1 / 2], [1], 1⟩) (w := "recurrence")
    (depthD1_fun 3 15 (by norm_num)) hp (by norm_num) (by simp [strictlyIncreasing]) (by simp) (by simp)
  obtain ⟨s, h1, h2⟩ := C87_matched_polarisation hp h one_ne_zero (by rw [c1]; norm_num) (by rw [c1]; norm_num) (Real.pi / 2)
  exact ⟨o, s, h, h1, h2⟩

/-- A single dipole coefficient `a_1 = 1` meets the hypotheses of `C87_polarisation` in the forward direction. -/
example : ∃ o, angularScattering 0 [1] [0] = .ok o ∧ o.iPer + o.iPar ≠ 0 := by
  obtain ⟨o, h, h2⟩ := C03_optical_theorem 1 1 [1] [0] (by simp) rfl
  refine ⟨o, h, (C87_polarisation h).2.2 rfl rfl 1 1 ?_⟩
  simp [crossSections, mpTerms, Real.pi_ne_zero]
  norm_num

end MieDiff
