import Verif.Proofs.RoundedCross

/-!
# C78: rounding errors

The pena backend in an arithmetic whose operations have relative error at most `u` (`Arith.Within`).  With exact operations it is
the model of the other chapters.  The recurrence for the logarithmic derivatives loses no accuracy however deep it starts, and for
every particle at which no guard fires the results approach the exact ones as `u` tends to zero.
-/

namespace MieDiff

open Complex Spec Filter Topology

variable {p : Particle1} {n : ℕ}

theorem particle_ne {D : ℂ → ℕ → ℂ} (hc : SolverClear D n p.layers) (hlen : p.epsLayers.length = p.rLayers.length) :
    csqrt p.epsEnv ≠ 0 ∧ p.k0 * csqrt p.epsEnv ≠ 0 ∧ p.rLayers.getLastD 0 ≠ 0 ∧ ∀ l ∈ p.layers, l.1 ≠ 0 := by
  have hne := SolverClear.ne hc
  have hr : p.rLayers ≠ [] := by
    intro h0
    have : p.layers = [] := by simp [Particle1.layers, layersOf, h0]
    rw [this] at hc
    exact hc.elim
  have he : p.epsLayers ≠ [] := by
    intro h0
    rw [h0] at hlen
    exact hr (List.length_eq_zero_iff.1 hlen.symm)
  have hmem : (csqrt (p.epsLayers.getLast he) / csqrt p.epsEnv, p.k0 * csqrt p.epsEnv * ((p.rLayers.getLast hr : ℝ) : ℂ)) ∈
      p.layers := by
    simp only [Particle1.layers, layersOf]
    rw [List.mem_iff_getElem?]
    refine ⟨p.rLayers.length - 1, ?_⟩
    rw [List.getElem?_zip_eq_some]
    simp only [List.getElem?_map]
    constructor
    · rw [← hlen, ← List.getLast?_eq_getElem?, List.getLast?_eq_some_getLast he]
      rfl
    · rw [← List.getLast?_eq_getElem?, List.getLast?_eq_some_getLast hr]
      rfl
  obtain ⟨h1, h2⟩ := hne _ hmem
  refine ⟨fun h0 => h1 (by simp [h0]), left_ne_zero_of_mul h2, ?_, fun l hl => (hne l hl).1⟩
  have := right_ne_zero_of_mul h2
  rw [List.getLastD_eq_getLast?, List.getLast?_eq_some_getLast hr]
  exact_mod_cast this

/-- C78: with exact operations the operation-by-operation program returns what `mie_coefficients` and `cross_sections` return. -/
theorem C78_exact_arithmetic {N : ℕ} (hN : 1 ≤ N) {B : Backends} {backend w : String} {nMax : Option ℤ} {ri : Bool} {o : MieOut}
    (hb : backend.toLower = "pena") (h : mieCoefficients (depthD1 N) B p backend w nMax ri = .ok o) (hn : o.nMax = n) :
    exactArith.Within 0 ∧
    o.a = (List.range n).map (fun i => (exactArith.mie n N p (i + 1)).1) ∧
    o.b = (List.range n).map (fun i => (exactArith.mie n N p (i + 1)).2) ∧
    (let cs := crossSections o.k o.rS o.a o.b
     exactArith.cross n N p = ⟨cs.csExt, cs.csSca, cs.csAbs, cs.qExt, cs.qSca, cs.qAbs⟩) := by
  have run := mieCoefficients_pena_inv hb h
  have hn' : o.nMax.toNat = n := by rw [hn]; simp
  obtain ⟨l, rest, hl⟩ := run.layers_cons
  obtain ⟨ea, eb⟩ := run.coefs (D := depthFn n N) (by rw [hn']; exact depthD1_fun n N hN) hl
  rw [hn'] at ea eb
  have ha : o.a = (List.range n).map (fun i => (exactArith.mie n N p (i + 1)).1) := by
    rw [ea]; simp only [exact_mie n N p hl]
  have hb' : o.b = (List.range n).map (fun i => (exactArith.mie n N p (i + 1)).2) := by
    rw [eb]; simp only [exact_mie n N p hl]
  refine ⟨?_, ha, hb', ?_⟩
  · constructor <;> intros <;> simp [exactArith]
  · have zipr : ∀ f g : ℕ → ℂ, List.zipWith (· - ·) ((List.range n).map f) ((List.range n).map g) =
        (List.range n).map fun i => f i - g i := fun f g => by rw [List.zipWith_map, List.zipWith_self]
    have eff : ∀ c r : ℝ, ((c : ℂ) / ((Real.pi : ℂ) * ((r : ℂ) * (r : ℂ)))).re = c / (Real.pi * r ^ 2) := fun c r => by
      rw [← ofReal_mul, ← ofReal_mul, ← ofReal_div, ofReal_re, sq]
    have hsq : ∀ z : ℂ, ((‖z‖ ^ 2 : ℝ) : ℂ) = (‖z‖ : ℂ) * (‖z‖ : ℂ) := fun z => by rw [sq]; push_cast; rfl
    simp only [crossSections, ha, hb', run.k, run.rS, List.map_map, Function.comp_def, mpTerms_map_range, zipr, ← eff, hsq,
      ← List.sum_append]
    simp only [Arith.cross, Arith.crossWith, exact_mpTerm]
    rfl

/-- C78 for `pena_D1_n`: from order `4 |z|` on, the relative error of the rounded recurrence is at most `14 u` plus the truncation
error, which falls by a factor `6` with every extra order.  The rounding error does not depend on the depth. -/
theorem C78_log_derivative {A : Arith} {u : ℝ} (hA : A.Within u) (hu : u ≤ 1 / 100) {z : ℂ} (hz : 2 * solverEps ≤ ‖z‖) {N k : ℕ}
    (hN : 1 ≤ N) (hk : k ≤ n) (hzk : 4 * ‖z‖ ≤ k + 1) :
    logD1 k z ≠ 0 ∧ ‖A.d1 n N z k - logD1 k z‖ ≤ (14 * u + (1 / 6) ^ (n + N - k - 1)) * ‖logD1 k z‖ := by
  have hu0 := hA.nonneg
  have hep := solverEps_pos
  have hzp : 0 < ‖z‖ := by linarith
  have hz0 : z ≠ 0 := norm_pos_iff.1 hzp
  have hg : A.guard z = z := by
    unfold Arith.guard
    rw [if_neg]
    have h1 := (abs_le.1 (hA.abs z)).1
    push Not
    nlinarith
  have herr := Arith.d1_error hA hu0 hu hz0 (n + N) (n + N - k - 1) k (by omega) hzk
  have hnear := logD1_near k hz0 (by linarith)
  obtain ⟨s, hs⟩ : ∃ s, s = ((k : ℝ) + 1) / ‖z‖ := ⟨_, rfl⟩
  have hs4 : 4 ≤ s := by rw [hs, le_div_iff₀ hzp]; exact hzk
  have hw : ‖((k : ℂ) + 1) / z‖ = s := by
    rw [hs]; exact norm_natCast_div _ (by positivity) _ _ (by push_cast; ring)
  have hL : 7 / 8 * s ≤ ‖logD1 k z‖ := by
    have h1 := norm_sub_norm_le (((k : ℂ) + 1) / z) (((k : ℂ) + 1) / z - logD1 k z)
    rw [sub_sub_cancel, hw, norm_sub_rev] at h1
    linarith
  have h2 : ((k : ℝ) + 2) / ‖z‖ ≤ 2 * s := by
    rw [hs, ← mul_div_assoc]
    gcongr
    have : (0 : ℝ) ≤ k := Nat.cast_nonneg k
    linarith
  refine ⟨fun h0 => ?_, ?_⟩
  · rw [h0, norm_zero] at hL; linarith
  · unfold Arith.d1
    rw [hg]
    refine herr.trans ?_
    have h3 : 6 * u * (((k : ℝ) + 2) / ‖z‖) ≤ 14 * u * ‖logD1 k z‖ := by
      have := mul_le_mul_of_nonneg_left (h2.trans (by linarith : 2 * s ≤ 16 / 7 * ‖logD1 k z‖)) hu0
      nlinarith [mul_nonneg hu0 (norm_nonneg (logD1 k z))]
    have h4 : ((1 : ℝ) / 6) ^ (n + N - k - 1) ≤ (1 / 6) ^ (n + N - k - 1) * ‖logD1 k z‖ :=
      le_mul_of_one_le_right (by positivity) (by linarith)
    rw [add_mul]
    linarith

/-- Cross sections of the coefficients `a`, `b` of the first `n` orders. -/
noncomputable def crossOf (n : ℕ) (p : Particle1) (a b : ℕ → ℂ) : CrossSections :=
  crossSections (p.k0 * csqrt p.epsEnv) (p.rLayers.getLastD 0) ((List.range n).map fun i => a (i + 1))
    ((List.range n).map fun i => b (i + 1))

/-- The results of a run: the coefficients are within `ε` of `a`, `b` and the cross sections within `ε` of those computed from
them. -/
structure Close (A : Arith) (n N : ℕ) (p : Particle1) (a b : ℕ → ℂ) (ε : ℝ) : Prop where
  coef : ∀ i, 1 ≤ i → i ≤ n → ‖(A.mie n N p i).1 - a i‖ < ε ∧ ‖(A.mie n N p i).2 - b i‖ < ε
  ext : |(A.cross n N p).ext - (crossOf n p a b).csExt| < ε
  sca : |(A.cross n N p).sca - (crossOf n p a b).csSca| < ε
  abs : |(A.cross n N p).abs - (crossOf n p a b).csAbs| < ε
  qExt : |(A.cross n N p).qExt - (crossOf n p a b).qExt| < ε
  qSca : |(A.cross n N p).qSca - (crossOf n p a b).qSca| < ε
  qAbs : |(A.cross n N p).qAbs - (crossOf n p a b).qAbs| < ε

theorem close_eventually {A : ℕ → Arith} {N : ℕ → ℕ} {a b : ℕ → ℂ} (hA : Refining A) (hk : p.k0 * csqrt p.epsEnv ≠ 0)
    (hr : p.rLayers.getLastD 0 ≠ 0)
    (ha : ∀ i, 1 ≤ i → i ≤ n → Tendsto (fun k => ((A k).mie n (N k) p i).1) atTop (𝓝 (a i)))
    (hb : ∀ i, 1 ≤ i → i ≤ n → Tendsto (fun k => ((A k).mie n (N k) p i).2) atTop (𝓝 (b i))) {ε : ℝ} (hε : 0 < ε) :
    ∀ᶠ k in atTop, Close (A k) n (N k) p a b ε := by
  obtain ⟨c1, c2, c3, c4, c5, c6⟩ := cross_refines hA hk hr (ca := fun i => a (i + 1)) (cb := fun i => b (i + 1))
    (fun i hi => ha (i + 1) (by omega) (by omega)) (fun i hi => hb (i + 1) (by omega) (by omega))
  have nc : ∀ {f : ℕ → ℂ} {l : ℂ}, Tendsto f atTop (𝓝 l) → ∀ᶠ k in atTop, ‖f k - l‖ < ε := fun hf => by
    filter_upwards [Metric.tendsto_nhds.1 hf ε hε] with k hk
    rwa [dist_eq_norm] at hk
  have nr : ∀ {f : ℕ → ℝ} {l : ℝ}, Tendsto f atTop (𝓝 l) → ∀ᶠ k in atTop, |f k - l| < ε := fun hf => by
    filter_upwards [Metric.tendsto_nhds.1 hf ε hε] with k hk
    rwa [Real.dist_eq] at hk
  have hco : ∀ᶠ k in atTop, ∀ i ∈ Set.Icc 1 n, ‖((A k).mie n (N k) p i).1 - a i‖ < ε ∧ ‖((A k).mie n (N k) p i).2 - b i‖ < ε :=
    (eventually_all_finite (Set.finite_Icc 1 n)).2 fun i hi => (nc (ha i hi.1 hi.2)).and (nc (hb i hi.1 hi.2))
  filter_upwards [hco, nr c1, nr c2, nr c3, nr c4, nr c5, nr c6] with k k0 k1 k2 k3 k4 k5 k6
  exact ⟨fun i i1 i2 => k0 i ⟨i1, i2⟩, k1, k2, k3, k4, k5, k6⟩

/-- C78: for every tolerance there are a rounding error and a recurrence depth such that in every arithmetic at least as accurate and
for every larger depth all coefficients, cross sections and efficiencies are within the tolerance of those of the exact solution of
the interface problem. -/
theorem C78_accurate (hlen : p.epsLayers.length = p.rLayers.length) (hc : SolverClear idealFn n p.layers)
    (hd : ∀ z ∈ kernelArgs p.layers, D1Clear z) {ε : ℝ} (hε : 0 < ε) :
    ∃ u0 > 0, ∃ N0 : ℕ, ∀ A : Arith, A.Within u0 → ∀ N, N0 ≤ N →
      Close A n N p (fun i => coef .tm i p.layers) (fun i => coef .te i p.layers) ε := by
  obtain ⟨h0, hk, hr, hne⟩ := particle_ne hc hlen
  obtain ⟨l, rest, hl⟩ : ∃ l rest, p.layers = l :: rest := by
    rcases hl : p.layers with _ | ⟨l, rest⟩
    · rw [hl] at hc; exact hc.elim
    · exact ⟨l, rest, rfl⟩
  have hco : ∀ q i, 1 ≤ i → i ≤ n → coefFn idealFn q (hFinal idealFn l rest) i = coef q i p.layers := by
    intro q i h1 hi
    have := (coefAt_solves q h1 hi hc).2
    rw [hl] at this ⊢
    exact this
  refine uniform_of_refining fun A N hA hN => ?_
  have key := fun i h1 hi => mie_refines (n := n) (i := i) hA p hl h0 hne (fun z hz => d1_refines hA hN (hd z hz)) hc h1 hi
  refine close_eventually hA hk hr (fun i h1 hi => ?_) (fun i h1 hi => ?_) hε
  · rw [← hco .tm i h1 hi]; exact (key i h1 hi).1
  · rw [← hco .te i h1 hi]; exact (key i h1 hi).2

/-- C78 for a fixed recurrence depth, as in the code: the rounded results approach those of the program in exact arithmetic. -/
theorem C78_fixed_depth {N : ℕ} (hN : 1 ≤ N) {B : Backends} {backend w : String} {nMax : Option ℤ} {ri : Bool} {o : MieOut}
    (hb : backend.toLower = "pena") (h : mieCoefficients (depthD1 N) B p backend w nMax ri = .ok o) (hn : o.nMax = n)
    (hc : SolverClear (depthFn n N) n p.layers)
    (hd : ∀ z ∈ kernelArgs p.layers, DepthClear (n + N) z) {ε : ℝ} (hε : 0 < ε) :
    ∃ u0 > 0, ∀ A : Arith, A.Within u0 →
      Close A n N p (fun i => o.a.getD (i - 1) 0) (fun i => o.b.getD (i - 1) 0) ε := by
  have run := mieCoefficients_pena_inv hb h
  have hn' : o.nMax.toNat = n := by rw [hn]; simp
  obtain ⟨l, rest, hl⟩ := run.layers_cons
  obtain ⟨ea, eb⟩ := run.coefs (D := depthFn n N) (by rw [hn']; exact depthD1_fun n N hN) hl
  rw [hn'] at ea eb
  obtain ⟨h0, hk, hr, hne⟩ := particle_ne hc run.len
  have hu := uniform_of_refining (P := fun A _ => Close A n N p (fun i => o.a.getD (i - 1) 0) (fun i => o.b.getD (i - 1) 0) ε)
    fun A _ hA _ => by
      have key := fun i h1 hi => mie_refines (N := fun _ => N) (n := n) (i := i) hA p hl h0 hne
        (fun z hz => d1_refines_depth hA (hd z hz)) hc h1 hi
      refine close_eventually (N := fun _ => N) hA hk hr (fun i h1 hi => ?_) (fun i h1 hi => ?_) hε
      · rw [ea, getD_order (coefFn (depthFn n N) .tm (hFinal (depthFn n N) l rest)) h1 hi]; exact (key i h1 hi).1
      · rw [eb, getD_order (coefFn (depthFn n N) .te (hFinal (depthFn n N) l rest)) h1 hi]; exact (key i h1 hi).2
  obtain ⟨u0, hu0, N0, hall⟩ := hu
  exact ⟨u0, hu0, fun A hA => hall A hA N0 le_rfl⟩

/-- C78: if no guard fires for the exact logarithmic derivatives, none fires at any sufficient depth. -/
theorem C78_depth_clear (hc : SolverClear idealFn n p.layers) (hd : ∀ z ∈ kernelArgs p.layers, D1Clear z) :
    ∃ N0 : ℕ, ∀ N, N0 ≤ N → SolverClear (depthFn n N) n p.layers ∧ ∀ z ∈ kernelArgs p.layers, DepthClear (n + N) z := by
  have h1 : ∀ᶠ N in atTop, SolverClear (depthFn n N) n p.layers := by
    rcases hl : p.layers with _ | ⟨l, rest⟩
    · rw [hl] at hc; exact hc.elim
    · rw [hl] at hc hd
      exact solverClear_eventually (fun z hz => depthFn_conv n (hd z hz)) hc
  have h2 : ∀ᶠ N in atTop, ∀ z ∈ {z | z ∈ kernelArgs p.layers}, DepthClear (n + N) z :=
    (eventually_all_finite (List.finite_toSet _)).2 fun z hz => depthClear_eventually n (hd z hz)
  obtain ⟨N0, h0⟩ := eventually_atTop.1 (h1.and h2)
  exact ⟨N0, fun N hN => h0 N hN⟩

/-! ## An inexact arithmetic -/

/-- Every result is too large by a factor `1 + u`. -/
noncomputable def tilted (u : ℝ) : Arith where
  add x y := (1 + u) * (x + y)
  sub x y := (1 + u) * (x - y)
  mul x y := (1 + u) * (x * y)
  div x y := (1 + u) * (x / y)
  exp x := (1 + u) * Complex.exp x
  sin x := (1 + u) * Complex.sin x
  cos x := (1 + u) * Complex.cos x
  sqrt x := (1 + u) * csqrt x
  abs x := (1 + u) * ‖x‖
  pi := (1 + u) * Real.pi
  sum l := (1 + u) * l.sum

theorem norm_sum_le_map : ∀ l : List ℂ, ‖l.sum‖ ≤ (l.map fun x => ‖x‖).sum
  | [] => by simp
  | x :: l => by
    simp only [List.sum_cons, List.map_cons]
    exact (norm_add_le _ _).trans (by linarith [norm_sum_le_map l])

theorem tilted_within {u : ℝ} (hu : 0 ≤ u) : (tilted u).Within u := by
  have key : ∀ w : ℂ, ‖(1 + u) * w - w‖ ≤ u * ‖w‖ := fun w => by
    rw [show (1 + u) * w - w = u * w by ring, norm_mul, norm_real, Real.norm_of_nonneg hu]
  have keyr : ∀ w : ℝ, 0 ≤ w → |(1 + u) * w - w| ≤ u * w := fun w hw => by
    rw [show (1 + u) * w - w = u * w by ring, abs_of_nonneg (mul_nonneg hu hw)]
  refine ⟨fun _ _ => key _, fun _ _ => key _, fun _ _ => key _, fun _ _ _ => key _, fun _ => key _, fun _ => key _,
    fun _ => key _, fun _ => key _, fun _ => keyr _ (norm_nonneg _), keyr _ Real.pi_pos.le, fun l => ?_⟩
  refine (key l.sum).trans ?_
  rw [mul_assoc]
  refine mul_le_mul_of_nonneg_left ?_ hu
  rcases l with _ | ⟨x, l⟩
  · simp
  · have h1 := norm_sum_le_map (x :: l)
    have h2 : (1 : ℝ) ≤ ((x :: l).length : ℝ) := by simp
    nlinarith [norm_nonneg (x :: l).sum]

/-- The bound for the recurrence at `z = 1/2`, order `1`, with the depth of the code. -/
example : ‖(tilted (1 / 1000)).d1 1 15 (1 / 2) 1 - logD1 1 (1 / 2)‖ ≤
    (14 * (1 / 1000) + (1 / 6) ^ 14) * ‖logD1 1 (1 / 2)‖ :=
  (C78_log_derivative (n := 1) (N := 15) (k := 1) (tilted_within (by norm_num)) (by norm_num)
    (by unfold solverEps; norm_num) (by norm_num) le_rfl (by norm_num)).2

/-- The sphere of index `π/2`: the scattering efficiency is found to any accuracy in an arithmetic that is accurate enough, also in the
inexact one above, and also when the depth is fixed. -/
example (B : Backends) {ε : ℝ} (hε : 0 < ε) :
    (∃ u > 0, ∃ N : ℕ, |((tilted u).cross 1 N monoParticle).qSca - (exactCross 1 monoParticle).qSca| < ε) ∧
    ∃ N o, mieCoefficients (depthD1 N) B monoParticle "pena" "recurrence" (some 1) = .ok o ∧
      ∃ u > 0, ‖((tilted u).mie 1 N monoParticle 1).1 - o.a.getD 0 0‖ < ε := by
  constructor
  · obtain ⟨u, hu, N, h⟩ := C78_accurate (p := monoParticle) (n := 1) (by simp [monoParticle]) mono_clear mono_args hε
    exact ⟨u, hu, N, (h _ (tilted_within hu.le) N le_rfl).qSca⟩
  · obtain ⟨N0, h0⟩ := C78_depth_clear (n := 1) mono_clear mono_args
    obtain ⟨c1, c2⟩ := h0 (N0 + 1) (by omega)
    obtain ⟨o, ho, hn⟩ := mono_run B (N0 + 1) (by omega)
    obtain ⟨u, hu, h⟩ := C78_fixed_depth (n := 1) (by omega) (by decide +kernel) ho hn c1 c2 hε
    exact ⟨N0 + 1, o, ho, u, hu, ((h _ (tilted_within hu.le)).coef 1 le_rfl le_rfl).1⟩

end MieDiff
