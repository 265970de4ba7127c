import Verif.Props.Sensitivity
import Verif.Props.TimeReversal
import Mathlib.MeasureTheory.Integral.IntervalIntegral.Basic
import Mathlib.Analysis.Calculus.MeanValue

/-!
# Fields of lossless layered spheres have a common phase

With real permittivities the conjugate of a solution is a solution of the same interface problem, so it is a multiple of it.
-/

namespace MieDiff

open Complex Spec Filter Topology MeasureTheory intervalIntegral
open scoped ComplexConjugate

/-- Specification: the squared modulus of the electric field of a multipole of order `n`, integrated over the directions, up to a
constant: wave `w` in the medium of relative index `m`, at size parameter `rho`. -/
noncomputable def intensity (q : Pol) (n : ℕ) (m : ℂ) (w : Wave) (rho : ℝ) : ℝ :=
  match q with
  | .tm => ‖w.der n (m * rho) / m‖ ^ 2 + n * (n + 1) * ‖w.val n (m * rho) / (m ^ 2 * rho)‖ ^ 2
  | .te => ‖w.val n (m * rho) / m‖ ^ 2

theorem intensity_nonneg (q : Pol) (n : ℕ) (m : ℂ) (w : Wave) (rho : ℝ) : 0 ≤ intensity q n m w rho := by
  cases q <;> simp only [intensity] <;> positivity

theorem conj_sign {m : ℂ} (h : (m ^ 2).im = 0) : conj m = m ∨ conj m = -m := by
  apply sq_eq_sq_iff_eq_or_eq_neg.1
  rw [← map_pow]
  exact conj_eq_iff_im.2 h

/-- The wave in the medium `m` (with `m ^ 2` real) whose fields are the conjugates of those of `w`. -/
theorem exists_mirror (q : Pol) (n : ℕ) {m : ℂ} (h : (m ^ 2).im = 0) (w : Wave) : ∃ v, SignWave q n (conj m) w.star m v := by
  rcases conj_sign h with h | h
  · exact ⟨_, by rw [h]; exact .same _ _⟩
  · refine ⟨flipQ q n w.star, ?_⟩
    have := SignWave.flip (q := q) (n := n) (conj m) w.star
    rwa [show -conj m = m by rw [h, neg_neg]] at this

/-- The tangential fields of `v` at size parameter `r` are the conjugates of those of `w`. -/
def ConjFields (q : Pol) (n : ℕ) (m : ℂ) (w v : Wave) (r : ℝ) : Prop :=
  match q with
  | .tm => v.val n (m * r) = conj (w.val n (m * r)) ∧ v.der n (m * r) / m = conj (w.der n (m * r) / m)
  | .te => v.val n (m * r) / m = conj (w.val n (m * r) / m) ∧ v.der n (m * r) = conj (w.der n (m * r))

theorem mirror_fields {q : Pol} {n : ℕ} {m : ℂ} {w v : Wave} (h : SignWave q n (conj m) w.star m v) (hm : m ≠ 0) {r : ℝ} (hr : 0 < r) :
    ConjFields q n m w v r := by
  have hr' : (r : ℂ) ≠ 0 := by exact_mod_cast hr.ne'
  have hz := mul_ne_zero hm hr'
  obtain ⟨s1, s2⟩ := star_val w n hz
  rw [map_mul, conj_ofReal] at s1 s2
  generalize hc : conj m = m' at h s1 s2
  cases h with
  | same =>
    cases q <;> simp only [ConjFields, s1, s2, map_div₀, hc] <;> exact ⟨trivial, trivial⟩
  | flip =>
    have hm' : m' ≠ 0 := by rw [← hc]; exact (map_ne_zero _).2 hm
    have hz' : -m' * (r : ℂ) ≠ 0 := mul_ne_zero (neg_ne_zero.2 hm') hr'
    have e : -(-m' * (r : ℂ)) = m' * r := by ring
    cases q
    · simp only [ConjFields, flipQ, flipW_val n _ hz', flipW_der n _ hz', e, s1, s2, map_div₀, hc]
      refine ⟨trivial, ?_⟩
      rw [neg_div_neg_eq]
    · simp only [ConjFields, flipQ, smul_neg_val, smul_neg_der, flipW_val n _ hz', flipW_der n _ hz', e, s1, s2, map_div₀, hc, neg_neg]
      refine ⟨?_, trivial⟩
      rw [neg_div_neg_eq]

theorem mirror_core {q : Pol} {n : ℕ} {m m' : ℂ} {w v : Wave} (h : SignWave q n m' w.star m v) (hw : w.a = 0) : v.a = 0 := by
  cases h
  · simp [Wave.star, hw]
  · cases q <;> simp [flipQ, flipW, Wave.smul, Wave.star, hw]

/-- In all regions the conjugated waves are the same multiple of the waves. -/
theorem mirror_waves {q : Pol} {n L : ℕ} {m : ℕ → ℂ} {x : ℕ → ℝ} {V U : ℕ → Wave} (h : Regions q n L m x V) (hm : ∀ j ≤ L, m j ≠ 0)
    (hx : ∀ j < L, x (j + 1) ≠ 0) (hU : ∀ j ≤ L, SignWave q n (conj (m j)) (V j).star (m j) (U j)) (hd : (V 0).d ≠ 0) :
    ∃ c : ℂ, ∀ j ≤ L, U j = (V j).smul c := by
  refine ⟨(U 0).d / (V 0).d, fun j hj => ?_⟩
  induction j with
  | zero =>
    have h1 := mirror_core (hU 0 hj) h.core
    have h2 := h.core
    generalize V 0 = v at *
    generalize U 0 = u at *
    cases v
    cases u
    simp only at h1 h2 hd
    simp [Wave.smul, h1, h2, hd]
  | succ j ih =>
    have hj' : j < L := by omega
    have hxj : ((x (j + 1) : ℝ) : ℂ) ≠ 0 := by exact_mod_cast hx j hj'
    have c1 := star_cont (hm j hj'.le) (hm (j + 1) hj) hxj (h.cont j hj')
    rw [conj_ofReal] at c1
    have c2 := SignWave.cont ((map_ne_zero _).2 (hm j hj'.le)) ((map_ne_zero _).2 (hm (j + 1) hj)) hxj (hU j hj'.le) (hU (j + 1) hj) c1
    rw [ih hj'.le] at c2
    exact Cont.unique (hm j hj'.le) (mul_ne_zero (hm (j + 1) hj) hxj) c2 ((h.cont j hj').smul _)

theorem zero_wave_cont (q : Pol) (n : ℕ) (m m' x : ℂ) : Cont q n m m' x ⟨0, 0⟩ ⟨0, 0⟩ := by
  cases q <;> simp [Cont, Wave.val, Wave.der]

theorem regions_ne_zero {q : Pol} {n L : ℕ} {m : ℕ → ℂ} {x : ℕ → ℝ} {V : ℕ → Wave} (h : Regions q n L m x V) (hm : ∀ j ≤ L, m j ≠ 0)
    (hx : ∀ j < L, x (j + 1) ≠ 0) (hL : V L ≠ ⟨0, 0⟩) : ∀ j ≤ L, V j ≠ ⟨0, 0⟩ := by
  intro j hj h0
  apply hL
  induction L with
  | zero => rwa [show 0 = j by omega]
  | succ L ih =>
    by_cases hjL : j = L + 1
    · rwa [← hjL]
    · by_cases hV : V L = ⟨0, 0⟩
      · have hxj : ((x (L + 1) : ℝ) : ℂ) ≠ 0 := by exact_mod_cast hx L (by omega)
        have c := h.cont L (by omega)
        rw [hV] at c
        exact Cont.unique (hm L (by omega)) (mul_ne_zero (hm (L + 1) le_rfl) hxj) c (zero_wave_cont q n _ _ _)
      · exact absurd (ih ⟨fun j hj => h.cont j (by omega), h.core⟩ (fun j hj => hm j (by omega)) (fun j hj => hx j (by omega)) hV
          (by omega)) hV

/-- In a lossless layer the product of the field with itself is its squared modulus times the phase factor `S`. -/
theorem overlap_phase {q : Pol} {n : ℕ} {m S : ℂ} {w v : Wave} (hm2 : (m ^ 2).im = 0) (hm : m ≠ 0)
    (h : SignWave q n (conj m) w.star m v) (hv : v = w.smul (conj S)) (hS : S * conj S = 1) {r : ℝ} (hr : 0 < r) :
    overlap q n m w m w r = S * (intensity q n m w r : ℝ) := by
  have key : ∀ E : ℂ, conj S * E = conj E → E * E = S * ((‖E‖ ^ 2 : ℝ) : ℂ) := by
    intro E hE
    rw [ofReal_pow, ← mul_conj', ← hE]
    linear_combination -(E * E) * hS
  have hf := mirror_fields h hm hr
  subst hv
  have hmr : conj (m ^ 2) = m ^ 2 := conj_eq_iff_im.2 hm2
  cases q
  · simp only [ConjFields, Wave.smul_val, Wave.smul_der] at hf
    obtain ⟨h1, h2⟩ := hf
    have k1 := key (w.der n (m * r) / m) (by rw [← h2]; ring)
    have k2 := key (w.val n (m * r) / (m ^ 2 * r)) (by rw [map_div₀, map_mul, hmr, conj_ofReal, ← h1]; ring)
    simp only [overlap, intensity]
    push_cast at k1 k2 ⊢
    linear_combination k1 + (n : ℂ) * (n + 1) * k2
  · simp only [ConjFields, Wave.smul_val, Wave.smul_der] at hf
    exact key _ (by rw [← hf.1]; ring)

/-! ## Positivity of the integrated intensity -/

theorem intensity_continuousAt (q : Pol) (n : ℕ) {m : ℂ} (w : Wave) (hm : m ≠ 0) {r : ℝ} (hr : 0 < r) :
    ContinuousAt (intensity q n m w) r := by
  have hr' : (r : ℂ) ≠ 0 := by exact_mod_cast hr.ne'
  have hv := (hasDerivAt_scaled (w.hasDerivAt_val n (mul_ne_zero hm hr'))).continuousAt
  have hd := (hasDerivAt_scaled (w.hasDerivAt_der n (mul_ne_zero hm hr'))).continuousAt
  have hx : ContinuousAt (fun t : ℝ => (t : ℂ)) r := continuous_ofReal.continuousAt
  cases q
  · exact ((hd.div_const m).norm.pow 2).add (continuousAt_const.mul
      ((hv.div (continuousAt_const.mul hx) (mul_ne_zero (pow_ne_zero 2 hm) hr')).norm.pow 2))
  · exact (hv.div_const m).norm.pow 2

theorem exists_intensity_pos (q : Pol) {n : ℕ} (hn : 1 ≤ n) {m : ℂ} {w : Wave} (hm : m ≠ 0) (hw : w ≠ ⟨0, 0⟩) {α β : ℝ} (hα : 0 < α)
    (hαβ : α < β) : ∃ r ∈ Set.Icc α β, 0 < intensity q n m w r := by
  have hz : ∀ r : ℝ, 0 < r → m * (r : ℂ) ≠ 0 := fun r hr => mul_ne_zero hm (by exact_mod_cast hr.ne')
  by_contra hno
  push Not at hno
  have h0 : ∀ r ∈ Set.Icc α β, w.val n (m * r) = 0 := by
    intro r hr
    have h1 := le_antisymm (hno r hr) (intensity_nonneg q n m w r)
    have hr0 : 0 < r := lt_of_lt_of_le hα hr.1
    have hr' : (r : ℂ) ≠ 0 := by exact_mod_cast hr0.ne'
    cases q
    · simp only [intensity] at h1
      have hn' : (0 : ℝ) < n * (n + 1) := by
        have : (1 : ℝ) ≤ n := by exact_mod_cast hn
        positivity
      have h2 : ‖w.val n (m * r) / (m ^ 2 * r)‖ ^ 2 = 0 := by
        have a1 : 0 ≤ ‖w.der n (m * r) / m‖ ^ 2 := by positivity
        have a2 : 0 ≤ ‖w.val n (m * r) / (m ^ 2 * r)‖ ^ 2 := by positivity
        nlinarith
      have h3 := norm_eq_zero.1 (pow_eq_zero_iff (two_ne_zero) |>.1 h2)
      rcases div_eq_zero_iff.1 h3 with h | h
      · exact h
      · exact absurd h (mul_ne_zero (pow_ne_zero 2 hm) hr')
    · simp only [intensity] at h1
      have h3 := norm_eq_zero.1 (pow_eq_zero_iff (two_ne_zero) |>.1 h1)
      rcases div_eq_zero_iff.1 h3 with h | h
      · exact h
      · exact absurd h hm
  have hmid : (α + β) / 2 ∈ Set.Ioo α β := ⟨by linarith, by linarith⟩
  have hpos : 0 < (α + β) / 2 := by linarith
  have hd := hasDerivAt_scaled (w.hasDerivAt_val n (hz _ hpos))
  have hev : (fun t : ℝ => w.val n (m * t)) =ᶠ[𝓝 ((α + β) / 2)] fun _ => 0 := by
    filter_upwards [Ioo_mem_nhds hmid.1 hmid.2] with t ht
    exact h0 t ⟨ht.1.le, ht.2.le⟩
  have hder := hd.unique ((hasDerivAt_const _ (0 : ℂ)).congr_of_eventuallyEq hev)
  apply hw
  refine wave_ext n (hz _ hpos) ?_ ?_
  · rw [h0 _ ⟨hmid.1.le, hmid.2.le⟩]; simp [Wave.val]
  · rw [(mul_eq_zero.1 hder).resolve_left hm]; simp [Wave.der]

theorem intensity_integral_pos (q : Pol) {n : ℕ} (hn : 1 ≤ n) {m : ℂ} {w : Wave} (hm : m ≠ 0) (hw : w ≠ ⟨0, 0⟩) {α β : ℝ}
    (hα : 0 ≤ α) (hαβ : α < β) (hint : IntervalIntegrable (intensity q n m w) volume α β) :
    0 < ∫ r in α..β, intensity q n m w r := by
  have hc1 : α < (α + β) / 2 := by linarith
  have hc2 : (α + β) / 2 < β := by linarith
  have hc0 : 0 < (α + β) / 2 := by linarith
  have s1 : Set.uIcc α ((α + β) / 2) ⊆ Set.uIcc α β := by
    rw [Set.uIcc_of_le hc1.le, Set.uIcc_of_le hαβ.le]; exact Set.Icc_subset_Icc_right hc2.le
  have s2 : Set.uIcc ((α + β) / 2) β ⊆ Set.uIcc α β := by
    rw [Set.uIcc_of_le hc2.le, Set.uIcc_of_le hαβ.le]; exact Set.Icc_subset_Icc_left hc1.le
  rw [← integral_add_adjacent_intervals (hint.mono_set s1) (hint.mono_set s2)]
  have p1 : 0 ≤ ∫ r in α..(α + β) / 2, intensity q n m w r := integral_nonneg hc1.le fun r _ => intensity_nonneg q n m w r
  obtain ⟨r, hr, hpos⟩ := exists_intensity_pos q hn hm hw hc0 hc2
  have p2 : 0 < ∫ r in (α + β) / 2..β, intensity q n m w r :=
    integral_pos hc2 (fun r hr => (intensity_continuousAt q n w hm (lt_of_lt_of_le hc0 hr.1)).continuousWithinAt)
      (fun r _ => intensity_nonneg q n m w r) ⟨r, hr, hpos⟩
  linarith

theorem intensity_integrable (q : Pol) (n : ℕ) {m S : ℂ} {w : Wave} (hm : m ≠ 0) {α β : ℝ} (hα : 0 ≤ α) (hαβ : α ≤ β)
    (hw : 0 < α ∨ w.a = 0) (hS : S * conj S = 1) (h : ∀ r : ℝ, 0 < r → overlap q n m w m w r = S * (intensity q n m w r : ℝ)) :
    IntervalIntegrable (intensity q n m w) volume α β := by
  have h1 := (overlap_integrable q n w w hm hm hα hαβ hw hw).const_mul (conj S)
  rw [intervalIntegrable_iff_integrableOn_Ioc_of_le hαβ] at h1 ⊢
  refine h1.re.congr ?_
  refine (ae_restrict_iff' measurableSet_Ioc).2 (Eventually.of_forall fun r hr => ?_)
  simp only [h r (lt_of_le_of_lt hα hr.1), ← mul_assoc, mul_comm (conj S) S, hS, one_mul]
  exact ofReal_re _

/-! ## A phase for a unit-modulus solution of a linear equation -/

theorem exists_phase {S : ℝ → ℂ} {g : ℝ → ℝ} {U : Set ℝ} (hU : IsOpen U) (hc : U.OrdConnected) {t0 : ℝ} (ht0 : t0 ∈ U)
    (hS : ∀ t ∈ U, HasDerivAt S (2 * I * g t * S t) t) (hg : ContinuousOn g U) (h1 : ‖S t0‖ = 1) :
    ∃ δ : ℝ → ℝ, (∀ t ∈ U, S t = exp (2 * I * δ t)) ∧ ∀ t ∈ U, HasDerivAt δ (g t) t := by
  let δ : ℝ → ℝ := fun t => (S t0).arg / 2 + ∫ s in t0..t, g s
  have hδ : ∀ t ∈ U, HasDerivAt δ (g t) t := by
    intro t ht
    have hsub : Set.uIcc t0 t ⊆ U := hc.uIcc_subset ht0 ht
    have := integral_hasDerivAt_right ((hg.mono hsub).intervalIntegrable) (hg.stronglyMeasurableAtFilter hU t ht)
      (hg.continuousAt (hU.mem_nhds ht))
    exact this.const_add ((S t0).arg / 2)
  refine ⟨δ, fun t ht => ?_, hδ⟩
  have hF : ∀ s ∈ U, HasDerivAt (fun s => S s * exp (-(2 * I * δ s))) 0 s := by
    intro s hs
    have e1 : HasDerivAt (fun s => ((δ s : ℝ) : ℂ)) (g s) s := (hδ s hs).ofReal_comp
    have e2 : HasDerivAt (fun s => exp (-(2 * I * (δ s : ℂ)))) (exp (-(2 * I * δ s)) * -(2 * I * g s)) s :=
      ((e1.const_mul (2 * I)).neg).cexp
    refine ((hS s hs).mul e2).congr_deriv ?_
    ring
  have hconst : S t * exp (-(2 * I * δ t)) = S t0 * exp (-(2 * I * δ t0)) := by
    have hconv : Convex ℝ U := hc.convex
    refine hconv.is_const_of_fderivWithin_eq_zero (𝕜 := ℝ) (f := fun s => S s * exp (-(2 * I * δ s)))
      (fun s hs => (hF s hs).differentiableAt.differentiableWithinAt) (fun s hs => ?_) ht ht0
    rw [fderivWithin_of_isOpen hU hs]
    have := (hF s hs).hasFDerivAt.fderiv
    rw [this]
    ext
    simp
  have hδ0 : δ t0 = (S t0).arg / 2 := by simp [δ]
  have hS0 : S t0 = exp (2 * I * δ t0) := by
    rw [hδ0]
    have := norm_mul_exp_arg_mul_I (S t0)
    rw [h1, ofReal_one, one_mul] at this
    rw [← this]
    congr 1
    rw [this]
    push_cast
    ring
  have h2 : S t0 * exp (-(2 * I * δ t0)) = 1 := by
    nth_rewrite 1 [hS0]
    rw [← Complex.exp_add]
    simp
  rw [h2] at hconst
  have := congrArg (· * exp (2 * I * δ t)) hconst
  simp only [mul_assoc, ← Complex.exp_add, neg_add_cancel, Complex.exp_zero, mul_one, one_mul] at this
  rw [this]
  ring_nf

end MieDiff
