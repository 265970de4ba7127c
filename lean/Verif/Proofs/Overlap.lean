import Verif.Proofs.ScatterWaves
import Mathlib.MeasureTheory.Integral.DominatedConvergence
import Mathlib.MeasureTheory.Integral.IntervalIntegral.FundThmCalculus

/-!
# The bracket of two solutions

For two layered spheres with the same interfaces the bracket (reciprocity combination of the tangential fields) is continuous at the
interfaces; its derivative is the contrast of the squared indices times the product of the fields.
-/

namespace MieDiff

open Complex Spec Filter Topology MeasureTheory intervalIntegral
open scoped ContDiff

/-- Specification: the product of the electric fields of a multipole of order `n` in two media, integrated over the directions, up to
a constant: wave `w` in the medium `m`, `w'` in `m'`, at size parameter `rho`.  Tangential and (electric multipoles) radial part. -/
noncomputable def overlap (q : Pol) (n : ℕ) (m : ℂ) (w : Wave) (m' : ℂ) (w' : Wave) (rho : ℝ) : ℂ :=
  match q with
  | .tm => w.der n (m * rho) / m * (w'.der n (m' * rho) / m') +
      n * (n + 1) * (w.val n (m * rho) / (m ^ 2 * rho)) * (w'.val n (m' * rho) / (m' ^ 2 * rho))
  | .te => w.val n (m * rho) / m * (w'.val n (m' * rho) / m')

/-- The reciprocity bracket. -/
noncomputable def bracket (q : Pol) (n : ℕ) (m : ℂ) (w : Wave) (m' : ℂ) (w' : Wave) (rho : ℝ) : ℂ :=
  match q with
  | .tm => w.val n (m * rho) * (w'.der n (m' * rho) / m') - w'.val n (m' * rho) * (w.der n (m * rho) / m)
  | .te => w.val n (m * rho) / m * w'.der n (m' * rho) - w'.val n (m' * rho) / m' * w.der n (m * rho)

theorem bracket_cont {q : Pol} {n : ℕ} {m1 m2 m1' m2' : ℂ} {w1 w2 w1' w2' : Wave} {x : ℝ} (h1 : m1 ≠ 0) (h2 : m2 ≠ 0) (h1' : m1' ≠ 0)
    (h2' : m2' ≠ 0) (h : Cont q n m1 m2 x w1 w2) (h' : Cont q n m1' m2' x w1' w2') :
    bracket q n m1 w1 m1' w1' x = bracket q n m2 w2 m2' w2' x := by
  cases q <;> simp only [Cont] at h h' <;> simp only [bracket]
  · rw [h.1, h'.1, show w1.der n (m1 * x) / m1 = w2.der n (m2 * x) / m2 by rw [div_eq_div_iff h1 h2]; exact h.2,
      show w1'.der n (m1' * x) / m1' = w2'.der n (m2' * x) / m2' by rw [div_eq_div_iff h1' h2']; exact h'.2]
  · rw [h.2, h'.2, show w1.val n (m1 * x) / m1 = w2.val n (m2 * x) / m2 by rw [div_eq_div_iff h1 h2]; exact h.1,
      show w1'.val n (m1' * x) / m1' = w2'.val n (m2' * x) / m2' by rw [div_eq_div_iff h1' h2']; exact h'.1]

theorem bracket_host (q : Pol) (n : ℕ) (a a' : ℂ) {x : ℝ} (hx : x ≠ 0) :
    bracket q n 1 ⟨1, a⟩ 1 ⟨1, a'⟩ x = I * (a - a') := by
  have hz : (x : ℂ) ≠ 0 := by exact_mod_cast hx
  have w := wave_d ⟨1, 0⟩ n hz
  simp only [Wave.val, Wave.der, one_mul, zero_mul, sub_zero] at w
  cases q <;> simp only [bracket, Wave.val, Wave.der, one_mul, div_one] <;> linear_combination (a - a') * w

theorem hasDerivAt_bracket (q : Pol) (n : ℕ) {m m' : ℂ} (w w' : Wave) (hm : m ≠ 0) (hm' : m' ≠ 0) {r : ℝ} (hr : 0 < r) :
    HasDerivAt (bracket q n m w m' w') ((m ^ 2 - m' ^ 2) * overlap q n m w m' w' r) r := by
  have hr' : (r : ℂ) ≠ 0 := by exact_mod_cast hr.ne'
  have hv := hasDerivAt_scaled (w.hasDerivAt_val n (mul_ne_zero hm hr'))
  have hd := hasDerivAt_scaled (w.hasDerivAt_der n (mul_ne_zero hm hr'))
  have hv' := hasDerivAt_scaled (w'.hasDerivAt_val n (mul_ne_zero hm' hr'))
  have hd' := hasDerivAt_scaled (w'.hasDerivAt_der n (mul_ne_zero hm' hr'))
  cases q
  · refine ((hv.mul (hd'.div_const m')).sub (hv'.mul (hd.div_const m))).congr_deriv ?_
    simp only [overlap]
    generalize w.val n (m * r) = v
    generalize w.der n (m * r) = d
    generalize w'.val n (m' * r) = v'
    generalize w'.der n (m' * r) = d'
    field_simp
    ring
  · refine (((hv.div_const m).mul hd').sub ((hv'.div_const m').mul hd)).congr_deriv ?_
    simp only [overlap]
    generalize w.val n (m * r) = v
    generalize w.der n (m * r) = d
    generalize w'.val n (m' * r) = v'
    generalize w'.der n (m' * r) = d'
    field_simp
    ring

/-! ## Bounds -/

theorem compact_bound {f : ℂ → ℂ} (hf : ∀ z, z ≠ 0 → ContinuousAt f z) {δ R : ℝ} (hδ : 0 < δ) :
    ∃ C : ℝ, 0 ≤ C ∧ ∀ z : ℂ, δ ≤ ‖z‖ → ‖z‖ ≤ R → ‖f z‖ ≤ C := by
  have hc : IsCompact (Metric.closedBall (0 : ℂ) R \ Metric.ball 0 δ) := (isCompact_closedBall 0 R).diff Metric.isOpen_ball
  obtain ⟨C, hC⟩ := hc.exists_bound_of_continuousOn (f := f) fun z hz => (hf z (by
    rintro rfl
    exact hz.2 (by simpa using hδ))).continuousWithinAt
  exact ⟨|C|, abs_nonneg C, fun z h1 h2 => (hC z ⟨by simpa using h2, by simpa using h1⟩).trans (le_abs_self C)⟩

theorem psi_bound (n : ℕ) (R : ℝ) : ∃ C : ℝ, 0 ≤ C ∧ ∀ z : ℂ, z ≠ 0 → ‖z‖ ≤ R →
    ‖ricPsi n z‖ ≤ C * ‖z‖ ∧ ‖deriv (ricPsi n) z‖ ≤ C := by
  obtain ⟨C1, h1, b1⟩ := compact_bound (f := ricPsi n) (fun z hz => (hasDerivAt_ricPsi n hz).continuousAt) (R := R) one_pos
  obtain ⟨C2, h2, b2⟩ := compact_bound (f := deriv (ricPsi n)) (fun z hz => (hasDerivAt_dricPsi n hz).continuousAt) (R := R) one_pos
  have hn : (0 : ℝ) ≤ n := Nat.cast_nonneg n
  refine ⟨C1 + C2 + 2 * (n + 2), by positivity, fun z hz hR => ?_⟩
  rcases le_total ‖z‖ 1 with h | h
  · have a1 := norm_ricPsi_le n hz h
    have a2 := norm_dricPsi_le n hz h
    have p : ‖z‖ ^ n ≤ 1 := pow_le_one₀ (norm_nonneg _) h
    have z0 := norm_nonneg z
    rw [pow_succ] at a1
    constructor
    · have : ‖z‖ ^ n * ‖z‖ ≤ 1 * ‖z‖ := mul_le_mul_of_nonneg_right p z0
      nlinarith
    · have : 2 * ((n : ℝ) + 2) * ‖z‖ ^ n ≤ 2 * (n + 2) * 1 := mul_le_mul_of_nonneg_left p (by positivity)
      linarith
  · have a1 := b1 z h hR
    have a2 := b2 z h hR
    constructor
    · have : C1 * 1 ≤ C1 * ‖z‖ := mul_le_mul_of_nonneg_left h h1
      nlinarith [norm_nonneg z]
    · linarith

theorem zeta_bound (n : ℕ) {δ R : ℝ} (hδ : 0 < δ) : ∃ C : ℝ, 0 ≤ C ∧ ∀ z : ℂ, δ ≤ ‖z‖ → ‖z‖ ≤ R →
    ‖ricZeta n z‖ ≤ C * ‖z‖ ∧ ‖deriv (ricZeta n) z‖ ≤ C := by
  obtain ⟨C1, h1, b1⟩ := compact_bound (f := ricZeta n) (fun z hz => (hasDerivAt_ricZeta n hz).continuousAt) (R := R) hδ
  obtain ⟨C2, h2, b2⟩ := compact_bound (f := deriv (ricZeta n)) (fun z hz => (hasDerivAt_dricZeta n hz).continuousAt) (R := R) hδ
  refine ⟨C1 / δ + C2, by positivity, fun z h hR => ?_⟩
  have a1 := b1 z h hR
  have a2 := b2 z h hR
  have : C1 ≤ C1 / δ * ‖z‖ := by
    rw [div_mul_eq_mul_div, le_div_iff₀ hδ]
    exact mul_le_mul_of_nonneg_left h h1
  exact ⟨by nlinarith [norm_nonneg z], by have : 0 ≤ C1 / δ := by positivity
                                          linarith⟩

/-- Bound of the fields of a wave in a shell (or, for regular waves, in a ball). -/
theorem wave_bound (n : ℕ) {α β μ M : ℝ} (hα : 0 ≤ α) (hμ : 0 < μ) (D : ℝ) : ∃ C : ℝ, 0 ≤ C ∧ ∀ (m : ℂ) (w : Wave), μ ≤ ‖m‖ → ‖m‖ ≤ M →
    ‖w.d‖ ≤ D → ‖w.a‖ ≤ D → (0 < α ∨ w.a = 0) → ∀ r : ℝ, α < r → r ≤ β → ‖w.val n (m * r)‖ ≤ C * r ∧ ‖w.der n (m * r)‖ ≤ C := by
  obtain ⟨C1, h1, b1⟩ := psi_bound n (M * β)
  obtain ⟨C2, h2, b2⟩ : ∃ C : ℝ, 0 ≤ C ∧ (0 < α → ∀ z : ℂ, μ * α ≤ ‖z‖ → ‖z‖ ≤ M * β →
      ‖ricZeta n z‖ ≤ C * ‖z‖ ∧ ‖deriv (ricZeta n) z‖ ≤ C) := by
    by_cases h : 0 < α
    · obtain ⟨C, h1, h2⟩ := zeta_bound n (R := M * β) (mul_pos hμ h)
      exact ⟨C, h1, fun _ => h2⟩
    · exact ⟨0, le_rfl, fun h' => absurd h' h⟩
  refine ⟨|D| * (C1 + C2) * (|M| + 1), by positivity, fun m w hm hM hd ha hreg r hr hβ => ?_⟩
  have hr0 : 0 < r := lt_of_le_of_lt hα hr
  have hz : ‖m * (r : ℂ)‖ = ‖m‖ * r := by rw [norm_mul, norm_real, Real.norm_of_nonneg hr0.le]
  have hm0 : m ≠ 0 := by
    rintro rfl
    rw [norm_zero] at hm
    linarith
  have hz0 : m * (r : ℂ) ≠ 0 := mul_ne_zero hm0 (by exact_mod_cast hr0.ne')
  have hR : ‖m * (r : ℂ)‖ ≤ M * β := by
    rw [hz]
    exact mul_le_mul hM hβ hr0.le ((norm_nonneg m).trans hM)
  obtain ⟨a1, a2⟩ := b1 _ hz0 hR
  have hd' : ‖w.d‖ ≤ |D| := hd.trans (le_abs_self D)
  have ha' : ‖w.a‖ ≤ |D| := ha.trans (le_abs_self D)
  have hM' : ‖m‖ ≤ |M| + 1 := by linarith [le_abs_self M]
  have key : ‖w.a * ricZeta n (m * r)‖ ≤ |D| * C2 * (‖m‖ * r) ∧ ‖w.a * deriv (ricZeta n) (m * r)‖ ≤ |D| * C2 := by
    rcases hreg with h | h
    · have hl : μ * α ≤ ‖m * (r : ℂ)‖ := by
        rw [hz]
        exact mul_le_mul hm hr.le hα (norm_nonneg m)
      obtain ⟨c1, c2⟩ := b2 h _ hl hR
      rw [norm_mul, norm_mul]
      constructor
      · rw [mul_assoc]
        refine mul_le_mul ha' ?_ (norm_nonneg _) (abs_nonneg D)
        rwa [hz] at c1
      · exact mul_le_mul ha' c2 (norm_nonneg _) (abs_nonneg D)
    · rw [h, zero_mul, zero_mul, norm_zero]
      exact ⟨by positivity, by positivity⟩
  have hD := abs_nonneg D
  constructor
  · have e : ‖w.val n (m * r)‖ ≤ |D| * (C1 + C2) * (‖m‖ * r) := by
      refine (norm_sub_le _ _).trans ?_
      have : ‖w.d * ricPsi n (m * r)‖ ≤ |D| * C1 * (‖m‖ * r) := by
        rw [norm_mul, mul_assoc]
        refine mul_le_mul hd' ?_ (norm_nonneg _) hD
        rwa [hz] at a1
      have := key.1
      linarith
    refine e.trans ?_
    rw [mul_assoc (|D| * (C1 + C2))]
    refine mul_le_mul_of_nonneg_left (mul_le_mul_of_nonneg_right hM' hr0.le) (by positivity)
  · have e : ‖w.der n (m * r)‖ ≤ |D| * (C1 + C2) * 1 := by
      refine (norm_sub_le _ _).trans ?_
      have : ‖w.d * deriv (ricPsi n) (m * r)‖ ≤ |D| * C1 := by
        rw [norm_mul]
        exact mul_le_mul hd' a2 (norm_nonneg _) hD
      have := key.2
      linarith
    refine e.trans (mul_le_mul_of_nonneg_left ?_ (by positivity))
    linarith [abs_nonneg M]

/-- Bound of the product of the fields. -/
theorem overlap_bound (q : Pol) (n : ℕ) {α β μ M : ℝ} (hα : 0 ≤ α) (hμ : 0 < μ) (D : ℝ) : ∃ C : ℝ, ∀ (m m' : ℂ) (w w' : Wave),
    μ ≤ ‖m‖ → ‖m‖ ≤ M → μ ≤ ‖m'‖ → ‖m'‖ ≤ M → ‖w.d‖ ≤ D → ‖w.a‖ ≤ D → ‖w'.d‖ ≤ D → ‖w'.a‖ ≤ D →
    (0 < α ∨ w.a = 0) → (0 < α ∨ w'.a = 0) → ∀ r : ℝ, α < r → r ≤ β → ‖overlap q n m w m' w' r‖ ≤ C := by
  obtain ⟨C, hC, hb⟩ := wave_bound n (β := β) (M := M) hα hμ D
  refine ⟨C / μ * (C / μ) + n * (n + 1) * (C / μ ^ 2) * (C / μ ^ 2) + C * |β| / μ * (C * |β| / μ),
    fun m m' w w' h1 h2 h1' h2' d1 d2 d1' d2' g g' r hr hβ => ?_⟩
  have hr0 : 0 < r := lt_of_le_of_lt hα hr
  have hβ' : r ≤ |β| := hβ.trans (le_abs_self β)
  obtain ⟨v, d⟩ := hb m w h1 h2 d1 d2 g r hr hβ
  obtain ⟨v', d'⟩ := hb m' w' h1' h2' d1' d2' g' r hr hβ
  have T : ∀ {m : ℂ} {w : Wave}, μ ≤ ‖m‖ → ‖w.val n (m * r)‖ ≤ C * r → ‖w.der n (m * r)‖ ≤ C →
      ‖w.der n (m * r) / m‖ ≤ C / μ ∧ ‖w.val n (m * r) / m‖ ≤ C * |β| / μ ∧ ‖w.val n (m * r) / (m ^ 2 * r)‖ ≤ C / μ ^ 2 := by
    intro m w h v d
    refine ⟨?_, ?_, ?_⟩
    · rw [norm_div]
      exact div_le_div₀ hC d hμ h
    · rw [norm_div]
      exact div_le_div₀ (by positivity) (v.trans (mul_le_mul_of_nonneg_left hβ' hC)) hμ h
    · rw [norm_div, norm_mul, norm_pow, norm_real, Real.norm_of_nonneg hr0.le]
      have h2 : μ ^ 2 ≤ ‖m‖ ^ 2 := pow_le_pow_left₀ hμ.le h 2
      calc _ ≤ C * r / (μ ^ 2 * r) := div_le_div₀ (by positivity) v (by positivity) (mul_le_mul_of_nonneg_right h2 hr0.le)
        _ = C / μ ^ 2 := by field_simp
  obtain ⟨t1, t2, t3⟩ := T h1 v d
  obtain ⟨t1', t2', t3'⟩ := T h1' v' d'
  cases q
  · refine (norm_add_le _ _).trans ?_
    have e1 : ‖w.der n (m * r) / m * (w'.der n (m' * r) / m')‖ ≤ C / μ * (C / μ) := by
      rw [norm_mul]
      exact mul_le_mul t1 t1' (norm_nonneg _) (by positivity)
    have e2 : ‖(n : ℂ) * (n + 1) * (w.val n (m * r) / (m ^ 2 * r)) * (w'.val n (m' * r) / (m' ^ 2 * r))‖ ≤
        n * (n + 1) * (C / μ ^ 2) * (C / μ ^ 2) := by
      rw [norm_mul, norm_mul, show ((n : ℂ) * (n + 1)) = ((n * (n + 1) : ℕ) : ℂ) by push_cast; ring, norm_natCast]
      push_cast
      refine mul_le_mul (mul_le_mul_of_nonneg_left t3 (by positivity)) t3' (norm_nonneg _) (by positivity)
    have e3 : 0 ≤ C * |β| / μ * (C * |β| / μ) := by positivity
    linarith
  · have e1 : ‖w.val n (m * r) / m * (w'.val n (m' * r) / m')‖ ≤ C * |β| / μ * (C * |β| / μ) := by
      rw [norm_mul]
      exact mul_le_mul t2 t2' (norm_nonneg _) (by positivity)
    have e2 : 0 ≤ C / μ * (C / μ) + n * (n + 1) * (C / μ ^ 2) * (C / μ ^ 2) := by positivity
    show ‖w.val n (m * r) / m * (w'.val n (m' * r) / m')‖ ≤ _
    linarith

theorem overlap_continuousAt (q : Pol) (n : ℕ) {m m' : ℂ} (w w' : Wave) (hm : m ≠ 0) (hm' : m' ≠ 0) {r : ℝ} (hr : 0 < r) :
    ContinuousAt (overlap q n m w m' w') r := by
  have hr' : (r : ℂ) ≠ 0 := by exact_mod_cast hr.ne'
  have hv := (hasDerivAt_scaled (w.hasDerivAt_val n (mul_ne_zero hm hr'))).continuousAt
  have hd := (hasDerivAt_scaled (w.hasDerivAt_der n (mul_ne_zero hm hr'))).continuousAt
  have hv' := (hasDerivAt_scaled (w'.hasDerivAt_val n (mul_ne_zero hm' hr'))).continuousAt
  have hd' := (hasDerivAt_scaled (w'.hasDerivAt_der n (mul_ne_zero hm' hr'))).continuousAt
  have hx : ContinuousAt (fun t : ℝ => (t : ℂ)) r := continuous_ofReal.continuousAt
  have hq : ∀ k : ℂ, k ≠ 0 → (k ^ 2 * (r : ℂ)) ≠ 0 := fun k hk => mul_ne_zero (pow_ne_zero 2 hk) hr'
  cases q
  · exact ((hd.div_const m).mul (hd'.div_const m')).add ((continuousAt_const.mul (hv.div (continuousAt_const.mul hx) (hq m hm))).mul
      (hv'.div (continuousAt_const.mul hx) (hq m' hm')))
  · exact (hv.div_const m).mul (hv'.div_const m')

theorem overlap_aesm (q : Pol) (n : ℕ) {m m' : ℂ} (w w' : Wave) (hm : m ≠ 0) (hm' : m' ≠ 0) {α β : ℝ} (hα : 0 ≤ α) :
    AEStronglyMeasurable (overlap q n m w m' w') (volume.restrict (Set.Ioc α β)) := by
  refine ContinuousOn.aestronglyMeasurable (fun r hr => ?_) measurableSet_Ioc
  exact (overlap_continuousAt q n w w' hm hm' (lt_of_le_of_lt hα hr.1)).continuousWithinAt

theorem overlap_integrable (q : Pol) (n : ℕ) {m m' : ℂ} (w w' : Wave) (hm : m ≠ 0) (hm' : m' ≠ 0) {α β : ℝ} (hα : 0 ≤ α) (hαβ : α ≤ β)
    (hw : 0 < α ∨ w.a = 0) (hw' : 0 < α ∨ w'.a = 0) : IntervalIntegrable (overlap q n m w m' w') volume α β := by
  have h1 : 0 < ‖m‖ := norm_pos_iff.2 hm
  have h2 : 0 < ‖m'‖ := norm_pos_iff.2 hm'
  obtain ⟨C, hC⟩ := overlap_bound q n (β := β) (M := ‖m‖ + ‖m'‖) hα (lt_min h1 h2) (‖w.d‖ + ‖w.a‖ + ‖w'.d‖ + ‖w'.a‖)
  have g1 := norm_nonneg w.d
  have g2 := norm_nonneg w.a
  have g3 := norm_nonneg w'.d
  have g4 := norm_nonneg w'.a
  rw [intervalIntegrable_iff_integrableOn_Ioc_of_le hαβ]
  refine Integrable.of_bound (overlap_aesm q n w w' hm hm' hα) C ?_
  refine (ae_restrict_iff' measurableSet_Ioc).2 (Eventually.of_forall fun r hr => ?_)
  exact hC m m' w w' (min_le_left _ _) (by linarith) (min_le_right _ _) (by linarith) (by linarith) (by linarith) (by linarith)
    (by linarith) hw hw' r hr.1 hr.2

/-- The bracket of two regular waves vanishes at the centre. -/
theorem bracket_zero (q : Pol) (n : ℕ) (m m' d d' : ℂ) : bracket q n m ⟨d, 0⟩ m' ⟨d', 0⟩ 0 = 0 := by
  cases q <;> simp [bracket, Wave.val, ricPsi]

theorem bracket_continuousOn (q : Pol) (n : ℕ) {m m' : ℂ} (w w' : Wave) (hm : m ≠ 0) (hm' : m' ≠ 0) {α β : ℝ} (hα : 0 ≤ α)
    (hw : 0 < α ∨ w.a = 0) (hw' : 0 < α ∨ w'.a = 0) : ContinuousOn (bracket q n m w m' w') (Set.Icc α β) := by
  intro r hr
  rcases (hα.trans hr.1).lt_or_eq with h0 | h0
  · exact (hasDerivAt_bracket q n w w' hm hm' h0).continuousAt.continuousWithinAt
  · subst h0
    have hα0 : ¬0 < α := not_lt.2 hr.1
    obtain ⟨d, a⟩ := w
    obtain ⟨d', a'⟩ := w'
    obtain rfl : a = 0 := hw.resolve_left hα0
    obtain rfl : a' = 0 := hw'.resolve_left hα0
    refine ContinuousWithinAt.mono (t := Set.Ici 0) ?_ fun y hy => hα.trans hy.1
    refine continuousWithinAt_Ioi_iff_Ici.1 ?_
    show Tendsto _ _ _
    rw [bracket_zero]
    have h1 : 0 < ‖m‖ := norm_pos_iff.2 hm
    have h2 : 0 < ‖m'‖ := norm_pos_iff.2 hm'
    obtain ⟨C, hC, hb⟩ := wave_bound n (α := 0) (β := 1) (M := ‖m‖ + ‖m'‖) le_rfl (lt_min h1 h2) (‖d‖ + ‖d'‖)
    have g1 := norm_nonneg d
    have g2 := norm_nonneg d'
    have hl : Tendsto (fun r : ℝ => (C * C / ‖m‖ + C * C / ‖m'‖) * r) (𝓝[>] 0) (𝓝 0) := by
      have : Tendsto (fun r : ℝ => (C * C / ‖m‖ + C * C / ‖m'‖) * r) (𝓝 0) (𝓝 ((C * C / ‖m‖ + C * C / ‖m'‖) * 0)) :=
        tendsto_id.const_mul _
      rw [mul_zero] at this
      exact this.mono_left nhdsWithin_le_nhds
    refine squeeze_zero_norm' ?_ hl
    filter_upwards [Ioo_mem_nhdsGT (zero_lt_one (α := ℝ))] with r hr
    obtain ⟨v, e⟩ := hb m ⟨d, 0⟩ (min_le_left _ _) (by linarith) (by simp) (by simp; linarith) (.inr rfl) r hr.1 hr.2.le
    obtain ⟨v', e'⟩ := hb m' ⟨d', 0⟩ (min_le_right _ _) (by linarith) (by simp) (by simp; linarith) (.inr rfl) r hr.1 hr.2.le
    have r0 := hr.1.le
    have p1 := norm_nonneg ((⟨d, 0⟩ : Wave).val n (m * r))
    have p2 := norm_nonneg ((⟨d', 0⟩ : Wave).val n (m' * r))
    have k1 : ‖(⟨d, 0⟩ : Wave).val n (m * r)‖ * ‖(⟨d', 0⟩ : Wave).der n (m' * r)‖ ≤ C * r * C := mul_le_mul v e' (norm_nonneg _) (by positivity)
    have k2 : ‖(⟨d', 0⟩ : Wave).val n (m' * r)‖ * ‖(⟨d, 0⟩ : Wave).der n (m * r)‖ ≤ C * r * C := mul_le_mul v' e (norm_nonneg _) (by positivity)
    cases q <;> refine (norm_sub_le _ _).trans ?_ <;> simp only [norm_mul, norm_div] <;> rw [add_mul]
    · rw [add_comm]
      refine add_le_add ?_ ?_
      · rw [← mul_div_assoc, div_mul_eq_mul_div]
        exact div_le_div_of_nonneg_right (by linarith) h1.le
      · rw [← mul_div_assoc, div_mul_eq_mul_div]
        exact div_le_div_of_nonneg_right (by linarith) h2.le
    · refine add_le_add ?_ ?_
      · rw [div_mul_eq_mul_div, div_mul_eq_mul_div]
        exact div_le_div_of_nonneg_right (by linarith) h1.le
      · rw [div_mul_eq_mul_div, div_mul_eq_mul_div]
        exact div_le_div_of_nonneg_right (by linarith) h2.le

/-- Change of the bracket across one medium. -/
theorem bracket_integral (q : Pol) (n : ℕ) {m m' : ℂ} (w w' : Wave) (hm : m ≠ 0) (hm' : m' ≠ 0) {α β : ℝ} (hα : 0 ≤ α) (hαβ : α ≤ β)
    (hw : 0 < α ∨ w.a = 0) (hw' : 0 < α ∨ w'.a = 0) :
    (m ^ 2 - m' ^ 2) * ∫ r in α..β, overlap q n m w m' w' r = bracket q n m w m' w' β - bracket q n m w m' w' α := by
  rw [← intervalIntegral.integral_const_mul]
  exact integral_eq_sub_of_hasDerivAt_of_le hαβ (bracket_continuousOn q n w w' hm hm' hα hw hw')
    (fun r hr => hasDerivAt_bracket q n w w' hm hm' (lt_of_le_of_lt hα hr.1))
    ((overlap_integrable q n w w' hm hm' hα hαβ hw hw').const_mul _)

/-! ## All media -/

/-- Waves in `L` media with indices `m`, between the size parameters `x j` and `x (j + 1)`: regular in the core, continuous at the
interfaces. -/
structure Regions (q : Pol) (n L : ℕ) (m : ℕ → ℂ) (x : ℕ → ℝ) (V : ℕ → Wave) : Prop where
  cont : ∀ j < L, Cont q n (m j) (m (j + 1)) (x (j + 1)) (V j) (V (j + 1))
  core : (V 0).a = 0

theorem regions_overlap {q : Pol} {n L : ℕ} {m m' : ℕ → ℂ} {x : ℕ → ℝ} {V V' : ℕ → Wave} (h : Regions q n L m x V)
    (h' : Regions q n L m' x V') (hm : ∀ j ≤ L, m j ≠ 0) (hm' : ∀ j ≤ L, m' j ≠ 0) (x0 : x 0 = 0) (hx : ∀ j < L, x j < x (j + 1)) :
    ∀ k ≤ L, ∑ j ∈ Finset.range k, (m j ^ 2 - m' j ^ 2) * ∫ r in x j..x (j + 1), overlap q n (m j) (V j) (m' j) (V' j) r =
      bracket q n (m k) (V k) (m' k) (V' k) (x k) := by
  have hpos : ∀ j, j ≤ L → 0 ≤ x j ∧ (j ≠ 0 → 0 < x j) := by
    intro j
    induction j with
    | zero => exact fun _ => ⟨x0.ge, fun h => absurd rfl h⟩
    | succ j ih =>
      intro hj
      have := (ih (by omega)).1
      have h2 := hx j (by omega)
      exact ⟨by linarith, fun _ => by linarith⟩
  intro k
  induction k with
  | zero =>
    intro _
    rw [Finset.sum_range_zero, x0]
    have h1 := h.core
    have h2 := h'.core
    generalize V 0 = u at *
    generalize V' 0 = v at *
    cases u; cases v
    simp only at h1 h2
    rw [h1, h2, bracket_zero]
  | succ k ih =>
    intro hk
    have hreg : ∀ {q : Pol} {m : ℕ → ℂ} {V : ℕ → Wave}, Regions q n L m x V → 0 < x k ∨ (V k).a = 0 := by
      intro q m V hV
      by_cases h0 : k = 0
      · subst h0; exact .inr hV.core
      · exact .inl ((hpos k (by omega)).2 h0)
    rw [Finset.sum_range_succ, ih (by omega), bracket_integral q n (V k) (V' k) (hm k (by omega)) (hm' k (by omega)) (hpos k (by omega)).1
      (hx k (by omega)).le (hreg h) (hreg h'), add_sub_cancel]
    exact bracket_cont (hm k (by omega)) (hm _ hk) (hm' k (by omega)) (hm' _ hk) (h.cont k (by omega)) (h'.cont k (by omega))

/-! ## A medium that depends on a parameter -/

open Classical in
/-- The wave outside an interface. -/
noncomputable def stepWave (q : Pol) (n : ℕ) (m m' : ℂ) (x : ℝ) (w : Wave) : Wave :=
  if h : ∃ w', Cont q n m m' x w w' then h.choose else w

theorem stepWave_spec (q : Pol) (n : ℕ) {m m' : ℂ} {x : ℝ} (hm : m ≠ 0) (hm' : m' ≠ 0) (hx : x ≠ 0) (w : Wave) :
    Cont q n m m' x w (stepWave q n m m' x w) := by
  have h := cont_exists' q n hm hm' (x := (x : ℂ)) (by exact_mod_cast hx) w
  rw [stepWave, dif_pos h]
  exact h.choose_spec

noncomputable def outWaves (q : Pol) (n : ℕ) (m : ℕ → ℂ) (x : ℕ → ℝ) (w : Wave) : ℕ → Wave
  | 0 => w
  | i + 1 => stepWave q n (m i) (m (i + 1)) (x (i + 1)) (outWaves q n m x w i)

theorem outWaves_cont (q : Pol) (n : ℕ) {L : ℕ} {m : ℕ → ℂ} {x : ℕ → ℝ} (hm : ∀ j ≤ L, m j ≠ 0) (hx : ∀ j < L, x (j + 1) ≠ 0) (w : Wave)
    {j : ℕ} (hj : j < L) : Cont q n (m j) (m (j + 1)) (x (j + 1)) (outWaves q n m x w j) (outWaves q n m x w (j + 1)) :=
  stepWave_spec q n (hm j hj.le) (hm (j + 1) hj) (hx j hj) _

theorem outWaves_unique {q : Pol} {n L : ℕ} {m : ℕ → ℂ} {x : ℕ → ℝ} {V : ℕ → Wave} (h : Regions q n L m x V) (hm : ∀ j ≤ L, m j ≠ 0)
    (hx : ∀ j < L, x (j + 1) ≠ 0) : ∀ j ≤ L, outWaves q n m x (V 0) j = V j := by
  intro j
  induction j with
  | zero => exact fun _ => rfl
  | succ j ih =>
    intro hj
    have h1 := outWaves_cont q n hm hx (V 0) (j := j) (by omega)
    rw [ih (by omega)] at h1
    exact h1.unique (hm j (by omega)) (mul_ne_zero (hm _ hj) (by exact_mod_cast hx j (by omega))) (h.cont j (by omega))

theorem outWaves_analytic {𝕜 : Type*} [NontriviallyNormedField 𝕜] [NormedAlgebra 𝕜 ℂ] {E : Type*} [NormedAddCommGroup E]
    [NormedSpace 𝕜 E] (q : Pol) (n : ℕ) {L : ℕ} {m : E → ℕ → ℂ} {x : E → ℕ → ℝ} {e0 : E} (hm : ∀ j ≤ L, m e0 j ≠ 0)
    (hm' : ∀ j ≤ L, ContDiffAt 𝕜 ω (fun e => m e j) e0) (hx : ∀ j < L, x e0 (j + 1) ≠ 0)
    (hx' : ∀ j < L, ContDiffAt 𝕜 ω (fun e => (x e (j + 1) : ℂ)) e0) (w : Wave) :
    ∀ j ≤ L, WaveAn 𝕜 e0 fun e => outWaves q n (m e) (x e) w j := by
  intro j
  induction j with
  | zero => exact fun _ => ⟨contDiffAt_const (c := w.d), contDiffAt_const (c := w.a)⟩
  | succ j ih =>
    intro hj
    have hx0 : (x e0 (j + 1) : ℂ) ≠ 0 := by exact_mod_cast hx j (by omega)
    refine cont_analytic (q := q) (n := n) (hm' j (by omega)) (hm' (j + 1) hj) (hx' j (by omega)) (hm j (by omega))
      (hm _ hj) hx0 (ih (by omega)) ?_
    filter_upwards [(hm' j (by omega)).continuousAt.eventually_ne (hm j (by omega)),
      (hm' (j + 1) hj).continuousAt.eventually_ne (hm _ hj), (hx' j (by omega)).continuousAt.eventually_ne hx0] with e h1 h2 h3
    exact stepWave_spec q n h1 h2 (by exact_mod_cast h3) _

theorem Regions.smul {q : Pol} {n L : ℕ} {m : ℕ → ℂ} {x : ℕ → ℝ} {V : ℕ → Wave} (h : Regions q n L m x V) (s : ℂ) :
    Regions q n L m x fun j => (V j).smul s :=
  ⟨fun j hj => (h.cont j hj).smul s, by simp [Wave.smul, h.core]⟩

/-- The overlap integral depends continuously on the second medium and wave. -/
theorem overlap_tendsto (q : Pol) (n : ℕ) {m : ℂ} (w : Wave) (hm : m ≠ 0) {s : ℂ → ℂ} {v : ℂ → Wave} {e0 m0 : ℂ} {v0 : Wave}
    (hm0 : m0 ≠ 0) (hs : Tendsto s (𝓝 e0) (𝓝 m0)) (hd : Tendsto (fun e => (v e).d) (𝓝 e0) (𝓝 v0.d))
    (ha : Tendsto (fun e => (v e).a) (𝓝 e0) (𝓝 v0.a)) {α β : ℝ} (hα : 0 ≤ α) (hαβ : α ≤ β) (hw : 0 < α ∨ w.a = 0)
    (hv : 0 < α ∨ ∀ e, (v e).a = 0) :
    Tendsto (fun e => ∫ r in α..β, overlap q n m w (s e) (v e) r) (𝓝 e0) (𝓝 (∫ r in α..β, overlap q n m w m0 v0 r)) := by
  have h1 : 0 < ‖m‖ := norm_pos_iff.2 hm
  have h2 : 0 < ‖m0‖ := norm_pos_iff.2 hm0
  obtain ⟨C, hC⟩ := overlap_bound q n (β := β) (M := ‖m‖ + (‖m0‖ + 1)) hα (lt_min h1 (half_pos h2))
    (‖w.d‖ + ‖w.a‖ + (‖v0.d‖ + 1) + (‖v0.a‖ + 1))
  have g1 := norm_nonneg w.d
  have g2 := norm_nonneg w.a
  have g3 := norm_nonneg v0.d
  have g4 := norm_nonneg v0.a
  have f1 : ∀ᶠ e in 𝓝 e0, ‖m0‖ / 2 ≤ ‖s e‖ := hs.norm.eventually_const_le (by linarith)
  have f2 : ∀ᶠ e in 𝓝 e0, ‖s e‖ ≤ ‖m0‖ + 1 := hs.norm.eventually_le_const (by linarith)
  have f3 : ∀ᶠ e in 𝓝 e0, ‖(v e).d‖ ≤ ‖v0.d‖ + 1 := hd.norm.eventually_le_const (by linarith)
  have f4 : ∀ᶠ e in 𝓝 e0, ‖(v e).a‖ ≤ ‖v0.a‖ + 1 := ha.norm.eventually_le_const (by linarith)
  have f5 : ∀ᶠ e in 𝓝 e0, s e ≠ 0 := hs.eventually_ne hm0
  refine intervalIntegral.tendsto_integral_filter_of_dominated_convergence (fun _ => C) ?_ ?_ (by simp) ?_
  · filter_upwards [f5] with e h
    rw [Set.uIoc_of_le hαβ]
    exact overlap_aesm q n w (v e) hm h hα
  · filter_upwards [f1, f2, f3, f4] with e e1 e2 e3 e4
    refine Eventually.of_forall fun r hr => ?_
    rw [Set.uIoc_of_le hαβ] at hr
    refine hC m (s e) w (v e) (min_le_left _ _) (by linarith) ((min_le_right _ _).trans e1) (by linarith) (by linarith) (by linarith)
      (by linarith) (by linarith) hw ?_ r hr.1 hr.2
    exact hv.imp id fun h => h e
  · refine Eventually.of_forall fun r hr => ?_
    rw [Set.uIoc_of_le hαβ] at hr
    have hr0 : (r : ℂ) ≠ 0 := by exact_mod_cast (lt_of_le_of_lt hα hr.1).ne'
    have hz : m0 * (r : ℂ) ≠ 0 := mul_ne_zero hm0 hr0
    have hsr : Tendsto (fun e => s e * (r : ℂ)) (𝓝 e0) (𝓝 (m0 * r)) := hs.mul_const _
    have t1 := (hasDerivAt_ricPsi n hz).continuousAt.tendsto.comp hsr
    have t2 := (hasDerivAt_ricZeta n hz).continuousAt.tendsto.comp hsr
    have t3 := (hasDerivAt_dricPsi n hz).continuousAt.tendsto.comp hsr
    have t4 := (hasDerivAt_dricZeta n hz).continuousAt.tendsto.comp hsr
    have tv : Tendsto (fun e => (v e).val n (s e * r)) (𝓝 e0) (𝓝 (v0.val n (m0 * r))) := (hd.mul t1).sub (ha.mul t2)
    have td : Tendsto (fun e => (v e).der n (s e * r)) (𝓝 e0) (𝓝 (v0.der n (m0 * r))) := (hd.mul t3).sub (ha.mul t4)
    cases q
    · exact (tendsto_const_nhds.mul (td.div hs hm0)).add (tendsto_const_nhds.mul (tv.div ((hs.pow 2).mul_const _)
        (mul_ne_zero (pow_ne_zero 2 hm0) hr0)))
    · exact tendsto_const_nhds.mul (tv.div hs hm0)

/-- Derivative of the scattering coefficient with respect to the squared index of one medium. -/
theorem regions_deriv {q : Pol} {n L : ℕ} {m : ℕ → ℂ} {x : ℕ → ℝ} {V : ℕ → Wave} (h : Regions q n L m x V) (hm : ∀ j ≤ L, m j ≠ 0)
    (hL : m L = 1) (hV : (V L).d = 1) (x0 : x 0 = 0) (hx : ∀ j < L, x j < x (j + 1)) {j : ℕ} (hj : j < L) {s : ℂ → ℂ} {e0 κ : ℂ}
    (hs : ContDiffAt ℂ ω s e0) (hs0 : s e0 = m j) (hsq : ∀ e, s e ^ 2 = κ * e) :
    ∃ (U : ℂ → ℕ → Wave), (∀ᶠ e in 𝓝 e0, Regions q n L (Function.update m j (s e)) x (U e) ∧ (U e L).d = 1) ∧
      HasDerivAt (fun e => (U e L).a) (-I * κ * ∫ r in x j..x (j + 1), overlap q n (m j) (V j) (m j) (V j) r) e0 := by
  have hpos : ∀ i, i ≤ L → 0 ≤ x i ∧ (i ≠ 0 → 0 < x i) := by
    intro i
    induction i with
    | zero => exact fun _ => ⟨x0.ge, fun h => absurd rfl h⟩
    | succ i ih =>
      intro hi
      have := (ih (by omega)).1
      have h2 := hx i (by omega)
      exact ⟨by linarith, fun _ => by linarith⟩
  have hxne : ∀ i < L, x (i + 1) ≠ 0 := fun i hi => ((hpos (i + 1) hi).2 (by omega)).ne'
  set M : ℂ → ℕ → ℂ := fun e => Function.update m j (s e) with hM
  have hM0 : M e0 = m := by rw [hM]; simp only [hs0, Function.update_eq_self]
  have hMan : ∀ i ≤ L, ContDiffAt ℂ ω (fun e => M e i) e0 := by
    intro i _
    by_cases hij : i = j
    · subst hij; simpa [hM] using hs
    · simpa [hM, hij] using contDiffAt_const
  have hMne : ∀ e, s e ≠ 0 → ∀ i ≤ L, M e i ≠ 0 := by
    intro e he i hi
    by_cases hij : i = j
    · subst hij; simpa [hM] using he
    · simpa [hM, hij] using hm i hi
  have hsne : ∀ᶠ e in 𝓝 e0, s e ≠ 0 := hs.continuousAt.eventually_ne (by rw [hs0]; exact hm j hj.le)
  set W : ℂ → ℕ → Wave := fun e => outWaves q n (M e) x (V 0) with hW
  have hWan := outWaves_analytic (𝕜 := ℂ) q n (m := M) (x := fun _ => x) (e0 := e0) (by rw [hM0]; exact hm) hMan hxne
    (fun _ _ => contDiffAt_const) (V 0)
  have hW0 : ∀ i ≤ L, W e0 i = V i := by
    intro i hi
    rw [hW]
    simp only [hM0]
    exact outWaves_unique h hm hxne i hi
  have hWr : ∀ e, s e ≠ 0 → Regions q n L (M e) x (W e) := fun e he =>
    ⟨fun i hi => outWaves_cont q n (hMne e he) hxne (V 0) hi, h.core⟩
  have hdL : Tendsto (fun e => (W e L).d) (𝓝 e0) (𝓝 1) := by
    have := (hWan L le_rfl).1.continuousAt.tendsto
    rwa [show (outWaves q n (M e0) x (V 0) L).d = 1 by rw [← hV, ← hW0 L le_rfl]] at this
  have hdne : ∀ᶠ e in 𝓝 e0, (W e L).d ≠ 0 := hdL.eventually_ne one_ne_zero
  have hinv : Tendsto (fun e => ((W e L).d)⁻¹) (𝓝 e0) (𝓝 1) := by
    have := hdL.inv₀ one_ne_zero
    rwa [inv_one] at this
  set U : ℂ → ℕ → Wave := fun e i => (W e i).smul ((W e L).d)⁻¹ with hU
  have hUr : ∀ᶠ e in 𝓝 e0, Regions q n L (M e) x (U e) ∧ (U e L).d = 1 := by
    filter_upwards [hsne, hdne] with e h1 h2
    exact ⟨(hWr e h1).smul _, by simp [hU, Wave.smul, h2]⟩
  refine ⟨U, hUr, ?_⟩
  have hdj : Tendsto (fun e => (U e j).d) (𝓝 e0) (𝓝 (V j).d) := by
    have h1 : Tendsto (fun e => (W e j).d) (𝓝 e0) (𝓝 (W e0 j).d) := (hWan j hj.le).1.continuousAt.tendsto
    rw [hW0 j hj.le] at h1
    have := hinv.mul h1
    rwa [one_mul] at this
  have haj : Tendsto (fun e => (U e j).a) (𝓝 e0) (𝓝 (V j).a) := by
    have h1 : Tendsto (fun e => (W e j).a) (𝓝 e0) (𝓝 (W e0 j).a) := (hWan j hj.le).2.continuousAt.tendsto
    rw [hW0 j hj.le] at h1
    have := hinv.mul h1
    rwa [one_mul] at this
  have hreg : 0 < x j ∨ (V j).a = 0 := by
    by_cases h0 : j = 0
    · subst h0; exact .inr h.core
    · exact .inl ((hpos j hj.le).2 h0)
  have hreg' : 0 < x j ∨ ∀ e, (U e j).a = 0 := by
    by_cases h0 : j = 0
    · subst h0; exact .inr fun e => by simp [hU, hW, Wave.smul, outWaves, h.core]
    · exact .inl ((hpos j hj.le).2 h0)
  have hst : Tendsto s (𝓝 e0) (𝓝 (m j)) := hs0 ▸ hs.continuousAt.tendsto
  have hlim := overlap_tendsto q n (V j) (hm j hj.le) (hm j hj.le) hst hdj haj (hpos j hj.le).1 (hx j hj).le hreg hreg'
  -- the exact difference
  have hdiff : ∀ᶠ e in 𝓝 e0, (U e L).a - (U e0 L).a =
      (e - e0) * (-I * κ * ∫ r in x j..x (j + 1), overlap q n (m j) (V j) (s e) (U e j) r) := by
    filter_upwards [hUr, hsne] with e ⟨hr, hd⟩ hne
    have key := regions_overlap h hr hm (hMne e hne) x0 hx L le_rfl
    have hU0 : (U e0 L).a = (V L).a := by
      simp only [hU, Wave.smul, hW0 L le_rfl, hV, inv_one, one_mul]
    have hsum : ∑ i ∈ Finset.range L, (m i ^ 2 - M e i ^ 2) * ∫ r in x i..x (i + 1), overlap q n (m i) (V i) (M e i) (U e i) r =
        (m j ^ 2 - s e ^ 2) * ∫ r in x j..x (j + 1), overlap q n (m j) (V j) (s e) (U e j) r := by
      rw [Finset.sum_eq_single_of_mem j (Finset.mem_range.2 hj) (fun i _ hij => by simp [hM, hij])]
      simp [hM]
    have hML : M e L = 1 := by
      have : L ≠ j := by omega
      simp [hM, this, hL]
    have eV : V L = ⟨1, (V L).a⟩ := by
      generalize V L = v at hV ⊢
      cases v
      simp only at hV
      rw [hV]
    have eU : U e L = ⟨1, (U e L).a⟩ := by
      generalize U e L = v at hd ⊢
      cases v
      simp only at hd
      rw [hd]
    rw [hsum, hL, hML, eV, eU, bracket_host q n _ _ ((hpos L le_rfl).2 (by omega)).ne', ← hs0, hsq, hsq] at key
    rw [hU0]
    rw [hs0] at key
    linear_combination -I * key - ((V L).a - (U e L).a) * I_mul_I
  rw [hasDerivAt_iff_tendsto_slope]
  refine ((hlim.const_mul (-I * κ)).mono_left nhdsWithin_le_nhds).congr' ?_
  filter_upwards [hdiff.filter_mono nhdsWithin_le_nhds, self_mem_nhdsWithin] with e he hne
  have : e - e0 ≠ 0 := sub_ne_zero.2 hne
  rw [slope_def_field, he, mul_div_cancel_left₀ _ this]

/-! ## An interface that moves -/

theorem bracket_same (q : Pol) (n : ℕ) {m : ℂ} (w w' : Wave) (hm : m ≠ 0) {r s : ℝ} (hr : 0 < r) (hs : 0 < s) :
    bracket q n m w m w' r = bracket q n m w m w' s := by
  have h : ∀ t ∈ Set.Ioi (0 : ℝ), HasDerivAt (bracket q n m w m w') 0 t := by
    intro t ht
    have := hasDerivAt_bracket q n w w' hm hm ht
    rwa [sub_self, zero_mul] at this
  exact (convex_Ioi (0 : ℝ)).is_const_of_fderivWithin_eq_zero (𝕜 := ℝ) (fun t ht => (h t ht).differentiableAt.differentiableWithinAt)
    (fun t ht => by
      rw [fderivWithin_of_isOpen isOpen_Ioi ht]
      ext
      simpa using (h t ht).deriv) hr hs

theorem bracket_self (q : Pol) (n : ℕ) (m : ℂ) (w : Wave) (r : ℝ) : bracket q n m w m w r = 0 := by
  cases q <;> simp only [bracket] <;> ring

theorem bracket_smul (q : Pol) (n : ℕ) (m m' : ℂ) (w w' : Wave) (c : ℂ) (r : ℝ) :
    bracket q n m w m' (w'.smul c) r = c * bracket q n m w m' w' r := by
  cases q <;> simp only [bracket, Wave.smul_val, Wave.smul_der] <;> ring

/-- Derivative of the scattering coefficient with respect to the size parameter of one interface. -/
theorem regions_deriv_radius {q : Pol} {n L : ℕ} {m : ℕ → ℂ} {x : ℕ → ℝ} {V : ℕ → Wave} (h : Regions q n L m x V) (hm : ∀ j ≤ L, m j ≠ 0)
    (hL : m L = 1) (hV : (V L).d = 1) (hx : ∀ j < L, 0 < x (j + 1)) {j : ℕ} (hj : j < L) :
    ∃ (U : ℝ → ℕ → Wave), (∀ᶠ y in 𝓝 (x (j + 1)), Regions q n L m (Function.update x (j + 1) y) (U y) ∧ (U y L).d = 1) ∧
      HasDerivAt (fun y => (U y L).a)
        (-I * (m j ^ 2 - m (j + 1) ^ 2) * overlap q n (m j) (V j) (m (j + 1)) (V (j + 1)) (x (j + 1))) (x (j + 1)) := by
  set y0 := x (j + 1) with hy0
  have hy0p : 0 < y0 := hx j hj
  set X : ℝ → ℕ → ℝ := fun y => Function.update x (j + 1) y with hX
  have hX0 : X y0 = x := by rw [hX]; simp only [hy0, Function.update_eq_self]
  have hXan : ∀ i < L, ContDiffAt ℝ ω (fun y => (X y (i + 1) : ℂ)) y0 := by
    intro i _
    by_cases hij : i = j
    · subst hij
      have h1 : ContDiffAt ℝ ω (fun y : ℝ => (y : ℂ)) y0 := ofRealCLM.contDiff.contDiffAt
      simpa [hX] using h1
    · simpa [hX, hij] using contDiffAt_const
  have hXpos : ∀ y, 0 < y → ∀ i < L, 0 < X y (i + 1) := by
    intro y hy i hi
    by_cases hij : i = j
    · subst hij; simpa [hX] using hy
    · simpa [hX, hij] using hx i hi
  have hyp : ∀ᶠ y in 𝓝 y0, 0 < y := lt_mem_nhds hy0p
  set W : ℝ → ℕ → Wave := fun y => outWaves q n m (X y) (V 0) with hW
  have hWan := outWaves_analytic (𝕜 := ℝ) q n (m := fun _ => m) (x := X) (e0 := y0) hm (fun _ _ => contDiffAt_const)
    (fun i hi => by rw [hX0]; exact (hx i hi).ne') hXan (V 0)
  have hW0 : ∀ i ≤ L, W y0 i = V i := by
    intro i hi
    rw [hW]
    simp only [hX0]
    exact outWaves_unique h hm (fun i hi => (hx i hi).ne') i hi
  have hWr : ∀ y, 0 < y → Regions q n L m (X y) (W y) := fun y hy =>
    ⟨fun i hi => outWaves_cont q n hm (fun i hi => (hXpos y hy i hi).ne') (V 0) hi, h.core⟩
  -- below the interface nothing changes
  have hWj : ∀ y, ∀ i ≤ j, W y i = V i := by
    intro y i
    induction i with
    | zero => exact fun _ => rfl
    | succ i ih =>
      intro hi
      have e : W y (i + 1) = stepWave q n (m i) (m (i + 1)) (x (i + 1)) (V i) := by
        show stepWave q n (m i) (m (i + 1)) (X y (i + 1)) (W y i) = _
        rw [ih (by omega)]
        congr 1
        simp only [hX]
        rw [Function.update_of_ne (by omega)]
      rw [e]
      have h1 := stepWave_spec q n (hm i (by omega)) (hm (i + 1) (by omega)) (hx i (by omega)).ne' (V i)
      exact h1.unique (hm i (by omega)) (mul_ne_zero (hm _ (by omega)) (by exact_mod_cast (hx i (by omega)).ne')) (h.cont i (by omega))
  have hdL : Tendsto (fun y => (W y L).d) (𝓝 y0) (𝓝 1) := by
    have h1 : Tendsto (fun y => (W y L).d) (𝓝 y0) (𝓝 (W y0 L).d) := (hWan L le_rfl).1.continuousAt.tendsto
    rwa [hW0 L le_rfl, hV] at h1
  have hdne : ∀ᶠ y in 𝓝 y0, (W y L).d ≠ 0 := hdL.eventually_ne one_ne_zero
  set c : ℝ → ℂ := fun y => ((W y L).d)⁻¹ with hc
  have hcd : DifferentiableAt ℝ c y0 := by
    have h1 : DifferentiableAt ℝ (fun y => (W y L).d) y0 := (hWan L le_rfl).1.differentiableAt (by simp)
    exact h1.inv (by rw [hW0 L le_rfl, hV]; exact one_ne_zero)
  have hc0 : c y0 = 1 := by rw [hc]; simp only [hW0 L le_rfl, hV, inv_one]
  set U : ℝ → ℕ → Wave := fun y i => (W y i).smul (c y) with hU
  have hUr : ∀ᶠ y in 𝓝 y0, Regions q n L m (X y) (U y) ∧ (U y L).d = 1 := by
    filter_upwards [hyp, hdne] with y h1 h2
    exact ⟨(hWr y h1).smul _, by simp [hU, hc, Wave.smul, h2]⟩
  refine ⟨U, hUr, ?_⟩
  have eW : ∀ {v : Wave}, v.d = 1 → v = ⟨1, v.a⟩ := by
    intro v hv
    cases v
    simp only at hv
    rw [hv]
  -- outside the interface the bracket does not change
  have hout : ∀ y, 0 < y → Regions q n L m (X y) (U y) → ∀ k ≤ L, j + 1 ≤ k → ∀ r : ℝ, 0 < r →
      bracket q n (m k) (V k) (m k) (U y k) r = bracket q n (m L) (V L) (m L) (U y L) r := by
    intro y hy hr
    have key : ∀ d k, k + d = L → j + 1 ≤ k → ∀ r : ℝ, 0 < r →
        bracket q n (m k) (V k) (m k) (U y k) r = bracket q n (m L) (V L) (m L) (U y L) r := by
      intro d
      induction d with
      | zero =>
        intro k hk _ r _
        obtain rfl : k = L := by omega
        rfl
      | succ d ih =>
        intro k hk hjk r hr0
        have hxk := hx k (by omega)
        have hXk : X y (k + 1) = x (k + 1) := by
          simp only [hX]
          rw [Function.update_of_ne (by omega)]
        have h2 := hr.cont k (by omega)
        rw [hXk] at h2
        rw [bracket_same q n _ _ (hm k (by omega)) hr0 hxk,
          bracket_cont (hm k (by omega)) (hm (k + 1) (by omega)) (hm k (by omega)) (hm (k + 1) (by omega)) (h.cont k (by omega)) h2,
          bracket_same q n _ _ (hm (k + 1) (by omega)) hxk hr0]
        exact ih (k + 1) (by omega) (by omega) r hr0
    intro k hk hjk
    exact key (L - k) k (by omega) hjk
  have hdiff : ∀ᶠ y in 𝓝 y0, (U y L).a = (V L).a + I * (c y * bracket q n (m (j + 1)) (V (j + 1)) (m j) (V j) y) := by
    filter_upwards [hUr, hyp] with y ⟨hr, hd⟩ hy
    have h1 := hout y hy hr (j + 1) hj le_rfl y hy
    rw [hL, eW hV, eW hd, bracket_host q n _ _ hy.ne'] at h1
    have hXy : X y (j + 1) = y := by simp [hX]
    have h2 := hr.cont j hj
    rw [hXy] at h2
    have h3 := bracket_cont (m1 := m (j + 1)) (m2 := m (j + 1)) (w1 := V (j + 1)) (w2 := V (j + 1)) (hm _ hj) (hm _ hj) (hm j hj.le) (hm _ hj)
      (by cases q <;> exact ⟨rfl, rfl⟩) h2
    rw [h1] at h3
    have h4 : U y j = (V j).smul (c y) := by simp only [hU, hWj y j le_rfl]
    rw [h4, bracket_smul] at h3
    linear_combination -I * h3 - ((V L).a - (U y L).a) * I_mul_I
  refine HasDerivAt.congr_of_eventuallyEq ?_ hdiff
  have hb := hasDerivAt_bracket q n (V (j + 1)) (V j) (hm _ hj) (hm j hj.le) hy0p
  have hb0 : bracket q n (m (j + 1)) (V (j + 1)) (m j) (V j) y0 = 0 := by
    have h3 := bracket_cont (m1 := m j) (m2 := m (j + 1)) (w1 := V j) (w2 := V (j + 1)) (m1' := m j) (m2' := m j) (w1' := V j) (w2' := V j)
      (hm j hj.le) (hm _ hj) (hm j hj.le) (hm j hj.le) (h.cont j hj) (by cases q <;> exact ⟨rfl, rfl⟩)
    rw [← h3, bracket_self]
  refine (((hcd.hasDerivAt.mul hb).const_mul I).const_add ((V L).a)).congr_deriv ?_
  rw [hb0, hc0]
  have hsymm : overlap q n (m (j + 1)) (V (j + 1)) (m j) (V j) y0 = overlap q n (m j) (V j) (m (j + 1)) (V (j + 1)) y0 := by
    cases q <;> simp only [overlap] <;> ring
  rw [hsymm]
  ring

end MieDiff
