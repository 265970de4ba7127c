import Verif.Proofs.FieldSeries
import Verif.Proofs.Field
import Mathlib.Analysis.Calculus.SmoothSeries

/-!
# Infinite multipole series: convergence, derivatives, curl
-/

namespace MieDiff

open Complex Spec Filter Topology

/-- The terms are bounded by one summable sequence for all angles and all arguments in a compact set without 0. -/
def Good (T : ℕ → ℝ → ℂ → ℂ) : Prop := ∀ K : Set ℂ, IsCompact K → (0 : ℂ) ∉ K → ∃ u : ℕ → ℝ, SG u ∧ (∀ n, 0 ≤ u n) ∧
  ∀ n t, ∀ z ∈ K, ‖T n t z‖ ≤ u n

theorem Good.add {S T : ℕ → ℝ → ℂ → ℂ} (hS : Good S) (hT : Good T) : Good fun n t z => S n t z + T n t z := by
  intro K hK h0
  obtain ⟨u, h1, h2, h3⟩ := hS K hK h0
  obtain ⟨v, g1, g2, g3⟩ := hT K hK h0
  exact ⟨fun n => u n + v n, h1.add g1, fun n => add_nonneg (h2 n) (g2 n), fun n t z hz =>
    (norm_add_le _ _).trans (add_le_add (h3 n t z hz) (g3 n t z hz))⟩

/-- Factors depending on order and angle. -/
def AngB (θ : ℕ → ℝ → ℂ) : Prop := ∃ b : ℕ → ℝ, GB b ∧ ∀ n t, ‖θ n t‖ ≤ b n

theorem AngB.mul {θ η : ℕ → ℝ → ℂ} (hθ : AngB θ) (hη : AngB η) : AngB fun n t => θ n t * η n t := by
  obtain ⟨b, h1, h2⟩ := hθ
  obtain ⟨c, g1, g2⟩ := hη
  refine ⟨fun n => b n * c n, h1.mul g1, fun n t => ?_⟩
  rw [norm_mul]
  exact mul_le_mul (h2 n t) (g2 n t) (norm_nonneg _) ((norm_nonneg _).trans (h2 n t))

theorem AngB.add {θ η : ℕ → ℝ → ℂ} (hθ : AngB θ) (hη : AngB η) : AngB fun n t => θ n t + η n t := by
  obtain ⟨b, h1, h2⟩ := hθ
  obtain ⟨c, g1, g2⟩ := hη
  exact ⟨fun n => b n + c n, h1.add g1, fun n t => (norm_add_le _ _).trans (add_le_add (h2 n t) (g2 n t))⟩

theorem AngB.coef {x : ℕ → ℂ} (hx : GB fun n => ‖x n‖) : AngB fun n _ => x n := ⟨_, hx, fun _ _ => le_rfl⟩

theorem AngB.const (c : ℂ) : AngB fun _ _ => c := AngB.coef (GB.const _)

theorem AngB.nat : AngB fun n _ => (n : ℂ) :=
  AngB.coef (GB.nat.mono (Eventually.of_forall fun n => by rw [abs_norm, norm_natCast]; exact le_abs_self _))

theorem AngB.sin : AngB fun _ t => ((Real.sin t : ℝ) : ℂ) :=
  ⟨_, GB.const 1, fun _ t => by rw [norm_real]; exact Real.abs_sin_le_one t⟩

theorem AngB.pi : AngB fun n t => ((angPi n (Real.cos t) : ℝ) : ℂ) :=
  ⟨_, (GB.nat.mul (GB.nat.add (GB.const 1))).mul (GB.const (1 / 2)), fun n t => by
    rw [norm_real]
    refine (abs_angPi_le_poly n (Real.abs_cos_le_one t)).trans (le_of_eq (by ring))⟩

theorem AngB.tau : AngB fun n t => ((angTau n t : ℝ) : ℂ) := by
  refine ⟨_, (((GB.nat.add (GB.const 1)).mul (GB.nat.add (GB.const 1))).mul (GB.nat.add (GB.const 1))), fun n t => ?_⟩
  rw [norm_real]
  cases n with
  | zero => rw [angTau_zero]; norm_num
  | succ n =>
    refine (abs_angTau_le_poly n t).trans ?_
    push_cast
    have : (0 : ℝ) ≤ n := Nat.cast_nonneg n
    nlinarith [mul_nonneg this this, mul_nonneg (mul_nonneg this this) this]

theorem Good.ang {T : ℕ → ℝ → ℂ → ℂ} (hT : Good T) {θ : ℕ → ℝ → ℂ} (hθ : AngB θ) : Good fun n t z => θ n t * T n t z := by
  intro K hK h0
  obtain ⟨u, h1, h2, h3⟩ := hT K hK h0
  obtain ⟨b, g1, g2⟩ := hθ
  have hb : ∀ n, 0 ≤ b n := fun n => (norm_nonneg _).trans (g2 n 0)
  refine ⟨fun n => u n * b n, h1.mul g1, fun n => mul_nonneg (h2 n) (hb n), fun n t z hz => ?_⟩
  rw [norm_mul, mul_comm]
  exact mul_le_mul (h3 n t z hz) (g2 n t) (norm_nonneg _) (h2 n)

theorem Good.arg {T : ℕ → ℝ → ℂ → ℂ} (hT : Good T) {h : ℂ → ℂ} (hh : ∀ z, z ≠ 0 → ContinuousAt h z) :
    Good fun n t z => h z * T n t z := by
  intro K hK h0
  obtain ⟨u, h1, h2, h3⟩ := hT K hK h0
  obtain ⟨M, hM⟩ := hK.exists_bound_of_continuousOn (f := h) fun z hz => (hh z fun e => h0 (e ▸ hz)).continuousWithinAt
  refine ⟨fun n => u n * |M|, h1.mul (GB.const _), fun n => mul_nonneg (h2 n) (abs_nonneg _), fun n t z hz => ?_⟩
  rw [norm_mul, mul_comm]
  exact mul_le_mul (h3 n t z hz) ((hM z hz).trans (le_abs_self _)) (norm_nonneg _) (h2 n)

theorem good_val {w : ℕ → Wave} (hw : Dec w) : Good fun n _ z => (w n).val n z := by
  intro K hK h0
  obtain ⟨u, h1, h2, h3⟩ := hw.unif hK h0
  exact ⟨u, h1, h2, fun n _ z hz => (h3 n z hz).1⟩

theorem good_der {w : ℕ → Wave} (hw : Dec w) : Good fun n _ z => (w n).der n z := by
  intro K hK h0
  obtain ⟨u, h1, h2, h3⟩ := hw.unif hK h0
  exact ⟨u, h1, h2, fun n _ z hz => (h3 n z hz).2⟩

theorem notMem_singleton {z : ℂ} (hz : z ≠ 0) : (0 : ℂ) ∉ ({z} : Set ℂ) := fun e => hz (Set.mem_singleton_iff.1 e).symm

theorem Good.summable {T : ℕ → ℝ → ℂ → ℂ} (hT : Good T) (t : ℝ) {z : ℂ} (hz : z ≠ 0) : Summable fun n => T n t z := by
  obtain ⟨u, h1, -, h3⟩ := hT {z} isCompact_singleton (notMem_singleton hz)
  exact Summable.of_norm_bounded h1.summable fun n => h3 n t z rfl

/-- Derivative with respect to the angle, term by term. -/
theorem Good.deriv_t {T T' : ℕ → ℝ → ℂ → ℂ} (hT : Good T) (hT' : Good T') {z : ℂ} (hz : z ≠ 0)
    (h : ∀ n t, HasDerivAt (fun s => T n s z) (T' n t z) t) (t : ℝ) :
    HasDerivAt (fun s => ∑' n, T n s z) (∑' n, T' n t z) t := by
  obtain ⟨u, h1, -, h3⟩ := hT' {z} isCompact_singleton (notMem_singleton hz)
  exact hasDerivAt_tsum h1.summable h (fun n y => h3 n y z rfl) (hT.summable 0 hz) t

/-- Derivative with respect to the argument, term by term. -/
theorem Good.deriv_z {T T' : ℕ → ℝ → ℂ → ℂ} (hT : Good T) (hT' : Good T') {t : ℝ}
    (h : ∀ n z, z ≠ 0 → HasDerivAt (T n t) (T' n t z) z) {z : ℂ} (hz : z ≠ 0) :
    HasDerivAt (fun s => ∑' n, T n t s) (∑' n, T' n t z) z := by
  have hp : 0 < ‖z‖ := norm_pos_iff.2 hz
  have hB : (0 : ℂ) ∉ Metric.closedBall z (‖z‖ / 2) := by
    rw [Metric.mem_closedBall, dist_comm, dist_zero_right]
    linarith
  obtain ⟨u, h1, -, h3⟩ := hT' (Metric.closedBall z (‖z‖ / 2)) (isCompact_closedBall z _) hB
  have hmem : z ∈ Metric.ball z (‖z‖ / 2) := Metric.mem_ball_self (by positivity)
  exact hasDerivAt_tsum_of_isPreconnected h1.summable Metric.isOpen_ball (convex_ball z _).isPreconnected
    (fun n y hy => h n y fun e => hB (e ▸ Metric.ball_subset_closedBall hy))
    (fun n y hy => h3 n t y (Metric.ball_subset_closedBall hy)) hmem (hT.summable t hz) hmem

theorem Good.deriv_r {T T' : ℕ → ℝ → ℂ → ℂ} (hT : Good T) (hT' : Good T') {t : ℝ}
    (h : ∀ n z, z ≠ 0 → HasDerivAt (T n t) (T' n t z) z) {k : ℂ} (hk : k ≠ 0) {r : ℝ} (hr : 0 < r) :
    HasDerivAt (fun s : ℝ => ∑' n, T n t (k * s)) (k * ∑' n, T' n t (k * r)) r := by
  have hr' : (r : ℂ) ≠ 0 := by exact_mod_cast hr.ne'
  have h1 := hT.deriv_z hT' h (mul_ne_zero hk hr')
  have h2 : HasDerivAt (fun s : ℝ => k * (s : ℂ)) (k * 1) r := (ofRealCLM.hasDerivAt (x := r)).const_mul k
  have := h1.comp r h2
  rw [mul_one, mul_comm] at this
  exact this

/-! ## The series -/

/-- Radial, polar and azimuthal sums of a series of multipoles; order 0 does not contribute. -/
noncomputable def serR (x : ℕ → ℂ) (α : ℕ → Wave) (n : ℕ) (t : ℝ) (z : ℂ) : ℂ :=
  x n * (n * (n + 1)) * ((Real.sin t : ℝ) * (angPi n (Real.cos t) : ℝ)) * (α n).val n z

noncomputable def serT (x y : ℕ → ℂ) (α β : ℕ → Wave) (n : ℕ) (t : ℝ) (z : ℂ) : ℂ :=
  x n * (angTau n t : ℝ) * (α n).der n z + y n * (angPi n (Real.cos t) : ℝ) * (β n).val n z

noncomputable def serP (x y : ℕ → ℂ) (α β : ℕ → Wave) (n : ℕ) (t : ℝ) (z : ℂ) : ℂ :=
  x n * (angPi n (Real.cos t) : ℝ) * (α n).der n z + y n * (angTau n t : ℝ) * (β n).val n z

/-- The field of the series at the argument `z`; `c`, `c'` are the azimuthal factors. -/
noncomputable def serAt (c c' : ℂ) (x y : ℕ → ℂ) (α β : ℕ → Wave) (z : ℂ) (t : ℝ) : SVec :=
  ⟨c * (∑' n, serR x α n t z) / z ^ 2, c * (∑' n, serT x y α β n t z) / z, c' * (∑' n, serP x y α β n t z) / z⟩

section
variable {x y : ℕ → ℂ} {α β : ℕ → Wave}

theorem good_serR (hx : GB fun n => ‖x n‖) (hα : Dec α) : Good (serR x α) :=
  (good_val hα).ang (((AngB.coef hx).mul (AngB.nat.mul (AngB.nat.add (AngB.const 1)))).mul (AngB.sin.mul AngB.pi))

theorem good_serT (hx : GB fun n => ‖x n‖) (hy : GB fun n => ‖y n‖) (hα : Dec α) (hβ : Dec β) : Good (serT x y α β) :=
  ((good_der hα).ang ((AngB.coef hx).mul AngB.tau)).add ((good_val hβ).ang ((AngB.coef hy).mul AngB.pi))

theorem good_serP (hx : GB fun n => ‖x n‖) (hy : GB fun n => ‖y n‖) (hα : Dec α) (hβ : Dec β) : Good (serP x y α β) :=
  ((good_der hα).ang ((AngB.coef hx).mul AngB.pi)).add ((good_val hβ).ang ((AngB.coef hy).mul AngB.tau))

theorem wave_sol (w : Wave) (n : ℕ) : RicSol n (w.val n) (w.der n) where
  d1 z hz := (((ricPsi_sol n).d1 z hz).const_mul w.d).sub (((ricZeta_sol n).d1 z hz).const_mul w.a)
  d2 z hz := by
    refine ((((ricPsi_sol n).d2 z hz).const_mul w.d).sub (((ricZeta_sol n).d2 z hz).const_mul w.a)).congr_deriv ?_
    simp only [Wave.val]; ring

/-- The curl of a series of multipoles, term by term. -/
theorem serAt_curl {f g : ℝ → ℂ} (hf : ∀ p, HasDerivAt f (g p) p) (hx : GB fun n => ‖x n‖) (hy : GB fun n => ‖y n‖) (hα : Dec α)
    (hβ : Dec β) {k : ℂ} (hk : k ≠ 0) {r t p : ℝ} (hr : 0 < r) (ht : Real.sin t ≠ 0) :
    HasCurlAt (fun r t p => serAt (f p) (g p) x y α β (k * r) t)
      ((serAt (g p) (-f p) (fun n => -y n) x β α (k * r) t).smul k) r t p := by
  have hr' : (r : ℂ) ≠ 0 := by exact_mod_cast hr.ne'
  have hz : k * (r : ℂ) ≠ 0 := mul_ne_zero hk hr'
  have hy' : GB fun n => ‖-y n‖ := by simpa using hy
  have gP := good_serP hx hy hα hβ
  have gT := good_serT hx hy hα hβ
  have gR := good_serR hx hα
  -- derivative of sin(t) P
  let P1 : ℕ → ℝ → ℂ → ℂ := fun n t z => (Real.sin t : ℝ) * serP x y α β n t z
  have gP1 : Good P1 := gP.ang AngB.sin
  let P1' : ℕ → ℝ → ℂ → ℂ := fun n t z => serT x y α β n t z + (Real.sin t : ℝ) * serR (fun n => -y n) β n t z
  have gP1' : Good P1' := gT.add ((good_serR hy' hβ).ang AngB.sin)
  have D1 : HasDerivAt (fun s => ∑' n, P1 n s (k * r)) (∑' n, P1' n t (k * r)) t := by
    refine gP1.deriv_t gP1' hz (fun n s => ?_) t
    have h1 := ((hasDerivAt_csin_angPi n s).const_mul (x n)).mul_const ((α n).der n (k * r))
    have h2 := ((hasDerivAt_csin_angTau n s).const_mul (y n)).mul_const ((β n).val n (k * r))
    refine (h1.add h2).congr_deriv ?_ |>.congr_of_eventuallyEq (Eventually.of_forall fun u => ?_)
    · simp only [P1', serT, serR]; ring
    · simp only [P1, serP, Pi.add_apply]; ring
  -- derivative of R
  let R' : ℕ → ℝ → ℂ → ℂ := fun n t z => x n * (n * (n + 1)) * (angTau n t : ℝ) * (α n).val n z
  have gR' : Good R' := (good_val hα).ang (((AngB.coef hx).mul (AngB.nat.mul (AngB.nat.add (AngB.const 1)))).mul AngB.tau)
  have D6 : HasDerivAt (fun s => ∑' n, serR x α n s (k * r)) (∑' n, R' n t (k * r)) t := by
    refine gR.deriv_t gR' hz (fun n s => ?_) t
    refine ((hasDerivAt_csin_angPi n s).const_mul (x n * (n * (n + 1)))).mul_const ((α n).val n (k * r))
  -- derivatives along the radius
  let T' : ℕ → ℝ → ℂ → ℂ := fun n t z => x n * (angTau n t : ℝ) * ((n * (n + 1) / z ^ 2 - 1) * (α n).val n z) +
    y n * (angPi n (Real.cos t) : ℝ) * (β n).der n z
  let P' : ℕ → ℝ → ℂ → ℂ := fun n t z => x n * (angPi n (Real.cos t) : ℝ) * ((n * (n + 1) / z ^ 2 - 1) * (α n).val n z) +
    y n * (angTau n t : ℝ) * (β n).der n z
  have cz : ∀ z : ℂ, z ≠ 0 → ContinuousAt (fun z => 1 / z ^ 2) z := fun z hz =>
    continuousAt_const.div (continuousAt_id.pow 2) (pow_ne_zero 2 hz)
  have gw : Good fun (n : ℕ) (_ : ℝ) (z : ℂ) => ((n : ℂ) * (n + 1) / z ^ 2 - 1) * (α n).val n z := by
    have h1 := ((good_val hα).arg cz).ang (AngB.nat.mul (AngB.nat.add (AngB.const 1)))
    have h2 := (good_val hα).ang (AngB.const (-1))
    have e : (fun (n : ℕ) (_ : ℝ) (z : ℂ) => ((n : ℂ) * (n + 1) / z ^ 2 - 1) * (α n).val n z) = fun (n : ℕ) (_ : ℝ) (z : ℂ) =>
        (n : ℂ) * (n + 1) * (1 / z ^ 2 * (α n).val n z) + -1 * (α n).val n z := by
      funext n t z; ring
    rw [e]
    exact h1.add h2
  have gT' : Good T' := (gw.ang ((AngB.coef hx).mul AngB.tau)).add ((good_der hβ).ang ((AngB.coef hy).mul AngB.pi))
  have gP' : Good P' := (gw.ang ((AngB.coef hx).mul AngB.pi)).add ((good_der hβ).ang ((AngB.coef hy).mul AngB.tau))
  have D4 : HasDerivAt (fun s : ℝ => ∑' n, serP x y α β n t (k * s)) (k * ∑' n, P' n t (k * r)) r :=
    gP.deriv_r gP' (fun n z hz => (((wave_sol (α n) n).d2 z hz).const_mul _).add (((wave_sol (β n) n).d1 z hz).const_mul _)) hk hr
  have D5 : HasDerivAt (fun s : ℝ => ∑' n, serT x y α β n t (k * s)) (k * ∑' n, T' n t (k * r)) r :=
    gT.deriv_r gT' (fun n z hz => (((wave_sol (α n) n).d2 z hz).const_mul _).add (((wave_sol (β n) n).d1 z hz).const_mul _)) hk hr
  have near : ∀ᶠ s : ℝ in 𝓝 r, (s : ℂ) ≠ 0 := by
    filter_upwards [isOpen_ne.mem_nhds hr.ne'] with s hs
    exact_mod_cast hs
  refine ⟨g p * (∑' n, P1' n t (k * r)) / (k * r), g p * (∑' n, serT x y α β n t (k * r)) / (k * r),
    g p * (∑' n, serR x α n t (k * r)) / (k * r) ^ 2, g p * ∑' n, P' n t (k * r), f p * ∑' n, T' n t (k * r),
    f p * (∑' n, R' n t (k * r)) / (k * r) ^ 2, ?_, ?_, ?_, ?_, ?_, ?_, ?_⟩
  · refine ((D1.const_mul (g p)).div_const (k * r)).congr_of_eventuallyEq (Eventually.of_forall fun s => ?_)
    simp only [serAt, P1]
    rw [tsum_mul_left]
    ring
  · exact ((hf p).mul_const _).div_const _
  · exact ((hf p).mul_const _).div_const _
  · refine ((D4.const_mul (g p)).div_const k).congr_deriv (by field_simp) |>.congr_of_eventuallyEq ?_
    filter_upwards [near] with s hs
    simp only [serAt]
    field_simp
  · refine ((D5.const_mul (f p)).div_const k).congr_deriv (by field_simp) |>.congr_of_eventuallyEq ?_
    filter_upwards [near] with s hs
    simp only [serAt]
    field_simp
  · exact (D6.const_mul (f p)).div_const _
  · have ht' : ((Real.sin t : ℝ) : ℂ) ≠ 0 := by exact_mod_cast ht
    have s1 : ∑' n, P1' n t (k * r) = ∑' n, serT x y α β n t (k * r) +
        (Real.sin t : ℝ) * ∑' n, serR (fun n => -y n) β n t (k * r) := by
      rw [← tsum_mul_left, ← Summable.tsum_add (gT.summable t hz)
        (((good_serR hy' hβ).ang AngB.sin).summable t hz)]
    have gR2 : Good fun n t z => x n * (n * (n + 1)) * (angPi n (Real.cos t) : ℝ) * (α n).val n z :=
      (good_val hα).ang (((AngB.coef hx).mul (AngB.nat.mul (AngB.nat.add (AngB.const 1)))).mul AngB.pi)
    have s2 : ∑' n, serR x α n t (k * r) = (Real.sin t : ℝ) *
        ∑' n, x n * (n * (n + 1)) * (angPi n (Real.cos t) : ℝ) * (α n).val n (k * r) := by
      rw [← tsum_mul_left]
      exact tsum_congr fun n => by simp only [serR]; ring
    have s3 : ∑' n, P' n t (k * r) = 1 / (k * r) ^ 2 *
        (∑' n, x n * (n * (n + 1)) * (angPi n (Real.cos t) : ℝ) * (α n).val n (k * r)) -
        ∑' n, serT (fun n => -y n) x β α n t (k * r) := by
      rw [← tsum_mul_left, ← Summable.tsum_sub ((gR2.summable t hz).mul_left _) ((good_serT hy' hx hβ hα).summable t hz)]
      exact tsum_congr fun n => by simp only [P', serT]; ring
    have s4 : ∑' n, T' n t (k * r) = 1 / (k * r) ^ 2 * (∑' n, R' n t (k * r)) -
        ∑' n, serP (fun n => -y n) x β α n t (k * r) := by
      rw [← tsum_mul_left, ← Summable.tsum_sub ((gR'.summable t hz).mul_left _) ((good_serP hy' hx hβ hα).summable t hz)]
      exact tsum_congr fun n => by simp only [T', R', serP]; ring
    rw [s1, s2, s3, s4]
    simp only [serAt, SVec.smul, SVec.mk.injEq]
    refine ⟨?_, ?_, ?_⟩ <;> field_simp <;> ring

end

end MieDiff
