import Verif.Proofs.ScatterField
import Verif.Proofs.FarField
import Mathlib.Analysis.Normed.Group.Tannery
import Mathlib.Analysis.Normed.Group.FunctionSeries
import Mathlib.Analysis.Asymptotics.Lemmas

/-!
# Radiation condition, remainder and continuity of the multipole series
-/

namespace MieDiff

open Complex Spec Filter Topology

/-! ## Outgoing waves far away -/

theorem zeta_real_unif : ∃ Q : ℕ → ℝ, (∀ n, ∀ z : ℝ, 1 ≤ z → ‖ricZeta n z‖ ≤ Q n ∧ ‖deriv (ricZeta n) z‖ ≤ Q n) ∧
    GB fun n => Q n / dfac n := by
  let A : ℕ → ℝ := fun n => 2 * (1 / 1 + 1) ^ n * dfac n
  have gA : GB fun n => A n / dfac n := by
    have : GB fun n : ℕ => 2 * (1 / 1 + 1 : ℝ) ^ n := (GB.const _).mul (GB.pow (by norm_num))
    refine this.mono (Eventually.of_forall fun n => ?_)
    rw [mul_div_cancel_right₀ _ (dfac_pos n).ne']
  have hA : ∀ n, ∀ z : ℝ, 1 ≤ z → ‖ricZeta n z‖ ≤ A n := by
    intro n z hz
    have h0 : (z : ℂ) ≠ 0 := by exact_mod_cast (by linarith : z ≠ 0)
    have hn : (1 : ℝ) ≤ ‖(z : ℂ)‖ := by rw [norm_real, Real.norm_of_nonneg (by linarith)]; exact hz
    have e0 : ‖ricZeta 0 z‖ = 1 := by
      rw [ricZeta_zero_exp _ h0, norm_mul, norm_neg, norm_I, one_mul, norm_exp_ofReal_mul_I]
    refine rec_growth (f := fun n => ricZeta n (z : ℂ)) (fun n => ricZeta_rec n h0) one_pos hn (by rw [e0]; norm_num) ?_ n
    rw [ricZeta_one _ h0, norm_mul, e0, mul_one]
    refine (norm_sub_le _ _).trans ?_
    rw [norm_div, norm_one, norm_I]
    have : 1 / ‖(z : ℂ)‖ ≤ 1 := by rw [div_le_one (by linarith)]; exact hn
    linarith
  have hpos : ∀ n, 0 ≤ A n := fun n => by have := dfac_pos n; positivity
  refine ⟨fun n => A n + ((n + 1) / 1 * A n + A (n + 1)), fun n z hz => ?_, ?_⟩
  · have h0 : (z : ℂ) ≠ 0 := by exact_mod_cast (by linarith : z ≠ 0)
    have hn : (1 : ℝ) ≤ ‖(z : ℂ)‖ := by rw [norm_real, Real.norm_of_nonneg (by linarith)]; exact hz
    have h1 := hA n z hz
    have h2 := raise_bound (f := ricZeta) one_pos hn (deriv_ricZeta_raise n h0) (hA n z hz) (hA (n + 1) z hz)
    have p1 := hpos n
    have p2 := hpos (n + 1)
    have p3 : 0 ≤ ((n : ℝ) + 1) / 1 * A n := by positivity
    exact ⟨by linarith, by linarith⟩
  · have g1 : GB fun n => ((n : ℝ) + 1) * (A n / dfac n) := (GB.nat.add (GB.const 1)).mul gA
    have g2 : GB fun n => (A (n + 1) / dfac (n + 1)) * (2 * n + 3) :=
      (GB.shift gA).mul (((GB.const 2).mul GB.nat).add (GB.const 3))
    refine (gA.add (g1.add g2)).mono (Eventually.of_forall fun n => le_of_eq ?_)
    congr 1
    rw [dfac_succ]
    have := (dfac_pos n).ne'
    have h3 : (2 * (n : ℝ) + 3) ≠ 0 := by positivity
    field_simp

/-- `ζ' - iζ` vanishes far away. -/
theorem zeta_outgoing (n : ℕ) : Tendsto (fun z : ℝ => deriv (ricZeta n) z - I * ricZeta n z) atTop (𝓝 0) := by
  obtain ⟨C, hC, h⟩ := ricZeta_far n
  have hl : Tendsto (fun z : ℝ => 2 * C / z) atTop (𝓝 0) := tendsto_const_nhds.div_atTop tendsto_id
  refine squeeze_zero_norm' ?_ hl
  filter_upwards [eventually_ge_atTop 1] with z hz
  obtain ⟨h1, h2⟩ := h z hz
  have e : deriv (ricZeta n) z - I * ricZeta n z = (deriv (ricZeta n) z - (-I) ^ n * exp (z * I)) -
      I * (ricZeta n z - (-I) ^ (n + 1) * exp (z * I)) := by
    rw [pow_succ]
    linear_combination ((-I) ^ n * exp (z * I)) * I_mul_I
  rw [e]
  refine (norm_sub_le _ _).trans ?_
  rw [norm_mul, norm_I, one_mul]
  calc _ ≤ C / z + C / z := add_le_add h2 h1
    _ = _ := by ring

/-- Series of terms that vanish far away and are uniformly small. -/
theorem tsum_far {T : ℕ → ℝ → ℂ} {u : ℕ → ℝ} (hu : Summable u) (hT : ∀ n, Tendsto (T n) atTop (𝓝 0))
    (hb : ∀ n, ∀ z : ℝ, 1 ≤ z → ‖T n z‖ ≤ u n) : Tendsto (fun z => ∑' n, T n z) atTop (𝓝 0) := by
  have := tendsto_tsum_of_dominated_convergence (f := fun z n => T n z) (g := fun _ => (0 : ℂ)) (𝓕 := atTop) hu hT
    ((eventually_ge_atTop 1).mono fun z hz n => hb n z hz)
  simpa using this

section
variable {x y : ℕ → ℂ} {α β : ℕ → Wave}

/-- Bounds of outgoing waves on the half line. -/
theorem out_bound {w : ℕ → Wave} (hw : Dec w) (h0 : ∀ n, (w n).d = 0) : ∃ u : ℕ → ℝ, SG u ∧ ∀ n, ∀ z : ℝ, 1 ≤ z →
    ‖(w n).val n z‖ ≤ u n ∧ ‖(w n).der n z‖ ≤ u n := by
  obtain ⟨Q, hQ, hg⟩ := zeta_real_unif
  refine ⟨fun n => ‖(w n).a‖ * Q n, ?_, fun n z hz => ?_⟩
  · refine (hw.2.mul hg).mono (Eventually.of_forall fun n => le_of_eq ?_)
    congr 1
    have := (dfac_pos n).ne'
    field_simp
  · obtain ⟨h1, h2⟩ := hQ n z hz
    simp only [Wave.val, Wave.der, h0, zero_mul, zero_sub, norm_neg, norm_mul]
    exact ⟨mul_le_mul_of_nonneg_left h1 (norm_nonneg _), mul_le_mul_of_nonneg_left h2 (norm_nonneg _)⟩

theorem out_far {w : ℕ → Wave} (h0 : ∀ n, (w n).d = 0) (n : ℕ) :
    Tendsto (fun z : ℝ => (w n).der n z - I * (w n).val n z) atTop (𝓝 0) := by
  have := (zeta_outgoing n).const_mul (-(w n).a)
  rw [mul_zero] at this
  refine this.congr fun z => ?_
  simp only [Wave.val, Wave.der, h0]; ring

theorem out_comb {w w' : ℕ → Wave} (hw : Dec w) (hw' : Dec w') (h0 : ∀ n, (w n).d = 0) (h0' : ∀ n, (w' n).d = 0)
    {θ η : ℕ → ℝ → ℂ} (hθ : AngB θ) (hη : AngB η) (t : ℝ) :
    Tendsto (fun z : ℝ => ∑' n, (θ n t * ((w n).der n z - I * (w n).val n z) + η n t * ((w' n).der n z - I * (w' n).val n z)))
      atTop (𝓝 0) := by
  obtain ⟨u, hu, hb⟩ := out_bound hw h0
  obtain ⟨u', hu', hb'⟩ := out_bound hw' h0'
  obtain ⟨b, gb, hθ⟩ := hθ
  obtain ⟨b', gb', hη⟩ := hη
  refine tsum_far (u := fun n => u n * (b n * 2) + u' n * (b' n * 2))
    ((hu.mul (gb.mul (GB.const 2))).add (hu'.mul (gb'.mul (GB.const 2)))).summable (fun n => ?_) fun n z hz => ?_
  · have := ((out_far h0 n).const_mul (θ n t)).add ((out_far h0' n).const_mul (η n t))
    simpa using this
  · obtain ⟨v1, v2⟩ := hb n z hz
    obtain ⟨v1', v2'⟩ := hb' n z hz
    have d1 : ‖(w n).der n z - I * (w n).val n z‖ ≤ 2 * u n := by
      refine (norm_sub_le _ _).trans ?_
      rw [norm_mul, norm_I]; linarith
    have d2 : ‖(w' n).der n z - I * (w' n).val n z‖ ≤ 2 * u' n := by
      refine (norm_sub_le _ _).trans ?_
      rw [norm_mul, norm_I]; linarith
    refine (norm_add_le _ _).trans ?_
    rw [norm_mul, norm_mul]
    have i1 := mul_le_mul (hθ n t) d1 (norm_nonneg _) ((norm_nonneg _).trans (hθ n t))
    have i2 := mul_le_mul (hη n t) d2 (norm_nonneg _) ((norm_nonneg _).trans (hη n t))
    linarith

/-- The radial component of a series of outgoing waves decreases like the inverse square of the distance. -/
theorem out_radial (hx : GB fun n => ‖x n‖) (hα : Dec α) (h0 : ∀ n, (α n).d = 0) (c : ℂ) (t : ℝ) :
    Tendsto (fun z : ℝ => (z : ℂ) * (c * (∑' n, serR x α n t z) / (z : ℂ) ^ 2)) atTop (𝓝 0) := by
  obtain ⟨u, hu, hb⟩ := out_bound hα h0
  obtain ⟨b, gb, hR⟩ := ((AngB.coef hx).mul (AngB.nat.mul (AngB.nat.add (AngB.const 1)))).mul (AngB.sin.mul AngB.pi)
  have hs : Summable fun n => u n * b n := (hu.mul gb).summable
  have hl : Tendsto (fun z : ℝ => ‖c‖ * (∑' n, u n * b n) / z) atTop (𝓝 0) := tendsto_const_nhds.div_atTop tendsto_id
  refine squeeze_zero_norm' ?_ hl
  filter_upwards [eventually_ge_atTop 1] with z hz
  have hz0 : (z : ℂ) ≠ 0 := by exact_mod_cast (by linarith : z ≠ 0)
  have hzp : 0 < z := by linarith
  have hS : ‖∑' n, serR x α n t z‖ ≤ ∑' n, u n * b n := by
    refine tsum_of_norm_bounded hs.hasSum fun n => ?_
    unfold serR
    rw [norm_mul, mul_comm]
    exact mul_le_mul (hb n z hz).1 (hR n t) (norm_nonneg _) ((norm_nonneg _).trans (hb n z hz).1)
  have e : (z : ℂ) * (c * (∑' n, serR x α n t z) / (z : ℂ) ^ 2) = c * (∑' n, serR x α n t z) / z := by field_simp
  rw [e, norm_div, norm_mul, norm_real, Real.norm_of_nonneg hzp.le]
  gcongr

end

/-- **Silver–Müller radiation condition** for a series of outgoing waves, with the argument `z = κ r`. -/
theorem ser_radiation (E0 m : ℂ) {W : ℕ → Pol → Wave} (hW : DecW W) (h0 : ∀ n q, (W n q).d = 0) (t p : ℝ) :
    Tendsto (fun z : ℝ => (z : ℂ) * (m * (serE E0 W z t p).t - (serH E0 m W z t p).p)) atTop (𝓝 0) ∧
    Tendsto (fun z : ℝ => (z : ℂ) * (m * (serE E0 W z t p).p + (serH E0 m W z t p).t)) atTop (𝓝 0) ∧
    Tendsto (fun z : ℝ => (z : ℂ) * (serE E0 W z t p).r) atTop (𝓝 0) ∧
    Tendsto (fun z : ℝ => (z : ℂ) * (serH E0 m W z t p).r) atTop (𝓝 0) := by
  refine ⟨?_, ?_, out_radial (gb_EnI E0) (hW .tm) (fun n => h0 n .tm) _ t, out_radial (gb_EnIm E0 m) (hW .te) (fun n => h0 n .te) _ t⟩
  · have hl := out_comb (hW .tm) (hW .te) (fun n => h0 n .tm) (fun n => h0 n .te) ((AngB.coef (gb_EnIm E0 m)).mul AngB.tau)
      ((AngB.coef (gb_En (I * m) E0)).mul AngB.pi) t
    have hl := hl.const_mul ((Real.cos p : ℝ) : ℂ)
    rw [mul_zero] at hl
    refine hl.congr' ?_
    filter_upwards [eventually_ge_atTop 1] with z hz
    have hz0 : (z : ℂ) ≠ 0 := by exact_mod_cast (by linarith : z ≠ 0)
    obtain ⟨-, s2, -⟩ := serE_summable E0 hW hz0 t
    obtain ⟨-, -, u3⟩ := serH_summable E0 m hW hz0 t
    have e : ∑' n, (-(I * m * EnCoef E0 n) * (angTau n t : ℝ) * ((W n .tm).der n z - I * (W n .tm).val n z) +
        I * m * EnCoef E0 n * (angPi n (Real.cos t) : ℝ) * ((W n .te).der n z - I * (W n .te).val n z)) =
        m * ∑' n, serT (fun n => -(I * EnCoef E0 n)) (fun n => EnCoef E0 n) (fun n => W n .tm) (fun n => W n .te) n t z -
        ∑' n, serP (fun n => -(I * m * EnCoef E0 n)) (fun n => m * EnCoef E0 n) (fun n => W n .te) (fun n => W n .tm) n t z := by
      rw [← tsum_mul_left, ← (s2.mul_left m).tsum_sub u3]
      refine tsum_congr fun n => ?_
      simp only [serT, serP]
      generalize (W n .tm).val n z = v1
      generalize (W n .te).val n z = v2
      linear_combination (m * EnCoef E0 n * ((angTau n t : ℝ) * v1 - (angPi n (Real.cos t) : ℝ) * v2)) * I_mul_I
    rw [e]
    simp only [serE, serH, serAt]
    field_simp
  · have hl := out_comb (hW .tm) (hW .te) (fun n => h0 n .tm) (fun n => h0 n .te) ((AngB.coef (gb_En (I * m) E0)).mul AngB.pi)
      ((AngB.coef (gb_EnIm E0 m)).mul AngB.tau) t
    have hl := hl.const_mul ((Real.sin p : ℝ) : ℂ)
    rw [mul_zero] at hl
    refine hl.congr' ?_
    filter_upwards [eventually_ge_atTop 1] with z hz
    have hz0 : (z : ℂ) ≠ 0 := by exact_mod_cast (by linarith : z ≠ 0)
    obtain ⟨-, -, s3⟩ := serE_summable E0 hW hz0 t
    obtain ⟨-, u2, -⟩ := serH_summable E0 m hW hz0 t
    have e : ∑' n, (I * m * EnCoef E0 n * (angPi n (Real.cos t) : ℝ) * ((W n .tm).der n z - I * (W n .tm).val n z) +
        -(I * m * EnCoef E0 n) * (angTau n t : ℝ) * ((W n .te).der n z - I * (W n .te).val n z)) =
        -(m * ∑' n, serP (fun n => -(I * EnCoef E0 n)) (fun n => EnCoef E0 n) (fun n => W n .tm) (fun n => W n .te) n t z) +
        ∑' n, serT (fun n => -(I * m * EnCoef E0 n)) (fun n => m * EnCoef E0 n) (fun n => W n .te) (fun n => W n .tm) n t z := by
      rw [← tsum_mul_left, ← tsum_neg, ← (s3.mul_left m).neg.tsum_add u2]
      refine tsum_congr fun n => ?_
      simp only [serT, serP]
      generalize (W n .tm).val n z = v1
      generalize (W n .te).val n z = v2
      linear_combination (m * EnCoef E0 n * ((angTau n t : ℝ) * v2 - (angPi n (Real.cos t) : ℝ) * v1)) * I_mul_I
    rw [e]
    simp only [serE, serH, serAt]
    field_simp

/-! ## Continuity in the argument -/

theorem Good.continuousAt {T : ℕ → ℝ → ℂ → ℂ} (hT : Good T) {t : ℝ} (h : ∀ n z, z ≠ 0 → ContinuousAt (T n t) z) {z : ℂ} (hz : z ≠ 0) :
    ContinuousAt (fun s => ∑' n, T n t s) z := by
  have hp : 0 < ‖z‖ := norm_pos_iff.2 hz
  have hB : (0 : ℂ) ∉ Metric.closedBall z (‖z‖ / 2) := by
    rw [Metric.mem_closedBall, dist_comm, dist_zero_right]
    linarith
  obtain ⟨u, h1, -, h3⟩ := hT (Metric.closedBall z (‖z‖ / 2)) (isCompact_closedBall z _) hB
  refine (continuousOn_tsum (s := Metric.closedBall z (‖z‖ / 2)) (fun n w hw => (h n w fun e => hB (e ▸ hw)).continuousWithinAt)
    h1.summable fun n w hw => h3 n t w hw).continuousAt (Metric.closedBall_mem_nhds z (by positivity))

theorem wave_cont (w : Wave) (n : ℕ) {z : ℂ} (hz : z ≠ 0) : ContinuousAt (w.val n) z ∧ ContinuousAt (w.der n) z := by
  have h := wave_sol w n
  exact ⟨(h.1 z hz).continuousAt, (h.2 z hz).continuousAt⟩

theorem serAt_cont {x y : ℕ → ℂ} {α β : ℕ → Wave} (hx : GB fun n => ‖x n‖) (hy : GB fun n => ‖y n‖) (hα : Dec α) (hβ : Dec β)
    (c c' : ℂ) (t : ℝ) {z : ℂ} (hz : z ≠ 0) :
    ContinuousAt (fun s => (serAt c c' x y α β s t).r) z ∧ ContinuousAt (fun s => (serAt c c' x y α β s t).t) z ∧
    ContinuousAt (fun s => (serAt c c' x y α β s t).p) z := by
  refine ⟨(continuousAt_const.mul ((good_serR hx hα).continuousAt (fun n w hw => ?_) hz)).div (continuousAt_id.pow 2) (pow_ne_zero 2 hz),
    (continuousAt_const.mul ((good_serT hx hy hα hβ).continuousAt (fun n w hw => ?_) hz)).div continuousAt_id hz,
    (continuousAt_const.mul ((good_serP hx hy hα hβ).continuousAt (fun n w hw => ?_) hz)).div continuousAt_id hz⟩
  · exact continuousAt_const.mul (wave_cont _ n hw).1
  · exact (continuousAt_const.mul (wave_cont _ n hw).2).add (continuousAt_const.mul (wave_cont _ n hw).1)
  · exact (continuousAt_const.mul (wave_cont _ n hw).2).add (continuousAt_const.mul (wave_cont _ n hw).1)

/-! ## The remainder -/

theorem SG.bound {u : ℕ → ℝ} (hu : SG u) {ρ : ℝ} (hρ : 0 < ρ) : ∃ C : ℝ, 0 < C ∧ ∀ n, ‖u n‖ ≤ C * ρ ^ n := by
  obtain ⟨C, hC, h⟩ := Asymptotics.bound_of_isBigO_nat_atTop (hu ρ hρ)
  refine ⟨C, hC, fun n => ?_⟩
  have := h (x := n) (pow_ne_zero n hρ.ne')
  rwa [Real.norm_of_nonneg (pow_nonneg hρ.le n)] at this

/-- The remainder after `N` orders is smaller than any geometric sequence, for all angles and all arguments in a compact set. -/
theorem Good.tail {T : ℕ → ℝ → ℂ → ℂ} (hT : Good T) (h0 : ∀ t z, T 0 t z = 0) {K : Set ℂ} (hK : IsCompact K) (hK0 : (0 : ℂ) ∉ K)
    {ρ : ℝ} (hρ : 0 < ρ) : ∃ C : ℝ, 0 < C ∧ ∀ N t, ∀ z ∈ K,
      ‖∑ i ∈ Finset.range N, T (i + 1) t z - ∑' n, T n t z‖ ≤ C * ρ ^ N := by
  obtain ⟨u, hu, -, hb⟩ := hT K hK hK0
  set σ := min ρ (1 / 2) with hσ
  have hσ0 : 0 < σ := lt_min hρ (by norm_num)
  have hσ1 : σ < 1 := lt_of_le_of_lt (min_le_right _ _) (by norm_num)
  obtain ⟨C, hC, hCu⟩ := hu.bound hσ0
  refine ⟨C / (1 - σ), div_pos hC (by linarith), fun N t z hz => ?_⟩
  have hz0 : z ≠ 0 := fun e => hK0 (e ▸ hz)
  have hs := hT.summable t hz0
  have e : ∑ i ∈ Finset.range N, T (i + 1) t z = ∑ i ∈ Finset.range (N + 1), T i t z := by
    rw [Finset.sum_range_succ', h0, add_zero]
  have e2 := hs.sum_add_tsum_nat_add (N + 1)
  rw [e, ← e2, sub_add_cancel_left, norm_neg]
  have hg : HasSum (fun i : ℕ => C * σ ^ (N + 1) * σ ^ i) (C * σ ^ (N + 1) * (1 - σ)⁻¹) :=
    (hasSum_geometric_of_lt_one hσ0.le hσ1).mul_left _
  refine (tsum_of_norm_bounded hg fun i => ?_).trans ?_
  · refine (hb _ t z hz).trans ((le_abs_self _).trans ((hCu _).trans (le_of_eq ?_)))
    rw [mul_assoc, ← pow_add, add_comm i]
  · have h1 : (0 : ℝ) < 1 - σ := by linarith
    have h2 : σ ^ (N + 1) ≤ ρ ^ N := by
      calc σ ^ (N + 1) ≤ σ ^ N := pow_le_pow_of_le_one hσ0.le hσ1.le (by omega)
        _ ≤ ρ ^ N := pow_le_pow_left₀ hσ0.le (min_le_left _ _) N
    rw [div_mul_eq_mul_div, div_eq_mul_inv]
    gcongr

end MieDiff
