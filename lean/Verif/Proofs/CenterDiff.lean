import Verif.Proofs.Bessel
import Mathlib.Analysis.Complex.RemovableSingularity

/-!
# Error of a complex central difference, and reality of the spherical Bessel functions
-/

namespace MieDiff.Spec

open Complex ComplexConjugate Metric Real

/-- Central difference of a holomorphic function bounded by `M` on the circle of radius `R`: the error is at most
`M h² / (R (R² - h²))`. -/
theorem centerDiff_error {U : Set ℂ} (hU : IsOpen U) {c h : ℂ} {R M : ℝ} {f : ℂ → ℂ} (hc : closedBall c R ⊆ U)
    (hf : DifferentiableOn ℂ f U) (hM : ∀ w ∈ sphere c R, ‖f w‖ ≤ M) (h0 : h ≠ 0) (hR : ‖h‖ < R) :
    ‖(f (c + h) - f (c - h)) / (2 * h) - deriv f c‖ ≤ M * ‖h‖ ^ 2 / (R * (R ^ 2 - ‖h‖ ^ 2)) := by
  have hRp : 0 < R := lt_of_le_of_lt (norm_nonneg h) hR
  have hd := hf.diffContOnCl_ball hc
  have e1 := hd.two_pi_i_inv_smul_circleIntegral_sub_inv_smul (w := c + h) (by simpa [dist_eq_norm] using hR)
  have e2 := hd.two_pi_i_inv_smul_circleIntegral_sub_inv_smul (w := c - h) (by simpa [dist_eq_norm] using hR)
  have e3 := two_pi_I_inv_smul_circleIntegral_sub_sq_inv_smul_of_differentiable hU hc hf
    (mem_ball_self hRp)
  have hcf : ContinuousOn f (sphere c R) := (hf.continuousOn.mono hc).mono sphere_subset_closedBall
  have hn : ∀ w ∈ sphere c R, ‖w - c‖ = R := fun w hw => by simpa [dist_eq_norm] using hw
  have n1 : ∀ w ∈ sphere c R, w - (c + h) ≠ 0 := by
    intro w hw h1
    have : w - c = h := by linear_combination h1
    rw [← hn w hw, this] at hR
    exact lt_irrefl _ hR
  have n2 : ∀ w ∈ sphere c R, w - (c - h) ≠ 0 := by
    intro w hw h1
    have : w - c = -h := by linear_combination h1
    rw [← hn w hw, this, norm_neg] at hR
    exact lt_irrefl _ hR
  have n3 : ∀ w ∈ sphere c R, w - c ≠ 0 := by
    intro w hw h1
    have := hn w hw
    rw [h1, norm_zero] at this
    exact hRp.ne this
  have i1 : CircleIntegrable (fun w => (w - (c + h))⁻¹ • f w) c R :=
    ContinuousOn.circleIntegrable hRp.le
      (((continuousOn_id.sub continuousOn_const).inv₀ n1).smul hcf)
  have i2 : CircleIntegrable (fun w => (w - (c - h))⁻¹ • f w) c R :=
    ContinuousOn.circleIntegrable hRp.le
      (((continuousOn_id.sub continuousOn_const).inv₀ n2).smul hcf)
  have i3 : CircleIntegrable (fun w => ((w - c) ^ 2)⁻¹ • f w) c R :=
    ContinuousOn.circleIntegrable hRp.le
      ((((continuousOn_id.sub continuousOn_const).pow 2).inv₀ (fun w hw => pow_ne_zero 2 (n3 w hw))).smul hcf)
  have key : (f (c + h) - f (c - h)) / (2 * h) - deriv f c =
      (2 * π * I : ℂ)⁻¹ • ∮ w in C(c, R),
        ((2 * h)⁻¹ • ((w - (c + h))⁻¹ • f w - (w - (c - h))⁻¹ • f w) - ((w - c) ^ 2)⁻¹ • f w) := by
    have i4 : CircleIntegrable (fun w => (2 * h)⁻¹ • ((w - (c + h))⁻¹ • f w - (w - (c - h))⁻¹ • f w)) c R :=
      (i1.sub i2).const_smul
    rw [circleIntegral.integral_sub i4 i3, circleIntegral.integral_smul, circleIntegral.integral_sub i1 i2, ← e1, ← e2,
      ← e3]
    simp only [smul_eq_mul]
    ring
  rw [key]
  have hM0 : 0 ≤ M := by
    obtain ⟨w, hw⟩ := (NormedSpace.sphere_nonempty (x := c)).2 hRp.le
    exact (norm_nonneg _).trans (hM w hw)
  have hpos : 0 < R ^ 2 - ‖h‖ ^ 2 := by nlinarith [norm_nonneg h]
  refine (circleIntegral.norm_two_pi_i_inv_smul_integral_le_of_norm_le_const hRp.le
    (C := M * ‖h‖ ^ 2 / (R ^ 2 * (R ^ 2 - ‖h‖ ^ 2))) ?_).trans (le_of_eq ?_)
  · intro w hw
    have hwn := hn w hw
    have hq : (w - c) ^ 2 - h ^ 2 ≠ 0 := by
      have : (w - c) ^ 2 - h ^ 2 = (w - (c + h)) * (w - (c - h)) := by ring
      rw [this]
      exact mul_ne_zero (n1 w hw) (n2 w hw)
    have e : (2 * h)⁻¹ • ((w - (c + h))⁻¹ • f w - (w - (c - h))⁻¹ • f w) - ((w - c) ^ 2)⁻¹ • f w =
        f w * h ^ 2 / ((w - c) ^ 2 * ((w - c) ^ 2 - h ^ 2)) := by
      have a1 := n1 w hw
      have a2 := n2 w hw
      have a3 := n3 w hw
      have hs : (w - c) ^ 2 - h ^ 2 = (w - (c + h)) * (w - (c - h)) := by ring
      rw [hs]
      simp only [smul_eq_mul]
      field_simp
      ring
    rw [e, norm_div, norm_mul, norm_mul, norm_pow, norm_pow, hwn]
    have hlow : R ^ 2 - ‖h‖ ^ 2 ≤ ‖(w - c) ^ 2 - h ^ 2‖ := by
      have := norm_sub_norm_le ((w - c) ^ 2) (h ^ 2)
      simpa [norm_pow, hwn] using this
    have hMw := hM w hw
    gcongr
  · field_simp

theorem sphJ_star (n : ℕ) {z : ℂ} (hz : z ≠ 0) : sphJ n (conj z) = conj (sphJ n z) := by
  have hz' : conj z ≠ 0 := by simpa using hz
  induction n using Nat.twoStepInduction with
  | zero => rw [sphJ_zero, sphJ_zero]; simp [sin_conj]
  | one => rw [sphJ_one hz, sphJ_one hz']; simp [sin_conj, cos_conj]
  | more n h0 h1 =>
    rw [sphJ_seq.three n hz, sphJ_seq.three n hz', h0, h1]
    simp only [map_sub, map_mul, map_div₀, map_add, map_natCast, map_ofNat]

theorem sphY_star (n : ℕ) {z : ℂ} (hz : z ≠ 0) : sphY n (conj z) = conj (sphY n z) := by
  have hz' : conj z ≠ 0 := by simpa using hz
  induction n using Nat.twoStepInduction with
  | zero => rw [sphY_zero, sphY_zero]; simp [cos_conj]
  | one => rw [sphY_one hz, sphY_one hz']; simp [sin_conj, cos_conj]
  | more n h0 h1 =>
    rw [sphY_seq.three n hz, sphY_seq.three n hz', h0, h1]
    simp only [map_sub, map_mul, map_div₀, map_add, map_natCast, map_ofNat]

/-- A sequence of functions with real values on the real axis, in the form `f (conj z) = conj (f z)`. -/
def StarSeq (f : ℕ → ℂ → ℂ) : Prop := ∀ n z, z ≠ 0 → f n (conj z) = conj (f n z)

theorem StarSeq.deriv {f : ℕ → ℂ → ℂ} (hs : BesselSeq f) (h : StarSeq f) : StarSeq fun n => deriv (f n) := by
  intro n z hz
  have hz' : conj z ≠ 0 := by simpa using hz
  simp only [(hs.raise n _ hz').deriv, (hs.raise n _ hz).deriv, h _ z hz, map_sub, map_mul, map_div₀, map_natCast]

end MieDiff.Spec
