import Verif.Proofs.TailBound
import Verif.Proofs.FarField
import Mathlib.Topology.Order.IntermediateValue

/-!
# Resonances of high order

For every order above the barrier of the host there is a real refractive index for which the coefficient of this order is 1.
-/

namespace MieDiff.Spec

open Complex ComplexConjugate Filter Topology

theorem psiR_re (n : ℕ) {y : ℝ} (hy : 0 < y) : psiR n y = (ricZeta n (y : ℂ)).re ∧ dpsiR n y = (deriv (ricZeta n) (y : ℂ)).re := by
  refine ⟨?_, ?_⟩
  · rw [zeta_split, psiR_eq n hy, chiR_eq n hy]; simp
  · rw [dzetaR_eq n hy]; simp

/-- Far out, `psi_n` is small and `psi_n'` is `1` or `-1` at a sequence of points. -/
theorem psiR_far (n : ℕ) (s : ℝ) (hs : s = 1 ∨ s = -1) : ∃ C : ℝ, 0 ≤ C ∧ ∀ y0 : ℝ, ∃ y : ℝ, y0 ≤ y ∧ 1 ≤ y ∧
    |psiR n y| ≤ C / y ∧ |dpsiR n y - s| ≤ C / y := by
  obtain ⟨C, hC, h⟩ := ricZeta_far n
  refine ⟨C, hC, fun y0 => ?_⟩
  obtain ⟨N, hN⟩ := exists_nat_ge (max y0 1)
  -- the phase
  obtain ⟨t, ht⟩ : ∃ t : ℝ, ∀ j : ℕ, (-I) ^ n * exp (((t + j * (2 * Real.pi) : ℝ) : ℂ) * I) = (s : ℂ) := by
    have hu : ‖(-I : ℂ) ^ n‖ = 1 := by rw [norm_pow, norm_neg, norm_I, one_pow]
    have hsu : ‖(s : ℂ)‖ = 1 := by rcases hs with rfl | rfl <;> simp
    have h0 : (-I : ℂ) ^ n ≠ 0 := by intro h0; rw [h0] at hu; simp at hu
    have h1 : ‖(s : ℂ) / (-I) ^ n‖ = 1 := by rw [norm_div, hu, hsu, div_one]
    refine ⟨arg ((s : ℂ) / (-I) ^ n), fun j => ?_⟩
    have e : (((arg ((s : ℂ) / (-I) ^ n) + j * (2 * Real.pi) : ℝ) : ℂ)) * I =
        (arg ((s : ℂ) / (-I) ^ n) : ℂ) * I + (j : ℂ) * (2 * Real.pi * I) := by push_cast; ring
    have e2 := norm_mul_exp_arg_mul_I ((s : ℂ) / (-I) ^ n)
    rw [h1, ofReal_one, one_mul] at e2
    rw [e, exp_add, exp_nat_mul_two_pi_mul_I, mul_one, e2]
    field_simp
  obtain ⟨M, hM⟩ := exists_nat_ge (N + |t|)
  set y : ℝ := t + M * (2 * Real.pi) with hy
  have hyN : (N : ℝ) ≤ y := by
    have hpi := Real.pi_gt_three
    have h0 : (0 : ℝ) ≤ M := by positivity
    have := neg_abs_le t
    have : (M : ℝ) * 1 ≤ M * (2 * Real.pi) := by gcongr; linarith
    linarith
  have hy1 : 1 ≤ y := (le_max_right _ _).trans (hN.trans hyN)
  have hy0 : 0 < y := by linarith
  refine ⟨y, (le_max_left _ _).trans (hN.trans hyN), hy1, ?_⟩
  obtain ⟨h1, h2⟩ := h y hy1
  have ht' := ht M
  rw [← hy] at ht'
  have e1 : (-I) ^ (n + 1) * exp ((y : ℂ) * I) = -I * s := by rw [pow_succ, ← ht']; ring
  rw [e1] at h1
  rw [ht'] at h2
  obtain ⟨p1, p2⟩ := psiR_re n hy0
  refine ⟨?_, ?_⟩
  · have := (abs_re_le_norm _).trans h1
    rw [sub_re, ← p1] at this
    simpa using this
  · have := (abs_re_le_norm _).trans h2
    rwa [sub_re, ← p2, ofReal_re] at this

theorem continuousAt_dpsiR (n : ℕ) {y : ℝ} (hy : 0 < y) : ContinuousAt (dpsiR n) y := by
  unfold dpsiR
  exact ((continuousAt_const.div continuousAt_id hy.ne').mul (hasDerivAt_psiR n hy).continuousAt).sub
    (hasDerivAt_psiR (n + 1) hy).continuousAt

/-- A real index above 1 with coefficient 1 at order `n + 1`. -/
theorem resonance {n : ℕ} {x : ℝ} (hx : 0 < x) (h : x ^ 2 ≤ n * (n + 1)) :
    ∃ m : ℝ, 1 < m ∧ Solves .te (n + 1) [((m : ℂ), (x : ℂ))] 1 := by
  obtain ⟨-, -, -, hneg⟩ := ratio_bounds hx h
  set N := n + 1 with hN
  have hc0 : chiR N x ≠ 0 := by intro h0; rw [h0] at hneg; simp at hneg
  have hd0 : dchiR N x ≠ 0 := by intro h0; rw [h0] at hneg; simp at hneg
  set g : ℝ → ℝ := fun m => m * dpsiR N (m * x) * chiR N x - dchiR N x * psiR N (m * x) with hg
  have g1 : g 1 = 1 := by
    have := wronskR N hx
    simp only [hg, one_mul]
    linarith
  obtain ⟨M, hM1, hgM⟩ : ∃ M : ℝ, 1 ≤ M ∧ g M ≤ 0 := by
    obtain ⟨s, hs, hsc⟩ : ∃ s : ℝ, (s = 1 ∨ s = -1) ∧ s * chiR N x = -|chiR N x| := by
      rcases lt_or_gt_of_ne hc0 with h0 | h0
      · exact ⟨1, Or.inl rfl, by rw [abs_of_neg h0]; ring⟩
      · exact ⟨-1, Or.inr rfl, by rw [abs_of_pos h0]; ring⟩
    obtain ⟨C, hC, far⟩ := psiR_far N s hs
    obtain ⟨y, hy0, hy1, f1, f2⟩ := far (max x (max (2 * C) (2 * x * |dchiR N x| * C / |chiR N x|)))
    have hyp : 0 < y := by linarith
    have q0 : x ≤ y := (le_max_left _ _).trans hy0
    have q1 : 2 * C ≤ y := (le_max_left _ _).trans ((le_max_right _ _).trans hy0)
    have q2 : 2 * x * |dchiR N x| * C / |chiR N x| ≤ y := (le_max_right _ _).trans ((le_max_right _ _).trans hy0)
    have hcp : 0 < |chiR N x| := abs_pos.2 hc0
    refine ⟨y / x, by rw [one_le_div hx]; exact q0, ?_⟩
    have ey : y / x * x = y := by field_simp
    simp only [hg, ey]
    have b1 : |dpsiR N y - s| ≤ 1 / 2 := f2.trans (by rw [div_le_div_iff₀ hyp (by norm_num)]; linarith)
    have b2 : dpsiR N y * chiR N x ≤ -|chiR N x| / 2 := by
      have e : dpsiR N y * chiR N x = s * chiR N x + (dpsiR N y - s) * chiR N x := by ring
      have : (dpsiR N y - s) * chiR N x ≤ 1 / 2 * |chiR N x| := by
        refine (le_abs_self _).trans ?_
        rw [abs_mul]; gcongr
      rw [e, hsc]; linarith
    have b3 : -(dchiR N x * psiR N y) ≤ |dchiR N x| * (C / y) := by
      refine (neg_le_abs _).trans ?_
      rw [abs_mul]; gcongr
    have b4 : |dchiR N x| * (C / y) ≤ y / x * (|chiR N x| / 2) := by
      rw [div_le_iff₀ hcp] at q2
      have hyx : 1 ≤ y := hy1
      have l : |dchiR N x| * C * (2 * x) ≤ y * y * |chiR N x| := by
        have : y * |chiR N x| ≤ y * y * |chiR N x| := by nlinarith [mul_pos hyp hcp]
        linarith
      rw [← mul_div_assoc, div_mul_div_comm, div_le_div_iff₀ hyp (by positivity)]
      linarith
    have b5 : y / x * (dpsiR N y * chiR N x) ≤ y / x * (-|chiR N x| / 2) := mul_le_mul_of_nonneg_left b2 (by positivity)
    have e : y / x * (-|chiR N x| / 2) = -(y / x * (|chiR N x| / 2)) := by ring
    rw [mul_assoc]
    linarith
  have hcont : ContinuousOn g (Set.Icc 1 M) := by
    intro m hm
    have hm0 : 0 < m * x := mul_pos (by linarith [hm.1]) hx
    have c1 : ContinuousAt (fun m => m * x) m := by fun_prop
    have c2 : ContinuousAt (fun m => psiR N (m * x)) m :=
      ContinuousAt.comp (f := fun m => m * x) (g := psiR N) (hasDerivAt_psiR N hm0).continuousAt c1
    have c3 : ContinuousAt (fun m => dpsiR N (m * x)) m :=
      ContinuousAt.comp (f := fun m => m * x) (g := dpsiR N) (continuousAt_dpsiR N hm0) c1
    exact (((continuousAt_id.mul c3).mul continuousAt_const).sub (continuousAt_const.mul c2)).continuousWithinAt
  obtain ⟨m, hm, hm0⟩ := intermediate_value_Icc' hM1 hcont (show (0 : ℝ) ∈ Set.Icc (g M) (g 1) from ⟨hgM, by rw [g1]; norm_num⟩)
  have hm1 : 1 < m := by
    refine lt_of_le_of_ne hm.1 fun h1 => ?_
    rw [← h1, g1] at hm0; norm_num at hm0
  refine ⟨m, hm1, ?_⟩
  have hmx : 0 < m * x := by positivity
  have key : m * dpsiR N (m * x) * chiR N x = dchiR N x * psiR N (m * x) := by
    simp only [hg] at hm0; linarith
  have hd : dpsiR N (m * x) ≠ 0 := by
    intro h0
    rw [h0] at key
    have hp : psiR N (m * x) = 0 := by
      have : dchiR N x * psiR N (m * x) = 0 := by linarith
      exact (mul_eq_zero.1 this).resolve_left hd0
    have := wronskR N hmx
    rw [h0, hp] at this; norm_num at this
  have hdc : (dpsiR N (m * x) : ℂ) ≠ 0 := by exact_mod_cast hd
  have keyc : (m : ℂ) * dpsiR N (m * x) * chiR N x = dchiR N x * psiR N (m * x) := by exact_mod_cast key
  refine ⟨⟨I * dchiR N x / dpsiR N (m * x), 0⟩, rfl, ?_, ?_⟩
  · show (⟨I * dchiR N x / dpsiR N (m * x), 0⟩ : Wave).val N ((m : ℂ) * (x : ℂ)) * 1 = (⟨1, 1⟩ : Wave).val N (1 * (x : ℂ)) * m
    simp only [Wave.val, one_mul, zero_mul, sub_zero, mul_one]
    rw [zeta_split, ← ofReal_mul, psiR_eq N hmx, chiR_eq N hx]
    field_simp
    linear_combination -I * keyc
  · show (⟨I * dchiR N x / dpsiR N (m * x), 0⟩ : Wave).der N ((m : ℂ) * (x : ℂ)) = (⟨1, 1⟩ : Wave).der N (1 * (x : ℂ))
    simp only [Wave.der, one_mul, zero_mul, sub_zero]
    rw [dzetaR_eq N hx, ← ofReal_mul, dpsiR_eq N hmx, dpsiR_eq N hx]
    field_simp
    ring

end MieDiff.Spec
