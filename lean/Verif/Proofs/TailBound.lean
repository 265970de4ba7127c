import Verif.Proofs.Evanescent
import Verif.Proofs.Rayleigh
import Verif.Spec.Series
import Mathlib.Analysis.SpecialFunctions.Exp
import Mathlib.Analysis.SpecificLimits.Basic

/-!
# The tail of the Mie series above the barrier, and the size of `psi_n` there
-/

namespace MieDiff.Spec

open Complex ComplexConjugate Filter Topology Nat

theorem barrier_mono {n n' : ℕ} {x : ℝ} (h : x ^ 2 ≤ n * (n + 1)) (hn : n ≤ n') : x ^ 2 ≤ (n' : ℝ) * (n' + 1) := by
  have : (n : ℝ) ≤ n' := by exact_mod_cast hn
  refine h.trans ?_
  gcongr

theorem psiR_three (n : ℕ) {x : ℝ} (hx : 0 < x) : (2 * (n : ℝ) + 3) * psiR (n + 1) x = x * (psiR n x + psiR (n + 2) x) := by
  have h1 := dpsiR_lower n hx
  unfold dpsiR at h1
  push_cast at h1
  have h2 : psiR (n + 2) x = psiR (n + 1 + 1) x := rfl
  rw [h2]
  field_simp at h1
  linear_combination h1

/-- Decay of `psi_n` with the order. -/
theorem psiR_decay {N : ℕ} {x : ℝ} (hx : 0 < x) (h : x ^ 2 ≤ N * (N + 1)) (j : ℕ) :
    |psiR (N + j) x| ≤ (x / (N + 1)) ^ j * |psiR N x| := by
  induction j with
  | zero => simp
  | succ j ih =>
    have s := (sizes hx (barrier_mono h (Nat.le_add_right N j))).psi_step
    push_cast at s
    rw [← add_assoc, _root_.pow_succ']
    calc |psiR (N + j + 1) x| ≤ x / (N + j + 1) * |psiR (N + j) x| := s
      _ ≤ x / (N + 1) * ((x / (N + 1)) ^ j * |psiR N x|) := by
          refine mul_le_mul ?_ ih (abs_nonneg _) (by positivity)
          refine div_le_div_of_nonneg_left hx.le (by positivity) ?_
          have : (0 : ℝ) ≤ j := by positivity
          linarith
      _ = _ := by ring

/-- `2 x K_N psi_N²` bounds the weighted bounds of the coefficients. -/
theorem rhoB_tail {N : ℕ} {x : ℝ} (hx : 0 < x) (h : x ^ 2 ≤ N * (N + 1)) (j : ℕ) :
    (2 * ((N + j : ℕ) : ℝ) + 3) * rhoB (N + j) x ≤
      2 * x * (((N : ℝ) + 1) * (N + 2) / ((N + 1) ^ 2 - x ^ 2)) * psiR N x ^ 2 * ((x / (N + 1)) ^ 2) ^ j := by
  set n := N + j with hn
  have hb := barrier_mono h (Nat.le_add_right N j)
  rw [← hn] at hb
  have hb' := barrier_mono hb (Nat.le_succ n)
  have s := sizes hx hb
  have s' := sizes hx hb'
  have g := gap_pos hb
  have gN := gap_pos h
  have hnn : (0 : ℝ) ≤ n := by positivity
  have hx1 : x / (n + 1) ≤ 1 := by rw [div_le_one (by positivity)]; nlinarith
  have hx2 : x / ((n + 1 : ℕ) + 1) ≤ 1 := by rw [div_le_one (by positivity)]; push_cast; nlinarith
  have h1 : (2 * (n : ℝ) + 3) * |psiR (n + 1) x| ≤ 2 * x * |psiR n x| := by
    have e := congrArg abs (psiR_three n hx)
    rw [abs_mul, abs_mul, abs_of_pos hx, abs_of_pos (by positivity)] at e
    rw [e]
    have a1 : |psiR (n + 2) x| ≤ |psiR n x| := by
      calc |psiR (n + 2) x| ≤ x / ((n + 1 : ℕ) + 1) * |psiR (n + 1) x| := s'.psi_step
        _ ≤ 1 * |psiR (n + 1) x| := mul_le_mul_of_nonneg_right hx2 (abs_nonneg _)
        _ ≤ 1 * (x / (n + 1) * |psiR n x|) := mul_le_mul_of_nonneg_left s.psi_step zero_le_one
        _ ≤ 1 * (1 * |psiR n x|) := by
            refine mul_le_mul_of_nonneg_left ?_ zero_le_one
            exact mul_le_mul_of_nonneg_right hx1 (abs_nonneg _)
        _ = _ := by ring
    have a2 := abs_add_le (psiR n x) (psiR (n + 2) x)
    have := mul_le_mul_of_nonneg_left (a2.trans (add_le_add le_rfl a1)) hx.le
    linarith
  have h2 : ((n : ℝ) + 1) * (n + 2) / ((n + 1) ^ 2 - x ^ 2) ≤ ((N : ℝ) + 1) * (N + 2) / ((N + 1) ^ 2 - x ^ 2) := by
    have hNn : (N : ℝ) ≤ n := by exact_mod_cast (Nat.le_add_right N j)
    have hN0 : (0 : ℝ) ≤ N := by positivity
    have e : ∀ t : ℝ, 0 < (t + 1) ^ 2 - x ^ 2 → (t + 1) * (t + 2) / ((t + 1) ^ 2 - x ^ 2) = 1 + (t + 1 + x ^ 2) / ((t + 1) ^ 2 - x ^ 2) := by
      intro t ht
      field_simp
      ring
    rw [e _ g, e _ gN]
    refine add_le_add le_rfl ?_
    rw [div_le_div_iff₀ g gN]
    have d : (0 : ℝ) ≤ n - N := by linarith
    have : ((n : ℝ) + 1 + x ^ 2) * ((N + 1) ^ 2 - x ^ 2) - (N + 1 + x ^ 2) * ((n + 1) ^ 2 - x ^ 2) =
        -((n - N) * ((N + 1) * (n + 1) + x ^ 2 * (n + N + 2) + x ^ 2)) := by ring
    have h3 : 0 ≤ (n - N : ℝ) * ((N + 1) * (n + 1) + x ^ 2 * (n + N + 2) + x ^ 2) := by positivity
    linarith
  have h4 : |psiR n x| ^ 2 ≤ psiR N x ^ 2 * ((x / (N + 1)) ^ 2) ^ j := by
    have := pow_le_pow_left₀ (abs_nonneg _) (psiR_decay hx h j) 2
    rw [← hn] at this
    refine this.trans (le_of_eq ?_)
    rw [mul_pow, sq_abs, ← pow_mul, ← pow_mul, mul_comm j 2]
    ring
  unfold rhoB
  rw [abs_mul]
  calc (2 * (n : ℝ) + 3) * (((n : ℝ) + 1) * (n + 2) / ((n + 1) ^ 2 - x ^ 2) * (|psiR (n + 1) x| * |psiR n x|)) =
        (((n : ℝ) + 1) * (n + 2) / ((n + 1) ^ 2 - x ^ 2)) * ((2 * (n : ℝ) + 3) * |psiR (n + 1) x| * |psiR n x|) := by ring
    _ ≤ (((N : ℝ) + 1) * (N + 2) / ((N + 1) ^ 2 - x ^ 2)) * (2 * x * |psiR n x| * |psiR n x|) := by
        refine mul_le_mul h2 (mul_le_mul_of_nonneg_right h1 (abs_nonneg _)) (by positivity) (by positivity)
    _ = 2 * x * (((N : ℝ) + 1) * (N + 2) / ((N + 1) ^ 2 - x ^ 2)) * |psiR n x| ^ 2 := by ring
    _ ≤ 2 * x * (((N : ℝ) + 1) * (N + 2) / ((N + 1) ^ 2 - x ^ 2)) * (psiR N x ^ 2 * ((x / (N + 1)) ^ 2) ^ j) :=
        mul_le_mul_of_nonneg_left h4 (by positivity)
    _ = _ := by ring

/-! ## Closed form -/

/-- `psi_n psi_{n+1} ≥ x/(2n+3) psi_n²`. -/
theorem psiR_next {n : ℕ} {x : ℝ} (hx : 0 < x) (h : x ^ 2 ≤ n * (n + 1)) :
    x / (2 * n + 3) * psiR n x ^ 2 ≤ psiR n x * psiR (n + 1) x := by
  have s := sizes hx h
  have s' := sizes hx (barrier_mono h (Nat.le_succ n))
  have h1 : 0 ≤ psiR n x * psiR (n + 2) x := by
    have h2 : 0 ≤ psiR (n + 1) x * psiR (n + 2) x := s'.psi_sign
    by_cases h0 : psiR (n + 1) x = 0
    · have h3 := s'.psi_step
      change |psiR (n + 2) x| ≤ _ at h3
      rw [h0, abs_zero, mul_zero] at h3
      rw [abs_nonpos_iff.1 h3, mul_zero]
    · have h3 := mul_nonneg s.psi_sign h2
      have h4 : 0 < psiR (n + 1) x ^ 2 := by positivity
      have : psiR n x * psiR (n + 1) x * (psiR (n + 1) x * psiR (n + 2) x) = psiR (n + 1) x ^ 2 * (psiR n x * psiR (n + 2) x) := by ring
      rw [this] at h3
      exact nonneg_of_mul_nonneg_right h3 h4
  have e := psiR_three n hx
  have h5 : (0 : ℝ) < 2 * n + 3 := by positivity
  rw [div_mul_eq_mul_div, div_le_iff₀ h5]
  have e2 : psiR n x * psiR (n + 1) x * (2 * n + 3) = x * psiR n x ^ 2 + x * (psiR n x * psiR (n + 2) x) := by
    linear_combination psiR n x * e
  rw [e2]
  have := mul_nonneg hx.le h1
  linarith

theorem hasDerivAt_psiR (n : ℕ) {x : ℝ} (hx : 0 < x) : HasDerivAt (psiR n) (dpsiR n x) x := by
  have hz : (x : ℂ) ≠ 0 := by exact_mod_cast hx.ne'
  have h := (hasDerivAt_ricPsi n hz).comp_ofReal
  have h2 := (reCLM.hasFDerivAt (x := ricPsi n (x : ℂ))).comp_hasDerivAt x h
  rw [dpsiR_eq n hx] at h2
  exact h2

/-- `psi_n(x)² / x²` does not decrease below the barrier. -/
theorem psiR_over_mono {n : ℕ} {x y : ℝ} (hx : 0 < x) (hxy : x ≤ y) (h : y ^ 2 ≤ n * (n + 1)) :
    (psiR n x / x) ^ 2 ≤ (psiR n y / y) ^ 2 := by
  have hd : ∀ t : ℝ, 0 < t → t ^ 2 ≤ (n : ℝ) * (n + 1) → ∃ c, 0 ≤ c ∧ HasDerivAt (fun s => (psiR n s / s) ^ 2) c t := by
    intro t ht hb
    have h1 := ((hasDerivAt_psiR n ht).div (hasDerivAt_id t) ht.ne').pow 2
    refine ⟨_, ?_, h1⟩
    have s := (sizes ht hb).psi_step
    have hn : (0 : ℝ) ≤ n := by positivity
    have key : psiR n t ^ 2 ≤ t * (psiR n t * dpsiR n t) := by
      have a1 : psiR n t * psiR (n + 1) t ≤ t / (n + 1) * psiR n t ^ 2 := by
        calc psiR n t * psiR (n + 1) t ≤ |psiR n t| * |psiR (n + 1) t| := by rw [← abs_mul]; exact le_abs_self _
          _ ≤ |psiR n t| * (t / (n + 1) * |psiR n t|) := mul_le_mul_of_nonneg_left s (abs_nonneg _)
          _ = _ := by rw [← sq_abs (psiR n t)]; ring
      have a2 : t * (psiR n t * dpsiR n t) = (n + 1) * psiR n t ^ 2 - t * (psiR n t * psiR (n + 1) t) := by
        unfold dpsiR
        field_simp
      rw [a2]
      have a3 := mul_le_mul_of_nonneg_left a1 ht.le
      have a4 : t * (t / (n + 1) * psiR n t ^ 2) ≤ n * psiR n t ^ 2 := by
        rw [← mul_assoc]
        refine mul_le_mul_of_nonneg_right ?_ (sq_nonneg _)
        rw [mul_div_assoc', div_le_iff₀ (by positivity)]
        nlinarith
      linarith
    have e : ((2 : ℕ) : ℝ) * (psiR n t / id t) ^ (2 - 1) * ((dpsiR n t * id t - psiR n t * 1) / id t ^ 2) =
        2 / t ^ 3 * (t * (psiR n t * dpsiR n t) - psiR n t ^ 2) := by
      rw [show 2 - 1 = 1 from rfl, pow_one]
      simp only [id]
      push_cast
      field_simp
    refine le_of_le_of_eq ?_ e.symm
    exact mul_nonneg (by positivity) (by linarith)
  have hm : MonotoneOn (fun s => (psiR n s / s) ^ 2) (Set.Ioc 0 y) := by
    refine monotoneOn_of_deriv_nonneg (convex_Ioc 0 y) ?_ ?_ ?_
    · intro r hr
      obtain ⟨c, _, h1⟩ := hd r hr.1 (le_trans (pow_le_pow_left₀ hr.1.le hr.2 2) h)
      exact h1.continuousAt.continuousWithinAt
    · intro r hr
      rw [interior_Ioc] at hr
      obtain ⟨c, _, h1⟩ := hd r hr.1 (le_trans (pow_le_pow_left₀ hr.1.le hr.2.le 2) h)
      exact h1.differentiableAt.differentiableWithinAt
    · intro r hr
      rw [interior_Ioc] at hr
      obtain ⟨c, hc, h1⟩ := hd r hr.1 (le_trans (pow_le_pow_left₀ hr.1.le hr.2.le 2) h)
      rw [h1.deriv]
      exact hc
  exact hm ⟨hx, hxy⟩ ⟨hx.trans_le hxy, le_rfl⟩ hxy

/-- `|psi_n(x)| ≤ x^(n+1) / (2n+1)!! · exp(-x²/(4n+6))` below the barrier. -/
theorem psiR_closed {n : ℕ} {x : ℝ} (hx : 0 < x) (h : x ^ 2 ≤ n * (n + 1)) :
    psiR n x ^ 2 ≤ (x ^ (n + 1) / ((2 * n + 1)‼ : ℝ)) ^ 2 * Real.exp (-(x ^ 2 / (2 * n + 3))) := by
  set G : ℝ → ℝ := fun t => (psiR n t / t ^ (n + 1)) ^ 2 * Real.exp (t ^ 2 / (2 * n + 3)) with hG
  have h3 : (0 : ℝ) < 2 * n + 3 := by positivity
  have hd : ∀ t : ℝ, 0 < t → t ^ 2 ≤ (n : ℝ) * (n + 1) → ∃ c, c ≤ 0 ∧ HasDerivAt G c t := by
    intro t ht hb
    have d1 := ((hasDerivAt_psiR n ht).div (hasDerivAt_pow (n + 1) t) (pow_ne_zero _ ht.ne')).pow 2
    have d2 := ((hasDerivAt_pow 2 t).div_const (2 * (n : ℝ) + 3)).exp
    refine ⟨_, ?_, d1.mul d2⟩
    have k := psiR_next ht hb
    have e : ((2 : ℕ) : ℝ) * (psiR n t / t ^ (n + 1)) ^ (2 - 1) *
          ((dpsiR n t * t ^ (n + 1) - psiR n t * (((n + 1 : ℕ) : ℝ) * t ^ (n + 1 - 1))) / (t ^ (n + 1)) ^ 2) *
          Real.exp (t ^ 2 / (2 * n + 3)) + (psiR n t / t ^ (n + 1)) ^ 2 *
          (Real.exp (t ^ 2 / (2 * n + 3)) * (((2 : ℕ) : ℝ) * t ^ (2 - 1) / (2 * n + 3))) =
        2 * Real.exp (t ^ 2 / (2 * n + 3)) / (t ^ (n + 1)) ^ 2 * (t / (2 * n + 3) * psiR n t ^ 2 - psiR n t * psiR (n + 1) t) := by
      unfold dpsiR
      rw [Nat.add_sub_cancel, _root_.pow_succ t n, show 2 - 1 = 1 from rfl, pow_one, pow_one]
      push_cast
      field_simp
      ring
    refine le_of_eq_of_le e ?_
    exact mul_nonpos_of_nonneg_of_nonpos (by positivity) (by linarith)
  have hm : AntitoneOn G (Set.Ioc 0 x) := by
    refine antitoneOn_of_deriv_nonpos (convex_Ioc 0 x) ?_ ?_ ?_
    · intro r hr
      obtain ⟨c, _, h1⟩ := hd r hr.1 (le_trans (pow_le_pow_left₀ hr.1.le hr.2 2) h)
      exact h1.continuousAt.continuousWithinAt
    · intro r hr
      rw [interior_Ioc] at hr
      obtain ⟨c, _, h1⟩ := hd r hr.1 (le_trans (pow_le_pow_left₀ hr.1.le hr.2.le 2) h)
      exact h1.differentiableAt.differentiableWithinAt
    · intro r hr
      rw [interior_Ioc] at hr
      obtain ⟨c, hc, h1⟩ := hd r hr.1 (le_trans (pow_le_pow_left₀ hr.1.le hr.2.le 2) h)
      rw [h1.deriv]
      exact hc
  have hlim : Tendsto G (𝓝[>] 0) (𝓝 ((1 / ((2 * n + 1)‼ : ℝ)) ^ 2)) := by
    have l1 : Tendsto (fun t : ℝ => (t : ℂ)) (𝓝[>] 0) (𝓝[≠] 0) := by
      refine tendsto_nhdsWithin_iff.2 ⟨?_, ?_⟩
      · have := Complex.continuous_ofReal.tendsto 0
        rw [ofReal_zero] at this
        exact this.mono_left nhdsWithin_le_nhds
      · filter_upwards [self_mem_nhdsWithin] with t ht
        have : t ≠ 0 := (Set.mem_Ioi.1 ht).ne'
        simpa using this
    have l2 := (psi_small n).comp l1
    have l3 := (Complex.continuous_re.tendsto _).comp l2
    have l4 : Tendsto (fun t : ℝ => psiR n t / t ^ (n + 1)) (𝓝[>] 0) (𝓝 (1 / ((2 * n + 1)‼ : ℝ))) := by
      have e0 : (1 / ((2 * n + 1)‼ : ℂ)).re = 1 / ((2 * n + 1)‼ : ℝ) := by
        rw [show (1 / ((2 * n + 1)‼ : ℂ)) = ((1 / ((2 * n + 1)‼ : ℝ) : ℝ) : ℂ) by push_cast; rfl, ofReal_re]
      rw [← e0]
      refine l3.congr' ?_
      filter_upwards [self_mem_nhdsWithin] with t ht
      simp only [Function.comp]
      rw [psiR_eq n ht, ← ofReal_pow, ← ofReal_div, ofReal_re]
    have l5 : Tendsto (fun t : ℝ => Real.exp (t ^ 2 / (2 * n + 3))) (𝓝[>] 0) (𝓝 1) := by
      have hc : Continuous fun t : ℝ => Real.exp (t ^ 2 / (2 * n + 3)) := by fun_prop
      have := (hc.tendsto 0).mono_left (nhdsWithin_le_nhds (s := Set.Ioi 0))
      simpa using this
    simpa using (l4.pow 2).mul l5
  have hle : G x ≤ (1 / ((2 * n + 1)‼ : ℝ)) ^ 2 := by
    refine ge_of_tendsto hlim ?_
    filter_upwards [Ioo_mem_nhdsGT hx] with t ht
    exact hm ⟨ht.1, ht.2.le⟩ ⟨hx, le_rfl⟩ ht.2.le
  have hxp : (0 : ℝ) < x ^ (n + 1) := by positivity
  have hE := Real.exp_pos (x ^ 2 / (2 * n + 3))
  rw [Real.exp_neg, ← div_eq_mul_inv, le_div_iff₀ hE]
  have e : psiR n x ^ 2 * Real.exp (x ^ 2 / (2 * n + 3)) = (x ^ (n + 1)) ^ 2 * G x := by
    simp only [hG]
    field_simp
  rw [e]
  have := mul_le_mul_of_nonneg_left hle (sq_nonneg (x ^ (n + 1)))
  refine this.trans (le_of_eq ?_)
  ring

end MieDiff.Spec
