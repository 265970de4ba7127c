import Verif.Proofs.BesselSeries
import Verif.Proofs.Kernel
import Verif.Proofs.Legendre
import Mathlib.Analysis.Calculus.MeanValue
import Mathlib.Analysis.Calculus.Deriv.MeanValue
import Mathlib.Analysis.SpecialFunctions.Exp

/-!
# Expansion of a plane wave in multipoles

The scalar expansion `exp (i z mu) = sum i^n (2n+1) j_n(z) P_n(mu)` and the sums of the three spherical components of
the vector expansion.
-/

namespace MieDiff.Spec

open Complex Filter Topology
open scoped Nat

/-! ### Bounds -/

theorem fac_le_dfac (n : ℕ) : n ! ≤ (2 * n + 1)‼ := by
  induction n with
  | zero => simp
  | succ n ih =>
    rw [show 2 * (n + 1) + 1 = (2 * n + 1) + 2 by ring, Nat.doubleFactorial_add_two, Nat.factorial_succ]
    exact Nat.mul_le_mul (by omega) ih

theorem dfacR_pos (n : ℕ) : (0 : ℝ) < ((2 * n + 1)‼ : ℕ) := by exact_mod_cast Nat.doubleFactorial_pos _

theorem dfacR_succ (n : ℕ) : (((2 * (n + 1) + 1)‼ : ℕ) : ℝ) = (2 * n + 3) * ((2 * n + 1)‼ : ℕ) := by
  rw [show 2 * (n + 1) + 1 = (2 * n + 1) + 2 by ring, Nat.doubleFactorial_add_two]
  push_cast
  ring

theorem norm_sphJ_le (n : ℕ) {z : ℂ} (hz : z ≠ 0) (h : ‖z‖ ^ 2 ≤ n + 1) :
    ‖sphJ n z‖ ≤ 2 * (‖z‖ ^ n / ((2 * n + 1)‼ : ℕ)) := by
  have h1 := norm_sphJ_sub_le n hz h
  have h2 : ‖sphJ n z‖ ≤ ‖sphJ n z - jTerm n 0 z‖ + ‖jTerm n 0 z‖ := by
    have := norm_add_le (sphJ n z - jTerm n 0 z) (jTerm n 0 z)
    simpa using this
  have h3 : ‖jTerm n 0 z‖ = ‖z‖ ^ n / ((2 * n + 1)‼ : ℕ) := by
    unfold jTerm
    simp only [pow_zero, one_mul, mul_zero, add_zero, Nat.factorial_zero, Nat.cast_one, norm_div, norm_pow]
    rw [show ‖(((2 * n + 1)‼ : ℕ) : ℂ)‖ = (((2 * n + 1)‼ : ℕ) : ℝ) from Complex.norm_natCast _]
  have h0 : 0 ≤ ‖z‖ ^ n / ((2 * n + 1)‼ : ℕ) := by positivity
  linarith

theorem legP_rec (n : ℕ) (x : ℝ) : (2 * n + 3) * x * legP (n + 1) x = (n + 2) * legP (n + 2) x + (n + 1) * legP n x := by
  have h1 := angPi_diff (n + 1) x
  have h2 := angPi_add_two n x
  have h3 := angPi_succ n x
  have h4 := angPi_succ (n + 1) x
  push_cast at h1 h4
  linear_combination h1 - x * h2 + h3

theorem legP_one (x : ℝ) : legP 1 x = x := by
  have h := angPi_diff 0 x
  rw [angPi_one, angPi_zero] at h
  simpa using h.symm

theorem legP_at_one (n : ℕ) : legP n 1 = 1 := by
  have key : ∀ n, legP n 1 = 1 ∧ legP (n + 1) 1 = 1 := by
    intro n
    induction n with
    | zero => exact ⟨legP_zero 1, legP_one 1⟩
    | succ n ih =>
      refine ⟨ih.2, ?_⟩
      have h := legP_rec n 1
      rw [ih.1, ih.2] at h
      have hn : ((n : ℝ) + 2) ≠ 0 := by positivity
      refine mul_left_cancel₀ hn ?_
      linarith
  exact (key n).1

theorem legP_at_neg_one (n : ℕ) : legP n (-1) = (-1) ^ n := by
  have key : ∀ n, legP n (-1) = (-1) ^ n ∧ legP (n + 1) (-1) = (-1) ^ (n + 1) := by
    intro n
    induction n with
    | zero => exact ⟨by rw [legP_zero]; simp, by rw [legP_one]; simp⟩
    | succ n ih =>
      refine ⟨ih.2, ?_⟩
      have h := legP_rec n (-1)
      rw [ih.1, ih.2] at h
      have hn : ((n : ℝ) + 2) ≠ 0 := by positivity
      refine mul_left_cancel₀ hn ?_
      rw [pow_succ, pow_succ] at *
      linarith
  exact (key n).1

/-- `|P_n| <= 1` on `[-1, 1]`. -/
theorem abs_legP_le_one (n : ℕ) {x : ℝ} (hx : |x| ≤ 1) : |legP n x| ≤ 1 := by
  rcases Nat.eq_zero_or_pos n with rfl | hn
  · rw [legP_zero]; simp
  set g : ℝ → ℝ := fun y => (1 - y ^ 2) * angPi n y ^ 2 + n * (n + 1) * legP n y ^ 2 with hg
  have hd : ∀ y, HasDerivAt g (2 * y * angPi n y ^ 2) y := by
    intro y
    have h1 := (((hasDerivAt_id y).pow 2).const_sub 1).mul ((hasDerivAt_angPi n y).pow 2)
    have h2 := ((hasDerivAt_legP n y).pow 2).const_mul ((n : ℝ) * (n + 1))
    refine (h1.add h2).congr_deriv ?_
    have ho := legendre_ode n y
    simp only [id, Nat.cast_ofNat, Nat.add_one_sub_one, pow_one, Pi.pow_apply, mul_one]
    linear_combination 2 * angPi n y * ho
  have hc : ContinuousOn g Set.univ := fun y _ => (hd y).continuousAt.continuousWithinAt
  have hn1 : (0 : ℝ) < n * (n + 1) := by positivity
  obtain ⟨hx1, hx2⟩ := abs_le.1 hx
  have fin : ∀ e : ℝ, legP n e ^ 2 = 1 → e ^ 2 = 1 → g x ≤ g e → |legP n x| ≤ 1 := by
    intro e h1 h2 h3
    simp only [hg, h1, h2, sub_self, zero_mul, zero_add, mul_one] at h3
    have h4 : 0 ≤ (1 - x ^ 2) * angPi n x ^ 2 := mul_nonneg (by nlinarith) (sq_nonneg _)
    rw [← sq_le_one_iff_abs_le_one]
    by_contra hcon
    push Not at hcon
    nlinarith
  rcases le_total 0 x with h0 | h0
  · refine fin 1 (by rw [legP_at_one]; norm_num) (by norm_num) ?_
    have hm : MonotoneOn g (Set.Icc 0 1) := by
      refine monotoneOn_of_deriv_nonneg (convex_Icc 0 1) (hc.mono (Set.subset_univ _))
        (fun y _ => (hd y).differentiableAt.differentiableWithinAt) (fun y hy => ?_)
      rw [interior_Icc] at hy
      rw [(hd y).deriv]
      have := hy.1
      positivity
    exact hm ⟨h0, hx2⟩ ⟨by norm_num, le_rfl⟩ hx2
  · refine fin (-1) (by rw [legP_at_neg_one, ← pow_mul, mul_comm, pow_mul]; norm_num) (by norm_num) ?_
    have hm : AntitoneOn g (Set.Icc (-1) 0) := by
      refine antitoneOn_of_deriv_nonpos (convex_Icc (-1) 0) (hc.mono (Set.subset_univ _))
        (fun y _ => (hd y).differentiableAt.differentiableWithinAt) (fun y hy => ?_)
      rw [interior_Icc] at hy
      rw [(hd y).deriv]
      have := hy.2
      have := sq_nonneg (angPi n y)
      nlinarith
    exact hm ⟨le_rfl, by norm_num⟩ ⟨hx1, h0⟩ hx1

theorem abs_angPi_le_poly (n : ℕ) {x : ℝ} (hx : |x| ≤ 1) : |angPi n x| ≤ n * (n + 1) / 2 := by
  have key : ∀ n : ℕ, |angPi n x| ≤ n * (n + 1) / 2 ∧ |angPi (n + 1) x| ≤ (n + 1) * (n + 2) / 2 := by
    intro n
    induction n with
    | zero => rw [angPi_zero, angPi_one]; norm_num
    | succ n ih =>
      refine ⟨by push_cast; ring_nf; ring_nf at ih; linarith [ih.2], ?_⟩
      rw [angPi_add_two]
      refine (abs_add_le _ _).trans ?_
      rw [abs_mul, abs_of_pos (by positivity : (0 : ℝ) < 2 * n + 3)]
      have h1 := abs_legP_le_one (n + 1) hx
      have h2 := ih.1
      have : (0 : ℝ) ≤ n := Nat.cast_nonneg n
      push_cast
      nlinarith
  exact (key n).1

theorem abs_angTau_le_poly (n : ℕ) (t : ℝ) : |angTau (n + 1) t| ≤ (n + 1) * (n + 2) * (2 * n + 1) / 2 := by
  have hx := Real.abs_cos_le_one t
  rw [angTau_succ]
  refine (abs_sub _ _).trans ?_
  have h1 : |((n : ℝ) + 1) * Real.cos t * angPi (n + 1) (Real.cos t)| ≤ (n + 1) * ((n + 1) * (n + 2) / 2) := by
    rw [abs_mul, abs_mul, abs_of_pos (by positivity : (0 : ℝ) < (n : ℝ) + 1), mul_assoc]
    have h2 := abs_angPi_le_poly (n + 1) hx
    push_cast at h2
    have := mul_le_mul hx h2 (abs_nonneg _) zero_le_one
    have h3 : ((n : ℝ) + 1 + 1) = n + 2 := by ring
    rw [h3] at this
    exact mul_le_mul_of_nonneg_left (by linarith) (by positivity)
  have h2 : |((n : ℝ) + 2) * angPi n (Real.cos t)| ≤ (n + 2) * (n * (n + 1) / 2) := by
    rw [abs_mul, abs_of_pos (by positivity : (0 : ℝ) < (n : ℝ) + 2)]
    exact mul_le_mul_of_nonneg_left (abs_angPi_le_poly n hx) (by positivity)
  have : (0 : ℝ) ≤ n := Nat.cast_nonneg n
  nlinarith
/-! ### Scalar expansion -/

/-- Truncated sum `sum_{n <= N} i^n (2n+1) j_n(z) P_n(x)`. -/
noncomputable def pwSum (N : ℕ) (x : ℝ) (z : ℂ) : ℂ :=
  ∑ n ∈ Finset.range (N + 1), I ^ n * (2 * n + 1) * (legP n x : ℂ) * sphJ n z

theorem hasDerivAt_sphJ (n : ℕ) {z : ℂ} (hz : z ≠ 0) :
    HasDerivAt (sphJ (n + 1)) (((n + 1) * sphJ n z - (n + 2) * sphJ (n + 2) z) / (2 * n + 3)) z := by
  refine (sphJ_seq.lower n z hz).congr_deriv ?_
  have h3 := sphJ_seq.three n hz
  have hne : (2 * (n : ℂ) + 3) ≠ 0 := by
    have : (2 * (n : ℂ) + 3) = ((2 * n + 3 : ℕ) : ℂ) := by push_cast; ring
    rw [this]; exact_mod_cast (by omega : 2 * n + 3 ≠ 0)
  rw [h3, eq_div_iff hne]
  field_simp
  ring

theorem hasDerivAt_pwSum (N : ℕ) (x : ℝ) {z : ℂ} (hz : z ≠ 0) :
    HasDerivAt (pwSum N x)
      (I * x * pwSum N x z - I ^ N * (N + 1) * (sphJ (N + 1) z * legP N x + I * sphJ N z * legP (N + 1) x)) z := by
  induction N with
  | zero =>
    have h := sphJ_seq.raise 0 z hz
    have e : pwSum 0 x = sphJ 0 := by
      funext w; simp [pwSum, legP_zero]
    rw [e]
    refine h.congr_deriv ?_
    simp [legP_zero, legP_one]
    ring
  | succ N ih =>
    have e : pwSum (N + 1) x = fun w => pwSum N x w + I ^ (N + 1) * (2 * (N + 1 : ℕ) + 1) * (legP (N + 1) x : ℂ) * sphJ (N + 1) w := by
      funext w; unfold pwSum; rw [Finset.sum_range_succ]
    have h := ih.add ((hasDerivAt_sphJ N hz).const_mul (I ^ (N + 1) * (2 * (N + 1 : ℕ) + 1) * (legP (N + 1) x : ℂ)))
    have hr : ((2 * N + 3) * x * legP (N + 1) x : ℂ) = (N + 2) * legP (N + 2) x + (N + 1) * legP N x := by
      exact_mod_cast legP_rec N x
    have hne : (2 * (N : ℂ) + 3) ≠ 0 := by
      have : (2 * (N : ℂ) + 3) = ((2 * N + 3 : ℕ) : ℂ) := by push_cast; ring
      rw [this]; exact_mod_cast (by omega : 2 * N + 3 ≠ 0)
    rw [e]
    refine h.congr_deriv ?_
    have e3 : (2 * ((N + 1 : ℕ) : ℂ) + 1) = 2 * N + 3 := by push_cast; ring
    rw [e3]
    have e4 : I ^ (N + 1) * (2 * (N : ℂ) + 3) * (legP (N + 1) x : ℂ) *
        (((N + 1) * sphJ N z - (N + 2) * sphJ (N + 2) z) / (2 * N + 3)) =
        I ^ (N + 1) * (legP (N + 1) x : ℂ) * ((N + 1) * sphJ N z - (N + 2) * sphJ (N + 2) z) := by
      field_simp
    rw [e4, pow_succ]
    push_cast
    simp only [show N + 1 + 1 = N + 2 from rfl]
    have hI : I * I = -1 := I_mul_I
    linear_combination (-(I ^ N * I * I * sphJ (N + 1) z)) * hr - (I ^ N * sphJ (N + 1) z * (N + 1) * legP N x) * hI

/-- `j_n` at the origin. -/
theorem tendsto_sphJ_zero (n : ℕ) {z : ℂ} (hz : z ≠ 0) :
    Tendsto (fun s : ℝ => sphJ n (s * z)) (𝓝[>] 0) (𝓝 (if n = 0 then 1 else 0)) := by
  have hz0 : 0 < ‖z‖ := norm_pos_iff.2 hz
  have hlim : Tendsto (fun s : ℝ => jTerm n 0 (s * z)) (𝓝[>] 0) (𝓝 (if n = 0 then 1 else 0)) := by
    have hc : Continuous fun s : ℝ => jTerm n 0 (s * z) := by
      unfold jTerm; fun_prop
    have := hc.tendsto 0
    have e : jTerm n 0 (((0 : ℝ) : ℂ) * z) = if n = 0 then 1 else 0 := by
      unfold jTerm
      by_cases hn : n = 0
      · subst hn; simp
      · simp [hn]
    rw [e] at this
    exact this.mono_left nhdsWithin_le_nhds
  have hdiff : Tendsto (fun s : ℝ => sphJ n (s * z) - jTerm n 0 (s * z)) (𝓝[>] 0) (𝓝 0) := by
    have hb : Tendsto (fun s : ℝ => ‖jTerm n 0 (s * z)‖ * (2 * (s ^ 2 * ‖z‖ ^ 2))) (𝓝[>] 0) (𝓝 0) := by
      have h2 : Tendsto (fun s : ℝ => 2 * (s ^ 2 * ‖z‖ ^ 2)) (𝓝[>] 0) (𝓝 0) := by
        have hc : Continuous fun s : ℝ => 2 * (s ^ 2 * ‖z‖ ^ 2) := by fun_prop
        have := hc.tendsto 0
        simp only [ne_eq, OfNat.ofNat_ne_zero, not_false_eq_true, zero_pow, zero_mul, mul_zero] at this
        exact this.mono_left nhdsWithin_le_nhds
      simpa using hlim.norm.mul h2
    refine squeeze_zero_norm' ?_ hb
    have hs : ∀ᶠ s : ℝ in 𝓝[>] 0, s * ‖z‖ < 1 / 2 := by
      have hc : Continuous fun s : ℝ => s * ‖z‖ := by fun_prop
      have := hc.tendsto 0
      rw [zero_mul] at this
      exact (this.mono_left nhdsWithin_le_nhds).eventually (gt_mem_nhds (by norm_num))
    filter_upwards [hs, self_mem_nhdsWithin] with s h1 h2
    have hs0 : (0 : ℝ) < s := h2
    have hne : (s : ℂ) * z ≠ 0 := mul_ne_zero (by exact_mod_cast hs0.ne') hz
    have hnorm : ‖(s : ℂ) * z‖ = s * ‖z‖ := by
      rw [norm_mul, Complex.norm_real, Real.norm_of_nonneg hs0.le]
    set q := s ^ 2 * ‖z‖ ^ 2 with hq
    have hq0 : 0 ≤ q := by positivity
    have hq1 : q ≤ 1 / 4 := by
      have : q = (s * ‖z‖) ^ 2 := by rw [hq]; ring
      rw [this]
      have : 0 ≤ s * ‖z‖ := by positivity
      nlinarith
    have h3 := norm_sphJ_sub_le_q n hne (q := q) hq0 (by linarith) (by
      rw [hnorm, mul_pow, ← hq]
      have : (0 : ℝ) ≤ n := Nat.cast_nonneg n
      nlinarith)
    refine h3.trans ?_
    have h4 : q / (1 - q) ≤ 2 * q := by
      rw [div_le_iff₀ (by linarith)]; nlinarith
    exact mul_le_mul_of_nonneg_left h4 (norm_nonneg _)
  simpa using hdiff.add hlim

theorem tendsto_pwSum_zero (N : ℕ) (x : ℝ) {z : ℂ} (hz : z ≠ 0) :
    Tendsto (fun s : ℝ => pwSum N x (s * z)) (𝓝[>] 0) (𝓝 1) := by
  have h : Tendsto (fun s : ℝ => pwSum N x (s * z)) (𝓝[>] 0)
      (𝓝 (∑ n ∈ Finset.range (N + 1), I ^ n * (2 * n + 1) * (legP n x : ℂ) * (if n = 0 then 1 else 0))) := by
    unfold pwSum
    exact tendsto_finsetSum _ fun n _ => (tendsto_sphJ_zero n hz).const_mul _
  have e : (∑ n ∈ Finset.range (N + 1), I ^ n * (2 * n + 1) * (legP n x : ℂ) * (if n = 0 then (1 : ℂ) else 0)) = 1 := by
    rw [Finset.sum_eq_single 0]
    · simp [legP_zero]
    · intro n _ hn; simp [hn]
    · simp
  rwa [e] at h

/-- Truncation error of the scalar expansion. -/
theorem pwSum_error (N : ℕ) {x : ℝ} (hx : |x| ≤ 1) {z : ℂ} (hz : z ≠ 0) (hN : ‖z‖ ^ 2 ≤ N + 1) :
    ‖exp (-(I * x * z)) * pwSum N x z - 1‖ ≤
      Real.exp ‖z‖ * ((N + 1) * (2 * (‖z‖ ^ (N + 1) / ((2 * (N + 1) + 1)‼ : ℕ)) + 2 * (‖z‖ ^ N / ((2 * N + 1)‼ : ℕ)))) *
        ‖z‖ := by
  set B := Real.exp ‖z‖ * ((N + 1) * (2 * (‖z‖ ^ (N + 1) / ((2 * (N + 1) + 1)‼ : ℕ)) +
    2 * (‖z‖ ^ N / ((2 * N + 1)‼ : ℕ)))) with hB
  set f : ℝ → ℂ := fun s => exp (-(I * x * (s * z))) * pwSum N x (s * z) with hf
  set bd : ℂ → ℂ := fun w => I ^ N * (N + 1) * (sphJ (N + 1) w * legP N x + I * sphJ N w * legP (N + 1) x) with hbd
  have hder : ∀ s : ℝ, 0 < s → HasDerivAt f (-(exp (-(I * x * (s * z))) * bd (s * z)) * z) s := by
    intro s hs
    have hne : (s : ℂ) * z ≠ 0 := mul_ne_zero (by exact_mod_cast hs.ne') hz
    have h1 : HasDerivAt (fun s : ℝ => (s : ℂ) * z) z s := by
      simpa using (ofRealCLM.hasDerivAt (x := s)).mul_const z
    have h2 : HasDerivAt (fun w : ℂ => exp (-(I * x * w))) (exp (-(I * x * (s * z))) * (-(I * x * 1))) (s * z) :=
      (((hasDerivAt_id (s * z : ℂ)).const_mul (I * x)).neg).cexp
    have h3 := (h2.mul (hasDerivAt_pwSum N x hne)).comp s h1
    refine h3.congr_deriv ?_
    simp only [hbd]
    ring
  have hbound : ∀ s : ℝ, 0 < s → s ≤ 1 → ‖-(exp (-(I * x * (s * z))) * bd (s * z)) * z‖ ≤ B * ‖z‖ := by
    intro s hs hs1
    have hne : (s : ℂ) * z ≠ 0 := mul_ne_zero (by exact_mod_cast hs.ne') hz
    have hnorm : ‖(s : ℂ) * z‖ ≤ ‖z‖ := by
      rw [norm_mul, Complex.norm_real, Real.norm_of_nonneg hs.le]
      have := norm_nonneg z
      nlinarith
    have hsq : ‖(s : ℂ) * z‖ ^ 2 ≤ N + 1 := (pow_le_pow_left₀ (norm_nonneg _) hnorm 2).trans hN
    have h1 : ‖exp (-(I * x * (s * z)))‖ ≤ Real.exp ‖z‖ := by
      refine (Complex.norm_exp_le_exp_norm _).trans (Real.exp_le_exp.2 ?_)
      rw [norm_neg, norm_mul, norm_mul, norm_I, one_mul, Complex.norm_real, Real.norm_eq_abs]
      have := mul_le_mul hx hnorm (norm_nonneg _) zero_le_one
      linarith
    have h2 : ‖sphJ N (s * z)‖ ≤ 2 * (‖z‖ ^ N / ((2 * N + 1)‼ : ℕ)) := by
      refine (norm_sphJ_le N hne hsq).trans ?_
      gcongr
    have h3 : ‖sphJ (N + 1) (s * z)‖ ≤ 2 * (‖z‖ ^ (N + 1) / ((2 * (N + 1) + 1)‼ : ℕ)) := by
      refine (norm_sphJ_le (N + 1) hne (by push_cast; linarith)).trans ?_
      gcongr
    have h4 : ‖bd (s * z)‖ ≤ (N + 1) * (2 * (‖z‖ ^ (N + 1) / ((2 * (N + 1) + 1)‼ : ℕ)) +
        2 * (‖z‖ ^ N / ((2 * N + 1)‼ : ℕ))) := by
      simp only [hbd]
      rw [norm_mul, norm_mul, norm_pow, norm_I, one_pow, one_mul]
      have e : ‖((N : ℂ) + 1)‖ = N + 1 := by
        have : ((N : ℂ) + 1) = ((N + 1 : ℕ) : ℂ) := by push_cast; rfl
        rw [this, Complex.norm_natCast]; push_cast; rfl
      rw [e]
      refine mul_le_mul_of_nonneg_left ((norm_add_le _ _).trans (add_le_add ?_ ?_)) (by positivity)
      · rw [norm_mul, Complex.norm_real, Real.norm_eq_abs]
        have := mul_le_mul h3 (abs_legP_le_one N hx) (abs_nonneg _) (by positivity)
        linarith
      · rw [norm_mul, norm_mul, norm_I, one_mul, Complex.norm_real, Real.norm_eq_abs]
        have := mul_le_mul h2 (abs_legP_le_one (N + 1) hx) (abs_nonneg _) (by positivity)
        linarith
    rw [norm_mul, norm_neg, norm_mul]
    refine mul_le_mul_of_nonneg_right ?_ (norm_nonneg z)
    exact mul_le_mul h1 h4 (norm_nonneg _) (Real.exp_pos _).le
  have hseg : ∀ s : ℝ, 0 < s → s ≤ 1 → ‖f 1 - f s‖ ≤ B * ‖z‖ := by
    intro s hs hs1
    have h := norm_image_sub_le_of_norm_deriv_le_segment' (f := f) (a := s) (b := 1) (C := B * ‖z‖)
      (fun u hu => (hder u (hs.trans_le hu.1)).hasDerivWithinAt)
      (fun u hu => hbound u (hs.trans_le hu.1) hu.2.le) 1 (Set.right_mem_Icc.2 hs1)
    refine h.trans ?_
    have : 0 ≤ B * ‖z‖ := by positivity
    nlinarith
  have hlim : Tendsto f (𝓝[>] 0) (𝓝 1) := by
    have h1 : Tendsto (fun s : ℝ => exp (-(I * x * (s * z)))) (𝓝[>] 0) (𝓝 1) := by
      have hc : Continuous fun s : ℝ => exp (-(I * x * (s * z))) := by fun_prop
      have := hc.tendsto 0
      simp only [ofReal_zero, zero_mul, mul_zero, neg_zero, exp_zero] at this
      exact this.mono_left nhdsWithin_le_nhds
    simpa using h1.mul (tendsto_pwSum_zero N x hz)
  have hfin : ‖f 1 - 1‖ ≤ B * ‖z‖ := by
    have h1 : Tendsto (fun s => ‖f 1 - f s‖) (𝓝[>] 0) (𝓝 ‖f 1 - 1‖) := (tendsto_const_nhds.sub hlim).norm
    refine le_of_tendsto h1 ?_
    have : ∀ᶠ s : ℝ in 𝓝[>] 0, s < 1 := (gt_mem_nhds (by norm_num : (0 : ℝ) < 1)).filter_mono nhdsWithin_le_nhds
    filter_upwards [this, self_mem_nhdsWithin] with s h1 h2
    exact hseg s h2 h1.le
  simpa [hf] using hfin

/-- Bound of the truncation error after the orders `1 .. M`. -/
noncomputable def pwBound (M : ℕ) (z : ℂ) : ℝ :=
  6 * M * (1 + ‖z‖) * Real.exp (2 * ‖z‖) * (‖z‖ ^ M / ((2 * M - 1)‼ : ℕ))

theorem tendsto_pwBound (z : ℂ) : Tendsto (fun M => pwBound M z) atTop (𝓝 0) := by
  rw [← tendsto_add_atTop_iff_nat 1]
  have h1 := (FloorSemiring.tendsto_pow_div_factorial_atTop (2 * ‖z‖)).const_mul
    (6 * (1 + ‖z‖) * Real.exp (2 * ‖z‖) * ‖z‖)
  rw [mul_zero] at h1
  refine squeeze_zero (fun M => by unfold pwBound; positivity) (fun N => ?_) h1
  unfold pwBound
  rw [show 2 * (N + 1) - 1 = 2 * N + 1 by omega]
  have hn2 : (N : ℝ) + 1 ≤ 2 ^ N := by exact_mod_cast (show N + 1 ≤ 2 ^ N from Nat.lt_two_pow_self)
  have hf : (0 : ℝ) < (N ! : ℕ) := by exact_mod_cast N.factorial_pos
  have h4 : ((N ! : ℕ) : ℝ) ≤ ((2 * N + 1)‼ : ℕ) := by exact_mod_cast fac_le_dfac N
  have h5 : ‖z‖ ^ (N + 1) / ((2 * N + 1)‼ : ℕ) ≤ ‖z‖ ^ (N + 1) / (N ! : ℕ) := by gcongr
  have h6 : ((N : ℝ) + 1) * (‖z‖ ^ (N + 1) / ((2 * N + 1)‼ : ℕ)) ≤ 2 ^ N * (‖z‖ ^ (N + 1) / (N ! : ℕ)) :=
    mul_le_mul hn2 h5 (by positivity) (by positivity)
  calc 6 * ((N + 1 : ℕ) : ℝ) * (1 + ‖z‖) * Real.exp (2 * ‖z‖) * (‖z‖ ^ (N + 1) / ((2 * N + 1)‼ : ℕ))
      = 6 * (1 + ‖z‖) * Real.exp (2 * ‖z‖) * (((N : ℝ) + 1) * (‖z‖ ^ (N + 1) / ((2 * N + 1)‼ : ℕ))) := by push_cast; ring
    _ ≤ 6 * (1 + ‖z‖) * Real.exp (2 * ‖z‖) * (2 ^ N * (‖z‖ ^ (N + 1) / (N ! : ℕ))) :=
        mul_le_mul_of_nonneg_left h6 (by positivity)
    _ = _ := by rw [mul_pow, pow_succ]; ring

set_option maxHeartbeats 800000 in
/-- Error of a component sum: scalar truncation error and two boundary terms. -/
theorem pw_component_error (N : ℕ) {x : ℝ} (hx : |x| ≤ 1) {z : ℂ} (hz : z ≠ 0) (hN : ‖z‖ ^ 2 ≤ N + 1) {c u v : ℂ}
    (hc : ‖c‖ ≤ 1) (hu : ‖u‖ ≤ 3 * ((N : ℝ) + 1) ^ 2) (hv : ‖v‖ ≤ ((N : ℝ) + 1) ^ 2) :
    ‖c * pwSum N x z + u * sphJ (N + 1) z + v * sphJ (N + 2) z - c * exp (I * x * z)‖ ≤ pwBound (N + 1) z := by
  have h1 := pwSum_error N hx hz hN
  have d1 := dfacR_succ N
  have d2 := dfacR_succ (N + 1)
  have hd := dfacR_pos N
  have j1 := norm_sphJ_le (N + 1) hz (by push_cast; linarith)
  have j2 := norm_sphJ_le (N + 2) hz (by push_cast; linarith)
  push_cast at d1 d2
  set A := ‖z‖ ^ (N + 1) / (((2 * N + 1)‼ : ℕ) : ℝ) with hA
  have hA0 : 0 ≤ A := by positivity
  have n0 : (0 : ℝ) ≤ N := Nat.cast_nonneg N
  have z0 : 0 ≤ ‖z‖ := norm_nonneg z
  have e1 : 1 ≤ Real.exp (2 * ‖z‖) := Real.one_le_exp (by positivity)
  have k1 : ‖z‖ ^ (N + 1) / (((2 * (N + 1) + 1)‼ : ℕ) : ℝ) = A / (2 * N + 3) := by
    rw [d1, hA]; field_simp
  have k2 : ‖z‖ ^ (N + 2) / (((2 * (N + 2) + 1)‼ : ℕ) : ℝ) = ‖z‖ * A / ((2 * N + 3) * (2 * N + 5)) := by
    rw [show 2 * (N + 2) + 1 = 2 * (N + 1 + 1) + 1 by ring, d2, d1, hA, pow_succ]
    field_simp
    ring
  rw [k1] at j1 h1
  rw [k2] at j2
  have hS : ‖pwSum N x z - exp (I * x * z)‖ ≤ Real.exp (2 * ‖z‖) * (2 * (N + 1) * (1 + ‖z‖)) * A := by
    have e : pwSum N x z - exp (I * x * z) = exp (I * x * z) * (exp (-(I * x * z)) * pwSum N x z - 1) := by
      rw [mul_sub, ← mul_assoc, ← exp_add]; simp
    have hexp : ‖exp (I * x * z)‖ ≤ Real.exp ‖z‖ := by
      refine (Complex.norm_exp_le_exp_norm _).trans (Real.exp_le_exp.2 ?_)
      rw [norm_mul, norm_mul, norm_I, one_mul, Complex.norm_real, Real.norm_eq_abs]
      nlinarith
    rw [e, norm_mul]
    refine (mul_le_mul hexp h1 (norm_nonneg _) (Real.exp_pos _).le).trans ?_
    have e2 : Real.exp (2 * ‖z‖) = Real.exp ‖z‖ * Real.exp ‖z‖ := by rw [← Real.exp_add]; ring_nf
    have e3 : ‖z‖ * (2 * (A / (2 * N + 3)) + 2 * (‖z‖ ^ N / (((2 * N + 1)‼ : ℕ) : ℝ))) ≤ 2 * (1 + ‖z‖) * A := by
      have q1 : A / (2 * N + 3) ≤ A := div_le_self hA0 (by linarith)
      have q2 : ‖z‖ * (‖z‖ ^ N / (((2 * N + 1)‼ : ℕ) : ℝ)) = A := by rw [hA, pow_succ]; ring
      nlinarith
    rw [e2]
    have e4 : 0 ≤ Real.exp ‖z‖ * Real.exp ‖z‖ * (N + 1) := by positivity
    calc _ = Real.exp ‖z‖ * Real.exp ‖z‖ * (N + 1) *
          (‖z‖ * (2 * (A / (2 * N + 3)) + 2 * (‖z‖ ^ N / (((2 * N + 1)‼ : ℕ) : ℝ)))) := by ring
      _ ≤ Real.exp ‖z‖ * Real.exp ‖z‖ * (N + 1) * (2 * (1 + ‖z‖) * A) := mul_le_mul_of_nonneg_left e3 e4
      _ = _ := by ring
  have hU : ‖u * sphJ (N + 1) z‖ ≤ 3 * (N + 1) * A := by
    rw [norm_mul]
    refine (mul_le_mul hu j1 (norm_nonneg _) (by positivity)).trans ?_
    have : 2 * (A / (2 * N + 3)) * (N + 1) ≤ A := by
      rw [← mul_div_assoc, div_mul_eq_mul_div, div_le_iff₀ (by positivity)]
      nlinarith
    nlinarith
  have hV : ‖v * sphJ (N + 2) z‖ ≤ (N + 1) * (1 + ‖z‖) * A := by
    rw [norm_mul]
    refine (mul_le_mul hv j2 (norm_nonneg _) (by positivity)).trans ?_
    have : 2 * (‖z‖ * A / ((2 * N + 3) * (2 * N + 5))) * (N + 1) ≤ ‖z‖ * A := by
      rw [← mul_div_assoc, div_mul_eq_mul_div, div_le_iff₀ (by positivity)]
      have : 0 ≤ ‖z‖ * A := by positivity
      nlinarith
    nlinarith
  have e : c * pwSum N x z + u * sphJ (N + 1) z + v * sphJ (N + 2) z - c * exp (I * x * z) =
      c * (pwSum N x z - exp (I * x * z)) + u * sphJ (N + 1) z + v * sphJ (N + 2) z := by ring
  rw [e]
  have hcS : ‖c * (pwSum N x z - exp (I * x * z))‖ ≤ Real.exp (2 * ‖z‖) * (2 * (N + 1) * (1 + ‖z‖)) * A := by
    rw [norm_mul]
    have := mul_le_mul hc hS (norm_nonneg _) zero_le_one
    linarith
  refine (norm_add₃_le).trans ?_
  have hB : pwBound (N + 1) z = Real.exp (2 * ‖z‖) * (6 * (N + 1) * (1 + ‖z‖)) * A := by
    unfold pwBound
    rw [show 2 * (N + 1) - 1 = 2 * N + 1 by omega, ← hA]
    push_cast
    ring
  rw [hB]
  have w1 : 3 * (N + 1) * A ≤ Real.exp (2 * ‖z‖) * (3 * (N + 1) * (1 + ‖z‖)) * A := by
    refine mul_le_mul_of_nonneg_right ?_ hA0
    have : (0 : ℝ) ≤ 3 * (N + 1) := by positivity
    have h2 : 1 * (3 * ((N : ℝ) + 1) * 1) ≤ Real.exp (2 * ‖z‖) * (3 * (N + 1) * (1 + ‖z‖)) := by
      refine mul_le_mul e1 (mul_le_mul_of_nonneg_left (by linarith) this) (by positivity) (by positivity)
    linarith
  have w2 : (N + 1) * (1 + ‖z‖) * A ≤ Real.exp (2 * ‖z‖) * ((N + 1) * (1 + ‖z‖)) * A := by
    refine mul_le_mul_of_nonneg_right ?_ hA0
    have : (0 : ℝ) ≤ (N + 1) * (1 + ‖z‖) := by positivity
    exact le_mul_of_one_le_left this e1
  calc _ ≤ Real.exp (2 * ‖z‖) * (2 * (N + 1) * (1 + ‖z‖)) * A + Real.exp (2 * ‖z‖) * (3 * (N + 1) * (1 + ‖z‖)) * A +
        Real.exp (2 * ‖z‖) * ((N + 1) * (1 + ‖z‖)) * A := by linarith
    _ = _ := by ring

/-! ### The three component sums -/

/-- Radial sum `sum_{1 <= n <= N + 1} i^n (2n+1) pi_n j_n`. -/
theorem radialSum_eq (N : ℕ) (x : ℝ) {z : ℂ} (hz : z ≠ 0) :
    ∑ n ∈ Finset.range (N + 1), I ^ (n + 1) * (2 * (n + 1 : ℕ) + 1) * (angPi (n + 1) x : ℂ) * sphJ (n + 1) z =
      I * z * (pwSum N x z - I ^ (N + 1) * angPi N x * sphJ (N + 1) z + I ^ N * angPi (N + 1) x * sphJ (N + 2) z) := by
  induction N with
  | zero =>
    have h3 := sphJ_seq.three 0 hz
    simp only [Nat.cast_zero, mul_zero, zero_add] at h3
    simp [pwSum, legP_zero, angPi_one, angPi_zero, h3]
    field_simp
    ring
  | succ N ih =>
    rw [Finset.sum_range_succ, ih]
    have e : pwSum (N + 1) x z = pwSum N x z + I ^ (N + 1) * (2 * (N + 1 : ℕ) + 1) * (legP (N + 1) x : ℂ) * sphJ (N + 1) z := by
      unfold pwSum; rw [Finset.sum_range_succ]
    have h2 : (angPi (N + 2) x : ℂ) = (2 * N + 3) * legP (N + 1) x + angPi N x := by
      exact_mod_cast angPi_add_two N x
    have h3 := sphJ_seq.three (N + 1) hz
    have h4 : z * (sphJ (N + 3) z + sphJ (N + 1) z) = (2 * N + 5) * sphJ (N + 2) z := by
      rw [show N + 3 = N + 1 + 2 from rfl, h3]
      push_cast
      field_simp
      ring
    rw [e, pow_succ, pow_succ]
    push_cast
    simp only [show N + 1 + 1 = N + 2 from rfl, show N + 1 + 2 = N + 3 from rfl]
    have hI : I * I = -1 := I_mul_I
    linear_combination (I ^ N * I * I * z * sphJ (N + 1) z) * h2 - (I ^ N * I * I * angPi (N + 2) x) * h4 +
      (I ^ N * I * z * angPi (N + 1) x * sphJ (N + 2) z) * hI

/-- Transverse sum for a pair of angular functions linked to the Legendre polynomials. -/
theorem transverseSum_eq {X Y : ℕ → ℂ} {c : ℂ} {x : ℝ} (h0 : Y 0 = 0) (h1 : Y 1 = c)
    (hid : ∀ n : ℕ, (2 * (n : ℂ) + 3) * X (n + 1) + (n + 1) * Y (n + 2) + (n + 2) * Y n =
      c * ((n + 1) * (n + 2) * (2 * n + 3)) * legP (n + 1) x) (N : ℕ) {z : ℂ} (hz : z ≠ 0) :
    ∑ n ∈ Finset.range (N + 1), I ^ (n + 1) * ((2 * (n + 1 : ℕ) + 1) / ((n + 1 : ℕ) * ((n + 1 : ℕ) + 1))) *
        (X (n + 1) * sphJ (n + 1) z - I * Y (n + 1) * (deriv (ricPsi (n + 1)) z / z)) =
      c * pwSum N x z + I ^ (N + 1) * (((2 * N + 3) / ((N + 1) * (N + 2))) * X (N + 1) + Y N / (N + 1)) * sphJ (N + 1) z +
        I ^ (N + 2) * (Y (N + 1) / (N + 2)) * sphJ (N + 2) z := by
  have hn : ∀ n : ℕ, ((n : ℂ) + 1) ≠ 0 := fun n => by exact_mod_cast n.succ_ne_zero
  have hn2 : ∀ n : ℕ, ((n : ℂ) + 2) ≠ 0 := fun n => by exact_mod_cast (n + 1).succ_ne_zero
  have hn3 : ∀ n : ℕ, ((n : ℂ) + 3) ≠ 0 := fun n => by exact_mod_cast (n + 2).succ_ne_zero
  have hd : ∀ n : ℕ, (2 * (n : ℂ) + 3) * (deriv (ricPsi (n + 1)) z / z) =
      (n + 2) * sphJ n z - (n + 1) * sphJ (n + 2) z := by
    intro n
    rw [deriv_ricPsi_lower n hz, sphJ_seq.three n hz]
    unfold ricPsi
    field_simp
    ring
  have hterm : ∀ n : ℕ, I ^ (n + 1) * ((2 * (n + 1 : ℕ) + 1) / ((n + 1 : ℕ) * ((n + 1 : ℕ) + 1))) *
        (X (n + 1) * sphJ (n + 1) z - I * Y (n + 1) * (deriv (ricPsi (n + 1)) z / z)) =
      I ^ (n + 1) * ((2 * n + 3) / ((n + 1) * (n + 2)) * X (n + 1) * sphJ (n + 1) z
        - I * Y (n + 1) * (sphJ n z / (n + 1) - sphJ (n + 2) z / (n + 2))) := by
    intro n
    have e : sphJ n z / (n + 1) - sphJ (n + 2) z / (n + 2) =
        (2 * (n : ℂ) + 3) * (deriv (ricPsi (n + 1)) z / z) / ((n + 1) * (n + 2)) := by
      rw [hd]
      have := hn n
      have := hn2 n
      field_simp
    rw [e]
    push_cast
    ring
  induction N with
  | zero =>
    rw [Finset.sum_range_one, hterm 0, h0]
    simp [pwSum, legP_zero, h1]
    linear_combination (c * sphJ 2 z / 2 - c * sphJ 0 z) * I_sq
  | succ N ih =>
    rw [Finset.sum_range_succ, ih, hterm]
    have e : pwSum (N + 1) x z = pwSum N x z + I ^ (N + 1) * (2 * (N + 1 : ℕ) + 1) * (legP (N + 1) x : ℂ) * sphJ (N + 1) z := by
      unfold pwSum; rw [Finset.sum_range_succ]
    have h := hid N
    have a1 := hn N
    have a2 := hn2 N
    have a3 := hn3 N
    have h' : (2 * (N : ℂ) + 3) / ((N + 1) * (N + 2)) * X (N + 1) + Y (N + 2) / (N + 2) + Y N / (N + 1) =
        c * (2 * N + 3) * legP (N + 1) x := by
      field_simp
      linear_combination h
    rw [e, pow_succ, pow_succ I (N + 1), pow_succ I N]
    push_cast
    simp only [show N + 1 + 1 = N + 2 from rfl, show N + 1 + 2 = N + 3 from rfl]
    have e2 : (N : ℂ) + 1 + 1 = N + 2 := by ring
    have e3 : (N : ℂ) + 1 + 2 = N + 3 := by ring
    rw [e2, e3]
    have hI : I * I = -1 := I_mul_I
    linear_combination (I ^ N * I * sphJ (N + 1) z) * h' - (I ^ N * I * (Y (N + 2) / (N + 2)) * sphJ (N + 1) z) * hI

/-- `tau` and `pi` in the polar component. -/
theorem polar_link (n : ℕ) (t : ℝ) :
    (2 * (n : ℝ) + 3) * angPi (n + 1) (Real.cos t) + (n + 1) * angTau (n + 2) t + (n + 2) * angTau n t =
      Real.cos t * ((n + 1) * (n + 2) * (2 * n + 3)) * legP (n + 1) (Real.cos t) := by
  have h2 := angPi_add_two n (Real.cos t)
  have t2 := angTau_succ (n + 1) t
  push_cast at t2
  cases n with
  | zero =>
    rw [angTau_zero, t2, show (0 + 1 + 1 : ℕ) = 0 + 2 from rfl, h2]
    simp only [angPi_zero, Nat.cast_zero]
    simp
    ring
  | succ n =>
    have t1 := angTau_succ n t
    have rc := angPi_rec n (Real.cos t)
    rw [eq_div_iff (by positivity)] at rc
    push_cast at h2 t1 t2 ⊢
    simp only [show n + 1 + 1 = n + 2 from rfl, show n + 1 + 1 + 1 = n + 3 from rfl] at h2 t1 t2 ⊢
    rw [t1, t2]
    linear_combination (((n : ℝ) + 2) * (n + 3) * Real.cos t) * h2 - ((n : ℝ) + 3) * rc

/-- `tau` and `pi` in the azimuthal component. -/
theorem azimuth_link (n : ℕ) (t : ℝ) :
    (2 * (n : ℝ) + 3) * angTau (n + 1) t + (n + 1) * angPi (n + 2) (Real.cos t) + (n + 2) * angPi n (Real.cos t) =
      1 * ((n + 1) * (n + 2) * (2 * n + 3)) * legP (n + 1) (Real.cos t) := by
  have h2 := angPi_add_two n (Real.cos t)
  have t1 := angTau_succ n t
  have d := angPi_diff n (Real.cos t)
  rw [t1]
  linear_combination ((n : ℝ) + 1) * h2 + ((n : ℝ) + 1) * (2 * n + 3) * d

/-! ### Errors of the component sums -/

/-- A quantity within the bound for all large orders converges. -/
theorem tendsto_of_pwBound {f : ℕ → ℂ} {a z : ℂ} (C : ℝ) (h : ∀ N : ℕ, ‖z‖ ^ 2 ≤ N + 1 → ‖f (N + 1) - a‖ ≤ C * pwBound (N + 1) z) :
    Tendsto f atTop (𝓝 a) := by
  rw [← tendsto_add_atTop_iff_nat 1, tendsto_iff_norm_sub_tendsto_zero]
  have hb := ((tendsto_add_atTop_iff_nat 1).2 (tendsto_pwBound z)).const_mul C
  rw [mul_zero] at hb
  refine squeeze_zero' (Eventually.of_forall fun _ => norm_nonneg _) ?_ hb
  filter_upwards [eventually_ge_atTop ⌈‖z‖ ^ 2⌉₊] with N hN
  have hN' : ‖z‖ ^ 2 ≤ N := (Nat.le_ceil _).trans (by exact_mod_cast hN)
  exact h N (by linarith)

theorem radialSum_error (N : ℕ) {x : ℝ} (hx : |x| ≤ 1) {z : ℂ} (hz : z ≠ 0) (hN : ‖z‖ ^ 2 ≤ N + 1) :
    ‖∑ n ∈ Finset.range (N + 1), I ^ (n + 1) * (2 * (n + 1 : ℕ) + 1) * (angPi (n + 1) x : ℂ) * sphJ (n + 1) z -
      I * z * exp (I * x * z)‖ ≤ ‖z‖ * pwBound (N + 1) z := by
  rw [radialSum_eq N x hz, ← mul_sub, norm_mul, norm_mul, norm_I, one_mul]
  refine mul_le_mul_of_nonneg_left ?_ (norm_nonneg z)
  have h := pw_component_error N hx hz hN (c := 1) (u := -(I ^ (N + 1) * angPi N x)) (v := I ^ N * angPi (N + 1) x)
    (by simp) ?_ ?_
  · rw [one_mul, one_mul, neg_mul, ← sub_eq_add_neg] at h
    exact h
  · rw [norm_neg, norm_mul, norm_pow, norm_I, one_pow, one_mul, Complex.norm_real, Real.norm_eq_abs]
    have := abs_angPi_le_poly N hx
    have n0 : (0 : ℝ) ≤ N := Nat.cast_nonneg N
    nlinarith
  · rw [norm_mul, norm_pow, norm_I, one_pow, one_mul, Complex.norm_real, Real.norm_eq_abs]
    have := abs_angPi_le_poly (N + 1) hx
    push_cast at this
    have n0 : (0 : ℝ) ≤ N := Nat.cast_nonneg N
    nlinarith

theorem norm_nat_add_one (n : ℕ) : ‖((n : ℂ) + 1)‖ = n + 1 := by
  have : ((n : ℂ) + 1) = ((n + 1 : ℕ) : ℂ) := by push_cast; rfl
  rw [this, Complex.norm_natCast]; push_cast; rfl

theorem norm_nat_add_two (n : ℕ) : ‖((n : ℂ) + 2)‖ = n + 2 := by
  have : ((n : ℂ) + 2) = ((n + 2 : ℕ) : ℂ) := by push_cast; rfl
  rw [this, Complex.norm_natCast]; push_cast; rfl

theorem norm_two_nat_add_three (n : ℕ) : ‖(2 * (n : ℂ) + 3)‖ = 2 * n + 3 := by
  have : (2 * (n : ℂ) + 3) = ((2 * n + 3 : ℕ) : ℂ) := by push_cast; rfl
  rw [this, Complex.norm_natCast]; push_cast; rfl

/-- `|tau_n|` is at most `n^2 (n+1)`, also for `n = 0`. -/
theorem abs_angTau_le' (n : ℕ) (t : ℝ) : |angTau n t| ≤ n * (n + 1) * (2 * n - 1) / 2 ∨ n = 0 := by
  cases n with
  | zero => exact Or.inr rfl
  | succ n =>
    left
    refine (abs_angTau_le_poly n t).trans (le_of_eq ?_)
    push_cast
    ring

theorem polarSum_error (N : ℕ) (t : ℝ) {z : ℂ} (hz : z ≠ 0) (hN : ‖z‖ ^ 2 ≤ N + 1) :
    ‖∑ n ∈ Finset.range (N + 1), I ^ (n + 1) * ((2 * (n + 1 : ℕ) + 1) / ((n + 1 : ℕ) * ((n + 1 : ℕ) + 1))) *
        ((angPi (n + 1) (Real.cos t) : ℂ) * sphJ (n + 1) z - I * (angTau (n + 1) t : ℂ) * (deriv (ricPsi (n + 1)) z / z)) -
      (Real.cos t : ℂ) * exp (I * (Real.cos t : ℂ) * z)‖ ≤ pwBound (N + 1) z := by
  have hx := Real.abs_cos_le_one t
  have n0 : (0 : ℝ) ≤ N := Nat.cast_nonneg N
  rw [transverseSum_eq (X := fun n => (angPi n (Real.cos t) : ℂ)) (Y := fun n => (angTau n t : ℂ)) (c := (Real.cos t : ℂ))
    (x := Real.cos t) (by simp [angTau_zero]) (by
      have := angTau_succ 0 t
      simp only [Nat.cast_zero, zero_add, angPi_one, angPi_zero] at this
      simp [this]) (fun n => by exact_mod_cast polar_link n t) N hz]
  refine pw_component_error N hx hz hN ?_ ?_ ?_
  · rw [Complex.norm_real]; exact hx
  · rw [norm_mul, norm_pow, norm_I, one_pow, one_mul]
    refine (norm_add_le _ _).trans ?_
    have q1 : ‖((2 * (N : ℂ) + 3) / ((N + 1) * (N + 2))) * (angPi (N + 1) (Real.cos t) : ℂ)‖ ≤ (2 * N + 3) / 2 := by
      rw [norm_mul, norm_div, norm_mul, norm_nat_add_one, norm_nat_add_two, norm_two_nat_add_three, Complex.norm_real,
        Real.norm_eq_abs]
      have h := abs_angPi_le_poly (N + 1) hx
      push_cast at h
      rw [div_mul_eq_mul_div, div_le_iff₀ (by positivity)]
      nlinarith
    have q2 : ‖(angTau N t : ℂ) / ((N : ℂ) + 1)‖ ≤ N * (N + 1) := by
      rw [norm_div, norm_nat_add_one, Complex.norm_real, Real.norm_eq_abs, div_le_iff₀ (by positivity)]
      rcases abs_angTau_le' N t with h | h
      · nlinarith
      · subst h; rw [angTau_zero]; simp
    nlinarith
  · rw [norm_mul, norm_pow, norm_I, one_pow, one_mul, norm_div, norm_nat_add_two, Complex.norm_real, Real.norm_eq_abs,
      div_le_iff₀ (by positivity)]
    have := abs_angTau_le_poly N t
    nlinarith

theorem azimuthSum_error (N : ℕ) (t : ℝ) {z : ℂ} (hz : z ≠ 0) (hN : ‖z‖ ^ 2 ≤ N + 1) :
    ‖∑ n ∈ Finset.range (N + 1), I ^ (n + 1) * ((2 * (n + 1 : ℕ) + 1) / ((n + 1 : ℕ) * ((n + 1 : ℕ) + 1))) *
        ((angTau (n + 1) t : ℂ) * sphJ (n + 1) z - I * (angPi (n + 1) (Real.cos t) : ℂ) * (deriv (ricPsi (n + 1)) z / z)) -
      exp (I * (Real.cos t : ℂ) * z)‖ ≤ pwBound (N + 1) z := by
  have hx := Real.abs_cos_le_one t
  have n0 : (0 : ℝ) ≤ N := Nat.cast_nonneg N
  rw [transverseSum_eq (X := fun n => (angTau n t : ℂ)) (Y := fun n => (angPi n (Real.cos t) : ℂ)) (c := 1)
    (x := Real.cos t) (by simp [angPi_zero]) (by simp [angPi_one]) (fun n => by exact_mod_cast azimuth_link n t) N hz]
  have h := pw_component_error N hx hz hN (c := 1)
    (u := I ^ (N + 1) * (((2 * N + 3) / ((N + 1) * (N + 2))) * (angTau (N + 1) t : ℂ) + (angPi N (Real.cos t) : ℂ) / (N + 1)))
    (v := I ^ (N + 2) * ((angPi (N + 1) (Real.cos t) : ℂ) / (N + 2))) (by simp) ?_ ?_
  · rwa [one_mul (exp _)] at h
  · rw [norm_mul, norm_pow, norm_I, one_pow, one_mul]
    refine (norm_add_le _ _).trans ?_
    have q1 : ‖((2 * (N : ℂ) + 3) / ((N + 1) * (N + 2))) * (angTau (N + 1) t : ℂ)‖ ≤ (2 * N + 3) * (2 * N + 1) / 2 := by
      rw [norm_mul, norm_div, norm_mul, norm_nat_add_one, norm_nat_add_two, norm_two_nat_add_three, Complex.norm_real,
        Real.norm_eq_abs]
      have h := abs_angTau_le_poly N t
      rw [div_mul_eq_mul_div, div_le_iff₀ (by positivity)]
      have : (2 * (N : ℝ) + 3) * |angTau (N + 1) t| ≤ (2 * N + 3) * ((N + 1) * (N + 2) * (2 * N + 1) / 2) :=
        mul_le_mul_of_nonneg_left h (by positivity)
      linarith
    have q2 : ‖(angPi N (Real.cos t) : ℂ) / ((N : ℂ) + 1)‖ ≤ N / 2 := by
      rw [norm_div, norm_nat_add_one, Complex.norm_real, Real.norm_eq_abs, div_le_iff₀ (by positivity)]
      have := abs_angPi_le_poly N hx
      linarith
    nlinarith
  · rw [norm_mul, norm_pow, norm_I, one_pow, one_mul, norm_div, norm_nat_add_two, Complex.norm_real, Real.norm_eq_abs,
      div_le_iff₀ (by positivity)]
    have := abs_angPi_le_poly (N + 1) hx
    push_cast at this
    nlinarith

end MieDiff.Spec
