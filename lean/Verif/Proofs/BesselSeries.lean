import Verif.Proofs.Bessel
import Mathlib.Analysis.SpecialFunctions.Trigonometric.Series
import Mathlib.Data.Nat.Factorial.DoubleFactorial
import Mathlib.Analysis.SpecificLimits.Normed

/-!
# Power series of the spherical Bessel functions of the first kind and the ratio bound
-/

namespace MieDiff.Spec

open Complex
open scoped Nat

/-- Term `k` of the power series of `j_n`. -/
noncomputable def jTerm (n k : ℕ) (z : ℂ) : ℂ :=
  (-1) ^ k * z ^ (n + 2 * k) / (2 ^ k * (k ! : ℂ) * ((2 * (n + k) + 1)‼ : ℂ))

theorem dfac_ne (n : ℕ) : ((2 * n + 1)‼ : ℂ) ≠ 0 := by
  exact_mod_cast (Nat.doubleFactorial_pos _).ne'

theorem fac_ne (n : ℕ) : (n ! : ℂ) ≠ 0 := by
  exact_mod_cast n.factorial_ne_zero

theorem dfac_succ (n : ℕ) : ((2 * (n + 1) + 1)‼ : ℂ) = (2 * (n : ℂ) + 3) * ((2 * n + 1)‼ : ℂ) := by
  have : (2 * (n + 1) + 1)‼ = (2 * n + 3) * (2 * n + 1)‼ := by
    rw [show 2 * (n + 1) + 1 = (2 * n + 1) + 2 by ring, Nat.doubleFactorial_add_two]
  rw [this]; push_cast; ring

theorem fac_odd (k : ℕ) : (((2 * k + 1)! : ℕ) : ℂ) = ((2 * k + 1)‼ : ℂ) * (2 ^ k * (k ! : ℂ)) := by
  rw [Nat.factorial_eq_mul_doubleFactorial, Nat.doubleFactorial_two_mul]; push_cast; ring

theorem _root_.HasSum.congr_fun' {f g : ℕ → ℂ} {a : ℂ} (hf : HasSum f a) (h : ∀ k, g k = f k) :
    HasSum g a := by
  have : g = f := funext h
  rw [this]; exact hf

theorem hasSum_jTerm_zero {z : ℂ} (hz : z ≠ 0) : HasSum (fun k => jTerm 0 k z) (sphJ 0 z) := by
  rw [sphJ_zero]
  have := (hasSum_sin z).div_const z
  refine this.congr_fun' ?_
  intro k
  rw [fac_odd]
  unfold jTerm
  have h1 := dfac_ne k
  have h2 := fac_ne k
  simp only [zero_add]
  rw [pow_succ]
  field_simp

theorem hasSum_jTerm_one {z : ℂ} (hz : z ≠ 0) : HasSum (fun k => jTerm 1 k z) (sphJ 1 z) := by
  rw [sphJ_one hz]
  have h := ((hasSum_sin z).div_const (z ^ 2)).sub ((hasSum_cos z).div_const z)
  rw [← hasSum_nat_add_iff' 1] at h
  simp only [Finset.range_one, Finset.sum_singleton, mul_zero, pow_zero, Nat.factorial_zero,
    Nat.cast_one, zero_add, pow_one, Nat.factorial_one, div_one, one_mul] at h
  have e0 : z / z ^ 2 - 1 / z = 0 := by field_simp; ring
  rw [e0, sub_zero] at h
  refine h.congr_fun' ?_
  intro k
  have h3 : (((2 * (k + 1))! : ℕ) : ℂ) = (((2 * (k + 1) + 1)! : ℕ) : ℂ) / (2 * (k : ℂ) + 3) := by
    rw [Nat.factorial_succ (2 * (k + 1))]
    have : (2 * (k : ℂ) + 3) ≠ 0 := by exact_mod_cast Nat.succ_ne_zero (2 * k + 2)
    push_cast
    field_simp
    ring
  have h4 : (2 * (k : ℂ) + 3) ≠ 0 := by exact_mod_cast Nat.succ_ne_zero (2 * k + 2)
  have h1 := dfac_ne (k + 1)
  have h2 := fac_ne k
  have h5 : (k : ℂ) + 1 ≠ 0 := by exact_mod_cast Nat.succ_ne_zero k
  rw [h3, fac_odd (k + 1), Nat.factorial_succ]
  unfold jTerm
  rw [show 1 + k = k + 1 by ring]
  push_cast
  field_simp
  ring

theorem jTerm_rec (n k : ℕ) {z : ℂ} (hz : z ≠ 0) :
    (2 * (n : ℂ) + 3) / z * jTerm (n + 1) (k + 1) z - jTerm n (k + 1) z = jTerm (n + 2) k z := by
  unfold jTerm
  rw [show n + 1 + (k + 1) = (n + (k + 1)) + 1 by ring, show n + 2 + k = (n + (k + 1)) + 1 by ring,
    dfac_succ, Nat.factorial_succ]
  have h1 := dfac_ne (n + (k + 1))
  have h2 := fac_ne k
  have h3 : (k : ℂ) + 1 ≠ 0 := by exact_mod_cast Nat.succ_ne_zero k
  have h4 : 2 * ((n : ℂ) + ((k : ℂ) + 1)) + 3 ≠ 0 := by
    exact_mod_cast Nat.succ_ne_zero (2 * (n + (k + 1)) + 2)
  push_cast
  field_simp
  ring

theorem jTerm_rec_zero (n : ℕ) {z : ℂ} (hz : z ≠ 0) :
    (2 * (n : ℂ) + 3) / z * jTerm (n + 1) 0 z - jTerm n 0 z = 0 := by
  unfold jTerm
  simp only [add_zero, mul_zero, pow_zero, Nat.factorial_zero, one_mul, Nat.cast_one]
  rw [dfac_succ]
  have h1 := dfac_ne n
  have h4 : 2 * (n : ℂ) + 3 ≠ 0 := by exact_mod_cast Nat.succ_ne_zero (2 * n + 2)
  field_simp
  ring

theorem hasSum_jTerm (n : ℕ) {z : ℂ} (hz : z ≠ 0) : HasSum (fun k => jTerm n k z) (sphJ n z) := by
  induction n using Nat.twoStepInduction with
  | zero => exact hasSum_jTerm_zero hz
  | one => exact hasSum_jTerm_one hz
  | more n h0 h1 =>
    rw [sphJ_seq.three n hz]
    have h := (h1.mul_left ((2 * (n : ℂ) + 3) / z)).sub h0
    rw [← hasSum_nat_add_iff' 1] at h
    simp only [Finset.range_one, Finset.sum_singleton, jTerm_rec_zero n hz, sub_zero,
      jTerm_rec n _ hz] at h
    exact h

/-- Distance to the first term of the power series. -/
theorem norm_sphJ_sub_le_q (n : ℕ) {z : ℂ} (hz : z ≠ 0) {q : ℝ} (hq0 : 0 ≤ q) (hq1 : q < 1)
    (h : ‖z‖ ^ 2 ≤ q * (2 * (2 * n + 3))) :
    ‖sphJ n z - jTerm n 0 z‖ ≤ ‖jTerm n 0 z‖ * (q / (1 - q)) := by
  have hs := hasSum_jTerm n hz
  have hb : ∀ k, ‖jTerm n k z‖ ≤ ‖jTerm n 0 z‖ * q ^ k := by
    intro k
    induction k with
    | zero => simp
    | succ k ih =>
      have hstep : jTerm n (k + 1) z =
          jTerm n k z * (-(z ^ 2) / (2 * ((k : ℂ) + 1) * (2 * ((n : ℂ) + k) + 3))) := by
        unfold jTerm
        rw [show n + (k + 1) = n + k + 1 by ring, dfac_succ, Nat.factorial_succ]
        have h1 := dfac_ne (n + k)
        have h2 := fac_ne k
        have h3 : (k : ℂ) + 1 ≠ 0 := by exact_mod_cast Nat.succ_ne_zero k
        have h4 : 2 * ((n : ℂ) + (k : ℂ)) + 3 ≠ 0 := by
          exact_mod_cast Nat.succ_ne_zero (2 * (n + k) + 2)
        push_cast
        field_simp
        ring
      rw [hstep, norm_mul, pow_succ q, ← mul_assoc]
      refine mul_le_mul ih ?_ (norm_nonneg _) (by positivity)
      have e : ‖2 * ((k : ℂ) + 1) * (2 * ((n : ℂ) + k) + 3)‖ =
          2 * ((k : ℝ) + 1) * (2 * ((n : ℝ) + k) + 3) := by
        have : 2 * ((k : ℂ) + 1) * (2 * ((n : ℂ) + k) + 3) =
          ((2 * ((k : ℝ) + 1) * (2 * ((n : ℝ) + k) + 3) : ℝ) : ℂ) := by push_cast; ring
        rw [this, norm_real, Real.norm_of_nonneg (by positivity)]
      rw [norm_div, norm_neg, norm_pow, e, div_le_iff₀ (by positivity)]
      have hk : (0 : ℝ) ≤ k := by positivity
      have hn : (0 : ℝ) ≤ n := by positivity
      have h8 : 2 * (2 * (n : ℝ) + 3) ≤ 2 * ((k : ℝ) + 1) * (2 * ((n : ℝ) + k) + 3) := by
        nlinarith [mul_nonneg hk hn, mul_nonneg hk hk]
      exact h.trans (mul_le_mul_of_nonneg_left h8 hq0)
  have h2 : HasSum (fun k => ‖jTerm n 0 z‖ * q * q ^ k) (‖jTerm n 0 z‖ * q * (1 - q)⁻¹) :=
    (hasSum_geometric_of_lt_one hq0 hq1).mul_left (‖jTerm n 0 z‖ * q)
  have h3 := (hasSum_nat_add_iff' 1).2 hs
  simp only [Finset.range_one, Finset.sum_singleton] at h3
  have h4 := tsum_of_norm_bounded h2 (f := fun k => jTerm n (k + 1) z) (by
    intro k
    refine (hb (k + 1)).trans (le_of_eq ?_)
    rw [pow_succ]; ring)
  rw [h3.tsum_eq] at h4
  rw [div_eq_mul_inv, ← mul_assoc]
  exact h4

/-- The first term dominates when `|z|^2 <= n + 1`. -/
theorem norm_sphJ_sub_le (n : ℕ) {z : ℂ} (hz : z ≠ 0) (h : ‖z‖ ^ 2 ≤ n + 1) :
    ‖sphJ n z - jTerm n 0 z‖ ≤ ‖jTerm n 0 z‖ / 3 := by
  have h1 := norm_sphJ_sub_le_q n hz (q := 1 / 4) (by norm_num) (by norm_num)
    (by linarith [(Nat.cast_nonneg n : (0 : ℝ) ≤ n)])
  norm_num at h1 ⊢
  linarith

theorem sphJ_ne_large (n : ℕ) {z : ℂ} (hz : z ≠ 0) (h : ‖z‖ ^ 2 ≤ n + 1) : sphJ n z ≠ 0 := by
  intro h0
  have h1 := norm_sphJ_sub_le n hz h
  rw [h0, zero_sub, norm_neg] at h1
  have h2 : 0 < ‖jTerm n 0 z‖ := by
    rw [norm_pos_iff]
    unfold jTerm
    have := dfac_ne n
    simp [hz, this]
  linarith

theorem sphJ_ratio_large (n : ℕ) {z : ℂ} (hz : z ≠ 0) (h : ‖z‖ ^ 2 ≤ n + 1) :
    ‖sphJ (n + 1) z‖ ≤ ‖sphJ n z‖ * (2 * ‖z‖ / (2 * n + 3)) := by
  have h1 := norm_sphJ_sub_le n hz h
  have h2 := norm_sphJ_sub_le (n + 1) hz (by push_cast; linarith)
  have h3 : ‖jTerm (n + 1) 0 z‖ = ‖jTerm n 0 z‖ * (‖z‖ / (2 * n + 3)) := by
    have e : jTerm (n + 1) 0 z = jTerm n 0 z * (z / (2 * (n : ℂ) + 3)) := by
      have := jTerm_rec_zero n hz
      have h4 : 2 * (n : ℂ) + 3 ≠ 0 := by exact_mod_cast Nat.succ_ne_zero (2 * n + 2)
      field_simp at this ⊢
      linear_combination this
    rw [e, norm_mul, norm_div]
    congr 2
    have : (2 * (n : ℂ) + 3) = ((2 * (n : ℝ) + 3 : ℝ) : ℂ) := by push_cast; ring
    rw [this, norm_real, Real.norm_of_nonneg (by positivity)]
  have h4 : ‖jTerm n 0 z‖ * (2 / 3) ≤ ‖sphJ n z‖ := by
    have := norm_sub_norm_le (jTerm n 0 z) (sphJ n z)
    rw [norm_sub_rev] at this
    linarith
  have h5 : ‖sphJ (n + 1) z‖ ≤ ‖jTerm (n + 1) 0 z‖ * (4 / 3) := by
    have := norm_sub_norm_le (sphJ (n + 1) z) (jTerm (n + 1) 0 z)
    linarith
  rw [h3] at h5
  have h6 : 0 ≤ ‖z‖ / (2 * (n : ℝ) + 3) := by positivity
  calc ‖sphJ (n + 1) z‖ ≤ ‖jTerm n 0 z‖ * (2 / 3) * (2 * (‖z‖ / (2 * n + 3))) := by linarith
    _ ≤ ‖sphJ n z‖ * (2 * (‖z‖ / (2 * n + 3))) := mul_le_mul_of_nonneg_right h4 (by positivity)
    _ = _ := by ring

/-- Ratio bound for all orders above twice the size: `j_n` is nonzero and `|j_{n+1}| <= |j_n|/2` as
soon as `2|z| <= n + 1`. -/
theorem sphJ_ratio (n : ℕ) {z : ℂ} (hz : z ≠ 0) (h : 2 * ‖z‖ ≤ n + 1) :
    sphJ n z ≠ 0 ∧ ‖sphJ (n + 1) z‖ ≤ ‖sphJ n z‖ / 2 := by
  obtain ⟨m, hm⟩ := exists_nat_ge (‖z‖ ^ 2 + 2 * ‖z‖)
  have base : ∀ p, m ≤ p → sphJ p z ≠ 0 ∧ ‖sphJ (p + 1) z‖ ≤ ‖sphJ p z‖ / 2 := by
    intro p hp
    have hp' : (m : ℝ) ≤ p := by exact_mod_cast hp
    have hz0 := norm_nonneg z
    have h1 : ‖z‖ ^ 2 ≤ (p : ℝ) + 1 := by nlinarith
    refine ⟨sphJ_ne_large p hz h1, (sphJ_ratio_large p hz h1).trans ?_⟩
    have h2 : 2 * ‖z‖ / (2 * (p : ℝ) + 3) ≤ 1 / 2 := by
      rw [div_le_iff₀ (by positivity)]
      nlinarith [sq_nonneg ‖z‖]
    have := mul_le_mul_of_nonneg_left h2 (norm_nonneg (sphJ p z))
    linarith
  have step : ∀ p : ℕ, 2 * ‖z‖ ≤ p + 1 →
      (sphJ (p + 1) z ≠ 0 ∧ ‖sphJ (p + 2) z‖ ≤ ‖sphJ (p + 1) z‖ / 2) →
      (sphJ p z ≠ 0 ∧ ‖sphJ (p + 1) z‖ ≤ ‖sphJ p z‖ / 2) := by
    intro p hp ⟨h1, h2⟩
    have h3 := sphJ_seq.three p hz
    have hzp : 0 < ‖z‖ := norm_pos_iff.2 hz
    have e : sphJ p z = (2 * (p : ℂ) + 3) / z * sphJ (p + 1) z - sphJ (p + 2) z := by
      rw [h3]; ring
    have h4 : ‖(2 * (p : ℂ) + 3) / z * sphJ (p + 1) z‖ = (2 * (p : ℝ) + 3) / ‖z‖ * ‖sphJ (p + 1) z‖ := by
      rw [norm_mul, norm_div]
      congr 2
      have : (2 * (p : ℂ) + 3) = ((2 * (p : ℝ) + 3 : ℝ) : ℂ) := by push_cast; ring
      rw [this, norm_real, Real.norm_of_nonneg (by positivity)]
    have h5 : 4 ≤ (2 * (p : ℝ) + 3) / ‖z‖ := by
      rw [le_div_iff₀ hzp]; linarith
    have h6 := norm_sub_norm_le ((2 * (p : ℂ) + 3) / z * sphJ (p + 1) z) (sphJ (p + 2) z)
    rw [← e, h4] at h6
    have h7 := mul_le_mul_of_nonneg_right h5 (norm_nonneg (sphJ (p + 1) z))
    have h8 : 0 < ‖sphJ (p + 1) z‖ := norm_pos_iff.2 h1
    constructor
    · intro h0
      rw [h0, norm_zero] at h6
      linarith
    · linarith
  have down : ∀ j p : ℕ, 2 * ‖z‖ ≤ p + 1 → m ≤ p + j →
      (sphJ p z ≠ 0 ∧ ‖sphJ (p + 1) z‖ ≤ ‖sphJ p z‖ / 2) := by
    intro j
    induction j with
    | zero => intro p _ h2; exact base p h2
    | succ j ih =>
      intro p h1 h2
      exact step p h1 (ih (p + 1) (by push_cast; linarith) (by omega))
  exact down m n h (by omega)

end MieDiff.Spec
