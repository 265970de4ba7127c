import Verif.Proofs.SeqBessel
import Mathlib.Topology.Algebra.Polynomial
import Mathlib.MeasureTheory.Integral.IntervalIntegral.FundThmCalculus
import Mathlib.MeasureTheory.Integral.IntervalIntegral.IntegrationByParts

/-!
# Orthogonality of the angular functions on `[-1, 1]`
-/

namespace MieDiff

open Spec intervalIntegral

/-! ## Values at the end points -/

theorem angPi_at_one (n : ℕ) : angPi n 1 = n * (n + 1) / 2 := by
  induction n using Nat.twoStepInduction with
  | zero => simp [angPi_zero]
  | one => simp [angPi_one]
  | more n h0 h1 =>
    rw [angPi_rec, h0, h1]
    have : (n : ℝ) + 1 ≠ 0 := by positivity
    push_cast
    field_simp
    ring

theorem angPi_at_neg_one (n : ℕ) : angPi n (-1) = (-1) ^ (n + 1) * (n * (n + 1) / 2) := by
  induction n using Nat.twoStepInduction with
  | zero => simp [angPi_zero]
  | one => simp [angPi_one]
  | more n h0 h1 =>
    rw [angPi_rec, h0, h1]
    have : (n : ℝ) + 1 ≠ 0 := by positivity
    push_cast
    field_simp
    ring

theorem angPi_parity (n : ℕ) (x : ℝ) : angPi n (-x) = (-1) ^ (n + 1) * angPi n x := by
  induction n using Nat.twoStepInduction with
  | zero => simp [angPi_zero]
  | one => simp [angPi_one]
  | more n h0 h1 =>
    rw [angPi_rec, h0, h1, angPi_rec n x]
    have : (n : ℝ) + 1 ≠ 0 := by positivity
    field_simp
    ring

theorem tauVal_at_one (n : ℕ) : tauVal 1 n = n * (n + 1) / 2 := by
  cases n with
  | zero => simp [tauVal]
  | succ n => rw [tauVal, angPi_at_one, angPi_at_one]; push_cast; ring

theorem tauVal_at_neg_one (n : ℕ) : tauVal (-1) n = (-1) ^ n * (n * (n + 1) / 2) := by
  cases n with
  | zero => simp [tauVal]
  | succ n => rw [tauVal, angPi_at_neg_one, angPi_at_neg_one]; push_cast; ring

theorem tauVal_parity (n : ℕ) (x : ℝ) : tauVal (-x) n = (-1) ^ n * tauVal x n := by
  cases n with
  | zero => simp [tauVal]
  | succ n => rw [tauVal, angPi_parity, angPi_parity, tauVal]; ring

theorem legP_at_one (n : ℕ) : legP n 1 = 1 := by
  induction n with
  | zero => exact legP_zero 1
  | succ n ih =>
    have h := legendre_lower n 1
    rw [ih] at h
    have h2 : (n : ℝ) + 1 ≠ 0 := by positivity
    have h3 : ((n : ℝ) + 1) * (1 - legP (n + 1) 1) = 0 := by linarith
    rcases mul_eq_zero.1 h3 with h4 | h4
    · exact absurd h4 h2
    · linarith

theorem legP_at_neg_one (n : ℕ) : legP n (-1) = (-1) ^ n := by
  induction n with
  | zero => simpa using legP_zero (-1)
  | succ n ih =>
    have h := legendre_lower n (-1)
    rw [ih] at h
    have h2 : (n : ℝ) + 1 ≠ 0 := by positivity
    have h3 : ((n : ℝ) + 1) * ((-1) ^ n + legP (n + 1) (-1)) = 0 := by linarith
    rcases mul_eq_zero.1 h3 with h4 | h4
    · exact absurd h4 h2
    · rw [pow_succ]; linarith

/-! ## Continuity and derivatives -/

theorem continuous_angPi (n : ℕ) : Continuous (angPi n) := (Polynomial.continuous _)
theorem continuous_angPi' (n : ℕ) : Continuous (angPi' n) := (Polynomial.continuous _)
theorem continuous_legP (n : ℕ) : Continuous (legP n) := (Polynomial.continuous _)

theorem tauVal_eq_legP (n : ℕ) (x : ℝ) : tauVal x n = n * (n + 1) * legP n x - x * angPi n x := by
  have h1 := tauVal_diff n x
  have h2 := legendre_ode n x
  linear_combination h1 - h2

theorem continuous_tauVal (n : ℕ) : Continuous (fun x => tauVal x n) := by
  have : (fun x => tauVal x n) = fun x => n * (n + 1) * legP n x - x * angPi n x := by
    funext x; exact tauVal_eq_legP n x
  rw [this]
  exact (continuous_const.mul (continuous_legP n)).sub (continuous_id.mul (continuous_angPi n))

theorem hasDerivAt_tauVal (n : ℕ) (x : ℝ) :
    HasDerivAt (fun y => tauVal y n) (n * (n + 1) * angPi n x - (angPi n x + x * angPi' n x)) x := by
  have : (fun y => tauVal y n) = fun y => (n * (n + 1) : ℝ) * legP n y - y * angPi n y := by
    funext y; exact tauVal_eq_legP n y
  rw [this]
  have h := ((hasDerivAt_legP n x).const_mul (n * (n + 1) : ℝ)).sub
    ((hasDerivAt_id x).mul (hasDerivAt_angPi n x))
  exact h.congr_deriv (by simp)

theorem hasDerivAt_one_sub_sq (x : ℝ) : HasDerivAt (fun y : ℝ => 1 - y ^ 2) (-(2 * x)) x := by
  simpa using ((hasDerivAt_id x).pow 2).const_sub 1

/-- Integral of a derivative over `[-1, 1]`. -/
theorem integral_deriv {F f : ℝ → ℝ} (h : ∀ x, HasDerivAt F (f x) x) (hc : Continuous f) :
    ∫ x in (-1 : ℝ)..1, f x = F 1 - F (-1) :=
  integral_eq_sub_of_hasDerivAt (fun x _ => h x) (hc.intervalIntegrable _ _)

/-! ## Mixed orthogonality -/

theorem integral_pi_tau (n m : ℕ) :
    ∫ x in (-1 : ℝ)..1, (angPi n x * tauVal x m + tauVal x n * angPi m x) = 0 := by
  have h : ∀ x, HasDerivAt (fun y => -((1 - y ^ 2) * (angPi n y * angPi m y)))
      (angPi n x * tauVal x m + tauVal x n * angPi m x) x := by
    intro x
    have := ((hasDerivAt_one_sub_sq x).mul
      ((hasDerivAt_angPi n x).mul (hasDerivAt_angPi m x))).neg
    refine this.congr_deriv ?_
    rw [tauVal_diff, tauVal_diff]
    simp only [Pi.mul_apply]
    ring
  rw [integral_deriv h ?_]
  · simp
  · exact ((continuous_angPi n).mul (continuous_tauVal m)).add
      ((continuous_tauVal n).mul (continuous_angPi m))

/-- `int (1-x^2) pi_n pi_m`. -/
noncomputable def wInt (n m : ℕ) : ℝ := ∫ x in (-1 : ℝ)..1, (1 - x ^ 2) * (angPi n x * angPi m x)

theorem wInt_comm (n m : ℕ) : wInt n m = wInt m n := by
  unfold wInt; congr 1; funext x; ring

theorem continuous_w (n m : ℕ) : Continuous (fun x : ℝ => (1 - x ^ 2) * (angPi n x * angPi m x)) := by
  have h1 := continuous_angPi n
  have h2 := continuous_angPi m
  fun_prop

theorem integral_pi_pi (n m : ℕ) :
    ∫ x in (-1 : ℝ)..1, (angPi n x * angPi m x + tauVal x n * tauVal x m) =
      n * (n + 1) * wInt n m := by
  have c1 := continuous_angPi n
  have c2 := continuous_angPi m
  have c3 := continuous_tauVal n
  have c4 := continuous_tauVal m
  have h : ∀ x, HasDerivAt (fun y => -((1 - y ^ 2) * (tauVal y n * angPi m y)))
      ((angPi n x * angPi m x + tauVal x n * tauVal x m) -
        n * (n + 1) * ((1 - x ^ 2) * (angPi n x * angPi m x))) x := by
    intro x
    have := ((hasDerivAt_one_sub_sq x).mul
      ((hasDerivAt_tauVal n x).mul (hasDerivAt_angPi m x))).neg
    refine this.congr_deriv ?_
    rw [tauVal_diff, tauVal_diff]
    simp only [Pi.mul_apply]
    rw [tauVal_diff]
    ring
  have hi := integral_deriv h (by fun_prop)
  rw [integral_sub (Continuous.intervalIntegrable (by fun_prop) _ _)
    (Continuous.intervalIntegrable (by fun_prop) _ _), integral_const_mul] at hi
  unfold wInt
  simp at hi
  linarith

theorem wInt_ne {n m : ℕ} (h : n ≠ m) : wInt n m = 0 := by
  have h1 := integral_pi_pi n m
  have h2 := integral_pi_pi m n
  have h3 : ∫ x in (-1 : ℝ)..1, (angPi n x * angPi m x + tauVal x n * tauVal x m) =
      ∫ x in (-1 : ℝ)..1, (angPi m x * angPi n x + tauVal x m * tauVal x n) := by
    congr 1; funext x; ring
  rw [h1, h2, wInt_comm m n] at h3
  have h4 : ((n : ℝ) - m) * (n + m + 1) * wInt n m = 0 := by linear_combination h3
  have h5 : ((n : ℝ) - m) ≠ 0 := by
    rw [sub_ne_zero]; exact_mod_cast h
  have h6 : ((n : ℝ) + m + 1) ≠ 0 := by positivity
  rcases mul_eq_zero.1 h4 with h7 | h7
  · exact absurd h7 (mul_ne_zero h5 h6)
  · exact h7

/-! ## Normalisation -/

theorem integral_legP_legP {n m : ℕ} (h : n ≠ m) : ∫ x in (-1 : ℝ)..1, legP n x * legP m x = 0 := by
  have c1 := continuous_legP n
  have c2 := continuous_legP m
  have hd : ∀ x, HasDerivAt
      (fun y => -((1 - y ^ 2) * (angPi n y * legP m y - legP n y * angPi m y)))
      (((n : ℝ) * (n + 1) - m * (m + 1)) * (legP n x * legP m x)) x := by
    intro x
    have := ((hasDerivAt_one_sub_sq x).mul
      (((hasDerivAt_angPi n x).mul (hasDerivAt_legP m x)).sub
        ((hasDerivAt_legP n x).mul (hasDerivAt_angPi m x)))).neg
    refine this.congr_deriv ?_
    have e1 := legendre_ode n x
    have e2 := legendre_ode m x
    simp only [Pi.mul_apply, Pi.sub_apply]
    linear_combination (-legP m x) * e1 + legP n x * e2
  have hi := integral_deriv hd (by fun_prop)
  rw [integral_const_mul] at hi
  simp at hi
  rcases hi with h1 | h1
  · exfalso
    have h2 : ((n : ℝ) - m) * (n + m + 1) = 0 := by linear_combination h1
    have h5 : ((n : ℝ) - m) ≠ 0 := by
      rw [sub_ne_zero]; exact_mod_cast h
    have h6 : ((n : ℝ) + m + 1) ≠ 0 := by positivity
    exact mul_ne_zero h5 h6 h2
  · exact h1

theorem integral_legP_angPi (n : ℕ) : ∀ m, m ≤ n → ∫ x in (-1 : ℝ)..1, legP n x * angPi m x = 0 := by
  intro m
  induction m using Nat.twoStepInduction with
  | zero => intro _; simp [angPi_zero]
  | one =>
    intro h
    have := integral_legP_legP (n := n) (m := 0) (by omega)
    simpa [angPi_one, legP_zero] using this
  | more m h0 _ =>
    intro h
    have c1 := continuous_legP n
    have c2 := continuous_legP (m + 1)
    have c3 := continuous_angPi m
    have e : (fun x => legP n x * angPi (m + 2) x) =
        fun x => (2 * (m : ℝ) + 3) * (legP n x * legP (m + 1) x) + legP n x * angPi m x := by
      funext x; rw [angPi_add_two]; ring
    rw [e, integral_add (Continuous.intervalIntegrable (by fun_prop) _ _)
      (Continuous.intervalIntegrable (by fun_prop) _ _), integral_const_mul,
      integral_legP_legP (by omega), h0 (by omega)]
    simp

theorem integral_legP_sq (n : ℕ) : ∫ x in (-1 : ℝ)..1, legP n x ^ 2 = 2 / (2 * n + 1) := by
  cases n with
  | zero => simp [legP_zero]; norm_num
  | succ n =>
    have c1 := continuous_legP (n + 1)
    have c2 := continuous_angPi n
    have hd : ∀ x, HasDerivAt (fun y => y * legP (n + 1) y ^ 2)
        ((2 * ((n : ℝ) + 1) + 1) * legP (n + 1) x ^ 2 + 2 * (legP (n + 1) x * angPi n x)) x := by
      intro x
      have := (hasDerivAt_id x).mul ((hasDerivAt_legP (n + 1) x).pow 2)
      refine this.congr_deriv ?_
      have e := angPi_diff n x
      simp only [id, Pi.pow_apply]
      push_cast
      linear_combination (2 * legP (n + 1) x) * e
    have hi := integral_deriv hd (by fun_prop)
    rw [integral_add (Continuous.intervalIntegrable (by fun_prop) _ _)
      (Continuous.intervalIntegrable (by fun_prop) _ _), integral_const_mul, integral_const_mul,
      integral_legP_angPi (n + 1) n (by omega), legP_at_one, legP_at_neg_one] at hi
    have h3 : ((-1 : ℝ) ^ (n + 1)) ^ 2 = 1 := by rw [← pow_mul, mul_comm, pow_mul]; simp
    rw [h3] at hi
    have h4 : (2 * ((n : ℝ) + 1) + 1) ≠ 0 := by positivity
    push_cast
    field_simp
    linarith

theorem wInt_self (n : ℕ) : wInt n n = n * (n + 1) * (2 / (2 * n + 1)) := by
  have c1 := continuous_legP n
  have c2 := continuous_angPi n
  have hd : ∀ x, HasDerivAt (fun y => (1 - y ^ 2) * (angPi n y * legP n y))
      ((1 - x ^ 2) * (angPi n x * angPi n x) - (n * (n + 1) : ℝ) * legP n x ^ 2) x := by
    intro x
    have := (hasDerivAt_one_sub_sq x).mul ((hasDerivAt_angPi n x).mul (hasDerivAt_legP n x))
    refine this.congr_deriv ?_
    have e1 := legendre_ode n x
    simp only [Pi.mul_apply]
    linear_combination (legP n x) * e1
  have hi := integral_deriv hd (by fun_prop)
  rw [integral_sub (Continuous.intervalIntegrable (by fun_prop) _ _)
    (Continuous.intervalIntegrable (by fun_prop) _ _), integral_const_mul, integral_legP_sq] at hi
  unfold wInt
  simp at hi
  linarith

/-- Orthogonality relation used by the angular integral (Bohren & Huffman p. 98). -/
theorem integral_pi_pi_eq (n m : ℕ) :
    ∫ x in (-1 : ℝ)..1, (angPi n x * angPi m x + tauVal x n * tauVal x m) =
      if n = m then 2 * (n : ℝ) ^ 2 * (n + 1) ^ 2 / (2 * n + 1) else 0 := by
  rw [integral_pi_pi]
  split
  · next h => subst h; rw [wInt_self]; ring
  · next h => rw [wInt_ne h]; simp

end MieDiff
