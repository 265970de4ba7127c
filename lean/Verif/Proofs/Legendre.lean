import Verif.Spec.Legendre
import Mathlib.Tactic.Ring
import Mathlib.Tactic.Linarith
import Mathlib.Tactic.FieldSimp
import Mathlib.Tactic.LinearCombination
import Mathlib.Analysis.Calculus.Deriv.Polynomial

namespace MieDiff.Spec

open Polynomial

/-- `(x^2-1)^n`. -/
private noncomputable def u (n : ℕ) : ℝ[X] := (X ^ 2 - 1) ^ n

private theorem der_u (n : ℕ) : derivative (u (n + 1)) = C (2 * ((n : ℝ) + 1)) * (u n * X) := by
  unfold u
  rw [derivative_pow]
  have : (C 2 : ℝ[X]) = 2 := rfl
  simp [this]
  ring

private theorem u_mul_sq (n : ℕ) : X ^ 2 * u n = u (n + 1) + u n := by
  unfold u; ring

/-- `P'_{n+1} = x P'_n + (n+1) P_n`. -/
theorem legendre_der_succ (n : ℕ) :
    derivative (legendre (n + 1)) =
      X * derivative (legendre n) + C ((n : ℝ) + 1) * legendre n := by
  have h1 : derivative (derivative^[n + 1] (u (n + 1)))
      = C (2 * ((n : ℝ) + 1)) * (derivative^[n + 1] (u n) * X + C ((n : ℝ) + 1) * derivative^[n] (u n)) := by
    rw [← Function.iterate_succ_apply' (f := derivative), Function.iterate_succ_apply, der_u,
      iterate_derivative_C_mul, iterate_derivative_mul_X]
    simp [nsmul_eq_mul]
  have hc : (1 / (2 ^ (n + 1) * ((n + 1).factorial : ℝ))) * (2 * ((n : ℝ) + 1))
      = 1 / (2 ^ n * (n.factorial : ℝ)) := by
    have := Nat.factorial_pos n
    rw [Nat.factorial_succ]
    push_cast
    field_simp
    ring
  unfold legendre
  change derivative (C _ * derivative^[n + 1] (u (n + 1))) = X * derivative (C _ * derivative^[n] (u n)) + _ * (C _ * derivative^[n] (u n))
  rw [derivative_C_mul, derivative_C_mul, h1, ← mul_assoc, ← C_mul, hc,
    ← Function.iterate_succ_apply' (f := derivative)]
  ring

/-- `P'_{n+2} = (2n+3) P_{n+1} + P'_n`. -/
theorem legendre_der_add_two (n : ℕ) :
    derivative (legendre (n + 2)) =
      C (2 * (n : ℝ) + 3) * legendre (n + 1) + derivative (legendre n) := by
  have h0 : derivative (derivative (u (n + 2))) =
      C (2 * ((n : ℝ) + 2)) * (C (2 * (n : ℝ) + 3) * u (n + 1) + C (2 * ((n : ℝ) + 1)) * u n) := by
    rw [der_u, derivative_C_mul, derivative_mul, der_u, derivative_X]
    have e1 : C (2 * ((n + 1 : ℕ) : ℝ) + 2 * 1 : ℝ) = (C (2 * ((n : ℝ) + 2)) : ℝ[X]) := by
      congr 1; push_cast; ring
    have e2 : (C (2 * (n : ℝ) + 3) : ℝ[X]) = C (2 * ((n : ℝ) + 1)) + 1 := by
      rw [← C_1, ← C_add]; congr 1; ring
    have e3 : 2 * (((n + 1 : ℕ) : ℝ) + 1) = 2 * ((n : ℝ) + 2) := by push_cast; ring
    rw [e3, e2]
    have := u_mul_sq n
    linear_combination (C (2 * ((n : ℝ) + 2)) * C (2 * ((n : ℝ) + 1))) * this
  have h1 : derivative (derivative^[n + 2] (u (n + 2)))
      = C (2 * ((n : ℝ) + 2)) * (C (2 * (n : ℝ) + 3) * derivative^[n + 1] (u (n + 1)) +
        C (2 * ((n : ℝ) + 1)) * derivative^[n + 1] (u n)) := by
    rw [← Function.iterate_succ_apply' (f := derivative)]
    have : n + 2 + 1 = (n + 1) + 1 + 1 := by ring
    rw [Nat.succ_eq_add_one, this, Function.iterate_succ_apply, Function.iterate_succ_apply, h0, iterate_derivative_C_mul,
      iterate_map_add, iterate_derivative_C_mul, iterate_derivative_C_mul]
  have hc : (1 / (2 ^ (n + 2) * ((n + 2).factorial : ℝ))) * (2 * ((n : ℝ) + 2))
      = 1 / (2 ^ (n + 1) * ((n + 1).factorial : ℝ)) := by
    have := Nat.factorial_pos n
    rw [Nat.factorial_succ (n + 1)]
    push_cast
    field_simp
    ring
  have hc2 : (1 / (2 ^ (n + 1) * ((n + 1).factorial : ℝ))) * (2 * ((n : ℝ) + 1))
      = 1 / (2 ^ n * (n.factorial : ℝ)) := by
    have := Nat.factorial_pos n
    rw [Nat.factorial_succ]
    push_cast
    field_simp
    ring
  unfold legendre
  change derivative (C _ * derivative^[n + 2] (u (n + 2))) = _ * (C _ * derivative^[n + 1] (u (n + 1))) + derivative (C _ * derivative^[n] (u n))
  rw [derivative_C_mul, derivative_C_mul, h1, ← mul_assoc, ← C_mul, hc,
    ← Function.iterate_succ_apply' (f := derivative), mul_add, ← hc2, C_mul (a := 1 / _)]
  simp only [Nat.succ_eq_add_one]
  ring

/-- Value form of `legendre`. -/
noncomputable def legP (n : ℕ) (x : ℝ) : ℝ := (legendre n).eval x

theorem angPi_succ (n : ℕ) (x : ℝ) : angPi (n + 1) x = x * angPi n x + (n + 1) * legP n x := by
  unfold angPi legP; rw [legendre_der_succ]; simp

theorem angPi_add_two (n : ℕ) (x : ℝ) :
    angPi (n + 2) x = (2 * n + 3) * legP (n + 1) x + angPi n x := by
  unfold angPi legP; rw [legendre_der_add_two]; simp

theorem angPi_zero (x : ℝ) : angPi 0 x = 0 := by
  unfold angPi legendre; simp

theorem legP_zero (x : ℝ) : legP 0 x = 1 := by
  unfold legP legendre; simp

theorem angPi_one (x : ℝ) : angPi 1 x = 1 := by
  rw [angPi_succ, angPi_zero, legP_zero]; simp

/-- `x P'_{n+1} - P'_n = (n+1) P_{n+1}`. -/
theorem angPi_diff (n : ℕ) (x : ℝ) :
    x * angPi (n + 1) x - angPi n x = (n + 1) * legP (n + 1) x := by
  have h1 := angPi_succ (n + 1) x
  have h2 := angPi_add_two n x
  push_cast at h1
  linarith

/-- The upward recurrence used in numerical codes. -/
theorem angPi_rec (n : ℕ) (x : ℝ) :
    angPi (n + 2) x = ((2 * (n + 1) + 1) * x * angPi (n + 1) x - (n + 2) * angPi n x) / (n + 1) := by
  have h1 := angPi_succ (n + 1) x
  have h2 := angPi_add_two n x
  push_cast at h1
  have : (n : ℝ) + 1 ≠ 0 := by positivity
  field_simp
  linear_combination (2 * (n : ℝ) + 3) * h1 - ((n : ℝ) + 2) * h2

/-- `(1-x^2) P'_{n+1} = (n+1)(P_n - x P_{n+1})`. -/
theorem legendre_lower (n : ℕ) (x : ℝ) :
    (1 - x ^ 2) * angPi (n + 1) x = (n + 1) * (legP n x - x * legP (n + 1) x) := by
  have h1 := angPi_succ n x
  have h2 := angPi_diff n x
  linear_combination h1 - x * h2

/-- derivative of `pi_n` as a polynomial value. -/
noncomputable def angPi' (n : ℕ) (x : ℝ) : ℝ := (derivative (derivative (legendre n))).eval x

theorem hasDerivAt_angPi (n : ℕ) (x : ℝ) : HasDerivAt (angPi n) (angPi' n x) x :=
  (derivative (legendre n)).hasDerivAt x

theorem hasDerivAt_legP (n : ℕ) (x : ℝ) : HasDerivAt (legP n) (angPi n x) x :=
  (legendre n).hasDerivAt x

/-- Legendre's differential equation. -/
theorem legendre_ode (n : ℕ) (x : ℝ) :
    (1 - x ^ 2) * angPi' n x - 2 * x * angPi n x + n * (n + 1) * legP n x = 0 := by
  cases n with
  | zero =>
    have : angPi' 0 x = 0 := by unfold angPi' legendre; simp
    simp [this, angPi_zero]
  | succ n =>
    have hl : HasDerivAt (fun y => (1 - y ^ 2) * angPi (n + 1) y)
        ((-(2 * x)) * angPi (n + 1) x + (1 - x ^ 2) * angPi' (n + 1) x) x := by
      have h1 : HasDerivAt (fun y : ℝ => 1 - y ^ 2) (-(2 * x)) x := by
        simpa using ((hasDerivAt_id x).pow 2).const_sub 1
      exact h1.mul (hasDerivAt_angPi (n + 1) x)
    have hr : HasDerivAt (fun y => ((n : ℝ) + 1) * (legP n y - y * legP (n + 1) y))
        (((n : ℝ) + 1) * (angPi n x - (1 * legP (n + 1) x + x * angPi (n + 1) x))) x :=
      ((hasDerivAt_legP n x).sub ((hasDerivAt_id x).mul (hasDerivAt_legP (n + 1) x))).const_mul _
    have e := hl.unique (by
      have : (fun y => (1 - y ^ 2) * angPi (n + 1) y)
        = (fun y => ((n : ℝ) + 1) * (legP n y - y * legP (n + 1) y)) := by
        funext y; exact legendre_lower n y
      rw [this]; exact hr)
    have h2 := angPi_diff n x
    push_cast
    linear_combination e - ((n : ℝ) + 1) * h2

/-- The polynomial in `mu` that numerical codes use for `tau_n`, `n >= 1`. -/
theorem hasDerivAt_sin_angPi (n : ℕ) (t : ℝ) :
    HasDerivAt (fun s => Real.sin s * angPi (n + 1) (Real.cos s))
      ((n + 1) * Real.cos t * angPi (n + 1) (Real.cos t) - (n + 2) * angPi n (Real.cos t)) t := by
  have h := (Real.hasDerivAt_sin t).mul
    ((hasDerivAt_angPi (n + 1) (Real.cos t)).comp t (Real.hasDerivAt_cos t))
  refine h.congr_deriv ?_
  have h1 := legendre_ode (n + 1) (Real.cos t)
  have h2 := angPi_diff n (Real.cos t)
  have h3 := Real.sin_sq_add_cos_sq t
  push_cast at h1
  simp only [Function.comp]
  linear_combination -h1 - ((n : ℝ) + 2) * h2 - angPi' (n + 1) (Real.cos t) * h3

theorem angTau_succ (n : ℕ) (t : ℝ) :
    angTau (n + 1) t =
      (n + 1) * Real.cos t * angPi (n + 1) (Real.cos t) - (n + 2) * angPi n (Real.cos t) :=
  (hasDerivAt_sin_angPi n t).deriv

theorem angTau_zero (t : ℝ) : angTau 0 t = 0 := by
  unfold angTau
  simp [angPi_zero]

end MieDiff.Spec
