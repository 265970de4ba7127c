import Mathlib.Algebra.Polynomial.Derivative
import Mathlib.Analysis.SpecialFunctions.Trigonometric.Deriv

/-!
# Specification: Legendre polynomials and the angular functions of Mie theory

Rodrigues' formula, independent of the recurrence used by the code.
-/

namespace MieDiff.Spec

open Polynomial

/-- Rodrigues' formula `P_n = (1 / (2^n n!)) (d/dx)^n (x^2 - 1)^n`. -/
noncomputable def legendre (n : ℕ) : ℝ[X] :=
  C (1 / (2 ^ n * (n.factorial : ℝ))) * derivative^[n] ((X ^ 2 - 1) ^ n)

/-- The angular function `pi_n(mu) = P_n'(mu)` (Bohren & Huffman Eq. 4.46: `P_n^1 / sin theta`). -/
noncomputable def angPi (n : ℕ) (mu : ℝ) : ℝ := (derivative (legendre n)).eval mu

/-- The angular function `tau_n(theta) = d/dtheta (sin theta * P_n'(cos theta))`
(Bohren & Huffman Eq. 4.46: `dP_n^1/dtheta`). -/
noncomputable def angTau (n : ℕ) (theta : ℝ) : ℝ :=
  deriv (fun t => Real.sin t * angPi n (Real.cos t)) theta

end MieDiff.Spec
