import Mathlib.Analysis.SpecialFunctions.Trigonometric.Deriv
import Mathlib.Analysis.Calculus.Deriv.Basic

/-!
# Specification: spherical Bessel functions by Rayleigh's formula

`f_n(z) = z^n (-(1/z) d/dz)^n f_0(z)` with `j_0 = sin z / z`, `y_0 = -cos z / z` (DLMF 10.49.14-15),
meaningful for `z ≠ 0`.
-/

namespace MieDiff.Spec

open Complex

/-- The operator `-(1/w) d/dw`. -/
noncomputable def rayleighOp (g : ℂ → ℂ) : ℂ → ℂ := fun w => -(deriv g w) / w

/-- `z^n (-(1/z) d/dz)^n f`. -/
noncomputable def rayleigh (f : ℂ → ℂ) (n : ℕ) (z : ℂ) : ℂ := z ^ n * (rayleighOp^[n] f) z

/-- Spherical Bessel function of the first kind. -/
noncomputable def sphJ (n : ℕ) (z : ℂ) : ℂ := rayleigh (fun w => sin w / w) n z

/-- Spherical Bessel function of the second kind. -/
noncomputable def sphY (n : ℕ) (z : ℂ) : ℂ := rayleigh (fun w => -cos w / w) n z

/-- Spherical Hankel function of the first kind. -/
noncomputable def sphH (n : ℕ) (z : ℂ) : ℂ := sphJ n z + I * sphY n z

/-- Riccati-Bessel functions. -/
noncomputable def ricPsi (n : ℕ) (z : ℂ) : ℂ := z * sphJ n z
noncomputable def ricChi (n : ℕ) (z : ℂ) : ℂ := -z * sphY n z
noncomputable def ricZeta (n : ℕ) (z : ℂ) : ℂ := z * sphH n z

/-- Logarithmic derivatives `psi_n'/psi_n` and `zeta_n'/zeta_n`. -/
noncomputable def logD1 (n : ℕ) (z : ℂ) : ℂ := deriv (ricPsi n) z / ricPsi n z
noncomputable def logD3 (n : ℕ) (z : ℂ) : ℂ := deriv (ricZeta n) z / ricZeta n z

end MieDiff.Spec
