import Verif.Model.RoundedShell
import Verif.Spec.Rounding
import Verif.Spec.Bessel

/-!
# Spherical Bessel functions computed with error `u`

What is assumed of SciPy's functions: at every argument other than zero the absolute or the relative error is at most `u`.
-/

namespace MieDiff

open Spec

structure Arith.Bess.Within (S : Arith.Bess) (u : ℝ) : Prop where
  j : ∀ z ≠ 0, ∀ k, ‖S.jn z k - sphJ k z‖ ≤ u * (1 + ‖sphJ k z‖)
  y : ∀ z ≠ 0, ∀ k, ‖S.yn z k - sphY k z‖ ≤ u * (1 + ‖sphY k z‖)

end MieDiff
