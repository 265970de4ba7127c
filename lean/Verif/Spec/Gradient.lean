import Mathlib.Analysis.Calculus.FDeriv.Basic
import Mathlib.Analysis.Calculus.Gradient.Basic
import Mathlib.Analysis.Complex.Basic

/-!
# Convergence of values and gradients

What it means for approximations `f N` of `g` to be usable in gradient-based optimisation at the parameters `v0`.
-/

namespace MieDiff.Spec

open Filter Topology

variable {V W : Type*} [NormedAddCommGroup V] [NormedSpace ℝ V] [NormedAddCommGroup W] [NormedSpace ℝ W]

/-- The values converge, the derivatives exist and the derivative in every direction converges. -/
structure GradConv (f : ℕ → V → W) (g : V → W) (v0 : V) : Prop where
  value : Tendsto (fun N => f N v0) atTop (𝓝 (g v0))
  exists_approx : ∀ᶠ N in atTop, DifferentiableAt ℝ (f N) v0
  exists_exact : DifferentiableAt ℝ g v0
  grad : ∀ v, Tendsto (fun N => fderiv ℝ (f N) v0 v) atTop (𝓝 (fderiv ℝ g v0 v))

section

variable {V : Type*} [NormedAddCommGroup V] [InnerProductSpace ℝ V] [CompleteSpace V]

/-- What `y.backward(gradient=s)` has to leave in the parameters when `y` is the number `f v0`: the gradient of `re (conj s * f)`.
For `s = 1` and real `f` this is the gradient of `f`. -/
def Vjp (v0 : V) (b : ℂ → V) (f : V → ℂ) : Prop := ∀ s : ℂ, HasGradientAt (fun v => ((starRingEnd ℂ) s * f v).re) (b s) v0

end

end MieDiff.Spec
