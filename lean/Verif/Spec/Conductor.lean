import Verif.Spec.Interface

/-!
# Specification: the perfectly conducting sphere

The tangential electric field vanishes on the surface of a perfect conductor.  For a wave `psi_n - a zeta_n` outside a sphere of
size parameter `x` it is proportional to the derivative for the electric multipoles and to the value for the magnetic ones
(Bohren & Huffman, section 4.4.5; the fields inside the sphere do not appear).  This file does not use the model.
-/

namespace MieDiff.Spec

/-- `a` is the scattering coefficient of order `n` of a perfectly conducting sphere. -/
def ConductorSolves (q : Pol) (n : ℕ) (x a : ℂ) : Prop :=
  match q with
  | .tm => (⟨1, a⟩ : Wave).der n x = 0
  | .te => (⟨1, a⟩ : Wave).val n x = 0

end MieDiff.Spec
