import Verif.Model.Particle
import Verif.Model.BatchTorch

/-!
# Model of the `get_*` methods of `Particle` (main.py:270-423) with every backend

Each method evaluates the materials, calls the function of `multishell` and drops axes of length one.
-/

namespace MieDiff

/-- main.py:270-308 `get_mie_coefficients(k0, return_internal, backend=..., which_jn=..., n_max=...)`, the coefficients. -/
noncomputable def Particle.mieCoefficientsWith (A : BackendsOf ArrFns) (C : Casts) (p : Particle) (k0 : DTen ℝ) (h : Heap)
    (backend : String := "pena") (whichJn : String := "recurrence") (nMax : Option ℤ := none)
    (returnInternal : Bool := false) : Py ParticleCoeffs :=
  (p.layerArgs C k0 h).1 >>= fun args => (mieCoefficientsB A args backend whichJn nMax returnInternal).map fun o =>
    ⟨o.1.nMax, o.1.a.squeeze, o.1.bn.squeeze⟩

/-- main.py:310-342 `get_cross_sections(k0, backend=..., which_jn=..., n_max=...)`. -/
noncomputable def Particle.crossSectionsWith (A : BackendsOf ArrFns) (C : Casts) (p : Particle) (k0 : DTen ℝ) (h : Heap)
    (backend : String := "pena") (whichJn : String := "recurrence") (nMax : Option ℤ := none) : Py CrossT :=
  (p.layerArgs C k0 h).1 >>= fun args => (crossSectionsB A args backend whichJn nMax).map CrossT.squeeze

/-- main.py:344-383 `get_angular_scattering(k0, theta, backend=..., which_jn=..., n_max=...)`. -/
noncomputable def Particle.angularWith (A : BackendsOf ArrFns) (C : Casts) (p : Particle) (k0 : DTen ℝ) (theta : Ten ℝ) (h : Heap)
    (backend : String := "pena") (whichJn : String := "recurrence") (nMax : Option ℤ := none) : Py AngularT :=
  (p.layerArgs C k0 h).1 >>= fun args => (angularB A args theta backend whichJn nMax).map AngularT.squeeze

end MieDiff
