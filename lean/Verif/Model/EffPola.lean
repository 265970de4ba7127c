import Verif.Model.GpmStruct
import Verif.Model.Tg

/-!
# `StructAutodiffMieEffPola3D`

The constructor of `helper/tg.py:776-923` with its warnings.  The polarizability alone is `effPola` in `Model/Tg`.  A warning is recorded when
`warnings.warn` is called; whether python prints it depends on the filters of the user.  The printed text rounds the wavelengths, the model keeps them.
-/

namespace MieDiff

/-- Which of the two warnings. Code: helper/tg.py:866, 877. -/
inductive Quad
  | electric
  | magnetic
  deriving DecidableEq

/-- One call of `warnings.warn`, with the wavelengths named in its text. Code: helper/tg.py:864-868, 875-879. -/
structure QuadWarning where
  kind : Quad
  wls : List ℝ

/-- The dictionary handed to torchgdm; the environment is given by its permittivity. Code: helper/tg.py:904-913. -/
structure PolaDict where
  r0 : Ten ℝ
  r0MD : Ten ℝ
  r0ED : Ten ℝ
  alpha : Ten ℂ
  wl : Ten ℝ
  rEnc : ℝ
  k0 : Ten ℝ
  envEps : ℝ

/-- Arguments of torchgdm's `StructEffPola3D.__init__`. Code: helper/tg.py:916-920. -/
structure PolaInit where
  positions : Ten ℝ
  alphaDicts : List PolaDict
  device : Device

open Classical in
/-- tg.py:859-862, 870-873: `wavelengths[c[:, 1].abs() > quadrupol_tol]` for wavelengths on one axis; torch refuses a mask of another length. -/
noncomputable def overTol (wl : Ten ℝ) (c : Ten ℂ) (tol : ℝ) : Py (List ℝ) := do
  let q ← c.select 1 1
  if q.shape ≠ wl.shape then .error .indexError else
  .ok (((List.range (wl.shape.headD 0)).filter fun j => decide (tol < ‖q.get [j]‖)).map fun j => wl.get [j])

/-- tg.py:863-868, 874-879: `if len(wls_violation) > 0: warnings.warn(...)`. -/
def warnQuad (kind : Quad) (wls : List ℝ) : List QuadWarning :=
  if wls.length > 0 then [⟨kind, wls⟩] else []

/-- tg.py:883-920: polarizability, centre and dictionary. -/
noncomputable def effPolaDict (o : AbOut) (wl k0 : Ten ℝ) (r0 : Option (Ten ℝ)) (dev : Device) : Py PolaInit := do
  let aE ← polaOf o.a k0 o.nEnv 1
  let aH ← polaOf o.b k0 o.nEnv 3
  let alpha ← blockAlpha (wl.shape.headD 0) aE aH
  let c ← gpmCenter r0
  .ok { positions := c, device := dev, alphaDicts := [{ r0 := c, r0MD := c, r0ED := c, alpha := alpha, wl := wl, rEnc := o.rEnc, k0 := k0, envEps := o.envEps }] }

/-- tg.py:776-923 `StructAutodiffMieEffPola3D.__init__` for an argument of type `Particle` with radii `rs` on the device `dev`: the arguments of the base class
constructor or an exception, and the warnings given until then. -/
noncomputable def effPolaInit (coef : Ten ℝ → ℤ → Py (Ten ℂ × Ten ℂ)) (env : Ten ℝ → Py (Ten ℂ)) (rs : List ℝ) (dev : Device) (wl : Ten ℝ)
    (nEnv : Option ℝ) (r0 : Option (Ten ℝ)) (tol : ℝ) : Py PolaInit × List QuadWarning :=
  let wl := wl.atleast1
  let k0 := wl.map fun w => 2 * Real.pi / w
  match mieAbSphere coef env rs wl nEnv with
  | .error e => (.error e, [])
  | .ok o =>
    match overTol wl o.a tol with
    | .error e => (.error e, [])
    | .ok va =>
      match overTol wl o.b tol with
      | .error e => (.error e, warnQuad .electric va)
      | .ok vb => (effPolaDict o wl k0 r0 dev, warnQuad .electric va ++ warnQuad .magnetic vb)

end MieDiff
