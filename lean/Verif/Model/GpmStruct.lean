import Verif.Model.GpmExtract
import Verif.Model.Particle

/-!
# `StructAutodiffMieGPM3D`

The constructor of `helper/tg.py:925-1015`.  The extraction is a parameter, so that it can be any of the calls modelled in `Model/GpmExtract`; it may change the
caches of the materials.  Python runs the statements in order, so the particle is returned in the state it has when the constructor ends, with or
without an exception.
-/

namespace MieDiff

/-- Arguments of torchgdm's `StructGPM3D.__init__`; no environment is passed. Code: helper/tg.py:1015. -/
structure GpmInit (G : Type) where
  positions : Ten ℝ
  gpmDicts : List (GpmOut G)
  device : Device

/-- tg.py:893-901, 1004-1013: the position of the centre. -/
def gpmCenter : Option (Ten ℝ) → Py (Ten ℝ)
  | none => .ok (Ten.ofList 0 [0, 0, 0])
  | some r0 => do
    let r0 := r0.squeeze
    let n ← r0.len
    if n = 3 then .ok r0 else .error .assertionError

/-- tg.py:984-989: `mie_particle` on the device of the structure. -/
def gpmMove (p : Particle) (device : Option Device) (h : Heap) : Particle × Heap :=
  match device with
  | none => (p, h)
  | some d => p.setDevice d h

/-- tg.py:931-1015 `StructAutodiffMieGPM3D.__init__` for an argument of type `Particle` (the assertion of line 984 holds). -/
def gpmStructInit {G : Type} (extract : Particle → Heap → Py (GpmOut G) × Heap) (p : Particle) (r0 : Option (Ten ℝ))
    (device : Option Device) (h : Heap) : Py (GpmInit G) × Particle × Heap :=
  let (p, h) := gpmMove p device h
  match extract p h with
  | (.error e, h) => (.error e, p, h)
  | (.ok d, h) =>
    match gpmCenter r0 with
    | .error e => (.error e, p, h)
    | .ok c => (.ok { positions := c, gpmDicts := [d], device := p.dev }, p, h)

end MieDiff
