import Verif.Model.Gpm
import Mathlib.Data.Nat.Digits.Defs

/-!
# Model of `extract_GPM_sphere_miediff` (helper/tg.py:445-647) as a whole

`Verif/Model/Gpm.lean` has the fields for one wavenumber.  Here: the generated positions of the polarizabilities, the probe
positions, the loop over the wavelengths and the returned dictionary.  Not in /repo and therefore parameters: the solver
`extract_gpm_from_fields`, torchgdm's grid of positions on a sphere.  The sequence of scipy's `qmc.Halton` is modelled by its
definition (digits reversed at the point).  Messages and the dummy geometry (tg.py:614-626) are left out.
-/

namespace MieDiff

/-- One coordinate of scipy's Halton sequence: the digits of `k` in base `b` behind the point, in reversed order.
Code: helper/tg.py:532-533. -/
def vanDerCorput (b k : ℕ) : ℚ :=
  (Nat.digits b k).foldr (fun d x => (d + x) / b) 0

/-- `qmc.Halton(d=3, scramble=False).random(n)`: bases 2, 3, 5.  A negative number of points raises `ValueError`.
Code: helper/tg.py:532-533. -/
noncomputable def haltonPoints (n : ℤ) : Py (List (V3 ℝ)) :=
  if n < 0 then .error .valueError else
  .ok ((List.range n.toNat).map fun k => ⟨(vanDerCorput 2 k : ℝ), (vanDerCorput 3 k : ℝ), (vanDerCorput 5 k : ℝ)⟩)

/-- `np.max(np.linalg.norm(r, axis=1))`: `ValueError` without points. Code: helper/tg.py:534. -/
noncomputable def maxNorm (l : List (V3 ℝ)) : Py ℝ :=
  match l.map fun p => Real.sqrt (p.c0 ^ 2 + p.c1 ^ 2 + p.c2 ^ 2) with
  | [] => .error .valueError
  | x :: xs => .ok (xs.foldl max x)

/-- `np.mean(r, axis=0)`. Code: helper/tg.py:535. -/
noncomputable def centroid (l : List (V3 ℝ)) : V3 ℝ :=
  ⟨(l.map (·.c0)).sum / l.length, (l.map (·.c1)).sum / l.length, (l.map (·.c2)).sum / l.length⟩

/-- tg.py:529-536: `n` positions for a particle of radius `rEnc`. -/
noncomputable def gpmPoints (rEnc : ℝ) (n : ℤ) : Py (List (V3 ℝ)) := do
  let l ← haltonPoints n
  let m ← maxNorm l
  let l := l.map fun p => (⟨p.c0 / (m + 0.0001), p.c1 / (m + 0.0001), p.c2 / (m + 0.0001)⟩ : V3 ℝ)
  let c := centroid l
  let l := l.map fun p => (⟨p.c0 - c.c0, p.c1 - c.c1, p.c2 - c.c2⟩ : V3 ℝ)
  let f := 0.65 * (rEnc * 2)
  .ok (l.map fun p => ⟨p.c0 * f, p.c1 * f, p.c2 * f⟩)

/-- The argument `r_gpm`. Code: helper/tg.py:448, 525-528. -/
inductive GpmArg
  | none
  | int (n : ℤ)
  | float (x : ℝ)
  | tensor (t : Ten ℝ)

/-- `int(x)` of a python float. Code: helper/tg.py:531. -/
noncomputable def pyInt (x : ℝ) : ℤ := if 0 ≤ x then ⌊x⌋ else ⌈x⌉

/-- Rows of an array of positions. Code: helper/tg.py:547. -/
def positionsTen (l : List (V3 ℝ)) : Ten ℝ :=
  ⟨[l.length, 3], fun idx =>
    let p := l.getD (idx.getD 0 0) ⟨0, 0, 0⟩
    match idx.getD 1 0 with
    | 0 => p.c0
    | 1 => p.c1
    | _ => p.c2⟩

/-- tg.py:525-536, 547: the positions of the polarizabilities. -/
noncomputable def gpmPositions (rEnc : ℝ) (a : GpmArg) : Py (Ten ℝ) :=
  match a with
  | .none => (gpmPoints rEnc 36).map positionsTen
  | .int n => (gpmPoints rEnc n).map positionsTen
  | .float x => (gpmPoints rEnc (pyInt x)).map positionsTen
  | .tensor t => .ok t

/-- What torchgdm's `extract_gpm_from_fields` is called with. Code: helper/tg.py:597-610. -/
structure GpmTask where
  wavelength : Ten ℝ
  fields : IncT
  rProbe : Ten ℝ
  rGpm : Ten ℝ
  /-- permittivity of `env_3d` -/
  env : ℝ

/-- The returned dictionary; `gpm` are the matrices stacked in `GPM_N6xN6`. Code: helper/tg.py:630-643. -/
structure GpmOut (G : Type) where
  rGpm : Ten ℝ
  gpm : List G
  wl : Ten ℝ
  nDp : ℕ
  rEnc : ℝ
  k0 : Ten ℝ
  env : ℝ
  rProbe : Ten ℝ

/-- tg.py:94-112 `_get_env_eps`: the permittivity of the environment, with at least one axis. -/
def getEnvEps (env : Ten ℝ → Py (Ten ℂ)) (wl : Ten ℝ) : Py (Ten ℂ) := do
  let e ← env wl
  .ok e.atleast1

/-- tg.py:445-647 `extract_GPM_sphere_miediff`.  `env` is `mie_particle.mat_env.get_epsilon`; `nf i k0 j` is the `j`-th call of
`mie_particle.get_nearfields` for the `i`-th wavelength; `solve` is torchgdm's `extract_gpm_from_fields`; `sphere` is torchgdm's
`coordinate_map_2d_spherical`. -/
noncomputable def extractGpm {G : Type} (env : Ten ℝ → Py (Ten ℂ)) (nf : ℕ → Ten ℝ → ℕ → Ten ℝ → Py FieldsT)
    (solve : GpmTask → Py G) (sphere : ℝ → Ten ℝ) (rLayers : List ℝ) (wl : Ten ℝ) (rGpm : GpmArg) (rProbe : Option (Ten ℝ) := none)
    (nAngles : ℤ := 12) (rProbeAdd : ℝ := 20) (nEnv : Option ℝ := none) : Py (GpmOut G) := do
  let wl := wl.atleast1
  let k0 := wl.map fun w => 2 * Real.pi / w
  let eps ← getEnvEps env wl
  let eps ← envCheck eps nEnv
  let e0 ← eps.select 0 0
  let epsEnv := (e0.get []).re
  let rEnc ← enclosingRadius rLayers
  let rg ← gpmPositions rEnc rGpm
  let rp := rProbe.getD (sphere (rEnc + rProbeAdd))
  let confs ← setupPlaneWaves nAngles ["xz", "yz", "xy"]
  let gs ← (List.range (k0.shape.headD 0)).mapM fun i => do
    let k ← k0.select 0 i
    let fields ← gpmArraysT (nf i k) confs rp rg
    solve { wavelength := k.map fun x => 2 * Real.pi / x, fields := fields, rProbe := rp, rGpm := rg, env := epsEnv }
  if gs.isEmpty then .error .runtimeError else
  let nDp ← rg.len
  .ok { rGpm := rg, gpm := gs, wl := wl, nDp := nDp, rEnc := rEnc, k0 := k0, env := epsEnv, rProbe := rp }

end MieDiff
