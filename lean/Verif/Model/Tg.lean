import Verif.Model.Particle
import Verif.Model.Pipeline
import Mathlib.LinearAlgebra.CrossProduct
import Mathlib.LinearAlgebra.Matrix.Notation
import Mathlib.Data.Finset.Lattice.Fold

/-!
# Model of `helper/tg.py`: coupling to torchGDM

torchGDM itself (`extract_gpm_from_fields`, `StructGPM3D`, `EnvHomogeneous3D`) is not part of the repository; its objects
are opaque type parameters here.
-/

namespace MieDiff

open Matrix

/-- A 3x3 real tensor. Code: helper/tg.py:217-298. -/
abbrev Mat3 := Matrix (Fin 3) (Fin 3) ℝ

/-! ## Rotations -/

/-- tg.py:217-242 `rotation_x`. -/
noncomputable def rotationX (alpha : ℝ) : Mat3 :=
  let s := Real.sin alpha
  let c := Real.cos alpha
  !![1, 0, 0; 0, c, -s; 0, s, c]

/-- tg.py:245-270 `rotation_y`. -/
noncomputable def rotationY (alpha : ℝ) : Mat3 :=
  let s := Real.sin alpha
  let c := Real.cos alpha
  !![c, 0, s; 0, 1, 0; -s, 0, c]

/-- tg.py:273-298 `rotation_z`. -/
noncomputable def rotationZ (alpha : ℝ) : Mat3 :=
  let s := Real.sin alpha
  let c := Real.cos alpha
  !![c, -s, 0; s, c, 0; 0, 0, 1]

/-! ## Illuminations -/

/-- One entry of the list of illuminations (tg.py:321-323). -/
structure IncConf where
  angle : ℝ
  plane : String
  pol : String

/-- `torch.linspace(a, b, n)`: `RuntimeError` for a negative number of steps, the start value alone for one step.
Code: helper/tg.py:318. -/
noncomputable def linspace (a b : ℝ) (n : ℤ) : Py (List ℝ) :=
  if n < 0 then .error .runtimeError
  else .ok ((List.range n.toNat).map fun (i : ℕ) => a + (i : ℝ) * ((b - a) / ((n : ℝ) - 1)))

/-- tg.py:301-324 `setup_plane_waves_configs`. -/
noncomputable def setupPlaneWaves (nAngles : ℤ) (planes : List String) : Py (List IncConf) := do
  let angles ← linspace 0 (2 * Real.pi) (nAngles + 1)
  .ok (angles.dropLast.flatMap fun angle => planes.flatMap fun inc => ["s", "p"].map fun pol => ⟨angle, inc, pol⟩)

/-- tg.py:332-363: direction and polarization `(k_dir, e_dir)` of a requested wave. -/
noncomputable def waveDirs (angle : ℝ) (plane pol : String) : Py ((Fin 3 → ℝ) × (Fin 3 → ℝ)) :=
  let s := Real.sin angle
  let c := Real.cos angle
  if plane = "yz" then
    if pol = "s" then .ok (![0, s, c], ![1, 0, 0])
    else if pol = "p" then .ok (![0, s, c], ![0, -c, s])
    else .error .valueError
  else if plane = "xz" then
    if pol = "s" then .ok (![s, 0, c], ![0, 1, 0])
    else if pol = "p" then .ok (![s, 0, c], ![-c, 0, s])
    else .error .valueError
  else if plane = "xy" then
    if pol = "s" then .ok (![s, c, 0], ![0, 0, 1])
    else if pol = "p" then .ok (![s, c, 0], ![-c, s, 0])
    else .error .valueError
  else .error .valueError

/-- `torch.linalg.norm` of a vector. Code: helper/tg.py:365-368. -/
noncomputable def vecNorm (v : Fin 3 → ℝ) : ℝ := Real.sqrt (v 0 ^ 2 + v 1 ^ 2 + v 2 ^ 2)

/-- tg.py:365-370: the matrix with columns `e`, `h`, `k`. -/
noncomputable def frameOf (kDir eDir : Fin 3 → ℝ) : Mat3 :=
  let e := (vecNorm eDir)⁻¹ • eDir
  let k := (vecNorm kDir)⁻¹ • kDir
  let h := -(e ⨯₃ k)
  let h := (vecNorm h)⁻¹ • h
  (Matrix.of ![e, h, k])ᵀ

/-- tg.py:326-370 `_plane_wave_rotation`. -/
noncomputable def planeWaveRotation (angle : ℝ) (plane pol : String) : Py Mat3 := do
  let (kDir, eDir) ← waveDirs angle plane pol
  .ok (frameOf kDir eDir)

/-! ## Field evaluation -/

/-- `torch.matmul(r, rot)` for one position. Code: helper/tg.py:412-413. -/
def rotPoint (R : Mat3) (r : V3 ℝ) : V3 ℝ :=
  let v := ![r.c0, r.c1, r.c2] ᵥ* R
  ⟨v 0, v 1, v 2⟩

/-- `torch.matmul(field, rot.T.to(complex))` for one field vector (tg.py:430-435). -/
def rotFieldBack (R : Mat3) (F : V3 ℂ) : V3 ℂ :=
  let v := ![F.c0, F.c1, F.c2] ᵥ* (Rᵀ.map fun x => (x : ℂ))
  ⟨v 0, v 1, v 2⟩

/-- The four fields of one illumination (tg.py:437-442): scattered at the probe positions, incident at the positions of
the polarizabilities. -/
structure IncFields where
  eSca : List (V3 ℂ)
  hSca : List (V3 ℂ)
  eInc : List (V3 ℂ)
  hInc : List (V3 ℂ)

/-- tg.py:374-442 `_eval_mie`; `near` is `mie_particle.get_nearfields` at one position, for the wavenumber, order and
backend passed on. -/
noncomputable def evalMie (near : V3 ℝ → Py Fields) (conf : IncConf) (rProbe rGpm : List (V3 ℝ)) : Py IncFields := do
  let rot ← planeWaveRotation conf.angle conf.plane conf.pol
  let sca ← (rProbe.map (rotPoint rot)).mapM near
  let inc ← (rGpm.map (rotPoint rot)).mapM near
  .ok { eSca := sca.map fun F => rotFieldBack rot F.Es
        hSca := sca.map fun F => rotFieldBack rot F.Hs
        eInc := inc.map fun F => rotFieldBack rot F.Ei
        hInc := inc.map fun F => rotFieldBack rot F.Hi }

/-- `get_nearfields` (main.py:385-423) at one position and one wavenumber with the pena backend (`E_0 = 1`,
multishell.py:1003): coefficients first, then the fields. -/
noncomputable def nearPena (K : D1Kernel) (B : Backends) (p : Particle1) (nMax : Option ℤ) (r : V3 ℝ) : Py Fields := do
  let o ← mieCoefficients K B p "pena" "recurrence" nMax
  nearfieldsPena K p.k0 p.rLayers p.epsLayers p.epsEnv 1 o.a o.b r

/-! ## Normalisation of the fields -/

/-- `torch.abs(field).max()`: `RuntimeError` for an empty tensor. Code: helper/tg.py:588. -/
noncomputable def absMax (l : List (V3 ℂ)) : Py ℝ :=
  match l.flatMap fun v => [‖v.c0‖, ‖v.c1‖, ‖v.c2‖] with
  | [] => .error .runtimeError
  | x :: xs => .ok (xs.foldl max x)

/-- tg.py:588-589: the number one illumination is divided by. -/
noncomputable def incNorm (f : IncFields) : Py ℝ := do
  let a ← absMax f.eSca
  let b ← absMax f.hSca
  let c ← absMax f.eInc
  let d ← absMax f.hInc
  .ok (max (max (max (max a b) c) d) 1e-30)

/-- `field / norm`. Code: helper/tg.py:591-594. -/
noncomputable def divField (c : ℝ) (l : List (V3 ℂ)) : List (V3 ℂ) :=
  l.map fun v => ⟨v.c0 / (c : ℂ), v.c1 / (c : ℂ), v.c2 / (c : ℂ)⟩

/-- tg.py:588-594 for one illumination. -/
noncomputable def normalise (f : IncFields) : Py IncFields := do
  let c ← incNorm f
  .ok ⟨divField c f.eSca, divField c f.hSca, divField c f.eInc, divField c f.hInc⟩

/-- tg.py:558-594: the fields handed to `extract_gpm_from_fields` for one wavenumber. -/
noncomputable def gpmFields (near : V3 ℝ → Py Fields) (confs : List IncConf) (rProbe rGpm : List (V3 ℝ)) :
    Py (List IncFields) := do
  let fs ← confs.mapM fun c => evalMie near c rProbe rGpm
  fs.mapM normalise

/-! ## Backend, radius, environment -/

/-- tg.py:70-91 `_resolve_mie_backend`; `_use_layers` is set to `True` by every constructed particle (main.py:116). -/
def resolveBackend (nLayers : ℕ) (backend : Option String) : String :=
  match backend with
  | some b => b
  | none => if nLayers > 2 then "pena" else "torch"

/-- tg.py:115-132 `_get_enclosing_radius`: `r_layers[-1]`. -/
def enclosingRadius (r : List ℝ) : Py ℝ :=
  match r.getLast? with
  | some v => .ok v
  | none => .error .indexError

open Classical in
/-- tg.py:178-183, 509-514: checks on the environment.  `eps` is the value of `_get_env_eps`, `nEnv` the optional python
number; the result is the permittivity used from then on.  `float(eps_env[0].real)` on a python number raises
`TypeError`. -/
noncomputable def envCheck (eps : Ten ℂ) (nEnv : Option ℝ) : Py (Ten ℂ) := do
  let e0 ← eps.select 0 0
  if ¬∀ v ∈ eps.entries, v = e0.get [] then .error .assertionError else
  match nEnv with
  | none => .ok eps
  | some n => if e0.get [] ≠ ((n ^ 2 : ℝ) : ℂ) then .error .assertionError else .error .typeError

/-- `t.moveaxis(0, 1)`. Code: helper/tg.py:196-197. -/
def Ten.moveaxis01 {α : Type} (t : Ten α) : Py (Ten α) :=
  match t.shape with
  | a :: b :: s => .ok ⟨b :: a :: s, fun idx =>
      match idx with
      | i :: j :: r => t.get (j :: i :: r)
      | r => t.get r⟩
  | _ => .error .indexError

/-- tg.py:188-197: a squeezed coefficient tensor brought to `(wavelength, order)`. -/
def orderLast (t : Ten ℂ) : Py (Ten ℂ) :=
  (if t.ndim = 1 then t.unsqueeze 1 else t).moveaxis01

/-- Result of `mie_ab_sphere_3d_AD(as_dict=True)` (tg.py:203-211); `envEps` is the permittivity of the `EnvHomogeneous3D` object (tg.py:183). -/
structure AbOut where
  a : Ten ℂ
  b : Ten ℂ
  nEnv : Ten ℂ
  rEnc : ℝ
  wl : Ten ℝ
  envEps : ℝ

/-- tg.py:136-213 `mie_ab_sphere_3d_AD`.  `coef` is `mie_particle.get_mie_coefficients`, `env` is
`mie_particle.mat_env.get_epsilon`. -/
noncomputable def mieAbSphere (coef : Ten ℝ → ℤ → Py (Ten ℂ × Ten ℂ)) (env : Ten ℝ → Py (Ten ℂ)) (rLayers : List ℝ)
    (wl : Ten ℝ) (nEnv : Option ℝ := none) (nMax : ℤ := 2) : Py AbOut := do
  let wl := wl.atleast1
  let k0 := wl.map fun w => 2 * Real.pi / w
  let eps ← env wl
  let eps ← envCheck eps.atleast1 nEnv
  let e0 ← eps.select 0 0
  let ab ← coef k0 nMax
  let a ← orderLast ab.1
  let b ← orderLast ab.2
  let r ← enclosingRadius rLayers
  .ok { a := a, b := b, nEnv := eps.map csqrt, rEnc := r, wl := wl, envEps := (e0.get []).re }

/-! ## Effective polarizability -/

/-- tg.py:886-891: the `(N_wavelength, 6, 6)` polarizability from one vector of electric and one of magnetic values. -/
noncomputable def blockAlpha (nWl : ℕ) (aE aH : Ten ℂ) : Py (Ten ℂ) := do
  let e ← Ten.broadcastTo (aE.unsqueeze 1) [nWl, 3]
  let h ← Ten.broadcastTo (aH.unsqueeze 1) [nWl, 3]
  .ok ⟨[nWl, 6, 6], fun idx =>
    let i := idx.getD 0 0
    let r := idx.getD 1 0
    let c := idx.getD 2 0
    (if r = c ∧ r < 3 then e.get [i, r] else 0) + (if r = c ∧ 3 ≤ r then h.get [i, r - 3] else 0)⟩

/-- `1j * 3 / 2 * c[:, 0] / k0**3 / n_env**p` (tg.py:883-884). -/
noncomputable def polaOf (c : Ten ℂ) (k0 : Ten ℝ) (nEnv : Ten ℂ) (p : ℕ) : Py (Ten ℂ) := do
  let c0 ← c.select 1 0
  let x ← Ten.op2 (fun (v : ℂ) (k : ℝ) => Complex.I * 3 / 2 * v / (k : ℂ) ^ 3) c0 k0
  Ten.op2 (fun (v n : ℂ) => v / n ^ p) x nEnv

/-- tg.py:830-891, `StructAutodiffMieEffPola3D.__init__`: the polarizability tensor.  The warnings about residual
quadrupoles (tg.py:858-879) only read `a_n[:, 1]` and `b_n[:, 1]`. -/
noncomputable def effPola (coef : Ten ℝ → ℤ → Py (Ten ℂ × Ten ℂ)) (env : Ten ℝ → Py (Ten ℂ)) (rLayers : List ℝ)
    (wl : Ten ℝ) (nEnv : Option ℝ := none) : Py (Ten ℂ) := do
  let wl := wl.atleast1
  let k0 := wl.map fun w => 2 * Real.pi / w
  let o ← mieAbSphere coef env rLayers wl nEnv
  let _ ← o.a.select 1 1
  let _ ← o.b.select 1 1
  let aE ← polaOf o.a k0 o.nEnv 1
  let aH ← polaOf o.b k0 o.nEnv 3
  blockAlpha (wl.shape.headD 0) aE aH

/-! ## Combining structures -/

/-- What `combine_gpm_structures_autodiff` reads from a structure; `gpm` is a list of dictionaries or one dictionary.
Code: helper/tg.py:661-674. -/
structure GpmStruct (D Env Dev : Type) where
  r0 : V3 ℝ
  gpm : List D ⊕ D
  environment : Env
  device : Dev

/-- Arguments handed to `StructGPM3D` (tg.py:676-681). -/
structure GpmArgs (D Env Dev : Type) where
  positions : List (V3 ℝ)
  gpmDicts : List D
  environment : Env
  device : Dev

/-- tg.py:664-669: the dictionary of one structure. -/
def singleGpm {D : Type} : List D ⊕ D → Py D
  | .inl [d] => .ok d
  | .inl _ => .error .valueError
  | .inr d => .ok d

/-- tg.py:650-681 `combine_gpm_structures_autodiff`. -/
def combineGpm {D Env Dev : Type} (ss : List (GpmStruct D Env Dev)) (environment : Option Env) (device : Option Dev) :
    Py (GpmArgs D Env Dev) :=
  match ss with
  | [] => .error .valueError
  | s :: _ => do
    let ds ← ss.mapM fun s => singleGpm s.gpm
    .ok { positions := ss.map (·.r0), gpmDicts := ds
          environment := environment.getD s.environment, device := device.getD s.device }

end MieDiff
