import Verif.Model.Materials
import Verif.Model.Batch

/-!
# Model of `src/pymiediff/main.py`: `Particle`

Material objects live in a heap and are shared by reference.  Every operation returns the heap as well, because exceptions
leave the changes made so far.  Sharing of tensor memory between radii, permittivities and the caller is not modelled.
-/

namespace MieDiff

open Complex

/-! ## Material objects -/

/-- A material object. Code: materials/mat.py:162, 218. -/
inductive MatObj
  | const (c : MatConst)
  | db (d : MatDb)

/-- `mat.set_device(device)`. Code: materials/mat.py:193-195, 350-357. -/
def MatObj.setDevice (o : MatObj) (device : Device) : MatObj :=
  match o with
  | .const c => .const (c.setDevice device)
  | .db d => .db (d.setDevice device)

/-- `mat.get_epsilon(wavelength)`, with the object afterwards. Code: materials/mat.py:197-214, 399-417. -/
noncomputable def MatObj.getEpsilon (C : Casts) (o : MatObj) (wl : DTen ℝ) : Py (DTen ℂ) × MatObj :=
  match o with
  | .const c => (.ok (c.getEpsilon wl), .const c)
  | .db d => ((d.getEpsilon C wl).1, .db (d.getEpsilon C wl).2)

/-- All material objects; the position is the identity of the object.
Code: the objects that `self.mat_layers`, `self.mat_env` of main.py:154-183 refer to. -/
abbrev Heap := List MatObj

/-- A material argument: Python or numpy number (`float`, `int`, `complex`, `np.float32`, `np.float64`), tensor, material
object, or anything else (without a `set_device` method). Code: main.py:121-126. -/
inductive MatArg
  | num (n : ℂ)
  | tensor (t : Ten ℂ) (leaves : List ℕ)
  | obj (id : ℕ)
  | other

/-- mat.py:168-184 `MatConstant.__init__` for a tensor: the display name needs the value of a 0-dimensional tensor
(`RuntimeError` from `bool()` unless there is one element, `TypeError` from `format` if it has axes). -/
noncomputable def MatConst.ofTen (C : Casts) (t : Ten ℂ) (leaves : List ℕ) (dev : Device) : Py MatConst :=
  if t.numel ≠ 1 then .error .runtimeError
  else if t.shape ≠ [] then .error .typeError
  else .ok ⟨C.c64 (t.get []), dev, dev, leaves⟩

/-- main.py:121-126 `_as_material`. -/
noncomputable def asMaterial (C : Casts) (dev : Device) (arg : MatArg) (h : Heap) : Py ℕ × Heap :=
  match arg with
  | .num n => (.ok h.length, h ++ [.const ⟨C.c64 (n ^ 2), dev, dev, []⟩])
  | .tensor t leaves =>
    match MatConst.ofTen C (t.map fun z => z ^ 2) leaves dev with
    | .error e => (.error e, h)
    | .ok c => (.ok h.length, h ++ [.const c])
  | .obj id => if id < h.length then (.ok id, h.modify id fun o => o.setDevice dev) else (.error .attributeError, h)
  | .other => (.error .attributeError, h)

/-- `[_as_material(mat) for mat in mats]`. Code: main.py:154. -/
noncomputable def asMaterials (C : Casts) (dev : Device) : List MatArg → Heap → Py (List ℕ) × Heap
  | [], h => (.ok [], h)
  | m :: ms, h =>
    match asMaterial C dev m h with
    | (.error e, h') => (.error e, h')
    | (.ok id, h') =>
      match asMaterials C dev ms h' with
      | (.error e, h'') => (.error e, h'')
      | (.ok ids, h'') => (.ok (id :: ids), h'')

/-! ## Constructor -/

/-- Arguments of `Particle(...)` (main.py:47-58); `None` is `none`. -/
structure ParticleArgs where
  rLayers : Option (Ten ℝ) := none
  epsLayers : Option (Ten ℂ) := none
  matLayers : Option (List MatArg) := none
  matEnv : MatArg := .num 1
  device : Option Device := none
  rCore : Option (Ten ℝ) := none
  matCore : Option MatArg := none
  rShell : Option (Ten ℝ) := none
  matShell : Option MatArg := none

/-- Attributes of a particle; `rDev`, `epsDev` are the devices of `r_layers`, `eps_layers`. Code: main.py:115-198. -/
structure Particle where
  dev : Device
  rLayers : Ten ℝ
  rDev : Device
  epsLayers : Option (Ten ℂ)
  epsDev : Device
  mats : Option (List ℕ)
  env : ℕ

/-- main.py:115. -/
def ParticleArgs.dev (a : ParticleArgs) : Device := a.device.getD "cpu"

/-- main.py:129. -/
def ParticleArgs.usesLayers (a : ParticleArgs) : Bool := a.rLayers.isSome || a.epsLayers.isSome || a.matLayers.isSome

/-- main.py:131. -/
def ParticleArgs.usesLegacy (a : ParticleArgs) : Bool :=
  a.rCore.isSome || a.matCore.isSome || a.rShell.isSome || a.matShell.isSome

/-- main.py:130-154: the checks of the multilayer mode, giving the radii. -/
def layerChecks (a : ParticleArgs) : Py (Ten ℝ) :=
  if a.usesLegacy then .error .valueError else
  match a.rLayers with
  | none => .error .valueError
  | some r =>
    if a.epsLayers.isSome && a.matLayers.isSome then .error .valueError
    else if a.epsLayers.isNone && a.matLayers.isNone then .error .valueError
    else if r.ndim ≠ 1 then .error .valueError
    else if r.numel < 1 then .error .valueError
    else match a.matLayers with
      | some ms => if ms.length ≠ r.numel then .error .valueError else .ok r
      | none => .ok r

/-- main.py:156-164: the presence checks of the legacy mode, giving core and optional shell. -/
def legacyChecks (a : ParticleArgs) : Py ((Ten ℝ × MatArg) × Option (Ten ℝ × MatArg)) :=
  match a.rCore, a.matCore with
  | some rc, some mc =>
    match a.rShell, a.matShell with
    | none, none => .ok ((rc, mc), none)
    | some rs, some ms => .ok ((rc, mc), some (rs, ms))
    | _, _ => .error .valueError
  | _, _ => .error .valueError

/-- main.py:166-175: radii of the legacy mode. -/
def legacyRadii (rc : Ten ℝ) (shell : Option (Ten ℝ × MatArg)) : Py (Ten ℝ) :=
  match shell with
  | none => .ok (rc.unsqueeze 0)
  | some s => Ten.stack2 rc s.1 0

/-- main.py:180. -/
def radiiIncreasing (r : Ten ℝ) : Prop := ∀ i, i + 1 < r.numel → r.get [i] < r.get [i + 1]

/-- The attributes set by the constructor. Code: main.py:143-198. -/
def ParticleArgs.build (a : ParticleArgs) (r : Ten ℝ) (mats : Option (List ℕ)) (env : ℕ) : Particle :=
  { dev := a.dev, rLayers := r, rDev := a.dev, epsLayers := a.epsLayers, epsDev := a.dev, mats := mats, env := env }

/-- main.py:183: the environment is converted last. -/
noncomputable def finishParticle (C : Casts) (a : ParticleArgs) (r : Ten ℝ) (mats : Option (List ℕ)) (h : Heap) :
    Py Particle × Heap :=
  match asMaterial C a.dev a.matEnv h with
  | (.error e, h') => (.error e, h')
  | (.ok id, h') =>
    (.ok (a.build r mats id), h')

open Classical in
/-- main.py:47-198 `Particle.__init__`. -/
noncomputable def Particle.init (C : Casts) (a : ParticleArgs) (h : Heap) : Py Particle × Heap :=
  if a.usesLayers then
    match layerChecks a with
    | .error e => (.error e, h)
    | .ok r =>
      match a.matLayers with
      | none => finishParticle C a r none h
      | some ms =>
        match asMaterials C a.dev ms h with
        | (.error e, h') => (.error e, h')
        | (.ok ids, h') => finishParticle C a r (some ids) h'
  else
    match legacyChecks a with
    | .error e => (.error e, h)
    | .ok (core, shell) =>
      match legacyRadii core.1 shell with
      | .error e => (.error e, h)
      | .ok r =>
        match asMaterials C a.dev (core.2 :: (shell.map (·.2)).toList) h with
        | (.error e, h') => (.error e, h')
        | (.ok ids, h') =>
          if r.ndim ≠ 1 then (.error .valueError, h')
          else if ¬ radiiIncreasing r then (.error .valueError, h')
          else finishParticle C a r (some ids) h'

/-- Material objects of a particle. Code: main.py:213-216. -/
def Particle.ids (p : Particle) : List ℕ := p.mats.getD [] ++ [p.env]

/-- main.py:200-226 `Particle.set_device`. -/
def Particle.setDevice (p : Particle) (device : Device) (h : Heap) : Particle × Heap :=
  ({ p with dev := device, rDev := device, epsDev := device },
    p.ids.foldl (fun h id => h.modify id fun o => o.setDevice device) h)

/-! ## Permittivities -/

/-- `torch.stack(l, dim=0)`: `RuntimeError` for an empty list, different shapes or devices. Code: main.py:264. -/
def stackDTen (l : List (DTen ℂ)) : Py (DTen ℂ) :=
  match l with
  | [] => .error .runtimeError
  | t :: ts =>
    if ts.all (fun u => u.ten.shape = t.ten.shape ∧ u.dev = t.dev) then
      .ok ⟨Ten.stackList 0 t.ten.shape (l.map fun u => u.ten.get), t.dev, l.flatMap (·.leaves)⟩
    else .error .runtimeError

/-- `mat.get_epsilon` on an object of the heap. Code: main.py:260, 265. -/
noncomputable def heapEpsilon (C : Casts) (wl : DTen ℝ) (id : ℕ) (h : Heap) : Py (DTen ℂ) × Heap :=
  match h[id]? with
  | none => (.error .attributeError, h)
  | some o => ((o.getEpsilon C wl).1, h.set id (o.getEpsilon C wl).2)

/-- `[mat.get_epsilon(wavelength=wl0) for mat in self.mat_layers]`. Code: main.py:265. -/
noncomputable def heapEpsilons (C : Casts) (wl : DTen ℝ) : List ℕ → Heap → Py (List (DTen ℂ)) × Heap
  | [], h => (.ok [], h)
  | id :: ids, h =>
    match heapEpsilon C wl id h with
    | (.error e, h') => (.error e, h')
    | (.ok t, h') =>
      match heapEpsilons C wl ids h' with
      | (.error e, h'') => (.error e, h'')
      | (.ok ts, h'') => (.ok (t :: ts), h'')

/-- `2 * torch.pi / k0` on the particle's device. Code: main.py:257-258. -/
noncomputable def wavelengths (dev : Device) (k0 : DTen ℝ) : DTen ℝ :=
  ⟨k0.ten.map fun k => 2 * Real.pi / k, dev, k0.leaves⟩

/-- main.py:244-268 `get_material_permittivities`: `(eps_layers, eps_env)`. -/
noncomputable def Particle.permittivities (C : Casts) (p : Particle) (k0 : DTen ℝ) (h : Heap) :
    Py (DTen ℂ × DTen ℂ) × Heap :=
  let wl := wavelengths p.dev k0
  match heapEpsilon C wl p.env h with
  | (.error e, h') => (.error e, h')
  | (.ok env, h') =>
    match p.epsLayers with
    | some e => (.ok (⟨e, p.epsDev, []⟩, env), h')
    | none =>
      match heapEpsilons C wl (p.mats.getD []) h' with
      | (.error e, h'') => (.error e, h'')
      | (.ok l, h'') => ((stackDTen l).map fun e => (e, env), h'')

/-- main.py:292-301, 327-335, 365-376: the arguments handed to the functions of `multishell`. -/
noncomputable def Particle.layerArgs (C : Casts) (p : Particle) (k0 : DTen ℝ) (h : Heap) : Py LayerArgs × Heap :=
  ((p.permittivities C k0 h).1.map fun e =>
    { k0 := k0.ten.map fun k : ℝ => (k : ℂ), rLayers := some p.rLayers, epsLayers := some e.1.ten, epsEnv := e.2.ten },
    (p.permittivities C k0 h).2)

/-- helper.py:371-387 `_squeeze_dimensions` on the result of `cross_sections`. -/
def CrossT.squeeze (c : CrossT) : CrossT :=
  { csGeo := c.csGeo.squeeze, qExt := c.qExt.squeeze, qSca := c.qSca.squeeze, qAbs := c.qAbs.squeeze
    csExt := c.csExt.squeeze, csSca := c.csSca.squeeze, csAbs := c.csAbs.squeeze
    qExtMp := c.qExtMp.squeeze, qScaMp := c.qScaMp.squeeze, qAbsMp := c.qAbsMp.squeeze
    csExtMp := c.csExtMp.squeeze, csScaMp := c.csScaMp.squeeze, csAbsMp := c.csAbsMp.squeeze }

/-- helper.py:371-387 on the result of `angular_scattering`. -/
def AngularT.squeeze (c : AngularT) : AngularT :=
  { S1 := c.S1.squeeze, S2 := c.S2.squeeze, iPer := c.iPer.squeeze, iPar := c.iPar.squeeze
    iUnpol := c.iUnpol.squeeze, polDegree := c.polDegree.squeeze }

/-- The coefficient arrays of a `Particle.get_mie_coefficients` result. Code: main.py:270-308. -/
structure ParticleCoeffs where
  nMax : ℤ
  a : Ten ℂ
  bn : Ten ℂ

/-- main.py:270-308 `get_mie_coefficients`, the coefficients. -/
noncomputable def Particle.getMieCoefficients (C : Casts) (p : Particle) (k0 : DTen ℝ) (h : Heap) (nMax : Option ℤ := none)
    (returnInternal : Bool := false) : Py ParticleCoeffs :=
  (p.layerArgs C k0 h).1 >>= fun args => (mieCoefficientsT args nMax returnInternal).map fun o =>
    ⟨o.nMax, o.a.squeeze, o.bn.squeeze⟩

/-! ## Histories -/

/-- Everything a user program holds. Code: no counterpart: a program that uses main.py and materials/mat.py. -/
structure World where
  heap : Heap
  parts : List Particle

/-- One statement of a user program: make a material object, evaluate a material object, make a particle, move a
particle, ask a particle for its permittivities (all `get_*` methods do). Code: main.py:47, 200, 244; materials/mat.py:168, 242, 399. -/
inductive WOp
  | newConst (eps : ℂ) (device : Device) (leaves : List ℕ)
  | newDb (m : Dispersion) (device : Device)
  | evalMat (id : ℕ) (wl : DTen ℝ)
  | create (a : ParticleArgs)
  | setDevice (i : ℕ) (device : Device)
  | query (i : ℕ) (k0 : DTen ℝ)

/-- Particles after a constructor call. Code: main.py:47. -/
def keepOk (ps : List Particle) : Py Particle → List Particle
  | .ok p => ps ++ [p]
  | .error _ => ps

/-- The effect of one statement; a failing constructor makes no particle, a wrong particle number does nothing.
Code: main.py:47, 200, 244; materials/mat.py:399. -/
noncomputable def World.step (C : Casts) (w : World) : WOp → World
  | .newConst eps device leaves => { w with heap := w.heap ++ [.const ⟨C.c64 eps, device, device, leaves⟩] }
  | .newDb m device => { w with heap := w.heap ++ [.db (MatDb.new m device)] }
  | .evalMat id wl => { w with heap := (heapEpsilon C wl id w.heap).2 }
  | .create a => ⟨(Particle.init C a w.heap).2, keepOk w.parts (Particle.init C a w.heap).1⟩
  | .setDevice i device =>
    match w.parts[i]? with
    | none => w
    | some p => ⟨(p.setDevice device w.heap).2, w.parts.set i (p.setDevice device w.heap).1⟩
  | .query i k0 =>
    match w.parts[i]? with
    | none => w
    | some p => { w with heap := (p.permittivities C k0 w.heap).2 }

/-- A user program. Code: no counterpart: a sequence of calls of main.py:47, 200, 244. -/
noncomputable def World.run (C : Casts) (w : World) (ops : List WOp) : World := ops.foldl (World.step C) w

end MieDiff
