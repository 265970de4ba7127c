import Verif.Model.Decimal

/-!
# `MatDatabase.__init__` and `__repr__`

The constructor of `materials/mat.py:242-333`.  The content of a yaml file is the list under its key `DATA`; pyyaml is installed.  The wavelengths of
`init_lookup_wavelengths` are the numbers that python's iteration gives, on the device of the object and without recorded gradients (C35 treats those);
a mixture of number formats that torch refuses is not modelled.
-/

namespace MieDiff

/-- Exceptions of the constructor. Code: materials/mat.py:42, 60, 65, 274, 290. -/
inductive MatErr
  | py (e : PyErr)
  | keyError
  | fileNotFound
  deriving DecidableEq

/-- `Py` as a part of the constructor. Code: materials/mat.py:309, 320, 333. -/
def ofPy {α : Type} : Py α → Except MatErr α
  | .ok a => .ok a
  | .error e => .error (.py e)

/-- One model entry of a file; missing keys are `none`. Code: materials/mat.py:42, 59-65, 299-300. -/
structure YEntry where
  type : List Char
  data : Option (List Char)
  coefficients : Option (List Char)
  range : Option (List Char)
  wavelengthRange : Option (List Char)

/-- The files, and `pathlib.Path(f).stem`. Code: materials/mat.py:288, 290-291. -/
structure Disk where
  read : String → Option (List YEntry)
  stem : String → String

/-- `self.model_type`: `"data"`, `"sellmeier"`, or the number of another formula. Code: materials/mat.py:314, 321-322. -/
inductive ModelType
  | data
  | sellmeier
  | other (n : ℤ)
  deriving DecidableEq

/-- `int(s)` of a decimal literal. Code: materials/mat.py:59. -/
def pyIntTok (s : List Char) : Option ℤ :=
  let t := signed s
  let d := digits 0 t.2
  if d.2.1 > 0 ∧ d.2.2 = [] then some (t.1 * d.1) else none

/-- `[torch.min(wl_dat), torch.max(wl_dat)]`; both refuse an empty tensor. Code: materials/mat.py:316. -/
def tableRange : List ℝ → Py (ℝ × ℝ)
  | [] => .error .runtimeError
  | w :: ws => .ok (ws.foldl min w, ws.foldl max w)

/-- A key of a yaml entry. Code: materials/mat.py:42, 60, 65. -/
def yKey {α : Type} : Option α → Except MatErr α
  | some v => .ok v
  | none => .error .keyError

/-- mat.py:305-328: the model of an entry, with its wavelength range. -/
noncomputable def loadModel (C : Casts) (e : YEntry) : Except MatErr (ModelType × (ℝ × ℝ) × Dispersion) :=
  match splitWs e.type with
  | [] => .error (.py .indexError)
  | w :: rest =>
    if w = "tabulated".toList then do
      let d ← yKey e.data
      let rows ← ofPy (loadTabulated parseFloat (splitRows d))
      let r ← ofPy (tableRange (rows.map fun x => C.f32 x.1))
      .ok (.data, r, .ofTable C rows)
    else if w = "formula".toList then
      match rest with
      | [] => .error (.py .indexError)
      | n :: _ =>
        match pyIntTok n with
        | none => .error (.py .valueError)
        | some n => do
          let c ← yKey e.coefficients
          let _ ← ofPy ((lineToks c).mapM (pyFloat parseFloat))
          let r ← yKey (e.range.or e.wavelengthRange)
          let f ← ofPy (loadFormula r c)
          .ok (if n = 1 then .sellmeier else .other n, f.2, .formula n f.1)
    else .error (.py .valueError)

/-- mat.py:330-333: the initial lookup table. -/
noncomputable def warmAll (C : Casts) : List ℝ → MatDb → Py MatDb
  | [], d => .ok d
  | w :: ws, d =>
    match d.getSingle C w d.datDev [] with
    | (.error e, _) => .error e
    | (.ok _, d') => warmAll C ws d'

/-- A complete object. Code: materials/mat.py:283-328. -/
structure DbObj where
  name : String
  modelType : ModelType
  wlRange : ℝ × ℝ
  mat : MatDb

/-- What `MatDatabase(...)` returns: a complete object, or after line 272 one that only has a device (`del self` removes the local name). Code: materials/mat.py:267-272. -/
inductive DbMade
  | hollow (dev : Device)
  | full (o : DbObj)

/-- mat.py:290-333: load the file; the flag is the warning about several entries. -/
noncomputable def dbLoad (C : Casts) (disk : Disk) (name file : String) (device : Device) (init : Option (List ℝ)) : Except MatErr DbMade × Bool :=
  match disk.read file with
  | none => (.error .fileNotFound, false)
  | some [] => (.error (.py .indexError), false)
  | some (e :: es) =>
    (do
      let m ← loadModel C e
      let d ← ofPy (warmAll C (init.getD []) (MatDb.new m.2.2 device))
      .ok (.full ⟨name, m.1, m.2.1, d⟩), !es.isEmpty)

/-- mat.py:242-333 `MatDatabase.__init__`; `db` is `REFINDEX_DATA`. -/
noncomputable def dbInit (C : Casts) (db : List (String × String)) (disk : Disk) (name : String) (yaml : Option String) (device : Device)
    (init : Option (List ℝ)) : Except MatErr DbMade × Bool :=
  match yaml with
  | none =>
    if name = "" then (.ok (.hollow device), false) else
    match findMaterial db name with
    | .error e => (.error (.py e), false)
    | .ok f => dbLoad C disk (String.ofList (f.toList.takeWhile (· ≠ '_'))) f device init
  | some f => dbLoad C disk (if name = "" then disk.stem f else name) f device init

/-- mat.py:399-417 `get_epsilon` of such an object: without `lookup_eps` the first lookup is an `AttributeError`; an empty list or a larger array fails as for a
complete object. -/
noncomputable def DbMade.getEpsilon (C : Casts) (m : DbMade) (wl : DTen ℝ) : Py (DTen ℂ) × DbMade :=
  match m with
  | .hollow dev =>
    match wl.ten.squeeze.shape with
    | [] => (.error .attributeError, .hollow dev)
    | [n] => (.error (if n = 0 then .runtimeError else .attributeError), .hollow dev)
    | _ => (.error .runtimeError, .hollow dev)
  | .full o => ((o.mat.getEpsilon C wl).1, .full { o with mat := (o.mat.getEpsilon C wl).2 })

/-- mat.py:350-357 `set_device`: the device is set before the missing `wl_dat` is read. -/
def DbMade.setDevice (m : DbMade) (device : Device) : Py Unit × DbMade :=
  match m with
  | .hollow _ => (.error .attributeError, .hollow device)
  | .full o => (.ok (), .full { o with mat := o.mat.setDevice device })

/-- mat.py:335-348 `__repr__`: the parts of the text, with the range for the two supported models. -/
def DbMade.repr : DbMade → Py (String × ModelType × Option (ℝ × ℝ))
  | .hollow _ => .error .attributeError
  | .full o => .ok (o.name, o.modelType, match o.modelType with
    | .data => some o.wlRange
    | .sellmeier => some o.wlRange
    | .other _ => none)

end MieDiff
