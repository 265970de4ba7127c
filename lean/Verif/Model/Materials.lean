import Verif.Model.Helper
import Verif.Model.Tensor

/-!
# Model of `src/pymiediff/materials/mat.py`

Tensors carry, besides their entries, the device and the leaf tensors autograd reaches from them.  The casts to
`float32`/`complex64` are arbitrary functions (`Casts`); arithmetic in between is exact.  YAML parsing and file access are
not modelled: the loaders start from the dictionary entry.
-/

namespace MieDiff

open Complex

/-- `torch.device`. Code: main.py:115, materials/mat.py:77. -/
abbrev Device := String

/-- A tensor with device and the leaf tensors it depends on for autograd. Code: materials/mat.py:310-313, 394. -/
structure DTen (α : Type) where
  ten : Ten α
  dev : Device
  leaves : List ℕ

/-- Rounding to `torch.float32` and `torch.complex64` (mat.py:18-19). -/
structure Casts where
  f32 : ℝ → ℝ
  c64 : ℂ → ℂ

/-! ## Loaders -/

/-- A row `wl n [k]` of numbers; `float(token)` is a `ValueError` for a token that is not a number. Code: materials/mat.py:48-53. -/
def pyFloat (parse : String → Option ℝ) (s : String) : Py ℝ :=
  match parse s with
  | some v => .ok v
  | none => .error .valueError

/-- mat.py:46-54, one row. -/
noncomputable def loadRow (parse : String → Option ℝ) (s : List String) : Py (ℝ × ℂ) := do
  let t0 ← pyIdx s 0
  let w ← pyFloat parse t0
  let t1 ← pyIdx s 1
  let n ← pyFloat parse t1
  let k ← match s[2]? with
    | some t2 => pyFloat parse t2
    | none => .ok 0
  .ok (1000 * w, ((n : ℂ) + I * (k : ℂ)) ^ 2)

/-- mat.py:41-55 `_load_tabulated` on the rows split into tokens: `(wl, eps)` per non-empty row. -/
noncomputable def loadTabulated (parse : String → Option ℝ) (rows : List (List String)) : Py (List (ℝ × ℂ)) :=
  (rows.filter fun s => s.length > 0).mapM (loadRow parse)

/-- `str.isspace` for the ASCII characters that `str.split()` separates at. Code: materials/mat.py:43, 60. -/
def isPySpace (c : Char) : Bool := c = ' ' || c = '\t' || c = '\n' || c = '\r' || c = '\x0b' || c = '\x0c'

/-- The rest of the line is empty or starts with a blank. Code: part of `split`, materials/mat.py:43. -/
def startsBlank : List Char → Bool
  | [] => true
  | d :: _ => isPySpace d

/-- Put a character in front of the first token. Code: part of `split`, materials/mat.py:43. -/
def glueChar (c : Char) : List (List Char) → List (List Char)
  | [] => [[c]]
  | t :: ts => (c :: t) :: ts

/-- `s.split()` on the characters of `s`: maximal runs of non-space characters. Code: materials/mat.py:43, 60, 65. -/
def splitWs : List Char → List (List Char)
  | [] => []
  | c :: cs =>
    if isPySpace c then splitWs cs
    else
      if startsBlank cs then [c] :: splitWs cs else glueChar c (splitWs cs)

/-- `s.split("\n")` on the characters of `s`. Code: materials/mat.py:42. -/
def splitNl : List Char → List (List Char)
  | [] => [[]]
  | c :: cs =>
    if c = '\n' then [] :: splitNl cs
    else
      match splitNl cs with
      | [] => [[c]]
      | t :: ts => (c :: t) :: ts

/-- mat.py:42-43 `rows = data.split("\n")`, `[c.split() for c in rows]`. -/
def splitRows (data : List Char) : List (List String) := (splitNl data).map fun r => (splitWs r).map String.ofList

/-! ## Dispersion models -/

/-- The dispersion data of a `MatDatabase` (mat.py:299-328): a table `(wl_dat, eps_dat)` or a formula number with
coefficients. -/
inductive Dispersion
  | table (rows : List (ℝ × ℂ))
  | formula (num : ℤ) (coeff : List ℝ)

/-- mat.py:371-372. -/
noncomputable def sellTerm (c1 c2 w : ℝ) : ℝ := c1 * w ^ 2 / (w ^ 2 - c2 ^ 2)

/-- mat.py:368-377, the Sellmeier branch; indexing past the end is an `IndexError`. -/
noncomputable def sellmeier (coeff : List ℝ) (wl : ℝ) : Py ℝ := do
  let c0 ← pyIdx coeff 0
  (List.range' 1 (coeff.length / 2) 2).foldlM (fun eps i => do
    let c1 ← pyIdx coeff i
    let c2 ← pyIdx coeff (i + 1)
    .ok (eps + sellTerm c1 c2 (wl / 1000))) (1 + c0)

/-- mat.py:359-384 `_eval`, the value at one wavelength. -/
noncomputable def Dispersion.eval (m : Dispersion) (wl : ℝ) : Py ℂ :=
  match m with
  | .table rows => interp1d wl rows
  | .formula num coeff =>
    if num = 1 then do
      let v ← sellmeier coeff wl
      .ok (v : ℂ)
    else .error .valueError

/-- Whether the evaluated permittivity depends on the wavelength tensor (a Sellmeier model without pole terms is a
Python number). Code: materials/mat.py:363-377. -/
def Dispersion.differentiable (m : Dispersion) : Bool :=
  match m with
  | .table _ => true
  | .formula _ coeff => coeff.length / 2 > 0

/-- Constructor of the data part (mat.py:308-316): table entries are cast. -/
noncomputable def Dispersion.ofTable (C : Casts) (rows : List (ℝ × ℂ)) : Dispersion :=
  .table (rows.map fun r => (C.f32 r.1, C.c64 r.2))

/-- State of a `MatDatabase` object: `dev` is `self.device`, `datDev` the device of `wl_dat`, `eps_dat`, `cache` is
`lookup_eps`. Code: materials/mat.py:265-320. -/
structure MatDb where
  disp : Dispersion
  dev : Device
  datDev : Device
  cache : List (ℝ × DTen ℂ)

/-- A fresh object (mat.py:242-328, without `init_lookup_wavelengths`). -/
def MatDb.new (m : Dispersion) (device : Device := "cpu") : MatDb := ⟨m, device, device, []⟩

/-- Lookup in the Python dictionary. Code: materials/mat.py:390-391. -/
noncomputable def MatDb.lookup (d : MatDb) (key : ℝ) : Option (DTen ℂ) := (d.cache.find? fun e => e.1 = key).map (·.2)

/-- mat.py:359-384 `_eval` for a wavelength on device `wdev`: table data on another device is a `RuntimeError`. -/
noncomputable def MatDb.evaluated (d : MatDb) (wl : ℝ) (wdev : Device) : Py ℂ :=
  match d.disp with
  | .table rows => if wdev = d.datDev then Dispersion.eval (.table rows) wl else .error .runtimeError
  | .formula num coeff => Dispersion.eval (.formula num coeff) wl

/-- mat.py:386-397 `_get_eps_single_wl` for a scalar wavelength on device `wdev` depending on `leaves`.  Returns the
object's state, also after an exception. -/
noncomputable def MatDb.getSingle (C : Casts) (d : MatDb) (wl : ℝ) (wdev : Device) (leaves : List ℕ) : Py (DTen ℂ) × MatDb :=
  match d.lookup wl with
  | some e => (.ok e, d)
  | none =>
    match d.evaluated wl wdev with
    | .error e => (.error e, d)
    | .ok v =>
      let t : DTen ℂ := ⟨Ten.scalar (C.c64 v), d.dev, if d.disp.differentiable then leaves else []⟩
      (.ok t, { d with cache := d.cache ++ [(wl, t)] })

/-- The list comprehension of mat.py:413: entries in order, stopping at the first exception. -/
noncomputable def MatDb.getList (C : Casts) (leaves : List ℕ) : List ℝ → MatDb → Py (List (DTen ℂ)) × MatDb
  | [], d => (.ok [], d)
  | w :: ws, d =>
    match d.getSingle C w d.dev leaves with
    | (.error e, d') => (.error e, d')
    | (.ok t, d') =>
      match MatDb.getList C leaves ws d' with
      | (.error e, d'') => (.error e, d'')
      | (.ok ts, d'') => (.ok (t :: ts), d'')

/-- `torch.stack` of 0-dimensional tensors: `RuntimeError` on an empty list or on mixed devices. Code: materials/mat.py:413. -/
def stackScalars (l : List (DTen ℂ)) : Py (DTen ℂ) :=
  match l with
  | [] => .error .runtimeError
  | t :: ts =>
    if ts.all (fun u => u.dev = t.dev) then
      .ok ⟨⟨[l.length], fun idx => ((l[idx.headD 0]?).map (fun u => u.ten.get [])).getD 0⟩, t.dev, l.flatMap (·.leaves)⟩
    else .error .runtimeError

/-- mat.py:399-417 `get_epsilon`: the wavelength is cast and moved to the object's device, singleton axes are dropped; a
single wavelength or a list.  `float()` of a larger tensor is a `RuntimeError`. -/
noncomputable def MatDb.getEpsilon (C : Casts) (d : MatDb) (wl : DTen ℝ) : Py (DTen ℂ) × MatDb :=
  let w := wl.ten.squeeze
  match w.shape with
  | [] => d.getSingle C (C.f32 (w.get [])) d.dev wl.leaves
  | [n] =>
    match MatDb.getList C wl.leaves ((List.range n).map fun (i : ℕ) => C.f32 (w.get [i])) d with
    | (.error e, d') => (.error e, d')
    | (.ok l, d') => (stackScalars l, d')
  | _ => (.error .runtimeError, d)

/-- mat.py:350-357 `MatDatabase.set_device`. -/
def MatDb.setDevice (d : MatDb) (device : Device) : MatDb :=
  { d with dev := device, datDev := device, cache := d.cache.map fun e => (e.1, { e.2 with dev := device }) }

/-- State of a `MatConstant` object (mat.py:162-214). -/
structure MatConst where
  eps : ℂ
  dev : Device
  epsDev : Device
  leaves : List ℕ

/-- mat.py:193-195 `MatConstant.set_device`. -/
def MatConst.setDevice (d : MatConst) (device : Device) : MatConst := { d with dev := device, epsDev := device }

/-- mat.py:197-214 `MatConstant.get_epsilon`: `ones * eps_scalar`.  (`1.0 * eps` for anything but a one-dimensional
wavelength after dropping singleton axes.) -/
def MatConst.getEpsilon (d : MatConst) (wl : DTen ℝ) : DTen ℂ :=
  match wl.ten.squeeze.shape with
  | [n] => ⟨⟨[n], fun _ => d.eps⟩, d.epsDev, d.leaves⟩
  | _ => ⟨Ten.scalar d.eps, d.epsDev, d.leaves⟩

/-! ## Names -/

/-- `s.lower()` (ASCII letters). Code: materials/mat.py:273, 282. -/
def pyLower (s : String) : String := String.ofList (s.toList.map Char.toLower)

/-- mat.py:23-29: the database dictionary, from the file names in directory order; the name is the part before the first
`_`; later files replace earlier ones with the same lower-case name. -/
def materialKey (file : String) : String := pyLower (String.ofList (file.toList.takeWhile (· ≠ '_')))

/-- mat.py:23-29 `REFINDEX_DATA` as an association list. -/
def refindexData (files : List String) : List (String × String) :=
  files.foldl (fun acc f =>
    let key := materialKey f
    if acc.any (fun e => e.1 = key) then acc.map fun e => if e.1 = key then (key, f) else e
    else acc ++ [(key, f)]) []

/-- mat.py:32-37 `list_available_materials`: with `verbose=True` the loop builds `pathlib.Path` from a list. -/
def listAvailableMaterials (db : List (String × String)) (verbose : Bool := false) : Py (List String) :=
  if verbose ∧ db ≠ [] then .error .typeError else .ok (db.map (·.1))

/-- mat.py:273-282: which file a name refers to. -/
def findMaterial (db : List (String × String)) (name : String) : Py String :=
  match db.find? fun e => e.1 = pyLower name with
  | some e => .ok e.2
  | none => .error .valueError

end MieDiff
