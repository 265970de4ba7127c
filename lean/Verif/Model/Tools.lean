import Verif.Model.Particle
import Verif.Model.Tensor

/-!
# Small tools: `detach_tensor`, the plot methods of the materials, the classes of `helper.tg` without torchgdm
-/

namespace MieDiff

/-- What `detach_tensor` can see of a torch tensor: values, device, whether gradients are recorded, and whether a conjugation is still pending
(torch's conjugate bit). Code: helper/helper.py:41-45. -/
structure TorchTen (α : Type) where
  val : Ten α
  dev : Device
  tracked : Bool
  pending : Bool

/-- The first argument of `detach_tensor`; `other` is anything without a method `detach`, such as a list. Code: helper/helper.py:23. -/
inductive DetachArg (α : Type)
  | one (t : TorchTen α)
  | tuple (ts : List (TorchTen α))
  | other

/-- Numpy array, or python number from `.item()`. Code: helper/helper.py:43. -/
inductive NpVal (α : Type)
  | array (a : Ten α)
  | number (x : α)

/-- The value returned by `detach_tensor`. Code: helper/helper.py:41-45. -/
inductive DetachOut (α : Type)
  | one (v : NpVal α)
  | tuple (vs : List (NpVal α))

/-- `x.detach()`. Code: helper/helper.py:41, 43, 45. -/
def TorchTen.detach {α : Type} (t : TorchTen α) : TorchTen α := { t with tracked := false }

/-- `x.numpy()`: refused for recorded gradients, for pending conjugations, and for devices other than the cpu.  The array shares its memory with the tensor; the
model has no in-place operations on it. Code: helper/helper.py:41, 43, 45. -/
def TorchTen.numpy {α : Type} (t : TorchTen α) : Py (Ten α) :=
  if t.dev ≠ "cpu" then .error .typeError else
  if t.tracked then .error .runtimeError else
  if t.pending then .error .runtimeError else
  .ok t.val

/-- `a.item()` of a numpy array. Code: helper/helper.py:43. -/
def npItem {α : Type} (a : Ten α) : Py α :=
  match a.entries with
  | [x] => .ok x
  | _ => .error .valueError

/-- helper.py:23-45 `detach_tensor`. -/
def detachTensor {α : Type} (args : DetachArg α) (item : Bool := false) : Py (DetachOut α) :=
  match args, item with
  | .tuple ts, false => do
    let vs ← ts.mapM fun x => x.detach.numpy
    .ok (.tuple (vs.map .array))
  | .tuple ts, true => do
    let vs ← ts.mapM fun x => do
      let a ← x.detach.numpy
      npItem a
    .ok (.tuple (vs.map .number))
  | .one t, _ => do
    let a ← t.detach.numpy
    .ok (.one (.array a))
  | .other, _ => .error .attributeError

/-! ## Plot methods -/

/-- Exceptions of this part. Code: materials/mat.py:99-101. -/
inductive ToolErr
  | py (e : PyErr)
  | moduleNotFound (name : String)
  deriving DecidableEq

/-- The modules of the package. Code: the files of src/pymiediff (no `helper/plotting.py`), imported e.g. in helper/__init__.py:34-46. -/
def packageModules : List String :=
  ["pymiediff", "pymiediff.coreshell", "pymiediff.helper", "pymiediff.helper.helper", "pymiediff.helper.tg", "pymiediff.main", "pymiediff.materials",
    "pymiediff.materials.mat", "pymiediff.multishell", "pymiediff.special"]

/-- `import name` with the other installed modules `site`; the name decides whether it belongs to the package. Code: materials/mat.py:99-101, 133-135. -/
def importModule (site : List String) (name : String) : Except ToolErr Unit :=
  if "pymiediff".isPrefixOf name then
    if name ∈ packageModules then .ok () else .error (.moduleNotFound name)
  else if name ∈ site then .ok () else .error (.moduleNotFound name)

/-- mat.py:92-124 `plot_epsilon` and mat.py:126-159 `plot_refractive_index`: the imports come first.  `draw` stands for the rest. -/
def plotMaterial {R : Type} (site : List String) (draw : MatObj → Except ToolErr R × MatObj) (m : MatObj) : Except ToolErr R × MatObj :=
  match (do importModule site "matplotlib.pyplot"; importModule site "pymiediff.helper.plotting"; importModule site "pymiediff.helper") with
  | .error e => (.error e, m)
  | .ok () => draw m

/-! ## `helper.tg` without torchgdm -/

/-- What a call of a class returns: a structure, or an instance of an exception class. Code: helper/tg.py:52-61. -/
inductive Instance (R : Type)
  | structure_ (s : R)
  | exception (message : String)

/-- tg.py:52-61, 764, 925: `StructAutodiffMieEffPola3D(...)` and `StructAutodiffMieGPM3D(...)`.  `init` is the constructor of the class that exists with torchgdm.
Calling an exception class builds an instance, without raising it. -/
def callStruct {R : Type} (torchgdm : Bool) (init : Py R) : Py (Instance R) :=
  if torchgdm then init.map .structure_
  else .ok (.exception "The optional dependency 'torchgdm' is required for 'pymiediff.helper.tg' Install it via `pip install torchgdm`.")

end MieDiff
