import Verif.Model.Py
import Mathlib.Data.List.InsertIdx

/-!
# Tensors: shape, entries, broadcasting

A tensor is a shape with an entry for every index list; entries outside the shape have no meaning.  Only the torch
operations used by the modelled code are defined, with torch's broadcasting rules and errors.
-/

namespace MieDiff

/-- A torch tensor. Code: every array of multishell.py and special.py; dtype and device are not modelled here. -/
structure Ten (α : Type) where
  shape : List ℕ
  get : List ℕ → α

namespace Ten

variable {α β γ : Type}

/-- A zero-dimensional tensor (`torch.as_tensor(number)`). Code: e.g. multishell.py:572. -/
def scalar (v : α) : Ten α := ⟨[], fun _ => v⟩

/-- A one-dimensional tensor. Code: e.g. multishell.py:739. -/
def ofList (d : α) (l : List α) : Ten α := ⟨[l.length], fun idx => l.getD (idx.headD 0) d⟩

/-- Entrywise function. Code: e.g. multishell.py:632. -/
def map (f : α → β) (t : Ten α) : Ten β := ⟨t.shape, fun idx => f (t.get idx)⟩

/-- `t.ndim`. Code: special.py:1179. -/
def ndim (t : Ten α) : ℕ := t.shape.length

/-- `torch.atleast_1d`. Code: special.py:38, multishell.py:429. -/
def atleast1 (t : Ten α) : Ten α :=
  match t.shape with
  | [] => ⟨[1], fun _ => t.get []⟩
  | _ => t

/-- Index into a tensor of shape `s` from an index of the squeezed tensor. Code: multishell.py:428, see `squeeze`. -/
def unsqIdx : List ℕ → List ℕ → List ℕ
  | [], _ => []
  | d :: s, idx => if d = 1 then 0 :: unsqIdx s idx else idx.headD 0 :: unsqIdx s idx.tail

/-- `t.squeeze()`: drop all axes of length 1. Code: multishell.py:428, 572, helper/helper.py:386. -/
def squeeze (t : Ten α) : Ten α := ⟨t.shape.filter (· ≠ 1), fun idx => t.get (unsqIdx t.shape idx)⟩

/-- `t.unsqueeze(d)`, `d` counted from the front. Code: multishell.py:324-325, 433. -/
def unsqueeze (t : Ten α) (d : ℕ) : Ten α := ⟨t.shape.insertIdx d 1, fun idx => t.get (idx.eraseIdx d)⟩

/-- Coordinate of an operand of length `d` for coordinate `i` of the result. Code: e.g. multishell.py:324, see `op2`. -/
def bi (d i : ℕ) : ℕ := if d = 1 then 0 else i

/-- Index into an operand of shape `s` for index `idx` of the broadcast result: axes are matched from the right, axes of
length 1 are repeated. Code: e.g. multishell.py:324, see `op2`. -/
def bIdx (s idx : List ℕ) : List ℕ := List.zipWith bi s (idx.drop (idx.length - s.length))

/-- Common length of two matched axes; `RuntimeError` if they do not fit. Code: e.g. multishell.py:324, see `op2`. -/
def bDim (a b : ℕ) : Py ℕ :=
  if a = b then .ok a else if a = 1 then .ok b else if b = 1 then .ok a else .error .runtimeError

/-- Broadcast shape of two shapes given from the last axis to the first. Code: e.g. multishell.py:324, see `op2`. -/
def bShapeRev : List ℕ → List ℕ → Py (List ℕ)
  | [], t => .ok t
  | s, [] => .ok s
  | a :: s, b :: t => do
    let d ← bDim a b
    let r ← bShapeRev s t
    .ok (d :: r)

/-- Broadcast shape of two operands. Code: e.g. multishell.py:324, see `op2`. -/
def bShape (s t : List ℕ) : Py (List ℕ) := do
  let r ← bShapeRev s.reverse t.reverse
  .ok r.reverse

/-- Entrywise binary operation with broadcasting. Code: every `+ - * /` on arrays, e.g. multishell.py:324, 742. -/
def op2 (f : α → β → γ) (s : Ten α) (t : Ten β) : Py (Ten γ) := do
  let sh ← bShape s.shape t.shape
  .ok ⟨sh, fun idx => f (s.get (bIdx s.shape idx)) (t.get (bIdx t.shape idx))⟩

/-- `t.broadcast_to(sh)`: every axis of `t`, matched from the right, has length 1 or the target length.
Code: multishell.py:599-626, 706. -/
def broadcastTo (t : Ten α) (sh : List ℕ) : Py (Ten α) :=
  if t.shape.length ≤ sh.length ∧
      (t.shape.zip (sh.drop (sh.length - t.shape.length))).all (fun p => p.1 == p.2 || p.1 == 1) then
    .ok ⟨sh, fun idx => t.get (bIdx t.shape idx)⟩
  else .error .runtimeError

/-- `t[:, ..., i, ...]` with `i` on axis `d`: `IndexError` when the axis or the position is missing. Code: multishell.py:333-334, 713. -/
def select (t : Ten α) (d i : ℕ) : Py (Ten α) :=
  match t.shape[d]? with
  | some n => if i < n then .ok ⟨t.shape.eraseIdx d, fun idx => t.get (idx.insertIdx d i)⟩ else .error .indexError
  | none => .error .indexError

/-- `t[:, -1, ...]`. Code: multishell.py:379-380, 708. -/
def selectLast (t : Ten α) (d : ℕ) : Py (Ten α) :=
  match t.shape[d]? with
  | some (n + 1) => .ok ⟨t.shape.eraseIdx d, fun idx => t.get (idx.insertIdx d n)⟩
  | _ => .error .indexError

/-- `torch.stack((s, t), dim=d)`: `RuntimeError` when the shapes differ. Code: multishell.py:535-548, main.py:175. -/
def stack2 (s t : Ten α) (d : ℕ) : Py (Ten α) :=
  if s.shape = t.shape then
    .ok ⟨s.shape.insertIdx d 2, fun idx =>
      if idx.getD d 0 = 0 then s.get (idx.eraseIdx d) else t.get (idx.eraseIdx d)⟩
  else .error .runtimeError

/-- `t.sum(0)`. Code: multishell.py:970, 1264. -/
def sum0 [AddCommMonoid α] (t : Ten α) : Ten α :=
  ⟨t.shape.tail, fun idx => ((List.range (t.shape.headD 0)).map fun i => t.get (i :: idx)).sum⟩

/-- All valid indices of a shape. Code: multishell.py:519, see `Equal`. -/
def indices : List ℕ → List (List ℕ)
  | [] => [[]]
  | d :: s => (List.range d).flatMap fun i => (indices s).map (i :: ·)

/-- The entries, last axis fastest. Code: multishell.py:519, see `Equal`. -/
def entries (t : Ten α) : List α := (indices t.shape).map t.get

/-- `torch.equal`: same shape and same entries. Code: multishell.py:519. -/
def Equal (s t : Ten α) : Prop := s.shape = t.shape ∧ s.entries = t.entries

/-- A Python list of equally shaped tensors stacked in front (`torch.stack(l, dim=0)`). Code: special.py:505, 1118. -/
def stackList (d : α) (sh : List ℕ) (l : List (List ℕ → α)) : Ten α :=
  ⟨l.length :: sh, fun idx => (l.getD (idx.headD 0) (fun _ => d)) idx.tail⟩

end Ten

end MieDiff
