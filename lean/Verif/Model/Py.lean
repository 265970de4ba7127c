import Mathlib.Analysis.Complex.Basic
import Mathlib.Analysis.SpecialFunctions.Pow.Complex
import Mathlib.Analysis.SpecialFunctions.Trigonometric.Basic

/-!
# Python conventions used by the model

Exceptions are values, loops are folds over the Python ranges, numbers are exact.
-/

namespace MieDiff

open Complex

/-- The exception classes that the modelled code can raise. Code: e.g. multishell.py:303, 309, 431, main.py:132. -/
inductive PyErr
  | valueError
  | typeError
  | indexError
  | attributeError
  | assertionError
  | runtimeError
  | notImplementedError
  deriving DecidableEq, Repr

/-- Result of a Python call: a value or a raised exception. Code: e.g. multishell.py:308-309. -/
abbrev Py := Except PyErr

/-- `range(n, 0, -1)`: the list `[n, n-1, ..., 1]`. Code: special.py:496, 768, 887. -/
def rangeDown (n : ℕ) : List ℕ := ((List.range n).map (· + 1)).reverse

/-- `range(1, n)` for `n : ℕ`: the list `[1, ..., n-1]`. Code: special.py:556, 1105. -/
def rangeFrom1 (n : ℕ) : List ℕ := (List.range (n - 1)).map (· + 1)

/-- `x[i]` on a tensor/list along its first axis (non-negative `i`). Code: e.g. special.py:557-562. -/
def pyIdx {α : Type*} (l : List α) (i : ℕ) : Py α :=
  match l[i]? with
  | some v => .ok v
  | none => .error .indexError

/-- `torch.stack(l)` of a python list that may still contain `None` entries: torch raises
`TypeError` on `None`, `RuntimeError` on an empty list. Code: special.py:505. -/
def stackOpt {α : Type*} (l : List (Option α)) : Py (List α) :=
  if l = [] then .error .runtimeError else
  match l.mapM id with
  | some v => .ok v
  | none => .error .typeError

/-- `torch.where(v.abs() < eps, v + eps, v)` (special.py:494, 499, 555, 560, 626, 631, 637, 687;
multishell.py:369, 375, 389, 393, 400, 1136, 1137). -/
noncomputable def guardAdd (eps : ℝ) (v : ℂ) : ℂ := if ‖v‖ < eps then v + eps else v

/-- `torch.where(z.abs() < eps, eps * torch.ones_like(z), z)` (special.py:753, 947, 1250, 1299). -/
noncomputable def guardSet (eps : ℝ) (v : ℂ) : ℂ := if ‖v‖ < eps then (eps : ℂ) else v

/-- Principal square root, `eps**0.5` and `torch.sqrt(eps)` on complex tensors. Code: multishell.py:325, 632-633. -/
noncomputable def csqrt (e : ℂ) : ℂ := e ^ (1 / 2 : ℂ)

end MieDiff
