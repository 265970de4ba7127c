import Mathlib.Data.Complex.Basic
import Mathlib.Data.List.Basic

/-!
# Specification: table rows, Sellmeier formula

Independent of the model.
-/

namespace MieDiff.Spec

/-- What a row of a table means: wavelength in micrometres, `n`, `k` (0 when missing); further columns are ignored. -/
def rowMeaning (parse : String → Option ℝ) : List String → Option (ℝ × ℝ × ℝ)
  | [w, n] => do
    let w ← parse w
    let n ← parse n
    some (w, n, 0)
  | w :: n :: k :: _ => do
    let w ← parse w
    let n ← parse n
    let k ← parse k
    some (w, n, k)
  | _ => none

/-- Wavelength in nanometres and permittivity `(n + i k)^2`, in real and imaginary part. -/
def rowValue (m : ℝ × ℝ × ℝ) : ℝ × ℂ := (1000 * m.1, ⟨m.2.1 ^ 2 - m.2.2 ^ 2, 2 * m.2.1 * m.2.2⟩)

/-- Sellmeier formula 1 of refractiveindex.info, `w` in micrometres. -/
noncomputable def sellmeier (c0 : ℝ) (poles : List (ℝ × ℝ)) (w : ℝ) : ℝ :=
  1 + c0 + (poles.map fun p => p.1 * w ^ 2 / (w ^ 2 - p.2 ^ 2)).sum

/-- A line of text: leading blanks, then tokens each followed by blanks. -/
def renderRow (lead : List Char) (toks : List (List Char × List Char)) : List Char :=
  lead ++ toks.flatMap fun t => t.1 ++ t.2

/-- Lines separated by newlines. -/
def joinLines : List (List Char) → List Char
  | [] => []
  | [l] => l
  | l :: ls => l ++ '\n' :: joinLines ls

end MieDiff.Spec
