import Verif.Model.Materials
import Verif.Model.Tables

/-!
# `float()` on decimal literals

Exact value of a literal `[+-]digits[.digits][(e|E)[+-]digits]`; other spellings (`inf`, `nan`, underscores) do not occur in
the data files and are rejected here.
-/

namespace MieDiff

/-- Leading digits: value (continuing from `acc`), their number, the rest. Code: part of `float`, materials/mat.py:48-51, 60, 65. -/
def digits (acc : ℕ) : List Char → ℕ × ℕ × List Char
  | [] => (acc, 0, [])
  | c :: cs =>
    if '0'.toNat ≤ c.toNat ∧ c.toNat ≤ '9'.toNat then
      let r := digits (10 * acc + (c.toNat - '0'.toNat)) cs
      (r.1, r.2.1 + 1, r.2.2)
    else (acc, 0, c :: cs)

/-- Optional sign. Code: part of `float`, materials/mat.py:48-51, 60, 65. -/
def signed (l : List Char) : ℤ × List Char :=
  match l with
  | '-' :: r => (-1, r)
  | '+' :: r => (1, r)
  | r => (1, r)

/-- Optional fractional part after the integer part: mantissa, number of decimals, number of digits in all, rest.
Code: part of `float`, materials/mat.py:48-51, 60, 65. -/
def fraction (i : ℕ × ℕ × List Char) : ℕ × ℕ × ℕ × List Char :=
  match i.2.2 with
  | '.' :: r =>
    let f := digits i.1 r
    (f.1, f.2.1, i.2.1 + f.2.1, f.2.2)
  | r => (i.1, 0, i.2.1, r)

/-- Exponent. Code: part of `float`, materials/mat.py:48-51, 60, 65. -/
def expPart (l : List Char) : Option ℤ :=
  match l with
  | [] => some 0
  | c :: r =>
    if c = 'e' ∨ c = 'E' then
      let s := signed r
      let d := digits 0 s.2
      if d.2.1 > 0 ∧ d.2.2 = [] then some (s.1 * d.1) else none
    else none

/-- The literal as mantissa and power of ten. Code: part of `float`, materials/mat.py:48-51, 60, 65. -/
def decimal (l : List Char) : Option (ℤ × ℤ) :=
  let s := signed l
  let f := fraction (digits 0 s.2)
  if f.2.2.1 > 0 then (expPart f.2.2.2).map fun e => (s.1 * f.1, e - f.2.1) else none

/-- `float(s)`, exact. Code: materials/mat.py:48-51, 60, 65; rounding to double is not modelled. -/
noncomputable def parseFloat (s : String) : Option ℝ := (decimal s.toList).map fun d => (d.1 : ℝ) * (10 : ℝ) ^ d.2

/-- The `data` entry of a file: its lines, each ended by a newline. Code: `dat_str["data"]` of materials/mat.py:42. -/
def dataText (lines : List (List Char)) : List Char := lines.flatMap fun l => l ++ ['\n']

/-- Tokens of a line. Code: materials/mat.py:43. -/
def lineToks (l : List Char) : List String := (splitWs l).map String.ofList

/-- mat.py:58-67 `_load_formula` on the two text entries: coefficients and validity range in nanometres. -/
noncomputable def loadFormula (range coefficients : List Char) : Py (List ℝ × ℝ × ℝ) := do
  let coeff ← (lineToks coefficients).mapM (pyFloat parseFloat)
  let t0 ← pyIdx (lineToks range) 0
  let lo ← pyFloat parseFloat t0
  let t1 ← pyIdx (lineToks range) 1
  let hi ← pyFloat parseFloat t1
  .ok (coeff, 1000 * lo, 1000 * hi)

end MieDiff
