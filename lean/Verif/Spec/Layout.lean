import Mathlib.Data.List.Basic

/-!
# Specification: which array entry is meant

The documented layouts of `k0`, `r_layers`, `eps_layers`, `eps_env` (docstrings of `mie_coefficients` and
`_broadcast_mie_layers`).  Each table gives, for the shape of the user's array, the index of the entry meant for
particle `p`, layer `l`, wavenumber `k`, or nothing when the shape is not a documented one.  This file does not use the
model.
-/

namespace MieDiff.Spec

/-- `k0`: one wavenumber or a spectrum; axes of length one do not count. -/
def k0Index (s : List ℕ) : Option (ℕ × (ℕ → List ℕ)) :=
  if (s.filter (· ≠ 1)).length ≤ 1 then
    some ((s.filter (· ≠ 1)).headD 1, fun k => s.map fun d => if d = 1 then 0 else k)
  else none

/-- `r_layers`: a number, `(L,)` or `(N_part, L)`; gives `N_part`, `L` and the index. -/
def rIndex : List ℕ → Option (ℕ × ℕ × (ℕ → ℕ → List ℕ))
  | [] => some (1, 1, fun _ _ => [])
  | [a] => some (1, a, fun _ l => [l])
  | [a, b] => some (a, b, fun p l => [p, l])
  | _ => none

/-- `eps_layers`: a number for one layer, `(L,)`, `(N_part, L)`, `(L, N_k0)`, `(N_part, L, N_k0)`; in the last form the
particle axis and the spectral axis may have length one.  `(N_part, L)` is preferred to `(L, N_k0)`. -/
def epsIndex (np nl nk : ℕ) : List ℕ → Option (ℕ → ℕ → ℕ → List ℕ)
  | [] => if nl = 1 then some fun _ _ _ => [] else none
  | [a] => if a = nl then some fun _ l _ => [l] else none
  | [a, b] =>
    if a = np ∧ b = nl then some fun p l _ => [p, l]
    else if a = nl ∧ b = nk then some fun _ l k => [l, k]
    else none
  | [a, b, c] =>
    if b = nl ∧ (a = np ∨ a = 1 ∧ 1 ≤ np) ∧ (c = nk ∨ c = 1 ∧ 1 ≤ nk) then
      some fun p l k => [if a = 1 then 0 else p, l, if c = 1 then 0 else k]
    else none
  | _ => none

/-- `eps_env`: a number or one value per wavenumber. -/
def envIndex (nk : ℕ) : List ℕ → Option (ℕ → List ℕ)
  | [] => if 1 ≤ nk then some fun _ => [] else none
  | [a] => if a = nk then some fun k => [k] else if a = 1 ∧ 1 ≤ nk then some fun _ => [0] else none
  | _ => none

/-- Sizes and index tables of a documented set of arrays. -/
structure Reading where
  nPart : ℕ
  nLayers : ℕ
  nK : ℕ
  k0 : ℕ → List ℕ
  r : ℕ → ℕ → List ℕ
  eps : ℕ → ℕ → ℕ → List ℕ
  env : ℕ → List ℕ

/-- Reading of four shapes. -/
def reading (sk sr se sv : List ℕ) : Option Reading := do
  let (nk, ik) ← k0Index sk
  let (np, nl, ir) ← rIndex sr
  let ie ← epsIndex np nl nk se
  let iv ← envIndex nk sv
  some ⟨np, nl, nk, ik, ir, ie, iv⟩

/-- Legacy `eps_c` of homogeneous spheres (`N_part` radii): a number, one value per particle, a spectrum, or
`(N_part, N_k0)` where each axis may have length one.  One value per particle is preferred to a spectrum. -/
def legacy1Index (np nk : ℕ) : List ℕ → Option (ℕ → ℕ → List ℕ)
  | [] => if np = 1 ∨ nk = 1 then some fun _ _ => [] else none
  | [a] =>
    if a = np ∧ 1 < np then some fun p _ => [p]
    else if a = nk then some fun _ k => [k]
    else if a = 1 ∧ np = 1 then some fun _ _ => [0]
    else none
  | [a, b] =>
    if (a = np ∨ a = 1 ∧ 1 ≤ np) ∧ (b = nk ∨ b = 1 ∧ 1 ≤ nk) then
      some fun p k => [if a = 1 then 0 else p, if b = 1 then 0 else k]
    else none
  | _ => none

/-- Legacy `eps_c`, `eps_s` (of one shape) of core-shell spheres. -/
def legacy2Index (np nk : ℕ) : List ℕ → Option (ℕ → ℕ → List ℕ)
  | [] => if np = 1 then some fun _ _ => [] else none
  | [a] =>
    if a = np ∧ 1 < np then some fun p _ => [p]
    else if a = nk then some fun _ k => [k]
    else none
  | [a, b] =>
    if (a = np ∨ a = 1 ∧ 1 ≤ np) ∧ (b = nk ∨ b = 1 ∧ 1 ≤ nk) then
      some fun p k => [if a = 1 then 0 else p, if b = 1 then 0 else k]
    else none
  | _ => none

end MieDiff.Spec
