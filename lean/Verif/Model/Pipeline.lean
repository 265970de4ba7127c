import Verif.Model.Multishell

/-!
# Model of `mie_coefficients` and `cross_sections` (multishell.py) for one particle at one wavenumber

Shapes and broadcasting are in `Verif/Model/Batch.lean`; here `r_layers` is `(L,)`, `eps_layers` is `(L,)`.
-/

namespace MieDiff

open Complex

/-- The special-function implementations behind the backends: `sph_jn_torch_via_rec`, `sph_jn_torch`
(both with `sph_yn_torch`) and the scipy wrappers (multishell.py:59-70). -/
structure BackendsOf (α : Type) where
  torchRec : α
  torchRatio : α
  scipy : α

/-- The special functions of single elements behind the backends. Code: multishell.py:60-70. -/
abbrev Backends := BackendsOf BesselBackend

/-- multishell.py:59-70: choice of the special functions in `_miecoef`. -/
def selectBessel {α : Type} (B : BackendsOf α) (backend whichJn : String) : Py α :=
  if backend.toLower = "torch" ∧ whichJn.toLower ≠ "recurrence" then .ok B.torchRatio
  else if backend.toLower = "torch" ∧ whichJn.toLower = "recurrence" then .ok B.torchRec
  else if backend.toLower = "scipy" then .ok B.scipy
  else .error .valueError

/-- Result of `mie_coefficients` (multishell.py:777-799), one element.  `internal` holds the eight
core-shell coefficients per order when they were requested. -/
structure MieOut where
  k : ℂ
  nMax : ℤ
  rC : ℝ
  rS : ℝ
  epsC : ℂ
  epsS : ℂ
  nEnv : ℂ
  m : List ℂ
  a : List ℂ
  b : List ℂ
  internal : Option (List CoreShellOut)

/-- multishell.py:588-589 for one particle. -/
def strictlyIncreasing : List ℝ → Prop
  | [] => True
  | [_] => True
  | r :: r' :: rest => r < r' ∧ strictlyIncreasing (r' :: rest)

/-- `torch.arange(1, n_max + 1)` (multishell.py:739): raises `RuntimeError` when the end is below the
start. -/
def orderRange (nMax : ℤ) : Py (List ℕ) :=
  if nMax + 1 < 1 then .error .runtimeError else .ok ((List.range nMax.toNat).map (· + 1))

/-- Arguments of `mie_coefficients` that are not options (multishell.py:641-655). -/
structure Particle1 where
  k0 : ℂ
  rLayers : List ℝ
  epsLayers : List ℂ
  epsEnv : ℂ

/-- helper.py:78-145 called at multishell.py:726-731 with one element. -/
noncomputable def Particle1.trunc (p : Particle1) : TruncEntry :=
  ⟨p.k0, p.epsEnv, p.rLayers.zip p.epsLayers⟩

/-- multishell.py:722-737: the truncation order, `n_max` when given, else `get_truncution_criteroin_pena2009` or the Wiscombe
rule by backend. -/
noncomputable def orderChoice (backendL : String) (p : Particle1) (nMax : Option ℤ) : Py ℤ :=
  match nMax with
  | some n => .ok n
  | none =>
    if backendL = "pena" then penaNmax [p.trunc]
    else wiscombe [((p.rLayers.getLastD 0 : ℝ) : ℂ) * p.k0 * csqrt p.epsEnv]

open Classical in
/-- multishell.py:641-799 `mie_coefficients`, one element.  `K` is the log-derivative kernel of the pena
backend (`codeD1` in the code). -/
noncomputable def mieCoefficients (K : D1Kernel) (B : Backends) (p : Particle1)
    (backend : String := "pena") (whichJn : String := "recurrence") (nMax : Option ℤ := none)
    (returnInternal : Bool := false) : Py MieOut := do
  let backendL := backend.toLower
  if ¬(backendL = "torch" ∨ backendL = "scipy" ∨ backendL = "pena") then .error .valueError else
  if ¬strictlyIncreasing p.rLayers then .error .valueError else
  if p.epsLayers.length ≠ p.rLayers.length then .error .valueError else
  let nEnv := csqrt p.epsEnv
  let rC ← pyIdx p.rLayers 0
  let rS := if p.rLayers.length > 1 then p.rLayers.getLastD 0 else rC
  let epsC ← pyIdx p.epsLayers 0
  let epsS := if p.rLayers.length > 1 then p.epsLayers.getLastD 0 else epsC
  let n ← orderChoice backendL p nMax
  let _ ← orderRange n
  let k := p.k0 * nEnv
  let (a, b, internal) ← (
    if backendL = "pena" then do
      let (a, b) ← miecoefPenaK K k p.rLayers p.epsLayers nEnv n returnInternal
      .ok (a, b, none)
    else if p.rLayers.length > 2 then .error .valueError
    else do
      let S ← selectBessel B backend whichJn
      let out ← miecoef S (k * (rC : ℂ)) (k * (rS : ℂ)) n (csqrt epsC / nEnv) (csqrt epsS / nEnv)
      .ok (out.map (·.a), out.map (·.b), if returnInternal then some out else none)
    : Py (List ℂ × List ℂ × Option (List CoreShellOut)))
  .ok { k := k, nMax := n, rC := rC, rS := rS, epsC := epsC, epsS := epsS, nEnv := nEnv
        m := p.epsLayers.map fun e => csqrt e / nEnv
        a := a, b := b, internal := internal }

/-- multishell.py:803-893 `cross_sections`, one element. -/
noncomputable def crossSectionsOf (K : D1Kernel) (B : Backends) (p : Particle1)
    (backend : String := "pena") (whichJn : String := "recurrence") (nMax : Option ℤ := none) :
    Py CrossSections := do
  let o ← mieCoefficients K B p backend whichJn nMax
  .ok (crossSections o.k o.rS o.a o.b)

end MieDiff
