import Verif.Model.Backward
import Verif.Model.Materials

/-!
# Reverse-mode differentiation through dispersive materials

The permittivities that a `Particle` hands to the solver are computed from the wavenumber: `k0 -> 2 pi / k0 -> interpolation or Sellmeier
formula`, with the cache of `MatDatabase` in between.  Nodes and conventions are those of Model/Backward.  Simplifications: the casts to
`float32` and `complex64` are left out (the gradient passes through them unchanged), so is the device; one wavenumber.
-/

namespace MieDiff

namespace Node

variable {V : Type} [AddCommGroup V]

/-- `d[d < 0] = 0.0`: an entry that is overwritten hands no gradient on. Code: helper/helper.py:358-359. -/
noncomputable def clampNeg (x : Node V) : Node V :=
  { where' (x.val.re < 0) (const 0) x with ok := x.ok ∧ x.val.re ≠ 0 }

/-- Positions of the left and the right neighbour in the sorted table. Code: helper/helper.py:350-353. -/
noncomputable def interpIdx (x : ℝ) (s : List (ℝ × ℂ)) : ℕ × ℕ :=
  let idxR := bucketize x (s.map Prod.fst)
  let n : ℤ := s.length
  ((min (max ((idxR : ℤ) - 1) 0) (n - 1)).toNat, (min (max (idxR : ℤ) 0) (n - 1)).toNat)

/-- The weights and the interpolated value between the rows `l` and `r`. Code: helper/helper.py:356-366. -/
noncomputable def interpPair (x : Node V) (l r : ℝ × ℂ) : Node V :=
  let dL := clampNeg (sub x (const l.1))
  let dR := clampNeg (sub (const r.1) x)
  let dL1 := where' (dL.val = 0 ∧ dR.val = 0) (const 1) dL
  div (add (mul (const l.2) dR) (mul (const r.2) dL1)) (add dL1 dR)

/-- `interp1d` at one point; positions carry no gradient. Code: helper/helper.py:318-368. -/
noncomputable def interp1d (x : Node V) (dat : List (ℝ × ℂ)) : Py (Node V) :=
  let s := dat.mergeSort fun a b => decide (a.1 ≤ b.1)
  let idx := interpIdx x.val.re s
  match s[idx.1]?, s[idx.2]? with
  | some l, some r => .ok (interpPair x l r)
  | _, _ => .error .indexError

/-- `c1 * (w**2) / (w**2 - c2**2)`. Code: materials/mat.py:371-372. -/
noncomputable def sellTerm (c1 c2 : ℝ) (w : Node V) : Node V := div (mul (const c1) (sq w)) (sub (sq w) (const ((c2 ^ 2 : ℝ) : ℂ)))

/-- The Sellmeier branch of `_eval`. Code: materials/mat.py:368-377. -/
noncomputable def sellmeier (coeff : List ℝ) (wl : Node V) : Py (Node V) := do
  let c0 ← pyIdx coeff 0
  (List.range' 1 (coeff.length / 2) 2).foldlM (fun eps i => do
    let c1 ← pyIdx coeff i
    let c2 ← pyIdx coeff (i + 1)
    .ok (add eps (sellTerm c1 c2 (div wl (const 1000))))) (const ((1 + c0 : ℝ) : ℂ))

/-- `_eval`. Code: materials/mat.py:359-384. -/
noncomputable def dispersion (m : Dispersion) (wl : Node V) : Py (Node V) :=
  match m with
  | .table rows => interp1d wl rows
  | .formula num coeff => if num = 1 then sellmeier coeff wl else .error .valueError

end Node

/-- A material object: a constant permittivity, or a database entry with its cache `lookup_eps`. Code: materials/mat.py:162-214, 242-330. -/
inductive MatNode (V : Type) where
  | const (eps : Node V)
  | db (disp : Dispersion) (cache : List (ℝ × Node V))

namespace MatNode

variable {V : Type} [AddCommGroup V]

/-- Look up the key `float(wavelength)`. Code: materials/mat.py:388-391. -/
noncomputable def lookup (cache : List (ℝ × Node V)) (key : ℝ) : Option (Node V) := (cache.find? fun e => e.1 = key).map (·.2)

/-- `get_epsilon` for one wavelength: the result and the object afterwards. Code: materials/mat.py:197-214, 386-417. -/
noncomputable def getEpsilon (m : MatNode V) (wl : Node V) : Py (Node V) × MatNode V :=
  match m with
  | .const e => (.ok e, m)
  | .db disp cache =>
    match lookup cache wl.val.re with
    | some e => (.ok e, m)
    | none =>
      match Node.dispersion disp wl with
      | .error e => (.error e, m)
      | .ok e => (.ok e, .db disp (cache ++ [(wl.val.re, e)]))

/-- The permittivities of the layers in order, and the objects afterwards. Code: main.py:264-266. -/
noncomputable def getAll (wl : Node V) : List (MatNode V) → Py (List (Node V)) × List (MatNode V)
  | [] => (.ok [], [])
  | m :: ms =>
    match m.getEpsilon wl with
    | (.error e, m') => (.error e, m' :: ms)
    | (.ok x, m') =>
      match getAll wl ms with
      | (.error e, ms') => (.error e, m' :: ms')
      | (.ok xs, ms') => (.ok (x :: xs), m' :: ms')

end MatNode

/-- A particle made from materials, no object used twice. Code: main.py:115-242. -/
structure ParticleNode (V : Type) where
  r : List (Node V)
  mats : List (MatNode V)
  env : MatNode V

namespace ParticleNode

variable {V : Type} [AddCommGroup V]

/-- `get_material_permittivities` at one wavenumber, put together with the radii to what is handed to the solver; and the particle
afterwards. Code: main.py:244-268, 292-300, 327-335. -/
noncomputable def inputs (q : ParticleNode V) (k0 : Node V) : Py (Node.Inputs V) × ParticleNode V :=
  let wl := Node.rdiv (2 * Real.pi) k0
  match q.env.getEpsilon wl with
  | (.error e, env') => (.error e, { q with env := env' })
  | (.ok env, env') =>
    match MatNode.getAll wl q.mats with
    | (.error e, mats') => (.error e, { q with env := env', mats := mats' })
    | (.ok eps, mats') => (.ok ⟨k0, q.r, eps, env⟩, { q with env := env', mats := mats' })

/-- `Particle.get_mie_coefficients(k0, backend='pena')` at order `i`. Code: main.py:270-308. -/
noncomputable def mie (n N : ℕ) (q : ParticleNode V) (k0 : Node V) (i : ℕ) : Py (Node V × Node V) × ParticleNode V :=
  ((q.inputs k0).1.map fun p => Node.mie n N p i, (q.inputs k0).2)

/-- `Particle.get_cross_sections(k0, backend='pena')`. Code: main.py:310-342. -/
noncomputable def crossSections (n N : ℕ) (q : ParticleNode V) (k0 : Node V) : Py (Node.Cross V) × ParticleNode V :=
  ((q.inputs k0).1.map fun p => Node.cross n N p, (q.inputs k0).2)

end ParticleNode

end MieDiff
