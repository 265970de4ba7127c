import Verif.Model.Materials

/-!
# Remembered permittivities and freed graphs

`loss.backward()` frees the buffers of every operation it passes, and passing such an operation again is a `RuntimeError` (PyTorch).  The
permittivities that a `MatDatabase` remembers keep the graph of the call that computed them.  Here a session is a sequence of calls and backward
passes on one particle; of every tensor only the calls whose operations are behind it are kept.  Simplifications: one wavenumber per call, one
object per layer, values and devices left out, a `backward` that raises frees nothing.
-/

namespace MieDiff

/-- A material object: a constant, or a database entry with the remembered wavelengths and, if the tensor has a graph, the call it
comes from. Code: materials/mat.py:162-214, 318, 386-397. -/
inductive GraphMat
  | const
  | db (disp : Dispersion) (cache : List (ℝ × Option ℕ))

namespace GraphMat

/-- Code: materials/mat.py:390-391. -/
noncomputable def lookup (cache : List (ℝ × Option ℕ)) (key : ℝ) : Option (Option ℕ) := (cache.find? fun e => e.1 = key).map (·.2)

/-- `get_epsilon(wavelength)` during call `t`: the call that the result's graph comes from, and the object afterwards. `req` says whether the
wavelength requires a gradient. Code: materials/mat.py:197-214, 386-417. -/
noncomputable def getEpsilon (t : ℕ) (req : Bool) (wl : ℝ) : GraphMat → Py (Option ℕ) × GraphMat
  | .const => (.ok none, .const)
  | .db disp cache =>
    match lookup cache wl with
    | some e => (.ok e, .db disp cache)
    | none =>
      match disp.eval wl with
      | .error e => (.error e, .db disp cache)
      | .ok _ =>
        let g := if req && disp.differentiable then some t else none
        (.ok g, .db disp (cache ++ [(wl, g)]))

/-- The environment and the layers in order. Code: main.py:260-266. -/
noncomputable def getAll (t : ℕ) (req : Bool) (wl : ℝ) : List GraphMat → Py (List ℕ) × List GraphMat
  | [] => (.ok [], [])
  | m :: ms =>
    match m.getEpsilon t req wl with
    | (.error e, m') => (.error e, m' :: ms)
    | (.ok g, m') =>
      match getAll t req wl ms with
      | (.error e, ms') => (.error e, m' :: ms')
      | (.ok gs, ms') => (.ok (g.toList ++ gs), m' :: ms')

end GraphMat

/-- A particle and the results a program holds: for every call the calls whose operations are behind its result (`none`: the call raised), and
the calls whose graphs were freed. Code: no counterpart: a program that uses main.py:270-342. -/
structure GraphSession where
  mats : List GraphMat
  results : List (Option (List ℕ))
  freed : List ℕ

/-- One statement. Code: main.py:270-342, and `loss.backward(retain_graph=...)` of PyTorch. -/
inductive GraphOp
  /-- `res = particle.get_cross_sections(k0)` at the wavelength `wl`; `req`: `k0.requires_grad`; `other`: the radii, or another input, require a
  gradient. Code: main.py:310-342. -/
  | call (wl : ℝ) (req other : Bool)
  /-- `loss(res).backward(retain_graph=retain)` on the result of call `m`. -/
  | backward (m : ℕ) (retain : Bool)

namespace GraphSession

/-- A particle whose materials have not been used. Code: main.py:47-196; materials/mat.py:318. -/
def new (mats : List (Option Dispersion)) : GraphSession := ⟨mats.map fun m => m.elim .const fun d => .db d [], [], []⟩

/-- The calls behind the result of call `t`: those of its permittivities, and itself if anything requires a gradient. Code: main.py:310-342. -/
def behind (t : ℕ) (req other : Bool) (gs : List ℕ) : List ℕ := if req || other || !gs.isEmpty then t :: gs else []

/-- What a statement raises, and the session afterwards. Code: main.py:270-342; `backward` of PyTorch. -/
noncomputable def step (s : GraphSession) : GraphOp → Py Unit × GraphSession
  | .call wl req other =>
    let t := s.results.length
    match GraphMat.getAll t req wl s.mats with
    | (.error e, ms) => (.error e, { s with mats := ms, results := s.results ++ [none] })
    | (.ok gs, ms) => (.ok (), { s with mats := ms, results := s.results ++ [some (behind t req other gs)] })
  | .backward m retain =>
    match s.results[m]? with
    | some (some (g :: gs)) =>
      if ∃ x ∈ g :: gs, x ∈ s.freed then (.error .runtimeError, s)
      else (.ok (), if retain then s else { s with freed := s.freed ++ g :: gs })
    | _ => (.error .runtimeError, s)

/-- A program; statements that raise are caught. Code: no counterpart: a program that uses main.py:270-342. -/
noncomputable def run (s : GraphSession) (ops : List GraphOp) : GraphSession := ops.foldl (fun s op => (s.step op).2) s

end GraphSession

end MieDiff
