import Verif.Model.NearPena
import Verif.Model.Tg

/-!
# Model of the field evaluation of `extract_GPM_sphere_miediff` (helper/tg.py:374-594) on tensors

`Verif/Model/Tg.lean` evaluates position by position; here the positions are one tensor per call of `get_nearfields`, whose
result has lost its axes of length one.
-/

namespace MieDiff

open Matrix

/-- `torch.matmul(t, R)` with a 3x3 matrix: the last axis of `t` has to have length 3. Code: helper/tg.py:412-413, 433, 435. -/
def Ten.matmul3 {α : Type} [Semiring α] (t : Ten α) (R : Matrix (Fin 3) (Fin 3) α) : Py (Ten α) :=
  match t.shape.getLast? with
  | some 3 => .ok ⟨t.shape, fun idx => ∑ c : Fin 3, t.get (idx.dropLast ++ [(c : ℕ)]) * R c (Fin.ofNat 3 (idx.getLastD 0))⟩
  | _ => .error .runtimeError

/-- tg.py:432-435: all fields of a dictionary times a matrix. -/
def FieldsT.matmul3 (F : FieldsT) (R : Matrix (Fin 3) (Fin 3) ℂ) : Py FieldsT := do
  let Ei ← F.Ei.matmul3 R
  let Hi ← F.Hi.matmul3 R
  let Es ← F.Es.matmul3 R
  let Hs ← F.Hs.matmul3 R
  let Et ← F.Et.matmul3 R
  let Ht ← F.Ht.matmul3 R
  .ok { Ei := Ei, Hi := Hi, Es := Es, Hs := Hs, Et := Et, Ht := Ht }

/-- The four arrays returned by `_eval_mie`. Code: helper/tg.py:442. -/
structure IncT where
  eSca : Ten ℂ
  hSca : Ten ℂ
  eInc : Ten ℂ
  hInc : Ten ℂ

/-- tg.py:374-442 `_eval_mie`; `nf₁` and `nf₂` are the two calls of `mie_particle.get_nearfields`. -/
noncomputable def evalMieT (nf₁ nf₂ : Ten ℝ → Py FieldsT) (conf : IncConf) (rProbe rGpm : Ten ℝ) : Py IncT := do
  let rot ← planeWaveRotation conf.angle conf.plane conf.pol
  let rp ← rProbe.matmul3 rot
  let rg ← rGpm.matmul3 rot
  let sca ← nf₁ rp
  let inc ← nf₂ rg
  let rev := rotᵀ.map fun x => (x : ℂ)
  let sca ← sca.matmul3 rev
  let inc ← inc.matmul3 rev
  .ok { eSca := sca.Es, hSca := sca.Hs, eInc := inc.Ei, hInc := inc.Hi }

/-- `torch.abs(field).max()`. Code: helper/tg.py:588. -/
noncomputable def absMaxT (t : Ten ℂ) : Py ℝ :=
  match t.entries.map fun v => ‖v‖ with
  | [] => .error .runtimeError
  | x :: xs => .ok (xs.foldl max x)

/-- `len(t)`. Code: helper/tg.py:576-585. -/
def Ten.len {α : Type} (t : Ten α) : Py ℕ :=
  match t.shape with
  | [] => .error .typeError
  | n :: _ => .ok n

/-- tg.py:587-594 for one illumination: the normalised fields as they are written to one row of the arrays. -/
noncomputable def fillRow (nP nG : ℕ) (f : IncT) : Py IncT := do
  let a ← absMaxT f.eSca
  let b ← absMaxT f.hSca
  let c ← absMaxT f.eInc
  let d ← absMaxT f.hInc
  let norm := max (max (max (max a b) c) d) 1e-30
  let eS ← (f.eSca.map fun v => v / (norm : ℂ)).broadcastTo [nP, 3]
  let hS ← (f.hSca.map fun v => v / (norm : ℂ)).broadcastTo [nP, 3]
  let eI ← (f.eInc.map fun v => v / (norm : ℂ)).broadcastTo [nG, 3]
  let hI ← (f.hInc.map fun v => v / (norm : ℂ)).broadcastTo [nG, 3]
  .ok { eSca := eS, hSca := hS, eInc := eI, hInc := hI }

/-- `arr[i] = rows[i]` for all rows of a new array (tg.py:574-585, 591-594). -/
noncomputable def fillArray (n : ℕ) (rows : List (Ten ℂ)) : Ten ℂ :=
  ⟨[rows.length, n, 3], fun idx => (rows.getD (idx.headD 0) ⟨[], fun _ => 0⟩).get idx.tail⟩

/-- tg.py:559-594: the arrays handed to `extract_gpm_from_fields` for one wavenumber.  `nf i` is the `i`-th call of
`get_nearfields`. -/
noncomputable def gpmArraysT (nf : ℕ → Ten ℝ → Py FieldsT) (confs : List IncConf) (rProbe rGpm : Ten ℝ) : Py IncT := do
  let fs ← confs.zipIdx.mapM fun c => evalMieT (nf (2 * c.2)) (nf (2 * c.2 + 1)) c.1 rProbe rGpm
  let nG ← rGpm.len
  let nP ← rProbe.len
  let gs ← fs.mapM (fillRow nP nG)
  .ok { eSca := fillArray nP (gs.map (·.eSca)), hSca := fillArray nP (gs.map (·.hSca))
        eInc := fillArray nG (gs.map (·.eInc)), hInc := fillArray nG (gs.map (·.hInc)) }

/-- The objects after `i` evaluations of the materials of a particle at one wavenumber. Code: helper/tg.py:561-572 with main.py:257-266. -/
noncomputable def Particle.heapAfter (C : Casts) (p : Particle) (k0 : DTen ℝ) (h : Heap) (i : ℕ) : Heap :=
  (fun h => (p.permittivities C k0 h).2)^[i] h

/-- tg.py:558-594 for a particle: every call of `get_nearfields` evaluates the materials anew, on the objects left by the calls
before.  `which_jn` and `E_0` are not passed on. -/
noncomputable def Particle.gpmArrays (A : BackendsOf ArrFns) (J : TorchFns) (C : Casts) (p : Particle) (k0 : DTen ℝ) (h : Heap)
    (confs : List IncConf) (rProbe rGpm : Ten ℝ) (backend : Option String := none) (nMax : Option ℤ := none) : Py IncT :=
  gpmArraysT (fun i probe => p.nearfieldsWith A J C k0 probe (p.heapAfter C k0 h i) 1 (resolveBackend p.rLayers.numel backend)
    "recurrence" nMax) confs rProbe rGpm

end MieDiff
