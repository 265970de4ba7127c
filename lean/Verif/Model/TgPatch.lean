import Verif.Model.Py
import Mathlib.LinearAlgebra.Matrix.NonsingularInverse

/-!
# Model of `patch_torchgdm_autodiff` (helper/tg.py:684-758)

The function replaces three methods of torchgdm's linear-system classes.  What those methods call inside torchgdm is not part
of the repository and enters as a parameter: the lists returned by `get_polarizability_6x6(...).unbind()` and
`get_selfterm_6x6(...).unbind()`, the reduced interaction matrix, the mask of polarizable components, the matrix returned by
`get_interact` and the illumination.  `torch.linalg.lu_factor` with `_batched_lu_solve` is exact solution of the linear
system.  If torchgdm cannot be imported the function does nothing.
-/

namespace MieDiff

/-- A 2-D tensor of any size. Code: helper/tg.py:697-717. -/
structure Mat where
  rows : ℕ
  cols : ℕ
  get : ℕ → ℕ → ℂ

/-- `torch.block_diag(*bs)`: every block is put below and right of the previous ones, zeros elsewhere. Code: helper/tg.py:697, 704, 706. -/
def blockDiag (bs : List Mat) : Mat :=
  bs.foldl (fun acc b =>
    { rows := acc.rows + b.rows
      cols := acc.cols + b.cols
      get := fun i j =>
        if i < acc.rows ∧ j < acc.cols then acc.get i j
        else if acc.rows ≤ i ∧ acc.cols ≤ j then b.get (i - acc.rows) (j - acc.cols)
        else 0 }) ⟨0, 0, fun _ _ => 0⟩

/-- `torch.ones_like(s.real)` of a block. Code: helper/tg.py:707. -/
def onesLike (b : Mat) : Mat := ⟨b.rows, b.cols, fun _ _ => 1⟩

open Classical in
/-- `x.masked_fill(mask == 1, 0)`; the shapes have to agree (broadcasting of a one-row mask is not considered, the blocks
have at least six rows). Code: helper/tg.py:714. -/
noncomputable def maskedFill0 (x mask : Mat) : Py Mat :=
  if x.rows = mask.rows ∧ x.cols = mask.cols then
    .ok ⟨x.rows, x.cols, fun i j => if mask.get i j = 1 then 0 else x.get i j⟩
  else .error .runtimeError

/-- `x + y` for equal shapes. Code: helper/tg.py:715. -/
noncomputable def addMat (x y : Mat) : Py Mat :=
  if x.rows = y.rows ∧ x.cols = y.cols then .ok ⟨x.rows, x.cols, fun i j => x.get i j + y.get i j⟩
  else .error .runtimeError

/-- `torch.matmul(x, y)`. Code: helper/tg.py:717. -/
noncomputable def matMul (x y : Mat) : Py Mat :=
  if x.cols = y.rows then .ok ⟨x.rows, y.cols, fun i j => ∑ l ∈ Finset.range x.cols, x.get i l * y.get l j⟩
  else .error .runtimeError

/-- helper/tg.py:691-717 `_get_full_Gdotalpha_no_inplace`: `alphas`, `selfs` are the unbound lists over all structures, `G`
the reduced interaction matrix. -/
noncomputable def gDotAlpha (alphas selfs : List Mat) (G : Mat) : Py Mat := do
  let blockPola := blockDiag alphas
  let blockSelf := blockDiag selfs
  let ones := blockDiag (alphas.map onesLike)
  let g1 ← maskedFill0 G ones
  let g2 ← addMat g1 blockSelf
  matMul g2 blockPola

/-- helper/tg.py:730-731: `torch.nonzero(mask).squeeze(-1)`. -/
def nonzeroIdx (mask : List Bool) : List ℕ := (List.range mask.length).filter fun i => mask.getD i false

open Classical in
/-- `base.scatter(0, idx, src)`: out of place, `out[idx[k]] = src[k]`.  Torch rejects an index tensor longer than the source
and indices outside of the base. Code: helper/tg.py:735. -/
noncomputable def scatter0 (base : List ℂ) (idx : List ℕ) (src : List ℂ) : Py (List ℂ) :=
  if src.length < idx.length ∨ ∃ i ∈ idx, base.length ≤ i then .error .runtimeError
  else .ok ((idx.zip src).foldl (fun b iv => b.set iv.1 iv.2) base)

/-- helper/tg.py:721-736 `_zero_fill_nonpolarizable_fields_no_inplace` on flattened tensors: `len(illumination_fields)`,
`len(get_all_positions())`, flattened mask, flattened solution.  Result: the flattened `(nIll, nPos, 6)` tensor. -/
noncomputable def zeroFillFields (nIll nPos : ℕ) (mask : List Bool) (vals : List ℂ) : Py (List ℂ) :=
  scatter0 (List.replicate (nIll * nPos * 6) 0) (nonzeroIdx mask) vals

/-- `torch.chunk(x, 2, dim=2)` of the `(nIll, nPos, 6)` tensor: electric and magnetic part, as functions of illumination,
position and component. Code: helper/tg.py:754. -/
def chunkEH (nPos : ℕ) (flat : List ℂ) : (ℕ → ℕ → Fin 3 → ℂ) × (ℕ → ℕ → Fin 3 → ℂ) :=
  (fun q p c => flat.getD ((q * nPos + p) * 6 + c) 0, fun q p c => flat.getD ((q * nPos + p) * 6 + 3 + c) 0)

/-- helper/tg.py:747-755 `_solve_no_inplace`: `interact` from `get_interact`, one illumination vector per entry of `f0`. -/
noncomputable def tgSolve {d : ℕ} (interact : Matrix (Fin d) (Fin d) ℂ) (f0 : List (Fin d → ℂ)) (nPos : ℕ)
    (mask : List Bool) : Py ((ℕ → ℕ → Fin 3 → ℂ) × (ℕ → ℕ → Fin 3 → ℂ)) := do
  let fMasked := f0.map fun f => interact⁻¹.mulVec f
  let flat ← zeroFillFields f0.length nPos mask (fMasked.flatMap fun x => List.ofFn x)
  pure (chunkEH nPos flat)

end MieDiff
