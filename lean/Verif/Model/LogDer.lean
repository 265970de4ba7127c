import Verif.Model.Autograd
import Verif.Model.Helper
import Verif.Model.Tensor

/-!
# Model of the unused logarithmic-derivative helpers of `special.py`

`D1n_torch`, `D3n_torch`, `Ql_torch`, `psi_torch_logdir` and `xi_torch_logdir` (special.py:1208-1447) on tensors.  A tensor with a
leading order axis is the list of its slices.  No other function of the package calls them.
-/

namespace MieDiff

open Complex

/-- `torch.stack(l, dim=0)`, as the list of slices: `RuntimeError` for an empty list or different shapes. Code: special.py:1271, 1323. -/
def stackSame {α : Type} (l : List (Ten α)) : Py (List (Ten α)) :=
  match l with
  | [] => .error .runtimeError
  | t :: ts => if ∀ u ∈ ts, u.shape = t.shape then .ok (t :: ts) else .error .runtimeError

/-- `l[i]` of a Python list or tuple, or of a tensor along its first axis, with Python's negative indices. Code: special.py:1341-1377. -/
def pyIdxInt {α : Type} (l : List α) (i : ℤ) : Py α :=
  if 0 ≤ i then pyIdx l i.toNat
  else if 0 ≤ i + l.length then pyIdx l (i + l.length).toNat else .error .indexError

/-- Loop body special.py:1264-1267 on the entries of a tensor. -/
noncomputable def d1TorchStepT (nMax : ℕ) (z : List ℕ → ℂ) (st : (List ℕ → ℂ) × List (List ℕ → ℂ)) (nn : ℕ) :
    (List ℕ → ℂ) × List (List ℕ → ℂ) :=
  let d : List ℕ → ℂ := fun idx => (nn : ℂ) / z idx - 1 / (st.1 idx + (nn : ℂ) / z idx)
  (d, if nn ≤ nMax + 1 then st.2 ++ [d] else st.2)

/-- special.py:1208-1272 `D1n_torch` on a tensor, with `n_add="auto"`.  `max()` of a tensor without entries is a `RuntimeError`. -/
noncomputable def d1TorchT (n : ℤ) (z : Ten ℂ) (nAddMin : ℤ := 10) (nAddMax : ℤ := 35) (eps : ℝ := 1e-10) : Py (List (Ten ℂ)) :=
  if n < 0 then .error .runtimeError
  else do
    let zt := z.atleast1
    let zs : List ℕ → ℂ := fun idx => guardSet eps (zt.get idx)
    let zm ← maxAbs z.entries
    let k ← resolveNAddRec (.str "auto") nAddMin nAddMax zm
    let st := (rangeDown (n + k).toNat).foldl (d1TorchStepT n.toNat zs) (fun _ => 0, [])
    stackSame (st.2.reverse.map fun f => ⟨zt.shape, f⟩)

/-- Loop body special.py:1315-1321; the state is `(D3ns, psixis)` and `zt` is `_z[-1, ...]`. -/
noncomputable def d3TorchStep (zt : Ten ℂ) (D1 : List (Ten ℂ)) (st : List (Ten ℂ) × List (Ten ℂ)) (nn : ℕ) :
    Py (List (Ten ℂ) × List (Ten ℂ)) := do
  let pPrev ← pyIdx st.2 (nn - 1)
  let d1m ← pyIdx D1 (nn - 1)
  let t1 ← Ten.op2 (fun z d => (nn : ℂ) / z - d) zt d1m
  let u ← Ten.op2 (· * ·) pPrev t1
  let d3m ← pyIdx st.1 (nn - 1)
  let t2 ← Ten.op2 (fun z d => (nn : ℂ) / z - d) zt d3m
  let p ← Ten.op2 (· * ·) u t2
  let d1 ← pyIdx D1 nn
  let d3 ← Ten.op2 (fun d p => d + I / p) d1 p
  .ok (st.1 ++ [d3], st.2 ++ [p])

/-- special.py:1276-1326 `D3n_torch`, returning the tuple `(D3ns, psixis)`.  The product of order zero (line 1303) is computed from
the argument as given, without the guard and without the axis that `atleast_1d` adds to a number. -/
noncomputable def d3TorchT (n : ℤ) (z : Ten ℂ) (D1 : List (Ten ℂ)) (eps : ℝ := 1e-10) : Py (List (Ten ℂ) × List (Ten ℂ)) :=
  if n < 0 then .error .runtimeError
  else do
    let zt := z.atleast1.map (guardSet eps)
    let psixi0 := z.map fun w => -I * exp (I * w) * sin w
    let st ← (rangeFrom1 (n.toNat + 1)).foldlM (d3TorchStep zt D1) ([zt.map fun _ => I], [psixi0])
    let D3 ← stackSame st.1
    let psixi ← stackSame st.2
    .ok (D3, psixi)

/-- `x[-1, ...]`. Code: special.py:1260-1320. -/
def lastSlice {α : Type} (x : Ten α) : Py (Ten α) := x.selectLast 0

/-- Loop body special.py:1408-1410, with the index `n_iter-2` as written. -/
noncomputable def psiLogdirStep (xL : Ten ℂ) (D1 : List (Ten ℂ)) (psis : List (Ten ℂ)) (nn : ℕ) : Py (List (Ten ℂ)) := do
  let prev ← pyIdxInt psis ((nn : ℤ) - 2)
  let d ← pyIdxInt D1 ((nn : ℤ) - 2)
  let t ← Ten.op2 (fun z d => (nn : ℂ) / z - d) xL d
  let p ← Ten.op2 (· * ·) prev t
  .ok (psis ++ [p])

/-- special.py:1382-1412 `psi_torch_logdir` (`l` and `m` are not used).  There is no `return`: a call that does not raise gives
`None`. -/
noncomputable def psiLogdir (n : ℤ) (x : Ten ℂ) : Py (Option (List (Ten ℂ))) := do
  let xL ← lastSlice x
  let D1 ← d1TorchT n xL
  let psis ← (rangeFrom1 11).foldlM (psiLogdirStep xL D1) [xL.map sin]
  let _ ← stackSame psis
  .ok none

/-- The tensor with the given slices along its first axis. Code: special.py:1271, 1323-1324. -/
noncomputable def joinSlices (l : List (Ten ℂ)) : Ten ℂ :=
  ⟨l.length :: (l.headD (Ten.scalar 0)).shape, fun idx => (l.getD (idx.headD 0) (Ten.scalar 0)).get idx.tail⟩

/-- Loop body special.py:1443-1445: `D3n_xL` is the tuple of `D3n_torch`, so the index selects one of the two tensors of all
orders. -/
noncomputable def xiLogdirStep (xL : Ten ℂ) (D3 : List (Ten ℂ) × List (Ten ℂ)) (xis : List (Ten ℂ)) (nn : ℕ) :
    Py (List (Ten ℂ)) := do
  let prev ← pyIdxInt xis ((nn : ℤ) - 2)
  let d ← pyIdxInt [joinSlices D3.1, joinSlices D3.2] ((nn : ℤ) - 2)
  let t ← Ten.op2 (fun z d => (nn : ℂ) / z - d) xL d
  let p ← Ten.op2 (· * ·) prev t
  .ok (xis ++ [p])

/-- special.py:1415-1447 `xi_torch_logdir`. -/
noncomputable def xiLogdir (n : ℤ) (x : Ten ℂ) : Py (Option (List (Ten ℂ))) := do
  let xL ← lastSlice x
  let D1 ← d1TorchT n xL
  let D3 ← d3TorchT n xL D1
  let xis ← (rangeFrom1 11).foldlM (xiLogdirStep xL D3) [xL.map fun z => sin z - I * cos z]
  let _ ← stackSame xis
  .ok none

/-- `t[:, i, ...]` or `t[i]` with Python's negative indices. Code: special.py:1341-1377. -/
def selectInt {α : Type} (t : Ten α) (d : ℕ) (i : ℤ) : Py (Ten α) :=
  if 0 ≤ i then t.select d i.toNat
  else match t.shape[d]? with
    | some n => if 0 ≤ i + n then t.select d (i + n).toNat else .error .indexError
    | none => .error .indexError

/-- Loop body special.py:1368-1372 for one layer. -/
noncomputable def qlStep (x z1 z2 : Ten ℂ) (l : ℕ) (D1z1 D1z2 : List (Ten ℂ)) (D3z1 D3z2 : List (Ten ℂ) × List (Ten ℂ))
    (qs : List (Ten ℂ)) (nn : ℕ) : Py (List (Ten ℂ)) := do
  let prev ← pyIdx qs (nn - 1)
  let xa ← selectInt x 0 ((l : ℤ) - 2)
  let xb ← selectInt x 0 ((l : ℤ) - 1)
  let r ← Ten.op2 (fun a b => (a / b) ^ 2) xa xb
  let q1 ← Ten.op2 (· * ·) prev r
  let d12 ← pyIdx D1z2 (nn - 1)
  let u2 ← Ten.op2 (fun z d => z * d + (nn : ℂ)) z2 d12
  let d11 ← pyIdx D1z1 (nn - 1)
  let u1 ← Ten.op2 (fun z d => z * d + (nn : ℂ)) z1 d11
  let u ← Ten.op2 (· / ·) u2 u1
  let q2 ← Ten.op2 (· * ·) q1 u
  let d32 ← pyIdxInt [joinSlices D3z2.1, joinSlices D3z2.2] ((nn : ℤ) - 2)
  let v2 ← Ten.op2 (fun z d => (nn : ℂ) - z * d) z2 d32
  let d31 ← pyIdxInt [joinSlices D3z1.1, joinSlices D3z1.2] ((nn : ℤ) - 2)
  let v1 ← Ten.op2 (fun z d => (nn : ℂ) - z * d) z1 d31
  let v ← Ten.op2 (· / ·) v2 v1
  let q ← Ten.op2 (· * ·) q2 v
  .ok (qs ++ [q])

/-- Body of the loop over layers, special.py:1346-1372.  In the zero order the denominator (line 1362) is
`exp(-2j*z2.real) - exp(-2j*z2.real)`. -/
noncomputable def qlLayer (n : ℤ) (m x : Ten ℂ) (qs : List (Ten ℂ)) (l : ℕ) : Py (List (Ten ℂ)) := do
  let ml ← selectInt m 1 ((l : ℤ) - 1)
  let xa ← selectInt x 1 ((l : ℤ) - 2)
  let z1 ← Ten.op2 (· * ·) ml xa
  let xb ← selectInt x 1 ((l : ℤ) - 1)
  let z2 ← Ten.op2 (· * ·) ml xb
  let D1z1 ← d1TorchT n z1
  let D1z2 ← d1TorchT n z2
  let D3z1 ← d3TorchT n z1 D1z1
  let D3z2 ← d3TorchT n z2 D1z2
  let w1 ← lastSlice z1
  let w2 ← lastSlice z2
  let q0 ← Ten.op2 (fun a b => (exp (-2 * I * a.re) - exp (-2 * I * a.im)) / (exp (-2 * I * b.re) - exp (-2 * I * b.re)) *
    exp (-2 * (b.im - a.im) : ℝ)) w1 w2
  (rangeFrom1 11).foldlM (qlStep x z1 z2 l D1z1 D1z2 D3z1 D3z2) (qs ++ [q0])

/-- special.py:1329-1379 `Ql_torch`: ten layers and ten orders, whatever the arguments. -/
noncomputable def qlTorch (n : ℤ) (m x : Ten ℂ) : Py (List (Ten ℂ)) := do
  let qs ← (rangeFrom1 11).foldlM (qlLayer n m x) []
  stackSame qs

end MieDiff
