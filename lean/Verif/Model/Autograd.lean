import Verif.Model.Special

/-!
# Model of the hand-written backward passes and of the unused `D1n_torch` / `D3n_torch`

SciPy's `spherical_jn(n, z)`, `spherical_yn(n, z)` and their `derivative=True` values are parameters
`f` and `df`; the properties instantiate them with the mathematical functions.

`save_for_backward` stores the tensor `_z`, which is a view of the tensor the user passed
(`_expand_n_z`, special.py:37-40, uses `atleast_1d` and `unsqueeze`), and `.detach().numpy()` shares that
memory.  The model therefore passes the buffer of the user's tensor through the backward pass and
returns its content afterwards.

The returned gradient has a leading order axis while `_z` has size 1 there; the autograd engine reduces it
by summation (`validate_grads`/`sum_to`), modelled as the sum over orders.
-/

namespace MieDiff

open Complex

/-- special.py:70 `z[z == 0] = 1e-10`, in place, for every entry of the buffer. -/
noncomputable def zeroFill (buf : List ℂ) : List ℂ := buf.map fun z => if z = 0 then (1e-10 : ℂ) else z

/-- special.py:72, after the zero entries were replaced. -/
noncomputable def bessel2ndDer (f : ℕ → ℂ → ℂ) (n : ℕ) (z : ℂ) : ℂ :=
  1 / z ^ 2 * (((n : ℂ) ^ 2 - n - z ^ 2) * f n z + 2 * z * f (n + 1) z)

/-- One entry of `grad_result * d.conj()` summed over the order axis. Code: special.py:90-106, 146-162, 202-218, 258-274 (`backward`). -/
noncomputable def gradEntry (nMax : ℕ) (d : ℕ → ℂ → ℂ) (g : ℕ → ℂ) (z : ℂ) : ℂ :=
  ((List.range (nMax + 1)).map fun n => g n * (starRingEnd ℂ) (d n z)).sum

/-- special.py:90-106 (`_AutoDiffJn.backward`) and 202-218 (`_AutoDiffYn.backward`).  `g n i` is the
incoming gradient for order `n` and element `i`.  Result: gradient and buffer content afterwards. -/
noncomputable def valBackward (nMax : ℕ) (df : ℕ → ℂ → ℂ) (g : ℕ → ℕ → ℂ) (buf : List ℂ) :
    List ℂ × List ℂ :=
  (buf.mapIdx fun i z => gradEntry nMax df (g · i) z, buf)

/-- special.py:146-162 (`_AutoDiffdJn.backward`) and 258-274 (`_AutoDiffdYn.backward`). -/
noncomputable def derBackward (nMax : ℕ) (f : ℕ → ℂ → ℂ) (g : ℕ → ℕ → ℂ) (buf : List ℂ) :
    List ℂ × List ℂ :=
  let buf' := zeroFill buf
  (buf'.mapIdx fun i z => gradEntry nMax (bessel2ndDer f) (g · i) z, buf')

/-- Loop body special.py:1264-1267 of `D1n_torch` (no guard on the denominator). -/
noncomputable def d1TorchStep (nMax : ℕ) (z : ℂ) (st : ℂ × List ℂ) (nn : ℕ) : ℂ × List ℂ :=
  let d := (nn : ℂ) / z - 1 / (st.1 + (nn : ℂ) / z)
  (d, if nn ≤ nMax + 1 then st.2 ++ [d] else st.2)

/-- special.py:1208-1272 `D1n_torch`. -/
noncomputable def d1Torch (n : ℤ) (z : ℂ) (zAbsMax : ℝ) (nAdd : NAdd := .str "auto")
    (nAddMin : ℤ := 10) (nAddMax : ℤ := 35) (eps : ℝ := 1e-10) : Py (List ℂ) :=
  if n < 0 then .error .runtimeError
  else do
    let zs := guardSet eps z
    let k ← resolveNAddRec nAdd nAddMin nAddMax zAbsMax
    let st := (rangeDown (n + k).toNat).foldl (d1TorchStep n.toNat zs) (0, [])
    if st.2 = [] then .error .runtimeError else .ok st.2.reverse

end MieDiff
