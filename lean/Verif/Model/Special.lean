import Verif.Model.Py

/-!
# Model of `src/pymiediff/special.py`

All functions act element-wise on the argument tensor `z`; the model is the action on one element. The
leading order axis of the Python tensors is a list (index 0 first).
-/

namespace MieDiff

open Complex

/-! ## Derivatives of order sequences -/

/-- special.py:338-361 `f_der`: `df[0] = -f[1]`, `df[i] = f[i-1] - ((i+1)/z) f[i]`.
`f_n[1]` on a one-element sequence raises `IndexError`. -/
noncomputable def fDer (z : ℂ) (f : List ℂ) : Py (List ℂ) := do
  let f1 ← pyIdx f 1
  let rest := (List.range (f.length - 1)).map fun i =>
    f.getD i 0 - (((i + 1 : ℕ) : ℂ) + 1) / z * f.getD (i + 1) 0
  .ok (-f1 :: rest)

/-- special.py:380-388 (`psi`), 1012-1019 (`psi_torch`), 432-440 (`xi`), 1062-1069 (`xi_torch`):
`(z*f, f + z*f')`. -/
noncomputable def ricPlus (z : ℂ) (f : List ℂ) : Py (List ℂ × List ℂ) := do
  let df ← fDer z f
  .ok (f.map (z * ·), List.zipWith (fun a b => a + z * b) f df)

/-- special.py:406-414 (`chi`), 1037-1044 (`chi_torch`): `(-z*f, -f - z*f')`. -/
noncomputable def ricMinus (z : ℂ) (f : List ℂ) : Py (List ℂ × List ℂ) := do
  let df ← fDer z f
  .ok (f.map (-z * ·), List.zipWith (fun a b => -a - z * b) f df)

/-- special.py:299-315 `sph_h1n`, 978-993 `sph_h1n_torch`: `j + 1j*y`. -/
noncomputable def h1Of (j y : List ℂ) : List ℂ := List.zipWith (fun a b => a + I * b) j y

/-! ## Peña/Yang logarithmic derivative recurrences -/

/-- One pass of the loop body special.py:497-503.  The state is `(D_next, D_list)`. -/
noncomputable def penaD1Step (nMax : ℕ) (zSafe : ℂ) (eps : ℝ) (st : ℂ × List (Option ℂ)) (nn : ℕ) :
    ℂ × List (Option ℂ) :=
  let num := (nn : ℂ) / zSafe
  let den := guardAdd eps (st.1 + num)
  let dCurr := num - 1 / den
  (dCurr, if nn - 1 ≤ nMax then st.2.set (nn - 1) (some dCurr) else st.2)

/-- special.py:451-505 `pena_D1_n`.  `n` is the (possibly negative) maximum order, `nAdd` the extra
depth (default 15 in the code) and `eps` the guard (default 1e-30). -/
noncomputable def penaD1 (n : ℤ) (z : ℂ) (nAdd : ℤ := 15) (eps : ℝ := 1e-30) : Py (List ℂ) :=
  if n < 0 then .error .valueError
  else
    let nMax := n.toNat
    let nStart := (n + nAdd).toNat
    let zSafe := guardAdd eps z
    let st := (rangeDown nStart).foldl (penaD1Step nMax zSafe eps)
      (0, List.replicate (nMax + 1) none)
    stackOpt st.2

/-- Loop state of `pena_D3_n`: `(psi_zeta_prev, D3_prev, D3_list)` (list in append order). Code: special.py:551-564. -/
abbrev D3State := ℂ × ℂ × List ℂ

/-- One pass of the loop body special.py:557-564. -/
noncomputable def penaD3Step (zSafe : ℂ) (D1 : List ℂ) (eps : ℝ) (st : D3State) (nn : ℕ) :
    Py D3State := do
  let d1m ← pyIdx D1 (nn - 1)
  let t1 := (nn : ℂ) / zSafe - d1m
  let t2 := (nn : ℂ) / zSafe - st.2.1
  let pzCurr := st.1 * t1 * t2
  let denom := guardAdd eps pzCurr
  let d1 ← pyIdx D1 nn
  let d3Curr := d1 + I / denom
  .ok (pzCurr, d3Curr, st.2.2 ++ [d3Curr])

/-- special.py:508-566 `pena_D3_n` with `D1` given (lines 546-548: when `D1 is None` the code calls
`pena_D1_n` first, which every caller in the package already did). -/
noncomputable def penaD3 (n : ℤ) (z : ℂ) (D1 : List ℂ) (eps : ℝ := 1e-30) : Py (List ℂ) :=
  if n < 0 then .error .valueError
  else do
    let nMax := n.toNat
    let zSafe := guardAdd eps z
    let st ← (rangeFrom1 (nMax + 1)).foldlM (penaD3Step zSafe D1 eps)
      ((1 / 2 : ℂ) * (1 - exp (2 * I * z)), I, [I])
    .ok st.2.2

/-- One pass of the loop body special.py:634-640; the state is `(Q_prev, Q_list)`. -/
noncomputable def penaQStep (z1 z2 xRatioSq : ℂ) (D1z1 D1z2 D3z1 D3z2 : List ℂ) (eps : ℝ)
    (st : ℂ × List ℂ) (nn : ℕ) : Py (ℂ × List ℂ) := do
  let d12 ← pyIdx D1z2 nn
  let d32 ← pyIdx D3z2 (nn - 1)
  let num := (z2 * d12 + nn) * (nn - z2 * d32)
  let d11 ← pyIdx D1z1 nn
  let d31 ← pyIdx D3z1 (nn - 1)
  let den := guardAdd eps ((z1 * d11 + nn) * (nn - z1 * d31))
  let qCurr := st.1 * xRatioSq * (num / den)
  .ok (qCurr, st.2 ++ [qCurr])

/-- special.py:571-642 `pena_Q_n`.  `exp(-2j*a)` with `a` real and `exp(-2.0*b)`. -/
noncomputable def penaQ (nMax : ℕ) (z1 z2 x1 x2 : ℂ) (D1z1 D1z2 D3z1 D3z2 : List ℂ)
    (eps : ℝ := 1e-30) : Py (List ℂ) := do
  let num0 := exp (-2 * I * z1.re) - exp (-2 * z1.im : ℝ)
  let den0 := guardAdd eps (exp (-2 * I * z2.re) - exp (-2 * z2.im : ℝ))
  let q0 := num0 / den0 * exp (-2 * (z2.im - z1.im) : ℝ)
  let x2Safe := guardAdd eps x2
  let xRatioSq := (x1 / x2Safe) ^ 2
  let st ← (rangeFrom1 (nMax + 1)).foldlM
    (penaQStep z1 z2 xRatioSq D1z1 D1z2 D3z1 D3z2 eps) (q0, [q0])
  .ok st.2

/-- Loop state of `pena_psi_zeta_n`: `(psi_prev, zeta_prev, psi_list, zeta_list)`. Code: special.py:682-694. -/
abbrev PZState := ℂ × ℂ × List ℂ × List ℂ

/-- One pass of the loop body special.py:689-694. -/
noncomputable def penaPsiZetaStep (zSafe : ℂ) (D1 D3 : List ℂ) (st : PZState) (nn : ℕ) :
    Py PZState := do
  let d1 ← pyIdx D1 (nn - 1)
  let d3 ← pyIdx D3 (nn - 1)
  let psiCurr := st.1 * ((nn : ℂ) / zSafe - d1)
  let zetaCurr := st.2.1 * ((nn : ℂ) / zSafe - d3)
  .ok (psiCurr, zetaCurr, st.2.2.1 ++ [psiCurr], st.2.2.2 ++ [zetaCurr])

/-- special.py:645-696 `pena_psi_zeta_n`. -/
noncomputable def penaPsiZeta (nMax : ℕ) (z : ℂ) (D1 D3 : List ℂ) (eps : ℝ := 1e-30) :
    Py (List ℂ × List ℂ) := do
  let psi0 := sin z
  let zeta0 := sin z - I * cos z
  let zSafe := guardAdd eps z
  let st ← (rangeFrom1 (nMax + 1)).foldlM (penaPsiZetaStep zSafe D1 D3)
    (psi0, zeta0, [psi0], [zeta0])
  .ok (st.2.2.1, st.2.2.2)

/-! ## Torch-native spherical Bessel functions -/

/-- The argument `n_add` of `sph_jn_torch_via_rec` / `D1n_torch` / `sph_jn_torch`. Code: special.py:703, 756-759, 869-875, 1253. -/
inductive NAdd
  | str (s : String)
  | int (k : ℤ)

/-- special.py:756-759 and 1253-1256: `n_add.lower() == "auto"`.  Calling `.lower()` on an `int` is an
`AttributeError`; a string other than "auto" stays a string and `n_max + n_add` is a `TypeError`.
`zAbsMax` is the largest `|z|` in the tensor. -/
noncomputable def resolveNAddRec (a : NAdd) (nAddMin nAddMax : ℤ) (zAbsMax : ℝ) : Py ℤ :=
  match a with
  | .int _ => .error .attributeError
  | .str s =>
    if s.toLower = "auto" then
      let k := max nAddMin ⌊(3 / 2 : ℝ) * zAbsMax⌋
      .ok (if k > nAddMax then nAddMax else k)
    else .error .typeError

/-- Loop state of the downward sweep special.py:768-773: `(j_n, j_np1, jns)`. -/
abbrev JRecState := ℂ × ℂ × List ℂ

/-- Loop body special.py:769-773. -/
noncomputable def jRecStep (nMax : ℕ) (z : ℂ) (st : JRecState) (nn : ℕ) : JRecState :=
  let jm := (2 * (nn : ℂ) + 1) / z * st.1 - st.2.1
  (jm, st.1, if nn ≤ nMax + 1 then st.2.2 ++ [jm] else st.2.2)

/-- special.py:700-783 `sph_jn_torch_via_rec` for a resolved extra depth.  For negative `n` the range of orders in
`_expand_n_z` (special.py:45) is empty or invalid, a `RuntimeError` before `assert n_max >= 0`.
`torch.stack` of an empty list is a `RuntimeError`. -/
noncomputable def sphJnViaRecDepth (n : ℤ) (z : ℂ) (nAdd : ℤ) (eps : ℝ := 1e-10) : Py (List ℂ) :=
  if n < 0 then .error .runtimeError
  else
    let nMax := n.toNat
    let zs := guardSet eps z
    let st := (rangeDown (n + nAdd).toNat).foldl (jRecStep nMax zs) (0, (1e-25 : ℂ), [])
    let jns := st.2.2.reverse
    match jns with
    | [] => .error .runtimeError
    | j0 :: _ =>
      let scale := (sin zs / zs) / j0
      .ok (jns.map (· * scale))

/-- special.py:700-783 `sph_jn_torch_via_rec`, with the automatic choice of the depth. -/
noncomputable def sphJnViaRec (n : ℤ) (z : ℂ) (zAbsMax : ℝ) (nAdd : NAdd := .str "auto")
    (nAddMin : ℤ := 10) (nAddMax : ℤ := 35) (eps : ℝ := 1e-10) : Py (List ℂ) :=
  if n < 0 then .error .runtimeError
  else do
    let k ← resolveNAddRec nAdd nAddMin nAddMax zAbsMax
    sphJnViaRecDepth n z k eps

/-- Loop body special.py:888-896; the state is `(r_next, r_storage)`. -/
noncomputable def jRatioStep (nMax : ℕ) (z : ℂ) (st : ℂ × List ℂ) (k : ℕ) : ℂ × List ℂ :=
  let ak := (2 * (k : ℂ) + 1) / z
  let denom := ak - st.1
  let denom := if ‖denom‖ = 0 then denom + (1e-50 : ℂ) else denom
  let rk := 1 / denom
  (rk, if k ≤ nMax then st.2.set (k - 1) rk else st.2)

/-- `torch.cumprod(r_storage, dim=0)` (special.py:904). -/
noncomputable def cumprod : ℂ → List ℂ → List ℂ
  | _, [] => []
  | acc, r :: rs => (acc * r) :: cumprod (acc * r) rs

/-- special.py:869-875: the extra depth of the continued fraction. `n_add == "auto"` is compared
without `.lower()`; otherwise `int(n_add)` (a `ValueError` for a non-numeric string). -/
noncomputable def resolveNAddRatio (a : NAdd) (maxNAdd : ℤ) (zAbsMax : ℝ) : Py ℤ :=
  match a with
  | .int k => .ok k
  | .str s => if s = "auto" then .ok (min (max 20 (⌊zAbsMax * 2⌋ + 10)) maxNAdd)
              else .error .valueError

/-- `(2n+1)!!`, which special.py:846-853 evaluates as `exp(lgamma(2n+2) - n log 2 - lgamma(n+1))`. -/
noncomputable def oddDoubleFactorial (n : ℕ) : ℂ :=
  ((2 * n + 1).factorial : ℂ) / (2 ^ n * (n.factorial : ℂ))

/-- special.py:786-922 `sph_jn_torch` on one element, for a given extra depth.
The final lines 915-920 set the exact values at `z = 0`. -/
noncomputable def sphJnTorchDepth (n : ℤ) (z : ℂ) (nExtra : ℤ) (smallZ : ℝ := 1e-8) : Py (List ℂ) :=
  if n < 0 then .error .runtimeError
  else
    let nMax := n.toNat
    let jns :=
      if ‖z‖ < smallZ then
        (List.range (nMax + 1)).map fun k => z ^ k / oddDoubleFactorial k
      else
        let st := (rangeDown (n + nExtra).toNat).foldl (jRatioStep nMax z)
          (0, List.replicate nMax 0)
        let j0 := if z = 0 then 1 else sin z / z
        j0 :: (cumprod 1 st.2).map (j0 * ·)
    .ok (if z = 0 then 1 :: List.replicate nMax 0 else jns)

/-- special.py:786-922 `sph_jn_torch` with the depth chosen from the argument `n_add`. -/
noncomputable def sphJnTorch (n : ℤ) (z : ℂ) (zAbsMax : ℝ) (nAdd : NAdd := .str "auto")
    (maxNAdd : ℤ := 50) (smallZ : ℝ := 1e-8) : Py (List ℂ) :=
  if n < 0 then .error .runtimeError
  else if ‖z‖ < smallZ then sphJnTorchDepth n z 0 smallZ
  else do
    let k ← resolveNAddRatio nAdd maxNAdd zAbsMax
    sphJnTorchDepth n z k smallZ

/-- special.py:786-922 `sph_jn_torch` for one entry of a tensor with two or more axes.  There the series values of the small
entries (lines 856-857) have one axis more than the rows `jns_flat[:, idx_small]` and cannot be assigned to them (line 860), unless
`n = 0`; see `sphJnTorchT` in `Verif/Model/BatchTorch.lean` for the shapes. -/
noncomputable def sphJnTorchNd (n : ℤ) (z : ℂ) (zAbsMax : ℝ) : Py (List ℂ) :=
  if 1 ≤ n ∧ ‖z‖ < 1e-8 then .error .runtimeError else sphJnTorch n z zAbsMax

/-- Loop body special.py:968-970: append `((2i-1)/z) y[i-1] - y[i-2]`. -/
noncomputable def yRecStep (z : ℂ) (yns : List ℂ) (i : ℕ) : Py (List ℂ) := do
  let y1 ← pyIdx yns (i - 1)
  let y2 ← pyIdx yns (i - 2)
  .ok (yns ++ [(2 * (i : ℂ) - 1) / z * y1 - y2])

/-- special.py:925-975 `sph_yn_torch`. -/
noncomputable def sphYnTorch (n : ℤ) (z : ℂ) (eps : ℝ := 1e-10) : Py (List ℂ) :=
  if n < 0 then .error .runtimeError
  else
    let nMax := n.toNat
    let zs := guardSet eps z
    let yns : List ℂ := [-1 * (cos zs / zs)]
    let yns := if nMax > 0 then yns ++ [-1 * (cos zs / zs ^ 2 + sin zs / zs)] else yns
    if nMax > 1 then
      ((List.range (nMax - 1)).map (· + 2)).foldlM (yRecStep zs) yns
    else .ok yns

/-! ## Angular functions -/

/-- Loop body special.py:1106-1110. -/
noncomputable def piStep (mu : ℝ) (pis : List ℝ) (nn : ℕ) : Py (List ℝ) := do
  let p ← pyIdx pis nn
  let pm ← pyIdx pis (nn - 1)
  .ok (pis ++ [((2 * (nn : ℝ) + 1) * mu * p - ((nn : ℝ) + 1) * pm) / nn])

/-- Loop body special.py:1114-1115. -/
noncomputable def tauStep (mu : ℝ) (pis : List ℝ) (taus : List ℝ) (nn : ℕ) : Py (List ℝ) := do
  let p ← pyIdx pis nn
  let pm ← pyIdx pis (nn - 1)
  .ok (taus ++ [(nn : ℝ) * mu * p - ((nn : ℝ) + 1) * pm])

/-- special.py:1073-1120 `pi_tau` on one value `mu` of the cosine. -/
noncomputable def piTau (n : ℤ) (mu : ℝ) : Py (List ℝ × List ℝ) :=
  if n < 1 then .error .assertionError
  else do
    let nMax := n.toNat
    let pis ← (rangeFrom1 nMax).foldlM (piStep mu) [0, 1]
    let taus ← (rangeFrom1 (nMax + 1)).foldlM (tauStep mu pis) [0]
    .ok (pis, taus)

end MieDiff
