import Verif.Model.Tensor
import Verif.Model.Pipeline

/-!
# Batched model: input layouts, broadcasting, the pena backend on `(N_part, N_k0)` arrays

`special.pena_*` and the layer loop of `_miecoef_pena` only combine arrays of one shape `(N_part, N_k0)` entry by entry;
such an array is a function `ι → ℂ` of the position (`ι = List ℕ` for tensors), and a stack over orders is a list of
them.  Where the code relies on broadcasting (input layouts, size parameters, cross sections, angular patterns) the
tensors of `Verif/Model/Tensor.lean` are used.
-/

namespace MieDiff

open Complex

/-! ## Special functions, entrywise -/

section entrywise

variable {ι : Type}

/-- Loop body special.py:497-503 on arrays. -/
noncomputable def penaD1StepT (nMax : ℕ) (zSafe : ι → ℂ) (eps : ℝ) (st : (ι → ℂ) × List (Option (ι → ℂ))) (nn : ℕ) :
    (ι → ℂ) × List (Option (ι → ℂ)) :=
  let num : ι → ℂ := fun i => (nn : ℂ) / zSafe i
  let den : ι → ℂ := fun i => guardAdd eps (st.1 i + num i)
  let dCurr : ι → ℂ := fun i => num i - 1 / den i
  (dCurr, if nn - 1 ≤ nMax then st.2.set (nn - 1) (some dCurr) else st.2)

/-- special.py:451-505 `pena_D1_n` on an array. -/
noncomputable def penaD1T (n : ℤ) (z : ι → ℂ) (nAdd : ℤ := 15) (eps : ℝ := 1e-30) : Py (List (ι → ℂ)) :=
  if n < 0 then .error .valueError
  else
    let nMax := n.toNat
    let nStart := (n + nAdd).toNat
    let zSafe : ι → ℂ := fun i => guardAdd eps (z i)
    let st := (rangeDown nStart).foldl (penaD1StepT nMax zSafe eps) (fun _ => 0, List.replicate (nMax + 1) none)
    stackOpt st.2

/-- Loop body special.py:557-564 on arrays. -/
noncomputable def penaD3StepT (zSafe : ι → ℂ) (D1 : List (ι → ℂ)) (eps : ℝ)
    (st : (ι → ℂ) × (ι → ℂ) × List (ι → ℂ)) (nn : ℕ) : Py ((ι → ℂ) × (ι → ℂ) × List (ι → ℂ)) := do
  let d1m ← pyIdx D1 (nn - 1)
  let t1 : ι → ℂ := fun i => (nn : ℂ) / zSafe i - d1m i
  let t2 : ι → ℂ := fun i => (nn : ℂ) / zSafe i - st.2.1 i
  let pzCurr : ι → ℂ := fun i => st.1 i * t1 i * t2 i
  let denom : ι → ℂ := fun i => guardAdd eps (pzCurr i)
  let d1 ← pyIdx D1 nn
  let d3Curr : ι → ℂ := fun i => d1 i + I / denom i
  .ok (pzCurr, d3Curr, st.2.2 ++ [d3Curr])

/-- special.py:508-566 `pena_D3_n` on arrays. -/
noncomputable def penaD3T (n : ℤ) (z : ι → ℂ) (D1 : List (ι → ℂ)) (eps : ℝ := 1e-30) : Py (List (ι → ℂ)) :=
  if n < 0 then .error .valueError
  else do
    let nMax := n.toNat
    let zSafe : ι → ℂ := fun i => guardAdd eps (z i)
    let st ← (rangeFrom1 (nMax + 1)).foldlM (penaD3StepT zSafe D1 eps)
      (fun i => (1 / 2 : ℂ) * (1 - exp (2 * I * z i)), fun _ => I, [fun _ => I])
    .ok st.2.2

/-- Loop body special.py:634-640 on arrays. -/
noncomputable def penaQStepT (z1 z2 xRatioSq : ι → ℂ) (D1z1 D1z2 D3z1 D3z2 : List (ι → ℂ)) (eps : ℝ)
    (st : (ι → ℂ) × List (ι → ℂ)) (nn : ℕ) : Py ((ι → ℂ) × List (ι → ℂ)) := do
  let d12 ← pyIdx D1z2 nn
  let d32 ← pyIdx D3z2 (nn - 1)
  let num : ι → ℂ := fun i => (z2 i * d12 i + nn) * (nn - z2 i * d32 i)
  let d11 ← pyIdx D1z1 nn
  let d31 ← pyIdx D3z1 (nn - 1)
  let den : ι → ℂ := fun i => guardAdd eps ((z1 i * d11 i + nn) * (nn - z1 i * d31 i))
  let qCurr : ι → ℂ := fun i => st.1 i * xRatioSq i * (num i / den i)
  .ok (qCurr, st.2 ++ [qCurr])

/-- special.py:571-642 `pena_Q_n` on arrays. -/
noncomputable def penaQT (nMax : ℕ) (z1 z2 x1 x2 : ι → ℂ) (D1z1 D1z2 D3z1 D3z2 : List (ι → ℂ)) (eps : ℝ := 1e-30) :
    Py (List (ι → ℂ)) := do
  let num0 : ι → ℂ := fun i => exp (-2 * I * (z1 i).re) - exp (-2 * (z1 i).im : ℝ)
  let den0 : ι → ℂ := fun i => guardAdd eps (exp (-2 * I * (z2 i).re) - exp (-2 * (z2 i).im : ℝ))
  let q0 : ι → ℂ := fun i => num0 i / den0 i * exp (-2 * ((z2 i).im - (z1 i).im) : ℝ)
  let x2Safe : ι → ℂ := fun i => guardAdd eps (x2 i)
  let xRatioSq : ι → ℂ := fun i => (x1 i / x2Safe i) ^ 2
  let st ← (rangeFrom1 (nMax + 1)).foldlM (penaQStepT z1 z2 xRatioSq D1z1 D1z2 D3z1 D3z2 eps) (q0, [q0])
  .ok st.2

/-- Loop body special.py:689-694 on arrays. -/
noncomputable def penaPsiZetaStepT (zSafe : ι → ℂ) (D1 D3 : List (ι → ℂ))
    (st : (ι → ℂ) × (ι → ℂ) × List (ι → ℂ) × List (ι → ℂ)) (nn : ℕ) :
    Py ((ι → ℂ) × (ι → ℂ) × List (ι → ℂ) × List (ι → ℂ)) := do
  let d1 ← pyIdx D1 (nn - 1)
  let d3 ← pyIdx D3 (nn - 1)
  let psiCurr : ι → ℂ := fun i => st.1 i * ((nn : ℂ) / zSafe i - d1 i)
  let zetaCurr : ι → ℂ := fun i => st.2.1 i * ((nn : ℂ) / zSafe i - d3 i)
  .ok (psiCurr, zetaCurr, st.2.2.1 ++ [psiCurr], st.2.2.2 ++ [zetaCurr])

/-- special.py:645-696 `pena_psi_zeta_n` on arrays. -/
noncomputable def penaPsiZetaT (nMax : ℕ) (z : ι → ℂ) (D1 D3 : List (ι → ℂ)) (eps : ℝ := 1e-30) :
    Py (List (ι → ℂ) × List (ι → ℂ)) := do
  let psi0 : ι → ℂ := fun i => sin (z i)
  let zeta0 : ι → ℂ := fun i => sin (z i) - I * cos (z i)
  let zSafe : ι → ℂ := fun i => guardAdd eps (z i)
  let st ← (rangeFrom1 (nMax + 1)).foldlM (penaPsiZetaStepT zSafe D1 D3) (psi0, zeta0, [psi0], [zeta0])
  .ok (st.2.2.1, st.2.2.2)

/-- State of the layer recursion on arrays. Code: multishell.py:328-376. -/
structure LayerStateT (ι : Type) where
  m : ι → ℂ
  x : ι → ℂ
  Ha : List (ι → ℂ)
  Hb : List (ι → ℂ)

/-- Order `i` of a stack. Code: the slices of `torch.stack(.., dim=0)`, e.g. special.py:505. -/
def ordAt (l : List (ι → ℂ)) (i : ℕ) : ι → ℂ := l.getD i fun _ => 0

/-- One pass of the layer loop multishell.py:332-376 on arrays. -/
noncomputable def layerStepT (n : ℤ) (st : Option (LayerStateT ι)) (layer : (ι → ℂ) × (ι → ℂ)) :
    Py (Option (LayerStateT ι)) := do
  let ml := layer.1
  let xl := layer.2
  let zCurr : ι → ℂ := fun i => ml i * xl i
  let D1c ← penaD1T n zCurr
  let D3c ← penaD3T n zCurr D1c
  match st with
  | none => .ok (some ⟨ml, xl, D1c, D1c⟩)
  | some prev =>
    let zPrev : ι → ℂ := fun i => ml i * prev.x i
    let D1p ← penaD1T n zPrev
    let D3p ← penaD3T n zPrev D1p
    let Q ← penaQT n.toNat zPrev zCurr prev.x xl D1p D1c D3p D3c
    let upd (p q : ι → ℂ) (H : List (ι → ℂ)) : List (ι → ℂ) :=
      (List.range H.length).map fun j i =>
        hUpdate (p i) (q i) (ordAt H j i) (ordAt D1p j i) (ordAt D3p j i) (ordAt D1c j i) (ordAt D3c j i) (ordAt Q j i)
    .ok (some ⟨ml, xl, upd ml prev.m prev.Ha, upd prev.m ml prev.Hb⟩)

/-- multishell.py:332-403 on arrays: the layer loop and the final coefficients, orders `1..n`. -/
noncomputable def penaSolveT (n : ℤ) (layers : List ((ι → ℂ) × (ι → ℂ))) : Py (List (ι → ℂ) × List (ι → ℂ)) := do
  let st ← layers.foldlM (layerStepT n) none
  match st with
  | none => .error .indexError
  | some last =>
    let xL := last.x
    let mL := last.m
    let D1L ← penaD1T n xL
    let D3L ← penaD3T n xL D1L
    let (psi, zeta) ← penaPsiZetaT n.toNat xL D1L D3L
    let xSafe : ι → ℂ := fun i => guardAdd solverEps (xL i)
    let coef (term : ℕ → ι → ℂ) : List (ι → ℂ) := (List.range n.toNat).map fun j i =>
      finalCoef (term (j + 1) i) (ordAt psi (j + 1) i) (ordAt psi j i) (ordAt zeta (j + 1) i) (ordAt zeta j i)
    .ok (coef (fun j i => ordAt last.Ha j i / mL i + (j : ℂ) / xSafe i),
         coef (fun j i => mL i * ordAt last.Hb j i + (j : ℂ) / xSafe i))

/-- special.py:1073-1120 `pi_tau` on an array of cosines: loop bodies. -/
noncomputable def piStepT (mu : ι → ℝ) (pis : List (ι → ℝ)) (nn : ℕ) : Py (List (ι → ℝ)) := do
  let p ← pyIdx pis nn
  let pm ← pyIdx pis (nn - 1)
  .ok (pis ++ [fun i => ((2 * (nn : ℝ) + 1) * mu i * p i - ((nn : ℝ) + 1) * pm i) / nn])

/-- special.py:1113-1115. -/
noncomputable def tauStepT (mu : ι → ℝ) (pis : List (ι → ℝ)) (taus : List (ι → ℝ)) (nn : ℕ) : Py (List (ι → ℝ)) := do
  let p ← pyIdx pis nn
  let pm ← pyIdx pis (nn - 1)
  .ok (taus ++ [fun i => (nn : ℝ) * mu i * p i - ((nn : ℝ) + 1) * pm i])

/-- special.py:1073-1120 `pi_tau` on an array of cosines. -/
noncomputable def piTauT (n : ℤ) (mu : ι → ℝ) : Py (List (ι → ℝ) × List (ι → ℝ)) :=
  if n < 1 then .error .assertionError
  else do
    let nMax := n.toNat
    let pis ← (rangeFrom1 nMax).foldlM (piStepT mu) [fun _ => 0, fun _ => 1]
    let taus ← (rangeFrom1 (nMax + 1)).foldlM (tauStepT mu pis) [fun _ => 0]
    .ok (pis, taus)

end entrywise

/-! ## Input layouts -/

/-- Array arguments of `mie_coefficients` (multishell.py:641-655); `None` is `none`. -/
structure LayerArgs where
  k0 : Ten ℂ
  rLayers : Option (Ten ℝ) := none
  epsLayers : Option (Ten ℂ) := none
  rC : Option (Ten ℝ) := none
  epsC : Option (Ten ℂ) := none
  rS : Option (Ten ℝ) := none
  epsS : Option (Ten ℂ) := none
  epsEnv : Ten ℂ := Ten.scalar 1

/-- `eps_c_t.view(1, 1)` of a 0-dimensional tensor (multishell.py:523). -/
def view11 (t : Ten ℂ) : Ten ℂ := ⟨[1, 1], fun _ => t.get []⟩

/-- Product of the axis lengths (`t.numel()`). Code: multishell.py:525. -/
def Ten.numel {α : Type} (t : Ten α) : ℕ := t.shape.prod

/-- multishell.py:521-533: permittivity of homogeneous spheres as a layer array. -/
def legacyEps1 (rc : Ten ℝ) (epsC : Ten ℂ) : Ten ℂ :=
  match epsC.shape with
  | [] => view11 epsC
  | [_] => if epsC.shape = rc.shape ∧ rc.numel > 1 then epsC.unsqueeze 1 else epsC.unsqueeze 0
  | _ => epsC.unsqueeze 1

/-- multishell.py:536-548: permittivities of core and shell as a layer array. -/
def legacyEps2 (rc : Ten ℝ) (epsC epsS : Ten ℂ) : Py (Ten ℂ) :=
  match epsC.shape with
  | [] => do
    let s ← Ten.stack2 epsC epsS 0
    .ok (s.unsqueeze 0)
  | [_] => if epsC.shape = rc.shape ∧ rc.numel > 1 then Ten.stack2 epsC epsS 1 else Ten.stack2 epsC epsS 0
  | _ => Ten.stack2 epsC epsS 1

open Classical in
/-- multishell.py:510-550: legacy radii and permittivities as layers. -/
noncomputable def legacyLayers (rC rS : Ten ℝ) (epsC epsS : Ten ℂ) : Py (Ten ℝ × Ten ℂ) := do
  let rc := rC.atleast1
  let rs := rS.atleast1
  if rc.shape ≠ rs.shape then .error .valueError else
  if rc.Equal rs then .ok (rc.unsqueeze rc.ndim, legacyEps1 rc epsC)
  else do
    let rl ← Ten.stack2 rc rs rc.ndim
    let el ← legacyEps2 rc epsC epsS
    .ok (rl, el)

/-- multishell.py:478-550 `_as_layer_inputs`. -/
noncomputable def asLayerInputs (a : LayerArgs) : Py (Ten ℝ × Ten ℂ) :=
  match a.rLayers, a.epsLayers with
  | some r, some e => .ok (r, e)
  | some _, none => .error .valueError
  | none, some _ => .error .valueError
  | none, none =>
    match a.rC, a.epsC with
    | some rc, some ec => legacyLayers rc (a.rS.getD rc) ec (a.epsS.getD ec)
    | _, _ => .error .valueError

/-- Result of `_broadcast_mie_layers` (multishell.py:635): `k0 (1, N_k0)`, `r_layers (N_part, L)`,
`eps_layers (N_part, L, N_k0)`, `eps_env (1, N_k0)`. -/
structure Bcast where
  nPart : ℕ
  nLayers : ℕ
  nK : ℕ
  k0 : Ten ℂ
  r : Ten ℝ
  eps : Ten ℂ
  env : Ten ℂ

/-- multishell.py:579-584: radii as `(N_part, L)`. -/
noncomputable def radiiMatrix (r : Ten ℝ) : Ten ℝ :=
  let r1 := r.atleast1
  if r1.ndim = 1 then r1.unsqueeze 0 else r1

/-- multishell.py:588: `torch.all(r_layers[:, 1:] > r_layers[:, :-1])`. -/
def rowsIncreasing (np nl : ℕ) (r : Ten ℝ) : Prop :=
  ∀ p, p < np → ∀ l, l + 1 < nl → r.get [p, l] < r.get [p, l + 1]

/-- multishell.py:610-611: a singleton particle axis is repeated. -/
def stretchParticles (np a b c : ℕ) (e : Ten ℂ) : Py (Ten ℂ) :=
  if a = 1 ∧ np > 1 then e.broadcastTo [np, b, c] else .ok e

/-- multishell.py:591-619: permittivities as `(N_part, L, N_k0)`. -/
def expandEps (np nl nk : ℕ) (eps : Ten ℂ) : Py (Ten ℂ) :=
  let e := eps.atleast1
  match e.shape with
  | [a] =>
    if a ≠ nl then .error .valueError
    else Ten.broadcastTo ⟨[1, nl, 1], fun idx => e.get [idx.getD 1 0]⟩ [np, nl, nk]
  | [a, b] =>
    if a = np ∧ b = nl then (e.unsqueeze 2).broadcastTo [np, nl, nk]
    else if a = nl ∧ b = nk then (e.unsqueeze 0).broadcastTo [np, nl, nk]
    else .error .valueError
  | [a, b, c] => do
    let e1 ← stretchParticles np a b c e
    if e1.shape.take 2 ≠ [np, nl] then .error .valueError else
    if c = 1 ∧ nk > 1 then e1.broadcastTo [np, nl, nk]
    else if c ≠ nk then .error .valueError
    else .ok e1
  | _ => .error .valueError

/-- multishell.py:621-629: host permittivity as `(N_k0,)`. -/
def expandEnv (nk : ℕ) (env : Ten ℂ) : Py (Ten ℂ) :=
  let e := env.atleast1
  match e.shape with
  | [a] =>
    if a = 1 ∧ nk > 1 then e.broadcastTo [nk]
    else if a ≠ nk then .error .valueError
    else .ok e
  | _ => .error .valueError

open Classical in
/-- multishell.py:553-635 `_broadcast_mie_layers`. -/
noncomputable def broadcastMieLayers (k0 : Ten ℂ) (r : Ten ℝ) (eps env : Ten ℂ) : Py Bcast := do
  let k := k0.squeeze.atleast1
  match k.shape with
  | [nk] =>
    let rm := radiiMatrix r
    match rm.shape with
    | [np, nl] =>
      if nl > 1 ∧ ¬rowsIncreasing np nl rm then .error .valueError else do
      let e ← expandEps np nl nk eps
      let ev ← expandEnv nk env
      .ok { nPart := np, nLayers := nl, nK := nk, k0 := k.unsqueeze 0, r := rm, eps := e, env := ev.unsqueeze 0 }
    | _ => .error .valueError
  | _ => .error .valueError

/-! ## Coefficients -/

/-- helper.py:78-145 on the broadcast arrays. -/
noncomputable def penaNmaxT (b : Bcast) : Py ℤ := do
  let nEnv := b.env.map csqrt
  let nLay := b.eps.map csqrt
  let kn ← Ten.op2 (· * ·) (b.k0.unsqueeze 1) (nEnv.unsqueeze 1)
  let x ← Ten.op2 (fun u (v : ℝ) => u * (v : ℂ)) kn (b.r.unsqueeze 2)
  let xo ← x.selectLast 1
  let xOuter ← maxAbs xo.entries
  let nStop := penaNStop xOuter
  let k1 ← Ten.op2 (· * ·) (b.k0.unsqueeze 1) nLay
  let m1 ← Ten.op2 (fun u (v : ℝ) => u * (v : ℂ)) k1 (b.r.unsqueeze 2)
  let rPrev : Ten ℝ := ⟨b.r.shape, fun idx => if idx.getD 1 0 = 0 then 0 else b.r.get [idx.getD 0 0, idx.getD 1 0 - 1]⟩
  let m2 ← Ten.op2 (fun u (v : ℝ) => u * (v : ℂ)) k1 (rPrev.unsqueeze 2)
  let v1 ← maxAbs m1.entries
  let v2 ← maxAbs m2.entries
  let nRaw : ℝ := max (nStop : ℝ) (max v1 v2)
  .ok (torchRound (nRaw + 15))

/-- multishell.py:269-408 `_miecoef_pena` on the broadcast arrays; `a_n, b_n` have shape `(n, N_part, N_k0)`. -/
noncomputable def miecoefPenaT (k : Ten ℂ) (r : Ten ℝ) (eps nEnv : Ten ℂ) (n : ℤ) (returnInternal : Bool) :
    Py (Ten ℂ × Ten ℂ) :=
  if returnInternal then .error .notImplementedError
  else if n < 1 then .error .valueError
  else do
    let x ← Ten.op2 (fun u (v : ℝ) => u * (v : ℂ)) (k.unsqueeze 1) (r.unsqueeze 2)
    let m ← Ten.op2 (· / ·) (eps.map csqrt) (nEnv.unsqueeze 1)
    match x.shape with
    | [np, nl, nk] =>
      let layers ← (List.range nl).mapM fun l => do
        let ml ← m.select 1 l
        let xl ← x.select 1 l
        .ok (ml.get, xl.get)
      let (a, b) ← penaSolveT n layers
      .ok (Ten.stackList 0 [np, nk] a, Ten.stackList 0 [np, nk] b)
    | _ => .error .valueError

/-- Result of `mie_coefficients` (multishell.py:777-799). -/
structure BatchOut where
  b : Bcast
  k : Ten ℂ
  nMax : ℤ
  rC : Ten ℝ
  rS : Ten ℝ
  epsC : Ten ℂ
  epsS : Ten ℂ
  nEnv : Ten ℂ
  m : Ten ℂ
  a : Ten ℂ
  bn : Ten ℂ

/-- multishell.py:706-712: outer radius as `(N_part, N_k0)`. -/
def aliasR (b : Bcast) (rC : Ten ℝ) : Py (Ten ℝ) :=
  if b.nLayers > 1 then do
    let r1 ← b.r.selectLast 1
    (r1.unsqueeze 1).broadcastTo [b.nPart, b.nK]
  else .ok rC

/-- multishell.py:713-717: outer permittivity as `(N_part, N_k0)`. -/
def aliasEps (b : Bcast) (epsC : Ten ℂ) : Py (Ten ℂ) := if b.nLayers > 1 then b.eps.selectLast 1 else .ok epsC

/-- multishell.py:722-739 for the pena backend. -/
noncomputable def orderChoiceT (b : Bcast) (nMax : Option ℤ) : Py ℤ :=
  match nMax with
  | some n => .ok n
  | none => penaNmaxT b

/-- multishell.py:641-799 `mie_coefficients` with `backend='pena'`. -/
noncomputable def mieCoefficientsT (args : LayerArgs) (nMax : Option ℤ := none) (returnInternal : Bool := false) :
    Py BatchOut := do
  let (rl, el) ← asLayerInputs args
  let b ← broadcastMieLayers args.k0 rl el args.epsEnv
  let r0 ← b.r.select 1 0
  let rC ← (r0.unsqueeze 1).broadcastTo [b.nPart, b.nK]
  let rS ← aliasR b rC
  let epsC ← b.eps.select 1 0
  let epsS ← aliasEps b epsC
  let n ← orderChoiceT b nMax
  let _ ← orderRange n
  let nEnv := b.env.map csqrt
  let k ← Ten.op2 (· * ·) b.k0 nEnv
  let (a, bn) ← miecoefPenaT k b.r b.eps nEnv n returnInternal
  let m ← Ten.op2 (· / ·) (b.eps.map csqrt) (nEnv.unsqueeze 1)
  .ok { b := b, k := k, nMax := n, rC := rC, rS := rS, epsC := epsC, epsS := epsS, nEnv := nEnv, m := m, a := a, bn := bn }

/-! ## Observables -/

/-- Result of `cross_sections` (multishell.py:873-893). -/
structure CrossT where
  csGeo : Ten ℝ
  qExt : Ten ℝ
  qSca : Ten ℝ
  qAbs : Ten ℝ
  csExt : Ten ℝ
  csSca : Ten ℝ
  csAbs : Ten ℝ
  qExtMp : Ten ℝ
  qScaMp : Ten ℝ
  qAbsMp : Ten ℝ
  csExtMp : Ten ℝ
  csScaMp : Ten ℝ
  csAbsMp : Ten ℝ

/-- `torch.arange(1, n_max+1)` as a complex array. Code: multishell.py:739. -/
noncomputable def orderTen (n : ℤ) : Ten ℂ := ⟨[n.toNat], fun idx => ((idx.getD 0 0 : ℕ) : ℂ) + 1⟩

/-- multishell.py:848-893 on the arrays returned by `mie_coefficients`. -/
noncomputable def crossSectionsFromT (o : BatchOut) : Py CrossT := do
  let n := ((orderTen o.nMax).unsqueeze 1).unsqueeze 2
  let k := o.k.unsqueeze 0
  let rS := o.rS.unsqueeze 0
  let csGeo := rS.map fun r => Real.pi * r ^ 2
  let pre := k.map fun z => 2 * (Real.pi : ℂ) / z ^ 2
  let pn ← Ten.op2 (· * ·) pre (n.map fun z => 2 * z + 1)
  let sExt ← Ten.stack2 (o.a.map fun z => (z.re : ℂ)) (o.bn.map fun z => (z.re : ℂ)) 0
  let ext ← Ten.op2 (· * ·) pn sExt
  let sSca ← Ten.stack2 (o.a.map fun z => ((‖z‖ ^ 2 : ℝ) : ℂ)) (o.bn.map fun z => ((‖z‖ ^ 2 : ℝ) : ℂ)) 0
  let sca ← Ten.op2 (· * ·) pn sSca
  let abs ← Ten.op2 (· - ·) ext sca
  let csExt := ext.sum0.sum0.map Complex.re
  let csAbs := abs.sum0.sum0.map Complex.re
  let csSca := sca.sum0.sum0.map Complex.re
  let geo0 ← csGeo.select 0 0
  let qExt ← Ten.op2 (· / ·) csExt geo0
  let qSca ← Ten.op2 (· / ·) csSca geo0
  let qAbs ← Ten.op2 (· / ·) csAbs geo0
  let qExtMp ← Ten.op2 (· / ·) (ext.map Complex.re) csGeo
  let qScaMp ← Ten.op2 (· / ·) (sca.map Complex.re) csGeo
  let qAbsMp ← Ten.op2 (· / ·) (abs.map Complex.re) csGeo
  .ok { csGeo := csGeo, qExt := qExt, qSca := qSca, qAbs := qAbs, csExt := csExt, csSca := csSca, csAbs := csAbs
        qExtMp := qExtMp, qScaMp := qScaMp, qAbsMp := qAbsMp
        csExtMp := ext.map Complex.re, csScaMp := sca.map Complex.re, csAbsMp := abs.map Complex.re }

/-- multishell.py:803-893 `cross_sections` with `backend='pena'`. -/
noncomputable def crossSectionsT (args : LayerArgs) (nMax : Option ℤ := none) : Py CrossT := do
  let o ← mieCoefficientsT args nMax
  crossSectionsFromT o

/-- Result of `angular_scattering` (multishell.py:979-990). -/
structure AngularT where
  S1 : Ten ℂ
  S2 : Ten ℂ
  iPer : Ten ℝ
  iPar : Ten ℝ
  iUnpol : Ten ℝ
  polDegree : Ten ℝ

/-- multishell.py:944-990 on the arrays returned by `mie_coefficients`; `theta` is one-dimensional. -/
noncomputable def angularFromT (o : BatchOut) (theta : Ten ℝ) : Py AngularT := do
  let (pis, taus) ← piTauT o.nMax fun idx => Real.cos (theta.get idx)
  let p := (((Ten.stackList 0 theta.shape pis.tail).unsqueeze 1).unsqueeze 1).map fun v : ℝ => (v : ℂ)
  let t := (((Ten.stackList 0 theta.shape taus.tail).unsqueeze 1).unsqueeze 1).map fun v : ℝ => (v : ℂ)
  let n := (((orderTen o.nMax).unsqueeze 1).unsqueeze 2).unsqueeze 3
  let w := n.map fun z => (2 * z + 1) / (z * (z + 1))
  let a := o.a.unsqueeze 3
  let b := o.bn.unsqueeze 3
  let ap ← Ten.op2 (· * ·) a p
  let bt ← Ten.op2 (· * ·) b t
  let at' ← Ten.op2 (· * ·) a t
  let bp ← Ten.op2 (· * ·) b p
  let e1 ← Ten.op2 (· + ·) ap bt
  let e2 ← Ten.op2 (· + ·) at' bp
  let f1 ← Ten.op2 (· * ·) w e1
  let f2 ← Ten.op2 (· * ·) w e2
  let s1 := f1.sum0
  let s2 := f2.sum0
  let iPer := s1.map fun z => ‖z‖ ^ 2
  let iPar := s2.map fun z => ‖z‖ ^ 2
  let sum ← Ten.op2 (· + ·) iPar iPer
  let dif ← Ten.op2 (· - ·) iPer iPar
  let sum' ← Ten.op2 (· + ·) iPer iPar
  let pol ← Ten.op2 (· / ·) dif sum'
  .ok { S1 := s1, S2 := s2, iPer := iPer, iPar := iPar, iUnpol := sum.map fun v => v / 2, polDegree := pol }

/-- multishell.py:896-990 `angular_scattering` with `backend='pena'`. -/
noncomputable def angularT (args : LayerArgs) (theta : Ten ℝ) (nMax : Option ℤ := none) : Py AngularT := do
  let o ← mieCoefficientsT args nMax
  angularFromT o theta

end MieDiff
