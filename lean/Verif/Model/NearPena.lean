import Verif.Model.ParticleApi

/-!
# Model of the pena branch of `nearfields` (multishell.py:1041-1291) on tensors

The region coefficients have axes (order, particle, wavenumber), the fields (order, particle, wavenumber, position, component).
Every operation is the broadcasting tensor operation of the code; `special.pena_*` act entry by entry (`Verif/Model/Batch.lean`).
-/

namespace MieDiff

open Complex

namespace Ten

variable {α : Type}

/-- `torch.cat((s, t), dim=d)`: all other axes have to agree. Code: multishell.py:1077-1089. -/
def cat (d : ℕ) (s t : Ten α) : Py (Ten α) :=
  if s.shape.eraseIdx d = t.shape.eraseIdx d ∧ d < s.shape.length ∧ d < t.shape.length then
    let m := s.shape.getD d 0
    .ok ⟨s.shape.set d (m + t.shape.getD d 0), fun idx =>
      if idx.getD d 0 < m then s.get idx else t.get (idx.set d (idx.getD d 0 - m))⟩
  else .error .runtimeError

/-- `torch.stack(l, dim=-1)`: at least one tensor, all of one shape. Code: multishell.py:1157-1160, 1264. -/
def stackLast (l : List (Ten α)) : Py (Ten α) :=
  match l with
  | [] => .error .runtimeError
  | t :: _ =>
    if l.all (fun u => u.shape = t.shape) then
      .ok ⟨t.shape ++ [l.length], fun idx => (l.getD (idx.getD t.shape.length 0) t).get (idx.take t.shape.length)⟩
    else .error .runtimeError

/-- `t.view(1, 1, n)`: as many entries as `t` has; only used on one-dimensional `t`, where it is a relabelling.
Code: multishell.py:1214. -/
def view11 (t : Ten α) (n : ℕ) : Py (Ten α) :=
  if t.shape.prod = n then .ok ⟨[1, 1, n], fun idx => t.get [idx.getD 2 0]⟩ else .error .runtimeError

/-- `t.view(n, 1, 1)`. Code: multishell.py:1217, 1221, 1224. -/
def viewN11 (t : Ten α) (n : ℕ) : Py (Ten α) :=
  if t.shape.prod = n then .ok ⟨[n, 1, 1], fun idx => t.get [idx.getD 0 0]⟩ else .error .runtimeError

end Ten

/-- `pena_D1_n`, `pena_D3_n` and `pena_psi_zeta_n` of an array, an order axis in front (multishell.py:1111-1121). -/
noncomputable def kernelsT (n : ℤ) (z : Ten ℂ) : Py (Ten ℂ × Ten ℂ × Ten ℂ × Ten ℂ) := do
  let D1 ← penaD1T n z.get
  let D3 ← penaD3T n z.get D1
  let (psi, zeta) ← penaPsiZetaT n.toNat z.get D1 D3
  .ok (Ten.stackList 0 z.shape D1, Ten.stackList 0 z.shape D3, Ten.stackList 0 z.shape psi, Ten.stackList 0 z.shape zeta)

/-- Expansion coefficients in one region, orders `0..n` on the first axis. Code: multishell.py:1094-1101. -/
structure RegionT where
  a : Ten ℂ
  b : Ten ℂ
  c : Ten ℂ
  d : Ten ℂ

/-- One pass of the interface loop multishell.py:1103-1154. -/
noncomputable def nfStepT (n : ℤ) (ml mlp1 xl : Ten ℂ) (isCore : Bool) (nxt : RegionT) : Py RegionT := do
  let zl ← .ok ml *ₜ .ok xl
  let zlp1 ← .ok mlp1 *ₜ .ok xl
  let (D1, D3, psi, zeta) ← kernelsT n zl
  let (D1N, D3N, psiN, zetaN) ← kernelsT n zlp1
  let a := .ok nxt.a
  let b := .ok nxt.b
  let c := .ok nxt.c
  let d := .ok nxt.d
  let T1 ← a *ₜ .ok zetaN -ₜ d *ₜ .ok psiN
  let T2 ← b *ₜ .ok zetaN -ₜ c *ₜ .ok psiN
  let T3 ← d *ₜ .ok D1N *ₜ .ok psiN -ₜ a *ₜ .ok D3N *ₜ .ok zetaN
  let T4 ← c *ₜ .ok D1N *ₜ .ok psiN -ₜ b *ₜ .ok D3N *ₜ .ok zetaN
  let U ← .ok D1 -ₜ .ok D3
  let denA ← .ok zeta *ₜ .ok U
  let denC ← .ok psi *ₜ .ok U
  let denA := denA.map (guardAdd solverEps)
  let denC := denC.map (guardAdd solverEps)
  let mr ← .ok ml /ₜ .ok mlp1
  let al ← (.ok D1 *ₜ .ok T1 +ₜ .ok T3 *ₜ .ok mr) /ₜ .ok denA
  let bl ← (.ok D1 *ₜ .ok T2 *ₜ .ok mr +ₜ .ok T4) /ₜ .ok denA
  let cl ← (.ok D3 *ₜ .ok T2 *ₜ .ok mr +ₜ .ok T4) /ₜ .ok denC
  let dl ← (.ok D3 *ₜ .ok T1 +ₜ .ok T3 *ₜ .ok mr) /ₜ .ok denC
  .ok { a := if isCore then al.map fun _ => 0 else al
        b := if isCore then bl.map fun _ => 0 else bl
        c := cl
        d := dl }

/-- multishell.py:1103-1154: the loop `for li in range(L - 1, -1, -1)`; regions `li..L` are kept, innermost first. -/
noncomputable def nfRegionsT (n : ℤ) (ext : RegionT) (mExt x : Ten ℂ) (L : ℕ) : Py (List RegionT) :=
  (List.range L).reverse.foldlM (fun regs li => do
    let ml ← mExt.select 1 li
    let mlp1 ← mExt.select 1 (li + 1)
    let xl ← x.select 1 li
    match regs with
    | [] => .error .indexError
    | nxt :: _ => do
      let cur ← nfStepT n ml mlp1 xl (li == 0) nxt
      .ok (cur :: regs)) [ext]

/-- special.py:1451-1540 `vsh_pena` on tensors. -/
noncomputable def vshPenaT (nMax : ℕ) (k0 nMed : Ten ℂ) (r theta phi : Ten ℝ) (kind : ℤ) (epsilon : ℝ := 1e-8) : Py VshT := do
  let d := r.shape.length
  let sinT := .ok (theta.map Real.sin).toC
  let cosP := .ok (phi.map Real.cos).toC
  let sinP := .ok (phi.map Real.sin).toC
  let msinP := .ok ((phi.map Real.sin).toC.map fun v => -v)
  let knr ← .ok k0 *ₜ .ok nMed *ₜ .ok r.toC
  let rho := knr.map fun v => v + (epsilon : ℂ)
  let mu ← (theta.map Real.cos).select 0 0
  let (pis, taus) ← piTauT nMax mu.get
  let piN := .ok (Ten.stackList 0 mu.shape pis.tail).toC
  let tauN := .ok (Ten.stackList 0 mu.shape taus.tail).toC
  let rho0 ← rho.select 0 0
  let (D1, D3, psi, zeta) ← kernelsT nMax rho0
  let (rz, D) ← (if kind = 1 then .ok (psi.tail0, D1.tail0)
    else if kind = 3 then .ok (zeta.tail0, D3.tail0)
    else .error .valueError : Py (Ten ℂ × Ten ℂ))
  let zn ← .ok rz /ₜ .ok rho
  let zn := .ok zn
  let dz ← .ok D *ₜ zn
  let dz := .ok dz
  let eR := .ok (unitT d 0)
  let eT := .ok (unitT d 1)
  let eP := .ok (unitT d 2)
  let n := .ok (orderAxis d nMax)
  let n1 := .ok ((orderAxis d nMax).map fun v => v + 1)
  let Mo ← cosP *ₜ piN *ₜ zn *ₜ eT -ₜ sinP *ₜ tauN *ₜ zn *ₜ eP
  let No ← sinP *ₜ n *ₜ n1 *ₜ sinT *ₜ piN *ₜ (zn /ₜ .ok rho) *ₜ eR +ₜ
    (sinP *ₜ tauN *ₜ dz *ₜ eT +ₜ cosP *ₜ piN *ₜ dz *ₜ eP)
  let Me ← msinP *ₜ piN *ₜ zn *ₜ eT -ₜ cosP *ₜ tauN *ₜ zn *ₜ eP
  let Ne ← cosP *ₜ n *ₜ n1 *ₜ sinT *ₜ piN *ₜ (zn /ₜ .ok rho) *ₜ eR +ₜ
    (cosP *ₜ tauN *ₜ dz *ₜ eT -ₜ sinP *ₜ piN *ₜ dz *ₜ eP)
  .ok { Mo := Mo, Me := Me, No := No, Ne := Ne }

open Classical in
/-- multishell.py:1213-1226: the masks of the regions before they are broadcast. -/
noncomputable def masksT (rLayers r : Ten ℝ) (np L npos : ℕ) : Py (List (Ten Bool)) := do
  let rPos ← r.view11 npos
  let inner ← (List.range L).mapM fun li => do
    let hi ← rLayers.select 1 li
    let hi ← hi.viewN11 np
    if li = 0 then Ten.op2 (fun x y : ℝ => decide (x ≤ y)) rPos hi
    else do
      let lo ← rLayers.select 1 (li - 1)
      let lo ← lo.viewN11 np
      let u ← Ten.op2 (fun x y : ℝ => decide (y < x)) rPos lo
      let v ← Ten.op2 (fun x y : ℝ => decide (x ≤ y)) rPos hi
      Ten.op2 (fun x y : Bool => x && y) u v
  let last ← rLayers.selectLast 1
  let last ← last.viewN11 np
  let out ← Ten.op2 (fun x y : ℝ => decide (y < x)) rPos last
  .ok (inner ++ [out])

/-- multishell.py:1231-1258: one pass of the loop over the regions, on the pair `(Es, Hs)`. -/
noncomputable def regionPassT (E0 : ℂ) (nMax L li : ℕ) (a b c d : Ten ℂ) (nMed : Ten ℂ) (v1 v3 : VshT) (mask : Ten Bool)
    (st : Ten ℂ × Ten ℂ) : Py (Ten ℂ × Ten ℂ) := do
  let a ← a.select 3 li
  let b ← b.select 3 li
  let c ← c.select 3 li
  let d ← d.select 3 li
  let a := .ok a
  let b := .ok b
  let c := .ok c
  let d := .ok d
  let En := .ok (enT E0 nMax)
  let j := .ok (Ten.scalar I)
  let E ← if li = L then En *ₜ (j *ₜ a *ₜ .ok v3.Ne -ₜ b *ₜ .ok v3.Mo)
    else En *ₜ (c *ₜ .ok v1.Mo -ₜ j *ₜ d *ₜ .ok v1.Ne +ₜ j *ₜ a *ₜ .ok v3.Ne -ₜ b *ₜ .ok v3.Mo)
  let H ← if li = L then .ok nMed *ₜ En *ₜ (j *ₜ b *ₜ .ok v3.No +ₜ a *ₜ .ok v3.Me)
    else .ok (nMed.map fun x => -x) *ₜ En *ₜ
      (d *ₜ .ok v1.Me +ₜ j *ₜ c *ₜ .ok v1.No -ₜ j *ₜ b *ₜ .ok v3.No -ₜ a *ₜ .ok v3.Me)
  let Es ← st.1.maskSet mask E
  let Hs ← st.2.maskSet mask H
  .ok (Es, Hs)

/-- multishell.py:1059-1160: the region coefficients without order 0, one array per kind, region axis last. -/
noncomputable def regionArraysT (o : BatchOut) (L : ℕ) : Py (Ten ℂ × Ten ℂ × Ten ℂ × Ten ℂ) := do
  let np := o.b.r.shape.headD 0
  let nk := o.b.k0.shape.getD 1 0
  let aL ← Ten.cat 0 ⟨[1, np, nk], fun _ => 0⟩ o.a
  let bL ← Ten.cat 0 ⟨[1, np, nk], fun _ => 0⟩ o.bn
  let ones := aL.map fun _ => (1 : ℂ)
  let x ← .ok (o.k.unsqueeze 1) *ₜ .ok (o.b.r.unsqueeze 2).toC
  let mExt ← Ten.cat 1 o.m ⟨[np, 1, nk], fun _ => 1⟩
  let regs ← nfRegionsT o.nMax ⟨aL, bL, ones, ones⟩ mExt x L
  let a ← Ten.stackLast (regs.map (·.a))
  let b ← Ten.stackLast (regs.map (·.b))
  let c ← Ten.stackLast (regs.map (·.c))
  let d ← Ten.stackLast (regs.map (·.d))
  .ok (a.tail0.tailAxes, b.tail0.tailAxes, c.tail0.tailAxes, d.tail0.tailAxes)

/-- multishell.py:1167-1291: the fields at spherical coordinates `r`, `theta`, `phi` from the coefficients.
`vsh_pena` is called with the default guard `1e-8`. -/
noncomputable def penaFieldsFrom (o : BatchOut) (r theta phi : Ten ℝ) (E0 : ℂ) (epsilon : ℝ := 1e-8) : Py FieldsT := do
  let L := o.b.r.shape.getD 1 0
  let nMax := o.nMax.toNat
  let np := o.b.r.shape.headD 0
  let nk := o.b.k0.shape.getD 1 0
  let (a, b, c, d) ← regionArraysT o L
  let npos ← (match theta.shape with
    | [] => .error .indexError
    | q :: _ => .ok q : Py ℕ)
  let full := [nMax, np, nk, npos, 3]
  let k := o.k.outer
  let k0 := o.b.k0.outer
  let nEnv := o.nEnv.outer
  let rSh := r.posAxes
  let theta := theta.posAxes
  let phi := phi.posAxes
  let layers ← (List.range L).mapM fun li => do
    let e ← (o.b.eps.map csqrt).select 1 li
    .ok e.outer
  let media := layers ++ [nEnv]
  let v ← media.mapM fun m => do
    let v1 ← vshPenaT nMax k0 m rSh theta phi 1 epsilon
    let v3 ← vshPenaT nMax k0 m rSh theta phi 3 epsilon
    .ok (v1, v3)
  let masks ← masksT o.b.r r np L npos
  let masks ← masks.mapM fun m =>
    let u := m.unsqueeze 0
    (u.unsqueeze u.shape.length).broadcastTo full
  let zero : Ten ℂ := ⟨full, fun _ => 0⟩
  let (Es, Hs) ← (((List.range (L + 1)).zip media).zip (v.zip masks)).foldlM
    (fun st q => regionPassT E0 nMax L q.1.1 a b c d q.1.2 q.2.1.1 q.2.1.2 q.2.2 st) (zero, zero)
  let Es ← cartSum Es theta phi
  let Hs ← cartSum Hs theta phi
  let j := .ok (Ten.scalar I)
  let phase ← j *ₜ .ok k *ₜ .ok rSh.toC *ₜ .ok (theta.map Real.cos).toC
  let wave := phase.map Complex.exp
  let ei ← .ok (Ten.scalar E0) *ₜ .ok wave
  let ei ← ei.selLast 0
  let Ei ← Ten.setComp 0 [np, nk, npos] 0 ei
  let hi ← .ok (Ten.scalar E0) *ₜ .ok nEnv *ₜ .ok wave
  let hi ← hi.selLast 0
  let Hi ← Ten.setComp 0 [np, nk, npos] 1 hi
  let last ← (match masks.getLast? with
    | some m => .ok m
    | none => .error .indexError : Py (Ten Bool))
  let out ← last.select 0 0
  let Et ← Es.maskAdd out Ei
  let Ht ← Hs.maskAdd out Hi
  .ok { Ei := Ei, Hi := Hi, Es := Es, Hs := Hs, Et := Et, Ht := Ht }

/-- multishell.py:993-1291 `nearfields(k0, r_probe, ..., backend='pena', n_max=n)`. -/
noncomputable def nearfieldsPenaT (args : LayerArgs) (probe : Ten ℝ) (E0 : ℂ) (nMax : Option ℤ := none) : Py FieldsT := do
  let o ← mieCoefficientsT args nMax false
  let x ← probe.selLast 0
  let y ← probe.selLast 1
  let z ← probe.selLast 2
  let sph (i : List ℕ) : V3 ℝ := xyzToSph eps10Double (x.get i) (y.get i) (z.get i)
  penaFieldsFrom o ⟨x.shape, fun i => (sph i).c0⟩ ⟨x.shape, fun i => (sph i).c1⟩ ⟨x.shape, fun i => (sph i).c2⟩ E0

/-- multishell.py:993-1490 `nearfields` with any backend (the choice is made in line 1041). -/
noncomputable def nearfieldsAny (A : BackendsOf ArrFns) (J : TorchFns) (args : LayerArgs) (probe : Ten ℝ) (E0 : ℂ := 1)
    (backend : String := "pena") (whichJn : String := "recurrence") (nMax : Option ℤ := none) : Py FieldsT :=
  if backend.toLower = "pena" then nearfieldsPenaT args probe E0 nMax else nearfieldsB A J args probe E0 backend whichJn nMax

/-- `_squeeze_dimensions` (helper.py:371-387) on the dictionary of fields. -/
def FieldsT.squeeze (F : FieldsT) : FieldsT :=
  { Ei := F.Ei.squeeze, Hi := F.Hi.squeeze, Es := F.Es.squeeze, Hs := F.Hs.squeeze, Et := F.Et.squeeze, Ht := F.Ht.squeeze }

/-- main.py:385-423 `get_nearfields(k0, r_probe, E_0=..., backend=..., which_jn=..., n_max=...)`. -/
noncomputable def Particle.nearfieldsWith (A : BackendsOf ArrFns) (J : TorchFns) (C : Casts) (p : Particle) (k0 : DTen ℝ)
    (probe : Ten ℝ) (h : Heap) (E0 : ℂ := 1) (backend : String := "pena") (whichJn : String := "recurrence")
    (nMax : Option ℤ := none) : Py FieldsT :=
  match probe.shape.getLast? with
  | none => .error .indexError
  | some 3 => (p.layerArgs C k0 h).1 >>= fun args => (nearfieldsAny A J args probe E0 backend whichJn nMax).map FieldsT.squeeze
  | some _ => .error .assertionError

end MieDiff
