import Verif.Model.Batch

/-!
# Model of the torch/scipy branch of `nearfields` (multishell.py:1294-1490) and of batched `_miecoef`

First the branch for one particle, wavenumber and probe point, then the same code on tensors with torch's broadcasting.
In the tensor code `r_c`, `r_s`, `n_c`, `n_s` and (in the magnetic fields) `n_env` keep the shape `(N_part, N_k0)`, although
they are combined with arrays of shape `(n_max, N_part, N_k0, N_pos, 3)`.
-/

namespace MieDiff

open Complex

/-! ## One particle, wavenumber and probe point -/

/-- special.py:1159-1170: `psi_torch`, `chi_torch` or `xi_torch` by `kind`. -/
noncomputable def ricKind (B : BesselBackend) (n : ℕ) (kind : ℤ) (rho : ℂ) : Py (List ℂ × List ℂ) :=
  if kind = 1 then do
    let j ← B.jn n rho
    ricPlus rho j
  else if kind = 2 then do
    let y ← B.yn n rho
    ricMinus rho y
  else if kind = 3 then do
    let j ← B.jn n rho
    let y ← B.yn n rho
    ricPlus rho (h1Of j y)
  else .error .valueError

/-- multishell.py:1413, 1419-1423 and 1431-1441: fields of one order at one point, spherical components, from the harmonics of
the core, of the shell (both kinds) and of the host; the three regions are selected by the masks of lines 1381-1383. -/
noncomputable def torchOrder (En : ℂ) (co : CoreShellOut) (nC nS nE : ℂ) (rC rS r : ℝ) (vc vs ws vo : VSH) : V3 ℂ × V3 ℂ :=
  let E1 := V3.smul En ((V3.smul co.c vc.Mo).add (V3.smul (-(I * co.d)) vc.Ne))
  let E2 := V3.smul En (((V3.smul co.f vs.Mo).add (V3.smul (-(I * co.g)) vs.Ne)).add
    (V3.smul (-1) ((V3.smul co.v ws.Mo).add (V3.smul (-(I * co.w)) ws.Ne))))
  let E3 := V3.smul En ((V3.smul (I * co.a) vo.Ne).add (V3.smul (-co.b) vo.Mo))
  let H1 := V3.smul (-nC * En) ((V3.smul co.d vc.Me).add (V3.smul (I * co.c) vc.No))
  let H2 := V3.smul (-nS * En) (((V3.smul co.g vs.Me).add (V3.smul (I * co.f) vs.No)).add
    (V3.smul (-1) ((V3.smul co.w ws.Me).add (V3.smul (I * co.v) ws.No))))
  let H3 := V3.smul (En * nE) ((V3.smul (I * co.b) vo.No).add (V3.smul co.a vo.Me))
  let sel (f1 f2 f3 : V3 ℂ) : V3 ℂ :=
    if rS < r then f3 else if rC < r ∧ r ≤ rS then f2 else if r ≤ rC then f1 else V3.zero
  (sel E1 E2 E3, sel H1 H2 H3)

/-- multishell.py:1294-1490 for one particle, wavenumber and probe point.  `Bc`, `Bs`, `B2`, `Bo` are the special functions
in the four calls of `vsh` (lines 1394-1405). -/
noncomputable def nearfieldsTorch (Bc Bs B2 Bo : BesselBackend) (k0 k nC nS nEnv : ℂ) (rC rS : ℝ) (E0 : ℂ)
    (co : List CoreShellOut) (p : V3 ℝ) (epsilon : ℝ := 1e-8) : Py Fields := do
  let nMax := co.length
  let sph := xyzToSph eps10Double p.c0 p.c1 p.c2
  let r := sph.c0
  let theta := sph.c1
  let phi := sph.c2
  let vc ← vsh Bc nMax k0 nC r theta phi 1 epsilon
  let vs ← vsh Bs nMax k0 nS r theta phi 1 epsilon
  let ws ← vsh B2 nMax k0 nS r theta phi 2 epsilon
  let vo ← vsh Bo nMax k0 nEnv r theta phi 3 epsilon
  let z : VSH := ⟨V3.zero, V3.zero, V3.zero, V3.zero⟩
  let eh := (List.range nMax).map fun i =>
    torchOrder (EnCoef E0 (i + 1)) (co.getD i ⟨0, 0, 0, 0, 0, 0, 0, 0⟩) nC nS nEnv rC rS r (vc.getD i z) (vs.getD i z)
      (ws.getD i z) (vo.getD i z)
  let Es := sumCart theta phi (eh.map (·.1))
  let Hs := sumCart theta phi (eh.map (·.2))
  let Ei := incidentE E0 k r theta
  let Hi := incidentH E0 k nEnv r theta
  .ok { Ei := Ei, Hi := Hi, Es := Es, Hs := Hs
        Et := if rS < r then Es.add Ei else Es
        Ht := if rS < r then Hs.add Hi else Hs }

/-! ## On tensors -/

namespace Ten

variable {α β γ : Type}

/-- A binary operation of two expressions, left operand first.
Code: Python evaluates operands from left to right, e.g. multishell.py:1419. -/
def opP (f : α → β → γ) (x : Py (Ten α)) (y : Py (Ten β)) : Py (Ten γ) := do
  let a ← x
  let b ← y
  op2 f a b

/-- `t[1:]`. Code: special.py:1156-1157, 1173-1174. -/
def tail0 (t : Ten α) : Ten α := ⟨(t.shape.headD 0 - 1) :: t.shape.tail, fun idx => t.get ((idx.headD 0 + 1) :: idx.tail)⟩

/-- `t[..., i]`. Code: multishell.py:1450, 1470. -/
def selLast (t : Ten α) (i : ℕ) : Py (Ten α) := t.select (t.shape.length - 1) i

/-- `dst[mask] = src[mask]` with a Boolean mask: `IndexError` unless all shapes agree. Code: multishell.py:1426-1428, 1444-1446. -/
def maskSet (dst : Ten α) (mask : Ten Bool) (src : Ten α) : Py (Ten α) :=
  if mask.shape = dst.shape ∧ mask.shape = src.shape then
    .ok ⟨dst.shape, fun idx => if mask.get idx then src.get idx else dst.get idx⟩
  else .error .indexError

/-- `dst[mask] += src[mask]`. Code: multishell.py:1281-1282, 1478-1479. -/
def maskAdd [Add α] (dst : Ten α) (mask : Ten Bool) (src : Ten α) : Py (Ten α) :=
  if mask.shape = dst.shape ∧ mask.shape = src.shape then
    .ok ⟨dst.shape, fun idx => if mask.get idx then dst.get idx + src.get idx else dst.get idx⟩
  else .error .indexError

/-- `z = zeros(sh + (3,)); z[..., c] = v`: leading axes of length 1 of `v` are dropped, the rest is broadcast.
Code: multishell.py:1469-1473. -/
def setComp (zero : α) (sh : List ℕ) (c : ℕ) (v : Ten α) : Py (Ten α) := do
  let extra := v.shape.length - sh.length
  if (v.shape.take extra).any (· ≠ 1) then .error .runtimeError else
  let w ← Ten.broadcastTo ⟨v.shape.drop extra, fun idx => v.get (List.replicate extra 0 ++ idx)⟩ sh
  .ok ⟨sh ++ [3], fun idx => if idx.getD sh.length 0 = c then w.get (idx.take sh.length) else zero⟩

end Ten

scoped[MieDiff] infixl:70 " *ₜ " => Ten.opP (fun x y : ℂ => x * y)
scoped[MieDiff] infixl:70 " /ₜ " => Ten.opP (fun x y : ℂ => x / y)
scoped[MieDiff] infixl:65 " +ₜ " => Ten.opP (fun x y : ℂ => x + y)
scoped[MieDiff] infixl:65 " -ₜ " => Ten.opP (fun x y : ℂ => x - y)

/-- Special functions of a tensor argument: the torch versions choose their depth from the largest absolute value of the
tensor (special.py:756-759, 869-875), otherwise they act on each entry. -/
abbrev TorchFns := ℝ → BesselBackend

/-- `sph_jn_torch` and `sph_yn_torch`, as used by `psi_torch`, `chi_torch`, `xi_torch` on arrays with several axes.
Code: special.py:997-1070. -/
noncomputable def torchFns : TorchFns := fun zMax => ⟨fun n z => sphJnTorchNd n z zMax, fun n z => sphYnTorch n z⟩

/-- Value of a call that succeeded. Code: no counterpart; reads off entries of the stack of special.py:913. -/
def okD {α : Type} (d : α) : Py α → α
  | .ok v => v
  | .error _ => d

/-- `psi_torch`, `chi_torch`, `xi_torch` of a tensor: an order axis is added in front. Code: special.py:1160-1168. -/
noncomputable def ricKindT (J : TorchFns) (n : ℕ) (kind : ℤ) (rho : Ten ℂ) : Py (Ten ℂ × Ten ℂ) := do
  let zm ← maxAbs rho.entries
  let _ ← rho.entries.mapM (ricKind (J zm) n kind)
  let f (idx : List ℕ) : List ℂ × List ℂ := okD ([], []) (ricKind (J zm) n kind (rho.get idx.tail))
  .ok (⟨(n + 1) :: rho.shape, fun idx => (f idx).1.getD (idx.headD 0) 0⟩,
    ⟨(n + 1) :: rho.shape, fun idx => (f idx).2.getD (idx.headD 0) 0⟩)

/-- Result of `vsh`. Code: special.py:1205. -/
structure VshT where
  Mo : Ten ℂ
  Me : Ten ℂ
  No : Ten ℂ
  Ne : Ten ℂ

/-- special.py:1178-1185: unit vectors on the last of `d` axes. -/
noncomputable def unitT (d c : ℕ) : Ten ℂ := ⟨List.replicate (d - 1) 1 ++ [3], fun idx => if idx.getD (d - 1) 0 = c then 1 else 0⟩

/-- special.py:1188-1189 and multishell.py:1389: the orders `1..n` on the first of `d` axes. -/
noncomputable def orderAxis (d n : ℕ) : Ten ℂ := ⟨n :: List.replicate (d - 1) 1, fun idx => ((idx.headD 0 : ℕ) : ℂ) + 1⟩

/-- A real array in a complex expression. Code: type promotion, e.g. special.py:1151. -/
noncomputable def Ten.toC (t : Ten ℝ) : Ten ℂ := t.map fun v : ℝ => (v : ℂ)

/-- special.py:1123-1205 `vsh` on tensors with axes (order, particle, wavenumber, position, component). -/
noncomputable def vshT (J : TorchFns) (nMax : ℕ) (k0 nMed : Ten ℂ) (r theta phi : Ten ℝ) (kind : ℤ) (epsilon : ℝ := 1e-8) :
    Py VshT := do
  let d := r.shape.length
  let sinT := .ok (theta.map Real.sin).toC
  let cosP := .ok (phi.map Real.cos).toC
  let sinP := .ok (phi.map Real.sin).toC
  let msinP := .ok ((phi.map Real.sin).toC.map fun v => -v)
  let knr ← .ok k0 *ₜ .ok nMed *ₜ .ok r.toC
  let rho := knr.map fun v => v + (epsilon : ℂ)
  let mu ← (theta.map Real.cos).select 0 0
  let (pis, taus) ← piTauT nMax mu.get
  let piN := .ok (Ten.stackList 0 mu.shape pis.tail).toC
  let tauN := .ok (Ten.stackList 0 mu.shape taus.tail).toC
  let rho0 ← rho.select 0 0
  let (rz, drz) ← ricKindT J nMax kind rho0
  let dz := .ok drz.tail0 /ₜ .ok rho
  let zn := .ok rz.tail0 /ₜ .ok rho
  let eR := .ok (unitT d 0)
  let eT := .ok (unitT d 1)
  let eP := .ok (unitT d 2)
  let n := .ok (orderAxis d nMax)
  let n1 := .ok ((orderAxis d nMax).map fun v => v + 1)
  let Mo ← cosP *ₜ piN *ₜ zn *ₜ eT -ₜ sinP *ₜ tauN *ₜ zn *ₜ eP
  let No ← sinP *ₜ n *ₜ n1 *ₜ sinT *ₜ piN *ₜ (zn /ₜ .ok rho) *ₜ eR +ₜ
    (sinP *ₜ tauN *ₜ dz *ₜ eT +ₜ cosP *ₜ piN *ₜ dz *ₜ eP)
  let Me ← msinP *ₜ piN *ₜ zn *ₜ eT -ₜ cosP *ₜ tauN *ₜ zn *ₜ eP
  let Ne ← cosP *ₜ n *ₜ n1 *ₜ sinT *ₜ piN *ₜ (zn /ₜ .ok rho) *ₜ eR +ₜ
    (cosP *ₜ tauN *ₜ dz *ₜ eT -ₜ sinP *ₜ piN *ₜ dz *ₜ eP)
  .ok { Mo := Mo, Me := Me, No := No, Ne := Ne }

/-- What `mie_coefficients(..., return_internal=True)` hands to the torch/scipy branch (multishell.py:1312-1336). -/
structure TorchCoefs where
  nMax : ℕ
  k : Ten ℂ
  k0 : Ten ℂ
  rC : Ten ℝ
  rS : Ten ℝ
  nEnv : Ten ℂ
  nC : Ten ℂ
  nS : Ten ℂ
  a : Ten ℂ
  b : Ten ℂ
  c : Ten ℂ
  d : Ten ℂ
  f : Ten ℂ
  g : Ten ℂ
  v : Ten ℂ
  w : Ten ℂ

/-- `t.unsqueeze(0).unsqueeze(-1).unsqueeze(-1)` (multishell.py:1363-1367). -/
def Ten.outer {α : Type} (t : Ten α) : Ten α :=
  let u := t.unsqueeze 0
  let u := u.unsqueeze u.shape.length
  u.unsqueeze u.shape.length

/-- `t.unsqueeze(-1).unsqueeze(-1)` (multishell.py:1370-1377). -/
def Ten.tailAxes {α : Type} (t : Ten α) : Ten α :=
  let u := t.unsqueeze t.shape.length
  u.unsqueeze u.shape.length

/-- `t.unsqueeze(0).unsqueeze(0).unsqueeze(0).unsqueeze(-1)` (multishell.py:1380, 1385-1386). -/
def Ten.posAxes {α : Type} (t : Ten α) : Ten α :=
  let u := ((t.unsqueeze 0).unsqueeze 0).unsqueeze 0
  u.unsqueeze u.shape.length

/-- The six field arrays. Code: multishell.py:1481-1488. -/
structure FieldsT where
  Ei : Ten ℂ
  Hi : Ten ℂ
  Es : Ten ℂ
  Hs : Ten ℂ
  Et : Ten ℂ
  Ht : Ten ℂ

/-- helper.py `transform_fields_spherical_to_cartesian` on the components of a field array, stacked on the last axis
(multishell.py:1449-1461), then summed over the order axis.  The angles are broadcast to the field. -/
noncomputable def cartSum (F : Ten ℂ) (theta phi : Ten ℝ) : Py (Ten ℂ) := do
  let f0 ← F.selLast 0
  let f1 ← F.selLast 1
  let f2 ← F.selLast 2
  let t ← theta.selLast 0
  let p ← phi.selLast 0
  let t ← t.broadcastTo f0.shape
  let p ← p.broadcastTo f0.shape
  let m := f0.shape.length
  let out : Ten ℂ := ⟨f0.shape ++ [3], fun idx =>
    let i := idx.take m
    let v := fieldsSphToCart ⟨f0.get i, f1.get i, f2.get i⟩ (t.get i) (p.get i)
    if idx.getD m 0 = 0 then v.c0 else if idx.getD m 0 = 1 then v.c1 else v.c2⟩
  .ok out.sum0

/-- multishell.py:1413 (`En`) on tensors. -/
noncomputable def enT (E0 : ℂ) (nMax : ℕ) : Ten ℂ :=
  ⟨nMax :: List.replicate 4 1, fun idx => EnCoef E0 (idx.headD 0 + 1)⟩

open Classical in
/-- multishell.py:1294-1490 on tensors; `r`, `theta`, `phi` are the spherical coordinates of the probe points. -/
noncomputable def torchFieldsFrom (J : TorchFns) (o : TorchCoefs) (r theta phi : Ten ℝ) (E0 : ℂ) (epsilon : ℝ := 1e-8) :
    Py FieldsT := do
  let np := o.rC.shape.headD 0
  let nk := o.k0.shape.getD 1 0
  let npos := theta.shape.headD 0
  let full := [o.nMax, np, nk, npos, 3]
  let k := o.k.outer
  let k0 := o.k0.outer
  let nSur := o.nEnv.outer
  let a := .ok o.a.tailAxes
  let b := .ok o.b.tailAxes
  let c := .ok o.c.tailAxes
  let d := .ok o.d.tailAxes
  let f := .ok o.f.tailAxes
  let g := .ok o.g.tailAxes
  let v := .ok o.v.tailAxes
  let w := .ok o.w.tailAxes
  let r := r.posAxes
  let i1 ← Ten.op2 (fun x y : ℝ => decide (x ≤ y)) r o.rC
  let i2a ← Ten.op2 (fun x y : ℝ => decide (x < y)) o.rC r
  let i2b ← Ten.op2 (fun x y : ℝ => decide (x ≤ y)) r o.rS
  let i2 ← Ten.op2 (fun x y : Bool => x && y) i2a i2b
  let i3 ← Ten.op2 (fun x y : ℝ => decide (y < x)) r o.rS
  let phi := phi.posAxes
  let theta := theta.posAxes
  let vc ← vshT J o.nMax k0 o.nC r theta phi 1 epsilon
  let vs ← vshT J o.nMax k0 o.nS r theta phi 1 epsilon
  let ws ← vshT J o.nMax k0 o.nS r theta phi 2 epsilon
  let vo ← vshT J o.nMax k0 nSur r theta phi 3 epsilon
  let En := .ok (enT E0 o.nMax)
  let i1 ← i1.broadcastTo full
  let i2 ← i2.broadcastTo full
  let i3 ← i3.broadcastTo full
  let j := .ok (Ten.scalar I)
  let E1 ← En *ₜ (c *ₜ .ok vc.Mo -ₜ j *ₜ d *ₜ .ok vc.Ne)
  let E2 ← En *ₜ ((f *ₜ .ok vs.Mo -ₜ j *ₜ g *ₜ .ok vs.Ne) -ₜ (v *ₜ .ok ws.Mo -ₜ j *ₜ w *ₜ .ok ws.Ne))
  let E3 ← En *ₜ (j *ₜ a *ₜ .ok vo.Ne -ₜ b *ₜ .ok vo.Mo)
  let zero : Ten ℂ := ⟨full, fun _ => 0⟩
  let Es ← zero.maskSet i1 E1
  let Es ← Es.maskSet i2 E2
  let Es ← Es.maskSet i3 E3
  let H1 ← .ok (o.nC.map fun x => -x) *ₜ En *ₜ (d *ₜ .ok vc.Me +ₜ j *ₜ c *ₜ .ok vc.No)
  let H2 ← .ok (o.nS.map fun x => -x) *ₜ En *ₜ
    ((g *ₜ .ok vs.Me +ₜ j *ₜ f *ₜ .ok vs.No) -ₜ (w *ₜ .ok ws.Me +ₜ j *ₜ v *ₜ .ok ws.No))
  let H3 ← En *ₜ .ok o.nEnv *ₜ (j *ₜ b *ₜ .ok vo.No +ₜ a *ₜ .ok vo.Me)
  let Hs ← zero.maskSet i1 H1
  let Hs ← Hs.maskSet i2 H2
  let Hs ← Hs.maskSet i3 H3
  let Es ← cartSum Es theta phi
  let Hs ← cartSum Hs theta phi
  let phase ← j *ₜ .ok k *ₜ .ok r.toC *ₜ .ok (theta.map Real.cos).toC
  let wave := phase.map Complex.exp
  let ei ← .ok (Ten.scalar E0) *ₜ .ok wave
  let ei ← ei.selLast 0
  let Ei ← Ten.setComp 0 [np, nk, npos] 0 ei
  let hi ← .ok (Ten.scalar E0) *ₜ .ok o.nEnv *ₜ .ok wave
  let hi ← hi.selLast 0
  let Hi ← Ten.setComp 0 [np, nk, npos] 1 hi
  let out ← i3.select 0 0
  let Et ← Es.maskAdd out Ei
  let Ht ← Hs.maskAdd out Hi
  .ok { Ei := Ei, Hi := Hi, Es := Es, Hs := Hs, Et := Et, Ht := Ht }

end MieDiff
