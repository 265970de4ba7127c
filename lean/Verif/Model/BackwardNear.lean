import Verif.Model.BackwardShell
import Verif.Model.BackwardAngular
import Verif.Model.NearTorch

/-!
# Reverse-mode differentiation of `nearfields`, backends `torch` and `scipy`

The recorded run of the branch multishell.py:1294-1490 for one particle, wavenumber and probe point, in the vocabulary of Model/Backward: the
spherical coordinates of the probe point, the vector spherical harmonics in the three regions, the masks and the sums.  Leaves are the
parameters of the particle and the coordinates of the probe point.  Simplifications as there and in Model/NearTorch; the
products with the unit vectors (special.py:1177-1185) are written as components.
-/

namespace MieDiff

open Complex

namespace Node

variable {V : Type*} [AddCommGroup V]

/-! ## Real functions -/

/-- `torch.clamp`: the gradient passes where the value lies within the bounds. Code: helper/helper.py:253. -/
noncomputable def clamp (x : Node V) (lo hi : ℝ) : Node V :=
  ⟨(clampR x.val.re lo hi : ℝ), fun g => x.back (if lo ≤ x.val.re ∧ x.val.re ≤ hi then g else 0), x.req,
    x.ok ∧ x.val.re ≠ lo ∧ x.val.re ≠ hi⟩

/-- `torch.acos`: `grad * -((-self * self + 1).rsqrt()).conj()`. Code: helper/helper.py:254. -/
noncomputable def acos (x : Node V) : Node V :=
  ⟨(Real.arccos x.val.re : ℝ), fun g => x.back (g * ((-(Real.sqrt (1 - x.val.re ^ 2))⁻¹ : ℝ) : ℂ)), x.req,
    x.ok ∧ x.val.re ≠ -1 ∧ x.val.re ≠ 1⟩

/-- `torch.atan2(y, x)`: `atan2_backward`. Code: helper/helper.py:257. -/
noncomputable def atan2N (y x : Node V) : Node V :=
  let rec_ : ℝ := (y.val.re ^ 2 + x.val.re ^ 2)⁻¹
  ⟨(atan2 y.val.re x.val.re : ℝ), fun g => y.back (g * ((x.val.re * rec_ : ℝ) : ℂ)) + x.back (g * ((-y.val.re * rec_ : ℝ) : ℂ)), y.req || x.req,
    y.ok ∧ x.ok ∧ y.val.re ^ 2 + x.val.re ^ 2 ≠ 0⟩

open Classical in
/-- helper.py:236-258 `transform_xyz_to_spherical`. -/
noncomputable def sph (eps10 : ℝ) (x y z : Node V) : V3 (Node V) :=
  let r := sqrt (add (add (sq x) (sq y)) (sq z))
  let rSafe := where' (r.val = 0) (const 1e-12) r
  let zOverR := clamp (div z rSafe) (-1 + eps10) (1 - eps10)
  let xSafe := add x (const (((if x.val = 0 then 1 else 0) * eps10 : ℝ) : ℂ))
  ⟨r, acos zOverR, atan2N y xSafe⟩

/-! ## Harmonics -/

/-- special.py:997-1069 and 1159-1170: `psi_torch`, `chi_torch` or `xi_torch` by `kind` and the derivative, at order `i`. -/
noncomputable def ric (B : Bess V) (kind : ℤ) (rho : Node V) (i : ℕ) : Node V × Node V :=
  if kind = 1 then
    let j := B.jn rho
    (mul rho (j i), add (j i) (mul rho (fDer rho j i)))
  else if kind = 2 then
    let y := B.yn rho
    (mul (neg rho) (y i), sub (neg (y i)) (mul rho (fDer rho y i)))
  else
    let h := fun k => add (B.jn rho k) (mul (const I) (B.yn rho k))
    (mul rho (h i), add (h i) (mul rho (fDer rho h i)))

/-- The four vector spherical harmonics at one order. Code: special.py:1205. -/
structure Vsh (V : Type*) where
  Mo : V3 (Node V)
  Me : V3 (Node V)
  No : V3 (Node V)
  Ne : V3 (Node V)

/-- special.py:1191-1203. -/
noncomputable def vshOf (n : ℕ) (theta phi rho pi tau zn dz : Node V) : Vsh V :=
  let cp := cos phi
  let sp := sin phi
  let st := sin theta
  let nn : Node V := const n
  let n1 : Node V := const ((n : ℂ) + 1)
  { Mo := ⟨const 0, mul (mul cp pi) zn, neg (mul (mul sp tau) zn)⟩
    Me := ⟨const 0, mul (mul (neg sp) pi) zn, neg (mul (mul cp tau) zn)⟩
    No := ⟨mul (mul (mul (mul (mul sp nn) n1) st) pi) (div zn rho), mul (mul sp tau) dz, mul (mul cp pi) dz⟩
    Ne := ⟨mul (mul (mul (mul (mul cp nn) n1) st) pi) (div zn rho), mul (mul cp tau) dz, neg (mul (mul sp pi) dz)⟩ }

/-- special.py:1123-1205 `vsh` at order `i`. -/
noncomputable def vshAt (B : Bess V) (k0 nMed r theta phi : Node V) (kind : ℤ) (i : ℕ) : Vsh V :=
  let rho := add (mul (mul k0 nMed) r) (const ((1e-8 : ℝ) : ℂ))
  let mu := cos theta
  let z := ric B kind rho i
  vshOf i theta phi rho (piN mu i) (tauN mu i) (div z.1 rho) (div z.2 rho)

/-! ## Fields -/

/-- Coefficient times vector, multishell.py:1419-1441. -/
noncomputable def scale (c : Node V) (w : V3 (Node V)) : V3 (Node V) := ⟨mul c w.c0, mul c w.c1, mul c w.c2⟩

/-- Sum of vectors, multishell.py:1419-1441. -/
def add3 (u w : V3 (Node V)) : V3 (Node V) := ⟨add u.c0 w.c0, add u.c1 w.c1, add u.c2 w.c2⟩

/-- Difference of vectors, multishell.py:1419-1441. -/
def sub3 (u w : V3 (Node V)) : V3 (Node V) := ⟨sub u.c0 w.c0, sub u.c1 w.c1, sub u.c2 w.c2⟩

/-- `F[mask] = G[mask]`. Code: multishell.py:1426-1428, 1444-1446. -/
noncomputable def where3 (c : Prop) [Decidable c] (u w : V3 (Node V)) : V3 (Node V) :=
  ⟨where' c u.c0 w.c0, where' c u.c1 w.c1, where' c u.c2 w.c2⟩

/-- The tensors which `nearfields` takes from the dictionary of `mie_coefficients` (multishell.py:1313-1327). -/
structure Medium (V : Type*) where
  k : Node V
  k0 : Node V
  nC : Node V
  nS : Node V
  nE : Node V
  rC : Node V
  rS : Node V

/-- multishell.py:1394-1440: the scattered or internal electric and magnetic field of order `i`, spherical components. -/
noncomputable def orderFields (Bc Bs Bo : Bess V) (M : Medium V) (E0 : ℂ) (co : ShellOut V) (r theta phi : Node V) (i : ℕ) :
    V3 (Node V) × V3 (Node V) :=
  let vc := vshAt Bc M.k0 M.nC r theta phi 1 i
  let vs := vshAt Bs M.k0 M.nS r theta phi 1 i
  let ws := vshAt Bs M.k0 M.nS r theta phi 2 i
  let vo := vshAt Bo M.k0 M.nE r theta phi 3 i
  let En : Node V := const (EnCoef E0 i)
  let j : Node V := const I
  let E1 := scale En (sub3 (scale co.c vc.Mo) (scale (mul j co.d) vc.Ne))
  let E2 := scale En (sub3 (sub3 (scale co.f vs.Mo) (scale (mul j co.g) vs.Ne)) (sub3 (scale co.v ws.Mo) (scale (mul j co.w) ws.Ne)))
  let E3 := scale En (sub3 (scale (mul j co.a) vo.Ne) (scale co.b vo.Mo))
  let H1 := scale (mul (neg M.nC) En) (add3 (scale co.d vc.Me) (scale (mul j co.c) vc.No))
  let H2 := scale (mul (neg M.nS) En) (sub3 (add3 (scale co.g vs.Me) (scale (mul j co.f) vs.No)) (add3 (scale co.w ws.Me) (scale (mul j co.v) ws.No)))
  let H3 := scale (mul En M.nE) (add3 (scale (mul j co.b) vo.No) (scale co.a vo.Me))
  let zero : V3 (Node V) := ⟨const 0, const 0, const 0⟩
  let sel (f1 f2 f3 : V3 (Node V)) : V3 (Node V) :=
    where3 (M.rS.val.re < r.val.re) f3
      (where3 (M.rC.val.re < r.val.re ∧ r.val.re ≤ M.rS.val.re) f2 (where3 (r.val.re ≤ M.rC.val.re) f1 zero))
  (sel E1 E2 E3, sel H1 H2 H3)

/-- helper.py:178-210 `transform_fields_spherical_to_cartesian`. -/
noncomputable def cart (E : V3 (Node V)) (theta phi : Node V) : V3 (Node V) :=
  let st := sin theta
  let ct := cos theta
  let sp := sin phi
  let cp := cos phi
  ⟨add (add (mul E.c0 (mul st cp)) (mul E.c1 (mul ct cp))) (mul E.c2 (neg sp)),
   add (add (mul E.c0 (mul st sp)) (mul E.c1 (mul ct sp))) (mul E.c2 cp),
   add (add (mul E.c0 ct) (mul E.c1 (neg st))) (mul E.c2 (const 0))⟩

/-- multishell.py:1444-1459: to Cartesian components, summed over the orders `1..n`. -/
noncomputable def sumOrders (n : ℕ) (theta phi : Node V) (f : ℕ → V3 (Node V)) : V3 (Node V) :=
  ⟨sum ((List.range n).map fun i => (cart (f (i + 1)) theta phi).c0),
   sum ((List.range n).map fun i => (cart (f (i + 1)) theta phi).c1),
   sum ((List.range n).map fun i => (cart (f (i + 1)) theta phi).c2)⟩

/-- The six fields. Code: multishell.py:1481-1488. -/
structure NearFields (V : Type*) where
  Ei : V3 (Node V)
  Hi : V3 (Node V)
  Es : V3 (Node V)
  Hs : V3 (Node V)
  Et : V3 (Node V)
  Ht : V3 (Node V)

/-- multishell.py:1338-1490 from the coefficients `co` at the probe point `(x, y, z)`. -/
noncomputable def nearOf (n : ℕ) (Bc Bs Bo : Bess V) (M : Medium V) (E0 : ℂ) (co : ℕ → ShellOut V) (x y z : Node V) : NearFields V :=
  let s := sph eps10Double x y z
  let r := s.c0
  let theta := s.c1
  let phi := s.c2
  let f := fun i => orderFields Bc Bs Bo M E0 (co i) r theta phi i
  let Es := sumOrders n theta phi fun i => (f i).1
  let Hs := sumOrders n theta phi fun i => (f i).2
  let wave := exp (mul (mul (mul (const I) M.k) r) (cos theta))
  let Ei : V3 (Node V) := ⟨mul (const E0) wave, const 0, const 0⟩
  let Hi : V3 (Node V) := ⟨const 0, mul (mul (const E0) M.nE) wave, const 0⟩
  { Ei := Ei
    Hi := Hi
    Es := Es
    Hs := Hs
    Et := where3 (M.rS.val.re < r.val.re) (add3 Es Ei) Es
    Ht := where3 (M.rS.val.re < r.val.re) (add3 Hs Hi) Hs }

/-- multishell.py:704-720 and 740: what `mie_coefficients` puts into its dictionary. -/
noncomputable def medium (p : Inputs V) : Medium V where
  k := (host p).2
  k0 := p.k0
  nC := powHalf (p.eps.headD (const 0))
  nS := powHalf (p.eps.getLastD (const 0))
  nE := (host p).1
  rC := p.r.headD (const 0)
  rS := p.r.getLastD (const 0)

/-- special.py:870-873 the extra depth of `sph_jn_torch` for a batch with largest absolute argument `zm`. -/
noncomputable def batchDepth (zm : ℝ) : ℕ := (min (max 20 (⌊zm * 2⌋ + 10)) 50).toNat

/-- `sph_jn_torch` and `sph_yn_torch` at given extra depth. Code: special.py:786-975 as called from special.py:997-1070. -/
noncomputable def Bess.ratioAt (n d : ℕ) : Bess V := ⟨ratio n d, fun z => yRec (safe z)⟩

end Node

end MieDiff
