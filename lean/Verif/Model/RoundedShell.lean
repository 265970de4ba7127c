import Verif.Model.Rounded

/-!
# The core-shell solver operation by operation

`_miecoef` with its three sources of spherical Bessel functions in an arithmetic `A` (Model/Rounded): every operation of the code in the
order of the code.  SciPy's functions are parameters.  Products with `mu = 1.0`, which the code performs, are kept.
-/

namespace MieDiff

open Complex

namespace Arith

variable (A : Arith)

/-- Spherical Bessel functions by argument and order. Code: multishell.py:60-70. -/
structure Bess where
  jn : ℂ → ℕ → ℂ
  yn : ℂ → ℕ → ℂ

/-- special.py:753 and 951 `torch.where(_z.abs() < eps, eps * torch.ones_like(_z), _z)`. -/
noncomputable def safe (z : ℂ) : ℂ := if A.abs z < 1e-10 then ((1e-10 : ℝ) : ℂ) else z

/-- special.py:764-773 the downward sweep of `sph_jn_torch_via_rec`, started at order `N`: the values at orders `N - j`, `N - j + 1`. -/
noncomputable def jRec (zs : ℂ) (N : ℕ) : ℕ → ℂ × ℂ
  | 0 => (0, 1e-25)
  | j + 1 => (A.sub (A.mul (A.div (2 * ((N - j : ℕ) : ℂ) + 1) zs) (jRec zs N j).1) (jRec zs N j).2, (jRec zs N j).1)

/-- special.py:700-783 `sph_jn_torch_via_rec(n, z)` with extra depth `d` at order `k`. -/
noncomputable def viaRec (n d : ℕ) (z : ℂ) (k : ℕ) : ℂ :=
  let zs := A.safe z
  let jns (i : ℕ) : ℂ := (A.jRec zs (n + d) (n + d - i)).1
  A.mul (jns k) (A.div (A.div (A.sin zs) zs) (jns 0))

/-- special.py:892 `torch.where(denom.abs() == 0.0, denom + eps, denom)`. -/
noncomputable def nonzero (z : ℂ) : ℂ := if A.abs z = 0 then A.add z 1e-50 else z

/-- special.py:888-896 the loop of `sph_jn_torch`, started at order `N`; value at order `N + 1 - j`. -/
noncomputable def ratioDown (z : ℂ) (N : ℕ) : ℕ → ℂ
  | 0 => 0
  | j + 1 => A.div 1 (A.nonzero (A.sub (A.div (2 * ((N - j : ℕ) : ℂ) + 1) z) (ratioDown z N j)))

/-- special.py:904 `torch.cumprod(r_storage, dim=0)`. -/
noncomputable def ratioProd (z : ℂ) (N : ℕ) : ℕ → ℂ
  | 0 => 1
  | k + 1 => A.mul (ratioProd z N k) (A.ratioDown z N (N + 1 - (k + 1)))

/-- special.py:898-901 `torch.where(z == 0, 1, sin(z) / z)`. -/
noncomputable def sinc (z : ℂ) : ℂ := if z = 0 then 1 else A.div (A.sin z) z

/-- special.py:862-911 `sph_jn_torch(n, z)` with extra depth `d` at order `k`, for arguments that are not small. -/
noncomputable def ratio (n d : ℕ) (z : ℂ) : ℕ → ℂ
  | 0 => A.sinc z
  | k + 1 => A.mul (A.sinc z) (A.ratioProd z (n + d) (k + 1))

/-- special.py:957-970 the orders of `sph_yn_torch`. -/
noncomputable def yRec (zs : ℂ) : ℕ → ℂ
  | 0 => A.mul (-1) (A.div (A.cos zs) zs)
  | 1 => A.mul (-1) (A.add (A.div (A.cos zs) (A.mul zs zs)) (A.div (A.sin zs) zs))
  | k + 2 => A.sub (A.mul (A.div (2 * ((k + 2 : ℕ) : ℂ) - 1) zs) (yRec zs (k + 1))) (yRec zs k)

/-- special.py:756-759 the extra depth of `sph_jn_torch_via_rec`. -/
noncomputable def recDepth (z : ℂ) : ℕ :=
  let k := max 10 ⌊(A.mul ((3 / 2 : ℝ) : ℂ) (A.abs z)).re⌋
  (if k > 35 then 35 else k).toNat

/-- special.py:870-873 the extra depth of `sph_jn_torch`. -/
noncomputable def ratioDepth (z : ℂ) : ℕ := (min (max 20 (⌊(A.mul (A.abs z) ((2 : ℝ) : ℂ)).re⌋ + 10)) 50).toNat

/-- `which_jn='recurrence'`. Code: multishell.py:63, special.py:700-783. -/
noncomputable def bessRec (n : ℕ) : Bess := ⟨fun z => A.viaRec n (A.recDepth z) z, fun z => A.yRec (A.safe z)⟩

/-- `which_jn='ratios'`. Code: multishell.py:60, special.py:786-922. -/
noncomputable def bessRatio (n : ℕ) : Bess := ⟨fun z => A.ratio n (A.ratioDepth z) z, fun z => A.yRec (A.safe z)⟩

/-- special.py:338-361 `f_der`. -/
noncomputable def fDer (z : ℂ) (f : ℕ → ℂ) : ℕ → ℂ
  | 0 => -f 1
  | k + 1 => A.sub (f k) (A.mul (A.div (((k + 1 : ℕ) : ℂ) + 1) z) (f (k + 1)))

local infixl:65 " +ₐ " => A.add
local infixl:65 " -ₐ " => A.sub
local infixl:70 " *ₐ " => A.mul

/-- multishell.py:73 and 134-246 with the variable names of the code. -/
noncomputable def shellOrder (p : CoreShellIn) : CoreShellOut :=
  let mu1 : ℂ := 1
  let mu2 : ℂ := 1
  let mu : ℂ := 1
  let x0 := p.dpsi_m2y *ₐ p.psi_y
  let x1 := p.chi_m2x *ₐ p.dpsi_m1x
  let x2 := p.m2 *ₐ mu2
  let x3 := mu1 *ₐ x2
  let x4 := x1 *ₐ x3
  let x5 := p.m1 *ₐ (1 ^ 2 : ℂ)
  let x6 := p.dpsi_m2x *ₐ p.psi_m1x
  let x7 := p.dchi_m2y *ₐ p.psi_y
  let x8 := x6 *ₐ x7
  let x9 := p.dpsi_m1x *ₐ p.psi_m2x
  let x10 := x3 *ₐ x9
  let x11 := p.dchi_m2x *ₐ p.psi_m1x
  let x12 := p.psi_m2y *ₐ x11
  let x13 := p.m1 *ₐ x2
  let x14 := mu *ₐ x13
  let x15 := x12 *ₐ x14
  let x16 := x11 *ₐ x5
  let x17 := (p.m2 *ₐ p.m2) *ₐ mu1
  let x18 := x17 *ₐ x9
  let x19 := p.chi_m2y *ₐ p.dpsi_y
  let x20 := mu *ₐ x19
  let x21 := x13 *ₐ x6
  let x22 := p.chi_m2x *ₐ p.psi_m2y
  let x23 := mu *ₐ x17
  let x24 := p.dpsi_m1x *ₐ x22 *ₐ x23
  let x25 := p.dpsi_m2y *ₐ p.xi_y
  let x26 := p.dchi_m2y *ₐ p.xi_y
  let x27 := x26 *ₐ x6
  let x28 := p.chi_m2y *ₐ p.dxi_y
  let x29 := mu *ₐ x28
  let x30 := A.div 1 (p.dxi_y *ₐ x15 -ₐ p.dxi_y *ₐ x24 -ₐ x10 *ₐ x26 -ₐ x16 *ₐ x25 +ₐ x18 *ₐ x29 -ₐ x21 *ₐ x29
    +ₐ x25 *ₐ x4 +ₐ x27 *ₐ x5)
  let x31 := x12 *ₐ x3
  let x32 := p.dpsi_m1x *ₐ x5
  let x33 := p.psi_m2x *ₐ x32
  let x34 := x3 *ₐ x6
  let x35 := x1 *ₐ x14
  let x36 := x22 *ₐ x32
  let x37 := x14 *ₐ x9
  let x38 := x11 *ₐ x23
  let x39 := A.div 1 (p.dxi_y *ₐ x31 -ₐ p.dxi_y *ₐ x36 +ₐ x23 *ₐ x27 +ₐ x25 *ₐ x35 -ₐ x25 *ₐ x38 -ₐ x26 *ₐ x37
    +ₐ x28 *ₐ x33 -ₐ x28 *ₐ x34)
  let an := x30 *ₐ (p.dpsi_y *ₐ x15 -ₐ p.dpsi_y *ₐ x24 -ₐ x0 *ₐ x16 +ₐ x0 *ₐ x4 -ₐ x10 *ₐ x7 +ₐ x18 *ₐ x20
    -ₐ x20 *ₐ x21 +ₐ x5 *ₐ x8)
  let bn := x39 *ₐ (p.dpsi_y *ₐ x31 -ₐ p.dpsi_y *ₐ x36 +ₐ x0 *ₐ x35 -ₐ x0 *ₐ x38 +ₐ x19 *ₐ x33 -ₐ x19 *ₐ x34
    +ₐ x23 *ₐ x8 -ₐ x37 *ₐ x7)
  let x40 := x2 *ₐ x39
  let x41 := p.chi_m2x *ₐ p.dpsi_m2x
  let x42 := p.dpsi_y *ₐ p.xi_y
  let x43 := p.dxi_y *ₐ p.psi_y
  let x44 := p.dchi_m2x *ₐ p.psi_m2x
  let x45 := p.m1 *ₐ mu1 *ₐ (x41 *ₐ x42 -ₐ x41 *ₐ x43 -ₐ x42 *ₐ x44 +ₐ x43 *ₐ x44)
  let x46 := x2 *ₐ x30
  let x47 := p.m1 *ₐ mu2
  let x48 := x1 *ₐ x42
  let x49 := p.m2 *ₐ mu1
  let x50 := x11 *ₐ x43
  let x51 := x1 *ₐ x43
  let x52 := x11 *ₐ x42
  let x53 := x42 *ₐ x47
  let x54 := x49 *ₐ x6
  let x55 := x43 *ₐ x47
  let x56 := x49 *ₐ x9
  { a := an
    b := bn
    c := x40 *ₐ x45
    d := x45 *ₐ x46
    f := x40 *ₐ (x47 *ₐ x48 -ₐ x47 *ₐ x51 +ₐ x49 *ₐ x50 -ₐ x49 *ₐ x52)
    g := x46 *ₐ (x47 *ₐ x50 -ₐ x47 *ₐ x52 +ₐ x48 *ₐ x49 -ₐ x49 *ₐ x51)
    v := x40 *ₐ ((-x42) *ₐ x54 +ₐ x43 *ₐ x54 +ₐ x53 *ₐ x9 -ₐ x55 *ₐ x9)
    w := x46 *ₐ (x42 *ₐ x56 -ₐ x43 *ₐ x56 -ₐ x53 *ₐ x6 +ₐ x55 *ₐ x6) }

/-- multishell.py:75-128: the values entering the closed form at order `i`. -/
noncomputable def shellIn (B : Bess) (x y m1 m2 : ℂ) (i : ℕ) : CoreShellIn :=
  let m1x := m1 *ₐ x
  let m2x := m2 *ₐ x
  let m2y := m2 *ₐ y
  let j_y := B.jn y
  let y_y := B.yn y
  let j_m1x := B.jn m1x
  let j_m2x := B.jn m2x
  let j_m2y := B.jn m2y
  let y_m2x := B.yn m2x
  let y_m2y := B.yn m2y
  let h1_y := j_y i +ₐ I *ₐ y_y i
  let dh1_y := A.fDer y j_y i +ₐ I *ₐ A.fDer y y_y i
  { m1 := m1
    m2 := m2
    psi_y := y *ₐ j_y i
    psi_m1x := m1x *ₐ j_m1x i
    psi_m2x := m2x *ₐ j_m2x i
    psi_m2y := m2y *ₐ j_m2y i
    chi_m2x := (-m2x) *ₐ y_m2x i
    chi_m2y := (-m2y) *ₐ y_m2y i
    xi_y := y *ₐ h1_y
    dpsi_y := j_y i +ₐ y *ₐ A.fDer y j_y i
    dpsi_m1x := j_m1x i +ₐ m1x *ₐ A.fDer m1x j_m1x i
    dpsi_m2x := j_m2x i +ₐ m2x *ₐ A.fDer m2x j_m2x i
    dpsi_m2y := j_m2y i +ₐ m2y *ₐ A.fDer m2y j_m2y i
    dchi_m2x := (-y_m2x i) -ₐ m2x *ₐ A.fDer m2x y_m2x i
    dchi_m2y := (-y_m2y i) -ₐ m2y *ₐ A.fDer m2y y_m2y i
    dxi_y := h1_y +ₐ y *ₐ dh1_y }

/-- multishell.py:706-720 and 759-762: relative indices and size parameters of core and shell. -/
noncomputable def shellArgs (p : Particle1) : (ℂ × ℂ) × (ℂ × ℂ) :=
  let lay (e : ℂ) (r : ℝ) : ℂ × ℂ := (A.div (A.sqrt e) (A.host p).1, A.mul (A.host p).2 (r : ℂ))
  (lay (p.epsLayers.headD 0) (p.rLayers.headD 0), lay (p.epsLayers.getLastD 0) (p.rLayers.getLastD 0))

/-- `mie_coefficients(backend='torch' or 'scipy')` of one particle at order `i`. Code: multishell.py:759-775 with multishell.py:24-266. -/
noncomputable def shell (B : Bess) (p : Particle1) (i : ℕ) : CoreShellOut :=
  let l := A.shellArgs p
  A.shellOrder (A.shellIn B l.1.2 l.2.2 l.1.1 l.2.1 i)

/-- `cross_sections(backend='torch' or 'scipy')`. Code: multishell.py:803-893. -/
noncomputable def shellCross (n : ℕ) (B : Bess) (p : Particle1) : Cross :=
  A.crossWith n p fun i => ((A.shell B p i).a, (A.shell B p i).b)

end Arith

end MieDiff
