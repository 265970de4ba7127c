import Verif.Model.Backward

/-!
# Reverse-mode differentiation of the core-shell solver

The recorded run of `_miecoef` (backends `torch` and `scipy`) in the vocabulary of Model/Backward: every operation of the code with the
backward formula of PyTorch, in the order of the code, and the hand-written backward passes of the scipy wrappers.  Simplifications as there.
`torch.cumprod` is a sequence of products (its backward formula is the product rule).  The recurrence depths, which the code
chooses from detached values, are those of a single argument (in an array the largest argument decides).
-/

namespace MieDiff

open Complex

namespace Node

variable {V : Type*} [AddCommGroup V]

/-- `-x`. Code: e.g. special.py:953. -/
def neg (x : Node V) : Node V := ⟨-x.val, fun g => x.back (-g), x.req, x.ok⟩

/-- The spherical Bessel functions of a backend by order. Code: multishell.py:60-70. -/
structure Bess (V : Type*) where
  jn : Node V → ℕ → Node V
  yn : Node V → ℕ → Node V

/-! ## scipy -/

/-- special.py:75-106 (`_AutoDiffJn`) and 187-218 (`_AutoDiffYn`) at one order: SciPy's `f` forward, `grad_result * df.conj()` backward. -/
noncomputable def scipyFn (f df : ℂ → ℂ) (x : Node V) : Node V :=
  ⟨f x.val, fun g => x.back (g * (starRingEnd ℂ) (df x.val)), x.req, x.ok ∧ x.val ≠ 0⟩

/-- The scipy backend; `j`, `dj`, `y`, `dy` are SciPy's functions. Code: special.py:75-296, chosen in multishell.py:66. -/
noncomputable def Bess.scipy (j dj y dy : ℕ → ℂ → ℂ) : Bess V := ⟨fun z k => scipyFn (j k) (dj k) z, fun z k => scipyFn (y k) (dy k) z⟩

/-! ## torch -/

/-- special.py:753 and 951 `torch.where(_z.abs() < eps, eps * torch.ones_like(_z), _z)`. -/
noncomputable def safe (x : Node V) : Node V :=
  { where' (‖x.val‖ < 1e-10) (const ((1e-10 : ℝ) : ℂ)) x with ok := x.ok ∧ ‖x.val‖ ≠ 1e-10 }

/-- special.py:764-773 the downward sweep of `sph_jn_torch_via_rec`, started at order `N`: the values at orders `N - j`, `N - j + 1`. -/
noncomputable def jRec (zs : Node V) (N : ℕ) : ℕ → Node V × Node V
  | 0 => (const 0, const 1e-25)
  | j + 1 => (sub (mul (rdiv (2 * ((N - j : ℕ) : ℂ) + 1) zs) (jRec zs N j).1) (jRec zs N j).2, (jRec zs N j).1)

/-- special.py:700-783 `sph_jn_torch_via_rec(n, z)` with extra depth `d` at order `k`. -/
noncomputable def viaRec (n d : ℕ) (z : Node V) (k : ℕ) : Node V :=
  let zs := safe z
  let jns (i : ℕ) : Node V := (jRec zs (n + d) (n + d - i)).1
  mul (jns k) (div (div (sin zs) zs) (jns 0))

/-- special.py:892 `torch.where(denom.abs() == 0.0, denom + eps, denom)`. -/
noncomputable def nonzero (x : Node V) : Node V :=
  { where' (‖x.val‖ = 0) (add x (const 1e-50)) x with ok := x.ok ∧ x.val ≠ 0 }

/-- special.py:888-896 the loop of `sph_jn_torch`, started at order `N`; value at order `N + 1 - j`. -/
noncomputable def ratioDown (z : Node V) (N : ℕ) : ℕ → Node V
  | 0 => const 0
  | j + 1 => rdiv 1 (nonzero (sub (rdiv (2 * ((N - j : ℕ) : ℂ) + 1) z) (ratioDown z N j)))

/-- special.py:904 `torch.cumprod(r_storage, dim=0)`. -/
noncomputable def ratioProd (z : Node V) (N : ℕ) : ℕ → Node V
  | 0 => const 1
  | k + 1 => mul (ratioProd z N k) (ratioDown z N (N + 1 - (k + 1)))

/-- special.py:862-911 `sph_jn_torch(n, z)` with extra depth `d` at order `k`, for arguments that are not small. -/
noncomputable def ratio (n d : ℕ) (z : Node V) : ℕ → Node V
  | 0 => where' (z.val = 0) (const 1) (div (sin z) z)
  | k + 1 => mul (where' (z.val = 0) (const 1) (div (sin z) z)) (ratioProd z (n + d) (k + 1))

/-- special.py:957-970 the orders of `sph_yn_torch`. -/
noncomputable def yRec (zs : Node V) : ℕ → Node V
  | 0 => mul (const (-1)) (div (cos zs) zs)
  | 1 => mul (const (-1)) (add (div (cos zs) (sq zs)) (div (sin zs) zs))
  | k + 2 => sub (mul (rdiv (2 * ((k + 2 : ℕ) : ℂ) - 1) zs) (yRec zs (k + 1))) (yRec zs k)

/-- special.py:756-759 the extra depth of `sph_jn_torch_via_rec`, from the value of the argument. -/
noncomputable def recDepth (z : ℂ) : ℕ :=
  let k := max 10 ⌊(3 / 2 : ℝ) * ‖z‖⌋
  (if k > 35 then 35 else k).toNat

/-- special.py:870-873 the extra depth of `sph_jn_torch`. -/
noncomputable def ratioDepth (z : ℂ) : ℕ := (min (max 20 (⌊‖z‖ * 2⌋ + 10)) 50).toNat

/-- `which_jn='recurrence'`. Code: multishell.py:63, special.py:700-783. -/
noncomputable def Bess.torchRec (n : ℕ) : Bess V := ⟨fun z => viaRec n (recDepth z.val) z, fun z => yRec (safe z)⟩

/-- `which_jn='ratios'`. Code: multishell.py:60, special.py:786-922. -/
noncomputable def Bess.torchRatio (n : ℕ) : Bess V := ⟨fun z => ratio n (ratioDepth z.val) z, fun z => yRec (safe z)⟩

/-! ## The closed form -/

/-- special.py:338-361 `f_der`. -/
noncomputable def fDer (z : Node V) (f : ℕ → Node V) : ℕ → Node V
  | 0 => neg (f 1)
  | k + 1 => sub (f k) (mul (div (const (((k + 1 : ℕ) : ℂ) + 1)) z) (f (k + 1)))

/-- Values entering the closed form at one order (multishell.py:98-128). -/
structure ShellIn (V : Type*) where
  m1 : Node V
  m2 : Node V
  psi_y : Node V
  psi_m1x : Node V
  psi_m2x : Node V
  psi_m2y : Node V
  chi_m2x : Node V
  chi_m2y : Node V
  xi_y : Node V
  dpsi_y : Node V
  dpsi_m1x : Node V
  dpsi_m2x : Node V
  dpsi_m2y : Node V
  dchi_m2x : Node V
  dchi_m2y : Node V
  dxi_y : Node V

/-- The eight coefficients at one order. Code: multishell.py:250-266. -/
structure ShellOut (V : Type*) where
  a : Node V
  b : Node V
  c : Node V
  d : Node V
  f : Node V
  g : Node V
  v : Node V
  w : Node V

local infixl:65 " +ₙ " => add
local infixl:65 " -ₙ " => sub
local infixl:70 " *ₙ " => mul

/-- multishell.py:73 and 134-246 with the variable names of the code. -/
noncomputable def shellOrder (p : ShellIn V) : ShellOut V :=
  let mu1 : Node V := const 1
  let mu2 : Node V := const 1
  let mu : Node V := const 1
  let x0 := p.dpsi_m2y *ₙ p.psi_y
  let x1 := p.chi_m2x *ₙ p.dpsi_m1x
  let x2 := p.m2 *ₙ mu2
  let x3 := mu1 *ₙ x2
  let x4 := x1 *ₙ x3
  let x5 := p.m1 *ₙ const (1 ^ 2)
  let x6 := p.dpsi_m2x *ₙ p.psi_m1x
  let x7 := p.dchi_m2y *ₙ p.psi_y
  let x8 := x6 *ₙ x7
  let x9 := p.dpsi_m1x *ₙ p.psi_m2x
  let x10 := x3 *ₙ x9
  let x11 := p.dchi_m2x *ₙ p.psi_m1x
  let x12 := p.psi_m2y *ₙ x11
  let x13 := p.m1 *ₙ x2
  let x14 := mu *ₙ x13
  let x15 := x12 *ₙ x14
  let x16 := x11 *ₙ x5
  let x17 := sq p.m2 *ₙ mu1
  let x18 := x17 *ₙ x9
  let x19 := p.chi_m2y *ₙ p.dpsi_y
  let x20 := mu *ₙ x19
  let x21 := x13 *ₙ x6
  let x22 := p.chi_m2x *ₙ p.psi_m2y
  let x23 := mu *ₙ x17
  let x24 := p.dpsi_m1x *ₙ x22 *ₙ x23
  let x25 := p.dpsi_m2y *ₙ p.xi_y
  let x26 := p.dchi_m2y *ₙ p.xi_y
  let x27 := x26 *ₙ x6
  let x28 := p.chi_m2y *ₙ p.dxi_y
  let x29 := mu *ₙ x28
  let x30 := rdiv 1 (p.dxi_y *ₙ x15 -ₙ p.dxi_y *ₙ x24 -ₙ x10 *ₙ x26 -ₙ x16 *ₙ x25 +ₙ x18 *ₙ x29 -ₙ x21 *ₙ x29
    +ₙ x25 *ₙ x4 +ₙ x27 *ₙ x5)
  let x31 := x12 *ₙ x3
  let x32 := p.dpsi_m1x *ₙ x5
  let x33 := p.psi_m2x *ₙ x32
  let x34 := x3 *ₙ x6
  let x35 := x1 *ₙ x14
  let x36 := x22 *ₙ x32
  let x37 := x14 *ₙ x9
  let x38 := x11 *ₙ x23
  let x39 := rdiv 1 (p.dxi_y *ₙ x31 -ₙ p.dxi_y *ₙ x36 +ₙ x23 *ₙ x27 +ₙ x25 *ₙ x35 -ₙ x25 *ₙ x38 -ₙ x26 *ₙ x37
    +ₙ x28 *ₙ x33 -ₙ x28 *ₙ x34)
  let an := x30 *ₙ (p.dpsi_y *ₙ x15 -ₙ p.dpsi_y *ₙ x24 -ₙ x0 *ₙ x16 +ₙ x0 *ₙ x4 -ₙ x10 *ₙ x7 +ₙ x18 *ₙ x20
    -ₙ x20 *ₙ x21 +ₙ x5 *ₙ x8)
  let bn := x39 *ₙ (p.dpsi_y *ₙ x31 -ₙ p.dpsi_y *ₙ x36 +ₙ x0 *ₙ x35 -ₙ x0 *ₙ x38 +ₙ x19 *ₙ x33 -ₙ x19 *ₙ x34
    +ₙ x23 *ₙ x8 -ₙ x37 *ₙ x7)
  let x40 := x2 *ₙ x39
  let x41 := p.chi_m2x *ₙ p.dpsi_m2x
  let x42 := p.dpsi_y *ₙ p.xi_y
  let x43 := p.dxi_y *ₙ p.psi_y
  let x44 := p.dchi_m2x *ₙ p.psi_m2x
  let x45 := p.m1 *ₙ mu1 *ₙ (x41 *ₙ x42 -ₙ x41 *ₙ x43 -ₙ x42 *ₙ x44 +ₙ x43 *ₙ x44)
  let x46 := x2 *ₙ x30
  let x47 := p.m1 *ₙ mu2
  let x48 := x1 *ₙ x42
  let x49 := p.m2 *ₙ mu1
  let x50 := x11 *ₙ x43
  let x51 := x1 *ₙ x43
  let x52 := x11 *ₙ x42
  let x53 := x42 *ₙ x47
  let x54 := x49 *ₙ x6
  let x55 := x43 *ₙ x47
  let x56 := x49 *ₙ x9
  { a := an
    b := bn
    c := x40 *ₙ x45
    d := x45 *ₙ x46
    f := x40 *ₙ (x47 *ₙ x48 -ₙ x47 *ₙ x51 +ₙ x49 *ₙ x50 -ₙ x49 *ₙ x52)
    g := x46 *ₙ (x47 *ₙ x50 -ₙ x47 *ₙ x52 +ₙ x48 *ₙ x49 -ₙ x49 *ₙ x51)
    v := x40 *ₙ (neg x42 *ₙ x54 +ₙ x43 *ₙ x54 +ₙ x53 *ₙ x9 -ₙ x55 *ₙ x9)
    w := x46 *ₙ (x42 *ₙ x56 -ₙ x43 *ₙ x56 -ₙ x53 *ₙ x6 +ₙ x55 *ₙ x6) }

/-- multishell.py:75-128: the values entering the closed form at order `i`. -/
noncomputable def shellIn (B : Bess V) (x y m1 m2 : Node V) (i : ℕ) : ShellIn V :=
  let m1x := m1 *ₙ x
  let m2x := m2 *ₙ x
  let m2y := m2 *ₙ y
  let j_y := B.jn y
  let y_y := B.yn y
  let j_m1x := B.jn m1x
  let j_m2x := B.jn m2x
  let j_m2y := B.jn m2y
  let y_m2x := B.yn m2x
  let y_m2y := B.yn m2y
  let h1_y := j_y i +ₙ const I *ₙ y_y i
  let dh1_y := fDer y j_y i +ₙ const I *ₙ fDer y y_y i
  { m1 := m1
    m2 := m2
    psi_y := y *ₙ j_y i
    psi_m1x := m1x *ₙ j_m1x i
    psi_m2x := m2x *ₙ j_m2x i
    psi_m2y := m2y *ₙ j_m2y i
    chi_m2x := neg m2x *ₙ y_m2x i
    chi_m2y := neg m2y *ₙ y_m2y i
    xi_y := y *ₙ h1_y
    dpsi_y := j_y i +ₙ y *ₙ fDer y j_y i
    dpsi_m1x := j_m1x i +ₙ m1x *ₙ fDer m1x j_m1x i
    dpsi_m2x := j_m2x i +ₙ m2x *ₙ fDer m2x j_m2x i
    dpsi_m2y := j_m2y i +ₙ m2y *ₙ fDer m2y j_m2y i
    dchi_m2x := neg (y_m2x i) -ₙ m2x *ₙ fDer m2x y_m2x i
    dchi_m2y := neg (y_m2y i) -ₙ m2y *ₙ fDer m2y y_m2y i
    dxi_y := h1_y +ₙ y *ₙ dh1_y }

/-- multishell.py:706-720 and 759-762: relative indices and size parameters of core and shell. -/
noncomputable def shellArgs (p : Inputs V) : (Node V × Node V) × (Node V × Node V) :=
  let lay (e r : Node V) : Node V × Node V := (div (powHalf e) (host p).1, mul (host p).2 r)
  let c := lay (p.eps.headD (const 0)) (p.r.headD (const 0))
  let s := lay (p.eps.getLastD (const 0)) (p.r.getLastD (const 0))
  (c, s)

/-- `mie_coefficients(backend='torch' or 'scipy')` of one particle at order `i`. Code: multishell.py:759-775 with multishell.py:24-266. -/
noncomputable def shell (B : Bess V) (p : Inputs V) (i : ℕ) : ShellOut V :=
  let l := shellArgs p
  shellOrder (shellIn B l.1.2 l.2.2 l.1.1 l.2.1 i)

/-- `cross_sections(backend='torch' or 'scipy')`. Code: multishell.py:803-893. -/
noncomputable def shellCross (n : ℕ) (B : Bess V) (p : Inputs V) : Cross V :=
  crossOf n p fun i => ((shell B p i).a, (shell B p i).b)

end Node

end MieDiff
