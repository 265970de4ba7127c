import Verif.Model.Special
import Verif.Model.Helper

/-!
# Model of `src/pymiediff/multishell.py`: solvers and observables for one particle at one wavenumber

The Python code is vectorised over particles and wavenumbers; the batched version with explicit shapes is
`Verif/Model/Batch.lean`.
-/

namespace MieDiff

open Complex

/-! ## Core-shell closed form -/

/-- Values entering `_miecoef` at one order: Riccati-Bessel functions and derivatives
(multishell.py:98-117). -/
structure CoreShellIn where
  m1 : ℂ
  m2 : ℂ
  psi_y : ℂ
  psi_m1x : ℂ
  psi_m2x : ℂ
  psi_m2y : ℂ
  chi_m2x : ℂ
  chi_m2y : ℂ
  xi_y : ℂ
  dpsi_y : ℂ
  dpsi_m1x : ℂ
  dpsi_m2x : ℂ
  dpsi_m2y : ℂ
  dchi_m2x : ℂ
  dchi_m2y : ℂ
  dxi_y : ℂ

/-- The eight coefficients at one order. Code: multishell.py:250-266. -/
structure CoreShellOut where
  a : ℂ
  b : ℂ
  c : ℂ
  d : ℂ
  f : ℂ
  g : ℂ
  v : ℂ
  w : ℂ

/-- multishell.py:73 `mu1 = mu2 = mu = 1.0` and 134-246: common subexpressions `x0 .. x56` and the
coefficients, with the variable names of the code. -/
noncomputable def miecoefOrder (p : CoreShellIn) : CoreShellOut :=
  let mu1 : ℂ := 1
  let mu2 : ℂ := 1
  let mu : ℂ := 1
  let x0 := p.dpsi_m2y * p.psi_y
  let x1 := p.chi_m2x * p.dpsi_m1x
  let x2 := p.m2 * mu2
  let x3 := mu1 * x2
  let x4 := x1 * x3
  let x5 := p.m1 * mu2 ^ 2
  let x6 := p.dpsi_m2x * p.psi_m1x
  let x7 := p.dchi_m2y * p.psi_y
  let x8 := x6 * x7
  let x9 := p.dpsi_m1x * p.psi_m2x
  let x10 := x3 * x9
  let x11 := p.dchi_m2x * p.psi_m1x
  let x12 := p.psi_m2y * x11
  let x13 := p.m1 * x2
  let x14 := mu * x13
  let x15 := x12 * x14
  let x16 := x11 * x5
  let x17 := p.m2 ^ 2 * mu1
  let x18 := x17 * x9
  let x19 := p.chi_m2y * p.dpsi_y
  let x20 := mu * x19
  let x21 := x13 * x6
  let x22 := p.chi_m2x * p.psi_m2y
  let x23 := mu * x17
  let x24 := p.dpsi_m1x * x22 * x23
  let x25 := p.dpsi_m2y * p.xi_y
  let x26 := p.dchi_m2y * p.xi_y
  let x27 := x26 * x6
  let x28 := p.chi_m2y * p.dxi_y
  let x29 := mu * x28
  let x30 := 1 / (p.dxi_y * x15 - p.dxi_y * x24 - x10 * x26 - x16 * x25 + x18 * x29 - x21 * x29
    + x25 * x4 + x27 * x5)
  let x31 := x12 * x3
  let x32 := p.dpsi_m1x * x5
  let x33 := p.psi_m2x * x32
  let x34 := x3 * x6
  let x35 := x1 * x14
  let x36 := x22 * x32
  let x37 := x14 * x9
  let x38 := x11 * x23
  let x39 := 1 / (p.dxi_y * x31 - p.dxi_y * x36 + x23 * x27 + x25 * x35 - x25 * x38 - x26 * x37
    + x28 * x33 - x28 * x34)
  let an := x30 * (p.dpsi_y * x15 - p.dpsi_y * x24 - x0 * x16 + x0 * x4 - x10 * x7 + x18 * x20
    - x20 * x21 + x5 * x8)
  let bn := x39 * (p.dpsi_y * x31 - p.dpsi_y * x36 + x0 * x35 - x0 * x38 + x19 * x33 - x19 * x34
    + x23 * x8 - x37 * x7)
  let x40 := x2 * x39
  let x41 := p.chi_m2x * p.dpsi_m2x
  let x42 := p.dpsi_y * p.xi_y
  let x43 := p.dxi_y * p.psi_y
  let x44 := p.dchi_m2x * p.psi_m2x
  let x45 := p.m1 * mu1 * (x41 * x42 - x41 * x43 - x42 * x44 + x43 * x44)
  let x46 := x2 * x30
  let x47 := p.m1 * mu2
  let x48 := x1 * x42
  let x49 := p.m2 * mu1
  let x50 := x11 * x43
  let x51 := x1 * x43
  let x52 := x11 * x42
  let x53 := x42 * x47
  let x54 := x49 * x6
  let x55 := x43 * x47
  let x56 := x49 * x9
  { a := an
    b := bn
    c := x40 * x45
    d := x45 * x46
    f := x40 * (x47 * x48 - x47 * x51 + x49 * x50 - x49 * x52)
    g := x46 * (x47 * x50 - x47 * x52 + x48 * x49 - x49 * x51)
    v := x40 * (-x42 * x54 + x43 * x54 + x53 * x9 - x55 * x9)
    w := x46 * (x42 * x56 - x43 * x56 - x53 * x6 + x55 * x6) }

/-- The special functions a backend uses: `j_n` and `y_n` for orders `0..n` (multishell.py:59-70). -/
structure BesselBackend where
  jn : ℤ → ℂ → Py (List ℂ)
  yn : ℤ → ℂ → Py (List ℂ)

/-- multishell.py:24-266 `_miecoef` for one element: Bessel values (lines 75-96), derivatives via
`f_der`, Riccati-Bessel forms (106-128), the closed form, and dropping order 0 (241-258).  The special functions of the four
arguments `y`, `m1 x`, `m2 x`, `m2 y` may differ, because the torch versions choose their depth from the whole argument array. -/
noncomputable def miecoef4 (By B1x B2x B2y : BesselBackend) (x y : ℂ) (n : ℤ) (m1 m2 : ℂ) :
    Py (List CoreShellOut) := do
  let j_y ← By.jn n y
  let y_y ← By.yn n y
  let j_m1x ← B1x.jn n (m1 * x)
  let j_m2x ← B2x.jn n (m2 * x)
  let j_m2y ← B2y.jn n (m2 * y)
  let y_m2x ← B2x.yn n (m2 * x)
  let y_m2y ← B2y.yn n (m2 * y)
  let h1_y := h1Of j_y y_y
  let dj_y ← fDer y j_y
  let dj_m1x ← fDer (m1 * x) j_m1x
  let dj_m2x ← fDer (m2 * x) j_m2x
  let dj_m2y ← fDer (m2 * y) j_m2y
  let dy_y ← fDer y y_y
  let dy_m2x ← fDer (m2 * x) y_m2x
  let dy_m2y ← fDer (m2 * y) y_m2y
  let dh1_y := h1Of dj_y dy_y
  let out := (List.range j_y.length).map fun i =>
    miecoefOrder
      { m1 := m1
        m2 := m2
        psi_y := y * j_y.getD i 0
        psi_m1x := (m1 * x) * j_m1x.getD i 0
        psi_m2x := (m2 * x) * j_m2x.getD i 0
        psi_m2y := (m2 * y) * j_m2y.getD i 0
        chi_m2x := -(m2 * x) * y_m2x.getD i 0
        chi_m2y := -(m2 * y) * y_m2y.getD i 0
        xi_y := y * h1_y.getD i 0
        dpsi_y := j_y.getD i 0 + y * dj_y.getD i 0
        dpsi_m1x := j_m1x.getD i 0 + (m1 * x) * dj_m1x.getD i 0
        dpsi_m2x := j_m2x.getD i 0 + (m2 * x) * dj_m2x.getD i 0
        dpsi_m2y := j_m2y.getD i 0 + (m2 * y) * dj_m2y.getD i 0
        dchi_m2x := -y_m2x.getD i 0 - (m2 * x) * dy_m2x.getD i 0
        dchi_m2y := -y_m2y.getD i 0 - (m2 * y) * dy_m2y.getD i 0
        dxi_y := h1_y.getD i 0 + y * dh1_y.getD i 0 }
  .ok out.tail

/-- multishell.py:24-266 `_miecoef` for one element with the same special functions everywhere. -/
noncomputable def miecoef (B : BesselBackend) (x y : ℂ) (n : ℤ) (m1 m2 : ℂ) : Py (List CoreShellOut) :=
  miecoef4 B B B B x y n m1 m2

/-! ## Multilayer solver -/

/-- The logarithmic derivative kernel used by the solver, for one argument: orders `0..n`. The code uses
`pena_D1_n` with its default depth; theorems also consider other depths and the exact kernel.
Code: multishell.py:337, special.py:451-505. -/
abbrev D1Kernel := ℤ → ℂ → Py (List ℂ)

/-- The kernel of the code: `special.pena_D1_n(n, z)` with defaults `n_add=15, eps=1e-30`. Code: multishell.py:337, special.py:451-458. -/
noncomputable def codeD1 : D1Kernel := fun n z => penaD1 n z

/-- The guard constant `eps = 1e-30` of multishell.py:316 and of the special functions. -/
noncomputable def solverEps : ℝ := 1e-30

/-- State of the layer recursion: relative index and size parameter of the previous layer and `H_a`,
`H_b` (order lists). Code: multishell.py:328-376. -/
structure LayerState where
  m : ℂ
  x : ℂ
  Ha : List ℂ
  Hb : List ℂ

/-- `G1, G2` combination and division of multishell.py:366-376 at one order:
`H = (G2*D1 - Q*G1*D3) / guard(G2 - Q*G1)` with `G1 = p*H - q*D1_prev`, `G2 = p*H - q*D3_prev`. -/
noncomputable def hUpdate (p q H d1Prev d3Prev d1 d3 Q : ℂ) : ℂ :=
  let G1 := p * H - q * d1Prev
  let G2 := p * H - q * d3Prev
  let den := guardAdd solverEps (G2 - Q * G1)
  (G2 * d1 - Q * G1 * d3) / den

/-- One pass of the layer loop multishell.py:332-376. -/
noncomputable def layerStep (K : D1Kernel) (n : ℤ) (st : Option LayerState) (layer : ℂ × ℂ) :
    Py (Option LayerState) := do
  let ml := layer.1
  let xl := layer.2
  let zCurr := ml * xl
  let D1c ← K n zCurr
  let D3c ← penaD3 n zCurr D1c
  match st with
  | none => .ok (some ⟨ml, xl, D1c, D1c⟩)
  | some prev =>
    let zPrev := ml * prev.x
    let D1p ← K n zPrev
    let D3p ← penaD3 n zPrev D1p
    let Q ← penaQ n.toNat zPrev zCurr prev.x xl D1p D1c D3p D3c
    let upd (p q : ℂ) (H : List ℂ) : List ℂ :=
      (List.range H.length).map fun i =>
        hUpdate p q (H.getD i 0) (D1p.getD i 0) (D3p.getD i 0) (D1c.getD i 0) (D3c.getD i 0)
          (Q.getD i 0)
    .ok (some ⟨ml, xl, upd ml prev.m prev.Ha, upd prev.m ml prev.Hb⟩)

/-- `(term*psi_n - psi_{n-1}) / guard(term*zeta_n - zeta_{n-1})` (multishell.py:392-403). -/
noncomputable def finalCoef (term psi psiPrev zeta zetaPrev : ℂ) : ℂ :=
  (term * psi - psiPrev) / guardAdd solverEps (term * zeta - zetaPrev)

/-- multishell.py:269-408 `_miecoef_pena` for one element, with a given log-derivative kernel: orders
`1..n` of `(a_n, b_n)`. -/
noncomputable def miecoefPenaK (K : D1Kernel) (k : ℂ) (rLayers : List ℝ) (epsLayers : List ℂ)
    (nEnv : ℂ) (n : ℤ) (returnInternal : Bool := false) : Py (List ℂ × List ℂ) :=
  if returnInternal then .error .notImplementedError
  else if n < 1 then .error .valueError
  else do
    let xs := rLayers.map fun (r : ℝ) => k * (r : ℂ)
    let ms := epsLayers.map fun e => csqrt e / nEnv
    let st ← (ms.zip xs).foldlM (layerStep K n) none
    match st with
    | none => .error .indexError
    | some last =>
      let xL := last.x
      let mL := last.m
      let D1L ← K n xL
      let D3L ← penaD3 n xL D1L
      let (psi, zeta) ← penaPsiZeta n.toNat xL D1L D3L
      let xSafe := guardAdd solverEps xL
      let coef (term : ℕ → ℂ) : List ℂ := (List.range n.toNat).map fun i =>
        finalCoef (term (i + 1)) (psi.getD (i + 1) 0) (psi.getD i 0) (zeta.getD (i + 1) 0)
          (zeta.getD i 0)
      .ok (coef (fun i => last.Ha.getD i 0 / mL + (i : ℂ) / xSafe),
           coef (fun i => mL * last.Hb.getD i 0 + (i : ℂ) / xSafe))

/-- multishell.py:269-408 `_miecoef_pena` as shipped. -/
noncomputable def miecoefPena (k : ℂ) (rLayers : List ℝ) (epsLayers : List ℂ) (nEnv : ℂ) (n : ℤ)
    (returnInternal : Bool := false) : Py (List ℂ × List ℂ) :=
  miecoefPenaK codeD1 k rLayers epsLayers nEnv n returnInternal

/-! ## Cross sections -/

/-- Output of `cross_sections` (multishell.py:873-893) for one element; multipole lists are
`(electric, magnetic)` and start at order 1. -/
structure CrossSections where
  csGeo : ℝ
  qExt : ℝ
  qSca : ℝ
  qAbs : ℝ
  csExt : ℝ
  csSca : ℝ
  csAbs : ℝ
  qExtMp : List ℝ × List ℝ
  qScaMp : List ℝ × List ℝ
  qAbsMp : List ℝ × List ℝ
  csExtMp : List ℝ × List ℝ
  csScaMp : List ℝ × List ℝ
  csAbsMp : List ℝ × List ℝ

/-- `prefactor * (2n+1) * v_n` along the order list (multishell.py:860-864). -/
noncomputable def mpTerms (k : ℂ) (v : List ℂ) : List ℂ :=
  let prefactor := 2 * (Real.pi : ℂ) / k ^ 2
  v.mapIdx fun i vi => prefactor * (2 * ((i : ℂ) + 1) + 1) * vi

/-- multishell.py:848-893, the observables computed from the coefficients. -/
noncomputable def crossSections (k : ℂ) (rS : ℝ) (a b : List ℂ) : CrossSections :=
  let csGeo := Real.pi * rS ^ 2
  let extMp : List ℂ × List ℂ :=
    (mpTerms k (a.map fun z => (z.re : ℂ)), mpTerms k (b.map fun z => (z.re : ℂ)))
  let scaMp : List ℂ × List ℂ :=
    (mpTerms k (a.map fun z => ((‖z‖ ^ 2 : ℝ) : ℂ)), mpTerms k (b.map fun z => ((‖z‖ ^ 2 : ℝ) : ℂ)))
  let absMp : List ℂ × List ℂ :=
    (List.zipWith (· - ·) extMp.1 scaMp.1, List.zipWith (· - ·) extMp.2 scaMp.2)
  let total (mp : List ℂ × List ℂ) : ℝ := (mp.1.sum + mp.2.sum).re
  let re (mp : List ℂ × List ℂ) : List ℝ × List ℝ := (mp.1.map Complex.re, mp.2.map Complex.re)
  let eff (mp : List ℂ × List ℂ) : List ℝ × List ℝ :=
    (mp.1.map fun z => z.re / csGeo, mp.2.map fun z => z.re / csGeo)
  { csGeo := csGeo
    qExt := total extMp / csGeo
    qSca := total scaMp / csGeo
    qAbs := total absMp / csGeo
    csExt := total extMp
    csSca := total scaMp
    csAbs := total absMp
    qExtMp := eff extMp
    qScaMp := eff scaMp
    qAbsMp := eff absMp
    csExtMp := re extMp
    csScaMp := re scaMp
    csAbsMp := re absMp }

/-! ## Angular scattering -/

/-- Output of `angular_scattering` (multishell.py:979-990) for one element and angle. -/
structure Angular where
  S1 : ℂ
  S2 : ℂ
  iPer : ℝ
  iPar : ℝ
  iUnpol : ℝ
  polDegree : ℝ

/-- multishell.py:970-971: `sum_n (2n+1)/(n(n+1)) * (u_n * p_n + v_n * q_n)`. -/
noncomputable def ampSum (u v : List ℂ) (p q : List ℝ) : ℂ :=
  ((List.range u.length).map fun (i : ℕ) =>
    let n : ℂ := (i : ℂ) + 1
    (2 * n + 1) / (n * (n + 1)) *
      (u.getD i 0 * (p.getD i 0 : ℝ) + v.getD i 0 * (q.getD i 0 : ℝ))).sum

/-- multishell.py:944-990, the observables computed from the coefficients (`n_max = len a_n`). -/
noncomputable def angularScattering (theta : ℝ) (a b : List ℂ) : Py Angular := do
  let (pis, taus) ← piTau a.length (Real.cos theta)
  let p := pis.tail
  let t := taus.tail
  let s1 := ampSum a b p t
  let s2 := ampSum a b t p
  let iPer := ‖s1‖ ^ 2
  let iPar := ‖s2‖ ^ 2
  .ok { S1 := s1
        S2 := s2
        iPer := iPer
        iPar := iPar
        iUnpol := (iPar + iPer) / 2
        polDegree := (iPer - iPar) / (iPer + iPar) }

/-! ## Near fields -/

/-- Expansion coefficients in one region, orders `0..n`. Code: multishell.py:1094-1101. -/
structure RegionCoefs where
  a : List ℂ
  b : List ℂ
  c : List ℂ
  d : List ℂ

/-- multishell.py:1128-1144 at one order: `(a_l, b_l, c_l, d_l)` from the next region. -/
noncomputable def nfOrder (ml mlp1 a b c d psiN zetaN d1N d3N psi zeta d1 d3 : ℂ) :
    ℂ × ℂ × ℂ × ℂ :=
  let T1 := a * zetaN - d * psiN
  let T2 := b * zetaN - c * psiN
  let T3 := d * d1N * psiN - a * d3N * zetaN
  let T4 := c * d1N * psiN - b * d3N * zetaN
  let U := d1 - d3
  let denA := guardAdd solverEps (zeta * U)
  let denC := guardAdd solverEps (psi * U)
  let mRatio := ml / mlp1
  ((d1 * T1 + T3 * mRatio) / denA, (d1 * T2 * mRatio + T4) / denA,
   (d3 * T2 * mRatio + T4) / denC, (d3 * T1 + T3 * mRatio) / denC)

/-- Kernel values of both kinds at one argument: `D1, D3, psi, zeta` (multishell.py:1111-1121). -/
noncomputable def kernels (K : D1Kernel) (n : ℤ) (z : ℂ) :
    Py (List ℂ × List ℂ × List ℂ × List ℂ) := do
  let D1 ← K n z
  let D3 ← penaD3 n z D1
  let (psi, zeta) ← penaPsiZeta n.toNat z D1 D3
  .ok (D1, D3, psi, zeta)

/-- One pass of the interface loop multishell.py:1103-1154 going from region `li+1` to `li`. -/
noncomputable def nfStep (K : D1Kernel) (n : ℤ) (ml mlp1 xl : ℂ) (isCore : Bool) (nxt : RegionCoefs) :
    Py RegionCoefs := do
  let (D1, D3, psi, zeta) ← kernels K n (ml * xl)
  let (D1N, D3N, psiN, zetaN) ← kernels K n (mlp1 * xl)
  let out := (List.range nxt.a.length).map fun i =>
    nfOrder ml mlp1 (nxt.a.getD i 0) (nxt.b.getD i 0) (nxt.c.getD i 0) (nxt.d.getD i 0)
      (psiN.getD i 0) (zetaN.getD i 0) (D1N.getD i 0) (D3N.getD i 0)
      (psi.getD i 0) (zeta.getD i 0) (D1.getD i 0) (D3.getD i 0)
  .ok { a := if isCore then out.map (fun _ => 0) else out.map (·.1)
        b := if isCore then out.map (fun _ => 0) else out.map (·.2.1)
        c := out.map (·.2.2.1)
        d := out.map (·.2.2.2) }

/-- Relative index of the medium outside a layer, given the layers further out (multishell.py:1104-1105). -/
def nextIndex : List (ℂ × ℂ) → ℂ
  | [] => 1
  | l :: _ => l.1

/-- multishell.py:1072-1154: coefficients of all regions, innermost first, the host last. `layers`
lists `(m_l, x_l)` from the core outwards. -/
noncomputable def nfRegions (K : D1Kernel) (n : ℤ) (ext : RegionCoefs) :
    Bool → List (ℂ × ℂ) → Py (List RegionCoefs)
  | _, [] => .ok [ext]
  | isCore, (ml, xl) :: rest => do
    let outer ← nfRegions K n ext false rest
    match outer with
    | [] => .error .indexError
    | nxt :: _ =>
      let cur ← nfStep K n ml (nextIndex rest) xl isCore nxt
      .ok (cur :: outer)

/-- multishell.py:1076-1080: external coefficients with a zero slot for order 0, `c = d = 1`. -/
noncomputable def extCoefs (a b : List ℂ) : RegionCoefs :=
  { a := 0 :: a
    b := 0 :: b
    c := (0 :: a).map fun _ => 1
    d := (0 :: a).map fun _ => 1 }

/-- The four vector spherical harmonics at one order, in components `(r, theta, phi)`. Code: special.py:1205. -/
structure VSH where
  Mo : V3 ℂ
  Me : V3 ℂ
  No : V3 ℂ
  Ne : V3 ℂ

/-- special.py:1191-1203 and 1526-1538: the angular part of both `vsh` functions at order `n`. `zn`
is `rho_zn / rho`, `dz` is `rho_zn_der_over_rho`. -/
noncomputable def vshOrder (n : ℕ) (theta phi : ℝ) (rho pi tau zn dz : ℂ) : VSH :=
  let cp : ℂ := (Real.cos phi : ℝ)
  let sp : ℂ := (Real.sin phi : ℝ)
  let st : ℂ := (Real.sin theta : ℝ)
  let nn : ℂ := (n : ℂ)
  { Mo := ⟨0, cp * pi * zn, -(sp * tau * zn)⟩
    Me := ⟨0, -sp * pi * zn, -(cp * tau * zn)⟩
    No := ⟨sp * nn * (nn + 1) * st * pi * (zn / rho), sp * tau * dz, cp * pi * dz⟩
    Ne := ⟨cp * nn * (nn + 1) * st * pi * (zn / rho), cp * tau * dz, -(sp * pi * dz)⟩ }

/-- special.py:1123-1205 `vsh`, orders `1..n`.  `ric` gives `(rho*z_n, (rho*z_n)')` for the kind. -/
noncomputable def vshWith (nMax : ℕ) (k0 nMed : ℂ) (r theta phi : ℝ)
    (ric : ℂ → Py (List ℂ × List ℂ)) (epsilon : ℝ := 1e-8) : Py (List VSH) := do
  let rho := k0 * nMed * (r : ℂ) + (epsilon : ℂ)
  let (pis, taus) ← piTau nMax (Real.cos theta)
  let (rz, drz) ← ric rho
  .ok ((List.range nMax).map fun i =>
    vshOrder (i + 1) theta phi rho (pis.getD (i + 1) 0 : ℝ) (taus.getD (i + 1) 0 : ℝ)
      (rz.getD (i + 1) 0 / rho) (drz.getD (i + 1) 0 / rho))

/-- special.py:1123-1205 `vsh`: selection of the radial function by `kind`. -/
noncomputable def vsh (B : BesselBackend) (nMax : ℕ) (k0 nMed : ℂ) (r theta phi : ℝ) (kind : ℤ)
    (epsilon : ℝ := 1e-8) : Py (List VSH) :=
  vshWith nMax k0 nMed r theta phi
    (fun rho =>
      if kind = 1 then do
        let j ← B.jn nMax rho
        ricPlus rho j
      else if kind = 2 then do
        let y ← B.yn nMax rho
        ricMinus rho y
      else if kind = 3 then do
        let j ← B.jn nMax rho
        let y ← B.yn nMax rho
        ricPlus rho (h1Of j y)
      else .error .valueError) epsilon

/-- special.py:1451-1540 `vsh_pena`: `rho_zn` is `psi` or `zeta`, the derivative is `D * z_n`
(lines 1502-1512). -/
noncomputable def vshPena (K : D1Kernel) (nMax : ℕ) (k0 nMed : ℂ) (r theta phi : ℝ) (kind : ℤ)
    (epsilon : ℝ := 1e-8) : Py (List VSH) := do
  let rho := k0 * nMed * (r : ℂ) + (epsilon : ℂ)
  let (pis, taus) ← piTau nMax (Real.cos theta)
  let (D1, D3, psi, zeta) ← kernels K nMax rho
  let (rz, D) ← (if kind = 1 then .ok (psi, D1)
    else if kind = 3 then .ok (zeta, D3)
    else .error .valueError : Py (List ℂ × List ℂ))
  .ok ((List.range nMax).map fun i =>
    let zn := rz.getD (i + 1) 0 / rho
    vshOrder (i + 1) theta phi rho (pis.getD (i + 1) 0 : ℝ) (taus.getD (i + 1) 0 : ℝ)
      zn (D.getD (i + 1) 0 * zn))

/-- Component-wise operations on field vectors. Code: multishell.py:1419-1441. -/
noncomputable def V3.add (u v : V3 ℂ) : V3 ℂ := ⟨u.c0 + v.c0, u.c1 + v.c1, u.c2 + v.c2⟩
/-- Coefficient times vector, multishell.py:1419-1441. -/
noncomputable def V3.smul (s : ℂ) (v : V3 ℂ) : V3 ℂ := ⟨s * v.c0, s * v.c1, s * v.c2⟩
/-- `torch.zeros`, multishell.py:1425. -/
noncomputable def V3.zero : V3 ℂ := ⟨0, 0, 0⟩

/-- multishell.py:1185: `En = 1j**n * E_0 * (2n+1) / (n(n+1))`. -/
noncomputable def EnCoef (E0 : ℂ) (n : ℕ) : ℂ :=
  I ^ n * E0 * (2 * (n : ℂ) + 1) / ((n : ℂ) * ((n : ℂ) + 1))

/-- multishell.py:1238-1241: the scattered field outside, one order. -/
noncomputable def outField (En a b nMed : ℂ) (v3 : VSH) : V3 ℂ × V3 ℂ :=
  (V3.smul En ((V3.smul (I * a) v3.Ne).add (V3.smul (-b) v3.Mo)),
   V3.smul (nMed * En) ((V3.smul (I * b) v3.No).add (V3.smul a v3.Me)))

/-- multishell.py:1242-1255: the field inside a layer, one order. -/
noncomputable def inField (En a b c d nMed : ℂ) (v1 v3 : VSH) : V3 ℂ × V3 ℂ :=
  (V3.smul En ((((V3.smul c v1.Mo).add (V3.smul (-(I * d)) v1.Ne)).add
      (V3.smul (I * a) v3.Ne)).add (V3.smul (-b) v3.Mo)),
   V3.smul (-nMed * En) ((((V3.smul d v1.Me).add (V3.smul (I * c) v1.No)).add
      (V3.smul (-(I * b)) v3.No)).add (V3.smul (-a) v3.Me)))

/-- multishell.py:1213-1226: the region masks for one particle and one probe distance, the host
region last. -/
noncomputable def regionMasks (rLayers : List ℝ) (r : ℝ) : List Bool :=
  ((List.range rLayers.length).map fun li =>
    if li = 0 then decide (r ≤ rLayers.getD 0 0)
    else decide (rLayers.getD (li - 1) 0 < r) && decide (r ≤ rLayers.getD li 0)) ++
  [decide (rLayers.getLastD 0 < r)]

/-- multishell.py:1228-1258: `Es = zeros; for li: Es[mask_li] = E_l[mask_li]` for one probe point. -/
def maskedAssign {α : Type*} (zero : α) (masks : List Bool) (vals : List α) : α :=
  (masks.zip vals).foldl (fun acc mv => if mv.1 then mv.2 else acc) zero

/-- All fields at one probe point. Code: multishell.py:1284-1291. -/
structure Fields where
  Ei : V3 ℂ
  Hi : V3 ℂ
  Es : V3 ℂ
  Hs : V3 ℂ
  Et : V3 ℂ
  Ht : V3 ℂ

/-- Sum over orders of spherical-component fields after conversion to Cartesian components
(multishell.py:1261-1269). -/
noncomputable def sumCart (theta phi : ℝ) (l : List (V3 ℂ)) : V3 ℂ :=
  l.foldl (fun acc v => acc.add (fieldsSphToCart v theta phi)) V3.zero

/-- multishell.py:1271-1276: incident plane wave along +z, x-polarised, in the host medium. -/
noncomputable def incidentE (E0 k : ℂ) (r theta : ℝ) : V3 ℂ :=
  ⟨E0 * exp (I * k * (r : ℂ) * (Real.cos theta : ℝ)), 0, 0⟩
/-- multishell.py:1275-1276. -/
noncomputable def incidentH (E0 k nEnv : ℂ) (r theta : ℝ) : V3 ℂ :=
  ⟨0, E0 * nEnv * exp (I * k * (r : ℂ) * (Real.cos theta : ℝ)), 0⟩

/-- Fields of one region at one probe point, per order (multishell.py:1231-1255). -/
noncomputable def regionField (K : D1Kernel) (nMax : ℕ) (k0 nMed : ℂ) (r theta phi : ℝ) (E0 : ℂ)
    (isOut : Bool) (rc : RegionCoefs) (epsilon : ℝ) : Py (List (V3 ℂ) × List (V3 ℂ)) := do
  let v1 ← vshPena K nMax k0 nMed r theta phi 1 epsilon
  let v3 ← vshPena K nMax k0 nMed r theta phi 3 epsilon
  let eh := (List.range nMax).map fun i =>
    let En := EnCoef E0 (i + 1)
    let a := rc.a.getD (i + 1) 0
    let b := rc.b.getD (i + 1) 0
    let c := rc.c.getD (i + 1) 0
    let d := rc.d.getD (i + 1) 0
    let z : VSH := ⟨V3.zero, V3.zero, V3.zero, V3.zero⟩
    if isOut then outField En a b nMed (v3.getD i z)
    else inField En a b c d nMed (v1.getD i z) (v3.getD i z)
  .ok (eh.map (·.1), eh.map (·.2))

/-- multishell.py:1041-1291 `nearfields` (pena) for one particle, wavenumber and probe point, from the
external coefficients. -/
noncomputable def nearfieldsPena (K : D1Kernel) (k0 : ℂ) (rLayers : List ℝ) (epsLayers : List ℂ)
    (epsEnv : ℂ) (E0 : ℂ) (a b : List ℂ) (p : V3 ℝ) (epsilon : ℝ := 1e-8) : Py Fields := do
  let nMax := a.length
  let nEnv := csqrt epsEnv
  let k := k0 * nEnv
  let xs := rLayers.map fun (r : ℝ) => k * (r : ℂ)
  let ms := epsLayers.map fun e => csqrt e / nEnv
  let regs ← nfRegions K nMax (extCoefs a b) true (ms.zip xs)
  let sph := xyzToSph eps10Double p.c0 p.c1 p.c2
  let r := sph.c0
  let theta := sph.c1
  let phi := sph.c2
  let media := epsLayers.map csqrt ++ [nEnv]
  let L := rLayers.length
  let flds ← (List.range (L + 1)).mapM fun li =>
    regionField K nMax k0 (media.getD li 0) r theta phi E0 (li == L)
      (regs.getD li ⟨[], [], [], []⟩) epsilon
  let masks := regionMasks rLayers r
  let Es := sumCart theta phi (maskedAssign [] masks (flds.map (·.1)))
  let Hs := sumCart theta phi (maskedAssign [] masks (flds.map (·.2)))
  let Ei := incidentE E0 k r theta
  let Hi := incidentH E0 k nEnv r theta
  let out := masks.getLastD false
  .ok { Ei := Ei, Hi := Hi, Es := Es, Hs := Hs
        Et := if out then Es.add Ei else Es
        Ht := if out then Hs.add Hi else Hs }

end MieDiff
