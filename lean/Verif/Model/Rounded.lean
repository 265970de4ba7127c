import Mathlib.Analysis.SpecialFunctions.Trigonometric.Basic
import Verif.Model.Pipeline

/-!
# The pena solver operation by operation

The other models use exact complex numbers.  Here every arithmetic operation of the pena backend is performed by an arithmetic `A`,
in the order in which the code performs them, so that rounding errors can be studied.  `exactArith` gives back the exact model
(`C78_exact_arithmetic`).  Values are indexed by the order instead of being collected in lists; overflow and underflow
do not occur.
-/

namespace MieDiff

/-- The operations of the floating point arithmetic on complex numbers. `sum` is `torch.sum`, whose order of summation is not
specified. Code: the arithmetic of multishell.py:324-403, 857-871 and special.py:451-696. -/
structure Arith where
  add : ℂ → ℂ → ℂ
  sub : ℂ → ℂ → ℂ
  mul : ℂ → ℂ → ℂ
  div : ℂ → ℂ → ℂ
  exp : ℂ → ℂ
  sin : ℂ → ℂ
  cos : ℂ → ℂ
  sqrt : ℂ → ℂ
  abs : ℂ → ℝ
  pi : ℝ
  sum : List ℂ → ℂ

/-- Exact complex numbers. Code: no counterpart: multishell.py:324-403 without rounding. -/
noncomputable def exactArith : Arith where
  add := (· + ·)
  sub := (· - ·)
  mul := (· * ·)
  div := (· / ·)
  exp := Complex.exp
  sin := Complex.sin
  cos := Complex.cos
  sqrt := csqrt
  abs := fun z => ‖z‖
  pi := Real.pi
  sum := List.sum

namespace Arith

variable (A : Arith)

/-- `torch.where(v.abs() < eps, v + eps, v)`. Code: special.py:494, 499, multishell.py:369. -/
noncomputable def guard (v : ℂ) : ℂ := if A.abs v < solverEps then A.add v solverEps else v

/-- special.py:493-503 the loop of `pena_D1_n`: value at order `N - j` of the recurrence started at order `N`. -/
noncomputable def d1Down (zs : ℂ) (N : ℕ) : ℕ → ℂ
  | 0 => 0
  | j + 1 =>
    let num := A.div ((N - j : ℕ) : ℂ) zs
    let den := A.guard (A.add (d1Down zs N j) num)
    A.sub num (A.div 1 den)

/-- special.py:451-505 `pena_D1_n(n, z, n_add)` at order `k`. -/
noncomputable def d1 (n nAdd : ℕ) (z : ℂ) (k : ℕ) : ℂ := A.d1Down (A.guard z) (n + nAdd) (n + nAdd - k)

/-- special.py:551-564 the loop of `pena_D3_n`: `(psi_n zeta_n, D3_n)`. -/
noncomputable def pzD3 (z : ℂ) (D : ℕ → ℂ) : ℕ → ℂ × ℂ
  | 0 => (A.mul (1 / 2) (A.sub 1 (A.exp (A.mul (2 * Complex.I) z))), Complex.I)
  | n + 1 =>
    let t1 := A.sub (A.div ((n + 1 : ℕ) : ℂ) (A.guard z)) (D n)
    let t2 := A.sub (A.div ((n + 1 : ℕ) : ℂ) (A.guard z)) (pzD3 z D n).2
    let p := A.mul (A.mul (pzD3 z D n).1 t1) t2
    (p, A.add (D (n + 1)) (A.div Complex.I (A.guard p)))

/-- special.py:556-564, the value `D3_list[n]` of `pena_D3_n`. -/
noncomputable def d3 (z : ℂ) (D : ℕ → ℂ) (n : ℕ) : ℂ := (A.pzD3 z D n).2

/-- special.py:619-642 `pena_Q_n`. -/
noncomputable def q (z1 z2 x1 x2 : ℂ) (D11 D12 D31 D32 : ℕ → ℂ) : ℕ → ℂ
  | 0 =>
    let num0 := A.sub (A.exp (A.mul (-2 * Complex.I) z1.re)) (A.exp (A.mul (-2) z1.im))
    let den0 := A.guard (A.sub (A.exp (A.mul (-2 * Complex.I) z2.re)) (A.exp (A.mul (-2) z2.im)))
    A.mul (A.div num0 den0) (A.exp (A.mul (-2) (A.sub z2.im z1.im)))
  | n + 1 =>
    let ratio := A.div x1 (A.guard x2)
    let num := A.mul (A.add (A.mul z2 (D12 (n + 1))) ((n + 1 : ℕ) : ℂ)) (A.sub ((n + 1 : ℕ) : ℂ) (A.mul z2 (D32 n)))
    let den := A.guard
      (A.mul (A.add (A.mul z1 (D11 (n + 1))) ((n + 1 : ℕ) : ℂ)) (A.sub ((n + 1 : ℕ) : ℂ) (A.mul z1 (D31 n))))
    A.mul (A.mul (q z1 z2 x1 x2 D11 D12 D31 D32 n) (A.mul ratio ratio)) (A.div num den)

/-- special.py:682-694 one sequence of `pena_psi_zeta_n`. -/
noncomputable def prodSeq (f0 z : ℂ) (D : ℕ → ℂ) : ℕ → ℂ
  | 0 => f0
  | n + 1 => A.mul (prodSeq f0 z D n) (A.sub (A.div ((n + 1 : ℕ) : ℂ) (A.guard z)) (D n))

/-- State of the layer recursion: index, size parameter, `H_a` and `H_b`. Code: multishell.py:328-376. -/
structure State where
  m : ℂ
  x : ℂ
  Ha : ℕ → ℂ
  Hb : ℕ → ℂ

/-- multishell.py:366-370 and 372-376, one of the two updates; `p`, `q` are the factors of `H` and of the kernels. -/
noncomputable def update (p q H d1Prev d3Prev d1 d3 Q : ℂ) : ℂ :=
  let G1 := A.sub (A.mul p H) (A.mul q d1Prev)
  let G2 := A.sub (A.mul p H) (A.mul q d3Prev)
  let den := A.guard (A.sub G2 (A.mul Q G1))
  A.div (A.sub (A.mul G2 d1) (A.mul (A.mul Q G1) d3)) den

/-- multishell.py:332-345, the first layer. -/
noncomputable def init (n N : ℕ) (l : ℂ × ℂ) : State := ⟨l.1, l.2, A.d1 n N (A.mul l.1 l.2), A.d1 n N (A.mul l.1 l.2)⟩

/-- multishell.py:332-376, the other layers. -/
noncomputable def step (n N : ℕ) (st : State) (l : ℂ × ℂ) : State :=
  let zc := A.mul l.1 l.2
  let zp := A.mul l.1 st.x
  let D1c := A.d1 n N zc
  let D1p := A.d1 n N zp
  let D3c := A.d3 zc D1c
  let D3p := A.d3 zp D1p
  let Q := A.q zp zc st.x l.2 D1p D1c D3p D3c
  ⟨l.1, l.2, fun i => A.update l.1 st.m (st.Ha i) (D1p i) (D3p i) (D1c i) (D3c i) (Q i),
    fun i => A.update st.m l.1 (st.Hb i) (D1p i) (D3p i) (D1c i) (D3c i) (Q i)⟩

/-- multishell.py:392-396 and 399-403. -/
noncomputable def final (term psi psiPrev zeta zetaPrev : ℂ) : ℂ :=
  A.div (A.sub (A.mul term psi) psiPrev) (A.guard (A.sub (A.mul term zeta) zetaPrev))

/-- multishell.py:378-403: `(a_i, b_i)` from the state of the last layer. -/
noncomputable def coefs (n N : ℕ) (st : State) (i : ℕ) : ℂ × ℂ :=
  let D1 := A.d1 n N st.x
  let D3 := A.d3 st.x D1
  let psi := A.prodSeq (A.sin st.x) st.x D1
  let zeta := A.prodSeq (A.sub (A.sin st.x) (A.mul Complex.I (A.cos st.x))) st.x D3
  let termA := A.add (A.div (st.Ha i) st.m) (A.div (i : ℂ) (A.guard st.x))
  let termB := A.add (A.mul st.m (st.Hb i)) (A.div (i : ℂ) (A.guard st.x))
  (A.final termA (psi i) (psi (i - 1)) (zeta i) (zeta (i - 1)), A.final termB (psi i) (psi (i - 1)) (zeta i) (zeta (i - 1)))

/-- multishell.py:633 `n_env = eps_env**0.5` and 742 `k = k0 * n_env`. -/
noncomputable def host (p : Particle1) : ℂ × ℂ := (A.sqrt p.epsEnv, A.mul p.k0 (A.sqrt p.epsEnv))

/-- multishell.py:324-325 relative indices and size parameters. -/
noncomputable def layers (p : Particle1) : List (ℂ × ℂ) :=
  (p.epsLayers.map fun e => A.div (A.sqrt e) (A.host p).1).zip (p.rLayers.map fun (r : ℝ) => A.mul (A.host p).2 (r : ℂ))

/-- `mie_coefficients(backend='pena')` of one particle at order `i`, truncated at `n`, with `n_add = N`.
Code: multishell.py:269-408 as called from multishell.py:742-752. -/
noncomputable def mie (n N : ℕ) (p : Particle1) (i : ℕ) : ℂ × ℂ :=
  match A.layers p with
  | [] => (0, 0)
  | l :: rest => A.coefs n N (rest.foldl (A.step n N) (A.init n N l)) i

/-- multishell.py:860-864: `prefactor * (2 n + 1) * v` at order `i + 1`. -/
noncomputable def mpTerm (k : ℂ) (i : ℕ) (v : ℂ) : ℂ :=
  A.mul (A.mul (A.div (A.mul 2 A.pi) (A.mul k k)) (((2 * (i + 1) + 1 : ℕ)) : ℂ)) v

/-- multishell.py:857-885 extinction, scattering and absorption cross section and their efficiencies. -/
structure Cross where
  ext : ℝ
  sca : ℝ
  abs : ℝ
  qExt : ℝ
  qSca : ℝ
  qAbs : ℝ

/-- multishell.py:857-885 from the coefficients `c` by order. -/
noncomputable def crossWith (n : ℕ) (p : Particle1) (c : ℕ → ℂ × ℂ) : Cross :=
  let k := (A.host p).2
  let rS : ℂ := ((p.rLayers.getLastD 0 : ℝ) : ℂ)
  let geo := A.mul A.pi (A.mul rS rS)
  let sq (z : ℂ) : ℂ := A.mul (A.abs z) (A.abs z)
  let orders := List.range n
  let ext (i : ℕ) : ℂ × ℂ := (A.mpTerm k i (c (i + 1)).1.re, A.mpTerm k i (c (i + 1)).2.re)
  let sca (i : ℕ) : ℂ × ℂ := (A.mpTerm k i (sq (c (i + 1)).1), A.mpTerm k i (sq (c (i + 1)).2))
  let total (f : ℕ → ℂ × ℂ) : ℝ := (A.sum (orders.map (fun i => (f i).1) ++ orders.map (fun i => (f i).2))).re
  let cExt := total ext
  let cSca := total sca
  let cAbs := total fun i => (A.sub (ext i).1 (sca i).1, A.sub (ext i).2 (sca i).2)
  ⟨cExt, cSca, cAbs, (A.div cExt geo).re, (A.div cSca geo).re, (A.div cAbs geo).re⟩

/-- `cross_sections(backend='pena')`. Code: multishell.py:803-893. -/
noncomputable def cross (n N : ℕ) (p : Particle1) : Cross := A.crossWith n p (A.mie n N p)

end Arith

end MieDiff
