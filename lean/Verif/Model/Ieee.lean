import Verif.Model.Rounded

/-!
# The last step of the pena solver and the cross sections with infinities and nan

Values of double precision: finite numbers, two infinities, nan.  Signed zeros are not distinguished.  `psi`, `zeta` and everything that
is computed from them can overflow; the logarithmic derivatives, `H_a`, `H_b` and the terms `H/m + n/x` are taken from the
arithmetic `A` of `Model/Rounded.lean`, which has no range.
-/

namespace MieDiff

/-- A real number of double precision. Code: the parts of `complex128`, multishell.py:314. -/
inductive Fl where
  | fin (x : ℝ)
  | inf (neg : Bool)
  | nan

/-- A complex number of double precision. Code: `complex128`, multishell.py:314. -/
structure FC where
  re : Fl
  im : Fl

namespace FC

/-- Both parts finite. Code: no counterpart: embedding of the finite values of multishell.py:314. -/
def ofC (z : ℂ) : FC := ⟨.fin z.re, .fin z.im⟩

/-- No counterpart: the finite values of multishell.py:314. -/
def val : FC → Option ℂ
  | ⟨.fin x, .fin y⟩ => some ⟨x, y⟩
  | _ => none

/-- What an invalid operation in multishell.py:332-403 gives. -/
def nan : FC := ⟨.nan, .nan⟩

end FC

/-- Operations on finite operands with any result, and the operations whose treatment of special values depends on the library.
Code: the arithmetic of multishell.py:324-403 and special.py:451-696. -/
structure FArith where
  addR : ℝ → ℝ → Fl
  subR : ℝ → ℝ → Fl
  mulR : ℝ → ℝ → Fl
  divR : ℝ → ℝ → Fl
  add : ℂ → ℂ → FC
  sub : ℂ → ℂ → FC
  mul : ℂ → ℂ → FC
  div : ℂ → ℂ → FC
  abs : ℂ → Fl
  /-- quotient of complex numbers if one of them is not finite -/
  divS : FC → FC → FC
  /-- `torch.sum` -/
  sum : List FC → FC

namespace FArith

variable (F : FArith)

/-- Sign of a number that is not nan; `none` for zero. Code: no counterpart; helps `mulInf` (products of multishell.py:332-403). -/
noncomputable def sign : Fl → Option Bool
  | .fin x => if x = 0 then none else some (decide (x < 0))
  | .inf s => some s
  | .nan => none

/-- IEEE 754 sum. Code: parts of `+`, e.g. multishell.py:391. -/
def addF : Fl → Fl → Fl
  | .nan, _ => .nan
  | _, .nan => .nan
  | .inf s, .inf t => if s = t then .inf s else .nan
  | .inf s, .fin _ => .inf s
  | .fin _, .inf t => .inf t
  | .fin x, .fin y => F.addR x y

/-- IEEE 754 difference. Code: parts of `-`, e.g. multishell.py:366. -/
def subF : Fl → Fl → Fl
  | .nan, _ => .nan
  | _, .nan => .nan
  | .inf s, .inf t => if s = t then .nan else .inf s
  | .inf s, .fin _ => .inf s
  | .fin _, .inf t => .inf (!t)
  | .fin x, .fin y => F.subR x y

/-- Product with an infinity: nan for zero. Code: parts of `*`, e.g. multishell.py:335. -/
noncomputable def mulInf (x y : Fl) : Fl :=
  match sign x, sign y with
  | some s, some t => .inf (xor s t)
  | _, _ => .nan

/-- IEEE 754 product. Code: parts of `*`, e.g. multishell.py:335. -/
noncomputable def mulF : Fl → Fl → Fl
  | .fin x, .fin y => F.mulR x y
  | x, y => mulInf x y

/-- IEEE 754 quotient. Code: parts of `/`, e.g. multishell.py:860. -/
noncomputable def divF : Fl → Fl → Fl
  | .nan, _ => .nan
  | _, .nan => .nan
  | .inf _, .inf _ => .nan
  | .inf s, .fin y => .inf (xor s (decide (y < 0)))
  | .fin _, .inf _ => .fin 0
  | .fin x, .fin y => F.divR x y

/-- Complex operations work on the parts if an operand is not finite. Code: `+`, e.g. multishell.py:391. -/
noncomputable def addC (x y : FC) : FC :=
  match x.val, y.val with
  | some a, some b => F.add a b
  | _, _ => ⟨F.addF x.re y.re, F.addF x.im y.im⟩

/-- `-`, e.g. multishell.py:366. -/
noncomputable def subC (x y : FC) : FC :=
  match x.val, y.val with
  | some a, some b => F.sub a b
  | _, _ => ⟨F.subF x.re y.re, F.subF x.im y.im⟩

/-- `(a + bi)(c + di) = (ac - bd) + (ad + bc)i`. Code: `*`, e.g. multishell.py:335. -/
noncomputable def mulC (x y : FC) : FC :=
  match x.val, y.val with
  | some a, some b => F.mul a b
  | _, _ => ⟨F.subF (F.mulF x.re y.re) (F.mulF x.im y.im), F.addF (F.mulF x.re y.im) (F.mulF x.im y.re)⟩

/-- `/`, e.g. multishell.py:370. -/
noncomputable def divC (x y : FC) : FC :=
  match x.val, y.val with
  | some a, some b => F.div a b
  | _, _ => F.divS x y

/-- `hypot`: infinite if a part is infinite, otherwise nan if a part is nan. Code: `.abs()`, multishell.py:369. -/
noncomputable def absC (x : FC) : Fl :=
  match x with
  | ⟨.fin a, .fin b⟩ => F.abs ⟨a, b⟩
  | ⟨.inf _, _⟩ => .inf false
  | ⟨_, .inf _⟩ => .inf false
  | _ => .nan

/-- `torch.where(v.abs() < eps, v + eps, v)`; comparisons with nan are false. Code: multishell.py:369, 375, 389, 393, 400. -/
noncomputable def guardC (v : FC) : FC :=
  match F.absC v with
  | .fin r => if r < solverEps then F.addC v (FC.ofC solverEps) else v
  | _ => v

variable (A : Arith)

/-- special.py:682-694 one sequence of `pena_psi_zeta_n`. -/
noncomputable def prodSeq (f0 z : ℂ) (D : ℕ → ℂ) : ℕ → FC
  | 0 => FC.ofC f0
  | n + 1 => F.mulC (prodSeq f0 z D n) (FC.ofC (A.sub (A.div ((n + 1 : ℕ) : ℂ) (A.guard z)) (D n)))

/-- multishell.py:392-396 and 399-403. -/
noncomputable def final (term psi psiPrev zeta zetaPrev : FC) : FC :=
  F.divC (F.subC (F.mulC term psi) psiPrev) (F.guardC (F.subC (F.mulC term zeta) zetaPrev))

/-- multishell.py:378-403: `(a_i, b_i)` from the state of the last layer. -/
noncomputable def coefs (n N : ℕ) (st : Arith.State) (i : ℕ) : FC × FC :=
  let D1 := A.d1 n N st.x
  let D3 := A.d3 st.x D1
  let psi := F.prodSeq A (A.sin st.x) st.x D1
  let zeta := F.prodSeq A (A.sub (A.sin st.x) (A.mul Complex.I (A.cos st.x))) st.x D3
  let termA := FC.ofC (A.add (A.div (st.Ha i) st.m) (A.div (i : ℂ) (A.guard st.x)))
  let termB := FC.ofC (A.add (A.mul st.m (st.Hb i)) (A.div (i : ℂ) (A.guard st.x)))
  (F.final termA (psi i) (psi (i - 1)) (zeta i) (zeta (i - 1)), F.final termB (psi i) (psi (i - 1)) (zeta i) (zeta (i - 1)))

/-- `mie_coefficients(backend='pena')` of one particle at order `i`, truncated at `n`, with `n_add = N`.
Code: multishell.py:269-408 as called from multishell.py:742-752. -/
noncomputable def mie (n N : ℕ) (p : Particle1) (i : ℕ) : FC × FC :=
  match A.layers p with
  | [] => (FC.ofC 0, FC.ofC 0)
  | l :: rest => F.coefs A n N (rest.foldl (A.step n N) (A.init n N l)) i

/-- multishell.py:860-864: `prefactor * (2 n + 1) * v` at order `i + 1`; the real `v` becomes complex. -/
noncomputable def mpTerm (k : ℂ) (i : ℕ) (v : Fl) : FC :=
  F.mulC (FC.ofC (A.mul (A.div (A.mul 2 A.pi) (A.mul k k)) (((2 * (i + 1) + 1 : ℕ)) : ℂ))) ⟨v, .fin 0⟩

/-- multishell.py:857-885 extinction, scattering and absorption cross section and their efficiencies. -/
structure Cross where
  ext : Fl
  sca : Fl
  abs : Fl
  qExt : Fl
  qSca : Fl
  qAbs : Fl

/-- `cross_sections(backend='pena')`, multishell.py:803-893. -/
noncomputable def cross (n N : ℕ) (p : Particle1) : Cross :=
  let k := (A.host p).2
  let rS : ℂ := ((p.rLayers.getLastD 0 : ℝ) : ℂ)
  let geo : Fl := .fin (A.mul A.pi (A.mul rS rS)).re
  let sq (z : FC) : Fl := F.mulF (F.absC z) (F.absC z)
  let orders := List.range n
  let ext (i : ℕ) : FC × FC := (F.mpTerm A k i (F.mie A n N p (i + 1)).1.re, F.mpTerm A k i (F.mie A n N p (i + 1)).2.re)
  let sca (i : ℕ) : FC × FC := (F.mpTerm A k i (sq (F.mie A n N p (i + 1)).1), F.mpTerm A k i (sq (F.mie A n N p (i + 1)).2))
  let total (f : ℕ → FC × FC) : Fl := (F.sum (orders.map (fun i => (f i).1) ++ orders.map (fun i => (f i).2))).re
  let cExt := total ext
  let cSca := total sca
  let cAbs := total fun i => (F.subC (ext i).1 (sca i).1, F.subC (ext i).2 (sca i).2)
  ⟨cExt, cSca, cAbs, F.divF cExt geo, F.divF cSca geo, F.divF cAbs geo⟩

end FArith

end MieDiff
