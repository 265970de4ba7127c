import Mathlib.Analysis.SpecialFunctions.Trigonometric.Basic
import Verif.Model.Pipeline

/-!
# Reverse-mode differentiation of the pena solver

`loss.backward()` does not differentiate a function: it runs the recorded operations in reverse and hands a gradient from the output
of every operation to its inputs, by one hand-written formula per operation.  A `Node` is a tensor entry with its recorded history: the
value, and the map `back` from the gradient arriving at the entry to what ends up in the leaves.  `V` is the space of the leaf
parameters.  The formulas are those of PyTorch (tools/autograd/derivatives.yaml), where the gradient of a real function of a
complex number is `∂/∂re + i ∂/∂im`.

The program is that of Model/Rounded: the operations of the pena backend in the order of the code.  Simplifications: values are indexed
by the order instead of being collected in lists (`torch.stack` and indexing hand gradients through unchanged), real tensors are complex
numbers whose imaginary part is zero, and the real part that PyTorch takes of a gradient when it enters a real tensor is taken where
the real tensor was made (`re`, `im`, `ofReal`; the operations between have real factors).  The engine runs over a graph in which shared nodes
accumulate their gradient before handing it on; here every use is followed separately, see `Tape` and `C79_engine`.
-/

namespace MieDiff

open Complex

/-- A tensor entry with its history.  `req` is `requires_grad`.  `ok` is not part of the program: it records that every operation was
differentiable at its operands. Code: any tensor of multishell.py:269-408 and special.py:451-696 under autograd. -/
structure Node (V : Type*) where
  val : ℂ
  back : ℂ → V
  req : Bool
  ok : Prop

namespace Node

variable {V : Type*} [AddCommGroup V]

/-- A python number or a tensor without gradient. Code: e.g. the `1e-30` of multishell.py:316 and the orders of multishell.py:387. -/
def const (c : ℂ) : Node V := ⟨c, fun _ => 0, false, True⟩

/-- A complex parameter. Code: `eps_layers`, `eps_env` of multishell.py:641. -/
def leaf (c : ℂ) (back : ℂ → V) : Node V := ⟨c, back, true, True⟩

/-- A real parameter: the gradient it receives is real. Code: `k0`, `r_layers` of multishell.py:641. -/
def ofReal (r : ℝ) (back : ℝ → V) : Node V := ⟨r, fun g => back g.re, true, True⟩

/-- `+`, e.g. multishell.py:391. -/
def add (x y : Node V) : Node V := ⟨x.val + y.val, fun g => x.back g + y.back g, x.req || y.req, x.ok ∧ y.ok⟩

/-- `-`, e.g. multishell.py:366. -/
def sub (x y : Node V) : Node V := ⟨x.val - y.val, fun g => x.back g + y.back (-g), x.req || y.req, x.ok ∧ y.ok⟩

/-- `mul_tensor_backward`. Code: `*`, e.g. multishell.py:335. -/
noncomputable def mul (x y : Node V) : Node V :=
  ⟨x.val * y.val, fun g => x.back (g * (starRingEnd ℂ) y.val) + y.back (g * (starRingEnd ℂ) x.val), x.req || y.req, x.ok ∧ y.ok⟩

/-- `div_tensor_self_backward` and `div_tensor_other_backward`. Code: `/`, e.g. multishell.py:370. -/
noncomputable def div (x y : Node V) : Node V :=
  ⟨x.val / y.val, fun g => x.back (g / (starRingEnd ℂ) y.val) + y.back (-g * (starRingEnd ℂ) ((x.val / y.val) / y.val)), x.req || y.req,
    x.ok ∧ y.ok ∧ y.val ≠ 0⟩

/-- `reciprocal`. Code: multishell.py:860, see `rdiv`. -/
noncomputable def recip (x : Node V) : Node V :=
  ⟨x.val⁻¹, fun g => x.back (-g * (starRingEnd ℂ) (x.val⁻¹ * x.val⁻¹)), x.req, x.ok ∧ x.val ≠ 0⟩

/-- A python number divided by a tensor: `Tensor.__rtruediv__` is `self.reciprocal() * other`.
Code: e.g. `2 * torch.pi / (k**2)` of multishell.py:860. -/
noncomputable def rdiv (c : ℂ) (x : Node V) : Node V := mul (recip x) (const c)

/-- `torch.exp`, special.py:551, 624-627. -/
noncomputable def exp (x : Node V) : Node V :=
  ⟨Complex.exp x.val, fun g => x.back (g * (starRingEnd ℂ) (Complex.exp x.val)), x.req, x.ok⟩

/-- `torch.sin`, special.py:682. -/
noncomputable def sin (x : Node V) : Node V :=
  ⟨Complex.sin x.val, fun g => x.back (g * (starRingEnd ℂ) (Complex.cos x.val)), x.req, x.ok⟩

/-- `torch.cos`, special.py:683. -/
noncomputable def cos (x : Node V) : Node V :=
  ⟨Complex.cos x.val, fun g => x.back (g * -(starRingEnd ℂ) (Complex.sin x.val)), x.req, x.ok⟩

/-- `torch.sqrt`. Code: multishell.py:325. -/
noncomputable def sqrt (x : Node V) : Node V :=
  ⟨csqrt x.val, fun g => x.back (g / (2 * (starRingEnd ℂ) (csqrt x.val))), x.req, x.ok ∧ (x.req = true → x.val ∈ slitPlane)⟩

/-- `x ** 0.5`, `pow_backward` with exponent `0.5`. Code: multishell.py:633. -/
noncomputable def powHalf (x : Node V) : Node V :=
  ⟨csqrt x.val, fun g => x.back (g * (starRingEnd ℂ) ((1 / 2) * x.val ^ (-(1 / 2) : ℂ))), x.req,
    x.ok ∧ (x.req = true → x.val ∈ slitPlane)⟩

/-- `x ** 2`. Code: multishell.py:857, 860. -/
noncomputable def sq (x : Node V) : Node V := ⟨x.val ^ 2, fun g => x.back (g * (starRingEnd ℂ) (2 * x.val)), x.req, x.ok⟩

/-- `x.abs() ** 2`: the gradient `g` becomes `2 g |x|` at `x.abs()` and is multiplied by `sgn x`, which is `0` for `x = 0`.
Code: multishell.py:864. -/
noncomputable def absSq (x : Node V) : Node V :=
  ⟨((‖x.val‖ ^ 2 : ℝ) : ℂ), fun g => x.back ((g.re * (2 * ‖x.val‖) : ℝ) * (x.val / ‖x.val‖)), x.req, x.ok⟩

/-- `x.real`. Code: multishell.py:862. -/
noncomputable def re (x : Node V) : Node V := ⟨(x.val.re : ℂ), fun g => x.back (g.re : ℂ), x.req, x.ok⟩

/-- `x.imag`. Code: special.py:620-623. -/
noncomputable def im (x : Node V) : Node V := ⟨(x.val.im : ℂ), fun g => x.back (I * (g.re : ℂ)), x.req, x.ok⟩

/-- `torch.where(c, x, y)`: each operand gets the gradient where it was selected and zero elsewhere. Code: special.py:494, see `guard`. -/
noncomputable def where' (c : Prop) [Decidable c] (x y : Node V) : Node V :=
  ⟨if c then x.val else y.val, fun g => x.back (if c then g else 0) + y.back (if c then 0 else g), x.req || y.req, x.ok ∧ y.ok⟩

/-- `torch.where(v.abs() < eps, v + eps, v)`. Code: special.py:494, 499, multishell.py:369. -/
noncomputable def guard (x : Node V) : Node V :=
  { where' (‖x.val‖ < solverEps) (add x (const solverEps)) x with ok := x.ok ∧ ‖x.val‖ ≠ solverEps }

/-- `torch.sum`: every summand gets the gradient. Code: multishell.py:869-871. -/
noncomputable def sum (l : List (Node V)) : Node V :=
  ⟨(l.map (·.val)).sum, fun g => (l.map fun x => x.back g).sum, l.any (·.req), ∀ x ∈ l, x.ok⟩

/-- special.py:493-503 the loop of `pena_D1_n`, started at order `N`; value at order `N - j`. -/
noncomputable def d1Down (zs : Node V) (N : ℕ) : ℕ → Node V
  | 0 => const 0
  | j + 1 =>
    let num := rdiv ((N - j : ℕ) : ℂ) zs
    let den := guard (add (d1Down zs N j) num)
    sub num (rdiv 1 den)

/-- special.py:451-505 `pena_D1_n(n, z, n_add)` at order `k`. -/
noncomputable def d1 (n nAdd : ℕ) (z : Node V) (k : ℕ) : Node V := d1Down (guard z) (n + nAdd) (n + nAdd - k)

/-- special.py:551-564 the loop of `pena_D3_n`: `(psi_n zeta_n, D3_n)`. -/
noncomputable def pzD3 (z : Node V) (D : ℕ → Node V) : ℕ → Node V × Node V
  | 0 => (mul (const (1 / 2)) (sub (const 1) (exp (mul (const (2 * I)) z))), const I)
  | n + 1 =>
    let t1 := sub (rdiv ((n + 1 : ℕ) : ℂ) (guard z)) (D n)
    let t2 := sub (rdiv ((n + 1 : ℕ) : ℂ) (guard z)) (pzD3 z D n).2
    let p := mul (mul (pzD3 z D n).1 t1) t2
    (p, add (D (n + 1)) (rdiv I (guard p)))

/-- special.py:556-564, the recorded value `D3_list[n]` of `pena_D3_n`. -/
noncomputable def d3 (z : Node V) (D : ℕ → Node V) (n : ℕ) : Node V := (pzD3 z D n).2

/-- special.py:619-642 `pena_Q_n`. -/
noncomputable def q (z1 z2 x1 x2 : Node V) (D11 D12 D31 D32 : ℕ → Node V) : ℕ → Node V
  | 0 =>
    let num0 := sub (exp (mul (const (-2 * I)) (re z1))) (exp (mul (const (-2)) (im z1)))
    let den0 := guard (sub (exp (mul (const (-2 * I)) (re z2))) (exp (mul (const (-2)) (im z2))))
    mul (div num0 den0) (exp (mul (const (-2)) (sub (im z2) (im z1))))
  | n + 1 =>
    let nc : Node V := const ((n + 1 : ℕ) : ℂ)
    let num := mul (add (mul z2 (D12 (n + 1))) nc) (sub nc (mul z2 (D32 n)))
    let den := guard (mul (add (mul z1 (D11 (n + 1))) nc) (sub nc (mul z1 (D31 n))))
    mul (mul (q z1 z2 x1 x2 D11 D12 D31 D32 n) (sq (div x1 (guard x2)))) (div num den)

/-- special.py:682-694 one sequence of `pena_psi_zeta_n`. -/
noncomputable def prodSeq (f0 z : Node V) (D : ℕ → Node V) : ℕ → Node V
  | 0 => f0
  | n + 1 => mul (prodSeq f0 z D n) (sub (rdiv ((n + 1 : ℕ) : ℂ) (guard z)) (D n))

/-- State of the layer recursion: index, size parameter, `H_a` and `H_b`. Code: multishell.py:328-376. -/
structure State (V : Type*) where
  m : Node V
  x : Node V
  Ha : ℕ → Node V
  Hb : ℕ → Node V

/-- multishell.py:366-370 and 372-376, one of the two updates; `p`, `q` are the factors of `H` and of the kernels. -/
noncomputable def update (p q H d1Prev d3Prev d1 d3 Q : Node V) : Node V :=
  let G1 := sub (mul p H) (mul q d1Prev)
  let G2 := sub (mul p H) (mul q d3Prev)
  let den := guard (sub G2 (mul Q G1))
  div (sub (mul G2 d1) (mul (mul Q G1) d3)) den

/-- multishell.py:332-345, the first layer. -/
noncomputable def init (n N : ℕ) (l : Node V × Node V) : State V := ⟨l.1, l.2, d1 n N (mul l.1 l.2), d1 n N (mul l.1 l.2)⟩

/-- multishell.py:332-376, the other layers. -/
noncomputable def step (n N : ℕ) (st : State V) (l : Node V × Node V) : State V :=
  let zc := mul l.1 l.2
  let zp := mul l.1 st.x
  let D1c := d1 n N zc
  let D1p := d1 n N zp
  let D3c := d3 zc D1c
  let D3p := d3 zp D1p
  let Q := q zp zc st.x l.2 D1p D1c D3p D3c
  ⟨l.1, l.2, fun i => update l.1 st.m (st.Ha i) (D1p i) (D3p i) (D1c i) (D3c i) (Q i),
    fun i => update st.m l.1 (st.Hb i) (D1p i) (D3p i) (D1c i) (D3c i) (Q i)⟩

/-- multishell.py:392-396 and 399-403. -/
noncomputable def final (term psi psiPrev zeta zetaPrev : Node V) : Node V :=
  div (sub (mul term psi) psiPrev) (guard (sub (mul term zeta) zetaPrev))

/-- multishell.py:378-403: `(a_i, b_i)` from the state of the last layer. -/
noncomputable def coefs (n N : ℕ) (st : State V) (i : ℕ) : Node V × Node V :=
  let D1 := d1 n N st.x
  let D3 := d3 st.x D1
  let psi := prodSeq (sin st.x) st.x D1
  let zeta := prodSeq (sub (sin st.x) (mul (const I) (cos st.x))) st.x D3
  let termA := add (div (st.Ha i) st.m) (div (const (i : ℂ)) (guard st.x))
  let termB := add (mul st.m (st.Hb i)) (div (const (i : ℂ)) (guard st.x))
  (final termA (psi i) (psi (i - 1)) (zeta i) (zeta (i - 1)), final termB (psi i) (psi (i - 1)) (zeta i) (zeta (i - 1)))

/-- The tensors handed to `mie_coefficients`. Code: multishell.py:641-655. -/
structure Inputs (V : Type*) where
  k0 : Node V
  r : List (Node V)
  eps : List (Node V)
  env : Node V

/-- multishell.py:633 `n_env = eps_env**0.5` and 742 `k = k0 * n_env`. -/
noncomputable def host (p : Inputs V) : Node V × Node V := (powHalf p.env, mul p.k0 (powHalf p.env))

/-- multishell.py:324-325 relative indices and size parameters. -/
noncomputable def layers (p : Inputs V) : List (Node V × Node V) :=
  (p.eps.map fun e => div (sqrt e) (host p).1).zip (p.r.map fun r => mul (host p).2 r)

/-- `mie_coefficients(backend='pena')` of one particle at order `i`, truncated at `n`, with `n_add = N`.
Code: multishell.py:269-408 as called from multishell.py:742-752. -/
noncomputable def mie (n N : ℕ) (p : Inputs V) (i : ℕ) : Node V × Node V :=
  match layers p with
  | [] => (const 0, const 0)
  | l :: rest => coefs n N (rest.foldl (step n N) (init n N l)) i

/-- multishell.py:860-864: `prefactor * (2 n + 1) * v` at order `i + 1`. -/
noncomputable def mpTerm (k : Node V) (i : ℕ) (v : Node V) : Node V :=
  mul (mul (rdiv (2 * Real.pi) (sq k)) (const (((2 * (i + 1) + 1 : ℕ)) : ℂ))) v

/-- multishell.py:857-885 extinction, scattering and absorption cross section and their efficiencies. -/
structure Cross (V : Type*) where
  ext : Node V
  sca : Node V
  abs : Node V
  qExt : Node V
  qSca : Node V
  qAbs : Node V

/-- The same from the coefficients `c` of a backend. Code: multishell.py:848-892. -/
noncomputable def crossOf (n : ℕ) (p : Inputs V) (c : ℕ → Node V × Node V) : Cross V :=
  let k := (host p).2
  let rS := p.r.getLastD (const 0)
  let geo := mul (const Real.pi) (sq rS)
  let orders := List.range n
  let ext (i : ℕ) : Node V × Node V := (mpTerm k i (re (c (i + 1)).1), mpTerm k i (re (c (i + 1)).2))
  let sca (i : ℕ) : Node V × Node V := (mpTerm k i (absSq (c (i + 1)).1), mpTerm k i (absSq (c (i + 1)).2))
  let total (f : ℕ → Node V × Node V) : Node V :=
    re (sum (orders.map (fun i => (f i).1) ++ orders.map (fun i => (f i).2)))
  let cExt := total ext
  let cSca := total sca
  let cAbs := total fun i => (sub (ext i).1 (sca i).1, sub (ext i).2 (sca i).2)
  ⟨cExt, cSca, cAbs, div cExt geo, div cSca geo, div cAbs geo⟩

/-- `cross_sections(backend='pena')`, multishell.py:803-893. -/
noncomputable def cross (n N : ℕ) (p : Inputs V) : Cross V := crossOf n p (mie n N p)

end Node

/-! ## The engine -/

/-- A recorded operation: its inputs, each with the map from the gradient of the output to the contribution to the gradient of the input.
Leaves have no inputs. Code: not in the repository: the graph that torch records for the calls in multishell.py:269-893. -/
abbrev Tape := List (List (ℕ × (ℂ → ℂ)))

/-- One step of the engine: the accumulated gradient of node `i` is handed to its inputs and added there.
Code: not in the repository: torch's engine, which `loss.backward()` on the results of multishell.py:803-893 runs. -/
def Tape.visit (t : Tape) (i : ℕ) (g : ℕ → ℂ) : ℕ → ℂ :=
  (t.getD i []).foldl (fun g e => Function.update g e.1 (g e.1 + e.2 (g i))) g

/-- The nodes below `i` are visited in reverse order. Code: see `Tape.visit` (`loss.backward()` on results of multishell.py:803-893). -/
def Tape.run (t : Tape) : ℕ → (ℕ → ℂ) → ℕ → ℂ
  | 0, g => g
  | i + 1, g => t.run i (t.visit i g)

/-- `backward(gradient = s)` on node `root`: the gradients in the end.
Code: see `Tape.visit`; the call stands in user code, e.g. for `cs_sca` of multishell.py:884. -/
def Tape.backward (t : Tape) (root : ℕ) (s : ℂ) : ℕ → ℂ := t.run (root + 1) (Pi.single root s)

end MieDiff
