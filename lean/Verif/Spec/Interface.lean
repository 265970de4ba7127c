import Verif.Spec.Bessel

/-!
# Specification: the interface problem of a layered sphere

In every homogeneous region the field of one multipole is a combination of a regular and an outgoing
Riccati-Bessel function of the argument `m * rho` (`rho = k r` in the host, `m` the index relative to the
host).  Tangential `E` and `H` are continuous when

* electric (TM) multipoles: `f` and `f'/m` are continuous,
* magnetic (TE) multipoles: `f/m` and `f'` are continuous,

where `f'` is the derivative with respect to the argument (Bohren & Huffman, ch. 4 and 8).  This file does not use
the model.
-/

namespace MieDiff.Spec

open Complex

/-- `d * psi_n - a * zeta_n`. -/
structure Wave where
  d : ℂ
  a : ℂ

noncomputable def Wave.val (w : Wave) (n : ℕ) (z : ℂ) : ℂ := w.d * ricPsi n z - w.a * ricZeta n z

noncomputable def Wave.der (w : Wave) (n : ℕ) (z : ℂ) : ℂ :=
  w.d * deriv (ricPsi n) z - w.a * deriv (ricZeta n) z

/-- Electric or magnetic multipole. -/
inductive Pol
  | tm
  | te

/-- Tangential continuity at size parameter `x` between media `m` (inside) and `m'` (outside); the
divisions by `m`, `m'` are cleared. -/
def Cont (p : Pol) (n : ℕ) (m m' x : ℂ) (w w' : Wave) : Prop :=
  match p with
  | .tm => w.val n (m * x) = w'.val n (m' * x) ∧ w.der n (m * x) * m' = w'.der n (m' * x) * m
  | .te => w.val n (m * x) * m' = w'.val n (m' * x) * m ∧ w.der n (m * x) = w'.der n (m' * x)

/-- Waves `w` in the innermost listed layer and `out` in the host are connected through continuous fields at all
interfaces.  `layers` lists `(m_l, x_l)` from inside to outside. -/
def Chain (p : Pol) (n : ℕ) : Wave → List (ℂ × ℂ) → Wave → Prop
  | _, [], _ => False
  | w, [(m, x)], out => Cont p n m 1 x w out
  | w, (m, x) :: (m', x') :: rest, out =>
    ∃ w', Cont p n m m' x w w' ∧ Chain p n w' ((m', x') :: rest) out

/-- `a` is a scattering coefficient of the layered sphere: incident wave `psi_n` with amplitude 1 and
scattered wave `-a zeta_n` outside, field regular in the core, continuity at every interface. -/
def Solves (p : Pol) (n : ℕ) (layers : List (ℂ × ℂ)) (a : ℂ) : Prop :=
  ∃ core : Wave, core.a = 0 ∧ Chain p n core layers ⟨1, a⟩

end MieDiff.Spec
