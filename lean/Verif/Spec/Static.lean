import Mathlib.Analysis.Complex.Basic

/-!
# Specification: a layered sphere in electrostatics

The potential of a multipole of degree `n` in a homogeneous region is `(A r^n + B / r^(n+1)) Y_n`.  The potential and the
normal component of `eps E` are continuous at every interface.  The core has no singular part.  A sphere in the
external potential `r^n Y_n` answers with `beta / r^(n+1) Y_n` outside: `-beta` is its static `2^n`-pole polarizability.
This file does not use the model or the wave problem.
-/

namespace MieDiff.Spec

/-- `A r^n + B / r^(n+1)`. -/
structure Pot where
  A : ℂ
  B : ℂ

noncomputable def Pot.val (P : Pot) (n : ℕ) (r : ℂ) : ℂ := P.A * r ^ n + P.B / r ^ (n + 1)

/-- The radial derivative. -/
noncomputable def Pot.der (P : Pot) (n : ℕ) (r : ℂ) : ℂ :=
  (n : ℂ) * P.A * r ^ (n - 1) - ((n : ℂ) + 1) * P.B / r ^ (n + 2)

/-- Continuity at radius `r` between permittivities `e` (inside) and `e'` (outside). -/
def StaticCont (n : ℕ) (e e' r : ℂ) (P P' : Pot) : Prop :=
  P.val n r = P'.val n r ∧ e * P.der n r = e' * P'.der n r

/-- `P` in the innermost listed layer and `out` in the host (permittivity `eh`) are connected through continuous
potentials.  `layers` lists `(eps_l, r_l)` from inside to outside. -/
def StaticChain (n : ℕ) (eh : ℂ) : Pot → List (ℂ × ℂ) → Pot → Prop
  | _, [], _ => False
  | P, [(e, r)], out => StaticCont n e eh r P out
  | P, (e, r) :: (e', r') :: rest, out =>
    ∃ P', StaticCont n e e' r P P' ∧ StaticChain n eh P' ((e', r') :: rest) out

/-- `beta` is the static response of degree `n` of the layered sphere. -/
def StaticSolves (n : ℕ) (eh : ℂ) (layers : List (ℂ × ℂ)) (beta : ℂ) : Prop :=
  ∃ core : Pot, core.B = 0 ∧ StaticChain n eh core layers ⟨1, beta⟩

/-- No potential without external field: the sphere has no static resonance of degree `n`. -/
def StaticRegular (n : ℕ) (eh : ℂ) (layers : List (ℂ × ℂ)) : Prop :=
  ∀ core out : Pot, core.B = 0 → StaticChain n eh core layers out → out.A = 0 → core.A = 0

/-- Clausius-Mossotti factor of a homogeneous sphere. -/
noncomputable def clausius (e eh : ℂ) : ℂ := (e - eh) / (e + 2 * eh)

/-- The same for a coated sphere: core `e1`, coat `e2`, volume fraction `f` of the core (Bohren & Huffman, eq. 5.36). -/
noncomputable def clausiusCoated (e1 e2 eh f : ℂ) : ℂ :=
  ((e2 - eh) * (e1 + 2 * e2) + f * (e1 - e2) * (eh + 2 * e2)) /
    ((e2 + 2 * eh) * (e1 + 2 * e2) + f * (2 * e2 - 2 * eh) * (e1 - e2))

end MieDiff.Spec
