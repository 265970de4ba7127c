import Verif.Model.Backward
import Verif.Model.BackwardShell

/-!
# Reverse-mode differentiation of `angular_scattering`

The operations of `pi_tau` and `angular_scattering` with the backward formulas of Model/Backward.  The scattering angle may require a gradient
too.  Simplifications as there (values by order instead of lists).
-/

namespace MieDiff

open Complex

namespace Node

variable {V : Type*} [AddCommGroup V]

/-- special.py:1104-1110 the loop of `pi_tau` for `pi_n`. -/
noncomputable def piN (mu : Node V) : ℕ → Node V
  | 0 => const 0
  | 1 => const 1
  | k + 2 =>
    div (sub (mul (mul (const ((2 * (k + 1) + 1 : ℕ) : ℂ)) mu) (piN mu (k + 1))) (mul (const (((k + 1) + 1 : ℕ) : ℂ)) (piN mu k)))
      (const ((k + 1 : ℕ) : ℂ))

/-- special.py:1112-1115 the loop of `pi_tau` for `tau_n`. -/
noncomputable def tauN (mu : Node V) : ℕ → Node V
  | 0 => const 0
  | k + 1 => sub (mul (mul (const ((k + 1 : ℕ) : ℂ)) mu) (piN mu (k + 1))) (mul (const (((k + 1) + 1 : ℕ) : ℂ)) (piN mu k))

/-- multishell.py:980-990 the results. -/
structure Angular (V : Type*) where
  S1 : Node V
  S2 : Node V
  iPer : Node V
  iPar : Node V
  iUnpol : Node V
  polDegree : Node V

/-- multishell.py:970-971: `torch.sum(((2*n+1)/(n*(n+1))) * (u_n * p_n + v_n * q_n), dim=0)`. -/
noncomputable def ampSum (n : ℕ) (u v p q : ℕ → Node V) : Node V :=
  sum ((List.range n).map fun i =>
    let m : ℂ := ((i : ℕ) : ℂ) + 1
    mul (const ((2 * m + 1) / (m * (m + 1)))) (add (mul (u (i + 1)) (p (i + 1))) (mul (v (i + 1)) (q (i + 1)))))

/-- multishell.py:944-990 from the coefficients `c` of a backend. -/
noncomputable def angularOf (n : ℕ) (theta : Node V) (c : ℕ → Node V × Node V) : Angular V :=
  let mu := cos theta
  let a := fun i => (c i).1
  let b := fun i => (c i).2
  let s1 := ampSum n a b (piN mu) (tauN mu)
  let s2 := ampSum n a b (tauN mu) (piN mu)
  let iPer := absSq s1
  let iPar := absSq s2
  { S1 := s1
    S2 := s2
    iPer := iPer
    iPar := iPar
    iUnpol := div (add iPar iPer) (const 2)
    polDegree := div (sub iPer iPar) (add iPer iPar) }

end Node

end MieDiff
