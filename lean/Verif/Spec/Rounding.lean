import Verif.Model.Rounded

/-!
# Arithmetic with relative error `u`

What is assumed of floating point arithmetic: the result of every operation is the exact result up to a relative error `u`, measured
by the absolute value of the complex number.  Rounding to nearest without overflow or underflow satisfies this with `u` a small
multiple of the unit roundoff.  The bound for `sum` holds for every order of summation.
-/

namespace MieDiff

structure Arith.Within (A : Arith) (u : ℝ) : Prop where
  add : ∀ x y, ‖A.add x y - (x + y)‖ ≤ u * ‖x + y‖
  sub : ∀ x y, ‖A.sub x y - (x - y)‖ ≤ u * ‖x - y‖
  mul : ∀ x y, ‖A.mul x y - x * y‖ ≤ u * ‖x * y‖
  div : ∀ x y, y ≠ 0 → ‖A.div x y - x / y‖ ≤ u * ‖x / y‖
  exp : ∀ x, ‖A.exp x - Complex.exp x‖ ≤ u * ‖Complex.exp x‖
  sin : ∀ x, ‖A.sin x - Complex.sin x‖ ≤ u * ‖Complex.sin x‖
  cos : ∀ x, ‖A.cos x - Complex.cos x‖ ≤ u * ‖Complex.cos x‖
  sqrt : ∀ x, ‖A.sqrt x - csqrt x‖ ≤ u * ‖csqrt x‖
  abs : ∀ x, |A.abs x - ‖x‖| ≤ u * ‖x‖
  pi : |A.pi - Real.pi| ≤ u * Real.pi
  sum : ∀ l : List ℂ, ‖A.sum l - l.sum‖ ≤ u * l.length * (l.map fun x => ‖x‖).sum

end MieDiff
