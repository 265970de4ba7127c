import Verif.Spec.Rounding
import Mathlib.Data.Int.Log

/-!
# Double precision numbers

Numbers with a 53 bit significand (the range of the exponent is not limited), and an arithmetic whose results on real arguments are
such numbers.
-/

namespace MieDiff

/-- `m * 2^e` with `|m| < 2^53`. -/
def IsDouble (x : ℝ) : Prop := ∃ m e : ℤ, |m| < 2 ^ 53 ∧ x = m * (2 : ℝ) ^ e

structure Arith.Double (A : Arith) : Prop where
  add : ∀ x y : ℝ, ∃ r : ℝ, IsDouble r ∧ A.add x y = r
  sub : ∀ x y : ℝ, ∃ r : ℝ, IsDouble r ∧ A.sub x y = r
  mul : ∀ x y : ℝ, ∃ r : ℝ, IsDouble r ∧ A.mul x y = r
  div : ∀ x y : ℝ, y ≠ 0 → ∃ r : ℝ, IsDouble r ∧ A.div x y = r

/-- Rounding to the nearest double, `m` halves rounded up. -/
noncomputable def rnd (x : ℝ) : ℝ :=
  let s : ℝ := (2 : ℝ) ^ (Int.log 2 |x| - 52)
  round (x / s) * s

/-- Componentwise rounding. -/
noncomputable def rndC (z : ℂ) : ℂ := ⟨rnd z.re, rnd z.im⟩

/-- Every operation is the exact one followed by rounding of real and imaginary part. -/
noncomputable def doubleArith : Arith where
  add x y := rndC (x + y)
  sub x y := rndC (x - y)
  mul x y := rndC (x * y)
  div x y := rndC (x / y)
  exp x := rndC (Complex.exp x)
  sin x := rndC (Complex.sin x)
  cos x := rndC (Complex.cos x)
  sqrt x := rndC (csqrt x)
  abs x := rnd ‖x‖
  pi := rnd Real.pi
  sum l := rndC l.sum

end MieDiff
