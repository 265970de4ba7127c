import Verif.Model.Ieee

/-!
# Overflow

`F.Limits A`: the operations of `F` are those of `A` except that results out of the range of double precision are not finite.
-/

namespace MieDiff

/-- In the range of double precision. -/
def InRange (z : ℂ) : Prop := |z.re| < 2 ^ 1024 ∧ |z.im| < 2 ^ 1024

/-- A finite result is the result of `A` and in range.  The quotient by a number whose parts are nan has nan parts, and a sum
with a nan in a real part has a nan real part. -/
structure FArith.Limits (F : FArith) (A : Arith) : Prop where
  mul : ∀ {a b c}, F.mul a b = FC.ofC c → c = A.mul a b ∧ InRange c
  add : ∀ {a b c}, F.add a b = FC.ofC c → c = A.add a b ∧ InRange c
  sub : ∀ {a b c}, F.sub a b = FC.ofC c → c = A.sub a b ∧ InRange c
  div : ∀ {a b c}, F.div a b = FC.ofC c → c = A.div a b ∧ InRange c
  abs : ∀ a, |A.abs a| < 2 ^ 1024 → F.abs a = .fin (A.abs a)
  div_nan : ∀ x, F.divS x FC.nan = FC.nan
  sum_nan : ∀ l : List FC, (∃ x ∈ l, x.re = .nan) → (F.sum l).re = .nan

/-- Range check of a real number. -/
noncomputable def chkR (x : ℝ) : Fl := if |x| < 2 ^ 1024 then .fin x else .inf (decide (x < 0))

/-- Range check of both parts. -/
noncomputable def chkC (z : ℂ) : FC := ⟨chkR z.re, chkR z.im⟩

open Classical in
/-- The arithmetic `A` with range checks. -/
noncomputable def Arith.limited (A : Arith) : FArith where
  addR x y := chkR (A.add x y).re
  subR x y := chkR (A.sub x y).re
  mulR x y := chkR (A.mul x y).re
  divR x y := chkR (A.div x y).re
  add a b := chkC (A.add a b)
  sub a b := chkC (A.sub a b)
  mul a b := chkC (A.mul a b)
  div a b := chkC (A.div a b)
  abs a := chkR (A.abs a)
  divS _ _ := FC.nan
  sum l := if ∀ x ∈ l, x.val ≠ none then chkC (A.sum (l.filterMap FC.val)) else FC.nan

end MieDiff
