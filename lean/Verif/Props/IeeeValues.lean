import Verif.Model.Ieee

/-!
# C90: the special values of double precision
-/

namespace MieDiff

open Filter Topology

/-- Specification: the real numbers close to a number of double precision, none for nan. -/
def Fl.near : Fl → Filter ℝ
  | .fin x => 𝓝 x
  | .inf false => atTop
  | .inf true => atBot
  | .nan => ⊥

/-- Specification: `r` is what IEEE 754 prescribes for an operation with an infinite operand: the limit, or nan if `undef` holds. -/
def IeeeLimit (op : ℝ → ℝ → ℝ) (x y r : Fl) (undef : Prop) : Prop :=
  (r = .nan ↔ x = .nan ∨ y = .nan ∨ undef) ∧ (r ≠ .nan → Tendsto (fun p : ℝ × ℝ => op p.1 p.2) (x.near ×ˢ y.near) r.near)

/-- C90: sums, differences, products and quotients with an infinite operand are the limits of the exact operation, and nan only for
`inf - inf`, `0 * inf` and `inf / inf`.  The sign of `inf / 0` is left out, as the model has no signed zeros. -/
theorem C90_special_values (F : FArith) (x y : Fl) (h : ∀ a b, ¬(x = .fin a ∧ y = .fin b)) :
    IeeeLimit (· + ·) x y (F.addF x y) (∃ s, x = .inf s ∧ y = .inf !s) ∧
    IeeeLimit (· - ·) x y (F.subF x y) (∃ s, x = .inf s ∧ y = .inf s) ∧
    IeeeLimit (· * ·) x y (F.mulF x y) ((x = .fin 0 ∧ ∃ s, y = .inf s) ∨ (y = .fin 0 ∧ ∃ s, x = .inf s)) ∧
    (y ≠ .fin 0 → IeeeLimit (· / ·) x y (F.divF x y) ((∃ s, x = .inf s) ∧ ∃ s, y = .inf s)) := by
  have fst : ∀ {f g : Filter ℝ}, Tendsto (fun p : ℝ × ℝ => p.1) (f ×ˢ g) f := by intro f g; exact tendsto_fst
  have snd : ∀ {f g : Filter ℝ}, Tendsto (fun p : ℝ × ℝ => p.2) (f ×ˢ g) g := by intro f g; exact tendsto_snd
  refine ⟨?_, ?_, ?_, fun hy => ?_⟩
  · rcases x with a | (_ | _) | _ <;> rcases y with b | (_ | _) | _ <;> refine ⟨?_, ?_⟩ <;> simp [FArith.addF, Fl.near] at h ⊢
    · exact fst.add_atTop snd
    · exact fst.add_atBot snd
    · exact fst.atTop_add snd
    · exact fst.atTop_add_atTop snd
    · exact fst.atBot_add snd
    · exact fst.atBot_add_atBot snd
  · rcases x with a | (_ | _) | _ <;> rcases y with b | (_ | _) | _ <;> refine ⟨?_, ?_⟩ <;> simp [FArith.subF, Fl.near] at h ⊢ <;>
      simp only [sub_eq_add_neg]
    · exact fst.add_atBot (tendsto_neg_atTop_atBot.comp snd)
    · exact fst.add_atTop (tendsto_neg_atBot_atTop.comp snd)
    · exact fst.atTop_add snd.neg
    · exact fst.atTop_add_atTop (tendsto_neg_atBot_atTop.comp snd)
    · exact fst.atBot_add snd.neg
    · exact fst.atBot_add_atBot (tendsto_neg_atTop_atBot.comp snd)
  · rcases x with a | (_ | _) | _ <;> rcases y with b | (_ | _) | _ <;> simp [IeeeLimit, FArith.mulF, FArith.mulInf, FArith.sign, Fl.near] at h ⊢
    · rcases lt_trichotomy a 0 with ha | rfl | ha
      · simp [ha.ne, ha]
        exact fst.neg_mul_atTop ha snd
      · simp
      · simp [ha.ne', ha.not_gt]
        exact fst.pos_mul_atTop ha snd
    · rcases lt_trichotomy a 0 with ha | rfl | ha
      · simp [ha.ne, ha]
        exact fst.neg_mul_atBot ha snd
      · simp
      · simp [ha.ne', ha.not_gt]
        exact fst.pos_mul_atBot ha snd
    · rcases lt_trichotomy b 0 with ha | rfl | ha
      · simp [ha.ne, ha]
        exact fst.atTop_mul_neg ha snd
      · simp
      · simp [ha.ne', ha.not_gt]
        exact fst.atTop_mul_pos ha snd
    · exact fst.atTop_mul_atTop₀ snd
    · exact fst.atTop_mul_atBot₀ snd
    · rcases lt_trichotomy b 0 with ha | rfl | ha
      · simp [ha.ne, ha]
        exact fst.atBot_mul_neg ha snd
      · simp
      · simp [ha.ne', ha.not_gt]
        exact fst.atBot_mul_pos ha snd
    · exact fst.atBot_mul_atTop₀ snd
    · exact fst.atBot_mul_atBot₀ snd
  · rcases x with a | (_ | _) | _ <;> rcases y with b | (_ | _) | _ <;> simp [IeeeLimit, FArith.divF, Fl.near] at h hy ⊢
    · exact fst.div_atTop snd
    · exact fst.div_atBot snd
    · rcases lt_or_gt_of_ne hy with hb | hb
      · simp only [div_eq_mul_inv, hb]
        simpa using fst.atTop_mul_neg (inv_lt_zero.2 hb) (snd.inv₀ hb.ne)
      · simp only [div_eq_mul_inv, hb.not_gt]
        simpa using fst.atTop_mul_pos (inv_pos.2 hb) (snd.inv₀ hb.ne')
    · rcases lt_or_gt_of_ne hy with hb | hb
      · simp only [div_eq_mul_inv, hb]
        simpa using fst.atBot_mul_neg (inv_lt_zero.2 hb) (snd.inv₀ hb.ne)
      · simp only [div_eq_mul_inv, hb.not_gt]
        simpa using fst.atBot_mul_pos (inv_pos.2 hb) (snd.inv₀ hb.ne')

/-- C90: the modulus of a complex number is infinite as soon as one part is (also next to nan), and nan if one part is nan and none infinite;
the guard of the solver then leaves the number alone. -/
theorem C90_abs (F : FArith) (v : FC) :
    ((∃ s, v.re = .inf s) ∨ (∃ s, v.im = .inf s) → F.absC v = .inf false ∧ F.guardC v = v) ∧
    (v.re = .nan ∧ (∀ s, v.im ≠ .inf s) ∨ v.im = .nan ∧ (∀ s, v.re ≠ .inf s) → F.absC v = .nan ∧ F.guardC v = v) := by
  rcases v with ⟨a | s | _, b | t | _⟩ <;> simp [FArith.absC, FArith.guardC]

example (a b : ℝ) : ¬((Fl.inf true) = .fin a ∧ (Fl.fin 2) = .fin b) := by simp

end MieDiff
