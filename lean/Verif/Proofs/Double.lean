import Verif.Spec.Double
import Mathlib.Analysis.SpecialFunctions.Trigonometric.Bounds

/-!
# Rounding to doubles
-/

namespace MieDiff

open Complex

theorem isDouble_le {x : ℝ} {m e : ℤ} (hm : |m| ≤ 2 ^ 53) (hx : x = m * (2 : ℝ) ^ e) : IsDouble x := by
  rcases lt_or_eq_of_le hm with h | h
  · exact ⟨m, e, h, hx⟩
  · have e1 : (2 : ℝ) ^ (e + 1) = 2 ^ e * 2 := zpow_add_one₀ (by norm_num) e
    rcases abs_eq (by norm_num : (0 : ℤ) ≤ 2 ^ 53) |>.1 h with rfl | rfl
    · exact ⟨2 ^ 52, e + 1, by norm_num, by rw [hx, e1]; push_cast; ring⟩
    · exact ⟨-2 ^ 52, e + 1, by norm_num, by rw [hx, e1]; push_cast; ring⟩

/-- A double of at least `2^52 s`, `s` a power of two, is a multiple of `s`. -/
theorem IsDouble.grid {x : ℝ} (h : IsDouble x) {e : ℤ} (hx : (2 : ℝ) ^ (52 + e) ≤ |x|) : ∃ k : ℤ, x = k * (2 : ℝ) ^ e := by
  obtain ⟨m, f, hm, rfl⟩ := h
  have hm' : (|(m : ℝ)|) < 2 ^ (53 : ℤ) := by
    have : ((|m| : ℤ) : ℝ) < ((2 ^ 53 : ℤ) : ℝ) := Int.cast_lt.2 hm
    rw [Int.cast_abs] at this
    norm_num at this ⊢
    exact this
  have hp : (0 : ℝ) < (2 : ℝ) ^ f := by positivity
  rw [abs_mul, abs_of_pos hp] at hx
  have h1 : (2 : ℝ) ^ (52 + e) < 2 ^ (53 + f) := by
    rw [zpow_add₀ (by norm_num : (2 : ℝ) ≠ 0) 53 f]
    exact lt_of_le_of_lt hx (by gcongr)
  have h2 : 52 + e < 53 + f := (zpow_lt_zpow_iff_right₀ (by norm_num : (1 : ℝ) < 2)).1 h1
  obtain ⟨d, hd⟩ : ∃ d : ℕ, f = e + d := ⟨(f - e).toNat, by omega⟩
  refine ⟨m * 2 ^ d, ?_⟩
  rw [hd, zpow_add₀ (by norm_num : (2 : ℝ) ≠ 0), zpow_natCast]
  push_cast
  ring

theorem rnd_scale {x : ℝ} (hx : x ≠ 0) : (2 : ℝ) ^ (52 + (Int.log 2 |x| - 52)) ≤ |x| ∧ |x| < 2 ^ (53 + (Int.log 2 |x| - 52)) := by
  have hp : 0 < |x| := abs_pos.2 hx
  have h1 := Int.zpow_log_le_self (R := ℝ) (b := 2) (by norm_num) hp
  have h2 := Int.lt_zpow_succ_log_self (R := ℝ) (b := 2) (by norm_num) |x|
  push_cast at h1 h2
  refine ⟨?_, ?_⟩
  · rw [show 52 + (Int.log 2 |x| - 52) = Int.log 2 |x| by ring]; exact h1
  · rw [show 53 + (Int.log 2 |x| - 52) = Int.log 2 |x| + 1 by ring]; exact h2

theorem rnd_zero : rnd 0 = 0 := by simp [rnd]

theorem rnd_near (x : ℝ) : |rnd x - x| ≤ 2⁻¹ ^ 53 * |x| := by
  rcases eq_or_ne x 0 with rfl | hx
  · simp [rnd_zero]
  · obtain ⟨h1, -⟩ := rnd_scale hx
    set e := Int.log 2 |x| - 52 with he
    have hs : (0 : ℝ) < (2 : ℝ) ^ e := by positivity
    have e1 : rnd x - x = (round (x / 2 ^ e) - x / 2 ^ e) * 2 ^ e := by
      unfold rnd
      simp only [← he]
      rw [sub_mul, div_mul_cancel₀ _ hs.ne']
    rw [e1, abs_mul, abs_of_pos hs]
    have h2 : |(round (x / 2 ^ e) : ℝ) - x / 2 ^ e| ≤ 1 / 2 := by rw [abs_sub_comm]; exact abs_sub_round _
    rw [zpow_add₀ (by norm_num : (2 : ℝ) ≠ 0)] at h1
    have h3 : (2 : ℝ) ^ e ≤ 2⁻¹ ^ 52 * |x| := by
      have : (2 : ℝ) ^ (52 : ℤ) = 2 ^ 52 := by norm_cast
      rw [this] at h1
      calc (2 : ℝ) ^ e = 2⁻¹ ^ 52 * (2 ^ 52 * 2 ^ e) := by rw [inv_pow, inv_mul_cancel_left₀ (by positivity)]
        _ ≤ _ := by gcongr
    have := mul_le_mul h2 h3 hs.le (by norm_num)
    refine this.trans (le_of_eq ?_)
    rw [pow_succ]; ring

theorem rnd_double (x : ℝ) : IsDouble (rnd x) := by
  rcases eq_or_ne x 0 with rfl | hx
  · exact ⟨0, 0, by norm_num, by simp [rnd_zero]⟩
  · obtain ⟨-, h2⟩ := rnd_scale hx
    set e := Int.log 2 |x| - 52 with he
    have hs : (0 : ℝ) < (2 : ℝ) ^ e := by positivity
    refine isDouble_le (m := round (x / 2 ^ e)) (e := e) ?_ (by unfold rnd; simp only [← he])
    have h3 : |x / 2 ^ e| < 2 ^ 53 := by
      rw [abs_div, abs_of_pos hs, div_lt_iff₀ hs]
      rw [zpow_add₀ (by norm_num : (2 : ℝ) ≠ 0)] at h2
      exact_mod_cast h2
    have h4 : |(round (x / 2 ^ e) : ℝ)| < 2 ^ 53 + 1 := by
      have := abs_sub_round (x / 2 ^ e)
      have h5 := abs_sub_abs_le_abs_sub (round (x / 2 ^ e) : ℝ) (x / 2 ^ e)
      rw [abs_sub_comm] at this
      linarith
    have : |round (x / 2 ^ e)| < 2 ^ 53 + 1 := by exact_mod_cast h4
    omega

theorem rnd_exact {x : ℝ} (h : IsDouble x) : rnd x = x := by
  rcases eq_or_ne x 0 with rfl | hx
  · exact rnd_zero
  · obtain ⟨h1, -⟩ := rnd_scale hx
    obtain ⟨k, hk⟩ := h.grid h1
    set e := Int.log 2 |x| - 52 with he
    have hs : (0 : ℝ) < (2 : ℝ) ^ e := by positivity
    unfold rnd
    simp only [← he]
    rw [show x / 2 ^ e = k by rw [hk]; field_simp, round_intCast, ← hk]

theorem rndC_ofReal (x : ℝ) : rndC x = (rnd x : ℂ) := by
  apply Complex.ext <;> simp [rndC, rnd_zero]

theorem rndC_near (z : ℂ) : ‖rndC z - z‖ ≤ 2⁻¹ ^ 53 * ‖z‖ := by
  have h1 := rnd_near z.re
  have h2 := rnd_near z.im
  have hu : (0 : ℝ) ≤ 2⁻¹ ^ 53 := by positivity
  generalize (2⁻¹ : ℝ) ^ 53 = u at h1 h2 hu ⊢
  refine abs_le_of_sq_le_sq' ?_ (mul_nonneg hu (norm_nonneg _)) |>.2
  rw [mul_pow, Complex.sq_norm, Complex.sq_norm, Complex.normSq_apply, Complex.normSq_apply]
  show (rnd z.re - z.re) * (rnd z.re - z.re) + (rnd z.im - z.im) * (rnd z.im - z.im) ≤ _
  have k1 := pow_le_pow_left₀ (abs_nonneg _) h1 2
  have k2 := pow_le_pow_left₀ (abs_nonneg _) h2 2
  rw [sq_abs, mul_pow, sq_abs] at k1 k2
  nlinarith

/-- The rounded arithmetic has relative error `2^-53`. -/
theorem doubleArith_within : doubleArith.Within (2⁻¹ ^ 53) where
  add _ _ := rndC_near _
  sub _ _ := rndC_near _
  mul _ _ := rndC_near _
  div _ _ _ := rndC_near _
  exp _ := rndC_near _
  sin _ := rndC_near _
  cos _ := rndC_near _
  sqrt _ := rndC_near _
  abs z := by
    have := rnd_near ‖z‖
    rwa [abs_norm] at this
  pi := by
    have := rnd_near Real.pi
    rwa [abs_of_pos Real.pi_pos] at this
  sum l := by
    have hu : (0 : ℝ) ≤ 2⁻¹ ^ 53 := by positivity
    refine (rndC_near l.sum).trans ?_
    generalize (2⁻¹ : ℝ) ^ 53 = u at hu ⊢
    rcases l with _ | ⟨a, l⟩
    · simp
    · have h1 : ‖(a :: l).sum‖ ≤ ((a :: l).map fun x => ‖x‖).sum := List.le_sum_of_subadditive norm norm_zero.le norm_add_le _
      have h2 : (1 : ℝ) ≤ (a :: l).length := by simp
      have h3 : (0 : ℝ) ≤ ((a :: l).map fun x => ‖x‖).sum := (norm_nonneg _).trans h1
      rw [mul_assoc]
      gcongr
      nlinarith

theorem doubleArith_double : doubleArith.Double where
  add x y := ⟨rnd (x + y), rnd_double _, by
    show rndC ((x : ℂ) + y) = _
    rw [← ofReal_add, rndC_ofReal]⟩
  sub x y := ⟨rnd (x - y), rnd_double _, by
    show rndC ((x : ℂ) - y) = _
    rw [← ofReal_sub, rndC_ofReal]⟩
  mul x y := ⟨rnd (x * y), rnd_double _, by
    show rndC ((x : ℂ) * y) = _
    rw [← ofReal_mul, rndC_ofReal]⟩
  div x y _ := ⟨rnd (x / y), rnd_double _, by
    show rndC ((x : ℂ) / y) = _
    rw [← ofReal_div, rndC_ofReal]⟩

end MieDiff
