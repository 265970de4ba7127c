import Verif.Model.GpmExtract
import Mathlib.Algebra.BigOperators.Intervals
import Mathlib.Algebra.Order.BigOperators.Group.Finset
import Mathlib.Tactic.Linarith
import Mathlib.Tactic.NormNum
import Mathlib.Tactic.FieldSimp
import Mathlib.Tactic.Ring
import Mathlib.Tactic.IntervalCases

/-! # The Halton sequence: range, distinct points, means, and the distance of its points from their mean -/

namespace MieDiff

theorem vanDerCorput_zero (b : ℕ) : vanDerCorput b 0 = 0 := by simp [vanDerCorput]

theorem vanDerCorput_step {b : ℕ} (hb : 2 ≤ b) (k : ℕ) :
    vanDerCorput b k = (((k % b : ℕ) : ℚ) + vanDerCorput b (k / b)) / b := by
  rcases Nat.eq_zero_or_pos k with rfl | hk
  · simp [vanDerCorput_zero]
  · unfold vanDerCorput
    rw [Nat.digits_def' (by omega) hk]
    rfl

theorem vanDerCorput_range {b : ℕ} (hb : 2 ≤ b) (k : ℕ) : 0 ≤ vanDerCorput b k ∧ vanDerCorput b k < 1 := by
  induction k using Nat.strong_induction_on with
  | _ k ih =>
    rcases Nat.eq_zero_or_pos k with rfl | hk
    · simp [vanDerCorput_zero]
    · obtain ⟨h0, h1⟩ := ih (k / b) (Nat.div_lt_self hk (by omega))
      have hd : ((k % b : ℕ) : ℚ) + 1 ≤ b := by exact_mod_cast Nat.mod_lt k (by omega)
      have hb0 : (0 : ℚ) < b := by exact_mod_cast (by omega : 0 < b)
      rw [vanDerCorput_step hb k]
      exact ⟨by positivity, by rw [div_lt_one hb0]; linarith⟩

theorem vanDerCorput_digit {b : ℕ} (hb : 2 ≤ b) (q : ℕ) {i : ℕ} (hi : i < b) :
    vanDerCorput b (b * q + i) = (i + vanDerCorput b q) / b := by
  rw [vanDerCorput_step hb, Nat.mul_add_mod, Nat.mod_eq_of_lt hi, Nat.mul_add_div (by omega), Nat.div_eq_of_lt hi, Nat.add_zero]

theorem vanDerCorput_injective {b : ℕ} (hb : 2 ≤ b) : Function.Injective (vanDerCorput b) := by
  intro k
  induction k using Nat.strong_induction_on with
  | _ k ih =>
    intro l hkl
    rcases Nat.eq_zero_or_pos k with rfl | hk
    · -- a positive number has a positive fraction
      by_contra hl
      have hpos : ∀ m, 0 < m → 0 < vanDerCorput b m := by
        intro m
        induction m using Nat.strong_induction_on with
        | _ m ihm =>
          intro hm
          have hb0 : (0 : ℚ) < b := by exact_mod_cast (by omega : 0 < b)
          rw [vanDerCorput_step hb m]
          apply div_pos _ hb0
          rcases Nat.eq_zero_or_pos (m / b) with h | h
          · have : 0 < m % b := by
              have := Nat.div_add_mod m b
              rw [h] at this
              omega
            have h1 : (0 : ℚ) < ((m % b : ℕ) : ℚ) := by exact_mod_cast this
            linarith [(vanDerCorput_range hb (m / b)).1]
          · have := ihm _ (Nat.div_lt_self hm (by omega)) h
            positivity
      have := hpos l (by omega)
      rw [← hkl, vanDerCorput_zero] at this
      exact lt_irrefl _ this
    · rw [vanDerCorput_step hb k, vanDerCorput_step hb l] at hkl
      have hb0 : (b : ℚ) ≠ 0 := by exact_mod_cast (by omega : b ≠ 0)
      have h := (div_left_inj' hb0).mp hkl
      have rk := vanDerCorput_range hb (k / b)
      have rl := vanDerCorput_range hb (l / b)
      have hd : k % b = l % b := by
        rcases lt_trichotomy (k % b) (l % b) with h' | h' | h'
        · have : ((k % b : ℕ) : ℚ) + 1 ≤ ((l % b : ℕ) : ℚ) := by exact_mod_cast h'
          linarith
        · exact h'
        · have : ((l % b : ℕ) : ℚ) + 1 ≤ ((k % b : ℕ) : ℚ) := by exact_mod_cast h'
          linarith
      rw [hd] at h
      have hq := ih _ (Nat.div_lt_self hk (by omega)) (add_left_cancel h)
      rw [← Nat.div_add_mod k b, ← Nat.div_add_mod l b, hd, hq]

/-- Bounds of a sum when every full block of `B` terms contributes between `c` and `c + 1`, and no term is outside `[0, 1]`. -/
theorem block_bounds {f : ℕ → ℚ} {B : ℕ} {c : ℚ} (hf : ∀ k, 0 ≤ f k ∧ f k ≤ 1)
    (hB : ∀ q, c ≤ ∑ i ∈ Finset.range B, f (B * q + i) ∧ ∑ i ∈ Finset.range B, f (B * q + i) ≤ c + 1) (q r : ℕ) :
    c * q ≤ ∑ k ∈ Finset.range (B * q + r), f k ∧ ∑ k ∈ Finset.range (B * q + r), f k ≤ (c + 1) * q + r := by
  have full : ∀ q : ℕ, c * q ≤ ∑ k ∈ Finset.range (B * q), f k ∧ ∑ k ∈ Finset.range (B * q), f k ≤ (c + 1) * q := by
    intro q
    induction q with
    | zero => simp
    | succ q ih =>
      rw [Nat.mul_succ, Finset.sum_range_add]
      push_cast
      constructor
      · nlinarith [(hB q).1, ih.1]
      · nlinarith [(hB q).2, ih.2]
  rw [Finset.sum_range_add]
  have h0 : 0 ≤ ∑ i ∈ Finset.range r, f (B * q + i) := Finset.sum_nonneg fun i _ => (hf _).1
  have h1 : ∑ i ∈ Finset.range r, f (B * q + i) ≤ r := by
    calc _ ≤ ∑ i ∈ Finset.range r, (1 : ℚ) := Finset.sum_le_sum fun i _ => (hf _).2
      _ = r := by simp
  exact ⟨by linarith [(full q).1], by linarith [(full q).2]⟩

theorem block2 (q : ℕ) : (7 / 2 : ℚ) ≤ ∑ i ∈ Finset.range 8, vanDerCorput 2 (8 * q + i) ∧
    ∑ i ∈ Finset.range 8, vanDerCorput 2 (8 * q + i) ≤ 7 / 2 + 1 := by
  have d := fun (q i : ℕ) (hi : i < 2) => vanDerCorput_digit (b := 2) le_rfl q hi
  have e : ∀ a b c : ℕ, a < 2 → b < 2 → c < 2 →
      vanDerCorput 2 (8 * q + (4 * a + 2 * b + c)) = (c + (b + (a + vanDerCorput 2 q) / 2) / 2) / 2 := by
    intro a b c ha hb hc
    rw [show 8 * q + (4 * a + 2 * b + c) = 2 * (2 * (2 * q + a) + b) + c by ring, d _ _ hc, d _ _ hb, d _ _ ha]
    norm_num
  have r := vanDerCorput_range (b := 2) le_rfl q
  have h0 := e 0 0 0 (by norm_num) (by norm_num) (by norm_num)
  have h1 := e 0 0 1 (by norm_num) (by norm_num) (by norm_num)
  have h2 := e 0 1 0 (by norm_num) (by norm_num) (by norm_num)
  have h3 := e 0 1 1 (by norm_num) (by norm_num) (by norm_num)
  have h4 := e 1 0 0 (by norm_num) (by norm_num) (by norm_num)
  have h5 := e 1 0 1 (by norm_num) (by norm_num) (by norm_num)
  have h6 := e 1 1 0 (by norm_num) (by norm_num) (by norm_num)
  have h7 := e 1 1 1 (by norm_num) (by norm_num) (by norm_num)
  norm_num at h0 h1 h2 h3 h4 h5 h6 h7
  simp only [Finset.sum_range_succ, Finset.sum_range_zero, Nat.add_zero]
  rw [h0, h1, h2, h3, h4, h5, h6, h7]
  constructor <;> linarith [r.1, r.2]

theorem block3 (q : ℕ) : (4 : ℚ) ≤ ∑ i ∈ Finset.range 9, vanDerCorput 3 (9 * q + i) ∧
    ∑ i ∈ Finset.range 9, vanDerCorput 3 (9 * q + i) ≤ 4 + 1 := by
  have d := fun (q i : ℕ) (hi : i < 3) => vanDerCorput_digit (b := 3) (by norm_num) q hi
  have e : ∀ a b : ℕ, a < 3 → b < 3 → vanDerCorput 3 (9 * q + (3 * a + b)) = (b + (a + vanDerCorput 3 q) / 3) / 3 := by
    intro a b ha hb
    rw [show 9 * q + (3 * a + b) = 3 * (3 * q + a) + b by ring, d _ _ hb, d _ _ ha]
    norm_num
  have r := vanDerCorput_range (b := 3) (by norm_num) q
  have h0 := e 0 0 (by norm_num) (by norm_num)
  have h1 := e 0 1 (by norm_num) (by norm_num)
  have h2 := e 0 2 (by norm_num) (by norm_num)
  have h3 := e 1 0 (by norm_num) (by norm_num)
  have h4 := e 1 1 (by norm_num) (by norm_num)
  have h5 := e 1 2 (by norm_num) (by norm_num)
  have h6 := e 2 0 (by norm_num) (by norm_num)
  have h7 := e 2 1 (by norm_num) (by norm_num)
  have h8 := e 2 2 (by norm_num) (by norm_num)
  norm_num at h0 h1 h2 h3 h4 h5 h6 h7 h8
  simp only [Finset.sum_range_succ, Finset.sum_range_zero, Nat.add_zero]
  rw [h0, h1, h2, h3, h4, h5, h6, h7, h8]
  constructor <;> linarith [r.1, r.2]

theorem block5 (q : ℕ) : (2 : ℚ) ≤ ∑ i ∈ Finset.range 5, vanDerCorput 5 (5 * q + i) ∧
    ∑ i ∈ Finset.range 5, vanDerCorput 5 (5 * q + i) ≤ 2 + 1 := by
  have d := fun (i : ℕ) (hi : i < 5) => vanDerCorput_digit (b := 5) (by norm_num) q hi
  have r := vanDerCorput_range (b := 5) (by norm_num) q
  have h0 := d 0 (by norm_num)
  have h1 := d 1 (by norm_num)
  have h2 := d 2 (by norm_num)
  have h3 := d 3 (by norm_num)
  have h4 := d 4 (by norm_num)
  norm_num at h0 h1 h2 h3 h4
  simp only [Finset.sum_range_succ, Finset.sum_range_zero, Nat.add_zero]
  rw [h0, h1, h2, h3, h4]
  constructor <;> linarith [r.1, r.2]

/-- From 36 points on the mean of every coordinate is between 0.353 and 0.647. -/
theorem mean_bounds {f : ℕ → ℚ} {B : ℕ} {c : ℚ} (hf : ∀ k, 0 ≤ f k ∧ f k ≤ 1)
    (hB : ∀ q, c ≤ ∑ i ∈ Finset.range B, f (B * q + i) ∧ ∑ i ∈ Finset.range B, f (B * q + i) ≤ c + 1) (hB0 : 0 < B)
    (hc : 2 * c + 1 = B) {q₀ n : ℕ} (hn : B * q₀ ≤ n) (hq : 353 * (B * q₀ + (B - 1)) ≤ 1000 * c * q₀)
    (hcB : 353 * (B : ℚ) ≤ 1000 * c) (hn0 : 0 < n) :
    353 / 1000 ≤ (∑ k ∈ Finset.range n, f k) / n ∧ (∑ k ∈ Finset.range n, f k) / n ≤ 647 / 1000 := by
  have h := block_bounds hf hB (n / B) (n % B)
  rw [Nat.div_add_mod] at h
  have hnn : (0 : ℚ) < n := by exact_mod_cast hn0
  have e : (n : ℚ) = B * (n / B : ℕ) + (n % B : ℕ) := by exact_mod_cast (Nat.div_add_mod n B).symm
  have hr : ((n % B : ℕ) : ℚ) + 1 ≤ B := by exact_mod_cast Nat.mod_lt n hB0
  have hq1 : (q₀ : ℚ) ≤ (n / B : ℕ) := by exact_mod_cast (Nat.le_div_iff_mul_le hB0).mpr (by rw [mul_comm]; exact hn)
  rw [le_div_iff₀ hnn, div_le_iff₀ hnn]
  have hs : (0 : ℚ) ≤ (1000 * c - 353 * B) * ((n / B : ℕ) - q₀) := mul_nonneg (by linarith) (by linarith)
  have hc' : (c : ℚ) = (B - 1) / 2 := by linarith
  constructor
  · nlinarith [h.1]
  · nlinarith [h.2]

/-- Sum of the coordinates of the first `n` points, by a loop. -/
def vdcSum (b n : ℕ) : ℚ := ((List.range n).map (vanDerCorput b)).sum

/-- `169 |p_k - mean|² ≤ 100 |p_j|²` for some `j`, tested for all points up to a number. -/
def haltonTest (n : ℕ) : Bool :=
  let m2 := vdcSum 2 n / n
  let m3 := vdcSum 3 n / n
  let m5 := vdcSum 5 n / n
  (List.range n).all fun k =>
    let d := 169 * ((vanDerCorput 2 k - m2) ^ 2 + (vanDerCorput 3 k - m3) ^ 2 + (vanDerCorput 5 k - m5) ^ 2)
    (List.range n).any fun j => decide (d ≤ 100 * (vanDerCorput 2 j ^ 2 + vanDerCorput 3 j ^ 2 + vanDerCorput 5 j ^ 2))

theorem haltonTest_small : (List.range 36).all haltonTest = true := by decide +kernel

theorem sum_map_range (f : ℕ → ℚ) (n : ℕ) : ((List.range n).map f).sum = ∑ k ∈ Finset.range n, f k := by
  induction n with
  | zero => simp
  | succ n ih => rw [List.range_succ, List.map_append, List.sum_append, ih, Finset.sum_range_succ]; simp

/-- 1.3 times the distance of a point from the mean of all is at most the largest distance of a point from the origin. -/
theorem halton_spread {n k : ℕ} (hk : k < n) : ∃ j < n,
    169 * ((vanDerCorput 2 k - (∑ i ∈ Finset.range n, vanDerCorput 2 i) / n) ^ 2
      + (vanDerCorput 3 k - (∑ i ∈ Finset.range n, vanDerCorput 3 i) / n) ^ 2
      + (vanDerCorput 5 k - (∑ i ∈ Finset.range n, vanDerCorput 5 i) / n) ^ 2)
    ≤ 100 * (vanDerCorput 2 j ^ 2 + vanDerCorput 3 j ^ 2 + vanDerCorput 5 j ^ 2) := by
  rcases lt_or_ge n 36 with hn | hn
  · have h := List.all_eq_true.mp haltonTest_small n (List.mem_range.mpr hn)
    have h := List.all_eq_true.mp h k (List.mem_range.mpr hk)
    obtain ⟨j, hj, h⟩ := List.any_eq_true.mp h
    refine ⟨j, List.mem_range.mp hj, ?_⟩
    have h := of_decide_eq_true h
    simpa only [vdcSum, sum_map_range] using h
  · refine ⟨23, by omega, ?_⟩
    have r : ∀ b, 2 ≤ b → ∀ k, 0 ≤ vanDerCorput b k ∧ vanDerCorput b k ≤ 1 :=
      fun b hb k => ⟨(vanDerCorput_range hb k).1, (vanDerCorput_range hb k).2.le⟩
    have m2 := mean_bounds (r 2 le_rfl) block2 (by norm_num) (by norm_num) (q₀ := 4) (n := n) (by omega) (by norm_num) (by norm_num)
      (by omega)
    have m3 := mean_bounds (r 3 (by norm_num)) block3 (by norm_num) (by norm_num) (q₀ := 4) (n := n) (by omega) (by norm_num)
      (by norm_num) (by omega)
    have m5 := mean_bounds (r 5 (by norm_num)) block5 (by norm_num) (by norm_num) (q₀ := 7) (n := n) (by omega) (by norm_num)
      (by norm_num) (by omega)
    have sq : ∀ {x m : ℚ}, 0 ≤ x ∧ x ≤ 1 → 353 / 1000 ≤ m ∧ m ≤ 647 / 1000 → (x - m) ^ 2 ≤ (647 / 1000) ^ 2 := by
      intro x m hx hm
      exact sq_le_sq' (by linarith) (by linarith)
    have v2 : vanDerCorput 2 23 = 29 / 32 := by decide +kernel
    have v3 : vanDerCorput 3 23 = 23 / 27 := by decide +kernel
    have v5 : vanDerCorput 5 23 = 19 / 25 := by decide +kernel
    rw [v2, v3, v5]
    have s2 := sq (r 2 le_rfl k) m2
    have s3 := sq (r 3 (by norm_num) k) m3
    have s5 := sq (r 5 (by norm_num) k) m5
    norm_num at s2 s3 s5 ⊢
    linarith

end MieDiff
