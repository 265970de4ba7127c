import Mathlib.Analysis.Asymptotics.Lemmas
import Mathlib.Analysis.SpecificLimits.Normed

/-!
# Sequences compared with geometric sequences

`SG f`: faster decay than every geometric sequence.  `GB f`: growth at most geometric.
-/

namespace MieDiff

open Filter Topology Asymptotics

/-- Decay faster than every geometric sequence. -/
def SG (f : ℕ → ℝ) : Prop := ∀ r : ℝ, 0 < r → f =O[atTop] fun n => r ^ n

/-- Growth at most geometric. -/
def GB (f : ℕ → ℝ) : Prop := ∃ q : ℝ, 0 < q ∧ f =O[atTop] fun n => q ^ n

theorem GB.mul {f g : ℕ → ℝ} (hf : GB f) (hg : GB g) : GB fun n => f n * g n := by
  obtain ⟨q, hq, h⟩ := hf
  obtain ⟨q', hq', h'⟩ := hg
  refine ⟨q * q', mul_pos hq hq', ?_⟩
  have := h.mul h'
  simpa only [← mul_pow] using this

theorem pow_bigO {a b : ℝ} (ha : 0 < a) (h : a ≤ b) : (fun n : ℕ => a ^ n) =O[atTop] fun n => b ^ n := by
  refine IsBigO.of_bound 1 (Eventually.of_forall fun n => ?_)
  rw [one_mul, Real.norm_of_nonneg (by positivity), Real.norm_of_nonneg (by have := ha.trans_le h; positivity)]
  exact pow_le_pow_left₀ ha.le h n

theorem GB.add {f g : ℕ → ℝ} (hf : GB f) (hg : GB g) : GB fun n => f n + g n := by
  obtain ⟨q, hq, h⟩ := hf
  obtain ⟨q', hq', h'⟩ := hg
  exact ⟨max q q', lt_max_of_lt_left hq, (h.trans (pow_bigO hq (le_max_left _ _))).add (h'.trans (pow_bigO hq' (le_max_right _ _)))⟩

theorem GB.const (c : ℝ) : GB fun _ => c := ⟨1, one_pos, by simpa using isBigO_const_const c (one_ne_zero (α := ℝ)) atTop⟩

theorem GB.pow {q : ℝ} (hq : 0 < q) : GB fun n => q ^ n := ⟨q, hq, isBigO_refl _ _⟩

theorem GB.nat : GB fun n => (n : ℝ) := by
  refine ⟨2, two_pos, IsBigO.of_bound 1 (Eventually.of_forall fun n => ?_)⟩
  rw [one_mul, Real.norm_of_nonneg (by positivity), Real.norm_of_nonneg (by positivity)]
  exact_mod_cast Nat.lt_two_pow_self.le

theorem GB.mono {f g : ℕ → ℝ} (hg : GB g) (h : ∀ᶠ n in atTop, |f n| ≤ |g n|) : GB f := by
  obtain ⟨q, hq, h'⟩ := hg
  exact ⟨q, hq, (IsBigO.of_bound 1 (by simpa using h)).trans h'⟩

theorem GB.npow {f : ℕ → ℝ} (hf : GB f) (k : ℕ) : GB fun n => f n ^ k := by
  induction k with
  | zero => simpa using GB.const 1
  | succ k ih => simpa only [pow_succ] using ih.mul hf

theorem GB.shift {f : ℕ → ℝ} (hf : GB f) : GB fun n => f (n + 1) := by
  obtain ⟨q, hq, h⟩ := hf
  refine ⟨q, hq, (h.comp_tendsto (tendsto_add_atTop_nat 1)).trans ?_⟩
  refine IsBigO.of_bound q (Eventually.of_forall fun n => ?_)
  simp only [Function.comp, pow_succ]
  rw [norm_mul, mul_comm, Real.norm_of_nonneg hq.le]

theorem SG.mul {f g : ℕ → ℝ} (hf : SG f) (hg : GB g) : SG fun n => f n * g n := by
  obtain ⟨q, hq, h⟩ := hg
  intro r hr
  have := (hf (r / q) (by positivity)).mul h
  refine this.congr_right fun n => ?_
  rw [← mul_pow, div_mul_cancel₀ _ hq.ne']

theorem SG.add {f g : ℕ → ℝ} (hf : SG f) (hg : SG g) : SG fun n => f n + g n := fun r hr => (hf r hr).add (hg r hr)

theorem SG.mono {f g : ℕ → ℝ} (hg : SG g) (h : ∀ᶠ n in atTop, |f n| ≤ |g n|) : SG f := fun r hr =>
  (IsBigO.of_bound 1 (by simpa using h)).trans (hg r hr)

theorem SG.summable {f : ℕ → ℝ} (hf : SG f) : Summable f :=
  summable_of_isBigO_nat (summable_geometric_of_lt_one (by norm_num) (by norm_num : (1 / 2 : ℝ) < 1)) (hf (1 / 2) (by norm_num))

theorem SG.of_ev {f g : ℕ → ℝ} (hg : SG g) (h : f =ᶠ[atTop] g) : SG f := hg.mono (h.mono fun n e => by rw [e])

/-- Dropping the first term. -/
theorem SG.shift {f : ℕ → ℝ} (hf : SG fun n => f (n + 1)) : SG f := by
  intro r hr
  have h := hf r hr
  have e : (fun n : ℕ => r ^ n) =O[atTop] fun n => r ^ (n + 1) := by
    refine IsBigO.of_bound r⁻¹ (Eventually.of_forall fun n => ?_)
    rw [pow_succ, norm_mul, Real.norm_of_nonneg hr.le, mul_comm, mul_assoc, mul_inv_cancel₀ hr.ne', mul_one]
  have h := h.trans e
  rw [isBigO_iff] at h ⊢
  obtain ⟨c, h⟩ := h
  refine ⟨c, ?_⟩
  obtain ⟨N, hN⟩ := eventually_atTop.1 h
  refine eventually_atTop.2 ⟨N + 1, fun n hn => ?_⟩
  obtain ⟨k, rfl⟩ : ∃ k, n = k + 1 := ⟨n - 1, by omega⟩
  exact hN k (by omega)

end MieDiff
