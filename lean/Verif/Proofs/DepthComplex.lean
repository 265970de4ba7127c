import Verif.Proofs.OutgoingGrowth
import Verif.Proofs.Evanescent

/-!
# The recurrence of `pena_D1_n` at arguments in the upper half plane
-/

namespace MieDiff

open Complex Filter Topology Spec

/-! ## No guard acts in an absorbing layer -/

theorem natCast_div_im (n : ℕ) (z : ℂ) : ((n : ℂ) / z).im = -(n * z.im / ‖z‖ ^ 2) := by
  rw [div_im, natCast_im, natCast_re, zero_mul, zero_div, zero_sub, normSq_eq_norm_sq]

theorem neg_one_div_im {h : ℂ} (hh : h.im ≤ 0) : (-(1 / h)).im ≤ 0 := by
  rw [neg_im, one_div, inv_im, neg_div, neg_neg]
  exact div_nonpos_of_nonpos_of_nonneg hh (normSq_nonneg _)

/-- The denominators of the recurrence stay in the lower half plane. -/
theorem den_im {z : ℂ} {eps : ℝ} (hz : z ≠ 0) (him : 0 < z.im) (hg : eps * ‖z‖ ^ 2 ≤ z.im) (N : ℕ) :
    ∀ d j : ℕ, j + 1 + d = N →
      (d1Val z eps N (j + 1) + ((j + 1 : ℕ) : ℂ) / z).im ≤ -((j + 1 : ℕ) * z.im / ‖z‖ ^ 2) ∧
      eps ≤ ‖d1Val z eps N (j + 1) + ((j + 1 : ℕ) : ℂ) / z‖ := by
  have hzp := norm_pos_iff.2 hz
  have size : ∀ (j : ℕ) (w : ℂ), w.im ≤ -((j + 1 : ℕ) * z.im / ‖z‖ ^ 2) → eps ≤ ‖w‖ := by
    intro j w hw
    have h1 := Complex.abs_im_le_norm w
    have h2 := neg_abs_le w.im
    have h3 : eps ≤ z.im / ‖z‖ ^ 2 := by rw [le_div_iff₀ (by positivity)]; exact hg
    have h4 : z.im / ‖z‖ ^ 2 ≤ (j + 1 : ℕ) * z.im / ‖z‖ ^ 2 := by
      refine div_le_div_of_nonneg_right ?_ (by positivity)
      have : (1 : ℝ) ≤ (j + 1 : ℕ) := by exact_mod_cast Nat.le_add_left 1 j
      nlinarith
    linarith
  intro d
  induction d with
  | zero =>
    intro j hj
    have e : j + 1 = N := by omega
    have h : (d1Val z eps N (j + 1) + ((j + 1 : ℕ) : ℂ) / z).im ≤ -((j + 1 : ℕ) * z.im / ‖z‖ ^ 2) := by
      rw [e, d1Val_top, zero_add, natCast_div_im]
    exact ⟨h, size j _ h⟩
  | succ d ih =>
    intro j hj
    obtain ⟨h1, h2⟩ := ih (j + 1) (by omega)
    have e : d1Val z eps N (j + 1) + ((j + 1 : ℕ) : ℂ) / z =
        ((2 * (j + 1) + 1 : ℕ) : ℂ) / z + -(1 / (d1Val z eps N (j + 1 + 1) + ((j + 1 + 1 : ℕ) : ℂ) / z)) := by
      rw [d1Val_step z eps (by omega : j + 1 < N), guardAdd_of_le h2]
      push_cast
      ring
    have h : (d1Val z eps N (j + 1) + ((j + 1 : ℕ) : ℂ) / z).im ≤ -((j + 1 : ℕ) * z.im / ‖z‖ ^ 2) := by
      rw [e, add_im, natCast_div_im]
      have h3 := neg_one_div_im (h1.trans (neg_nonpos.2 (by positivity)))
      have h4 : ((j + 1 : ℕ) : ℝ) * z.im / ‖z‖ ^ 2 ≤ ((2 * (j + 1) + 1 : ℕ) : ℝ) * z.im / ‖z‖ ^ 2 := by
        refine div_le_div_of_nonneg_right ?_ (by positivity)
        push_cast
        have : (0 : ℝ) ≤ j := by positivity
        nlinarith
      linarith
    exact ⟨h, size j _ h⟩

/-! ## The exact ratios -/

/-- In the open upper half plane `psi_k` has no zeros and the ratios are in the lower half plane. -/
theorem psi_ratio_im {z : ℂ} (him : 0 < z.im) (k : ℕ) : ricPsi k z ≠ 0 ∧ ricPsi (k + 1) z ≠ 0 ∧
    (ricPsi k z / ricPsi (k + 1) z).im ≤ -((2 * (k : ℝ) + 3) * z.im / ‖z‖ ^ 2) := by
  have hz : z ≠ 0 := by rintro rfl; simp at him
  have hzp := norm_pos_iff.2 hz
  have step : ∀ k, ricPsi (k + 1) z ≠ 0 → ricPsi k z / ricPsi (k + 1) z =
      ((2 * k + 3 : ℕ) : ℂ) / z - ricPsi (k + 2) z / ricPsi (k + 1) z := by
    intro k h
    rw [ricPsi_rec k hz]
    push_cast
    field_simp
    ring
  have down : ∀ k, ricPsi (k + 1) z ≠ 0 → (ricPsi (k + 1 + 1) z ≠ 0 ∧ (ricPsi (k + 1) z / ricPsi (k + 1 + 1) z).im ≤ 0) →
      ricPsi k z ≠ 0 ∧ (ricPsi k z / ricPsi (k + 1) z).im ≤ -((2 * (k : ℝ) + 3) * z.im / ‖z‖ ^ 2) := by
    rintro k h1 ⟨h2, h3⟩
    have h4 : (ricPsi k z / ricPsi (k + 1) z).im ≤ -((2 * (k : ℝ) + 3) * z.im / ‖z‖ ^ 2) := by
      rw [step k h1, sub_eq_add_neg, show ricPsi (k + 2) z / ricPsi (k + 1) z = 1 / (ricPsi (k + 1) z / ricPsi (k + 1 + 1) z) by
        rw [one_div_div], add_im, natCast_div_im]
      have := neg_one_div_im h3
      push_cast
      linarith
    refine ⟨fun h0 => ?_, h4⟩
    rw [h0, zero_div, zero_im] at h4
    have : 0 < (2 * (k : ℝ) + 3) * z.im / ‖z‖ ^ 2 := by positivity
    linarith
  -- a large order
  obtain ⟨m, hm⟩ := exists_nat_ge (‖z‖ + ‖z‖ ^ 2 / z.im)
  have hm1 : ‖z‖ ≤ m := by have : 0 ≤ ‖z‖ ^ 2 / z.im := by positivity
                           linarith
  have hm2 : ‖z‖ ^ 2 / z.im ≤ m := by linarith
  have far : ∀ i, m ≤ i → ricPsi i z ≠ 0 ∧ ricPsi (i + 1) z ≠ 0 ∧ (ricPsi i z / ricPsi (i + 1) z).im ≤ 0 := by
    intro i hi
    have hi' : (m : ℝ) ≤ i := by exact_mod_cast hi
    obtain ⟨a1, a2, -⟩ := psi_ratio_large hz i (by push_cast; linarith)
    obtain ⟨-, b2, b3⟩ := psi_ratio_large hz (i + 1) (by push_cast; linarith)
    refine ⟨a1, a2, ?_⟩
    rw [step i a2, sub_im, natCast_div_im]
    have h5 : ‖ricPsi (i + 2) z / ricPsi (i + 1) z‖ ≤ 1 := by
      have : 1 ≤ ‖ricPsi (i + 1) z / ricPsi (i + 1 + 1) z‖ := le_trans (by linarith [Real.sqrt_nonneg (excess z (i + 1 + 1))]) b3
      rw [← one_div_div, norm_div, norm_one]
      exact div_le_one_of_le₀ this (norm_nonneg _)
    have h6 := Complex.abs_im_le_norm (ricPsi (i + 2) z / ricPsi (i + 1) z)
    have h7 := neg_abs_le (ricPsi (i + 2) z / ricPsi (i + 1) z).im
    have h8 : 1 ≤ ((2 * i + 3 : ℕ) : ℝ) * z.im / ‖z‖ ^ 2 := by
      rw [le_div_iff₀ (by positivity), one_mul]
      rw [div_le_iff₀ him] at hm2
      push_cast
      nlinarith
    linarith
  have all : ∀ d i : ℕ, m ≤ i + d → ricPsi i z ≠ 0 ∧ ricPsi (i + 1) z ≠ 0 ∧ (ricPsi i z / ricPsi (i + 1) z).im ≤ 0 := by
    intro d
    induction d with
    | zero => intro i hi; exact far i (by simpa using hi)
    | succ d ih =>
      intro i hi
      obtain ⟨c1, c2, c3⟩ := ih (i + 1) (by omega)
      obtain ⟨d1, d2⟩ := down i c1 ⟨c2, c3⟩
      exact ⟨d1, c1, d2.trans (neg_nonpos.2 (by positivity))⟩
  obtain ⟨c1, c2, c3⟩ := all m (k + 1) (by omega)
  obtain ⟨d1, d2⟩ := down k c1 ⟨c2, c3⟩
  exact ⟨d1, c1, d2⟩

theorem zeta_succ_le (k : ℕ) {z : ℂ} (hz : z ≠ 0) (him : 0 ≤ z.im) :
    ‖ricZeta (k + 1) z‖ ≤ ((2 * (k : ℝ) + 1) / ‖z‖ + 1) * ‖ricZeta k z‖ := by
  cases k with
  | zero =>
    obtain ⟨-, e⟩ := zeta_bessel hz 0
    rw [e]
    simp only [zero_add, pow_one, besselY, norm_mul, norm_neg, norm_I, one_mul]
    refine mul_le_mul_of_nonneg_right ?_ (norm_nonneg _)
    refine (norm_add_le _ _).trans ?_
    rw [norm_one, norm_div, norm_I]
    simp [add_comm]
  | succ k =>
    rw [ricZeta_rec k hz]
    refine (norm_sub_le _ _).trans ?_
    rw [norm_mul, norm_div, show (2 * (k : ℂ) + 3) = ((2 * (k : ℝ) + 3 : ℝ) : ℂ) by push_cast; rfl, norm_real,
      Real.norm_of_nonneg (by positivity)]
    have := zeta_mono k hz him
    push_cast
    rw [show 2 * ((k : ℝ) + 1) + 1 = 2 * k + 3 by ring]
    linarith

/-- Lower bound of `|psi_k zeta_k|` in the open upper half plane. -/
theorem psi_zeta_ge (k : ℕ) {z : ℂ} (him : 0 < z.im) :
    1 ≤ (1 + (2 * (k : ℝ) + 1) / ‖z‖ + ‖z‖ ^ 2 / ((2 * k + 3) * z.im)) * ‖ricPsi k z * ricZeta k z‖ := by
  have hz : z ≠ 0 := by rintro rfl; simp at him
  have hzp := norm_pos_iff.2 hz
  obtain ⟨p0, p1, p2⟩ := psi_ratio_im him k
  have h1 : (2 * (k : ℝ) + 3) * z.im / ‖z‖ ^ 2 ≤ ‖ricPsi k z / ricPsi (k + 1) z‖ := by
    have h1 := Complex.abs_im_le_norm (ricPsi k z / ricPsi (k + 1) z)
    have h2 := neg_abs_le (ricPsi k z / ricPsi (k + 1) z).im
    linarith
  have h2 : ‖ricPsi (k + 1) z‖ ≤ ‖z‖ ^ 2 / ((2 * k + 3) * z.im) * ‖ricPsi k z‖ := by
    rw [norm_div, div_le_div_iff₀ (by positivity) (norm_pos_iff.2 p1)] at h1
    rw [div_mul_eq_mul_div, le_div_iff₀ (by positivity)]
    linarith
  have h3 := zeta_succ_le k hz him.le
  have w := ric_cross k hz
  have h4 := norm_sub_le (ricPsi (k + 1) z * ricZeta k z) (ricPsi k z * ricZeta (k + 1) z)
  rw [w, norm_I, norm_mul, norm_mul] at h4
  have h5 := mul_le_mul_of_nonneg_right h2 (norm_nonneg (ricZeta k z))
  have h6 := mul_le_mul_of_nonneg_left h3 (norm_nonneg (ricPsi k z))
  rw [norm_mul]
  calc (1 : ℝ) ≤ _ := h4
    _ ≤ _ := add_le_add h5 h6
    _ = _ := by ring

/-- Growth between two orders. -/
theorem zeta_growth_from {z : ℂ} (hz : z ≠ 0) (him : 0 ≤ z.im) (k L : ℕ) (hkL : k ≤ L) (hL : 1 ≤ L) (hs : ‖z‖ ≤ L + 1 / 2) :
    ∀ N, L ≤ N → ‖ricZeta k z‖ * ∏ j ∈ Finset.Ico L N, ((2 * (j : ℝ) + 1) / ‖z‖ - 1) ≤ ‖ricZeta N z‖ := by
  have hzp := norm_pos_iff.2 hz
  have start : ‖ricZeta k z‖ ≤ ‖ricZeta L z‖ := by
    have : Monotone fun n => ‖ricZeta n z‖ := monotone_nat_of_le_succ fun n => zeta_mono n hz him
    exact this hkL
  intro N hN
  induction N, hN using Nat.le_induction with
  | base => simpa using start
  | succ N hN ih =>
    rw [Finset.prod_Ico_succ_top hN]
    obtain ⟨m, rfl⟩ : ∃ m, N = m + 1 := ⟨N - 1, by omega⟩
    refine le_trans ?_ (zeta_step m hz him)
    have hg : 0 ≤ (2 * ((m + 1 : ℕ) : ℝ) + 1) / ‖z‖ - 1 := by
      rw [sub_nonneg, le_div_iff₀ hzp]
      have : (L : ℝ) ≤ (m + 1 : ℕ) := by exact_mod_cast hN
      push_cast at this ⊢
      linarith
    calc _ = ((2 * ((m + 1 : ℕ) : ℝ) + 1) / ‖z‖ - 1) * (‖ricZeta k z‖ * ∏ j ∈ Finset.Ico L (m + 1), ((2 * (j : ℝ) + 1) / ‖z‖ - 1)) := by ring
      _ ≤ _ := mul_le_mul_of_nonneg_left ih hg

theorem growth_factor_pos {z : ℂ} (hz : z ≠ 0) (L : ℕ) (hs : ‖z‖ ≤ L + 1 / 2) (N : ℕ) :
    0 < ∏ j ∈ Finset.Ico L N, ((2 * (j : ℝ) + 1) / ‖z‖ - 1) := by
  refine Finset.prod_pos fun j hj => ?_
  have hzp := norm_pos_iff.2 hz
  rw [Finset.mem_Ico] at hj
  have : (L : ℝ) ≤ j := by exact_mod_cast hj.1
  rw [sub_pos, lt_div_iff₀ hzp]
  linarith

/-- The share of the outgoing solution at order `k`. -/
theorem admixture_share {z : ℂ} (hz : z ≠ 0) (him : 0 ≤ z.im) (N : ℕ) (hN : ‖z‖ < N) (k L : ℕ) (hkL : k ≤ L) (hL : 1 ≤ L)
    (hs : ‖z‖ ≤ L + 1 / 2) (hLN : L ≤ N) :
    ‖deriv (ricPsi N) z / deriv (ricZeta N) z‖ * ‖ricZeta k z‖ ^ 2 ≤
      (N + 1 + ‖z‖) * ‖z‖ / (2 * (N - ‖z‖) ^ 2) * ((∏ j ∈ Finset.Ico L N, ((2 * (j : ℝ) + 1) / ‖z‖ - 1)) ^ 2)⁻¹ := by
  obtain ⟨-, h⟩ := admixture_zeta hz him N hN
  have hp := growth_factor_pos hz L hs N
  have g := zeta_growth_from hz him k L hkL hL hs N hLN
  set P := ∏ j ∈ Finset.Ico L N, ((2 * (j : ℝ) + 1) / ‖z‖ - 1)
  rw [← div_eq_mul_inv, le_div_iff₀ (by positivity)]
  refine le_trans ?_ h
  rw [mul_assoc, ← mul_pow]
  exact mul_le_mul_of_nonneg_left (pow_le_pow_left₀ (by positivity) g 2) (norm_nonneg _)

/-- The wave of the recurrence, with the outgoing solution. -/
theorem stub_zeta (N k : ℕ) (z w : ℂ) (h : deriv (ricZeta N) z ≠ 0) (hd : deriv (ricZeta N) z = deriv (ricPsi N) z - I * deriv (ricChi N) z) :
    ricPsi k w - deriv (ricPsi N) z / deriv (ricZeta N) z * ricZeta k w = -I * stubWave N z k w / deriv (ricZeta N) z := by
  rw [eq_div_iff h, zeta_split]
  unfold stubWave
  rw [sub_mul, div_mul_eq_mul_div, div_mul_cancel₀ _ h, hd]
  ring

theorem deriv_zeta_split (N : ℕ) {z : ℂ} (hz : z ≠ 0) : deriv (ricZeta N) z = deriv (ricPsi N) z - I * deriv (ricChi N) z := by
  rw [deriv_ricZeta_raise N hz, deriv_ricPsi_raise N hz, (hasDerivAt_chi_raise N hz).deriv, zeta_split, zeta_split]
  ring

/-! ## Numbers -/

/-- Bound of the share with 28 orders between the argument and the start order. -/
def shareQ (X : ℕ) : ℚ := (4 * X + 61) * X / (59 * 59) * ∏ i ∈ Finset.range 28, ((1 + 2 * (i : ℚ) / X)⁻¹) ^ 2

theorem shareQ_bound {X : ℕ} (hX : 0 < X) {z : ℂ} (hz : z ≠ 0) (hzX : ‖z‖ ≤ X) (K N : ℕ) (hK : ‖z‖ ≤ K + 3 / 2) (hN : K + 1 + 28 ≤ N)
    (hN' : ‖z‖ + 29.5 ≤ N) :
    (N + 1 + ‖z‖) * ‖z‖ / (2 * (N - ‖z‖) ^ 2) * ((∏ j ∈ Finset.Ico (K + 1) N, ((2 * (j : ℝ) + 1) / ‖z‖ - 1)) ^ 2)⁻¹ ≤ (shareQ X : ℝ) := by
  have hzp := norm_pos_iff.2 hz
  have hX' : (0 : ℝ) < X := by exact_mod_cast hX
  norm_num at hN'
  have hf : ∀ i : ℕ, 1 + 2 * (i : ℝ) / X ≤ (2 * ((K + 1 + i : ℕ) : ℝ) + 1) / ‖z‖ - 1 := by
    intro i
    have h1 : 2 * (i : ℝ) / X ≤ 2 * (i : ℝ) / ‖z‖ := by gcongr
    have h2 : 2 * (i : ℝ) / ‖z‖ + 2 ≤ (2 * ((K + 1 + i : ℕ) : ℝ) + 1) / ‖z‖ := by
      rw [div_add' _ _ _ hzp.ne']
      refine div_le_div_of_nonneg_right ?_ hzp.le
      push_cast
      linarith
    linarith
  have hone : ∀ i : ℕ, (1 : ℝ) ≤ 1 + 2 * (i : ℝ) / X := fun i => by
    have : (0 : ℝ) ≤ 2 * (i : ℝ) / X := by positivity
    linarith
  have hprod : ∏ i ∈ Finset.range 28, (1 + 2 * (i : ℝ) / X) ≤ ∏ j ∈ Finset.Ico (K + 1) N, ((2 * (j : ℝ) + 1) / ‖z‖ - 1) := by
    rw [Finset.prod_Ico_eq_prod_range, show N - (K + 1) = 28 + (N - (K + 1) - 28) by omega, Finset.prod_range_add]
    have h1 : ∏ i ∈ Finset.range 28, (1 + 2 * (i : ℝ) / X) ≤ ∏ i ∈ Finset.range 28, ((2 * ((K + 1 + i : ℕ) : ℝ) + 1) / ‖z‖ - 1) :=
      Finset.prod_le_prod (fun i _ => by linarith [hone i]) fun i _ => hf i
    have h2 : 1 ≤ ∏ i ∈ Finset.range (N - (K + 1) - 28), ((2 * ((K + 1 + (28 + i) : ℕ) : ℝ) + 1) / ‖z‖ - 1) := by
      have : ∏ _i ∈ Finset.range (N - (K + 1) - 28), (1 : ℝ) ≤ _ :=
        Finset.prod_le_prod (fun _ _ => by norm_num) fun i _ => (hone (28 + i)).trans (hf (28 + i))
      simpa using this
    have h0 : 0 ≤ ∏ i ∈ Finset.range 28, (1 + 2 * (i : ℝ) / X) := Finset.prod_nonneg fun i _ => by linarith [hone i]
    calc _ = (∏ i ∈ Finset.range 28, (1 + 2 * (i : ℝ) / X)) * 1 := by rw [mul_one]
      _ ≤ _ := mul_le_mul h1 h2 (by norm_num) (h0.trans h1)
  have hp0 : 0 < ∏ i ∈ Finset.range 28, (1 + 2 * (i : ℝ) / X) := Finset.prod_pos fun i _ => by linarith [hone i]
  have hc : (N + 1 + ‖z‖) * ‖z‖ / (2 * (N - ‖z‖) ^ 2) ≤ (4 * X + 61) * X / (59 * 59) := by
    set g := (N : ℝ) - ‖z‖ with hgd
    have hg : 59 / 2 ≤ g := by linarith
    have e : (N : ℝ) + 1 + ‖z‖ = g + 1 + 2 * ‖z‖ := by rw [hgd]; ring
    rw [e]
    have hg0 : 0 < g := by linarith
    have h1 : (g + 1 + 2 * ‖z‖) * ‖z‖ / (2 * g ^ 2) ≤ (g + 1 + 2 * X) * X / (2 * g ^ 2) := by gcongr
    refine h1.trans ?_
    rw [div_le_div_iff₀ (by positivity) (by norm_num)]
    have : (g + 1 + 2 * X) * (59 * 59) ≤ (4 * X + 61) * (2 * g ^ 2) := by
      have a1 : g * (59 * 59) ≤ 2 * g ^ 2 * 59 := by nlinarith
      have a2 : (59 : ℝ) * 59 ≤ 4 * g ^ 2 := by nlinarith
      have a3 : (1 + 2 * (X : ℝ)) * (59 * 59) ≤ (1 + 2 * X) * (4 * g ^ 2) := mul_le_mul_of_nonneg_left a2 (by positivity)
      nlinarith
    nlinarith
  unfold shareQ
  push_cast
  rw [Finset.prod_pow, Finset.prod_inv_distrib, inv_pow]
  refine mul_le_mul (hc) ?_ (by positivity) (by positivity)
  exact inv_anti₀ (by positivity) (pow_le_pow_left₀ hp0.le hprod 2)

theorem shareQ_32 : shareQ 32 ≤ 1 / 10 ^ 13 := by
  unfold shareQ
  simp only [Finset.prod_range_succ, Finset.prod_range_zero]
  decide +kernel

theorem shareQ_64 : shareQ 64 ≤ 1 / 10 ^ 7 := by
  unfold shareQ
  simp only [Finset.prod_range_succ, Finset.prod_range_zero]
  decide +kernel

end MieDiff
