import Verif.Proofs.Modulus
import Verif.Proofs.DepthReal
import Mathlib.Analysis.Complex.PhragmenLindelof

/-!
# Growth of the outgoing functions with the order

In the closed upper half plane `|zeta_n|` does not decrease with the order.  On the real axis this follows from the monotonicity of
the modulus in the argument, in the half plane from the Phragmen-Lindelöf principle for the ratio of two Bessel polynomials.
-/

namespace MieDiff

open Complex Filter Topology Spec ComplexConjugate

/-- Bessel polynomials. -/
noncomputable def besselY : ℕ → ℂ → ℂ
  | 0, _ => 1
  | 1, s => 1 + s
  | n + 2, s => (2 * (n : ℂ) + 3) * s * besselY (n + 1) s + besselY n s

theorem besselY_diff : ∀ n, Differentiable ℂ (besselY n) ∧ Differentiable ℂ (besselY (n + 1))
  | 0 => ⟨by
      have : besselY 0 = fun _ => 1 := by funext s; rfl
      rw [this]; fun_prop, by
      have : besselY 1 = fun s => 1 + s := by funext s; rfl
      rw [show 0 + 1 = 1 from rfl, this]; fun_prop⟩
  | n + 1 => by
    obtain ⟨h1, h2⟩ := besselY_diff n
    refine ⟨h2, ?_⟩
    have : besselY (n + 1 + 1) = fun s => (2 * (n : ℂ) + 3) * s * besselY (n + 1) s + besselY n s := by funext s; rfl
    rw [this]
    fun_prop

theorem besselY_conj (s : ℂ) : ∀ n, besselY n (conj s) = conj (besselY n s) ∧ besselY (n + 1) (conj s) = conj (besselY (n + 1) s)
  | 0 => by simp [besselY]
  | n + 1 => by
    obtain ⟨h1, h2⟩ := besselY_conj s n
    refine ⟨h2, ?_⟩
    rw [besselY, h1, h2, besselY, map_add, map_mul, map_mul, map_add, map_mul, Complex.conj_natCast, Complex.conj_ofNat, Complex.conj_ofNat]

theorem zeta_bessel {z : ℂ} (hz : z ≠ 0) : ∀ n, ricZeta n z = (-I) ^ n * besselY n (I / z) * ricZeta 0 z ∧
    ricZeta (n + 1) z = (-I) ^ (n + 1) * besselY (n + 1) (I / z) * ricZeta 0 z
  | 0 => by
    constructor
    · simp [besselY]
    · rw [show 0 + 1 = 1 from rfl, ricZeta_one z hz, besselY, pow_one]
      field_simp
      linear_combination (ricZeta 0 z) * I_sq
  | n + 1 => by
    obtain ⟨h1, h2⟩ := zeta_bessel hz n
    refine ⟨h2, ?_⟩
    rw [ricZeta_rec n hz, h1, h2, besselY]
    have e : (-I) ^ (n + 1 + 1) = -(-I) ^ n := by rw [pow_succ, pow_succ, mul_assoc]; rw [show -I * -I = (-1 : ℂ) by rw [neg_mul_neg, I_mul_I]]; ring
    rw [e, pow_succ]
    field_simp
    ring

/-- The ratios of consecutive Bessel polynomials have positive real part in the right half plane. -/
theorem besselY_ratio {s : ℂ} (hs : 0 ≤ s.re) : ∀ n, besselY n s ≠ 0 ∧ besselY (n + 1) s ≠ 0 ∧ 0 < (besselY (n + 1) s / besselY n s).re
  | 0 => by
    have h : 0 < (1 + s).re := by rw [add_re, one_re]; linarith
    refine ⟨by simp [besselY], ?_, by simpa [besselY] using h⟩
    intro h0
    rw [show besselY (0 + 1) s = 1 + s from rfl] at h0
    rw [h0] at h
    simp at h
  | n + 1 => by
    obtain ⟨h1, h2, h3⟩ := besselY_ratio hs n
    have e : besselY (n + 1 + 1) s / besselY (n + 1) s = (2 * (n : ℂ) + 3) * s + (besselY (n + 1) s / besselY n s)⁻¹ := by
      rw [besselY, inv_div]
      field_simp
    have h4 : 0 < (besselY (n + 1 + 1) s / besselY (n + 1) s).re := by
      rw [e, add_re, inv_re]
      have h5 : 0 < normSq (besselY (n + 1) s / besselY n s) := normSq_pos.2 (div_ne_zero h2 h1)
      have h6 : ((2 * (n : ℂ) + 3) * s).re = (2 * n + 3) * s.re := by
        rw [show (2 * (n : ℂ) + 3) = ((2 * (n : ℝ) + 3 : ℝ) : ℂ) by push_cast; rfl, re_ofReal_mul]
      rw [h6]
      positivity
    refine ⟨h2, ?_, h4⟩
    intro h0
    rw [h0, zero_div, zero_re] at h4
    exact lt_irrefl _ h4

/-- Far out the ratio of consecutive Bessel polynomials is small. -/
theorem besselY_far {s : ℂ} (hs : 2 ≤ ‖s‖) : ∀ n, (‖s‖ - 1) * ‖besselY n s‖ ≤ ‖besselY (n + 1) s‖
  | 0 => by
    have := norm_sub_norm_le s (-1)
    rw [norm_neg, norm_one, sub_neg_eq_add, add_comm s] at this
    simpa [besselY] using this
  | n + 1 => by
    have h := besselY_far hs n
    rw [besselY]
    have h1 := norm_sub_norm_le ((2 * (n : ℂ) + 3) * s * besselY (n + 1) s) (-besselY n s)
    rw [norm_neg, sub_neg_eq_add, norm_mul, norm_mul] at h1
    have h2 : ‖(2 * (n : ℂ) + 3)‖ = 2 * n + 3 := by
      rw [show (2 * (n : ℂ) + 3) = ((2 * (n : ℝ) + 3 : ℝ) : ℂ) by push_cast; rfl, norm_real, Real.norm_of_nonneg (by positivity)]
    rw [h2] at h1
    have h3 : ‖besselY n s‖ ≤ ‖besselY (n + 1) s‖ := by nlinarith [norm_nonneg (besselY n s)]
    have hn : (0 : ℝ) ≤ n := by positivity
    have h4 := norm_nonneg (besselY (n + 1) s)
    have h5 : ‖s‖ * ‖besselY (n + 1) s‖ ≤ (2 * n + 3) * ‖s‖ * ‖besselY (n + 1) s‖ := by
      have : 0 ≤ ‖s‖ * ‖besselY (n + 1) s‖ := by positivity
      nlinarith
    nlinarith

/-- On the real axis `|zeta_n|` does not decrease with the order. -/
theorem zeta_mono_real (n : ℕ) {x : ℝ} (hx : 0 < x) : ‖ricZeta n (x : ℂ)‖ ≤ ‖ricZeta (n + 1) (x : ℂ)‖ := by
  have hz : (x : ℂ) ≠ 0 := by exact_mod_cast hx.ne'
  have h1 := modulus_antitone n hx
  have h2 := modulus_antitone (n + 1) hx
  rw [deriv_ricZeta_raise n hz] at h1
  rw [deriv_ricZeta_lower n hz] at h2
  have e1 : conj (ricZeta n (x : ℂ)) * (((n : ℂ) + 1) / x * ricZeta n x - ricZeta (n + 1) x) =
      (((n : ℝ) + 1) / x * ‖ricZeta n (x : ℂ)‖ ^ 2 : ℝ) - conj (ricZeta n (x : ℂ)) * ricZeta (n + 1) x := by
    push_cast
    rw [← Complex.conj_mul']
    ring
  have e2 : conj (ricZeta (n + 1) (x : ℂ)) * (ricZeta n x - ((n : ℂ) + 1) / x * ricZeta (n + 1) x) =
      conj (conj (ricZeta n (x : ℂ)) * ricZeta (n + 1) x) - (((n : ℝ) + 1) / x * ‖ricZeta (n + 1) (x : ℂ)‖ ^ 2 : ℝ) := by
    push_cast
    rw [← Complex.conj_mul', map_mul, conj_conj]
    ring
  rw [e1, sub_re, ofReal_re] at h1
  rw [e2, sub_re, ofReal_re, conj_re] at h2
  have h3 : ((n : ℝ) + 1) / x * ‖ricZeta n (x : ℂ)‖ ^ 2 ≤ ((n : ℝ) + 1) / x * ‖ricZeta (n + 1) (x : ℂ)‖ ^ 2 := by linarith
  have h4 : ‖ricZeta n (x : ℂ)‖ ^ 2 ≤ ‖ricZeta (n + 1) (x : ℂ)‖ ^ 2 := le_of_mul_le_mul_left h3 (by positivity)
  exact (sq_le_sq₀ (norm_nonneg _) (norm_nonneg _)).1 h4

theorem besselY_mono_axis (n : ℕ) (t : ℝ) : ‖besselY n (t * I)‖ ≤ ‖besselY (n + 1) (t * I)‖ := by
  have pos : ∀ t : ℝ, 0 < t → ‖besselY n (t * I)‖ ≤ ‖besselY (n + 1) (t * I)‖ := by
    intro t ht
    have hz : ((t⁻¹ : ℝ) : ℂ) ≠ 0 := by exact_mod_cast (inv_pos.2 ht).ne'
    have h := zeta_mono_real n (inv_pos.2 ht)
    obtain ⟨e1, e2⟩ := zeta_bessel hz n
    have e : I / ((t⁻¹ : ℝ) : ℂ) = t * I := by push_cast; field_simp
    rw [e1, e2, e] at h
    simp only [norm_mul, norm_pow, norm_neg, norm_I, one_pow, one_mul] at h
    exact le_of_mul_le_mul_right h (norm_pos_iff.2 (ricZeta_zero_ne _ hz))
  rcases lt_trichotomy t 0 with h | h | h
  · have e : (t : ℂ) * I = conj (((-t : ℝ) : ℂ) * I) := by rw [map_mul, conj_I, conj_ofReal]; push_cast; ring
    obtain ⟨c1, c2⟩ := besselY_conj (((-t : ℝ) : ℂ) * I) n
    rw [e, c1, c2, Complex.norm_conj, Complex.norm_conj]
    exact pos (-t) (by linarith)
  · have : ∀ m, besselY m 0 = 1 ∧ besselY (m + 1) 0 = 1 := by
      intro m
      induction m with
      | zero => simp [besselY]
      | succ m ih => exact ⟨ih.2, by rw [besselY, ih.1]; simp⟩
    rw [h, ofReal_zero, zero_mul, (this n).1, (this n).2]
  · exact pos t h

/-- In the right half plane the moduli of the Bessel polynomials do not decrease with the order. -/
theorem besselY_mono (n : ℕ) {s : ℂ} (hs : 0 ≤ s.re) : ‖besselY n s‖ ≤ ‖besselY (n + 1) s‖ := by
  obtain ⟨d0, d1⟩ := besselY_diff n
  have hne : ∀ w : ℂ, 0 ≤ w.re → besselY (n + 1) w ≠ 0 := fun w hw => (besselY_ratio hw n).2.1
  have hfar : ∀ w : ℂ, 2 ≤ ‖w‖ → 0 ≤ w.re → ‖besselY n w / besselY (n + 1) w‖ ≤ 1 / (‖w‖ - 1) := by
    intro w hw h0
    rw [norm_div, div_le_div_iff₀ (norm_pos_iff.2 (hne w h0)) (by linarith)]
    have := besselY_far hw n
    linarith
  have key : ‖besselY n s / besselY (n + 1) s‖ ≤ 1 := by
    refine PhragmenLindelof.right_half_plane_of_tendsto_zero_on_real (f := fun w => besselY n w / besselY (n + 1) w) ?_ ?_ ?_ ?_ hs
    · refine DifferentiableOn.diffContOnCl fun w hw => ?_
      have hw' : 0 ≤ w.re := by
        have : closure {z : ℂ | 0 < z.re} ⊆ {z : ℂ | 0 ≤ z.re} :=
          closure_minimal (fun z hz => show (0 : ℝ) ≤ z.re from le_of_lt hz) (isClosed_le continuous_const continuous_re)
        exact this hw
      exact ((d0 w).div (d1 w) (hne w hw')).differentiableWithinAt
    · refine ⟨1, by norm_num, 0, ?_⟩
      refine Asymptotics.IsBigO.of_bound 1 ?_
      have h2 : ∀ᶠ w : ℂ in Bornology.cobounded ℂ, 2 ≤ ‖w‖ := by
        have := tendsto_norm_cobounded_atTop (E := ℂ)
        exact this.eventually_ge_atTop 2
      rw [eventually_inf_principal]
      filter_upwards [h2] with w hw hre
      refine (hfar w hw (le_of_lt hre)).trans ?_
      rw [div_le_iff₀ (by linarith)]
      simp
      linarith
    · rw [tendsto_zero_iff_norm_tendsto_zero]
      have h3 : Tendsto (fun x : ℝ => 1 / (x - 1)) atTop (𝓝 0) := by
        have := tendsto_inv_atTop_zero.comp (tendsto_atTop_add_const_right atTop (-1 : ℝ) tendsto_id)
        refine this.congr fun x => ?_
        simp [sub_eq_add_neg]
      refine squeeze_zero' (Eventually.of_forall fun _ => norm_nonneg _) ?_ h3
      filter_upwards [eventually_ge_atTop 2] with x hx
      have hx' : ‖(x : ℂ)‖ = x := by rw [norm_real, Real.norm_of_nonneg (by linarith)]
      have := hfar x (by rw [hx']; exact hx) (by rw [ofReal_re]; linarith)
      rwa [hx'] at this
    · intro t
      rw [norm_div, div_le_one (norm_pos_iff.2 (hne _ (by simp)))]
      exact besselY_mono_axis n t
  rwa [norm_div, div_le_one (norm_pos_iff.2 (hne s hs))] at key

theorem I_div_re {z : ℂ} (him : 0 ≤ z.im) : 0 ≤ (I / z).re := by
  rw [div_re]
  simp only [I_re, I_im, zero_mul, zero_div, zero_add, one_mul]
  exact div_nonneg him (normSq_nonneg _)

/-- In the closed upper half plane `|zeta_n|` does not decrease with the order and is not zero. -/
theorem zeta_mono (n : ℕ) {z : ℂ} (hz : z ≠ 0) (him : 0 ≤ z.im) : ‖ricZeta n z‖ ≤ ‖ricZeta (n + 1) z‖ := by
  obtain ⟨e1, e2⟩ := zeta_bessel hz n
  rw [e1, e2]
  simp only [norm_mul, norm_pow, norm_neg, norm_I, one_pow, one_mul]
  exact mul_le_mul_of_nonneg_right (besselY_mono n (I_div_re him)) (norm_nonneg _)

theorem zeta_ne (n : ℕ) {z : ℂ} (hz : z ≠ 0) (him : 0 ≤ z.im) : ricZeta n z ≠ 0 := by
  rw [(zeta_bessel hz n).1]
  exact mul_ne_zero (mul_ne_zero (pow_ne_zero _ (neg_ne_zero.2 I_ne_zero)) (besselY_ratio (I_div_re him) n).1) (ricZeta_zero_ne z hz)

theorem norm_zeta_zero {z : ℂ} (hz : z ≠ 0) : ‖ricZeta 0 z‖ = Real.exp (-z.im) := by
  rw [ricZeta_zero_exp z hz, norm_mul, norm_neg, norm_I, one_mul, Complex.norm_exp]
  simp

/-- One order above the argument. -/
theorem zeta_step (n : ℕ) {z : ℂ} (hz : z ≠ 0) (him : 0 ≤ z.im) :
    ((2 * ((n + 1 : ℕ) : ℝ) + 1) / ‖z‖ - 1) * ‖ricZeta (n + 1) z‖ ≤ ‖ricZeta (n + 1 + 1) z‖ := by
  rw [ricZeta_rec n hz]
  have h1 := norm_sub_norm_le ((2 * (n : ℂ) + 3) / z * ricZeta (n + 1) z) (ricZeta n z)
  rw [norm_mul, norm_div, show (2 * (n : ℂ) + 3) = ((2 * (n : ℝ) + 3 : ℝ) : ℂ) by push_cast; rfl, norm_real,
    Real.norm_of_nonneg (by positivity)] at h1
  have h2 := zeta_mono n hz him
  push_cast at h1 ⊢
  rw [show 2 * ((n : ℝ) + 1) + 1 = 2 * n + 3 by ring]
  linarith

/-- Growth above the argument. -/
theorem zeta_growth_above {z : ℂ} (hz : z ≠ 0) (him : 0 ≤ z.im) (K : ℕ) (hK : ‖z‖ ≤ K + 3 / 2) : ∀ N, K + 1 ≤ N →
    Real.exp (-z.im) * ∏ j ∈ Finset.Ico (K + 1) N, ((2 * (j : ℝ) + 1) / ‖z‖ - 1) ≤ ‖ricZeta N z‖ := by
  have hzp := norm_pos_iff.2 hz
  have start : ∀ n, Real.exp (-z.im) ≤ ‖ricZeta n z‖ := by
    intro n
    induction n with
    | zero => rw [norm_zeta_zero hz]
    | succ n ih => exact ih.trans (zeta_mono n hz him)
  intro N hN
  induction N, hN using Nat.le_induction with
  | base => simpa using start (K + 1)
  | succ N hN ih =>
    rw [Finset.prod_Ico_succ_top hN]
    obtain ⟨m, rfl⟩ : ∃ m, N = m + 1 := ⟨N - 1, by omega⟩
    refine le_trans ?_ (zeta_step m hz him)
    have hg : 0 ≤ (2 * ((m + 1 : ℕ) : ℝ) + 1) / ‖z‖ - 1 := by
      rw [sub_nonneg, le_div_iff₀ hzp]
      have : ((K + 1 : ℕ) : ℝ) ≤ (m + 1 : ℕ) := by exact_mod_cast hN
      push_cast at this ⊢
      linarith
    calc _ = ((2 * ((m + 1 : ℕ) : ℝ) + 1) / ‖z‖ - 1) * (Real.exp (-z.im) * ∏ j ∈ Finset.Ico (K + 1) (m + 1), ((2 * (j : ℝ) + 1) / ‖z‖ - 1)) := by ring
      _ ≤ _ := mul_le_mul_of_nonneg_left ih hg

/-- The admixture of the outgoing solution that the start order leaves. -/
theorem admixture_zeta {z : ℂ} (hz : z ≠ 0) (him : 0 ≤ z.im) (N : ℕ) (hN : ‖z‖ < N) :
    deriv (ricZeta N) z ≠ 0 ∧ ‖deriv (ricPsi N) z / deriv (ricZeta N) z‖ * ‖ricZeta N z‖ ^ 2 ≤
      (N + 1 + ‖z‖) * ‖z‖ / (2 * (N - ‖z‖) ^ 2) := by
  have hzp := norm_pos_iff.2 hz
  obtain ⟨m, rfl⟩ : ∃ m, N = m + 1 := ⟨N - 1, by
    have : N ≠ 0 := by rintro rfl; simp at hN; linarith [norm_nonneg z]
    omega⟩
  have hzn := zeta_ne (m + 1) hz him
  have hzN := norm_pos_iff.2 hzn
  obtain ⟨hp, hp2, hr⟩ := psi_ratio_large hz (m + 1) (by push_cast at hN ⊢; linarith)
  have hpN := norm_pos_iff.2 hp
  -- the psi ratio
  have q1 : ‖ricPsi (m + 1 + 1) z‖ ≤ ‖ricPsi (m + 1) z‖ := by
    have h1 : 1 ≤ ‖ricPsi (m + 1) z / ricPsi (m + 1 + 1) z‖ := le_trans (by linarith [Real.sqrt_nonneg (excess z (m + 1 + 1))]) hr
    rw [norm_div, le_div_iff₀ (norm_pos_iff.2 hp2), one_mul] at h1
    exact h1
  have q2 := zeta_mono m hz him
  have nc : ‖(((m + 1 : ℕ) : ℂ)) / z‖ = ((m + 1 : ℕ) : ℝ) / ‖z‖ := by rw [norm_div, Complex.norm_natCast]
  have nc2 : ‖(((m + 1 : ℕ) : ℂ) + 1) / z‖ = (((m + 1 : ℕ) : ℝ) + 1) / ‖z‖ := by
    rw [show (((m + 1 : ℕ) : ℂ) + 1) = ((m + 1 + 1 : ℕ) : ℂ) by push_cast; ring, norm_div, Complex.norm_natCast]; push_cast; ring
  -- derivative of psi
  have dP : ‖deriv (ricPsi (m + 1)) z‖ ≤ (((m + 1 : ℕ) : ℝ) + 1 + ‖z‖) / ‖z‖ * ‖ricPsi (m + 1) z‖ := by
    rw [deriv_ricPsi_raise (m + 1) hz]
    refine (norm_sub_le _ _).trans ?_
    rw [norm_mul, nc2, add_div _ ‖z‖, div_self hzp.ne']
    linarith
  -- derivative of zeta
  have dZ : (((m + 1 : ℕ) : ℝ) - ‖z‖) / ‖z‖ * ‖ricZeta (m + 1) z‖ ≤ ‖deriv (ricZeta (m + 1)) z‖ := by
    rw [deriv_ricZeta_lower m hz, norm_sub_rev]
    refine le_trans ?_ (norm_sub_norm_le _ _)
    rw [norm_mul, show ((m : ℂ) + 1) / z = ((m + 1 : ℕ) : ℂ) / z by push_cast; ring, nc, sub_div, div_self hzp.ne']
    linarith
  have hgap : 0 < (((m + 1 : ℕ) : ℝ) - ‖z‖) / ‖z‖ := div_pos (by linarith) hzp
  have hZ0 : 0 < ‖deriv (ricZeta (m + 1)) z‖ := lt_of_lt_of_le (mul_pos hgap hzN) dZ
  refine ⟨norm_pos_iff.1 hZ0, ?_⟩
  -- Wronskian
  have w := ric_wronskian (m + 1) hz
  have hw : 2 * (((m + 1 : ℕ) : ℝ) - ‖z‖) / ‖z‖ * (‖ricPsi (m + 1) z‖ * ‖ricZeta (m + 1) z‖) ≤ 1 := by
    have e : ricPsi (m + 1) z * deriv (ricZeta (m + 1)) z - deriv (ricPsi (m + 1)) z * ricZeta (m + 1) z =
        ricPsi (m + 1) z * ricZeta m z + ricPsi (m + 1 + 1) z * ricZeta (m + 1) z -
          ((2 * (m + 1 : ℕ) + 1 : ℕ) : ℂ) / z * (ricPsi (m + 1) z * ricZeta (m + 1) z) := by
      rw [deriv_ricZeta_lower m hz, deriv_ricPsi_raise (m + 1) hz]
      push_cast
      ring
    rw [e] at w
    have h1 := norm_sub_norm_le (((2 * (m + 1 : ℕ) + 1 : ℕ) : ℂ) / z * (ricPsi (m + 1) z * ricZeta (m + 1) z))
      (ricPsi (m + 1) z * ricZeta m z + ricPsi (m + 1 + 1) z * ricZeta (m + 1) z)
    rw [norm_sub_rev, w, norm_I, norm_mul, norm_div, Complex.norm_natCast, norm_mul (ricPsi (m + 1) z)] at h1
    have h2 := norm_add_le (ricPsi (m + 1) z * ricZeta m z) (ricPsi (m + 1 + 1) z * ricZeta (m + 1) z)
    rw [norm_mul, norm_mul] at h2
    have h3 : ‖ricPsi (m + 1) z‖ * ‖ricZeta m z‖ ≤ ‖ricPsi (m + 1) z‖ * ‖ricZeta (m + 1) z‖ := by gcongr
    have h4 : ‖ricPsi (m + 1 + 1) z‖ * ‖ricZeta (m + 1) z‖ ≤ ‖ricPsi (m + 1) z‖ * ‖ricZeta (m + 1) z‖ := by gcongr
    have e5 : ((2 * (m + 1 : ℕ) + 1 : ℕ) : ℝ) / ‖z‖ = 2 * (((m + 1 : ℕ) : ℝ) - ‖z‖) / ‖z‖ + 2 + 1 / ‖z‖ := by
      push_cast; field_simp; ring
    rw [e5] at h1
    have h6 : 0 ≤ 1 / ‖z‖ * (‖ricPsi (m + 1) z‖ * ‖ricZeta (m + 1) z‖) := by positivity
    nlinarith
  rw [norm_div, div_mul_eq_mul_div, div_le_div_iff₀ hZ0 (by
    have : 0 < ((m + 1 : ℕ) : ℝ) - ‖z‖ := by linarith
    positivity)]
  set g := ((m + 1 : ℕ) : ℝ) - ‖z‖ with hgd
  have hg : 0 < g := by linarith
  set a := ‖ricPsi (m + 1) z‖
  set b := ‖ricZeta (m + 1) z‖
  set t := ((m + 1 : ℕ) : ℝ) + 1 + ‖z‖
  have ht : 0 < t := by positivity
  have s1 : 2 * g * (a * b) ≤ ‖z‖ := by
    rw [div_mul_eq_mul_div, div_le_one hzp] at hw; exact hw
  have s2 : g * b ≤ ‖z‖ * ‖deriv (ricZeta (m + 1)) z‖ := by
    rw [div_mul_eq_mul_div, div_le_iff₀ hzp] at dZ; linarith
  have s3 : ‖z‖ * ‖deriv (ricPsi (m + 1)) z‖ ≤ t * a := by
    rw [div_mul_eq_mul_div, le_div_iff₀ hzp] at dP; linarith
  have s4 : ‖z‖ * (‖deriv (ricPsi (m + 1)) z‖ * b ^ 2 * (2 * g ^ 2)) ≤ ‖z‖ * (t * ‖z‖ * ‖deriv (ricZeta (m + 1)) z‖) := by
    calc _ = (‖z‖ * ‖deriv (ricPsi (m + 1)) z‖) * (b ^ 2 * (2 * g ^ 2)) := by ring
      _ ≤ (t * a) * (b ^ 2 * (2 * g ^ 2)) := by gcongr
      _ = t * (2 * g * (a * b)) * (g * b) := by ring
      _ ≤ t * ‖z‖ * (‖z‖ * ‖deriv (ricZeta (m + 1)) z‖) := by gcongr
      _ = _ := by ring
  exact le_of_mul_le_mul_left s4 hzp

end MieDiff
