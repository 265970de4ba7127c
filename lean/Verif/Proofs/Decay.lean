import Verif.Proofs.Interface
import Mathlib.Analysis.SpecificLimits.Normed

/-!
# Riccati-Bessel functions and scattering coefficients at large order
-/

namespace MieDiff

open Complex Spec Filter Topology

/-! ## Ratios of neighbouring orders -/

theorem ricPsi_rec (n : ℕ) {z : ℂ} (hz : z ≠ 0) :
    ricPsi (n + 2) z = (2 * (n : ℂ) + 3) / z * ricPsi (n + 1) z - ricPsi n z := by
  have h1 := deriv_ricPsi_raise (n + 1) hz
  have h2 := deriv_ricPsi_lower n hz
  push_cast at h1
  linear_combination h1 - h2

theorem ricZeta_rec (n : ℕ) {z : ℂ} (hz : z ≠ 0) :
    ricZeta (n + 2) z = (2 * (n : ℂ) + 3) / z * ricZeta (n + 1) z - ricZeta n z := by
  have h1 := deriv_ricZeta_raise (n + 1) hz
  have h2 := deriv_ricZeta_lower n hz
  push_cast at h1
  linear_combination h1 - h2

theorem ric_cross' (n : ℕ) {z : ℂ} (hz : z ≠ 0) :
    ricPsi (n + 1) z * ricZeta n z - ricPsi n z * ricZeta (n + 1) z = I := by
  have := ric_wronskian n hz
  rw [deriv_ricPsi_raise n hz, deriv_ricZeta_raise n hz] at this
  linear_combination this

theorem eventually_big (c : ℝ) : ∀ᶠ n : ℕ in atTop, c ≤ (n : ℝ) :=
  tendsto_natCast_atTop_atTop.eventually_ge_atTop c

theorem eventually_ricPsi_ne {z : ℂ} (hz : z ≠ 0) : ∀ᶠ n : ℕ in atTop, ricPsi n z ≠ 0 := by
  filter_upwards [eventually_big (2 * ‖z‖)] with n hn
  exact (ricPsi_ratio n hz (by linarith)).1

theorem norm_odd_div (n : ℕ) (z : ℂ) : ‖(2 * (n : ℂ) + 3) / z‖ = (2 * (n : ℝ) + 3) / ‖z‖ := by
  rw [norm_div, show (2 * (n : ℂ) + 3) = ((2 * (n : ℝ) + 3 : ℝ) : ℂ) by push_cast; ring, norm_real,
    Real.norm_of_nonneg (by positivity)]

/-- `n psi_{n+1} / psi_n` is `z/2` in the limit; here the ratio relative to `z / (2n+3)`. -/
theorem psi_ratio_lim {z : ℂ} (hz : z ≠ 0) :
    Tendsto (fun n : ℕ => ricPsi (n + 1) z / ricPsi n z * ((2 * (n : ℂ) + 3) / z)) atTop (𝓝 1) := by
  have hzp : 0 < ‖z‖ := norm_pos_iff.2 hz
  -- |r - 1| ≤ |z| / (n + 1)
  have hb : ∀ᶠ n : ℕ in atTop,
      ‖ricPsi (n + 1) z / ricPsi n z * ((2 * (n : ℂ) + 3) / z) - 1‖ ≤ ‖z‖ * (1 / ((n : ℝ) + 1)) := by
    filter_upwards [eventually_big (2 * ‖z‖)] with n hn
    obtain ⟨h0, h01⟩ := ricPsi_ratio n hz (by linarith)
    obtain ⟨h1, h12⟩ := ricPsi_ratio (n + 1) hz (by push_cast; linarith)
    have hr : ricPsi n z = (2 * (n : ℂ) + 3) / z * ricPsi (n + 1) z - ricPsi (n + 2) z := by
      linear_combination ricPsi_rec n hz
    have p0 : 0 < ‖ricPsi n z‖ := norm_pos_iff.2 h0
    have p1 : 0 < ‖ricPsi (n + 1) z‖ := norm_pos_iff.2 h1
    have e : ricPsi (n + 1) z / ricPsi n z * ((2 * (n : ℂ) + 3) / z) - 1 =
        ricPsi (n + 2) z / ricPsi n z := by
      rw [div_mul_eq_mul_div, div_sub_one h0]
      congr 1
      rw [hr]; ring
    rw [e, norm_div, div_le_iff₀ p0]
    have h3 : (2 * (n : ℝ) + 3) / ‖z‖ * ‖ricPsi (n + 1) z‖ ≤ ‖ricPsi n z‖ + ‖ricPsi (n + 2) z‖ := by
      have : (2 * (n : ℂ) + 3) / z * ricPsi (n + 1) z = ricPsi n z + ricPsi (n + 2) z := by
        linear_combination (-1) * ricPsi_rec n hz
      rw [← norm_odd_div, ← norm_mul, this]
      exact norm_add_le _ _
    have h4 : ‖ricPsi (n + 1) z‖ * (2 * (n : ℝ) + 3) ≤ (‖ricPsi n z‖ + ‖ricPsi (n + 2) z‖) * ‖z‖ := by
      rw [div_mul_eq_mul_div, div_le_iff₀ hzp] at h3
      linarith
    have hn1 : (0 : ℝ) < (n : ℝ) + 1 := by positivity
    have h5 : ‖ricPsi (n + 2) z‖ * ((n : ℝ) + 1) ≤ ‖z‖ * ‖ricPsi n z‖ := by
      nlinarith [norm_nonneg (ricPsi (n + 2) z)]
    rw [mul_one_div, div_mul_eq_mul_div, le_div_iff₀ hn1]
    exact h5
  rw [tendsto_iff_norm_sub_tendsto_zero]
  refine squeeze_zero' (Eventually.of_forall fun _ => norm_nonneg _) hb ?_
  simpa using (tendsto_one_div_add_atTop_nhds_zero_nat (𝕜 := ℝ)).const_mul ‖z‖

/-- From some order on, `zeta` grows. -/
theorem zeta_grows {z : ℂ} (hz : z ≠ 0) :
    ∀ᶠ n : ℕ in atTop, ricZeta n z ≠ 0 ∧ ‖ricZeta n z‖ ≤ ‖ricZeta (n + 1) z‖ := by
  have hzp : 0 < ‖z‖ := norm_pos_iff.2 hz
  obtain ⟨N, hN⟩ := eventually_atTop.1 (eventually_big (2 * ‖z‖))
  have big : ∀ n, N ≤ n → 2 ≤ (2 * (n : ℝ) + 3) / ‖z‖ := by
    intro n hn
    rw [le_div_iff₀ hzp]
    have := hN n hn
    linarith
  have step : ∀ n, N ≤ n → ‖ricZeta n z‖ ≤ ‖ricZeta (n + 1) z‖ → ‖ricZeta (n + 1) z‖ ≤ ‖ricZeta (n + 2) z‖ := by
    intro n hn h
    have e := ricZeta_rec n hz
    have h1 := norm_sub_norm_le ((2 * (n : ℂ) + 3) / z * ricZeta (n + 1) z) (ricZeta n z)
    rw [← e, norm_mul, norm_odd_div] at h1
    have := mul_le_mul_of_nonneg_right (big n hn) (norm_nonneg (ricZeta (n + 1) z))
    linarith
  have ex : ∃ M, N ≤ M ∧ ‖ricZeta M z‖ ≤ ‖ricZeta (M + 1) z‖ := by
    by_contra hcon
    push Not at hcon
    have bd : ∀ n, N ≤ n → ‖ricZeta n z‖ ≤ ‖ricZeta N z‖ := by
      intro n hn
      induction n, hn using Nat.le_induction with
      | base => exact le_rfl
      | succ n hn ih => exact (hcon n hn).le.trans ih
    have half : ∀ j : ℕ, ‖ricPsi (N + j) z‖ ≤ ‖ricPsi N z‖ * (1 / 2) ^ j := by
      intro j
      induction j with
      | zero => simp
      | succ j ih =>
        have h1 := hN (N + j) (by omega)
        have := (ricPsi_ratio (N + j) hz (by linarith)).2
        rw [pow_succ, ← add_assoc]
        linarith
    have lim : Tendsto (fun j : ℕ => 2 * (‖ricPsi N z‖ * (1 / 2) ^ j) * ‖ricZeta N z‖) atTop (𝓝 0) := by
      have h := tendsto_pow_atTop_nhds_zero_of_lt_one (r := (1 / 2 : ℝ)) (by norm_num) (by norm_num)
      have := ((h.const_mul ‖ricPsi N z‖).const_mul 2).mul_const ‖ricZeta N z‖
      simpa using this
    have : ∀ j : ℕ, (1 : ℝ) ≤ 2 * (‖ricPsi N z‖ * (1 / 2) ^ j) * ‖ricZeta N z‖ := by
      intro j
      have hc := ric_cross' (N + j) hz
      have h1 : (1 : ℝ) = ‖ricPsi (N + j + 1) z * ricZeta (N + j) z - ricPsi (N + j) z * ricZeta (N + j + 1) z‖ := by
        rw [hc]; simp
      have h2 := norm_sub_le (ricPsi (N + j + 1) z * ricZeta (N + j) z) (ricPsi (N + j) z * ricZeta (N + j + 1) z)
      rw [← h1, norm_mul, norm_mul] at h2
      have b1 := bd (N + j) (by omega)
      have b2 := bd (N + j + 1) (by omega)
      have q1 := half j
      have q2 := half (j + 1)
      have q3 : ‖ricPsi N z‖ * (1 / 2) ^ (j + 1) ≤ ‖ricPsi N z‖ * (1 / 2) ^ j := by
        rw [pow_succ]
        have : 0 ≤ ‖ricPsi N z‖ * (1 / 2 : ℝ) ^ j := by positivity
        linarith
      have r1 := mul_le_mul (q2.trans q3) b1 (norm_nonneg _) (by positivity)
      have r2 := mul_le_mul q1 b2 (norm_nonneg _) (by positivity)
      rw [← add_assoc] at r1
      linarith
    have := ge_of_tendsto' lim this
    linarith
  obtain ⟨M, hM, hM1⟩ := ex
  have key : ∀ n, M ≤ n → ‖ricZeta n z‖ ≤ ‖ricZeta (n + 1) z‖ := by
    intro n hn
    induction n, hn using Nat.le_induction with
    | base => exact hM1
    | succ n hn ih => exact step n (by omega) ih
  have ne1 : ∀ n, M ≤ n → ricZeta (n + 1) z ≠ 0 := by
    intro n hn h0
    have h1 := key n hn
    rw [h0, norm_zero] at h1
    have h2 := norm_le_zero_iff.1 h1
    have := ric_cross' n hz
    rw [h0, h2] at this
    simp at this
    exact I_ne_zero this.symm
  rw [eventually_atTop]
  refine ⟨M + 1, fun n hn => ⟨?_, key n (by omega)⟩⟩
  have := ne1 (n - 1) (by omega)
  rwa [Nat.sub_add_cancel (by omega)] at this

theorem inv_odd_lim (z : ℂ) : Tendsto (fun n : ℕ => z / (2 * (n : ℂ) + 3)) atTop (𝓝 0) := by
  rw [tendsto_zero_iff_norm_tendsto_zero]
  have h : ∀ n : ℕ, ‖z / (2 * (n : ℂ) + 3)‖ ≤ ‖z‖ * (1 / ((n : ℝ) + 1)) := by
    intro n
    rw [norm_div, show (2 * (n : ℂ) + 3) = ((2 * (n : ℝ) + 3 : ℝ) : ℂ) by push_cast; ring, norm_real,
      Real.norm_of_nonneg (by positivity), mul_one_div]
    exact div_le_div_of_nonneg_left (norm_nonneg _) (by positivity) (by linarith [Nat.cast_nonneg (α := ℝ) n])
  refine squeeze_zero (fun _ => norm_nonneg _) h ?_
  simpa using (tendsto_one_div_add_atTop_nhds_zero_nat (𝕜 := ℝ)).const_mul ‖z‖

theorem odd_ne (n : ℕ) : (2 * (n : ℂ) + 3) ≠ 0 := by
  have : (2 * (n : ℂ) + 3) = ((2 * n + 3 : ℕ) : ℂ) := by push_cast; ring
  rw [this]
  exact Nat.cast_ne_zero.2 (by omega)

theorem eventually_ricZeta_ne {z : ℂ} (hz : z ≠ 0) : ∀ᶠ n : ℕ in atTop, ricZeta n z ≠ 0 :=
  (zeta_grows hz).mono fun _ h => h.1

/-- Product of a bounded and a vanishing sequence. -/
theorem tendsto_bdd_mul {ι : Type*} {F : Filter ι} {f g : ι → ℂ} {C : ℝ} (hf : ∀ᶠ i in F, ‖f i‖ ≤ C)
    (hg : Tendsto g F (𝓝 0)) : Tendsto (fun i => f i * g i) F (𝓝 0) := by
  rw [tendsto_zero_iff_norm_tendsto_zero] at hg ⊢
  refine squeeze_zero' (Eventually.of_forall fun _ => norm_nonneg _) (hf.mono fun i hi => ?_)
    (by simpa using hg.const_mul C)
  rw [norm_mul]
  exact mul_le_mul_of_nonneg_right hi (norm_nonneg _)

theorem zeta_ratio_lim {z : ℂ} (hz : z ≠ 0) :
    Tendsto (fun n : ℕ => ricZeta (n + 1) z / ricZeta (n + 2) z * ((2 * (n : ℂ) + 3) / z)) atTop (𝓝 1) := by
  have h1 : Tendsto (fun n : ℕ => 1 - ricZeta n z / ricZeta (n + 1) z * (z / (2 * (n : ℂ) + 3))) atTop
      (𝓝 (1 - 0)) := by
    refine tendsto_const_nhds.sub (tendsto_bdd_mul (C := 1) ?_ (inv_odd_lim z))
    filter_upwards [zeta_grows hz] with n hn
    have : 0 < ‖ricZeta (n + 1) z‖ := lt_of_lt_of_le (norm_pos_iff.2 hn.1) hn.2
    rw [norm_div, div_le_one this]
    exact hn.2
  have h2 := h1.inv₀ (by norm_num)
  rw [sub_zero, inv_one] at h2
  refine h2.congr' ?_
  have e2 := (tendsto_add_atTop_nat 2).eventually (eventually_ricZeta_ne hz)
  have e1 := (tendsto_add_atTop_nat 1).eventually (eventually_ricZeta_ne hz)
  filter_upwards [e1, e2] with n h1 h2
  have ho := odd_ne n
  have e : 1 - ricZeta n z / ricZeta (n + 1) z * (z / (2 * (n : ℂ) + 3)) =
      ricZeta (n + 2) z / ricZeta (n + 1) z * (z / (2 * (n : ℂ) + 3)) := by
    rw [ricZeta_rec n hz]
    field_simp
  rw [e, mul_inv, inv_div, inv_div]

/-- `psi_{n+1} / psi_n` vanishes at large order. -/
theorem psi_ratio_zero {z : ℂ} (hz : z ≠ 0) :
    Tendsto (fun n : ℕ => ricPsi (n + 1) z / ricPsi n z) atTop (𝓝 0) := by
  have := (psi_ratio_lim hz).mul (inv_odd_lim z)
  rw [mul_zero] at this
  refine this.congr fun n => ?_
  have := odd_ne n
  field_simp

theorem zeta_ratio_zero {z : ℂ} (hz : z ≠ 0) :
    Tendsto (fun n : ℕ => ricZeta n z / ricZeta (n + 1) z) atTop (𝓝 0) := by
  have := (zeta_ratio_lim hz).mul (inv_odd_lim z)
  rw [mul_zero] at this
  refine (tendsto_add_atTop_iff_nat 1).1 (this.congr fun n => ?_)
  have := odd_ne n
  field_simp

/-! ## Logarithmic derivatives at large order -/

theorem inv_nat_lim : Tendsto (fun n : ℕ => (1 : ℂ) / (n : ℂ)) atTop (𝓝 0) :=
  tendsto_one_div_atTop_nhds_zero_nat

theorem d1_lim {z : ℂ} (hz : z ≠ 0) : Tendsto (fun n : ℕ => z * logD1 n z / n) atTop (𝓝 1) := by
  have h := ((tendsto_const_nhds (x := (1 : ℂ))).add inv_nat_lim).sub
    (((psi_ratio_zero hz).const_mul z).mul inv_nat_lim)
  have e : (1 : ℂ) + 0 - z * 0 * 0 = 1 := by ring
  rw [e] at h
  refine h.congr' ?_
  filter_upwards [eventually_ricPsi_ne hz, eventually_ge_atTop 1] with n hp hn
  have : (n : ℂ) ≠ 0 := Nat.cast_ne_zero.2 (by omega)
  unfold logD1
  rw [deriv_ricPsi_raise n hz]
  field_simp

theorem d3_lim {z : ℂ} (hz : z ≠ 0) : Tendsto (fun n : ℕ => z * logD3 n z / n) atTop (𝓝 (-1)) := by
  refine (tendsto_add_atTop_iff_nat 1).1 ?_
  have h := (tendsto_const_nhds (x := (-1 : ℂ))).add
    (((zeta_ratio_zero hz).const_mul z).mul ((tendsto_add_atTop_iff_nat 1).2 inv_nat_lim))
  have e : (-1 : ℂ) + z * 0 * 0 = -1 := by ring
  rw [e] at h
  refine h.congr' ?_
  filter_upwards [(tendsto_add_atTop_nat 1).eventually (eventually_ricZeta_ne hz)] with n hp
  have : ((n + 1 : ℕ) : ℂ) ≠ 0 := Nat.cast_ne_zero.2 (by omega)
  unfold logD3
  rw [deriv_ricZeta_lower n hz]
  push_cast at this ⊢
  field_simp
  ring

/-! ## Propagation through a layer, decay -/

/-- `psi_n(z1) zeta_n(z2) / (zeta_n(z1) psi_n(z2))` vanishes at large order if `z1` is the smaller argument. -/
theorem q_lim {z1 z2 : ℂ} (h1 : z1 ≠ 0) (h2 : z2 ≠ 0) (h : ‖z1‖ < ‖z2‖) :
    Tendsto (fun n : ℕ => ricPsi n z1 * ricZeta n z2 / (ricZeta n z1 * ricPsi n z2)) atTop (𝓝 0) := by
  have p2 : 0 < ‖z2‖ := norm_pos_iff.2 h2
  refine (tendsto_add_atTop_iff_nat 1).1 ?_
  refine (summable_of_ratio_test_tendsto_lt_one (α := ℂ) (l := (‖z1‖ / ‖z2‖) ^ 2) ?_ ?_ ?_).tendsto_atTop_zero
  · have := (div_lt_one p2).2 h
    exact pow_lt_one₀ (by positivity) this (by norm_num)
  · filter_upwards [(tendsto_add_atTop_nat 1).eventually (eventually_ricPsi_ne h1),
      (tendsto_add_atTop_nat 1).eventually (eventually_ricPsi_ne h2),
      (tendsto_add_atTop_nat 1).eventually (eventually_ricZeta_ne h1),
      (tendsto_add_atTop_nat 1).eventually (eventually_ricZeta_ne h2)] with n a b c d
    exact div_ne_zero (mul_ne_zero a d) (mul_ne_zero c b)
  · have l1 := (tendsto_add_atTop_iff_nat 1).2 (psi_ratio_lim h1)
    have l2 := (tendsto_add_atTop_iff_nat 1).2 (psi_ratio_lim h2)
    have l3 := zeta_ratio_lim h1
    have l4 := zeta_ratio_lim h2
    have hl := (((l1.div l2 (by norm_num)).mul (l3.div l4 (by norm_num))).mul_const ((z1 / z2) ^ 2)).norm
    rw [div_one, one_mul, one_mul, norm_pow, norm_div] at hl
    refine hl.congr' ?_
    filter_upwards [(tendsto_add_atTop_nat 1).eventually (eventually_ricPsi_ne h1),
      (tendsto_add_atTop_nat 1).eventually (eventually_ricPsi_ne h2),
      (tendsto_add_atTop_nat 1).eventually (eventually_ricZeta_ne h1),
      (tendsto_add_atTop_nat 1).eventually (eventually_ricZeta_ne h2),
      (tendsto_add_atTop_nat 2).eventually (eventually_ricPsi_ne h1),
      (tendsto_add_atTop_nat 2).eventually (eventually_ricPsi_ne h2),
      (tendsto_add_atTop_nat 2).eventually (eventually_ricZeta_ne h1),
      (tendsto_add_atTop_nat 2).eventually (eventually_ricZeta_ne h2)] with n a b c d a' b' c' d'
    rw [← norm_div]
    congr 1
    have o1 := odd_ne n
    have o2 := odd_ne (n + 1)
    simp only [Pi.div_apply, show n + 1 + 1 = n + 2 from rfl]
    field_simp

/-- `psi_n / zeta_n` decays faster than every geometric sequence. -/
theorem psi_over_zeta_decay {z : ℂ} (hz : z ≠ 0) {r : ℝ} (hr : 0 < r) :
    Tendsto (fun n : ℕ => ricPsi n z / ricZeta n z / (r : ℂ) ^ n) atTop (𝓝 0) := by
  have hrc : (r : ℂ) ≠ 0 := ofReal_ne_zero.2 hr.ne'
  refine (summable_of_ratio_test_tendsto_lt_one (α := ℂ) (l := 0) (by norm_num) ?_ ?_).tendsto_atTop_zero
  · filter_upwards [eventually_ricPsi_ne hz, eventually_ricZeta_ne hz] with n a b
    exact div_ne_zero (div_ne_zero a b) (pow_ne_zero _ hrc)
  · have hl := (((psi_ratio_zero hz).mul (zeta_ratio_zero hz)).mul_const (1 / (r : ℂ))).norm
    rw [mul_zero, zero_mul, norm_zero] at hl
    refine hl.congr' ?_
    filter_upwards [eventually_ricPsi_ne hz, eventually_ricZeta_ne hz,
      (tendsto_add_atTop_nat 1).eventually (eventually_ricZeta_ne hz)] with n a b c
    rw [← norm_div]
    congr 1
    field_simp
    ring

/-! ## Waves -/

/-- Outgoing part of a wave relative to its regular part, at `z`. -/
noncomputable def outPart (w : Wave) (n : ℕ) (z : ℂ) : ℂ := w.a * ricZeta n z / (w.d * ricPsi n z)

/-- Logarithmic derivative of a wave in units of `n / z`. -/
noncomputable def logH (w : Wave) (n : ℕ) (z : ℂ) : ℂ := z * (w.der n z / w.val n z) / n

theorem logH_ne {w : Wave} {n : ℕ} {z : ℂ} (h : logH w n z ≠ 0) :
    w.val n z ≠ 0 ∧ w.der n z ≠ 0 ∧ z ≠ 0 ∧ (n : ℂ) ≠ 0 := by
  refine ⟨?_, ?_, ?_, ?_⟩ <;> intro h0 <;> apply h <;> simp [logH, h0]

/-- Limit of the logarithmic derivative just outside an interface. -/
noncomputable def crossC : Pol → ℂ → ℂ → ℂ
  | .tm, m, m' => (m' / m) ^ 2
  | .te, _, _ => 1

theorem cross_logH {p : Pol} {n : ℕ} {m m' x : ℂ} {w w' : Wave} (hm : m ≠ 0) (hm' : m' ≠ 0) (hx : x ≠ 0)
    (hv : w.val n (m * x) ≠ 0) (h : Cont p n m m' x w w') :
    w'.val n (m' * x) ≠ 0 ∧ logH w' n (m' * x) = crossC p m m' * logH w n (m * x) := by
  cases p
  · obtain ⟨h1, h2⟩ := h
    have h3 : w'.der n (m' * x) = w.der n (m * x) * m' / m := by rw [eq_div_iff hm]; exact h2.symm
    refine ⟨by rw [← h1]; exact hv, ?_⟩
    unfold logH crossC
    rw [h3, ← h1]
    field_simp
  · obtain ⟨h1, h2⟩ := h
    have h3 : w'.val n (m' * x) = w.val n (m * x) * m' / m := by rw [eq_div_iff hm]; exact h1.symm
    refine ⟨by rw [h3]; exact div_ne_zero (mul_ne_zero hv hm') hm, ?_⟩
    unfold logH crossC
    rw [h3, ← h2]
    field_simp

/-- The outgoing part from the logarithmic derivative. -/
theorem outPart_eq {w : Wave} {n : ℕ} {z : ℂ} (hz : z ≠ 0) (hn : (n : ℂ) ≠ 0) (hv : w.val n z ≠ 0)
    (h1 : ricPsi n z ≠ 0) (h3 : ricZeta n z ≠ 0) (hd : z * logD3 n z / n - logH w n z ≠ 0) :
    w.d ≠ 0 ∧ outPart w n z = (z * logD1 n z / n - logH w n z) / (z * logD3 n z / n - logH w n z) := by
  have ea := wave_a w n hz
  have ed := wave_d w n hz
  have e1 : w.a * I * z / (n * w.val n z * ricPsi n z) = z * logD1 n z / n - logH w n z := by
    rw [← ea]; unfold logD1 logH; field_simp
  have e2 : w.d * I * z / (n * w.val n z * ricZeta n z) = z * logD3 n z / n - logH w n z := by
    rw [← ed]; unfold logD3 logH; field_simp
  have d0 : w.d ≠ 0 := by
    intro h0; apply hd; rw [← e2, h0]; simp
  refine ⟨d0, ?_⟩
  rw [← e1, ← e2, outPart]
  have := I_ne_zero
  field_simp

variable {ι : Type*} {F : Filter ι} {n : ι → ℕ}

/-- Crossing an interface: the outgoing part has a limit. -/
theorem cross_lim (hn : Tendsto n F atTop) {p : Pol} {m m' x : ℂ} (hm : m ≠ 0) (hm' : m' ≠ 0) (hx : x ≠ 0)
    (hres : m ^ 2 + m' ^ 2 ≠ 0) {w w' : ι → Wave} (hc : ∀ᶠ i in F, Cont p (n i) m m' x (w i) (w' i))
    (hw : Tendsto (fun i => logH (w i) (n i) (m * x)) F (𝓝 1)) :
    (∀ᶠ i in F, (w' i).d ≠ 0) ∧
      Tendsto (fun i => outPart (w' i) (n i) (m' * x)) F (𝓝 ((crossC p m m' - 1) / (crossC p m m' + 1))) := by
  have hz : m' * x ≠ 0 := mul_ne_zero hm' hx
  have hC : crossC p m m' + 1 ≠ 0 := by
    cases p
    · unfold crossC
      intro h0
      apply hres
      field_simp at h0
      linear_combination h0
    · unfold crossC; norm_num
  have w0 : ∀ᶠ i in F, logH (w i) (n i) (m * x) ≠ 0 := hw.eventually_ne one_ne_zero
  have eqs : ∀ᶠ i in F, (w' i).val (n i) (m' * x) ≠ 0 ∧
      logH (w' i) (n i) (m' * x) = crossC p m m' * logH (w i) (n i) (m * x) := by
    filter_upwards [hc, w0] with i h1 h2
    exact cross_logH hm hm' hx (logH_ne h2).1 h1
  have hw' : Tendsto (fun i => logH (w' i) (n i) (m' * x)) F (𝓝 (crossC p m m')) := by
    have := hw.const_mul (crossC p m m')
    rw [mul_one] at this
    exact this.congr' (eqs.mono fun i h => h.2.symm)
  have l1 := ((d1_lim hz).comp hn).sub hw'
  have l3 := ((d3_lim hz).comp hn).sub hw'
  have hC' : -1 - crossC p m m' ≠ 0 := by
    intro h0; apply hC; linear_combination -h0
  have l3n := l3.eventually_ne hC'
  have fin : ∀ᶠ i in F, (w' i).d ≠ 0 ∧ outPart (w' i) (n i) (m' * x) =
      (m' * x * logD1 (n i) (m' * x) / (n i) - logH (w' i) (n i) (m' * x)) /
        (m' * x * logD3 (n i) (m' * x) / (n i) - logH (w' i) (n i) (m' * x)) := by
    filter_upwards [eqs, w0, l3n, hn.eventually (eventually_ricPsi_ne hz),
      hn.eventually (eventually_ricZeta_ne hz)] with i h1 h2 h3 h4 h5
    exact outPart_eq hz (logH_ne h2).2.2.2 h1.1 h4 h5 h3
  refine ⟨fin.mono fun i h => h.1, ?_⟩
  have hl := l1.div l3 hC'
  have e : (1 - crossC p m m') / (-1 - crossC p m m') = (crossC p m m' - 1) / (crossC p m m' + 1) := by
    rw [div_eq_div_iff hC' hC]; ring
  rw [e] at hl
  exact hl.congr' (fin.mono fun i h => h.2.symm)

/-- Propagation to a larger radius: the outgoing part disappears. -/
theorem prop_lim (hn : Tendsto n F atTop) {z1 z2 L : ℂ} (h1 : z1 ≠ 0) (h2 : z2 ≠ 0) (h : ‖z1‖ < ‖z2‖)
    {w : ι → Wave} (hd : ∀ᶠ i in F, (w i).d ≠ 0)
    (hw : Tendsto (fun i => outPart (w i) (n i) z1) F (𝓝 L)) :
    Tendsto (fun i => logH (w i) (n i) z2) F (𝓝 1) := by
  have lo : Tendsto (fun i => outPart (w i) (n i) z2) F (𝓝 0) := by
    have := hw.mul ((q_lim h1 h2 h).comp hn)
    rw [mul_zero] at this
    refine this.congr' ?_
    filter_upwards [hd, hn.eventually (eventually_ricPsi_ne h1), hn.eventually (eventually_ricPsi_ne h2),
      hn.eventually (eventually_ricZeta_ne h1)] with i a b c d
    simp only [outPart, Function.comp]
    field_simp
  have l1 := (d1_lim h2).comp hn
  have l3 := (d3_lim h2).comp hn
  have hl := (l1.sub (lo.mul l3)).div ((tendsto_const_nhds (x := (1 : ℂ))).sub lo) (by norm_num)
  have e : ((1 : ℂ) - 0 * -1) / (1 - 0) = 1 := by norm_num
  rw [e] at hl
  have lne := ((tendsto_const_nhds (x := (1 : ℂ))).sub lo).eventually_ne (by norm_num : (1 : ℂ) - 0 ≠ 0)
  refine hl.congr' ?_
  filter_upwards [hd, hn.eventually (eventually_ricPsi_ne h2), hn.eventually (eventually_ricZeta_ne h2),
    hn.eventually (eventually_ge_atTop 1), lne] with i a b c d f
  have n0 : (n i : ℂ) ≠ 0 := Nat.cast_ne_zero.2 (by omega)
  have hv : (w i).val (n i) z2 = (w i).d * ricPsi (n i) z2 * (1 - outPart (w i) (n i) z2) := by
    unfold Wave.val outPart; field_simp
  have hr : (w i).der (n i) z2 = (w i).d * ricPsi (n i) z2 *
      (logD1 (n i) z2 - outPart (w i) (n i) z2 * logD3 (n i) z2) := by
    unfold Wave.der outPart logD1 logD3; field_simp
  simp only [Function.comp, logH, hv, hr, Pi.div_apply]
  field_simp

/-- Strictly growing radii, nonzero indices and no cancelling neighbours: `(m, x)` is the current layer. -/
def DecayOK : ℂ × ℂ → List (ℂ × ℂ) → Prop
  | l, [] => l.1 ≠ 0 ∧ l.2 ≠ 0 ∧ l.1 ^ 2 + 1 ≠ 0
  | l, l' :: rest => l.1 ≠ 0 ∧ l.2 ≠ 0 ∧ l.1 ^ 2 + l'.1 ^ 2 ≠ 0 ∧ ‖l.2‖ < ‖l'.2‖ ∧ DecayOK l' rest

theorem DecayOK.head {l : ℂ × ℂ} {rest : List (ℂ × ℂ)} (h : DecayOK l rest) : l.1 ≠ 0 ∧ l.2 ≠ 0 := by
  cases rest with
  | nil => exact ⟨h.1, h.2.1⟩
  | cons l' rest => exact ⟨h.1, h.2.1⟩

theorem chain_lim (hn : Tendsto n F atTop) (p : Pol) :
    ∀ (rest : List (ℂ × ℂ)) (l : ℂ × ℂ) (w out : ι → Wave), DecayOK l rest →
      (∀ᶠ i in F, Chain p (n i) (w i) (l :: rest) (out i)) →
      Tendsto (fun i => logH (w i) (n i) (l.1 * l.2)) F (𝓝 1) →
      ∃ L, (∀ᶠ i in F, (out i).d ≠ 0) ∧
        Tendsto (fun i => outPart (out i) (n i) ((l :: rest).getLast (by simp)).2) F (𝓝 L) := by
  intro rest
  induction rest with
  | nil =>
    intro l w out hd hc hw
    obtain ⟨m, x⟩ := l
    have := cross_lim hn hd.1 one_ne_zero hd.2.1 (by rw [one_pow]; exact hd.2.2) hc hw
    simp only [one_mul] at this
    exact ⟨_, this.1, by simpa using this.2⟩
  | cons l' rest ih =>
    intro l w out hd hc hw
    obtain ⟨m, x⟩ := l
    obtain ⟨m', x'⟩ := l'
    have hex : ∀ i, ∃ w', Chain p (n i) (w i) ((m, x) :: (m', x') :: rest) (out i) →
        Cont p (n i) m m' x (w i) w' ∧ Chain p (n i) w' ((m', x') :: rest) (out i) := by
      intro i
      by_cases h : Chain p (n i) (w i) ((m, x) :: (m', x') :: rest) (out i)
      · obtain ⟨w', h1, h2⟩ := h
        exact ⟨w', fun _ => ⟨h1, h2⟩⟩
      · exact ⟨⟨0, 0⟩, fun h' => absurd h' h⟩
    choose w' hw0 using hex
    have hw' := hc.mono fun i h => hw0 i h
    obtain ⟨d1, d2, d3, d4, d5⟩ := hd
    have d6 := d5.head
    have hx := cross_lim hn d1 d6.1 d2 d3 (hw'.mono fun i h => h.1) hw
    have hp := prop_lim hn (mul_ne_zero d6.1 d2) (mul_ne_zero d6.1 d6.2) (by
      rw [norm_mul, norm_mul]
      exact mul_lt_mul_of_pos_left d4 (norm_pos_iff.2 d6.1)) hx.1 hx.2
    obtain ⟨L, h1, h2⟩ := ih (m', x') w' out d5 (hw'.mono fun i h => h.2) hp
    exact ⟨L, h1, by rw [List.getLast_cons (by simp)]; exact h2⟩

theorem DecayOK.ne : ∀ {rest : List (ℂ × ℂ)} {l : ℂ × ℂ}, DecayOK l rest →
    ∀ l' ∈ l :: rest, l'.1 ≠ 0 ∧ l'.2 ≠ 0 := by
  intro rest
  induction rest with
  | nil => intro l h l' hl; rw [List.mem_singleton] at hl; rw [hl]; exact h.head
  | cons a rest ih =>
    intro l h l' hl
    rcases List.mem_cons.1 hl with rfl | hl
    · exact h.head
    · exact ih h.2.2.2.2 l' hl

theorem chain_core_ne {p : Pol} {k : ℕ} {layers : List (ℂ × ℂ)} {core out : Wave}
    (hl : ∀ l ∈ layers, l.1 ≠ 0 ∧ l.2 ≠ 0) (ha : core.a = 0) (h : Chain p k core layers out) (ho : out.d ≠ 0) :
    core.d ≠ 0 := by
  intro h0
  have h6 := h.smul 0
  have h7 : core.smul 0 = core := by
    cases core; simp only [Wave.smul, Wave.mk.injEq] at *; exact ⟨by rw [h0]; ring, by rw [ha]; ring⟩
  rw [h7] at h6
  have h8 := Chain.unique hl h h6
  apply ho
  rw [h8]; simp [Wave.smul]

/-- Scattering coefficients at large order are bounded by `psi_n(x) / zeta_n(x)` at the outer radius. -/
theorem solves_bound (p : Pol) {l : ℂ × ℂ} {rest : List (ℂ × ℂ)} (hd : DecayOK l rest) :
    ∃ C : ℝ, ∀ᶠ k : ℕ in atTop, ∀ a, Solves p k (l :: rest) a →
      ‖a‖ ≤ C * ‖ricPsi k ((l :: rest).getLast (by simp)).2 / ricZeta k ((l :: rest).getLast (by simp)).2‖ := by
  set x := ((l :: rest).getLast (by simp)).2 with hx
  have hx0 : x ≠ 0 := (hd.ne _ (List.getLast_mem (by simp))).2
  let T := {t : ℕ × ℂ // Solves p t.1 (l :: rest) t.2}
  let nn : T → ℕ := fun t => t.1.1
  let F : Filter T := comap nn atTop
  have hn : Tendsto nn F atTop := tendsto_comap
  choose core hca hch using fun t : T => t.2
  have hcore : ∀ t : T, (core t).d ≠ 0 := fun t => chain_core_ne hd.ne (hca t) (hch t) one_ne_zero
  have hz : l.1 * l.2 ≠ 0 := mul_ne_zero hd.head.1 hd.head.2
  have hw : Tendsto (fun t => logH (core t) (nn t) (l.1 * l.2)) F (𝓝 1) := by
    refine ((d1_lim hz).comp hn).congr' ?_
    refine Eventually.of_forall fun t => ?_
    have := hcore t
    simp only [Function.comp, logH, Wave.val, Wave.der, hca t, zero_mul, sub_zero, logD1]
    rw [mul_div_mul_left _ _ this]
  obtain ⟨L, -, hL⟩ := chain_lim hn p rest l core (fun t => ⟨1, t.1.2⟩) hd (Eventually.of_forall hch) hw
  refine ⟨‖L‖ + 1, ?_⟩
  have hb : ∀ᶠ t in F, ‖outPart ⟨1, t.1.2⟩ (nn t) x‖ ≤ ‖L‖ + 1 :=
    (hL.norm.eventually_lt_const (by linarith : ‖L‖ < ‖L‖ + 1)).mono fun t h => h.le
  have hb' := Filter.eventually_comap.1 hb
  filter_upwards [hb', eventually_ricPsi_ne hx0, eventually_ricZeta_ne hx0] with k hk p1 p3
  intro a ha
  have := hk ⟨(k, a), ha⟩ rfl
  simp only [outPart, one_mul, nn] at this
  have e : a = a * ricZeta k x / ricPsi k x * (ricPsi k x / ricZeta k x) := by field_simp
  calc ‖a‖ = ‖a * ricZeta k x / ricPsi k x‖ * ‖ricPsi k x / ricZeta k x‖ := by
        rw [← norm_mul, ← e]
    _ ≤ _ := mul_le_mul_of_nonneg_right this (norm_nonneg _)

/-- Scattering coefficients decay faster than every geometric sequence. -/
theorem solves_decay (p : Pol) {l : ℂ × ℂ} {rest : List (ℂ × ℂ)} (hd : DecayOK l rest) {r : ℝ} (hr : 0 < r) :
    ∃ C : ℝ, 0 ≤ C ∧ ∀ k a, Solves p k (l :: rest) a → ‖a‖ ≤ C * r ^ k := by
  obtain ⟨C, hC⟩ := solves_bound p hd
  set x := ((l :: rest).getLast (by simp)).2 with hx
  have hx0 : x ≠ 0 := (hd.ne _ (List.getLast_mem (by simp))).2
  have hs := (psi_over_zeta_decay hx0 hr).norm
  rw [norm_zero] at hs
  have hs := hs.eventually_lt_const (by norm_num : (0 : ℝ) < 1)
  obtain ⟨N, hN⟩ := eventually_atTop.1 (hC.and hs)
  -- finitely many smaller orders
  have small : ∀ k : ℕ, ∃ M : ℝ, 0 ≤ M ∧ ∀ a, Solves p k (l :: rest) a → ‖a‖ ≤ M * r ^ k := by
    intro k
    by_cases h : ∃ a, Solves p k (l :: rest) a
    · obtain ⟨a, ha⟩ := h
      refine ⟨‖a‖ / r ^ k, by positivity, fun a' ha' => ?_⟩
      rw [ha'.unique hd.ne ha, div_mul_cancel₀ _ (pow_pos hr k).ne']
    · exact ⟨0, le_rfl, fun a ha => absurd ⟨a, ha⟩ h⟩
  choose M hM0 hM using small
  have hS : ∀ k, k < N → M k ≤ ∑ j ∈ Finset.range N, M j := fun k hk =>
    Finset.single_le_sum (fun j _ => hM0 j) (Finset.mem_range.2 hk)
  have hS0 : 0 ≤ ∑ j ∈ Finset.range N, M j := Finset.sum_nonneg fun j _ => hM0 j
  refine ⟨|C| + ∑ j ∈ Finset.range N, M j, by positivity, fun k a ha => ?_⟩
  have hrk : 0 < r ^ k := pow_pos hr k
  by_cases hk : k < N
  · refine (hM k a ha).trans (mul_le_mul_of_nonneg_right ?_ hrk.le)
    linarith [hS k hk, abs_nonneg C]
  · obtain ⟨h1, h2⟩ := hN k (by omega)
    have h1 := h1 a ha
    rw [norm_div, norm_pow, norm_real, Real.norm_of_nonneg hr.le, div_lt_one hrk] at h2
    calc ‖a‖ ≤ C * ‖ricPsi k x / ricZeta k x‖ := h1
      _ ≤ |C| * ‖ricPsi k x / ricZeta k x‖ := mul_le_mul_of_nonneg_right (le_abs_self C) (norm_nonneg _)
      _ ≤ |C| * r ^ k := mul_le_mul_of_nonneg_left h2.le (abs_nonneg C)
      _ ≤ _ := mul_le_mul_of_nonneg_right (by linarith) hrk.le

end MieDiff
