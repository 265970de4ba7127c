import Verif.Proofs.SolverLimit

/-!
# What the truncated downward recurrence computes

Started with `0` at order `N`, the recurrence returns the logarithmic derivatives of the combination of `psi` and `chi` whose
derivative vanishes at order `N`.
-/

namespace MieDiff

open Complex Filter Topology Spec

theorem hasDerivAt_psi_raise (n : ℕ) {z : ℂ} (hz : z ≠ 0) :
    HasDerivAt (ricPsi n) (((n : ℂ) + 1) / z * ricPsi n z - ricPsi (n + 1) z) z := sphJ_seq.ric_raise n hz

theorem hasDerivAt_psi_lower (n : ℕ) {z : ℂ} (hz : z ≠ 0) :
    HasDerivAt (ricPsi (n + 1)) (ricPsi n z - ((n : ℂ) + 1) / z * ricPsi (n + 1) z) z := sphJ_seq.ric_lower n hz

theorem hasDerivAt_chi_raise (n : ℕ) {z : ℂ} (hz : z ≠ 0) :
    HasDerivAt (ricChi n) (((n : ℂ) + 1) / z * ricChi n z - ricChi (n + 1) z) z := by
  have h := (sphY_seq.ric_raise n hz).neg
  have e : (ricChi n) = fun w => -(w * sphY n w) := by funext w; unfold ricChi; ring
  rw [e]
  refine h.congr_deriv ?_
  unfold ricChi
  ring

theorem hasDerivAt_chi_lower (n : ℕ) {z : ℂ} (hz : z ≠ 0) :
    HasDerivAt (ricChi (n + 1)) (ricChi n z - ((n : ℂ) + 1) / z * ricChi (n + 1) z) z := by
  have h := (sphY_seq.ric_lower n hz).neg
  have e : (ricChi (n + 1)) = fun w => -(w * sphY (n + 1) w) := by funext w; unfold ricChi; ring
  rw [e]
  refine h.congr_deriv ?_
  unfold ricChi
  ring

theorem chi_cross (n : ℕ) {z : ℂ} (hz : z ≠ 0) :
    ricPsi n z * ricChi (n + 1) z - ricPsi (n + 1) z * ricChi n z = 1 := by
  have h := ric_cross n hz
  have e : ∀ m, ricZeta m z = ricPsi m z - I * ricChi m z := by
    intro m; unfold ricZeta ricPsi ricChi sphH; ring
  rw [e, e] at h
  have hI : I * (ricPsi n z * ricChi (n + 1) z - ricPsi (n + 1) z * ricChi n z) = I * 1 := by
    linear_combination h
  exact mul_left_cancel₀ I_ne_zero hI

/-- The Wronskian. -/
theorem wronskian (n : ℕ) {z : ℂ} (hz : z ≠ 0) :
    ricPsi n z * deriv (ricChi n) z - ricChi n z * deriv (ricPsi n) z = -1 := by
  rw [(hasDerivAt_psi_raise n hz).deriv, (hasDerivAt_chi_raise n hz).deriv]
  linear_combination -chi_cross n hz

/-- Combination of `psi_k` and `chi_k` that belongs to the start `D_N(z) = 0`, at the argument `w`. -/
noncomputable def stubWave (N : ℕ) (z : ℂ) (k : ℕ) (w : ℂ) : ℂ :=
  deriv (ricChi N) z * ricPsi k w - deriv (ricPsi N) z * ricChi k w

theorem stub_raise (N : ℕ) (c : ℂ) (k : ℕ) {z : ℂ} (hz : z ≠ 0) :
    HasDerivAt (stubWave N c k) (((k : ℂ) + 1) / z * stubWave N c k z - stubWave N c (k + 1) z) z := by
  have h := ((hasDerivAt_psi_raise k hz).const_mul (deriv (ricChi N) c)).sub
    ((hasDerivAt_chi_raise k hz).const_mul (deriv (ricPsi N) c))
  refine h.congr_deriv ?_
  unfold stubWave
  ring

theorem stub_lower (N : ℕ) (c : ℂ) (k : ℕ) {z : ℂ} (hz : z ≠ 0) :
    HasDerivAt (stubWave N c (k + 1)) (stubWave N c k z - ((k : ℂ) + 1) / z * stubWave N c (k + 1) z) z := by
  have h := ((hasDerivAt_psi_lower k hz).const_mul (deriv (ricChi N) c)).sub
    ((hasDerivAt_chi_lower k hz).const_mul (deriv (ricPsi N) c))
  refine h.congr_deriv ?_
  unfold stubWave
  ring

theorem stub_deriv (N k : ℕ) {z : ℂ} (hz : z ≠ 0) :
    deriv (stubWave N z k) z = deriv (ricChi N) z * deriv (ricPsi k) z - deriv (ricPsi N) z * deriv (ricChi k) z := by
  have h := ((hasDerivAt_psi_raise k hz).const_mul (deriv (ricChi N) z)).sub
    ((hasDerivAt_chi_raise k hz).const_mul (deriv (ricPsi N) z))
  rw [(hasDerivAt_psi_raise k hz).deriv, (hasDerivAt_chi_raise k hz).deriv]
  exact h.deriv

theorem stub_top (N : ℕ) {z : ℂ} (hz : z ≠ 0) : stubWave N z N z = -1 := by
  have := wronskian N hz
  unfold stubWave
  linear_combination this

/-- The recurrence without active guards. -/
theorem d1Val_closed {z : ℂ} {eps : ℝ} (hz : z ≠ 0) (heps : 0 < eps) (N : ℕ) :
    ∀ j k : ℕ, k + j = N → (∀ i, k ≤ i → i < N → eps * ‖stubWave N z (i + 1) z‖ ≤ ‖stubWave N z i z‖) →
      stubWave N z k z ≠ 0 ∧ d1Val z eps N k = deriv (stubWave N z k) z / stubWave N z k z := by
  intro j
  induction j with
  | zero =>
    intro k hk _
    obtain rfl : k = N := by omega
    refine ⟨by rw [stub_top k hz]; norm_num, ?_⟩
    rw [d1Val_top, stub_deriv k k hz]
    simp [mul_comm]
  | succ j ih =>
    intro k hk h
    obtain ⟨h1, h2⟩ := ih (k + 1) (by omega) fun i hi hN => h i (by omega) hN
    have h3 := h k le_rfl (by omega)
    have h0 : stubWave N z k z ≠ 0 := by
      intro h0
      rw [h0, norm_zero] at h3
      have := mul_pos heps (norm_pos_iff.2 h1)
      linarith
    refine ⟨h0, ?_⟩
    have e : d1Val z eps N (k + 1) + ((k + 1 : ℕ) : ℂ) / z = stubWave N z k z / stubWave N z (k + 1) z := by
      rw [h2, (stub_lower N z k hz).deriv]
      push_cast
      field_simp
      ring
    rw [d1Val_step z eps (by omega : k < N), e, guardAdd_of_le, (stub_raise N z k hz).deriv]
    · push_cast
      field_simp
    · rw [norm_div, le_div_iff₀ (norm_pos_iff.2 h1)]
      exact h3

/-- Distance to the exact logarithmic derivative. -/
theorem stub_error (N k : ℕ) {z : ℂ} (hz : z ≠ 0) (h1 : ricPsi k z ≠ 0) (h2 : stubWave N z k z ≠ 0) :
    deriv (stubWave N z k) z / stubWave N z k z - deriv (ricPsi k) z / ricPsi k z =
      deriv (ricPsi N) z / (ricPsi k z * stubWave N z k z) := by
  rw [stub_deriv N k hz]
  have hw := wronskian k hz
  rw [div_sub_div _ _ h2 h1, div_eq_div_iff (mul_ne_zero h2 h1) (mul_ne_zero h1 h2)]
  have : (deriv (ricChi N) z * deriv (ricPsi k) z - deriv (ricPsi N) z * deriv (ricChi k) z) * ricPsi k z -
      stubWave N z k z * deriv (ricPsi k) z = deriv (ricPsi N) z := by
    unfold stubWave
    linear_combination -(deriv (ricPsi N) z) * hw
  rw [this]
  ring

/-! ## Orders above the size of the argument -/

/-- Growth of the ratio of neighbouring orders: `1 + sqrt((2j+1)/|z| - 2)`. -/
noncomputable def excess (z : ℂ) (j : ℕ) : ℝ := (2 * (j : ℝ) + 1) / ‖z‖ - 2

theorem excess_nonneg {z : ℂ} (hz : z ≠ 0) {j : ℕ} (h : ‖z‖ ≤ j + 1 / 2) : 0 ≤ excess z j := by
  unfold excess
  have := norm_pos_iff.2 hz
  have : 2 ≤ (2 * (j : ℝ) + 1) / ‖z‖ := by rw [le_div_iff₀ this]; linarith
  linarith

theorem excess_mono {z : ℂ} {i j : ℕ} (h : i ≤ j) : excess z i ≤ excess z j := by
  unfold excess
  have : (i : ℝ) ≤ j := by exact_mod_cast h
  gcongr

/-- One step down, for sizes. -/
theorem step_size {z a b : ℂ} (j : ℕ) (e : b = (2 * (j : ℂ) + 1) / z - 1 / a) {m : ℝ} (hm : 0 < m) (ha : m ≤ ‖a‖) :
    excess z j + 2 - 1 / m ≤ ‖b‖ := by
  have h1 : ‖(2 * (j : ℂ) + 1) / z‖ = (2 * (j : ℝ) + 1) / ‖z‖ :=
    norm_natCast_div _ (by positivity) _ _ (by push_cast; ring)
  have h2 := norm_sub_norm_le ((2 * (j : ℂ) + 1) / z) (1 / a)
  rw [← e, h1, norm_div, norm_one] at h2
  have h3 : 1 / ‖a‖ ≤ 1 / m := one_div_le_one_div_of_le hm ha
  unfold excess
  linarith

theorem root_step {x : ℝ} (hx : 0 ≤ x) : 1 + Real.sqrt x ≤ x + 2 - 1 / (1 + Real.sqrt x) := by
  set s := Real.sqrt x with hs
  have h0 : 0 ≤ s := Real.sqrt_nonneg x
  have h1 : s ^ 2 = x := Real.sq_sqrt hx
  have : x + 2 - 1 / (1 + s) - (1 + s) = s ^ 3 / (1 + s) := by
    rw [← h1]
    field_simp
    ring
  have h2 : 0 ≤ s ^ 3 / (1 + s) := by positivity
  linarith

/-- Ratio `psi_{j-1}/psi_j` in terms of the next one. -/
theorem psi_ratio_step (j : ℕ) {z : ℂ} (hz : z ≠ 0) (h : ricPsi (j + 1) z ≠ 0) :
    ricPsi j z / ricPsi (j + 1) z = (2 * ((j + 1 : ℕ) : ℂ) + 1) / z - 1 / (ricPsi (j + 1) z / ricPsi (j + 2) z) := by
  have e : ricPsi (j + 2) z = (2 * (j : ℂ) + 3) / z * ricPsi (j + 1) z - ricPsi j z := by
    unfold ricPsi
    rw [sphJ_seq.three j hz]
    ring
  rw [one_div_div, e]
  push_cast
  field_simp
  ring

/-- From order `|z| - 1/2` on, `psi` does not vanish and the ratio of neighbouring orders is at least `1 + sqrt(excess)`. -/
theorem psi_ratio_large {z : ℂ} (hz : z ≠ 0) (j : ℕ) (h : ‖z‖ ≤ (j + 1 : ℕ) + 1 / 2) :
    ricPsi j z ≠ 0 ∧ ricPsi (j + 1) z ≠ 0 ∧ 1 + Real.sqrt (excess z (j + 1)) ≤ ‖ricPsi j z / ricPsi (j + 1) z‖ := by
  obtain ⟨m, hm⟩ := exists_nat_ge (2 * ‖z‖)
  have far : ∀ i : ℕ, m ≤ i → 2 * ‖z‖ ≤ i + 1 := by
    intro i hi
    have : (m : ℝ) ≤ i := by exact_mod_cast hi
    linarith
  have ne : ∀ i : ℕ, m ≤ i → ricPsi i z ≠ 0 := fun i hi => (ricPsi_ratio i hz (far i hi)).1
  have base : ∀ i : ℕ, m ≤ i → ‖z‖ ≤ (i + 1 : ℕ) + 1 / 2 → 1 + Real.sqrt (excess z (i + 1)) ≤ ‖ricPsi i z / ricPsi (i + 1) z‖ := by
    intro i hi h
    have h1 := ne (i + 1) (by omega)
    have h2 := ne (i + 2) (by omega)
    have h3 : 2 ≤ ‖ricPsi (i + 1) z / ricPsi (i + 2) z‖ := by
      rw [norm_div, le_div_iff₀ (norm_pos_iff.2 h2)]
      have := (ricPsi_ratio (i + 1) hz (far (i + 1) (by omega))).2
      linarith
    have h4 := step_size (i + 1) (psi_ratio_step i hz h1) (by norm_num) h3
    have h5 : 0 ≤ excess z (i + 1) := excess_nonneg hz h
    have h6 := Real.sq_sqrt h5
    nlinarith [sq_nonneg (Real.sqrt (excess z (i + 1)) - 1)]
  have all : ∀ d i : ℕ, m ≤ i + d → ‖z‖ ≤ (i + 1 : ℕ) + 1 / 2 →
      ricPsi i z ≠ 0 ∧ ricPsi (i + 1) z ≠ 0 ∧ 1 + Real.sqrt (excess z (i + 1)) ≤ ‖ricPsi i z / ricPsi (i + 1) z‖ := by
    intro d
    induction d with
    | zero => intro i hi h; exact ⟨ne i (by omega), ne (i + 1) (by omega), base i (by omega) h⟩
    | succ d ih =>
      intro i hi h
      obtain ⟨h1, h2, h3⟩ := ih (i + 1) (by omega) (by push_cast at h ⊢; linarith)
      have h5 : 0 ≤ excess z (i + 1) := excess_nonneg hz h
      have h4 := step_size (i + 1) (psi_ratio_step i hz h1)
        (m := 1 + Real.sqrt (excess z (i + 1))) (by positivity)
        (le_trans (by have := Real.sqrt_le_sqrt (excess_mono (z := z) (show i + 1 ≤ i + 1 + 1 by omega)); linarith) h3)
      have h6 := (root_step h5).trans h4
      refine ⟨?_, h1, h6⟩
      intro h0
      rw [h0, zero_div, norm_zero] at h6
      have := Real.sqrt_nonneg (excess z (i + 1))
      linarith
  exact all m j (by omega) h

/-- The denominators of the recurrence: at least `1 + excess` below the start. -/
theorem den_size {z : ℂ} {eps : ℝ} (hz : z ≠ 0) (heps : eps ≤ 1) (N : ℕ) :
    ∀ d j : ℕ, j + 1 + d = N → ‖z‖ ≤ (j + 1 : ℕ) + 1 / 2 → ‖z‖ ≤ N →
      1 ≤ ‖d1Val z eps N (j + 1) + ((j + 1 : ℕ) : ℂ) / z‖ ∧
        (1 ≤ d → 1 + excess z (j + 1) ≤ ‖d1Val z eps N (j + 1) + ((j + 1 : ℕ) : ℂ) / z‖) := by
  have hzp := norm_pos_iff.2 hz
  intro d
  induction d with
  | zero =>
    intro j hj _ hN
    refine ⟨?_, fun h => by omega⟩
    have e : j + 1 = N := by omega
    rw [e, d1Val_top, zero_add, norm_natCast_div (N : ℝ) (by positivity) _ _ (by push_cast; ring), le_div_iff₀ hzp]
    linarith
  | succ d ih =>
    intro j hj h hN
    have h1 := (ih (j + 1) (by omega) (by push_cast at h ⊢; linarith) hN).1
    have e : d1Val z eps N (j + 1) + ((j + 1 : ℕ) : ℂ) / z =
        (2 * ((j + 1 : ℕ) : ℂ) + 1) / z - 1 / (d1Val z eps N (j + 1 + 1) + ((j + 1 + 1 : ℕ) : ℂ) / z) := by
      rw [d1Val_step z eps (by omega : j + 1 < N), guardAdd_of_le (by linarith)]
      push_cast
      ring
    have h2 := step_size (j + 1) e one_pos h1
    have h3 := excess_nonneg hz h
    refine ⟨by linarith, fun _ => by linarith⟩

/-- Damping of one step. -/
noncomputable def damp (z : ℂ) (j : ℕ) : ℝ := (1 + Real.sqrt (excess z j)) * (1 + excess z j)

/-- The error of the recurrence at orders from `|z| - 1/2` on. -/
theorem d1Val_error_above {z : ℂ} {eps : ℝ} (hz : z ≠ 0) (heps : eps ≤ 1) (N : ℕ) (hN : ‖z‖ ≤ N) :
    ∀ d k : ℕ, k + 1 + d = N → ‖z‖ ≤ (k + 1 : ℕ) + 1 / 2 →
      ‖d1Val z eps N k - logD1 k z‖ ≤ 2 * ∏ j ∈ Finset.Ico (k + 1) N, (damp z j)⁻¹ := by
  intro d
  induction d with
  | zero =>
    intro k hk h
    have e : k + 1 = N := by omega
    rw [e, Finset.Ico_self, Finset.prod_empty, mul_one]
    obtain ⟨p0, p1, p2⟩ := psi_ratio_large hz k h
    have hA := (den_size hz heps N 0 k hk h hN).1
    rw [d1Val_step z eps (by omega), guardAdd_of_le (by linarith), logD1_step k hz p0 p1, logD1_add k hz p1]
    have h3 := Real.sqrt_nonneg (excess z (k + 1))
    have e2 : ((k + 1 : ℕ) : ℂ) / z - 1 / (d1Val z eps N (k + 1) + ((k + 1 : ℕ) : ℂ) / z) -
        (((k : ℂ) + 1) / z - 1 / (ricPsi k z / ricPsi (k + 1) z)) =
        1 / (ricPsi k z / ricPsi (k + 1) z) - 1 / (d1Val z eps N (k + 1) + ((k + 1 : ℕ) : ℂ) / z) := by
      push_cast
      ring
    rw [e2]
    refine (norm_sub_le _ _).trans ?_
    have b1 : ‖1 / (ricPsi k z / ricPsi (k + 1) z)‖ ≤ 1 := by
      rw [norm_div, norm_one]; exact div_le_one_of_le₀ (by linarith) (norm_nonneg _)
    have b2 : ‖1 / (d1Val z eps N (k + 1) + ((k + 1 : ℕ) : ℂ) / z)‖ ≤ 1 := by
      rw [norm_div, norm_one]; exact div_le_one_of_le₀ (by linarith) (norm_nonneg _)
    linarith
  | succ d ih =>
    intro k hk h
    have hi := ih (k + 1) (by omega) (by push_cast at h ⊢; linarith)
    obtain ⟨p0, p1, p2⟩ := psi_ratio_large hz k h
    have hA := (den_size hz heps N (d + 1) k hk h hN)
    have hA1 := hA.2 (by omega)
    have hA0 := hA.1
    have hE := excess_nonneg hz h
    have hs := Real.sqrt_nonneg (excess z (k + 1))
    rw [d1Val_step z eps (by omega), guardAdd_of_le (by linarith), logD1_step k hz p0 p1]
    push_cast at hA1 hA0 ⊢
    have hB1 : 1 + Real.sqrt (excess z (k + 1)) ≤ ‖logD1 (k + 1) z + ((k : ℂ) + 1) / z‖ := by rw [logD1_add k hz p1]; exact p2
    set A := d1Val z eps N (k + 1) + ((k : ℂ) + 1) / z with hAd
    set B := logD1 (k + 1) z + ((k : ℂ) + 1) / z with hBd
    have hA0' : A ≠ 0 := by intro h0; rw [h0, norm_zero] at hA0; linarith
    have hB0' : B ≠ 0 := by intro h0; rw [h0, norm_zero] at hB1; linarith
    have e : ((k : ℂ) + 1) / z - 1 / A - (((k : ℂ) + 1) / z - 1 / B) =
        (d1Val z eps N (k + 1) - logD1 (k + 1) z) / (B * A) := by
      have : d1Val z eps N (k + 1) - logD1 (k + 1) z = A - B := by rw [hAd, hBd]; ring
      rw [this]
      field_simp
      ring
    rw [e, norm_div, norm_mul, Finset.prod_eq_prod_Ico_succ_bot (by omega), mul_left_comm]
    have hd : damp z (k + 1) ≤ ‖B‖ * ‖A‖ := by
      unfold damp
      exact mul_le_mul hB1 hA1 (by linarith) (norm_nonneg _)
    have hd0 : 0 < damp z (k + 1) := by unfold damp; positivity
    rw [div_eq_inv_mul]
    exact mul_le_mul (inv_anti₀ hd0 hd) hi (norm_nonneg _) (by positivity)

end MieDiff
