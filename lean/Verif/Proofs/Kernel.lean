import Verif.Proofs.BesselSeries
import Verif.Proofs.SeqBessel
import Mathlib.Topology.Algebra.Field

/-!
# Exact logarithmic derivatives and convergence of the downward recurrence
-/

namespace MieDiff

open Complex Spec Filter Topology

/-! ## Riccati-Bessel derivative rules -/

theorem deriv_ricPsi_raise (n : ℕ) {z : ℂ} (hz : z ≠ 0) :
    deriv (ricPsi n) z = ((n : ℂ) + 1) / z * ricPsi n z - ricPsi (n + 1) z :=
  (sphJ_seq.ric_raise n hz).deriv

theorem deriv_ricPsi_lower (n : ℕ) {z : ℂ} (hz : z ≠ 0) :
    deriv (ricPsi (n + 1)) z = ricPsi n z - ((n : ℂ) + 1) / z * ricPsi (n + 1) z :=
  (sphJ_seq.ric_lower n hz).deriv

theorem deriv_ricZeta_raise (n : ℕ) {z : ℂ} (hz : z ≠ 0) :
    deriv (ricZeta n) z = ((n : ℂ) + 1) / z * ricZeta n z - ricZeta (n + 1) z :=
  (sphH_seq.ric_raise n hz).deriv

theorem deriv_ricZeta_lower (n : ℕ) {z : ℂ} (hz : z ≠ 0) :
    deriv (ricZeta (n + 1)) z = ricZeta n z - ((n : ℂ) + 1) / z * ricZeta (n + 1) z :=
  (sphH_seq.ric_lower n hz).deriv

theorem hasDerivAt_ricPsi (n : ℕ) {z : ℂ} (hz : z ≠ 0) :
    HasDerivAt (ricPsi n) (deriv (ricPsi n) z) z := by
  have h := sphJ_seq.ric_raise n hz
  have h2 : deriv (ricPsi n) z = _ := h.deriv
  rw [h2]; exact h

theorem hasDerivAt_ricZeta (n : ℕ) {z : ℂ} (hz : z ≠ 0) :
    HasDerivAt (ricZeta n) (deriv (ricZeta n) z) z := by
  have h := sphH_seq.ric_raise n hz
  have h2 : deriv (ricZeta n) z = _ := h.deriv
  rw [h2]; exact h

/-- Wronskian of the Riccati-Bessel functions. -/
theorem ric_wronskian (n : ℕ) {z : ℂ} (hz : z ≠ 0) :
    ricPsi n z * deriv (ricZeta n) z - deriv (ricPsi n) z * ricZeta n z = I := by
  rw [deriv_ricPsi_raise n hz, deriv_ricZeta_raise n hz]
  linear_combination ric_cross n hz

theorem logD1_psi_succ (n : ℕ) {z : ℂ} (hz : z ≠ 0) (h : ricPsi n z ≠ 0) :
    ricPsi (n + 1) z = ricPsi n z * (((n : ℂ) + 1) / z - logD1 n z) := by
  unfold logD1
  rw [deriv_ricPsi_raise n hz]
  field_simp
  ring

theorem logD3_zeta_succ (n : ℕ) {z : ℂ} (hz : z ≠ 0) (h : ricZeta n z ≠ 0) :
    ricZeta (n + 1) z = ricZeta n z * (((n : ℂ) + 1) / z - logD3 n z) := by
  unfold logD3
  rw [deriv_ricZeta_raise n hz]
  field_simp
  ring

theorem logD1_add (n : ℕ) {z : ℂ} (hz : z ≠ 0) (h : ricPsi (n + 1) z ≠ 0) :
    logD1 (n + 1) z + ((n : ℂ) + 1) / z = ricPsi n z / ricPsi (n + 1) z := by
  unfold logD1
  rw [deriv_ricPsi_lower n hz]
  field_simp
  ring

theorem logD3_add (n : ℕ) {z : ℂ} (hz : z ≠ 0) (h : ricZeta (n + 1) z ≠ 0) :
    logD3 (n + 1) z + ((n : ℂ) + 1) / z = ricZeta n z / ricZeta (n + 1) z := by
  unfold logD3
  rw [deriv_ricZeta_lower n hz]
  field_simp
  ring

theorem logD3_sub_logD1 (n : ℕ) {z : ℂ} (hz : z ≠ 0) (h1 : ricPsi n z ≠ 0) (h3 : ricZeta n z ≠ 0) :
    logD3 n z - logD1 n z = I / (ricPsi n z * ricZeta n z) := by
  unfold logD1 logD3
  have := ric_wronskian n hz
  field_simp
  linear_combination this

/-- The recurrence satisfied by the exact logarithmic derivative. -/
theorem logD1_step (n : ℕ) {z : ℂ} (hz : z ≠ 0) (h0 : ricPsi n z ≠ 0) (h : ricPsi (n + 1) z ≠ 0) :
    logD1 n z = ((n : ℂ) + 1) / z - 1 / (logD1 (n + 1) z + ((n : ℂ) + 1) / z) := by
  rw [logD1_add n hz h]
  unfold logD1
  rw [deriv_ricPsi_raise n hz]
  field_simp

theorem ricPsi_zero (z : ℂ) (hz : z ≠ 0) : ricPsi 0 z = sin z := by
  unfold ricPsi; rw [sphJ_zero]; field_simp

theorem ricZeta_zero (z : ℂ) (hz : z ≠ 0) : ricZeta 0 z = sin z - I * cos z := by
  unfold ricZeta sphH; rw [sphJ_zero, sphY_zero]; field_simp; ring

theorem ricZeta_zero_exp (z : ℂ) (hz : z ≠ 0) : ricZeta 0 z = -I * exp (z * I) := by
  rw [ricZeta_zero z hz, exp_mul_I]
  linear_combination sin z * I_sq

theorem ricZeta_zero_ne (z : ℂ) (hz : z ≠ 0) : ricZeta 0 z ≠ 0 := by
  rw [ricZeta_zero_exp z hz]
  exact mul_ne_zero (by simp) (exp_ne_zero _)

theorem ricZeta_one (z : ℂ) (hz : z ≠ 0) : ricZeta 1 z = (1 / z - I) * ricZeta 0 z := by
  unfold ricZeta sphH
  rw [sphJ_zero, sphY_zero, sphJ_one hz, sphY_one hz]
  field_simp
  linear_combination (-cos z * z) * I_sq

theorem logD3_zero {z : ℂ} (hz : z ≠ 0) : logD3 0 z = I := by
  unfold logD3
  rw [deriv_ricZeta_raise 0 hz, zero_add, ricZeta_one z hz]
  have := ricZeta_zero_ne z hz
  field_simp
  simp

theorem psi_zeta_zero {z : ℂ} (hz : z ≠ 0) :
    ricPsi 0 z * ricZeta 0 z = (1 / 2 : ℂ) * (1 - exp (2 * I * z)) := by
  rw [ricPsi_zero z hz, ricZeta_zero_exp z hz, show 2 * I * z = z * I + z * I by ring, exp_add]
  have h1 : sin z = (exp (-z * I) - exp (z * I)) * I / 2 := rfl
  have h2 : exp (-z * I) * exp (z * I) = 1 := by rw [← exp_add]; simp
  rw [h1]
  linear_combination (-(1 / 2 : ℂ) * (exp (-z * I) * exp (z * I) - exp (z * I) * exp (z * I))) * I_sq
    + (1 / 2 : ℂ) * h2

/-! ## The upward recurrences are exact -/

/-- The argument-and-order hypotheses under which no guard of the upward recurrences triggers. -/
structure KernelOK (n : ℕ) (z : ℂ) (eps : ℝ) : Prop where
  pos : 0 < eps
  arg : eps ≤ ‖z‖
  psi : ∀ k ≤ n, ricPsi k z ≠ 0
  zeta : ∀ k ≤ n, ricZeta k z ≠ 0
  prod : ∀ k, 1 ≤ k → k ≤ n → eps ≤ ‖ricPsi k z * ricZeta k z‖

theorem KernelOK.ne {n : ℕ} {z : ℂ} {eps : ℝ} (h : KernelOK n z eps) : z ≠ 0 := by
  rintro rfl
  have := h.arg
  simp at this
  linarith [h.pos]

theorem pzD3_exact {n : ℕ} {z : ℂ} {eps : ℝ} (h : KernelOK n z eps) :
    ∀ k ≤ n, pzD3 z z eps (fun i => logD1 i z) k = (ricPsi k z * ricZeta k z, logD3 k z) := by
  intro k
  have hz := h.ne
  induction k with
  | zero => intro _; rw [pzD3, psi_zeta_zero hz, logD3_zero hz]
  | succ k ih =>
    intro hk
    have ih := ih (by omega)
    have e : (pzD3 z z eps (fun i => logD1 i z) k).1 * (((k + 1 : ℕ) : ℂ) / z - logD1 k z) *
        (((k + 1 : ℕ) : ℂ) / z - (pzD3 z z eps (fun i => logD1 i z) k).2) =
        ricPsi (k + 1) z * ricZeta (k + 1) z := by
      rw [ih, logD1_psi_succ k hz (h.psi k (by omega)), logD3_zeta_succ k hz (h.zeta k (by omega))]
      push_cast
      ring
    rw [pzD3]
    simp only [e]
    rw [guardAdd_of_le (h.prod (k + 1) (by omega) hk),
      ← logD3_sub_logD1 (k + 1) hz (h.psi _ hk) (h.zeta _ hk)]
    simp

theorem penaD3_exact {n : ℕ} {z : ℂ} {eps : ℝ} (h : KernelOK n z eps) :
    penaD3 n z (tab n (fun k => logD1 k z)) eps = .ok (tab n (fun k => logD3 k z)) := by
  rw [penaD3_eq, guardAdd_of_le h.arg]
  congr 1
  refine tab_congr fun k hk => ?_
  unfold d3Val
  rw [pzD3_exact h k hk]

theorem penaPsiZeta_exact {n : ℕ} {z : ℂ} {eps : ℝ} (h : KernelOK n z eps) :
    penaPsiZeta n z (tab n (fun k => logD1 k z)) (tab n (fun k => logD3 k z)) eps =
      .ok (tab n (fun k => ricPsi k z), tab n (fun k => ricZeta k z)) := by
  have hz := h.ne
  rw [penaPsiZeta_eq, guardAdd_of_le h.arg]
  congr 2
  · refine tab_congr fun k hk => ?_
    induction k with
    | zero => rw [prodSeq, ricPsi_zero z hz]
    | succ k ih =>
      rw [prodSeq, ih (by omega), logD1_psi_succ k hz (h.psi k (by omega))]
      push_cast; ring
  · refine tab_congr fun k hk => ?_
    induction k with
    | zero => rw [prodSeq, ricZeta_zero z hz]
    | succ k ih =>
      rw [prodSeq, ih (by omega), logD3_zeta_succ k hz (h.zeta k (by omega))]
      push_cast; ring

/-! ## The interface ratio -/

theorem psi_over_zeta_zero {z : ℂ} (hz : z ≠ 0) :
    ricPsi 0 z / ricZeta 0 z =
      -(1 / 2 : ℂ) * exp ((2 * z.im : ℝ) : ℂ) * (exp (-2 * I * z.re) - exp (((-2 * z.im : ℝ)) : ℂ)) := by
  rw [ricPsi_zero z hz, ricZeta_zero_exp z hz]
  have h1 : sin z = (exp (-z * I) - exp (z * I)) * I / 2 := rfl
  have e1 : exp ((2 * z.im : ℝ) : ℂ) * exp (-2 * I * z.re) = exp (-z * I) * exp (-z * I) := by
    rw [← exp_add, ← exp_add]
    congr 1
    have hzz : z = (z.re : ℂ) + (z.im : ℂ) * I := (re_add_im z).symm
    conv_rhs => rw [hzz]
    push_cast
    linear_combination (2 * (z.im : ℂ)) * I_sq
  have e2 : exp ((2 * z.im : ℝ) : ℂ) * exp (((-2 * z.im : ℝ)) : ℂ) = 1 := by
    rw [← exp_add]; simp
  have e3 : exp (-z * I) * exp (z * I) = 1 := by rw [← exp_add]; simp
  have hne := exp_ne_zero (z * I)
  rw [h1, div_eq_iff (mul_ne_zero (by simp) hne)]
  have e4 : (-(1 / 2 : ℂ) * exp ((2 * z.im : ℝ) : ℂ) *
      (exp (-2 * I * z.re) - exp (((-2 * z.im : ℝ)) : ℂ))) =
      -(1 / 2 : ℂ) * (exp (-z * I) * exp (-z * I) - 1) := by
    rw [← e1, ← e2]; ring
  rw [e4]
  linear_combination (-(I * exp (-z * I)) / 2) * e3

/-- Guard hypotheses of the interface ratio. -/
structure QOK (n : ℕ) (z1 z2 x1 x2 : ℂ) (eps : ℝ) : Prop where
  outer : eps ≤ ‖x2‖
  ratio : z1 * x2 = z2 * x1
  den0 : eps ≤ ‖exp (-2 * I * z2.re) - exp (((-2 * z2.im : ℝ)) : ℂ)‖
  den : ∀ k, k + 1 ≤ n → eps ≤ ‖(z1 * logD1 (k + 1) z1 + (k + 1 : ℕ)) * ((k + 1 : ℕ) - z1 * logD3 k z1)‖

theorem qVal_exact {n : ℕ} {z1 z2 x1 x2 : ℂ} {eps : ℝ} (h1 : KernelOK n z1 eps) (h2 : KernelOK n z2 eps)
    (h : QOK n z1 z2 x1 x2 eps) :
    ∀ k ≤ n, qVal z1 z2 x1 x2 eps (fun k => logD1 k z1) (fun k => logD1 k z2) (fun k => logD3 k z1)
      (fun k => logD3 k z2) k =
      ricPsi k z1 * ricZeta k z2 / (ricZeta k z1 * ricPsi k z2) := by
  intro k
  have hz1 := h1.ne
  have hz2 := h2.ne
  have hx2 : x2 ≠ 0 := by
    rintro rfl
    have := h.outer
    simp at this
    linarith [h1.pos]
  induction k with
  | zero =>
    intro _
    rw [qVal, guardAdd_of_le h.den0]
    have e : ricPsi 0 z1 * ricZeta 0 z2 / (ricZeta 0 z1 * ricPsi 0 z2) =
        (ricPsi 0 z1 / ricZeta 0 z1) / (ricPsi 0 z2 / ricZeta 0 z2) := by
      rw [div_div_div_eq]
    have hd : exp (-2 * I * z2.re) - exp (((-2 * z2.im : ℝ)) : ℂ) ≠ 0 := by
      intro h0
      have := h.den0
      rw [h0, norm_zero] at this
      linarith [h1.pos]
    rw [e, psi_over_zeta_zero hz1, psi_over_zeta_zero hz2]
    have e2 : exp (((-2 * (z2.im - z1.im) : ℝ)) : ℂ) =
        exp (((2 * z1.im : ℝ)) : ℂ) / exp (((2 * z2.im : ℝ)) : ℂ) := by
      rw [← exp_sub]; congr 1; push_cast; ring
    rw [e2]
    have := exp_ne_zero (((2 * z2.im : ℝ)) : ℂ)
    field_simp
  | succ k ih =>
    intro hk
    have ih := ih (by omega)
    rw [qVal, ih, guardAdd_of_le h.outer, guardAdd_of_le (h.den k hk)]
    have a1 : ∀ z : ℂ, z ≠ 0 → ricPsi (k + 1) z ≠ 0 →
        z * logD1 (k + 1) z + ((k + 1 : ℕ) : ℂ) = z * (ricPsi k z / ricPsi (k + 1) z) := by
      intro z hz hp
      rw [← logD1_add k hz hp]
      push_cast
      field_simp
    have a3 : ∀ z : ℂ, z ≠ 0 → ricZeta k z ≠ 0 →
        ((k + 1 : ℕ) : ℂ) - z * logD3 k z = z * (ricZeta (k + 1) z / ricZeta k z) := by
      intro z hz hp
      rw [logD3_zeta_succ k hz hp]
      push_cast
      field_simp
    rw [a1 z1 hz1 (h1.psi _ hk), a1 z2 hz2 (h2.psi _ hk), a3 z1 hz1 (h1.zeta _ (by omega)),
      a3 z2 hz2 (h2.zeta _ (by omega))]
    have hx1 : x1 = z1 * x2 / z2 := by
      rw [h.ratio]; field_simp
    rw [hx1]
    have p1 := h1.psi k (by omega)
    have p2 := h1.psi (k + 1) hk
    have p3 := h2.psi k (by omega)
    have p4 := h2.psi (k + 1) hk
    have q1 := h1.zeta k (by omega)
    have q2 := h1.zeta (k + 1) hk
    have q3 := h2.zeta k (by omega)
    have q4 := h2.zeta (k + 1) hk
    field_simp

/-! ## Convergence of the downward recurrence -/

theorem ricPsi_ratio (n : ℕ) {z : ℂ} (hz : z ≠ 0) (h : 2 * ‖z‖ ≤ n + 1) :
    ricPsi n z ≠ 0 ∧ ‖ricPsi (n + 1) z‖ ≤ ‖ricPsi n z‖ / 2 := by
  obtain ⟨h1, h2⟩ := sphJ_ratio n hz h
  unfold ricPsi
  refine ⟨mul_ne_zero hz h1, ?_⟩
  rw [norm_mul, norm_mul]
  have := mul_le_mul_of_nonneg_left h2 (norm_nonneg z)
  linarith

/-- Above twice the size, the exact logarithmic derivative is close to `(n+1)/z`. -/
theorem logD1_near (n : ℕ) {z : ℂ} (hz : z ≠ 0) (h : 2 * ‖z‖ ≤ n + 1) :
    ‖logD1 n z - ((n : ℂ) + 1) / z‖ ≤ 1 / 2 := by
  obtain ⟨h1, h2⟩ := ricPsi_ratio n hz h
  have e : logD1 n z - ((n : ℂ) + 1) / z = -(ricPsi (n + 1) z / ricPsi n z) := by
    unfold logD1
    rw [deriv_ricPsi_raise n hz]
    field_simp
    ring
  rw [e, norm_neg, norm_div, div_le_iff₀ (norm_pos_iff.2 h1)]
  linarith

theorem norm_natCast_div (c : ℝ) (hc : 0 ≤ c) (z w : ℂ) (h : w = (c : ℂ)) : ‖w / z‖ = c / ‖z‖ := by
  rw [norm_div, h, norm_real, Real.norm_of_nonneg hc]

/-- If `x` is within 1/2 of `(n+2)/z`, the denominator of the step is at least 2 in size. -/
theorem den_large (n : ℕ) {z x : ℂ} (hz : z ≠ 0) (h : 2 * ‖z‖ ≤ n + 1)
    (hx : ‖x - ((n : ℂ) + 2) / z‖ ≤ 1 / 2) : 2 ≤ ‖x + ((n : ℂ) + 1) / z‖ := by
  have hzp : 0 < ‖z‖ := norm_pos_iff.2 hz
  have e : x + ((n : ℂ) + 1) / z = (2 * (n : ℂ) + 3) / z - -(x - ((n : ℂ) + 2) / z) := by ring
  have h1 : ‖(2 * (n : ℂ) + 3) / z‖ = (2 * (n : ℝ) + 3) / ‖z‖ :=
    norm_natCast_div _ (by positivity) _ _ (by push_cast; ring)
  have h2 : 4 ≤ (2 * (n : ℝ) + 3) / ‖z‖ := by rw [le_div_iff₀ hzp]; linarith
  have h3 := norm_sub_norm_le ((2 * (n : ℂ) + 3) / z) (-(x - ((n : ℂ) + 2) / z))
  rw [← e, h1, norm_neg] at h3
  linarith

theorem d1Val_near {z : ℂ} {eps : ℝ} (hz : z ≠ 0) (heps : eps ≤ 2) (N : ℕ) :
    ∀ j n : ℕ, n + (j + 1) = N → 2 * ‖z‖ ≤ n + 1 →
      ‖d1Val z eps N n - ((n : ℂ) + 1) / z‖ ≤ 1 / 2 ∧
        2 ≤ ‖d1Val z eps N (n + 1) + ((n : ℂ) + 1) / z‖ := by
  intro j
  have hzp : 0 < ‖z‖ := norm_pos_iff.2 hz
  have fin : ∀ n : ℕ, n < N → 2 ≤ ‖d1Val z eps N (n + 1) + ((n : ℂ) + 1) / z‖ →
      ‖d1Val z eps N n - ((n : ℂ) + 1) / z‖ ≤ 1 / 2 := by
    intro n hn h2
    rw [d1Val_step z eps hn]
    push_cast
    rw [guardAdd_of_le (by linarith)]
    rw [show ((n : ℂ) + 1) / z - 1 / (d1Val z eps N (n + 1) + ((n : ℂ) + 1) / z) - ((n : ℂ) + 1) / z =
      -(1 / (d1Val z eps N (n + 1) + ((n : ℂ) + 1) / z)) by ring, norm_neg, norm_div, norm_one]
    rw [div_le_div_iff₀ (by linarith) (by norm_num)]
    linarith
  induction j with
  | zero =>
    intro n hn h
    have hn' : n + 1 = N := by omega
    have h2 : 2 ≤ ‖d1Val z eps N (n + 1) + ((n : ℂ) + 1) / z‖ := by
      rw [hn', d1Val_top, zero_add,
        norm_natCast_div ((n : ℝ) + 1) (by positivity) _ _ (by push_cast; ring), le_div_iff₀ hzp]
      exact h
    exact ⟨fin n (by omega) h2, h2⟩
  | succ j ih =>
    intro n hn h
    have h1 := (ih (n + 1) (by omega) (by push_cast; linarith)).1
    have h2 := den_large n hz h (x := d1Val z eps N (n + 1)) (by
      have e : ((n : ℂ) + 2) = ((n + 1 : ℕ) : ℂ) + 1 := by push_cast; ring
      rw [e]; exact h1)
    exact ⟨fin n (by omega) h2, h2⟩

/-- Geometric error bound. -/
theorem d1Val_error {z : ℂ} {eps : ℝ} (hz : z ≠ 0) (heps : eps ≤ 2) (N : ℕ) :
    ∀ j n : ℕ, n + (j + 1) = N → 2 * ‖z‖ ≤ n + 1 →
      ‖d1Val z eps N n - logD1 n z‖ ≤ (1 / 4) ^ j := by
  intro j
  induction j with
  | zero =>
    intro n hn h
    have h1 := (d1Val_near hz heps N 0 n hn h).1
    have h2 := logD1_near n hz h
    have h3 := norm_sub_le (d1Val z eps N n - ((n : ℂ) + 1) / z) (logD1 n z - ((n : ℂ) + 1) / z)
    rw [sub_sub_sub_cancel_right] at h3
    simp
    linarith
  | succ j ih =>
    intro n hn h
    have hi := ih (n + 1) (by omega) (by push_cast; linarith)
    have h1 := (d1Val_near hz heps N (j + 1) n hn h).2
    have h2 := den_large n hz h (x := logD1 (n + 1) z) (by
      have e : ((n : ℂ) + 2) = ((n + 1 : ℕ) : ℂ) + 1 := by push_cast; ring
      rw [e]; exact logD1_near (n + 1) hz (by push_cast; linarith))
    have p0 := (ricPsi_ratio n hz h).1
    have p1 := (ricPsi_ratio (n + 1) hz (by push_cast; linarith)).1
    rw [d1Val_step z eps (by omega : n < N), logD1_step n hz p0 p1]
    push_cast
    rw [guardAdd_of_le (by linarith)]
    set A := d1Val z eps N (n + 1) + ((n : ℂ) + 1) / z with hA
    set B := logD1 (n + 1) z + ((n : ℂ) + 1) / z with hB
    have hA0 : A ≠ 0 := by intro h0; rw [h0, norm_zero] at h1; linarith
    have hB0 : B ≠ 0 := by intro h0; rw [h0, norm_zero] at h2; linarith
    have e : ((n : ℂ) + 1) / z - 1 / A - (((n : ℂ) + 1) / z - 1 / B) =
        (d1Val z eps N (n + 1) - logD1 (n + 1) z) / (A * B) := by
      have : d1Val z eps N (n + 1) - logD1 (n + 1) z = A - B := by rw [hA, hB]; ring
      rw [this]
      field_simp
      ring
    rw [e, norm_div, norm_mul, div_le_iff₀ (by positivity)]
    have hAB : 4 ≤ ‖A‖ * ‖B‖ := by nlinarith
    have hp : (0 : ℝ) ≤ (1 / 4) ^ (j + 1) := by positivity
    calc ‖d1Val z eps N (n + 1) - logD1 (n + 1) z‖ ≤ (1 / 4) ^ j := hi
      _ = (1 / 4) ^ (j + 1) * 4 := by rw [pow_succ]; ring
      _ ≤ (1 / 4) ^ (j + 1) * (‖A‖ * ‖B‖) := mul_le_mul_of_nonneg_left hAB hp

theorem guardAdd_continuousAt {eps : ℝ} {w : ℂ} (h : eps < ‖w‖) : ContinuousAt (guardAdd eps) w := by
  have he : guardAdd eps =ᶠ[𝓝 w] id := by
    have : {v : ℂ | eps < ‖v‖} ∈ 𝓝 w := (isOpen_lt continuous_const continuous_norm).mem_nhds h
    filter_upwards [this] with v hv
    exact guardAdd_of_le (le_of_lt hv)
  exact (continuousAt_id.congr he.symm)

/-- Convergence at every order, by going down from an order above twice the size. -/
theorem d1Val_tendsto {z : ℂ} {eps : ℝ} (hz : z ≠ 0) (heps : eps < 2) (n : ℕ)
    (hpsi : ∀ k, n ≤ k → ricPsi k z ≠ 0)
    (hq : ∀ k, n ≤ k → eps < ‖ricPsi k z / ricPsi (k + 1) z‖) :
    Tendsto (fun N => d1Val z eps N n) atTop (𝓝 (logD1 n z)) := by
  obtain ⟨m, hm⟩ := exists_nat_ge (2 * ‖z‖)
  have base : ∀ p, m ≤ p → Tendsto (fun N => d1Val z eps N p) atTop (𝓝 (logD1 p z)) := by
    intro p hp
    rw [tendsto_iff_norm_sub_tendsto_zero]
    have hp' : 2 * ‖z‖ ≤ (p : ℝ) + 1 := by
      have : (m : ℝ) ≤ p := by exact_mod_cast hp
      linarith
    refine squeeze_zero' (g := fun N : ℕ => (1 / 4 : ℝ) ^ (N - (p + 1))) ?_ ?_ ?_
    · exact Eventually.of_forall fun N => norm_nonneg _
    · filter_upwards [eventually_ge_atTop (p + 1)] with N hN
      exact d1Val_error hz heps.le N (N - (p + 1)) p (by omega) hp'
    · have h1 : Tendsto (fun N : ℕ => N - (p + 1)) atTop atTop := tendsto_sub_atTop_nat (p + 1)
      exact (tendsto_pow_atTop_nhds_zero_of_lt_one (by norm_num) (by norm_num)).comp h1
  have down : ∀ j p : ℕ, n ≤ p → m ≤ p + j →
      Tendsto (fun N => d1Val z eps N p) atTop (𝓝 (logD1 p z)) := by
    intro j
    induction j with
    | zero => intro p _ h; exact base p h
    | succ j ih =>
      intro p hp h
      have hi := ih (p + 1) (by omega) (by omega)
      have p1 := hpsi (p + 1) (by omega)
      have hB := logD1_add p hz p1
      have hBn : eps < ‖logD1 (p + 1) z + ((p : ℂ) + 1) / z‖ := by rw [hB]; exact hq p hp
      have hB0 : logD1 (p + 1) z + ((p : ℂ) + 1) / z ≠ 0 := by
        rw [hB]; exact div_ne_zero (hpsi p hp) p1
      rw [logD1_step p hz (hpsi p hp) p1]
      have hg : Tendsto (fun N => guardAdd eps (d1Val z eps N (p + 1) + ((p : ℂ) + 1) / z)) atTop
          (𝓝 (logD1 (p + 1) z + ((p : ℂ) + 1) / z)) := by
        have := (guardAdd_continuousAt hBn).tendsto.comp (hi.add_const (((p : ℂ) + 1) / z))
        rw [guardAdd_of_le hBn.le] at this
        exact this
      have h2 := (tendsto_const_nhds (x := ((p : ℂ) + 1) / z)).sub
        ((tendsto_const_nhds (x := (1 : ℂ))).div hg hB0)
      refine h2.congr' ?_
      filter_upwards [eventually_gt_atTop p] with N hN
      rw [d1Val_step z eps hN]
      push_cast
      rfl
  exact down m n le_rfl (by omega)

end MieDiff
