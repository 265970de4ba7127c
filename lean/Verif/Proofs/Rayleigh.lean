import Verif.Proofs.Decay
import Verif.Proofs.BesselSeries
import Verif.Spec.Static

/-!
# The interface problem at small size parameters
-/

namespace MieDiff

open Complex Spec Filter Topology Nat

/-! ## Riccati-Bessel functions near zero -/

theorem tendsto_id_ne : Tendsto (fun z : ℂ => z) (𝓝[≠] 0) (𝓝 0) := tendsto_nhdsWithin_of_tendsto_nhds tendsto_id

theorem eventually_ne0 : ∀ᶠ z : ℂ in 𝓝[≠] 0, z ≠ 0 := eventually_mem_nhdsWithin

theorem psi_small (n : ℕ) :
    Tendsto (fun z : ℂ => ricPsi n z / z ^ (n + 1)) (𝓝[≠] 0) (𝓝 (1 / ((2 * n + 1)‼ : ℂ))) := by
  have hK := dfac_ne n
  have hlim : Tendsto (fun z : ℂ => ‖1 / ((2 * n + 1)‼ : ℂ)‖ * (‖z‖ ^ 2 / (1 - ‖z‖ ^ 2))) (𝓝[≠] 0) (𝓝 0) := by
    have h0 : Tendsto (fun z : ℂ => ‖z‖ ^ 2) (𝓝[≠] 0) (𝓝 0) := by
      have := (tendsto_id_ne.norm).pow 2
      simpa using this
    have h1 := (h0.div ((tendsto_const_nhds (x := (1 : ℝ))).sub h0) (by norm_num)).const_mul ‖1 / ((2 * n + 1)‼ : ℂ)‖
    simpa using h1
  rw [tendsto_iff_norm_sub_tendsto_zero]
  refine squeeze_zero' (Eventually.of_forall fun _ => norm_nonneg _) ?_ hlim
  have hsm : ∀ᶠ z : ℂ in 𝓝[≠] 0, ‖z‖ < 1 := by
    have := tendsto_id_ne.norm
    rw [norm_zero] at this
    exact this.eventually (gt_mem_nhds one_pos)
  filter_upwards [eventually_ne0, hsm] with z hz h1
  have hq1 : ‖z‖ ^ 2 < 1 := by nlinarith [norm_nonneg z]
  have hb := norm_sphJ_sub_le_q n hz (q := ‖z‖ ^ 2) (by positivity) hq1 (by
    nlinarith [sq_nonneg ‖z‖, mul_nonneg (sq_nonneg ‖z‖) (Nat.cast_nonneg n : (0 : ℝ) ≤ n)])
  have hj : jTerm n 0 z = z ^ n * (1 / ((2 * n + 1)‼ : ℂ)) := by
    simp [jTerm, div_eq_mul_inv]
  have hzn : z ^ n ≠ 0 := pow_ne_zero _ hz
  have e : ricPsi n z / z ^ (n + 1) - 1 / ((2 * n + 1)‼ : ℂ) = (sphJ n z - jTerm n 0 z) / z ^ n := by
    rw [hj, ricPsi, pow_succ]
    field_simp
  rw [e, norm_div, div_le_iff₀ (norm_pos_iff.2 hzn)]
  refine hb.trans (le_of_eq ?_)
  rw [hj, norm_mul]
  ring

theorem dpsi_small (n : ℕ) :
    Tendsto (fun z : ℂ => deriv (ricPsi n) z / z ^ n) (𝓝[≠] 0) (𝓝 (((n : ℂ) + 1) / ((2 * n + 1)‼ : ℂ))) := by
  have h := ((psi_small n).const_mul ((n : ℂ) + 1)).sub
    (((psi_small (n + 1)).mul tendsto_id_ne).mul tendsto_id_ne)
  simp only [mul_zero, sub_zero] at h
  rw [show ((n : ℂ) + 1) / ((2 * n + 1)‼ : ℂ) = ((n : ℂ) + 1) * (1 / ((2 * n + 1)‼ : ℂ)) by ring]
  refine h.congr' ?_
  filter_upwards [eventually_ne0] with z hz
  rw [deriv_ricPsi_raise n hz]
  have : z ^ n ≠ 0 := pow_ne_zero _ hz
  rw [pow_succ z (n + 1), pow_succ z n]
  field_simp

/-- `(2n-1)!!`. -/
noncomputable def kOut (n : ℕ) : ℂ := ((2 * n + 1)‼ : ℂ) / (2 * (n : ℂ) + 1)

theorem odd1_ne (n : ℕ) : 2 * (n : ℂ) + 1 ≠ 0 := by exact_mod_cast Nat.succ_ne_zero (2 * n)

theorem kOut_succ (n : ℕ) : kOut (n + 1) = ((2 * n + 1)‼ : ℂ) := by
  unfold kOut
  rw [dfac_succ]
  have := odd_ne n
  push_cast
  rw [show 2 * ((n : ℂ) + 1) + 1 = 2 * (n : ℂ) + 3 by ring]
  field_simp

theorem kOut_ne (n : ℕ) : kOut n ≠ 0 := div_ne_zero (dfac_ne n) (odd1_ne n)

theorem zeta_small (n : ℕ) : Tendsto (fun z : ℂ => ricZeta n z * z ^ n) (𝓝[≠] 0) (𝓝 (-I * kOut n)) := by
  have h0 : Tendsto (fun z : ℂ => ricZeta 0 z) (𝓝[≠] 0) (𝓝 (-I)) := by
    have hc : Continuous fun z : ℂ => -I * exp (z * I) := by fun_prop
    have := (hc.tendsto 0).mono_left (nhdsWithin_le_nhds (s := {0}ᶜ))
    simp only [zero_mul, exp_zero, mul_one] at this
    refine this.congr' ?_
    filter_upwards [eventually_ne0] with z hz
    exact (ricZeta_zero_exp z hz).symm
  induction n using Nat.twoStepInduction with
  | zero => simpa [kOut] using h0
  | one =>
    have h1 := ((tendsto_const_nhds (x := (1 : ℂ))).sub (tendsto_id_ne.mul_const I)).mul h0
    simp only [zero_mul, sub_zero, one_mul] at h1
    rw [show kOut 1 = 1 by rw [kOut_succ 0]; simp, mul_one]
    refine h1.congr' ?_
    filter_upwards [eventually_ne0] with z hz
    rw [ricZeta_one z hz]
    field_simp
    
  | more n i0 i1 =>
    have h := (i1.const_mul (2 * (n : ℂ) + 3)).sub ((i0.mul tendsto_id_ne).mul tendsto_id_ne)
    simp only [mul_zero, sub_zero] at h
    rw [kOut_succ (n + 1), dfac_succ, show -I * ((2 * (n : ℂ) + 3) * ((2 * n + 1)‼ : ℂ)) =
      (2 * (n : ℂ) + 3) * (-I * kOut (n + 1)) by rw [kOut_succ n]; ring]
    refine h.congr' ?_
    filter_upwards [eventually_ne0] with z hz
    rw [ricZeta_rec n hz]
    field_simp
    ring

theorem dzeta_small (n : ℕ) :
    Tendsto (fun z : ℂ => deriv (ricZeta n) z * z ^ (n + 1)) (𝓝[≠] 0) (𝓝 (I * n * kOut n)) := by
  have h := ((zeta_small n).const_mul ((n : ℂ) + 1)).sub (zeta_small (n + 1))
  rw [show ((n : ℂ) + 1) * (-I * kOut n) - -I * kOut (n + 1) = I * n * kOut n by
    rw [kOut_succ n]
    have h1 := odd1_ne n
    have h2 : ((2 * n + 1)‼ : ℂ) = (2 * (n : ℂ) + 1) * kOut n := by unfold kOut; field_simp
    rw [h2]; ring] at h
  refine h.congr' ?_
  filter_upwards [eventually_ne0] with z hz
  rw [deriv_ricZeta_raise n hz]
  field_simp
  ring

/-! ## Waves in scaled spheres -/

variable {ι : Type*} {F : Filter ι} {κ : ι → ℂ}

/-- The two amplitudes of the limit of scaled waves: `d` and `a / kappa^(2n+1)`. -/
def WaveLim (F : Filter ι) (κ : ι → ℂ) (n : ℕ) (w : ι → Wave) (D α : ℂ) : Prop :=
  Tendsto (fun i => (w i).d) F (𝓝 D) ∧ Tendsto (fun i => (w i).a / κ i ^ (2 * n + 1)) F (𝓝 α)

theorem kappa_ne (hκ : Tendsto κ F (𝓝[≠] 0)) : ∀ᶠ i in F, κ i ≠ 0 := hκ.eventually eventually_ne0

theorem tendsto_scale (hκ : Tendsto κ F (𝓝[≠] 0)) {c : ℂ} (hc : c ≠ 0) :
    Tendsto (fun i => c * κ i) F (𝓝[≠] 0) := by
  refine tendsto_nhdsWithin_iff.2 ⟨?_, ?_⟩
  · simpa using ((tendsto_nhdsWithin_iff.1 hκ).1).const_mul c
  · filter_upwards [kappa_ne hκ] with i hi
    exact mul_ne_zero hc hi

theorem psi_scale (hκ : Tendsto κ F (𝓝[≠] 0)) {c : ℂ} (hc : c ≠ 0) (n : ℕ) :
    Tendsto (fun i => ricPsi n (c * κ i) / κ i ^ (n + 1)) F (𝓝 (c ^ (n + 1) / ((2 * n + 1)‼ : ℂ))) := by
  have h := ((psi_small n).comp (tendsto_scale hκ hc)).const_mul (c ^ (n + 1))
  rw [mul_one_div] at h
  refine h.congr' ?_
  filter_upwards [kappa_ne hκ] with i hi
  simp only [Function.comp_apply, mul_pow]
  have : c ^ (n + 1) ≠ 0 := pow_ne_zero _ hc
  field_simp

theorem dpsi_scale (hκ : Tendsto κ F (𝓝[≠] 0)) {c : ℂ} (hc : c ≠ 0) (n : ℕ) :
    Tendsto (fun i => deriv (ricPsi n) (c * κ i) / κ i ^ n) F
      (𝓝 (((n : ℂ) + 1) * c ^ n / ((2 * n + 1)‼ : ℂ))) := by
  have h := ((dpsi_small n).comp (tendsto_scale hκ hc)).const_mul (c ^ n)
  rw [show c ^ n * (((n : ℂ) + 1) / ((2 * n + 1)‼ : ℂ)) = ((n : ℂ) + 1) * c ^ n / ((2 * n + 1)‼ : ℂ) by ring] at h
  refine h.congr' ?_
  filter_upwards [kappa_ne hκ] with i hi
  simp only [Function.comp_apply, mul_pow]
  have : c ^ n ≠ 0 := pow_ne_zero _ hc
  field_simp

theorem zeta_scale (hκ : Tendsto κ F (𝓝[≠] 0)) {c : ℂ} (hc : c ≠ 0) (n : ℕ) :
    Tendsto (fun i => ricZeta n (c * κ i) * κ i ^ n) F (𝓝 (-I * kOut n / c ^ n)) := by
  have h := ((zeta_small n).comp (tendsto_scale hκ hc)).div_const (c ^ n)
  refine h.congr' ?_
  filter_upwards [kappa_ne hκ] with i hi
  simp only [Function.comp_apply, mul_pow]
  have : c ^ n ≠ 0 := pow_ne_zero _ hc
  field_simp

theorem dzeta_scale (hκ : Tendsto κ F (𝓝[≠] 0)) {c : ℂ} (hc : c ≠ 0) (n : ℕ) :
    Tendsto (fun i => deriv (ricZeta n) (c * κ i) * κ i ^ (n + 1)) F (𝓝 (I * n * kOut n / c ^ (n + 1))) := by
  have h := ((dzeta_small n).comp (tendsto_scale hκ hc)).div_const (c ^ (n + 1))
  refine h.congr' ?_
  filter_upwards [kappa_ne hκ] with i hi
  simp only [Function.comp_apply, mul_pow]
  have : c ^ (n + 1) ≠ 0 := pow_ne_zero _ hc
  field_simp

/-- Limit of the value. -/
noncomputable def vLim (n : ℕ) (c D α : ℂ) : ℂ := D * (c ^ (n + 1) / ((2 * n + 1)‼ : ℂ)) - α * (-I * kOut n / c ^ n)

/-- Limit of the derivative. -/
noncomputable def eLim (n : ℕ) (c D α : ℂ) : ℂ :=
  D * (((n : ℂ) + 1) * c ^ n / ((2 * n + 1)‼ : ℂ)) - α * (I * n * kOut n / c ^ (n + 1))

theorem val_lim (hκ : Tendsto κ F (𝓝[≠] 0)) {c : ℂ} (hc : c ≠ 0) {n : ℕ} {w : ι → Wave} {D α : ℂ}
    (hw : WaveLim F κ n w D α) :
    Tendsto (fun i => (w i).val n (c * κ i) / κ i ^ (n + 1)) F (𝓝 (vLim n c D α)) := by
  refine ((hw.1.mul (psi_scale hκ hc n)).sub (hw.2.mul (zeta_scale hκ hc n))).congr' ?_
  filter_upwards [kappa_ne hκ] with i hi
  simp only [Wave.val]
  rw [show κ i ^ (2 * n + 1) = κ i ^ n * κ i ^ (n + 1) by ring]
  have h1 : κ i ^ n ≠ 0 := pow_ne_zero _ hi
  have h2 : κ i ^ (n + 1) ≠ 0 := pow_ne_zero _ hi
  generalize κ i ^ n = u at *
  generalize κ i ^ (n + 1) = v at *
  field_simp

theorem der_lim (hκ : Tendsto κ F (𝓝[≠] 0)) {c : ℂ} (hc : c ≠ 0) {n : ℕ} {w : ι → Wave} {D α : ℂ}
    (hw : WaveLim F κ n w D α) :
    Tendsto (fun i => (w i).der n (c * κ i) / κ i ^ n) F (𝓝 (eLim n c D α)) := by
  refine ((hw.1.mul (dpsi_scale hκ hc n)).sub (hw.2.mul (dzeta_scale hκ hc n))).congr' ?_
  filter_upwards [kappa_ne hκ] with i hi
  simp only [Wave.der]
  rw [show κ i ^ (2 * n + 1) = κ i ^ n * κ i ^ (n + 1) by ring]
  have h1 : κ i ^ n ≠ 0 := pow_ne_zero _ hi
  have h2 : κ i ^ (n + 1) ≠ 0 := pow_ne_zero _ hi
  generalize κ i ^ n = u at *
  generalize κ i ^ (n + 1) = v at *
  field_simp

/-- Limits of value and derivative determine the limits of the amplitudes. -/
theorem waveLim_of (hκ : Tendsto κ F (𝓝[≠] 0)) {c : ℂ} (hc : c ≠ 0) {n : ℕ} {w : ι → Wave} {V E : ℂ}
    (hv : Tendsto (fun i => (w i).val n (c * κ i) / κ i ^ (n + 1)) F (𝓝 V))
    (he : Tendsto (fun i => (w i).der n (c * κ i) / κ i ^ n) F (𝓝 E)) : ∃ D α, WaveLim F κ n w D α := by
  refine ⟨_, _, (((hv.mul (dzeta_scale hκ hc n)).sub (he.mul (zeta_scale hκ hc n))).div_const I).congr' ?_,
    (((hv.mul (dpsi_scale hκ hc n)).sub (he.mul (psi_scale hκ hc n))).div_const I).congr' ?_⟩
  · filter_upwards [kappa_ne hκ] with i hi
    have hI := I_ne_zero
    rw [div_eq_iff hI, ← wave_d (w i) n (mul_ne_zero hc hi)]
    have h1 : κ i ^ n ≠ 0 := pow_ne_zero _ hi
    have h2 : κ i ^ (n + 1) ≠ 0 := pow_ne_zero _ hi
    generalize κ i ^ n = u at *
    generalize κ i ^ (n + 1) = v at *
    field_simp
  · filter_upwards [kappa_ne hκ] with i hi
    have hI := I_ne_zero
    rw [div_eq_iff hI, show (w i).a / κ i ^ (2 * n + 1) * I = ((w i).a * I) / κ i ^ (2 * n + 1) by ring,
      ← wave_a (w i) n (mul_ne_zero hc hi), show κ i ^ (2 * n + 1) = κ i ^ n * κ i ^ (n + 1) by ring]
    have h1 : κ i ^ n ≠ 0 := pow_ne_zero _ hi
    have h2 : κ i ^ (n + 1) ≠ 0 := pow_ne_zero _ hi
    generalize κ i ^ n = u at *
    generalize κ i ^ (n + 1) = v at *
    field_simp

/-! ## The static limit -/

/-- Permittivity seen by the static problem: the square of the index for electric multipoles; for magnetic ones the
permeability, which is 1. -/
def sEps : Pol → ℂ → ℂ
  | .tm, m => m ^ 2
  | .te, _ => 1

/-- The static potential of the limit of scaled waves in medium `m`. -/
noncomputable def toPot (q : Pol) (n : ℕ) (m D α : ℂ) : Pot :=
  match q with
  | .tm => ⟨((n : ℂ) + 1) * D * m ^ n / (((2 * n + 1)‼ : ℂ) * m), -I * n * kOut n * α / m ^ (n + 2)⟩
  | .te => ⟨((n : ℂ) + 1) * D * m ^ n / ((2 * n + 1)‼ : ℂ), -I * n * kOut n * α / m ^ (n + 1)⟩

theorem toPot_val_tm {n : ℕ} {m x : ℂ} (D α : ℂ) (hm : m ≠ 0) (hx : x ≠ 0) :
    eLim n (m * x) D α = m * (toPot .tm n m D α).val n x := by
  have hK := dfac_ne n
  simp only [eLim, toPot, Pot.val, mul_pow]
  field_simp
  ring

theorem toPot_val_te {n : ℕ} {m x : ℂ} (D α : ℂ) (hm : m ≠ 0) (hx : x ≠ 0) :
    eLim n (m * x) D α = (toPot .te n m D α).val n x := by
  have hK := dfac_ne n
  simp only [eLim, toPot, Pot.val, mul_pow]
  field_simp
  ring

theorem toPot_der_tm {n : ℕ} (hn : 1 ≤ n) {m x : ℂ} (D α : ℂ) (hm : m ≠ 0) (hx : x ≠ 0) :
    m ^ 2 * (toPot .tm n m D α).der n x = n * ((n : ℂ) + 1) / x ^ 2 * vLim n (m * x) D α := by
  obtain ⟨k, rfl⟩ : ∃ k, n = k + 1 := ⟨n - 1, by omega⟩
  have hK := dfac_ne (k + 1)
  simp only [vLim, toPot, Pot.der, mul_pow, Nat.add_sub_cancel]
  field_simp
  ring

theorem toPot_der_te {n : ℕ} (hn : 1 ≤ n) {m x : ℂ} (D α : ℂ) (hm : m ≠ 0) (hx : x ≠ 0) :
    m * (toPot .te n m D α).der n x = n * ((n : ℂ) + 1) / x ^ 2 * vLim n (m * x) D α := by
  obtain ⟨k, rfl⟩ : ∃ k, n = k + 1 := ⟨n - 1, by omega⟩
  have hK := dfac_ne (k + 1)
  simp only [vLim, toPot, Pot.der, mul_pow, Nat.add_sub_cancel]
  field_simp
  ring

/-- One interface: the limit outside exists and is statically continuous with the limit inside. -/
theorem cont_small [F.NeBot] (hκ : Tendsto κ F (𝓝[≠] 0)) {q : Pol} {n : ℕ} (hn : 1 ≤ n) {m m' x : ℂ} (hm : m ≠ 0)
    (hm' : m' ≠ 0) (hx : x ≠ 0) {w w' : ι → Wave} {D α : ℂ} (hw : WaveLim F κ n w D α)
    (hc : ∀ᶠ i in F, Cont q n m m' (x * κ i) (w i) (w' i)) :
    ∃ D' α', WaveLim F κ n w' D' α' ∧
      StaticCont n (sEps q m) (sEps q m') x (toPot q n m D α) (toPot q n m' D' α') := by
  have hv := val_lim hκ (mul_ne_zero hm hx) hw
  have he := der_lim hκ (mul_ne_zero hm hx) hw
  have hnn : (n : ℂ) * ((n : ℂ) + 1) / x ^ 2 ≠ 0 :=
    div_ne_zero (mul_ne_zero (by exact_mod_cast (by omega : n ≠ 0)) (by exact_mod_cast Nat.succ_ne_zero n))
      (pow_ne_zero _ hx)
  cases q with
  | tm =>
    have h1 : Tendsto (fun i => (w' i).val n (m' * x * κ i) / κ i ^ (n + 1)) F (𝓝 (vLim n (m * x) D α)) := by
      refine hv.congr' ?_
      filter_upwards [hc] with i h
      have := h.1
      rw [← mul_assoc, ← mul_assoc] at this
      rw [this]
    have h2 : Tendsto (fun i => (w' i).der n (m' * x * κ i) / κ i ^ n) F (𝓝 (eLim n (m * x) D α * m' / m)) := by
      refine ((he.mul_const m').div_const m).congr' ?_
      filter_upwards [hc] with i h
      have := h.2
      rw [← mul_assoc, ← mul_assoc] at this
      rw [div_mul_eq_mul_div, this]
      field_simp
    obtain ⟨D', α', hl⟩ := waveLim_of hκ (mul_ne_zero hm' hx) h1 h2
    have u1 := tendsto_nhds_unique (val_lim hκ (mul_ne_zero hm' hx) hl) h1
    have u2 := tendsto_nhds_unique (der_lim hκ (mul_ne_zero hm' hx) hl) h2
    refine ⟨D', α', hl, ?_, ?_⟩
    · rw [toPot_val_tm D' α' hm' hx, toPot_val_tm D α hm hx] at u2
      have : m' * (toPot .tm n m' D' α').val n x = m' * (toPot .tm n m D α).val n x := by
        rw [u2]; field_simp
      exact (mul_left_cancel₀ hm' this).symm
    · simp only [sEps]
      rw [toPot_der_tm hn D α hm hx, toPot_der_tm hn D' α' hm' hx, u1]
  | te =>
    have h1 : Tendsto (fun i => (w' i).val n (m' * x * κ i) / κ i ^ (n + 1)) F
        (𝓝 (vLim n (m * x) D α * m' / m)) := by
      refine ((hv.mul_const m').div_const m).congr' ?_
      filter_upwards [hc] with i h
      have := h.1
      rw [← mul_assoc, ← mul_assoc] at this
      rw [div_mul_eq_mul_div, this]
      field_simp
    have h2 : Tendsto (fun i => (w' i).der n (m' * x * κ i) / κ i ^ n) F (𝓝 (eLim n (m * x) D α)) := by
      refine he.congr' ?_
      filter_upwards [hc] with i h
      have := h.2
      rw [← mul_assoc, ← mul_assoc] at this
      rw [this]
    obtain ⟨D', α', hl⟩ := waveLim_of hκ (mul_ne_zero hm' hx) h1 h2
    have u1 := tendsto_nhds_unique (val_lim hκ (mul_ne_zero hm' hx) hl) h1
    have u2 := tendsto_nhds_unique (der_lim hκ (mul_ne_zero hm' hx) hl) h2
    refine ⟨D', α', hl, ?_, ?_⟩
    · rw [toPot_val_te D' α' hm' hx, toPot_val_te D α hm hx] at u2
      exact u2.symm
    · have e1 := toPot_der_te hn D α hm hx
      have e2 := toPot_der_te hn D' α' hm' hx
      rw [u1] at e2
      simp only [sEps, one_mul]
      have : m * m' * (toPot .te n m D α).der n x = m * m' * (toPot .te n m' D' α').der n x := by
        rw [mul_assoc m m' ((toPot .te n m' D' α').der n x), e2, mul_comm m m', mul_assoc m' m, e1]
        field_simp
      exact mul_left_cancel₀ (mul_ne_zero hm hm') this

/-- The layers scaled by `kappa`. -/
def scaledLayers (k : ℂ) (layers : List (ℂ × ℂ)) : List (ℂ × ℂ) := layers.map fun l => (l.1, l.2 * k)

/-- The layers of the static problem. -/
def sLayers (q : Pol) (layers : List (ℂ × ℂ)) : List (ℂ × ℂ) := layers.map fun l => (sEps q l.1, l.2)

theorem sEps_one (q : Pol) : sEps q 1 = 1 := by cases q <;> simp [sEps]

theorem chain_small [F.NeBot] (hκ : Tendsto κ F (𝓝[≠] 0)) {q : Pol} {n : ℕ} (hn : 1 ≤ n) :
    ∀ (rest : List (ℂ × ℂ)) (l : ℂ × ℂ), (∀ l' ∈ l :: rest, l'.1 ≠ 0 ∧ l'.2 ≠ 0) →
      ∀ {w out : ι → Wave} {D α : ℂ}, WaveLim F κ n w D α →
      (∀ᶠ i in F, Chain q n (w i) (scaledLayers (κ i) (l :: rest)) (out i)) →
      ∃ D' α', WaveLim F κ n out D' α' ∧
        StaticChain n 1 (toPot q n l.1 D α) (sLayers q (l :: rest)) (toPot q n 1 D' α') := by
  intro rest
  induction rest with
  | nil =>
    intro l hl w out D α hw hc
    obtain ⟨m, x⟩ := l
    have h := hl (m, x) (by simp)
    obtain ⟨D', α', h1, h2⟩ := cont_small hκ hn h.1 one_ne_zero h.2 hw hc
    rw [sEps_one] at h2
    exact ⟨D', α', h1, h2⟩
  | cons l' rest ih =>
    intro l hl w out D α hw hc
    obtain ⟨m, x⟩ := l
    obtain ⟨m', x'⟩ := l'
    have hex : ∀ i, ∃ w', Chain q n (w i) (scaledLayers (κ i) ((m, x) :: (m', x') :: rest)) (out i) →
        Cont q n m m' (x * κ i) (w i) w' ∧ Chain q n w' (scaledLayers (κ i) ((m', x') :: rest)) (out i) := by
      intro i
      by_cases h : Chain q n (w i) (scaledLayers (κ i) ((m, x) :: (m', x') :: rest)) (out i)
      · obtain ⟨w', h1, h2⟩ := h
        exact ⟨w', fun _ => ⟨h1, h2⟩⟩
      · exact ⟨⟨0, 0⟩, fun h' => absurd h' h⟩
    choose w' hw0 using hex
    have hw' := hc.mono fun i h => hw0 i h
    have h := hl (m, x) (by simp)
    have h' := hl (m', x') (by simp)
    obtain ⟨D1, α1, h1, h2⟩ := cont_small hκ hn h.1 h'.1 h.2 hw (hw'.mono fun i h => h.1)
    obtain ⟨D2, α2, h3, h4⟩ := ih (m', x') (fun l hl' => hl l (List.mem_cons_of_mem _ hl')) h1
      (hw'.mono fun i h => h.2)
    exact ⟨D2, α2, h3, toPot q n m' D1 α1, h2, h4⟩

theorem Pot.ext' {P Q : Pot} (h1 : P.A = Q.A) (h2 : P.B = Q.B) : P = Q := by
  cases P; cases Q; simp_all

/-- Multiple of a potential. -/
def _root_.MieDiff.Spec.Pot.smul (s : ℂ) (P : Pot) : Pot := ⟨s * P.A, s * P.B⟩

theorem _root_.MieDiff.Spec.StaticCont.smul {n : ℕ} {e e' r : ℂ} {P P' : Pot} (h : StaticCont n e e' r P P') (s : ℂ) :
    StaticCont n e e' r (P.smul s) (P'.smul s) := by
  obtain ⟨h1, h2⟩ := h
  simp only [StaticCont, Pot.smul, Pot.val, Pot.der] at h1 h2 ⊢
  exact ⟨by linear_combination s * h1, by linear_combination s * h2⟩

theorem _root_.MieDiff.Spec.StaticChain.smul {n : ℕ} {eh : ℂ} (s : ℂ) :
    ∀ {layers : List (ℂ × ℂ)} {P out : Pot}, StaticChain n eh P layers out →
      StaticChain n eh (P.smul s) layers (out.smul s) := by
  intro layers
  induction layers with
  | nil => intro P out h; exact h
  | cons l rest ih =>
    intro P out h
    obtain ⟨e, r⟩ := l
    cases rest with
    | nil => exact StaticCont.smul h s
    | cons l' rest =>
      obtain ⟨P', h1, h2⟩ := h
      exact ⟨P'.smul s, StaticCont.smul h1 s, ih h2⟩

/-- The scattering coefficients at small size: `a_n(kappa) / kappa^(2n+1)` tends to the static response, times
`i (n+1) (2n+1) / (n (2n+1)!!^2)`. -/
theorem solves_small [F.NeBot] (hκ : Tendsto κ F (𝓝[≠] 0)) {q : Pol} {n : ℕ} (hn : 1 ≤ n) {layers : List (ℂ × ℂ)}
    (hl : ∀ l ∈ layers, l.1 ≠ 0 ∧ l.2 ≠ 0) (hreg : StaticRegular n 1 (sLayers q layers)) {a : ι → ℂ}
    (ha : ∀ᶠ i in F, Solves q n (scaledLayers (κ i) layers) (a i)) :
    ∃ β, StaticSolves n 1 (sLayers q layers) β ∧ Tendsto (fun i => a i / κ i ^ (2 * n + 1)) F
      (𝓝 (I * (((n : ℂ) + 1) * (2 * n + 1) / (n * ((2 * n + 1)‼ : ℂ) ^ 2)) * β)) := by
  have hn0 : (n : ℂ) ≠ 0 := by exact_mod_cast (by omega : n ≠ 0)
  have hn1 : (n : ℂ) + 1 ≠ 0 := by exact_mod_cast Nat.succ_ne_zero n
  have hK := dfac_ne n
  cases layers with
  | nil =>
    obtain ⟨i, c, -, h⟩ := ha.exists
    exact absurd h (by simp [scaledLayers, Chain])
  | cons l rest =>
    have hnz : ∀ᶠ i in F, ∀ l' ∈ scaledLayers (κ i) (l :: rest), l'.1 ≠ 0 ∧ l'.2 ≠ 0 := by
      filter_upwards [kappa_ne hκ] with i hi l' hl'
      obtain ⟨l0, h0, rfl⟩ := List.mem_map.1 hl'
      exact ⟨(hl l0 h0).1, mul_ne_zero (hl l0 h0).2 hi⟩
    have hex : ∀ i, ∃ d : ℂ, Solves q n (scaledLayers (κ i) (l :: rest)) (a i) →
        (∀ l' ∈ scaledLayers (κ i) (l :: rest), l'.1 ≠ 0 ∧ l'.2 ≠ 0) →
        d ≠ 0 ∧ Chain q n ⟨1, 0⟩ (scaledLayers (κ i) (l :: rest)) ⟨d, a i * d⟩ := by
      intro i
      by_cases h : Solves q n (scaledLayers (κ i) (l :: rest)) (a i) ∧
        (∀ l' ∈ scaledLayers (κ i) (l :: rest), l'.1 ≠ 0 ∧ l'.2 ≠ 0)
      · obtain ⟨⟨c, hc, h1⟩, h2⟩ := h
        have hd := chain_core_ne h2 hc h1 one_ne_zero
        refine ⟨1 / c.d, fun _ _ => ⟨one_div_ne_zero hd, ?_⟩⟩
        have h3 := h1.smul (1 / c.d)
        have e1 : c.smul (1 / c.d) = ⟨1, 0⟩ := by
          cases c
          simp only [Wave.smul, Wave.mk.injEq] at *
          exact ⟨by field_simp, by rw [hc, mul_zero]⟩
        have e2 : Wave.smul (1 / c.d) ⟨1, a i⟩ = ⟨1 / c.d, a i * (1 / c.d)⟩ := by
          simp only [Wave.smul, Wave.mk.injEq]
          exact ⟨by ring, by ring⟩
        rwa [e1, e2] at h3
      · exact ⟨0, fun h1 h2 => absurd ⟨h1, h2⟩ h⟩
    choose d hd using hex
    have hch : ∀ᶠ i in F, d i ≠ 0 ∧ Chain q n ⟨1, 0⟩ (scaledLayers (κ i) (l :: rest)) ⟨d i, a i * d i⟩ := by
      filter_upwards [ha, hnz] with i h1 h2 using hd i h1 h2
    have hw : WaveLim F κ n (fun _ => (⟨1, 0⟩ : Wave)) 1 0 :=
      ⟨tendsto_const_nhds, by simp⟩
    obtain ⟨D', α', ⟨ho1, ho2⟩, hst⟩ := chain_small hκ hn rest l hl (out := fun i => ⟨d i, a i * d i⟩) hw
      (hch.mono fun i h => h.2)
    have hcB : (toPot q n l.1 1 0).B = 0 := by cases q <;> simp [toPot]
    have hcA : (toPot q n l.1 1 0).A ≠ 0 := by
      have hm := (hl l (by simp)).1
      cases q <;> simp only [toPot]
      · exact div_ne_zero (mul_ne_zero (mul_ne_zero hn1 one_ne_zero) (pow_ne_zero _ hm)) (mul_ne_zero hK hm)
      · exact div_ne_zero (mul_ne_zero (mul_ne_zero hn1 one_ne_zero) (pow_ne_zero _ hm)) hK
    have hA : (toPot q n 1 D' α').A = ((n : ℂ) + 1) * D' / ((2 * n + 1)‼ : ℂ) := by
      cases q <;> simp [toPot]
    have hB : (toPot q n 1 D' α').B = -I * n * kOut n * α' := by cases q <;> simp [toPot]
    have hAne : (toPot q n 1 D' α').A ≠ 0 := fun h0 => hcA (hreg _ _ hcB hst h0)
    have hD : D' ≠ 0 := by
      rintro rfl
      apply hAne
      rw [hA]; simp
    refine ⟨(toPot q n 1 D' α').B / (toPot q n 1 D' α').A, ⟨Pot.smul (1 / (toPot q n 1 D' α').A) (toPot q n l.1 1 0),
      by simp only [Pot.smul, hcB, mul_zero], ?_⟩, ?_⟩
    · have h := hst.smul (1 / (toPot q n 1 D' α').A)
      have e : Pot.smul (1 / (toPot q n 1 D' α').A) (toPot q n 1 D' α') =
          ⟨1, (toPot q n 1 D' α').B / (toPot q n 1 D' α').A⟩ :=
        Pot.ext' (by simp only [Pot.smul]; field_simp) (by simp only [Pot.smul]; ring)
      rwa [e] at h
    · rw [hA, hB]
      have hlim := ho2.div ho1 hD
      have e : I * (((n : ℂ) + 1) * (2 * n + 1) / (n * ((2 * n + 1)‼ : ℂ) ^ 2)) *
          (-I * n * kOut n * α' / (((n : ℂ) + 1) * D' / ((2 * n + 1)‼ : ℂ))) = α' / D' := by
        have h3 := odd1_ne n
        have h4 := kOut_ne n
        have h2 : ((2 * n + 1)‼ : ℂ) = (2 * (n : ℂ) + 1) * kOut n := by unfold kOut; field_simp
        rw [h2]
        generalize kOut n = k at *
        generalize 2 * (n : ℂ) + 1 = s at *
        field_simp
        linear_combination (-α') * I_sq
      rw [e]
      refine hlim.congr' ?_
      filter_upwards [hch, kappa_ne hκ] with i h hi
      have := h.1
      show a i * d i / κ i ^ (2 * n + 1) / d i = _
      field_simp

end MieDiff
