import Verif.Proofs.Interface
import Mathlib.Analysis.Calculus.Deriv.MeanValue
import Mathlib.Analysis.Calculus.Deriv.Star
import Mathlib.Analysis.Complex.RealDeriv
import Mathlib.Topology.Order.OrderClosed

/-!
# Radial energy flux

For one multipole the flux through a sphere of size parameter `rho` is proportional to `Im (conj f * f'/m)`
(electric) or `Im (conj (f/m) * f')` (magnetic).  It is continuous across interfaces and its derivative has the sign
of `-Im m^2`.  Hence `Re a - |a|^2` has the sign of `Im m^2` for every solution of the interface problem.
-/

namespace MieDiff.Spec

open Complex ComplexConjugate Filter Topology

theorem sphJ_conj (n : ℕ) {x : ℝ} (hx : x ≠ 0) : conj (sphJ n (x : ℂ)) = sphJ n x := by
  have hz : (x : ℂ) ≠ 0 := by exact_mod_cast hx
  induction n using Nat.twoStepInduction with
  | zero => rw [sphJ_zero]; simp [← ofReal_sin]
  | one => rw [sphJ_one hz]; simp [← ofReal_sin, ← ofReal_cos]
  | more n h0 h1 =>
    rw [sphJ_seq.three n hz]
    simp only [map_sub, map_mul, map_div₀, map_add, h0, h1, conj_ofReal, map_natCast, map_ofNat]

theorem sphY_conj (n : ℕ) {x : ℝ} (hx : x ≠ 0) : conj (sphY n (x : ℂ)) = sphY n x := by
  have hz : (x : ℂ) ≠ 0 := by exact_mod_cast hx
  induction n using Nat.twoStepInduction with
  | zero => rw [sphY_zero]; simp [← ofReal_cos]
  | one => rw [sphY_one hz]; simp [← ofReal_sin, ← ofReal_cos]
  | more n h0 h1 =>
    rw [sphY_seq.three n hz]
    simp only [map_sub, map_mul, map_div₀, map_add, h0, h1, conj_ofReal, map_natCast, map_ofNat]

theorem ricPsi_conj (n : ℕ) {x : ℝ} (hx : x ≠ 0) : conj (ricPsi n (x : ℂ)) = ricPsi n x := by
  unfold ricPsi; simp [sphJ_conj n hx]

/-- `conj ζ = 2ψ - ζ` on the real axis. -/
theorem ricZeta_conj (n : ℕ) {x : ℝ} (hx : x ≠ 0) :
    conj (ricZeta n (x : ℂ)) = 2 * ricPsi n x - ricZeta n x := by
  unfold ricZeta sphH ricPsi
  simp only [map_mul, map_add, sphJ_conj n hx, sphY_conj n hx, conj_ofReal, conj_I]
  ring

theorem dricPsi_conj (n : ℕ) {x : ℝ} (hx : x ≠ 0) :
    conj (deriv (ricPsi n) (x : ℂ)) = deriv (ricPsi n) x := by
  have hz : (x : ℂ) ≠ 0 := by exact_mod_cast hx
  rw [deriv_ricPsi_raise n hz]
  simp [ricPsi_conj _ hx]

theorem dricZeta_conj (n : ℕ) {x : ℝ} (hx : x ≠ 0) :
    conj (deriv (ricZeta n) (x : ℂ)) = 2 * deriv (ricPsi n) x - deriv (ricZeta n) x := by
  have hz : (x : ℂ) ≠ 0 := by exact_mod_cast hx
  rw [deriv_ricZeta_raise n hz, deriv_ricPsi_raise n hz]
  simp only [map_sub, map_mul, map_div₀, map_add, ricZeta_conj _ hx, conj_ofReal, map_natCast, map_one]
  ring

/-- Flux outside the particle. -/
theorem host_flux (n : ℕ) (a : ℂ) {x : ℝ} (hx : x ≠ 0) :
    (conj ((⟨1, a⟩ : Wave).val n x) * (⟨1, a⟩ : Wave).der n x).im = ‖a‖ ^ 2 - a.re := by
  have hz : (x : ℂ) ≠ 0 := by exact_mod_cast hx
  have w := ric_wronskian n hz
  simp only [Wave.val, Wave.der, map_sub, map_mul, map_one, ricPsi_conj n hx, ricZeta_conj n hx]
  have c1 := ricPsi_conj n hx
  have c2 := dricPsi_conj n hx
  have c3 := ricZeta_conj n hx
  have c4 := dricZeta_conj n hx
  set P := ricPsi n (x : ℂ)
  set P' := deriv (ricPsi n) (x : ℂ)
  set Z := ricZeta n (x : ℂ)
  set Z' := deriv (ricZeta n) (x : ℂ)
  have p0 : P.im = 0 := by have := congrArg im c1; simp at this; linarith
  have p1 : P'.im = 0 := by have := congrArg im c2; simp at this; linarith
  have z0 : Z.re = P.re := by have := congrArg re c3; simp at this; linarith
  have z1 : Z'.re = P'.re := by have := congrArg re c4; simp at this; linarith
  have wi := congrArg im w
  have wr := congrArg re w
  simp [p0, p1, z0, z1] at wi wr
  rw [← normSq_eq_norm_sq, normSq_apply]
  simp [p0, p1, z0, z1]
  linear_combination (a.re * a.re + a.im * a.im - a.re) * wi

/-- The Riccati-Bessel equation for the regular function. -/
theorem hasDerivAt_dricPsi (n : ℕ) {z : ℂ} (hz : z ≠ 0) :
    HasDerivAt (deriv (ricPsi n)) (((n : ℂ) * (n + 1) / z ^ 2 - 1) * ricPsi n z) z := by
  have he : deriv (ricPsi n) =ᶠ[𝓝 z] fun w => ((n : ℂ) + 1) / w * ricPsi n w - ricPsi (n + 1) w := by
    filter_upwards [isOpen_ne0.mem_nhds hz] with w hw
    exact deriv_ricPsi_raise n hw
  refine HasDerivAt.congr_of_eventuallyEq ?_ he
  have h1 : HasDerivAt (fun w : ℂ => ((n : ℂ) + 1) / w) (-((n : ℂ) + 1) / z ^ 2) z := by
    refine ((hasDerivAt_inv hz).const_mul ((n : ℂ) + 1)).congr_deriv ?_
    ring
  refine ((h1.mul (hasDerivAt_ricPsi n hz)).sub (hasDerivAt_ricPsi (n + 1) hz)).congr_deriv ?_
  rw [deriv_ricPsi_raise n hz, deriv_ricPsi_lower n hz]
  field_simp
  ring

theorem hasDerivAt_dricZeta (n : ℕ) {z : ℂ} (hz : z ≠ 0) :
    HasDerivAt (deriv (ricZeta n)) (((n : ℂ) * (n + 1) / z ^ 2 - 1) * ricZeta n z) z := by
  have he : deriv (ricZeta n) =ᶠ[𝓝 z] fun w => ((n : ℂ) + 1) / w * ricZeta n w - ricZeta (n + 1) w := by
    filter_upwards [isOpen_ne0.mem_nhds hz] with w hw
    exact deriv_ricZeta_raise n hw
  refine HasDerivAt.congr_of_eventuallyEq ?_ he
  have h1 : HasDerivAt (fun w : ℂ => ((n : ℂ) + 1) / w) (-((n : ℂ) + 1) / z ^ 2) z := by
    refine ((hasDerivAt_inv hz).const_mul ((n : ℂ) + 1)).congr_deriv ?_
    ring
  refine ((h1.mul (hasDerivAt_ricZeta n hz)).sub (hasDerivAt_ricZeta (n + 1) hz)).congr_deriv ?_
  rw [deriv_ricZeta_raise n hz, deriv_ricZeta_lower n hz]
  field_simp
  ring

theorem Wave.hasDerivAt_val (w : Wave) (n : ℕ) {z : ℂ} (hz : z ≠ 0) :
    HasDerivAt (w.val n) (w.der n z) z :=
  ((hasDerivAt_ricPsi n hz).const_mul w.d).sub ((hasDerivAt_ricZeta n hz).const_mul w.a)

theorem Wave.hasDerivAt_der (w : Wave) (n : ℕ) {z : ℂ} (hz : z ≠ 0) :
    HasDerivAt (w.der n) (((n : ℂ) * (n + 1) / z ^ 2 - 1) * w.val n z) z := by
  refine (((hasDerivAt_dricPsi n hz).const_mul w.d).sub
    ((hasDerivAt_dricZeta n hz).const_mul w.a)).congr_deriv ?_
  simp only [Wave.val]; ring

/-- Radial flux of wave `w` in medium `m` at size parameter `rho`. -/
noncomputable def flux (p : Pol) (w : Wave) (n : ℕ) (m : ℂ) (rho : ℝ) : ℝ :=
  match p with
  | .tm => (conj (w.val n (m * rho)) * (w.der n (m * rho) / m)).im
  | .te => (conj (w.val n (m * rho) / m) * w.der n (m * rho)).im

theorem flux_cont {p : Pol} {w w' : Wave} {n : ℕ} {m m' : ℂ} {x : ℝ} (hm : m ≠ 0) (hm' : m' ≠ 0)
    (h : Cont p n m m' x w w') : flux p w n m x = flux p w' n m' x := by
  cases p <;> simp only [Cont] at h <;> obtain ⟨h1, h2⟩ := h <;> simp only [flux]
  · rw [h1, show w.der n (m * x) / m = w'.der n (m' * x) / m' by
      rw [div_eq_div_iff hm hm']; exact h2]
  · rw [h2, show w.val n (m * x) / m = w'.val n (m' * x) / m' by
      rw [div_eq_div_iff hm hm']; exact h1]

theorem hasDerivAt_im_conj_mul {f g : ℝ → ℂ} {f' g' : ℂ} {r : ℝ} (hf : HasDerivAt f f' r)
    (hg : HasDerivAt g g' r) :
    HasDerivAt (fun t => (conj (f t) * g t).im) ((conj f' * g r + conj (f r) * g').im) r := by
  have h1 : HasDerivAt (fun t => conj (f t)) (conj f') r := hf.star
  exact (imCLM.hasFDerivAt (x := conj (f r) * g r)).comp_hasDerivAt r (h1.mul hg)

theorem hasDerivAt_scaled {F : ℂ → ℂ} {F' m : ℂ} {r : ℝ} (hF : HasDerivAt F F' (m * r)) :
    HasDerivAt (fun t : ℝ => F (m * t)) (m * F') r := by
  have h1 : HasDerivAt (fun z : ℂ => m * z) m (r : ℂ) := by
    simpa using (hasDerivAt_id (r : ℂ)).const_mul m
  have := (HasDerivAt.comp (r : ℂ) hF h1).comp_ofReal
  refine this.congr_deriv (by ring)

/-- What the flux loses per size parameter, up to the factor `Im m^2`. -/
noncomputable def fluxLoss (p : Pol) (w : Wave) (n : ℕ) (m : ℂ) (r : ℝ) : ℝ :=
  match p with
  | .tm => normSq (w.der n (m * r)) / normSq m + normSq (w.val n (m * r)) * (n * (n + 1) / r ^ 2 / normSq m ^ 2)
  | .te => normSq (w.val n (m * r)) / normSq m

theorem fluxLoss_nonneg (p : Pol) (w : Wave) (n : ℕ) (m : ℂ) (r : ℝ) : 0 ≤ fluxLoss p w n m r := by
  have h1 := normSq_nonneg (w.der n (m * r))
  have h2 := normSq_nonneg (w.val n (m * r))
  have h3 := normSq_nonneg m
  cases p <;> simp only [fluxLoss] <;> positivity

theorem hasDerivAt_flux_loss (p : Pol) (w : Wave) (n : ℕ) {m : ℂ} (hm : m ≠ 0) {r : ℝ} (hr : 0 < r) :
    HasDerivAt (flux p w n m) (-(m ^ 2).im * fluxLoss p w n m r) r := by
  have hr' : (r : ℂ) ≠ 0 := by exact_mod_cast hr.ne'
  have hz : m * r ≠ 0 := mul_ne_zero hm hr'
  have hv := hasDerivAt_scaled (w.hasDerivAt_val n hz)
  have hd := hasDerivAt_scaled (w.hasDerivAt_der n hz)
  have hN : 0 < normSq m := normSq_pos.2 hm
  have hmc : conj m = normSq m / m := by
    rw [eq_div_iff hm, mul_comm, mul_conj]
  set v := w.val n (m * r) with hvv
  set e := w.der n (m * r) with hee
  have hi1 : (1 / m ^ 2).im = -(m ^ 2).im / normSq m ^ 2 := by
    rw [one_div, inv_im, map_pow]
  have hi2 : (m ^ 2 / (normSq m : ℂ)).im = (m ^ 2).im / normSq m := by
    rw [div_ofReal_im]
  have hsq : ∀ u : ℂ, conj u * u = (normSq u : ℂ) := fun u => by rw [mul_comm, mul_conj]
  cases p
  · refine (hasDerivAt_im_conj_mul hv (hd.div_const m)).congr_deriv ?_
    have e1 : conj (m * e) * (e / m) + conj v * (m * (((n : ℂ) * (n + 1) / (m * r) ^ 2 - 1) * v) / m) =
        (normSq e : ℝ) * (normSq m * (1 / m ^ 2)) +
          (normSq v : ℝ) * (((n * (n + 1) / r ^ 2 : ℝ) : ℂ) * (1 / m ^ 2) - 1) := by
      rw [← hsq e, ← hsq v, map_mul, hmc]
      push_cast
      field_simp
    rw [e1]
    simp only [fluxLoss, ← hvv, ← hee, add_im, mul_im, ofReal_re, ofReal_im, zero_mul, add_zero, sub_im, one_im, sub_zero, hi1]
    field_simp
    ring
  · refine (hasDerivAt_im_conj_mul (hv.div_const m) hd).congr_deriv ?_
    have e1 : conj (m * e / m) * e + conj (v / m) * (m * (((n : ℂ) * (n + 1) / (m * r) ^ 2 - 1) * v)) =
        (normSq e : ℝ) + (normSq v : ℝ) * (((n * (n + 1) / r ^ 2 / normSq m : ℝ) : ℂ) -
          m ^ 2 / (normSq m : ℂ)) := by
      have hNc : (normSq m : ℂ) ≠ 0 := by exact_mod_cast hN.ne'
      rw [← hsq e, ← hsq v, mul_div_cancel_left₀ _ hm, map_div₀, hmc]
      push_cast
      field_simp
    rw [e1]
    simp only [fluxLoss, ← hvv, add_im, mul_im, ofReal_re, ofReal_im, zero_mul, add_zero, sub_im, zero_sub, hi2, zero_add]
    field_simp

/-- Rate of change of the flux: `-Im m^2` times a nonnegative quantity. -/
theorem hasDerivAt_flux (p : Pol) (w : Wave) (n : ℕ) {m : ℂ} (hm : m ≠ 0) {r : ℝ} (hr : 0 < r) :
    ∃ c : ℝ, 0 ≤ c ∧ HasDerivAt (flux p w n m) (-(m ^ 2).im * c) r :=
  ⟨_, fluxLoss_nonneg p w n m r, hasDerivAt_flux_loss p w n hm hr⟩

theorem flux_antitone (p : Pol) (w : Wave) (n : ℕ) {m : ℂ} (hm : m ≠ 0) {s : ℝ} (hs : 0 ≤ s * (m ^ 2).im) :
    AntitoneOn (fun r => s * flux p w n m r) (Set.Ioi 0) := by
  refine antitoneOn_of_deriv_nonpos (convex_Ioi 0) ?_ ?_ ?_
  · intro r hr
    obtain ⟨c, _, h⟩ := hasDerivAt_flux p w n hm hr
    exact (h.const_mul s).continuousAt.continuousWithinAt
  · intro r hr
    rw [interior_Ioi] at hr
    obtain ⟨c, _, h⟩ := hasDerivAt_flux p w n hm hr
    exact (h.const_mul s).differentiableAt.differentiableWithinAt
  · intro r hr
    rw [interior_Ioi] at hr
    obtain ⟨c, hc, h⟩ := hasDerivAt_flux p w n hm hr
    rw [(h.const_mul s).deriv]
    have := mul_nonneg hs hc
    linarith

/-- `‖ψ_n(z)‖` near the origin. -/
theorem norm_ricPsi_le (n : ℕ) {z : ℂ} (hz : z ≠ 0) (h : ‖z‖ ≤ 1) : ‖ricPsi n z‖ ≤ 2 * ‖z‖ ^ (n + 1) := by
  have hz0 := norm_nonneg z
  have h1 := norm_sphJ_sub_le n hz (by nlinarith [(Nat.cast_nonneg n : (0 : ℝ) ≤ n)])
  have h2 : ‖jTerm n 0 z‖ ≤ ‖z‖ ^ n := by
    unfold jTerm
    simp only [pow_zero, mul_zero, add_zero, Nat.factorial_zero, Nat.cast_one, mul_one, one_mul]
    rw [norm_div, norm_pow]
    have : (1 : ℝ) ≤ ‖((2 * n + 1).doubleFactorial : ℂ)‖ := by
      rw [norm_natCast]
      exact_mod_cast Nat.doubleFactorial_pos _
    exact div_le_self (by positivity) this
  have h3 : ‖sphJ n z‖ ≤ 2 * ‖z‖ ^ n := by
    have := norm_add_le (sphJ n z - jTerm n 0 z) (jTerm n 0 z)
    rw [sub_add_cancel] at this
    have := norm_nonneg (jTerm n 0 z)
    linarith
  unfold ricPsi
  rw [norm_mul, pow_succ]
  nlinarith

theorem norm_dricPsi_le (n : ℕ) {z : ℂ} (hz : z ≠ 0) (h : ‖z‖ ≤ 1) :
    ‖deriv (ricPsi n) z‖ ≤ 2 * (n + 2) * ‖z‖ ^ n := by
  have hzp : 0 < ‖z‖ := norm_pos_iff.2 hz
  rw [deriv_ricPsi_raise n hz]
  have h1 := norm_ricPsi_le n hz h
  have h2 := norm_ricPsi_le (n + 1) hz h
  have h3 : ‖((n : ℂ) + 1) / z‖ = ((n : ℝ) + 1) / ‖z‖ :=
    norm_natCast_div _ (by positivity) _ _ (by push_cast; ring)
  refine (norm_sub_le _ _).trans ?_
  rw [norm_mul, h3]
  have h4 : ((n : ℝ) + 1) / ‖z‖ * ‖ricPsi n z‖ ≤ ((n : ℝ) + 1) / ‖z‖ * (2 * ‖z‖ ^ (n + 1)) :=
    mul_le_mul_of_nonneg_left h1 (by positivity)
  have h5 : ((n : ℝ) + 1) / ‖z‖ * (2 * ‖z‖ ^ (n + 1)) = 2 * (n + 1) * ‖z‖ ^ n := by
    rw [pow_succ]; field_simp
  have h6 : ‖z‖ ^ (n + 1 + 1) ≤ ‖z‖ ^ n := pow_le_pow_of_le_one hzp.le h (by omega)
  linarith

/-- The flux of a regular wave vanishes at the centre. -/
theorem flux_core_tendsto (p : Pol) (d : ℂ) (n : ℕ) {m : ℂ} (hm : m ≠ 0) :
    Tendsto (flux p ⟨d, 0⟩ n m) (𝓝[>] 0) (𝓝 0) := by
  have hmn : 0 < ‖m‖ := norm_pos_iff.2 hm
  have hb : ∀ᶠ r : ℝ in 𝓝[>] 0, ‖flux p ⟨d, 0⟩ n m r‖ ≤ ‖d‖ ^ 2 * (4 * (n + 2)) * r := by
    have h1 : Set.Ioo (0 : ℝ) (1 / ‖m‖) ∈ 𝓝[>] (0 : ℝ) := Ioo_mem_nhdsGT (by positivity)
    filter_upwards [h1] with r hr
    have hr0 : 0 < r := hr.1
    have hz : m * r ≠ 0 := mul_ne_zero hm (by exact_mod_cast hr0.ne')
    have hn : ‖m * (r : ℂ)‖ = ‖m‖ * r := by rw [norm_mul, norm_real, Real.norm_of_nonneg hr0.le]
    have hle : ‖m * (r : ℂ)‖ ≤ 1 := by
      rw [hn]; have := hr.2; rw [lt_div_iff₀ hmn] at this; linarith
    have h2 := norm_ricPsi_le n hz hle
    have h3 := norm_dricPsi_le n hz hle
    have hp0 : ‖m * (r : ℂ)‖ ^ n ≤ 1 := pow_le_one₀ (norm_nonneg _) hle
    have h2' : ‖ricPsi n (m * r)‖ ≤ 2 * (‖m‖ * r) := by
      rw [pow_succ] at h2
      rw [← hn]
      have := norm_nonneg (m * (r : ℂ))
      nlinarith
    have h3' : ‖deriv (ricPsi n) (m * r)‖ ≤ 2 * (n + 2) := by
      have : (0 : ℝ) ≤ 2 * (n + 2) := by positivity
      nlinarith
    have h4 : ‖ricPsi n (m * r)‖ * ‖deriv (ricPsi n) (m * r)‖ ≤ 2 * (‖m‖ * r) * (2 * (n + 2)) :=
      mul_le_mul h2' h3' (norm_nonneg _) (by positivity)
    have h5 : ‖flux p ⟨d, 0⟩ n m r‖ ≤ ‖d‖ ^ 2 * (‖ricPsi n (m * r)‖ * ‖deriv (ricPsi n) (m * r)‖) / ‖m‖ := by
      cases p <;> simp only [flux, Wave.val, Wave.der, zero_mul, sub_zero] <;>
      · refine (abs_im_le_norm _).trans (le_of_eq ?_)
        simp only [norm_mul, norm_div, RCLike.norm_conj]
        ring
    refine h5.trans ?_
    rw [div_le_iff₀ hmn]
    have := mul_le_mul_of_nonneg_left h4 (by positivity : 0 ≤ ‖d‖ ^ 2)
    linarith
  refine squeeze_zero_norm' hb ?_
  have : Tendsto (fun r : ℝ => ‖d‖ ^ 2 * (4 * (n + 2)) * r) (𝓝 0) (𝓝 (‖d‖ ^ 2 * (4 * (n + 2)) * 0)) :=
    tendsto_id.const_mul _
  rw [mul_zero] at this
  exact this.mono_left nhdsWithin_le_nhds

theorem flux_core (p : Pol) (d : ℂ) (n : ℕ) {m : ℂ} (hm : m ≠ 0) {s : ℝ} (hs : 0 ≤ s * (m ^ 2).im) {x : ℝ}
    (hx : 0 < x) : s * flux p ⟨d, 0⟩ n m x ≤ 0 := by
  have h1 : Tendsto (fun r => s * flux p ⟨d, 0⟩ n m r) (𝓝[>] 0) (𝓝 0) := by
    simpa using (flux_core_tendsto p d n hm).const_mul s
  refine ge_of_tendsto h1 ?_
  filter_upwards [Ioo_mem_nhdsGT hx] with r hr
  exact flux_antitone p _ n hm hs hr.1 hx hr.2.le

/-- Size parameters are real, positive and do not decrease outwards. -/
def RadiiOK : ℝ → List (ℂ × ℂ) → Prop
  | _, [] => True
  | x, l :: rest => ∃ x' : ℝ, l.2 = x' ∧ x ≤ x' ∧ RadiiOK x' rest

theorem chain_flux {p : Pol} {n : ℕ} {s : ℝ} :
    ∀ (rest : List (ℂ × ℂ)) (m : ℂ) (x : ℝ) (w out : Wave), 0 < x → m ≠ 0 → s * flux p w n m x ≤ 0 →
      RadiiOK x rest → (∀ l ∈ rest, l.1 ≠ 0 ∧ 0 ≤ s * (l.1 ^ 2).im) →
      Chain p n w ((m, (x : ℂ)) :: rest) out → ∃ xL : ℝ, 0 < xL ∧ s * flux p out n 1 xL ≤ 0 := by
  intro rest
  induction rest with
  | nil =>
    intro m x w out hx hm hf _ _ hc
    exact ⟨x, hx, by rw [← flux_cont hm one_ne_zero hc]; exact hf⟩
  | cons l rest ih =>
    intro m x w out hx hm hf hr hl hc
    obtain ⟨m', x'⟩ := l
    obtain ⟨y, rfl, hy, hr⟩ := hr
    obtain ⟨w', c, hc⟩ := hc
    have hl0 := hl (m', (y : ℂ)) (by simp)
    refine ih m' y w' out (hx.trans_le hy) hl0.1 ?_ hr (fun l h => hl l (by simp [h])) hc
    rw [flux_cont hm hl0.1 c] at hf
    exact (flux_antitone p w' n hl0.1 hl0.2 hx (hx.trans_le hy) hy).trans hf

/-- Every solution of the interface problem with `s * Im m_l^2 ≥ 0` in all layers has
`s * (|a|^2 - Re a) ≤ 0`. -/
theorem Solves.energy {p : Pol} {n : ℕ} {layers : List (ℂ × ℂ)} {a : ℂ} {s : ℝ} {x0 : ℝ} (hx0 : 0 < x0)
    (hr : RadiiOK x0 layers) (hl : ∀ l ∈ layers, l.1 ≠ 0 ∧ 0 ≤ s * (l.1 ^ 2).im)
    (h : Solves p n layers a) : s * (‖a‖ ^ 2 - a.re) ≤ 0 := by
  obtain ⟨⟨d, a0⟩, rfl, hc⟩ := h
  cases layers with
  | nil => exact absurd hc (by simp [Chain])
  | cons l rest =>
    obtain ⟨m, x⟩ := l
    obtain ⟨y, rfl, hy, hr⟩ := hr
    have hl0 := hl (m, (y : ℂ)) (by simp)
    have hy0 := hx0.trans_le hy
    obtain ⟨xL, hxL, hf⟩ := chain_flux rest m y ⟨d, 0⟩ ⟨1, a⟩ hy0 hl0.1 (flux_core p d n hl0.1 hl0.2 hy0) hr
      (fun l h => hl l (by simp [h])) hc
    have : flux p ⟨1, a⟩ n 1 xL = ‖a‖ ^ 2 - a.re := by
      rw [← host_flux n a hxL.ne']
      cases p <;> simp only [flux, one_mul, div_one]
    rw [this] at hf
    exact hf

end MieDiff.Spec
