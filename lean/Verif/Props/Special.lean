import Verif.Model.Autograd
import Verif.Proofs.JLimit
import Mathlib.Analysis.Complex.ExponentialBounds
import Mathlib.Analysis.SpecialFunctions.Trigonometric.Bounds
import Mathlib.Analysis.Real.Pi.Bounds

/-!
# Properties C17-C24, C46: special functions
-/

namespace MieDiff

open Complex Spec Filter Topology

/-! ## Concrete values used to show that hypotheses can be met -/

theorem sin_one_gt : 3 / 4 < Real.sin 1 := by
  have := Real.sin_gt_sub_cube (x := 1) one_pos
  norm_num at this ⊢
  linarith

theorem ricPsi_one_at_one : ricPsi 1 1 = ((Real.sin 1 - Real.cos 1 : ℝ) : ℂ) := by
  unfold ricPsi
  rw [sphJ_one one_ne_zero]
  push_cast
  ring

theorem ricPsi_zero_at_one : ricPsi 0 1 = ((Real.sin 1 : ℝ) : ℂ) := by
  rw [ricPsi_zero 1 one_ne_zero]; push_cast; rfl

theorem psi_one_bounds : 1 / 10 < Real.sin 1 - Real.cos 1 ∧ Real.sin 1 - Real.cos 1 < 1 := by
  have h1 := sin_one_gt
  have h2 := Real.cos_one_le
  have h3 := Real.cos_one_pos
  have h4 := Real.sin_le_one 1
  constructor <;> linarith

theorem norm_ricPsi_one_at_one : 1 / 10 < ‖ricPsi 1 1‖ ∧ ‖ricPsi 1 1‖ < 1 := by
  rw [ricPsi_one_at_one, Complex.norm_real, Real.norm_eq_abs,
    abs_of_pos (by linarith [psi_one_bounds.1])]
  exact psi_one_bounds

theorem norm_ricPsi_zero_at_one : 3 / 4 < ‖ricPsi 0 1‖ := by
  rw [ricPsi_zero_at_one, Complex.norm_real, Real.norm_eq_abs]
  exact lt_of_lt_of_le sin_one_gt (le_abs_self _)

theorem norm_one_sub_I : 1 ≤ ‖(1 : ℂ) / 1 - I‖ := by
  have := Complex.abs_re_le_norm ((1 : ℂ) / 1 - I)
  simpa using this

theorem norm_ricZeta_zero_real {x : ℝ} (hx : x ≠ 0) : ‖ricZeta 0 (x : ℂ)‖ = 1 := by
  rw [ricZeta_zero_exp _ (by exact_mod_cast hx)]
  simp [Complex.norm_exp]

theorem norm_ricZeta_one_real {x : ℝ} (hx : x ≠ 0) : 1 ≤ ‖ricZeta 1 (x : ℂ)‖ := by
  rw [ricZeta_one _ (by exact_mod_cast hx), norm_mul, norm_ricZeta_zero_real hx, mul_one]
  have h := Complex.abs_im_le_norm ((1 : ℂ) / x - I)
  have : ((1 : ℂ) / x - I).im = -1 := by
    rw [← Complex.ofReal_one, ← Complex.ofReal_div]; simp
  rw [this] at h
  simpa using h

/-! ## C17: the downward recurrence -/

/-- C17: above twice the argument, `pena_D1_n` has geometric accuracy, for every order, argument
and extra depth. -/
theorem C17_error (n k nAdd : ℕ) (z : ℂ) (hz : 1e-30 ≤ ‖z‖) (hAdd : 1 ≤ nAdd) (hk : k ≤ n)
    (hbig : 2 * ‖z‖ ≤ k + 1) :
    ricPsi k z ≠ 0 ∧ ∃ D, penaD1 n z nAdd = .ok D ∧ D.length = n + 1 ∧ ∃ v, D[k]? = some v ∧
      ‖v - deriv (ricPsi k) z / ricPsi k z‖ ≤ (1 / 4) ^ (n + nAdd - 1 - k) := by
  have hz0 : z ≠ 0 := by rintro rfl; norm_num at hz
  refine ⟨(ricPsi_ratio k hz0 hbig).1, _, penaD1_eq n z nAdd _ hAdd, by simp, _,
    by rw [tab_getElem?, if_pos hk], ?_⟩
  rw [guardAdd_of_le hz]
  exact d1Val_error hz0 (by norm_num) (n + nAdd) (n + nAdd - 1 - k) k (by omega) hbig

/-- C17, with the default extra depth 15 of the code: the highest returned order is accurate to
`4^-14` as soon as it is at least twice the argument. -/
theorem C17_default (n : ℕ) (z : ℂ) (hz : 1e-30 ≤ ‖z‖) (hbig : 2 * ‖z‖ ≤ n + 1) :
    ∃ D, penaD1 n z = .ok D ∧ ∃ v, D[n]? = some v ∧
      ‖v - deriv (ricPsi n) z / ricPsi n z‖ ≤ (1 / 4) ^ 14 := by
  obtain ⟨_, D, h1, _, v, h2, h3⟩ := C17_error n n 15 z hz (by norm_num) le_rfl hbig
  refine ⟨D, h1, v, h2, ?_⟩
  rwa [show n + 15 - 1 - n = 14 by omega] at h3

/-- C17: at every order the values returned by `pena_D1_n` tend to the logarithmic derivative as the
extra depth grows, if `psi` does not vanish (and its ratios stay above the guard) in the finitely many orders
between the requested order and twice the argument. -/
theorem C17_tendsto (n k : ℕ) (z : ℂ) (hz : 1e-30 ≤ ‖z‖) (hk : k ≤ n)
    (hpsi : ∀ i : ℕ, k ≤ i → (i : ℝ) + 1 < 2 * ‖z‖ →
      ricPsi i z ≠ 0 ∧ 1e-30 < ‖ricPsi i z / ricPsi (i + 1) z‖) :
    ∃ v : ℕ → ℂ, (∀ nAdd : ℕ, 1 ≤ nAdd → ∃ D, penaD1 n z nAdd = .ok D ∧ D[k]? = some (v nAdd)) ∧
      Tendsto v atTop (𝓝 (deriv (ricPsi k) z / ricPsi k z)) := by
  have hz0 : z ≠ 0 := by rintro rfl; norm_num at hz
  refine ⟨fun nAdd => d1Val z 1e-30 (n + nAdd) k, ?_, ?_⟩
  · intro nAdd hAdd
    refine ⟨_, penaD1_eq n z nAdd _ hAdd, ?_⟩
    rw [tab_getElem?, if_pos hk, guardAdd_of_le hz]
  · have h := d1Val_tendsto (eps := 1e-30) hz0 (by norm_num) k ?_ ?_
    · have h2 := h.comp (tendsto_add_atTop_nat n)
      refine h2.congr fun N => ?_
      simp only [Function.comp, add_comm]
    · intro i hi
      by_cases hb : (i : ℝ) + 1 < 2 * ‖z‖
      · exact (hpsi i hi hb).1
      · exact (ricPsi_ratio i hz0 (not_lt.1 hb)).1
    · intro i hi
      by_cases hb : (i : ℝ) + 1 < 2 * ‖z‖
      · exact (hpsi i hi hb).2
      · obtain ⟨h1, h2⟩ := ricPsi_ratio i hz0 (not_lt.1 hb)
        have h3 := (ricPsi_ratio (i + 1) hz0 (by push_cast; linarith [not_lt.1 hb])).1
        rw [norm_div, lt_div_iff₀ (norm_pos_iff.2 h3)]
        have := norm_pos_iff.2 h1
        nlinarith [norm_nonneg (ricPsi (i + 1) z)]

/-- C17: without any extra order (`n_add ≤ 0`) the call fails, it never returns wrong values. -/
theorem C17_no_extra (n : ℕ) (z : ℂ) (nAdd : ℤ) (h : nAdd ≤ 0) :
    penaD1 n z nAdd = .error .typeError := penaD1_no_extra n z nAdd _ h

example : (1e-30 : ℝ) ≤ ‖(3 + 4 * I : ℂ) / 2‖ ∧ 2 * ‖(3 + 4 * I : ℂ) / 2‖ ≤ (7 : ℕ) + 1 := by
  have h : ‖(3 + 4 * I : ℂ)‖ = 5 := by
    rw [Complex.norm_def, show Complex.normSq (3 + 4 * I) = 5 ^ 2 by simp [Complex.normSq_apply]; norm_num,
      Real.sqrt_sq (by norm_num)]
  rw [norm_div, h]
  norm_num

example : ∀ i : ℕ, 0 ≤ i → (i : ℝ) + 1 < 2 * ‖(1 : ℂ)‖ →
    ricPsi i 1 ≠ 0 ∧ 1e-30 < ‖ricPsi i 1 / ricPsi (i + 1) 1‖ := by
  intro i _ hi
  have : i = 0 := by
    rw [norm_one] at hi
    by_contra h
    have : (1 : ℝ) ≤ i := by exact_mod_cast Nat.one_le_iff_ne_zero.2 h
    linarith
  subst this
  have h0 := norm_ricPsi_zero_at_one
  have h1 := norm_ricPsi_one_at_one
  refine ⟨norm_pos_iff.1 (by linarith), ?_⟩
  rw [norm_div, lt_div_iff₀ (by simpa using (by linarith : (0 : ℝ) < ‖ricPsi 1 1‖))]
  norm_num at h0 h1 ⊢
  nlinarith

/-! ## C18: the upward recurrences -/

theorem kernelOK_of {n : ℕ} {z : ℂ} {eps : ℝ} (hpos : 0 < eps) (hz : eps ≤ ‖z‖) (hs : sin z ≠ 0)
    (hprod : ∀ k, 1 ≤ k → k ≤ n → eps ≤ ‖ricPsi k z * ricZeta k z‖) : KernelOK n z eps := by
  have hz0 : z ≠ 0 := by rintro rfl; simp at hz; linarith
  have hne : ∀ k, 1 ≤ k → k ≤ n → ricPsi k z * ricZeta k z ≠ 0 := by
    intro k h1 h2 h0
    have := hprod k h1 h2
    rw [h0, norm_zero] at this
    linarith
  refine ⟨hpos, hz, ?_, ?_, hprod⟩
  · intro k hk
    match k with
    | 0 => rw [ricPsi_zero z hz0]; exact hs
    | k + 1 => exact left_ne_zero_of_mul (hne (k + 1) (by omega) hk)
  · intro k hk
    match k with
    | 0 => exact ricZeta_zero_ne z hz0
    | k + 1 => exact right_ne_zero_of_mul (hne (k + 1) (by omega) hk)

/-- C18: given the exact `D1`, `pena_D3_n` returns `zeta_n'/zeta_n` for every order, and
`pena_psi_zeta_n` fed with those returns the Riccati-Bessel functions. -/
theorem C18_upward_exact (n : ℕ) (z : ℂ) (hz : 1e-30 ≤ ‖z‖) (hs : sin z ≠ 0)
    (hprod : ∀ k, 1 ≤ k → k ≤ n → 1e-30 ≤ ‖ricPsi k z * ricZeta k z‖) (D1 : List ℂ)
    (hD1 : D1.length = n + 1)
    (hexact : ∀ k ≤ n, D1[k]? = some (deriv (ricPsi k) z / ricPsi k z)) :
    ∃ D3 psi zeta, penaD3 n z D1 = .ok D3 ∧ penaPsiZeta n z D1 D3 = .ok (psi, zeta) ∧
      D3.length = n + 1 ∧ psi.length = n + 1 ∧ zeta.length = n + 1 ∧
      ∀ k ≤ n, D3[k]? = some (deriv (ricZeta k) z / ricZeta k z) ∧ psi[k]? = some (ricPsi k z) ∧
        zeta[k]? = some (ricZeta k z) := by
  have hk : KernelOK n z 1e-30 := kernelOK_of (by norm_num) hz hs hprod
  have e : D1 = tab n (fun k => logD1 k z) := eq_tab' hD1 hexact
  subst e
  refine ⟨_, _, _, penaD3_exact hk, penaPsiZeta_exact hk, by simp, by simp, by simp, ?_⟩
  intro k hk
  simp only [tab_getElem?, if_pos hk, logD3, and_self]

/-- C18: Wronskian at every order and every nonzero argument. -/
theorem C18_wronskian (n : ℕ) (z : ℂ) (hz : z ≠ 0) :
    HasDerivAt (ricPsi n) (deriv (ricPsi n) z) z ∧ HasDerivAt (ricZeta n) (deriv (ricZeta n) z) z ∧
      ricPsi n z * deriv (ricZeta n) z - deriv (ricPsi n) z * ricZeta n z = I :=
  ⟨hasDerivAt_ricPsi n hz, hasDerivAt_ricZeta n hz, ric_wronskian n hz⟩

theorem kernelOK_one : KernelOK 1 1 1e-30 := by
  refine kernelOK_of (by norm_num) (by norm_num) ?_ ?_
  · have := norm_ricPsi_zero_at_one
    rw [ricPsi_zero 1 one_ne_zero] at this
    exact norm_pos_iff.1 (by linarith)
  · intro k h1 h2
    obtain rfl : k = 1 := le_antisymm h2 h1
    have h3 := norm_ricPsi_one_at_one
    have h4 := norm_ricZeta_one_real (x := 1) one_ne_zero
    rw [Complex.ofReal_one] at h4
    rw [norm_mul]
    nlinarith

example : (1e-30 : ℝ) ≤ ‖(1 : ℂ)‖ ∧ sin (1 : ℂ) ≠ 0 ∧
    ∀ k, 1 ≤ k → k ≤ 1 → 1e-30 ≤ ‖ricPsi k 1 * ricZeta k 1‖ := by
  have h := kernelOK_one
  refine ⟨h.arg, ?_, h.prod⟩
  have := h.psi 0 (by omega)
  rwa [ricPsi_zero 1 one_ne_zero] at this

/-! ## C19: the interface ratio -/

theorem q_den {z : ℂ} (k : ℕ) (hz : z ≠ 0) (hp : ricPsi (k + 1) z ≠ 0) (hq : ricZeta k z ≠ 0) :
    (z * logD1 (k + 1) z + (k + 1 : ℕ)) * ((k + 1 : ℕ) - z * logD3 k z) =
      z ^ 2 * (ricPsi k z * ricZeta (k + 1) z / (ricPsi (k + 1) z * ricZeta k z)) := by
  have a1 := logD1_add k hz hp
  have a3 := logD3_zeta_succ k hz hq
  rw [a3]
  have e : z * logD1 (k + 1) z + ((k + 1 : ℕ) : ℂ) = z * (ricPsi k z / ricPsi (k + 1) z) := by
    rw [← a1]; push_cast; field_simp
  rw [e]
  push_cast
  field_simp

/-- C19: with exact logarithmic derivatives at both arguments, `pena_Q_n` returns
`psi_n(z1) zeta_n(z2) / (zeta_n(z1) psi_n(z2))` for every order, whenever none of its guards is active. -/
theorem C19_interface_ratio (n : ℕ) (z1 z2 x1 x2 : ℂ)
    (hz1 : 1e-30 ≤ ‖z1‖) (hs1 : sin z1 ≠ 0)
    (hp1 : ∀ k, 1 ≤ k → k ≤ n → 1e-30 ≤ ‖ricPsi k z1 * ricZeta k z1‖)
    (hz2 : 1e-30 ≤ ‖z2‖) (hs2 : sin z2 ≠ 0)
    (hp2 : ∀ k, 1 ≤ k → k ≤ n → 1e-30 ≤ ‖ricPsi k z2 * ricZeta k z2‖)
    (hx2 : 1e-30 ≤ ‖x2‖) (hratio : z1 * x2 = z2 * x1)
    (hden0 : 1e-30 ≤ 2 * ‖exp (-2 * z2.im)‖ * ‖ricPsi 0 z2 / ricZeta 0 z2‖)
    (hden : ∀ k, k + 1 ≤ n →
      1e-30 ≤ ‖z1 ^ 2 * (ricPsi k z1 * ricZeta (k + 1) z1 / (ricPsi (k + 1) z1 * ricZeta k z1))‖)
    (D1z1 D1z2 D3z1 D3z2 : List ℂ)
    (hD11 : D1z1.length = n + 1 ∧ ∀ k ≤ n, D1z1[k]? = some (deriv (ricPsi k) z1 / ricPsi k z1))
    (hD12 : D1z2.length = n + 1 ∧ ∀ k ≤ n, D1z2[k]? = some (deriv (ricPsi k) z2 / ricPsi k z2))
    (hD31 : D3z1.length = n + 1 ∧ ∀ k ≤ n, D3z1[k]? = some (deriv (ricZeta k) z1 / ricZeta k z1))
    (hD32 : D3z2.length = n + 1 ∧ ∀ k ≤ n, D3z2[k]? = some (deriv (ricZeta k) z2 / ricZeta k z2)) :
    ∃ Q, penaQ n z1 z2 x1 x2 D1z1 D1z2 D3z1 D3z2 = .ok Q ∧ Q.length = n + 1 ∧
      ∀ k ≤ n, Q[k]? = some (ricPsi k z1 * ricZeta k z2 / (ricZeta k z1 * ricPsi k z2)) := by
  have k1 : KernelOK n z1 1e-30 := kernelOK_of (by norm_num) hz1 hs1 hp1
  have k2 : KernelOK n z2 1e-30 := kernelOK_of (by norm_num) hz2 hs2 hp2
  have e1 : D1z1 = tab n (fun k => logD1 k z1) := eq_tab' hD11.1 hD11.2
  have e2 : D1z2 = tab n (fun k => logD1 k z2) := eq_tab' hD12.1 hD12.2
  have e3 : D3z1 = tab n (fun k => logD3 k z1) := eq_tab' hD31.1 hD31.2
  have e4 : D3z2 = tab n (fun k => logD3 k z2) := eq_tab' hD32.1 hD32.2
  subst e1 e2 e3 e4
  have hq : QOK n z1 z2 x1 x2 1e-30 := by
    refine ⟨hx2, hratio, ?_, ?_⟩
    · have h := psi_over_zeta_zero k2.ne
      have e : exp (-2 * I * z2.re) - exp (((-2 * z2.im : ℝ)) : ℂ) =
          -2 * exp (-2 * z2.im) * (ricPsi 0 z2 / ricZeta 0 z2) := by
        rw [h]
        have : exp (-2 * (z2.im : ℂ)) * exp ((2 * z2.im : ℝ) : ℂ) = 1 := by
          rw [← exp_add]; simp
        linear_combination (-(exp (-2 * I * z2.re) - exp (((-2 * z2.im : ℝ)) : ℂ))) * this
      rw [e, norm_mul, norm_mul]
      simpa using hden0
    · intro k hk
      rw [q_den k k1.ne (k1.psi _ hk) (k1.zeta _ (by omega))]
      exact hden k hk
  refine ⟨_, penaQ_eq n z1 z2 x1 x2 _ _ _ _ _, by simp, ?_⟩
  intro k hk
  rw [tab_getElem?, if_pos hk, qVal_exact k1 k2 hq k hk]

theorem ricPsi_one_half_pi : ricPsi 1 ((Real.pi / 2 : ℝ) : ℂ) = ((2 / Real.pi : ℝ) : ℂ) := by
  have hp : ((Real.pi / 2 : ℝ) : ℂ) ≠ 0 := by
    exact_mod_cast (by have := Real.pi_pos; positivity : (Real.pi / 2 : ℝ) ≠ 0)
  unfold ricPsi
  rw [sphJ_one hp, ← Complex.ofReal_sin, ← Complex.ofReal_cos, Real.sin_pi_div_two,
    Real.cos_pi_div_two]
  have := Real.pi_ne_zero
  push_cast
  field_simp
  ring

theorem kernelOK_half_pi : KernelOK 1 ((Real.pi / 2 : ℝ) : ℂ) 1e-30 := by
  have hpi := Real.pi_gt_three
  have hpi4 := Real.pi_lt_four
  refine kernelOK_of (by norm_num) ?_ ?_ ?_
  · rw [Complex.norm_real, Real.norm_eq_abs, abs_of_pos (by linarith)]; linarith
  · rw [← Complex.ofReal_sin, Real.sin_pi_div_two]; simp
  · intro k h1 h2
    obtain rfl : k = 1 := le_antisymm h2 h1
    have h4 := norm_ricZeta_one_real (x := Real.pi / 2) (by linarith)
    rw [norm_mul, ricPsi_one_half_pi, Complex.norm_real, Real.norm_eq_abs,
      abs_of_pos (by positivity)]
    have : 1 / 2 < 2 / Real.pi := by rw [div_lt_div_iff₀ (by norm_num) (by linarith)]; linarith
    nlinarith

/-- The hypotheses of `C19_interface_ratio` hold for the arguments `1` and `π/2`, two orders. -/
example : let z1 : ℂ := 1; let z2 : ℂ := ((Real.pi / 2 : ℝ) : ℂ)
    z1 * z2 = z2 * z1 ∧
    1e-30 ≤ 2 * ‖exp (-2 * z2.im)‖ * ‖ricPsi 0 z2 / ricZeta 0 z2‖ ∧
    ∀ k, k + 1 ≤ 1 →
      1e-30 ≤ ‖z1 ^ 2 * (ricPsi k z1 * ricZeta (k + 1) z1 / (ricPsi (k + 1) z1 * ricZeta k z1))‖ := by
  intro z1 z2
  have hpi := Real.pi_gt_three
  refine ⟨mul_comm _ _, ?_, ?_⟩
  · have h0 : ricPsi 0 z2 = 1 := by
      rw [ricPsi_zero _ kernelOK_half_pi.ne, ← Complex.ofReal_sin, Real.sin_pi_div_two]; simp
    have him : z2.im = 0 := Complex.ofReal_im _
    rw [h0, him, norm_div, norm_ricZeta_zero_real (by linarith)]
    norm_num
  · intro k hk
    obtain rfl : k = 0 := by omega
    have h1 := norm_ricPsi_zero_at_one
    have h2 := norm_ricPsi_one_at_one
    have h3 := norm_ricZeta_one_real (x := 1) one_ne_zero
    have h4 := norm_ricZeta_zero_real (x := 1) one_ne_zero
    rw [Complex.ofReal_one] at h3 h4
    rw [norm_mul, norm_div, norm_mul, norm_mul]
    simp only [zero_add, z1] at *
    rw [h4, mul_one, one_pow, norm_one, one_mul, le_div_iff₀ (by linarith)]
    nlinarith

/-! ## C20: Neumann functions -/

/-- C20: `sph_yn_torch` returns the Rayleigh-formula values for every order. -/
theorem C20_sph_yn (n : ℕ) (z : ℂ) (hz : 1e-10 ≤ ‖z‖) :
    ∃ ys, sphYnTorch n z = .ok ys ∧ ys.length = n + 1 ∧ ∀ k ≤ n, ys[k]? = some (sphY k z) :=
  ⟨_, sphYnTorch_eq n z (by norm_num) hz, by simp, fun k hk => by rw [tab_getElem?, if_pos hk]⟩

/-- C20: a negative order is rejected (the order range is empty or invalid before the assertion is reached). -/
theorem C20_reject (n : ℤ) (z : ℂ) (h : n < 0) : sphYnTorch n z = .error .runtimeError := by
  unfold sphYnTorch; rw [if_pos h]

example : (1e-10 : ℝ) ≤ ‖(2 : ℂ)‖ := by norm_num

/-! ## C21: derivatives -/

/-- C21: on the exact sequence of spherical Bessel functions (first kind, second kind, or Hankel),
`f_der` returns the complex derivative of every order. -/
theorem C21_f_der (f : ℕ → ℂ → ℂ) (hf : f = sphJ ∨ f = sphY ∨ f = sphH) (n : ℕ) (z : ℂ) (hz : z ≠ 0)
    (fs : List ℂ) (hl : fs.length = n + 2) (hfs : ∀ k ≤ n + 1, fs[k]? = some (f k z)) :
    ∃ ds, fDer z fs = .ok ds ∧ ds.length = n + 2 ∧
      ∀ k ≤ n + 1, ∃ d, ds[k]? = some d ∧ HasDerivAt (f k) d z := by
  have hs : BesselSeq f := by
    rcases hf with rfl | rfl | rfl
    exacts [sphJ_seq, sphY_seq, sphH_seq]
  have e : fs = tab (n + 1) (fun k => f k z) := eq_tab' hl hfs
  subst e
  refine ⟨_, fDer_eq hs n hz, by simp, fun k hk => ⟨_, by rw [tab_getElem?, if_pos hk], ?_⟩⟩
  exact (hs.raise k z hz).differentiableAt.hasDerivAt

/-- C21: `psi`/`xi` (`ricPlus`) and `chi` (`ricMinus`) return the Riccati functions and their
derivatives. -/
theorem C21_riccati (n : ℕ) (z : ℂ) (hz : z ≠ 0) (js ys : List ℂ)
    (hjl : js.length = n + 2) (hj : ∀ k ≤ n + 1, js[k]? = some (sphJ k z))
    (hyl : ys.length = n + 2) (hy : ∀ k ≤ n + 1, ys[k]? = some (sphY k z)) :
    (∃ p dp, ricPlus z js = .ok (p, dp) ∧ p.length = n + 2 ∧ dp.length = n + 2 ∧
      ∀ k ≤ n + 1, p[k]? = some (ricPsi k z) ∧ ∃ d, dp[k]? = some d ∧ HasDerivAt (ricPsi k) d z) ∧
    (∃ p dp, ricPlus z (h1Of js ys) = .ok (p, dp) ∧ p.length = n + 2 ∧ dp.length = n + 2 ∧
      ∀ k ≤ n + 1, p[k]? = some (ricZeta k z) ∧ ∃ d, dp[k]? = some d ∧ HasDerivAt (ricZeta k) d z) ∧
    (∃ p dp, ricMinus z ys = .ok (p, dp) ∧ p.length = n + 2 ∧ dp.length = n + 2 ∧
      ∀ k ≤ n + 1, p[k]? = some (ricChi k z) ∧ ∃ d, dp[k]? = some d ∧ HasDerivAt (ricChi k) d z) := by
  have ej : js = tab (n + 1) (fun k => sphJ k z) := eq_tab' hjl hj
  have ey : ys = tab (n + 1) (fun k => sphY k z) := eq_tab' hyl hy
  subst ej ey
  have key : ∀ f : ℕ → ℂ → ℂ, BesselSeq f → ∀ k, HasDerivAt (fun w => w * f k w)
      (f k z + z * deriv (f k) z) z := by
    intro f hf k
    have h := (hasDerivAt_id z).mul (hf.raise k z hz).differentiableAt.hasDerivAt
    exact h.congr_deriv (by simp)
  have hh : h1Of (tab (n + 1) fun k => sphJ k z) (tab (n + 1) fun k => sphY k z) =
      tab (n + 1) (fun k => sphH k z) := by
    unfold h1Of; rw [zipWith_tab]; rfl
  refine ⟨?_, ?_, ?_⟩
  · refine ⟨tab (n + 1) (fun k => ricPsi k z), tab (n + 1) (fun k => sphJ k z + z * deriv (sphJ k) z),
      ?_, by simp, by simp, fun k hk => ?_⟩
    · unfold ricPlus; rw [fDer_eq sphJ_seq n hz]
      simp only [Bind.bind, Except.bind, map_tab, zipWith_tab]; rfl
    · simp only [tab_getElem?, if_pos hk]
      exact ⟨trivial, _, rfl, key _ sphJ_seq k⟩
  · rw [hh]
    refine ⟨tab (n + 1) (fun k => ricZeta k z), tab (n + 1) (fun k => sphH k z + z * deriv (sphH k) z),
      ?_, by simp, by simp, fun k hk => ?_⟩
    · unfold ricPlus; rw [fDer_eq sphH_seq n hz]
      simp only [Bind.bind, Except.bind, map_tab, zipWith_tab]; rfl
    · simp only [tab_getElem?, if_pos hk]
      exact ⟨trivial, _, rfl, key _ sphH_seq k⟩
  · refine ⟨tab (n + 1) (fun k => ricChi k z), tab (n + 1) (fun k => -sphY k z - z * deriv (sphY k) z),
      ?_, by simp, by simp, fun k hk => ?_⟩
    · unfold ricMinus; rw [fDer_eq sphY_seq n hz]
      simp only [Bind.bind, Except.bind, map_tab, zipWith_tab]; rfl
    · simp only [tab_getElem?, if_pos hk]
      refine ⟨trivial, _, rfl, ?_⟩
      have h := (key _ sphY_seq k).neg
      have e : ricChi k = fun w => -(w * sphY k w) := by funext w; unfold ricChi; ring
      rw [e]
      exact h.congr_deriv (by ring)

/-- C21: a sequence holding order 0 alone is rejected with `IndexError`. -/
theorem C21_single_order (z f0 : ℂ) : fDer z [f0] = .error .indexError ∧
    ricPlus z [f0] = .error .indexError ∧ ricMinus z [f0] = .error .indexError := ⟨rfl, rfl, rfl⟩

example : (2 : ℂ) ≠ 0 ∧ ([sphJ 0 2, sphJ 1 2, sphJ 2 2] : List ℂ).length = 1 + 2 := by norm_num

/-! ## C22: the torch-native `j_n` -/

/-- C22, `sph_jn_torch_via_rec`: for every order, every argument with `sin z ≠ 0` and every extra depth
for which the start value does not make order 0 vanish, the result has `n+1` orders, the exact `j_0`
and satisfies the three-term recurrence. -/
theorem C22_via_rec_structure (n nAdd : ℕ) (z : ℂ) (hAdd : 1 ≤ nAdd) (hz : 1e-10 ≤ ‖z‖)
    (h0 : sphJ 0 z * sphY (n + nAdd) z ≠ sphY 0 z * sphJ (n + nAdd) z) :
    ∃ js, sphJnViaRecDepth n z nAdd = .ok js ∧ js.length = n + 1 ∧ js[0]? = some (sin z / z) ∧
      ∀ k, k + 2 ≤ n → ∃ a b c, js[k]? = some a ∧ js[k + 1]? = some b ∧ js[k + 2]? = some c ∧
        a + c = (2 * (k : ℂ) + 3) / z * b := by
  have hz0 : z ≠ 0 := by rintro rfl; norm_num at hz
  refine ⟨_, sphJnViaRecDepth_eq n z nAdd hAdd (by norm_num) hz, by simp, ?_, ?_⟩
  · rw [tab_getElem?, if_pos (by omega)]
    have hne : jBack z (1e-25 : ℂ) (n + nAdd) 0 ≠ 0 := by
      unfold jBack
      refine mul_ne_zero (mul_ne_zero (by norm_num) (pow_ne_zero 2 hz0)) (sub_ne_zero.2 h0)
    congr 1
    field_simp
  · intro k hk
    simp only [tab_getElem?, if_pos hk, if_pos (show k ≤ n by omega), if_pos (show k + 1 ≤ n by omega)]
    refine ⟨_, _, _, rfl, rfl, rfl, ?_⟩
    rw [jBack_step hz0 (1e-25 : ℂ) (n + nAdd) k]
    push_cast
    ring

/-- C22, `sph_jn_torch_via_rec`: every order tends to the true `j_k` as the extra depth grows. -/
theorem C22_via_rec_tendsto (n k : ℕ) (z : ℂ) (hz : 1e-10 ≤ ‖z‖) (hs : sin z ≠ 0) (hk : k ≤ n) :
    ∃ v : ℕ → ℂ, (∀ nAdd : ℕ, 1 ≤ nAdd → ∃ js, sphJnViaRecDepth n z nAdd = .ok js ∧
      js[k]? = some (v nAdd)) ∧ Tendsto v atTop (𝓝 (sphJ k z)) := by
  have hz0 : z ≠ 0 := by rintro rfl; norm_num at hz
  refine ⟨fun nAdd => jBack z (1e-25 : ℂ) (n + nAdd) k *
      (sin z / z / jBack z (1e-25 : ℂ) (n + nAdd) 0), fun nAdd hAdd => ?_, ?_⟩
  · exact ⟨_, sphJnViaRecDepth_eq n z nAdd hAdd (by norm_num) hz, by rw [tab_getElem?, if_pos hk]⟩
  · have h := (jBack_tendsto hz0 (1e-25 : ℂ) (by norm_num) hs k).comp (tendsto_add_atTop_nat n)
    refine h.congr fun N => ?_
    simp only [Function.comp, add_comm]

/-- C22, `sph_jn_torch` (ratio variant): number of orders and exact `j_0`, for every extra depth. -/
theorem C22_ratio_order_zero (n nExtra : ℕ) (z : ℂ) (hz : 1e-8 ≤ ‖z‖) :
    ∃ js, sphJnTorchDepth n z nExtra = .ok js ∧ js.length = n + 1 ∧ js[0]? = some (sin z / z) := by
  refine ⟨_, sphJnTorchDepth_eq n z nExtra (by norm_num) hz, by simp, ?_⟩
  rw [tab_getElem?, if_pos (by omega)]
  simp [cfProd]

/-- C22, ratio variant: for every order, argument and extra depth, three consecutive returned values
satisfy the three-term recurrence, except when the exact-zero guard of the continued fraction was
used, which shows as the second value being exactly `1e50` times the first. -/
theorem C22_ratio_recurrence_or_guard (n nExtra k : ℕ) (z : ℂ) (hz : 1e-8 ≤ ‖z‖) (hk : k + 2 ≤ n) :
    ∃ js a b c, sphJnTorchDepth n z nExtra = .ok js ∧ js[k]? = some a ∧ js[k + 1]? = some b ∧
      js[k + 2]? = some c ∧ (a + c = (2 * (k : ℂ) + 3) / z * b ∨ b = 1e50 * a) := by
  refine ⟨_, _, _, _, sphJnTorchDepth_eq n z nExtra (by norm_num) hz,
    by rw [tab_getElem?, if_pos (show k ≤ n by omega)],
    by rw [tab_getElem?, if_pos (show k + 1 ≤ n by omega)],
    by rw [tab_getElem?, if_pos hk], ?_⟩
  have hs := cf_step z (show k + 1 ≤ n + nExtra by omega)
  by_cases hd : (2 * ((k + 1 : ℕ) : ℂ) + 1) / z - cf z (n + nExtra) (k + 1 + 1) = 0
  · right
    rw [hd] at hs
    simp only [cfProd, hs, recip0]
    norm_num
    ring
  · left
    rw [recip0_of_ne hd, eq_div_iff hd] at hs
    simp only [cfProd]
    push_cast at hs
    linear_combination (-(sin z / z * cfProd z (n + nExtra) k)) * hs

/-- C22, ratio variant: above twice the argument the returned values satisfy the three-term
recurrence, for every extra depth. -/
theorem C22_ratio_recurrence (n nExtra k : ℕ) (z : ℂ) (hz : 1e-8 ≤ ‖z‖) (hk : k + 2 ≤ n)
    (hbig : 2 * ‖z‖ ≤ k + 2) :
    ∃ js a b c, sphJnTorchDepth n z nExtra = .ok js ∧ js[k]? = some a ∧ js[k + 1]? = some b ∧
      js[k + 2]? = some c ∧ a + c = (2 * (k : ℂ) + 3) / z * b := by
  have hz0 : z ≠ 0 := by rintro rfl; norm_num at hz
  refine ⟨_, _, _, _, sphJnTorchDepth_eq n z nExtra (by norm_num) hz,
    by rw [tab_getElem?, if_pos (show k ≤ n by omega)],
    by rw [tab_getElem?, if_pos (show k + 1 ≤ n by omega)],
    by rw [tab_getElem?, if_pos hk], ?_⟩
  · have hzp : 0 < ‖z‖ := norm_pos_iff.2 hz0
    have hnear := cf_near hz0 (n + nExtra) (n + nExtra + 1 - (k + 2)) (k + 2) (by omega)
      (by push_cast; linarith)
    have hd : (2 * ((k + 1 : ℕ) : ℂ) + 1) / z - cf z (n + nExtra) (k + 1 + 1) ≠ 0 := by
      intro h0
      have h3 := norm_sub_norm_le ((2 * ((k + 1 : ℕ) : ℂ) + 1) / z) (cf z (n + nExtra) (k + 1 + 1))
      rw [h0, norm_zero, norm_natCast_div (2 * ((k : ℝ) + 1) + 1) (by positivity) _ _
        (by push_cast; ring)] at h3
      have h4 : 2 ≤ (2 * ((k : ℝ) + 1) + 1) / ‖z‖ := by rw [le_div_iff₀ hzp]; linarith
      have : k + 1 + 1 = k + 2 := rfl
      rw [this] at h3
      linarith
    have hs := cf_step z (show k + 1 ≤ n + nExtra by omega)
    rw [recip0_of_ne hd, eq_div_iff hd] at hs
    simp only [cfProd]
    push_cast at hs
    linear_combination (-(sin z / z * cfProd z (n + nExtra) k)) * hs

/-- C22, ratio variant: every order tends to the true `j_k` as the extra depth grows, when no `j_i`
vanishes in the finitely many orders below twice the argument. -/
theorem C22_ratio_tendsto (n k : ℕ) (z : ℂ) (hz : 1e-8 ≤ ‖z‖) (hk : k ≤ n)
    (hj : ∀ i : ℕ, (i : ℝ) + 1 < 2 * ‖z‖ → sphJ i z ≠ 0) :
    ∃ v : ℕ → ℂ, (∀ nExtra : ℕ, ∃ js, sphJnTorchDepth n z nExtra = .ok js ∧
      js[k]? = some (v nExtra)) ∧ Tendsto v atTop (𝓝 (sphJ k z)) := by
  have hz0 : z ≠ 0 := by rintro rfl; norm_num at hz
  refine ⟨fun nExtra => sin z / z * cfProd z (n + nExtra) k, fun nExtra => ?_, ?_⟩
  · exact ⟨_, sphJnTorchDepth_eq n z nExtra (by norm_num) hz, by rw [tab_getElem?, if_pos hk]⟩
  · have hall : ∀ i, sphJ i z ≠ 0 := by
      intro i
      by_cases hb : (i : ℝ) + 1 < 2 * ‖z‖
      · exact hj i hb
      · exact (sphJ_ratio i hz0 (not_lt.1 hb)).1
    have h := (cfProd_tendsto hz0 hall k).comp (tendsto_add_atTop_nat n)
    refine h.congr fun N => ?_
    simp only [Function.comp, add_comm]

/-- C22, ratio variant: exact values at the origin. -/
theorem C22_ratio_origin (n : ℕ) (nExtra : ℤ) :
    sphJnTorchDepth n 0 nExtra = .ok (1 :: List.replicate n 0) := by
  unfold sphJnTorchDepth
  rw [if_neg (by omega)]
  simp

/-- C22, ratio variant: for tiny nonzero arguments the first term of the power series is returned, with
relative error at most `|z|^2`. -/
theorem C22_ratio_tiny (n k : ℕ) (nExtra : ℤ) (z : ℂ) (hz0 : z ≠ 0) (hz : ‖z‖ < 1e-8) (hk : k ≤ n) :
    ∃ js v, sphJnTorchDepth n z nExtra = .ok js ∧ js.length = n + 1 ∧ js[k]? = some v ∧
      ‖v - sphJ k z‖ ≤ ‖z‖ ^ 2 * ‖v‖ := by
  have hodd : ∀ k : ℕ, oddDoubleFactorial k = ((Nat.doubleFactorial (2 * k + 1) : ℕ) : ℂ) := by
    intro k
    unfold oddDoubleFactorial
    rw [fac_odd k]
    have h1 := fac_ne k
    field_simp
  refine ⟨tab n (fun k => z ^ k / oddDoubleFactorial k), _, ?_, by simp, by
    rw [tab_getElem?, if_pos hk], ?_⟩
  · unfold sphJnTorchDepth
    rw [if_neg (by omega)]
    simp only [if_neg hz0, if_pos hz, Int.toNat_natCast]
    rfl
  · have hn1 : ‖z‖ ≤ 1 := by linarith
    have hsq : ‖z‖ ^ 2 ≤ 1 := by nlinarith [norm_nonneg z]
    have h := norm_sphJ_sub_le_q k hz0 (q := ‖z‖ ^ 2 / 4) (by positivity) (by linarith) (by
      nlinarith [(Nat.cast_nonneg k : (0 : ℝ) ≤ k), sq_nonneg ‖z‖])
    have e : z ^ k / oddDoubleFactorial k = jTerm k 0 z := by
      rw [hodd k]; unfold jTerm; simp
    rw [e, norm_sub_rev]
    refine h.trans ?_
    rw [mul_comm]
    refine mul_le_mul_of_nonneg_right ?_ (norm_nonneg _)
    rw [div_le_iff₀ (by linarith)]
    nlinarith [sq_nonneg ‖z‖]

/-- Hypotheses of the C22 theorems at `z = 1`. -/
example : (1e-8 : ℝ) ≤ ‖(1 : ℂ)‖ ∧ sin (1 : ℂ) ≠ 0 ∧ (∀ i : ℕ, (i : ℝ) + 1 < 2 * ‖(1 : ℂ)‖ → sphJ i 1 ≠ 0) := by
  have h := kernelOK_one
  refine ⟨by norm_num, ?_, fun i hi => ?_⟩
  · have := h.psi 0 (by omega)
    rwa [ricPsi_zero 1 one_ne_zero] at this
  · have hi' : i ≤ 1 := by
      rw [norm_one] at hi
      by_contra hc
      have : (2 : ℝ) ≤ i := by exact_mod_cast (by omega : 2 ≤ i)
      linarith
    have := h.psi i hi'
    unfold ricPsi at this
    simpa using this

/-! ## C23: the hand-written gradients -/

theorem bessel2ndDer_eq {f : ℕ → ℂ → ℂ} (hf : BesselSeq f) (n : ℕ) {z : ℂ} (hz : z ≠ 0) :
    HasDerivAt (deriv (f n)) (bessel2ndDer f n z) z := by
  have hr : ∀ m w, w ≠ 0 → deriv (f m) w = (m : ℂ) / w * f m w - f (m + 1) w :=
    fun m w hw => (hf.raise m w hw).deriv
  have he : deriv (f n) =ᶠ[𝓝 z] fun w => (n : ℂ) / w * f n w - f (n + 1) w := by
    filter_upwards [isOpen_ne.mem_nhds hz] with w hw
    exact hr n w hw
  have h1 : HasDerivAt (fun w => (n : ℂ) / w * f n w - f (n + 1) w)
      ((-(n : ℂ) / z ^ 2) * f n z + (n : ℂ) / z * ((n : ℂ) / z * f n z - f (n + 1) z) -
        (f n z - ((n : ℂ) + 2) / z * f (n + 1) z)) z := by
    have ha : HasDerivAt (fun w : ℂ => (n : ℂ) / w) (-(n : ℂ) / z ^ 2) z := by
      have := (hasDerivAt_inv hz).const_mul (n : ℂ)
      exact (this.congr_deriv (by field_simp)).congr_of_eventuallyEq
        (Eventually.of_forall fun w => div_eq_mul_inv _ _)
    exact ((ha.mul (hf.raise n z hz)).sub (hf.lower n z hz))
  refine (h1.congr_of_eventuallyEq he).congr_deriv ?_
  unfold bessel2ndDer
  field_simp
  ring

theorem sum_range_map' {M : Type*} [AddCommMonoid M] (h : ℕ → M) (n : ℕ) :
    ((List.range n).map h).sum = ∑ i ∈ Finset.range n, h i := by
  induction n with
  | zero => simp
  | succ n ih => rw [List.range_succ, List.map_append, List.sum_append, ih, Finset.sum_range_succ]; simp

/-- The meaning of a PyTorch complex gradient: `G` represents the real-linear map
`v ↦ Re (Σ conj(G_i) v_i)`. -/
theorem chain_rule (nMax : ℕ) (F d : ℕ → ℂ → ℂ) (z : ℂ)
    (hF : ∀ n ≤ nMax, HasDerivAt (F n) (d n z) z)
    (L : (Fin (nMax + 1) → ℂ) → ℝ) (L' : (Fin (nMax + 1) → ℂ) →L[ℝ] ℝ) (g : ℕ → ℂ)
    (hL : HasFDerivAt L L' (fun n => F n z))
    (hg : ∀ v, L' v = ∑ n : Fin (nMax + 1), ((starRingEnd ℂ) (g n) * v n).re) :
    ∃ D : ℂ →L[ℝ] ℝ, HasFDerivAt (fun w => L (fun n => F n w)) D z ∧
      ∀ h, D h = ((starRingEnd ℂ) (gradEntry nMax d g z) * h).re := by
  have h1 : HasFDerivAt (fun w => (fun n : Fin (nMax + 1) => F n w))
      (ContinuousLinearMap.pi fun n : Fin (nMax + 1) =>
        ((ContinuousLinearMap.smulRight (1 : ℂ →L[ℂ] ℂ) (d n z)).restrictScalars ℝ)) z := by
    rw [hasFDerivAt_pi]
    intro n
    exact (hF n (by omega)).hasFDerivAt.restrictScalars ℝ
  refine ⟨_, hL.comp z h1, fun h => ?_⟩
  rw [ContinuousLinearMap.comp_apply, hg]
  have e : gradEntry nMax d g z = ∑ n : Fin (nMax + 1), g n * (starRingEnd ℂ) (d n z) := by
    unfold gradEntry
    rw [Fin.sum_univ_eq_sum_range (fun n => g n * (starRingEnd ℂ) (d n z)), sum_range_map']
  rw [e, map_sum, Finset.sum_mul, Complex.re_sum]
  refine Finset.sum_congr rfl fun n _ => ?_
  simp
  ring

/-- C23: for each of the four SciPy-backed functions, every loss `L` of the returned orders and every nonzero element,
the gradient returned by the backward pass is the gradient of the composed loss.  `G` is the incoming
gradient, in PyTorch's convention `dL = Re Σ conj(G_n) dF_n`. -/
theorem C23_gradients (nMax : ℕ) (f : ℕ → ℂ → ℂ) (hf : f = sphJ ∨ f = sphY) (buf : List ℂ) (i : ℕ) (z : ℂ)
    (hi : buf[i]? = some z) (hz : z ≠ 0) (G : ℕ → ℕ → ℂ)
    (L : (Fin (nMax + 1) → ℂ) → ℝ) (L' : (Fin (nMax + 1) → ℂ) →L[ℝ] ℝ)
    (hg : ∀ v, L' v = ∑ n : Fin (nMax + 1), ((starRingEnd ℂ) (G n i) * v n).re) :
    (HasFDerivAt L L' (fun n => f n z) →
      ∃ gz, (valBackward nMax (fun n => deriv (f n)) G buf).1[i]? = some gz ∧
        ∃ D : ℂ →L[ℝ] ℝ, HasFDerivAt (fun w => L (fun n => f n w)) D z ∧
          ∀ h, D h = ((starRingEnd ℂ) gz * h).re) ∧
    (HasFDerivAt L L' (fun n => deriv (f n) z) →
      ∃ gz, (derBackward nMax f G buf).1[i]? = some gz ∧
        ∃ D : ℂ →L[ℝ] ℝ, HasFDerivAt (fun w => L (fun n => deriv (f n) w)) D z ∧
          ∀ h, D h = ((starRingEnd ℂ) gz * h).re) := by
  have hs : BesselSeq f := by
    rcases hf with rfl | rfl
    exacts [sphJ_seq, sphY_seq]
  constructor
  · intro hL
    refine ⟨gradEntry nMax (fun n => deriv (f n)) (G · i) z, ?_, ?_⟩
    · simp [valBackward, List.getElem?_mapIdx, hi]
    · exact chain_rule nMax f (fun n => deriv (f n)) z
        (fun n _ => (hs.raise n z hz).differentiableAt.hasDerivAt) L L' (G · i) hL hg
  · intro hL
    refine ⟨gradEntry nMax (bessel2ndDer f) (G · i) z, ?_, ?_⟩
    · simp [derBackward, zeroFill, List.getElem?_mapIdx, hi, hz]
    · exact chain_rule nMax (fun n => deriv (f n)) (bessel2ndDer f) z
        (fun n _ => bessel2ndDer_eq hs n hz) L L' (G · i) hL hg

/-- C23: in particular the closed form used for the second derivative is the second derivative. -/
theorem C23_second_derivative (f : ℕ → ℂ → ℂ) (hf : f = sphJ ∨ f = sphY) (n : ℕ) (z : ℂ) (hz : z ≠ 0) :
    HasDerivAt (f n) (deriv (f n) z) z ∧ HasDerivAt (deriv (f n)) (bessel2ndDer f n z) z := by
  have hs : BesselSeq f := by
    rcases hf with rfl | rfl
    exacts [sphJ_seq, sphY_seq]
  exact ⟨(hs.raise n z hz).differentiableAt.hasDerivAt, bessel2ndDer_eq hs n hz⟩

/-- The hypotheses on the loss are met by `L v = Re v_0` with incoming gradient 1 at order 0. -/
example : ∃ (L : (Fin 1 → ℂ) → ℝ) (L' : (Fin 1 → ℂ) →L[ℝ] ℝ) (G : ℕ → ℕ → ℂ),
    (∀ v, L' v = ∑ n : Fin 1, ((starRingEnd ℂ) (G n 0) * v n).re) ∧ HasFDerivAt L L' (fun n => sphJ n 1) := by
  refine ⟨fun v => (v 0).re, Complex.reCLM.comp (ContinuousLinearMap.proj 0), fun _ _ => 1, ?_, ?_⟩
  · intro v; simp
  · exact (Complex.reCLM.comp (ContinuousLinearMap.proj (R := ℝ) (φ := fun _ : Fin 1 => ℂ) 0)).hasFDerivAt

/-! ## C24: side effects of the backward pass -/

/-- C24: the backward passes of `sph_jn`/`sph_yn` leave the buffer of the user's tensor alone. -/
theorem C24_value_backward (nMax : ℕ) (df : ℕ → ℂ → ℂ) (g : ℕ → ℕ → ℂ) (buf : List ℂ) :
    (valBackward nMax df g buf).2 = buf := rfl

/-- C24 fails for `sph_jn_der`/`sph_yn_der`: the buffer is left unchanged exactly when it holds no
zero. -/
theorem C24_der_backward_iff (nMax : ℕ) (f : ℕ → ℂ → ℂ) (g : ℕ → ℕ → ℂ) (buf : List ℂ) :
    (derBackward nMax f g buf).2 = buf ↔ (0 : ℂ) ∉ buf := by
  unfold derBackward zeroFill
  simp only
  constructor
  · intro h hm
    obtain ⟨i, hi⟩ := List.getElem?_of_mem hm
    have h2 := congrArg (·[i]?) h
    simp only [List.getElem?_map, hi] at h2
    norm_num at h2
  · intro h
    conv_rhs => rw [← List.map_id buf]
    apply List.map_congr_left
    intro z hz
    have : z ≠ 0 := fun h0 => h (h0 ▸ hz)
    simp [this]

/-- C24 fails: a concrete input which is modified. -/
theorem C24_fails (nMax : ℕ) (f : ℕ → ℂ → ℂ) (g : ℕ → ℕ → ℂ) :
    (derBackward nMax f g [0, 1]).2 = [1e-10, 1] ∧ (derBackward nMax f g [0, 1]).2 ≠ [0, 1] := by
  constructor
  · simp [derBackward, zeroFill]
  · rw [Ne, C24_der_backward_iff]; simp

/-! ## C46: the documented `int` depth -/

/-- C46 fails: an `int` extra depth is rejected by both functions that document it, for every order,
argument and depth. -/
theorem C46_int_depth_fails (n : ℕ) (z : ℂ) (zmax : ℝ) (k : ℤ) :
    sphJnViaRec n z zmax (.int k) = .error .attributeError ∧
    d1Torch n z zmax (.int k) = .error .attributeError := by
  constructor
  · unfold sphJnViaRec; rw [if_neg (by omega)]; rfl
  · unfold d1Torch; rw [if_neg (by omega)]; rfl

/-- C46, the part that holds: "auto" (in any capitalisation) is accepted and gives a depth between the
two limits; `sph_jn_torch` accepts every integer. -/
theorem C46_auto_partial (s : String) (hs : s.toLower = "auto") (lo hi : ℤ) (h : lo ≤ hi) (zmax : ℝ) :
    (∃ k, resolveNAddRec (.str s) lo hi zmax = .ok k ∧ lo ≤ k ∧ k ≤ hi) ∧
    ∀ j : ℤ, resolveNAddRatio (.int j) hi zmax = .ok j := by
  refine ⟨?_, fun j => rfl⟩
  unfold resolveNAddRec
  simp only [if_pos hs]
  refine ⟨_, rfl, ?_, ?_⟩ <;> split <;> omega

/-- C46: the automatic depth of `sph_jn_torch` is at most `max_n_add`, and unless cut off there it is at least 20 and exceeds
`2|z|`; of `sph_jn_torch_via_rec` it is at most `n_add_max`, and unless cut off there at least `n_add_min` and more than
`1.5|z| - 1`. -/
theorem C46_depth_partial (n : ℕ) (z : ℂ) (zmax : ℝ) :
    (∀ lo hi : ℤ, lo ≤ hi → ∃ k, sphJnViaRec n z zmax (.str "auto") lo hi = sphJnViaRecDepth n z k 1e-10 ∧ k ≤ hi ∧
      (k = hi ∨ (lo ≤ k ∧ 3 / 2 * zmax - 1 < k))) ∧
    ∀ hi : ℤ, ¬ ‖z‖ < 1e-8 → ∃ k, sphJnTorch n z zmax (.str "auto") hi = sphJnTorchDepth n z k 1e-8 ∧ k ≤ hi ∧
      (k = hi ∨ (20 ≤ k ∧ 2 * zmax < k)) := by
  constructor
  · intro lo hi hlh
    have ha : ("auto" : String).toLower = "auto" := by decide +kernel
    refine ⟨if max lo ⌊(3 / 2 : ℝ) * zmax⌋ > hi then hi else max lo ⌊(3 / 2 : ℝ) * zmax⌋, ?_, ?_, ?_⟩
    · unfold sphJnViaRec
      rw [if_neg (by omega)]
      simp only [resolveNAddRec, if_pos ha]
      rfl
    · split <;> omega
    · split
      · exact .inl rfl
      · refine .inr ⟨le_max_left _ _, ?_⟩
        have h1 := Int.sub_one_lt_floor ((3 / 2 : ℝ) * zmax)
        have h2 : ((⌊(3 / 2 : ℝ) * zmax⌋ : ℤ) : ℝ) ≤ ((max lo ⌊(3 / 2 : ℝ) * zmax⌋ : ℤ) : ℝ) :=
          Int.cast_le.mpr (le_max_right _ _)
        linarith
  · intro hi hz
    refine ⟨min (max 20 (⌊zmax * 2⌋ + 10)) hi, ?_, min_le_right _ _, ?_⟩
    · unfold sphJnTorch
      rw [if_neg (by omega), if_neg hz]
      rfl
    · rcases le_total (max 20 (⌊zmax * 2⌋ + 10)) hi with h | h
      · refine .inr ⟨by rw [min_eq_left h]; exact le_max_left _ _, ?_⟩
        rw [min_eq_left h]
        have h1 := Int.sub_one_lt_floor (zmax * 2)
        have h2 : ((⌊zmax * 2⌋ + 10 : ℤ) : ℝ) ≤ ((max 20 (⌊zmax * 2⌋ + 10) : ℤ) : ℝ) := Int.cast_le.mpr (le_max_right _ _)
        push_cast at h1 h2 ⊢
        linarith
      · exact .inl (min_eq_right h)

end MieDiff
