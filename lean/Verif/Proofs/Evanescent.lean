import Verif.Proofs.Barrier

/-!
# Riccati functions of real argument at orders above it, and the coefficients there
-/

namespace MieDiff.Spec

open Complex ComplexConjugate Filter Topology

/-- `psi_n` and `chi_n` on the real axis. -/
noncomputable def psiR (n : ℕ) (x : ℝ) : ℝ := (ricPsi n (x : ℂ)).re

noncomputable def chiR (n : ℕ) (x : ℝ) : ℝ := (ricChi n (x : ℂ)).re

theorem psiR_eq (n : ℕ) {x : ℝ} (hx : 0 < x) : ricPsi n (x : ℂ) = (psiR n x : ℂ) := by
  have h := congrArg im (ricPsi_conj n hx.ne')
  rw [conj_im] at h
  apply Complex.ext
  · rfl
  · simp only [ofReal_im]; linarith

theorem chiR_eq (n : ℕ) {x : ℝ} (hx : 0 < x) : ricChi n (x : ℂ) = (chiR n x : ℂ) := by
  have h := congrArg im (sphY_conj n hx.ne')
  rw [conj_im] at h
  have h0 : (sphY n (x : ℂ)).im = 0 := by linarith
  apply Complex.ext
  · rfl
  · unfold ricChi
    simp [h0]

theorem zeta_split (n : ℕ) (z : ℂ) : ricZeta n z = ricPsi n z - I * ricChi n z := by
  unfold ricZeta ricPsi ricChi sphH; ring

/-- Derivatives on the real axis. -/
noncomputable def dpsiR (n : ℕ) (x : ℝ) : ℝ := ((n : ℝ) + 1) / x * psiR n x - psiR (n + 1) x

noncomputable def dchiR (n : ℕ) (x : ℝ) : ℝ := ((n : ℝ) + 1) / x * chiR n x - chiR (n + 1) x

theorem dpsiR_eq (n : ℕ) {x : ℝ} (hx : 0 < x) : deriv (ricPsi n) (x : ℂ) = (dpsiR n x : ℂ) := by
  have hz : (x : ℂ) ≠ 0 := by exact_mod_cast hx.ne'
  rw [deriv_ricPsi_raise n hz, psiR_eq n hx, psiR_eq (n + 1) hx, dpsiR]
  push_cast; rfl

theorem dchiR_eq (n : ℕ) {x : ℝ} (hx : 0 < x) : deriv (ricChi n) (x : ℂ) = (dchiR n x : ℂ) := by
  have hz : (x : ℂ) ≠ 0 := by exact_mod_cast hx.ne'
  rw [(hasDerivAt_chi_raise n hz).deriv, chiR_eq n hx, chiR_eq (n + 1) hx, dchiR]
  push_cast; rfl

theorem dpsiR_lower (n : ℕ) {x : ℝ} (hx : 0 < x) : dpsiR (n + 1) x = psiR n x - ((n : ℝ) + 1) / x * psiR (n + 1) x := by
  have hz : (x : ℂ) ≠ 0 := by exact_mod_cast hx.ne'
  have h := dpsiR_eq (n + 1) hx
  rw [deriv_ricPsi_lower n hz, psiR_eq n hx, psiR_eq (n + 1) hx] at h
  exact_mod_cast h.symm

theorem dchiR_lower (n : ℕ) {x : ℝ} (hx : 0 < x) : dchiR (n + 1) x = chiR n x - ((n : ℝ) + 1) / x * chiR (n + 1) x := by
  have hz : (x : ℂ) ≠ 0 := by exact_mod_cast hx.ne'
  have h := dchiR_eq (n + 1) hx
  rw [(hasDerivAt_chi_lower n hz).deriv, chiR_eq n hx, chiR_eq (n + 1) hx] at h
  exact_mod_cast h.symm

theorem dzetaR_eq (n : ℕ) {x : ℝ} (hx : 0 < x) : deriv (ricZeta n) (x : ℂ) = (dpsiR n x : ℂ) - I * (dchiR n x : ℂ) := by
  have hz : (x : ℂ) ≠ 0 := by exact_mod_cast hx.ne'
  rw [deriv_ricZeta_raise n hz, zeta_split, zeta_split, ← dpsiR_eq n hx, ← dchiR_eq n hx, deriv_ricPsi_raise n hz,
    (hasDerivAt_chi_raise n hz).deriv]
  ring

theorem crossR (n : ℕ) {x : ℝ} (hx : 0 < x) : psiR n x * chiR (n + 1) x - psiR (n + 1) x * chiR n x = 1 := by
  have hz : (x : ℂ) ≠ 0 := by exact_mod_cast hx.ne'
  have h := chi_cross n hz
  rw [psiR_eq n hx, psiR_eq (n + 1) hx, chiR_eq n hx, chiR_eq (n + 1) hx] at h
  exact_mod_cast h

theorem wronskR (n : ℕ) {x : ℝ} (hx : 0 < x) : psiR n x * dchiR n x - chiR n x * dpsiR n x = -1 := by
  unfold dchiR dpsiR
  linear_combination -crossR n hx

/-- Above the barrier the regular function grows ... -/
theorem psiR_grows {n : ℕ} {x : ℝ} (hx : 0 < x) (h : x ^ 2 ≤ n * (n + 1)) : 0 ≤ psiR n x * dpsiR n x := by
  have hA : Above n 1 x := by unfold Above; simpa using h
  have := growth_core .tm 1 n one_ne_zero hx hA
  simp only [growth, Wave.val, Wave.der, one_mul, zero_mul, sub_zero, div_one] at this
  rw [psiR_eq n hx, dpsiR_eq n hx, conj_ofReal, ← ofReal_mul, ofReal_re] at this
  exact this

/-- ... and the singular one falls. -/
theorem chiR_falls {n : ℕ} {x : ℝ} (hx : 0 < x) (h : x ^ 2 ≤ n * (n + 1)) : chiR n x * dchiR n x ≤ 0 := by
  have h1 := modulus_antitone n hx
  have h2 := psiR_grows hx h
  rw [dzetaR_eq n hx, zeta_split, psiR_eq n hx, chiR_eq n hx] at h1
  simp at h1
  linarith

/-- Sizes at the orders `n` and `n + 1` when `x² ≤ n (n + 1)`. -/
structure Sizes (n : ℕ) (x : ℝ) : Prop where
  psi_sign : 0 ≤ psiR n x * psiR (n + 1) x
  psi_step : |psiR (n + 1) x| ≤ x / (n + 1) * |psiR n x|
  chi_sign : 0 ≤ chiR n x * chiR (n + 1) x
  chi_step : |chiR n x| ≤ x / (n + 1) * |chiR (n + 1) x|
  prod : 1 ≤ psiR n x * chiR (n + 1) x

theorem abs_le_of_sq_le {a b c : ℝ} (hc : 0 ≤ c) (h : a ^ 2 ≤ c * (a * b)) : 0 ≤ c * (a * b) ∧ |a| ≤ c * |b| := by
  refine ⟨(sq_nonneg a).trans h, ?_⟩
  rcases (abs_nonneg a).eq_or_lt with h0 | h0
  · rw [← h0]; positivity
  · have h1 : |a| * |a| ≤ |a| * (c * |b|) := by
      rw [← sq, sq_abs]
      refine h.trans ?_
      have := le_abs_self (a * b)
      rw [abs_mul] at this
      nlinarith
    exact le_of_mul_le_mul_left h1 h0

theorem sizes {n : ℕ} {x : ℝ} (hx : 0 < x) (h : x ^ 2 ≤ n * (n + 1)) : Sizes n x := by
  have hn : (0 : ℝ) ≤ n := by positivity
  have hd : (0 : ℝ) < x / (n + 1) := by positivity
  have hx1 : x < n + 1 := by nlinarith
  have hlt : x / (n + 1) < 1 := by rw [div_lt_one (by positivity)]; exact hx1
  have hnext : x ^ 2 ≤ ((n + 1 : ℕ) : ℝ) * ((n + 1 : ℕ) + 1) := by push_cast; nlinarith
  have p1 := psiR_grows hx hnext
  have c1 := chiR_falls hx h
  rw [dpsiR_lower n hx] at p1
  unfold dchiR at c1
  have p2 : psiR (n + 1) x ^ 2 ≤ x / (n + 1) * (psiR (n + 1) x * psiR n x) := by
    have : x / (n + 1) * (psiR (n + 1) x * (psiR n x - ((n : ℝ) + 1) / x * psiR (n + 1) x)) =
        x / (n + 1) * (psiR (n + 1) x * psiR n x) - psiR (n + 1) x ^ 2 := by field_simp
    nlinarith [mul_nonneg hd.le p1]
  have c2 : chiR n x ^ 2 ≤ x / (n + 1) * (chiR n x * chiR (n + 1) x) := by
    have : x / (n + 1) * (chiR n x * (((n : ℝ) + 1) / x * chiR n x - chiR (n + 1) x)) =
        chiR n x ^ 2 - x / (n + 1) * (chiR n x * chiR (n + 1) x) := by field_simp
    nlinarith [mul_nonneg hd.le (neg_nonneg.2 c1)]
  obtain ⟨p3, p4⟩ := abs_le_of_sq_le hd.le p2
  obtain ⟨c3, c4⟩ := abs_le_of_sq_le hd.le c2
  have ps : 0 ≤ psiR n x * psiR (n + 1) x := by rw [mul_comm]; exact nonneg_of_mul_nonneg_right p3 hd
  have cs : 0 ≤ chiR n x * chiR (n + 1) x := nonneg_of_mul_nonneg_right c3 hd
  refine ⟨ps, p4, cs, c4, ?_⟩
  have w := crossR n hx
  set A := psiR n x * chiR (n + 1) x with hA
  set B := psiR (n + 1) x * chiR n x with hB
  have h1 : 0 ≤ A * B := by
    have := mul_nonneg ps cs
    rw [hA, hB]
    nlinarith
  have h2 : |B| ≤ |A| := by
    rw [hA, hB, abs_mul, abs_mul]
    calc |psiR (n + 1) x| * |chiR n x| ≤ (x / (n + 1) * |psiR n x|) * (x / (n + 1) * |chiR (n + 1) x|) :=
          mul_le_mul p4 c4 (abs_nonneg _) (by positivity)
      _ = (x / (n + 1)) ^ 2 * (|psiR n x| * |chiR (n + 1) x|) := by ring
      _ ≤ 1 * (|psiR n x| * |chiR (n + 1) x|) := by
          refine mul_le_mul_of_nonneg_right ?_ (by positivity)
          exact pow_le_one₀ hd.le hlt.le
      _ = _ := one_mul _
  have hBA : B = A - 1 := by linarith
  rw [hBA] at h1 h2
  by_contra hc
  have hA1 : A < 1 := not_le.1 hc
  have hA0 : A ≤ 0 := by
    by_contra h0
    nlinarith [not_le.1 h0]
  rw [abs_of_nonpos (by linarith), abs_of_nonpos hA0] at h2
  linarith

/-- The bound of the coefficients of order `n + 1`. -/
noncomputable def rhoB (n : ℕ) (x : ℝ) : ℝ :=
  ((n : ℝ) + 1) * (n + 2) / ((n + 1) ^ 2 - x ^ 2) * |psiR (n + 1) x * psiR n x|

theorem gap_pos {n : ℕ} {x : ℝ} (h : x ^ 2 ≤ n * (n + 1)) : 0 < ((n : ℝ) + 1) ^ 2 - x ^ 2 := by
  have : (0 : ℝ) ≤ n := by positivity
  nlinarith

theorem rhoB_nonneg {n : ℕ} {x : ℝ} (h : x ^ 2 ≤ n * (n + 1)) : 0 ≤ rhoB n x := by
  have := gap_pos h
  unfold rhoB
  positivity

/-- The regular function is small against the singular one. -/
theorem ratio_bounds {n : ℕ} {x : ℝ} (hx : 0 < x) (h : x ^ 2 ≤ n * (n + 1)) :
    |psiR (n + 1) x| ≤ rhoB n x * |chiR (n + 1) x| ∧ |dpsiR (n + 1) x| ≤ rhoB n x * |dchiR (n + 1) x| ∧
    0 ≤ psiR (n + 1) x * dpsiR (n + 1) x ∧ chiR (n + 1) x * dchiR (n + 1) x < 0 := by
  have hn : (0 : ℝ) ≤ n := by positivity
  have hg := gap_pos h
  have hnext : x ^ 2 ≤ ((n + 1 : ℕ) : ℝ) * ((n + 1 : ℕ) + 1) := by push_cast; nlinarith
  have s := sizes hx h
  have s' := sizes hx hnext
  have p1 := psiR_grows hx hnext
  have hc0 : chiR (n + 1) x ≠ 0 := by
    intro h0
    have := s.prod
    rw [h0, mul_zero] at this
    linarith
  set P := psiR (n + 1) x with hP
  set C := chiR (n + 1) x with hC
  set D := dpsiR (n + 1) x with hD
  set E := dchiR (n + 1) x with hE
  have hCp : 0 < |C| := abs_pos.2 hc0
  -- the singular function
  have e1 : C * E ≤ -(((n : ℝ) + 1) ^ 2 - x ^ 2) / ((n + 1) * x) * C ^ 2 := by
    rw [hE, dchiR_lower n hx]
    have h1 : C * chiR n x ≤ x / (n + 1) * C ^ 2 := by
      have h2 := mul_le_mul_of_nonneg_left s.chi_step hCp.le
      have h3 := le_abs_self (C * chiR n x)
      rw [abs_mul] at h3
      calc C * chiR n x ≤ |C| * |chiR n x| := h3
        _ ≤ |C| * (x / (n + 1) * |C|) := h2
        _ = x / (n + 1) * C ^ 2 := by rw [← sq_abs C]; ring
    have h4 : -(((n : ℝ) + 1) ^ 2 - x ^ 2) / ((n + 1) * x) * C ^ 2 = x / (n + 1) * C ^ 2 - ((n : ℝ) + 1) / x * C ^ 2 := by
      field_simp
      ring
    rw [h4]
    nlinarith
  have hneg : C * E < 0 := by
    refine lt_of_le_of_lt e1 ?_
    have : 0 < (((n : ℝ) + 1) ^ 2 - x ^ 2) / ((n + 1) * x) * C ^ 2 := by positivity
    have e : -(((n : ℝ) + 1) ^ 2 - x ^ 2) / ((n + 1) * x) * C ^ 2 = -((((n : ℝ) + 1) ^ 2 - x ^ 2) / ((n + 1) * x) * C ^ 2) := by ring
    rw [e]
    linarith
  have e2 : (((n : ℝ) + 1) ^ 2 - x ^ 2) / ((n + 1) * x) * |C| ≤ |E| := by
    have h1 : |C| * ((((n : ℝ) + 1) ^ 2 - x ^ 2) / ((n + 1) * x) * |C|) ≤ |C| * |E| := by
      rw [← abs_mul, abs_of_neg hneg]
      calc |C| * ((((n : ℝ) + 1) ^ 2 - x ^ 2) / ((n + 1) * x) * |C|) = (((n : ℝ) + 1) ^ 2 - x ^ 2) / ((n + 1) * x) * C ^ 2 := by
            rw [← sq_abs C]; ring
        _ ≤ _ := by
            have e : -(((n : ℝ) + 1) ^ 2 - x ^ 2) / ((n + 1) * x) * C ^ 2 = -((((n : ℝ) + 1) ^ 2 - x ^ 2) / ((n + 1) * x) * C ^ 2) := by ring
            rw [e] at e1
            linarith
    exact le_of_mul_le_mul_left h1 hCp
  -- the regular function
  have e3 : |D| ≤ ((n : ℝ) + 2) / x * |P| := by
    have h1 : P * D ≤ ((n : ℝ) + 2) / x * P ^ 2 := by
      rw [hD, dpsiR]
      have := s'.psi_sign
      push_cast
      have e : P * (((n : ℝ) + 1 + 1) / x * psiR (n + 1) x - psiR (n + 1 + 1) x) = ((n : ℝ) + 2) / x * P ^ 2 - P * psiR (n + 1 + 1) x := by
        rw [← hP]; ring
      rw [e]
      linarith
    by_cases hP0 : P = 0
    · have h2 : psiR (n + 1 + 1) x = 0 := by
        have := s'.psi_step
        rw [← hP, hP0, abs_zero, mul_zero] at this
        exact abs_nonpos_iff.1 this
      rw [hD, dpsiR, h2, ← hP, hP0]
      simp
    · have h2 : |P| * |D| ≤ |P| * (((n : ℝ) + 2) / x * |P|) := by
        rw [← abs_mul, abs_of_nonneg p1]
        refine h1.trans (le_of_eq ?_)
        rw [← sq_abs P]; ring
      exact le_of_mul_le_mul_left h2 (abs_pos.2 hP0)
  have e4 : |P| ≤ |P * psiR n x| * |C| := by
    have h1 : 1 ≤ |psiR n x| * |C| := by
      rw [← abs_mul]
      exact s.prod.trans (le_abs_self _)
    rw [abs_mul, mul_assoc]
    have := mul_le_mul_of_nonneg_left h1 (abs_nonneg P)
    linarith
  refine ⟨?_, ?_, p1, hneg⟩
  · refine e4.trans ?_
    unfold rhoB
    refine mul_le_mul_of_nonneg_right ?_ hCp.le
    have h1 : 1 ≤ ((n : ℝ) + 1) * (n + 2) / ((n + 1) ^ 2 - x ^ 2) := by
      rw [le_div_iff₀ hg]
      nlinarith [sq_nonneg x]
    have := mul_le_mul_of_nonneg_right h1 (abs_nonneg (P * psiR n x))
    linarith
  · refine e3.trans ?_
    calc ((n : ℝ) + 2) / x * |P| ≤ ((n : ℝ) + 2) / x * (|P * psiR n x| * |C|) := mul_le_mul_of_nonneg_left e4 (by positivity)
      _ = rhoB n x * ((((n : ℝ) + 1) ^ 2 - x ^ 2) / ((n + 1) * x) * |C|) := by
          unfold rhoB
          rw [← hP]
          field_simp
      _ ≤ _ := mul_le_mul_of_nonneg_left e2 (rhoB_nonneg h)

/-- A coefficient whose field grows at the surface and that does not emit power is small. -/
theorem coef_small {n : ℕ} {x : ℝ} (hx : 0 < x) (h : x ^ 2 ≤ n * (n + 1)) {a : ℂ}
    (hg : 0 ≤ (conj ((⟨1, a⟩ : Wave).val (n + 1) x) * (⟨1, a⟩ : Wave).der (n + 1) x).re) (he : ‖a‖ ^ 2 ≤ a.re) :
    ‖a‖ ≤ 2 * rhoB n x := by
  obtain ⟨b1, b2, b3, b4⟩ := ratio_bounds hx h
  have hr := rhoB_nonneg h
  simp only [Wave.val, Wave.der] at hg
  rw [zeta_split, dzetaR_eq _ hx, psiR_eq _ hx, chiR_eq _ hx, dpsiR_eq _ hx] at hg
  set P := psiR (n + 1) x
  set C := chiR (n + 1) x
  set D := dpsiR (n + 1) x
  set E := dchiR (n + 1) x
  set r := rhoB n x
  have hn : ‖a‖ ^ 2 = a.re ^ 2 + a.im ^ 2 := by rw [← normSq_eq_norm_sq, normSq_apply]; ring
  have e : (conj (1 * (P : ℂ) - a * (P - I * C)) * (1 * (D : ℂ) - a * (D - I * E))).re =
      (1 - 2 * a.re + ‖a‖ ^ 2) * (P * D) + ‖a‖ ^ 2 * (C * E) - a.im * (P * E + C * D) := by
    rw [hn]
    simp
    ring
  rw [e] at hg
  have hCE : 0 < -(C * E) := by linarith
  have aCE : |C| * |E| = -(C * E) := by rw [← abs_mul, abs_of_neg b4]
  have h1 : P * D ≤ r ^ 2 * -(C * E) := by
    rw [← aCE]
    calc P * D ≤ |P| * |D| := by rw [← abs_mul]; exact le_abs_self _
      _ ≤ (r * |C|) * (r * |E|) := mul_le_mul b1 b2 (abs_nonneg _) (by positivity)
      _ = _ := by ring
  have h2 : |P * E + C * D| ≤ r * -(C * E) := by
    have hPE : |P * E| ≤ r * -(C * E) := by
      rw [abs_mul, ← aCE]
      calc |P| * |E| ≤ (r * |C|) * |E| := mul_le_mul_of_nonneg_right b1 (abs_nonneg _)
        _ = _ := by ring
    have hCD : |C * D| ≤ r * -(C * E) := by
      rw [abs_mul, ← aCE]
      calc |C| * |D| ≤ |C| * (r * |E|) := mul_le_mul_of_nonneg_left b2 (abs_nonneg _)
        _ = _ := by ring
    have hop : (P * E) * (C * D) ≤ 0 := by
      have : (P * E) * (C * D) = (P * D) * (C * E) := by ring
      rw [this]
      exact mul_nonpos_of_nonneg_of_nonpos b3 b4.le
    rw [abs_le] at hPE hCD ⊢
    rcases mul_nonpos_iff.1 hop with ⟨u, v⟩ | ⟨u, v⟩
    · exact ⟨by linarith [hCD.1], by linarith [hPE.2]⟩
    · exact ⟨by linarith [hPE.1], by linarith [hCD.2]⟩
  have hq : 0 ≤ 1 - 2 * a.re + ‖a‖ ^ 2 ∧ 1 - 2 * a.re + ‖a‖ ^ 2 ≤ 1 := by
    have h3 := sq_nonneg ‖a‖
    refine ⟨?_, by linarith⟩
    rw [hn]
    nlinarith [sq_nonneg (1 - a.re), sq_nonneg a.im]
  have him : |a.im| ≤ ‖a‖ := abs_im_le_norm a
  have h3 : -(a.im * (P * E + C * D)) ≤ ‖a‖ * (r * -(C * E)) := by
    have := neg_abs_le (a.im * (P * E + C * D))
    rw [abs_mul] at this
    have h4 : |a.im| * |P * E + C * D| ≤ ‖a‖ * (r * -(C * E)) := mul_le_mul him h2 (abs_nonneg _) (norm_nonneg _)
    linarith
  have h5 : (1 - 2 * a.re + ‖a‖ ^ 2) * (P * D) ≤ r ^ 2 * -(C * E) := by nlinarith
  have h6 : ‖a‖ ^ 2 * -(C * E) ≤ (r ^ 2 + ‖a‖ * r) * -(C * E) := by nlinarith
  have h7 := le_of_mul_le_mul_right h6 hCE
  have := norm_nonneg a
  nlinarith

end MieDiff.Spec
