import Verif.Props.PowerFlow
import Mathlib.MeasureTheory.Integral.IntervalIntegral.FundThmCalculus

/-!
# Dissipation of the fields inside one medium

The intensity of a sum of multipoles integrated over a sphere, its relation to the change of the flux, and the integral of
both over a shell.
-/

namespace MieDiff

open Complex Spec Filter Topology MeasureTheory intervalIntegral

local notation "conj" => starRingEnd ℂ

/-! ## The intensity on a sphere -/

/-- Specification: `|E|^2` integrated over the unit sphere of directions. -/
noncomputable def sphereNorm2 (E : ℝ → ℝ → V3 ℂ) : ℝ :=
  ∫ p in (0 : ℝ)..2 * Real.pi, ∫ t in (0 : ℝ)..Real.pi, (E t p).norm2 * Real.sin t

/-- Radial profile. -/
noncomputable def profR (rh : ℕ → ℂ) (N : ℕ) (t : ℝ) : ℂ :=
  ∑ i ∈ Finset.range N, rh i * ((Real.sin t * angPi (i + 1) (Real.cos t) : ℝ) : ℂ)

theorem continuous_sinPi (n : ℕ) : Continuous fun t : ℝ => Real.sin t * angPi n (Real.cos t) :=
  Real.continuous_sin.mul (continuous_angPi_cos n)

theorem continuous_profR (rh : ℕ → ℂ) (N : ℕ) : Continuous (profR rh N) :=
  continuous_finsetSum _ fun _ _ => continuous_const.mul (continuous_ofReal.comp (continuous_sinPi _))

theorem int_radial (i j : ℕ) : ∫ t in (0 : ℝ)..Real.pi, (((Real.sin t * angPi (i + 1) (Real.cos t)) *
    (Real.sin t * angPi (j + 1) (Real.cos t)) * Real.sin t : ℝ) : ℂ) =
    if i = j then ((angNorm i / (((i : ℝ) + 1) * ((i : ℝ) + 2)) : ℝ) : ℂ) else 0 := by
  rw [intervalIntegral.integral_ofReal]
  have h := integral_cos_subst (F := fun x => (1 - x ^ 2) * (angPi (i + 1) x * angPi (j + 1) x)) (continuous_w _ _)
  have e : ∫ t in (0 : ℝ)..Real.pi, (Real.sin t * angPi (i + 1) (Real.cos t)) * (Real.sin t * angPi (j + 1) (Real.cos t)) * Real.sin t =
      wInt (i + 1) (j + 1) := by
    rw [wInt, ← h]
    refine intervalIntegral.integral_congr fun t _ => ?_
    simp only [← Real.sin_sq]
    ring
  rw [e]
  by_cases hij : i = j
  · subst hij
    rw [if_pos rfl, wInt_self, angNorm]
    congr 1
    push_cast
    have h1 : (2 * (i : ℝ) + 3) ≠ 0 := by positivity
    have h2 : (2 * ((i : ℝ) + 1) + 1) ≠ 0 := by positivity
    have h3 : ((i : ℝ) + 1) ≠ 0 := by positivity
    have h4 : ((i : ℝ) + 2) ≠ 0 := by positivity
    field_simp
    ring
  · rw [if_neg hij, wInt_ne (by omega)]
    simp

/-- Norm of the radial profile. -/
noncomputable def radForm (R : ℝ → ℂ) : ℂ := ∫ t in (0 : ℝ)..Real.pi, R t * conj (R t) * (Real.sin t : ℝ)

theorem radForm_prof (rh : ℕ → ℂ) (N : ℕ) :
    radForm (profR rh N) = ∑ i ∈ Finset.range N, rh i * conj (rh i) * ((angNorm i / (((i : ℝ) + 1) * ((i : ℝ) + 2)) : ℝ) : ℂ) := by
  unfold radForm
  have e : ∀ t : ℝ, profR rh N t * conj (profR rh N t) * (Real.sin t : ℝ) =
      ∑ i ∈ Finset.range N, ∑ j ∈ Finset.range N, rh i * conj (rh j) * (((Real.sin t * angPi (i + 1) (Real.cos t)) *
        (Real.sin t * angPi (j + 1) (Real.cos t)) * Real.sin t : ℝ) : ℂ) := by
    intro t
    unfold profR
    rw [map_sum, Finset.sum_mul_sum, Finset.sum_mul]
    refine Finset.sum_congr rfl fun i _ => ?_
    rw [Finset.sum_mul]
    refine Finset.sum_congr rfl fun j _ => ?_
    simp only [map_mul, conj_ofReal]
    push_cast
    ring
  have c1 : ∀ i j : ℕ, Continuous fun t : ℝ => rh i * conj (rh j) * (((Real.sin t * angPi (i + 1) (Real.cos t)) *
        (Real.sin t * angPi (j + 1) (Real.cos t)) * Real.sin t : ℝ) : ℂ) := fun i j =>
    continuous_const.mul (continuous_ofReal.comp (((continuous_sinPi _).mul (continuous_sinPi _)).mul Real.continuous_sin))
  simp only [e]
  rw [intervalIntegral.integral_finsetSum]
  · refine Finset.sum_congr rfl fun i hi => ?_
    rw [intervalIntegral.integral_finsetSum]
    · have : ∀ j ∈ Finset.range N, ∫ t in (0 : ℝ)..Real.pi, rh i * conj (rh j) * (((Real.sin t * angPi (i + 1) (Real.cos t)) *
          (Real.sin t * angPi (j + 1) (Real.cos t)) * Real.sin t : ℝ) : ℂ) =
          if i = j then rh i * conj (rh i) * ((angNorm i / (((i : ℝ) + 1) * ((i : ℝ) + 2)) : ℝ) : ℂ) else 0 := by
        intro j _
        rw [intervalIntegral.integral_const_mul, int_radial]
        by_cases hij : i = j
        · subst hij; simp
        · simp [hij]
      rw [Finset.sum_congr rfl this, Finset.sum_ite_eq, if_pos hi]
    · exact fun j _ => (c1 i j).intervalIntegrable _ _
  · exact fun i _ => (continuous_finsetSum _ fun j _ => c1 i j).intervalIntegrable _ _

theorem profT_swap (al be : ℕ → ℂ) (N : ℕ) : profT be al N = profP al be N :=
  funext fun _ => Finset.sum_congr rfl fun _ _ => add_comm _ _

theorem re_integral_sin {f : ℝ → ℂ} (hf : Continuous f) :
    (∫ t in (0 : ℝ)..Real.pi, f t * ((Real.sin t : ℝ) : ℂ)).re = ∫ t in (0 : ℝ)..Real.pi, (f t).re * Real.sin t := by
  have hc : Continuous fun t => f t * ((Real.sin t : ℝ) : ℂ) := hf.mul (continuous_ofReal.comp Real.continuous_sin)
  have := reCLM.intervalIntegral_comp_comm (hc.intervalIntegrable (μ := volume) 0 Real.pi)
  rw [show (∫ t in (0 : ℝ)..Real.pi, f t * ((Real.sin t : ℝ) : ℂ)).re = reCLM (∫ t in (0 : ℝ)..Real.pi, f t * ((Real.sin t : ℝ) : ℂ))
    from rfl, ← this]
  refine intervalIntegral.integral_congr fun t _ => ?_
  simp only [reCLM_apply]
  rw [mul_comm, re_ofReal_mul, mul_comm]

theorem sphereNorm2_form {E : ℝ → ℝ → V3 ℂ} {R P A : ℝ → ℂ} (hR : Continuous R) (hP : Continuous P) (hA : Continuous A)
    (h0 : ∀ t p, (E t p).eR t p = (Real.cos p : ℝ) * R t) (h1 : ∀ t p, (E t p).eT t p = (Real.cos p : ℝ) * P t)
    (h2 : ∀ t p, (E t p).eP p = -((Real.sin p : ℝ) * A t)) :
    sphereNorm2 E = Real.pi * ((radForm R).re + (fluxForm P A A P).re) := by
  have cc : Continuous (conj : ℂ → ℂ) := Complex.continuous_conj
  have sq : ∀ z : ℂ, ‖z‖ ^ 2 = (z * conj z).re := fun z => by
    rw [mul_conj, ofReal_re, normSq_eq_norm_sq]
  have e : ∀ t p, (E t p).norm2 * Real.sin t =
      Real.cos p ^ 2 * ((R t * conj (R t) + P t * conj (P t)).re * Real.sin t) + Real.sin p ^ 2 * ((A t * conj (A t)).re * Real.sin t) := by
    intro t p
    rw [norm2_parts _ t p, h0, h1, h2, norm_neg, norm_mul, norm_mul, norm_mul, mul_pow, mul_pow, mul_pow, Complex.norm_real,
      Complex.norm_real, Real.norm_eq_abs, Real.norm_eq_abs, sq_abs, sq_abs, sq (R t), sq (P t), sq (A t), add_re]
    ring
  have cRP' : Continuous fun t => R t * conj (R t) + P t * conj (P t) := (hR.mul (cc.comp hR)).add (hP.mul (cc.comp hP))
  have cAA' : Continuous fun t => A t * conj (A t) := hA.mul (cc.comp hA)
  have cRR' : Continuous fun t => R t * conj (R t) := hR.mul (cc.comp hR)
  have cPP' : Continuous fun t => P t * conj (P t) + A t * conj (A t) := (hP.mul (cc.comp hP)).add (hA.mul (cc.comp hA))
  have cRP : Continuous fun t => (R t * conj (R t) + P t * conj (P t)).re * Real.sin t := (continuous_re.comp cRP').mul Real.continuous_sin
  have cAA : Continuous fun t => (A t * conj (A t)).re * Real.sin t := (continuous_re.comp cAA').mul Real.continuous_sin
  have cRR : Continuous fun t => (R t * conj (R t)).re * Real.sin t := (continuous_re.comp cRR').mul Real.continuous_sin
  have cPA : Continuous fun t => (P t * conj (P t) + A t * conj (A t)).re * Real.sin t := (continuous_re.comp cPP').mul Real.continuous_sin
  unfold sphereNorm2
  simp only [e]
  have inner : ∀ p, ∫ t in (0 : ℝ)..Real.pi, (Real.cos p ^ 2 * ((R t * conj (R t) + P t * conj (P t)).re * Real.sin t) +
      Real.sin p ^ 2 * ((A t * conj (A t)).re * Real.sin t)) =
      Real.cos p ^ 2 * (∫ t in (0 : ℝ)..Real.pi, (R t * conj (R t) + P t * conj (P t)).re * Real.sin t) +
      Real.sin p ^ 2 * ∫ t in (0 : ℝ)..Real.pi, (A t * conj (A t)).re * Real.sin t := by
    intro p
    have k1 : Continuous fun t => Real.cos p ^ 2 * ((R t * conj (R t) + P t * conj (P t)).re * Real.sin t) := continuous_const.mul cRP
    have k2 : Continuous fun t => Real.sin p ^ 2 * ((A t * conj (A t)).re * Real.sin t) := continuous_const.mul cAA
    rw [intervalIntegral.integral_add (k1.intervalIntegrable _ _) (k2.intervalIntegrable _ _),
      intervalIntegral.integral_const_mul, intervalIntegral.integral_const_mul]
  simp only [inner]
  rw [intervalIntegral.integral_add (Continuous.intervalIntegrable (by fun_prop) _ _)
    (Continuous.intervalIntegrable (by fun_prop) _ _), intervalIntegral.integral_mul_const,
    intervalIntegral.integral_mul_const, int_cos_sq, int_sin_sq, radForm, fluxForm, re_integral_sin cRR', re_integral_sin cPP',
    ← mul_add, ← intervalIntegral.integral_add (cRP.intervalIntegrable _ _) (cAA.intervalIntegrable _ _),
    ← intervalIntegral.integral_add (cRR.intervalIntegrable _ _) (cPA.intervalIntegrable _ _)]
  congr 1
  refine intervalIntegral.integral_congr fun t _ => ?_
  simp only [add_re]
  ring

/-! ## Sums of multipoles in one medium -/

/-- Specification: the electric field of the first `N` orders in a medium of index `n`, for the waves `w`; `z = k0 n r`. -/
noncomputable def multiE (E0 n z : ℂ) (N : ℕ) (w : ℕ → Pol → Wave) (t p : ℝ) : V3 ℂ :=
  sumCart t p ((List.range N).map fun i => (waveField false E0 n z t p (i + 1) (w (i + 1))).1)

/-- Specification: the magnetic field of the first `N` orders in a medium of index `n`. -/
noncomputable def multiH (E0 n z : ℂ) (N : ℕ) (w : ℕ → Pol → Wave) (t p : ℝ) : V3 ℂ :=
  sumCart t p ((List.range N).map fun i => (waveField false E0 n z t p (i + 1) (w (i + 1))).2)

/-- Radial profiles of the waves: electric. -/
noncomputable def mulAl (E0 z : ℂ) (w : ℕ → Pol → Wave) (i : ℕ) : ℂ :=
  -(I * EnCoef E0 (i + 1) * ((w (i + 1) .tm).der (i + 1) z / z))

noncomputable def mulBe (E0 z : ℂ) (w : ℕ → Pol → Wave) (i : ℕ) : ℂ :=
  EnCoef E0 (i + 1) * ((w (i + 1) .te).val (i + 1) z / z)

noncomputable def mulRh (E0 z : ℂ) (w : ℕ → Pol → Wave) (i : ℕ) : ℂ :=
  -(I * EnCoef E0 (i + 1) * (((i : ℂ) + 1) * (i + 2)) * ((w (i + 1) .tm).val (i + 1) z / z ^ 2))

noncomputable def mulGa (E0 n z : ℂ) (w : ℕ → Pol → Wave) (i : ℕ) : ℂ :=
  -(I * n * EnCoef E0 (i + 1) * ((w (i + 1) .te).der (i + 1) z / z))

noncomputable def mulDe (E0 n z : ℂ) (w : ℕ → Pol → Wave) (i : ℕ) : ℂ :=
  n * EnCoef E0 (i + 1) * ((w (i + 1) .tm).val (i + 1) z / z)

theorem multiE_parts (E0 n z : ℂ) (N : ℕ) (w : ℕ → Pol → Wave) (t p : ℝ) :
    (multiE E0 n z N w t p).eR t p = (Real.cos p : ℝ) * profR (mulRh E0 z w) N t ∧
    (multiE E0 n z N w t p).eT t p = (Real.cos p : ℝ) * profT (mulAl E0 z w) (mulBe E0 z w) N t ∧
    (multiE E0 n z N w t p).eP p = -((Real.sin p : ℝ) * profP (mulAl E0 z w) (mulBe E0 z w) N t) := by
  unfold multiE
  obtain ⟨p1, p2, p3⟩ := sumCart_parts t p ((List.range N).map fun i => (waveField false E0 n z t p (i + 1) (w (i + 1))).1)
  rw [p1, p2, p3, List.map_map, List.map_map, List.map_map, sum_range_map, sum_range_map, sum_range_map, profR, profT, profP,
    Finset.mul_sum, Finset.mul_sum, Finset.mul_sum, ← Finset.sum_neg_distrib]
  refine ⟨Finset.sum_congr rfl fun i _ => ?_, Finset.sum_congr rfl fun i _ => ?_, Finset.sum_congr rfl fun i _ => ?_⟩ <;>
  · simp only [Function.comp, waveField, Bool.false_eq_true, if_false, inField, V3.smul, V3.add, vshExact, vshOrder, mulAl, mulBe,
      mulRh, Wave.val, Wave.der]
    push_cast
    ring

theorem multiH_parts (E0 n z : ℂ) (N : ℕ) (w : ℕ → Pol → Wave) (t p : ℝ) :
    (multiH E0 n z N w t p).eT t p = (Real.sin p : ℝ) * profT (mulGa E0 n z w) (mulDe E0 n z w) N t ∧
    (multiH E0 n z N w t p).eP p = (Real.cos p : ℝ) * profP (mulGa E0 n z w) (mulDe E0 n z w) N t := by
  unfold multiH
  obtain ⟨-, p2, p3⟩ := sumCart_parts t p ((List.range N).map fun i => (waveField false E0 n z t p (i + 1) (w (i + 1))).2)
  rw [p2, p3, List.map_map, List.map_map, sum_range_map, sum_range_map, profT, profP, Finset.mul_sum, Finset.mul_sum]
  refine ⟨Finset.sum_congr rfl fun i _ => ?_, Finset.sum_congr rfl fun i _ => ?_⟩ <;>
  · simp only [Function.comp, waveField, Bool.false_eq_true, if_false, inField, V3.smul, V3.add, vshExact, vshOrder, mulGa, mulDe,
      Wave.val, Wave.der]
    push_cast
    ring

/-- The flux summed over orders and polarizations, as function of the size parameter. -/
noncomputable def fluxSum (N : ℕ) (w : ℕ → Pol → Wave) (m : ℂ) (rho : ℝ) : ℝ :=
  ∑ i ∈ Finset.range N, (2 * (i : ℝ) + 3) * (flux .tm (w (i + 1) .tm) (i + 1) m rho + flux .te (w (i + 1) .te) (i + 1) m rho)

noncomputable def lossSum (N : ℕ) (w : ℕ → Pol → Wave) (m : ℂ) (rho : ℝ) : ℝ :=
  ∑ i ∈ Finset.range N, (2 * (i : ℝ) + 3) *
    (fluxLoss .tm (w (i + 1) .tm) (i + 1) m rho + fluxLoss .te (w (i + 1) .te) (i + 1) m rho)

theorem sphereFlux_multi (E0 : ℂ) {m : ℂ} (hm : m ≠ 0) {ne rho : ℝ} (hr : 0 < rho) (N : ℕ) (w : ℕ → Pol → Wave) :
    rho ^ 2 * sphereFlux (multiE E0 (m * ne) (m * rho) N w) (multiH E0 (m * ne) (m * rho) N w) =
      2 * Real.pi * ‖E0‖ ^ 2 * ne * fluxSum N w m rho := by
  rw [sphereFlux_form (continuous_profT _ _ _) (continuous_profP _ _ _) (continuous_profT _ _ _) (continuous_profP _ _ _)
    (fun t p => (multiE_parts E0 (m * ne) (m * rho) N w t p).2.1) (fun t p => (multiE_parts E0 (m * ne) (m * rho) N w t p).2.2)
    (fun t p => (multiH_parts E0 (m * ne) (m * rho) N w t p).1) (fun t p => (multiH_parts E0 (m * ne) (m * rho) N w t p).2),
    fluxForm_prof _ _ _ _ le_rfl, re_sum_mul, fluxSum, Finset.mul_sum, Finset.mul_sum, Finset.mul_sum]
  refine Finset.sum_congr rfl fun i _ => ?_
  have hA := angNorm_En E0 i
  have hr' : (rho : ℂ) ≠ 0 := by exact_mod_cast hr.ne'
  have hN : 0 < normSq m := normSq_pos.2 hm
  set En := EnCoef E0 (i + 1)
  have key : (mulAl E0 (m * rho) w i * conj (mulDe E0 (m * ne) (m * rho) w i) +
      mulBe E0 (m * rho) w i * conj (mulGa E0 (m * ne) (m * rho) w i)).re =
      ‖En‖ ^ 2 * ne / rho ^ 2 * (flux .tm (w (i + 1) .tm) (i + 1) m rho + flux .te (w (i + 1) .te) (i + 1) m rho) := by
    simp only [mulAl, mulBe, mulGa, mulDe, flux]
    rw [show EnCoef E0 (i + 1) = En from rfl]
    set v := (w (i + 1) .tm).val (i + 1) (m * rho)
    set d := (w (i + 1) .tm).der (i + 1) (m * rho)
    set v' := (w (i + 1) .te).val (i + 1) (m * rho)
    set d' := (w (i + 1) .te).der (i + 1) (m * rho)
    have hc : conj m ≠ 0 := (map_ne_zero _).2 hm
    have hnm : (‖En‖ ^ 2 : ℝ) = ((conj En * En).re) := by
      rw [mul_comm, mul_conj, ofReal_re, normSq_eq_norm_sq]
    have e1 : -(I * En * (d / (m * rho))) * conj (m * ne * En * (v / (m * rho))) +
        En * (v' / (m * rho)) * conj (-(I * (m * ne) * En * (d' / (m * rho)))) =
        ((‖En‖ ^ 2 * ne / rho ^ 2 : ℝ) : ℂ) * (-I * (conj v * (d / m)) + I * (conj (conj (v' / m) * d'))) := by
      have : ((‖En‖ ^ 2 : ℝ) : ℂ) = conj En * En := by rw [mul_comm, mul_conj, normSq_eq_norm_sq]
      rw [show (‖En‖ ^ 2 * ne / rho ^ 2 : ℝ) = (‖En‖ ^ 2 : ℝ) * (ne / rho ^ 2) by ring, ofReal_mul, this]
      simp only [map_neg, map_mul, map_div₀, conj_ofReal, conj_I, Complex.conj_conj]
      push_cast
      field_simp
    rw [e1, re_ofReal_mul]
    congr 1
    simp only [add_re, neg_mul, neg_re, mul_re, I_re, I_im, zero_mul, one_mul, zero_sub, conj_im, neg_neg]
  rw [key]
  have hpi := Real.pi_pos
  rw [show rho ^ 2 * (Real.pi * (‖En‖ ^ 2 * ne / rho ^ 2 * (flux .tm (w (i + 1) .tm) (i + 1) m rho +
      flux .te (w (i + 1) .te) (i + 1) m rho) * angNorm i)) =
    (rho ^ 2 / rho ^ 2) * Real.pi * (angNorm i * ‖En‖ ^ 2) * ne * (flux .tm (w (i + 1) .tm) (i + 1) m rho +
      flux .te (w (i + 1) .te) (i + 1) m rho) by ring, hA, div_self (by positivity)]
  ring

theorem sphereNorm2_multi (E0 n : ℂ) {m : ℂ} (hm : m ≠ 0) {rho : ℝ} (hr : 0 < rho) (N : ℕ) (w : ℕ → Pol → Wave) :
    rho ^ 2 * sphereNorm2 (multiE E0 n (m * rho) N w) = 2 * Real.pi * ‖E0‖ ^ 2 * lossSum N w m rho := by
  rw [sphereNorm2_form (continuous_profR _ _) (continuous_profT _ _ _) (continuous_profP _ _ _)
    (fun t p => (multiE_parts E0 n (m * rho) N w t p).1) (fun t p => (multiE_parts E0 n (m * rho) N w t p).2.1)
    (fun t p => (multiE_parts E0 n (m * rho) N w t p).2.2), radForm_prof]
  have hsw : fluxForm (profT (mulAl E0 (m * rho) w) (mulBe E0 (m * rho) w) N) (profP (mulAl E0 (m * rho) w) (mulBe E0 (m * rho) w) N)
      (profP (mulAl E0 (m * rho) w) (mulBe E0 (m * rho) w) N) (profT (mulAl E0 (m * rho) w) (mulBe E0 (m * rho) w) N) =
      fluxForm (profT (mulAl E0 (m * rho) w) (mulBe E0 (m * rho) w) N) (profP (mulAl E0 (m * rho) w) (mulBe E0 (m * rho) w) N)
      (profT (mulBe E0 (m * rho) w) (mulAl E0 (m * rho) w) N) (profP (mulBe E0 (m * rho) w) (mulAl E0 (m * rho) w) N) := by
    rw [profT_swap (mulAl E0 (m * rho) w), ← profT_swap (mulBe E0 (m * rho) w)]
  rw [hsw, fluxForm_prof _ _ _ _ le_rfl, re_sum_mul, re_sum_mul, ← Finset.sum_add_distrib, lossSum, Finset.mul_sum, Finset.mul_sum,
    Finset.mul_sum]
  refine Finset.sum_congr rfl fun i _ => ?_
  have hA := angNorm_En E0 i
  have hN : 0 < normSq m := normSq_pos.2 hm
  set En := EnCoef E0 (i + 1)
  have sq : ∀ z : ℂ, (z * conj z).re = normSq z := fun z => by rw [mul_conj, ofReal_re]
  have hz : normSq (m * rho) = normSq m * rho ^ 2 := by rw [normSq_mul, normSq_ofReal]; ring
  have hEn : normSq En = ‖En‖ ^ 2 := normSq_eq_norm_sq _
  have e1 : (mulRh E0 (m * rho) w i * conj (mulRh E0 (m * rho) w i)).re * (angNorm i / (((i : ℝ) + 1) * ((i : ℝ) + 2))) =
      angNorm i * ‖En‖ ^ 2 * ((((i : ℝ) + 1) * (i + 2)) * (normSq ((w (i + 1) .tm).val (i + 1) (m * rho)) / (normSq m * rho ^ 2) ^ 2)) := by
    rw [sq, mulRh, normSq_neg, normSq_mul, normSq_mul, normSq_mul, normSq_I, normSq_div, map_pow, hz, hEn,
      show (((i : ℂ) + 1) * (i + 2)) = ((((i : ℝ) + 1) * (i + 2) : ℝ) : ℂ) by push_cast; ring, normSq_ofReal]
    have h3 : (((i : ℝ) + 1) * (i + 2)) ≠ 0 := by positivity
    field_simp
  have e2 : (mulAl E0 (m * rho) w i * conj (mulAl E0 (m * rho) w i) + mulBe E0 (m * rho) w i * conj (mulBe E0 (m * rho) w i)).re * angNorm i =
      angNorm i * ‖En‖ ^ 2 * ((normSq ((w (i + 1) .tm).der (i + 1) (m * rho)) + normSq ((w (i + 1) .te).val (i + 1) (m * rho))) /
        (normSq m * rho ^ 2)) := by
    rw [add_re, sq, sq, mulAl, mulBe, normSq_neg, normSq_mul, normSq_mul, normSq_mul, normSq_I, normSq_div, normSq_div, hz, hEn]
    ring
  rw [e1, e2, hA]
  simp only [fluxLoss]
  push_cast
  field_simp
  ring

/-! ## Poynting's theorem in a shell -/

theorem hasDerivAt_fluxSum (N : ℕ) (w : ℕ → Pol → Wave) {m : ℂ} (hm : m ≠ 0) {rho : ℝ} (hr : 0 < rho) :
    HasDerivAt (fluxSum N w m) (-(m ^ 2).im * lossSum N w m rho) rho := by
  unfold fluxSum lossSum
  rw [Finset.mul_sum]
  refine HasDerivAt.fun_sum fun i _ => ?_
  refine (((hasDerivAt_flux_loss .tm (w (i + 1) .tm) (i + 1) hm hr).add
    (hasDerivAt_flux_loss .te (w (i + 1) .te) (i + 1) hm hr)).const_mul (2 * (i : ℝ) + 3)).congr_deriv ?_
  ring

theorem lossSum_nonneg (N : ℕ) (w : ℕ → Pol → Wave) (m : ℂ) (rho : ℝ) : 0 ≤ lossSum N w m rho :=
  Finset.sum_nonneg fun i _ => mul_nonneg (by positivity) (add_nonneg (fluxLoss_nonneg _ _ _ _ _) (fluxLoss_nonneg _ _ _ _ _))

/-- Waves that are regular at the centre when the inner radius is zero. -/
def RegularAt (N : ℕ) (w : ℕ → Pol → Wave) (a : ℝ) : Prop := 0 < a ∨ a = 0 ∧ ∀ i < N, ∀ q, (w (i + 1) q).a = 0

theorem flux_zero (q : Pol) (d : ℂ) (n : ℕ) (m : ℂ) : flux q ⟨d, 0⟩ n m 0 = 0 := by
  cases q <;> simp [flux, Wave.val, ricPsi]

theorem fluxSum_continuousOn {N : ℕ} {w : ℕ → Pol → Wave} {m : ℂ} (hm : m ≠ 0) {a b : ℝ} (ha : RegularAt N w a) :
    ContinuousOn (fluxSum N w m) (Set.Icc a b) := by
  intro x hx
  by_cases h0 : 0 < x
  · exact (hasDerivAt_fluxSum N w hm h0).continuousAt.continuousWithinAt
  · rcases ha with ha | ⟨rfl, hw⟩
    · exact absurd (lt_of_lt_of_le ha hx.1) h0
    obtain rfl : x = 0 := le_antisymm (not_lt.1 h0) hx.1
    refine ContinuousWithinAt.mono (t := Set.Ici 0) ?_ fun y hy => hy.1
    have key : ∀ i < N, ∀ q, ContinuousWithinAt (flux q (w (i + 1) q) (i + 1) m) (Set.Ici 0) 0 := by
      intro i hi q
      have e : w (i + 1) q = ⟨(w (i + 1) q).d, 0⟩ := by
        have := hw i hi q
        cases hh : w (i + 1) q
        rw [hh] at this
        simp only at this
        rw [this]
      rw [e]
      refine continuousWithinAt_Ioi_iff_Ici.1 ?_
      show Tendsto _ _ _
      rw [flux_zero]
      exact flux_core_tendsto q _ (i + 1) hm
    show Tendsto _ _ _
    unfold fluxSum
    refine tendsto_finsetSum _ fun i hi => ?_
    have hi := Finset.mem_range.1 hi
    exact ((key i hi .tm).add (key i hi .te)).const_mul _

/-- The loss in a shell is the drop of the flux. -/
theorem loss_integral {N : ℕ} {w : ℕ → Pol → Wave} {m : ℂ} (hm : m ≠ 0) {a b : ℝ} (hab : a ≤ b) (ha : RegularAt N w a) :
    (m ^ 2).im * ∫ x in a..b, lossSum N w m x = fluxSum N w m a - fluxSum N w m b := by
  have ha0 : 0 ≤ a := by rcases ha with h | h; exacts [h.le, h.1.ge]
  have hc := fluxSum_continuousOn (b := b) hm ha
  by_cases h0 : (m ^ 2).im = 0
  · rw [h0, zero_mul]
    have := intervalIntegral.integral_eq_sub_of_hasDerivAt_of_le (f' := fun _ => (0 : ℝ)) hab hc (fun x hx => by
      have := hasDerivAt_fluxSum N w hm (lt_of_le_of_lt ha0 hx.1)
      rw [h0, neg_zero, zero_mul] at this
      exact this) (by simp)
    rw [intervalIntegral.integral_zero] at this
    linarith
  · have hd : ∀ x ∈ Set.Ioo a b, HasDerivAt (fun x => -(1 / (m ^ 2).im) * fluxSum N w m x) (lossSum N w m x) x := by
      intro x hx
      refine ((hasDerivAt_fluxSum N w hm (lt_of_le_of_lt ha0 hx.1)).const_mul (-(1 / (m ^ 2).im))).congr_deriv ?_
      field_simp
    have hc' : ContinuousOn (fun x => -(1 / (m ^ 2).im) * fluxSum N w m x) (Set.Icc a b) := hc.const_smul (-(1 / (m ^ 2).im))
    have hint := integrableOn_deriv_of_nonneg hc' hd fun x _ => lossSum_nonneg N w m x
    rw [intervalIntegral.integral_eq_sub_of_hasDerivAt_of_le hab hc' hd
      ((intervalIntegrable_iff_integrableOn_Ioc_of_le hab).2 hint)]
    field_simp
    ring

/-- The loss is integrable down to the centre. -/
theorem loss_intervalIntegrable {N : ℕ} {w : ℕ → Pol → Wave} {m : ℂ} (hm : m ≠ 0) (h0 : (m ^ 2).im ≠ 0) {a b : ℝ} (hab : a ≤ b)
    (ha : RegularAt N w a) : IntervalIntegrable (lossSum N w m) volume a b := by
  have ha0 : 0 ≤ a := by rcases ha with h | h; exacts [h.le, h.1.ge]
  have hc := fluxSum_continuousOn (b := b) hm ha
  have hd : ∀ x ∈ Set.Ioo a b, HasDerivAt (fun x => -(1 / (m ^ 2).im) * fluxSum N w m x) (lossSum N w m x) x := by
    intro x hx
    refine ((hasDerivAt_fluxSum N w hm (lt_of_le_of_lt ha0 hx.1)).const_mul (-(1 / (m ^ 2).im))).congr_deriv ?_
    field_simp
  have hc' : ContinuousOn (fun x => -(1 / (m ^ 2).im) * fluxSum N w m x) (Set.Icc a b) := hc.const_smul (-(1 / (m ^ 2).im))
  exact (intervalIntegrable_iff_integrableOn_Ioc_of_le hab).2
    (integrableOn_deriv_of_nonneg hc' hd fun x _ => lossSum_nonneg N w m x)

/-- Specification: the power dissipated by the field `E r theta phi` between the radii `a` and `b` in a medium of relative
permittivity `eps`: `k0 Im(eps)` times the integral of `|E|^2` over the volume. -/
noncomputable def dissipated (k0 : ℝ) (eps : ℂ) (a b : ℝ) (E : ℝ → ℝ → ℝ → V3 ℂ) : ℝ :=
  k0 * eps.im * ∫ r in a..b, r ^ 2 * sphereNorm2 (E r)

theorem dissipated_multi (E0 : ℂ) {m : ℂ} (hm : m ≠ 0) {k0 ne : ℝ} (hk : 0 < k0) (hn : 0 < ne) {N : ℕ} {w : ℕ → Pol → Wave} {a b : ℝ}
    (hab : a ≤ b) (ha : RegularAt N w a) :
    dissipated k0 ((m * ne) ^ 2) a b (fun r => multiE E0 (m * ne) (k0 * (m * ne) * r) N w) =
      2 * Real.pi * ‖E0‖ ^ 2 / (k0 ^ 2 * ne) * (fluxSum N w m (k0 * ne * a) - fluxSum N w m (k0 * ne * b)) := by
  have ha0 : 0 ≤ a := by rcases ha with h | h; exacts [h.le, h.1.ge]
  have hkn : 0 < k0 * ne := mul_pos hk hn
  have hka : RegularAt N w (k0 * ne * a) := by
    rcases ha with h | ⟨h, hw⟩
    · exact Or.inl (mul_pos hkn h)
    · exact Or.inr ⟨by rw [h, mul_zero], hw⟩
  have hL := loss_integral (N := N) (w := w) hm (mul_le_mul_of_nonneg_left hab hkn.le) hka
  have e : ∀ r ∈ Set.uIoc a b, r ^ 2 * sphereNorm2 (multiE E0 (m * ne) (k0 * (m * ne) * r) N w) =
      2 * Real.pi * ‖E0‖ ^ 2 / (k0 * ne) ^ 2 * lossSum N w m (k0 * ne * r) := by
    intro r hr
    rw [Set.uIoc_of_le hab] at hr
    have hr0 : 0 < k0 * ne * r := mul_pos hkn (lt_of_le_of_lt ha0 hr.1)
    have := sphereNorm2_multi E0 (m * ne) hm hr0 N w
    rw [show (k0 : ℂ) * (m * ne) * r = m * ((k0 * ne * r : ℝ) : ℂ) by push_cast; ring]
    have h2 : (k0 * ne) ^ 2 ≠ 0 := by positivity
    rw [div_mul_eq_mul_div, eq_div_iff h2, ← this]
    ring
  unfold dissipated
  rw [intervalIntegral.integral_congr_ae (Eventually.of_forall e), intervalIntegral.integral_const_mul,
    intervalIntegral.integral_comp_mul_left (fun x => lossSum N w m x) hkn.ne']
  have him : ((m * ne) ^ 2).im = ne ^ 2 * (m ^ 2).im := by
    rw [show (m * (ne : ℂ)) ^ 2 = ((ne ^ 2 : ℝ) : ℂ) * m ^ 2 by push_cast; ring, im_ofReal_mul]
  rw [him, ← hL, smul_eq_mul]
  field_simp

end MieDiff
