import Verif.Props.FarField
import Verif.Proofs.Flux
import Mathlib.Analysis.SpecialFunctions.Integrals.Basic

/-!
# Integrals of multipole fields over a sphere

Tangential fields `cos(phi) P`, `-sin(phi) A` (electric) and `sin(phi) Q`, `cos(phi) B` (magnetic), whose profiles are sums over
`tau_n` and `pi_n`: the flux through a sphere is a sum over the orders.
-/

namespace MieDiff

open Complex Spec Filter Topology MeasureTheory intervalIntegral

local notation "conj" => starRingEnd ℂ

/-- Profile `sum (alpha tau_n + beta pi_n)`. -/
noncomputable def profT (al be : ℕ → ℂ) (N : ℕ) (t : ℝ) : ℂ :=
  ∑ i ∈ Finset.range N, (al i * (angTau (i + 1) t : ℝ) + be i * (angPi (i + 1) (Real.cos t) : ℝ))

/-- Profile `sum (alpha pi_n + beta tau_n)`. -/
noncomputable def profP (al be : ℕ → ℂ) (N : ℕ) (t : ℝ) : ℂ :=
  ∑ i ∈ Finset.range N, (al i * (angPi (i + 1) (Real.cos t) : ℝ) + be i * (angTau (i + 1) t : ℝ))

theorem continuous_angTau (n : ℕ) : Continuous (angTau n) := by
  have : angTau n = fun t => tauVal (Real.cos t) n := funext fun t => (tauVal_cos n t).symm
  rw [this]
  exact (continuous_tauVal n).comp Real.continuous_cos

theorem continuous_angPi_cos (n : ℕ) : Continuous fun t : ℝ => angPi n (Real.cos t) :=
  (continuous_angPi n).comp Real.continuous_cos

theorem continuous_profT (al be : ℕ → ℂ) (N : ℕ) : Continuous (profT al be N) :=
  continuous_finsetSum _ fun _ _ => (continuous_const.mul (continuous_ofReal.comp (continuous_angTau _))).add
    (continuous_const.mul (continuous_ofReal.comp (continuous_angPi_cos _)))

theorem continuous_profP (al be : ℕ → ℂ) (N : ℕ) : Continuous (profP al be N) :=
  continuous_finsetSum _ fun _ _ => (continuous_const.mul (continuous_ofReal.comp (continuous_angPi_cos _))).add
    (continuous_const.mul (continuous_ofReal.comp (continuous_angTau _)))

/-- Norm of the angular functions of order `i + 1`. -/
noncomputable def angNorm (i : ℕ) : ℝ := 2 * ((i : ℝ) + 1) ^ 2 * ((i : ℝ) + 2) ^ 2 / (2 * (i : ℝ) + 3)

/-- The flux form of two pairs of profiles. -/
noncomputable def fluxForm (P A Q B : ℝ → ℂ) : ℂ :=
  ∫ t in (0 : ℝ)..Real.pi, (P t * conj (B t) + A t * conj (Q t)) * (Real.sin t : ℝ)

theorem int_same (i j : ℕ) : ∫ t in (0 : ℝ)..Real.pi, (((angPi (i + 1) (Real.cos t) * angPi (j + 1) (Real.cos t) +
    angTau (i + 1) t * angTau (j + 1) t) * Real.sin t : ℝ) : ℂ) = if i = j then (angNorm i : ℂ) else 0 := by
  rw [intervalIntegral.integral_ofReal]
  have h := integral_cos_subst (F := fun x => angPi (i + 1) x * angPi (j + 1) x + tauVal x (i + 1) * tauVal x (j + 1))
    (((continuous_angPi _).mul (continuous_angPi _)).add ((continuous_tauVal _).mul (continuous_tauVal _)))
  simp only [tauVal_cos] at h
  rw [h, integral_pi_pi_eq]
  by_cases hij : i = j
  · rw [if_pos (by rw [hij]), if_pos hij, angNorm]
    push_cast
    ring
  · rw [if_neg (by omega), if_neg hij]
    simp

theorem int_mixed (i j : ℕ) : ∫ t in (0 : ℝ)..Real.pi, (((angPi (i + 1) (Real.cos t) * angTau (j + 1) t +
    angTau (i + 1) t * angPi (j + 1) (Real.cos t)) * Real.sin t : ℝ) : ℂ) = 0 := by
  rw [intervalIntegral.integral_ofReal]
  have h := integral_cos_subst (F := fun x => angPi (i + 1) x * tauVal x (j + 1) + tauVal x (i + 1) * angPi (j + 1) x)
    (((continuous_angPi _).mul (continuous_tauVal _)).add ((continuous_tauVal _).mul (continuous_angPi _)))
  simp only [tauVal_cos] at h
  rw [h, integral_pi_tau]
  simp

theorem int_lin {f g : ℝ → ℂ} (c d : ℂ) (hf : Continuous f) (hg : Continuous g) :
    ∫ t in (0 : ℝ)..Real.pi, (c * f t + d * g t) =
      c * (∫ t in (0 : ℝ)..Real.pi, f t) + d * ∫ t in (0 : ℝ)..Real.pi, g t := by
  have k1 : Continuous fun t => c * f t := continuous_const.mul hf
  have k2 : Continuous fun t => d * g t := continuous_const.mul hg
  rw [intervalIntegral.integral_add (k1.intervalIntegrable _ _) (k2.intervalIntegrable _ _),
    intervalIntegral.integral_const_mul, intervalIntegral.integral_const_mul]

/-- Orthogonality of the orders. -/
theorem fluxForm_prof (al be ga de : ℕ → ℂ) {N M : ℕ} (h : M ≤ N) :
    fluxForm (profT al be N) (profP al be N) (profT ga de M) (profP ga de M) =
      ∑ i ∈ Finset.range M, (al i * conj (de i) + be i * conj (ga i)) * angNorm i := by
  unfold fluxForm
  have e : ∀ t : ℝ, (profT al be N t * conj (profP ga de M t) + profP al be N t * conj (profT ga de M t)) * (Real.sin t : ℝ) =
      ∑ i ∈ Finset.range N, ∑ j ∈ Finset.range M,
        ((al i * conj (de j) + be i * conj (ga j)) * (((angPi (i + 1) (Real.cos t) * angPi (j + 1) (Real.cos t) +
          angTau (i + 1) t * angTau (j + 1) t) * Real.sin t : ℝ) : ℂ) +
        (al i * conj (ga j) + be i * conj (de j)) * (((angPi (i + 1) (Real.cos t) * angTau (j + 1) t +
          angTau (i + 1) t * angPi (j + 1) (Real.cos t)) * Real.sin t : ℝ) : ℂ)) := by
    intro t
    unfold profT profP
    rw [map_sum, map_sum, Finset.sum_mul_sum, Finset.sum_mul_sum, ← Finset.sum_add_distrib, Finset.sum_mul]
    refine Finset.sum_congr rfl fun i _ => ?_
    rw [← Finset.sum_add_distrib, Finset.sum_mul]
    refine Finset.sum_congr rfl fun j _ => ?_
    simp only [map_add, map_mul, conj_ofReal]
    push_cast
    ring
  have c1 : ∀ i j : ℕ, Continuous fun t : ℝ => (((angPi (i + 1) (Real.cos t) * angPi (j + 1) (Real.cos t) +
          angTau (i + 1) t * angTau (j + 1) t) * Real.sin t : ℝ) : ℂ) := fun i j =>
    continuous_ofReal.comp ((((continuous_angPi_cos _).mul (continuous_angPi_cos _)).add
      ((continuous_angTau _).mul (continuous_angTau _))).mul Real.continuous_sin)
  have c2 : ∀ i j : ℕ, Continuous fun t : ℝ => (((angPi (i + 1) (Real.cos t) * angTau (j + 1) t +
          angTau (i + 1) t * angPi (j + 1) (Real.cos t)) * Real.sin t : ℝ) : ℂ) := fun i j =>
    continuous_ofReal.comp ((((continuous_angPi_cos _).mul (continuous_angTau _)).add
      ((continuous_angTau _).mul (continuous_angPi_cos _))).mul Real.continuous_sin)
  simp only [e]
  rw [intervalIntegral.integral_finsetSum]
  · have inner : ∀ i ∈ Finset.range N, ∫ t in (0 : ℝ)..Real.pi, ∑ j ∈ Finset.range M,
        ((al i * conj (de j) + be i * conj (ga j)) * (((angPi (i + 1) (Real.cos t) * angPi (j + 1) (Real.cos t) +
          angTau (i + 1) t * angTau (j + 1) t) * Real.sin t : ℝ) : ℂ) +
        (al i * conj (ga j) + be i * conj (de j)) * (((angPi (i + 1) (Real.cos t) * angTau (j + 1) t +
          angTau (i + 1) t * angPi (j + 1) (Real.cos t)) * Real.sin t : ℝ) : ℂ)) =
        if i < M then (al i * conj (de i) + be i * conj (ga i)) * angNorm i else 0 := by
      intro i _
      rw [intervalIntegral.integral_finsetSum]
      · have : ∀ j ∈ Finset.range M, ∫ t in (0 : ℝ)..Real.pi,
            ((al i * conj (de j) + be i * conj (ga j)) * (((angPi (i + 1) (Real.cos t) * angPi (j + 1) (Real.cos t) +
              angTau (i + 1) t * angTau (j + 1) t) * Real.sin t : ℝ) : ℂ) +
            (al i * conj (ga j) + be i * conj (de j)) * (((angPi (i + 1) (Real.cos t) * angTau (j + 1) t +
              angTau (i + 1) t * angPi (j + 1) (Real.cos t)) * Real.sin t : ℝ) : ℂ)) =
            if i = j then (al i * conj (de i) + be i * conj (ga i)) * angNorm i else 0 := by
          intro j _
          rw [int_lin _ _ (c1 i j) (c2 i j), int_same, int_mixed]
          by_cases hij : i = j
          · subst hij; simp
          · simp [hij]
        rw [Finset.sum_congr rfl this, Finset.sum_ite_eq]
        simp
      · intro j _
        exact ((continuous_const.mul (c1 i j)).add (continuous_const.mul (c2 i j))).intervalIntegrable _ _
    rw [Finset.sum_congr rfl inner, ← Finset.sum_filter]
    refine Finset.sum_congr ?_ fun _ _ => rfl
    ext i
    simp only [Finset.mem_filter, Finset.mem_range]
    omega
  · intro i _
    exact (continuous_finsetSum _ fun j _ => (continuous_const.mul (c1 i j)).add
      (continuous_const.mul (c2 i j))).intervalIntegrable _ _

/-! ## The flux through a sphere -/

/-- Specification: `Re (E x conj H)` through the unit sphere of directions; the flux through the sphere of radius `r` is `r^2`
times this. -/
noncomputable def sphereFlux (E H : ℝ → ℝ → V3 ℂ) : ℝ :=
  ∫ p in (0 : ℝ)..2 * Real.pi, ∫ t in (0 : ℝ)..Real.pi, radialFlux (E t p) (H t p) t p * Real.sin t

theorem int_cos_sq : ∫ p in (0 : ℝ)..2 * Real.pi, Real.cos p ^ 2 = Real.pi := by
  rw [integral_cos_sq]; simp

theorem int_sin_sq : ∫ p in (0 : ℝ)..2 * Real.pi, Real.sin p ^ 2 = Real.pi := by
  rw [integral_sin_sq]; simp

theorem sphereFlux_form {E H : ℝ → ℝ → V3 ℂ} {P A Q B : ℝ → ℂ} (hP : Continuous P) (hA : Continuous A) (hQ : Continuous Q)
    (hB : Continuous B) (h1 : ∀ t p, (E t p).eT t p = (Real.cos p : ℝ) * P t) (h2 : ∀ t p, (E t p).eP p = -((Real.sin p : ℝ) * A t))
    (h3 : ∀ t p, (H t p).eT t p = (Real.sin p : ℝ) * Q t) (h4 : ∀ t p, (H t p).eP p = (Real.cos p : ℝ) * B t) :
    sphereFlux E H = Real.pi * (fluxForm P A Q B).re := by
  have cc : Continuous (conj : ℂ → ℂ) := Complex.continuous_conj
  have e : ∀ t p, radialFlux (E t p) (H t p) t p * Real.sin t =
      Real.cos p ^ 2 * ((P t * conj (B t)).re * Real.sin t) + Real.sin p ^ 2 * ((A t * conj (Q t)).re * Real.sin t) := by
    intro t p
    rw [radialFlux_parts, h1, h2, h3, h4]
    simp only [map_mul, conj_ofReal]
    rw [show (Real.cos p : ℝ) * P t * ((Real.cos p : ℝ) * conj (B t)) - -((Real.sin p : ℝ) * A t) * ((Real.sin p : ℝ) * conj (Q t)) =
      ((Real.cos p ^ 2 : ℝ) : ℂ) * (P t * conj (B t)) + ((Real.sin p ^ 2 : ℝ) : ℂ) * (A t * conj (Q t)) by push_cast; ring,
      add_re, re_ofReal_mul, re_ofReal_mul]
    ring
  have cPB : Continuous fun t => (P t * conj (B t)).re * Real.sin t :=
    (continuous_re.comp (hP.mul (cc.comp hB))).mul Real.continuous_sin
  have cAQ : Continuous fun t => (A t * conj (Q t)).re * Real.sin t :=
    (continuous_re.comp (hA.mul (cc.comp hQ))).mul Real.continuous_sin
  unfold sphereFlux
  simp only [e]
  have inner : ∀ p, ∫ t in (0 : ℝ)..Real.pi, (Real.cos p ^ 2 * ((P t * conj (B t)).re * Real.sin t) +
      Real.sin p ^ 2 * ((A t * conj (Q t)).re * Real.sin t)) =
      Real.cos p ^ 2 * (∫ t in (0 : ℝ)..Real.pi, (P t * conj (B t)).re * Real.sin t) +
      Real.sin p ^ 2 * ∫ t in (0 : ℝ)..Real.pi, (A t * conj (Q t)).re * Real.sin t := by
    intro p
    have k1 : Continuous fun t => Real.cos p ^ 2 * ((P t * conj (B t)).re * Real.sin t) := continuous_const.mul cPB
    have k2 : Continuous fun t => Real.sin p ^ 2 * ((A t * conj (Q t)).re * Real.sin t) := continuous_const.mul cAQ
    rw [intervalIntegral.integral_add (k1.intervalIntegrable _ _) (k2.intervalIntegrable _ _),
      intervalIntegral.integral_const_mul, intervalIntegral.integral_const_mul]
  simp only [inner]
  rw [intervalIntegral.integral_add (Continuous.intervalIntegrable (by fun_prop) _ _)
    (Continuous.intervalIntegrable (by fun_prop) _ _), intervalIntegral.integral_mul_const,
    intervalIntegral.integral_mul_const, int_cos_sq, int_sin_sq]
  have hre : (fluxForm P A Q B).re = (∫ t in (0 : ℝ)..Real.pi, (P t * conj (B t)).re * Real.sin t) +
      ∫ t in (0 : ℝ)..Real.pi, (A t * conj (Q t)).re * Real.sin t := by
    rw [← intervalIntegral.integral_add (cPB.intervalIntegrable _ _) (cAQ.intervalIntegrable _ _)]
    unfold fluxForm
    have hc : Continuous fun t => (P t * conj (B t) + A t * conj (Q t)) * ((Real.sin t : ℝ) : ℂ) :=
      ((hP.mul (cc.comp hB)).add (hA.mul (cc.comp hQ))).mul (continuous_ofReal.comp Real.continuous_sin)
    have := reCLM.intervalIntegral_comp_comm (hc.intervalIntegrable (μ := volume) 0 Real.pi)
    rw [show (∫ t in (0 : ℝ)..Real.pi, (P t * conj (B t) + A t * conj (Q t)) * ((Real.sin t : ℝ) : ℂ)).re =
      reCLM (∫ t in (0 : ℝ)..Real.pi, (P t * conj (B t) + A t * conj (Q t)) * ((Real.sin t : ℝ) : ℂ)) from rfl, ← this]
    refine intervalIntegral.integral_congr fun t _ => ?_
    simp only [reCLM_apply]
    rw [mul_comm, re_ofReal_mul, add_re]
    ring
  rw [hre]
  ring

/-! ## Algebra of the flux form -/

theorem fluxForm_int {P A Q B : ℝ → ℂ} (hP : Continuous P) (hA : Continuous A) (hQ : Continuous Q) (hB : Continuous B) :
    IntervalIntegrable (fun t => (P t * conj (B t) + A t * conj (Q t)) * ((Real.sin t : ℝ) : ℂ)) volume 0 Real.pi :=
  Continuous.intervalIntegrable (((hP.mul (Complex.continuous_conj.comp hB)).add
    (hA.mul (Complex.continuous_conj.comp hQ))).mul (continuous_ofReal.comp Real.continuous_sin)) _ _

theorem fluxForm_add_left {P A P' A' Q B : ℝ → ℂ} (hP : Continuous P) (hA : Continuous A) (hP' : Continuous P')
    (hA' : Continuous A') (hQ : Continuous Q) (hB : Continuous B) :
    fluxForm (fun t => P t + P' t) (fun t => A t + A' t) Q B = fluxForm P A Q B + fluxForm P' A' Q B := by
  unfold fluxForm
  rw [← intervalIntegral.integral_add (fluxForm_int hP hA hQ hB) (fluxForm_int hP' hA' hQ hB)]
  refine intervalIntegral.integral_congr fun t _ => ?_
  ring

theorem fluxForm_add_right {P A Q B Q' B' : ℝ → ℂ} (hP : Continuous P) (hA : Continuous A) (hQ' : Continuous Q')
    (hB' : Continuous B') (hQ : Continuous Q) (hB : Continuous B) :
    fluxForm P A (fun t => Q t + Q' t) (fun t => B t + B' t) = fluxForm P A Q B + fluxForm P A Q' B' := by
  unfold fluxForm
  rw [← intervalIntegral.integral_add (fluxForm_int hP hA hQ hB) (fluxForm_int hP hA hQ' hB')]
  refine intervalIntegral.integral_congr fun t _ => ?_
  simp only [map_add]
  ring

theorem fluxForm_smul_right (P A Q B : ℝ → ℂ) (m : ℝ) :
    fluxForm P A (fun t => m * Q t) (fun t => m * B t) = m * fluxForm P A Q B := by
  unfold fluxForm
  rw [← intervalIntegral.integral_const_mul]
  refine intervalIntegral.integral_congr fun t _ => ?_
  simp only [map_mul, conj_ofReal]
  ring

theorem fluxForm_conj {P A Q B : ℝ → ℂ} : conj (fluxForm P A Q B) = fluxForm Q B P A := by
  unfold fluxForm
  rw [← intervalIntegral.intervalIntegral_conj]
  refine intervalIntegral.integral_congr fun t _ => ?_
  simp only [map_mul, map_add, conj_ofReal, Complex.conj_conj]
  ring

/-! ## The profiles of the scattered and of the incident field -/

noncomputable def scAl (E0 : ℂ) (c : List ℂ) (rho : ℂ) (i : ℕ) : ℂ :=
  EnCoef E0 (i + 1) * I * c.getD i 0 * (deriv (ricZeta (i + 1)) rho / rho)

noncomputable def scBe (E0 : ℂ) (c : List ℂ) (rho : ℂ) (i : ℕ) : ℂ :=
  -(EnCoef E0 (i + 1) * c.getD i 0 * (ricZeta (i + 1) rho / rho))

noncomputable def inAl (E0 : ℂ) (x : ℂ) (i : ℕ) : ℂ := -(EnCoef E0 (i + 1) * I * (deriv (ricPsi (i + 1)) x / x))

noncomputable def inBe (E0 : ℂ) (x : ℂ) (i : ℕ) : ℂ := EnCoef E0 (i + 1) * (ricPsi (i + 1) x / x)

noncomputable def inT (E0 x : ℂ) (t : ℝ) : ℂ := E0 * ((Real.cos t : ℝ) * exp (I * (Real.cos t : ℝ) * x))

noncomputable def inP (E0 x : ℂ) (t : ℝ) : ℂ := E0 * exp (I * (Real.cos t : ℝ) * x)

theorem continuous_inP (E0 x : ℂ) : Continuous (inP E0 x) :=
  continuous_const.mul (continuous_exp.comp ((continuous_const.mul (continuous_ofReal.comp Real.continuous_cos)).mul continuous_const))

theorem continuous_inT (E0 x : ℂ) : Continuous (inT E0 x) :=
  continuous_const.mul ((continuous_ofReal.comp Real.continuous_cos).mul
    (continuous_exp.comp ((continuous_const.mul (continuous_ofReal.comp Real.continuous_cos)).mul continuous_const)))

theorem inProf_T (E0 : ℂ) {x : ℂ} (hx : x ≠ 0) {N : ℕ} (hN : ‖x‖ ^ 2 ≤ N + 1) (t : ℝ) :
    ‖profT (inAl E0 x) (inBe E0 x) (N + 1) t - inT E0 x t‖ ≤ ‖E0‖ * pwBound (N + 1) x := by
  have h := polarSum_error N t hx hN
  have e : profT (inAl E0 x) (inBe E0 x) (N + 1) t = E0 * ∑ n ∈ Finset.range (N + 1), I ^ (n + 1) * ((2 * (n + 1 : ℕ) + 1) / ((n + 1 : ℕ) * ((n + 1 : ℕ) + 1))) *
        ((angPi (n + 1) (Real.cos t) : ℂ) * sphJ (n + 1) x - I * (angTau (n + 1) t : ℂ) * (deriv (ricPsi (n + 1)) x / x)) := by
    unfold profT
    rw [Finset.mul_sum]
    refine Finset.sum_congr rfl fun i _ => ?_
    rw [inAl, inBe, psi_div hx, EnCoef]
    push_cast
    ring
  rw [e, inT, ← mul_sub, norm_mul]
  exact mul_le_mul_of_nonneg_left h (norm_nonneg _)

theorem inProf_P (E0 : ℂ) {x : ℂ} (hx : x ≠ 0) {N : ℕ} (hN : ‖x‖ ^ 2 ≤ N + 1) (t : ℝ) :
    ‖profP (inAl E0 x) (inBe E0 x) (N + 1) t - inP E0 x t‖ ≤ ‖E0‖ * pwBound (N + 1) x := by
  have h := azimuthSum_error N t hx hN
  have e : profP (inAl E0 x) (inBe E0 x) (N + 1) t = E0 * ∑ n ∈ Finset.range (N + 1), I ^ (n + 1) * ((2 * (n + 1 : ℕ) + 1) / ((n + 1 : ℕ) * ((n + 1 : ℕ) + 1))) *
        ((angTau (n + 1) t : ℂ) * sphJ (n + 1) x - I * (angPi (n + 1) (Real.cos t) : ℂ) * (deriv (ricPsi (n + 1)) x / x)) := by
    unfold profP
    rw [Finset.mul_sum]
    refine Finset.sum_congr rfl fun i _ => ?_
    rw [inAl, inBe, psi_div hx, EnCoef]
    push_cast
    ring
  rw [e, inP, ← mul_sub, norm_mul]
  exact mul_le_mul_of_nonneg_left h (norm_nonneg _)

/-- Projection of the plane wave on the orders. -/
theorem fluxForm_in (E0 : ℂ) {x : ℂ} (hx : x ≠ 0) (ga de : ℕ → ℂ) (M : ℕ) :
    fluxForm (inT E0 x) (inP E0 x) (profT ga de M) (profP ga de M) =
      ∑ i ∈ Finset.range M, (inAl E0 x i * conj (de i) + inBe E0 x i * conj (ga i)) * angNorm i := by
  have cQ := continuous_profT ga de M
  have cB := continuous_profP ga de M
  obtain ⟨C1, h1⟩ := (isCompact_Icc (a := (0 : ℝ)) (b := Real.pi)).exists_bound_of_continuousOn cQ.continuousOn
  obtain ⟨C2, h2⟩ := (isCompact_Icc (a := (0 : ℝ)) (b := Real.pi)).exists_bound_of_continuousOn cB.continuousOn
  have hlim : Tendsto (fun N => fluxForm (profT (inAl E0 x) (inBe E0 x) N) (profP (inAl E0 x) (inBe E0 x) N) (profT ga de M) (profP ga de M))
      atTop (𝓝 (fluxForm (inT E0 x) (inP E0 x) (profT ga de M) (profP ga de M))) := by
    refine tendsto_of_pwBound (z := x) (‖E0‖ * (C2 + C1) * Real.pi) fun N hN => ?_
    have cT := continuous_profT (inAl E0 x) (inBe E0 x) (N + 1)
    have cP := continuous_profP (inAl E0 x) (inBe E0 x) (N + 1)
    unfold fluxForm
    rw [← intervalIntegral.integral_sub (fluxForm_int cT cP cQ cB)
      (fluxForm_int (continuous_inT E0 x) (continuous_inP E0 x) cQ cB)]
    have := intervalIntegral.norm_integral_le_of_norm_le_const (a := 0) (b := Real.pi) (C := ‖E0‖ * pwBound (N + 1) x * (C2 + C1))
      (f := fun t => (profT (inAl E0 x) (inBe E0 x) (N + 1) t * conj (profP ga de M t) +
        profP (inAl E0 x) (inBe E0 x) (N + 1) t * conj (profT ga de M t)) * ((Real.sin t : ℝ) : ℂ) -
        (inT E0 x t * conj (profP ga de M t) + inP E0 x t * conj (profT ga de M t)) * ((Real.sin t : ℝ) : ℂ)) ?_
    · refine this.trans (le_of_eq ?_)
      rw [sub_zero, abs_of_pos Real.pi_pos]
      ring
    · intro t ht
      rw [Set.uIoc_of_le Real.pi_pos.le] at ht
      have ht' : t ∈ Set.Icc (0 : ℝ) Real.pi := ⟨ht.1.le, ht.2⟩
      have e1 := inProf_T E0 hx hN t
      have e2 := inProf_P E0 hx hN t
      have hs : ‖((Real.sin t : ℝ) : ℂ)‖ ≤ 1 := by
        rw [Complex.norm_real, Real.norm_eq_abs]; exact Real.abs_sin_le_one t
      rw [← sub_mul, show profT (inAl E0 x) (inBe E0 x) (N + 1) t * conj (profP ga de M t) +
        profP (inAl E0 x) (inBe E0 x) (N + 1) t * conj (profT ga de M t) -
        (inT E0 x t * conj (profP ga de M t) + inP E0 x t * conj (profT ga de M t)) =
        (profT (inAl E0 x) (inBe E0 x) (N + 1) t - inT E0 x t) * conj (profP ga de M t) +
        (profP (inAl E0 x) (inBe E0 x) (N + 1) t - inP E0 x t) * conj (profT ga de M t) by ring, norm_mul]
      have hb0 : 0 ≤ ‖E0‖ * pwBound (N + 1) x := mul_nonneg (norm_nonneg _) (pwBound_nonneg _ _)
      have hm : ‖(profT (inAl E0 x) (inBe E0 x) (N + 1) t - inT E0 x t) * conj (profP ga de M t) +
        (profP (inAl E0 x) (inBe E0 x) (N + 1) t - inP E0 x t) * conj (profT ga de M t)‖ ≤
          ‖E0‖ * pwBound (N + 1) x * (C2 + C1) := by
        refine (norm_add_le _ _).trans ?_
        rw [norm_mul, norm_mul, RCLike.norm_conj, RCLike.norm_conj, mul_add]
        exact add_le_add (mul_le_mul e1 (h2 t ht') (norm_nonneg _) hb0) (mul_le_mul e2 (h1 t ht') (norm_nonneg _) hb0)
      exact (mul_le_mul hm hs (norm_nonneg _) ((norm_nonneg _).trans hm)).trans_eq (mul_one _)
  refine tendsto_nhds_unique hlim (tendsto_const_nhds.congr' ?_)
  filter_upwards [eventually_ge_atTop M] with N hN
  exact (fluxForm_prof _ _ _ _ hN).symm

/-- The plane wave alone carries no net power through a closed surface. -/
theorem fluxForm_in_in (E0 : ℂ) (x : ℝ) : fluxForm (inT E0 x) (inP E0 x) (inT E0 x) (inP E0 x) = 0 := by
  have e : ∀ t : ℝ, (inT E0 x t * conj (inP E0 x t) + inP E0 x t * conj (inT E0 x t)) * ((Real.sin t : ℝ) : ℂ) =
      (‖E0‖ ^ 2 : ℝ) * ((2 * Real.sin t * Real.cos t : ℝ) : ℂ) := by
    intro t
    have h1 : exp (I * (Real.cos t : ℝ) * (x : ℂ)) * conj (exp (I * (Real.cos t : ℝ) * (x : ℂ))) = 1 := by
      rw [← Complex.exp_conj, ← Complex.exp_add]
      simp only [map_mul, conj_I, conj_ofReal]
      rw [show I * (Real.cos t : ℝ) * (x : ℂ) + -I * (Real.cos t : ℝ) * (x : ℂ) = 0 by ring, Complex.exp_zero]
    have h2 : E0 * conj E0 = (‖E0‖ ^ 2 : ℝ) := by rw [mul_conj, normSq_eq_norm_sq]
    simp only [inT, inP, map_mul, conj_ofReal]
    rw [← h2]
    push_cast
    push_cast at h1
    linear_combination (2 * E0 * conj E0 * Complex.cos t * Complex.sin t) * h1
  unfold fluxForm
  simp only [e]
  rw [intervalIntegral.integral_const_mul, intervalIntegral.integral_ofReal]
  have : ∫ t in (0 : ℝ)..Real.pi, 2 * Real.sin t * Real.cos t = 0 := by
    simp only [mul_assoc]
    rw [intervalIntegral.integral_const_mul, integral_sin_mul_cos₁]
    simp
  rw [this]
  simp

/-! ## One channel -/

theorem angNorm_En (E0 : ℂ) (i : ℕ) : angNorm i * ‖EnCoef E0 (i + 1)‖ ^ 2 = 2 * (2 * (i : ℝ) + 3) * ‖E0‖ ^ 2 := by
  have e : EnCoef E0 (i + 1) = I ^ (i + 1) * E0 * (((2 * (i : ℝ) + 3) / (((i : ℝ) + 1) * ((i : ℝ) + 2)) : ℝ) : ℂ) := by
    unfold EnCoef
    push_cast
    rw [show (2 * ((i : ℂ) + 1) + 1) = 2 * (i : ℂ) + 3 by ring, show ((i : ℂ) + 1 + 1) = (i : ℂ) + 2 by ring]
    ring
  have h1 : (0 : ℝ) < (i : ℝ) + 1 := by positivity
  have h2 : (0 : ℝ) < (i : ℝ) + 2 := by positivity
  have h3 : (0 : ℝ) < 2 * (i : ℝ) + 3 := by positivity
  rw [e, norm_mul, norm_mul, norm_pow, norm_I, one_pow, one_mul, Complex.norm_real, Real.norm_of_nonneg (by positivity), angNorm]
  field_simp

theorem zeta_flux (n : ℕ) {x : ℝ} (hx : x ≠ 0) : (conj (ricZeta n (x : ℂ)) * deriv (ricZeta n) (x : ℂ)).im = 1 := by
  have hz : (x : ℂ) ≠ 0 := by exact_mod_cast hx
  have w := ric_wronskian n hz
  have c1 := ricPsi_conj n hx
  have c2 := dricPsi_conj n hx
  have c3 := ricZeta_conj n hx
  have c4 := dricZeta_conj n hx
  set P := ricPsi n (x : ℂ)
  set P' := deriv (ricPsi n) (x : ℂ)
  set Z := ricZeta n (x : ℂ)
  set Z' := deriv (ricZeta n) (x : ℂ)
  have p0 : P.im = 0 := by have := congrArg im c1; simp at this; linarith
  have p1 : P'.im = 0 := by have := congrArg im c2; simp at this; linarith
  have z0 : Z.re = P.re := by have := congrArg re c3; simp at this; linarith
  have z1 : Z'.re = P'.re := by have := congrArg re c4; simp at this; linarith
  have wi := congrArg im w
  simp [p0, p1, z0, z1] at wi
  simp [z0, z1]
  linarith

private theorem quad_re (En : ℂ) (x : ℝ) (u v : ℂ) :
    ((-(En * I * (u / x))) * conj (En * (v / x))).re = ‖En‖ ^ 2 / x ^ 2 * (conj v * u).im := by
  have h2 : En * conj En = (‖En‖ ^ 2 : ℝ) := by rw [mul_conj, normSq_eq_norm_sq]
  rw [show (-(En * I * (u / x))) * conj (En * (v / x)) = ((‖En‖ ^ 2 / x ^ 2 : ℝ) : ℂ) * (-(I * (conj v * u))) by
    simp only [map_mul, map_div₀, conj_ofReal]
    rw [show -(En * I * (u / x)) * (conj En * (conj v / x)) = -(I * (conj v * u)) * (En * conj En) / (x : ℂ) ^ 2 by ring, h2]
    push_cast
    ring, re_ofReal_mul]
  congr 1
  simp

theorem channel_sca (E0 : ℂ) (c : List ℂ) {x : ℝ} (hx : x ≠ 0) (i : ℕ) :
    (scAl E0 c x i * conj (scBe E0 c x i)).re * angNorm i = 2 * (2 * (i : ℝ) + 3) * ‖E0‖ ^ 2 / x ^ 2 * ‖c.getD i 0‖ ^ 2 := by
  have h := quad_re (EnCoef E0 (i + 1) * c.getD i 0) x (deriv (ricZeta (i + 1)) x) (ricZeta (i + 1) x)
  have e : scAl E0 c x i * conj (scBe E0 c x i) = (-(EnCoef E0 (i + 1) * c.getD i 0 * I * (deriv (ricZeta (i + 1)) x / x))) *
      conj (EnCoef E0 (i + 1) * c.getD i 0 * (ricZeta (i + 1) x / x)) := by
    simp only [scAl, scBe, map_neg]
    ring
  rw [e, h, zeta_flux _ hx, norm_mul]
  have := angNorm_En E0 i
  linear_combination (‖c.getD i 0‖ ^ 2 / x ^ 2) * this

theorem channel_tot (E0 : ℂ) (c : List ℂ) {x : ℝ} (hx : x ≠ 0) (i : ℕ) :
    (inAl E0 x i * conj (scBe E0 c x i) + inBe E0 x i * conj (scAl E0 c x i) + scAl E0 c x i * conj (scBe E0 c x i)).re * angNorm i =
      2 * (2 * (i : ℝ) + 3) * ‖E0‖ ^ 2 / x ^ 2 * (‖c.getD i 0‖ ^ 2 - (c.getD i 0).re) := by
  have h := quad_re (EnCoef E0 (i + 1)) x ((⟨1, c.getD i 0⟩ : Wave).der (i + 1) x) ((⟨1, c.getD i 0⟩ : Wave).val (i + 1) x)
  have h0 := quad_re (EnCoef E0 (i + 1)) x ((⟨1, 0⟩ : Wave).der (i + 1) x) ((⟨1, 0⟩ : Wave).val (i + 1) x)
  rw [host_flux _ _ hx] at h h0
  have e1 : -(EnCoef E0 (i + 1) * I * ((⟨1, c.getD i 0⟩ : Wave).der (i + 1) x / x)) = inAl E0 x i + scAl E0 c x i := by
    simp only [Wave.der, inAl, scAl]; ring
  have e2 : EnCoef E0 (i + 1) * ((⟨1, c.getD i 0⟩ : Wave).val (i + 1) x / x) = inBe E0 x i + scBe E0 c x i := by
    simp only [Wave.val, inBe, scBe]; ring
  have e3 : -(EnCoef E0 (i + 1) * I * ((⟨1, 0⟩ : Wave).der (i + 1) x / x)) = inAl E0 x i := by
    simp only [Wave.der, inAl]; ring
  have e4 : EnCoef E0 (i + 1) * ((⟨1, 0⟩ : Wave).val (i + 1) x / x) = inBe E0 x i := by
    simp only [Wave.val, inBe]; ring
  rw [e1, e2] at h
  rw [e3, e4] at h0
  have e : (inAl E0 x i * conj (scBe E0 c x i) + inBe E0 x i * conj (scAl E0 c x i) + scAl E0 c x i * conj (scBe E0 c x i)).re =
      ((inAl E0 x i + scAl E0 c x i) * conj (inBe E0 x i + scBe E0 c x i)).re - (inAl E0 x i * conj (inBe E0 x i)).re := by
    simp only [map_add, add_re, mul_re, conj_re, conj_im, add_im]
    ring
  rw [e, h, h0]
  have := angNorm_En E0 i
  simp only [norm_zero, zero_re]
  linear_combination ((‖c.getD i 0‖ ^ 2 - (c.getD i 0).re) / x ^ 2) * this

end MieDiff
