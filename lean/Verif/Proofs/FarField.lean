import Verif.Proofs.PlaneWave
import Verif.Proofs.Decay
import Verif.Props.NearBatch

/-!
# Outgoing waves at large distance

`zeta_n(z) = (-i)^(n+1) e^(iz) (1 + O(1/z))` on the positive real axis, and what follows for one order of the scattered
field.
-/

namespace MieDiff

open Complex Spec

/-- `zeta_n` and its derivative differ from `(-i)^(n+1) e^(iz)` and `(-i)^n e^(iz)` by at most `C/z`. -/
theorem ricZeta_far (n : ℕ) : ∃ C : ℝ, 0 ≤ C ∧ ∀ z : ℝ, 1 ≤ z →
    ‖ricZeta n z - (-I) ^ (n + 1) * exp (z * I)‖ ≤ C / z ∧ ‖deriv (ricZeta n) z - (-I) ^ n * exp (z * I)‖ ≤ C / z := by
  induction n with
  | zero =>
    refine ⟨0, le_rfl, fun z hz => ?_⟩
    have h0 : (z : ℂ) ≠ 0 := by exact_mod_cast (by linarith : z ≠ 0)
    rw [deriv_ricZeta_raise 0 h0, ricZeta_one _ h0, ricZeta_zero_exp _ h0]
    have e : ((0 : ℕ) + 1 : ℂ) / z * (-I * exp (z * I)) - (1 / (z : ℂ) - I) * (-I * exp (z * I)) - (-I) ^ 0 * exp (z * I) = 0 := by
      push_cast
      linear_combination (-exp (z * I)) * I_mul_I
    rw [e]
    simp
  | succ n ih =>
    obtain ⟨C, hC, h⟩ := ih
    set D : ℝ := C + (n + 1) * (1 + C) with hD
    refine ⟨C + (n + 1) * (1 + C) + (n + 1) * (1 + D), by positivity, fun z hz => ?_⟩
    have hz0 : 0 < z := by linarith
    have h0 : (z : ℂ) ≠ 0 := by exact_mod_cast hz0.ne'
    obtain ⟨h1, h2⟩ := h z hz
    have hu : ∀ k : ℕ, ‖(-I) ^ k * exp (z * I)‖ = 1 := fun k => by
      rw [norm_mul, norm_pow, norm_neg, norm_I, one_pow, one_mul, Complex.norm_exp]; simp
    have hn1 : ‖((n : ℂ) + 1) / z‖ = (n + 1) / z := by
      rw [norm_div, norm_nat_add_one, Complex.norm_real, Real.norm_of_nonneg hz0.le]
    have hle : ∀ {K : ℝ}, 0 ≤ K → K / z ≤ K := fun hK => div_le_self hK hz
    have b1 : ‖ricZeta n z‖ ≤ 1 + C := by
      calc ‖ricZeta n z‖ = ‖(ricZeta n z - (-I) ^ (n + 1) * exp (z * I)) + (-I) ^ (n + 1) * exp (z * I)‖ := by rw [sub_add_cancel]
        _ ≤ C / z + 1 := (norm_add_le _ _).trans (add_le_add h1 (hu _).le)
        _ ≤ 1 + C := by have := hle hC; linarith
    have e1 : ricZeta (n + 1) z = ((n : ℂ) + 1) / z * ricZeta n z - deriv (ricZeta n) z := by
      rw [deriv_ricZeta_raise n h0]; ring
    have g1 : ‖ricZeta (n + 1) z - (-I) ^ (n + 1 + 1) * exp (z * I)‖ ≤ D / z := by
      have e : ricZeta (n + 1) z - (-I) ^ (n + 1 + 1) * exp (z * I) =
          ((n : ℂ) + 1) / z * ricZeta n z - (deriv (ricZeta n) z - (-I) ^ n * exp (z * I)) := by
        rw [e1]
        have : (-I) ^ (n + 1 + 1) = -(-I) ^ n := by rw [pow_succ, pow_succ]; linear_combination (-I) ^ n * I_mul_I
        rw [this]; ring
      rw [e]
      refine (norm_sub_le _ _).trans ?_
      rw [norm_mul, hn1]
      have : (n + 1) / z * ‖ricZeta n z‖ ≤ (n + 1) / z * (1 + C) := mul_le_mul_of_nonneg_left b1 (by positivity)
      have e2 : D / z = C / z + (n + 1) / z * (1 + C) := by rw [hD]; ring
      linarith
    have hD0 : 0 ≤ D := by positivity
    have b2 : ‖ricZeta (n + 1) z‖ ≤ 1 + D := by
      calc ‖ricZeta (n + 1) z‖ = ‖(ricZeta (n + 1) z - (-I) ^ (n + 1 + 1) * exp (z * I)) + (-I) ^ (n + 1 + 1) * exp (z * I)‖ := by
            rw [sub_add_cancel]
        _ ≤ D / z + 1 := (norm_add_le _ _).trans (add_le_add g1 (hu _).le)
        _ ≤ 1 + D := by have := hle hD0; linarith
    refine ⟨g1.trans ?_, ?_⟩
    · gcongr
      have : 0 ≤ ((n : ℝ) + 1) * (1 + D) := by positivity
      linarith
    · rw [deriv_ricZeta_lower n h0]
      have e : ricZeta n z - ((n : ℂ) + 1) / z * ricZeta (n + 1) z - (-I) ^ (n + 1) * exp (z * I) =
          (ricZeta n z - (-I) ^ (n + 1) * exp (z * I)) - ((n : ℂ) + 1) / z * ricZeta (n + 1) z := by ring
      rw [e]
      refine (norm_sub_le _ _).trans ?_
      rw [norm_mul, hn1]
      have : (n + 1) / z * ‖ricZeta (n + 1) z‖ ≤ (n + 1) / z * (1 + D) := mul_le_mul_of_nonneg_left b2 (by positivity)
      have e2 : (C + (n + 1) * (1 + C) + (n + 1) * (1 + D)) / z = C / z + (n + 1) * (1 + C) / z + (n + 1) / z * (1 + D) := by ring
      have : 0 ≤ ((n : ℝ) + 1) * (1 + C) / z := by positivity
      linarith

/-- Amplitude factor that removes the outgoing spherical wave `e^(ix)/x`. -/
noncomputable def outPhase (x : ℝ) : ℂ := x * exp (-(x * I))

theorem norm_outPhase {x : ℝ} (hx : 0 ≤ x) : ‖outPhase x‖ = x := by
  unfold outPhase
  rw [norm_mul, Complex.norm_exp, Complex.norm_real, Real.norm_of_nonneg hx]
  simp

private theorem shift_far {u L : ℂ} {C x eps : ℝ} (hx : 1 ≤ x) (he : 0 ≤ eps) (hL : ‖L‖ = 1)
    (h : ‖u - L * exp ((x + eps : ℝ) * I)‖ ≤ C / (x + eps)) :
    ‖outPhase x * (u / ((x : ℂ) + eps)) - L * exp (eps * I)‖ ≤ (C + eps) / x := by
  have hp : 0 < x + eps := by linarith
  have hx0 : 0 < x := by linarith
  have hr : ((x : ℂ) + eps) ≠ 0 := by exact_mod_cast hp.ne'
  have hex : exp (-(x * I)) * exp ((x + eps : ℝ) * I) = exp (eps * I) := by
    rw [← Complex.exp_add]; congr 1; push_cast; ring
  have e : outPhase x * (u / ((x : ℂ) + eps)) - L * exp (eps * I) =
      (x / ((x : ℂ) + eps)) * (exp (-(x * I)) * (u - L * exp ((x + eps : ℝ) * I))) - L * exp (eps * I) * (eps / ((x : ℂ) + eps)) := by
    unfold outPhase
    rw [mul_sub, ← mul_assoc (exp _) L, mul_comm (exp _) L, mul_assoc L, hex]
    field_simp
    ring
  have n1 : ‖(x : ℂ) / ((x : ℂ) + eps)‖ ≤ 1 := by
    rw [← ofReal_add, norm_div, Complex.norm_real, Complex.norm_real, Real.norm_of_nonneg hx0.le, Real.norm_of_nonneg hp.le,
      div_le_one hp]
    linarith
  have n2 : ‖(eps : ℂ) / ((x : ℂ) + eps)‖ ≤ eps / x := by
    rw [← ofReal_add, norm_div, Complex.norm_real, Complex.norm_real, Real.norm_of_nonneg he, Real.norm_of_nonneg hp.le]
    exact div_le_div_of_nonneg_left he hx0 (by linarith)
  have n3 : ‖exp (-((x : ℂ) * I))‖ = 1 := by rw [Complex.norm_exp]; simp
  have n4 : ‖exp ((eps : ℂ) * I)‖ = 1 := by rw [Complex.norm_exp]; simp
  have hC : 0 ≤ C := by
    have := (norm_nonneg _).trans h
    rcases div_nonneg_iff.1 this with h | h
    · exact h.1
    · linarith
  rw [e]
  refine (norm_sub_le _ _).trans ?_
  rw [norm_mul, norm_mul, norm_mul, norm_mul, n3, n4, hL, one_mul, one_mul, one_mul, add_div]
  refine add_le_add ?_ n2
  calc _ ≤ 1 * (C / (x + eps)) := mul_le_mul n1 h (norm_nonneg _) zero_le_one
    _ ≤ C / x := by rw [one_mul]; exact div_le_div_of_nonneg_left hC hx0 (by linarith)

/-- The radial functions of one order of the scattered field, freed from the outgoing wave. -/
theorem radial_far (n : ℕ) {eps : ℝ} (he : 0 ≤ eps) : ∃ C : ℝ, 0 ≤ C ∧ ∀ x : ℝ, 1 ≤ x →
    let rho : ℂ := x + eps
    ‖outPhase x * (ricZeta n rho / rho) - (-I) ^ (n + 1) * exp (eps * I)‖ ≤ C / x ∧
    ‖outPhase x * (deriv (ricZeta n) rho / rho) - (-I) ^ n * exp (eps * I)‖ ≤ C / x ∧
    ‖outPhase x * (ricZeta n rho / rho / rho)‖ ≤ C / x := by
  obtain ⟨C, hC, h⟩ := ricZeta_far n
  refine ⟨1 + (C + eps), by positivity, fun x hx => ?_⟩
  intro rho
  have hu : ∀ k : ℕ, ‖(-I) ^ k‖ = 1 := fun k => by rw [norm_pow, norm_neg, norm_I, one_pow]
  obtain ⟨h1, h2⟩ := h (x + eps) (by linarith)
  have hr : ((x + eps : ℝ) : ℂ) = rho := by push_cast; rfl
  have s1 := shift_far hx he (hu (n + 1)) h1
  have s2 := shift_far hx he (hu n) h2
  rw [hr] at s1 s2
  have hx0 : 0 < x := by linarith
  have hle : (C + eps) / x ≤ (1 + (C + eps)) / x := div_le_div_of_nonneg_right (by linarith) hx0.le
  refine ⟨s1.trans hle, s2.trans hle, ?_⟩
  have hn : ‖rho‖ = x + eps := by rw [← hr, Complex.norm_real, Real.norm_of_nonneg (by linarith)]
  have n4 : ‖exp ((eps : ℂ) * I)‖ = 1 := by rw [Complex.norm_exp]; simp
  have b : ‖outPhase x * (ricZeta n rho / rho)‖ ≤ 1 + (C + eps) := by
    calc _ = ‖(outPhase x * (ricZeta n rho / rho) - (-I) ^ (n + 1) * exp (eps * I)) + (-I) ^ (n + 1) * exp (eps * I)‖ := by
          rw [sub_add_cancel]
      _ ≤ (C + eps) / x + 1 := (norm_add_le _ _).trans (add_le_add s1 (by rw [norm_mul, hu, n4, one_mul]))
      _ ≤ 1 + (C + eps) := by
          have := div_le_self (by positivity : 0 ≤ C + eps) hx
          linarith
  rw [← mul_div_assoc, norm_div, hn]
  exact div_le_div₀ (by positivity) b hx0 (by linarith)

private theorem two_terms {u1 u2 d1 d2 : ℂ} {U1 U2 D : ℝ} (h1 : ‖u1‖ ≤ U1) (h2 : ‖u2‖ ≤ U2) (g1 : ‖d1‖ ≤ D) (g2 : ‖d2‖ ≤ D) :
    ‖u1 * d1 + u2 * d2‖ ≤ (U1 + U2) * D := by
  refine (norm_add_le _ _).trans ?_
  rw [norm_mul, norm_mul, add_mul]
  exact add_le_add (mul_le_mul h1 g1 (norm_nonneg _) ((norm_nonneg _).trans h1))
    (mul_le_mul h2 g2 (norm_nonneg _) ((norm_nonneg _).trans h2))

private theorem coef_le {e c : ℂ} {s : ℝ} {y Y : ℝ} (hs : |s| ≤ 1) (hy : |y| ≤ Y) :
    ‖e * (c * ((s : ℂ) * (y : ℂ)))‖ ≤ ‖e‖ * (‖c‖ * Y) := by
  rw [norm_mul, norm_mul, norm_mul, Complex.norm_real, Complex.norm_real, Real.norm_eq_abs, Real.norm_eq_abs]
  have : |s| * |y| ≤ Y := by
    have := mul_le_mul hs hy (abs_nonneg _) zero_le_one
    linarith
  gcongr

set_option maxHeartbeats 1000000 in
/-- One order of the scattered field at large distance. -/
theorem order_far (E0 a b m : ℂ) (i : ℕ) {eps : ℝ} (he : 0 ≤ eps) : ∃ K : ℝ, 0 ≤ K ∧ ∀ x : ℝ, 1 ≤ x → ∀ t p : ℝ,
    let f := outField (EnCoef E0 (i + 1)) a b m (vshExact (i + 1) t p (x + eps) (ricZeta (i + 1)))
    let P : ℂ := (angPi (i + 1) (Real.cos t) : ℝ)
    let T : ℂ := (angTau (i + 1) t : ℝ)
    let S1 := wgt i * (a * P + b * T)
    let S2 := wgt i * (a * T + b * P)
    let cp : ℂ := (Real.cos p : ℝ)
    let sp : ℂ := (Real.sin p : ℝ)
    let q := exp (eps * I)
    let w := outPhase x
    ‖w * f.1.c0‖ ≤ K / x ∧ ‖w * f.1.c1 - I * E0 * cp * S2 * q‖ ≤ K / x ∧ ‖w * f.1.c2 - -(I * E0 * sp * S1 * q)‖ ≤ K / x ∧
    ‖w * f.2.c0‖ ≤ K / x ∧ ‖w * f.2.c1 - I * m * E0 * sp * S1 * q‖ ≤ K / x ∧
    ‖w * f.2.c2 - I * m * E0 * cp * S2 * q‖ ≤ K / x := by
  obtain ⟨C, hC, h⟩ := radial_far (i + 1) he
  set n : ℝ := (i : ℝ) + 1 with hn
  set Y : ℝ := n * (n + 1) * (2 * n + 1) with hY
  have hn0 : 1 ≤ n := by rw [hn]; linarith [Nat.cast_nonneg (α := ℝ) i]
  set e := EnCoef E0 (i + 1) with hee
  set K : ℝ := (1 + ‖m‖) * ‖e‖ * ((‖a‖ + ‖b‖) * (n * (n + 1) * Y)) * C with hK
  have hY0 : 0 ≤ Y := by positivity
  refine ⟨K, by positivity, fun x hx t p => ?_⟩
  intro f P T S1 S2 cp sp q w
  obtain ⟨r1, r2, r3⟩ := h x hx
  have hx0 : 0 < x := by linarith
  have hP : |angPi (i + 1) (Real.cos t)| ≤ Y := by
    have := abs_angPi_le_poly (i + 1) (Real.abs_cos_le_one t)
    push_cast at this
    rw [← hn] at this
    have : n * (n + 1) / 2 ≤ Y := by rw [hY]; nlinarith
    linarith
  have hT : |angTau (i + 1) t| ≤ Y := by
    have := abs_angTau_le_poly i t
    have e2 : ((i : ℝ) + 1) * (i + 2) * (2 * i + 1) / 2 ≤ Y := by
      rw [hY, hn]
      have : (0 : ℝ) ≤ i := Nat.cast_nonneg i
      nlinarith [mul_nonneg this this, mul_nonneg (mul_nonneg this this) this]
    linarith
  have hst : I ^ (i + 1) * (-I) ^ (i + 1) = 1 := by
    rw [← mul_pow]; simp
  have hp' : (-I) ^ (i + 1 + 1) = (-I) ^ (i + 1) * -I := pow_succ _ _
  have hE : e = I ^ (i + 1) * E0 * wgt i := by
    rw [hee]; unfold EnCoef wgt; push_cast; ring
  set rho : ℂ := (x : ℂ) + eps with hrho
  set dz := w * (ricZeta (i + 1) rho / rho) - (-I) ^ (i + 1 + 1) * q with hdz
  set dd := w * (deriv (ricZeta (i + 1)) rho / rho) - (-I) ^ (i + 1) * q with hdd
  have hcp := Real.abs_cos_le_one p
  have hsp := Real.abs_sin_le_one p
  have n2 : ‖((i + 1 : ℕ) : ℂ) * (((i + 1 : ℕ) : ℂ) + 1)‖ = n * (n + 1) := by
    rw [norm_mul, norm_nat_add_one]
    push_cast
    rw [norm_nat_add_one]
  have hnn : 1 ≤ n * (n + 1) := by nlinarith
  have YK : Y ≤ n * (n + 1) * Y := by nlinarith
  have close : ∀ {z : ℂ} {U V : ℝ}, ‖z‖ ≤ (‖e‖ * (‖a‖ * U) + ‖e‖ * (‖b‖ * V)) * (C / x) → U ≤ n * (n + 1) * Y →
      V ≤ n * (n + 1) * Y → ‖z‖ ≤ K / x ∧ ‖m * z‖ ≤ K / x := by
    intro z U V hz hU hV
    have h1 : ‖z‖ ≤ ‖e‖ * ((‖a‖ + ‖b‖) * (n * (n + 1) * Y)) * (C / x) := by
      refine hz.trans (mul_le_mul_of_nonneg_right ?_ (by positivity))
      rw [← mul_add, add_mul]
      gcongr
    have h2 : K / x = (1 + ‖m‖) * (‖e‖ * ((‖a‖ + ‖b‖) * (n * (n + 1) * Y)) * (C / x)) := by rw [hK]; ring
    have h3 : 0 ≤ ‖e‖ * ((‖a‖ + ‖b‖) * (n * (n + 1) * Y)) * (C / x) := by positivity
    have hm := norm_nonneg m
    refine ⟨?_, ?_⟩
    · rw [h2]; nlinarith
    · rw [norm_mul, h2]
      have := mul_le_mul_of_nonneg_left h1 hm
      nlinarith
  have rad : ∀ (s : ℝ) (c : ℂ), |s| ≤ 1 → ‖e * (I * c * ((s : ℂ) * ((i + 1 : ℕ) : ℂ) * (((i + 1 : ℕ) : ℂ) + 1) * (Real.sin t : ℝ) * P)) *
      (w * (ricZeta (i + 1) rho / rho / rho))‖ ≤ ‖e‖ * (‖c‖ * (n * (n + 1) * Y)) * (C / x) := by
    intro s c hs
    rw [norm_mul]
    refine mul_le_mul ?_ r3 (norm_nonneg _) (by positivity)
    rw [norm_mul, norm_mul, norm_mul, norm_I, one_mul]
    gcongr
    have e1 : (s : ℂ) * ((i + 1 : ℕ) : ℂ) * (((i + 1 : ℕ) : ℂ) + 1) * (Real.sin t : ℝ) * P =
        (((i + 1 : ℕ) : ℂ) * (((i + 1 : ℕ) : ℂ) + 1)) * ((s * Real.sin t * angPi (i + 1) (Real.cos t) : ℝ) : ℂ) := by
      simp only [P]; push_cast; ring
    rw [e1, norm_mul, n2, Complex.norm_real, Real.norm_eq_abs, abs_mul, abs_mul]
    have hsin := Real.abs_sin_le_one t
    have : |s| * |Real.sin t| ≤ 1 := by
      have := mul_le_mul hs hsin (abs_nonneg _) zero_le_one
      linarith
    have : |s| * |Real.sin t| * |angPi (i + 1) (Real.cos t)| ≤ Y := by
      have := mul_le_mul this hP (abs_nonneg _) zero_le_one
      linarith
    gcongr
  have En : ∀ (s : ℝ) (y1 y2 : ℝ), |s| ≤ 1 → |y1| ≤ Y → |y2| ≤ Y → ∀ (u v : ℂ), ‖u‖ = ‖a‖ → ‖v‖ = ‖b‖ → ∀ (d1 d2 : ℂ), ‖d1‖ ≤ C / x → ‖d2‖ ≤ C / x →
      ‖e * (u * ((s : ℂ) * (y1 : ℂ))) * d1 + e * (v * ((s : ℂ) * (y2 : ℂ))) * d2‖ ≤
        (‖e‖ * (‖a‖ * Y) + ‖e‖ * (‖b‖ * Y)) * (C / x) := by
    intro s y1 y2 hs h1 h2 u v hu hv d1 d2 g1 g2
    rw [← hu, ← hv]
    exact two_terms (coef_le hs h1) (coef_le hs h2) g1 g2
  have hIa : ‖I * a‖ = ‖a‖ := by rw [norm_mul, norm_I, one_mul]
  have hIb : ‖I * b‖ = ‖b‖ := by rw [norm_mul, norm_I, one_mul]
  have hnb : ‖-b‖ = ‖b‖ := norm_neg _
  have hna : ‖-a‖ = ‖a‖ := norm_neg _
  have hnI : ‖-(I * a)‖ = ‖a‖ := by rw [norm_neg, hIa]
  refine ⟨?_, ?_, ?_, ?_, ?_, ?_⟩
  · have h1 := rad (Real.cos p) a hcp
    refine (close (U := n * (n + 1) * Y) (V := 0) (z := w * f.1.c0) ?_ le_rfl (by positivity)).1
    rw [mul_zero, mul_zero, add_zero]
    refine le_trans (le_of_eq (congrArg norm ?_)) h1
    simp only [f, outField, vshExact, vshOrder, V3.smul, V3.add, P]
    ring
  · have h1 := En (Real.cos p) _ _ hcp hT hP (I * a) (-b) hIa hnb dd dz r2 r1
    refine (close ?_ YK YK).1
    refine le_trans (le_of_eq (congrArg norm ?_)) h1
    simp only [f, outField, vshExact, vshOrder, V3.smul, V3.add, S2, cp, P, T, hdd, hdz, hp', ← hrho]
    rw [hE]
    generalize (-I) ^ (i + 1) = u at hst ⊢
    generalize I ^ (i + 1) = s at hst ⊢
    linear_combination ((I * E0 * (Real.cos p : ℝ) * wgt i * (a * (angTau (i + 1) t : ℝ) + b * (angPi (i + 1) (Real.cos t) : ℝ)) * q)) * hst
  · have h1 := En (Real.sin p) _ _ hsp hP hT (-(I * a)) b hnI rfl dd dz r2 r1
    refine (close ?_ YK YK).1
    refine le_trans (le_of_eq (congrArg norm ?_)) h1
    simp only [f, outField, vshExact, vshOrder, V3.smul, V3.add, S1, sp, P, T, hdd, hdz, hp', ← hrho]
    rw [hE]
    generalize (-I) ^ (i + 1) = u at hst ⊢
    generalize I ^ (i + 1) = s at hst ⊢
    linear_combination (-(I * E0 * (Real.sin p : ℝ) * wgt i * (a * (angPi (i + 1) (Real.cos t) : ℝ) + b * (angTau (i + 1) t : ℝ)) * q)) * hst
  · have h1 := rad (Real.sin p) b hsp
    have e2 : w * f.2.c0 = m * (e * (I * b * (((Real.sin p : ℝ) : ℂ) * ((i + 1 : ℕ) : ℂ) * (((i + 1 : ℕ) : ℂ) + 1) * (Real.sin t : ℝ) * P)) *
        (w * (ricZeta (i + 1) rho / rho / rho))) := by
      simp only [f, outField, vshExact, vshOrder, V3.smul, V3.add, P]
      ring
    rw [e2]
    refine (close (U := 0) (V := n * (n + 1) * Y) ?_ (by positivity) le_rfl).2
    rw [mul_zero, mul_zero, zero_add]
    exact h1
  · have h1 := En (Real.sin p) _ _ hsp hP hT (-a) (I * b) hna hIb dz dd r1 r2
    have e2 : w * f.2.c1 - I * m * E0 * sp * S1 * q = m * (e * (-a * (((Real.sin p : ℝ) : ℂ) * (angPi (i + 1) (Real.cos t) : ℝ))) * dz +
        e * (I * b * (((Real.sin p : ℝ) : ℂ) * (angTau (i + 1) t : ℝ))) * dd) := by
      simp only [f, outField, vshExact, vshOrder, V3.smul, V3.add, S1, sp, P, T, hdd, hdz, hp', ← hrho]
      rw [hE]
      generalize (-I) ^ (i + 1) = u at hst ⊢
      generalize I ^ (i + 1) = s at hst ⊢
      linear_combination ((I * m * E0 * (Real.sin p : ℝ) * wgt i * (a * (angPi (i + 1) (Real.cos t) : ℝ) + b * (angTau (i + 1) t : ℝ)) * q)) * hst
    rw [e2]
    exact (close h1 YK YK).2
  · have h1 := En (Real.cos p) _ _ hcp hT hP (-a) (I * b) hna hIb dz dd r1 r2
    have e2 : w * f.2.c2 - I * m * E0 * cp * S2 * q = m * (e * (-a * (((Real.cos p : ℝ) : ℂ) * (angTau (i + 1) t : ℝ))) * dz +
        e * (I * b * (((Real.cos p : ℝ) : ℂ) * (angPi (i + 1) (Real.cos t) : ℝ))) * dd) := by
      simp only [f, outField, vshExact, vshOrder, V3.smul, V3.add, S2, cp, P, T, hdd, hdz, hp', ← hrho]
      rw [hE]
      generalize (-I) ^ (i + 1) = u at hst ⊢
      generalize I ^ (i + 1) = s at hst ⊢
      linear_combination ((I * m * E0 * (Real.cos p : ℝ) * wgt i * (a * (angTau (i + 1) t : ℝ) + b * (angPi (i + 1) (Real.cos t) : ℝ)) * q)) * hst
    rw [e2]
    exact (close h1 YK YK).2

end MieDiff
