import Verif.Model.RoundedVsh
import Verif.Proofs.Double
import Verif.Proofs.TailBound
import Verif.Props.Rounded
import Verif.Proofs.NearPena
import Verif.Proofs.RoundedCross

/-!
# C88: cancellation in the Riccati-Bessel functions at small arguments

`pena_psi_zeta_n` computes `psi_1 = psi_0 (1/z - D_0)` (special.py:689).  For small `z` the two terms of the difference agree in
all but the last digits: `1/z` has size `1/z`, the difference size `z/3`.
-/

namespace MieDiff

open Complex Spec

section
variable {A : Arith} {u : ℝ}

theorem guard_large (hA : A.Within u) (hu : u ≤ 1 / 100) {v : ℂ} (h : 1 ≤ ‖v‖) : A.guard v = v := by
  unfold Arith.guard
  have h1 := (abs_le.1 (hA.abs v)).1
  have h2 : solverEps < 1 / 2 := by unfold solverEps; norm_num
  rw [if_neg (by push Not; nlinarith)]

/-- At a small real argument all values of the downward recurrence are real doubles. -/
theorem real_d1Down (hA : A.Within u) (hD : A.Double) (hu : u ≤ 1 / 100) {z : ℝ} (hz : 0 < z) (hz1 : z ≤ 1 / 10) (M : ℕ) :
    ∀ j ≤ M, ∃ r : ℝ, A.d1Down (z : ℂ) M j = r ∧ (1 ≤ j → IsDouble r) := by
  have hu0 := hA.nonneg
  have hzc : (z : ℂ) ≠ 0 := by exact_mod_cast hz.ne'
  have hnz : ‖(z : ℂ)‖ = z := by rw [norm_real, Real.norm_of_nonneg hz.le]
  intro j
  induction j with
  | zero => exact fun _ => ⟨0, by simp [Arith.d1Down], by omega⟩
  | succ j ih =>
    intro hj
    obtain ⟨x, hx, -⟩ := ih (by omega)
    obtain ⟨num, -, hnum⟩ := hD.div ((M - j : ℕ) : ℝ) z hz.ne'
    rw [ofReal_natCast] at hnum
    obtain ⟨d, -, hd⟩ := hD.add x num
    obtain ⟨p, hp⟩ : ∃ p : ℕ, M - j = p + 1 := ⟨M - j - 1, by omega⟩
    have hnum1 : ‖(num : ℂ) - ((p : ℂ) + 1) / z‖ ≤ u * (((p : ℝ) + 1) / z) := by
      have := hA.div ((M - j : ℕ) : ℂ) z hzc
      rw [hnum, hp] at this
      push_cast at this
      refine this.trans (le_of_eq ?_)
      rw [norm_natCast_div ((p : ℝ) + 1) (by positivity) _ _ (by push_cast; ring), hnz]
    have hxr : 0 ≤ x + 1 / 2 + 3 * u * (((p : ℝ) + 2) / z) - ((p : ℝ) + 2) / z ∨ x = 0 := by
      rcases Nat.eq_zero_or_pos j with rfl | hj0
      · right
        simp only [Arith.d1Down] at hx
        exact_mod_cast hx.symm
      · left
        have := Arith.d1_near hA hu0 hu hzc M (j - 1) (p + 1) (by omega) (by rw [hnz]; push_cast; nlinarith)
        rw [show M - (p + 1) = j by omega, hx, hnz] at this
        have e : (x : ℂ) - (((p + 1 : ℕ) : ℂ) + 1) / z = ((x - ((p : ℝ) + 2) / z : ℝ) : ℂ) := by push_cast; ring
        rw [e, norm_real] at this
        have h1 := (abs_le.1 this).1
        push_cast at h1
        have e2 : ((p : ℝ) + 1 + 1) / z = ((p : ℝ) + 2) / z := by ring
        rw [e2] at h1
        linarith
    have hs : 10 ≤ ((p : ℝ) + 1) / z := by
      rw [le_div_iff₀ hz]
      have : (0 : ℝ) ≤ p := by positivity
      linarith
    have hs2 : ((p : ℝ) + 1) / z ≤ ((p : ℝ) + 2) / z := by gcongr; norm_num
    have hnum2 : 9 ≤ num := by
      have e : (num : ℂ) - ((p : ℂ) + 1) / z = ((num - ((p : ℝ) + 1) / z : ℝ) : ℂ) := by push_cast; ring
      rw [e, norm_real] at hnum1
      have h1 := (abs_le.1 hnum1).1
      nlinarith
    have hsum : 9 ≤ x + num := by
      rcases hxr with h | h
      · have h4 : 3 * u * (((p : ℝ) + 2) / z) ≤ 3 / 100 * (((p : ℝ) + 2) / z) := by
          have : 0 ≤ ((p : ℝ) + 2) / z := by positivity
          nlinarith
        nlinarith
      · rw [h]; linarith
    have hdn : 1 ≤ ‖(d : ℂ)‖ := by
      have h1 := hA.add (x : ℂ) num
      rw [hd, ← ofReal_add, ← ofReal_sub, norm_real, norm_real, Real.norm_of_nonneg (by linarith : 0 ≤ x + num)] at h1
      have h2 := (abs_le.1 h1).1
      rw [norm_real, Real.norm_eq_abs]
      refine le_trans ?_ (le_abs_self d)
      nlinarith
    have hd0 : d ≠ 0 := by
      rintro rfl
      norm_num at hdn
    obtain ⟨q, -, hq⟩ := hD.div 1 d hd0
    obtain ⟨r, hr, hr'⟩ := hD.sub num q
    refine ⟨r, ?_, fun _ => hr⟩
    simp only [Arith.d1Down]
    rw [hx, hnum, hd, guard_large hA hu hdn]
    rw [ofReal_one] at hq
    rw [hq, hr']

theorem psi_one_small {z : ℝ} (hz : 0 < z) (h1 : z ≤ 1 / 10) : ‖ricPsi 1 (z : ℂ)‖ ≤ z ^ 2 / 3 := by
  have hc := psiR_closed (n := 1) hz (by norm_num; nlinarith)
  have e : (((2 * 1 + 1).doubleFactorial : ℕ) : ℝ) = 3 := by norm_num [Nat.doubleFactorial]
  rw [e] at hc
  have hex : Real.exp (-(z ^ 2 / (2 * ((1 : ℕ) : ℝ) + 3))) ≤ 1 := Real.exp_le_one_iff.2 (neg_nonpos.2 (by positivity))
  have h2 : psiR 1 z ^ 2 ≤ (z ^ 2 / 3) ^ 2 := by
    refine hc.trans ?_
    have : (0 : ℝ) ≤ (z ^ 2 / 3) ^ 2 := by positivity
    exact mul_le_of_le_one_right this hex
  rw [psiR_eq 1 hz, norm_real]
  exact abs_le_of_sq_le_sq h2 (by positivity)

/-- A value that is zero or large has relative error at least one with respect to a small one. -/
theorem far_of {a x : ℂ} {b : ℝ} (h : a = 0 ∨ b ≤ ‖a‖) (hx : ‖x‖ ≤ b / 2) : ‖x‖ ≤ ‖a - x‖ := by
  rcases h with rfl | h
  · simp
  · have := norm_sub_norm_le a x
    linarith

theorem within_zero {a b : ℂ} (h : ‖a - b‖ ≤ u * ‖b‖) (hb : b = 0) : a = 0 := by
  subst hb
  simpa using h

theorem within_lower {a b : ℂ} (h : ‖a - b‖ ≤ u * ‖b‖) : (1 - u) * ‖b‖ ≤ ‖a‖ := by
  have := norm_sub_norm_le b a
  rw [norm_sub_rev] at this
  linarith

/-- Two doubles of size at least `w` are equal or differ by `w / 2^53`. -/
theorem double_gap {q d w : ℝ} (hq : IsDouble q) (hd : IsDouble d) (hw : 0 < w) (hqw : w ≤ |q|) (hdw : w ≤ |d|) :
    q - d = 0 ∨ w / 2 ^ 53 ≤ |q - d| := by
  have h1 := Int.zpow_log_le_self (R := ℝ) (b := 2) (by norm_num) hw
  have h2 := Int.lt_zpow_succ_log_self (R := ℝ) (b := 2) (by norm_num) w
  push_cast at h1 h2
  set e := Int.log 2 w - 52 with he
  have h1' : (2 : ℝ) ^ (52 + e) ≤ w := by rw [show 52 + e = Int.log 2 w by omega]; exact h1
  have h2' : w < (2 : ℝ) ^ e * 2 ^ 53 := by
    rw [show Int.log 2 w + 1 = e + (53 : ℕ) by push_cast; omega, zpow_add₀ (by norm_num), zpow_natCast] at h2
    exact h2
  obtain ⟨k, hk⟩ := hq.grid (h1'.trans hqw)
  obtain ⟨l, hl⟩ := hd.grid (h1'.trans hdw)
  rcases eq_or_ne k l with rfl | hkl
  · left; rw [hk, hl]; ring
  · right
    have hs : (0 : ℝ) < (2 : ℝ) ^ e := by positivity
    have : (1 : ℝ) ≤ |(k : ℝ) - l| := by
      have := Int.one_le_abs (sub_ne_zero.2 hkl)
      exact_mod_cast this
    rw [hk, hl, ← sub_mul, abs_mul, abs_of_pos hs, div_le_iff₀ (by positivity)]
    nlinarith

theorem floor_of {S Q P : ℂ} {z s : ℝ} (hu : u ≤ 1 / 10 ^ 6) (hu0 : 0 ≤ u) (hz : 0 < z) (hz1 : z ≤ 1 / 1000) (hs : 0.99999 * z ≤ s) 
    (hS : (1 - u) * s ≤ ‖S‖) (hP : ‖P - S * Q‖ ≤ u * ‖S * Q‖) (hQ : Q = 0 ∨ (1 - u) * (0.999 / z / 2 ^ 53) ≤ ‖Q‖) :
    P = 0 ∨ 1.1e-16 ≤ ‖P‖ := by
  rcases hQ with h | h
  · left; exact within_zero hP (by rw [h, mul_zero])
  · right
    have h1 := within_lower hP
    rw [norm_mul] at h1
    have h2 : 0.9999 * z ≤ ‖S‖ := by
      refine le_trans ?_ hS
      have : 0.999999 * s ≤ (1 - u) * s := by
        apply mul_le_mul_of_nonneg_right (by norm_num at hu ⊢; linarith)
        nlinarith
      nlinarith
    have h3 : 0.998 / z / 2 ^ 53 ≤ ‖Q‖ := by
      refine le_trans ?_ h
      rw [div_div, div_div, ← mul_div_assoc]
      gcongr
      norm_num at hu ⊢; linarith
    have h4 : 0.9999 * z * (0.998 / z / 2 ^ 53) ≤ ‖S‖ * ‖Q‖ := by gcongr
    have h5 : 0.9999 * z * (0.998 / z / 2 ^ 53) = 0.9999 * 0.998 / 2 ^ 53 := by field_simp
    rw [h5] at h4
    refine le_trans ?_ h1
    have : 0.999999 * (‖S‖ * ‖Q‖) ≤ (1 - u) * (‖S‖ * ‖Q‖) :=
      mul_le_mul_of_nonneg_right (by norm_num at hu ⊢; linarith) (by positivity)
    refine le_trans ?_ this
    norm_num at h4 ⊢
    linarith

/-- The factor `1/z - D_0` is a multiple of the spacing of the doubles near `1/z`. -/
theorem factor_gap (hA : A.Within u) (hD : A.Double) (hu : u ≤ 1 / 10 ^ 6) {z : ℝ} (hz : 1e-29 ≤ z) (hz1 : z ≤ 1 / 1000)
    {n N : ℕ} (hN : 1 ≤ n + N) :
    A.sub (A.div ((0 + 1 : ℕ) : ℂ) (A.guard z)) (A.d1 n N z 0) = 0 ∨
      (1 - u) * (0.999 / z / 2 ^ 53) ≤ ‖A.sub (A.div ((0 + 1 : ℕ) : ℂ) (A.guard z)) (A.d1 n N z 0)‖ := by
  have hu0 := hA.nonneg
  have hz0 : 0 < z := lt_of_lt_of_le (by norm_num) hz
  have hzc : (z : ℂ) ≠ 0 := by exact_mod_cast hz0.ne'
  have hnz : ‖(z : ℂ)‖ = z := by rw [norm_real, Real.norm_of_nonneg hz0.le]
  have hg : A.guard z = z := by
    unfold Arith.guard
    have h1 := (abs_le.1 (hA.abs z)).1
    rw [hnz] at h1
    rw [if_neg]
    push Not
    unfold solverEps
    norm_num at hz hu ⊢
    nlinarith
  obtain ⟨d, hd, hdd⟩ := real_d1Down hA hD (hu.trans (by norm_num)) hz0 (hz1.trans (by norm_num)) (n + N) (n + N) le_rfl
  have hdd := hdd hN
  obtain ⟨q, hqd, hq⟩ := hD.div 1 z hz0.ne'
  have e1 : A.d1 n N z 0 = d := by unfold Arith.d1; rw [hg, Nat.sub_zero, hd]
  have e2 : A.div ((0 + 1 : ℕ) : ℂ) (A.guard z) = q := by rw [hg, ← hq]; simp
  rw [e1, e2]
  have hz' : 1000 ≤ 1 / z := by rw [le_div_iff₀ hz0]; linarith
  have hw : 0.999 / z = 0.999 * (1 / z) := by ring
  have hqw : 0.999 / z ≤ |q| := by
    have := hA.div 1 (z : ℂ) hzc
    rw [← ofReal_one, hq, ← ofReal_div, ← ofReal_sub, norm_real, norm_real, Real.norm_of_nonneg (by positivity : 0 ≤ 1 / z)] at this
    have h1 := (abs_le.1 this).1
    refine le_trans ?_ (le_abs_self q)
    rw [hw]
    norm_num at hu ⊢
    norm_num at hz' h1
    nlinarith
  have hdw : 0.999 / z ≤ |d| := by
    have := Arith.d1_near hA hu0 (hu.trans (by norm_num)) hzc (n + N) (n + N - 1) 0 (by omega) (by rw [hnz]; norm_num; linarith)
    rw [Nat.sub_zero, hd, hnz] at this
    have e : (d : ℂ) - (((0 : ℕ) : ℂ) + 1) / z = ((d - 1 / z : ℝ) : ℂ) := by push_cast; ring
    rw [e, norm_real] at this
    have h1 := (abs_le.1 this).1
    refine le_trans ?_ (le_abs_self d)
    rw [hw]
    norm_num at hu ⊢
    norm_num at hz' h1
    nlinarith
  have hP := hA.sub (q : ℂ) d
  rcases double_gap hqd hdd (by positivity) hqw hdw with h | h
  · left; exact within_zero hP (by rw [← ofReal_sub, h, ofReal_zero])
  · right
    refine le_trans ?_ (within_lower hP)
    rw [← ofReal_sub, norm_real, Real.norm_eq_abs]
    have : 0 ≤ 1 - u := by norm_num at hu; linarith
    gcongr

/-- **C88** (floor).  In double precision the value of `psi_1` computed by `pena_psi_zeta_n` at a real argument `z ≤ 10⁻³` is zero or
at least `1.1·10⁻¹⁶`, whatever the rounding; the exact value is about `z²/3`. -/
theorem C88_floor (hA : A.Within u) (hD : A.Double) (hu : u ≤ 1 / 10 ^ 6) {z : ℝ} (hz : 1e-29 ≤ z) (hz1 : z ≤ 1 / 1000)
    {n N : ℕ} (hN : 1 ≤ n + N) :
    (A.prodSeq (A.sin z) z (A.d1 n N z) 1 = 0 ∨ 1.1e-16 ≤ ‖A.prodSeq (A.sin z) z (A.d1 n N z) 1‖) ∧
      ricPsi 1 (z : ℂ) ≠ 0 ∧ ‖ricPsi 1 (z : ℂ)‖ ≤ z ^ 2 / 3 := by
  have hu0 := hA.nonneg
  have hz0 : 0 < z := lt_of_lt_of_le (by norm_num) hz
  have hzc : (z : ℂ) ≠ 0 := by exact_mod_cast hz0.ne'
  have hnz : ‖(z : ℂ)‖ = z := by rw [norm_real, Real.norm_of_nonneg hz0.le]
  refine ⟨?_, (ricPsi_ratio 1 hzc (by rw [hnz]; norm_num; linarith)).1, psi_one_small hz0 (by linarith)⟩
  have hs : 0.99999 * z ≤ Real.sin z := by
    have h1 := Real.sin_gt_sub_cube hz0
    have h2 : z ^ 2 ≤ 1 / 10 ^ 6 := by nlinarith
    have h3 : z ^ 3 ≤ 1 / 10 ^ 6 * z := by nlinarith
    norm_num at h3 ⊢
    linarith
  have hS := within_lower (hA.sin (z : ℂ))
  rw [← ofReal_sin, norm_real, Real.norm_of_nonneg (by nlinarith : 0 ≤ Real.sin z)] at hS
  exact floor_of hu hu0 hz0 hz1 hs hS (hA.mul _ _) (factor_gap hA hD hu hz hz1 hN)

/-- **C88** (small arguments).  For real `z ≤ 1.2·10⁻⁸` the computed `psi_1` has a relative error of at least one. -/
theorem C88_small (hA : A.Within u) (hD : A.Double) (hu : u ≤ 1 / 10 ^ 6) {z : ℝ} (hz : 1e-29 ≤ z) (hz1 : z ≤ 1.2e-8)
    {n N : ℕ} (hN : 1 ≤ n + N) :
    0 < ‖ricPsi 1 (z : ℂ)‖ ∧ ‖ricPsi 1 (z : ℂ)‖ ≤ ‖A.prodSeq (A.sin z) z (A.d1 n N z) 1 - ricPsi 1 (z : ℂ)‖ := by
  obtain ⟨h1, h2, h3⟩ := C88_floor hA hD hu hz (hz1.trans (by norm_num)) hN
  refine ⟨norm_pos_iff.2 h2, ?_⟩
  refine far_of (b := 1.1e-16) h1 (h3.trans ?_)
  have hz0 : 0 < z := lt_of_lt_of_le (by norm_num) hz
  norm_num at hz1 ⊢
  nlinarith

theorem zero_or_scale {P Q : ℂ} {b c : ℝ} (h : P = 0 ∨ b ≤ ‖P‖) (hQ : c * ‖P‖ ≤ ‖Q‖) (h0 : P = 0 → Q = 0) (hc : 0 ≤ c) :
    Q = 0 ∨ c * b ≤ ‖Q‖ := by
  rcases h with h | h
  · exact Or.inl (h0 h)
  · exact Or.inr (le_trans (by gcongr) hQ)

/-- **C88** (centre).  `vsh_pena` evaluates the regular waves at the centre of the particle at `rho = epsilon = 10⁻⁸`.  In double
precision both radial factors of the lowest order have a relative error of at least one, whatever the wavelength, the medium, the
order of the expansion and the rounding. -/
theorem C88_centre (hA : A.Within u) (hD : A.Double) (hu : u ≤ 1 / 10 ^ 6) {n N : ℕ} (hn : 1 ≤ n) (hN : 8 ≤ N) (k0 nMed : ℂ) :
    let rho : ℂ := ((1e-8 : ℝ) : ℂ)
    let F := A.vshRadial n N k0 nMed 0 1
    ricPsi 1 rho / rho ≠ 0 ∧ deriv (ricPsi 1) rho / rho ≠ 0 ∧
      ‖ricPsi 1 rho / rho‖ ≤ ‖F.1 - ricPsi 1 rho / rho‖ ∧
      ‖deriv (ricPsi 1) rho / rho‖ ≤ ‖F.2 - deriv (ricPsi 1) rho / rho‖ := by
  intro rho F
  have hu0 := hA.nonneg
  have hu' : u ≤ 0.000001 := by norm_num at hu ⊢; exact hu
  have hrho : ‖rho‖ = 1e-8 := by show ‖((1e-8 : ℝ) : ℂ)‖ = _; rw [norm_real]; norm_num
  have hrho0 : rho ≠ 0 := by rw [← norm_pos_iff, hrho]; norm_num
  -- exact values
  have hpsi : ‖ricPsi 1 rho‖ ≤ 3.4e-17 := (psi_one_small (z := 1e-8) (by norm_num) (by norm_num)).trans (by norm_num)
  have hpsi0 : ricPsi 1 rho ≠ 0 := (ricPsi_ratio 1 hrho0 (by rw [hrho]; norm_num)).1
  have hlog := (C78_log_derivative (n := n) (N := N) hA (hu.trans (by norm_num)) (z := rho) (k := 1)
    (by rw [hrho]; unfold solverEps; norm_num) (by omega) hn (by rw [hrho]; norm_num)).1
  have hder : deriv (ricPsi 1) rho = logD1 1 rho * ricPsi 1 rho := by unfold logD1; field_simp
  have hlog2 : ‖logD1 1 rho‖ ≤ 2.1e8 := by
    have h1 := logD1_near 1 hrho0 (by rw [hrho]; norm_num)
    have h2 := norm_sub_norm_le (logD1 1 rho) ((((1 : ℕ) : ℂ) + 1) / rho)
    have h3 : ‖(((1 : ℕ) : ℂ) + 1) / rho‖ = 2e8 := by
      rw [norm_div, hrho]; norm_num
    rw [h3] at h2
    norm_num at h1 h2 ⊢
    linarith
  -- the argument
  have em : A.mul (A.mul k0 nMed) ((0 : ℝ) : ℂ) = 0 := within_zero (hA.mul _ _) (by simp)
  obtain ⟨z, -, hz⟩ := hD.add 0 1e-8
  have hz1 : |z - 1e-8| ≤ 0.000001 * 1e-8 := by
    have := hA.add ((0 : ℝ) : ℂ) ((1e-8 : ℝ) : ℂ)
    rw [hz, ofReal_zero, zero_add, ← ofReal_sub, norm_real, norm_real, Real.norm_eq_abs,
      Real.norm_of_nonneg (by norm_num : (0 : ℝ) ≤ 1e-8)] at this
    exact this.trans (by gcongr)
  have hzl : 0.99e-8 ≤ z := by have := (abs_le.1 hz1).1; norm_num at this ⊢; linarith
  have hzu : z ≤ 1.01e-8 := by have := (abs_le.1 hz1).2; norm_num at this ⊢; linarith
  have hz0 : 0 < z := lt_of_lt_of_le (by norm_num) hzl
  have hzc : (z : ℂ) ≠ 0 := by exact_mod_cast hz0.ne'
  have hnz : ‖(z : ℂ)‖ = z := by rw [norm_real, Real.norm_of_nonneg hz0.le]
  rw [ofReal_zero] at hz
  obtain ⟨hP, -, -⟩ := C88_floor hA hD hu (z := z) (le_trans (by norm_num) hzl) (hzu.trans (by norm_num)) (n := n) (N := N) (by omega)
  have eF : F = (A.div (A.prodSeq (A.sin z) z (A.d1 n N z) 1) z,
      A.mul (A.d1 n N z 1) (A.div (A.prodSeq (A.sin z) z (A.d1 n N z) 1) z)) := by
    show A.vshRadial n N k0 nMed 0 1 = _
    unfold Arith.vshRadial
    rw [em, hz]
  have eF1 := congrArg Prod.fst eF
  have eF2 := congrArg Prod.snd eF
  simp only at eF1 eF2
  generalize A.prodSeq (A.sin z) z (A.d1 n N z) 1 = P at hP eF1 eF2
  clear eF
  rw [← eF1] at eF2
  have hzn := hA.div P z hzc
  rw [← eF1] at hzn
  have c1 := zero_or_scale (c := 0.99 / 1.01e-8) hP (by
    refine le_trans ?_ (within_lower hzn)
    rw [norm_div, hnz, div_mul_eq_mul_div, mul_div_assoc']
    have : 0.99 * ‖P‖ ≤ (1 - u) * ‖P‖ := mul_le_mul_of_nonneg_right (by norm_num at hu' ⊢; linarith) (norm_nonneg _)
    exact div_le_div₀ (mul_nonneg (by norm_num at hu' ⊢; linarith) (norm_nonneg _)) this hz0 hzu)
    (fun h => within_zero hzn (by rw [h, zero_div])) (by norm_num)
  have hD1 : 1.5e8 ≤ ‖A.d1 n N z 1‖ := by
    have h1 := (C78_log_derivative (n := n) (N := N) hA (hu.trans (by norm_num)) (z := (z : ℂ)) (k := 1)
      (by rw [hnz]; refine le_trans ?_ hzl; unfold solverEps; norm_num) (by omega) hn
      (by rw [hnz]; norm_num at hzu ⊢; linarith)).2
    have h2 : 14 * u + (1 / 6 : ℝ) ^ (n + N - 1 - 1) ≤ 0.1 := by
      have : (1 / 6 : ℝ) ^ (n + N - 1 - 1) ≤ (1 / 6) ^ 2 := pow_le_pow_of_le_one (by norm_num) (by norm_num) (by omega)
      norm_num at this hu' ⊢
      linarith
    have h3 := norm_sub_norm_le (logD1 1 (z : ℂ)) (A.d1 n N z 1)
    rw [norm_sub_rev] at h3
    have h4 : (14 * u + (1 / 6 : ℝ) ^ (n + N - 1 - 1)) * ‖logD1 1 (z : ℂ)‖ ≤ 0.1 * ‖logD1 1 (z : ℂ)‖ := by gcongr
    have h5 := logD1_near 1 hzc (by rw [hnz]; norm_num at hzu ⊢; linarith)
    have h6 := norm_sub_norm_le ((((1 : ℕ) : ℂ) + 1) / z) (logD1 1 (z : ℂ))
    rw [norm_sub_rev] at h6
    have h7 : 2 / 1.01e-8 ≤ ‖(((1 : ℕ) : ℂ) + 1) / (z : ℂ)‖ := by
      rw [norm_div, hnz]
      norm_num at hzu ⊢
      exact (div_le_div_of_nonneg_left (by norm_num) hz0 hzu).trans' (by norm_num)
    norm_num at h4 h5 h6 h7 ⊢
    linarith
  have hzp := hA.mul (A.d1 n N z 1) F.1
  rw [← eF2] at hzp
  have c2 := zero_or_scale (c := 1.4e8) c1 (by
    refine le_trans ?_ (within_lower hzp)
    rw [norm_mul]
    have h1 : (0.99 : ℝ) ≤ 1 - u := by norm_num at hu' ⊢; linarith
    have h2 : 1.5e8 * ‖F.1‖ ≤ ‖A.d1 n N z 1‖ * ‖F.1‖ := by gcongr
    have h3 : 0.99 * (‖A.d1 n N z 1‖ * ‖F.1‖) ≤ (1 - u) * (‖A.d1 n N z 1‖ * ‖F.1‖) := by gcongr
    have := norm_nonneg F.1
    norm_num at h2 h3 ⊢
    linarith)
    (fun h => within_zero hzp (by rw [h, mul_zero])) (by norm_num)
  refine ⟨div_ne_zero hpsi0 hrho0, ?_, far_of c1 ?_, far_of c2 ?_⟩
  · rw [hder]; exact div_ne_zero (mul_ne_zero hlog hpsi0) hrho0
  · rw [norm_div, hrho, div_le_iff₀ (by norm_num)]
    exact hpsi.trans (by norm_num)
  · rw [hder, norm_div, norm_mul, hrho, div_le_iff₀ (by norm_num)]
    have : ‖logD1 1 rho‖ * ‖ricPsi 1 rho‖ ≤ 2.1e8 * 3.4e-17 := by gcongr
    exact this.trans (by norm_num)

/-- **C88** (size of the error).  The error of the factor by which `psi_k` is multiplied to give `psi_(k+1)` is of the order of the
unit roundoff times the two terms of the difference, `(k+1)/|z|`; the exact factor is about `z/(2k+3)`. -/
theorem C88_factor (hA : A.Within u) (hu : u ≤ 1 / 100) {z : ℂ} (hz : 2 * solverEps ≤ ‖z‖) {n N k : ℕ} (hN : 1 ≤ N)
    (hk : k ≤ n) (hzk : 4 * ‖z‖ ≤ k + 1) :
    ricPsi k z ≠ 0 ∧
      ‖A.sub (A.div ((k + 1 : ℕ) : ℂ) (A.guard z)) (A.d1 n N z k) - ricPsi (k + 1) z / ricPsi k z‖ ≤
        (20 * u + 2 * (1 / 6) ^ (n + N - k - 1)) * ((k + 1) / ‖z‖) := by
  have hu0 := hA.nonneg
  have hep := solverEps_pos
  have hzp : 0 < ‖z‖ := by linarith
  have hz0 : z ≠ 0 := norm_pos_iff.1 hzp
  have hg : A.guard z = z := by
    unfold Arith.guard
    have h1 := (abs_le.1 (hA.abs z)).1
    rw [if_neg]
    push Not
    nlinarith
  have hz2 : 2 * ‖z‖ ≤ k + 1 := by nlinarith
  obtain ⟨h0, -⟩ := ricPsi_ratio k hz0 hz2
  refine ⟨h0, ?_⟩
  obtain ⟨-, h1⟩ := C78_log_derivative hA hu hz hN hk hzk
  have hr : ricPsi (k + 1) z / ricPsi k z = ((k + 1 : ℕ) : ℂ) / z - logD1 k z := by
    rw [logD1_psi_succ k hz0 h0]; push_cast; field_simp
  have h2 := logD1_near k hz0 hz2
  have h3 := norm_sub_norm_le (logD1 k z) (((k : ℂ) + 1) / z)
  have hs : ‖((k : ℂ) + 1) / z‖ = ((k : ℝ) + 1) / ‖z‖ := norm_natCast_div ((k : ℝ) + 1) (by positivity) _ _ (by push_cast; ring)
  have hs' : ‖((k + 1 : ℕ) : ℂ) / z‖ = ((k : ℝ) + 1) / ‖z‖ := by rw [← hs]; push_cast; rfl
  have hq := hA.div ((k + 1 : ℕ) : ℂ) z hz0
  have hsub := hA.sub (A.div ((k + 1 : ℕ) : ℂ) z) (A.d1 n N z k)
  rw [hg, hr]
  rw [hs'] at hq
  rw [hs] at h3
  set s := ((k : ℝ) + 1) / ‖z‖ with hsd
  have hs4 : 4 ≤ s := by rw [hsd, le_div_iff₀ hzp]; exact hzk
  set tr := (1 / 6 : ℝ) ^ (n + N - k - 1) with htr
  have htr0 : 0 ≤ tr := by positivity
  have htr1 : tr ≤ 1 := pow_le_one₀ (by norm_num) (by norm_num)
  clear_value s tr
  have h6 : ‖((k + 1 : ℕ) : ℂ) / z - logD1 k z‖ ≤ s / 2 := by
    rw [norm_sub_rev]
    push_cast
    exact h2.trans (by linarith)
  generalize A.div ((k + 1 : ℕ) : ℂ) z = q at *
  generalize A.d1 n N z k = d at *
  generalize ((k + 1 : ℕ) : ℂ) / z = q0 at *
  generalize logD1 k z = l at *
  have hl : ‖l‖ ≤ 9 / 8 * s := by linarith
  have h4 : ‖d - l‖ ≤ (14 * u + tr) * (9 / 8 * s) := h1.trans (by gcongr)
  have h5 : ‖(q - d) - (q0 - l)‖ ≤ u * s + (14 * u + tr) * (9 / 8 * s) := by
    rw [show (q - d) - (q0 - l) = (q - q0) - (d - l) by ring]
    exact (norm_sub_le _ _).trans (add_le_add hq h4)
  have h7 : ‖q - d‖ ≤ s / 2 + (u * s + (14 * u + tr) * (9 / 8 * s)) := by
    have := norm_sub_norm_le (q - d) (q0 - l)
    linarith
  have h8 : ‖A.sub q d - (q0 - l)‖ ≤ u * ‖q - d‖ + (u * s + (14 * u + tr) * (9 / 8 * s)) := by
    rw [show A.sub q d - (q0 - l) = (A.sub q d - (q - d)) + ((q - d) - (q0 - l)) by ring]
    exact (norm_add_le _ _).trans (add_le_add hsub h5)
  refine h8.trans ?_
  have h9 : u * ‖q - d‖ ≤ u * (s / 2 + (u * s + (14 * u + tr) * (9 / 8 * s))) := by gcongr
  have h10 : u * s + (14 * u + tr) * (9 / 8 * s) ≤ 2 * s := by nlinarith
  have h11 : u * (s / 2 + (u * s + (14 * u + tr) * (9 / 8 * s))) ≤ u * (5 / 2 * s) := by gcongr; linarith
  nlinarith [mul_nonneg hu0 (by linarith : 0 ≤ s), mul_nonneg htr0 (by linarith : 0 ≤ s)]

end

/-- **C88** (the program).  With exact arithmetic the radial factors are those of `vsh_pena` with `kind=1`: they multiply the angular
functions of every order. -/
theorem C88_model {n : ℕ} (hn : 1 ≤ n) (k0 nMed : ℂ) (r theta phi : ℝ) :
    ∃ pis taus : List ℝ, piTau n (Real.cos theta) = .ok (pis, taus) ∧
      vshPena codeD1 n k0 nMed r theta phi 1 1e-8 = .ok ((List.range n).map fun i =>
        vshOrder (i + 1) theta phi (k0 * nMed * (r : ℂ) + ((1e-8 : ℝ) : ℂ)) (pis.getD (i + 1) 0 : ℝ) (taus.getD (i + 1) 0 : ℝ)
          (exactArith.vshRadial n 15 k0 nMed r (i + 1)).1 (exactArith.vshRadial n 15 k0 nMed r (i + 1)).2) := by
  refine ⟨_, _, piTau_eq n hn _, ?_⟩
  rw [vshPena_eq (codeFn_fun n) hn k0 nMed r theta phi (Or.inl rfl)]
  refine congrArg Except.ok (List.map_congr_left fun i _ => ?_)
  unfold vshPenaVal
  rw [piTau_eq n hn]
  simp only [okD, if_true, Arith.vshRadial, exact_d1, exact_prodSeq]
  rfl

/-- Rounding to nearest satisfies the hypotheses. -/
example : doubleArith.Within (2⁻¹ ^ 53) ∧ doubleArith.Double ∧ (2⁻¹ : ℝ) ^ 53 ≤ 1 / 10 ^ 6 :=
  ⟨doubleArith_within, doubleArith_double, by norm_num⟩

/-- The field at the centre of a particle in air at wavelength 500, from ten orders. -/
example : ‖ricPsi 1 ((1e-8 : ℝ) : ℂ) / ((1e-8 : ℝ) : ℂ)‖ ≤
    ‖(doubleArith.vshRadial 10 15 (2 * Real.pi / 500) 1 0 1).1 - ricPsi 1 ((1e-8 : ℝ) : ℂ) / ((1e-8 : ℝ) : ℂ)‖ :=
  (C88_centre doubleArith_within doubleArith_double (by norm_num) (by norm_num) (by norm_num) _ _).2.2.1

/-- Order 9 at `z = 2`: both hypotheses of `C88_factor` hold. -/
example : 2 * solverEps ≤ ‖(2 : ℂ)‖ ∧ 4 * ‖(2 : ℂ)‖ ≤ ((9 : ℕ) : ℝ) + 1 := by
  unfold solverEps; norm_num

end MieDiff
