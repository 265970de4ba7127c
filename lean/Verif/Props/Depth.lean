import Verif.Proofs.DepthFar
import Verif.Proofs.DepthReal
import Verif.Proofs.DepthComplex
import Verif.Props.Helper
import Verif.Proofs.BackwardShell
import Mathlib.Analysis.Real.Pi.Bounds

/-!
# Property theorems C85: the recurrence depth of the pena backend and the order `n_max`
-/

namespace MieDiff

open Complex Filter Topology Spec

/-! ## What the recurrence returns -/

/-- C85: `pena_D1_n(n, z, n_add)` returns at order `k` the logarithmic derivative, not of `psi_k`, but of the combination
`psi_k chi_N' - chi_k psi_N'` of the regular and the singular solution whose derivative vanishes at the start order
`N = n + n_add`, as long as no guard is active; its distance from the logarithmic derivative of `psi_k` is
`psi_N' / (psi_k (psi_k chi_N' - chi_k psi_N'))`. -/
theorem C85_closed_form (n nAdd k : ℕ) (z : ℂ) (hz : 1e-30 ≤ ‖z‖) (hAdd : 1 ≤ nAdd) (hk : k ≤ n)
    (hg : ∀ i, k ≤ i → i < n + nAdd →
      1e-30 * ‖ricPsi (i + 1) z * deriv (ricChi (n + nAdd)) z - ricChi (i + 1) z * deriv (ricPsi (n + nAdd)) z‖ ≤
        ‖ricPsi i z * deriv (ricChi (n + nAdd)) z - ricChi i z * deriv (ricPsi (n + nAdd)) z‖) :
    ∃ D v, penaD1 n z nAdd = .ok D ∧ D[k]? = some v ∧
      v = (deriv (ricPsi k) z * deriv (ricChi (n + nAdd)) z - deriv (ricChi k) z * deriv (ricPsi (n + nAdd)) z) /
        (ricPsi k z * deriv (ricChi (n + nAdd)) z - ricChi k z * deriv (ricPsi (n + nAdd)) z) ∧
      (ricPsi k z ≠ 0 → v - deriv (ricPsi k) z / ricPsi k z = deriv (ricPsi (n + nAdd)) z /
        (ricPsi k z * (ricPsi k z * deriv (ricChi (n + nAdd)) z - ricChi k z * deriv (ricPsi (n + nAdd)) z))) := by
  have hz0 : z ≠ 0 := by rintro rfl; norm_num at hz
  have e : ∀ i, ricPsi i z * deriv (ricChi (n + nAdd)) z - ricChi i z * deriv (ricPsi (n + nAdd)) z = stubWave (n + nAdd) z i z := by
    intro i; unfold stubWave; ring
  simp only [e] at hg ⊢
  obtain ⟨h1, h2⟩ := d1Val_closed hz0 (eps := 1e-30) (by norm_num) (n + nAdd) (n + nAdd - k) k (by omega) hg
  refine ⟨_, _, penaD1_eq n z nAdd _ hAdd, by rw [tab_getElem?, if_pos hk], ?_, fun hp => ?_⟩
  · rw [guardAdd_of_le hz, h2, stub_deriv _ _ hz0]
    ring
  · rw [guardAdd_of_le hz, h2]
    exact stub_error _ _ hz0 hp h1

/-- The hypotheses of `C85_closed_form` hold at `z = 1` for `n = 1`, `n_add = 1`. -/
example : ∃ D v, penaD1 ((1 : ℕ) : ℤ) 1 1 = .ok D ∧ D[1]? = some v ∧ (ricPsi 1 1 ≠ 0 → v - deriv (ricPsi 1) 1 / ricPsi 1 1 =
    deriv (ricPsi 2) 1 / (ricPsi 1 1 * (ricPsi 1 1 * deriv (ricChi 2) 1 - ricChi 1 1 * deriv (ricPsi 2) 1))) := by
  obtain ⟨D, v, h1, h2, -, h3⟩ := C85_closed_form 1 1 1 1 (by norm_num) le_rfl le_rfl (by
    intro i hi hi'
    obtain rfl : i = 1 := by omega
    have e : ∀ i, ricPsi i 1 * deriv (ricChi 2) 1 - ricChi i 1 * deriv (ricPsi 2) 1 = stubWave 2 1 i 1 := by
      intro i; unfold stubWave; ring
    have h2 := stub_top 2 (one_ne_zero (α := ℂ))
    have h1 := (stub_lower 2 1 1 (one_ne_zero (α := ℂ))).deriv
    rw [stub_deriv 2 2 one_ne_zero, h2] at h1
    have h3 : stubWave 2 1 1 1 = -2 := by linear_combination -h1
    rw [e, e, h2, h3]
    norm_num)
  exact ⟨D, v, h1, h2, h3⟩

/-- C85: at orders not below the size of the argument `psi_k` does not vanish, and the error is at most twice the product of
the factors `1/((1 + sqrt d)(1 + d))`, `d = (2j+1)/|z| - 2`, over the orders `j` between `k` and the start order: the
recurrence is accurate as soon as it starts far enough above the argument. -/
theorem C85_above (n nAdd k : ℕ) (z : ℂ) (hz : 1e-30 ≤ ‖z‖) (hAdd : 1 ≤ nAdd) (hk : k ≤ n) (hsize : ‖z‖ ≤ k + 3 / 2)
    (hN : ‖z‖ ≤ n + nAdd) :
    ricPsi k z ≠ 0 ∧ ∃ D v, penaD1 n z nAdd = .ok D ∧ D[k]? = some v ∧
      ‖v - deriv (ricPsi k) z / ricPsi k z‖ ≤ 2 * ∏ j ∈ Finset.Ico (k + 1) (n + nAdd),
        ((1 + Real.sqrt ((2 * (j : ℝ) + 1) / ‖z‖ - 2)) * (1 + ((2 * (j : ℝ) + 1) / ‖z‖ - 2)))⁻¹ := by
  have hz0 : z ≠ 0 := by rintro rfl; norm_num at hz
  have h : ‖z‖ ≤ (k + 1 : ℕ) + 1 / 2 := by push_cast; linarith
  refine ⟨(psi_ratio_large hz0 k h).1, _, _, penaD1_eq n z nAdd _ hAdd, by rw [tab_getElem?, if_pos hk], ?_⟩
  rw [guardAdd_of_le hz]
  exact d1Val_error_above hz0 (by norm_num) (n + nAdd) (by push_cast; exact hN) (n + nAdd - (k + 1)) k (by omega) h

/-- A product of numbers in `(0, 1]`, bounded by the factors at its end. -/
theorem prod_tail_le {f : ℕ → ℝ} {a b c : ℕ} (hab : a ≤ b) (hbc : b ≤ c) {q : ℝ} (h0 : ∀ j, a ≤ j → j < c → 0 ≤ f j ∧ f j ≤ 1)
    (hq : ∀ j, b ≤ j → j < c → f j ≤ q) : ∏ j ∈ Finset.Ico a c, f j ≤ q ^ (c - b) := by
  rw [← Finset.prod_Ico_consecutive f hab hbc]
  have h1 : ∏ j ∈ Finset.Ico a b, f j ≤ 1 := by
    apply Finset.prod_le_one
    · intro j hj; rw [Finset.mem_Ico] at hj; exact (h0 j (by omega) (by omega)).1
    · intro j hj; rw [Finset.mem_Ico] at hj; exact (h0 j (by omega) (by omega)).2
  have h2 : ∏ j ∈ Finset.Ico b c, f j ≤ q ^ (c - b) := by
    refine le_trans (Finset.prod_le_prod ?_ ?_) (le_of_eq (Finset.prod_const q)) |>.trans (by rw [Nat.card_Ico])
    · intro j hj; rw [Finset.mem_Ico] at hj; exact (h0 j (by omega) (by omega)).1
    · intro j hj; rw [Finset.mem_Ico] at hj; exact hq j (by omega) (by omega)
  have h3 : 0 ≤ ∏ j ∈ Finset.Ico b c, f j := Finset.prod_nonneg fun j hj => by
    rw [Finset.mem_Ico] at hj; exact (h0 j (by omega) (by omega)).1
  calc _ ≤ 1 * ∏ j ∈ Finset.Ico b c, f j := mul_le_mul_of_nonneg_right h1 h3
    _ ≤ _ := by rw [one_mul]; exact h2

/-- `C85_above` for `pena_D1_n(2, z)` at `z = 1 + i`, order 2: the error is below `1e-10`. -/
example : ∃ D v, penaD1 ((2 : ℕ) : ℤ) (1 + I) = .ok D ∧ D[2]? = some v ∧ ‖v - deriv (ricPsi 2) (1 + I) / ricPsi 2 (1 + I)‖ ≤ 1e-10 := by
  have hn : ‖(1 : ℂ) + I‖ = Real.sqrt 2 := by
    rw [Complex.norm_eq_sqrt_sq_add_sq]
    norm_num
  have s1 : Real.sqrt 2 ≤ 1.5 := Real.sqrt_le_iff.2 ⟨by norm_num, by norm_num⟩
  have s2 : 1 ≤ Real.sqrt 2 := Real.one_le_sqrt.2 (by norm_num)
  obtain ⟨-, D, v, h1, h2, h3⟩ := C85_above 2 15 2 (1 + I) (by rw [hn]; norm_num; linarith) (by norm_num) le_rfl
    (by rw [hn]; norm_num at s1 ⊢; linarith) (by rw [hn]; norm_num at s1 ⊢; linarith)
  refine ⟨D, v, h1, h2, h3.trans ?_⟩
  rw [hn]
  have hd : ∀ j : ℕ, 3 ≤ j → (2 : ℝ) ≤ (2 * (j : ℝ) + 1) / Real.sqrt 2 - 2 := by
    intro j hj
    have hj' : (3 : ℝ) ≤ j := by exact_mod_cast hj
    rw [le_sub_iff_add_le, le_div_iff₀ (by linarith)]
    norm_num at s1
    linarith
  have q : ∀ j : ℕ, 3 ≤ j → ((1 + Real.sqrt ((2 * (j : ℝ) + 1) / Real.sqrt 2 - 2)) * (1 + ((2 * (j : ℝ) + 1) / Real.sqrt 2 - 2)))⁻¹ ≤ 1 / 6 := by
    intro j hj
    have h4 := hd j hj
    have h5 : 1 ≤ Real.sqrt ((2 * (j : ℝ) + 1) / Real.sqrt 2 - 2) := Real.one_le_sqrt.2 (by linarith)
    rw [one_div]
    apply inv_anti₀ (by norm_num)
    nlinarith
  have := prod_tail_le (f := fun j : ℕ => ((1 + Real.sqrt ((2 * (j : ℝ) + 1) / Real.sqrt 2 - 2)) * (1 + ((2 * (j : ℝ) + 1) / Real.sqrt 2 - 2)))⁻¹)
    (a := 3) (b := 3) (c := 17) (q := 1 / 6) le_rfl (by norm_num)
    (fun j hj _ => ⟨by have := hd j hj; positivity, (q j hj).trans (by norm_num)⟩) (fun j hj _ => q j hj)
  refine (mul_le_mul_of_nonneg_left this (by norm_num : (0 : ℝ) ≤ 2)).trans ?_
  norm_num

/-- C85: at a real argument `x` the values that `pena_D1_n(n, x, n_add)` returns at all orders, above and below the argument,
are the logarithmic derivatives of one solution `psi_k - e chi_k`, and the admixture `e` of the singular function is at most
`4 (1 + x²)` times the product of the factors `1/((1 + sqrt d)(1 + d))`, `d = (2j+1)/x - 2`, over the orders `j` between `x` and the
start order (`K` is the last order below `x`). Guards count only at orders below the argument. -/
theorem C85_real_argument (n nAdd K : ℕ) (x : ℝ) (hx : 1e-30 ≤ x) (hAdd : 1 ≤ nAdd) (hN : x ≤ n + nAdd) (hKN : K < n + nAdd)
    (hK : K = 0 ∨ (K : ℝ) + 1 / 2 ≤ x) (hK' : x ≤ K + 3 / 2)
    (hsm : (2 * ∏ j ∈ Finset.Ico (K + 1) (n + nAdd),
      ((1 + Real.sqrt ((2 * (j : ℝ) + 1) / x - 2)) * (1 + ((2 * (j : ℝ) + 1) / x - 2)))⁻¹) * (1 + x ^ 2) ≤ 1 / 2) :
    ∃ D, ∃ e : ℂ, penaD1 n (x : ℂ) nAdd = .ok D ∧
      ‖e‖ ≤ 2 * (2 * ∏ j ∈ Finset.Ico (K + 1) (n + nAdd),
        ((1 + Real.sqrt ((2 * (j : ℝ) + 1) / x - 2)) * (1 + ((2 * (j : ℝ) + 1) / x - 2)))⁻¹) * (1 + x ^ 2) ∧
      ∀ k ≤ n, (∀ i, k ≤ i → (i : ℝ) + 3 / 2 < x →
          1e-30 * ‖ricPsi (i + 1) x - e * ricChi (i + 1) x‖ ≤ ‖ricPsi i x - e * ricChi i x‖) →
        ricPsi k x - e * ricChi k x ≠ 0 ∧
        D[k]? = some ((deriv (ricPsi k) x - e * deriv (ricChi k) x) / (ricPsi k x - e * ricChi k x)) := by
  have hx0 : 0 < x := lt_of_lt_of_le (by norm_num) hx
  have hz : (x : ℂ) ≠ 0 := by exact_mod_cast hx0.ne'
  have hn : ‖(x : ℂ)‖ = x := by rw [Complex.norm_real, Real.norm_eq_abs, abs_of_pos hx0]
  have hd : ∀ j : ℕ, damp (x : ℂ) j = (1 + Real.sqrt ((2 * (j : ℝ) + 1) / x - 2)) * (1 + ((2 * (j : ℝ) + 1) / x - 2)) := by
    intro j; unfold damp excess; rw [hn]
  simp only [← hd] at hsm ⊢
  have hN' : x ≤ ((n + nAdd : ℕ) : ℝ) := by push_cast; exact hN
  obtain ⟨hC, he⟩ := admixture hx0 (eps := 1e-30) (by norm_num) (by norm_num) (n + nAdd) K hN' hKN hK hK' le_rfl hsm
  refine ⟨_, _, penaD1_eq n (x : ℂ) nAdd _ hAdd, he, fun k hk hg => ?_⟩
  set C := deriv (ricChi (n + nAdd)) (x : ℂ) with hCd
  set P := deriv (ricPsi (n + nAdd)) (x : ℂ) with hPd
  have e : ∀ i, ricPsi i (x : ℂ) - P / C * ricChi i (x : ℂ) = stubWave (n + nAdd) (x : ℂ) i (x : ℂ) / C := by
    intro i
    rw [eq_div_iff hC]
    have : stubWave (n + nAdd) (x : ℂ) i (x : ℂ) = C * ricPsi i (x : ℂ) - P * ricChi i (x : ℂ) := rfl
    rw [this]
    field_simp
  have hCn := norm_pos_iff.2 hC
  have hwave : ∀ i, k ≤ i → i < n + nAdd → 1e-30 * ‖stubWave (n + nAdd) (x : ℂ) (i + 1) (x : ℂ)‖ ≤ ‖stubWave (n + nAdd) (x : ℂ) i (x : ℂ)‖ ∨
      1e-30 ≤ ‖d1Val (x : ℂ) 1e-30 (n + nAdd) (i + 1) + ((i + 1 : ℕ) : ℂ) / (x : ℂ)‖ := by
    intro i hi hiN
    rcases lt_or_ge ((i : ℝ) + 3 / 2) x with h | h
    · left
      have := hg i hi h
      rw [e, e, norm_div, norm_div, mul_div_assoc', div_le_div_iff_of_pos_right hCn] at this
      exact this
    · right
      exact den_ge hz (by norm_num) (n + nAdd) (by rw [hn]; exact hN') hiN (by rw [hn]; push_cast; linarith)
  obtain ⟨h1, h2⟩ := d1Val_closed_or hz (eps := 1e-30) (by norm_num) (n + nAdd) (n + nAdd - k) k (by omega) hwave
  refine ⟨by rw [e]; exact div_ne_zero h1 hC, ?_⟩
  rw [tab_getElem?, if_pos hk, guardAdd_of_le (by rw [hn]; exact hx), h2, stub_deriv _ _ hz, e]
  congr 1
  rw [← hCd, ← hPd]
  field_simp

/-- C85: at an argument in the closed upper half plane (lossless or absorbing layer) the values that `pena_D1_n(n, z, n_add)`
returns at all orders are the logarithmic derivatives of one solution `psi_k - e zeta_k`. The share `e` of the outgoing function is
bounded by the orders between `|z|` and the start order, relative to `zeta_k` at the orders below the argument, and absolutely with
the factor `exp(2 Im z)`. Guards count only at orders below the argument, and nowhere if `Im z ≥ 1e-30 |z|²`. -/
theorem C85_complex_argument (n nAdd K : ℕ) (z : ℂ) (hz : 1e-30 ≤ ‖z‖) (him : 0 ≤ z.im) (hAdd : 1 ≤ nAdd)
    (hN : ‖z‖ < ((n + nAdd : ℕ) : ℝ)) (hKN : K < n + nAdd) (hK' : ‖z‖ ≤ K + 3 / 2) {b : ℝ}
    (hb : (((n + nAdd : ℕ) : ℝ) + 1 + ‖z‖) * ‖z‖ / (2 * (((n + nAdd : ℕ) : ℝ) - ‖z‖) ^ 2) *
      ((∏ j ∈ Finset.Ico (K + 1) (n + nAdd), ((2 * (j : ℝ) + 1) / ‖z‖ - 1)) ^ 2)⁻¹ ≤ b) :
    ∃ D, ∃ e : ℂ, penaD1 n z nAdd = .ok D ∧ ‖e‖ ≤ b * Real.exp (2 * z.im) ∧ (∀ k ≤ K + 1, ‖e‖ * ‖ricZeta k z‖ ^ 2 ≤ b) ∧
      ∀ k ≤ n, ((∀ i, k ≤ i → (i : ℝ) + 3 / 2 < ‖z‖ →
          1e-30 * ‖ricPsi (i + 1) z - e * ricZeta (i + 1) z‖ ≤ ‖ricPsi i z - e * ricZeta i z‖) ∨ (0 < z.im ∧ 1e-30 * ‖z‖ ^ 2 ≤ z.im)) →
        ricPsi k z - e * ricZeta k z ≠ 0 ∧
        D[k]? = some ((deriv (ricPsi k) z - e * deriv (ricZeta k) z) / (ricPsi k z - e * ricZeta k z)) := by
  have hz0 : z ≠ 0 := by rintro rfl; norm_num at hz
  obtain ⟨hZ, -⟩ := admixture_zeta hz0 him (n + nAdd) hN
  have share : ∀ k ≤ K + 1, ‖deriv (ricPsi (n + nAdd)) z / deriv (ricZeta (n + nAdd)) z‖ * ‖ricZeta k z‖ ^ 2 ≤ b := fun k hk =>
    (admixture_share hz0 him (n + nAdd) hN k (K + 1) hk (by omega) (by push_cast; linarith) (by omega)).trans hb
  have hsp := deriv_zeta_split (n + nAdd) hz0
  have e : ∀ i, _ := fun i => stub_zeta (n + nAdd) i z z hZ hsp
  refine ⟨_, _, penaD1_eq n z nAdd _ hAdd, ?_, share, fun k hk hg => ?_⟩
  · have h := share 0 (by omega)
    rw [norm_zeta_zero hz0, ← Real.exp_nat_mul, show ((2 : ℕ) : ℝ) * -z.im = -(2 * z.im) by push_cast; ring, Real.exp_neg,
      ← div_eq_mul_inv, div_le_iff₀ (Real.exp_pos _)] at h
    exact h
  have hCn := norm_pos_iff.2 hZ
  have hwave : ∀ i, k ≤ i → i < n + nAdd → 1e-30 * ‖stubWave (n + nAdd) z (i + 1) z‖ ≤ ‖stubWave (n + nAdd) z i z‖ ∨
      1e-30 ≤ ‖d1Val z 1e-30 (n + nAdd) (i + 1) + ((i + 1 : ℕ) : ℂ) / z‖ := by
    intro i hi hiN
    rcases hg with hg | ⟨hp, hg⟩
    · rcases lt_or_ge ((i : ℝ) + 3 / 2) ‖z‖ with h | h
      · left
        have := hg i hi h
        rw [e, e, norm_div, norm_div, mul_div_assoc', div_le_div_iff_of_pos_right hCn, norm_mul, norm_mul, norm_neg, norm_I, one_mul,
          one_mul] at this
        exact this
      · right
        exact den_ge hz0 (by norm_num) (n + nAdd) hN.le hiN (by push_cast; linarith)
    · right
      exact (den_im hz0 hp hg (n + nAdd) (n + nAdd - (i + 1)) i (by omega)).2
  obtain ⟨h1, h2⟩ := d1Val_closed_or hz0 (eps := 1e-30) (by norm_num) (n + nAdd) (n + nAdd - k) k (by omega) hwave
  have hI : -I ≠ 0 := neg_ne_zero.2 I_ne_zero
  refine ⟨by rw [e]; exact div_ne_zero (mul_ne_zero hI h1) hZ, ?_⟩
  rw [tab_getElem?, if_pos hk, guardAdd_of_le hz, h2, stub_deriv _ _ hz0, e, deriv_zeta_split k hz0]
  congr 1
  rw [div_eq_div_iff h1 (div_ne_zero (mul_ne_zero hI h1) hZ)]
  field_simp
  rw [hsp]
  ring

/-- C85: in an absorbing layer (`Im z > 0`, and `Im z ≥ 1e-30 |z|²`, which keeps the recurrence off its guards) the value that
`pena_D1_n(n, z, n_add)` returns at any order, above or below the argument, is the logarithmic derivative of `psi_k` up to
`2 b M²`, where `b` is the product over the orders between `L` (not below `k` and `|z|`) and the start order and
`M = 1 + (2k+1)/|z| + |z|²/((2k+3) Im z)`. -/
theorem C85_absorbing (n nAdd k L : ℕ) (z : ℂ) (hz : 1e-30 ≤ ‖z‖) (him : 0 < z.im) (hg : 1e-30 * ‖z‖ ^ 2 ≤ z.im) (hAdd : 1 ≤ nAdd)
    (hk : k ≤ n) (hN : ‖z‖ < ((n + nAdd : ℕ) : ℝ)) (hkL : k ≤ L) (hL : 1 ≤ L) (hs : ‖z‖ ≤ L + 1 / 2) (hLN : L ≤ n + nAdd) {b M : ℝ}
    (hb : (((n + nAdd : ℕ) : ℝ) + 1 + ‖z‖) * ‖z‖ / (2 * (((n + nAdd : ℕ) : ℝ) - ‖z‖) ^ 2) *
      ((∏ j ∈ Finset.Ico L (n + nAdd), ((2 * (j : ℝ) + 1) / ‖z‖ - 1)) ^ 2)⁻¹ ≤ b)
    (hM : 1 + (2 * (k : ℝ) + 1) / ‖z‖ + ‖z‖ ^ 2 / ((2 * k + 3) * z.im) ≤ M) (hsm : b * M ≤ 1 / 2) :
    ricPsi k z ≠ 0 ∧ ∃ D v, penaD1 n z nAdd = .ok D ∧ D[k]? = some v ∧ ‖v - deriv (ricPsi k) z / ricPsi k z‖ ≤ 2 * b * M ^ 2 := by
  have hz0 : z ≠ 0 := by rintro rfl; simp at him
  obtain ⟨hZ, -⟩ := admixture_zeta hz0 him.le (n + nAdd) hN
  have share := (admixture_share hz0 him.le (n + nAdd) hN k L hkL hL hs hLN).trans hb
  have hsp := deriv_zeta_split (n + nAdd) hz0
  have e := stub_zeta (n + nAdd) k z z hZ hsp
  obtain ⟨p0, -, -⟩ := psi_ratio_im him k
  obtain ⟨h1, h2⟩ := d1Val_closed_or hz0 (eps := 1e-30) (by norm_num) (n + nAdd) (n + nAdd - k) k (by omega) fun i hi hiN =>
    .inr (den_im hz0 him hg (n + nAdd) (n + nAdd - (i + 1)) i (by omega)).2
  refine ⟨p0, _, _, penaD1_eq n z nAdd _ hAdd, by rw [tab_getElem?, if_pos hk], ?_⟩
  rw [guardAdd_of_le hz, h2, stub_error _ _ hz0 p0 h1]
  have hq := psi_zeta_ge k him
  have hzt := zeta_ne k hz0 him.le
  set q := ricPsi k z * ricZeta k z with hqd
  have hM0 : 0 < M := lt_of_lt_of_le (by positivity) hM
  have hq1 : 1 ≤ M * ‖q‖ := hq.trans (mul_le_mul_of_nonneg_right hM (norm_nonneg _))
  set E := deriv (ricPsi (n + nAdd)) z / deriv (ricZeta (n + nAdd)) z with hE
  have hE2 : ‖E * ricZeta k z ^ 2‖ ≤ b := by rw [norm_mul, norm_pow]; exact share
  have hst : stubWave (n + nAdd) z k z = I * deriv (ricZeta (n + nAdd)) z * (ricPsi k z - E * ricZeta k z) := by
    rw [e]
    generalize stubWave (n + nAdd) z k z = w
    field_simp
    rw [I_sq]
    ring
  have hw0 : ricPsi k z - E * ricZeta k z ≠ 0 := by
    intro h0
    rw [hst, h0, mul_zero] at h1
    exact h1 rfl
  have hd : q - E * ricZeta k z ^ 2 ≠ 0 := by
    have : q - E * ricZeta k z ^ 2 = ricZeta k z * (ricPsi k z - E * ricZeta k z) := by rw [hqd]; ring
    rw [this]; exact mul_ne_zero hzt hw0
  have hv : deriv (ricPsi (n + nAdd)) z / (ricPsi k z * stubWave (n + nAdd) z k z) =
      -I * (E * ricZeta k z ^ 2 / (q * (q - E * ricZeta k z ^ 2))) := by
    rw [hst]
    have hP : deriv (ricPsi (n + nAdd)) z = E * deriv (ricZeta (n + nAdd)) z := by rw [hE, div_mul_cancel₀ _ hZ]
    have hd' : q - E * ricZeta k z ^ 2 = ricZeta k z * (ricPsi k z - E * ricZeta k z) := by rw [hqd]; ring
    rw [hP, hd', hqd]
    clear_value E
    field_simp
    rw [I_sq]
    ring
  rw [hv, norm_mul, norm_neg, norm_I, one_mul, norm_div, norm_mul q]
  have hq0 : 0 < ‖q‖ := by
    by_contra h
    have : ‖q‖ = 0 := le_antisymm (not_lt.1 h) (norm_nonneg _)
    rw [this, mul_zero] at hq1
    linarith
  have hdn : ‖q‖ - b ≤ ‖q - E * ricZeta k z ^ 2‖ := by linarith [norm_sub_norm_le q (E * ricZeta k z ^ 2)]
  have hb0 : 0 ≤ b := (norm_nonneg _).trans hE2
  have h5 : 1 ≤ 2 * M * ‖q - E * ricZeta k z ^ 2‖ := by nlinarith
  rw [div_le_iff₀ (mul_pos hq0 (norm_pos_iff.2 hd))]
  have h6 : 1 ≤ (M * ‖q‖) * (2 * M * ‖q - E * ricZeta k z ^ 2‖) := by nlinarith
  calc _ ≤ b := hE2
    _ ≤ b * ((M * ‖q‖) * (2 * M * ‖q - E * ricZeta k z ^ 2‖)) := le_mul_of_one_le_right hb0 h6
    _ = _ := by ring

/-- `C85_absorbing` at `z = 3 + i`, order 1, which is below the argument, with `n = 8`. -/
example : ∃ D v, penaD1 ((8 : ℕ) : ℤ) (3 + I) = .ok D ∧ D[1]? = some v ∧ ‖v - deriv (ricPsi 1) (3 + I) / ricPsi 1 (3 + I)‖ ≤ 1e-20 := by
  have hn2 : ‖(3 : ℂ) + I‖ ^ 2 = 10 := by rw [← normSq_eq_norm_sq, normSq_apply]; norm_num
  have him : ((3 : ℂ) + I).im = 1 := by simp
  have s0 := norm_nonneg ((3 : ℂ) + I)
  have s1 : ‖(3 : ℂ) + I‖ ≤ 3.2 := by nlinarith
  have s2 : 3 ≤ ‖(3 : ℂ) + I‖ := by nlinarith
  generalize hr : ‖(3 : ℂ) + I‖ = r at *
  norm_num at s1
  have hpr : ∏ j ∈ Finset.Ico (4 : ℕ) 23, ((2 * (j : ℝ) + 1) / (16 / 5) - 1) ≤ ∏ j ∈ Finset.Ico (4 : ℕ) 23, ((2 * (j : ℝ) + 1) / r - 1) := by
    refine Finset.prod_le_prod (fun j hj => ?_) fun j _ => ?_
    · rw [Finset.mem_Ico] at hj
      have : (4 : ℝ) ≤ j := by exact_mod_cast hj.1
      rw [sub_nonneg, le_div_iff₀ (by norm_num)]
      linarith
    · gcongr
  have hpv : (10 : ℝ) ^ 15 ≤ ∏ j ∈ Finset.Ico (4 : ℕ) 23, ((2 * (j : ℝ) + 1) / (16 / 5) - 1) := by
    simp only [Finset.prod_Ico_eq_prod_range, Finset.prod_range_succ, Finset.prod_range_zero]
    norm_num
  obtain ⟨-, D, v, h1, h2, h3⟩ := C85_absorbing 8 15 1 4 (3 + I) (by rw [hr]; norm_num; linarith) (by rw [him]; norm_num)
    (by rw [hr, hn2, him]; norm_num) (by norm_num) (by norm_num) (by rw [hr]; norm_num; linarith) (by norm_num) (by norm_num)
    (by rw [hr]; push_cast; linarith) (by norm_num) (b := 1e-28) (M := 4) (by
      rw [hr]
      have h4 : ((8 + 15 : ℕ) : ℝ) = 23 := by norm_num
      rw [h4]
      have h5 : (23 + 1 + r) * r / (2 * (23 - r) ^ 2) ≤ 1 := by
        rw [div_le_one (by nlinarith)]
        nlinarith
      have h6 : ((∏ j ∈ Finset.Ico (4 : ℕ) (8 + 15), ((2 * (j : ℝ) + 1) / r - 1)) ^ 2)⁻¹ ≤ (((10 : ℝ) ^ 15) ^ 2)⁻¹ :=
        inv_anti₀ (by positivity) (pow_le_pow_left₀ (by positivity) (hpv.trans hpr) 2)
      refine (mul_le_mul h5 h6 (by positivity) (by norm_num)).trans ?_
      norm_num)
    (by
      rw [hr, hn2, him]
      have : (2 * ((1 : ℕ) : ℝ) + 1) / r ≤ 1 := by rw [div_le_one (by linarith)]; push_cast; linarith
      norm_num at this ⊢
      linarith) (by norm_num)
  refine ⟨D, v, h1, h2, h3.trans ?_⟩
  norm_num

/-- An order just below a positive number. -/
theorem last_below (x : ℝ) : ∃ K : ℕ, (K = 0 ∨ (K : ℝ) + 1 / 2 ≤ x) ∧ x ≤ K + 3 / 2 := by
  refine ⟨⌈x - 3 / 2⌉₊, ?_, by have := Nat.le_ceil (x - 3 / 2); linarith⟩
  rcases le_or_gt x (3 / 2) with h | h
  · left; exact Nat.ceil_eq_zero.2 (by linarith)
  · right; have := Nat.ceil_lt_add_one (a := x - 3 / 2) (by linarith); linarith

/-- Every kernel argument is one of the numbers that enter the truncation rule. -/
theorem runArgs_mem {k0 ne : ℂ} (hne : ne ≠ 0) {P : ℂ → Prop} : ∀ (L : List (ℝ × ℂ)) (rp : ℝ),
    (∀ l ∈ L, P (k0 * csqrt l.2 * (l.1 : ℂ))) →
    (∀ z ∈ List.zipWith (fun (l : ℝ × ℂ) (r : ℝ) => k0 * csqrt l.2 * (r : ℂ)) L (rp :: (L.map Prod.fst).dropLast), P z) →
    P (k0 * ne * (((rp :: L.map Prod.fst).getLastD 0 : ℝ) : ℂ)) →
    ∀ z ∈ runArgs (k0 * ne * (rp : ℂ)) (L.map fun l => (csqrt l.2 / ne, k0 * ne * (l.1 : ℂ))), P z := by
  intro L
  induction L with
  | nil => intro rp _ _ h z hz; simp only [List.map_nil, runArgs, List.mem_singleton] at hz; subst hz; simpa using h
  | cons l L ih =>
    intro rp h1 h2 h3 z hz
    simp only [List.map_cons, runArgs, List.mem_cons] at hz
    rcases hz with rfl | rfl | hz
    · have := h2 (k0 * csqrt l.2 * (rp : ℂ)) (by simp [List.zipWith_cons_cons])
      convert this using 1
      field_simp
    · have := h1 l (by simp)
      convert this using 1
      field_simp
    · refine ih l.1 (fun l' hl' => h1 l' (by simp [hl'])) ?_ ?_ z hz
      · intro w hw
        refine h2 w ?_
        rw [List.zipWith_cons_cons]
        refine List.mem_cons_of_mem _ ?_
        cases L with
        | nil => simp at hw
        | cons l' L' => exact hw
      · simpa using h3

theorem getLastD_fst : ∀ (L : List (ℝ × ℂ)), L ≠ [] → (L.map Prod.fst).getLastD 0 = (L.getLastD (0, 0)).1
  | [], h => absurd rfl h
  | [a], _ => rfl
  | a :: b :: L, _ => by simpa using getLastD_fst (b :: L) (by simp)

theorem kernelArgs_bound {p : Particle1} (hne : csqrt p.epsEnv ≠ 0) (hlen : p.epsLayers.length = p.rLayers.length)
    (h0 : p.rLayers ≠ []) {n : ℤ} (h : penaNmax [p.trunc] = .ok n) : ∀ z ∈ kernelArgs p.layers, ‖z‖ + 14.5 ≤ n := by
  obtain ⟨⟨w, hw, hwn⟩, hm⟩ := C25_pena h
  obtain ⟨h1, h2⟩ := hm p.trunc (by simp)
  have hx : ‖p.trunc.xOuter‖ + 14.5 ≤ n := by
    obtain ⟨w', hw', hge⟩ := (C25_wiscombe_ge ([p.trunc].map TruncEntry.xOuter)).2 (by simp)
    rw [hw] at hw'
    injection hw' with hw'
    subst hw'
    have := hge p.trunc.xOuter (by simp)
    have h3 : ((w : ℤ) : ℝ) + 15 ≤ n := by exact_mod_cast hwn
    norm_num
    linarith
  obtain ⟨k0, rs, es, ee⟩ := p
  simp only at hlen h0 hne
  have hL : (⟨k0, rs, es, ee⟩ : Particle1).layers =
      (rs.zip es).map fun l => (csqrt l.2 / csqrt ee, k0 * csqrt ee * (l.1 : ℂ)) := by
    unfold Particle1.layers layersOf
    simp only
    rw [List.zip_map, ← List.zip_swap rs es, List.map_map]
    rfl
  have hfst : (rs.zip es).map Prod.fst = rs := List.map_fst_zip (by omega)
  rw [hL]
  simp only [Particle1.trunc, TruncEntry.mx, TruncEntry.mxPrev, TruncEntry.xOuter] at h1 h2 hx
  generalize hz : rs.zip es = L at *
  cases L with
  | nil => rw [← hfst] at h0; simp at h0
  | cons l L =>
    simp only [List.map_cons, kernelArgs]
    intro z hzm
    rw [List.mem_cons] at hzm
    rcases hzm with rfl | hzm
    · have := h1 (k0 * csqrt l.2 * (l.1 : ℂ)) (by simp)
      convert this using 3
      field_simp
    · refine runArgs_mem (P := fun z => ‖z‖ + 14.5 ≤ n) hne L l.1 ?_ ?_ ?_ z hzm
      · intro l' hl'
        refine h1 _ ?_
        rw [List.map_cons, List.mem_cons]
        right
        exact List.mem_map.2 ⟨l', hl', rfl⟩
      · intro w hw
        refine h2 w ?_
        rw [List.map_cons, List.zipWith_cons_cons, List.mem_cons]
        right
        cases L with
        | nil => simp at hw
        | cons l' L' => simpa using hw
      · convert hx using 5
        exact getLastD_fst (l :: L) (by simp)

/-- C85: with the order that `mie_coefficients` chooses itself, at every argument at which `pena_D1_n` is called, the returned
logarithmic derivatives of all orders not below the size `|z|` of the argument have an error of at most
`2 ((1 + sqrt(32/|z|))(1 + 32/|z|))^-14`; for `|z| ≤ 32` that is below `1e-8`.

Partial: the full statement covers the orders below the size of the argument too. There `psi_k` has zeros and the difference of
logarithmic derivatives is not bounded; `C85_own_order_real` covers these orders for real arguments. -/
theorem C85_own_order_partial {B : Backends} {p : Particle1} {backend w : String} {o : MieOut} (hb : backend.toLower = "pena")
    (h : mieCoefficients codeD1 B p backend w none = .ok o) (hne : p.epsEnv ≠ 0) :
    ∀ z ∈ kernelArgs p.layers, 1e-30 ≤ ‖z‖ → ∀ k : ℕ, (k : ℤ) ≤ o.nMax → ‖z‖ ≤ k + 3 / 2 →
      ricPsi k z ≠ 0 ∧ ∃ D v, penaD1 o.nMax z = .ok D ∧ D[k]? = some v ∧
        ‖v - deriv (ricPsi k) z / ricPsi k z‖ ≤ 2 * (((1 + Real.sqrt (32 / ‖z‖)) * (1 + 32 / ‖z‖))⁻¹) ^ 14 ∧
        (‖z‖ ≤ 32 → ‖v - deriv (ricPsi k) z / ricPsi k z‖ < 1e-8) := by
  obtain ⟨hrun, hord, -⟩ := mieCoefficients_pena_inv' hb h
  intro z hz hz1 k hk hs
  have hsq : csqrt p.epsEnv ≠ 0 := by
    intro h0
    have := csqrt_sq p.epsEnv
    rw [h0] at this
    exact hne (by rw [← this]; norm_num)
  have hn := kernelArgs_bound hsq hrun.len hrun.ne hord z hz
  obtain ⟨n, hnn⟩ : ∃ n : ℕ, o.nMax = n := ⟨o.nMax.toNat, (Int.toNat_of_nonneg (by have := hrun.pos; omega)).symm⟩
  rw [hnn] at hk hn ⊢
  have hn' : ‖z‖ + 14.5 ≤ (n : ℝ) := by exact_mod_cast hn
  have hzp : 0 < ‖z‖ := lt_of_lt_of_le (by norm_num) hz1
  obtain ⟨h0, D, v, h1, h2, h3⟩ := C85_above n 15 k z hz1 (by norm_num) (by exact_mod_cast hk) hs (by norm_num at hn' ⊢; linarith)
  have hd : ∀ j : ℕ, k + 1 ≤ j → 0 ≤ (2 * (j : ℝ) + 1) / ‖z‖ - 2 := by
    intro j hj
    have hj' : (k : ℝ) + 1 ≤ j := by exact_mod_cast hj
    rw [sub_nonneg, le_div_iff₀ hzp]
    linarith
  have h32 : ∀ j : ℕ, n + 1 ≤ j → 32 / ‖z‖ ≤ (2 * (j : ℝ) + 1) / ‖z‖ - 2 := by
    intro j hj
    have hj' : (n : ℝ) + 1 ≤ j := by exact_mod_cast hj
    have e : (2 * (j : ℝ) + 1) / ‖z‖ - 2 = (2 * (j : ℝ) + 1 - 2 * ‖z‖) / ‖z‖ := by field_simp
    rw [e]
    gcongr
    norm_num at hn'
    linarith
  have key : ∏ j ∈ Finset.Ico (k + 1) (n + 15),
      ((1 + Real.sqrt ((2 * (j : ℝ) + 1) / ‖z‖ - 2)) * (1 + ((2 * (j : ℝ) + 1) / ‖z‖ - 2)))⁻¹ ≤
      (((1 + Real.sqrt (32 / ‖z‖)) * (1 + 32 / ‖z‖))⁻¹) ^ 14 := by
    have hkn : k ≤ n := by exact_mod_cast hk
    refine le_trans (prod_tail_le (b := n + 1) (by omega) (by omega) ?_ ?_) (le_of_eq (by congr 1; omega))
    · intro j hj _
      have := hd j hj
      have s0 := Real.sqrt_nonneg ((2 * (j : ℝ) + 1) / ‖z‖ - 2)
      refine ⟨by positivity, inv_le_one_of_one_le₀ ?_⟩
      nlinarith [mul_nonneg s0 this]
    · intro j hj _
      have := hd j (by omega)
      have h5 := h32 j hj
      have h6 := Real.sqrt_le_sqrt h5
      apply inv_anti₀ (by positivity)
      have := Real.sqrt_nonneg (32 / ‖z‖)
      gcongr
  have h4 := h3.trans (mul_le_mul_of_nonneg_left key (by norm_num))
  refine ⟨h0, D, v, h1, h2, h4, fun hzs => ?_⟩
  refine lt_of_le_of_lt h4 ?_
  have h7 : 1 ≤ 32 / ‖z‖ := by rw [le_div_iff₀ hzp]; linarith
  have h8 : 1 ≤ Real.sqrt (32 / ‖z‖) := by rw [Real.one_le_sqrt]; exact h7
  have h9 : ((1 + Real.sqrt (32 / ‖z‖)) * (1 + 32 / ‖z‖))⁻¹ ≤ 1 / 4 := by
    rw [one_div]
    apply inv_anti₀ (by norm_num)
    nlinarith
  have h10 : (((1 + Real.sqrt (32 / ‖z‖)) * (1 + 32 / ‖z‖))⁻¹) ^ 14 ≤ (1 / 4) ^ 14 :=
    pow_le_pow_left₀ (by positivity) h9 14
  have h11 : 2 * ((1 : ℝ) / 4) ^ 14 < 1e-8 := by norm_num
  linarith

/-- C85: with the order that `mie_coefficients` chooses itself, at every real argument (lossless layer) at which `pena_D1_n` is called,
the returned values at all orders are the logarithmic derivatives of one solution `psi_k - e chi_k` with `|e| ≤ 1e-9` for arguments up
to 32 and `|e| ≤ 1e-5` up to 64. -/
theorem C85_own_order_real {B : Backends} {p : Particle1} {backend w : String} {o : MieOut} (hb : backend.toLower = "pena")
    (h : mieCoefficients codeD1 B p backend w none = .ok o) (hne : p.epsEnv ≠ 0) :
    ∀ x : ℝ, (x : ℂ) ∈ kernelArgs p.layers → 1e-30 ≤ x → x ≤ 64 →
      ∃ D, ∃ e : ℂ, penaD1 o.nMax (x : ℂ) = .ok D ∧ ‖e‖ ≤ 1e-5 ∧ (x ≤ 32 → ‖e‖ ≤ 1e-9) ∧
        ∀ k : ℕ, (k : ℤ) ≤ o.nMax → (∀ i, k ≤ i → (i : ℝ) + 3 / 2 < x →
            1e-30 * ‖ricPsi (i + 1) x - e * ricChi (i + 1) x‖ ≤ ‖ricPsi i x - e * ricChi i x‖) →
          ricPsi k x - e * ricChi k x ≠ 0 ∧
          D[k]? = some ((deriv (ricPsi k) x - e * deriv (ricChi k) x) / (ricPsi k x - e * ricChi k x)) := by
  obtain ⟨hrun, hord, -⟩ := mieCoefficients_pena_inv' hb h
  intro x hz hx hx64
  have hx0 : 0 < x := lt_of_lt_of_le (by norm_num) hx
  have hnx : ‖(x : ℂ)‖ = x := by rw [Complex.norm_real, Real.norm_eq_abs, abs_of_pos hx0]
  have hsq : csqrt p.epsEnv ≠ 0 := by
    intro h0
    have := csqrt_sq p.epsEnv
    rw [h0] at this
    exact hne (by rw [← this]; norm_num)
  have hn := kernelArgs_bound hsq hrun.len hrun.ne hord _ hz
  rw [hnx] at hn
  obtain ⟨n, hnn⟩ : ∃ n : ℕ, o.nMax = n := ⟨o.nMax.toNat, (Int.toNat_of_nonneg (by have := hrun.pos; omega)).symm⟩
  rw [hnn] at hn ⊢
  have hn' : x + 14.5 ≤ (n : ℝ) := by exact_mod_cast hn
  norm_num at hn'
  obtain ⟨K, hK, hK'⟩ := last_below x
  have hKn : K + 1 + 28 ≤ n + 15 := by
    have h1 : (K : ℝ) ≤ x ∨ K = 0 := by
      rcases hK with h | h
      · exact .inr h
      · left; linarith
    have h2 : (K : ℝ) + 14 ≤ n := by
      rcases h1 with h1 | h1
      · linarith
      · subst h1; push_cast; linarith
    have : K + 14 ≤ n := by exact_mod_cast h2
    omega
  have hd : ∀ j : ℕ, (1 + Real.sqrt ((2 * (j : ℝ) + 1) / x - 2)) * (1 + ((2 * (j : ℝ) + 1) / x - 2)) = damp (x : ℂ) j := by
    intro j; unfold damp excess; rw [hnx]
  have b64 := depthQ_bound (X := 64) (by norm_num) hx0 (by exact_mod_cast hx64) K (n + 15) hK' hKn
  have q64 := (Rat.cast_le (K := ℝ)).2 depthQ_64
  push_cast at q64
  have hP : (0 : ℝ) ≤ 1 + x ^ 2 := by positivity
  have p64 : (1 : ℝ) + x ^ 2 ≤ 1 + 64 ^ 2 := by nlinarith
  have m64 : (2 * ∏ j ∈ Finset.Ico (K + 1) (n + 15), (damp (x : ℂ) j)⁻¹) * (1 + x ^ 2) ≤ 1 / (2 * 10 ^ 5) := by
    calc _ ≤ (1 / (2 * 10 ^ 5 * (1 + 64 ^ 2))) * (1 + x ^ 2) := mul_le_mul_of_nonneg_right (b64.trans q64) hP
      _ ≤ (1 / (2 * 10 ^ 5 * (1 + 64 ^ 2))) * (1 + 64 ^ 2) := mul_le_mul_of_nonneg_left p64 (by norm_num)
      _ = _ := by norm_num
  obtain ⟨D, e, h1, h2, h3⟩ := C85_real_argument n 15 K x hx (by norm_num) (by push_cast; linarith) (by omega) hK hK' (by
    simp only [hd]; refine m64.trans ?_; norm_num)
  simp only [hd] at h2
  refine ⟨D, e, h1, ?_, fun hx32 => ?_, fun k hk hg => h3 k (by exact_mod_cast hk) hg⟩
  · rw [mul_assoc] at h2
    refine h2.trans ((mul_le_mul_of_nonneg_left m64 (by norm_num)).trans ?_)
    norm_num
  · have b32 := depthQ_bound (X := 32) (by norm_num) hx0 (by exact_mod_cast hx32) K (n + 15) hK' hKn
    have q32 := (Rat.cast_le (K := ℝ)).2 depthQ_32
    push_cast at q32
    have p32 : (1 : ℝ) + x ^ 2 ≤ 1 + 32 ^ 2 := by nlinarith
    have m32 : (2 * ∏ j ∈ Finset.Ico (K + 1) (n + 15), (damp (x : ℂ) j)⁻¹) * (1 + x ^ 2) ≤ 1 / (2 * 10 ^ 9) := by
      calc _ ≤ (1 / (2 * 10 ^ 9 * (1 + 32 ^ 2))) * (1 + x ^ 2) := mul_le_mul_of_nonneg_right (b32.trans q32) hP
        _ ≤ (1 / (2 * 10 ^ 9 * (1 + 32 ^ 2))) * (1 + 32 ^ 2) := mul_le_mul_of_nonneg_left p32 (by norm_num)
        _ = _ := by norm_num
    rw [mul_assoc] at h2
    refine h2.trans ((mul_le_mul_of_nonneg_left m32 (by norm_num)).trans ?_)
    norm_num

theorem csqrt_ne {e : ℂ} (h : e ≠ 0) : csqrt e ≠ 0 := by
  intro h0
  have := csqrt_sq e
  rw [h0] at this
  exact h (by rw [← this]; norm_num)

/-- The orders between the argument and the start order, for the order that the truncation rule gives. -/
theorem depth_orders (z : ℂ) (n : ℕ) (hn : ‖z‖ + 14.5 ≤ (n : ℝ)) : ∃ K : ℕ, (K = 0 ∨ (K : ℝ) + 1 / 2 ≤ ‖z‖) ∧ ‖z‖ ≤ K + 3 / 2 ∧
    K + 1 + 28 ≤ n + 15 ∧ ‖z‖ + 29.5 ≤ ((n + 15 : ℕ) : ℝ) := by
  norm_num at hn
  have h0 := norm_nonneg z
  obtain ⟨K, hK, hK'⟩ := last_below ‖z‖
  refine ⟨K, hK, hK', ?_, by norm_num; linarith⟩
  have h2 : (K : ℝ) + 14 ≤ n := by
    rcases hK with rfl | h1
    · push_cast; linarith
    · linarith
  have : K + 14 ≤ n := by exact_mod_cast h2
  omega

/-- C85: with the order that `mie_coefficients` chooses itself, at every argument with `Im z ≥ 0` (lossless or absorbing layer) at which
`pena_D1_n` is called, the returned values at all orders are the logarithmic derivatives of one solution `psi_k - e zeta_k` with
`|e| ≤ 1e-13 exp(2 Im z)` for `|z| ≤ 32` and `|e| ≤ 1e-7 exp(2 Im z)` for `|z| ≤ 64`. -/
theorem C85_own_order_complex {B : Backends} {p : Particle1} {backend w : String} {o : MieOut} (hb : backend.toLower = "pena")
    (h : mieCoefficients codeD1 B p backend w none = .ok o) (hne : p.epsEnv ≠ 0) :
    ∀ z ∈ kernelArgs p.layers, 1e-30 ≤ ‖z‖ → 0 ≤ z.im → ‖z‖ ≤ 64 →
      ∃ D, ∃ e : ℂ, penaD1 o.nMax z = .ok D ∧ ‖e‖ ≤ 1e-7 * Real.exp (2 * z.im) ∧ (‖z‖ ≤ 32 → ‖e‖ ≤ 1e-13 * Real.exp (2 * z.im)) ∧
        ∀ k : ℕ, (k : ℤ) ≤ o.nMax → ((∀ i, k ≤ i → (i : ℝ) + 3 / 2 < ‖z‖ →
            1e-30 * ‖ricPsi (i + 1) z - e * ricZeta (i + 1) z‖ ≤ ‖ricPsi i z - e * ricZeta i z‖) ∨
            (0 < z.im ∧ 1e-30 * ‖z‖ ^ 2 ≤ z.im)) →
          ricPsi k z - e * ricZeta k z ≠ 0 ∧
          D[k]? = some ((deriv (ricPsi k) z - e * deriv (ricZeta k) z) / (ricPsi k z - e * ricZeta k z)) := by
  obtain ⟨hrun, hord, -⟩ := mieCoefficients_pena_inv' hb h
  intro z hz hz1 him hz64
  have hz0 : z ≠ 0 := by rintro rfl; norm_num at hz1
  obtain ⟨n, hnn⟩ : ∃ n : ℕ, o.nMax = n := ⟨o.nMax.toNat, (Int.toNat_of_nonneg (by have := hrun.pos; omega)).symm⟩
  have hn := kernelArgs_bound (csqrt_ne hne) hrun.len hrun.ne hord z hz
  rw [hnn] at hn ⊢
  obtain ⟨K, -, hK', hKn, hN⟩ := depth_orders z n (by exact_mod_cast hn)
  have b64 := shareQ_bound (X := 64) (by norm_num) hz0 (by exact_mod_cast hz64) K (n + 15) hK' hKn hN
  have q64 := (Rat.cast_le (K := ℝ)).2 shareQ_64
  have hN' : ‖z‖ < ((n + 15 : ℕ) : ℝ) := by norm_num at hN ⊢; linarith
  push_cast at q64
  obtain ⟨D, e, h1, h2, h3, h4⟩ := C85_complex_argument n 15 K z hz1 him (by norm_num) hN' (by omega) hK' le_rfl
  refine ⟨D, e, h1, h2.trans ?_, fun hz32 => h2.trans ?_, fun k hk hg => h4 k (by exact_mod_cast hk) hg⟩
  · refine mul_le_mul_of_nonneg_right (b64.trans (q64.trans ?_)) (Real.exp_pos _).le
    norm_num
  · have b32 := shareQ_bound (X := 32) (by norm_num) hz0 (by exact_mod_cast hz32) K (n + 15) hK' hKn hN
    have q32 := (Rat.cast_le (K := ℝ)).2 shareQ_32
    push_cast at q32
    refine mul_le_mul_of_nonneg_right (b32.trans (q32.trans ?_)) (Real.exp_pos _).le
    norm_num

/-- C85: with the order that `mie_coefficients` chooses itself, at every argument of an absorbing layer at which `pena_D1_n` is called and
at every order below the argument, the returned value is the logarithmic derivative of `psi_k` up to `2e-13 M²` for `|z| ≤ 32`,
`Im z ≥ 1e-9`, and up to `2e-7 M²` for `|z| ≤ 64`, `Im z ≥ 1e-3`, where `M = 4 + |z|²/(3 Im z)`. (Orders above the argument:
`C85_own_order_partial`.) -/
theorem C85_own_order_absorbing {B : Backends} {p : Particle1} {backend w : String} {o : MieOut} (hb : backend.toLower = "pena")
    (h : mieCoefficients codeD1 B p backend w none = .ok o) (hne : p.epsEnv ≠ 0) :
    ∀ z ∈ kernelArgs p.layers, 1 ≤ ‖z‖ → ∀ k : ℕ, (k : ℝ) ≤ ‖z‖ →
      (‖z‖ ≤ 32 → 1e-9 ≤ z.im → ricPsi k z ≠ 0 ∧ ∃ D v, penaD1 o.nMax z = .ok D ∧ D[k]? = some v ∧
        ‖v - deriv (ricPsi k) z / ricPsi k z‖ ≤ 2e-13 * (4 + ‖z‖ ^ 2 / (3 * z.im)) ^ 2) ∧
      (‖z‖ ≤ 64 → 1e-3 ≤ z.im → ricPsi k z ≠ 0 ∧ ∃ D v, penaD1 o.nMax z = .ok D ∧ D[k]? = some v ∧
        ‖v - deriv (ricPsi k) z / ricPsi k z‖ ≤ 2e-7 * (4 + ‖z‖ ^ 2 / (3 * z.im)) ^ 2) := by
  obtain ⟨hrun, hord, -⟩ := mieCoefficients_pena_inv' hb h
  intro z hz hz1 k hk
  have hzp : 0 < ‖z‖ := by linarith
  have hz0 : z ≠ 0 := norm_pos_iff.1 hzp
  obtain ⟨n, hnn⟩ : ∃ n : ℕ, o.nMax = n := ⟨o.nMax.toNat, (Int.toNat_of_nonneg (by have := hrun.pos; omega)).symm⟩
  have hn := kernelArgs_bound (csqrt_ne hne) hrun.len hrun.ne hord z hz
  rw [hnn] at hn ⊢
  have hn' : ‖z‖ + 14.5 ≤ (n : ℝ) := by exact_mod_cast hn
  obtain ⟨K, -, hK', hKn, hN⟩ := depth_orders z n hn'
  norm_num at hn'
  have hkn : k ≤ n := by
    have : (k : ℝ) ≤ n := by linarith
    exact_mod_cast this
  have hkK : k ≤ K + 1 := by
    have : (k : ℝ) < K + 2 := by linarith
    have : k < K + 2 := by exact_mod_cast this
    omega
  have hN' : ‖z‖ < ((n + 15 : ℕ) : ℝ) := by norm_num at hN ⊢; linarith
  have main : ∀ (b im0 : ℝ), (((n + 15 : ℕ) : ℝ) + 1 + ‖z‖) * ‖z‖ / (2 * (((n + 15 : ℕ) : ℝ) - ‖z‖) ^ 2) *
      ((∏ j ∈ Finset.Ico (K + 1) (n + 15), ((2 * (j : ℝ) + 1) / ‖z‖ - 1)) ^ 2)⁻¹ ≤ b → ‖z‖ ≤ 64 → 1e-9 ≤ im0 → im0 ≤ z.im → 0 ≤ b →
      b * (4 + ‖z‖ ^ 2 / (3 * im0)) ≤ 1 / 2 →
      ricPsi k z ≠ 0 ∧ ∃ D v, penaD1 (n : ℤ) z = .ok D ∧ D[k]? = some v ∧
        ‖v - deriv (ricPsi k) z / ricPsi k z‖ ≤ 2 * b * (4 + ‖z‖ ^ 2 / (3 * z.im)) ^ 2 := by
    intro b im0 hbb h64 h9 him hb0 hsm
    have h9' : (0 : ℝ) < im0 := lt_of_lt_of_le (by norm_num) h9
    have him0 : 0 < z.im := by linarith
    refine C85_absorbing n 15 k (K + 1) z (by norm_num; linarith) him0 ?_ (by norm_num) hkn hN' hkK (by omega)
      (by push_cast; linarith) (by omega) hbb ?_ ?_
    · have h1 : ‖z‖ ^ 2 ≤ 64 ^ 2 := pow_le_pow_left₀ (norm_nonneg _) h64 2
      norm_num at h1 h9 ⊢
      linarith
    · have h1 : (2 * (k : ℝ) + 1) / ‖z‖ ≤ 3 := by rw [div_le_iff₀ hzp]; linarith
      have h2 : ‖z‖ ^ 2 / ((2 * (k : ℝ) + 3) * z.im) ≤ ‖z‖ ^ 2 / (3 * z.im) := by
        have : (3 : ℝ) ≤ 2 * k + 3 := by linarith [Nat.cast_nonneg (α := ℝ) k]
        gcongr
      linarith
    · refine le_trans ?_ hsm
      gcongr
  constructor
  · intro hz32 him
    have b32 := shareQ_bound (X := 32) (by norm_num) hz0 (by exact_mod_cast hz32) K (n + 15) hK' hKn hN
    have q32 := (Rat.cast_le (K := ℝ)).2 shareQ_32
    push_cast at q32
    obtain ⟨p0, D, v, h1, h2, h3⟩ := main (1 / 10 ^ 13) 1e-9 (b32.trans q32) (by linarith) le_rfl him (by norm_num) (by
      have h1 : ‖z‖ ^ 2 ≤ 32 ^ 2 := pow_le_pow_left₀ (norm_nonneg _) hz32 2
      have h2 : ‖z‖ ^ 2 / (3 * 1e-9) ≤ 32 ^ 2 / (3 * 1e-9) := div_le_div_of_nonneg_right h1 (by norm_num)
      norm_num at h2 ⊢
      linarith)
    exact ⟨p0, D, v, h1, h2, h3.trans (le_of_eq (by norm_num))⟩
  · intro hz64 him
    have b64 := shareQ_bound (X := 64) (by norm_num) hz0 (by exact_mod_cast hz64) K (n + 15) hK' hKn hN
    have q64 := (Rat.cast_le (K := ℝ)).2 shareQ_64
    push_cast at q64
    obtain ⟨p0, D, v, h1, h2, h3⟩ := main (1 / 10 ^ 7) 1e-3 (b64.trans q64) hz64 (by norm_num) him (by norm_num) (by
      have h1 : ‖z‖ ^ 2 ≤ 64 ^ 2 := pow_le_pow_left₀ (norm_nonneg _) hz64 2
      have h2 : ‖z‖ ^ 2 / (3 * 1e-3) ≤ 64 ^ 2 / (3 * 1e-3) := div_le_div_of_nonneg_right h1 (by norm_num)
      norm_num at h2 ⊢
      linarith)
    exact ⟨p0, D, v, h1, h2, h3.trans (le_of_eq (by norm_num))⟩

/-- C85: far beyond the start order the returned value is wrong. For real arguments `z ≥ 100 (n+15)²` (up to the guard) the
logarithmic derivative that `pena_D1_n(n, z)` returns at order `n` is below `-z/(30(n+8))`, however `z` lies relative to
the zeros of `psi_n`. Where `sin² z = cos² z` the exact one has modulus at most 2, so the error is at least `3(n+15)`. -/
theorem C85_far (n : ℕ) (x : ℝ) (h1 : 100 * ((n : ℝ) + 15) ^ 2 ≤ x) (h2 : x ≤ 1e29) :
    ∃ D, ∃ v : ℝ, penaD1 n (x : ℂ) = .ok D ∧ D[n]? = some (v : ℂ) ∧ v ≤ -(x / (30 * ((n : ℝ) + 8))) ∧
      (Real.sin x ^ 2 = Real.cos x ^ 2 → ricPsi n (x : ℂ) ≠ 0 ∧ ‖deriv (ricPsi n) (x : ℂ) / ricPsi n (x : ℂ)‖ ≤ 2 ∧
        3 * ((n : ℝ) + 15) ≤ ‖(v : ℂ) - deriv (ricPsi n) (x : ℂ) / ricPsi n (x : ℂ)‖) := by
  have hn : (0 : ℝ) ≤ n := by positivity
  have hx : 1 ≤ x := by nlinarith
  obtain ⟨a, e, ha⟩ := far_value n h1 h2
  have hg : guardAdd (1e-30) (x : ℂ) = (x : ℂ) := guardAdd_of_le (norm_ofReal_ge (by
    rw [abs_of_pos (by linarith)]; norm_num; linarith))
  have hv : -(a * x) ≤ -(x / (30 * ((n : ℝ) + 8))) := by
    have := mul_le_mul_of_nonneg_right ha (by linarith : 0 ≤ x)
    have e2 : 1 / (30 * ((n : ℝ) + 8)) * x = x / (30 * ((n : ℝ) + 8)) := by ring
    linarith
  refine ⟨_, -(a * x), penaD1_eq n (x : ℂ) 15 _ (by norm_num), ?_, hv, fun hsc => ?_⟩
  · rw [tab_getElem?, if_pos le_rfl, hg]
    exact congrArg some e
  · obtain ⟨p1, p2⟩ := far_exact n h1 hsc
    refine ⟨p1, p2, ?_⟩
    have h3 := norm_sub_norm_le ((-(a * x) : ℝ) : ℂ) (deriv (ricPsi n) (x : ℂ) / ricPsi n (x : ℂ))
    have p2' : ‖deriv (ricPsi n) (x : ℂ) / ricPsi n (x : ℂ)‖ ≤ 2 := p2
    have h4 : x / (30 * ((n : ℝ) + 8)) ≤ ‖((-(a * x) : ℝ) : ℂ)‖ := norm_ofReal_ge (by
      rw [abs_of_nonpos (hv.trans (by have : 0 ≤ x / (30 * ((n : ℝ) + 8)) := by positivity
                                      linarith))]
      linarith)
    have h5 : 3 * ((n : ℝ) + 15) + 2 ≤ x / (30 * ((n : ℝ) + 8)) := by
      rw [le_div_iff₀ (by positivity)]
      nlinarith
    linarith

/-- The hypotheses of `C85_far` hold for `n = 1` at `10000 pi + pi/4`. -/
example : 100 * (((1 : ℕ) : ℝ) + 15) ^ 2 ≤ Real.pi / 4 + (5000 : ℕ) * (2 * Real.pi) ∧ Real.pi / 4 + (5000 : ℕ) * (2 * Real.pi) ≤ 1e29 ∧
    Real.sin (Real.pi / 4 + (5000 : ℕ) * (2 * Real.pi)) ^ 2 = Real.cos (Real.pi / 4 + (5000 : ℕ) * (2 * Real.pi)) ^ 2 := by
  have h1 := Real.pi_gt_three
  have h2 := Real.pi_lt_four
  refine ⟨by norm_num; linarith, by norm_num; linarith, ?_⟩
  rw [Real.sin_add_nat_mul_two_pi, Real.cos_add_nat_mul_two_pi, Real.sin_pi_div_four, Real.cos_pi_div_four]

/-! ## The order decides the values of lower orders -/

/-- A sphere of relative permittivity 100 and size parameter 3 in vacuum. -/
noncomputable def denseSphere : Particle1 where
  k0 := 1
  rLayers := [3]
  epsLayers := [100]
  epsEnv := 1

theorem dense_layers : denseSphere.layers = [((10 : ℂ), (3 : ℂ))] := by
  have h1 : csqrt (100 : ℂ) = 10 := by
    have := csqrt_ofReal (e := 100) (by norm_num)
    rw [show (100 : ℝ) = 10 ^ 2 by norm_num, Real.sqrt_sq (by norm_num)] at this
    push_cast at this
    rw [← this]; norm_num
  have h2 : csqrt (1 : ℂ) = 1 := by
    have := csqrt_ofReal (e := 1) (by norm_num)
    rw [Real.sqrt_one] at this
    exact_mod_cast this
  unfold Particle1.layers layersOf denseSphere
  simp [h1, h2]

theorem dense_order : penaNmax [denseSphere.trunc] = .ok 45 := by
  have h1 : csqrt (100 : ℂ) = 10 := by
    have := csqrt_ofReal (e := 100) (by norm_num)
    rw [show (100 : ℝ) = 10 ^ 2 by norm_num, Real.sqrt_sq (by norm_num)] at this
    push_cast at this
    rw [← this]; norm_num
  have h2 : csqrt (1 : ℂ) = 1 := by
    have := csqrt_ofReal (e := 1) (by norm_num)
    rw [Real.sqrt_one] at this
    exact_mod_cast this
  have hs : penaNStop 3 = 10 := by
    unfold penaNStop
    rw [if_pos (by norm_num)]
    have a : (1.4 : ℝ) ≤ 3 ^ (1 / 3 : ℝ) := le_rpow_third (by norm_num) (by norm_num)
    have b : (3 : ℝ) ^ (1 / 3 : ℝ) ≤ 1.5 := rpow_third_le (by norm_num) (by norm_num) (by norm_num)
    apply torchRound_eq <;> norm_num at a b ⊢ <;> linarith
  simp [penaNmax, Particle1.trunc, denseSphere, TruncEntry.xOuter, TruncEntry.mx, TruncEntry.mxPrev, maxAbs, h1, h2]
  change Except.ok (torchRound (max ((penaNStop 3 : ℤ) : ℝ) (max (10 * 3) 0) + 15)) = Except.ok 45
  rw [hs, torchRound_eq (n := 45)] <;> norm_num

/-- Square modulus, over `sin² 3`, of a coefficient at order 1 of the dense sphere: `v` is the value used for `D_1(30)`, `d`
the one for `D_0(3)`, and `w` is `1/m` or `m`. -/
def denseRatio (v d w : ℚ) : ℚ := ((w * v + 1 / 3) * (1 / 3 - d) - 1) ^ 2 / (((w * v + 1 / 3) / 3 - 1) ^ 2 + (w * v + 1 / 3) ^ 2)

theorem sin_three : (0.0198 : ℝ) ≤ Real.sin 3 ^ 2 ∧ Real.sin 3 ^ 2 ≤ 0.02005 := by
  have h1 := Real.pi_gt_d6
  have h2 := Real.pi_lt_d6
  have e : Real.sin 3 = Real.sin (Real.pi - 3) := (Real.sin_pi_sub 3).symm
  have u : Real.sin (Real.pi - 3) ≤ Real.pi - 3 := Real.sin_le (by linarith)
  have l := Real.sin_gt_sub_cube (x := Real.pi - 3) (by linarith)
  have c : (Real.pi - 3) ^ 3 ≤ 0.1416 ^ 3 := pow_le_pow_left₀ (by linarith) (by norm_num at h2 ⊢; linarith) 3
  rw [e]
  have lo : 0.1408 ≤ Real.sin (Real.pi - 3) := by norm_num at h1 c ⊢; linarith
  have hi : Real.sin (Real.pi - 3) ≤ 0.141593 := by norm_num at h2 ⊢; linarith
  constructor
  · norm_num at lo ⊢; nlinarith
  · norm_num at lo hi ⊢; nlinarith

/-- The coefficient at order 1 from the values of the recurrence. -/
theorem dense_coef (N : ℕ) {v d : ℚ} (hv : downQ 30 N (N - 1) = some v) (hd : downQ 3 N N = some d) (p : Pol) (w : ℚ)
    (hw : polOut p 10 ((v : ℝ) : ℂ) = (((w * v : ℚ) : ℝ) : ℂ)) :
    ‖coefFn (fun z => d1Val (guardAdd solverEps z) solverEps N) p
      (hFinal (fun z => d1Val (guardAdd solverEps z) solverEps N) (10, 3) []) 1‖ ^ 2 = Real.sin 3 ^ 2 * (denseRatio v d w : ℝ) := by
  have g3 : guardAdd solverEps (3 : ℂ) = 3 := guardAdd_of_le (by unfold solverEps; norm_num)
  have g30 : guardAdd solverEps (30 : ℂ) = 30 := guardAdd_of_le (by unfold solverEps; norm_num)
  have e1 : d1Val (30 : ℂ) solverEps N 1 = ((v : ℝ) : ℂ) := by
    have := downQ_spec hv
    rw [← this]; norm_num [d1Val]
  have e0 : d1Val (3 : ℂ) solverEps N 0 = ((d : ℝ) : ℂ) := by
    have := downQ_spec hd
    rw [← this]; norm_num [d1Val]
  have hx : (10 : ℂ) * 3 = 30 := by norm_num
  simp only [coefFn, hFinal, hInit, List.foldl_nil, psiFn, zetaFn, prodSeq, d3Fn, d3Val, pzD3, hx, g3, g30, e1, e0, hw,
    Nat.sub_self, Nat.cast_one, zero_add]
  set h : ℝ := ((w * v + 1 / 3 : ℚ) : ℝ) with hh
  have eh : (((w * v : ℚ) : ℝ) : ℂ) + 1 / 3 = (h : ℂ) := by rw [hh]; push_cast; ring
  rw [eh]
  unfold finalCoef
  have es : sin (3 : ℂ) = ((Real.sin 3 : ℝ) : ℂ) := by push_cast; rfl
  have ec : cos (3 : ℂ) = ((Real.cos 3 : ℝ) : ℂ) := by push_cast; rfl
  have en : (h : ℂ) * (sin 3 * (1 / 3 - ((d : ℝ) : ℂ))) - sin 3 = ((Real.sin 3 * (h * (1 / 3 - (d : ℝ)) - 1) : ℝ) : ℂ) := by
    rw [es]; push_cast; ring
  have ed : (h : ℂ) * ((sin 3 - I * cos 3) * (1 / 3 - I)) - (sin 3 - I * cos 3) =
      (sin 3 - I * cos 3) * ((h / 3 - 1 : ℝ) - (h : ℂ) * I) := by push_cast; ring
  have n1 : ‖sin (3 : ℂ) - I * cos 3‖ ^ 2 = 1 := by
    rw [es, ec, ← Complex.normSq_eq_norm_sq, Complex.normSq_apply]
    have := Real.sin_sq_add_cos_sq 3
    generalize Real.sin 3 = s at *
    generalize Real.cos 3 = c at *
    simp
    nlinarith
  have n2 : ‖((h / 3 - 1 : ℝ) : ℂ) - (h : ℂ) * I‖ ^ 2 = (h / 3 - 1) ^ 2 + h ^ 2 := by
    rw [← Complex.normSq_eq_norm_sq, Complex.normSq_apply]
    simp
    ring
  have n3 : ‖(sin (3 : ℂ) - I * cos 3) * (((h / 3 - 1 : ℝ) : ℂ) - (h : ℂ) * I)‖ ^ 2 = (h / 3 - 1) ^ 2 + h ^ 2 := by
    rw [norm_mul, mul_pow, n1, n2, one_mul]
  have pos : 1 / 4 ≤ (h / 3 - 1) ^ 2 + h ^ 2 := by nlinarith [sq_nonneg (10 * h - 3)]
  rw [en, ed, guardAdd_of_le, norm_div, div_pow, n3, Complex.norm_real, Real.norm_eq_abs, sq_abs]
  · unfold denseRatio
    rw [hh]
    push_cast
    ring
  · unfold solverEps
    by_contra hc
    push Not at hc
    have := norm_nonneg ((sin (3 : ℂ) - I * cos 3) * (((h / 3 - 1 : ℝ) : ℂ) - (h : ℂ) * I))
    have hq : (1e-30 : ℝ) ≤ 1 / 4 := by norm_num
    generalize ‖(sin (3 : ℂ) - I * cos 3) * (((h / 3 - 1 : ℝ) : ℂ) - (h : ℂ) * I)‖ = q at *
    nlinarith

/-- The coefficients at order 1 of a successful call on the dense sphere. -/
theorem dense_run {B : Backends} {w : String} {nMax : Option ℤ} {o : MieOut} (n : ℕ)
    (h : mieCoefficients codeD1 B denseSphere "pena" w nMax = .ok o) (hn : o.nMax = n) (hn1 : 1 ≤ n) {v d : ℚ}
    (hv : downQ 30 (n + 15) (n + 15 - 1) = some v) (hd : downQ 3 (n + 15) (n + 15) = some d) :
    ∃ a b, o.a[0]? = some a ∧ o.b[0]? = some b ∧ ‖a‖ ^ 2 = Real.sin 3 ^ 2 * (denseRatio v d (1 / 10) : ℝ) ∧
      ‖b‖ ^ 2 = Real.sin 3 ^ 2 * (denseRatio v d 10 : ℝ) := by
  obtain ⟨hrun, -, -⟩ := mieCoefficients_pena_inv' (by decide +kernel) h
  have e : o.nMax.toNat = n := by omega
  obtain ⟨ha, hb⟩ := hrun.coefs (D := fun z => d1Val (guardAdd solverEps z) solverEps (n + 15)) (by rw [e]; exact codeD1_fun n)
    dense_layers
  rw [e] at ha hb
  refine ⟨_, _, ?_, ?_, dense_coef (n + 15) hv hd .tm _ ?_, dense_coef (n + 15) hv hd .te _ ?_⟩
  · rw [ha, List.getElem?_map, List.getElem?_range (by omega)]; rfl
  · rw [hb, List.getElem?_map, List.getElem?_range (by omega)]; rfl
  · simp only [polOut]; push_cast; ring
  · simp only [polOut]; push_cast; ring

/-- With `n_max` omitted the call is the one with the chosen order. -/
theorem mieCoefficients_none {K : D1Kernel} {B : Backends} {p : Particle1} {backend w : String} {n : ℤ}
    (hb : backend.toLower = "pena") (h : penaNmax [p.trunc] = .ok n) :
    mieCoefficients K B p backend w none = mieCoefficients K B p backend w (some n) := by
  unfold mieCoefficients
  simp only [orderChoice, hb, if_true, h]

/-- C85: `n_max` is not only the order at which the returned lists end. For a sphere of relative permittivity 100 and size
parameter 3, `mie_coefficients(..., n_max=1)` with the pena backend returns `|a_1| ≤ 0.21`, `|b_1| ≤ 0.52`; without `n_max`
(the order is then 45) the same entries have `|a_1| ≥ 0.66`, `|b_1| ≥ 0.98`. -/
theorem C85_order_changes_values (B : Backends) (w : String) :
    ∃ o o' : MieOut, mieCoefficients codeD1 B denseSphere "pena" w (some 1) = .ok o ∧
      mieCoefficients codeD1 B denseSphere "pena" w none = .ok o' ∧ o'.nMax = 45 ∧
      ∃ a a' b b', o.a[0]? = some a ∧ o'.a[0]? = some a' ∧ o.b[0]? = some b ∧ o'.b[0]? = some b' ∧
        ‖a‖ ≤ 0.21 ∧ 0.66 ≤ ‖a'‖ ∧ ‖b‖ ≤ 0.52 ∧ 0.98 ≤ ‖b'‖ := by
  have hp : "pena".toLower = "pena" := by decide +kernel
  obtain ⟨o, h, hn⟩ := mieCoefficients_pena_ok (B := B) (p := denseSphere) (w := w) (codeD1_fun 1) hp le_rfl
    (by simp [strictlyIncreasing, denseSphere]) rfl (by simp [denseSphere])
  obtain ⟨o', h', hn'⟩ := mieCoefficients_pena_ok (B := B) (p := denseSphere) (w := w) (codeD1_fun 45) hp (by norm_num)
    (by simp [strictlyIncreasing, denseSphere]) rfl (by simp [denseSphere])
  obtain ⟨v, d, k1, k2, k3, k4⟩ : ∃ v d, downQ 30 16 15 = some v ∧ downQ 3 16 16 = some d ∧ denseRatio v d (1 / 10) ≤ 43 / 20 ∧
      denseRatio v d 10 ≤ 66 / 5 := by
    refine ⟨(downQ 30 16 15).getD 0, (downQ 3 16 16).getD 0, ?_, ?_, ?_, ?_⟩ <;> decide +kernel
  obtain ⟨v', d', k1', k2', k3', k4'⟩ : ∃ v d, downQ 30 60 59 = some v ∧ downQ 3 60 60 = some d ∧ 45 / 2 ≤ denseRatio v d (1 / 10) ∧
      244 / 5 ≤ denseRatio v d 10 := by
    refine ⟨(downQ 30 60 59).getD 0, (downQ 3 60 60).getD 0, ?_, ?_, ?_, ?_⟩ <;> decide +kernel
  obtain ⟨a, b, a1, b1, a2, b2⟩ := dense_run 1 h hn le_rfl k1 k2
  obtain ⟨a', b', a1', b1', a2', b2'⟩ := dense_run 45 h' hn' (by norm_num) k1' k2'
  obtain ⟨s1, s2⟩ := sin_three
  have s0 := sq_nonneg (Real.sin 3)
  refine ⟨o, o', h, ?_, hn', a, a', b, b', a1, a1', b1, b1', ?_, ?_, ?_, ?_⟩
  · rw [mieCoefficients_none hp dense_order]; exact h'
  · have : (denseRatio v d (1 / 10) : ℝ) ≤ 43 / 20 := by
      have := (Rat.cast_le (K := ℝ)).2 k3
      push_cast at this
      exact this
    refine abs_le_of_sq_le_sq' ?_ (by norm_num) |>.2
    rw [a2]; norm_num at *; nlinarith
  · have : (45 / 2 : ℝ) ≤ (denseRatio v' d' (1 / 10) : ℝ) := by
      have := (Rat.cast_le (K := ℝ)).2 k3'
      push_cast at this
      exact this
    refine abs_le_of_sq_le_sq' ?_ (norm_nonneg _) |>.2
    rw [a2']; norm_num at *; nlinarith
  · have : (denseRatio v d 10 : ℝ) ≤ 66 / 5 := by
      have := (Rat.cast_le (K := ℝ)).2 k4
      push_cast at this
      exact this
    refine abs_le_of_sq_le_sq' ?_ (by norm_num) |>.2
    rw [b2]; norm_num at *; nlinarith
  · have : (244 / 5 : ℝ) ≤ (denseRatio v' d' 10 : ℝ) := by
      have := (Rat.cast_le (K := ℝ)).2 k4'
      push_cast at this
      exact this
    refine abs_le_of_sq_le_sq' ?_ (norm_nonneg _) |>.2
    rw [b2']; norm_num at *; nlinarith

/-- C85: with the core-shell closed form `n_max` is only the order at which the lists end. When the special functions that the
backend supplies do not depend on the requested order (`f` is the same for both calls; scipy evaluates each order by itself), calls
with two orders return the same entries at all orders up to the smaller one. -/
theorem C85_core_shell_truncates {K : D1Kernel} {B : Backends} {p : Particle1} {backend w : String} {nMax nMax' : Option ℤ}
    {ri : Bool} {o o' : MieOut} (hb : backend.toLower ≠ "pena") (h : mieCoefficients K B p backend w nMax ri = .ok o)
    (h' : mieCoefficients K B p backend w nMax' ri = .ok o') (h1 : 1 ≤ o.nMax) (hle : o.nMax ≤ o'.nMax) (f : BessFn)
    (hS : ∀ S, selectBessel B backend w = .ok S → ∀ n, (n = o.nMax.toNat ∨ n = o'.nMax.toNat) → ∀ z ∈ csArgs p.layers, RunsAt S n f z) :
    ∀ i : ℕ, (i : ℤ) < o.nMax → o.a[i]? = o'.a[i]? ∧ o.b[i]? = o'.b[i]? ∧ (∃ a, o.a[i]? = some a) ∧ ∃ b, o.b[i]? = some b := by
  intro i hi
  obtain ⟨m1, x, m2, y, ⟨hl, -, -, S, out, hs, hr, ha, hb', -⟩⟩ := mieCoefficients_cs_inv hb h
  obtain ⟨m1', x', m2', y', ⟨hl', -, -, S', out', hs', hr', ha', hb'', -⟩⟩ := mieCoefficients_cs_inv hb h'
  obtain rfl : S = S' := by rw [hs] at hs'; exact Except.ok.inj hs'
  obtain ⟨rfl, rfl, rfl, rfl⟩ : m1' = m1 ∧ x' = x ∧ m2' = m2 ∧ y' = y := by
    rcases hl with e | ⟨e, rfl, rfl⟩ <;> rcases hl' with e' | ⟨e', rfl, rfl⟩ <;> rw [e] at e' <;> simp_all
  have args : ∀ z ∈ [y', m1' * x', m2' * x', m2' * y'], z ∈ csArgs p.layers := by
    rcases hl with e | ⟨e, rfl, rfl⟩ <;> rw [e] <;> simp [csArgs]
  have run : ∀ n : ℤ, 1 ≤ n → (n.toNat = o.nMax.toNat ∨ n.toNat = o'.nMax.toNat) → miecoef S x' y' n m1' m2' =
      .ok (tab (n.toNat - 1) fun i => miecoefOrder (fnIn f f f f x' y' m1' m2' (i + 1))) := by
    intro n hn hor
    obtain ⟨N, hN⟩ : ∃ N : ℕ, n = ((N + 1 : ℕ) : ℤ) := ⟨n.toNat - 1, by omega⟩
    have e : n.toNat = N + 1 := by omega
    have r : ∀ z ∈ [y', m1' * x', m2' * x', m2' * y'], RunsAt S (N + 1) f z := fun z hz => by
      have := hS S hs n.toNat hor z (args z hz); rwa [e] at this
    rw [hN, miecoef_run (r _ (by simp)) (r _ (by simp)) (r _ (by simp)) (r _ (by simp))]
    simp
  rw [run _ h1 (.inl rfl)] at hr
  rw [run _ (by omega) (.inr rfl)] at hr'
  obtain rfl := Except.ok.inj hr
  obtain rfl := Except.ok.inj hr'
  have g : ∀ n : ℤ, o.nMax ≤ n → (tab (n.toNat - 1) fun i => miecoefOrder (fnIn f f f f x' y' m1' m2' (i + 1)))[i]? =
      some (miecoefOrder (fnIn f f f f x' y' m1' m2' (i + 1))) := by
    intro n hn
    rw [tab_getElem?, if_pos (by omega)]
  rw [ha, ha', hb', hb'']
  simp only [List.getElem?_map, g _ le_rfl, g _ hle, Option.map_some]
  exact ⟨trivial, trivial, ⟨_, rfl⟩, _, rfl⟩

/-- `C85_own_order_partial` applies to the dense sphere of the next section: order 29 and above at the argument 30. -/
example (B : Backends) : ∃ o : MieOut, mieCoefficients codeD1 B denseSphere "pena" "recurrence" none = .ok o ∧
    ∃ D v, penaD1 o.nMax 30 = .ok D ∧ D[29]? = some v ∧ ‖v - deriv (ricPsi 29) 30 / ricPsi 29 30‖ < 1e-8 := by
  obtain ⟨o, o', -, h, hn, -⟩ := C85_order_changes_values B "recurrence"
  refine ⟨o', h, ?_⟩
  obtain ⟨-, D, v, h1, h2, -, h3⟩ := C85_own_order_partial (by decide +kernel) h (by simp [denseSphere]) 30 (by
    rw [dense_layers]; simp only [kernelArgs, List.mem_cons]; left; norm_num) (by norm_num) 29 (by rw [hn]; norm_num) (by norm_num)
  exact ⟨D, v, h1, h2, h3 (by norm_num)⟩

/-- `C85_own_order_real` applies to the dense sphere at the argument 3, order 1, which is below the argument. -/
example (B : Backends) : ∃ o : MieOut, mieCoefficients codeD1 B denseSphere "pena" "recurrence" none = .ok o ∧
    ∃ D, ∃ e : ℂ, penaD1 o.nMax ((3 : ℝ) : ℂ) = .ok D ∧ ‖e‖ ≤ 1e-9 ∧
      D[1]? = some ((deriv (ricPsi 1) ((3 : ℝ) : ℂ) - e * deriv (ricChi 1) ((3 : ℝ) : ℂ)) / (ricPsi 1 ((3 : ℝ) : ℂ) - e * ricChi 1 ((3 : ℝ) : ℂ))) := by
  obtain ⟨o, o', -, h, hn, -⟩ := C85_order_changes_values B "recurrence"
  refine ⟨o', h, ?_⟩
  obtain ⟨D, e, h1, -, h3, h4⟩ := C85_own_order_real (by decide +kernel) h (by simp [denseSphere]) 3 (by
    rw [dense_layers]; simp [kernelArgs, runArgs]) (by norm_num) (by norm_num)
  have he := h3 (by norm_num)
  refine ⟨D, e, h1, he, (h4 1 (by rw [hn]; norm_num) ?_).2⟩
  intro i hi hi'
  obtain rfl : i = 1 := by
    have : (i : ℝ) < 2 := by linarith
    have : i < 2 := by exact_mod_cast this
    omega
  obtain ⟨a1, b1⟩ := ric_bound (x := 3) (by norm_num) 1 (.inr (by norm_num))
  obtain ⟨a2, b2⟩ := ric_bound (x := 3) (by norm_num) 2 (.inr (by norm_num))
  have hz : ((3 : ℝ) : ℂ) ≠ 0 := by norm_num
  have hp : 0.9 ≤ ‖ricPsi 1 ((3 : ℝ) : ℂ)‖ := by
    have e1 : ricPsi 1 ((3 : ℝ) : ℂ) = ((Real.sin 3 / 3 - Real.cos 3 : ℝ) : ℂ) := by
      unfold ricPsi; rw [sphJ_one hz]; push_cast; field_simp
    rw [e1]
    refine norm_ofReal_ge ?_
    obtain ⟨s1, s2⟩ := sin_three
    have sc := Real.sin_sq_add_cos_sq 3
    have c1 : 0.98 ≤ |Real.cos 3| := by
      apply abs_le_of_sq_le_sq' _ (abs_nonneg _) |>.2
      rw [sq_abs]; norm_num at s2 ⊢; linarith
    have c2 : |Real.sin 3| ≤ 0.15 := by
      apply abs_le_of_sq_le_sq' _ (by norm_num) |>.2
      rw [sq_abs]; norm_num at s2 ⊢; linarith
    have := abs_sub_abs_le_abs_sub (Real.cos 3) (Real.sin 3 / 3)
    rw [abs_div, abs_of_pos (by norm_num : (0 : ℝ) < 3), abs_sub_comm] at this
    norm_num at c1 c2 ⊢
    linarith
  have n1 : ‖ricChi 1 ((3 : ℝ) : ℂ)‖ ≤ 4 := by
    apply abs_le_of_sq_le_sq' (b1.trans (by norm_num)) (by norm_num) |>.2
  have n2 : ‖ricChi 2 ((3 : ℝ) : ℂ)‖ ≤ 4 := by
    apply abs_le_of_sq_le_sq' (b2.trans (by norm_num)) (by norm_num) |>.2
  have n3 : ‖ricPsi 2 ((3 : ℝ) : ℂ)‖ ≤ 4 := by
    apply abs_le_of_sq_le_sq' (a2.trans (by norm_num)) (by norm_num) |>.2
  have l := norm_sub_norm_le (ricPsi 1 ((3 : ℝ) : ℂ)) (e * ricChi 1 ((3 : ℝ) : ℂ))
  have u := norm_sub_le (ricPsi 2 ((3 : ℝ) : ℂ)) (e * ricChi 2 ((3 : ℝ) : ℂ))
  have w1 : ‖e * ricChi 1 ((3 : ℝ) : ℂ)‖ ≤ 1e-9 * 4 := by rw [norm_mul]; exact mul_le_mul he n1 (norm_nonneg _) (by norm_num)
  have w2 : ‖e * ricChi 2 ((3 : ℝ) : ℂ)‖ ≤ 1e-9 * 4 := by rw [norm_mul]; exact mul_le_mul he n2 (norm_nonneg _) (by norm_num)
  norm_num at w1 w2 hp l u n3 ⊢
  linarith

/-- The hypotheses of `C85_core_shell_truncates` hold for the core-shell particle of the C11 example with orders 1 and 4. -/
example : ∃ o o' : MieOut, mieCoefficients idealD1 exactBackends demoParticle "torch" "recurrence" (some 1) = .ok o ∧
    mieCoefficients idealD1 exactBackends demoParticle "torch" "recurrence" (some 4) = .ok o' ∧ 1 ≤ o.nMax ∧ o.nMax ≤ o'.nMax ∧
    ∃ f : BessFn, ∀ S, selectBessel exactBackends "torch" "recurrence" = .ok S → ∀ n, (n = o.nMax.toNat ∨ n = o'.nMax.toNat) →
      ∀ z ∈ csArgs demoParticle.layers, RunsAt S n f z := by
  have hq := qp_odd.big
  have hz : ∀ z ∈ csArgs demoParticle.layers, z ≠ 0 := by
    have hqc : (qp : ℂ) ≠ 0 := by exact_mod_cast (by linarith : (qp : ℝ) ≠ 0)
    rw [demo_layers]
    intro z hz
    simp only [demoLayers, csArgs, List.mem_cons, List.not_mem_nil, or_false] at hz
    rcases hz with rfl | rfl | rfl | rfl <;> simp [hqc]
  obtain ⟨o, h, hn⟩ := mieCoefficients_torch_ok (K := idealD1) (p := demoParticle) (n := 0) rfl rfl (by linarith) hz
  obtain ⟨o', h', hn'⟩ := mieCoefficients_torch_ok (K := idealD1) (p := demoParticle) (n := 3) rfl rfl (by linarith) hz
  refine ⟨o, o', h, h', by rw [hn]; norm_num, by rw [hn, hn']; norm_num, ⟨fun z k => sphJ k z, fun z k => sphY k z⟩, ?_⟩
  intro S hS n _ z hzm
  have : S = exactBessel := by
    have ht : "torch".toLower = "torch" := by decide +kernel
    have hw : "recurrence".toLower = "recurrence" := by decide +kernel
    simp only [selectBessel, ht, hw, exactBackends] at hS
    rw [if_neg (by decide), if_pos (by decide)] at hS
    exact (Except.ok.inj hS).symm
  subst this
  exact ⟨(exactBessel_at (hz z hzm)).j, (exactBessel_at (hz z hzm)).y⟩

/-- An absorbing sphere: index `4 + 3i`, size parameter 3. -/
noncomputable def absorbingSphere : Particle1 where
  k0 := 1
  rLayers := [3]
  epsLayers := [7 + 24 * I]
  epsEnv := 1

theorem absorbing_index : csqrt (7 + 24 * I) = 4 + 3 * I := by
  have h : ((4 : ℂ) + 3 * I) ^ 2 = 7 + 24 * I := by linear_combination 9 * I_sq
  have hr : 0 ≤ (csqrt (7 + 24 * I)).re := by
    unfold csqrt
    rw [cpow_def_of_ne_zero (by intro h0; have := congrArg Complex.re h0; norm_num at this), exp_re]
    refine mul_nonneg (Real.exp_pos _).le (Real.cos_nonneg_of_neg_pi_div_two_le_of_le ?_ ?_) <;>
    · have h1 := neg_pi_lt_arg (7 + 24 * I)
      have h2 := arg_le_pi (7 + 24 * I)
      have e : (log (7 + 24 * I) * (1 / 2)).im = arg (7 + 24 * I) / 2 := by
        rw [mul_comm, show (1 / 2 : ℂ) = ((1 / 2 : ℝ) : ℂ) by norm_num, im_ofReal_mul, log_im]; ring
      rw [e]
      linarith
  rcases sq_eq_sq_iff_eq_or_eq_neg.1 ((csqrt_sq (7 + 24 * I)).trans h.symm) with h1 | h1
  · exact h1
  · rw [h1] at hr
    norm_num at hr

theorem absorbing_layers : absorbingSphere.layers = [(4 + 3 * I, (3 : ℂ))] := by
  have h2 : csqrt (1 : ℂ) = 1 := by unfold csqrt; simp
  unfold Particle1.layers layersOf absorbingSphere
  simp [absorbing_index, h2]

theorem absorbing_order : penaNmax [absorbingSphere.trunc] = .ok 30 := by
  have h2 : csqrt (1 : ℂ) = 1 := by unfold csqrt; simp
  have hs : penaNStop 3 = 10 := by
    unfold penaNStop
    rw [if_pos (by norm_num)]
    have a : (1.4 : ℝ) ≤ 3 ^ (1 / 3 : ℝ) := le_rpow_third (by norm_num) (by norm_num)
    have b : (3 : ℝ) ^ (1 / 3 : ℝ) ≤ 1.5 := rpow_third_le (by norm_num) (by norm_num) (by norm_num)
    apply torchRound_eq <;> norm_num at a b ⊢ <;> linarith
  have hm : ‖(4 : ℂ) + 3 * I‖ = 5 := by
    rw [Complex.norm_eq_sqrt_sq_add_sq, show ((4 : ℂ) + 3 * I).re ^ 2 + ((4 : ℂ) + 3 * I).im ^ 2 = 5 ^ 2 by norm_num]
    exact Real.sqrt_sq (by norm_num)
  simp [penaNmax, Particle1.trunc, absorbingSphere, TruncEntry.xOuter, TruncEntry.mx, TruncEntry.mxPrev, maxAbs, absorbing_index, h2, hm]
  change Except.ok (torchRound (max ((penaNStop 3 : ℤ) : ℝ) (max (5 * 3) 0) + 15)) = Except.ok 30
  rw [hs, torchRound_eq (n := 30)] <;> norm_num

/-- `C85_own_order_absorbing` and `C85_own_order_complex` apply to the absorbing sphere, at order 1 of the argument `12 + 9i`. -/
example (B : Backends) : ∃ o : MieOut, mieCoefficients codeD1 B absorbingSphere "pena" "recurrence" none = .ok o ∧
    (∃ D v, penaD1 o.nMax (12 + 9 * I) = .ok D ∧ D[1]? = some v ∧
      ‖v - deriv (ricPsi 1) (12 + 9 * I) / ricPsi 1 (12 + 9 * I)‖ ≤ 1e-10) ∧
    ∃ D, ∃ e : ℂ, penaD1 o.nMax (12 + 9 * I) = .ok D ∧ ‖e‖ ≤ 1e-13 * Real.exp 18 ∧ D[1]? = some
      ((deriv (ricPsi 1) (12 + 9 * I) - e * deriv (ricZeta 1) (12 + 9 * I)) / (ricPsi 1 (12 + 9 * I) - e * ricZeta 1 (12 + 9 * I))) := by
  have hp : "pena".toLower = "pena" := by decide +kernel
  obtain ⟨o, h, hn⟩ := mieCoefficients_pena_ok (B := B) (p := absorbingSphere) (w := "recurrence") (codeD1_fun 30) hp (by norm_num)
    (by simp [strictlyIncreasing, absorbingSphere]) rfl (by simp [absorbingSphere])
  have h' : mieCoefficients codeD1 B absorbingSphere "pena" "recurrence" none = .ok o := by
    rw [mieCoefficients_none hp absorbing_order]; exact h
  have hz : (12 + 9 * I : ℂ) ∈ kernelArgs absorbingSphere.layers := by
    rw [absorbing_layers]
    simp only [kernelArgs, List.mem_cons]
    left
    ring
  have hm : ‖(12 : ℂ) + 9 * I‖ = 15 := by
    rw [Complex.norm_eq_sqrt_sq_add_sq, show ((12 : ℂ) + 9 * I).re ^ 2 + ((12 : ℂ) + 9 * I).im ^ 2 = 15 ^ 2 by norm_num]
    exact Real.sqrt_sq (by norm_num)
  have him : ((12 : ℂ) + 9 * I).im = 9 := by norm_num
  refine ⟨o, h', ?_, ?_⟩
  · obtain ⟨-, D, v, h1, h2, h3⟩ := (C85_own_order_absorbing hp h' (by simp [absorbingSphere]) _ hz (by rw [hm]; norm_num) 1
      (by rw [hm]; norm_num)).1 (by rw [hm]; norm_num) (by rw [him]; norm_num)
    refine ⟨D, v, h1, h2, h3.trans ?_⟩
    rw [hm, him]
    norm_num
  · obtain ⟨D, e, h1, -, h3, h4⟩ := C85_own_order_complex hp h' (by simp [absorbingSphere]) _ hz (by rw [hm]; norm_num)
      (by rw [him]; norm_num) (by rw [hm]; norm_num)
    refine ⟨D, e, h1, ?_, (h4 1 (by rw [hn]; norm_num) (.inr ⟨by rw [him]; norm_num, by rw [hm, him]; norm_num⟩)).2⟩
    have := h3 (by rw [hm]; norm_num)
    rw [him] at this
    norm_num at this ⊢
    exact this

end MieDiff
