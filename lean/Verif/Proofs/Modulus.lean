import Verif.Proofs.Flux

/-!
# The modulus of the outgoing function on the real axis

`|zeta_n(x)|^2` is a polynomial in `1/x^2` with nonnegative coefficients, so it decreases with `x`.
-/

namespace MieDiff.Spec

open Complex ComplexConjugate Filter Topology

theorem hasDerivAt_normSq_zeta (n : ℕ) {x : ℝ} (hx : 0 < x) :
    HasDerivAt (fun t : ℝ => normSq (ricZeta n (t : ℂ))) (2 * (conj (ricZeta n (x : ℂ)) * deriv (ricZeta n) (x : ℂ)).re) x := by
  have hz : (x : ℂ) ≠ 0 := by exact_mod_cast hx.ne'
  have h := (hasDerivAt_ricZeta n hz).comp_ofReal
  have h1 : HasDerivAt (fun t : ℝ => conj (ricZeta n (t : ℂ))) (conj (deriv (ricZeta n) (x : ℂ))) x := h.star
  have h2 := (reCLM.hasFDerivAt (x := conj (ricZeta n (x : ℂ)) * ricZeta n (x : ℂ))).comp_hasDerivAt x (h1.mul h)
  have e : (fun t : ℝ => normSq (ricZeta n (t : ℂ))) = reCLM ∘ fun t : ℝ => conj (ricZeta n (t : ℂ)) * ricZeta n (t : ℂ) := by
    funext t
    simp [normSq_apply]
  rw [e]
  refine h2.congr_deriv ?_
  simp
  ring

/-- The two ladder relations in terms of the moduli. -/
theorem modulus_ladder (n : ℕ) {x : ℝ} (hx : 0 < x) :
    (conj (ricZeta (n + 1) (x : ℂ)) * deriv (ricZeta (n + 1)) (x : ℂ)).re + ((n : ℝ) + 1) / x * normSq (ricZeta (n + 1) (x : ℂ)) =
      ((n : ℝ) + 1) / x * normSq (ricZeta n (x : ℂ)) - (conj (ricZeta n (x : ℂ)) * deriv (ricZeta n) (x : ℂ)).re := by
  have hz : (x : ℂ) ≠ 0 := by exact_mod_cast hx.ne'
  rw [deriv_ricZeta_lower n hz, deriv_ricZeta_raise n hz]
  have e : ((n : ℂ) + 1) / (x : ℂ) = ((((n : ℝ) + 1) / x : ℝ) : ℂ) := by push_cast; rfl
  rw [e]
  set c := ((n : ℝ) + 1) / x
  simp only [normSq_apply, mul_re, sub_re, sub_im, conj_re, conj_im, mul_im, ofReal_re, ofReal_im]
  ring

theorem modulus_poly (n : ℕ) : ∃ c : ℕ → ℝ, (∀ k, 0 ≤ c k) ∧ ∀ x : ℝ, 0 < x →
    normSq (ricZeta n (x : ℂ)) = ∑ k ∈ Finset.range (n + 1), c k * (x⁻¹) ^ (2 * k) := by
  induction n with
  | zero =>
    refine ⟨fun _ => 1, fun _ => zero_le_one, fun x hx => ?_⟩
    have hz : (x : ℂ) ≠ 0 := by exact_mod_cast hx.ne'
    rw [ricZeta_zero_exp _ hz, normSq_eq_norm_sq]
    simp [norm_exp]
  | succ n ih =>
    obtain ⟨c, hc, hM⟩ := ih
    set d : ℕ → ℝ := fun k => c k * ((n + 1 + k) / (n + 1 - k)) with hd
    have hd0 : ∀ k, k ≤ n → 0 ≤ d k := by
      intro k hk
      have : (k : ℝ) ≤ n := by exact_mod_cast hk
      exact mul_nonneg (hc k) (div_nonneg (by positivity) (by linarith))
    set F : ℝ → ℝ := fun x => x ^ (2 * n + 2) * normSq (ricZeta (n + 1) (x : ℂ)) with hF
    set G : ℝ → ℝ := fun x => ∑ k ∈ Finset.range (n + 1), d k * x ^ (2 * n + 2 - 2 * k) with hG
    have dG : ∀ x, HasDerivAt G (∑ k ∈ Finset.range (n + 1), d k * ((2 * n + 2 - 2 * k : ℕ) * x ^ (2 * n + 2 - 2 * k - 1))) x := by
      intro x
      exact HasDerivAt.fun_sum fun k _ => (hasDerivAt_pow _ x).const_mul _
    have dM : ∀ x : ℝ, 0 < x → (conj (ricZeta n (x : ℂ)) * deriv (ricZeta n) (x : ℂ)).re =
        ∑ k ∈ Finset.range (n + 1), -(k * c k) * (x⁻¹) ^ (2 * k + 1) := by
      intro x hx
      have h1 := hasDerivAt_normSq_zeta n hx
      have h2 : HasDerivAt (fun t : ℝ => ∑ k ∈ Finset.range (n + 1), c k * (t⁻¹) ^ (2 * k))
          (∑ k ∈ Finset.range (n + 1), c k * ((2 * k : ℕ) * (x⁻¹) ^ (2 * k - 1) * (-(x ^ 2)⁻¹))) x :=
        HasDerivAt.fun_sum fun k _ => ((hasDerivAt_inv hx.ne').pow (2 * k)).const_mul _
      have h3 := h1.unique (h2.congr_of_eventuallyEq (by
        filter_upwards [isOpen_Ioi.mem_nhds hx] with t ht
        exact hM t ht))
      have h4 : (conj (ricZeta n (x : ℂ)) * deriv (ricZeta n) (x : ℂ)).re =
          1 / 2 * ∑ k ∈ Finset.range (n + 1), c k * ((2 * k : ℕ) * (x⁻¹) ^ (2 * k - 1) * (-(x ^ 2)⁻¹)) := by linarith
      rw [h4, Finset.mul_sum]
      refine Finset.sum_congr rfl fun k _ => ?_
      cases k with
      | zero => simp
      | succ k =>
        rw [show 2 * (k + 1) - 1 = 2 * k + 1 by omega, show 2 * (k + 1) + 1 = 2 * k + 1 + 2 by omega, pow_add (x⁻¹) _ 2]
        rw [inv_pow x 2]
        push_cast
        ring
    have dF : ∀ x : ℝ, 0 < x → HasDerivAt F (∑ k ∈ Finset.range (n + 1), d k * ((2 * n + 2 - 2 * k : ℕ) * x ^ (2 * n + 2 - 2 * k - 1))) x := by
      intro x hx
      refine ((hasDerivAt_pow (2 * n + 2) x).mul (hasDerivAt_normSq_zeta (n + 1) hx)).congr_deriv ?_
      have l := modulus_ladder n hx
      have e : ((2 * n + 2 : ℕ) : ℝ) * x ^ (2 * n + 2 - 1) * normSq (ricZeta (n + 1) (x : ℂ)) +
          x ^ (2 * n + 2) * (2 * (conj (ricZeta (n + 1) (x : ℂ)) * deriv (ricZeta (n + 1)) (x : ℂ)).re) =
          2 * x ^ (2 * n + 2) * ((conj (ricZeta (n + 1) (x : ℂ)) * deriv (ricZeta (n + 1)) (x : ℂ)).re +
            ((n : ℝ) + 1) / x * normSq (ricZeta (n + 1) (x : ℂ))) := by
        rw [show 2 * n + 2 - 1 = 2 * n + 1 by omega, pow_succ x (2 * n + 1)]
        push_cast
        field_simp
        ring
      rw [e, l, dM x hx, hM x hx, Finset.mul_sum, ← Finset.sum_sub_distrib, Finset.mul_sum]
      refine Finset.sum_congr rfl fun k hk => ?_
      have hk' : k ≤ n := by have := Finset.mem_range.1 hk; omega
      have hkr : (k : ℝ) ≤ n := by exact_mod_cast hk'
      obtain ⟨j, rfl⟩ := Nat.exists_eq_add_of_le hk'
      rw [hd]
      simp only
      rw [show 2 * (k + j) + 2 - 2 * k - 1 = 2 * j + 1 by omega, show 2 * (k + j) + 2 - 2 * k = 2 * j + 2 by omega,
        show 2 * (k + j) + 2 = 2 * k + (2 * j + 1) + 1 by ring]
      push_cast
      have hj : (k : ℝ) + j + 1 - k ≠ 0 := by
        have : (0 : ℝ) ≤ j := by positivity
        linarith
      rw [pow_succ, pow_add, pow_succ (x⁻¹), inv_pow]
      field_simp
      ring
    have hconst : ∀ x, 0 < x → F x - G x = F 1 - G 1 := by
      intro x hx
      have hd' : ∀ y : ℝ, 0 < y → HasDerivAt (fun y => F y - G y) 0 y := fun y hy =>
        ((dF y hy).sub (dG y)).congr_deriv (sub_self _)
      exact IsOpen.is_const_of_deriv_eq_zero (f := fun y => F y - G y) isOpen_Ioi (convex_Ioi (0 : ℝ)).isPreconnected
        (fun y hy => (hd' y hy).differentiableAt.differentiableWithinAt) (fun y hy => (hd' y hy).deriv) hx (Set.mem_Ioi.2 one_pos)
    have hC : 0 ≤ F 1 - G 1 := by
      have hG0 : Tendsto G (𝓝[>] 0) (𝓝 0) := by
        have h1 : G 0 = 0 := by
          simp only [hG]
          refine Finset.sum_eq_zero fun k hk => ?_
          have := Finset.mem_range.1 hk
          rw [zero_pow (by omega), mul_zero]
        have h2 := (dG 0).continuousAt.tendsto
        rw [h1] at h2
        exact h2.mono_left nhdsWithin_le_nhds
      have h3 : Tendsto (fun y => -G y) (𝓝[>] 0) (𝓝 0) := by simpa using hG0.neg
      refine le_of_tendsto h3 ?_
      filter_upwards [self_mem_nhdsWithin] with y hy
      rw [← hconst y hy]
      have : 0 ≤ F y := mul_nonneg (pow_nonneg (le_of_lt hy) _) (normSq_nonneg _)
      linarith
    refine ⟨fun k => if k ≤ n then d k else F 1 - G 1, fun k => ?_, fun x hx => ?_⟩
    · dsimp only
      split_ifs with h
      · exact hd0 k h
      · exact hC
    · rw [Finset.sum_range_succ]
      simp only
      rw [if_neg (by omega)]
      have e : ∑ k ∈ Finset.range (n + 1), (if k ≤ n then d k else F 1 - G 1) * (x⁻¹) ^ (2 * k) = (x⁻¹) ^ (2 * n + 2) * G x := by
        rw [hG]
        simp only
        rw [Finset.mul_sum]
        refine Finset.sum_congr rfl fun k hk => ?_
        have hk' : k ≤ n := by have := Finset.mem_range.1 hk; omega
        obtain ⟨j, rfl⟩ := Nat.exists_eq_add_of_le hk'
        rw [if_pos hk', show 2 * (k + j) + 2 - 2 * k = 2 * j + 2 by omega,
          show 2 * (k + j) + 2 = 2 * k + (2 * j + 2) by ring, pow_add _ (2 * k), inv_pow _ (2 * j + 2)]
        field_simp
      rw [e, ← hconst x hx, hF, show 2 * (n + 1) = 2 * n + 2 by ring]
      simp only
      rw [inv_pow]
      field_simp
      ring

/-- The modulus does not increase. -/
theorem modulus_antitone (n : ℕ) {x : ℝ} (hx : 0 < x) : (conj (ricZeta n (x : ℂ)) * deriv (ricZeta n) (x : ℂ)).re ≤ 0 := by
  obtain ⟨c, hc, hM⟩ := modulus_poly n
  have h1 := hasDerivAt_normSq_zeta n hx
  have h2 : HasDerivAt (fun t : ℝ => ∑ k ∈ Finset.range (n + 1), c k * (t⁻¹) ^ (2 * k))
      (∑ k ∈ Finset.range (n + 1), c k * ((2 * k : ℕ) * (x⁻¹) ^ (2 * k - 1) * (-(x ^ 2)⁻¹))) x :=
    HasDerivAt.fun_sum fun k _ => ((hasDerivAt_inv hx.ne').pow (2 * k)).const_mul _
  have h3 := h1.unique (h2.congr_of_eventuallyEq (by
    filter_upwards [isOpen_Ioi.mem_nhds hx] with t ht
    exact hM t ht))
  have h4 : ∑ k ∈ Finset.range (n + 1), c k * ((2 * k : ℕ) * (x⁻¹) ^ (2 * k - 1) * (-(x ^ 2)⁻¹)) ≤ 0 := by
    refine Finset.sum_nonpos fun k _ => ?_
    have : 0 ≤ c k * ((2 * k : ℕ) * (x⁻¹) ^ (2 * k - 1) * (x ^ 2)⁻¹) := by
      have := hc k
      positivity
    linarith
  linarith

end MieDiff.Spec
