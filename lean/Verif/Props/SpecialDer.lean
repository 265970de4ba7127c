import Mathlib.Analysis.Calculus.Gradient.Basic
import Mathlib.Analysis.Complex.RealDeriv
import Verif.Model.SpecialDer
import Verif.Props.Special
import Verif.Proofs.Flux

/-!
# C100: the differentiable derivatives of the spherical Bessel functions
-/

namespace MieDiff

open Spec Complex Filter Topology

local notation "conj" => starRingEnd ℂ

/-- Specification: SciPy returns the spherical Bessel functions and their derivatives. -/
structure SciPy.Exact (S : SciPy) : Prop where
  j : ∀ n z, z ≠ 0 → S.j n z = sphJ n z
  dj : ∀ n z, z ≠ 0 → S.dj n z = deriv (sphJ n) z
  y : ∀ n z, z ≠ 0 → S.y n z = sphY n z
  dy : ∀ n z, z ≠ 0 → S.dy n z = deriv (sphY n) z

/-- Specification: the loss `Re (sum over the orders of conj(g_i) f_i'(z))` as a function of one entry of `z`. -/
noncomputable def derLoss (f : ℕ → ℂ → ℂ) (n : ℕ) (g : ℕ → ℂ) (z : ℂ) : ℝ :=
  ∑ i ∈ Finset.range (n + 1), (conj (g i) * deriv (f i) z).re

/-! ## Forward -/

/-- C100: `sph_jn_der`, `sph_yn_der` and `sph_h1n_der` return the derivatives of orders `0..n` at every entry. -/
theorem C100_forward {S : SciPy} (hS : S.Exact) (n : ℕ) {zs : List ℂ} (hz : ∀ z ∈ zs, z ≠ 0) :
    ∃ J Y H, sphJnDer S [n] zs = .ok J ∧ sphYnDer S [n] zs = .ok Y ∧ sphH1nDer S [n] zs = .ok H ∧
      J.length = n + 1 ∧ Y.length = n + 1 ∧ H.length = n + 1 ∧
      ∀ i ≤ n, ∀ (j : ℕ) (hj : j < zs.length),
        (J.getD i [])[j]? = some (deriv (sphJ i) zs[j]) ∧ (Y.getD i [])[j]? = some (deriv (sphY i) zs[j]) ∧
        (H.getD i [])[j]? = some (deriv (sphH i) zs[j]) := by
  have hr : expandOrders [(n : ℤ)] = .ok (List.range (n + 1)) := by
    simp only [expandOrders]
    rw [if_neg (by omega)]
    rfl
  refine ⟨_, _, _, by unfold sphJnDer sphWrapper; rw [hr]; rfl, by unfold sphYnDer sphWrapper; rw [hr]; rfl,
    by unfold sphH1nDer sphJnDer sphYnDer sphWrapper; rw [hr]; rfl, by simp, by simp, by simp, ?_⟩
  intro i hi j hj
  have hi' : i < n + 1 := by omega
  have hne := hz zs[j] (List.getElem_mem hj)
  have dJ := (sphJ_seq.raise i zs[j] hne).differentiableAt
  have dY := (sphY_seq.raise i zs[j] hne).differentiableAt
  have hH : deriv (sphH i) zs[j] = deriv (sphJ i) zs[j] + I * deriv (sphY i) zs[j] := by
    have : sphH i = fun z => sphJ i z + I * sphY i z := rfl
    rw [this, deriv_fun_add dJ (dY.const_mul I), deriv_const_mul I dY]
  refine ⟨?_, ?_, ?_⟩
  · simp [List.getD_eq_getElem?_getD, hi', hj, hS.dj i _ hne]
  · simp [List.getD_eq_getElem?_getD, hi', hj, hS.dy i _ hne]
  · rw [hH]
    simp [List.getD_eq_getElem?_getD, hi', hj, h1Of, hS.dj i _ hne, hS.dy i _ hne]

/-- C100: what `sph_h1n_der` returns at an entry is what `f_der` returns for the values of `sph_h1n` there, so the two ways of the library
to differentiate agree. -/
theorem C100_f_der {S : SciPy} (hS : S.Exact) (n : ℕ) {z : ℂ} (hz : z ≠ 0) :
    fDer z (h1Of ((List.range (n + 2)).map fun i => S.j i z) ((List.range (n + 2)).map fun i => S.y i z)) =
      .ok ((List.range (n + 2)).map fun i => S.dj i z + I * S.dy i z) := by
  have e : h1Of ((List.range (n + 2)).map fun i => S.j i z) ((List.range (n + 2)).map fun i => S.y i z) =
      (List.range (n + 2)).map fun i => sphH i z := by
    unfold h1Of
    rw [List.zipWith_map, List.zipWith_self]
    refine List.map_congr_left fun i _ => ?_
    rw [hS.j i z hz, hS.y i z hz]; rfl
  rw [e]
  obtain ⟨ds, h1, h2, h3⟩ := C21_f_der sphH (Or.inr (Or.inr rfl)) n z hz ((List.range (n + 2)).map fun i => sphH i z) (by simp)
    (fun k hk => by simp [show k < n + 2 by omega])
  rw [h1]
  congr 1
  refine List.ext_getElem (by simp [h2]) fun k hk hk' => ?_
  rw [h2] at hk
  obtain ⟨d, hd, hder⟩ := h3 k (by omega)
  rw [List.getElem?_eq_getElem (by omega), Option.some.injEq] at hd
  have dJ := (sphJ_seq.raise k z hz).differentiableAt
  have dY := (sphY_seq.raise k z hz).differentiableAt
  have hH : deriv (sphH k) z = deriv (sphJ k) z + I * deriv (sphY k) z := by
    have : sphH k = fun z => sphJ k z + I * sphY k z := rfl
    rw [this, deriv_fun_add dJ (dY.const_mul I), deriv_const_mul I dY]
  rw [hd, ← hder.deriv, hH]
  simp [hS.dj k z hz, hS.dy k z hz]

/-! ## Backward -/

/-- What the backward pass reads instead of an entry of the argument. -/
noncomputable def fixZero (z : ℂ) : ℂ := if z = 0 then 1e-10 else z

theorem derBackward_eq (f : ℕ → ℂ → ℂ) (n : ℕ) (g : ℕ → ℕ → ℂ) (zs : List ℂ) :
    derBackward n f g zs = ((List.range zs.length).map fun j =>
      ∑ i ∈ Finset.range (n + 1), g i j * conj (bessel2ndDer f i (fixZero (zs.getD j 0))), zs.map fixZero) := by
  unfold derBackward zeroFill
  refine Prod.ext (List.ext_getElem (by simp) fun j hj hj' => ?_) rfl
  simp only [List.length_mapIdx, List.length_map] at hj
  simp only [List.getElem_mapIdx, List.getElem_map, List.getElem_range, gradEntry, sum_range_map', List.getD_eq_getElem?_getD,
    List.getElem?_eq_getElem hj, Option.getD_some, fixZero]

theorem fixZero_of_ne {z : ℂ} (h : z ≠ 0) : fixZero z = z := by simp [fixZero, h]

theorem fixZero_ne (z : ℂ) : fixZero z ≠ 0 := by
  unfold fixZero
  split_ifs with h
  · norm_num
  · exact h

theorem fixZero_idem (z : ℂ) : fixZero (fixZero z) = fixZero z := fixZero_of_ne (fixZero_ne z)

theorem hasGradientAt_derLoss {f : ℕ → ℂ → ℂ} (hf : BesselSeq f) (n : ℕ) (g : ℕ → ℂ) {z : ℂ} (hz : z ≠ 0) :
    HasGradientAt (derLoss f n g) (∑ i ∈ Finset.range (n + 1), g i * conj (bessel2ndDer f i z)) z := by
  rw [hasGradientAt_iff_hasFDerivAt]
  have h1 : ∀ i ∈ Finset.range (n + 1), HasFDerivAt (fun w : ℂ => (conj (g i) * deriv (f i) w).re)
      (reCLM.comp (((ContinuousLinearMap.mul ℝ ℂ) (conj (g i) * bessel2ndDer f i z)))) z := by
    intro i _
    have h := ((bessel2ndDer_eq hf i hz).const_mul (conj (g i))).hasFDerivAt.restrictScalars ℝ
    have h2 := reCLM.hasFDerivAt.comp z h
    refine h2.congr_fderiv ?_
    ext w
    simp
    ring
  have h2 := HasFDerivAt.fun_sum h1
  refine h2.congr_fderiv ?_
  ext w
  simp only [InnerProductSpace.toDual_apply_apply, Complex.inner, sum_apply]
  rw [map_sum, Finset.mul_sum, re_sum]
  refine Finset.sum_congr rfl fun i _ => ?_
  simp
  ring

theorem derBackward_grad {S : SciPy} (hS : S.Exact) (n : ℕ) (g : ℕ → ℕ → ℂ) (zs : List ℂ) :
    (derBackward n S.j g zs).1.length = zs.length ∧ (derBackward n S.y g zs).1.length = zs.length ∧
    ∀ j (hj : j < zs.length), zs[j] ≠ 0 →
      HasGradientAt (derLoss sphJ n fun i => g i j) ((derBackward n S.j g zs).1.getD j 0) zs[j] ∧
      HasGradientAt (derLoss sphY n fun i => g i j) ((derBackward n S.y g zs).1.getD j 0) zs[j] := by
  rw [derBackward_eq, derBackward_eq]
  refine ⟨by simp, by simp, fun j hj hne => ?_⟩
  have e1 : ∀ i, bessel2ndDer S.j i zs[j] = bessel2ndDer sphJ i zs[j] := fun i => by
    unfold bessel2ndDer; rw [hS.j _ _ hne, hS.j _ _ hne]
  have e2 : ∀ i, bessel2ndDer S.y i zs[j] = bessel2ndDer sphY i zs[j] := fun i => by
    unfold bessel2ndDer; rw [hS.y _ _ hne, hS.y _ _ hne]
  have k1 := hasGradientAt_derLoss sphJ_seq n (fun i => g i j) hne
  have k2 := hasGradientAt_derLoss sphY_seq n (fun i => g i j) hne
  simp only [← e1] at k1
  simp only [← e2] at k2
  simp only [List.getD_eq_getElem?_getD, List.getElem?_map, List.getElem?_range hj, List.getElem?_eq_getElem hj, Option.map_some,
    Option.getD_some, fixZero_of_ne hne]
  exact ⟨k1, k2⟩

/-- C100: the backward pass of `sph_h1n_der` does not depend on the order in which autograd visits its two terms, although each of them
overwrites the storage of `z` that the other one reads; at nonzero entries it is the gradient. -/
theorem C100_backward_hankel {S : SciPy} (hS : S.Exact) (n : ℕ) (g : ℕ → ℕ → ℂ) (zs : List ℂ) (yFirst : Bool) :
    h1nDerBackward S n g zs yFirst = h1nDerBackward S n g zs (!yFirst) ∧
    ∀ j (hj : j < zs.length), zs[j] ≠ 0 →
      HasGradientAt (derLoss sphH n fun i => g i j) ((h1nDerBackward S n g zs yFirst).1.getD j 0) zs[j] := by
  have hidem : (zs.map fixZero).map fixZero = zs.map fixZero := by
    rw [List.map_map]; exact List.map_congr_left fun z _ => fixZero_idem z
  have hfix : ∀ f g, derBackward n f g (zs.map fixZero) = derBackward n f g zs := by
    intro f g
    rw [derBackward_eq, derBackward_eq, hidem, List.length_map]
    refine Prod.ext (List.map_congr_left fun j hj => ?_) rfl
    have hj := List.mem_range.1 hj
    simp [List.getD_eq_getElem?_getD, hj, fixZero_idem]
  have hst : ∀ f g, (derBackward n f g zs).2 = zs.map fixZero := fun f g => by rw [derBackward_eq]
  have e : ∀ b, h1nDerBackward S n g zs b = (List.zipWith (· + ·) (derBackward n S.j g zs).1
      (derBackward n S.y (fun i j => g i j * conj I) zs).1, zs.map fixZero) := by
    intro b
    unfold h1nDerBackward
    cases b <;> simp [hst, hfix]
  refine ⟨by rw [e, e], fun j hj hne => ?_⟩
  rw [e]
  obtain ⟨l1, l2, h⟩ := derBackward_grad hS n g zs
  obtain ⟨l1', l2', h'⟩ := derBackward_grad hS n (fun i j => g i j * conj I) zs
  have hsum : (List.zipWith (· + ·) (derBackward n S.j g zs).1 (derBackward n S.y (fun i j => g i j * conj I) zs).1).getD j 0 =
      (derBackward n S.j g zs).1.getD j 0 + (derBackward n S.y (fun i j => g i j * conj I) zs).1.getD j 0 := by
    rw [List.getD_eq_getElem?_getD, List.getD_eq_getElem?_getD, List.getD_eq_getElem?_getD, List.getElem?_zipWith,
      List.getElem?_eq_getElem (l1.symm ▸ hj), List.getElem?_eq_getElem (l2'.symm ▸ hj)]
    rfl
  show HasGradientAt _ ((List.zipWith (· + ·) (derBackward n S.j g zs).1 (derBackward n S.y (fun i j => g i j * conj I) zs).1).getD j 0) _
  rw [hsum]
  have hloss : derLoss sphH n (fun i => g i j) =ᶠ[𝓝 zs[j]] fun w => derLoss sphJ n (fun i => g i j) w +
      derLoss sphY n (fun i => g i j * conj I) w := by
    filter_upwards [eventually_ne_nhds hne] with w hw
    unfold derLoss
    rw [← Finset.sum_add_distrib]
    refine Finset.sum_congr rfl fun i _ => ?_
    have dJ := (sphJ_seq.raise i w hw).differentiableAt
    have dY := (sphY_seq.raise i w hw).differentiableAt
    have : sphH i = fun z => sphJ i z + I * sphY i z := rfl
    rw [this, deriv_fun_add dJ (dY.const_mul I), deriv_const_mul I dY, ← add_re]
    congr 1
    simp only [map_mul, conj_conj]
    ring
  have ga := (h j hj hne).1.hasFDerivAt.add (h' j hj hne).2.hasFDerivAt
  rw [hasGradientAt_iff_hasFDerivAt, map_add]
  exact ga.congr_of_eventuallyEq hloss

/-! ## Arguments equal to zero -/

/-- C100, consequence of the overwritten zeros (C24): evaluating `sph_jn` on the same tensor again after a backward pass gives another value of `j_0` at the entries that
were zero. -/
theorem C100_reuse {S : SciPy} (hS : S.Exact) (h0 : S.j 0 0 = 1) (n : ℕ) (g : ℕ → ℕ → ℂ) {zs : List ℂ} (hz : (0 : ℂ) ∈ zs) :
    sphWrapper S.j [0] (derBackward n S.j g zs).2 ≠ sphWrapper S.j [0] zs := by
  have e : (derBackward n S.j g zs).2 = zs.map fixZero := by rw [derBackward_eq]
  rw [e]
  intro h
  have h1 : (zs.map fixZero).map (S.j 0) = zs.map (S.j 0) := by
    have hr : expandOrders [0] = .ok [0] := rfl
    unfold sphWrapper at h
    rw [hr] at h
    have := Except.ok.inj h
    simpa using this
  rw [List.map_map] at h1
  have h2 := List.map_inj_left.1 h1 0 hz
  simp only [Function.comp_apply, h0] at h2
  have h3 : fixZero 0 = ((1e-10 : ℝ) : ℂ) := by simp [fixZero]
  have hne : ((1e-10 : ℝ) : ℂ) ≠ 0 := by exact_mod_cast (by norm_num : (1e-10 : ℝ) ≠ 0)
  rw [h3, hS.j 0 _ hne] at h2
  have h4 : sphJ 0 ((1e-10 : ℝ) : ℂ) = ((Real.sin 1e-10 / 1e-10 : ℝ) : ℂ) := by
    unfold sphJ rayleigh
    push_cast
    simp
  rw [h4] at h2
  have h5 : Real.sin 1e-10 / 1e-10 = 1 := by exact_mod_cast h2
  have h6 := Real.sin_lt (by norm_num : (0 : ℝ) < 1e-10)
  rw [div_eq_one_iff_eq (by norm_num)] at h5
  linarith

/-- Specification: the second derivative of `j_n` at zero. -/
noncomputable def secondAtZero (n : ℕ) : ℂ := if n = 0 then -1 / 3 else if n = 2 then 2 / 15 else 0

theorem norm_sphJ_le' (n : ℕ) {z : ℂ} (hz : z ≠ 0) (h : ‖z‖ ≤ 1) : ‖sphJ n z‖ ≤ 2 * ‖z‖ ^ n := by
  have h1 := norm_ricPsi_le n hz h
  unfold ricPsi at h1
  rw [norm_mul, pow_succ] at h1
  have := norm_pos_iff.2 hz
  nlinarith

theorem sphJ_lead (n : ℕ) {z : ℂ} (hz : z ≠ 0) (h : ‖z‖ ≤ 1) : ‖sphJ n z - z ^ n / ((2 * n + 1).doubleFactorial : ℂ)‖ ≤ ‖z‖ ^ (n + 2) := by
  have h0 := norm_nonneg z
  have h1 := norm_sphJ_sub_le_q n hz (q := ‖z‖ ^ 2 / 6) (by positivity) (by nlinarith) (by
    have : (0 : ℝ) ≤ n := Nat.cast_nonneg n
    nlinarith [sq_nonneg ‖z‖])
  have e : jTerm n 0 z = z ^ n / ((2 * n + 1).doubleFactorial : ℂ) := by simp [jTerm]
  rw [e] at h1
  refine h1.trans ?_
  have h2 : ‖z ^ n / ((2 * n + 1).doubleFactorial : ℂ)‖ ≤ ‖z‖ ^ n := by
    rw [norm_div, norm_pow]
    have : (1 : ℝ) ≤ ‖((2 * n + 1).doubleFactorial : ℂ)‖ := by
      rw [norm_natCast]
      exact_mod_cast Nat.doubleFactorial_pos _
    exact div_le_self (by positivity) this
  have h3 : ‖z‖ ^ 2 / 6 / (1 - ‖z‖ ^ 2 / 6) ≤ ‖z‖ ^ 2 := by
    have hq : ‖z‖ ^ 2 ≤ 1 := by nlinarith
    rw [div_le_iff₀ (by nlinarith)]
    nlinarith [sq_nonneg ‖z‖]
  calc _ ≤ ‖z‖ ^ n * ‖z‖ ^ 2 := mul_le_mul h2 h3 (div_nonneg (by positivity) (by nlinarith)) (by positivity)
    _ = ‖z‖ ^ (n + 2) := by rw [pow_add]

theorem sq_le_pow_two (n : ℕ) : ((n : ℝ) + 3) ^ 2 ≤ 9 * 2 ^ n := by
  induction n with
  | zero => norm_num
  | succ n ih =>
    push_cast
    have e : (2 : ℝ) ^ (n + 1) = 2 * 2 ^ n := by ring
    rw [e]
    have : (0 : ℝ) ≤ n := Nat.cast_nonneg n
    nlinarith

/-- C100: near zero the formula of `bessel2ndDer` for `j_n` stays within `40 |z|` of the second derivative at zero, uniformly in the
order. -/
theorem C100_near_zero (n : ℕ) {z : ℂ} (hz : z ≠ 0) (h : ‖z‖ ≤ 1 / 2) : ‖bessel2ndDer sphJ n z - secondAtZero n‖ ≤ 40 * ‖z‖ := by
  have hp := norm_pos_iff.2 hz
  have h1 : ‖z‖ ≤ 1 := by linarith
  have split : bessel2ndDer sphJ n z = ((n : ℂ) ^ 2 - n) * (sphJ n z / z ^ 2) - sphJ n z + 2 * (sphJ (n + 1) z / z) := by
    unfold bessel2ndDer
    field_simp
  match n with
  | 0 =>
    have a := sphJ_lead 0 hz h1
    have b := sphJ_lead 1 hz h1
    have e : bessel2ndDer sphJ 0 z - secondAtZero 0 =
        -(sphJ 0 z - z ^ 0 / ((2 * 0 + 1).doubleFactorial : ℂ)) + 2 * ((sphJ 1 z - z ^ 1 / ((2 * 1 + 1).doubleFactorial : ℂ)) / z) := by
      rw [split]
      simp [secondAtZero, Nat.doubleFactorial]
      field_simp
      ring
    rw [e]
    refine (norm_add_le _ _).trans ?_
    rw [norm_neg, norm_mul, norm_div]
    have b' : ‖sphJ 1 z - z ^ 1 / ((2 * 1 + 1).doubleFactorial : ℂ)‖ / ‖z‖ ≤ ‖z‖ ^ 2 := by
      rw [div_le_iff₀ hp]
      calc _ ≤ _ := b
        _ = _ := by ring
    have : ‖(2 : ℂ)‖ = 2 := by norm_num
    rw [this]
    norm_num at a b' ⊢
    nlinarith
  | 1 =>
    have a := norm_sphJ_le' 1 hz h1
    have b := norm_sphJ_le' 2 hz h1
    have e : bessel2ndDer sphJ 1 z - secondAtZero 1 = -sphJ 1 z + 2 * (sphJ 2 z / z) := by
      rw [split]
      simp [secondAtZero]
    rw [e]
    refine (norm_add_le _ _).trans ?_
    rw [norm_neg, norm_mul, norm_div]
    have b' : ‖sphJ 2 z‖ / ‖z‖ ≤ 2 * ‖z‖ := by
      rw [div_le_iff₀ hp]
      calc _ ≤ _ := b
        _ = _ := by ring
    have : ‖(2 : ℂ)‖ = 2 := by norm_num
    rw [this]
    nlinarith
  | 2 =>
    have a := sphJ_lead 2 hz h1
    have a' := norm_sphJ_le' 2 hz h1
    have b := norm_sphJ_le' 3 hz h1
    have e : bessel2ndDer sphJ 2 z - secondAtZero 2 =
        2 * ((sphJ 2 z - z ^ 2 / ((2 * 2 + 1).doubleFactorial : ℂ)) / z ^ 2) - sphJ 2 z + 2 * (sphJ 3 z / z) := by
      rw [split]
      simp [secondAtZero, Nat.doubleFactorial]
      field_simp
      ring
    rw [e]
    refine (norm_add_le _ _).trans ?_
    refine (add_le_add_left (norm_sub_le _ _) _).trans ?_
    rw [norm_mul, norm_mul, norm_div, norm_div, norm_pow]
    have c1 : ‖sphJ 2 z - z ^ 2 / ((2 * 2 + 1).doubleFactorial : ℂ)‖ / ‖z‖ ^ 2 ≤ ‖z‖ ^ 2 := by
      rw [div_le_iff₀ (by positivity)]
      calc _ ≤ _ := a
        _ = _ := by ring
    have c2 : ‖sphJ 3 z‖ / ‖z‖ ≤ 2 * ‖z‖ ^ 2 := by
      rw [div_le_iff₀ hp]
      calc _ ≤ _ := b
        _ = _ := by ring
    have : ‖(2 : ℂ)‖ = 2 := by norm_num
    rw [this]
    nlinarith
  | n + 3 =>
    have a := norm_sphJ_le' (n + 3) hz h1
    have b := norm_sphJ_le' (n + 3 + 1) hz h1
    have e : secondAtZero (n + 3) = 0 := by simp [secondAtZero]
    rw [e, sub_zero, split]
    refine (norm_add_le _ _).trans ?_
    refine (add_le_add_left (norm_sub_le _ _) _).trans ?_
    rw [norm_mul, norm_mul, norm_div, norm_div, norm_pow]
    have hn : (0 : ℝ) ≤ n := Nat.cast_nonneg n
    have q : ‖((n + 3 : ℕ) : ℂ) ^ 2 - ((n + 3 : ℕ) : ℂ)‖ ≤ 9 * 2 ^ n := by
      have : ((n + 3 : ℕ) : ℂ) ^ 2 - ((n + 3 : ℕ) : ℂ) = ((((n : ℝ) + 3) ^ 2 - ((n : ℝ) + 3) : ℝ) : ℂ) := by push_cast; ring
      rw [this, norm_real, Real.norm_of_nonneg (by nlinarith)]
      linarith [sq_le_pow_two n]
    have hpow : ∀ k, ‖z‖ ^ k ≤ (1 / 2) ^ k := fun k => pow_le_pow_left₀ hp.le h k
    have c1 : ‖sphJ (n + 3) z‖ / ‖z‖ ^ 2 ≤ 2 * ((1 / 2) ^ n * ‖z‖) := by
      rw [div_le_iff₀ (by positivity)]
      calc _ ≤ 2 * ‖z‖ ^ (n + 3) := a
        _ = 2 * (‖z‖ ^ n * ‖z‖) * ‖z‖ ^ 2 := by ring
        _ ≤ _ := by gcongr
    have c0 : ‖sphJ (n + 3) z‖ ≤ 2 * ‖z‖ := by
      refine a.trans ?_
      have : ‖z‖ ^ (n + 3) ≤ ‖z‖ ^ 1 := pow_le_pow_of_le_one hp.le h1 (by omega)
      linarith [pow_one ‖z‖]
    have c2 : ‖sphJ (n + 3 + 1) z‖ / ‖z‖ ≤ 2 * ‖z‖ := by
      rw [div_le_iff₀ hp]
      refine b.trans ?_
      have : ‖z‖ ^ (n + 3 + 1) ≤ ‖z‖ ^ 2 := pow_le_pow_of_le_one hp.le h1 (by omega)
      nlinarith
    have c3 : ‖((n + 3 : ℕ) : ℂ) ^ 2 - ((n + 3 : ℕ) : ℂ)‖ * (‖sphJ (n + 3) z‖ / ‖z‖ ^ 2) ≤ 18 * ‖z‖ := by
      calc _ ≤ 9 * 2 ^ n * (2 * ((1 / 2) ^ n * ‖z‖)) := mul_le_mul q c1 (by positivity) (by positivity)
        _ = 18 * ((2 * (1 / 2)) ^ n * ‖z‖) := by rw [mul_pow]; ring
        _ = 18 * ‖z‖ := by norm_num
    have : ‖(2 : ℂ)‖ = 2 := by norm_num
    rw [this]
    linarith

/-- C100: the gradient of `sph_jn_der` at an entry equal to zero, taken at `1e-10` instead, differs from the limit of the gradients for small
entries by at most `4e-9` times the incoming gradient. -/
theorem C100_gradient_at_zero {S : SciPy} (hS : S.Exact) (n : ℕ) (g : ℕ → ℕ → ℂ) {zs : List ℂ} {j : ℕ} (hj : j < zs.length)
    (h0 : zs[j] = 0) :
    (∀ i, Tendsto (fun z => deriv (deriv (sphJ i)) z) (𝓝[≠] 0) (𝓝 (secondAtZero i))) ∧
    ‖(derBackward n S.j g zs).1.getD j 0 - ∑ i ∈ Finset.range (n + 1), g i j * conj (secondAtZero i)‖ ≤
      4e-9 * ∑ i ∈ Finset.range (n + 1), ‖g i j‖ := by
  constructor
  · intro i
    rw [tendsto_iff_norm_sub_tendsto_zero]
    have hb : Tendsto (fun z : ℂ => 40 * ‖z‖) (𝓝[≠] 0) (𝓝 0) := by
      have : Tendsto (fun z : ℂ => 40 * ‖z‖) (𝓝 0) (𝓝 (40 * ‖(0 : ℂ)‖)) := (continuous_const.mul continuous_norm).tendsto 0
      rw [norm_zero, mul_zero] at this
      exact this.mono_left nhdsWithin_le_nhds
    refine squeeze_zero' (Eventually.of_forall fun _ => norm_nonneg _) ?_ hb
    have hs : ∀ᶠ z : ℂ in 𝓝[≠] 0, ‖z‖ < 1 / 2 :=
      nhdsWithin_le_nhds (continuous_norm.continuousAt.eventually_lt_const (by norm_num))
    filter_upwards [hs, self_mem_nhdsWithin] with z hz hne
    rw [(bessel2ndDer_eq sphJ_seq i hne).deriv]
    exact C100_near_zero i hne hz.le
  · rw [derBackward_eq]
    simp only [List.getD_eq_getElem?_getD, List.getElem?_map, List.getElem?_range hj, List.getElem?_eq_getElem hj, Option.map_some,
      Option.getD_some, h0]
    have hf : fixZero 0 = ((1e-10 : ℝ) : ℂ) := by simp [fixZero]
    have hne : ((1e-10 : ℝ) : ℂ) ≠ 0 := by exact_mod_cast (by norm_num : (1e-10 : ℝ) ≠ 0)
    have hnorm : ‖((1e-10 : ℝ) : ℂ)‖ = 1e-10 := by rw [norm_real, Real.norm_of_nonneg (by norm_num)]
    rw [hf, ← Finset.sum_sub_distrib, Finset.mul_sum]
    refine (norm_sum_le _ _).trans (Finset.sum_le_sum fun i _ => ?_)
    have e : bessel2ndDer S.j i ((1e-10 : ℝ) : ℂ) = bessel2ndDer sphJ i ((1e-10 : ℝ) : ℂ) := by
      unfold bessel2ndDer; rw [hS.j _ _ hne, hS.j _ _ hne]
    have k := C100_near_zero i hne (by rw [hnorm]; norm_num)
    rw [hnorm] at k
    rw [e, ← mul_sub, ← map_sub, norm_mul, norm_conj]
    have := norm_nonneg (g i j)
    have k' : ‖bessel2ndDer sphJ i ((1e-10 : ℝ) : ℂ) - secondAtZero i‖ ≤ 4e-9 := k.trans (by norm_num)
    nlinarith

/-! ## The order argument -/

/-- C100: the SciPy wrappers take one order only; any other number of orders is an `AssertionError`, an order below `-1` a `RuntimeError`,
the order `-1` an empty result. -/
theorem C100_orders (S : SciPy) (n : List ℤ) (zs : List ℂ) :
    (n.length ≠ 1 → sphJnDer S n zs = .error .assertionError ∧ sphYnDer S n zs = .error .assertionError ∧
      sphH1nDer S n zs = .error .assertionError) ∧
    (∀ m, n = [m] → m < -1 → sphJnDer S n zs = .error .runtimeError ∧ sphH1nDer S n zs = .error .runtimeError) ∧
    (n = [-1] → sphJnDer S n zs = .ok [] ∧ sphH1nDer S n zs = .ok []) := by
  refine ⟨fun h => ?_, fun m hm h => ?_, fun hm => ?_⟩
  · have e : expandOrders n = .error .assertionError := by
      match n, h with
      | [], _ => rfl
      | _ :: _ :: _, _ => rfl
    simp [sphH1nDer, sphJnDer, sphYnDer, sphWrapper, e, Bind.bind, Except.bind]
  · have e : expandOrders n = .error .runtimeError := by rw [hm]; simp [expandOrders, h]
    simp [sphH1nDer, sphJnDer, sphWrapper, e, Bind.bind, Except.bind]
  · subst hm
    exact ⟨rfl, rfl⟩

/-- C100: the pena recurrences take the largest of the given orders. -/
theorem C100_pena_nmax (n : List ℤ) (hn : n ≠ []) : ∃ m, penaMaxOrder n = .ok m ∧ m ∈ n ∧ ∀ k ∈ n, k ≤ m := by
  obtain ⟨a, l, rfl⟩ := List.exists_cons_of_ne_nil hn
  refine ⟨l.foldl max a, rfl, ?_⟩
  induction l generalizing a with
  | nil => simp
  | cons b l ih =>
    obtain ⟨h1, h2⟩ := ih (max a b) (by simp)
    simp only [List.foldl_cons]
    refine ⟨?_, fun k hk => ?_⟩
    · rcases List.mem_cons.1 h1 with h | h
      · rw [h]
        rcases max_choice a b with h | h <;> rw [h] <;> simp
      · exact List.mem_cons_of_mem _ (List.mem_cons_of_mem _ h)
    · have hm := h2 (max a b) (by simp)
      rcases List.mem_cons.1 hk with rfl | hk
      · exact (le_max_left _ _).trans hm
      · rcases List.mem_cons.1 hk with rfl | hk
        · exact (le_max_right _ _).trans hm
        · exact h2 k (List.mem_cons_of_mem _ hk)

/-! ## Examples -/

/-- Exact special functions with SciPy's value at zero. -/
noncomputable def exactSciPy : SciPy where
  j := fun n z => if z = 0 then (if n = 0 then 1 else 0) else sphJ n z
  dj := fun n z => deriv (sphJ n) z
  y := sphY
  dy := fun n z => deriv (sphY n) z

theorem exactSciPy_exact : exactSciPy.Exact :=
  ⟨fun n z h => by simp [exactSciPy, h], fun _ _ _ => rfl, fun _ _ _ => rfl, fun _ _ _ => rfl⟩

example : exactSciPy.Exact ∧ exactSciPy.j 0 0 = 1 ∧ (0 : ℂ) ∈ [0, 1 + I] ∧ ∀ z ∈ [2, 1 + I], z ≠ 0 := by
  refine ⟨exactSciPy_exact, by simp [exactSciPy], by simp, ?_⟩
  intro z hz
  simp only [List.mem_cons, List.not_mem_nil, or_false] at hz
  rcases hz with rfl | rfl
  · norm_num
  · intro h; simpa using congrArg im h

/-- A tensor `[0, 1 + i]`: the backward pass of the Hankel derivative and the call afterwards. -/
example (n : ℕ) (g : ℕ → ℕ → ℂ) :
    h1nDerBackward exactSciPy n g [0, 1 + I] true = h1nDerBackward exactSciPy n g [0, 1 + I] false ∧
    sphWrapper exactSciPy.j [0] (derBackward n exactSciPy.j g [0, 1 + I]).2 ≠ sphWrapper exactSciPy.j [0] [0, 1 + I] :=
  ⟨(C100_backward_hankel exactSciPy_exact n g [0, 1 + I] true).1, C100_reuse exactSciPy_exact (by simp [exactSciPy]) n g (by simp)⟩

example : penaMaxOrder [3, 5, 4] = .ok 5 ∧ expandOrders [3, 5, 4] = .error .assertionError ∧ expandOrders [2] = .ok [0, 1, 2] := by
  decide

end MieDiff
