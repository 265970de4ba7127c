import Verif.Model.GradCheck
import Verif.Proofs.CenterDiff
import Verif.Props.Special

/-!
# C71: the finite-difference gradient checker
-/

namespace MieDiff

open Complex ComplexConjugate Metric Spec

/-- C71: `num_center_diff` of a holomorphic function approximates the derivative at the conjugate of `z`; the error is
bounded by the values of the function on a circle of radius `R > |eps|` around that point. -/
theorem C71_center_diff (F : ℕ → ℂ → ℂ) (n k i : ℕ) (hk : k ≤ n) (zs : List ℂ) (z eps : ℂ) (hi : zs[i]? = some z)
    {U : Set ℂ} (hU : IsOpen U) {R M : ℝ} (hc : closedBall (conj z) R ⊆ U) (hF : DifferentiableOn ℂ (F k) U)
    (hM : ∀ w ∈ sphere (conj z) R, ‖F k w‖ ≤ M) (he : eps ≠ 0) (hR : ‖eps‖ < R) :
    ∃ row d, (numCenterDiff F n zs eps)[k]? = some row ∧ row[i]? = some d ∧
      ‖d - deriv (F k) (conj z)‖ ≤ M * ‖eps‖ ^ 2 / (R * (R ^ 2 - ‖eps‖ ^ 2)) := by
  refine ⟨zs.map (centerDiff1 (F k) eps), centerDiff1 (F k) eps z, ?_, ?_, ?_⟩
  · simp [numCenterDiff, Nat.lt_succ_of_le hk]
  · simp [List.getElem?_map, hi]
  · exact centerDiff_error hU hc hF hM he hR

/-- The default step and the function `exp` around `z = 0` meet the hypotheses, with `R = 1` and `M = 3`. -/
example : ∃ row d, (numCenterDiff (fun _ => exp) 2 [0])[1]? = some row ∧ row[0]? = some d ∧ ‖d - 1‖ ≤ 1e-7 := by
  have h2 : ‖diffStep‖ ^ 2 = 2e-8 := by
    rw [← normSq_eq_norm_sq]
    norm_num [diffStep, normSq_apply]
  have h1 : ‖diffStep‖ < 1 := by nlinarith [norm_nonneg diffStep]
  obtain ⟨row, d, hr, hd, hb⟩ := C71_center_diff (fun _ => exp) 2 1 0 (by norm_num) [0] 0 diffStep rfl isOpen_univ
    (R := 1) (M := 3) (Set.subset_univ _) differentiable_exp.differentiableOn
    (by
      intro w hw
      have hw' : ‖w‖ = 1 := by simpa using hw
      rw [norm_exp]
      have : w.re ≤ 1 := by
        have := re_le_norm w
        linarith
      calc Real.exp w.re ≤ Real.exp 1 := Real.exp_le_exp.2 this
        _ ≤ 3 := by linarith [Real.exp_one_lt_d9]) (by
      intro h
      rw [h] at h2
      norm_num at h2) h1
  refine ⟨row, d, hr, hd, ?_⟩
  have h3 : deriv exp (conj (0 : ℂ)) = 1 := by simp
  simp only [h3] at hb
  refine hb.trans ?_
  rw [h2]
  norm_num

/-- Error of the central difference of one order away from the origin. -/
theorem centerDiff_local {f : ℂ → ℂ} (hf : ∀ w, w ≠ 0 → DifferentiableAt ℂ f w) {z : ℂ} (hz : z ≠ 0) :
    ∃ C, ∀ eps : ℂ, eps ≠ 0 → ‖eps‖ ≤ ‖z‖ / 4 → ‖centerDiff1 f eps z - deriv f (conj z)‖ ≤ C * ‖eps‖ ^ 2 := by
  have hzp : 0 < ‖z‖ := norm_pos_iff.2 hz
  have hd : DifferentiableOn ℂ f {w | w ≠ 0} := fun w hw => (hf w hw).differentiableWithinAt
  have hsub : closedBall (conj z) (‖z‖ / 2) ⊆ {w | w ≠ 0} := by
    intro w hw h0
    have : ‖w - conj z‖ ≤ ‖z‖ / 2 := by simpa [dist_eq_norm] using hw
    rw [show w = 0 from h0, zero_sub, norm_neg, norm_conj] at this
    linarith
  obtain ⟨M, hM⟩ := (isCompact_sphere (conj z) (‖z‖ / 2)).exists_bound_of_continuousOn
    ((hd.continuousOn.mono hsub).mono sphere_subset_closedBall)
  have hM0 : 0 ≤ M := by
    obtain ⟨w, hw⟩ := (NormedSpace.sphere_nonempty (x := conj z)).2 (show 0 ≤ ‖z‖ / 2 by positivity)
    exact (norm_nonneg _).trans (hM w hw)
  refine ⟨M / (‖z‖ / 2 * ((‖z‖ / 2) ^ 2 - (‖z‖ / 4) ^ 2)), fun eps he hle => ?_⟩
  have h := centerDiff_error isOpen_ne0 hsub hd hM he (lt_of_le_of_lt hle (by linarith))
  refine h.trans ?_
  rw [mul_div_right_comm]
  have hpos : 0 < (‖z‖ / 2) ^ 2 - (‖z‖ / 4) ^ 2 := by nlinarith
  gcongr

/-- Sum over the orders of the numerical derivatives for element `i`. -/
noncomputable def numSum (num : List (List ℂ)) (i : ℕ) : ℂ := (num.map fun row => row.getD i 0).sum

theorem numSum_error {F : ℕ → ℂ → ℂ} (hF : ∀ k w, w ≠ 0 → DifferentiableAt ℂ (F k) w) (n i : ℕ) (zs : List ℂ) {z : ℂ}
    (hi : zs[i]? = some z) (hz : z ≠ 0) :
    ∃ C, ∀ eps : ℂ, eps ≠ 0 → ‖eps‖ ≤ ‖z‖ / 4 →
      ‖numSum (numCenterDiff F n zs eps) i - ((List.range (n + 1)).map fun k => deriv (F k) (conj z)).sum‖ ≤
        C * ‖eps‖ ^ 2 := by
  choose C hC using fun k => centerDiff_local (hF k) hz
  refine ⟨((List.range (n + 1)).map C).sum, fun eps he hle => ?_⟩
  have hrow : ∀ k, (zs.map (centerDiff1 (F k) eps)).getD i 0 = centerDiff1 (F k) eps z := by
    intro k
    rw [List.getD_eq_getElem?_getD, List.getElem?_map, hi]
    rfl
  simp only [numSum, numCenterDiff, List.map_map, Function.comp_def, hrow]
  generalize List.range (n + 1) = l
  induction l with
  | nil => simp
  | cons k l ih =>
    simp only [List.map_cons, List.sum_cons, add_mul]
    refine le_trans (le_of_eq ?_) ((norm_add_le _ _).trans (add_le_add (hC k eps he hle) ih))
    congr 1
    ring

/-- The four functions the checker is called with in special.py:1574-1585, with their hand-written backward
passes. -/
inductive Checked : (ℕ → ℂ → ℂ) → (ℕ → Backward) → Prop
  | jn : Checked sphJ fun n => valBackward n fun k => deriv (sphJ k)
  | yn : Checked sphY fun n => valBackward n fun k => deriv (sphY k)
  | jnDer : Checked (fun k => deriv (sphJ k)) fun n => derBackward n sphJ
  | ynDer : Checked (fun k => deriv (sphY k)) fun n => derBackward n sphY

theorem valBackward_ones (n : ℕ) (df : ℕ → ℂ → ℂ) (zs : List ℂ) {i : ℕ} {z : ℂ} (hi : zs[i]? = some z) :
    (valBackward n df (fun _ _ => 1) zs).1[i]? = some (conj ((List.range (n + 1)).map fun k => df k z).sum) := by
  simp [valBackward, List.getElem?_mapIdx, hi, gradEntry, map_list_sum, Function.comp_def]

theorem derBackward_ones (n : ℕ) (f : ℕ → ℂ → ℂ) (zs : List ℂ) {i : ℕ} {z : ℂ} (hi : zs[i]? = some z) (hz : z ≠ 0) :
    (derBackward n f (fun _ _ => 1) zs).1[i]? =
      some (conj ((List.range (n + 1)).map fun k => bessel2ndDer f k z).sum) := by
  simp [derBackward, zeroFill, List.getElem?_mapIdx, hi, hz, gradEntry, map_list_sum, Function.comp_def]

theorem Checked.facts {F : ℕ → ℂ → ℂ} {back : ℕ → Backward} (h : Checked F back) :
    (∀ k w, w ≠ 0 → DifferentiableAt ℂ (F k) w) ∧ (∀ k w, w ≠ 0 → deriv (F k) (conj w) = conj (deriv (F k) w)) ∧
      ∀ (n : ℕ) (zs : List ℂ) (i : ℕ) (z : ℂ), zs[i]? = some z → z ≠ 0 → (back n (fun _ _ => 1) zs).1[i]? =
        some (conj ((List.range (n + 1)).map fun k => deriv (F k) z).sum) := by
  have two : ∀ {f : ℕ → ℂ → ℂ}, BesselSeq f → StarSeq f → ∀ k w, w ≠ 0 →
      deriv (deriv (f k)) (conj w) = conj (deriv (deriv (f k)) w) := by
    intro f hs hst k w hw
    have hw' : conj w ≠ 0 := by simpa using hw
    rw [(bessel2ndDer_eq hs k hw).deriv, (bessel2ndDer_eq hs k hw').deriv]
    simp [bessel2ndDer, hst _ w hw, conj_ofNat]
  cases h with
  | jn => exact ⟨fun k w hw => (sphJ_seq.raise k w hw).differentiableAt,
      fun k w hw => StarSeq.deriv sphJ_seq (fun n z hz => sphJ_star n hz) k w hw,
      fun n zs i z hi _ => valBackward_ones n _ zs hi⟩
  | yn => exact ⟨fun k w hw => (sphY_seq.raise k w hw).differentiableAt,
      fun k w hw => StarSeq.deriv sphY_seq (fun n z hz => sphY_star n hz) k w hw,
      fun n zs i z hi _ => valBackward_ones n _ zs hi⟩
  | jnDer => exact ⟨fun k w hw => (bessel2ndDer_eq sphJ_seq k hw).differentiableAt,
      two sphJ_seq fun n z hz => sphJ_star n hz,
      fun n zs i z hi hz => by
        rw [derBackward_ones n _ zs hi hz]
        simp only [(bessel2ndDer_eq sphJ_seq _ hz).deriv]⟩
  | ynDer => exact ⟨fun k w hw => (bessel2ndDer_eq sphY_seq k hw).differentiableAt,
      two sphY_seq fun n z hz => sphY_star n hz,
      fun n zs i z hi hz => by
        rw [derBackward_ones n _ zs hi hz]
        simp only [(bessel2ndDer_eq sphY_seq _ hz).deriv]⟩

/-- C71: for the four functions the checker is used with, the reported gradient is the sum over the orders of the reported
numerical derivatives, up to an error of second order in the step. -/
theorem C71_checker {F : ℕ → ℂ → ℂ} {back : ℕ → Backward} (h : Checked F back) (n i : ℕ) (zs : List ℂ) {z : ℂ}
    (hi : zs[i]? = some z) (hz : z ≠ 0) :
    ∃ C, ∀ eps : ℂ, eps ≠ 0 → ‖eps‖ ≤ ‖z‖ / 4 → ∃ g, (functGradChecker F (back n) n zs eps).2.2[i]? = some g ∧
      ‖numSum (functGradChecker F (back n) n zs eps).2.1 i - g‖ ≤ C * ‖eps‖ ^ 2 := by
  obtain ⟨h1, h2, h3⟩ := h.facts
  obtain ⟨C, hC⟩ := numSum_error h1 n i zs hi hz
  refine ⟨C, fun eps he hle => ⟨_, h3 n zs i z hi hz, ?_⟩⟩
  have := hC eps he hle
  have e : conj ((List.range (n + 1)).map fun k => deriv (F k) z).sum =
      ((List.range (n + 1)).map fun k => deriv (F k) (conj z)).sum := by
    simp [map_list_sum, Function.comp_def, h2 _ z hz]
  rw [e]
  exact this

/-- C71: the two functions without derivative leave the argument alone; the derivative functions return it with its zeros
replaced by `1e-10`. -/
theorem C71_argument (n : ℕ) (F f : ℕ → ℂ → ℂ) (zs : List ℂ) (eps : ℂ) :
    (functGradChecker F (valBackward n f) n zs eps).1 = zs ∧
      (functGradChecker F (derBackward n f) n zs eps).1 = zs.map fun z => if z = 0 then 1e-10 else z := ⟨rfl, rfl⟩

/-- C71: the checker must not be used with `sph_h1n`: although the gradient is right, the two reported numbers differ in
the limit of small steps by `2i Σ y_k'(conj z)`. -/
theorem C71_hankel (n i : ℕ) (zs : List ℂ) {z : ℂ} (hi : zs[i]? = some z) (hz : z ≠ 0) :
    ∃ C, ∀ eps : ℂ, eps ≠ 0 → ‖eps‖ ≤ ‖z‖ / 4 →
      ∃ g, (functGradChecker sphH (hankelBackward n (fun k => deriv (sphJ k)) fun k => deriv (sphY k)) n zs eps).2.2[i]? =
          some g ∧ g = conj ((List.range (n + 1)).map fun k => deriv (sphH k) z).sum ∧
        ‖numSum (functGradChecker sphH (hankelBackward n (fun k => deriv (sphJ k)) fun k => deriv (sphY k)) n zs eps).2.1 i
          - g - 2 * I * ((List.range (n + 1)).map fun k => deriv (sphY k) (conj z)).sum‖ ≤ C * ‖eps‖ ^ 2 := by
  obtain ⟨C, hC⟩ := numSum_error (fun k w hw => (sphH_seq.raise k w hw).differentiableAt) n i zs hi hz
  have hz' : conj z ≠ 0 := by simpa using hz
  have hH : ∀ w : ℂ, w ≠ 0 → ∀ k, deriv (sphH k) w = deriv (sphJ k) w + I * deriv (sphY k) w := by
    intro w hw k
    have := ((sphJ_seq.raise k w hw).differentiableAt.hasDerivAt).add
      (((sphY_seq.raise k w hw).differentiableAt.hasDerivAt).const_mul I)
    exact this.deriv
  have hJ := StarSeq.deriv sphJ_seq (fun n z hz => sphJ_star n hz)
  have hY := StarSeq.deriv sphY_seq (fun n z hz => sphY_star n hz)
  have hg : conj ((List.range (n + 1)).map fun k => deriv (sphH k) z).sum =
      ((List.range (n + 1)).map fun k => deriv (sphJ k) (conj z) - I * deriv (sphY k) (conj z)).sum := by
    simp only [map_list_sum, List.map_map, Function.comp_def, hH z hz, map_add, map_mul, conj_I, hJ _ z hz, hY _ z hz]
    congr 2
    ext k
    ring
  refine ⟨C, fun eps he hle => ⟨_, ?_, rfl, ?_⟩⟩
  · simp only [functGradChecker, hankelBackward, valBackward, List.getElem?_zipWith, List.getElem?_mapIdx, hi,
      Option.map_some, gradEntry, one_mul]
    congr 1
    rw [← List.sum_map_add]
    simp only [map_list_sum, List.map_map, Function.comp_def, hH z hz, map_add, map_mul]
  · have := hC eps he hle
    refine le_trans (le_of_eq ?_) this
    congr 1
    change numSum (numCenterDiff sphH n zs eps) i - _ - _ = _
    rw [hg, sub_sub]
    congr 1
    rw [← List.sum_map_mul_left, ← List.sum_map_add]
    congr 2
    ext k
    rw [hH _ hz']
    ring

/-- At `z = 1` and order 0 the discrepancy is `2i (sin 1 + cos 1)`, not zero. -/
example : deriv (sphY 0) (conj (1 : ℂ)) = sin 1 + cos 1 ∧ sin 1 + cos 1 ≠ (0 : ℂ) := by
  constructor
  · rw [map_one, (sphY_seq.raise 0 1 one_ne_zero).deriv, sphY_one one_ne_zero]
    simp
    ring
  · have h1 : (0 : ℝ) < Real.sin 1 := Real.sin_pos_of_pos_of_lt_pi one_pos (by linarith [Real.pi_gt_three])
    have h2 : (0 : ℝ) < Real.cos 1 := Real.cos_pos_of_mem_Ioo ⟨by linarith [Real.pi_gt_three], by
      linarith [Real.pi_gt_three]⟩
    have : (Real.sin 1 + Real.cos 1 : ℝ) ≠ 0 := by positivity
    intro h
    apply this
    rw [← ofReal_inj]
    push_cast
    exact h

/-- The four functions with a tensor of two arguments. -/
example : ∃ C, ∀ eps : ℂ, eps ≠ 0 → ‖eps‖ ≤ ‖(3 + 4 * I : ℂ)‖ / 4 → ∃ g,
    (functGradChecker sphJ (valBackward 3 fun k => deriv (sphJ k)) 3 [1, 3 + 4 * I] eps).2.2[1]? = some g ∧
      ‖numSum (functGradChecker sphJ (valBackward 3 fun k => deriv (sphJ k)) 3 [1, 3 + 4 * I] eps).2.1 1 - g‖ ≤
        C * ‖eps‖ ^ 2 :=
  C71_checker .jn 3 1 [1, 3 + 4 * I] rfl (by
    intro h
    have := congrArg re h
    norm_num at this)

end MieDiff
