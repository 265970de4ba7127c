import Verif.Spec.Conductor
import Verif.Proofs.Solvable
import Verif.Props.Convergence

/-!
# The interface problem with a metallic outer layer
-/

namespace MieDiff

open Complex Spec Filter Topology

/-! ## Riccati functions far from the origin -/

/-- The incoming Riccati-Hankel function. -/
noncomputable def ricEta (n : ℕ) (z : ℂ) : ℂ := 2 * ricPsi n z - ricZeta n z

noncomputable def dricEta (n : ℕ) (z : ℂ) : ℂ := 2 * deriv (ricPsi n) z - deriv (ricZeta n) z

variable {ι : Type*} {F : Filter ι} {z : ι → ℂ}

theorem inv_far (hz : Tendsto (fun i => ‖z i‖) F atTop) : Tendsto (fun i => (z i)⁻¹) F (𝓝 0) := by
  rw [tendsto_zero_iff_norm_tendsto_zero]
  simp only [norm_inv]
  exact tendsto_inv_atTop_zero.comp hz

theorem far_ne (hz : Tendsto (fun i => ‖z i‖) F atTop) : ∀ᶠ i in F, z i ≠ 0 := by
  filter_upwards [hz.eventually (eventually_gt_atTop 0)] with i hi
  exact norm_pos_iff.1 hi

theorem rec_far {f : ℕ → ℂ → ℂ} {E : ι → ℂ} {c : ℂ} (hz : Tendsto (fun i => ‖z i‖) F atTop)
    (hrec : ∀ n w, w ≠ 0 → f (n + 2) w = (2 * (n : ℂ) + 3) / w * f (n + 1) w - f n w)
    (h0 : Tendsto (fun i => f 0 (z i) * E i) F (𝓝 c)) {s : ℂ} (hs : s ^ 2 = -1)
    (h1 : Tendsto (fun i => f 1 (z i) * E i) F (𝓝 (s * c))) (n : ℕ) :
    Tendsto (fun i => f n (z i) * E i) F (𝓝 (s ^ n * c)) := by
  induction n using Nat.twoStepInduction with
  | zero => simpa using h0
  | one => simpa using h1
  | more n ih1 ih2 =>
    have h := (((inv_far hz).const_mul (2 * (n : ℂ) + 3)).mul ih2).sub ih1
    rw [mul_zero, zero_mul, zero_sub, show -(s ^ n * c) = s ^ (n + 2) * c by rw [pow_add, hs]; ring] at h
    refine h.congr' ?_
    filter_upwards [far_ne hz] with i hi
    rw [hrec n _ hi]
    ring

theorem exp_cancel (w : ℂ) : exp (w * I) * exp (-(w * I)) = 1 := by
  rw [← Complex.exp_add, add_neg_cancel, Complex.exp_zero]

theorem zeta_far (hz : Tendsto (fun i => ‖z i‖) F atTop) (n : ℕ) :
    Tendsto (fun i => ricZeta n (z i) * exp (-(z i * I))) F (𝓝 ((-I) ^ n * -I)) := by
  have h0 : Tendsto (fun i => ricZeta 0 (z i) * exp (-(z i * I))) F (𝓝 (-I)) := by
    refine tendsto_const_nhds.congr' ?_
    filter_upwards [far_ne hz] with i hi
    rw [ricZeta_zero_exp _ hi, mul_assoc, exp_cancel, mul_one]
  refine rec_far hz (fun n w hw => ricZeta_rec n hw) h0 (by rw [neg_sq, I_sq]) ?_ n
  have h := ((inv_far hz).sub_const I).mul h0
  rw [zero_sub] at h
  refine h.congr' ?_
  filter_upwards [far_ne hz] with i hi
  rw [ricZeta_one _ hi]
  ring

theorem eta_far (hz : Tendsto (fun i => ‖z i‖) F atTop) (n : ℕ) :
    Tendsto (fun i => ricEta n (z i) * exp (z i * I)) F (𝓝 (I ^ n * I)) := by
  have hexp : ∀ w : ℂ, exp (-(w * I)) * exp (w * I) = 1 := fun w => by rw [mul_comm, exp_cancel]
  have e0 : ∀ w : ℂ, w ≠ 0 → ricEta 0 w = I * exp (-(w * I)) := by
    intro w hw
    rw [ricEta, ricPsi_zero w hw, ricZeta_zero w hw, ← neg_mul, exp_mul_I, cos_neg, sin_neg]
    linear_combination sin w * I_sq
  have h0 : Tendsto (fun i => ricEta 0 (z i) * exp (z i * I)) F (𝓝 I) := by
    refine tendsto_const_nhds.congr' ?_
    filter_upwards [far_ne hz] with i hi
    rw [e0 _ hi, mul_assoc, hexp, mul_one]
  refine rec_far hz (fun n w hw => ?_) h0 I_sq ?_ n
  · simp only [ricEta]
    rw [ricPsi_rec n hw, ricZeta_rec n hw]
    ring
  have h := ((inv_far hz).add_const I).mul h0
  rw [zero_add] at h
  refine h.congr' ?_
  filter_upwards [far_ne hz] with i hi
  have e1 : ricEta 1 (z i) = (1 / z i + I) * ricEta 0 (z i) := by
    simp only [ricEta]
    unfold ricPsi ricZeta sphH
    rw [sphJ_zero, sphY_zero, sphJ_one hi, sphY_one hi]
    field_simp
    ring_nf
    rw [I_sq]
    ring
  rw [e1]
  ring

theorem dzeta_far (hz : Tendsto (fun i => ‖z i‖) F atTop) (n : ℕ) :
    Tendsto (fun i => deriv (ricZeta n) (z i) * exp (-(z i * I))) F (𝓝 (I * ((-I) ^ n * -I))) := by
  have h := (((inv_far hz).const_mul ((n : ℂ) + 1)).mul (zeta_far hz n)).sub (zeta_far hz (n + 1))
  rw [mul_zero, zero_mul, zero_sub, show -((-I) ^ (n + 1) * -I) = I * ((-I) ^ n * -I) by ring] at h
  refine h.congr' ?_
  filter_upwards [far_ne hz] with i hi
  rw [deriv_ricZeta_raise n hi]
  ring

theorem deta_far (hz : Tendsto (fun i => ‖z i‖) F atTop) (n : ℕ) :
    Tendsto (fun i => dricEta n (z i) * exp (z i * I)) F (𝓝 (-I * (I ^ n * I))) := by
  have h := (((inv_far hz).const_mul ((n : ℂ) + 1)).mul (eta_far hz n)).sub (eta_far hz (n + 1))
  rw [mul_zero, zero_mul, zero_sub, show -(I ^ (n + 1) * I) = -I * (I ^ n * I) by ring] at h
  refine h.congr' ?_
  filter_upwards [far_ne hz] with i hi
  rw [dricEta, deriv_ricZeta_raise n hi, deriv_ricPsi_raise n hi]
  simp only [ricEta]
  ring

theorem exp_small (him : Tendsto (fun i => (z i).im) F atTop) : Tendsto (fun i => exp (z i * I)) F (𝓝 0) := by
  rw [tendsto_zero_iff_norm_tendsto_zero]
  have h : Tendsto (fun i => Real.exp (-(z i).im)) F (𝓝 0) := Real.tendsto_exp_neg_atTop_nhds_zero.comp him
  refine h.congr fun i => ?_
  rw [norm_exp]
  congr 1
  simp

theorem norm_far (him : Tendsto (fun i => (z i).im) F atTop) : Tendsto (fun i => ‖z i‖) F atTop :=
  tendsto_atTop_mono (fun _ => (le_abs_self _).trans (abs_im_le_norm _)) him

/-! ## The wave at the outer side of a metallic layer -/

theorem wave_split (w : Wave) (n : ℕ) (y : ℂ) :
    w.val n y = w.d / 2 * ricEta n y + (w.d / 2 - w.a) * ricZeta n y ∧
      w.der n y = w.d / 2 * dricEta n y + (w.d / 2 - w.a) * deriv (ricZeta n) y := by
  simp only [Wave.val, Wave.der, ricEta, dricEta]
  constructor <;> ring

/-- A wave whose outgoing part is small at `z`, compared with the incoming one, has value and derivative in the ratio of the
incoming exponential. -/
theorem wave_far (him : Tendsto (fun i => ‖z i‖) F atTop) {w : ι → Wave} (n : ℕ) (hd : ∀ᶠ i in F, (w i).d ≠ 0)
    (hr : Tendsto (fun i => ((w i).d / 2 - (w i).a) / ((w i).d / 2) * exp (2 * (z i * I))) F (𝓝 0)) :
    Tendsto (fun i => (w i).val n (z i) * (exp (z i * I) / ((w i).d / 2))) F (𝓝 (I ^ n * I)) ∧
      Tendsto (fun i => (w i).der n (z i) * (exp (z i * I) / ((w i).d / 2))) F (𝓝 (-I * (I ^ n * I))) := by
  have h2 : ∀ y : ℂ, exp (2 * y) = exp y * exp y := fun y => by rw [← Complex.exp_add, two_mul]
  constructor
  · have h := (eta_far him n).add (hr.mul (zeta_far him n))
    rw [zero_mul, add_zero] at h
    refine h.congr' ?_
    filter_upwards [hd] with i hi
    rw [(wave_split (w i) n (z i)).1, h2, show ((w i).d / 2 - (w i).a) / ((w i).d / 2) * (exp (z i * I) * exp (z i * I)) *
      (ricZeta n (z i) * exp (-(z i * I))) = ((w i).d / 2 - (w i).a) / ((w i).d / 2) * exp (z i * I) *
        ricZeta n (z i) * (exp (z i * I) * exp (-(z i * I))) by ring, exp_cancel]
    field_simp
  · have h := (deta_far him n).add (hr.mul (dzeta_far him n))
    rw [zero_mul, add_zero] at h
    refine h.congr' ?_
    filter_upwards [hd] with i hi
    rw [(wave_split (w i) n (z i)).2, h2, show ((w i).d / 2 - (w i).a) / ((w i).d / 2) * (exp (z i * I) * exp (z i * I)) *
      (deriv (ricZeta n) (z i) * exp (-(z i * I))) = ((w i).d / 2 - (w i).a) / ((w i).d / 2) * exp (z i * I) *
        deriv (ricZeta n) (z i) * (exp (z i * I) * exp (-(z i * I))) by ring, exp_cancel]
    field_simp

/-- After the surface: the coefficient of a sphere with such a wave below its surface. -/
theorem surface_far {m : ι → ℂ} {x : ℂ} (hx : x ≠ 0) (hm : Tendsto (fun i => ‖m i‖) F atTop) {q : Pol} {n : ℕ}
    (hzeta : ricZeta n x ≠ 0) (hdzeta : deriv (ricZeta n) x ≠ 0) {w out : ι → Wave} {g : ι → ℂ} (hg : ∀ᶠ i in F, g i ≠ 0)
    {c : ℂ} (hc : c ≠ 0) (hv : Tendsto (fun i => (w i).val n (m i * x) * g i) F (𝓝 c))
    (he : Tendsto (fun i => (w i).der n (m i * x) * g i) F (𝓝 (-I * c)))
    (hcont : ∀ᶠ i in F, Cont q n (m i) 1 x (w i) (out i)) :
    ∃ a, ConductorSolves q n x a ∧ (∀ᶠ i in F, (out i).d ≠ 0) ∧ Tendsto (fun i => (out i).a / (out i).d) F (𝓝 a) := by
  have hmi := inv_far hm
  have hI := I_ne_zero
  have key : ∀ {V W : ℂ}, Tendsto (fun i => (out i).val n x * g i) F (𝓝 V) →
      Tendsto (fun i => (out i).der n x * g i) F (𝓝 W) → V * deriv (ricZeta n) x - W * ricZeta n x ≠ 0 →
      (∀ᶠ i in F, (out i).d ≠ 0) ∧ Tendsto (fun i => (out i).a / (out i).d) F
        (𝓝 ((V * deriv (ricPsi n) x - W * ricPsi n x) / (V * deriv (ricZeta n) x - W * ricZeta n x))) := by
    intro V W h1 h2 h3
    have hd : Tendsto (fun i => (out i).d * I * g i) F (𝓝 (V * deriv (ricZeta n) x - W * ricZeta n x)) := by
      refine ((h1.mul_const _).sub (h2.mul_const _)).congr fun i => ?_
      rw [← wave_d (out i) n hx]
      ring
    have ha : Tendsto (fun i => (out i).a * I * g i) F (𝓝 (V * deriv (ricPsi n) x - W * ricPsi n x)) := by
      refine ((h1.mul_const _).sub (h2.mul_const _)).congr fun i => ?_
      rw [← wave_a (out i) n hx]
      ring
    have hne := hd.eventually_ne h3
    refine ⟨hne.mono fun i hi h0 => hi (by rw [h0]; ring), (ha.div hd h3).congr' ?_⟩
    filter_upwards [hne, hg] with i h4 h5
    simp only [Pi.div_apply]
    rw [mul_div_mul_right _ _ h5, mul_div_mul_right _ _ hI]
  cases q with
  | tm =>
    have h1 : Tendsto (fun i => (out i).val n x * g i) F (𝓝 c) := by
      refine hv.congr' ?_
      filter_upwards [hcont] with i h
      rw [h.1, one_mul]
    have h2 : Tendsto (fun i => (out i).der n x * g i) F (𝓝 0) := by
      have := he.mul hmi
      rw [mul_zero] at this
      refine this.congr' ?_
      filter_upwards [hcont, far_ne hm] with i h hi
      have h3 := h.2
      rw [one_mul, mul_one] at h3
      rw [h3]
      field_simp
    obtain ⟨a1, a2⟩ := key h1 h2 (by simpa using ⟨hc, hdzeta⟩)
    refine ⟨_, ?_, a1, a2⟩
    simp only [ConductorSolves, Wave.der, zero_mul, sub_zero]
    field_simp
    ring
  | te =>
    have h1 : Tendsto (fun i => (out i).val n x * g i) F (𝓝 0) := by
      have := hv.mul hmi
      rw [mul_zero] at this
      refine this.congr' ?_
      filter_upwards [hcont, far_ne hm] with i h hi
      have h3 := h.1
      rw [one_mul, mul_one] at h3
      rw [h3]
      field_simp
    have h2 : Tendsto (fun i => (out i).der n x * g i) F (𝓝 (-I * c)) := by
      refine he.congr' ?_
      filter_upwards [hcont] with i h
      rw [h.2, one_mul]
    have hne : (0 : ℂ) * deriv (ricZeta n) x - -I * c * ricZeta n x ≠ 0 := by
      rw [zero_mul, zero_sub, neg_ne_zero]
      exact mul_ne_zero (mul_ne_zero (neg_ne_zero.2 hI) hc) hzeta
    obtain ⟨a1, a2⟩ := key h1 h2 hne
    refine ⟨_, ?_, a1, a2⟩
    simp only [ConductorSolves, Wave.val, zero_mul, zero_sub]
    field_simp
    ring

/-- The wave just above an interface to a metallic layer: incoming and outgoing part of comparable size there. -/
theorem metal_split {m : ι → ℂ} {m1 x1 : ℂ} (hm1 : m1 ≠ 0) (hx1 : x1 ≠ 0)
    (hm : Tendsto (fun i => ‖m i‖) F atTop) {q : Pol} {n : ℕ} {w1 : Wave} (hw1 : w1.d ≠ 0 ∨ w1.a ≠ 0) {w : ι → Wave}
    (hcont : ∀ᶠ i in F, Cont q n m1 (m i) x1 w1 (w i)) :
    (∀ᶠ i in F, (w i).d ≠ 0) ∧ ∃ β : ℂ, Tendsto (fun i => ((w i).d / 2 - (w i).a) / ((w i).d / 2) *
      exp (2 * (m i * x1 * I))) F (𝓝 β) := by
  have hmi := inv_far hm
  have hI := I_ne_zero
  have hz : Tendsto (fun i => ‖m i * x1‖) F atTop := by
    simp only [norm_mul]
    exact hm.atTop_mul_const (norm_pos_iff.2 hx1)
  have hz1 := mul_ne_zero hm1 hx1
  -- value and derivative up to a common factor, one of the limits being zero
  obtain ⟨g, V, W, hg, hV, hW, hVW⟩ : ∃ (g : ι → ℂ) (V W : ℂ), (∀ᶠ i in F, g i ≠ 0) ∧
      Tendsto (fun i => (w i).val n (m i * x1) * g i) F (𝓝 V) ∧ Tendsto (fun i => (w i).der n (m i * x1) * g i) F (𝓝 W) ∧
      (V = 0 ∧ W ≠ 0 ∨ V ≠ 0 ∧ W = 0) := by
    have hnz : w1.val n (m1 * x1) ≠ 0 ∨ w1.der n (m1 * x1) ≠ 0 := by
      by_contra hcon
      push Not at hcon
      have b1 := wave_d w1 n hz1
      have b2 := wave_a w1 n hz1
      rw [hcon.1, hcon.2, zero_mul, zero_mul, sub_zero] at b1 b2
      rcases hw1 with h | h
      · exact mul_ne_zero h hI b1.symm
      · exact mul_ne_zero h hI b2.symm
    have hmne := far_ne hm
    cases q with
    | tm =>
      have hval : ∀ᶠ i in F, (w i).val n (m i * x1) = w1.val n (m1 * x1) := hcont.mono fun i h => h.1.symm
      have hder : ∀ᶠ i in F, (w i).der n (m i * x1) = w1.der n (m1 * x1) * m i / m1 := by
        filter_upwards [hcont] with i h
        rw [h.2]
        field_simp
      by_cases hW : w1.der n (m1 * x1) = 0
      · have hV : w1.val n (m1 * x1) ≠ 0 := hnz.resolve_right (not_not.2 hW)
        refine ⟨fun _ => 1, _, 0, Eventually.of_forall fun _ => one_ne_zero,
          tendsto_const_nhds.congr' (hval.mono fun i h => by simp only [h, mul_one]),
          tendsto_const_nhds.congr' (hder.mono fun i h => by simp [h, hW]), .inr ⟨hV, rfl⟩⟩
      · refine ⟨fun i => (m i)⁻¹, 0, w1.der n (m1 * x1) / m1, hmne.mono fun i h => inv_ne_zero h, ?_, ?_,
          .inl ⟨rfl, div_ne_zero hW hm1⟩⟩
        · have := hmi.const_mul (w1.val n (m1 * x1))
          rw [mul_zero] at this
          exact this.congr' (hval.mono fun i h => by simp only [h])
        · refine tendsto_const_nhds.congr' ?_
          filter_upwards [hder, hmne] with i h h0
          rw [h]
          field_simp
    | te =>
      have hval : ∀ᶠ i in F, (w i).val n (m i * x1) = w1.val n (m1 * x1) * m i / m1 := by
        filter_upwards [hcont] with i h
        rw [h.1]
        field_simp
      have hder : ∀ᶠ i in F, (w i).der n (m i * x1) = w1.der n (m1 * x1) := hcont.mono fun i h => h.2.symm
      by_cases hV : w1.val n (m1 * x1) = 0
      · have hW : w1.der n (m1 * x1) ≠ 0 := hnz.resolve_left (not_not.2 hV)
        refine ⟨fun _ => 1, 0, _, Eventually.of_forall fun _ => one_ne_zero,
          tendsto_const_nhds.congr' (hval.mono fun i h => by simp [h, hV]),
          tendsto_const_nhds.congr' (hder.mono fun i h => by simp only [h, mul_one]), .inl ⟨rfl, hW⟩⟩
      · refine ⟨fun i => (m i)⁻¹, w1.val n (m1 * x1) / m1, 0, hmne.mono fun i h => inv_ne_zero h, ?_, ?_,
          .inr ⟨div_ne_zero hV hm1, rfl⟩⟩
        · refine tendsto_const_nhds.congr' ?_
          filter_upwards [hval, hmne] with i h h0
          rw [h]
          field_simp
        · have := hmi.const_mul (w1.der n (m1 * x1))
          rw [mul_zero] at this
          exact this.congr' (hder.mono fun i h => by simp only [h])
  have hd : Tendsto (fun i => (w i).d * I * g i * exp (-(m i * x1 * I))) F
      (𝓝 (V * (I * ((-I) ^ n * -I)) - W * ((-I) ^ n * -I))) := by
    refine ((hV.mul (dzeta_far hz n)).sub (hW.mul (zeta_far hz n))).congr' ?_
    filter_upwards [far_ne hz] with i hi
    rw [← wave_d (w i) n hi]
    ring
  have hb : Tendsto (fun i => ((w i).d / 2 - (w i).a) * I * g i * exp (m i * x1 * I)) F
      (𝓝 (-(1 / 2) * (V * (-I * (I ^ n * I)) - W * (I ^ n * I)))) := by
    refine (((hV.mul (deta_far hz n)).sub (hW.mul (eta_far hz n))).const_mul (-(1 / 2))).congr' ?_
    filter_upwards [far_ne hz] with i hi
    have b1 := wave_d (w i) n hi
    have b2 := wave_a (w i) n hi
    simp only [dricEta, ricEta]
    linear_combination g i * exp (m i * x1 * I) * (1 / 2 * b1 - b2)
  have hne : V * (I * ((-I) ^ n * -I)) - W * ((-I) ^ n * -I) ≠ 0 := by
    have hp : (-I) ^ n * -I ≠ 0 := mul_ne_zero (pow_ne_zero _ (neg_ne_zero.2 hI)) (neg_ne_zero.2 hI)
    rcases hVW with ⟨rfl, h⟩ | ⟨h, rfl⟩
    · rw [zero_mul, zero_sub, neg_ne_zero]
      exact mul_ne_zero h hp
    · rw [zero_mul, sub_zero]
      exact mul_ne_zero h (mul_ne_zero hI hp)
  have hdne := hd.eventually_ne hne
  have hdne' : ∀ᶠ i in F, (w i).d ≠ 0 := hdne.mono fun i hi h0 => hi (by rw [h0]; ring)
  refine ⟨hdne', _, ((hb.div hd hne).const_mul 2).congr' ?_⟩
  filter_upwards [hdne', hg] with i h1 h2
  have hE := exp_cancel (m i * x1)
  have hEne := Complex.exp_ne_zero (m i * x1 * I)
  have e2 : exp (2 * (m i * x1 * I)) = exp (m i * x1 * I) * exp (m i * x1 * I) := by rw [← Complex.exp_add, two_mul]
  have e3 : exp (-(m i * x1 * I)) = (exp (m i * x1 * I))⁻¹ := eq_inv_of_mul_eq_one_right hE
  simp only [Pi.div_apply]
  rw [e2, e3]
  field_simp

/-- A metallic layer from `x1` to `x2` around anything. -/
theorem shell_far {m : ι → ℂ} {m1 : ℂ} {x1 x2 : ℝ} (hm1 : m1 ≠ 0) (hx1 : 0 < x1) (hx2 : x1 < x2)
    (him : Tendsto (fun i => (m i).im) F atTop) {q : Pol} {n : ℕ} (hzeta : ricZeta n x2 ≠ 0)
    (hdzeta : deriv (ricZeta n) (x2 : ℂ) ≠ 0) {w1 : Wave} (hw1 : w1.d ≠ 0 ∨ w1.a ≠ 0) {w out : ι → Wave}
    (h1 : ∀ᶠ i in F, Cont q n m1 (m i) x1 w1 (w i)) (h2 : ∀ᶠ i in F, Cont q n (m i) 1 x2 (w i) (out i)) :
    ∃ a, ConductorSolves q n x2 a ∧ (∀ᶠ i in F, (out i).d ≠ 0) ∧ Tendsto (fun i => (out i).a / (out i).d) F (𝓝 a) := by
  have hm := norm_far him
  have hx1c : (x1 : ℂ) ≠ 0 := by exact_mod_cast hx1.ne'
  have hx2c : (x2 : ℂ) ≠ 0 := by exact_mod_cast (hx1.trans hx2).ne'
  obtain ⟨hd, β, hβ⟩ := metal_split hm1 hx1c hm hw1 h1
  have hz : Tendsto (fun i => ‖m i * x2‖) F atTop := by
    simp only [norm_mul]
    exact hm.atTop_mul_const (norm_pos_iff.2 hx2c)
  have hex : Tendsto (fun i => exp (2 * (m i * ((x2 - x1 : ℝ) : ℂ) * I))) F (𝓝 0) := by
    have h3 : Tendsto (fun i => (2 * (m i * ((x2 - x1 : ℝ) : ℂ))).im) F atTop := by
      have : (fun i => (2 * (m i * ((x2 - x1 : ℝ) : ℂ))).im) = fun i => (m i).im * (2 * (x2 - x1)) := by
        funext i
        simp [mul_im]
        ring
      rw [this]
      exact him.atTop_mul_const (by linarith)
    refine (exp_small h3).congr fun i => ?_
    rw [mul_assoc]
  have hr : Tendsto (fun i => ((w i).d / 2 - (w i).a) / ((w i).d / 2) * exp (2 * (m i * x2 * I))) F (𝓝 0) := by
    have := hβ.mul hex
    rw [mul_zero] at this
    refine this.congr fun i => ?_
    rw [mul_assoc, ← Complex.exp_add]
    congr 2
    push_cast
    ring
  obtain ⟨a1, a2⟩ := wave_far hz n hd hr
  exact surface_far hx2c hm hzeta hdzeta
    (hd.mono fun i hi => div_ne_zero (Complex.exp_ne_zero _) (div_ne_zero hi two_ne_zero))
    (mul_ne_zero (pow_ne_zero _ I_ne_zero) I_ne_zero) a1 a2 h2

/-- A metallic sphere. -/
theorem sphere_far {m : ι → ℂ} {x : ℝ} (hx : 0 < x) (him : Tendsto (fun i => (m i).im) F atTop) {q : Pol} {n : ℕ}
    (hzeta : ricZeta n x ≠ 0) (hdzeta : deriv (ricZeta n) (x : ℂ) ≠ 0) {out : ι → Wave}
    (h : ∀ᶠ i in F, Cont q n (m i) 1 x ⟨1, 0⟩ (out i)) :
    ∃ a, ConductorSolves q n x a ∧ (∀ᶠ i in F, (out i).d ≠ 0) ∧ Tendsto (fun i => (out i).a / (out i).d) F (𝓝 a) := by
  have hm := norm_far him
  have hxc : (x : ℂ) ≠ 0 := by exact_mod_cast hx.ne'
  have hz : Tendsto (fun i => ‖m i * x‖) F atTop := by
    simp only [norm_mul]
    exact hm.atTop_mul_const (norm_pos_iff.2 hxc)
  have hr : Tendsto (fun i => (((⟨1, 0⟩ : Wave).d / 2 - (⟨1, 0⟩ : Wave).a) / ((⟨1, 0⟩ : Wave).d / 2)) *
      exp (2 * (m i * x * I))) F (𝓝 0) := by
    have h3 : Tendsto (fun i => (2 * (m i * (x : ℂ))).im) F atTop := by
      have : (fun i => (2 * (m i * (x : ℂ))).im) = fun i => (m i).im * (2 * x) := by
        funext i
        simp [mul_im]
        ring
      rw [this]
      exact him.atTop_mul_const (by linarith)
    refine (exp_small h3).congr fun i => ?_
    rw [mul_assoc]
    simp
  obtain ⟨a1, a2⟩ := wave_far hz (w := fun _ => ⟨1, 0⟩) n (Eventually.of_forall fun _ => one_ne_zero) hr
  exact surface_far hxc hm hzeta hdzeta
    (Eventually.of_forall fun i => div_ne_zero (Complex.exp_ne_zero _) (by simp))
    (mul_ne_zero (pow_ne_zero _ I_ne_zero) I_ne_zero) a1 a2 h

/-! ## Chains -/

/-- The wave in the last listed layer does not depend on what follows. -/
theorem chain_prefix (q : Pol) (n : ℕ) (l : ℂ × ℂ) : ∀ (L : List (ℂ × ℂ)) (w : Wave), (w.d ≠ 0 ∨ w.a ≠ 0) →
    (∀ l' ∈ L ++ [l], l'.1 ≠ 0 ∧ l'.2 ≠ 0) → ∃ w1 : Wave, (w1.d ≠ 0 ∨ w1.a ≠ 0) ∧
      ∀ (m x : ℂ) (w2 out : Wave), Cont q n l.1 m l.2 w1 w2 → Cont q n m 1 x w2 out → Chain q n w (L ++ [l, (m, x)]) out := by
  intro L
  induction L with
  | nil => exact fun w hw _ => ⟨w, hw, fun m x w2 out h1 h2 => ⟨w2, h1, h2⟩⟩
  | cons l0 L ih =>
    intro w hw hne
    obtain ⟨l', L', hL⟩ : ∃ l' L', L ++ [l] = l' :: L' := by
      cases L with
      | nil => exact ⟨l, [], rfl⟩
      | cons a L => exact ⟨a, L ++ [l], rfl⟩
    have h0 := hne l0 (by simp)
    have h0' := hne l' (by rw [List.cons_append, hL]; simp)
    obtain ⟨v, hv⟩ := cont_exists' q n h0.1 h0'.1 h0.2 w
    have hv0 : v.d ≠ 0 ∨ v.a ≠ 0 := by
      by_contra hcon
      push Not at hcon
      have hz : Cont q n l0.1 l'.1 l0.2 ⟨0, 0⟩ v := by
        cases v
        simp only at hcon
        obtain ⟨rfl, rfl⟩ := hcon
        cases q <;> simp [Cont, Wave.val, Wave.der]
      have := Cont.unique_inner h0'.1 (mul_ne_zero h0.1 h0.2) hv hz
      rw [this] at hw
      simp at hw
    obtain ⟨w1, hw1, hch⟩ := ih v hv0 fun k hk => hne k (List.mem_cons_of_mem _ hk)
    refine ⟨w1, hw1, fun m x w2 out a1 a2 => ?_⟩
    have := hch m x w2 out a1 a2
    cases L with
    | nil =>
      simp only [List.nil_append, List.cons.injEq] at hL
      obtain ⟨rfl, -⟩ := hL
      exact ⟨v, hv, this⟩
    | cons a L =>
      simp only [List.cons_append, List.cons.injEq] at hL
      obtain ⟨rfl, -⟩ := hL
      exact ⟨v, hv, this⟩

/-- Any layered sphere with a metallic outermost layer: the coefficient approaches that of a perfectly conducting sphere of the
outer radius. -/
theorem coef_conductor {m : ι → ℂ} {x : ℝ} (hx : 0 < x) (him : Tendsto (fun i => (m i).im) F atTop) (q : Pol) (n : ℕ)
    (hzeta : ricZeta n x ≠ 0) (hdzeta : deriv (ricZeta n) (x : ℂ) ≠ 0) (L : List (ℂ × ℂ))
    (hL : ∀ l ∈ L, l.1 ≠ 0 ∧ ∃ y : ℝ, 0 < y ∧ y < x ∧ l.2 = y) :
    ∃ a, ConductorSolves q n x a ∧ (∀ᶠ i in F, ∃ a', Solves q n (L ++ [(m i, (x : ℂ))]) a') ∧
      Tendsto (fun i => coef q n (L ++ [(m i, (x : ℂ))])) F (𝓝 a) := by
  have hxc : (x : ℂ) ≠ 0 := by exact_mod_cast hx.ne'
  have hmne : ∀ᶠ i in F, m i ≠ 0 := far_ne (norm_far him)
  have hne : ∀ l ∈ L, l.1 ≠ 0 ∧ l.2 ≠ 0 := by
    intro l h
    obtain ⟨h1, y, hy, -, h2⟩ := hL l h
    exact ⟨h1, by rw [h2]; exact_mod_cast hy.ne'⟩
  have fin : ∀ (out : ι → Wave), (∀ᶠ i in F, ∃ w : Wave, w.a = 0 ∧ Chain q n w (L ++ [(m i, (x : ℂ))]) (out i)) →
      (∃ a, ConductorSolves q n x a ∧ (∀ᶠ i in F, (out i).d ≠ 0) ∧ Tendsto (fun i => (out i).a / (out i).d) F (𝓝 a)) →
      ∃ a, ConductorSolves q n x a ∧ (∀ᶠ i in F, ∃ a', Solves q n (L ++ [(m i, (x : ℂ))]) a') ∧
        Tendsto (fun i => coef q n (L ++ [(m i, (x : ℂ))])) F (𝓝 a) := by
    rintro out h1 ⟨a, ha, h2, h3⟩
    have hs : ∀ᶠ i in F, Solves q n (L ++ [(m i, (x : ℂ))]) ((out i).a / (out i).d) := by
      filter_upwards [h1, h2] with i h h'
      obtain ⟨w, hw, hch⟩ := h
      exact solves_of_chain hw hch h'
    refine ⟨a, ha, hs.mono fun i h => ⟨_, h⟩, h3.congr' ?_⟩
    filter_upwards [hs, hmne] with i h h0
    refine (coef_eq ?_ h).symm
    intro l hl
    rcases List.mem_append.1 hl with hl | hl
    · exact hne l hl
    · simp only [List.mem_cons, List.not_mem_nil, or_false] at hl
      rw [hl]
      exact ⟨h0, hxc⟩
  rcases List.eq_nil_or_concat L with rfl | ⟨L', l, rfl⟩
  · have hex : ∀ i, ∃ out, m i ≠ 0 → Cont q n (m i) 1 x ⟨1, 0⟩ out := by
      intro i
      by_cases h : m i = 0
      · exact ⟨⟨0, 0⟩, fun h' => absurd h h'⟩
      · obtain ⟨o, ho⟩ := cont_exists' q n h one_ne_zero hxc ⟨1, 0⟩
        exact ⟨o, fun _ => ho⟩
    choose out hout using hex
    have hc := hmne.mono fun i h => hout i h
    exact fin out (hc.mono fun i h => ⟨⟨1, 0⟩, rfl, h⟩) (sphere_far hx him hzeta hdzeta hc)
  · rw [List.concat_eq_append] at *
    obtain ⟨hl1, y, hy, hyx, hl2⟩ := hL l (by simp)
    obtain ⟨w1, hw1, hch⟩ := chain_prefix q n l L' ⟨1, 0⟩ (.inl one_ne_zero) hne
    have hyc : (y : ℂ) ≠ 0 := by exact_mod_cast hy.ne'
    have hex : ∀ i, ∃ w out, m i ≠ 0 → Cont q n l.1 (m i) y w1 w ∧ Cont q n (m i) 1 x w out := by
      intro i
      by_cases h : m i = 0
      · exact ⟨⟨0, 0⟩, ⟨0, 0⟩, fun h' => absurd h h'⟩
      · obtain ⟨w, hw⟩ := cont_exists' q n hl1 h hyc w1
        obtain ⟨o, ho⟩ := cont_exists' q n h one_ne_zero hxc w
        exact ⟨w, o, fun _ => ⟨hw, ho⟩⟩
    choose w out hout using hex
    have hc := hmne.mono fun i h => hout i h
    refine fin out (hc.mono fun i h => ⟨⟨1, 0⟩, rfl, ?_⟩)
      (shell_far hl1 hy hyx him hzeta hdzeta hw1 (hc.mono fun i h => h.1) (hc.mono fun i h => h.2))
    have := hch (m i) x (w i) (out i) (by rw [hl2]; exact h.1) h.2
    rwa [List.append_assoc]

end MieDiff
