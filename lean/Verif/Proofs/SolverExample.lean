import Verif.Proofs.Pipeline
import Verif.Props.Special

/-!
# A concrete core-shell particle that meets the guard hypotheses

Core index 9, shell index 3, host index 1, `k0 = 1`, radii `π/6` and `π/2`; one order.  All kernel arguments are `π/2` or
`3π/2`.
-/

namespace MieDiff

open Complex Spec

/-- The values at an odd multiple of `π/2`. -/
structure OddArg (t : ℝ) : Prop where
  big : 1 ≤ t
  small : t ≤ 5
  cos : Real.cos t = 0

theorem oddArg_half_pi : OddArg (Real.pi / 2) :=
  ⟨by linarith [Real.pi_gt_three], by linarith [Real.pi_lt_four], Real.cos_pi_div_two⟩

theorem oddArg_three : OddArg (3 * (Real.pi / 2)) := by
  refine ⟨by linarith [Real.pi_gt_three], by linarith [Real.pi_lt_d2], ?_⟩
  rw [show 3 * (Real.pi / 2) = Real.pi / 2 + Real.pi by ring, Real.cos_add_pi, Real.cos_pi_div_two, neg_zero]

namespace OddArg

variable {t : ℝ} (h : OddArg t)
include h

theorem ne : (t : ℂ) ≠ 0 := by
  have := h.big
  exact_mod_cast (by linarith : t ≠ 0)

theorem ccos : Complex.cos (t : ℂ) = 0 := by rw [← ofReal_cos, h.cos, ofReal_zero]

theorem csin_sq : Complex.sin (t : ℂ) ^ 2 = 1 := by
  have := Complex.sin_sq_add_cos_sq (t : ℂ)
  rw [h.ccos] at this
  linear_combination this

theorem csin_ne : Complex.sin (t : ℂ) ≠ 0 := by
  intro h0
  have := h.csin_sq
  rw [h0] at this
  norm_num at this

theorem norm_sin : ‖Complex.sin (t : ℂ)‖ = 1 := by
  have := congrArg (fun z : ℂ => ‖z‖) h.csin_sq
  simp only [norm_pow, norm_one] at this
  nlinarith [norm_nonneg (Complex.sin (t : ℂ))]

theorem psi0 : ricPsi 0 (t : ℂ) = Complex.sin t := ricPsi_zero _ h.ne

theorem zeta0 : ricZeta 0 (t : ℂ) = Complex.sin t := by rw [ricZeta_zero _ h.ne, h.ccos]; ring

theorem psi1 : ricPsi 1 (t : ℂ) = Complex.sin t / t := by
  unfold ricPsi
  have := h.ne
  rw [sphJ_one h.ne, h.ccos]
  field_simp
  ring

theorem zeta1 : ricZeta 1 (t : ℂ) = (1 / t - I) * Complex.sin t := by rw [ricZeta_one _ h.ne, h.zeta0]

omit h in
theorem factor_ne (t : ℝ) : (1 - I * t : ℂ) ≠ 0 := by
  intro h0
  have := congrArg Complex.re h0
  simp at this

theorem zeta1_ne : ricZeta 1 (t : ℂ) ≠ 0 := by
  rw [h.zeta1]
  refine mul_ne_zero ?_ h.csin_ne
  intro h0
  have := congrArg Complex.im h0
  simp at this

theorem d1 : logD1 1 (t : ℂ) = t - 1 / t := by
  have hne : ricPsi 1 (t : ℂ) ≠ 0 := by rw [h.psi1]; exact div_ne_zero h.csin_ne h.ne
  have := logD1_add 0 h.ne hne
  have h1 := h.csin_ne
  have h2 := h.ne
  rw [zero_add, h.psi0, h.psi1] at this
  simp only [Nat.cast_zero, zero_add] at this
  rw [eq_sub_iff_add_eq, this]
  field_simp

theorem d3 : logD3 1 (t : ℂ) = t / (1 - I * t) - 1 / t := by
  have := logD3_add 0 h.ne h.zeta1_ne
  have h1 := h.csin_ne
  have h2 := h.ne
  have h3 := factor_ne t
  rw [zero_add, h.zeta0, h.zeta1] at this
  simp only [Nat.cast_zero, zero_add] at this
  rw [eq_sub_iff_add_eq, this]
  have h4 : (1 / t - I : ℂ) = (1 - I * t) / t := by field_simp
  rw [h4]
  field_simp

theorem norm_t : ‖(t : ℂ)‖ = t := by
  rw [norm_real, Real.norm_eq_abs, abs_of_pos (by linarith [h.big])]

theorem prod_lower : 1 / 25 ≤ ‖ricPsi 1 (t : ℂ) * ricZeta 1 t‖ := by
  have h1 := h.big
  have h2 := h.small
  rw [h.psi1, h.zeta1, norm_mul, norm_div, norm_mul, h.norm_sin, mul_one, h.norm_t]
  have h3 : 1 ≤ ‖(1 / t - I : ℂ)‖ := by
    have := Complex.abs_im_le_norm (1 / t - I : ℂ)
    have e : (1 / t - I : ℂ).im = -1 := by simp
    rw [e] at this
    simpa using this
  have h4 : 1 / 5 ≤ 1 / t := one_div_le_one_div_of_le (by linarith) h2
  nlinarith

theorem kernelOK : KernelOK 1 (t : ℂ) solverEps := by
  refine kernelOK_of solverEps_pos ?_ h.csin_ne ?_
  · rw [h.norm_t]; have := h.big; unfold solverEps; linarith
  · intro k h1 h2
    obtain rfl : k = 1 := le_antisymm h2 h1
    refine le_trans ?_ h.prod_lower
    unfold solverEps; norm_num

theorem kernelClear : KernelClear idealFn 1 (t : ℂ) := by
  refine ⟨?_, ?_⟩
  · rw [h.norm_t]; have := h.big; unfold solverEps; linarith
  · intro k h1 h2
    obtain rfl : k = 1 := le_antisymm h2 h1
    have e := pzD3_exact h.kernelOK 1 le_rfl
    rw [show idealFn (t : ℂ) = fun i => logD1 i (t : ℂ) from rfl, e]
    refine lt_of_lt_of_le ?_ h.prod_lower
    unfold solverEps; norm_num

theorem d3Fn : d3Fn idealFn (t : ℂ) 1 = t / (1 - I * t) - 1 / t := by
  rw [d3Fn_ideal h.kernelOK le_rfl, h.d3]

/-- The last denominator stays away from zero for every real `T`. -/
theorem final_den (T : ℝ) : solverEps < ‖(T : ℂ) * ricZeta 1 t - ricZeta 0 t‖ := by
  have h1 := h.big
  have e : (T : ℂ) * ricZeta 1 t - ricZeta 0 t = ((T / t - 1 : ℝ) - T * I : ℂ) * Complex.sin t := by
    rw [h.zeta1, h.zeta0]; push_cast; ring
  rw [e, norm_mul, h.norm_sin, mul_one]
  have hre := Complex.abs_re_le_norm ((T / t - 1 : ℝ) - T * I : ℂ)
  have him := Complex.abs_im_le_norm ((T / t - 1 : ℝ) - T * I : ℂ)
  have e1 : ((T / t - 1 : ℝ) - T * I : ℂ).re = T / t - 1 := by simp [-ofReal_sub, -ofReal_div]
  have e2 : ((T / t - 1 : ℝ) - T * I : ℂ).im = -T := by simp [-ofReal_sub, -ofReal_div]
  rw [e1] at hre
  rw [e2, abs_neg] at him
  have heps : solverEps < 1 / 2 := by unfold solverEps; norm_num
  by_cases hT : 1 / 2 ≤ |T|
  · linarith
  · have h2 : |T / t| ≤ |T| := by
      rw [abs_div, abs_of_pos (by linarith : 0 < t)]
      exact div_le_self (abs_nonneg _) h1
    have h3 := abs_le.1 (h2.trans (not_le.1 hT).le)
    have h4 : 1 / 2 ≤ |T / t - 1| := by
      rw [abs_sub_comm]; exact le_trans (by linarith [h3.2]) (le_abs_self _)
    linarith

end OddArg

/-- Quarter period. -/
noncomputable def qp : ℝ := Real.pi / 2

theorem qp_odd : OddArg qp := oddArg_half_pi

theorem qp3_odd : OddArg (3 * qp) := oddArg_three

/-- Core index 9, shell index 3. -/
noncomputable def demoLayers : List (ℂ × ℂ) := [(9, ((qp / 3 : ℝ) : ℂ)), (3, (qp : ℂ))]

theorem demo_args : (9 : ℂ) * ((qp / 3 : ℝ) : ℂ) = ((3 * qp : ℝ) : ℂ) ∧ (3 : ℂ) * ((qp / 3 : ℝ) : ℂ) = (qp : ℂ) ∧
    (3 : ℂ) * (qp : ℂ) = ((3 * qp : ℝ) : ℂ) := by
  refine ⟨?_, ?_, ?_⟩ <;> push_cast <;> ring

theorem qp_exp : exp (-2 * I * (((3 * qp : ℝ) : ℂ)).re) = -1 := by
  rw [ofReal_re, show -2 * I * ((3 * qp : ℝ) : ℂ) = -(Real.pi * I) - 2 * Real.pi * I by
    unfold qp; push_cast; ring, exp_sub, exp_two_pi_mul_I, exp_neg, exp_pi_mul_I]
  norm_num

theorem qp_factor : (1 - qp * I : ℂ) ≠ 0 := by rw [mul_comm]; exact OddArg.factor_ne qp

theorem qp3_factor : (1 - qp * 3 * I : ℂ) ≠ 0 := by
  have := OddArg.factor_ne (3 * qp)
  push_cast at this
  rwa [show (1 - qp * 3 * I : ℂ) = 1 - I * (3 * qp) by ring]

theorem demo_q : QClear idealFn 1 (qp : ℂ) ((3 * qp : ℝ) : ℂ) (qp : ℂ) := by
  have h := qp_odd
  have h1 := h.big
  refine ⟨h.kernelClear.arg, ?_, ?_⟩
  · rw [qp_exp, ofReal_im]
    norm_num [solverEps]
  · intro k hk
    obtain rfl : k = 0 := by omega
    have e : d3Fn idealFn (qp : ℂ) 0 = I := by
      rw [d3Fn_ideal h.kernelOK (by omega), logD3_zero h.ne]
    rw [e]
    simp only [idealFn, zero_add]
    rw [h.d1]
    have hne := h.ne
    have e2 : ((qp : ℂ) * (qp - 1 / qp) + ((1 : ℕ) : ℂ)) * (((1 : ℕ) : ℂ) - qp * I) = (qp : ℂ) ^ 2 * (1 - I * qp) := by
      push_cast; field_simp; ring
    rw [e2, norm_mul, norm_pow, h.norm_t]
    have h3 : 1 ≤ ‖(1 - I * qp : ℂ)‖ := by
      have := Complex.abs_re_le_norm (1 - I * qp : ℂ)
      have e : (1 - I * qp : ℂ).re = 1 := by simp
      rw [e, abs_one] at this
      exact this
    have : 1 ≤ qp ^ 2 := by nlinarith
    have h5 : (1 : ℝ) ≤ qp ^ 2 * ‖(1 - I * qp : ℂ)‖ := by nlinarith
    have : solverEps < 1 := by unfold solverEps; norm_num
    linarith

theorem demo_qFn : qFn idealFn (qp : ℂ) ((3 * qp : ℝ) : ℂ) ((qp / 3 : ℝ) : ℂ) (qp : ℂ) 1 =
    (1 - 3 * I * qp) / (1 - I * qp) := by
  have a := demo_args
  have h := qFn_ideal (n := 1) (m := 3) (x := ((qp / 3 : ℝ) : ℂ)) (x' := (qp : ℂ)) le_rfl
    (by rw [a.2.1]; exact qp_odd.kernelClear) (by rw [a.2.2]; exact qp3_odd.kernelClear)
    (by rw [a.2.1, a.2.2]; exact demo_q) (k := 1) le_rfl
  rw [a.2.1, a.2.2] at h
  rw [h, qp_odd.psi1, qp3_odd.psi1, qp_odd.zeta1, qp3_odd.zeta1]
  have h1 := qp_odd.csin_ne
  have h2 := qp3_odd.csin_ne
  have h3 := qp_odd.ne
  have h4 := qp_factor
  have h5 : (1 / qp - I : ℂ) = (1 - qp * I) / qp := by field_simp
  rw [h5]
  push_cast
  push_cast at h2
  rw [mul_comm (3 : ℂ)] at h2 ⊢
  field_simp

theorem norm_lower {c : ℝ} (hc : 1 ≤ |c|) : solverEps < ‖(I * c : ℂ) / (1 - I * qp)‖ := by
  have h1 : ‖(1 - I * qp : ℂ)‖ ≤ 6 := by
    refine (norm_sub_le _ _).trans ?_
    rw [norm_one, norm_mul, norm_I, one_mul, qp_odd.norm_t]
    linarith [qp_odd.small]
  have h0 : 0 < ‖(1 - I * qp : ℂ)‖ := norm_pos_iff.2 (OddArg.factor_ne qp)
  rw [norm_div, norm_mul, norm_I, one_mul, norm_real, Real.norm_eq_abs, lt_div_iff₀ h0]
  have : solverEps < 1 / 6 := by unfold solverEps; norm_num
  have := solverEps_pos
  nlinarith

theorem demo_den_tm : hDen idealFn (hInit idealFn (9, ((qp / 3 : ℝ) : ℂ))) (3, (qp : ℂ)) .tm 1 =
    (I * ((16 - 9 * qp ^ 2 : ℝ) : ℂ)) / (1 - I * qp) := by
  unfold hDen
  simp only [hInit, polP, polQ, demo_args.1, demo_args.2.1, demo_args.2.2]
  rw [demo_qFn, qp_odd.d3Fn]
  simp only [idealFn]
  rw [qp_odd.d1, qp3_odd.d1]
  have h1 := qp_odd.ne
  have h2 := qp_factor
  push_cast
  field_simp
  ring

theorem demo_den_te : hDen idealFn (hInit idealFn (9, ((qp / 3 : ℝ) : ℂ))) (3, (qp : ℂ)) .te 1 =
    (I * ((45 * qp ^ 2 : ℝ) : ℂ)) / (1 - I * qp) := by
  unfold hDen
  simp only [hInit, polP, polQ, demo_args.1, demo_args.2.1, demo_args.2.2]
  rw [demo_qFn, qp_odd.d3Fn]
  simp only [idealFn]
  rw [qp_odd.d1, qp3_odd.d1]
  have h1 := qp_odd.ne
  have h2 := qp_factor
  push_cast
  field_simp
  ring

theorem qp_bounds : 1.57 < qp ∧ qp < 1.58 := by
  unfold qp
  constructor <;> linarith [Real.pi_gt_d2, Real.pi_lt_d2]

theorem demo_dens (p : Pol) : solverEps < ‖hDen idealFn (hInit idealFn (9, ((qp / 3 : ℝ) : ℂ))) (3, (qp : ℂ)) p 1‖ := by
  obtain ⟨h1, h2⟩ := qp_bounds
  cases p
  · rw [demo_den_tm]
    refine norm_lower ?_
    rw [abs_of_neg (by nlinarith)]
    nlinarith
  · rw [demo_den_te]
    refine norm_lower ?_
    rw [abs_of_pos (by nlinarith)]
    nlinarith

theorem demo_H (p : Pol) : ∃ r : ℝ,
    (hStep idealFn (hInit idealFn (9, ((qp / 3 : ℝ) : ℂ))) (3, (qp : ℂ))).H p 1 = r := by
  obtain ⟨hq1, hq2⟩ := qp_bounds
  have hd := demo_dens p
  have h1 := qp_odd.ne
  have h2 := qp_factor
  have h3 := qp3_factor
  have h3' : (1 - qp * I * 3 : ℂ) ≠ 0 := by rwa [mul_right_comm]
  unfold hStep hUpdate
  simp only
  unfold hDen at hd
  rw [guardAdd_of_le hd.le]
  have hd' : hDen idealFn (hInit idealFn (9, ((qp / 3 : ℝ) : ℂ))) (3, (qp : ℂ)) p 1 = hDen idealFn (hInit idealFn (9, ((qp / 3 : ℝ) : ℂ))) (3, (qp : ℂ)) p 1 := rfl
  conv_lhs at hd' => unfold hDen
  simp only at hd'
  rw [hd']
  cases p
  · refine ⟨(-21 * qp - 16 / (3 * qp) - 27 * qp ^ 3) / (16 - 9 * qp ^ 2), ?_⟩
    have hne : (16 - 9 * qp ^ 2 : ℂ) ≠ 0 := by
      have : (16 - 9 * qp ^ 2 : ℝ) ≠ 0 := by nlinarith
      exact_mod_cast this
    rw [demo_den_tm]
    simp only [hInit, polP, polQ, demo_args.1, demo_args.2.1, demo_args.2.2]
    rw [demo_qFn, qp_odd.d3Fn, qp3_odd.d3Fn]
    simp only [idealFn]
    rw [qp_odd.d1, qp3_odd.d1]
    push_cast
    field_simp
    ring_nf
    field_simp
    ring
  · refine ⟨-(27 * qp ^ 2 + 5) / (15 * qp), ?_⟩
    rw [demo_den_te]
    simp only [hInit, polP, polQ, demo_args.1, demo_args.2.1, demo_args.2.2]
    rw [demo_qFn, qp_odd.d3Fn, qp3_odd.d3Fn]
    simp only [idealFn]
    rw [qp_odd.d1, qp3_odd.d1]
    push_cast
    field_simp
    ring_nf
    field_simp
    ring

/-- The hypotheses of C06, C07, C11 hold for this particle. -/
theorem demo_clear : SolverClear idealFn 1 demoLayers := by
  have a := demo_args
  refine ⟨?_, ⟨?_, ?_, ?_, ?_⟩, ?_⟩
  · show KernelClear idealFn 1 (9 * ((qp / 3 : ℝ) : ℂ))
    rw [a.1]; exact qp3_odd.kernelClear
  · show KernelClear idealFn 1 (3 * ((qp / 3 : ℝ) : ℂ))
    rw [a.2.1]; exact qp_odd.kernelClear
  · show KernelClear idealFn 1 (3 * (qp : ℂ))
    rw [a.2.2]; exact qp3_odd.kernelClear
  · show QClear idealFn 1 (3 * ((qp / 3 : ℝ) : ℂ)) (3 * (qp : ℂ)) (qp : ℂ)
    rw [a.2.1, a.2.2]; exact demo_q
  · intro p i h1 h2
    obtain rfl : i = 1 := le_antisymm h2 h1
    exact demo_dens p
  · refine ⟨qp_odd.kernelClear, ?_⟩
    intro p i h1 h2
    obtain rfl : i = 1 := le_antisymm h2 h1
    obtain ⟨r, hr⟩ := demo_H p
    rw [hr]
    have hx : (hStep idealFn (hInit idealFn (9, ((qp / 3 : ℝ) : ℂ))) (3, (qp : ℂ))).x = (qp : ℂ) := rfl
    have hm : (hStep idealFn (hInit idealFn (9, ((qp / 3 : ℝ) : ℂ))) (3, (qp : ℂ))).m = 3 := rfl
    rw [hx, hm, zetaFn_ideal qp_odd.kernelOK 1 le_rfl, zetaFn_ideal qp_odd.kernelOK (1 - 1) (by omega)]
    cases p
    · have := qp_odd.final_den (r / 3 + 1 / qp)
      push_cast at this
      simpa [polOut] using this
    · have := qp_odd.final_den (3 * r + 1 / qp)
      push_cast at this
      simpa [polOut] using this

/-- The particle in the units of the code. -/
noncomputable def demoParticle : Particle1 :=
  { k0 := 1, rLayers := [qp / 3, qp], epsLayers := [81, 9], epsEnv := 1 }

theorem csqrt_nat_sq {r : ℝ} (h : 0 ≤ r) : csqrt ((r ^ 2 : ℝ) : ℂ) = r := by
  rw [csqrt_ofReal (by positivity), Real.sqrt_sq h]

theorem demo_layers : demoParticle.layers = demoLayers := by
  have h1 : csqrt 1 = 1 := by have := csqrt_nat_sq (r := 1) (by norm_num); simpa using this
  have h2 : csqrt 81 = 9 := by
    have := csqrt_nat_sq (r := 9) (by norm_num); push_cast at this; norm_num at this; exact this
  have h3 : csqrt 9 = 3 := by
    have := csqrt_nat_sq (r := 3) (by norm_num); push_cast at this; norm_num at this; exact this
  simp [Particle1.layers, layersOf, demoParticle, demoLayers, h1, h2, h3]

theorem demo_realHost : RealHost demoParticle 1 1 := by
  have h := qp_odd.big
  refine ⟨by simp [demoParticle], one_pos, by simp [demoParticle], one_pos, ?_⟩
  intro r hr
  simp only [demoParticle, List.mem_cons, List.not_mem_nil, or_false] at hr
  rcases hr with rfl | rfl <;> linarith

/-- The call succeeds. -/
theorem demo_run (B : Backends) : ∃ o, mieCoefficients idealD1 B demoParticle "pena" "recurrence" (some 1) = .ok o ∧
    o.nMax = 1 := by
  have h := qp_odd.big
  refine mieCoefficients_pena_ok (n := 1) (idealD1_fun 1) (by decide +kernel) le_rfl ?_ (by simp [demoParticle])
    (by simp [demoParticle])
  simp only [demoParticle, strictlyIncreasing]
  exact ⟨by linarith, trivial⟩

/-! ## A homogeneous sphere on which the truncated recurrence can be followed to its limit -/

/-- Index `π/2`, size parameter 1. -/
noncomputable def monoParticle : Particle1 :=
  { k0 := 1, rLayers := [1], epsLayers := [((qp ^ 2 : ℝ) : ℂ)], epsEnv := 1 }

theorem mono_layers : monoParticle.layers = [((qp : ℂ), 1)] := by
  have h1 : csqrt 1 = 1 := by have := csqrt_nat_sq (r := 1) (by norm_num); simpa using this
  have h2 := csqrt_nat_sq (r := qp) (by linarith [qp_odd.big])
  simp only [Particle1.layers, layersOf, monoParticle, List.map_cons, List.map_nil, h1, h2]
  simp

theorem mono_realHost : RealHost monoParticle 1 1 := by
  refine ⟨by simp [monoParticle], one_pos, by simp [monoParticle], one_pos, ?_⟩
  intro r hr
  simp only [monoParticle, List.mem_cons, List.not_mem_nil, or_false] at hr
  rw [hr]; exact one_pos

theorem kernelClear_one : KernelClear idealFn 1 1 := by
  refine ⟨by rw [norm_one]; unfold solverEps; norm_num, ?_⟩
  intro k h1 h2
  obtain rfl : k = 1 := le_antisymm h2 h1
  have e := pzD3_exact kernelOK_one 1 le_rfl
  rw [show idealFn (1 : ℂ) = fun i => logD1 i (1 : ℂ) from rfl, show solverEps = 1e-30 from rfl, e]
  have h3 := norm_ricPsi_one_at_one
  have h4 := norm_ricZeta_one_real (x := 1) one_ne_zero
  rw [Complex.ofReal_one] at h4
  rw [norm_mul]
  norm_num at h3 h4 ⊢
  nlinarith

theorem mono_final (T : ℝ) (hT : 1 ≤ T) : solverEps < ‖(T : ℂ) * ricZeta 1 1 - ricZeta 0 1‖ := by
  have e : (T : ℂ) * ricZeta 1 1 - ricZeta 0 1 =
      ((T * (Real.sin 1 - Real.cos 1) - Real.sin 1 : ℝ) : ℂ) +
        ((-(T * (Real.sin 1 + Real.cos 1)) + Real.cos 1 : ℝ) : ℂ) * I := by
    rw [ricZeta_one 1 one_ne_zero, ricZeta_zero 1 one_ne_zero]
    push_cast
    linear_combination (T * cos 1 : ℂ) * I_sq
  have him := Complex.abs_im_le_norm ((T : ℂ) * ricZeta 1 1 - ricZeta 0 1)
  have e1 : ((T : ℂ) * ricZeta 1 1 - ricZeta 0 1).im = -(T * (Real.sin 1 + Real.cos 1)) + Real.cos 1 := by
    rw [e, add_im, ofReal_im, zero_add, im_ofReal_mul, I_im, mul_one]
  rw [e1] at him
  have hs := Real.sin_gt_sub_cube (x := 1) (by norm_num)
  have hc := Real.cos_one_pos
  have h1 : 1 / 2 ≤ |-(T * (Real.sin 1 + Real.cos 1)) + Real.cos 1| := by
    rw [abs_of_neg (by nlinarith)]
    nlinarith
  have : solverEps < 1 / 2 := by unfold solverEps; norm_num
  linarith

theorem mono_clear : SolverClear idealFn 1 monoParticle.layers := by
  rw [mono_layers]
  refine ⟨?_, kernelClear_one, ?_⟩
  · simpa using qp_odd.kernelClear
  · intro p i h1 h2
    obtain rfl : i = 1 := le_antisymm h2 h1
    obtain ⟨hq1, hq2⟩ := qp_bounds
    have hne := qp_odd.ne
    show solverEps < ‖(polOut p (qp : ℂ) (idealFn ((qp : ℂ) * 1) 1) + ((1 : ℕ) : ℂ) / 1) * zetaFn idealFn 1 1 -
      zetaFn idealFn 1 0‖
    have k1 : KernelOK 1 1 solverEps := kernelOK_one
    rw [zetaFn_ideal k1 1 le_rfl, zetaFn_ideal k1 0 (by omega), mul_one]
    simp only [idealFn]
    rw [qp_odd.d1]
    cases p
    · have := mono_final (2 - 1 / qp ^ 2) (by
        have : 1 / qp ^ 2 ≤ 1 := by
          rw [div_le_one (by positivity)]; nlinarith
        linarith)
      convert this using 4
      simp only [polOut]
      push_cast
      field_simp
      ring
    · have := mono_final (qp ^ 2) (by nlinarith)
      convert this using 4
      simp only [polOut]
      push_cast
      field_simp
      ring

theorem d1Clear_one : D1Clear 1 := by
  have h0 := norm_ricPsi_zero_at_one
  have h1 := norm_ricPsi_one_at_one
  have hl : ∀ k, 1 ≤ k → ricPsi k 1 ≠ 0 ∧ ‖ricPsi (k + 1) 1‖ ≤ ‖ricPsi k 1‖ / 2 := by
    intro k hk
    refine ricPsi_ratio k one_ne_zero ?_
    rw [norm_one]
    have : (1 : ℝ) ≤ k := by exact_mod_cast hk
    linarith
  have heps : solverEps < 1 / 4 := by unfold solverEps; norm_num
  refine ⟨by rw [norm_one]; linarith, ?_, ?_⟩
  · intro k
    rcases Nat.eq_zero_or_pos k with rfl | hk
    · exact norm_pos_iff.1 (by linarith)
    · exact (hl k hk).1
  · intro k
    have hp : 0 < ‖ricPsi (k + 1) 1‖ := norm_pos_iff.2 (hl (k + 1) (by omega)).1
    rw [norm_div, lt_div_iff₀ hp]
    rcases Nat.eq_zero_or_pos k with rfl | hk
    · have hu : ‖ricPsi 1 1‖ ≤ 2 := by
        have := norm_ricPsi_le 1 (z := 1) one_ne_zero (by rw [norm_one])
        simpa using this
      rw [zero_add] at hp ⊢
      nlinarith
    · have := (hl k hk).2
      nlinarith

theorem d1Clear_qp : D1Clear (qp : ℂ) := by
  have ho := qp_odd
  obtain ⟨hq1, hq2⟩ := qp_bounds
  have hne := ho.ne
  have hl : ∀ k, 3 ≤ k → ricPsi k (qp : ℂ) ≠ 0 ∧ ‖ricPsi (k + 1) (qp : ℂ)‖ ≤ ‖ricPsi k (qp : ℂ)‖ / 2 := by
    intro k hk
    refine ricPsi_ratio k hne ?_
    rw [ho.norm_t]
    have : (3 : ℝ) ≤ k := by exact_mod_cast hk
    linarith
  have e2 : ricPsi 2 (qp : ℂ) = ((3 / qp ^ 2 - 1 : ℝ) : ℂ) * sin qp := by
    have := sphJ_seq.three 0 hne
    have h0 := ho.psi0
    have h1 := ho.psi1
    unfold ricPsi at h0 h1 ⊢
    simp only [zero_add] at this
    have h2 : sphJ 2 (qp : ℂ) = 3 / qp * sphJ 1 qp - sphJ 0 qp := by
      rw [this]
      push_cast
      ring
    rw [h2, mul_sub, h0, ← mul_assoc, mul_comm (qp : ℂ) (3 / (qp : ℂ)), mul_assoc, h1]
    push_cast
    field_simp
  have e3 : ricPsi 3 (qp : ℂ) = ((15 / qp ^ 3 - 6 / qp : ℝ) : ℂ) * sin qp := by
    have := sphJ_seq.three 1 hne
    have h1 := ho.psi1
    unfold ricPsi at h1 e2 ⊢
    have h2 : sphJ 3 (qp : ℂ) = 5 / qp * sphJ 2 qp - sphJ 1 qp := by
      rw [this]
      push_cast
      ring
    rw [h2, mul_sub, h1, ← mul_assoc, mul_comm (qp : ℂ) (5 / (qp : ℂ)), mul_assoc, e2]
    push_cast
    field_simp
    ring
  have hpos : (0 : ℝ) < qp := by linarith
  have b2 : 1 / 10 ≤ 3 / qp ^ 2 - 1 ∧ 3 / qp ^ 2 - 1 ≤ 1 := by
    constructor
    · rw [le_sub_iff_add_le, le_div_iff₀ (by positivity)]; nlinarith
    · rw [sub_le_iff_le_add, div_le_iff₀ (by positivity)]; nlinarith
  have n0 : ‖ricPsi 0 (qp : ℂ)‖ = 1 := by rw [ho.psi0, ho.norm_sin]
  have n1 : ‖ricPsi 1 (qp : ℂ)‖ = 1 / qp := by rw [ho.psi1, norm_div, ho.norm_sin, ho.norm_t]
  have n2 : ‖ricPsi 2 (qp : ℂ)‖ = 3 / qp ^ 2 - 1 := by
    rw [e2, norm_mul, ho.norm_sin, mul_one, norm_real, Real.norm_eq_abs, abs_of_pos (by linarith [b2.1])]
  have n3 : ‖ricPsi 3 (qp : ℂ)‖ ≤ 25 := by
    rw [e3, norm_mul, ho.norm_sin, mul_one, norm_real, Real.norm_eq_abs]
    have a1 : 15 / qp ^ 3 ≤ 15 := div_le_self (by norm_num) (one_le_pow₀ (by linarith))
    have a2 : 6 / qp ≤ 6 := div_le_self (by norm_num) (by linarith)
    have a3 : 0 ≤ 15 / qp ^ 3 := by positivity
    have a4 : 0 ≤ 6 / qp := by positivity
    rw [abs_le]; constructor <;> linarith
  have b1 : 1 / 2 ≤ 1 / qp ∧ 1 / qp ≤ 1 :=
    ⟨one_div_le_one_div_of_le hpos (by linarith), by rw [div_le_one hpos]; linarith⟩
  have hps : ∀ k, ricPsi k (qp : ℂ) ≠ 0 := by
    intro k
    match k with
    | 0 => exact norm_pos_iff.1 (by rw [n0]; norm_num)
    | 1 => exact norm_pos_iff.1 (by rw [n1]; linarith [b1.1])
    | 2 => exact norm_pos_iff.1 (by rw [n2]; linarith [b2.1])
    | k + 3 => exact (hl (k + 3) (by omega)).1
  have heps : solverEps < 1 / 1000 := by unfold solverEps; norm_num
  have hep := solverEps_pos
  refine ⟨ho.kernelClear.arg, hps, ?_⟩
  intro k
  have hp : 0 < ‖ricPsi (k + 1) (qp : ℂ)‖ := norm_pos_iff.2 (hps _)
  rw [norm_div, lt_div_iff₀ hp]
  match k with
  | 0 => rw [n0, zero_add, n1]; nlinarith [b1.1, b1.2]
  | 1 => rw [n1, show 1 + 1 = 2 from rfl, n2]; nlinarith [b1.1, b1.2, b2.1, b2.2]
  | 2 => rw [n2, show 2 + 1 = 3 from rfl]; nlinarith [b2.1, b2.2, n3]
  | k + 3 =>
    have := (hl (k + 3) (by omega)).2
    nlinarith

theorem mono_args : ∀ z ∈ kernelArgs monoParticle.layers, D1Clear z := by
  rw [mono_layers]
  intro z hz
  simp only [kernelArgs, runArgs, List.mem_cons, List.not_mem_nil, or_false, mul_one] at hz
  rcases hz with rfl | rfl
  · exact d1Clear_qp
  · exact d1Clear_one

theorem mono_run (B : Backends) (N : ℕ) (hN : 1 ≤ N) :
    ∃ o, mieCoefficients (depthD1 N) B monoParticle "pena" "recurrence" (some 1) = .ok o ∧ o.nMax = 1 :=
  mieCoefficients_pena_ok (n := 1) (depthD1_fun 1 N hN) (by decide +kernel) le_rfl
    (by simp [monoParticle, strictlyIncreasing]) (by simp [monoParticle]) (by simp [monoParticle])

end MieDiff
