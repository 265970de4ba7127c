import Verif.Spec.Field
import Verif.Proofs.Legendre
import Verif.Proofs.Kernel

/-!
# Curl relations of the vector spherical harmonics
-/

namespace MieDiff.Spec

open Complex

/-! ## Angular functions -/

theorem hasDerivAt_sin_angPi' (n : ℕ) (t : ℝ) :
    HasDerivAt (fun s => Real.sin s * angPi n (Real.cos s)) (angTau n t) t := by
  have h : HasDerivAt (fun s => Real.sin s * angPi n (Real.cos s))
      (Real.cos t * angPi n (Real.cos t) + Real.sin t * (angPi' n (Real.cos t) * -Real.sin t)) t :=
    (Real.hasDerivAt_sin t).mul ((hasDerivAt_angPi n (Real.cos t)).comp t (Real.hasDerivAt_cos t))
  have e := h.deriv
  unfold angTau
  rw [e]
  exact h

theorem angTau_up (n : ℕ) (t : ℝ) :
    angTau n t = n * angPi (n + 1) (Real.cos t) - (n + 1) * Real.cos t * angPi n (Real.cos t) := by
  cases n with
  | zero => rw [angTau_zero, angPi_zero]; simp
  | succ n =>
    rw [angTau_succ, angPi_rec]
    have : (n : ℝ) + 1 ≠ 0 := by positivity
    push_cast
    field_simp
    ring

theorem hasDerivAt_sin_angTau (n : ℕ) (t : ℝ) :
    HasDerivAt (fun s => Real.sin s * angTau n s)
      (angPi n (Real.cos t) - n * (n + 1) * Real.sin t ^ 2 * angPi n (Real.cos t)) t := by
  cases n with
  | zero =>
    have : (fun s => Real.sin s * angTau 0 s) = fun _ => 0 := by funext s; rw [angTau_zero, mul_zero]
    rw [this, angPi_zero]
    simpa using hasDerivAt_const t (0 : ℝ)
  | succ n =>
    have e : (fun s => Real.sin s * angTau (n + 1) s) = fun s =>
        ((n : ℝ) + 1) * (Real.cos s * (Real.sin s * angPi (n + 1) (Real.cos s))) -
          ((n : ℝ) + 2) * (Real.sin s * angPi n (Real.cos s)) := by
      funext s; rw [angTau_succ]; ring
    rw [e]
    refine ((((Real.hasDerivAt_cos t).mul (hasDerivAt_sin_angPi' (n + 1) t)).const_mul _).sub
      ((hasDerivAt_sin_angPi' n t).const_mul _)).congr_deriv ?_
    rw [angTau_succ, angTau_up n]
    have hc : Real.cos t ^ 2 = 1 - Real.sin t ^ 2 := by rw [Real.cos_sq']
    push_cast
    linear_combination ((n : ℝ) + 1) ^ 2 * angPi (n + 1) (Real.cos t) * hc

/-- The same three derivatives for complex-valued functions of the real angle. -/
theorem hasDerivAt_csin_angPi (n : ℕ) (t : ℝ) :
    HasDerivAt (fun s : ℝ => (Real.sin s : ℂ) * (angPi n (Real.cos s) : ℂ)) (angTau n t : ℂ) t := by
  have := (hasDerivAt_sin_angPi' n t).ofReal_comp
  simpa only [ofReal_mul] using this

theorem hasDerivAt_csin_angTau (n : ℕ) (t : ℝ) :
    HasDerivAt (fun s : ℝ => (Real.sin s : ℂ) * (angTau n s : ℂ))
      ((angPi n (Real.cos t) : ℂ) - n * (n + 1) * (Real.sin t : ℂ) ^ 2 * (angPi n (Real.cos t) : ℂ)) t := by
  have := (hasDerivAt_sin_angTau n t).ofReal_comp
  refine this.congr_deriv ?_ |>.congr_of_eventuallyEq ?_
  · push_cast; ring
  · exact Filter.Eventually.of_forall fun s => by push_cast; ring

/-- Derivative of `cos` or `sin`. -/
noncomputable def Parity.fn' : Parity → ℝ → ℝ
  | .even => fun p => -Real.sin p
  | .odd => Real.cos

theorem Parity.hasDerivAt_fn (q : Parity) (p : ℝ) : HasDerivAt (fun s : ℝ => (q.fn s : ℂ)) (q.fn' p : ℂ) p := by
  cases q
  · exact (Real.hasDerivAt_cos p).ofReal_comp
  · exact (Real.hasDerivAt_sin p).ofReal_comp

theorem Parity.hasDerivAt_fn' (q : Parity) (p : ℝ) : HasDerivAt (fun s : ℝ => (q.fn' s : ℂ)) (-(q.fn p : ℂ)) p := by
  cases q
  · have := (Real.hasDerivAt_sin p).neg.ofReal_comp
    refine this.congr_deriv ?_
    simp [Parity.fn]
  · have := (Real.hasDerivAt_cos p).ofReal_comp
    refine this.congr_deriv ?_
    simp [Parity.fn]

/-! ## Radial functions -/

/-- A solution of the Riccati-Bessel equation of order `n`, with its derivative. -/
structure RicSol (n : ℕ) (f f' : ℂ → ℂ) : Prop where
  d1 : ∀ z, z ≠ 0 → HasDerivAt f (f' z) z
  d2 : ∀ z, z ≠ 0 → HasDerivAt f' ((n * (n + 1) / z ^ 2 - 1) * f z) z

theorem BesselSeq.ricSol {f : ℕ → ℂ → ℂ} (hf : BesselSeq f) (n : ℕ) :
    RicSol n (fun z => z * f n z) (fun z => ((n : ℂ) + 1) / z * (z * f n z) - z * f (n + 1) z) where
  d1 z hz := hf.ric_raise n hz
  d2 z hz := by
    have h1 := hf.ric_raise n hz
    have h2 := hf.ric_lower n hz
    have h3 : HasDerivAt (fun w : ℂ => ((n : ℂ) + 1) / w) (-((n : ℂ) + 1) / z ^ 2) z := by
      have := (hasDerivAt_inv hz).const_mul ((n : ℂ) + 1)
      refine this.congr_deriv ?_
      field_simp
    refine ((h3.mul h1).sub h2).congr_deriv ?_
    field_simp
    ring

theorem ricPsi_sol (n : ℕ) : RicSol n (ricPsi n) (deriv (ricPsi n)) where
  d1 z hz := (hasDerivAt_ricPsi n hz)
  d2 z hz := by
    have h := (sphJ_seq.ricSol n).d2 z hz
    refine h.congr_of_eventuallyEq ?_
    filter_upwards [isOpen_ne.mem_nhds hz] with w hw
    exact ((sphJ_seq.ricSol n).d1 w hw).deriv

theorem ricZeta_sol (n : ℕ) : RicSol n (ricZeta n) (deriv (ricZeta n)) where
  d1 z hz := (hasDerivAt_ricZeta n hz)
  d2 z hz := by
    have h := (sphH_seq.ricSol n).d2 z hz
    refine h.congr_of_eventuallyEq ?_
    filter_upwards [isOpen_ne.mem_nhds hz] with w hw
    exact ((sphH_seq.ricSol n).d1 w hw).deriv

/-! ## The harmonics -/

/-- `M` with radial function `z = f / rho`. -/
noncomputable def mFld (q : Parity) (n : ℕ) (f : ℂ → ℂ) (k : ℂ) : SField := fun r t p =>
  ⟨0, (q.fn' p : ℂ) * (angPi n (Real.cos t) : ℂ) * (f (k * r) / (k * r)),
    -((q.fn p : ℂ) * (angTau n t : ℂ) * (f (k * r) / (k * r)))⟩

/-- `N` with radial function `z = f / rho`. -/
noncomputable def nFld (q : Parity) (n : ℕ) (f f' : ℂ → ℂ) (k : ℂ) : SField := fun r t p =>
  ⟨(q.fn p : ℂ) * n * (n + 1) * (Real.sin t : ℂ) * (angPi n (Real.cos t) : ℂ) * (f (k * r) / (k * r) / (k * r)),
    (q.fn p : ℂ) * (angTau n t : ℂ) * (f' (k * r) / (k * r)),
    (q.fn' p : ℂ) * (angPi n (Real.cos t) : ℂ) * (f' (k * r) / (k * r))⟩

theorem hasDerivAt_radial {f : ℂ → ℂ} {d k : ℂ} (hk : k ≠ 0) {r : ℝ} (hr : 0 < r) (h : HasDerivAt f d (k * r)) (c : ℂ) :
    HasDerivAt (fun s : ℝ => (s : ℂ) * (c * (f (k * s) / (k * s)))) (c * d) r := by
  have h1 : HasDerivAt (fun s : ℝ => k * (s : ℂ)) k r := by
    simpa using (ofRealCLM.hasDerivAt (x := r)).const_mul k
  have h2 : HasDerivAt (fun s : ℝ => f (k * s)) (d * k) r := h.comp r h1
  have h3 := h2.const_mul (c / k)
  refine (h3.congr_deriv (by field_simp)).congr_of_eventuallyEq ?_
  filter_upwards [isOpen_ne.mem_nhds hr.ne'] with s hs
  have : (s : ℂ) ≠ 0 := by exact_mod_cast hs
  field_simp

variable {q : Parity} {n : ℕ} {f f' : ℂ → ℂ} {k : ℂ}

theorem mFld_potential {z : ℂ → ℂ} (hzf : ∀ w, w ≠ 0 → z w = f w / w) (hk : k ≠ 0) {r t p : ℝ} (hr : 0 < r)
    (ht : Real.sin t ≠ 0) : HasCurlAt (debye q n z k) (mFld q n f k r t p) r t p := by
  have hzr := hzf (k * r) (mul_ne_zero hk (by exact_mod_cast hr.ne'))
  have hrc : (r : ℂ) ≠ 0 := by exact_mod_cast hr.ne'
  have htc : (Real.sin t : ℂ) ≠ 0 := by exact_mod_cast ht
  refine ⟨0, 0, (r : ℂ) * ((q.fn' p : ℂ) * ((Real.sin t : ℂ) * (angPi n (Real.cos t) : ℂ))) * (f (k * r) / (k * r)), 0, 0,
    (r : ℂ) * ((q.fn p : ℂ) * (angTau n t : ℂ)) * (f (k * r) / (k * r)), ?_, ?_, ?_, ?_, ?_, ?_, ?_⟩
  · simpa [debye] using hasDerivAt_const t (0 : ℂ)
  · simpa [debye] using hasDerivAt_const p (0 : ℂ)
  · have := (((q.hasDerivAt_fn p).mul_const ((Real.sin t : ℂ) * (angPi n (Real.cos t) : ℂ))).const_mul (r : ℂ)).mul_const
      (f (k * r) / (k * r))
    simpa only [debye, ofReal_mul, hzr] using this
  · simpa [debye] using hasDerivAt_const r (0 : ℂ)
  · simpa [debye] using hasDerivAt_const r (0 : ℂ)
  · have := (((hasDerivAt_csin_angPi n t).const_mul (q.fn p : ℂ)).const_mul (r : ℂ)).mul_const (f (k * r) / (k * r))
    simpa only [debye, ofReal_mul, hzr] using this
  · simp only [mFld, SVec.mk.injEq]
    refine ⟨by simp, ?_, ?_⟩ <;> (field_simp; try ring)

theorem mFld_curl (hf : RicSol n f f') (hk : k ≠ 0) {r t p : ℝ} (hr : 0 < r) (ht : Real.sin t ≠ 0) :
    HasCurlAt (mFld q n f k) ((nFld q n f f' k r t p).smul k) r t p := by
  have hrc : (r : ℂ) ≠ 0 := by exact_mod_cast hr.ne'
  have htc : (Real.sin t : ℂ) ≠ 0 := by exact_mod_cast ht
  have hz : k * (r : ℂ) ≠ 0 := mul_ne_zero hk hrc
  refine ⟨((angPi n (Real.cos t) : ℂ) - n * (n + 1) * (Real.sin t : ℂ) ^ 2 * (angPi n (Real.cos t) : ℂ)) *
      -((q.fn p : ℂ) * (f (k * r) / (k * r))), -(q.fn p : ℂ) * (angPi n (Real.cos t) : ℂ) * (f (k * r) / (k * r)), 0,
    -((q.fn p : ℂ) * (angTau n t : ℂ)) * f' (k * r), (q.fn' p : ℂ) * (angPi n (Real.cos t) : ℂ) * f' (k * r), 0,
    ?_, ?_, ?_, ?_, ?_, ?_, ?_⟩
  · have := (hasDerivAt_csin_angTau n t).mul_const (-((q.fn p : ℂ) * (f (k * r) / (k * r))))
    refine this.congr_of_eventuallyEq (Filter.Eventually.of_forall fun s => ?_)
    simp only [mFld]; ring
  · exact ((q.hasDerivAt_fn' p).mul_const _).mul_const _
  · simpa [mFld] using hasDerivAt_const p (0 : ℂ)
  · have := hasDerivAt_radial hk hr (hf.d1 _ hz) (-((q.fn p : ℂ) * (angTau n t : ℂ)))
    refine this.congr_of_eventuallyEq (Filter.Eventually.of_forall fun s => ?_)
    simp only [mFld]; ring
  · exact hasDerivAt_radial hk hr (hf.d1 _ hz) ((q.fn' p : ℂ) * (angPi n (Real.cos t) : ℂ))
  · simpa [mFld] using hasDerivAt_const t (0 : ℂ)
  · simp only [nFld, SVec.smul, SVec.mk.injEq]
    refine ⟨?_, ?_, ?_⟩ <;> (field_simp; try ring)

theorem nFld_curl (hf : RicSol n f f') (hk : k ≠ 0) {r t p : ℝ} (hr : 0 < r) (ht : Real.sin t ≠ 0) :
    HasCurlAt (nFld q n f f' k) ((mFld q n f k r t p).smul k) r t p := by
  have hrc : (r : ℂ) ≠ 0 := by exact_mod_cast hr.ne'
  have htc : (Real.sin t : ℂ) ≠ 0 := by exact_mod_cast ht
  have hz : k * (r : ℂ) ≠ 0 := mul_ne_zero hk hrc
  set g : ℂ := (n * (n + 1) / (k * r) ^ 2 - 1) * f (k * r) with hg
  refine ⟨(angTau n t : ℂ) * ((q.fn' p : ℂ) * (f' (k * r) / (k * r))),
    (q.fn' p : ℂ) * (angTau n t : ℂ) * (f' (k * r) / (k * r)),
    (q.fn' p : ℂ) * (n * (n + 1) * (Real.sin t : ℂ) * (angPi n (Real.cos t) : ℂ) * (f (k * r) / (k * r) / (k * r))),
    (q.fn' p : ℂ) * (angPi n (Real.cos t) : ℂ) * g, (q.fn p : ℂ) * (angTau n t : ℂ) * g,
    (angTau n t : ℂ) * ((q.fn p : ℂ) * n * (n + 1) * (f (k * r) / (k * r) / (k * r))),
    ?_, ?_, ?_, ?_, ?_, ?_, ?_⟩
  · have := (hasDerivAt_csin_angPi n t).mul_const ((q.fn' p : ℂ) * (f' (k * r) / (k * r)))
    refine this.congr_of_eventuallyEq (Filter.Eventually.of_forall fun s => ?_)
    simp only [nFld]; ring
  · exact ((q.hasDerivAt_fn p).mul_const _).mul_const _
  · have := (q.hasDerivAt_fn p).mul_const
      (n * (n + 1) * (Real.sin t : ℂ) * (angPi n (Real.cos t) : ℂ) * (f (k * r) / (k * r) / (k * r)))
    refine this.congr_of_eventuallyEq (Filter.Eventually.of_forall fun s => ?_)
    simp only [nFld]; ring
  · exact hasDerivAt_radial hk hr (hf.d2 _ hz) _
  · exact hasDerivAt_radial hk hr (hf.d2 _ hz) _
  · have := (hasDerivAt_csin_angPi n t).mul_const ((q.fn p : ℂ) * n * (n + 1) * (f (k * r) / (k * r) / (k * r)))
    refine this.congr_of_eventuallyEq (Filter.Eventually.of_forall fun s => ?_)
    simp only [nFld]; ring
  · simp only [mFld, SVec.smul, SVec.mk.injEq, hg]
    refine ⟨?_, ?_, ?_⟩
    · rw [mul_zero, eq_comm, div_eq_zero_iff]; left; ring
    all_goals
      field_simp
      ring

theorem isVSH {z : ℂ → ℂ} (hzf : ∀ w, w ≠ 0 → z w = f w / w) (hf : RicSol n f f') (hk : k ≠ 0) :
    IsVSH q n z k (mFld q n f k) (nFld q n f f' k) where
  potential _ _ _ hr ht := mFld_potential hzf hk hr ht
  curlM _ _ _ hr ht := mFld_curl hf hk hr ht
  curlN _ _ _ hr ht := nFld_curl hf hk hr ht

/-! ## Linearity of the curl -/

theorem HasCurlAt.smul {F : SField} {C : SVec} {r t p : ℝ} (h : HasCurlAt F C r t p) (c : ℂ) :
    HasCurlAt (fun r t p => (F r t p).smul c) (C.smul c) r t p := by
  obtain ⟨d1, d2, d3, d4, d5, d6, h1, h2, h3, h4, h5, h6, rfl⟩ := h
  refine ⟨c * d1, c * d2, c * d3, c * d4, c * d5, c * d6, ?_, h2.const_mul c, h3.const_mul c, ?_, ?_, h6.const_mul c, ?_⟩
  · refine (h1.const_mul c).congr_of_eventuallyEq (Filter.Eventually.of_forall fun s => ?_)
    simp only [SVec.smul]; ring
  · refine (h4.const_mul c).congr_of_eventuallyEq (Filter.Eventually.of_forall fun s => ?_)
    simp only [SVec.smul]; ring
  · refine (h5.const_mul c).congr_of_eventuallyEq (Filter.Eventually.of_forall fun s => ?_)
    simp only [SVec.smul]; ring
  · simp only [SVec.smul, SVec.mk.injEq]
    refine ⟨?_, ?_, ?_⟩ <;> ring

theorem HasCurlAt.add {F G : SField} {C D : SVec} {r t p : ℝ} (h : HasCurlAt F C r t p) (g : HasCurlAt G D r t p) :
    HasCurlAt (fun r t p => (F r t p).add (G r t p)) (C.add D) r t p := by
  obtain ⟨d1, d2, d3, d4, d5, d6, h1, h2, h3, h4, h5, h6, rfl⟩ := h
  obtain ⟨e1, e2, e3, e4, e5, e6, g1, g2, g3, g4, g5, g6, rfl⟩ := g
  refine ⟨d1 + e1, d2 + e2, d3 + e3, d4 + e4, d5 + e5, d6 + e6, ?_, h2.add g2, h3.add g3, ?_, ?_, h6.add g6, ?_⟩
  · refine (h1.add g1).congr_of_eventuallyEq (Filter.Eventually.of_forall fun s => ?_)
    simp only [SVec.add, Pi.add_apply]; ring
  · refine (h4.add g4).congr_of_eventuallyEq (Filter.Eventually.of_forall fun s => ?_)
    simp only [SVec.add, Pi.add_apply]; ring
  · refine (h5.add g5).congr_of_eventuallyEq (Filter.Eventually.of_forall fun s => ?_)
    simp only [SVec.add, Pi.add_apply]; ring
  · simp only [SVec.add, SVec.mk.injEq]
    refine ⟨?_, ?_, ?_⟩ <;> ring

end MieDiff.Spec
