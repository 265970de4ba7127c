import Verif.Proofs.PlaneWave
import Verif.Props.Field

/-!
# The incident field and the total field at the outer surface (C61)

`nearfields` adds the incident wave in closed form to the scattered multipoles outside the particle, while the fields
inside are multipole sums only.  The theorems below relate the closed form to the multipoles of the incident wave and
bound the jump of the total tangential fields that is left by cutting the sums at `n_max`.
-/

namespace MieDiff

open Complex Spec Filter Topology

/-! ### Specification: a plane wave in spherical components -/

/-- `E0 exp(i k r cos theta) e_x`. -/
noncomputable def planeE (E0 k : ℂ) : SField := fun r t p =>
  let w := E0 * exp (I * k * (r : ℂ) * (Real.cos t : ℝ))
  ⟨w * (Real.sin t * Real.cos p : ℝ), w * (Real.cos t * Real.cos p : ℝ), w * (-Real.sin p : ℝ)⟩

/-- `m E0 exp(i k r cos theta) e_y`. -/
noncomputable def planeH (E0 k m : ℂ) : SField := fun r t p =>
  let w := E0 * m * exp (I * k * (r : ℂ) * (Real.cos t : ℝ))
  ⟨w * (Real.sin t * Real.sin p : ℝ), w * (Real.cos t * Real.sin p : ℝ), w * (Real.cos p : ℝ)⟩

/-- Sum of fields over the orders `1 .. N`. -/
noncomputable def sumOrders (N : ℕ) (f : ℕ → SVec) : SVec :=
  ⟨∑ i ∈ Finset.range N, (f (i + 1)).r, ∑ i ∈ Finset.range N, (f (i + 1)).t, ∑ i ∈ Finset.range N, (f (i + 1)).p⟩

/-- Component along `e_theta` of a Cartesian vector. -/
noncomputable def V3.eT (v : V3 ℂ) (t p : ℝ) : ℂ :=
  v.c0 * (Real.cos t * Real.cos p : ℝ) + v.c1 * (Real.cos t * Real.sin p : ℝ) - v.c2 * (Real.sin t : ℝ)

/-- Component along `e_phi` of a Cartesian vector. -/
noncomputable def V3.eP (v : V3 ℂ) (p : ℝ) : ℂ := -v.c0 * (Real.sin p : ℝ) + v.c1 * (Real.cos p : ℝ)

/-- Component along `e_r` of a Cartesian vector. -/
noncomputable def V3.eR (v : V3 ℂ) (t p : ℝ) : ℂ :=
  v.c0 * (Real.sin t * Real.cos p : ℝ) + v.c1 * (Real.sin t * Real.sin p : ℝ) + v.c2 * (Real.cos t : ℝ)

/-! ### The incident field of the code -/

/-- The code's incident fields are the plane wave. -/
theorem C61_incident (E0 k m : ℂ) (r t p : ℝ) :
    (incidentE E0 k r t).eR t p = (planeE E0 k r t p).r ∧ (incidentE E0 k r t).eT t p = (planeE E0 k r t p).t ∧
    (incidentE E0 k r t).eP p = (planeE E0 k r t p).p ∧ (incidentH E0 k m r t).eR t p = (planeH E0 k m r t p).r ∧
    (incidentH E0 k m r t).eT t p = (planeH E0 k m r t p).t ∧ (incidentH E0 k m r t).eP p = (planeH E0 k m r t p).p := by
  simp only [incidentE, incidentH, planeE, planeH, V3.eR, V3.eT, V3.eP]
  push_cast
  refine ⟨?_, ?_, ?_, ?_, ?_, ?_⟩ <;> ring

theorem psi_div {z : ℂ} (hz : z ≠ 0) (n : ℕ) : ricPsi n z / z = sphJ n z := by
  unfold ricPsi; field_simp

private theorem scaled_error {b c d : ℂ} {B C : ℝ} (h : ‖b - d‖ ≤ B) (hc : ‖c‖ ≤ C) : ‖c * b - c * d‖ ≤ C * B := by
  rw [← mul_sub, norm_mul]
  exact mul_le_mul hc h (norm_nonneg _) ((norm_nonneg _).trans hc)

theorem pwBound_nonneg (M : ℕ) (z : ℂ) : 0 ≤ pwBound M z := by unfold pwBound; positivity

/-- The six components of the truncated expansion as the three scalar sums. -/
theorem incident_sums {E0 k0 m : ℂ} {r : ℝ} (hz : k0 * m * r ≠ 0) (t p : ℝ) (N : ℕ) :
    let z := k0 * m * (r : ℂ)
    let R := ∑ n ∈ Finset.range N, I ^ (n + 1) * (2 * (n + 1 : ℕ) + 1) * (angPi (n + 1) (Real.cos t) : ℂ) * sphJ (n + 1) z
    let P := ∑ n ∈ Finset.range N, I ^ (n + 1) * ((2 * (n + 1 : ℕ) + 1) / ((n + 1 : ℕ) * ((n + 1 : ℕ) + 1))) *
        ((angPi (n + 1) (Real.cos t) : ℂ) * sphJ (n + 1) z - I * (angTau (n + 1) t : ℂ) * (deriv (ricPsi (n + 1)) z / z))
    let A := ∑ n ∈ Finset.range N, I ^ (n + 1) * ((2 * (n + 1 : ℕ) + 1) / ((n + 1 : ℕ) * ((n + 1 : ℕ) + 1))) *
        ((angTau (n + 1) t : ℂ) * sphJ (n + 1) z - I * (angPi (n + 1) (Real.cos t) : ℂ) * (deriv (ricPsi (n + 1)) z / z))
    sumOrders N (fun i => (incidentMultipole E0 k0 m i).1 r t p) =
      ⟨-(I * E0 * (Real.sin t * Real.cos p : ℝ) / z) * R, E0 * (Real.cos p : ℝ) * P, -(E0 * (Real.sin p : ℝ)) * A⟩ ∧
    sumOrders N (fun i => (incidentMultipole E0 k0 m i).2 r t p) =
      ⟨-(I * E0 * m * (Real.sin t * Real.sin p : ℝ) / z) * R, E0 * m * (Real.sin p : ℝ) * P,
        E0 * m * (Real.cos p : ℝ) * A⟩ := by
  intro z R P A
  have hn : ∀ n : ℕ, ((n + 1 : ℕ) : ℂ) ≠ 0 := fun n => by exact_mod_cast n.succ_ne_zero
  have hn2 : ∀ n : ℕ, ((n + 1 : ℕ) : ℂ) + 1 ≠ 0 := fun n => by exact_mod_cast (n + 1).succ_ne_zero
  have hz' : z ≠ 0 := hz
  constructor
  · unfold sumOrders incidentMultipole eFld
    simp only [SVec.smul, SVec.add, mFld, nFld, SVec.mk.injEq, Parity.fn, Parity.fn']
    refine ⟨?_, ?_, ?_⟩ <;> rw [Finset.mul_sum] <;> refine Finset.sum_congr rfl fun i _ => ?_ <;>
      rw [show k0 * m * (r : ℂ) = z from rfl, psi_div hz'] <;> unfold EnCoef <;> have h1 := hn i <;> have h2 := hn2 i <;>
      push_cast at h1 h2 ⊢ <;> field_simp <;> ring
  · unfold sumOrders incidentMultipole hFld
    simp only [SVec.smul, SVec.add, mFld, nFld, SVec.mk.injEq, Parity.fn, Parity.fn']
    refine ⟨?_, ?_, ?_⟩ <;> rw [Finset.mul_sum] <;> refine Finset.sum_congr rfl fun i _ => ?_ <;>
      rw [show k0 * m * (r : ℂ) = z from rfl, psi_div hz'] <;> unfold EnCoef <;> have h1 := hn i <;> have h2 := hn2 i <;>
      push_cast at h1 h2 ⊢ <;> field_simp <;> ring
private theorem norm_real_le_one {x : ℝ} (h : |x| ≤ 1) : ‖(x : ℂ)‖ ≤ 1 := by rwa [Complex.norm_real, Real.norm_eq_abs]

private theorem abs_mul_le_one {x y : ℝ} (hx : |x| ≤ 1) (hy : |y| ≤ 1) : |x * y| ≤ 1 := by
  rw [abs_mul]
  have := abs_nonneg x
  have := abs_nonneg y
  nlinarith

private theorem norm_mul_real_le (a : ℂ) {x : ℝ} (h : |x| ≤ 1) : ‖a * (x : ℂ)‖ ≤ ‖a‖ := by
  rw [norm_mul]
  exact mul_le_of_le_one_right (norm_nonneg _) (norm_real_le_one h)

/-- Expansion of the plane wave: the error of every component of the multipole sum cut after `N` orders. -/
theorem C61_expansion {E0 k0 m : ℂ} {r : ℝ} (hz : k0 * m * r ≠ 0) (t p : ℝ) {N : ℕ} (h1 : 1 ≤ N)
    (hN : ‖k0 * m * r‖ ^ 2 ≤ N) :
    let S := sumOrders N (fun i => (incidentMultipole E0 k0 m i).1 r t p)
    let T := sumOrders N (fun i => (incidentMultipole E0 k0 m i).2 r t p)
    let B := pwBound N (k0 * m * r)
    (‖S.r - (planeE E0 (k0 * m) r t p).r‖ ≤ ‖E0‖ * B ∧ ‖S.t - (planeE E0 (k0 * m) r t p).t‖ ≤ ‖E0‖ * B ∧
      ‖S.p - (planeE E0 (k0 * m) r t p).p‖ ≤ ‖E0‖ * B) ∧
    (‖T.r - (planeH E0 (k0 * m) m r t p).r‖ ≤ ‖E0 * m‖ * B ∧ ‖T.t - (planeH E0 (k0 * m) m r t p).t‖ ≤ ‖E0 * m‖ * B ∧
      ‖T.p - (planeH E0 (k0 * m) m r t p).p‖ ≤ ‖E0 * m‖ * B) := by
  intro S T B
  obtain ⟨N, rfl⟩ : ∃ M, N = M + 1 := ⟨N - 1, by omega⟩
  obtain ⟨eS, eT⟩ := incident_sums (E0 := E0) hz t p (N + 1)
  have hN' : ‖k0 * m * r‖ ^ 2 ≤ (N : ℝ) + 1 := by simpa using hN
  have hR := radialSum_error N (Real.abs_cos_le_one t) hz hN'
  have hP := polarSum_error N t hz hN'
  have hA := azimuthSum_error N t hz hN'
  have cs := Real.abs_cos_le_one
  have sn := Real.abs_sin_le_one
  have hz0 : 0 < ‖k0 * m * r‖ := norm_pos_iff.2 hz
  have ex : I * (k0 * m) * (r : ℂ) * (Real.cos t : ℝ) = I * (Real.cos t : ℂ) * (k0 * m * r) := by ring
  have radial : ∀ a : ℂ, ∀ x : ℝ, |x| ≤ 1 → ∀ s : ℂ,
      ‖s - I * (k0 * m * r) * exp (I * (Real.cos t : ℂ) * (k0 * m * r))‖ ≤ ‖k0 * m * r‖ * B →
      ‖-(I * a * (x : ℂ) / (k0 * m * r)) * s - a * exp (I * (Real.cos t : ℂ) * (k0 * m * r)) * (x : ℂ)‖ ≤ ‖a‖ * B := by
    intro a x hx s hs
    have e : a * exp (I * (Real.cos t : ℂ) * (k0 * m * r)) * (x : ℂ) =
        -(I * a * (x : ℂ) / (k0 * m * r)) * (I * (k0 * m * r) * exp (I * (Real.cos t : ℂ) * (k0 * m * r))) := by
      rw [div_eq_mul_inv]
      have h3 : (k0 * m * (r : ℂ))⁻¹ * (k0 * m * r) = 1 := inv_mul_cancel₀ hz
      linear_combination (a * x * exp (I * (Real.cos t : ℂ) * (k0 * m * r)) * (I * I)) * h3 +
        (a * x * exp (I * (Real.cos t : ℂ) * (k0 * m * r))) * I_mul_I
    rw [e, ← mul_sub, norm_mul, norm_neg, norm_div, norm_mul, norm_mul, norm_I, one_mul]
    have hx' := norm_real_le_one hx
    calc ‖a‖ * ‖(x : ℂ)‖ / ‖k0 * m * r‖ * _ ≤ ‖a‖ * 1 / ‖k0 * m * r‖ * (‖k0 * m * r‖ * B) := by
          refine mul_le_mul (div_le_div_of_nonneg_right (mul_le_mul_of_nonneg_left hx' (norm_nonneg _)) hz0.le) hs
            (norm_nonneg _) (by positivity)
      _ = ‖a‖ * B := by field_simp
  refine ⟨⟨?_, ?_, ?_⟩, ?_, ?_, ?_⟩
  · simp only [S, eS, planeE, ex]
    exact radial E0 _ (abs_mul_le_one (sn t) (cs p)) _ hR
  · simp only [S, eS, planeE, ex]
    have := scaled_error (c := E0 * (Real.cos p : ℝ)) hP (norm_mul_real_le E0 (cs p))
    refine le_trans (le_of_eq (congrArg norm (congrArg₂ (· - ·) rfl ?_))) this
    push_cast
    ring
  · simp only [S, eS, planeE, ex]
    have := scaled_error (c := -(E0 * (Real.sin p : ℝ))) (C := ‖E0‖) hA (by
      rw [norm_neg]; exact norm_mul_real_le E0 (sn p))
    refine le_trans (le_of_eq (congrArg norm (congrArg₂ (· - ·) rfl ?_))) this
    push_cast
    ring
  · simp only [T, eT, planeH, ex]
    have := radial (E0 * m) _ (abs_mul_le_one (sn t) (sn p)) _ hR
    refine le_trans (le_of_eq (congrArg norm (congrArg₂ (· - ·) ?_ rfl))) this
    rw [← mul_assoc I E0 m]
  · simp only [T, eT, planeH, ex]
    have := scaled_error (c := E0 * m * (Real.sin p : ℝ)) hP (norm_mul_real_le (E0 * m) (sn p))
    refine le_trans (le_of_eq (congrArg norm (congrArg₂ (· - ·) rfl ?_))) this
    push_cast
    ring
  · simp only [T, eT, planeH, ex]
    have := scaled_error (c := E0 * m * (Real.cos p : ℝ)) hA (norm_mul_real_le (E0 * m) (cs p))
    refine le_trans (le_of_eq (congrArg norm (congrArg₂ (· - ·) rfl ?_))) this
    push_cast
    ring

/-- The multipole sums converge to the plane wave. -/
theorem C61_tendsto {E0 k0 m : ℂ} {r : ℝ} (hz : k0 * m * r ≠ 0) (t p : ℝ) :
    let S := fun N => sumOrders N (fun i => (incidentMultipole E0 k0 m i).1 r t p)
    let T := fun N => sumOrders N (fun i => (incidentMultipole E0 k0 m i).2 r t p)
    (Tendsto (fun N => (S N).r) atTop (𝓝 (planeE E0 (k0 * m) r t p).r) ∧
      Tendsto (fun N => (S N).t) atTop (𝓝 (planeE E0 (k0 * m) r t p).t) ∧
      Tendsto (fun N => (S N).p) atTop (𝓝 (planeE E0 (k0 * m) r t p).p)) ∧
    (Tendsto (fun N => (T N).r) atTop (𝓝 (planeH E0 (k0 * m) m r t p).r) ∧
      Tendsto (fun N => (T N).t) atTop (𝓝 (planeH E0 (k0 * m) m r t p).t) ∧
      Tendsto (fun N => (T N).p) atTop (𝓝 (planeH E0 (k0 * m) m r t p).p)) := by
  intro S T
  have h := fun (N : ℕ) (hN : ‖k0 * m * r‖ ^ 2 ≤ (N : ℝ) + 1) =>
    C61_expansion (E0 := E0) hz t p (N := N + 1) (by omega) (by push_cast; exact hN)
  exact ⟨⟨tendsto_of_pwBound _ fun N hN => (h N hN).1.1, tendsto_of_pwBound _ fun N hN => (h N hN).1.2.1,
    tendsto_of_pwBound _ fun N hN => (h N hN).1.2.2⟩, tendsto_of_pwBound _ fun N hN => (h N hN).2.1,
    tendsto_of_pwBound _ fun N hN => (h N hN).2.2.1, tendsto_of_pwBound _ fun N hN => (h N hN).2.2.2⟩

/-! ### Maxwell's equations for the incident field -/

private theorem wave_dt (E k : ℂ) (r t : ℝ) :
    HasDerivAt (fun s : ℝ => E * exp (I * k * (r : ℂ) * (Real.cos s : ℝ)))
      (-(I * k * r * (Real.sin t : ℝ)) * (E * exp (I * k * (r : ℂ) * (Real.cos t : ℝ)))) t := by
  have h1 : HasDerivAt (fun s : ℝ => ((Real.cos s : ℝ) : ℂ)) ((-Real.sin t : ℝ) : ℂ) t := (Real.hasDerivAt_cos t).ofReal_comp
  have h2 := ((h1.const_mul (I * k * r)).cexp).const_mul E
  refine h2.congr_deriv ?_
  push_cast
  ring

private theorem wave_dr (E k : ℂ) (r t : ℝ) :
    HasDerivAt (fun s : ℝ => E * exp (I * k * (s : ℂ) * (Real.cos t : ℝ)))
      (I * k * (Real.cos t : ℝ) * (E * exp (I * k * (r : ℂ) * (Real.cos t : ℝ)))) r := by
  have h1 : HasDerivAt (fun s : ℝ => (s : ℂ)) 1 r := ofRealCLM.hasDerivAt (x := r)
  have h2 := (((h1.const_mul (I * k)).mul_const ((Real.cos t : ℝ) : ℂ)).cexp).const_mul E
  refine h2.congr_deriv ?_
  ring

private theorem sin_dt (t : ℝ) : HasDerivAt (fun s : ℝ => ((Real.sin s : ℝ) : ℂ)) ((Real.cos t : ℝ) : ℂ) t :=
  (Real.hasDerivAt_sin t).ofReal_comp

private theorem cos_dt (t : ℝ) : HasDerivAt (fun s : ℝ => ((Real.cos s : ℝ) : ℂ)) (-((Real.sin t : ℝ) : ℂ)) t := by
  have := (Real.hasDerivAt_cos t).ofReal_comp
  simpa using this

/-- Curl of a transverse wave `w (sin t f, cos t f, f')` whose azimuthal part satisfies `f'' = -f`. -/
private theorem wave_curl (E k : ℂ) {f g : ℝ → ℂ} {r t : ℝ} (p : ℝ) (hr : 0 < r) (ht : Real.sin t ≠ 0)
    (hf : HasDerivAt f (g p) p) :
    HasCurlAt (fun r t p => ⟨E * exp (I * k * (r : ℂ) * (Real.cos t : ℝ)) * ((Real.sin t : ℝ) * f p),
        E * exp (I * k * (r : ℂ) * (Real.cos t : ℝ)) * ((Real.cos t : ℝ) * f p),
        E * exp (I * k * (r : ℂ) * (Real.cos t : ℝ)) * g p⟩)
      (SVec.smul (-(I * k)) ⟨E * exp (I * k * (r : ℂ) * (Real.cos t : ℝ)) * ((Real.sin t : ℝ) * g p),
        E * exp (I * k * (r : ℂ) * (Real.cos t : ℝ)) * ((Real.cos t : ℝ) * g p),
        E * exp (I * k * (r : ℂ) * (Real.cos t : ℝ)) * (-f p)⟩) r t p := by
  have hid : HasDerivAt (fun s : ℝ => (s : ℂ)) 1 r := ofRealCLM.hasDerivAt (x := r)
  refine ⟨_, _, _, _, _, _, (sin_dt t).mul ((wave_dt E k r t).mul_const (g p)), (hf.const_mul ((Real.cos t : ℝ) : ℂ)).const_mul _,
    (hf.const_mul ((Real.sin t : ℝ) : ℂ)).const_mul _, hid.mul ((wave_dr E k r t).mul_const (g p)),
    hid.mul ((wave_dr E k r t).mul_const ((Real.cos t : ℝ) * f p)), (wave_dt E k r t).mul ((sin_dt t).mul_const (f p)), ?_⟩
  have hr' : (r : ℂ) ≠ 0 := by exact_mod_cast hr.ne'
  have ht' : ((Real.sin t : ℝ) : ℂ) ≠ 0 := by exact_mod_cast ht
  have hsc : ((Real.sin t : ℝ) : ℂ) ^ 2 + ((Real.cos t : ℝ) : ℂ) ^ 2 = 1 := by exact_mod_cast Real.sin_sq_add_cos_sq t
  simp only [SVec.smul, SVec.mk.injEq]
  generalize ((Real.sin t : ℝ) : ℂ) = st at *
  generalize ((Real.cos t : ℝ) : ℂ) = ct at *
  generalize E * exp (I * k * (r : ℂ) * ct) = w at *
  refine ⟨?_, ?_, ?_⟩
  · rw [eq_div_iff (mul_ne_zero hr' ht')]; ring
  · rw [eq_div_iff hr', div_eq_mul_inv]
    have : st * st⁻¹ = 1 := mul_inv_cancel₀ ht'
    linear_combination (-(w * g p)) * this
  · rw [eq_div_iff hr']
    linear_combination (-(I * k * r * w * f p)) * hsc

/-- The incident field solves Maxwell's equations in the host medium. -/
theorem C61_maxwell (E0 k0 m : ℂ) {r t : ℝ} (p : ℝ) (hr : 0 < r) (ht : Real.sin t ≠ 0) :
    MaxwellAt k0 m (planeE E0 (k0 * m)) (planeH E0 (k0 * m) m) r t p := by
  have hs := sin_dt p
  have hc := cos_dt p
  constructor
  · have h := wave_curl E0 (k0 * m) (f := fun s => ((Real.cos s : ℝ) : ℂ)) (g := fun s => -((Real.sin s : ℝ) : ℂ)) p hr ht hc
    have eF : planeE E0 (k0 * m) = fun r t p => ⟨E0 * exp (I * (k0 * m) * (r : ℂ) * (Real.cos t : ℝ)) * ((Real.sin t : ℝ) * ((Real.cos p : ℝ) : ℂ)),
        E0 * exp (I * (k0 * m) * (r : ℂ) * (Real.cos t : ℝ)) * ((Real.cos t : ℝ) * ((Real.cos p : ℝ) : ℂ)),
        E0 * exp (I * (k0 * m) * (r : ℂ) * (Real.cos t : ℝ)) * -((Real.sin p : ℝ) : ℂ)⟩ := by
      funext r t p
      simp only [planeE, SVec.mk.injEq]
      push_cast
      exact ⟨rfl, rfl, rfl⟩
    rw [eF]
    refine HasCurlAt.congr h ?_
    simp only [planeH, SVec.smul, SVec.mk.injEq]
    push_cast
    refine ⟨?_, ?_, ?_⟩ <;> ring
  · have h := wave_curl (E0 * m) (k0 * m) (f := fun s => ((Real.sin s : ℝ) : ℂ)) (g := fun s => ((Real.cos s : ℝ) : ℂ)) p hr ht hs
    have eF : planeH E0 (k0 * m) m = fun r t p => ⟨E0 * m * exp (I * (k0 * m) * (r : ℂ) * (Real.cos t : ℝ)) * ((Real.sin t : ℝ) * ((Real.sin p : ℝ) : ℂ)),
        E0 * m * exp (I * (k0 * m) * (r : ℂ) * (Real.cos t : ℝ)) * ((Real.cos t : ℝ) * ((Real.sin p : ℝ) : ℂ)),
        E0 * m * exp (I * (k0 * m) * (r : ℂ) * (Real.cos t : ℝ)) * ((Real.cos p : ℝ) : ℂ)⟩ := by
      funext r t p
      simp only [planeH, SVec.mk.injEq]
      push_cast
      exact ⟨rfl, rfl, trivial⟩
    rw [eF]
    refine HasCurlAt.congr h ?_
    simp only [planeE, SVec.smul, SVec.mk.injEq]
    push_cast
    refine ⟨?_, ?_, ?_⟩ <;> ring

/-! ### The jump at the outer surface -/

theorem eT_add (v w : V3 ℂ) (t p : ℝ) : (v.add w).eT t p = v.eT t p + w.eT t p := by simp only [V3.add, V3.eT]; ring

theorem eP_add (v w : V3 ℂ) (p : ℝ) : (v.add w).eP p = v.eP p + w.eP p := by simp only [V3.add, V3.eP]; ring

theorem eT_cart (v : V3 ℂ) (t p : ℝ) : (fieldsSphToCart v t p).eT t p = v.c1 := by
  have h1 : ((Real.sin t : ℝ) : ℂ) ^ 2 + ((Real.cos t : ℝ) : ℂ) ^ 2 = 1 := by exact_mod_cast Real.sin_sq_add_cos_sq t
  have h2 : ((Real.sin p : ℝ) : ℂ) ^ 2 + ((Real.cos p : ℝ) : ℂ) ^ 2 = 1 := by exact_mod_cast Real.sin_sq_add_cos_sq p
  simp only [fieldsSphToCart, V3.eT, ofReal_mul]
  linear_combination (v.c0 * ((Real.sin t : ℝ) : ℂ) * ((Real.cos t : ℝ) : ℂ) + v.c1 * ((Real.cos t : ℝ) : ℂ) ^ 2) * h2 + v.c1 * h1

theorem eP_cart (v : V3 ℂ) (t p : ℝ) : (fieldsSphToCart v t p).eP p = v.c2 := by
  have h2 : ((Real.sin p : ℝ) : ℂ) ^ 2 + ((Real.cos p : ℝ) : ℂ) ^ 2 = 1 := by exact_mod_cast Real.sin_sq_add_cos_sq p
  simp only [fieldsSphToCart, V3.eP]
  linear_combination v.c2 * h2

theorem sum_part (t p : ℝ) (F : V3 ℂ → ℂ) (g : V3 ℂ → ℂ) (hadd : ∀ v w, F (v.add w) = F v + F w)
    (hc : ∀ v, F (fieldsSphToCart v t p) = g v) (l : List (V3 ℂ)) (acc : V3 ℂ) :
    F (l.foldl (fun acc v => acc.add (fieldsSphToCart v t p)) acc) = F acc + (l.map g).sum := by
  induction l generalizing acc with
  | nil => simp
  | cons v l ih => rw [List.foldl_cons, ih, hadd, hc, List.map_cons, List.sum_cons]; ring

theorem sum_list {α : Type*} {l : List α} {N : ℕ} (hl : l.length = N) (g : α → ℂ) (f : ℕ → ℂ)
    (h : ∀ i, i < N → ∃ v, l[i]? = some v ∧ g v = f i) : (l.map g).sum = ∑ i ∈ Finset.range N, f i := by
  have e : l.map g = (List.range N).map f := by
    refine List.ext_getElem? fun i => ?_
    by_cases hi : i < N
    · obtain ⟨v, hv, e⟩ := h i hi
      simp [hv, e, hi]
    · have hi' : N ≤ i := not_lt.1 hi
      simp [List.getElem?_eq_none (hl ▸ hi' : l.length ≤ i), hi']
  rw [e, ← List.sum_toFinset _ List.nodup_range, List.toFinset_range]

private theorem bind_inv' {α β : Type} {x : Py α} {f : α → Py β} {v : β} (h : x >>= f = .ok v) :
    ∃ u, x = .ok u ∧ f u = .ok v := by
  cases x with
  | error e => cases h
  | ok u => exact ⟨u, rfl, h⟩

/-- Jump of the total tangential field at the outer surface.  Inside, the total field is the sum over the orders
`1 .. n_max`; outside it is the scattered sum plus the incident wave in closed form (multishell.py:1228-1282).  The
jump is exactly the part of the incident wave beyond the order `n_max`; it does not depend on the particle, and it is
bounded by `pwBound`, which tends to zero. -/
theorem C61_jump {B : Backends} {p : Particle1} {backend w : String} {nMax : Option ℤ}
    {ri : Bool} {o : MieOut} (hb : backend.toLower = "pena")
    (h : mieCoefficients idealD1 B p backend w nMax ri = .ok o)
    (hc : SolverClear idealFn o.nMax.toNat p.layers)
    (hbd : ∀ l ∈ p.layers, ∀ i, 1 ≤ i → i ≤ o.nMax.toNat →
      ‖ricPsi i (l.1 * l.2)‖ ≤ 1e30 ∧ ‖ricZeta i (l.1 * l.2)‖ ≤ 1e30) (E0 : ℂ) (t ph : ℝ)
    {L : ℕ} (hL : p.rLayers.length = L + 1) :
    ∃ regs r r' es hs es' hs', nfRegions idealD1 o.nMax (extCoefs o.a o.b) true p.layers = .ok regs ∧
      regs[L]? = some r ∧ regs[L + 1]? = some r' ∧
      regionField idealD1 o.nMax.toNat p.k0 (p.media.getD L 0) (p.rLayers.getD L 0) t ph E0 false r 0 = .ok (es, hs) ∧
      regionField idealD1 o.nMax.toNat p.k0 (p.media.getD (L + 1) 0) (p.rLayers.getD L 0) t ph E0 true r' 0 =
        .ok (es', hs') ∧
      let ne := csqrt p.epsEnv
      let R := p.rLayers.getD L 0
      let inE := sumCart t ph es
      let inH := sumCart t ph hs
      let outE := (sumCart t ph es').add (incidentE E0 (p.k0 * ne) R t)
      let outH := (sumCart t ph hs').add (incidentH E0 (p.k0 * ne) ne R t)
      let S := sumOrders o.nMax.toNat (fun i => (incidentMultipole E0 p.k0 ne i).1 R t ph)
      let T := sumOrders o.nMax.toNat (fun i => (incidentMultipole E0 p.k0 ne i).2 R t ph)
      (inE.eT t ph - outE.eT t ph = S.t - (planeE E0 (p.k0 * ne) R t ph).t ∧
        inE.eP ph - outE.eP ph = S.p - (planeE E0 (p.k0 * ne) R t ph).p ∧
        inH.eT t ph - outH.eT t ph = T.t - (planeH E0 (p.k0 * ne) ne R t ph).t ∧
        inH.eP ph - outH.eP ph = T.p - (planeH E0 (p.k0 * ne) ne R t ph).p) ∧
      (‖p.k0 * ne * R‖ ^ 2 ≤ o.nMax.toNat →
        ‖inE.eT t ph - outE.eT t ph‖ ≤ ‖E0‖ * pwBound o.nMax.toNat (p.k0 * ne * R) ∧
        ‖inE.eP ph - outE.eP ph‖ ≤ ‖E0‖ * pwBound o.nMax.toNat (p.k0 * ne * R) ∧
        ‖inH.eT t ph - outH.eT t ph‖ ≤ ‖E0 * ne‖ * pwBound o.nMax.toNat (p.k0 * ne * R) ∧
        ‖inH.eP ph - outH.eP ph‖ ≤ ‖E0 * ne‖ * pwBound o.nMax.toNat (p.k0 * ne * R)) := by
  have run := mieCoefficients_pena_inv hb h
  have hn1 : 1 ≤ o.nMax.toNat := by have := run.pos; omega
  obtain ⟨regs, hregs, hall⟩ := C14_tangential_fields hb h hc hbd E0 t ph
  obtain ⟨r, r', es, hs, es', hs', hr, hr', hf, hf', hv⟩ := hall L (by omega)
  have htrue : (L + 1 == p.rLayers.length) = true := by simp [hL]
  rw [htrue] at hf'
  refine ⟨regs, r, r', es, hs, es', hs', hregs, hr, hr', hf, hf', ?_⟩
  intro ne R inE inH outE outH S T
  have len : ∀ {n : ℕ} {k m : ℂ} {rr : ℝ} {b : Bool} {rc : RegionCoefs} {u v : List (V3 ℂ)},
      regionField idealD1 n k m rr t ph E0 b rc 0 = .ok (u, v) → u.length = n ∧ v.length = n := by
    intro n k m rr b rc u v hh
    unfold regionField at hh
    obtain ⟨v1, -, hh⟩ := bind_inv' hh
    obtain ⟨v3, -, hh⟩ := bind_inv' hh
    simp only [Except.ok.injEq, Prod.mk.injEq] at hh
    rw [← hh.1, ← hh.2]
    simp
  obtain ⟨l1, l2⟩ := len hf
  obtain ⟨l3, l4⟩ := len hf'
  have key : ∀ i, i < o.nMax.toNat → ∃ e g e' g', es[i]? = some e ∧ hs[i]? = some g ∧ es'[i]? = some e' ∧ hs'[i]? = some g' ∧
      e.c1 = e'.c1 + ((incidentMultipole E0 p.k0 ne (i + 1)).1 R t ph).t ∧
      e.c2 = e'.c2 + ((incidentMultipole E0 p.k0 ne (i + 1)).1 R t ph).p ∧
      g.c1 = g'.c1 + ((incidentMultipole E0 p.k0 ne (i + 1)).2 R t ph).t ∧
      g.c2 = g'.c2 + ((incidentMultipole E0 p.k0 ne (i + 1)).2 R t ph).p := by
    intro i hi
    obtain ⟨e, g, e', g', a1, a2, a3, a4, -, a5⟩ := hv (i + 1) (by omega) (by omega)
    obtain ⟨b1, b2⟩ := a5 hL.symm
    simp only [SVec.tang, V3.toS, SVec.add, Prod.mk.injEq] at b1 b2
    exact ⟨e, g, e', g', a1, a2, a3, a4, b1.1, b1.2, b2.1, b2.2⟩
  -- one component at a time
  have part : ∀ (u u' : List (V3 ℂ)) (c : V3 ℂ → ℂ) (f : ℕ → ℂ), u.length = o.nMax.toNat → u'.length = o.nMax.toNat →
      (∀ i, i < o.nMax.toNat → ∃ e e', u[i]? = some e ∧ u'[i]? = some e' ∧ c e = c e' + f i) →
      (u.map c).sum - (u'.map c).sum = ∑ i ∈ Finset.range o.nMax.toNat, f i := by
    intro u u' c f hu hu' hh
    rw [sum_list hu c (fun i => c (u'.getD i V3.zero) + f i) (fun i hi => by
        obtain ⟨e, e', q1, q2, q3⟩ := hh i hi
        exact ⟨e, q1, by rw [q3, List.getD_eq_getElem?_getD, q2]; rfl⟩),
      sum_list hu' c (fun i => c (u'.getD i V3.zero)) (fun i hi => by
        obtain ⟨e, e', q1, q2, q3⟩ := hh i hi
        exact ⟨e', q2, by rw [List.getD_eq_getElem?_getD, q2]; rfl⟩), Finset.sum_add_distrib]
    ring
  have zT : (V3.zero).eT t ph = 0 := by simp [V3.zero, V3.eT]
  have zP : (V3.zero).eP ph = 0 := by simp [V3.zero, V3.eP]
  have sT : ∀ l, (sumCart t ph l).eT t ph = (l.map V3.c1).sum := fun l => by
    unfold sumCart
    rw [sum_part t ph (fun v => v.eT t ph) V3.c1 (fun v w => eT_add v w t ph) (fun v => eT_cart v t ph), zT, zero_add]
  have sP : ∀ l, (sumCart t ph l).eP ph = (l.map V3.c2).sum := fun l => by
    unfold sumCart
    rw [sum_part t ph (fun v => v.eP ph) V3.c2 (fun v w => eP_add v w ph) (fun v => eP_cart v t ph), zP, zero_add]
  obtain ⟨-, iT, iP, -, jT, jP⟩ := C61_incident E0 (p.k0 * ne) ne R t ph
  have q1 := part es es' V3.c1 (fun i => ((incidentMultipole E0 p.k0 ne (i + 1)).1 R t ph).t) l1 l3 fun i hi => by
    obtain ⟨e, g, e', g', a1, a2, a3, a4, c1, c2, c3, c4⟩ := key i hi; exact ⟨e, e', a1, a3, c1⟩
  have q2 := part es es' V3.c2 (fun i => ((incidentMultipole E0 p.k0 ne (i + 1)).1 R t ph).p) l1 l3 fun i hi => by
    obtain ⟨e, g, e', g', a1, a2, a3, a4, c1, c2, c3, c4⟩ := key i hi; exact ⟨e, e', a1, a3, c2⟩
  have q3 := part hs hs' V3.c1 (fun i => ((incidentMultipole E0 p.k0 ne (i + 1)).2 R t ph).t) l2 l4 fun i hi => by
    obtain ⟨e, g, e', g', a1, a2, a3, a4, c1, c2, c3, c4⟩ := key i hi; exact ⟨g, g', a2, a4, c3⟩
  have q4 := part hs hs' V3.c2 (fun i => ((incidentMultipole E0 p.k0 ne (i + 1)).2 R t ph).p) l2 l4 fun i hi => by
    obtain ⟨e, g, e', g', a1, a2, a3, a4, c1, c2, c3, c4⟩ := key i hi; exact ⟨g, g', a2, a4, c4⟩
  have w1 : inE.eT t ph - outE.eT t ph = S.t - (planeE E0 (p.k0 * ne) R t ph).t := by
    simp only [inE, outE]
    rw [eT_add, sT, sT, iT, ← sub_sub, q1]
    rfl
  have w2 : inE.eP ph - outE.eP ph = S.p - (planeE E0 (p.k0 * ne) R t ph).p := by
    simp only [inE, outE]
    rw [eP_add, sP, sP, iP, ← sub_sub, q2]
    rfl
  have w3 : inH.eT t ph - outH.eT t ph = T.t - (planeH E0 (p.k0 * ne) ne R t ph).t := by
    simp only [inH, outH]
    rw [eT_add, sT, sT, jT, ← sub_sub, q3]
    rfl
  have w4 : inH.eP ph - outH.eP ph = T.p - (planeH E0 (p.k0 * ne) ne R t ph).p := by
    simp only [inH, outH]
    rw [eP_add, sP, sP, jP, ← sub_sub, q4]
    rfl
  refine ⟨⟨w1, w2, w3, w4⟩, fun hle => ?_⟩
  have hz : p.k0 * ne * R ≠ 0 := by
    have hll : p.layers.length = p.rLayers.length := by simp [Particle1.layers, layersOf, run.len]
    have hok := nfok_drop _ L (nfok_of_clear hn1 hc hbd)
    have hj : L < p.layers.length := by omega
    have hj' : L < p.rLayers.length := by omega
    rw [List.drop_eq_getElem_cons hj] at hok
    have hx : (p.layers[L]).2 = p.k0 * csqrt p.epsEnv * (p.rLayers.getD L 0 : ℝ) := by
      rw [List.getD_eq_getElem?_getD, List.getElem?_eq_getElem hj']
      simp [Particle1.layers, layersOf]
    have := right_ne_zero_of_mul hok.1.inner.ne
    rwa [hx] at this
  obtain ⟨⟨-, b1, b2⟩, -, b3, b4⟩ := C61_expansion (E0 := E0) hz t ph hn1 hle
  rw [w1, w2, w3, w4]
  exact ⟨b1, b2, b3, b4⟩

/-- The hypotheses of C61_jump hold, the size condition included, for a sphere of size parameter 1 with one order. -/
example (B : Backends) : ∃ o, mieCoefficients idealD1 B monoParticle "pena" "recurrence" (some 1) = .ok o ∧
    SolverClear idealFn o.nMax.toNat monoParticle.layers ∧
    (∀ l ∈ monoParticle.layers, ∀ i, 1 ≤ i → i ≤ o.nMax.toNat →
      ‖ricPsi i (l.1 * l.2)‖ ≤ 1e30 ∧ ‖ricZeta i (l.1 * l.2)‖ ≤ 1e30) ∧ monoParticle.rLayers.length = 0 + 1 ∧
    ‖monoParticle.k0 * csqrt monoParticle.epsEnv * (monoParticle.rLayers.getD 0 0 : ℝ)‖ ^ 2 ≤ o.nMax.toNat := by
  obtain ⟨o, h, hn⟩ := mieCoefficients_pena_ok (K := idealD1) (B := B) (p := monoParticle) (n := 1) (idealD1_fun 1)
    (backend := "pena") (by decide +kernel) le_rfl (by simp [monoParticle, strictlyIncreasing]) (by simp [monoParticle])
    (by simp [monoParticle])
  have h1 : o.nMax.toNat = 1 := by rw [hn]; rfl
  have c1 : csqrt 1 = 1 := by have := csqrt_nat_sq (r := 1) (by norm_num); simpa using this
  refine ⟨o, h, by rw [h1]; exact mono_clear, ?_, rfl, ?_⟩
  · rw [h1, mono_layers]
    intro l hl i hi1 hi2
    obtain rfl : i = 1 := by omega
    obtain rfl : l = ((qp : ℂ), 1) := by simpa using hl
    have hinv : ‖(1 / ((qp : ℝ) : ℂ))‖ ≤ 1 := by
      rw [norm_div, qp_odd.norm_t, norm_one, div_le_one (by linarith [qp_odd.big])]; exact qp_odd.big
    rw [mul_one, qp_odd.psi1, qp_odd.zeta1]
    constructor
    · rw [div_eq_mul_one_div, norm_mul, qp_odd.norm_sin, one_mul]
      exact hinv.trans (by norm_num)
    · rw [norm_mul, qp_odd.norm_sin, mul_one]
      calc ‖1 / ((qp : ℝ) : ℂ) - I‖ ≤ ‖1 / ((qp : ℝ) : ℂ)‖ + ‖I‖ := norm_sub_le _ _
        _ ≤ 1 + 1 := by rw [norm_I]; linarith
        _ ≤ 1e30 := by norm_num
  · rw [h1]
    simp [monoParticle, c1]

/-- Size parameter 1, one order: the expansion is not empty and the plane wave does not vanish. -/
example : (1 : ℂ) * 1 * (1 : ℝ) ≠ 0 ∧ ‖(1 : ℂ) * 1 * (1 : ℝ)‖ ^ 2 ≤ (1 : ℕ) ∧ (planeE 1 (1 * 1) 1 (Real.pi / 2) 0).r ≠ 0 := by
  refine ⟨by simp, by simp, by simp [planeE]⟩

end MieDiff
