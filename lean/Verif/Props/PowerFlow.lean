import Verif.Proofs.PowerFlow
import Verif.Props.Analytic

/-!
# Power flow of the near fields and the cross sections (C74)

`cross_sections` (multishell.py:803-893) adds up coefficients; `nearfields` (multishell.py:1041-1291, 1294-1490) adds up vector
fields.  The theorems below integrate the Poynting vector of the fields over a sphere around the particle and recover the
cross sections.
-/

namespace MieDiff

open Complex Spec Filter Topology

local notation "conj" => starRingEnd ℂ

theorem continuous_smulr (m : ℝ) {f : ℝ → ℂ} (hf : Continuous f) : Continuous fun t => (m : ℂ) * f t := continuous_const.mul hf

theorem continuous_addf {f g : ℝ → ℂ} (hf : Continuous f) (hg : Continuous g) : Continuous fun t => f t + g t := hf.add hg

/-! ## The tangential fields outside in terms of the profiles -/

section
variable (k m : ℝ) (E0 : ℂ) (a b : List ℂ) (eps r t p : ℝ)

theorem host_Es : (hostFields k m E0 a b eps r t p).Es.eT t p =
      (Real.cos p : ℝ) * profT (scAl E0 a (k * r + eps : ℝ)) (scBe E0 b (k * r + eps : ℝ)) a.length t ∧
    (hostFields k m E0 a b eps r t p).Es.eP p =
      -((Real.sin p : ℝ) * profP (scAl E0 a (k * r + eps : ℝ)) (scBe E0 b (k * r + eps : ℝ)) a.length t) := by
  simp only [hostFields]
  obtain ⟨-, p2, p3⟩ := sumCart_parts t p ((List.range a.length).map fun i =>
    (outField (EnCoef E0 (i + 1)) (a.getD i 0) (b.getD i 0) (m : ℂ) (vshExact (i + 1) t p ((k : ℂ) * r + eps) (ricZeta (i + 1)))).1)
  rw [p2, p3, List.map_map, List.map_map, sum_range_map, sum_range_map, profT, profP, Finset.mul_sum, Finset.mul_sum,
    ← Finset.sum_neg_distrib]
  refine ⟨Finset.sum_congr rfl fun i _ => ?_, Finset.sum_congr rfl fun i _ => ?_⟩
  · simp only [Function.comp, outField, V3.smul, V3.add, vshExact, vshOrder, scAl, scBe]
    push_cast
    ring
  · simp only [Function.comp, outField, V3.smul, V3.add, vshExact, vshOrder, scAl, scBe]
    push_cast
    ring

theorem host_Hs : (hostFields k m E0 a b eps r t p).Hs.eT t p =
      (Real.sin p : ℝ) * (m * profT (scAl E0 b (k * r + eps : ℝ)) (scBe E0 a (k * r + eps : ℝ)) a.length t) ∧
    (hostFields k m E0 a b eps r t p).Hs.eP p =
      (Real.cos p : ℝ) * (m * profP (scAl E0 b (k * r + eps : ℝ)) (scBe E0 a (k * r + eps : ℝ)) a.length t) := by
  simp only [hostFields]
  obtain ⟨-, p2, p3⟩ := sumCart_parts t p ((List.range a.length).map fun i =>
    (outField (EnCoef E0 (i + 1)) (a.getD i 0) (b.getD i 0) (m : ℂ) (vshExact (i + 1) t p ((k : ℂ) * r + eps) (ricZeta (i + 1)))).2)
  rw [p2, p3, List.map_map, List.map_map, sum_range_map, sum_range_map, profT, profP, Finset.mul_sum, Finset.mul_sum,
    Finset.mul_sum, Finset.mul_sum]
  refine ⟨Finset.sum_congr rfl fun i _ => ?_, Finset.sum_congr rfl fun i _ => ?_⟩
  · simp only [Function.comp, outField, V3.smul, V3.add, vshExact, vshOrder, scAl, scBe]
    push_cast
    ring
  · simp only [Function.comp, outField, V3.smul, V3.add, vshExact, vshOrder, scAl, scBe]
    push_cast
    ring

theorem host_Ei : (hostFields k m E0 a b eps r t p).Ei.eT t p = (Real.cos p : ℝ) * inT E0 (k * r : ℝ) t ∧
    (hostFields k m E0 a b eps r t p).Ei.eP p = -((Real.sin p : ℝ) * inP E0 (k * r : ℝ) t) := by
  obtain ⟨-, h2, h3, -⟩ := C61_incident E0 k m r t p
  have e : I * (k : ℂ) * (r : ℂ) * (Real.cos t : ℝ) = I * (Real.cos t : ℝ) * ((k * r : ℝ) : ℂ) := by push_cast; ring
  simp only [hostFields]
  rw [h2, h3]
  simp only [planeE, inT, inP, e]
  push_cast
  exact ⟨by ring, by ring⟩

theorem host_Hi : (hostFields k m E0 a b eps r t p).Hi.eT t p = (Real.sin p : ℝ) * (m * inT E0 (k * r : ℝ) t) ∧
    (hostFields k m E0 a b eps r t p).Hi.eP p = (Real.cos p : ℝ) * (m * inP E0 (k * r : ℝ) t) := by
  obtain ⟨-, -, -, -, h2, h3⟩ := C61_incident E0 k m r t p
  have e : I * (k : ℂ) * (r : ℂ) * (Real.cos t : ℝ) = I * (Real.cos t : ℝ) * ((k * r : ℝ) : ℂ) := by push_cast; ring
  simp only [hostFields]
  rw [h2, h3]
  simp only [planeH, inT, inP, e]
  push_cast
  exact ⟨by ring, by ring⟩

end

/-! ## Cross sections as sums -/

theorem mpSum_re (k : ℝ) (g : ℂ → ℝ) (v : List ℂ) :
    (mpTerms (k : ℂ) (v.map fun z => (g z : ℂ))).sum =
      ((2 * Real.pi / k ^ 2 * ∑ i ∈ Finset.range v.length, (2 * (i : ℝ) + 3) * g (v.getD i 0) : ℝ) : ℂ) := by
  rw [mpTerms_sum, List.length_map]
  push_cast
  congr 1
  refine Finset.sum_congr rfl fun i hi => ?_
  have hi := Finset.mem_range.1 hi
  have e : (v.map fun z => (g z : ℂ)).getD i 0 = (g (v.getD i 0) : ℂ) := by simp [hi]
  rw [e]
  ring

theorem csSca_sum (k rS : ℝ) (a b : List ℂ) (hab : b.length = a.length) :
    (crossSections (k : ℂ) rS a b).csSca = 2 * Real.pi / k ^ 2 *
      ∑ i ∈ Finset.range a.length, (2 * (i : ℝ) + 3) * (‖a.getD i 0‖ ^ 2 + ‖b.getD i 0‖ ^ 2) := by
  simp only [crossSections]
  rw [mpSum_re k (fun z => ‖z‖ ^ 2), mpSum_re k (fun z => ‖z‖ ^ 2), hab, ← ofReal_add, ofReal_re, ← mul_add,
    ← Finset.sum_add_distrib]
  simp only [mul_add]

theorem csExt_sum (k rS : ℝ) (a b : List ℂ) (hab : b.length = a.length) :
    (crossSections (k : ℂ) rS a b).csExt = 2 * Real.pi / k ^ 2 *
      ∑ i ∈ Finset.range a.length, (2 * (i : ℝ) + 3) * ((a.getD i 0).re + (b.getD i 0).re) := by
  simp only [crossSections]
  rw [mpSum_re k Complex.re, mpSum_re k Complex.re, hab, ← ofReal_add, ofReal_re, ← mul_add,
    ← Finset.sum_add_distrib]
  simp only [mul_add]

/-! ## The three fluxes -/

theorem re_sum_mul (N : ℕ) (f : ℕ → ℂ) (c : ℕ → ℝ) :
    (∑ i ∈ Finset.range N, f i * (c i : ℂ)).re = ∑ i ∈ Finset.range N, (f i).re * c i := by
  rw [re_sum]
  refine Finset.sum_congr rfl fun i _ => ?_
  rw [mul_comm, re_ofReal_mul, mul_comm]

/-- Flux of the scattered field through every sphere. -/
theorem flux_scattered (k m : ℝ) (hk : k ≠ 0) (E0 : ℂ) (a b : List ℂ) (hab : b.length = a.length) (rS : ℝ) {eps r : ℝ}
    (hx : k * r + eps ≠ 0) :
    (k * r + eps) ^ 2 * sphereFlux (fun t p => (hostFields k m E0 a b eps r t p).Es) (fun t p => (hostFields k m E0 a b eps r t p).Hs) =
      k ^ 2 * (m * ‖E0‖ ^ 2 * (crossSections (k : ℂ) rS a b).csSca) := by
  have cT := fun c d : List ℂ => continuous_profT (scAl E0 c (k * r + eps : ℝ)) (scBe E0 d (k * r + eps : ℝ)) a.length
  have cP := fun c d : List ℂ => continuous_profP (scAl E0 c (k * r + eps : ℝ)) (scBe E0 d (k * r + eps : ℝ)) a.length
  rw [sphereFlux_form (cT a b) (cP a b) (continuous_smulr m (cT b a)) (continuous_smulr m (cP b a))
    (fun t p => (host_Es k m E0 a b eps r t p).1) (fun t p => (host_Es k m E0 a b eps r t p).2)
    (fun t p => (host_Hs k m E0 a b eps r t p).1) (fun t p => (host_Hs k m E0 a b eps r t p).2), fluxForm_smul_right,
    fluxForm_prof _ _ _ _ le_rfl, re_ofReal_mul, re_sum_mul, csSca_sum k rS a b hab]
  have key : ∀ i ∈ Finset.range a.length, (scAl E0 a (k * r + eps : ℝ) i * conj (scBe E0 a (k * r + eps : ℝ) i) +
      scBe E0 b (k * r + eps : ℝ) i * conj (scAl E0 b (k * r + eps : ℝ) i)).re * angNorm i =
      2 * ‖E0‖ ^ 2 / (k * r + eps) ^ 2 * ((2 * (i : ℝ) + 3) * (‖a.getD i 0‖ ^ 2 + ‖b.getD i 0‖ ^ 2)) := by
    intro i _
    have h1 := channel_sca E0 a hx i
    have h2 := channel_sca E0 b hx i
    have e : (scBe E0 b (k * r + eps : ℝ) i * conj (scAl E0 b (k * r + eps : ℝ) i)).re =
        (scAl E0 b (k * r + eps : ℝ) i * conj (scBe E0 b (k * r + eps : ℝ) i)).re := by
      rw [← conj_re, map_mul, Complex.conj_conj, mul_comm]
    rw [add_re, e]
    linear_combination h1 + h2
  rw [Finset.sum_congr rfl key, ← Finset.mul_sum]
  field_simp

/-- Interference of the incident and the scattered field, one channel. -/
noncomputable def crossTerm (E0 : ℂ) (c : List ℂ) (x rho : ℝ) (i : ℕ) : ℝ :=
  (inAl E0 x i * conj (scBe E0 c rho i) + inBe E0 x i * conj (scAl E0 c rho i)).re * angNorm i

/-- Interference part of the flux. -/
theorem flux_cross (k m : ℝ) (E0 : ℂ) (a b : List ℂ) {eps r : ℝ} (hx : k * r ≠ 0) :
    sphereFlux (fun t p => (hostFields k m E0 a b eps r t p).Ei) (fun t p => (hostFields k m E0 a b eps r t p).Hs) +
    sphereFlux (fun t p => (hostFields k m E0 a b eps r t p).Es) (fun t p => (hostFields k m E0 a b eps r t p).Hi) =
      Real.pi * m * ∑ i ∈ Finset.range a.length, (crossTerm E0 a (k * r) (k * r + eps) i + crossTerm E0 b (k * r) (k * r + eps) i) := by
  have cT := fun c d : List ℂ => continuous_profT (scAl E0 c (k * r + eps : ℝ)) (scBe E0 d (k * r + eps : ℝ)) a.length
  have cP := fun c d : List ℂ => continuous_profP (scAl E0 c (k * r + eps : ℝ)) (scBe E0 d (k * r + eps : ℝ)) a.length
  have iT := continuous_inT E0 (k * r : ℝ)
  have iP := continuous_inP E0 (k * r : ℝ)
  have hx' : ((k * r : ℝ) : ℂ) ≠ 0 := by exact_mod_cast hx
  rw [sphereFlux_form iT iP (continuous_smulr m (cT b a)) (continuous_smulr m (cP b a))
    (fun t p => (host_Ei k m E0 a b eps r t p).1) (fun t p => (host_Ei k m E0 a b eps r t p).2)
    (fun t p => (host_Hs k m E0 a b eps r t p).1) (fun t p => (host_Hs k m E0 a b eps r t p).2),
    sphereFlux_form (cT a b) (cP a b) (continuous_smulr m iT) (continuous_smulr m iP)
    (fun t p => (host_Es k m E0 a b eps r t p).1) (fun t p => (host_Es k m E0 a b eps r t p).2)
    (fun t p => (host_Hi k m E0 a b eps r t p).1) (fun t p => (host_Hi k m E0 a b eps r t p).2),
    fluxForm_smul_right, fluxForm_smul_right, ← fluxForm_conj (P := inT E0 (k * r : ℝ)), re_ofReal_mul, re_ofReal_mul, conj_re,
    fluxForm_in E0 hx', fluxForm_in E0 hx', re_sum_mul, re_sum_mul]
  rw [show ∀ A B : ℝ, Real.pi * (m * A) + Real.pi * (m * B) = Real.pi * m * (A + B) by intros; ring, ← Finset.sum_add_distrib]
  congr 1
  refine Finset.sum_congr rfl fun i _ => ?_
  simp only [crossTerm, add_re]
  ring

theorem crossTerm_self (E0 : ℂ) (c : List ℂ) {x : ℝ} (hx : x ≠ 0) (i : ℕ) :
    crossTerm E0 c x x i = -(2 * (2 * (i : ℝ) + 3) * ‖E0‖ ^ 2 / x ^ 2 * (c.getD i 0).re) := by
  have h1 := channel_tot E0 c hx i
  have h2 := channel_sca E0 c hx i
  rw [add_re, add_mul] at h1
  unfold crossTerm
  linear_combination h1 - h2

theorem crossTerm_tendsto (E0 : ℂ) (c : List ℂ) {x : ℝ} (hx : x ≠ 0) (i : ℕ) :
    Tendsto (fun eps => crossTerm E0 c x (x + eps) i) (𝓝 0) (𝓝 (crossTerm E0 c x x i)) := by
  have hz : (x : ℂ) ≠ 0 := by exact_mod_cast hx
  have harg : Tendsto (fun eps : ℝ => ((x + eps : ℝ) : ℂ)) (𝓝 0) (𝓝 (x : ℂ)) := by
    have : Continuous fun eps : ℝ => ((x + eps : ℝ) : ℂ) := continuous_ofReal.comp (continuous_const.add continuous_id)
    have := this.tendsto 0
    rwa [add_zero] at this
  have z1 := ((hasDerivAt_ricZeta (i + 1) hz).continuousAt.tendsto.comp harg).div harg hz
  have z2 := ((hasDerivAt_dricZeta (i + 1) hz).continuousAt.tendsto.comp harg).div harg hz
  have al : Tendsto (fun eps : ℝ => scAl E0 c (x + eps : ℝ) i) (𝓝 0) (𝓝 (scAl E0 c x i)) := z2.const_mul _
  have be : Tendsto (fun eps : ℝ => scBe E0 c (x + eps : ℝ) i) (𝓝 0) (𝓝 (scBe E0 c x i)) := (z1.const_mul _).neg
  have cc := Complex.continuous_conj
  unfold crossTerm
  exact (((continuous_re.tendsto _).comp ((((cc.tendsto _).comp be).const_mul _).add
    (((cc.tendsto _).comp al).const_mul _)))).mul_const _

/-- The total flux is the sum of the interference and of the scattered flux. -/
theorem flux_total (k m : ℝ) (E0 : ℂ) (a b : List ℂ) (eps r : ℝ) :
    sphereFlux (fun t p => (hostFields k m E0 a b eps r t p).Et) (fun t p => (hostFields k m E0 a b eps r t p).Ht) =
      (sphereFlux (fun t p => (hostFields k m E0 a b eps r t p).Ei) (fun t p => (hostFields k m E0 a b eps r t p).Hs) +
      sphereFlux (fun t p => (hostFields k m E0 a b eps r t p).Es) (fun t p => (hostFields k m E0 a b eps r t p).Hi)) +
      sphereFlux (fun t p => (hostFields k m E0 a b eps r t p).Es) (fun t p => (hostFields k m E0 a b eps r t p).Hs) := by
  have cT := fun c d : List ℂ => continuous_profT (scAl E0 c (k * r + eps : ℝ)) (scBe E0 d (k * r + eps : ℝ)) a.length
  have cP := fun c d : List ℂ => continuous_profP (scAl E0 c (k * r + eps : ℝ)) (scBe E0 d (k * r + eps : ℝ)) a.length
  have iT := continuous_inT E0 (k * r : ℝ)
  have iP := continuous_inP E0 (k * r : ℝ)
  have mT := fun c d : List ℂ => continuous_smulr m (cT c d)
  have mP := fun c d : List ℂ => continuous_smulr m (cP c d)
  have jT := continuous_smulr m iT
  have jP := continuous_smulr m iP
  have eEt : ∀ t p, (hostFields k m E0 a b eps r t p).Et = (hostFields k m E0 a b eps r t p).Es.add (hostFields k m E0 a b eps r t p).Ei :=
    fun _ _ => rfl
  have eHt : ∀ t p, (hostFields k m E0 a b eps r t p).Ht = (hostFields k m E0 a b eps r t p).Hs.add (hostFields k m E0 a b eps r t p).Hi :=
    fun _ _ => rfl
  have hs := sphereFlux_form (cT a b) (cP a b) (mT b a) (mP b a)
    (fun t p => (host_Es k m E0 a b eps r t p).1) (fun t p => (host_Es k m E0 a b eps r t p).2)
    (fun t p => (host_Hs k m E0 a b eps r t p).1) (fun t p => (host_Hs k m E0 a b eps r t p).2)
  have hi := sphereFlux_form iT iP (mT b a) (mP b a)
    (fun t p => (host_Ei k m E0 a b eps r t p).1) (fun t p => (host_Ei k m E0 a b eps r t p).2)
    (fun t p => (host_Hs k m E0 a b eps r t p).1) (fun t p => (host_Hs k m E0 a b eps r t p).2)
  have hj := sphereFlux_form (cT a b) (cP a b) jT jP
    (fun t p => (host_Es k m E0 a b eps r t p).1) (fun t p => (host_Es k m E0 a b eps r t p).2)
    (fun t p => (host_Hi k m E0 a b eps r t p).1) (fun t p => (host_Hi k m E0 a b eps r t p).2)
  have ht := sphereFlux_form (E := fun t p => (hostFields k m E0 a b eps r t p).Et) (H := fun t p => (hostFields k m E0 a b eps r t p).Ht)
    (continuous_addf (cT a b) iT) (continuous_addf (cP a b) iP) (continuous_addf (mT b a) jT) (continuous_addf (mP b a) jP)
    (fun t p => by
      rw [eEt, eT_add, (host_Es k m E0 a b eps r t p).1, (host_Ei k m E0 a b eps r t p).1]; ring)
    (fun t p => by
      rw [eEt, eP_add, (host_Es k m E0 a b eps r t p).2, (host_Ei k m E0 a b eps r t p).2]; ring)
    (fun t p => by
      rw [eHt, eT_add, (host_Hs k m E0 a b eps r t p).1, (host_Hi k m E0 a b eps r t p).1]; ring)
    (fun t p => by
      rw [eHt, eP_add, (host_Hs k m E0 a b eps r t p).2, (host_Hi k m E0 a b eps r t p).2]; ring)
  have ii : fluxForm (inT E0 (k * r : ℝ)) (inP E0 (k * r : ℝ)) (fun t => (m : ℂ) * inT E0 (k * r : ℝ) t)
      (fun t => (m : ℂ) * inP E0 (k * r : ℝ) t) = 0 := by
    rw [fluxForm_smul_right, fluxForm_in_in, mul_zero]
  have e1 := fluxForm_add_left (cT a b) (cP a b) iT iP (continuous_addf (mT b a) jT) (continuous_addf (mP b a) jP)
  have e2 := fluxForm_add_right (cT a b) (cP a b) jT jP (mT b a) (mP b a)
  have e3 := fluxForm_add_right iT iP jT jP (mT b a) (mP b a)
  rw [hs, hi, hj, ht, e1, e2, e3, ii]
  simp only [add_re, zero_re]
  ring

/-! ## C74 -/

theorem tendsto_of_eq {f : ℝ → ℝ} {l : Filter ℝ} {x y : ℝ} (h : Tendsto f l (𝓝 x)) (e : x = y) : Tendsto f l (𝓝 y) := e ▸ h

theorem tendsto_shift (x : ℝ) : Tendsto (fun eps : ℝ => x + eps) (𝓝 0) (𝓝 x) := by
  have h : Continuous fun eps : ℝ => x + eps := by fun_prop
  have := h.tendsto 0
  rwa [add_zero] at this

/-- Specification: power through the sphere of radius `r` around the particle, for the fields `F eps t p` of an incident wave of
amplitude `E0` in a host with wavenumber `k` and refractive index `n`.  `eps` is the shift that the code adds to `k r` in the
radial functions: the scattered power is exact for every shift, the other two are limits for a vanishing shift. -/
structure PowerBalance (k n : ℝ) (E0 : ℂ) (cs : CrossSections) (r : ℝ) (F : ℝ → ℝ → ℝ → Fields) : Prop where
  sca : ∀ eps : ℝ, 0 ≤ eps → ((k * r + eps) / k) ^ 2 * sphereFlux (fun t p => (F eps t p).Es) (fun t p => (F eps t p).Hs) =
    n * ‖E0‖ ^ 2 * cs.csSca
  ext : Tendsto (fun eps => r ^ 2 * (sphereFlux (fun t p => (F eps t p).Ei) (fun t p => (F eps t p).Hs) +
    sphereFlux (fun t p => (F eps t p).Es) (fun t p => (F eps t p).Hi))) (𝓝 0) (𝓝 (-(n * ‖E0‖ ^ 2 * cs.csExt)))
  abs : Tendsto (fun eps => r ^ 2 * sphereFlux (fun t p => (F eps t p).Et) (fun t p => (F eps t p).Ht)) (𝓝 0)
    (𝓝 (-(n * ‖E0‖ ^ 2 * cs.csAbs)))
  inc : ∀ eps : ℝ, sphereFlux (fun t p => (F eps t p).Ei) (fun t p => (F eps t p).Hi) = 0

/-- The fields outside balance the cross sections, for all coefficients. -/
theorem host_power {k : ℝ} (m : ℝ) (hk : 0 < k) (E0 : ℂ) {a b : List ℂ} (hab : b.length = a.length) (rS : ℝ) {r : ℝ}
    (hr : 0 < r) : PowerBalance k m E0 (crossSections (k : ℂ) rS a b) r (fun eps t p => hostFields k m E0 a b eps r t p) := by
  have hkr : k * r ≠ 0 := (mul_pos hk hr).ne'
  have hext : Tendsto (fun eps => r ^ 2 * (sphereFlux (fun t p => (hostFields k m E0 a b eps r t p).Ei)
        (fun t p => (hostFields k m E0 a b eps r t p).Hs) +
      sphereFlux (fun t p => (hostFields k m E0 a b eps r t p).Es) (fun t p => (hostFields k m E0 a b eps r t p).Hi)))
      (𝓝 0) (𝓝 (-(m * ‖E0‖ ^ 2 * (crossSections (k : ℂ) rS a b).csExt))) := by
    have h := ((tendsto_finsetSum (Finset.range a.length) fun i _ =>
      (crossTerm_tendsto E0 a hkr i).add (crossTerm_tendsto E0 b hkr i)).const_mul (Real.pi * m)).const_mul (r ^ 2)
    simp only [flux_cross k m E0 a b hkr]
    refine tendsto_of_eq h ?_
    rw [csExt_sum k rS a b hab]
    simp only [crossTerm_self E0 _ hkr]
    rw [Finset.sum_congr rfl fun (i : ℕ) _ => show -(2 * (2 * (i : ℝ) + 3) * ‖E0‖ ^ 2 / (k * r) ^ 2 * (a.getD i 0).re) +
        -(2 * (2 * (i : ℝ) + 3) * ‖E0‖ ^ 2 / (k * r) ^ 2 * (b.getD i 0).re) =
      -(2 * ‖E0‖ ^ 2 / (k * r) ^ 2) * ((2 * (i : ℝ) + 3) * ((a.getD i 0).re + (b.getD i 0).re)) by ring, ← Finset.mul_sum]
    field_simp
  have hsca : ∀ eps : ℝ, k * r + eps ≠ 0 → ((k * r + eps) / k) ^ 2 * sphereFlux (fun t p => (hostFields k m E0 a b eps r t p).Es)
      (fun t p => (hostFields k m E0 a b eps r t p).Hs) = m * ‖E0‖ ^ 2 * (crossSections (k : ℂ) rS a b).csSca := by
    intro eps he
    have h := flux_scattered k m hk.ne' E0 a b hab rS he
    rw [div_pow, div_mul_eq_mul_div, h]
    field_simp
  refine ⟨fun eps he => hsca eps (by positivity), hext, ?_, fun eps => ?_⟩
  · have hne : ∀ᶠ eps : ℝ in 𝓝 0, k * r + eps ≠ 0 := by
      exact (tendsto_shift (k * r)).eventually_ne hkr
    have hq : Tendsto (fun eps : ℝ => r ^ 2 * ((k / (k * r + eps)) ^ 2 * (m * ‖E0‖ ^ 2 * (crossSections (k : ℂ) rS a b).csSca))) (𝓝 0)
        (𝓝 (m * ‖E0‖ ^ 2 * (crossSections (k : ℂ) rS a b).csSca)) := by
      have h1 := tendsto_shift (k * r)
      have h2 := ((((tendsto_const_nhds (x := k)).div h1 hkr).pow 2).mul_const
        (m * ‖E0‖ ^ 2 * (crossSections (k : ℂ) rS a b).csSca)).const_mul (r ^ 2)
      refine tendsto_of_eq h2 ?_
      field_simp
    have := (hext.add hq).congr' (f₂ := fun eps => r ^ 2 * sphereFlux (fun t p => (hostFields k m E0 a b eps r t p).Et)
      (fun t p => (hostFields k m E0 a b eps r t p).Ht)) (by
        filter_upwards [hne] with eps he
        rw [flux_total, ← hsca eps he, ← mul_assoc ((k / (k * r + eps)) ^ 2), ← mul_pow,
          show k / (k * r + eps) * ((k * r + eps) / k) = 1 by rw [div_mul_div_cancel₀ he, div_self hk.ne']]
        ring)
    refine tendsto_of_eq this ?_
    rw [abs_ext_sca]
    ring
  · have h := sphereFlux_form (continuous_inT E0 (k * r : ℝ)) (continuous_inP E0 (k * r : ℝ))
      (continuous_smulr m (continuous_inT E0 (k * r : ℝ))) (continuous_smulr m (continuous_inP E0 (k * r : ℝ)))
      (fun t p => (host_Ei k m E0 a b eps r t p).1) (fun t p => (host_Ei k m E0 a b eps r t p).2)
      (fun t p => (host_Hi k m E0 a b eps r t p).1) (fun t p => (host_Hi k m E0 a b eps r t p).2)
    rw [h, fluxForm_smul_right, fluxForm_in_in]
    simp

/-- C74, torch and scipy backends: outside the particle `nearfields` returns fields whose power through every sphere around the
particle gives the cross sections computed by `cross_sections` from the same coefficients: scattered field - scattering, interference
- extinction, total field - absorption, incident field - nothing. -/
theorem C74_core_shell {K : D1Kernel} {B : Backends} {p : Particle1} {backend w : String} {nMax : Option ℤ} {o : MieOut}
    (hb : backend.toLower = "torch" ∨ backend.toLower = "scipy") (h : mieCoefficients K B p backend w nMax true = .ok o)
    (hne : o.a ≠ []) {k0 e0 : ℝ} (hp : RealHost p k0 e0) (E0 : ℂ) {Bc Bs B2 Bo : BesselBackend}
    (hBc : ∀ z, z ≠ 0 → ExactAt Bc o.a.length z) (hBs : ∀ z, z ≠ 0 → ExactAt Bs o.a.length z)
    (hB2 : ∀ z, z ≠ 0 → ExactAt B2 o.a.length z) (hBo : ∀ z, z ≠ 0 → ExactAt Bo o.a.length z) :
    ∃ co, o.internal = some co ∧ (∀ (eps : ℝ) (v : V3 ℝ), 0 < eps → o.rS < v.dist →
      nearfieldsTorch Bc Bs B2 Bo p.k0 o.k (csqrt o.epsC) (csqrt o.epsS) o.nEnv o.rC o.rS E0 co v eps =
        .ok (hostFields (k0 * Real.sqrt e0 : ℝ) (Real.sqrt e0 : ℝ) E0 o.a o.b eps v.dist v.polar v.azimuth)) ∧
      ∀ r : ℝ, o.rS < r → PowerBalance (k0 * Real.sqrt e0) (Real.sqrt e0) E0 (crossSections o.k o.rS o.a o.b) r
        (fun eps t p => hostFields (k0 * Real.sqrt e0 : ℝ) (Real.sqrt e0 : ℝ) E0 o.a o.b eps r t p) := by
  obtain ⟨co, hco, hF⟩ := torch_outside hb h hne hp E0 hBc hBs hB2 hBo
  obtain ⟨-, -, hL, n, out, rfl⟩ := mieCoefficients_cs_meta hb h
  have hnE : (p.meta n out true).nEnv = (Real.sqrt e0 : ℝ) := by
    show csqrt p.epsEnv = _
    rw [hp.env_eq, csqrt_ofReal hp.env_pos.le]
  have hk : (p.meta n out true).k = ((k0 * Real.sqrt e0 : ℝ) : ℂ) := realHost_k hp
  refine ⟨co, hco, fun eps v he hv => ?_, fun r hr => ?_⟩
  · rw [hF eps v he hv, hnE]
  · rw [hk]
    have h0 : 0 ≤ (p.meta n out true).rS := by
      show 0 ≤ p.rLayers.getLastD 0
      rcases hrl : p.rLayers with _ | ⟨r0, rs⟩
      · simp
      · have := hp.radii ((r0 :: rs).getLast (by simp)) (by rw [hrl]; exact List.getLast_mem _)
        rw [List.getLastD_eq_getLast?, List.getLast?_eq_getLast_of_ne_nil (by simp)]
        exact this.le
    refine host_power _ (mul_pos hp.k0_pos (Real.sqrt_pos.2 hp.env_pos)) E0 ?_ _ (lt_of_le_of_lt h0 hr)
    simp [Particle1.meta]

/-- C74, pena backend with the exact logarithmic derivative: the same for any number of layers and all coefficients, at the
positions where the guards of the radial functions are inactive. -/
theorem C74_pena {p : Particle1} {k0 e0 : ℝ} (hp : RealHost p k0 e0) (hne : p.rLayers ≠ [])
    (hinc : strictlyIncreasing p.rLayers) (hlen : p.epsLayers.length = p.rLayers.length) {a b : List ℂ} (ha : a ≠ [])
    (hab : b.length = a.length) (E0 : ℂ) :
    (∀ (eps : ℝ) (v : V3 ℝ), p.rLayers.getLastD 0 < v.dist →
      KernelOK a.length (k0 * Real.sqrt e0 * v.dist + eps : ℝ) solverEps →
      nearfieldsPena idealD1 p.k0 p.rLayers p.epsLayers p.epsEnv E0 a b v eps =
        .ok (hostFields (k0 * Real.sqrt e0 : ℝ) (Real.sqrt e0 : ℝ) E0 a b eps v.dist v.polar v.azimuth)) ∧
    ∀ r : ℝ, p.rLayers.getLastD 0 < r → PowerBalance (k0 * Real.sqrt e0) (Real.sqrt e0) E0
      (crossSections (p.k0 * csqrt p.epsEnv) (p.rLayers.getLastD 0) a b) r
        (fun eps t ph => hostFields (k0 * Real.sqrt e0 : ℝ) (Real.sqrt e0 : ℝ) E0 a b eps r t ph) := by
  have hnE : csqrt p.epsEnv = (Real.sqrt e0 : ℝ) := by rw [hp.env_eq, csqrt_ofReal hp.env_pos.le]
  refine ⟨fun eps v hv hker => ?_, fun r hr => ?_⟩
  · rw [pena_outside hp hne hinc hlen ha hab E0 hv hker, hnE]
  · rw [realHost_k hp]
    have h0 : 0 < p.rLayers.getLastD 0 := by
      rw [List.getLastD_eq_getLast?, List.getLast?_eq_getLast_of_ne_nil hne]
      exact hp.radii _ (List.getLast_mem hne)
    exact host_power _ (mul_pos hp.k0_pos (Real.sqrt_pos.2 hp.env_pos)) E0 hab _ (h0.trans hr)

/-- `C74_core_shell` applies: a core-shell particle with three orders, the power absorbed from a wave of unit amplitude found on
the sphere of twice the outer radius. -/
example : ∃ o co, mieCoefficients idealD1 exactBackends demoParticle "torch" "recurrence" (some ((2 + 1 : ℕ) : ℤ)) true = .ok o ∧
    o.internal = some co ∧ ∃ F : ℝ → ℝ → ℝ → ℝ → Fields,
    (∀ (eps : ℝ) (v : V3 ℝ), 0 < eps → o.rS < v.dist →
      nearfieldsTorch exactBessel exactBessel exactBessel exactBessel demoParticle.k0 o.k (csqrt o.epsC) (csqrt o.epsS) o.nEnv o.rC
        o.rS 1 co v eps = .ok (F eps v.dist v.polar v.azimuth)) ∧
    ∀ r, o.rS < r → Tendsto (fun eps => r ^ 2 * sphereFlux (fun t p => (F eps r t p).Et) (fun t p => (F eps r t p).Ht)) (𝓝 0)
      (𝓝 (-(crossSections o.k o.rS o.a o.b).csAbs)) := by
  obtain ⟨o, h, hl⟩ := demo_torch_run 2
  obtain ⟨co, hco, hF, hP⟩ := C74_core_shell (Or.inl (by decide +kernel)) h (by intro h0; rw [h0] at hl; simp at hl)
    demo_realHost 1 (fun z hz => exactBessel_at hz) (fun z hz => exactBessel_at hz) (fun z hz => exactBessel_at hz)
    (fun z hz => exactBessel_at hz)
  refine ⟨o, co, h, hco, _, hF, fun r hr => ?_⟩
  have := (hP r hr).abs
  simpa using this

/-- `C74_pena` applies: any coefficients of two orders for the same particle; the scattered power is positive as soon as one
coefficient is nonzero. -/
example (a b : ℂ) : PowerBalance (1 * Real.sqrt 1) (Real.sqrt 1) 1
    (crossSections (demoParticle.k0 * csqrt demoParticle.epsEnv) (demoParticle.rLayers.getLastD 0) [a, 0] [0, b]) (3 * qp)
    (fun eps t ph => hostFields (1 * Real.sqrt 1 : ℝ) (Real.sqrt 1 : ℝ) 1 [a, 0] [0, b] eps (3 * qp) t ph) := by
  have hq := qp_odd.big
  exact (C74_pena demo_realHost (by simp [demoParticle])
    (by simp only [demoParticle, strictlyIncreasing]; exact ⟨by linarith, trivial⟩) rfl (a := [a, 0]) (b := [0, b]) (by simp) rfl
    1).2 (3 * qp) (by simp [demoParticle]; linarith)

end MieDiff
