import Verif.Props.Phase
import Verif.Props.Poynting

/-!
# C105: weak absorption in a lossless particle

A lossless particle absorbs nothing.  To first order in the imaginary part of the permittivity of one of its layers it absorbs what the
field of the lossless particle dissipates in this layer.
-/

namespace MieDiff

open Complex Spec Filter Topology MeasureTheory intervalIntegral
open scoped ComplexConjugate

section
variable {p : Particle1} {k0 e0 : ℝ} {j N : ℕ} {W : ℕ → ℕ → Pol → Wave}

theorem fluxLoss_eq_intensity (q : Pol) (n : ℕ) {m : ℂ} (hm : m ≠ 0) (w : Wave) {r : ℝ} (hr : 0 < r) :
    fluxLoss q w n m r = intensity q n m w r := by
  have hm' : normSq m ≠ 0 := by simpa using hm
  cases q
  · simp only [fluxLoss, intensity, ← normSq_eq_norm_sq, map_div₀, map_mul, map_pow, normSq_ofReal]
    field_simp
  · simp only [fluxLoss, intensity, ← normSq_eq_norm_sq, map_div₀]

/-- What a channel of a lossless particle absorbs, to first order. -/
theorem absorbed_fderiv {f : ℂ → ℂ} {ε : ℂ} {κ : ℝ} (hd : HasDerivAt f (-I * (1 - 2 * f ε) * κ) ε) (h1 : ‖1 - 2 * f ε‖ = 1) :
    HasFDerivAt (fun e => (f e).re - ‖f e‖ ^ 2) (κ • imCLM) ε := by
  have hf := hd.hasFDerivAt.restrictScalars ℝ
  have hre := reCLM.hasFDerivAt.comp ε hf
  have him := imCLM.hasFDerivAt.comp ε hf
  have hs : (1 - 2 * (f ε).re) ^ 2 + (2 * (f ε).im) ^ 2 = 1 := by
    have h2 : normSq (1 - 2 * f ε) = 1 := by rw [normSq_eq_norm_sq, h1, one_pow]
    rw [normSq_apply] at h2
    simp only [sub_re, one_re, mul_re, re_ofNat, im_ofNat, sub_im, one_im, mul_im] at h2
    linear_combination h2
  have h := hre.sub ((hre.pow 2).add (him.pow 2))
  refine (h.congr_of_eventuallyEq (Eventually.of_forall fun e => ?_)).congr_fderiv ?_
  · simp only [Pi.sub_apply, Pi.add_apply, Function.comp_apply, reCLM_apply, imCLM_apply, ← normSq_eq_norm_sq, normSq_apply]
    ring
  · ext h
    simp [mul_re, mul_im]
    linear_combination κ * h.im * hs

theorem layerIntensity_integrable (hp : TransparentAt p k0 e0) {q : Pol} {n : ℕ} {V : ℕ → Wave} (h : ChannelWaves p q n V)
    (hj : j < p.rLayers.length) :
    IntervalIntegrable (intensity q n (p.indices.getD j 0) (V j)) volume (p.size (k0 * Real.sqrt e0) j)
      (p.size (k0 * Real.sqrt e0) (j + 1)) := by
  have hp' := hp.particle
  obtain ⟨hS, hw⟩ := transparent_waves hp h
  obtain ⟨v, h1, h2⟩ := hw j hj.le
  have hm := indices_ne hp'.host hp'.len hp'.nonzero hj.le
  have h0 : 0 ≤ p.size (k0 * Real.sqrt e0) j ∧ (0 < p.size (k0 * Real.sqrt e0) j ∨ (V j).a = 0) := by
    rcases Nat.eq_zero_or_pos j with rfl | hpos
    · exact ⟨(size_zero p _).ge, .inr h.core⟩
    · obtain ⟨i, rfl⟩ : ∃ i, j = i + 1 := ⟨j - 1, by omega⟩
      have := mul_pos (mul_pos hp'.host.k0_pos (Real.sqrt_pos.2 hp'.host.env_pos)) (radius_pos hp'.host (show i < p.rLayers.length by omega))
      exact ⟨this.le, .inl this⟩
  exact intensity_integrable q n hm h0.1 (size_lt hp'.host hp'.inc hj).le h0.2 hS
    fun r hr => overlap_phase (index_real hp hj.le) hm h1 h2 hS hr

theorem sphereNorm2_intensity (E0 n : ℂ) {m : ℂ} (hm : m ≠ 0) {k r : ℝ} (hk : 0 < k) (hr : 0 < r) (N : ℕ) (w : ℕ → Pol → Wave) :
    r ^ 2 * sphereNorm2 (multiE E0 n (m * ((k * r : ℝ) : ℂ)) N w) = 2 * Real.pi * ‖E0‖ ^ 2 / k ^ 2 *
      ∑ i ∈ Finset.range N, (2 * (i : ℝ) + 3) *
        (intensity .tm (i + 1) m (w (i + 1) .tm) (k * r) + intensity .te (i + 1) m (w (i + 1) .te) (k * r)) := by
  have h := sphereNorm2_multi E0 n hm (mul_pos hk hr) N w
  have hl : lossSum N w m (k * r) = ∑ i ∈ Finset.range N, (2 * (i : ℝ) + 3) *
        (intensity .tm (i + 1) m (w (i + 1) .tm) (k * r) + intensity .te (i + 1) m (w (i + 1) .te) (k * r)) := by
    unfold lossSum
    simp only [fluxLoss_eq_intensity _ _ hm _ (mul_pos hk hr)]
  rw [← hl]
  generalize sphereNorm2 (multiE E0 n (m * ((k * r : ℝ) : ℂ)) N w) = S at h ⊢
  generalize lossSum N w m (k * r) = L at h ⊢
  rw [div_mul_eq_mul_div, eq_div_iff (by positivity), ← h]
  ring

/-- The field in a layer, in terms of its channels. -/
theorem dissipated_intensity (hp : TransparentAt p k0 e0) (hW : ∀ i < N, ∀ q, ChannelWaves p q (i + 1) fun j => W j (i + 1) q)
    (hj : j < p.rLayers.length) (E0 : ℂ) :
    dissipated k0 I (p.radius j) (p.radius (j + 1)) (layerE p E0 N W 0 j) =
      2 * Real.pi * ‖E0‖ ^ 2 / (k0 ^ 2 * Real.sqrt e0 ^ 3) * ∑ i ∈ Finset.range N, (2 * (i : ℝ) + 3) *
        (layerIntensity p (k0 * Real.sqrt e0) .tm (i + 1) (fun j => W j (i + 1) .tm) j +
          layerIntensity p (k0 * Real.sqrt e0) .te (i + 1) (fun j => W j (i + 1) .te) j) := by
  have hp' := hp.particle
  have hk0 := hp'.host.k0_pos
  have hnp : 0 < Real.sqrt e0 := Real.sqrt_pos.2 hp'.host.env_pos
  have hnE : csqrt p.epsEnv = (Real.sqrt e0 : ℝ) := by rw [hp'.host.env_eq, csqrt_ofReal hp'.host.env_pos.le]
  set ne := Real.sqrt e0 with hne
  have hkn : 0 < k0 * ne := mul_pos hk0 hnp
  set m : ℂ := p.indices.getD j 0 with hmdef
  have hm : m ≠ 0 := indices_ne hp'.host hp'.len hp'.nonzero hj.le
  have hmed : csqrt (p.epsLayers.getD j 0) = m * (ne : ℂ) := by
    rw [← media_layer (by rw [hp'.len]; exact hj), media_indices hp'.len (by rw [hnE]; exact_mod_cast hnp.ne') hj.le, hnE]
  have hlt := radius_lt hp'.host hp'.inc hj
  have hr0 : 0 ≤ p.radius j := by
    cases j with
    | zero => simp [Particle1.radius]
    | succ j => exact (radius_pos hp'.host (by omega)).le
  have e : ∀ r ∈ Set.uIoc (p.radius j) (p.radius (j + 1)), r ^ 2 * sphereNorm2 (layerE p E0 N W 0 j r) =
      2 * Real.pi * ‖E0‖ ^ 2 / (k0 * ne) ^ 2 * (fun x => ∑ i ∈ Finset.range N, (2 * (i : ℝ) + 3) *
        (intensity .tm (i + 1) m (W j (i + 1) .tm) x + intensity .te (i + 1) m (W j (i + 1) .te) x)) (k0 * ne * r) := by
    intro r hr
    rw [Set.uIoc_of_le hlt.le] at hr
    have hE : layerE p E0 N W 0 j r = multiE E0 (m * ne) (m * ((k0 * ne * r : ℝ) : ℂ)) N (W j) := by
      funext t ph
      have hz : (k0 : ℂ) * (m * ne) * r = m * ((k0 * ne * r : ℝ) : ℂ) := by push_cast; ring
      rw [← hz]
      unfold layerE
      rw [hmed, hp'.host.k0_eq, ofReal_zero, add_zero]
    rw [hE]
    exact sphereNorm2_intensity E0 _ hm hkn (lt_of_le_of_lt hr0 hr.1) N (W j)
  have hint : ∀ i < N, ∀ q, IntervalIntegrable (intensity q (i + 1) m (W j (i + 1) q)) volume (k0 * ne * p.radius j)
      (k0 * ne * p.radius (j + 1)) := by
    intro i hi q
    have h := layerIntensity_integrable hp (hW i hi q) hj
    simp only [Particle1.size, ← hmdef, ← hne] at h
    exact h
  have hsum : ∫ x in k0 * ne * p.radius j..k0 * ne * p.radius (j + 1), ∑ i ∈ Finset.range N, (2 * (i : ℝ) + 3) *
        (intensity .tm (i + 1) m (W j (i + 1) .tm) x + intensity .te (i + 1) m (W j (i + 1) .te) x) =
      ∑ i ∈ Finset.range N, (2 * (i : ℝ) + 3) *
        (layerIntensity p (k0 * ne) .tm (i + 1) (fun j => W j (i + 1) .tm) j +
          layerIntensity p (k0 * ne) .te (i + 1) (fun j => W j (i + 1) .te) j) := by
    rw [intervalIntegral.integral_finsetSum fun i hi =>
      ((hint i (Finset.mem_range.1 hi) .tm).add (hint i (Finset.mem_range.1 hi) .te)).const_mul _]
    refine Finset.sum_congr rfl fun i hi => ?_
    rw [intervalIntegral.integral_const_mul,
      intervalIntegral.integral_add (hint i (Finset.mem_range.1 hi) .tm) (hint i (Finset.mem_range.1 hi) .te)]
    rfl
  unfold dissipated
  rw [intervalIntegral.integral_congr_ae (Eventually.of_forall e), intervalIntegral.integral_const_mul,
    intervalIntegral.integral_comp_mul_left (fun x => ∑ i ∈ Finset.range N, (2 * (i : ℝ) + 3) *
        (intensity .tm (i + 1) m (W j (i + 1) .tm) x + intensity .te (i + 1) m (W j (i + 1) .te) x)) hkn.ne', hsum]
  generalize (∑ i ∈ Finset.range N, (2 * (i : ℝ) + 3) *
        (layerIntensity p (k0 * ne) .tm (i + 1) (fun j => W j (i + 1) .tm) j +
          layerIntensity p (k0 * ne) .te (i + 1) (fun j => W j (i + 1) .te) j)) = S
  rw [I_im, smul_eq_mul]
  field_simp

/-- C105: a lossless particle absorbs nothing, and the absorption cross section has, as function of the complex permittivity of layer
`j`, a derivative which only sees imaginary changes.  Its size `D` times the power density `n |E0|^2` of the incident wave is the power
that the field of the lossless particle dissipates in this layer per unit of the imaginary part; it is positive. -/
theorem C105_absorption {o : ℂ → MieOut} (hp : TransparentAt p k0 e0) (hj : j < p.rLayers.length)
    (hr : ∀ᶠ e in 𝓝 (p.epsLayers.getD j 0), ExactRun (p.withEps j e) (o e) ∧ (o e).nMax.toNat = N)
    (hW : ∀ i < N, ∀ q, ChannelWaves p q (i + 1) fun j => W j (i + 1) q) :
    ∃ D : ℝ, HasFDerivAt (fun e => (crossSections (o e).k (o e).rS (o e).a (o e).b).csAbs) (D • imCLM) (p.epsLayers.getD j 0) ∧
      (∀ E0 : ℂ, Real.sqrt e0 * ‖E0‖ ^ 2 * D =
        dissipated k0 I (p.radius j) (p.radius (j + 1)) (layerE p E0 N W 0 j)) ∧
      (1 ≤ N → 0 < D) ∧
      (crossSections (o (p.epsLayers.getD j 0)).k (o (p.epsLayers.getD j 0)).rS (o (p.epsLayers.getD j 0)).a
        (o (p.epsLayers.getD j 0)).b).csAbs = 0 := by
  have hp' := hp.particle
  have hj' : j < p.epsLayers.length := by rw [hp'.len]; exact hj
  set ε := p.epsLayers.getD j 0 with hε
  have he0 := hp'.host.env_pos
  have hk0 := hp'.host.k0_pos
  have hsq : Real.sqrt e0 ^ 2 = e0 := Real.sq_sqrt he0.le
  have hnp : 0 < Real.sqrt e0 := Real.sqrt_pos.2 he0
  have hpi := Real.pi_pos
  -- the absorption cross section as a sum
  have habs : ∀ᶠ e in 𝓝 ε, (crossSections (o e).k (o e).rS (o e).a (o e).b).csAbs = 2 * Real.pi / (k0 * Real.sqrt e0) ^ 2 *
      ∑ i ∈ Finset.range N, (2 * (i : ℝ) + 3) *
        (((o e).a.getD i 0).re - ‖(o e).a.getD i 0‖ ^ 2 + (((o e).b.getD i 0).re - ‖(o e).b.getD i 0‖ ^ 2)) := by
    filter_upwards [hr] with e h
    have hk : (o e).k = ((k0 * Real.sqrt e0 : ℝ) : ℂ) := by
      rw [h.1.k]; exact (realHost_k hp'.host : p.k0 * csqrt p.epsEnv = _)
    have hab : (o e).b.length = (o e).a.length := by rw [h.1.lenA, h.1.lenB]
    have h1 := C05_ext_eq_sca_add_abs (o e).k (o e).rS (o e).a (o e).b
    rw [eq_sub_of_add_eq' h1.symm, hk, csExt_sum _ _ _ _ hab, csSca_sum _ _ _ _ hab, h.1.lenA, h.2, ← mul_sub, ← Finset.sum_sub_distrib]
    congr 1
    refine Finset.sum_congr rfl fun i _ => ?_
    ring
  obtain ⟨r1, r2⟩ := hr.self_of_nhds
  rw [withEps_self p hj'] at r1
  have hun : ∀ i < N, ‖1 - 2 * (o ε).a.getD i 0‖ = 1 ∧ ‖1 - 2 * (o ε).b.getD i 0‖ = 1 := by
    intro i hi
    obtain ⟨g1, g2⟩ := run_getD r1 (layers_ne hp'.host hp'.nonzero) (i := i) (by omega)
    rw [g1, g2]
    exact ⟨(C96_response hp (hW i hi .tm) (by omega) hj).1, (C96_response hp (hW i hi .te) (by omega) hj).1⟩
  have hz : ∀ z : ℂ, ‖1 - 2 * z‖ = 1 → z.re - ‖z‖ ^ 2 = 0 := by
    intro z h
    have h2 : normSq (1 - 2 * z) = 1 := by rw [normSq_eq_norm_sq, h, one_pow]
    rw [normSq_apply] at h2
    simp only [sub_re, one_re, mul_re, re_ofNat, im_ofNat, sub_im, one_im, mul_im] at h2
    rw [← normSq_eq_norm_sq, normSq_apply]
    linear_combination (-1 / 4 : ℝ) * h2
  refine ⟨2 * Real.pi / (k0 * Real.sqrt e0) ^ 2 * ∑ i ∈ Finset.range N, (2 * (i : ℝ) + 3) *
      (layerIntensity p (k0 * Real.sqrt e0) .tm (i + 1) (fun j => W j (i + 1) .tm) j / e0 +
        layerIntensity p (k0 * Real.sqrt e0) .te (i + 1) (fun j => W j (i + 1) .te) j / e0), ?_, fun E0 => ?_, fun hN => ?_, ?_⟩
  · have hterm : ∀ i ∈ Finset.range N, HasFDerivAt (fun e => (2 * (i : ℝ) + 3) *
        (((o e).a.getD i 0).re - ‖(o e).a.getD i 0‖ ^ 2 + (((o e).b.getD i 0).re - ‖(o e).b.getD i 0‖ ^ 2)))
        ((2 * (i : ℝ) + 3) • ((layerIntensity p (k0 * Real.sqrt e0) .tm (i + 1) (fun j => W j (i + 1) .tm) j / e0) • imCLM +
          (layerIntensity p (k0 * Real.sqrt e0) .te (i + 1) (fun j => W j (i + 1) .te) j / e0) • imCLM)) ε := by
      intro i hi
      have hi := Finset.mem_range.1 hi
      obtain ⟨⟨-, d1⟩, -, d2⟩ := C96_gradient_run hp hj hr (V := fun i q j => W j (i + 1) q) hW hi
      exact ((absorbed_fderiv d1 (hun i hi).1).add (absorbed_fderiv d2 (hun i hi).2)).const_mul _
    have hsum := (HasFDerivAt.fun_sum hterm).const_mul (2 * Real.pi / (k0 * Real.sqrt e0) ^ 2)
    refine (hsum.congr_of_eventuallyEq habs).congr_fderiv ?_
    ext h
    simp [Finset.sum_mul, mul_assoc, add_mul, mul_add]
  · rw [dissipated_intensity hp hW hj E0, Finset.mul_sum, Finset.mul_sum, Finset.mul_sum]
    refine Finset.sum_congr rfl fun i _ => ?_
    rw [← add_div, show Real.sqrt e0 ^ 3 = Real.sqrt e0 * e0 by rw [pow_succ, hsq]; ring, mul_pow, hsq]
    field_simp
    rw [hsq]
    ring
  · have hpos : ∀ i < N, ∀ q, 0 < layerIntensity p (k0 * Real.sqrt e0) q (i + 1) (fun j => W j (i + 1) q) j / e0 :=
      fun i hi q => div_pos (layerIntensity_pos hp (hW i hi q) (by omega) hj) he0
    refine mul_pos (by positivity) (Finset.sum_pos (fun i hi => ?_) ⟨0, Finset.mem_range.2 (by omega)⟩)
    have := hpos i (Finset.mem_range.1 hi) .tm
    have := hpos i (Finset.mem_range.1 hi) .te
    positivity
  · rw [habs.self_of_nhds, Finset.sum_eq_zero fun i hi => ?_, mul_zero]
    rw [hz _ (hun i (Finset.mem_range.1 hi)).1, hz _ (hun i (Finset.mem_range.1 hi)).2, add_zero, mul_zero]

/-- C105 end to end: for a lossless core-shell particle the torch backend with exact special functions succeeds for all complex
permittivities near the given one. -/
theorem C105_torch {r r' : ℝ} {ε ε' : ℂ} (hp : TransparentAt p k0 e0) (hr : p.rLayers = [r, r']) (he : p.epsLayers = [ε, ε'])
    (hj : j < 2) (K : D1Kernel) (N : ℕ) :
    ∃ (o : ℂ → MieOut) (W : ℕ → ℕ → Pol → Wave) (D : ℝ),
      (∀ᶠ e in 𝓝 (p.epsLayers.getD j 0),
        mieCoefficients K exactBackends (p.withEps j e) "torch" "recurrence" (some ((N + 1 : ℕ) : ℤ)) = .ok (o e)) ∧
      LayerWaves p (o (p.epsLayers.getD j 0)).a (o (p.epsLayers.getD j 0)).b W ∧
      HasFDerivAt (fun e => (crossSections (o e).k (o e).rS (o e).a (o e).b).csAbs) (D • imCLM) (p.epsLayers.getD j 0) ∧
      0 < D ∧ ∀ E0 : ℂ, Real.sqrt e0 * ‖E0‖ ^ 2 * D =
        dissipated k0 I (p.radius j) (p.radius (j + 1)) (layerE p E0 (N + 1) W 0 j) := by
  have hj1 : j < p.rLayers.length := by rw [hr]; exact hj
  have hj2 : j < p.epsLayers.length := by rw [he]; exact hj
  have hq := hp.passive
  obtain ⟨W, hW⟩ := exists_allWaves hq.host hq.inc hq.len hq.ne hq.passive hq.nonzero
  have hat : PassiveAt ((epsFam p j).at (p.epsLayers.getD j 0)) k0 e0 := by
    rw [epsFam_at, withEps_self p hj2]; exact hq
  obtain ⟨x, x', hx⟩ : ∃ x x', (epsFam p j).eps = [x, x'] := by
    rw [epsFam, he]
    match j, hj with
    | 0, _ => exact ⟨_, _, rfl⟩
    | 1, _ => exact ⟨_, _, rfl⟩
  obtain ⟨o, hn, ho⟩ := C73_torch_succeeds (epsFam_analytic p j _) hat (r := fun _ => r) (r' := fun _ => r')
    (by rw [epsFam, hr]; rfl) hx K N
  have hx := hn.exact (epsFam_analytic p j _) hat
  simp only [epsFam_at] at ho hx
  obtain ⟨D, h1, h2, h3, -⟩ := C105_absorption hp hj1 hx (W := W) fun i _ q => hW.channel i q
  refine ⟨o, W, D, ho, ?_, h1, h3 (by omega), h2⟩
  obtain ⟨r1, r2⟩ := hx.self_of_nhds
  rw [withEps_self p hj2] at r1
  have hl := layers_ne hq.host hq.nonzero
  refine ⟨fun i _ q => hW.cont i q, fun i _ q => hW.core i q, fun i hi => ?_⟩
  rw [r1.lenA] at hi
  obtain ⟨g1, g2⟩ := run_getD r1 hl hi
  rw [g1, g2, (hW.channel i .tm).coef hp.particle, (hW.channel i .te).coef hp.particle]
  exact ⟨by rw [← hW.host i .tm], by rw [← hW.host i .te]⟩

end

/-! ## Examples -/

/-- A silver-like core (negative permittivity) in a glass shell: loss in the core, and loss in the shell, is felt by the absorption
cross section. -/
example (K : D1Kernel) (N j : ℕ) (hj : j < 2) : ∃ (o : ℂ → MieOut) (D : ℝ),
    (∀ᶠ e in 𝓝 (lossless2.epsLayers.getD j 0),
      mieCoefficients K exactBackends (lossless2.withEps j e) "torch" "recurrence" (some ((N + 1 : ℕ) : ℤ)) = .ok (o e)) ∧
    HasFDerivAt (fun e => (crossSections (o e).k (o e).rS (o e).a (o e).b).csAbs) (D • imCLM) (lossless2.epsLayers.getD j 0) ∧ 0 < D := by
  obtain ⟨o, W, D, h1, -, h2, h3, -⟩ := C105_torch lossless2_at (r := 1) (r' := 2) (ε := -9) (ε' := 4) rfl rfl hj K N
  exact ⟨o, D, h1, h2, h3⟩

/-- The absorption grows linearly with a small loss in the core. -/
example (K : D1Kernel) : ∃ (o : ℂ → MieOut) (D : ℝ),
    (∀ᶠ t : ℝ in 𝓝 0, mieCoefficients K exactBackends ⟨1, [1, 2], [-9 + t * I, 4], 2⟩ "torch" "recurrence" (some 3) =
      .ok (o (-9 + t * I))) ∧
    HasDerivAt (fun t : ℝ => (crossSections (o (-9 + t * I)).k (o (-9 + t * I)).rS (o (-9 + t * I)).a (o (-9 + t * I)).b).csAbs) D 0 ∧
    0 < D := by
  obtain ⟨o, W, D, h1, -, h2, h3, -⟩ := C105_torch lossless2_at (r := 1) (r' := 2) (ε := -9) (ε' := 4) rfl rfl (j := 0) (by omega) K 2
  have hline : HasDerivAt (fun t : ℝ => (-9 : ℂ) + t * I) I 0 := by
    have h1 : HasDerivAt (fun t : ℝ => (t : ℂ)) 1 0 := ofRealCLM.hasDerivAt
    simpa using (h1.mul_const I).const_add (-9)
  have h0 : (-9 : ℂ) + ((0 : ℝ) : ℂ) * I = lossless2.epsLayers.getD 0 0 := by simp [lossless2]
  refine ⟨o, D, ?_, ?_, h3⟩
  · have ht := hline.continuousAt.tendsto
    rw [h0] at ht
    exact ht.eventually h1
  · have := HasFDerivAt.comp_hasDerivAt (0 : ℝ) (by rw [h0]; exact h2) hline
    exact this.congr_deriv (by simp)

end MieDiff
