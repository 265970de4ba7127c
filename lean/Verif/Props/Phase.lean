import Verif.Proofs.Phase

/-!
# C96: raising a permittivity of a lossless particle increases every scattering phase

The response `1 - 2 a` of a channel of a lossless particle is `exp (2 i δ)`.  The derivative of the phase `δ` with respect to the
permittivity of a layer is the integral of the squared modulus of the electric field of the channel over this layer, so it is positive:
more permittivity in any layer moves all resonances (`δ = π/2`) in the same direction.  In particular the strength `|a|²` of a channel has
no stationary points except `a = 0` and `a = 1`.
-/

namespace MieDiff

open Complex Spec Filter Topology MeasureTheory intervalIntegral
open scoped ComplexConjugate

/-- A lossless particle in a transparent host: real non-zero permittivities, negative ones are allowed. -/
structure TransparentAt (p : Particle1) (k0 e0 : ℝ) : Prop where
  particle : ParticleAt p k0 e0
  real : ∀ e ∈ p.epsLayers, e.im = 0

/-- Specification: the intensity of the field of a channel in region `j`, integrated over the region. -/
noncomputable def layerIntensity (p : Particle1) (k : ℝ) (q : Pol) (n : ℕ) (V : ℕ → Wave) (j : ℕ) : ℝ :=
  ∫ r in p.size k j..p.size k (j + 1), intensity q n (p.indices.getD j 0) (V j) r

section
variable {p : Particle1} {k0 e0 : ℝ} {q : Pol} {n j : ℕ} {V : ℕ → Wave}

theorem TransparentAt.passive (hp : TransparentAt p k0 e0) : PassiveAt p k0 e0 :=
  ⟨hp.particle.host, hp.particle.inc, hp.particle.len, hp.particle.ne, fun e he => (hp.real e he).ge, hp.particle.nonzero⟩

theorem region_real (hp : TransparentAt p k0 e0) (j : ℕ) : (p.region j).im = 0 := by
  unfold Particle1.region
  rw [List.getD_eq_getElem?_getD]
  cases h : (p.epsLayers ++ [p.epsEnv])[j]? with
  | none => simp
  | some e =>
    rcases List.mem_append.1 (List.mem_of_getElem? h) with h | h
    · exact hp.real e h
    · rw [List.mem_singleton] at h
      simp [h, hp.particle.host.env_eq]

theorem index_real (hp : TransparentAt p k0 e0) {j : ℕ} (hj : j ≤ p.rLayers.length) : (p.indices.getD j 0 ^ 2).im = 0 := by
  rw [indices_sq hp.particle.host hp.particle.len hj, hp.particle.host.env_eq, div_ofReal_im, region_real hp, zero_div]

theorem size_ne_zero (hp : ParticleAt p k0 e0) {j : ℕ} (hj : j < p.rLayers.length) : p.size (k0 * Real.sqrt e0) (j + 1) ≠ 0 :=
  (mul_pos (mul_pos hp.host.k0_pos (Real.sqrt_pos.2 hp.host.env_pos)) (radius_pos hp.host hj)).ne'

theorem waves_ne_zero (hp : ParticleAt p k0 e0) (h : ChannelWaves p q n V) {j : ℕ} (hj : j ≤ p.rLayers.length) : V j ≠ ⟨0, 0⟩ := by
  refine regions_ne_zero (h.regions hp.host) (fun i hi => indices_ne hp.host hp.len hp.nonzero hi) (fun i hi => size_ne_zero hp hi) ?_ j hj
  intro h0
  have := h.host
  rw [h0] at this
  simp at this

theorem SignWave.of_eq {m m' : ℂ} {w v : Wave} (h : SignWave q n m w m' v) (e : m = m') (h0 : m ≠ 0) : v = w := by
  cases h with
  | same => rfl
  | flip => exact absurd (self_eq_neg.1 e) h0

/-- Fields of a lossless particle and their conjugates. -/
theorem transparent_waves (hp : TransparentAt p k0 e0) (h : ChannelWaves p q n V) :
    (1 - 2 * coef q n p.layers) * conj (1 - 2 * coef q n p.layers) = 1 ∧
    ∀ j ≤ p.rLayers.length, ∃ v, SignWave q n (conj (p.indices.getD j 0)) (V j).star (p.indices.getD j 0) v ∧
      v = (V j).smul (conj (1 - 2 * coef q n p.layers)) := by
  have hp' := hp.particle
  have : Nonempty Wave := ⟨⟨0, 0⟩⟩
  choose! U hU using fun j (hj : j ≤ p.rLayers.length) => exists_mirror q n (index_real hp hj) (V j)
  have h0 : (V 0).d ≠ 0 := by
    intro hd
    refine waves_ne_zero hp' h (Nat.zero_le _) ?_
    have := h.core
    generalize V 0 = v at *
    cases v
    simp_all
  obtain ⟨c, hc⟩ := mirror_waves (h.regions hp'.host) (fun i hi => indices_ne hp'.host hp'.len hp'.nonzero hi)
    (fun i hi => size_ne_zero hp' hi) hU h0
  have hco := h.coef hp'
  have hL := hU _ le_rfl
  rw [hc _ le_rfl, indices_host hp'.len, map_one] at hL
  have hstar : (V p.rLayers.length).star = (V p.rLayers.length).smul c := (hL.of_eq rfl one_ne_zero).symm
  simp only [Wave.star, Wave.smul, Wave.mk.injEq, h.host, ← hco, map_one, mul_one] at hstar
  obtain ⟨s1, s2⟩ := hstar
  have hcc : c = conj (1 - 2 * coef q n p.layers) := by rw [← s1]; simp [map_ofNat]
  refine ⟨?_, fun j hj => ⟨U j, hU j hj, by rw [hc j hj, hcc]⟩⟩
  rw [← hcc]
  linear_combination (-1 : ℂ) * s1 + 2 * s2

/-- The fields of a lossless particle have the phase of the response: the overlap integral of C94 is the integrated intensity times the
response. -/
theorem layerOverlap_phase (hp : TransparentAt p k0 e0) (h : ChannelWaves p q n V) (hj : j < p.rLayers.length) :
    layerOverlap p p (k0 * Real.sqrt e0) q n V V j =
      (1 - 2 * coef q n p.layers) * (layerIntensity p (k0 * Real.sqrt e0) q n V j : ℝ) := by
  have hp' := hp.particle
  obtain ⟨hS, hw⟩ := transparent_waves hp h
  obtain ⟨v, h1, h2⟩ := hw j hj.le
  have hm := indices_ne hp'.host hp'.len hp'.nonzero hj.le
  have hlt := size_lt hp'.host hp'.inc hj
  have h0 : 0 ≤ p.size (k0 * Real.sqrt e0) j := by
    rcases Nat.eq_zero_or_pos j with rfl | hpos
    · exact (size_zero p _).ge
    · obtain ⟨i, rfl⟩ : ∃ i, j = i + 1 := ⟨j - 1, by omega⟩
      exact mul_nonneg (mul_pos hp'.host.k0_pos (Real.sqrt_pos.2 hp'.host.env_pos)).le (radius_pos hp'.host (by omega)).le
  unfold layerOverlap layerIntensity
  rw [← integral_ofReal, ← intervalIntegral.integral_const_mul, integral_of_le hlt.le, integral_of_le hlt.le]
  refine setIntegral_congr_fun measurableSet_Ioc fun r hr => ?_
  exact overlap_phase (index_real hp hj.le) hm h1 h2 hS (lt_of_le_of_lt h0 hr.1)

/-- Every layer contains field of every channel. -/
theorem layerIntensity_pos (hp : TransparentAt p k0 e0) (h : ChannelWaves p q n V) (hn : 1 ≤ n) (hj : j < p.rLayers.length) :
    0 < layerIntensity p (k0 * Real.sqrt e0) q n V j := by
  have hp' := hp.particle
  obtain ⟨hS, hw⟩ := transparent_waves hp h
  obtain ⟨v, h1, h2⟩ := hw j hj.le
  have hm := indices_ne hp'.host hp'.len hp'.nonzero hj.le
  have hlt := size_lt hp'.host hp'.inc hj
  have h0 : 0 ≤ p.size (k0 * Real.sqrt e0) j ∧ (0 < p.size (k0 * Real.sqrt e0) j ∨ (V j).a = 0) := by
    rcases Nat.eq_zero_or_pos j with rfl | hpos
    · exact ⟨(size_zero p _).ge, .inr h.core⟩
    · obtain ⟨i, rfl⟩ : ∃ i, j = i + 1 := ⟨j - 1, by omega⟩
      have := mul_pos (mul_pos hp'.host.k0_pos (Real.sqrt_pos.2 hp'.host.env_pos)) (radius_pos hp'.host (show i < p.rLayers.length by omega))
      exact ⟨this.le, .inl this⟩
  exact intensity_integral_pos q hn hm (waves_ne_zero hp' h hj.le) h0.1 hlt (intensity_integrable q n hm h0.1 hlt.le h0.2 hS
    fun r hr => overlap_phase (index_real hp hj.le) hm h1 h2 hS hr)

/-- C96: the response has modulus 1, and it turns with the permittivity of layer `j` at the rate `2 / e0` times the intensity in this
layer, which is positive. -/
theorem C96_response (hp : TransparentAt p k0 e0) (h : ChannelWaves p q n V) (hn : 1 ≤ n) (hj : j < p.rLayers.length) :
    ‖1 - 2 * coef q n p.layers‖ = 1 ∧ 0 < layerIntensity p (k0 * Real.sqrt e0) q n V j ∧
    HasDerivAt (fun e => 1 - 2 * coef q n (p.withEps j e).layers)
      (2 * I * (layerIntensity p (k0 * Real.sqrt e0) q n V j / e0 : ℝ) * (1 - 2 * coef q n p.layers)) (p.epsLayers.getD j 0) := by
  refine ⟨?_, layerIntensity_pos hp h hn hj, ?_⟩
  · have := (transparent_waves hp h).1
    rw [mul_conj'] at this
    have h2 : ‖1 - 2 * coef q n p.layers‖ ^ 2 = 1 := by exact_mod_cast this
    exact (pow_eq_one_iff_of_nonneg (norm_nonneg _) two_ne_zero).1 h2
  · have hd := C94_gradient hp.particle h hj
    refine ((hd.const_mul 2).const_sub 1).congr_deriv ?_
    rw [layerOverlap_phase hp h hj, hp.particle.host.env_eq]
    push_cast
    ring

/-! ## The phase as a function of the permittivity -/

theorem withEps_transparent (hp : TransparentAt p k0 e0) {t : ℝ} (ht : t ≠ 0) : TransparentAt (p.withEps j t) k0 e0 := by
  refine ⟨withEps_particle hp.particle (by exact_mod_cast ht), fun e he => ?_⟩
  rcases List.mem_or_eq_of_mem_set he with h | h
  exacts [hp.real e h, by simp [h]]

theorem withEps_withEps (p : Particle1) (j : ℕ) (e e' : ℂ) : (p.withEps j e).withEps j e' = p.withEps j e' := by
  simp [Particle1.withEps]

theorem withEps_getD (p : Particle1) (hj : j < p.epsLayers.length) (e : ℂ) : (p.withEps j e).epsLayers.getD j 0 = e := by
  simp [Particle1.withEps, List.getD_eq_getElem?_getD, hj]

theorem exists_waves (hp : TransparentAt p k0 e0) (q : Pol) (hn : 1 ≤ n) : ∃ V, ChannelWaves p q n V := by
  have h := hp.passive
  obtain ⟨W, hW⟩ := exists_allWaves h.host h.inc h.len h.ne h.passive h.nonzero
  obtain ⟨i, rfl⟩ : ∃ i, n = i + 1 := ⟨n - 1, by omega⟩
  exact ⟨_, hW.channel i q⟩

/-- C96: as the permittivity of layer `j` runs through the positive (or through the negative) numbers, the coefficient of every channel is
`(1 - exp (2 i δ)) / 2` with a strictly increasing phase `δ`, whose derivative is the intensity in the layer. -/
theorem C96_phase (hp : TransparentAt p k0 e0) (hj : j < p.rLayers.length) (q : Pol) (hn : 1 ≤ n) {U : Set ℝ}
    (hU : U = Set.Ioi 0 ∨ U = Set.Iio 0) :
    ∃ δ : ℝ → ℝ, StrictMonoOn δ U ∧ ∀ t ∈ U, coef q n (p.withEps j t).layers = (1 - exp (2 * I * δ t)) / 2 ∧
      ∀ V, ChannelWaves (p.withEps j t) q n V → HasDerivAt δ (layerIntensity (p.withEps j t) (k0 * Real.sqrt e0) q n V j / e0) t := by
  have hj' : j < p.epsLayers.length := by rw [hp.particle.len]; exact hj
  have hU0 : ∀ t ∈ U, t ≠ 0 := by
    rintro t ht rfl
    rcases hU with rfl | rfl <;> simp at ht
  have hUo : IsOpen U := by rcases hU with rfl | rfl; exacts [isOpen_Ioi, isOpen_Iio]
  have hUc : U.OrdConnected := by rcases hU with rfl | rfl; exacts [Set.ordConnected_Ioi, Set.ordConnected_Iio]
  obtain ⟨t0, ht0⟩ : U.Nonempty := by rcases hU with rfl | rfl; exacts [⟨1, by simp⟩, ⟨-1, by simp⟩]
  let f : ℂ → ℂ := fun e => 1 - 2 * coef q n (p.withEps j e).layers
  have key : ∀ t ∈ U, ∀ V, ChannelWaves (p.withEps j t) q n V → ‖f t‖ = 1 ∧
      0 < layerIntensity (p.withEps j t) (k0 * Real.sqrt e0) q n V j ∧
      HasDerivAt f (2 * I * (layerIntensity (p.withEps j t) (k0 * Real.sqrt e0) q n V j / e0 : ℝ) * f t) (t : ℂ) := by
    intro t ht V hV
    obtain ⟨h1, h2, h3⟩ := C96_response (withEps_transparent hp (hU0 t ht)) hV hn (j := j) hj
    simp only [withEps_withEps] at h3
    rw [withEps_getD p hj'] at h3
    exact ⟨h1, h2, h3⟩
  let g : ℝ → ℝ := fun t => (deriv f t * conj (f t) / (2 * I)).re
  have hg : ∀ t ∈ U, ∀ V, ChannelWaves (p.withEps j t) q n V → g t = layerIntensity (p.withEps j t) (k0 * Real.sqrt e0) q n V j / e0 := by
    intro t ht V hV
    obtain ⟨h1, -, h3⟩ := key t ht V hV
    have hff : f t * conj (f t) = 1 := by rw [mul_conj', h1]; simp
    simp only [g]
    rw [h3.deriv, mul_assoc, hff, mul_one, mul_div_cancel_left₀ _ (mul_ne_zero two_ne_zero I_ne_zero), ofReal_re]
  have han : ∀ t ∈ U, AnalyticAt ℂ f t := by
    intro t ht
    have hF := epsFam_analytic p j (t : ℂ)
    have hat : PassiveAt ((epsFam p j).at (t : ℂ)) k0 e0 := by
      rw [epsFam_at]; exact (withEps_transparent hp (hU0 t ht)).passive
    have := (C73_coefficients hF hat q n).2
    simp only [epsFam_at] at this
    exact (contDiffAt_const.sub (contDiffAt_const.mul this)).analyticAt
  have hcg : ContinuousOn g U := by
    intro t ht
    have c1 : ContinuousAt (fun s : ℝ => deriv f s) t :=
      ContinuousAt.comp (f := fun s : ℝ => (s : ℂ)) (han t ht).deriv.continuousAt continuous_ofReal.continuousAt
    have c2 : ContinuousAt (fun s : ℝ => f s) t :=
      ContinuousAt.comp (f := fun s : ℝ => (s : ℂ)) (han t ht).continuousAt continuous_ofReal.continuousAt
    have c3 : ContinuousAt (fun s : ℝ => deriv f s * conj (f s) / (2 * I)) t :=
      (c1.mul (continuous_conj.continuousAt.comp c2)).div_const _
    exact (continuous_re.continuousAt.comp c3).continuousWithinAt
  have hS : ∀ t ∈ U, HasDerivAt (fun s : ℝ => f s) (2 * I * g t * f t) t := by
    intro t ht
    obtain ⟨V, hV⟩ := exists_waves (withEps_transparent (j := j) hp (hU0 t ht)) q hn
    rw [hg t ht V hV]
    exact (key t ht V hV).2.2.comp_ofReal
  obtain ⟨V0, hV0⟩ := exists_waves (withEps_transparent (j := j) hp (hU0 t0 ht0)) q hn
  obtain ⟨δ, hδ1, hδ2⟩ := exists_phase hUo hUc ht0 hS hcg (key t0 ht0 V0 hV0).1
  refine ⟨δ, ?_, fun t ht => ⟨?_, fun V hV => ?_⟩⟩
  · refine strictMonoOn_of_deriv_pos hUc.convex (fun t ht => (hδ2 t ht).continuousAt.continuousWithinAt) fun t ht => ?_
    rw [hUo.interior_eq] at ht
    obtain ⟨V, hV⟩ := exists_waves (withEps_transparent (j := j) hp (hU0 t ht)) q hn
    rw [(hδ2 t ht).deriv, hg t ht V hV]
    exact div_pos (key t ht V hV).2.1 hp.particle.host.env_pos
  · have := hδ1 t ht
    simp only [f] at this
    rw [← this]
    ring
  · rw [← hg t ht V hV]
    exact hδ2 t ht

/-- C96: the strength `|a|²` of a channel.  Its derivative with respect to the permittivity of layer `j` is a negative multiple of `Im a`,
so it has the same sign for all layers and vanishes exactly for `a = 0` and at resonance, `a = 1`. -/
theorem C96_strength (hp : TransparentAt p k0 e0) (h : ChannelWaves p q n V) (hn : 1 ≤ n) (hj : j < p.rLayers.length) :
    ∃ D : ℝ, HasDerivAt (fun t : ℝ => ‖coef q n (p.withEps j (p.epsLayers.getD j 0 + t)).layers‖ ^ 2) D 0 ∧
      D = -(2 * layerIntensity p (k0 * Real.sqrt e0) q n V j / e0) * (coef q n p.layers).im ∧
      (D = 0 ↔ coef q n p.layers = 0 ∨ coef q n p.layers = 1) := by
  obtain ⟨h1, h2, -⟩ := C96_response hp h hn hj
  have hj' : j < p.epsLayers.length := by rw [hp.particle.len]; exact hj
  have hd := C94_gradient hp.particle h hj
  rw [layerOverlap_phase hp h hj, hp.particle.host.env_eq] at hd
  have hpos := hp.particle.host.env_pos
  set κ := layerIntensity p (k0 * Real.sqrt e0) q n V j with hκ
  set a := coef q n p.layers with ha
  refine ⟨_, ?_, rfl, ?_⟩
  · have hin : HasDerivAt (fun t : ℝ => p.epsLayers.getD j 0 + (t : ℂ)) 1 0 :=
      ((hasDerivAt_id (0 : ℝ)).ofReal_comp).const_add _
    have hd0 : HasDerivAt (fun e => coef q n (p.withEps j e).layers)
        (-I / (e0 : ℂ) * ((1 - 2 * a) * (κ : ℝ))) (p.epsLayers.getD j 0 + ((0 : ℝ) : ℂ)) := by simpa using hd
    have hc : HasDerivAt (fun t : ℝ => coef q n (p.withEps j (p.epsLayers.getD j 0 + t)).layers)
        (-I / (e0 : ℂ) * ((1 - 2 * a) * (κ : ℝ)) * 1) 0 :=
      HasDerivAt.comp (h₂ := fun e => coef q n (p.withEps j e).layers) (0 : ℝ) hd0 hin
    have hn2 := hc.norm_sq
    have e1 : p.withEps j (p.epsLayers.getD j 0 + ((0 : ℝ) : ℂ)) = p := by
      rw [ofReal_zero, add_zero]; exact withEps_self p hj'
    rw [e1] at hn2
    refine hn2.congr_deriv ?_
    rw [← ha, Complex.inner]
    have e2 : -I / (e0 : ℂ) * ((1 - 2 * a) * (κ : ℝ)) * 1 = ((κ / e0 : ℝ) : ℂ) * (-I * (1 - 2 * a)) := by
      push_cast; ring
    rw [e2, mul_assoc, re_ofReal_mul]
    simp [mul_re, mul_im]
    ring
  · have hk : -(2 * κ / e0) ≠ 0 := neg_ne_zero.2 (by positivity)
    rw [mul_eq_zero, or_iff_right hk]
    constructor
    · intro him
      have hre : a = (a.re : ℂ) := by apply Complex.ext <;> simp [him]
      rw [hre] at h1
      have h3 : |1 - 2 * a.re| = 1 := by
        rw [← Real.norm_eq_abs, ← Complex.norm_real]
        push_cast
        exact h1
      rcases (abs_eq zero_le_one).1 h3 with h | h
      · left; rw [hre, show a.re = 0 by linarith]; simp
      · right; rw [hre, show a.re = 1 by linarith]; simp
    · rintro (h | h) <;> rw [h] <;> simp

/-! ## Moving an interface -/

/-- Specification: the intensity at an interface.  The radial field jumps, its part is the product of the values on both sides; `μ` is the
product of the relative permittivities on both sides. -/
noncomputable def surfaceIntensity (q : Pol) (n : ℕ) (m : ℂ) (μ : ℝ) (w : Wave) (rho : ℝ) : ℝ :=
  match q with
  | .tm => ‖w.der n (m * rho) / m‖ ^ 2 + n * (n + 1) * (‖w.val n (m * rho) / rho‖ ^ 2 / μ)
  | .te => ‖w.val n (m * rho) / m‖ ^ 2

theorem surfaceIntensity_nonneg (q : Pol) (n : ℕ) (m : ℂ) {μ : ℝ} (hμ : 0 ≤ μ) (w : Wave) (rho : ℝ) :
    0 ≤ surfaceIntensity q n m μ w rho := by
  cases q <;> simp only [surfaceIntensity] <;> positivity

theorem overlap_surface {m m' S : ℂ} {w w' v : Wave} {μ : ℝ} (hm : m ≠ 0) (hm' : m' ≠ 0)
    (hμ : (μ : ℂ) = m ^ 2 * m' ^ 2) (h : SignWave q n (conj m) w.star m v) (hv : v = w.smul (conj S)) (hS : S * conj S = 1) {r : ℝ}
    (hr : 0 < r) (hc : Cont q n m m' r w w') : overlap q n m w m' w' r = S * (surfaceIntensity q n m μ w r : ℝ) := by
  have key : ∀ E : ℂ, conj S * E = conj E → E * E = S * ((‖E‖ ^ 2 : ℝ) : ℂ) := by
    intro E hE
    rw [ofReal_pow, ← mul_conj', ← hE]
    linear_combination -(E * E) * hS
  have hf := mirror_fields h hm hr
  have hr' : (r : ℂ) ≠ 0 := by exact_mod_cast hr.ne'
  subst hv
  cases q
  · simp only [ConjFields, Wave.smul_val, Wave.smul_der] at hf
    obtain ⟨h1, h2⟩ := hf
    have k1 := key (w.der n (m * r) / m) (by rw [← h2]; ring)
    have k2 := key (w.val n (m * r) / r) (by rw [map_div₀, conj_ofReal, ← h1]; ring)
    obtain ⟨c1, c2⟩ := hc
    have c3 : w'.der n (m' * r) / m' = w.der n (m * r) / m := by rw [div_eq_div_iff hm' hm]; exact c2.symm
    simp only [overlap, surfaceIntensity, ← c1, c3]
    rw [k1]
    have e : (n : ℂ) * (n + 1) * (w.val n (m * r) / (m ^ 2 * r)) * (w.val n (m * r) / (m' ^ 2 * r)) =
        n * (n + 1) * ((w.val n (m * r) / r * (w.val n (m * r) / r)) / μ) := by
      rw [hμ]
      field_simp
    rw [e, k2]
    push_cast
    ring
  · simp only [ConjFields, Wave.smul_val, Wave.smul_der] at hf
    obtain ⟨c1, c2⟩ := hc
    have c3 : w'.val n (m' * r) / m' = w.val n (m * r) / m := by rw [div_eq_div_iff hm' hm]; exact c1.symm
    simp only [overlap, surfaceIntensity, c3]
    exact key _ (by rw [← hf.1]; ring)

/-- C96, interfaces: the response turns with the radius of interface `j` at a rate proportional to the step of the permittivity and to
the intensity at the interface.  So if the permittivities on both sides have the same sign, growing the region of larger permittivity
increases every phase. -/
theorem C96_radius (hp : TransparentAt p k0 e0) (h : ChannelWaves p q n V) (hj : j < p.rLayers.length) :
    HasDerivAt (fun r => 1 - 2 * coef q n (p.withRadius j r).layers)
      (2 * I * (k0 * Real.sqrt e0 * (((p.region j).re - (p.region (j + 1)).re) / e0) * surfaceIntensity q n (p.indices.getD j 0)
        ((p.region j).re / e0 * ((p.region (j + 1)).re / e0)) (V j) (p.size (k0 * Real.sqrt e0) (j + 1)) : ℝ) *
        (1 - 2 * coef q n p.layers)) (p.radius (j + 1)) := by
  have hp' := hp.particle
  obtain ⟨hS, hw⟩ := transparent_waves hp h
  obtain ⟨v, h1, h2⟩ := hw j hj.le
  have hreg : ∀ i, p.region i = ((p.region i).re : ℂ) := fun i => by
    apply Complex.ext <;> simp [region_real hp i]
  have hsz : 0 < p.size (k0 * Real.sqrt e0) (j + 1) :=
    mul_pos (mul_pos hp'.host.k0_pos (Real.sqrt_pos.2 hp'.host.env_pos)) (radius_pos hp'.host hj)
  have hd := C94_radius hp' h hj
  rw [overlap_surface (μ := (p.region j).re / e0 * ((p.region (j + 1)).re / e0))
    (indices_ne hp'.host hp'.len hp'.nonzero hj.le) (indices_ne hp'.host hp'.len hp'.nonzero hj) ?_ h1 h2 hS hsz
    ((h.regions hp'.host).cont j hj)] at hd
  · refine ((hd.const_mul 2).const_sub 1).congr_deriv ?_
    rw [hreg j, hreg (j + 1), hp'.host.env_eq]
    simp only [ofReal_re]
    push_cast
    ring
  · rw [indices_sq hp'.host hp'.len hj.le, indices_sq hp'.host hp'.len hj, hp'.host.env_eq]
    push_cast
    rw [← hreg, ← hreg]

/-! ## Calls -/

/-- C96 for calls of any backend that solve the interface problem: the returned coefficients have phases which increase with the
permittivity of layer `j`. -/
theorem C96_run (hp : TransparentAt p k0 e0) (hj : j < p.rLayers.length) {U : Set ℝ} (hU : U = Set.Ioi 0 ∨ U = Set.Iio 0) {N : ℕ}
    {o : ℝ → MieOut} (ho : ∀ t ∈ U, ExactRun (p.withEps j t) (o t) ∧ N ≤ (o t).nMax.toNat) {i : ℕ} (hi : i < N) :
    (∃ δ : ℝ → ℝ, StrictMonoOn δ U ∧ ∀ t ∈ U, (o t).a.getD i 0 = (1 - exp (2 * I * δ t)) / 2) ∧
    ∃ δ : ℝ → ℝ, StrictMonoOn δ U ∧ ∀ t ∈ U, (o t).b.getD i 0 = (1 - exp (2 * I * δ t)) / 2 := by
  have hU0 : ∀ t ∈ U, t ≠ 0 := by
    rintro t ht rfl
    rcases hU with rfl | rfl <;> simp at ht
  have hget : ∀ t ∈ U, _ := fun t ht =>
    run_getD (ho t ht).1 (layers_ne (withEps_transparent (j := j) hp (hU0 t ht)).particle.host
      (withEps_transparent (j := j) hp (hU0 t ht)).particle.nonzero) (lt_of_lt_of_le hi (ho t ht).2)
  constructor
  · obtain ⟨δ, h1, h2⟩ := C96_phase hp hj .tm (n := i + 1) (by omega) hU
    exact ⟨δ, h1, fun t ht => by rw [(hget t ht).1]; exact (h2 t ht).1⟩
  · obtain ⟨δ, h1, h2⟩ := C96_phase hp hj .te (n := i + 1) (by omega) hU
    exact ⟨δ, h1, fun t ht => by rw [(hget t ht).2]; exact (h2 t ht).1⟩

/-- C96 for calls near one particle (any backend, any number of layers): the gradient of every returned coefficient `a` with respect to the
permittivity of layer `j` is `-i (1 - 2 a)` times a positive number, the intensity in the layer. -/
theorem C96_gradient_run {N : ℕ} {o : ℂ → MieOut} {V : ℕ → Pol → ℕ → Wave} (hp : TransparentAt p k0 e0) (hj : j < p.rLayers.length)
    (hr : ∀ᶠ e in 𝓝 (p.epsLayers.getD j 0), ExactRun (p.withEps j e) (o e) ∧ (o e).nMax.toNat = N)
    (hV : ∀ i < N, ∀ q, ChannelWaves p q (i + 1) (V i q)) {i : ℕ} (hi : i < N) :
    (0 < layerIntensity p (k0 * Real.sqrt e0) .tm (i + 1) (V i .tm) j / e0 ∧
      HasDerivAt (fun e => (o e).a.getD i 0) (-I * (1 - 2 * (o (p.epsLayers.getD j 0)).a.getD i 0) *
        (layerIntensity p (k0 * Real.sqrt e0) .tm (i + 1) (V i .tm) j / e0 : ℝ)) (p.epsLayers.getD j 0)) ∧
    0 < layerIntensity p (k0 * Real.sqrt e0) .te (i + 1) (V i .te) j / e0 ∧
      HasDerivAt (fun e => (o e).b.getD i 0) (-I * (1 - 2 * (o (p.epsLayers.getD j 0)).b.getD i 0) *
        (layerIntensity p (k0 * Real.sqrt e0) .te (i + 1) (V i .te) j / e0 : ℝ)) (p.epsLayers.getD j 0) := by
  have hj' : j < p.epsLayers.length := by rw [hp.particle.len]; exact hj
  obtain ⟨d1, d2⟩ := C94_gradient_run hp.particle hj hr hV hi
  obtain ⟨r1, r2⟩ := hr.self_of_nhds
  rw [withEps_self p hj'] at r1
  obtain ⟨g1, g2⟩ := run_getD r1 (layers_ne hp.particle.host hp.particle.nonzero) (i := i) (by omega)
  have hpos := hp.particle.host.env_pos
  refine ⟨⟨div_pos (layerIntensity_pos hp (hV i hi .tm) (by omega) hj) hpos, d1.congr_deriv ?_⟩,
    div_pos (layerIntensity_pos hp (hV i hi .te) (by omega) hj) hpos, d2.congr_deriv ?_⟩
  · rw [g1, layerOverlap_phase hp (hV i hi .tm) hj, hp.particle.host.env_eq]
    push_cast
    ring
  · rw [g2, layerOverlap_phase hp (hV i hi .te) hj, hp.particle.host.env_eq]
    push_cast
    ring

/-- C96 end to end: core-shell particles with the torch backend and exact special functions. -/
theorem C96_torch {r r' : ℝ} {ε ε' : ℂ} (hp : TransparentAt p k0 e0) (hr : p.rLayers = [r, r']) (he : p.epsLayers = [ε, ε'])
    (hj : j < 2) {U : Set ℝ} (hU : U = Set.Ioi 0 ∨ U = Set.Iio 0) (K : D1Kernel) (N : ℕ) :
    ∃ o : ℝ → MieOut, (∀ t ∈ U, mieCoefficients K exactBackends (p.withEps j t) "torch" "recurrence" (some ((N + 1 : ℕ) : ℤ)) =
      .ok (o t)) ∧ ∀ i < N + 1,
      (∃ δ : ℝ → ℝ, StrictMonoOn δ U ∧ ∀ t ∈ U, (o t).a.getD i 0 = (1 - exp (2 * I * δ t)) / 2) ∧
      ∃ δ : ℝ → ℝ, StrictMonoOn δ U ∧ ∀ t ∈ U, (o t).b.getD i 0 = (1 - exp (2 * I * δ t)) / 2 := by
  have hU0 : ∀ t ∈ U, t ≠ 0 := by
    rintro t ht rfl
    rcases hU with rfl | rfl <;> simp at ht
  have hex : ∀ t : ℝ, ∃ o, t ∈ U → mieCoefficients K exactBackends (p.withEps j t) "torch" "recurrence" (some ((N + 1 : ℕ) : ℤ)) =
      .ok o ∧ o.nMax = (N + 1 : ℕ) := by
    intro t
    by_cases ht : t ∈ U
    · have hq := withEps_transparent (j := j) hp (hU0 t ht)
      have hinc := hp.particle.inc
      rw [hr] at hinc
      obtain ⟨x, x', hx⟩ : ∃ x x', (p.withEps j t).epsLayers = [x, x'] := by
        simp only [Particle1.withEps, he]
        match j, hj with
        | 0, _ => exact ⟨_, _, rfl⟩
        | 1, _ => exact ⟨_, _, rfl⟩
      obtain ⟨o, ho⟩ := mieCoefficients_torch_ok (K := K) (p := p.withEps j t) (r := r) (r' := r') (n := N) hr hx
        (by simpa [strictlyIncreasing] using hinc) (csArgs_ne (layers_ne hq.particle.host hq.particle.nonzero))
      exact ⟨o, fun _ => ho⟩
    · exact ⟨⟨0, 0, 0, 0, 0, 0, 0, [], [], [], none⟩, fun h => absurd h ht⟩
  choose o ho using hex
  refine ⟨o, fun t ht => (ho t ht).1, fun i hi => ?_⟩
  refine C96_run hp (by rw [hr]; exact hj) hU (N := N + 1) (fun t ht => ?_) hi
  obtain ⟨h1, h2⟩ := ho t ht
  have hq := withEps_transparent (j := j) hp (hU0 t ht)
  refine ⟨ExactRun.of_passive (by decide +kernel) h1 (by rw [h2]; omega) (fun S hS z hz => ?_) hq.passive.host hq.passive.passive
    hq.passive.nonzero, by rw [h2]; simp⟩
  have hsel : selectBessel exactBackends "torch" "recurrence" = .ok exactBessel := by
    have hw : "recurrence".toLower = "recurrence" := by decide +kernel
    have ht : "torch".toLower = "torch" := by decide +kernel
    simp only [selectBessel, ht, hw, exactBackends]
    rw [if_neg (by decide), if_pos (by decide)]
  rw [hsel] at hS
  injection hS with hS
  subst hS
  exact exactBessel_at (csArgs_ne (layers_ne hq.particle.host hq.particle.nonzero) z hz)

end

/-! ## Examples -/

/-- A silver-like core (negative permittivity) in a glass shell, in water. -/
noncomputable def lossless2 : Particle1 := ⟨1, [1, 2], [-9, 4], 2⟩

theorem lossless2_at : TransparentAt lossless2 1 2 := by
  refine ⟨⟨⟨by simp [lossless2], one_pos, by simp [lossless2], two_pos, ?_⟩, ?_, rfl, by simp [lossless2], ?_⟩, ?_⟩ <;>
    simp [lossless2, strictlyIncreasing]

/-- The hypotheses hold, at every order, for both layers. -/
example (i : ℕ) (q : Pol) (j : ℕ) (hj : j < 2) : ∃ V, ChannelWaves lossless2 q (i + 1) V ∧
    0 < layerIntensity lossless2 (1 * Real.sqrt 2) q (i + 1) V j := by
  obtain ⟨V, hV⟩ := exists_waves lossless2_at q (n := i + 1) (by omega)
  exact ⟨V, hV, (C96_response lossless2_at hV (by omega) hj).2.1⟩

/-- The calls succeed and their phases increase. -/
example : ∃ o : ℝ → MieOut, (∀ t : ℝ, 0 < t → mieCoefficients idealD1 exactBackends (lossless2.withEps 1 t) "torch" "recurrence" (some 4) =
    .ok (o t)) ∧ ∃ δ : ℝ → ℝ, StrictMonoOn δ (Set.Ioi 0) ∧ ∀ t : ℝ, 0 < t → (o t).b.getD 2 0 = (1 - exp (2 * I * δ t)) / 2 := by
  obtain ⟨o, h1, h2⟩ := C96_torch lossless2_at (r := 1) (r' := 2) (ε := -9) (ε' := 4) rfl rfl (j := 1) (by omega) (.inl rfl) idealD1 3
  exact ⟨o, h1, (h2 2 (by omega)).2⟩

/-- Only resonant and invisible channels are stationary: the strength of a channel of `lossless2` changes with the core permittivity
unless `a` is 0 or 1. -/
example (i : ℕ) (q : Pol) (h0 : coef q (i + 1) lossless2.layers ≠ 0) (h1 : coef q (i + 1) lossless2.layers ≠ 1) :
    ∃ D : ℝ, D ≠ 0 ∧ HasDerivAt (fun t : ℝ => ‖coef q (i + 1) (lossless2.withEps 0 (-9 + t)).layers‖ ^ 2) D 0 := by
  obtain ⟨V, hV⟩ := exists_waves lossless2_at q (n := i + 1) (by omega)
  obtain ⟨D, d1, -, d2⟩ := C96_strength lossless2_at hV (by omega) (j := 0) (by simp [lossless2])
  refine ⟨D, fun h => ?_, by simpa [lossless2] using d1⟩
  rcases d2.1 h with h | h
  exacts [h0 h, h1 h]

/-- A growing glass sphere: all phases turn forward. -/
example (i : ℕ) (q : Pol) : ∃ κ : ℝ, 0 ≤ κ ∧ HasDerivAt (fun r => 1 - 2 * coef q (i + 1) (glassSphere.withRadius 0 r).layers)
    (2 * I * κ * (1 - 2 * coef q (i + 1) glassSphere.layers)) 2 := by
  have hp : TransparentAt glassSphere 1 1 := ⟨glass_passive.particle, by simp [glassSphere]⟩
  obtain ⟨V, hV⟩ := exists_waves hp q (n := i + 1) (by omega)
  have h := C96_radius hp hV (j := 0) (by simp [glassSphere])
  have e1 : (glassSphere.region 0).re = 4 := by simp [Particle1.region, glassSphere]
  have e2 : (glassSphere.region (0 + 1)).re = 1 := by simp [Particle1.region, glassSphere]
  have e3 : glassSphere.radius (0 + 1) = 2 := by simp [Particle1.radius, glassSphere]
  rw [e1, e2, e3] at h
  exact ⟨_, mul_nonneg (by norm_num) (surfaceIntensity_nonneg _ _ _ (by norm_num) _ _), h⟩

end MieDiff
