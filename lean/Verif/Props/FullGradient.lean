import Verif.Props.Sensitivity
import Verif.Props.Euler
import Mathlib.Analysis.Calculus.Deriv.Pi

/-!
# C107: the gradients with respect to the wavenumber and to the host

C94 gives the derivatives of the coefficients with respect to one permittivity and to one radius.  Together with the invariances of C106
they are the whole gradient: a change of the wavenumber is a change of all radii, a change of the host is one of all radii and
permittivities.
-/

namespace MieDiff

open Complex Spec Filter Topology
open scoped ContDiff

/-- Derivative of a coefficient with respect to the radius of interface `j` (C94). -/
noncomputable def radiusGrad (p : Particle1) (k : ℝ) (q : Pol) (n : ℕ) (V : ℕ → Wave) (j : ℕ) : ℂ :=
  -I * (k : ℝ) * ((p.region j - p.region (j + 1)) / p.epsEnv) *
    overlap q n (p.indices.getD j 0) (V j) (p.indices.getD (j + 1) 0) (V (j + 1)) (p.size k (j + 1))

/-- Derivative of a coefficient with respect to the permittivity of layer `j` (C94). -/
noncomputable def epsGrad (p : Particle1) (k : ℝ) (q : Pol) (n : ℕ) (V : ℕ → Wave) (j : ℕ) : ℂ :=
  -I / p.epsEnv * layerOverlap p p k q n V V j

/-- The particle at another wavenumber. -/
def Particle1.withK0 (p : Particle1) (k : ℝ) : Particle1 := ⟨(k : ℂ), p.rLayers, p.epsLayers, p.epsEnv⟩

/-- The particle in another host. -/
def Particle1.withHost (p : Particle1) (e : ℝ) : Particle1 := ⟨p.k0, p.rLayers, p.epsLayers, (e : ℂ)⟩

/-- All radii and permittivities. -/
abbrev Shape (L : ℕ) := (Fin L → ℝ) × (Fin L → ℂ)

/-- All particles with `L` layers in the same host at the same wavenumber. -/
noncomputable def shapeFam (p : Particle1) (L : ℕ) : ParticleFam (Shape L) :=
  ⟨fun _ => p.k0, List.ofFn fun j x => x.1 j, List.ofFn fun j x => x.2 j, fun _ => p.epsEnv⟩

/-- Radii and permittivities of the particle. -/
noncomputable def Particle1.shape (p : Particle1) (L : ℕ) : Shape L := (fun j => p.rLayers.getD j 0, fun j => p.epsLayers.getD j 0)

section

variable {p : Particle1} {k0 e0 : ℝ} {q : Pol} {n L : ℕ}

theorem ofFn_getD {α : Type*} (l : List α) (d : α) (h : l.length = L) : (List.ofFn fun j : Fin L => l.getD j d) = l := by
  subst h
  refine List.ext_getElem (by simp) fun i h1 h2 => ?_
  simp [List.getD_eq_getElem?_getD]

theorem ofFn_update {α : Type*} (l : List α) (d : α) (h : l.length = L) (j : Fin L) (a : α) :
    List.ofFn (Function.update (fun i : Fin L => l.getD i d) j a) = l.set j a := by
  subst h
  refine List.ext_getElem (by simp) fun i h1 h2 => ?_
  simp only [List.getElem_ofFn, List.getElem_set]
  have hi : i < l.length := by simpa using h2
  by_cases hij : (j : ℕ) = i
  · have : (⟨i, hi⟩ : Fin l.length) = j := Fin.ext hij.symm
    simp [hij, this]
  · have : (⟨i, hi⟩ : Fin l.length) ≠ j := fun h => hij (by rw [← h])
    rw [Function.update_of_ne this, if_neg hij]
    simp [List.getD_eq_getElem?_getD, hi]

theorem shapeFam_at (x : Shape L) : (shapeFam p L).at x = ⟨p.k0, List.ofFn x.1, List.ofFn x.2, p.epsEnv⟩ := by
  simp [shapeFam, ParticleFam.at, List.map_ofFn, Function.comp_def]

theorem shape_at (hr : p.rLayers.length = L) (he : p.epsLayers.length = L) : (shapeFam p L).at (p.shape L) = p := by
  rw [shapeFam_at]
  simp only [Particle1.shape]
  rw [ofFn_getD _ _ hr, ofFn_getD _ _ he]

theorem shape_differentiable (hp : PassiveAt p k0 e0) :
    DifferentiableAt ℝ (fun x => coef q n ((shapeFam p p.rLayers.length).at x).layers) (p.shape p.rLayers.length) := by
  have hF : AnalyticFam ℝ (shapeFam p p.rLayers.length) (p.shape p.rLayers.length) := by
    refine ⟨contDiffAt_const, contDiffAt_const, fun r hr => ?_, fun e he => ?_⟩
    · obtain ⟨j, rfl⟩ := (List.mem_ofFn' _ _).1 hr
      have h1 : ContDiffAt ℝ ω (fun x : Shape p.rLayers.length => x.1 j) (p.shape p.rLayers.length) :=
        contDiffAt_pi.1 contDiffAt_fst j
      exact ofRealCLM.contDiff.contDiffAt.comp _ h1
    · obtain ⟨j, rfl⟩ := (List.mem_ofFn' _ _).1 he
      exact contDiffAt_pi.1 contDiffAt_snd j
  have hp' : PassiveAt ((shapeFam p p.rLayers.length).at (p.shape p.rLayers.length)) k0 e0 := by rw [shape_at rfl hp.len]; exact hp
  exact (C73_coefficients hF hp' q n).2.differentiableAt (by simp)

/-- C107: the derivative of a coefficient under any change of all radii and permittivities. -/
theorem C107_gradient {V : ℕ → Wave} (hp : PassiveAt p k0 e0) (h : ChannelWaves p q n V) :
    ∃ D : Shape p.rLayers.length →L[ℝ] ℂ,
      HasFDerivAt (fun x : Shape p.rLayers.length => coef q n (Particle1.mk p.k0 (List.ofFn x.1) (List.ofFn x.2) p.epsEnv).layers) D
        (p.shape p.rLayers.length) ∧
      ∀ x, D x = ∑ j : Fin p.rLayers.length, ((x.1 j : ℂ) * radiusGrad p (k0 * Real.sqrt e0) q n V j +
        x.2 j * epsGrad p (k0 * Real.sqrt e0) q n V j) := by
  have hd := (shape_differentiable (q := q) (n := n) hp).hasFDerivAt
  set L := p.rLayers.length with hL
  simp only [shapeFam_at] at hd
  obtain ⟨D, hd⟩ : ∃ D : Shape L →L[ℝ] ℂ,
      HasFDerivAt (fun x : Shape L => coef q n (Particle1.mk p.k0 (List.ofFn x.1) (List.ofFn x.2) p.epsEnv).layers) D (p.shape L) := ⟨_, hd⟩
  refine ⟨D, hd, fun x => ?_⟩
  have h1 : ∀ j : Fin L, D (Pi.single j 1, 0) = radiusGrad p (k0 * Real.sqrt e0) q n V j := by
    intro j
    have hc : HasDerivAt (fun r : ℝ => ((Function.update (p.shape L).1 j r, (p.shape L).2) : Shape L)) (Pi.single j 1, 0) ((p.shape L).1 j) :=
      (hasDerivAt_update (p.shape L).1 j ((p.shape L).1 j)).prodMk (hasDerivAt_const _ _)
    have hx : ((Function.update (p.shape L).1 j ((p.shape L).1 j), (p.shape L).2) : Shape L) = p.shape L := by
      rw [Function.update_eq_self]
    have h2 := HasFDerivAt.comp_hasDerivAt ((p.shape L).1 j) (by rw [hx]; exact hd) hc
    have h3 := C94_radius hp.particle h j.2
    rw [radius_succ] at h3
    refine h2.unique (h3.congr_of_eventuallyEq (.of_forall fun r => ?_))
    simp only [Function.comp, Particle1.shape]
    rw [ofFn_update _ _ hL.symm, ofFn_getD _ _ hp.len]
    rfl
  have h2 : ∀ (j : Fin L) (e : ℂ), D (0, Pi.single j e) = e * epsGrad p (k0 * Real.sqrt e0) q n V j := by
    intro j e
    have hc : HasDerivAt (fun t : ℝ => (((p.shape L).1, Function.update (p.shape L).2 j ((p.shape L).2 j + t * e)) : Shape L))
        (0, Pi.single j e) 0 := by
      have h5 : HasDerivAt (fun t : ℝ => (p.shape L).2 j + t * e) e 0 := by
        have h1 : HasDerivAt (fun t : ℝ => (t : ℂ)) 1 0 := ofRealCLM.hasDerivAt
        simpa using (h1.mul_const e).const_add ((p.shape L).2 j)
      refine (hasDerivAt_const _ _).prodMk (hasDerivAt_pi.2 fun i => ?_)
      by_cases hij : i = j
      · subst hij
        simpa using h5
      · simpa [Function.update_of_ne hij, Pi.single_eq_of_ne hij] using hasDerivAt_const (0 : ℝ) ((p.shape L).2 i)
    have hx : (((p.shape L).1, Function.update (p.shape L).2 j ((p.shape L).2 j + ((0 : ℝ) : ℂ) * e)) : Shape L) = p.shape L := by
      simp
    have h3 := HasFDerivAt.comp_hasDerivAt (0 : ℝ) (by rw [hx]; exact hd) hc
    have hl : HasDerivAt (fun t : ℝ => p.epsLayers.getD j 0 + t * e) e 0 := by
      have h1 : HasDerivAt (fun t : ℝ => (t : ℂ)) 1 0 := ofRealCLM.hasDerivAt
      simpa using (h1.mul_const e).const_add (p.epsLayers.getD j 0)
    have h4 := HasDerivAt.comp (h₂ := fun e => coef q n (p.withEps j e).layers) (h := fun t : ℝ => p.epsLayers.getD j 0 + t * e) 0
      (by simpa using C94_gradient hp.particle h j.2) hl
    rw [mul_comm]
    refine h3.unique (h4.congr_of_eventuallyEq (.of_forall fun t => ?_))
    simp only [Function.comp, Particle1.shape]
    rw [ofFn_update _ _ (hp.len.trans hL.symm), ofFn_getD _ _ hL.symm]
    rfl
  have hx : x = ∑ j : Fin L, (x.1 j • ((Pi.single j 1, 0) : Shape L) + (0, Pi.single j (x.2 j))) := by
    refine Prod.ext ?_ ?_
    · funext i
      simp [Prod.fst_sum, Finset.sum_apply, Pi.single_apply]
    · funext i
      simp [Prod.snd_sum, Finset.sum_apply, Pi.single_apply]
  conv_lhs => rw [hx]
  rw [map_sum]
  refine Finset.sum_congr rfl fun j _ => ?_
  rw [map_add, map_smul, h1, h2, real_smul]

/-- C107: the derivative with respect to the wavenumber. -/
theorem C107_wavenumber {V : ℕ → Wave} (hp : PassiveAt p k0 e0) (h : ChannelWaves p q n V) :
    HasDerivAt (fun k => coef q n (p.withK0 k).layers)
      (∑ j ∈ Finset.range p.rLayers.length, ((p.rLayers.getD j 0 / k0 : ℝ) : ℂ) * radiusGrad p (k0 * Real.sqrt e0) q n V j) k0 := by
  obtain ⟨D, hD, hv⟩ := C107_gradient hp h
  set L := p.rLayers.length with hL
  have hk := hp.host.k0_pos.ne'
  have hkc : (k0 : ℂ) ≠ 0 := by exact_mod_cast hk
  have hc : HasDerivAt (fun k : ℝ => ((fun j => k / k0 * (p.shape L).1 j, (p.shape L).2) : Shape L)) (fun j => (p.shape L).1 j / k0, 0) k0 := by
    refine (hasDerivAt_pi.2 fun j => ?_).prodMk (hasDerivAt_const _ _)
    exact (((hasDerivAt_id k0).div_const k0).mul_const _).congr_deriv (by ring)
  have hx : ((fun j => k0 / k0 * (p.shape L).1 j, (p.shape L).2) : Shape L) = p.shape L := by simp [hk]
  have h1 := HasFDerivAt.comp_hasDerivAt k0 (by rw [hx]; exact hD) hc
  rw [hv] at h1
  refine (h1.congr_of_eventuallyEq (.of_forall fun k => ?_)).congr_deriv ?_
  · simp only [Function.comp, Particle1.shape]
    rw [ofFn_getD _ _ hp.len]
    congr 1
    simp only [Particle1.layers, layersOf, Particle1.withK0]
    congr 1
    have e : (List.ofFn fun j : Fin L => k / k0 * p.rLayers.getD j 0) = p.rLayers.map (k / k0 * ·) := by
      conv_rhs => rw [← ofFn_getD p.rLayers 0 hL.symm]
      rw [List.map_ofFn]; rfl
    rw [e, List.map_map]
    refine List.map_congr_left fun r _ => ?_
    simp only [Function.comp, hp.host.k0_eq]
    push_cast
    field_simp
  · rw [Finset.sum_range]
    refine Finset.sum_congr rfl fun j _ => ?_
    simp [Particle1.shape]

/-- C107: the derivative with respect to the permittivity of the host. -/
theorem C107_host {V : ℕ → Wave} (hp : PassiveAt p k0 e0) (h : ChannelWaves p q n V) :
    HasDerivAt (fun e => coef q n (p.withHost e).layers)
      (∑ j ∈ Finset.range p.rLayers.length, (((p.rLayers.getD j 0 / (2 * e0) : ℝ) : ℂ) * radiusGrad p (k0 * Real.sqrt e0) q n V j -
        p.epsLayers.getD j 0 / e0 * epsGrad p (k0 * Real.sqrt e0) q n V j)) e0 := by
  obtain ⟨D, hD, hv⟩ := C107_gradient hp h
  set L := p.rLayers.length with hL
  have he := hp.host.env_pos
  have hec : (e0 : ℂ) ≠ 0 := by exact_mod_cast he.ne'
  have hc : HasDerivAt (fun e : ℝ => ((fun j => Real.sqrt (e / e0) * (p.shape L).1 j, fun j => ((e0 / e : ℝ) : ℂ) * (p.shape L).2 j) : Shape L))
      (fun j => (p.shape L).1 j / (2 * e0), fun j => -((p.shape L).2 j / e0)) e0 := by
    refine (hasDerivAt_pi.2 fun j => ?_).prodMk (hasDerivAt_pi.2 fun j => ?_)
    · have h1 : HasDerivAt (fun e : ℝ => Real.sqrt (e / e0)) (1 / e0 / (2 * Real.sqrt (e0 / e0))) e0 :=
        ((hasDerivAt_id e0).div_const e0).sqrt (by simp [he.ne'])
      refine (h1.mul_const _).congr_deriv ?_
      rw [div_self he.ne', Real.sqrt_one]
      field_simp
    · have h1 : HasDerivAt (fun e : ℝ => e0 / e) (-(1 / e0)) e0 := by
        have := (hasDerivAt_inv he.ne').const_mul e0
        refine (this.congr_deriv ?_)
        field_simp
      refine (h1.ofReal_comp.mul_const _).congr_deriv ?_
      push_cast
      ring
  have hx : ((fun j => Real.sqrt (e0 / e0) * (p.shape L).1 j, fun j => ((e0 / e0 : ℝ) : ℂ) * (p.shape L).2 j) : Shape L) = p.shape L := by
    simp [he.ne']
  have h1 := HasFDerivAt.comp_hasDerivAt e0 (by rw [hx]; exact hD) hc
  rw [hv] at h1
  refine (h1.congr_of_eventuallyEq ?_).congr_deriv ?_
  · filter_upwards [lt_mem_nhds he] with e hpos
    simp only [Function.comp, Particle1.shape]
    congr 1
    have e1 : (List.ofFn fun j : Fin L => Real.sqrt (e / e0) * p.rLayers.getD j 0) = p.rLayers.map (Real.sqrt (e / e0) * ·) := by
      conv_rhs => rw [← ofFn_getD p.rLayers 0 hL.symm]
      rw [List.map_ofFn]; rfl
    have e2 : (List.ofFn fun j : Fin L => ((e0 / e : ℝ) : ℂ) * p.epsLayers.getD j 0) = p.epsLayers.map (((e0 / e : ℝ) : ℂ) * ·) := by
      conv_rhs => rw [← ofFn_getD p.epsLayers 0 hp.len]
      rw [List.map_ofFn]; rfl
    have s0 : 0 < Real.sqrt e0 := Real.sqrt_pos.2 he
    have s1 : 0 < Real.sqrt e := Real.sqrt_pos.2 hpos
    have c0 : (Real.sqrt e0 : ℂ) ≠ 0 := by exact_mod_cast s0.ne'
    have c1 : (Real.sqrt e : ℂ) ≠ 0 := by exact_mod_cast s1.ne'
    simp only [Particle1.layers, layersOf, Particle1.withHost]
    rw [e1, e2, List.map_map, List.map_map, hp.host.env_eq, csqrt_ofReal he.le, csqrt_ofReal hpos.le]
    congr 1
    · refine List.map_congr_left fun x _ => ?_
      simp only [Function.comp]
      have : ((e0 / e : ℝ) : ℂ) = ((Real.sqrt e0 / Real.sqrt e : ℝ) : ℂ) ^ 2 := by
        rw [← ofReal_pow, div_pow, Real.sq_sqrt he.le, Real.sq_sqrt hpos.le]
      rw [this, csqrt_dilute (div_pos s0 s1)]
      push_cast
      field_simp
    · refine List.map_congr_left fun r _ => ?_
      simp only [Function.comp]
      rw [Real.sqrt_div hpos.le]
      push_cast
      field_simp
  · rw [Finset.sum_range]
    refine Finset.sum_congr rfl fun j _ => ?_
    simp only [Particle1.shape]
    push_cast
    ring

/-! ## Calls -/

/-- The same particle at all wavenumbers. -/
noncomputable def k0Fam (p : Particle1) : ParticleFam ℝ :=
  ⟨fun k => (k : ℂ), p.rLayers.map fun r _ => r, p.epsLayers.map fun e _ => e, fun _ => p.epsEnv⟩

/-- The same particle in all transparent hosts. -/
noncomputable def envFam (p : Particle1) : ParticleFam ℝ :=
  ⟨fun _ => p.k0, p.rLayers.map fun r _ => r, p.epsLayers.map fun e _ => e, fun e => (e : ℂ)⟩

theorem k0Fam_at (k : ℝ) : (k0Fam p).at k = p.withK0 k := by
  simp [k0Fam, ParticleFam.at, Particle1.withK0, List.map_map, Function.comp_def]

theorem envFam_at (e : ℝ) : (envFam p).at e = p.withHost e := by
  simp [envFam, ParticleFam.at, Particle1.withHost, List.map_map, Function.comp_def]

theorem k0Fam_analytic (k : ℝ) : AnalyticFam ℝ (k0Fam p) k := by
  refine ⟨ofRealCLM.contDiff.contDiffAt, contDiffAt_const, ?_, ?_⟩
  · intro r hr
    obtain ⟨r, -, rfl⟩ := List.mem_map.1 hr
    exact contDiffAt_const
  · intro x hx
    obtain ⟨e, -, rfl⟩ := List.mem_map.1 hx
    exact contDiffAt_const

theorem envFam_analytic (e : ℝ) : AnalyticFam ℝ (envFam p) e := by
  refine ⟨contDiffAt_const, ofRealCLM.contDiff.contDiffAt, ?_, ?_⟩
  · intro r hr
    obtain ⟨r, -, rfl⟩ := List.mem_map.1 hr
    exact contDiffAt_const
  · intro x hx
    obtain ⟨e, -, rfl⟩ := List.mem_map.1 hx
    exact contDiffAt_const

/-- C107 for calls of any backend that solve the interface problem: gradients of the returned coefficients with respect to `k0`. -/
theorem C107_wavenumber_run {N : ℕ} {o : ℝ → MieOut} {V : ℕ → Pol → ℕ → Wave} (hp : PassiveAt p k0 e0)
    (hr : ∀ᶠ k in 𝓝 k0, ExactRun (p.withK0 k) (o k) ∧ (o k).nMax.toNat = N)
    (hV : ∀ i < N, ∀ q, ChannelWaves p q (i + 1) (V i q)) {i : ℕ} (hi : i < N) :
    HasDerivAt (fun k => (o k).a.getD i 0) (∑ j ∈ Finset.range p.rLayers.length,
      ((p.rLayers.getD j 0 / k0 : ℝ) : ℂ) * radiusGrad p (k0 * Real.sqrt e0) .tm (i + 1) (V i .tm) j) k0 ∧
    HasDerivAt (fun k => (o k).b.getD i 0) (∑ j ∈ Finset.range p.rLayers.length,
      ((p.rLayers.getD j 0 / k0 : ℝ) : ℂ) * radiusGrad p (k0 * Real.sqrt e0) .te (i + 1) (V i .te) j) k0 := by
  have hl : ∀ k : ℝ, 0 < k → ∀ l ∈ (p.withK0 k).layers, l.1 ≠ 0 ∧ l.2 ≠ 0 := fun k hk =>
    layers_ne (k0 := k) (e0 := e0) ⟨rfl, hk, hp.host.env_eq, hp.host.env_pos, hp.host.radii⟩ hp.nonzero
  constructor
  · refine (C107_wavenumber hp (hV i hi .tm)).congr_of_eventuallyEq ?_
    filter_upwards [hr, lt_mem_nhds hp.host.k0_pos] with k h1 h2
    exact (run_getD h1.1 (hl k h2) (by omega)).1
  · refine (C107_wavenumber hp (hV i hi .te)).congr_of_eventuallyEq ?_
    filter_upwards [hr, lt_mem_nhds hp.host.k0_pos] with k h1 h2
    exact (run_getD h1.1 (hl k h2) (by omega)).2

/-- C107 for calls: gradients of the returned coefficients with respect to `eps_env`. -/
theorem C107_host_run {N : ℕ} {o : ℝ → MieOut} {V : ℕ → Pol → ℕ → Wave} (hp : PassiveAt p k0 e0)
    (hr : ∀ᶠ e in 𝓝 e0, ExactRun (p.withHost e) (o e) ∧ (o e).nMax.toNat = N)
    (hV : ∀ i < N, ∀ q, ChannelWaves p q (i + 1) (V i q)) {i : ℕ} (hi : i < N) :
    HasDerivAt (fun e => (o e).a.getD i 0) (∑ j ∈ Finset.range p.rLayers.length,
      (((p.rLayers.getD j 0 / (2 * e0) : ℝ) : ℂ) * radiusGrad p (k0 * Real.sqrt e0) .tm (i + 1) (V i .tm) j -
        p.epsLayers.getD j 0 / e0 * epsGrad p (k0 * Real.sqrt e0) .tm (i + 1) (V i .tm) j)) e0 ∧
    HasDerivAt (fun e => (o e).b.getD i 0) (∑ j ∈ Finset.range p.rLayers.length,
      (((p.rLayers.getD j 0 / (2 * e0) : ℝ) : ℂ) * radiusGrad p (k0 * Real.sqrt e0) .te (i + 1) (V i .te) j -
        p.epsLayers.getD j 0 / e0 * epsGrad p (k0 * Real.sqrt e0) .te (i + 1) (V i .te) j)) e0 := by
  have hl : ∀ e : ℝ, 0 < e → ∀ l ∈ (p.withHost e).layers, l.1 ≠ 0 ∧ l.2 ≠ 0 := fun e he =>
    layers_ne (k0 := k0) (e0 := e) ⟨hp.host.k0_eq, hp.host.k0_pos, rfl, he, hp.host.radii⟩ hp.nonzero
  constructor
  · refine (C107_host hp (hV i hi .tm)).congr_of_eventuallyEq ?_
    filter_upwards [hr, lt_mem_nhds hp.host.env_pos] with e h1 h2
    exact (run_getD h1.1 (hl e h2) (by omega)).1
  · refine (C107_host hp (hV i hi .te)).congr_of_eventuallyEq ?_
    filter_upwards [hr, lt_mem_nhds hp.host.env_pos] with e h1 h2
    exact (run_getD h1.1 (hl e h2) (by omega)).2

/-- C107 end to end: the torch backend with exact special functions on a passive core-shell particle. -/
theorem C107_torch {r r' : ℝ} {ε ε' : ℂ} (hp : PassiveAt p k0 e0) (hr : p.rLayers = [r, r']) (he : p.epsLayers = [ε, ε'])
    (K : D1Kernel) (N : ℕ) :
    ∃ (o o' : ℝ → MieOut) (V : ℕ → Pol → ℕ → Wave),
      (∀ᶠ k in 𝓝 k0, mieCoefficients K exactBackends (p.withK0 k) "torch" "recurrence" (some ((N + 1 : ℕ) : ℤ)) = .ok (o k)) ∧
      (∀ᶠ e in 𝓝 e0, mieCoefficients K exactBackends (p.withHost e) "torch" "recurrence" (some ((N + 1 : ℕ) : ℤ)) = .ok (o' e)) ∧
      (∀ i q, ChannelWaves p q (i + 1) (V i q)) ∧ ∀ i < N + 1,
      (HasDerivAt (fun k => (o k).a.getD i 0) (∑ j ∈ Finset.range 2,
        ((p.rLayers.getD j 0 / k0 : ℝ) : ℂ) * radiusGrad p (k0 * Real.sqrt e0) .tm (i + 1) (V i .tm) j) k0 ∧
      HasDerivAt (fun k => (o k).b.getD i 0) (∑ j ∈ Finset.range 2,
        ((p.rLayers.getD j 0 / k0 : ℝ) : ℂ) * radiusGrad p (k0 * Real.sqrt e0) .te (i + 1) (V i .te) j) k0) ∧
      HasDerivAt (fun e => (o' e).a.getD i 0) (∑ j ∈ Finset.range 2,
        (((p.rLayers.getD j 0 / (2 * e0) : ℝ) : ℂ) * radiusGrad p (k0 * Real.sqrt e0) .tm (i + 1) (V i .tm) j -
          p.epsLayers.getD j 0 / e0 * epsGrad p (k0 * Real.sqrt e0) .tm (i + 1) (V i .tm) j)) e0 ∧
      HasDerivAt (fun e => (o' e).b.getD i 0) (∑ j ∈ Finset.range 2,
        (((p.rLayers.getD j 0 / (2 * e0) : ℝ) : ℂ) * radiusGrad p (k0 * Real.sqrt e0) .te (i + 1) (V i .te) j -
          p.epsLayers.getD j 0 / e0 * epsGrad p (k0 * Real.sqrt e0) .te (i + 1) (V i .te) j)) e0 := by
  have hL : p.rLayers.length = 2 := by rw [hr]; rfl
  obtain ⟨W, hW⟩ := exists_allWaves hp.host hp.inc hp.len hp.ne hp.passive hp.nonzero
  have hk : p.withK0 k0 = p := by
    rw [Particle1.withK0, ← hp.host.k0_eq]
  have hh : p.withHost e0 = p := by
    rw [Particle1.withHost, ← hp.host.env_eq]
  have at1 : PassiveAt ((k0Fam p).at k0) k0 e0 := by rw [k0Fam_at, hk]; exact hp
  have at2 : PassiveAt ((envFam p).at e0) k0 e0 := by rw [envFam_at, hh]; exact hp
  obtain ⟨o, hn, ho⟩ := C73_torch_succeeds (k0Fam_analytic (p := p) k0) at1 (r := fun _ => r) (r' := fun _ => r')
    (e := fun _ => ε) (e' := fun _ => ε') (by rw [k0Fam, hr]; rfl) (by rw [k0Fam, he]; rfl) K N
  obtain ⟨o', hn', ho'⟩ := C73_torch_succeeds (envFam_analytic (p := p) e0) at2 (r := fun _ => r) (r' := fun _ => r')
    (e := fun _ => ε) (e' := fun _ => ε') (by rw [envFam, hr]; rfl) (by rw [envFam, he]; rfl) K N
  have hx := hn.exact (k0Fam_analytic k0) at1
  have hx' := hn'.exact (envFam_analytic e0) at2
  simp only [k0Fam_at] at ho hx
  simp only [envFam_at] at ho' hx'
  refine ⟨o, o', fun i q j => W j (i + 1) q, ho, ho', fun i q => hW.channel i q, fun i hi => ?_⟩
  have h1 := C107_wavenumber_run hp hx (V := fun i q j => W j (i + 1) q) (fun i _ q => hW.channel i q) hi
  have h2 := C107_host_run hp hx' (V := fun i q j => W j (i + 1) q) (fun i _ q => hW.channel i q) hi
  rw [hL] at h1 h2
  exact ⟨h1, h2⟩

end

/-! ## Examples -/

/-- The glass sphere of radius 2 at wavenumber 1 in vacuum: one interface. -/
example (i : ℕ) (q : Pol) : ∃ V, ChannelWaves glassSphere q (i + 1) V ∧
    HasDerivAt (fun k => coef q (i + 1) (glassSphere.withK0 k).layers) (2 * radiusGrad glassSphere 1 q (i + 1) V 0) 1 ∧
    HasDerivAt (fun e => coef q (i + 1) (glassSphere.withHost e).layers)
      (radiusGrad glassSphere 1 q (i + 1) V 0 - 4 * epsGrad glassSphere 1 q (i + 1) V 0) 1 := by
  have hp := glass_passive
  obtain ⟨W, hW⟩ := exists_allWaves hp.host hp.inc hp.len hp.ne hp.passive hp.nonzero
  have h1 := C107_wavenumber hp (hW.channel i q)
  have h2 := C107_host hp (hW.channel i q)
  have hL : glassSphere.rLayers.length = 1 := rfl
  rw [hL, Finset.sum_range_one] at h1 h2
  refine ⟨_, hW.channel i q, ?_, ?_⟩
  · simpa [glassSphere] using h1
  · simpa [glassSphere] using h2

/-- A glass core in an absorbing shell satisfies the hypotheses of `C107_torch`. -/
theorem absorbCoat_passive : PassiveAt ⟨1, [1, 2], [4, 2 + I], 1⟩ 1 1 := by
  refine ⟨⟨by simp, one_pos, by simp, one_pos, by simp⟩, by simp [strictlyIncreasing], rfl, by simp, by simp, ?_⟩
  intro e he
  simp only [List.mem_cons, List.not_mem_nil, or_false] at he
  rcases he with rfl | rfl
  · norm_num
  · intro h; simpa using congrArg Complex.im h

theorem absorbCoat_runs {F : ParticleFam ℝ} {t0 : ℝ} {r r' : ℝ → ℝ} {e e' : ℝ → ℂ} (hF : AnalyticFam ℝ F t0)
    (h0 : F.at t0 = ⟨1, [1, 2], [4, 2 + I], 1⟩) (hr : F.r = [r, r']) (he : F.eps = [e, e']) (K : D1Kernel) (N : ℕ) :
    ∃ (o : ℝ → MieOut) (V : ℕ → Pol → ℕ → Wave),
      (∀ᶠ t in 𝓝 t0, mieCoefficients K exactBackends (F.at t) "torch" "recurrence" (some ((N + 1 : ℕ) : ℤ)) = .ok (o t)) ∧
      (∀ᶠ t in 𝓝 t0, ExactRun (F.at t) (o t) ∧ (o t).nMax.toNat = N + 1) ∧
      ∀ i < N + 1, ∀ q, ChannelWaves ⟨1, [1, 2], [4, 2 + I], 1⟩ q (i + 1) (V i q) := by
  have hp := absorbCoat_passive
  have hat : PassiveAt (F.at t0) 1 1 := by rw [h0]; exact hp
  obtain ⟨W, hW⟩ := exists_allWaves hp.host hp.inc hp.len hp.ne hp.passive hp.nonzero
  obtain ⟨o, hn, ho⟩ := C73_torch_succeeds hF hat hr he K N
  exact ⟨o, fun i q j => W j (i + 1) q, ho, hn.exact hF hat, fun i _ q => hW.channel i q⟩

/-- C94, torch: derivative of the returned coefficients of the coated particle with respect to its outer radius. -/
example (K : D1Kernel) (N : ℕ) : ∃ (o : ℝ → MieOut) (V : ℕ → Pol → ℕ → Wave),
    (∀ᶠ r in 𝓝 (2 : ℝ), mieCoefficients K exactBackends ⟨1, [1, r], [4, 2 + I], 1⟩ "torch" "recurrence"
      (some ((N + 1 : ℕ) : ℤ)) = .ok (o r)) ∧
    ∀ i < N + 1, ∃ d, HasDerivAt (fun r => (o r).a.getD i 0) d 2 ∧
      d = -I * (1 + I) * overlap .tm (i + 1) (csqrt (2 + I)) (V i .tm 1) 1 (V i .tm 2) 2 := by
  obtain ⟨o, V, ho, hx, hV⟩ := absorbCoat_runs (F := ⟨fun _ => 1, [fun _ => 1, fun r => r], [fun _ => 4, fun _ => 2 + I], fun _ => 1⟩)
    (t0 := 2) ⟨contDiffAt_const, contDiffAt_const, by
      simp only [List.mem_cons, List.not_mem_nil, or_false, forall_eq_or_imp, forall_eq]
      exact ⟨contDiffAt_const, Complex.ofRealCLM.contDiff.contDiffAt⟩, by simp [contDiffAt_const]⟩
    (by simp [ParticleFam.at]) rfl rfl K N
  refine ⟨o, V, ho, fun i hi => ?_⟩
  have := (C94_radius_run absorbCoat_passive.particle (j := 1) (by simp) hx hV hi).1
  refine ⟨_, this, ?_⟩
  have e1 : csqrt (1 : ℂ) = 1 := by
    have := csqrt_ofReal (e := 1) zero_le_one
    simpa using this
  have e2 : (2 + I - 1 : ℂ) = 1 + I := by ring
  simp [Particle1.region, Particle1.indices, Particle1.size, Particle1.layers, layersOf, Particle1.radius, e1, e2]

end MieDiff
