import Verif.Proofs.GradFam
import Verif.Props.Analytic

/-!
# C77: gradients through the truncated recurrence

The solver differentiates its own truncated recurrences.  `depthD1 N` is the code with `n_add = N`.  As `N` grows, not only the
results but their derivatives with respect to every parameter converge to those of the exact solution of the interface problem.
-/

namespace MieDiff

open Complex Spec Filter Topology

variable {V : Type*} [NormedAddCommGroup V] [NormedSpace ℝ V] {F : ParticleFam V} {v0 : V} {n : ℕ} {o : ℕ → V → MieOut}

/-- The parameters are differentiable at `v0`.  For the refractive indices see `csqrt_smooth`: it is enough that the
permittivity is not a negative real number, or that it is constant. -/
structure SmoothFam (F : ParticleFam V) (v0 : V) : Prop where
  k0 : DifferentiableAt ℝ F.k0 v0
  env : DifferentiableAt ℝ (fun v => csqrt (F.env v)) v0
  r : ∀ r ∈ F.r, DifferentiableAt ℝ r v0
  eps : ∀ e ∈ F.eps, DifferentiableAt ℝ (fun v => csqrt (e v)) v0

theorem csqrt_smooth {e : V → ℂ} (he : DifferentiableAt ℝ e v0) (h : e v0 ∈ slitPlane) :
    DifferentiableAt ℝ (fun v => csqrt (e v)) v0 := by
  have h1 : DifferentiableAt ℂ csqrt (e v0) := differentiableAt_id.cpow_const (c := (1 / 2 : ℂ)) h
  exact DifferentiableAt.comp (g := csqrt) (f := e) v0 (h1.restrictScalars ℝ) he

/-- Calls of the pena backend at every depth and for all parameters near `v0`, truncated at order `n`. -/
structure PenaCalls (F : ParticleFam V) (v0 : V) (n : ℕ) (o : ℕ → V → MieOut) : Prop where
  call : ∃ B backend w nMax ri, backend.toLower = "pena" ∧ ∀ N, 1 ≤ N → ∀ᶠ v in 𝓝 v0,
    mieCoefficients (depthD1 N) B (F.at v) backend w nMax ri = .ok (o N v) ∧ (o N v).nMax = n

/-- The layers as functions of the parameters. -/
noncomputable def ParticleFam.layerFam (F : ParticleFam V) : LayerFam V :=
  (F.eps.map fun e v => csqrt (e v) / csqrt (F.env v)).zip (F.r.map fun r v => F.k0 v * csqrt (F.env v) * (r v : ℂ))

omit [NormedAddCommGroup V] [NormedSpace ℝ V] in
theorem zip_at (k : V → ℂ) (s : V → ℂ) (v : V) : ∀ (es : List (V → ℂ)) (rs : List (V → ℝ)),
    LayerFam.at' ((es.map fun e v => csqrt (e v) / s v).zip (rs.map fun r v => k v * s v * (r v : ℂ))) v =
      ((es.map (· v)).map fun e => csqrt e / s v).zip ((rs.map (· v)).map fun (r : ℝ) => k v * s v * (r : ℂ))
  | [], _ => by simp [LayerFam.at']
  | _ :: _, [] => by simp [LayerFam.at']
  | e :: es, r :: rs => by
    have := zip_at k s v es rs
    simp only [LayerFam.at', List.map_cons, List.zip_cons_cons] at this ⊢
    rw [this]

omit [NormedAddCommGroup V] [NormedSpace ℝ V] in
theorem layerFam_at (F : ParticleFam V) (v : V) : F.layerFam.at' v = (F.at v).layers :=
  zip_at F.k0 (fun v => csqrt (F.env v)) v F.eps F.r

theorem ofReal_diff {f : V → ℝ} (hf : DifferentiableAt ℝ f v0) : DifferentiableAt ℝ (fun v => (f v : ℂ)) v0 :=
  DifferentiableAt.comp (g := ofRealCLM) (f := f) v0 ofRealCLM.differentiableAt hf

theorem inv_diff {f : V → ℂ} (hf : DifferentiableAt ℝ f v0) (h0 : f v0 ≠ 0) : DifferentiableAt ℝ (fun v => (f v)⁻¹) v0 := by
  have h1 : DifferentiableAt ℂ (fun z : ℂ => z⁻¹) (f v0) := differentiableAt_id.inv h0
  exact DifferentiableAt.comp (g := fun z : ℂ => z⁻¹) (f := f) v0 (h1.restrictScalars ℝ) hf

omit [NormedAddCommGroup V] [NormedSpace ℝ V] in
theorem env_ne (hc : SolverClear idealFn n (F.at v0).layers) : csqrt (F.env v0) ≠ 0 ∧ F.k0 v0 ≠ 0 := by
  have hne := SolverClear.ne hc
  rcases hl : (F.at v0).layers with _ | ⟨l, rest⟩
  · rw [hl] at hc
    exact hc.elim
  · have hm : l ∈ (F.at v0).layers := by rw [hl]; simp
    obtain ⟨a, b⟩ := hne l hm
    obtain ⟨h1, h2⟩ := List.of_mem_zip (by exact hm : (l.1, l.2) ∈ _)
    obtain ⟨e, -, h1⟩ := List.mem_map.1 h1
    obtain ⟨r, -, h2⟩ := List.mem_map.1 h2
    refine ⟨fun h0 => a ?_, fun h0 => b ?_⟩
    · rw [← h1]
      change csqrt e / csqrt (F.env v0) = 0
      rw [h0, div_zero]
    · rw [← h2]
      change F.k0 v0 * csqrt (F.env v0) * (r : ℂ) = 0
      rw [h0, zero_mul, zero_mul]

theorem layerFam_diff (hF : SmoothFam F v0) (h0 : csqrt (F.env v0) ≠ 0) :
    ∀ l ∈ F.layerFam, DifferentiableAt ℝ l.1 v0 ∧ DifferentiableAt ℝ l.2 v0 := by
  intro l hl
  obtain ⟨h1, h2⟩ := List.of_mem_zip (by exact hl : (l.1, l.2) ∈ _)
  obtain ⟨e, he, h1⟩ := List.mem_map.1 h1
  obtain ⟨r, hr, h2⟩ := List.mem_map.1 h2
  rw [← h1, ← h2]
  refine ⟨?_, (hF.k0.mul hF.env).mul (ofReal_diff (hF.r r hr))⟩
  simp only [div_eq_mul_inv]
  exact (hF.eps e he).mul (inv_diff hF.env h0)

omit [NormedSpace ℝ V] in
/-- What the calls return. -/
theorem PenaCalls.eval (h : PenaCalls F v0 n o) {N : ℕ} (hN : 1 ≤ N) : ∀ᶠ v in 𝓝 v0,
    (o N v).a.length = n ∧ (o N v).b.length = n ∧ (o N v).k = F.k0 v * csqrt (F.env v) ∧
      (o N v).rS = (F.at v).rLayers.getLastD 0 ∧ ∀ i, 1 ≤ i → i ≤ n →
        (o N v).a.getD (i - 1) 0 = coefAt (depthFn n N) .tm i (F.layerFam.at' v) ∧
        (o N v).b.getD (i - 1) 0 = coefAt (depthFn n N) .te i (F.layerFam.at' v) := by
  obtain ⟨B, backend, w, nMax, ri, hb, hcall⟩ := h.call
  filter_upwards [hcall N hN] with v hv
  have run := mieCoefficients_pena_inv hb hv.1
  have hn : (o N v).nMax.toNat = n := by rw [hv.2]; simp
  obtain ⟨l, rest, hl⟩ := run.layers_cons
  obtain ⟨ea, eb⟩ := run.coefs (D := depthFn n N) (by rw [hn]; exact depthD1_fun n N hN) hl
  rw [hn] at ea eb
  rw [layerFam_at, hl]
  refine ⟨by rw [ea]; simp, by rw [eb]; simp, run.k, run.rS, fun i h1 hi => ?_⟩
  rw [ea, eb]
  exact ⟨getD_order (coefFn (depthFn n N) .tm (hFinal (depthFn n N) l rest)) h1 hi,
    getD_order (coefFn (depthFn n N) .te (hFinal (depthFn n N) l rest)) h1 hi⟩

theorem coefAt_solves {layers : List (ℂ × ℂ)} (q : Pol) {i : ℕ} (h1 : 1 ≤ i) (hi : i ≤ n)
    (hc : SolverClear idealFn n layers) :
    (∃! a, Solves q i layers a) ∧ coefAt idealFn q i layers = coef q i layers := by
  cases layers with
  | nil => exact hc.elim
  | cons l rest =>
    have hs := coefFn_solves q h1 hi (SolverClear.ne hc) hc
    exact ⟨⟨_, hs, fun a ha => ha.unique (SolverClear.ne hc) hs⟩, (coef_eq (SolverClear.ne hc) hs).symm⟩

/-- C77: near the given parameters the exact coefficient exists and is unique, and as the recurrence depth grows the
coefficients returned by the code and their derivatives in every direction of parameter space converge to the exact coefficient
and its derivatives.  This holds for every number of layers. -/
theorem C77_coefficients (hF : SmoothFam F v0) (h : PenaCalls F v0 n o)
    (hc : SolverClear idealFn n (F.at v0).layers) (hd : ∀ z ∈ kernelArgs (F.at v0).layers, D1Clear z)
    {i : ℕ} (h1 : 1 ≤ i) (hi : i ≤ n) :
    (∀ᶠ v in 𝓝 v0, ∀ q, ∃! a, Solves q i (F.at v).layers a) ∧
    GradConv (fun N v => (o N v).a.getD (i - 1) 0) (fun v => coef .tm i (F.at v).layers) v0 ∧
    GradConv (fun N v => (o N v).b.getD (i - 1) 0) (fun v => coef .te i (F.at v).layers) v0 := by
  have hl := layerFam_diff hF (env_ne hc).1
  rw [← layerFam_at] at hc hd
  have key := fun q => coefAt_grad q h1 hi hl hd hc
  have hnear := (key .tm).2
  simp only [layerFam_at] at hnear
  refine ⟨hnear.mono fun v hv q => (coefAt_solves q h1 hi hv).1, (key .tm).1.congr ?_ ?_, (key .te).1.congr ?_ ?_⟩
  · filter_upwards [eventually_ge_atTop 1] with N hN
    filter_upwards [h.eval hN] with v hv using (hv.2.2.2.2 i h1 hi).1
  · filter_upwards [hnear] with v hv
    rw [layerFam_at, (coefAt_solves .tm h1 hi hv).2]
  · filter_upwards [eventually_ge_atTop 1] with N hN
    filter_upwards [h.eval hN] with v hv using (hv.2.2.2.2 i h1 hi).2
  · filter_upwards [hnear] with v hv
    rw [layerFam_at, (coefAt_solves .te h1 hi hv).2]

/-! ## Cross sections -/

theorem mpSum_eq {k : ℂ} {c : List ℂ} {N : ℕ} (g : ℂ → ℝ) (hlen : c.length = N) :
    (mpTerms k (c.map fun z => (g z : ℂ))).sum =
      ∑ i ∈ Finset.range N, 2 * (Real.pi : ℂ) * (k ^ 2)⁻¹ * (2 * ((i : ℂ) + 1) + 1) * (g (c.getD i 0) : ℂ) := by
  rw [mpTerms, sum_mapIdx_range, List.length_map, hlen]
  refine Finset.sum_congr rfl fun i hi' => ?_
  have hlt : i < c.length := by rw [hlen]; exact Finset.mem_range.1 hi'
  rw [List.getD_eq_getElem?_getD, List.getElem?_map, List.getElem?_eq_getElem hlt, List.getD_eq_getElem?_getD,
    List.getElem?_eq_getElem hlt]
  simp [div_eq_mul_inv]

theorem mpSum_grad {k : V → ℂ} (hk : DifferentiableAt ℝ k v0) (hk0 : k v0 ≠ 0) (g : ℂ → ℝ) {c : ℕ → V → List ℂ}
    {k' : ℕ → V → ℂ} {c' : V → List ℂ} (hck : ∀ N, 1 ≤ N → ∀ᶠ v in 𝓝 v0, (c N v).length = n ∧ k' N v = k v)
    (hc' : ∀ v, (c' v).length = n)
    (hg : ∀ i < n, GradConv (fun N v => g ((c N v).getD i 0)) (fun v => g ((c' v).getD i 0)) v0) :
    GradConv (fun N v => (mpTerms (k' N v) ((c N v).map fun z => (g z : ℂ))).sum)
      (fun v => (mpTerms (k v) ((c' v).map fun z => (g z : ℂ))).sum) v0 := by
  have hp : DifferentiableAt ℝ (fun v => 2 * (Real.pi : ℂ) * (k v ^ 2)⁻¹) v0 :=
    (differentiableAt_const _).mul (inv_diff (hk.pow 2) (pow_ne_zero 2 hk0))
  have h1 := GradConv.sum (v0 := v0) (Finset.range n)
    (f := fun i N v => 2 * (Real.pi : ℂ) * (k v ^ 2)⁻¹ * (2 * ((i : ℂ) + 1) + 1) * (g ((c N v).getD i 0) : ℂ))
    (g := fun i v => 2 * (Real.pi : ℂ) * (k v ^ 2)⁻¹ * (2 * ((i : ℂ) + 1) + 1) * (g ((c' v).getD i 0) : ℂ)) (by
      intro i hi
      have h2 := (hg i (Finset.mem_range.1 hi)).clm ofRealCLM
      exact (GradConv.of_const (hp.mul (differentiableAt_const (2 * ((i : ℂ) + 1) + 1)))).mul h2)
  refine h1.congr ?_ (Eventually.of_forall fun v => mpSum_eq g (hc' v))
  filter_upwards [eventually_ge_atTop 1] with N hN
  filter_upwards [hck N hN] with v hv
  rw [mpSum_eq g hv.1, hv.2]

/-- Cross sections of the exact coefficients of the first `n` orders. -/
noncomputable def exactCross (n : ℕ) (p : Particle1) : CrossSections :=
  crossSections (p.k0 * csqrt p.epsEnv) (p.rLayers.getLastD 0) ((List.range n).map fun i => coef .tm (i + 1) p.layers)
    ((List.range n).map fun i => coef .te (i + 1) p.layers)

theorem crossQ (k : ℂ) (r : ℝ) (a b : List ℂ) :
    (crossSections k r a b).qExt = (crossSections k r a b).csExt * (crossSections k r a b).csGeo⁻¹ ∧
    (crossSections k r a b).qSca = (crossSections k r a b).csSca * (crossSections k r a b).csGeo⁻¹ ∧
    (crossSections k r a b).qAbs = (crossSections k r a b).csAbs * (crossSections k r a b).csGeo⁻¹ :=
  ⟨rfl, rfl, rfl⟩

/-- C77 for the observables: cross sections and efficiencies and their gradients converge to those of the exact
coefficients. -/
theorem C77_cross_sections (hF : SmoothFam F v0) (h : PenaCalls F v0 n o)
    (hc : SolverClear idealFn n (F.at v0).layers) (hd : ∀ z ∈ kernelArgs (F.at v0).layers, D1Clear z) :
    let cs := fun N v => crossSections (o N v).k (o N v).rS (o N v).a (o N v).b
    let ex := fun v => exactCross n (F.at v)
    GradConv (fun N v => (cs N v).csExt) (fun v => (ex v).csExt) v0 ∧
    GradConv (fun N v => (cs N v).csSca) (fun v => (ex v).csSca) v0 ∧
    GradConv (fun N v => (cs N v).csAbs) (fun v => (ex v).csAbs) v0 ∧
    GradConv (fun N v => (cs N v).qExt) (fun v => (ex v).qExt) v0 ∧
    GradConv (fun N v => (cs N v).qSca) (fun v => (ex v).qSca) v0 ∧
    GradConv (fun N v => (cs N v).qAbs) (fun v => (ex v).qAbs) v0 := by
  intro cs ex
  obtain ⟨hs0, hk0⟩ := env_ne hc
  have hk : DifferentiableAt ℝ (fun v => F.k0 v * csqrt (F.env v)) v0 := hF.k0.mul hF.env
  have hkne : F.k0 v0 * csqrt (F.env v0) ≠ 0 := mul_ne_zero hk0 hs0
  have gc : ∀ i < n, GradConv (fun N v => (o N v).a.getD i 0)
      (fun v => ((List.range n).map fun i => coef .tm (i + 1) (F.at v).layers).getD i 0) v0 ∧
      GradConv (fun N v => (o N v).b.getD i 0)
      (fun v => ((List.range n).map fun i => coef .te (i + 1) (F.at v).layers).getD i 0) v0 := by
    intro i hi
    have := (C77_coefficients hF h hc hd (i := i + 1) (by omega) (by omega)).2
    simp only [Nat.add_sub_cancel] at this
    have e : ∀ q v, ((List.range n).map fun i => coef q (i + 1) (F.at v).layers).getD i 0 =
        coef q (i + 1) (F.at v).layers := fun q v => by
      have := getD_order (n := n) (i := i + 1) (fun j => coef q j (F.at v).layers) (by omega) (by omega)
      simpa using this
    simpa only [e] using this
  have la : ∀ N, 1 ≤ N → ∀ᶠ v in 𝓝 v0, (o N v).a.length = n ∧ (o N v).k = F.k0 v * csqrt (F.env v) :=
    fun N hN => (h.eval hN).mono fun v hv => ⟨hv.1, hv.2.2.1⟩
  have lb : ∀ N, 1 ≤ N → ∀ᶠ v in 𝓝 v0, (o N v).b.length = n ∧ (o N v).k = F.k0 v * csqrt (F.env v) :=
    fun N hN => (h.eval hN).mono fun v hv => ⟨hv.2.1, hv.2.2.1⟩
  have hext : GradConv (fun N v => (cs N v).csExt) (fun v => (ex v).csExt) v0 :=
    ((mpSum_grad hk hkne re la (by simp) fun i hi => (gc i hi).1.re).add
      (mpSum_grad hk hkne re lb (by simp) fun i hi => (gc i hi).2.re)).re
  have hsca : GradConv (fun N v => (cs N v).csSca) (fun v => (ex v).csSca) v0 :=
    ((mpSum_grad hk hkne (fun z => ‖z‖ ^ 2) la (by simp) fun i hi => (gc i hi).1.normSq).add
      (mpSum_grad hk hkne (fun z => ‖z‖ ^ 2) lb (by simp) fun i hi => (gc i hi).2.normSq)).re
  have habs : GradConv (fun N v => (cs N v).csAbs) (fun v => (ex v).csAbs) v0 :=
    (hext.sub hsca).congr (Eventually.of_forall fun N => Eventually.of_forall fun v => abs_ext_sca _ _ _ _)
      (Eventually.of_forall fun v => abs_ext_sca _ _ _ _)
  have hrne : F.r ≠ [] := by
    intro h0
    have : (F.at v0).layers = [] := by simp [Particle1.layers, layersOf, ParticleFam.at, h0]
    rw [this] at hc
    exact hc.elim
  have hlast : ∀ v, (F.at v).rLayers.getLastD 0 = (F.r.getLast hrne) v := by
    intro v
    simp only [ParticleFam.at]
    rw [List.getLastD_eq_getLast?, List.getLast?_map, List.getLast?_eq_some_getLast hrne]
    rfl
  have hrpos : (F.r.getLast hrne) v0 ≠ 0 := by
    intro h0
    obtain ⟨B, backend, w, nMax, ri, hb, hcall⟩ := h.call
    have run := mieCoefficients_pena_inv hb (hcall 1 le_rfl).self_of_nhds.1
    have hlen : F.eps.length = F.r.length := by simpa [ParticleFam.at] using run.len
    have hne : F.eps ≠ [] := by
      intro h1
      rw [h1] at hlen
      exact hrne (List.length_eq_zero_iff.1 hlen.symm)
    have hmem : ((F.eps.getLast hne v0 |> csqrt) / csqrt (F.env v0),
        F.k0 v0 * csqrt (F.env v0) * ((F.r.getLast hrne v0 : ℝ) : ℂ)) ∈ (F.at v0).layers := by
      simp only [Particle1.layers, layersOf, ParticleFam.at, List.map_map]
      rw [List.mem_iff_getElem?]
      refine ⟨F.r.length - 1, ?_⟩
      have hp : 0 < F.r.length := List.length_pos_iff.2 hrne
      rw [List.getElem?_zip_eq_some]
      simp only [List.getElem?_map]
      constructor
      · rw [← hlen, ← List.getLast?_eq_getElem?, List.getLast?_eq_some_getLast hne]
        rfl
      · rw [← List.getLast?_eq_getElem?, List.getLast?_eq_some_getLast hrne]
        rfl
    have := (SolverClear.ne hc _ hmem).2
    rw [h0] at this
    simp at this
  have hgeo : GradConv (fun N v => (cs N v).csGeo⁻¹) (fun v => (ex v).csGeo⁻¹) v0 := by
    have hR : DifferentiableAt ℝ (fun v => (Real.pi * (F.r.getLast hrne v) ^ 2)⁻¹) v0 :=
      ((differentiableAt_const _).mul ((hF.r _ (List.getLast_mem hrne)).pow 2)).inv
        (mul_ne_zero Real.pi_ne_zero (pow_ne_zero 2 hrpos))
    refine (GradConv.of_const hR).congr ?_ (Eventually.of_forall fun v => ?_)
    · filter_upwards [eventually_ge_atTop 1] with N hN
      filter_upwards [h.eval hN] with v hv
      change (Real.pi * (o N v).rS ^ 2)⁻¹ = _
      rw [hv.2.2.2.1, hlast]
    · change (Real.pi * ((F.at v).rLayers.getLastD 0) ^ 2)⁻¹ = _
      rw [hlast]
  exact ⟨hext, hsca, habs, hext.mul hgeo, hsca.mul hgeo, habs.mul hgeo⟩

/-! ## The calls succeed -/

omit [NormedSpace ℝ V] in
theorem inc_near : ∀ {rs : List (V → ℝ)}, (∀ r ∈ rs, ContinuousAt r v0) → strictlyIncreasing (rs.map (· v0)) →
    ∀ᶠ v in 𝓝 v0, strictlyIncreasing (rs.map (· v))
  | [], _, _ => Eventually.of_forall fun _ => by simp [strictlyIncreasing]
  | [r], _, _ => Eventually.of_forall fun _ => by simp [strictlyIncreasing]
  | r :: r' :: rs, hc, h => by
    simp only [List.map_cons, strictlyIncreasing] at h ⊢
    have h1 := (hc r (by simp)).eventually_lt (hc r' (by simp)) h.1
    have h2 := inc_near (rs := r' :: rs) (fun q hq => hc q (List.mem_cons_of_mem _ hq)) (by simpa using h.2)
    filter_upwards [h1, h2] with v a b
    exact ⟨a, by simpa using b⟩

/-- C77: for an accepted particle and an explicit order the calls succeed for all parameters near the given ones. -/
theorem C77_calls_succeed (hF : SmoothFam F v0) (hinc : strictlyIncreasing (F.at v0).rLayers)
    (hlen : F.eps.length = F.r.length) (hne : F.r ≠ []) (B : Backends) (hn : 1 ≤ n) :
    ∃ o, PenaCalls F v0 n o ∧ ∀ N, 1 ≤ N → ∀ᶠ v in 𝓝 v0,
      mieCoefficients (depthD1 N) B (F.at v) "pena" "recurrence" (some (n : ℤ)) = .ok (o N v) := by
  have hcall : ∀ N v, ∃ out, 1 ≤ N → strictlyIncreasing (F.at v).rLayers →
      mieCoefficients (depthD1 N) B (F.at v) "pena" "recurrence" (some (n : ℤ)) = .ok out ∧ out.nMax = n := by
    intro N v
    by_cases hc : 1 ≤ N ∧ strictlyIncreasing (F.at v).rLayers
    · obtain ⟨out, ho⟩ := mieCoefficients_pena_ok (B := B) (w := "recurrence") (p := F.at v) (n := n) (depthD1_fun n N hc.1)
        (backend := "pena") (by decide +kernel) hn hc.2 (by simpa [ParticleFam.at] using hlen)
        (by simpa [ParticleFam.at] using hne)
      exact ⟨out, fun _ _ => ho⟩
    · exact ⟨⟨0, 0, 0, 0, 0, 0, 0, [], [], [], none⟩, fun h1 h2 => absurd ⟨h1, h2⟩ hc⟩
  choose o ho using hcall
  have hnear : ∀ᶠ v in 𝓝 v0, strictlyIncreasing (F.at v).rLayers :=
    inc_near (fun r hr => (hF.r r hr).continuousAt) hinc
  refine ⟨o, ⟨B, "pena", "recurrence", some (n : ℤ), false, by decide +kernel, fun N hN => ?_⟩, fun N hN => ?_⟩
  · filter_upwards [hnear] with v hv using ho N v hN hv
  · filter_upwards [hnear] with v hv using (ho N v hN hv).1

/-! ## A sphere with all parameters free -/

/-- Wavenumber, radius, real and imaginary part of the permittivity and host permittivity as parameters. -/
noncomputable def sphereFam : ParticleFam (Fin 5 → ℝ) where
  k0 t := t 0
  r := [fun t => t 1]
  eps := [fun t => t 2 + t 3 * I]
  env t := t 4

noncomputable def spherePoint : Fin 5 → ℝ := ![1, 1, qp ^ 2, 0, 1]

theorem sphere_at : sphereFam.at spherePoint = monoParticle := by
  simp [sphereFam, spherePoint, ParticleFam.at, monoParticle]

theorem sphere_smooth : SmoothFam sphereFam spherePoint := by
  have hc : ∀ i, DifferentiableAt ℝ (fun t : Fin 5 → ℝ => t i) spherePoint := fun i => differentiableAt_apply i _
  refine ⟨ofReal_diff (hc 0), csqrt_smooth (ofReal_diff (hc 4)) ?_, ?_, ?_⟩
  · exact ofReal_mem_slitPlane.2 (by simp [spherePoint])
  · intro r hr
    simp only [sphereFam, List.mem_cons, List.not_mem_nil, or_false] at hr
    rw [hr]
    exact hc 1
  · intro e he
    simp only [sphereFam, List.mem_cons, List.not_mem_nil, or_false] at he
    rw [he]
    refine csqrt_smooth ((ofReal_diff (hc 2)).add ((ofReal_diff (hc 3)).mul (differentiableAt_const _))) ?_
    have hq : 0 < qp := by linarith [qp_odd.big]
    left
    have e : (((spherePoint 2 : ℝ) : ℂ) + ((spherePoint 3 : ℝ) : ℂ) * I).re = qp ^ 2 := by
      rw [add_re, ofReal_re, re_ofReal_mul, I_re, mul_zero, add_zero]
      rfl
    rw [e]
    positivity

/-- The hypotheses hold for a homogeneous sphere of index `π/2`: the derivative of its scattering efficiency with respect to any
parameter is the limit of the derivatives the code computes. -/
example (B : Backends) : ∃ o : ℕ → (Fin 5 → ℝ) → MieOut, PenaCalls sphereFam spherePoint 1 o ∧
    (∀ N, 1 ≤ N → ∀ᶠ t in 𝓝 spherePoint,
      mieCoefficients (depthD1 N) B (sphereFam.at t) "pena" "recurrence" (some 1) = .ok (o N t)) ∧
    GradConv (fun N t => (crossSections (o N t).k (o N t).rS (o N t).a (o N t).b).qSca)
      (fun t => (exactCross 1 (sphereFam.at t)).qSca) spherePoint := by
  obtain ⟨o, h1, h2⟩ := C77_calls_succeed (n := 1) sphere_smooth (by simp [sphereFam, ParticleFam.at, strictlyIncreasing])
    rfl (by simp [sphereFam]) B le_rfl
  refine ⟨o, h1, h2, ?_⟩
  have := C77_cross_sections sphere_smooth h1 (by rw [sphere_at]; exact mono_clear) (by rw [sphere_at]; exact mono_args)
  exact this.2.2.2.2.1

end MieDiff
