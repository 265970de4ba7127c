import Verif.Proofs.SolverExample
import Verif.Props.Angular

/-!
# Solver properties: interface conditions and energy (C06, C07, C11)

`Solves` (Verif/Spec/Interface.lean) is the interface problem.  `SolverClear` says that none of the
`1e-30` denominator guards of the solver fires; `D1Clear` says the same for the downward recurrence.
`idealD1` is the solver with exact logarithmic derivatives, `depthD1 N` the code with `n_add = N` (15 in the code).
-/

namespace MieDiff

open Complex Spec Filter Topology

/-! ## C11 -/

/-- C11 with exact logarithmic derivatives: for every number of layers and every order, the returned `a_n`, `b_n` are
the unique coefficients for which fields regular in the core and incident-plus-outgoing outside are tangentially
continuous at every interface. -/
theorem C11_interface_conditions {B : Backends} {p : Particle1} {backend w : String} {nMax : Option ℤ}
    {ri : Bool} {o : MieOut} (hb : backend.toLower = "pena")
    (h : mieCoefficients idealD1 B p backend w nMax ri = .ok o)
    (hc : SolverClear idealFn o.nMax.toNat p.layers) :
    o.a.length = o.nMax.toNat ∧ o.b.length = o.nMax.toNat ∧
    ∀ i, 1 ≤ i → i ≤ o.nMax.toNat → ∃ a b, o.a[i - 1]? = some a ∧ o.b[i - 1]? = some b ∧
      Solves .tm i p.layers a ∧ (∀ a', Solves .tm i p.layers a' → a' = a) ∧
      Solves .te i p.layers b ∧ (∀ b', Solves .te i p.layers b' → b' = b) := by
  have run := mieCoefficients_pena_inv hb h
  obtain ⟨l, rest, hl⟩ := run.layers_cons
  obtain ⟨ea, eb⟩ := run.coefs (idealD1_fun _) hl
  refine ⟨by rw [ea]; simp, by rw [eb]; simp, ?_⟩
  intro i h1 hi
  rw [hl] at hc ⊢
  have hne := hc.ne
  have sa := coefFn_solves .tm h1 hi hne hc
  have sb := coefFn_solves .te h1 hi hne hc
  refine ⟨_, _, by rw [ea]; exact getElem?_order (coefFn idealFn .tm (hFinal idealFn l rest)) h1 hi,
    by rw [eb]; exact getElem?_order (coefFn idealFn .te (hFinal idealFn l rest)) h1 hi,
    sa, fun a' h' => h'.unique hne sa, sb, fun b' h' => h'.unique hne sb⟩

/-- The hypotheses of C11, C06, C07 hold for a core-shell particle (indices 9 and 3, radii `π/6`, `π/2`). -/
example (B : Backends) : ∃ o, mieCoefficients idealD1 B demoParticle "pena" "recurrence" (some 1) = .ok o ∧
    o.nMax.toNat = 1 ∧ SolverClear idealFn o.nMax.toNat demoParticle.layers ∧ RealHost demoParticle 1 1 ∧
    ∀ e ∈ demoParticle.epsLayers, e.im = 0 := by
  obtain ⟨o, h, hn⟩ := demo_run B
  have h1 : o.nMax.toNat = 1 := by rw [hn]; rfl
  refine ⟨o, h, h1, by rw [h1, demo_layers]; exact demo_clear, demo_realHost, ?_⟩
  intro e he
  simp only [demoParticle, List.mem_cons, List.not_mem_nil, or_false] at he
  rcases he with rfl | rfl <;> simp

theorem getD_order {n i : ℕ} (f : ℕ → ℂ) (h1 : 1 ≤ i) (hi : i ≤ n) :
    ((List.range n).map (fun j => f (j + 1))).getD (i - 1) 0 = f i := by
  rw [List.getD_eq_getElem?_getD, getElem?_order f h1 hi]; rfl

/-- C11 for the code's truncated recurrence: as the recurrence depth `n_add` grows, every returned coefficient
converges to the unique solution of the interface problem. -/
theorem C11_depth_limit {B : Backends} {p : Particle1} {backend w : String} {nMax : Option ℤ} {ri : Bool}
    {o : ℕ → MieOut} {n : ℕ} (hb : backend.toLower = "pena")
    (h : ∀ N, 1 ≤ N → mieCoefficients (depthD1 N) B p backend w nMax ri = .ok (o N) ∧ (o N).nMax = n)
    (hc : SolverClear idealFn n p.layers) (hd : ∀ z ∈ kernelArgs p.layers, D1Clear z)
    {i : ℕ} (h1 : 1 ≤ i) (hi : i ≤ n) :
    ∃ a b, Solves .tm i p.layers a ∧ Tendsto (fun N => (o N).a.getD (i - 1) 0) atTop (𝓝 a) ∧
      Solves .te i p.layers b ∧ Tendsto (fun N => (o N).b.getD (i - 1) 0) atTop (𝓝 b) := by
  obtain ⟨l, rest, hl⟩ := (mieCoefficients_pena_inv hb (h 1 le_rfl).1).layers_cons
  rw [hl] at hc hd ⊢
  have key : ∀ q : Pol, Tendsto (fun N => coefFn (depthFn n N) q (hFinal (depthFn n N) l rest) i) atTop
      (𝓝 (coefFn idealFn q (hFinal idealFn l rest) i)) :=
    fun q => coef_conv q h1 hi (fun z hz => depthFn_conv n (hd z hz)) hc
  have ev : ∀ N, 1 ≤ N → (o N).a.getD (i - 1) 0 = coefFn (depthFn n N) .tm (hFinal (depthFn n N) l rest) i ∧
      (o N).b.getD (i - 1) 0 = coefFn (depthFn n N) .te (hFinal (depthFn n N) l rest) i := by
    intro N hN
    have run := mieCoefficients_pena_inv hb (h N hN).1
    have hn : (o N).nMax.toNat = n := by rw [(h N hN).2]; simp
    obtain ⟨ea, eb⟩ := run.coefs (D := depthFn n N) (by rw [hn]; exact depthD1_fun n N hN) hl
    rw [hn] at ea eb
    rw [ea, eb]
    exact ⟨getD_order (coefFn (depthFn n N) .tm (hFinal (depthFn n N) l rest)) h1 hi,
      getD_order (coefFn (depthFn n N) .te (hFinal (depthFn n N) l rest)) h1 hi⟩
  refine ⟨_, _, coefFn_solves .tm h1 hi hc.ne hc, (key .tm).congr' ?_, coefFn_solves .te h1 hi hc.ne hc,
    (key .te).congr' ?_⟩
  · filter_upwards [eventually_ge_atTop 1] with N hN
    exact (ev N hN).1.symm
  · filter_upwards [eventually_ge_atTop 1] with N hN
    exact (ev N hN).2.symm

/-- The hypotheses of the limit statements hold for a homogeneous sphere of index `π/2`. -/
example (B : Backends) : ∃ o : ℕ → MieOut,
    (∀ N, 1 ≤ N → mieCoefficients (depthD1 N) B monoParticle "pena" "recurrence" (some 1) = .ok (o N) ∧
      (o N).nMax = (1 : ℕ)) ∧
    SolverClear idealFn 1 monoParticle.layers ∧ (∀ z ∈ kernelArgs monoParticle.layers, D1Clear z) ∧
    RealHost monoParticle 1 1 ∧ ∀ e ∈ monoParticle.epsLayers, e.im = 0 := by
  have : ∀ N, ∃ o, 1 ≤ N → mieCoefficients (depthD1 N) B monoParticle "pena" "recurrence" (some 1) = .ok o ∧
      o.nMax = (1 : ℕ) := by
    intro N
    by_cases hN : 1 ≤ N
    · obtain ⟨o, ho⟩ := mono_run B N hN
      exact ⟨o, fun _ => by simpa using ho⟩
    · exact ⟨⟨0, 0, 0, 0, 0, 0, 0, [], [], [], none⟩, fun h => absurd h hN⟩
  choose o ho using this
  refine ⟨o, ho, mono_clear, mono_args, mono_realHost, ?_⟩
  intro e he
  simp only [monoParticle, List.mem_cons, List.not_mem_nil, or_false] at he
  rw [he, ofReal_im]

/-! ## C06, C07 -/

theorem radiiOK_layers (K : ℝ) (hK : 0 < K) (ne : ℂ) :
    ∀ (rs : List ℝ) (es : List ℂ) (r : ℝ), strictlyIncreasing (r :: rs) →
      RadiiOK (K * r) (layersOf K rs es ne) := by
  intro rs
  induction rs with
  | nil => intro es r _; cases es <;> simp [layersOf, RadiiOK]
  | cons r' rs ih =>
    intro es r h
    cases es with
    | nil => simp [layersOf, RadiiOK]
    | cons e es =>
      refine ⟨K * r', by push_cast; rfl, mul_le_mul_of_nonneg_left h.1.le hK.le, ?_⟩
      exact ih es r' h.2

theorem layers_energy {p : Particle1} {k0 e0 s : ℝ} (hp : RealHost p k0 e0)
    (hinc : strictlyIncreasing p.rLayers) (hs : ∀ e ∈ p.epsLayers, 0 ≤ s * e.im) {q : Pol} {i : ℕ} {a : ℂ}
    (hne : ∀ l ∈ p.layers, l.1 ≠ 0 ∧ l.2 ≠ 0) (h : Solves q i p.layers a) : s * (‖a‖ ^ 2 - a.re) ≤ 0 := by
  have hK : p.k0 * csqrt p.epsEnv = ((k0 * Real.sqrt e0 : ℝ) : ℂ) := by
    rw [hp.k0_eq, hp.env_eq, csqrt_ofReal hp.env_pos.le]; push_cast; ring
  have hKpos : 0 < k0 * Real.sqrt e0 := mul_pos hp.k0_pos (Real.sqrt_pos.2 hp.env_pos)
  have hl : ∀ l ∈ p.layers, l.1 ≠ 0 ∧ 0 ≤ s * (l.1 ^ 2).im := by
    intro l hlm
    refine ⟨(hne l hlm).1, ?_⟩
    have hm : l.1 ∈ p.epsLayers.map fun e => csqrt e / csqrt p.epsEnv := (List.of_mem_zip hlm).1
    obtain ⟨e, he, h1⟩ := List.mem_map.1 hm
    have := hs e he
    rw [← h1, div_pow, csqrt_sq, csqrt_sq, hp.env_eq, div_ofReal_im, ← mul_div_assoc]
    exact div_nonneg this hp.env_pos.le
  cases hr : p.rLayers with
  | nil =>
    have : p.layers = [] := by simp [Particle1.layers, layersOf, hr]
    rw [this] at h
    obtain ⟨c, _, hc⟩ := h
    exact absurd hc (by simp [Chain])
  | cons r rs =>
    cases he : p.epsLayers with
    | nil =>
      have : p.layers = [] := by simp [Particle1.layers, layersOf, he]
      rw [this] at h
      obtain ⟨c, _, hc⟩ := h
      exact absurd hc (by simp [Chain])
    | cons e es =>
      have hr0 : 0 < r := hp.radii r (by rw [hr]; simp)
      refine Solves.energy (x0 := k0 * Real.sqrt e0 * r) (mul_pos hKpos hr0) ?_ hl h
      unfold Particle1.layers
      rw [hK, hr, he]
      refine ⟨k0 * Real.sqrt e0 * r, by push_cast; rfl, le_rfl, ?_⟩
      exact radiiOK_layers _ hKpos _ rs es r (by rw [← hr]; exact hinc)

theorem penaRun_energy {B : Backends} {p : Particle1} {backend w : String} {nMax : Option ℤ}
    {ri : Bool} {o : MieOut} {k0 e0 s : ℝ} (hb : backend.toLower = "pena")
    (h : mieCoefficients idealD1 B p backend w nMax ri = .ok o)
    (hc : SolverClear idealFn o.nMax.toNat p.layers) (hp : RealHost p k0 e0)
    (hs : ∀ e ∈ p.epsLayers, 0 ≤ s * e.im) :
    (∀ a ∈ o.a, s * (‖a‖ ^ 2 - a.re) ≤ 0) ∧ ∀ b ∈ o.b, s * (‖b‖ ^ 2 - b.re) ≤ 0 := by
  obtain ⟨la, lb, hi⟩ := C11_interface_conditions hb h hc
  have hinc := (mieCoefficients_pena_inv hb h).inc
  constructor
  · intro a ha
    obtain ⟨j, hj, rfl⟩ := List.getElem_of_mem ha
    obtain ⟨a, b, e1, _, sa, _⟩ := hi (j + 1) (by omega) (by omega)
    simp only [Nat.add_sub_cancel, List.getElem?_eq_getElem hj, Option.some.injEq] at e1
    rw [e1]
    exact layers_energy hp hinc hs hc.ne sa
  · intro a ha
    obtain ⟨j, hj, rfl⟩ := List.getElem_of_mem ha
    obtain ⟨a, b, _, e1, _, _, sb, _⟩ := hi (j + 1) (by omega) (by omega)
    simp only [Nat.add_sub_cancel, List.getElem?_eq_getElem hj, Option.some.injEq] at e1
    rw [e1]
    exact layers_energy hp hinc hs hc.ne sb

/-- C07: with exact logarithmic derivatives a particle all of whose permittivities have non-negative imaginary part
has `Re a_n >= |a_n|^2`, `Re b_n >= |b_n|^2` for every order. -/
theorem C07_passive {B : Backends} {p : Particle1} {backend w : String} {nMax : Option ℤ}
    {ri : Bool} {o : MieOut} {k0 e0 : ℝ} (hb : backend.toLower = "pena")
    (h : mieCoefficients idealD1 B p backend w nMax ri = .ok o)
    (hc : SolverClear idealFn o.nMax.toNat p.layers) (hp : RealHost p k0 e0)
    (hpass : ∀ e ∈ p.epsLayers, 0 ≤ e.im) :
    (∀ a ∈ o.a, ‖a‖ ^ 2 ≤ a.re) ∧ ∀ b ∈ o.b, ‖b‖ ^ 2 ≤ b.re := by
  have := penaRun_energy (s := 1) hb h hc hp (fun e he => by rw [one_mul]; exact hpass e he)
  exact ⟨fun a ha => by linarith [this.1 a ha], fun b hb => by linarith [this.2 b hb]⟩

/-- C06: with exact logarithmic derivatives a particle with real permittivities (of either sign) has `Re a_n = |a_n|^2`,
`Re b_n = |b_n|^2` for every order. -/
theorem C06_lossless {B : Backends} {p : Particle1} {backend w : String} {nMax : Option ℤ}
    {ri : Bool} {o : MieOut} {k0 e0 : ℝ} (hb : backend.toLower = "pena")
    (h : mieCoefficients idealD1 B p backend w nMax ri = .ok o)
    (hc : SolverClear idealFn o.nMax.toNat p.layers) (hp : RealHost p k0 e0)
    (hreal : ∀ e ∈ p.epsLayers, e.im = 0) :
    (∀ a ∈ o.a, a.re = ‖a‖ ^ 2) ∧ ∀ b ∈ o.b, b.re = ‖b‖ ^ 2 := by
  have h1 := penaRun_energy (s := 1) hb h hc hp (fun e he => by rw [hreal e he, mul_zero])
  have h2 := penaRun_energy (s := -1) hb h hc hp (fun e he => by rw [hreal e he, mul_zero])
  exact ⟨fun a ha => by linarith [h1.1 a ha, h2.1 a ha], fun b hb => by linarith [h1.2 b hb, h2.2 b hb]⟩

theorem realHost_k {p : Particle1} {k0 e0 : ℝ} (hp : RealHost p k0 e0) :
    p.k0 * csqrt p.epsEnv = ((k0 * Real.sqrt e0 : ℝ) : ℂ) := by
  rw [hp.k0_eq, hp.env_eq, csqrt_ofReal hp.env_pos.le]; push_cast; ring

theorem sum_mapIdx (f : ℕ → ℂ → ℝ) : ∀ l : List ℂ,
    (l.mapIdx f).sum = ∑ i ∈ Finset.range l.length, f i (l.getD i 0) := by
  intro l
  induction l using List.reverseRecOn with
  | nil => simp
  | append_singleton l a ih =>
    rw [List.mapIdx_append, List.sum_append, ih, List.length_append, List.length_singleton,
      Finset.sum_range_succ]
    congr 1
    · refine Finset.sum_congr rfl fun i hi => ?_
      have : i < l.length := Finset.mem_range.1 hi
      simp [List.getD_eq_getElem?_getD, List.getElem?_append_left this]
    · simp

/-- Absorption in closed form for a real wavenumber in the host. -/
theorem csAbs_eq (k r : ℝ) (a b : List ℂ) :
    (crossSections (k : ℂ) r a b).csAbs =
      ∑ i ∈ Finset.range a.length, 2 * Real.pi / k ^ 2 * (2 * ((i : ℝ) + 1) + 1) *
        ((a.getD i 0).re - ‖a.getD i 0‖ ^ 2) +
      ∑ i ∈ Finset.range b.length, 2 * Real.pi / k ^ 2 * (2 * ((i : ℝ) + 1) + 1) *
        ((b.getD i 0).re - ‖b.getD i 0‖ ^ 2) := by
  rw [(C05_totals (k : ℂ) r a b).2.2, (C05_multipoles k r a b).2.2, sum_mapIdx, sum_mapIdx]

theorem absMp_bound {k s : ℝ} {v : List ℂ} (h : ∀ z ∈ v, s * (‖z‖ ^ 2 - z.re) ≤ 0) :
    ∀ x ∈ v.mapIdx (fun (i : ℕ) z => 2 * Real.pi / k ^ 2 * (2 * ((i : ℝ) + 1) + 1) * (z.re - ‖z‖ ^ 2)),
      0 ≤ s * x := by
  intro x hx
  obtain ⟨i, hi, rfl⟩ := List.mem_mapIdx.1 hx
  have h1 := h v[i] (List.getElem_mem _)
  have := Real.pi_pos
  have h2 : 0 ≤ 2 * Real.pi / k ^ 2 * (2 * ((i : ℝ) + 1) + 1) := by positivity
  have := mul_nonneg h2 (by linarith : 0 ≤ s * (v[i].re - ‖v[i]‖ ^ 2))
  linarith

/-- C07 on the observables: every absorption multipole and the total absorption cross section are `>= 0`. -/
theorem C07_cs_abs_nonneg {B : Backends} {p : Particle1} {backend w : String} {nMax : Option ℤ}
    {c : CrossSections} {k0 e0 : ℝ} (hb : backend.toLower = "pena")
    (h : crossSectionsOf idealD1 B p backend w nMax = .ok c)
    (hc : ∀ o, mieCoefficients idealD1 B p backend w nMax = .ok o → SolverClear idealFn o.nMax.toNat p.layers)
    (hp : RealHost p k0 e0) (hpass : ∀ e ∈ p.epsLayers, 0 ≤ e.im) :
    (∀ x ∈ c.csAbsMp.1, 0 ≤ x) ∧ (∀ x ∈ c.csAbsMp.2, 0 ≤ x) ∧ 0 ≤ c.csAbs := by
  obtain ⟨o, ho, rfl⟩ := crossSectionsOf_inv h
  have he := penaRun_energy (s := 1) hb ho (hc o ho) hp (fun e he => by rw [one_mul]; exact hpass e he)
  rw [(mieCoefficients_pena_inv hb ho).k, realHost_k hp]
  have hm := (C05_multipoles (k0 * Real.sqrt e0) o.rS o.a o.b).2.2
  have ha : ∀ x ∈ (crossSections ((k0 * Real.sqrt e0 : ℝ) : ℂ) o.rS o.a o.b).csAbsMp.1, 0 ≤ x := by
    rw [hm]; intro x hx; have := absMp_bound he.1 x hx; linarith
  have hb : ∀ x ∈ (crossSections ((k0 * Real.sqrt e0 : ℝ) : ℂ) o.rS o.a o.b).csAbsMp.2, 0 ≤ x := by
    rw [hm]; intro x hx; have := absMp_bound he.2 x hx; linarith
  refine ⟨ha, hb, ?_⟩
  rw [(C05_totals _ _ _ _).2.2]
  exact add_nonneg (List.sum_nonneg ha) (List.sum_nonneg hb)

/-- C06 on the observables: every absorption multipole and the total absorption cross section vanish. -/
theorem C06_cs_abs_zero {B : Backends} {p : Particle1} {backend w : String} {nMax : Option ℤ}
    {c : CrossSections} {k0 e0 : ℝ} (hb : backend.toLower = "pena")
    (h : crossSectionsOf idealD1 B p backend w nMax = .ok c)
    (hc : ∀ o, mieCoefficients idealD1 B p backend w nMax = .ok o → SolverClear idealFn o.nMax.toNat p.layers)
    (hp : RealHost p k0 e0) (hreal : ∀ e ∈ p.epsLayers, e.im = 0) :
    (∀ x ∈ c.csAbsMp.1, x = 0) ∧ (∀ x ∈ c.csAbsMp.2, x = 0) ∧ c.csAbs = 0 ∧ c.csExt = c.csSca := by
  obtain ⟨o, ho, rfl⟩ := crossSectionsOf_inv h
  have he := penaRun_energy (s := 1) hb ho (hc o ho) hp (fun e he => by rw [hreal e he, mul_zero])
  have hf := penaRun_energy (s := -1) hb ho (hc o ho) hp (fun e he => by rw [hreal e he, mul_zero])
  rw [(mieCoefficients_pena_inv hb ho).k, realHost_k hp]
  have hm := (C05_multipoles (k0 * Real.sqrt e0) o.rS o.a o.b).2.2
  have ha : ∀ x ∈ (crossSections ((k0 * Real.sqrt e0 : ℝ) : ℂ) o.rS o.a o.b).csAbsMp.1, x = 0 := by
    rw [hm]; intro x hx
    have := absMp_bound he.1 x hx
    have := absMp_bound hf.1 x hx
    linarith
  have hb : ∀ x ∈ (crossSections ((k0 * Real.sqrt e0 : ℝ) : ℂ) o.rS o.a o.b).csAbsMp.2, x = 0 := by
    rw [hm]; intro x hx
    have := absMp_bound he.2 x hx
    have := absMp_bound hf.2 x hx
    linarith
  have hz : (crossSections ((k0 * Real.sqrt e0 : ℝ) : ℂ) o.rS o.a o.b).csAbs = 0 := by
    rw [(C05_totals _ _ _ _).2.2, List.sum_eq_zero ha, List.sum_eq_zero hb, add_zero]
  exact ⟨ha, hb, hz, by rw [C05_ext_eq_sca_add_abs, hz, add_zero]⟩

/-- The absorption computed by the code with recurrence depth `N` tends to the sum over the solutions of the interface problem. -/
theorem depth_absorption {B : Backends} {p : Particle1} {backend w : String} {nMax : Option ℤ}
    {c : ℕ → CrossSections} {n : ℕ} {k0 e0 : ℝ} (hb : backend.toLower = "pena")
    (h : ∀ N, 1 ≤ N → crossSectionsOf (depthD1 N) B p backend w nMax = .ok (c N))
    (hn : ∀ N o, mieCoefficients (depthD1 N) B p backend w nMax = .ok o → o.nMax = n)
    (hc : SolverClear idealFn n p.layers) (hd : ∀ z ∈ kernelArgs p.layers, D1Clear z)
    (hp : RealHost p k0 e0) :
    ∃ a b : ℕ → ℂ, (∀ i < n, Solves .tm (i + 1) p.layers (a i) ∧ Solves .te (i + 1) p.layers (b i)) ∧
      strictlyIncreasing p.rLayers ∧ Tendsto (fun N => (c N).csAbs) atTop (𝓝
        (∑ i ∈ Finset.range n, 2 * Real.pi / (k0 * Real.sqrt e0) ^ 2 * (2 * ((i : ℝ) + 1) + 1) * ((a i).re - ‖a i‖ ^ 2) +
          ∑ i ∈ Finset.range n, 2 * Real.pi / (k0 * Real.sqrt e0) ^ 2 * (2 * ((i : ℝ) + 1) + 1) * ((b i).re - ‖b i‖ ^ 2))) := by
  have hex : ∀ N, ∃ o, 1 ≤ N → mieCoefficients (depthD1 N) B p backend w nMax = .ok o ∧ o.nMax = n ∧
      c N = crossSections o.k o.rS o.a o.b := by
    intro N
    by_cases hN : 1 ≤ N
    · obtain ⟨o, h1, h2⟩ := crossSectionsOf_inv (h N hN)
      exact ⟨o, fun _ => ⟨h1, hn N o h1, h2⟩⟩
    · exact ⟨⟨0, 0, 0, 0, 0, 0, 0, [], [], [], none⟩, fun h => absurd h hN⟩
  choose o ho using hex
  have run : ∀ N, 1 ≤ N → PenaRun (depthD1 N) p (o N) := fun N hN =>
    mieCoefficients_pena_inv hb (ho N hN).1
  have hlim : ∀ i, ∃ a b, i < n → Solves .tm (i + 1) p.layers a ∧
      Tendsto (fun N => (o N).a.getD i 0) atTop (𝓝 a) ∧ Solves .te (i + 1) p.layers b ∧
      Tendsto (fun N => (o N).b.getD i 0) atTop (𝓝 b) := by
    intro i
    by_cases hi : i < n
    · obtain ⟨a, b, h1⟩ := C11_depth_limit hb (fun N hN => ⟨(ho N hN).1, (ho N hN).2.1⟩) hc hd
        (i := i + 1) (by omega) (by omega)
      exact ⟨a, b, fun _ => h1⟩
    · exact ⟨0, 0, fun h => absurd h hi⟩
  choose a b hab using hlim
  set K := k0 * Real.sqrt e0 with hK
  let g : ℕ → ℂ → ℝ := fun i z => 2 * Real.pi / K ^ 2 * (2 * ((i : ℝ) + 1) + 1) * (z.re - ‖z‖ ^ 2)
  have gc : ∀ i (z : ℂ), Tendsto (g i) (𝓝 z) (𝓝 (g i z)) := by
    intro i z
    have : Continuous (g i) := by fun_prop
    exact this.tendsto z
  refine ⟨a, b, fun i hi => ⟨(hab i hi).1, (hab i hi).2.2.1⟩, (run 1 le_rfl).inc, ?_⟩
  · have h1 : Tendsto (fun N => ∑ i ∈ Finset.range n, g i ((o N).a.getD i 0) +
        ∑ i ∈ Finset.range n, g i ((o N).b.getD i 0)) atTop
        (𝓝 (∑ i ∈ Finset.range n, g i (a i) + ∑ i ∈ Finset.range n, g i (b i))) := by
      refine Tendsto.add (tendsto_finsetSum _ fun i hi => ?_) (tendsto_finsetSum _ fun i hi => ?_)
      · exact (gc i _).comp (hab i (Finset.mem_range.1 hi)).2.1
      · exact (gc i _).comp (hab i (Finset.mem_range.1 hi)).2.2.2
    refine h1.congr' ?_
    filter_upwards [eventually_ge_atTop 1] with N hN
    obtain ⟨l, rest, hl⟩ := (run N hN).layers_cons
    have hnn : (o N).nMax.toNat = n := by rw [(ho N hN).2.1]; simp
    obtain ⟨ea, eb⟩ := (run N hN).coefs (D := depthFn n N) (by rw [hnn]; exact depthD1_fun n N hN) hl
    have la : (o N).a.length = n := by rw [ea]; simp [hnn]
    have lb : (o N).b.length = n := by rw [eb]; simp [hnn]
    rw [(ho N hN).2.2, (run N hN).k, realHost_k hp, csAbs_eq, la, lb]

/-- The absorption computed by the code with recurrence depth `N`, multiplied by `s`, has a limit `>= 0`. -/
theorem depth_energy {B : Backends} {p : Particle1} {backend w : String} {nMax : Option ℤ}
    {c : ℕ → CrossSections} {n : ℕ} {k0 e0 : ℝ} (hb : backend.toLower = "pena")
    (h : ∀ N, 1 ≤ N → crossSectionsOf (depthD1 N) B p backend w nMax = .ok (c N))
    (hn : ∀ N o, mieCoefficients (depthD1 N) B p backend w nMax = .ok o → o.nMax = n)
    (hc : SolverClear idealFn n p.layers) (hd : ∀ z ∈ kernelArgs p.layers, D1Clear z)
    (hp : RealHost p k0 e0) :
    ∃ L : ℝ, Tendsto (fun N => (c N).csAbs) atTop (𝓝 L) ∧
      ∀ s : ℝ, (∀ e ∈ p.epsLayers, 0 ≤ s * e.im) → 0 ≤ s * L := by
  obtain ⟨a, b, hab, hinc, hL⟩ := depth_absorption hb h hn hc hd hp
  refine ⟨_, hL, fun s hs => ?_⟩
  have hg : ∀ i : ℕ, ∀ z : ℂ, s * (‖z‖ ^ 2 - z.re) ≤ 0 →
      0 ≤ s * (2 * Real.pi / (k0 * Real.sqrt e0) ^ 2 * (2 * ((i : ℝ) + 1) + 1) * (z.re - ‖z‖ ^ 2)) := by
    intro i z hz
    have := Real.pi_pos
    have h2 : 0 ≤ 2 * Real.pi / (k0 * Real.sqrt e0) ^ 2 * (2 * ((i : ℝ) + 1) + 1) := by positivity
    have := mul_nonneg h2 (by linarith : 0 ≤ s * (z.re - ‖z‖ ^ 2))
    linarith
  rw [mul_add, Finset.mul_sum, Finset.mul_sum]
  refine add_nonneg (Finset.sum_nonneg fun i hi => hg i _ ?_) (Finset.sum_nonneg fun i hi => hg i _ ?_)
  · exact layers_energy hp hinc hs hc.ne (hab i (Finset.mem_range.1 hi)).1
  · exact layers_energy hp hinc hs hc.ne (hab i (Finset.mem_range.1 hi)).2

/-- C06 for the code: as the recurrence depth grows, the absorption cross section of a particle with real permittivities
tends to 0. -/
theorem C06_depth_limit {B : Backends} {p : Particle1} {backend w : String} {nMax : Option ℤ}
    {c : ℕ → CrossSections} {n : ℕ} {k0 e0 : ℝ} (hb : backend.toLower = "pena")
    (h : ∀ N, 1 ≤ N → crossSectionsOf (depthD1 N) B p backend w nMax = .ok (c N))
    (hn : ∀ N o, mieCoefficients (depthD1 N) B p backend w nMax = .ok o → o.nMax = n)
    (hc : SolverClear idealFn n p.layers) (hd : ∀ z ∈ kernelArgs p.layers, D1Clear z)
    (hp : RealHost p k0 e0) (hreal : ∀ e ∈ p.epsLayers, e.im = 0) :
    Tendsto (fun N => (c N).csAbs) atTop (𝓝 0) := by
  obtain ⟨L, hL, hs⟩ := depth_energy hb h hn hc hd hp
  have h1 := hs 1 (fun e he => by rw [hreal e he, mul_zero])
  have h2 := hs (-1) (fun e he => by rw [hreal e he, mul_zero])
  have : L = 0 := by linarith
  rw [← this]; exact hL

/-- C07 for the code: as the recurrence depth grows, the absorption cross section of a passive particle converges to a
value `>= 0`. -/
theorem C07_depth_limit {B : Backends} {p : Particle1} {backend w : String} {nMax : Option ℤ}
    {c : ℕ → CrossSections} {n : ℕ} {k0 e0 : ℝ} (hb : backend.toLower = "pena")
    (h : ∀ N, 1 ≤ N → crossSectionsOf (depthD1 N) B p backend w nMax = .ok (c N))
    (hn : ∀ N o, mieCoefficients (depthD1 N) B p backend w nMax = .ok o → o.nMax = n)
    (hc : SolverClear idealFn n p.layers) (hd : ∀ z ∈ kernelArgs p.layers, D1Clear z)
    (hp : RealHost p k0 e0) (hpass : ∀ e ∈ p.epsLayers, 0 ≤ e.im) :
    ∃ L : ℝ, 0 ≤ L ∧ Tendsto (fun N => (c N).csAbs) atTop (𝓝 L) := by
  obtain ⟨L, hL, hs⟩ := depth_energy hb h hn hc hd hp
  have h1 := hs 1 (fun e he => by rw [one_mul]; exact hpass e he)
  exact ⟨L, by linarith, hL⟩

end MieDiff
