import Verif.Proofs.Smooth
import Verif.Props.Convergence
import Verif.Props.FarField

/-!
# C73: the results depend analytically on all parameters

A family of particles whose wavenumber, radii, permittivities and host permittivity are functions of a parameter `t` in a
normed space.  `ContDiffAt 𝕜 ω` is analyticity: over `ℝ` jointly in all parameters, over `ℂ` it is holomorphy, which makes sense
for the permittivities (the radii then have to be constant).
-/

namespace MieDiff

open Complex Spec Filter Topology
open scoped ContDiff

/-- Particles depending on a parameter. -/
structure ParticleFam (E : Type*) where
  k0 : E → ℂ
  r : List (E → ℝ)
  eps : List (E → ℂ)
  env : E → ℂ

/-- The particle at one value of the parameter. -/
def ParticleFam.at {E : Type*} (F : ParticleFam E) (t : E) : Particle1 :=
  ⟨F.k0 t, F.r.map (· t), F.eps.map (· t), F.env t⟩

section

variable (𝕜 : Type*) [NontriviallyNormedField 𝕜] [NormedAlgebra 𝕜 ℂ] {E : Type*} [NormedAddCommGroup E] [NormedSpace 𝕜 E]

/-- Every parameter of the particle is an analytic function of `t` at `t0`. -/
structure AnalyticFam (F : ParticleFam E) (t0 : E) : Prop where
  k0 : ContDiffAt 𝕜 ω F.k0 t0
  env : ContDiffAt 𝕜 ω F.env t0
  r : ∀ r ∈ F.r, ContDiffAt 𝕜 ω (fun t => (r t : ℂ)) t0
  eps : ∀ e ∈ F.eps, ContDiffAt 𝕜 ω e t0

end

/-- A passive particle in a transparent host that the constructor accepts. -/
structure PassiveAt (p : Particle1) (k0 e0 : ℝ) : Prop where
  host : RealHost p k0 e0
  inc : strictlyIncreasing p.rLayers
  len : p.epsLayers.length = p.rLayers.length
  ne : p.rLayers ≠ []
  passive : ∀ e ∈ p.epsLayers, 0 ≤ e.im
  nonzero : ∀ e ∈ p.epsLayers, e ≠ 0

variable {𝕜 : Type*} [NontriviallyNormedField 𝕜] [NormedAlgebra 𝕜 ℂ] {E : Type*} [NormedAddCommGroup E] [NormedSpace 𝕜 E]
variable {F : ParticleFam E} {t0 : E}

/-- Layers with an analytic square root. -/
noncomputable def ParticleFam.fam (F : ParticleFam E) (t0 : E) : LayerFam E :=
  (F.eps.map fun e t => sqrtNear (e t0) (e t) / csqrt (F.env t)).zip
    (F.r.map fun r t => F.k0 t * csqrt (F.env t) * (r t : ℂ))

theorem csqrt_sign (e0 e : ℂ) (h0 : e0 ≠ 0) : csqrt e = sqrtNear e0 e ∨ csqrt e = -sqrtNear e0 e := by
  apply sq_eq_sq_iff_eq_or_eq_neg.1
  rw [sqrtNear, mul_pow, csqrt_sq, csqrt_sq, csqrt_sq]
  field_simp

omit [NormedAddCommGroup E] in
theorem fam_sign (F : ParticleFam E) (t0 t : E) (h0 : ∀ e ∈ F.eps, e t0 ≠ 0) :
    List.Forall₂ SignEq ((F.fam t0).at' t) (F.at t).layers := by
  obtain ⟨k0, rs, es, env⟩ := F
  simp only [ParticleFam.fam, LayerFam.at', ParticleFam.at, Particle1.layers, layersOf] at h0 ⊢
  induction es generalizing rs with
  | nil => simp
  | cons e es ih =>
    cases rs with
    | nil => simp
    | cons r rs =>
      simp only [List.map_cons, List.zip_cons_cons, List.forall₂_cons]
      refine ⟨⟨rfl, ?_⟩, ih rs fun e he => h0 e (by simp [he])⟩
      rcases csqrt_sign (e t0) (e t) (h0 e (by simp)) with h | h
      · exact .inl (by rw [h])
      · exact .inr (by rw [h, neg_div])

theorem csqrt_analytic {e : E → ℂ} (he : ContDiffAt 𝕜 ω e t0) (h0 : e t0 ∈ slitPlane) :
    ContDiffAt 𝕜 ω (fun t => csqrt (e t)) t0 := by
  have h2 : DifferentiableOn ℂ csqrt slitPlane := fun z hz =>
    ((differentiableAt_id.cpow_const (c := (1 / 2 : ℂ)) hz)).differentiableWithinAt
  have h4 : ContDiffAt ℂ ω csqrt (e t0) := (h2.analyticAt (isOpen_slitPlane.mem_nhds h0)).contDiffAt
  exact ContDiffAt.comp (g := csqrt) (f := e) t0 (h4.restrict_scalars 𝕜) he

theorem env_facts {k e0 : ℝ} (hF : AnalyticFam 𝕜 F t0) (hp : RealHost (F.at t0) k e0) :
    ContDiffAt 𝕜 ω (fun t => csqrt (F.env t)) t0 ∧ csqrt (F.env t0) ≠ 0 := by
  have h1 : F.env t0 = e0 := hp.env_eq
  refine ⟨csqrt_analytic hF.env ?_, ?_⟩
  · rw [h1]
    exact ofReal_mem_slitPlane.2 hp.env_pos
  · intro h
    have := csqrt_sq (F.env t0)
    rw [h, h1] at this
    have h2 : (e0 : ℂ) = 0 := by simpa using this.symm
    exact hp.env_pos.ne' (by exact_mod_cast h2)

theorem fam_ok {k e0 : ℝ} (hF : AnalyticFam 𝕜 F t0) (hp : PassiveAt (F.at t0) k e0) : (F.fam t0).OK 𝕜 t0 := by
  obtain ⟨hs, hs0⟩ := env_facts hF hp.host
  intro l hl
  obtain ⟨h1, h2⟩ := List.of_mem_zip (by exact hl : (l.1, l.2) ∈ _)
  obtain ⟨e, he, h1⟩ := List.mem_map.1 h1
  obtain ⟨r, hr, h2⟩ := List.mem_map.1 h2
  have hez : e t0 ≠ 0 := hp.nonzero _ (List.mem_map.2 ⟨e, he, rfl⟩)
  have hr0 : 0 < r t0 := hp.host.radii _ (List.mem_map.2 ⟨r, hr, rfl⟩)
  have hk : F.k0 t0 ≠ 0 := by
    have : F.k0 t0 = k := hp.host.k0_eq
    rw [this]
    exact_mod_cast hp.host.k0_pos.ne'
  have hi : ContDiffAt 𝕜 ω (fun t => (csqrt (F.env t))⁻¹) t0 := hs.inv hs0
  rw [← h1, ← h2]
  refine ⟨?_, (hF.k0.mul hs).mul (hF.r r hr), div_ne_zero ?_ hs0, mul_ne_zero (mul_ne_zero hk hs0) (by
    exact_mod_cast hr0.ne')⟩
  · simp only [div_eq_mul_inv]
    exact (sqrtNear_analytic (hF.eps e he) hez).mul hi
  · intro h
    have := congrArg (· ^ 2) h
    simp only [sqrtNear, mul_pow, csqrt_sq, div_self hez, mul_one] at this
    exact hez (by simpa using this)

/-- C73: the scattering coefficient of every order and type exists near a passive particle and is an analytic function of all
parameters there. -/
theorem C73_coefficients {k e0 : ℝ} (hF : AnalyticFam 𝕜 F t0) (hp : PassiveAt (F.at t0) k e0) (q : Pol) (n : ℕ) :
    (∀ᶠ t in 𝓝 t0, ∃! a, Solves q n (F.at t).layers a) ∧ ContDiffAt 𝕜 ω (fun t => coef q n (F.at t).layers) t0 := by
  have hok := fam_ok hF hp
  have h0 : ∀ e ∈ F.eps, e t0 ≠ 0 := fun e he => hp.nonzero _ (List.mem_map.2 ⟨e, he, rfl⟩)
  have hsg := fun t => fam_sign F t0 t h0
  have hne := hok.eventually
  obtain ⟨a, ha, -⟩ := C68_solvable hp.host hp.inc hp.len hp.ne hp.passive hp.nonzero q n
  obtain ⟨h1, h2⟩ := coef_analytic hok (q := q) (n := n) ⟨a, (signSolves_iff (hsg t0) hne.self_of_nhds).2 ha⟩
  refine ⟨?_, h2.congr_of_eventuallyEq ?_⟩
  · filter_upwards [h1, hne] with t ht hn
    obtain ⟨a, ha⟩ := ht
    have := (signSolves_iff (hsg t) hn).1 ha
    exact ⟨a, this, fun a' ha' => ha'.unique (signNe (hsg t) hn) this⟩
  · filter_upwards [hne] with t hn
    exact (signCoef (hsg t) hn).symm

theorem layers_ne_near {k e0 : ℝ} (hF : AnalyticFam 𝕜 F t0) (hp : PassiveAt (F.at t0) k e0) :
    ∀ᶠ t in 𝓝 t0, ∀ l ∈ (F.at t).layers, l.1 ≠ 0 ∧ l.2 ≠ 0 := by
  have h0 : ∀ e ∈ F.eps, e t0 ≠ 0 := fun e he => hp.nonzero _ (List.mem_map.2 ⟨e, he, rfl⟩)
  exact (fam_ok hF hp).eventually.mono fun t h => signNe (fam_sign F t0 t h0) h

/-- Calls of the torch or scipy backend with exact special functions near `t0`. -/
structure NearRuns (F : ParticleFam E) (t0 : E) (N : ℕ) (o : E → MieOut) : Prop where
  pos : 1 ≤ N
  call : ∃ K B backend w ri, (backend.toLower = "torch" ∨ backend.toLower = "scipy") ∧
    (∀ᶠ t in 𝓝 t0, mieCoefficients K B (F.at t) backend w (some (N : ℤ)) ri = .ok (o t)) ∧
    ∀ S, selectBessel B backend w = .ok S → ∀ z : ℂ, z ≠ 0 → ExactAt S N z

theorem cs_order {K : D1Kernel} {B : Backends} {p : Particle1} {backend w : String} {N : ℕ} {ri : Bool} {o : MieOut}
    (hp : backend.toLower ≠ "pena") (h : mieCoefficients K B p backend w (some (N : ℤ)) ri = .ok o) : o.nMax = N := by
  obtain ⟨m1, x, m2, y, run⟩ := mieCoefficients_cs_inv hp h
  have := run.order
  simp only [orderChoice, Except.ok.injEq] at this
  exact this.symm

theorem csArgs_ne {layers : List (ℂ × ℂ)} (h : ∀ l ∈ layers, l.1 ≠ 0 ∧ l.2 ≠ 0) : ∀ z ∈ csArgs layers, z ≠ 0 := by
  intro z hz
  match layers with
  | [] => simp [csArgs] at hz
  | [(m, x)] =>
    have := h (m, x) (by simp)
    simp only [csArgs, List.mem_cons, List.not_mem_nil, or_false] at hz
    rcases hz with rfl | rfl
    exacts [this.2, mul_ne_zero this.1 this.2]
  | [(m, x), (m', y)] =>
    have a1 := h (m, x) (by simp)
    have a2 := h (m', y) (by simp)
    simp only [csArgs, List.mem_cons, List.not_mem_nil, or_false] at hz
    rcases hz with rfl | rfl | rfl | rfl
    exacts [a2.2, mul_ne_zero a1.1 a1.2, mul_ne_zero a2.1 a1.2, mul_ne_zero a2.1 a2.2]
  | _ :: _ :: _ :: _ => simp [csArgs] at hz

theorem NearRuns.exact {N : ℕ} {o : E → MieOut} {k e0 : ℝ} (hF : AnalyticFam 𝕜 F t0) (hp : PassiveAt (F.at t0) k e0)
    (h : NearRuns F t0 N o) : ∀ᶠ t in 𝓝 t0, ExactRun (F.at t) (o t) ∧ (o t).nMax.toNat = N := by
  obtain ⟨K, B, backend, w, ri, hb, hcall, hS⟩ := h.call
  have hpe : backend.toLower ≠ "pena" := by rcases hb with h | h <;> rw [h] <;> decide
  have hsol : ∀ᶠ t in 𝓝 t0, ∀ i ∈ Finset.range (N + 1), ∀ q, ∃ a, Solves q i (F.at t).layers a := by
    refine (Finset.eventually_all _).2 fun i _ => ?_
    filter_upwards [(C73_coefficients hF hp .tm i).1, (C73_coefficients hF hp .te i).1] with t h1 h2
    intro q
    cases q
    exacts [h1.exists, h2.exists]
  filter_upwards [hcall, hsol, layers_ne_near hF hp] with t hc hs hne
  have hN := cs_order hpe hc
  have hN' : (o t).nMax.toNat = N := by rw [hN]; simp
  refine ⟨ExactRun.of_coreShell hpe hc (by rw [hN]; exact_mod_cast h.pos) ?_ hne ?_, hN'⟩
  · intro S hsel z hz
    rw [hN']
    exact hS S hsel z (csArgs_ne hne z hz)
  · intro q i _ hi
    exact hs i (Finset.mem_range.2 (by omega)) q

theorem run_getD {p : Particle1} {o : MieOut} (run : ExactRun p o) (hne : ∀ l ∈ p.layers, l.1 ≠ 0 ∧ l.2 ≠ 0) {i : ℕ}
    (hi : i < o.nMax.toNat) :
    o.a.getD i 0 = coef .tm (i + 1) p.layers ∧ o.b.getD i 0 = coef .te (i + 1) p.layers := by
  obtain ⟨a, b, ea, eb, sa, sb⟩ := run.coef (i + 1) (by omega) (by omega)
  rw [Nat.add_sub_cancel] at ea eb
  rw [List.getD_eq_getElem?_getD, List.getD_eq_getElem?_getD, ea, eb]
  exact ⟨(coef_eq hne sa).symm, (coef_eq hne sb).symm⟩

/-- C73 for any backend: wherever the calls solve the interface problem, the returned coefficients are analytic functions of
the parameters. -/
theorem C73_exact_runs {N : ℕ} {o : E → MieOut} {k e0 : ℝ} (hF : AnalyticFam 𝕜 F t0) (hp : PassiveAt (F.at t0) k e0)
    (h : ∀ᶠ t in 𝓝 t0, ExactRun (F.at t) (o t) ∧ (o t).nMax.toNat = N) {i : ℕ} (hi : i < N) :
    ContDiffAt 𝕜 ω (fun t => (o t).a.getD i 0) t0 ∧ ContDiffAt 𝕜 ω (fun t => (o t).b.getD i 0) t0 := by
  have hne := layers_ne_near hF hp
  constructor
  · refine (C73_coefficients hF hp .tm (i + 1)).2.congr_of_eventuallyEq ?_
    filter_upwards [h, hne] with t h1 h2
    exact (run_getD h1.1 h2 (by omega)).1
  · refine (C73_coefficients hF hp .te (i + 1)).2.congr_of_eventuallyEq ?_
    filter_upwards [h, hne] with t h1 h2
    exact (run_getD h1.1 h2 (by omega)).2

/-- C73: the coefficients returned by the torch and scipy backends are analytic functions of all parameters at every passive
particle, without any condition on denominators. -/
theorem C73_core_shell {N : ℕ} {o : E → MieOut} {k e0 : ℝ} (hF : AnalyticFam 𝕜 F t0) (hp : PassiveAt (F.at t0) k e0)
    (h : NearRuns F t0 N o) {i : ℕ} (hi : i < N) :
    ContDiffAt 𝕜 ω (fun t => (o t).a.getD i 0) t0 ∧ ContDiffAt 𝕜 ω (fun t => (o t).b.getD i 0) t0 :=
  C73_exact_runs hF hp (h.exact hF hp) hi

/-! ## Existence of the calls -/

theorem radii_near {k e0 : ℝ} {r r' : E → ℝ} (hF : AnalyticFam 𝕜 F t0) (hp : PassiveAt (F.at t0) k e0)
    (hr : F.r = [r, r']) : ∀ᶠ t in 𝓝 t0, r t < r' t := by
  have hc : ∀ r ∈ F.r, ContinuousAt r t0 := by
    intro r hr
    have := (hF.r r hr).continuousAt
    exact (continuous_re.continuousAt.comp this).congr (Eventually.of_forall fun t => by simp)
  have hinc := hp.inc
  simp only [ParticleFam.at, hr, List.map_cons, List.map_nil, strictlyIncreasing, and_true] at hinc
  exact (hc r (by simp [hr])).eventually_lt (hc r' (by simp [hr])) hinc

/-- C73: for a passive core-shell particle the torch backend with exact special functions succeeds for all parameters near
the given ones. -/
theorem C73_torch_succeeds {k e0 : ℝ} {r r' : E → ℝ} {e e' : E → ℂ} (hF : AnalyticFam 𝕜 F t0)
    (hp : PassiveAt (F.at t0) k e0) (hr : F.r = [r, r']) (he : F.eps = [e, e']) (K : D1Kernel) (n : ℕ) :
    ∃ o, NearRuns F t0 (n + 1) o ∧
      ∀ᶠ t in 𝓝 t0, mieCoefficients K exactBackends (F.at t) "torch" "recurrence" (some ((n + 1 : ℕ) : ℤ)) = .ok (o t) := by
  have hex : ∀ᶠ t in 𝓝 t0, ∃ o, mieCoefficients K exactBackends (F.at t) "torch" "recurrence"
      (some ((n + 1 : ℕ) : ℤ)) = .ok o := by
    filter_upwards [radii_near hF hp hr, layers_ne_near hF hp] with t h1 h2
    obtain ⟨o, ho, -⟩ := mieCoefficients_torch_ok (K := K) (p := F.at t) (r := r t) (r' := r' t) (e := e t) (e' := e' t)
      (n := n) (by simp [ParticleFam.at, hr]) (by simp [ParticleFam.at, he]) h1 (csArgs_ne h2)
    exact ⟨o, ho⟩
  have hex' : ∀ t, ∃ o, (∃ o, mieCoefficients K exactBackends (F.at t) "torch" "recurrence"
      (some ((n + 1 : ℕ) : ℤ)) = .ok o) → mieCoefficients K exactBackends (F.at t) "torch" "recurrence"
      (some ((n + 1 : ℕ) : ℤ)) = .ok o := by
    intro t
    by_cases h : ∃ o, mieCoefficients K exactBackends (F.at t) "torch" "recurrence" (some ((n + 1 : ℕ) : ℤ)) = .ok o
    · exact ⟨h.choose, fun _ => h.choose_spec⟩
    · exact ⟨⟨0, 0, 0, 0, 0, 0, 0, [], [], [], none⟩, fun h' => absurd h' h⟩
  choose o ho using hex'
  have hall := hex.mono fun t h => ho t h
  refine ⟨o, ⟨by omega, K, exactBackends, "torch", "recurrence", false, .inl (by decide +kernel), hall, ?_⟩, hall⟩
  intro S hS z hz
  have hsel : selectBessel exactBackends "torch" "recurrence" = .ok exactBessel := by
    have hw : "recurrence".toLower = "recurrence" := by decide +kernel
    have ht : "torch".toLower = "torch" := by decide +kernel
    simp only [selectBessel, ht, hw, exactBackends]
    rw [if_neg (by decide), if_pos (by decide)]
  rw [hsel] at hS
  injection hS with hS
  subst hS
  exact exactBessel_at hz

/-! ## Cross sections -/

section Real

variable {V : Type*} [NormedAddCommGroup V] [NormedSpace ℝ V] {G : ParticleFam V} {v0 : V}

theorem sum_mapIdx_range (l : List ℂ) (f : ℕ → ℂ → ℂ) : (l.mapIdx f).sum = ∑ i ∈ Finset.range l.length, f i (l.getD i 0) := by
  induction l generalizing f with
  | nil => simp
  | cons z l ih =>
    rw [List.mapIdx_cons, List.sum_cons, ih, List.length_cons, Finset.sum_range_succ']
    simp [add_comm]

theorem re_analytic {f : V → ℂ} (hf : ContDiffAt ℝ ω f v0) : ContDiffAt ℝ ω (fun t => (f t).re) v0 :=
  reCLM.contDiff.contDiffAt.comp v0 hf

theorem im_analytic {f : V → ℂ} (hf : ContDiffAt ℝ ω f v0) : ContDiffAt ℝ ω (fun t => (f t).im) v0 :=
  imCLM.contDiff.contDiffAt.comp v0 hf

theorem ofReal_analytic {f : V → ℝ} (hf : ContDiffAt ℝ ω f v0) : ContDiffAt ℝ ω (fun t => (f t : ℂ)) v0 :=
  ofRealCLM.contDiff.contDiffAt.comp v0 hf

theorem normSq_analytic {f : V → ℂ} (hf : ContDiffAt ℝ ω f v0) : ContDiffAt ℝ ω (fun t => ‖f t‖ ^ 2) v0 := by
  have : (fun t => ‖f t‖ ^ 2) = fun t => (f t).re * (f t).re + (f t).im * (f t).im := by
    funext t
    rw [← normSq_eq_norm_sq, normSq_apply]
  rw [this]
  exact ((re_analytic hf).mul (re_analytic hf)).add ((im_analytic hf).mul (im_analytic hf))

/-- Sum of `prefactor (2n+1) g(c_n)` over the orders. -/
theorem mpSum_analytic {k : V → ℂ} (hk : ContDiffAt ℝ ω k v0) (hk0 : k v0 ≠ 0) {N : ℕ} {c : V → List ℂ} (g : ℂ → ℝ)
    (hlen : ∀ᶠ t in 𝓝 v0, (c t).length = N) (hg : ∀ i < N, ContDiffAt ℝ ω (fun t => g ((c t).getD i 0)) v0) :
    ContDiffAt ℝ ω (fun t => (mpTerms (k t) ((c t).map fun z => (g z : ℂ))).sum) v0 := by
  have hi : ContDiffAt ℝ ω (fun t => (k t ^ 2)⁻¹) v0 := (hk.pow 2).inv (pow_ne_zero 2 hk0)
  have h1 : ContDiffAt ℝ ω (fun t => ∑ i ∈ Finset.range N,
      2 * (Real.pi : ℂ) * (k t ^ 2)⁻¹ * (2 * ((i : ℂ) + 1) + 1) * (g ((c t).getD i 0) : ℂ)) v0 :=
    ContDiffAt.sum fun i hi' =>
      ((contDiffAt_const.mul hi).mul contDiffAt_const).mul (ofReal_analytic (hg i (Finset.mem_range.1 hi')))
  refine h1.congr_of_eventuallyEq ?_
  filter_upwards [hlen] with t ht
  rw [mpTerms, sum_mapIdx_range, List.length_map, ht]
  refine Finset.sum_congr rfl fun i hi' => ?_
  have hlt : i < (c t).length := by rw [ht]; exact Finset.mem_range.1 hi'
  rw [List.getD_eq_getElem?_getD, List.getElem?_map, List.getElem?_eq_getElem hlt, List.getD_eq_getElem?_getD,
    List.getElem?_eq_getElem hlt]
  simp [div_eq_mul_inv]

theorem csum_zipWith_sub : ∀ l l' : List ℂ, l.length = l'.length → (List.zipWith (· - ·) l l').sum = l.sum - l'.sum
  | [], [], _ => by simp
  | x :: l, y :: l', h => by
    rw [List.zipWith_cons_cons, List.sum_cons, List.sum_cons, List.sum_cons,
      csum_zipWith_sub l l' (by simpa using h)]
    ring

theorem abs_ext_sca (k : ℂ) (r : ℝ) (a b : List ℂ) :
    (crossSections k r a b).csAbs = (crossSections k r a b).csExt - (crossSections k r a b).csSca := by
  simp only [crossSections]
  rw [csum_zipWith_sub _ _ (by simp [mpTerms]), csum_zipWith_sub _ _ (by simp [mpTerms]), ← sub_re]
  congr 1
  ring

/-- C73: extinction, scattering and absorption cross sections and efficiencies are real-analytic functions of all
parameters at every passive particle: every gradient asked for exists. -/
theorem C73_cross_sections {N : ℕ} {o : V → MieOut} {k e0 : ℝ} (hF : AnalyticFam ℝ G v0) (hp : PassiveAt (G.at v0) k e0)
    (h : NearRuns G v0 N o) :
    let cs := fun t => crossSections (o t).k (o t).rS (o t).a (o t).b
    ContDiffAt ℝ ω (fun t => (cs t).csExt) v0 ∧ ContDiffAt ℝ ω (fun t => (cs t).csSca) v0 ∧
      ContDiffAt ℝ ω (fun t => (cs t).csAbs) v0 ∧ ContDiffAt ℝ ω (fun t => (cs t).qExt) v0 ∧
      ContDiffAt ℝ ω (fun t => (cs t).qSca) v0 ∧ ContDiffAt ℝ ω (fun t => (cs t).qAbs) v0 := by
  intro cs
  have hex := h.exact hF hp
  obtain ⟨hs, hs0⟩ := env_facts hF hp.host
  have hk0 : G.k0 v0 ≠ 0 := by
    have : G.k0 v0 = k := hp.host.k0_eq
    rw [this]
    exact_mod_cast hp.host.k0_pos.ne'
  have hk : ContDiffAt ℝ ω (fun t => (o t).k) v0 := by
    refine (hF.k0.mul hs).congr_of_eventuallyEq ?_
    filter_upwards [hex] with t ht
    exact ht.1.k
  have hk0' : (o v0).k ≠ 0 := by
    rw [hex.self_of_nhds.1.k]
    exact mul_ne_zero hk0 hs0
  have hla : ∀ᶠ t in 𝓝 v0, (o t).a.length = N := hex.mono fun t ht => by rw [ht.1.lenA, ht.2]
  have hlb : ∀ᶠ t in 𝓝 v0, (o t).b.length = N := hex.mono fun t ht => by rw [ht.1.lenB, ht.2]
  have ha : ∀ i < N, ContDiffAt ℝ ω (fun t => (o t).a.getD i 0) v0 := fun i hi => (C73_core_shell hF hp h hi).1
  have hb : ∀ i < N, ContDiffAt ℝ ω (fun t => (o t).b.getD i 0) v0 := fun i hi => (C73_core_shell hF hp h hi).2
  have hext : ContDiffAt ℝ ω (fun t => (cs t).csExt) v0 :=
    re_analytic ((mpSum_analytic hk hk0' re hla fun i hi => re_analytic (ha i hi)).add
      (mpSum_analytic hk hk0' re hlb fun i hi => re_analytic (hb i hi)))
  have hsca : ContDiffAt ℝ ω (fun t => (cs t).csSca) v0 :=
    re_analytic ((mpSum_analytic hk hk0' (fun z => ‖z‖ ^ 2) hla fun i hi => normSq_analytic (ha i hi)).add
      (mpSum_analytic hk hk0' (fun z => ‖z‖ ^ 2) hlb fun i hi => normSq_analytic (hb i hi)))
  have habs : ContDiffAt ℝ ω (fun t => (cs t).csAbs) v0 := by
    refine (hext.sub hsca).congr_of_eventuallyEq (Eventually.of_forall fun t => ?_)
    exact abs_ext_sca (o t).k (o t).rS (o t).a (o t).b
  have hgeo : ContDiffAt ℝ ω (fun t => (cs t).csGeo) v0 ∧ (cs v0).csGeo ≠ 0 := by
    obtain ⟨K, B, backend, w, ri, hb', hcall, -⟩ := h.call
    have hrs : ∀ᶠ t in 𝓝 v0, (o t).rS = (G.at t).rLayers.getLastD 0 := by
      filter_upwards [hcall] with t ht
      obtain ⟨-, -, -, n, out, ho⟩ := mieCoefficients_cs_meta hb' ht
      rw [ho]
      rfl
    have hne : G.r ≠ [] := fun h0 => hp.ne (by simp [ParticleFam.at, h0])
    have hlast : ∀ t, (G.at t).rLayers.getLastD 0 = (G.r.getLast hne) t := by
      intro t
      simp only [ParticleFam.at]
      rw [List.getLastD_eq_getLast?, List.getLast?_map, List.getLast?_eq_some_getLast hne]
      rfl
    have hR : ContDiffAt ℝ ω (G.r.getLast hne) v0 := by
      have := re_analytic (hF.r _ (List.getLast_mem hne))
      simpa using this
    have hpos : 0 < (G.r.getLast hne) v0 := hp.host.radii _ (List.mem_map.2 ⟨_, List.getLast_mem hne, rfl⟩)
    refine ⟨?_, ?_⟩
    · refine (contDiffAt_const (c := Real.pi)).mul (hR.pow 2) |>.congr_of_eventuallyEq ?_
      filter_upwards [hrs] with t ht
      change Real.pi * (o t).rS ^ 2 = _
      rw [ht, hlast]
    · change Real.pi * (o v0).rS ^ 2 ≠ 0
      rw [hrs.self_of_nhds, hlast]
      positivity
  have hq : ∀ f : V → ℝ, ContDiffAt ℝ ω f v0 → ContDiffAt ℝ ω (fun t => f t / (cs t).csGeo) v0 :=
    fun f hf => hf.div hgeo.1 hgeo.2
  exact ⟨hext, hsca, habs, hq _ hext, hq _ hsca, hq _ habs⟩

/-! ## A core-shell particle with all parameters free -/

/-- Wavenumber, two radii, real and imaginary parts of two permittivities and the host permittivity as real parameters. -/
noncomputable def freeFam : ParticleFam (Fin 8 → ℝ) where
  k0 t := t 0
  r := [fun t => t 1, fun t => t 2]
  eps := [fun t => t 3 + t 4 * I, fun t => t 5 + t 6 * I]
  env t := t 7

/-- A metallic core (on the branch cut of the square root) in a lossless shell. -/
noncomputable def freePoint : Fin 8 → ℝ := ![1, 1, 2, -9, 0, 4, 0, 2]

theorem freeFam_analytic (t0 : Fin 8 → ℝ) : AnalyticFam ℝ freeFam t0 := by
  have hc : ∀ i, ContDiffAt ℝ ω (fun t : Fin 8 → ℝ => ((t i : ℝ) : ℂ)) t0 :=
    fun i => ofReal_analytic (contDiff_apply ℝ ℝ i).contDiffAt
  refine ⟨hc 0, hc 7, ?_, ?_⟩
  · intro r hr
    simp only [freeFam, List.mem_cons, List.not_mem_nil, or_false] at hr
    rcases hr with rfl | rfl
    exacts [hc 1, hc 2]
  · intro e he
    simp only [freeFam, List.mem_cons, List.not_mem_nil, or_false] at he
    rcases he with rfl | rfl
    exacts [(hc 3).add ((hc 4).mul contDiffAt_const), (hc 5).add ((hc 6).mul contDiffAt_const)]

theorem freePoint_passive : PassiveAt (freeFam.at freePoint) 1 2 := by
  have h : freeFam.at freePoint = ⟨1, [1, 2], [-9, 4], 2⟩ := by
    simp [freeFam, ParticleFam.at, freePoint]
  rw [h]
  refine ⟨⟨by simp, one_pos, by simp, two_pos, ?_⟩, by simp [strictlyIncreasing], rfl, by simp, ?_, ?_⟩
  · intro r hr
    simp only [List.mem_cons, List.not_mem_nil, or_false] at hr
    rcases hr with rfl | rfl <;> norm_num
  · intro e he
    simp only [List.mem_cons, List.not_mem_nil, or_false] at he
    rcases he with rfl | rfl <;> simp
  · intro e he
    simp only [List.mem_cons, List.not_mem_nil, or_false] at he
    rcases he with rfl | rfl <;> norm_num

/-- The scattering efficiency returned by the torch backend is a real-analytic function of all eight parameters there. -/
example : ∃ o : (Fin 8 → ℝ) → MieOut, (∀ᶠ t in 𝓝 freePoint, mieCoefficients idealD1 exactBackends (freeFam.at t) "torch" "recurrence" (some 5) =
    .ok (o t)) ∧ ContDiffAt ℝ ω (fun t => (crossSections (o t).k (o t).rS (o t).a (o t).b).qSca) freePoint := by
  obtain ⟨o, h1, h2⟩ := C73_torch_succeeds (freeFam_analytic freePoint) freePoint_passive rfl rfl idealD1 4
  exact ⟨o, h2, (C73_cross_sections (freeFam_analytic freePoint) freePoint_passive h1).2.2.2.2.1⟩

/-- The permittivity of the core as a complex parameter. -/
noncomputable def coreFam : ParticleFam ℂ := ⟨fun _ => 1, [fun _ => 1, fun _ => 2], [fun t => t, fun _ => 4], fun _ => 2⟩

/-- The coefficients are holomorphic functions of it. -/
example : ∃ o : ℂ → MieOut, (∀ᶠ t in 𝓝 (-9 + I), mieCoefficients idealD1 exactBackends (coreFam.at t) "torch" "recurrence" (some 5) =
    .ok (o t)) ∧ DifferentiableAt ℂ (fun t => (o t).a.getD 3 0) (-9 + I) := by
  have hF : AnalyticFam ℂ coreFam (-9 + I) := by
    refine ⟨contDiffAt_const, contDiffAt_const, ?_, ?_⟩
    · intro r hr
      simp only [coreFam, List.mem_cons, List.not_mem_nil, or_false] at hr
      rcases hr with rfl | rfl
      exacts [contDiffAt_const, contDiffAt_const]
    · intro e he
      simp only [coreFam, List.mem_cons, List.not_mem_nil, or_false] at he
      rcases he with rfl | rfl
      exacts [contDiffAt_id, contDiffAt_const]
  have hp : PassiveAt (coreFam.at (-9 + I)) 1 2 := by
    have h : coreFam.at (-9 + I) = ⟨1, [1, 2], [-9 + I, 4], 2⟩ := rfl
    rw [h]
    refine ⟨⟨by simp, one_pos, by simp, two_pos, ?_⟩, by simp [strictlyIncreasing], rfl, by simp, ?_, ?_⟩
    · intro r hr
      simp only [List.mem_cons, List.not_mem_nil, or_false] at hr
      rcases hr with rfl | rfl <;> norm_num
    · intro e he
      simp only [List.mem_cons, List.not_mem_nil, or_false] at he
      rcases he with rfl | rfl <;> simp
    · intro e he
      simp only [List.mem_cons, List.not_mem_nil, or_false] at he
      rcases he with rfl | rfl
      · intro h0
        have := congrArg im h0
        simp at this
      · norm_num
  obtain ⟨o, h1, h2⟩ := C73_torch_succeeds hF hp rfl rfl idealD1 4
  exact ⟨o, h2, (C73_core_shell hF hp h1 (by norm_num)).1.differentiableAt (by simp)⟩

end Real

end MieDiff
