import Verif.Proofs.CenterDiff
import Verif.Proofs.Flux
import Verif.Props.Truncation
import Verif.Props.Conductor
import Verif.Props.Vanish
import Mathlib.Analysis.Complex.OpenMapping
import Mathlib.Analysis.Complex.CauchyIntegral

/-!
# C93: time reversal exchanges absorption and gain

The complex conjugate of a solution, with the permittivities conjugated, is again a solution: incoming and outgoing waves are
exchanged.  In terms of the response `1 - 2 a` of a channel (amplitude of the outgoing wave for a unit incoming wave): the product of the
response of a particle and of the conjugate of the response of the particle with conjugated permittivities is 1.
-/

namespace MieDiff

open Complex Spec Filter Topology
open scoped ComplexConjugate

/-! ## Conjugation of waves -/

/-- The conjugate of a wave, as a wave at the conjugate argument. -/
noncomputable def Spec.Wave.star (w : Wave) : Wave := ⟨conj w.d - 2 * conj w.a, -conj w.a⟩

theorem ricPsi_star (n : ℕ) {z : ℂ} (hz : z ≠ 0) : ricPsi n (conj z) = conj (ricPsi n z) := by
  simp only [ricPsi, sphJ_star n hz, map_mul]

theorem ricZeta_star (n : ℕ) {z : ℂ} (hz : z ≠ 0) : ricZeta n (conj z) = conj (2 * ricPsi n z - ricZeta n z) := by
  simp only [ricZeta, sphH, ricPsi, sphJ_star n hz, sphY_star n hz, map_sub, map_mul, map_add, conj_I, map_ofNat]
  ring

theorem dricPsi_star (n : ℕ) {z : ℂ} (hz : z ≠ 0) : deriv (ricPsi n) (conj z) = conj (deriv (ricPsi n) z) := by
  have hz' : conj z ≠ 0 := by simpa using hz
  rw [deriv_ricPsi_raise n hz, deriv_ricPsi_raise n hz', ricPsi_star _ hz, ricPsi_star _ hz]
  simp

theorem dricZeta_star (n : ℕ) {z : ℂ} (hz : z ≠ 0) :
    deriv (ricZeta n) (conj z) = conj (2 * deriv (ricPsi n) z - deriv (ricZeta n) z) := by
  have hz' : conj z ≠ 0 := by simpa using hz
  rw [deriv_ricZeta_raise n hz, deriv_ricZeta_raise n hz', deriv_ricPsi_raise n hz, ricZeta_star _ hz, ricZeta_star _ hz]
  simp only [map_sub, map_mul, map_div₀, map_add, map_natCast, map_one, map_ofNat]
  ring

theorem star_val (w : Wave) (n : ℕ) {z : ℂ} (hz : z ≠ 0) :
    w.star.val n (conj z) = conj (w.val n z) ∧ w.star.der n (conj z) = conj (w.der n z) := by
  simp only [Wave.star, Wave.val, Wave.der, ricPsi_star n hz, ricZeta_star n hz, dricPsi_star n hz, dricZeta_star n hz, map_sub,
    map_mul, map_ofNat]
  constructor <;> ring

theorem star_cont {q : Pol} {n : ℕ} {m m' x : ℂ} {w w' : Wave} (hm : m ≠ 0) (hm' : m' ≠ 0) (hx : x ≠ 0)
    (h : Cont q n m m' x w w') : Cont q n (conj m) (conj m') (conj x) w.star w'.star := by
  obtain ⟨a1, a2⟩ := star_val w n (mul_ne_zero hm hx)
  obtain ⟨b1, b2⟩ := star_val w' n (mul_ne_zero hm' hx)
  rw [map_mul] at a1 a2 b1 b2
  cases q <;> simp only [Cont, a1, a2, b1, b2] at h ⊢
  · exact ⟨by rw [h.1], by rw [← map_mul, ← map_mul, h.2]⟩
  · exact ⟨by rw [← map_mul, ← map_mul, h.1], by rw [h.2]⟩

theorem star_chain {q : Pol} {n : ℕ} : ∀ {layers : List (ℂ × ℂ)} {w out : Wave}, (∀ l ∈ layers, l.1 ≠ 0 ∧ l.2 ≠ 0) →
    Chain q n w layers out → Chain q n w.star (layers.map fun l => (conj l.1, conj l.2)) out.star := by
  intro layers
  induction layers with
  | nil => exact fun _ h => h.elim
  | cons l rest ih =>
    intro w out hne h
    have h0 := hne l (by simp)
    cases rest with
    | nil =>
      have := star_cont h0.1 one_ne_zero h0.2 h
      rwa [map_one] at this
    | cons l' rest =>
      obtain ⟨w', c1, c2⟩ := h
      exact ⟨w'.star, star_cont h0.1 (hne l' (by simp)).1 h0.2 c1, ih (fun k hk => hne k (List.mem_cons_of_mem _ hk)) c2⟩

/-! ## The particle with conjugated permittivities -/

/-- All permittivities conjugated: absorption becomes gain. -/
noncomputable def Particle1.reversed (p : Particle1) : Particle1 := ⟨p.k0, p.rLayers, p.epsLayers.map conj, p.epsEnv⟩

section

variable {p : Particle1} {k e0 : ℝ}

theorem reversed_host (hp : RealHost p k e0) : RealHost p.reversed k e0 :=
  ⟨hp.k0_eq, hp.k0_pos, hp.env_eq, hp.env_pos, hp.radii⟩

theorem reversed_nonzero (hz : ∀ e ∈ p.epsLayers, e ≠ 0) : ∀ e ∈ p.reversed.epsLayers, e ≠ 0 := by
  intro e he
  obtain ⟨e', h, rfl⟩ := List.mem_map.1 he
  exact (map_ne_zero _).2 (hz e' h)

theorem reversed_reversed (p : Particle1) : p.reversed.reversed = p := by
  cases p
  simp [Particle1.reversed, Function.comp_def]

theorem csqrt_star (e : ℂ) : csqrt (conj e) = conj (csqrt e) ∨ csqrt (conj e) = -conj (csqrt e) := by
  apply sq_eq_sq_iff_eq_or_eq_neg.1
  rw [csqrt_sq, ← map_pow, csqrt_sq]

theorem reversed_layers (hp : RealHost p k e0) :
    List.Forall₂ SignEq (p.layers.map fun l => (conj l.1, conj l.2)) p.reversed.layers := by
  have hs : conj (csqrt p.epsEnv) = csqrt p.epsEnv := by
    rw [hp.env_eq, csqrt_ofReal hp.env_pos.le, conj_ofReal]
  have hk : conj p.k0 = p.k0 := by rw [hp.k0_eq, conj_ofReal]
  obtain ⟨k0, rs, es, env⟩ := p
  simp only [Particle1.reversed, Particle1.layers, layersOf] at hs hk ⊢
  clear hp
  induction es generalizing rs with
  | nil => simp
  | cons e es ih =>
    cases rs with
    | nil => simp
    | cons r rs =>
      simp only [List.map_cons, List.zip_cons_cons, List.forall₂_cons]
      refine ⟨⟨by simp [hs, hk], ?_⟩, ih rs⟩
      rcases csqrt_star e with h | h
      · exact .inl (by rw [h, map_div₀, hs])
      · exact .inr (by rw [h, map_div₀, hs, neg_div])

/-- C93, interface problem: if the response `1 - 2 a` of a channel is not zero, the particle with conjugated permittivities has the
response `1 / conj (1 - 2 a)`. -/
theorem C93_reversal (hp : RealHost p k e0) (hz : ∀ e ∈ p.epsLayers, e ≠ 0) {q : Pol} {n : ℕ} {a : ℂ}
    (h : Solves q n p.layers a) (ha : 1 - 2 * a ≠ 0) :
    (∃! a', Solves q n p.reversed.layers a') ∧ ∀ a', Solves q n p.reversed.layers a' → (1 - 2 * a') * conj (1 - 2 * a) = 1 := by
  have hne := layers_ne hp hz
  have hne' : ∀ l ∈ p.layers.map fun l => (conj l.1, conj l.2), l.1 ≠ 0 ∧ l.2 ≠ 0 := by
    intro l hl
    obtain ⟨l', h1, rfl⟩ := List.mem_map.1 hl
    exact ⟨(map_ne_zero _).2 (hne l' h1).1, (map_ne_zero _).2 (hne l' h1).2⟩
  obtain ⟨core, hc, hch⟩ := h
  have hst := star_chain hne hch
  have hd : (⟨1, a⟩ : Wave).star.d = conj (1 - 2 * a) := by simp [Wave.star, map_ofNat]
  have hd0 : (⟨1, a⟩ : Wave).star.d ≠ 0 := by rw [hd]; exact (map_ne_zero _).2 ha
  have hs := signSolves (reversed_layers hp) hne' (solves_of_chain (by simp [Wave.star, hc]) hst hd0)
  have hu := fun b hb => Solves.unique (layers_ne (reversed_host hp) (reversed_nonzero hz)) (a1 := b) hb hs
  refine ⟨⟨_, hs, hu⟩, fun b hb => ?_⟩
  rw [hu b hb]
  rw [hd] at hd0 ⊢
  have : (⟨1, a⟩ : Wave).star.a = -conj a := rfl
  rw [this]
  field_simp
  simp [map_ofNat]

/-- C93, the exception: if the response of a channel is zero (the particle absorbs all light of that channel, `a = 1/2`), the particle
with conjugated permittivities has no solution in that channel: it emits without illumination (threshold of lasing). -/
theorem C93_lasing (hp : RealHost p k e0) (hz : ∀ e ∈ p.epsLayers, e ≠ 0) {q : Pol} {n : ℕ} (h : Solves q n p.layers (1 / 2)) :
    (¬∃ a', Solves q n p.reversed.layers a') ∧
      ∃ (core : Wave) (s : ℂ), core.a = 0 ∧ s ≠ 0 ∧ Chain q n core (p.layers.map fun l => (conj l.1, conj l.2)) ⟨0, s⟩ := by
  have hne := layers_ne hp hz
  have hne' : ∀ l ∈ p.layers.map fun l => (conj l.1, conj l.2), l.1 ≠ 0 ∧ l.2 ≠ 0 := by
    intro l hl
    obtain ⟨l', h1, rfl⟩ := List.mem_map.1 hl
    exact ⟨(map_ne_zero _).2 (hne l' h1).1, (map_ne_zero _).2 (hne l' h1).2⟩
  obtain ⟨core, hc, hch⟩ := h
  have hst := star_chain hne hch
  have hout : (⟨1, 1 / 2⟩ : Wave).star = ⟨0, -(1 / 2)⟩ := by simp [Wave.star, map_ofNat]
  rw [hout] at hst
  refine ⟨?_, core.star, -(1 / 2), by simp [Wave.star, hc], by norm_num, hst⟩
  rintro ⟨a', ha'⟩
  obtain ⟨c1, hc1, hch1⟩ := (signSolves_iff (reversed_layers hp) hne').2 ha'
  have hcs : core.star.a = 0 := by simp [Wave.star, hc]
  have e1 : c1.smul core.star.d = core.star.smul c1.d := by
    simp [Wave.smul, hc1, hcs, mul_comm]
  have e2 := Chain.unique hne' (hch1.smul core.star.d) (e1 ▸ hst.smul c1.d)
  simp only [Wave.smul, Wave.mk.injEq, mul_zero, mul_one] at e2
  obtain ⟨h1, h2⟩ := e2
  have hcore : core.star = ⟨0, 0⟩ := by
    cases hh : core.star
    rw [hh] at hcs h1
    simp only at hcs h1
    rw [hcs, h1]
  rw [hcore] at hst
  have hzero : Chain q n ⟨0, 0⟩ (p.layers.map fun l => (conj l.1, conj l.2)) ⟨0, 0⟩ := by
    have := hst.smul 0
    simpa [Wave.smul] using this
  have := Chain.unique hne' hst hzero
  simp at this

/-- C93 for any two calls that solve the interface problem. -/
theorem C93_exact (hp : RealHost p k e0) (hz : ∀ e ∈ p.epsLayers, e ≠ 0) {o o' : MieOut} (h : ExactRun p o)
    (h' : ExactRun p.reversed o') {i : ℕ} (hi : i < o.nMax.toNat) (hi' : i < o'.nMax.toNat) :
    (1 - 2 * o'.a.getD i 0) * conj (1 - 2 * o.a.getD i 0) = 1 ∧ (1 - 2 * o'.b.getD i 0) * conj (1 - 2 * o.b.getD i 0) = 1 := by
  obtain ⟨a, b, ea, eb, sa, sb⟩ := h.coef (i + 1) (by omega) (by omega)
  obtain ⟨a', b', ea', eb', sa', sb'⟩ := h'.coef (i + 1) (by omega) (by omega)
  rw [Nat.add_sub_cancel] at ea eb ea' eb'
  have key : ∀ {q : Pol} {a a' : ℂ}, Solves q (i + 1) p.layers a → Solves q (i + 1) p.reversed.layers a' →
      (1 - 2 * a') * conj (1 - 2 * a) = 1 := by
    intro q a a' hs hs'
    by_cases h0 : 1 - 2 * a = 0
    · have h12 : a = 1 / 2 := by linear_combination -(1 / 2) * h0
      rw [h12] at hs
      exact absurd ⟨a', hs'⟩ (C93_lasing hp hz hs).1
    · exact (C93_reversal hp hz hs h0).2 _ hs'
  simp only [List.getD_eq_getElem?_getD, ea, eb, ea', eb', Option.getD_some]
  exact ⟨key sa sa', key sb sb'⟩

/-- C93, absorption in one channel: what one particle absorbs the conjugated one emits, up to the strength of the response. -/
theorem C93_channel {a a' : ℂ} (h : (1 - 2 * a') * conj (1 - 2 * a) = 1) :
    (a'.re - ‖a'‖ ^ 2) * ‖1 - 2 * a‖ ^ 2 = -(a.re - ‖a‖ ^ 2) := by
  have e : ∀ z : ℂ, ‖1 - 2 * z‖ ^ 2 = 1 - 4 * (z.re - ‖z‖ ^ 2) := by
    intro z
    rw [← normSq_eq_norm_sq, ← normSq_eq_norm_sq, normSq_apply, normSq_apply]
    simp
    ring
  have h1 : ‖1 - 2 * a'‖ ^ 2 * ‖1 - 2 * a‖ ^ 2 = 1 := by
    rw [← mul_pow, ← Complex.norm_conj (1 - 2 * a), ← norm_mul, h, norm_one, one_pow]
  rw [e a'] at h1
  have h2 := e a
  nlinarith

/-- C93: gain.  If no layer absorbs (`Im eps <= 0`), every coefficient has `Re a <= |a|^2`, and the absorption cross section is not
positive: the particle returns at least the power it takes. -/
theorem C93_gain (hp : RealHost p k e0) (hinc : strictlyIncreasing p.rLayers) (hz : ∀ e ∈ p.epsLayers, e ≠ 0)
    (hgain : ∀ e ∈ p.epsLayers, e.im ≤ 0) {o : MieOut} (h : ExactRun p o) :
    (∀ z, z ∈ o.a ∨ z ∈ o.b → z.re ≤ ‖z‖ ^ 2) ∧ (crossSections o.k o.rS o.a o.b).csAbs ≤ 0 ∧
      (crossSections o.k o.rS o.a o.b).csExt ≤ (crossSections o.k o.rS o.a o.b).csSca := by
  have hne := layers_ne hp hz
  have key : ∀ (q : Pol) i a, Solves q i p.layers a → a.re ≤ ‖a‖ ^ 2 := by
    intro q i a ha
    have := layers_energy (s := -1) hp hinc (fun e he => by have := hgain e he; linarith) hne ha
    linarith
  have hmem : ∀ z, z ∈ o.a ∨ z ∈ o.b → z.re ≤ ‖z‖ ^ 2 := by
    intro z hzz
    rcases hzz with hzz | hzz
    · obtain ⟨i, hi, rfl⟩ := List.getElem_of_mem hzz
      obtain ⟨a, b, ea, -, sa, -⟩ := h.coef (i + 1) (by omega) (by have := h.lenA; omega)
      rw [Nat.add_sub_cancel, List.getElem?_eq_getElem hi, Option.some.injEq] at ea
      rw [ea]
      exact key _ _ _ sa
    · obtain ⟨i, hi, rfl⟩ := List.getElem_of_mem hzz
      obtain ⟨a, b, -, eb, -, sb⟩ := h.coef (i + 1) (by omega) (by have := h.lenB; omega)
      rw [Nat.add_sub_cancel, List.getElem?_eq_getElem hi, Option.some.injEq] at eb
      rw [eb]
      exact key _ _ _ sb
  have hk : o.k = ((k * Real.sqrt e0 : ℝ) : ℂ) := by rw [h.k, realHost_k hp]
  have hle : (crossSections o.k o.rS o.a o.b).csExt ≤ (crossSections o.k o.rS o.a o.b).csSca := by
    have hsum : ∀ v : List ℂ, (∀ z ∈ v, z.re ≤ ‖z‖ ^ 2) → (mpTerms o.k (v.map fun z => (z.re : ℂ))).sum.re ≤
        (mpTerms o.k (v.map fun z => ((‖z‖ ^ 2 : ℝ) : ℂ))).sum.re := by
      intro v hv
      rw [mpTerms, mpTerms, sum_mapIdx_range, sum_mapIdx_range, List.length_map, List.length_map, re_sum, re_sum]
      refine Finset.sum_le_sum fun i hi => ?_
      have hlt : i < v.length := Finset.mem_range.1 hi
      have hpre : ∀ x : ℝ, (2 * (Real.pi : ℂ) / o.k ^ 2 * (2 * ((i : ℂ) + 1) + 1) * (x : ℂ)).re =
          2 * Real.pi / (k * Real.sqrt e0) ^ 2 * (2 * ((i : ℝ) + 1) + 1) * x := by
        intro x
        rw [hk, ← ofReal_re (2 * Real.pi / (k * Real.sqrt e0) ^ 2 * (2 * ((i : ℝ) + 1) + 1) * x)]
        push_cast
        rfl
      have hz1 := hv v[i] (List.getElem_mem hlt)
      simp only [List.getD_eq_getElem?_getD, List.getElem?_map, List.getElem?_eq_getElem hlt, Option.map_some, Option.getD_some]
      have g1 := hpre v[i].re
      have g2 := hpre (‖v[i]‖ ^ 2)
      rw [g1, g2]
      exact mul_le_mul_of_nonneg_left hz1 (by positivity)
    have ha := hsum o.a fun z hz' => hmem z (.inl hz')
    have hb := hsum o.b fun z hz' => hmem z (.inr hz')
    simp only [crossSections, add_re]
    linarith
  refine ⟨hmem, ?_, hle⟩
  rw [abs_ext_sca]
  linarith

end

/-! ## Perfect absorbers -/

theorem analytic_ricPsi (n : ℕ) {z : ℂ} (hz : z ≠ 0) : AnalyticAt ℂ (ricPsi n) z := by
  have h : DifferentiableOn ℂ (ricPsi n) {0}ᶜ := fun w hw => (hasDerivAt_ricPsi n hw).differentiableAt.differentiableWithinAt
  exact h.analyticAt (isOpen_compl_singleton.mem_nhds hz)

/-- Far away `zeta` and its derivative have about the size 1. -/
theorem far_size (n : ℕ) : ∀ᶠ x : ℝ in atTop, (1 / 2 ≤ ‖ricZeta n x‖ ∧ ‖ricZeta n x‖ ≤ 2) ∧
    1 / 2 ≤ ‖deriv (ricZeta n) (x : ℂ)‖ ∧ ‖deriv (ricZeta n) (x : ℂ)‖ ≤ 2 := by
  obtain ⟨C, hC, h⟩ := ricZeta_far n
  filter_upwards [eventually_ge_atTop (1 : ℝ), eventually_ge_atTop (2 * C)] with x h1 h2
  obtain ⟨a1, a2⟩ := h x h1
  have hC : C / x ≤ 1 / 2 := by
    rw [div_le_iff₀ (by linarith)]
    linarith
  have e : ∀ m : ℕ, ‖(-I) ^ m * exp (x * I)‖ = 1 := by
    intro m
    rw [norm_mul, norm_pow, norm_neg, norm_I, one_pow, one_mul, norm_exp_ofReal_mul_I]
  have t1 := norm_sub_norm_le ((-I) ^ (n + 1) * exp (x * I)) (ricZeta n x)
  have t2 := norm_sub_norm_le (ricZeta n x) ((-I) ^ (n + 1) * exp (x * I))
  have t3 := norm_sub_norm_le ((-I) ^ n * exp (x * I)) (deriv (ricZeta n) x)
  have t4 := norm_sub_norm_le (deriv (ricZeta n) x) ((-I) ^ n * exp (x * I))
  rw [norm_sub_rev, e] at t1 t3
  rw [e] at t2 t4
  refine ⟨⟨?_, ?_⟩, ?_, ?_⟩ <;> linarith

/-- A function `f / (z g)` that vanishes at `z0` without being constant takes all small values near `z0`. -/
theorem small_values {f g : ℂ → ℂ} {z0 f' : ℂ} (hf : AnalyticAt ℂ f z0) (hg : AnalyticAt ℂ g z0) (h0 : z0 ≠ 0) (hf0 : f z0 = 0)
    (hg0 : g z0 ≠ 0) (hf' : HasDerivAt f f' z0) (hf'0 : f' ≠ 0) {t : ℝ → ℂ} (ht : Tendsto t atTop (𝓝 0)) :
    ∀ᶠ x in atTop, ∃ z, z ≠ 0 ∧ g z ≠ 0 ∧ f z / (z * g z) = t x := by
  have hq : AnalyticAt ℂ (fun z => f z / (z * g z)) z0 := hf.div (analyticAt_id.mul hg) (mul_ne_zero h0 hg0)
  have hn : ∀ᶠ z in 𝓝 z0, z ≠ 0 ∧ g z ≠ 0 := (continuousAt_id.eventually_ne h0).and (hg.continuousAt.eventually_ne hg0)
  have hv : f z0 / (z0 * g z0) = 0 := by rw [hf0, zero_div]
  rcases hq.eventually_constant_or_nhds_le_map_nhds with h | h
  · exfalso
    have hz : f =ᶠ[𝓝 z0] fun _ => 0 := by
      filter_upwards [h, hn] with z h1 h2
      rw [hv, div_eq_zero_iff] at h1
      exact h1.resolve_right (mul_ne_zero h2.1 h2.2)
    exact hf'0 (hf'.unique ((hasDerivAt_const z0 (0 : ℂ)).congr_of_eventuallyEq hz))
  · rw [hv] at h
    have hS := ht (h (image_mem_map hn))
    filter_upwards [hS] with x hx
    obtain ⟨z, hz, e⟩ := hx
    exact ⟨z, hz.1, hz.2, e⟩

/-- C93: perfect absorbers exist.  For every multipole there is a homogeneous absorbing sphere (size parameter `x`, permittivity `e`,
`Im e > 0`) in vacuum with coefficient 1/2. -/
theorem C93_absorber (q : Pol) (n : ℕ) :
    ∃ (x : ℝ) (e : ℂ), 0 < x ∧ 0 < e.im ∧ Solves q n (Particle1.mk x [1] [e] 1).layers (1 / 2) := by
  suffices h : ∃ (x : ℝ) (z c : ℂ), 0 < x ∧ z ≠ 0 ∧ Cont q n (z / x) 1 x ⟨c, 0⟩ ⟨1, 1 / 2⟩ by
    obtain ⟨x, z, c, hx, hz, hc⟩ := h
    have hxc : (x : ℂ) ≠ 0 := by exact_mod_cast hx.ne'
    have hm : z / x ≠ 0 := div_ne_zero hz hxc
    have hs : csqrt ((z / x) ^ 2) = z / x ∨ csqrt ((z / x) ^ 2) = -(z / x) := by
      apply sq_eq_sq_iff_eq_or_eq_neg.1
      rw [csqrt_sq]
    have h1 : csqrt 1 = 1 := by
      have := csqrt_ofReal (e := 1) zero_le_one
      simpa using this
    have hsol : Solves q n [(z / x, (x : ℂ))] (1 / 2) := ⟨⟨c, 0⟩, rfl, hc⟩
    have hS : Solves q n (Particle1.mk x [1] [(z / x) ^ 2] 1).layers (1 / 2) := by
      refine signSolves ?_ ?_ hsol
      · simp only [Particle1.layers, layersOf, List.map_cons, List.map_nil, List.zip_cons_cons, List.zip_nil_right, List.forall₂_cons,
          h1]
        exact ⟨⟨by simp, by simpa using hs⟩, List.Forall₂.nil⟩
      · simp only [List.mem_singleton]
        rintro l rfl
        exact ⟨hm, hxc⟩
    have hp : RealHost (Particle1.mk x [1] [(z / x) ^ 2] 1) x 1 := ⟨rfl, hx, by simp, one_pos, by simp⟩
    have hz2 : ∀ e ∈ (Particle1.mk x [1] [(z / x) ^ 2] 1).epsLayers, e ≠ 0 := by simp [hz, hx.ne']
    refine ⟨x, (z / x) ^ 2, hx, ?_, hS⟩
    by_contra hneg
    have hle : ((z / x) ^ 2).im ≤ 0 := not_lt.1 hneg
    have := layers_energy (s := -1) hp (by simp [strictlyIncreasing]) (fun e he => by
      rw [List.mem_singleton.1 he]; linarith) (layers_ne hp hz2) hS
    norm_num at this
  -- the incoming wave
  have hX : ∀ x : ℝ, x ≠ 0 → (⟨1, 1 / 2⟩ : Wave).val n x = conj (ricZeta n x) / 2 ∧
      (⟨1, 1 / 2⟩ : Wave).der n x = conj (deriv (ricZeta n) x) / 2 := by
    intro x hx
    rw [ricZeta_conj n hx, dricZeta_conj n hx]
    simp only [Wave.val, Wave.der]
    constructor <;> ring
  have hlim : ∀ f g : ℝ → ℂ, (∀ᶠ x in atTop, ‖f x‖ ≤ 2 ∧ 1 / 2 ≤ ‖g x‖) →
      Tendsto (fun x : ℝ => conj (f x) / (x * conj (g x))) atTop (𝓝 0) := by
    intro f g h
    have hl : Tendsto (fun x : ℝ => 4 / x) atTop (𝓝 0) := tendsto_const_nhds.div_atTop tendsto_id
    refine squeeze_zero_norm' ?_ hl
    filter_upwards [h, eventually_gt_atTop 0] with x hx h0
    rw [norm_div, norm_mul, norm_conj, norm_conj, norm_real, Real.norm_of_nonneg h0.le]
    have : 0 < ‖g x‖ := by linarith [hx.2]
    rw [div_le_div_iff₀ (by positivity) h0]
    nlinarith [hx.1, hx.2]
  have hsize := far_size n
  have w := fun z : ℂ => fun hz : z ≠ 0 => wave_d ⟨1, 0⟩ n hz
  simp only [Wave.val, Wave.der, one_mul, zero_mul, sub_zero] at w
  cases q
  · obtain ⟨-, y, hM, hy, h0⟩ := psi_zeros n (n + 1)
    have hyc : (y : ℂ) ≠ 0 := by exact_mod_cast hy.ne'
    have hpsi : ricPsi n y ≠ 0 := by
      intro h
      have := w y hyc
      rw [h, h0] at this
      simp at this
      exact I_ne_zero this.symm
    have hE := small_values (analytic_ricPsi n hyc).deriv (analytic_ricPsi n hyc) hyc h0 hpsi (hasDerivAt_dricPsi n hyc) (by
      refine mul_ne_zero (fun h => ?_) hpsi
      rw [sub_eq_zero, div_eq_one_iff_eq (pow_ne_zero 2 hyc)] at h
      have h' : (n : ℝ) * (n + 1) = y ^ 2 := by exact_mod_cast h
      have hn : (0 : ℝ) ≤ n := Nat.cast_nonneg n
      nlinarith) (hlim (fun x => deriv (ricZeta n) x) (fun x => ricZeta n x) (by
      filter_upwards [hsize] with x hx
      exact ⟨hx.2.2, hx.1.1⟩))
    obtain ⟨x, ⟨z, hz, hg, e⟩, h1⟩ := (hE.and (eventually_gt_atTop 0)).exists
    have hxc : (x : ℂ) ≠ 0 := by exact_mod_cast h1.ne'
    have hx0 := zeta_real_ne n h1.ne'
    have hc0 : conj (ricZeta n x) ≠ 0 := (map_ne_zero _).2 hx0.1
    obtain ⟨v1, v2⟩ := hX x h1.ne'
    refine ⟨x, z, conj (ricZeta n x) / 2 / ricPsi n z, h1, hz, ?_⟩
    simp only [Cont, one_mul, mul_one, v1, v2, div_mul_cancel₀ _ hxc]
    simp only [Wave.val, Wave.der, zero_mul, sub_zero]
    rw [div_eq_div_iff (mul_ne_zero hz hg) (mul_ne_zero hxc hc0)] at e
    constructor
    · field_simp
    · field_simp
      linear_combination e
  · obtain ⟨⟨y, hM, hy, h0⟩, -⟩ := psi_zeros n (n + 1)
    have hyc : (y : ℂ) ≠ 0 := by exact_mod_cast hy.ne'
    have hpsi : deriv (ricPsi n) (y : ℂ) ≠ 0 := by
      intro h
      have := w y hyc
      rw [h, h0] at this
      simp at this
      exact I_ne_zero this.symm
    have hE := small_values (analytic_ricPsi n hyc) (analytic_ricPsi n hyc).deriv hyc h0 hpsi (hasDerivAt_ricPsi n hyc) hpsi (hlim (fun x => ricZeta n x) (fun x => deriv (ricZeta n) x) (by
      filter_upwards [hsize] with x hx
      exact ⟨hx.1.2, hx.2.1⟩))
    obtain ⟨x, ⟨z, hz, hg, e⟩, h1⟩ := (hE.and (eventually_gt_atTop 0)).exists
    have hxc : (x : ℂ) ≠ 0 := by exact_mod_cast h1.ne'
    have hx0 := zeta_real_ne n h1.ne'
    have hc0 : conj (deriv (ricZeta n) x) ≠ 0 := (map_ne_zero _).2 hx0.2
    obtain ⟨v1, v2⟩ := hX x h1.ne'
    refine ⟨x, z, conj (deriv (ricZeta n) x) / 2 / deriv (ricPsi n) z, h1, hz, ?_⟩
    simp only [Cont, one_mul, mul_one, v1, v2, div_mul_cancel₀ _ hxc]
    simp only [Wave.val, Wave.der, zero_mul, sub_zero]
    rw [div_eq_div_iff (mul_ne_zero hz hg) (mul_ne_zero hxc hc0)] at e
    constructor
    · field_simp
      linear_combination e
    · field_simp

/-! ## Instances -/

/-- `C93_lasing` applies: for every multipole some sphere has no solution (and emits), its conjugate absorbs everything. -/
example (q : Pol) (n : ℕ) : ∃ (x : ℝ) (e : ℂ), 0 < x ∧ e.im < 0 ∧ ¬∃ a, Solves q n (Particle1.mk x [1] [e] 1).layers a := by
  obtain ⟨x, e, hx, he, hs⟩ := C93_absorber q n
  have h := (C93_lasing (p := Particle1.mk x [1] [e] 1) (k := x) (e0 := 1) ⟨rfl, hx, by simp, one_pos, by simp⟩ (by
    simp only [List.mem_singleton, forall_eq]
    rintro rfl
    simp at he) hs).1
  exact ⟨x, conj e, hx, by simpa using he, h⟩


theorem film_runs (K : D1Kernel) (n : ℕ) {e : ℂ} (he : e ≠ 0) : ∀ᶠ r in 𝓝[>] 2, ∃ o, ExactRun (glassSphere.withFilm 1 r e) o ∧
    o.nMax.toNat = n + 1 := by
  have s1 : csqrt 1 ≠ 0 := csqrt_nonzero one_ne_zero
  have s4 : csqrt 4 ≠ 0 := csqrt_nonzero (by norm_num)
  have s8 := csqrt_nonzero he
  obtain ⟨o, o', h⟩ := thinCalls_of (P := fun r => glassSphere.withFilm 1 r e) (F := 𝓝[>] 2) (p := glassSphere) K n (by
    filter_upwards [self_mem_nhdsWithin] with r h0
    have h0' : (2 : ℝ) < r := h0
    have hr : (r : ℂ) ≠ 0 := by exact_mod_cast (by linarith : (r : ℝ) ≠ 0)
    exact torch_succeeds K (by simp [Particle1.withFilm, glassSphere, strictlyIncreasing, h0']) rfl (Or.inr rfl)
      (by simp [Particle1.csX, Particle1.withFilm, glassSphere, s1])
      (by simp [Particle1.csY, Particle1.withFilm, glassSphere, s1]; linarith)
      (by simp [Particle1.csM1, Particle1.withFilm, glassSphere, s1, s4])
      (by simp [Particle1.csM2, Particle1.withFilm, glassSphere, s1, s8]) n) (glass_torch K n)
  obtain ⟨K', B, backend, w, ri, hb, hc, -, hS⟩ := h.call
  have hsol : ∀ᶠ r in 𝓝[>] 2, ∀ i ∈ Finset.range (n + 2), ∀ q, ∃ a, Solves q i (glassSphere.withFilm 1 r e).layers a := by
    refine (Finset.eventually_all _).2 fun i _ => ?_
    filter_upwards [(C91_film_coef glass_passive he (j := 0) rfl .tm i).1, (C91_film_coef glass_passive he (j := 0) rfl .te i).1]
      with r a1 a2
    intro q
    cases q
    exacts [a1.exists, a2.exists]
  filter_upwards [hc, hsol, self_mem_nhdsWithin] with r hr hs h0
  have h0' : (2 : ℝ) < r := h0
  obtain ⟨a1, a2, -⟩ := cs_exact h.pos hb hr hS (withFilm_ne glass_passive he (by linarith) 1) fun q i _ hi' =>
    hs i (Finset.mem_range.2 (by omega)) q
  exact ⟨o r, a1, a2⟩

/-- `C93_exact` and `C93_gain` apply to a glass sphere with a thin absorbing coating and to the one with a thin amplifying coating. -/
example (K : D1Kernel) (n : ℕ) : ∃ (r : ℝ) (o o' : MieOut), 2 < r ∧
    ExactRun (glassSphere.withFilm 1 r (-10 + I)) o ∧ ExactRun (glassSphere.withFilm 1 r (-10 + I)).reversed o' ∧
    (1 - 2 * o'.a.getD 0 0) * conj (1 - 2 * o.a.getD 0 0) = 1 ∧ (crossSections o'.k o'.rS o'.a o'.b).csAbs ≤ 0 := by
  have he : ∀ s : ℝ, s ≠ 0 → (-10 + s * I : ℂ) ≠ 0 := by
    intro s hs h
    have := congrArg im h
    simp at this
    exact hs this
  have e1 := he 1 one_ne_zero
  have e2 := he (-1) (by norm_num)
  have hrev : ∀ r, (glassSphere.withFilm 1 r (-10 + I)).reversed = glassSphere.withFilm 1 r (-10 - I) := by
    intro r
    simp [Particle1.reversed, Particle1.withFilm, glassSphere, map_ofNat, sub_eq_add_neg]
  rw [ofReal_one, one_mul] at e1
  rw [ofReal_neg, ofReal_one, neg_one_mul, ← sub_eq_add_neg] at e2
  obtain ⟨r, ⟨o, h1, n1⟩, ⟨o', h2, n2⟩, h0⟩ :=
    ((film_runs K n e1).and ((film_runs K n e2).and self_mem_nhdsWithin)).exists
  have h0' : (2 : ℝ) < r := h0
  have hh : RealHost (glassSphere.withFilm 1 r (-10 + I)) 1 1 :=
    ⟨by simp [Particle1.withFilm, glassSphere], one_pos, by simp [Particle1.withFilm, glassSphere], one_pos, by
      simp [Particle1.withFilm, glassSphere]; linarith⟩
  have hz : ∀ e ∈ (glassSphere.withFilm 1 r (-10 + I)).epsLayers, e ≠ 0 := by
    simp [Particle1.withFilm, glassSphere, e1]
  rw [← hrev] at h2
  refine ⟨r, o, o', h0', h1, h2, (C93_exact hh hz h1 h2 (by omega) (by omega)).1, ?_⟩
  refine (C93_gain (reversed_host hh) ?_ (reversed_nonzero hz) ?_ h2).2.1
  · simp [Particle1.reversed, Particle1.withFilm, glassSphere, strictlyIncreasing, h0']
  · rw [hrev]
    simp [Particle1.withFilm, glassSphere]

end MieDiff
