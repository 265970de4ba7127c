import Verif.Proofs.Conductor
import Verif.Proofs.Flux
import Verif.Props.NearBatch
import Verif.Props.Vanish

/-!
# C92: a metallic outer layer in the limit of a perfect conductor

The permittivity of the outermost layer goes to infinity away from the positive real axis (`|eps| - Re eps -> infinity`,
`Im eps >= 0`: a good conductor `eps = i s`, an ideal plasma `eps = -s`).  Every coefficient approaches the coefficient of a
perfectly conducting sphere of the outer radius, whatever is inside; the particle does not absorb in the limit.
-/

namespace MieDiff

open Complex Spec Filter Topology
open scoped ComplexConjugate

/-- The particle with an additional outermost layer of outer radius `R` and permittivity `e`. -/
def Particle1.coated (p : Particle1) (R : ℝ) (e : ℂ) : Particle1 :=
  ⟨p.k0, p.rLayers ++ [R], p.epsLayers ++ [e], p.epsEnv⟩

theorem csqrt_im {e : ℂ} (h : 0 ≤ e.im) : (csqrt e).im = Real.sqrt ((‖e‖ - e.re) / 2) := by
  have h1 := congrArg re (csqrt_sq e)
  have h2 := congrArg im (csqrt_sq e)
  have h3 : ‖e‖ = (csqrt e).re ^ 2 + (csqrt e).im ^ 2 := by
    conv_lhs => rw [← csqrt_sq e, norm_pow, ← normSq_eq_norm_sq, normSq_apply]
    ring
  rw [sq, mul_re] at h1
  rw [sq, mul_im] at h2
  have hy : 0 ≤ (csqrt e).im := by
    rcases (csqrt_re_nonneg e).lt_or_eq with hx | hx
    · by_contra hn
      push Not at hn
      nlinarith
    · have he : e = ((-(csqrt e).im ^ 2 : ℝ) : ℂ) := by
        apply Complex.ext
        · rw [ofReal_re, ← h1, ← hx]; ring
        · rw [ofReal_im, ← h2, ← hx]; ring
      by_cases h0 : (csqrt e).im = 0
      · exact h0.ge
      have harg : e.arg = Real.pi := by
        rw [he]
        exact arg_ofReal_of_neg (by have := pow_pos (abs_pos.2 h0) 2; rw [sq_abs] at this; linarith)
      have hne : e ≠ 0 := by
        intro h'
        rw [h'] at harg
        simp only [arg_zero] at harg
        exact Real.pi_pos.ne harg
      have him : (Complex.log e * (1 / 2)).im = e.arg / 2 := by
        have : Complex.log e * (1 / 2) = Complex.log e * ((1 / 2 : ℝ) : ℂ) := by push_cast; rfl
        rw [this, Complex.im_mul_ofReal, Complex.log_im]; ring
      unfold csqrt
      rw [Complex.cpow_def_of_ne_zero hne, Complex.exp_im, him, harg, Real.sin_pi_div_two, mul_one]
      exact (Real.exp_pos _).le
  rw [h3, ← h1, show ((csqrt e).re ^ 2 + (csqrt e).im ^ 2 - ((csqrt e).re * (csqrt e).re - (csqrt e).im * (csqrt e).im)) / 2 =
    (csqrt e).im ^ 2 by ring, Real.sqrt_sq hy]

/-! ## The perfectly conducting sphere -/

theorem zeta_real_ne (n : ℕ) {x : ℝ} (hx : x ≠ 0) : ricZeta n (x : ℂ) ≠ 0 ∧ deriv (ricZeta n) (x : ℂ) ≠ 0 := by
  have hxc : (x : ℂ) ≠ 0 := by exact_mod_cast hx
  have hw := wave_d ⟨1, 0⟩ n hxc
  simp only [Wave.val, Wave.der, one_mul, zero_mul, sub_zero] at hw
  constructor
  · intro h
    have h1 := ricZeta_conj n hx
    rw [h, map_zero, sub_zero] at h1
    have h2 : ricPsi n (x : ℂ) = 0 := by
      have := h1.symm
      simpa using this
    rw [h, h2, zero_mul, mul_zero, sub_zero] at hw
    exact I_ne_zero hw.symm
  · intro h
    have h1 := dricZeta_conj n hx
    rw [h, map_zero, sub_zero] at h1
    have h2 : deriv (ricPsi n) (x : ℂ) = 0 := by
      have := h1.symm
      simpa using this
    rw [h, h2, zero_mul, mul_zero, sub_zero] at hw
    exact I_ne_zero hw.symm

/-- C92: the coefficients of the perfectly conducting sphere exist, are unique, and belong to a particle without absorption:
`|a|^2 = Re a`. -/
theorem C92_conductor {x : ℝ} (hx : x ≠ 0) (q : Pol) (n : ℕ) :
    (∃! a, ConductorSolves q n x a) ∧ ∀ a, ConductorSolves q n x a → ‖a‖ ^ 2 = a.re := by
  have key : ∀ P Z : ℂ, Z ≠ 0 → conj P = P → conj Z = 2 * P - Z →
      (∃! a : ℂ, P - a * Z = 0) ∧ ∀ a : ℂ, P - a * Z = 0 → ‖a‖ ^ 2 = a.re := by
    intro P Z hZ hP hZ'
    refine ⟨⟨P / Z, by simp only; field_simp; ring, fun a ha => ?_⟩, fun a ha => ?_⟩
    · rw [eq_div_iff hZ]
      exact (sub_eq_zero.1 ha).symm
    · have e1 : a * Z = P := (sub_eq_zero.1 ha).symm
      have e2 : conj a * (2 * P - Z) = P := by rw [← hZ', ← map_mul, e1, hP]
      have hZ2 : 2 * P - Z ≠ 0 := by rw [← hZ']; exact (map_ne_zero _).2 hZ
      have e3 : a * conj a = (a + conj a) / 2 := by
        have : (a * conj a - (a + conj a) / 2) * (Z * (2 * P - Z)) = 0 := by
          have b1 : a * conj a * (Z * (2 * P - Z)) = P * P := by linear_combination (conj a * (2 * P - Z)) * e1 + P * e2
          linear_combination b1 - (2 * P - Z) / 2 * e1 - Z / 2 * e2
        exact sub_eq_zero.1 ((mul_eq_zero.1 this).resolve_right (mul_ne_zero hZ hZ2))
      have e4 := congrArg re e3
      rw [mul_conj, ofReal_re, add_conj, normSq_eq_norm_sq] at e4
      rw [e4]
      simp
  obtain ⟨hz, hz'⟩ := zeta_real_ne n hx
  cases q with
  | tm => simpa only [ConductorSolves, Wave.der, one_mul] using key _ _ hz' (dricPsi_conj n hx) (dricZeta_conj n hx)
  | te => simpa only [ConductorSolves, Wave.val, one_mul] using key _ _ hz (ricPsi_conj n hx) (ricZeta_conj n hx)

/-! ## The interface problem -/

section

variable {ι : Type*} {F : Filter ι} {p : Particle1} {k e0 R : ℝ} {e : ι → ℂ}

/-- The outermost layer becomes a perfect conductor: the permittivity goes to infinity, but not along the positive real axis. -/
structure Conducting (F : Filter ι) (e : ι → ℂ) : Prop where
  passive : ∀ᶠ i in F, 0 ≤ (e i).im
  large : Tendsto (fun i => ‖e i‖ - (e i).re) F atTop

/-- What is inside the outermost layer: any number of layers of nonzero permittivity, possibly none, of smaller radius. -/
structure Interior (p : Particle1) (k e0 R : ℝ) : Prop where
  host : RealHost p k e0
  len : p.epsLayers.length = p.rLayers.length
  nonzero : ∀ e ∈ p.epsLayers, e ≠ 0
  inside : ∀ r ∈ p.rLayers, r < R
  pos : 0 < R

theorem Conducting.im (h : Conducting F e) : Tendsto (fun i => (csqrt (e i)).im) F atTop := by
  have h1 : Tendsto (fun i => Real.sqrt ((‖e i‖ - (e i).re) / 2)) F atTop :=
    Real.tendsto_sqrt_atTop.comp (h.large.atTop_div_const two_pos)
  exact h1.congr' (h.passive.mono fun i hi => (csqrt_im hi).symm)

theorem Conducting.ne (h : Conducting F e) : ∀ᶠ i in F, e i ≠ 0 := by
  filter_upwards [h.large.eventually_gt_atTop 0] with i hi h0
  rw [h0] at hi
  simp at hi

theorem coated_layers (hp : Interior p k e0 R) (e : ℂ) :
    (p.coated R e).layers = p.layers ++ [(csqrt e / csqrt p.epsEnv, ((k * Real.sqrt e0 * R : ℝ) : ℂ))] := by
  simp only [Particle1.coated, Particle1.layers, layersOf, List.map_append, List.map_cons, List.map_nil]
  rw [List.zip_append (by simp [hp.len]), List.zip_cons_cons, List.zip_nil_left, hp.host.k0_eq, hp.host.env_eq,
    csqrt_ofReal hp.host.env_pos.le]
  push_cast
  rfl

theorem coated_ne (hp : Interior p k e0 R) {e : ℂ} (he : e ≠ 0) : ∀ l ∈ (p.coated R e).layers, l.1 ≠ 0 ∧ l.2 ≠ 0 := by
  intro l hl
  rw [coated_layers hp] at hl
  rcases List.mem_append.1 hl with h | h
  · exact layers_ne hp.host hp.nonzero l h
  · simp only [List.mem_cons, List.not_mem_nil, or_false] at h
    rw [h]
    refine ⟨index_ne he hp.host, ?_⟩
    simp only
    exact_mod_cast (mul_pos (mul_pos hp.host.k0_pos (Real.sqrt_pos.2 hp.host.env_pos)) hp.pos).ne'

/-- C92, interface problem: every coefficient approaches that of a perfectly conducting sphere of the outer radius. -/
theorem C92_coef (hp : Interior p k e0 R) (he : Conducting F e) (q : Pol) (n : ℕ) :
    (∀ᶠ i in F, ∃! a, Solves q n (p.coated R (e i)).layers a) ∧
    ∃ a, ConductorSolves q n ((k * Real.sqrt e0 * R : ℝ) : ℂ) a ∧ Tendsto (fun i => coef q n (p.coated R (e i)).layers) F (𝓝 a) := by
  have hs : 0 < Real.sqrt e0 := Real.sqrt_pos.2 hp.host.env_pos
  have hK : 0 < k * Real.sqrt e0 := mul_pos hp.host.k0_pos hs
  have hx : 0 < k * Real.sqrt e0 * R := mul_pos hK hp.pos
  have hse : csqrt p.epsEnv = (Real.sqrt e0 : ℝ) := by rw [hp.host.env_eq, csqrt_ofReal hp.host.env_pos.le]
  obtain ⟨hz, hz'⟩ := zeta_real_ne n hx.ne'
  have him : Tendsto (fun i => (csqrt (e i) / csqrt p.epsEnv).im) F atTop := by
    have := he.im.atTop_div_const hs
    refine this.congr fun i => ?_
    rw [hse, div_ofReal_im]
  obtain ⟨a, ha, h1, h2⟩ := coef_conductor hx him q n hz hz' p.layers (by
    intro l hl
    refine ⟨(layers_ne hp.host hp.nonzero l hl).1, ?_⟩
    have h2 := (List.of_mem_zip hl).2
    obtain ⟨r, hr, h3⟩ := List.mem_map.1 h2
    refine ⟨k * Real.sqrt e0 * r, mul_pos hK (hp.host.radii r hr), mul_lt_mul_of_pos_left (hp.inside r hr) hK, ?_⟩
    rw [← h3, hse, hp.host.k0_eq]
    push_cast
    rfl)
  simp only [← coated_layers hp] at h1 h2
  refine ⟨?_, a, ha, h2⟩
  filter_upwards [h1, he.ne] with i hi h0
  obtain ⟨a', ha'⟩ := hi
  exact ⟨a', ha', fun b hb => hb.unique (coated_ne hp h0) ha'⟩

/-! ## The calls -/

/-- C92 for any backend whose calls solve the interface problem. -/
theorem C92_exact (hp : Interior p k e0 R) (he : Conducting F e) {N : ℕ} {o : ι → MieOut}
    (h : ∀ᶠ i in F, ExactRun (p.coated R (e i)) (o i) ∧ (o i).nMax.toNat = N ∧ (o i).rS = R) :
    ∃ A B : List ℂ, A.length = N ∧ B.length = N ∧
      (∀ j < N, ConductorSolves .tm (j + 1) ((k * Real.sqrt e0 * R : ℝ) : ℂ) (A.getD j 0) ∧
        ConductorSolves .te (j + 1) ((k * Real.sqrt e0 * R : ℝ) : ℂ) (B.getD j 0) ∧
        Tendsto (fun i => (o i).a.getD j 0) F (𝓝 (A.getD j 0)) ∧ Tendsto (fun i => (o i).b.getD j 0) F (𝓝 (B.getD j 0))) ∧
      let cs := fun i => crossSections (o i).k (o i).rS (o i).a (o i).b
      let cs' := crossSections (k * Real.sqrt e0 : ℝ) R A B
      Tendsto (fun i => (cs i).csExt) F (𝓝 cs'.csExt) ∧ Tendsto (fun i => (cs i).csSca) F (𝓝 cs'.csExt) ∧
        Tendsto (fun i => (cs i).csAbs) F (𝓝 0) ∧ Tendsto (fun i => (cs i).qExt) F (𝓝 cs'.qExt) ∧
        Tendsto (fun i => (cs i).qSca) F (𝓝 cs'.qExt) ∧ Tendsto (fun i => (cs i).qAbs) F (𝓝 0) := by
  have hx : 0 < k * Real.sqrt e0 * R := mul_pos (mul_pos hp.host.k0_pos (Real.sqrt_pos.2 hp.host.env_pos)) hp.pos
  choose c hc hlim using fun (q : Pol) (n : ℕ) => (C92_coef hp he q n).2
  have hget : ∀ (q : Pol) (j : ℕ), j < N → ((List.range N).map fun j => c q (j + 1)).getD j 0 = c q (j + 1) := by
    intro q j hj
    rw [List.getD_eq_getElem?_getD, List.getElem?_map, List.getElem?_range hj]
    rfl
  have hcoef : ∀ j < N, ∀ᶠ i in F, (o i).a.getD j 0 = coef .tm (j + 1) (p.coated R (e i)).layers ∧
      (o i).b.getD j 0 = coef .te (j + 1) (p.coated R (e i)).layers := by
    intro j hj
    filter_upwards [h, he.ne] with i hi h0
    exact run_getD hi.1 (coated_ne hp h0) (by rw [hi.2.1]; exact hj)
  have ha : ∀ j < N, Tendsto (fun i => (o i).a.getD j 0) F (𝓝 (((List.range N).map fun j => c .tm (j + 1)).getD j 0)) := by
    intro j hj
    rw [hget _ _ hj]
    exact (hlim .tm (j + 1)).congr' ((hcoef j hj).mono fun i hi => hi.1.symm)
  have hb : ∀ j < N, Tendsto (fun i => (o i).b.getD j 0) F (𝓝 (((List.range N).map fun j => c .te (j + 1)).getD j 0)) := by
    intro j hj
    rw [hget _ _ hj]
    exact (hlim .te (j + 1)).congr' ((hcoef j hj).mono fun i hi => hi.2.symm)
  refine ⟨(List.range N).map fun j => c .tm (j + 1), (List.range N).map fun j => c .te (j + 1), by simp, by simp, ?_, ?_⟩
  · intro j hj
    refine ⟨?_, ?_, ha j hj, hb j hj⟩ <;> rw [hget _ _ hj]
    · exact hc _ _
    · exact hc _ _
  · intro cs cs'
    have hk : p.k0 * csqrt p.epsEnv = ((k * Real.sqrt e0 : ℝ) : ℂ) := by
      rw [hp.host.k0_eq, hp.host.env_eq, csqrt_ofReal hp.host.env_pos.le]
      push_cast
      rfl
    have hes : cs'.csSca = cs'.csExt := by
      have hq : ∀ q, ((List.range N).map fun j => c q (j + 1)).map (fun z => ((‖z‖ ^ 2 : ℝ) : ℂ)) =
          ((List.range N).map fun j => c q (j + 1)).map fun z => (z.re : ℂ) := by
        intro q
        rw [List.map_map, List.map_map]
        refine List.map_congr_left fun j _ => ?_
        simp only [Function.comp_apply]
        rw [(C92_conductor hx.ne' q (j + 1)).2 _ (hc q (j + 1))]
      simp only [cs', crossSections]
      rw [hq, hq]
    have hab : cs'.csAbs = 0 := by
      have : cs'.csAbs = cs'.csExt - cs'.csSca := abs_ext_sca _ _ _ _
      rw [this, hes, sub_self]
    have hq2 : cs'.qSca = cs'.qExt := by
      show cs'.csSca / cs'.csGeo = cs'.csExt / cs'.csGeo
      rw [hes]
    have hq3 : cs'.qAbs = 0 := by
      show cs'.csAbs / cs'.csGeo = 0
      rw [hab, zero_div]
    have hlim := cross_tendsto (F := F) (K := p.k0 * csqrt p.epsEnv) (N := N) (o := o)
      (o' := ⟨p.k0 * csqrt p.epsEnv, N, 0, R, 0, 0, 0, [], (List.range N).map fun j => c .tm (j + 1),
        (List.range N).map fun j => c .te (j + 1), none⟩)
      (h.mono fun i x => x.1.k) rfl (tendsto_const_nhds.congr' (h.mono fun i x => x.2.2.symm)) hp.pos.ne'
      (h.mono fun i x => by rw [x.1.lenA, x.2.1]) (by simp) (h.mono fun i x => by rw [x.1.lenB, x.2.1]) (by simp) ha hb
    simp only [hk] at hlim
    obtain ⟨l1, l2, l3, l4, l5, l6⟩ := hlim
    exact ⟨l1, hes ▸ l2, hab ▸ l3, l4, hq2 ▸ l5, hq3 ▸ l6⟩

/-- Calls of the torch or scipy backend with exact special functions and the given order, for a family of particles. -/
structure FamilyCalls (P : ι → Particle1) (F : Filter ι) (N : ℕ) (o : ι → MieOut) : Prop where
  pos : 1 ≤ N
  call : ∃ K B backend w ri, (backend.toLower = "torch" ∨ backend.toLower = "scipy") ∧
    (∀ᶠ i in F, mieCoefficients K B (P i) backend w (some (N : ℤ)) ri = .ok (o i)) ∧
    ∀ S, selectBessel B backend w = .ok S → ∀ z : ℂ, z ≠ 0 → ExactAt S N z

/-- C92: calls of the torch and scipy backends.  The coefficients approach those of the perfectly conducting sphere of the outer
radius, the extinction and scattering cross sections both approach its extinction cross section, the absorption goes to zero. -/
theorem C92_calls (hp : Interior p k e0 R) (he : Conducting F e) {N : ℕ} {o : ι → MieOut}
    (h : FamilyCalls (fun i => p.coated R (e i)) F N o) :
    ∃ A B : List ℂ, A.length = N ∧ B.length = N ∧
      (∀ j < N, ConductorSolves .tm (j + 1) ((k * Real.sqrt e0 * R : ℝ) : ℂ) (A.getD j 0) ∧
        ConductorSolves .te (j + 1) ((k * Real.sqrt e0 * R : ℝ) : ℂ) (B.getD j 0) ∧
        Tendsto (fun i => (o i).a.getD j 0) F (𝓝 (A.getD j 0)) ∧ Tendsto (fun i => (o i).b.getD j 0) F (𝓝 (B.getD j 0))) ∧
      let cs := fun i => crossSections (o i).k (o i).rS (o i).a (o i).b
      let cs' := crossSections (k * Real.sqrt e0 : ℝ) R A B
      Tendsto (fun i => (cs i).csExt) F (𝓝 cs'.csExt) ∧ Tendsto (fun i => (cs i).csSca) F (𝓝 cs'.csExt) ∧
        Tendsto (fun i => (cs i).csAbs) F (𝓝 0) ∧ Tendsto (fun i => (cs i).qExt) F (𝓝 cs'.qExt) ∧
        Tendsto (fun i => (cs i).qSca) F (𝓝 cs'.qExt) ∧ Tendsto (fun i => (cs i).qAbs) F (𝓝 0) := by
  obtain ⟨K, B, backend, w, ri, hb, hc, hS⟩ := h.call
  refine C92_exact hp he (N := N) ?_
  have hsol : ∀ᶠ i in F, ∀ j ∈ Finset.range (N + 1), ∀ q, ∃ a, Solves q j (p.coated R (e i)).layers a := by
    refine (Finset.eventually_all _).2 fun j _ => ?_
    filter_upwards [(C92_coef hp he .tm j).1, (C92_coef hp he .te j).1] with r a1 a2
    intro q
    cases q
    exacts [a1.exists, a2.exists]
  filter_upwards [hc, hsol, he.ne] with i hi hs h0
  obtain ⟨a1, a2, a3⟩ := cs_exact h.pos hb hi hS (coated_ne hp h0) fun q j _ hj => hs j (Finset.mem_range.2 (by omega)) q
  refine ⟨a1, a2, a3.trans ?_⟩
  simp [Particle1.coated]

/-- C92: what is inside a perfectly conducting layer has no effect: two particles with the same surroundings and the same outer
radius have the same limits. -/
theorem C92_interior {p' : Particle1} {ι' : Type*} {F' : Filter ι'} {e' : ι' → ℂ} [NeBot F] [NeBot F'] (hp : Interior p k e0 R)
    (he : Conducting F e) (hp' : Interior p' k e0 R) (he' : Conducting F' e') {N : ℕ} {o : ι → MieOut} {o' : ι' → MieOut}
    (h : FamilyCalls (fun i => p.coated R (e i)) F N o) (h' : FamilyCalls (fun i => p'.coated R (e' i)) F' N o') {j : ℕ} (hj : j < N)
    {a b : ℂ} (ha : Tendsto (fun i => (o i).a.getD j 0) F (𝓝 a)) (hb : Tendsto (fun i => (o i).b.getD j 0) F (𝓝 b)) :
    Tendsto (fun i => (o' i).a.getD j 0) F' (𝓝 a) ∧ Tendsto (fun i => (o' i).b.getD j 0) F' (𝓝 b) := by
  obtain ⟨A, B, -, -, h1, -⟩ := C92_calls hp he h
  obtain ⟨A', B', -, -, h1', -⟩ := C92_calls hp' he' h'
  obtain ⟨s1, s2, t1, t2⟩ := h1 j hj
  obtain ⟨s1', s2', t1', t2'⟩ := h1' j hj
  have hx : k * Real.sqrt e0 * R ≠ 0 := (mul_pos (mul_pos hp.host.k0_pos (Real.sqrt_pos.2 hp.host.env_pos)) hp.pos).ne'
  have ea := (C92_conductor hx .tm (j + 1)).1.unique s1 s1'
  have eb := (C92_conductor hx .te (j + 1)).1.unique s2 s2'
  rw [tendsto_nhds_unique ha t1, tendsto_nhds_unique hb t2, ea, eb]
  exact ⟨t1', t2'⟩

end

/-! ## The condition on the permittivity -/

/-- Oscillating functions have zeros at arbitrarily large arguments. -/
theorem far_zeros {f : ℂ → ℂ} (hreal : ∀ x : ℝ, x ≠ 0 → conj (f x) = f x) (hcont : ∀ x : ℝ, x ≠ 0 → ContinuousAt f x) {φ : ℝ}
    (h1 : Tendsto (fun j : ℕ => f ((φ + j * (2 * Real.pi) : ℝ) : ℂ)) atTop (𝓝 1))
    (h2 : Tendsto (fun j : ℕ => f ((φ + Real.pi + j * (2 * Real.pi) : ℝ) : ℂ)) atTop (𝓝 (-1))) (M : ℝ) :
    ∃ y : ℝ, M < y ∧ 0 < y ∧ f y = 0 := by
  have e1 : ∀ᶠ j : ℕ in atTop, 0 < (f ((φ + j * (2 * Real.pi) : ℝ) : ℂ)).re := by
    have := (continuous_re.tendsto _).comp h1
    rw [one_re] at this
    exact this.eventually (lt_mem_nhds one_pos)
  have e2 : ∀ᶠ j : ℕ in atTop, (f ((φ + Real.pi + j * (2 * Real.pi) : ℝ) : ℂ)).re < 0 := by
    have := (continuous_re.tendsto _).comp h2
    rw [neg_re, one_re] at this
    exact this.eventually (gt_mem_nhds (by norm_num))
  have e3 : ∀ᶠ j : ℕ in atTop, max M 0 - φ < j * (2 * Real.pi) :=
    (tendsto_natCast_atTop_atTop.atTop_mul_const (by positivity : 0 < 2 * Real.pi)).eventually_gt_atTop _
  obtain ⟨j, g1, g2, g3⟩ := (e1.and (e2.and e3)).exists
  have hb : max M 0 < φ + j * (2 * Real.pi) := by linarith
  have hle : φ + j * (2 * Real.pi) ≤ φ + Real.pi + j * (2 * Real.pi) := by linarith [Real.pi_pos]
  have hc : ContinuousOn (fun x : ℝ => (f x).re) (Set.Icc (φ + j * (2 * Real.pi)) (φ + Real.pi + j * (2 * Real.pi))) := by
    intro x hx
    have hx0 : x ≠ 0 := ((le_max_right M 0).trans_lt (hb.trans_le hx.1)).ne'
    exact (continuous_re.continuousAt.comp ((hcont x hx0).comp continuous_ofReal.continuousAt)).continuousWithinAt
  obtain ⟨y, hy, hy0⟩ := intermediate_value_Icc' hle hc ⟨g2.le, g1.le⟩
  have hy1 := hb.trans_le hy.1
  have hypos : 0 < y := (le_max_right M 0).trans_lt hy1
  refine ⟨y, (le_max_left M 0).trans_lt hy1, hypos, ?_⟩
  have him := conj_eq_iff_im.1 (hreal y hypos.ne')
  exact Complex.ext (by simpa using hy0) (by simpa using him)

theorem far_line (φ : ℝ) : Tendsto (fun j : ℕ => ‖((φ + j * (2 * Real.pi) : ℝ) : ℂ)‖) atTop atTop := by
  simp only [norm_real]
  exact tendsto_norm_atTop_atTop.comp (tendsto_atTop_add_const_left _ _
    (tendsto_natCast_atTop_atTop.atTop_mul_const (by positivity : 0 < 2 * Real.pi)))

theorem line_exp (φ : ℝ) (j : ℕ) : exp (((φ + j * (2 * Real.pi) : ℝ) : ℂ) * I) = exp (φ * I) := by
  push_cast
  rw [show ((φ : ℂ) + j * (2 * Real.pi)) * I = φ * I + j * (2 * Real.pi * I) by ring, Complex.exp_add,
    Complex.exp_nat_mul_two_pi_mul_I, mul_one]

/-- Values of `psi_n` and its derivative far away. -/
theorem psi_line (n : ℕ) (φ : ℝ) :
    Tendsto (fun j : ℕ => ricPsi n ((φ + j * (2 * Real.pi) : ℝ) : ℂ)) atTop
      (𝓝 (((-I) ^ n * -I * exp (φ * I) + I ^ n * I * exp (-(φ * I))) / 2)) ∧
    Tendsto (fun j : ℕ => deriv (ricPsi n) ((φ + j * (2 * Real.pi) : ℝ) : ℂ)) atTop
      (𝓝 ((I * ((-I) ^ n * -I) * exp (φ * I) + -I * (I ^ n * I) * exp (-(φ * I))) / 2)) := by
  have hz := far_line φ
  have hE := exp_cancel (φ : ℂ)
  constructor
  · refine ((((zeta_far hz n).mul_const (exp (φ * I))).add ((eta_far hz n).mul_const (exp (-(φ * I))))).div_const 2).congr
      fun j => ?_
    simp only [ricEta, Complex.exp_neg, line_exp]
    have := Complex.exp_ne_zero (φ * I)
    field_simp
    ring
  · refine ((((dzeta_far hz n).mul_const (exp (φ * I))).add ((deta_far hz n).mul_const (exp (-(φ * I))))).div_const 2).congr
      fun j => ?_
    simp only [dricEta, Complex.exp_neg, line_exp]
    have := Complex.exp_ne_zero (φ * I)
    field_simp
    ring

theorem psi_zeros (n : ℕ) (M : ℝ) :
    (∃ y : ℝ, M < y ∧ 0 < y ∧ ricPsi n y = 0) ∧ ∃ y : ℝ, M < y ∧ 0 < y ∧ deriv (ricPsi n) (y : ℂ) = 0 := by
  have hI : (-I) ^ n * I ^ n = (1 : ℂ) := by rw [← mul_pow, neg_mul, I_mul_I, neg_neg, one_pow]
  have hexp : ∀ n : ℕ, exp (((n * (Real.pi / 2) : ℝ) : ℂ) * I) = I ^ n := by
    intro n
    push_cast
    rw [mul_assoc, Complex.exp_nat_mul, Complex.exp_pi_div_two_mul_I]
  have hneg : ∀ n : ℕ, exp (-(((n * (Real.pi / 2) : ℝ) : ℂ) * I)) = (-I) ^ n := by
    intro n
    rw [Complex.exp_neg, hexp, ← inv_pow, inv_I]
  have hpi : ∀ φ : ℝ, exp (((φ + Real.pi : ℝ) : ℂ) * I) = -exp (φ * I) ∧ exp (-(((φ + Real.pi : ℝ) : ℂ) * I)) = -exp (-(φ * I)) := by
    intro φ
    have : exp (((φ + Real.pi : ℝ) : ℂ) * I) = -exp (φ * I) := by
      push_cast
      rw [add_mul, Complex.exp_add, Complex.exp_pi_mul_I, mul_neg_one]
    refine ⟨this, ?_⟩
    rw [Complex.exp_neg, this, inv_neg, Complex.exp_neg]
  constructor
  · refine far_zeros (f := ricPsi n) (fun x hx => ricPsi_conj n hx) (fun x hx => ?_) (φ := (n + 1 : ℕ) * (Real.pi / 2)) ?_ ?_ M
    · exact (hasDerivAt_ricPsi n (by exact_mod_cast hx)).continuousAt
    · convert (psi_line n ((n + 1 : ℕ) * (Real.pi / 2))).1 using 2
      rw [hexp, hneg, pow_succ, pow_succ]
      linear_combination (I * I) * hI + I_mul_I
    · convert (psi_line n ((n + 1 : ℕ) * (Real.pi / 2) + Real.pi)).1 using 2
      rw [(hpi _).1, (hpi _).2, hexp, hneg, pow_succ, pow_succ]
      linear_combination -(I * I) * hI - I_mul_I
  · refine far_zeros (f := deriv (ricPsi n)) (fun x hx => dricPsi_conj n hx) (fun x hx => ?_) (φ := n * (Real.pi / 2)) ?_ ?_ M
    · exact (hasDerivAt_dricPsi n (by exact_mod_cast hx)).continuousAt
    · convert (psi_line n (n * (Real.pi / 2))).2 using 2
      rw [hexp, hneg]
      linear_combination (I * I) * hI + I_mul_I
    · convert (psi_line n (n * (Real.pi / 2) + Real.pi)).2 using 2
      rw [(hpi _).1, (hpi _).2, hexp, hneg]
      linear_combination -(I * I) * hI - I_mul_I

/-- C92, the condition is needed: when the permittivity of a homogeneous sphere goes to infinity along the positive real axis, no
coefficient has a limit. -/
theorem C92_dielectric {p : Particle1} {k e0 R : ℝ} (hp : Interior p k e0 R) (hr : p.rLayers = []) (q : Pol) (n : ℕ) (a : ℂ) :
    ¬Tendsto (fun s : ℝ => coef q n (p.coated R s).layers) atTop (𝓝 a) := by
  intro hlim
  have hes : p.epsLayers = [] := List.length_eq_zero_iff.1 (by rw [hp.len, hr]; rfl)
  have hs : 0 < Real.sqrt e0 := Real.sqrt_pos.2 hp.host.env_pos
  have hx : 0 < k * Real.sqrt e0 * R := mul_pos (mul_pos hp.host.k0_pos hs) hp.pos
  set x := k * Real.sqrt e0 * R with hxd
  have hxc : (x : ℂ) ≠ 0 := by exact_mod_cast hx.ne'
  obtain ⟨hz, hz'⟩ := zeta_real_ne n hx.ne'
  -- the sphere for which the argument inside is `y`
  have hsolve : ∀ y : ℝ, 0 < y → ∃ c : ℂ, coef q n (p.coated R ((e0 * (y / x) ^ 2 : ℝ) : ℂ)).layers = c ∧
      (ricPsi n y = 0 → ricPsi n x - c * ricZeta n x = 0) ∧
      (deriv (ricPsi n) (y : ℂ) = 0 → deriv (ricPsi n) (x : ℂ) - c * deriv (ricZeta n) x = 0) := by
    intro y hy
    have hm : 0 < y / x := div_pos hy hx
    set E : ℂ := ((e0 * (y / x) ^ 2 : ℝ) : ℂ) with hE
    have hE0 : E ≠ 0 := by
      rw [hE]
      exact_mod_cast (mul_pos hp.host.env_pos (pow_pos hm 2)).ne'
    have hcs : csqrt E / csqrt p.epsEnv = ((y / x : ℝ) : ℂ) := by
      rw [hE, hp.host.env_eq, csqrt_ofReal (mul_nonneg hp.host.env_pos.le (sq_nonneg _)), csqrt_ofReal hp.host.env_pos.le,
        Real.sqrt_mul hp.host.env_pos.le, Real.sqrt_sq hm.le]
      push_cast
      have : ((Real.sqrt e0 : ℝ) : ℂ) ≠ 0 := by exact_mod_cast hs.ne'
      field_simp
    have hl : (p.coated R E).layers = [(((y / x : ℝ) : ℂ), (x : ℂ))] := by
      rw [coated_layers hp, hcs]
      simp [Particle1.layers, layersOf, hr, hes, hxd]
    obtain ⟨c, hc, -⟩ := C68_solvable (p := p.coated R E) (k0 := k) (e0 := e0)
      ⟨hp.host.k0_eq, hp.host.k0_pos, hp.host.env_eq, hp.host.env_pos, by simp [Particle1.coated, hr, hp.pos]⟩
      (by simp [Particle1.coated, hr, strictlyIncreasing]) (by simp [Particle1.coated, hr, hes]) (by simp [Particle1.coated])
      (by simp [Particle1.coated, hes, hE, ← ofReal_pow]) (by simpa [Particle1.coated, hes] using hE0) q n
    refine ⟨c, coef_eq (coated_ne hp hE0) hc, ?_⟩
    rw [hl] at hc
    obtain ⟨core, hcore, hch⟩ := hc
    have hmx : ((y / x : ℝ) : ℂ) * (x : ℂ) = y := by
      push_cast
      field_simp
    have hmne : ((y / x : ℝ) : ℂ) ≠ 0 := by exact_mod_cast hm.ne'
    simp only [Chain] at hch
    cases q with
    | tm =>
      simp only [Cont, Wave.val, Wave.der, hcore, hmx, zero_mul, sub_zero, one_mul, mul_one] at hch
      refine ⟨fun h => ?_, fun h => ?_⟩
      · rw [← hch.1, h, mul_zero]
      · have := hch.2
        rw [h, mul_zero] at this
        exact (mul_eq_zero.1 this.symm).resolve_right hmne
    | te =>
      simp only [Cont, Wave.val, Wave.der, hcore, hmx, zero_mul, sub_zero, one_mul, mul_one] at hch
      refine ⟨fun h => ?_, fun h => ?_⟩
      · have := hch.1
        rw [h, mul_zero] at this
        exact (mul_eq_zero.1 this.symm).resolve_right hmne
      · rw [← hch.2, h, mul_zero]
  -- limits along the two sequences of zeros
  have hseq : ∀ (Z : ℝ → Prop), (∀ M, ∃ y, M < y ∧ 0 < y ∧ Z y) → ∀ c : ℂ,
      (∀ y, 0 < y → Z y → coef q n (p.coated R ((e0 * (y / x) ^ 2 : ℝ) : ℂ)).layers = c) → a = c := by
    intro Z hZ c hc
    choose y hy1 hy2 hy3 using fun j : ℕ => hZ j
    have hyt : Tendsto y atTop atTop := tendsto_atTop_mono (fun j => (hy1 j).le) tendsto_natCast_atTop_atTop
    have ht : Tendsto (fun j => e0 * (y j / x) ^ 2) atTop atTop :=
      (((tendsto_pow_atTop two_ne_zero).comp (hyt.atTop_div_const hx))).const_mul_atTop hp.host.env_pos
    have h1 := hlim.comp ht
    refine tendsto_nhds_unique h1 (tendsto_const_nhds.congr fun j => ?_)
    exact (hc (y j) (hy2 j) (hy3 j)).symm
  have h1 := hseq (fun y => ricPsi n y = 0) (fun M => (psi_zeros n M).1) (ricPsi n x / ricZeta n x) (by
    intro y hy h
    obtain ⟨c, e1, e2, -⟩ := hsolve y hy
    rw [e1, eq_div_iff hz]
    exact (sub_eq_zero.1 (e2 h)).symm)
  have h2 := hseq (fun y => deriv (ricPsi n) (y : ℂ) = 0) (fun M => (psi_zeros n M).2)
    (deriv (ricPsi n) (x : ℂ) / deriv (ricZeta n) x) (by
    intro y hy h
    obtain ⟨c, e1, -, e2⟩ := hsolve y hy
    rw [e1, eq_div_iff hz']
    exact (sub_eq_zero.1 (e2 h)).symm)
  have hw := wave_d ⟨1, 0⟩ n hxc
  simp only [Wave.val, Wave.der, one_mul, zero_mul, sub_zero] at hw
  rw [h1, div_eq_div_iff hz hz'] at h2
  rw [h2, sub_self] at hw
  exact I_ne_zero hw.symm

/-! ## Instances -/

theorem familyCalls_of {P : ℝ → Particle1} {F : Filter ℝ} (K : D1Kernel) (n : ℕ)
    (h : ∀ᶠ r in F, ∃ o, mieCoefficients K exactBackends (P r) "torch" "recurrence" (some ((n + 1 : ℕ) : ℤ)) = .ok o) :
    ∃ o, FamilyCalls P F (n + 1) o := by
  obtain ⟨o, o', h'⟩ := thinCalls_of K n h (glass_torch K n)
  obtain ⟨K', B, b, w, ri, h1, h2, -, h3⟩ := h'.call
  exact ⟨o, h'.pos, K', B, b, w, ri, h1, h2, h3⟩

theorem metal_conducting : Conducting atTop fun s : ℝ => ((s : ℂ) * I) := by
  refine ⟨?_, ?_⟩
  · filter_upwards [eventually_ge_atTop 0] with s hs
    simpa using hs
  · refine tendsto_id.congr' ?_
    filter_upwards [eventually_ge_atTop 0] with s hs
    simp [abs_of_nonneg hs]

theorem plasma_conducting : Conducting atTop fun s : ℝ => (-s : ℂ) := by
  refine ⟨Eventually.of_forall fun s => by simp, ?_⟩
  have h2 : Tendsto (fun s : ℝ => s * 2) atTop atTop := tendsto_id.atTop_mul_const two_pos
  refine h2.congr' ?_
  filter_upwards [eventually_ge_atTop 0] with s hs
  simp [abs_of_nonneg hs]
  ring

/-- The empty interior: a homogeneous sphere of radius 2. -/
theorem empty_interior : Interior ⟨1, [], [], 1⟩ 1 1 2 :=
  ⟨⟨by simp, one_pos, by simp, one_pos, by simp⟩, rfl, by simp, by simp, two_pos⟩

/-- A glass core of radius 1 in a layer of radius 2. -/
theorem glass_interior : Interior ⟨1, [1], [4], 1⟩ 1 1 2 :=
  ⟨⟨by simp, one_pos, by simp, one_pos, by simp⟩, rfl, by simp, by simp, two_pos⟩

/-- `C92_dielectric` applies to a sphere whose permittivity `s` goes to infinity. -/
example (q : Pol) (n : ℕ) (a : ℂ) :
    ¬Tendsto (fun s : ℝ => coef q n ((⟨1, [], [], 1⟩ : Particle1).coated 2 s).layers) atTop (𝓝 a) :=
  C92_dielectric empty_interior rfl q n a

/-- `C92_calls` applies to a homogeneous sphere of permittivity `i s`, and `C92_interior` to it and a glass core in a shell of
permittivity `-s`. -/
example (K : D1Kernel) (n : ℕ) : ∃ o o' : ℝ → MieOut,
    FamilyCalls (fun s : ℝ => (⟨1, [], [], 1⟩ : Particle1).coated 2 (s * I)) atTop (n + 1) o ∧
    FamilyCalls (fun s : ℝ => (⟨1, [1], [4], 1⟩ : Particle1).coated 2 (-s)) atTop (n + 1) o' ∧
    Tendsto (fun s => (crossSections (o s).k (o s).rS (o s).a (o s).b).csAbs) atTop (𝓝 0) ∧
    ∃ a, Tendsto (fun s => (o s).a.getD 0 0) atTop (𝓝 a) ∧ Tendsto (fun s => (o' s).a.getD 0 0) atTop (𝓝 a) := by
  have s1 : csqrt 1 ≠ 0 := csqrt_nonzero one_ne_zero
  have s4 : csqrt 4 ≠ 0 := csqrt_nonzero (by norm_num)
  obtain ⟨o, h⟩ := familyCalls_of (P := fun s : ℝ => (⟨1, [], [], 1⟩ : Particle1).coated 2 (s * I)) (F := atTop) K n (by
    filter_upwards [eventually_gt_atTop 0] with s hs
    have se : csqrt (s * I) ≠ 0 := csqrt_nonzero (mul_ne_zero (by exact_mod_cast hs.ne') I_ne_zero)
    exact torch_succeeds K (by simp [Particle1.coated, strictlyIncreasing]) rfl (Or.inl rfl)
      (by simp [Particle1.csX, Particle1.coated, s1]) (by simp [Particle1.csY, Particle1.coated, s1])
      (by simp [Particle1.csM1, Particle1.coated, s1, se]) (by simp [Particle1.csM2, Particle1.coated, s1, se]) n)
  obtain ⟨o', h'⟩ := familyCalls_of (P := fun s : ℝ => (⟨1, [1], [4], 1⟩ : Particle1).coated 2 (-s)) (F := atTop) K n (by
    filter_upwards [eventually_gt_atTop 0] with s hs
    have se : csqrt (-s) ≠ 0 := csqrt_nonzero (neg_ne_zero.2 (by exact_mod_cast hs.ne'))
    exact torch_succeeds K (by simp [Particle1.coated, strictlyIncreasing]) rfl (Or.inr rfl)
      (by simp [Particle1.csX, Particle1.coated, s1]) (by simp [Particle1.csY, Particle1.coated, s1])
      (by simp [Particle1.csM1, Particle1.coated, s1, s4]) (by simp [Particle1.csM2, Particle1.coated, s1, se]) n)
  obtain ⟨A, B, -, -, h1, -, -, h2, -⟩ := C92_calls empty_interior metal_conducting h
  obtain ⟨-, -, ta, tb⟩ := h1 0 (by omega)
  exact ⟨o, o', h, h', h2, _, ta,
    (C92_interior empty_interior metal_conducting glass_interior plasma_conducting h h' (by omega) ta tb).1⟩

end MieDiff
