import Verif.Proofs.Vanish
import Verif.Props.Analytic

/-!
# C91: a layer of vanishing volume does not matter

A core whose radius goes to zero, and a film of vanishing thickness after any layer (on the surface of the particle: a coating):
every coefficient approaches the coefficient of the particle without that layer, with a rate.  No condition on the material of
the added layer except that its permittivity is not zero; in particular a core in static resonance with its surroundings, where
the static polarizability diverges, is not an exception.
-/

namespace MieDiff

open Complex Spec Filter Topology Asymptotics

/-- The particle with an additional core of radius `r` and permittivity `e`. -/
def Particle1.withCore (p : Particle1) (r : ℝ) (e : ℂ) : Particle1 :=
  ⟨p.k0, r :: p.rLayers, e :: p.epsLayers, p.epsEnv⟩

/-- The particle with an additional layer after the first `j` ones; `r` is its outer radius, `e` its permittivity. -/
def Particle1.withFilm (p : Particle1) (j : ℕ) (r : ℝ) (e : ℂ) : Particle1 :=
  ⟨p.k0, p.rLayers.take j ++ r :: p.rLayers.drop j, p.epsLayers.take j ++ e :: p.epsLayers.drop j, p.epsEnv⟩

section

variable {p : Particle1} {k e0 : ℝ}

theorem withCore_layers (p : Particle1) (r : ℝ) (e : ℂ) :
    (p.withCore r e).layers = (csqrt e / csqrt p.epsEnv, p.k0 * csqrt p.epsEnv * (r : ℂ)) :: p.layers := rfl

theorem withFilm_layers (p : Particle1) (hlen : p.epsLayers.length = p.rLayers.length) (j : ℕ) (r : ℝ) (e : ℂ) :
    (p.withFilm j r e).layers =
      p.layers.take j ++ (csqrt e / csqrt p.epsEnv, p.k0 * csqrt p.epsEnv * (r : ℂ)) :: p.layers.drop j := by
  simp only [Particle1.withFilm, Particle1.layers, layersOf, List.map_append, List.map_cons, List.zip_eq_zipWith,
    List.take_zipWith, List.drop_zipWith, List.map_take, List.map_drop]
  rw [List.zipWith_append (by simp [hlen]), List.zipWith_cons_cons]

theorem host_ne (hp : RealHost p k e0) : csqrt p.epsEnv ≠ 0 ∧ p.k0 * csqrt p.epsEnv ≠ 0 := by
  have hs : csqrt p.epsEnv ≠ 0 := by
    rw [hp.env_eq, csqrt_ofReal hp.env_pos.le]
    exact_mod_cast (Real.sqrt_pos.2 hp.env_pos).ne'
  refine ⟨hs, mul_ne_zero ?_ hs⟩
  rw [hp.k0_eq]
  exact_mod_cast hp.k0_pos.ne'

theorem index_ne {e : ℂ} (he : e ≠ 0) (hp : RealHost p k e0) : csqrt e / csqrt p.epsEnv ≠ 0 :=
  div_ne_zero (fun h => he (by rw [← csqrt_sq e, h]; ring)) (host_ne hp).1

theorem size_small {K : ℂ} (hK : K ≠ 0) : Tendsto (fun r : ℝ => K * (r : ℂ)) (𝓝[>] 0) (𝓝[≠] 0) := by
  refine tendsto_nhdsWithin_iff.2 ⟨?_, ?_⟩
  · have : Tendsto (fun r : ℝ => K * (r : ℂ)) (𝓝 0) (𝓝 (K * ((0 : ℝ) : ℂ))) := (by fun_prop : Continuous fun r : ℝ => K * (r : ℂ)).tendsto 0
    rw [ofReal_zero, mul_zero] at this
    exact this.mono_left nhdsWithin_le_nhds
  · filter_upwards [self_mem_nhdsWithin] with r hr
    exact mul_ne_zero hK (by exact_mod_cast (ne_of_gt hr))

theorem size_pow (K : ℂ) (s : ℕ) (F : Filter ℝ) : (fun r : ℝ => (K * (r : ℂ)) ^ s) =O[F] fun r => r ^ s := by
  refine IsBigO.of_bound (‖K‖ ^ s) (Eventually.of_forall fun r => le_of_eq ?_)
  rw [norm_pow, norm_mul, mul_pow, norm_pow, norm_real]

/-! ## The interface problem -/

/-- C91, interface problem: a core of vanishing radius.  The coefficient of order `n` differs from the one of the particle
without the core by a term of the order `r^(2n+1)`; the electric one by a term of the order `r^(2n-1)` if the core is in static
resonance, `n eps_core + (n+1) eps_1 = 0`. -/
theorem C91_core_coef (hp : PassiveAt p k e0) {e e1 : ℂ} (he : e ≠ 0) (h1 : p.epsLayers.head? = some e1) (n : ℕ) :
    (∀ᶠ r in 𝓝[>] 0, ∀ q, ∃! a, Solves q (n + 1) (p.withCore r e).layers a) ∧
    ((fun r => coef .te (n + 1) (p.withCore r e).layers - coef .te (n + 1) p.layers) =O[𝓝[>] 0] fun r : ℝ => r ^ (2 * n + 3)) ∧
    ((fun r => coef .tm (n + 1) (p.withCore r e).layers - coef .tm (n + 1) p.layers) =O[𝓝[>] 0] fun r : ℝ => r ^ (2 * n + 1)) ∧
    (((n : ℂ) + 1) * e + ((n : ℂ) + 2) * e1 ≠ 0 →
      (fun r => coef .tm (n + 1) (p.withCore r e).layers - coef .tm (n + 1) p.layers) =O[𝓝[>] 0] fun r : ℝ => r ^ (2 * n + 3)) := by
  obtain ⟨hs, hK⟩ := host_ne hp.host
  have hm := index_ne he hp.host
  have hne := layers_ne hp.host hp.nonzero
  obtain ⟨l, rest, hl, hl1⟩ : ∃ l rest, p.layers = l :: rest ∧ l.1 = csqrt e1 / csqrt p.epsEnv := by
    obtain ⟨r, rs, hr⟩ := List.exists_cons_of_ne_nil hp.ne
    obtain ⟨e', es, hes⟩ : ∃ e' es, p.epsLayers = e' :: es := by
      apply List.exists_cons_of_ne_nil
      intro h0
      have := hp.len
      rw [h0, hr] at this
      simp at this
    rw [hes, List.head?_cons, Option.some.injEq] at h1
    subst h1
    exact ⟨_, _, by rw [Particle1.layers, layersOf, hr, hes, List.map_cons, List.map_cons, List.zip_cons_cons], rfl⟩
  have hsol : ∀ q, ∃ a, Solves q (n + 1) (l :: rest) a := fun q => by
    rw [← hl]
    exact (C68_solvable hp.host hp.inc hp.len hp.ne hp.passive hp.nonzero q (n + 1)).exists
  have hκ := size_small hK
  have hne' := hne
  rw [hl] at hne'
  have hnz : ((n + 1 : ℕ) : ℂ) + (((n + 1 : ℕ) : ℂ) + 1) ≠ 0 := by
    exact_mod_cast (by omega : n + 1 + (n + 1 + 1) ≠ 0)
  obtain ⟨se, ce⟩ := coef_vanish_core hκ (q := .te) (n := n + 1) (by omega) hm hne'
    (by simpa [sEps] using hnz) (hsol .te)
  have e2 : csqrt e1 / csqrt p.epsEnv = l.1 := hl1.symm
  have key : (∀ᶠ r : ℝ in 𝓝[>] 0, ∃ a, Solves .tm (n + 1) (p.withCore r e).layers a) ∧
      ((fun r => coef .tm (n + 1) (p.withCore r e).layers - coef .tm (n + 1) p.layers) =O[𝓝[>] 0] fun r : ℝ => r ^ (2 * n + 1)) ∧
      (((n : ℂ) + 1) * e + ((n : ℂ) + 2) * e1 ≠ 0 →
        (fun r => coef .tm (n + 1) (p.withCore r e).layers - coef .tm (n + 1) p.layers) =O[𝓝[>] 0] fun r : ℝ => r ^ (2 * n + 3)) := by
    have hsq : ((n : ℂ) + 1) * (csqrt e / csqrt p.epsEnv) ^ 2 + ((n : ℂ) + 2) * l.1 ^ 2 =
        (((n : ℂ) + 1) * e + ((n : ℂ) + 2) * e1) / p.epsEnv := by
      rw [hl1, div_pow, div_pow, csqrt_sq, csqrt_sq, csqrt_sq]
      ring
    have hee : p.epsEnv ≠ 0 := by rw [hp.host.env_eq]; exact_mod_cast hp.host.env_pos.ne'
    by_cases hr : ((n : ℂ) + 1) * e + ((n : ℂ) + 2) * e1 = 0
    · obtain ⟨s1, c1⟩ := coef_vanish_resonant hκ (n := n) hm hne' (by rw [hsq, hr, zero_div]) (hsol .tm)
      simp only [withCore_layers, hl]
      exact ⟨s1, c1.trans (size_pow _ _ _), fun h => absurd hr h⟩
    · obtain ⟨s1, c1⟩ := coef_vanish_core hκ (q := .tm) (n := n + 1) (by omega) hm hne' (by
        simp only [sEps]
        push_cast
        rw [add_assoc (n : ℂ) 1 1, one_add_one_eq_two, hsq]
        exact div_ne_zero hr hee) (hsol .tm)
      simp only [withCore_layers, hl]
      have c2 := c1.trans (size_pow (p.k0 * csqrt p.epsEnv) (2 * (n + 1) + 1) (𝓝[>] 0))
      refine ⟨s1, c2.trans ?_, fun _ => c2⟩
      refine IsBigO.of_bound 1 ?_
      have hsm : ∀ᶠ r : ℝ in 𝓝[>] 0, r < 1 := nhdsWithin_le_nhds (gt_mem_nhds one_pos)
      filter_upwards [self_mem_nhdsWithin, hsm] with r h0 h1
      have h0' : (0 : ℝ) < r := h0
      rw [one_mul, Real.norm_of_nonneg (by positivity), Real.norm_of_nonneg (by positivity)]
      exact pow_le_pow_of_le_one h0'.le h1.le (by omega)
  refine ⟨?_, ?_, key.2⟩
  · filter_upwards [se, key.1, self_mem_nhdsWithin] with r a1 a2 a3
    have hn' : ∀ l' ∈ (p.withCore r e).layers, l'.1 ≠ 0 ∧ l'.2 ≠ 0 := by
      rw [withCore_layers]
      intro l' h
      rcases List.mem_cons.1 h with rfl | h
      · exact ⟨hm, mul_ne_zero hK (by exact_mod_cast (ne_of_gt a3))⟩
      · exact hne l' h
    have hu : ∀ q, (∃ a, Solves q (n + 1) (p.withCore r e).layers a) → ∃! a, Solves q (n + 1) (p.withCore r e).layers a :=
      fun q ⟨a, ha⟩ => ⟨a, ha, fun a' ha' => ha'.unique hn' ha⟩
    intro q
    cases q
    · exact hu _ a2
    · exact hu _ (by rw [withCore_layers, hl]; exact a1)
  · simp only [withCore_layers, hl]
    exact ce.trans (size_pow _ _ _)

/-- C91, interface problem: a film of vanishing thickness after the first `j` layers (`j` the number of layers: a coating).
The coefficient differs from the one without the film by a term of the order of the thickness. -/
theorem C91_film_coef (hp : PassiveAt p k e0) {e : ℂ} (he : e ≠ 0) {j : ℕ} {R : ℝ} (hj : p.rLayers[j]? = some R) (q : Pol) (n : ℕ) :
    (∀ᶠ r in 𝓝[>] R, ∃! a, Solves q n (p.withFilm (j + 1) r e).layers a) ∧
    (fun r => coef q n (p.withFilm (j + 1) r e).layers - coef q n p.layers) =O[𝓝[>] R] fun r : ℝ => r - R := by
  obtain ⟨hs, hK⟩ := host_ne hp.host
  have hm := index_ne he hp.host
  have hne := layers_ne hp.host hp.nonzero
  obtain ⟨hjl, hjR⟩ := List.getElem?_eq_some_iff.1 hj
  have hjl' : j < p.layers.length := by simp [Particle1.layers, layersOf, hp.len, hjl]
  have hR : 0 < R := hp.host.radii R (hjR ▸ List.getElem_mem hjl)
  set K := p.k0 * csqrt p.epsEnv with hKd
  set m' := csqrt e / csqrt p.epsEnv
  obtain ⟨m, hx⟩ : ∃ m, p.layers[j] = (m, K * (R : ℂ)) := by
    refine ⟨csqrt (p.epsLayers[j]'(by rw [hp.len]; exact hjl)) / csqrt p.epsEnv, ?_⟩
    simp [Particle1.layers, layersOf, hjR, hKd]
  have hsplit : p.layers = p.layers.take j ++ (m, K * (R : ℂ)) :: p.layers.drop (j + 1) := by
    rw [← hx, ← List.drop_eq_getElem_cons hjl', List.take_append_drop]
  have hfilm : ∀ r : ℝ, (p.withFilm (j + 1) r e).layers =
      p.layers.take j ++ (m, K * (R : ℂ)) :: (m', K * (r : ℂ)) :: p.layers.drop (j + 1) := by
    intro r
    rw [withFilm_layers p hp.len, List.take_succ_eq_append_getElem hjl', hx, List.append_assoc]
    rfl
  have hl := hne
  rw [hsplit] at hl
  obtain ⟨a, ha, -⟩ := C68_solvable hp.host hp.inc hp.len hp.ne hp.passive hp.nonzero q n
  rw [hsplit] at ha
  obtain ⟨h1, h2⟩ := coef_vanish_film (q := q) (n := n) hm hl ⟨a, ha⟩
  have hK' : Tendsto (fun r : ℝ => K * (r : ℂ)) (𝓝[>] R) (𝓝 (K * (R : ℂ))) :=
    ((by fun_prop : Continuous fun r : ℝ => K * (r : ℂ)).tendsto R).mono_left nhdsWithin_le_nhds
  refine ⟨?_, ?_⟩
  · filter_upwards [hK'.eventually h1, self_mem_nhdsWithin] with r hr h0
    obtain ⟨a', ha'⟩ := hr
    rw [← hfilm] at ha'
    refine ⟨a', ha', fun b hb => hb.unique ?_ ha'⟩
    rw [hfilm]
    intro l h
    simp only [List.mem_append, List.mem_cons] at h
    rcases h with h | rfl | rfl | h
    · exact hl l (by simp [h])
    · exact hl _ (by simp)
    · exact ⟨hm, mul_ne_zero hK (by exact_mod_cast (hR.trans h0).ne')⟩
    · exact hl l (by simp [h])
  · have h3 := h2.comp_tendsto hK'
    rw [← hsplit] at h3
    refine (h3.congr_left fun r => ?_).trans ?_
    · simp only [Function.comp_apply]
      rw [hfilm]
    · refine IsBigO.of_bound ‖K‖ (Eventually.of_forall fun r => le_of_eq ?_)
      simp only [Function.comp_apply]
      rw [← mul_sub, norm_mul, ← ofReal_sub, norm_real]

/-! ## The calls -/

/-- Calls of the torch or scipy backend with exact special functions and the given order, for a family of particles and for the
particle without the vanishing layer. -/
structure ThinCalls (P : ℝ → Particle1) (F : Filter ℝ) (p : Particle1) (N : ℕ) (o : ℝ → MieOut) (o' : MieOut) : Prop where
  pos : 1 ≤ N
  call : ∃ K B backend w ri, (backend.toLower = "torch" ∨ backend.toLower = "scipy") ∧
    (∀ᶠ r in F, mieCoefficients K B (P r) backend w (some (N : ℤ)) ri = .ok (o r)) ∧
    mieCoefficients K B p backend w (some (N : ℤ)) ri = .ok o' ∧
    ∀ S, selectBessel B backend w = .ok S → ∀ z : ℂ, z ≠ 0 → ExactAt S N z

theorem cs_exact {K : D1Kernel} {B : Backends} {p : Particle1} {backend w : String} {N : ℕ} {ri : Bool} {o : MieOut}
    (hN : 1 ≤ N) (hb : backend.toLower = "torch" ∨ backend.toLower = "scipy")
    (h : mieCoefficients K B p backend w (some (N : ℤ)) ri = .ok o)
    (hS : ∀ S, selectBessel B backend w = .ok S → ∀ z : ℂ, z ≠ 0 → ExactAt S N z)
    (hne : ∀ l ∈ p.layers, l.1 ≠ 0 ∧ l.2 ≠ 0) (hsol : ∀ q i, 1 ≤ i → i ≤ N → ∃ a, Solves q i p.layers a) :
    ExactRun p o ∧ o.nMax.toNat = N ∧ o.rS = p.rLayers.getLastD 0 := by
  have hpe : backend.toLower ≠ "pena" := by rcases hb with h | h <;> rw [h] <;> decide
  have hN1 := cs_order hpe h
  have hN' : o.nMax.toNat = N := by rw [hN1]; simp
  refine ⟨ExactRun.of_coreShell hpe h (by rw [hN1]; exact_mod_cast hN) ?_ hne (by rw [hN']; exact hsol), hN', ?_⟩
  · intro S hsel z hz
    rw [hN']
    exact hS S hsel z (csArgs_ne hne z hz)
  · obtain ⟨-, -, -, n, out, ho⟩ := mieCoefficients_cs_meta hb h
    rw [ho]
    rfl

/-- Sum of `prefactor (2n+1) g(c_n)` over the orders. -/
theorem mpSum_tendsto {ι : Type*} {F : Filter ι} {k : ℂ} {N : ℕ} {c : ι → List ℂ} {c' : List ℂ} {g : ℂ → ℝ} (hg : Continuous g)
    (hlen : ∀ᶠ t in F, (c t).length = N) (hlen' : c'.length = N)
    (hc : ∀ i < N, Tendsto (fun t => (c t).getD i 0) F (𝓝 (c'.getD i 0))) :
    Tendsto (fun t => (mpTerms k ((c t).map fun z => (g z : ℂ))).sum) F (𝓝 (mpTerms k (c'.map fun z => (g z : ℂ))).sum) := by
  have hsum : ∀ d : List ℂ, d.length = N → (mpTerms k (d.map fun z => (g z : ℂ))).sum =
      ∑ i ∈ Finset.range N, 2 * (Real.pi : ℂ) / k ^ 2 * (2 * ((i : ℂ) + 1) + 1) * (g (d.getD i 0) : ℂ) := by
    intro d hd
    rw [mpTerms, sum_mapIdx_range, List.length_map, hd]
    refine Finset.sum_congr rfl fun i hi => ?_
    have hlt : i < d.length := by rw [hd]; exact Finset.mem_range.1 hi
    rw [List.getD_eq_getElem?_getD, List.getElem?_map, List.getElem?_eq_getElem hlt, List.getD_eq_getElem?_getD,
      List.getElem?_eq_getElem hlt]
    simp
  rw [hsum c' hlen']
  have h1 : Tendsto (fun t => ∑ i ∈ Finset.range N,
      2 * (Real.pi : ℂ) / k ^ 2 * (2 * ((i : ℂ) + 1) + 1) * (g ((c t).getD i 0) : ℂ)) F (𝓝 (∑ i ∈ Finset.range N,
      2 * (Real.pi : ℂ) / k ^ 2 * (2 * ((i : ℂ) + 1) + 1) * (g (c'.getD i 0) : ℂ))) := by
    refine tendsto_finsetSum _ fun i hi => ?_
    exact (((continuous_ofReal.comp hg).tendsto _).comp (hc i (Finset.mem_range.1 hi))).const_mul _
  refine h1.congr' ?_
  filter_upwards [hlen] with t ht
  exact (hsum _ ht).symm

/-- Convergence of the coefficients and of the radius gives convergence of the cross sections and efficiencies. -/
theorem cross_tendsto {ι : Type*} {F : Filter ι} {K : ℂ} {N : ℕ} {o : ι → MieOut} {o' : MieOut}
    (hk : ∀ᶠ t in F, (o t).k = K) (hk' : o'.k = K) (hR : Tendsto (fun t => (o t).rS) F (𝓝 o'.rS)) (hR0 : o'.rS ≠ 0)
    (hla : ∀ᶠ t in F, (o t).a.length = N) (hla' : o'.a.length = N) (hlb : ∀ᶠ t in F, (o t).b.length = N)
    (hlb' : o'.b.length = N) (ha : ∀ i < N, Tendsto (fun t => (o t).a.getD i 0) F (𝓝 (o'.a.getD i 0)))
    (hb : ∀ i < N, Tendsto (fun t => (o t).b.getD i 0) F (𝓝 (o'.b.getD i 0))) :
    let cs := fun t => crossSections (o t).k (o t).rS (o t).a (o t).b
    let cs' := crossSections o'.k o'.rS o'.a o'.b
    Tendsto (fun t => (cs t).csExt) F (𝓝 cs'.csExt) ∧ Tendsto (fun t => (cs t).csSca) F (𝓝 cs'.csSca) ∧
      Tendsto (fun t => (cs t).csAbs) F (𝓝 cs'.csAbs) ∧ Tendsto (fun t => (cs t).qExt) F (𝓝 cs'.qExt) ∧
      Tendsto (fun t => (cs t).qSca) F (𝓝 cs'.qSca) ∧ Tendsto (fun t => (cs t).qAbs) F (𝓝 cs'.qAbs) := by
  intro cs cs'
  have hre : ∀ {f : ι → ℂ} {z : ℂ}, Tendsto f F (𝓝 z) → Tendsto (fun t => (f t).re) F (𝓝 z.re) :=
    fun h => (continuous_re.tendsto _).comp h
  have hn : Continuous fun z : ℂ => ‖z‖ ^ 2 := by fun_prop
  have hext : Tendsto (fun t => (cs t).csExt) F (𝓝 cs'.csExt) := by
    have := hre ((mpSum_tendsto (k := K) continuous_re hla hla' ha).add (mpSum_tendsto (k := K) continuous_re hlb hlb' hb))
    rw [← hk'] at this
    refine this.congr' ?_
    filter_upwards [hk] with t ht
    rw [hk', ← ht]
    rfl
  have hsca : Tendsto (fun t => (cs t).csSca) F (𝓝 cs'.csSca) := by
    have := hre ((mpSum_tendsto (k := K) hn hla hla' ha).add (mpSum_tendsto (k := K) hn hlb hlb' hb))
    rw [← hk'] at this
    refine this.congr' ?_
    filter_upwards [hk] with t ht
    rw [hk', ← ht]
    rfl
  have habs : Tendsto (fun t => (cs t).csAbs) F (𝓝 cs'.csAbs) := by
    have h0 : cs'.csAbs = cs'.csExt - cs'.csSca := abs_ext_sca _ _ _ _
    rw [h0]
    exact (hext.sub hsca).congr fun t => (abs_ext_sca (o t).k (o t).rS (o t).a (o t).b).symm
  have hgeo : Tendsto (fun t => (cs t).csGeo) F (𝓝 cs'.csGeo) := (hR.pow 2).const_mul Real.pi
  have hg0 : cs'.csGeo ≠ 0 := mul_ne_zero Real.pi_pos.ne' (pow_ne_zero 2 hR0)
  exact ⟨hext, hsca, habs, hext.div hgeo hg0, hsca.div hgeo hg0, habs.div hgeo hg0⟩

theorem bigO_tendsto {F : Filter ℝ} {f : ℝ → ℂ} {c : ℂ} {g : ℝ → ℝ} (h : (fun r => f r - c) =O[F] g) (hg : Tendsto g F (𝓝 0)) :
    Tendsto f F (𝓝 c) := by
  have := (h.trans_tendsto hg).add_const c
  simpa using this

/-! ## A vanishing core -/

theorem withCore_ne (hp : PassiveAt p k e0) {e : ℂ} (he : e ≠ 0) {r : ℝ} (hr : 0 < r) :
    ∀ l ∈ (p.withCore r e).layers, l.1 ≠ 0 ∧ l.2 ≠ 0 := by
  rw [withCore_layers]
  intro l' h
  rcases List.mem_cons.1 h with rfl | h
  · exact ⟨index_ne he hp.host, mul_ne_zero (host_ne hp.host).2 (by exact_mod_cast hr.ne')⟩
  · exact layers_ne hp.host hp.nonzero l' h

/-- C91 for any backend whose calls solve the interface problem: rates of convergence of the coefficients of a particle with a
vanishing core. -/
theorem C91_core_exact (hp : PassiveAt p k e0) {e e1 : ℂ} (he : e ≠ 0) (h1 : p.epsLayers.head? = some e1) {N : ℕ} {o : ℝ → MieOut}
    {o' : MieOut} (h : ∀ᶠ r in 𝓝[>] 0, ExactRun (p.withCore r e) (o r) ∧ (o r).nMax.toNat = N) (h' : ExactRun p o')
    (hN : o'.nMax.toNat = N) {i : ℕ} (hi : i < N) :
    ((fun r => (o r).b.getD i 0 - o'.b.getD i 0) =O[𝓝[>] 0] fun r : ℝ => r ^ (2 * i + 3)) ∧
    ((fun r => (o r).a.getD i 0 - o'.a.getD i 0) =O[𝓝[>] 0] fun r : ℝ => r ^ (2 * i + 1)) ∧
    (((i : ℂ) + 1) * e + ((i : ℂ) + 2) * e1 ≠ 0 →
      (fun r => (o r).a.getD i 0 - o'.a.getD i 0) =O[𝓝[>] 0] fun r : ℝ => r ^ (2 * i + 3)) := by
  obtain ⟨-, hb, ha, ha'⟩ := C91_core_coef hp he h1 i
  obtain ⟨ea', eb'⟩ := run_getD h' (layers_ne hp.host hp.nonzero) (i := i) (by omega)
  have hev : ∀ᶠ r in 𝓝[>] 0, (o r).a.getD i 0 = coef .tm (i + 1) (p.withCore r e).layers ∧
      (o r).b.getD i 0 = coef .te (i + 1) (p.withCore r e).layers := by
    filter_upwards [h, self_mem_nhdsWithin] with r hr h0
    exact run_getD hr.1 (withCore_ne hp he h0) (by omega)
  rw [ea', eb']
  have a1 : (fun r => (o r).a.getD i 0 - coef .tm (i + 1) p.layers) =ᶠ[𝓝[>] 0]
      fun r => coef .tm (i + 1) (p.withCore r e).layers - coef .tm (i + 1) p.layers :=
    hev.mono fun r hr => by simp only [hr.1]
  have b1 : (fun r => (o r).b.getD i 0 - coef .te (i + 1) p.layers) =ᶠ[𝓝[>] 0]
      fun r => coef .te (i + 1) (p.withCore r e).layers - coef .te (i + 1) p.layers :=
    hev.mono fun r hr => by simp only [hr.2]
  exact ⟨b1.trans_isBigO hb, a1.trans_isBigO ha, fun hres => a1.trans_isBigO (ha' hres)⟩

theorem core_calls (hp : PassiveAt p k e0) {e e1 : ℂ} (he : e ≠ 0) (h1 : p.epsLayers.head? = some e1) {N : ℕ} {o : ℝ → MieOut}
    {o' : MieOut} (h : ThinCalls (fun r => p.withCore r e) (𝓝[>] 0) p N o o') :
    (∀ᶠ r in 𝓝[>] 0, ExactRun (p.withCore r e) (o r) ∧ (o r).nMax.toNat = N ∧ (o r).rS = p.rLayers.getLastD 0) ∧
      ExactRun p o' ∧ o'.nMax.toNat = N ∧ o'.rS = p.rLayers.getLastD 0 := by
  obtain ⟨K, B, backend, w, ri, hb, hc, hc', hS⟩ := h.call
  have hsol : ∀ᶠ r in 𝓝[>] 0, ∀ i ∈ Finset.range N, ∀ q, ∃! a, Solves q (i + 1) (p.withCore r e).layers a :=
    (Finset.eventually_all _).2 fun i _ => (C91_core_coef hp he h1 i).1
  refine ⟨?_, cs_exact h.pos hb hc' hS (layers_ne hp.host hp.nonzero) fun q i _ _ =>
    (C68_solvable hp.host hp.inc hp.len hp.ne hp.passive hp.nonzero q i).exists⟩
  filter_upwards [hc, hsol, self_mem_nhdsWithin] with r hr hs h0
  obtain ⟨a1, a2, a3⟩ := cs_exact h.pos hb hr hS (withCore_ne hp he h0) fun q i hi hi' => by
    have := (hs (i - 1) (Finset.mem_range.2 (by omega)) q).exists
    rwa [Nat.sub_add_cancel hi] at this
  refine ⟨a1, a2, a3.trans ?_⟩
  obtain ⟨x, xs, hx⟩ := List.exists_cons_of_ne_nil hp.ne
  rw [Particle1.withCore, hx]
  simp

/-- C91: in calls of the torch and scipy backends a core of vanishing radius has no effect: coefficients of every order with a
rate, cross sections and efficiencies. -/
theorem C91_core (hp : PassiveAt p k e0) {e e1 : ℂ} (he : e ≠ 0) (h1 : p.epsLayers.head? = some e1) {N : ℕ} {o : ℝ → MieOut}
    {o' : MieOut} (h : ThinCalls (fun r => p.withCore r e) (𝓝[>] 0) p N o o') :
    (∀ i < N, ((fun r => (o r).b.getD i 0 - o'.b.getD i 0) =O[𝓝[>] 0] fun r : ℝ => r ^ (2 * i + 3)) ∧
      ((fun r => (o r).a.getD i 0 - o'.a.getD i 0) =O[𝓝[>] 0] fun r : ℝ => r ^ (2 * i + 1)) ∧
      (((i : ℂ) + 1) * e + ((i : ℂ) + 2) * e1 ≠ 0 →
        (fun r => (o r).a.getD i 0 - o'.a.getD i 0) =O[𝓝[>] 0] fun r : ℝ => r ^ (2 * i + 3))) ∧
    let cs := fun r => crossSections (o r).k (o r).rS (o r).a (o r).b
    let cs' := crossSections o'.k o'.rS o'.a o'.b
    Tendsto (fun r => (cs r).csExt) (𝓝[>] 0) (𝓝 cs'.csExt) ∧ Tendsto (fun r => (cs r).csSca) (𝓝[>] 0) (𝓝 cs'.csSca) ∧
      Tendsto (fun r => (cs r).csAbs) (𝓝[>] 0) (𝓝 cs'.csAbs) ∧ Tendsto (fun r => (cs r).qExt) (𝓝[>] 0) (𝓝 cs'.qExt) ∧
      Tendsto (fun r => (cs r).qSca) (𝓝[>] 0) (𝓝 cs'.qSca) ∧ Tendsto (fun r => (cs r).qAbs) (𝓝[>] 0) (𝓝 cs'.qAbs) := by
  obtain ⟨hr, h', hN, hR⟩ := core_calls hp he h1 h
  have hrate := fun i (hi : i < N) => C91_core_exact hp he h1 (hr.mono fun r x => ⟨x.1, x.2.1⟩) h' hN hi
  refine ⟨hrate, ?_⟩
  have hpow : ∀ s : ℕ, Tendsto (fun r : ℝ => r ^ (s + 1)) (𝓝[>] 0) (𝓝 0) := by
    intro s
    have := ((continuous_pow (M := ℝ) (s + 1)).tendsto 0).mono_left (nhdsWithin_le_nhds (s := Set.Ioi 0))
    simpa using this
  have hpos : 0 < p.rLayers.getLastD 0 := by
    obtain ⟨x, xs, hx⟩ := List.exists_cons_of_ne_nil hp.ne
    refine hp.host.radii _ ?_
    rw [List.getLastD_eq_getLast?, List.getLast?_eq_some_getLast hp.ne]
    exact List.getLast_mem hp.ne
  refine cross_tendsto (K := p.k0 * csqrt p.epsEnv) (N := N) (hr.mono fun r x => x.1.k) h'.k ?_ (by rw [hR]; exact hpos.ne')
    (hr.mono fun r x => by rw [x.1.lenA, x.2.1]) (by rw [h'.lenA, hN]) (hr.mono fun r x => by rw [x.1.lenB, x.2.1])
    (by rw [h'.lenB, hN]) (fun i hi => bigO_tendsto (hrate i hi).2.1 (hpow _)) (fun i hi => bigO_tendsto (hrate i hi).1 (hpow _))
  rw [hR]
  exact tendsto_const_nhds.congr' (hr.mono fun r x => x.2.2.symm)

/-! ## A vanishing film -/

theorem withFilm_ne (hp : PassiveAt p k e0) {e : ℂ} (he : e ≠ 0) {r : ℝ} (hr : 0 < r) (j : ℕ) :
    ∀ l ∈ (p.withFilm j r e).layers, l.1 ≠ 0 ∧ l.2 ≠ 0 := by
  rw [withFilm_layers p hp.len]
  intro l h
  have hne := layers_ne hp.host hp.nonzero
  rcases List.mem_append.1 h with h | h
  · exact hne l (List.mem_of_mem_take h)
  · rcases List.mem_cons.1 h with rfl | h
    · exact ⟨index_ne he hp.host, mul_ne_zero (host_ne hp.host).2 (by exact_mod_cast hr.ne')⟩
    · exact hne l (List.mem_of_mem_drop h)

/-- C91 for any backend whose calls solve the interface problem: a film after any layer changes every coefficient at most
proportionally to its thickness. -/
theorem C91_film_exact (hp : PassiveAt p k e0) {e : ℂ} (he : e ≠ 0) {j : ℕ} {R : ℝ} (hj : p.rLayers[j]? = some R) {N : ℕ}
    {o : ℝ → MieOut} {o' : MieOut} (h : ∀ᶠ r in 𝓝[>] R, ExactRun (p.withFilm (j + 1) r e) (o r) ∧ (o r).nMax.toNat = N)
    (h' : ExactRun p o') (hN : o'.nMax.toNat = N) {i : ℕ} (hi : i < N) :
    ((fun r => (o r).a.getD i 0 - o'.a.getD i 0) =O[𝓝[>] R] fun r : ℝ => r - R) ∧
    ((fun r => (o r).b.getD i 0 - o'.b.getD i 0) =O[𝓝[>] R] fun r : ℝ => r - R) := by
  obtain ⟨ea', eb'⟩ := run_getD h' (layers_ne hp.host hp.nonzero) (i := i) (by omega)
  have hR : 0 < R := hp.host.radii R (List.mem_of_getElem? hj)
  have hev : ∀ᶠ r in 𝓝[>] R, (o r).a.getD i 0 = coef .tm (i + 1) (p.withFilm (j + 1) r e).layers ∧
      (o r).b.getD i 0 = coef .te (i + 1) (p.withFilm (j + 1) r e).layers := by
    filter_upwards [h, self_mem_nhdsWithin] with r hr h0
    exact run_getD hr.1 (withFilm_ne hp he (hR.trans h0) _) (by omega)
  rw [ea', eb']
  have a1 : (fun r => (o r).a.getD i 0 - coef .tm (i + 1) p.layers) =ᶠ[𝓝[>] R]
      fun r => coef .tm (i + 1) (p.withFilm (j + 1) r e).layers - coef .tm (i + 1) p.layers :=
    hev.mono fun r hr => by simp only [hr.1]
  have b1 : (fun r => (o r).b.getD i 0 - coef .te (i + 1) p.layers) =ᶠ[𝓝[>] R]
      fun r => coef .te (i + 1) (p.withFilm (j + 1) r e).layers - coef .te (i + 1) p.layers :=
    hev.mono fun r hr => by simp only [hr.2]
  exact ⟨a1.trans_isBigO (C91_film_coef hp he hj .tm (i + 1)).2, b1.trans_isBigO (C91_film_coef hp he hj .te (i + 1)).2⟩

/-- C91: in calls of the torch and scipy backends a coating of vanishing thickness has no effect: coefficients of every order
with a rate, cross sections and efficiencies.  (These backends take at most two layers, so the particle is a homogeneous sphere.) -/
theorem C91_coating (hp : PassiveAt p k e0) {e : ℂ} (he : e ≠ 0) {R : ℝ} (hr1 : p.rLayers = [R]) {N : ℕ}
    {o : ℝ → MieOut} {o' : MieOut} (h : ThinCalls (fun r => p.withFilm 1 r e) (𝓝[>] R) p N o o') :
    (∀ i < N, ((fun r => (o r).a.getD i 0 - o'.a.getD i 0) =O[𝓝[>] R] fun r : ℝ => r - R) ∧
      ((fun r => (o r).b.getD i 0 - o'.b.getD i 0) =O[𝓝[>] R] fun r : ℝ => r - R)) ∧
    let cs := fun r => crossSections (o r).k (o r).rS (o r).a (o r).b
    let cs' := crossSections o'.k o'.rS o'.a o'.b
    Tendsto (fun r => (cs r).csExt) (𝓝[>] R) (𝓝 cs'.csExt) ∧ Tendsto (fun r => (cs r).csSca) (𝓝[>] R) (𝓝 cs'.csSca) ∧
      Tendsto (fun r => (cs r).csAbs) (𝓝[>] R) (𝓝 cs'.csAbs) ∧ Tendsto (fun r => (cs r).qExt) (𝓝[>] R) (𝓝 cs'.qExt) ∧
      Tendsto (fun r => (cs r).qSca) (𝓝[>] R) (𝓝 cs'.qSca) ∧ Tendsto (fun r => (cs r).qAbs) (𝓝[>] R) (𝓝 cs'.qAbs) := by
  obtain ⟨K, B, backend, w, ri, hb, hc, hc', hS⟩ := h.call
  have hR : 0 < R := hp.host.radii R (by simp [hr1])
  have hj : p.rLayers[0]? = some R := by simp [hr1]
  have hsol : ∀ᶠ r in 𝓝[>] R, ∀ i ∈ Finset.range (N + 1), ∀ q, ∃ a, Solves q i (p.withFilm 1 r e).layers a := by
    refine (Finset.eventually_all _).2 fun i _ => ?_
    filter_upwards [(C91_film_coef hp he hj .tm i).1, (C91_film_coef hp he hj .te i).1] with r a1 a2
    intro q
    cases q
    exacts [a1.exists, a2.exists]
  obtain ⟨h', hN, hR'⟩ := cs_exact h.pos hb hc' hS (layers_ne hp.host hp.nonzero) fun q i _ _ =>
    (C68_solvable hp.host hp.inc hp.len hp.ne hp.passive hp.nonzero q i).exists
  have hr : ∀ᶠ r in 𝓝[>] R, ExactRun (p.withFilm 1 r e) (o r) ∧ (o r).nMax.toNat = N ∧ (o r).rS = r := by
    filter_upwards [hc, hsol, self_mem_nhdsWithin] with r hr hs h0
    obtain ⟨a1, a2, a3⟩ := cs_exact h.pos hb hr hS (withFilm_ne hp he (hR.trans h0) 1) fun q i _ hi' =>
      hs i (Finset.mem_range.2 (by omega)) q
    refine ⟨a1, a2, a3.trans ?_⟩
    simp [Particle1.withFilm, hr1]
  have hrate := fun i (hi : i < N) => C91_film_exact hp he hj (hr.mono fun r x => ⟨x.1, x.2.1⟩) h' hN hi
  refine ⟨hrate, ?_⟩
  have hid : Tendsto (fun r : ℝ => r) (𝓝[>] R) (𝓝 R) := tendsto_nhdsWithin_of_tendsto_nhds tendsto_id
  have h0 : Tendsto (fun r : ℝ => r - R) (𝓝[>] R) (𝓝 0) := by
    have := hid.sub_const R
    rwa [sub_self] at this
  have hR'' : o'.rS = R := by rw [hR', hr1]; rfl
  refine cross_tendsto (K := p.k0 * csqrt p.epsEnv) (N := N) (hr.mono fun r x => x.1.k) h'.k ?_ (by rw [hR'']; exact hR.ne')
    (hr.mono fun r x => by rw [x.1.lenA, x.2.1]) (by rw [h'.lenA, hN]) (hr.mono fun r x => by rw [x.1.lenB, x.2.1])
    (by rw [h'.lenB, hN]) (fun i hi => bigO_tendsto (hrate i hi).1 h0) (fun i hi => bigO_tendsto (hrate i hi).2 h0)
  rw [hR'']
  exact hid.congr' (hr.mono fun r x => x.2.2.symm)

end

/-! ## Existence of the calls -/

/-- A torch call with exact special functions for one or two layers succeeds. -/
theorem torch_succeeds (K : D1Kernel) {p : Particle1} (hinc : strictlyIncreasing p.rLayers)
    (hlen : p.epsLayers.length = p.rLayers.length) (h12 : p.rLayers.length = 1 ∨ p.rLayers.length = 2) (hX : p.csX ≠ 0)
    (hY : p.csY ≠ 0) (h1 : p.csM1 ≠ 0) (h2 : p.csM2 ≠ 0) (n : ℕ) :
    ∃ o, mieCoefficients K exactBackends p "torch" "recurrence" (some ((n + 1 : ℕ) : ℤ)) = .ok o := by
  have ht : "torch".toLower = "torch" := by decide +kernel
  have hm := miecoef_exact (n := n) (exactBessel_at hY) (exactBessel_at (mul_ne_zero h1 hX)) (exactBessel_at (mul_ne_zero h2 hX))
    (exactBessel_at (mul_ne_zero h2 hY))
  have hsel : selectBessel exactBackends "torch" "recurrence" = .ok exactBessel := by
    have hw : "recurrence".toLower = "recurrence" := by decide +kernel
    simp only [selectBessel, ht, hw, exactBackends]
    rw [if_neg (by decide), if_pos (by decide)]
  rw [mieCoefficients_cs_eq K exactBackends p (Or.inl ht) _ _ _ hinc hlen h12]
  simp only [orderChoice, bind_ok, orderRange, if_neg (show ¬(((n + 1 : ℕ) : ℤ) + 1 < 1) by omega), hsel]
  rw [hm]
  exact ⟨_, rfl⟩

theorem csqrt_nonzero {e : ℂ} (he : e ≠ 0) : csqrt e ≠ 0 := fun h => he (by rw [← csqrt_sq e, h]; ring)

/-- Calls near the limit exist whenever each call succeeds. -/
theorem thinCalls_of {P : ℝ → Particle1} {F : Filter ℝ} {p : Particle1} (K : D1Kernel) (n : ℕ)
    (h : ∀ᶠ r in F, ∃ o, mieCoefficients K exactBackends (P r) "torch" "recurrence" (some ((n + 1 : ℕ) : ℤ)) = .ok o)
    (h' : ∃ o, mieCoefficients K exactBackends p "torch" "recurrence" (some ((n + 1 : ℕ) : ℤ)) = .ok o) :
    ∃ o o', ThinCalls P F p (n + 1) o o' := by
  obtain ⟨o', h'⟩ := h'
  have hex : ∀ r, ∃ o, (∃ o, mieCoefficients K exactBackends (P r) "torch" "recurrence" (some ((n + 1 : ℕ) : ℤ)) = .ok o) →
      mieCoefficients K exactBackends (P r) "torch" "recurrence" (some ((n + 1 : ℕ) : ℤ)) = .ok o := by
    intro r
    by_cases h : ∃ o, mieCoefficients K exactBackends (P r) "torch" "recurrence" (some ((n + 1 : ℕ) : ℤ)) = .ok o
    · exact ⟨h.choose, fun _ => h.choose_spec⟩
    · exact ⟨o', fun h' => absurd h' h⟩
  choose o ho using hex
  refine ⟨o, o', by omega, K, exactBackends, "torch", "recurrence", false, .inl (by decide +kernel),
    h.mono fun r hr => ho r hr, h', ?_⟩
  intro S hS z hz
  have hsel : selectBessel exactBackends "torch" "recurrence" = .ok exactBessel := by
    have hw : "recurrence".toLower = "recurrence" := by decide +kernel
    have ht : "torch".toLower = "torch" := by decide +kernel
    simp only [selectBessel, ht, hw, exactBackends]
    rw [if_neg (by decide), if_pos (by decide)]
  rw [hsel] at hS
  injection hS with hS
  subst hS
  exact exactBessel_at hz

/-- A glass sphere. -/
noncomputable def glassSphere : Particle1 := ⟨1, [2], [4], 1⟩

theorem glass_passive : PassiveAt glassSphere 1 1 := by
  refine ⟨⟨by simp [glassSphere], one_pos, by simp [glassSphere], one_pos, ?_⟩, ?_, rfl, by simp [glassSphere], ?_, ?_⟩
  · simp [glassSphere]
  · simp [glassSphere, strictlyIncreasing]
  · simp [glassSphere]
  · simp [glassSphere]

theorem glass_torch (K : D1Kernel) (n : ℕ) :
    ∃ o, mieCoefficients K exactBackends glassSphere "torch" "recurrence" (some ((n + 1 : ℕ) : ℤ)) = .ok o := by
  have s1 : csqrt 1 ≠ 0 := csqrt_nonzero one_ne_zero
  have s4 : csqrt 4 ≠ 0 := csqrt_nonzero (by norm_num)
  exact torch_succeeds K (by simp [glassSphere, strictlyIncreasing]) rfl (Or.inl rfl)
    (by simp [Particle1.csX, glassSphere, s1]) (by simp [Particle1.csY, glassSphere, s1])
    (by simp [Particle1.csM1, glassSphere, s1, s4]) (by simp [Particle1.csM2, glassSphere, s1, s4]) n

/-- `C91_core` applies to a glass sphere with a shrinking metal core, `eps = -8`, which is in static resonance with the glass at
order 1 (`eps + 2 * 4 = 0`) and only there. -/
example (K : D1Kernel) (n : ℕ) : ∃ o o', ThinCalls (fun r => glassSphere.withCore r (-8)) (𝓝[>] 0) glassSphere (n + 1) o o' ∧
    ((fun r => (o r).a.getD 0 0 - o'.a.getD 0 0) =O[𝓝[>] 0] fun r : ℝ => r) ∧
    Tendsto (fun r => (crossSections (o r).k (o r).rS (o r).a (o r).b).csExt) (𝓝[>] 0)
      (𝓝 (crossSections o'.k o'.rS o'.a o'.b).csExt) := by
  have s1 : csqrt 1 ≠ 0 := csqrt_nonzero one_ne_zero
  have s4 : csqrt 4 ≠ 0 := csqrt_nonzero (by norm_num)
  have s8 : csqrt (-8) ≠ 0 := csqrt_nonzero (by norm_num)
  obtain ⟨o, o', h⟩ := thinCalls_of (P := fun r => glassSphere.withCore r (-8)) (F := 𝓝[>] 0) (p := glassSphere) K n (by
    have hsm : ∀ᶠ r : ℝ in 𝓝[>] 0, r < 2 := nhdsWithin_le_nhds (gt_mem_nhds two_pos)
    filter_upwards [self_mem_nhdsWithin, hsm] with r h0 h2
    have h0' : (0 : ℝ) < r := h0
    exact torch_succeeds K (by simp [Particle1.withCore, glassSphere, strictlyIncreasing, h2]) rfl (Or.inr rfl)
      (by simp [Particle1.csX, Particle1.withCore, glassSphere, s1, h0'.ne'])
      (by simp [Particle1.csY, Particle1.withCore, glassSphere, s1])
      (by simp [Particle1.csM1, Particle1.withCore, glassSphere, s1, s8])
      (by simp [Particle1.csM2, Particle1.withCore, glassSphere, s1, s4]) n) (glass_torch K n)
  obtain ⟨h1, h2, -⟩ := C91_core glass_passive (e := -8) (e1 := 4) (by norm_num) rfl h
  exact ⟨o, o', h, by simpa using (h1 0 (by omega)).2.1, h2⟩

/-- The rate of `C91_core` away from resonance: order 2 of the same particle. -/
example : ((1 : ℕ) : ℂ) + 1 ≠ 0 ∧ (((1 : ℕ) : ℂ) + 1) * (-8) + (((1 : ℕ) : ℂ) + 2) * 4 ≠ 0 := by
  constructor <;> norm_num

/-- `C91_coating` applies to a glass sphere with a thin metal coating. -/
example (K : D1Kernel) (n : ℕ) : ∃ o o', ThinCalls (fun r => glassSphere.withFilm 1 r (-10 + I)) (𝓝[>] 2) glassSphere (n + 1) o o' ∧
    Tendsto (fun r => (crossSections (o r).k (o r).rS (o r).a (o r).b).qExt) (𝓝[>] 2)
      (𝓝 (crossSections o'.k o'.rS o'.a o'.b).qExt) := by
  have s1 : csqrt 1 ≠ 0 := csqrt_nonzero one_ne_zero
  have s4 : csqrt 4 ≠ 0 := csqrt_nonzero (by norm_num)
  have he : (-10 + I : ℂ) ≠ 0 := by
    intro h
    have := congrArg im h
    simp at this
  have s8 := csqrt_nonzero he
  obtain ⟨o, o', h⟩ := thinCalls_of (P := fun r => glassSphere.withFilm 1 r (-10 + I)) (F := 𝓝[>] 2) (p := glassSphere) K n (by
    filter_upwards [self_mem_nhdsWithin] with r h0
    have h0' : (2 : ℝ) < r := h0
    have hr : (r : ℂ) ≠ 0 := by exact_mod_cast (by linarith : (r : ℝ) ≠ 0)
    exact torch_succeeds K (by simp [Particle1.withFilm, glassSphere, strictlyIncreasing, h0']) rfl (Or.inr rfl)
      (by simp [Particle1.csX, Particle1.withFilm, glassSphere, s1])
      (by simp [Particle1.csY, Particle1.withFilm, glassSphere, s1]; linarith)
      (by simp [Particle1.csM1, Particle1.withFilm, glassSphere, s1, s4])
      (by simp [Particle1.csM2, Particle1.withFilm, glassSphere, s1, s8]) n) (glass_torch K n)
  obtain ⟨-, -, -, -, h2, -⟩ := C91_coating glass_passive he rfl h
  exact ⟨o, o', h, h2⟩

/-- `C91_film_coef` applies inside a particle: a film between core and shell. -/
example (q : Pol) (n : ℕ) : ∃ p : Particle1, PassiveAt p 1 1 ∧ p.rLayers[0]? = some 1 ∧
    (fun r => coef q n (p.withFilm 1 r I).layers - coef q n p.layers) =O[𝓝[>] 1] fun r : ℝ => r - 1 := by
  have hp : PassiveAt ⟨1, [1, 2], [-9, 4], 1⟩ 1 1 := by
    refine ⟨⟨by simp, one_pos, by simp, one_pos, ?_⟩, ?_, rfl, by simp, ?_, ?_⟩
    · simp
    · simp [strictlyIncreasing]
    · simp
    · simp
  exact ⟨_, hp, rfl, (C91_film_coef hp I_ne_zero rfl q n).2⟩

end MieDiff
