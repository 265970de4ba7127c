import Verif.Proofs.Overlap
import Verif.Props.Vanish

/-!
# C94: sensitivities of the Mie coefficients are overlap integrals of the internal fields

The scattering coefficients of two particles which differ only in the permittivities differ by the sum over the layers of the
permittivity difference times the overlap integral of the two internal fields.  The derivative with respect to the permittivity of
a layer is therefore the overlap of the internal field with itself, and the derivative with respect to the radius of an interface
is the overlap at this interface.  These are the values automatic differentiation of
`src/pymiediff/multishell.py:mie_coefficients` (lines 641-800) has to return.
-/

namespace MieDiff

open Complex Spec Filter Topology MeasureTheory intervalIntegral
open scoped ContDiff

/-! ## Specification -/

/-- Specification: the waves of one multipole in all regions; regular in the core, continuous at the interfaces, and of unit
incident amplitude in the host. -/
structure ChannelWaves (p : Particle1) (q : Pol) (n : ℕ) (V : ℕ → Wave) : Prop where
  cont : ∀ j < p.rLayers.length, Cont q n (p.indices.getD j 0) (p.indices.getD (j + 1) 0)
    (p.k0 * csqrt p.epsEnv * (p.rLayers.getD j 0 : ℝ)) (V j) (V (j + 1))
  core : (V 0).a = 0
  host : (V p.rLayers.length).d = 1

/-- Permittivity of region `j`, the host being the last region. -/
noncomputable def Particle1.region (p : Particle1) (j : ℕ) : ℂ := (p.epsLayers ++ [p.epsEnv]).getD j 0

/-- Size parameter (in the host) of the interface below region `j`; `k` is the wave number of the host. -/
noncomputable def Particle1.size (p : Particle1) (k : ℝ) (j : ℕ) : ℝ := k * p.radius j

/-- Overlap of the waves `V`, `V'` in region `j`. -/
noncomputable def layerOverlap (p p' : Particle1) (k : ℝ) (q : Pol) (n : ℕ) (V V' : ℕ → Wave) (j : ℕ) : ℂ :=
  ∫ r in p.size k j..p.size k (j + 1), overlap q n (p.indices.getD j 0) (V j) (p'.indices.getD j 0) (V' j) r

/-- The particle with another permittivity in layer `j`. -/
def Particle1.withEps (p : Particle1) (j : ℕ) (e : ℂ) : Particle1 := ⟨p.k0, p.rLayers, p.epsLayers.set j e, p.epsEnv⟩

/-- The particle with another radius of layer `j`. -/
def Particle1.withRadius (p : Particle1) (j : ℕ) (r : ℝ) : Particle1 := ⟨p.k0, p.rLayers.set j r, p.epsLayers, p.epsEnv⟩

/-- The particle is embedded in a transparent host and has at least one layer, increasing radii and non-zero permittivities; gain
is allowed. -/
structure ParticleAt (p : Particle1) (k0 e0 : ℝ) : Prop where
  host : RealHost p k0 e0
  inc : strictlyIncreasing p.rLayers
  len : p.epsLayers.length = p.rLayers.length
  ne : p.rLayers ≠ []
  nonzero : ∀ e ∈ p.epsLayers, e ≠ 0

theorem PassiveAt.particle {p : Particle1} {k0 e0 : ℝ} (h : PassiveAt p k0 e0) : ParticleAt p k0 e0 :=
  ⟨h.host, h.inc, h.len, h.ne, h.nonzero⟩

/-! ## Waves of a particle -/

section
variable {p p' : Particle1} {k0 e0 : ℝ} {q : Pol} {n : ℕ}

theorem AllWaves.channel {W : ℕ → ℕ → Pol → Wave} (h : AllWaves p W) (i : ℕ) (q : Pol) :
    ChannelWaves p q (i + 1) fun j => W j (i + 1) q :=
  ⟨fun j hj => h.cont i q j hj, h.core i q, h.host i q⟩

theorem LayerWaves.channel {a b : List ℂ} {W : ℕ → ℕ → Pol → Wave} (h : LayerWaves p a b W) {i : ℕ} (hi : i < a.length) (q : Pol) :
    ChannelWaves p q (i + 1) fun j => W j (i + 1) q :=
  ⟨fun j hj => h.cont i hi q j hj, h.core i hi q, by cases q; exacts [by rw [(h.host i hi).1], by rw [(h.host i hi).2]]⟩

theorem ChannelWaves.regions {V : ℕ → Wave} (h : ChannelWaves p q n V) (hp : RealHost p k0 e0) :
    Regions q n p.rLayers.length (fun j => p.indices.getD j 0) (p.size (k0 * Real.sqrt e0)) V := by
  refine ⟨fun j hj => ?_, h.core⟩
  have := h.cont j hj
  rw [realHost_k hp] at this
  rw [Particle1.size, radius_succ]
  push_cast at this ⊢
  exact this

theorem ChannelWaves.solves {V : ℕ → Wave} (h : ChannelWaves p q n V) (hlen : p.epsLayers.length = p.rLayers.length)
    (hne : p.rLayers ≠ []) : Solves q n p.layers (V p.rLayers.length).a := by
  refine ⟨_, h.core, ?_⟩
  have := chain_of_indexed V (layers_ne_nil hlen hne) ((cont_layers hlen V).1 h.cont)
  rw [layers_length hlen] at this
  rwa [show V p.rLayers.length = ⟨1, (V p.rLayers.length).a⟩ by rw [← h.host]] at this

theorem ChannelWaves.coef {V : ℕ → Wave} (h : ChannelWaves p q n V) (hp : ParticleAt p k0 e0) :
    Spec.coef q n p.layers = (V p.rLayers.length).a :=
  coef_eq (layers_ne hp.host hp.nonzero) (h.solves hp.len hp.ne)

theorem size_zero (p : Particle1) (k : ℝ) : p.size k 0 = 0 := by simp [Particle1.size, Particle1.radius]

theorem size_lt (hp : RealHost p k0 e0) (hinc : strictlyIncreasing p.rLayers) {j : ℕ} (hj : j < p.rLayers.length) :
    p.size (k0 * Real.sqrt e0) j < p.size (k0 * Real.sqrt e0) (j + 1) :=
  mul_lt_mul_of_pos_left (radius_lt hp hinc hj) (mul_pos hp.k0_pos (Real.sqrt_pos.2 hp.env_pos))

theorem indices_sq (hp : RealHost p k0 e0) (hlen : p.epsLayers.length = p.rLayers.length) {j : ℕ} (hj : j ≤ p.rLayers.length) :
    p.indices.getD j 0 ^ 2 = p.region j / p.epsEnv := by
  have hn : csqrt p.epsEnv ≠ 0 := by
    rw [hp.env_eq]; exact csqrt_ne_zero (by exact_mod_cast hp.env_pos.ne')
  have hn' : p.epsEnv ≠ 0 := by rw [hp.env_eq]; exact_mod_cast hp.env_pos.ne'
  have h := media_indices hlen hn hj
  have h2 : p.media.getD j 0 ^ 2 = p.region j := by
    unfold Particle1.media Particle1.region
    rw [List.getD_eq_getElem?_getD, List.getD_eq_getElem?_getD]
    rcases Nat.lt_or_ge j p.epsLayers.length with h1 | h1
    · rw [List.getElem?_append_left (by simpa using h1), List.getElem?_append_left h1]
      simp [h1, csqrt_sq]
    · have : j = p.epsLayers.length := by omega
      rw [List.getElem?_append_right (by simpa using h1), List.getElem?_append_right h1]
      simp [this, csqrt_sq]
  rw [h, mul_pow, csqrt_sq] at h2
  rw [eq_div_iff hn', h2]

/-- C94: the scattering coefficients of two particles with the same radii and host differ by the overlap integrals of the two
internal fields, weighted with the differences of the permittivities. -/
theorem C94_difference {V V' : ℕ → Wave} (hp : ParticleAt p k0 e0) (hp' : ParticleAt p' k0 e0) (hr : p'.rLayers = p.rLayers)
    (h : ChannelWaves p q n V) (h' : ChannelWaves p' q n V') :
    coef q n p.layers - coef q n p'.layers = -I * ∑ j ∈ Finset.range p.rLayers.length,
      (p.epsLayers.getD j 0 - p'.epsLayers.getD j 0) / p.epsEnv * layerOverlap p p' (k0 * Real.sqrt e0) q n V V' j := by
  have hE : p'.epsEnv = p.epsEnv := by rw [hp.host.env_eq, hp'.host.env_eq]
  have hl' := hp'.len
  rw [hr] at hl'
  have hsz : p'.size = p.size := by funext k j; simp [Particle1.size, Particle1.radius, hr]
  have R' := h'.regions hp'.host
  rw [hr, hsz] at R'
  have key := regions_overlap (h.regions hp.host) R' (fun j hj => indices_ne hp.host hp.len hp.nonzero hj)
    (fun j hj => indices_ne hp'.host hp'.len hp'.nonzero (by rw [hr]; exact hj)) (size_zero p _)
    (fun j hj => size_lt hp.host hp.inc hj) p.rLayers.length le_rfl
  have hL' : p'.indices.getD p.rLayers.length 0 = 1 := by rw [← hr]; exact indices_host hp'.len
  rw [indices_host hp.len, hL'] at key
  have hx : p.size (k0 * Real.sqrt e0) p.rLayers.length ≠ 0 := by
    obtain ⟨m, hm⟩ : ∃ m, p.rLayers.length = m + 1 := Nat.exists_eq_succ_of_ne_zero (by simpa using hp.ne)
    rw [hm]
    have := mul_pos (mul_pos hp.host.k0_pos (Real.sqrt_pos.2 hp.host.env_pos)) (radius_pos hp.host (j := m) (by omega))
    exact this.ne'
  rw [show V p.rLayers.length = ⟨1, (V p.rLayers.length).a⟩ by rw [← h.host],
    show V' p.rLayers.length = ⟨1, (V' p.rLayers.length).a⟩ by have := h'.host; rw [hr] at this; rw [← this],
    bracket_host q n _ _ hx] at key
  have c' := h'.coef hp'
  rw [hr] at c'
  rw [h.coef hp, c']
  have hsum : ∑ j ∈ Finset.range p.rLayers.length,
      (p.epsLayers.getD j 0 - p'.epsLayers.getD j 0) / p.epsEnv * layerOverlap p p' (k0 * Real.sqrt e0) q n V V' j =
      I * ((V p.rLayers.length).a - (V' p.rLayers.length).a) := by
    rw [← key]
    refine Finset.sum_congr rfl fun j hj => ?_
    have hj := Finset.mem_range.1 hj
    rw [indices_sq hp.host hp.len hj.le, indices_sq hp'.host hp'.len (by rw [hr]; exact hj.le), hE, ← sub_div]
    have e1 : p.region j = p.epsLayers.getD j 0 := by
      simp [Particle1.region, List.getD_eq_getElem?_getD, List.getElem?_append_left (by rw [hp.len]; exact hj : j < p.epsLayers.length)]
    have e2 : p'.region j = p'.epsLayers.getD j 0 := by
      simp [Particle1.region, List.getD_eq_getElem?_getD, List.getElem?_append_left (by rw [hl']; exact hj : j < p'.epsLayers.length)]
    rw [e1, e2]
    rfl
  rw [hsum, ← mul_assoc, neg_mul, I_mul_I]
  ring

end

/-! ## Derivatives -/

theorem zip_set {α β : Type*} : ∀ (es : List α) (rs : List β) (j : ℕ) (a : α) (b : β), rs[j]? = some b →
    (es.set j a).zip rs = (es.zip rs).set j (a, b)
  | [], rs, j, a, b, _ => by simp
  | e :: es, [], j, a, b, h => by simp at h
  | e :: es, r :: rs, 0, a, b, h => by
    simp at h; subst h; simp
  | e :: es, r :: rs, j + 1, a, b, h => by
    simp at h
    simp [zip_set es rs j a b h]

theorem zip_set_right {α β : Type*} : ∀ (es : List α) (rs : List β) (j : ℕ) (a : α) (b : β), es[j]? = some a →
    es.zip (rs.set j b) = (es.zip rs).set j (a, b)
  | [], rs, j, a, b, h => by simp at h
  | e :: es, [], j, a, b, h => by simp
  | e :: es, r :: rs, 0, a, b, h => by
    simp at h; subst h; simp
  | e :: es, r :: rs, j + 1, a, b, h => by
    simp at h
    simp [zip_set_right es rs j a b h]

theorem forall₂_set {α : Type*} {R : α → α → Prop} (hR : ∀ x, R x x) {a b : α} (h : R a b) :
    ∀ (l : List α) (j : ℕ), List.Forall₂ R (l.set j a) (l.set j b)
  | [], j => by simp
  | x :: l, 0 => .cons h (List.forall₂_same.2 fun x _ => hR x)
  | x :: l, j + 1 => .cons (hR x) (forall₂_set hR h l j)

section
variable {p : Particle1} {k0 e0 : ℝ} {q : Pol} {n j : ℕ}

theorem withEps_layers (p : Particle1) {j : ℕ} (hj : j < p.rLayers.length) (e : ℂ) :
    (p.withEps j e).layers = p.layers.set j (csqrt e / csqrt p.epsEnv, p.k0 * csqrt p.epsEnv * (p.rLayers.getD j 0 : ℝ)) := by
  unfold Particle1.layers layersOf Particle1.withEps
  simp only
  rw [List.map_set, zip_set]
  simp [List.getD_eq_getElem?_getD, hj]

theorem withRadius_layers (p : Particle1) (hlen : p.epsLayers.length = p.rLayers.length) {j : ℕ} (hj : j < p.rLayers.length) (r : ℝ) :
    (p.withRadius j r).layers = p.layers.set j (p.indices.getD j 0, p.k0 * csqrt p.epsEnv * (r : ℝ)) := by
  have hi : p.indices.getD j 0 = csqrt (p.epsLayers.getD j 0) / csqrt p.epsEnv := by
    have hl : p.layers.map Prod.fst = p.epsLayers.map fun e => csqrt e / csqrt p.epsEnv := by
      unfold Particle1.layers layersOf
      rw [List.map_fst_zip]
      simp [hlen]
    have hj' : j < p.epsLayers.length := by omega
    unfold Particle1.indices
    rw [hl, List.getD_eq_getElem?_getD, List.getElem?_append_left (by simpa using hj')]
    simp [List.getD_eq_getElem?_getD, hj']
  rw [hi]
  unfold Particle1.layers layersOf Particle1.withRadius
  simp only
  rw [List.map_set, zip_set_right]
  have hj' : j < p.epsLayers.length := by omega
  simp [List.getD_eq_getElem?_getD, hj']

theorem getD_set {l : List ℂ} {j : ℕ} (hj : j < l.length) (v : ℂ) (i : ℕ) :
    (l.set j v).getD i 0 = Function.update (fun i => l.getD i 0) j v i := by
  rw [List.getD_eq_getElem?_getD, List.getElem?_set]
  by_cases h : j = i
  · subst h; simp [hj]
  · rw [if_neg h, Function.update_of_ne (Ne.symm h), List.getD_eq_getElem?_getD]

theorem regions_solves {ls : List (ℂ × ℂ)} {m : ℕ → ℂ} {x : ℕ → ℝ} {U : ℕ → Wave} (hne : ls ≠ [])
    (h : Regions q n ls.length m x U) (hd : (U ls.length).d = 1)
    (hm : ∀ i ≤ ls.length, (ls.map Prod.fst ++ [1]).getD i 0 = m i)
    (hx : ∀ i < ls.length, (ls.map Prod.snd).getD i 0 = x (i + 1)) : Solves q n ls (U ls.length).a := by
  refine ⟨_, h.core, ?_⟩
  have := chain_of_indexed (q := q) (n := n) (layers := ls) U hne fun i hi => by
    rw [hm i hi.le, hm (i + 1) hi, hx i hi]
    exact h.cont i hi
  rwa [show U ls.length = ⟨1, (U ls.length).a⟩ by rw [← hd]] at this

theorem layers_map_snd (hp : ParticleAt p k0 e0) {i : ℕ} (hi : i < p.rLayers.length) :
    (p.layers.map Prod.snd).getD i 0 = (p.size (k0 * Real.sqrt e0) (i + 1) : ℝ) := by
  rw [layers_snd hp.len hi, realHost_k hp.host, Particle1.size, radius_succ]
  push_cast
  ring

/-- C94: the derivative of a scattering coefficient with respect to the permittivity of a layer is the overlap integral of the
internal field with itself over that layer. -/
theorem C94_gradient {V : ℕ → Wave} (hp : ParticleAt p k0 e0) (h : ChannelWaves p q n V) (hj : j < p.rLayers.length) :
    HasDerivAt (fun e => coef q n (p.withEps j e).layers)
      (-I / p.epsEnv * layerOverlap p p (k0 * Real.sqrt e0) q n V V j) (p.epsLayers.getD j 0) := by
  have hj' : j < p.epsLayers.length := by rw [hp.len]; exact hj
  have he0 : p.epsLayers.getD j 0 ≠ 0 := by
    rw [List.getD_eq_getElem?_getD, List.getElem?_eq_getElem hj']; exact hp.nonzero _ (List.getElem_mem hj')
  have hE : p.epsEnv ≠ 0 := by rw [hp.host.env_eq]; exact_mod_cast hp.host.env_pos.ne'
  have hsE : csqrt p.epsEnv ≠ 0 := csqrt_nonzero hE
  have hLl : p.layers.length = p.rLayers.length := layers_length hp.len
  have hind : p.indices.getD j 0 = csqrt (p.epsLayers.getD j 0) / csqrt p.epsEnv := by
    have h1 := media_indices hp.len hsE hj.le
    rw [eq_div_iff hsE, ← h1, Particle1.media, List.getD_eq_getElem?_getD, List.getElem?_append_left (by simpa using hj')]
    simp [List.getD_eq_getElem?_getD, hj']
  set ε := p.epsLayers.getD j 0 with hε
  set s : ℂ → ℂ := fun e => sqrtNear ε e / csqrt p.epsEnv with hs
  have hsan : ContDiffAt ℂ ω s ε :=
    (sqrtNear_analytic (𝕜 := ℂ) (e := fun e : ℂ => e) (t0 := ε) contDiffAt_id he0).div_const _
  have hc1 : csqrt 1 = 1 := by simp [csqrt]
  have hs0 : s ε = p.indices.getD j 0 := by
    simp only [hs, sqrtNear]
    rw [div_self he0, hc1, mul_one, hind]
  have hsq : ∀ e, s e ^ 2 = 1 / p.epsEnv * e := by
    intro e
    simp only [hs, sqrtNear]
    rw [div_pow, mul_pow, csqrt_sq, csqrt_sq, csqrt_sq]
    field_simp
  obtain ⟨U, hU, hd⟩ := regions_deriv (h.regions hp.host) (fun i hi => indices_ne hp.host hp.len hp.nonzero hi)
    (indices_host hp.len) h.host (size_zero p _) (fun i hi => size_lt hp.host hp.inc hi) hj hsan hs0 hsq
  have hval : -I * (1 / p.epsEnv) * ∫ r in p.size (k0 * Real.sqrt e0) j..p.size (k0 * Real.sqrt e0) (j + 1),
      overlap q n (p.indices.getD j 0) (V j) (p.indices.getD j 0) (V j) r =
      -I / p.epsEnv * layerOverlap p p (k0 * Real.sqrt e0) q n V V j := by
    rw [layerOverlap]; ring
  rw [hval] at hd
  refine hd.congr_of_eventuallyEq ?_
  filter_upwards [hU, isOpen_ne.mem_nhds he0] with e hUe hene
  have hse : s e ≠ 0 := by
    intro h0
    have := hsq e
    rw [h0] at this
    have h2 : 1 / p.epsEnv * e ≠ 0 := mul_ne_zero (one_div_ne_zero hE) hene
    exact h2 (by rw [← this]; ring)
  set X : ℂ := p.k0 * csqrt p.epsEnv * (p.rLayers.getD j 0 : ℝ) with hX
  set ls := p.layers.set j (s e, X) with hls
  have hlsl : ls.length = p.rLayers.length := by rw [hls, List.length_set, hLl]
  have hlne : ls ≠ [] := by
    rw [← List.length_pos_iff, hlsl]; omega
  have hsol : Solves q n ls (U e p.rLayers.length).a := by
    rw [← hlsl]
    refine regions_solves (m := Function.update (fun i => p.indices.getD i 0) j (s e)) (x := p.size (k0 * Real.sqrt e0)) hlne
      (by rw [hlsl]; exact hUe.1) (by rw [hlsl]; exact hUe.2) ?_ ?_
    · intro i hi
      rw [hls, List.map_set, ← List.set_append_left _ _ (by simpa [hLl] using hj)]
      exact getD_set (by simp [hLl]; omega) _ _
    · intro i hi
      rw [hlsl] at hi
      rw [hls, List.map_set, getD_set (by simpa [hLl] using hj)]
      by_cases hij : i = j
      · subst hij
        rw [Function.update_self, ← layers_map_snd hp hi, layers_snd hp.len hi]
      · rw [Function.update_of_ne hij, layers_map_snd hp hi]
  have hlsne : ∀ l ∈ ls, l.1 ≠ 0 ∧ l.2 ≠ 0 := by
    intro l hl
    rcases List.mem_or_eq_of_mem_set hl with h1 | h1
    · exact layers_ne hp.host hp.nonzero l h1
    · rw [h1]; exact ⟨hse, size_ne hp.host hj⟩
  have hsign : List.Forall₂ SignEq ls (p.withEps j e).layers := by
    rw [withEps_layers p hj e]
    refine forall₂_set (fun x => ⟨rfl, .inl rfl⟩) ⟨rfl, ?_⟩ _ _
    rcases csqrt_sign ε e he0 with h1 | h1
    · left; simp only [hs, h1]
    · right; simp only [hs, h1]; ring
  rw [← signCoef hsign hlsne]
  exact coef_eq hlsne hsol

/-- C94: the derivative of a scattering coefficient with respect to the radius of an interface is the overlap of the fields on both
sides of the interface, weighted with the jump of the permittivity. -/
theorem C94_radius {V : ℕ → Wave} (hp : ParticleAt p k0 e0) (h : ChannelWaves p q n V) (hj : j < p.rLayers.length) :
    HasDerivAt (fun r => coef q n (p.withRadius j r).layers)
      (-I * (k0 * Real.sqrt e0 : ℝ) * ((p.region j - p.region (j + 1)) / p.epsEnv) *
        overlap q n (p.indices.getD j 0) (V j) (p.indices.getD (j + 1) 0) (V (j + 1)) (p.size (k0 * Real.sqrt e0) (j + 1)))
      (p.radius (j + 1)) := by
  have hj' : j < p.epsLayers.length := by rw [hp.len]; exact hj
  have hLl : p.layers.length = p.rLayers.length := layers_length hp.len
  have hK := mul_pos hp.host.k0_pos (Real.sqrt_pos.2 hp.host.env_pos)
  set K := k0 * Real.sqrt e0 with hKdef
  obtain ⟨U, hU, hd⟩ := regions_deriv_radius (h.regions hp.host) (fun i hi => indices_ne hp.host hp.len hp.nonzero hi)
    (indices_host hp.len) h.host (fun i hi => mul_pos hK (radius_pos hp.host hi)) hj
  have hinner : HasDerivAt (fun r : ℝ => K * r) K (p.radius (j + 1)) := by
    simpa using (hasDerivAt_id (p.radius (j + 1))).const_mul K
  have hd' := HasDerivAt.scomp (p.radius (j + 1)) (h := fun r : ℝ => K * r) (g₁ := fun y => (U y p.rLayers.length).a) hd hinner
  rw [sub_div, ← indices_sq hp.host hp.len hj.le, ← indices_sq hp.host hp.len hj]
  refine (hd'.congr_of_eventuallyEq ?_).congr_deriv ?_
  · have hU' := (hinner.continuousAt.tendsto).eventually hU
    have hpos : ∀ᶠ r : ℝ in 𝓝 (p.radius (j + 1)), 0 < r := (isOpen_lt continuous_const continuous_id).mem_nhds (radius_pos hp.host hj)
    filter_upwards [hU', hpos] with r hUr hr
    simp only [Function.comp]
    set ls := (p.withRadius j r).layers with hls
    have hls' : ls = p.layers.set j (p.indices.getD j 0, p.k0 * csqrt p.epsEnv * (r : ℝ)) := withRadius_layers p hp.len hj r
    have hlsl : ls.length = p.rLayers.length := by rw [hls', List.length_set, hLl]
    have hlne : ls ≠ [] := by
      rw [← List.length_pos_iff, hlsl]; omega
    have hlsne : ∀ l ∈ ls, l.1 ≠ 0 ∧ l.2 ≠ 0 := by
      intro l hl
      rw [hls'] at hl
      rcases List.mem_or_eq_of_mem_set hl with h1 | h1
      · exact layers_ne hp.host hp.nonzero l h1
      · rw [h1]
        refine ⟨indices_ne hp.host hp.len hp.nonzero hj.le, ?_⟩
        rw [realHost_k hp.host, ← hKdef]
        show ((K : ℝ) : ℂ) * (r : ℝ) ≠ 0
        exact_mod_cast (mul_pos hK hr).ne'
    have hsol : Solves q n ls (U (K * r) p.rLayers.length).a := by
      rw [← hlsl]
      refine regions_solves (m := fun i => p.indices.getD i 0) (x := Function.update (p.size K) (j + 1) (K * r)) hlne
        (by rw [hlsl]; exact hUr.1) (by rw [hlsl]; exact hUr.2) ?_ ?_
      · intro i hi
        rw [hls', List.map_set, ← List.set_append_left _ _ (by simpa [hLl] using hj),
          getD_set (by simp [hLl]; omega)]
        by_cases hij : i = j
        · subst hij; rw [Function.update_self]
        · rw [Function.update_of_ne hij]; rfl
      · intro i hi
        rw [hlsl] at hi
        rw [hls', List.map_set, getD_set (by simpa [hLl] using hj)]
        by_cases hij : i = j
        · subst hij
          rw [Function.update_self, Function.update_self, realHost_k hp.host, ← hKdef]
          push_cast
          rfl
        · rw [Function.update_of_ne hij, Function.update_of_ne (by omega), layers_map_snd hp hi]
    exact coef_eq hlsne hsol
  · rw [real_smul]
    simp only [Particle1.size]
    ring

/-! ## Calls -/

theorem withEps_particle (hp : ParticleAt p k0 e0) {e : ℂ} (he : e ≠ 0) : ParticleAt (p.withEps j e) k0 e0 := by
  refine ⟨⟨hp.host.k0_eq, hp.host.k0_pos, hp.host.env_eq, hp.host.env_pos, hp.host.radii⟩, hp.inc, ?_, hp.ne, ?_⟩
  · simpa [Particle1.withEps] using hp.len
  · intro x hx
    rcases List.mem_or_eq_of_mem_set hx with h | h
    exacts [hp.nonzero x h, by rw [h]; exact he]

theorem eps_ne (hp : ParticleAt p k0 e0) (hj : j < p.rLayers.length) : p.epsLayers.getD j 0 ≠ 0 := by
  have hj' : j < p.epsLayers.length := by rw [hp.len]; exact hj
  rw [List.getD_eq_getElem?_getD, List.getElem?_eq_getElem hj']
  exact hp.nonzero _ (List.getElem_mem hj')

/-- C94 for calls of any backend that solve the interface problem: the gradient of every returned coefficient with respect to the
permittivity of a layer is the overlap integral over this layer. -/
theorem C94_gradient_run {N : ℕ} {o : ℂ → MieOut} {V : ℕ → Pol → ℕ → Wave} (hp : ParticleAt p k0 e0) (hj : j < p.rLayers.length)
    (hr : ∀ᶠ e in 𝓝 (p.epsLayers.getD j 0), ExactRun (p.withEps j e) (o e) ∧ (o e).nMax.toNat = N)
    (hV : ∀ i < N, ∀ q, ChannelWaves p q (i + 1) (V i q)) {i : ℕ} (hi : i < N) :
    HasDerivAt (fun e => (o e).a.getD i 0)
      (-I / p.epsEnv * layerOverlap p p (k0 * Real.sqrt e0) .tm (i + 1) (V i .tm) (V i .tm) j) (p.epsLayers.getD j 0) ∧
    HasDerivAt (fun e => (o e).b.getD i 0)
      (-I / p.epsEnv * layerOverlap p p (k0 * Real.sqrt e0) .te (i + 1) (V i .te) (V i .te) j) (p.epsLayers.getD j 0) := by
  have hne : ∀ᶠ e in 𝓝 (p.epsLayers.getD j 0), e ≠ 0 := isOpen_ne.mem_nhds (eps_ne hp hj)
  constructor
  · refine (C94_gradient hp (hV i hi .tm) hj).congr_of_eventuallyEq ?_
    filter_upwards [hr, hne] with e h1 h2
    have hq := withEps_particle (j := j) hp h2
    exact (run_getD h1.1 (layers_ne hq.host hq.nonzero) (by omega)).1
  · refine (C94_gradient hp (hV i hi .te) hj).congr_of_eventuallyEq ?_
    filter_upwards [hr, hne] with e h1 h2
    have hq := withEps_particle (j := j) hp h2
    exact (run_getD h1.1 (layers_ne hq.host hq.nonzero) (by omega)).2

/-- C94 for calls: the gradient of every returned coefficient with respect to the radius of an interface. -/
theorem C94_radius_run {N : ℕ} {o : ℝ → MieOut} {V : ℕ → Pol → ℕ → Wave} (hp : ParticleAt p k0 e0) (hj : j < p.rLayers.length)
    (hr : ∀ᶠ r in 𝓝 (p.radius (j + 1)), ExactRun (p.withRadius j r) (o r) ∧ (o r).nMax.toNat = N)
    (hV : ∀ i < N, ∀ q, ChannelWaves p q (i + 1) (V i q)) {i : ℕ} (hi : i < N) :
    HasDerivAt (fun r => (o r).a.getD i 0)
      (-I * (k0 * Real.sqrt e0 : ℝ) * ((p.region j - p.region (j + 1)) / p.epsEnv) *
        overlap .tm (i + 1) (p.indices.getD j 0) (V i .tm j) (p.indices.getD (j + 1) 0) (V i .tm (j + 1))
          (p.size (k0 * Real.sqrt e0) (j + 1))) (p.radius (j + 1)) ∧
    HasDerivAt (fun r => (o r).b.getD i 0)
      (-I * (k0 * Real.sqrt e0 : ℝ) * ((p.region j - p.region (j + 1)) / p.epsEnv) *
        overlap .te (i + 1) (p.indices.getD j 0) (V i .te j) (p.indices.getD (j + 1) 0) (V i .te (j + 1))
          (p.size (k0 * Real.sqrt e0) (j + 1))) (p.radius (j + 1)) := by
  have hpos : ∀ᶠ r : ℝ in 𝓝 (p.radius (j + 1)), 0 < r := (isOpen_lt continuous_const continuous_id).mem_nhds (radius_pos hp.host hj)
  have hlay : ∀ r : ℝ, 0 < r → ∀ l ∈ (p.withRadius j r).layers, l.1 ≠ 0 ∧ l.2 ≠ 0 := by
    intro r hr
    refine layers_ne (k0 := k0) (e0 := e0) ⟨hp.host.k0_eq, hp.host.k0_pos, hp.host.env_eq, hp.host.env_pos, ?_⟩ hp.nonzero
    intro x hx
    rcases List.mem_or_eq_of_mem_set hx with h | h
    exacts [hp.host.radii x h, by rw [h]; exact hr]
  constructor
  · refine (C94_radius hp (hV i hi .tm) hj).congr_of_eventuallyEq ?_
    filter_upwards [hr, hpos] with r h1 h2
    exact (run_getD h1.1 (hlay r h2) (by omega)).1
  · refine (C94_radius hp (hV i hi .te) hj).congr_of_eventuallyEq ?_
    filter_upwards [hr, hpos] with r h1 h2
    exact (run_getD h1.1 (hlay r h2) (by omega)).2

/-- C94: the gradient of the extinction cross section with respect to the permittivity of a layer, along any direction `h`. -/
theorem C94_extinction {N : ℕ} {o : ℂ → MieOut} {V : ℕ → Pol → ℕ → Wave} (hp : ParticleAt p k0 e0) (hj : j < p.rLayers.length)
    (hr : ∀ᶠ e in 𝓝 (p.epsLayers.getD j 0), ExactRun (p.withEps j e) (o e) ∧ (o e).nMax.toNat = N)
    (hV : ∀ i < N, ∀ q, ChannelWaves p q (i + 1) (V i q)) (h : ℂ) :
    HasDerivAt (fun t : ℝ => (crossSections (o (p.epsLayers.getD j 0 + t * h)).k (o (p.epsLayers.getD j 0 + t * h)).rS
        (o (p.epsLayers.getD j 0 + t * h)).a (o (p.epsLayers.getD j 0 + t * h)).b).csExt)
      (2 * Real.pi / ((k0 * Real.sqrt e0) ^ 2 * e0) * ∑ i ∈ Finset.range N, (2 * (i : ℝ) + 3) *
        (h * (layerOverlap p p (k0 * Real.sqrt e0) .tm (i + 1) (V i .tm) (V i .tm) j +
          layerOverlap p p (k0 * Real.sqrt e0) .te (i + 1) (V i .te) (V i .te) j)).im) 0 := by
  set ε := p.epsLayers.getD j 0 with hε
  have hline : HasDerivAt (fun t : ℝ => ε + t * h) h 0 := by
    have h1 : HasDerivAt (fun t : ℝ => (t : ℂ)) 1 0 := ofRealCLM.hasDerivAt
    simpa using (h1.mul_const h).const_add ε
  have hl0 : ε + ((0 : ℝ) : ℂ) * h = ε := by simp
  have hev : ∀ᶠ t : ℝ in 𝓝 0, ExactRun (p.withEps j (ε + t * h)) (o (ε + t * h)) ∧ (o (ε + t * h)).nMax.toNat = N := by
    have := hline.continuousAt.tendsto
    rw [hl0] at this
    exact this.eventually hr
  have hterm : ∀ i ∈ Finset.range N, HasDerivAt (fun t : ℝ => (2 * (i : ℝ) + 3) *
      (((o (ε + t * h)).a.getD i 0).re + ((o (ε + t * h)).b.getD i 0).re))
      ((2 * (i : ℝ) + 3) * ((-I / p.epsEnv * layerOverlap p p (k0 * Real.sqrt e0) .tm (i + 1) (V i .tm) (V i .tm) j * h).re +
        (-I / p.epsEnv * layerOverlap p p (k0 * Real.sqrt e0) .te (i + 1) (V i .te) (V i .te) j * h).re)) 0 := by
    intro i hi
    obtain ⟨g1, g2⟩ := C94_gradient_run hp hj hr hV (Finset.mem_range.1 hi)
    have c1 : HasDerivAt (fun t : ℝ => (o (ε + t * h)).a.getD i 0)
        (-I / p.epsEnv * layerOverlap p p (k0 * Real.sqrt e0) .tm (i + 1) (V i .tm) (V i .tm) j * h) 0 :=
      HasDerivAt.comp (h₂ := fun e => (o e).a.getD i 0) (h := fun t : ℝ => ε + t * h) 0 (by rw [hl0]; exact g1) hline
    have c2 : HasDerivAt (fun t : ℝ => (o (ε + t * h)).b.getD i 0)
        (-I / p.epsEnv * layerOverlap p p (k0 * Real.sqrt e0) .te (i + 1) (V i .te) (V i .te) j * h) 0 :=
      HasDerivAt.comp (h₂ := fun e => (o e).b.getD i 0) (h := fun t : ℝ => ε + t * h) 0 (by rw [hl0]; exact g2) hline
    have r1 := reCLM.hasFDerivAt.comp_hasDerivAt (0 : ℝ) c1
    have r2 := reCLM.hasFDerivAt.comp_hasDerivAt (0 : ℝ) c2
    exact (r1.add r2).const_mul _
  have hsum := (HasDerivAt.fun_sum hterm).const_mul (2 * Real.pi / (k0 * Real.sqrt e0) ^ 2)
  refine (hsum.congr_of_eventuallyEq ?_).congr_deriv ?_
  · filter_upwards [hev] with t ht
    have hk : (o (ε + t * h)).k = ((k0 * Real.sqrt e0 : ℝ) : ℂ) := by
      rw [ht.1.k]; exact (realHost_k hp.host : p.k0 * csqrt p.epsEnv = _)
    rw [hk, csExt_sum _ _ _ _ (by rw [ht.1.lenA, ht.1.lenB]), ht.1.lenA, ht.2]
  · have he0 := hp.host.env_pos.ne'
    rw [Finset.mul_sum, Finset.mul_sum]
    refine Finset.sum_congr rfl fun i _ => ?_
    rw [← add_re, ← add_mul, ← mul_add, hp.host.env_eq]
    generalize layerOverlap p p (k0 * Real.sqrt e0) .tm (i + 1) (V i .tm) (V i .tm) j +
      layerOverlap p p (k0 * Real.sqrt e0) .te (i + 1) (V i .te) (V i .te) j = z
    have : (-I / (e0 : ℂ) * z * h).re = (h * z).im / e0 := by
      have h2 : -I / (e0 : ℂ) * z * h = ((1 / e0 : ℝ) : ℂ) * (-I * (h * z)) := by push_cast; ring
      rw [h2, re_ofReal_mul]
      simp
      ring
    rw [this]
    field_simp

/-- The family of particles with varying permittivity of layer `j`. -/
noncomputable def epsFam (p : Particle1) (j : ℕ) : ParticleFam ℂ :=
  ⟨fun _ => p.k0, p.rLayers.map fun r _ => r, (p.epsLayers.map fun e _ => e).set j id, fun _ => p.epsEnv⟩

theorem epsFam_at (p : Particle1) (j : ℕ) (e : ℂ) : (epsFam p j).at e = p.withEps j e := by
  simp only [epsFam, ParticleFam.at, Particle1.withEps, Particle1.mk.injEq, List.map_map, List.map_set, and_true, true_and]
  refine ⟨?_, ?_⟩
  · conv_rhs => rw [← List.map_id p.rLayers]
    rfl
  · conv_rhs => rw [← List.map_id p.epsLayers]
    rfl

theorem epsFam_analytic (p : Particle1) (j : ℕ) (e : ℂ) : AnalyticFam ℂ (epsFam p j) e := by
  refine ⟨contDiffAt_const, contDiffAt_const, ?_, ?_⟩
  · intro r hr
    obtain ⟨r, -, rfl⟩ := List.mem_map.1 hr
    exact contDiffAt_const
  · intro x hx
    rcases List.mem_or_eq_of_mem_set hx with h | h
    · obtain ⟨e, -, rfl⟩ := List.mem_map.1 h
      exact contDiffAt_const
    · rw [h]; exact contDiffAt_id

theorem withEps_self (p : Particle1) (hj : j < p.epsLayers.length) : p.withEps j (p.epsLayers.getD j 0) = p := by
  obtain ⟨k, rs, es, env⟩ := p
  simp only [Particle1.withEps, Particle1.mk.injEq, true_and, and_true]
  rw [List.getD_eq_getElem?_getD, List.getElem?_eq_getElem hj]
  exact List.set_getElem_self hj

/-- C94 end to end: for a passive core-shell particle the torch backend with exact special functions succeeds for all permittivities
near the given one, and the gradients of all returned coefficients are the overlap integrals of the internal fields. -/
theorem C94_torch {r r' : ℝ} {ε ε' : ℂ} (hp : PassiveAt p k0 e0) (hr : p.rLayers = [r, r']) (he : p.epsLayers = [ε, ε'])
    (hj : j < 2) (K : D1Kernel) (N : ℕ) :
    ∃ (o : ℂ → MieOut) (V : ℕ → Pol → ℕ → Wave),
      (∀ᶠ e in 𝓝 (p.epsLayers.getD j 0),
        mieCoefficients K exactBackends (p.withEps j e) "torch" "recurrence" (some ((N + 1 : ℕ) : ℤ)) = .ok (o e)) ∧
      (∀ i q, ChannelWaves p q (i + 1) (V i q)) ∧ ∀ i < N + 1,
      HasDerivAt (fun e => (o e).a.getD i 0)
        (-I / p.epsEnv * layerOverlap p p (k0 * Real.sqrt e0) .tm (i + 1) (V i .tm) (V i .tm) j) (p.epsLayers.getD j 0) ∧
      HasDerivAt (fun e => (o e).b.getD i 0)
        (-I / p.epsEnv * layerOverlap p p (k0 * Real.sqrt e0) .te (i + 1) (V i .te) (V i .te) j) (p.epsLayers.getD j 0) := by
  have hj1 : j < p.rLayers.length := by rw [hr]; exact hj
  have hj2 : j < p.epsLayers.length := by rw [he]; exact hj
  obtain ⟨W, hW⟩ := exists_allWaves hp.host hp.inc hp.len hp.ne hp.passive hp.nonzero
  have hat : PassiveAt ((epsFam p j).at (p.epsLayers.getD j 0)) k0 e0 := by
    rw [epsFam_at, withEps_self p hj2]; exact hp
  obtain ⟨x, x', hx⟩ : ∃ x x', (epsFam p j).eps = [x, x'] := by
    rw [epsFam, he]
    match j, hj with
    | 0, _ => exact ⟨_, _, rfl⟩
    | 1, _ => exact ⟨_, _, rfl⟩
  obtain ⟨o, hn, ho⟩ := C73_torch_succeeds (epsFam_analytic p j _) hat (r := fun _ => r) (r' := fun _ => r')
    (by rw [epsFam, hr]; rfl) hx K N
  have hx := hn.exact (epsFam_analytic p j _) hat
  simp only [epsFam_at] at ho hx
  refine ⟨o, fun i q j => W j (i + 1) q, ho, fun i q => hW.channel i q, fun i hi => ?_⟩
  exact C94_gradient_run hp.particle hj1 hx (fun i _ q => hW.channel i q) hi

end

/-! ## Examples -/

/-- The waves in a glass sphere exist at every order, so the coefficients have the stated derivatives. -/
example (i : ℕ) (q : Pol) : ∃ V, ChannelWaves glassSphere q (i + 1) V ∧
    HasDerivAt (fun e => coef q (i + 1) (glassSphere.withEps 0 e).layers) (-I / 1 * layerOverlap glassSphere glassSphere 1 q (i + 1) V V 0) 4 ∧
    HasDerivAt (fun r => coef q (i + 1) (glassSphere.withRadius 0 r).layers)
      (-I * 3 * overlap q (i + 1) (glassSphere.indices.getD 0 0) (V 0) 1 (V 1) 2) 2 := by
  have hp := glass_passive
  obtain ⟨W, hW⟩ := exists_allWaves hp.host hp.inc hp.len hp.ne hp.passive hp.nonzero
  refine ⟨_, hW.channel i q, ?_, ?_⟩
  · simpa [glassSphere] using C94_gradient hp.particle (hW.channel i q) (j := 0) (by simp [glassSphere])
  · have h := C94_radius hp.particle (hW.channel i q) (j := 0) (by simp [glassSphere])
    have h1 : glassSphere.indices.getD 1 0 = 1 := indices_host (p := glassSphere) rfl
    rw [show (0 : ℕ) + 1 = 1 from rfl, h1] at h
    have e1 : glassSphere.region 0 - glassSphere.region 1 = 3 := by simp [Particle1.region, glassSphere]; norm_num
    have e2 : glassSphere.epsEnv = 1 := rfl
    have e3 : glassSphere.radius 1 = 2 := by simp [Particle1.radius, glassSphere]
    rw [e1, e2] at h
    simp only [Particle1.size, e3] at h
    simpa using h

/-- Two glass spheres of different permittivity satisfy the hypotheses of `C94_difference`. -/
example (i : ℕ) (q : Pol) : ∃ V V', coef q (i + 1) glassSphere.layers - coef q (i + 1) (glassSphere.withEps 0 2).layers =
    -I * (2 * layerOverlap glassSphere (glassSphere.withEps 0 2) 1 q (i + 1) V V' 0) := by
  have hp := glass_passive
  have hp' : PassiveAt (glassSphere.withEps 0 2) 1 1 := by
    refine ⟨⟨by simp [Particle1.withEps, glassSphere], one_pos, by simp [Particle1.withEps, glassSphere], one_pos, ?_⟩, ?_, rfl,
      by simp [Particle1.withEps, glassSphere], ?_, ?_⟩ <;> simp [Particle1.withEps, glassSphere, strictlyIncreasing]
  obtain ⟨W, hW⟩ := exists_allWaves hp.host hp.inc hp.len hp.ne hp.passive hp.nonzero
  obtain ⟨W', hW'⟩ := exists_allWaves hp'.host hp'.inc hp'.len hp'.ne hp'.passive hp'.nonzero
  refine ⟨fun j => W j (i + 1) q, fun j => W' j (i + 1) q, ?_⟩
  have := C94_difference hp.particle hp'.particle rfl (hW.channel i q) (hW'.channel i q)
  rw [this]
  have e2 : glassSphere.rLayers.length = 1 := rfl
  rw [e2, Finset.sum_range_one]
  have e3 : (glassSphere.epsLayers.getD 0 0 - (glassSphere.withEps 0 2).epsLayers.getD 0 0) / glassSphere.epsEnv = 2 := by
    simp [Particle1.withEps, glassSphere]; norm_num
  rw [e3]
  simp

/-- `C94_torch` and `C94_extinction` apply to a glass core in an absorbing shell. -/
example (K : D1Kernel) (N : ℕ) : ∃ (o : ℂ → MieOut) (V : ℕ → Pol → ℕ → Wave),
    (∀ᶠ e in 𝓝 (2 + I : ℂ), mieCoefficients K exactBackends ⟨1, [1, 2], [4, e], 1⟩ "torch" "recurrence" (some ((N + 1 : ℕ) : ℤ)) =
      .ok (o e)) ∧
    HasDerivAt (fun e => (o e).a.getD 0 0)
      (-I / 1 * layerOverlap ⟨1, [1, 2], [4, 2 + I], 1⟩ ⟨1, [1, 2], [4, 2 + I], 1⟩ 1 .tm 1 (V 0 .tm) (V 0 .tm) 1) (2 + I) := by
  have hp : PassiveAt ⟨1, [1, 2], [4, 2 + I], 1⟩ 1 1 := by
    refine ⟨⟨by simp, one_pos, by simp, one_pos, by simp⟩, by simp [strictlyIncreasing], rfl, by simp, by simp, ?_⟩
    intro e he
    simp only [List.mem_cons, List.not_mem_nil, or_false] at he
    rcases he with rfl | rfl
    · norm_num
    · intro h; simpa using congrArg Complex.im h
  obtain ⟨o, V, h1, -, h3⟩ := C94_torch (j := 1) hp rfl rfl (by norm_num) K N
  refine ⟨o, V, by simpa [Particle1.withEps] using h1, ?_⟩
  simpa using (h3 0 (by omega)).1

end MieDiff
