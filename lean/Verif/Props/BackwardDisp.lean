import Verif.Proofs.BackwardDisp
import Verif.Props.Phase

/-!
# C101: gradients through dispersive materials

A `Particle` computes its permittivities from the wavenumber, so a gradient with respect to `k0` also runs through the interpolated
table or the Sellmeier formula.  `MatDatabase` remembers the permittivity tensor of every wavelength that it has seen.  The gradient is the
right one in the first call at a wavelength, and in later calls with the same tensor `k0`.  If the wavelength was first used
without gradients, the part of the gradient that runs through the material is silently missing.
-/

namespace MieDiff

open Complex Spec Filter Topology

section Holds

variable {V : Type} [NormedAddCommGroup V] [InnerProductSpace ℝ V] [CompleteSpace V] {v0 : V}

/-- Nothing is remembered for the wavelength `t`. -/
def NotAsked (cache : List (ℝ × Node V)) (t : ℝ) : Prop := ∀ y ∈ cache, y.1 ≠ t

/-- `x` is the first tensor remembered for the wavelength `t`. -/
def Remembers (cache : List (ℝ × Node V)) (t : ℝ) (x : Node V) : Prop :=
  ∃ pre post, cache = pre ++ (t, x) :: post ∧ NotAsked pre t

/-- The material returns the permittivity `e`: a tensor recorded for `e`, or a database entry that has not been asked for this wavelength yet
and whose table or formula gives `e`, or a database entry with a remembered tensor that was recorded for `e`. -/
inductive MatNode.Holds (v0 : V) (w : V → ℝ) : MatNode V → (V → ℂ) → Prop
  | const {x e} : Node.Recorded v0 x e → (x.req = true → e v0 ∈ slitPlane) → Holds v0 w (.const x) e
  | fresh {disp cache e} : NotAsked cache (w v0) → disp.SmoothAt (w v0) → (∀ v, disp.eval (w v) = .ok (e v)) →
      e v0 ∈ slitPlane → Holds v0 w (.db disp cache) e
  | cached {disp cache x e} : Remembers cache (w v0) x → Node.Recorded v0 x e → (x.req = true → e v0 ∈ slitPlane) →
      Holds v0 w (.db disp cache) e

/-- The particle has the radii and permittivities of the family `F`, and its wavenumber is `κ`. -/
structure ParticleNode.Holds (v0 : V) (κ : V → ℝ) (q : ParticleNode V) (F : ParticleFam V) : Prop where
  k0 : F.k0 = fun v => (κ v : ℂ)
  r : List.Forall₂ (fun x f => Node.Recorded v0 x fun v => (f v : ℂ)) q.r F.r
  mats : List.Forall₂ (fun m e => MatNode.Holds v0 (fun v => 2 * Real.pi / κ v) m e) q.mats F.eps
  env : MatNode.Holds v0 (fun v => 2 * Real.pi / κ v) q.env F.env

/-- The material holds a tensor recorded for `e` at the wavelength `t`. -/
inductive MatNode.Filled (v0 : V) (t : ℝ) : MatNode V → (V → ℂ) → Prop
  | const {x e} : Node.Recorded v0 x e → (x.req = true → e v0 ∈ slitPlane) → Filled v0 t (.const x) e
  | cached {disp cache x e} : Remembers cache t x → Node.Recorded v0 x e → (x.req = true → e v0 ∈ slitPlane) →
      Filled v0 t (.db disp cache) e

theorem MatNode.Filled.holds {w : V → ℝ} {m : MatNode V} {e : V → ℂ} (h : m.Filled v0 (w v0) e) : m.Holds v0 w e := by
  cases h with
  | const h1 h2 => exact .const h1 h2
  | cached h1 h2 h3 => exact .cached h1 h2 h3

omit [NormedAddCommGroup V] [InnerProductSpace ℝ V] [CompleteSpace V] in
theorem NotAsked.lookup {cache : List (ℝ × Node V)} {k : ℝ} (h : NotAsked cache k) : MatNode.lookup cache k = none := by
  unfold MatNode.lookup
  rw [Option.map_eq_none_iff, List.find?_eq_none]
  intro y hy
  simpa using h y hy

omit [NormedAddCommGroup V] [InnerProductSpace ℝ V] [CompleteSpace V] in
theorem Remembers.lookup {cache : List (ℝ × Node V)} {k : ℝ} {x : Node V} (h : Remembers cache k x) :
    MatNode.lookup cache k = some x := by
  obtain ⟨pre, post, rfl, h⟩ := h
  have := h.lookup
  unfold MatNode.lookup at this ⊢
  rw [Option.map_eq_none_iff] at this
  simp [List.find?_append, this]

theorem MatNode.Holds.get {w : V → ℝ} {wl : Node V} (hw : Node.Recorded v0 wl fun v => (w v : ℂ)) {m : MatNode V} {e : V → ℂ}
    (h : m.Holds v0 w e) : ∃ y m', m.getEpsilon wl = (.ok y, m') ∧ (Node.Recorded v0 y e ∧ (y.req = true → e v0 ∈ slitPlane)) ∧
      m'.Filled v0 (w v0) e := by
  have hk : wl.val.re = w v0 := by
    have : wl.val = (w v0 : ℂ) := hw.value
    rw [this, ofReal_re]
  cases h with
  | const h1 h2 => exact ⟨_, _, rfl, ⟨h1, h2⟩, .const h1 h2⟩
  | @fresh disp cache _ h1 h2 h3 h4 =>
    obtain ⟨y, hy, hr⟩ := Node.dispersion_recorded hw h2 h3
    refine ⟨y, .db disp (cache ++ [(w v0, y)]), ?_, ⟨hr, fun _ => h4⟩, .cached ⟨cache, [], rfl, h1⟩ hr fun _ => h4⟩
    simp only [MatNode.getEpsilon, hk, h1.lookup, hy]
  | @cached disp cache x _ h1 h2 h3 =>
    refine ⟨x, .db disp cache, ?_, ⟨h2, h3⟩, .cached h1 h2 h3⟩
    simp only [MatNode.getEpsilon, hk, h1.lookup]

theorem MatNode.getAll_holds {w : V → ℝ} {wl : Node V} (hw : Node.Recorded v0 wl fun v => (w v : ℂ)) {ms : List (MatNode V)}
    {es : List (V → ℂ)} (h : List.Forall₂ (fun m e => MatNode.Holds v0 w m e) ms es) : ∃ ys ms', MatNode.getAll wl ms = (.ok ys, ms') ∧
      List.Forall₂ (fun x e => Node.Recorded v0 x e ∧ (x.req = true → e v0 ∈ slitPlane)) ys es ∧
      List.Forall₂ (fun m e => MatNode.Filled v0 (w v0) m e) ms' es := by
  induction h with
  | nil => exact ⟨[], [], rfl, .nil, .nil⟩
  | cons h1 _ ih =>
    obtain ⟨y, m', e1, r1, g1⟩ := h1.get hw
    obtain ⟨ys, ms', e2, r2, g2⟩ := ih
    exact ⟨y :: ys, m' :: ms', by simp only [MatNode.getAll, e1, e2], .cons r1 r2, .cons g1 g2⟩

theorem wavelength_recorded {κ : V → ℝ} {k0 : Node V} (hk : Node.Recorded v0 k0 fun v => (κ v : ℂ)) (h0 : κ v0 ≠ 0) :
    Node.Recorded v0 (Node.rdiv (2 * Real.pi) k0) fun v => ((2 * Real.pi / κ v : ℝ) : ℂ) := by
  refine Node.Tracks.recorded ((hk.tracks.rdiv (2 * Real.pi)).congr fun v => by push_cast; rfl) ?_
  refine (hk.good.rdiv (2 * Real.pi) ?_).ok
  exact_mod_cast h0

/-- What a particle hands to the solver holds the parameters, and afterwards all permittivities are remembered. -/
theorem ParticleNode.Holds.inputs {κ : V → ℝ} {k0 : Node V} {q : ParticleNode V} {F : ParticleFam V} (h : q.Holds v0 κ F)
    (hk : Node.Recorded v0 k0 fun v => (κ v : ℂ)) (h0 : κ v0 ≠ 0) :
    ∃ p q', q.inputs k0 = (.ok p, q') ∧ p.Holds v0 F ∧ q'.r = q.r ∧
      List.Forall₂ (fun m e => MatNode.Filled v0 (2 * Real.pi / κ v0) m e) q'.mats F.eps ∧
      MatNode.Filled v0 (2 * Real.pi / κ v0) q'.env F.env := by
  have hw := wavelength_recorded hk h0
  obtain ⟨e, env', g1, ⟨g2, g3⟩, g4⟩ := h.env.get hw
  obtain ⟨ys, ms', f1, f2, f3⟩ := MatNode.getAll_holds hw h.mats
  refine ⟨⟨k0, q.r, ys, e⟩, { q with env := env', mats := ms' }, ?_, ⟨by rw [h.k0]; exact hk, h.r, f2, g2, g3⟩, rfl, f3, g4⟩
  simp only [ParticleNode.inputs, g1, f1]

theorem ParticleNode.Holds.next {κ : V → ℝ} {q q' : ParticleNode V} {F : ParticleFam V} (h : q.Holds v0 κ F) (hr : q'.r = q.r)
    (hm : List.Forall₂ (fun m e => MatNode.Filled v0 (2 * Real.pi / κ v0) m e) q'.mats F.eps)
    (he : MatNode.Filled v0 (2 * Real.pi / κ v0) q'.env F.env) : q'.Holds v0 κ F :=
  ⟨h.k0, by rw [hr]; exact h.r, hm.imp fun _ _ hx => MatNode.Filled.holds (w := fun v => 2 * Real.pi / κ v) hx,
    MatNode.Filled.holds (w := fun v => 2 * Real.pi / κ v) he⟩

variable {κ : V → ℝ} {k0 : Node V} {q : ParticleNode V} {F : ParticleFam V} {n N : ℕ} {o : V → MieOut}

/-- C101: `backward` through `Particle.get_mie_coefficients(k0, backend='pena')` returns the gradient of the coefficients as functions of all
parameters, where the permittivity of a database material changes with the wavenumber along its table or formula.  The particle that is left
behind, with its filled caches, satisfies the hypotheses again: later calls with the same `k0` return the same right gradient. -/
theorem C101_coefficients (h : q.Holds v0 κ F) (hk : Node.Recorded v0 k0 fun v => (κ v : ℂ)) (h0 : κ v0 ≠ 0) (hN : 1 ≤ N)
    (hcall : PenaCallAt F v0 n N o) (hc : SolverClear (depthFn n N) n (F.at v0).layers)
    (hd : ∀ z ∈ kernelArgs (F.at v0).layers, DepthClear (n + N) z) {i : ℕ} (h1 : 1 ≤ i) (hi : i ≤ n) :
    ∃ c q', q.mie n N k0 i = (.ok c, q') ∧ CoefBackward v0 o i c ∧ q'.Holds v0 κ F := by
  obtain ⟨p, q', e, hp, hq1, hq2, hq3⟩ := h.inputs hk h0
  exact ⟨Node.mie n N p i, q', by simp [ParticleNode.mie, e, Except.map], C79_coefficients hp hN hcall hc hd h1 hi, h.next hq1 hq2 hq3⟩

/-- C101 for `Particle.get_cross_sections(k0, backend='pena')`. -/
theorem C101_cross_sections (h : q.Holds v0 κ F) (hk : Node.Recorded v0 k0 fun v => (κ v : ℂ)) (h0 : κ v0 ≠ 0) (hN : 1 ≤ N)
    (hcall : PenaCallAt F v0 n N o) (hc : SolverClear (depthFn n N) n (F.at v0).layers)
    (hd : ∀ z ∈ kernelArgs (F.at v0).layers, DepthClear (n + N) z) :
    ∃ c q', q.crossSections n N k0 = (.ok c, q') ∧
      CrossBackward v0 (fun v => crossSections (o v).k (o v).rS (o v).a (o v).b) c ∧ q'.Holds v0 κ F := by
  obtain ⟨p, q', e, hp, hq1, hq2, hq3⟩ := h.inputs hk h0
  exact ⟨Node.cross n N p, q', by simp [ParticleNode.crossSections, e, Except.map], C79_cross_sections hp hN hcall hc hd, h.next hq1 hq2 hq3⟩

end Holds

/-! ## At the rows of a table -/

section Rows

variable {V : Type} [NormedAddCommGroup V] [InnerProductSpace ℝ V] [CompleteSpace V] {v0 : V} {x : Node V} {w : V → ℝ}

/-- C101, the gradient of a table: at an ordinary wavelength and at an inner row it is the slope of the interval to the left; outside the
table and at its first row it is zero. -/
theorem C101_table (hx : Node.Recorded v0 x fun v => (w v : ℂ)) {rows : List (ℝ × ℂ)} (hs : rows.Pairwise fun a b => a.1 < b.1)
    (hne : rows ≠ []) : ∃ y, Node.interp1d x rows = .ok y ∧
      (∀ l r pre post, rows = pre ++ l :: r :: post → l.1 < w v0 → w v0 ≤ r.1 →
        ∀ s, y.back s = x.back (s * (starRingEnd ℂ) ((r.2 - l.2) / (r.1 - l.1)))) ∧
      ((∀ p ∈ rows, w v0 ≤ p.1) ∨ (∀ p ∈ rows, p.1 < w v0) → ∀ s, y.back s = 0) := by
  have hv : x.val = (w v0 : ℂ) := hx.value
  have hre : x.val.re = w v0 := by rw [hv, ofReal_re]
  have hsort : (rows.mergeSort fun a b => decide (a.1 ≤ b.1)) = rows :=
    List.mergeSort_of_pairwise (hs.imp fun h => by simpa using h.le)
  obtain ⟨l, r, h1, h2, hcase⟩ := Node.interpIdx_cases (w v0) rows hne
  refine ⟨Node.interpPair x l r, ?_, ?_, ?_⟩
  · unfold Node.interp1d
    simp only [hsort, hre, h1, h2]
  · rintro l' r' pre post rfl hl hr s
    have hb : bucketize (w v0) ((pre ++ l' :: r' :: post).map Prod.fst) = pre.length + 1 := by
      have hpre : ∀ p ∈ pre, p.1 < w v0 := fun p hp => by
        have := (List.pairwise_append.1 hs).2.2 p hp l' (by simp)
        linarith
      unfold bucketize
      rw [List.map_append, List.takeWhile_append_of_pos (by
        intro a ha
        obtain ⟨p, hp, rfl⟩ := List.mem_map.1 ha
        simpa using hpre p hp)]
      simp [hl, not_lt.2 hr]
    have i1 : (Node.interpIdx (w v0) (pre ++ l' :: r' :: post)).1 = pre.length := by
      unfold Node.interpIdx
      simp only [hb, List.length_append, List.length_cons]
      omega
    have i2 : (Node.interpIdx (w v0) (pre ++ l' :: r' :: post)).2 = pre.length + 1 := by
      unfold Node.interpIdx
      simp only [hb, List.length_append, List.length_cons]
      omega
    rw [i1] at h1
    rw [i2] at h2
    have e1 : l' = l := by simpa using h1
    have e2 : r' = r := by simpa using h2
    subst e1 e2
    exact (Node.interpPair_between hv hx.additive hl hr).2.1 s
  · intro h s
    have hl := List.mem_of_getElem? h1
    have hr := List.mem_of_getElem? h2
    rcases hcase with ⟨rfl, -, -⟩ | ⟨rfl, -, -⟩ | ⟨c1, c2⟩
    · exact (Node.interpPair_outside hv hx.additive).2.1 s
    · exact (Node.interpPair_outside hv hx.additive).2.1 s
    · rcases h with h | h
      · exact absurd (h l hl) (not_le.2 c1)
      · exact absurd (h r hr) (not_lt.2 c2)

end Rows

/-! ## A remembered permittivity -/

section Stale

variable {p : Particle1} {k e0 : ℝ} {j : ℕ} {disp : Dispersion} {e : ℝ → ℝ}

/-- A particle whose layer `j` is a database material that has not been used yet; nothing else depends on parameters. -/
noncomputable def withDb (p : Particle1) (j : ℕ) (disp : Dispersion) : ParticleNode ℝ where
  r := p.rLayers.map fun r => Node.const (r : ℂ)
  mats := (p.epsLayers.map fun e => .const (Node.const e)).set j (.db disp [])
  env := .const (Node.const p.epsEnv)

/-- The wavenumber as a tensor that requires a gradient. -/
noncomputable def waveLeaf (k : ℝ) : Node ℝ := Node.ofReal k fun g => g

/-- Specification: the particle at wavenumber `v` with permittivity `t` of layer `j`. -/
noncomputable def Particle1.atWave (p : Particle1) (j : ℕ) (v t : ℝ) : Particle1 := { p.withEps j t with k0 := v }

/-- The family in which the permittivity of layer `j` is `e v`. -/
noncomputable def waveFam (p : Particle1) (j : ℕ) (e : ℝ → ℝ) : ParticleFam ℝ where
  k0 v := v
  r := p.rLayers.map fun r _ => r
  eps := (p.epsLayers.map fun e _ => e).set j fun v => (e v : ℂ)
  env _ := p.epsEnv

/-- The family in which the wavenumber and the permittivity of layer `j` are independent. -/
noncomputable def wavePairFam (p : Particle1) (j : ℕ) : ParticleFam (ℝ × ℝ) where
  k0 v := v.1
  r := p.rLayers.map fun r _ => r
  eps := (p.epsLayers.map fun e _ => e).set j fun v => (v.2 : ℂ)
  env _ := p.epsEnv

theorem waveFam_at (v : ℝ) : (waveFam p j e).at v = p.atWave j v (e v) := by
  simp [waveFam, ParticleFam.at, Particle1.atWave, Particle1.withEps, List.map_set, Function.comp_def]

theorem wavePairFam_at (v : ℝ × ℝ) : (wavePairFam p j).at v = p.atWave j v.1 v.2 := by
  simp [wavePairFam, ParticleFam.at, Particle1.atWave, Particle1.withEps, List.map_set, Function.comp_def]

theorem constNode_recorded {V : Type} [NormedAddCommGroup V] [InnerProductSpace ℝ V] [CompleteSpace V] (v0 : V) (c : ℂ) :
    Node.Recorded v0 (Node.const c) fun _ => c := Node.Tracks.recorded (Node.Tracks.const c) trivial

theorem waveLeaf_recorded (k : ℝ) : Node.Recorded k (waveLeaf k) fun v => (v : ℂ) := by
  refine Node.Tracks.recorded ⟨rfl, fun h => by simp [waveLeaf, Node.ofReal] at h, fun _ => ?_⟩ trivial
  refine ⟨ofRealCLM, ofRealCLM.hasFDerivAt, fun g dv => ?_⟩
  simp [waveLeaf, Node.ofReal, mul_comm]

theorem forall₂_set_both {α β : Type*} {R : α → β → Prop} {l : List α} {m : List β} (h : List.Forall₂ R l m) {a : α} {b : β} (hab : R a b) :
    ∀ j, List.Forall₂ R (l.set j a) (m.set j b) := by
  induction h with
  | nil => intro j; simp
  | cons h1 h2 ih =>
    intro j
    cases j with
    | zero => exact .cons hab h2
    | succ j => exact .cons h1 (ih j)

theorem consts_hold {V : Type} [NormedAddCommGroup V] [InnerProductSpace ℝ V] [CompleteSpace V] (v0 : V) (w : V → ℝ) :
    ∀ l : List ℂ, List.Forall₂ (fun m e => MatNode.Holds v0 w m e) (l.map fun e => .const (Node.const e)) (l.map fun e _ => e)
  | [] => .nil
  | c :: l => .cons (.const (constNode_recorded v0 c) fun h => by simp [Node.const] at h) (consts_hold v0 w l)

theorem radii_recorded {V : Type} [NormedAddCommGroup V] [InnerProductSpace ℝ V] [CompleteSpace V] (v0 : V) :
    ∀ l : List ℝ, List.Forall₂ (fun x (f : V → ℝ) => Node.Recorded v0 x fun v => (f v : ℂ)) (l.map fun r => Node.const (r : ℂ))
      (l.map fun r _ => r)
  | [] => .nil
  | r :: l => .cons (constNode_recorded v0 (r : ℂ)) (radii_recorded v0 l)

theorem withDb_fresh (hs : disp.SmoothAt (2 * Real.pi / k)) (he : ∀ v, disp.eval (2 * Real.pi / v) = .ok (e v : ℂ)) (hpos : 0 < e k) :
    (withDb p j disp).Holds k (fun v => v) (waveFam p j e) :=
  ⟨rfl, radii_recorded k _, forall₂_set_both (consts_hold k _ _) (.fresh (by simp [NotAsked]) hs he (ofReal_mem_slitPlane.2 hpos)) j,
    .const (constNode_recorded k _) fun h => by simp [Node.const] at h⟩

/-- After a call with a wavenumber that requires no gradient, the remembered permittivity is a constant. -/
theorem withDb_stale (hk : k ≠ 0) (hs : disp.SmoothAt (2 * Real.pi / k)) (he : ∀ v, disp.eval (2 * Real.pi / v) = .ok (e v : ℂ))
    (hpos : 0 < e k) : ((withDb p j disp).inputs (Node.const (k : ℂ))).2.Holds k (fun v => v) (waveFam p j fun _ => e k) := by
  have hf : MatNode.Holds k (fun _ : ℝ => 2 * Real.pi / k) (.db disp []) fun _ => (e k : ℂ) :=
    .fresh (by simp [NotAsked]) hs (fun _ => he k) (ofReal_mem_slitPlane.2 hpos)
  have h : (withDb p j disp).Holds k (fun _ => k) { waveFam p j (fun _ => e k) with k0 := fun _ => (k : ℂ) } :=
    ⟨rfl, radii_recorded k _, forall₂_set_both (consts_hold k _ _) hf j,
      .const (constNode_recorded k _) fun h => by simp [Node.const] at h⟩
  obtain ⟨p', q', e1, -, hr, hm, hv⟩ := h.inputs (constNode_recorded k (k : ℂ)) hk
  rw [e1]
  refine ⟨rfl, ?_, hm.imp fun _ _ hx => MatNode.Filled.holds (w := fun v : ℝ => 2 * Real.pi / v) hx,
    MatNode.Filled.holds (w := fun v : ℝ => 2 * Real.pi / v) hv⟩
  rw [hr]
  exact radii_recorded k _

theorem atWave_self (hk : p.k0 = k) (hj : j < p.epsLayers.length) {t : ℝ} (ht : p.epsLayers.getD j 0 = t) : p.atWave j k t = p := by
  have h := withEps_self p hj
  rw [ht] at h
  unfold Particle1.atWave
  rw [h, ← hk]

/-- The entry of a pair of coefficients that belongs to a polarisation. -/
def Spec.Pol.pick {α : Type*} (q : Pol) (c : α × α) : α :=
  match q with
  | .tm => c.1
  | .te => c.2

/-- In the limit of deep recurrences `backward` on a coefficient returns the gradient of the exact coefficient. -/
theorem mie_limit {V : Type*} [NormedAddCommGroup V] [InnerProductSpace ℝ V] [CompleteSpace V] [FiniteDimensional ℝ V] {v0 : V}
    {p : Node.Inputs V} {F : ParticleFam V} {n : ℕ} (h : p.Holds v0 F) (hinc : strictlyIncreasing (F.at v0).rLayers)
    (hlen : F.eps.length = F.r.length) (hne : F.r ≠ []) (hc : SolverClear idealFn n (F.at v0).layers)
    (hd : ∀ z ∈ kernelArgs (F.at v0).layers, D1Clear z) {i : ℕ} (h1 : 1 ≤ i) (hi : i ≤ n) (q : Pol) (g : ℂ) :
    ToGradient v0 (fun v => ((starRingEnd ℂ) g * coef q i (F.at v).layers).re) fun N => (q.pick (Node.mie n N p i)).back g := by
  obtain ⟨o, ho, -⟩ := C77_calls_succeed h.smooth hinc hlen hne exactBackends (h1.trans hi)
  obtain ⟨-, ca, cb⟩ := C77_coefficients h.smooth ho hc hd h1 hi
  obtain ⟨N0, h0⟩ := C78_depth_clear hc hd
  have key : ∀ᶠ N in atTop, CoefBackward v0 (o N) i (Node.mie n N p i) := by
    filter_upwards [eventually_ge_atTop N0, eventually_ge_atTop 1] with N hN hN1
    obtain ⟨B, backend, w, nMax, ri, hb, hcall⟩ := ho.call
    exact C79_coefficients h hN1 ⟨B, backend, w, nMax, ri, hb, hcall N hN1⟩ (h0 N hN).1 (h0 N hN).2 h1 hi
  have hg : GradConv (fun _ _ => (starRingEnd ℂ) g) (fun _ => (starRingEnd ℂ) g) v0 :=
    ⟨tendsto_const_nhds, .of_forall fun _ => differentiableAt_const _, differentiableAt_const _, fun _ => by simp⟩
  cases q with
  | tm => exact grad_limit (hg.mul ca).re (key.mono fun N k => k.a_grad g)
  | te => exact grad_limit (hg.mul cb).re (key.mono fun N k => k.b_grad g)

theorem wavePair_smooth {x : ℝ × ℝ} (hx : 0 < x.2) : SmoothFam (wavePairFam p j) x where
  k0 := ofReal_diff differentiableAt_fst
  env := show DifferentiableAt ℝ (fun _ => csqrt p.epsEnv) x from differentiableAt_const _
  r r hr := by
    obtain ⟨a, -, rfl⟩ := List.mem_map.1 hr
    exact differentiableAt_const _
  eps e he := by
    rcases List.mem_or_eq_of_mem_set he with he | rfl
    · obtain ⟨a, -, rfl⟩ := List.mem_map.1 he
      exact differentiableAt_const _
    · exact csqrt_smooth (ofReal_diff differentiableAt_snd) (ofReal_mem_slitPlane.2 hx)

variable {n i : ℕ}

theorem coef_wave_diff (hp : TransparentAt p k e0) (hj : j < p.rLayers.length) {t : ℝ} (ht : p.epsLayers.getD j 0 = t) (hpos : 0 < t)
    (hc : SolverClear idealFn n p.layers) (hd : ∀ z ∈ kernelArgs p.layers, D1Clear z) (h1 : 1 ≤ i) (hi : i ≤ n) (q : Pol) :
    DifferentiableAt ℝ (fun x : ℝ × ℝ => coef q i (p.atWave j x.1 x.2).layers) (k, t) := by
  have hself : (wavePairFam p j).at (k, t) = p := by
    rw [wavePairFam_at]
    exact atWave_self hp.particle.host.k0_eq (by rw [hp.particle.len]; exact hj) ht
  have hs : SmoothFam (wavePairFam p j) (k, t) := wavePair_smooth hpos
  obtain ⟨o, ho, -⟩ := C77_calls_succeed hs (by rw [hself]; exact hp.particle.inc) (by simp [wavePairFam, hp.particle.len])
    (by simpa [wavePairFam] using hp.particle.ne) exactBackends (h1.trans hi)
  obtain ⟨-, ca, cb⟩ := C77_coefficients hs ho (by rw [hself]; exact hc) (by rw [hself]; exact hd) h1 hi
  cases q with
  | tm => simpa only [wavePairFam_at] using ca.exists_exact
  | te => simpa only [wavePairFam_at] using cb.exists_exact

/-- C101, a remembered permittivity.  Layer `j` of a lossless particle is a database material whose permittivity changes at the wavenumber
`k`.  If the first call at this wavenumber is made with a `k0` that requires a gradient, `backward` on a Mie coefficient returns (in the limit of
deep recurrences) its derivative `D` with respect to the wavenumber.  If a call with a `k0` that does not require a gradient went before,
`backward` returns the derivative `Ds` at fixed permittivity, and that is always a different number.  No error is raised. -/
theorem C101_stale (hp : TransparentAt p k e0) (hj : j < p.rLayers.length) (hek : p.epsLayers.getD j 0 = (e k : ℂ)) (hpos : 0 < e k)
    (hs : disp.SmoothAt (2 * Real.pi / k)) (he : ∀ v, disp.eval (2 * Real.pi / v) = .ok (e v : ℂ)) {slope : ℝ} (hsl : HasDerivAt e slope k)
    (h0 : slope ≠ 0) (hc : SolverClear idealFn n p.layers) (hd : ∀ z ∈ kernelArgs p.layers, D1Clear z) (h1 : 1 ≤ i) (hi : i ≤ n) (q : Pol) :
    ∃ D Ds : ℂ, HasDerivAt (fun v : ℝ => coef q i (p.atWave j v (e v)).layers) D k ∧
      HasDerivAt (fun v : ℝ => coef q i (p.atWave j v (e k)).layers) Ds k ∧ D ≠ Ds ∧
      (∃ first : ℕ → Node ℝ × Node ℝ, (∀ N, ((withDb p j disp).mie n N (waveLeaf k) i).1 = .ok (first N)) ∧
        ∀ g, Tendsto (fun N => (q.pick (first N)).back g) atTop (𝓝 ((starRingEnd ℂ) g * D).re)) ∧
      ∃ later : ℕ → Node ℝ × Node ℝ,
        (∀ N, (((withDb p j disp).mie n N (Node.const k) i).2.mie n N (waveLeaf k) i).1 = .ok (later N)) ∧
        ∀ g, Tendsto (fun N => (q.pick (later N)).back g) atTop (𝓝 ((starRingEnd ℂ) g * Ds).re) := by
  have hk := hp.particle.host.k0_pos
  have hj' : j < p.epsLayers.length := by rw [hp.particle.len]; exact hj
  have hself := atWave_self hp.particle.host.k0_eq hj' hek
  have hdiff := coef_wave_diff hp hj hek hpos hc hd h1 hi q
  set L := fderiv ℝ (fun x : ℝ × ℝ => coef q i (p.atWave j x.1 x.2).layers) (k, e k) with hL
  have hF := hdiff.hasFDerivAt
  rw [← hL] at hF
  have dD : HasDerivAt (fun v : ℝ => coef q i (p.atWave j v (e v)).layers) (L (1, slope)) k :=
    HasFDerivAt.comp_hasDerivAt (f := fun v => (v, e v)) k hF ((hasDerivAt_id k).prodMk hsl)
  have dDs : HasDerivAt (fun v : ℝ => coef q i (p.atWave j v (e k)).layers) (L (1, 0)) k :=
    HasFDerivAt.comp_hasDerivAt (f := fun v => (v, e k)) k hF ((hasDerivAt_id k).prodMk (hasDerivAt_const k (e k)))
  have dE : HasDerivAt (fun t : ℝ => coef q i (p.atWave j k t).layers) (L (0, 1)) (e k) :=
    HasFDerivAt.comp_hasDerivAt (f := fun t => (k, t)) (e k) hF ((hasDerivAt_const (e k) k).prodMk (hasDerivAt_id (e k)))
  have hne : L (0, 1) ≠ 0 := by
    obtain ⟨W, hW⟩ := exists_waves hp q h1
    obtain ⟨n1, n2, n3⟩ := C96_response hp hW h1 hj
    rw [hek] at n3
    have e1 : (fun t : ℝ => 1 - 2 * coef q i (p.withEps j t).layers) = fun t : ℝ => 1 - 2 * coef q i (p.atWave j k t).layers := by
      funext t
      rw [show p.atWave j k t = p.withEps j t by simp [Particle1.atWave, Particle1.withEps, hp.particle.host.k0_eq]]
    have hr := n3.comp_ofReal
    rw [e1] at hr
    have hu := hr.unique ((dE.const_mul 2).const_sub 1)
    intro hz
    rw [hz, mul_zero, neg_zero] at hu
    have hS : (1 - 2 * coef q i p.layers) ≠ 0 := fun h => by rw [h] at n1; simp at n1
    have hI : ((layerIntensity p (k * Real.sqrt e0) q i W j / e0 : ℝ) : ℂ) ≠ 0 := by
      exact_mod_cast (div_pos n2 hp.particle.host.env_pos).ne'
    exact mul_ne_zero (mul_ne_zero (mul_ne_zero two_ne_zero I_ne_zero) hI) hS hu
  have lim : ∀ {P : ParticleNode ℝ} {f : ℝ → ℝ} {E : ℂ}, P.Holds k (fun v => v) (waveFam p j f) → f k = e k →
      HasDerivAt (fun v : ℝ => coef q i (p.atWave j v (f v)).layers) E k →
      ∃ c : ℕ → Node ℝ × Node ℝ, (∀ N, (P.mie n N (waveLeaf k) i).1 = .ok (c N)) ∧
        ∀ g, Tendsto (fun N => (q.pick (c N)).back g) atTop (𝓝 ((starRingEnd ℂ) g * E).re) := by
    intro P f E hP hf hE
    obtain ⟨P', Q', e1, hI, -⟩ := hP.inputs (waveLeaf_recorded k) hk.ne'
    have hat : (waveFam p j f).at k = p := by rw [waveFam_at, hf, hself]
    refine ⟨fun N => Node.mie n N P' i, fun N => by simp [ParticleNode.mie, e1, Except.map], fun g => ?_⟩
    obtain ⟨d, hd1, hd2⟩ := mie_limit hI (by rw [hat]; exact hp.particle.inc) (by simp [waveFam, hp.particle.len])
      (by simpa [waveFam] using hp.particle.ne) (by rw [hat]; exact hc) (by rw [hat]; exact hd) h1 hi q g
    simp only [waveFam_at] at hd1
    have hE' : HasDerivAt (fun v : ℝ => ((starRingEnd ℂ) g * coef q i (p.atWave j v (f v)).layers).re) ((starRingEnd ℂ) g * E).re k :=
      HasFDerivAt.comp_hasDerivAt (l := reCLM) k reCLM.hasFDerivAt (hE.const_mul _)
    have : d = ((starRingEnd ℂ) g * E).re := by
      simpa using hd1.hasDerivAt.unique hE'
    rwa [this] at hd2
  refine ⟨L (1, slope), L (1, 0), dD, dDs, fun h => ?_, lim (withDb_fresh hs he hpos) rfl dD,
    lim (withDb_stale hk.ne' hs he hpos) rfl dDs⟩
  have e2 : L (1, slope) = L (1, 0) + slope • L (0, 1) := by
    rw [← map_smul, ← map_add]
    simp
  rw [e2, add_eq_left] at h
  exact (smul_ne_zero h0 hne) h

/-! ## A sphere made from a table -/

/-- Two rows; between them the permittivity is `π²/4` plus the distance of the wavelength from `2π`. -/
noncomputable def slopedTable : Dispersion :=
  .table [(6, ((qp ^ 2 + (6 - 2 * Real.pi) : ℝ) : ℂ)), (7, ((qp ^ 2 + (7 - 2 * Real.pi) : ℝ) : ℂ))]

/-- The permittivity of this material as a function of the wavenumber. -/
noncomputable def slopedEps (v : ℝ) : ℝ :=
  if 2 * Real.pi / v ≤ 6 then qp ^ 2 + (6 - 2 * Real.pi) else if 2 * Real.pi / v ≤ 7 then qp ^ 2 + (2 * Real.pi / v - 2 * Real.pi)
    else qp ^ 2 + (7 - 2 * Real.pi)

theorem sloped_eval (v : ℝ) : slopedTable.eval (2 * Real.pi / v) = .ok (slopedEps v : ℂ) := by
  have hsort : (List.mergeSort [((6 : ℝ), ((qp ^ 2 + (6 - 2 * Real.pi) : ℝ) : ℂ)), (7, ((qp ^ 2 + (7 - 2 * Real.pi) : ℝ) : ℂ))]
      fun a b => decide (a.1 ≤ b.1)) = _ := List.mergeSort_of_pairwise (by norm_num)
  unfold slopedTable Dispersion.eval slopedEps
  simp only
  generalize 2 * Real.pi / v = t
  unfold MieDiff.interp1d
  rw [hsort]
  have same : ∀ (a : ℝ) (z : ℂ), (z * ((interpWeights t a a).2 : ℂ) + z * ((interpWeights t a a).1 : ℂ)) /
      (((interpWeights t a a).1 + (interpWeights t a a).2 : ℝ) : ℂ) = z := fun a z => by
    rw [← mul_add, mul_div_assoc, add_comm ((_ : ℝ) : ℂ), ← ofReal_add, div_self, mul_one]
    exact_mod_cast (interpWeights_pos _ _ _).2.2.ne'
  split_ifs with h1 h2
  · rw [Node.interpSorted_idx (l := (6, _)) (r := (6, _)) (by simp [Node.interpIdx, bucketize, not_lt.2 h1]; rfl)
      (by simp [Node.interpIdx, bucketize, not_lt.2 h1]; rfl)]
    rw [same]
    push_cast
    rfl
  · rw [not_le] at h1
    rw [Node.interpSorted_idx (l := (6, _)) (r := (7, _)) (by simp [Node.interpIdx, bucketize, h1, not_lt.2 h2]; rfl)
      (by simp [Node.interpIdx, bucketize, h1, not_lt.2 h2]; rfl), interpWeights_between h1 h2]
    congr 1
    push_cast
    ring
  · rw [not_le] at h1 h2
    rw [Node.interpSorted_idx (l := (7, _)) (r := (7, _)) (by simp [Node.interpIdx, bucketize, h1, h2]; rfl)
      (by simp [Node.interpIdx, bucketize, h1, h2]; rfl)]
    rw [same]
    push_cast
    rfl

theorem two_pi_mem : 6 < 2 * Real.pi ∧ 2 * Real.pi < 7 := ⟨by linarith [Real.pi_gt_three], by linarith [Real.pi_lt_d2]⟩

theorem sloped_smooth : slopedTable.SmoothAt (2 * Real.pi / 1) := by
  intro r hr
  rw [div_one]
  simp only [List.mem_cons, List.not_mem_nil, or_false] at hr
  rcases hr with rfl | rfl
  · exact two_pi_mem.1.ne
  · exact two_pi_mem.2.ne'

theorem sloped_deriv : slopedEps 1 = qp ^ 2 ∧ HasDerivAt slopedEps (-(2 * Real.pi)) 1 := by
  obtain ⟨h1, h2⟩ := two_pi_mem
  constructor
  · unfold slopedEps
    rw [div_one, if_neg (not_le.2 h1), if_pos h2.le]
    ring
  · have hc : ContinuousAt (fun v : ℝ => 2 * Real.pi / v) 1 := by fun_prop (disch := norm_num)
    have hd : HasDerivAt (fun v : ℝ => qp ^ 2 + (2 * Real.pi / v - 2 * Real.pi)) (-(2 * Real.pi)) 1 := by
      have := (((hasDerivAt_id (1 : ℝ)).inv one_ne_zero).const_mul (2 * Real.pi))
      refine ((this.sub_const (2 * Real.pi)).const_add (qp ^ 2)).congr_deriv (by simp) |>.congr_of_eventuallyEq ?_
      exact .of_forall fun v => by simp [div_eq_mul_inv]
    refine hd.congr_of_eventuallyEq ?_
    filter_upwards [hc.eventually_const_lt (show (6 : ℝ) < 2 * Real.pi / 1 by simpa using h1),
      hc.eventually_lt_const (show 2 * Real.pi / 1 < (7 : ℝ) by simpa using h2)] with v a b
    unfold slopedEps
    rw [if_neg (not_le.2 a), if_pos b.le]

/-- The sphere of index `π/2` at wavenumber 1, made from this table: both runs succeed, the first returns the derivative of the
coefficients, the one after an evaluation without gradients does not. -/
example (q : Pol) : ∃ D Ds : ℂ, HasDerivAt (fun v : ℝ => coef q 1 (monoParticle.atWave 0 v (slopedEps v)).layers) D 1 ∧
    HasDerivAt (fun v : ℝ => coef q 1 (monoParticle.atWave 0 v (slopedEps 1)).layers) Ds 1 ∧ D ≠ Ds ∧
    (∃ first : ℕ → Node ℝ × Node ℝ, (∀ N, ((withDb monoParticle 0 slopedTable).mie 1 N (waveLeaf 1) 1).1 = .ok (first N)) ∧
      ∀ g, Tendsto (fun N => (q.pick (first N)).back g) atTop (𝓝 ((starRingEnd ℂ) g * D).re)) ∧
    ∃ later : ℕ → Node ℝ × Node ℝ,
      (∀ N, (((withDb monoParticle 0 slopedTable).mie 1 N (Node.const (1 : ℝ)) 1).2.mie 1 N (waveLeaf 1) 1).1 = .ok (later N)) ∧
      ∀ g, Tendsto (fun N => (q.pick (later N)).back g) atTop (𝓝 ((starRingEnd ℂ) g * Ds).re) := by
  have hq : 0 < qp := by linarith [qp_odd.big]
  have hp : TransparentAt monoParticle 1 1 := by
    refine ⟨⟨⟨by simp [monoParticle], one_pos, by simp [monoParticle], one_pos, by simp [monoParticle]⟩,
      by simp [monoParticle, strictlyIncreasing], by simp [monoParticle], by simp [monoParticle], ?_⟩, ?_⟩
    · simp [monoParticle, hq.ne']
    · intro e he
      simp only [monoParticle, List.mem_singleton] at he
      rw [he, ofReal_im]
  refine C101_stale hp (by simp [monoParticle]) (by simp [monoParticle, sloped_deriv.1]) (by rw [sloped_deriv.1]; positivity) sloped_smooth sloped_eval
    sloped_deriv.2 (by linarith [Real.pi_gt_three] : -(2 * Real.pi) ≠ 0) mono_clear mono_args le_rfl le_rfl q

/-- At every sufficient depth the cross sections of this sphere have the right gradient in the first call, and in the second one with the same
tensor `k0`. -/
example (B : Backends) : ∃ o : ℕ → ℝ → MieOut, PenaCalls (waveFam monoParticle 0 slopedEps) 1 1 o ∧ ∀ᶠ N in atTop,
    let first := (withDb monoParticle 0 slopedTable).crossSections 1 N (waveLeaf 1)
    let second := first.2.crossSections 1 N (waveLeaf 1)
    (∃ c, first.1 = .ok c ∧ CrossBackward (1 : ℝ) (fun v => crossSections (o N v).k (o N v).rS (o N v).a (o N v).b) c) ∧
    ∃ c, second.1 = .ok c ∧ CrossBackward (1 : ℝ) (fun v => crossSections (o N v).k (o N v).rS (o N v).a (o N v).b) c := by
  have hpos : 0 < slopedEps 1 := by
    have hq : 0 < qp := by linarith [qp_odd.big]
    rw [sloped_deriv.1]
    positivity
  have hat : (waveFam monoParticle 0 slopedEps).at 1 = monoParticle := by
    rw [waveFam_at]
    exact atWave_self (by simp [monoParticle]) (by simp [monoParticle]) (by simp [monoParticle, sloped_deriv.1])
  have hf : (withDb monoParticle 0 slopedTable).Holds 1 (fun v => v) (waveFam monoParticle 0 slopedEps) :=
    withDb_fresh sloped_smooth sloped_eval hpos
  obtain ⟨p', -, -, hp', -⟩ := hf.inputs (waveLeaf_recorded 1) one_ne_zero
  obtain ⟨o, h1, -⟩ := C77_calls_succeed (n := 1) hp'.smooth (by rw [hat]; simp [monoParticle, strictlyIncreasing])
    (by simp [waveFam, monoParticle]) (by simp [waveFam, monoParticle]) B le_rfl
  have hc : SolverClear idealFn 1 ((waveFam monoParticle 0 slopedEps).at 1).layers := by rw [hat]; exact mono_clear
  have hd : ∀ z ∈ kernelArgs ((waveFam monoParticle 0 slopedEps).at 1).layers, D1Clear z := by rw [hat]; exact mono_args
  obtain ⟨N0, h0⟩ := C78_depth_clear hc hd
  refine ⟨o, h1, ?_⟩
  filter_upwards [eventually_ge_atTop N0, eventually_ge_atTop 1] with N hN hN1
  obtain ⟨B, backend, w, nMax, ri, hb, hcall⟩ := h1.call
  obtain ⟨c, q', e1, c1, hq'⟩ := C101_cross_sections hf (waveLeaf_recorded 1) one_ne_zero hN1
    ⟨B, backend, w, nMax, ri, hb, hcall N hN1⟩ (h0 N hN).1 (h0 N hN).2
  obtain ⟨c', q'', e2, c2, -⟩ := C101_cross_sections hq' (waveLeaf_recorded 1) one_ne_zero hN1
    ⟨B, backend, w, nMax, ri, hb, hcall N hN1⟩ (h0 N hN).1 (h0 N hN).2
  simp only [e1, e2]
  exact ⟨⟨c, rfl, c1⟩, c', rfl, c2⟩

/-- The table at the wavelength 3, an inner row: the gradient is the slope 2 on the left, not the slope -1 on the right. -/
example : ∃ y, Node.interp1d (waveLeaf 3) [(1, 1), (3, 5), (4, 4)] = .ok y ∧ y.back 1 = 2 := by
  obtain ⟨y, h1, h2, -⟩ := C101_table (waveLeaf_recorded 3) (rows := [(1, 1), (3, 5), (4, 4)]) (by norm_num) (by simp)
  refine ⟨y, h1, ?_⟩
  have := h2 (1, 1) (3, 5) [] [(4, 4)] rfl (by norm_num) (by norm_num) 1
  rw [this]
  simp only [waveLeaf, Node.ofReal, one_mul, conj_re]
  norm_num [← ofReal_ofNat, ← ofReal_one, ← ofReal_sub, ← ofReal_div]

/-- At the wavelength 5, beyond the last row, no gradient reaches the wavelength. -/
example : ∃ y, Node.interp1d (waveLeaf 5) [(1, 1), (3, 5), (4, 4)] = .ok y ∧ ∀ s, y.back s = 0 := by
  obtain ⟨y, h1, -, h2⟩ := C101_table (waveLeaf_recorded 5) (rows := [(1, 1), (3, 5), (4, 4)]) (by norm_num) (by simp)
  refine ⟨y, h1, h2 (.inr ?_)⟩
  intro p hp
  simp only [List.mem_cons, List.not_mem_nil, or_false] at hp
  rcases hp with rfl | rfl | rfl <;> norm_num

end Stale

end MieDiff
