import Verif.Proofs.EndToEnd
import Verif.Props.BatchTorch

/-!
# C58: the methods of a particle compute the physics of the particle that was described
-/

namespace MieDiff

open Complex

/-- Values at the `k`-th of `K` wavenumbers in the dictionary of `Particle.get_cross_sections`; `n` orders. -/
def CrossT.at (n K k : ℕ) (c : CrossT) : CrossSections :=
  let one (t : Ten ℝ) : ℝ := t.get (Spec.dropUnit [1, K] [0, k])
  let mp (t : Ten ℝ) : List ℝ × List ℝ :=
    ((List.range n).map fun (j : ℕ) => t.get (Spec.dropUnit [2, n, 1, K] [0, j, 0, k]),
      (List.range n).map fun (j : ℕ) => t.get (Spec.dropUnit [2, n, 1, K] [1, j, 0, k]))
  { csGeo := one c.csGeo
    qExt := one c.qExt
    qSca := one c.qSca
    qAbs := one c.qAbs
    csExt := one c.csExt
    csSca := one c.csSca
    csAbs := one c.csAbs
    qExtMp := mp c.qExtMp
    qScaMp := mp c.qScaMp
    qAbsMp := mp c.qAbsMp
    csExtMp := mp c.csExtMp
    csScaMp := mp c.csScaMp
    csAbsMp := mp c.csAbsMp }

/-- Values at the `k`-th of `K` wavenumbers and the `t`-th of `nt` angles in the dictionary of
`Particle.get_angular_scattering`. -/
def AngularT.at (K nt k t : ℕ) (c : AngularT) : Angular :=
  let idx := Spec.dropUnit [1, K, nt] [0, k, t]
  { S1 := c.S1.get idx, S2 := c.S2.get idx, iPer := c.iPer.get idx, iPar := c.iPar.get idx, iUnpol := c.iUnpol.get idx
    polDegree := c.polDegree.get idx }

/-- Order and coefficients `a_n`, `b_n` at the `k`-th of `K` wavenumbers in the dictionary of `Particle.get_mie_coefficients`. -/
def ParticleCoeffs.at (K k : ℕ) (c : ParticleCoeffs) : ℤ × List ℂ × List ℂ :=
  (c.nMax, (List.range c.nMax.toNat).map fun (j : ℕ) => c.a.get (Spec.dropUnit [c.nMax.toNat, 1, K] [j, 0, k]),
    (List.range c.nMax.toNat).map fun (j : ℕ) => c.bn.get (Spec.dropUnit [c.nMax.toNat, 1, K] [j, 0, k]))

theorem CrossT.Shaped.at {n K k : ℕ} {c : CrossT} (h : c.Shaped n 1 K) (hk : k < K) : c.squeeze.at n K k = c.entry n 0 k := by
  have h3 : c.csGeo.squeeze.get (Spec.dropUnit [1, K] [0, k]) = c.csGeo.get [0, 0, k] := by
    rw [← c.csGeo.squeeze_get (idx := [0, 0, k]) (by rw [h.csGeo]; simp [hk]), h.csGeo]
    rfl
  have h1 : ∀ t : Ten ℝ, t.shape = [1, K] → t.squeeze.get (Spec.dropUnit [1, K] [0, k]) = t.get [0, k] := fun t ht => by
    rw [← t.squeeze_get (idx := [0, k]) (by rw [ht]; simp [hk]), ht]
  have h2 : ∀ t : Ten ℝ, t.shape = [2, n, 1, K] → ∀ i < 2, (List.range n).map (fun (j : ℕ) => t.squeeze.get (Spec.dropUnit [2, n, 1, K] [i, j, 0, k]))
      = (List.range n).map fun (j : ℕ) => t.get [i, j, 0, k] := fun t ht i hi => List.map_congr_left fun j hj => by
    rw [← t.squeeze_get (idx := [i, j, 0, k]) (by rw [ht]; simpa [hk, hi] using hj), ht]
  unfold CrossT.at CrossT.entry CrossT.squeeze
  simp only [h3, h1 _ h.qExt, h1 _ h.qSca, h1 _ h.qAbs, h1 _ h.csExt, h1 _ h.csSca, h1 _ h.csAbs,
    h2 _ h.qExtMp 0 (by norm_num), h2 _ h.qScaMp 0 (by norm_num), h2 _ h.qAbsMp 0 (by norm_num), h2 _ h.csExtMp 0 (by norm_num),
    h2 _ h.csScaMp 0 (by norm_num), h2 _ h.csAbsMp 0 (by norm_num), h2 _ h.qExtMp 1 (by norm_num), h2 _ h.qScaMp 1 (by norm_num),
    h2 _ h.qAbsMp 1 (by norm_num), h2 _ h.csExtMp 1 (by norm_num), h2 _ h.csScaMp 1 (by norm_num), h2 _ h.csAbsMp 1 (by norm_num)]

theorem AngularT.Shaped.at {nt K k t : ℕ} {c : AngularT} (h : c.Shaped 1 K nt) (hk : k < K) (ht : t < nt) :
    c.squeeze.at K nt k t = c.entry 0 k t := by
  have h1 : ∀ {α : Type} (u : Ten α), u.shape = [1, K, nt] → u.squeeze.get (Spec.dropUnit [1, K, nt] [0, k, t]) = u.get [0, k, t] :=
    fun u hu => by rw [← u.squeeze_get (idx := [0, k, t]) (by rw [hu]; simp [hk, ht]), hu]
  unfold AngularT.at AngularT.entry AngularT.squeeze
  simp only [h1 _ h.S1, h1 _ h.S2, h1 _ h.iPer, h1 _ h.iPar, h1 _ h.iUnpol, h1 _ h.polDegree]

theorem BatchOut.WF.at {o : BatchOut} {K k : ℕ} (h : o.WF) (hP : o.b.nPart = 1) (hK : o.b.nK = K) (hk : k < K) :
    (⟨o.nMax, o.a.squeeze, o.bn.squeeze⟩ : ParticleCoeffs).at K k = (o.nMax, (o.entry 0 k).a, (o.entry 0 k).b) := by
  have h1 : ∀ t : Ten ℂ, t.shape = [o.nMax.toNat, o.b.nPart, o.b.nK] →
      (List.range o.nMax.toNat).map (fun (j : ℕ) => t.squeeze.get (Spec.dropUnit [o.nMax.toNat, 1, K] [j, 0, k]))
      = (List.range o.nMax.toNat).map fun (j : ℕ) => t.get [j, 0, k] := fun t ht => List.map_congr_left fun j hj => by
    rw [← t.squeeze_get (idx := [j, 0, k]) (by rw [ht, hP, hK]; simpa [hk] using hj), ht, hP, hK]
  unfold ParticleCoeffs.at BatchOut.entry
  simp only [h1 _ h.a, h1 _ h.bn]

section
variable {C : Casts} {before : List WOp} {a : ParticleArgs} {after : List WOp} {k0 : DTen ℝ} {K : ℕ} {Q : ℕ → Particle1}

/-- The particle made by the constructor call of a program, at the end. -/
noncomputable def particleAfter (C : Casts) (before : List WOp) (a : ParticleArgs) (after : List WOp) : Option Particle :=
  (worldAfter C before a after).parts[((⟨[], []⟩ : World).run C before).parts.length]?

theorem radii_increasing {R : Spec.Reading} {r : Ten ℝ} {l : List ℝ} (hP : R.nPart = 1) (hL : R.nLayers = l.length)
    (h : ∀ i < R.nLayers, l[i]? = some (r.get (R.r 0 i))) :
    Increasing R r ↔ ∀ i x y, l[i]? = some x → l[i + 1]? = some y → x < y := by
  constructor
  · intro hi i x y hx hy
    have h1 : i + 1 < R.nLayers := by rw [hL]; exact (List.getElem?_eq_some_iff.mp hy).1
    have := hi 0 (by omega) i h1
    rw [h i (by omega)] at hx
    rw [h (i + 1) h1] at hy
    cases hx
    cases hy
    exact this
  · intro hi p hp i hl
    obtain rfl : p = 0 := by omega
    exact hi i _ _ (h i (by omega)) (h (i + 1) hl)

theorem penaB_eq (A : BackendsOf ArrFns) (args : LayerArgs) (w : String) (n : Option ℤ) :
    (∀ ri, mieCoefficientsB A args "pena" w n ri = (mieCoefficientsT args n ri).map fun o => (o, none)) ∧
    crossSectionsB A args "pena" w n = crossSectionsT args n ∧
    ∀ theta, angularB A args theta "pena" w n = angularT args theta n := by
  have h1 : ∀ ri, mieCoefficientsB A args "pena" w n ri = (mieCoefficientsT args n ri).map fun o => (o, none) := by
    intro ri
    have h : "pena".toLower = "pena" := by decide +kernel
    unfold mieCoefficientsB
    simp only [h]
    rw [if_neg (by simp), if_pos trivial]
    rcases mieCoefficientsT args n ri with e | o <;> rfl
  refine ⟨h1, ?_, fun theta => ?_⟩
  · unfold crossSectionsB crossSectionsT
    rw [h1]
    rcases mieCoefficientsT args n false with e | o <;> rfl
  · unfold angularB angularT
    rw [h1]
    rcases mieCoefficientsT args n false with e | o <;> rfl

/-- C58, backend `pena`: in any program without sharing, coefficients, cross sections and angular scattering of a particle with
increasing radii are, at every requested wavenumber (and angle), those of a single sphere with the given radii and the
permittivities its materials have at that vacuum wavelength. -/
theorem C58_pena (S : Scenario C before a after k0 K Q) (hinc : ∀ i x y, a.radii[i]? = some x → a.radii[i + 1]? = some y → x < y) :
    ∃ q, particleAfter C before a after = some q ∧ ∀ (A : BackendsOf ArrFns) (B : Backends) (w : String) (n : ℤ), ∀ k < K,
      Except.map (ParticleCoeffs.at K k) (q.mieCoefficientsWith A C k0 (worldAfter C before a after).heap "pena" w (some n))
        = (mieCoefficients codeD1 B (Q k) "pena" w (some n)).map (fun o => (o.nMax, o.a, o.b)) ∧
      Except.map (CrossT.at n.toNat K k) (q.crossSectionsWith A C k0 (worldAfter C before a after).heap "pena" w (some n))
        = crossSectionsOf codeD1 B (Q k) "pena" w (some n) ∧
      ∀ (theta : Ten ℝ) nt, theta.shape = [nt] → ∀ t < nt,
        Except.map (AngularT.at K nt k t) (q.angularWith A C k0 theta (worldAfter C before a after).heap "pena" w (some n))
          = angularOf codeD1 B (Q k) (theta.get [t]) "pena" w (some n) := by
  obtain ⟨q, args, r, e, R, hq, hargs, ha, hR, hP, hL, hKR, hr, hpart, -⟩ := S.args
  have hi := (radii_increasing hP hL hr).mpr hinc
  refine ⟨q, hq, fun A B w n k hk => ?_⟩
  obtain ⟨p1, p2, p3⟩ := penaB_eq A args w (some n)
  have hkR : k < R.nK := by omega
  have hp0 : 0 < R.nPart := by omega
  have inv : ∀ o, mieCoefficientsT args (some n) false = .ok o → o.WF ∧ o.b.nPart = 1 ∧ o.b.nK = K ∧ o.nMax = n := by
    intro o ho
    obtain ⟨r', e', ha', hb', hn, -, hwo⟩ := mieCoefficientsT_inv ho
    rw [ha] at ha'
    cases ha'
    obtain ⟨R', hR', -, -, hm⟩ := broadcast_inv hb'
    rw [hR] at hR'
    cases hR'
    exact ⟨hwo, hm.nPart.trans hP, hm.nK.trans hKR, (Except.ok.inj hn).symm⟩
  refine ⟨?_, ?_, fun theta nt ht t htt => ?_⟩
  · unfold Particle.mieCoefficientsWith
    rw [hargs, bind_ok, p1, ← hpart k hk, ← C26_coefficients ha hR hi hp0 hkR n false B w]
    rcases ho : mieCoefficientsT args (some n) false with er | o
    · rfl
    · obtain ⟨h1, h2, h3, h4⟩ := inv o ho
      simp only [Except.map]
      rw [h1.at h2 h3 hk]
      rfl
  · unfold Particle.crossSectionsWith
    rw [hargs, bind_ok, p2, ← hpart k hk, ← C26_cross_sections ha hR hi hp0 hkR n B w]
    unfold crossSectionsT
    rcases ho : mieCoefficientsT args (some n) false with er | o
    · rfl
    · obtain ⟨h1, h2, h3, h4⟩ := inv o ho
      obtain ⟨c, hc, hs, -⟩ := crossSectionsFromT_entry h1
      rw [h2, h3, h4] at hs
      rw [bind_ok, hc]
      simp only [Except.map]
      rw [hs.at hk]
  · unfold Particle.angularWith
    rw [hargs, bind_ok, p3, ← hpart k hk, ← C26_angular ha hR hi hp0 hkR theta ht htt n B w]
    unfold angularT
    rcases ho : mieCoefficientsT args (some n) false with er | o
    · rfl
    · obtain ⟨h1, h2, h3, h4⟩ := inv o ho
      obtain ⟨c, hc, hs, -⟩ := angularFromT_entry h1 theta ht
      rw [h2, h3] at hs
      rw [bind_ok, hc]
      simp only [Except.map]
      rw [hs.at hk htt]

/-- C58: if the radii of a multilayer particle do not increase (the constructor does not check this), all methods raise
`ValueError`. -/
theorem C58_radii (S : Scenario C before a after k0 K Q) {i : ℕ} {x y : ℝ} (hx : a.radii[i]? = some x) (hy : a.radii[i + 1]? = some y)
    (hxy : y ≤ x) :
    ∃ q, particleAfter C before a after = some q ∧ ∀ (A : BackendsOf ArrFns) (w : String) (n : Option ℤ),
      q.mieCoefficientsWith A C k0 (worldAfter C before a after).heap "pena" w n = .error .valueError ∧
      q.crossSectionsWith A C k0 (worldAfter C before a after).heap "pena" w n = .error .valueError ∧
      ∀ theta, q.angularWith A C k0 theta (worldAfter C before a after).heap "pena" w n = .error .valueError := by
  obtain ⟨q, args, r, e, R, hq, hargs, ha, hR, hP, hL, hKR, hr, hpart, -⟩ := S.args
  refine ⟨q, hq, fun A w n => ?_⟩
  obtain ⟨p1, p2, p3⟩ := penaB_eq A args w n
  have h1 : i + 1 < R.nLayers := by rw [hL]; exact (List.getElem?_eq_some_iff.mp hy).1
  rw [hr i (by omega)] at hx
  rw [hr (i + 1) h1] at hy
  cases hx
  cases hy
  obtain ⟨g1, g2, g3⟩ := C29_increasing ha (reading_some hR).2.1 (p := 0) (by omega) h1 hxy n false
  refine ⟨?_, ?_, fun theta => ?_⟩
  · unfold Particle.mieCoefficientsWith
    rw [hargs, bind_ok, p1, g1]; rfl
  · unfold Particle.crossSectionsWith
    rw [hargs, bind_ok, p2, g2]; rfl
  · unfold Particle.angularWith
    rw [hargs, bind_ok, p3, g3]; rfl

/-- C58: without `n_max` the order is chosen from the described particle at all wavenumbers. -/
theorem C58_auto (S : Scenario C before a after k0 K Q) (hinc : ∀ i x y, a.radii[i]? = some x → a.radii[i + 1]? = some y → x < y) :
    ∃ q, particleAfter C before a after = some q ∧ ∀ (A : BackendsOf ArrFns) (w : String),
      q.mieCoefficientsWith A C k0 (worldAfter C before a after).heap "pena" w none
        = (penaNmax ((List.range K).map fun k => (Q k).trunc) >>= fun n =>
          q.mieCoefficientsWith A C k0 (worldAfter C before a after).heap "pena" w (some n)) ∧
      q.crossSectionsWith A C k0 (worldAfter C before a after).heap "pena" w none
        = (penaNmax ((List.range K).map fun k => (Q k).trunc) >>= fun n =>
          q.crossSectionsWith A C k0 (worldAfter C before a after).heap "pena" w (some n)) ∧
      ∀ theta, q.angularWith A C k0 theta (worldAfter C before a after).heap "pena" w none
        = (penaNmax ((List.range K).map fun k => (Q k).trunc) >>= fun n =>
          q.angularWith A C k0 theta (worldAfter C before a after).heap "pena" w (some n)) := by
  obtain ⟨q, args, r, e, R, hq, hargs, ha, hR, hP, hL, hKR, hr, hpart, -⟩ := S.args
  have hi := (radii_increasing hP hL hr).mpr hinc
  have hL1 : 0 < R.nLayers := hL ▸ S.layers
  have hT := (C26_auto ha hR hi hL1 false).1
  rw [hP, hKR] at hT
  have hl : ((List.range 1).flatMap fun p => (List.range K).map fun k => (args.particle R r e p k).trunc)
      = (List.range K).map fun k => (Q k).trunc := by
    rw [List.range_one, List.flatMap_singleton]
    exact List.map_congr_left fun k hk => by rw [hpart k (by simpa using hk)]
  rw [hl] at hT
  refine ⟨q, hq, fun A w => ⟨?_, ?_, fun theta => ?_⟩⟩
  · unfold Particle.mieCoefficientsWith
    rw [hargs]
    simp only [bind_ok, (penaB_eq A args w _).1, hT]
    rcases penaNmax ((List.range K).map fun k => (Q k).trunc) with er | n <;> rfl
  · unfold Particle.crossSectionsWith
    rw [hargs]
    simp only [bind_ok, (penaB_eq A args w _).2.1]
    unfold crossSectionsT
    rw [hT]
    rcases penaNmax ((List.range K).map fun k => (Q k).trunc) with er | n <;> rfl
  · unfold Particle.angularWith
    rw [hargs]
    simp only [bind_ok, (penaB_eq A args w _).2.2]
    unfold angularT
    rw [hT]
    rcases penaNmax ((List.range K).map fun k => (Q k).trunc) with er | n <;> rfl

theorem sameDepth_congr {rule : ℝ → ℤ} {P K : ℕ} {Q Q' : ℕ → ℕ → Particle1} (h : ∀ p < P, ∀ k < K, Q p k = Q' p k) {p k : ℕ} (hp : p < P)
    (hk : k < K) (hs : SameDepth rule P K Q p k) : SameDepth rule P K Q' p k := by
  intro i hi M hM
  rw [← batchArgs_congr h] at hM
  rw [← h p hp k hk]
  exact hs i hi M hM

/-- The three methods from one evaluation of the coefficients. -/
theorem particle_obs {q : Particle} {h : Heap} {args : LayerArgs} {r : Ten ℝ} {e : Ten ℂ} {R : Spec.Reading}
    (hargs : (q.layerArgs C k0 h).1 = .ok args) (ha : asLayerInputs args = .ok (r, e))
    (hR : Spec.reading args.k0.shape r.shape e.shape args.epsEnv.shape = some R) (hi : Increasing R r) (hP : R.nPart = 1) (hKR : R.nK = K)
    (hl : R.nLayers = 1 ∨ R.nLayers = 2) (hpart : ∀ k < K, args.particle R r e 0 k = Q k)
    {n : ℕ} (hn : 1 ≤ n) {backend w : String} (hb : backend.toLower = "torch" ∨ backend.toLower = "scipy") {A : BackendsOf ArrFns}
    {o : BatchOut} {io : Option (Ten CoreShellOut)} (ho : mieCoefficientsB A args backend w (some n) false = .ok (o, io))
    (theta : Ten ℝ) {nt : ℕ} (ht : theta.shape = [nt]) (D : D1Kernel) (B : Backends) :
    ∃ m c s, q.mieCoefficientsWith A C k0 h backend w (some n) = .ok m ∧ q.crossSectionsWith A C k0 h backend w (some n) = .ok c ∧
      q.angularWith A C k0 theta h backend w (some n) = .ok s ∧ ∀ k < K, mieCoefficients D B (Q k) backend w (some n) = .ok (o.entry 0 k) →
        (mieCoefficients D B (Q k) backend w (some n)).map (fun o => (o.nMax, o.a, o.b)) = .ok (m.at K k) ∧
        crossSectionsOf D B (Q k) backend w (some n) = .ok (c.at n K k) ∧
        ∀ t < nt, angularOf D B (Q k) (theta.get [t]) backend w (some n) = .ok (s.at K nt k t) := by
  obtain ⟨c, s, hc, hs, hobs⟩ := C57_observables ha hR hi hl hn hb ho theta ht
  obtain ⟨b, hbr, hwf, hm⟩ := broadcast_ok hR hi
  obtain ⟨run⟩ := mieCoefficientsB_inv ha hbr hwf (by rw [hm.nLayers]; omega) (by rw [hm.nLayers]; omega) hb ho
  have hno : o.nMax = n := (Except.ok.inj run.order).symm
  obtain ⟨hW, hob⟩ := run.WF hwf (by omega)
  have h2 : o.b.nPart = 1 := by rw [hob, hm.nPart, hP]
  have h3 : o.b.nK = K := by rw [hob, hm.nK, hKR]
  have hcs : c.Shaped n 1 K := by
    obtain ⟨c', hc', hs', -⟩ := crossSectionsFromT_entry hW
    rw [h2, h3, hno] at hs'
    unfold crossSectionsB at hc
    rw [ho, bind_ok, hc'] at hc
    cases hc
    simpa using hs'
  have hss : s.Shaped 1 K nt := by
    obtain ⟨c', hc', hs', -⟩ := angularFromT_entry hW theta ht
    rw [h2, h3] at hs'
    unfold angularB at hs
    rw [ho, bind_ok, hc'] at hs
    cases hs
    exact hs'
  refine ⟨_, _, _, by unfold Particle.mieCoefficientsWith; rw [hargs, bind_ok, ho]; rfl,
    by unfold Particle.crossSectionsWith; rw [hargs, bind_ok, hc]; rfl,
    by unfold Particle.angularWith; rw [hargs, bind_ok, hs]; rfl, fun k hk he => ?_⟩
  have he' := he
  rw [← hpart k hk] at he'
  obtain ⟨g1, g2⟩ := hobs D B 0 (by omega) k (by omega) he'
  rw [hpart k hk] at g1
  refine ⟨?_, by rw [hcs.at hk]; exact g1, fun t htt => by rw [hss.at hk htt, ← hpart k hk]; exact g2 t htt⟩
  rw [he, hW.at h2 h3 hk]
  rfl

theorem io_none {args : LayerArgs} {r : Ten ℝ} {e : Ten ℂ} {R : Spec.Reading} (ha : asLayerInputs args = .ok (r, e))
    (hR : Spec.reading args.k0.shape r.shape e.shape args.epsEnv.shape = some R) (hi : Increasing R r)
    (hl : R.nLayers = 1 ∨ R.nLayers = 2) {n : ℕ} {backend w : String} (hb : backend.toLower = "torch" ∨ backend.toLower = "scipy")
    {A : BackendsOf ArrFns} {o : BatchOut} {io : Option (Ten CoreShellOut)}
    (ho : mieCoefficientsB A args backend w (some n) false = .ok (o, io)) : io = none := by
  obtain ⟨b, hbr, hwf, hm⟩ := broadcast_ok hR hi
  obtain ⟨run⟩ := mieCoefficientsB_inv ha hbr hwf (by rw [hm.nLayers]; omega) (by rw [hm.nLayers]; omega) hb ho
  simpa using run.int

/-- C58, torch backend with the downward recurrence, for one or two layers: the methods never raise, and their values at a wavenumber
where the recurrence depth is the particle's own (always for a single wavenumber) are those of the described sphere. -/
theorem C58_torch (S : Scenario C before a after k0 K Q) (hinc : ∀ i x y, a.radii[i]? = some x → a.radii[i + 1]? = some y → x < y)
    (hl : a.radii.length ≤ 2) {backend w : String} (hb : backend.toLower = "torch") (hw : w.toLower = "recurrence") (sp : BesselBackend)
    (D : D1Kernel) {n : ℕ} (hn : 1 ≤ n) (theta : Ten ℝ) {nt : ℕ} (ht : theta.shape = [nt]) :
    ∃ q m c s, particleAfter C before a after = some q ∧
      q.mieCoefficientsWith (codeArr sp) C k0 (worldAfter C before a after).heap backend w (some n) = .ok m ∧
      q.crossSectionsWith (codeArr sp) C k0 (worldAfter C before a after).heap backend w (some n) = .ok c ∧
      q.angularWith (codeArr sp) C k0 theta (worldAfter C before a after).heap backend w (some n) = .ok s ∧
      ∀ k < K, (K = 1 ∨ SameDepth recDepth 1 K (fun _ => Q) 0 k) →
        (mieCoefficients D (codeBackends sp) (Q k) backend w (some n)).map (fun o => (o.nMax, o.a, o.b)) = .ok (m.at K k) ∧
        crossSectionsOf D (codeBackends sp) (Q k) backend w (some n) = .ok (c.at n K k) ∧
        ∀ t < nt, angularOf D (codeBackends sp) (Q k) (theta.get [t]) backend w (some n) = .ok (s.at K nt k t) := by
  obtain ⟨q, args, r, e, R, hq, hargs, ha, hR, hP, hL, hKR, hr, hpart, -⟩ := S.args
  have hi := (radii_increasing hP hL hr).mpr hinc
  have hL1 : 0 < R.nLayers := hL ▸ S.layers
  have hK1 := S.one
  have hl' : R.nLayers = 1 ∨ R.nLayers = 2 := by omega
  obtain ⟨o, io, ho, hno, hent⟩ := C57_recurrence ha hR hi hl' (by omega) (by omega) hn false hb hw sp D
  obtain ⟨m, c, s, h1, h2, h3, h4⟩ := particle_obs hargs ha hR hi hP hKR hl' hpart hn (.inl hb) ho theta ht D (codeBackends sp)
  refine ⟨q, m, c, s, hq, h1, h2, h3, fun k hk hd => h4 k hk ?_⟩
  have hsd : SameDepth recDepth R.nPart R.nK (args.particle R r e) 0 k := by
    rw [hP, hKR]
    refine sameDepth_congr (Q := fun _ => Q) (fun p hp k hk => ?_) (by omega) hk ?_
    · obtain rfl : p = 0 := by omega
      exact (hpart k hk).symm
    · rcases hd with rfl | hd
      · obtain rfl : k = 0 := by omega
        exact C57_one_entry _ _
      · exact hd
  have hio : io = none := io_none ha hR hi hl' (.inl hb) ho
  have := hent 0 (by omega) k (by omega) hsd
  rw [hpart k hk, hio] at this
  exact this

/-- C58, torch backend with the continued fraction, for one or two layers: `RuntimeError` if an argument of the special functions is
below `1e-8` at some wavenumber; otherwise as with the recurrence. -/
theorem C58_torch_ratio (S : Scenario C before a after k0 K Q)
    (hinc : ∀ i x y, a.radii[i]? = some x → a.radii[i + 1]? = some y → x < y)
    (hl : a.radii.length ≤ 2) {backend w : String} (hb : backend.toLower = "torch") (hw : w.toLower ≠ "recurrence") (sp : BesselBackend)
    (D : D1Kernel) {n : ℕ} (hn : 1 ≤ n) (theta : Ten ℝ) {nt : ℕ} (ht : theta.shape = [nt]) :
    ∃ q, particleAfter C before a after = some q ∧
      ((∃ k < K, ∃ z ∈ (Q k).args4, ‖z‖ < 1e-8) →
        q.mieCoefficientsWith (codeArr sp) C k0 (worldAfter C before a after).heap backend w (some n) = .error .runtimeError ∧
        q.crossSectionsWith (codeArr sp) C k0 (worldAfter C before a after).heap backend w (some n) = .error .runtimeError ∧
        q.angularWith (codeArr sp) C k0 theta (worldAfter C before a after).heap backend w (some n) = .error .runtimeError) ∧
      ((∀ k < K, ∀ z ∈ (Q k).args4, 1e-8 ≤ ‖z‖) → ∃ m c s,
        q.mieCoefficientsWith (codeArr sp) C k0 (worldAfter C before a after).heap backend w (some n) = .ok m ∧
        q.crossSectionsWith (codeArr sp) C k0 (worldAfter C before a after).heap backend w (some n) = .ok c ∧
        q.angularWith (codeArr sp) C k0 theta (worldAfter C before a after).heap backend w (some n) = .ok s ∧
        ∀ k < K, (K = 1 ∨ SameDepth ratioDepth 1 K (fun _ => Q) 0 k) →
          (mieCoefficients D (codeBackends sp) (Q k) backend w (some n)).map (fun o => (o.nMax, o.a, o.b)) = .ok (m.at K k) ∧
          crossSectionsOf D (codeBackends sp) (Q k) backend w (some n) = .ok (c.at n K k) ∧
          ∀ t < nt, angularOf D (codeBackends sp) (Q k) (theta.get [t]) backend w (some n) = .ok (s.at K nt k t)) := by
  obtain ⟨q, args, r, e, R, hq, hargs, ha, hR, hP, hL, hKR, hr, hpart, -⟩ := S.args
  have hi := (radii_increasing hP hL hr).mpr hinc
  have hL1 : 0 < R.nLayers := hL ▸ S.layers
  have hK1 := S.one
  have hl' : R.nLayers = 1 ∨ R.nLayers = 2 := by omega
  obtain ⟨g1, g2⟩ := C57_ratio ha hR hi hl' (by omega) (by omega) hn false hb hw sp D
  refine ⟨q, hq, ?_, ?_⟩
  · rintro ⟨k, hk, z, hz, hz'⟩
    have := g1 ⟨0, by omega, k, by omega, z, by rw [hpart k hk]; exact hz, hz'⟩
    refine ⟨?_, ?_, ?_⟩
    · unfold Particle.mieCoefficientsWith; rw [hargs, bind_ok, this]; rfl
    · unfold Particle.crossSectionsWith crossSectionsB; rw [hargs, bind_ok, this]; rfl
    · unfold Particle.angularWith angularB; rw [hargs, bind_ok, this]; rfl
  · intro hz
    obtain ⟨o, io, ho, hno, hent⟩ := g2 fun p hp k hk z hz' => by
      obtain rfl : p = 0 := by omega
      exact hz k (by omega) z (by rw [← hpart k (by omega)]; exact hz')
    obtain ⟨m, c, s, h1, h2, h3, h4⟩ := particle_obs hargs ha hR hi hP hKR hl' hpart hn (.inl hb) ho theta ht D (codeBackends sp)
    refine ⟨m, c, s, h1, h2, h3, fun k hk hd => h4 k hk ?_⟩
    have hsd : SameDepth ratioDepth R.nPart R.nK (args.particle R r e) 0 k := by
      rw [hP, hKR]
      refine sameDepth_congr (Q := fun _ => Q) (fun p hp k hk => ?_) (by omega) hk ?_
      · obtain rfl : p = 0 := by omega
        exact (hpart k hk).symm
      · rcases hd with rfl | hd
        · obtain rfl : k = 0 := by omega
          exact C57_one_entry _ _
        · exact hd
    have := hent 0 (by omega) k (by omega) hsd
    rw [hpart k hk, io_none ha hR hi hl' (.inl hb) ho] at this
    exact this

/-- C58, scipy backend, for one or two layers: if the single evaluations at all wavenumbers succeed, so do the methods, with their
values. -/
theorem C58_scipy (S : Scenario C before a after k0 K Q) (hinc : ∀ i x y, a.radii[i]? = some x → a.radii[i + 1]? = some y → x < y)
    (hl : a.radii.length ≤ 2) {backend : String} (w : String) (hb : backend.toLower = "scipy") {sp : BesselBackend}
    (hsp : ∀ (n : ℕ) z l, sp.jn n z = .ok l → l.length = n + 1) (hneg : ∀ n < 0, ∀ z l, sp.jn n z ≠ .ok l)
    (D : D1Kernel) {n : ℕ} (hn : 1 ≤ n) (theta : Ten ℝ) {nt : ℕ} (ht : theta.shape = [nt])
    (hQ : ∀ k < K, ∃ o, mieCoefficients D (codeBackends sp) (Q k) backend w (some n) = .ok o) :
    ∃ q m c s, particleAfter C before a after = some q ∧
      q.mieCoefficientsWith (codeArr sp) C k0 (worldAfter C before a after).heap backend w (some n) = .ok m ∧
      q.crossSectionsWith (codeArr sp) C k0 (worldAfter C before a after).heap backend w (some n) = .ok c ∧
      q.angularWith (codeArr sp) C k0 theta (worldAfter C before a after).heap backend w (some n) = .ok s ∧
      ∀ k < K,
        (mieCoefficients D (codeBackends sp) (Q k) backend w (some n)).map (fun o => (o.nMax, o.a, o.b)) = .ok (m.at K k) ∧
        crossSectionsOf D (codeBackends sp) (Q k) backend w (some n) = .ok (c.at n K k) ∧
        ∀ t < nt, angularOf D (codeBackends sp) (Q k) (theta.get [t]) backend w (some n) = .ok (s.at K nt k t) := by
  obtain ⟨q, args, r, e, R, hq, hargs, ha, hR, hP, hL, hKR, hr, hpart, -⟩ := S.args
  have hi := (radii_increasing hP hL hr).mpr hinc
  have hL1 : 0 < R.nLayers := hL ▸ S.layers
  have hl' : R.nLayers = 1 ∨ R.nLayers = 2 := by omega
  obtain ⟨g1, g2⟩ := C57_scipy ha hR hi hl' (n := n) false w hb hsp hneg D
  obtain ⟨⟨o, io⟩, ho⟩ := g1.mpr fun p hp k hk => by
    obtain rfl : p = 0 := by omega
    rw [hpart k (by omega)]
    exact hQ k (by omega)
  obtain ⟨m, c, s, h1, h2, h3, h4⟩ := particle_obs hargs ha hR hi hP hKR hl' hpart hn (.inr hb) ho theta ht D (codeBackends sp)
  refine ⟨q, m, c, s, hq, h1, h2, h3, fun k hk => h4 k hk ?_⟩
  have := g2 o io ho 0 (by omega) k (by omega)
  rw [hpart k hk, io_none ha hR hi hl' (.inr hb) ho] at this
  exact this

/-- C58: more than two layers are refused by the torch and scipy backends. -/
theorem C58_layers (S : Scenario C before a after k0 K Q) (hinc : ∀ i x y, a.radii[i]? = some x → a.radii[i + 1]? = some y → x < y)
    (hl : 2 < a.radii.length) {backend : String} (w : String) (hb : backend.toLower = "torch" ∨ backend.toLower = "scipy")
    (A : BackendsOf ArrFns) (n : ℕ) :
    ∃ q, particleAfter C before a after = some q ∧
      q.mieCoefficientsWith A C k0 (worldAfter C before a after).heap backend w (some n) = .error .valueError ∧
      q.crossSectionsWith A C k0 (worldAfter C before a after).heap backend w (some n) = .error .valueError ∧
      ∀ theta, q.angularWith A C k0 theta (worldAfter C before a after).heap backend w (some n) = .error .valueError := by
  obtain ⟨q, args, r, e, R, hq, hargs, ha, hR, hP, hL, hKR, hr, hpart, -⟩ := S.args
  have hi := (radii_increasing hP hL hr).mpr hinc
  have := C57_layers ha hR hi (by omega) (n := n) w hb A false
  refine ⟨q, hq, ?_, ?_, fun theta => ?_⟩
  · unfold Particle.mieCoefficientsWith; rw [hargs, bind_ok, this]; rfl
  · unfold Particle.crossSectionsWith crossSectionsB; rw [hargs, bind_ok, this]; rfl
  · unfold Particle.angularWith angularB; rw [hargs, bind_ok, this]; rfl

/-- C58: the permittivities handed to the solver depend on every differentiable number in a constant material (a tensor index, or a
`MatConstant` with a tensor), whatever the number of wavenumbers. -/
theorem C58_gradient (S : Scenario C before a after k0 K Q) :
    ∃ q e, particleAfter C before a after = some q ∧ (q.permittivities C k0 (worldAfter C before a after).heap).1 = .ok e ∧
      (∀ x ls, Spec.materialOf C ((⟨[], []⟩ : World).run C before).heap a.matEnv = some (.const x ls) → e.2.leaves = ls) ∧
      (a.epsLayers = none → ∀ m ∈ Spec.layerMats a, ∀ x ls,
        Spec.materialOf C ((⟨[], []⟩ : World).run C before).heap m = some (.const x ls) → ∀ l ∈ ls, l ∈ e.1.leaves) := by
  obtain ⟨q, args, r, e, R, hq, -, -, -, -, -, -, -, -, t, h⟩ := S.args
  exact ⟨q, t, hq, h⟩

end

/-! ### Example -/

/-- A glass core (Sellmeier model, object 0) with a shell of differentiable index 2, made on the CPU, moved, asked at the
wavelengths 500 and 600 nm. -/
noncomputable def demoArgs : ParticleArgs where
  rLayers := some (Ten.ofList 0 [50, 80])
  matLayers := some [.obj 0, .tensor (Ten.scalar 2) [7]]

noncomputable def demoK0 : DTen ℝ := ⟨⟨[2], fun idx => 2 * Real.pi / (500 + 100 * (idx.headD 0 : ℕ))⟩, "cpu", []⟩

noncomputable def demoQ (k : ℕ) : Particle1 where
  k0 := ((2 * Real.pi / (500 + 100 * (k : ℕ)) : ℝ) : ℂ)
  rLayers := [50, 80]
  epsLayers := [((Spec.sellmeier 0 [(1.1, 0.1)] ((500 + 100 * k) / 1000) : ℝ) : ℂ), 2 ^ 2]
  epsEnv := 1 ^ 2

theorem demoScenario : Scenario ⟨id, id⟩ [.newDb (.formula 1 [0, 1.1, 0.1]) "cpu"] demoArgs [.setDevice 0 "cuda:0", .query 0 demoK0]
    demoK0 2 demoQ where
  unshared := by
    refine ⟨by simp, ?_, by simp, by simp, trivial⟩
    intro a _ id _ p hp
    simp [World.step] at hp
  accepted := by
    refine ⟨.inl ⟨_, 2, rfl, rfl, by norm_num, .inr ⟨_, rfl, rfl, rfl, ?_⟩, rfl, rfl, rfl, rfl⟩, trivial⟩
    intro m hm
    simp only [List.mem_cons, List.not_mem_nil, or_false] at hm
    rcases hm with rfl | rfl
    · trivial
    · rfl
  exist := by
    intro m hm
    simp only [demoArgs, ParticleArgs.allMats, Option.getD_some, Option.toList_none, List.append_nil, List.cons_append,
      List.nil_append, List.mem_cons, List.not_mem_nil, or_false] at hm
    rcases hm with rfl | rfl | rfl
    · simp [MatArg.Exists, World.run, World.step]
    · trivial
    · trivial
  one := by norm_num
  ix := by
    refine ⟨fun k => [k], rfl, ?_, ?_, ?_, ?_, ?_⟩
    · intro k _
      simp [demoQ, demoK0]
    · intro k _
      simp [demoQ, demoArgs, ParticleArgs.radii, Ten.ofList, Ten.numel, List.range_succ]
    · intro k _
      exact ⟨_, rfl, rfl⟩
    · intro e he
      cases he
    · intro _ k _
      have hwl : 2 * Real.pi / demoK0.ten.get [k] = 500 + 100 * k := by
        have h1 : (500 + 100 * (k : ℝ)) ≠ 0 := by positivity
        have h2 := Real.pi_ne_zero
        simp only [demoK0, List.headD_cons]
        field_simp
      rw [hwl]
      refine .cons ⟨.disp (.formula 1 [0, 1.1, 0.1]), rfl, ?_⟩ (.cons ⟨.const (2 ^ 2) [7], ?_, rfl⟩ .nil)
      · have := C37_sellmeier 0 [(1.1, 0.1)] (500 + 100 * k) (by
          intro p hp
          simp only [List.mem_singleton] at hp
          subst hp
          have : (0 : ℝ) ≤ k := Nat.cast_nonneg k
          nlinarith [this])
        simp only [List.flatMap_cons, List.flatMap_nil, List.append_nil] at this
        simp only [Spec.Material.at, id, this]
        rfl
      · simp [Spec.materialOf, Ten.scalar]

/-- The radii of the demonstration increase. -/
theorem demoArgs_increasing : ∀ i x y, demoArgs.radii[i]? = some x → demoArgs.radii[i + 1]? = some y → x < y := by
  intro i x y hx hy
  simp only [demoArgs, ParticleArgs.radii, Ten.ofList, Ten.numel, List.length_cons, List.length_nil,
    List.prod_cons, List.prod_nil] at hx hy
  rcases i with _ | i
  · simp [List.range_succ] at hx hy
    subst hx hy
    norm_num
  · simp [List.range_succ] at hy

theorem demoArgs_layers : demoArgs.radii.length = 2 := rfl

example : ∃ q, particleAfter ⟨id, id⟩ [.newDb (.formula 1 [0, 1.1, 0.1]) "cpu"] demoArgs [.setDevice 0 "cuda:0", .query 0 demoK0] = some q ∧
    ∀ (A : BackendsOf ArrFns) (B : Backends), ∀ k < 2,
      Except.map (CrossT.at 3 2 k) (q.crossSectionsWith A ⟨id, id⟩ demoK0 (worldAfter ⟨id, id⟩ [.newDb (.formula 1 [0, 1.1, 0.1]) "cpu"]
        demoArgs [.setDevice 0 "cuda:0", .query 0 demoK0]).heap "pena" "recurrence" (some 3))
        = crossSectionsOf codeD1 B (demoQ k) "pena" "recurrence" (some 3) := by
  obtain ⟨q, hq, h⟩ := C58_pena demoScenario demoArgs_increasing
  exact ⟨q, hq, fun A B k hk => (h A B "recurrence" 3 k hk).2.1⟩

/-- The same particle, the truncation left to the program. -/
example : ∃ q, particleAfter ⟨id, id⟩ [.newDb (.formula 1 [0, 1.1, 0.1]) "cpu"] demoArgs [.setDevice 0 "cuda:0", .query 0 demoK0] = some q ∧
    ∀ A : BackendsOf ArrFns,
      q.crossSectionsWith A ⟨id, id⟩ demoK0 (worldAfter ⟨id, id⟩ [.newDb (.formula 1 [0, 1.1, 0.1]) "cpu"] demoArgs
          [.setDevice 0 "cuda:0", .query 0 demoK0]).heap "pena" "recurrence" none
        = (penaNmax [(demoQ 0).trunc, (demoQ 1).trunc] >>= fun n =>
          q.crossSectionsWith A ⟨id, id⟩ demoK0 (worldAfter ⟨id, id⟩ [.newDb (.formula 1 [0, 1.1, 0.1]) "cpu"] demoArgs
            [.setDevice 0 "cuda:0", .query 0 demoK0]).heap "pena" "recurrence" (some n)) := by
  obtain ⟨q, hq, h⟩ := C58_auto demoScenario demoArgs_increasing
  exact ⟨q, hq, fun A => (h A "recurrence").2.1⟩

/-- The same particle with the `torch` backend: the call succeeds. -/
example (sp : BesselBackend) :
    ∃ q c, particleAfter ⟨id, id⟩ [.newDb (.formula 1 [0, 1.1, 0.1]) "cpu"] demoArgs [.setDevice 0 "cuda:0", .query 0 demoK0] = some q ∧
      q.crossSectionsWith (codeArr sp) ⟨id, id⟩ demoK0 (worldAfter ⟨id, id⟩ [.newDb (.formula 1 [0, 1.1, 0.1]) "cpu"] demoArgs
        [.setDevice 0 "cuda:0", .query 0 demoK0]).heap "torch" "recurrence" (some (3 : ℕ)) = .ok c := by
  obtain ⟨q, m, c, s, hq, -, hc, -⟩ := C58_torch demoScenario demoArgs_increasing demoArgs_layers.le (backend := "torch") (w := "recurrence")
    (by decide +kernel) (by decide +kernel) sp codeD1 (n := 3) (by norm_num) (Ten.ofList 0 [0, 1]) (nt := 2) rfl
  exact ⟨q, c, hq, hc⟩

/-- The index of the shell is differentiable: the permittivities depend on it. -/
example : ∃ q e, particleAfter ⟨id, id⟩ [.newDb (.formula 1 [0, 1.1, 0.1]) "cpu"] demoArgs [.setDevice 0 "cuda:0", .query 0 demoK0] = some q ∧
    (q.permittivities ⟨id, id⟩ demoK0 (worldAfter ⟨id, id⟩ [.newDb (.formula 1 [0, 1.1, 0.1]) "cpu"] demoArgs
      [.setDevice 0 "cuda:0", .query 0 demoK0]).heap).1 = .ok e ∧ 7 ∈ e.1.leaves := by
  obtain ⟨q, e, hq, he, -, h⟩ := C58_gradient demoScenario
  refine ⟨q, e, hq, he, h rfl (.tensor (Ten.scalar 2) [7]) ?_ (2 ^ 2) [7] rfl 7 (by simp)⟩
  simp [Spec.layerMats, demoArgs]

/-- Three layers of fixed indices, with the given radii. -/
noncomputable def threeArgs (x y z : ℝ) : ParticleArgs where
  rLayers := some (Ten.ofList 0 [x, y, z])
  matLayers := some [.num 2, .num 3, .num 1.5]
  matEnv := .num 1.33

noncomputable def threeQ (x y z : ℝ) (k : ℕ) : Particle1 where
  k0 := ((2 * Real.pi / (500 + 100 * (k : ℕ)) : ℝ) : ℂ)
  rLayers := [x, y, z]
  epsLayers := [2 ^ 2, 3 ^ 2, 1.5 ^ 2]
  epsEnv := 1.33 ^ 2

theorem threeScenario (x y z : ℝ) : Scenario ⟨id, id⟩ [] (threeArgs x y z) [] demoK0 2 (threeQ x y z) where
  unshared := by
    refine ⟨?_, trivial⟩
    simp
  accepted := by
    refine ⟨.inl ⟨_, 3, rfl, rfl, by norm_num, .inr ⟨_, rfl, rfl, rfl, ?_⟩, rfl, rfl, rfl, rfl⟩, trivial⟩
    intro m hm
    simp only [List.mem_cons, List.not_mem_nil, or_false] at hm
    rcases hm with rfl | rfl | rfl <;> trivial
  exist := by
    intro m hm
    simp only [threeArgs, ParticleArgs.allMats, Option.getD_some, Option.toList_none, List.append_nil, List.cons_append,
      List.nil_append, List.mem_cons, List.not_mem_nil, or_false] at hm
    rcases hm with rfl | rfl | rfl | rfl <;> trivial
  one := by norm_num
  ix := by
    refine ⟨fun k => [k], rfl, ?_, ?_, ?_, ?_, ?_⟩
    · intro k _
      simp [threeQ, demoK0]
    · intro k _
      simp [threeQ, threeArgs, ParticleArgs.radii, Ten.ofList, Ten.numel, List.range_succ]
    · intro k _
      exact ⟨_, rfl, rfl⟩
    · intro e he
      cases he
    · intro _ k _
      exact .cons ⟨_, rfl, rfl⟩ (.cons ⟨_, rfl, rfl⟩ (.cons ⟨_, rfl, rfl⟩ .nil))

/-- Radii out of order are refused. -/
example : ∃ q, particleAfter ⟨id, id⟩ [] (threeArgs 50 40 80) [] = some q ∧ ∀ A : BackendsOf ArrFns,
    q.crossSectionsWith A ⟨id, id⟩ demoK0 (worldAfter ⟨id, id⟩ [] (threeArgs 50 40 80) []).heap "pena" "recurrence" none
      = .error .valueError := by
  obtain ⟨q, hq, h⟩ := C58_radii (threeScenario 50 40 80) (i := 0) (x := 50) (y := 40)
    (by simp [threeArgs, ParticleArgs.radii, Ten.ofList, Ten.numel, List.range_succ])
    (by simp [threeArgs, ParticleArgs.radii, Ten.ofList, Ten.numel, List.range_succ]) (by norm_num)
  exact ⟨q, hq, fun A => (h A "recurrence" none).2.1⟩

/-- Three layers are refused by the core-shell backends. -/
example : ∃ q, particleAfter ⟨id, id⟩ [] (threeArgs 50 60 80) [] = some q ∧ ∀ A : BackendsOf ArrFns,
    q.crossSectionsWith A ⟨id, id⟩ demoK0 (worldAfter ⟨id, id⟩ [] (threeArgs 50 60 80) []).heap "scipy" "recurrence" (some (3 : ℕ))
      = .error .valueError := by
  have hinc : ∀ i x y, (threeArgs 50 60 80).radii[i]? = some x → (threeArgs 50 60 80).radii[i + 1]? = some y → x < y := by
    intro i x y hx hy
    rcases i with _ | _ | i <;>
      simp [threeArgs, ParticleArgs.radii, Ten.ofList, Ten.numel, List.range_succ] at hx hy
    · subst hx hy; norm_num
    · subst hx hy; norm_num
  have hl : 2 < (threeArgs 50 60 80).radii.length := by simp [threeArgs, ParticleArgs.radii, Ten.ofList, Ten.numel]
  have key := fun A => C58_layers (threeScenario 50 60 80) hinc hl (backend := "scipy") "recurrence" (.inr (by decide +kernel)) A 3
  obtain ⟨q, hq, -⟩ := key (codeArr exactBessel)
  refine ⟨q, hq, fun A => ?_⟩
  obtain ⟨q', hq', -, h, -⟩ := key A
  rw [hq] at hq'
  cases hq'
  exact h

end MieDiff
