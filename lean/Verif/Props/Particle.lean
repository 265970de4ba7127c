import Verif.Model.Particle
import Verif.Props.Materials

/-!
# C30–C32: construction of particles, devices, constant materials
-/

namespace MieDiff

/-! ## C30 -/

namespace Spec

/-- Acceptable materials: numbers, 0-dimensional tensors, material objects. -/
def AcceptedMat : MatArg → Prop
  | .num _ => True
  | .tensor t _ => t.shape = []
  | .obj _ => True
  | .other => False

/-- Documented multilayer form: radii `(L,)` with `L ≥ 1`, either permittivities or one material per layer, no legacy
argument. -/
def LayerForm (a : ParticleArgs) : Prop :=
  ∃ r L, a.rLayers = some r ∧ r.shape = [L] ∧ 1 ≤ L ∧
    ((∃ e, a.epsLayers = some e ∧ a.matLayers = none) ∨
      ∃ ms, a.epsLayers = none ∧ a.matLayers = some ms ∧ ms.length = L ∧ ∀ m ∈ ms, AcceptedMat m) ∧
    a.rCore = none ∧ a.matCore = none ∧ a.rShell = none ∧ a.matShell = none

/-- Documented legacy form: scalar core radius and core material, and both or none of shell radius and shell material,
the shell radius larger than the core radius; no multilayer argument. -/
def LegacyForm (a : ParticleArgs) : Prop :=
  a.rLayers = none ∧ a.epsLayers = none ∧ a.matLayers = none ∧
  ∃ rc mc, a.rCore = some rc ∧ a.matCore = some mc ∧ rc.shape = [] ∧ AcceptedMat mc ∧
    ((a.rShell = none ∧ a.matShell = none) ∨
      ∃ rs ms, a.rShell = some rs ∧ a.matShell = some ms ∧ rs.shape = [] ∧ AcceptedMat ms ∧ rc.get [] < rs.get [])

/-- Accepted argument combinations. -/
def Accepted (a : ParticleArgs) : Prop := (LayerForm a ∨ LegacyForm a) ∧ AcceptedMat a.matEnv

end Spec

/-- Object references point to existing objects. -/
def MatArg.Exists (h : Heap) : MatArg → Prop
  | .obj id => id < h.length
  | _ => True

/-- All material arguments of a call. -/
def ParticleArgs.allMats (a : ParticleArgs) : List MatArg :=
  a.matLayers.getD [] ++ a.matCore.toList ++ a.matShell.toList ++ [a.matEnv]

theorem MatArg.Exists.mono {h h' : Heap} (hl : h.length ≤ h'.length) {m : MatArg} (hm : m.Exists h) : m.Exists h' := by
  cases m <;> simp_all [MatArg.Exists]; omega

theorem asMaterial_num (C : Casts) (dev : Device) (n : ℂ) (h : Heap) :
    asMaterial C dev (.num n) h = (.ok h.length, h ++ [.const ⟨C.c64 (n ^ 2), dev, dev, []⟩]) := rfl

theorem asMaterial_obj (C : Casts) (dev : Device) (id : ℕ) (h : Heap) :
    asMaterial C dev (.obj id) h
      = if id < h.length then (.ok id, h.modify id fun o => o.setDevice dev) else (.error .attributeError, h) := rfl

theorem asMaterial_ten (C : Casts) (dev : Device) (t : Ten ℂ) (leaves : List ℕ) (h : Heap) (hs : t.shape = []) :
    asMaterial C dev (.tensor t leaves) h = (.ok h.length, h ++ [.const ⟨C.c64 (t.get [] ^ 2), dev, dev, leaves⟩]) := by
  simp [asMaterial, MatConst.ofTen, Ten.numel, Ten.map, hs]

/-- The three outcomes of a conversion. -/
theorem asMaterial_cases (C : Casts) (dev : Device) (m : MatArg) (h : Heap) :
    (∃ c : MatConst, c.dev = dev ∧ c.epsDev = dev ∧ asMaterial C dev m h = (.ok h.length, h ++ [.const c]) ∧
      Spec.AcceptedMat m ∧ ∀ id, m ≠ .obj id) ∨
    (∃ id, m = .obj id ∧ id < h.length ∧ asMaterial C dev m h = (.ok id, h.modify id fun o => o.setDevice dev)) ∨
    (∃ e, asMaterial C dev m h = (.error e, h) ∧ ¬ (Spec.AcceptedMat m ∧ m.Exists h)) := by
  cases m with
  | num n => exact .inl ⟨_, rfl, rfl, asMaterial_num C dev n h, trivial, by simp⟩
  | tensor t leaves =>
    by_cases hs : t.shape = []
    · exact .inl ⟨_, rfl, rfl, asMaterial_ten C dev t leaves h hs, hs, by simp⟩
    · refine .inr (.inr ?_)
      have hs' : (t.map fun z : ℂ => z ^ 2).shape ≠ [] := hs
      by_cases hn : (t.map fun z : ℂ => z ^ 2).numel ≠ 1
      · exact ⟨.runtimeError, by simp only [asMaterial, MatConst.ofTen, if_pos hn], fun hm => hs hm.1⟩
      · exact ⟨.typeError, by simp only [asMaterial, MatConst.ofTen, if_neg hn, if_pos hs'], fun hm => hs hm.1⟩
  | obj id =>
    by_cases hid : id < h.length
    · exact .inr (.inl ⟨id, rfl, hid, by rw [asMaterial_obj, if_pos hid]⟩)
    · exact .inr (.inr ⟨_, by rw [asMaterial_obj, if_neg hid], fun hm => hid hm.2⟩)
  | other => exact .inr (.inr ⟨_, rfl, fun hm => hm.1⟩)

theorem asMaterial_length (C : Casts) (dev : Device) (m : MatArg) (h : Heap) :
    h.length ≤ (asMaterial C dev m h).2.length := by
  rcases asMaterial_cases C dev m h with ⟨c, -, -, e, -⟩ | ⟨id, -, -, e⟩ | ⟨_, e, -⟩ <;> rw [e] <;> simp

theorem asMaterial_ok (C : Casts) (dev : Device) (m : MatArg) (h : Heap) (hex : m.Exists h) (hm : Spec.AcceptedMat m) :
    ∃ id h', asMaterial C dev m h = (.ok id, h') := by
  rcases asMaterial_cases C dev m h with ⟨c, -, -, e, -⟩ | ⟨id, -, -, e⟩ | ⟨_, e, hn⟩
  · exact ⟨_, _, e⟩
  · exact ⟨_, _, e⟩
  · exact absurd ⟨hm, hex⟩ hn

theorem asMaterial_bad (C : Casts) (dev : Device) (m : MatArg) (h : Heap) (hm : ¬ Spec.AcceptedMat m) :
    ∃ e h', asMaterial C dev m h = (.error e, h') := by
  rcases asMaterial_cases C dev m h with ⟨c, -, -, e, ha, -⟩ | ⟨id, rfl, -, e⟩ | ⟨_, e, hn⟩
  · exact absurd ha hm
  · exact absurd trivial hm
  · exact ⟨_, _, e⟩

theorem asMaterials_ok (C : Casts) (dev : Device) : ∀ (ms : List MatArg) (h : Heap), (∀ m ∈ ms, m.Exists h) →
    (∀ m ∈ ms, Spec.AcceptedMat m) → ∃ ids h', asMaterials C dev ms h = (.ok ids, h') ∧ ids.length = ms.length ∧
      h.length ≤ h'.length := by
  intro ms
  induction ms with
  | nil => intro h _ _; exact ⟨[], h, rfl, rfl, le_rfl⟩
  | cons m ms ih =>
    intro h hex hacc
    obtain ⟨id, h', e⟩ := asMaterial_ok C dev m h (hex m List.mem_cons_self) (hacc m List.mem_cons_self)
    have hl : h.length ≤ h'.length := by
      have := asMaterial_length C dev m h
      rwa [e] at this
    obtain ⟨ids, h'', e', hlen, hl'⟩ := ih h' (fun m hm => (hex m (List.mem_cons_of_mem _ hm)).mono hl)
      fun m hm => hacc m (List.mem_cons_of_mem _ hm)
    exact ⟨id :: ids, h'', by simp [asMaterials, e, e'], by simp [hlen], hl.trans hl'⟩

theorem asMaterials_bad (C : Casts) (dev : Device) : ∀ (ms : List MatArg) (h : Heap), (∃ m ∈ ms, ¬ Spec.AcceptedMat m) →
    ∃ e h', asMaterials C dev ms h = (.error e, h') := by
  intro ms
  induction ms with
  | nil => rintro h ⟨m, hm, -⟩; simp at hm
  | cons m ms ih =>
    rintro h ⟨m', hm', hbad⟩
    unfold asMaterials
    rcases hr : asMaterial C dev m h with ⟨e | id, h'⟩
    · exact ⟨e, h', rfl⟩
    · rcases List.mem_cons.mp hm' with rfl | hm'
      · obtain ⟨e, h'', e'⟩ := asMaterial_bad C dev m' h hbad
        rw [e'] at hr; cases hr
      · obtain ⟨e, h'', e'⟩ := ih h' ⟨m', hm', hbad⟩
        exact ⟨e, h'', by simp only [e']⟩

theorem layerChecks_ok {a : ParticleArgs} {r : Ten ℝ} (h : layerChecks a = .ok r) :
    a.usesLegacy = false ∧ a.rLayers = some r ∧ (∃ L, r.shape = [L] ∧ 1 ≤ L ∧
      ((∃ e, a.epsLayers = some e ∧ a.matLayers = none) ∨ ∃ ms, a.epsLayers = none ∧ a.matLayers = some ms ∧ ms.length = L)) := by
  unfold layerChecks at h
  by_cases h0 : a.usesLegacy = true
  · rw [if_pos h0] at h; cases h
  rw [if_neg h0] at h
  refine ⟨by simpa using h0, ?_⟩
  rcases hr : a.rLayers with _ | r'
  · rw [hr] at h; cases h
  rw [hr] at h
  simp only at h
  rcases he : a.epsLayers with _ | e <;> rcases hm : a.matLayers with _ | ms <;>
    simp only [he, hm, Option.isSome_none, Option.isSome_some, Option.isNone_none, Option.isNone_some, Bool.and_true,
      Bool.and_false, Bool.and_self, Bool.false_eq_true, if_false, if_true] at h
  · cases h
  all_goals first
    | cases h
    | by_cases h1 : r'.ndim ≠ 1
      · rw [if_pos h1] at h; cases h
      rw [if_neg h1] at h
      by_cases h2 : r'.numel < 1
      · rw [if_pos h2] at h; cases h
      rw [if_neg h2] at h
      obtain ⟨L, hL⟩ := List.length_eq_one_iff.mp (not_not.mp h1)
      have hn : r'.numel = L := by simp [Ten.numel, hL]
      first
        | by_cases h3 : ms.length ≠ r'.numel
          · rw [if_pos h3] at h; cases h
          rw [if_neg h3] at h
          cases h
          exact ⟨rfl, L, hL, by omega, .inr ⟨ms, rfl, rfl, by rw [← hn]; exact not_not.mp h3⟩⟩
        | cases h
          exact ⟨rfl, L, hL, by omega, .inl ⟨e, rfl, rfl⟩⟩

theorem layerChecks_error {a : ParticleArgs} {e : PyErr} (h : layerChecks a = .error e) : e = .valueError := by
  unfold layerChecks at h
  by_cases h0 : a.usesLegacy = true
  · rw [if_pos h0] at h; cases h; rfl
  rw [if_neg h0] at h
  rcases hr : a.rLayers with _ | r
  · rw [hr] at h; cases h; rfl
  rw [hr] at h
  simp only at h
  rcases hm : a.matLayers with _ | ms <;> rw [hm] at h <;> simp only at h <;> split_ifs at h <;> cases h <;> rfl

theorem layerChecks_of {a : ParticleArgs} {r : Ten ℝ} {L : ℕ} (hu : a.usesLegacy = false) (hr : a.rLayers = some r)
    (hs : r.shape = [L]) (hL : 1 ≤ L) (hm : (∃ e, a.epsLayers = some e ∧ a.matLayers = none) ∨
      ∃ ms, a.epsLayers = none ∧ a.matLayers = some ms ∧ ms.length = L) : layerChecks a = .ok r := by
  have hn : r.numel = L := by simp [Ten.numel, hs]
  have hd : r.ndim = 1 := by simp [Ten.ndim, hs]
  unfold layerChecks
  rw [hu, hr]
  rcases hm with ⟨e, he, hm⟩ | ⟨ms, he, hm, hl⟩
  · simp [he, hm, hd, hn]; omega
  · simp [he, hm, hd, hn, hl]; omega

theorem usesLegacy_false {a : ParticleArgs} :
    a.usesLegacy = false ↔ a.rCore = none ∧ a.matCore = none ∧ a.rShell = none ∧ a.matShell = none := by
  unfold ParticleArgs.usesLegacy
  cases a.rCore <;> cases a.matCore <;> cases a.rShell <;> cases a.matShell <;> simp

theorem usesLayers_false {a : ParticleArgs} :
    a.usesLayers = false ↔ a.rLayers = none ∧ a.epsLayers = none ∧ a.matLayers = none := by
  unfold ParticleArgs.usesLayers
  cases a.rLayers <;> cases a.epsLayers <;> cases a.matLayers <;> simp

theorem finish_ok (C : Casts) (a : ParticleArgs) (r : Ten ℝ) (mats : Option (List ℕ)) (h : Heap)
    (hex : a.matEnv.Exists h) (hm : Spec.AcceptedMat a.matEnv) :
    ∃ id h', finishParticle C a r mats h = (.ok (a.build r mats id), h') := by
  obtain ⟨id, h', e⟩ := asMaterial_ok C a.dev a.matEnv h hex hm
  exact ⟨id, h', by simp only [finishParticle, e]⟩

theorem finish_bad (C : Casts) (a : ParticleArgs) (r : Ten ℝ) (mats : Option (List ℕ)) (h : Heap)
    (hm : ¬ Spec.AcceptedMat a.matEnv) : ∃ e h', finishParticle C a r mats h = (.error e, h') := by
  obtain ⟨e, h', e'⟩ := asMaterial_bad C a.dev a.matEnv h hm
  exact ⟨e, h', by simp only [finishParticle, e']⟩

/-- Radii a particle stores. -/
def ParticleArgs.radii (a : ParticleArgs) : List ℝ :=
  match a.rLayers with
  | some r => (List.range r.numel).map fun (i : ℕ) => r.get [i]
  | none => (a.rCore.map fun r => r.get []).toList ++ (a.rShell.map fun r => r.get []).toList

/-- C30: an accepted combination makes a particle with the given radii, one material per layer (or the given
permittivities) and the requested device. -/
theorem C30_accept (C : Casts) (a : ParticleArgs) (h : Heap) (hex : ∀ m ∈ a.allMats, m.Exists h) (hacc : Spec.Accepted a) :
    ∃ p h', Particle.init C a h = (.ok p, h') ∧ p.rLayers.shape = [a.radii.length] ∧
      (∀ i, i < a.radii.length → a.radii[i]? = some (p.rLayers.get [i])) ∧ p.dev = a.device.getD "cpu" ∧
      p.epsLayers = a.epsLayers ∧ (∀ ids, p.mats = some ids → ids.length = a.radii.length) ∧
      (p.mats = none ↔ a.epsLayers ≠ none) := by
  have hexE : a.matEnv.Exists h := hex _ (by simp [ParticleArgs.allMats])
  obtain ⟨hform, henv⟩ := hacc
  rcases hform with ⟨r, L, hr, hs, hL, hm, h1, h2, h3, h4⟩ | ⟨h1, h2, h3, rc, mc, hrc, hmc, hrs, hac, hsh⟩
  · have hlay : a.usesLayers = true := by simp [ParticleArgs.usesLayers, hr]
    have hn : r.numel = L := by simp [Ten.numel, hs]
    have hrad : a.radii = (List.range L).map fun (i : ℕ) => r.get [i] := by simp only [ParticleArgs.radii, hr, hn]
    have hck := layerChecks_of (usesLegacy_false.mpr ⟨h1, h2, h3, h4⟩) hr hs hL
      (hm.imp id fun ⟨ms, e1, e2, e3, _⟩ => ⟨ms, e1, e2, e3⟩)
    have hpost : a.radii.length = L ∧ ∀ i, i < a.radii.length → a.radii[i]? = some (r.get [i]) := by
      rw [hrad]
      refine ⟨by simp, fun i hi => ?_⟩
      simp only [List.length_map, List.length_range] at hi
      simp [List.getElem?_range hi]
    rcases hm with ⟨e, he, hm⟩ | ⟨ms, he, hm, hl, hacc⟩
    · obtain ⟨id, h', e'⟩ := finish_ok C a r none h hexE henv
      refine ⟨a.build r none id, h', by simp only [Particle.init, hlay, if_true, hck, hm, e'], by simp [ParticleArgs.build, hs, hpost.1], hpost.2, rfl, rfl,
        by simp [ParticleArgs.build], by simp [ParticleArgs.build, he]⟩
    · obtain ⟨ids, h', e1, e2, e3⟩ := asMaterials_ok C a.dev ms h
        (fun m hm' => hex m (by simp [ParticleArgs.allMats, hm, hm'])) hacc
      obtain ⟨id, h'', e'⟩ := finish_ok C a r (some ids) h' (hexE.mono e3) henv
      refine ⟨a.build r (some ids) id, h'', by simp only [Particle.init, hlay, if_true, hck, hm, e1, e'], by simp [ParticleArgs.build, hs, hpost.1], hpost.2, rfl, rfl,
        ?_, by simp [ParticleArgs.build, he]⟩
      intro ids' hids
      simp only [ParticleArgs.build, Option.some.injEq] at hids
      rw [← hids, e2, hl, hpost.1]
  · have hlay : a.usesLayers = false := usesLayers_false.mpr ⟨h1, h2, h3⟩
    have hexC : mc.Exists h := hex _ (by simp [ParticleArgs.allMats, hmc])
    rcases hsh with ⟨hs1, hs2⟩ | ⟨rs, ms, hs1, hs2, hss, has, hlt⟩
    · have hck : legacyChecks a = .ok ((rc, mc), none) := by simp only [legacyChecks, hrc, hmc, hs1, hs2]
      obtain ⟨ids, h', e1, e2, e3⟩ := asMaterials_ok C a.dev [mc] h (by simpa using hexC) (by simpa using hac)
      obtain ⟨id, h'', e'⟩ := finish_ok C a (rc.unsqueeze 0) (some ids) h' (hexE.mono e3) henv
      have hsh : (rc.unsqueeze 0).shape = [1] := by simp [Ten.unsqueeze, hrs]
      have hrad : a.radii = [rc.get []] := by simp [ParticleArgs.radii, h1, hrc, hs1]
      refine ⟨a.build (rc.unsqueeze 0) (some ids) id, h'', ?_, by simp [ParticleArgs.build, hrad, hsh], ?_, rfl, rfl, ?_, by simp [ParticleArgs.build, h2]⟩
      · simp only [Particle.init, hlay, Bool.false_eq_true, if_false, hck, legacyRadii, Option.map_none, Option.toList_none, e1]
        rw [if_neg (by simp [Ten.ndim, hsh]), if_neg, e']
        rw [not_not]
        intro i hi
        simp [Ten.numel, hsh] at hi
      · intro i hi
        simp only [hrad, List.length_singleton, Nat.lt_one_iff] at hi
        subst hi
        rw [hrad]
        simp [ParticleArgs.build, Ten.unsqueeze]
      · intro ids' hids
        simp only [ParticleArgs.build, Option.some.injEq] at hids
        rw [← hids, e2, hrad]
        rfl
    · have hck : legacyChecks a = .ok ((rc, mc), some (rs, ms)) := by simp only [legacyChecks, hrc, hmc, hs1, hs2]
      have hexS : ms.Exists h := hex _ (by simp [ParticleArgs.allMats, hs2])
      obtain ⟨ids, h', e1, e2, e3⟩ := asMaterials_ok C a.dev [mc, ms] h
        (by intro m hm; simp at hm; rcases hm with rfl | rfl <;> assumption)
        (by intro m hm; simp at hm; rcases hm with rfl | rfl <;> assumption)
      have hrd : ∃ r, Ten.stack2 rc rs 0 = .ok r ∧ r.shape = [2] ∧ r.get [0] = rc.get [] ∧ r.get [1] = rs.get [] := by
        refine ⟨_, by rw [Ten.stack2, if_pos (by rw [hrs, hss])], by simp [hrs], by simp, by simp⟩
      obtain ⟨r, hr, hsh, hr0, hr1⟩ := hrd
      obtain ⟨id, h'', e'⟩ := finish_ok C a r (some ids) h' (hexE.mono e3) henv
      have hrad : a.radii = [rc.get [], rs.get []] := by simp [ParticleArgs.radii, h1, hrc, hs1]
      refine ⟨a.build r (some ids) id, h'', ?_, by simp [ParticleArgs.build, hrad, hsh], ?_, rfl, rfl, ?_,
        by simp [ParticleArgs.build, h2]⟩
      · simp only [Particle.init, hlay, Bool.false_eq_true, if_false, hck, legacyRadii, hr, Option.map_some, Option.toList_some,
          e1]
        rw [if_neg (by simp [Ten.ndim, hsh]), if_neg, e']
        rw [not_not]
        intro i hi
        have : i = 0 := by simp [Ten.numel, hsh] at hi; omega
        subst this
        rw [hr0, hr1]
        exact hlt
      · intro i hi
        have : i = 0 ∨ i = 1 := by simp [hrad] at hi; omega
        rw [hrad]
        rcases this with rfl | rfl
        · simp [ParticleArgs.build, hr0]
        · simp [ParticleArgs.build, hr1]
      · intro ids' hids
        simp only [ParticleArgs.build, Option.some.injEq] at hids
        rw [← hids, e2, hrad]
        rfl

theorem finish_inv {C : Casts} {a : ParticleArgs} {r : Ten ℝ} {mats : Option (List ℕ)} {h h' : Heap} {p : Particle}
    (e : finishParticle C a r mats h = (.ok p, h')) :
    Spec.AcceptedMat a.matEnv ∧ ∃ id, asMaterial C a.dev a.matEnv h = (.ok id, h') ∧ p = a.build r mats id := by
  constructor
  · by_contra hm
    obtain ⟨e1, h1, e2⟩ := finish_bad C a r mats h hm
    rw [e2] at e
    cases e
  · unfold finishParticle at e
    rcases hr : asMaterial C a.dev a.matEnv h with ⟨e1 | id, h1⟩
    · rw [hr] at e; cases e
    · rw [hr] at e
      simp only [Prod.mk.injEq, Except.ok.injEq] at e
      exact ⟨id, by rw [e.2], e.1.symm⟩

theorem asMaterials_inv {C : Casts} {dev : Device} {ms : List MatArg} {h h' : Heap} {ids : List ℕ}
    (e : asMaterials C dev ms h = (.ok ids, h')) : ∀ m ∈ ms, Spec.AcceptedMat m := by
  intro m hm
  by_contra hbad
  obtain ⟨e1, h1, e2⟩ := asMaterials_bad C dev ms h ⟨m, hm, hbad⟩
  rw [e2] at e
  cases e

/-- What a successful constructor call did. -/
theorem init_inv {C : Casts} {a : ParticleArgs} {h h' : Heap} {p : Particle} (e : Particle.init C a h = (.ok p, h')) :
    (∃ r, a.usesLayers = true ∧ layerChecks a = .ok r ∧ a.matLayers = none ∧ finishParticle C a r none h = (.ok p, h')) ∨
    (∃ r ms ids h1, a.usesLayers = true ∧ layerChecks a = .ok r ∧ a.matLayers = some ms ∧
      asMaterials C a.dev ms h = (.ok ids, h1) ∧ finishParticle C a r (some ids) h1 = (.ok p, h')) ∨
    (∃ core shell r ids h1, a.usesLayers = false ∧ legacyChecks a = .ok (core, shell) ∧ legacyRadii core.1 shell = .ok r ∧
      asMaterials C a.dev (core.2 :: (shell.map (·.2)).toList) h = (.ok ids, h1) ∧ r.ndim = 1 ∧ radiiIncreasing r ∧
      finishParticle C a r (some ids) h1 = (.ok p, h')) := by
  unfold Particle.init at e
  by_cases hu : a.usesLayers = true
  · rw [if_pos hu] at e
    rcases hc : layerChecks a with e1 | r
    · rw [hc] at e; cases e
    rw [hc] at e
    simp only at e
    rcases hm : a.matLayers with _ | ms
    · rw [hm] at e
      exact .inl ⟨r, hu, rfl, rfl, e⟩
    · rw [hm] at e
      simp only at e
      rcases has : asMaterials C a.dev ms h with ⟨e1 | ids, h1⟩
      · rw [has] at e; cases e
      · rw [has] at e
        exact .inr (.inl ⟨r, ms, ids, h1, hu, rfl, rfl, has, e⟩)
  · rw [if_neg hu] at e
    rcases hc : legacyChecks a with e1 | ⟨core, shell⟩
    · rw [hc] at e; cases e
    rw [hc] at e
    simp only at e
    rcases hr : legacyRadii core.1 shell with e1 | r
    · rw [hr] at e; cases e
    rw [hr] at e
    simp only at e
    rcases has : asMaterials C a.dev (core.2 :: (shell.map (·.2)).toList) h with ⟨e1 | ids, h1⟩
    · rw [has] at e; cases e
    rw [has] at e
    simp only at e
    by_cases h1 : r.ndim ≠ 1
    · rw [if_pos h1] at e; cases e
    rw [if_neg h1] at e
    by_cases h2 : ¬ radiiIncreasing r
    · rw [if_pos h2] at e; cases e
    rw [if_neg h2] at e
    exact .inr (.inr ⟨core, shell, r, ids, _, by simpa using hu, rfl, hr, has, not_not.mp h1, not_not.mp h2, e⟩)

theorem legacyChecks_inv {a : ParticleArgs} {core : Ten ℝ × MatArg} {shell : Option (Ten ℝ × MatArg)}
    (h : legacyChecks a = .ok (core, shell)) : a.rCore = some core.1 ∧ a.matCore = some core.2 ∧
      ((shell = none ∧ a.rShell = none ∧ a.matShell = none) ∨
        ∃ s, shell = some s ∧ a.rShell = some s.1 ∧ a.matShell = some s.2) := by
  unfold legacyChecks at h
  rcases hrc : a.rCore with _ | rc <;> rcases hmc : a.matCore with _ | mc <;> rw [hrc, hmc] at h <;>
    simp only [reduceCtorEq] at h
  rcases hrs : a.rShell with _ | rs <;> rcases hms : a.matShell with _ | ms <;> rw [hrs, hms] at h <;>
    simp only [reduceCtorEq, Except.ok.injEq, Prod.mk.injEq] at h
  · obtain ⟨rfl, rfl⟩ := h
    exact ⟨rfl, rfl, .inl ⟨rfl, rfl, rfl⟩⟩
  · obtain ⟨rfl, rfl⟩ := h
    exact ⟨rfl, rfl, .inr ⟨_, rfl, rfl, rfl⟩⟩

/-- Only accepted combinations succeed. -/
theorem init_accepted {C : Casts} {a : ParticleArgs} {h h' : Heap} {p : Particle} (e : Particle.init C a h = (.ok p, h')) :
    Spec.Accepted a := by
  rcases init_inv e with ⟨r, hu, hc, hm, e'⟩ | ⟨r, ms, ids, h1, hu, hc, hm, has, e'⟩ | ⟨core, shell, r, ids, h1, hu, hc, hr, has, hd, hinc, e'⟩
  · obtain ⟨hl, hr, L, hs, hL, hm'⟩ := layerChecks_ok hc
    refine ⟨.inl ⟨r, L, hr, hs, hL, .inl ?_, usesLegacy_false.mp hl⟩, (finish_inv e').1⟩
    rcases hm' with h | ⟨ms, h1, h2, -⟩
    · exact h
    · rw [hm] at h2; cases h2
  · obtain ⟨hl, hr, L, hs, hL, hm'⟩ := layerChecks_ok hc
    refine ⟨.inl ⟨r, L, hr, hs, hL, .inr ?_, usesLegacy_false.mp hl⟩, (finish_inv e').1⟩
    rcases hm' with ⟨e, h1, h2⟩ | ⟨ms', h1, h2, h3⟩
    · rw [hm] at h2; cases h2
    · rw [hm] at h2
      cases h2
      exact ⟨ms, h1, hm, h3, asMaterials_inv has⟩
  · obtain ⟨hrc, hmc, hsh⟩ := legacyChecks_inv hc
    obtain ⟨h1, h2, h3⟩ := usesLayers_false.mp hu
    have hacc := asMaterials_inv has
    refine ⟨.inr ⟨h1, h2, h3, core.1, core.2, hrc, hmc, ?_⟩, (finish_inv e').1⟩
    rcases hsh with ⟨rfl, hs1, hs2⟩ | ⟨s, rfl, hs1, hs2⟩
    · simp only [legacyRadii, Except.ok.injEq] at hr
      subst hr
      refine ⟨?_, hacc _ (by simp), .inl ⟨hs1, hs2⟩⟩
      simpa [Ten.ndim, Ten.unsqueeze] using hd
    · simp only [legacyRadii, Ten.stack2] at hr
      by_cases hss : core.1.shape = s.1.shape
      · rw [if_pos hss] at hr
        simp only [Except.ok.injEq] at hr
        subst hr
        have hs0 : core.1.shape = [] := by simpa [Ten.ndim] using hd
        refine ⟨hs0, hacc _ (by simp), .inr ⟨s.1, s.2, hs1, hs2, by rw [← hss, hs0], hacc _ (by simp), ?_⟩⟩
        have := hinc 0 (by simp [Ten.numel, hs0])
        simpa using this
      · rw [if_neg hss] at hr; cases hr

/-- C30: every other combination raises; `ValueError` if the materials are acceptable and the legacy radii have equal
shapes. -/
theorem C30_reject (C : Casts) (a : ParticleArgs) (h : Heap) (hex : ∀ m ∈ a.allMats, m.Exists h) (hacc : ¬ Spec.Accepted a) :
    ∃ e h', Particle.init C a h = (.error e, h') ∧
      ((∀ m ∈ a.allMats, Spec.AcceptedMat m) →
        (∀ rc rs, a.rCore = some rc → a.rShell = some rs → rc.shape = rs.shape) → e = .valueError) := by
  rcases hi : Particle.init C a h with ⟨e | p, h'⟩
  swap
  · exact absurd (init_accepted hi) hacc
  refine ⟨e, h', rfl, fun hm hsh => ?_⟩
  have hexE : a.matEnv.Exists h := hex _ (by simp [ParticleArgs.allMats])
  have henv : Spec.AcceptedMat a.matEnv := hm _ (by simp [ParticleArgs.allMats])
  unfold Particle.init at hi
  by_cases hu : a.usesLayers = true
  · rw [if_pos hu] at hi
    rcases hc : layerChecks a with e1 | r
    · rw [hc] at hi
      simp only [Prod.mk.injEq, Except.error.injEq] at hi
      rw [← hi.1]
      exact layerChecks_error hc
    rw [hc] at hi
    simp only at hi
    rcases hml : a.matLayers with _ | ms
    · rw [hml] at hi
      obtain ⟨id, h1, e1⟩ := finish_ok C a r none h hexE henv
      simp only [e1] at hi
      cases hi
    · rw [hml] at hi
      simp only at hi
      obtain ⟨ids, h1, e1, -, hl⟩ := asMaterials_ok C a.dev ms h
        (fun m hm' => hex m (by simp [ParticleArgs.allMats, hml, hm']))
        (fun m hm' => hm m (by simp [ParticleArgs.allMats, hml, hm']))
      obtain ⟨id, h2, e2⟩ := finish_ok C a r (some ids) h1 (hexE.mono hl) henv
      simp only [e1, e2] at hi
      cases hi
  · rw [if_neg hu] at hi
    rcases hc : legacyChecks a with e1 | ⟨core, shell⟩
    · rw [hc] at hi
      simp only [Prod.mk.injEq, Except.error.injEq] at hi
      rw [← hi.1]
      unfold legacyChecks at hc
      revert hc
      cases a.rCore <;> cases a.matCore <;> cases a.rShell <;> cases a.matShell <;> intro hc <;> cases hc <;> rfl
    rw [hc] at hi
    simp only at hi
    obtain ⟨hrc, hmc, hs⟩ := legacyChecks_inv hc
    rcases hr : legacyRadii core.1 shell with e1 | r
    · rcases hs with ⟨rfl, -, -⟩ | ⟨s, rfl, hs1, -⟩
      · cases hr
      · rw [legacyRadii, Ten.stack2, if_pos (hsh _ _ hrc hs1)] at hr
        cases hr
    rw [hr] at hi
    simp only at hi
    have hmem : ∀ m ∈ core.2 :: (shell.map (·.2)).toList, m ∈ a.allMats := by
      intro m hm'
      rcases hs with ⟨rfl, -, -⟩ | ⟨s, rfl, hs1, hs2⟩
      · simp at hm'; simp [ParticleArgs.allMats, hmc, hm']
      · simp at hm'
        rcases hm' with rfl | rfl <;> simp [ParticleArgs.allMats, hmc, hs2]
    obtain ⟨ids, h1, e1, -, hl⟩ := asMaterials_ok C a.dev _ h (fun m hm' => hex m (hmem m hm')) fun m hm' => hm m (hmem m hm')
    rw [e1] at hi
    simp only at hi
    by_cases h1' : r.ndim ≠ 1
    · rw [if_pos h1'] at hi; cases hi; rfl
    rw [if_neg h1'] at hi
    by_cases h2 : ¬ radiiIncreasing r
    · rw [if_pos h2] at hi; cases hi; rfl
    rw [if_neg h2] at hi
    obtain ⟨id, h2, e2⟩ := finish_ok C a r (some ids) h1 (hexE.mono hl) henv
    rw [e2] at hi
    cases hi

/-- The exceptions that are not `ValueError`: legacy radii of different shapes. -/
theorem C30_stack (C : Casts) (a : ParticleArgs) (h : Heap) (hl : a.usesLayers = false) {rc rs : Ten ℝ} {mc ms : MatArg}
    (h1 : a.rCore = some rc) (h2 : a.matCore = some mc) (h3 : a.rShell = some rs) (h4 : a.matShell = some ms)
    (hne : rc.shape ≠ rs.shape) : Particle.init C a h = (.error .runtimeError, h) := by
  have hc : legacyChecks a = .ok ((rc, mc), some (rs, ms)) := by simp only [legacyChecks, h1, h2, h3, h4]
  have hr : legacyRadii rc (some (rs, ms)) = .error .runtimeError := by simp only [legacyRadii, Ten.stack2, if_neg hne]
  unfold Particle.init
  rw [if_neg (by simp [hl]), hc]
  simp only [hr]

/-- The example of the documentation, and a core-shell particle. -/
example : Spec.Accepted { rLayers := some (Ten.ofList 0 [50, 80]), epsLayers := some (Ten.ofList 0 [2.25, 4]) } ∧
    Spec.Accepted { rCore := some (Ten.scalar 70), matCore := some (.num 2),
                    rShell := some (Ten.scalar 100), matShell := some (.obj 0) } := by
  refine ⟨⟨.inl ⟨_, 2, rfl, rfl, by norm_num, .inl ⟨_, rfl, rfl⟩, rfl, rfl, rfl, rfl⟩, trivial⟩,
    ⟨.inr ⟨rfl, rfl, rfl, _, _, rfl, rfl, rfl, trivial, .inr ⟨_, _, rfl, rfl, rfl, trivial, ?_⟩⟩, trivial⟩⟩
  simp [Ten.scalar]
  norm_num

/-- Rejected: both permittivities and materials. -/
example (e : Ten ℂ) : ¬ Spec.Accepted { rLayers := some (Ten.ofList 0 [50]), epsLayers := some e, matLayers := some [.num 2] } := by
  rintro ⟨⟨r, L, -, -, -, ⟨e', -, h⟩ | ⟨ms, h, -⟩, -⟩ | ⟨h, -⟩, -⟩
  · cases h
  · cases h
  · cases h

/-- `C30_stack` applies: one core radius and two shell radii. -/
example (C : Casts) (h : Heap) : Particle.init C
    { rCore := some (Ten.scalar 50), matCore := some (.num 2), rShell := some (Ten.ofList 0 [60, 70]), matShell := some (.num 1.5) } h
      = (.error .runtimeError, h) :=
  C30_stack C _ h rfl rfl rfl rfl rfl (by decide)

end MieDiff
