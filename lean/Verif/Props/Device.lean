import Verif.Props.Particle

/-!
# C31: devices over histories of particles, C32: scalar materials
-/

namespace MieDiff

/-! ## Specification -/

namespace Spec

/-- Devices of all tensors a material object holds, and the device it records. -/
def devices : MatObj → List Device
  | .const c => [c.dev, c.epsDev]
  | .db d => d.dev :: d.datDev :: d.cache.map fun e => e.2.dev

/-- No material object is handed to a particle while another particle already uses it. -/
def Unshared (C : Casts) : World → List WOp → Prop
  | _, [] => True
  | w, op :: ops =>
    (∀ a, op = .create a → ∀ id, MatArg.obj id ∈ a.allMats → ∀ p ∈ w.parts, id ∉ p.ids) ∧ Unshared C (w.step C op) ops

/-- The number a scalar material argument stands for. -/
def scalarOf : MatArg → Option ℂ
  | .num n => some n
  | .tensor t _ => if t.shape = [] then some (t.get []) else none
  | _ => none

/-- The materials of the layers, from the inside. -/
def layerMats (a : ParticleArgs) : List MatArg :=
  match a.matLayers with
  | some ms => ms
  | none => a.matCore.toList ++ a.matShell.toList

end Spec

/-! ## Invariants of the heap -/

/-- Object in a consistent state on one device. -/
def MatObj.On (C : Casts) (o : MatObj) (dev : Device) : Prop :=
  match o with
  | .const c => c.dev = dev ∧ c.epsDev = dev
  | .db d => d.Good C d.disp ∧ d.dev = dev

theorem MatObj.On.devices {C : Casts} {o : MatObj} {dev : Device} (h : o.On C dev) : ∀ d ∈ Spec.devices o, d = dev := by
  intro d hd
  cases o with
  | const c =>
    simp only [Spec.devices, List.mem_cons, List.not_mem_nil, or_false] at hd
    rcases hd with rfl | rfl
    exacts [h.1, h.2]
  | db m =>
    obtain ⟨g, h⟩ := h
    simp only [Spec.devices, List.mem_cons, List.mem_map] at hd
    rcases hd with rfl | rfl | ⟨e, he, rfl⟩
    · exact h
    · rw [g.dat, h]
    · obtain ⟨v, -, -, hv⟩ := g.cache e he
      rw [hv, h]

theorem MatObj.On.setDevice {C : Casts} {o : MatObj} {dev : Device} (h : o.On C dev) (device : Device) :
    (o.setDevice device).On C device := by
  cases o with
  | const c => exact ⟨rfl, rfl⟩
  | db m => exact ⟨(h.1.step (.setDevice device)).1, rfl⟩

theorem MatDb.getEpsilon_dev {C : Casts} {m : Dispersion} {d : MatDb} (g : d.Good C m) (wl : DTen ℝ) {t : DTen ℂ}
    (h : (d.getEpsilon C wl).1 = .ok t) : t.dev = d.dev := by
  unfold MatDb.getEpsilon at h
  rcases hs : wl.ten.squeeze.shape with _ | ⟨n, _ | ⟨a, s⟩⟩
  · simp only [hs] at h
    obtain ⟨-, -, hv⟩ := g.single (C.f32 (wl.ten.squeeze.get [])) wl.leaves _ rfl
    rw [h] at hv
    cases he : m.eval (C.f32 (wl.ten.squeeze.get [])) with
    | error e => rw [he] at hv; cases hv
    | ok v =>
      rw [he] at hv
      simp only [Except.map, Except.ok.injEq, Prod.mk.injEq] at hv
      exact hv.2
  · simp only [hs] at h
    obtain ⟨-, -, hv⟩ := MatDb.Good.list (C := C) wl.leaves
      ((List.range n).map fun (i : ℕ) => C.f32 (wl.ten.squeeze.get [i])) g _ rfl
    rcases hl : MatDb.getList C wl.leaves ((List.range n).map fun (i : ℕ) => C.f32 (wl.ten.squeeze.get [i])) d with ⟨e | ts, d'⟩
    · rw [hl] at h; cases h
    · rw [hl] at h hv
      simp only at h
      rcases ts with _ | ⟨t0, ts⟩
      · cases h
      · unfold stackScalars at h
        simp only at h
        split_ifs at h with hall
        cases h
        simp only
        rcases n with _ | n
        · simp only [List.range_zero, List.map_nil, List.mapM_nil] at hv
          cases hv
        · rw [List.range_succ_eq_map, List.map_cons, List.mapM_cons] at hv
          cases he : m.eval (C.f32 (wl.ten.squeeze.get [0])) with
          | error e => rw [he] at hv; cases hv
          | ok v =>
            rw [he] at hv
            simp only [Except.map, bind, Except.bind] at hv
            split at hv
            · cases hv
            · simp only [pure, Except.pure, Except.ok.injEq, List.map_cons, List.cons.injEq, Prod.mk.injEq] at hv
              exact hv.1.2
  · simp only [hs] at h
    cases h

theorem MatObj.On.getEpsilon {C : Casts} {o : MatObj} {dev : Device} (h : o.On C dev) (wl : DTen ℝ) :
    (o.getEpsilon C wl).2.On C dev ∧ ∀ t, (o.getEpsilon C wl).1 = .ok t → t.dev = dev := by
  cases o with
  | const c =>
    refine ⟨h, fun t ht => ?_⟩
    simp only [MatObj.getEpsilon, Except.ok.injEq] at ht
    subst ht
    unfold MatConst.getEpsilon
    split <;> exact h.2
  | db m =>
    obtain ⟨g, hd⟩ := h
    obtain ⟨g1, h1⟩ := MatDb.getEpsilon_state g wl
    refine ⟨⟨?_, h1.trans hd⟩, fun t ht => (MatDb.getEpsilon_dev g wl ht).trans hd⟩
    show ((m.getEpsilon C wl).2).Good C (m.getEpsilon C wl).2.disp
    rw [g1.disp]
    exact g1

/-- Every object is consistent. -/
def Heap.Wf (C : Casts) (h : Heap) : Prop := ∀ o ∈ h, ∃ dev, o.On C dev

/-- What an operation that moves the objects `A` to `dev` does to the heap. -/
structure HStep (C : Casts) (dev : Device) (A : ℕ → Prop) (h h' : Heap) : Prop where
  len : h.length ≤ h'.length
  wf : Heap.Wf C h'
  on : ∀ (k : ℕ) (o : MatObj), h[k]? = some o → o.On C dev → ∃ o', h'[k]? = some o' ∧ o'.On C dev
  same : ∀ k, k < h.length → ¬ A k → h'[k]? = h[k]?

theorem HStep.refl {C : Casts} {dev : Device} {A : ℕ → Prop} {h : Heap} (hw : h.Wf C) : HStep C dev A h h :=
  ⟨le_rfl, hw, fun _ o e ho => ⟨o, e, ho⟩, fun _ _ _ => rfl⟩

theorem HStep.trans {C : Casts} {dev : Device} {A B : ℕ → Prop} {h h' h'' : Heap} (s : HStep C dev A h h')
    (t : HStep C dev B h' h'') : HStep C dev (fun k => A k ∨ B k) h h'' := by
  refine ⟨s.len.trans t.len, t.wf, fun k o e ho => ?_, fun k hk hn => ?_⟩
  · obtain ⟨o', e', ho'⟩ := s.on k o e ho
    exact t.on k o' e' ho'
  · rw [t.same k (hk.trans_le s.len) fun hb => hn (.inr hb), s.same k hk fun ha => hn (.inl ha)]

theorem HStep.mono {C : Casts} {dev : Device} {A B : ℕ → Prop} {h h' : Heap} (s : HStep C dev A h h') (hab : ∀ k, A k → B k) :
    HStep C dev B h h' := ⟨s.len, s.wf, s.on, fun k hk hn => s.same k hk fun ha => hn (hab k ha)⟩

theorem HStep.append {C : Casts} {dev : Device} {h : Heap} (hw : h.Wf C) {o : MatObj} {d : Device} (ho : o.On C d) :
    HStep C dev (fun _ => False) h (h ++ [o]) := by
  refine ⟨by simp, ?_, fun k o' e ho' => ⟨o', ?_, ho'⟩, fun k hk _ => List.getElem?_append_left hk⟩
  · intro o' ho'
    rcases List.mem_append.mp ho' with h1 | h1
    · exact hw o' h1
    · rw [List.mem_singleton.mp h1]; exact ⟨d, ho⟩
  · obtain ⟨hk, -⟩ := List.getElem?_eq_some_iff.mp e
    rw [List.getElem?_append_left hk]; exact e

theorem HStep.modify {C : Casts} {dev : Device} {h : Heap} (hw : h.Wf C) (id : ℕ) :
    HStep C dev (fun k => k = id) h (h.modify id fun o => o.setDevice dev) ∧
    (id < h.length → ∃ o, (h.modify id fun o => o.setDevice dev)[id]? = some o ∧ o.On C dev) := by
  refine ⟨⟨by simp, ?_, fun k o e ho => ?_, fun k hk hn => ?_⟩, fun hid => ?_⟩
  · intro o ho
    obtain ⟨k, hk⟩ := List.mem_iff_getElem?.mp ho
    rw [List.getElem?_modify] at hk
    obtain ⟨o', e, rfl⟩ := Option.map_eq_some_iff.mp hk
    by_cases hki : id = k
    · obtain ⟨d, hd⟩ := hw o' (List.mem_of_getElem? e)
      exact ⟨dev, by simpa only [if_pos hki] using hd.setDevice dev⟩
    · simpa only [if_neg hki] using hw _ (List.mem_of_getElem? e)
  · rw [List.getElem?_modify, e]
    by_cases hki : id = k
    · exact ⟨o.setDevice dev, by simp [hki], ho.setDevice dev⟩
    · exact ⟨o, by simp [hki], ho⟩
  · rw [List.getElem?_modify, List.getElem?_eq_getElem hk]
    have : id ≠ k := fun e => hn e.symm
    simp [this]
  · rw [List.getElem?_modify, List.getElem?_eq_getElem hid]
    obtain ⟨d, hd⟩ := hw _ (List.getElem_mem hid)
    exact ⟨_, rfl, by simpa only [if_true] using hd.setDevice dev⟩

theorem asMaterial_step {C : Casts} (dev : Device) (m : MatArg) {h : Heap} (hw : h.Wf C) :
    HStep C dev (fun k => m = .obj k) h (asMaterial C dev m h).2 ∧
    ∀ id, (asMaterial C dev m h).1 = .ok id → (m = .obj id ∨ h.length ≤ id) ∧
      ∃ o, (asMaterial C dev m h).2[id]? = some o ∧ o.On C dev := by
  rcases asMaterial_cases C dev m h with ⟨c, h1, h2, e, -, -⟩ | ⟨i, rfl, hi, e⟩ | ⟨_, e, -⟩
  · rw [e]
    refine ⟨(HStep.append hw (o := .const c) (d := dev) ⟨h1, h2⟩).mono (fun _ h => h.elim), fun id hid => ?_⟩
    cases hid
    exact ⟨.inr le_rfl, .const c, by simp, h1, h2⟩
  · rw [e]
    obtain ⟨s1, s2⟩ := HStep.modify (dev := dev) hw i
    refine ⟨s1.mono fun k hk => by rw [hk], fun id hid => ?_⟩
    cases hid
    exact ⟨.inl rfl, s2 hi⟩
  · rw [e]
    exact ⟨HStep.refl hw, fun id hid => by cases hid⟩

theorem asMaterials_step {C : Casts} (dev : Device) : ∀ (ms : List MatArg) {h : Heap}, h.Wf C →
    HStep C dev (fun k => MatArg.obj k ∈ ms) h (asMaterials C dev ms h).2 ∧
    ∀ ids, (asMaterials C dev ms h).1 = .ok ids → ∀ id ∈ ids, (MatArg.obj id ∈ ms ∨ h.length ≤ id) ∧
      ∃ o, (asMaterials C dev ms h).2[id]? = some o ∧ o.On C dev := by
  intro ms
  induction ms with
  | nil =>
    intro h hw
    refine ⟨HStep.refl hw, fun ids hids => ?_⟩
    cases hids
    simp
  | cons m ms ih =>
    intro h hw
    obtain ⟨s1, s2⟩ := asMaterial_step dev m hw
    unfold asMaterials
    rcases hr : asMaterial C dev m h with ⟨e | i, h1⟩
    · rw [hr] at s1 s2
      refine ⟨s1.mono fun k hk => by rw [hk]; exact List.mem_cons_self, fun ids hids => by cases hids⟩
    · rw [hr] at s1 s2
      obtain ⟨t1, t2⟩ := ih s1.wf
      simp only
      rcases hr' : asMaterials C dev ms h1 with ⟨e | is, h2⟩
      · rw [hr'] at t1 t2
        refine ⟨(s1.trans t1).mono ?_, fun ids hids => by cases hids⟩
        rintro k (rfl | hk)
        · exact List.mem_cons_self
        · exact List.mem_cons_of_mem _ hk
      · rw [hr'] at t1 t2
        refine ⟨(s1.trans t1).mono ?_, fun ids hids => ?_⟩
        · rintro k (rfl | hk)
          · exact List.mem_cons_self
          · exact List.mem_cons_of_mem _ hk
        · cases hids
          intro id hid
          rcases List.mem_cons.mp hid with rfl | hid
          · obtain ⟨h3, o, h4, h5⟩ := s2 _ rfl
            refine ⟨h3.imp (fun h => by rw [h]; exact List.mem_cons_self) fun h => h, t1.on _ _ h4 h5⟩
          · obtain ⟨h3, h4⟩ := t2 _ rfl _ hid
            exact ⟨h3.imp (List.mem_cons_of_mem _) fun h => s1.len.trans h, h4⟩

theorem finish_step {C : Casts} (a : ParticleArgs) (r : Ten ℝ) (mats : Option (List ℕ)) {h : Heap} (hw : h.Wf C)
    (hm : ∀ id ∈ mats.getD [], ∃ o, h[id]? = some o ∧ o.On C a.dev) :
    HStep C a.dev (fun k => a.matEnv = .obj k) h (finishParticle C a r mats h).2 ∧
    ∀ p, (finishParticle C a r mats h).1 = .ok p → p.dev = a.dev ∧ p.rDev = a.dev ∧ p.epsDev = a.dev ∧
      ∀ id ∈ p.ids, (id ∈ mats.getD [] ∨ a.matEnv = .obj id ∨ h.length ≤ id) ∧
        ∃ o, (finishParticle C a r mats h).2[id]? = some o ∧ o.On C a.dev := by
  obtain ⟨s1, s2⟩ := asMaterial_step a.dev a.matEnv hw
  unfold finishParticle
  rcases hr : asMaterial C a.dev a.matEnv h with ⟨e | i, h1⟩
  · rw [hr] at s1
    exact ⟨s1, fun p hp => by cases hp⟩
  · rw [hr] at s1 s2
    refine ⟨s1, fun p hp => ?_⟩
    cases hp
    refine ⟨rfl, rfl, rfl, fun id hid => ?_⟩
    rcases List.mem_append.mp hid with hid | hid
    · obtain ⟨o, h3, h4⟩ := hm id hid
      exact ⟨.inl hid, s1.on _ _ h3 h4⟩
    · have : id = i := List.mem_singleton.mp hid
      subst this
      obtain ⟨h3, h4⟩ := s2 _ rfl
      exact ⟨.inr h3, h4⟩

theorem init_step {C : Casts} (a : ParticleArgs) {h : Heap} (hw : h.Wf C) :
    HStep C a.dev (fun k => MatArg.obj k ∈ a.allMats) h (Particle.init C a h).2 ∧
    ∀ p, (Particle.init C a h).1 = .ok p → p.dev = a.dev ∧ p.rDev = a.dev ∧ p.epsDev = a.dev ∧
      ∀ id ∈ p.ids, (MatArg.obj id ∈ a.allMats ∨ h.length ≤ id) ∧
        ∃ o, (Particle.init C a h).2[id]? = some o ∧ o.On C a.dev := by
  have henv : a.matEnv ∈ a.allMats := by simp [ParticleArgs.allMats]
  -- converting materials, then the environment
  have key : ∀ (ms : List MatArg), (∀ m ∈ ms, m ∈ a.allMats) → ∀ (r : Ten ℝ) ids h1,
      asMaterials C a.dev ms h = (.ok ids, h1) →
      HStep C a.dev (fun k => MatArg.obj k ∈ a.allMats) h (finishParticle C a r (some ids) h1).2 ∧
      ∀ p, (finishParticle C a r (some ids) h1).1 = .ok p → p.dev = a.dev ∧ p.rDev = a.dev ∧ p.epsDev = a.dev ∧
      ∀ id ∈ p.ids, (MatArg.obj id ∈ a.allMats ∨ h.length ≤ id) ∧
        ∃ o, (finishParticle C a r (some ids) h1).2[id]? = some o ∧ o.On C a.dev := by
    intro ms hms r ids h1 hr
    obtain ⟨s1, s2⟩ := asMaterials_step a.dev ms hw
    rw [hr] at s1 s2
    have s2' := s2 _ rfl
    obtain ⟨t1, t2⟩ := finish_step a r (some ids) s1.wf fun id hid => (s2' id hid).2
    refine ⟨(s1.trans t1).mono ?_, fun p hp => ?_⟩
    · rintro k (hk | hk)
      · exact hms _ hk
      · rw [← hk]; exact henv
    · obtain ⟨u1, u2, u3, u4⟩ := t2 p hp
      refine ⟨u1, u2, u3, fun id hid => ⟨?_, (u4 id hid).2⟩⟩
      rcases (u4 id hid).1 with h3 | h3 | h3
      · exact (s2' id h3).1.imp (hms _) fun h => h
      · exact .inl (by rw [← h3]; exact henv)
      · exact .inr (s1.len.trans h3)
  have keyErr : ∀ (ms : List MatArg), (∀ m ∈ ms, m ∈ a.allMats) → ∀ h1, h1 = (asMaterials C a.dev ms h).2 →
      HStep C a.dev (fun k => MatArg.obj k ∈ a.allMats) h h1 := by
    rintro ms hms h1 rfl
    exact (asMaterials_step a.dev ms hw).1.mono fun k hk => hms _ hk
  unfold Particle.init
  by_cases hu : a.usesLayers = true
  · rw [if_pos hu]
    rcases layerChecks a with e | r
    · exact ⟨HStep.refl hw, fun p hp => by cases hp⟩
    simp only
    rcases hm : a.matLayers with _ | ms
    · obtain ⟨t1, t2⟩ := finish_step a r none hw (by simp)
      refine ⟨t1.mono fun k hk => by rw [← hk]; exact henv, fun p hp => ?_⟩
      obtain ⟨u1, u2, u3, u4⟩ := t2 p hp
      refine ⟨u1, u2, u3, fun id hid => ⟨?_, (u4 id hid).2⟩⟩
      rcases (u4 id hid).1 with h3 | h3 | h3
      · simp at h3
      · exact .inl (by rw [← h3]; exact henv)
      · exact .inr h3
    · have hms : ∀ m ∈ ms, m ∈ a.allMats := fun m hm' => by simp [ParticleArgs.allMats, hm, hm']
      simp only
      rcases hr : asMaterials C a.dev ms h with ⟨e | ids, h1⟩
      · exact ⟨keyErr ms hms _ (by rw [hr]), fun p hp => by cases hp⟩
      · exact key ms hms r ids h1 hr
  · rw [if_neg hu]
    rcases hc : legacyChecks a with e | ⟨core, shell⟩
    · exact ⟨HStep.refl hw, fun p hp => by cases hp⟩
    simp only
    obtain ⟨hrc, hmc, hs⟩ := legacyChecks_inv hc
    have hms : ∀ m ∈ core.2 :: (shell.map (·.2)).toList, m ∈ a.allMats := by
      intro m hm'
      rcases hs with ⟨rfl, -, -⟩ | ⟨s, rfl, hs1, hs2⟩
      · simp at hm'; simp [ParticleArgs.allMats, hmc, hm']
      · simp at hm'
        rcases hm' with rfl | rfl <;> simp [ParticleArgs.allMats, hmc, hs2]
    rcases legacyRadii core.1 shell with e | r
    · exact ⟨HStep.refl hw, fun p hp => by cases hp⟩
    simp only
    rcases hr : asMaterials C a.dev (core.2 :: (shell.map (·.2)).toList) h with ⟨e | ids, h1⟩
    · rw [hr]; exact ⟨keyErr _ hms _ (by rw [hr]), fun p hp => by cases hp⟩
    rw [hr]
    simp only
    by_cases h2 : r.ndim ≠ 1
    · rw [if_pos h2]; exact ⟨keyErr _ hms _ (by rw [hr]), fun p hp => by cases hp⟩
    rw [if_neg h2]
    by_cases h3 : ¬ radiiIncreasing r
    · rw [if_pos h3]; exact ⟨keyErr _ hms _ (by rw [hr]), fun p hp => by cases hp⟩
    rw [if_neg h3]
    exact key _ hms r ids h1 hr

theorem foldl_modify_step {C : Casts} (dev : Device) : ∀ (ids : List ℕ) {h : Heap}, h.Wf C →
    HStep C dev (· ∈ ids) h (ids.foldl (fun h id => h.modify id fun o => o.setDevice dev) h) ∧
    ∀ id ∈ ids, id < h.length →
      ∃ o, (ids.foldl (fun h id => h.modify id fun o => o.setDevice dev) h)[id]? = some o ∧ o.On C dev := by
  intro ids
  induction ids with
  | nil => intro h hw; exact ⟨HStep.refl hw, by simp⟩
  | cons i ids ih =>
    intro h hw
    obtain ⟨s1, s2⟩ := HStep.modify (dev := dev) hw i
    obtain ⟨t1, t2⟩ := ih s1.wf
    rw [List.foldl_cons]
    refine ⟨(s1.trans t1).mono ?_, fun id hid hlt => ?_⟩
    · rintro k (rfl | hk)
      · exact List.mem_cons_self
      · exact List.mem_cons_of_mem _ hk
    · rcases List.mem_cons.mp hid with rfl | hid
      · obtain ⟨o, h1, h2⟩ := s2 hlt
        exact t1.on _ _ h1 h2
      · exact t2 id hid (by simpa using hlt)

/-- Reading keeps every object on its device. -/
structure HRead (C : Casts) (h h' : Heap) : Prop where
  wf : Heap.Wf C h'
  len : h'.length = h.length
  on : ∀ (k : ℕ) (o : MatObj) (dev : Device), h[k]? = some o → o.On C dev → ∃ o', h'[k]? = some o' ∧ o'.On C dev

theorem HRead.refl {C : Casts} {h : Heap} (hw : h.Wf C) : HRead C h h := ⟨hw, rfl, fun _ o _ e ho => ⟨o, e, ho⟩⟩

theorem HRead.trans {C : Casts} {h h' h'' : Heap} (s : HRead C h h') (t : HRead C h' h'') : HRead C h h'' :=
  ⟨t.wf, t.len.trans s.len, fun k o dev e ho => by
    obtain ⟨o', e', ho'⟩ := s.on k o dev e ho
    exact t.on k o' dev e' ho'⟩

theorem heapEpsilon_step {C : Casts} (wl : DTen ℝ) (id : ℕ) {h : Heap} (hw : h.Wf C) :
    HRead C h (heapEpsilon C wl id h).2 ∧
    ∀ (o : MatObj) dev, h[id]? = some o → o.On C dev → ∀ t, (heapEpsilon C wl id h).1 = .ok t → t.dev = dev := by
  unfold heapEpsilon
  rcases ho : h[id]? with _ | o
  · exact ⟨HRead.refl hw, fun o _ e => by cases e⟩
  · have hlt : id < h.length := (List.getElem?_eq_some_iff.mp ho).1
    refine ⟨⟨?_, by simp, fun k o' dev e h1 => ?_⟩, fun o' dev e h1 t ht => ?_⟩
    · intro o' ho'
      rcases List.mem_or_eq_of_mem_set ho' with h1 | h1
      · exact hw _ h1
      · obtain ⟨d, hd⟩ := hw o (List.mem_of_getElem? ho)
        rw [h1]
        exact ⟨d, (hd.getEpsilon wl).1⟩
    · by_cases hk : id = k
      · subst hk
        rw [ho] at e
        cases e
        exact ⟨_, by rw [List.getElem?_set_self hlt], (h1.getEpsilon wl).1⟩
      · exact ⟨o', by rw [List.getElem?_set_ne hk]; exact e, h1⟩
    · cases e
      exact (h1.getEpsilon wl).2 t ht

theorem heapEpsilons_step {C : Casts} (wl : DTen ℝ) : ∀ (ids : List ℕ) {h : Heap}, h.Wf C →
    HRead C h (heapEpsilons C wl ids h).2 ∧
    ∀ dev, (∀ id ∈ ids, ∃ o, h[id]? = some o ∧ o.On C dev) → ∀ l, (heapEpsilons C wl ids h).1 = .ok l →
      ∀ t ∈ l, t.dev = dev := by
  intro ids
  induction ids with
  | nil =>
    intro h hw
    refine ⟨HRead.refl hw, fun dev _ l hl => ?_⟩
    cases hl
    simp
  | cons id ids ih =>
    intro h hw
    obtain ⟨s1, s2⟩ := heapEpsilon_step wl id hw
    unfold heapEpsilons
    rcases hr : heapEpsilon C wl id h with ⟨e | t, h1⟩
    · rw [hr] at s1
      exact ⟨s1, fun _ _ l hl => by cases hl⟩
    · rw [hr] at s1 s2
      obtain ⟨t1, t2⟩ := ih s1.wf
      simp only
      rcases hr' : heapEpsilons C wl ids h1 with ⟨e | ts, h2⟩
      · rw [hr'] at t1
        exact ⟨s1.trans t1, fun _ _ l hl => by cases hl⟩
      · rw [hr'] at t1 t2
        refine ⟨s1.trans t1, fun dev hids l hl => ?_⟩
        cases hl
        intro u hu
        rcases List.mem_cons.mp hu with rfl | hu
        · obtain ⟨o, h3, h4⟩ := hids id List.mem_cons_self
          exact s2 o dev h3 h4 _ rfl
        · refine t2 dev (fun i hi => ?_) _ rfl u hu
          obtain ⟨o, h3, h4⟩ := hids i (List.mem_cons_of_mem _ hi)
          exact s1.on _ _ _ h3 h4

theorem stackDTen_dev {l : List (DTen ℂ)} {t : DTen ℂ} (h : stackDTen l = .ok t) : ∃ u ∈ l, t.dev = u.dev := by
  rcases l with _ | ⟨u, l⟩
  · cases h
  · simp only [stackDTen] at h
    split_ifs at h
    cases h
    exact ⟨u, List.mem_cons_self, rfl⟩

theorem permittivities_step {C : Casts} (p : Particle) (k0 : DTen ℝ) {h : Heap} (hw : h.Wf C) :
    HRead C h (p.permittivities C k0 h).2 ∧
    ((p.epsDev = p.dev ∧ ∀ id ∈ p.ids, ∃ o, h[id]? = some o ∧ o.On C p.dev) → ∀ e, (p.permittivities C k0 h).1 = .ok e →
      e.1.dev = p.dev ∧ e.2.dev = p.dev) := by
  obtain ⟨s1, s2⟩ := heapEpsilon_step (wavelengths p.dev k0) p.env hw
  unfold Particle.permittivities
  simp only
  rcases hr : heapEpsilon C (wavelengths p.dev k0) p.env h with ⟨e | env, h1⟩
  · rw [hr] at s1
    exact ⟨s1, fun _ e he => by cases he⟩
  rw [hr] at s1 s2
  have henv : (∀ id ∈ p.ids, ∃ o, h[id]? = some o ∧ o.On C p.dev) → env.dev = p.dev := by
    intro hids
    obtain ⟨o, h3, h4⟩ := hids p.env (by simp [Particle.ids])
    exact s2 o p.dev h3 h4 _ rfl
  simp only
  rcases he : p.epsLayers with _ | el
  · simp only
    obtain ⟨t1, t2⟩ := heapEpsilons_step (wavelengths p.dev k0) (p.mats.getD []) s1.wf
    rcases hr' : heapEpsilons C (wavelengths p.dev k0) (p.mats.getD []) h1 with ⟨e | l, h2⟩
    · rw [hr'] at t1
      exact ⟨s1.trans t1, fun _ e he => by cases he⟩
    · rw [hr'] at t1 t2
      refine ⟨s1.trans t1, fun ⟨_, hids⟩ e hok => ?_⟩
      simp only at hok
      cases hst : stackDTen l with
      | error e' => rw [hst] at hok; cases hok
      | ok t =>
        rw [hst] at hok
        cases hok
        obtain ⟨u, hu, hud⟩ := stackDTen_dev hst
        refine ⟨hud.trans (t2 p.dev (fun id hid => ?_) _ rfl u hu), henv hids⟩
        obtain ⟨o, h3, h4⟩ := hids id (by simp only [Particle.ids, List.mem_append]; exact .inl hid)
        exact s1.on _ _ _ h3 h4
  · refine ⟨s1, fun ⟨hd, hids⟩ e hok => ?_⟩
    cases hok
    exact ⟨hd, henv hids⟩

/-! ## Invariant of a program -/

/-- Everything a particle holds is on its device. -/
def Particle.On (C : Casts) (h : Heap) (p : Particle) : Prop :=
  p.rDev = p.dev ∧ p.epsDev = p.dev ∧ ∀ id ∈ p.ids, ∃ o, h[id]? = some o ∧ o.On C p.dev

/-- No object is shared. -/
def Apart (p q : Particle) : Prop := ∀ id ∈ p.ids, id ∉ q.ids

structure World.Inv (C : Casts) (w : World) : Prop where
  wf : w.heap.Wf C
  on : ∀ p ∈ w.parts, p.On C w.heap
  apart : w.parts.Pairwise Apart

theorem Particle.On.of_read {C : Casts} {h h' : Heap} (s : HRead C h h') {p : Particle} (hp : p.On C h) : p.On C h' :=
  ⟨hp.1, hp.2.1, fun id hid => by
    obtain ⟨o, h1, h2⟩ := hp.2.2 id hid
    exact s.on _ _ _ h1 h2⟩

theorem Particle.On.of_step {C : Casts} {dev : Device} {A : ℕ → Prop} {h h' : Heap} (s : HStep C dev A h h') {p : Particle}
    (hp : p.On C h) (hA : ∀ id ∈ p.ids, ¬ A id) : p.On C h' :=
  ⟨hp.1, hp.2.1, fun id hid => by
    obtain ⟨o, h1, h2⟩ := hp.2.2 id hid
    refine ⟨o, ?_, h2⟩
    rw [s.same id (List.getElem?_eq_some_iff.mp h1).1 (hA id hid)]
    exact h1⟩

theorem World.Inv.step {C : Casts} {w : World} (hi : w.Inv C) (op : WOp)
    (hu : ∀ a, op = .create a → ∀ id, MatArg.obj id ∈ a.allMats → ∀ p ∈ w.parts, id ∉ p.ids) : (w.step C op).Inv C := by
  have hlt : ∀ p ∈ w.parts, ∀ id ∈ p.ids, id < w.heap.length := fun p hp id hid => by
    obtain ⟨o, h1, -⟩ := (hi.on p hp).2.2 id hid
    exact (List.getElem?_eq_some_iff.mp h1).1
  cases op with
  | newConst eps device leaves =>
    have s := HStep.append (dev := device) hi.wf (o := .const ⟨C.c64 eps, device, device, leaves⟩) (d := device) ⟨rfl, rfl⟩
    exact ⟨s.wf, fun p hp => (hi.on p hp).of_step s fun _ _ h => h, hi.apart⟩
  | newDb m device =>
    have s := HStep.append (dev := device) hi.wf (o := .db (MatDb.new m device)) (d := device)
      ⟨⟨rfl, rfl, by simp [MatDb.new]⟩, rfl⟩
    exact ⟨s.wf, fun p hp => (hi.on p hp).of_step s fun _ _ h => h, hi.apart⟩
  | evalMat id wl =>
    obtain ⟨s, -⟩ := heapEpsilon_step wl id hi.wf
    exact ⟨s.wf, fun p hp => (hi.on p hp).of_read s, hi.apart⟩
  | create a =>
    obtain ⟨s1, s2⟩ := init_step a hi.wf
    have hold : ∀ p ∈ w.parts, p.On C (Particle.init C a w.heap).2 := fun p hp =>
      (hi.on p hp).of_step s1 fun id hid hA => hu a rfl id hA p hp hid
    unfold World.step
    simp only
    rcases hr : Particle.init C a w.heap with ⟨e | p, h1⟩
    · rw [hr] at s1 hold
      exact ⟨s1.wf, hold, hi.apart⟩
    · rw [hr] at s1 s2 hold
      obtain ⟨u1, u2, u3, u4⟩ := s2 p rfl
      refine ⟨s1.wf, fun q hq => ?_, ?_⟩
      · simp only [keepOk, List.mem_append, List.mem_singleton] at hq
        rcases hq with hq | rfl
        · exact hold q hq
        · refine ⟨by rw [u1, u2], by rw [u1, u3], fun id hid => ?_⟩
          rw [u1]
          exact (u4 id hid).2
      · simp only [keepOk]
        refine List.pairwise_append.mpr ⟨hi.apart, List.pairwise_singleton _ _, fun q hq p' hp' id hid hid' => ?_⟩
        rw [List.mem_singleton.mp hp'] at hid'
        rcases (u4 id hid').1 with h3 | h3
        · exact hu a rfl id h3 q hq hid
        · exact absurd (hlt q hq id hid) (by omega)
  | setDevice i device =>
    unfold World.step
    simp only
    rcases hp : w.parts[i]? with _ | p
    · exact hi
    · obtain ⟨s1, s2⟩ := foldl_modify_step device p.ids hi.wf
      obtain ⟨hil, hpi⟩ := List.getElem?_eq_some_iff.mp hp
      have hpm : p ∈ w.parts := List.mem_of_getElem? hp
      refine ⟨s1.wf, fun q hq => ?_, ?_⟩
      · obtain ⟨j, hj⟩ := List.mem_iff_getElem?.mp hq
        by_cases hij : i = j
        · subst hij
          simp only [List.getElem?_set_self hil, Option.some.injEq] at hj
          subst hj
          refine ⟨rfl, rfl, fun id hid => s2 id hid (hlt p hpm id hid)⟩
        · simp only [List.getElem?_set_ne hij] at hj
          refine (hi.on q (List.mem_of_getElem? hj)).of_step s1 fun id hid hA => ?_
          obtain ⟨hjl, hqj⟩ := List.getElem?_eq_some_iff.mp hj
          rcases Nat.lt_or_gt_of_ne hij with hlt' | hlt'
          · exact (List.pairwise_iff_getElem.mp hi.apart i j hil hjl hlt') id (by rw [hpi]; exact hA) (by rw [hqj]; exact hid)
          · exact (List.pairwise_iff_getElem.mp hi.apart j i hjl hil hlt') id (by rw [hqj]; exact hid) (by rw [hpi]; exact hA)
      · refine List.pairwise_iff_getElem.mpr fun j k hj hk hjk => ?_
        simp only [List.length_set] at hj hk
        have hids : ∀ (j : ℕ) (hj : j < w.parts.length) (hj' : j < (w.parts.set i (p.setDevice device w.heap).1).length),
            ((w.parts.set i (p.setDevice device w.heap).1)[j]).ids = (w.parts[j]).ids := by
          intro j hj hj'
          rw [List.getElem_set]
          by_cases hij : i = j
          · subst hij; rw [if_pos rfl, hpi]; rfl
          · rw [if_neg hij]
        have := List.pairwise_iff_getElem.mp hi.apart j k hj hk hjk
        unfold Apart at this ⊢
        rw [hids j hj, hids k hk]
        exact this
  | query i k0 =>
    unfold World.step
    simp only
    rcases hp : w.parts[i]? with _ | p
    · exact hi
    · obtain ⟨s, -⟩ := permittivities_step p k0 hi.wf
      exact ⟨s.wf, fun p hp => (hi.on p hp).of_read s, hi.apart⟩

theorem World.Inv.run {C : Casts} : ∀ (ops : List WOp) {w : World}, w.Inv C → Spec.Unshared C w ops → (w.run C ops).Inv C := by
  intro ops
  induction ops with
  | nil => intro w hi _; exact hi
  | cons op ops ih =>
    intro w hi hu
    exact ih (hi.step op hu.1) hu.2

/-! ## C31 -/

/-- C31: after any history without sharing, all tensors and materials of every particle are on the particle's device, and
so are the permittivities it reports. -/
theorem C31_consistent (C : Casts) (ops : List WOp) (hu : Spec.Unshared C ⟨[], []⟩ ops) :
    ∀ p ∈ ((⟨[], []⟩ : World).run C ops).parts, p.rDev = p.dev ∧ p.epsDev = p.dev ∧
      (∀ id ∈ p.ids, ∃ o, ((⟨[], []⟩ : World).run C ops).heap[id]? = some o ∧ ∀ d ∈ Spec.devices o, d = p.dev) ∧
      ∀ k0 e, (p.permittivities C k0 ((⟨[], []⟩ : World).run C ops).heap).1 = .ok e → e.1.dev = p.dev ∧ e.2.dev = p.dev := by
  intro p hp
  have hi := World.Inv.run ops (w := ⟨[], []⟩) (C := C) ⟨by simp [Heap.Wf], by simp, List.Pairwise.nil⟩ hu
  obtain ⟨h1, h2, h3⟩ := hi.on p hp
  refine ⟨h1, h2, fun id hid => ?_, fun k0 e he => (permittivities_step p k0 hi.wf).2 ⟨h2, h3⟩ e he⟩
  obtain ⟨o, h4, h5⟩ := h3 id hid
  exact ⟨o, h4, h5.devices⟩

/-- Device of particle `i`. -/
def World.deviceOf (w : World) (i : ℕ) : Option Device := (w.parts[i]?).map (·.dev)

theorem World.step_device (C : Casts) (w : World) (op : WOp) (i : ℕ) (d : Device) (h : w.deviceOf i = some d) :
    (w.step C op).deviceOf i = some (match op with | .setDevice j e => if j = i then e else d | _ => d) := by
  unfold World.deviceOf at h ⊢
  obtain ⟨p, hp, rfl⟩ := Option.map_eq_some_iff.mp h
  obtain ⟨hl, hpi⟩ := List.getElem?_eq_some_iff.mp hp
  cases op with
  | newConst eps device leaves => simp [World.step, hp]
  | newDb m device => simp [World.step, hp]
  | evalMat id wl => simp [World.step, hp]
  | create a =>
    unfold World.step
    simp only
    rcases (Particle.init C a w.heap).1 with e | q
    · simp [keepOk, hp]
    · simp [keepOk, List.getElem?_append_left hl, hp]
  | setDevice j e =>
    unfold World.step
    simp only
    by_cases hj : j = i
    · subst hj
      simp [hp, List.getElem?_set_self hl, Particle.setDevice]
    · rcases hq : w.parts[j]? with _ | q
      · simp [hp, hj]
      · simp [List.getElem?_set_ne hj, hp, hj]
  | query j k0 =>
    unfold World.step
    simp only
    rcases w.parts[j]? with _ | q <;> simp [hp]

/-- C31: the device of a particle is the one requested last, whatever else happens. -/
theorem C31_last (C : Casts) (i : ℕ) : ∀ (ops : List WOp) (w : World) (d : Device), w.deviceOf i = some d →
    (w.run C ops).deviceOf i
      = some (ops.foldl (fun d op => match op with | .setDevice j e => if j = i then e else d | _ => d) d) := by
  intro ops
  induction ops with
  | nil => intro w d h; exact h
  | cons op ops ih => intro w d h; exact ih (w.step C op) _ (w.step_device C op i d h)

/-- C31: the device of a new particle. -/
theorem C31_new (C : Casts) (w : World) (a : ParticleArgs) {p : Particle} {h : Heap}
    (hok : Particle.init C a w.heap = (.ok p, h)) :
    (w.step C (.create a)).deviceOf w.parts.length = some (a.device.getD "cpu") := by
  have hp : p.dev = a.dev := by
    rcases init_inv hok with ⟨r, -, -, -, e⟩ | ⟨r, ms, ids, h1, -, -, -, -, e⟩ | ⟨core, shell, r, ids, h1, -, -, -, -, -, -, e⟩ <;>
      · obtain ⟨-, id, -, rfl⟩ := finish_inv e; rfl
  simp [World.step, hok, keepOk, World.deviceOf, hp, ParticleArgs.dev]

/-- The arguments of a homogeneous sphere made of object 0. -/
noncomputable def sphereOf (id : ℕ) : ParticleArgs := { rLayers := some (Ten.ofList 0 [50]), matLayers := some [.obj id] }

theorem sphereOf_step (C : Casts) (o : MatObj) (h : Heap) :
    Particle.init C (sphereOf 0) (o :: h)
      = (.ok ((sphereOf 0).build (Ten.ofList 0 [50]) (some [0]) (h.length + 1)),
        (o.setDevice "cpu" :: h) ++ [.const ⟨C.c64 (1 ^ 2), "cpu", "cpu", []⟩]) := by
  have hk : layerChecks (sphereOf 0) = .ok (Ten.ofList 0 [50]) :=
    layerChecks_of (L := 1) rfl rfl rfl le_rfl (.inr ⟨_, rfl, rfl, rfl⟩)
  have hu : (sphereOf 0).usesLayers = true := rfl
  have hm : (sphereOf 0).matLayers = some [.obj 0] := rfl
  have hd : (sphereOf 0).dev = "cpu" := rfl
  have hv : (sphereOf 0).matEnv = .num 1 := rfl
  unfold Particle.init
  simp only [hu, if_true, hk, hm, asMaterials, asMaterial_obj, List.length_cons, Nat.zero_lt_succ, finishParticle, hv,
    asMaterial_num, hd, List.modify_zero_cons]

/-- C31, negation with sharing: two spheres of one gold object; moving the first takes the material of the second away. -/
theorem C31_sharing (C : Casts) (m : Dispersion) :
    let w := (⟨[], []⟩ : World).run C [.newDb m "cpu", .create (sphereOf 0), .create (sphereOf 0), .setDevice 0 "cuda"]
    ∃ p o, w.parts[1]? = some p ∧ p.dev = "cpu" ∧ 0 ∈ p.ids ∧ w.heap[0]? = some o ∧ ∀ d ∈ Spec.devices o, d = "cuda" := by
  intro w
  have e : w = (⟨[MatObj.db (MatDb.new m "cpu")], []⟩ : World).run C [.create (sphereOf 0), .create (sphereOf 0), .setDevice 0 "cuda"] :=
    rfl
  simp only [World.run, List.foldl_cons, List.foldl_nil, World.step, sphereOf_step, keepOk, List.nil_append, List.cons_append,
    List.length_cons, List.length_nil, Particle.setDevice, ParticleArgs.build, Particle.ids] at e
  refine ⟨_, .db ((MatDb.new m "cpu").setDevice "cuda"), by rw [e]; rfl, rfl, by simp [Particle.ids], by rw [e]; rfl, ?_⟩
  simp [Spec.devices, MatDb.setDevice, MatDb.new]

/-- A history without sharing. -/
example (C : Casts) (m : Dispersion) : Spec.Unshared C ⟨[], []⟩ [.newDb m "cpu", .create (sphereOf 0), .setDevice 0 "cuda"] := by
  refine ⟨fun a h => by simp at h, fun a _ id _ p hp => ?_, fun a h => by simp at h, trivial⟩
  simp [World.step] at hp

/-! ## C32 -/

/-- Object `id` is a constant material of permittivity `e`. -/
def Heap.Const (h : Heap) (id : ℕ) (e : ℂ) : Prop := ∃ c, h[id]? = some (.const c) ∧ c.eps = e

/-- Constants stay. -/
def HKeep (h h' : Heap) : Prop := ∀ id e, h.Const id e → h'.Const id e

theorem HKeep.append (h : Heap) (l : List MatObj) : HKeep h (h ++ l) := by
  rintro id e ⟨c, h1, h2⟩
  exact ⟨c, by rw [List.getElem?_append_left (List.getElem?_eq_some_iff.mp h1).1]; exact h1, h2⟩

theorem HKeep.modify (h : Heap) (i : ℕ) (dev : Device) : HKeep h (h.modify i fun o => o.setDevice dev) := by
  rintro id e ⟨c, h1, h2⟩
  unfold Heap.Const
  rw [List.getElem?_modify, h1]
  by_cases hi : i = id
  · exact ⟨c.setDevice dev, by simp [hi, MatObj.setDevice], h2⟩
  · exact ⟨c, by simp [hi], h2⟩

theorem asMaterial_keep (C : Casts) (dev : Device) (m : MatArg) (h : Heap) : HKeep h (asMaterial C dev m h).2 := by
  rcases asMaterial_cases C dev m h with ⟨c, -, -, e, -, -⟩ | ⟨i, -, -, e⟩ | ⟨_, e, -⟩ <;> rw [e]
  · exact HKeep.append h _
  · exact HKeep.modify h i dev
  · exact fun _ _ h => h

theorem asMaterials_keep (C : Casts) (dev : Device) : ∀ (ms : List MatArg) (h : Heap), HKeep h (asMaterials C dev ms h).2 := by
  intro ms
  induction ms with
  | nil => intro h; exact fun _ _ h => h
  | cons m ms ih =>
    intro h
    have h1 := asMaterial_keep C dev m h
    unfold asMaterials
    rcases hr : asMaterial C dev m h with ⟨e | i, h'⟩
    · rw [hr] at h1; exact h1
    · rw [hr] at h1
      have h2 := ih h'
      simp only
      rcases hr' : asMaterials C dev ms h' with ⟨e | is, h''⟩ <;> rw [hr'] at h2 <;>
        exact fun id e hc => h2 id e (h1 id e hc)

theorem asMaterial_scalar (C : Casts) (dev : Device) (m : MatArg) (h : Heap) {n : ℂ} (hn : Spec.scalarOf m = some n) :
    (asMaterial C dev m h).1 = .ok h.length ∧ (asMaterial C dev m h).2.Const h.length (C.c64 (n ^ 2)) := by
  cases m with
  | num k =>
    cases hn
    rw [asMaterial_num]
    exact ⟨rfl, ⟨C.c64 (n ^ 2), dev, dev, []⟩, by simp, rfl⟩
  | tensor t leaves =>
    unfold Spec.scalarOf at hn
    by_cases hs : t.shape = []
    · simp only [if_pos hs, Option.some.injEq] at hn
      subst hn
      rw [asMaterial_ten C dev t leaves h hs]
      exact ⟨rfl, ⟨C.c64 (t.get [] ^ 2), dev, dev, leaves⟩, by simp, rfl⟩
    · simp only [if_neg hs] at hn
      cases hn
  | obj i => cases hn
  | other => cases hn

theorem asMaterials_scalar (C : Casts) (dev : Device) : ∀ (ms : List MatArg) (h : Heap) (ids : List ℕ) (h' : Heap),
    asMaterials C dev ms h = (.ok ids, h') → ids.length = ms.length ∧
      ∀ (i : ℕ) m n id, ms[i]? = some m → Spec.scalarOf m = some n → ids[i]? = some id → h'.Const id (C.c64 (n ^ 2)) := by
  intro ms
  induction ms with
  | nil =>
    intro h ids h' e
    cases e
    exact ⟨rfl, by simp⟩
  | cons m ms ih =>
    intro h ids h' e
    unfold asMaterials at e
    rcases hr : asMaterial C dev m h with ⟨e1 | i, h1⟩
    · rw [hr] at e; cases e
    rw [hr] at e
    simp only at e
    rcases hr' : asMaterials C dev ms h1 with ⟨e1 | is, h2⟩
    · rw [hr'] at e; cases e
    rw [hr'] at e
    cases e
    obtain ⟨hl, hi⟩ := ih h1 is _ hr'
    refine ⟨by simp [hl], fun j m' n id hm hn hid => ?_⟩
    rcases j with _ | j
    · simp only [List.getElem?_cons_zero, Option.some.injEq] at hm hid
      subst hm hid
      obtain ⟨k1, k2⟩ := asMaterial_scalar C dev m h hn
      rw [hr] at k1 k2
      simp only [Except.ok.injEq] at k1
      subst k1
      have := asMaterials_keep C dev ms h1 _ _ k2
      rw [hr'] at this
      exact this
    · simp only [List.getElem?_cons_succ] at hm hid
      exact hi j m' n id hm hn hid

/-- The objects of a new particle. -/
theorem init_scalar (C : Casts) (a : ParticleArgs) {h h' : Heap} {p : Particle} (hok : Particle.init C a h = (.ok p, h')) :
    (∀ n, Spec.scalarOf a.matEnv = some n → h'.Const p.env (C.c64 (n ^ 2))) ∧
    (p.epsLayers = none → ∃ ids, p.mats = some ids ∧ ids.length = (Spec.layerMats a).length ∧ ids ≠ [] ∧
      ∀ (i : ℕ) m n id, (Spec.layerMats a)[i]? = some m → Spec.scalarOf m = some n → ids[i]? = some id →
        h'.Const id (C.c64 (n ^ 2))) := by
  have key : ∀ (ms : List MatArg), ms = Spec.layerMats a → ms ≠ [] → ∀ r ids h1, asMaterials C a.dev ms h = (.ok ids, h1) →
      finishParticle C a r (some ids) h1 = (.ok p, h') →
      (∀ n, Spec.scalarOf a.matEnv = some n → h'.Const p.env (C.c64 (n ^ 2))) ∧
      (p.epsLayers = none → ∃ ids, p.mats = some ids ∧ ids.length = (Spec.layerMats a).length ∧ ids ≠ [] ∧
      ∀ (i : ℕ) m n id, (Spec.layerMats a)[i]? = some m → Spec.scalarOf m = some n → ids[i]? = some id →
        h'.Const id (C.c64 (n ^ 2))) := by
    rintro ms rfl hne r ids h1 e1 e2
    obtain ⟨-, id, e3, rfl⟩ := finish_inv e2
    obtain ⟨k1, k2⟩ := asMaterials_scalar C a.dev _ h ids h1 e1
    refine ⟨fun n hn => ?_, fun _ => ⟨ids, rfl, k1, ?_, fun i m n id' hm hn hid => ?_⟩⟩
    · obtain ⟨u1, u2⟩ := asMaterial_scalar C a.dev a.matEnv h1 hn
      rw [e3] at u1 u2
      simp only [Except.ok.injEq] at u1
      subst u1
      exact u2
    · rintro rfl
      exact hne (List.length_eq_zero_iff.mp (by rw [← k1]; rfl))
    · have := asMaterial_keep C a.dev a.matEnv h1 _ _ (k2 i m n id' hm hn hid)
      rw [e3] at this
      exact this
  rcases init_inv hok with ⟨r, hu, hc, hm, e⟩ | ⟨r, ms, ids, h1, hu, hc, hm, e1, e⟩ | ⟨core, shell, r, ids, h1, hu, hc, hr, e1, -, -, e⟩
  · obtain ⟨-, id, e3, rfl⟩ := finish_inv e
    refine ⟨fun n hn => ?_, fun he => ?_⟩
    · obtain ⟨u1, u2⟩ := asMaterial_scalar C a.dev a.matEnv h hn
      rw [e3] at u1 u2
      simp only [Except.ok.injEq] at u1
      subst u1
      exact u2
    · obtain ⟨-, -, L, -, -, h3⟩ := layerChecks_ok hc
      rcases h3 with ⟨x, hx, -⟩ | ⟨ms, -, hms, -⟩
      · have : a.epsLayers = none := he
        rw [hx] at this
        cases this
      · rw [hm] at hms; cases hms
  · refine key ms (by simp [Spec.layerMats, hm]) ?_ r ids h1 e1 e
    obtain ⟨-, -, L, -, hL, h3⟩ := layerChecks_ok hc
    rintro rfl
    rcases h3 with ⟨x, -, hx⟩ | ⟨ms, -, hms, hl⟩
    · rw [hm] at hx; cases hx
    · rw [hm] at hms; cases hms; simp at hl; omega
  · obtain ⟨-, -, h3⟩ := usesLayers_false.mp hu
    obtain ⟨-, hmc, hs⟩ := legacyChecks_inv hc
    refine key _ ?_ (by simp) r ids h1 e1 e
    simp only [Spec.layerMats, h3, hmc]
    rcases hs with ⟨rfl, -, h4⟩ | ⟨s, rfl, -, h4⟩ <;> simp [h4]

theorem heapEpsilon_keep (C : Casts) (wl : DTen ℝ) (id : ℕ) (h : Heap) : HKeep h (heapEpsilon C wl id h).2 := by
  rintro k e ⟨c, h1, h2⟩
  unfold heapEpsilon
  rcases ho : h[id]? with _ | o
  · exact ⟨c, h1, h2⟩
  · by_cases hk : id = k
    · subst hk
      rw [h1] at ho
      cases ho
      exact ⟨c, by rw [List.getElem?_set_self (List.getElem?_eq_some_iff.mp h1).1]; rfl, h2⟩
    · exact ⟨c, by rw [List.getElem?_set_ne hk]; exact h1, h2⟩

theorem heapEpsilons_keep (C : Casts) (wl : DTen ℝ) : ∀ (ids : List ℕ) (h : Heap), HKeep h (heapEpsilons C wl ids h).2 := by
  intro ids
  induction ids with
  | nil => intro h; exact fun _ _ h => h
  | cons id ids ih =>
    intro h
    have h1 := heapEpsilon_keep C wl id h
    unfold heapEpsilons
    rcases hr : heapEpsilon C wl id h with ⟨e | t, h'⟩
    · rw [hr] at h1; exact h1
    · rw [hr] at h1
      have h2 := ih h'
      simp only
      rcases hr' : heapEpsilons C wl ids h' with ⟨e | is, h''⟩ <;> rw [hr'] at h2 <;>
        exact fun id e hc => h2 id e (h1 id e hc)

theorem permittivities_keep (C : Casts) (p : Particle) (k0 : DTen ℝ) (h : Heap) : HKeep h (p.permittivities C k0 h).2 := by
  have h1 := heapEpsilon_keep C (wavelengths p.dev k0) p.env h
  unfold Particle.permittivities
  simp only
  rcases hr : heapEpsilon C (wavelengths p.dev k0) p.env h with ⟨e | env, h'⟩
  · rw [hr] at h1; exact h1
  · rw [hr] at h1
    simp only
    rcases p.epsLayers with _ | el
    · have h2 := heapEpsilons_keep C (wavelengths p.dev k0) (p.mats.getD []) h'
      simp only
      rcases hr' : heapEpsilons C (wavelengths p.dev k0) (p.mats.getD []) h' with ⟨e | l, h''⟩ <;> rw [hr'] at h2 <;>
        exact fun id e hc => h2 id e (h1 id e hc)
    · exact h1

theorem init_keep (C : Casts) (a : ParticleArgs) (h : Heap) : HKeep h (Particle.init C a h).2 := by
  have hf : ∀ r mats h1, HKeep h h1 → HKeep h (finishParticle C a r mats h1).2 := by
    intro r mats h1 hk
    have h2 := asMaterial_keep C a.dev a.matEnv h1
    unfold finishParticle
    rcases hr : asMaterial C a.dev a.matEnv h1 with ⟨e | i, h'⟩ <;> rw [hr] at h2 <;>
      exact fun id e hc => h2 id e (hk id e hc)
  unfold Particle.init
  by_cases hu : a.usesLayers = true
  · rw [if_pos hu]
    rcases layerChecks a with e | r
    · exact fun _ _ h => h
    simp only
    rcases a.matLayers with _ | ms
    · exact hf r none h fun _ _ h => h
    · have h2 := asMaterials_keep C a.dev ms h
      simp only
      rcases hr : asMaterials C a.dev ms h with ⟨e | ids, h1⟩ <;> rw [hr] at h2
      · exact h2
      · exact hf r _ h1 h2
  · rw [if_neg hu]
    rcases legacyChecks a with e | ⟨core, shell⟩
    · exact fun _ _ h => h
    simp only
    rcases legacyRadii core.1 shell with e | r
    · exact fun _ _ h => h
    simp only
    have h2 := asMaterials_keep C a.dev (core.2 :: (shell.map (·.2)).toList) h
    rcases hr : asMaterials C a.dev (core.2 :: (shell.map (·.2)).toList) h with ⟨e | ids, h1⟩ <;> rw [hr] at h2 <;> rw [hr]
    · exact h2
    simp only
    by_cases h3 : r.ndim ≠ 1
    · rw [if_pos h3]; exact h2
    rw [if_neg h3]
    by_cases h4 : ¬ radiiIncreasing r
    · rw [if_pos h4]; exact h2
    rw [if_neg h4]
    exact hf r _ h1 h2

theorem World.step_keep (C : Casts) (w : World) (op : WOp) : HKeep w.heap (w.step C op).heap := by
  cases op with
  | newConst eps device leaves => exact HKeep.append _ _
  | newDb m device => exact HKeep.append _ _
  | evalMat id wl => exact heapEpsilon_keep C wl id w.heap
  | create a => exact init_keep C a w.heap
  | setDevice i device =>
    unfold World.step
    simp only
    rcases w.parts[i]? with _ | p
    · exact fun _ _ h => h
    · simp only [Particle.setDevice]
      generalize w.heap = h
      generalize p.ids = ids
      induction ids generalizing h with
      | nil => exact fun _ _ h => h
      | cons i ids ih => exact fun id e hc => ih _ id e (HKeep.modify h i device id e hc)
  | query i k0 =>
    unfold World.step
    simp only
    rcases w.parts[i]? with _ | p
    · exact fun _ _ h => h
    · exact permittivities_keep C p k0 w.heap

theorem World.run_keep (C : Casts) : ∀ (ops : List WOp) (w : World), HKeep w.heap (w.run C ops).heap := by
  intro ops
  induction ops with
  | nil => intro w; exact fun _ _ h => h
  | cons op ops ih => intro w; exact fun id e hc => ih (w.step C op) id e (w.step_keep C op id e hc)

/-- Shape of the result of `get_epsilon` for wavevectors `k0`: one value per wavevector of a one-dimensional list (axes of
length one dropped), else a single value. -/
def Spec.epsShape (k0 : List ℕ) : List ℕ := if (k0.filter (· ≠ 1)).length = 1 then k0.filter (· ≠ 1) else []

theorem MatConst.getEpsilon_val (c : MatConst) (wl : DTen ℝ) :
    (c.getEpsilon wl).ten.shape = Spec.epsShape wl.ten.shape ∧ (∀ idx, (c.getEpsilon wl).ten.get idx = c.eps) ∧
      (c.getEpsilon wl).dev = c.epsDev := by
  unfold MatConst.getEpsilon Spec.epsShape Ten.squeeze
  simp only
  split
  · rename_i n hn
    rw [hn]
    exact ⟨rfl, fun _ => rfl, rfl⟩
  · rename_i hn
    rw [if_neg]
    · exact ⟨rfl, fun _ => rfl, rfl⟩
    · intro hl
      obtain ⟨n, e⟩ := List.length_eq_one_iff.mp hl
      exact hn n e

theorem heapEpsilon_const {C : Casts} {wl : DTen ℝ} {id : ℕ} {h : Heap} {e : ℂ} (hc : h.Const id e) :
    ∃ t, (heapEpsilon C wl id h).1 = .ok t ∧ t.ten.shape = Spec.epsShape wl.ten.shape ∧ (∀ idx, t.ten.get idx = e) ∧
      ∀ dev, (∀ (o : MatObj), h[id]? = some o → o.On C dev) → t.dev = dev := by
  obtain ⟨c, h1, rfl⟩ := hc
  obtain ⟨e1, e2, e3⟩ := c.getEpsilon_val wl
  exact ⟨c.getEpsilon wl, by simp only [heapEpsilon, h1, MatObj.getEpsilon], e1, e2, fun dev hd => e3.trans (hd _ h1).2⟩

theorem heapEpsilons_get (C : Casts) (wl : DTen ℝ) : ∀ (ids : List ℕ) (h : Heap) (l : List (DTen ℂ)),
    (heapEpsilons C wl ids h).1 = .ok l → l.length = ids.length ∧
    ∀ (i : ℕ) id e, ids[i]? = some id → h.Const id e →
      ∃ t : DTen ℂ, l[i]? = some t ∧ t.ten.shape = Spec.epsShape wl.ten.shape ∧ ∀ idx, t.ten.get idx = e := by
  intro ids
  induction ids with
  | nil => intro h l hl; cases hl; exact ⟨rfl, by simp⟩
  | cons id ids ih =>
    intro h l hl
    have hk := heapEpsilon_keep C wl id h
    unfold heapEpsilons at hl
    rcases hr : heapEpsilon C wl id h with ⟨e | t, h'⟩
    · rw [hr] at hl; cases hl
    rw [hr] at hl hk
    simp only at hl
    rcases hr' : heapEpsilons C wl ids h' with ⟨e | ts, h''⟩
    · rw [hr'] at hl; cases hl
    rw [hr'] at hl
    cases hl
    obtain ⟨k1, k2⟩ := ih h' ts (by rw [hr'])
    refine ⟨by simp [k1], fun i id' e hid hc => ?_⟩
    rcases i with _ | i
    · simp only [List.getElem?_cons_zero, Option.some.injEq] at hid
      subst hid
      obtain ⟨t', h1, h2, h3, -⟩ := heapEpsilon_const (C := C) (wl := wl) hc
      rw [hr] at h1
      cases h1
      exact ⟨t, rfl, h2, h3⟩
    · simp only [List.getElem?_cons_succ] at hid ⊢
      exact k2 i id' e hid (hk _ _ hc)

theorem stackDTen_get {l : List (DTen ℂ)} {t : DTen ℂ} (h : stackDTen l = .ok t) (i : ℕ) (u : DTen ℂ) (hu : l[i]? = some u) :
    t.ten.shape = l.length :: u.ten.shape ∧ ∀ idx, t.ten.get (i :: idx) = u.ten.get idx := by
  rcases l with _ | ⟨v, l⟩
  · cases h
  · simp only [stackDTen] at h
    split_ifs at h with hall
    cases h
    have hs : u.ten.shape = v.ten.shape := by
      rcases i with _ | i
      · cases hu; rfl
      · have := List.all_eq_true.mp hall u (List.mem_of_getElem? (by simpa using hu))
        simp only [decide_eq_true_eq] at this
        exact this.1
    refine ⟨by simp [Ten.stackList, hs], fun idx => ?_⟩
    have : ((v :: l).map fun u => u.ten.get)[i]? = some u.ten.get := by rw [List.getElem?_map, hu]; rfl
    rw [List.map_cons] at this
    simp [Ten.stackList, this]

/-- The permittivities a particle reports for its scalar materials. -/
theorem permittivities_get (C : Casts) (p : Particle) (k0 : DTen ℝ) (h : Heap) (e : DTen ℂ × DTen ℂ)
    (hok : (p.permittivities C k0 h).1 = .ok e) :
    (∀ v, h.Const p.env v → e.2.ten.shape = Spec.epsShape k0.ten.shape ∧ ∀ idx, e.2.ten.get idx = v) ∧
    (p.epsLayers = none → ∀ (i : ℕ) id v, (p.mats.getD [])[i]? = some id → h.Const id v →
      e.1.ten.shape = (p.mats.getD []).length :: Spec.epsShape k0.ten.shape ∧ ∀ idx, e.1.ten.get (i :: idx) = v) := by
  have hk := heapEpsilon_keep C (wavelengths p.dev k0) p.env h
  unfold Particle.permittivities at hok
  simp only at hok
  rcases hr : heapEpsilon C (wavelengths p.dev k0) p.env h with ⟨e' | env, h'⟩
  · rw [hr] at hok; cases hok
  rw [hr] at hok hk
  simp only at hok
  have henv : ∀ v, h.Const p.env v → env.ten.shape = Spec.epsShape k0.ten.shape ∧ ∀ idx, env.ten.get idx = v := by
    intro v hv
    obtain ⟨t, h1, h2, h3, -⟩ := heapEpsilon_const (C := C) (wl := wavelengths p.dev k0) hv
    rw [hr] at h1
    cases h1
    exact ⟨h2, h3⟩
  rcases hl : p.epsLayers with _ | el
  · rw [hl] at hok
    simp only at hok
    rcases hr' : heapEpsilons C (wavelengths p.dev k0) (p.mats.getD []) h' with ⟨e' | l, h''⟩
    · rw [hr'] at hok; cases hok
    rw [hr'] at hok
    simp only at hok
    cases hst : stackDTen l with
    | error e' => rw [hst] at hok; cases hok
    | ok t =>
      rw [hst] at hok
      cases hok
      refine ⟨henv, fun _ i id v hid hv => ?_⟩
      obtain ⟨k1, k2⟩ := heapEpsilons_get C _ _ h' l (by rw [hr'])
      obtain ⟨u, hu, hs, hg⟩ := k2 i id v hid (hk _ _ hv)
      obtain ⟨s1, s2⟩ := stackDTen_get hst i u hu
      exact ⟨by rw [s1, k1, hs]; rfl, fun idx => by rw [s2, hg]⟩
  · rw [hl] at hok
    cases hok
    exact ⟨henv, fun h => by cases h⟩

theorem heapEpsilons_consts (C : Casts) (wl : DTen ℝ) (dev : Device) : ∀ (ids : List ℕ) (h : Heap), h.Wf C →
    (∀ id ∈ ids, (∃ e, h.Const id e) ∧ ∃ o, h[id]? = some o ∧ o.On C dev) →
    ∃ l, (heapEpsilons C wl ids h).1 = .ok l ∧ l.length = ids.length ∧
      ∀ t ∈ l, t.ten.shape = Spec.epsShape wl.ten.shape ∧ t.dev = dev := by
  intro ids
  induction ids with
  | nil => intro h _ _; exact ⟨[], rfl, rfl, by simp⟩
  | cons id ids ih =>
    intro h hw hids
    obtain ⟨⟨e, hc⟩, o, ho, hon⟩ := hids id List.mem_cons_self
    obtain ⟨t, h1, h2, -, h4⟩ := heapEpsilon_const (C := C) (wl := wl) hc
    have hk := heapEpsilon_keep C wl id h
    obtain ⟨s1, -⟩ := heapEpsilon_step wl id hw
    unfold heapEpsilons
    rcases hr : heapEpsilon C wl id h with ⟨e | t', h'⟩
    · rw [hr] at h1; cases h1
    rw [hr] at h1 hk s1
    cases h1
    obtain ⟨l, k1, k2, k3⟩ := ih h' s1.wf fun i hi => by
      obtain ⟨⟨e, hc⟩, o, ho, hon⟩ := hids i (List.mem_cons_of_mem _ hi)
      exact ⟨⟨e, hk _ _ hc⟩, s1.on _ _ _ ho hon⟩
    simp only
    rcases hr' : heapEpsilons C wl ids h' with ⟨e | ts, h''⟩
    · rw [hr'] at k1; cases k1
    rw [hr'] at k1
    cases k1
    refine ⟨_, rfl, by simp [k2], fun u hu => ?_⟩
    rcases List.mem_cons.mp hu with rfl | hu
    · exact ⟨h2, h4 dev fun o' ho' => by rw [ho] at ho'; cases ho'; exact hon⟩
    · exact k3 u hu

/-- C32: a layer made of a scalar `n` has permittivity `n²` at every wavevector, one value per wavevector, after any history
of the program. -/
theorem C32_layer (C : Casts) (a : ParticleArgs) {h h' : Heap} {p : Particle} (hok : Particle.init C a h = (.ok p, h'))
    (he : a.epsLayers = none) {i : ℕ} {m : MatArg} {n : ℂ} (hm : (Spec.layerMats a)[i]? = some m)
    (hn : Spec.scalarOf m = some n) (parts : List Particle) (ops : List WOp) (k0 : DTen ℝ) (e : DTen ℂ × DTen ℂ)
    (hq : (p.permittivities C k0 ((⟨h', parts⟩ : World).run C ops).heap).1 = .ok e) :
    e.1.ten.shape = (Spec.layerMats a).length :: Spec.epsShape k0.ten.shape ∧
      ∀ idx, e.1.ten.get (i :: idx) = C.c64 (n ^ 2) := by
  have hpe : p.epsLayers = none := by
    rcases init_inv hok with ⟨r, -, -, -, e⟩ | ⟨r, ms, ids, h1, -, -, -, -, e⟩ | ⟨core, shell, r, ids, h1, -, -, -, -, -, -, e⟩ <;>
      · obtain ⟨-, id, -, rfl⟩ := finish_inv e; exact he
  obtain ⟨ids, hids, hl, -, hc⟩ := (init_scalar C a hok).2 hpe
  have hi : i < ids.length := by rw [hl]; exact (List.getElem?_eq_some_iff.mp hm).1
  have hc' := World.run_keep C ops ⟨h', parts⟩ _ _ (hc i m n _ hm hn (List.getElem?_eq_getElem hi))
  obtain ⟨s1, s2⟩ := (permittivities_get C p k0 _ e hq).2 hpe i ids[i] _ (by simp [hids, hi]) hc'
  exact ⟨by rw [s1, hids, Option.getD_some, hl], s2⟩

/-- C32: the same for the environment. -/
theorem C32_env (C : Casts) (a : ParticleArgs) {h h' : Heap} {p : Particle} (hok : Particle.init C a h = (.ok p, h'))
    {n : ℂ} (hn : Spec.scalarOf a.matEnv = some n) (parts : List Particle) (ops : List WOp) (k0 : DTen ℝ)
    (e : DTen ℂ × DTen ℂ) (hq : (p.permittivities C k0 ((⟨h', parts⟩ : World).run C ops).heap).1 = .ok e) :
    e.2.ten.shape = Spec.epsShape k0.ten.shape ∧ ∀ idx, e.2.ten.get idx = C.c64 (n ^ 2) :=
  (permittivities_get C p k0 _ e hq).1 _ (World.run_keep C ops ⟨h', parts⟩ _ _ ((init_scalar C a hok).1 n hn))

theorem World.run_append (C : Casts) (w : World) (l l' : List WOp) : w.run C (l ++ l') = (w.run C l).run C l' := by
  simp [World.run, List.foldl_append]

theorem World.run_part (C : Casts) (i : ℕ) : ∀ (ops : List WOp) (w : World) (p : Particle), w.parts[i]? = some p →
    ∃ q, (w.run C ops).parts[i]? = some q ∧ q.ids = p.ids ∧ q.mats = p.mats ∧ q.env = p.env ∧ q.epsLayers = p.epsLayers := by
  intro ops
  induction ops with
  | nil => intro w p h; exact ⟨p, h, rfl, rfl, rfl, rfl⟩
  | cons op ops ih =>
    intro w p hp
    obtain ⟨hl, hpi⟩ := List.getElem?_eq_some_iff.mp hp
    have hstep : ∃ q, (w.step C op).parts[i]? = some q ∧ q.ids = p.ids ∧ q.mats = p.mats ∧ q.env = p.env ∧ q.epsLayers = p.epsLayers := by
      cases op with
      | newConst eps device leaves => exact ⟨p, hp, rfl, rfl, rfl, rfl⟩
      | newDb m device => exact ⟨p, hp, rfl, rfl, rfl, rfl⟩
      | evalMat id wl => exact ⟨p, hp, rfl, rfl, rfl, rfl⟩
      | create a =>
        refine ⟨p, ?_, rfl, rfl, rfl, rfl⟩
        unfold World.step
        simp only
        rcases (Particle.init C a w.heap).1 with e | q
        · exact hp
        · simp only [keepOk, List.getElem?_append_left hl]; exact hp
      | setDevice j device =>
        unfold World.step
        simp only
        rcases hq : w.parts[j]? with _ | q
        · exact ⟨p, hp, rfl, rfl, rfl, rfl⟩
        · by_cases hj : j = i
          · subst hj
            rw [hp] at hq
            cases hq
            exact ⟨_, List.getElem?_set_self hl, rfl, rfl, rfl, rfl⟩
          · exact ⟨p, by simp only [List.getElem?_set_ne hj]; exact hp, rfl, rfl, rfl, rfl⟩
      | query j k0 =>
        refine ⟨p, ?_, rfl, rfl, rfl, rfl⟩
        unfold World.step
        simp only
        rcases w.parts[j]? with _ | q <;> exact hp
    obtain ⟨q, h1, h2, h3, h4, h5⟩ := hstep
    obtain ⟨q', k1, k2, k3, k4, k5⟩ := ih (w.step C op) q h1
    exact ⟨q', k1, k2.trans h2, k3.trans h3, k4.trans h4, k5.trans h5⟩

/-- C32: a particle of scalar materials always has permittivities (no history without sharing makes the call fail). -/
theorem C32_total (C : Casts) (before after : List WOp) (a : ParticleArgs) {h' : Heap} {p : Particle}
    (hu : Spec.Unshared C ⟨[], []⟩ (before ++ .create a :: after))
    (hok : Particle.init C a ((⟨[], []⟩ : World).run C before).heap = (.ok p, h'))
    (hm : ∀ m ∈ Spec.layerMats a ++ [a.matEnv], ∃ n, Spec.scalarOf m = some n) (k0 : DTen ℝ) :
    ∃ q e, ((⟨[], []⟩ : World).run C (before ++ .create a :: after)).parts[((⟨[], []⟩ : World).run C before).parts.length]? = some q ∧
      (q.permittivities C k0 ((⟨[], []⟩ : World).run C (before ++ .create a :: after)).heap).1 = .ok e := by
  have hi := World.Inv.run _ (w := ⟨[], []⟩) (C := C) ⟨by simp [Heap.Wf], by simp, List.Pairwise.nil⟩ hu
  have hrun : (⟨[], []⟩ : World).run C (before ++ .create a :: after)
      = (⟨h', ((⟨[], []⟩ : World).run C before).parts ++ [p]⟩ : World).run C after := by
    rw [World.run_append]
    simp only [World.run, List.foldl_cons, World.step]
    rw [show Particle.init C a (List.foldl (World.step C) ⟨[], []⟩ before).heap = (.ok p, h') from hok]
    rfl
  obtain ⟨q, hq, -, hq2, hq3, hq4⟩ := World.run_part C ((⟨[], []⟩ : World).run C before).parts.length after
    ⟨h', ((⟨[], []⟩ : World).run C before).parts ++ [p]⟩ p (by simp)
  have hkeep := World.run_keep C after ⟨h', ((⟨[], []⟩ : World).run C before).parts ++ [p]⟩
  rw [← hrun] at hq hkeep
  obtain ⟨-, hqe, hqo⟩ := hi.on q (List.mem_of_getElem? hq)
  obtain ⟨i1, i2⟩ := init_scalar C a hok
  generalize ((⟨[], []⟩ : World).run C (before ++ .create a :: after)) = w at *
  obtain ⟨n, hn⟩ := hm a.matEnv (by simp)
  have henv : w.heap.Const q.env (C.c64 (n ^ 2)) := by rw [hq3]; exact hkeep _ _ (i1 n hn)
  obtain ⟨t, h1, -⟩ := heapEpsilon_const (C := C) (wl := wavelengths q.dev k0) henv
  obtain ⟨s1, -⟩ := heapEpsilon_step (wavelengths q.dev k0) q.env hi.wf
  have hk1 := heapEpsilon_keep C (wavelengths q.dev k0) q.env w.heap
  refine ⟨q, ?_⟩
  unfold Particle.permittivities
  simp only
  rcases hr : heapEpsilon C (wavelengths q.dev k0) q.env w.heap with ⟨e | env, h2⟩
  · rw [hr] at h1; cases h1
  rw [hr] at s1 hk1
  simp only
  rcases hl : q.epsLayers with _ | el
  · obtain ⟨ids, j1, j2, j3, j4⟩ := i2 (hq4.symm.trans hl)
    have hmem : ∀ id ∈ q.mats.getD [], (∃ e, h2.Const id e) ∧ ∃ o, h2[id]? = some o ∧ o.On C q.dev := by
      intro id hid
      have hid' : id ∈ ids := by rw [hq2, j1] at hid; exact hid
      obtain ⟨i, hi'⟩ := List.mem_iff_getElem?.mp hid'
      have hlt : i < (Spec.layerMats a).length := by rw [← j2]; exact (List.getElem?_eq_some_iff.mp hi').1
      obtain ⟨n', hn'⟩ := hm (Spec.layerMats a)[i] (List.mem_append_left _ (List.getElem_mem hlt))
      refine ⟨⟨_, hk1 _ _ (hkeep _ _ (j4 i _ n' id (List.getElem?_eq_getElem hlt) hn' hi'))⟩, ?_⟩
      obtain ⟨o, ho, hon⟩ := hqo id (by simp only [Particle.ids, List.mem_append]; exact .inl hid)
      exact s1.on _ _ _ ho hon
    obtain ⟨l, k1, k2, k3⟩ := heapEpsilons_consts C (wavelengths q.dev k0) q.dev _ h2 s1.wf hmem
    simp only
    rcases hr' : heapEpsilons C (wavelengths q.dev k0) (q.mats.getD []) h2 with ⟨e | ts, h3⟩
    · rw [hr'] at k1; cases k1
    rw [hr'] at k1
    cases k1
    rw [hq2, j1, Option.getD_some] at k2
    rcases l with _ | ⟨u, us⟩
    · exact absurd (List.length_eq_zero_iff.mp k2.symm) j3
    · simp only [stackDTen]
      rw [if_pos]
      · exact ⟨_, hq, rfl⟩
      · rw [List.all_eq_true]
        intro v hv
        obtain ⟨v1, v2⟩ := k3 v (List.mem_cons_of_mem _ hv)
        obtain ⟨u1, u2⟩ := k3 u List.mem_cons_self
        simp [v1, v2, u1, u2]
  · exact ⟨_, hq, rfl⟩

/-- A coated particle of scalar indices at three wavevectors. -/
example : ∃ a : ParticleArgs, Spec.layerMats a = [.num 1.5, .num (2 + Complex.I)] ∧ (∀ m ∈ Spec.layerMats a ++ [a.matEnv],
    ∃ n, Spec.scalarOf m = some n) ∧ Spec.Accepted a ∧ Spec.epsShape [3] = [3] := by
  refine ⟨{ rLayers := some (Ten.ofList 0 [50, 80]), matLayers := some [.num 1.5, .num (2 + Complex.I)] }, rfl, ?_, ?_, rfl⟩
  · intro m hm
    simp only [Spec.layerMats, List.cons_append, List.nil_append, List.mem_cons, List.not_mem_nil, or_false] at hm
    rcases hm with rfl | rfl | rfl <;> exact ⟨_, rfl⟩
  · refine ⟨.inl ⟨_, 2, rfl, rfl, by norm_num, .inr ⟨_, rfl, rfl, rfl, ?_⟩, rfl, rfl, rfl, rfl⟩, trivial⟩
    intro m hm
    simp only [List.mem_cons, List.not_mem_nil, or_false] at hm
    rcases hm with rfl | rfl <;> trivial

end MieDiff
