import Verif.Model.ParticleApi
import Verif.Props.Device
import Verif.Proofs.Layout

/-!
# What a material object stands for, over histories of a program
-/

namespace MieDiff

namespace Spec

/-- What a material is: a permittivity (depending on differentiable numbers `leaves`) or a dispersion model. -/
inductive Material
  | const (eps : ℂ) (leaves : List ℕ)
  | disp (m : Dispersion)

/-- Its permittivity at a wavelength (in nm). -/
noncomputable def Material.at (C : Casts) : Material → ℝ → Py ℂ
  | .const e _, _ => .ok e
  | .disp m, wl => (m.eval (C.f32 wl)).map C.c64

end Spec

/-- The material a material object holds. -/
def MatObj.material : MatObj → Spec.Material
  | .const c => .const c.eps c.leaves
  | .db d => .disp d.disp

namespace Spec

/-- The material a user argument stands for. -/
noncomputable def materialOf (C : Casts) (h : Heap) : MatArg → Option Material
  | .num n => some (.const (C.c64 (n ^ 2)) [])
  | .tensor t leaves => if t.shape = [] then some (.const (C.c64 (t.get [] ^ 2)) leaves) else none
  | .obj id => (h[id]?).map MatObj.material
  | .other => none

end Spec

/-- Objects keep their material; new objects may be added. -/
def HPre (h h' : Heap) : Prop := h.map MatObj.material <+: h'.map MatObj.material

theorem HPre.refl (h : Heap) : HPre h h := List.prefix_refl _
theorem HPre.trans {h h' h'' : Heap} (a : HPre h h') (b : HPre h' h'') : HPre h h'' := List.IsPrefix.trans a b
theorem HPre.append (h l : Heap) : HPre h (h ++ l) := by unfold HPre; rw [List.map_append]; exact List.prefix_append _ _

theorem MatObj.setDevice_material (o : MatObj) (d : Device) : (o.setDevice d).material = o.material := by cases o <;> rfl

theorem HPre.modify (h : Heap) (i : ℕ) (d : Device) : HPre h (h.modify i fun o => o.setDevice d) := by
  have : (h.modify i fun o => o.setDevice d).map MatObj.material = h.map MatObj.material := by
    apply List.ext_getElem?
    intro k
    rw [List.getElem?_map, List.getElem?_map, List.getElem?_modify]
    rcases h[k]? with _ | o
    · rfl
    · by_cases hk : i = k <;> simp [hk, MatObj.setDevice_material]
  unfold HPre
  rw [this]

theorem HPre.get {h h' : Heap} (p : HPre h h') {id : ℕ} {M : Spec.Material} (e : (h[id]?).map MatObj.material = some M) :
    (h'[id]?).map MatObj.material = some M := by
  rw [← List.getElem?_map] at e ⊢
  obtain ⟨l, hl⟩ := p
  rw [← hl, List.getElem?_append_left (List.getElem?_eq_some_iff.mp e).1]
  exact e

theorem MatDb.getEpsilon_disp (C : Casts) (d : MatDb) (wl : DTen ℝ) : (d.getEpsilon C wl).2.disp = d.disp := by
  have h1 : ∀ (d : MatDb) w dev leaves, (d.getSingle C w dev leaves).2.disp = d.disp := by
    intro d w dev leaves
    unfold MatDb.getSingle
    rcases d.lookup w with _ | t
    · simp only
      rcases d.evaluated w dev with e | v <;> rfl
    · rfl
  have h2 : ∀ leaves ws (d : MatDb), (MatDb.getList C leaves ws d).2.disp = d.disp := by
    intro leaves ws
    induction ws with
    | nil => intro d; rfl
    | cons w ws ih =>
      intro d
      have := h1 d w d.dev leaves
      unfold MatDb.getList
      rcases hr : d.getSingle C w d.dev leaves with ⟨e | t, d'⟩ <;> rw [hr] at this
      · exact this
      · have h3 := ih d'
        simp only
        rcases hr' : MatDb.getList C leaves ws d' with ⟨e | ts, d''⟩ <;> rw [hr'] at h3 <;> exact h3.trans this
  unfold MatDb.getEpsilon
  simp only
  split
  · exact h1 _ _ _ _
  · rename_i n hn
    have := h2 wl.leaves ((List.range n).map fun (i : ℕ) => C.f32 (wl.ten.squeeze.get [i])) d
    rcases hr : MatDb.getList C wl.leaves ((List.range n).map fun (i : ℕ) => C.f32 (wl.ten.squeeze.get [i])) d with ⟨e | l, d'⟩ <;>
      rw [hr] at this <;> exact this
  · rfl

theorem MatObj.getEpsilon_material (C : Casts) (o : MatObj) (wl : DTen ℝ) : (o.getEpsilon C wl).2.material = o.material := by
  cases o with
  | const c => rfl
  | db d => exact congrArg Spec.Material.disp (d.getEpsilon_disp C wl)

theorem asMaterial_pre (C : Casts) (dev : Device) (m : MatArg) (h : Heap) : HPre h (asMaterial C dev m h).2 := by
  rcases asMaterial_cases C dev m h with ⟨c, -, -, e, -, -⟩ | ⟨i, -, -, e⟩ | ⟨_, e, -⟩ <;> rw [e]
  · exact HPre.append h _
  · exact HPre.modify h i dev
  · exact HPre.refl h

theorem asMaterials_pre (C : Casts) (dev : Device) : ∀ (ms : List MatArg) (h : Heap), HPre h (asMaterials C dev ms h).2 := by
  intro ms
  induction ms with
  | nil => exact HPre.refl
  | cons m ms ih =>
    intro h
    have h1 := asMaterial_pre C dev m h
    unfold asMaterials
    rcases hr : asMaterial C dev m h with ⟨e | i, h'⟩ <;> rw [hr] at h1
    · exact h1
    · have h2 := ih h'
      simp only
      rcases hr' : asMaterials C dev ms h' with ⟨e | is, h''⟩ <;> rw [hr'] at h2 <;> exact h1.trans h2

/-- A converted argument is an object of its material. -/
theorem asMaterial_means {C : Casts} {dev : Device} {m : MatArg} {h h' : Heap} {id : ℕ}
    (e : asMaterial C dev m h = (.ok id, h')) :
    ∃ M, Spec.materialOf C h m = some M ∧ (h'[id]?).map MatObj.material = some M := by
  cases m with
  | num n =>
    rw [asMaterial_num] at e
    cases e
    exact ⟨_, rfl, by simp [MatObj.material]⟩
  | tensor t leaves =>
    by_cases hs : t.shape = []
    · rw [asMaterial_ten C dev t leaves h hs] at e
      cases e
      exact ⟨.const (C.c64 (t.get [] ^ 2)) leaves, by simp [Spec.materialOf, hs], by simp [MatObj.material]⟩
    · exfalso
      obtain ⟨e', _, he⟩ := asMaterial_bad C dev (.tensor t leaves) h hs
      rw [he] at e
      cases e
  | obj i =>
    rw [asMaterial_obj] at e
    split_ifs at e with hi
    · cases e
      refine ⟨_, by simp [Spec.materialOf, List.getElem?_eq_getElem hi]; rfl, ?_⟩
      exact (HPre.modify h _ dev).get (by simp [List.getElem?_eq_getElem hi])
    · cases e
  | other => cases e

theorem asMaterials_means {C : Casts} {dev : Device} : ∀ {ms : List MatArg} {h : Heap} {ids : List ℕ} {h' : Heap},
    asMaterials C dev ms h = (.ok ids, h') → ∀ h0, HPre h0 h → (∀ m ∈ ms, m.Exists h0) → ids.length = ms.length ∧
      ∀ (i : ℕ) m id, ms[i]? = some m → ids[i]? = some id →
        ∃ M, Spec.materialOf C h0 m = some M ∧ (h'[id]?).map MatObj.material = some M := by
  intro ms
  induction ms with
  | nil =>
    intro h ids h' e h0 _ _
    cases e
    exact ⟨rfl, by simp⟩
  | cons m ms ih =>
    intro h ids h' e h0 p0 hex
    unfold asMaterials at e
    rcases hr : asMaterial C dev m h with ⟨e1 | i, h1⟩
    · rw [hr] at e; cases e
    rw [hr] at e
    simp only at e
    rcases hr' : asMaterials C dev ms h1 with ⟨e1 | is, h2⟩
    · rw [hr'] at e; cases e
    rw [hr'] at e
    cases e
    have p1 := asMaterial_pre C dev m h
    rw [hr] at p1
    obtain ⟨hl, hi⟩ := ih hr' h0 (p0.trans p1) fun m' hm' => hex m' (List.mem_cons_of_mem _ hm')
    refine ⟨by simp [hl], fun j m' id hm hid => ?_⟩
    rcases j with _ | j
    · simp only [List.getElem?_cons_zero, Option.some.injEq] at hm hid
      subst hm hid
      obtain ⟨M, k1, k2⟩ := asMaterial_means hr
      have p2 := asMaterials_pre C dev ms h1
      rw [hr'] at p2
      refine ⟨M, ?_, p2.get k2⟩
      rw [← k1]
      cases m with
      | obj j =>
        have hj : j < h0.length := hex _ List.mem_cons_self
        simp only [Spec.materialOf]
        rw [List.getElem?_eq_getElem hj, Option.map_some]
        exact (p0.get (by rw [List.getElem?_eq_getElem hj]; rfl)).symm
      | _ => rfl
    · simp only [List.getElem?_cons_succ] at hm hid
      exact hi j m' id hm hid

theorem heapEpsilon_pre (C : Casts) (wl : DTen ℝ) (id : ℕ) (h : Heap) : HPre h (heapEpsilon C wl id h).2 := by
  unfold heapEpsilon
  rcases ho : h[id]? with _ | o
  · exact HPre.refl h
  · have : (h.set id (o.getEpsilon C wl).2).map MatObj.material = h.map MatObj.material := by
      apply List.ext_getElem?
      intro k
      rw [List.getElem?_map, List.getElem?_map]
      by_cases hk : id = k
      · subst hk
        rw [List.getElem?_set_self (List.getElem?_eq_some_iff.mp ho).1, ho]
        simp [MatObj.getEpsilon_material]
      · rw [List.getElem?_set_ne hk]
    unfold HPre
    simp only
    rw [this]

theorem heapEpsilons_pre (C : Casts) (wl : DTen ℝ) : ∀ (ids : List ℕ) (h : Heap), HPre h (heapEpsilons C wl ids h).2 := by
  intro ids
  induction ids with
  | nil => exact HPre.refl
  | cons id ids ih =>
    intro h
    have h1 := heapEpsilon_pre C wl id h
    unfold heapEpsilons
    rcases hr : heapEpsilon C wl id h with ⟨e | t, h'⟩ <;> rw [hr] at h1
    · exact h1
    · have h2 := ih h'
      simp only
      rcases hr' : heapEpsilons C wl ids h' with ⟨e | is, h''⟩ <;> rw [hr'] at h2 <;> exact h1.trans h2

theorem permittivities_pre (C : Casts) (p : Particle) (k0 : DTen ℝ) (h : Heap) : HPre h (p.permittivities C k0 h).2 := by
  have h1 := heapEpsilon_pre C (wavelengths p.dev k0) p.env h
  unfold Particle.permittivities
  simp only
  rcases hr : heapEpsilon C (wavelengths p.dev k0) p.env h with ⟨e | env, h'⟩ <;> rw [hr] at h1
  · exact h1
  · simp only
    rcases p.epsLayers with _ | el
    · have h2 := heapEpsilons_pre C (wavelengths p.dev k0) (p.mats.getD []) h'
      simp only
      rcases hr' : heapEpsilons C (wavelengths p.dev k0) (p.mats.getD []) h' with ⟨e | l, h''⟩ <;> rw [hr'] at h2 <;>
        exact h1.trans h2
    · exact h1

theorem init_pre (C : Casts) (a : ParticleArgs) (h : Heap) : HPre h (Particle.init C a h).2 := by
  have hf : ∀ r mats h1, HPre h h1 → HPre h (finishParticle C a r mats h1).2 := by
    intro r mats h1 hk
    have h2 := asMaterial_pre C a.dev a.matEnv h1
    unfold finishParticle
    rcases hr : asMaterial C a.dev a.matEnv h1 with ⟨e | i, h'⟩ <;> rw [hr] at h2 <;> exact hk.trans h2
  unfold Particle.init
  by_cases hu : a.usesLayers = true
  · rw [if_pos hu]
    rcases layerChecks a with e | r
    · exact HPre.refl h
    simp only
    rcases a.matLayers with _ | ms
    · exact hf r none h (HPre.refl h)
    · have h2 := asMaterials_pre C a.dev ms h
      simp only
      rcases hr : asMaterials C a.dev ms h with ⟨e | ids, h1⟩ <;> rw [hr] at h2
      · exact h2
      · exact hf r _ h1 h2
  · rw [if_neg hu]
    rcases legacyChecks a with e | ⟨core, shell⟩
    · exact HPre.refl h
    simp only
    rcases legacyRadii core.1 shell with e | r
    · exact HPre.refl h
    simp only
    have h2 := asMaterials_pre C a.dev (core.2 :: (shell.map (·.2)).toList) h
    rcases hr : asMaterials C a.dev (core.2 :: (shell.map (·.2)).toList) h with ⟨e | ids, h1⟩ <;> rw [hr] at h2 <;> rw [hr]
    · exact h2
    simp only
    by_cases h3 : r.ndim ≠ 1
    · rw [if_pos h3]; exact h2
    rw [if_neg h3]
    by_cases h4 : ¬ radiiIncreasing r
    · rw [if_pos h4]; exact h2
    rw [if_neg h4]
    exact hf r _ h1 h2

theorem World.step_pre (C : Casts) (w : World) (op : WOp) : HPre w.heap (w.step C op).heap := by
  cases op with
  | newConst eps device leaves => exact HPre.append _ _
  | newDb m device => exact HPre.append _ _
  | evalMat id wl => exact heapEpsilon_pre C wl id w.heap
  | create a => exact init_pre C a w.heap
  | setDevice i device =>
    unfold World.step
    simp only
    rcases w.parts[i]? with _ | p
    · exact HPre.refl _
    · simp only [Particle.setDevice]
      generalize w.heap = h
      generalize p.ids = ids
      induction ids generalizing h with
      | nil => exact HPre.refl _
      | cons i ids ih => exact (HPre.modify h i device).trans (ih _)
  | query i k0 =>
    unfold World.step
    simp only
    rcases w.parts[i]? with _ | p
    · exact HPre.refl _
    · exact permittivities_pre C p k0 w.heap

theorem World.run_pre (C : Casts) : ∀ (ops : List WOp) (w : World), HPre w.heap (w.run C ops).heap := by
  intro ops
  induction ops with
  | nil => intro w; exact HPre.refl _
  | cons op ops ih => intro w; exact (w.step_pre C op).trans (ih _)

/-- The objects of a new particle. -/
theorem init_means {C : Casts} {a : ParticleArgs} {h h' : Heap} {p : Particle} (hok : Particle.init C a h = (.ok p, h'))
    (hex : ∀ m ∈ a.allMats, m.Exists h) :
    (∃ M, Spec.materialOf C h a.matEnv = some M ∧ (h'[p.env]?).map MatObj.material = some M) ∧
    (a.epsLayers = none → ∃ ids, p.mats = some ids ∧ ids.length = (Spec.layerMats a).length ∧ ids ≠ [] ∧
      ∀ (i : ℕ) m id, (Spec.layerMats a)[i]? = some m → ids[i]? = some id →
        ∃ M, Spec.materialOf C h m = some M ∧ (h'[id]?).map MatObj.material = some M) := by
  have henv : ∀ h1 id, HPre h h1 → asMaterial C a.dev a.matEnv h1 = (.ok id, h') →
      ∃ M, Spec.materialOf C h a.matEnv = some M ∧ (h'[id]?).map MatObj.material = some M := by
    intro h1 id p0 e
    obtain ⟨M, k1, k2⟩ := asMaterial_means e
    refine ⟨M, ?_, k2⟩
    rw [← k1]
    have hx := hex a.matEnv (by simp [ParticleArgs.allMats])
    rcases hm : a.matEnv with n | ⟨t, l⟩ | j | _
    · rfl
    · rfl
    · rw [hm] at hx
      have hj : j < h.length := hx
      simp only [Spec.materialOf]
      rw [List.getElem?_eq_getElem hj, Option.map_some]
      exact (p0.get (by rw [List.getElem?_eq_getElem hj]; rfl)).symm
    · rfl
  have key : ∀ (ms : List MatArg), ms = Spec.layerMats a → ms ≠ [] → (∀ m ∈ ms, m ∈ a.allMats) → ∀ r ids h1,
      asMaterials C a.dev ms h = (.ok ids, h1) → finishParticle C a r (some ids) h1 = (.ok p, h') →
      (∃ M, Spec.materialOf C h a.matEnv = some M ∧ (h'[p.env]?).map MatObj.material = some M) ∧
      (a.epsLayers = none → ∃ ids, p.mats = some ids ∧ ids.length = (Spec.layerMats a).length ∧ ids ≠ [] ∧
      ∀ (i : ℕ) m id, (Spec.layerMats a)[i]? = some m → ids[i]? = some id →
        ∃ M, Spec.materialOf C h m = some M ∧ (h'[id]?).map MatObj.material = some M) := by
    rintro ms rfl hne hsub r ids h1 e1 e2
    obtain ⟨-, id, e3, rfl⟩ := finish_inv e2
    obtain ⟨k1, k2⟩ := asMaterials_means e1 h (HPre.refl h) fun m hm => hex m (hsub m hm)
    have p1 := asMaterials_pre C a.dev (Spec.layerMats a) h
    rw [e1] at p1
    have p2 := asMaterial_pre C a.dev a.matEnv h1
    rw [e3] at p2
    refine ⟨henv h1 id p1 e3, fun _ => ⟨ids, rfl, k1, ?_, fun i m id' hm hid => ?_⟩⟩
    · rintro rfl
      exact hne (List.length_eq_zero_iff.mp (by rw [← k1]; rfl))
    · obtain ⟨M, j1, j2⟩ := k2 i m id' hm hid
      exact ⟨M, j1, p2.get j2⟩
  rcases init_inv hok with ⟨r, hu, hc, hm, e⟩ | ⟨r, ms, ids, h1, hu, hc, hm, e1, e⟩ | ⟨core, shell, r, ids, h1, hu, hc, hr, e1, -, -, e⟩
  · obtain ⟨-, id, e3, rfl⟩ := finish_inv e
    refine ⟨henv h id (HPre.refl h) e3, fun he => ?_⟩
    obtain ⟨-, -, L, -, -, h3⟩ := layerChecks_ok hc
    rcases h3 with ⟨x, hx, -⟩ | ⟨ms, -, hms, -⟩
    · rw [hx] at he; cases he
    · rw [hm] at hms; cases hms
  · refine key ms (by simp [Spec.layerMats, hm]) ?_ (fun m hm' => by simp [ParticleArgs.allMats, hm, hm']) r ids h1 e1 e
    obtain ⟨-, -, L, -, hL, h3⟩ := layerChecks_ok hc
    rintro rfl
    rcases h3 with ⟨x, -, hx⟩ | ⟨ms, -, hms, hl⟩
    · rw [hm] at hx; cases hx
    · rw [hm] at hms; cases hms; simp at hl; omega
  · obtain ⟨-, -, h3⟩ := usesLayers_false.mp hu
    obtain ⟨-, hmc, hs⟩ := legacyChecks_inv hc
    refine key _ ?_ (by simp) ?_ r ids h1 e1 e
    · simp only [Spec.layerMats, h3, hmc]
      rcases hs with ⟨rfl, -, h4⟩ | ⟨s, rfl, -, h4⟩ <;> simp [h4]
    · intro m hm'
      rcases hs with ⟨rfl, -, -⟩ | ⟨s, rfl, hs1, hs2⟩
      · simp at hm'; simp [ParticleArgs.allMats, hmc, hm']
      · simp at hm'
        rcases hm' with rfl | rfl <;> simp [ParticleArgs.allMats, hmc, hs2]

/-- Statements do not change the attributes of a particle, except its device. -/
theorem World.run_same (C : Casts) (i : ℕ) : ∀ (ops : List WOp) (w : World) (p : Particle), w.parts[i]? = some p →
    ∃ dev rDev epsDev, (w.run C ops).parts[i]? = some { p with dev := dev, rDev := rDev, epsDev := epsDev } := by
  intro ops
  induction ops with
  | nil => intro w p h; exact ⟨p.dev, p.rDev, p.epsDev, h⟩
  | cons op ops ih =>
    intro w p hp
    obtain ⟨hl, hpi⟩ := List.getElem?_eq_some_iff.mp hp
    have hstep : ∃ dev rDev epsDev, (w.step C op).parts[i]? = some { p with dev := dev, rDev := rDev, epsDev := epsDev } := by
      cases op with
      | newConst eps device leaves => exact ⟨p.dev, p.rDev, p.epsDev, hp⟩
      | newDb m device => exact ⟨p.dev, p.rDev, p.epsDev, hp⟩
      | evalMat id wl => exact ⟨p.dev, p.rDev, p.epsDev, hp⟩
      | create a =>
        refine ⟨p.dev, p.rDev, p.epsDev, ?_⟩
        unfold World.step
        simp only
        rcases (Particle.init C a w.heap).1 with e | q
        · exact hp
        · simp only [keepOk]; rw [List.getElem?_append_left hl]; exact hp
      | setDevice j device =>
        unfold World.step
        simp only
        rcases hj : w.parts[j]? with _ | q
        · exact ⟨p.dev, p.rDev, p.epsDev, hp⟩
        · by_cases hij : j = i
          · subst hij
            rw [hp] at hj
            cases hj
            exact ⟨device, device, device, by simp [List.getElem?_set_self hl, Particle.setDevice]⟩
          · exact ⟨p.dev, p.rDev, p.epsDev, by simp only; rw [List.getElem?_set_ne hij]; exact hp⟩
      | query j k0 =>
        unfold World.step
        simp only
        rcases w.parts[j]? with _ | q <;> exact ⟨p.dev, p.rDev, p.epsDev, hp⟩
    obtain ⟨d1, d2, d3, h1⟩ := hstep
    obtain ⟨e1, e2, e3, h2⟩ := ih (w.step C op) _ h1
    exact ⟨e1, e2, e3, h2⟩

/-! ## Reading -/

/-- What one object reports at wavelengths `wl` (a number or a list). -/
theorem MatObj.On.value {C : Casts} {o : MatObj} {dev : Device} (h : o.On C dev) (wl : DTen ℝ) {K : ℕ} {ix : ℕ → List ℕ}
    (hk : Spec.k0Index wl.ten.shape = some (K, ix)) (hK : 0 < K) {v : ℕ → ℂ}
    (hv : ∀ k < K, o.material.at C (wl.ten.get (ix k)) = .ok (v k)) :
    ∃ t, (o.getEpsilon C wl).1 = .ok t ∧ t.ten.shape = Spec.epsShape wl.ten.shape ∧ t.dev = dev ∧
      (∀ k < K, t.ten.get (if K = 1 then [] else [k]) = v k) ∧
      ∀ e leaves, o.material = .const e leaves → t.leaves = leaves := by
  unfold Spec.k0Index at hk
  split_ifs at hk with hlen
  simp only [Option.some.injEq, Prod.mk.injEq] at hk
  obtain ⟨hk1, rfl⟩ := hk
  have hcase : wl.ten.shape.filter (· ≠ 1) = [] ∧ K = 1 ∨ wl.ten.shape.filter (· ≠ 1) = [K] ∧ K ≠ 1 := by
    rcases hf : wl.ten.shape.filter (· ≠ 1) with _ | ⟨n, _ | ⟨a, l⟩⟩
    · rw [hf] at hk1; exact .inl ⟨hf, hk1.symm⟩
    · rw [hf] at hk1
      simp only [List.headD_cons] at hk1
      subst hk1
      have : n ∈ wl.ten.shape.filter (· ≠ 1) := by rw [hf]; simp
      exact .inr ⟨hf, by simpa using (List.mem_filter.mp this).2⟩
    · rw [hf] at hlen; simp at hlen
  cases o with
  | const c =>
    obtain ⟨e1, e2, e3⟩ := c.getEpsilon_val wl
    refine ⟨c.getEpsilon wl, rfl, e1, e3.trans h.2, fun k hkK => ?_, fun e leaves he => ?_⟩
    · rw [e2]
      have := hv k hkK
      simpa [MatObj.material, Spec.Material.at] using this
    · simp only [MatObj.material, Spec.Material.const.injEq] at he
      rw [← he.2]
      unfold MatConst.getEpsilon
      split <;> rfl
  | db d =>
    obtain ⟨g, hd⟩ := h
    simp only [MatObj.getEpsilon]
    rcases hcase with ⟨hf, rfl⟩ | ⟨hf, hne⟩
    · have hsq : wl.ten.squeeze.shape = [] := hf
      have hget : wl.ten.squeeze.get [] = wl.ten.get (wl.ten.shape.map fun d => if d = 1 then 0 else 0) :=
        congrArg wl.ten.get (Ten.squeeze_k0' _ hf 0 [])
      obtain ⟨-, -, hs⟩ := g.single (C.f32 (wl.ten.squeeze.get [])) wl.leaves _ rfl
      have h0 := hv 0 (by omega)
      rw [← hget] at h0
      simp only [MatObj.material, Spec.Material.at] at h0
      unfold MatDb.getEpsilon
      simp only [hsq]
      rcases he : d.disp.eval (C.f32 (wl.ten.squeeze.get [])) with e | x
      · rw [he] at h0; cases h0
      · rw [he] at h0 hs
        rcases hr : (d.getSingle C (C.f32 (wl.ten.squeeze.get [])) d.dev wl.leaves).1 with e | t
        · rw [hr] at hs; cases hs
        · rw [hr] at hs
          simp only [Except.map, Except.ok.injEq, Prod.mk.injEq] at hs h0
          refine ⟨t, rfl, ?_, hs.2.trans hd, fun k hk => ?_, fun e l he => by cases he⟩
          · rw [hs.1]; unfold Spec.epsShape; rw [hf]; rfl
          · obtain rfl : k = 0 := by omega
            rw [if_pos trivial, hs.1, ← h0]
            rfl
    · have hsq : wl.ten.squeeze.shape = [K] := hf
      have hget : ∀ k, wl.ten.squeeze.get [k] = wl.ten.get (wl.ten.shape.map fun d => if d = 1 then 0 else k) := fun k =>
        congrArg wl.ten.get (Ten.squeeze_k0 _ hf k)
      have hv' : ∀ k < K, ∃ x, d.disp.eval (C.f32 (wl.ten.squeeze.get [k])) = .ok x ∧ C.c64 x = v k := by
        intro k hk
        have h0 := hv k hk
        rw [← hget] at h0
        simp only [MatObj.material, Spec.Material.at] at h0
        rcases he : d.disp.eval (C.f32 (wl.ten.squeeze.get [k])) with e | x
        · rw [he] at h0; cases h0
        · rw [he] at h0
          exact ⟨x, rfl, by simpa [Except.map] using h0⟩
      have hx : ∃ x : ℕ → ℂ, ∀ k < K, d.disp.eval (C.f32 (wl.ten.squeeze.get [k])) = .ok (x k) ∧ C.c64 (x k) = v k := by
        refine ⟨fun k => if hk : k < K then Classical.choose (hv' k hk) else 0, fun k hk => ?_⟩
        simp only [dif_pos hk]
        exact Classical.choose_spec (hv' k hk)
      obtain ⟨x, hx⟩ := hx
      obtain ⟨t, h1, h2, h3, h4⟩ := (g.epsilon_list wl hK hsq).1 x fun i hi => (hx i hi).1
      refine ⟨t, h1, ?_, h3.trans hd, fun k hk => ?_, fun e l he => by cases he⟩
      · rw [h2]; unfold Spec.epsShape; rw [hf]; rfl
      · rw [if_neg hne, h4 k hk, (hx k hk).2]

theorem heapEpsilon_value {C : Casts} {h : Heap} {id : ℕ} {dev : Device} {M : Spec.Material}
    (ho : ∃ o, h[id]? = some o ∧ o.On C dev) (hm : (h[id]?).map MatObj.material = some M) (wl : DTen ℝ) {K : ℕ} {ix : ℕ → List ℕ}
    (hk : Spec.k0Index wl.ten.shape = some (K, ix)) (hK : 0 < K) {v : ℕ → ℂ} (hv : ∀ k < K, M.at C (wl.ten.get (ix k)) = .ok (v k)) :
    ∃ t, (heapEpsilon C wl id h).1 = .ok t ∧ t.ten.shape = Spec.epsShape wl.ten.shape ∧ t.dev = dev ∧
      (∀ k < K, t.ten.get (if K = 1 then [] else [k]) = v k) ∧ ∀ e leaves, M = .const e leaves → t.leaves = leaves := by
  obtain ⟨o, ho, hon⟩ := ho
  rw [ho] at hm
  simp only [Option.map_some, Option.some.injEq] at hm
  subst hm
  obtain ⟨t, h1, h2⟩ := hon.value wl hk hK hv
  exact ⟨t, by simp only [heapEpsilon, ho]; exact h1, h2⟩

theorem heapEpsilons_value {C : Casts} (wl : DTen ℝ) {dev : Device} {K : ℕ} {ix : ℕ → List ℕ}
    (hk : Spec.k0Index wl.ten.shape = some (K, ix)) (hK : 0 < K) : ∀ (ids : List ℕ) (Ms : List Spec.Material) (h : Heap) (v : ℕ → ℕ → ℂ),
    h.Wf C → ids.length = Ms.length →
    (∀ (i : ℕ) id M, ids[i]? = some id → Ms[i]? = some M → (∃ o, h[id]? = some o ∧ o.On C dev) ∧
      (h[id]?).map MatObj.material = some M ∧ ∀ k < K, M.at C (wl.ten.get (ix k)) = .ok (v i k)) →
    ∃ l, (heapEpsilons C wl ids h).1 = .ok l ∧ l.length = ids.length ∧
      ∀ (i : ℕ) t, l[i]? = some t → t.ten.shape = Spec.epsShape wl.ten.shape ∧ t.dev = dev ∧
        (∀ k < K, t.ten.get (if K = 1 then [] else [k]) = v i k) ∧ ∀ e leaves, Ms[i]? = some (.const e leaves) → t.leaves = leaves := by
  intro ids
  induction ids with
  | nil => intro Ms h v _ _ _; exact ⟨[], rfl, rfl, by simp⟩
  | cons id ids ih =>
    intro Ms h v hw hlen hids
    rcases Ms with _ | ⟨M, Ms⟩
    · simp at hlen
    obtain ⟨h1, h2, h3⟩ := hids 0 id M rfl rfl
    obtain ⟨t, k1, k2, k3, k4, k5⟩ := heapEpsilon_value h1 h2 wl hk hK h3
    obtain ⟨s1, -⟩ := heapEpsilon_step wl id hw
    have hp := heapEpsilon_pre C wl id h
    unfold heapEpsilons
    rcases hr : heapEpsilon C wl id h with ⟨e | t', h'⟩
    · rw [hr] at k1; cases k1
    rw [hr] at k1 s1 hp
    cases k1
    obtain ⟨l, j1, j2, j3⟩ := ih Ms h' (fun i => v (i + 1)) s1.wf (by simpa using hlen) fun i id' M' hid hM => by
      obtain ⟨⟨o, ho, hon⟩, g2, g3⟩ := hids (i + 1) id' M' hid hM
      exact ⟨s1.on _ _ _ ho hon, hp.get g2, g3⟩
    simp only
    rcases hr' : heapEpsilons C wl ids h' with ⟨e | ts, h''⟩
    · rw [hr'] at j1; cases j1
    rw [hr'] at j1
    cases j1
    refine ⟨_, rfl, by simp [j2], fun i u hu => ?_⟩
    rcases i with _ | i
    · simp only [List.getElem?_cons_zero, Option.some.injEq] at hu
      subst hu
      exact ⟨k2, k3, k4, fun e leaves he => k5 e leaves (by simpa using he)⟩
    · simp only [List.getElem?_cons_succ] at hu
      exact j3 i u hu

end MieDiff
