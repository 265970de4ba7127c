import Verif.Proofs.Materials
import Verif.Props.Batch

/-!
# From the constructor arguments of a particle to the arrays of the solver
-/

namespace MieDiff

namespace Spec

/-- `Q k` is the particle described by the constructor arguments `a` at the `k`-th of `K` wavenumbers: the given radii, the
permittivities of the materials at the vacuum wavelength `2π/k0` (or the given permittivities), and the host. -/
structure Describes (C : Casts) (h : Heap) (a : ParticleArgs) (k0 : Ten ℝ) (K : ℕ) (ix : ℕ → List ℕ) (Q : ℕ → Particle1) :
    Prop where
  wavenumber : ∀ k < K, (Q k).k0 = k0.get (ix k)
  radii : ∀ k < K, (Q k).rLayers = a.radii
  env : ∀ k < K, ∃ M, materialOf C h a.matEnv = some M ∧ M.at C (2 * Real.pi / k0.get (ix k)) = .ok (Q k).epsEnv
  given : ∀ e, a.epsLayers = some e → ∃ ie, epsIndex 1 a.radii.length K e.shape = some ie ∧
    ∀ k < K, (Q k).epsLayers = (List.range a.radii.length).map fun (l : ℕ) => e.get (ie 0 l k)
  mats : a.epsLayers = none → ∀ k < K, List.Forall₂ (fun m e => ∃ M, materialOf C h m = some M ∧
    M.at C (2 * Real.pi / k0.get (ix k)) = .ok e) (layerMats a) (Q k).epsLayers

/-- Index into an array whose axes of length one were dropped. -/
def dropUnit (s idx : List ℕ) : List ℕ := ((s.zip idx).filter fun p => p.1 ≠ 1).map (·.2)

end Spec

theorem Ten.squeeze_get {α : Type} (t : Ten α) {idx : List ℕ} (h : List.Forall₂ (· < ·) idx t.shape) :
    t.squeeze.get (Spec.dropUnit t.shape idx) = t.get idx := by
  have : ∀ (s idx : List ℕ), List.Forall₂ (· < ·) idx s → Ten.unsqIdx s (Spec.dropUnit s idx) = idx := by
    intro s idx h
    induction h with
    | nil => rfl
    | @cons i d idx s hid _ ih =>
      unfold Spec.dropUnit Ten.unsqIdx
      by_cases hd : d = 1
      · subst hd
        obtain rfl : i = 0 := by omega
        rw [if_pos rfl]
        simp only [List.zip_cons_cons, ne_eq, List.filter_cons, not_true_eq_false, decide_false, Bool.false_eq_true, if_false]
        exact congrArg _ ih
      · rw [if_neg hd]
        simp only [List.zip_cons_cons, ne_eq, List.filter_cons, hd, not_false_eq_true, decide_true, if_true, List.map_cons,
          List.headD_cons, List.tail_cons]
        exact congrArg _ ih
  exact congrArg t.get (this _ _ h)

theorem stackDTen_ok {l : List (DTen ℂ)} {s : List ℕ} {dev : Device} (hne : l ≠ []) (h : ∀ t ∈ l, t.ten.shape = s ∧ t.dev = dev) :
    ∃ t, stackDTen l = .ok t ∧ t.leaves = l.flatMap (·.leaves) ∧ t.ten.shape = l.length :: s ∧
      ∀ (i : ℕ) u, l[i]? = some u → ∀ idx, t.ten.get (i :: idx) = u.ten.get idx := by
  rcases l with _ | ⟨u, us⟩
  · exact absurd rfl hne
  have hall : us.all (fun v => v.ten.shape = u.ten.shape ∧ v.dev = u.dev) = true := by
    rw [List.all_eq_true]
    intro v hv
    obtain ⟨v1, v2⟩ := h v (List.mem_cons_of_mem _ hv)
    obtain ⟨u1, u2⟩ := h u List.mem_cons_self
    simp [v1, v2, u1, u2]
  have hst : stackDTen (u :: us) = .ok ⟨Ten.stackList 0 u.ten.shape ((u :: us).map fun u => u.ten.get), u.dev, (u :: us).flatMap (·.leaves)⟩ := by
    simp only [stackDTen]
    rw [if_pos hall]
  refine ⟨_, hst, rfl, ?_, fun i v hv => (stackDTen_get hst i v hv).2⟩
  rw [(stackDTen_get hst 0 u rfl).1, (h u List.mem_cons_self).1]

theorem k0Index_cases {s : List ℕ} {K : ℕ} {ix : ℕ → List ℕ} (h : Spec.k0Index s = some (K, ix)) :
    Spec.epsShape s = [] ∧ K = 1 ∨ Spec.epsShape s = [K] ∧ K ≠ 1 := by
  unfold Spec.k0Index at h
  split_ifs at h with hlen
  simp only [Option.some.injEq, Prod.mk.injEq] at h
  obtain ⟨hk1, -⟩ := h
  unfold Spec.epsShape
  rcases hf : s.filter (· ≠ 1) with _ | ⟨n, _ | ⟨a, l⟩⟩
  · rw [hf] at hk1; exact .inl ⟨by rw [hf]; rfl, hk1.symm⟩
  · rw [hf] at hk1
    simp only [List.headD_cons] at hk1
    subst hk1
    have : n ∈ s.filter (· ≠ 1) := by rw [hf]; simp
    exact .inr ⟨by rw [hf]; rfl, by simpa using (List.mem_filter.mp this).2⟩
  · rw [hf] at hlen; simp at hlen

/-- A program that makes a particle from `a`, and what `k0` means. -/
structure Scenario (C : Casts) (before : List WOp) (a : ParticleArgs) (after : List WOp) (k0 : DTen ℝ) (K : ℕ)
    (Q : ℕ → Particle1) : Prop where
  unshared : Spec.Unshared C ⟨[], []⟩ (before ++ .create a :: after)
  accepted : Spec.Accepted a
  exist : ∀ m ∈ a.allMats, m.Exists ((⟨[], []⟩ : World).run C before).heap
  one : 1 ≤ K
  ix : ∃ ix, Spec.k0Index k0.ten.shape = some (K, ix) ∧
    Spec.Describes C ((⟨[], []⟩ : World).run C before).heap a k0.ten K ix Q

/-- The world after a program. -/
noncomputable def worldAfter (C : Casts) (before : List WOp) (a : ParticleArgs) (after : List WOp) : World :=
  (⟨[], []⟩ : World).run C (before ++ .create a :: after)

theorem Scenario.layers {C : Casts} {before : List WOp} {a : ParticleArgs} {after : List WOp} {k0 : DTen ℝ} {K : ℕ}
    {Q : ℕ → Particle1} (S : Scenario C before a after k0 K Q) : 0 < a.radii.length := by
  rcases S.accepted.1 with ⟨r, L, hr, hs, hL, -⟩ | ⟨h1, -, -, rc, mc, hrc, -⟩
  · simp [ParticleArgs.radii, hr, Ten.numel, hs]; omega
  · simp [ParticleArgs.radii, h1, hrc]

/-- Everything a `get_*` method hands to `multishell`. -/
theorem Scenario.args {C : Casts} {before : List WOp} {a : ParticleArgs} {after : List WOp} {k0 : DTen ℝ} {K : ℕ}
    {Q : ℕ → Particle1} (S : Scenario C before a after k0 K Q) :
    ∃ q args r e R, (worldAfter C before a after).parts[((⟨[], []⟩ : World).run C before).parts.length]? = some q ∧
      (q.layerArgs C k0 (worldAfter C before a after).heap).1 = .ok args ∧ asLayerInputs args = .ok (r, e) ∧
      Spec.reading args.k0.shape r.shape e.shape args.epsEnv.shape = some R ∧ R.nPart = 1 ∧ R.nLayers = a.radii.length ∧
      R.nK = K ∧ (∀ l < R.nLayers, a.radii[l]? = some (r.get (R.r 0 l))) ∧ (∀ k < K, args.particle R r e 0 k = Q k) ∧
      ∃ t, (q.permittivities C k0 (worldAfter C before a after).heap).1 = .ok t ∧
        (∀ x ls, Spec.materialOf C ((⟨[], []⟩ : World).run C before).heap a.matEnv = some (.const x ls) → t.2.leaves = ls) ∧
        (a.epsLayers = none → ∀ m ∈ Spec.layerMats a, ∀ x ls,
          Spec.materialOf C ((⟨[], []⟩ : World).run C before).heap m = some (.const x ls) → ∀ l ∈ ls, l ∈ t.1.leaves) := by
  obtain ⟨hu, hacc, hex, hK, ix, hix, D⟩ := S
  obtain ⟨p, h', hok, hps, hpr, -, hpe, hpm, -⟩ := C30_accept C a _ hex hacc
  have hi := World.Inv.run _ (w := ⟨[], []⟩) (C := C) ⟨by simp [Heap.Wf], by simp, List.Pairwise.nil⟩ hu
  have hrun : (⟨[], []⟩ : World).run C (before ++ .create a :: after)
      = (⟨h', ((⟨[], []⟩ : World).run C before).parts ++ [p]⟩ : World).run C after := by
    rw [World.run_append]
    simp only [World.run, List.foldl_cons, World.step]
    rw [show Particle.init C a (List.foldl (World.step C) ⟨[], []⟩ before).heap = (.ok p, h') from hok]
    rfl
  obtain ⟨dev, rDev, epsDev, hq⟩ := World.run_same C ((⟨[], []⟩ : World).run C before).parts.length after
    ⟨h', ((⟨[], []⟩ : World).run C before).parts ++ [p]⟩ p (by simp)
  have hpre := World.run_pre C after ⟨h', ((⟨[], []⟩ : World).run C before).parts ++ [p]⟩
  rw [← hrun] at hq hpre
  obtain ⟨m1, m2⟩ := init_means hok hex
  unfold worldAfter
  generalize hw : ((⟨[], []⟩ : World).run C (before ++ .create a :: after)) = w at *
  obtain ⟨-, hqe, hqo⟩ := hi.on _ (List.mem_of_getElem? hq)
  set q : Particle := { p with dev := dev, rDev := rDev, epsDev := epsDev } with hqdef
  -- host
  obtain ⟨M, hM, hMe⟩ := m1
  have hMe' := hpre.get hMe
  have hix' : Spec.k0Index (wavelengths q.dev k0).ten.shape = some (K, ix) := hix
  obtain ⟨tv, v1, v2, v3, v4, v5⟩ := heapEpsilon_value (C := C) (hqo q.env (by simp [Particle.ids])) hMe' (wavelengths q.dev k0) hix' hK
    (v := fun k => (Q k).epsEnv) fun k hk => by
      obtain ⟨M', j1, j2⟩ := D.env k hk
      rw [hM] at j1
      cases j1
      exact j2
  obtain ⟨s1, -⟩ := heapEpsilon_step (wavelengths q.dev k0) q.env hi.wf
  have hp1 := heapEpsilon_pre C (wavelengths q.dev k0) q.env w.heap
  have hcas := k0Index_cases hix
  have hsh : Spec.epsShape (wavelengths q.dev k0).ten.shape = Spec.epsShape k0.ten.shape := rfl
  rw [hsh] at v2
  have henv : ∃ iv, Spec.envIndex K tv.ten.shape = some iv ∧ ∀ k < K, tv.ten.get (iv k) = (Q k).epsEnv := by
    rw [v2]
    rcases hcas with ⟨h, rfl⟩ | ⟨h, h1⟩ <;> rw [h]
    · refine ⟨fun _ => [], by simp [Spec.envIndex], fun k hk => ?_⟩
      rw [← v4 k hk, if_pos rfl]
    · refine ⟨fun k => [k], by simp [Spec.envIndex], fun k hk => ?_⟩
      rw [← v4 k hk, if_neg h1]
  obtain ⟨iv, hiv, hive⟩ := henv
  have hrI : Spec.rIndex q.rLayers.shape = some (1, a.radii.length, fun _ l => [l]) := by
    show Spec.rIndex p.rLayers.shape = _
    rw [hps]; rfl
  have hrad : (List.range a.radii.length).map (fun (l : ℕ) => q.rLayers.get [l]) = a.radii := by
    apply List.ext_getElem?
    intro l
    by_cases hl : l < a.radii.length
    · rw [hpr l hl]
      simp [List.getElem?_range hl, hqdef]
    · rw [List.getElem?_eq_none (by simpa using hl), List.getElem?_eq_none (by simpa using hl)]
  -- what is left once the layer permittivities are known
  have fin : ∀ (t : DTen ℂ) (ie : ℕ → ℕ → ℕ → List ℕ), (q.permittivities C k0 w.heap).1 = .ok (t, tv) →
      Spec.epsIndex 1 a.radii.length K t.ten.shape = some ie →
      (∀ k < K, (Q k).epsLayers = (List.range a.radii.length).map fun (l : ℕ) => t.ten.get (ie 0 l k)) →
      (a.epsLayers = none → ∀ m ∈ Spec.layerMats a, ∀ x ls,
        Spec.materialOf C ((⟨[], []⟩ : World).run C before).heap m = some (.const x ls) → ∀ l ∈ ls, l ∈ t.leaves) →
      ∃ args r e R, (q.layerArgs C k0 w.heap).1 = .ok args ∧ asLayerInputs args = .ok (r, e) ∧
      Spec.reading args.k0.shape r.shape e.shape args.epsEnv.shape = some R ∧ R.nPart = 1 ∧ R.nLayers = a.radii.length ∧
      R.nK = K ∧ (∀ l < R.nLayers, a.radii[l]? = some (r.get (R.r 0 l))) ∧ (∀ k < K, args.particle R r e 0 k = Q k) ∧
      ∃ t, (q.permittivities C k0 w.heap).1 = .ok t ∧
        (∀ x ls, Spec.materialOf C ((⟨[], []⟩ : World).run C before).heap a.matEnv = some (.const x ls) → t.2.leaves = ls) ∧
        (a.epsLayers = none → ∀ m ∈ Spec.layerMats a, ∀ x ls,
          Spec.materialOf C ((⟨[], []⟩ : World).run C before).heap m = some (.const x ls) → ∀ l ∈ ls, l ∈ t.1.leaves) := by
    intro t ie hq1 hie hval hlv
    refine ⟨{ k0 := k0.ten.map fun k : ℝ => (k : ℂ), rLayers := some q.rLayers, epsLayers := some t.ten, epsEnv := tv.ten }, q.rLayers, t.ten,
      ⟨1, a.radii.length, K, ix, fun _ l => [l], ie, iv⟩, ?_, rfl, ?_, rfl, rfl, rfl, fun l hl => hpr l hl, fun k hk => ?_, (t, tv), hq1,
      fun x ls hx => v5 x ls (by rw [hM] at hx; exact Option.some.inj hx), hlv⟩
    · simp only [Particle.layerArgs, hq1]; rfl
    · simp only [Spec.reading]
      rw [show (k0.ten.map fun k : ℝ => (k : ℂ)).shape = k0.ten.shape from rfl, hix, hrI]
      simp [hie, hiv]
    · have h1 := D.wavenumber k hk
      have h2 := D.radii k hk
      have h3 := hval k hk
      have h4 := hive k hk
      unfold LayerArgs.particle
      simp only
      rw [h4, ← h3, hrad, ← h2]
      show (⟨((k0.ten.get (ix k) : ℝ) : ℂ), _, _, _⟩ : Particle1) = Q k
      rw [← h1]
  have hc : a.epsLayers = none ∨ ∃ e, a.epsLayers = some e := by cases a.epsLayers <;> simp
  rcases hc with hel | ⟨e, hel⟩
  · obtain ⟨ids, i1, i2, i3, i4⟩ := m2 hel
    have hD := D.mats hel
    have hql : q.epsLayers = none := by rw [hqdef]; exact hpe.trans hel
    have hqm : q.mats = some ids := i1
    have hlen : ids.length = a.radii.length := hpm ids i1
    obtain ⟨l, l1, l2, l3⟩ := heapEpsilons_value (C := C) (wavelengths q.dev k0) (dev := q.dev) hix' hK ids
      ((Spec.layerMats a).map fun m => (Spec.materialOf C ((⟨[], []⟩ : World).run C before).heap m).getD (.const 0 []))
      (heapEpsilon C (wavelengths q.dev k0) q.env w.heap).2 (fun i k => (Q k).epsLayers.getD i 0) s1.wf (by simpa using i2)
      fun i id M' hid hM' => by
        rw [List.getElem?_map] at hM'
        rcases hm : (Spec.layerMats a)[i]? with _ | m
        · rw [hm] at hM'; cases hM'
        rw [hm] at hM'
        simp only [Option.map_some, Option.some.injEq] at hM'
        obtain ⟨M'', j1, j2⟩ := i4 i m id hm hid
        rw [j1] at hM'
        simp only [Option.getD_some] at hM'
        subst hM'
        obtain ⟨o, ho, hon⟩ := hqo id (by
          simp only [Particle.ids, List.mem_append]
          exact .inl (by rw [hqm]; exact List.mem_of_getElem? hid))
        refine ⟨s1.on _ _ _ ho hon, hp1.get (hpre.get j2), fun k hk => ?_⟩
        have hF := hD k hk
        have hil : i < (Spec.layerMats a).length := (List.getElem?_eq_some_iff.mp hm).1
        have hil2 : i < (Q k).epsLayers.length := by rw [← hF.length_eq]; exact hil
        obtain ⟨M3, g1, g2⟩ := hF.get hil hil2
        have hmi : (Spec.layerMats a).get ⟨i, hil⟩ = m := by
          rw [List.getElem?_eq_getElem hil] at hm
          exact Option.some.inj hm
        rw [hmi, j1] at g1
        cases g1
        rw [List.getD_eq_getElem?_getD, List.getElem?_eq_getElem hil2, Option.getD_some]
        exact g2
    obtain ⟨t, t1, t4, t2, t3⟩ := stackDTen_ok (l := l) (s := Spec.epsShape k0.ten.shape) (dev := q.dev)
      (by rintro rfl; exact i3 (List.length_eq_zero_iff.mp l2.symm)) (fun u hu => by
        obtain ⟨i, hi'⟩ := List.mem_iff_getElem?.mp hu
        exact ⟨(l3 i u hi').1, (l3 i u hi').2.1⟩)
    have hperm : (q.permittivities C k0 w.heap).1 = .ok (t, tv) := by
      unfold Particle.permittivities
      simp only
      rcases hr : heapEpsilon C (wavelengths q.dev k0) q.env w.heap with ⟨e | env, h2⟩
      · rw [hr] at v1; cases v1
      rw [hr] at v1 l1
      cases v1
      rw [hql]
      simp only
      rw [hqm, Option.getD_some]
      rcases hr' : heapEpsilons C (wavelengths q.dev k0) ids h2 with ⟨e | ts, h3⟩
      · rw [hr'] at l1; cases l1
      rw [hr'] at l1
      cases l1
      simp only [t1]
      rfl
    have hlay : ∀ k < K, (Q k).epsLayers.length = a.radii.length := fun k hk => by rw [← (hD k hk).length_eq, ← i2, hlen]
    have hget : ∀ l' < a.radii.length, ∀ k < K, t.ten.get (l' :: if K = 1 then [] else [k]) = (Q k).epsLayers.getD l' 0 := by
      intro l' hl' k hk
      have hll : l' < l.length := by rw [l2, hlen]; exact hl'
      rw [t3 l' _ (List.getElem?_eq_getElem hll)]
      exact (l3 l' _ (List.getElem?_eq_getElem hll)).2.2.1 k hk
    have hval : ∀ k < K, (Q k).epsLayers
        = (List.range a.radii.length).map fun (l : ℕ) => t.ten.get (l :: if K = 1 then [] else [k]) := by
      intro k hk
      apply List.ext_getElem
      · simp [hlay k hk]
      · intro i hi1 hi2
        rw [List.getElem_map, List.getElem_range, hget i (by simpa using hi2) k hk, List.getD_eq_getElem?_getD,
          List.getElem?_eq_getElem hi1, Option.getD_some]
    have hie : Spec.epsIndex 1 a.radii.length K t.ten.shape = some fun _ l k => l :: if K = 1 then [] else [k] := by
      rw [t2, l2, hlen]
      rcases hcas with ⟨h, rfl⟩ | ⟨h, h1⟩ <;> rw [h]
      · simp [Spec.epsIndex]
      · simp only [Spec.epsIndex, if_neg h1]
        rw [if_neg (by omega)]
        simp
    obtain ⟨args, r, e, R, f⟩ := fin t _ hperm hie hval fun _ m hm x ls hx y hy => by
      obtain ⟨i, hi'⟩ := List.mem_iff_getElem?.mp hm
      have hil : i < l.length := by rw [l2, i2]; exact (List.getElem?_eq_some_iff.mp hi').1
      have := (l3 i _ (List.getElem?_eq_getElem hil)).2.2.2 x ls (by simp [hi', hx])
      rw [t4, List.mem_flatMap]
      exact ⟨l[i], List.getElem_mem hil, by rw [this]; exact hy⟩
    exact ⟨q, args, r, e, R, hq, f⟩
  · have hql : q.epsLayers = some e := by rw [hqdef]; exact hpe.trans hel
    obtain ⟨ie, hie, hval⟩ := D.given e hel
    have hperm : (q.permittivities C k0 w.heap).1 = .ok (⟨e, q.epsDev, []⟩, tv) := by
      unfold Particle.permittivities
      simp only
      rcases hr : heapEpsilon C (wavelengths q.dev k0) q.env w.heap with ⟨e | env, h2⟩
      · rw [hr] at v1; cases v1
      rw [hr] at v1
      cases v1
      rw [hql]
    obtain ⟨args, r, e', R, f⟩ := fin ⟨e, q.epsDev, []⟩ ie hperm hie hval fun h => by rw [hel] at h; cases h
    exact ⟨q, args, r, e', R, hq, f⟩

end MieDiff
