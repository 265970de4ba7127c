import Verif.Model.BatchTorch
import Verif.Proofs.BatchObs
import Verif.Proofs.NearTorch

/-!
# Entries of the batched torch and scipy backends
-/

namespace MieDiff

open Complex Ten

/-- Size parameters and relative indices of one particle as `_miecoef` gets them (multishell.py:759-762). -/
noncomputable def Particle1.csX (q : Particle1) : ℂ := q.k0 * csqrt q.epsEnv * ((q.rLayers.headD 0 : ℝ) : ℂ)
noncomputable def Particle1.csY (q : Particle1) : ℂ := q.k0 * csqrt q.epsEnv * ((q.rLayers.getLastD 0 : ℝ) : ℂ)
noncomputable def Particle1.csM1 (q : Particle1) : ℂ := csqrt (q.epsLayers.headD 0) / csqrt q.epsEnv
noncomputable def Particle1.csM2 (q : Particle1) : ℂ := csqrt (q.epsLayers.getLastD 0) / csqrt q.epsEnv

/-- The result of `mie_coefficients` for one particle, apart from the coefficients. -/
noncomputable def Particle1.meta (q : Particle1) (n : ℤ) (out : List CoreShellOut) (ri : Bool) : MieOut where
  k := q.k0 * csqrt q.epsEnv
  nMax := n
  rC := q.rLayers.headD 0
  rS := q.rLayers.getLastD 0
  epsC := q.epsLayers.headD 0
  epsS := q.epsLayers.getLastD 0
  nEnv := csqrt q.epsEnv
  m := q.epsLayers.map fun e => csqrt e / csqrt q.epsEnv
  a := out.map (·.a)
  b := out.map (·.b)
  internal := if ri then some out else none

theorem mieCoefficients_cs_eq (K : D1Kernel) (B : Backends) (q : Particle1) {backend : String}
    (hb : backend.toLower = "torch" ∨ backend.toLower = "scipy") (w : String) (nMax : Option ℤ) (ri : Bool)
    (hr : strictlyIncreasing q.rLayers) (hl : q.epsLayers.length = q.rLayers.length)
    (h1 : q.rLayers.length = 1 ∨ q.rLayers.length = 2) :
    mieCoefficients K B q backend w nMax ri = (orderChoice backend.toLower q nMax >>= fun n => orderRange n >>= fun _ =>
      selectBessel B backend w >>= fun S => miecoef S q.csX q.csY n q.csM1 q.csM2 >>= fun out => .ok (q.meta n out ri)) := by
  have hp : backend.toLower ≠ "pena" := by rcases hb with h | h <;> rw [h] <;> decide
  have hk : ¬¬(backend.toLower = "torch" ∨ backend.toLower = "scipy" ∨ backend.toLower = "pena") := by tauto
  obtain ⟨k0, rs, es, ee⟩ := q
  simp only at hr hl h1
  unfold mieCoefficients
  simp only
  rw [if_neg hk, if_neg (not_not.mpr hr), if_neg (not_not.mpr hl)]
  rcases h1 with h1 | h1
  · obtain ⟨r, rfl⟩ := List.length_eq_one_iff.mp h1
    obtain ⟨e, rfl⟩ := List.length_eq_one_iff.mp (hl.trans h1)
    simp only [pyIdx, List.getElem?_cons_zero, Bind.bind, Except.bind, hp, if_false]
    cases orderChoice backend.toLower ⟨k0, [r], [e], ee⟩ nMax with
    | error e => rfl
    | ok n =>
      simp only
      cases orderRange n with
      | error e => rfl
      | ok v =>
        simp only
        cases selectBessel B backend w with
        | error e => rfl
        | ok S =>
          simp only [Particle1.csX, Particle1.csY, Particle1.csM1, Particle1.csM2, List.headD_cons, List.getLastD_cons,
            List.getLastD_nil, List.length_cons, List.length_nil, zero_add, gt_iff_lt, lt_irrefl, if_false]
          cases miecoef S _ _ n _ _ with
          | error e => rfl
          | ok out => rfl
  · obtain ⟨r, r', rfl⟩ := List.length_eq_two.mp h1
    obtain ⟨e, e', rfl⟩ := List.length_eq_two.mp (hl.trans h1)
    simp only [pyIdx, List.getElem?_cons_zero, Bind.bind, Except.bind, hp, if_false]
    cases orderChoice backend.toLower ⟨k0, [r, r'], [e, e'], ee⟩ nMax with
    | error e => rfl
    | ok n =>
      simp only
      cases orderRange n with
      | error e => rfl
      | ok v =>
        simp only
        cases selectBessel B backend w with
        | error e => rfl
        | ok S =>
          simp only [Particle1.csX, Particle1.csY, Particle1.csM1, Particle1.csM2, List.headD_cons, List.getLastD_cons,
            List.getLastD_nil, List.length_cons, List.length_nil, zero_add, gt_iff_lt]
          simp only [show (1 : ℕ) < 1 + 1 from by norm_num, show ¬(2 : ℕ) < 1 + 1 from by norm_num, if_true, if_false]
          cases miecoef S _ _ n _ _ with
          | error e => rfl
          | ok out => rfl

/-- The arrays `mie_coefficients` builds for the torch and scipy backends. -/
structure CsArrays (b : Bcast) where
  r0 : Ten ℝ
  rC : Ten ℝ
  rS : Ten ℝ
  epsC : Ten ℂ
  epsS : Ten ℂ
  k : Ten ℂ
  x : Ten ℂ
  y : Ten ℂ
  m1 : Ten ℂ
  m2 : Ten ℂ
  m : Ten ℂ
  er0 : b.r.select 1 0 = .ok r0
  erC : (r0.unsqueeze 1).broadcastTo [b.nPart, b.nK] = .ok rC
  erS : aliasR b rC = .ok rS
  eeC : b.eps.select 1 0 = .ok epsC
  eeS : aliasEps b epsC = .ok epsS
  ek : Ten.op2 (· * ·) b.k0 (b.env.map csqrt) = .ok k
  ex : Ten.op2 (fun u (v : ℝ) => u * (v : ℂ)) k rC = .ok x
  ey : Ten.op2 (fun u (v : ℝ) => u * (v : ℂ)) k rS = .ok y
  em1 : Ten.op2 (· / ·) (epsC.map csqrt) (b.env.map csqrt) = .ok m1
  em2 : Ten.op2 (· / ·) (epsS.map csqrt) (b.env.map csqrt) = .ok m2
  em : Ten.op2 (· / ·) (b.eps.map csqrt) ((b.env.map csqrt).unsqueeze 1) = .ok m
  sk : k.shape = [1, b.nK]
  srC : rC.shape = [b.nPart, b.nK]
  srS : rS.shape = [b.nPart, b.nK]
  seC : epsC.shape = [b.nPart, b.nK]
  seS : epsS.shape = [b.nPart, b.nK]
  sx : x.shape = [b.nPart, b.nK]
  sy : y.shape = [b.nPart, b.nK]
  sm1 : m1.shape = [b.nPart, b.nK]
  sm2 : m2.shape = [b.nPart, b.nK]
  vk : ∀ j, j < b.nK → k.get [0, j] = b.k0.get [0, j] * csqrt (b.env.get [0, j])
  vrC : ∀ p j, p < b.nPart → j < b.nK → rC.get [p, j] = (b.particle p j).rLayers.headD 0
  vrS : ∀ p j, p < b.nPart → j < b.nK → rS.get [p, j] = (b.particle p j).rLayers.getLastD 0
  veC : ∀ p j, p < b.nPart → j < b.nK → epsC.get [p, j] = (b.particle p j).epsLayers.headD 0
  veS : ∀ p j, p < b.nPart → j < b.nK → epsS.get [p, j] = (b.particle p j).epsLayers.getLastD 0
  vx : ∀ p j, p < b.nPart → j < b.nK → x.get [p, j] = (b.particle p j).csX
  vy : ∀ p j, p < b.nPart → j < b.nK → y.get [p, j] = (b.particle p j).csY
  vm1 : ∀ p j, p < b.nPart → j < b.nK → m1.get [p, j] = (b.particle p j).csM1
  vm2 : ∀ p j, p < b.nPart → j < b.nK → m2.get [p, j] = (b.particle p j).csM2
  vm : ∀ p l j, p < b.nPart → l < b.nLayers → j < b.nK →
    m.get [p, l, j] = csqrt (b.eps.get [p, l, j]) / csqrt (b.env.get [0, j])

theorem bShape_row (P K : ℕ) : Ten.bShape [1, K] [P, K] = .ok [P, K] := by
  simp [Ten.bShape, Ten.bShapeRev, Ten.bDim_self, Ten.bDim_one_left, Bind.bind, Except.bind]

theorem bShape_row' (P K : ℕ) : Ten.bShape [P, K] [1, K] = .ok [P, K] := by
  simp [Ten.bShape, Ten.bShapeRev, Ten.bDim_self, Ten.bDim_one_right, Bind.bind, Except.bind]

theorem bShape_self2 (P K : ℕ) : Ten.bShape [P, K] [P, K] = .ok [P, K] := by
  simp [Ten.bShape, Ten.bShapeRev, Ten.bDim_self, Bind.bind, Except.bind]

theorem csArrays {b : Bcast} (hw : b.WF) (h0 : 0 < b.nLayers) : Nonempty (CsArrays b) := by
  obtain ⟨m', hm'⟩ : ∃ m, b.nLayers = m + 1 := ⟨b.nLayers - 1, by omega⟩
  have hR0 : b.r.select 1 0 = .ok ⟨[b.nPart], fun idx => b.r.get (idx.insertIdx 1 0)⟩ := by
    simp [Ten.select, hw.r, h0]
  have hE0 : b.eps.select 1 0 = .ok ⟨[b.nPart, b.nK], fun idx => b.eps.get (idx.insertIdx 1 0)⟩ := by
    simp [Ten.select, hw.eps, h0]
  have hR1 : b.r.selectLast 1 = .ok ⟨[b.nPart], fun idx => b.r.get (idx.insertIdx 1 m')⟩ := by
    simp [Ten.selectLast, hw.r, hm']
  have hE1 : b.eps.selectLast 1 = .ok ⟨[b.nPart, b.nK], fun idx => b.eps.get (idx.insertIdx 1 m')⟩ := by
    simp [Ten.selectLast, hw.eps, hm']
  have hbr : ∀ f : List ℕ → ℝ, (Ten.unsqueeze ⟨[b.nPart], f⟩ 1).broadcastTo [b.nPart, b.nK]
      = .ok ⟨[b.nPart, b.nK], fun idx => f ((Ten.bIdx [b.nPart, 1] idx).eraseIdx 1)⟩ := by
    intro f
    simp [Ten.broadcastTo, Ten.unsqueeze]
  have pr0 : ∀ p j, (b.particle p j).rLayers.headD 0 = b.r.get [p, 0] := by
    intro p j; simp [Bcast.particle, hm', List.range_succ_eq_map]
  have pr1 : ∀ p j, (b.particle p j).rLayers.getLastD 0 = b.r.get [p, m'] := by
    intro p j; simp [Bcast.particle, hm', List.range_succ]
  have pe0 : ∀ p j, (b.particle p j).epsLayers.headD 0 = b.eps.get [p, 0, j] := by
    intro p j; simp [Bcast.particle, hm', List.range_succ_eq_map]
  have pe1 : ∀ p j, (b.particle p j).epsLayers.getLastD 0 = b.eps.get [p, m', j] := by
    intro p j; simp [Bcast.particle, hm', List.range_succ]
  obtain ⟨rC, erC, srC, vrC⟩ : ∃ t, (Ten.unsqueeze ⟨[b.nPart], fun idx => b.r.get (idx.insertIdx 1 0)⟩ 1).broadcastTo
      [b.nPart, b.nK] = .ok t ∧ t.shape = [b.nPart, b.nK] ∧ ∀ p j, p < b.nPart → j < b.nK → t.get [p, j] = b.r.get [p, 0] :=
    ⟨_, hbr _, rfl, fun p j hp hj => by simp [Ten.bIdx, Ten.bi_lt hp]⟩
  obtain ⟨rS, erS, srS, vrS⟩ : ∃ t, aliasR b rC = .ok t ∧ t.shape = [b.nPart, b.nK] ∧
      ∀ p j, p < b.nPart → j < b.nK → t.get [p, j] = b.r.get [p, m'] := by
    unfold aliasR
    split_ifs with h
    · refine ⟨_, by rw [hR1]; exact hbr _, rfl, fun p j hp hj => ?_⟩
      simp [Ten.bIdx, Ten.bi_lt hp]
    · have : m' = 0 := by omega
      subst this
      exact ⟨_, rfl, srC, vrC⟩
  obtain ⟨epsS, eeS, seS, veS⟩ : ∃ t, aliasEps b ⟨[b.nPart, b.nK], fun idx => b.eps.get (idx.insertIdx 1 0)⟩ = .ok t ∧
      t.shape = [b.nPart, b.nK] ∧ ∀ p j, p < b.nPart → j < b.nK → t.get [p, j] = b.eps.get [p, m', j] := by
    unfold aliasEps
    split_ifs with h
    · exact ⟨_, hE1, rfl, fun p j _ _ => by simp⟩
    · have : m' = 0 := by omega
      subst this
      exact ⟨_, rfl, rfl, fun p j _ _ => by simp⟩
  obtain ⟨k, ek, sk, vk⟩ := op2_get (fun u v : ℂ => u * v) (s := b.k0) (t := b.env.map csqrt) (sh := [1, b.nK]) hw.k0 hw.env
    (by simp [Ten.bShape, Ten.bShapeRev, Ten.bDim_self, Bind.bind, Except.bind])
  obtain ⟨x, ex, sx, vx⟩ := op2_get (fun u (v : ℝ) => u * (v : ℂ)) (s := k) (t := rC) sk srC (bShape_row _ _)
  obtain ⟨y, ey, sy, vy⟩ := op2_get (fun u (v : ℝ) => u * (v : ℂ)) (s := k) (t := rS) sk srS (bShape_row _ _)
  obtain ⟨m1, em1, sm1, vm1⟩ := op2_get (fun u v : ℂ => u / v)
    (s := Ten.map csqrt ⟨[b.nPart, b.nK], fun idx => b.eps.get (idx.insertIdx 1 0)⟩) (t := b.env.map csqrt)
    (a := [b.nPart, b.nK]) rfl hw.env (bShape_row' _ _)
  obtain ⟨m2, em2, sm2, vm2⟩ := op2_get (fun u v : ℂ => u / v) (s := epsS.map csqrt) (t := b.env.map csqrt) seS hw.env
    (bShape_row' _ _)
  obtain ⟨m, em, sm, vm⟩ := op2_get (fun u v : ℂ => u / v) (s := b.eps.map csqrt) (t := (b.env.map csqrt).unsqueeze 1)
    (a := [b.nPart, b.nLayers, b.nK]) (b := [1, 1, b.nK]) (sh := [b.nPart, b.nLayers, b.nK]) hw.eps
    (by simp [Ten.unsqueeze, Ten.map, hw.env])
    (by simp [Ten.bShape, Ten.bShapeRev, Ten.bDim_self, Ten.bDim_one_right, Bind.bind, Except.bind])
  have vk' : ∀ j, j < b.nK → k.get [0, j] = b.k0.get [0, j] * csqrt (b.env.get [0, j]) := by
    intro j hj; rw [vk]; simp [Ten.bIdx, Ten.bi_lt hj, Ten.map]
  exact ⟨{
    r0 := _, rC := rC, rS := rS, epsC := _, epsS := epsS, k := k, x := x, y := y, m1 := m1, m2 := m2, m := m
    er0 := hR0, erC := erC, erS := erS, eeC := hE0, eeS := eeS, ek := ek, ex := ex, ey := ey, em1 := em1, em2 := em2, em := em
    sk := sk, srC := srC, srS := srS, seC := rfl, seS := seS, sx := sx, sy := sy, sm1 := sm1, sm2 := sm2, vk := vk'
    vrC := fun p j hp hj => by rw [vrC p j hp hj, pr0]
    vrS := fun p j hp hj => by rw [vrS p j hp hj, pr1]
    veC := fun p j hp hj => by rw [pe0]; simp
    veS := fun p j hp hj => by rw [veS p j hp hj, pe1]
    vx := fun p j hp hj => by
      rw [vx]
      simp only [Ten.bIdx, List.length_cons, List.length_nil, zero_add, Nat.reduceAdd, Nat.sub_self, List.drop_zero,
        List.zipWith_cons_cons, List.zipWith_nil_right, Ten.bi_lt hp, Ten.bi_lt hj, Ten.bi_one]
      rw [vk' j hj, vrC p j hp hj, Particle1.csX, pr0]; rfl
    vy := fun p j hp hj => by
      rw [vy]
      simp only [Ten.bIdx, List.length_cons, List.length_nil, zero_add, Nat.reduceAdd, Nat.sub_self, List.drop_zero,
        List.zipWith_cons_cons, List.zipWith_nil_right, Ten.bi_lt hp, Ten.bi_lt hj, Ten.bi_one]
      rw [vk' j hj, vrS p j hp hj, Particle1.csY, pr1]; rfl
    vm1 := fun p j hp hj => by
      rw [vm1, Particle1.csM1, pe0]
      simp [Ten.bIdx, Ten.bi_lt hp, Ten.bi_lt hj, Ten.map, Bcast.particle]
    vm2 := fun p j hp hj => by
      rw [vm2, Particle1.csM2, pe1]
      simp [Ten.bIdx, Ten.bi_lt hp, Ten.bi_lt hj, Ten.map, Bcast.particle, veS p j hp hj]
    vm := fun p l j hp hl hj => by
      rw [vm]
      simp [Ten.bIdx, Ten.bi_lt hp, Ten.bi_lt hl, Ten.bi_lt hj, Ten.map, Ten.unsqueeze] }⟩

/-- The result of the batched call, apart from the coefficients. -/
noncomputable def CsArrays.result {b : Bcast} (c : CsArrays b) (n : ℤ) (out : Ten CoreShellOut) : BatchOut where
  b := b
  k := c.k
  nMax := n
  rC := c.rC
  rS := c.rS
  epsC := c.epsC
  epsS := c.epsS
  nEnv := b.env.map csqrt
  m := c.m
  a := out.map (·.a)
  bn := out.map (·.b)

theorem mieCoefficientsB_eq {args : LayerArgs} {rl : Ten ℝ} {el : Ten ℂ} {b : Bcast}
    (ha : asLayerInputs args = .ok (rl, el)) (hb : broadcastMieLayers args.k0 rl el args.epsEnv = .ok b) (c : CsArrays b)
    (h2 : b.nLayers ≤ 2) {backend : String} (hbk : backend.toLower = "torch" ∨ backend.toLower = "scipy")
    (A : BackendsOf ArrFns) (w : String) (nMax : Option ℤ) (ri : Bool) :
    mieCoefficientsB A args backend w nMax ri = (orderChoiceB b nMax >>= fun n => orderRange n >>= fun _ =>
      selectBessel A backend w >>= fun F => miecoefT F c.x c.y c.m1 c.m2 n >>= fun out =>
        .ok (c.result n out, if ri then some out else none)) := by
  have hp : backend.toLower ≠ "pena" := by rcases hbk with h | h <;> rw [h] <;> decide
  have hk : ¬¬(backend.toLower = "torch" ∨ backend.toLower = "scipy" ∨ backend.toLower = "pena") := by tauto
  unfold mieCoefficientsB
  simp only
  rw [if_neg hk, if_neg hp]
  simp only [ha, hb, c.er0, c.erC, c.erS, c.eeC, c.eeS, c.ek, c.ex, c.ey, c.em1, c.em2, c.em, Bind.bind, Except.bind,
    show ¬b.nLayers > 2 from by omega, if_false]
  cases orderChoiceB b nMax with
  | error e => rfl
  | ok n =>
    simp only
    cases orderRange n with
    | error e => rfl
    | ok v =>
      simp only
      cases selectBessel A backend w with
      | error e => rfl
      | ok F =>
        simp only
        cases miecoefT F c.x c.y c.m1 c.m2 n with
        | error e => rfl
        | ok out => rfl

/-- The four arguments of the special functions (multishell.py:75-83) for all entries of a batch. -/
noncomputable def Bcast.argsY (b : Bcast) : List ℂ :=
  (List.range b.nPart).flatMap fun p => (List.range b.nK).map fun k => (b.particle p k).csY
noncomputable def Bcast.args1X (b : Bcast) : List ℂ :=
  (List.range b.nPart).flatMap fun p => (List.range b.nK).map fun k => (b.particle p k).csM1 * (b.particle p k).csX
noncomputable def Bcast.args2X (b : Bcast) : List ℂ :=
  (List.range b.nPart).flatMap fun p => (List.range b.nK).map fun k => (b.particle p k).csM2 * (b.particle p k).csX
noncomputable def Bcast.args2Y (b : Bcast) : List ℂ :=
  (List.range b.nPart).flatMap fun p => (List.range b.nK).map fun k => (b.particle p k).csM2 * (b.particle p k).csY

theorem entries_eq {t : Ten ℂ} {P K : ℕ} (hs : t.shape = [P, K]) {f : ℕ → ℕ → ℂ}
    (h : ∀ p k, p < P → k < K → t.get [p, k] = f p k) :
    t.entries = (List.range P).flatMap fun p => (List.range K).map fun k => f p k := by
  have e : t.entries = (List.range P).flatMap fun p => (List.range K).map fun k => t.get [p, k] := by
    simp only [Ten.entries, Ten.indices, hs, List.map_flatMap, List.map_map]
    congr 1
    funext p
    rw [List.map_eq_flatMap]
    rfl
  rw [e, List.flatMap_def, List.flatMap_def]
  congr 1
  exact List.map_congr_left fun p hp => List.map_congr_left fun k hk => h p k (by simpa using hp) (by simpa using hk)

/-- One entry of the batched `_miecoef`: the special functions have the depths of the batch. -/
noncomputable def Particle1.cs4 (q : Particle1) (J : TorchFns) (dy d1 d2 d3 : ℝ) (n : ℤ) : Py (List CoreShellOut) :=
  miecoef4 (J dy) (J d1) (J d2) (J d3) q.csX q.csY n q.csM1 q.csM2

theorem miecoef4_length {By B1 B2 B3 : BesselBackend} {x y m1 m2 : ℂ} {n : ℤ} {out : List CoreShellOut}
    (h : miecoef4 By B1 B2 B3 x y n m1 m2 = .ok out) : ∃ j, By.jn n y = .ok j ∧ out.length = j.length - 1 := by
  unfold miecoef4 at h
  obtain ⟨j, hj, h⟩ := bindE_inv h
  iterate 6 (obtain ⟨_, _, h⟩ := bindE_inv h)
  iterate 7 (obtain ⟨_, _, h⟩ := bindE_inv h)
  cases h
  exact ⟨j, hj, by simp⟩

theorem mapM_congr' {α β : Type} {l : List α} {f g : α → Py β} (h : ∀ a ∈ l, f a = g a) : l.mapM f = l.mapM g := by
  induction l with
  | nil => rfl
  | cons a l ih =>
    rw [List.mapM_cons, List.mapM_cons, h a (by simp), ih fun b hb => h b (by simp [hb])]

theorem mapM_inv {α β : Type} {f : α → Py β} : ∀ {l : List α} {v : List β}, l.mapM f = .ok v → ∀ a ∈ l, ∃ b, f a = .ok b
  | [], _, _, a, ha => by simp at ha
  | x :: l, v, h, a, ha => by
    rw [List.mapM_cons] at h
    obtain ⟨b, hb, h⟩ := bindE_inv h
    obtain ⟨bs, hbs, h⟩ := bindE_inv h
    rcases List.mem_cons.mp ha with rfl | ha
    · exact ⟨b, hb⟩
    · exact mapM_inv hbs a ha

theorem mem_indices2 {P K : ℕ} {i : List ℕ} : i ∈ Ten.indices [P, K] ↔ ∃ p k, p < P ∧ k < K ∧ i = [p, k] := by
  simp [Ten.indices]
  constructor
  · rintro ⟨p, hp, k, hk, rfl⟩; exact ⟨p, hp, k, hk, rfl⟩
  · rintro ⟨p, hp, k, hk, rfl⟩; exact ⟨p, hp, k, hk, rfl⟩

theorem miecoefT_eq {b : Bcast} (c : CsArrays b) (F : ArrFns) (n : ℤ) :
    miecoefT F c.x c.y c.m1 c.m2 n
      = (F.depth b.argsY >>= fun dy => F.depth b.args1X >>= fun d1 => F.depth b.args2X >>= fun d2 =>
        F.depth b.args2Y >>= fun d3 =>
        (Ten.indices [b.nPart, b.nK]).mapM (fun i => (b.particle (i.getD 0 0) (i.getD 1 0)).cs4 F.fns dy d1 d2 d3 n) >>= fun _ =>
        .ok ⟨[n.toNat, b.nPart, b.nK], fun idx => (okD [] (miecoef4 (F.fns dy) (F.fns d1) (F.fns d2) (F.fns d3) (c.x.get idx.tail)
          (c.y.get idx.tail) n (c.m1.get idx.tail) (c.m2.get idx.tail))).getD (idx.headD 0) noOrder⟩) := by
  obtain ⟨u1, e1, s1, v1⟩ := op2_get (fun u v : ℂ => u * v) c.sm1 c.sx (bShape_self2 _ _)
  obtain ⟨u2, e2, s2, v2⟩ := op2_get (fun u v : ℂ => u * v) c.sm2 c.sx (bShape_self2 _ _)
  obtain ⟨u3, e3, s3, v3⟩ := op2_get (fun u v : ℂ => u * v) c.sm2 c.sy (bShape_self2 _ _)
  have hb : ∀ {p k}, p < b.nPart → k < b.nK → Ten.bIdx [b.nPart, b.nK] [p, k] = [p, k] := by
    intro p k hp hk; simp [Ten.bIdx, Ten.bi_lt hp, Ten.bi_lt hk]
  have E0 : c.y.entries = b.argsY := entries_eq c.sy c.vy
  have E1 : u1.entries = b.args1X := entries_eq s1 fun p k hp hk => by rw [v1, hb hp hk, c.vm1 p k hp hk, c.vx p k hp hk]
  have E2 : u2.entries = b.args2X := entries_eq s2 fun p k hp hk => by rw [v2, hb hp hk, c.vm2 p k hp hk, c.vx p k hp hk]
  have E3 : u3.entries = b.args2Y := entries_eq s3 fun p k hp hk => by rw [v3, hb hp hk, c.vm2 p k hp hk, c.vy p k hp hk]
  unfold miecoefT
  rw [e1, e2, e3]
  simp only [bind_ok]
  rw [E0, E1, E2, E3, c.sy]
  congr 1; funext dy
  congr 1; funext d1
  congr 1; funext d2
  congr 1; funext d3
  rw [mapM_congr' (g := fun i => (b.particle (i.getD 0 0) (i.getD 1 0)).cs4 F.fns dy d1 d2 d3 n)]
  intro i hi
  obtain ⟨p, k, hp, hk, rfl⟩ := mem_indices2.mp hi
  simp only [List.getD_cons_zero, List.getD_cons_succ, Particle1.cs4]
  rw [c.vx p k hp hk, c.vy p k hp hk, c.vm1 p k hp hk, c.vm2 p k hp hk]

/-- The lists returned by the special functions hold the orders `0..n`. -/
def ArrFns.Orders (F : ArrFns) : Prop := ∀ d n z l, (F.fns d).jn n z = .ok l → l.length = n.toNat + 1

theorem cs4_length {F : ArrFns} (hF : F.Orders) {q : Particle1} {dy d1 d2 d3 : ℝ} {n : ℤ} {l : List CoreShellOut}
    (h : q.cs4 F.fns dy d1 d2 d3 n = .ok l) : l.length = n.toNat := by
  obtain ⟨j, hj, hl⟩ := miecoef4_length h
  rw [hl, hF _ _ _ _ hj]; rfl

theorem range_map_getD {α β : Type} (f : α → β) (d : α) : ∀ l : List α, (List.range l.length).map (fun j => f (l.getD j d)) = l.map f := by
  intro l
  apply List.ext_getElem
  · simp
  · intro i h1 h2
    simp at h1
    simp [h1]

/-- What a successful batched call of the torch and scipy backends returned. -/
structure BatchRun (A : BackendsOf ArrFns) (b : Bcast) (backend w : String) (nMax : Option ℤ) (ri : Bool) (o : BatchOut)
    (io : Option (Ten CoreShellOut)) where
  F : ArrFns
  sel : selectBessel A backend w = .ok F
  order : orderChoiceB b nMax = .ok o.nMax
  nonneg : 0 ≤ o.nMax
  dy : ℝ
  d1 : ℝ
  d2 : ℝ
  d3 : ℝ
  hy : F.depth b.argsY = .ok dy
  h1 : F.depth b.args1X = .ok d1
  h2 : F.depth b.args2X = .ok d2
  h3 : F.depth b.args2Y = .ok d3
  L : ℕ → ℕ → List CoreShellOut
  entry : ∀ p k, p < b.nPart → k < b.nK → (b.particle p k).cs4 F.fns dy d1 d2 d3 o.nMax = .ok (L p k)
  out : Ten CoreShellOut
  shape : out.shape = [o.nMax.toNat, b.nPart, b.nK]
  val : ∀ j p k, p < b.nPart → k < b.nK → out.get [j, p, k] = (L p k).getD j noOrder
  res : ∃ c : CsArrays b, o = c.result o.nMax out
  int : io = if ri then some out else none

theorem mieCoefficientsB_inv {args : LayerArgs} {rl : Ten ℝ} {el : Ten ℂ} {b : Bcast}
    (ha : asLayerInputs args = .ok (rl, el)) (hb : broadcastMieLayers args.k0 rl el args.epsEnv = .ok b) (hw : b.WF)
    (h0 : 0 < b.nLayers) (h2 : b.nLayers ≤ 2) {backend : String}
    (hbk : backend.toLower = "torch" ∨ backend.toLower = "scipy")
    {A : BackendsOf ArrFns} {w : String} {nMax : Option ℤ} {ri : Bool} {o : BatchOut} {io : Option (Ten CoreShellOut)}
    (h : mieCoefficientsB A args backend w nMax ri = .ok (o, io)) : Nonempty (BatchRun A b backend w nMax ri o io) := by
  obtain ⟨c⟩ := csArrays hw h0
  rw [mieCoefficientsB_eq ha hb c h2 hbk] at h
  obtain ⟨n, hn, h⟩ := bindE_inv h
  obtain ⟨v, hv, h⟩ := bindE_inv h
  obtain ⟨F, hF, h⟩ := bindE_inv h
  obtain ⟨out, ho, h⟩ := bindE_inv h
  rw [miecoefT_eq] at ho
  obtain ⟨dy, hy, ho⟩ := bindE_inv ho
  obtain ⟨d1, hd1, ho⟩ := bindE_inv ho
  obtain ⟨d2, hd2, ho⟩ := bindE_inv ho
  obtain ⟨d3, hd3, ho⟩ := bindE_inv ho
  obtain ⟨u, hu, ho⟩ := bindE_inv ho
  cases ho
  cases h
  have hent : ∀ p k, p < b.nPart → k < b.nK → (b.particle p k).cs4 F.fns dy d1 d2 d3 n
      = .ok (okD [] ((b.particle p k).cs4 F.fns dy d1 d2 d3 n)) := by
    intro p k hp hk
    obtain ⟨l, hl⟩ := mapM_inv hu [p, k] (mem_indices2.mpr ⟨p, k, hp, hk, rfl⟩)
    simp only [List.getD_cons_zero, List.getD_cons_succ] at hl
    rw [hl]; rfl
  refine ⟨⟨F, hF, hn, ?_, dy, d1, d2, d3, hy, hd1, hd2, hd3, fun p k => okD [] ((b.particle p k).cs4 F.fns dy d1 d2 d3 n), hent,
    _, rfl, ?_, ⟨c, rfl⟩, rfl⟩⟩
  · unfold orderRange at hv
    split_ifs at hv
    simp only [CsArrays.result]
    omega
  · intro j p k hp hk
    simp only [List.tail_cons, List.headD_cons]
    rw [c.vx p k hp hk, c.vy p k hp hk, c.vm1 p k hp hk, c.vm2 p k hp hk]
    rfl

theorem mieCoefficientsB_ok {args : LayerArgs} {rl : Ten ℝ} {el : Ten ℂ} {b : Bcast}
    (ha : asLayerInputs args = .ok (rl, el)) (hb : broadcastMieLayers args.k0 rl el args.epsEnv = .ok b) (hw : b.WF)
    (h0 : 0 < b.nLayers) (h2 : b.nLayers ≤ 2) {backend : String}
    (hbk : backend.toLower = "torch" ∨ backend.toLower = "scipy")
    {A : BackendsOf ArrFns} {w : String} {nMax : Option ℤ} (ri : Bool) {n : ℤ} (hn : orderChoiceB b nMax = .ok n) (hn0 : 0 ≤ n)
    {F : ArrFns} (hF : selectBessel A backend w = .ok F) {dy d1 d2 d3 : ℝ} (hy : F.depth b.argsY = .ok dy)
    (hd1 : F.depth b.args1X = .ok d1) (hd2 : F.depth b.args2X = .ok d2) (hd3 : F.depth b.args2Y = .ok d3)
    (hent : ∀ p k, p < b.nPart → k < b.nK → ∃ l, (b.particle p k).cs4 F.fns dy d1 d2 d3 n = .ok l) :
    ∃ o, mieCoefficientsB A args backend w nMax ri = .ok o ∧ o.1.nMax = n := by
  obtain ⟨c⟩ := csArrays hw h0
  rw [mieCoefficientsB_eq ha hb c h2 hbk, hn, bind_ok]
  unfold orderRange
  rw [if_neg (by omega), bind_ok, hF, bind_ok, miecoefT_eq, hy, bind_ok, hd1, bind_ok, hd2, bind_ok, hd3, bind_ok,
    mapM_ok _ _ (fun i => okD [] ((b.particle (i.getD 0 0) (i.getD 1 0)).cs4 F.fns dy d1 d2 d3 n))]
  · exact ⟨_, rfl, rfl⟩
  · intro i hi
    obtain ⟨p, k, hp, hk, rfl⟩ := mem_indices2.mp hi
    obtain ⟨l, hl⟩ := hent p k hp hk
    simp only [List.getD_cons_zero, List.getD_cons_succ]
    rw [hl]; rfl

/-- An exception in one entry is an exception of the batch. -/
theorem mieCoefficientsB_error {args : LayerArgs} {rl : Ten ℝ} {el : Ten ℂ} {b : Bcast}
    (ha : asLayerInputs args = .ok (rl, el)) (hb : broadcastMieLayers args.k0 rl el args.epsEnv = .ok b) (hw : b.WF)
    (h0 : 0 < b.nLayers) (h2 : b.nLayers ≤ 2) {backend : String}
    (hbk : backend.toLower = "torch" ∨ backend.toLower = "scipy")
    {A : BackendsOf ArrFns} {w : String} (ri : Bool) {n : ℤ} (hn0 : 0 ≤ n)
    {F : ArrFns} (hF : selectBessel A backend w = .ok F) {dy d1 d2 d3 : ℝ} (hy : F.depth b.argsY = .ok dy)
    (hd1 : F.depth b.args1X = .ok d1) (hd2 : F.depth b.args2X = .ok d2) (hd3 : F.depth b.args2Y = .ok d3) {e : PyErr}
    (hall : ∀ p k, p < b.nPart → k < b.nK → ∀ e', (b.particle p k).cs4 F.fns dy d1 d2 d3 n = .error e' → e' = e)
    {p k : ℕ} (hp : p < b.nPart) (hk : k < b.nK) (he : (b.particle p k).cs4 F.fns dy d1 d2 d3 n = .error e) :
    mieCoefficientsB A args backend w (some n) ri = .error e := by
  obtain ⟨c⟩ := csArrays hw h0
  rw [mieCoefficientsB_eq ha hb c h2 hbk]
  simp only [orderChoiceB, bind_ok]
  unfold orderRange
  rw [if_neg (by omega), bind_ok, hF, bind_ok, miecoefT_eq, hy, bind_ok, hd1, bind_ok, hd2, bind_ok, hd3, bind_ok]
  have : (Ten.indices [b.nPart, b.nK]).mapM (fun i => (b.particle (i.getD 0 0) (i.getD 1 0)).cs4 F.fns dy d1 d2 d3 n)
      = .error e := by
    rcases hm : (Ten.indices [b.nPart, b.nK]).mapM
        (fun i => (b.particle (i.getD 0 0) (i.getD 1 0)).cs4 F.fns dy d1 d2 d3 n) with e' | v
    · have key : ∀ (l : List (List ℕ)) (f : List ℕ → Py (List CoreShellOut)) (e' : PyErr), l.mapM f = .error e' →
          ∃ i ∈ l, f i = .error e' := by
        intro l f e'
        induction l with
        | nil => intro h; cases h
        | cons a l ih =>
          intro h
          rw [List.mapM_cons] at h
          rcases ha : f a with e1 | v
          · rw [ha] at h
            cases h
            exact ⟨a, by simp, ha⟩
          · rw [ha, bind_ok] at h
            rcases hl : l.mapM f with e1 | v
            · rw [hl] at h
              cases h
              obtain ⟨i, hi, hf⟩ := ih hl
              exact ⟨i, by simp [hi], hf⟩
            · rw [hl] at h; cases h
      obtain ⟨i, hi, hf⟩ := key _ _ _ hm
      obtain ⟨p, k, hp, hk, rfl⟩ := mem_indices2.mp hi
      simp only [List.getD_cons_zero, List.getD_cons_succ] at hf
      rw [hall p k hp hk e' hf] at hm
      exact hm
    · obtain ⟨l, hl⟩ := mapM_inv hm [p, k] (mem_indices2.mpr ⟨p, k, hp, hk, rfl⟩)
      simp only [List.getD_cons_zero, List.getD_cons_succ] at hl
      rw [he] at hl; cases hl
  rw [this]
  rfl

theorem BatchRun.WF {A : BackendsOf ArrFns} {b : Bcast} {backend w : String} {nMax : Option ℤ} {ri : Bool} {o : BatchOut}
    {io : Option (Ten CoreShellOut)} (R : BatchRun A b backend w nMax ri o io) (hw : b.WF) (hn : 1 ≤ o.nMax) : o.WF ∧ o.b = b := by
  obtain ⟨c, hc⟩ := R.res
  have hb : o.b = b := congrArg BatchOut.b hc
  refine ⟨⟨by rw [hb]; exact hw, hn, ?_, ?_, ?_, ?_⟩, hb⟩
  · rw [hc]; exact c.sk
  · rw [hc]; exact c.srS
  · have := R.shape; rw [hb, ← this]; conv_lhs => rw [hc]
    rfl
  · have := R.shape; rw [hb, ← this]; conv_lhs => rw [hc]
    rfl

/-- Entry `(p, k)` of the batched result in terms of the coefficients of that entry. -/
theorem BatchRun.entry_eq {A : BackendsOf ArrFns} {b : Bcast} {backend w : String} {nMax : Option ℤ} {ri : Bool}
    {o : BatchOut} {io : Option (Ten CoreShellOut)} (R : BatchRun A b backend w nMax ri o io) (hF : R.F.Orders) {p k : ℕ}
    (hp : p < b.nPart) (hk : k < b.nK) : o.entry p k = (b.particle p k).meta o.nMax (R.L p k) false := by
  have hlen := cs4_length hF (R.entry p k hp hk)
  obtain ⟨c, hc⟩ := R.res
  have hb : o.b = b := congrArg BatchOut.b hc
  have e1 : o.k = c.k := congrArg BatchOut.k hc
  have e2 : o.rC = c.rC := congrArg BatchOut.rC hc
  have e3 : o.rS = c.rS := congrArg BatchOut.rS hc
  have e4 : o.epsC = c.epsC := congrArg BatchOut.epsC hc
  have e5 : o.epsS = c.epsS := congrArg BatchOut.epsS hc
  have e6 : o.nEnv = b.env.map csqrt := congrArg BatchOut.nEnv hc
  have e7 : o.m = c.m := congrArg BatchOut.m hc
  have e8 : o.a = R.out.map (·.a) := congrArg BatchOut.a hc
  have e9 : o.bn = R.out.map (·.b) := congrArg BatchOut.bn hc
  unfold BatchOut.entry Particle1.meta
  rw [e1, e2, e3, e4, e5, e6, e7, e8, e9, hb, c.vk k hk, c.vrC p k hp hk, c.vrS p k hp hk, c.veC p k hp hk, c.veS p k hp hk]
  congr 1
  · simp only [Bcast.particle, List.map_map]
    refine List.map_congr_left fun l hl => ?_
    rw [c.vm p l k hp (by simpa using hl) hk]; rfl
  · rw [← range_map_getD (fun c => c.a) noOrder, hlen]
    exact List.map_congr_left fun j _ => by simp [Ten.map, R.val j p k hp hk]
  · rw [← range_map_getD (fun c => c.b) noOrder, hlen]
    exact List.map_congr_left fun j _ => by simp [Ten.map, R.val j p k hp hk]

/-- The arguments of the four groups of calls for one particle. -/
noncomputable def Particle1.args4 (q : Particle1) : List ℂ := [q.csY, q.csM1 * q.csX, q.csM2 * q.csX, q.csM2 * q.csY]

/-- The functions of the batch agree with those of a single evaluation at one entry. -/
theorem cs4_eq_single {q : Particle1} {J : TorchFns} {S : BesselBackend} {dy d1 d2 d3 : ℝ} {n : ℤ}
    (hy : (J dy).jn n q.csY = S.jn n q.csY ∧ (J dy).yn n q.csY = S.yn n q.csY)
    (h1 : (J d1).jn n (q.csM1 * q.csX) = S.jn n (q.csM1 * q.csX))
    (h2 : (J d2).jn n (q.csM2 * q.csX) = S.jn n (q.csM2 * q.csX) ∧ (J d2).yn n (q.csM2 * q.csX) = S.yn n (q.csM2 * q.csX))
    (h3 : (J d3).jn n (q.csM2 * q.csY) = S.jn n (q.csM2 * q.csY) ∧ (J d3).yn n (q.csM2 * q.csY) = S.yn n (q.csM2 * q.csY)) :
    q.cs4 J dy d1 d2 d3 n = miecoef S q.csX q.csY n q.csM1 q.csM2 := by
  unfold Particle1.cs4 miecoef miecoef4
  rw [hy.1, hy.2, h1, h2.1, h2.2, h3.1, h3.2]

end MieDiff
