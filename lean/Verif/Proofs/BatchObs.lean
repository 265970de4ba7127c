import Verif.Proofs.BatchSolver
import Verif.Props.Helper

/-!
# Entries of batched angular patterns; the automatic truncation order of a batch
-/

namespace MieDiff

open Complex

/-! ## Angular scattering -/

/-- multishell.py:896-990 `angular_scattering`, one element and one angle. -/
noncomputable def angularOf (K : D1Kernel) (B : Backends) (p : Particle1) (theta : ℝ) (backend : String := "pena")
    (whichJn : String := "recurrence") (nMax : Option ℤ := none) : Py Angular := do
  let o ← mieCoefficients K B p backend whichJn nMax
  angularScattering theta o.a o.b

/-- Entry `(p, k, t)` of batched angular patterns. -/
def AngularT.entry (p k t : ℕ) (c : AngularT) : Angular :=
  { S1 := c.S1.get [p, k, t]
    S2 := c.S2.get [p, k, t]
    iPer := c.iPer.get [p, k, t]
    iPar := c.iPar.get [p, k, t]
    iUnpol := c.iUnpol.get [p, k, t]
    polDegree := c.polDegree.get [p, k, t] }

theorem piTauT_length {ι : Type} {n : ℤ} {mu : ι → ℝ} {q : List (ι → ℝ) × List (ι → ℝ)} (h : piTauT n mu = .ok q) :
    q.1.length = n.toNat + 1 ∧ q.2.length = n.toNat + 1 := by
  unfold piTauT at h
  by_cases hn : n < 1
  · rw [if_pos hn] at h; cases h
  rw [if_neg hn] at h
  obtain ⟨pis, h1, h⟩ := bindE_inv h
  obtain ⟨taus, h2, h⟩ := bindE_inv h
  cases h
  have key : ∀ (f : List (ι → ℝ) → ℕ → Py (List (ι → ℝ))),
      (∀ s x v, f s x = .ok v → v.length = s.length + 1) → ∀ (l : List ℕ) (s v : List (ι → ℝ)),
      l.foldlM f s = .ok v → v.length = s.length + l.length := by
    intro f hf l
    induction l with
    | nil => intro s v h; cases h; simp
    | cons x l ih =>
      intro s v h
      rw [List.foldlM_cons] at h
      obtain ⟨u, hu, h⟩ := bindE_inv h
      rw [ih u v h, hf s x u hu, List.length_cons]
      omega
  have k1 := key _ (fun s x v h => by
    unfold piStepT at h
    obtain ⟨_, _, h⟩ := bindE_inv h
    obtain ⟨_, _, h⟩ := bindE_inv h
    cases h; simp) _ _ _ h1
  have k2 := key _ (fun s x v h => by
    unfold tauStepT at h
    obtain ⟨_, _, h⟩ := bindE_inv h
    obtain ⟨_, _, h⟩ := bindE_inv h
    cases h; simp) _ _ _ h2
  simp [rangeFrom1] at k1 k2
  exact ⟨by simp only; omega, by simp only; omega⟩

/-- Shapes of batched angular patterns. -/
structure AngularT.Shaped (np nk nt : ℕ) (c : AngularT) : Prop where
  S1 : c.S1.shape = [np, nk, nt]
  S2 : c.S2.shape = [np, nk, nt]
  iPer : c.iPer.shape = [np, nk, nt]
  iPar : c.iPar.shape = [np, nk, nt]
  iUnpol : c.iUnpol.shape = [np, nk, nt]
  polDegree : c.polDegree.shape = [np, nk, nt]

theorem angularFromT_entry {o : BatchOut} (hw : o.WF) (theta : Ten ℝ) {nt : ℕ} (ht : theta.shape = [nt]) :
    ∃ c, angularFromT o theta = .ok c ∧ c.Shaped o.b.nPart o.b.nK nt ∧
      ∀ p, p < o.b.nPart → ∀ k, k < o.b.nK → ∀ t, t < nt →
      angularScattering (theta.get [t]) (o.entry p k).a (o.entry p k).b = .ok (c.entry p k t) := by
  obtain ⟨N, hN⟩ : ∃ N, o.nMax.toNat = N := ⟨_, rfl⟩
  have hNz : o.nMax = (N : ℤ) := by have := hw.n; omega
  have sa := hw.a
  have sb := hw.bn
  rw [hN] at sa sb
  generalize hnp : o.b.nPart = np at sa sb ⊢
  generalize hnk : o.b.nK = nk at sa sb ⊢
  obtain ⟨q, hq⟩ : ∃ q, piTauT o.nMax (fun idx => Real.cos (theta.get idx)) = .ok q := by
    have h1 := piTauT_eval o.nMax (fun idx => Real.cos (theta.get idx)) ([] : List ℕ)
    cases hq : piTauT o.nMax (fun idx => Real.cos (theta.get idx)) with
    | ok q => exact ⟨q, rfl⟩
    | error e =>
      rw [hq, hNz, piTau_eq N (by have := hw.n; omega)] at h1
      cases h1
  obtain ⟨l1, l2⟩ := piTauT_length hq
  rw [hN] at l1 l2
  have sp : ∀ l : List (List ℕ → ℝ), l.length = N + 1 →
      ((((Ten.stackList 0 theta.shape l.tail).unsqueeze 1).unsqueeze 1).map fun v : ℝ => (v : ℂ)).shape = [N, 1, 1, nt] := by
    intro l hl
    simp [Ten.map, Ten.unsqueeze, Ten.stackList, hl, ht]
  have gp : ∀ (l : List (List ℕ → ℝ)) (j t : ℕ),
      ((((Ten.stackList 0 theta.shape l.tail).unsqueeze 1).unsqueeze 1).map fun v : ℝ => (v : ℂ)).get [j, 0, 0, t]
        = (((evalL [t] l).tail.getD j 0 : ℝ) : ℂ) := by
    intro l j t
    simp only [Ten.map, Ten.unsqueeze, Ten.stackList, List.eraseIdx_cons_succ, List.eraseIdx_cons_zero, List.headD_cons,
      List.tail_cons, evalL, ← List.map_tail, List.getD_eq_getElem?_getD, List.getElem?_map]
    cases l.tail[j]? <;> rfl
  have e1 : Ten.bShape [N, np, nk, 1] [N, 1, 1, nt] = .ok [N, np, nk, nt] := by
    simp [Ten.bShape, Ten.bShapeRev, Ten.bDim_one_left, Ten.bDim_one_right, Ten.bDim_self, Bind.bind, Except.bind]
  have e2 : Ten.bShape [N, np, nk, nt] [N, np, nk, nt] = .ok [N, np, nk, nt] := by
    simp [Ten.bShape, Ten.bShapeRev, Ten.bDim_self, Bind.bind, Except.bind]
  have e3 : Ten.bShape [N, 1, 1, 1] [N, np, nk, nt] = .ok [N, np, nk, nt] := by
    simp [Ten.bShape, Ten.bShapeRev, Ten.bDim_self, Ten.bDim_one_left, Bind.bind, Except.bind]
  have e4 : Ten.bShape [np, nk, nt] [np, nk, nt] = .ok [np, nk, nt] := by
    simp [Ten.bShape, Ten.bShapeRev, Ten.bDim_self, Bind.bind, Except.bind]
  have ua : (o.a.unsqueeze 3).shape = [N, np, nk, 1] := by simp [Ten.unsqueeze, sa]
  have ub : (o.bn.unsqueeze 3).shape = [N, np, nk, 1] := by simp [Ten.unsqueeze, sb]
  have uw : (((((orderTen o.nMax).unsqueeze 1).unsqueeze 2).unsqueeze 3).map
      fun z => (2 * z + 1) / (z * (z + 1))).shape = [N, 1, 1, 1] := by
    simp [Ten.map, Ten.unsqueeze, orderTen, hN]
  obtain ⟨ap, hap, sap, gap⟩ := op2_get (· * ·) ua (sp q.1 l1) e1
  obtain ⟨bt, hbt, sbt, gbt⟩ := op2_get (· * ·) ub (sp q.2 l2) e1
  obtain ⟨at', hat, sat, gat⟩ := op2_get (· * ·) ua (sp q.2 l2) e1
  obtain ⟨bp, hbp, sbp, gbp⟩ := op2_get (· * ·) ub (sp q.1 l1) e1
  obtain ⟨x1, hx1, sx1, gx1⟩ := op2_get (· + ·) sap sbt e2
  obtain ⟨x2, hx2, sx2, gx2⟩ := op2_get (· + ·) sat sbp e2
  obtain ⟨f1, hf1, sf1, gf1⟩ := op2_get (· * ·) uw sx1 e3
  obtain ⟨f2, hf2, sf2, gf2⟩ := op2_get (· * ·) uw sx2 e3
  have s1 : f1.sum0.shape = [np, nk, nt] := by simp [Ten.sum0, sf1]
  have s2 : f2.sum0.shape = [np, nk, nt] := by simp [Ten.sum0, sf2]
  obtain ⟨su, hsu, ssu, gsu⟩ := op2_get (· + ·) (s := f2.sum0.map fun z => ‖z‖ ^ 2) (t := f1.sum0.map fun z => ‖z‖ ^ 2)
    s2 s1 e4
  obtain ⟨di, hdi, sdi, gdi⟩ := op2_get (· - ·) (s := f1.sum0.map fun z => ‖z‖ ^ 2) (t := f2.sum0.map fun z => ‖z‖ ^ 2)
    s1 s2 e4
  obtain ⟨sv, hsv, ssv, gsv⟩ := op2_get (· + ·) (s := f1.sum0.map fun z => ‖z‖ ^ 2) (t := f2.sum0.map fun z => ‖z‖ ^ 2)
    s1 s2 e4
  obtain ⟨po, hpo, spo, gpo⟩ := op2_get (· / ·) sdi ssv e4
  refine ⟨{ S1 := f1.sum0, S2 := f2.sum0, iPer := f1.sum0.map fun z => ‖z‖ ^ 2, iPar := f2.sum0.map fun z => ‖z‖ ^ 2
            iUnpol := su.map fun v => v / 2, polDegree := po }, ?_, ⟨s1, s2, s1, s2, ssu, spo⟩, ?_⟩
  · unfold angularFromT
    simp only [hq, hap, hbt, hat, hbp, hx1, hx2, hf1, hf2, hsu, hdi, hsv, hpo, Bind.bind, Except.bind]
  intro p hp k hk t ht'
  have hpt := piTauT_eval o.nMax (fun idx => Real.cos (theta.get idx)) [t]
  rw [hq] at hpt
  have bI : ∀ j, j < N → Ten.bIdx [N, np, nk, nt] [j, p, k, t] = [j, p, k, t] := by
    intro j hj
    simp [Ten.bIdx, Ten.bi_lt hj, Ten.bi_lt hk, Ten.bi_lt hp, Ten.bi_lt ht']
  have bA : ∀ j, j < N → Ten.bIdx [N, np, nk, 1] [j, p, k, t] = [j, p, k, 0] := by
    intro j hj
    simp [Ten.bIdx, Ten.bi_lt hj, Ten.bi_lt hk, Ten.bi_lt hp]
  have bP : ∀ j, j < N → Ten.bIdx [N, 1, 1, nt] [j, p, k, t] = [j, 0, 0, t] := by
    intro j hj
    simp [Ten.bIdx, Ten.bi_lt hj, Ten.bi_lt ht']
  have bW : ∀ j, j < N → Ten.bIdx [N, 1, 1, 1] [j, p, k, t] = [j, 0, 0, 0] := by
    intro j hj
    simp [Ten.bIdx, Ten.bi_lt hj]
  have bE : Ten.bIdx [np, nk, nt] [p, k, t] = [p, k, t] := by
    simp [Ten.bIdx, Ten.bi_lt hk, Ten.bi_lt hp, Ten.bi_lt ht']
  have gA : ∀ j, (o.a.unsqueeze 3).get [j, p, k, 0] = o.a.get [j, p, k] := fun j => rfl
  have gB : ∀ j, (o.bn.unsqueeze 3).get [j, p, k, 0] = o.bn.get [j, p, k] := fun j => rfl
  have gW : ∀ j : ℕ, (((((orderTen o.nMax).unsqueeze 1).unsqueeze 2).unsqueeze 3).map
      fun z => (2 * z + 1) / (z * (z + 1))).get [j, 0, 0, 0] = (2 * ((j : ℂ) + 1) + 1) / (((j : ℂ) + 1) * (((j : ℂ) + 1) + 1)) := by
    intro j
    simp [Ten.map, Ten.unsqueeze, orderTen]
  have gD : ∀ (u : Ten ℂ) (j : ℕ), j < N → (List.map (fun (j : ℕ) => u.get [j, p, k]) (List.range N)).getD j 0
      = u.get [j, p, k] := by
    intro u j hj
    rw [List.getD_eq_getElem?_getD]
    simp [hj]
  have E1 : f1.sum0.get [p, k, t] = ampSum (o.entry p k).a (o.entry p k).b (evalL [t] q.1).tail (evalL [t] q.2).tail := by
    simp only [Ten.sum0, sf1, List.headD_cons, ampSum, BatchOut.entry, hN, List.length_map, List.length_range]
    congr 1
    apply List.map_congr_left
    intro j hj
    have hj' : j < N := by simpa using hj
    rw [gf1, bW j hj', bI j hj', gW, gx1, bI j hj', gap, gbt, bA j hj', bP j hj', gA, gB, gp, gp, gD _ j hj', gD _ j hj']
  have E2 : f2.sum0.get [p, k, t] = ampSum (o.entry p k).a (o.entry p k).b (evalL [t] q.2).tail (evalL [t] q.1).tail := by
    simp only [Ten.sum0, sf2, List.headD_cons, ampSum, BatchOut.entry, hN, List.length_map, List.length_range]
    congr 1
    apply List.map_congr_left
    intro j hj
    have hj' : j < N := by simpa using hj
    rw [gf2, bW j hj', bI j hj', gW, gx2, bI j hj', gat, gbp, bA j hj', bP j hj', gA, gB, gp, gp, gD _ j hj', gD _ j hj']
  have hlen : ((o.entry p k).a.length : ℤ) = o.nMax := by simp [BatchOut.entry, hNz]
  unfold angularScattering
  rw [hlen, ← hpt]
  simp only [Except.map, Bind.bind, Except.bind, AngularT.entry, Ten.map, gpo, gdi, gsu, gsv, bE, E1, E2]

theorem angularT_entry {args : LayerArgs} {rl : Ten ℝ} {el : Ten ℂ} {b : Bcast}
    (ha : asLayerInputs args = .ok (rl, el)) (hb : broadcastMieLayers args.k0 rl el args.epsEnv = .ok b) (hw : b.WF)
    {p k : ℕ} (hp : p < b.nPart) (hk : k < b.nK) (theta : Ten ℝ) {nt : ℕ} (ht : theta.shape = [nt]) {t : ℕ} (htt : t < nt)
    (n : ℤ) (B : Backends) (w : String) :
    Except.map (AngularT.entry p k t) (angularT args theta (some n))
      = angularOf codeD1 B (b.particle p k) (theta.get [t]) "pena" w (some n) := by
  have h := mieCoefficientsT_entry ha hb hw hp hk n false B w
  unfold angularT angularOf
  cases hc : mieCoefficientsT args (some n) false with
  | error e =>
    rw [hc] at h
    rw [← h]; rfl
  | ok o =>
    rw [hc] at h
    rw [← h]
    obtain ⟨rl', el', ha', hb', hn', -, hwo⟩ := mieCoefficientsT_inv hc
    rw [ha] at ha'
    cases ha'
    rw [hb] at hb'
    cases hb'
    obtain ⟨c, hc1, -, hc2⟩ := angularFromT_entry hwo theta ht
    simp only [Bind.bind, Except.bind, Except.map, hc1, hc2 p hp k hk t htt]

/-! ## Automatic truncation -/

theorem maxAbs_congr {l l' : List ℂ} (h : ∀ z, z ∈ l ↔ z ∈ l') : maxAbs l = maxAbs l' := by
  rcases l.eq_nil_or_concat with rfl | ⟨t, z, hz⟩
  · have : l' = [] := List.eq_nil_iff_forall_not_mem.mpr fun z hz => by simpa using (h z).mpr hz
    rw [this]
  have hl : l ≠ [] := by rw [hz]; simp
  have hl' : l' ≠ [] := by
    intro hc
    have := (h z).mp (by rw [hz]; simp)
    rw [hc] at this
    simp at this
  obtain ⟨M, e, ⟨w, hw, hM⟩, m⟩ := maxAbs_spec hl
  obtain ⟨M', e', ⟨w', hw', hM'⟩, m'⟩ := maxAbs_spec hl'
  rw [e, e']
  congr 1
  apply le_antisymm
  · rw [← hM]; exact m' w ((h w).mp hw)
  · rw [← hM']; exact m w' ((h w').mpr hw')

/-- All entries of a batch, as the truncation rule sees them. -/
noncomputable def Bcast.truncs (b : Bcast) : List TruncEntry :=
  (List.range b.nPart).flatMap fun p => (List.range b.nK).map fun k => (b.particle p k).trunc

theorem trunc_layers (b : Bcast) (p k : ℕ) : (b.particle p k).trunc.layers
    = (List.range b.nLayers).map fun (l : ℕ) => (b.r.get [p, l], b.eps.get [p, l, k]) := by
  simp only [Particle1.trunc, Bcast.particle, List.zip_map']

theorem trunc_mxPrev (b : Bcast) (p k : ℕ) : (b.particle p k).trunc.mxPrev
    = (List.range b.nLayers).map fun (l : ℕ) => b.k0.get [0, k] * csqrt (b.eps.get [p, l, k])
        * ((if l = 0 then 0 else b.r.get [p, l - 1] : ℝ) : ℂ) := by
  unfold TruncEntry.mxPrev
  rw [trunc_layers]
  apply List.ext_getElem
  · simp; omega
  · intro l h1 h2
    simp only [List.length_map, List.length_range] at h2
    rw [List.getElem_zipWith]
    cases l with
    | zero => simp [Particle1.trunc, Bcast.particle]
    | succ l => simp [Particle1.trunc, Bcast.particle]

theorem mem_entries2 {t : Ten ℂ} {a c : ℕ} (h : t.shape = [a, c]) (z : ℂ) :
    z ∈ t.entries ↔ ∃ p, p < a ∧ ∃ k, k < c ∧ t.get [p, k] = z := by
  simp [Ten.entries, Ten.indices, h]

theorem mem_entries3 {t : Ten ℂ} {a l c : ℕ} (h : t.shape = [a, l, c]) (z : ℂ) :
    z ∈ t.entries ↔ ∃ p, p < a ∧ ∃ i, i < l ∧ ∃ k, k < c ∧ t.get [p, i, k] = z := by
  simp only [Ten.entries, Ten.indices, h, List.mem_map, List.mem_flatMap, List.mem_range, List.mem_singleton]
  constructor
  · rintro ⟨_, ⟨p, hp, _, ⟨i, hi, _, ⟨k, hk, _, rfl, rfl⟩, rfl⟩, rfl⟩, rfl⟩
    exact ⟨p, hp, i, hi, k, hk, rfl⟩
  · rintro ⟨p, hp, i, hi, k, hk, rfl⟩
    exact ⟨_, ⟨p, hp, _, ⟨i, hi, _, ⟨k, hk, _, rfl, rfl⟩, rfl⟩, rfl⟩, rfl⟩

theorem penaNmaxT_eq {b : Bcast} (hw : b.WF) (hl : 0 < b.nLayers) : penaNmaxT b = penaNmax b.truncs := by
  obtain ⟨m, hm⟩ : ∃ m, b.nLayers = m + 1 := ⟨b.nLayers - 1, by omega⟩
  have e1 : Ten.bShape [1, 1, b.nK] [1, 1, b.nK] = .ok [1, 1, b.nK] := by
    simp [Ten.bShape, Ten.bShapeRev, Ten.bDim_self, Bind.bind, Except.bind]
  have e2 : Ten.bShape [1, 1, b.nK] [b.nPart, b.nLayers, 1] = .ok [b.nPart, b.nLayers, b.nK] := by
    simp [Ten.bShape, Ten.bShapeRev, Ten.bDim_one_left, Ten.bDim_one_right, Bind.bind, Except.bind]
  have e3 : Ten.bShape [1, 1, b.nK] [b.nPart, b.nLayers, b.nK] = .ok [b.nPart, b.nLayers, b.nK] := by
    simp [Ten.bShape, Ten.bShapeRev, Ten.bDim_self, Ten.bDim_one_left, Bind.bind, Except.bind]
  have e4 : Ten.bShape [b.nPart, b.nLayers, b.nK] [b.nPart, b.nLayers, 1] = .ok [b.nPart, b.nLayers, b.nK] := by
    simp [Ten.bShape, Ten.bShapeRev, Ten.bDim_self, Ten.bDim_one_right, Bind.bind, Except.bind]
  have sk : (b.k0.unsqueeze 1).shape = [1, 1, b.nK] := by simp [Ten.unsqueeze, hw.k0]
  have sn : ((b.env.map csqrt).unsqueeze 1).shape = [1, 1, b.nK] := by simp [Ten.unsqueeze, Ten.map, hw.env]
  have sr : (b.r.unsqueeze 2).shape = [b.nPart, b.nLayers, 1] := by simp [Ten.unsqueeze, hw.r]
  have sp : (Ten.unsqueeze ⟨b.r.shape, fun idx => if idx.getD 1 0 = 0 then 0 else
      b.r.get [idx.getD 0 0, idx.getD 1 0 - 1]⟩ 2 : Ten ℝ).shape = [b.nPart, b.nLayers, 1] := by
    simp [Ten.unsqueeze, hw.r]
  obtain ⟨kn, hkn, skn, gkn⟩ := op2_get (· * ·) sk sn e1
  obtain ⟨x, hx, sx, gx⟩ := op2_get (fun u (v : ℝ) => u * (v : ℂ)) skn sr e2
  obtain ⟨k1, hk1, sk1, gk1⟩ := op2_get (· * ·) (t := b.eps.map csqrt) sk hw.eps e3
  obtain ⟨m1, hm1, sm1, gm1⟩ := op2_get (fun u (v : ℝ) => u * (v : ℂ)) sk1 sr e4
  obtain ⟨m2, hm2, sm2, gm2⟩ := op2_get (fun u (v : ℝ) => u * (v : ℂ)) sk1 sp e4
  have hxo : x.selectLast 1 = .ok ⟨[b.nPart, b.nK], fun idx => x.get (idx.insertIdx 1 m)⟩ := by
    simp [Ten.selectLast, sx, hm]
  have bK : ∀ p l k, k < b.nK → Ten.bIdx [1, 1, b.nK] [p, l, k] = [0, 0, k] := by
    intro p l k hk
    simp [Ten.bIdx, Ten.bi_lt hk]
  have bR : ∀ p l k, p < b.nPart → l < b.nLayers → Ten.bIdx [b.nPart, b.nLayers, 1] [p, l, k] = [p, l, 0] := by
    intro p l k hp hl
    simp [Ten.bIdx, Ten.bi_lt hp, Ten.bi_lt hl]
  have bE : ∀ p l k, p < b.nPart → l < b.nLayers → k < b.nK →
      Ten.bIdx [b.nPart, b.nLayers, b.nK] [p, l, k] = [p, l, k] := by
    intro p l k hp hl hk
    simp [Ten.bIdx, Ten.bi_lt hp, Ten.bi_lt hl, Ten.bi_lt hk]
  have X : ∀ p l k, p < b.nPart → l < b.nLayers → k < b.nK →
      x.get [p, l, k] = b.k0.get [0, k] * csqrt (b.env.get [0, k]) * (b.r.get [p, l] : ℂ) := by
    intro p l k hp hl hk
    rw [gx, bK p l k hk, bR p l k hp hl, gkn, bK 0 0 k hk]
    rfl
  have X1 : ∀ p l k, p < b.nPart → l < b.nLayers → k < b.nK →
      m1.get [p, l, k] = b.k0.get [0, k] * csqrt (b.eps.get [p, l, k]) * (b.r.get [p, l] : ℂ) := by
    intro p l k hp hl hk
    rw [gm1, bE p l k hp hl hk, bR p l k hp hl, gk1, bK p l k hk, bE p l k hp hl hk]
    rfl
  have X2 : ∀ p l k, p < b.nPart → l < b.nLayers → k < b.nK →
      m2.get [p, l, k] = b.k0.get [0, k] * csqrt (b.eps.get [p, l, k])
        * ((if l = 0 then 0 else b.r.get [p, l - 1] : ℝ) : ℂ) := by
    intro p l k hp hl hk
    rw [gm2, bE p l k hp hl hk, bR p l k hp hl, gk1, bK p l k hk, bE p l k hp hl hk]
    simp [Ten.unsqueeze, Ten.map]
  have M0 : maxAbs (Ten.entries ⟨[b.nPart, b.nK], fun idx => x.get (idx.insertIdx 1 m)⟩)
      = maxAbs (b.truncs.map TruncEntry.xOuter) := by
    apply maxAbs_congr
    intro z
    rw [mem_entries2 rfl]
    simp only [Bcast.truncs, List.mem_map, List.mem_flatMap, List.mem_range]
    constructor
    · rintro ⟨p, hp, k, hk, rfl⟩
      refine ⟨_, ⟨p, hp, k, hk, rfl⟩, ?_⟩
      simp only [List.insertIdx_succ_cons, List.insertIdx_zero]
      rw [X p m k hp (by omega) hk, TruncEntry.xOuter, trunc_layers, hm, List.range_succ, List.map_append]
      simp [Particle1.trunc, Bcast.particle]
    · rintro ⟨_, ⟨p, hp, k, hk, rfl⟩, rfl⟩
      refine ⟨p, hp, k, hk, ?_⟩
      simp only [List.insertIdx_succ_cons, List.insertIdx_zero]
      rw [X p m k hp (by omega) hk, TruncEntry.xOuter, trunc_layers, hm, List.range_succ, List.map_append]
      simp [Particle1.trunc, Bcast.particle]
  have M1 : maxAbs m1.entries = maxAbs (b.truncs.flatMap TruncEntry.mx) := by
    apply maxAbs_congr
    intro z
    rw [mem_entries3 sm1]
    simp only [Bcast.truncs, List.mem_map, List.mem_flatMap, List.mem_range]
    have hmx : ∀ p k, (b.particle p k).trunc.mx = (List.range b.nLayers).map fun (l : ℕ) =>
        b.k0.get [0, k] * csqrt (b.eps.get [p, l, k]) * (b.r.get [p, l] : ℂ) := by
      intro p k
      unfold TruncEntry.mx
      rw [trunc_layers, List.map_map]
      rfl
    constructor
    · rintro ⟨p, hp, l, hl, k, hk, rfl⟩
      refine ⟨_, ⟨p, hp, k, hk, rfl⟩, ?_⟩
      rw [hmx, X1 p l k hp hl hk]
      exact List.mem_map.mpr ⟨l, by simpa using hl, rfl⟩
    · rintro ⟨_, ⟨p, hp, k, hk, rfl⟩, hz⟩
      rw [hmx] at hz
      obtain ⟨l, hl, rfl⟩ := List.mem_map.mp hz
      have hl' : l < b.nLayers := by simpa using hl
      exact ⟨p, hp, l, hl', k, hk, X1 p l k hp hl' hk⟩
  have M2 : maxAbs m2.entries = maxAbs (b.truncs.flatMap TruncEntry.mxPrev) := by
    apply maxAbs_congr
    intro z
    rw [mem_entries3 sm2]
    simp only [Bcast.truncs, List.mem_map, List.mem_flatMap, List.mem_range]
    constructor
    · rintro ⟨p, hp, l, hl, k, hk, rfl⟩
      refine ⟨_, ⟨p, hp, k, hk, rfl⟩, ?_⟩
      rw [trunc_mxPrev, X2 p l k hp hl hk]
      exact List.mem_map.mpr ⟨l, by simpa using hl, rfl⟩
    · rintro ⟨_, ⟨p, hp, k, hk, rfl⟩, hz⟩
      rw [trunc_mxPrev] at hz
      obtain ⟨l, hl, rfl⟩ := List.mem_map.mp hz
      have hl' : l < b.nLayers := by simpa using hl
      exact ⟨p, hp, l, hl', k, hk, X2 p l k hp hl' hk⟩
  unfold penaNmaxT penaNmax
  simp only [hkn, hx, hxo, hk1, hm1, hm2, M0, M1, M2, Bind.bind, Except.bind]

end MieDiff
