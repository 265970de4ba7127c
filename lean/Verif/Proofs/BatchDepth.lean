import Verif.Proofs.BatchTorch
import Verif.Proofs.JLimit
import Verif.Props.Batch

/-!
# Depths of the recurrences in batched calls, and entries of batched results
-/

namespace MieDiff

open Complex Ten

/-! ## Depth rules -/

/-- Orders that the downward recurrence `sph_jn_torch_via_rec` adds for a largest argument `m`. -/
noncomputable def recDepth (m : ℝ) : ℤ := min 35 (max 10 ⌊3 / 2 * m⌋)

/-- Orders that the continued fraction `sph_jn_torch` adds for a largest argument `m`. -/
noncomputable def ratioDepth (m : ℝ) : ℤ := min 50 (max 20 (⌊2 * m⌋ + 10))

theorem recDepth_small {m : ℝ} (h : m < 22 / 3) : recDepth m = 10 := by
  have : ⌊3 / 2 * m⌋ < 11 := Int.floor_lt.mpr (by push_cast; linarith)
  unfold recDepth
  omega

theorem recDepth_big {m : ℝ} (h : 70 / 3 ≤ m) : recDepth m = 35 := by
  have : 35 ≤ ⌊3 / 2 * m⌋ := Int.le_floor.mpr (by push_cast; linarith)
  unfold recDepth
  omega

theorem ratioDepth_small {m : ℝ} (h : m < 11 / 2) : ratioDepth m = 20 := by
  have : ⌊2 * m⌋ < 11 := Int.floor_lt.mpr (by push_cast; linarith)
  unfold ratioDepth
  omega

theorem ratioDepth_big {m : ℝ} (h : 20 ≤ m) : ratioDepth m = 50 := by
  have : 40 ≤ ⌊2 * m⌋ := Int.le_floor.mpr (by push_cast; linarith)
  unfold ratioDepth
  omega

theorem sphJnViaRec_depth (n : ℕ) (z : ℂ) (m : ℝ) : sphJnViaRec n z m = sphJnViaRecDepth n z (recDepth m) := by
  unfold sphJnViaRec
  rw [if_neg (by omega)]
  have : resolveNAddRec (.str "auto") 10 35 m = .ok (recDepth m) := by
    unfold resolveNAddRec recDepth
    simp only
    rw [if_pos (by decide +kernel)]
    congr 1
    split_ifs <;> omega
  rw [this, bind_ok]

theorem guardSet_idem (eps : ℝ) (z : ℂ) : guardSet eps (guardSet eps z) = guardSet eps z := by
  unfold guardSet
  by_cases h : ‖z‖ < eps
  · rw [if_pos h]; split_ifs <;> rfl
  · rw [if_neg h, if_neg h]

theorem recDepth_pos (m : ℝ) : 10 ≤ recDepth m := by unfold recDepth; omega

theorem sphJnViaRec_ok (n : ℕ) (z : ℂ) (m : ℝ) : ∃ v, sphJnViaRec n z m = .ok v ∧ v.length = n + 1 := by
  rw [sphJnViaRec_depth]
  have hg : sphJnViaRecDepth n z (recDepth m) = sphJnViaRecDepth n (guardSet 1e-10 z) (recDepth m) := by
    unfold sphJnViaRecDepth
    rw [guardSet_idem]
  obtain ⟨d, hd⟩ : ∃ d : ℕ, recDepth m = d := ⟨(recDepth m).toNat, by have := recDepth_pos m; omega⟩
  have h1 : 1 ≤ d := by have := recDepth_pos m; omega
  rw [hg, hd, sphJnViaRecDepth_eq n _ d h1 (by norm_num)]
  · exact ⟨_, rfl, by simp⟩
  · unfold guardSet
    split_ifs with h
    · rw [Complex.norm_real, Real.norm_of_nonneg (by norm_num)]
    · exact not_lt.mp h

theorem sphJnTorchNd_congr (n : ℤ) (z : ℂ) {m m' : ℝ} (h : ratioDepth m = ratioDepth m') :
    sphJnTorchNd n z m = sphJnTorchNd n z m' := by
  have e : resolveNAddRatio (.str "auto") 50 m = resolveNAddRatio (.str "auto") 50 m' := by
    unfold ratioDepth at h
    simp only [resolveNAddRatio, if_true, mul_comm m, mul_comm m']
    congr 1
    omega
  unfold sphJnTorchNd sphJnTorch
  rw [e]

/-! ## Single evaluations of entries -/

/-- Coefficients of entry `(p, k)` among the returned internal ones. -/
def internalAt (io : Option (Ten CoreShellOut)) (n p k : ℕ) : Option (List CoreShellOut) :=
  io.map fun t => (List.range n).map fun j => t.get [j, p, k]

theorem range_getD {α : Type} (d : α) (l : List α) : (List.range l.length).map (fun j => l.getD j d) = l := by
  simpa using range_map_getD id d l

theorem particle_row {b : Bcast} (hw : b.WF) {p k : ℕ} (hp : p < b.nPart) : strictlyIncreasing (b.particle p k).rLayers :=
  strictlyIncreasing_range _ _ fun l hl => hw.inc p hp l hl

/-- An entry of the batch is the single result when the functions of the batch agree with those of the single evaluation. -/
theorem BatchRun.single {A : BackendsOf ArrFns} {b : Bcast} {backend w : String} {nMax : Option ℤ} {ri : Bool}
    {o : BatchOut} {io : Option (Ten CoreShellOut)} (R : BatchRun A b backend w nMax ri o io) (hw : b.WF)
    (h12 : b.nLayers = 1 ∨ b.nLayers = 2) (hbk : backend.toLower = "torch" ∨ backend.toLower = "scipy") (hF : R.F.Orders)
    {B : Backends} {S : BesselBackend} (hS : selectBessel B backend w = .ok S) (K : D1Kernel) {p k : ℕ} (hp : p < b.nPart)
    (hk : k < b.nK)
    {q : Particle1} (hag : q.cs4 R.F.fns R.dy R.d1 R.d2 R.d3 o.nMax = miecoef S q.csX q.csY o.nMax q.csM1 q.csM2) (hq : q = b.particle p k) :
    mieCoefficients K B (b.particle p k) backend w (some o.nMax) ri
      = .ok { o.entry p k with internal := internalAt io o.nMax.toNat p k } := by
  subst hq
  have hL := R.entry p k hp hk
  have hlen := cs4_length hF hL
  rw [mieCoefficients_cs_eq K B _ hbk w _ ri (particle_row hw hp) (by simp [Bcast.particle]) (by simpa [Bcast.particle] using h12)]
  simp only [orderChoice, bind_ok]
  unfold orderRange
  rw [if_neg (by have := R.nonneg; omega), bind_ok, hS, bind_ok, ← hag, hL, bind_ok, R.entry_eq hF hp hk]
  have hI : internalAt io o.nMax.toNat p k = if ri then some (R.L p k) else none := by
    refine (congrArg (fun io => internalAt io o.nMax.toNat p k) R.int).trans ?_
    cases ri
    · rfl
    · simp only [if_true, internalAt, Option.map_some]
      congr 1
      rw [← hlen]
      conv_rhs => rw [← range_getD noOrder (R.L p k)]
      exact List.map_congr_left fun j _ => R.val j p k hp hk
  rw [hI]
  rfl

/-- The four argument arrays of a batch. -/
noncomputable def batchArgs (P K : ℕ) (Q : ℕ → ℕ → Particle1) (i : ℕ) : List ℂ :=
  (List.range P).flatMap fun p => (List.range K).map fun k => (Q p k).args4.getD i 0

/-- The depth chosen for the batch is the one entry `(p, k)` would get alone, in each of the four argument arrays. -/
def SameDepth (rule : ℝ → ℤ) (P K : ℕ) (Q : ℕ → ℕ → Particle1) (p k : ℕ) : Prop :=
  ∀ i < 4, ∀ M, IsMaxNorm (batchArgs P K Q i) M → rule M = rule ‖(Q p k).args4.getD i 0‖

theorem batchArgs_congr {P K : ℕ} {Q Q' : ℕ → ℕ → Particle1} (h : ∀ p < P, ∀ k < K, Q p k = Q' p k) (i : ℕ) :
    batchArgs P K Q i = batchArgs P K Q' i := by
  unfold batchArgs
  rw [List.flatMap_def, List.flatMap_def]
  congr 1
  exact List.map_congr_left fun p hp => List.map_congr_left fun k hk => by
    rw [h p (by simpa using hp) k (by simpa using hk)]

theorem mem_batchArgs {P K : ℕ} {Q : ℕ → ℕ → Particle1} {i : ℕ} {z : ℂ} :
    z ∈ batchArgs P K Q i ↔ ∃ p < P, ∃ k < K, (Q p k).args4.getD i 0 = z := by
  simp [batchArgs]

theorem batchArgs_ne {P K : ℕ} (hP : 0 < P) (hK : 0 < K) (Q : ℕ → ℕ → Particle1) (i : ℕ) : batchArgs P K Q i ≠ [] := by
  intro h
  have : (Q 0 0).args4.getD i 0 ∈ batchArgs P K Q i := mem_batchArgs.mpr ⟨0, hP, 0, hK, rfl⟩
  rw [h] at this
  simp at this

theorem argsY_eq (b : Bcast) : b.argsY = batchArgs b.nPart b.nK b.particle 0 := rfl
theorem args1X_eq (b : Bcast) : b.args1X = batchArgs b.nPart b.nK b.particle 1 := rfl
theorem args2X_eq (b : Bcast) : b.args2X = batchArgs b.nPart b.nK b.particle 2 := rfl
theorem args2Y_eq (b : Bcast) : b.args2Y = batchArgs b.nPart b.nK b.particle 3 := rfl

theorem miecoef4_ok {By B1 B2 B3 : BesselBackend} {x y m1 m2 : ℂ} {n : ℤ}
    (hy : (∃ l, By.jn n y = .ok l ∧ 2 ≤ l.length) ∧ ∃ l, By.yn n y = .ok l ∧ 2 ≤ l.length)
    (h1 : ∃ l, B1.jn n (m1 * x) = .ok l ∧ 2 ≤ l.length)
    (h2 : (∃ l, B2.jn n (m2 * x) = .ok l ∧ 2 ≤ l.length) ∧ ∃ l, B2.yn n (m2 * x) = .ok l ∧ 2 ≤ l.length)
    (h3 : (∃ l, B3.jn n (m2 * y) = .ok l ∧ 2 ≤ l.length) ∧ ∃ l, B3.yn n (m2 * y) = .ok l ∧ 2 ≤ l.length) :
    ∃ l, miecoef4 By B1 B2 B3 x y n m1 m2 = .ok l := by
  obtain ⟨⟨a1, e1, l1⟩, a2, e2, l2⟩ := hy
  obtain ⟨a3, e3, l3⟩ := h1
  obtain ⟨⟨a4, e4, l4⟩, a5, e5, l5⟩ := h2
  obtain ⟨⟨a6, e6, l6⟩, a7, e7, l7⟩ := h3
  obtain ⟨b1, f1⟩ := fDer_ok (z := y) l1
  obtain ⟨b2, f2⟩ := fDer_ok (z := m1 * x) l3
  obtain ⟨b3, f3⟩ := fDer_ok (z := m2 * x) l4
  obtain ⟨b4, f4⟩ := fDer_ok (z := m2 * y) l6
  obtain ⟨b5, f5⟩ := fDer_ok (z := y) l2
  obtain ⟨b6, f6⟩ := fDer_ok (z := m2 * x) l5
  obtain ⟨b7, f7⟩ := fDer_ok (z := m2 * y) l7
  unfold miecoef4
  rw [e1, e2, e3, e4, e5, e6, e7]
  simp only [bind_ok, f1, f2, f3, f4, f5, f6, f7]
  exact ⟨_, rfl⟩

theorem wiscombeT_eq {b : Bcast} (hw : b.WF) (h0 : 0 < b.nLayers) : wiscombeT b
    = wiscombe ((List.range b.nPart).flatMap fun p => (List.range b.nK).map fun k =>
        (((b.particle p k).rLayers.getLastD 0 : ℝ) : ℂ) * (b.particle p k).k0 * csqrt (b.particle p k).epsEnv) := by
  obtain ⟨m', hm'⟩ : ∃ m, b.nLayers = m + 1 := ⟨b.nLayers - 1, by omega⟩
  have hR1 : b.r.selectLast 1 = .ok ⟨[b.nPart], fun idx => b.r.get (idx.insertIdx 1 m')⟩ := by
    simp [Ten.selectLast, hw.r, hm']
  obtain ⟨rO, erO, srO, vrO⟩ : ∃ t, (Ten.unsqueeze ⟨[b.nPart], fun idx => b.r.get (idx.insertIdx 1 m')⟩ 1).broadcastTo
      [b.nPart, b.nK] = .ok t ∧ t.shape = [b.nPart, b.nK] ∧ ∀ p j, p < b.nPart → j < b.nK → t.get [p, j] = b.r.get [p, m'] :=
    ⟨_, by simp [Ten.broadcastTo, Ten.unsqueeze]; rfl, rfl, fun p j hp hj => by simp [Ten.bIdx, Ten.bi_lt hp]⟩
  have pr1 : ∀ p j, (b.particle p j).rLayers.getLastD 0 = b.r.get [p, m'] := by
    intro p j; simp [Bcast.particle, hm', List.range_succ]
  obtain ⟨u, eu, su, vu⟩ := op2_get (fun (u : ℝ) v => (u : ℂ) * v) srO hw.k0 (bShape_row' _ _)
  obtain ⟨v, ev, sv, vv⟩ := op2_get (fun u v : ℂ => u * v) (t := b.env.map csqrt) su hw.env (bShape_row' _ _)
  unfold wiscombeT
  rw [hR1, bind_ok, erO, bind_ok, eu, bind_ok, ev, bind_ok, entries_eq sv]
  intro p k hp hk
  rw [vv, pr1]
  simp [Ten.bIdx, Ten.bi_lt hp, Ten.bi_lt hk, Ten.map, Bcast.particle, vu, vrO p k hp hk]

end MieDiff
