import Verif.Proofs.BatchDepth
import Verif.Proofs.SmallShape
import Verif.Props.Batch
import Verif.Props.Special

/-!
# C56, C57: `sph_jn_torch` on tensors; batched evaluation with the torch and scipy backends
-/

namespace MieDiff

open Complex Ten

/-! ## C56 -/

/-- The entries of a tensor in a one-dimensional tensor (`z.reshape(-1)`). -/
noncomputable def Ten.flat (z : Ten ℂ) : Ten ℂ := Ten.ofList 0 z.entries

theorem smallOf_empty {l : List ℂ} : (smallOf l).isEmpty ↔ ∀ v ∈ l, 1e-8 ≤ ‖v‖ := by
  unfold smallOf
  simp [List.isEmpty_iff, List.filter_eq_nil_iff]

theorem smallCheck_one (n : ℕ) {z : Ten ℂ} (hz : z.ndim = 1) : smallCheck n z = .ok () := by
  unfold smallCheck
  split_ifs
  · rfl
  · rw [hz, smallShape_one, bind_ok, assign_one]

theorem atleast1_ndim {z : Ten ℂ} (hz : z.ndim ≤ 1) : z.atleast1.ndim = 1 := by
  obtain ⟨s, g⟩ := z
  match s, hz with
  | [], _ => rfl
  | [a], _ => rfl
  | a :: b :: s, h => simp [Ten.ndim] at h

/-- C56: on a tensor with at most one axis `sph_jn_torch` succeeds for every order and argument; entries below `1e-8` get the leading
term of the series, `z^j / (2j+1)!!`. -/
theorem C56_one_axis (n : ℕ) {z : Ten ℂ} (hz : z.ndim ≤ 1) :
    ∃ t, sphJnTorchT n z = .ok t ∧ t.shape = (n + 1) :: z.atleast1.shape ∧
      ∀ i j, j ≤ n → ‖z.atleast1.get i‖ < 1e-8 →
        t.get (j :: i) * ((2 * j + 1).factorial : ℂ) = z.atleast1.get i ^ j * (2 ^ j * (j.factorial : ℂ)) := by
  refine ⟨_, by rw [sphJnTorchT_eq, smallCheck_one n (atleast1_ndim hz), bind_ok], rfl, ?_⟩
  intro i j hj hi
  simp only [List.tail_cons, List.headD_cons]
  unfold sphJnTorch
  rw [if_neg (by omega), if_pos hi]
  unfold sphJnTorchDepth
  rw [if_neg (by omega)]
  dsimp only
  rw [if_pos hi]
  have h2 : (((2 * j + 1).factorial : ℕ) : ℂ) ≠ 0 := by exact_mod_cast Nat.factorial_ne_zero _
  have h3 : ((j.factorial : ℕ) : ℂ) ≠ 0 := by exact_mod_cast Nat.factorial_ne_zero _
  simp only [okD, Int.toNat_natCast]
  by_cases h0 : z.atleast1.get i = 0
  · rw [if_pos h0, h0]
    cases j with
    | zero => simp
    | succ j =>
      have : (List.replicate n (0 : ℂ)).getD j 0 = 0 := by
        rw [List.getD_eq_getElem?_getD, List.getElem?_replicate]; split_ifs <;> rfl
      simp only [List.getD_cons_succ, this]
      simp
  · rw [if_neg h0]
    have : j < n + 1 := by omega
    simp only [oddDoubleFactorial]
    rw [List.getD_eq_getElem?_getD, List.getElem?_map, List.getElem?_range this]
    simp only [Option.map_some, Option.getD_some]
    field_simp

theorem flat_entries (z : Ten ℂ) : z.flat.entries = z.entries := by
  unfold Ten.flat
  generalize z.entries = l
  have : (Ten.ofList 0 l).entries = (List.range l.length).map fun i => l.getD i 0 := by
    simp only [Ten.entries, Ten.ofList, Ten.indices]
    rw [List.map_eq_flatMap, List.flatMap_assoc]
    rw [List.map_eq_flatMap]
    rfl
  rw [this]
  apply List.ext_getElem
  · simp
  · intro i h1 h2
    simp [h2]

/-- C56: reshaping does not change the values: wherever the call on a tensor succeeds, its entries are those of the call on the
flattened tensor. -/
theorem C56_reshape {n : ℤ} {z t : Ten ℂ} (h : sphJnTorchT n z = .ok t) :
    ∃ t', sphJnTorchT n z.atleast1.flat = .ok t' ∧ t.shape = (n.toNat + 1) :: z.atleast1.shape ∧
      t'.shape = [n.toNat + 1, z.atleast1.entries.length] ∧
      ∀ q i, (Ten.indices z.atleast1.shape)[q]? = some i → ∀ j, t.get (j :: i) = t'.get [j, q] := by
  by_cases hn : n < 0
  · unfold sphJnTorchT at h; rw [if_pos hn] at h; cases h
  obtain ⟨n, rfl⟩ : ∃ m : ℕ, n = m := ⟨n.toNat, by omega⟩
  rw [sphJnTorchT_eq] at h
  obtain ⟨_, -, h⟩ := bindE_inv h
  cases h
  have e : z.atleast1.flat.atleast1 = z.atleast1.flat := rfl
  refine ⟨_, by rw [sphJnTorchT_eq, e, smallCheck_one n rfl, bind_ok], rfl, by simp [Ten.flat, Ten.ofList], ?_⟩
  intro q i hq j
  simp only [List.tail_cons, List.headD_cons, flat_entries]
  have : z.atleast1.flat.get [q] = z.atleast1.get i := by
    simp [Ten.flat, Ten.ofList, Ten.entries, hq]
  rw [this]

/-- C56: with two or more axes the call succeeds exactly if no entry is below `1e-8` or only order 0 is asked for. -/
theorem C56_many_axes (n : ℕ) {z : Ten ℂ} (hz : 2 ≤ z.ndim) :
    ((∃ v ∈ z.entries, ‖v‖ < 1e-8) → 1 ≤ n → sphJnTorchT n z = .error .runtimeError) ∧
    ((∀ v ∈ z.entries, 1e-8 ≤ ‖v‖) ∨ n = 0 → ∃ t, sphJnTorchT n z = .ok t) := by
  have ez : z.atleast1 = z := by
    obtain ⟨s, g⟩ := z
    match s, hz with
    | [], h => simp [Ten.ndim] at h
    | a :: s, _ => rfl
  obtain ⟨e, he⟩ : ∃ e, z.ndim = e + 2 := ⟨z.ndim - 2, by omega⟩
  rw [sphJnTorchT_eq, ez]
  constructor
  · rintro ⟨v, hv, hs⟩ hn
    unfold smallCheck
    rw [if_neg (fun h => absurd (smallOf_empty.mp h v hv) (not_le.mpr hs)), he, smallShape_many, bind_ok, assign_many hn]
    rfl
  · intro h
    have : smallCheck n z = .ok () := by
      unfold smallCheck
      split_ifs with hs
      · rfl
      · rcases h with h | rfl
        · exact absurd (smallOf_empty.mpr h) hs
        · rw [he, smallShape_many, bind_ok, assign_zero]
    rw [this]
    exact ⟨_, rfl⟩

/-- C56: with two or more axes the call is the evaluation of every entry by `sphJnTorchNd` (used for the arrays of `vsh` and
`mie_coefficients`): it succeeds exactly if all of them do, with their values. -/
theorem C56_elements (n : ℕ) {z : Ten ℂ} (hz : 2 ≤ z.ndim) :
    ((∃ t, sphJnTorchT n z = .ok t) ↔ ∀ v ∈ z.entries, ∃ l, sphJnTorchNd n v (bigMax z.entries) = .ok l) ∧
    ∀ t, sphJnTorchT n z = .ok t → ∀ i ∈ Ten.indices z.shape, ∀ j ≤ n,
      ∃ l, sphJnTorchNd n (z.get i) (bigMax z.entries) = .ok l ∧ l[j]? = some (t.get (j :: i)) := by
  have ez : z.atleast1 = z := by
    obtain ⟨s, g⟩ := z
    match s, hz with
    | [], h => simp [Ten.ndim] at h
    | a :: s, _ => rfl
  obtain ⟨h1, h2⟩ := C56_many_axes n hz
  have hnd : ∀ v, 1e-8 ≤ ‖v‖ ∨ n = 0 → sphJnTorchNd n v (bigMax z.entries) = sphJnTorch n v (bigMax z.entries) := by
    intro v hv
    unfold sphJnTorchNd
    rw [if_neg]
    rintro ⟨ha, hb⟩
    rcases hv with hv | rfl
    · exact absurd hb (not_lt.mpr hv)
    · omega
  have hall : ∀ t, sphJnTorchT n z = .ok t → ∀ v ∈ z.entries, 1e-8 ≤ ‖v‖ ∨ n = 0 := by
    intro t ht v hv
    by_contra hc
    push Not at hc
    rw [h1 ⟨v, hv, hc.1⟩ (by omega)] at ht
    cases ht
  refine ⟨⟨fun ⟨t, ht⟩ v hv => ?_, fun h => ?_⟩, fun t ht i hi j hj => ?_⟩
  · rw [hnd v (hall t ht v hv)]
    obtain ⟨l, hl, -⟩ := sphJnTorch_ok n v (bigMax z.entries)
    exact ⟨l, hl⟩
  · refine h2 ?_
    by_cases hn : n = 0
    · exact .inr hn
    · refine .inl fun v hv => ?_
      by_contra hc
      obtain ⟨l, hl⟩ := h v hv
      unfold sphJnTorchNd at hl
      rw [if_pos ⟨by omega, not_le.mp hc⟩] at hl
      cases hl
  · have hmem : z.get i ∈ z.entries := List.mem_map.mpr ⟨i, hi, rfl⟩
    rw [hnd _ (hall t ht _ hmem)]
    obtain ⟨l, hl, hlen⟩ := sphJnTorch_ok n (z.get i) (bigMax z.entries)
    refine ⟨l, hl, ?_⟩
    rw [sphJnTorchT_eq, ez] at ht
    obtain ⟨_, -, ht⟩ := bindE_inv ht
    cases ht
    simp only [List.tail_cons, List.headD_cons, hl, okD]
    rw [List.getD_eq_getElem?_getD, List.getElem?_eq_getElem (by omega)]
    rfl

/-- A matrix with an entry `0`: the call raises, while the call on its entries in one axis succeeds. -/
example : ∃ z : Ten ℂ, z.shape = [1, 2] ∧ sphJnTorchT 1 z = .error .runtimeError ∧ ∃ t, sphJnTorchT 1 z.flat = .ok t := by
  refine ⟨⟨[1, 2], fun i => ((i.getD 1 0 : ℕ) : ℂ)⟩, rfl, ?_, ?_⟩
  · exact (C56_many_axes 1 (z := ⟨[1, 2], fun i => ((i.getD 1 0 : ℕ) : ℂ)⟩) (by simp [Ten.ndim])).1
      ⟨0, by simp [Ten.entries, Ten.indices, List.range_succ], by norm_num⟩ le_rfl
  · obtain ⟨t, ht, -⟩ := C56_one_axis 1 (z := Ten.flat ⟨[1, 2], fun i => ((i.getD 1 0 : ℕ) : ℂ)⟩) (by simp [Ten.ndim, Ten.flat, Ten.ofList])
    exact ⟨t, ht⟩

/-! ## C57 -/

section
variable {args : LayerArgs} {r : Ten ℝ} {eps : Ten ℂ} {R : Spec.Reading}

theorem selectBessel_scipy {α : Type} (B : BackendsOf α) {backend : String} (h : backend.toLower = "scipy") (w : String) :
    selectBessel B backend w = .ok B.scipy := by
  unfold selectBessel
  rw [if_neg fun h' => absurd (h.symm.trans h'.1) (by decide), if_neg fun h' => absurd (h.symm.trans h'.1) (by decide), if_pos h]

theorem selectBessel_rec {α : Type} (B : BackendsOf α) {backend w : String} (h : backend.toLower = "torch")
    (hw : w.toLower = "recurrence") : selectBessel B backend w = .ok B.torchRec := by
  unfold selectBessel
  rw [if_neg (by tauto), if_pos ⟨h, hw⟩]

theorem selectBessel_ratio {α : Type} (B : BackendsOf α) {backend w : String} (h : backend.toLower = "torch")
    (hw : w.toLower ≠ "recurrence") : selectBessel B backend w = .ok B.torchRatio := by
  unfold selectBessel
  rw [if_pos ⟨h, hw⟩]

theorem jnRec_neg {n : ℤ} (h : n < 0) (z : ℂ) (m : ℝ) : sphJnViaRec n z m = .error .runtimeError := by
  unfold sphJnViaRec; rw [if_pos h]

theorem orders_rec (sp : BesselBackend) : (codeArr sp).torchRec.Orders := by
  intro d n z l h
  by_cases hn : n < 0
  · rw [show ((codeArr sp).torchRec.fns d).jn n z = sphJnViaRec n z d from rfl, jnRec_neg hn] at h; cases h
  obtain ⟨m, rfl⟩ : ∃ m : ℕ, n = m := ⟨n.toNat, by omega⟩
  obtain ⟨v, hv, hl⟩ := sphJnViaRec_ok m z d
  rw [show ((codeArr sp).torchRec.fns d).jn m z = sphJnViaRec m z d from rfl, hv] at h
  cases h
  simpa using hl

theorem orders_ratio (sp : BesselBackend) : (codeArr sp).torchRatio.Orders := by
  intro d n z l h
  replace h : sphJnTorchNd n z d = .ok l := h
  unfold sphJnTorchNd at h
  split_ifs at h with h1
  by_cases hn : n < 0
  · unfold sphJnTorch at h; rw [if_pos hn] at h; cases h
  obtain ⟨m, rfl⟩ : ∃ m : ℕ, n = m := ⟨n.toNat, by omega⟩
  obtain ⟨v, hv, hl⟩ := sphJnTorch_ok m z d
  rw [hv] at h
  cases h
  simpa using hl

theorem maxNorm_of {l : List ℂ} {M : ℝ} (h : maxAbs l = .ok M) : IsMaxNorm l M := by
  have hl : l ≠ [] := by rintro rfl; cases h
  obtain ⟨M', h', hm⟩ := maxAbs_spec hl
  rw [h] at h'
  cases h'
  exact hm

theorem maxNorm_ratio {l : List ℂ} (hl : l ≠ []) {M : ℝ} (h : (if l.isEmpty then .ok 0 else maxAbs l : Py ℝ) = .ok M) :
    IsMaxNorm l M := by
  rw [if_neg (by simpa using hl)] at h
  exact maxNorm_of h

/-- C57, torch backend with `which_jn='recurrence'`: a batch of homogeneous or core-shell particles never raises, and an entry for
which the recurrence depth of the batch is its own is the result for that particle at that wavenumber alone. -/
theorem C57_recurrence (ha : asLayerInputs args = .ok (r, eps))
    (hR : Spec.reading args.k0.shape r.shape eps.shape args.epsEnv.shape = some R) (hi : Increasing R r)
    (hl : R.nLayers = 1 ∨ R.nLayers = 2) (hP : 0 < R.nPart) (hK : 0 < R.nK) {n : ℕ} (hn : 1 ≤ n) (ri : Bool)
    {backend w : String} (hb : backend.toLower = "torch") (hw : w.toLower = "recurrence") (sp : BesselBackend) (K : D1Kernel) :
    ∃ o io, mieCoefficientsB (codeArr sp) args backend w (some n) ri = .ok (o, io) ∧ o.nMax = n ∧
      ∀ p < R.nPart, ∀ k < R.nK, SameDepth recDepth R.nPart R.nK (args.particle R r eps) p k →
        mieCoefficients K (codeBackends sp) (args.particle R r eps p k) backend w (some n) ri
          = .ok { o.entry p k with internal := internalAt io n p k } := by
  obtain ⟨b, hbr, hwf, hm⟩ := broadcast_ok hR hi
  have h0 : 0 < b.nLayers := by rw [hm.nLayers]; omega
  have h2 : b.nLayers ≤ 2 := by rw [hm.nLayers]; omega
  have hpart : ∀ p < R.nPart, ∀ k < R.nK, b.particle p k = args.particle R r eps p k := fun p hp k hk => hm.particle hp hk
  have hsel := selectBessel_rec (codeArr sp) hb hw
  have hne : ∀ i, batchArgs b.nPart b.nK b.particle i ≠ [] := fun i => batchArgs_ne (by rw [hm.nPart]; exact hP)
    (by rw [hm.nK]; exact hK) _ i
  obtain ⟨d0, e0, -⟩ := maxAbs_spec (hne 0)
  obtain ⟨d1, e1, -⟩ := maxAbs_spec (hne 1)
  obtain ⟨d2, e2, -⟩ := maxAbs_spec (hne 2)
  obtain ⟨d3, e3, -⟩ := maxAbs_spec (hne 3)
  have hj : ∀ z d, ∃ l, ((codeArr sp).torchRec.fns d).jn n z = .ok l ∧ 2 ≤ l.length := fun z d => by
    obtain ⟨l, h, hl⟩ := sphJnViaRec_ok n z d
    exact ⟨l, h, by omega⟩
  have hy : ∀ z d, ∃ l, ((codeArr sp).torchRec.fns d).yn n z = .ok l ∧ 2 ≤ l.length := fun z d => by
    obtain ⟨l, h, hl⟩ := sphYnTorch_ok n z
    exact ⟨l, h, by omega⟩
  obtain ⟨⟨o, io⟩, ho, hno⟩ := mieCoefficientsB_ok ha hbr hwf h0 h2 (Or.inl hb) (A := codeArr sp) (w := w) (nMax := some n) ri
    (n := n) rfl (by omega) hsel e0 e1 e2 e3
    fun p k _ _ => miecoef4_ok ⟨hj _ _, hy _ _⟩ (hj _ _) ⟨hj _ _, hy _ _⟩ ⟨hj _ _, hy _ _⟩
  refine ⟨o, io, ho, hno, ?_⟩
  intro p hp k hk hs
  obtain ⟨run⟩ := mieCoefficientsB_inv ha hbr hwf h0 h2 (Or.inl hb) ho
  have hF : run.F = (codeArr sp).torchRec := by have := run.sel; rw [hsel] at this; exact (Except.ok.inj this).symm
  have hag : ∀ i < 4, ∀ d, run.F.depth (batchArgs b.nPart b.nK b.particle i) = .ok d →
      (run.F.fns d).jn n ((b.particle p k).args4.getD i 0) = (codeBackends sp).torchRec.jn n ((b.particle p k).args4.getD i 0) ∧
      (run.F.fns d).yn n ((b.particle p k).args4.getD i 0) = (codeBackends sp).torchRec.yn n ((b.particle p k).args4.getD i 0) := by
    intro i hi4 d hd
    rw [hF] at hd ⊢
    refine ⟨?_, rfl⟩
    have hmax := maxNorm_of hd
    rw [hm.nPart, hm.nK, batchArgs_congr hpart] at hmax
    have := hs i hi4 d hmax
    show sphJnViaRec n _ d = sphJnViaRec n _ _
    rw [sphJnViaRec_depth, sphJnViaRec_depth, this, hpart p hp k hk]
  have hno' : o.nMax = n := hno
  have := run.single hwf (by rw [hm.nLayers]; exact hl) (Or.inl hb) (by rw [hF]; exact orders_rec sp)
    (selectBessel_rec (codeBackends sp) hb hw) K (by rw [hm.nPart]; exact hp) (by rw [hm.nK]; exact hk)
    (q := b.particle p k) (by
      rw [hno']
      exact cs4_eq_single (hag 0 (by norm_num) _ run.hy) (hag 1 (by norm_num) _ run.h1).1 (hag 2 (by norm_num) _ run.h2)
        (hag 3 (by norm_num) _ run.h3)) rfl
  rw [hno', hpart p hp k hk] at this
  simpa using this

/-- C57, torch backend with another `which_jn` (continued fraction): the batch raises `RuntimeError` if some argument of the special
functions is below `1e-8`, and succeeds otherwise; an entry for which the depth of the batch is its own is the single result. -/
theorem C57_ratio (ha : asLayerInputs args = .ok (r, eps))
    (hR : Spec.reading args.k0.shape r.shape eps.shape args.epsEnv.shape = some R) (hi : Increasing R r)
    (hl : R.nLayers = 1 ∨ R.nLayers = 2) (hP : 0 < R.nPart) (hK : 0 < R.nK) {n : ℕ} (hn : 1 ≤ n) (ri : Bool)
    {backend w : String} (hb : backend.toLower = "torch") (hw : w.toLower ≠ "recurrence") (sp : BesselBackend) (K : D1Kernel) :
    ((∃ p < R.nPart, ∃ k < R.nK, ∃ z ∈ (args.particle R r eps p k).args4, ‖z‖ < 1e-8) →
      mieCoefficientsB (codeArr sp) args backend w (some n) ri = .error .runtimeError) ∧
    ((∀ p < R.nPart, ∀ k < R.nK, ∀ z ∈ (args.particle R r eps p k).args4, 1e-8 ≤ ‖z‖) →
      ∃ o io, mieCoefficientsB (codeArr sp) args backend w (some n) ri = .ok (o, io) ∧ o.nMax = n ∧
        ∀ p < R.nPart, ∀ k < R.nK, SameDepth ratioDepth R.nPart R.nK (args.particle R r eps) p k →
          mieCoefficients K (codeBackends sp) (args.particle R r eps p k) backend w (some n) ri
            = .ok { o.entry p k with internal := internalAt io n p k }) := by
  obtain ⟨b, hbr, hwf, hm⟩ := broadcast_ok hR hi
  have h0 : 0 < b.nLayers := by rw [hm.nLayers]; omega
  have h2 : b.nLayers ≤ 2 := by rw [hm.nLayers]; omega
  have hpart : ∀ p < R.nPart, ∀ k < R.nK, b.particle p k = args.particle R r eps p k := fun p hp k hk => hm.particle hp hk
  have hsel := selectBessel_ratio (codeArr sp) hb hw
  have hne : ∀ i, batchArgs b.nPart b.nK b.particle i ≠ [] := fun i => batchArgs_ne (by rw [hm.nPart]; exact hP)
    (by rw [hm.nK]; exact hK) _ i
  have hdep : ∀ i, ∃ d, (codeArr sp).torchRatio.depth (batchArgs b.nPart b.nK b.particle i) = .ok d := fun i => by
    obtain ⟨d, e, -⟩ := maxAbs_spec (hne i)
    refine ⟨d, ?_⟩
    show (if _ then _ else _ : Py ℝ) = _
    rw [if_neg (by simpa using hne i), e]
  obtain ⟨d0, e0⟩ := hdep 0
  obtain ⟨d1, e1⟩ := hdep 1
  obtain ⟨d2, e2⟩ := hdep 2
  obtain ⟨d3, e3⟩ := hdep 3
  have hjb : ∀ z d, 1e-8 ≤ ‖z‖ → ∃ l, ((codeArr sp).torchRatio.fns d).jn n z = .ok l ∧ 2 ≤ l.length := fun z d hz => by
    obtain ⟨l, h, hl⟩ := sphJnTorch_ok n z d
    refine ⟨l, ?_, by omega⟩
    show sphJnTorchNd n z d = _
    unfold sphJnTorchNd
    rw [if_neg (fun h => absurd h.2 (not_lt.mpr hz)), h]
  have hjs : ∀ z d, ‖z‖ < 1e-8 → ((codeArr sp).torchRatio.fns d).jn n z = .error .runtimeError := fun z d hz => by
    show sphJnTorchNd n z d = _
    unfold sphJnTorchNd
    rw [if_pos ⟨by omega, hz⟩]
  have hy : ∀ z d, ∃ l, ((codeArr sp).torchRatio.fns d).yn n z = .ok l ∧ 2 ≤ l.length := fun z d => by
    obtain ⟨l, h, hl⟩ := sphYnTorch_ok n z
    exact ⟨l, h, by omega⟩
  have hok : ∀ p k, (∀ z ∈ (b.particle p k).args4, 1e-8 ≤ ‖z‖) →
      ∃ l, (b.particle p k).cs4 (codeArr sp).torchRatio.fns d0 d1 d2 d3 n = .ok l := by
    intro p k hz
    simp only [Particle1.args4, List.mem_cons, List.not_mem_nil, or_false, forall_eq_or_imp, forall_eq] at hz
    exact miecoef4_ok ⟨hjb _ _ hz.1, hy _ _⟩ (hjb _ _ hz.2.1) ⟨hjb _ _ hz.2.2.1, hy _ _⟩ ⟨hjb _ _ hz.2.2.2, hy _ _⟩
  have herr : ∀ p k, (∃ z ∈ (b.particle p k).args4, ‖z‖ < 1e-8) →
      (b.particle p k).cs4 (codeArr sp).torchRatio.fns d0 d1 d2 d3 n = .error .runtimeError := by
    intro p k hz
    simp only [Particle1.args4, List.mem_cons, List.not_mem_nil, or_false, exists_eq_or_imp, exists_eq_left] at hz
    unfold Particle1.cs4 miecoef4
    by_cases z0 : ‖(b.particle p k).csY‖ < 1e-8
    · rw [hjs _ _ z0]; rfl
    obtain ⟨l0, j0, -⟩ := hjb _ d0 (not_lt.mp z0)
    obtain ⟨y0, k0, -⟩ := hy (b.particle p k).csY d0
    rw [j0, bind_ok, k0, bind_ok]
    by_cases z1 : ‖(b.particle p k).csM1 * (b.particle p k).csX‖ < 1e-8
    · rw [hjs _ _ z1]; rfl
    obtain ⟨l1, j1, -⟩ := hjb _ d1 (not_lt.mp z1)
    rw [j1, bind_ok]
    by_cases z2 : ‖(b.particle p k).csM2 * (b.particle p k).csX‖ < 1e-8
    · rw [hjs _ _ z2]; rfl
    obtain ⟨l2, j2, -⟩ := hjb _ d2 (not_lt.mp z2)
    rw [j2, bind_ok]
    have z3 : ‖(b.particle p k).csM2 * (b.particle p k).csY‖ < 1e-8 := by tauto
    rw [hjs _ _ z3]; rfl
  constructor
  · rintro ⟨p, hp, k, hk, hz⟩
    refine mieCoefficientsB_error ha hbr hwf h0 h2 (Or.inl hb) (A := codeArr sp) ri (by omega) hsel e0 e1 e2 e3
      (fun p' k' _ _ e' he => ?_) (by rw [hm.nPart]; exact hp) (by rw [hm.nK]; exact hk)
      (herr p k (by rw [hpart p hp k hk]; exact hz))
    by_cases hz' : ∃ z ∈ (b.particle p' k').args4, ‖z‖ < 1e-8
    · rw [herr p' k' hz'] at he
      exact (Except.error.inj he).symm
    · push Not at hz'
      obtain ⟨l, hl⟩ := hok p' k' hz'
      rw [hl] at he; cases he
  · intro hbig
    obtain ⟨⟨o, io⟩, ho, hno⟩ := mieCoefficientsB_ok ha hbr hwf h0 h2 (Or.inl hb) (A := codeArr sp) (w := w) (nMax := some n) ri
      (n := n) rfl (by omega) hsel e0 e1 e2 e3
      fun p k hp hk => hok p k (by
        rw [hm.nPart] at hp; rw [hm.nK] at hk; rw [hpart p hp k hk]; exact hbig p hp k hk)
    refine ⟨o, io, ho, hno, ?_⟩
    intro p hp k hk hs
    obtain ⟨run⟩ := mieCoefficientsB_inv ha hbr hwf h0 h2 (Or.inl hb) ho
    have hF : run.F = (codeArr sp).torchRatio := by have := run.sel; rw [hsel] at this; exact (Except.ok.inj this).symm
    have hag : ∀ i < 4, ∀ d, run.F.depth (batchArgs b.nPart b.nK b.particle i) = .ok d →
        (run.F.fns d).jn n ((b.particle p k).args4.getD i 0) = (codeBackends sp).torchRatio.jn n ((b.particle p k).args4.getD i 0) ∧
        (run.F.fns d).yn n ((b.particle p k).args4.getD i 0)
          = (codeBackends sp).torchRatio.yn n ((b.particle p k).args4.getD i 0) := by
      intro i hi4 d hd
      rw [hF] at hd ⊢
      refine ⟨?_, rfl⟩
      have hmax := maxNorm_ratio (hne i) hd
      rw [hm.nPart, hm.nK, batchArgs_congr hpart] at hmax
      have := hs i hi4 d hmax
      show sphJnTorchNd n _ d = sphJnTorchNd n _ _
      rw [hpart p hp k hk]
      exact sphJnTorchNd_congr _ _ this
    have hno' : o.nMax = n := hno
    have := run.single hwf (by rw [hm.nLayers]; exact hl) (Or.inl hb) (by rw [hF]; exact orders_ratio sp)
      (selectBessel_ratio (codeBackends sp) hb hw) K (by rw [hm.nPart]; exact hp) (by rw [hm.nK]; exact hk)
      (q := b.particle p k) (by
        rw [hno']
        exact cs4_eq_single (hag 0 (by norm_num) _ run.hy) (hag 1 (by norm_num) _ run.h1).1 (hag 2 (by norm_num) _ run.h2)
          (hag 3 (by norm_num) _ run.h3)) rfl
    rw [hno', hpart p hp k hk] at this
    simpa using this

/-- C57, scipy backend, whose functions act on each entry alone: the batch succeeds exactly if each entry alone does, and its entries
are the single results. -/
theorem C57_scipy (ha : asLayerInputs args = .ok (r, eps))
    (hR : Spec.reading args.k0.shape r.shape eps.shape args.epsEnv.shape = some R) (hi : Increasing R r)
    (hl : R.nLayers = 1 ∨ R.nLayers = 2) {n : ℕ} (ri : Bool)
    {backend : String} (w : String) (hb : backend.toLower = "scipy") {sp : BesselBackend}
    (hsp : ∀ (n : ℕ) z l, sp.jn n z = .ok l → l.length = n + 1) (hneg : ∀ n < 0, ∀ z l, sp.jn n z ≠ .ok l) (K : D1Kernel) :
    ((∃ o, mieCoefficientsB (codeArr sp) args backend w (some n) ri = .ok o) ↔
      ∀ p < R.nPart, ∀ k < R.nK, ∃ q, mieCoefficients K (codeBackends sp) (args.particle R r eps p k) backend w (some n) ri
        = .ok q) ∧
    ∀ o io, mieCoefficientsB (codeArr sp) args backend w (some n) ri = .ok (o, io) → ∀ p < R.nPart, ∀ k < R.nK,
      mieCoefficients K (codeBackends sp) (args.particle R r eps p k) backend w (some n) ri
        = .ok { o.entry p k with internal := internalAt io n p k } := by
  obtain ⟨b, hbr, hwf, hm⟩ := broadcast_ok hR hi
  have h0 : 0 < b.nLayers := by rw [hm.nLayers]; omega
  have h2 : b.nLayers ≤ 2 := by rw [hm.nLayers]; omega
  have h12 : b.nLayers = 1 ∨ b.nLayers = 2 := by rw [hm.nLayers]; exact hl
  have hpart : ∀ p < R.nPart, ∀ k < R.nK, b.particle p k = args.particle R r eps p k := fun p hp k hk => hm.particle hp hk
  have hsel := selectBessel_scipy (codeArr sp) hb w
  have hord : (codeArr sp).scipy.Orders := by
    intro d n z l h
    replace h : sp.jn n z = .ok l := h
    by_cases hn : n < 0
    · exact absurd h (hneg n hn z l)
    obtain ⟨m, rfl⟩ : ∃ m : ℕ, n = m := ⟨n.toNat, by omega⟩
    simpa using hsp m z l h
  have hsingle : ∀ o io, mieCoefficientsB (codeArr sp) args backend w (some n) ri = .ok (o, io) → ∀ p < R.nPart, ∀ k < R.nK,
      mieCoefficients K (codeBackends sp) (args.particle R r eps p k) backend w (some n) ri
        = .ok { o.entry p k with internal := internalAt io n p k } := by
    intro o io ho p hp k hk
    obtain ⟨run⟩ := mieCoefficientsB_inv ha hbr hwf h0 h2 (Or.inr hb) ho
    have hF : run.F = (codeArr sp).scipy := by have := run.sel; rw [hsel] at this; exact (Except.ok.inj this).symm
    have hno' : o.nMax = n := (Except.ok.inj run.order).symm
    have := run.single hwf h12 (Or.inr hb) (by rw [hF]; exact hord)
      (selectBessel_scipy (codeBackends sp) hb w) K (by rw [hm.nPart]; exact hp) (by rw [hm.nK]; exact hk)
      (q := b.particle p k) (by rw [hF]; rfl) rfl
    rw [hno', hpart p hp k hk] at this
    simpa using this
  refine ⟨⟨?_, ?_⟩, hsingle⟩
  · rintro ⟨⟨o, io⟩, ho⟩ p hp k hk
    exact ⟨_, hsingle o io ho p hp k hk⟩
  · intro h
    obtain ⟨o, ho, -⟩ := mieCoefficientsB_ok ha hbr hwf h0 h2 (Or.inr hb) (A := codeArr sp) (w := w) (nMax := some n) ri
      (n := n) rfl (by omega) hsel rfl rfl rfl rfl (dy := 0) (d1 := 0) (d2 := 0) (d3 := 0)
      fun p k hp hk => by
        rw [hm.nPart] at hp; rw [hm.nK] at hk
        obtain ⟨q, hq⟩ := h p hp k hk
        rw [← hpart p hp k hk, mieCoefficients_cs_eq K _ _ (Or.inr hb) w _ ri (particle_row hwf (by rw [hm.nPart]; exact hp))
          (by simp [Bcast.particle]) (by simpa [Bcast.particle] using h12)] at hq
        simp only [orderChoice, bind_ok] at hq
        obtain ⟨-, -, hq⟩ := bindE_inv hq
        rw [selectBessel_scipy (codeBackends sp) hb w, bind_ok] at hq
        obtain ⟨l, hl, -⟩ := bindE_inv hq
        exact ⟨l, hl⟩
    exact ⟨o, ho⟩

/-- C57: `cross_sections` and `angular_scattering` of a batch succeed whenever the coefficients do, and their entries are the single
results wherever the coefficients are. -/
theorem C57_observables (ha : asLayerInputs args = .ok (r, eps))
    (hR : Spec.reading args.k0.shape r.shape eps.shape args.epsEnv.shape = some R) (hi : Increasing R r)
    (hl : R.nLayers = 1 ∨ R.nLayers = 2) {n : ℕ} (hn : 1 ≤ n) {backend w : String}
    (hb : backend.toLower = "torch" ∨ backend.toLower = "scipy") {A : BackendsOf ArrFns} {o : BatchOut}
    {io : Option (Ten CoreShellOut)} (h : mieCoefficientsB A args backend w (some n) false = .ok (o, io))
    (theta : Ten ℝ) {nt : ℕ} (ht : theta.shape = [nt]) :
    ∃ c s, crossSectionsB A args backend w (some n) = .ok c ∧ angularB A args theta backend w (some n) = .ok s ∧
      ∀ (K : D1Kernel) (B : Backends) p, p < R.nPart → ∀ k, k < R.nK →
        mieCoefficients K B (args.particle R r eps p k) backend w (some n) = .ok (o.entry p k) →
        crossSectionsOf K B (args.particle R r eps p k) backend w (some n) = .ok (c.entry n p k) ∧
        ∀ t < nt, angularOf K B (args.particle R r eps p k) (theta.get [t]) backend w (some n) = .ok (s.entry p k t) := by
  obtain ⟨b, hbr, hwf, hm⟩ := broadcast_ok hR hi
  obtain ⟨run⟩ := mieCoefficientsB_inv ha hbr hwf (by rw [hm.nLayers]; omega) (by rw [hm.nLayers]; omega) hb h
  have hno : o.nMax = n := (Except.ok.inj run.order).symm
  obtain ⟨hW, hob⟩ := run.WF hwf (by omega)
  obtain ⟨c, hc, -, hce⟩ := crossSectionsFromT_entry hW
  obtain ⟨s, hs, -, hse⟩ := angularFromT_entry hW theta ht
  refine ⟨c, s, ?_, ?_, ?_⟩
  · unfold crossSectionsB
    rw [h, bind_ok, hc]
  · unfold angularB
    rw [h, bind_ok, hs]
  · intro K B p hp k hk he
    rw [hob, hm.nPart, hm.nK] at hce hse
    constructor
    · unfold crossSectionsOf
      rw [he, bind_ok, ← hce p hp k hk, hno]
      simp
    · intro t htt
      unfold angularOf
      rw [he, bind_ok]
      exact hse p hp k hk t htt

/-- C57: without `n_max` the order of the batch is the Wiscombe order of the largest `r_outer k0 n_env`. -/
theorem C57_auto (ha : asLayerInputs args = .ok (r, eps))
    (hR : Spec.reading args.k0.shape r.shape eps.shape args.epsEnv.shape = some R) (hi : Increasing R r)
    (hl : R.nLayers = 1 ∨ R.nLayers = 2) {backend : String} (w : String)
    (hb : backend.toLower = "torch" ∨ backend.toLower = "scipy") (A : BackendsOf ArrFns) (ri : Bool) :
    mieCoefficientsB A args backend w none ri = (wiscombe ((List.range R.nPart).flatMap fun p => (List.range R.nK).map fun k =>
        (((args.particle R r eps p k).rLayers.getLastD 0 : ℝ) : ℂ) * (args.particle R r eps p k).k0
          * csqrt (args.particle R r eps p k).epsEnv)
      >>= fun n => mieCoefficientsB A args backend w (some n) ri) := by
  obtain ⟨b, hbr, hwf, hm⟩ := broadcast_ok hR hi
  have h0 : 0 < b.nLayers := by rw [hm.nLayers]; omega
  have h2 : b.nLayers ≤ 2 := by rw [hm.nLayers]; omega
  obtain ⟨c⟩ := csArrays hwf h0
  have e : wiscombeT b = wiscombe ((List.range R.nPart).flatMap fun p => (List.range R.nK).map fun k =>
        (((args.particle R r eps p k).rLayers.getLastD 0 : ℝ) : ℂ) * (args.particle R r eps p k).k0
          * csqrt (args.particle R r eps p k).epsEnv) := by
    rw [wiscombeT_eq hwf h0, hm.nPart, hm.nK, List.flatMap_def, List.flatMap_def]
    congr 2
    exact List.map_congr_left fun p hp => List.map_congr_left fun k hk => by
      rw [hm.particle (by simpa using hp) (by simpa using hk)]
  rw [mieCoefficientsB_eq ha hbr c h2 hb]
  simp only [orderChoiceB, e]
  congr 1
  funext n
  rw [mieCoefficientsB_eq ha hbr c h2 hb]
  simp only [orderChoiceB, bind_ok]

/-- C57: more than two layers are refused. -/
theorem C57_layers (ha : asLayerInputs args = .ok (r, eps))
    (hR : Spec.reading args.k0.shape r.shape eps.shape args.epsEnv.shape = some R) (hi : Increasing R r)
    (hl : 2 < R.nLayers) {n : ℕ} {backend : String} (w : String)
    (hb : backend.toLower = "torch" ∨ backend.toLower = "scipy") (A : BackendsOf ArrFns) (ri : Bool) :
    mieCoefficientsB A args backend w (some n) ri = .error .valueError := by
  obtain ⟨b, hbr, hwf, hm⟩ := broadcast_ok hR hi
  have h0 : 0 < b.nLayers := by rw [hm.nLayers]; omega
  have h2 : b.nLayers > 2 := by rw [hm.nLayers]; omega
  obtain ⟨c⟩ := csArrays hwf h0
  have hp : backend.toLower ≠ "pena" := by rcases hb with h | h <;> rw [h] <;> decide
  have hk : ¬¬(backend.toLower = "torch" ∨ backend.toLower = "scipy" ∨ backend.toLower = "pena") := by tauto
  unfold mieCoefficientsB
  simp only
  rw [if_neg hk, if_neg hp]
  simp only [ha, hbr, c.er0, c.erC, c.erS, c.eeC, c.eeS, c.ek, Bind.bind, Except.bind, orderChoiceB, orderRange, h2, if_true,
    show ¬((n : ℤ) + 1 < 1) from by omega, if_false]

/-- C57: the depth of a batch with one entry is that of the entry. -/
theorem C57_one_entry (rule : ℝ → ℤ) (Q : ℕ → ℕ → Particle1) : SameDepth rule 1 1 Q 0 0 := by
  intro i _ M hM
  obtain ⟨⟨z, hz, h⟩, -⟩ := hM
  obtain ⟨p, hp, k, hk, rfl⟩ := mem_batchArgs.mp hz
  obtain rfl : p = 0 := by omega
  obtain rfl : k = 0 := by omega
  rw [h]

theorem sameDepth_of {rule : ℝ → ℤ} {lo hi : ℝ} {a c : ℤ} (hlo : ∀ m, m < lo → rule m = a) (hhi : ∀ m, hi ≤ m → rule m = c)
    {P K : ℕ} {Q : ℕ → ℕ → Particle1} {p k : ℕ} (hp : p < P) (hk : k < K)
    (h : ∀ i < 4, (∀ p' < P, ∀ k' < K, ‖(Q p' k').args4.getD i 0‖ < lo) ∨ hi ≤ ‖(Q p k).args4.getD i 0‖) :
    SameDepth rule P K Q p k := by
  intro i hi4 M hM
  rcases h i hi4 with h | h
  · obtain ⟨⟨z, hz, hzM⟩, -⟩ := hM
    obtain ⟨p', hp', k', hk', rfl⟩ := mem_batchArgs.mp hz
    rw [hlo _ (h p hp k hk), hlo M (hzM ▸ h p' hp' k' hk')]
  · rw [hhi _ h, hhi M (h.trans (hM.2 _ (mem_batchArgs.mpr ⟨p, hp, k, hk, rfl⟩)))]

/-- C57: with the downward recurrence the depth of a batch is that of an entry if, in each of the four arrays, all arguments are
below 22/3 or the argument of the entry is at least 70/3. -/
theorem C57_same_rec {P K : ℕ} {Q : ℕ → ℕ → Particle1} {p k : ℕ} (hp : p < P) (hk : k < K)
    (h : ∀ i < 4, (∀ p' < P, ∀ k' < K, ‖(Q p' k').args4.getD i 0‖ < 22 / 3) ∨ 70 / 3 ≤ ‖(Q p k).args4.getD i 0‖) :
    SameDepth recDepth P K Q p k :=
  sameDepth_of (fun _ => recDepth_small) (fun _ => recDepth_big) hp hk h

/-- C57: with the continued fraction the bounds are 11/2 and 20. -/
theorem C57_same_ratio {P K : ℕ} {Q : ℕ → ℕ → Particle1} {p k : ℕ} (hp : p < P) (hk : k < K)
    (h : ∀ i < 4, (∀ p' < P, ∀ k' < K, ‖(Q p' k').args4.getD i 0‖ < 11 / 2) ∨ 20 ≤ ‖(Q p k).args4.getD i 0‖) :
    SameDepth ratioDepth P K Q p k :=
  sameDepth_of (fun _ => ratioDepth_small) (fun _ => ratioDepth_big) hp hk h

end

/-! ### The depth matters -/

/-- Integer form of the downward recurrence at `z = 1`: values at orders `N - i` and `N - i + 1`. -/
def backOne (N : ℕ) : ℕ → ℤ × ℤ
  | 0 => (0, 1)
  | i + 1 => ((2 * (N - i : ℕ) + 1) * (backOne N i).1 - (backOne N i).2, (backOne N i).1)

theorem jBack_backOne (c : ℂ) (N : ℕ) : ∀ i ≤ N, jBack 1 c N (N - i) = c * (backOne N i).1 ∧
    jBack 1 c N (N - i + 1) = c * (backOne N i).2 := by
  intro i
  induction i with
  | zero => intro _; exact ⟨by simp [jBack_top, backOne], by simp [jBack_top_succ one_ne_zero, backOne]⟩
  | succ i ih =>
    intro hi
    obtain ⟨h1, h2⟩ := ih (by omega)
    have e : N - i = N - (i + 1) + 1 := by omega
    have hs := jBack_step one_ne_zero c N (N - (i + 1))
    rw [show N - (i + 1) + 2 = N - i + 1 from by omega, ← e, h1, h2] at hs
    refine ⟨?_, by rw [← e, h1]; rfl⟩
    rw [hs]
    simp only [backOne]
    push_cast
    ring

/-- C57: the value `j_1(1)` that `sph_jn_torch_via_rec` returns changes when the same tensor also holds an entry 30: results of the
torch backend depend on the other entries of the batch. -/
theorem C57_depends : sphJnViaRec 1 1 1 ≠ sphJnViaRec 1 1 30 := by
  have h1 : (1e-10 : ℝ) ≤ ‖(1 : ℂ)‖ := by norm_num
  have e1 : recDepth 1 = (10 : ℕ) := recDepth_small (by norm_num)
  have e2 : recDepth 30 = (35 : ℕ) := recDepth_big (by norm_num)
  have s1 := sphJnViaRec_depth 1 1 1
  have s2 := sphJnViaRec_depth 1 1 30
  simp only [Nat.cast_one] at s1 s2
  have g1 := sphJnViaRecDepth_eq 1 1 10 (by norm_num) (by norm_num) h1
  have g2 := sphJnViaRecDepth_eq 1 1 35 (by norm_num) (by norm_num) h1
  simp only [Nat.cast_one] at g1 g2
  rw [s1, s2, e1, e2, g1, g2]
  intro h
  have h := Except.ok.inj h
  have h := congrArg (fun l => l.getD 1 0) h
  simp only [tab_getD le_rfl] at h
  obtain ⟨a0, a1⟩ := jBack_backOne (1e-25 : ℂ) 11 11 le_rfl
  obtain ⟨b0, b1⟩ := jBack_backOne (1e-25 : ℂ) 36 36 le_rfl
  simp only [Nat.sub_self, zero_add] at a0 a1 b0 b1
  have hsin : sin 1 ≠ 0 := by
    have := Real.sin_pos_of_pos_of_le_one one_pos le_rfl
    intro h0
    have h2 : ((Real.sin 1 : ℝ) : ℂ) = 0 := by push_cast; exact h0
    exact this.ne' (by exact_mod_cast h2)
  rw [show 1 + 10 = 11 from rfl, show 1 + 35 = 36 from rfl, a0, a1, b0, b1] at h
  have hne : (backOne 11 11).2 * (backOne 36 36).1 ≠ (backOne 36 36).2 * (backOne 11 11).1 := by decide +kernel
  have p1 : (backOne 11 11).1 ≠ 0 := by decide +kernel
  have p2 : (backOne 36 36).1 ≠ 0 := by decide +kernel
  generalize (backOne 11 11).1 = A0 at *
  generalize (backOne 11 11).2 = A1 at *
  generalize (backOne 36 36).1 = B0 at *
  generalize (backOne 36 36).2 = B1 at *
  have p1' : (A0 : ℂ) ≠ 0 := by exact_mod_cast p1
  have p2' : (B0 : ℂ) ≠ 0 := by exact_mod_cast p2
  field_simp at h
  rw [mul_comm (A0 : ℂ)] at h
  exact hne (by exact_mod_cast h)

/-! ### Examples -/

/-- Two glass spheres of radius 1 and 2 at the wavenumbers 1/2 and 1. -/
noncomputable def glassBatch : LayerArgs where
  k0 := ⟨[2], fun idx => (((idx.headD 0 : ℕ) : ℂ) + 1) / 2⟩
  rLayers := some ⟨[2, 1], fun idx => (idx.getD 0 0 : ℝ) + 1⟩
  epsLayers := some ⟨[], fun _ => ((2 ^ 2 : ℝ) : ℂ)⟩
  epsEnv := ⟨[], fun _ => ((1 ^ 2 : ℝ) : ℂ)⟩

example (sp : BesselBackend) (K : D1Kernel) : ∃ R r eps, asLayerInputs glassBatch = .ok (r, eps) ∧
    Spec.reading glassBatch.k0.shape r.shape eps.shape glassBatch.epsEnv.shape = some R ∧ R.nPart = 2 ∧ R.nK = 2 ∧
    (∃ o io, mieCoefficientsB (codeArr sp) glassBatch "torch" "recurrence" (some 3) = .ok (o, io) ∧ ∀ p < 2, ∀ k < 2,
      mieCoefficients K (codeBackends sp) (glassBatch.particle R r eps p k) "torch" "recurrence" (some 3) false
        = .ok { o.entry p k with internal := internalAt io 3 p k }) ∧
    ∃ o io, mieCoefficientsB (codeArr sp) glassBatch "torch" "ratio" (some 3) = .ok (o, io) ∧ ∀ p < 2, ∀ k < 2,
      mieCoefficients K (codeBackends sp) (glassBatch.particle R r eps p k) "torch" "ratio" (some 3) false
        = .ok { o.entry p k with internal := internalAt io 3 p k } := by
  obtain ⟨R, hR, hP, hN, hL, hinc, hq⟩ : ∃ R, Spec.reading glassBatch.k0.shape [2, 1] [] glassBatch.epsEnv.shape = some R ∧
      R.nPart = 2 ∧ R.nK = 2 ∧ R.nLayers = 1 ∧ Increasing R ⟨[2, 1], fun idx => (idx.getD 0 0 : ℝ) + 1⟩ ∧
      ∀ p k, (glassBatch.particle R ⟨[2, 1], fun idx => (idx.getD 0 0 : ℝ) + 1⟩ ⟨[], fun _ => ((2 ^ 2 : ℝ) : ℂ)⟩ p k).args4
        = [((((k : ℝ) + 1) / 2 * ((p : ℝ) + 1) : ℝ) : ℂ), ((((k : ℝ) + 1) * ((p : ℝ) + 1) : ℝ) : ℂ),
          ((((k : ℝ) + 1) * ((p : ℝ) + 1) : ℝ) : ℂ), ((((k : ℝ) + 1) * ((p : ℝ) + 1) : ℝ) : ℂ)] := by
    refine ⟨_, rfl, rfl, rfl, rfl, ?_, ?_⟩
    · intro p hp l hl
      simp only at hl
      omega
    · intro p k
      simp only [Particle1.args4, Particle1.csX, Particle1.csY, Particle1.csM1, Particle1.csM2, LayerArgs.particle, glassBatch,
        List.range_one, List.map_cons, List.map_nil, List.headD_cons, List.getLastD_cons, List.getLastD_nil]
      rw [csqrt_nat_sq (by norm_num), csqrt_nat_sq (by norm_num)]
      simp only [show ([p, 0] : List ℕ).getD 0 0 = p from rfl]
      push_cast
      ring_nf
  have hnorm : ∀ i < 4, ∀ p < 2, ∀ k < 2, 1 / 2 ≤ ‖(glassBatch.particle R ⟨[2, 1], fun idx => (idx.getD 0 0 : ℝ) + 1⟩
      ⟨[], fun _ => ((2 ^ 2 : ℝ) : ℂ)⟩ p k).args4.getD i 0‖ ∧ ‖(glassBatch.particle R ⟨[2, 1], fun idx => (idx.getD 0 0 : ℝ) + 1⟩
      ⟨[], fun _ => ((2 ^ 2 : ℝ) : ℂ)⟩ p k).args4.getD i 0‖ ≤ 4 := by
    intro i hi p hp k hk
    rw [hq]
    interval_cases i <;> interval_cases p <;> interval_cases k <;>
      simp only [List.getD_cons_zero, List.getD_cons_succ, Complex.norm_real] <;> norm_num
  refine ⟨R, _, _, rfl, hR, hP, hN, ?_, ?_⟩
  · obtain ⟨o, io, h1, -, h2⟩ := C57_recurrence (args := glassBatch) (R := R) rfl hR hinc (Or.inl hL) (by omega) (by omega)
      (n := 3) (by norm_num) false (backend := "torch") (w := "recurrence") (by decide +kernel) (by decide +kernel) sp K
    refine ⟨o, io, h1, fun p hp k hk => h2 p (by omega) k (by omega) (C57_same_rec (by omega) (by omega) fun i hi => Or.inl ?_)⟩
    intro p' hp' k' hk'
    have := (hnorm i hi p' (by omega) k' (by omega)).2
    exact lt_of_le_of_lt this (by norm_num)
  · obtain ⟨o, io, h1, -, h2⟩ := (C57_ratio (args := glassBatch) (R := R) rfl hR hinc (Or.inl hL) (by omega) (by omega)
      (n := 3) (by norm_num) false (backend := "torch") (w := "ratio") (by decide +kernel) (by decide +kernel) sp K).2 (by
        intro p hp k hk z hz
        obtain ⟨i, hi, rfl⟩ := List.getElem_of_mem hz
        have := (hnorm i hi p (by omega) k (by omega)).1
        rw [List.getD_eq_getElem?_getD, List.getElem?_eq_getElem hi, Option.getD_some] at this
        refine le_trans ?_ this
        norm_num)
    refine ⟨o, io, h1, fun p hp k hk => h2 p (by omega) k (by omega) (C57_same_ratio (by omega) (by omega) fun i hi => Or.inl ?_)⟩
    intro p' hp' k' hk'
    have := (hnorm i hi p' (by omega) k' (by omega)).2
    exact lt_of_le_of_lt this (by norm_num)

end MieDiff
