import Verif.Proofs.NearPena

/-!
# The fields of the batched pena near-field branch, entry by entry
-/

namespace MieDiff

open Complex Ten

/-! ## One particle, wavenumber and position -/

/-- Fields of one order in one region, in spherical components. -/
noncomputable def orderP (D : ℂ → ℕ → ℂ) (n : ℕ) (E0 k0 m : ℂ) (r theta phi : ℝ) (isOut : Bool) (g : RegFn) (epsilon : ℝ)
    (i : ℕ) : V3 ℂ × V3 ℂ :=
  let v1 := vshPenaVal D n i 1 theta phi (k0 * m * (r : ℂ) + (epsilon : ℂ))
  let v3 := vshPenaVal D n i 3 theta phi (k0 * m * (r : ℂ) + (epsilon : ℂ))
  if isOut then outField (EnCoef E0 (i + 1)) (g.a (i + 1)) (g.b (i + 1)) m v3
  else inField (EnCoef E0 (i + 1)) (g.a (i + 1)) (g.b (i + 1)) (g.c (i + 1)) (g.d (i + 1)) m v1 v3

theorem regionField_eq {K : D1Kernel} {n : ℕ} {D : ℂ → ℕ → ℂ} (h : KernelFun K n D) (hn : 1 ≤ n) (k0 m : ℂ)
    (r theta phi : ℝ) (E0 : ℂ) (isOut : Bool) (g : RegFn) (epsilon : ℝ) :
    regionField K n k0 m r theta phi E0 isOut (g.toCoefs n) epsilon =
      .ok ((List.range n).map fun i => (orderP D n E0 k0 m r theta phi isOut g epsilon i).1,
        (List.range n).map fun i => (orderP D n E0 k0 m r theta phi isOut g epsilon i).2) := by
  unfold regionField
  rw [vshPena_eq h hn k0 m r theta phi (.inl rfl), vshPena_eq h hn k0 m r theta phi (.inr rfl)]
  simp only [bind_ok, List.map_map]
  congr 2 <;>
  · refine List.map_congr_left fun i hi => ?_
    have hi := List.mem_range.1 hi
    have hi' : i + 1 ≤ n := hi
    simp only [Function.comp, RegFn.toCoefs, tab_getD hi', orderP]
    simp only [List.getD_eq_getElem?_getD, List.getElem?_map, List.getElem?_range hi, Option.map_some, Option.getD_some]

/-- Region `j` of a particle, from the outer coefficients. -/
noncomputable def regOf (D : ℂ → ℕ → ℂ) (ext : RegFn) (q : Particle1) (j : ℕ) : RegFn :=
  nfFn D ext (j == 0) (((q.epsLayers.map fun e => csqrt e / csqrt q.epsEnv).zip
    (q.rLayers.map fun (r : ℝ) => q.k0 * csqrt q.epsEnv * (r : ℂ))).drop j)

/-- Refractive index of region `j`. -/
noncomputable def mediumOf (q : Particle1) (j : ℕ) : ℂ := (q.epsLayers.map csqrt ++ [csqrt q.epsEnv]).getD j 0

/-- Fields of order `i + 1` at one position of a particle, from region `j`. -/
noncomputable def fieldP (D : ℂ → ℕ → ℂ) (n : ℕ) (ext : RegFn) (q : Particle1) (E0 : ℂ) (s : V3 ℝ) (epsilon : ℝ) (j i : ℕ) :
    V3 ℂ × V3 ℂ :=
  orderP D n E0 q.k0 (mediumOf q j) s.c0 s.c1 s.c2 (j == q.rLayers.length) (regOf D ext q j) epsilon i

theorem foldl_map_choice {ι : Type} (ms : List Bool) (l : List ι) {α : Type} (f : ι → ℕ → α) (n : ℕ) (g : ℕ → α) :
    (ms.zip (l.map fun j => (List.range n).map (f j))).foldl (fun acc mv => if mv.1 then mv.2 else acc) ((List.range n).map g) =
      (List.range n).map fun i => (ms.zip (l.map fun j => f j i)).foldl (fun acc mv => if mv.1 then mv.2 else acc) (g i) := by
  induction l generalizing ms g with
  | nil => cases ms <;> simp
  | cons j l ih =>
    cases ms with
    | nil => simp
    | cons b ms =>
      cases b
      · simpa using ih ms g
      · simpa using ih ms (f j)

theorem sumCart_zero (theta phi : ℝ) (n : ℕ) : sumCart theta phi ((List.range n).map fun _ => (V3.zero : V3 ℂ)) = V3.zero := by
  unfold sumCart
  induction n with
  | zero => rfl
  | succ n ih =>
    rw [List.range_succ, List.map_append, List.foldl_append, ih]
    simp [fieldsSphToCart, V3.zero, V3.add]

/-- The choice of the region order by order. -/
theorem sumCart_masked (theta phi : ℝ) (ms : List Bool) (L n : ℕ) (f : ℕ → ℕ → V3 ℂ) :
    sumCart theta phi (maskedAssign [] ms ((List.range L).map fun j => (List.range n).map (f j))) =
      sumCart theta phi ((List.range n).map fun i => maskedAssign V3.zero ms ((List.range L).map fun j => f j i)) := by
  have h := foldl_map_choice ms (List.range L) f n fun _ => V3.zero
  unfold maskedAssign
  rw [← h]
  have key : ∀ (l : List (Bool × List (V3 ℂ))), (∀ a b, sumCart theta phi a = sumCart theta phi b →
      sumCart theta phi (l.foldl (fun acc mv => if mv.1 then mv.2 else acc) a) =
      sumCart theta phi (l.foldl (fun acc mv => if mv.1 then mv.2 else acc) b)) := by
    intro l
    induction l with
    | nil => intro a b h; exact h
    | cons x l ih =>
      intro a b h
      rw [List.foldl_cons, List.foldl_cons]
      refine ih _ _ ?_
      split_ifs
      · rfl
      · exact h
  refine key _ _ _ ?_
  rw [sumCart_zero]
  rfl

theorem nearfieldsPena_eq {K : D1Kernel} {n : ℕ} {D : ℂ → ℕ → ℂ} (h : KernelFun K n D) (hn : 1 ≤ n) (q : Particle1)
    (hl : q.epsLayers.length = q.rLayers.length) (E0 : ℂ) (a b : ℕ → ℂ) (p : V3 ℝ) (epsilon : ℝ) :
    let s := xyzToSph eps10Double p.c0 p.c1 p.c2
    let f := fieldP D n (extFn a b) q E0 s epsilon
    let ms := regionMasks q.rLayers s.c0
    let Es := sumCart s.c1 s.c2 ((List.range n).map fun i =>
      maskedAssign V3.zero ms ((List.range (q.rLayers.length + 1)).map fun j => (f j i).1))
    let Hs := sumCart s.c1 s.c2 ((List.range n).map fun i =>
      maskedAssign V3.zero ms ((List.range (q.rLayers.length + 1)).map fun j => (f j i).2))
    let Ei := incidentE E0 (q.k0 * csqrt q.epsEnv) s.c0 s.c1
    let Hi := incidentH E0 (q.k0 * csqrt q.epsEnv) (csqrt q.epsEnv) s.c0 s.c1
    nearfieldsPena K q.k0 q.rLayers q.epsLayers q.epsEnv E0 ((List.range n).map fun i => a (i + 1))
      ((List.range n).map fun i => b (i + 1)) p epsilon = .ok
        { Ei := Ei, Hi := Hi, Es := Es, Hs := Hs
          Et := if ms.getLastD false then Es.add Ei else Es
          Ht := if ms.getLastD false then Hs.add Hi else Hs } := by
  intro s f ms Es Hs Ei Hi
  unfold nearfieldsPena
  simp only [List.length_map, List.length_range]
  rw [extCoefs_eq n a b]
  refine bind_of (nfRegions_eq h (extFn a b) _ true) ?_
  refine bind_of (mapM_ok _ _ (fun j => ((List.range n).map fun i => (f j i).1, (List.range n).map fun i => (f j i).2))
    fun j hj => ?_) ?_
  · have hj : j < q.rLayers.length + 1 := List.mem_range.1 hj
    have hg : ((nfAll D (extFn a b) true ((q.epsLayers.map fun e => csqrt e / csqrt q.epsEnv).zip
        (q.rLayers.map fun (r : ℝ) => q.k0 * csqrt q.epsEnv * (r : ℂ)))).map (RegFn.toCoefs n)).getD j ⟨[], [], [], []⟩ =
        (regOf D (extFn a b) q j).toCoefs n := by
      rw [List.getD_eq_getElem?_getD, List.getElem?_map, nfAll_getElem? D (extFn a b) _ true j (by simp [hl]; omega)]
      simp [regOf]
    rw [hg]
    exact regionField_eq h hn _ _ _ _ _ _ _ _ _
  · simp only [List.map_map]
    have e1 := sumCart_masked s.c1 s.c2 ms (q.rLayers.length + 1) n fun j i => (f j i).1
    have e2 := sumCart_masked s.c1 s.c2 ms (q.rLayers.length + 1) n fun j i => (f j i).2
    have e1' : sumCart s.c1 s.c2 (maskedAssign [] ms ((List.range (q.rLayers.length + 1)).map
      ((fun x => x.1) ∘ fun j => ((List.range n).map fun i => (f j i).1, (List.range n).map fun i => (f j i).2)))) = Es := e1
    have e2' : sumCart s.c1 s.c2 (maskedAssign [] ms ((List.range (q.rLayers.length + 1)).map
      ((fun x => x.2) ∘ fun j => ((List.range n).map fun i => (f j i).1, (List.range n).map fun i => (f j i).2)))) = Hs := e2
    show Except.ok (Fields.mk _ _ (sumCart s.c1 s.c2 (maskedAssign [] ms _)) (sumCart s.c1 s.c2 (maskedAssign [] ms _)) _ _) = _
    rw [e1', e2']

/-! ## Coefficients of all regions -/

/-- Outer coefficients of one entry. -/
noncomputable def BatchOut.ext (o : BatchOut) (p k : ℕ) : RegFn :=
  extFn (fun i => o.a.get [i - 1, p, k]) fun i => o.bn.get [i - 1, p, k]

theorem cat0_ok {N P K : ℕ} {t : Ten ℂ} (h : t.shape = [N, P, K]) :
    ∃ u, Ten.cat 0 ⟨[1, P, K], fun _ => (0 : ℂ)⟩ t = .ok u ∧ u.shape = [N + 1, P, K] ∧
      ∀ i p k, u.get [i, p, k] = if i = 0 then 0 else t.get [i - 1, p, k] := by
  refine ⟨_, if_pos ⟨by simp [h], by simp, by simp [h]⟩, by simp [h, Nat.add_comm], fun i p k => ?_⟩
  simp

theorem cat1_ok {P L K : ℕ} {t : Ten ℂ} (h : t.shape = [P, L, K]) :
    ∃ u, Ten.cat 1 t ⟨[P, 1, K], fun _ => (1 : ℂ)⟩ = .ok u ∧ u.shape = [P, L + 1, K] ∧
      (∀ p l k, l < L → u.get [p, l, k] = t.get [p, l, k]) ∧ ∀ p k, u.get [p, L, k] = 1 := by
  refine ⟨_, if_pos ⟨by simp [h], by simp [h], by simp⟩, by simp [h], fun p l k hl => ?_, fun p k => ?_⟩
  · simp [h, hl]
  · simp [h]

theorem regionArraysT_ok {o : BatchOut} (w : o.WF) (v : o.Vals) :
    ∃ a b c d, regionArraysT o o.b.nLayers = .ok (a, b, c, d) ∧
      a.shape = [o.nMax.toNat, o.b.nPart, o.b.nK, o.b.nLayers + 1, 1, 1] ∧
      b.shape = [o.nMax.toNat, o.b.nPart, o.b.nK, o.b.nLayers + 1, 1, 1] ∧
      c.shape = [o.nMax.toNat, o.b.nPart, o.b.nK, o.b.nLayers + 1, 1, 1] ∧
      d.shape = [o.nMax.toNat, o.b.nPart, o.b.nK, o.b.nLayers + 1, 1, 1] ∧
      ∀ i p k j, i < o.nMax.toNat → p < o.b.nPart → k < o.b.nK → j ≤ o.b.nLayers →
        let g := regOf (codeFn o.nMax.toNat) (o.ext p k) (o.b.particle p k) j
        a.get [i, p, k, j, 0, 0] = g.a (i + 1) ∧ b.get [i, p, k, j, 0, 0] = g.b (i + 1) ∧
        c.get [i, p, k, j, 0, 0] = g.c (i + 1) ∧ d.get [i, p, k, j, 0, 0] = g.d (i + 1) := by
  have hnp : o.b.r.shape.headD 0 = o.b.nPart := by rw [w.b.r]; rfl
  have hnk : o.b.k0.shape.getD 1 0 = o.b.nK := by rw [w.b.k0]; rfl
  have hn : o.nMax = (o.nMax.toNat : ℤ) := by have := w.n; omega
  obtain ⟨aL, haL, saL, vaL⟩ := cat0_ok w.a
  obtain ⟨bL, hbL, sbL, vbL⟩ := cat0_ok w.bn
  obtain ⟨mE, hmE, smE, vmE, lmE⟩ := cat1_ok v.mShape
  obtain ⟨x, hx, sx, vx⟩ : ∃ x, (.ok (o.k.unsqueeze 1) *ₜ .ok (o.b.r.unsqueeze 2).toC) = .ok x ∧
      x.shape = [o.b.nPart, o.b.nLayers, o.b.nK] ∧ ∀ p l k, p < o.b.nPart → l < o.b.nLayers → k < o.b.nK →
        x.get [p, l, k] = o.k.get [0, k] * ((o.b.r.get [p, l] : ℝ) : ℂ) := by
    refine ⟨_, op2_ok _ _ _ (sh := [o.b.nPart, o.b.nLayers, o.b.nK]) ?_, rfl, ?_⟩
    · simp [Ten.unsqueeze, Ten.toC, Ten.map, w.k, w.b.r, Ten.bShape, Ten.bShapeRev, Ten.bDim_one_right, Ten.bDim_one_left, Bind.bind, Except.bind]
    · intro p l k hp hl hk
      simp [Ten.unsqueeze, Ten.toC, Ten.map, w.k, w.b.r, Ten.bIdx, bi_lt hp, bi_lt hl, bi_lt hk]
  have hext : RegionT.Rep o.nMax.toNat o.b.nPart o.b.nK ⟨aL, bL, aL.map fun _ => 1, aL.map fun _ => 1⟩ o.ext := by
    refine ⟨saL, sbL, saL, saL, fun i p k hi hp hk => ⟨?_, ?_, rfl, rfl⟩⟩
    · exact vaL i p k
    · exact vbL i p k
  obtain ⟨regs, hregs, lregs, vregs⟩ := nfRegionsT_ok smE sx (fun p k _ _ => lmE p k) hext
  rw [← hn] at hregs
  have hne : regs ≠ [] := by
    intro h
    rw [h] at lregs
    simp at lregs
  have hmem : ∀ t ∈ regs, ∃ j ≤ o.b.nLayers, t.Rep o.nMax.toNat o.b.nPart o.b.nK
      (regionAt o.nMax.toNat o.ext mE x o.b.nLayers j) := by
    intro t ht
    obtain ⟨j, hj, rfl⟩ := List.getElem_of_mem ht
    obtain ⟨t', h1, h2⟩ := vregs j (by omega)
    rw [List.getElem?_eq_getElem hj] at h1
    injection h1 with h1
    exact ⟨j, by omega, by rw [h1]; exact h2⟩
  have stk (f : RegionT → Ten ℂ) (hf : ∀ t ∈ regs, (f t).shape = [o.nMax.toNat + 1, o.b.nPart, o.b.nK]) :
      ∃ u, Ten.stackLast (regs.map f) = .ok u ∧ u.tail0.tailAxes.shape = [o.nMax.toNat, o.b.nPart, o.b.nK, o.b.nLayers + 1, 1, 1] ∧
        ∀ i p k j t, regs[j]? = some t → u.tail0.tailAxes.get [i, p, k, j, 0, 0] = (f t).get [i + 1, p, k] := by
    obtain ⟨u, hu, su, vu⟩ := stackLast_ok (l := regs.map f) (s := [o.nMax.toNat + 1, o.b.nPart, o.b.nK]) (by simpa using hne) (by
      intro t ht
      obtain ⟨r, hr, rfl⟩ := List.mem_map.1 ht
      exact hf r hr)
    refine ⟨u, hu, by simp [Ten.tail0, Ten.tailAxes, Ten.unsqueeze, su, lregs], fun i p k j t ht => ?_⟩
    have := vu [i + 1, p, k] j (f t) rfl (by simp [ht])
    rw [← this]
    simp [Ten.tail0, Ten.tailAxes, Ten.unsqueeze, su]
  obtain ⟨a, ha, sa, va⟩ := stk (·.a) fun t ht => by obtain ⟨j, -, h⟩ := hmem t ht; exact h.sa
  obtain ⟨b, hb, sb, vb⟩ := stk (·.b) fun t ht => by obtain ⟨j, -, h⟩ := hmem t ht; exact h.sb
  obtain ⟨c, hc, sc, vc⟩ := stk (·.c) fun t ht => by obtain ⟨j, -, h⟩ := hmem t ht; exact h.sc
  obtain ⟨d, hd, sd, vd⟩ := stk (·.d) fun t ht => by obtain ⟨j, -, h⟩ := hmem t ht; exact h.sd
  refine ⟨_, _, _, _, ?_, sa, sb, sc, sd, ?_⟩
  · unfold regionArraysT
    simp only [hnp, hnk]
    exact bind_of haL (bind_of hbL (bind_of hx (bind_of hmE (bind_of hregs (bind_of ha (bind_of hb (bind_of hc (bind_of hd rfl))))))))
  · intro i p k j hi hp hk hj
    obtain ⟨t, ht, rt⟩ := vregs j hj
    have hreg : regionAt o.nMax.toNat o.ext mE x o.b.nLayers j p k = regOf (codeFn o.nMax.toNat) (o.ext p k) (o.b.particle p k) j := by
      unfold regionAt regOf
      congr 2
      unfold layersAt Bcast.particle
      simp only [List.map_map, List.zip_map']
      refine List.map_congr_left fun l hl => ?_
      have hl := List.mem_range.1 hl
      simp only [Function.comp]
      rw [vmE p l k hl, v.m p l k hp hl hk, vx p l k hp hl hk, v.k k hk]
    have := rt.val (i + 1) p k (by omega) hp hk
    rw [hreg] at this
    rw [va i p k j t ht, vb i p k j t ht, vc i p k j t ht, vd i p k j t ht]
    exact this

/-! ## Masks -/

theorem append_range {α : Type} (f : ℕ → α) (x : α) (L : ℕ) :
    (List.range L).map f ++ [x] = (List.range (L + 1)).map fun j => if j < L then f j else x := by
  rw [List.range_succ, List.map_append]
  congr 1
  · refine List.map_congr_left fun j hj => ?_
    rw [if_pos (List.mem_range.1 hj)]
  · simp

/-- Entry `j` of the region masks. -/
theorem regionMasks_range (rs : List ℝ) (r : ℝ) : regionMasks rs r = (List.range (rs.length + 1)).map fun j =>
    if j < rs.length then (if j = 0 then decide (r ≤ rs.getD 0 0) else decide (rs.getD (j - 1) 0 < r) && decide (r ≤ rs.getD j 0))
    else decide (rs.getLastD 0 < r) := append_range _ _ _

theorem mask_op {P Q : ℕ} {α β : Type} {s t : Ten α} (f : α → α → β) (hs : s.shape = [1, 1, Q]) (ht : t.shape = [P, 1, 1]) :
    ∃ u, Ten.op2 f s t = .ok u ∧ u.shape = [P, 1, Q] ∧
      ∀ p q, p < P → q < Q → u.get [p, 0, q] = f (s.get [0, 0, q]) (t.get [p, 0, 0]) := by
  refine ⟨_, op2_ok f s t (sh := [P, 1, Q]) ?_, rfl, ?_⟩
  · simp [hs, ht, Ten.bShape, Ten.bShapeRev, Ten.bDim_one_right, Ten.bDim_one_left, Bind.bind, Except.bind]
  · intro p q hp hq
    simp [hs, ht, Ten.bIdx, bi_lt hp, bi_lt hq]

theorem mask_and {P Q : ℕ} {s t : Ten Bool} (hs : s.shape = [P, 1, Q]) (ht : t.shape = [P, 1, Q]) :
    ∃ u, Ten.op2 (fun x y : Bool => x && y) s t = .ok u ∧ u.shape = [P, 1, Q] ∧
      ∀ p q, p < P → q < Q → u.get [p, 0, q] = (s.get [p, 0, q] && t.get [p, 0, q]) := by
  refine ⟨_, op2_ok _ s t (sh := [P, 1, Q]) ?_, rfl, ?_⟩
  · simp [hs, ht, Ten.bShape, Ten.bShapeRev, Ten.bDim_self, Bind.bind, Except.bind]
  · intro p q hp hq
    simp [hs, ht, Ten.bIdx, bi_lt hp, bi_lt hq]

theorem column_ok {P L l : ℕ} {t : Ten ℝ} (h : t.shape = [P, L]) (hl : l < L) :
    ∃ u v, t.select 1 l = .ok u ∧ u.viewN11 P = .ok v ∧ v.shape = [P, 1, 1] ∧ ∀ p, v.get [p, 0, 0] = t.get [p, l] := by
  refine ⟨⟨[P], fun idx => t.get (idx.insertIdx 1 l)⟩, ⟨[P, 1, 1], fun idx => t.get ([idx.getD 0 0].insertIdx 1 l)⟩, ?_, ?_, rfl, ?_⟩
  · unfold Ten.select
    simp [h, hl]
  · unfold Ten.viewN11
    simp
  · intro p
    simp

theorem masksT_ok {P L Q : ℕ} {rl r : Ten ℝ} (hL : 0 < L) (h : rl.shape = [P, L]) (hr : r.shape = [Q]) :
    ∃ M : ℕ → Ten Bool, masksT rl r P L Q = .ok ((List.range (L + 1)).map M) ∧ ∀ j, j < L + 1 → (M j).shape = [P, 1, Q] ∧
      ∀ p q, p < P → q < Q → (M j).get [p, 0, q] =
        if j < L then (if j = 0 then decide (r.get [q] ≤ rl.get [p, 0])
          else decide (rl.get [p, j - 1] < r.get [q]) && decide (r.get [q] ≤ rl.get [p, j]))
        else decide (rl.get [p, L - 1] < r.get [q]) := by
  classical
  have hv : r.view11 Q = .ok ⟨[1, 1, Q], fun idx => r.get [idx.getD 2 0]⟩ := by
    unfold Ten.view11
    simp [hr]
  set rp : Ten ℝ := ⟨[1, 1, Q], fun idx => r.get [idx.getD 2 0]⟩ with hrp
  have key : ∀ li, ∃ m, li < L → ((do
      let hi ← rl.select 1 li
      let hi ← hi.viewN11 P
      if li = 0 then Ten.op2 (fun x y : ℝ => decide (x ≤ y)) rp hi
      else do
        let lo ← rl.select 1 (li - 1)
        let lo ← lo.viewN11 P
        let u ← Ten.op2 (fun x y : ℝ => decide (y < x)) rp lo
        let v ← Ten.op2 (fun x y : ℝ => decide (x ≤ y)) rp hi
        Ten.op2 (fun x y : Bool => x && y) u v : Py (Ten Bool)) = .ok m) ∧ m.shape = [P, 1, Q] ∧
      ∀ p q, p < P → q < Q → m.get [p, 0, q] = if li = 0 then decide (r.get [q] ≤ rl.get [p, 0])
          else decide (rl.get [p, li - 1] < r.get [q]) && decide (r.get [q] ≤ rl.get [p, li]) := by
    intro li
    by_cases hl : li < L
    swap
    · exact ⟨⟨[], fun _ => false⟩, fun h => absurd h hl⟩
    obtain ⟨c, c', hc, hc', sc, vc⟩ := column_ok h hl
    by_cases h0 : li = 0
    · subst h0
      obtain ⟨m, hm, sm, vm⟩ := mask_op (fun x y : ℝ => decide (x ≤ y)) (s := rp) (Q := Q) rfl sc
      refine ⟨m, fun _ => ⟨bind_of hc (bind_of hc' (by rw [if_pos rfl]; exact hm)), sm, fun p q hp hq => ?_⟩⟩
      rw [if_pos rfl, vm p q hp hq, vc]
      rfl
    · obtain ⟨e, e', he, he', se, ve⟩ := column_ok h (show li - 1 < L by omega)
      obtain ⟨u, hu, su, vu⟩ := mask_op (fun x y : ℝ => decide (y < x)) (s := rp) (Q := Q) rfl se
      obtain ⟨v, hv, sv, vv⟩ := mask_op (fun x y : ℝ => decide (x ≤ y)) (s := rp) (Q := Q) rfl sc
      obtain ⟨m, hm, sm, vm⟩ := mask_and su sv
      refine ⟨m, fun _ => ⟨bind_of hc (bind_of hc' (by rw [if_neg h0]; exact bind_of he (bind_of he' (bind_of hu (bind_of hv hm))))),
        sm, fun p q hp hq => ?_⟩⟩
      rw [if_neg h0, vm p q hp hq, vu p q hp hq, vv p q hp hq, vc, ve]
      rfl
  choose M hM using key
  obtain ⟨c, c', hc, hc', sc, vc⟩ := column_ok h (show L - 1 < L by omega)
  have hlast : rl.selectLast 1 = .ok c := by
    rw [← hc]
    unfold Ten.selectLast Ten.select
    obtain ⟨L, rfl⟩ : ∃ L', L = L' + 1 := ⟨L - 1, by omega⟩
    simp [h]
  obtain ⟨o, ho, so, vo⟩ := mask_op (fun x y : ℝ => decide (y < x)) (s := rp) (Q := Q) rfl sc
  refine ⟨fun j => if j < L then M j else o, ?_, fun j hj => ?_⟩
  · rw [← append_range M o L]
    unfold masksT
    exact bind_of hv (bind_of (mapM_ok _ _ M fun li hli => (hM li (List.mem_range.1 hli)).1)
      (bind_of hlast (bind_of hc' (bind_of ho rfl))))
  · dsimp only
    by_cases hl : j < L
    · simp only [if_pos hl]
      exact (hM j hl).2
    · simp only [if_neg hl]
      refine ⟨so, fun p q hp hq => ?_⟩
      rw [vo p q hp hq, vc]
      rfl

theorem fits_mask {N P K Q : ℕ} {m : Ten Bool} (h : m.shape = [P, 1, Q]) {g : List ℕ → Bool}
    (hg : ∀ n p k q j, p < P → q < Q → m.get [p, 0, q] = g [n, p, k, q, j]) :
    Fits [N, P, K, Q, 3] ((m.unsqueeze 0).unsqueeze (m.unsqueeze 0).shape.length) [1, P, 1, Q, 1] g := by
  refine ⟨by simp [Ten.unsqueeze, h], by simp [CompatR], ?_⟩
  intro idx hi
  obtain ⟨n, p, k, q, j, rfl, hn, hp, hk, hq, hj⟩ := valid5_inv hi
  rw [← hg n p k q j hp hq]
  simp [Ten.unsqueeze, h, Ten.bIdx, bi_lt hp, bi_lt hq]

/-! ## One pass of the loop over the regions -/

theorem orderP_out_E (D : ℂ → ℕ → ℂ) (n : ℕ) (E0 k0 m : ℂ) (r theta phi : ℝ) (g : RegFn) (epsilon : ℝ) (i j : ℕ) :
    (orderP D n E0 k0 m r theta phi true g epsilon i).1.comp j =
      EnCoef E0 (i + 1) * (I * g.a (i + 1) * (vshPenaVal D n i 3 theta phi (k0 * m * r + epsilon)).Ne.comp j -
        g.b (i + 1) * (vshPenaVal D n i 3 theta phi (k0 * m * r + epsilon)).Mo.comp j) := by
  simp only [orderP, if_true, outField, comp_smul, comp_add]
  ring

theorem orderP_out_H (D : ℂ → ℕ → ℂ) (n : ℕ) (E0 k0 m : ℂ) (r theta phi : ℝ) (g : RegFn) (epsilon : ℝ) (i j : ℕ) :
    (orderP D n E0 k0 m r theta phi true g epsilon i).2.comp j =
      m * EnCoef E0 (i + 1) * (I * g.b (i + 1) * (vshPenaVal D n i 3 theta phi (k0 * m * r + epsilon)).No.comp j +
        g.a (i + 1) * (vshPenaVal D n i 3 theta phi (k0 * m * r + epsilon)).Me.comp j) := by
  simp only [orderP, if_true, outField, comp_smul, comp_add]

theorem orderP_in_E (D : ℂ → ℕ → ℂ) (n : ℕ) (E0 k0 m : ℂ) (r theta phi : ℝ) (g : RegFn) (epsilon : ℝ) (i j : ℕ) :
    (orderP D n E0 k0 m r theta phi false g epsilon i).1.comp j =
      EnCoef E0 (i + 1) * (g.c (i + 1) * (vshPenaVal D n i 1 theta phi (k0 * m * r + epsilon)).Mo.comp j -
        I * g.d (i + 1) * (vshPenaVal D n i 1 theta phi (k0 * m * r + epsilon)).Ne.comp j +
        I * g.a (i + 1) * (vshPenaVal D n i 3 theta phi (k0 * m * r + epsilon)).Ne.comp j -
        g.b (i + 1) * (vshPenaVal D n i 3 theta phi (k0 * m * r + epsilon)).Mo.comp j) := by
  simp only [orderP, Bool.false_eq_true, if_false, inField, comp_smul, comp_add]
  ring

theorem orderP_in_H (D : ℂ → ℕ → ℂ) (n : ℕ) (E0 k0 m : ℂ) (r theta phi : ℝ) (g : RegFn) (epsilon : ℝ) (i j : ℕ) :
    (orderP D n E0 k0 m r theta phi false g epsilon i).2.comp j =
      -m * EnCoef E0 (i + 1) * (g.d (i + 1) * (vshPenaVal D n i 1 theta phi (k0 * m * r + epsilon)).Me.comp j +
        I * g.c (i + 1) * (vshPenaVal D n i 1 theta phi (k0 * m * r + epsilon)).No.comp j -
        I * g.b (i + 1) * (vshPenaVal D n i 3 theta phi (k0 * m * r + epsilon)).No.comp j -
        g.a (i + 1) * (vshPenaVal D n i 3 theta phi (k0 * m * r + epsilon)).Me.comp j) := by
  simp only [orderP, Bool.false_eq_true, if_false, inField, comp_smul, comp_add]
  ring

section pass

variable {N P K Q L : ℕ}

theorem fits_region {t : Ten ℂ} (h : t.shape = [N, P, K, L + 1, 1, 1]) {j : ℕ} (hj : j < L + 1) {g : ℕ → ℕ → ℕ → ℂ}
    (hg : ∀ i p k, i < N → p < P → k < K → t.get [i, p, k, j, 0, 0] = g i p k) :
    ∃ u, t.select 3 j = .ok u ∧ Fits [N, P, K, Q, 3] u [N, P, K, 1, 1] fun idx => g (idx.getD 0 0) (idx.getD 1 0) (idx.getD 2 0) := by
  refine ⟨⟨[N, P, K, 1, 1], fun idx => t.get (idx.insertIdx 3 j)⟩, ?_, rfl, by simp [CompatR], ?_⟩
  · unfold Ten.select
    simp [h, hj]
  · intro idx hi
    obtain ⟨n, p, k, q, c, rfl, hn, hp, hk, hq, hc⟩ := valid5_inv hi
    simp only [List.getD_cons_zero, List.getD_cons_succ]
    rw [← hg n p k hn hp hk]
    simp [Ten.bIdx, bi_lt hn, bi_lt hp, bi_lt hk]

/-- What the harmonics of one medium have to be. -/
def VshFits (N P K Q M : ℕ) (v : VshT) (g : List ℕ → VSH) : Prop :=
  Fits [N, P, K, Q, 3] v.Mo [N, M, K, Q, 3] (fun idx => (g idx).Mo.comp (idx.getD 4 0)) ∧
  Fits [N, P, K, Q, 3] v.Me [N, M, K, Q, 3] (fun idx => (g idx).Me.comp (idx.getD 4 0)) ∧
  Fits [N, P, K, Q, 3] v.No [N, M, K, Q, 3] (fun idx => (g idx).No.comp (idx.getD 4 0)) ∧
  Fits [N, P, K, Q, 3] v.Ne [N, M, K, Q, 3] (fun idx => (g idx).Ne.comp (idx.getD 4 0))

set_option maxHeartbeats 1600000 in
theorem regionPassT_ok {M j : ℕ} (hM : M = 1 ∨ M = P) (hj : j < L + 1) {a b c d nMed : Ten ℂ}
    (sa : a.shape = [N, P, K, L + 1, 1, 1]) (sb : b.shape = [N, P, K, L + 1, 1, 1]) (sc : c.shape = [N, P, K, L + 1, 1, 1])
    (sd : d.shape = [N, P, K, L + 1, 1, 1]) {g : ℕ → ℕ → RegFn}
    (hg : ∀ i p k, i < N → p < P → k < K → a.get [i, p, k, j, 0, 0] = (g p k).a (i + 1) ∧
      b.get [i, p, k, j, 0, 0] = (g p k).b (i + 1) ∧ c.get [i, p, k, j, 0, 0] = (g p k).c (i + 1) ∧
      d.get [i, p, k, j, 0, 0] = (g p k).d (i + 1))
    {med : ℕ → ℕ → ℂ} (hm : Fits [N, P, K, Q, 3] nMed [1, M, K, 1, 1] fun idx => med (idx.getD 1 0) (idx.getD 2 0))
    {v1 v3 : VshT} {k0 : ℕ → ℂ} {r theta phi : ℕ → ℝ} {epsilon : ℝ} {D : ℂ → ℕ → ℂ}
    (hv1 : VshFits N P K Q M v1 fun idx => vshPenaVal D N (idx.getD 0 0) 1 (theta (idx.getD 3 0)) (phi (idx.getD 3 0))
      (k0 (idx.getD 2 0) * med (idx.getD 1 0) (idx.getD 2 0) * (r (idx.getD 3 0) : ℂ) + epsilon))
    (hv3 : VshFits N P K Q M v3 fun idx => vshPenaVal D N (idx.getD 0 0) 3 (theta (idx.getD 3 0)) (phi (idx.getD 3 0))
      (k0 (idx.getD 2 0) * med (idx.getD 1 0) (idx.getD 2 0) * (r (idx.getD 3 0) : ℂ) + epsilon))
    {mask : Ten Bool} (smask : mask.shape = [N, P, K, Q, 3]) (E0 : ℂ) {st : Ten ℂ × Ten ℂ} (s1 : st.1.shape = [N, P, K, Q, 3])
    (s2 : st.2.shape = [N, P, K, Q, 3]) :
    ∃ st', regionPassT E0 N L j a b c d nMed v1 v3 mask st = .ok st' ∧ st'.1.shape = [N, P, K, Q, 3] ∧
      st'.2.shape = [N, P, K, Q, 3] ∧ ∀ n p k q i, n < N → p < P → k < K → q < Q → i < 3 →
        let f := orderP D N E0 (k0 k) (med p k) (r q) (theta q) (phi q) (j == L) (g p k) epsilon n
        st'.1.get [n, p, k, q, i] = (if mask.get [n, p, k, q, i] then f.1.comp i else st.1.get [n, p, k, q, i]) ∧
        st'.2.get [n, p, k, q, i] = (if mask.get [n, p, k, q, i] then f.2.comp i else st.2.get [n, p, k, q, i]) := by
  obtain ⟨a', ha, fa⟩ := fits_region (Q := Q) sa hj (g := fun i p k => (g p k).a (i + 1)) fun i p k h1 h2 h3 => (hg i p k h1 h2 h3).1
  obtain ⟨b', hb, fb⟩ := fits_region (Q := Q) sb hj (g := fun i p k => (g p k).b (i + 1)) fun i p k h1 h2 h3 => (hg i p k h1 h2 h3).2.1
  obtain ⟨c', hc, fc⟩ := fits_region (Q := Q) sc hj (g := fun i p k => (g p k).c (i + 1)) fun i p k h1 h2 h3 => (hg i p k h1 h2 h3).2.2.1
  obtain ⟨d', hd, fd⟩ := fits_region (Q := Q) sd hj (g := fun i p k => (g p k).d (i + 1)) fun i p k h1 h2 h3 => (hg i p k h1 h2 h3).2.2.2
  obtain ⟨Mo1, Me1, No1, Ne1⟩ := hv1
  obtain ⟨Mo3, Me3, No3, Ne3⟩ := hv3
  have pEn := (fits_en (N := N) (P := P) (K := K) (Q := Q) E0).ok
  have pj := (fits_scalar (N := N) (P := P) (K := K) (Q := Q) I).ok
  have mul {x y : Py (Ten ℂ)} {a b : List ℕ} {g h : List ℕ → ℂ} (hx : PFits [N, P, K, Q, 3] x a g)
    (hy : PFits [N, P, K, Q, 3] y b h) := hx.opP (fun x y : ℂ => x * y) hy
  have add {x y : Py (Ten ℂ)} {a b : List ℕ} {g h : List ℕ → ℂ} (hx : PFits [N, P, K, Q, 3] x a g)
    (hy : PFits [N, P, K, Q, 3] y b h) := hx.opP (fun x y : ℂ => x + y) hy
  have sub {x y : Py (Ten ℂ)} {a b : List ℕ} {g h : List ℕ → ℂ} (hx : PFits [N, P, K, Q, 3] x a g)
    (hy : PFits [N, P, K, Q, 3] y b h) := hx.opP (fun x y : ℂ => x - y) hy
  have hj1 : jn M P = P := jn_of hM
  have hj2 : jn P M = P := jn_of' hM
  by_cases hjL : j = L
  · obtain ⟨E, hE, fE⟩ := mul pEn (sub (mul (mul pj fa.ok) Ne3.ok) (mul fb.ok Mo3.ok))
    obtain ⟨H, hH, fH⟩ := mul (mul hm.ok pEn) (add (mul (mul pj fb.ok) No3.ok) (mul fa.ok Me3.ok))
    obtain ⟨sE, gE⟩ := (fE.mono (b := [N, P, K, Q, 3]) (by simp [join, joinR, hj2]) fun _ _ => rfl).full
    obtain ⟨sH, gH⟩ := (fH.mono (b := [N, P, K, Q, 3]) (by simp [join, joinR, hj1, hj2]) fun _ _ => rfl).full
    have hres : regionPassT E0 N L j a b c d nMed v1 v3 mask st =
        .ok (⟨[N, P, K, Q, 3], fun idx => if mask.get idx then E.get idx else st.1.get idx⟩,
          ⟨[N, P, K, Q, 3], fun idx => if mask.get idx then H.get idx else st.2.get idx⟩) := by
      unfold regionPassT
      simp only [if_pos hjL]
      exact bind_of ha (bind_of hb (bind_of hc (bind_of hd (bind_of hE (bind_of hH
        (bind_of (maskSet_ok s1 smask sE) (bind_of (maskSet_ok s2 smask sH) rfl)))))))
    refine ⟨_, hres, rfl, rfl, fun n p k q i hn hp hk hq hi => ?_⟩
    have hv5 := valid5 hn hp hk hq hi
    have hb : (j == L) = true := by simp [hjL]
    simp only [gE _ hv5, gH _ hv5, hb, orderP_out_E, orderP_out_H]
    exact ⟨rfl, rfl⟩
  · obtain ⟨E, hE, fE⟩ := mul pEn (sub (add (sub (mul fc.ok Mo1.ok) (mul (mul pj fd.ok) Ne1.ok)) (mul (mul pj fa.ok) Ne3.ok))
      (mul fb.ok Mo3.ok))
    obtain ⟨H, hH, fH⟩ := mul (mul (hm.map fun x => -x).ok pEn) (sub (sub (add (mul fd.ok Me1.ok) (mul (mul pj fc.ok) No1.ok))
      (mul (mul pj fb.ok) No3.ok)) (mul fa.ok Me3.ok))
    obtain ⟨sE, gE⟩ := (fE.mono (b := [N, P, K, Q, 3]) (by simp [join, joinR, hj2]) fun _ _ => rfl).full
    obtain ⟨sH, gH⟩ := (fH.mono (b := [N, P, K, Q, 3]) (by simp [join, joinR, hj1, hj2]) fun _ _ => rfl).full
    have hres : regionPassT E0 N L j a b c d nMed v1 v3 mask st =
        .ok (⟨[N, P, K, Q, 3], fun idx => if mask.get idx then E.get idx else st.1.get idx⟩,
          ⟨[N, P, K, Q, 3], fun idx => if mask.get idx then H.get idx else st.2.get idx⟩) := by
      unfold regionPassT
      simp only [if_neg hjL]
      exact bind_of ha (bind_of hb (bind_of hc (bind_of hd (bind_of hE (bind_of hH
        (bind_of (maskSet_ok s1 smask sE) (bind_of (maskSet_ok s2 smask sH) rfl)))))))
    refine ⟨_, hres, rfl, rfl, fun n p k q i hn hp hk hq hi => ?_⟩
    have hv5 := valid5 hn hp hk hq hi
    have hb : (j == L) = false := by simp [hjL]
    simp only [gE _ hv5, gH _ hv5, hb, orderP_in_E, orderP_in_H]
    exact ⟨rfl, rfl⟩

end pass

/-! ## All regions -/

theorem maskedAssign_comp (ms : List Bool) (vs : List (V3 ℂ)) (i : ℕ) :
    (maskedAssign V3.zero ms vs).comp i = maskedAssign 0 ms (vs.map fun v => v.comp i) := by
  unfold maskedAssign
  have key : ∀ (ms : List Bool) (vs : List (V3 ℂ)) (acc : V3 ℂ), ((ms.zip vs).foldl (fun acc mv => if mv.1 then mv.2 else acc) acc).comp i =
      (ms.zip (vs.map fun v => v.comp i)).foldl (fun acc mv => if mv.1 then mv.2 else acc) (acc.comp i) := by
    intro ms vs
    induction vs generalizing ms with
    | nil => intro acc; simp
    | cons v vs ih =>
      intro acc
      cases ms with
      | nil => rfl
      | cons m ms =>
        cases m
        · exact ih ms acc
        · exact ih ms v
  rw [key, comp_zero]

theorem foldPass {N P K Q L : ℕ} {step : ℕ → Ten ℂ × Ten ℂ → Py (Ten ℂ × Ten ℂ)} {mask : ℕ → ℕ → ℕ → ℕ → Bool}
    {f : ℕ → ℕ → ℕ → ℕ → ℕ → V3 ℂ × V3 ℂ}
    (h : ∀ j, j < L → ∀ st : Ten ℂ × Ten ℂ, st.1.shape = [N, P, K, Q, 3] → st.2.shape = [N, P, K, Q, 3] →
      ∃ st', step j st = .ok st' ∧ st'.1.shape = [N, P, K, Q, 3] ∧ st'.2.shape = [N, P, K, Q, 3] ∧
        ∀ n p k q i, n < N → p < P → k < K → q < Q → i < 3 →
          st'.1.get [n, p, k, q, i] = (if mask j p k q then (f j n p k q).1.comp i else st.1.get [n, p, k, q, i]) ∧
          st'.2.get [n, p, k, q, i] = (if mask j p k q then (f j n p k q).2.comp i else st.2.get [n, p, k, q, i])) :
    ∃ st', (List.range L).foldlM (fun st j => step j st) ((⟨[N, P, K, Q, 3], fun _ => 0⟩, ⟨[N, P, K, Q, 3], fun _ => 0⟩) : Ten ℂ × Ten ℂ) =
      .ok st' ∧ st'.1.shape = [N, P, K, Q, 3] ∧ st'.2.shape = [N, P, K, Q, 3] ∧
        ∀ n p k q i, n < N → p < P → k < K → q < Q → i < 3 →
          st'.1.get [n, p, k, q, i] = (maskedAssign V3.zero ((List.range L).map fun j => mask j p k q)
            ((List.range L).map fun j => (f j n p k q).1)).comp i ∧
          st'.2.get [n, p, k, q, i] = (maskedAssign V3.zero ((List.range L).map fun j => mask j p k q)
            ((List.range L).map fun j => (f j n p k q).2)).comp i := by
  induction L with
  | zero =>
    refine ⟨_, rfl, rfl, rfl, fun n p k q i _ _ _ _ _ => ?_⟩
    simp [maskedAssign, comp_zero]
  | succ L ih =>
    obtain ⟨st, h1, s1, s2, v⟩ := ih fun j hj => h j (by omega)
    obtain ⟨st', h1', s1', s2', v'⟩ := h L (by omega) st s1 s2
    refine ⟨st', ?_, s1', s2', fun n p k q i hn hp hk hq hi => ?_⟩
    · rw [List.range_succ, List.foldlM_append, h1]
      exact bind_of rfl (bind_of h1' rfl)
    · obtain ⟨e1, e2⟩ := v' n p k q i hn hp hk hq hi
      obtain ⟨d1, d2⟩ := v n p k q i hn hp hk hq hi
      rw [e1, e2, d1, d2]
      simp only [List.range_succ, List.map_append, List.map_cons, List.map_nil, maskedAssign]
      rw [List.zip_append (by simp), List.zip_append (by simp)]
      simp only [List.foldl_append, List.zip_cons_cons, List.zip_nil_left, List.foldl_cons, List.foldl_nil]
      constructor <;> split_ifs <;> rfl

/-! ## The whole branch -/

theorem fits_medium {N P K Q M : ℕ} (hM : M = 1 ∨ M = P) {t : Ten ℂ} (h : t.shape = [M, K]) {g : ℕ → ℕ → ℂ}
    (hg : ∀ p k, p < P → k < K → t.get [bi M p, k] = g p k) :
    Fits [N, P, K, Q, 3] t.outer [1, M, K, 1, 1] fun idx => g (idx.getD 1 0) (idx.getD 2 0) := by
  refine ⟨by simp [Ten.outer, Ten.unsqueeze, h], by simp [CompatR, hM], ?_⟩
  intro idx hi
  obtain ⟨n, p, k, q, j, rfl, hn, hp, hk, hq, hj⟩ := valid5_inv hi
  simp only [List.getD_cons_zero, List.getD_cons_succ]
  rw [← hg p k hp hk]
  simp [Ten.outer, Ten.unsqueeze, h, Ten.bIdx, bi_lt hk]

set_option maxHeartbeats 1600000 in
theorem penaFieldsFrom_ok {o : BatchOut} (w : o.WF) (v : o.Vals) {Q : ℕ} {r theta phi : Ten ℝ} (hr : r.shape = [Q])
    (ht : theta.shape = [Q]) (hf : phi.shape = [Q]) (E0 : ℂ) (epsilon : ℝ) :
    ∃ F, penaFieldsFrom o r theta phi E0 epsilon = .ok F ∧
      F.Ei.shape = [o.b.nPart, o.b.nK, Q, 3] ∧ F.Hi.shape = [o.b.nPart, o.b.nK, Q, 3] ∧ F.Es.shape = [o.b.nPart, o.b.nK, Q, 3] ∧
      F.Hs.shape = [o.b.nPart, o.b.nK, Q, 3] ∧ F.Et.shape = [o.b.nPart, o.b.nK, Q, 3] ∧ F.Ht.shape = [o.b.nPart, o.b.nK, Q, 3] ∧
      ∀ p k q j, p < o.b.nPart → k < o.b.nK → q < Q → j < 3 →
        let P := o.b.particle p k
        let s : V3 ℝ := ⟨r.get [q], theta.get [q], phi.get [q]⟩
        let f := fieldP (codeFn o.nMax.toNat) o.nMax.toNat (o.ext p k) P E0 s epsilon
        let ms := regionMasks P.rLayers s.c0
        let Es := sumCart s.c1 s.c2 ((List.range o.nMax.toNat).map fun i =>
          maskedAssign V3.zero ms ((List.range (P.rLayers.length + 1)).map fun j => (f j i).1))
        let Hs := sumCart s.c1 s.c2 ((List.range o.nMax.toNat).map fun i =>
          maskedAssign V3.zero ms ((List.range (P.rLayers.length + 1)).map fun j => (f j i).2))
        let Ei := incidentE E0 (P.k0 * csqrt P.epsEnv) s.c0 s.c1
        let Hi := incidentH E0 (P.k0 * csqrt P.epsEnv) (csqrt P.epsEnv) s.c0 s.c1
        F.Ei.get [p, k, q, j] = Ei.comp j ∧ F.Hi.get [p, k, q, j] = Hi.comp j ∧ F.Es.get [p, k, q, j] = Es.comp j ∧
        F.Hs.get [p, k, q, j] = Hs.comp j ∧
        F.Et.get [p, k, q, j] = (if ms.getLastD false then Es.add Ei else Es).comp j ∧
        F.Ht.get [p, k, q, j] = (if ms.getLastD false then Hs.add Hi else Hs).comp j := by
  have hnp : o.b.r.shape.headD 0 = o.b.nPart := by rw [w.b.r]; rfl
  have hnk : o.b.k0.shape.getD 1 0 = o.b.nK := by rw [w.b.k0]; rfl
  have hL : o.b.r.shape.getD 1 0 = o.b.nLayers := by rw [w.b.r]; rfl
  have hn1 : 1 ≤ o.nMax.toNat := by have := w.n; omega
  obtain ⟨a, b, c, d, habcd, sa, sb, sc, sd, vabcd⟩ := regionArraysT_ok w v
  generalize hN : o.nMax.toNat = N at *
  generalize hP : o.b.nPart = P at *
  generalize hK : o.b.nK = K at *
  generalize hLL : o.b.nLayers = L at *
  have wk0 : o.b.k0.shape = [1, K] := by rw [w.b.k0, hK]
  have wk : o.k.shape = [1, K] := by rw [w.k, hK]
  have wr : o.b.r.shape = [P, L] := by rw [w.b.r, hP, hLL]
  have weps : o.b.eps.shape = [P, L, K] := by rw [w.b.eps, hP, hLL, hK]
  have wenv : o.nEnv.shape = [1, K] := by rw [v.nEnv]; exact w.b.env.trans (by rw [hK])
  have hLpos : 0 < L := by rw [← hLL]; exact v.layers
  have lrs : ∀ p k, (o.b.particle p k).rLayers.length = L := fun p k => by simp [Bcast.particle, hLL]
  have les : ∀ p k, (o.b.particle p k).epsLayers.length = L := fun p k => by simp [Bcast.particle, hLL]
  -- media
  have hlay : ∀ li, ∃ t, li < L → (o.b.eps.map csqrt).select 1 li = .ok t ∧ t.shape = [P, K] ∧
      ∀ p k, t.get [p, k] = csqrt (o.b.eps.get [p, li, k]) := by
    intro li
    by_cases hl : li < L
    · obtain ⟨t, h1, h2, h3⟩ := select1 (t := o.b.eps.map csqrt) weps hl
      exact ⟨t, fun _ => ⟨h1, h2, fun p k => h3 p k⟩⟩
    · exact ⟨o.nEnv, fun h => absurd h hl⟩
  choose lay hlay using hlay
  set med : ℕ → Ten ℂ := fun j => if j < L then (lay j).outer else o.nEnv.outer with hmed
  set A : ℕ → ℕ := fun j => if j < L then P else 1 with hA
  have hA1 : ∀ j, A j = 1 ∨ A j = P := fun j => by
    simp only [hA]
    split_ifs
    · exact .inr rfl
    · exact .inl rfl
  have fmed : ∀ j, j < L + 1 → Fits [N, P, K, Q, 3] (med j) [1, A j, K, 1, 1] fun idx =>
      mediumOf (o.b.particle (idx.getD 1 0) (idx.getD 2 0)) j := by
    intro j hj
    by_cases hl : j < L
    · obtain ⟨h1, h2, h3⟩ := hlay j hl
      simp only [hmed, hA, if_pos hl]
      refine fits_medium (.inr rfl) h2 (g := fun p k => mediumOf (o.b.particle p k) j) fun p k hp hk => ?_
      rw [bi_lt hp, h3]
      unfold mediumOf
      rw [List.getD_eq_getElem?_getD, List.getElem?_append_left (by rw [List.length_map, les]; exact hl)]
      simp [Bcast.particle, hLL, hl]
    · simp only [hmed, hA, if_neg hl]
      refine fits_medium (.inl rfl) wenv (g := fun p k => mediumOf (o.b.particle p k) j) fun p k hp hk => ?_
      rw [bi_one, v.nEnv]
      unfold mediumOf
      obtain rfl : j = L := by omega
      rw [List.getD_eq_getElem?_getD, List.getElem?_append_right (by rw [List.length_map, les]), List.length_map, les]
      simp [Bcast.particle, Ten.map]
  -- harmonics
  have fr := fits_pos (N := N) (P := P) (K := K) hr
  have fth := fits_pos (N := N) (P := P) (K := K) ht
  have fk0 := fits_outer (N := N) (P := P) (Q := Q) wk0
  have fk := fits_outer (N := N) (P := P) (Q := Q) wk
  have fnE := fits_outer (N := N) (P := P) (Q := Q) wenv
  have frc := fr.map fun v : ℝ => (v : ℂ)
  have mul {x y : Py (Ten ℂ)} {a b : List ℕ} {g h : List ℕ → ℂ} (hx : PFits [N, P, K, Q, 3] x a g)
    (hy : PFits [N, P, K, Q, 3] y b h) := hx.opP (fun x y : ℂ => x * y) hy
  have hvsh : ∀ j, ∃ q : VshT × VshT, j < L + 1 →
      vshPenaT N o.b.k0.outer (med j) r.posAxes theta.posAxes phi.posAxes 1 epsilon = .ok q.1 ∧
      vshPenaT N o.b.k0.outer (med j) r.posAxes theta.posAxes phi.posAxes 3 epsilon = .ok q.2 ∧
      VshFits N P K Q (A j) q.1 (fun idx => vshPenaVal (codeFn N) N (idx.getD 0 0) 1 (theta.get [idx.getD 3 0])
        (phi.get [idx.getD 3 0]) (o.b.k0.get [0, idx.getD 2 0] * mediumOf (o.b.particle (idx.getD 1 0) (idx.getD 2 0)) j *
          (r.get [idx.getD 3 0] : ℂ) + epsilon)) ∧
      VshFits N P K Q (A j) q.2 (fun idx => vshPenaVal (codeFn N) N (idx.getD 0 0) 3 (theta.get [idx.getD 3 0])
        (phi.get [idx.getD 3 0]) (o.b.k0.get [0, idx.getD 2 0] * mediumOf (o.b.particle (idx.getD 1 0) (idx.getD 2 0)) j *
          (r.get [idx.getD 3 0] : ℂ) + epsilon)) := by
    intro j
    by_cases hj : j < L + 1
    swap
    · exact ⟨(⟨o.a, o.a, o.a, o.a⟩, ⟨o.a, o.a, o.a, o.a⟩), fun h => absurd h hj⟩
    have hrho := (mul (mul fk0.ok (fmed j hj).ok) frc.ok).mono (b := [1, A j, K, Q, 1]) (by simp [join, joinR]) fun _ _ => rfl
    obtain ⟨V1, h1, a1, b1, c1, d1⟩ := vshPenaT_fits hn1 (hA1 j) hr ht hf (kind := 1) (.inl rfl) epsilon hrho
    obtain ⟨V3, h3, a3, b3, c3, d3⟩ := vshPenaT_fits hn1 (hA1 j) hr ht hf (kind := 3) (.inr rfl) epsilon hrho
    exact ⟨(V1, V3), fun _ => ⟨h1, h3, ⟨a1, b1, c1, d1⟩, ⟨a3, b3, c3, d3⟩⟩⟩
  choose V hV using hvsh
  -- masks
  obtain ⟨M, hM, vM⟩ := masksT_ok hLpos wr hr
  have hbm : ∀ j, ∃ u, j < L + 1 → (((M j).unsqueeze 0).unsqueeze ((M j).unsqueeze 0).shape.length).broadcastTo [N, P, K, Q, 3] = .ok u ∧
      u.shape = [N, P, K, Q, 3] ∧ ∀ n p k q i, n < N → p < P → k < K → q < Q → i < 3 →
        u.get [n, p, k, q, i] = (regionMasks (o.b.particle p k).rLayers (r.get [q])).getD j false := by
    intro j
    by_cases hj : j < L + 1
    swap
    · exact ⟨M j, fun h => absurd h hj⟩
    obtain ⟨s, hs⟩ := vM j hj
    obtain ⟨u, h1, h2, h3⟩ := (fits_mask (N := N) (K := K) s (g := fun idx =>
      (regionMasks (o.b.particle (idx.getD 1 0) (idx.getD 2 0)).rLayers (r.get [idx.getD 3 0])).getD j false) (by
        intro n p k q i hp hq
        simp only [List.getD_cons_zero, List.getD_cons_succ]
        rw [hs p q hp hq, regionMasks_range, lrs, List.getD_eq_getElem?_getD, List.getElem?_map, List.getElem?_range hj]
        have hg : ∀ l, l < L → (o.b.particle p k).rLayers.getD l 0 = o.b.r.get [p, l] := fun l hl => by
          simp [Bcast.particle, hLL, hl]
        have hlast : (o.b.particle p k).rLayers.getLastD 0 = o.b.r.get [p, L - 1] := by
          rw [List.getLastD_eq_getLast?, List.getLast?_eq_getElem?, lrs]
          simp [Bcast.particle, hLL, show L - 1 < L by omega]
        simp only [Option.map_some, Option.getD_some, hlast]
        by_cases hl : j < L
        · simp only [if_pos hl]
          rw [hg 0 hLpos, hg j hl, hg (j - 1) (by omega)]
        · simp only [if_neg hl])).broadcastTo
    exact ⟨u, fun _ => ⟨h1, h2, fun n p k q i hn hp hk hq hi => h3 _ (valid5 hn hp hk hq hi)⟩⟩
  choose U hU using hbm
  -- loop
  obtain ⟨st, hst, s1, s2, vst⟩ := foldPass (N := N) (P := P) (K := K) (Q := Q) (L := L + 1)
    (step := fun j st => regionPassT E0 N L j a b c d (med j) (V j).1 (V j).2 (U j) st)
    (mask := fun j p k q => (regionMasks (o.b.particle p k).rLayers (r.get [q])).getD j false)
    (f := fun j n p k q => fieldP (codeFn N) N (o.ext p k) (o.b.particle p k) E0 ⟨r.get [q], theta.get [q], phi.get [q]⟩ epsilon j n)
    (by
      intro j hj st h1 h2
      obtain ⟨-, -, v1, v3⟩ := hV j hj
      obtain ⟨-, sU, vU⟩ := hU j hj
      obtain ⟨st', h3, h4, h5, h6⟩ := regionPassT_ok (hA1 j) hj sa sb sc sd
        (fun i p k hi hp hk => vabcd i p k j hi hp hk (by omega)) (med := fun p k => mediumOf (o.b.particle p k) j) (fmed j hj)
        (k0 := fun k => o.b.k0.get [0, k]) (r := fun q => r.get [q]) (theta := fun q => theta.get [q])
        (phi := fun q => phi.get [q]) v1 v3 sU E0 h1 h2
      refine ⟨st', h3, h4, h5, fun n p k q i hn hp hk hq hi => ?_⟩
      have := h6 n p k q i hn hp hk hq hi
      simp only [vU n p k q i hn hp hk hq hi] at this
      have e : (j == L) = (j == (o.b.particle p k).rLayers.length) := by rw [lrs]
      unfold fieldP
      rw [← e]
      exact this)
  obtain ⟨Es, hEs, sEs, gEs⟩ := cartSum_eq s1 ht hf
  obtain ⟨Hs, hHs, sHs, gHs⟩ := cartSum_eq s2 ht hf
  -- incident fields
  have pj := (fits_scalar (N := N) (P := P) (K := K) (Q := Q) I).ok
  obtain ⟨ph, hph, fph⟩ := mul (mul (mul pj fk.ok) frc.ok) ((fth.map Real.cos).map fun v : ℝ => (v : ℂ)).ok
  have fwave := fph.map Complex.exp
  obtain ⟨ei, hei, fei⟩ := mul (fits_scalar (N := N) (P := P) (K := K) (Q := Q) E0).ok fwave.ok
  obtain ⟨hi, hhi, fhi⟩ := mul (mul (fits_scalar (N := N) (P := P) (K := K) (Q := Q) E0).ok fnE.ok) fwave.ok
  have sei : ei.shape = [1, 1, K, Q, 1] := by rw [fei.shape]; simp [join, joinR]
  have shi : hi.shape = [1, 1, K, Q, 1] := by rw [fhi.shape]; simp [join, joinR]
  obtain ⟨ei0, hei0, sei0, gei0⟩ := selLast5 sei (i := 0) (by omega)
  obtain ⟨hi0, hhi0, shi0, ghi0⟩ := selLast5 shi (i := 0) (by omega)
  obtain ⟨Ei, hEi, sEi, gEi⟩ := setComp_ok (P := P) (c := 0) sei0
  obtain ⟨Hi, hHi, sHi, gHi⟩ := setComp_ok (P := P) (c := 1) shi0
  obtain ⟨out, hout, sout, gout⟩ : ∃ u, (U L).select 0 0 = .ok u ∧ u.shape = [P, K, Q, 3] ∧
      ∀ p k q j, u.get [p, k, q, j] = (U L).get [0, p, k, q, j] := by
    refine ⟨⟨[P, K, Q, 3], fun idx => (U L).get (idx.insertIdx 0 0)⟩, ?_, rfl, fun p k q j => by simp⟩
    unfold Ten.select
    simp [(hU L (by omega)).2.1, show 0 < N by omega]
  have hmedia : (List.range L).map (fun li => (lay li).outer) ++ [o.nEnv.outer] = (List.range (L + 1)).map med := append_range _ _ _
  have hres : penaFieldsFrom o r theta phi E0 epsilon = .ok ⟨Ei, Hi, Es, Hs,
      ⟨[P, K, Q, 3], fun idx => if out.get idx then Es.get idx + Ei.get idx else Es.get idx⟩,
      ⟨[P, K, Q, 3], fun idx => if out.get idx then Hs.get idx + Hi.get idx else Hs.get idx⟩⟩ := by
    unfold penaFieldsFrom
    simp only [hL, hN, hnp, hnk, ht]
    refine bind_of habcd (bind_of rfl (bind_of (mapM_ok _ _ (fun li => (lay li).outer) fun li hli =>
      bind_of (hlay li (List.mem_range.1 hli)).1 rfl) ?_))
    rw [hmedia]
    refine bind_of (a := (List.range (L + 1)).map V) ?_ (bind_of hM (bind_of (a := (List.range (L + 1)).map U) ?_ ?_))
    · rw [List.mapM_map]
      exact mapM_ok _ _ V fun j hj => bind_of (hV j (List.mem_range.1 hj)).1 (bind_of (hV j (List.mem_range.1 hj)).2.1 rfl)
    · rw [List.mapM_map]
      exact mapM_ok _ _ U fun j hj => (hU j (List.mem_range.1 hj)).1
    have hz : (((List.range (L + 1)).zip ((List.range (L + 1)).map med)).zip
        (((List.range (L + 1)).map V).zip ((List.range (L + 1)).map U))) =
        (List.range (L + 1)).map fun j => ((j, med j), (V j, U j)) := by
      have : (List.range (L + 1)).zip ((List.range (L + 1)).map med) = (List.range (L + 1)).map fun j => (j, med j) := by
        conv_lhs => rw [show List.range (L + 1) = (List.range (L + 1)).map id by simp, List.map_map, List.zip_map']
        rfl
      rw [this, List.zip_map', List.zip_map']
    have hlastm : ((List.range (L + 1)).map U).getLast? = some (U L) := by simp [List.range_succ]
    rw [hz, List.foldlM_map]
    refine bind_of hst (bind_of hEs (bind_of hHs (bind_of hph (bind_of hei (bind_of hei0 (bind_of hEi (bind_of hhi (bind_of hhi0
      (bind_of hHi ?_)))))))))
    rw [hlastm]
    exact bind_of rfl (bind_of hout (bind_of (maskAdd_ok sEs sout sEi) (bind_of (maskAdd_ok sHs sout sHi) rfl)))
  refine ⟨_, hres, sEi, sHi, sEs, sHs, rfl, rfl, ?_⟩
  intro p k q j hp hk hq hj P' s f ms Es' Hs' Ei' Hi'
  have hk' : o.k.get [0, k] = P'.k0 * csqrt P'.epsEnv := v.k k (by rw [hK]; exact hk)
  have b1 (i : ℕ) : bi 1 i = 0 := by simp [bi]
  have v0 := valid5 (show 0 < N by omega) hp hk hq (show 0 < 3 by omega)
  have vei : ei.get [0, 0, k, q, 0] = E0 * Complex.exp (I * o.k.get [0, k] * (r.get [q] : ℂ) * (Real.cos (theta.get [q]) : ℂ)) := by
    have := fei.get _ v0
    simpa [Ten.bIdx, join, joinR, bi_lt hk, bi_lt hq, b1] using this
  have vhi : hi.get [0, 0, k, q, 0] = E0 * o.nEnv.get [0, k] *
      Complex.exp (I * o.k.get [0, k] * (r.get [q] : ℂ) * (Real.cos (theta.get [q]) : ℂ)) := by
    have := fhi.get _ v0
    simpa [Ten.bIdx, join, joinR, bi_lt hk, bi_lt hq, b1] using this
  have hmsr : ∀ L', L' = L + 1 → (List.range L').map (fun j => ms.getD j false) = ms := by
    rintro L' rfl
    have hl : ms.length = L + 1 := by simp [ms, regionMasks, P', lrs]
    refine List.ext_getElem (by simp [hl]) fun i h1 h2 => ?_
    simp [List.getD_eq_getElem?_getD, List.getElem?_eq_getElem h2]
  have hlastms : ms.getLastD false = out.get [p, k, q, j] := by
    rw [gout, (hU L (by omega)).2.2 0 p k q j (by omega) hp hk hq hj, List.getLastD_eq_getLast?, List.getLast?_eq_getElem?,
      List.getD_eq_getElem?_getD]
    have hl : ms.length = L + 1 := by simp [ms, regionMasks, P', lrs]
    rw [hl]
    rfl
  have tri : ∀ u : V3 ℂ, (⟨u.comp 0, u.comp 1, u.comp 2⟩ : V3 ℂ) = u := fun u => rfl
  have eE : Es.get [p, k, q, j] = Es'.comp j := by
    rw [gEs p k q j hp hk hq hj]
    show V3.comp (sumCart s.c1 s.c2 _) j = _
    congr 2
    refine List.map_congr_left fun n hn => ?_
    have hn := List.mem_range.1 hn
    rw [(vst n p k q 0 hn hp hk hq (by omega)).1, (vst n p k q 1 hn hp hk hq (by omega)).1, (vst n p k q 2 hn hp hk hq (by omega)).1,
      tri, hmsr _ rfl]
    simp only [P', lrs]
    rfl
  have eH : Hs.get [p, k, q, j] = Hs'.comp j := by
    rw [gHs p k q j hp hk hq hj]
    show V3.comp (sumCart s.c1 s.c2 _) j = _
    congr 2
    refine List.map_congr_left fun n hn => ?_
    have hn := List.mem_range.1 hn
    rw [(vst n p k q 0 hn hp hk hq (by omega)).2, (vst n p k q 1 hn hp hk hq (by omega)).2, (vst n p k q 2 hn hp hk hq (by omega)).2,
      tri, hmsr _ rfl]
    simp only [P', lrs]
    rfl
  have eEi : Ei.get [p, k, q, j] = Ei'.comp j := by
    rw [gEi p k q j hp hk hq, gei0, vei, hk']
    simp only [Ei', incidentE, V3.comp]
    interval_cases j <;> simp [s]
  have eHi : Hi.get [p, k, q, j] = Hi'.comp j := by
    rw [gHi p k q j hp hk hq, ghi0, vhi, hk', v.nEnv]
    simp only [Hi', incidentH, V3.comp]
    interval_cases j <;> simp [s, P', Bcast.particle, Ten.map]
  refine ⟨eEi, eHi, eE, eH, ?_, ?_⟩
  · simp only [hlastms, eE, eEi]
    split_ifs
    · rw [comp_add]
    · rfl
  · simp only [hlastms, eH, eHi]
    split_ifs
    · rw [comp_add]
    · rfl

end MieDiff
