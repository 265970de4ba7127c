import Verif.Model.NearPena
import Verif.Proofs.NearTorch
import Verif.Proofs.NearField

/-!
# Entries of the batched pena near fields
-/

namespace MieDiff

open Complex Ten

/-- The truncated `D1` of the code as a function of the argument and the order. -/
noncomputable def codeFn (n : ℕ) (z : ℂ) : ℕ → ℂ := d1Val (guardAdd solverEps z) solverEps (n + 15)

theorem codeFn_fun (n : ℕ) : KernelFun codeD1 n (codeFn n) := codeD1_fun n

theorem mapE_inv {α β : Type} {f : α → β} {x : Py α} {b : β} (h : Except.map f x = .ok b) : ∃ a, x = .ok a ∧ f a = b := by
  rcases x with e | a
  · cases h
  · exact ⟨a, rfl, by injection h⟩

theorem evalL_tab {ι : Type} {l : List (ι → ℂ)} {n : ℕ} {f : ι → ℕ → ℂ} (i0 : ι) (h : ∀ i, evalL i l = tab n (f i)) :
    l.length = n + 1 ∧ ∀ i j, j ≤ n → (l.getD j fun _ => 0) i = f i j := by
  refine ⟨by rw [← evalL_length i0, h i0, tab_length], fun i j hj => ?_⟩
  have : (evalL i l).getD j 0 = f i j := by rw [h i, tab_getD hj]
  rw [← this]
  exact ordAt_eval l j i

theorem kernelsT_ok (n : ℕ) (z : Ten ℂ) :
    ∃ D1 D3 psi zeta, kernelsT n z = .ok (D1, D3, psi, zeta) ∧ D1.shape = (n + 1) :: z.shape ∧
      D3.shape = (n + 1) :: z.shape ∧ psi.shape = (n + 1) :: z.shape ∧ zeta.shape = (n + 1) :: z.shape ∧
      ∀ idx i, i ≤ n → D1.get (i :: idx) = codeFn n (z.get idx) i ∧ D3.get (i :: idx) = d3Fn (codeFn n) (z.get idx) i ∧
        psi.get (i :: idx) = psiFn (codeFn n) (z.get idx) i ∧ zeta.get (i :: idx) = zetaFn (codeFn n) (z.get idx) i := by
  have e1 : ∀ i, Except.map (evalL i) (penaD1T n z.get) = .ok (tab n (codeFn n (z.get i))) := fun i => by
    rw [penaD1T_eval]
    exact codeFn_fun n _
  obtain ⟨D1, h1, -⟩ := mapE_inv (e1 [])
  have e1' : ∀ i, evalL i D1 = tab n (codeFn n (z.get i)) := fun i => by
    have := e1 i
    rw [h1] at this
    injection this
  have e3 : ∀ i, Except.map (evalL i) (penaD3T n z.get D1) = .ok (tab n (d3Fn (codeFn n) (z.get i))) := fun i => by
    rw [penaD3T_eval, e1' i, penaD3_eq]
    rfl
  obtain ⟨D3, h3, -⟩ := mapE_inv (e3 [])
  have e3' : ∀ i, evalL i D3 = tab n (d3Fn (codeFn n) (z.get i)) := fun i => by
    have := e3 i
    rw [h3] at this
    injection this
  have e4 : ∀ i, Except.map (fun q => (evalL i q.1, evalL i q.2)) (penaPsiZetaT n z.get D1 D3) =
      .ok (tab n (psiFn (codeFn n) (z.get i)), tab n (zetaFn (codeFn n) (z.get i))) := fun i => by
    rw [penaPsiZetaT_eval, e1' i, e3' i, penaPsiZeta_eq]
    rfl
  obtain ⟨⟨psi, zeta⟩, h4, -⟩ := mapE_inv (e4 [])
  have e4' : ∀ i, evalL i psi = tab n (psiFn (codeFn n) (z.get i)) ∧ evalL i zeta = tab n (zetaFn (codeFn n) (z.get i)) := fun i => by
    have := e4 i
    rw [h4] at this
    injection this with this
    exact Prod.mk.inj this
  obtain ⟨l1, v1⟩ := evalL_tab [] e1'
  obtain ⟨l3, v3⟩ := evalL_tab [] e3'
  obtain ⟨l5, v5⟩ := evalL_tab [] fun i => (e4' i).1
  obtain ⟨l6, v6⟩ := evalL_tab [] fun i => (e4' i).2
  refine ⟨_, _, _, _, bind_of h1 (bind_of h3 (bind_of (by rw [Int.toNat_natCast]; exact h4) rfl)), ?_, ?_, ?_, ?_, fun idx i hi => ⟨?_, ?_, ?_, ?_⟩⟩
  · simp [Ten.stackList, l1]
  · simp [Ten.stackList, l3]
  · simp [Ten.stackList, l5]
  · simp [Ten.stackList, l6]
  · exact v1 idx i hi
  · exact v3 idx i hi
  · exact v5 idx i hi
  · exact v6 idx i hi

/-! ## Three axes: order, particle, wavenumber -/

theorem valid3 {i p k N P K : ℕ} (hn : i < N) (hp : p < P) (hk : k < K) : List.Forall₂ (· < ·) [i, p, k] [N, P, K] := by
  simp [hn, hp, hk]

theorem valid3_inv {idx : List ℕ} {N P K : ℕ} (h : List.Forall₂ (· < ·) idx [N, P, K]) :
    ∃ n p k, idx = [n, p, k] ∧ n < N ∧ p < P ∧ k < K := by
  rcases h with _ | ⟨h1, _ | ⟨h2, _ | ⟨h3, _ | _⟩⟩⟩
  exact ⟨_, _, _, rfl, h1, h2, h3⟩

theorem fits_three {α : Type} {t : Ten α} {N P K : ℕ} (h : t.shape = [N, P, K]) {g : List ℕ → α}
    (hg : ∀ i p k, i < N → p < P → k < K → t.get [i, p, k] = g [i, p, k]) : Fits [N, P, K] t [N, P, K] g := by
  refine ⟨h, by simp [CompatR], ?_⟩
  intro idx hi
  obtain ⟨n, p, k, rfl, hn, hp, hk⟩ := valid3_inv hi
  rw [← hg n p k hn hp hk]
  simp [Ten.bIdx, bi_lt hk, bi_lt hp, bi_lt hn]

theorem fits_two {α : Type} {t : Ten α} {N P K : ℕ} (h : t.shape = [P, K]) :
    Fits [N, P, K] t [P, K] fun idx => t.get [idx.getD 1 0, idx.getD 2 0] := by
  refine ⟨h, by simp [CompatR], ?_⟩
  intro idx hi
  obtain ⟨n, p, k, rfl, hn, hp, hk⟩ := valid3_inv hi
  simp [Ten.bIdx, bi_lt hk, bi_lt hp]

/-- The region coefficients at every particle and wavenumber. -/
structure RegionT.Rep (n P K : ℕ) (t : RegionT) (F : ℕ → ℕ → RegFn) : Prop where
  sa : t.a.shape = [n + 1, P, K]
  sb : t.b.shape = [n + 1, P, K]
  sc : t.c.shape = [n + 1, P, K]
  sd : t.d.shape = [n + 1, P, K]
  val : ∀ i p k, i < n + 1 → p < P → k < K → t.a.get [i, p, k] = (F p k).a i ∧ t.b.get [i, p, k] = (F p k).b i ∧
    t.c.get [i, p, k] = (F p k).c i ∧ t.d.get [i, p, k] = (F p k).d i

theorem two_mul {P K : ℕ} {s t : Ten ℂ} (f : ℂ → ℂ → ℂ) (hs : s.shape = [P, K]) (ht : t.shape = [P, K]) :
    ∃ u, Ten.opP f (.ok s) (.ok t) = .ok u ∧ u.shape = [P, K] ∧
      ∀ p k, p < P → k < K → u.get [p, k] = f (s.get [p, k]) (t.get [p, k]) := by
  have hsh : bShapeRev [K, P] [K, P] = .ok [K, P] := by
    rw [(show CompatR [K, P] [K, P] by simp [CompatR]).bShapeRev (show CompatR [K, P] [K, P] by simp [CompatR])]
    simp [joinR]
  have hs' := op2_ok f s t (sh := [P, K]) (by
    rw [hs, ht]
    exact bind_of hsh rfl)
  refine ⟨_, hs', rfl, fun p k hp hk => ?_⟩
  simp [hs, ht, Ten.bIdx, bi_lt hp, bi_lt hk]

set_option maxHeartbeats 800000 in
theorem nfStepT_ok {n P K : ℕ} {ml mlp1 xl : Ten ℂ} (h1 : ml.shape = [P, K]) (h2 : mlp1.shape = [P, K]) (h3 : xl.shape = [P, K])
    (isCore : Bool) {nxt : RegionT} {F : ℕ → ℕ → RegFn} (hr : nxt.Rep n P K F) :
    ∃ t, nfStepT n ml mlp1 xl isCore nxt = .ok t ∧ t.Rep n P K fun p k =>
      nfStepFn (codeFn n) (ml.get [p, k]) (mlp1.get [p, k]) (xl.get [p, k]) isCore (F p k) := by
  obtain ⟨zl, hzl, szl, vzl⟩ := two_mul (fun x y : ℂ => x * y) h1 h3
  obtain ⟨zn, hzn, szn, vzn⟩ := two_mul (fun x y : ℂ => x * y) h2 h3
  obtain ⟨mr, hmr, smr, vmr⟩ := two_mul (fun x y : ℂ => x / y) h1 h2
  obtain ⟨D1, D3, psi, zeta, hk, s1, s3, s5, s6, v⟩ := kernelsT_ok n zl
  obtain ⟨D1N, D3N, psiN, zetaN, hkN, s1N, s3N, s5N, s6N, vN⟩ := kernelsT_ok n zn
  rw [szl] at s1 s3 s5 s6
  rw [szn] at s1N s3N s5N s6N
  have three {t : Ten ℂ} (h : t.shape = [n + 1, P, K]) (g : ℕ → ℕ → ℕ → ℂ)
      (hg : ∀ i p k, i < n + 1 → p < P → k < K → t.get [i, p, k] = g i p k) :
      PFits [n + 1, P, K] (.ok t) [n + 1, P, K] fun idx => g (idx.getD 0 0) (idx.getD 1 0) (idx.getD 2 0) :=
    (fits_three h (g := fun idx => g (idx.getD 0 0) (idx.getD 1 0) (idx.getD 2 0)) hg).ok
  have pa := three hr.sa (fun i p k => (F p k).a i) fun i p k hi hp hk => (hr.val i p k hi hp hk).1
  have pb := three hr.sb (fun i p k => (F p k).b i) fun i p k hi hp hk => (hr.val i p k hi hp hk).2.1
  have pc := three hr.sc (fun i p k => (F p k).c i) fun i p k hi hp hk => (hr.val i p k hi hp hk).2.2.1
  have pd := three hr.sd (fun i p k => (F p k).d i) fun i p k hi hp hk => (hr.val i p k hi hp hk).2.2.2
  have pD1 := three s1 (fun i p k => codeFn n (ml.get [p, k] * xl.get [p, k]) i) fun i p k hi hp hk => by
    rw [(v _ i (by omega)).1, vzl p k hp hk]
  have pD3 := three s3 (fun i p k => d3Fn (codeFn n) (ml.get [p, k] * xl.get [p, k]) i) fun i p k hi hp hk => by
    rw [(v _ i (by omega)).2.1, vzl p k hp hk]
  have ppsi := three s5 (fun i p k => psiFn (codeFn n) (ml.get [p, k] * xl.get [p, k]) i) fun i p k hi hp hk => by
    rw [(v _ i (by omega)).2.2.1, vzl p k hp hk]
  have pzeta := three s6 (fun i p k => zetaFn (codeFn n) (ml.get [p, k] * xl.get [p, k]) i) fun i p k hi hp hk => by
    rw [(v _ i (by omega)).2.2.2, vzl p k hp hk]
  have pD1N := three s1N (fun i p k => codeFn n (mlp1.get [p, k] * xl.get [p, k]) i) fun i p k hi hp hk => by
    rw [(vN _ i (by omega)).1, vzn p k hp hk]
  have pD3N := three s3N (fun i p k => d3Fn (codeFn n) (mlp1.get [p, k] * xl.get [p, k]) i) fun i p k hi hp hk => by
    rw [(vN _ i (by omega)).2.1, vzn p k hp hk]
  have ppsiN := three s5N (fun i p k => psiFn (codeFn n) (mlp1.get [p, k] * xl.get [p, k]) i) fun i p k hi hp hk => by
    rw [(vN _ i (by omega)).2.2.1, vzn p k hp hk]
  have pzetaN := three s6N (fun i p k => zetaFn (codeFn n) (mlp1.get [p, k] * xl.get [p, k]) i) fun i p k hi hp hk => by
    rw [(vN _ i (by omega)).2.2.2, vzn p k hp hk]
  have pmr : PFits [n + 1, P, K] (.ok mr) [P, K] fun idx => ml.get [idx.getD 1 0, idx.getD 2 0] / mlp1.get [idx.getD 1 0, idx.getD 2 0] :=
    ((fits_two (N := n + 1) smr).mono rfl (by
      intro idx hi
      obtain ⟨i, p, k, rfl, hi, hp, hk⟩ := valid3_inv hi
      exact vmr p k hp hk)).ok
  have mul {x y : Py (Ten ℂ)} {a b : List ℕ} {g h : List ℕ → ℂ} (hx : PFits [n + 1, P, K] x a g)
    (hy : PFits [n + 1, P, K] y b h) := hx.opP (fun x y : ℂ => x * y) hy
  have div {x y : Py (Ten ℂ)} {a b : List ℕ} {g h : List ℕ → ℂ} (hx : PFits [n + 1, P, K] x a g)
    (hy : PFits [n + 1, P, K] y b h) := hx.opP (fun x y : ℂ => x / y) hy
  have add {x y : Py (Ten ℂ)} {a b : List ℕ} {g h : List ℕ → ℂ} (hx : PFits [n + 1, P, K] x a g)
    (hy : PFits [n + 1, P, K] y b h) := hx.opP (fun x y : ℂ => x + y) hy
  have sub {x y : Py (Ten ℂ)} {a b : List ℕ} {g h : List ℕ → ℂ} (hx : PFits [n + 1, P, K] x a g)
    (hy : PFits [n + 1, P, K] y b h) := hx.opP (fun x y : ℂ => x - y) hy
  obtain ⟨T1, hT1, fT1⟩ := sub (mul pa pzetaN) (mul pd ppsiN)
  obtain ⟨T2, hT2, fT2⟩ := sub (mul pb pzetaN) (mul pc ppsiN)
  obtain ⟨T3, hT3, fT3⟩ := sub (mul (mul pd pD1N) ppsiN) (mul (mul pa pD3N) pzetaN)
  obtain ⟨T4, hT4, fT4⟩ := sub (mul (mul pc pD1N) ppsiN) (mul (mul pb pD3N) pzetaN)
  obtain ⟨U, hU, fU⟩ := sub pD1 pD3
  obtain ⟨dA, hdA, fdA⟩ := mul pzeta fU.ok
  obtain ⟨dC, hdC, fdC⟩ := mul ppsi fU.ok
  have pdA := (fdA.map (guardAdd solverEps)).ok
  have pdC := (fdC.map (guardAdd solverEps)).ok
  obtain ⟨al, hal, fal⟩ := div (add (mul pD1 fT1.ok) (mul fT3.ok pmr)) pdA
  obtain ⟨bl, hbl, fbl⟩ := div (add (mul (mul pD1 fT2.ok) pmr) fT4.ok) pdA
  obtain ⟨cl, hcl, fcl⟩ := div (add (mul (mul pD3 fT2.ok) pmr) fT4.ok) pdC
  obtain ⟨dl, hdl, fdl⟩ := div (add (mul pD3 fT1.ok) (mul fT3.ok pmr)) pdC
  obtain ⟨sal, gal⟩ := (fal.mono (b := [n + 1, P, K]) (by simp [join, joinR]) fun _ _ => rfl).full
  obtain ⟨sbl, gbl⟩ := (fbl.mono (b := [n + 1, P, K]) (by simp [join, joinR]) fun _ _ => rfl).full
  obtain ⟨scl, gcl⟩ := (fcl.mono (b := [n + 1, P, K]) (by simp [join, joinR]) fun _ _ => rfl).full
  obtain ⟨sdl, gdl⟩ := (fdl.mono (b := [n + 1, P, K]) (by simp [join, joinR]) fun _ _ => rfl).full
  refine ⟨⟨if isCore then al.map fun _ => 0 else al, if isCore then bl.map fun _ => 0 else bl, cl, dl⟩, ?_, ?_⟩
  · unfold nfStepT
    exact bind_of hzl (bind_of hzn (bind_of hk (bind_of hkN (bind_of hT1 (bind_of hT2 (bind_of hT3 (bind_of hT4 (bind_of hU
      (bind_of hdA (bind_of hdC (bind_of hmr (bind_of hal (bind_of hbl (bind_of hcl (bind_of hdl rfl)))))))))))))))
  · refine ⟨?_, ?_, scl, sdl, ?_⟩
    · cases isCore <;> exact sal
    · cases isCore <;> exact sbl
    · intro i p k hi hp hk
      have hv := valid3 hi hp hk
      refine ⟨?_, ?_, gcl _ hv, gdl _ hv⟩
      · cases isCore
        · exact gal _ hv
        · rfl
      · cases isCore
        · exact gbl _ hv
        · rfl

/-! ## All regions -/

theorem select1 {α : Type} {t : Ten α} {P L K l : ℕ} (h : t.shape = [P, L, K]) (hl : l < L) :
    ∃ u, t.select 1 l = .ok u ∧ u.shape = [P, K] ∧ ∀ p k, u.get [p, k] = t.get [p, l, k] := by
  refine ⟨⟨[P, K], fun idx => t.get (idx.insertIdx 1 l)⟩, ?_, rfl, fun p k => by simp⟩
  unfold Ten.select
  simp [h, hl]

/-- Relative indices and size parameters of the layers of one particle at one wavenumber. -/
def layersAt (mExt x : Ten ℂ) (L p k : ℕ) : List (ℂ × ℂ) := (List.range L).map fun l => (mExt.get [p, l, k], x.get [p, l, k])

/-- Region `j` of one particle at one wavenumber. -/
noncomputable def regionAt (n : ℕ) (ext : ℕ → ℕ → RegFn) (mExt x : Ten ℂ) (L j p k : ℕ) : RegFn :=
  nfFn (codeFn n) (ext p k) (j == 0) ((layersAt mExt x L p k).drop j)

theorem regionAt_step (n : ℕ) (ext : ℕ → ℕ → RegFn) (mExt x : Ten ℂ) {L m p k : ℕ} (hm : m < L) (hlast : mExt.get [p, L, k] = 1) :
    regionAt n ext mExt x L m p k = nfStepFn (codeFn n) (mExt.get [p, m, k]) (mExt.get [p, m + 1, k]) (x.get [p, m, k]) (m == 0)
      (regionAt n ext mExt x L (m + 1) p k) := by
  have hl : (layersAt mExt x L p k).length = L := by simp [layersAt]
  have hd : (layersAt mExt x L p k).drop m = (mExt.get [p, m, k], x.get [p, m, k]) :: (layersAt mExt x L p k).drop (m + 1) := by
    rw [List.drop_eq_getElem_cons (by rw [hl]; exact hm)]
    simp [layersAt]
  have hn : nextIndex ((layersAt mExt x L p k).drop (m + 1)) = mExt.get [p, m + 1, k] := by
    by_cases h : m + 1 < L
    · rw [List.drop_eq_getElem_cons (by rw [hl]; exact h)]
      simp [layersAt, nextIndex]
    · rw [List.drop_eq_nil_of_le (by rw [hl]; omega)]
      obtain rfl : m + 1 = L := by omega
      rw [hlast]
      rfl
  unfold regionAt
  rw [hd, nfFn, hn]
  rfl

theorem nfRegionsT_ok {n P K L : ℕ} {mExt x : Ten ℂ} (hm : mExt.shape = [P, L + 1, K]) (hx : x.shape = [P, L, K])
    (hlast : ∀ p k, p < P → k < K → mExt.get [p, L, k] = 1) {ext : RegionT} {G : ℕ → ℕ → RegFn} (hext : ext.Rep n P K G) :
    ∃ regs, nfRegionsT n ext mExt x L = .ok regs ∧ regs.length = L + 1 ∧ ∀ j, j ≤ L → ∃ t, regs[j]? = some t ∧
      t.Rep n P K (regionAt n G mExt x L j) := by
  have key : ∀ m, m ≤ L → ∀ regs : List RegionT, regs.length = L + 1 - m →
      (∀ j, m ≤ j → j ≤ L → ∃ t, regs[j - m]? = some t ∧ t.Rep n P K (regionAt n G mExt x L j)) →
      ∃ regs', (List.range m).reverse.foldlM (fun regs li => do
        let ml ← mExt.select 1 li
        let mlp1 ← mExt.select 1 (li + 1)
        let xl ← x.select 1 li
        match regs with
        | [] => .error .indexError
        | nxt :: _ => do
          let cur ← nfStepT n ml mlp1 xl (li == 0) nxt
          (.ok (cur :: regs) : Py (List RegionT))) regs = .ok regs' ∧ regs'.length = L + 1 ∧
        ∀ j, j ≤ L → ∃ t, regs'[j]? = some t ∧ t.Rep n P K (regionAt n G mExt x L j) := by
    intro m
    induction m with
    | zero => exact fun _ regs hl h => ⟨regs, rfl, by omega, fun j hj => h j (by omega) hj⟩
    | succ m ih =>
      intro hmL regs hl h
      rw [List.range_succ, List.reverse_append, List.reverse_singleton, List.singleton_append, List.foldlM_cons]
      obtain ⟨ml, hml, sml, vml⟩ := select1 hm (show m < L + 1 by omega)
      obtain ⟨mlp, hmlp, smlp, vmlp⟩ := select1 hm (show m + 1 < L + 1 by omega)
      obtain ⟨xl, hxl, sxl, vxl⟩ := select1 hx (show m < L by omega)
      obtain ⟨nxt, hnxt, rnxt⟩ := h (m + 1) le_rfl hmL
      rw [Nat.sub_self] at hnxt
      obtain ⟨rest, rfl⟩ : ∃ rest, regs = nxt :: rest := by
        cases regs with
        | nil => simp at hnxt
        | cons a rest => simp at hnxt; subst hnxt; exact ⟨rest, rfl⟩
      obtain ⟨cur, hcur, rcur⟩ := nfStepT_ok sml smlp sxl (m == 0) rnxt
      obtain ⟨regs', h', hl', hr'⟩ := ih (by omega) (cur :: nxt :: rest) (by simp at hl ⊢; omega) (by
        intro j hj hjL
        rcases Nat.eq_or_lt_of_le hj with rfl | hj'
        · refine ⟨cur, by simp, ?_⟩
          refine ⟨rcur.sa, rcur.sb, rcur.sc, rcur.sd, fun i p k hi hp hk => ?_⟩
          rw [regionAt_step n G mExt x (by omega) (hlast p k hp hk), ← vml, ← vmlp, ← vxl]
          exact rcur.val i p k hi hp hk
        · obtain ⟨t, ht, rt⟩ := h j hj' hjL
          refine ⟨t, ?_, rt⟩
          rw [show j - m = (j - (m + 1)) + 1 by omega, List.getElem?_cons_succ, ht])
      exact ⟨regs', bind_of (bind_of hml (bind_of hmlp (bind_of hxl (bind_of hcur rfl)))) h', hl', hr'⟩
  exact key L le_rfl [ext] (by simp) (by
    intro j hj hjL
    obtain rfl : j = L := by omega
    refine ⟨ext, by simp, ?_⟩
    have : regionAt n G mExt x j j = G := by
      funext p k
      unfold regionAt
      rw [List.drop_eq_nil_of_le (by simp [layersAt])]
      rfl
    rw [this]
    exact hext)

theorem stackLast_ok {l : List (Ten ℂ)} {s : List ℕ} (hl : l ≠ []) (h : ∀ t ∈ l, t.shape = s) :
    ∃ u, Ten.stackLast l = .ok u ∧ u.shape = s ++ [l.length] ∧
      ∀ idx j t, idx.length = s.length → l[j]? = some t → u.get (idx ++ [j]) = t.get idx := by
  obtain ⟨a, rest, rfl⟩ := List.exists_cons_of_ne_nil hl
  have hall : (a :: rest).all (fun u => u.shape = a.shape) = true := by
    rw [List.all_eq_true]
    intro u hu
    simp [h u hu, h a (by simp)]
  refine ⟨_, if_pos hall, by simp [h a (by simp)], ?_⟩
  intro idx j t hi hj
  rw [h a (by simp)]
  simp only []
  rw [List.take_append_of_le_length (by omega), List.take_of_length_le (by omega)]
  have hg : (idx ++ [j]).getD s.length 0 = j := by
    rw [List.getD_eq_getElem?_getD, List.getElem?_append_right (by omega)]
    simp [hi]
  rw [hg, List.getD_eq_getElem?_getD, hj]
  rfl

/-- Shapes and values of the media in the result of a batched call. -/
structure BatchOut.Vals (o : BatchOut) : Prop where
  layers : 0 < o.b.nLayers
  nEnv : o.nEnv = o.b.env.map csqrt
  k : ∀ k, k < o.b.nK → o.k.get [0, k] = o.b.k0.get [0, k] * csqrt (o.b.env.get [0, k])
  mShape : o.m.shape = [o.b.nPart, o.b.nLayers, o.b.nK]
  m : ∀ p l k, p < o.b.nPart → l < o.b.nLayers → k < o.b.nK →
    o.m.get [p, l, k] = csqrt (o.b.eps.get [p, l, k]) / csqrt (o.b.env.get [0, k])

theorem mieCoefficientsT_vals {args : LayerArgs} {nMax : Option ℤ} {ri : Bool} {o : BatchOut}
    (h : mieCoefficientsT args nMax ri = .ok o) : o.Vals := by
  unfold mieCoefficientsT at h
  obtain ⟨⟨rl, el⟩, ha, h⟩ := bindE_inv h
  obtain ⟨b, hb, h⟩ := bindE_inv h
  obtain ⟨_, _, _, hw, _⟩ := broadcast_inv hb
  obtain ⟨r0, h1, h⟩ := bindE_inv h
  obtain ⟨rC, h2, h⟩ := bindE_inv h
  obtain ⟨rS, h3, h⟩ := bindE_inv h
  obtain ⟨e0, h4, h⟩ := bindE_inv h
  obtain ⟨eS, h5, h⟩ := bindE_inv h
  obtain ⟨n, h6, h⟩ := bindE_inv h
  obtain ⟨_, h7, h⟩ := bindE_inv h
  obtain ⟨k, h8, h⟩ := bindE_inv h
  obtain ⟨q, h9, h⟩ := bindE_inv h
  obtain ⟨m, h10, h⟩ := bindE_inv h
  have hk2 : Ten.op2 (· * ·) b.k0 (b.env.map csqrt) = .ok ⟨[1, b.nK], fun idx =>
      b.k0.get (Ten.bIdx [1, b.nK] idx) * csqrt (b.env.get (Ten.bIdx [1, b.nK] idx))⟩ := by
    rw [Ten.op2_ok _ _ _ (sh := [1, b.nK])
      (by simp [Ten.map, hw.k0, hw.env, Ten.bShape, Ten.bShapeRev, Ten.bDim_self, Bind.bind, Except.bind])]
    simp [Ten.map, hw.k0, hw.env]
  have hm2 : Ten.op2 (· / ·) (b.eps.map csqrt) ((b.env.map csqrt).unsqueeze 1) = .ok ⟨[b.nPart, b.nLayers, b.nK],
      fun idx => csqrt (b.eps.get (Ten.bIdx [b.nPart, b.nLayers, b.nK] idx))
        / csqrt (b.env.get ((Ten.bIdx [1, 1, b.nK] idx).eraseIdx 1))⟩ := by
    rw [Ten.op2_ok _ _ _ (sh := [b.nPart, b.nLayers, b.nK])
      (by simp [Ten.map, Ten.unsqueeze, hw.eps, hw.env, Ten.bShape, Ten.bShapeRev, Ten.bDim_self, Ten.bDim_one_right,
            Bind.bind, Except.bind])]
    simp [Ten.map, Ten.unsqueeze, hw.eps, hw.env]
  rw [hk2] at h8
  rw [hm2] at h10
  cases h8
  cases h10
  cases h
  refine ⟨?_, rfl, fun k hk => ?_, rfl, fun p l k hp hl hk => ?_⟩
  · by_contra h0
    have h0 : b.nLayers = 0 := Nat.eq_zero_of_not_pos h0
    simp [Ten.select, hw.r, h0] at h1
  · simp [Ten.bIdx, Ten.bi_lt hk]
  · simp [Ten.bIdx, Ten.bi_lt hp, Ten.bi_lt hl, Ten.bi_lt hk]

/-! ## Vector spherical harmonics -/

/-- The harmonics of `vsh_pena` of order `i + 1` at one point, from the kernel `D`. -/
noncomputable def vshPenaVal (D : ℂ → ℕ → ℂ) (n i : ℕ) (kind : ℤ) (theta phi : ℝ) (rho : ℂ) : VSH :=
  let pt := okD ([], []) (piTau n (Real.cos theta))
  let zn := (if kind = 1 then psiFn D rho (i + 1) else zetaFn D rho (i + 1)) / rho
  vshOrder (i + 1) theta phi rho (pt.1.getD (i + 1) 0 : ℝ) (pt.2.getD (i + 1) 0 : ℝ) zn
    ((if kind = 1 then D rho (i + 1) else d3Fn D rho (i + 1)) * zn)

theorem vshPena_eq {K : D1Kernel} {n : ℕ} {D : ℂ → ℕ → ℂ} (h : KernelFun K n D) (hn : 1 ≤ n) (k0 nMed : ℂ)
    (r theta phi : ℝ) {kind : ℤ} (hk : kind = 1 ∨ kind = 3) (epsilon : ℝ) :
    vshPena K n k0 nMed r theta phi kind epsilon = .ok ((List.range n).map fun i =>
      vshPenaVal D n i kind theta phi (k0 * nMed * (r : ℂ) + (epsilon : ℂ))) := by
  unfold vshPena vshPenaVal
  rw [piTau_eq n hn]
  rcases hk with rfl | rfl
  all_goals
    refine bind_of rfl (bind_of (kernels_eq h _) (bind_of rfl ?_))
    refine congrArg Except.ok ?_
    refine List.map_congr_left fun i hi => ?_
    have hi : i + 1 ≤ n := by have := List.mem_range.1 hi; omega
    simp only [tab_getD hi, okD, if_true, show (3 : ℤ) ≠ 1 by decide, if_false]

section vsh

variable {N P K Q : ℕ}

set_option maxHeartbeats 800000 in
theorem vshPenaT_fits (hN : 1 ≤ N) {M : ℕ} (hM : M = 1 ∨ M = P)
    {k0 nMed : Ten ℂ} {r theta phi : Ten ℝ} (hr : r.shape = [Q]) (ht : theta.shape = [Q]) (hf : phi.shape = [Q]) {kind : ℤ}
    (hk : kind = 1 ∨ kind = 3) (epsilon : ℝ) {g : List ℕ → ℂ}
    (hrho : PFits [N, P, K, Q, 3] (.ok k0 *ₜ .ok nMed *ₜ .ok r.posAxes.toC) [1, M, K, Q, 1] g) :
    ∃ V, vshPenaT N k0 nMed r.posAxes theta.posAxes phi.posAxes kind epsilon = .ok V ∧
      Fits [N, P, K, Q, 3] V.Mo [N, M, K, Q, 3] (fun idx => (vshPenaVal (codeFn N) N (idx.getD 0 0) kind (theta.get [idx.getD 3 0])
        (phi.get [idx.getD 3 0]) (g idx + epsilon)).Mo.comp (idx.getD 4 0)) ∧
      Fits [N, P, K, Q, 3] V.Me [N, M, K, Q, 3] (fun idx => (vshPenaVal (codeFn N) N (idx.getD 0 0) kind (theta.get [idx.getD 3 0])
        (phi.get [idx.getD 3 0]) (g idx + epsilon)).Me.comp (idx.getD 4 0)) ∧
      Fits [N, P, K, Q, 3] V.No [N, M, K, Q, 3] (fun idx => (vshPenaVal (codeFn N) N (idx.getD 0 0) kind (theta.get [idx.getD 3 0])
        (phi.get [idx.getD 3 0]) (g idx + epsilon)).No.comp (idx.getD 4 0)) ∧
      Fits [N, P, K, Q, 3] V.Ne [N, M, K, Q, 3] (fun idx => (vshPenaVal (codeFn N) N (idx.getD 0 0) kind (theta.get [idx.getD 3 0])
        (phi.get [idx.getD 3 0]) (g idx + epsilon)).Ne.comp (idx.getD 4 0)) := by
  obtain ⟨knr, hknr, fk⟩ := hrho
  have frho := fk.map fun v => v + (epsilon : ℂ)
  have hd : r.posAxes.shape.length = 5 := by simp [Ten.posAxes, Ten.unsqueeze, hr]
  have ft := fits_pos (N := N) (P := P) (K := K) ht
  have ff := fits_pos (N := N) (P := P) (K := K) hf
  have hmu := select00 (t := theta.posAxes.map Real.cos) (s := [1, 1, Q, 1]) ft.shape
  obtain ⟨q, hq, hl1, hl2, hpt⟩ := piTauT_ok hN (fun idx => (theta.posAxes.map Real.cos).get (0 :: idx)) []
  have hrho0 := select00 (t := knr.map fun v => v + (epsilon : ℂ)) (s := [M, K, Q, 1]) fk.shape
  set rho0 : Ten ℂ := ⟨[M, K, Q, 1], fun idx => (knr.map fun v => v + (epsilon : ℂ)).get (0 :: idx)⟩ with hdef
  obtain ⟨D1, D3, psi, zeta, hker, sD1, sD3, spsi, szeta, hv⟩ := kernelsT_ok N rho0
  have fstk : ∀ {t : Ten ℂ} {f : ℂ → ℕ → ℂ}, t.shape = (N + 1) :: rho0.shape →
      (∀ idx i, i ≤ N → t.get (i :: idx) = f (rho0.get idx) i) →
      Fits [N, P, K, Q, 3] t.tail0 [N, M, K, Q, 1] fun idx => f (g idx + epsilon) (idx.getD 0 0 + 1) := by
    intro t f hs hv
    refine ⟨by simp [Ten.tail0, hs, hdef], by rcases hM with rfl | rfl <;> simp [CompatR], ?_⟩
    intro idx hi
    have h5 := frho.get idx hi
    obtain ⟨n, p, k, q, j, rfl, hn, hp, hk, hq, hj⟩ := valid5_inv hi
    simp only [Ten.bIdx, List.length_cons, List.length_nil, Nat.sub_self, List.drop_zero, List.zipWith_cons_cons,
      List.zipWith_nil_left, bi_one, bi_lt hk, bi_lt hq] at h5
    rw [← h5]
    simp only [Ten.tail0, Ten.bIdx, List.length_cons, List.length_nil, Nat.sub_self, List.drop_zero, List.zipWith_cons_cons,
      List.zipWith_nil_left, bi_one, bi_lt hn, bi_lt hk, bi_lt hq, List.headD_cons, List.tail_cons, List.getD_cons_zero]
    exact hv _ _ (by omega)
  have fpi : Fits [N, P, K, Q, 3] (Ten.stackList 0 [1, 1, Q, 1] q.1.tail) [N, 1, 1, Q, 1] fun idx =>
      (okD ([], []) (piTau N (Real.cos (theta.get [idx.getD 3 0])))).1.getD (idx.getD 0 0 + 1) 0 := by
    refine fits_stack (by simp [hl1]) ?_
    intro n p k q' j hn hq'
    have := hpt [0, 0, q', 0]
    have hv : (theta.posAxes.map Real.cos).get [0, 0, 0, q', 0] = Real.cos (theta.get [q']) := by
      simp [Ten.map, Ten.posAxes, Ten.unsqueeze, ht]
    rw [hv] at this
    simp only [List.getD_cons_succ, List.getD_cons_zero, this, okD]
    exact tail_getD_evalL _ _ _
  have fta : Fits [N, P, K, Q, 3] (Ten.stackList 0 [1, 1, Q, 1] q.2.tail) [N, 1, 1, Q, 1] fun idx =>
      (okD ([], []) (piTau N (Real.cos (theta.get [idx.getD 3 0])))).2.getD (idx.getD 0 0 + 1) 0 := by
    refine fits_stack (by simp [hl2]) ?_
    intro n p k q' j hn hq'
    have := hpt [0, 0, q', 0]
    have hv : (theta.posAxes.map Real.cos).get [0, 0, 0, q', 0] = Real.cos (theta.get [q']) := by
      simp [Ten.map, Ten.posAxes, Ten.unsqueeze, ht]
    rw [hv] at this
    simp only [List.getD_cons_succ, List.getD_cons_zero, this, okD]
    exact tail_getD_evalL _ _ _
  obtain ⟨rz, D, hsel, frz, fD⟩ : ∃ rz D, (if kind = 1 then .ok (psi.tail0, D1.tail0)
      else if kind = 3 then .ok (zeta.tail0, D3.tail0) else .error .valueError : Py (Ten ℂ × Ten ℂ)) = .ok (rz, D) ∧
      (Fits [N, P, K, Q, 3] rz [N, M, K, Q, 1] fun idx => if kind = 1 then psiFn (codeFn N) (g idx + epsilon) (idx.getD 0 0 + 1)
        else zetaFn (codeFn N) (g idx + epsilon) (idx.getD 0 0 + 1)) ∧
      (Fits [N, P, K, Q, 3] D [N, M, K, Q, 1] fun idx => if kind = 1 then codeFn N (g idx + epsilon) (idx.getD 0 0 + 1)
        else d3Fn (codeFn N) (g idx + epsilon) (idx.getD 0 0 + 1)) := by
    rcases hk with rfl | rfl
    · refine ⟨_, _, rfl, ?_, ?_⟩
      · exact (fstk spsi fun idx i hi => (hv idx i hi).2.2.1).mono rfl fun _ _ => by simp
      · exact (fstk sD1 fun idx i hi => (hv idx i hi).1).mono rfl fun _ _ => by simp
    · refine ⟨_, _, rfl, ?_, ?_⟩
      · exact (fstk szeta fun idx i hi => (hv idx i hi).2.2.2).mono rfl fun _ _ => by simp
      · exact (fstk sD3 fun idx i hi => (hv idx i hi).2.1).mono rfl fun _ _ => by simp
  have pPi := (fpi.map fun v : ℝ => (v : ℂ)).ok
  have pTau := (fta.map fun v : ℝ => (v : ℂ)).ok
  have pRho := frho.ok
  obtain ⟨zn, hzn, fzn⟩ := frz.ok.opP (fun x y : ℂ => x / y) pRho
  obtain ⟨dz, hdz, fdz⟩ := fD.ok.opP (fun x y : ℂ => x * y) fzn.ok
  have pZn := fzn.ok
  have pDz := fdz.ok
  have pSt := ((ft.map Real.sin).map fun v : ℝ => (v : ℂ)).ok
  have pCp := ((ff.map Real.cos).map fun v : ℝ => (v : ℂ)).ok
  have pSp := ((ff.map Real.sin).map fun v : ℝ => (v : ℂ)).ok
  have pMSp := (((ff.map Real.sin).map fun v : ℝ => (v : ℂ)).map fun v => -v).ok
  have pER := (fits_unit (N := N) (P := P) (K := K) (Q := Q) 0).ok
  have pET := (fits_unit (N := N) (P := P) (K := K) (Q := Q) 1).ok
  have pEP := (fits_unit (N := N) (P := P) (K := K) (Q := Q) 2).ok
  have pN := (fits_order (N := N) (P := P) (K := K) (Q := Q)).ok
  have pN1 := ((fits_order (N := N) (P := P) (K := K) (Q := Q)).map fun v => v + 1).ok
  have mul {x y : Py (Ten ℂ)} {a b : List ℕ} {g h : List ℕ → ℂ} (hx : PFits [N, P, K, Q, 3] x a g)
    (hy : PFits [N, P, K, Q, 3] y b h) := hx.opP (fun x y : ℂ => x * y) hy
  have hMo := (mul (mul (mul pCp pPi) pZn) pET).opP (fun x y : ℂ => x - y) (mul (mul (mul pSp pTau) pZn) pEP)
  have hMe := (mul (mul (mul pMSp pPi) pZn) pET).opP (fun x y : ℂ => x - y) (mul (mul (mul pCp pTau) pZn) pEP)
  have hNo := (mul (mul (mul (mul (mul (mul pSp pN) pN1) pSt) pPi) (pZn.opP (fun x y : ℂ => x / y) pRho)) pER).opP
    (fun x y : ℂ => x + y) ((mul (mul (mul pSp pTau) pDz) pET).opP (fun x y : ℂ => x + y) (mul (mul (mul pCp pPi) pDz) pEP))
  have hNe := (mul (mul (mul (mul (mul (mul pCp pN) pN1) pSt) pPi) (pZn.opP (fun x y : ℂ => x / y) pRho)) pER).opP
    (fun x y : ℂ => x + y) ((mul (mul (mul pCp pTau) pDz) pET).opP (fun x y : ℂ => x - y) (mul (mul (mul pSp pPi) pDz) pEP))
  obtain ⟨Mo, hMo, fMo⟩ := hMo
  obtain ⟨Me, hMe, fMe⟩ := hMe
  obtain ⟨No, hNo, fNo⟩ := hNo
  obtain ⟨Ne, hNe, fNe⟩ := hNe
  refine ⟨⟨Mo, Me, No, Ne⟩, ?_, fMo.mono ?_ ?_, fMe.mono ?_ ?_, fNo.mono ?_ ?_, fNe.mono ?_ ?_⟩
  · unfold vshPenaT
    simp only [hd, hknr, bind_ok, hmu, hq, hrho0, hker]
    exact bind_of hsel (bind_of hzn (bind_of hdz (bind_of hMo (bind_of hNo (bind_of hMe (bind_of hNe rfl))))))
  · simp [join, joinR]
  · intro idx hi
    obtain ⟨n, p, k, q, j, rfl, hn, hp, hk, hq, hj⟩ := valid5_inv hi
    exact comp_Mo _ _ _ _ _ _ _ _ hj
  · simp [join, joinR]
  · intro idx hi
    obtain ⟨n, p, k, q, j, rfl, hn, hp, hk, hq, hj⟩ := valid5_inv hi
    exact comp_Me _ _ _ _ _ _ _ _ hj
  · simp [join, joinR]
  · intro idx hi
    obtain ⟨n, p, k, q, j, rfl, hn, hp, hk, hq, hj⟩ := valid5_inv hi
    exact comp_No _ _ _ _ _ _ _ _ hj
  · simp [join, joinR]
  · intro idx hi
    obtain ⟨n, p, k, q, j, rfl, hn, hp, hk, hq, hj⟩ := valid5_inv hi
    exact comp_Ne _ _ _ _ _ _ _ _ hj

end vsh

end MieDiff
