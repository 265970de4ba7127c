import Verif.Proofs.Fits
import Verif.Proofs.BatchObs
import Verif.Props.Invariance
import Mathlib.Tactic.IntervalCases

/-!
# Entries of the batched torch/scipy near fields
-/

namespace MieDiff

open Complex Ten

/-- Component of a vector. -/
def V3.comp {α : Type} (v : V3 α) (j : ℕ) : α := if j = 0 then v.c0 else if j = 1 then v.c1 else v.c2

/-- The harmonics of order `i + 1` at one point. -/
noncomputable def vshVal (B : BesselBackend) (n i : ℕ) (kind : ℤ) (theta phi : ℝ) (rho : ℂ) : VSH :=
  let pt := okD ([], []) (piTau n (Real.cos theta))
  let rz := okD ([], []) (ricKind B n kind rho)
  vshOrder (i + 1) theta phi rho (pt.1.getD (i + 1) 0 : ℝ) (pt.2.getD (i + 1) 0 : ℝ) (rz.1.getD (i + 1) 0 / rho)
    (rz.2.getD (i + 1) 0 / rho)

/-- The radial functions of all kinds evaluate without error at arguments that are not small. -/
def TotalRic (J : TorchFns) (n : ℕ) : Prop :=
  ∀ zm : ℝ, ∀ kind : ℤ, kind = 1 ∨ kind = 2 ∨ kind = 3 → ∀ z : ℂ, 1e-8 ≤ ‖z‖ → ∃ v, ricKind (J zm) n kind z = .ok v

theorem ricKindT_ok {J : TorchFns} {n : ℕ} (hJ : TotalRic J n) {kind : ℤ} (hk : kind = 1 ∨ kind = 2 ∨ kind = 3) {rho : Ten ℂ}
    (he : rho.entries ≠ []) (hbig : ∀ z ∈ rho.entries, 1e-8 ≤ ‖z‖) :
    ∃ zm, IsMaxNorm rho.entries zm ∧ ricKindT J n kind rho = .ok
      (⟨(n + 1) :: rho.shape, fun idx => (okD ([], []) (ricKind (J zm) n kind (rho.get idx.tail))).1.getD (idx.headD 0) 0⟩,
       ⟨(n + 1) :: rho.shape, fun idx => (okD ([], []) (ricKind (J zm) n kind (rho.get idx.tail))).2.getD (idx.headD 0) 0⟩) := by
  obtain ⟨zm, hzm, hmax⟩ := maxAbs_spec he
  refine ⟨zm, hmax, ?_⟩
  unfold ricKindT
  rw [hzm]
  have : rho.entries.mapM (ricKind (J zm) n kind) =
      .ok (rho.entries.map fun z => okD ([], []) (ricKind (J zm) n kind z)) := by
    apply mapM_ok
    intro z hz
    obtain ⟨v, hv⟩ := hJ zm kind hk z (hbig z hz)
    rw [hv]; rfl
  simp only [bind, Except.bind]
  rw [this]

theorem piTauT_ok {ι : Type} {n : ℕ} (hn : 1 ≤ n) (mu : ι → ℝ) (i0 : ι) :
    ∃ q : List (ι → ℝ) × List (ι → ℝ), piTauT n mu = .ok q ∧ q.1.length = n + 1 ∧ q.2.length = n + 1 ∧
      ∀ i, piTau n (mu i) = .ok (evalL i q.1, evalL i q.2) := by
  have h := piTauT_eval n mu i0
  rw [piTau_eq n hn (mu i0)] at h
  rcases hq : piTauT n mu with e | q
  · rw [hq] at h; cases h
  · refine ⟨q, rfl, (piTauT_length hq).1, (piTauT_length hq).2, fun i => ?_⟩
    rw [← piTauT_eval n mu i, hq]
    rfl

theorem tail_getD_evalL {ι : Type} (l : List (ι → ℝ)) (n : ℕ) (i : ι) :
    (l.tail.getD n fun _ => 0) i = (evalL i l).getD (n + 1) 0 := by
  cases l with
  | nil => rfl
  | cons a l =>
    rw [List.tail_cons, evalL, List.map_cons, List.getD_cons_succ]
    simp only [List.getD_eq_getElem?_getD, List.getElem?_map]
    cases l[n]? <;> rfl

theorem bind_ok {α β : Type} (a : α) (f : α → Py β) : ((Except.ok a : Py α) >>= f) = f a := rfl

theorem bind_of {α β : Type} {x : Py α} {f : α → Py β} {a : α} {v : Py β} (h : x = .ok a) (hf : f a = v) : x >>= f = v := by
  rw [h]; exact hf

theorem mem_indices : ∀ (s idx : List ℕ), idx ∈ Ten.indices s ↔ List.Forall₂ (· < ·) idx s
  | [], idx => by simp [Ten.indices]
  | d :: s, idx => by
    simp only [Ten.indices, List.mem_flatMap, List.mem_range, List.mem_map]
    constructor
    · rintro ⟨i, hi, t, ht, rfl⟩
      exact List.Forall₂.cons hi ((mem_indices s t).1 ht)
    · rintro (_ | ⟨h, ht⟩)
      exact ⟨_, h, _, (mem_indices s _).2 ht, rfl⟩

theorem select00 {α : Type} {t : Ten α} {s : List ℕ} (h : t.shape = 1 :: s) :
    t.select 0 0 = .ok ⟨s, fun idx => t.get (0 :: idx)⟩ := by
  unfold Ten.select
  simp [h]

section vsh

variable {J : TorchFns} {N P K Q : ℕ}

theorem fits_stack {l : List (List ℕ → ℝ)} (hl : l.length = N) {f : List ℕ → ℝ}
    (hf : ∀ n p k q j, n < N → q < Q → (l.getD n fun _ => 0) [0, 0, q, 0] = f [n, p, k, q, j]) :
    Fits [N, P, K, Q, 3] (Ten.stackList 0 [1, 1, Q, 1] l) [N, 1, 1, Q, 1] f := by
  refine ⟨by simp [Ten.stackList, hl], by simp [CompatR], ?_⟩
  intro idx hi
  obtain ⟨n, p, k, q, j, rfl, hn, hp, hk, hq, hj⟩ := valid5_inv hi
  rw [← hf n p k q j hn hq]
  simp [Ten.stackList, Ten.bIdx, bi_lt hn, bi_lt hq]

theorem comp_Mo (n : ℕ) (theta phi : ℝ) (rho pi tau zn dz : ℂ) {j : ℕ} (hj : j < 3) :
    (Real.cos phi : ℂ) * pi * zn * (if j = 1 then 1 else 0) - (Real.sin phi : ℂ) * tau * zn * (if j = 2 then 1 else 0) =
      (vshOrder n theta phi rho pi tau zn dz).Mo.comp j := by
  interval_cases j <;> simp [vshOrder, V3.comp]

theorem comp_Me (n : ℕ) (theta phi : ℝ) (rho pi tau zn dz : ℂ) {j : ℕ} (hj : j < 3) :
    (-(Real.sin phi : ℂ)) * pi * zn * (if j = 1 then 1 else 0) - (Real.cos phi : ℂ) * tau * zn * (if j = 2 then 1 else 0) =
      (vshOrder n theta phi rho pi tau zn dz).Me.comp j := by
  interval_cases j <;> simp [vshOrder, V3.comp]

theorem comp_No (n : ℕ) (theta phi : ℝ) (rho pi tau zn dz : ℂ) {j : ℕ} (hj : j < 3) :
    (Real.sin phi : ℂ) * (n + 1) * (n + 1 + 1) * (Real.sin theta : ℂ) * pi * (zn / rho) * (if j = 0 then 1 else 0) +
      ((Real.sin phi : ℂ) * tau * dz * (if j = 1 then 1 else 0) + (Real.cos phi : ℂ) * pi * dz * (if j = 2 then 1 else 0)) =
      (vshOrder (n + 1) theta phi rho pi tau zn dz).No.comp j := by
  interval_cases j <;> simp [vshOrder, V3.comp]

theorem comp_Ne (n : ℕ) (theta phi : ℝ) (rho pi tau zn dz : ℂ) {j : ℕ} (hj : j < 3) :
    (Real.cos phi : ℂ) * (n + 1) * (n + 1 + 1) * (Real.sin theta : ℂ) * pi * (zn / rho) * (if j = 0 then 1 else 0) +
      ((Real.cos phi : ℂ) * tau * dz * (if j = 1 then 1 else 0) - (Real.sin phi : ℂ) * pi * dz * (if j = 2 then 1 else 0)) =
      (vshOrder (n + 1) theta phi rho pi tau zn dz).Ne.comp j := by
  interval_cases j <;> simp [vshOrder, V3.comp]

/-- The argument of the radial functions is the largest in absolute value at `zm`. -/
def MaxArg (F : List ℕ) (rho : List ℕ → ℂ) (zm : ℝ) : Prop :=
  (∃ idx, List.Forall₂ (· < ·) idx F ∧ ‖rho idx‖ = zm) ∧ ∀ idx, List.Forall₂ (· < ·) idx F → ‖rho idx‖ ≤ zm

theorem vshT_fits (hJ : TotalRic J N) (hN : 1 ≤ N) (hP : 0 < P) (hK : 0 < K) (hQ : 0 < Q) {M : ℕ} (hM : M = 1 ∨ M = 3)
    {k0 nMed : Ten ℂ} {r theta phi : Ten ℝ} (hr : r.shape = [Q]) (ht : theta.shape = [Q]) (hf : phi.shape = [Q]) {kind : ℤ}
    (hk : kind = 1 ∨ kind = 2 ∨ kind = 3) (epsilon : ℝ) {g : List ℕ → ℂ}
    (hrho : PFits [N, P, K, Q, 3] (.ok k0 *ₜ .ok nMed *ₜ .ok r.posAxes.toC) [1, 1, K, Q, M] g)
    (hbig : ∀ idx, List.Forall₂ (· < ·) idx [N, P, K, Q, 3] → 1e-8 ≤ ‖g idx + epsilon‖) :
    ∃ zm V, vshT J N k0 nMed r.posAxes theta.posAxes phi.posAxes kind epsilon = .ok V ∧
      MaxArg [N, P, K, Q, 3] (fun idx => g idx + epsilon) zm ∧
      Fits [N, P, K, Q, 3] V.Mo [N, 1, K, Q, 3] (fun idx => (vshVal (J zm) N (idx.getD 0 0) kind (theta.get [idx.getD 3 0])
        (phi.get [idx.getD 3 0]) (g idx + epsilon)).Mo.comp (idx.getD 4 0)) ∧
      Fits [N, P, K, Q, 3] V.Me [N, 1, K, Q, 3] (fun idx => (vshVal (J zm) N (idx.getD 0 0) kind (theta.get [idx.getD 3 0])
        (phi.get [idx.getD 3 0]) (g idx + epsilon)).Me.comp (idx.getD 4 0)) ∧
      Fits [N, P, K, Q, 3] V.No [N, 1, K, Q, 3] (fun idx => (vshVal (J zm) N (idx.getD 0 0) kind (theta.get [idx.getD 3 0])
        (phi.get [idx.getD 3 0]) (g idx + epsilon)).No.comp (idx.getD 4 0)) ∧
      Fits [N, P, K, Q, 3] V.Ne [N, 1, K, Q, 3] (fun idx => (vshVal (J zm) N (idx.getD 0 0) kind (theta.get [idx.getD 3 0])
        (phi.get [idx.getD 3 0]) (g idx + epsilon)).Ne.comp (idx.getD 4 0)) := by
  obtain ⟨knr, hknr, fk⟩ := hrho
  have frho := fk.map fun v => v + (epsilon : ℂ)
  have hd : r.posAxes.shape.length = 5 := by simp [Ten.posAxes, Ten.unsqueeze, hr]
  have ft := fits_pos (N := N) (P := P) (K := K) ht
  have ff := fits_pos (N := N) (P := P) (K := K) hf
  have hmu := select00 (t := theta.posAxes.map Real.cos) (s := [1, 1, Q, 1]) ft.shape
  obtain ⟨q, hq, hl1, hl2, hpt⟩ := piTauT_ok hN (fun idx => (theta.posAxes.map Real.cos).get (0 :: idx)) []
  have hrho0 := select00 (t := knr.map fun v => v + (epsilon : ℂ)) (s := [1, K, Q, M]) fk.shape
  set rho0 : Ten ℂ := ⟨[1, K, Q, M], fun idx => (knr.map fun v => v + (epsilon : ℂ)).get (0 :: idx)⟩ with hdef
  have hMpos : 0 < M := by rcases hM with rfl | rfl <;> omega
  have hne : rho0.entries ≠ [] := by
    have : [0, 0, 0, 0] ∈ Ten.indices [1, K, Q, M] := (mem_indices _ _).2 (by simp [hK, hQ, hMpos])
    intro h
    have h2 : rho0.get [0, 0, 0, 0] ∈ rho0.entries := List.mem_map_of_mem this
    rw [h] at h2
    simp at h2
  have hrow : ∀ k q m, k < K → q < Q → m < M → rho0.get [0, k, q, m] = g [0, 0, k, q, m] + epsilon := by
    intro k q m hk hq hm
    have hm3 : m < 3 := by rcases hM with rfl | rfl <;> omega
    rw [← frho.get [0, 0, k, q, m] (valid5 (by omega) hP hk hq hm3)]
    simp [hdef, Ten.bIdx, bi_lt hk, bi_lt hq, bi_lt hm]
  have hall : ∀ z ∈ rho0.entries, 1e-8 ≤ ‖z‖ := by
    intro z hz
    obtain ⟨i4, hi4, rfl⟩ := List.mem_map.1 hz
    rcases (mem_indices _ _).1 hi4 with _ | ⟨h1, _ | ⟨h2, _ | ⟨h3, _ | ⟨h4, _ | _⟩⟩⟩⟩
    rename_i i0 k q m
    obtain rfl : i0 = 0 := by omega
    have hm3 : m < 3 := by rcases hM with rfl | rfl <;> omega
    rw [hrow k q m h2 h3 h4]
    exact hbig _ (valid5 (by omega) hP h2 h3 hm3)
  obtain ⟨zm, hzm, hric⟩ := ricKindT_ok hJ hk hne hall
  have hmax : MaxArg [N, P, K, Q, 3] (fun idx => g idx + epsilon) zm := by
    refine ⟨?_, ?_⟩
    · obtain ⟨z, hz, hn⟩ := hzm.1
      obtain ⟨i4, hi4, rfl⟩ := List.mem_map.1 hz
      rcases (mem_indices _ _).1 hi4 with _ | ⟨h1, _ | ⟨h2, _ | ⟨h3, _ | ⟨h4, _ | _⟩⟩⟩⟩
      rename_i i0 k q m
      obtain rfl : i0 = 0 := by omega
      have hm3 : m < 3 := by rcases hM with rfl | rfl <;> omega
      exact ⟨[0, 0, k, q, m], valid5 (by omega) hP h2 h3 hm3, by rw [← hn, hrow k q m h2 h3 h4]⟩
    · intro idx hi
      obtain ⟨n, p, k, q, j, rfl, hn, hp, hk, hq, hj⟩ := valid5_inv hi
      have hb : bi M j < M := by rcases hM with rfl | rfl <;> simp [bi, hj]
      have h5 : g [n, p, k, q, j] + epsilon = rho0.get [0, k, q, bi M j] := by
        rw [← frho.get _ hi]
        simp [hdef, Ten.bIdx, bi_lt hk, bi_lt hq]
      show ‖g [n, p, k, q, j] + epsilon‖ ≤ zm
      rw [h5]
      refine hzm.2 _ (List.mem_map_of_mem ((mem_indices _ _).2 ?_))
      simp [hdef, hk, hq, hb]
  have frz : ∀ (pr : List ℂ × List ℂ → List ℂ), Fits [N, P, K, Q, 3]
      (Ten.tail0 ⟨(N + 1) :: rho0.shape, fun idx =>
        (pr (okD ([], []) (ricKind (J zm) N kind (rho0.get idx.tail)))).getD (idx.headD 0) 0⟩) [N, 1, K, Q, M]
      fun idx => (pr (okD ([], []) (ricKind (J zm) N kind (g idx + epsilon)))).getD (idx.getD 0 0 + 1) 0 := by
    intro pr
    refine ⟨by simp [Ten.tail0, hdef], by rcases hM with rfl | rfl <;> simp [CompatR], ?_⟩
    intro idx hi
    have h5 := frho.get idx hi
    obtain ⟨n, p, k, q, j, rfl, hn, hp, hk, hq, hj⟩ := valid5_inv hi
    simp only [Ten.bIdx, List.length_cons, List.length_nil, Nat.sub_self, List.drop_zero, List.zipWith_cons_cons,
      List.zipWith_nil_left, bi_one, bi_lt hk, bi_lt hq] at h5
    rw [← h5]
    simp [Ten.tail0, Ten.bIdx, hdef, bi_lt hn, bi_lt hk, bi_lt hq]
  have fpi : Fits [N, P, K, Q, 3] (Ten.stackList 0 [1, 1, Q, 1] q.1.tail) [N, 1, 1, Q, 1] fun idx =>
      (okD ([], []) (piTau N (Real.cos (theta.get [idx.getD 3 0])))).1.getD (idx.getD 0 0 + 1) 0 := by
    refine fits_stack (by simp [hl1]) ?_
    intro n p k q' j hn hq'
    have := hpt [0, 0, q', 0]
    have hv : (theta.posAxes.map Real.cos).get [0, 0, 0, q', 0] = Real.cos (theta.get [q']) := by
      simp [Ten.map, Ten.posAxes, Ten.unsqueeze, ht]
    rw [hv] at this
    simp only [List.getD_cons_succ, List.getD_cons_zero, this, okD]
    exact tail_getD_evalL _ _ _
  have fta : Fits [N, P, K, Q, 3] (Ten.stackList 0 [1, 1, Q, 1] q.2.tail) [N, 1, 1, Q, 1] fun idx =>
      (okD ([], []) (piTau N (Real.cos (theta.get [idx.getD 3 0])))).2.getD (idx.getD 0 0 + 1) 0 := by
    refine fits_stack (by simp [hl2]) ?_
    intro n p k q' j hn hq'
    have := hpt [0, 0, q', 0]
    have hv : (theta.posAxes.map Real.cos).get [0, 0, 0, q', 0] = Real.cos (theta.get [q']) := by
      simp [Ten.map, Ten.posAxes, Ten.unsqueeze, ht]
    rw [hv] at this
    simp only [List.getD_cons_succ, List.getD_cons_zero, this, okD]
    exact tail_getD_evalL _ _ _
  have pPi := (fpi.map fun v : ℝ => (v : ℂ)).ok
  have pTau := (fta.map fun v : ℝ => (v : ℂ)).ok
  have pRho := frho.ok
  have pZn := (frz Prod.fst).ok.opP (fun x y : ℂ => x / y) pRho
  have pDz := (frz Prod.snd).ok.opP (fun x y : ℂ => x / y) pRho
  have pSt := ((ft.map Real.sin).map fun v : ℝ => (v : ℂ)).ok
  have pCp := ((ff.map Real.cos).map fun v : ℝ => (v : ℂ)).ok
  have pSp := ((ff.map Real.sin).map fun v : ℝ => (v : ℂ)).ok
  have pMSp := (((ff.map Real.sin).map fun v : ℝ => (v : ℂ)).map fun v => -v).ok
  have pER := (fits_unit (N := N) (P := P) (K := K) (Q := Q) 0).ok
  have pET := (fits_unit (N := N) (P := P) (K := K) (Q := Q) 1).ok
  have pEP := (fits_unit (N := N) (P := P) (K := K) (Q := Q) 2).ok
  have pN := (fits_order (N := N) (P := P) (K := K) (Q := Q)).ok
  have pN1 := ((fits_order (N := N) (P := P) (K := K) (Q := Q)).map fun v => v + 1).ok
  have mul {x y : Py (Ten ℂ)} {a b : List ℕ} {g h : List ℕ → ℂ} (hx : PFits [N, P, K, Q, 3] x a g)
    (hy : PFits [N, P, K, Q, 3] y b h) := hx.opP (fun x y : ℂ => x * y) hy
  have hMo := (mul (mul (mul pCp pPi) pZn) pET).opP (fun x y : ℂ => x - y) (mul (mul (mul pSp pTau) pZn) pEP)
  have hMe := (mul (mul (mul pMSp pPi) pZn) pET).opP (fun x y : ℂ => x - y) (mul (mul (mul pCp pTau) pZn) pEP)
  have hNo := (mul (mul (mul (mul (mul (mul pSp pN) pN1) pSt) pPi) (pZn.opP (fun x y : ℂ => x / y) pRho)) pER).opP
    (fun x y : ℂ => x + y) ((mul (mul (mul pSp pTau) pDz) pET).opP (fun x y : ℂ => x + y) (mul (mul (mul pCp pPi) pDz) pEP))
  have hNe := (mul (mul (mul (mul (mul (mul pCp pN) pN1) pSt) pPi) (pZn.opP (fun x y : ℂ => x / y) pRho)) pER).opP
    (fun x y : ℂ => x + y) ((mul (mul (mul pCp pTau) pDz) pET).opP (fun x y : ℂ => x - y) (mul (mul (mul pSp pPi) pDz) pEP))
  obtain ⟨Mo, hMo, fMo⟩ := hMo
  obtain ⟨Me, hMe, fMe⟩ := hMe
  obtain ⟨No, hNo, fNo⟩ := hNo
  obtain ⟨Ne, hNe, fNe⟩ := hNe
  have hjM : jn M 3 = 3 := jn_of hM
  refine ⟨zm, ⟨Mo, Me, No, Ne⟩, ?_, hmax, fMo.mono ?_ ?_, fMe.mono ?_ ?_, fNo.mono ?_ ?_, fNe.mono ?_ ?_⟩
  · unfold vshT
    simp only [hd, hknr, bind_ok, hmu, hq, hrho0, hric]
    exact bind_of hMo (bind_of hNo (bind_of hMe (bind_of hNe rfl)))
  · simp [join, joinR, hjM]
  · intro idx hi
    obtain ⟨n, p, k, q, j, rfl, hn, hp, hk, hq, hj⟩ := valid5_inv hi
    exact comp_Mo _ _ _ _ _ _ _ _ hj
  · simp [join, joinR, hjM]
  · intro idx hi
    obtain ⟨n, p, k, q, j, rfl, hn, hp, hk, hq, hj⟩ := valid5_inv hi
    exact comp_Me _ _ _ _ _ _ _ _ hj
  · simp [join, joinR, hjM]
  · intro idx hi
    obtain ⟨n, p, k, q, j, rfl, hn, hp, hk, hq, hj⟩ := valid5_inv hi
    exact comp_No _ _ _ _ _ _ _ _ hj
  · simp [join, joinR, hjM]
  · intro idx hi
    obtain ⟨n, p, k, q, j, rfl, hn, hp, hk, hq, hj⟩ := valid5_inv hi
    exact comp_Ne _ _ _ _ _ _ _ _ hj

end vsh

/-! ## The fields -/

theorem sumCart_comp (theta phi : ℝ) (l : List (V3 ℂ)) (j : ℕ) :
    (sumCart theta phi l).comp j = (l.map fun v => (fieldsSphToCart v theta phi).comp j).sum := by
  have key : ∀ (l : List (V3 ℂ)) (acc : V3 ℂ), (l.foldl (fun acc v => acc.add (fieldsSphToCart v theta phi)) acc).comp j =
      acc.comp j + (l.map fun v => (fieldsSphToCart v theta phi).comp j).sum := by
    intro l
    induction l with
    | nil => simp
    | cons v l ih =>
      intro acc
      rw [List.foldl_cons, ih, List.map_cons, List.sum_cons]
      have : (acc.add (fieldsSphToCart v theta phi)).comp j = acc.comp j + (fieldsSphToCart v theta phi).comp j := by
        unfold V3.comp V3.add
        split_ifs <;> rfl
      rw [this, add_assoc]
  unfold sumCart
  rw [key]
  have : V3.zero.comp j = 0 := by unfold V3.comp V3.zero; split_ifs <;> rfl
  rw [this, zero_add]

theorem selLast5 {α : Type} {t : Ten α} {a b c d e i : ℕ} (h : t.shape = [a, b, c, d, e]) (hi : i < e) :
    ∃ u, t.selLast i = .ok u ∧ u.shape = [a, b, c, d] ∧ ∀ w x y z, u.get [w, x, y, z] = t.get [w, x, y, z, i] := by
  refine ⟨⟨[a, b, c, d], fun idx => t.get (idx.insertIdx 4 i)⟩, ?_, rfl, fun w x y z => by simp⟩
  unfold Ten.selLast Ten.select
  simp [h, hi]

theorem cartSum_eq {N P K Q : ℕ} {F : Ten ℂ} (hF : F.shape = [N, P, K, Q, 3]) {theta phi : Ten ℝ} (ht : theta.shape = [Q])
    (hf : phi.shape = [Q]) :
    ∃ u, cartSum F theta.posAxes phi.posAxes = .ok u ∧ u.shape = [P, K, Q, 3] ∧
      ∀ p k q j, p < P → k < K → q < Q → j < 3 → u.get [p, k, q, j] =
        (sumCart (theta.get [q]) (phi.get [q]) ((List.range N).map fun n =>
          ⟨F.get [n, p, k, q, 0], F.get [n, p, k, q, 1], F.get [n, p, k, q, 2]⟩)).comp j := by
  obtain ⟨f0, h0, s0, g0⟩ := selLast5 hF (i := 0) (by omega)
  obtain ⟨f1, h1, s1, g1⟩ := selLast5 hF (i := 1) (by omega)
  obtain ⟨f2, h2, s2, g2⟩ := selLast5 hF (i := 2) (by omega)
  obtain ⟨t, h3, s3, g3⟩ := selLast5 (t := theta.posAxes) (a := 1) (b := 1) (c := 1) (d := Q) (e := 1) (i := 0)
    (by simp [Ten.posAxes, Ten.unsqueeze, ht]) (by omega)
  obtain ⟨p, h4, s4, g4⟩ := selLast5 (t := phi.posAxes) (a := 1) (b := 1) (c := 1) (d := Q) (e := 1) (i := 0)
    (by simp [Ten.posAxes, Ten.unsqueeze, hf]) (by omega)
  have b3 : t.broadcastTo f0.shape = .ok ⟨[N, P, K, Q], fun idx => t.get (bIdx [1, 1, 1, Q] idx)⟩ := by
    unfold Ten.broadcastTo
    simp [s0, s3]
  have b4 : p.broadcastTo f0.shape = .ok ⟨[N, P, K, Q], fun idx => p.get (bIdx [1, 1, 1, Q] idx)⟩ := by
    unfold Ten.broadcastTo
    simp [s0, s4]
  have hc : cartSum F theta.posAxes phi.posAxes = .ok _ :=
    bind_of h0 (bind_of h1 (bind_of h2 (bind_of h3 (bind_of h4 (bind_of b3 (bind_of b4 rfl))))))
  refine ⟨_, hc, ?_, ?_⟩
  · simp [Ten.sum0, s0]
  · intro p' k q j hp hk hq hj
    rw [sumCart_comp, List.map_map]
    simp only [Ten.sum0, s0, List.headD_cons, List.cons_append, List.length_cons, List.length_nil]
    congr 1
    apply List.map_congr_left
    intro n hn
    have et : theta.posAxes.get [0, 0, 0, q, 0] = theta.get [q] := by simp [Ten.posAxes, Ten.unsqueeze, ht]
    have ep : phi.posAxes.get [0, 0, 0, q, 0] = phi.get [q] := by simp [Ten.posAxes, Ten.unsqueeze, hf]
    simp [Ten.bIdx, bi_lt hq, g0, g1, g2, g3, g4, et, ep, V3.comp]

/-- Shapes of the arrays handed to the field code. -/
structure TorchCoefs.WF (o : TorchCoefs) (N P K : ℕ) : Prop where
  nMax : o.nMax = N
  k : o.k.shape = [1, K]
  k0 : o.k0.shape = [1, K]
  rC : o.rC.shape = [P, K]
  rS : o.rS.shape = [P, K]
  nEnv : o.nEnv.shape = [1, K]
  nC : o.nC.shape = [P, K]
  nS : o.nS.shape = [P, K]
  a : o.a.shape = [N, P, K]
  b : o.b.shape = [N, P, K]
  c : o.c.shape = [N, P, K]
  d : o.d.shape = [N, P, K]
  f : o.f.shape = [N, P, K]
  g : o.g.shape = [N, P, K]
  v : o.v.shape = [N, P, K]
  w : o.w.shape = [N, P, K]

/-- Coefficients of order `n + 1`, particle `p`, wavenumber `k`. -/
def TorchCoefs.order (o : TorchCoefs) (n p k : ℕ) : CoreShellOut :=
  { a := o.a.get [n, p, k], b := o.b.get [n, p, k], c := o.c.get [n, p, k], d := o.d.get [n, p, k]
    f := o.f.get [n, p, k], g := o.g.get [n, p, k], v := o.v.get [n, p, k], w := o.w.get [n, p, k] }

/-- The field of order `n + 1` with the media and radii read at `[p', k']` and, for the host index in front of the magnetic
field, at `[0, k']`. -/
noncomputable def TorchCoefs.orderField (o : TorchCoefs) (Bc Bs B2 Bo : BesselBackend) (E0 : ℂ) (epsilon r theta phi : ℝ)
    (n p k p' k' : ℕ) : V3 ℂ × V3 ℂ :=
  let rho (m : ℂ) : ℂ := o.k0.get [0, k] * m * (r : ℂ) + (epsilon : ℂ)
  torchOrder (EnCoef E0 (n + 1)) (o.order n p k) (o.nC.get [p', k']) (o.nS.get [p', k']) (o.nEnv.get [0, k'])
    (o.rC.get [p', k']) (o.rS.get [p', k']) r
    (vshVal Bc o.nMax n 1 theta phi (rho (o.nC.get [p', k'])))
    (vshVal Bs o.nMax n 1 theta phi (rho (o.nS.get [p', k'])))
    (vshVal B2 o.nMax n 2 theta phi (rho (o.nS.get [p', k'])))
    (vshVal Bo o.nMax n 3 theta phi (rho (o.nEnv.get [0, k])))

theorem maskSet_ok {α : Type} {F : List ℕ} {dst src : Ten α} {mask : Ten Bool} (hd : dst.shape = F) (hm : mask.shape = F)
    (hs : src.shape = F) :
    dst.maskSet mask src = .ok ⟨F, fun idx => if mask.get idx then src.get idx else dst.get idx⟩ := by
  unfold Ten.maskSet
  rw [if_pos ⟨by rw [hm, hd], by rw [hm, hs]⟩, hd]

theorem maskAdd_ok {F : List ℕ} {dst src : Ten ℂ} {mask : Ten Bool} (hd : dst.shape = F) (hm : mask.shape = F)
    (hs : src.shape = F) :
    dst.maskAdd mask src = .ok ⟨F, fun idx => if mask.get idx then dst.get idx + src.get idx else dst.get idx⟩ := by
  unfold Ten.maskAdd
  rw [if_pos ⟨by rw [hm, hd], by rw [hm, hs]⟩, hd]

theorem setComp_ok {P K Q c : ℕ} {v : Ten ℂ} (h : v.shape = [1, 1, K, Q]) :
    ∃ u, Ten.setComp 0 [P, K, Q] c v = .ok u ∧ u.shape = [P, K, Q, 3] ∧
      ∀ p k q j, p < P → k < K → q < Q → u.get [p, k, q, j] = if j = c then v.get [0, 0, k, q] else 0 := by
  have hb : Ten.broadcastTo ⟨v.shape.drop 1, fun idx => v.get (List.replicate 1 0 ++ idx)⟩ [P, K, Q] =
      .ok ⟨[P, K, Q], fun idx => v.get (0 :: bIdx [1, K, Q] idx)⟩ := by
    unfold Ten.broadcastTo
    simp [h]
  have hs : Ten.setComp 0 [P, K, Q] c v = .ok ⟨[P, K, Q] ++ [3], fun idx => if idx.getD 3 0 = c then
      v.get (0 :: bIdx [1, K, Q] (idx.take 3)) else 0⟩ := by
    unfold Ten.setComp
    simp only [h, List.length_cons, List.length_nil]
    rw [if_neg (by simp)]
    rw [h] at hb
    exact bind_of hb rfl
  refine ⟨_, hs, rfl, ?_⟩
  intro p k q j hp hk hq
  simp [Ten.bIdx, bi_lt hk, bi_lt hq]

theorem comp_smul (c : ℂ) (v : V3 ℂ) (j : ℕ) : (V3.smul c v).comp j = c * v.comp j := by
  unfold V3.comp V3.smul; split_ifs <;> rfl

theorem comp_add (u v : V3 ℂ) (j : ℕ) : (u.add v).comp j = u.comp j + v.comp j := by
  unfold V3.comp V3.add; split_ifs <;> rfl

theorem comp_zero (j : ℕ) : (V3.zero : V3 ℂ).comp j = 0 := by
  unfold V3.comp V3.zero; split_ifs <;> rfl

open Classical in
theorem torchOrder_fst (En : ℂ) (co : CoreShellOut) (nC nS nE : ℂ) (rC rS r : ℝ) (vc vs ws vo : VSH) (j : ℕ) :
    (torchOrder En co nC nS nE rC rS r vc vs ws vo).1.comp j =
      if decide (rS < r) then En * (I * co.a * vo.Ne.comp j - co.b * vo.Mo.comp j)
      else if (decide (rC < r) && decide (r ≤ rS)) then En * ((co.f * vs.Mo.comp j - I * co.g * vs.Ne.comp j) -
        (co.v * ws.Mo.comp j - I * co.w * ws.Ne.comp j))
      else if decide (r ≤ rC) then En * (co.c * vc.Mo.comp j - I * co.d * vc.Ne.comp j) else 0 := by
  simp only [Bool.and_eq_true, decide_eq_true_eq]
  simp only [torchOrder]
  split_ifs <;> simp only [comp_smul, comp_add, comp_zero] <;> ring

open Classical in
theorem torchOrder_snd (En : ℂ) (co : CoreShellOut) (nC nS nE : ℂ) (rC rS r : ℝ) (vc vs ws vo : VSH) (j : ℕ) :
    (torchOrder En co nC nS nE rC rS r vc vs ws vo).2.comp j =
      if decide (rS < r) then En * nE * (I * co.b * vo.No.comp j + co.a * vo.Me.comp j)
      else if (decide (rC < r) && decide (r ≤ rS)) then -nS * En * ((co.g * vs.Me.comp j + I * co.f * vs.No.comp j) -
        (co.w * ws.Me.comp j + I * co.v * ws.No.comp j))
      else if decide (r ≤ rC) then -nC * En * (co.d * vc.Me.comp j + I * co.c * vc.No.comp j) else 0 := by
  simp only [Bool.and_eq_true, decide_eq_true_eq]
  simp only [torchOrder]
  split_ifs <;> simp only [comp_smul, comp_add, comp_zero] <;> ring

/-- Non-negative wavenumbers, media with non-negative refractive index, distances `≥ 0`. -/
structure TorchCoefs.Physical (o : TorchCoefs) (P K Q : ℕ) (r : Ten ℝ) : Prop where
  k0 : ∀ k, k < K → ∃ x : ℝ, 0 ≤ x ∧ o.k0.get [0, k] = x
  nC : ∀ p k, p < P → k < K → 0 ≤ (o.nC.get [p, k]).re
  nS : ∀ p k, p < P → k < K → 0 ≤ (o.nS.get [p, k]).re
  nEnv : ∀ k, k < K → 0 ≤ (o.nEnv.get [0, k]).re
  r : ∀ q, q < Q → 0 ≤ r.get [q]

theorem rho_big {k0 m : ℂ} {r epsilon : ℝ} (hk : ∃ x : ℝ, 0 ≤ x ∧ k0 = x) (hm : 0 ≤ m.re) (hr : 0 ≤ r) (he : 1e-8 ≤ epsilon) :
    1e-8 ≤ ‖k0 * m * (r : ℂ) + (epsilon : ℂ)‖ := by
  obtain ⟨x, hx, rfl⟩ := hk
  have h1 : (((x : ℂ) * m * (r : ℂ) + (epsilon : ℂ))).re = x * m.re * r + epsilon := by simp
  calc (1e-8 : ℝ) ≤ x * m.re * r + epsilon := by have := mul_nonneg (mul_nonneg hx hm) hr; linarith
    _ = ((x : ℂ) * m * (r : ℂ) + (epsilon : ℂ)).re := h1.symm
    _ ≤ _ := Complex.re_le_norm _

set_option maxHeartbeats 1600000 in
/-- The batched field code when every shape fits. -/
theorem torchFieldsFrom_ok {J : TorchFns} {N P K Q : ℕ} (hJ : TotalRic J N) (hN : 1 ≤ N) (hP : 0 < P) (hK : 0 < K)
    (hQ : 0 < Q) (hPQ : P = 1 ∨ P = Q) (hK3 : K = 1 ∨ K = 3) {o : TorchCoefs} (ho : o.WF N P K) {r theta phi : Ten ℝ}
    (hr : r.shape = [Q]) (ht : theta.shape = [Q]) (hf : phi.shape = [Q]) (E0 : ℂ) (epsilon : ℝ)
    (hph : o.Physical P K Q r) (heps : 1e-8 ≤ epsilon) :
    ∃ zc zs z2 zo R, torchFieldsFrom J o r theta phi E0 epsilon = .ok R ∧
      MaxArg [N, P, K, Q, 3] (fun idx => o.k0.get [0, idx.getD 2 0] * o.nC.get [bi P (idx.getD 3 0), bi K (idx.getD 4 0)] *
        (r.get [idx.getD 3 0] : ℂ) + epsilon) zc ∧
      MaxArg [N, P, K, Q, 3] (fun idx => o.k0.get [0, idx.getD 2 0] * o.nS.get [bi P (idx.getD 3 0), bi K (idx.getD 4 0)] *
        (r.get [idx.getD 3 0] : ℂ) + epsilon) zs ∧ z2 = zs ∧
      MaxArg [N, P, K, Q, 3] (fun idx => o.k0.get [0, idx.getD 2 0] * o.nEnv.get [0, idx.getD 2 0] *
        (r.get [idx.getD 3 0] : ℂ) + epsilon) zo ∧
      R.Ei.shape = [P, K, Q, 3] ∧ R.Hi.shape = [P, K, Q, 3] ∧ R.Es.shape = [P, K, Q, 3] ∧ R.Hs.shape = [P, K, Q, 3] ∧
      R.Et.shape = [P, K, Q, 3] ∧ R.Ht.shape = [P, K, Q, 3] ∧
      ∀ p k q j, p < P → k < K → q < Q → j < 3 →
        let fld (n i : ℕ) := o.orderField (J zc) (J zs) (J z2) (J zo) E0 epsilon (r.get [q]) (theta.get [q]) (phi.get [q]) n p k
          (bi P q) (bi K i)
        R.Es.get [p, k, q, j] = (sumCart (theta.get [q]) (phi.get [q]) ((List.range N).map fun n =>
          ⟨(fld n 0).1.c0, (fld n 1).1.c1, (fld n 2).1.c2⟩)).comp j ∧
        R.Hs.get [p, k, q, j] = (sumCart (theta.get [q]) (phi.get [q]) ((List.range N).map fun n =>
          ⟨(fld n 0).2.c0, (fld n 1).2.c1, (fld n 2).2.c2⟩)).comp j ∧
        R.Ei.get [p, k, q, j] = (incidentE E0 (o.k.get [0, k]) (r.get [q]) (theta.get [q])).comp j ∧
        R.Hi.get [p, k, q, j] = (incidentH E0 (o.k.get [0, k]) (o.nEnv.get [0, 0]) (r.get [q]) (theta.get [q])).comp j ∧
        R.Et.get [p, k, q, j] = (if o.rS.get [bi P q, bi K j] < r.get [q] then R.Es.get [p, k, q, j] + R.Ei.get [p, k, q, j]
          else R.Es.get [p, k, q, j]) ∧
        R.Ht.get [p, k, q, j] = (if o.rS.get [bi P q, bi K j] < r.get [q] then R.Hs.get [p, k, q, j] + R.Hi.get [p, k, q, j]
          else R.Hs.get [p, k, q, j]) := by
  obtain ⟨rfl, hk, hk0, hrC, hrS, hnE, hnC, hnS, ha, hb, hc, hd, hff, hg, hv, hw⟩ := ho
  have e1 : o.rC.shape.headD 0 = P := by rw [hrC]; rfl
  have e2 : o.k0.shape.getD 1 0 = K := by rw [hk0]; rfl
  have e3 : theta.shape.headD 0 = Q := by rw [ht]; rfl
  have hjP : jn P Q = Q := jn_of hPQ
  have hjK : jn K 3 = 3 := jn_of hK3
  have hjP' : jn Q P = Q := jn_of' hPQ
  have hjK' : jn 3 K = 3 := jn_of' hK3
  -- leaves
  have fr := fits_pos (N := o.nMax) (P := P) (K := K) hr
  have fth := fits_pos (N := o.nMax) (P := P) (K := K) ht
  have fk0 := fits_outer (N := o.nMax) (P := P) (Q := Q) hk0
  have fk := fits_outer (N := o.nMax) (P := P) (Q := Q) hk
  have fsur := fits_outer (N := o.nMax) (P := P) (Q := Q) hnE
  have fnC := fits_raw (N := o.nMax) (P := P) hnC hPQ hK3
  have fnS := fits_raw (N := o.nMax) (P := P) hnS hPQ hK3
  have fnE := fits_raw (N := o.nMax) (P := P) (Q := Q) hnE (.inl rfl) hK3
  have frC := fits_raw (N := o.nMax) (P := P) hrC hPQ hK3
  have frS := fits_raw (N := o.nMax) (P := P) hrS hPQ hK3
  have frc := fr.map fun v : ℝ => (v : ℂ)
  have mul {x y : Py (Ten ℂ)} {a b : List ℕ} {g h : List ℕ → ℂ} (hx : PFits [o.nMax, P, K, Q, 3] x a g)
    (hy : PFits [o.nMax, P, K, Q, 3] y b h) := hx.opP (fun x y : ℂ => x * y) hy
  have add {x y : Py (Ten ℂ)} {a b : List ℕ} {g h : List ℕ → ℂ} (hx : PFits [o.nMax, P, K, Q, 3] x a g)
    (hy : PFits [o.nMax, P, K, Q, 3] y b h) := hx.opP (fun x y : ℂ => x + y) hy
  have sub {x y : Py (Ten ℂ)} {a b : List ℕ} {g h : List ℕ → ℂ} (hx : PFits [o.nMax, P, K, Q, 3] x a g)
    (hy : PFits [o.nMax, P, K, Q, 3] y b h) := hx.opP (fun x y : ℂ => x - y) hy
  -- masks
  obtain ⟨i1, hi1, fi1⟩ := fr.op2 (fun x y : ℝ => decide (x ≤ y)) frC
  obtain ⟨i2a, hi2a, fi2a⟩ := frC.op2 (fun x y : ℝ => decide (x < y)) fr
  obtain ⟨i2b, hi2b, fi2b⟩ := fr.op2 (fun x y : ℝ => decide (x ≤ y)) frS
  obtain ⟨i2, hi2, fi2⟩ := fi2a.op2 (fun x y : Bool => x && y) fi2b
  obtain ⟨i3, hi3, fi3⟩ := fr.op2 (fun x y : ℝ => decide (y < x)) frS
  obtain ⟨m1, hm1, sm1, gm1⟩ := fi1.broadcastTo
  obtain ⟨m2, hm2, sm2, gm2⟩ := fi2.broadcastTo
  obtain ⟨m3, hm3, sm3, gm3⟩ := fi3.broadcastTo
  -- harmonics
  have hM : K = 1 ∨ K = 3 := hK3
  have hbP (q : ℕ) (hq : q < Q) : bi P q < P := by unfold bi; split_ifs <;> omega
  have hbK (i : ℕ) (hi : i < 3) : bi K i < K := by unfold bi; split_ifs <;> omega
  have bigC : ∀ idx, List.Forall₂ (· < ·) idx [o.nMax, P, K, Q, 3] → 1e-8 ≤ ‖o.k0.get [0, idx.getD 2 0] *
      o.nC.get [bi P (idx.getD 3 0), bi K (idx.getD 4 0)] * (r.get [idx.getD 3 0] : ℂ) + epsilon‖ := by
    intro idx hi
    obtain ⟨n, p, k, q, j, rfl, hn, hp, hk, hq, hj⟩ := valid5_inv hi
    exact rho_big (hph.k0 k hk) (hph.nC _ _ (hbP q hq) (hbK j hj)) (hph.r q hq) heps
  have bigS : ∀ idx, List.Forall₂ (· < ·) idx [o.nMax, P, K, Q, 3] → 1e-8 ≤ ‖o.k0.get [0, idx.getD 2 0] *
      o.nS.get [bi P (idx.getD 3 0), bi K (idx.getD 4 0)] * (r.get [idx.getD 3 0] : ℂ) + epsilon‖ := by
    intro idx hi
    obtain ⟨n, p, k, q, j, rfl, hn, hp, hk, hq, hj⟩ := valid5_inv hi
    exact rho_big (hph.k0 k hk) (hph.nS _ _ (hbP q hq) (hbK j hj)) (hph.r q hq) heps
  have bigO : ∀ idx, List.Forall₂ (· < ·) idx [o.nMax, P, K, Q, 3] → 1e-8 ≤ ‖o.k0.get [0, idx.getD 2 0] *
      o.nEnv.get [0, idx.getD 2 0] * (r.get [idx.getD 3 0] : ℂ) + epsilon‖ := by
    intro idx hi
    obtain ⟨n, p, k, q, j, rfl, hn, hp, hk, hq, hj⟩ := valid5_inv hi
    exact rho_big (hph.k0 k hk) (hph.nEnv _ hk) (hph.r q hq) heps
  obtain ⟨zc, vc, hvc, mxc, vcMo, vcMe, vcNo, vcNe⟩ := vshT_fits (J := J) (M := K) hJ hN hP hK hQ hM hr ht hf (kind := 1)
    (.inl rfl) epsilon ((mul (mul fk0.ok fnC.ok) frc.ok).mono (by simp [join, joinR, hjP]) fun _ _ => rfl) bigC
  obtain ⟨zs, vs, hvs, mxs, vsMo, vsMe, vsNo, vsNe⟩ := vshT_fits (J := J) (M := K) hJ hN hP hK hQ hM hr ht hf (kind := 1)
    (.inl rfl) epsilon ((mul (mul fk0.ok fnS.ok) frc.ok).mono (by simp [join, joinR, hjP]) fun _ _ => rfl) bigS
  obtain ⟨z2, ws, hws, mx2, wsMo, wsMe, wsNo, wsNe⟩ := vshT_fits (J := J) (M := K) hJ hN hP hK hQ hM hr ht hf (kind := 2)
    (.inr (.inl rfl)) epsilon ((mul (mul fk0.ok fnS.ok) frc.ok).mono (by simp [join, joinR, hjP]) fun _ _ => rfl) bigS
  obtain ⟨zo, vo, hvo, mxo, voMo, voMe, voNo, voNe⟩ := vshT_fits (J := J) (M := 1) hJ hN hP hK hQ (.inl rfl) hr ht hf (kind := 3)
    (.inr (.inr rfl)) epsilon ((mul (mul fk0.ok fsur.ok) frc.ok).mono (by simp [join, joinR]) fun _ _ => rfl) bigO
  -- field expressions
  have pEn := (fits_en (N := o.nMax) (P := P) (K := K) (Q := Q) E0).ok
  have pj := (fits_scalar (N := o.nMax) (P := P) (K := K) (Q := Q) I).ok
  have pa := (fits_coef (Q := Q) ha).ok
  have pb := (fits_coef (Q := Q) hb).ok
  have pc := (fits_coef (Q := Q) hc).ok
  have pd := (fits_coef (Q := Q) hd).ok
  have pf := (fits_coef (Q := Q) hff).ok
  have pg := (fits_coef (Q := Q) hg).ok
  have pv := (fits_coef (Q := Q) hv).ok
  have pw := (fits_coef (Q := Q) hw).ok
  obtain ⟨E1, hE1, fE1⟩ := mul pEn (sub (mul pc vcMo.ok) (mul (mul pj pd) vcNe.ok))
  obtain ⟨E2, hE2, fE2⟩ := mul pEn (sub (sub (mul pf vsMo.ok) (mul (mul pj pg) vsNe.ok))
    (sub (mul pv wsMo.ok) (mul (mul pj pw) wsNe.ok)))
  obtain ⟨E3, hE3, fE3⟩ := mul pEn (sub (mul (mul pj pa) voNe.ok) (mul pb voMo.ok))
  obtain ⟨H1, hH1, fH1⟩ := mul (mul (fnC.map fun x => -x).ok pEn) (add (mul pd vcMe.ok) (mul (mul pj pc) vcNo.ok))
  obtain ⟨H2, hH2, fH2⟩ := mul (mul (fnS.map fun x => -x).ok pEn) (sub (add (mul pg vsMe.ok) (mul (mul pj pf) vsNo.ok))
    (add (mul pw wsMe.ok) (mul (mul pj pv) wsNo.ok)))
  obtain ⟨H3, hH3, fH3⟩ := mul (mul pEn fnE.ok) (add (mul (mul pj pb) voNo.ok) (mul pa voMe.ok))
  obtain ⟨sE1, gE1⟩ := (fE1.mono (b := [o.nMax, P, K, Q, 3]) (by simp [join, joinR]) fun _ _ => rfl).full
  obtain ⟨sE2, gE2⟩ := (fE2.mono (b := [o.nMax, P, K, Q, 3]) (by simp [join, joinR]) fun _ _ => rfl).full
  obtain ⟨sE3, gE3⟩ := (fE3.mono (b := [o.nMax, P, K, Q, 3]) (by simp [join, joinR]) fun _ _ => rfl).full
  obtain ⟨sH1, gH1⟩ := (fH1.mono (b := [o.nMax, P, K, Q, 3]) (by simp [join, joinR, hjP, hjK]) fun _ _ => rfl).full
  obtain ⟨sH2, gH2⟩ := (fH2.mono (b := [o.nMax, P, K, Q, 3]) (by simp [join, joinR, hjP, hjK]) fun _ _ => rfl).full
  obtain ⟨sH3, gH3⟩ := (fH3.mono (b := [o.nMax, P, K, Q, 3]) (by simp [join, joinR, hjP, hjK]) fun _ _ => rfl).full
  -- sums and incident fields
  obtain ⟨Es, hEs, sEs, gEs⟩ := cartSum_eq (N := o.nMax) (P := P) (K := K) (Q := Q) (F := ⟨[o.nMax, P, K, Q, 3], fun idx =>
    if m3.get idx then E3.get idx else if m2.get idx then E2.get idx else if m1.get idx then E1.get idx else 0⟩) rfl ht hf
  obtain ⟨Hs, hHs, sHs, gHs⟩ := cartSum_eq (N := o.nMax) (P := P) (K := K) (Q := Q) (F := ⟨[o.nMax, P, K, Q, 3], fun idx =>
    if m3.get idx then H3.get idx else if m2.get idx then H2.get idx else if m1.get idx then H1.get idx else 0⟩) rfl ht hf
  obtain ⟨ph, hph, fph⟩ := mul (mul (mul pj fk.ok) frc.ok) ((fth.map Real.cos).map fun v : ℝ => (v : ℂ)).ok
  have fwave := fph.map Complex.exp
  obtain ⟨ei, hei, fei⟩ := mul (fits_scalar (N := o.nMax) (P := P) (K := K) (Q := Q) E0).ok fwave.ok
  obtain ⟨hi, hhi, fhi⟩ := mul (mul (fits_scalar (N := o.nMax) (P := P) (K := K) (Q := Q) E0).ok fnE.ok) fwave.ok
  have sei : ei.shape = [1, 1, K, Q, 1] := by rw [fei.shape]; simp [join, joinR]
  have shi : hi.shape = [1, 1, K, Q, K] := by rw [fhi.shape]; simp [join, joinR]
  obtain ⟨ei0, hei0, sei0, gei0⟩ := selLast5 sei (i := 0) (by omega)
  obtain ⟨hi0, hhi0, shi0, ghi0⟩ := selLast5 shi (i := 0) (by omega)
  obtain ⟨Ei, hEi, sEi, gEi⟩ := setComp_ok (P := P) (c := 0) sei0
  obtain ⟨Hi, hHi, sHi, gHi⟩ := setComp_ok (P := P) (c := 1) shi0
  obtain ⟨out, hout, sout, gout⟩ : ∃ u, m3.select 0 0 = .ok u ∧ u.shape = [P, K, Q, 3] ∧
      ∀ p k q j, u.get [p, k, q, j] = m3.get [0, p, k, q, j] := by
    refine ⟨⟨[P, K, Q, 3], fun idx => m3.get (idx.insertIdx 0 0)⟩, ?_, rfl, fun p k q j => by simp⟩
    unfold Ten.select
    simp [sm3, show 0 < o.nMax by omega]
  have hres : torchFieldsFrom J o r theta phi E0 epsilon = .ok ⟨Ei, Hi, Es, Hs,
      ⟨[P, K, Q, 3], fun idx => if out.get idx then Es.get idx + Ei.get idx else Es.get idx⟩,
      ⟨[P, K, Q, 3], fun idx => if out.get idx then Hs.get idx + Hi.get idx else Hs.get idx⟩⟩ := by
    unfold torchFieldsFrom
    simp only [e1, e2, e3]
    exact bind_of hi1 (bind_of hi2a (bind_of hi2b (bind_of hi2 (bind_of hi3 (bind_of hvc (bind_of hvs (bind_of hws (bind_of hvo
      (bind_of hm1 (bind_of hm2 (bind_of hm3 (bind_of hE1 (bind_of hE2 (bind_of hE3
      (bind_of (maskSet_ok rfl sm1 sE1) (bind_of (maskSet_ok rfl sm2 sE2) (bind_of (maskSet_ok rfl sm3 sE3)
      (bind_of hH1 (bind_of hH2 (bind_of hH3
      (bind_of (maskSet_ok rfl sm1 sH1) (bind_of (maskSet_ok rfl sm2 sH2) (bind_of (maskSet_ok rfl sm3 sH3)
      (bind_of hEs (bind_of hHs (bind_of hph (bind_of hei (bind_of hei0 (bind_of hEi (bind_of hhi (bind_of hhi0 (bind_of hHi
      (bind_of hout (bind_of (maskAdd_ok sEs sout sEi) (bind_of (maskAdd_ok sHs sout sHi) rfl)))))))))))))))))))))))))))))))))))
  have hzz : z2 = zs := by
    obtain ⟨⟨x, hx, ex⟩, bx⟩ := mx2
    obtain ⟨⟨y, hy, ey⟩, by'⟩ := mxs
    exact le_antisymm (ex ▸ by' x hx) (ey ▸ bx y hy)
  refine ⟨zc, zs, z2, zo, _, hres, mxc, mxs, hzz, mxo, sEi, sHi, sEs, sHs, rfl, rfl, ?_⟩
  intro p k q j hp hk' hq hj
  have vE (n : ℕ) (hn : n < o.nMax) (i : ℕ) (hi : i < 3) := torchOrder_fst
    (EnCoef E0 (n + 1)) (o.order n p k) (o.nC.get [bi P q, bi K i]) (o.nS.get [bi P q, bi K i]) (o.nEnv.get [0, bi K i])
    (o.rC.get [bi P q, bi K i]) (o.rS.get [bi P q, bi K i]) (r.get [q])
    (vshVal (J zc) o.nMax n 1 (theta.get [q]) (phi.get [q]) (o.k0.get [0, k] * o.nC.get [bi P q, bi K i] * (r.get [q] : ℂ) + epsilon))
    (vshVal (J zs) o.nMax n 1 (theta.get [q]) (phi.get [q]) (o.k0.get [0, k] * o.nS.get [bi P q, bi K i] * (r.get [q] : ℂ) + epsilon))
    (vshVal (J z2) o.nMax n 2 (theta.get [q]) (phi.get [q]) (o.k0.get [0, k] * o.nS.get [bi P q, bi K i] * (r.get [q] : ℂ) + epsilon))
    (vshVal (J zo) o.nMax n 3 (theta.get [q]) (phi.get [q]) (o.k0.get [0, k] * o.nEnv.get [0, k] * (r.get [q] : ℂ) + epsilon)) i
  have vH (n : ℕ) (hn : n < o.nMax) (i : ℕ) (hi : i < 3) := torchOrder_snd
    (EnCoef E0 (n + 1)) (o.order n p k) (o.nC.get [bi P q, bi K i]) (o.nS.get [bi P q, bi K i]) (o.nEnv.get [0, bi K i])
    (o.rC.get [bi P q, bi K i]) (o.rS.get [bi P q, bi K i]) (r.get [q])
    (vshVal (J zc) o.nMax n 1 (theta.get [q]) (phi.get [q]) (o.k0.get [0, k] * o.nC.get [bi P q, bi K i] * (r.get [q] : ℂ) + epsilon))
    (vshVal (J zs) o.nMax n 1 (theta.get [q]) (phi.get [q]) (o.k0.get [0, k] * o.nS.get [bi P q, bi K i] * (r.get [q] : ℂ) + epsilon))
    (vshVal (J z2) o.nMax n 2 (theta.get [q]) (phi.get [q]) (o.k0.get [0, k] * o.nS.get [bi P q, bi K i] * (r.get [q] : ℂ) + epsilon))
    (vshVal (J zo) o.nMax n 3 (theta.get [q]) (phi.get [q]) (o.k0.get [0, k] * o.nEnv.get [0, k] * (r.get [q] : ℂ) + epsilon)) i
  have b1 (i : ℕ) : bi 1 i = 0 := by simp [bi]
  have wE (n : ℕ) (hn : n < o.nMax) (i : ℕ) (hi : i < 3) :
      (if m3.get [n, p, k, q, i] then E3.get [n, p, k, q, i] else if m2.get [n, p, k, q, i] then E2.get [n, p, k, q, i]
        else if m1.get [n, p, k, q, i] then E1.get [n, p, k, q, i] else 0) =
      (o.orderField (J zc) (J zs) (J z2) (J zo) E0 epsilon (r.get [q]) (theta.get [q]) (phi.get [q]) n p k
        (bi P q) (bi K i)).1.comp i := by
    have hv5 := valid5 hn hp hk' hq hi
    rw [gm1 _ hv5, gm2 _ hv5, gm3 _ hv5, gE1 _ hv5, gE2 _ hv5, gE3 _ hv5]
    exact (vE n hn i hi).symm
  have wH (n : ℕ) (hn : n < o.nMax) (i : ℕ) (hi : i < 3) :
      (if m3.get [n, p, k, q, i] then H3.get [n, p, k, q, i] else if m2.get [n, p, k, q, i] then H2.get [n, p, k, q, i]
        else if m1.get [n, p, k, q, i] then H1.get [n, p, k, q, i] else 0) =
      (o.orderField (J zc) (J zs) (J z2) (J zo) E0 epsilon (r.get [q]) (theta.get [q]) (phi.get [q]) n p k
        (bi P q) (bi K i)).2.comp i := by
    have hv5 := valid5 hn hp hk' hq hi
    rw [gm1 _ hv5, gm2 _ hv5, gm3 _ hv5, gH1 _ hv5, gH2 _ hv5, gH3 _ hv5, b1]
    exact (vH n hn i hi).symm
  have hout' : out.get [p, k, q, j] = decide (o.rS.get [bi P q, bi K j] < r.get [q]) := by
    rw [gout, gm3 _ (valid5 (show 0 < o.nMax by omega) hp hk' hq hj)]
    rfl
  have v0 := valid5 (show 0 < o.nMax by omega) hp hk' hq (show 0 < 3 by omega)
  have vei : ei.get [0, 0, k, q, 0] = E0 * Complex.exp (I * o.k.get [0, k] * (r.get [q] : ℂ) * (Real.cos (theta.get [q]) : ℂ)) := by
    have := fei.get _ v0
    simpa [Ten.bIdx, join, joinR, bi_lt hk', bi_lt hq, b1] using this
  have vhi : hi.get [0, 0, k, q, 0] = E0 * o.nEnv.get [0, 0] *
      Complex.exp (I * o.k.get [0, k] * (r.get [q] : ℂ) * (Real.cos (theta.get [q]) : ℂ)) := by
    have := fhi.get _ v0
    simpa [Ten.bIdx, join, joinR, bi_lt hk', bi_lt hq, b1, bi_lt hK] using this
  refine ⟨?_, ?_, ?_, ?_, ?_, ?_⟩
  · rw [gEs p k q j hp hk' hq hj]
    congr 2
    apply List.map_congr_left
    intro n hn
    rw [List.mem_range] at hn
    simp only [wE n hn 0 (by omega), wE n hn 1 (by omega), wE n hn 2 (by omega)]
    rfl
  · rw [gHs p k q j hp hk' hq hj]
    congr 2
    apply List.map_congr_left
    intro n hn
    rw [List.mem_range] at hn
    simp only [wH n hn 0 (by omega), wH n hn 1 (by omega), wH n hn 2 (by omega)]
    rfl
  · rw [gEi p k q j hp hk' hq, gei0, vei]
    unfold incidentE V3.comp
    interval_cases j <;> simp
  · rw [gHi p k q j hp hk' hq, ghi0, vhi]
    unfold incidentH V3.comp
    interval_cases j <;> simp
  · simp only [hout', decide_eq_true_eq]
  · simp only [hout', decide_eq_true_eq]

/-! ## The special functions of the code never raise -/

theorem fDer_ok {z : ℂ} {f : List ℂ} (h : 2 ≤ f.length) : ∃ v, fDer z f = .ok v := by
  match f, h with
  | a :: b :: l, _ => exact ⟨_, rfl⟩

theorem ricPlus_ok {z : ℂ} {f : List ℂ} (h : 2 ≤ f.length) : ∃ v, ricPlus z f = .ok v := by
  obtain ⟨v, hv⟩ := fDer_ok (z := z) h
  exact ⟨_, bind_of hv rfl⟩

theorem ricMinus_ok {z : ℂ} {f : List ℂ} (h : 2 ≤ f.length) : ∃ v, ricMinus z f = .ok v := by
  obtain ⟨v, hv⟩ := fDer_ok (z := z) h
  exact ⟨_, bind_of hv rfl⟩

theorem sphYnTorch_ok (n : ℕ) (z : ℂ) : ∃ v, sphYnTorch n z = .ok v ∧ v.length = n + 1 := by
  have hg : sphYnTorch n z = sphYnTorch n (guardSet 1e-10 z) := by
    unfold sphYnTorch
    have : guardSet 1e-10 (guardSet 1e-10 z) = guardSet 1e-10 z := by
      unfold guardSet
      by_cases h : ‖z‖ < 1e-10
      · rw [if_pos h]; split_ifs <;> rfl
      · rw [if_neg h, if_neg h]
    rw [this]
  rw [hg, sphYnTorch_eq n _ (by norm_num)]
  · exact ⟨_, rfl, by simp⟩
  · unfold guardSet
    split_ifs with h
    · rw [Complex.norm_real, Real.norm_of_nonneg (by norm_num)]
    · exact not_lt.mp h

theorem cumprod_length : ∀ (l : List ℂ) (a : ℂ), (cumprod a l).length = l.length
  | [], _ => rfl
  | x :: l, a => by simp [cumprod, cumprod_length l]

theorem jRatio_length (nMax : ℕ) (z : ℂ) : ∀ (l : List ℕ) (st : ℂ × List ℂ),
    (l.foldl (jRatioStep nMax z) st).2.length = st.2.length
  | [], _ => rfl
  | n :: l, st => by
    rw [List.foldl_cons, jRatio_length nMax z l]
    unfold jRatioStep
    simp only []
    split_ifs <;> simp

theorem sphJnTorchDepth_ok (n : ℕ) (z : ℂ) (k : ℤ) (s : ℝ) : ∃ v, sphJnTorchDepth n z k s = .ok v ∧ v.length = n + 1 := by
  unfold sphJnTorchDepth
  rw [if_neg (by omega)]
  refine ⟨_, rfl, ?_⟩
  split_ifs
  · simp
  · simp
  · simp [cumprod_length, jRatio_length]

theorem sphJnTorch_ok (n : ℕ) (z : ℂ) (zm : ℝ) : ∃ v, sphJnTorch n z zm = .ok v ∧ v.length = n + 1 := by
  unfold sphJnTorch
  rw [if_neg (by omega)]
  by_cases h : ‖z‖ < 1e-8
  · rw [if_pos h]
    exact sphJnTorchDepth_ok _ _ _ _
  · rw [if_neg h]
    obtain ⟨v, hv, hl⟩ := sphJnTorchDepth_ok n z (min (max 20 (⌊zm * 2⌋ + 10)) 50) 1e-8
    exact ⟨v, bind_of (by simp [resolveNAddRatio]) hv, hl⟩

theorem torchFns_total {n : ℕ} (hn : 1 ≤ n) : TotalRic torchFns n := by
  intro zm kind hk z hz
  obtain ⟨j, hj, lj⟩ := sphJnTorch_ok n z zm
  replace hj : sphJnTorchNd n z zm = .ok j := by
    unfold sphJnTorchNd
    rw [if_neg (fun h => absurd h.2 (not_lt.mpr hz)), hj]
  obtain ⟨y, hy, ly⟩ := sphYnTorch_ok n z
  unfold ricKind torchFns
  rcases hk with rfl | rfl | rfl
  · obtain ⟨v, hv⟩ := ricPlus_ok (z := z) (f := j) (by omega)
    exact ⟨v, bind_of hj hv⟩
  · obtain ⟨v, hv⟩ := ricMinus_ok (z := z) (f := y) (by omega)
    exact ⟨v, bind_of hy hv⟩
  · obtain ⟨v, hv⟩ := ricPlus_ok (z := z) (f := h1Of j y) (by simp [h1Of]; omega)
    exact ⟨v, bind_of hj (bind_of hy hv)⟩

/-! ## One particle, wavenumber and point -/

theorem vsh_eq {B : BesselBackend} {n : ℕ} (hn : 1 ≤ n) {kind : ℤ} (k0 nMed : ℂ) (r theta phi epsilon : ℝ)
    (h : ∃ v, ricKind B n kind (k0 * nMed * (r : ℂ) + (epsilon : ℂ)) = .ok v) :
    vsh B n k0 nMed r theta phi kind epsilon = .ok ((List.range n).map fun i =>
      vshVal B n i kind theta phi (k0 * nMed * (r : ℂ) + (epsilon : ℂ))) := by
  obtain ⟨v, hv⟩ := h
  unfold vsh vshWith vshVal
  rw [piTau_eq n hn]
  refine bind_of rfl ?_
  refine bind_of (a := v) hv ?_
  simp [hv, okD]

theorem nearfieldsTorch_eq {Bc Bs B2 Bo : BesselBackend} {co : List CoreShellOut} (hn : 1 ≤ co.length)
    (k0 k nC nS nEnv : ℂ) (rC rS : ℝ) (E0 : ℂ) (p : V3 ℝ) (epsilon : ℝ)
    (hc : ∃ v, ricKind Bc co.length 1 (k0 * nC * ((xyzToSph eps10Double p.c0 p.c1 p.c2).c0 : ℂ) + (epsilon : ℂ)) = .ok v)
    (hs : ∃ v, ricKind Bs co.length 1 (k0 * nS * ((xyzToSph eps10Double p.c0 p.c1 p.c2).c0 : ℂ) + (epsilon : ℂ)) = .ok v)
    (h2 : ∃ v, ricKind B2 co.length 2 (k0 * nS * ((xyzToSph eps10Double p.c0 p.c1 p.c2).c0 : ℂ) + (epsilon : ℂ)) = .ok v)
    (ho : ∃ v, ricKind Bo co.length 3 (k0 * nEnv * ((xyzToSph eps10Double p.c0 p.c1 p.c2).c0 : ℂ) + (epsilon : ℂ)) = .ok v) :
    let sph := xyzToSph eps10Double p.c0 p.c1 p.c2
    let r := sph.c0
    let rho (m : ℂ) : ℂ := k0 * m * (r : ℂ) + (epsilon : ℂ)
    let eh (i : ℕ) := torchOrder (EnCoef E0 (i + 1)) (co.getD i ⟨0, 0, 0, 0, 0, 0, 0, 0⟩) nC nS nEnv rC rS r
      (vshVal Bc co.length i 1 sph.c1 sph.c2 (rho nC)) (vshVal Bs co.length i 1 sph.c1 sph.c2 (rho nS))
      (vshVal B2 co.length i 2 sph.c1 sph.c2 (rho nS)) (vshVal Bo co.length i 3 sph.c1 sph.c2 (rho nEnv))
    let Es := sumCart sph.c1 sph.c2 ((List.range co.length).map fun i => (eh i).1)
    let Hs := sumCart sph.c1 sph.c2 ((List.range co.length).map fun i => (eh i).2)
    let Ei := incidentE E0 k r sph.c1
    let Hi := incidentH E0 k nEnv r sph.c1
    nearfieldsTorch Bc Bs B2 Bo k0 k nC nS nEnv rC rS E0 co p epsilon =
      .ok { Ei := Ei, Hi := Hi, Es := Es, Hs := Hs
            Et := if rS < r then Es.add Ei else Es
            Ht := if rS < r then Hs.add Hi else Hs } := by
  unfold nearfieldsTorch
  refine bind_of (vsh_eq hn _ _ _ _ _ _ hc) ?_
  refine bind_of (vsh_eq hn _ _ _ _ _ _ hs) ?_
  refine bind_of (vsh_eq hn _ _ _ _ _ _ h2) ?_
  refine bind_of (vsh_eq hn _ _ _ _ _ _ ho) ?_
  have : ∀ {α : Type} (f : ℕ → VSH) (g : V3 ℂ × V3 ℂ → α) (F : ℕ → VSH → VSH → VSH → VSH → V3 ℂ × V3 ℂ) (f2 f3 f4 : ℕ → VSH)
      (z : VSH), ((List.range co.length).map fun i => F i (((List.range co.length).map f).getD i z)
        (((List.range co.length).map f2).getD i z) (((List.range co.length).map f3).getD i z)
        (((List.range co.length).map f4).getD i z)).map g = (List.range co.length).map fun i => g (F i (f i) (f2 i) (f3 i) (f4 i)) := by
    intro α f g F f2 f3 f4 z
    rw [List.map_map]
    apply List.map_congr_left
    intro i hi
    rw [List.mem_range] at hi
    simp [hi]
  simp only [this]

/-! ## Other shapes -/

theorem bDim_inv {a b d : ℕ} (h : bDim a b = .ok d) : d = jn a b ∧ (a = b ∨ a = 1 ∨ b = 1) := by
  unfold bDim at h
  unfold jn
  split_ifs at h with h1 h2 h3
  · cases h; subst h1; simp
  · cases h; simp [h2]
  · cases h; simp [h2, h3]

theorem bShape_pos {Q P K : ℕ} {sh : List ℕ} (h : bShape [1, 1, 1, Q, 1] [P, K] = .ok sh) :
    sh = [1, 1, 1, jn Q P, K] ∧ (Q = P ∨ Q = 1 ∨ P = 1) := by
  unfold bShape at h
  obtain ⟨r, hr, h⟩ := bindE_inv h
  change bShapeRev [1, Q, 1, 1, 1] [K, P] = .ok r at hr
  unfold bShapeRev at hr
  obtain ⟨d1, h1, hr⟩ := bindE_inv hr
  obtain ⟨r1, h2, hr⟩ := bindE_inv hr
  unfold bShapeRev at h2
  obtain ⟨d2, h3, h2⟩ := bindE_inv h2
  obtain ⟨r2, h4, h2⟩ := bindE_inv h2
  unfold bShapeRev at h4
  cases h4; cases h2; cases hr; cases h
  obtain ⟨e2, hd⟩ := bDim_inv h3
  obtain ⟨e1, -⟩ := bDim_inv h1
  refine ⟨?_, hd⟩
  simp [e1, e2]

theorem torchFieldsFrom_raises {J : TorchFns} {N P K Q : ℕ} (h : ¬((P = 1 ∨ P = Q) ∧ (K = 1 ∨ K = 3))) {o : TorchCoefs}
    (ho : o.WF N P K) {r theta phi : Ten ℝ} (hr : r.shape = [Q]) (ht : theta.shape = [Q]) (E0 : ℂ) (epsilon : ℝ) (R : FieldsT) :
    torchFieldsFrom J o r theta phi E0 epsilon ≠ .ok R := by
  intro hR
  have e1 : o.rC.shape.headD 0 = P := by rw [ho.rC]; rfl
  have e2 : o.k0.shape.getD 1 0 = K := by rw [ho.k0]; rfl
  have e3 : theta.shape.headD 0 = Q := by rw [ht]; rfl
  unfold torchFieldsFrom at hR
  simp only [e1, e2, e3] at hR
  obtain ⟨i1, h1, hR⟩ := bindE_inv hR
  obtain ⟨_, -, hR⟩ := bindE_inv hR
  obtain ⟨_, -, hR⟩ := bindE_inv hR
  obtain ⟨_, -, hR⟩ := bindE_inv hR
  obtain ⟨_, -, hR⟩ := bindE_inv hR
  obtain ⟨_, -, hR⟩ := bindE_inv hR
  obtain ⟨_, -, hR⟩ := bindE_inv hR
  obtain ⟨_, -, hR⟩ := bindE_inv hR
  obtain ⟨_, -, hR⟩ := bindE_inv hR
  obtain ⟨m1, hm, hR⟩ := bindE_inv hR
  clear hR
  have sr : r.posAxes.shape = [1, 1, 1, Q, 1] := by simp [Ten.posAxes, Ten.unsqueeze, hr]
  obtain ⟨sh, hsh, h1⟩ := bindE_inv h1
  rw [sr, ho.rC] at hsh
  have hi1 : i1.shape = sh := by cases h1; rfl
  obtain ⟨hsh, hd⟩ := bShape_pos hsh
  rw [hsh] at hi1
  unfold Ten.broadcastTo at hm
  split_ifs at hm with hc
  rw [hi1] at hc
  have hj : jn Q P = Q ∧ (K = 3 ∨ K = 1) := by
    have := hc.2
    simp at this
    refine ⟨?_, this.2⟩
    rcases this.1 with e | e
    · exact e
    · rw [e]
      unfold jn at e
      split_ifs at e with hq
      · exact hq.symm
      · exact absurd e hq
  refine h ⟨?_, hj.2.symm⟩
  have h1 := hj.1
  unfold jn at h1
  split_ifs at h1 with hq
  · exact .inr h1
  · rcases hd with e | e | e
    · exact .inr e.symm
    · exact absurd e hq
    · exact .inl e

end MieDiff
