import Verif.Model.Special
import Mathlib.Tactic.Ring
import Mathlib.Tactic.Linarith
import Mathlib.Tactic.FieldSimp

/-!
# Refinement of the loops of `special.py` to plain recursions

The model keeps the Python loops; here each loop is shown to compute a recursively defined sequence.
-/

namespace MieDiff

open Complex

/-! ## Lists indexed by order -/

/-- The list `[f 0, ..., f n]`. -/
def tab {α : Type*} (n : ℕ) (f : ℕ → α) : List α := (List.range (n + 1)).map f

@[simp] theorem tab_length {α : Type*} (n : ℕ) (f : ℕ → α) : (tab n f).length = n + 1 := by
  simp [tab]

theorem tab_getElem? {α : Type*} (n : ℕ) (f : ℕ → α) (i : ℕ) :
    (tab n f)[i]? = if i ≤ n then some (f i) else none := by
  unfold tab
  rw [List.getElem?_map]
  split
  · rw [List.getElem?_range (by omega)]; rfl
  · rw [List.getElem?_eq_none (by simp; omega)]; rfl

theorem pyIdx_tab {α : Type*} {n : ℕ} {f : ℕ → α} {i : ℕ} (h : i ≤ n) :
    pyIdx (tab n f) i = .ok (f i) := by
  unfold pyIdx; rw [tab_getElem?]; simp [h]

theorem tab_getD {α : Type*} {n : ℕ} {f : ℕ → α} {i : ℕ} (h : i ≤ n) (d : α) :
    (tab n f).getD i d = f i := by
  rw [List.getD_eq_getElem?_getD, tab_getElem?]; simp [h]

theorem tab_succ {α : Type*} (n : ℕ) (f : ℕ → α) : tab (n + 1) f = tab n f ++ [f (n + 1)] := by
  simp [tab, List.range_succ (n := n + 1)]

theorem tab_zero {α : Type*} (f : ℕ → α) : tab 0 f = [f 0] := by simp [tab]

theorem tab_congr {α : Type*} {n : ℕ} {f g : ℕ → α} (h : ∀ i ≤ n, f i = g i) : tab n f = tab n g := by
  unfold tab
  apply List.map_congr_left
  intro i hi
  exact h i (by simpa [Nat.lt_succ_iff] using hi)

theorem tab_inj {α : Type*} {n : ℕ} {f g : ℕ → α} (h : tab n f = tab n g) : ∀ i ≤ n, f i = g i := by
  intro i hi
  have h1 := tab_getElem? n f i
  have h2 := tab_getElem? n g i
  rw [h, h2] at h1
  simpa [hi] using h1.symm

theorem eq_tab {α : Type*} {n : ℕ} {f : ℕ → α} {l : List α}
    (h : ∀ i, l[i]? = if i ≤ n then some (f i) else none) : l = tab n f := by
  apply List.ext_getElem?
  intro i; rw [h, tab_getElem?]

theorem eq_tab' {α : Type*} {n : ℕ} {f : ℕ → α} {l : List α} (hl : l.length = n + 1)
    (h : ∀ i ≤ n, l[i]? = some (f i)) : l = tab n f := by
  apply eq_tab
  intro i
  by_cases hi : i ≤ n
  · rw [if_pos hi, h i hi]
  · rw [if_neg hi, List.getElem?_eq_none (by omega)]

theorem zipWith_tab {α β γ : Type*} (g : α → β → γ) (n : ℕ) (a : ℕ → α) (b : ℕ → β) :
    List.zipWith g (tab n a) (tab n b) = tab n (fun i => g (a i) (b i)) := by
  apply eq_tab
  intro i
  rw [List.getElem?_zipWith, tab_getElem?, tab_getElem?]
  by_cases h : i ≤ n <;> simp [h]

theorem map_tab {α β : Type*} (g : α → β) (n : ℕ) (a : ℕ → α) :
    (tab n a).map g = tab n (fun i => g (a i)) := by
  simp [tab]

theorem tab_tail {α : Type*} (n : ℕ) (f : ℕ → α) : (tab (n + 1) f).tail = tab n (fun i => f (i + 1)) := by
  apply eq_tab
  intro i
  rw [List.getElem?_tail, tab_getElem?]
  simp

theorem tab_dropLast {α : Type*} (n : ℕ) (f : ℕ → α) : (tab (n + 1) f).dropLast = tab n f := by
  rw [tab_succ]; simp

theorem tab_cons {α : Type*} (n : ℕ) (f : ℕ → α) :
    tab (n + 1) f = f 0 :: tab n (fun i => f (i + 1)) := by
  rw [← tab_tail]
  have : tab (n+1) f ≠ [] := by simp [tab]
  obtain ⟨a, l, h⟩ := List.exists_cons_of_ne_nil this
  have h0 : (tab (n+1) f)[0]? = some (f 0) := by rw [tab_getElem?]; simp
  rw [h] at h0 ⊢
  simp at h0; simp [h0]

theorem rangeDown_succ (n : ℕ) : rangeDown (n + 1) = (n + 1) :: rangeDown n := by
  simp [rangeDown, List.range_succ]

theorem rangeDown_zero : rangeDown 0 = [] := by simp [rangeDown]

theorem rangeFrom1_succ (n : ℕ) : rangeFrom1 (n + 2) = rangeFrom1 (n + 1) ++ [n + 1] := by
  simp [rangeFrom1, List.range_succ]

theorem rangeFrom1_one : rangeFrom1 1 = [] := by simp [rangeFrom1]

/-- Loop rule for `for nn in range(1, n+1)` in the exception monad. -/
theorem foldlM_rangeFrom1 {σ : Type*} (step : σ → ℕ → Py σ) (inv : ℕ → σ) (n : ℕ)
    (h : ∀ m < n, step (inv m) (m + 1) = .ok (inv (m + 1))) :
    (rangeFrom1 (n + 1)).foldlM step (inv 0) = .ok (inv n) := by
  induction n with
  | zero => rw [rangeFrom1_one]; rfl
  | succ n ih =>
    rw [rangeFrom1_succ, List.foldlM_append, ih (fun m hm => h m (by omega))]
    have e : (do
        let init ← (Except.ok (inv n) : Py σ)
        List.foldlM step init [n + 1]) = step (inv n) (n + 1) := by
      simp only [List.foldlM_cons, List.foldlM_nil, Bind.bind, Except.bind]
      cases step (inv n) (n + 1) <;> rfl
    rw [e, h n (by omega)]

theorem stackOpt_map_some {α : Type*} {l : List α} (h : l ≠ []) :
    stackOpt (l.map some) = .ok l := by
  unfold stackOpt
  have : (l.map some).mapM id = some l := by
    clear h
    induction l with
    | nil => rfl
    | cons a l ih => simp [List.mapM_cons, ih]
  rw [if_neg (by simpa using h), this]

theorem stackOpt_none {α : Type*} {l : List (Option α)} (h : none ∈ l) :
    stackOpt l = .error .typeError := by
  unfold stackOpt
  have : l.mapM id = none := by
    induction l with
    | nil => simp at h
    | cons a l ih =>
      rcases List.mem_cons.1 h with h | h
      · subst h; simp [List.mapM_cons]
      · simp [List.mapM_cons, ih h]
        
  rw [if_neg (by rintro rfl; simp at h), this]

/-! ## `pena_D1_n` -/

/-- `d1Down zs eps N j` is the value of the downward recurrence at order `N - j`. -/
noncomputable def d1Down (zs : ℂ) (eps : ℝ) (N : ℕ) : ℕ → ℂ
  | 0 => 0
  | j + 1 =>
    ((N - j : ℕ) : ℂ) / zs - 1 / guardAdd eps (d1Down zs eps N j + ((N - j : ℕ) : ℂ) / zs)

/-- Value at order `n` of the recurrence started with `0` at order `N`. -/
noncomputable def d1Val (zs : ℂ) (eps : ℝ) (N n : ℕ) : ℂ := d1Down zs eps N (N - n)

theorem d1Val_top (zs : ℂ) (eps : ℝ) (N : ℕ) : d1Val zs eps N N = 0 := by simp [d1Val, d1Down]

theorem d1Val_step (zs : ℂ) (eps : ℝ) {N n : ℕ} (h : n < N) :
    d1Val zs eps N n = ((n + 1 : ℕ) : ℂ) / zs -
      1 / guardAdd eps (d1Val zs eps N (n + 1) + ((n + 1 : ℕ) : ℂ) / zs) := by
  unfold d1Val
  obtain ⟨j, hj⟩ : ∃ j, N - n = j + 1 := ⟨N - n - 1, by omega⟩
  have h1 : N - (n + 1) = j := by omega
  have h2 : N - j = n + 1 := by omega
  rw [hj, h1, d1Down, h2]

theorem penaD1_loop (nMax : ℕ) (zs : ℂ) (eps : ℝ) (N : ℕ) :
    ∀ m ≤ N, ∀ L : List (Option ℂ),
      let st := (rangeDown m).foldl (penaD1Step nMax zs eps) (d1Val zs eps N m, L)
      st.1 = d1Val zs eps N 0 ∧ st.2.length = L.length ∧
        ∀ i, i < L.length → st.2[i]? =
          if i < m ∧ i ≤ nMax then some (some (d1Val zs eps N i)) else L[i]? := by
  intro m
  induction m with
  | zero => intro _ L; simp [rangeDown_zero]
  | succ m ih =>
    intro hm L
    rw [rangeDown_succ, List.foldl_cons]
    have hstep : penaD1Step nMax zs eps (d1Val zs eps N (m + 1), L) (m + 1) =
        (d1Val zs eps N m, if m ≤ nMax then L.set m (some (d1Val zs eps N m)) else L) := by
      unfold penaD1Step
      simp only [Nat.add_sub_cancel]
      rw [← d1Val_step zs eps (by omega : m < N)]
    rw [hstep]
    obtain ⟨h1, h2, h3⟩ := ih (by omega) (if m ≤ nMax then L.set m (some (d1Val zs eps N m)) else L)
    refine ⟨h1, ?_, ?_⟩
    · rw [h2]; split <;> simp
    · intro i hi
      rw [h3 i (by split <;> simpa using hi)]
      by_cases h : i < m ∧ i ≤ nMax
      · rw [if_pos h, if_pos ⟨by omega, h.2⟩]
      · rw [if_neg h]
        by_cases hmm : m ≤ nMax
        · rw [if_pos hmm, List.getElem?_set]
          by_cases hmi : m = i
          · subst hmi; simp [hi, hmm]
          · rw [if_neg hmi, if_neg (by omega)]
        · rw [if_neg hmm, if_neg (by omega)]

/-- `pena_D1_n` returns the downward recurrence values whenever at least one extra order is used. -/
theorem penaD1_eq (n : ℕ) (z : ℂ) (nAdd : ℕ) (eps : ℝ) (h : 1 ≤ nAdd) :
    penaD1 n z nAdd eps = .ok (tab n (d1Val (guardAdd eps z) eps (n + nAdd))) := by
  unfold penaD1
  rw [if_neg (by omega)]
  simp only
  have hN : ((n : ℤ) + (nAdd : ℤ)).toNat = n + nAdd := by omega
  rw [hN]
  have := penaD1_loop ((n : ℤ).toNat) (guardAdd eps z) eps (n + nAdd) (n + nAdd) le_rfl
    (List.replicate ((n : ℤ).toNat + 1) none)
  rw [d1Val_top] at this
  obtain ⟨_, h2, h3⟩ := this
  simp only [Int.toNat_natCast, List.length_replicate] at h2 h3 ⊢
  set st := (rangeDown (n + nAdd)).foldl (penaD1Step n (guardAdd eps z) eps)
      (0, List.replicate (n + 1) none) with hst
  have : st.2 = (tab n (d1Val (guardAdd eps z) eps (n + nAdd))).map some := by
    apply List.ext_getElem?
    intro i
    by_cases hi : i < n + 1
    · rw [h3 i hi, if_pos (by omega), List.getElem?_map, tab_getElem?, if_pos (by omega)]; rfl
    · rw [List.getElem?_eq_none (by omega), List.getElem?_eq_none (by simp; omega)]
  rw [this, stackOpt_map_some (by simp [tab])]

/-- With no extra order the highest entry is never written and stacking fails. -/
theorem penaD1_no_extra (n : ℕ) (z : ℂ) (nAdd : ℤ) (eps : ℝ) (h : nAdd ≤ 0) :
    penaD1 n z nAdd eps = .error .typeError := by
  unfold penaD1
  rw [if_neg (by omega)]
  simp only
  apply stackOpt_none
  have := penaD1_loop ((n : ℤ).toNat) (guardAdd eps z) eps ((n : ℤ) + nAdd).toNat _ le_rfl
    (List.replicate ((n : ℤ).toNat + 1) none)
  rw [d1Val_top] at this
  obtain ⟨_, h2, h3⟩ := this
  have h4 := h3 n (by simp)
  rw [if_neg (by omega)] at h4
  simp at h4
  exact List.mem_of_getElem? h4

/-! ## `pena_D3_n` -/

/-- `(psi_zeta, D3)` at order `n` for a given log-derivative sequence `D`. -/
noncomputable def pzD3 (z zs : ℂ) (eps : ℝ) (D : ℕ → ℂ) : ℕ → ℂ × ℂ
  | 0 => ((1 / 2 : ℂ) * (1 - exp (2 * I * z)), I)
  | n + 1 =>
    let p := (pzD3 z zs eps D n).1 * (((n + 1 : ℕ) : ℂ) / zs - D n) *
      (((n + 1 : ℕ) : ℂ) / zs - (pzD3 z zs eps D n).2)
    (p, D (n + 1) + I / guardAdd eps p)

/-- `D3` at order `n`. -/
noncomputable def d3Val (z zs : ℂ) (eps : ℝ) (D : ℕ → ℂ) (n : ℕ) : ℂ := (pzD3 z zs eps D n).2

theorem penaD3_eq (n : ℕ) (z : ℂ) (D : ℕ → ℂ) (eps : ℝ) :
    penaD3 n z (tab n D) eps = .ok (tab n (d3Val z (guardAdd eps z) eps D)) := by
  unfold penaD3
  rw [if_neg (by omega)]
  simp only [Int.toNat_natCast]
  have := foldlM_rangeFrom1 (penaD3Step (guardAdd eps z) (tab n D) eps)
    (fun m => ((pzD3 z (guardAdd eps z) eps D m).1, (pzD3 z (guardAdd eps z) eps D m).2,
      tab m (d3Val z (guardAdd eps z) eps D))) n (by
      intro m hm
      unfold penaD3Step
      simp only [Nat.add_sub_cancel]
      rw [pyIdx_tab (by omega), pyIdx_tab (by omega), tab_succ]
      rfl)
  simp only [tab_zero] at this
  have e0 : d3Val z (guardAdd eps z) eps D 0 = I := rfl
  rw [e0] at this
  simp only [pzD3] at this
  rw [this]; rfl

/-! ## `pena_Q_n` -/

/-- Order-`n` value of the interface ratio recurrence. -/
noncomputable def qVal (z1 z2 x1 x2 : ℂ) (eps : ℝ) (D11 D12 D31 D32 : ℕ → ℂ) : ℕ → ℂ
  | 0 => (exp (-2 * I * z1.re) - exp (-2 * z1.im : ℝ)) /
      guardAdd eps (exp (-2 * I * z2.re) - exp (-2 * z2.im : ℝ)) *
      exp (-2 * (z2.im - z1.im) : ℝ)
  | n + 1 => qVal z1 z2 x1 x2 eps D11 D12 D31 D32 n * (x1 / guardAdd eps x2) ^ 2 *
      ((z2 * D12 (n + 1) + (n + 1 : ℕ)) * ((n + 1 : ℕ) - z2 * D32 n) /
        guardAdd eps ((z1 * D11 (n + 1) + (n + 1 : ℕ)) * ((n + 1 : ℕ) - z1 * D31 n)))

theorem penaQ_eq (n : ℕ) (z1 z2 x1 x2 : ℂ) (D11 D12 D31 D32 : ℕ → ℂ) (eps : ℝ) :
    penaQ n z1 z2 x1 x2 (tab n D11) (tab n D12) (tab n D31) (tab n D32) eps =
      .ok (tab n (qVal z1 z2 x1 x2 eps D11 D12 D31 D32)) := by
  unfold penaQ
  have := foldlM_rangeFrom1 (penaQStep z1 z2 ((x1 / guardAdd eps x2) ^ 2) (tab n D11) (tab n D12)
      (tab n D31) (tab n D32) eps)
    (fun m => (qVal z1 z2 x1 x2 eps D11 D12 D31 D32 m,
      tab m (qVal z1 z2 x1 x2 eps D11 D12 D31 D32))) n (by
      intro m hm
      unfold penaQStep
      simp only [Nat.add_sub_cancel]
      rw [pyIdx_tab (by omega), pyIdx_tab (by omega), pyIdx_tab (by omega), pyIdx_tab (by omega),
        tab_succ]
      rfl)
  simp only [tab_zero, qVal] at this ⊢
  rw [this]; rfl

/-! ## `pena_psi_zeta_n` -/

/-- Product sequence `f_n = f_{n-1} (n/z - D_{n-1})`. -/
noncomputable def prodSeq (f0 zs : ℂ) (D : ℕ → ℂ) : ℕ → ℂ
  | 0 => f0
  | n + 1 => prodSeq f0 zs D n * (((n + 1 : ℕ) : ℂ) / zs - D n)

theorem penaPsiZeta_eq (n : ℕ) (z : ℂ) (D E : ℕ → ℂ) (eps : ℝ) :
    penaPsiZeta n z (tab n D) (tab n E) eps =
      .ok (tab n (prodSeq (sin z) (guardAdd eps z) D),
        tab n (prodSeq (sin z - I * cos z) (guardAdd eps z) E)) := by
  unfold penaPsiZeta
  have := foldlM_rangeFrom1 (penaPsiZetaStep (guardAdd eps z) (tab n D) (tab n E))
    (fun m => (prodSeq (sin z) (guardAdd eps z) D m,
      prodSeq (sin z - I * cos z) (guardAdd eps z) E m,
      tab m (prodSeq (sin z) (guardAdd eps z) D),
      tab m (prodSeq (sin z - I * cos z) (guardAdd eps z) E))) n (by
      intro m hm
      unfold penaPsiZetaStep
      simp only [Nat.add_sub_cancel]
      rw [pyIdx_tab (by omega), pyIdx_tab (by omega), tab_succ, tab_succ]
      rfl)
  simp only [tab_zero, prodSeq] at this ⊢
  rw [this]; rfl

end MieDiff
