import Verif.Proofs.Pipeline

/-!
# The internal expansion coefficients of `nearfields` as functions of the order
-/

namespace MieDiff

open Complex Spec

/-- Expansion coefficients of one region as functions of the order. -/
structure RegFn where
  a : ℕ → ℂ
  b : ℕ → ℂ
  c : ℕ → ℂ
  d : ℕ → ℂ

def RegFn.toCoefs (n : ℕ) (r : RegFn) : RegionCoefs := ⟨tab n r.a, tab n r.b, tab n r.c, tab n r.d⟩

/-- The electric and the magnetic wave of a region. -/
def RegFn.wave (r : RegFn) : Pol → ℕ → Wave
  | .tm, i => ⟨r.d i, r.a i⟩
  | .te, i => ⟨r.c i, r.b i⟩

theorem kernels_eq {K : D1Kernel} {n : ℕ} {D : ℂ → ℕ → ℂ} (h : KernelFun K n D) (z : ℂ) :
    kernels K n z = .ok (tab n (D z), tab n (d3Fn D z), tab n (psiFn D z), tab n (zetaFn D z)) := by
  unfold kernels
  simp only [h z, penaD3_eq, Bind.bind, Except.bind, Int.toNat_natCast, penaPsiZeta_eq]
  rfl

noncomputable def nfOrderFn (D : ℂ → ℕ → ℂ) (ml mlp1 xl : ℂ) (nxt : RegFn) (i : ℕ) : ℂ × ℂ × ℂ × ℂ :=
  nfOrder ml mlp1 (nxt.a i) (nxt.b i) (nxt.c i) (nxt.d i)
    (psiFn D (mlp1 * xl) i) (zetaFn D (mlp1 * xl) i) (D (mlp1 * xl) i) (d3Fn D (mlp1 * xl) i)
    (psiFn D (ml * xl) i) (zetaFn D (ml * xl) i) (D (ml * xl) i) (d3Fn D (ml * xl) i)

noncomputable def nfStepFn (D : ℂ → ℕ → ℂ) (ml mlp1 xl : ℂ) (isCore : Bool) (nxt : RegFn) : RegFn where
  a i := if isCore then 0 else (nfOrderFn D ml mlp1 xl nxt i).1
  b i := if isCore then 0 else (nfOrderFn D ml mlp1 xl nxt i).2.1
  c i := (nfOrderFn D ml mlp1 xl nxt i).2.2.1
  d i := (nfOrderFn D ml mlp1 xl nxt i).2.2.2

theorem nfStep_eq {K : D1Kernel} {n : ℕ} {D : ℂ → ℕ → ℂ} (h : KernelFun K n D) (ml mlp1 xl : ℂ) (isCore : Bool)
    (nxt : RegFn) :
    nfStep K n ml mlp1 xl isCore (nxt.toCoefs n) = .ok ((nfStepFn D ml mlp1 xl isCore nxt).toCoefs n) := by
  unfold nfStep
  simp only [kernels_eq h, Bind.bind, Except.bind, RegFn.toCoefs, tab_length]
  have e : ((List.range (n + 1)).map fun i =>
      nfOrder ml mlp1 ((tab n nxt.a).getD i 0) ((tab n nxt.b).getD i 0) ((tab n nxt.c).getD i 0)
        ((tab n nxt.d).getD i 0) ((tab n (psiFn D (mlp1 * xl))).getD i 0) ((tab n (zetaFn D (mlp1 * xl))).getD i 0)
        ((tab n (D (mlp1 * xl))).getD i 0) ((tab n (d3Fn D (mlp1 * xl))).getD i 0)
        ((tab n (psiFn D (ml * xl))).getD i 0) ((tab n (zetaFn D (ml * xl))).getD i 0)
        ((tab n (D (ml * xl))).getD i 0) ((tab n (d3Fn D (ml * xl))).getD i 0)) =
      tab n (nfOrderFn D ml mlp1 xl nxt) := by
    unfold tab
    refine List.map_congr_left fun i hi => ?_
    have hi : i ≤ n := by have := List.mem_range.1 hi; omega
    have t : ∀ f : ℕ → ℂ, (List.map f (List.range (n + 1))).getD i 0 = f i := fun f => tab_getD hi 0
    simp only [t]
    rfl
  rw [e]
  cases isCore <;> simp only [map_tab, nfStepFn, if_true, if_false, Bool.false_eq_true]

/-- The innermost region. -/
noncomputable def nfFn (D : ℂ → ℕ → ℂ) (ext : RegFn) : Bool → List (ℂ × ℂ) → RegFn
  | _, [] => ext
  | isCore, l :: rest => nfStepFn D l.1 (nextIndex rest) l.2 isCore (nfFn D ext false rest)

/-- All regions. -/
noncomputable def nfAll (D : ℂ → ℕ → ℂ) (ext : RegFn) : Bool → List (ℂ × ℂ) → List RegFn
  | _, [] => [ext]
  | isCore, l :: rest => nfFn D ext isCore (l :: rest) :: nfAll D ext false rest

theorem nfAll_cons (D : ℂ → ℕ → ℂ) (ext : RegFn) (isCore : Bool) (layers : List (ℂ × ℂ)) :
    ∃ t, nfAll D ext isCore layers = nfFn D ext isCore layers :: t := by
  cases layers with
  | nil => exact ⟨[], rfl⟩
  | cons l rest => exact ⟨_, rfl⟩

theorem nfRegions_eq {K : D1Kernel} {n : ℕ} {D : ℂ → ℕ → ℂ} (h : KernelFun K n D) (ext : RegFn) :
    ∀ (layers : List (ℂ × ℂ)) (isCore : Bool), nfRegions K n (ext.toCoefs n) isCore layers =
      .ok ((nfAll D ext isCore layers).map (RegFn.toCoefs n)) := by
  intro layers
  induction layers with
  | nil => intro isCore; rfl
  | cons l rest ih =>
    intro isCore
    obtain ⟨ml, xl⟩ := l
    unfold nfRegions
    obtain ⟨t, ht⟩ := nfAll_cons D ext false rest
    rw [ih false, ht]
    simp only [Bind.bind, Except.bind, List.map_cons]
    rw [nfStep_eq h]
    simp only [nfAll, ht, nfFn, List.map_cons]

theorem nfAll_length (D : ℂ → ℕ → ℂ) (ext : RegFn) : ∀ (layers : List (ℂ × ℂ)) (isCore : Bool),
    (nfAll D ext isCore layers).length = layers.length + 1 := by
  intro layers
  induction layers with
  | nil => intro _; rfl
  | cons l rest ih => intro _; simp [nfAll, ih]

theorem nfAll_getElem? (D : ℂ → ℕ → ℂ) (ext : RegFn) : ∀ (layers : List (ℂ × ℂ)) (isCore : Bool) (j : ℕ),
    j ≤ layers.length → (nfAll D ext isCore layers)[j]? = some (nfFn D ext (isCore && j == 0) (layers.drop j)) := by
  intro layers
  induction layers with
  | nil =>
    intro isCore j hj
    obtain rfl : j = 0 := by simpa using hj
    simp [nfAll, nfFn]
  | cons l rest ih =>
    intro isCore j hj
    cases j with
    | zero => simp [nfAll]
    | succ j =>
      rw [nfAll, List.getElem?_cons_succ, ih false j (by simpa using hj)]
      simp

/-- External coefficients: order 0 is zero, `c = d = 1`. -/
noncomputable def extFn (a b : ℕ → ℂ) : RegFn where
  a i := if i = 0 then 0 else a i
  b i := if i = 0 then 0 else b i
  c _ := 1
  d _ := 1

theorem cons_zero_tab (n : ℕ) (a : ℕ → ℂ) :
    (0 :: (List.range n).map fun (i : ℕ) => a (i + 1)) = tab n fun i => if i = 0 then 0 else a i := by
  unfold tab
  rw [List.range_succ_eq_map, List.map_cons, List.map_map]
  rfl

theorem extCoefs_eq (n : ℕ) (a b : ℕ → ℂ) :
    extCoefs ((List.range n).map fun (i : ℕ) => a (i + 1)) ((List.range n).map fun (i : ℕ) => b (i + 1)) =
      (extFn a b).toCoefs n := by
  unfold extCoefs RegFn.toCoefs
  rw [cons_zero_tab, cons_zero_tab, map_tab]
  rfl

/-! ## Exact kernel -/

/-- The inner wave determined by the continuity conditions from the outer one. -/
noncomputable def inwardStep (q : Pol) (i : ℕ) (m m' x : ℂ) (w : Wave) : Wave :=
  match q with
  | .tm => waveOf i (m * x) (w.val i (m' * x)) (m / m' * w.der i (m' * x))
  | .te => waveOf i (m * x) (m / m' * w.val i (m' * x)) (w.der i (m' * x))

theorem inwardStep_cont (q : Pol) (i : ℕ) {m m' x : ℂ} (hz : m * x ≠ 0) (hm : m' ≠ 0) (w : Wave) :
    Cont q i m m' x (inwardStep q i m m' x w) w := by
  cases q
  · refine ⟨waveOf_val i hz _ _, ?_⟩
    rw [inwardStep, waveOf_der i hz]
    field_simp
  · refine ⟨?_, waveOf_der i hz _ _⟩
    rw [inwardStep, waveOf_val i hz]
    field_simp

theorem zeta_U {i : ℕ} {z : ℂ} (hz : z ≠ 0) (hp : ricPsi i z ≠ 0) (hq : ricZeta i z ≠ 0) :
    ricZeta i z * (logD1 i z - logD3 i z) = -I / ricPsi i z ∧ ricPsi i z * (logD1 i z - logD3 i z) = -I / ricZeta i z := by
  have w := ric_wronskian i hz
  unfold logD1 logD3
  constructor
  · field_simp; linear_combination -w
  · field_simp; linear_combination -w

theorem guard_clear {w : ℂ} (hw : w ≠ 0) (h : ‖w‖ ≤ 1e30) : guardAdd solverEps (-I / w) = -I / w := by
  apply guardAdd_of_le
  rw [norm_div, norm_neg, norm_I, le_div_iff₀ (norm_pos_iff.2 hw)]
  unfold solverEps
  linarith

theorem nfOrder_exact {i : ℕ} {ml mlp1 z z' : ℂ} (w v : Wave) (hz : z ≠ 0) (hp : ricPsi i z ≠ 0)
    (hq : ricZeta i z ≠ 0) (hp' : ricPsi i z' ≠ 0) (hq' : ricZeta i z' ≠ 0) (hpb : ‖ricPsi i z‖ ≤ 1e30)
    (hqb : ‖ricZeta i z‖ ≤ 1e30) :
    nfOrder ml mlp1 w.a v.a v.d w.d (ricPsi i z') (ricZeta i z') (logD1 i z') (logD3 i z')
      (ricPsi i z) (ricZeta i z) (logD1 i z) (logD3 i z) =
    ((waveOf i z (w.val i z') (ml / mlp1 * w.der i z')).a, (waveOf i z (ml / mlp1 * v.val i z') (v.der i z')).a,
      (waveOf i z (ml / mlp1 * v.val i z') (v.der i z')).d, (waveOf i z (w.val i z') (ml / mlp1 * w.der i z')).d) := by
  obtain ⟨e1, e2⟩ := zeta_U hz hp hq
  have hI := I_ne_zero
  unfold nfOrder
  simp only [e1, e2, guard_clear hp hpb, guard_clear hq hqb]
  simp only [waveOf, Wave.val, Wave.der, logD1, logD3]
  generalize ml / mlp1 = t
  generalize deriv (ricPsi i) z = p' at *
  generalize deriv (ricZeta i) z = q' at *
  generalize deriv (ricPsi i) z' = P' at *
  generalize deriv (ricZeta i) z' = Q' at *
  generalize ricPsi i z = p at *
  generalize ricZeta i z = q at *
  generalize ricPsi i z' = P at *
  generalize ricZeta i z' = Q at *
  simp only [Prod.mk.injEq]
  refine ⟨?_, ?_, ?_, ?_⟩ <;> (field_simp; ring)

/-- The kernels are exact and the divisions of the coefficient recursion are not guarded at one interface. -/
structure IfaceOK (n : ℕ) (m m' x : ℂ) : Prop where
  inner : KernelOK n (m * x) solverEps
  outer : KernelOK n (m' * x) solverEps
  psi : ∀ i, 1 ≤ i → i ≤ n → ‖ricPsi i (m * x)‖ ≤ 1e30
  zeta : ∀ i, 1 ≤ i → i ≤ n → ‖ricZeta i (m * x)‖ ≤ 1e30

def NFOK (n : ℕ) : List (ℂ × ℂ) → Prop
  | [] => True
  | l :: rest => IfaceOK n l.1 (nextIndex rest) l.2 ∧ NFOK n rest

theorem nfStepFn_exact {n i : ℕ} {m m' x : ℂ} (h : IfaceOK n m m' x) (h1 : 1 ≤ i) (hi : i ≤ n) (q : Pol) (nxt : RegFn) :
    (nfStepFn idealFn m m' x false nxt).wave q i = inwardStep q i m m' x (nxt.wave q i) := by
  have key := nfOrder_exact (i := i) (ml := m) (mlp1 := m') (nxt.wave .tm i) (nxt.wave .te i) h.inner.ne
    (h.inner.psi i hi) (h.inner.zeta i hi) (h.outer.psi i hi) (h.outer.zeta i hi) (h.psi i h1 hi) (h.zeta i h1 hi)
  have e : nfOrderFn idealFn m m' x nxt i = nfOrder m m' (nxt.a i) (nxt.b i) (nxt.c i) (nxt.d i) (ricPsi i (m' * x))
      (ricZeta i (m' * x)) (logD1 i (m' * x)) (logD3 i (m' * x)) (ricPsi i (m * x)) (ricZeta i (m * x))
      (logD1 i (m * x)) (logD3 i (m * x)) := by
    unfold nfOrderFn
    rw [psiFn_ideal h.outer i hi, zetaFn_ideal h.outer i hi, d3Fn_ideal h.outer hi, psiFn_ideal h.inner i hi,
      zetaFn_ideal h.inner i hi, d3Fn_ideal h.inner hi]
    rfl
  have key' := e.trans key
  cases q <;> simp only [RegFn.wave, nfStepFn, key', inwardStep, Bool.false_eq_true, if_false]

/-- Continuity at every interface. -/
theorem nfFn_cont {n i : ℕ} (h1 : 1 ≤ i) (hi : i ≤ n) (q : Pol) (ext : RegFn) (l : ℂ × ℂ) (rest : List (ℂ × ℂ))
    (h : NFOK n (l :: rest)) :
    Cont q i l.1 (nextIndex rest) l.2 ((nfFn idealFn ext false (l :: rest)).wave q i)
      ((nfFn idealFn ext false rest).wave q i) := by
  have hk := h.1
  rw [nfFn, nfStepFn_exact h.1 h1 hi]
  exact inwardStep_cont q i hk.inner.ne (left_ne_zero_of_mul hk.outer.ne) _

theorem chain_cons {q : Pol} {i : ℕ} {w out : Wave} {l : ℂ × ℂ} {rest : List (ℂ × ℂ)} (h : Chain q i w (l :: rest) out) :
    ∃ w', Cont q i l.1 (nextIndex rest) l.2 w w' ∧ (rest = [] ∧ w' = out ∨ rest ≠ [] ∧ Chain q i w' rest out) := by
  obtain ⟨m, x⟩ := l
  cases rest with
  | nil => exact ⟨out, h, Or.inl ⟨rfl, rfl⟩⟩
  | cons l' r =>
    obtain ⟨m', x'⟩ := l'
    obtain ⟨w', a, b⟩ := h
    exact ⟨w', a, Or.inr ⟨by simp, b⟩⟩

/-- The recursion recovers the solution of the interface problem. -/
theorem nfFn_chain {n i : ℕ} (h1 : 1 ≤ i) (hi : i ≤ n) (q : Pol) (ext : RegFn) :
    ∀ (layers : List (ℂ × ℂ)) (w : Wave), NFOK n layers → Chain q i w layers (ext.wave q i) →
      (nfFn idealFn ext false layers).wave q i = w := by
  intro layers
  induction layers with
  | nil => intro w _ h; exact absurd h (by simp [Chain])
  | cons l rest ih =>
    intro w hok h
    obtain ⟨w', hc, hr⟩ := chain_cons h
    have hw : (nfFn idealFn ext false rest).wave q i = w' := by
      rcases hr with ⟨rfl, rfl⟩ | ⟨_, hr⟩
      · rfl
      · exact ih w' hok.2 hr
    have hcont := nfFn_cont h1 hi q ext l rest hok
    rw [hw] at hcont
    exact Cont.unique_inner (left_ne_zero_of_mul hok.1.outer.ne) hok.1.inner.ne hcont hc

/-- Forcing the core to be regular changes nothing. -/
theorem nfFn_core {n i : ℕ} (h1 : 1 ≤ i) (hi : i ≤ n) (q : Pol) (ext : RegFn) (l : ℂ × ℂ) (rest : List (ℂ × ℂ))
    (hok : NFOK n (l :: rest)) {w : Wave} (hw : w.a = 0) (h : Chain q i w (l :: rest) (ext.wave q i)) :
    (nfFn idealFn ext true (l :: rest)).wave q i = (nfFn idealFn ext false (l :: rest)).wave q i := by
  have e := nfFn_chain h1 hi q ext _ w hok h
  have e0 : ((nfFn idealFn ext false (l :: rest)).wave q i).a = 0 := by rw [e, hw]
  cases q <;> simp only [RegFn.wave, nfFn, nfStepFn, Bool.false_eq_true, if_false, if_true] at e0 ⊢ <;> rw [e0]

/-- The solver's guards cover the kernels needed here. -/
theorem nfok_of_run {n : ℕ} (hn : 1 ≤ n) : ∀ (rest : List (ℂ × ℂ)) (l : ℂ × ℂ) (st : HState), st.m = l.1 → st.x = l.2 →
    KernelClear idealFn n (l.1 * l.2) → RunClear idealFn n st rest →
    (∀ l' ∈ l :: rest, ∀ i, 1 ≤ i → i ≤ n → ‖ricPsi i (l'.1 * l'.2)‖ ≤ 1e30 ∧ ‖ricZeta i (l'.1 * l'.2)‖ ≤ 1e30) →
    NFOK n (l :: rest) := by
  intro rest
  induction rest with
  | nil =>
    intro l st hm hx hk h hb
    refine ⟨⟨kernelClear_ideal hk hn, ?_, fun i h1 hi => (hb l (by simp) i h1 hi).1,
      fun i h1 hi => (hb l (by simp) i h1 hi).2⟩, trivial⟩
    have := kernelClear_ideal h.host hn
    rw [hx] at this
    simpa [nextIndex] using this
  | cons l' rest ih =>
    intro l st hm hx hk h hb
    refine ⟨⟨kernelClear_ideal hk hn, ?_, fun i h1 hi => (hb l (by simp) i h1 hi).1,
      fun i h1 hi => (hb l (by simp) i h1 hi).2⟩, ?_⟩
    · have := kernelClear_ideal h.1.prev hn
      rw [hx] at this
      exact this
    · exact ih l' (hStep idealFn st l') rfl rfl h.1.curr h.2 (fun l'' hl => hb l'' (List.mem_cons_of_mem _ hl))

theorem nfok_of_clear {n : ℕ} (hn : 1 ≤ n) {layers : List (ℂ × ℂ)} (h : SolverClear idealFn n layers)
    (hb : ∀ l ∈ layers, ∀ i, 1 ≤ i → i ≤ n → ‖ricPsi i (l.1 * l.2)‖ ≤ 1e30 ∧ ‖ricZeta i (l.1 * l.2)‖ ≤ 1e30) :
    NFOK n layers := by
  cases layers with
  | nil => exact trivial
  | cons l rest => exact nfok_of_run hn rest l (hInit idealFn l) rfl rfl h.1 h.2 hb

end MieDiff
