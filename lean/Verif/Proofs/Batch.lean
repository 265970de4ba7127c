import Verif.Model.Batch

/-!
# Entrywise functions on arrays are the one-element functions at every position

Evaluation of an array at a position commutes with every entrywise step; errors agree as well.
-/

namespace MieDiff

open Complex

/-! ## `Except` plumbing -/

theorem mapE_bind {α β γ δ : Type} {f : α → β} {h : γ → δ} {x : Py α} {y : Py β} {g : α → Py γ} {g' : β → Py δ}
    (hx : Except.map f x = y) (hg : ∀ a, x = .ok a → Except.map h (g a) = g' (f a)) :
    Except.map h (x >>= g) = y >>= g' := by
  subst hx
  cases x with
  | error e => rfl
  | ok a => exact hg a rfl

theorem mapE_ok {α β : Type} {f : α → β} {a : α} {b : β} (h : f a = b) : Except.map f (.ok a : Py α) = .ok b := by
  subst h; rfl

theorem mapE_foldlM {S T X : Type} (proj : S → T) (f : S → X → Py S) (g : T → X → Py T)
    (h : ∀ s x, Except.map proj (f s x) = g (proj s) x) (l : List X) (s : S) :
    Except.map proj (l.foldlM f s) = l.foldlM g (proj s) := by
  induction l generalizing s with
  | nil => rfl
  | cons x l ih =>
    rw [List.foldlM_cons, List.foldlM_cons]
    exact mapE_bind (h s x) fun a _ => ih a

theorem mapE_foldlM' {S T X Y : Type} (proj : S → T) (q : X → Y) (f : S → X → Py S) (g : T → Y → Py T)
    (h : ∀ s x, Except.map proj (f s x) = g (proj s) (q x)) (l : List X) (s : S) :
    Except.map proj (l.foldlM f s) = (l.map q).foldlM g (proj s) := by
  induction l generalizing s with
  | nil => rfl
  | cons x l ih =>
    rw [List.map_cons, List.foldlM_cons, List.foldlM_cons]
    exact mapE_bind (h s x) fun a _ => ih a

section entrywise

variable {ι : Type}

/-- A stack of arrays at one position. -/
def evalL {α : Type} (i : ι) (l : List (ι → α)) : List α := l.map fun f => f i

theorem pyIdx_evalL {α : Type} (i : ι) (l : List (ι → α)) (n : ℕ) :
    Except.map (fun f : ι → α => f i) (pyIdx l n) = pyIdx (evalL i l) n := by
  unfold pyIdx evalL
  rw [List.getElem?_map]
  cases l[n]? <;> rfl

theorem stackOpt_evalL (i : ι) (l : List (Option (ι → ℂ))) :
    Except.map (evalL i) (stackOpt l) = stackOpt (l.map (Option.map fun f => f i)) := by
  unfold stackOpt
  by_cases hl : l = []
  · subst hl; rfl
  rw [if_neg hl, if_neg (by simpa using hl)]
  have key : ∀ l : List (Option (ι → ℂ)), (l.map (Option.map fun f => f i)).mapM id
      = (l.mapM id).map (evalL i) := by
    intro l
    induction l with
    | nil => rfl
    | cons x l ih =>
      rw [List.map_cons, List.mapM_cons, List.mapM_cons, ih]
      cases x with
      | none => rfl
      | some f =>
        cases h : l.mapM id <;> rfl
  rw [key]
  cases h : l.mapM id <;> rfl

theorem ordAt_eval (l : List (ι → ℂ)) (j : ℕ) (i : ι) : ordAt l j i = (evalL i l).getD j 0 := by
  unfold ordAt evalL
  rw [List.getD_eq_getElem?_getD, List.getD_eq_getElem?_getD, List.getElem?_map]
  cases l[j]? <;> rfl

theorem evalL_length {α : Type} (i : ι) (l : List (ι → α)) : (evalL i l).length = l.length := by simp [evalL]

theorem evalL_append {α : Type} (i : ι) (l : List (ι → α)) (f : ι → α) : evalL i (l ++ [f]) = evalL i l ++ [f i] := by
  simp [evalL]

theorem penaD1T_eval (n : ℤ) (z : ι → ℂ) (i : ι) : Except.map (evalL i) (penaD1T n z) = penaD1 n (z i) := by
  unfold penaD1T penaD1
  by_cases hn : n < 0
  · rw [if_pos hn, if_pos hn]; rfl
  rw [if_neg hn, if_neg hn]
  simp only []
  rw [stackOpt_evalL]
  have key : ∀ (l : List ℕ) (s : (ι → ℂ) × List (Option (ι → ℂ))),
      (fun s : (ι → ℂ) × List (Option (ι → ℂ)) => (s.1 i, s.2.map (Option.map fun f => f i)))
        (l.foldl (penaD1StepT n.toNat (fun i => guardAdd 1e-30 (z i)) 1e-30) s)
      = l.foldl (penaD1Step n.toNat (guardAdd 1e-30 (z i)) 1e-30) (s.1 i, s.2.map (Option.map fun f => f i)) := by
    intro l
    induction l with
    | nil => intro s; rfl
    | cons x l ih =>
      intro s
      rw [List.foldl_cons, List.foldl_cons, ih]
      congr 1
      simp only [penaD1StepT, penaD1Step]
      refine Prod.ext rfl ?_
      simp only
      split_ifs
      · rw [List.map_set]; rfl
      · rfl
  have := congrArg Prod.snd (key (rangeDown (n + 15).toNat) (fun _ => 0, List.replicate (n.toNat + 1) none))
  simp only at this
  rw [this]
  simp

theorem penaD3T_eval (n : ℤ) (z : ι → ℂ) (D1 : List (ι → ℂ)) (i : ι) :
    Except.map (evalL i) (penaD3T n z D1) = penaD3 n (z i) (evalL i D1) := by
  unfold penaD3T penaD3
  by_cases hn : n < 0
  · rw [if_pos hn, if_pos hn]; rfl
  rw [if_neg hn, if_neg hn]
  refine mapE_bind (f := fun s : (ι → ℂ) × (ι → ℂ) × List (ι → ℂ) => ((s.1 i, s.2.1 i, evalL i s.2.2) : D3State))
    (mapE_foldlM _ _ _ ?_ _ _) fun a _ => mapE_ok rfl
  intro s x
  unfold penaD3StepT penaD3Step
  refine mapE_bind (pyIdx_evalL i D1 _) fun a _ => mapE_bind (pyIdx_evalL i D1 _) fun b _ => mapE_ok ?_
  simp only [evalL_append]

theorem penaQT_eval (n : ℕ) (z1 z2 x1 x2 : ι → ℂ) (A B C D : List (ι → ℂ)) (i : ι) :
    Except.map (evalL i) (penaQT n z1 z2 x1 x2 A B C D)
      = penaQ n (z1 i) (z2 i) (x1 i) (x2 i) (evalL i A) (evalL i B) (evalL i C) (evalL i D) := by
  unfold penaQT penaQ
  refine mapE_bind (f := fun s : (ι → ℂ) × List (ι → ℂ) => (s.1 i, evalL i s.2))
    (mapE_foldlM _ _ _ ?_ _ _) fun a _ => mapE_ok rfl
  intro s x
  unfold penaQStepT penaQStep
  refine mapE_bind (pyIdx_evalL i _ _) fun a _ => mapE_bind (pyIdx_evalL i _ _) fun b _ =>
    mapE_bind (pyIdx_evalL i _ _) fun c _ => mapE_bind (pyIdx_evalL i _ _) fun d _ => mapE_ok ?_
  simp only [evalL_append]

theorem penaPsiZetaT_eval (n : ℕ) (z : ι → ℂ) (A B : List (ι → ℂ)) (i : ι) :
    Except.map (fun p => (evalL i p.1, evalL i p.2)) (penaPsiZetaT n z A B)
      = penaPsiZeta n (z i) (evalL i A) (evalL i B) := by
  unfold penaPsiZetaT penaPsiZeta
  refine mapE_bind (f := fun s : (ι → ℂ) × (ι → ℂ) × List (ι → ℂ) × List (ι → ℂ) =>
    ((s.1 i, s.2.1 i, evalL i s.2.2.1, evalL i s.2.2.2) : PZState))
    (mapE_foldlM _ _ _ ?_ _ _) fun a _ => mapE_ok rfl
  intro s x
  unfold penaPsiZetaStepT penaPsiZetaStep
  refine mapE_bind (pyIdx_evalL i _ _) fun a _ => mapE_bind (pyIdx_evalL i _ _) fun b _ => mapE_ok ?_
  simp only [evalL_append]

/-- The layer state at one position. -/
def LayerStateT.eval (s : LayerStateT ι) (i : ι) : LayerState := ⟨s.m i, s.x i, evalL i s.Ha, evalL i s.Hb⟩

theorem layerStepT_eval (n : ℤ) (st : Option (LayerStateT ι)) (l : (ι → ℂ) × (ι → ℂ)) (i : ι) :
    Except.map (Option.map fun s => LayerStateT.eval s i) (layerStepT n st l)
      = layerStep codeD1 n (st.map fun s => LayerStateT.eval s i) (l.1 i, l.2 i) := by
  unfold layerStepT layerStep
  refine mapE_bind (penaD1T_eval n _ i) fun D1c _ => mapE_bind (penaD3T_eval n _ _ i) fun D3c _ => ?_
  cases st with
  | none => exact mapE_ok rfl
  | some prev =>
    refine mapE_bind (penaD1T_eval n _ i) fun D1p _ => mapE_bind (penaD3T_eval n _ _ i) fun D3p _ =>
      mapE_bind (penaQT_eval _ _ _ _ _ _ _ _ _ i) fun Q _ => mapE_ok ?_
    simp only [Option.map_some, LayerStateT.eval, Option.some.injEq, LayerState.mk.injEq, evalL_length, true_and]
    constructor
    all_goals
      simp only [evalL, List.map_map]
      apply List.map_congr_left
      intro j _
      simp only [Function.comp, ordAt_eval, evalL]

theorem penaSolveT_eval (n : ℤ) (hn : 1 ≤ n) (layers : List ((ι → ℂ) × (ι → ℂ))) (i : ι) (k : ℂ) (rs : List ℝ)
    (es : List ℂ) (nEnv : ℂ)
    (hl : layers.map (fun l => (l.1 i, l.2 i))
      = (es.map fun e => csqrt e / nEnv).zip (rs.map fun r : ℝ => k * (r : ℂ))) :
    Except.map (fun p => (evalL i p.1, evalL i p.2)) (penaSolveT n layers) = miecoefPena k rs es nEnv n := by
  unfold penaSolveT miecoefPena miecoefPenaK
  rw [if_neg (by simp), if_neg (by omega)]
  simp only [← hl]
  refine mapE_bind (mapE_foldlM' (Option.map fun s => LayerStateT.eval s i) (fun l => (l.1 i, l.2 i)) _ _
    (fun s x => layerStepT_eval n s x i) layers none) fun st _ => ?_
  cases st with
  | none => rfl
  | some last =>
    refine mapE_bind (penaD1T_eval n _ i) fun D1 _ => mapE_bind (penaD3T_eval n _ _ i) fun D3 _ =>
      mapE_bind (penaPsiZetaT_eval _ _ _ _ i) fun pz _ => mapE_ok ?_
    simp only [Prod.mk.injEq, evalL, List.map_map]
    constructor
    all_goals
      apply List.map_congr_left
      intro j _
      simp only [Function.comp, ordAt_eval, LayerStateT.eval, evalL]

theorem piTauT_eval (n : ℤ) (mu : ι → ℝ) (i : ι) :
    Except.map (fun p => (evalL i p.1, evalL i p.2)) (piTauT n mu) = piTau n (mu i) := by
  unfold piTauT piTau
  by_cases hn : n < 1
  · rw [if_pos hn, if_pos hn]; rfl
  rw [if_neg hn, if_neg hn]
  refine mapE_bind (f := evalL i) (mapE_foldlM _ _ _ ?_ _ _) fun pis _ =>
    mapE_bind (f := evalL i) (mapE_foldlM _ _ _ ?_ _ _) fun taus _ => mapE_ok rfl
  · intro s x
    unfold piStepT piStep
    refine mapE_bind (pyIdx_evalL i _ _) fun a _ => mapE_bind (pyIdx_evalL i _ _) fun b _ => mapE_ok ?_
    simp only [evalL_append]
  · intro s x
    unfold tauStepT tauStep
    refine mapE_bind (pyIdx_evalL i _ _) fun a _ => mapE_bind (pyIdx_evalL i _ _) fun b _ => mapE_ok ?_
    simp only [evalL_append]

end entrywise

end MieDiff
