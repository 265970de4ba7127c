import Verif.Model.Tools
import Verif.Proofs.BatchSolver
import Verif.Proofs.NearTorch

/-!
# C109: `detach_tensor`; C110: plot methods; C111: missing torchgdm
-/

namespace MieDiff

variable {α : Type}

namespace Spec

/-- A tensor that numpy can read once it is detached. -/
def Readable (t : TorchTen α) : Prop := t.dev = "cpu" ∧ t.pending = false

end Spec

theorem numpy_detach {t : TorchTen α} (h : Spec.Readable t) : t.detach.numpy = .ok t.val := by
  simp [TorchTen.numpy, TorchTen.detach, h.1, h.2]

theorem numpy_detach_inv {t : TorchTen α} {a : Ten α} (h : t.detach.numpy = .ok a) : Spec.Readable t ∧ a = t.val := by
  unfold TorchTen.numpy TorchTen.detach at h
  by_cases h1 : t.dev = "cpu"
  · cases h2 : t.pending
    · simp [h1, h2] at h
      exact ⟨⟨h1, h2⟩, h.symm⟩
    · simp [h1, h2] at h
  · simp [h1] at h

theorem detach_mapM {ts : List (TorchTen α)} (h : ∀ t ∈ ts, Spec.Readable t) :
    (ts.mapM fun x => x.detach.numpy : Py _) = .ok (ts.map (·.val)) := by
  induction ts with
  | nil => rfl
  | cons t ts ih =>
    rw [List.mapM_cons, numpy_detach (h t (by simp)), bind_ok, ih fun u hu => h u (by simp [hu])]
    rfl

theorem item_mapM {ts : List (TorchTen α)} {xs : List α} (h : ∀ t ∈ ts, Spec.Readable t) (hx : ts.map (·.val.entries) = xs.map fun x => [x]) :
    (ts.mapM fun x => do let a ← x.detach.numpy; npItem a : Py _) = .ok xs := by
  induction ts generalizing xs with
  | nil => cases xs with
    | nil => rfl
    | cons x xs => simp at hx
  | cons t ts ih =>
    cases xs with
    | nil => simp at hx
    | cons x xs =>
      simp only [List.map_cons, List.cons.injEq] at hx
      have e : npItem t.val = .ok x := by unfold npItem; rw [hx.1]
      rw [List.mapM_cons, numpy_detach (h t (by simp)), bind_ok, e, bind_ok, ih (fun u hu => h u (by simp [hu])) hx.2]
      rfl

/-- C109: one tensor gives one array with the same values, and `item` changes nothing; a tuple gives the arrays in the same order, or with `item` the numbers, if every
tensor has one entry. Recorded gradients are no obstacle. -/
theorem C109_values :
    (∀ (t : TorchTen α) (item : Bool), Spec.Readable t → detachTensor (.one t) item = .ok (.one (.array t.val))) ∧
    (∀ ts : List (TorchTen α), (∀ t ∈ ts, Spec.Readable t) → detachTensor (.tuple ts) = .ok (.tuple (ts.map fun t => .array t.val))) ∧
    ∀ (ts : List (TorchTen α)) (xs : List α), (∀ t ∈ ts, Spec.Readable t) → ts.map (·.val.entries) = xs.map (fun x => [x]) →
      detachTensor (.tuple ts) true = .ok (.tuple (xs.map .number)) := by
  refine ⟨fun t item h => ?_, fun ts h => ?_, fun ts xs h hx => ?_⟩
  · cases item <;> simp [detachTensor, numpy_detach h, bind_ok]
  · simp only [detachTensor, detach_mapM h, bind_ok, List.map_map]
    rfl
  · simp only [detachTensor, item_mapM h hx, bind_ok]

/-- C109: no other call returns. -/
theorem C109_only {args : DetachArg α} {item : Bool} {out : DetachOut α} (h : detachTensor args item = .ok out) :
    (∃ t, args = .one t ∧ Spec.Readable t) ∨
    ∃ ts, args = .tuple ts ∧ (∀ t ∈ ts, Spec.Readable t) ∧ (item = true → ∀ t ∈ ts, ∃ x, t.val.entries = [x]) := by
  cases args with
  | one t =>
    refine .inl ⟨t, rfl, ?_⟩
    cases item <;>
    · simp only [detachTensor] at h
      obtain ⟨a, ha, -⟩ := bindE_inv h
      exact (numpy_detach_inv ha).1
  | other => cases item <;> simp [detachTensor] at h
  | tuple ts =>
    refine .inr ⟨ts, rfl, ?_⟩
    cases item with
    | false =>
      simp only [detachTensor] at h
      obtain ⟨vs, hv, -⟩ := bindE_inv h
      refine ⟨fun t ht => ?_, fun hh => by cases hh⟩
      obtain ⟨i, hi, rfl⟩ := List.mem_iff_getElem.1 ht
      clear h
      induction ts generalizing vs i with
      | nil => simp at hi
      | cons u us ih =>
        rw [List.mapM_cons] at hv
        obtain ⟨a, ha, hv⟩ := bindE_inv hv
        obtain ⟨ws, hw, -⟩ := bindE_inv hv
        cases i with
        | zero => exact (numpy_detach_inv ha).1
        | succ i => exact ih ws hw i (by simpa using hi) (List.getElem_mem _)
    | true =>
      simp only [detachTensor] at h
      obtain ⟨vs, hv, -⟩ := bindE_inv h
      have key : ∀ (ts : List (TorchTen α)) vs, (ts.mapM fun x => do let a ← x.detach.numpy; npItem a : Py _) = .ok vs →
          ∀ t ∈ ts, Spec.Readable t ∧ ∃ x, t.val.entries = [x] := by
        intro ts
        induction ts with
        | nil => simp
        | cons u us ih =>
          intro vs hv t ht
          rw [List.mapM_cons] at hv
          obtain ⟨a, ha, hv⟩ := bindE_inv hv
          obtain ⟨ws, hw, -⟩ := bindE_inv hv
          rcases List.mem_cons.1 ht with rfl | ht
          · obtain ⟨b, hb, hn⟩ := bindE_inv ha
            obtain ⟨hr, rfl⟩ := numpy_detach_inv hb
            refine ⟨hr, ?_⟩
            unfold npItem at hn
            split at hn
            · exact ⟨_, ‹_›⟩
            · cases hn
          · exact ih ws hw t ht
      exact ⟨fun t ht => (key ts vs hv t ht).1, fun _ t ht => (key ts vs hv t ht).2⟩

/-- C109: whether gradients are recorded has no influence. -/
theorem C109_tracked (t : TorchTen α) (ts : List (TorchTen α)) (b : Bool) (item : Bool) :
    detachTensor (.one { t with tracked := b }) item = detachTensor (.one t) item ∧
    detachTensor (.tuple (ts.map fun t => { t with tracked := b })) item = detachTensor (.tuple ts) item := by
  constructor
  · cases item <;> rfl
  · have e : ∀ f : TorchTen α → Py α, (∀ t, f { t with tracked := b } = f t) →
        ((ts.map fun t => { t with tracked := b }).mapM f : Py _) = ts.mapM f := by
      intro f hf
      rw [List.mapM_map]
      exact congrArg (fun g => List.mapM g ts) (funext hf)
    have e' : ∀ f : TorchTen α → Py (Ten α), (∀ t, f { t with tracked := b } = f t) →
        ((ts.map fun t => { t with tracked := b }).mapM f : Py _) = ts.mapM f := by
      intro f hf
      rw [List.mapM_map]
      exact congrArg (fun g => List.mapM g ts) (funext hf)
    cases item
    · simp only [detachTensor]
      rw [e' _ fun _ => rfl]
    · simp only [detachTensor]
      rw [e _ fun _ => rfl]

/-- C109: the exceptions: a device other than the cpu is a `TypeError`, a pending conjugation a `RuntimeError`, something that is no tensor an `AttributeError`, and
`item` of a tensor without exactly one entry a `ValueError`. -/
theorem C109_errors :
    (∀ (t : TorchTen α) item, t.dev ≠ "cpu" → detachTensor (.one t) item = .error .typeError) ∧
    (∀ (t : TorchTen α) item, t.dev = "cpu" → t.pending = true → detachTensor (.one t) item = .error .runtimeError) ∧
    (∀ item, detachTensor (.other : DetachArg α) item = .error .attributeError) ∧
    ∀ (t : TorchTen α) (ts : List (TorchTen α)), Spec.Readable t → t.val.entries.length ≠ 1 → detachTensor (.tuple (t :: ts)) true = .error .valueError := by
  refine ⟨fun t item h => ?_, fun t item h h2 => ?_, fun item => ?_, fun t ts h hl => ?_⟩
  · cases item <;> simp [detachTensor, TorchTen.numpy, TorchTen.detach, h, Bind.bind, Except.bind]
  · cases item <;> simp [detachTensor, TorchTen.numpy, TorchTen.detach, h, h2, Bind.bind, Except.bind]
  · cases item <;> rfl
  · have e : npItem t.val = .error .valueError := by
      unfold npItem
      split
      · rename_i x hx
        rw [hx] at hl
        simp at hl
      · rfl
    simp only [detachTensor, List.mapM_cons, numpy_detach h, bind_ok, e]
    rfl

/-- A tuple of a recorded and an unrecorded number gives two numbers; a pair in the tuple is refused; one tensor stays an array with `item`. -/
example : detachTensor (.tuple [⟨Ten.scalar 3, "cpu", true, false⟩, ⟨Ten.scalar 4, "cpu", false, false⟩]) true = .ok (.tuple [.number 3, .number 4]) ∧
    detachTensor (.tuple [⟨Ten.ofList 0 [1, 2], "cpu", true, false⟩]) true = .error .valueError ∧
    detachTensor (.one ⟨Ten.scalar 3, "cpu", true, false⟩) true = .ok (.one (.array (Ten.scalar 3))) ∧
    detachTensor (.one ⟨Ten.scalar 3, "cuda", true, false⟩) = .error .typeError := by
  refine ⟨?_, ?_, ?_, ?_⟩
  · exact C109_values.2.2 [⟨Ten.scalar 3, "cpu", true, false⟩, ⟨Ten.scalar 4, "cpu", false, false⟩] [3, 4] (by simp [Spec.Readable])
      (by simp [Ten.entries, Ten.indices, Ten.scalar])
  · exact C109_errors.2.2.2 ⟨Ten.ofList 0 [1, 2], "cpu", true, false⟩ [] ⟨rfl, rfl⟩ (by simp [Ten.entries, Ten.indices, Ten.ofList, List.range_succ])
  · exact C109_values.1 ⟨Ten.scalar 3, "cpu", true, false⟩ true ⟨rfl, rfl⟩
  · exact C109_errors.1 ⟨Ten.scalar 3, "cuda", true, false⟩ false (by decide)

/-! ## C110 -/

/-- C110 fails: with any installed modules, for every material, neither plot method reaches its drawing commands; both raise `ModuleNotFoundError`.  The material is
unchanged.  (The property would be that the call returns what `draw` returns.) -/
theorem C110_fails_partial {R : Type} (site : List String) (draw : MatObj → Except ToolErr R × MatObj) (m : MatObj) :
    ∃ name, plotMaterial site draw m = (.error (.moduleNotFound name), m) ∧
      ("matplotlib.pyplot" ∈ site → name = "pymiediff.helper.plotting") := by
  have h2 : importModule site "pymiediff.helper.plotting" = .error (.moduleNotFound "pymiediff.helper.plotting") := by
    unfold importModule
    rw [if_pos (by decide +kernel), if_neg (by decide)]
  have h1 : importModule site "matplotlib.pyplot" =
      if "matplotlib.pyplot" ∈ site then .ok () else .error (.moduleNotFound "matplotlib.pyplot") := by
    unfold importModule
    rw [if_neg (by decide +kernel)]
  unfold plotMaterial
  rw [h1, h2]
  by_cases hs : "matplotlib.pyplot" ∈ site
  · rw [if_pos hs]
    exact ⟨_, rfl, fun _ => rfl⟩
  · rw [if_neg hs]
    exact ⟨_, rfl, fun h => absurd h hs⟩

/-- With matplotlib installed and a constant material. -/
example (m : MatObj) : plotMaterial ["matplotlib.pyplot"] (fun m => (.ok (), m)) m = (.error (.moduleNotFound "pymiediff.helper.plotting"), m) ∧
    plotMaterial ["matplotlib.pyplot"] (fun m => (.ok (), m)) m ≠ (.ok (), m) := by
  obtain ⟨name, h1, h2⟩ := C110_fails_partial ["matplotlib.pyplot"] (fun m => (Except.ok (), m)) m
  rw [h2 (by simp)] at h1
  exact ⟨h1, by rw [h1]; simp⟩

/-! ## C111 -/

/-- C111 fails: without torchgdm, no instantiation raises, not even with arguments that the real class refuses; the caller gets an exception object.  (The property
would be that every instantiation raises.) -/
theorem C111_fails_partial {R : Type} (init : Py R) : ∃ msg, callStruct false init = .ok (.exception msg) ∧ ∀ e, callStruct false init ≠ .error e :=
  ⟨_, rfl, fun e h => by cases h⟩

/-- C111: with torchgdm, the class behaves as its constructor (C104, C108), and never returns an exception object. -/
theorem C111_available {R : Type} (init : Py R) :
    (∀ s, init = .ok s → callStruct true init = .ok (.structure_ s)) ∧ (∀ e, init = .error e → callStruct true init = .error e) := by
  constructor
  · rintro s rfl; rfl
  · rintro e rfl; rfl

/-- A constructor that refuses its arguments raises with torchgdm and returns without. -/
example : callStruct true (.error .assertionError : Py ℕ) = .error .assertionError ∧
    ∃ msg, callStruct false (.error .assertionError : Py ℕ) = .ok (.exception msg) :=
  ⟨(C111_available _).2 _ rfl, (C111_fails_partial _).imp fun _ h => h.1⟩

end MieDiff
