import Verif.Model.GraphReuse
import Verif.Proofs.BackwardDisp

/-!
# C102: calling a particle again after `backward`

A program that calls a particle with a database material twice at the same wavelength, with a wavenumber that requires a gradient, and calls `backward`
after each call, gets a `RuntimeError` from the second `backward`: the remembered permittivity belongs to a graph that has been freed.
-/

namespace MieDiff

open GraphMat

/-! ## What a call does to the materials -/

theorem GraphMat.lookup_append_ne {cache : List (ℝ × Option ℕ)} {k k' : ℝ} {g : Option ℕ} (h : k ≠ k') :
    lookup (cache ++ [(k', g)]) k = lookup cache k := by
  unfold lookup
  rw [List.find?_append]
  simp [Ne.symm h]

theorem GraphMat.lookup_append_self {cache : List (ℝ × Option ℕ)} {k : ℝ} {g : Option ℕ} (h : lookup cache k = none) :
    lookup (cache ++ [(k, g)]) k = some g := by
  unfold lookup at h ⊢
  rw [Option.map_eq_none_iff] at h
  simp [List.find?_append, h]

/-- Specification: the table or formula of a material. -/
def GraphMat.disp? : GraphMat → Option Dispersion
  | .const => none
  | .db d _ => some d

/-- Specification: what a material remembers for a wavelength. -/
noncomputable def GraphMat.entry : GraphMat → ℝ → Option (Option ℕ)
  | .const, _ => none
  | .db _ cache, k => lookup cache k

variable {t : ℕ} {req other : Bool} {wl k : ℝ}

/-- One material: nothing that is remembered changes, and only the wavelength `wl` is added. -/
theorem GraphMat.getEpsilon_spec (m : GraphMat) : ∀ r, r = m.getEpsilon t req wl → r.2.disp? = m.disp? ∧
    (∀ k v, m.entry k = some v → r.2.entry k = some v) ∧ (∀ k, k ≠ wl → r.2.entry k = m.entry k) ∧
    ∀ g, r.1 = .ok g →
      (∀ d, m.disp? = some d → g = (m.entry wl).getD (if req && d.differentiable then some t else none) ∧ r.2.entry wl = some g) ∧
      (m.disp? = none → g = none) := by
  rintro r rfl
  cases m with
  | const => simp [getEpsilon, disp?, entry]
  | db disp cache =>
    simp only [disp?, entry, getEpsilon]
    rcases h : lookup cache wl with _ | e
    · rcases he : disp.eval wl with err | v
      · simp [disp?, entry]
      · refine ⟨rfl, fun k v hk => ?_, fun k hk => lookup_append_ne hk, fun g hg => ⟨fun d hd => ?_, fun hd => by simp at hd⟩⟩
        · have hne : k ≠ wl := by
            rintro rfl
            rw [h] at hk
            simp at hk
          exact (lookup_append_ne hne).trans hk
        · simp only [Option.some.injEq] at hd
          simp only [Except.ok.injEq] at hg
          subst hd hg
          exact ⟨rfl, lookup_append_self h⟩
    · simp only [disp?, entry, Except.ok.injEq, Option.some.injEq, h, Option.getD_some, reduceCtorEq, false_implies, and_true]
      refine ⟨trivial, fun k v hk => hk, fun k _ => trivial, ?_⟩
      rintro g rfl d -
      exact ⟨rfl, rfl⟩

/-- Specification: the material number `i` (environment and layers). -/
noncomputable def matEntry (ms : List GraphMat) (i : ℕ) (k : ℝ) : Option (Option ℕ) := (ms[i]?).bind fun m => m.entry k

/-- Specification: its table or formula. -/
def matDisp (ms : List GraphMat) (i : ℕ) : Option Dispersion := (ms[i]?).bind fun m => m.disp?

/-- All materials. -/
theorem GraphMat.getAll_spec : ∀ (ms : List GraphMat), ∀ r, r = getAll t req wl ms →
    (∀ i, matDisp r.2 i = matDisp ms i) ∧ (∀ i k v, matEntry ms i k = some v → matEntry r.2 i k = some v) ∧
    (∀ i k, k ≠ wl → matEntry r.2 i k = matEntry ms i k) ∧
    ∀ gs, r.1 = .ok gs →
      (∀ i d, matDisp ms i = some d → ∃ g, g = (matEntry ms i wl).getD (if req && d.differentiable then some t else none) ∧
        matEntry r.2 i wl = some g ∧ ∀ x, g = some x → x ∈ gs) ∧
      ∀ x ∈ gs, ∃ i d, matDisp ms i = some d ∧
        some x = (matEntry ms i wl).getD (if req && d.differentiable then some t else none)
  | [] => by
    rintro r rfl
    simp [getAll, matDisp, matEntry]
  | m :: ms => by
    rintro r rfl
    obtain ⟨a1, a2, a3, a4⟩ := m.getEpsilon_spec (t := t) (req := req) (wl := wl) _ rfl
    obtain ⟨b1, b2, b3, b4⟩ := GraphMat.getAll_spec ms _ rfl
    have zD : ∀ (m : GraphMat) ms, matDisp (m :: ms) 0 = m.disp? := fun m ms => by simp [matDisp]
    have zE : ∀ (m : GraphMat) ms k, matEntry (m :: ms) 0 k = m.entry k := fun m ms k => by simp [matEntry]
    have sD : ∀ (m : GraphMat) ms i, matDisp (m :: ms) (i + 1) = matDisp ms i := fun m ms i => by simp [matDisp]
    have sE : ∀ (m : GraphMat) ms i k, matEntry (m :: ms) (i + 1) k = matEntry ms i k := fun m ms i k => by simp [matEntry]
    rw [getAll]
    rcases h : m.getEpsilon t req wl with ⟨_ | g, m'⟩
    · rw [h] at a1 a2 a3
      refine ⟨fun i => ?_, fun i k v hv => ?_, fun i k hk => ?_, fun gs hg => by simp at hg⟩
      · cases i with
        | zero => simpa only [zD] using a1
        | succ i => simp only [sD]
      · cases i with
        | zero => simp only [zE] at hv ⊢; exact a2 k v hv
        | succ i => simpa only [sE] using hv
      · cases i with
        | zero => simp only [zE]; exact a3 k hk
        | succ i => simp only [sE]
    · rw [h] at a1 a2 a3 a4
      have keep : ∀ ms', (∀ i, matDisp ms' i = matDisp ms i) → (∀ i k v, matEntry ms i k = some v → matEntry ms' i k = some v) →
          (∀ i k, k ≠ wl → matEntry ms' i k = matEntry ms i k) → (∀ i, matDisp (m' :: ms') i = matDisp (m :: ms) i) ∧
          (∀ i k v, matEntry (m :: ms) i k = some v → matEntry (m' :: ms') i k = some v) ∧
          (∀ i k, k ≠ wl → matEntry (m' :: ms') i k = matEntry (m :: ms) i k) := by
        intro ms' c1 c2 c3
        refine ⟨fun i => ?_, fun i k v hv => ?_, fun i k hk => ?_⟩
        · cases i with
          | zero => simpa only [zD] using a1
          | succ i => simp only [sD]; exact c1 i
        · cases i with
          | zero => simp only [zE] at hv ⊢; exact a2 k v hv
          | succ i => simp only [sE] at hv ⊢; exact c2 i k v hv
        · cases i with
          | zero => simp only [zE]; exact a3 k hk
          | succ i => simp only [sE]; exact c3 i k hk
      rcases h2 : getAll t req wl ms with ⟨_ | gs, ms'⟩
      · rw [h2] at b1 b2 b3
        obtain ⟨k1, k2, k3⟩ := keep ms' b1 b2 b3
        exact ⟨k1, k2, k3, fun gs hg => by simp at hg⟩
      · rw [h2] at b1 b2 b3 b4
        obtain ⟨k1, k2, k3⟩ := keep ms' b1 b2 b3
        refine ⟨k1, k2, k3, fun gs' hg => ?_⟩
        simp only [Except.ok.injEq] at hg
        subst hg
        obtain ⟨d1, d2⟩ := b4 gs rfl
        obtain ⟨c1, c2⟩ := a4 g rfl
        refine ⟨fun i d hd => ?_, fun x hx => ?_⟩
        · cases i with
          | zero =>
            rw [zD] at hd
            simp only [zE]
            exact ⟨g, (c1 d hd).1, (c1 d hd).2, fun x hx => by simp [hx]⟩
          | succ i =>
            rw [sD] at hd
            simp only [sE]
            obtain ⟨g', e1, e2, e3⟩ := d1 i d hd
            exact ⟨g', e1, e2, fun x hx => List.mem_append_right _ (e3 x hx)⟩
        · rcases List.mem_append.1 hx with hx | hx
          · have hg : g = some x := by simpa using hx
            rcases hdd : m.disp? with _ | d
            · rw [c2 hdd] at hg
              simp at hg
            · exact ⟨0, d, by rw [zD, hdd], by rw [zE, ← (c1 d hdd).1, hg]⟩
          · obtain ⟨i, d, e1, e2⟩ := d2 x hx
            exact ⟨i + 1, d, by rw [sD, e1], by rw [sE]; exact e2⟩

/-- What is new after a call comes from this call, and only if the wavenumber requires a gradient. -/
theorem GraphMat.getEpsilon_new (m : GraphMat) {x : ℕ} (h : (m.getEpsilon t req wl).2.entry k = some (some x)) :
    m.entry k = some (some x) ∨ x = t ∧ req = true := by
  obtain ⟨-, -, a3, a4⟩ := m.getEpsilon_spec (t := t) (req := req) (wl := wl) _ rfl
  rcases eq_or_ne k wl with rfl | hk
  · cases m with
    | const => exact .inl h
    | db d cache =>
      rcases hr : ((GraphMat.db d cache).getEpsilon t req k).1 with err | g
      · left
        simp only [getEpsilon] at h hr
        split at h
        · exact h
        · split at h
          · exact h
          · rename_i h1 _ _ h2
            rw [h1, h2] at hr
            simp at hr
      · obtain ⟨b1, b2⟩ := (a4 g hr).1 d rfl
        rw [b2] at h
        rcases he : (GraphMat.db d cache).entry k with _ | v
        · rw [he, Option.getD_none] at b1
          rw [b1] at h
          split_ifs at h with hc
          · simp only [Option.some.injEq] at h
            exact .inr ⟨h.symm, by simp_all⟩
          · simp at h
        · rw [he, Option.getD_some] at b1
          rw [← h, b1]
          exact .inl rfl
  · rw [a3 k hk] at h
    exact .inl h

theorem GraphMat.getAll_new {x : ℕ} : ∀ (ms : List GraphMat) (i : ℕ), matEntry (getAll t req wl ms).2 i k = some (some x) →
    matEntry ms i k = some (some x) ∨ x = t ∧ req = true
  | [], i, h => by simp [getAll, matEntry] at h
  | m :: ms, i, h => by
    have h0 := fun h => m.getEpsilon_new (t := t) (req := req) (wl := wl) (k := k) (x := x) h
    have hs := fun i => GraphMat.getAll_new (x := x) ms i
    rw [getAll] at h
    rcases hm : m.getEpsilon t req wl with ⟨_ | g, m'⟩ <;> rw [hm] at h h0
    · cases i with
      | zero => simp only [matEntry, List.getElem?_cons_zero, Option.bind_some] at h ⊢; exact h0 h
      | succ i => exact .inl (by simpa [matEntry] using h)
    · rcases h2 : getAll t req wl ms with ⟨_ | gs, ms'⟩ <;> rw [h2] at h hs <;>
      cases i with
      | zero => simp only [matEntry, List.getElem?_cons_zero, Option.bind_some] at h ⊢; exact h0 h
      | succ i => simp only [matEntry, List.getElem?_cons_succ] at h hs ⊢; exact hs i h

namespace GraphSession

variable {s : GraphSession} {op : GraphOp}

/-! ## What a statement does to the session -/

/-- Is the statement a call at wavelength `k`? -/
def _root_.MieDiff.GraphOp.At (op : GraphOp) (k : ℝ) : Prop := ∃ r o, op = .call k r o

theorem step_disp (i : ℕ) : matDisp (s.step op).2.mats i = matDisp s.mats i := by
  cases op with
  | call wl req other =>
    have h := (getAll_spec (t := s.results.length) (req := req) (wl := wl) s.mats _ rfl).1 i
    simp only [step]
    split <;> rename_i h' <;> rw [h'] at h <;> exact h
  | backward m retain =>
    simp only [step]
    split
    · split_ifs <;> rfl
    · rfl

theorem step_keep {i : ℕ} {v : Option ℕ} (hv : matEntry s.mats i k = some v) : matEntry (s.step op).2.mats i k = some v := by
  cases op with
  | call wl req other =>
    have h := (getAll_spec (t := s.results.length) (req := req) (wl := wl) s.mats _ rfl).2.1 i k v hv
    simp only [step]
    split <;> rename_i h' <;> rw [h'] at h <;> exact h
  | backward m retain =>
    simp only [step]
    split
    · split_ifs <;> exact hv
    · exact hv

theorem step_entry {i : ℕ} (ho : ¬ op.At k) : matEntry (s.step op).2.mats i k = matEntry s.mats i k := by
  cases op with
  | call wl req other =>
    have hne : k ≠ wl := by
      rintro rfl
      exact ho ⟨_, _, rfl⟩
    have h := (getAll_spec (t := s.results.length) (req := req) (wl := wl) s.mats _ rfl).2.2.1 i k hne
    simp only [step]
    split <;> rename_i h' <;> rw [h'] at h <;> exact h
  | backward m retain =>
    simp only [step]
    split
    · split_ifs <;> rfl
    · rfl

theorem step_results {m : ℕ} {v : Option (List ℕ)} (h : s.results[m]? = some v) : (s.step op).2.results[m]? = some v := by
  cases op with
  | call wl req other =>
    have hm : m < s.results.length := (List.getElem?_eq_some_iff.1 h).1
    simp only [step]
    split <;> simp only [List.getElem?_append_left hm, h]
  | backward m retain =>
    simp only [step]
    split
    · split_ifs <;> exact h
    · exact h

theorem step_freed {x : ℕ} (h : x ∈ s.freed) : x ∈ (s.step op).2.freed := by
  cases op with
  | call wl req other =>
    simp only [step]
    split <;> exact h
  | backward m retain =>
    simp only [step]
    split
    · split_ifs
      · exact h
      · exact h
      · exact List.mem_append_left _ h
    · exact h

theorem run_nil : s.run [] = s := rfl

theorem run_cons {ops : List GraphOp} : s.run (op :: ops) = (s.step op).2.run ops := rfl

theorem run_append {ops ops' : List GraphOp} : s.run (ops ++ ops') = (s.run ops).run ops' := by simp [run]

theorem run_disp (i : ℕ) : ∀ (ops : List GraphOp) {s : GraphSession}, matDisp (s.run ops).mats i = matDisp s.mats i
  | [], _ => rfl
  | op :: ops, s => by rw [run_cons, run_disp i ops, step_disp]

theorem run_keep {i : ℕ} {v : Option ℕ} : ∀ (ops : List GraphOp) {s : GraphSession}, matEntry s.mats i k = some v →
    matEntry (s.run ops).mats i k = some v
  | [], _, h => h
  | op :: ops, s, h => run_keep ops (step_keep h)

theorem run_entry {i : ℕ} : ∀ (ops : List GraphOp) {s : GraphSession}, (∀ op ∈ ops, ¬ op.At k) →
    matEntry (s.run ops).mats i k = matEntry s.mats i k
  | [], _, _ => rfl
  | op :: ops, s, h => by
    rw [run_cons, run_entry ops fun o ho => h o (List.mem_cons_of_mem _ ho), step_entry (h op (by simp))]

theorem run_results {m : ℕ} {v : Option (List ℕ)} : ∀ (ops : List GraphOp) {s : GraphSession}, s.results[m]? = some v →
    (s.run ops).results[m]? = some v
  | [], _, h => h
  | op :: ops, s, h => run_results ops (step_results h)

theorem run_freed {x : ℕ} : ∀ (ops : List GraphOp) {s : GraphSession}, x ∈ s.freed → x ∈ (s.run ops).freed
  | [], _, h => h
  | op :: ops, s, h => run_freed ops (step_freed h)

/-- A successful call: the graphs behind its permittivities. -/
theorem call_ok (h : (s.step (.call wl req other)).1 = .ok ()) : ∃ gs, (getAll s.results.length req wl s.mats).1 = .ok gs ∧
    (s.step (.call wl req other)).2 = { s with
      mats := (getAll s.results.length req wl s.mats).2, results := s.results ++ [some (behind s.results.length req other gs)] } := by
  simp only [step] at h ⊢
  rcases hg : getAll s.results.length req wl s.mats with ⟨e | gs, ms⟩
  · rw [hg] at h
    simp at h
  · exact ⟨gs, rfl, rfl⟩

theorem backward_ok {m : ℕ} {retain : Bool} : (s.step (.backward m retain)).1 = .ok () ↔
    ∃ g gs, s.results[m]? = some (some (g :: gs)) ∧ ∀ x ∈ g :: gs, x ∉ s.freed := by
  simp only [step]
  split
  · rename_i g gs h
    by_cases hc : ∃ x ∈ g :: gs, x ∈ s.freed
    · rw [if_pos hc]
      simp only [reduceCtorEq, false_iff]
      rintro ⟨g', gs', e, h'⟩
      rw [h] at e
      simp only [Option.some.injEq, List.cons.injEq] at e
      obtain ⟨rfl, rfl⟩ := e
      obtain ⟨x, hx, hf⟩ := hc
      exact h' x hx hf
    · rw [if_neg hc]
      simp only [true_iff]
      exact ⟨g, gs, h, fun x hx hf => hc ⟨x, hx, hf⟩⟩
  · rename_i h
    simp only [reduceCtorEq, false_iff]
    rintro ⟨g, gs, e, -⟩
    exact h g gs e

theorem backward_error {m : ℕ} {retain : Bool} (h : (s.step (.backward m retain)).1 ≠ .ok ()) :
    (s.step (.backward m retain)).1 = .error .runtimeError := by
  simp only [step] at h ⊢
  split
  · rename_i g gs e
    rw [e] at h
    by_cases hc : ∃ x ∈ g :: gs, x ∈ s.freed
    · rw [if_pos hc]
    · simp only [if_neg hc] at h
      exact absurd rfl h
  · rfl

/-! ## Freed graphs -/

theorem new_disp {mats : List (Option Dispersion)} {d : Dispersion} (hd : some d ∈ mats) : ∃ i, matDisp (new mats).mats i = some d ∧
    ∀ k, matEntry (new mats).mats i k = none := by
  obtain ⟨i, hi⟩ := List.mem_iff_getElem?.1 hd
  refine ⟨i, by simp [new, matDisp, hi, disp?], fun k => by simp [new, matEntry, hi, entry, lookup]⟩

/-- C102: the second `backward` fails.  A particle has a database material.  The first call at a wavelength is made with a wavenumber that requires a
gradient, and `backward` is called on its result without `retain_graph`.  Then `backward` on the result of every later call at this wavelength is a
`RuntimeError`: whether or not the wavenumber requires a gradient then, whatever other inputs do, and whatever happens in between. -/
theorem C102_again {mats : List (Option Dispersion)} {d : Dispersion} (hm : some d ∈ mats) (hd : d.differentiable = true)
    {ops mid mid' post : List GraphOp} (hfirst : ∀ op ∈ ops, ¬ op.At wl) {o o' r' : Bool}
    (hcall : (((new mats).run ops).step (.call wl true o)).1 = .ok ())
    (hback : ((((new mats).run (ops ++ [.call wl true o])).run mid).step (.backward ((new mats).run ops).results.length false)).1 = .ok ()) :
    let before := (new mats).run (ops ++ [.call wl true o] ++ mid ++ [.backward ((new mats).run ops).results.length false] ++ mid')
    ∀ retain, (((before.step (.call wl r' o')).2.run post).step (.backward before.results.length retain)).1 = .error .runtimeError := by
  intro before retain
  obtain ⟨i, hi, hn⟩ := new_disp hm
  set s0 := (new mats).run ops with hs0
  set t := s0.results.length with ht
  -- the first call remembers its own graph
  obtain ⟨gs, hg, e1⟩ := call_ok hcall
  have hd0 : matDisp s0.mats i = some d := by rw [hs0, run_disp, hi]
  have he0 : matEntry s0.mats i wl = none := by rw [hs0, run_entry _ hfirst, hn]
  obtain ⟨g, g1, g2, -⟩ := ((getAll_spec (t := t) (req := true) (wl := wl) s0.mats _ rfl).2.2.2 gs hg).1 i d hd0
  rw [he0, hd] at g1
  simp only [Option.getD_none, Bool.and_self, if_true] at g1
  subst g1
  set s1 := (s0.step (.call wl true o)).2 with hs1
  have h1 : matEntry s1.mats i wl = some (some t) := by rw [e1]; exact g2
  have hr1 : s1.results[t]? = some (some (t :: gs)) := by
    rw [e1]
    simp [behind, ← ht]
  -- it is freed
  have hb : before = (((s1.run mid).step (.backward t false)).2).run mid' := by
    simp only [before, run_append, ← hs0, run_cons, run_nil, ← hs1, ← ht]
  rw [run_append, ← hs0, run_cons, run_nil, ← hs1] at hback
  obtain ⟨a, as, ha, hfree⟩ := backward_ok.1 hback
  have hra := run_results mid hr1
  rw [hra] at ha
  simp only [Option.some.injEq, List.cons.injEq] at ha
  obtain ⟨rfl, rfl⟩ := ha
  have hf2 : t ∈ ((s1.run mid).step (.backward t false)).2.freed := by
    simp only [step, hra]
    rw [if_neg (by rintro ⟨x, hx, hf⟩; exact hfree x hx hf)]
    simp
  have hfb : t ∈ before.freed := by rw [hb]; exact run_freed mid' hf2
  have heb : matEntry before.mats i wl = some (some t) := by rw [hb]; exact run_keep mid' (step_keep (run_keep mid h1))
  have hdb : matDisp before.mats i = some d := by
    rw [hb, run_disp, step_disp, run_disp, hs1, step_disp, hd0]
  -- the later call
  refine backward_error fun hok => ?_
  obtain ⟨x, xs, hx, hxf⟩ := backward_ok.1 hok
  rcases hc : (before.step (.call wl r' o')).1 with err | u
  · have hres : (before.step (.call wl r' o')).2.results[before.results.length]? = some none := by
      simp only [step] at hc ⊢
      split at hc
      · rename_i h'
        simp [h']
      · simp at hc
    rw [run_results post hres] at hx
    simp at hx
  · obtain ⟨gs', hg', e2⟩ := call_ok (s := before) (wl := wl) (req := r') (other := o') hc
    obtain ⟨g', q1, q2, q3⟩ := ((getAll_spec (t := before.results.length) (req := r') (wl := wl) before.mats _ rfl).2.2.2 gs' hg').1 i d hdb
    rw [heb, Option.getD_some] at q1
    have hmem : t ∈ gs' := q3 t q1
    have hres : (before.step (.call wl r' o')).2.results[before.results.length]? = some (some (behind before.results.length r' o' gs')) := by
      rw [e2]
      simp
    rw [run_results post hres] at hx
    have hne : gs'.isEmpty = false := by
      cases gs' with
      | nil => simp at hmem
      | cons a as => rfl
    simp only [behind, hne, Bool.not_false, Bool.or_true, if_true, Option.some.injEq, List.cons.injEq] at hx
    obtain ⟨rfl, rfl⟩ := hx
    refine hxf t (List.mem_cons_of_mem _ hmem) ?_
    refine run_freed post ?_
    rw [e2]
    exact hfb

/-! ## When it works -/

theorem _root_.MieDiff.GraphMat.getAll_ok : ∀ (ms : List GraphMat), (∀ i d, matDisp ms i = some d → ∃ e, d.eval wl = .ok e) →
    ∃ gs, (getAll t req wl ms).1 = .ok gs
  | [], _ => ⟨[], rfl⟩
  | m :: ms, h => by
    obtain ⟨gs, hg⟩ := GraphMat.getAll_ok ms fun i d hd => h (i + 1) d (by simpa [matDisp] using hd)
    have hm : ∃ g, (m.getEpsilon t req wl).1 = .ok g := by
      cases m with
      | const => exact ⟨none, rfl⟩
      | db d cache =>
        obtain ⟨e, he⟩ := h 0 d (by simp [matDisp, disp?])
        simp only [getEpsilon]
        rcases lookup cache wl with _ | v
        · simp [he]
        · simp
    obtain ⟨g, hm⟩ := hm
    rw [getAll]
    rcases h1 : m.getEpsilon t req wl with ⟨_ | g', m'⟩
    · rw [h1] at hm
      simp at hm
    · rcases h2 : getAll t req wl ms with ⟨_ | gs', ms'⟩
      · rw [h2] at hg
        simp at hg
      · exact ⟨_, rfl⟩

/-- C102: the calls themselves never fail because of what went before. -/
theorem C102_calls {mats : List (Option Dispersion)} (ops : List GraphOp) (h : ∀ d, some d ∈ mats → ∃ e, d.eval wl = .ok e) :
    (((new mats).run ops).step (.call wl req other)).1 = .ok () := by
  have hd : ∀ i d, matDisp ((new mats).run ops).mats i = some d → ∃ e, d.eval wl = .ok e := fun i d hd => by
    rw [run_disp] at hd
    refine h d ?_
    unfold matDisp new at hd
    rw [List.getElem?_map] at hd
    rcases hm : mats[i]? with _ | _ | d' <;> rw [hm] at hd
    · simp at hd
    · simp [disp?] at hd
    · simp only [Option.map_some, Option.elim_some, Option.bind_some, disp?, Option.some.injEq] at hd
      exact hd ▸ List.mem_of_getElem? hm
  obtain ⟨gs, hg⟩ := getAll_ok (t := ((new mats).run ops).results.length) (req := req) _ hd
  simp only [step]
  split
  · rename_i h'
    rw [h'] at hg
    simp at hg
  · rfl

/-- Every number in the session is the number of a call that was made. -/
structure Sound (s : GraphSession) : Prop where
  freed : ∀ x ∈ s.freed, x < s.results.length
  results : ∀ (m : ℕ) gs, s.results[m]? = some (some gs) → ∀ x ∈ gs, x < s.results.length
  entries : ∀ i k x, matEntry s.mats i k = some (some x) → x < s.results.length

theorem Sound.step (h : s.Sound) : (s.step op).2.Sound := by
  cases op with
  | call wl req other =>
    obtain ⟨c1, c2, c3, c4⟩ := getAll_spec (t := s.results.length) (req := req) (wl := wl) s.mats _ rfl
    have hn := fun k x => getAll_new (t := s.results.length) (req := req) (wl := wl) (k := k) (x := x) s.mats
    simp only [GraphSession.step]
    rcases hg : getAll s.results.length req wl s.mats with ⟨e | gs, ms⟩ <;> rw [hg] at hn c4
    · refine ⟨fun x hx => ?_, fun m gs hm x hx => ?_, fun i k x hx => ?_⟩ <;> simp only [List.length_append, List.length_singleton]
      · exact (h.freed x hx).trans (Nat.lt_succ_self _)
      · rcases Nat.lt_or_ge m s.results.length with hlt | hge
        · rw [List.getElem?_append_left hlt] at hm
          exact (h.results m gs hm x hx).trans (Nat.lt_succ_self _)
        · rw [List.getElem?_append_right hge, List.getElem?_singleton] at hm
          split_ifs at hm
          simp at hm
      · rcases hn k x i hx with hx | ⟨rfl, -⟩
        · exact (h.entries i k x hx).trans (Nat.lt_succ_self _)
        · exact Nat.lt_succ_self _
    · have hgs : ∀ x ∈ gs, x < s.results.length + 1 := fun x hx => by
        obtain ⟨i, d, -, e⟩ := (c4 gs rfl).2 x hx
        rcases he : matEntry s.mats i wl with _ | v <;> rw [he] at e
        · rw [Option.getD_none] at e
          split_ifs at e
          simp only [Option.some.injEq] at e
          omega
        · rw [Option.getD_some] at e
          rw [← e] at he
          exact (h.entries i wl x he).trans (Nat.lt_succ_self _)
      refine ⟨fun x hx => ?_, fun m gs' hm x hx => ?_, fun i k x hx => ?_⟩ <;> simp only [List.length_append, List.length_singleton]
      · exact (h.freed x hx).trans (Nat.lt_succ_self _)
      · rcases Nat.lt_or_ge m s.results.length with hlt | hge
        · rw [List.getElem?_append_left hlt] at hm
          exact (h.results m gs' hm x hx).trans (Nat.lt_succ_self _)
        · rw [List.getElem?_append_right hge, List.getElem?_singleton] at hm
          split_ifs at hm
          simp only [Option.some.injEq] at hm
          subst hm
          unfold behind at hx
          split_ifs at hx
          · rcases List.mem_cons.1 hx with rfl | hx
            · exact Nat.lt_succ_self _
            · exact hgs x hx
          · simp at hx
      · rcases hn k x i hx with hx | ⟨rfl, -⟩
        · exact (h.entries i k x hx).trans (Nat.lt_succ_self _)
        · exact Nat.lt_succ_self _
  | backward m retain =>
    simp only [GraphSession.step]
    split
    · rename_i g gs hm
      split_ifs
      · exact h
      · exact h
      · refine ⟨fun x hx => ?_, h.results, h.entries⟩
        rcases List.mem_append.1 hx with hx | hx
        · exact h.freed x hx
        · exact h.results m _ hm x hx
    · exact h

theorem new_entry {mats : List (Option Dispersion)} (i : ℕ) (k : ℝ) : matEntry (new mats).mats i k = none := by
  unfold matEntry new
  rw [List.getElem?_map]
  rcases mats[i]? with _ | _ | d
  · rfl
  · rfl
  · simp [entry, lookup]

theorem sound_new (mats : List (Option Dispersion)) : (new mats).Sound :=
  ⟨fun x hx => by simp [new] at hx, fun m gs hm => by simp [new] at hm, fun i k x hx => by simp [new_entry] at hx⟩

theorem Sound.run : ∀ (ops : List GraphOp) {s : GraphSession}, s.Sound → (s.run ops).Sound
  | [], _, h => h
  | _ :: ops, _, h => Sound.run ops h.step

/-- After a successful call something that requires a gradient has a graph: its own number and those behind its permittivities. -/
theorem backward_after (hs : s.Sound) (hcall : (s.step (.call wl req other)).1 = .ok ()) (hreq : (req || other) = true)
    (hfree : ∀ i x, matEntry s.mats i wl = some (some x) → x ∉ s.freed) (retain : Bool) :
    ((s.step (.call wl req other)).2.step (.backward s.results.length retain)).1 = .ok () := by
  obtain ⟨gs, hg, e⟩ := call_ok hcall
  obtain ⟨-, h2⟩ := (getAll_spec (t := s.results.length) (req := req) (wl := wl) s.mats _ rfl).2.2.2 gs hg
  rw [backward_ok, e]
  refine ⟨s.results.length, gs, by simp [behind, hreq], fun x hx hf => ?_⟩
  have hf' : x ∈ s.freed := hf
  rcases List.mem_cons.1 hx with rfl | hx
  · exact lt_irrefl _ (hs.freed _ hf')
  · obtain ⟨i, d, -, e⟩ := h2 x hx
    rcases he : matEntry s.mats i wl with _ | v <;> rw [he] at e
    · rw [Option.getD_none] at e
      split_ifs at e
      simp only [Option.some.injEq] at e
      exact lt_irrefl _ (e ▸ hs.freed x hf')
    · rw [Option.getD_some] at e
      rw [← e] at he
      exact hfree i x he hf'

/-- C102, other wavelengths: `backward` works after every call at a wavelength that was not used before. -/
theorem C102_new_wavelength {mats : List (Option Dispersion)} {ops : List GraphOp} (hnew : ∀ op ∈ ops, ¬ op.At wl)
    (hcall : (((new mats).run ops).step (.call wl req other)).1 = .ok ()) (hreq : (req || other) = true) (retain : Bool) :
    ((((new mats).run ops).step (.call wl req other)).2.step (.backward ((new mats).run ops).results.length retain)).1 = .ok () :=
  backward_after (Sound.run ops (sound_new mats)) hcall hreq (fun i x hx => by rw [run_entry ops hnew, new_entry] at hx; simp at hx) retain

theorem run_constant (hs : ∀ i k x, matEntry s.mats i k ≠ some (some x)) : ∀ (ops : List GraphOp) {s : GraphSession},
    (∀ i k x, matEntry s.mats i k ≠ some (some x)) → (∀ op ∈ ops, ∀ w o, op ≠ .call w true o) →
    ∀ i k x, matEntry (s.run ops).mats i k ≠ some (some x)
  | [], _, h, _ => h
  | op :: ops, s, h, ho => by
    rw [run_cons]
    refine run_constant hs ops (fun i k x hx => ?_) fun o h' => ho o (List.mem_cons_of_mem _ h')
    cases op with
    | call wl req other =>
      have hreq : req = false := by
        cases req
        · rfl
        · exact absurd rfl (ho _ (by simp) wl other)
      have : matEntry (getAll s.results.length req wl s.mats).2 i k = some (some x) := by
        simp only [step] at hx
        split at hx <;> rename_i h' <;> rw [h'] <;> exact hx
      rcases getAll_new s.mats i this with h1 | ⟨-, h1⟩
      · exact h i k x h1
      · simp [hreq] at h1
    | backward m retain =>
      refine h i k x ?_
      simp only [step] at hx
      split at hx
      · split_ifs at hx <;> exact hx
      · exact hx

/-- C102, a fixed wavenumber: if the wavenumber never requires a gradient, `backward` works after every call with other inputs that do. -/
theorem C102_fixed_wavenumber {mats : List (Option Dispersion)} {ops : List GraphOp} (hno : ∀ op ∈ ops, ∀ w o, op ≠ .call w true o)
    (hcall : (((new mats).run ops).step (.call wl false true)).1 = .ok ()) (retain : Bool) :
    ((((new mats).run ops).step (.call wl false true)).2.step (.backward ((new mats).run ops).results.length retain)).1 = .ok () :=
  backward_after (Sound.run ops (sound_new mats)) hcall rfl
    (fun i x hx => absurd hx (run_constant (s := new mats) (fun i k x => by simp [new_entry]) ops (fun i k x => by simp [new_entry]) hno i wl x))
    retain

theorem run_retained : ∀ (ops : List GraphOp) {s : GraphSession}, s.freed = [] → (∀ op ∈ ops, ∀ m, op ≠ .backward m false) →
    (s.run ops).freed = []
  | [], _, h, _ => h
  | op :: ops, s, h, ho => by
    rw [run_cons]
    refine run_retained ops ?_ fun o h' => ho o (List.mem_cons_of_mem _ h')
    cases op with
    | call wl req other =>
      simp only [step]
      split <;> exact h
    | backward m retain =>
      cases retain
      · exact absurd rfl (ho _ (by simp) m)
      · simp only [step]
        split
        · split_ifs <;> exact h
        · exact h

/-- C102, `retain_graph=True` in every `backward` keeps all of them working. -/
theorem C102_retain {mats : List (Option Dispersion)} {ops : List GraphOp} (hno : ∀ op ∈ ops, ∀ m, op ≠ .backward m false)
    (hcall : (((new mats).run ops).step (.call wl req other)).1 = .ok ()) (hreq : (req || other) = true) (retain : Bool) :
    ((((new mats).run ops).step (.call wl req other)).2.step (.backward ((new mats).run ops).results.length retain)).1 = .ok () :=
  backward_after (Sound.run ops (sound_new mats)) hcall hreq (fun i x _ => by rw [run_retained ops rfl hno]; simp) retain

/-! ## A loop -/

/-- A table with two rows. -/
noncomputable def loopTable : Dispersion := .table [(400, 2), (700, 3)]

theorem loop_eval : ∃ e, loopTable.eval 500 = .ok e := by
  have hne : (List.mergeSort [((400 : ℝ), (2 : ℂ)), (700, 3)] fun a b => decide (a.1 ≤ b.1)) ≠ [] := by
    intro h
    have := congrArg List.length h
    simp at this
  obtain ⟨l, r, h1, h2, -⟩ := Node.interpIdx_cases 500 _ hne
  exact ⟨_, Node.interpSorted_idx h1 h2⟩

/-- A sphere from this table in a constant environment.  Two steps of an optimisation with `k0.requires_grad`: the calls succeed, the first `backward`
succeeds, the second one is a `RuntimeError`. -/
example (o o' : Bool) :
    let s0 := new [none, some loopTable]
    let s1 := (s0.step (.call 500 true o)).2
    let s2 := (s1.step (.backward 0 false)).2
    let s3 := (s2.step (.call 500 true o')).2
    (s0.step (.call 500 true o)).1 = .ok () ∧ (s1.step (.backward 0 false)).1 = .ok () ∧ (s2.step (.call 500 true o')).1 = .ok () ∧
      (s3.step (.backward s2.results.length false)).1 = .error .runtimeError := by
  have hev : ∀ d, some d ∈ [none, some loopTable] → ∃ e, d.eval 500 = .ok e := fun d hd => by
    obtain rfl : d = loopTable := by simpa using hd
    exact loop_eval
  have h1 : ((new [none, some loopTable]).step (.call 500 true o)).1 = .ok () := C102_calls [] hev
  have h2 := C102_new_wavelength (ops := []) (mats := [none, some loopTable]) (by simp) h1 rfl false
  exact ⟨h1, h2, C102_calls [.call 500 true o, .backward 0 false] hev,
    C102_again (ops := []) (mid := []) (mid' := []) (post := []) (mats := [none, some loopTable]) (d := loopTable) (by simp) rfl
      (by simp) h1 h2 false⟩

/-- The same sphere with a wavenumber that requires no gradient: a third step works like the first. -/
example : ((((new [none, some loopTable]).run [.call 500 false true, .backward 0 false, .call 500 false true, .backward 1 false]).step
    (.call 500 false true)).2.step (.backward ((new [none, some loopTable]).run
      [.call 500 false true, .backward 0 false, .call 500 false true, .backward 1 false]).results.length false)).1 = .ok () := by
  refine C102_fixed_wavenumber (by simp) (C102_calls _ fun d hd => ?_) false
  obtain rfl : d = loopTable := by simpa using hd
  exact loop_eval

/-- The same sphere with a wavenumber that requires a gradient and `retain_graph=True`. -/
example : ((((new [none, some loopTable]).run [.call 500 true false, .backward 0 true]).step
    (.call 500 true false)).2.step (.backward ((new [none, some loopTable]).run [.call 500 true false, .backward 0 true]).results.length
      false)).1 = .ok () := by
  refine C102_retain (by simp) (C102_calls _ fun d hd => ?_) rfl false
  obtain rfl : d = loopTable := by simpa using hd
  exact loop_eval

end GraphSession

end MieDiff
