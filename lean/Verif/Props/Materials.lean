import Verif.Model.Materials
import Verif.Spec.Materials
import Verif.Props.Helper

/-!
# C34–C37, C55: tables, dispersion models, cache, names
-/

namespace MieDiff

open Complex

/-! ## C36 -/

theorem loadRow_eq (parse : String → Option ℝ) (s : List String) {m : ℝ × ℝ × ℝ} (h : Spec.rowMeaning parse s = some m) :
    loadRow parse s = .ok (Spec.rowValue m) := by
  have hv : ∀ n k : ℝ, ((n : ℂ) + I * (k : ℂ)) ^ 2 = ⟨n ^ 2 - k ^ 2, 2 * n * k⟩ := by
    intro n k
    apply Complex.ext <;> simp [pow_two]; ring
  rcases s with _ | ⟨a, _ | ⟨b, _ | ⟨c, s⟩⟩⟩
  · cases h
  · cases h
  · simp only [Spec.rowMeaning, Option.bind_eq_bind, Option.bind_eq_some_iff, Option.some.injEq] at h
    obtain ⟨w, hw, n, hn, rfl⟩ := h
    have := hv n 0
    simp only [loadRow, pyIdx, pyFloat, hw, hn, Bind.bind, Except.bind, List.getElem?_cons_zero, List.getElem?_cons_succ,
      List.getElem?_nil, Spec.rowValue, this]
  · simp only [Spec.rowMeaning, Option.bind_eq_bind, Option.bind_eq_some_iff, Option.some.injEq] at h
    obtain ⟨w, hw, n, hn, k, hk, rfl⟩ := h
    simp only [loadRow, pyIdx, pyFloat, hw, hn, hk, Bind.bind, Except.bind, List.getElem?_cons_zero,
      List.getElem?_cons_succ, Spec.rowValue, hv]

theorem loadRow_error (parse : String → Option ℝ) (s : List String) (hs : s ≠ []) (h : Spec.rowMeaning parse s = none) :
    ∃ e, loadRow parse s = .error e ∧ (e = .valueError ∨ e = .indexError ∧ s.length = 1) := by
  rcases s with _ | ⟨a, _ | ⟨b, _ | ⟨c, s⟩⟩⟩
  · exact absurd rfl hs
  · cases ha : parse a with
    | none => exact ⟨_, by simp [loadRow, pyIdx, pyFloat, ha, Bind.bind, Except.bind], .inl rfl⟩
    | some v => exact ⟨_, by simp [loadRow, pyIdx, pyFloat, ha, Bind.bind, Except.bind], .inr ⟨rfl, rfl⟩⟩
  · cases ha : parse a with
    | none => exact ⟨_, by simp [loadRow, pyIdx, pyFloat, ha, Bind.bind, Except.bind], .inl rfl⟩
    | some v =>
      cases hb : parse b with
      | none => exact ⟨_, by simp [loadRow, pyIdx, pyFloat, ha, hb, Bind.bind, Except.bind], .inl rfl⟩
      | some n => simp [Spec.rowMeaning, ha, hb] at h
  · cases ha : parse a with
    | none => exact ⟨_, by simp [loadRow, pyIdx, pyFloat, ha, Bind.bind, Except.bind], .inl rfl⟩
    | some v =>
      cases hb : parse b with
      | none => exact ⟨_, by simp [loadRow, pyIdx, pyFloat, ha, hb, Bind.bind, Except.bind], .inl rfl⟩
      | some n =>
        cases hc : parse c with
        | none => exact ⟨_, by simp [loadRow, pyIdx, pyFloat, ha, hb, hc, Bind.bind, Except.bind], .inl rfl⟩
        | some n => simp [Spec.rowMeaning, ha, hb, hc] at h

/-- C36: blank rows are skipped, every other row gives `1000 wl` and `(n + i k)^2`, in order. -/
theorem C36_rows (parse : String → Option ℝ) (rows : List (List String))
    (h : ∀ s ∈ rows, s = [] ∨ (Spec.rowMeaning parse s).isSome) :
    loadTabulated parse rows = .ok ((rows.filterMap (Spec.rowMeaning parse)).map Spec.rowValue) := by
  unfold loadTabulated
  induction rows with
  | nil => rfl
  | cons s rows ih =>
    have ih := ih fun s hs => h s (List.mem_cons_of_mem _ hs)
    rcases h s List.mem_cons_self with rfl | hs
    · rw [List.filterMap_cons_none rfl]
      simpa using ih
    · obtain ⟨m, hm⟩ := Option.isSome_iff_exists.mp hs
      have hne : s.length > 0 := by
        rcases s with _ | ⟨a, s⟩
        · cases hm
        · simp
      rw [List.filter_cons_of_pos (by simpa using hne), List.mapM_cons, loadRow_eq parse s hm, ih,
        List.filterMap_cons_some hm]
      rfl

/-- C36: any other row makes the loader raise, `IndexError` for a lone number, else `ValueError`. -/
theorem C36_reject (parse : String → Option ℝ) (pre : List (List String)) (s : List String) (post : List (List String))
    (hpre : ∀ s ∈ pre, s = [] ∨ (Spec.rowMeaning parse s).isSome) (hs : s ≠ []) (h : Spec.rowMeaning parse s = none) :
    ∃ e, loadTabulated parse (pre ++ s :: post) = .error e ∧ (e = .valueError ∨ e = .indexError ∧ s.length = 1) := by
  obtain ⟨e, he, hc⟩ := loadRow_error parse s hs h
  refine ⟨e, ?_, hc⟩
  have hpre' := C36_rows parse pre hpre
  unfold loadTabulated at hpre' ⊢
  have hne : s.length > 0 := List.length_pos_iff.mpr hs
  rw [List.filter_append, List.filter_cons_of_pos (by simpa using hne), List.mapM_append, hpre', List.mapM_cons, he]
  rfl

theorem splitNl_ne (l : List Char) : splitNl l ≠ [] := by
  rcases l with _ | ⟨c, cs⟩
  · simp [splitNl]
  · unfold splitNl
    split_ifs
    · simp
    · split <;> simp

theorem splitNl_append (l : List Char) (h : '\n' ∉ l) (r : List Char) :
    splitNl (l ++ '\n' :: r) = l :: splitNl r := by
  induction l with
  | nil => simp [splitNl]
  | cons c l ih =>
    have hc : c ≠ '\n' := fun e => h (by simp [e])
    have ih := ih fun e => h (List.mem_cons_of_mem _ e)
    rw [List.cons_append, splitNl, if_neg hc, ih]

theorem splitNl_self (l : List Char) (h : '\n' ∉ l) : splitNl l = [l] := by
  induction l with
  | nil => simp [splitNl]
  | cons c l ih =>
    have hc : c ≠ '\n' := fun e => h (by simp [e])
    have ih := ih fun e => h (List.mem_cons_of_mem _ e)
    rw [splitNl, if_neg hc, ih]

theorem splitNl_joinLines (ls : List (List Char)) (hne : ls ≠ []) (h : ∀ l ∈ ls, '\n' ∉ l) :
    splitNl (Spec.joinLines ls) = ls := by
  induction ls with
  | nil => exact absurd rfl hne
  | cons l ls ih =>
    rcases ls with _ | ⟨l', ls⟩
    · exact splitNl_self l (h l List.mem_cons_self)
    · rw [Spec.joinLines, splitNl_append l (h l List.mem_cons_self), ih (by simp) fun l hl => h l (List.mem_cons_of_mem _ hl)]
      simp

theorem splitWs_blank (b r : List Char) (hb : ∀ c ∈ b, isPySpace c = true) : splitWs (b ++ r) = splitWs r := by
  induction b with
  | nil => rfl
  | cons c b ih =>
    rw [List.cons_append, splitWs, if_pos (hb c List.mem_cons_self), ih fun c hc => hb c (List.mem_cons_of_mem _ hc)]

theorem splitWs_token (t : List Char) (ht : ∀ c ∈ t, isPySpace c = false) (hne : t ≠ []) (r : List Char)
    (hr : r = [] ∨ ∃ c r', r = c :: r' ∧ isPySpace c = true) : splitWs (t ++ r) = t :: splitWs r := by
  induction t with
  | nil => exact absurd rfl hne
  | cons c t ih =>
    have hc : isPySpace c = false := ht c List.mem_cons_self
    rcases t with _ | ⟨d, t⟩
    · have hb : startsBlank r = true := by
        rcases hr with rfl | ⟨e, r', rfl, he⟩
        · rfl
        · exact he
      simp [splitWs, hc, hb]
    · have hd : startsBlank (d :: t ++ r) = false := ht d (by simp)
      rw [List.cons_append, splitWs, ih (fun c hc => ht c (List.mem_cons_of_mem _ hc)) (by simp), hd]
      simp [hc, glueChar]

/-- C36: the text of a table, with any blanks around the tokens, is split into its rows of tokens. -/
theorem C36_split (rows : List (List Char × List (List Char × List Char))) (hne : rows ≠ [])
    (hlead : ∀ r ∈ rows, ∀ c ∈ r.1, isPySpace c = true ∧ c ≠ '\n')
    (htok : ∀ r ∈ rows, ∀ t ∈ r.2, t.1 ≠ [] ∧ ∀ c ∈ t.1, isPySpace c = false)
    (hgap : ∀ r ∈ rows, ∀ t ∈ r.2, ∀ c ∈ t.2, isPySpace c = true ∧ c ≠ '\n')
    (hsep : ∀ r ∈ rows, ∀ t ∈ r.2.dropLast, t.2 ≠ []) :
    splitRows (Spec.joinLines (rows.map fun r => Spec.renderRow r.1 r.2))
      = rows.map fun r => r.2.map fun t => String.ofList t.1 := by
  have hnl : isPySpace '\n' = true := by decide
  unfold splitRows
  rw [splitNl_joinLines _ (by simpa using hne), List.map_map]
  · refine List.map_congr_left fun r hr => ?_
    simp only [Function.comp, Spec.renderRow]
    rw [splitWs_blank _ _ fun c hc => (hlead r hr c hc).1]
    have key : ∀ toks : List (List Char × List Char), (∀ t ∈ toks, t.1 ≠ [] ∧ ∀ c ∈ t.1, isPySpace c = false) →
        (∀ t ∈ toks, ∀ c ∈ t.2, isPySpace c = true) → (∀ t ∈ toks.dropLast, t.2 ≠ []) →
        splitWs (toks.flatMap fun t => t.1 ++ t.2) = toks.map (·.1) := by
      intro toks h1 h2 h3
      induction toks with
      | nil => rfl
      | cons t toks ih =>
        have hts := h1 t List.mem_cons_self
        have ih := ih (fun t ht => h1 t (List.mem_cons_of_mem _ ht)) (fun t ht => h2 t (List.mem_cons_of_mem _ ht))
          (fun u hu => h3 u (by
            rcases toks with _ | ⟨v, toks⟩
            · simp at hu
            · rw [List.dropLast_cons_cons]; exact List.mem_cons_of_mem _ hu))
        rw [List.flatMap_cons, List.append_assoc, splitWs_token t.1 hts.2 hts.1, List.map_cons,
          splitWs_blank _ _ (h2 t List.mem_cons_self), ih]
        rcases hb : t.2 with _ | ⟨c, b⟩
        · left
          rcases toks with _ | ⟨v, toks⟩
          · simp
          · exact absurd hb (h3 t (by simp))
        · exact .inr ⟨c, b ++ _, rfl, h2 t List.mem_cons_self c (by simp [hb])⟩
    rw [key r.2 (htok r hr) (fun t ht c hc => (hgap r hr t ht c hc).1) (hsep r hr), List.map_map]
    rfl
  · intro l hl
    obtain ⟨r, hr, rfl⟩ := List.mem_map.mp hl
    simp only [Spec.renderRow, List.mem_append, List.mem_flatMap, not_or, not_exists]
    refine ⟨fun hc => (hlead r hr _ hc).2 rfl, ?_⟩
    rintro t ⟨ht, hc | hc⟩
    · exact absurd ((htok r hr t ht).2 _ hc) (by rw [hnl]; simp)
    · exact (hgap r hr t ht _ hc).2 rfl

/-- Two rows of a file, one without `k`, and a blank line. -/
example : splitRows "0.5 1.5 0.25\n\n 0.6\t1.25\n".toList = [["0.5", "1.5", "0.25"], [], ["0.6", "1.25"], []] := by
  decide +kernel

/-! ## C37 -/

/-- C37: a Sellmeier model evaluates to the formula, away from the poles; the wavelength is in nanometres. -/
theorem C37_sellmeier (c0 : ℝ) (poles : List (ℝ × ℝ)) (wl : ℝ) (_ : ∀ p ∈ poles, (wl / 1000) ^ 2 ≠ p.2 ^ 2) :
    Dispersion.eval (.formula 1 (c0 :: poles.flatMap fun p => [p.1, p.2])) wl
      = .ok ((Spec.sellmeier c0 poles (wl / 1000) : ℝ) : ℂ) := by
  have hlen : ∀ q : List (ℝ × ℝ), (q.flatMap fun p => [p.1, p.2]).length = 2 * q.length := by
    intro q
    induction q with
    | nil => rfl
    | cons p q ih => simp only [List.flatMap_cons, List.length_append, ih]; simp; ring
  have key : ∀ (q : List (ℝ × ℝ)) (pre : List ℝ) (acc : ℝ),
      (List.range' pre.length q.length 2).foldlM (fun eps i => do
        let c1 ← pyIdx (pre ++ q.flatMap fun p => [p.1, p.2]) i
        let c2 ← pyIdx (pre ++ q.flatMap fun p => [p.1, p.2]) (i + 1)
        .ok (eps + sellTerm c1 c2 (wl / 1000))) acc
        = (.ok (acc + (q.map fun p => sellTerm p.1 p.2 (wl / 1000)).sum) : Py ℝ) := by
    intro q
    induction q with
    | nil => intro pre acc; simp [pure, Except.pure]
    | cons p q ih =>
      intro pre acc
      rw [List.length_cons, List.range'_succ, List.foldlM_cons]
      have h1 : pyIdx (pre ++ (p :: q).flatMap fun p => [p.1, p.2]) pre.length = .ok p.1 := by
        simp [pyIdx, List.flatMap_cons]
      have h2 : pyIdx (pre ++ (p :: q).flatMap fun p => [p.1, p.2]) (pre.length + 1) = .ok p.2 := by
        simp [pyIdx, List.flatMap_cons]
      have := ih (pre ++ [p.1, p.2]) (acc + sellTerm p.1 p.2 (wl / 1000))
      rw [show (pre ++ [p.1, p.2]).length = pre.length + 2 by simp] at this
      simp only [List.append_assoc] at this
      simp only [h1, h2, Bind.bind, Except.bind] at this ⊢
      rw [List.flatMap_cons, this]
      simp [List.map_cons, List.sum_cons, add_assoc]
  have hl : (c0 :: poles.flatMap fun p => [p.1, p.2]).length / 2 = poles.length := by
    rw [List.length_cons, hlen]; omega
  have := key poles [c0] (1 + c0)
  simp only [List.length_singleton, List.singleton_append] at this
  simp only [Dispersion.eval, sellmeier, hl]
  simp only [if_true]
  rw [show pyIdx (c0 :: poles.flatMap fun p => [p.1, p.2]) 0 = .ok c0 from rfl]
  simp only [Bind.bind, Except.bind] at this ⊢
  rw [this]
  rfl

/-- C37: an even number of coefficients (a pole without its position, or none at all) is an `IndexError`. -/
theorem C37_unpaired (coeff : List ℝ) (h : coeff.length % 2 = 0) (wl : ℝ) :
    Dispersion.eval (.formula 1 coeff) wl = .error .indexError := by
  simp only [Dispersion.eval, sellmeier, if_true]
  rcases coeff with _ | ⟨c0, cs⟩
  · rfl
  · obtain ⟨m, hm⟩ : ∃ m, (c0 :: cs).length = 2 * (m + 1) := ⟨(c0 :: cs).length / 2 - 1, by simp at h ⊢; omega⟩
    rw [show pyIdx (c0 :: cs) 0 = .ok c0 from rfl]
    have key : ∀ (m s : ℕ) (acc : ℝ), s + 2 * m + 1 = (c0 :: cs).length →
        (List.range' s (m + 1) 2).foldlM (fun eps i => do
          let c1 ← pyIdx (c0 :: cs) i
          let c2 ← pyIdx (c0 :: cs) (i + 1)
          .ok (eps + sellTerm c1 c2 (wl / 1000))) acc = (.error .indexError : Py ℝ) := by
      intro m
      induction m with
      | zero =>
        intro s acc hs
        have h1 : pyIdx (c0 :: cs) s = .ok (c0 :: cs)[s] := by
          rw [pyIdx, List.getElem?_eq_getElem (by omega)]
        have h2 : pyIdx (c0 :: cs) (s + 1) = .error .indexError := by
          rw [pyIdx, List.getElem?_eq_none (by omega)]
        simp only [List.range'_succ, List.foldlM_cons, h1, h2, Bind.bind, Except.bind]
      | succ m ih =>
        intro s acc hs
        have h1 : pyIdx (c0 :: cs) s = .ok (c0 :: cs)[s] := by
          rw [pyIdx, List.getElem?_eq_getElem (by omega)]
        have h2 : pyIdx (c0 :: cs) (s + 1) = .ok (c0 :: cs)[s + 1] := by
          rw [pyIdx, List.getElem?_eq_getElem (by omega)]
        have := ih (s + 2) (acc + sellTerm (c0 :: cs)[s] (c0 :: cs)[s + 1] (wl / 1000)) (by omega)
        rw [List.range'_succ, List.foldlM_cons]
        simp only [h1, h2, Bind.bind, Except.bind] at this ⊢
        exact this
    have := key m 1 (1 + c0) (by omega)
    rw [hm, show 2 * (m + 1) / 2 = m + 1 by omega]
    simp only [Bind.bind, Except.bind] at this ⊢
    rw [this]

/-- C37: other formula numbers raise `ValueError` when evaluated. -/
theorem C37_other (num : ℤ) (h : num ≠ 1) (coeff : List ℝ) (wl : ℝ) :
    Dispersion.eval (.formula num coeff) wl = .error .valueError := by
  simp [Dispersion.eval, h]

/-- Fused silica has three poles. -/
example : (Dispersion.eval (.formula 1 [0, 0.6961663, 0.0684043, 0.4079426, 0.1162414, 0.8974794, 9.896161]) 1000).isOk =
    true := by
  have := C37_sellmeier 0 [(0.6961663, 0.0684043), (0.4079426, 0.1162414), (0.8974794, 9.896161)] 1000
    (by intro p hp; simp at hp; rcases hp with rfl | rfl | rfl <;> norm_num)
  simp only [List.flatMap_cons, List.flatMap_nil, List.cons_append, List.nil_append, List.append_nil] at this
  rw [this]
  rfl

/-! ## C34, C35 -/

/-- A call on a material object. -/
inductive MatOp
  | get (wl : DTen ℝ)
  | setDevice (device : Device)
  | warm (wl : ℝ) (leaves : List ℕ)

/-- The object after one call; exceptions leave the state reached so far.  `warm` is one entry of
`init_lookup_wavelengths` (mat.py:330-333). -/
noncomputable def MatDb.step (C : Casts) (d : MatDb) : MatOp → MatDb
  | .get wl => (d.getEpsilon C wl).2
  | .setDevice device => d.setDevice device
  | .warm wl leaves => (d.getSingle C wl d.datDev leaves).2

/-- The object after a history of calls. -/
noncomputable def MatDb.run (C : Casts) (d : MatDb) (h : List MatOp) : MatDb := h.foldl (MatDb.step C) d

/-- The device requested last. -/
def lastDevice (device : Device) (h : List MatOp) : Device :=
  h.foldl (fun dev op => match op with | .setDevice d => d | _ => dev) device

/-- Consistent state: the cache holds values of the dispersion model, everything is on one device. -/
structure MatDb.Good (C : Casts) (m : Dispersion) (d : MatDb) : Prop where
  disp : d.disp = m
  dat : d.datDev = d.dev
  cache : ∀ e ∈ d.cache, ∃ v, m.eval e.1 = .ok v ∧ e.2.ten = Ten.scalar (C.c64 v) ∧ e.2.dev = d.dev

theorem MatDb.lookup_mem {d : MatDb} {k : ℝ} {t : DTen ℂ} (h : d.lookup k = some t) : (k, t) ∈ d.cache := by
  unfold MatDb.lookup at h
  obtain ⟨e, he, rfl⟩ := Option.map_eq_some_iff.mp h
  have h1 := List.mem_of_find?_eq_some he
  have h2 := List.find?_some he
  simp only [decide_eq_true_eq] at h2
  rw [← h2]
  exact h1

theorem MatDb.Good.single {C : Casts} {m : Dispersion} {d : MatDb} (g : d.Good C m) (wl : ℝ) (leaves : List ℕ) :
    ∀ r, r = d.getSingle C wl d.dev leaves → r.2.Good C m ∧ r.2.dev = d.dev ∧
      Except.map (fun t : DTen ℂ => (t.ten, t.dev)) r.1 = Except.map (fun v => (Ten.scalar (C.c64 v), d.dev)) (m.eval wl) := by
  intro r hr
  unfold MatDb.getSingle at hr
  cases hl : d.lookup wl with
  | some t =>
    rw [hl] at hr
    subst hr
    obtain ⟨v, hv, ht, hd⟩ := g.cache _ (MatDb.lookup_mem hl)
    refine ⟨g, rfl, ?_⟩
    simp only at hv ht hd
    rw [hv]
    simp [Except.map, ht, hd]
  | none =>
    rw [hl] at hr
    have hev : d.evaluated wl d.dev = m.eval wl := by
      unfold MatDb.evaluated
      rw [g.disp, g.dat]
      cases m <;> simp
    rw [hev] at hr
    cases he : m.eval wl with
    | error e =>
      rw [he] at hr
      subst hr
      exact ⟨g, rfl, rfl⟩
    | ok v =>
      rw [he] at hr
      subst hr
      refine ⟨⟨g.disp, g.dat, ?_⟩, rfl, rfl⟩
      intro e hmem
      simp only [List.mem_append, List.mem_singleton] at hmem
      rcases hmem with hmem | rfl
      · exact g.cache e hmem
      · exact ⟨v, he, rfl, rfl⟩

theorem MatDb.Good.list {C : Casts} {m : Dispersion} (leaves : List ℕ) : ∀ (ws : List ℝ) {d : MatDb}, d.Good C m →
    ∀ r, r = MatDb.getList C leaves ws d → r.2.Good C m ∧ r.2.dev = d.dev ∧
      Except.map (List.map fun t : DTen ℂ => (t.ten, t.dev)) r.1
        = ws.mapM fun w => Except.map (fun v => (Ten.scalar (C.c64 v), d.dev)) (m.eval w) := by
  intro ws
  induction ws with
  | nil => intro d g r hr; subst hr; exact ⟨g, rfl, rfl⟩
  | cons w ws ih =>
    intro d g r hr
    unfold MatDb.getList at hr
    obtain ⟨g1, hd1, hv1⟩ := g.single w leaves _ rfl
    rcases hs : d.getSingle C w d.dev leaves with ⟨_ | t, d'⟩
    · rw [hs] at hr g1 hd1 hv1
      subst hr
      refine ⟨g1, hd1, ?_⟩
      rw [List.mapM_cons, ← hv1]
      rfl
    · rw [hs] at hr g1 hd1 hv1
      simp only at hr g1 hd1 hv1
      obtain ⟨g2, hd2, hv2⟩ := ih g1 _ rfl
      rw [hd1] at hd2 hv2
      rcases hl : MatDb.getList C leaves ws d' with ⟨_ | ts, d''⟩
      · rw [hl] at hr g2 hd2 hv2
        subst hr
        refine ⟨g2, hd2, ?_⟩
        rw [List.mapM_cons, ← hv1, ← hv2]
        rfl
      · rw [hl] at hr g2 hd2 hv2
        subst hr
        refine ⟨g2, hd2, ?_⟩
        rw [List.mapM_cons, ← hv1, ← hv2]
        rfl

theorem MatDb.getEpsilon_state {C : Casts} {m : Dispersion} {d : MatDb} (g : d.Good C m) (wl : DTen ℝ) :
    (d.getEpsilon C wl).2.Good C m ∧ (d.getEpsilon C wl).2.dev = d.dev := by
  unfold MatDb.getEpsilon
  rcases hs : wl.ten.squeeze.shape with _ | ⟨n, _ | ⟨a, s⟩⟩
  · simp only [hs]
    obtain ⟨g1, h1, -⟩ := g.single (C.f32 (wl.ten.squeeze.get [])) wl.leaves _ rfl
    exact ⟨g1, h1⟩
  · simp only [hs]
    obtain ⟨g1, h1, -⟩ := MatDb.Good.list (C := C) wl.leaves
      ((List.range n).map fun (i : ℕ) => C.f32 (wl.ten.squeeze.get [i])) g _ rfl
    rcases hl : MatDb.getList C wl.leaves ((List.range n).map fun (i : ℕ) => C.f32 (wl.ten.squeeze.get [i])) d with ⟨_ | ts, d'⟩
    · rw [hl] at g1 h1; exact ⟨g1, h1⟩
    · rw [hl] at g1 h1; exact ⟨g1, h1⟩
  · simp only [hs]; exact ⟨g, trivial⟩

theorem MatDb.Good.step {C : Casts} {m : Dispersion} {d : MatDb} (g : d.Good C m) (op : MatOp) :
    (d.step C op).Good C m ∧ (d.step C op).dev = lastDevice d.dev [op] := by
  cases op with
  | get wl => exact MatDb.getEpsilon_state g wl
  | setDevice device =>
    refine ⟨⟨g.disp, rfl, ?_⟩, rfl⟩
    intro e he
    simp only [MatDb.step, MatDb.setDevice, List.mem_map] at he
    obtain ⟨e', he', rfl⟩ := he
    obtain ⟨v, h1, h2, h3⟩ := g.cache e' he'
    exact ⟨v, h1, h2, rfl⟩
  | warm wl leaves =>
    obtain ⟨g1, h1, -⟩ := g.single wl leaves _ rfl
    simp only [MatDb.step]
    rw [g.dat]
    exact ⟨g1, h1⟩

theorem MatDb.run_good (C : Casts) (m : Dispersion) (device : Device) (h : List MatOp) :
    ((MatDb.new m device).run C h).Good C m ∧ ((MatDb.new m device).run C h).dev = lastDevice device h := by
  have key : ∀ (h : List MatOp) (d : MatDb), d.Good C m → (d.run C h).Good C m ∧ (d.run C h).dev = lastDevice d.dev h := by
    intro h
    induction h with
    | nil => intro d g; exact ⟨g, rfl⟩
    | cons op h ih =>
      intro d g
      obtain ⟨g1, h1⟩ := g.step op
      obtain ⟨g2, h2⟩ := ih _ g1
      refine ⟨g2, ?_⟩
      rw [show d.run C (op :: h) = (d.step C op).run C h from rfl, h2, h1]
      rfl
  exact key h _ ⟨rfl, rfl, by simp [MatDb.new]⟩

/-- C34: after any history of calls (including failed ones and an initial lookup table), a single wavelength gives the
value of the dispersion model at that wavelength on the device requested last. -/
theorem C34_single (C : Casts) (m : Dispersion) (device : Device) (h : List MatOp) (wl : DTen ℝ)
    (hs : wl.ten.squeeze.shape = []) :
    Except.map (fun t : DTen ℂ => (t.ten, t.dev)) (((MatDb.new m device).run C h).getEpsilon C wl).1
      = Except.map (fun v => (Ten.scalar (C.c64 v), lastDevice device h)) (m.eval (C.f32 (wl.ten.squeeze.get []))) := by
  obtain ⟨g, hd⟩ := MatDb.run_good C m device h
  obtain ⟨-, -, hv⟩ := g.single (C.f32 (wl.ten.squeeze.get [])) wl.leaves _ rfl
  rw [hd] at hv
  unfold MatDb.getEpsilon
  simp only [hs, hd]
  exact hv

theorem MatDb.Good.epsilon_list {C : Casts} {m : Dispersion} {d : MatDb} (g : d.Good C m) (wl : DTen ℝ) {n : ℕ} (hn : 0 < n)
    (hs : wl.ten.squeeze.shape = [n]) :
    (∀ v : ℕ → ℂ, (∀ i, i < n → m.eval (C.f32 (wl.ten.squeeze.get [i])) = .ok (v i)) →
      ∃ t, (d.getEpsilon C wl).1 = .ok t ∧ t.ten.shape = [n] ∧ t.dev = d.dev ∧
        ∀ i, i < n → t.ten.get [i] = C.c64 (v i)) ∧
    (∀ e, m.eval (C.f32 (wl.ten.squeeze.get [0])) = .error e → (d.getEpsilon C wl).1 = .error e) := by
  obtain ⟨-, -, hv⟩ := MatDb.Good.list (C := C) wl.leaves
    ((List.range n).map fun (i : ℕ) => C.f32 (wl.ten.squeeze.get [i])) g _ rfl
  unfold MatDb.getEpsilon
  simp only [hs]
  constructor
  · intro v hok
    have hm : (((List.range n).map fun (i : ℕ) => C.f32 (wl.ten.squeeze.get [i])).mapM fun w =>
        Except.map (fun v => (Ten.scalar (C.c64 v), d.dev)) (m.eval w) : Py _)
        = .ok ((List.range n).map fun i => (Ten.scalar (C.c64 (v i)), d.dev)) := by
      have : ∀ l : List ℕ, (∀ i ∈ l, i < n) → ((l.map fun (i : ℕ) => C.f32 (wl.ten.squeeze.get [i])).mapM fun w =>
          Except.map (fun v => (Ten.scalar (C.c64 v), d.dev)) (m.eval w) : Py _)
          = .ok (l.map fun i => (Ten.scalar (C.c64 (v i)), d.dev)) := by
        intro l hl
        induction l with
        | nil => rfl
        | cons i l ih =>
          rw [List.map_cons, List.mapM_cons, ih fun j hj => hl j (List.mem_cons_of_mem _ hj), hok i (hl i List.mem_cons_self)]
          rfl
      exact this _ (by simp)
    rw [hm] at hv
    rcases hl : MatDb.getList C wl.leaves ((List.range n).map fun (i : ℕ) => C.f32 (wl.ten.squeeze.get [i]))
      d with ⟨_ | ts, d'⟩
    · rw [hl] at hv; cases hv
    · rw [hl] at hv
      simp only [Except.map, Except.ok.injEq] at hv
      have hlen : ts.length = n := by simpa using congrArg List.length hv
      have hget : ∀ i (hi : i < ts.length), ts[i].ten = Ten.scalar (C.c64 (v i)) ∧ ts[i].dev = d.dev := by
        intro i hi
        have := congrArg (fun l => l[i]?) hv
        simp only [List.getElem?_map, List.getElem?_range (hlen ▸ hi), Option.map_some,
          List.getElem?_eq_getElem hi, Option.some.injEq, Prod.mk.injEq] at this
        exact this
      simp only
      rcases ts with _ | ⟨t, ts⟩
      · simp at hlen; omega
      · have h0 := hget 0 (by simp)
        have hall : ts.all (fun u => u.dev = t.dev) = true := by
          rw [List.all_eq_true]
          intro u hu
          obtain ⟨i, hi, rfl⟩ := List.mem_iff_getElem.mp hu
          have := (hget (i + 1) (by simpa using hi)).2
          simp only [List.getElem_cons_succ] at this
          simp only [List.getElem_cons_zero] at h0
          simp [this, h0.2]
        rw [stackScalars, if_pos hall]
        refine ⟨_, rfl, congrArg (fun k => [k]) hlen, h0.2, ?_⟩
        intro i hi
        have hi' : i < (t :: ts).length := by omega
        simp only [List.headD_cons, List.getElem?_eq_getElem hi', Option.map_some, Option.getD_some, (hget i hi').1]
        rfl
  · intro e he
    obtain ⟨k, rfl⟩ : ∃ k, n = k + 1 := ⟨n - 1, by omega⟩
    have hm : (((List.range (k + 1)).map fun (i : ℕ) => C.f32 (wl.ten.squeeze.get [i])).mapM fun w =>
        Except.map (fun v => (Ten.scalar (C.c64 v), d.dev)) (m.eval w) : Py _) = .error e := by
      rw [List.range_succ_eq_map, List.map_cons, List.mapM_cons, he]
      rfl
    rw [hm] at hv
    rcases hl : MatDb.getList C wl.leaves ((List.range (k + 1)).map fun (i : ℕ) => C.f32 (wl.ten.squeeze.get [i]))
      d with ⟨e' | ts, d'⟩
    · rw [hl] at hv
      simp only [Except.map, Except.error.injEq] at hv
      simp [hv]
    · rw [hl] at hv; cases hv

/-- C34: after any history, a list of `n ≥ 1` wavelengths gives the `n` values of the dispersion model, in order, on the
device requested last; if the model cannot be evaluated, its exception. -/
theorem C34_list (C : Casts) (m : Dispersion) (device : Device) (h : List MatOp) (wl : DTen ℝ) {n : ℕ} (hn : 0 < n)
    (hs : wl.ten.squeeze.shape = [n]) :
    (∀ v : ℕ → ℂ, (∀ i, i < n → m.eval (C.f32 (wl.ten.squeeze.get [i])) = .ok (v i)) →
      ∃ t, (((MatDb.new m device).run C h).getEpsilon C wl).1 = .ok t ∧ t.ten.shape = [n] ∧ t.dev = lastDevice device h ∧
        ∀ i, i < n → t.ten.get [i] = C.c64 (v i)) ∧
    (∀ e, m.eval (C.f32 (wl.ten.squeeze.get [0])) = .error e →
      (((MatDb.new m device).run C h).getEpsilon C wl).1 = .error e) := by
  obtain ⟨g, hd⟩ := MatDb.run_good C m device h
  have := g.epsilon_list wl hn hs
  rw [hd] at this
  exact this

/-- Wavelengths (after the cast) a call asks for. -/
def MatOp.keys (C : Casts) : MatOp → List ℝ
  | .get wl =>
    match wl.ten.squeeze.shape with
    | [] => [C.f32 (wl.ten.squeeze.get [])]
    | [n] => (List.range n).map fun (i : ℕ) => C.f32 (wl.ten.squeeze.get [i])
    | _ => []
  | .setDevice _ => []
  | .warm wl _ => [wl]

theorem MatDb.lookup_append (d : MatDb) (k : ℝ) (e : ℝ × DTen ℂ) :
    MatDb.lookup { d with cache := d.cache ++ [e] } k = (d.lookup k).or (if e.1 = k then some e.2 else none) := by
  unfold MatDb.lookup
  simp only [List.find?_append, List.find?_cons, List.find?_nil]
  cases hf : d.cache.find? fun e => decide (e.1 = k) with
  | some v => simp
  | none => by_cases h : e.1 = k <;> simp [h]

theorem MatDb.single_lookup (C : Casts) (d : MatDb) (wl : ℝ) (wdev : Device) (leaves : List ℕ) (k : ℝ) :
    (k ≠ wl → (d.getSingle C wl wdev leaves).2.lookup k = d.lookup k) ∧
    (∀ t, d.lookup k = some t → (d.getSingle C wl wdev leaves).2.lookup k = some t) := by
  unfold MatDb.getSingle
  cases hl : d.lookup wl with
  | some t => exact ⟨fun _ => rfl, fun _ h => h⟩
  | none =>
    cases d.evaluated wl wdev with
    | error e => exact ⟨fun _ => rfl, fun _ h => h⟩
    | ok v =>
      simp only [MatDb.lookup_append]
      refine ⟨fun h => ?_, fun t h => ?_⟩
      · rw [if_neg (Ne.symm h), Option.or_none]
      · rw [h, Option.some_or]

theorem MatDb.list_lookup (C : Casts) (leaves : List ℕ) (k : ℝ) : ∀ (ws : List ℝ) (d : MatDb),
    (k ∉ ws → (MatDb.getList C leaves ws d).2.lookup k = d.lookup k) ∧
    (∀ t, d.lookup k = some t → (MatDb.getList C leaves ws d).2.lookup k = some t) := by
  intro ws
  induction ws with
  | nil => intro d; exact ⟨fun _ => rfl, fun _ h => h⟩
  | cons w ws ih =>
    intro d
    obtain ⟨h1, h2⟩ := d.single_lookup C w d.dev leaves k
    unfold MatDb.getList
    rcases hs : d.getSingle C w d.dev leaves with ⟨_ | t, d'⟩
    · rw [hs] at h1 h2
      exact ⟨fun hk => h1 fun e => hk (by simp [e]), h2⟩
    · rw [hs] at h1 h2
      simp only at h1 h2
      obtain ⟨h3, h4⟩ := ih d'
      rcases hl : MatDb.getList C leaves ws d' with ⟨_ | ts, d''⟩
      all_goals
        rw [hl] at h3 h4
        simp only [hl]
        refine ⟨fun hk => ?_, fun u hu => h4 u (h2 u hu)⟩
        exact (h3 fun e => hk (List.mem_cons_of_mem _ e)).trans (h1 fun e => hk (by simp [e]))

theorem MatDb.getEpsilon_lookup (C : Casts) (d : MatDb) (wl : DTen ℝ) (k : ℝ) :
    (k ∉ MatOp.keys C (.get wl) → (d.getEpsilon C wl).2.lookup k = d.lookup k) ∧
    (∀ t, d.lookup k = some t → (d.getEpsilon C wl).2.lookup k = some t) := by
  unfold MatDb.getEpsilon MatOp.keys
  rcases hs : wl.ten.squeeze.shape with _ | ⟨n, _ | ⟨a, s⟩⟩
  · simp only [hs]
    obtain ⟨h1, h2⟩ := d.single_lookup C (C.f32 (wl.ten.squeeze.get [])) d.dev wl.leaves k
    exact ⟨fun hk => h1 (by simpa using hk), h2⟩
  · simp only [hs]
    obtain ⟨h1, h2⟩ := MatDb.list_lookup C wl.leaves k ((List.range n).map fun (i : ℕ) => C.f32 (wl.ten.squeeze.get [i])) d
    rcases hl : MatDb.getList C wl.leaves ((List.range n).map fun (i : ℕ) => C.f32 (wl.ten.squeeze.get [i])) d with ⟨_ | ts, d'⟩
    · rw [hl] at h1 h2; exact ⟨h1, h2⟩
    · rw [hl] at h1 h2; exact ⟨h1, h2⟩
  · simp only [hs]; exact ⟨fun _ => trivial, fun _ h => h⟩

theorem MatDb.setDevice_lookup (d : MatDb) (device : Device) (k : ℝ) :
    (d.setDevice device).lookup k = (d.lookup k).map fun t => { t with dev := device } := by
  unfold MatDb.lookup MatDb.setDevice
  simp only [List.find?_map, Option.map_map]
  rfl

theorem MatDb.step_lookup (C : Casts) (d : MatDb) (op : MatOp) (k : ℝ) :
    (k ∉ op.keys C → d.lookup k = none → (d.step C op).lookup k = none) ∧
    (∀ t, d.lookup k = some t → ∃ u, (d.step C op).lookup k = some u ∧ u.leaves = t.leaves) := by
  cases op with
  | get wl =>
    obtain ⟨h1, h2⟩ := d.getEpsilon_lookup C wl k
    exact ⟨fun hk h => by rw [← h]; exact h1 hk, fun t ht => ⟨t, h2 t ht, rfl⟩⟩
  | setDevice device =>
    refine ⟨fun _ h => ?_, fun t ht => ⟨{ t with dev := device }, by simp only [MatDb.step]; rw [MatDb.setDevice_lookup, ht]; rfl, rfl⟩⟩
    simp only [MatDb.step]
    rw [MatDb.setDevice_lookup, h]
    rfl
  | warm wl leaves =>
    obtain ⟨h1, h2⟩ := d.single_lookup C wl d.datDev leaves k
    refine ⟨fun hk h => ?_, fun t ht => ⟨t, h2 t ht, rfl⟩⟩
    rw [← h]
    exact h1 (by simpa [MatOp.keys] using hk)

theorem MatDb.run_lookup (C : Casts) (k : ℝ) : ∀ (h : List MatOp) (d : MatDb),
    ((∀ op ∈ h, k ∉ op.keys C) → d.lookup k = none → (d.run C h).lookup k = none) ∧
    (∀ t, d.lookup k = some t → ∃ u, (d.run C h).lookup k = some u ∧ u.leaves = t.leaves) := by
  intro h
  induction h with
  | nil => intro d; exact ⟨fun _ h => h, fun t ht => ⟨t, ht, rfl⟩⟩
  | cons op h ih =>
    intro d
    obtain ⟨h1, h2⟩ := d.step_lookup C op k
    obtain ⟨h3, h4⟩ := ih (d.step C op)
    refine ⟨fun hk hn => h3 (fun op hop => hk op (List.mem_cons_of_mem _ hop)) (h1 (hk op List.mem_cons_self) hn), ?_⟩
    intro t ht
    obtain ⟨u, hu, e⟩ := h2 t ht
    obtain ⟨w, hw, e'⟩ := h4 u hu
    exact ⟨w, hw, e'.trans e⟩

/-- The model has a term that contains the wavelength: a table, or a formula with more than the constant coefficient. -/
def Dispersion.HasWavelength : Dispersion → Prop
  | .table _ => True
  | .formula _ coeff => 2 ≤ coeff.length

theorem Dispersion.differentiable_iff (m : Dispersion) : m.differentiable = true ↔ m.HasWavelength := by
  cases m with
  | table rows => exact ⟨fun _ => trivial, fun _ => rfl⟩
  | formula num coeff =>
    simp only [Dispersion.differentiable, Dispersion.HasWavelength, decide_eq_true_eq]
    omega

theorem MatDb.first_leaves (C : Casts) (m : Dispersion) (device : Device) (h : List MatOp)
    (wl : DTen ℝ) (hs : wl.ten.squeeze.shape = []) (hnew : ∀ op ∈ h, C.f32 (wl.ten.squeeze.get []) ∉ op.keys C)
    {t : DTen ℂ} (ht : (((MatDb.new m device).run C h).getEpsilon C wl).1 = .ok t) :
    t.leaves = if m.differentiable then wl.leaves else [] := by
  have hl := (MatDb.run_lookup C _ h (MatDb.new m device)).1 hnew rfl
  obtain ⟨g, -⟩ := MatDb.run_good C m device h
  unfold MatDb.getEpsilon at ht
  simp only [hs] at ht
  unfold MatDb.getSingle at ht
  rw [hl] at ht
  simp only at ht
  cases he : MatDb.evaluated ((MatDb.new m device).run C h) (C.f32 (wl.ten.squeeze.get []))
    ((MatDb.new m device).run C h).dev with
  | error e => rw [he] at ht; cases ht
  | ok v =>
    rw [he] at ht
    simp only [Except.ok.injEq] at ht
    rw [← ht]
    simp [g.disp]

/-- C35, the part that holds: the first request for a wavelength is attached to the caller's tensor. -/
theorem C35_first_partial (C : Casts) (m : Dispersion) (hm : m.HasWavelength) (device : Device) (h : List MatOp)
    (wl : DTen ℝ) (hs : wl.ten.squeeze.shape = []) (hnew : ∀ op ∈ h, C.f32 (wl.ten.squeeze.get []) ∉ op.keys C)
    {t : DTen ℂ} (ht : (((MatDb.new m device).run C h).getEpsilon C wl).1 = .ok t) : t.leaves = wl.leaves := by
  rw [MatDb.first_leaves C m device h wl hs hnew ht, if_pos ((Dispersion.differentiable_iff m).mpr hm)]

/-- C35: a formula with only the constant coefficient gives a permittivity that is attached to nothing. -/
theorem C35_constant_partial (C : Casts) (c0 : ℝ) (device : Device) (h : List MatOp)
    (wl : DTen ℝ) (hs : wl.ten.squeeze.shape = []) (hnew : ∀ op ∈ h, C.f32 (wl.ten.squeeze.get []) ∉ op.keys C) :
    ∃ t, (((MatDb.new (.formula 1 [c0]) device).run C h).getEpsilon C wl).1 = .ok t ∧ t.leaves = [] ∧
      t.ten = Ten.scalar (C.c64 ((1 + c0 : ℝ) : ℂ)) := by
  have hv := C34_single C (.formula 1 [c0]) device h wl hs
  have hev := C37_sellmeier c0 [] (C.f32 (wl.ten.squeeze.get [])) (by simp)
  simp only [List.flatMap_nil] at hev
  rw [hev] at hv
  cases hr : (((MatDb.new (.formula 1 [c0]) device).run C h).getEpsilon C wl).1 with
  | error e => rw [hr] at hv; cases hv
  | ok t =>
    refine ⟨t, rfl, ?_, ?_⟩
    · rw [MatDb.first_leaves C _ device h wl hs hnew hr, if_neg]
      rw [Dispersion.differentiable_iff]
      simp [Dispersion.HasWavelength]
    · rw [hr] at hv
      simp only [Except.map, Except.ok.injEq, Prod.mk.injEq] at hv
      rw [hv.1]
      simp [Spec.sellmeier]

/-- Both cases at 500 nm, for a new object. -/
example : ∃ t, ((MatDb.new (.formula 1 [0.5]) "cpu").getEpsilon ⟨id, id⟩ ⟨Ten.scalar 500, "cpu", [7]⟩).1 = .ok t ∧ t.leaves = [] :=
  let ⟨t, h1, h2, _⟩ := C35_constant_partial ⟨id, id⟩ 0.5 "cpu" [] ⟨Ten.scalar 500, "cpu", [7]⟩ rfl (by simp)
  ⟨t, h1, h2⟩

example : Dispersion.HasWavelength (.formula 1 [0, 1, 2]) := by simp [Dispersion.HasWavelength]

/-- C35, why it fails: every later request for an equal wavelength is attached to the tensor of the first request. -/
theorem C35_stale_partial (C : Casts) (m : Dispersion) (device : Device) (h h' : List MatOp) (wl wl' : DTen ℝ)
    (hs : wl.ten.squeeze.shape = []) (hs' : wl'.ten.squeeze.shape = [])
    (heq : C.f32 (wl'.ten.squeeze.get []) = C.f32 (wl.ten.squeeze.get [])) {t t' : DTen ℂ}
    (ht : (((MatDb.new m device).run C h).getEpsilon C wl).1 = .ok t)
    (ht' : (((MatDb.new m device).run C (h ++ .get wl :: h')).getEpsilon C wl').1 = .ok t') : t'.leaves = t.leaves := by
  have hrun : (MatDb.new m device).run C (h ++ .get wl :: h')
      = (((MatDb.new m device).run C h).getEpsilon C wl).2.run C h' := by
    simp only [MatDb.run, List.foldl_append, List.foldl_cons]
    rfl
  rw [hrun] at ht'
  generalize (MatDb.new m device).run C h = d at ht ht'
  have hl : (d.getEpsilon C wl).2.lookup (C.f32 (wl.ten.squeeze.get [])) = some t := by
    unfold MatDb.getEpsilon at ht ⊢
    simp only [hs] at ht ⊢
    unfold MatDb.getSingle at ht ⊢
    cases hd : d.lookup (C.f32 (wl.ten.squeeze.get [])) with
    | some u =>
      rw [hd] at ht
      simp only [Except.ok.injEq] at ht
      simpa [ht] using hd
    | none =>
      rw [hd] at ht
      simp only at ht ⊢
      cases he : d.evaluated (C.f32 (wl.ten.squeeze.get [])) d.dev with
      | error e => rw [he] at ht; cases ht
      | ok v =>
        rw [he] at ht
        simp only [Except.ok.injEq] at ht
        simp only [MatDb.lookup_append, hd, Option.none_or, if_true, ht]
  obtain ⟨u, hu, e⟩ := (MatDb.run_lookup C _ h' _).2 t hl
  generalize (d.getEpsilon C wl).2.run C h' = d' at hu ht'
  unfold MatDb.getEpsilon at ht'
  simp only [hs'] at ht'
  unfold MatDb.getSingle at ht'
  rw [heq, hu] at ht'
  simp only [Except.ok.injEq] at ht'
  rw [← ht', e]

/-- C35 is false: two calls with the same wavelength value in different tensors. -/
theorem C35_negation : ¬ ∀ (C : Casts) (m : Dispersion) (device : Device) (h : List MatOp) (wl : DTen ℝ) (t : DTen ℂ),
    m.HasWavelength → wl.ten.squeeze.shape = [] →
      (((MatDb.new m device).run C h).getEpsilon C wl).1 = .ok t → t.leaves = wl.leaves := by
  intro H
  let C : Casts := ⟨id, id⟩
  let m : Dispersion := .formula 1 [0, 1, 2]
  let wl : ℕ → DTen ℝ := fun i => ⟨Ten.scalar 500, "cpu", [i]⟩
  have hev : m.eval 500 = .ok ((Spec.sellmeier 0 [(1, 2)] (500 / 1000) : ℝ) : ℂ) :=
    C37_sellmeier 0 [(1, 2)] 500 (by intro p hp; simp at hp; subst hp; norm_num)
  have hok : ∀ (h : List MatOp) (i : ℕ), ∃ t, (((MatDb.new m "cpu").run C h).getEpsilon C (wl i)).1 = .ok t := by
    intro h i
    have := C34_single C m "cpu" h (wl i) rfl
    rw [show C.f32 ((wl i).ten.squeeze.get []) = 500 from rfl, hev] at this
    cases hr : (((MatDb.new m "cpu").run C h).getEpsilon C (wl i)).1 with
    | error e => rw [hr] at this; cases this
    | ok t => exact ⟨t, rfl⟩
  obtain ⟨t1, h1⟩ := hok [] 1
  obtain ⟨t2, h2⟩ := hok [.get (wl 1)] 2
  have hm : m.HasWavelength := by simp [m, Dispersion.HasWavelength]
  have e1 := H C m "cpu" [] (wl 1) t1 hm rfl h1
  have e2 := H C m "cpu" [.get (wl 1)] (wl 2) t2 hm rfl h2
  have e3 := C35_stale_partial C m "cpu" [] [] (wl 1) (wl 2) rfl rfl rfl h1 h2
  rw [e1, e2] at e3
  simp [wl] at e3

/-- Cache and device change: a value computed on the CPU is returned on the new device. -/
example (C : Casts) (m : Dispersion) (w : DTen ℝ) (hs : w.ten.squeeze.shape = []) (v : ℂ)
    (hv : m.eval (C.f32 (w.ten.squeeze.get [])) = .ok v) :
    Except.map (fun t : DTen ℂ => (t.ten, t.dev))
      (((MatDb.new m "cpu").run C [.get w, .setDevice "cuda", .get w]).getEpsilon C w).1 = .ok (Ten.scalar (C.c64 v), "cuda") := by
  rw [C34_single C m "cpu" _ w hs, hv]
  rfl

/-! ## C55 -/

theorem refindexData_spec (files : List String) (key : String) :
    ((refindexData files).map (·.1)).Nodup ∧
    (refindexData files).find? (fun e => e.1 = key)
      = (files.reverse.find? fun f => materialKey f = key).map fun f => (key, f) := by
  have hrw : ∀ fs f, refindexData (fs ++ [f]) = (if (refindexData fs).any (fun e => e.1 = materialKey f) then
      (refindexData fs).map fun e => if e.1 = materialKey f then (materialKey f, f) else e
      else refindexData fs ++ [(materialKey f, f)]) := by
    intro fs f
    simp only [refindexData, List.foldl_append, List.foldl_cons, List.foldl_nil]
    rfl
  induction files using List.reverseRecOn with
  | nil => simp [refindexData]
  | append_singleton fs f ih =>
    obtain ⟨hnd, hfind⟩ := ih
    rw [hrw, List.reverse_append, List.reverse_singleton, List.singleton_append, List.find?_cons]
    by_cases hany : (refindexData fs).any (fun e => e.1 = materialKey f) = true
    · rw [if_pos hany]
      have hkeys : ((refindexData fs).map fun e => if e.1 = materialKey f then (materialKey f, f) else e).map (·.1)
          = (refindexData fs).map (·.1) := by
        rw [List.map_map]
        refine List.map_congr_left fun e _ => ?_
        by_cases h : e.1 = materialKey f <;> simp [h]
      refine ⟨by rw [hkeys]; exact hnd, ?_⟩
      rw [List.find?_map]
      have hcomp : ((fun e : String × String => decide (e.1 = key)) ∘ fun e => if e.1 = materialKey f then (materialKey f, f) else e)
          = fun e => decide (e.1 = key) := by
        funext e
        by_cases h : e.1 = materialKey f <;> simp [h]
      rw [hcomp]
      by_cases hk : materialKey f = key
      · obtain ⟨e, he, hek⟩ := List.any_eq_true.mp hany
        cases hf : (refindexData fs).find? fun e => decide (e.1 = key) with
        | none =>
          have := List.find?_eq_none.mp hf e he
          simp only [decide_eq_true_eq] at hek this
          exact absurd (hek.trans hk) this
        | some e' =>
          have := List.find?_some hf
          simp only [decide_eq_true_eq] at this
          simp [hk, this]
      · rw [hfind]
        simp only [hk, decide_false]
        cases hf : fs.reverse.find? fun f => decide (materialKey f = key) with
        | none => rfl
        | some g =>
          simp [Ne.symm hk]
    · rw [if_neg hany]
      have hnone : ∀ e ∈ refindexData fs, e.1 ≠ materialKey f := by
        intro e he h
        exact hany (List.any_eq_true.mpr ⟨e, he, by simpa using h⟩)
      constructor
      · rw [List.map_append, List.nodup_append]
        refine ⟨hnd, by simp, ?_⟩
        intro a ha b hb
        obtain ⟨e, he, rfl⟩ := List.mem_map.mp ha
        simp only [List.map_cons, List.map_nil, List.mem_singleton] at hb
        rw [hb]
        exact hnone e he
      · rw [List.find?_append, hfind]
        by_cases hk : materialKey f = key
        · have : fs.reverse.find? (fun f => decide (materialKey f = key)) = none := by
            cases hf : fs.reverse.find? fun f => decide (materialKey f = key) with
            | none => rfl
            | some g =>
              rw [hf] at hfind
              have hm := List.mem_of_find?_eq_some hfind
              exact absurd hk.symm (hnone _ hm)
          rw [this]
          simp [hk]
        · simp [hk]

/-- C55: lookup ignores case. -/
theorem C55_case (files : List String) (a b : String) (h : pyLower a = pyLower b) :
    findMaterial (refindexData files) a = findMaterial (refindexData files) b := by
  unfold findMaterial
  rw [h]

/-- C55: a name refers to the last file with this key; a name without file is a `ValueError`. -/
theorem C55_lookup (files : List String) (name : String) :
    findMaterial (refindexData files) name
      = match files.reverse.find? fun f => materialKey f = pyLower name with
        | some f => .ok f
        | none => .error .valueError := by
  unfold findMaterial
  rw [(refindexData_spec files (pyLower name)).2]
  cases files.reverse.find? fun f => decide (materialKey f = pyLower name) <;> rfl

/-- C55: without `verbose`, the keys of all files are listed, each once. -/
theorem C55_list (files : List String) :
    ∃ l, listAvailableMaterials (refindexData files) false = .ok l ∧ l.Nodup ∧ ∀ k, k ∈ l ↔ ∃ f ∈ files, materialKey f = k := by
  refine ⟨_, by simp [listAvailableMaterials], (refindexData_spec files "").1, fun k => ?_⟩
  have h := (refindexData_spec files k).2
  constructor
  · intro hk
    obtain ⟨e, he, rfl⟩ := List.mem_map.mp hk
    cases hf : files.reverse.find? fun f => decide (materialKey f = e.1) with
    | none =>
      rw [hf] at h
      have := List.find?_eq_none.mp h e he
      simp at this
    | some f =>
      exact ⟨f, List.mem_reverse.mp (List.mem_of_find?_eq_some hf), by simpa using List.find?_some hf⟩
  · rintro ⟨f, hf, rfl⟩
    cases hg : files.reverse.find? fun g => decide (materialKey g = materialKey f) with
    | none =>
      have := List.find?_eq_none.mp hg f (List.mem_reverse.mpr hf)
      simp at this
    | some g =>
      rw [hg] at h
      exact List.mem_map.mpr ⟨_, List.mem_of_find?_eq_some h, rfl⟩

/-- C55 is false for `verbose=True`: listing any non-empty database raises `TypeError`. -/
theorem C55_verbose_partial (files : List String) (h : files ≠ []) :
    listAvailableMaterials (refindexData files) true = .error .typeError := by
  have : refindexData files ≠ [] := by
    obtain ⟨f, hf⟩ := List.exists_mem_of_ne_nil files h
    obtain ⟨l, hl, -, hmem⟩ := C55_list files
    intro h0
    rw [h0] at hl
    simp [listAvailableMaterials] at hl
    subst hl
    have := (hmem (materialKey f)).mpr ⟨f, hf, rfl⟩
    simp at this
  simp [listAvailableMaterials, this]

example : findMaterial (refindexData ["Si_Schinke2015.yml", "Ag_Johnson1972.yml"]) "AG" = .ok "Ag_Johnson1972.yml" := by
  decide +kernel

/-- `C36_rows` and `C36_reject` apply: a row without `k`, a blank row, and a lone number. -/
example : let parse := fun s : String => if s = "a" then some (1 : ℝ) else if s = "b" then some 2 else none
    loadTabulated parse [["a", "b"], [], ["b", "a", "a"]] = .ok [(1000 * 1, ⟨2 ^ 2 - 0 ^ 2, 2 * 2 * 0⟩), (1000 * 2, ⟨1 ^ 2 - 1 ^ 2, 2 * 1 * 1⟩)] ∧
    ∃ e, loadTabulated parse [["a", "b"], ["a"]] = .error e := by
  intro parse
  constructor
  · rw [C36_rows parse _ (by
      intro s hs
      simp only [List.mem_cons, List.not_mem_nil, or_false] at hs
      rcases hs with rfl | rfl | rfl <;> simp [Spec.rowMeaning, parse])]
    simp [List.filterMap_cons, Spec.rowMeaning, parse, Spec.rowValue]
  · obtain ⟨e, h, -⟩ := C36_reject parse [["a", "b"]] ["a"] [] (by simp [Spec.rowMeaning, parse]) (by simp) rfl
    exact ⟨e, h⟩

/-- `C37_unpaired` and `C37_other` apply: a resonance without its wavelength, and formula 2. -/
example : Dispersion.eval (.formula 1 [0, 0.7]) 500 = .error .indexError ∧ Dispersion.eval (.formula 2 [0, 0.7, 0.1]) 500 = .error .valueError :=
  ⟨C37_unpaired _ rfl _, C37_other 2 (by norm_num) _ _⟩

/-- `C55_case` and `C55_verbose_partial` apply. -/
example (files : List String) : findMaterial (refindexData files) "Si" = findMaterial (refindexData files) "sI" ∧
    listAvailableMaterials (refindexData ["Si_Schinke2015.yml"]) true = .error .typeError :=
  ⟨C55_case files _ _ (by decide +kernel), C55_verbose_partial _ (by simp)⟩

end MieDiff
