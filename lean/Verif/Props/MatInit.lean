import Verif.Model.MatInit
import Verif.Props.Tables

/-!
# C112, C113: making a `MatDatabase`
-/

namespace MieDiff

open Complex

namespace Spec

/-- The parts of a result that a user sees: values and device. -/
def seen (r : Py (DTen ℂ)) : Py (Ten ℂ × Device) := Except.map (fun t : DTen ℂ => (t.ten, t.dev)) r

/-- `lo`, `hi` are the smallest and the largest number of a list. -/
def Extremes (l : List ℝ) (lo hi : ℝ) : Prop := lo ∈ l ∧ hi ∈ l ∧ ∀ x ∈ l, lo ≤ x ∧ x ≤ hi

end Spec

/-! ## Auxiliary facts -/

theorem tableRange_extremes {l : List ℝ} (h : l ≠ []) : ∃ r, tableRange l = .ok r ∧ Spec.Extremes l r.1 r.2 := by
  rcases l with _ | ⟨w, ws⟩
  · exact absurd rfl h
  · refine ⟨_, rfl, ?_⟩
    have hmin : ∀ (ws : List ℝ) (w : ℝ), ws.foldl min w ∈ w :: ws ∧ ∀ x ∈ w :: ws, ws.foldl min w ≤ x := by
      intro ws
      induction ws with
      | nil => intro w; simp
      | cons a ws ih =>
        intro w
        obtain ⟨h1, h2⟩ := ih (min w a)
        simp only [List.foldl_cons]
        refine ⟨?_, ?_⟩
        · rcases List.mem_cons.mp h1 with h | h
          · rw [h]
            rcases min_choice w a with h' | h' <;> rw [h'] <;> simp
          · simp [h]
        · intro x hx
          have h0 := h2 _ (List.mem_cons_self)
          rcases List.mem_cons.mp hx with rfl | hx
          · exact h0.trans (min_le_left _ _)
          · rcases List.mem_cons.mp hx with rfl | hx
            · exact h0.trans (min_le_right _ _)
            · exact h2 x (List.mem_cons_of_mem _ hx)
    have hmax : ∀ (ws : List ℝ) (w : ℝ), ws.foldl max w ∈ w :: ws ∧ ∀ x ∈ w :: ws, x ≤ ws.foldl max w := by
      intro ws
      induction ws with
      | nil => intro w; simp
      | cons a ws ih =>
        intro w
        obtain ⟨h1, h2⟩ := ih (max w a)
        simp only [List.foldl_cons]
        refine ⟨?_, ?_⟩
        · rcases List.mem_cons.mp h1 with h | h
          · rw [h]
            rcases max_choice w a with h' | h' <;> rw [h'] <;> simp
          · simp [h]
        · intro x hx
          have h0 := h2 _ (List.mem_cons_self)
          rcases List.mem_cons.mp hx with rfl | hx
          · exact (le_max_left _ _).trans h0
          · rcases List.mem_cons.mp hx with rfl | hx
            · exact (le_max_right _ _).trans h0
            · exact h2 x (List.mem_cons_of_mem _ hx)
    exact ⟨(hmin ws w).1, (hmax ws w).1, fun x hx => ⟨(hmin ws w).2 x hx, (hmax ws w).2 x hx⟩⟩

theorem warmAll_run (C : Casts) : ∀ (ws : List ℝ) {d d' : MatDb}, warmAll C ws d = .ok d' →
    d' = d.run C (ws.map fun w => MatOp.warm w [])
  | [], d, d', h => by
    simp only [warmAll, Except.ok.injEq] at h
    exact h.symm
  | w :: ws, d, d', h => by
    unfold warmAll at h
    rcases hs : d.getSingle C w d.datDev [] with ⟨_ | t, d1⟩
    · rw [hs] at h; cases h
    · rw [hs] at h
      rw [warmAll_run C ws h]
      simp only [List.map_cons, MatDb.run, List.foldl_cons, MatDb.step, hs]

theorem warmAll_ok (C : Casts) {m : Dispersion} : ∀ (ws : List ℝ) {d : MatDb}, d.Good C m →
    (∀ w ∈ ws, ∃ v, m.eval w = .ok v) → ∃ d', warmAll C ws d = .ok d' ∧ d'.Good C m ∧ d'.dev = d.dev
  | [], d, g, _ => ⟨d, rfl, g, rfl⟩
  | w :: ws, d, g, h => by
    obtain ⟨g1, hd, hv⟩ := g.single w [] _ rfl
    obtain ⟨v, hv'⟩ := h w List.mem_cons_self
    unfold warmAll
    rw [g.dat]
    rcases hs : d.getSingle C w d.dev [] with ⟨e | t, d1⟩
    · rw [hs, hv'] at hv; cases hv
    · rw [hs] at g1 hd
      obtain ⟨d2, h1, h2, h3⟩ := warmAll_ok C ws g1 fun x hx => h x (List.mem_cons_of_mem _ hx)
      exact ⟨d2, h1, h2, h3.trans hd⟩

theorem warmAll_err (C : Casts) {m : Dispersion} {w : ℝ} {e : PyErr} (hw : m.eval w = .error e) (post : List ℝ) :
    ∀ (ws : List ℝ) {d : MatDb}, d.Good C m → (∀ x ∈ ws, ∃ v, m.eval x = .ok v) → warmAll C (ws ++ w :: post) d = .error e
  | [], d, g, _ => by
    obtain ⟨-, -, hv⟩ := g.single w [] _ rfl
    rw [List.nil_append]
    unfold warmAll
    rw [g.dat]
    rcases hs : d.getSingle C w d.dev [] with ⟨e' | t, d1⟩
    · rw [hs, hw] at hv
      simp only [Except.map, Except.error.injEq] at hv
      rw [hv]
    · rw [hs, hw] at hv; cases hv
  | x :: ws, d, g, h => by
    obtain ⟨g1, hd, hv⟩ := g.single x [] _ rfl
    obtain ⟨v, hv'⟩ := h x List.mem_cons_self
    rw [List.cons_append]
    unfold warmAll
    rw [g.dat]
    rcases hs : d.getSingle C x d.dev [] with ⟨e' | t, d1⟩
    · rw [hs, hv'] at hv; cases hv
    · rw [hs] at g1
      exact warmAll_err C hw post ws g1 fun y hy => h y (List.mem_cons_of_mem _ hy)

theorem newGood (C : Casts) (m : Dispersion) (device : Device) : (MatDb.new m device).Good C m := ⟨rfl, rfl, by simp [MatDb.new]⟩

theorem dbLoad_ok {C : Casts} {disk : Disk} {name file : String} {device : Device} {init : Option (List ℝ)} {e : YEntry} {es : List YEntry}
    {m : ModelType × (ℝ × ℝ) × Dispersion} (hr : disk.read file = some (e :: es)) (hm : loadModel C e = .ok m) :
    dbLoad C disk name file device init = (match warmAll C (init.getD []) (MatDb.new m.2.2 device) with
      | .ok d => .ok (.full ⟨name, m.1, m.2.1, d⟩)
      | .error x => .error (.py x), !es.isEmpty) := by
  unfold dbLoad
  rw [hr]
  simp only [hm, Bind.bind, Except.bind]
  cases warmAll C (init.getD []) (MatDb.new m.2.2 device) <;> rfl

theorem dbLoad_inv {C : Casts} {disk : Disk} {name file : String} {device : Device} {init : Option (List ℝ)} {o : DbMade}
    (h : (dbLoad C disk name file device init).1 = .ok o) :
    ∃ e es m d, disk.read file = some (e :: es) ∧ loadModel C e = .ok m ∧
      warmAll C (init.getD []) (MatDb.new m.2.2 device) = .ok d ∧ o = .full ⟨name, m.1, m.2.1, d⟩ := by
  rcases hr : disk.read file with _ | _ | ⟨e, es⟩
  · unfold dbLoad at h; rw [hr] at h; cases h
  · unfold dbLoad at h; rw [hr] at h; cases h
  · rcases hm : loadModel C e with x | m
    · unfold dbLoad at h
      rw [hr] at h
      simp only [hm, Bind.bind, Except.bind] at h
      cases h
    · rw [dbLoad_ok hr hm] at h
      rcases hw : warmAll C (init.getD []) (MatDb.new m.2.2 device) with x | d
      · rw [hw] at h; cases h
      · rw [hw] at h
        simp only [Except.ok.injEq] at h
        exact ⟨e, es, m, d, rfl, hm, hw, h.symm⟩

theorem dbInit_load (C : Casts) (db : List (String × String)) (disk : Disk) (name : String) (yaml : Option String) (device : Device) :
    (∃ nm f, ∀ init, dbInit C db disk name yaml device init = dbLoad C disk nm f device init) ∨
      ∃ r, (∀ init, dbInit C db disk name yaml device init = r) ∧ ∀ o, r.1 ≠ .ok (.full o) := by
  unfold dbInit
  rcases yaml with _ | f
  · by_cases hn : name = ""
    · simp only [hn, if_true]
      exact Or.inr ⟨_, fun _ => rfl, fun o h => by cases h⟩
    · simp only [hn, if_false]
      rcases findMaterial db name with e | f
      · exact Or.inr ⟨_, fun _ => rfl, fun o h => by cases h⟩
      · exact Or.inl ⟨_, _, fun _ => rfl⟩
  · exact Or.inl ⟨_, _, fun _ => rfl⟩

/-! ## C112 -/

/-- C112: without a file, a name that belongs to no file of the database is a `ValueError`, whatever the files contain. -/
theorem C112_unknown (C : Casts) (files : List String) (disk : Disk) (name : String) (device : Device) (init : Option (List ℝ)) (hn : name ≠ "")
    (h : ∀ f ∈ files, materialKey f ≠ pyLower name) :
    dbInit C (refindexData files) disk name none device init = (.error (.py .valueError), false) := by
  have : files.reverse.find? (fun f => materialKey f = pyLower name) = none := by
    rw [List.find?_eq_none]
    intro f hf
    simpa using h f (List.mem_reverse.mp hf)
  simp only [dbInit, if_neg hn, C55_lookup, this]

example : dbInit ⟨id, id⟩ (refindexData ["Au_Johnson1972.yml"]) ⟨fun _ => none, id⟩ "unobtainium" none "cpu" none = (.error (.py .valueError), false) :=
  C112_unknown _ _ _ _ _ _ (by decide) (by decide +kernel)

theorem pyLower_empty {a b : String} (h : pyLower a = pyLower b) (ha : a = "") : b = "" := by
  subst ha
  have h1 := congrArg String.toList h
  simp only [pyLower, String.toList_ofList] at h1
  have h2 : b.toList = [] := by
    rcases hb : b.toList with _ | ⟨c, cs⟩
    · rfl
    · rw [hb] at h1; simp at h1
  rw [← String.ofList_toList (s := b), h2]

/-- C112: upper and lower case in the name of a database material do not matter, also not for the name the object shows. -/
theorem C112_case (C : Casts) (db : List (String × String)) (disk : Disk) (a b : String) (device : Device) (init : Option (List ℝ))
    (h : pyLower a = pyLower b) : dbInit C db disk a none device init = dbInit C db disk b none device init := by
  have hf : findMaterial db a = findMaterial db b := by unfold findMaterial; rw [h]
  simp only [dbInit, hf]
  by_cases ha : a = ""
  · rw [if_pos ha, if_pos (pyLower_empty h ha)]
  · rw [if_neg ha, if_neg fun hb => ha (pyLower_empty h.symm hb)]

example : pyLower "SiO2" = pyLower "sio2" := by decide +kernel

/-- C112: with a file the database plays no role, and the name only labels the object: an empty name becomes the stem of the file. -/
theorem C112_file (C : Casts) (db db' : List (String × String)) (disk : Disk) (name f : String) (device : Device) (init : Option (List ℝ)) :
    dbInit C db disk name (some f) device init = dbInit C db' disk name (some f) device init ∧
    (∀ o, (dbInit C db disk name (some f) device init).1 = .ok o → ∃ p, o = .full p ∧ p.name = if name = "" then disk.stem f else name) ∧
    ∀ name' p, (dbInit C db disk name (some f) device init).1 = .ok (.full p) → ∃ p', (dbInit C db disk name' (some f) device init).1 = .ok (.full p') ∧
      p'.mat = p.mat ∧ p'.modelType = p.modelType ∧ p'.wlRange = p.wlRange := by
  refine ⟨rfl, fun o h => ?_, fun name' p h => ?_⟩
  · obtain ⟨e, es, m, d, -, -, -, rfl⟩ := dbLoad_inv h
    exact ⟨_, rfl, rfl⟩
  · obtain ⟨e, es, m, d, h1, h2, h3, h4⟩ := dbLoad_inv h
    cases h4
    refine ⟨⟨if name' = "" then disk.stem f else name', m.1, m.2.1, d⟩, ?_, rfl, rfl, rfl⟩
    show (dbLoad C disk _ f device init).1 = _
    rw [dbLoad_ok h1 h2, h3]

/-- C112: of several entries only the first counts; the others cause a warning and nothing else. -/
theorem C112_first (C : Casts) (db : List (String × String)) (disk disk' : Disk) (name f : String) (device : Device) (init : Option (List ℝ)) (e : YEntry)
    (es : List YEntry) (h1 : disk.read f = some (e :: es)) (h2 : disk'.read f = some [e]) (hs : disk.stem f = disk'.stem f) :
    (dbInit C db disk name (some f) device init).1 = (dbInit C db disk' name (some f) device init).1 ∧
    ((dbInit C db disk name (some f) device init).2 = true ↔ es ≠ []) ∧ (dbInit C db disk' name (some f) device init).2 = false := by
  simp only [dbInit, dbLoad, h1, h2, hs]
  cases es <;> simp

/-- C112: files that cannot be used are refused: missing, without entry, or of a kind that is not implemented. -/
theorem C112_refused (C : Casts) (db : List (String × String)) (disk : Disk) (name f : String) (device : Device) (init : Option (List ℝ)) :
    (disk.read f = none → (dbInit C db disk name (some f) device init).1 = .error .fileNotFound) ∧
    (disk.read f = some [] → (dbInit C db disk name (some f) device init).1 = .error (.py .indexError)) ∧
    (∀ e es w ws, disk.read f = some (e :: es) → splitWs e.type = w :: ws → w ≠ "tabulated".toList → w ≠ "formula".toList →
      (dbInit C db disk name (some f) device init).1 = .error (.py .valueError)) := by
  refine ⟨fun h => ?_, fun h => ?_, fun e es w ws h hw h1 h2 => ?_⟩
  · simp only [dbInit, dbLoad, h]
  · simp only [dbInit, dbLoad, h]
  · simp only [dbInit, dbLoad, h, loadModel, hw, if_neg h1, if_neg h2, Bind.bind, Except.bind]

example : splitWs "oscillator".toList = ["oscillator".toList] ∧ "oscillator".toList ≠ "tabulated".toList ∧ "oscillator".toList ≠ "formula".toList := by
  decide +kernel

/-- C112: a tabulated entry with at least one row gives an object with this table and, as its range, the smallest and the largest tabulated
wavelength; a table without rows is a `RuntimeError`, a missing table a `KeyError`. -/
theorem C112_table (C : Casts) (db : List (String × String)) (disk : Disk) (name f : String) (device : Device) (e : YEntry) (es : List YEntry)
    (ws : List (List Char)) (h : disk.read f = some (e :: es)) (ht : splitWs e.type = "tabulated".toList :: ws) :
    (e.data = none → (dbInit C db disk name (some f) device none).1 = .error .keyError) ∧
    ∀ d rows, e.data = some d → loadTabulated parseFloat (splitRows d) = .ok rows →
      (rows = [] → (dbInit C db disk name (some f) device none).1 = .error (.py .runtimeError)) ∧
      (rows ≠ [] → ∃ o, (dbInit C db disk name (some f) device none).1 = .ok (.full o) ∧ o.modelType = .data ∧
        o.mat = MatDb.new (.ofTable C rows) device ∧ Spec.Extremes (rows.map fun r => C.f32 r.1) o.wlRange.1 o.wlRange.2) := by
  refine ⟨fun hd => ?_, fun d rows hd hl => ⟨fun h0 => ?_, fun hne => ?_⟩⟩
  · simp only [dbInit, dbLoad, h, loadModel, ht, if_true, hd, yKey, Bind.bind, Except.bind]
  · simp only [dbInit, dbLoad, h, loadModel, ht, if_true, hd, yKey, hl, h0, ofPy, tableRange, List.map_nil, Bind.bind, Except.bind]
  · obtain ⟨r, hr, hx⟩ := tableRange_extremes (l := rows.map fun r => C.f32 r.1) (by simpa using hne)
    have hm : loadModel C e = .ok (.data, r, .ofTable C rows) := by
      simp only [loadModel, ht, if_true, hd, yKey, hl, hr, ofPy, Bind.bind, Except.bind]
    refine ⟨⟨if name = "" then disk.stem f else name, .data, r, MatDb.new (.ofTable C rows) device⟩, ?_, rfl, rfl, hx⟩
    show (dbLoad C disk _ f device none).1 = _
    rw [dbLoad_ok h hm]
    rfl

/-- C112: a formula entry gives an object with this number and these coefficients; the key `range` counts before `wavelength_range`. -/
theorem C112_formula (C : Casts) (db : List (String × String)) (disk : Disk) (name f : String) (device : Device) (e : YEntry) (es : List YEntry)
    (w : List Char) (ws : List (List Char)) (k : ℤ) (c r : List Char) (coeff : List ℝ) (lo hi : ℝ) (h : disk.read f = some (e :: es))
    (ht : splitWs e.type = "formula".toList :: w :: ws) (hk : pyIntTok w = some k) (hc : e.coefficients = some c)
    (hr : e.range = some r ∨ e.range = none ∧ e.wavelengthRange = some r) (hl : loadFormula r c = .ok (coeff, lo, hi)) :
    ∃ o, (dbInit C db disk name (some f) device none).1 = .ok (.full o) ∧ (o.modelType = .sellmeier ↔ k = 1) ∧ (k ≠ 1 → o.modelType = .other k) ∧
      o.mat = MatDb.new (.formula k coeff) device ∧ o.wlRange = (lo, hi) := by
  have hr' : e.range.or e.wavelengthRange = some r := by
    rcases hr with h | ⟨h, h'⟩
    · rw [h]; rfl
    · rw [h, h']; rfl
  have hp : ∃ x, (lineToks c).mapM (pyFloat parseFloat) = .ok x := by
    unfold loadFormula at hl
    rcases hx : (lineToks c).mapM (pyFloat parseFloat) with a | x
    · rw [hx] at hl; cases hl
    · exact ⟨x, rfl⟩
  obtain ⟨x, hx⟩ := hp
  have hne : ("formula".toList : List Char) ≠ "tabulated".toList := by decide
  have hm : loadModel C e = .ok (if k = 1 then .sellmeier else .other k, (lo, hi), .formula k coeff) := by
    simp only [loadModel, ht, if_neg hne, if_true, hk, hc, yKey, hx, hr', hl, ofPy, Bind.bind, Except.bind]
  refine ⟨⟨if name = "" then disk.stem f else name, if k = 1 then .sellmeier else .other k, (lo, hi), MatDb.new (.formula k coeff) device⟩, by
    show (dbLoad C disk _ f device none).1 = _
    rw [dbLoad_ok h hm]
    rfl, ?_, fun hk1 => ?_, rfl, rfl⟩
  · show (if k = 1 then ModelType.sellmeier else .other k) = .sellmeier ↔ k = 1
    by_cases hk1 : k = 1
    · simp [hk1]
    · rw [if_neg hk1]; simp [hk1]
  · show (if k = 1 then ModelType.sellmeier else .other k) = .other k
    rw [if_neg hk1]

/-- C112: initial lookup wavelengths change no later result: same name, kind and range, and after any further calls the same permittivities on the same
device as from an object made without them. -/
theorem C112_lookup (C : Casts) (db : List (String × String)) (disk : Disk) (name : String) (yaml : Option String) (device : Device) (ws : List ℝ) (o : DbObj)
    (h : (dbInit C db disk name yaml device (some ws)).1 = .ok (.full o)) :
    ∃ o', (dbInit C db disk name yaml device none).1 = .ok (.full o') ∧ o'.mat.cache = [] ∧ o.name = o'.name ∧ o.modelType = o'.modelType ∧
      o.wlRange = o'.wlRange ∧
      (∀ hist wl, wl.ten.squeeze.shape = [] →
        Spec.seen ((o.mat.run C hist).getEpsilon C wl).1 = Spec.seen ((o'.mat.run C hist).getEpsilon C wl).1) ∧
      ∀ hist wl n t', wl.ten.squeeze.shape = [n] → 0 < n → ((o'.mat.run C hist).getEpsilon C wl).1 = .ok t' →
        (∀ i, i < n → ∃ v, o'.mat.disp.eval (C.f32 (wl.ten.squeeze.get [i])) = .ok v) →
        ∃ t, ((o.mat.run C hist).getEpsilon C wl).1 = .ok t ∧ t.ten.shape = t'.ten.shape ∧ t.dev = t'.dev ∧
          ∀ i, i < n → t.ten.get [i] = t'.ten.get [i] := by
  rcases dbInit_load C db disk name yaml device with ⟨nm, f, hf⟩ | ⟨r, hr, hno⟩
  · rw [hf] at h
    obtain ⟨e, es, m, d, h1, h2, h3, h4⟩ := dbLoad_inv h
    cases h4
    have hd := warmAll_run C _ h3
    have hrun : ∀ hist, d.run C hist = (MatDb.new m.2.2 device).run C (((some ws).getD []).map (fun w => MatOp.warm w []) ++ hist) := by
      intro hist
      rw [hd]
      simp only [MatDb.run, List.foldl_append]
    have hlast : ∀ hist, lastDevice device (((some ws).getD []).map (fun w => MatOp.warm w []) ++ hist) = lastDevice device hist := by
      intro hist
      have : ∀ (l : List ℝ), lastDevice device (l.map (fun w => MatOp.warm w []) ++ hist) = lastDevice device hist := by
        intro l
        induction l with
        | nil => rfl
        | cons a l ih => exact ih
      exact this _
    refine ⟨⟨nm, m.1, m.2.1, MatDb.new m.2.2 device⟩, ?_, rfl, rfl, rfl, rfl, fun hist wl hs => ?_, fun hist wl n t' hs hn ht hv => ?_⟩
    · rw [hf, dbLoad_ok h1 h2]; rfl
    · show Spec.seen ((d.run C hist).getEpsilon C wl).1 = _
      rw [hrun]
      unfold Spec.seen
      rw [C34_single C _ _ _ wl hs, C34_single C _ _ _ wl hs, hlast]
    · choose v hv using hv
      have hv' : ∀ i, i < n → Dispersion.eval m.2.2 (C.f32 (wl.ten.squeeze.get [i])) = .ok ((fun i => if hi : i < n then v i hi else 0) i) := by
        intro i hi
        simp only [hi, dif_pos]
        exact hv i hi
      obtain ⟨t, a1, a2, a3, a4⟩ := (C34_list C m.2.2 device (((some ws).getD []).map (fun w => MatOp.warm w []) ++ hist) wl hn hs).1 _ hv'
      obtain ⟨t1, b1, b2, b3, b4⟩ := (C34_list C m.2.2 device hist wl hn hs).1 _ hv'
      have : t' = t1 := by
        rw [b1] at ht
        exact (Except.ok.inj ht).symm
      subst this
      refine ⟨t, ?_, a2.trans b2.symm, ?_, fun i hi => (a4 i hi).trans (b4 i hi).symm⟩
      · show ((d.run C hist).getEpsilon C wl).1 = _
        rw [hrun]; exact a1
      · rw [a3, b3, hlast]
  · rw [hr] at h
    exact absurd h (hno o)

/-- C112: the constructor with initial lookup wavelengths succeeds exactly when the model can be evaluated at each of them; otherwise it raises the exception
of the first one that fails. -/
theorem C112_lookup_error (C : Casts) (db : List (String × String)) (disk : Disk) (name : String) (yaml : Option String) (device : Device) (o : DbObj)
    (h : (dbInit C db disk name yaml device none).1 = .ok (.full o)) :
    (∀ ws : List ℝ, (∀ w ∈ ws, ∃ v, o.mat.disp.eval w = .ok v) → ∃ o', (dbInit C db disk name yaml device (some ws)).1 = .ok (.full o')) ∧
    ∀ (pre : List ℝ) (w : ℝ) (post : List ℝ) (x : PyErr), (∀ y ∈ pre, ∃ v, o.mat.disp.eval y = .ok v) → o.mat.disp.eval w = .error x →
      (dbInit C db disk name yaml device (some (pre ++ w :: post))).1 = .error (.py x) := by
  rcases dbInit_load C db disk name yaml device with ⟨nm, f, hf⟩ | ⟨r, hr, hno⟩
  · rw [hf] at h
    obtain ⟨e, es, m, d, h1, h2, h3, h4⟩ := dbLoad_inv h
    cases h4
    simp only [Option.getD_none, warmAll, Except.ok.injEq] at h3
    subst h3
    refine ⟨fun ws hw => ?_, fun pre w post x hp hx => ?_⟩
    · obtain ⟨d', hd, -⟩ := warmAll_ok C ws (newGood C m.2.2 device) hw
      refine ⟨⟨nm, m.1, m.2.1, d'⟩, ?_⟩
      rw [hf, dbLoad_ok h1 h2, Option.getD_some, hd]
    · rw [hf, dbLoad_ok h1 h2, Option.getD_some, warmAll_err C hx post pre (newGood C m.2.2 device) hp]
  · rw [hr] at h
    exact absurd h (hno o)

/-- C112: incomplete formula entries are refused: without number `IndexError`, with something else in its place `ValueError`, without coefficients or without
any range `KeyError`. -/
theorem C112_formula_refused (C : Casts) (db : List (String × String)) (disk : Disk) (name f : String) (device : Device) (init : Option (List ℝ)) (e : YEntry)
    (es : List YEntry) (ws : List (List Char)) (h : disk.read f = some (e :: es)) (ht : splitWs e.type = "formula".toList :: ws) :
    (ws = [] → (dbInit C db disk name (some f) device init).1 = .error (.py .indexError)) ∧
    ∀ w ws', ws = w :: ws' → (pyIntTok w = none → (dbInit C db disk name (some f) device init).1 = .error (.py .valueError)) ∧
      ∀ k, pyIntTok w = some k → (e.coefficients = none → (dbInit C db disk name (some f) device init).1 = .error .keyError) ∧
        ∀ c (x : List ℝ), e.coefficients = some c → (lineToks c).map parseFloat = x.map some → e.range = none → e.wavelengthRange = none →
          (dbInit C db disk name (some f) device init).1 = .error .keyError := by
  have hne : ("formula".toList : List Char) ≠ "tabulated".toList := by decide
  refine ⟨fun h0 => ?_, fun w ws' hw => ⟨fun hk => ?_, fun k hk => ⟨fun hc => ?_, fun c x hc hx h1 h2 => ?_⟩⟩⟩
  · simp only [dbInit, dbLoad, h, loadModel, ht, if_neg hne, if_true, h0, Bind.bind, Except.bind]
  · simp only [dbInit, dbLoad, h, loadModel, ht, if_neg hne, if_true, hw, hk, Bind.bind, Except.bind]
  · simp only [dbInit, dbLoad, h, loadModel, ht, if_neg hne, if_true, hw, hk, hc, yKey, Bind.bind, Except.bind]
  · simp only [dbInit, dbLoad, h, loadModel, ht, if_neg hne, if_true, hw, hk, hc, yKey, mapM_pyFloat hx, ofPy, h1, h2, Option.or_none, Bind.bind, Except.bind]

example : splitWs "formula".toList = ["formula".toList] ∧ pyIntTok "-2".toList = some (-2) ∧ pyIntTok "+1".toList = some 1 ∧ pyIntTok "1.0".toList = none ∧
    pyIntTok "one".toList = none ∧ pyIntTok "-".toList = none ∧ checkNums "0 1.5 0.07".toList [0, 1500000000000000000000000000000, 70000000000000000000000000000] = true := by
  decide +kernel

/-- A call on the object that the constructor returned. -/
inductive DbOp
  | get (wl : DTen ℝ)
  | setDevice (device : Device)

/-- The object after such calls. -/
noncomputable def DbMade.session (C : Casts) (m : DbMade) (h : List DbOp) : DbMade :=
  h.foldl (fun m op => match op with | .get wl => (m.getEpsilon C wl).2 | .setDevice device => (m.setDevice device).2) m

/-- The device set last. -/
def lastSet (device : Device) (h : List DbOp) : Device := h.foldl (fun dev op => match op with | .setDevice d => d | _ => dev) device

/-- C112: a returned object keeps its name, kind and range (shown for tables and Sellmeier formulas) through any calls, `set_device` succeeds, and the permittivity
is the value of the model on the device set last; a repeated request finds the first one. -/
theorem C112_session (C : Casts) (db : List (String × String)) (disk : Disk) (name : String) (yaml : Option String) (device : Device) (init : Option (List ℝ))
    (o : DbObj) (h : (dbInit C db disk name yaml device init).1 = .ok (.full o)) (ops : List DbOp) :
    ((DbMade.full o).session C ops).repr = .ok (o.name, o.modelType, if o.modelType = .data ∨ o.modelType = .sellmeier then some o.wlRange else none) ∧
    (∀ dev, (((DbMade.full o).session C ops).setDevice dev).1 = .ok ()) ∧
    ∀ wl : DTen ℝ, wl.ten.squeeze.shape = [] → Spec.seen (((DbMade.full o).session C ops).getEpsilon C wl).1
      = Except.map (fun v => (Ten.scalar (C.c64 v), lastSet device ops)) (o.mat.disp.eval (C.f32 (wl.ten.squeeze.get []))) ∧
      ∀ t, (((DbMade.full o).session C ops).getEpsilon C wl).1 = .ok t →
        (((DbMade.full o).session C ops).getEpsilon C wl).2.getEpsilon C wl = (.ok t, (((DbMade.full o).session C ops).getEpsilon C wl).2) := by
  have hgood : o.mat.Good C o.mat.disp ∧ o.mat.dev = device := by
    rcases dbInit_load C db disk name yaml device with ⟨nm, f, hf⟩ | ⟨r, hr, hno⟩
    · rw [hf] at h
      obtain ⟨e, es, m, d, h1, h2, h3, h4⟩ := dbLoad_inv h
      cases h4
      have hd := warmAll_run C _ h3
      obtain ⟨g, hdev⟩ := MatDb.run_good C m.2.2 device ((init.getD []).map fun w => MatOp.warm w [])
      rw [← hd] at g hdev
      have hl : ∀ l : List ℝ, lastDevice device (l.map fun w => MatOp.warm w []) = device := by
        intro l
        induction l with
        | nil => rfl
        | cons a l ih => exact ih
      rw [hl] at hdev
      refine ⟨?_, hdev⟩
      show d.Good C d.disp
      rw [g.disp]
      exact g
    · rw [hr] at h
      exact absurd h (hno o)
  have key : ∀ (ops : List DbOp) (d : MatDb), d.Good C o.mat.disp → ∃ d', (DbMade.full { o with mat := d }).session C ops = .full { o with mat := d' } ∧
      d'.Good C o.mat.disp ∧ d'.dev = lastSet d.dev ops := by
    intro ops
    induction ops with
    | nil => intro d g; exact ⟨d, rfl, g, rfl⟩
    | cons op ops ih =>
      intro d g
      cases op with
      | get wl =>
        obtain ⟨g1, hd1⟩ := g.step (.get wl)
        obtain ⟨d', h1, h2, h3⟩ := ih _ g1
        refine ⟨d', h1, h2, ?_⟩
        rw [h3, hd1]
        rfl
      | setDevice dev =>
        obtain ⟨g1, hd1⟩ := g.step (.setDevice dev)
        obtain ⟨d', h1, h2, h3⟩ := ih _ g1
        refine ⟨d', h1, h2, ?_⟩
        rw [h3, hd1]
        rfl
  obtain ⟨d, h1, g, hdev⟩ := key ops o.mat hgood.1
  rw [hgood.2] at hdev
  have h1' : (DbMade.full o).session C ops = .full { o with mat := d } := h1
  rw [h1']
  refine ⟨?_, fun dev => rfl, fun wl hs => ?_⟩
  · simp only [DbMade.repr]
    cases o.modelType <;> simp
  · obtain ⟨-, -, hv⟩ := g.single (C.f32 (wl.ten.squeeze.get [])) wl.leaves _ rfl
    have he : ∀ d : MatDb, d.getEpsilon C wl = d.getSingle C (C.f32 (wl.ten.squeeze.get [])) d.dev wl.leaves := by
      intro d
      unfold MatDb.getEpsilon
      simp only [hs]
    simp only [DbMade.getEpsilon, he, ← hdev]
    refine ⟨hv, fun t ht => ?_⟩
    have hlk : (d.getSingle C (C.f32 (wl.ten.squeeze.get [])) d.dev wl.leaves).2.lookup (C.f32 (wl.ten.squeeze.get [])) = some t := by
      generalize C.f32 (wl.ten.squeeze.get []) = w at ht ⊢
      unfold MatDb.getSingle at ht ⊢
      rcases hl : d.lookup w with _ | t0
      · rw [hl] at ht
        simp only at ht ⊢
        rcases hx : d.evaluated w d.dev with x | v
        · rw [hx] at ht; cases ht
        · rw [hx] at ht
          simp only [Except.ok.injEq] at ht
          simp only
          rw [MatDb.lookup_append, hl]
          simp [ht]
      · rw [hl] at ht
        simp only [Except.ok.injEq] at ht
        simp only [hl, ht]
    generalize (d.getSingle C (C.f32 (wl.ten.squeeze.get [])) d.dev wl.leaves).2 = d2 at hlk ⊢
    unfold MatDb.getSingle
    rw [hlk]

/-! ### The shipped materials -/

namespace Spec

/-- The names of all shipped files. -/
noncomputable def shippedNames : List String := shippedTables.map (·.1) ++ shippedFormulas.map (·.1)

/-- The files contain the shipped data. -/
def Shipped (disk : Disk) : Prop :=
  (∀ f ∈ shippedTables, ∃ e, disk.read f.1 = some [e] ∧ e.type = "tabulated nk".toList ∧ e.data = some (dataText f.2)) ∧
  ∀ f ∈ shippedFormulas, ∃ e, disk.read f.1 = some [e] ∧ e.type = "formula 1".toList ∧ e.range = none ∧ e.wavelengthRange = some f.2.2.1 ∧
    e.coefficients = some f.2.2.2

end Spec

/-- The keys of the shipped files, in the order of `Spec.shippedNames`. -/
def shippedKeys : List (String × String) := [("Ag_Johnson1972.yml", "ag"), ("Al_Rakic1995.yml", "al"), ("Au_Johnson1972.yml", "au"),
  ("GaAs_Papatryfonos2021.yml", "gaas"), ("GaN_Kawashima1997.yml", "gan"), ("GaP_Aspnes1983.yml", "gap"), ("Ge_Nunley2016.yml", "ge"),
  ("InAs_Aspnes1983.yml", "inas"), ("InP_Aspnes1983.yml", "inp"), ("Si_Schinke2015.yml", "si"), ("TiO2_Devore1965.yml", "tio2"),
  ("aSi_Pierce1972.yml", "asi"), ("Al2O3e_Malitson1972.yml", "al2o3e"), ("Al2O3o_Malitson1972.yml", "al2o3o"), ("Si3N4_Luke2015.yml", "si3n4"),
  ("SiO2_Malitson1965.yml", "sio2"), ("ZrO2_Wood1982.yml", "zro2")]

theorem shippedNames_eq : Spec.shippedNames = shippedKeys.map (·.1) := rfl

theorem shipped_inj : ∀ f ∈ shippedKeys.map (·.1), ∀ g ∈ shippedKeys.map (·.1), materialKey f = materialKey g → f = g := by decide +kernel

theorem shipped_find {files : List String} (hf : files.Perm Spec.shippedNames) {f name : String} (h : f ∈ Spec.shippedNames)
    (hn : pyLower name = materialKey f) : findMaterial (refindexData files) name = .ok f := by
  rw [C55_lookup]
  cases hg : files.reverse.find? fun g => decide (materialKey g = pyLower name) with
  | none =>
    have := List.find?_eq_none.mp hg f (List.mem_reverse.mpr (hf.mem_iff.mpr h))
    simp [hn] at this
  | some g =>
    have h1 := List.mem_reverse.mp (List.mem_of_find?_eq_some hg)
    have h2 := List.find?_some hg
    simp only [decide_eq_true_eq] at h2
    have hgm := hf.mem_iff.mp h1
    rw [shippedNames_eq] at h hgm
    rw [shipped_inj g hgm f h (h2.trans hn)]

/-- C112: every material of the package can be made by its name, in any spelling and whatever the order of the directory; the object shows the name as in the
file name, knows its wavelength range, and gives a permittivity at every wavelength (tables) or everywhere in this range (formulas), for any number of initial
lookup wavelengths there. -/
theorem C112_shipped (C : Casts) (files : List String) (disk : Disk) (hf : files.Perm Spec.shippedNames) (hd : Spec.Shipped disk) (name file : String)
    (device : Device) (h : file ∈ Spec.shippedNames) (hn : pyLower name = materialKey file) (hne : name ≠ "") :
    ∃ o, dbInit C (refindexData files) disk name none device none = (.ok (.full o), false) ∧
      o.name = String.ofList (file.toList.takeWhile (· ≠ '_')) ∧
      (o.modelType = .data ∧ (∀ wl, ∃ v, o.mat.disp.eval wl = .ok v) ∨
        o.modelType = .sellmeier ∧ o.wlRange.1 < o.wlRange.2 ∧ ∀ wl, o.wlRange.1 ≤ wl → wl ≤ o.wlRange.2 → ∃ v : ℝ, o.mat.disp.eval wl = .ok (v : ℂ) ∧ 1 < v) ∧
      (MatDb.Good C o.mat.disp o.mat ∧ o.mat.dev = device) := by
  have hfind := shipped_find hf h hn
  have hmem := h
  have hload : ∀ m e, disk.read file = some [e] → loadModel C e = .ok m →
      dbInit C (refindexData files) disk name none device none
        = (.ok (.full ⟨String.ofList (file.toList.takeWhile (· ≠ '_')), m.1, m.2.1, MatDb.new m.2.2 device⟩), false) := by
    intro m e hr hm
    simp only [dbInit, if_neg hne, hfind]
    rw [dbLoad_ok hr hm]
    rfl
  rcases List.mem_append.mp hmem with hm | hm
  · obtain ⟨f, hfm, rfl⟩ := List.mem_map.mp hm
    obtain ⟨e, hr, ht, hdat⟩ := hd.1 f hfm
    obtain ⟨rows, hl, -, hnil, -, -⟩ := C52_tables f hfm
    obtain ⟨r, hr', hx⟩ := tableRange_extremes (l := rows.map fun r => C.f32 r.1) (by simpa using hnil)
    have hsp : splitWs e.type = ["tabulated".toList, "nk".toList] := by rw [ht]; decide +kernel
    have hmod : loadModel C e = .ok (.data, r, .ofTable C rows) := by
      simp only [loadModel, hsp, if_true, hdat, yKey, hl, hr', ofPy, Bind.bind, Except.bind]
    refine ⟨_, hload _ e hr hmod, rfl, Or.inl ⟨rfl, fun wl => ?_⟩, newGood C _ _, rfl⟩
    obtain ⟨y, hy, -⟩ := (C33_convex wl (rows.map fun r => (C.f32 r.1, C.c64 r.2))).2 (by simpa using hnil)
    exact ⟨y, hy⟩
  · obtain ⟨f, hfm, rfl⟩ := List.mem_map.mp hm
    obtain ⟨e, hr, ht, hr0, hr1, hc⟩ := hd.2 f hfm
    obtain ⟨coeff, lo, hi, hl, hlt, hev⟩ := C52_formulas f hfm
    have hone : f.2.1 = 1 := by
      simp only [shippedFormulas, List.mem_cons, List.not_mem_nil, or_false] at hfm
      rcases hfm with rfl | rfl | rfl | rfl | rfl <;> rfl
    have hsp : splitWs e.type = ["formula".toList, "1".toList] := by rw [ht]; decide +kernel
    have hne' : ("formula".toList : List Char) ≠ "tabulated".toList := by decide
    have hk : pyIntTok "1".toList = some 1 := by decide +kernel
    have hx : ∃ x, (lineToks f.2.2.2).mapM (pyFloat parseFloat) = .ok x := by
      unfold loadFormula at hl
      rcases hx : (lineToks f.2.2.2).mapM (pyFloat parseFloat) with a | x
      · rw [hx] at hl; cases hl
      · exact ⟨x, rfl⟩
    obtain ⟨x, hx⟩ := hx
    have hmod : loadModel C e = .ok (.sellmeier, (lo, hi), .formula 1 coeff) := by
      simp only [loadModel, hsp, if_neg hne', if_true, hk, hc, yKey, hx, hr0, hr1, Option.none_or, hl, ofPy, Bind.bind, Except.bind]
    refine ⟨_, hload _ e hr hmod, rfl, Or.inr ⟨rfl, hlt, fun wl h1 h2 => ?_⟩, newGood C _ _, rfl⟩
    have := hev wl h1 h2
    rw [hone] at this
    exact this

/-- A directory with the shipped data. -/
noncomputable def shippedDisk : Disk where
  read f := match shippedTables.find? (fun x => x.1 = f) with
    | some x => some [⟨"tabulated nk".toList, some (dataText x.2), none, none, none⟩]
    | none => match shippedFormulas.find? (fun x => x.1 = f) with
      | some x => some [⟨"formula 1".toList, none, some x.2.2.2, none, some x.2.2.1⟩]
      | none => none
  stem f := f

theorem find_fst {α : Type} {l : List (String × α)} (hn : (l.map (·.1)).Nodup) {f : String × α} (h : f ∈ l) :
    l.find? (fun x => x.1 = f.1) = some f := by
  induction l with
  | nil => cases h
  | cons a l ih =>
    rw [List.map_cons, List.nodup_cons] at hn
    rw [List.find?_cons]
    rcases List.mem_cons.mp h with rfl | h'
    · simp
    · have : a.1 ≠ f.1 := fun he => hn.1 (he ▸ List.mem_map.mpr ⟨f, h', rfl⟩)
      simp only [this, decide_false]
      exact ih hn.2 h'

theorem shipped_tableNames : shippedTables.map (·.1) = (shippedKeys.take 12).map (·.1) := rfl

theorem shipped_formulaNames : shippedFormulas.map (·.1) = (shippedKeys.drop 12).map (·.1) := rfl

theorem shippedDisk_ok : Spec.Shipped shippedDisk := by
  refine ⟨fun f hf => ?_, fun f hf => ?_⟩
  · have h := find_fst (by rw [shipped_tableNames]; decide +kernel) hf
    exact ⟨⟨"tabulated nk".toList, some (dataText f.2), none, none, none⟩, by simp only [shippedDisk, h], rfl, rfl⟩
  · have h := find_fst (by rw [shipped_formulaNames]; decide +kernel) hf
    have h0 : shippedTables.find? (fun x => x.1 = f.1) = none := by
      rw [List.find?_eq_none]
      intro x hx
      have h1 : x.1 ∈ (shippedKeys.take 12).map (·.1) := shipped_tableNames ▸ List.mem_map.mpr ⟨x, hx, rfl⟩
      have h2 : f.1 ∈ (shippedKeys.drop 12).map (·.1) := shipped_formulaNames ▸ List.mem_map.mpr ⟨f, hf, rfl⟩
      have hdis : ∀ a ∈ (shippedKeys.take 12).map (·.1), ∀ b ∈ (shippedKeys.drop 12).map (·.1), a ≠ b := by decide +kernel
      simpa using hdis _ h1 _ h2
    exact ⟨⟨"formula 1".toList, none, some f.2.2.2, none, some f.2.2.1⟩, by simp only [shippedDisk, h0, h], rfl, rfl, rfl, rfl⟩

/-- Silicon of the package, with two initial lookup wavelengths. -/
example : ∃ o, (dbInit ⟨id, id⟩ (refindexData Spec.shippedNames) shippedDisk "SI" none "cpu" (some [500, 600.1])).1 = .ok (.full o) := by
  obtain ⟨o, h, -, h', -⟩ := C112_shipped ⟨id, id⟩ Spec.shippedNames shippedDisk (List.Perm.refl _) shippedDisk_ok "SI" "Si_Schinke2015.yml" "cpu"
    (by rw [shippedNames_eq]; decide +kernel) (by decide +kernel) (by decide)
  refine (C112_lookup_error ⟨id, id⟩ _ shippedDisk "SI" none "cpu" o (by rw [h])).1 [500, 600.1] fun w hw => ?_
  rcases h' with ⟨-, hv⟩ | ⟨hk, -, -⟩
  · exact hv w
  · exfalso
    have hf := shipped_find (List.Perm.refl _) (name := "SI") (f := "Si_Schinke2015.yml") (by rw [shippedNames_eq]; decide +kernel) (by decide +kernel)
    have hm : ("Si_Schinke2015.yml", dataSi) ∈ shippedTables := by simp [shippedTables]
    obtain ⟨e, hr, ht, hd⟩ := shippedDisk_ok.1 _ hm
    obtain ⟨rows, hl, -, hne, -, -⟩ := C52_tables _ hm
    have hT := ((C112_table ⟨id, id⟩ [] shippedDisk "Si" "Si_Schinke2015.yml" "cpu" e [] ["nk".toList] hr (by rw [ht]; decide +kernel)).2 _ rows hd hl).2 hne
    obtain ⟨o', h1, h2, -⟩ := hT
    simp only [dbInit, hf] at h h1
    obtain ⟨e1, es1, m1, d1, a1, a2, a3, a4⟩ := dbLoad_inv (o := .full o) (by
      have := congrArg Prod.fst h
      simpa using this)
    obtain ⟨e2, es2, m2, d2, b1, b2, b3, b4⟩ := dbLoad_inv h1
    rw [a1] at b1
    cases b1
    rw [a2] at b2
    cases b2
    cases a4
    cases b4
    simp_all

/-! ## C113 -/

/-- C113 is false without name and file: the call returns an object, but every use of it is an `AttributeError`. -/
theorem C113_hollow_partial (C : Casts) (db : List (String × String)) (disk : Disk) (device : Device) (init : Option (List ℝ)) :
    ∃ o, dbInit C db disk "" none device init = (.ok o, false) ∧
      (∀ wl, (wl.ten.squeeze.shape = [] ∨ ∃ n, wl.ten.squeeze.shape = [n + 1]) → (o.getEpsilon C wl).1 = .error .attributeError) ∧
      (∀ dev, (o.setDevice dev).1 = .error .attributeError) ∧ o.repr = .error .attributeError := by
  refine ⟨.hollow device, rfl, fun wl hs => ?_, fun _ => rfl, rfl⟩
  rcases hs with hs | ⟨n, hs⟩
  · simp only [DbMade.getEpsilon, hs]
  · simp only [DbMade.getEpsilon, hs, Nat.succ_ne_zero, if_false]

/-- C113 is false for a formula other than 1: the object is made and can be shown, but every request for a permittivity is a `ValueError`. -/
theorem C113_formula_partial (C : Casts) (db : List (String × String)) (disk : Disk) (name f : String) (device : Device) (e : YEntry) (es : List YEntry)
    (w : List Char) (ws : List (List Char)) (k : ℤ) (c r : List Char) (coeff : List ℝ) (lo hi : ℝ) (h : disk.read f = some (e :: es))
    (ht : splitWs e.type = "formula".toList :: w :: ws) (hk : pyIntTok w = some k) (hc : e.coefficients = some c)
    (hr : e.range = some r ∨ e.range = none ∧ e.wavelengthRange = some r) (hl : loadFormula r c = .ok (coeff, lo, hi)) (hk1 : k ≠ 1) :
    ∃ o, (dbInit C db disk name (some f) device none).1 = .ok o ∧ (∃ p, o.repr = .ok p) ∧
      ∀ wl : DTen ℝ, wl.ten.squeeze.shape = [] → (o.getEpsilon C wl).1 = .error .valueError := by
  obtain ⟨o, h1, -, -, h4, -⟩ := C112_formula C db disk name f device e es w ws k c r coeff lo hi h ht hk hc hr hl
  refine ⟨_, h1, ⟨_, rfl⟩, fun wl hs => ?_⟩
  have := C34_single C (.formula k coeff) device [] wl hs
  rw [C37_other k hk1] at this
  simp only [DbMade.getEpsilon, h4]
  rcases hx : ((MatDb.new (.formula k coeff) device).getEpsilon C wl).1 with x | t
  · rw [show (MatDb.new (.formula k coeff) device).run C [] = MatDb.new (.formula k coeff) device from rfl, hx] at this
    simp only [Except.map, Except.error.injEq] at this
    rw [this]
  · rw [show (MatDb.new (.formula k coeff) device).run C [] = MatDb.new (.formula k coeff) device from rfl, hx] at this
    cases this

example : splitWs "formula 2".toList = ["formula".toList, "2".toList] ∧ pyIntTok "2".toList = some 2 ∧
    loadFormula "0.3 2.5".toList "0 1 0.1".toList = .ok ([0, 1000000000000000000000000000000, 100000000000000000000000000000].map fun (v : ℤ) => (v : ℝ) / 10 ^ 30,
      1000 * ((300000000000000000000000000000 : ℤ) / 10 ^ 30 : ℝ), 1000 * ((2500000000000000000000000000000 : ℤ) / 10 ^ 30 : ℝ)) :=
  ⟨by decide +kernel, by decide +kernel, loadFormula_ok (by decide +kernel) (by decide +kernel)⟩

/-- C113 holds for tables and for Sellmeier formulas with complete pairs of coefficients: an object of these kinds gives a permittivity at every wavelength. -/
theorem C113_usable (C : Casts) (db : List (String × String)) (disk : Disk) (name : String) (yaml : Option String) (device : Device) (init : Option (List ℝ))
    (o : DbObj) (h : (dbInit C db disk name yaml device init).1 = .ok (.full o)) (hist : List MatOp) (wl : DTen ℝ) (hs : wl.ten.squeeze.shape = []) :
    (o.modelType = .data → ∃ t, ((o.mat.run C hist).getEpsilon C wl).1 = .ok t) ∧
    (∀ c0 : ℝ, ∀ poles : List (ℝ × ℝ), (∀ p ∈ poles, (C.f32 (wl.ten.squeeze.get []) / 1000) ^ 2 ≠ p.2 ^ 2) → o.modelType = .sellmeier →
      o.mat.disp = .formula 1 (c0 :: poles.flatMap fun p => [p.1, p.2]) → ∃ t, ((o.mat.run C hist).getEpsilon C wl).1 = .ok t) ∧
    ∀ k, o.modelType = .other k → k ≠ 1 ∧ ((o.mat.run C hist).getEpsilon C wl).1 = .error .valueError := by
  rcases dbInit_load C db disk name yaml device with ⟨nm, f, hf⟩ | ⟨r, hr, hno⟩
  swap
  · rw [hr] at h
    exact absurd h (hno o)
  rw [hf] at h
  obtain ⟨e, es, m, d, h1, h2, h3, h4⟩ := dbLoad_inv h
  cases h4
  have hd := warmAll_run C _ h3
  have hrun : d.run C hist = (MatDb.new m.2.2 device).run C ((init.getD []).map (fun w => MatOp.warm w []) ++ hist) := by
    rw [hd]
    simp only [MatDb.run, List.foldl_append]
  have hval := C34_single C m.2.2 device ((init.getD []).map (fun w => MatOp.warm w []) ++ hist) wl hs
  rw [← hrun] at hval
  have hdisp : d.disp = m.2.2 := by
    rw [hd]
    exact (MatDb.run_good C m.2.2 device _).1.disp
  have hgot : ∀ v, m.2.2.eval (C.f32 (wl.ten.squeeze.get [])) = .ok v → ∃ t, ((d.run C hist).getEpsilon C wl).1 = .ok t := by
    intro v hv
    rw [hv] at hval
    rcases hx : ((d.run C hist).getEpsilon C wl).1 with x | t
    · rw [hx] at hval; cases hval
    · exact ⟨t, rfl⟩
  -- which model belongs to which kind
  have hkind : (m.1 = .data ∧ ∃ rows, rows ≠ [] ∧ m.2.2 = .ofTable C rows) ∨ ∃ n c, m.2.2 = .formula n c ∧ m.1 = if n = 1 then .sellmeier else .other n := by
    unfold loadModel at h2
    rcases hw : splitWs e.type with _ | ⟨w, rest⟩
    · rw [hw] at h2; cases h2
    · rw [hw] at h2
      simp only at h2
      by_cases ht : w = "tabulated".toList
      · rw [if_pos ht] at h2
        left
        rcases hdd : e.data with _ | dd
        · rw [hdd] at h2; cases h2
        · rcases hl : loadTabulated parseFloat (splitRows dd) with x | rows
          · simp only [hdd, yKey, hl, ofPy, Bind.bind, Except.bind] at h2; cases h2
          · rcases hr : tableRange (rows.map fun x => C.f32 x.1) with x | r
            · simp only [hdd, yKey, hl, hr, ofPy, Bind.bind, Except.bind] at h2; cases h2
            · simp only [hdd, yKey, hl, hr, ofPy, Bind.bind, Except.bind, Except.ok.injEq] at h2
              subst h2
              refine ⟨rfl, rows, ?_, rfl⟩
              rintro rfl
              cases hr
      · rw [if_neg ht] at h2
        by_cases hfm : w = "formula".toList
        · rw [if_pos hfm] at h2
          right
          rcases rest with _ | ⟨n, rest⟩
          · cases h2
          · simp only at h2
            rcases hk : pyIntTok n with _ | k
            · rw [hk] at h2; cases h2
            · rw [hk] at h2
              simp only at h2
              rcases hcc : e.coefficients with _ | c
              · rw [hcc] at h2; cases h2
              · rcases hx : (lineToks c).mapM (pyFloat parseFloat) with x | x
                · simp only [hcc, yKey, hx, ofPy, Bind.bind, Except.bind] at h2; cases h2
                · rcases hr : e.range.or e.wavelengthRange with _ | r
                  · simp only [hcc, yKey, hx, hr, ofPy, Bind.bind, Except.bind] at h2; cases h2
                  · rcases hl : loadFormula r c with y | y
                    · simp only [hcc, yKey, hx, hr, hl, ofPy, Bind.bind, Except.bind] at h2; cases h2
                    · simp only [hcc, yKey, hx, hr, hl, ofPy, Bind.bind, Except.bind, Except.ok.injEq] at h2
                      subst h2
                      exact ⟨k, y.1, rfl, rfl⟩
        · rw [if_neg hfm] at h2; cases h2
  refine ⟨fun hty => ?_, fun c0 poles hp hty hm => ?_, fun k hty => ?_⟩
  · rcases hkind with ⟨-, rows, hne, hm⟩ | ⟨n, c, -, hn⟩
    · obtain ⟨y, hy, -⟩ := (C33_convex (C.f32 (wl.ten.squeeze.get [])) (rows.map fun r => (C.f32 r.1, C.c64 r.2))).2 (by simpa using hne)
      refine hgot y ?_
      rw [hm]
      exact hy
    · exfalso
      have : m.1 = .data := hty
      rw [hn] at this
      by_cases h1 : n = 1
      · rw [if_pos h1] at this; cases this
      · rw [if_neg h1] at this; cases this
  · have hm' : m.2.2 = .formula 1 (c0 :: poles.flatMap fun p => [p.1, p.2]) := hdisp ▸ hm
    have h37 := C37_sellmeier c0 poles _ hp
    rw [← hm'] at h37
    exact hgot _ h37
  · rcases hkind with ⟨hn, -⟩ | ⟨n, c, hm, hn⟩
    · have : m.1 = .other k := hty
      rw [hn] at this; cases this
    · have h0 : m.1 = .other k := hty
      rw [hn] at h0
      by_cases h1 : n = 1
      · rw [if_pos h1] at h0; cases h0
      · rw [if_neg h1] at h0
        cases h0
        refine ⟨h1, ?_⟩
        rw [hm, C37_other _ h1] at hval
        rcases hx : ((d.run C hist).getEpsilon C wl).1 with x | t
        · rw [hx] at hval
          simp only [Except.map, Except.error.injEq] at hval
          rw [hval]
        · rw [hx] at hval; cases hval

/-- C113: an initial lookup wavelength that is not a `float32` number is stored under a key that is never asked for: the first request at it evaluates the model
again and adds a second entry. -/
theorem C113_unrounded_partial (C : Casts) (m : Dispersion) (device : Device) (w : ℝ) (hw : C.f32 w ≠ w) (v v' : ℂ) (h1 : m.eval w = .ok v)
    (h2 : m.eval (C.f32 w) = .ok v') (wl : DTen ℝ) (hs : wl.ten.squeeze.shape = []) (hv : wl.ten.squeeze.get [] = w) :
    ∃ d, warmAll C [w] (MatDb.new m device) = .ok d ∧ d.cache.map (·.1) = [w] ∧ (d.getEpsilon C wl).2.cache.map (·.1) = [w, C.f32 w] := by
  have hev : ∀ d : MatDb, d.disp = m → ∀ x, d.evaluated x d.datDev = m.eval x := by
    intro d hd x
    unfold MatDb.evaluated
    rw [hd]
    cases m with
    | table rows => simp
    | formula n c => rfl
  have hs1 : (MatDb.new m device).getSingle C w device [] = (.ok ⟨Ten.scalar (C.c64 v), device, if m.differentiable then [] else []⟩,
      { MatDb.new m device with cache := [(w, ⟨Ten.scalar (C.c64 v), device, if m.differentiable then [] else []⟩)] }) := by
    have := hev (MatDb.new m device) rfl w
    unfold MatDb.getSingle
    simp only [MatDb.lookup, MatDb.new, List.find?_nil, Option.map_none] at this ⊢
    rw [this, h1]
    rfl
  refine ⟨{ MatDb.new m device with cache := [(w, ⟨Ten.scalar (C.c64 v), device, if m.differentiable then [] else []⟩)] }, ?_, rfl, ?_⟩
  · unfold warmAll
    rw [show (MatDb.new m device).datDev = device from rfl, hs1]
    rfl
  · unfold MatDb.getEpsilon
    simp only [hs, hv]
    have hl : MatDb.lookup { MatDb.new m device with cache := [(w, ⟨Ten.scalar (C.c64 v), device, if m.differentiable then [] else []⟩)] } (C.f32 w) = none := by
      simp [MatDb.lookup, hw.symm]
    have := hev { MatDb.new m device with cache := [(w, ⟨Ten.scalar (C.c64 v), device, if m.differentiable then [] else []⟩)] } rfl (C.f32 w)
    unfold MatDb.getSingle
    rw [hl]
    simp only [MatDb.new] at this ⊢
    rw [this, h2]
    rfl

/-- Rounding to integers in place of `float32`, and a constant formula. -/
example : ∃ d, warmAll ⟨fun x => ⌊x⌋, id⟩ [500.5] (MatDb.new (.formula 1 [1]) "cpu") = .ok d ∧ d.cache.map (·.1) = [500.5] ∧
    (d.getEpsilon ⟨fun x => ⌊x⌋, id⟩ ⟨Ten.scalar 500.5, "cpu", []⟩).2.cache.map (·.1) = [500.5, ((⌊(500.5 : ℝ)⌋ : ℤ) : ℝ)] := by
  have hev : ∀ x : ℝ, ∃ v, Dispersion.eval (.formula 1 [1]) x = .ok v := fun x => ⟨_, C37_sellmeier 1 [] x (by simp)⟩
  obtain ⟨v, hv⟩ := hev 500.5
  obtain ⟨v', hv'⟩ := hev ((⌊(500.5 : ℝ)⌋ : ℤ) : ℝ)
  refine C113_unrounded_partial ⟨fun x => ⌊x⌋, id⟩ _ "cpu" 500.5 ?_ v v' hv hv' _ rfl rfl
  have : ⌊(500.5 : ℝ)⌋ = 500 := by rw [Int.floor_eq_iff]; norm_num
  simp only [this]
  norm_num

end MieDiff
