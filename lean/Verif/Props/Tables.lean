import Verif.Model.Decimal
import Verif.Props.Materials

/-!
# C52: the data files of the package

Every file is parsed by the kernel.
-/

namespace MieDiff

/-- `10^30` times the value of a literal. -/
def scaled (s : List Char) : Option ℤ :=
  match decimal s with
  | some d => if -30 ≤ d.2 then some (d.1 * 10 ^ (d.2 + 30).toNat) else none
  | none => none

/-- Lines `wl n k` or `wl n` of plain characters, wavelengths increasing from `prev`, `n > 0`, `k ≥ 0`. -/
def checkLines : Option ℤ → List (List Char) → Bool
  | _, [] => true
  | prev, l :: ls =>
    match (splitWs l).map scaled with
    | [some w, some n, some k] =>
      (match prev with
        | none => true
        | some p => decide (p < w)) && decide (0 < n) && decide (0 ≤ k) && !l.contains '\n' && checkLines (some w) ls
    | _ => false

theorem check_Ag : checkLines none dataAg = true := by decide +kernel
theorem check_Al : checkLines none dataAl = true := by decide +kernel
theorem check_Au : checkLines none dataAu = true := by decide +kernel
theorem check_GaAs : checkLines none dataGaAs = true := by decide +kernel
theorem check_GaN : checkLines none dataGaN = true := by decide +kernel
theorem check_GaP : checkLines none dataGaP = true := by decide +kernel
theorem check_Ge : checkLines none dataGe = true := by decide +kernel
theorem check_InAs : checkLines none dataInAs = true := by decide +kernel
theorem check_InP : checkLines none dataInP = true := by decide +kernel
theorem check_Si : checkLines none dataSi = true := by decide +kernel
theorem check_TiO2 : checkLines none dataTiO2 = true := by decide +kernel
theorem check_aSi : checkLines none dataaSi = true := by decide +kernel

theorem parse_scaled {s : List Char} {v : ℤ} (h : scaled s = some v) :
    parseFloat (String.ofList s) = some ((v : ℝ) / 10 ^ 30) := by
  unfold scaled at h
  cases hd : decimal s with
  | none => rw [hd] at h; cases h
  | some d =>
    rw [hd] at h
    simp only at h
    by_cases he : -30 ≤ d.2
    · rw [if_pos he] at h
      simp only [Option.some.injEq] at h
      obtain ⟨m, hm⟩ : ∃ m : ℕ, d.2 = m - 30 := ⟨(d.2 + 30).toNat, by omega⟩
      simp only [parseFloat, String.toList_ofList, hd, Option.map_some, Option.some.injEq, ← h, hm]
      rw [show ((m : ℤ) - 30 + 30).toNat = m by omega, zpow_sub₀ (by norm_num)]
      push_cast
      rw [zpow_natCast, show ((10 : ℝ) ^ (30 : ℤ)) = 10 ^ 30 by norm_cast]
      ring
    · rw [if_neg he] at h; cases h

/-- What a checked table contains. -/
theorem checkLines_spec : ∀ (ls : List (List Char)) (prev : Option ℤ), checkLines prev ls = true →
    ∃ ms : List (ℝ × ℝ × ℝ), ls.map (fun l => Spec.rowMeaning parseFloat (lineToks l)) = ms.map some ∧
      (∀ m ∈ ms, 0 < m.2.1 ∧ 0 ≤ m.2.2) ∧ (ms.map (·.1)).Pairwise (· < ·) ∧
      (∀ p, prev = some p → ∀ m ∈ ms, (p : ℝ) / 10 ^ 30 < m.1) ∧ ∀ l ∈ ls, '\n' ∉ l := by
  intro ls
  induction ls with
  | nil => intro prev _; exact ⟨[], rfl, by simp, by simp, by simp, by simp⟩
  | cons l ls ih =>
    intro prev h
    unfold checkLines at h
    split at h
    case h_2 => cases h
    case h_1 w n k hl =>
      simp only [Bool.and_eq_true, decide_eq_true_eq, Bool.not_eq_true'] at h
      obtain ⟨⟨⟨⟨hp, hn⟩, hk⟩, hnl⟩, hrest⟩ := h
      obtain ⟨ms, h1, h2, h3, h4, h5⟩ := ih (some w) hrest
      obtain ⟨a, b, c, hs⟩ : ∃ a b c, splitWs l = [a, b, c] := by
        have : (splitWs l).length = 3 := by simpa using congrArg List.length hl
        exact List.length_eq_three.mp this
      rw [hs] at hl
      simp only [List.map_cons, List.map_nil, List.cons.injEq, and_true] at hl
      obtain ⟨ha, hb, hc⟩ := hl
      have hrow : Spec.rowMeaning parseFloat (lineToks l) = some ((w : ℝ) / 10 ^ 30, (n : ℝ) / 10 ^ 30, (k : ℝ) / 10 ^ 30) := by
        simp only [lineToks, hs, List.map_cons, List.map_nil, Spec.rowMeaning, parse_scaled ha, parse_scaled hb,
          parse_scaled hc]
        rfl
      refine ⟨((w : ℝ) / 10 ^ 30, (n : ℝ) / 10 ^ 30, (k : ℝ) / 10 ^ 30) :: ms, by simp only [List.map_cons, hrow, h1], ?_,
        ?_, ?_, ?_⟩
      · intro m hm
        rcases List.mem_cons.mp hm with rfl | hm
        · exact ⟨by positivity, by positivity⟩
        · exact h2 m hm
      · rw [List.map_cons, List.pairwise_cons]
        refine ⟨?_, h3⟩
        intro x hx
        obtain ⟨m, hm, rfl⟩ := List.mem_map.mp hx
        exact h4 w rfl m hm
      · rintro p rfl m hm
        simp only [decide_eq_true_eq] at hp
        have hpw : (p : ℝ) / 10 ^ 30 < (w : ℝ) / 10 ^ 30 := by
          have : (p : ℝ) < (w : ℝ) := by exact_mod_cast hp
          gcongr
        rcases List.mem_cons.mp hm with rfl | hm
        · exact hpw
        · exact hpw.trans (h4 w rfl m hm)
      · intro x hx
        rcases List.mem_cons.mp hx with rfl | hx
        · simpa using hnl
        · exact h5 x hx

theorem dataText_lines (ls : List (List Char)) (h : ∀ l ∈ ls, '\n' ∉ l) :
    splitRows (dataText ls) = ls.map lineToks ++ [[]] := by
  unfold splitRows dataText
  have : splitNl (ls.flatMap fun l => l ++ ['\n']) = ls ++ [[]] := by
    induction ls with
    | nil => rfl
    | cons l ls ih =>
      rw [List.flatMap_cons, List.append_assoc, List.singleton_append, splitNl_append l (h l List.mem_cons_self),
        ih fun l hl => h l (List.mem_cons_of_mem _ hl)]
      rfl
  rw [this, List.map_append]
  rfl

/-- All files pass the check. -/
theorem shipped_checked (f : String × List (List Char)) (h : f ∈ shippedTables) :
    checkLines none f.2 = true ∧ f.2 ≠ [] := by
  simp only [shippedTables, List.mem_cons, List.not_mem_nil, or_false] at h
  rcases h with rfl | rfl | rfl | rfl | rfl | rfl | rfl | rfl | rfl | rfl | rfl | rfl
  · exact ⟨check_Ag, by simp [dataAg]⟩
  · exact ⟨check_Al, by simp [dataAl]⟩
  · exact ⟨check_Au, by simp [dataAu]⟩
  · exact ⟨check_GaAs, by simp [dataGaAs]⟩
  · exact ⟨check_GaN, by unfold dataGaN; exact List.cons_ne_nil _ _⟩
  · exact ⟨check_GaP, by simp [dataGaP]⟩
  · exact ⟨check_Ge, by unfold dataGe; exact List.cons_ne_nil _ _⟩
  · exact ⟨check_InAs, by simp [dataInAs]⟩
  · exact ⟨check_InP, by simp [dataInP]⟩
  · exact ⟨check_Si, by simp [dataSi]⟩
  · exact ⟨check_TiO2, by simp [dataTiO2]⟩
  · exact ⟨check_aSi, by simp [dataaSi]⟩

/-- Interpolation between values with nonnegative imaginary part. -/
theorem interp_im_nonneg (x : ℝ) (dat : List (ℝ × ℂ)) (hne : dat ≠ []) (h : ∀ p ∈ dat, 0 ≤ p.2.im) :
    ∃ y, interp1d x dat = .ok y ∧ 0 ≤ y.im := by
  obtain ⟨y, hy, hm⟩ := (C33_convex x dat).2 hne
  refine ⟨y, hy, ?_⟩
  have hc : Convex ℝ {v : ℂ | 0 ≤ v.im} := convex_halfSpace_ge ⟨fun a b => rfl, fun c a => by simp⟩ 0
  refine convexHull_min ?_ hc hm
  rintro v ⟨p, hp, rfl⟩
  exact h p hp

/-- Every tabulated file loads completely, with strictly increasing wavelengths; each permittivity is absorbing, or real and positive. -/
theorem shipped_rows (f : String × List (List Char)) (h : f ∈ shippedTables) :
    ∃ dat, loadTabulated parseFloat (splitRows (dataText f.2)) = .ok dat ∧ dat.length = f.2.length ∧ dat ≠ [] ∧
      (dat.map (·.1)).Pairwise (· < ·) ∧ ∀ p ∈ dat, 0 < p.2.im ∨ p.2.im = 0 ∧ 0 < p.2.re := by
  obtain ⟨hc, hne⟩ := shipped_checked f h
  obtain ⟨ms, h1, h2, h3, -, h5⟩ := checkLines_spec f.2 none hc
  have hlen : ms.length = f.2.length := by simpa using (congrArg List.length h1).symm
  have hfm : (f.2.map lineToks ++ [[]]).filterMap (Spec.rowMeaning parseFloat) = ms := by
    have : ∀ (ls : List (List Char)) (ms : List (ℝ × ℝ × ℝ)),
        ls.map (fun l => Spec.rowMeaning parseFloat (lineToks l)) = ms.map some →
        (ls.map lineToks).filterMap (Spec.rowMeaning parseFloat) = ms := by
      intro ls
      induction ls with
      | nil => intro ms h; simpa using h.symm
      | cons l ls ih =>
        intro ms h
        rcases ms with _ | ⟨m, ms⟩
        · simp at h
        · simp only [List.map_cons, List.cons.injEq] at h
          rw [List.map_cons, List.filterMap_cons_some h.1, ih ms h.2]
    rw [List.filterMap_append, this _ _ h1]
    simp [Spec.rowMeaning]
  refine ⟨ms.map Spec.rowValue, ?_, by simpa using hlen, ?_, ?_, ?_⟩
  · rw [dataText_lines f.2 h5, C36_rows, hfm]
    intro s hs
    rcases List.mem_append.mp hs with hs | hs
    · right
      obtain ⟨l, hl, rfl⟩ := List.mem_map.mp hs
      have : Spec.rowMeaning parseFloat (lineToks l) ∈ ms.map some := by
        rw [← h1]; exact List.mem_map.mpr ⟨l, hl, rfl⟩
      obtain ⟨m, -, hm⟩ := List.mem_map.mp this
      rw [← hm]; rfl
    · left; simpa using hs
  · intro h0
    have := congrArg List.length h0
    simp only [List.length_map, List.length_nil] at this
    exact hne (List.length_eq_zero_iff.mp (hlen.symm.trans this))
  · rw [List.map_map]
    rw [List.pairwise_map] at h3 ⊢
    refine h3.imp ?_
    intro a b hab
    simp only [Function.comp, Spec.rowValue]
    linarith
  · intro p hp
    obtain ⟨m, hm, rfl⟩ := List.mem_map.mp hp
    obtain ⟨hn, hk⟩ := h2 m hm
    simp only [Spec.rowValue]
    rcases hk.lt_or_eq with hk | hk
    · exact Or.inl (mul_pos (mul_pos (by norm_num) hn) hk)
    · right
      rw [← hk]
      exact ⟨by ring, by nlinarith⟩

/-- C52: every tabulated file loads completely, with strictly increasing wavelengths and nonnegative `Im eps`. -/
theorem C52_tables (f : String × List (List Char)) (h : f ∈ shippedTables) :
    ∃ dat, loadTabulated parseFloat (splitRows (dataText f.2)) = .ok dat ∧ dat.length = f.2.length ∧ dat ≠ [] ∧
      (dat.map (·.1)).Pairwise (· < ·) ∧ ∀ p ∈ dat, 0 ≤ p.2.im := by
  obtain ⟨dat, h1, h2, h3, h4, h5⟩ := shipped_rows f h
  exact ⟨dat, h1, h2, h3, h4, fun p hp => (h5 p hp).elim le_of_lt fun h => h.1.ge⟩

/-- C52: a material object made from a shipped table is passive at every wavelength, inside or outside the table, after
any history of calls, as long as the rounding keeps nonnegative imaginary parts nonnegative. -/
theorem C52_passive (C : Casts) (hC : ∀ z : ℂ, 0 ≤ z.im → 0 ≤ (C.c64 z).im) (f : String × List (List Char))
    (h : f ∈ shippedTables) :
    ∃ dat, loadTabulated parseFloat (splitRows (dataText f.2)) = .ok dat ∧
      ∀ (device : Device) (hist : List MatOp) (wl : DTen ℝ), wl.ten.squeeze.shape = [] →
        ∃ t, (((MatDb.new (.ofTable C dat) device).run C hist).getEpsilon C wl).1 = .ok t ∧ 0 ≤ (t.ten.get []).im := by
  obtain ⟨dat, h1, -, h3, -, h5⟩ := C52_tables f h
  refine ⟨dat, h1, fun device hist wl hs => ?_⟩
  obtain ⟨y, hy, him⟩ := interp_im_nonneg (C.f32 (wl.ten.squeeze.get [])) (dat.map fun r => (C.f32 r.1, C.c64 r.2))
    (by simpa using h3) (by
      intro p hp
      obtain ⟨q, hq, rfl⟩ := List.mem_map.mp hp
      exact hC _ (h5 q hq))
  have h34 := C34_single C (.ofTable C dat) device hist wl hs
  have hev : Dispersion.eval (.ofTable C dat) (C.f32 (wl.ten.squeeze.get [])) = .ok y := hy
  rw [hev] at h34
  cases hr : (((MatDb.new (.ofTable C dat) device).run C hist).getEpsilon C wl).1 with
  | error e => rw [hr] at h34; cases h34
  | ok t =>
    rw [hr] at h34
    simp only [Except.map, Except.ok.injEq, Prod.mk.injEq] at h34
    refine ⟨t, rfl, ?_⟩
    rw [h34.1]
    exact hC y him

example : ("Si_Schinke2015.yml", dataSi) ∈ shippedTables ∧ dataSi.length = 121 := by
  refine ⟨by simp [shippedTables], by decide +kernel⟩

/-! ## Formula files -/

/-- One pole below and one above the range (`lo`, `hi` in micrometres): bounds on the two terms. -/
theorem sell_low {c p w : ℝ} (hc : 0 ≤ c) (hp : 0 < p) (hw : p < w) : c ≤ c * w ^ 2 / (w ^ 2 - p ^ 2) := by
  have : 0 < w ^ 2 - p ^ 2 := by nlinarith
  rw [le_div_iff₀ this]
  nlinarith [mul_nonneg hc (sq_nonneg p)]

theorem sell_high {c p w hi b : ℝ} (hc : 0 ≤ c) (hw : 0 < w) (hh : w ≤ hi) (hp : hi < p)
    (hb : c * hi ^ 2 ≤ b * (p ^ 2 - hi ^ 2)) (hb0 : 0 ≤ b) : -b ≤ c * w ^ 2 / (w ^ 2 - p ^ 2) := by
  have h1 : w ^ 2 ≤ hi ^ 2 := by nlinarith
  have h2 : 0 < p ^ 2 - w ^ 2 := by nlinarith
  rw [show c * w ^ 2 / (w ^ 2 - p ^ 2) = -(c * w ^ 2 / (p ^ 2 - w ^ 2)) by
    rw [← neg_sub (p ^ 2), div_neg], neg_le_neg_iff, div_le_iff₀ h2]
  nlinarith [mul_le_mul_of_nonneg_left h1 hc, mul_le_mul_of_nonneg_left h1 hb0]

/-- Numbers of a text, in `10^-30`. -/
def checkNums (l : List Char) (vals : List ℤ) : Bool := decide ((splitWs l).map scaled = vals.map some)

theorem checkNums_spec {l : List Char} {vals : List ℤ} (h : checkNums l vals = true) :
    (lineToks l).map parseFloat = vals.map fun (v : ℤ) => some ((v : ℝ) / 10 ^ 30) := by
  simp only [checkNums, decide_eq_true_eq] at h
  unfold lineToks
  generalize splitWs l = ts at h
  induction ts generalizing vals with
  | nil =>
    rcases vals with _ | ⟨v, vals⟩
    · rfl
    · simp at h
  | cons t ts ih =>
    rcases vals with _ | ⟨v, vals⟩
    · simp at h
    · simp only [List.map_cons, List.cons.injEq] at h ⊢
      exact ⟨parse_scaled h.1, ih h.2⟩

theorem mapM_pyFloat {ts : List String} {vals : List ℝ} (h : ts.map parseFloat = vals.map some) :
    ts.mapM (pyFloat parseFloat) = .ok vals := by
  induction ts generalizing vals with
  | nil =>
    rcases vals with _ | ⟨v, vals⟩
    · rfl
    · simp at h
  | cons t ts ih =>
    rcases vals with _ | ⟨v, vals⟩
    · simp at h
    · simp only [List.map_cons, List.cons.injEq] at h
      rw [List.mapM_cons, ih h.2, pyFloat, h.1]
      rfl

theorem loadFormula_ok {range coefficients : List Char} {lo hi : ℤ} {vals : List ℤ}
    (hr : checkNums range [lo, hi] = true) (hc : checkNums coefficients vals = true) :
    loadFormula range coefficients
      = .ok (vals.map fun (v : ℤ) => (v : ℝ) / 10 ^ 30, 1000 * ((lo : ℝ) / 10 ^ 30), 1000 * ((hi : ℝ) / 10 ^ 30)) := by
  have h1 := checkNums_spec hr
  have h2 := checkNums_spec hc
  unfold loadFormula
  rw [mapM_pyFloat (vals := vals.map fun (v : ℤ) => (v : ℝ) / 10 ^ 30) (by rw [h2, List.map_map]; rfl)]
  generalize lineToks range = ts at h1
  rcases ts with _ | ⟨a, _ | ⟨b, _ | ⟨c, ts⟩⟩⟩
  · simp at h1
  · simp at h1
  · simp only [List.map_cons, List.map_nil, List.cons.injEq, and_true] at h1
    simp only [pyIdx, List.getElem?_cons_zero, List.getElem?_cons_succ, pyFloat, h1.1, h1.2, Bind.bind, Except.bind]
  · simp at h1

theorem sell_two {a p b q lo hi bnd : ℝ} (ha : 0 ≤ a) (hp : 0 < p) (hpl : p < lo) (hb : 0 ≤ b) (hq : hi < q)
    (hbnd : b * hi ^ 2 ≤ bnd * (q ^ 2 - hi ^ 2)) (hb0 : 0 ≤ bnd) (hsum : bnd < a) (wl : ℝ) (h1 : 1000 * lo ≤ wl)
    (h2 : wl ≤ 1000 * hi) :
    ∃ v : ℝ, Dispersion.eval (.formula 1 [0, a, p, b, q]) wl = .ok (v : ℂ) ∧ 1 < v := by
  have hw1 : p < wl / 1000 := by linarith
  have hw2 : wl / 1000 ≤ hi := by linarith
  have := C37_sellmeier 0 [(a, p), (b, q)] wl (by
    intro r hr
    simp only [List.mem_cons, List.not_mem_nil, or_false] at hr
    rcases hr with rfl | rfl
    · simp only; nlinarith
    · simp only; nlinarith)
  refine ⟨_, this, ?_⟩
  simp only [Spec.sellmeier, List.map_cons, List.map_nil, List.sum_cons, List.sum_nil]
  have t1 := sell_low ha hp hw1
  have t2 := sell_high hb (hp.trans hw1) hw2 hq hbnd hb0
  linarith

theorem sell_three {a p b q c r lo hi bnd : ℝ} (ha : 0 ≤ a) (hp : 0 < p) (hpl : p < lo) (hb : 0 ≤ b) (hq : 0 < q)
    (hql : q < lo) (hc : 0 ≤ c) (hr : hi < r)
    (hbnd : c * hi ^ 2 ≤ bnd * (r ^ 2 - hi ^ 2)) (hb0 : 0 ≤ bnd) (hsum : bnd < a + b) (wl : ℝ) (h1 : 1000 * lo ≤ wl)
    (h2 : wl ≤ 1000 * hi) :
    ∃ v : ℝ, Dispersion.eval (.formula 1 [0, a, p, b, q, c, r]) wl = .ok (v : ℂ) ∧ 1 < v := by
  have hw1 : p < wl / 1000 := by linarith
  have hw3 : q < wl / 1000 := by linarith
  have hw2 : wl / 1000 ≤ hi := by linarith
  have := C37_sellmeier 0 [(a, p), (b, q), (c, r)] wl (by
    intro t ht
    simp only [List.mem_cons, List.not_mem_nil, or_false] at ht
    rcases ht with rfl | rfl | rfl
    · simp only; nlinarith
    · simp only; nlinarith
    · simp only; nlinarith)
  refine ⟨_, this, ?_⟩
  simp only [Spec.sellmeier, List.map_cons, List.map_nil, List.sum_cons, List.sum_nil]
  have t1 := sell_low ha hp hw1
  have t3 := sell_low hb hq hw3
  have t2 := sell_high hc (hp.trans hw1) hw2 hr hbnd hb0
  linarith

/-- C52: every formula file is a Sellmeier model without pole in its validity range; there the permittivity is real and
larger than 1. -/
theorem C52_formulas (f : String × Int × List Char × List Char) (h : f ∈ shippedFormulas) :
    ∃ coeff lo hi, loadFormula f.2.2.1 f.2.2.2 = .ok (coeff, lo, hi) ∧ lo < hi ∧
      ∀ wl, lo ≤ wl → wl ≤ hi → ∃ v : ℝ, Dispersion.eval (.formula f.2.1 coeff) wl = .ok (v : ℂ) ∧ 1 < v := by
  simp only [shippedFormulas, List.mem_cons, List.not_mem_nil, or_false] at h
  rcases h with rfl | rfl | rfl | rfl | rfl
  · refine ⟨_, _, _, loadFormula_ok (lo := 200000000000000000000000000000) (hi := 5000000000000000000000000000000)
      (vals := [0, 1503975900000000000000000000000, 74028800000000000000000000000, 550691410000000000000000000000, 121652900000000000000000000000, 6592737900000000000000000000000, 20072248000000000000000000000000]) (by decide +kernel) (by decide +kernel), by norm_num, fun wl h1 h2 => ?_⟩
    simp only [List.map_cons, List.map_nil, Int.cast_zero, zero_div]
    exact sell_three (bnd := 1) (by norm_num) (by norm_num) (by norm_num) (by norm_num) (by norm_num) (by norm_num) (by norm_num) (by norm_num) (by norm_num) (by norm_num) (by norm_num) wl h1 h2
  · refine ⟨_, _, _, loadFormula_ok (lo := 200000000000000000000000000000) (hi := 5000000000000000000000000000000)
      (vals := [0, 1431349300000000000000000000000, 72663100000000000000000000000, 650547130000000000000000000000, 119324200000000000000000000000, 5341402100000000000000000000000, 18028251000000000000000000000000]) (by decide +kernel) (by decide +kernel), by norm_num, fun wl h1 h2 => ?_⟩
    simp only [List.map_cons, List.map_nil, Int.cast_zero, zero_div]
    exact sell_three (bnd := 1) (by norm_num) (by norm_num) (by norm_num) (by norm_num) (by norm_num) (by norm_num) (by norm_num) (by norm_num) (by norm_num) (by norm_num) (by norm_num) wl h1 h2
  · refine ⟨_, _, _, loadFormula_ok (lo := 310000000000000000000000000000) (hi := 5504000000000000000000000000000)
      (vals := [0, 3024900000000000000000000000000, 135340600000000000000000000000, 40314000000000000000000000000000000, 1239842000000000000000000000000000]) (by decide +kernel) (by decide +kernel), by norm_num, fun wl h1 h2 => ?_⟩
    simp only [List.map_cons, List.map_nil, Int.cast_zero, zero_div]
    exact sell_two (bnd := 1) (by norm_num) (by norm_num) (by norm_num) (by norm_num) (by norm_num) (by norm_num) (by norm_num) (by norm_num) wl h1 h2
  · refine ⟨_, _, _, loadFormula_ok (lo := 210000000000000000000000000000) (hi := 6700000000000000000000000000000)
      (vals := [0, 696166300000000000000000000000, 68404300000000000000000000000, 407942600000000000000000000000, 116241400000000000000000000000, 897479400000000000000000000000, 9896161000000000000000000000000]) (by decide +kernel) (by decide +kernel), by norm_num, fun wl h1 h2 => ?_⟩
    simp only [List.map_cons, List.map_nil, Int.cast_zero, zero_div]
    exact sell_three (bnd := 1) (by norm_num) (by norm_num) (by norm_num) (by norm_num) (by norm_num) (by norm_num) (by norm_num) (by norm_num) (by norm_num) (by norm_num) (by norm_num) wl h1 h2
  · refine ⟨_, _, _, loadFormula_ok (lo := 361000000000000000000000000000) (hi := 5135000000000000000000000000000)
      (vals := [0, 1347091000000000000000000000000, 62543000000000000000000000000, 2117788000000000000000000000000, 166739000000000000000000000000, 9452943000000000000000000000000, 24320570000000000000000000000000]) (by decide +kernel) (by decide +kernel), by norm_num, fun wl h1 h2 => ?_⟩
    simp only [List.map_cons, List.map_nil, Int.cast_zero, zero_div]
    exact sell_three (bnd := 1) (by norm_num) (by norm_num) (by norm_num) (by norm_num) (by norm_num) (by norm_num) (by norm_num) (by norm_num) (by norm_num) (by norm_num) (by norm_num) wl h1 h2

end MieDiff
