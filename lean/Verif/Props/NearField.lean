import Verif.Proofs.NearField
import Verif.Props.Solver

/-!
# Near-field properties (C14, C15, C16)
-/

namespace MieDiff

open Complex Spec

/-! ## C14 -/

/-- Electric and magnetic wave of one region at order `i`. -/
def RegionCoefs.wave (r : RegionCoefs) (i : ℕ) : Pol → Wave
  | .tm => ⟨r.d.getD i 0, r.a.getD i 0⟩
  | .te => ⟨r.c.getD i 0, r.b.getD i 0⟩

/-- Relative indices of all regions, the host last. -/
noncomputable def Particle1.indices (p : Particle1) : List ℂ := p.layers.map Prod.fst ++ [1]

theorem toCoefs_wave {n i : ℕ} (hi : i ≤ n) (r : RegFn) (q : Pol) : (r.toCoefs n).wave i q = r.wave q i := by
  cases q <;> simp only [RegionCoefs.wave, RegFn.toCoefs, RegFn.wave, tab_getD hi]

theorem indices_drop : ∀ (l : List (ℂ × ℂ)) (j : ℕ), j ≤ l.length →
    (l.map Prod.fst ++ [1]).getD j 0 = nextIndex (l.drop j) := by
  intro l
  induction l with
  | nil =>
    intro j hj
    obtain rfl : j = 0 := by simpa using hj
    simp [nextIndex]
  | cons a l ih =>
    intro j hj
    cases j with
    | zero => simp [nextIndex]
    | succ j => simpa using ih j (by simpa using hj)

theorem nfok_drop {n : ℕ} : ∀ (l : List (ℂ × ℂ)) (j : ℕ), NFOK n l → NFOK n (l.drop j) := by
  intro l
  induction l with
  | nil => intro j _; simp [NFOK]
  | cons a l ih =>
    intro j h
    cases j with
    | zero => exact h
    | succ j => exact ih j h.2

theorem penaRun_regions {p : Particle1} {o : MieOut} (run : PenaRun idealD1 p o)
    (hc : SolverClear idealFn o.nMax.toNat p.layers) :
    ∃ ext : RegFn, extCoefs o.a o.b = ext.toCoefs o.nMax.toNat ∧
      (∀ isCore, nfRegions idealD1 o.nMax (extCoefs o.a o.b) isCore p.layers =
        .ok ((nfAll idealFn ext isCore p.layers).map (RegFn.toCoefs o.nMax.toNat))) ∧
      ∀ q i, 1 ≤ i → i ≤ o.nMax.toNat → ∃ w : Wave, w.a = 0 ∧ Chain q i w p.layers (ext.wave q i) := by
  obtain ⟨l, rest, hl⟩ := run.layers_cons
  obtain ⟨ea, eb⟩ := run.coefs (idealD1_fun _) hl
  have hn : ((o.nMax.toNat : ℕ) : ℤ) = o.nMax := Int.toNat_of_nonneg (by have := run.pos; omega)
  have hext := extCoefs_eq o.nMax.toNat (coefFn idealFn .tm (hFinal idealFn l rest))
    (coefFn idealFn .te (hFinal idealFn l rest))
  refine ⟨_, by rw [ea, eb]; exact hext, ?_, ?_⟩
  · intro isCore
    rw [ea, eb, hext, ← hn]
    exact nfRegions_eq (idealD1_fun _) _ _ _
  · intro q i h1 hi
    rw [hl] at hc ⊢
    obtain ⟨w, hw, ch⟩ := coefFn_solves q h1 hi hc.ne hc
    refine ⟨w, hw, ?_⟩
    have h0 : i ≠ 0 := by omega
    cases q <;> simpa only [RegFn.wave, extFn, h0, if_false] using ch

/-- C14: the coefficients `nearfields` computes for the regions satisfy the continuity conditions at every interface
and every order, the outermost region carries the incident wave and the scattering coefficients, and the core is
regular.  Without the line that forces the core to be regular the result is the same. -/
theorem C14_region_coefficients {B : Backends} {p : Particle1} {backend w : String} {nMax : Option ℤ}
    {ri : Bool} {o : MieOut} (hb : backend.toLower = "pena")
    (h : mieCoefficients idealD1 B p backend w nMax ri = .ok o)
    (hc : SolverClear idealFn o.nMax.toNat p.layers)
    (hbd : ∀ l ∈ p.layers, ∀ i, 1 ≤ i → i ≤ o.nMax.toNat →
      ‖ricPsi i (l.1 * l.2)‖ ≤ 1e30 ∧ ‖ricZeta i (l.1 * l.2)‖ ≤ 1e30) (isCore : Bool) :
    ∃ regs, nfRegions idealD1 o.nMax (extCoefs o.a o.b) isCore p.layers = .ok regs ∧
      regs.length = p.rLayers.length + 1 ∧
      (∀ i, 1 ≤ i → i ≤ o.nMax.toNat → ∀ q j, j < p.rLayers.length → ∃ r r', regs[j]? = some r ∧ regs[j + 1]? = some r' ∧
        Cont q i (p.indices.getD j 0) (p.indices.getD (j + 1) 0) (o.k * (p.rLayers.getD j 0 : ℝ)) (r.wave i q) (r'.wave i q)) ∧
      (∀ i, 1 ≤ i → i ≤ o.nMax.toNat → ∀ q, ∃ core, regs[0]? = some core ∧ (core.wave i q).a = 0) ∧
      (∀ i, 1 ≤ i → i ≤ o.nMax.toNat → ∃ host, regs[p.rLayers.length]? = some host ∧
        host.wave i .tm = ⟨1, o.a.getD (i - 1) 0⟩ ∧ host.wave i .te = ⟨1, o.b.getD (i - 1) 0⟩) := by
  have run := mieCoefficients_pena_inv hb h
  have hn1 : 1 ≤ o.nMax.toNat := by have := run.pos; omega
  obtain ⟨ext, hext, hregs, hch⟩ := penaRun_regions run hc
  have hok := nfok_of_clear hn1 hc hbd
  have hlen : p.layers.length = p.rLayers.length := by
    simp [Particle1.layers, layersOf, run.len]
  have hx : ∀ j (hj : j < p.layers.length), (p.layers[j]).2 = o.k * (p.rLayers.getD j 0 : ℝ) := by
    intro j hj
    have hj' : j < p.rLayers.length := by omega
    rw [run.k, List.getD_eq_getElem?_getD, List.getElem?_eq_getElem hj']
    simp [Particle1.layers, layersOf]
  have hwave : ∀ j, j ≤ p.layers.length → ∀ q i, 1 ≤ i → i ≤ o.nMax.toNat → ∃ r,
      ((nfAll idealFn ext isCore p.layers).map (RegFn.toCoefs o.nMax.toNat))[j]? = some r ∧
      r.wave i q = (nfFn idealFn ext false (p.layers.drop j)).wave q i := by
    intro j hj q i h1 hi
    rw [List.getElem?_map, nfAll_getElem? _ _ _ _ _ hj]
    refine ⟨_, rfl, ?_⟩
    rw [toCoefs_wave hi]
    cases j with
    | succ j => simp
    | zero =>
      obtain ⟨l, rest, hl⟩ := run.layers_cons
      obtain ⟨wv, hw, ch⟩ := hch q i h1 hi
      have hok' := hok
      rw [hl] at hok' ch
      rw [List.drop_zero, hl]
      cases isCore with
      | false => rfl
      | true => exact nfFn_core h1 hi q ext l rest hok' hw ch
  refine ⟨_, hregs isCore, by rw [List.length_map, nfAll_length, hlen], ?_, ?_, ?_⟩
  · intro i h1 hi q j hj
    have hj' : j < p.layers.length := by omega
    obtain ⟨r, hr, er⟩ := hwave j hj'.le q i h1 hi
    obtain ⟨r', hr', er'⟩ := hwave (j + 1) hj' q i h1 hi
    refine ⟨r, r', hr, hr', ?_⟩
    rw [er, er']
    have hd : p.layers.drop j = p.layers[j] :: p.layers.drop (j + 1) := List.drop_eq_getElem_cons hj'
    unfold Particle1.indices
    rw [indices_drop _ _ hj'.le, indices_drop _ _ hj', ← hx j hj', hd]
    have := nfok_drop _ j hok
    rw [hd] at this
    exact nfFn_cont h1 hi q ext _ _ this
  · intro i h1 hi q
    obtain ⟨r, hr, er⟩ := hwave 0 (Nat.zero_le _) q i h1 hi
    obtain ⟨wv, hw, ch⟩ := hch q i h1 hi
    refine ⟨r, hr, ?_⟩
    rw [er, List.drop_zero, nfFn_chain h1 hi q ext _ wv hok ch, hw]
  · intro i h1 hi
    refine ⟨extCoefs o.a o.b, ?_, ?_, ?_⟩
    · rw [← hlen, List.getElem?_map, nfAll_getElem? _ _ _ _ _ le_rfl, List.drop_length, hext]
      cases p.layers.length <;> simp [nfFn]
    all_goals
      obtain ⟨j, rfl⟩ : ∃ j, i = j + 1 := ⟨i - 1, by omega⟩
      have hla : j < o.a.length := by
        obtain ⟨l, rest, hl⟩ := run.layers_cons
        rw [(run.coefs (idealD1_fun _) hl).1]; simpa using hi
      simp [RegionCoefs.wave, extCoefs, hla]

theorem demo_bounds : ∀ l ∈ demoLayers, ∀ i, 1 ≤ i → i ≤ 1 →
    ‖ricPsi i (l.1 * l.2)‖ ≤ 1e30 ∧ ‖ricZeta i (l.1 * l.2)‖ ≤ 1e30 := by
  intro l hl i h1 hi
  obtain rfl : i = 1 := by omega
  have e : l.1 * l.2 = ((3 * qp : ℝ) : ℂ) := by
    simp only [demoLayers, List.mem_cons, List.not_mem_nil, or_false] at hl
    rcases hl with rfl | rfl
    · exact demo_args.1
    · push_cast; ring
  have hb := qp3_odd.big
  have hinv : ‖(1 / ((3 * qp : ℝ) : ℂ))‖ ≤ 1 := by
    rw [norm_div, qp3_odd.norm_t, norm_one, div_le_one (by linarith)]; exact hb
  rw [e, qp3_odd.psi1, qp3_odd.zeta1]
  constructor
  · rw [div_eq_mul_one_div, norm_mul, qp3_odd.norm_sin, one_mul]
    exact hinv.trans (by norm_num)
  · rw [norm_mul, qp3_odd.norm_sin, mul_one]
    calc ‖1 / ((3 * qp : ℝ) : ℂ) - I‖ ≤ ‖1 / ((3 * qp : ℝ) : ℂ)‖ + ‖I‖ := norm_sub_le _ _
      _ ≤ 1 + 1 := by rw [norm_I]; linarith
      _ ≤ 1e30 := by norm_num

/-- The hypotheses of C14 hold for the core-shell particle of the C11 example. -/
example (B : Backends) : ∃ o, mieCoefficients idealD1 B demoParticle "pena" "recurrence" (some 1) = .ok o ∧
    SolverClear idealFn o.nMax.toNat demoParticle.layers ∧
    ∀ l ∈ demoParticle.layers, ∀ i, 1 ≤ i → i ≤ o.nMax.toNat →
      ‖ricPsi i (l.1 * l.2)‖ ≤ 1e30 ∧ ‖ricZeta i (l.1 * l.2)‖ ≤ 1e30 := by
  obtain ⟨o, h, hn⟩ := demo_run B
  have h1 : o.nMax.toNat = 1 := by rw [hn]; rfl
  exact ⟨o, h, by rw [h1, demo_layers]; exact demo_clear, by rw [h1, demo_layers]; exact demo_bounds⟩

/-! ## C15 -/

theorem strictlyIncreasing_lt : ∀ (rs : List ℝ), strictlyIncreasing rs → ∀ i j : ℕ, i < j → j < rs.length →
    rs.getD i 0 < rs.getD j 0 := by
  intro rs
  induction rs with
  | nil => intro _ i j _ hj; simp at hj
  | cons a rs ih =>
    intro h i j hij hj
    cases j with
    | zero => omega
    | succ j =>
      cases rs with
      | nil => simp at hj
      | cons b rs =>
        have hj' : j < (b :: rs).length := by simpa using hj
        cases i with
        | succ i => simpa using ih h.2 i j (by omega) hj'
        | zero =>
          have hb : (b :: rs).getD 0 0 ≤ (b :: rs).getD j 0 := by
            rcases Nat.eq_zero_or_pos j with rfl | hp
            · exact le_rfl
            · exact (ih h.2 0 j hp hj').le
          simpa using lt_of_lt_of_le h.1 hb

/-- `rs[L-1]`, the code's `r_layers[:, -1]`. -/
theorem getLastD_eq (rs : List ℝ) : rs.getLastD 0 = rs.getD (rs.length - 1) 0 := by
  rw [List.getLastD_eq_getLast?, List.getLast?_eq_getElem?, List.getD_eq_getElem?_getD]

/-- Region `j` of a layered sphere contains the distance `r`: beyond all inner radii, up to its own. -/
def InRegion (rs : List ℝ) (j : ℕ) (r : ℝ) : Prop :=
  j ≤ rs.length ∧ (∀ i, i < j → rs.getD i 0 < r) ∧ (j < rs.length → r ≤ rs.getD j 0)

theorem regionMasks_iff (rs : List ℝ) (hne : rs ≠ []) (hinc : strictlyIncreasing rs) (r : ℝ) (j : ℕ) :
    (regionMasks rs r)[j]? = some true ↔ InRegion rs j r := by
  have hL : 0 < rs.length := List.length_pos_iff.2 hne
  have hlt := strictlyIncreasing_lt rs hinc
  unfold regionMasks InRegion
  rcases lt_trichotomy j rs.length with h | h | h
  · rw [List.getElem?_append_left (by simpa using h)]
    simp only [List.getElem?_map, List.getElem?_range h, Option.map_some, Option.some.injEq]
    cases j with
    | zero => simp [h]
    | succ j =>
      simp only [Nat.succ_ne_zero, if_false, Nat.add_sub_cancel, Bool.and_eq_true, decide_eq_true_eq]
      constructor
      · rintro ⟨a, b⟩
        refine ⟨h.le, fun i hi => ?_, fun _ => b⟩
        rcases Nat.lt_succ_iff_lt_or_eq.1 hi with hi | rfl
        · exact (hlt i j hi (by omega)).trans a
        · exact a
      · rintro ⟨_, a, b⟩
        exact ⟨a j (by omega), b h⟩
  · subst h
    rw [List.getElem?_append_right (by simp)]
    simp only [List.length_map, List.length_range, Nat.sub_self, List.getElem?_cons_zero, Option.some.injEq,
      decide_eq_true_eq, le_refl, lt_irrefl, false_imp_iff, and_true, true_and]
    rw [getLastD_eq rs]
    constructor
    · intro a i hi
      rcases Nat.lt_or_ge i (rs.length - 1) with h' | h'
      · exact (hlt i _ h' (by omega)).trans a
      · obtain rfl : i = rs.length - 1 := by omega
        exact a
    · intro a; exact a _ (by omega)
  · have : (List.map (fun li => if li = 0 then decide (r ≤ rs.getD 0 0)
        else decide (rs.getD (li - 1) 0 < r) && decide (r ≤ rs.getD li 0)) (List.range rs.length) ++
        [decide (rs.getLastD 0 < r)])[j]? = none := by
      rw [List.getElem?_eq_none]; simp; omega
    rw [this]
    simp; omega

/-- C15: for strictly increasing radii every distance lies in exactly one of the `L+1` regions. -/
theorem C15_one_region (rs : List ℝ) (hne : rs ≠ []) (hinc : strictlyIncreasing rs) (r : ℝ) :
    (regionMasks rs r).length = rs.length + 1 ∧ ∃! j : ℕ, (regionMasks rs r)[j]? = some true := by
  refine ⟨by simp [regionMasks], ?_⟩
  simp only [regionMasks_iff rs hne hinc]
  classical
  have hex : ∃ j, j = rs.length ∨ r ≤ rs.getD j 0 := ⟨rs.length, Or.inl rfl⟩
  have hle : Nat.find hex ≤ rs.length := Nat.find_min' hex (Or.inl rfl)
  refine ⟨Nat.find hex, ⟨hle, ?_, ?_⟩, ?_⟩
  · intro i hi
    have := Nat.find_min hex hi
    push Not at this
    exact this.2
  · intro hlt
    rcases Nat.find_spec hex with h | h
    · omega
    · exact h
  · rintro j ⟨h1, h2, h3⟩
    rcases lt_trichotomy j (Nat.find hex) with h | h | h
    · have := Nat.find_min hex h
      push Not at this
      have := h3 (by omega)
      linarith
    · exact h
    · have := h2 _ h
      rcases Nat.find_spec hex with h' | h'
      · omega
      · linarith

/-- C15: a point on interface `j` belongs to region `j`, the inner side. -/
theorem C15_interface_inner (rs : List ℝ) (hinc : strictlyIncreasing rs) (j : ℕ) (hj : j < rs.length) :
    (regionMasks rs (rs.getD j 0))[j]? = some true := by
  have hne : rs ≠ [] := by rintro rfl; simp at hj
  rw [regionMasks_iff rs hne hinc]
  exact ⟨hj.le, fun i hi => strictlyIncreasing_lt rs hinc i j hi hj, fun _ => le_rfl⟩

theorem maskedAssign_spec {α : Type*} (z : α) : ∀ (masks : List Bool) (vals : List α) (j : ℕ) (v : α),
    masks[j]? = some true → (∀ i : ℕ, masks[i]? = some true → i = j) → vals[j]? = some v → maskedAssign z masks vals = v := by
  have aux : ∀ (masks : List Bool) (vals : List α) (acc : α), (∀ i : ℕ, masks[i]? ≠ some true) →
      (masks.zip vals).foldl (fun acc mv => if mv.1 then mv.2 else acc) acc = acc := by
    intro masks
    induction masks with
    | nil => intro _ _ _; rfl
    | cons m ms ih =>
      intro vals acc h
      cases vals with
      | nil => rfl
      | cons v vs =>
        have hm : m = false := by
          have := h 0
          cases m with
          | true => simp at this
          | false => rfl
        rw [List.zip_cons_cons, List.foldl_cons, hm]
        exact ih vs acc fun i => by simpa using h (i + 1)
  intro masks
  induction masks generalizing z with
  | nil => intro vals j v h; simp at h
  | cons m ms ih =>
    intro vals j v hj hu hv
    cases vals with
    | nil => simp at hv
    | cons w vs =>
      unfold maskedAssign
      rw [List.zip_cons_cons, List.foldl_cons]
      cases j with
      | zero =>
        have hm : m = true := by simpa using hj
        have hw : w = v := by simpa using hv
        subst hm hw
        rw [if_pos rfl]
        refine aux ms vs _ fun i hi => ?_
        have := hu (i + 1) (by simpa using hi)
        omega
      | succ j =>
        refine ih _ vs j v (by simpa using hj) (fun i hi => ?_) (by simpa using hv)
        have := hu (i + 1) (by simpa using hi)
        omega

theorem mapM_range_ok {α : Type*} (f : ℕ → Py α) (n : ℕ) (l : List α) (h : (List.range n).mapM f = .ok l) :
    l.length = n ∧ ∀ i < n, ∃ v, f i = .ok v ∧ l[i]? = some v := by
  induction n generalizing l with
  | zero =>
    simp only [List.range_zero, List.mapM_nil, pure, Except.pure] at h
    injection h with h
    subst h
    simp
  | succ n ih =>
    rw [List.range_succ, List.mapM_append] at h
    cases h1 : (List.range n).mapM f with
    | error e => rw [h1] at h; simp [Bind.bind, Except.bind] at h
    | ok l1 =>
      cases h2 : f n with
      | error e => rw [h1] at h; simp [Bind.bind, Except.bind, h2] at h
      | ok v =>
        rw [h1] at h
        simp only [Bind.bind, Except.bind, List.mapM_cons, h2, List.mapM_nil, pure, Except.pure] at h
        injection h with h
        subst h
        obtain ⟨a, b⟩ := ih l1 h1
        refine ⟨by simp [a], fun i hi => ?_⟩
        rcases Nat.lt_succ_iff_lt_or_eq.1 hi with hi | rfl
        · obtain ⟨w, c, d⟩ := b i hi
          exact ⟨w, c, by rw [List.getElem?_append_left (by omega)]; exact d⟩
        · exact ⟨v, h2, by rw [List.getElem?_append_right (by omega)]; simp [a]⟩

/-- Distance of the probe point from the centre. -/
noncomputable def V3.dist (p : V3 ℝ) : ℝ := Real.sqrt (p.c0 ^ 2 + p.c1 ^ 2 + p.c2 ^ 2)

/-- Angles of the probe point as computed by the code. -/
noncomputable def V3.polar (p : V3 ℝ) : ℝ := (xyzToSph eps10Double p.c0 p.c1 p.c2).c1
noncomputable def V3.azimuth (p : V3 ℝ) : ℝ := (xyzToSph eps10Double p.c0 p.c1 p.c2).c2

theorem masks_last (rs : List ℝ) (r : ℝ) : (regionMasks rs r).getLastD false = decide (rs.getLastD 0 < r) := by
  unfold regionMasks
  rw [List.getLastD_eq_getLast?, List.getLast?_append]
  simp

/-- C15: the field returned at a probe point is that of the one region containing it, summed over orders; outside the
incident field is added to get the total field, inside total and "scattered" field are the same. -/
theorem C15_total_field {K : D1Kernel} {k0 : ℂ} {rs : List ℝ} {es : List ℂ} {epsEnv E0 : ℂ} {a b : List ℂ} {p : V3 ℝ}
    {epsilon : ℝ} {F : Fields} (hne : rs ≠ []) (hinc : strictlyIncreasing rs)
    (h : nearfieldsPena K k0 rs es epsEnv E0 a b p epsilon = .ok F) :
    (rs.getLastD 0 < p.dist → F.Et = F.Es.add F.Ei ∧ F.Ht = F.Hs.add F.Hi) ∧
    (p.dist ≤ rs.getLastD 0 → F.Et = F.Es ∧ F.Ht = F.Hs) ∧
    ∃ j regs fe fh, InRegion rs j p.dist ∧
      nfRegions K a.length (extCoefs a b) true (layersOf (k0 * csqrt epsEnv) rs es (csqrt epsEnv)) = .ok regs ∧
      regionField K a.length k0 ((es.map csqrt ++ [csqrt epsEnv]).getD j 0) p.dist p.polar p.azimuth E0 (j == rs.length)
        (regs.getD j ⟨[], [], [], []⟩) epsilon = .ok (fe, fh) ∧
      F.Es = sumCart p.polar p.azimuth fe ∧ F.Hs = sumCart p.polar p.azimuth fh := by
  unfold nearfieldsPena at h
  simp only [Bind.bind, Except.bind] at h
  split at h
  · simp at h
  rename_i regs hregs
  split at h
  · simp at h
  rename_i flds hfl
  obtain ⟨hl, hv⟩ := mapM_range_ok _ _ _ hfl
  injection h with h
  have hd : (xyzToSph eps10Double p.c0 p.c1 p.c2).c0 = p.dist := rfl
  rw [hd] at h hfl
  obtain ⟨hml, j, hj, hu⟩ := C15_one_region rs hne hinc p.dist
  have hreg := (regionMasks_iff rs hne hinc p.dist j).1 hj
  obtain ⟨v, hfv, hlv⟩ := hv j (by have := hreg.1; omega)
  rw [masks_last] at h
  subst h
  refine ⟨?_, ?_, j, regs, v.1, v.2, hreg, hregs, hfv, ?_, ?_⟩
  · intro hlt
    simp only [decide_eq_true hlt, if_true]
    exact ⟨trivial, trivial⟩
  · intro hle
    have : ¬ rs.getLastD 0 < p.dist := not_lt.2 hle
    simp only [decide_eq_false this, Bool.false_eq_true, if_false]
    exact ⟨trivial, trivial⟩
  · simp only
    rw [maskedAssign_spec [] (regionMasks rs p.dist) (flds.map (·.1)) j v.1 hj (fun i hi => hu i hi) (by simp [hlv])]; rfl
  · simp only
    rw [maskedAssign_spec [] (regionMasks rs p.dist) (flds.map (·.2)) j v.2 hj (fun i hi => hu i hi) (by simp [hlv])]; rfl

/-- The hypotheses of C15 hold, and the three kinds of points occur. -/
example : strictlyIncreasing [1, 2] ∧ InRegion [1, 2] 0 1 ∧ InRegion [1, 2] 1 2 ∧ InRegion [1, 2] 2 3 := by
  refine ⟨⟨by norm_num, trivial⟩, ⟨by simp, by simp, by simp⟩, ⟨by simp, ?_, by simp⟩, ⟨by simp, ?_, by simp⟩⟩
  · intro i hi
    obtain rfl : i = 0 := by omega
    norm_num
  · intro i hi
    have : i = 0 ∨ i = 1 := by omega
    rcases this with rfl | rfl <;> norm_num

/-! ## C16 -/

/-- All six fields multiplied by `c`. -/
noncomputable def Fields.smul (c : ℂ) (F : Fields) : Fields :=
  ⟨F.Ei.smul c, F.Hi.smul c, F.Es.smul c, F.Hs.smul c, F.Et.smul c, F.Ht.smul c⟩

theorem V3.smul_smul (c d : ℂ) (v : V3 ℂ) : (v.smul d).smul c = v.smul (c * d) := by
  simp only [V3.smul, V3.mk.injEq]; refine ⟨?_, ?_, ?_⟩ <;> ring

theorem V3.smul_add (c : ℂ) (u v : V3 ℂ) : (u.add v).smul c = (u.smul c).add (v.smul c) := by
  simp only [V3.smul, V3.add, V3.mk.injEq]; refine ⟨?_, ?_, ?_⟩ <;> ring

theorem EnCoef_mul (c E0 : ℂ) (n : ℕ) : EnCoef (c * E0) n = c * EnCoef E0 n := by unfold EnCoef; ring

theorem fieldsSphToCart_smul (c : ℂ) (v : V3 ℂ) (t p : ℝ) :
    fieldsSphToCart (v.smul c) t p = (fieldsSphToCart v t p).smul c := by
  simp only [fieldsSphToCart, V3.smul, V3.mk.injEq]; refine ⟨?_, ?_, ?_⟩ <;> ring

theorem sumCart_smul (c : ℂ) (t p : ℝ) (l : List (V3 ℂ)) :
    sumCart t p (l.map (V3.smul c)) = (sumCart t p l).smul c := by
  have aux : ∀ (l : List (V3 ℂ)) (acc : V3 ℂ),
      (l.map (V3.smul c)).foldl (fun acc v => acc.add (fieldsSphToCart v t p)) (acc.smul c) =
        (l.foldl (fun acc v => acc.add (fieldsSphToCart v t p)) acc).smul c := by
    intro l
    induction l with
    | nil => intro acc; rfl
    | cons v l ih =>
      intro acc
      rw [List.map_cons, List.foldl_cons, List.foldl_cons, ← ih, fieldsSphToCart_smul, V3.smul_add]
  have := aux l V3.zero
  have hz : V3.zero.smul c = V3.zero := by simp [V3.smul, V3.zero]
  rw [hz] at this
  exact this

theorem regionField_smul (K : D1Kernel) (n : ℕ) (k0 m : ℂ) (r t p : ℝ) (c E0 : ℂ) (isOut : Bool) (rc : RegionCoefs)
    (eps : ℝ) : regionField K n k0 m r t p (c * E0) isOut rc eps =
      (regionField K n k0 m r t p E0 isOut rc eps).map fun f => (f.1.map (V3.smul c), f.2.map (V3.smul c)) := by
  unfold regionField
  simp only [Bind.bind, Except.bind]
  split
  · rfl
  split
  · rfl
  simp only [Except.map, List.map_map, Except.ok.injEq, Prod.mk.injEq, List.map_inj_left, Function.comp_apply]
  constructor <;> intro i _ <;> cases isOut <;>
    simp only [Bool.false_eq_true, if_false, if_true, outField, inField, EnCoef_mul, V3.smul_smul] <;> ring_nf

theorem maskedAssign_map {α β : Type*} (f : α → β) (z : α) (masks : List Bool) (vals : List α) :
    maskedAssign (f z) masks (vals.map f) = f (maskedAssign z masks vals) := by
  unfold maskedAssign
  induction masks generalizing z vals with
  | nil => rfl
  | cons m ms ih =>
    cases vals with
    | nil => rfl
    | cons v vs =>
      simp only [List.map_cons, List.zip_cons_cons, List.foldl_cons]
      cases m
      · exact ih z vs
      · exact ih v vs

theorem mapM_map_ok {α : Type*} (f g : ℕ → Py α) (h : α → α) (hg : ∀ i, g i = (f i).map h) (l : List ℕ) :
    l.mapM g = (l.mapM f).map (List.map h) := by
  induction l with
  | nil => rfl
  | cons i l ih =>
    simp only [List.mapM_cons, hg, ih, Bind.bind, Except.bind, pure, Except.pure, Except.map]
    cases f i with
    | error e => rfl
    | ok v =>
      simp only
      cases List.mapM f l <;> rfl

/-- C16: multiplying the incident amplitude by `c` multiplies all six fields by `c`, for every kernel, particle and
probe point; errors do not depend on the amplitude. -/
theorem C16_linear (K : D1Kernel) (k0 : ℂ) (rs : List ℝ) (es : List ℂ) (epsEnv c E0 : ℂ) (a b : List ℂ) (p : V3 ℝ)
    (epsilon : ℝ) : nearfieldsPena K k0 rs es epsEnv (c * E0) a b p epsilon =
      (nearfieldsPena K k0 rs es epsEnv E0 a b p epsilon).map (Fields.smul c) := by
  unfold nearfieldsPena
  simp only [Bind.bind, Except.bind]
  split
  · rfl
  rw [mapM_map_ok _ _ _ (fun i => regionField_smul K _ k0 _ _ _ _ c E0 _ _ epsilon)]
  generalize List.mapM (fun li => regionField K a.length k0 _ _ _ _ E0 _ _ epsilon) _ = res
  cases res with
  | error e => rfl
  | ok fl =>
    have e1 : (fl.map fun f => (f.1.map (V3.smul c), f.2.map (V3.smul c))).map (·.1) =
      (fl.map (·.1)).map (List.map (V3.smul c)) := by simp
    have e2 : (fl.map fun f => (f.1.map (V3.smul c), f.2.map (V3.smul c))).map (·.2) =
      (fl.map (·.2)).map (List.map (V3.smul c)) := by simp
    have i1 : ∀ k r t, incidentE (c * E0) k r t = (incidentE E0 k r t).smul c := by
      intro k r t; simp [incidentE, V3.smul, mul_assoc]
    have i2 : ∀ k n r t, incidentH (c * E0) k n r t = (incidentH E0 k n r t).smul c := by
      intro k n r t; simp [incidentH, V3.smul, mul_assoc]
    have m0 := fun (x : List Bool) (y : List (List (V3 ℂ))) => maskedAssign_map (List.map (V3.smul c)) [] x y
    simp only [List.map_nil] at m0
    simp only [Except.map, e1, e2, m0, sumCart_smul, i1, i2, Fields.smul, ← V3.smul_add]
    split <;> rfl

/-- The map is not constant: the incident field scales with the amplitude. -/
example : (incidentE 2 1 0 0).c0 ≠ (incidentE 1 1 0 0).c0 := by simp [incidentE]

end MieDiff
