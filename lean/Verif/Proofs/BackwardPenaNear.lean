import Verif.Model.BackwardPenaNear
import Verif.Props.BackwardNear
import Verif.Proofs.NearPenaFields

/-!
# Reverse mode through the near field of the pena backend

`Exact` for the kernels, the expansion coefficients of the regions, the fields of a region and the masked assignment.
-/

namespace MieDiff

open Complex Spec Filter Topology
open scoped RealInnerProductSpace

/-- No guard fires while the kernels are computed at `z` with depth `N`. -/
structure KerClear (n N : ℕ) (z : ℂ) : Prop where
  down : DepthClear (n + N) z
  up : KernelClear (depthFn n N) n z

/-- No guard fires when the coefficients are handed through an interface. -/
structure IfaceClear (n N : ℕ) (m m' x : ℂ) (isCore : Bool) : Prop where
  inner : KerClear n N (m * x)
  outer : KerClear n N (m' * x)
  denA : isCore = false → ∀ i, 1 ≤ i → i ≤ n →
    solverEps < ‖zetaFn (depthFn n N) (m * x) i * (depthFn n N (m * x) i - d3Fn (depthFn n N) (m * x) i)‖
  denC : ∀ i, 1 ≤ i → i ≤ n → solverEps < ‖psiFn (depthFn n N) (m * x) i * (depthFn n N (m * x) i - d3Fn (depthFn n N) (m * x) i)‖

/-- No guard fires in the recursion of the expansion coefficients. -/
def RegClear (n N : ℕ) : Bool → List (ℂ × ℂ) → Prop
  | _, [] => True
  | isCore, l :: rest => IfaceClear n N l.1 (nextIndex rest) l.2 isCore ∧ RegClear n N false rest

theorem RegClear.drop {n N : ℕ} : ∀ {layers : List (ℂ × ℂ)} {isCore : Bool}, RegClear n N isCore layers → ∀ j,
    RegClear n N (isCore && j == 0) (layers.drop j) := by
  intro layers
  induction layers with
  | nil => intro isCore _ j; simp [RegClear]
  | cons l rest ih =>
    intro isCore h j
    cases j with
    | zero => simpa using h
    | succ j =>
      have := ih h.2 j
      simpa using this

variable {V : Type*} [NormedAddCommGroup V] [InnerProductSpace ℝ V] {v0 : V}

namespace Node

variable {x y z : Node V} {f g : V → ℂ} {n N : ℕ}

theorem Exact.guard (h : Exact v0 x f) (h0 : solverEps < ‖f v0‖) : Exact v0 (Node.guard x) fun v => guardAdd solverEps (f v) := by
  have t := h.forget.guard
  exact ⟨t.val, t.adj ⟨trivial, by rw [h.forget.val]; exact h0.ne'⟩⟩

theorem guard_ne {c : ℂ} (h : solverEps < ‖c‖) : guardAdd solverEps c ≠ 0 := by
  rw [guardAdd_of_le h.le]
  exact ne_of_clear h

structure KerExact (v0 : V) (n : ℕ) (K : Ker V) (D : ℂ → ℕ → ℂ) (f : V → ℂ) : Prop where
  d1 : ∀ i ≤ n, Exact v0 (K.d1 i) fun v => D (f v) i
  d3 : ∀ i ≤ n, Exact v0 (K.d3 i) fun v => d3Fn D (f v) i
  psi : ∀ i ≤ n, Exact v0 (K.psi i) fun v => psiFn D (f v) i
  zeta : ∀ i ≤ n, Exact v0 (K.zeta i) fun v => zetaFn D (f v) i

theorem ker_exact (h : Tracks v0 z f) (ok : z.ok) (hc : KerClear n N (f v0)) : KerExact v0 n (ker n N z) (depthFn n N) f := by
  have g : Good z (f v0) := ⟨h.val, ok⟩
  have t1 := fun k => d1_tracks (n := n) (N := N) h k
  have g1 := d1_good hc.down g
  have t3 := fun k => d3_tracks h t1 k
  have g3 := fun j (hj : j ≤ n) => d3_good hc.up g g1 hj
  have tp := fun k => prodSeq_tracks h.sin h (G := fun v => depthFn n N (f v)) t1 k
  have tz := fun k => prodSeq_tracks (h.sin.sub ((Tracks.const I).mul h.cos)) h (G := fun v => d3Fn (depthFn n N) (f v)) t3 k
  have gp := prodSeq_good hc.up.arg g g.sin g1
  have gz := prodSeq_good hc.up.arg g (g.sin.sub ((Good.const I).mul g.cos)) (G := d3Fn (depthFn n N) (f v0)) g3
  exact ⟨fun i hi => (t1 i).exact (g1 i hi).ok, fun i hi => (t3 i).exact (g3 i hi).ok, fun i hi => (tp i).exact (gp i hi).ok,
    fun i hi => (tz i).exact (gz i hi).ok⟩

/-! ## Regions -/

/-- The recorded coefficients of a region. -/
structure RegExact (v0 : V) (n : ℕ) (g : Reg V) (G : V → RegFn) : Prop where
  a : ∀ i, 1 ≤ i → i ≤ n → Exact v0 (g.a i) fun v => (G v).a i
  b : ∀ i, 1 ≤ i → i ≤ n → Exact v0 (g.b i) fun v => (G v).b i
  c : ∀ i, 1 ≤ i → i ≤ n → Exact v0 (g.c i) fun v => (G v).c i
  d : ∀ i, 1 ≤ i → i ≤ n → Exact v0 (g.d i) fun v => (G v).d i

theorem extReg_exact {co : ℕ → Node V × Node V} {a b : V → ℕ → ℂ} (ha : ∀ i, 1 ≤ i → i ≤ n → Exact v0 (co i).1 fun v => a v i)
    (hb : ∀ i, 1 ≤ i → i ≤ n → Exact v0 (co i).2 fun v => b v i) : RegExact v0 n (extReg co) fun v => extFn (a v) (b v) := by
  refine ⟨fun i h1 hi => ?_, fun i h1 hi => ?_, fun i _ _ => Exact.const 1, fun i _ _ => Exact.const 1⟩
  · simp only [extReg, extFn, if_neg (show i ≠ 0 by omega)]
    exact ha i h1 hi
  · simp only [extReg, extFn, if_neg (show i ≠ 0 by omega)]
    exact hb i h1 hi

theorem regStep_exact {ml mlp1 xl : Node V} {fm fm' fx : V → ℂ} (hm : Tracks v0 ml fm) (okm : ml.ok) (hm' : Tracks v0 mlp1 fm') (okm' : mlp1.ok)
    (hx : Tracks v0 xl fx) (okx : xl.ok) {isCore : Bool} (hc : IfaceClear n N (fm v0) (fm' v0) (fx v0) isCore) {nxt : Reg V} {G : V → RegFn}
    (hn : RegExact v0 n nxt G) :
    RegExact v0 n (regStep n N ml mlp1 xl isCore nxt) fun v => nfStepFn (depthFn n N) (fm v) (fm' v) (fx v) isCore (G v) := by
  have K := ker_exact (n := n) (N := N) (hm.mul hx) ⟨okm, okx⟩ hc.inner
  have K' := ker_exact (n := n) (N := N) (hm'.mul hx) ⟨okm', okx⟩ hc.outer
  have h0 : fm' v0 ≠ 0 := left_ne_zero_of_mul (ne_of_clear hc.outer.up.arg)
  have mr := (hm.exact okm).div (hm'.exact okm') h0
  have T1 := fun i (h1 : 1 ≤ i) (hi : i ≤ n) => ((hn.a i h1 hi).mul (K'.zeta i hi)).sub ((hn.d i h1 hi).mul (K'.psi i hi))
  have T2 := fun i (h1 : 1 ≤ i) (hi : i ≤ n) => ((hn.b i h1 hi).mul (K'.zeta i hi)).sub ((hn.c i h1 hi).mul (K'.psi i hi))
  have T3 := fun i (h1 : 1 ≤ i) (hi : i ≤ n) => (((hn.d i h1 hi).mul (K'.d1 i hi)).mul (K'.psi i hi)).sub
    (((hn.a i h1 hi).mul (K'.d3 i hi)).mul (K'.zeta i hi))
  have T4 := fun i (h1 : 1 ≤ i) (hi : i ≤ n) => (((hn.c i h1 hi).mul (K'.d1 i hi)).mul (K'.psi i hi)).sub
    (((hn.b i h1 hi).mul (K'.d3 i hi)).mul (K'.zeta i hi))
  have U := fun i (hi : i ≤ n) => (K.d1 i hi).sub (K.d3 i hi)
  have dC := fun i (h1 : 1 ≤ i) (hi : i ≤ n) => ((K.psi i hi).mul (U i hi)).guard (hc.denC i h1 hi)
  have nC := fun i (h1 : 1 ≤ i) (hi : i ≤ n) => guard_ne (hc.denC i h1 hi)
  refine ⟨fun i h1 hi => ?_, fun i h1 hi => ?_, fun i h1 hi => ?_, fun i h1 hi => ?_⟩
  · cases hb : isCore
    · have h := hc.denA hb i h1 hi
      exact (((K.d1 i hi).mul (T1 i h1 hi)).add ((T3 i h1 hi).mul mr)).div (((K.zeta i hi).mul (U i hi)).guard h) (guard_ne h)
    · exact Exact.const 0
  · cases hb : isCore
    · have h := hc.denA hb i h1 hi
      exact ((((K.d1 i hi).mul (T2 i h1 hi)).mul mr).add (T4 i h1 hi)).div (((K.zeta i hi).mul (U i hi)).guard h) (guard_ne h)
    · exact Exact.const 0
  · exact ((((K.d3 i hi).mul (T2 i h1 hi)).mul mr).add (T4 i h1 hi)).div (dC i h1 hi) (nC i h1 hi)
  · exact (((K.d3 i hi).mul (T1 i h1 hi)).add ((T3 i h1 hi).mul mr)).div (dC i h1 hi) (nC i h1 hi)

/-- Recorded layers. -/
def LExact (v0 : V) (ls : List (Node V × Node V)) (lf : LayerFam V) : Prop :=
  List.Forall₂ (fun l f => (Tracks v0 l.1 f.1 ∧ l.1.ok) ∧ (Tracks v0 l.2 f.2 ∧ l.2.ok)) ls lf

theorem nextIdx_tracks {ls : List (Node V × Node V)} {lf : LayerFam V} (h : LExact v0 ls lf) :
    Tracks v0 (nextIdx ls) (fun v => nextIndex (lf.at' v)) ∧ (nextIdx ls).ok := by
  cases h with
  | nil => exact ⟨Tracks.const 1, trivial⟩
  | cons h1 _ => exact h1.1

theorem region_exact {ext : Reg V} {G : V → RegFn} (he : RegExact v0 n ext G) {ls : List (Node V × Node V)} {lf : LayerFam V}
    (h : LExact v0 ls lf) : ∀ isCore, RegClear n N isCore (lf.at' v0) →
      RegExact v0 n (region n N ext isCore ls) fun v => nfFn (depthFn n N) (G v) isCore (lf.at' v) := by
  unfold LExact at h
  induction h with
  | nil => intro _ _; exact he
  | cons h1 hr ih =>
    intro isCore hc
    obtain ⟨t, ok⟩ := nextIdx_tracks hr
    exact regStep_exact h1.1.1 h1.1.2 t ok h1.2.1 h1.2.2 hc.1 (ih false hc.2)

/-! ## Fields -/

theorem vshPenaAt_exact {s : V3 (Node V)} {P : V → V3 ℝ} (hs : SphExact v0 s P) {k0 nm : Node V} {fk fm : V → ℂ} (hk : Tracks v0 k0 fk)
    (ok1 : k0.ok) (hm : Tracks v0 nm fm) (ok2 : nm.ok) (hc : KerClear n N (rhoFn fk fm P v0)) (kind : ℤ) {i : ℕ} (hi : i < n) :
    VshExact v0 (Node.vshPenaAt n N k0 nm s.c0 s.c1 s.c2 kind (i + 1)) fun v =>
      vshPenaVal (depthFn n N) n i kind (P v).c1 (P v).c2 (fk v * fm v * ((P v).c0 : ℂ) + ((1e-8 : ℝ) : ℂ)) := by
  have tr := ((hk.mul hm).mul hs.tracks).add (Tracks.const ((1e-8 : ℝ) : ℂ))
  have ok : (Node.add (Node.mul (Node.mul k0 nm) s.c0) (Node.const ((1e-8 : ℝ) : ℂ))).ok := ⟨⟨⟨ok1, ok2⟩, hs.ok⟩, trivial⟩
  have K := ker_exact (n := n) (N := N) (f := rhoFn fk fm P) tr ok hc
  have er : Exact v0 _ (rhoFn fk fm P) := tr.exact ok
  have h0 : rhoFn fk fm P v0 ≠ 0 := ne_of_clear hc.up.arg
  have e : ∀ theta : ℝ, piTau n (Real.cos theta) = _ := fun theta => piTau_eq n (by omega) _
  unfold vshPenaVal vshPenaAt
  simp only [e, okD, tab_getD (show i + 1 ≤ n from hi)]
  by_cases hk1 : kind = 1
  · simp only [if_pos hk1]
    have zn := (K.psi (i + 1) hi).div er h0
    exact vshOf_exact hs er h0 zn ((K.d1 (i + 1) hi).mul zn) (i + 1)
  · simp only [if_neg hk1]
    have zn := (K.zeta (i + 1) hi).div er h0
    exact vshOf_exact hs er h0 zn ((K.d3 (i + 1) hi).mul zn) (i + 1)

theorem regionFields_exact {s : V3 (Node V)} {P : V → V3 ℝ} (hs : SphExact v0 s P) {k0 nm : Node V} {fk fm : V → ℂ} (hk : Tracks v0 k0 fk)
    (ok1 : k0.ok) (hm : Tracks v0 nm fm) (ok2 : nm.ok) (hc : KerClear n N (rhoFn fk fm P v0)) (E0 : ℂ) (isOut : Bool) {g : Reg V} {G : V → RegFn}
    (hg : RegExact v0 n g G) {i : ℕ} (hi : i < n) :
    Exact3 v0 (regionFields n N k0 nm s.c0 s.c1 s.c2 E0 isOut g (i + 1)).1 (fun v =>
      (orderP (depthFn n N) n E0 (fk v) (fm v) (P v).c0 (P v).c1 (P v).c2 isOut (G v) 1e-8 i).1) ∧
    Exact3 v0 (regionFields n N k0 nm s.c0 s.c1 s.c2 E0 isOut g (i + 1)).2 (fun v =>
      (orderP (depthFn n N) n E0 (fk v) (fm v) (P v).c0 (P v).c1 (P v).c2 isOut (G v) 1e-8 i).2) := by
  have v1 := vshPenaAt_exact hs hk ok1 hm ok2 hc 1 hi
  have v3 := vshPenaAt_exact hs hk ok1 hm ok2 hc 3 hi
  have En : Exact v0 (Node.const (EnCoef E0 (i + 1))) fun _ => EnCoef E0 (i + 1) := Exact.const _
  have j : Exact v0 (Node.const I) fun _ => I := Exact.const _
  have nm := hm.exact ok2
  have a := hg.a (i + 1) (by omega) hi
  have b := hg.b (i + 1) (by omega) hi
  have c := hg.c (i + 1) (by omega) hi
  have d := hg.d (i + 1) (by omega) hi
  have sm : ∀ (c : ℂ) (w : V3 ℂ), V3.smul (-1) (V3.smul c w) = V3.smul (-c) w := fun c w => by simp [V3.smul]
  unfold regionFields orderP
  cases isOut
  · refine ⟨(Exact3.scale En ((((Exact3.scale c v1.Mo).sub (Exact3.scale (j.mul d) v1.Ne)).add (Exact3.scale (j.mul a) v3.Ne)).sub
      (Exact3.scale b v3.Mo))).congr (Eventually.of_forall fun v => ?_),
      (Exact3.scale (nm.neg.mul En) ((((Exact3.scale d v1.Me).add (Exact3.scale (j.mul c) v1.No)).sub (Exact3.scale (j.mul b) v3.No)).sub
      (Exact3.scale a v3.Me))).congr (Eventually.of_forall fun v => ?_)⟩
    · simp only [Bool.false_eq_true, if_false, inField, sm]
    · simp only [Bool.false_eq_true, if_false, inField, sm]
  · refine ⟨(Exact3.scale En ((Exact3.scale (j.mul a) v3.Ne).sub (Exact3.scale b v3.Mo))).congr (Eventually.of_forall fun v => ?_),
      (Exact3.scale (nm.mul En) ((Exact3.scale (j.mul b) v3.No).add (Exact3.scale a v3.Me))).congr (Eventually.of_forall fun v => ?_)⟩
    · simp only [if_true, outField, sm]
    · simp only [if_true, outField]

theorem maskedFold_exact {ι : Type} (ms : List Bool) (l : List ι) {u : ι → V3 (Node V)} {F : ι → V → V3 ℂ}
    (h : ∀ j ∈ l, Exact3 v0 (u j) (F j)) :
    Exact3 v0 (maskedFold ms (l.map u)) fun v => maskedAssign V3.zero ms (l.map fun j => F j v) := by
  unfold maskedFold maskedAssign
  have key : ∀ (l : List ι) (ms : List Bool), (∀ j ∈ l, Exact3 v0 (u j) (F j)) → ∀ {a : V3 (Node V)} {A : V → V3 ℂ}, Exact3 v0 a A →
      Exact3 v0 ((ms.zip (l.map u)).foldl (fun acc mv => where3 (mv.1 = true) mv.2 acc) a) fun v =>
        (ms.zip (l.map fun j => F j v)).foldl (fun acc mv => if mv.1 then mv.2 else acc) (A v) := by
    intro l
    induction l with
    | nil => intro ms _ a A ha; cases ms <;> simpa using ha
    | cons j l ih =>
      intro ms h a A ha
      cases ms with
      | nil => simpa using ha
      | cons b ms => exact ih ms (fun i hi => h i (List.mem_cons_of_mem _ hi)) ((h j (by simp)).where3 ha (b = true))
  exact key l ms h (A := fun _ => V3.zero) ⟨Exact.const 0, Exact.const 0, Exact.const 0⟩

end Node

/-! ## Masks -/

omit [InnerProductSpace ℝ V] in
/-- Away from the interfaces the masks do not change. -/
theorem regionMasks_near {rs : List (V → ℝ)} {s : V → ℝ} (h0 : rs ≠ []) (hs : ContinuousAt s v0) (hr : ∀ r ∈ rs, ContinuousAt r v0)
    (hne : ∀ r ∈ rs, s v0 ≠ r v0) : ∀ᶠ v in 𝓝 v0, regionMasks (rs.map (· v)) (s v) = regionMasks (rs.map (· v0)) (s v0) := by
  have all : ∀ᶠ v in 𝓝 v0, ∀ r ∈ rs, (r v < s v ↔ r v0 < s v0) ∧ (s v ≤ r v ↔ s v0 ≤ r v0) := by
    have := (eventually_all_finite (I := {r | r ∈ rs}) (List.finite_toSet rs)).2 fun r hr' => Node.lt_near (hr r hr') hs (hne r hr')
    exact this
  filter_upwards [all] with v hv
  unfold regionMasks
  have g : ∀ i < rs.length, ∃ r ∈ rs, ∀ w, (rs.map (· w)).getD i 0 = r w := fun i hi =>
    ⟨rs[i], List.getElem_mem hi, fun w => by simp [List.getD_eq_getElem?_getD, hi]⟩
  have gl : ∃ r ∈ rs, ∀ w, (rs.map (· w)).getLastD 0 = r w := by
    obtain ⟨b, hb⟩ := Option.isSome_iff_exists.1 (List.getLast?_isSome.2 h0)
    refine ⟨b, List.mem_of_getLast? hb, fun w => ?_⟩
    rw [List.getLastD_eq_getLast?, List.getLast?_map, hb]
    rfl
  congr 1
  · simp only [List.length_map]
    refine List.map_congr_left fun i hi => ?_
    have hi := List.mem_range.1 hi
    obtain ⟨r0, m0, e0⟩ := g 0 (by omega)
    obtain ⟨r1, m1, e1⟩ := g i hi
    obtain ⟨r2, m2, e2⟩ := g (i - 1) (by omega)
    simp only [e0, e1, e2, (hv r0 m0).2, (hv r1 m1).2, (hv r2 m2).1]
  · obtain ⟨r, m, e⟩ := gl
    simp only [e, (hv r m).1]

end MieDiff
