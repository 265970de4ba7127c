import Verif.Model.BackwardDisp
import Verif.Props.Backward
import Verif.Props.Materials

/-!
# Backward pass of the material models
-/

namespace MieDiff

open Complex Spec Filter Topology
open scoped RealInnerProductSpace

variable {V : Type} [NormedAddCommGroup V] [InnerProductSpace ℝ V] {v0 : V}

namespace Node

theorem Adj.additive {b : ℂ → V} {f : V → ℂ} (h : Adj v0 b f) (s t : ℂ) : b (s + t) = b s + b t := by
  obtain ⟨f', -, hb⟩ := h
  refine ext_inner_right ℝ fun v => ?_
  rw [inner_add_left, hb, hb, hb, map_add, add_mul, add_re]

section Pair

variable {x : Node V} {t : ℝ} {l r p : ℝ × ℂ}

theorem neg_of_add (hadd : ∀ s s', x.back (s + s') = x.back s + x.back s') (s : ℂ) : x.back (-s) = -x.back s := by
  have h0 : x.back 0 = 0 := by simpa using hadd 0 0
  have := hadd s (-s)
  rw [add_neg_cancel, h0] at this
  exact (neg_eq_of_add_eq_zero_right this.symm).symm

omit [InnerProductSpace ℝ V] in
theorem clampNeg_nonneg (h : 0 ≤ x.val.re) : clampNeg x = ⟨x.val, x.back, x.req, x.ok ∧ x.val.re ≠ 0⟩ := by
  simp [clampNeg, Node.where', Node.const, not_lt.2 h]

omit [InnerProductSpace ℝ V] in
theorem clampNeg_neg (h0 : x.back 0 = 0) (h : x.val.re < 0) : clampNeg x = ⟨0, fun _ => 0, x.req, x.ok ∧ x.val.re ≠ 0⟩ := by
  simp [clampNeg, Node.where', Node.const, h, h0]

omit [InnerProductSpace ℝ V] in
theorem whereOne_false {c : Prop} [Decidable c] (h : ¬c) : where' c (Node.const 1) x = ⟨x.val, x.back, x.req, True ∧ x.ok⟩ := by
  simp [Node.where', Node.const, h]

omit [InnerProductSpace ℝ V] in
theorem whereOne_true {c : Prop} [Decidable c] (h0 : x.back 0 = 0) (h : c) :
    where' c (Node.const 1) x = ⟨1, fun _ => 0, x.req, True ∧ x.ok⟩ := by
  simp [Node.where', Node.const, h, h0]

/-- Between two rows the gradient is multiplied by the slope. -/
theorem interpPair_between (hx : x.val = (t : ℂ)) (hadd : ∀ s s', x.back (s + s') = x.back s + x.back s') (hl : l.1 < t) (hr : t ≤ r.1) :
    (interpPair x l r).val = (l.2 * (r.1 - t) + r.2 * (t - l.1)) / (r.1 - l.1) ∧
    (∀ s, (interpPair x l r).back s = x.back (s * (starRingEnd ℂ) ((r.2 - l.2) / (r.1 - l.1)))) ∧
    (interpPair x l r).req = x.req ∧ (x.ok → t < r.1 → (interpPair x l r).ok) := by
  have hL : clampNeg (Node.sub x (Node.const l.1)) = _ := clampNeg_nonneg (by simp [Node.sub, Node.const, hx]; linarith)
  have hR : clampNeg (Node.sub (Node.const r.1) x) = _ := clampNeg_nonneg (by simp [Node.sub, Node.const, hx]; linarith)
  have hd : ((r.1 : ℂ) - (l.1 : ℂ)) ≠ 0 := by
    rw [← ofReal_sub]; exact_mod_cast (by linarith : r.1 - l.1 ≠ 0)
  have hlx : ((t : ℂ) - (l.1 : ℂ)) ≠ 0 := by
    rw [← ofReal_sub]; exact_mod_cast (by linarith : t - l.1 ≠ 0)
  have hs : (t : ℂ) - (l.1 : ℂ) + ((r.1 : ℂ) - (t : ℂ)) = (r.1 : ℂ) - (l.1 : ℂ) := by ring
  unfold interpPair
  simp only [hL, hR]
  rw [whereOne_false (by simp only [Node.sub, Node.const, hx]; exact fun h => hlx h.1)]
  simp only [Node.div, Node.add, Node.mul, Node.sub, Node.const, zero_add, add_zero, ← hadd, hx, hs]
  refine ⟨by simp, fun s => ?_, by simp, fun ok ht => ?_⟩
  · congr 1
    simp only [map_div₀, map_sub, map_add, map_mul, conj_ofReal]
    field_simp
    ring
  · have e1 : ((t : ℂ) - (l.1 : ℂ)).re ≠ 0 := by simp; linarith
    have e2 : ((r.1 : ℂ) - (t : ℂ)).re ≠ 0 := by simp; linarith
    tauto

/-- Outside the table (and at its first row) no gradient is handed on. -/
theorem interpPair_outside (hx : x.val = (t : ℂ)) (hadd : ∀ s s', x.back (s + s') = x.back s + x.back s') :
    (interpPair x p p).val = p.2 ∧ (∀ s, (interpPair x p p).back s = 0) ∧ (interpPair x p p).req = x.req ∧
    (x.ok → t ≠ p.1 → (interpPair x p p).ok) := by
  have h0 : x.back 0 = 0 := by simpa using hadd 0 0
  have hneg := neg_of_add hadd
  rcases lt_trichotomy t p.1 with ht | ht | ht
  · have hL : clampNeg (Node.sub x (Node.const p.1)) = _ :=
      clampNeg_neg (by simp [Node.sub, Node.const, h0]) (by simp [Node.sub, Node.const, hx]; linarith)
    have hR : clampNeg (Node.sub (Node.const p.1) x) = _ := clampNeg_nonneg (by simp [Node.sub, Node.const, hx]; linarith)
    have hd : ((p.1 : ℂ) - (t : ℂ)) ≠ 0 := by
      rw [← ofReal_sub]; exact_mod_cast (by linarith : p.1 - t ≠ 0)
    unfold interpPair
    simp only [hL, hR]
    rw [whereOne_false (by simp only [Node.sub, Node.const, hx]; exact fun h => hd h.2)]
    simp only [Node.div, Node.add, Node.mul, Node.sub, Node.const, zero_add, add_zero, mul_zero, ← hadd, hx]
    refine ⟨by rw [mul_div_assoc, div_self hd, mul_one], fun s => ?_, by simp, fun ok _ => ?_⟩
    · rw [← h0]
      congr 1
      simp only [map_div₀, map_sub, map_mul, conj_ofReal]
      field_simp
      ring
    · have e1 : ((t : ℂ) - (p.1 : ℂ)).re ≠ 0 := by simp; linarith
      have e2 : ((p.1 : ℂ) - (t : ℂ)).re ≠ 0 := by simp; linarith
      tauto
  · have hL : clampNeg (Node.sub x (Node.const p.1)) = _ := clampNeg_nonneg (by simp [Node.sub, Node.const, hx, ht])
    have hR : clampNeg (Node.sub (Node.const p.1) x) = _ := clampNeg_nonneg (by simp [Node.sub, Node.const, hx, ht])
    unfold interpPair
    simp only [hL, hR]
    rw [whereOne_true (by simp [Node.sub, Node.const, h0]) (by simp [Node.sub, Node.const, hx, ht])]
    refine ⟨by simp [Node.div, Node.add, Node.mul, Node.sub, Node.const, hx, ht], fun s => ?_,
      by simp [Node.div, Node.add, Node.mul, Node.sub, Node.const], fun _ h => absurd ht h⟩
    simp [Node.div, Node.add, Node.mul, Node.sub, Node.const, hx, ht, hneg]
  · have hL : clampNeg (Node.sub x (Node.const p.1)) = _ := clampNeg_nonneg (by simp [Node.sub, Node.const, hx]; linarith)
    have hR : clampNeg (Node.sub (Node.const p.1) x) = _ :=
      clampNeg_neg (by simp [Node.sub, Node.const, h0]) (by simp [Node.sub, Node.const, hx]; linarith)
    have hd : ((t : ℂ) - (p.1 : ℂ)) ≠ 0 := by
      rw [← ofReal_sub]; exact_mod_cast (by linarith : t - p.1 ≠ 0)
    unfold interpPair
    simp only [hL, hR]
    rw [whereOne_false (by simp only [Node.sub, Node.const, hx]; exact fun h => hd h.1)]
    simp only [Node.div, Node.add, Node.mul, Node.sub, Node.const, zero_add, add_zero, mul_zero, ← hadd, hx]
    refine ⟨by rw [mul_div_assoc, div_self hd, mul_one], fun s => ?_, by simp, fun ok _ => ?_⟩
    · rw [← h0]
      congr 1
      simp only [map_div₀, map_sub, map_mul, conj_ofReal]
      field_simp
      ring
    · have e1 : ((t : ℂ) - (p.1 : ℂ)).re ≠ 0 := by simp; linarith
      have e2 : ((p.1 : ℂ) - (t : ℂ)).re ≠ 0 := by simp; linarith
      tauto

end Pair

/-! ## The table -/

theorem bucketize_congr {a b : ℝ} : ∀ {xs : List ℝ}, (∀ x ∈ xs, x < a ↔ x < b) → bucketize a xs = bucketize b xs
  | [], _ => rfl
  | x :: xs, h => by
    have ih := bucketize_congr (xs := xs) fun y hy => h y (List.mem_cons_of_mem _ hy)
    unfold bucketize at ih ⊢
    have hx := h x (by simp)
    by_cases hc : x < a
    · have hc' := hx.1 hc
      simp [List.takeWhile_cons, hc, hc', ih]
    · have hc' : ¬ x < b := fun h => hc (hx.2 h)
      simp [List.takeWhile_cons, hc, hc']

/-- The rows that a lookup uses. -/
theorem interpIdx_cases (t : ℝ) (s : List (ℝ × ℂ)) (hne : s ≠ []) :
    ∃ l r, s[(interpIdx t s).1]? = some l ∧ s[(interpIdx t s).2]? = some r ∧
      ((l = r ∧ t ≤ l.1 ∧ s[0]? = some l) ∨ (l = r ∧ l.1 < t ∧ s[s.length - 1]? = some l) ∨ (l.1 < t ∧ t ≤ r.1)) := by
  obtain ⟨hk, hlt, hge⟩ := bucketize_spec t (s.map Prod.fst)
  have hlen : 0 < s.length := List.length_pos_iff.2 hne
  rw [List.length_map] at hk
  have hlt' : ∀ i : ℕ, i < bucketize t (s.map Prod.fst) → ∀ v, s[i]? = some v → v.1 < t := fun i hi v hv =>
    hlt i hi v.1 (by rw [List.getElem?_map, hv]; rfl)
  have hge' : ∀ v, s[bucketize t (s.map Prod.fst)]? = some v → t ≤ v.1 := fun v hv =>
    hge v.1 (by rw [List.getElem?_map, hv]; rfl)
  unfold interpIdx
  simp only
  generalize bucketize t (s.map Prod.fst) = k at *
  rcases Nat.eq_zero_or_pos k with rfl | hk0
  · have h0 : s[0]? = some s[0] := List.getElem?_eq_getElem hlen
    have i1 : (min (max (((0 : ℕ) : ℤ)) 0) ((s.length : ℤ) - 1)).toNat = 0 := by omega
    have i2 : (min (max (((0 : ℕ) : ℤ) - 1) 0) ((s.length : ℤ) - 1)).toNat = 0 := by omega
    exact ⟨s[0], s[0], by rw [i2, h0], by rw [i1, h0], .inl ⟨rfl, hge' _ h0, h0⟩⟩
  · rcases hk.eq_or_lt with rfl | hkl
    · have h0 : s[s.length - 1]? = some (s[s.length - 1]'(by omega)) := List.getElem?_eq_getElem (by omega)
      have i1 : (min (max ((s.length : ℤ)) 0) ((s.length : ℤ) - 1)).toNat = s.length - 1 := by omega
      have i2 : (min (max ((s.length : ℤ) - 1) 0) ((s.length : ℤ) - 1)).toNat = s.length - 1 := by omega
      exact ⟨_, _, by rw [i2, h0], by rw [i1, h0], .inr (.inl ⟨rfl, hlt' (s.length - 1) (by omega) _ h0, h0⟩)⟩
    · have h0 : s[k - 1]? = some (s[k - 1]'(by omega)) := List.getElem?_eq_getElem (by omega)
      have h1 : s[k]? = some (s[k]'(by omega)) := List.getElem?_eq_getElem (by omega)
      have i1 : (min (max ((k : ℤ)) 0) ((s.length : ℤ) - 1)).toNat = k := by omega
      have i2 : (min (max ((k : ℤ) - 1) 0) ((s.length : ℤ) - 1)).toNat = k - 1 := by omega
      exact ⟨_, _, by rw [i2, h0], by rw [i1, h1], .inr (.inr ⟨hlt' (k - 1) (by omega) _ h0, hge' _ h1⟩)⟩

theorem interpSorted_idx {t : ℝ} {s : List (ℝ × ℂ)} {l r : ℝ × ℂ} (h1 : s[(interpIdx t s).1]? = some l)
    (h2 : s[(interpIdx t s).2]? = some r) : interpSorted t s =
      .ok ((l.2 * ((interpWeights t l.1 r.1).2 : ℂ) + r.2 * ((interpWeights t l.1 r.1).1 : ℂ)) /
        (((interpWeights t l.1 r.1).1 + (interpWeights t l.1 r.1).2 : ℝ) : ℂ)) := by
  unfold interpSorted
  unfold interpIdx at h1 h2
  simp only at h1 h2 ⊢
  rw [h1, h2]

section Recorded

variable [CompleteSpace V] {x : Node V} {w : V → ℝ} {f : V → ℂ}

theorem Recorded.additive {f : V → ℂ} (h : Recorded v0 x f) (s s' : ℂ) : x.back (s + s') = x.back s + x.back s' :=
  Adj.additive (adj_iff.2 h.backward) s s'

theorem Recorded.continuousAt {f : V → ℂ} (h : Recorded v0 x f) : ContinuousAt f v0 := (adj_iff.2 h.backward).cont

theorem Recorded.real_cont (h : Recorded v0 x fun v => (w v : ℂ)) : ContinuousAt w v0 := by
  have := continuous_re.continuousAt.comp h.continuousAt
  simpa [Function.comp_def] using this

/-- Away from the rows of the table, the interpolated value is recorded with the right gradient. -/
theorem interp1d_recorded {dat : List (ℝ × ℂ)} (hx : Recorded v0 x fun v => (w v : ℂ)) (hoff : ∀ p ∈ dat, p.1 ≠ w v0)
    (hf : ∀ v, MieDiff.interp1d (w v) dat = .ok (f v)) : ∃ y, Node.interp1d x dat = .ok y ∧ Recorded v0 y f := by
  have hs := sortOf_mergeSort dat
  have hfs : ∀ v, interpSorted (w v) (dat.mergeSort fun a b => decide (a.1 ≤ b.1)) = .ok (f v) := hf
  unfold Node.interp1d
  simp only
  generalize dat.mergeSort (fun a b => decide (a.1 ≤ b.1)) = s at hs hfs
  have hne : s ≠ [] := by
    rintro rfl
    have := hfs v0
    simp [interpSorted] at this
  have hoff' : ∀ p ∈ s, p.1 ≠ w v0 := fun p hp => hoff p (hs.perm.mem_iff.1 hp)
  have hv : x.val = (w v0 : ℂ) := hx.value
  have hcont := hx.real_cont
  have hidx : ∀ᶠ v in 𝓝 v0, interpIdx (w v) s = interpIdx (w v0) s := by
    have : ∀ᶠ v in 𝓝 v0, ∀ p ∈ s, (p.1 < w v ↔ p.1 < w v0) := by
      have hfin : ∀ l : List (ℝ × ℂ), (∀ p ∈ l, p.1 ≠ w v0) → ∀ᶠ v in 𝓝 v0, ∀ p ∈ l, (p.1 < w v ↔ p.1 < w v0) := by
        intro l
        induction l with
        | nil => intro _; simp
        | cons p l ih =>
          intro hl
          have h1 : ∀ᶠ v in 𝓝 v0, (p.1 < w v ↔ p.1 < w v0) := by
            rcases lt_or_gt_of_ne (hl p (by simp)) with hlt | hgt
            · filter_upwards [hcont.eventually_const_lt hlt] with v hv
              simp [hv, hlt]
            · filter_upwards [hcont.eventually_lt_const hgt] with v hv
              simp [not_lt.2 hv.le, not_lt.2 hgt.le]
          filter_upwards [h1, ih fun q hq => hl q (List.mem_cons_of_mem _ hq)] with v a b q hq
          rcases List.mem_cons.1 hq with rfl | hq
          · exact a
          · exact b q hq
      exact hfin s hoff'
    filter_upwards [this] with v hv
    unfold interpIdx
    rw [bucketize_congr (a := w v) (b := w v0)]
    intro y hy
    obtain ⟨p, hp, rfl⟩ := List.mem_map.1 hy
    exact hv p hp
  have hre : x.val.re = w v0 := by rw [hv, ofReal_re]
  obtain ⟨l, r, h1, h2, hcase⟩ := interpIdx_cases (w v0) s hne
  refine ⟨interpPair x l r, by rw [hre, h1, h2], ?_⟩
  have hadd := hx.additive
  have hval : ∀ᶠ v in 𝓝 v0, f v = (l.2 * ((interpWeights (w v) l.1 r.1).2 : ℂ) + r.2 * ((interpWeights (w v) l.1 r.1).1 : ℂ)) /
      (((interpWeights (w v) l.1 r.1).1 + (interpWeights (w v) l.1 r.1).2 : ℝ) : ℂ) := by
    filter_upwards [hidx] with v hv
    have := interpSorted_idx (t := w v) (s := s) (by rw [hv]; exact h1) (by rw [hv]; exact h2)
    rw [hfs v] at this
    exact Except.ok.inj this
  have hconst : l = r → ∀ᶠ v in 𝓝 v0, f v = l.2 := by
    rintro rfl
    filter_upwards [hval] with v hv
    rw [hv, ← mul_add, mul_div_assoc, add_comm ((_ : ℝ) : ℂ), ← ofReal_add, div_self, mul_one]
    exact_mod_cast (interpWeights_pos _ _ _).2.2.ne'
  have hfro : x.req = false → ∀ v, f v = f v0 := fun hr v => by
    have h1 : (w v : ℂ) = w v0 := hx.frozen hr v
    have h2 : w v = w v0 := by exact_mod_cast h1
    have h3 := hf v
    rw [h2, hf v0] at h3
    exact (Except.ok.inj h3).symm
  have outside : l = r → Recorded v0 (interpPair x l r) f := by
    rintro rfl
    obtain ⟨e1, e2, e3, e4⟩ := interpPair_outside (p := l) hv hadd
    have hc := hconst rfl
    refine ⟨by rw [e1, hc.self_of_nhds], ?_, e4 hx.regular (hoff' l (List.mem_of_getElem? h1)).symm, fun hr => hfro (by rw [← e3]; exact hr)⟩
    refine Vjp.congr (f := fun _ => l.2) (fun s => ?_) hc
    rw [e2]
    exact hasGradientAt_const v0 _
  rcases hcase with ⟨he, -, -⟩ | ⟨he, -, -⟩ | ⟨hl, hr⟩
  · exact outside he
  · exact outside he
  · have hr' : w v0 < r.1 := lt_of_le_of_ne hr (hoff' r (List.mem_of_getElem? h2)).symm
    obtain ⟨e1, e2, e3, e4⟩ := interpPair_between hv hadd hl hr
    have hc : ∀ᶠ v in 𝓝 v0, f v = (l.2 * (r.1 - (w v : ℂ)) + r.2 * ((w v : ℂ) - l.1)) / (r.1 - l.1) := by
      filter_upwards [hval, hcont.eventually_const_lt hl, hcont.eventually_lt_const hr'] with v hv a b
      rw [hv, interpWeights_between a b.le]
      push_cast
      congr 1
      ring
    refine ⟨by rw [e1, hc.self_of_nhds], ?_, e4 hx.regular hr', fun hq => hfro (by rw [← e3]; exact hq)⟩
    have hd : HasDerivAt (fun z : ℂ => (l.2 * (r.1 - z) + r.2 * (z - l.1)) / ((r.1 : ℂ) - l.1)) ((r.2 - l.2) / (r.1 - l.1)) (w v0 : ℂ) := by
      have ha : HasDerivAt (fun z : ℂ => l.2 * (r.1 - z)) (l.2 * (0 - 1)) (w v0 : ℂ) :=
        ((hasDerivAt_const _ _).sub (hasDerivAt_id _)).const_mul _
      have hb : HasDerivAt (fun z : ℂ => r.2 * (z - l.1)) (r.2 * (1 - 0)) (w v0 : ℂ) :=
        ((hasDerivAt_id _).sub (hasDerivAt_const _ _)).const_mul _
      refine ((ha.add hb).div_const _).congr_deriv ?_
      ring
    have := (adj_iff.2 hx.backward).comp (φ := fun z : ℂ => (l.2 * (r.1 - z) + r.2 * (z - l.1)) / ((r.1 : ℂ) - l.1)) hd
    refine Vjp.congr (f := fun v => (l.2 * (r.1 - (w v : ℂ)) + r.2 * ((w v : ℂ) - l.1)) / (r.1 - l.1)) ?_ hc
    rw [funext e2]
    exact adj_iff.1 this

/-! ## The Sellmeier formula -/

theorem sellmeier_fold {cs : List ℝ} (hx : Recorded v0 x fun v => (w v : ℂ)) :
    ∀ (is : List ℕ) (e : Node V) (f0 : V → ℝ) (f : V → ℝ), Recorded v0 e (fun v => (f0 v : ℂ)) →
      (∀ i ∈ is, ∀ c, cs[i + 1]? = some c → (w v0 / 1000) ^ 2 ≠ c ^ 2) →
      (∀ v, is.foldlM (fun eps i => (do
        let c1 ← pyIdx cs i
        let c2 ← pyIdx cs (i + 1)
        .ok (eps + MieDiff.sellTerm c1 c2 (w v / 1000)) : Py ℝ)) (f0 v) = .ok (f v)) →
      ∃ y, is.foldlM (fun eps i => (do
        let c1 ← pyIdx cs i
        let c2 ← pyIdx cs (i + 1)
        .ok (add eps (Node.sellTerm c1 c2 (div x (Node.const 1000)))) : Py (Node V))) e = .ok y ∧ Recorded v0 y fun v => (f v : ℂ)
  | [], e, f0, f, he, _, hf => by
    refine ⟨e, rfl, ?_⟩
    have : f = f0 := funext fun v => by
      have := hf v
      simpa [pure, Except.pure] using this.symm
    rwa [this]
  | i :: is, e, f0, f, he, hp, hf => by
    simp only [List.foldlM_cons] at hf ⊢
    rcases h1 : pyIdx cs i with err | c1
    · have := hf v0
      rw [h1] at this
      simp [Bind.bind, Except.bind] at this
    · rcases h2 : pyIdx cs (i + 1) with err | c2
      · have := hf v0
        rw [h1, h2] at this
        simp [Bind.bind, Except.bind] at this
      · rw [h1, h2] at hf
        have hc2 : cs[i + 1]? = some c2 := by
          unfold pyIdx at h2
          split at h2
          · simp_all
          · simp at h2
        have hpole := hp i (by simp) c2 hc2
        have hw := hx.tracks.div (Tracks.const (v0 := v0) 1000)
        have t := he.tracks.add (((Tracks.const (v0 := v0) (c1 : ℂ)).mul hw.sq).div (hw.sq.sub (Tracks.const (v0 := v0) ((c2 ^ 2 : ℝ) : ℂ))))
        have hden : ((w v0 : ℂ) / 1000) ^ 2 - ((c2 ^ 2 : ℝ) : ℂ) ≠ 0 := by
          intro h
          apply hpole
          have : (((w v0 / 1000) ^ 2 - c2 ^ 2 : ℝ) : ℂ) = 0 := by push_cast at h ⊢; exact h
          have : (w v0 / 1000) ^ 2 - c2 ^ 2 = 0 := by exact_mod_cast this
          linarith
        have ok : (add e (Node.sellTerm c1 c2 (div x (Node.const 1000)))).ok := by
          have hv : x.val = (w v0 : ℂ) := hx.value
          have k1 := he.regular
          have k2 := hx.regular
          simp only [Node.sellTerm, Node.add, Node.div, Node.mul, Node.sq, Node.sub, Node.const, hv]
          have : (1000 : ℂ) ≠ 0 := by norm_num
          tauto
        have rec' : Recorded v0 (add e (Node.sellTerm c1 c2 (div x (Node.const 1000))))
            (fun v => ((f0 v + MieDiff.sellTerm c1 c2 (w v / 1000) : ℝ) : ℂ)) := by
          refine Tracks.recorded (t.congr fun v => ?_) ok
          unfold MieDiff.sellTerm
          push_cast
          ring
        exact sellmeier_fold hx is _ _ f rec' (fun j hj => hp j (List.mem_cons_of_mem _ hj)) hf

/-- Where the permittivity is a differentiable function of the wavelength `t`: away from table rows and Sellmeier poles. -/
def _root_.MieDiff.Dispersion.SmoothAt (m : Dispersion) (t : ℝ) : Prop :=
  match m with
  | .table rows => ∀ p ∈ rows, p.1 ≠ t
  | .formula _ cs => ∀ i c, cs[2 * i + 2]? = some c → (t / 1000) ^ 2 ≠ c ^ 2

theorem dispersion_recorded {m : Dispersion} (hx : Recorded v0 x fun v => (w v : ℂ)) (hm : m.SmoothAt (w v0))
    (hf : ∀ v, m.eval (w v) = .ok (f v)) : ∃ y, Node.dispersion m x = .ok y ∧ Recorded v0 y f := by
  cases m with
  | table rows => exact interp1d_recorded hx hm hf
  | formula num cs =>
    by_cases hn : num = 1
    · simp only [Dispersion.eval, if_pos hn, MieDiff.sellmeier] at hf
      simp only [Node.dispersion, if_pos hn, Node.sellmeier]
      rcases h0 : pyIdx cs 0 with err | c0
      · have := hf v0
        rw [h0] at this
        simp [Bind.bind, Except.bind] at this
      · rw [h0] at hf
        simp only [Bind.bind, Except.bind] at hf
        have hg : ∀ v, ∃ g : ℝ, (List.range' 1 (cs.length / 2) 2).foldlM (fun eps i => (do
            let c1 ← pyIdx cs i
            let c2 ← pyIdx cs (i + 1)
            .ok (eps + MieDiff.sellTerm c1 c2 (w v / 1000)) : Py ℝ)) (1 + c0) = .ok g ∧ f v = (g : ℂ) := by
          intro v
          have := hf v
          split at this
          · simp at this
          · rename_i g hg
            exact ⟨g, hg, (Except.ok.inj this).symm⟩
        choose g hg1 hg2 using hg
        have e : f = fun v => (g v : ℂ) := funext hg2
        rw [e]
        refine sellmeier_fold hx _ _ (fun _ => 1 + c0) g ?_ ?_ hg1
        · exact Tracks.recorded ((Tracks.const (v0 := v0) ((1 + c0 : ℝ) : ℂ))) trivial
        · intro i hi c hc
          obtain ⟨k, hk, rfl⟩ := List.mem_range'.1 hi
          exact hm k c (by rw [show 2 * k + 2 = 1 + 2 * k + 1 by ring]; exact hc)
    · have := hf v0
      simp [Dispersion.eval, hn] at this

end Recorded

end Node

end MieDiff
