import Verif.Model.LogDer
import Verif.Proofs.NearTorch
import Verif.Props.Special

/-!
# The logarithmic-derivative helpers on tensors
-/

namespace MieDiff

open Complex Filter Topology Spec

/-! ## Tensors of one shape -/

theorem bShapeRev_self : ∀ s : List ℕ, Ten.bShapeRev s s = .ok s
  | [] => rfl
  | a :: s => by
    simp only [Ten.bShapeRev, Ten.bDim_self, bShapeRev_self s]
    rfl

theorem bShape_self (s : List ℕ) : Ten.bShape s s = .ok s := by
  unfold Ten.bShape
  rw [bShapeRev_self]
  simp [Bind.bind, Except.bind]

theorem bIdx_valid {s idx : List ℕ} (h : idx ∈ Ten.indices s) : Ten.bIdx s idx = idx := by
  rw [mem_indices] at h
  unfold Ten.bIdx
  rw [h.length_eq, Nat.sub_self, List.drop_zero]
  induction h with
  | nil => rfl
  | @cons a b l l' hab _ ih =>
    rw [List.zipWith_cons_cons, ih]
    congr 1
    unfold Ten.bi
    split <;> omega

/-- Operands of one shape are combined entry by entry. -/
theorem op2_same {α β γ : Type} (f : α → β → γ) {s : Ten α} {t : Ten β} {sh : List ℕ} (hs : s.shape = sh) (ht : t.shape = sh) :
    ∃ u, Ten.op2 f s t = .ok u ∧ u.shape = sh ∧ ∀ idx ∈ Ten.indices sh, u.get idx = f (s.get idx) (t.get idx) := by
  subst hs
  have h := op2_get f (s := s) (t := t) rfl ht (bShape_self s.shape)
  obtain ⟨u, h1, h2, h3⟩ := h
  refine ⟨u, h1, h2, fun idx hi => ?_⟩
  rw [h3, bIdx_valid hi]

theorem bShapeRev_length : ∀ {s t r : List ℕ}, Ten.bShapeRev s t = .ok r → r.length = max s.length t.length
  | [], t, r, h => by cases h; simp
  | a :: s, [], r, h => by cases h; simp
  | a :: s, b :: t, r, h => by
    obtain ⟨d, -, h⟩ := bindE_inv h
    obtain ⟨q, hq, h⟩ := bindE_inv h
    cases h
    have := bShapeRev_length hq
    simp only [List.length_cons]
    omega

/-- The result of a broadcast operation has as many axes as the operand with more axes. -/
theorem op2_ndim {α β γ : Type} {f : α → β → γ} {s : Ten α} {t : Ten β} {u : Ten γ} (h : Ten.op2 f s t = .ok u) :
    u.shape.length = max s.shape.length t.shape.length := by
  unfold Ten.op2 at h
  obtain ⟨sh, h1, h⟩ := bindE_inv h
  cases h
  unfold Ten.bShape at h1
  obtain ⟨r, h2, h1⟩ := bindE_inv h1
  cases h1
  simpa using bShapeRev_length h2

/-- A loop that keeps an invariant. -/
theorem foldlM_inv {σ : Type} {step : σ → ℕ → Py σ} {P : ℕ → σ → Prop} (n : ℕ) {st : σ} (h0 : P 0 st)
    (h : ∀ m, m < n → ∀ st, P m st → ∃ st', step st (m + 1) = .ok st' ∧ P (m + 1) st') :
    ∃ st', (rangeFrom1 (n + 1)).foldlM step st = .ok st' ∧ P n st' := by
  induction n with
  | zero => exact ⟨st, rfl, h0⟩
  | succ n ih =>
    obtain ⟨s1, h1, p1⟩ := ih fun m hm => h m (by omega)
    obtain ⟨s2, h2, p2⟩ := h n (by omega) s1 p1
    refine ⟨s2, ?_, p2⟩
    rw [rangeFrom1_succ, List.foldlM_append, h1]
    change List.foldlM step s1 [n + 1] = _
    simp only [List.foldlM_cons, List.foldlM_nil, h2]
    rfl

/-! ## `D1n_torch` -/

theorem d1Val_zero_eps (z : ℂ) {N n : ℕ} (h : n < N) :
    d1Val z 0 N n = ((n + 1 : ℕ) : ℂ) / z - 1 / (d1Val z 0 N (n + 1) + ((n + 1 : ℕ) : ℂ) / z) := by
  rw [d1Val_step z 0 h]
  unfold guardAdd
  rw [if_neg (not_lt.2 (norm_nonneg _))]

theorem d1TorchT_loop (nMax : ℕ) (z : List ℕ → ℂ) (N : ℕ) : ∀ m ≤ N, ∀ L : List (List ℕ → ℂ),
    (rangeDown m).foldl (d1TorchStepT nMax z) (fun idx => d1Val (z idx) 0 N m, L) =
      (fun idx => d1Val (z idx) 0 N 0,
        L ++ ((List.range (min m (nMax + 1))).map fun k idx => d1Val (z idx) 0 N k).reverse) := by
  intro m
  induction m with
  | zero => intro _ L; simp [rangeDown_zero]
  | succ m ih =>
    intro hm L
    rw [rangeDown_succ, List.foldl_cons]
    have hstep : d1TorchStepT nMax z (fun idx => d1Val (z idx) 0 N (m + 1), L) (m + 1) =
        (fun idx => d1Val (z idx) 0 N m, if m ≤ nMax then L ++ [fun idx => d1Val (z idx) 0 N m] else L) := by
      unfold d1TorchStepT
      have e : (fun idx => ((m + 1 : ℕ) : ℂ) / z idx - 1 / (d1Val (z idx) 0 N (m + 1) + ((m + 1 : ℕ) : ℂ) / z idx))
          = fun idx => d1Val (z idx) 0 N m := by
        funext idx
        rw [d1Val_zero_eps (z idx) (by omega : m < N)]
      simp only [e, Nat.add_le_add_iff_right]
    rw [hstep, ih (by omega)]
    congr 1
    by_cases h : m ≤ nMax
    · rw [if_pos h, show min (m + 1) (nMax + 1) = m + 1 by omega, show min m (nMax + 1) = m by omega, List.range_succ,
        List.map_append, List.reverse_append, List.append_assoc]
      rfl
    · rw [if_neg h, show min (m + 1) (nMax + 1) = nMax + 1 by omega, show min m (nMax + 1) = nMax + 1 by omega]

theorem stackSame_map {α : Type} (sh : List ℕ) (l : List (List ℕ → α)) (h : l ≠ []) :
    stackSame (l.map fun f => (⟨sh, f⟩ : Ten α)) = .ok (l.map fun f => ⟨sh, f⟩) := by
  obtain ⟨f, l, rfl⟩ := List.exists_cons_of_ne_nil h
  simp only [List.map_cons, stackSame]
  rw [if_pos]
  intro u hu
  obtain ⟨g, _, rfl⟩ := List.mem_map.1 hu
  rfl

/-- The extra depth chosen by `D1n_torch`. -/
noncomputable def autoDepth (lo hi : ℤ) (zm : ℝ) : ℤ := min (max lo ⌊(3 / 2 : ℝ) * zm⌋) hi

theorem resolve_auto (lo hi : ℤ) (zm : ℝ) : resolveNAddRec (.str "auto") lo hi zm = .ok (autoDepth lo hi zm) := by
  unfold resolveNAddRec autoDepth
  simp only
  rw [if_pos (by decide +kernel)]
  split
  · rename_i h; rw [min_eq_right h.le]
  · rename_i h; rw [min_eq_left (not_lt.1 h)]

/-- `D1n_torch` returns the unguarded downward recurrence from the chosen depth. -/
theorem d1TorchT_eq (n : ℕ) (z : Ten ℂ) (lo hi : ℤ) (eps : ℝ) {zm : ℝ} (hm : maxAbs z.entries = .ok zm) {N : ℕ}
    (hN : autoDepth lo hi zm = (N : ℤ)) (h1 : 1 ≤ N) :
    d1TorchT n z lo hi eps = .ok (tab n fun k =>
      ⟨z.atleast1.shape, fun idx => d1Val (guardSet eps (z.atleast1.get idx)) 0 (n + N) k⟩) := by
  unfold d1TorchT
  rw [if_neg (by omega)]
  simp only
  rw [hm]
  change (resolveNAddRec _ lo hi zm >>= _) = _
  rw [resolve_auto, hN]
  change stackSame _ = _
  rw [show ((n : ℤ) + (N : ℤ)).toNat = n + N by omega, Int.toNat_natCast]
  have h := d1TorchT_loop n (fun idx => guardSet eps (z.atleast1.get idx)) (n + N) (n + N) le_rfl []
  simp only [d1Val_top] at h
  rw [h, show min (n + N) (n + 1) = n + 1 by omega, List.nil_append, List.reverse_reverse, stackSame_map _ _ (by simp)]
  simp only [tab, List.map_map, Function.comp_def]

theorem d1Torch_loop (nMax : ℕ) (z : ℂ) (N : ℕ) : ∀ m ≤ N, ∀ L : List ℂ,
    (rangeDown m).foldl (d1TorchStep nMax z) (d1Val z 0 N m, L) =
      (d1Val z 0 N 0, L ++ ((List.range (min m (nMax + 1))).map fun k => d1Val z 0 N k).reverse) := by
  intro m
  induction m with
  | zero => intro _ L; simp [rangeDown_zero]
  | succ m ih =>
    intro hm L
    rw [rangeDown_succ, List.foldl_cons]
    have hstep : d1TorchStep nMax z (d1Val z 0 N (m + 1), L) (m + 1) =
        (d1Val z 0 N m, if m ≤ nMax then L ++ [d1Val z 0 N m] else L) := by
      unfold d1TorchStep
      simp only [← d1Val_zero_eps z (by omega : m < N), Nat.add_le_add_iff_right]
    rw [hstep, ih (by omega)]
    congr 1
    by_cases h : m ≤ nMax
    · rw [if_pos h, show min (m + 1) (nMax + 1) = m + 1 by omega, show min m (nMax + 1) = m by omega, List.range_succ,
        List.map_append, List.reverse_append, List.append_assoc]
      rfl
    · rw [if_neg h, show min (m + 1) (nMax + 1) = nMax + 1 by omega, show min m (nMax + 1) = nMax + 1 by omega]

theorem d1Torch_eq (n : ℕ) (z : ℂ) (lo hi : ℤ) (eps : ℝ) {zm : ℝ} {N : ℕ} (hN : autoDepth lo hi zm = (N : ℤ)) (h1 : 1 ≤ N) :
    d1Torch n z zm (.str "auto") lo hi eps = .ok (tab n (d1Val (guardSet eps z) 0 (n + N))) := by
  unfold d1Torch
  rw [if_neg (by omega)]
  simp only
  rw [resolve_auto, hN, bind_ok]
  rw [show ((n : ℤ) + (N : ℤ)).toNat = n + N by omega, Int.toNat_natCast]
  have h := d1Torch_loop n (guardSet eps z) (n + N) (n + N) le_rfl []
  rw [d1Val_top] at h
  rw [h, show min (n + N) (n + 1) = n + 1 by omega, List.nil_append, List.reverse_reverse, if_neg (by simp)]
  rfl

theorem ricPsi_ne_of_big {k : ℕ} {z : ℂ} (hz : z ≠ 0) (h : 2 * ‖z‖ ≤ k + 1) : ricPsi k z ≠ 0 := (ricPsi_ratio k hz h).1

/-! ## `D3n_torch` -/

/-- State of the loop after `k` passes, for a tensor of shape `sh` and exact logarithmic derivatives. -/
structure D3Inv (sh : List ℕ) (z : Ten ℂ) (k : ℕ) (st : List (Ten ℂ) × List (Ten ℂ)) : Prop where
  l1 : st.1.length = k + 1
  l2 : st.2.length = k + 1
  d3 : ∀ i ≤ k, ∃ t, st.1[i]? = some t ∧ t.shape = sh ∧ ∀ idx ∈ Ten.indices sh, t.get idx = logD3 i (z.get idx)
  pz : ∀ i ≤ k, ∃ t, st.2[i]? = some t ∧ t.shape = sh ∧
    ∀ idx ∈ Ten.indices sh, t.get idx = ricPsi i (z.get idx) * ricZeta i (z.get idx)

theorem pyIdx_some {α : Type} {l : List α} {i : ℕ} {v : α} (h : l[i]? = some v) : pyIdx l i = .ok v := by
  unfold pyIdx; rw [h]

theorem d3TorchStep_inv {sh : List ℕ} {z : Ten ℂ} {n : ℕ} {D1 : List (Ten ℂ)} (hsh : z.shape = sh)
    (hz : ∀ idx ∈ Ten.indices sh, z.get idx ≠ 0)
    (hp : ∀ idx ∈ Ten.indices sh, ∀ k ≤ n, ricPsi k (z.get idx) ≠ 0 ∧ ricZeta k (z.get idx) ≠ 0)
    (hD : ∀ k ≤ n, ∃ t, D1[k]? = some t ∧ t.shape = sh ∧ ∀ idx ∈ Ten.indices sh, t.get idx = logD1 k (z.get idx))
    {m : ℕ} (hm : m < n) {st : List (Ten ℂ) × List (Ten ℂ)} (h : D3Inv sh z m st) :
    ∃ st', d3TorchStep z D1 st (m + 1) = .ok st' ∧ D3Inv sh z (m + 1) st' := by
  obtain ⟨pp, ep, sp, gp⟩ := h.pz m le_rfl
  obtain ⟨dd, ed, sd, gd⟩ := h.d3 m le_rfl
  obtain ⟨a, ea, sa, ga⟩ := hD m (by omega)
  obtain ⟨b, eb, sb, gb⟩ := hD (m + 1) (by omega)
  obtain ⟨t1, e1, s1, g1⟩ := op2_same (fun (z d : ℂ) => ((m + 1 : ℕ) : ℂ) / z - d) hsh sa
  obtain ⟨u, e2, s2, g2⟩ := op2_same (fun (x y : ℂ) => x * y) sp s1
  obtain ⟨t2, e3, s3, g3⟩ := op2_same (fun (z d : ℂ) => ((m + 1 : ℕ) : ℂ) / z - d) hsh sd
  obtain ⟨p, e4, s4, g4⟩ := op2_same (fun (x y : ℂ) => x * y) s2 s3
  obtain ⟨d3, e5, s5, g5⟩ := op2_same (fun (d p : ℂ) => d + I / p) sb s4
  have hpz : ∀ idx ∈ Ten.indices sh, p.get idx = ricPsi (m + 1) (z.get idx) * ricZeta (m + 1) (z.get idx) := by
    intro idx hi
    obtain ⟨q1, q2⟩ := hp idx hi m (by omega)
    rw [g4 idx hi, g2 idx hi, g1 idx hi, g3 idx hi, gp idx hi, ga idx hi, gd idx hi, logD1_psi_succ m (hz idx hi) q1,
      logD3_zeta_succ m (hz idx hi) q2]
    push_cast
    ring
  refine ⟨(st.1 ++ [d3], st.2 ++ [p]), ?_, by simp [h.l1], by simp [h.l2], ?_, ?_⟩
  · unfold d3TorchStep
    simp only [Nat.add_sub_cancel, pyIdx_some ep, pyIdx_some ea, pyIdx_some ed, pyIdx_some eb, bind_ok, e1, e2, e3, e4, e5]
  · intro i hi
    rcases Nat.lt_or_ge i (m + 1) with h1 | h1
    · obtain ⟨t, ht, h2⟩ := h.d3 i (by omega)
      exact ⟨t, by rw [List.getElem?_append_left (by rw [h.l1]; omega)]; exact ht, h2⟩
    · obtain rfl : i = m + 1 := by omega
      refine ⟨d3, by rw [List.getElem?_append_right (by rw [h.l1]), h.l1]; simp, s5, fun idx hx => ?_⟩
      obtain ⟨q1, q2⟩ := hp idx hx (m + 1) (by omega)
      rw [g5 idx hx, gb idx hx, hpz idx hx, ← logD3_sub_logD1 (m + 1) (hz idx hx) q1 q2]
      ring
  · intro i hi
    rcases Nat.lt_or_ge i (m + 1) with h1 | h1
    · obtain ⟨t, ht, h2⟩ := h.pz i (by omega)
      exact ⟨t, by rw [List.getElem?_append_left (by rw [h.l2]; omega)]; exact ht, h2⟩
    · obtain rfl : i = m + 1 := by omega
      exact ⟨p, by rw [List.getElem?_append_right (by rw [h.l2]), h.l2]; simp, s4, hpz⟩

theorem stackSame_ok {α : Type} {l : List (Ten α)} {sh : List ℕ} (h0 : l ≠ []) (h : ∀ t ∈ l, t.shape = sh) : stackSame l = .ok l := by
  obtain ⟨t, ts, rfl⟩ := List.exists_cons_of_ne_nil h0
  unfold stackSame
  simp only
  rw [if_pos]
  intro u hu
  rw [h u (by simp [hu]), h t (by simp)]

/-- The zero-order product of `D3n_torch` (special.py:1303). -/
theorem psixi0_eq (w : ℂ) : -I * exp (I * w) * sin w = sin w * (sin w - I * cos w) := by
  rw [show I * w = w * I by ring, exp_mul_I]
  linear_combination (-(sin w) ^ 2) * I_sq

theorem psixi0_ric {w : ℂ} (hw : w ≠ 0) : -I * exp (I * w) * sin w = ricPsi 0 w * ricZeta 0 w := by
  rw [ricPsi_zero w hw, ricZeta_zero_exp w hw, show I * w = w * I by ring]
  ring

theorem atleast1_of_ne {α : Type} {z : Ten α} (h : z.shape ≠ []) : z.atleast1 = z := by
  obtain ⟨s, g⟩ := z
  cases s with
  | nil => exact absurd rfl h
  | cons a s => rfl

end MieDiff
