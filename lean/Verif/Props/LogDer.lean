import Verif.Proofs.LogDer
import Verif.Props.BatchTorch

/-!
# C59, C60: the logarithmic-derivative helpers on tensors
-/

namespace MieDiff

open Complex Filter Topology Spec

/-! ## C59 -/

theorem autoDepth_default (zm : ℝ) : 10 ≤ autoDepth 10 35 zm ∧ autoDepth 10 35 zm ≤ 35 := by
  unfold autoDepth; omega

theorem autoDepth_eq (lo hi : ℤ) (zm : ℝ) (h1 : 1 ≤ lo) (h2 : 1 ≤ hi) : ∃ N : ℕ, autoDepth lo hi zm = (N : ℤ) ∧ 1 ≤ N := by
  refine ⟨(autoDepth lo hi zm).toNat, ?_, ?_⟩ <;> unfold autoDepth <;> omega

/-- C59: `D1n_torch` of a tensor with at least one entry returns `n+1` orders of the shape of the argument (a number gets one
axis).  At orders `k` with `2|z| <= k+1` each entry is the logarithmic derivative of `psi_k` up to `4^-(n+9-k)`, whatever the other
entries are; entries below `1e-10` are replaced by `1e-10`. -/
theorem C59_d1_error (n : ℕ) (z : Ten ℂ) (hz : z.entries ≠ []) :
    ∃ D, d1TorchT n z = .ok D ∧ D.length = n + 1 ∧ ∀ k ≤ n, ∃ t, D[k]? = some t ∧ t.shape = z.atleast1.shape ∧
      ∀ idx, ∀ w, w = (if ‖z.atleast1.get idx‖ < 1e-10 then (1e-10 : ℂ) else z.atleast1.get idx) → 2 * ‖w‖ ≤ k + 1 →
        ricPsi k w ≠ 0 ∧ ‖t.get idx - deriv (ricPsi k) w / ricPsi k w‖ ≤ (1 / 4) ^ (n + 9 - k) := by
  obtain ⟨zm, hm, -⟩ := maxAbs_spec hz
  obtain ⟨h10, -⟩ := autoDepth_default zm
  obtain ⟨N, hN, h1⟩ := autoDepth_eq 10 35 zm (by norm_num) (by norm_num)
  refine ⟨_, d1TorchT_eq n z 10 35 1e-10 hm hN h1, by simp, fun k hk =>
    ⟨⟨z.atleast1.shape, fun idx => d1Val (guardSet 1e-10 (z.atleast1.get idx)) 0 (n + N) k⟩,
      by rw [tab_getElem?, if_pos hk], rfl, ?_⟩⟩
  intro idx w hw hbig
  have hg : guardSet 1e-10 (z.atleast1.get idx) = w := by
    rw [hw]; unfold guardSet; split <;> simp
  have hw0 : w ≠ 0 := by
    rintro rfl
    split at hw
    · norm_num at hw
    · rename_i h; rw [← hw] at h; norm_num at h
  refine ⟨ricPsi_ne_of_big hw0 hbig, ?_⟩
  simp only [hg]
  refine (d1Val_error hw0 (by norm_num) (n + N) (n + N - 1 - k) k (by omega) hbig).trans ?_
  exact pow_le_pow_of_le_one (by norm_num) (by norm_num) (by omega)

/-- C59: as the extra depth grows (`n_add_min = n_add_max = N`), every entry of every order tends to the logarithmic derivative,
where no `psi` of that order or above vanishes. -/
theorem C59_d1_tendsto (n k : ℕ) (z : Ten ℂ) (hz : z.entries ≠ []) (hk : k ≤ n) (idx : List ℕ)
    (hbig : 1e-10 ≤ ‖z.atleast1.get idx‖) (hpsi : ∀ i, k ≤ i → ricPsi i (z.atleast1.get idx) ≠ 0) :
    ∃ v : ℕ → ℂ, (∀ N : ℕ, 1 ≤ N → ∃ D t, d1TorchT n z N N = .ok D ∧ D[k]? = some t ∧ t.get idx = v N) ∧
      Tendsto v atTop (𝓝 (deriv (ricPsi k) (z.atleast1.get idx) / ricPsi k (z.atleast1.get idx))) := by
  obtain ⟨zm, hm, -⟩ := maxAbs_spec hz
  have hz0 : z.atleast1.get idx ≠ 0 := by intro h; rw [h] at hbig; norm_num at hbig
  refine ⟨fun N => d1Val (z.atleast1.get idx) 0 (n + N) k, ?_, ?_⟩
  · intro N hN
    refine ⟨_, _, d1TorchT_eq n z N N 1e-10 hm (N := N) ?_ hN, by rw [tab_getElem?, if_pos hk], ?_⟩
    · unfold autoDepth; omega
    · simp only [guardSet_of_le hbig]
  · have h := d1Val_tendsto (eps := 0) hz0 (by norm_num) k hpsi ?_
    · have h2 := h.comp (tendsto_add_atTop_nat n)
      refine h2.congr fun N => ?_
      simp only [Function.comp, add_comm]
    · intro i hi
      exact norm_pos_iff.2 (div_ne_zero (hpsi i hi) (hpsi (i + 1) (by omega)))

/-- C59: an entry of the result is the value for that argument alone, at the extra depth chosen from the largest entry. -/
theorem C59_d1_entry (n : ℕ) (z : Ten ℂ) (hz : z.entries ≠ []) : ∃ D zm, IsMaxNorm z.entries zm ∧ d1TorchT n z = .ok D ∧
    ∀ idx, d1Torch n (z.atleast1.get idx) zm = .ok (D.map fun t => t.get idx) := by
  obtain ⟨zm, hm, hmax⟩ := maxAbs_spec hz
  obtain ⟨N, hN, h1⟩ := autoDepth_eq 10 35 zm (by norm_num) (by norm_num)
  refine ⟨_, zm, hmax, d1TorchT_eq n z 10 35 1e-10 hm hN h1, fun idx => ?_⟩
  rw [d1Torch_eq n _ 10 35 1e-10 hN h1]
  simp only [tab, List.map_map, Function.comp_def]

/-- C59: orders below zero and tensors without entries are rejected. -/
theorem C59_d1_reject (n : ℤ) (z : Ten ℂ) (lo hi : ℤ) (eps : ℝ) (h : n < 0 ∨ z.entries = []) :
    d1TorchT n z lo hi eps = .error .runtimeError := by
  unfold d1TorchT
  rcases h with h | h
  · rw [if_pos h]
  · split
    · rfl
    · simp only; rw [h]; rfl

/-- C59: the same for one argument: orders below zero are rejected, whatever the other arguments are. -/
theorem C59_d1_reject_entry (n : ℤ) (z : ℂ) (zm : ℝ) (a : NAdd) (lo hi : ℤ) (eps : ℝ) (h : n < 0) :
    d1Torch n z zm a lo hi eps = .error .runtimeError := by
  unfold d1Torch
  rw [if_pos h]

/-- Order -1 meets the hypothesis. -/
example : d1Torch (-1) 1 1 = .error .runtimeError := C59_d1_reject_entry _ _ _ _ _ _ _ (by norm_num)

/-- C59: from exact logarithmic derivatives of `psi`, `D3n_torch` returns for a tensor with at least one axis the logarithmic
derivatives of `zeta` and the products `psi zeta`, exactly, at every order and entry. -/
theorem C59_d3_exact (n : ℕ) (z : Ten ℂ) (h0 : z.shape ≠ []) (hbig : ∀ idx ∈ Ten.indices z.shape, 1e-10 ≤ ‖z.get idx‖)
    (hne : ∀ idx ∈ Ten.indices z.shape, ∀ k ≤ n, ricPsi k (z.get idx) ≠ 0 ∧ ricZeta k (z.get idx) ≠ 0) (D1 : List (Ten ℂ))
    (hD : ∀ k ≤ n, ∃ t, D1[k]? = some t ∧ t.shape = z.shape ∧
      ∀ idx ∈ Ten.indices z.shape, t.get idx = deriv (ricPsi k) (z.get idx) / ricPsi k (z.get idx)) :
    ∃ D3 P, d3TorchT n z D1 = .ok (D3, P) ∧ D3.length = n + 1 ∧ P.length = n + 1 ∧ ∀ k ≤ n, ∃ t p, D3[k]? = some t ∧
      P[k]? = some p ∧ t.shape = z.shape ∧ p.shape = z.shape ∧ ∀ idx ∈ Ten.indices z.shape,
        t.get idx = deriv (ricZeta k) (z.get idx) / ricZeta k (z.get idx) ∧
        p.get idx = ricPsi k (z.get idx) * ricZeta k (z.get idx) := by
  have hz : ∀ idx ∈ Ten.indices z.shape, z.get idx ≠ 0 := by
    intro idx hi h
    have := hbig idx hi
    rw [h] at this
    norm_num at this
  set zt : Ten ℂ := z.map (guardSet 1e-10) with hzt
  have hg : ∀ idx ∈ Ten.indices z.shape, zt.get idx = z.get idx := fun idx hi => guardSet_of_le (hbig idx hi)
  have hinv : D3Inv z.shape zt 0 ([zt.map fun _ => I], [z.map fun w => -I * exp (I * w) * sin w]) := by
    refine ⟨rfl, rfl, ?_, ?_⟩
    · intro i hi
      obtain rfl : i = 0 := by omega
      refine ⟨_, rfl, rfl, fun idx hx => ?_⟩
      rw [hg idx hx, logD3_zero (hz idx hx)]
      rfl
    · intro i hi
      obtain rfl : i = 0 := by omega
      refine ⟨_, rfl, rfl, fun idx hx => ?_⟩
      rw [hg idx hx]
      exact psixi0_ric (hz idx hx)
  obtain ⟨st, hst, inv⟩ := foldlM_inv (step := d3TorchStep zt D1) (P := D3Inv z.shape zt) n hinv fun m hm st hs =>
    d3TorchStep_inv (n := n) rfl (fun idx hi => by rw [hg idx hi]; exact hz idx hi)
      (fun idx hi => by rw [hg idx hi]; exact hne idx hi)
      (fun k hk => by
        obtain ⟨t, h1, h2, h3⟩ := hD k hk
        exact ⟨t, h1, h2, fun idx hi => by rw [hg idx hi]; exact h3 idx hi⟩) hm hs
  have mem : ∀ (l : List (Ten ℂ)), l.length = n + 1 → (∀ i ≤ n, ∃ t, l[i]? = some t ∧ t.shape = z.shape) →
      stackSame l = .ok l := by
    intro l hl h
    refine stackSame_ok (sh := z.shape) (by rintro rfl; simp at hl) fun t ht => ?_
    obtain ⟨i, hi⟩ := List.getElem?_of_mem ht
    have : i < n + 1 := by rw [← hl]; exact (List.getElem?_eq_some_iff.1 hi).1
    obtain ⟨t', h1, h2⟩ := h i (by omega)
    rw [hi] at h1
    cases h1
    exact h2
  refine ⟨st.1, st.2, ?_, inv.l1, inv.l2, ?_⟩
  · unfold d3TorchT
    rw [if_neg (by omega), atleast1_of_ne h0, Int.toNat_natCast]
    simp only
    rw [← hzt, hst, bind_ok,
      mem st.1 inv.l1 fun i hi => by obtain ⟨t, h1, h2, -⟩ := inv.d3 i hi; exact ⟨t, h1, h2⟩, bind_ok,
      mem st.2 inv.l2 fun i hi => by obtain ⟨t, h1, h2, -⟩ := inv.pz i hi; exact ⟨t, h1, h2⟩, bind_ok]
  · intro k hk
    obtain ⟨t, h1, h2, h3⟩ := inv.d3 k hk
    obtain ⟨p, h4, h5, h6⟩ := inv.pz k hk
    refine ⟨t, p, h1, h4, h2, h5, fun idx hi => ?_⟩
    rw [h3 idx hi, h6 idx hi, hg idx hi]
    exact ⟨rfl, rfl⟩

/-- C59: at order zero `D3n_torch` gives `i` and `sin z (sin z - i cos z)` for every argument, also for a number. -/
theorem C59_d3_zero (z : Ten ℂ) (D1 : List (Ten ℂ)) :
    ∃ t p, d3TorchT 0 z D1 = .ok ([t], [p]) ∧ t.shape = z.atleast1.shape ∧ p.shape = z.shape ∧ ∀ idx,
      t.get idx = I ∧ p.get idx = sin (z.get idx) * (sin (z.get idx) - I * cos (z.get idx)) :=
  ⟨_, _, rfl, rfl, rfl, fun _ => ⟨rfl, psixi0_eq _⟩⟩

/-- C59 fails for numbers: with a zero-dimensional argument and `n >= 1`, `D3n_torch` raises, because the product of order zero has
no axis while the others have one. -/
theorem C59_d3_number (n : ℕ) (hn : 1 ≤ n) (w : ℂ) (D1 : List (Ten ℂ)) : ∃ e, d3TorchT n (Ten.scalar w) D1 = .error e := by
  rcases hr : d3TorchT n (Ten.scalar w) D1 with e | v
  · exact ⟨e, rfl⟩
  exfalso
  unfold d3TorchT at hr
  rw [if_neg (by omega), Int.toNat_natCast] at hr
  obtain ⟨st, h1, hr⟩ := bindE_inv hr
  obtain ⟨D3, -, hr⟩ := bindE_inv hr
  obtain ⟨P, h2, -⟩ := bindE_inv hr
  have key : ∀ m st, (rangeFrom1 (m + 1)).foldlM (d3TorchStep ((Ten.scalar w).atleast1.map (guardSet 1e-10)) D1)
      ([((Ten.scalar w).atleast1.map (guardSet 1e-10)).map fun _ => I], [(Ten.scalar w).map fun w => -I * exp (I * w) * sin w])
        = .ok st → ∃ t ts, st.2 = t :: ts ∧ t.shape = [] ∧ ts.length = m ∧ ∀ u ∈ ts, u.shape ≠ [] := by
    intro m
    induction m with
    | zero => intro st h; cases h; exact ⟨_, [], rfl, rfl, rfl, by simp⟩
    | succ m ih =>
      intro st h
      rw [rangeFrom1_succ, List.foldlM_append] at h
      obtain ⟨s1, h1, h⟩ := bindE_inv h
      obtain ⟨t, ts, e1, e2, e3, e4⟩ := ih s1 h1
      rw [List.foldlM_cons] at h
      obtain ⟨s2, h2, h⟩ := bindE_inv h
      cases h
      unfold d3TorchStep at h2
      obtain ⟨pp, -, h2⟩ := bindE_inv h2
      obtain ⟨d1m, -, h2⟩ := bindE_inv h2
      obtain ⟨t1, ht1, h2⟩ := bindE_inv h2
      obtain ⟨u, hu, h2⟩ := bindE_inv h2
      obtain ⟨d3m, -, h2⟩ := bindE_inv h2
      obtain ⟨t2, ht2, h2⟩ := bindE_inv h2
      obtain ⟨p, hp, h2⟩ := bindE_inv h2
      obtain ⟨d1, -, h2⟩ := bindE_inv h2
      obtain ⟨d3, -, h2⟩ := bindE_inv h2
      cases h2
      refine ⟨t, ts ++ [p], by simp [e1], e2, by simp [e3], ?_⟩
      intro v hv
      rcases List.mem_append.1 hv with h | h
      · exact e4 v h
      · rw [List.mem_singleton.1 h]
        have l2 := op2_ndim ht2
        have l3 := op2_ndim hp
        intro h0
        have e : ((Ten.scalar w).atleast1.map (guardSet 1e-10)).shape = [1] := rfl
        rw [e] at l2
        rw [h0] at l3
        simp at l2 l3
        omega
  obtain ⟨t, ts, e1, e2, e3, e4⟩ := key n st h1
  rw [e1] at h2
  unfold stackSame at h2
  simp only at h2
  split at h2
  · rename_i h
    obtain ⟨u, us, rfl⟩ := List.exists_cons_of_ne_nil (l := ts) (by rintro rfl; simp at e3; omega)
    exact e4 u (by simp) ((h u (by simp)).trans e2)
  · cases h2

/-- A two-entry tensor meets the hypotheses of `C59_d1_error`, also its size condition. -/
example : (Ten.ofList 0 [(1 : ℂ), I]).entries ≠ [] ∧ 2 * ‖(1 : ℂ)‖ ≤ (1 : ℕ) + 1 := by
  constructor
  · simp [Ten.entries, Ten.indices, Ten.ofList]
    exact ⟨0, by norm_num⟩
  · norm_num

theorem ricPsi_one_at_one_ne : ricPsi 1 1 ≠ 0 := by
  have h := norm_ricPsi_one_at_one
  exact norm_pos_iff.1 (by linarith)

/-- The hypotheses of `C59_d3_exact` hold for the one-entry tensor with entry 1 and order 1. -/
example : ∃ (z : Ten ℂ) (D1 : List (Ten ℂ)), z.shape ≠ [] ∧ (∀ idx ∈ Ten.indices z.shape, 1e-10 ≤ ‖z.get idx‖) ∧
    (∀ idx ∈ Ten.indices z.shape, ∀ k ≤ 1, ricPsi k (z.get idx) ≠ 0 ∧ ricZeta k (z.get idx) ≠ 0) ∧
    ∀ k ≤ 1, ∃ t, D1[k]? = some t ∧ t.shape = z.shape ∧
      ∀ idx ∈ Ten.indices z.shape, t.get idx = deriv (ricPsi k) (z.get idx) / ricPsi k (z.get idx) := by
  refine ⟨⟨[1], fun _ => 1⟩, tab 1 fun k => ⟨[1], fun _ => deriv (ricPsi k) 1 / ricPsi k 1⟩, by simp, ?_, ?_, ?_⟩
  · intro idx _; norm_num
  · intro idx _ k hk
    exact ⟨kernelOK_one.psi k hk, kernelOK_one.zeta k hk⟩
  · intro k hk
    exact ⟨⟨[1], fun _ => deriv (ricPsi k) 1 / ricPsi k 1⟩, by rw [tab_getElem?, if_pos hk], rfl, fun _ _ => rfl⟩

/-! ## C60 -/

theorem d1TorchT_length {n : ℤ} {z : Ten ℂ} {D : List (Ten ℂ)} (h : d1TorchT n z = .ok D) :
    0 ≤ n ∧ D.length = n.toNat + 1 ∧ ∀ t ∈ D, t.shape = z.atleast1.shape := by
  have hn : 0 ≤ n := by
    by_contra h0
    rw [C59_d1_reject n z _ _ _ (Or.inl (by omega))] at h
    cases h
  have he : z.entries ≠ [] := by
    intro h0
    rw [C59_d1_reject n z _ _ _ (Or.inr h0)] at h
    cases h
  obtain ⟨m, rfl⟩ := Int.eq_ofNat_of_zero_le hn
  obtain ⟨zm, hm, -⟩ := maxAbs_spec he
  obtain ⟨N, hN, h1⟩ := autoDepth_eq 10 35 zm (by norm_num) (by norm_num)
  rw [d1TorchT_eq m z 10 35 1e-10 hm hN h1] at h
  cases h
  refine ⟨hn, by simp, fun t ht => ?_⟩
  unfold tab at ht
  obtain ⟨k, -, rfl⟩ := List.mem_map.1 ht
  rfl

theorem pyIdxInt_pair {α : Type} (a b : α) (i : ℤ) (h : 2 ≤ i) : pyIdxInt [a, b] i = .error .indexError := by
  unfold pyIdxInt pyIdx
  rw [if_pos (by omega), List.getElem?_eq_none (by simp; omega)]

theorem range10 : rangeFrom1 11 = [1, 2, 3, 4, 5, 6, 7, 8, 9, 10] := by decide

/-- C60: `xi_torch_logdir` raises an exception for every order and every tensor of size parameters. -/
theorem C60_xi (n : ℤ) (x : Ten ℂ) : ∃ e, xiLogdir n x = .error e := by
  rcases hr : xiLogdir n x with e | v
  · exact ⟨e, rfl⟩
  exfalso
  unfold xiLogdir at hr
  obtain ⟨xL, -, hr⟩ := bindE_inv hr
  obtain ⟨D1, -, hr⟩ := bindE_inv hr
  obtain ⟨D3, -, hr⟩ := bindE_inv hr
  obtain ⟨xis, h, -⟩ := bindE_inv hr
  rw [range10] at h
  simp only [List.foldlM_cons] at h
  obtain ⟨s1, -, h⟩ := bindE_inv h
  obtain ⟨s2, -, h⟩ := bindE_inv h
  obtain ⟨s3, -, h⟩ := bindE_inv h
  obtain ⟨s4, h4, -⟩ := bindE_inv h
  unfold xiLogdirStep at h4
  obtain ⟨_, -, h4⟩ := bindE_inv h4
  obtain ⟨d, hd, -⟩ := bindE_inv h4
  rw [pyIdxInt_pair _ _ _ (by norm_num)] at hd
  cases hd

/-- C60: `Ql_torch` raises an exception for every order and all tensors of indices and size parameters. -/
theorem C60_ql (n : ℤ) (m x : Ten ℂ) : ∃ e, qlTorch n m x = .error e := by
  rcases hr : qlTorch n m x with e | v
  · exact ⟨e, rfl⟩
  exfalso
  unfold qlTorch at hr
  obtain ⟨qs, h, -⟩ := bindE_inv hr
  rw [range10, List.foldlM_cons] at h
  obtain ⟨s, h, -⟩ := bindE_inv h
  unfold qlLayer at h
  obtain ⟨ml, -, h⟩ := bindE_inv h
  obtain ⟨xa, -, h⟩ := bindE_inv h
  obtain ⟨z1, -, h⟩ := bindE_inv h
  obtain ⟨xb, -, h⟩ := bindE_inv h
  obtain ⟨z2, -, h⟩ := bindE_inv h
  obtain ⟨D11, -, h⟩ := bindE_inv h
  obtain ⟨D12, -, h⟩ := bindE_inv h
  obtain ⟨D31, -, h⟩ := bindE_inv h
  obtain ⟨D32, -, h⟩ := bindE_inv h
  obtain ⟨w1, -, h⟩ := bindE_inv h
  obtain ⟨w2, -, h⟩ := bindE_inv h
  obtain ⟨q0, -, h⟩ := bindE_inv h
  rw [range10] at h
  simp only [List.foldlM_cons] at h
  obtain ⟨s1, -, h⟩ := bindE_inv h
  obtain ⟨s2, -, h⟩ := bindE_inv h
  obtain ⟨s3, -, h⟩ := bindE_inv h
  obtain ⟨s4, h4, -⟩ := bindE_inv h
  unfold qlStep at h4
  obtain ⟨a1, -, h4⟩ := bindE_inv h4
  obtain ⟨a2, -, h4⟩ := bindE_inv h4
  obtain ⟨a3, -, h4⟩ := bindE_inv h4
  obtain ⟨a4, -, h4⟩ := bindE_inv h4
  obtain ⟨a5, -, h4⟩ := bindE_inv h4
  obtain ⟨a6, -, h4⟩ := bindE_inv h4
  obtain ⟨a7, -, h4⟩ := bindE_inv h4
  obtain ⟨a8, -, h4⟩ := bindE_inv h4
  obtain ⟨a9, -, h4⟩ := bindE_inv h4
  obtain ⟨a10, -, h4⟩ := bindE_inv h4
  obtain ⟨a11, -, h4⟩ := bindE_inv h4
  obtain ⟨a12, hd, -⟩ := bindE_inv h4
  rw [pyIdxInt_pair _ _ _ (by norm_num)] at hd
  cases hd

/-- C60: a call of `psi_torch_logdir` that does not raise returns `None`, and needs `n >= 8`. -/
theorem C60_psi_none (n : ℤ) (x : Ten ℂ) (v : Option (List (Ten ℂ))) (h : psiLogdir n x = .ok v) : v = none ∧ 8 ≤ n := by
  unfold psiLogdir at h
  obtain ⟨xL, -, h⟩ := bindE_inv h
  obtain ⟨D1, hD, h⟩ := bindE_inv h
  obtain ⟨psis, hp, h⟩ := bindE_inv h
  obtain ⟨_, -, h⟩ := bindE_inv h
  cases h
  refine ⟨rfl, ?_⟩
  obtain ⟨h0, hl, -⟩ := d1TorchT_length hD
  rw [range10] at hp
  simp only [List.foldlM_cons] at hp
  obtain ⟨s1, -, hp⟩ := bindE_inv hp
  obtain ⟨s2, -, hp⟩ := bindE_inv hp
  obtain ⟨s3, -, hp⟩ := bindE_inv hp
  obtain ⟨s4, -, hp⟩ := bindE_inv hp
  obtain ⟨s5, -, hp⟩ := bindE_inv hp
  obtain ⟨s6, -, hp⟩ := bindE_inv hp
  obtain ⟨s7, -, hp⟩ := bindE_inv hp
  obtain ⟨s8, -, hp⟩ := bindE_inv hp
  obtain ⟨s9, -, hp⟩ := bindE_inv hp
  obtain ⟨s10, h10, -⟩ := bindE_inv hp
  unfold psiLogdirStep at h10
  obtain ⟨_, -, h10⟩ := bindE_inv h10
  obtain ⟨d, hd, -⟩ := bindE_inv h10
  unfold pyIdxInt pyIdx at hd
  rw [if_pos (by norm_num)] at hd
  by_contra h8
  rw [List.getElem?_eq_none (by rw [hl]; change _ ≤ 8; omega)] at hd
  cases hd

/-- C60: such calls exist: with `n >= 8` and a tensor with two or more axes and no empty axis, the function runs to its end (and
returns `None`). -/
theorem C60_psi_runs (n : ℕ) (hn : 8 ≤ n) (a b : ℕ) (s : List ℕ) (x : Ten ℂ) (hx : x.shape = (a + 1) :: (b + 1) :: s)
    (hs : 0 ∉ s) : psiLogdir n x = .ok none := by
  have hL : ∃ xL : Ten ℂ, lastSlice x = .ok xL ∧ xL.shape = (b + 1) :: s := by
    unfold lastSlice Ten.selectLast
    rw [hx]
    exact ⟨_, rfl, rfl⟩
  obtain ⟨xL, e1, s1⟩ := hL
  have hne : xL.entries ≠ [] := by
    have : ∀ s : List ℕ, 0 ∉ s → Ten.indices s ≠ [] := by
      intro s
      induction s with
      | nil => intro _; simp [Ten.indices]
      | cons d s ih =>
        intro h
        simp only [List.mem_cons, not_or] at h
        simp only [Ten.indices, ne_eq, List.flatMap_eq_nil_iff, List.mem_range, List.map_eq_nil_iff, not_forall]
        exact ⟨0, by omega, ih h.2⟩
    unfold Ten.entries
    rw [s1]
    have := this ((b + 1) :: s) (by simp [hs])
    simpa using this
  have h0 : xL.atleast1 = xL := atleast1_of_ne (by rw [s1]; simp)
  obtain ⟨D, hD, hl, hk⟩ := C59_d1_error n xL hne
  have hshape : ∀ t ∈ D, t.shape = (b + 1) :: s := by
    have := (d1TorchT_length hD).2.2
    rw [h0, s1] at this
    exact this
  have idxD : ∀ i : ℤ, -1 ≤ i → i ≤ 8 → ∃ t, pyIdxInt D i = .ok t ∧ t.shape = (b + 1) :: s := by
    intro i h1 h2
    have get : ∀ j : ℕ, j < D.length → ∃ t, pyIdx D j = .ok t ∧ t.shape = (b + 1) :: s := fun j hj =>
      ⟨D[j], pyIdx_some (List.getElem?_eq_getElem hj), hshape _ (List.getElem_mem hj)⟩
    unfold pyIdxInt
    split
    · exact get _ (by rw [hl]; omega)
    · rw [if_pos (by omega)]
      exact get _ (by omega)
  have run := foldlM_inv (step := psiLogdirStep xL D)
    (P := fun k psis => psis.length = k + 1 ∧ ∀ t ∈ psis, t.shape = (b + 1) :: s) (st := [xL.map sin]) 10
    ⟨rfl, by intro t ht; rw [List.mem_singleton.1 ht]; exact s1⟩ (by
      intro m hm psis ⟨p1, p2⟩
      have get : ∃ t, pyIdxInt psis (((m + 1 : ℕ) : ℤ) - 2) = .ok t ∧ t.shape = (b + 1) :: s := by
        have get : ∀ j : ℕ, j < psis.length → ∃ t, pyIdx psis j = .ok t ∧ t.shape = (b + 1) :: s := fun j hj =>
          ⟨psis[j], pyIdx_some (List.getElem?_eq_getElem hj), p2 _ (List.getElem_mem hj)⟩
        unfold pyIdxInt
        split
        · exact get _ (by omega)
        · rw [if_pos (by omega)]
          exact get _ (by omega)
      obtain ⟨pr, g1, g2⟩ := get
      obtain ⟨d, g3, g4⟩ := idxD (((m + 1 : ℕ) : ℤ) - 2) (by omega) (by omega)
      obtain ⟨t, g5, g6, -⟩ := op2_same (fun (z d : ℂ) => ((m + 1 : ℕ) : ℂ) / z - d) s1 g4
      obtain ⟨p, g7, g8, -⟩ := op2_same (fun (x y : ℂ) => x * y) g2 g6
      refine ⟨psis ++ [p], ?_, by simp [p1], ?_⟩
      · unfold psiLogdirStep
        rw [g1, bind_ok, g3, bind_ok, g5, bind_ok, g7, bind_ok]
      · intro u hu
        rcases List.mem_append.1 hu with h | h
        · exact p2 u h
        · rw [List.mem_singleton.1 h]; exact g8)
  obtain ⟨psis, r1, r2, r3⟩ := run
  unfold psiLogdir
  rw [e1, bind_ok, hD, bind_ok, r1, bind_ok, stackSame_ok (sh := (b + 1) :: s) (by rintro rfl; simp at r2) r3, bind_ok]

example : ∃ x : Ten ℂ, x.shape = (1 + 1) :: (0 + 1) :: [] ∧ 0 ∉ ([] : List ℕ) := ⟨⟨[2, 1], fun _ => 1⟩, rfl, by simp⟩

end MieDiff
