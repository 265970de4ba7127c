import Verif.Proofs.Kernel

/-!
# Refinement and limits of the two torch-native `j_n` algorithms
-/

namespace MieDiff

open Complex Spec Filter Topology

/-! ## Growth of `y_n` relative to `j_n` -/

theorem sph_cross (n : ℕ) {z : ℂ} (hz : z ≠ 0) :
    sphJ (n + 1) z * sphY n z - sphJ n z * sphY (n + 1) z = 1 / z ^ 2 := by
  have h := ric_cross n hz
  simp only [ricPsi, ricZeta, sphH] at h
  have h2 : (sphJ (n + 1) z * sphY n z - sphJ n z * sphY (n + 1) z) * z ^ 2 = 1 := by
    have : I * ((sphJ (n + 1) z * sphY n z - sphJ n z * sphY (n + 1) z) * z ^ 2 - 1) = 0 := by
      linear_combination h
    rcases mul_eq_zero.1 this with h3 | h3
    · exact absurd h3 I_ne_zero
    · linear_combination h3
  field_simp
  linear_combination h2

theorem sphJ_tendsto_zero {z : ℂ} (hz : z ≠ 0) : Tendsto (fun n => sphJ n z) atTop (𝓝 0) := by
  obtain ⟨m, hm⟩ := exists_nat_ge (2 * ‖z‖)
  have hb : ∀ j, ‖sphJ (m + j) z‖ ≤ ‖sphJ m z‖ * (1 / 2) ^ j := by
    intro j
    induction j with
    | zero => simp
    | succ j ih =>
      have h := (sphJ_ratio (m + j) hz (by push_cast; linarith [(Nat.cast_nonneg j : (0 : ℝ) ≤ j)])).2
      rw [← add_assoc, pow_succ]
      linarith
  rw [← tendsto_add_atTop_iff_nat m, tendsto_zero_iff_norm_tendsto_zero]
  refine squeeze_zero (fun n => norm_nonneg _) (fun n => ?_)
    (g := fun n => ‖sphJ m z‖ * (1 / 2 : ℝ) ^ n) ?_
  · rw [add_comm]; exact hb n
  · have := (tendsto_pow_atTop_nhds_zero_of_lt_one (r := (1 / 2 : ℝ)) (by norm_num)
      (by norm_num)).const_mul ‖sphJ m z‖
    simpa using this

theorem sphY_step {z : ℂ} (hz : z ≠ 0) (n : ℕ) (h : 2 * ‖z‖ ≤ n + 1) (h1 : ‖sphY n z‖ ≤ ‖sphY (n + 1) z‖) :
    3 * ‖sphY (n + 1) z‖ ≤ ‖sphY (n + 2) z‖ := by
  have hzp : 0 < ‖z‖ := norm_pos_iff.2 hz
  have e := sphY_seq.three n hz
  have h4 : ‖(2 * (n : ℂ) + 3) / z * sphY (n + 1) z‖ = (2 * (n : ℝ) + 3) / ‖z‖ * ‖sphY (n + 1) z‖ := by
    rw [norm_mul, norm_natCast_div (2 * (n : ℝ) + 3) (by positivity) _ _ (by push_cast; ring)]
  have h5 : 4 ≤ (2 * (n : ℝ) + 3) / ‖z‖ := by rw [le_div_iff₀ hzp]; linarith
  have h6 := norm_sub_norm_le ((2 * (n : ℂ) + 3) / z * sphY (n + 1) z) (sphY n z)
  rw [← e, h4] at h6
  have h7 := mul_le_mul_of_nonneg_right h5 (norm_nonneg (sphY (n + 1) z))
  linarith

theorem sphY_growth {z : ℂ} (hz : z ≠ 0) :
    ∃ M : ℕ, 0 < ‖sphY M z‖ ∧ ∀ j, ‖sphY M z‖ * 3 ^ j ≤ ‖sphY (M + j) z‖ := by
  obtain ⟨m, hm⟩ := exists_nat_ge (2 * ‖z‖)
  have hzp : 0 < ‖z‖ := norm_pos_iff.2 hz
  have hex : ∃ p, m ≤ p ∧ ‖sphY p z‖ ≤ ‖sphY (p + 1) z‖ := by
    by_contra hc
    push Not at hc
    have hbd : ∀ j, ‖sphY (m + j) z‖ ≤ ‖sphY m z‖ := by
      intro j
      induction j with
      | zero => simp
      | succ j ih => exact (hc (m + j) (by omega)).le.trans ih
    have h0 := sphJ_tendsto_zero hz
    have h1 : Tendsto (fun n => ‖sphJ (n + 1) z‖ * ‖sphY m z‖ + ‖sphJ n z‖ * ‖sphY m z‖) atTop (𝓝 0) := by
      have a := ((tendsto_add_atTop_iff_nat 1).2 h0).norm.mul_const ‖sphY m z‖
      have b := h0.norm.mul_const ‖sphY m z‖
      simpa using a.add b
    have h2 : (0 : ℝ) < 1 / ‖z‖ ^ 2 := by positivity
    have h3 := h1.eventually (gt_mem_nhds h2)
    obtain ⟨n, hn1, hn2⟩ := (h3.and (eventually_ge_atTop m)).exists
    obtain ⟨j, rfl⟩ : ∃ j, n = m + j := ⟨n - m, by omega⟩
    have h4 := congrArg norm (sph_cross (m + j) hz)
    rw [norm_div, norm_one, norm_pow] at h4
    have h5 := norm_sub_le (sphJ (m + j + 1) z * sphY (m + j) z) (sphJ (m + j) z * sphY (m + j + 1) z)
    rw [h4, norm_mul, norm_mul] at h5
    have h6 := mul_le_mul_of_nonneg_left (hbd j) (norm_nonneg (sphJ (m + j + 1) z))
    have h7 := mul_le_mul_of_nonneg_left (hbd (j + 1)) (norm_nonneg (sphJ (m + j) z))
    rw [← add_assoc] at h7
    linarith
  obtain ⟨p, hp, hpy⟩ := hex
  have hstep : ∀ j, ‖sphY (p + j) z‖ ≤ ‖sphY (p + j + 1) z‖ ∧
      ‖sphY (p + 1) z‖ * 3 ^ j ≤ ‖sphY (p + 1 + j) z‖ := by
    intro j
    induction j with
    | zero => exact ⟨hpy, by simp⟩
    | succ j ih =>
      have hr : 2 * ‖z‖ ≤ ((p + j : ℕ) : ℝ) + 1 := by
        have : (m : ℝ) ≤ ((p + j : ℕ) : ℝ) := by exact_mod_cast (by omega : m ≤ p + j)
        linarith
      have h3 := sphY_step hz (p + j) hr ih.1
      refine ⟨?_, ?_⟩
      · have := norm_nonneg (sphY (p + j + 1) z)
        rw [← add_assoc]
        linarith
      · rw [show p + 1 + (j + 1) = p + j + 2 by ring, pow_succ]
        have h4 := ih.2
        rw [show p + 1 + j = p + j + 1 by ring] at h4
        linarith
  refine ⟨p + 1, ?_, fun j => (hstep j).2⟩
  rcases (norm_nonneg (sphY (p + 1) z)).lt_or_eq with h | h
  · exact h
  · exfalso
    have h1 : sphY (p + 1) z = 0 := norm_eq_zero.1 h.symm
    have h2 : sphY p z = 0 := norm_eq_zero.1 (le_antisymm (hpy.trans h.symm.le) (norm_nonneg _))
    have h3 := sph_cross p hz
    rw [h1, h2] at h3
    have h4 : (1 : ℂ) / z ^ 2 ≠ 0 := one_div_ne_zero (pow_ne_zero 2 hz)
    exact h4 (by rw [← h3]; ring)

/-- `y_N` is eventually nonzero and `j_N / y_N` tends to zero. -/
theorem sphJ_div_sphY {z : ℂ} (hz : z ≠ 0) :
    (∀ᶠ N in atTop, sphY N z ≠ 0) ∧ Tendsto (fun N => sphJ N z / sphY N z) atTop (𝓝 0) := by
  obtain ⟨M, hM, hg⟩ := sphY_growth hz
  have hlb : ∀ N, M ≤ N → ‖sphY M z‖ ≤ ‖sphY N z‖ := by
    intro N hN
    obtain ⟨j, rfl⟩ : ∃ j, N = M + j := ⟨N - M, by omega⟩
    refine le_trans ?_ (hg j)
    have : (1 : ℝ) ≤ 3 ^ j := one_le_pow₀ (by norm_num)
    nlinarith
  refine ⟨?_, ?_⟩
  · filter_upwards [eventually_ge_atTop M] with N hN h0
    have := hlb N hN
    rw [h0, norm_zero] at this
    linarith
  · rw [tendsto_zero_iff_norm_tendsto_zero]
    refine squeeze_zero' (g := fun N => ‖sphJ N z‖ / ‖sphY M z‖)
      (Eventually.of_forall fun _ => norm_nonneg _) ?_ ?_
    · filter_upwards [eventually_ge_atTop M] with N hN
      rw [norm_div]
      exact div_le_div_of_nonneg_left (norm_nonneg _) hM (hlb N hN)
    · have := (sphJ_tendsto_zero hz).norm.div_const ‖sphY M z‖
      simpa using this

/-! ## `sph_jn_torch_via_rec` -/

/-- Backward solution with value `0` at order `N` and `c` at order `N+1`. -/
noncomputable def jBack (z c : ℂ) (N k : ℕ) : ℂ :=
  c * z ^ 2 * (sphJ k z * sphY N z - sphY k z * sphJ N z)

theorem jBack_top (z c : ℂ) (N : ℕ) : jBack z c N N = 0 := by unfold jBack; ring

theorem jBack_top_succ {z : ℂ} (hz : z ≠ 0) (c : ℂ) (N : ℕ) : jBack z c N (N + 1) = c := by
  unfold jBack
  have := sph_cross N hz
  field_simp at this
  linear_combination c * this

theorem jBack_step {z : ℂ} (hz : z ≠ 0) (c : ℂ) (N k : ℕ) :
    jBack z c N k = (2 * ((k + 1 : ℕ) : ℂ) + 1) / z * jBack z c N (k + 1) - jBack z c N (k + 2) := by
  unfold jBack
  rw [sphJ_seq.three k hz, sphY_seq.three k hz]
  push_cast
  ring

theorem jRec_loop (nMax : ℕ) {z : ℂ} (hz : z ≠ 0) (c : ℂ) (N : ℕ) :
    ∀ m : ℕ, ∀ L : List ℂ,
      (rangeDown m).foldl (jRecStep nMax z) (jBack z c N m, jBack z c N (m + 1), L) =
        (jBack z c N 0, jBack z c N 1,
          L ++ ((List.range (min m (nMax + 1))).map (jBack z c N)).reverse) := by
  intro m
  induction m with
  | zero => intro L; simp [rangeDown_zero]
  | succ m ih =>
    intro L
    rw [rangeDown_succ, List.foldl_cons]
    have hs : jRecStep nMax z (jBack z c N (m + 1), jBack z c N (m + 1 + 1), L) (m + 1) =
        (jBack z c N m, jBack z c N (m + 1), if m + 1 ≤ nMax + 1 then L ++ [jBack z c N m] else L) := by
      unfold jRecStep
      simp only [← jBack_step hz c N m]
    rw [hs, ih]
    congr 2
    by_cases h : m + 1 ≤ nMax + 1
    · rw [if_pos h, min_eq_left h, min_eq_left (by omega), List.range_succ]
      simp
    · rw [if_neg h, min_eq_right (by omega), min_eq_right (by omega)]

theorem sphJnViaRecDepth_eq (n : ℕ) (z : ℂ) (nAdd : ℕ) {eps : ℝ} (hn : 1 ≤ nAdd) (heps : 0 < eps)
    (hz : eps ≤ ‖z‖) :
    sphJnViaRecDepth n z nAdd eps = .ok (tab n fun k => jBack z (1e-25 : ℂ) (n + nAdd) k *
      (sin z / z / jBack z (1e-25 : ℂ) (n + nAdd) 0)) := by
  have hz0 : z ≠ 0 := by rintro rfl; simp at hz; linarith
  unfold sphJnViaRecDepth
  rw [if_neg (by omega)]
  simp only [guardSet_of_le hz]
  have hN : ((n : ℤ) + (nAdd : ℤ)).toNat = n + nAdd := by omega
  have h := jRec_loop n hz0 (1e-25 : ℂ) (n + nAdd) (n + nAdd) []
  rw [jBack_top, jBack_top_succ hz0] at h
  rw [hN]
  simp only [Int.toNat_natCast]
  rw [h, min_eq_right (by omega)]
  simp only [List.nil_append, List.reverse_reverse]
  rw [show (List.range (n + 1)).map (jBack z (1e-25 : ℂ) (n + nAdd)) =
    tab n (jBack z (1e-25 : ℂ) (n + nAdd)) from rfl]
  have hc : tab n (jBack z (1e-25 : ℂ) (n + nAdd)) = jBack z (1e-25 : ℂ) (n + nAdd) 0 ::
      (List.range n).map (fun i => jBack z (1e-25 : ℂ) (n + nAdd) (i + 1)) := by
    unfold tab
    rw [List.range_succ_eq_map]
    simp [Function.comp_def]
  rw [hc]
  simp only
  rw [← hc, map_tab]

/-- Limit of the normalised backward solution. -/
theorem jBack_tendsto {z : ℂ} (hz : z ≠ 0) (c : ℂ) (hc : c ≠ 0) (hs : sin z ≠ 0) (k : ℕ) :
    Tendsto (fun N => jBack z c N k * (sin z / z / jBack z c N 0)) atTop (𝓝 (sphJ k z)) := by
  obtain ⟨hy, hq⟩ := sphJ_div_sphY hz
  have hj0 : sphJ 0 z ≠ 0 := by rw [sphJ_zero]; exact div_ne_zero hs hz
  have h1 : Tendsto (fun N => (sphJ k z - sphY k z * (sphJ N z / sphY N z)) * sphJ 0 z /
      (sphJ 0 z - sphY 0 z * (sphJ N z / sphY N z))) atTop
      (𝓝 ((sphJ k z - sphY k z * 0) * sphJ 0 z / (sphJ 0 z - sphY 0 z * 0))) := by
    refine Tendsto.div ((tendsto_const_nhds.sub (hq.const_mul _)).mul_const _)
      (tendsto_const_nhds.sub (hq.const_mul _)) (by simpa using hj0)
  have e : (sphJ k z - sphY k z * 0) * sphJ 0 z / (sphJ 0 z - sphY 0 z * 0) = sphJ k z := by
    rw [mul_zero, mul_zero, sub_zero, sub_zero]; field_simp
  rw [e] at h1
  refine h1.congr' ?_
  filter_upwards [hy] with N hN
  rw [← sphJ_zero]
  unfold jBack
  have e1 : ∀ i, c * z ^ 2 * (sphJ i z * sphY N z - sphY i z * sphJ N z) =
      c * z ^ 2 * sphY N z * (sphJ i z - sphY i z * (sphJ N z / sphY N z)) := by
    intro i; field_simp
  rw [e1 k, e1 0]
  by_cases h0 : sphJ 0 z - sphY 0 z * (sphJ N z / sphY N z) = 0
  · rw [h0]; simp
  · have : c * z ^ 2 * sphY N z ≠ 0 := mul_ne_zero (mul_ne_zero hc (pow_ne_zero 2 hz)) hN
    field_simp

/-! ## `sph_jn_torch` -/

/-- `1/d`, with the replacement of an exact zero by `1e-50`. -/
noncomputable def recip0 (d : ℂ) : ℂ := 1 / (if ‖d‖ = 0 then d + (1e-50 : ℂ) else d)

theorem recip0_of_ne {d : ℂ} (h : d ≠ 0) : recip0 d = 1 / d := by
  unfold recip0; rw [if_neg (by simpa using h)]

/-- `cfDown z K j` is the continued fraction value at index `K + 1 - j`. -/
noncomputable def cfDown (z : ℂ) (K : ℕ) : ℕ → ℂ
  | 0 => 0
  | j + 1 => recip0 ((2 * ((K - j : ℕ) : ℂ) + 1) / z - cfDown z K j)

/-- Ratio at index `k` of the continued fraction started with `0` at index `K + 1`. -/
noncomputable def cf (z : ℂ) (K k : ℕ) : ℂ := cfDown z K (K + 1 - k)

theorem cf_top (z : ℂ) (K : ℕ) : cf z K (K + 1) = 0 := by simp [cf, cfDown]

theorem cf_step (z : ℂ) {K k : ℕ} (h : k ≤ K) :
    cf z K k = recip0 ((2 * (k : ℂ) + 1) / z - cf z K (k + 1)) := by
  unfold cf
  obtain ⟨j, hj⟩ : ∃ j, K + 1 - k = j + 1 := ⟨K - k, by omega⟩
  rw [hj, cfDown, show K - j = k by omega, show K + 1 - (k + 1) = j by omega]

theorem jRatio_loop (nMax : ℕ) (z : ℂ) (K : ℕ) :
    ∀ m ≤ K, ∀ L : List ℂ,
      let st := (rangeDown m).foldl (jRatioStep nMax z) (cf z K (m + 1), L)
      st.2.length = L.length ∧
        ∀ i, i < L.length → st.2[i]? = if i < m ∧ i < nMax then some (cf z K (i + 1)) else L[i]? := by
  intro m
  induction m with
  | zero => intro _ L; simp [rangeDown_zero]
  | succ m ih =>
    intro hm L
    rw [rangeDown_succ, List.foldl_cons]
    have hs : jRatioStep nMax z (cf z K (m + 1 + 1), L) (m + 1) =
        (cf z K (m + 1), if m + 1 ≤ nMax then L.set m (cf z K (m + 1)) else L) := by
      rw [cf_step z hm]
      rfl
    rw [hs]
    obtain ⟨h2, h3⟩ := ih (by omega) (if m + 1 ≤ nMax then L.set m (cf z K (m + 1)) else L)
    refine ⟨?_, ?_⟩
    · rw [h2]; split <;> simp
    · intro i hi
      rw [h3 i (by split <;> simpa using hi)]
      by_cases h : i < m ∧ i < nMax
      · rw [if_pos h, if_pos ⟨by omega, h.2⟩]
      · rw [if_neg h]
        by_cases hmm : m + 1 ≤ nMax
        · rw [if_pos hmm, List.getElem?_set]
          by_cases hmi : m = i
          · subst hmi
            rw [if_pos rfl, if_pos hi, if_pos ⟨by omega, by omega⟩]
          · rw [if_neg hmi, if_neg (by omega)]
        · rw [if_neg hmm, if_neg (by omega)]

/-- Product of the first `k` ratios. -/
noncomputable def cfProd (z : ℂ) (K : ℕ) : ℕ → ℂ
  | 0 => 1
  | k + 1 => cfProd z K k * cf z K (k + 1)

theorem cumprod_range (g : ℕ → ℂ) (P : ℕ → ℂ) (hP : ∀ k, P (k + 1) = P k * g k) :
    ∀ n s : ℕ, cumprod (P s) ((List.range n).map fun i => g (s + i)) =
      (List.range n).map fun i => P (s + i + 1) := by
  intro n
  induction n with
  | zero => intro s; rfl
  | succ n ih =>
    intro s
    rw [List.range_succ_eq_map, List.map_cons, List.map_map, List.map_cons, List.map_map, cumprod]
    have h1 : P s * g (s + 0) = P (s + 1) := by rw [hP]; rfl
    rw [h1]
    have h2 := ih (s + 1)
    have e1 : (List.range n).map ((fun i => g (s + i)) ∘ Nat.succ) =
        (List.range n).map fun i => g (s + 1 + i) := by
      apply List.map_congr_left; intro i _; simp only [Function.comp]; congr 1; omega
    have e2 : (List.range n).map ((fun i => P (s + i + 1)) ∘ Nat.succ) =
        (List.range n).map fun i => P (s + 1 + i + 1) := by
      apply List.map_congr_left; intro i _; simp only [Function.comp]; congr 1; omega
    rw [e1, h2, e2]

theorem sphJnTorchDepth_eq (n : ℕ) (z : ℂ) (nExtra : ℕ) {smallZ : ℝ} (hs : 0 < smallZ)
    (h : smallZ ≤ ‖z‖) :
    sphJnTorchDepth n z nExtra smallZ =
      .ok (tab n fun k => sin z / z * cfProd z (n + nExtra) k) := by
  have hz0 : z ≠ 0 := by rintro rfl; simp at h; linarith
  unfold sphJnTorchDepth
  rw [if_neg (by omega)]
  simp only [if_neg hz0, if_neg (not_lt.2 h), Int.toNat_natCast]
  have hN : ((n : ℤ) + (nExtra : ℤ)).toNat = n + nExtra := by omega
  rw [hN]
  obtain ⟨h2, h3⟩ := jRatio_loop n z (n + nExtra) (n + nExtra) le_rfl (List.replicate n 0)
  rw [cf_top] at h2 h3
  set st := (rangeDown (n + nExtra)).foldl (jRatioStep n z) (0, List.replicate n 0)
  have hst : st.2 = (List.range n).map fun i => cf z (n + nExtra) (0 + i + 1) := by
    apply List.ext_getElem?
    intro i
    by_cases hi : i < n
    · rw [h3 i (by simpa using hi), if_pos ⟨by omega, hi⟩, List.getElem?_map,
        List.getElem?_range hi]
      simp
    · rw [List.getElem?_eq_none (by rw [h2]; simp; omega), List.getElem?_eq_none (by simp; omega)]
  have hcp := cumprod_range (fun k => cf z (n + nExtra) (k + 1)) (cfProd z (n + nExtra))
    (fun k => rfl) n 0
  rw [hst, show (1 : ℂ) = cfProd z (n + nExtra) 0 from rfl, hcp]
  congr 1
  unfold tab
  rw [List.range_succ_eq_map]
  simp [Function.comp_def, cfProd]

theorem cf_near {z : ℂ} (hz : z ≠ 0) (K : ℕ) :
    ∀ j k : ℕ, k + j = K + 1 → 2 * ‖z‖ ≤ k → ‖cf z K k‖ ≤ 1 / 2 := by
  have hzp : 0 < ‖z‖ := norm_pos_iff.2 hz
  intro j
  induction j with
  | zero => intro k hk _; rw [show k = K + 1 by omega, cf_top]; simp
  | succ j ih =>
    intro k hk h
    have h1 := ih (k + 1) (by omega) (by push_cast; linarith)
    have h2 : 2 ≤ ‖(2 * (k : ℂ) + 1) / z - cf z K (k + 1)‖ := by
      have h3 := norm_sub_norm_le ((2 * (k : ℂ) + 1) / z) (cf z K (k + 1))
      rw [norm_natCast_div (2 * (k : ℝ) + 1) (by positivity) _ _ (by push_cast; ring)] at h3
      have h4 : 4 ≤ (2 * (k : ℝ) + 1) / ‖z‖ := by rw [le_div_iff₀ hzp]; linarith
      linarith
    rw [cf_step z (by omega : k ≤ K), recip0_of_ne (by
      intro h0; rw [h0, norm_zero] at h2; linarith), norm_div, norm_one,
      div_le_div_iff₀ (by linarith) (by norm_num)]
    linarith

/-- Exact ratio `j_k / j_{k-1}`. -/
noncomputable def jRat (z : ℂ) (k : ℕ) : ℂ := sphJ (k + 1) z / sphJ k z

theorem jRat_step {z : ℂ} (hz : z ≠ 0) (k : ℕ) (h1 : sphJ (k + 1) z ≠ 0) :
    (2 * ((k + 1 : ℕ) : ℂ) + 1) / z - jRat z (k + 1) = sphJ k z / sphJ (k + 1) z := by
  unfold jRat
  rw [sphJ_seq.three k hz]
  push_cast
  field_simp
  ring

theorem jRat_near {z : ℂ} (hz : z ≠ 0) (k : ℕ) (h : 2 * ‖z‖ ≤ k + 1) : ‖jRat z k‖ ≤ 1 / 2 := by
  obtain ⟨h1, h2⟩ := sphJ_ratio k hz h
  unfold jRat
  rw [norm_div, div_le_iff₀ (norm_pos_iff.2 h1)]
  linarith

theorem cf_error {z : ℂ} (hz : z ≠ 0) (K : ℕ) :
    ∀ j k : ℕ, k + 1 + j = K + 1 → 2 * ‖z‖ ≤ k + 1 → ‖cf z K (k + 1) - jRat z k‖ ≤ (1 / 4) ^ j := by
  have hzp : 0 < ‖z‖ := norm_pos_iff.2 hz
  intro j
  induction j with
  | zero =>
    intro k hk h
    rw [show k + 1 = K + 1 by omega, cf_top, zero_sub, norm_neg]
    have := jRat_near hz k h
    simp
    linarith
  | succ j ih =>
    intro k hk h
    have hi := ih (k + 1) (by omega) (by push_cast; linarith)
    have hj0 := (sphJ_ratio k hz h).1
    have hj1 := (sphJ_ratio (k + 1) hz (by push_cast; linarith)).1
    have hd : ∀ x : ℂ, ‖x‖ ≤ 1 / 2 → 2 ≤ ‖(2 * ((k + 1 : ℕ) : ℂ) + 1) / z - x‖ := by
      intro x hx
      have h3 := norm_sub_norm_le ((2 * ((k + 1 : ℕ) : ℂ) + 1) / z) x
      rw [norm_natCast_div (2 * ((k : ℝ) + 1) + 1) (by positivity) _ _ (by push_cast; ring)] at h3
      have h4 : 4 ≤ (2 * ((k : ℝ) + 1) + 1) / ‖z‖ := by rw [le_div_iff₀ hzp]; linarith
      linarith
    have hA := hd _ (cf_near hz K j (k + 1 + 1) (by omega) (by push_cast; linarith))
    have hB := hd _ (jRat_near hz (k + 1) (by push_cast; linarith))
    have hA0 : (2 * ((k + 1 : ℕ) : ℂ) + 1) / z - cf z K (k + 1 + 1) ≠ 0 := by
      intro h0; rw [h0, norm_zero] at hA; linarith
    have hB0 : (2 * ((k + 1 : ℕ) : ℂ) + 1) / z - jRat z (k + 1) ≠ 0 := by
      intro h0; rw [h0, norm_zero] at hB; linarith
    have e1 : jRat z k = 1 / ((2 * ((k + 1 : ℕ) : ℂ) + 1) / z - jRat z (k + 1)) := by
      rw [jRat_step hz k hj1]; unfold jRat; field_simp
    rw [cf_step z (by omega : k + 1 ≤ K), recip0_of_ne hA0, e1]
    set A := (2 * ((k + 1 : ℕ) : ℂ) + 1) / z - cf z K (k + 1 + 1)
    set B := (2 * ((k + 1 : ℕ) : ℂ) + 1) / z - jRat z (k + 1)
    have e : 1 / A - 1 / B = (cf z K (k + 1 + 1) - jRat z (k + 1)) / (A * B) := by
      have : cf z K (k + 1 + 1) - jRat z (k + 1) = B - A := by simp only [A, B]; ring
      rw [this]; field_simp
    rw [e, norm_div, norm_mul, div_le_iff₀ (by positivity)]
    have hAB : 4 ≤ ‖A‖ * ‖B‖ := by nlinarith
    have hp : (0 : ℝ) ≤ (1 / 4) ^ (j + 1) := by positivity
    calc _ ≤ (1 / 4 : ℝ) ^ j := hi
      _ = (1 / 4) ^ (j + 1) * 4 := by rw [pow_succ]; ring
      _ ≤ (1 / 4) ^ (j + 1) * (‖A‖ * ‖B‖) := mul_le_mul_of_nonneg_left hAB hp

theorem recip0_continuousAt {d : ℂ} (h : d ≠ 0) : ContinuousAt recip0 d := by
  have he : recip0 =ᶠ[𝓝 d] fun d => 1 / d := by
    filter_upwards [isOpen_ne.mem_nhds h] with v hv
    exact recip0_of_ne hv
  exact (continuousAt_const.div continuousAt_id h).congr he.symm

theorem cf_tendsto {z : ℂ} (hz : z ≠ 0) (k : ℕ) (hj : ∀ i, k ≤ i → sphJ i z ≠ 0) :
    Tendsto (fun K => cf z K (k + 1)) atTop (𝓝 (jRat z k)) := by
  obtain ⟨m, hm⟩ := exists_nat_ge (2 * ‖z‖)
  have base : ∀ p, m ≤ p → Tendsto (fun K => cf z K (p + 1)) atTop (𝓝 (jRat z p)) := by
    intro p hp
    rw [tendsto_iff_norm_sub_tendsto_zero]
    have hp' : 2 * ‖z‖ ≤ (p : ℝ) + 1 := by
      have : (m : ℝ) ≤ p := by exact_mod_cast hp
      linarith
    refine squeeze_zero' (g := fun N : ℕ => (1 / 4 : ℝ) ^ (N - p)) ?_ ?_ ?_
    · exact Eventually.of_forall fun N => norm_nonneg _
    · filter_upwards [eventually_ge_atTop p] with N hN
      exact cf_error hz N (N - p) p (by omega) hp'
    · exact (tendsto_pow_atTop_nhds_zero_of_lt_one (by norm_num) (by norm_num)).comp
        (tendsto_sub_atTop_nat p)
  have down : ∀ j p : ℕ, k ≤ p → m ≤ p + j →
      Tendsto (fun K => cf z K (p + 1)) atTop (𝓝 (jRat z p)) := by
    intro j
    induction j with
    | zero => intro p _ h; exact base p h
    | succ j ih =>
      intro p hp h
      have hi := ih (p + 1) (by omega) (by omega)
      have j0 := hj p hp
      have j1 := hj (p + 1) (by omega)
      have hB := jRat_step hz p j1
      have hB0 : (2 * ((p + 1 : ℕ) : ℂ) + 1) / z - jRat z (p + 1) ≠ 0 := by
        rw [hB]; exact div_ne_zero j0 j1
      have hlim : jRat z p = recip0 ((2 * ((p + 1 : ℕ) : ℂ) + 1) / z - jRat z (p + 1)) := by
        rw [recip0_of_ne hB0, hB]; unfold jRat; field_simp
      rw [hlim]
      have h2 := (recip0_continuousAt hB0).tendsto.comp
        ((tendsto_const_nhds (x := (2 * ((p + 1 : ℕ) : ℂ) + 1) / z)).sub hi)
      refine h2.congr' ?_
      filter_upwards [eventually_ge_atTop (p + 1)] with N hN
      rw [cf_step z hN]
      rfl
  exact down m k le_rfl (by omega)

theorem cfProd_tendsto {z : ℂ} (hz : z ≠ 0) (hj : ∀ i, sphJ i z ≠ 0) (k : ℕ) :
    Tendsto (fun K => sin z / z * cfProd z K k) atTop (𝓝 (sphJ k z)) := by
  induction k with
  | zero => simp only [cfProd, mul_one]; rw [sphJ_zero]; exact tendsto_const_nhds
  | succ k ih =>
    have h := ih.mul (cf_tendsto hz k (fun i _ => hj i))
    have e : sphJ k z * jRat z k = sphJ (k + 1) z := by
      unfold jRat; have := hj k; field_simp
    rw [e] at h
    refine h.congr fun K => ?_
    simp only [cfProd]; ring

end MieDiff
