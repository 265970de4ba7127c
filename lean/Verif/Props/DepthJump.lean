import Verif.Proofs.BatchDepth
import Verif.Proofs.NearTorch

/-!
# C117: the torch-native `j_n` jump where their depth changes

`sph_jn_torch_via_rec` and `sph_jn_torch` start their downward recurrences a number of orders above the requested one that is rounded from
`|z|`.  Where that number changes by one, the returned values change by a finite amount, so they are not continuous functions of `z`: spectra
and gradients computed from them have steps that the exact functions do not have.
-/

namespace MieDiff

open Spec Complex Filter Topology

/-- Cross product `j_k(z) y_N(z) - y_k(z) j_N(z)` of spherical Bessel functions: up to a factor, the sequence in `k` that a downward
recurrence started at order `N` produces. -/
noncomputable def Spec.crossJY (k N : ℕ) (z : ℂ) : ℂ := sphJ k z * sphY N z - sphY k z * sphJ N z

theorem recDepth_left {d : ℕ} (h1 : 11 ≤ d) (h2 : d ≤ 35) : ∀ᶠ x : ℝ in 𝓝[<] (2 * d / 3 : ℝ), recDepth x = (d - 1 : ℕ) := by
  have hd : (2 * ((d : ℝ) - 1) / 3) < 2 * d / 3 := by linarith
  filter_upwards [Ioo_mem_nhdsLT hd] with x hx
  have hf : ⌊3 / 2 * x⌋ = (d : ℤ) - 1 := by
    rw [Int.floor_eq_iff]
    push_cast
    constructor <;> linarith [hx.1, hx.2]
  unfold recDepth
  omega

theorem recDepth_at {d : ℕ} (h1 : 11 ≤ d) (h2 : d ≤ 35) : recDepth (2 * d / 3) = d := by
  have hf : ⌊(3 / 2 * (2 * d / 3) : ℝ)⌋ = (d : ℤ) := by
    rw [Int.floor_eq_iff]
    push_cast
    constructor <;> linarith
  unfold recDepth
  omega

/-- Order 1 of the downward recurrence started at order `N` and scaled to `sin z / z` at order 0 (special.py:760-783). -/
noncomputable def recOne (N : ℕ) (z : ℂ) : ℂ := jBack z (1e-25 : ℂ) N 1 * (sin z / z / jBack z (1e-25 : ℂ) N 0)

theorem crossJY_continuousAt {z : ℂ} (hz : z ≠ 0) (k N : ℕ) : ContinuousAt (crossJY k N) z :=
  ((sphJ_seq.raise k z hz).continuousAt.mul (sphY_seq.raise N z hz).continuousAt).sub
    ((sphY_seq.raise k z hz).continuousAt.mul (sphJ_seq.raise N z hz).continuousAt)

theorem recOne_continuousAt {N : ℕ} {z : ℂ} (hz : z ≠ 0) (hW : crossJY 0 N z ≠ 0) : ContinuousAt (recOne N) z := by
  have cJ : ∀ n, ContinuousAt (sphJ n) z := fun n => (sphJ_seq.raise n z hz).continuousAt
  have cY : ∀ n, ContinuousAt (sphY n) z := fun n => (sphY_seq.raise n z hz).continuousAt
  have cB : ∀ k, ContinuousAt (fun z => jBack z (1e-25 : ℂ) N k) z := fun k =>
    (continuousAt_const.mul (continuousAt_id.pow 2)).mul (((cJ k).mul (cY N)).sub ((cY k).mul (cJ N)))
  refine (cB 1).mul ((continuous_sin.continuousAt.div continuousAt_id hz).div (cB 0) ?_)
  exact mul_ne_zero (mul_ne_zero (by norm_num) (pow_ne_zero 2 hz)) hW

theorem recOne_jump {N : ℕ} {z : ℂ} (hz : z ≠ 0) (h0 : crossJY 0 N z ≠ 0)
    (h1 : crossJY 0 (N + 1) z ≠ 0) :
    recOne (N + 1) z - recOne N z = sin z / (z ^ 5 * (crossJY 0 (N + 1) z) *
      (crossJY 0 N z)) := by
  have c1 := sph_cross 0 hz
  have c2 := sph_cross N hz
  rw [zero_add] at c1
  have pl : (crossJY 1 (N + 1) z) * (crossJY 0 N z) -
      (crossJY 1 N z) * (crossJY 0 (N + 1) z) = 1 / z ^ 4 := by
    have e : (1 : ℂ) / z ^ 4 = 1 / z ^ 2 * (1 / z ^ 2) := by field_simp
    rw [e]
    nth_rewrite 1 [← c1]
    rw [← c2]
    unfold crossJY
    ring
  have e0 : ∀ k M, jBack z (1e-25 : ℂ) M k = 1e-25 * z ^ 2 * crossJY k M z := fun _ _ => rfl
  unfold recOne
  rw [e0, e0, e0, e0]
  generalize crossJY 0 N z = A at *
  generalize crossJY 0 (N + 1) z = B at *
  generalize crossJY 1 (N + 1) z = C at *
  generalize crossJY 1 N z = D at *
  have e : ∀ X Y : ℂ, Y ≠ 0 → (1e-25 : ℂ) * z ^ 2 * X * (sin z / z / (1e-25 * z ^ 2 * Y)) = sin z / z * (X / Y) := by
    intro X Y hY
    have : (1e-25 : ℂ) ≠ 0 := by norm_num
    field_simp
  rw [e C B h1, e D A h0]
  field_simp at pl ⊢
  linear_combination sin z * pl

/-- C117: `sph_jn_torch_via_rec` chooses its depth from `|z|`; at `|z| = 2 d / 3`, where the depth goes from `d - 1` to `d`, the first order it
returns for real arguments jumps. Left limit and jump are finite wherever neither of the two sweeps vanishes at order 0. -/
theorem C117_jump {n d : ℕ} (hn : 1 ≤ n) (h1 : 11 ≤ d) (h2 : d ≤ 35) {x : ℝ} (hx : x = 2 * d / 3)
    (hA : crossJY 0 (n + d - 1) x ≠ 0)
    (hB : crossJY 0 (n + d) x ≠ 0) :
    ∃ (v : ℝ → List ℂ) (L : ℂ), (∀ t : ℝ, sphJnViaRec n (t : ℂ) |t| = .ok (v t)) ∧
      Tendsto (fun t => (v t).getD 1 0) (𝓝[<] x) (𝓝 L) ∧
      (v x).getD 1 0 - L = sin x / (x ^ 5 * (crossJY 0 (n + d) x) *
        (crossJY 0 (n + d - 1) x)) ∧
      (Real.sin x ≠ 0 → ¬ContinuousAt (fun t => (v t).getD 1 0) x) := by
  have hd : (11 : ℝ) ≤ d := by exact_mod_cast h1
  have hx0 : 7 < x := by rw [hx]; linarith
  have hz : (x : ℂ) ≠ 0 := by exact_mod_cast (by linarith : x ≠ 0)
  obtain ⟨N, hN⟩ : ∃ N, n + d = N + 1 := ⟨n + d - 1, by omega⟩
  have hN' : n + d - 1 = N := by omega
  rw [hN'] at hA ⊢
  rw [hN] at hB ⊢
  have hex : ∀ t : ℝ, ∃ v, sphJnViaRec n (t : ℂ) |t| = .ok v := fun t => (sphJnViaRec_ok n t |t|).imp fun _ h => h.1
  choose v hv using hex
  have val : ∀ (t : ℝ) (e M : ℕ), 1 ≤ t → recDepth t = e → 1 ≤ e → n + e = M → (v t).getD 1 0 = recOne M t := by
    intro t e M ht he h1e hM
    have h := hv t
    rw [sphJnViaRec_depth, abs_of_pos (by linarith), he, sphJnViaRecDepth_eq n _ e h1e (by norm_num) (by
      rw [norm_real, Real.norm_eq_abs, abs_of_pos (by linarith)]; norm_num; linarith), hM] at h
    rw [← Except.ok.inj h, List.getD_eq_getElem?_getD, tab_getElem?, if_pos hn]
    rfl
  have hleft : Tendsto (fun t => (v t).getD 1 0) (𝓝[<] x) (𝓝 (recOne N x)) := by
    have hc : Tendsto (fun t : ℝ => recOne N t) (𝓝[<] x) (𝓝 (recOne N x)) :=
      ((recOne_continuousAt hz hA).comp (f := fun t : ℝ => (t : ℂ)) continuous_ofReal.continuousAt).tendsto.mono_left nhdsWithin_le_nhds
    refine hc.congr' ?_
    have hdl := recDepth_left h1 h2
    rw [← hx] at hdl
    filter_upwards [hdl, nhdsWithin_le_nhds (lt_mem_nhds (by linarith : (1 : ℝ) < x))] with t ht ht1
    exact (val t (d - 1) N ht1.le ht (by omega) (by omega)).symm
  have hat : (v x).getD 1 0 = recOne (N + 1) x := val x d (N + 1) (by linarith) (by rw [hx]; exact recDepth_at h1 h2) (by omega) hN
  have hj := recOne_jump hz hA hB
  refine ⟨v, recOne N x, hv, hleft, by rw [hat]; exact hj, fun hs hcont => ?_⟩
  have hu := tendsto_nhds_unique (hcont.tendsto.mono_left nhdsWithin_le_nhds) hleft
  rw [hat] at hu
  rw [hu, sub_self] at hj
  have hs' : sin (x : ℂ) ≠ 0 := by rw [← ofReal_sin]; exact_mod_cast hs
  exact absurd hj.symm (div_ne_zero hs' (mul_ne_zero (mul_ne_zero (pow_ne_zero 5 hz) hB) hA))

/-! ## The continued fraction -/

theorem ratioDepth_left {d : ℕ} (h1 : 21 ≤ d) (h2 : d ≤ 50) :
    ∀ᶠ x : ℝ in 𝓝[<] (((d : ℝ) - 10) / 2), ratioDepth x = (d - 1 : ℕ) := by
  have hd : ((d : ℝ) - 11) / 2 < ((d : ℝ) - 10) / 2 := by linarith
  filter_upwards [Ioo_mem_nhdsLT hd] with x hx
  have hf : ⌊2 * x⌋ = (d : ℤ) - 11 := by
    rw [Int.floor_eq_iff]
    push_cast
    constructor <;> linarith [hx.1, hx.2]
  unfold ratioDepth
  omega

theorem ratioDepth_at {d : ℕ} (h1 : 21 ≤ d) (h2 : d ≤ 50) : ratioDepth (((d : ℝ) - 10) / 2) = d := by
  have hf : ⌊(2 * (((d : ℝ) - 10) / 2) : ℝ)⌋ = (d : ℤ) - 10 := by
    rw [Int.floor_eq_iff]
    push_cast
    constructor <;> linarith
  unfold ratioDepth
  omega

theorem cf_cross {z : ℂ} (hz : z ≠ 0) {K : ℕ} (hne : ∀ i ≤ K, crossJY i (K + 1) z ≠ 0) :
    ∀ j k : ℕ, k + j = K → cf z K (k + 1) = jBack z (1e-25 : ℂ) (K + 1) (k + 1) / jBack z (1e-25 : ℂ) (K + 1) k := by
  have hb : ∀ i ≤ K, jBack z (1e-25 : ℂ) (K + 1) i ≠ 0 := fun i hi =>
    mul_ne_zero (mul_ne_zero (by norm_num) (pow_ne_zero 2 hz)) (hne i hi)
  intro j
  induction j with
  | zero =>
    intro k hk
    obtain rfl : k = K := by omega
    rw [cf_top, jBack_top, zero_div]
  | succ j ih =>
    intro k hk
    have hn1 := hb (k + 1) (by omega)
    have hn0 := hb k (by omega)
    have e : (2 * ((k + 1 : ℕ) : ℂ) + 1) / z - cf z K (k + 1 + 1) =
        jBack z (1e-25 : ℂ) (K + 1) k / jBack z (1e-25 : ℂ) (K + 1) (k + 1) := by
      rw [ih (k + 1) (by omega), eq_div_iff hn1, sub_mul, div_mul_cancel₀ _ hn1]
      exact (jBack_step hz _ (K + 1) k).symm
    rw [cf_step z (by omega : k + 1 ≤ K), e, recip0_of_ne (div_ne_zero hn0 hn1), one_div_div]

theorem ratio_entry {n e K : ℕ} (hn : 1 ≤ n) {t : ℝ} (ht : 1 ≤ t) (he : ratioDepth t = e) (hK : n + e = K)
    (hne : ∀ i ≤ K, crossJY i (K + 1) t ≠ 0) :
    ∃ v, sphJnTorch n (t : ℂ) |t| = .ok v ∧ v.getD 1 0 = recOne (K + 1) t := by
  have hz : (t : ℂ) ≠ 0 := by exact_mod_cast (by linarith : t ≠ 0)
  have hnorm : ‖(t : ℂ)‖ = t := by rw [norm_real, Real.norm_eq_abs, abs_of_pos (by linarith)]
  have hbig : (1e-8 : ℝ) ≤ ‖(t : ℂ)‖ := by rw [hnorm]; norm_num; linarith
  have hr : resolveNAddRatio (.str "auto") 50 |t| = .ok (e : ℤ) := by
    unfold ratioDepth at he
    rw [abs_of_pos (by linarith)]
    simp only [resolveNAddRatio, if_true]
    rw [mul_comm t 2]
    congr 1
    omega
  refine ⟨tab n fun k => sin (t : ℂ) / t * cfProd t (n + e) k, ?_, ?_⟩
  · unfold sphJnTorch
    rw [if_neg (by omega), if_neg (not_lt.2 hbig), hr]
    exact sphJnTorchDepth_eq n t e (by norm_num) hbig
  · rw [hK, List.getD_eq_getElem?_getD, tab_getElem?, if_pos hn, Option.getD_some]
    have h0 := cf_cross hz hne K 0 (by omega)
    rw [zero_add] at h0
    simp only [cfProd, one_mul, zero_add]
    rw [h0]
    unfold recOne
    ring

/-- C117: the default `sph_jn_torch` has the same kind of jump at `|z| = (d - 10) / 2`, where the depth of its continued fraction goes from
`d - 1` to `d`. -/
theorem C117_ratio {n d : ℕ} (hn : 1 ≤ n) (h1 : 21 ≤ d) (h2 : d ≤ 50) {x : ℝ} (hx : x = ((d : ℝ) - 10) / 2)
    (hA : ∀ i < n + d, crossJY i (n + d) x ≠ 0) (hB : ∀ i ≤ n + d, crossJY i (n + d + 1) x ≠ 0) :
    ∃ (v : ℝ → List ℂ) (L : ℂ), (∀ t : ℝ, sphJnTorch n (t : ℂ) |t| = .ok (v t)) ∧
      Tendsto (fun t => (v t).getD 1 0) (𝓝[<] x) (𝓝 L) ∧
      (v x).getD 1 0 - L = sin x / (x ^ 5 * crossJY 0 (n + d + 1) x * crossJY 0 (n + d) x) ∧
      (Real.sin x ≠ 0 → ¬ContinuousAt (fun t => (v t).getD 1 0) x) := by
  have hd : (21 : ℝ) ≤ d := by exact_mod_cast h1
  have hx0 : 5 < x := by rw [hx]; linarith
  have hz : (x : ℂ) ≠ 0 := by exact_mod_cast (by linarith : x ≠ 0)
  obtain ⟨N, hN⟩ : ∃ N, n + d = N + 1 := ⟨n + d - 1, by omega⟩
  rw [hN] at hA hB ⊢
  have hex : ∀ t : ℝ, ∃ v, sphJnTorch n (t : ℂ) |t| = .ok v := fun t => (sphJnTorch_ok n t |t|).imp fun _ h => h.1
  choose v hv using hex
  have val : ∀ (t : ℝ) (e K : ℕ), 1 ≤ t → ratioDepth t = e → n + e = K → (∀ i ≤ K, crossJY i (K + 1) t ≠ 0) →
      (v t).getD 1 0 = recOne (K + 1) t := by
    intro t e K ht he hK hne
    obtain ⟨w, hw, h⟩ := ratio_entry hn ht he hK hne
    rw [hv t] at hw
    rw [Except.ok.inj hw, h]
  have hA0 := hA 0 (by omega)
  have hB0 := hB 0 (by omega)
  have hleft : Tendsto (fun t => (v t).getD 1 0) (𝓝[<] x) (𝓝 (recOne (N + 1) x)) := by
    have hc : Tendsto (fun t : ℝ => recOne (N + 1) t) (𝓝[<] x) (𝓝 (recOne (N + 1) x)) :=
      ((recOne_continuousAt hz hA0).comp (f := fun t : ℝ => (t : ℂ)) continuous_ofReal.continuousAt).tendsto.mono_left
        nhdsWithin_le_nhds
    refine hc.congr' ?_
    have hdl := ratioDepth_left h1 h2
    rw [← hx] at hdl
    have hnz : ∀ᶠ t : ℝ in 𝓝[<] x, ∀ i ≤ N, crossJY i (N + 1) t ≠ 0 := by
      refine nhdsWithin_le_nhds ((Set.finite_Iic N).eventually_all.2 fun i hi => ?_)
      have hc : ContinuousAt (fun t : ℝ => crossJY i (N + 1) t) x :=
        ContinuousAt.comp (g := crossJY i (N + 1)) (f := fun t : ℝ => (t : ℂ)) (crossJY_continuousAt hz i (N + 1))
          continuous_ofReal.continuousAt
      exact hc.eventually_ne (hA i (Nat.lt_succ_of_le hi))
    filter_upwards [hdl, hnz, nhdsWithin_le_nhds (lt_mem_nhds (by linarith : (1 : ℝ) < x))] with t ht hne ht1
    exact (val t (d - 1) N ht1.le ht (by omega) hne).symm
  have hat : (v x).getD 1 0 = recOne (N + 1 + 1) x :=
    val x d (N + 1) (by linarith) (by rw [hx]; exact ratioDepth_at h1 h2) hN hB
  have hj := recOne_jump hz hA0 hB0
  refine ⟨v, recOne (N + 1) x, hv, hleft, by rw [hat]; exact hj, fun hs hcont => ?_⟩
  have hu := tendsto_nhds_unique (hcont.tendsto.mono_left nhdsWithin_le_nhds) hleft
  rw [hat] at hu
  rw [hu, sub_self] at hj
  have hs' : sin (x : ℂ) ≠ 0 := by rw [← ofReal_sin]; exact_mod_cast hs
  exact absurd hj.symm (div_ne_zero hs' (mul_ne_zero (mul_ne_zero (pow_ne_zero 5 hz) hB0) hA0))

/-! ## Examples -/

theorem back_11 : crossJY 0 11 (22 / 3) = -316599997164849 / 1168636602822656 := by
  have hz : (22 / 3 : ℂ) ≠ 0 := by norm_num
  have h12 : jBack (22 / 3) 1 11 12 = 1 := jBack_top_succ hz 1 11
  have h11 : jBack (22 / 3) 1 11 11 = 0 := jBack_top _ 1 11
  have h10 : jBack (22 / 3) 1 11 10 = -1 := by
    rw [jBack_step hz 1 11 10, h11, h12]
    norm_num
  have h9 : jBack (22 / 3) 1 11 9 = -63 / 22 := by
    rw [jBack_step hz 1 11 9, h10, h11]
    norm_num
  have h8 : jBack (22 / 3) 1 11 8 = -3107 / 484 := by
    rw [jBack_step hz 1 11 8, h9, h10]
    norm_num
  have h7 : jBack (22 / 3) 1 11 7 = -127965 / 10648 := by
    rw [jBack_step hz 1 11 7, h8, h9]
    norm_num
  have h6 : jBack (22 / 3) 1 11 6 = -4254637 / 234256 := by
    rw [jBack_step hz 1 11 6, h7, h8]
    norm_num
  have h5 : jBack (22 / 3) 1 11 5 = -103995783 / 5153632 := by
    rw [jBack_step hz 1 11 5, h6, h7]
    norm_num
  have h4 : jBack (22 / 3) 1 11 4 = -124783321 / 10307264 := by
    rw [jBack_step hz 1 11 4, h5, h6]
    norm_num
  have h3 : jBack (22 / 3) 1 11 3 = 1206664785 / 226759808 := by
    rw [jBack_step hz 1 11 3, h4, h5]
    norm_num
  have h2 : jBack (22 / 3) 1 11 2 = 85735087849 / 4988715776 := by
    rw [jBack_step hz 1 11 2, h3, h4]
    norm_num
  have h1 : jBack (22 / 3) 1 11 1 = 702000561795 / 109751747072 := by
    rw [jBack_step hz 1 11 1, h2, h3]
    norm_num
  have h0 : jBack (22 / 3) 1 11 0 = -35177777462761 / 2414538435584 := by
    rw [jBack_step hz 1 11 0, h1, h2]
    norm_num
  rw [jBack] at h0
  unfold crossJY
  linear_combination (9 / 484) * h0

theorem back_12 : crossJY 0 12 (22 / 3) = -18907836081204681 / 25710005262098432 := by
  have hz : (22 / 3 : ℂ) ≠ 0 := by norm_num
  have h13 : jBack (22 / 3) 1 12 13 = 1 := jBack_top_succ hz 1 12
  have h12 : jBack (22 / 3) 1 12 12 = 0 := jBack_top _ 1 12
  have h11 : jBack (22 / 3) 1 12 11 = -1 := by
    rw [jBack_step hz 1 12 11, h12, h13]
    norm_num
  have h10 : jBack (22 / 3) 1 12 10 = -69 / 22 := by
    rw [jBack_step hz 1 12 10, h11, h12]
    norm_num
  have h9 : jBack (22 / 3) 1 12 9 = -3863 / 484 := by
    rw [jBack_step hz 1 12 9, h10, h11]
    norm_num
  have h8 : jBack (22 / 3) 1 12 8 = -186795 / 10648 := by
    rw [jBack_step hz 1 12 8, h9, h10]
    norm_num
  have h7 : jBack (22 / 3) 1 12 7 = -7656853 / 234256 := by
    rw [jBack_step hz 1 12 7, h8, h9]
    norm_num
  have h6 : jBack (22 / 3) 1 12 6 = -254149605 / 5153632 := by
    rw [jBack_step hz 1 12 6, h7, h8]
    norm_num
  have h5 : jBack (22 / 3) 1 12 5 = -6205917743 / 113379904 := by
    rw [jBack_step hz 1 12 5, h6, h7]
    norm_num
  have h4 : jBack (22 / 3) 1 12 4 = -7435170609 / 226759808 := by
    rw [jBack_step hz 1 12 4, h5, h6]
    norm_num
  have h3 : jBack (22 / 3) 1 12 3 = 72310774249 / 4988715776 := by
    rw [jBack_step hz 1 12 3, h4, h5]
    norm_num
  have h2 : jBack (22 / 3) 1 12 2 = 5117148833985 / 109751747072 := by
    rw [jBack_step hz 1 12 2, h3, h4]
    norm_num
  have h1 : jBack (22 / 3) 1 12 1 = 41758817773259 / 2414538435584 := by
    rw [jBack_step hz 1 12 1, h2, h3]
    norm_num
  have h0 : jBack (22 / 3) 1 12 0 = -2100870675689409 / 53119845582848 := by
    rw [jBack_step hz 1 12 0, h1, h2]
    norm_num
  rw [jBack] at h0
  unfold crossJY
  linear_combination (9 / 484) * h0

theorem sin_22_3 : 1 / 2 < Real.sin (22 / 3) := by
  have h1 := Real.pi_gt_d2
  have h2 := Real.pi_lt_d2
  norm_num at h1 h2
  rw [← Real.sin_sub_two_pi]
  have h := Real.mul_le_sin (x := 22 / 3 - 2 * Real.pi) (by linarith) (by linarith)
  refine lt_of_lt_of_le ?_ h
  rw [div_mul_eq_mul_div, lt_div_iff₀ Real.pi_pos]
  linarith

/-- The first order from `sph_jn_torch_via_rec(1, z)` is not continuous at `z = 22/3`: it jumps there by more than `10⁻⁴`. -/
theorem C117_size : ∃ (v : ℝ → List ℂ) (L : ℂ), (∀ t : ℝ, sphJnViaRec 1 (t : ℂ) |t| = .ok (v t)) ∧
    Tendsto (fun t => (v t).getD 1 0) (𝓝[<] (22 / 3)) (𝓝 L) ∧ 1e-4 < ‖(v (22 / 3)).getD 1 0 - L‖ ∧
    ¬ContinuousAt (fun t => (v t).getD 1 0) (22 / 3) := by
  have e : (((22 / 3 : ℝ)) : ℂ) = 22 / 3 := by push_cast; rfl
  obtain ⟨v, L, h1, h3, h4, h2⟩ := C117_jump (n := 1) (d := 11) (x := 22 / 3) le_rfl le_rfl (by norm_num) (by norm_num)
    (by rw [e]; exact (by rw [back_11]; norm_num : crossJY 0 11 (22 / 3) ≠ 0))
    (by rw [e]; exact (by rw [back_12]; norm_num : crossJY 0 12 (22 / 3) ≠ 0))
  have hs := sin_22_3
  refine ⟨v, L, h1, h3, ?_, h2 (by linarith)⟩
  rw [h4, norm_div, ← ofReal_sin, norm_real, Real.norm_of_nonneg (by linarith), e]
  rw [show crossJY 0 (1 + 11) (22 / 3) = _ from back_12, show crossJY 0 (1 + 11 - 1) (22 / 3) = _ from back_11]
  rw [norm_mul, norm_mul, norm_pow]
  norm_num at hs ⊢
  rw [lt_div_iff₀ (by norm_num)]
  linarith

/-- C117: so arbitrarily close to `22/3` there are arguments at which `sph_jn_torch_via_rec(1, z)` returns a first order that is wrong by
more than `5 · 10⁻⁵`. -/
theorem C117_wrong {r : ℝ} (hr : 0 < r) : ∃ (t : ℝ) (v : List ℂ), |t - 22 / 3| < r ∧ sphJnViaRec 1 (t : ℂ) |t| = .ok v ∧
    5e-5 < ‖v.getD 1 0 - sphJ 1 t‖ := by
  obtain ⟨v, L, h1, h2, h3, -⟩ := C117_size
  by_contra hno
  push Not at hno
  have hall : ∀ t : ℝ, |t - 22 / 3| < r → ‖(v t).getD 1 0 - sphJ 1 t‖ ≤ 5e-5 := fun t ht => hno t (v t) ht (h1 t)
  have hz : (((22 / 3 : ℝ)) : ℂ) ≠ 0 := by exact_mod_cast (by norm_num : (22 / 3 : ℝ) ≠ 0)
  have hj : Tendsto (fun t : ℝ => sphJ 1 t) (𝓝[<] (22 / 3)) (𝓝 (sphJ 1 ((22 / 3 : ℝ) : ℂ))) :=
    (ContinuousAt.comp (g := sphJ 1) (f := fun t : ℝ => (t : ℂ)) (sphJ_seq.raise 1 _ hz).continuousAt
      continuous_ofReal.continuousAt).tendsto.mono_left nhdsWithin_le_nhds
  have hL : ‖L - sphJ 1 ((22 / 3 : ℝ) : ℂ)‖ ≤ 5e-5 := by
    refine le_of_tendsto (h2.sub hj).norm ?_
    filter_upwards [nhdsWithin_le_nhds (Metric.ball_mem_nhds (22 / 3 : ℝ) hr)] with t ht
    exact hall t (by rwa [Metric.mem_ball, Real.dist_eq] at ht)
  have hx := hall (22 / 3) (by simpa using hr)
  have := norm_sub_le_norm_sub_add_norm_sub ((v (22 / 3)).getD 1 0) (sphJ 1 ((22 / 3 : ℝ) : ℂ)) L
  rw [norm_sub_rev (sphJ 1 _) L] at this
  norm_num at *
  linarith

example : ∃ (t : ℝ) (v : List ℂ), |t - 22 / 3| < 1e-9 ∧ sphJnViaRec 1 (t : ℂ) |t| = .ok v ∧ 5e-5 < ‖v.getD 1 0 - sphJ 1 t‖ :=
  C117_wrong (by norm_num)

theorem cross_22 : ∀ i < 22, crossJY i 22 (11 / 2) ≠ 0 := by
  have hz : (11 / 2 : ℂ) ≠ 0 := by norm_num
  have h23 : jBack (11 / 2) 1 22 23 = 1 := jBack_top_succ hz 1 22
  have h22 : jBack (11 / 2) 1 22 22 = 0 := jBack_top _ 1 22
  have h21 : jBack (11 / 2) 1 22 21 = -1 := by
    rw [jBack_step hz 1 22 21, h22, h23]
    norm_num
  have h20 : jBack (11 / 2) 1 22 20 = -86 / 11 := by
    rw [jBack_step hz 1 22 20, h21, h22]
    norm_num
  have h19 : jBack (11 / 2) 1 22 19 = -6931 / 121 := by
    rw [jBack_step hz 1 22 19, h20, h21]
    norm_num
  have h18 : jBack (11 / 2) 1 22 18 = -530212 / 1331 := by
    rw [jBack_step hz 1 22 18, h19, h20]
    norm_num
  have h17 : jBack (11 / 2) 1 22 17 = -38397037 / 14641 := by
    rw [jBack_step hz 1 22 17, h18, h19]
    norm_num
  have h16 : jBack (11 / 2) 1 22 16 = -2623636938 / 161051 := by
    rw [jBack_step hz 1 22 16, h17, h18]
    norm_num
  have h15 : jBack (11 / 2) 1 22 15 = -15319454221 / 161051 := by
    rw [jBack_step hz 1 22 15, h16, h17]
    norm_num
  have h14 : jBack (11 / 2) 1 22 14 = -920946155384 / 1771561 := by
    rw [jBack_step hz 1 22 14, h15, h16]
    norm_num
  have h13 : jBack (11 / 2) 1 22 13 = -51561223051531 / 19487171 := by
    rw [jBack_step hz 1 22 13, h14, h15]
    norm_num
  have h12 : jBack (11 / 2) 1 22 12 = -2672871559981210 / 214358881 := by
    rw [jBack_step hz 1 22 12, h13, h14]
    norm_num
  have h11 : jBack (11 / 2) 1 22 11 = -127404670009825249 / 2357947691 := by
    rw [jBack_step hz 1 22 11, h12, h13]
    norm_num
  have h10 : jBack (11 / 2) 1 22 10 = -5537197361694235044 / 25937424601 := by
    rw [jBack_step hz 1 22 10, h11, h12]
    norm_num
  have h9 : jBack (11 / 2) 1 22 9 = -217146324119969016719 / 285311670611 := by
    rw [jBack_step hz 1 22 9, h10, h11]
    norm_num
  have h8 : jBack (11 / 2) 1 22 8 = -7581559435793820194998 / 3138428376721 := by
    rw [jBack_step hz 1 22 8, h9, h10]
    norm_num
  have h7 : jBack (11 / 2) 1 22 7 = -231498315598473635606933 / 34522712143931 := by
    rw [jBack_step hz 1 22 7, h8, h9]
    norm_num
  have h6 : jBack (11 / 2) 1 22 6 = -6027580776223156824613232 / 379749833583241 := by
    rw [jBack_step hz 1 22 6, h7, h8]
    norm_num
  have h5 : jBack (11 / 2) 1 22 5 = -128705803994386767531505139 / 4177248169415651 := by
    rw [jBack_step hz 1 22 5, h6, h7]
    norm_num
  have h4 : jBack (11 / 2) 1 22 4 = -191108219450318809992264726 / 4177248169415651 := by
    rw [jBack_step hz 1 22 4, h5, h6]
    norm_num
  have h3 : jBack (11 / 2) 1 22 3 = -2024184106167484137014208539 / 45949729863572161 := by
    rw [jBack_step hz 1 22 3, h4, h5]
    norm_num
  have h2 : jBack (11 / 2) 1 22 2 = -5214482932856201909134887700 / 505447028499293771 := by
    rw [jBack_step hz 1 22 2, h3, h4]
    norm_num
  have h1 : jBack (11 / 2) 1 22 1 = 192781447517703561487370356219 / 5559917313492231481 := by
    rw [jBack_step hz 1 22 1, h2, h3]
    norm_num
  have h0 : jBack (11 / 2) 1 22 0 = 1787641119981821799929543549014 / 61159090448414546291 := by
    rw [jBack_step hz 1 22 0, h1, h2]
    norm_num
  have e : ∀ k, crossJY k 22 (11 / 2) = 0 → jBack (11 / 2) 1 22 k = 0 := by
    intro k hk
    rw [show jBack (11 / 2) 1 22 k = 1 * (11 / 2) ^ 2 * crossJY k 22 (11 / 2) from rfl, hk, mul_zero]
  intro i hi h
  have h' := e i h
  interval_cases i
  · rw [h0] at h'; norm_num at h'
  · rw [h1] at h'; norm_num at h'
  · rw [h2] at h'; norm_num at h'
  · rw [h3] at h'; norm_num at h'
  · rw [h4] at h'; norm_num at h'
  · rw [h5] at h'; norm_num at h'
  · rw [h6] at h'; norm_num at h'
  · rw [h7] at h'; norm_num at h'
  · rw [h8] at h'; norm_num at h'
  · rw [h9] at h'; norm_num at h'
  · rw [h10] at h'; norm_num at h'
  · rw [h11] at h'; norm_num at h'
  · rw [h12] at h'; norm_num at h'
  · rw [h13] at h'; norm_num at h'
  · rw [h14] at h'; norm_num at h'
  · rw [h15] at h'; norm_num at h'
  · rw [h16] at h'; norm_num at h'
  · rw [h17] at h'; norm_num at h'
  · rw [h18] at h'; norm_num at h'
  · rw [h19] at h'; norm_num at h'
  · rw [h20] at h'; norm_num at h'
  · rw [h21] at h'; norm_num at h'

theorem cross_23 : ∀ i < 23, crossJY i 23 (11 / 2) ≠ 0 := by
  have hz : (11 / 2 : ℂ) ≠ 0 := by norm_num
  have h24 : jBack (11 / 2) 1 23 24 = 1 := jBack_top_succ hz 1 23
  have h23 : jBack (11 / 2) 1 23 23 = 0 := jBack_top _ 1 23
  have h22 : jBack (11 / 2) 1 23 22 = -1 := by
    rw [jBack_step hz 1 23 22, h23, h24]
    norm_num
  have h21 : jBack (11 / 2) 1 23 21 = -90 / 11 := by
    rw [jBack_step hz 1 23 21, h22, h23]
    norm_num
  have h20 : jBack (11 / 2) 1 23 20 = -7619 / 121 := by
    rw [jBack_step hz 1 23 20, h21, h22]
    norm_num
  have h19 : jBack (11 / 2) 1 23 19 = -613868 / 1331 := by
    rw [jBack_step hz 1 23 19, h20, h21]
    norm_num
  have h18 : jBack (11 / 2) 1 23 18 = -46959805 / 14641 := by
    rw [jBack_step hz 1 23 18, h19, h20]
    norm_num
  have h17 : jBack (11 / 2) 1 23 17 = -3400747542 / 161051 := by
    rw [jBack_step hz 1 23 17, h18, h19]
    norm_num
  have h16 : jBack (11 / 2) 1 23 16 = -232370191535 / 1771561 := by
    rw [jBack_step hz 1 23 16, h17, h18]
    norm_num
  have h15 : jBack (11 / 2) 1 23 15 = -1356812926248 / 1771561 := by
    rw [jBack_step hz 1 23 15, h16, h17]
    norm_num
  have h14 : jBack (11 / 2) 1 23 14 = -81566329320491 / 19487171 := by
    rw [jBack_step hz 1 23 14, h15, h16]
    norm_num
  have h13 : jBack (11 / 2) 1 23 13 = -4566672736512470 / 214358881 := by
    rw [jBack_step hz 1 23 13, h14, h15]
    norm_num
  have h12 : jBack (11 / 2) 1 23 12 = -236730801923893969 / 2357947691 := by
    rw [jBack_step hz 1 23 12, h13, h14]
    norm_num
  have h11 : jBack (11 / 2) 1 23 11 = -11283972695076689580 / 25937424601 := by
    rw [jBack_step hz 1 23 11, h12, h13]
    norm_num
  have h10 : jBack (11 / 2) 1 23 10 = -490418316940736550431 / 285311670611 := by
    rw [jBack_step hz 1 23 10, h11, h12]
    norm_num
  have h9 : jBack (11 / 2) 1 23 9 = -19232208615406655678922 / 3138428376721 := by
    rw [jBack_step hz 1 23 9, h10, h11]
    norm_num
  have h8 : jBack (11 / 2) 1 23 8 = -671483311035623793196885 / 34522712143931 := by
    rw [jBack_step hz 1 23 8, h9, h10]
    norm_num
  have h7 : jBack (11 / 2) 1 23 7 = -20503335332747003631544528 / 379749833583241 := by
    rw [jBack_step hz 1 23 7, h8, h9]
    norm_num
  have h6 : jBack (11 / 2) 1 23 6 = -533850579347099629969512755 / 4177248169415651 := by
    rw [jBack_step hz 1 23 6, h7, h8]
    norm_num
  have h5 : jBack (11 / 2) 1 23 5 = -11399211487762202939790443742 / 45949729863572161 := by
    rw [jBack_step hz 1 23 5, h6, h7]
    norm_num
  have h4 : jBack (11 / 2) 1 23 4 = -16926066602706309949916247179 / 45949729863572161 := by
    rw [jBack_step hz 1 23 4, h5, h6]
    norm_num
  have h3 : jBack (11 / 2) 1 23 3 = -179277872483329346760797568060 / 505447028499293771 := by
    rw [jBack_step hz 1 23 3, h4, h5]
    norm_num
  have h2 : jBack (11 / 2) 1 23 2 = -461836155839147350711300044181 / 5559917313492231481 := by
    rw [jBack_step hz 1 23 2, h3, h4]
    norm_num
  have h1 : jBack (11 / 2) 1 23 1 = 17074261012091377450943505293450 / 61159090448414546291 := by
    rw [jBack_step hz 1 23 1, h2, h3]
    norm_num
  have h0 : jBack (11 / 2) 1 23 0 = 158327740929085094141728337106601 / 672749994932560009201 := by
    rw [jBack_step hz 1 23 0, h1, h2]
    norm_num
  have e : ∀ k, crossJY k 23 (11 / 2) = 0 → jBack (11 / 2) 1 23 k = 0 := by
    intro k hk
    rw [show jBack (11 / 2) 1 23 k = 1 * (11 / 2) ^ 2 * crossJY k 23 (11 / 2) from rfl, hk, mul_zero]
  intro i hi h
  have h' := e i h
  interval_cases i
  · rw [h0] at h'; norm_num at h'
  · rw [h1] at h'; norm_num at h'
  · rw [h2] at h'; norm_num at h'
  · rw [h3] at h'; norm_num at h'
  · rw [h4] at h'; norm_num at h'
  · rw [h5] at h'; norm_num at h'
  · rw [h6] at h'; norm_num at h'
  · rw [h7] at h'; norm_num at h'
  · rw [h8] at h'; norm_num at h'
  · rw [h9] at h'; norm_num at h'
  · rw [h10] at h'; norm_num at h'
  · rw [h11] at h'; norm_num at h'
  · rw [h12] at h'; norm_num at h'
  · rw [h13] at h'; norm_num at h'
  · rw [h14] at h'; norm_num at h'
  · rw [h15] at h'; norm_num at h'
  · rw [h16] at h'; norm_num at h'
  · rw [h17] at h'; norm_num at h'
  · rw [h18] at h'; norm_num at h'
  · rw [h19] at h'; norm_num at h'
  · rw [h20] at h'; norm_num at h'
  · rw [h21] at h'; norm_num at h'
  · rw [h22] at h'; norm_num at h'

theorem sin_11_2 : Real.sin (11 / 2) ≠ 0 := by
  have h1 := Real.pi_gt_d2
  have h2 := Real.pi_lt_d2
  rw [← Real.sin_sub_two_pi]
  exact (Real.sin_neg_of_neg_of_neg_pi_lt (by norm_num at *; linarith) (by norm_num at *; linarith)).ne

/-- `sph_jn_torch(1, z)` is not continuous at `z = 11/2`. -/
example : ∃ v : ℝ → List ℂ, (∀ t : ℝ, sphJnTorch 1 (t : ℂ) |t| = .ok (v t)) ∧ ¬ContinuousAt (fun t => (v t).getD 1 0) (11 / 2) := by
  have e : (((11 / 2 : ℝ)) : ℂ) = 11 / 2 := by push_cast; rfl
  obtain ⟨v, L, h1, -, -, h2⟩ := C117_ratio (n := 1) (d := 21) (x := 11 / 2) le_rfl le_rfl (by norm_num) (by norm_num)
    (by rw [e]; exact cross_22) (by rw [e]; exact fun i hi => cross_23 i (by omega))
  exact ⟨v, h1, h2 sin_11_2⟩

end MieDiff
