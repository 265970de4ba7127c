import Verif.Proofs.Modulus
import Verif.Proofs.DepthError

/-!
# Orders above the centrifugal barrier

Where `n (n + 1)` exceeds the squared size parameter of a layer, `Re (conj f * f'/m)` does not decrease outwards.  So at the surface of
the particle the field still grows, and the scattered wave, which falls off there, can only have a small amplitude.
-/

namespace MieDiff.Spec

open Complex ComplexConjugate Filter Topology

theorem hasDerivAt_re_conj_mul {f g : ℝ → ℂ} {f' g' : ℂ} {r : ℝ} (hf : HasDerivAt f f' r)
    (hg : HasDerivAt g g' r) :
    HasDerivAt (fun t => (conj (f t) * g t).re) ((conj f' * g r + conj (f r) * g').re) r := by
  have h1 : HasDerivAt (fun t => conj (f t)) (conj f') r := hf.star
  exact (reCLM.hasFDerivAt (x := conj (f r) * g r)).comp_hasDerivAt r (h1.mul hg)

/-- Half the rate of growth of the squared field, weighted so that it is continuous across interfaces. -/
noncomputable def growth (p : Pol) (w : Wave) (n : ℕ) (m : ℂ) (rho : ℝ) : ℝ :=
  match p with
  | .tm => (conj (w.val n (m * rho)) * (w.der n (m * rho) / m)).re
  | .te => (conj (w.val n (m * rho) / m) * w.der n (m * rho)).re

theorem growth_cont {p : Pol} {w w' : Wave} {n : ℕ} {m m' : ℂ} {x : ℝ} (hm : m ≠ 0) (hm' : m' ≠ 0)
    (h : Cont p n m m' x w w') : growth p w n m x = growth p w' n m' x := by
  cases p <;> simp only [Cont] at h <;> obtain ⟨h1, h2⟩ := h <;> simp only [growth]
  · rw [h1, show w.der n (m * x) / m = w'.der n (m' * x) / m' by
      rw [div_eq_div_iff hm hm']; exact h2]
  · rw [h2, show w.val n (m * x) / m = w'.val n (m' * x) / m' by
      rw [div_eq_div_iff hm hm']; exact h1]

/-- Order `n` is above the barrier of a medium `m` out to the size parameter `x`: `x² |m|⁴ ≤ n (n + 1) Re m²`. -/
def Above (n : ℕ) (m : ℂ) (x : ℝ) : Prop := x ^ 2 * normSq m ^ 2 ≤ n * (n + 1) * (m ^ 2).re

theorem Above.mono {n : ℕ} {m : ℂ} {x y : ℝ} (h : Above n m x) (h0 : 0 ≤ y) (hy : y ≤ x) : Above n m y := by
  unfold Above at *
  refine le_trans ?_ h
  gcongr

theorem Above.re_pos {n : ℕ} {m : ℂ} {x : ℝ} (h : Above n m x) (hm : m ≠ 0) (hx : 0 < x) : 0 < (m ^ 2).re := by
  unfold Above at h
  have h1 : 0 < normSq m := normSq_pos.2 hm
  by_contra hc
  have : (n : ℝ) * (n + 1) * (m ^ 2).re ≤ 0 := mul_nonpos_of_nonneg_of_nonpos (by positivity) (not_lt.1 hc)
  have : 0 < x ^ 2 * normSq m ^ 2 := by positivity
  linarith

theorem re_sq_le (m : ℂ) : (m ^ 2).re ≤ normSq m := by
  have h := re_le_norm (m ^ 2)
  rwa [norm_pow, ← normSq_eq_norm_sq] at h

theorem Above.le {n : ℕ} {m : ℂ} {x : ℝ} (h : Above n m x) (hm : m ≠ 0) (hx : 0 < x) : x ^ 2 * (m ^ 2).re ≤ n * (n + 1) := by
  have h1 := h.re_pos hm hx
  have h2 := re_sq_le m
  unfold Above at h
  have h3 : x ^ 2 * (m ^ 2).re ^ 2 ≤ x ^ 2 * normSq m ^ 2 := by gcongr
  have h4 : (x ^ 2 * (m ^ 2).re) * (m ^ 2).re ≤ n * (n + 1) * (m ^ 2).re := by nlinarith
  exact le_of_mul_le_mul_right h4 h1

theorem hasDerivAt_growth (p : Pol) (w : Wave) (n : ℕ) {m : ℂ} (hm : m ≠ 0) {r : ℝ} (hr : 0 < r) (hA : Above n m r) :
    ∃ c : ℝ, 0 ≤ c ∧ HasDerivAt (growth p w n m) c r := by
  have hr' : (r : ℂ) ≠ 0 := by exact_mod_cast hr.ne'
  have hz : m * r ≠ 0 := mul_ne_zero hm hr'
  have hv := hasDerivAt_scaled (w.hasDerivAt_val n hz)
  have hd := hasDerivAt_scaled (w.hasDerivAt_der n hz)
  have hN : 0 < normSq m := normSq_pos.2 hm
  have hmc : conj m = normSq m / m := by
    rw [eq_div_iff hm, mul_comm, mul_conj]
  set v := w.val n (m * r) with hvv
  set e := w.der n (m * r) with hee
  have hi1 : (1 / m ^ 2).re = (m ^ 2).re / normSq m ^ 2 := by
    rw [one_div, inv_re, map_pow]
  have hi2 : (m ^ 2 / (normSq m : ℂ)).re = (m ^ 2).re / normSq m := by
    rw [div_ofReal_re]
  have hsq : ∀ u : ℂ, conj u * u = (normSq u : ℂ) := fun u => by rw [mul_comm, mul_conj]
  have hv0 := normSq_nonneg v
  have he0 := normSq_nonneg e
  have hpos := hA.re_pos hm hr
  cases p
  · refine ⟨_, ?_, hasDerivAt_re_conj_mul hv (hd.div_const m)⟩
    have e1 : conj (m * e) * (e / m) + conj v * (m * (((n : ℂ) * (n + 1) / (m * r) ^ 2 - 1) * v) / m) =
        (normSq e : ℝ) * (normSq m * (1 / m ^ 2)) +
          (normSq v : ℝ) * (((n * (n + 1) / r ^ 2 : ℝ) : ℂ) * (1 / m ^ 2) - 1) := by
      rw [← hsq e, ← hsq v, map_mul, hmc]
      push_cast
      field_simp
    rw [e1]
    simp only [add_re, mul_re, ofReal_re, ofReal_im, zero_mul, sub_re, one_re, sub_zero, hi1]
    refine add_nonneg (mul_nonneg he0 (mul_nonneg hN.le (by positivity))) (mul_nonneg hv0 ?_)
    unfold Above at hA
    rw [sub_nonneg, div_mul_div_comm, le_div_iff₀ (by positivity), one_mul]
    linarith
  · refine ⟨_, ?_, hasDerivAt_re_conj_mul (hv.div_const m) hd⟩
    have e1 : conj (m * e / m) * e + conj (v / m) * (m * (((n : ℂ) * (n + 1) / (m * r) ^ 2 - 1) * v)) =
        (normSq e : ℝ) + (normSq v : ℝ) * (((n * (n + 1) / r ^ 2 / normSq m : ℝ) : ℂ) -
          m ^ 2 / (normSq m : ℂ)) := by
      have hNc : (normSq m : ℂ) ≠ 0 := by exact_mod_cast hN.ne'
      rw [← hsq e, ← hsq v, mul_div_cancel_left₀ _ hm, map_div₀, hmc]
      push_cast
      field_simp
    rw [e1]
    simp only [add_re, mul_re, ofReal_re, ofReal_im, zero_mul, sub_re, sub_zero, hi2]
    refine add_nonneg he0 (mul_nonneg hv0 ?_)
    have := hA.le hm hr
    rw [sub_nonneg]
    refine div_le_div_of_nonneg_right ?_ hN.le
    rw [le_div_iff₀ (by positivity)]
    linarith

theorem growth_mono (p : Pol) (w : Wave) (n : ℕ) {m : ℂ} (hm : m ≠ 0) {x : ℝ} (hA : Above n m x) :
    MonotoneOn (growth p w n m) (Set.Ioc 0 x) := by
  refine monotoneOn_of_deriv_nonneg (convex_Ioc 0 x) ?_ ?_ ?_
  · intro r hr
    obtain ⟨c, _, h⟩ := hasDerivAt_growth p w n hm hr.1 (hA.mono hr.1.le hr.2)
    exact h.continuousAt.continuousWithinAt
  · intro r hr
    rw [interior_Ioc] at hr
    obtain ⟨c, _, h⟩ := hasDerivAt_growth p w n hm hr.1 (hA.mono hr.1.le hr.2.le)
    exact h.differentiableAt.differentiableWithinAt
  · intro r hr
    rw [interior_Ioc] at hr
    obtain ⟨c, hc, h⟩ := hasDerivAt_growth p w n hm hr.1 (hA.mono hr.1.le hr.2.le)
    rw [h.deriv]
    exact hc

theorem growth_core_tendsto (p : Pol) (d : ℂ) (n : ℕ) {m : ℂ} (hm : m ≠ 0) :
    Tendsto (growth p ⟨d, 0⟩ n m) (𝓝[>] 0) (𝓝 0) := by
  have hmn : 0 < ‖m‖ := norm_pos_iff.2 hm
  have hb : ∀ᶠ r : ℝ in 𝓝[>] 0, ‖growth p ⟨d, 0⟩ n m r‖ ≤ ‖d‖ ^ 2 * (4 * (n + 2)) * r := by
    have h1 : Set.Ioo (0 : ℝ) (1 / ‖m‖) ∈ 𝓝[>] (0 : ℝ) := Ioo_mem_nhdsGT (by positivity)
    filter_upwards [h1] with r hr
    have hr0 : 0 < r := hr.1
    have hz : m * r ≠ 0 := mul_ne_zero hm (by exact_mod_cast hr0.ne')
    have hn : ‖m * (r : ℂ)‖ = ‖m‖ * r := by rw [norm_mul, norm_real, Real.norm_of_nonneg hr0.le]
    have hle : ‖m * (r : ℂ)‖ ≤ 1 := by
      rw [hn]; have := hr.2; rw [lt_div_iff₀ hmn] at this; linarith
    have h2 := norm_ricPsi_le n hz hle
    have h3 := norm_dricPsi_le n hz hle
    have hp0 : ‖m * (r : ℂ)‖ ^ n ≤ 1 := pow_le_one₀ (norm_nonneg _) hle
    have h2' : ‖ricPsi n (m * r)‖ ≤ 2 * (‖m‖ * r) := by
      rw [pow_succ] at h2
      rw [← hn]
      have := norm_nonneg (m * (r : ℂ))
      nlinarith
    have h3' : ‖deriv (ricPsi n) (m * r)‖ ≤ 2 * (n + 2) := by
      have : (0 : ℝ) ≤ 2 * (n + 2) := by positivity
      nlinarith
    have h4 : ‖ricPsi n (m * r)‖ * ‖deriv (ricPsi n) (m * r)‖ ≤ 2 * (‖m‖ * r) * (2 * (n + 2)) :=
      mul_le_mul h2' h3' (norm_nonneg _) (by positivity)
    have h5 : ‖growth p ⟨d, 0⟩ n m r‖ ≤ ‖d‖ ^ 2 * (‖ricPsi n (m * r)‖ * ‖deriv (ricPsi n) (m * r)‖) / ‖m‖ := by
      cases p <;> simp only [growth, Wave.val, Wave.der, zero_mul, sub_zero] <;>
      · refine (abs_re_le_norm _).trans (le_of_eq ?_)
        simp only [norm_mul, norm_div, RCLike.norm_conj]
        ring
    refine h5.trans ?_
    rw [div_le_iff₀ hmn]
    have := mul_le_mul_of_nonneg_left h4 (by positivity : 0 ≤ ‖d‖ ^ 2)
    linarith
  refine squeeze_zero_norm' hb ?_
  have : Tendsto (fun r : ℝ => ‖d‖ ^ 2 * (4 * (n + 2)) * r) (𝓝 0) (𝓝 (‖d‖ ^ 2 * (4 * (n + 2)) * 0)) :=
    tendsto_id.const_mul _
  rw [mul_zero] at this
  exact this.mono_left nhdsWithin_le_nhds

theorem growth_core (p : Pol) (d : ℂ) (n : ℕ) {m : ℂ} (hm : m ≠ 0) {x : ℝ} (hx : 0 < x) (hA : Above n m x) :
    0 ≤ growth p ⟨d, 0⟩ n m x := by
  refine le_of_tendsto (growth_core_tendsto p d n hm) ?_
  filter_upwards [Ioo_mem_nhdsGT hx] with r hr
  exact growth_mono p _ n hm hA ⟨hr.1, hr.2.le⟩ ⟨hx, le_rfl⟩ hr.2.le

/-- Order `n` is above the barrier of every layer. -/
def AboveAll (n : ℕ) (layers : List (ℂ × ℂ)) : Prop := ∀ l ∈ layers, l.1 ≠ 0 ∧ Above n l.1 l.2.re

theorem AboveAll.mono {n n' : ℕ} {layers : List (ℂ × ℂ)} (h : AboveAll n layers) (hx : ∀ l ∈ layers, 0 < l.2.re) (hn : n ≤ n') :
    AboveAll n' layers := by
  intro l hl
  obtain ⟨h1, h2⟩ := h l hl
  refine ⟨h1, ?_⟩
  have h3 := h2.re_pos h1 (hx l hl)
  have : (n : ℝ) ≤ n' := by exact_mod_cast hn
  unfold Above at *
  refine h2.trans ?_
  gcongr

theorem chain_growth {p : Pol} {n : ℕ} :
    ∀ (rest : List (ℂ × ℂ)) (m : ℂ) (x : ℝ) (w out : Wave), 0 < x → m ≠ 0 → 0 ≤ growth p w n m x →
      RadiiOK x rest → AboveAll n rest → Chain p n w ((m, (x : ℂ)) :: rest) out →
      ∃ xL : ℝ, (rest.getLastD (m, (x : ℂ))).2 = xL ∧ 0 < xL ∧ 0 ≤ growth p out n 1 xL := by
  intro rest
  induction rest with
  | nil =>
    intro m x w out hx hm hf _ _ hc
    exact ⟨x, rfl, hx, by rw [← growth_cont hm one_ne_zero hc]; exact hf⟩
  | cons l rest ih =>
    intro m x w out hx hm hf hr hl hc
    obtain ⟨m', x'⟩ := l
    obtain ⟨y, rfl, hy, hr⟩ := hr
    obtain ⟨w', c, hc⟩ := hc
    obtain ⟨hl0, hA⟩ := hl (m', (y : ℂ)) (by simp)
    have hy0 := hx.trans_le hy
    obtain ⟨xL, e, h1, h2⟩ := ih m' y w' out hy0 hl0 (by
      rw [growth_cont hm hl0 c] at hf
      exact hf.trans (growth_mono p w' n hl0 hA ⟨hx, hy⟩ ⟨hy0, le_rfl⟩ hy)) hr (fun l h => hl l (by simp [h])) hc
    exact ⟨xL, by rw [List.getLastD_cons]; exact e, h1, h2⟩

/-- At the surface of the particle the field grows. -/
theorem Solves.growth {p : Pol} {n : ℕ} {layers : List (ℂ × ℂ)} {a : ℂ} {x0 : ℝ} (hx0 : 0 < x0)
    (hr : RadiiOK x0 layers) (hl : AboveAll n layers) (h : Solves p n layers a) :
    ∃ x : ℝ, (layers.getLastD (0, 0)).2 = x ∧ 0 < x ∧
      0 ≤ (conj ((⟨1, a⟩ : Wave).val n x) * (⟨1, a⟩ : Wave).der n x).re := by
  obtain ⟨⟨d, a0⟩, rfl, hc⟩ := h
  cases layers with
  | nil => exact absurd hc (by simp [Chain])
  | cons l rest =>
    obtain ⟨m, x⟩ := l
    obtain ⟨y, rfl, hy, hr⟩ := hr
    obtain ⟨hl0, hA⟩ := hl (m, (y : ℂ)) (by simp)
    have hy0 := hx0.trans_le hy
    obtain ⟨xL, e, hxL, hf⟩ := chain_growth rest m y ⟨d, 0⟩ ⟨1, a⟩ hy0 hl0 (growth_core p d n hl0 hy0 hA) hr
      (fun l h => hl l (by simp [h])) hc
    refine ⟨xL, by rw [List.getLastD_cons]; exact e, hxL, ?_⟩
    cases p <;> simpa only [Spec.growth, one_mul, div_one] using hf

end MieDiff.Spec
