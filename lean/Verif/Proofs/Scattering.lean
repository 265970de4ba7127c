import Verif.Proofs.ScatterWaves
import Verif.Spec.Scattering

/-!
# The series of all orders solves the scattering problem, and the near fields converge to it
-/

namespace MieDiff

open Complex Spec Filter Topology

/-! ## Bounds on compact sets -/

theorem good_bound {T : ℕ → ℝ → ℂ → ℂ} (hT : Good T) {K : Set ℂ} (hK : IsCompact K) (h0 : (0 : ℂ) ∉ K) :
    ∃ M : ℝ, 0 ≤ M ∧ ∀ t, ∀ z ∈ K, ‖∑' n, T n t z‖ ≤ M := by
  obtain ⟨u, h1, h2, h3⟩ := hT K hK h0
  exact ⟨_, tsum_nonneg h2, fun t z hz => tsum_of_norm_bounded h1.summable.hasSum fun n => h3 n t z hz⟩

theorem cut_bound {c a u : ℂ} {M s : ℝ} (hc : ‖c‖ ≤ 1) (hs : 0 < s) (hu : s ≤ ‖u‖) (ha : ‖a‖ ≤ M) : ‖c * a / u‖ ≤ M / s := by
  rw [norm_div, norm_mul]
  have hM := (norm_nonneg a).trans ha
  have : ‖c‖ * ‖a‖ ≤ M := by nlinarith [norm_nonneg c, norm_nonneg a]
  exact div_le_div₀ hM this hs hu

theorem serAt_compact {x y : ℕ → ℂ} {α β : ℕ → Wave} (hx : GB fun n => ‖x n‖) (hy : GB fun n => ‖y n‖) (hα : Dec α) (hβ : Dec β)
    {K : Set ℂ} (hK : IsCompact K) (h0 : (0 : ℂ) ∉ K) :
    ∃ M : ℝ, ∀ (c c' z : ℂ) (t : ℝ), ‖c‖ ≤ 1 → ‖c'‖ ≤ 1 → z ∈ K → (serAt c c' x y α β z t).Le M := by
  obtain ⟨ρ, hρ, hl⟩ := compact_lower hK h0
  obtain ⟨M1, -, h1⟩ := good_bound (good_serR hx hα) hK h0
  obtain ⟨M2, -, h2⟩ := good_bound (good_serT hx hy hα hβ) hK h0
  obtain ⟨M3, -, h3⟩ := good_bound (good_serP hx hy hα hβ) hK h0
  refine ⟨max (M1 / ρ ^ 2) (max (M2 / ρ) (M3 / ρ)), fun c c' z t hc hc' hz => ⟨?_, ?_, ?_⟩⟩
  · refine (cut_bound hc (pow_pos hρ 2) ?_ (h1 t z hz)).trans (le_max_left _ _)
    rw [norm_pow]; exact pow_le_pow_left₀ hρ.le (hl z hz) 2
  · exact (cut_bound hc hρ (hl z hz) (h2 t z hz)).trans ((le_max_left _ _).trans (le_max_right _ _))
  · exact (cut_bound hc' hρ (hl z hz) (h3 t z hz)).trans ((le_max_right _ _).trans (le_max_right _ _))

theorem SVec.Le.mono {v : SVec} {M M' : ℝ} (h : v.Le M) (hM : M ≤ M') : v.Le M' := ⟨h.1.trans hM, h.2.1.trans hM, h.2.2.trans hM⟩

theorem norm_cos_le (p : ℝ) : ‖((Real.cos p : ℝ) : ℂ)‖ ≤ 1 := by rw [norm_real]; exact Real.abs_cos_le_one p

theorem norm_sin_le (p : ℝ) : ‖((Real.sin p : ℝ) : ℂ)‖ ≤ 1 := by rw [norm_real]; exact Real.abs_sin_le_one p

theorem ser_compact (E0 m : ℂ) {W : ℕ → Pol → Wave} (hW : DecW W) {K : Set ℂ} (hK : IsCompact K) (h0 : (0 : ℂ) ∉ K) :
    ∃ M : ℝ, ∀ z ∈ K, ∀ t p : ℝ, (serE E0 W z t p).Le M ∧ (serH E0 m W z t p).Le M := by
  obtain ⟨M1, h1⟩ := serAt_compact (gb_EnI E0) (gb_En1 E0) (hW .tm) (hW .te) hK h0
  obtain ⟨M2, h2⟩ := serAt_compact (gb_EnIm E0 m) (gb_En m E0) (hW .te) (hW .tm) hK h0
  refine ⟨max M1 M2, fun z hz t p => ⟨SVec.Le.mono (h1 _ _ z t (norm_cos_le p) ?_ hz) (le_max_left _ _),
    SVec.Le.mono (h2 _ _ z t (norm_sin_le p) (norm_cos_le p) hz) (le_max_right _ _)⟩⟩
  rw [norm_neg]; exact norm_sin_le p

theorem ser_center (E0 m : ℂ) {W : ℕ → Pol → Wave} (hW : DecW W) (ha : ∀ n q, (W (n + 1) q).a = 0) :
    ∃ M : ℝ, ∀ z : ℂ, z ≠ 0 → ‖z‖ ≤ 1 → ∀ t p : ℝ, (serE E0 W z t p).Le M ∧ (serH E0 m W z t p).Le M := by
  obtain ⟨M1, h1⟩ := serAt_bounded (gb_EnI E0) (gb_En1 E0) (hW .tm) (hW .te) (fun n => ha n .tm) (fun n => ha n .te)
  obtain ⟨M2, h2⟩ := serAt_bounded (gb_EnIm E0 m) (gb_En m E0) (hW .te) (hW .tm) (fun n => ha n .te) (fun n => ha n .tm)
  refine ⟨max M1 M2, fun z hz hz1 t p => ⟨SVec.Le.mono (h1 _ _ z t (norm_cos_le p) ?_ hz hz1) (le_max_left _ _),
    SVec.Le.mono (h2 _ _ z t (norm_sin_le p) (norm_cos_le p) hz hz1) (le_max_right _ _)⟩⟩
  rw [norm_neg]; exact norm_sin_le p

theorem isCompact_annulus (a b : ℝ) : IsCompact {z : ℂ | a ≤ ‖z‖ ∧ ‖z‖ ≤ b} := by
  have : {z : ℂ | a ≤ ‖z‖ ∧ ‖z‖ ≤ b} = Metric.closedBall 0 b ∩ {z | a ≤ ‖z‖} := by
    ext z; simp [and_comm]
  rw [this]
  exact (isCompact_closedBall 0 b).inter_right (isClosed_le continuous_const continuous_norm)

theorem exists_common {P : ℕ → ℝ → Prop} (hm : ∀ j M M', M ≤ M' → P j M → P j M') (L : ℕ) (h : ∀ j ≤ L, ∃ M, P j M) :
    ∃ M, ∀ j ≤ L, P j M := by
  induction L with
  | zero =>
    obtain ⟨M, hM⟩ := h 0 le_rfl
    exact ⟨M, fun j hj => by obtain rfl : j = 0 := by omega
                             exact hM⟩
  | succ L ih =>
    obtain ⟨M1, h1⟩ := ih fun j hj => h j (by omega)
    obtain ⟨M2, h2⟩ := h (L + 1) le_rfl
    refine ⟨max M1 M2, fun j hj => ?_⟩
    rcases Nat.lt_or_ge j (L + 1) with h | h
    · exact hm j _ _ (le_max_left _ _) (h1 j (by omega))
    · obtain rfl : j = L + 1 := by omega
      exact hm _ _ _ (le_max_right _ _) h2

theorem HasCurlAt.congr_field {F G : SField} {C : SVec} {r t p : ℝ} (hr : 0 < r) (h : ∀ r t p, 0 < r → F r t p = G r t p)
    (hG : HasCurlAt G C r t p) : HasCurlAt F C r t p := by
  obtain ⟨d1, d2, d3, d4, d5, d6, h1, h2, h3, h4, h5, h6, hC⟩ := hG
  have ev : ∀ᶠ s in 𝓝 r, 0 < s := lt_mem_nhds hr
  refine ⟨d1, d2, d3, d4, d5, d6, ?_, ?_, ?_, ?_, ?_, ?_, hC⟩
  · simpa only [h r _ p hr] using h1
  · simpa only [h r t _ hr] using h2
  · simpa only [h r t _ hr] using h3
  · exact h4.congr_of_eventuallyEq (ev.mono fun s hs => by simp only [h s t p hs])
  · exact h5.congr_of_eventuallyEq (ev.mono fun s hs => by simp only [h s t p hs])
  · simpa only [h r _ p hr] using h6

theorem MaxwellAt.congr_field {k0 m : ℂ} {E H E' H' : SField} {r t p : ℝ} (hr : 0 < r) (hE : ∀ r t p, 0 < r → E r t p = E' r t p)
    (hH : ∀ r t p, 0 < r → H r t p = H' r t p) (h : MaxwellAt k0 m E' H' r t p) : MaxwellAt k0 m E H r t p := by
  refine ⟨HasCurlAt.congr_field hr hE ?_, HasCurlAt.congr_field hr hH ?_⟩
  · rw [hH r t p hr]; exact h.1
  · rw [hE r t p hr]; exact h.2

/-! ## The solution -/

/-- The electric field of all orders in region `j`; the argument of the radial functions shifted by `eps`. -/
noncomputable def solE (p : Particle1) (E0 : ℂ) (W : ℕ → ℕ → Pol → Wave) (eps : ℝ) (j : ℕ) : SField := fun r t ph =>
  if j = p.rLayers.length then
    (planeE E0 (p.k0 * csqrt p.epsEnv) r t ph).add (serE E0 (outW (W j)) (p.k0 * csqrt p.epsEnv * r + eps) t ph)
  else serE E0 (W j) (p.k0 * csqrt (p.epsLayers.getD j 0) * r + eps) t ph

/-- The magnetic field. -/
noncomputable def solH (p : Particle1) (E0 : ℂ) (W : ℕ → ℕ → Pol → Wave) (eps : ℝ) (j : ℕ) : SField := fun r t ph =>
  if j = p.rLayers.length then
    (planeH E0 (p.k0 * csqrt p.epsEnv) (csqrt p.epsEnv) r t ph).add
      (serH E0 (csqrt p.epsEnv) (outW (W j)) (p.k0 * csqrt p.epsEnv * r + eps) t ph)
  else serH E0 (csqrt (p.epsLayers.getD j 0)) (W j) (p.k0 * csqrt (p.epsLayers.getD j 0) * r + eps) t ph

section
variable {p : Particle1} {k0 e0 : ℝ} {W : ℕ → ℕ → Pol → Wave}

theorem media_host (hlen : p.epsLayers.length = p.rLayers.length) : p.media.getD p.rLayers.length 0 = csqrt p.epsEnv := by
  unfold Particle1.media
  rw [← hlen]; simp

theorem media_mem (hlen : p.epsLayers.length = p.rLayers.length) {j : ℕ} (hj : j ≤ p.rLayers.length) : p.media.getD j 0 ∈ p.media := by
  have : j < p.media.length := by simp [Particle1.media, hlen]; omega
  rw [List.getD_eq_getElem?_getD, List.getElem?_eq_getElem this]
  exact List.getElem_mem this

theorem media_ne (hp : RealHost p k0 e0) (hlen : p.epsLayers.length = p.rLayers.length) (hz : ∀ e ∈ p.epsLayers, e ≠ 0) {j : ℕ}
    (hj : j ≤ p.rLayers.length) : p.k0 * p.media.getD j 0 ≠ 0 := by
  have := media_arg_ne' hp hz le_rfl one_pos _ (media_mem hlen hj)
  simpa using this

theorem arg_ne (hp : RealHost p k0 e0) (hlen : p.epsLayers.length = p.rLayers.length) (hz : ∀ e ∈ p.epsLayers, e ≠ 0) {j : ℕ}
    (hj : j ≤ p.rLayers.length) {r : ℝ} (hr : 0 < r) : p.k0 * p.media.getD j 0 * r ≠ 0 :=
  mul_ne_zero (media_ne hp hlen hz hj) (by exact_mod_cast hr.ne')

theorem sol_zero (hW : AllWaves p W) (hd : ∀ j ≤ p.rLayers.length, DecW (W j)) (hp : RealHost p k0 e0)
    (hlen : p.epsLayers.length = p.rLayers.length) (hz : ∀ e ∈ p.epsLayers, e ≠ 0) (E0 : ℂ) {j : ℕ}
    (hj : j ≤ p.rLayers.length) {r : ℝ} (hr : 0 < r) (t ph : ℝ) :
    solE p E0 W 0 j r t ph = serE E0 (W j) (p.k0 * p.media.getD j 0 * r) t ph ∧
    solH p E0 W 0 j r t ph = serH E0 (p.media.getD j 0) (W j) (p.k0 * p.media.getD j 0 * r) t ph := by
  unfold solE solH
  rcases Nat.lt_or_ge j p.rLayers.length with h | h
  · rw [if_neg h.ne, if_neg h.ne, media_layer (hlen ▸ h), ofReal_zero, add_zero]
    exact ⟨rfl, rfl⟩
  · obtain rfl : j = p.rLayers.length := by omega
    have hz' := arg_ne hp hlen hz le_rfl hr
    rw [if_pos rfl, if_pos rfl, media_host hlen, ofReal_zero, add_zero]
    rw [media_host hlen] at hz'
    obtain ⟨s1, s2⟩ := ser_split E0 (csqrt p.epsEnv) (hd _ le_rfl) (fun n q => hW.host n q) hz' t ph
    obtain ⟨q1, q2⟩ := ser_plane E0 p.k0 (csqrt p.epsEnv) hz' t ph
    exact ⟨by rw [s1, q1], by rw [s2, q2]⟩

/-- The series of all orders is the solution of the scattering problem. -/
theorem sol_scattering (hW : AllWaves p W) (hd : ∀ j ≤ p.rLayers.length, DecW (W j)) (hp : RealHost p k0 e0)
    (hlen : p.epsLayers.length = p.rLayers.length) (hz : ∀ e ∈ p.epsLayers, e ≠ 0) (E0 : ℂ) :
    IsScattering k0 p.rLayers.length (fun j => p.media.getD j 0) p.radius (planeE E0 (p.k0 * csqrt p.epsEnv))
      (planeH E0 (p.k0 * csqrt p.epsEnv) (csqrt p.epsEnv)) (solE p E0 W 0) (solH p E0 W 0) := by
  have h0 := fun {j : ℕ} (hj : j ≤ p.rLayers.length) {r : ℝ} (hr : 0 < r) t ph => sol_zero hW hd hp hlen hz E0 hj hr t ph
  have hr0 : ∀ j ≤ p.rLayers.length, 0 ≤ p.radius j := by
    intro j hj
    cases j with
    | zero => exact le_rfl
    | succ j => exact (radius_pos hp (by omega)).le
  have hnE : csqrt p.epsEnv ≠ 0 := by rw [hp.env_eq]; exact csqrt_ne_zero (by exact_mod_cast hp.env_pos.ne')
  have hiface : ∀ j < p.rLayers.length, ∀ t ph : ℝ,
      (solE p E0 W 0 j (p.radius (j + 1)) t ph).tang = (solE p E0 W 0 (j + 1) (p.radius (j + 1)) t ph).tang ∧
      (solH p E0 W 0 j (p.radius (j + 1)) t ph).tang = (solH p E0 W 0 (j + 1) (p.radius (j + 1)) t ph).tang ∧
      p.indices.getD j 0 ^ 2 * (solE p E0 W 0 j (p.radius (j + 1)) t ph).r =
        p.indices.getD (j + 1) 0 ^ 2 * (solE p E0 W 0 (j + 1) (p.radius (j + 1)) t ph).r ∧
      (solH p E0 W 0 j (p.radius (j + 1)) t ph).r = (solH p E0 W 0 (j + 1) (p.radius (j + 1)) t ph).r := by
    intro j hj t ph
    have hr := radius_pos hp hj
    obtain ⟨a1, a2⟩ := h0 (j := j) (by omega) hr t ph
    obtain ⟨b1, b2⟩ := h0 (j := j + 1) (by omega) hr t ph
    have e : ∀ i ≤ p.rLayers.length, p.k0 * p.media.getD i 0 * ((p.radius (j + 1) : ℝ) : ℂ) =
        p.indices.getD i 0 * (p.k0 * csqrt p.epsEnv * ((p.rLayers.getD j 0 : ℝ) : ℂ)) := by
      intro i hi
      rw [media_indices hlen hnE hi, radius_succ]; ring
    rw [a1, a2, b1, b2, e j (by omega), e (j + 1) (by omega), media_indices hlen hnE (by omega : j ≤ _),
      media_indices hlen hnE (by omega : j + 1 ≤ _)]
    exact ser_tang E0 (csqrt p.epsEnv) (indices_ne hp hlen hz (by omega)) (indices_ne hp hlen hz (by omega)) (size_ne hp hj)
      (fun n q => hW.cont n q j hj) t ph
  refine ⟨fun j hj r t ph h1 _ ht => ?_, fun j hj t ph => ⟨(hiface j hj t ph).1, (hiface j hj t ph).2.1⟩,
    fun j hj t ph => ⟨?_, (hiface j hj t ph).2.2.2⟩, fun r1 => ?_, fun t ph => ?_⟩
  · have hr : 0 < r := lt_of_le_of_lt (hr0 j hj) h1
    refine MaxwellAt.congr_field hr (fun r t p hr => (h0 hj hr t p).1) (fun r t p hr => (h0 hj hr t p).2) ?_
    rw [← hp.k0_eq]
    exact ser_maxwell E0 (hd j hj) (media_ne hp hlen hz hj) hr ht
  · have := (hiface j hj t ph).2.2.1
    rw [media_indices hlen hnE (by omega : j ≤ _), media_indices hlen hnE (by omega : j + 1 ≤ _)]
    linear_combination (csqrt p.epsEnv) ^ 2 * this
  · refine exists_common (P := fun j M => ∀ r t ph : ℝ, p.radius j < r → (j < p.rLayers.length → r ≤ p.radius (j + 1)) → r ≤ r1 →
      (solE p E0 W 0 j r t ph).Le M ∧ (solH p E0 W 0 j r t ph).Le M) (fun j M M' hM h r t ph a1 a2 a3 =>
        ⟨SVec.Le.mono (h r t ph a1 a2 a3).1 hM, SVec.Le.mono (h r t ph a1 a2 a3).2 hM⟩) _ fun j hj => ?_
    have hk := media_ne hp hlen hz hj
    have hkp := norm_pos_iff.2 hk
    cases j with
    | zero =>
      obtain ⟨M1, c1⟩ := ser_center E0 (p.media.getD 0 0) (hd 0 hj) (fun n q => hW.core n q)
      obtain ⟨M2, c2⟩ := ser_compact E0 (p.media.getD 0 0) (hd 0 hj) (isCompact_annulus 1 (‖p.k0 * p.media.getD 0 0‖ * r1))
        (by simp only [Set.mem_ofPred_eq, norm_zero]; rintro ⟨h, -⟩; linarith)
      refine ⟨max M1 M2, fun r t ph a1 a2 a3 => ?_⟩
      have hr : 0 < r := a1
      rw [(h0 hj hr t ph).1, (h0 hj hr t ph).2]
      have hnr : ‖p.k0 * p.media.getD 0 0 * (r : ℂ)‖ = ‖p.k0 * p.media.getD 0 0‖ * r := by
        rw [norm_mul, norm_real, Real.norm_of_nonneg hr.le]
      rcases le_total ‖p.k0 * p.media.getD 0 0 * (r : ℂ)‖ 1 with h | h
      · have := c1 _ (arg_ne hp hlen hz hj hr) h t ph
        exact ⟨SVec.Le.mono this.1 (le_max_left _ _), SVec.Le.mono this.2 (le_max_left _ _)⟩
      · have := c2 (p.k0 * p.media.getD 0 0 * (r : ℂ)) ⟨h, by rw [hnr]; gcongr⟩ t ph
        exact ⟨SVec.Le.mono this.1 (le_max_right _ _), SVec.Le.mono this.2 (le_max_right _ _)⟩
    | succ j =>
      have hR := radius_pos hp (j := j) (by omega)
      obtain ⟨M2, c2⟩ := ser_compact E0 (p.media.getD (j + 1) 0) (hd (j + 1) hj)
        (isCompact_annulus (‖p.k0 * p.media.getD (j + 1) 0‖ * p.radius (j + 1)) (‖p.k0 * p.media.getD (j + 1) 0‖ * r1))
        (by simp only [Set.mem_ofPred_eq, norm_zero]; rintro ⟨h, -⟩; exact absurd h (not_le.2 (mul_pos hkp hR)))
      refine ⟨M2, fun r t ph a1 a2 a3 => ?_⟩
      have hr : 0 < r := hR.trans a1
      have hnr : ‖p.k0 * p.media.getD (j + 1) 0 * (r : ℂ)‖ = ‖p.k0 * p.media.getD (j + 1) 0‖ * r := by
        rw [norm_mul, norm_real, Real.norm_of_nonneg hr.le]
      rw [(h0 hj hr t ph).1, (h0 hj hr t ph).2]
      exact c2 (p.k0 * p.media.getD (j + 1) 0 * (r : ℂ)) ⟨by rw [hnr]; gcongr, by rw [hnr]; gcongr⟩ t ph
  · have hκ : 0 < k0 * Real.sqrt e0 := mul_pos hp.k0_pos (Real.sqrt_pos.2 hp.env_pos)
    obtain ⟨l1, l2, l3, l4⟩ := ser_radiation E0 (csqrt p.epsEnv) (outW_dec (hd _ le_rfl)) (fun n q => rfl) t ph
    have hto : Tendsto (fun r : ℝ => k0 * Real.sqrt e0 * r) atTop atTop := tendsto_id.const_mul_atTop hκ
    have eE : ∀ r, (solE p E0 W 0 p.rLayers.length r t ph).sub (planeE E0 (p.k0 * csqrt p.epsEnv) r t ph) =
        serE E0 (outW (W p.rLayers.length)) ((k0 * Real.sqrt e0 * r : ℝ) : ℂ) t ph := by
      intro r
      unfold solE
      rw [if_pos rfl, ofReal_zero, add_zero, realHost_k hp, ← ofReal_mul]
      simp only [SVec.sub, SVec.add, add_sub_cancel_left]
    have eH : ∀ r, (solH p E0 W 0 p.rLayers.length r t ph).sub (planeH E0 (p.k0 * csqrt p.epsEnv) (csqrt p.epsEnv) r t ph) =
        serH E0 (csqrt p.epsEnv) (outW (W p.rLayers.length)) ((k0 * Real.sqrt e0 * r : ℝ) : ℂ) t ph := by
      intro r
      unfold solH
      rw [if_pos rfl, ofReal_zero, add_zero, realHost_k hp, ← ofReal_mul]
      simp only [SVec.sub, SVec.add, add_sub_cancel_left]
    have hκ' : ((k0 * Real.sqrt e0 : ℝ) : ℂ) ≠ 0 := by exact_mod_cast hκ.ne'
    have res : ∀ {f : ℝ → ℂ}, Tendsto (fun z : ℝ => (z : ℂ) * f z) atTop (𝓝 0) →
        Tendsto (fun r : ℝ => (r : ℂ) * f (k0 * Real.sqrt e0 * r)) atTop (𝓝 0) := by
      intro f hf
      have := (hf.comp hto).const_mul (1 / ((k0 * Real.sqrt e0 : ℝ) : ℂ))
      rw [mul_zero] at this
      refine this.congr fun r => ?_
      simp only [Function.comp]
      rw [ofReal_mul (k0 * Real.sqrt e0) r]
      field_simp
    simp only [eE, eH, media_host hlen]
    exact ⟨res (f := fun z => csqrt p.epsEnv * (serE E0 (outW (W p.rLayers.length)) z t ph).t -
        (serH E0 (csqrt p.epsEnv) (outW (W p.rLayers.length)) z t ph).p) l1,
      res (f := fun z => csqrt p.epsEnv * (serE E0 (outW (W p.rLayers.length)) z t ph).p +
        (serH E0 (csqrt p.epsEnv) (outW (W p.rLayers.length)) z t ph).t) l2,
      res (f := fun z => (serE E0 (outW (W p.rLayers.length)) z t ph).r) l3,
      res (f := fun z => (serH E0 (csqrt p.epsEnv) (outW (W p.rLayers.length)) z t ph).r) l4⟩

/-- The shift is continuous. -/
theorem sol_shift (hd : ∀ j ≤ p.rLayers.length, DecW (W j)) (hp : RealHost p k0 e0)
    (hlen : p.epsLayers.length = p.rLayers.length) (hz : ∀ e ∈ p.epsLayers, e ≠ 0) (E0 : ℂ) {j : ℕ}
    (hj : j ≤ p.rLayers.length) {r : ℝ} (hr : 0 < r) (t ph : ℝ) :
    SVec.Tends (fun eps => solE p E0 W eps j r t ph) (𝓝 0) (solE p E0 W 0 j r t ph) ∧
    SVec.Tends (fun eps => solH p E0 W eps j r t ph) (𝓝 0) (solH p E0 W 0 j r t ph) := by
  have comp : ∀ {f : ℂ → ℂ} {z : ℂ}, ContinuousAt f z → Tendsto (fun eps : ℝ => f (z + eps)) (𝓝 0) (𝓝 (f (z + (0 : ℝ)))) := by
    intro f z hf
    have h1 : Tendsto (fun eps : ℝ => z + (eps : ℂ)) (𝓝 0) (𝓝 z) := by
      have : Continuous fun eps : ℝ => z + (eps : ℂ) := by fun_prop
      simpa using this.tendsto 0
    rw [ofReal_zero, add_zero]
    exact hf.tendsto.comp h1
  have hnz := arg_ne hp hlen hz hj hr
  rcases Nat.lt_or_ge j p.rLayers.length with h | h
  · rw [media_layer (hlen ▸ h)] at hnz
    simp only [solE, solH, if_neg h.ne]
    obtain ⟨c1, c2, c3⟩ := serAt_cont (gb_EnI E0) (gb_En1 E0) (hd j hj .tm) (hd j hj .te) (Real.cos ph : ℝ) (-(Real.sin ph : ℝ)) t hnz
    obtain ⟨c1', c2', c3'⟩ := serAt_cont (gb_EnIm E0 (csqrt (p.epsLayers.getD j 0))) (gb_En (csqrt (p.epsLayers.getD j 0)) E0)
      (hd j hj .te) (hd j hj .tm) (Real.sin ph : ℝ) (Real.cos ph : ℝ) t hnz
    exact ⟨⟨comp c1, comp c2, comp c3⟩, comp c1', comp c2', comp c3'⟩
  · obtain rfl : j = p.rLayers.length := by omega
    rw [media_host hlen] at hnz
    have ho := outW_dec (hd _ hj)
    simp only [solE, solH, if_true]
    obtain ⟨c1, c2, c3⟩ := serAt_cont (gb_EnI E0) (gb_En1 E0) (ho .tm) (ho .te) (Real.cos ph : ℝ) (-(Real.sin ph : ℝ)) t hnz
    obtain ⟨c1', c2', c3'⟩ := serAt_cont (gb_EnIm E0 (csqrt p.epsEnv)) (gb_En (csqrt p.epsEnv) E0)
      (ho .te) (ho .tm) (Real.sin ph : ℝ) (Real.cos ph : ℝ) t hnz
    exact ⟨⟨(comp c1).const_add _, (comp c2).const_add _, (comp c3).const_add _⟩, (comp c1').const_add _, (comp c2').const_add _,
      (comp c3').const_add _⟩

end

/-! ## Partial sums -/

/-- A Cartesian vector at the angles `t`, `p` whose spherical components are within `d` of `s`. -/
def NearV (v : V3 ℂ) (s : SVec) (t p d : ℝ) : Prop := ‖v.eR t p - s.r‖ ≤ d ∧ ‖v.eT t p - s.t‖ ≤ d ∧ ‖v.eP p - s.p‖ ≤ d

theorem multiE_ser (E0 n z : ℂ) (N : ℕ) (w : ℕ → Pol → Wave) (t p : ℝ) :
    (multiE E0 n z N w t p).eR t p = (Real.cos p : ℝ) *
      (∑ i ∈ Finset.range N, serR (fun n => -(I * EnCoef E0 n)) (fun n => w n .tm) (i + 1) t z) / z ^ 2 ∧
    (multiE E0 n z N w t p).eT t p = (Real.cos p : ℝ) * (∑ i ∈ Finset.range N,
      serT (fun n => -(I * EnCoef E0 n)) (fun n => EnCoef E0 n) (fun n => w n .tm) (fun n => w n .te) (i + 1) t z) / z ∧
    (multiE E0 n z N w t p).eP p = -((Real.sin p : ℝ)) * (∑ i ∈ Finset.range N,
      serP (fun n => -(I * EnCoef E0 n)) (fun n => EnCoef E0 n) (fun n => w n .tm) (fun n => w n .te) (i + 1) t z) / z := by
  obtain ⟨p1, p2, p3⟩ := multiE_parts E0 n z N w t p
  rw [p1, p2, p3, profR, profT, profP]
  simp only [Finset.mul_sum, Finset.sum_div, ← Finset.sum_neg_distrib]
  refine ⟨Finset.sum_congr rfl fun i _ => ?_, Finset.sum_congr rfl fun i _ => ?_, Finset.sum_congr rfl fun i _ => ?_⟩ <;>
  · simp only [serR, serT, serP, mulRh, mulAl, mulBe]
    push_cast
    ring

theorem multiH_ser (E0 n z : ℂ) (N : ℕ) (w : ℕ → Pol → Wave) (t p : ℝ) :
    (multiH E0 n z N w t p).eR t p = (Real.sin p : ℝ) *
      (∑ i ∈ Finset.range N, serR (fun k => -(I * n * EnCoef E0 k)) (fun k => w k .te) (i + 1) t z) / z ^ 2 ∧
    (multiH E0 n z N w t p).eT t p = (Real.sin p : ℝ) * (∑ i ∈ Finset.range N,
      serT (fun k => -(I * n * EnCoef E0 k)) (fun k => n * EnCoef E0 k) (fun k => w k .te) (fun k => w k .tm) (i + 1) t z) / z ∧
    (multiH E0 n z N w t p).eP p = (Real.cos p : ℝ) * (∑ i ∈ Finset.range N,
      serP (fun k => -(I * n * EnCoef E0 k)) (fun k => n * EnCoef E0 k) (fun k => w k .te) (fun k => w k .tm) (i + 1) t z) / z := by
  obtain ⟨p2, p3⟩ := multiH_parts E0 n z N w t p
  rw [p2, p3, profT, profP]
  simp only [Finset.mul_sum, Finset.sum_div]
  refine ⟨?_, Finset.sum_congr rfl fun i _ => ?_, Finset.sum_congr rfl fun i _ => ?_⟩
  · unfold multiH
    obtain ⟨p1, -, -⟩ := sumCart_parts t p ((List.range N).map fun i => (waveField false E0 n z t p (i + 1) (w (i + 1))).2)
    rw [p1, List.map_map, sum_range_map]
    refine Finset.sum_congr rfl fun i _ => ?_
    simp only [Function.comp, waveField, Bool.false_eq_true, if_false, inField, V3.smul, V3.add, vshExact, vshOrder, serR, Wave.val]
    push_cast
    ring
  all_goals
    simp only [serT, serP, mulGa, mulDe]
    ring

section
variable {x y : ℕ → ℂ} {α β α' β' : ℕ → Wave}

theorem serR_congr {n : ℕ} {t : ℝ} {z : ℂ} (h : α n = α' n) : serR x α n t z = serR x α' n t z := by simp only [serR, h]

theorem serT_congr {n : ℕ} {t : ℝ} {z : ℂ} (h : α n = α' n) (h' : β n = β' n) : serT x y α β n t z = serT x y α' β' n t z := by
  simp only [serT, h, h']

theorem serP_congr {n : ℕ} {t : ℝ} {z : ℂ} (h : α n = α' n) (h' : β n = β' n) : serP x y α β n t z = serP x y α' β' n t z := by
  simp only [serP, h, h']

theorem tail_cut {T : ℕ → ℝ → ℂ → ℂ} (hT : Good T) (h0 : ∀ t z, T 0 t z = 0) {K : Set ℂ} (hK : IsCompact K) (hK0 : (0 : ℂ) ∉ K)
    {ρ : ℝ} (hρ : 0 < ρ) (k : ℕ) : ∃ C : ℝ, ∀ N t, ∀ z ∈ K, ∀ c : ℂ, ‖c‖ ≤ 1 →
      ‖c * (∑ i ∈ Finset.range N, T (i + 1) t z) / z ^ k - c * (∑' n, T n t z) / z ^ k‖ ≤ C * ρ ^ N := by
  obtain ⟨s, hs, hl⟩ := compact_lower hK hK0
  obtain ⟨C, hC, h⟩ := hT.tail h0 hK hK0 hρ
  refine ⟨C / s ^ k, fun N t z hz c hc => ?_⟩
  rw [← sub_div, ← mul_sub]
  refine (cut_bound hc (pow_pos hs k) ?_ (h N t z hz)).trans (le_of_eq (by ring))
  rw [norm_pow]; exact pow_le_pow_left₀ hs.le (hl z hz) k

theorem serAt_tail (hx : GB fun n => ‖x n‖) (hy : GB fun n => ‖y n‖) (x0 : x 0 = 0) (y0 : y 0 = 0) (hα : Dec α) (hβ : Dec β)
    {K : Set ℂ} (hK : IsCompact K) (h0 : (0 : ℂ) ∉ K) {ρ : ℝ} (hρ : 0 < ρ) :
    ∃ C : ℝ, ∀ (N : ℕ) (t : ℝ), ∀ z ∈ K, ∀ c c' : ℂ, ‖c‖ ≤ 1 → ‖c'‖ ≤ 1 →
      ‖c * (∑ i ∈ Finset.range N, serR x α (i + 1) t z) / z ^ 2 - (serAt c c' x y α β z t).r‖ ≤ C * ρ ^ N ∧
      ‖c * (∑ i ∈ Finset.range N, serT x y α β (i + 1) t z) / z - (serAt c c' x y α β z t).t‖ ≤ C * ρ ^ N ∧
      ‖c' * (∑ i ∈ Finset.range N, serP x y α β (i + 1) t z) / z - (serAt c c' x y α β z t).p‖ ≤ C * ρ ^ N := by
  obtain ⟨C1, h1⟩ := tail_cut (good_serR hx hα) (fun t z => by simp [serR]) hK h0 hρ 2
  obtain ⟨C2, h2⟩ := tail_cut (good_serT hx hy hα hβ) (fun t z => by simp [serT, x0, y0]) hK h0 hρ 1
  obtain ⟨C3, h3⟩ := tail_cut (good_serP hx hy hα hβ) (fun t z => by simp [serP, x0, y0]) hK h0 hρ 1
  refine ⟨max C1 (max C2 C3), fun N t z hz c c' hc hc' => ?_⟩
  have hp : 0 ≤ ρ ^ N := pow_nonneg hρ.le N
  have e1 := h1 N t z hz c hc
  have e2 := h2 N t z hz c hc
  have e3 := h3 N t z hz c' hc'
  rw [pow_one] at e2 e3
  exact ⟨e1.trans (mul_le_mul_of_nonneg_right (le_max_left _ _) hp),
    e2.trans (mul_le_mul_of_nonneg_right ((le_max_left _ _).trans (le_max_right _ _)) hp),
    e3.trans (mul_le_mul_of_nonneg_right ((le_max_right _ _).trans (le_max_right _ _)) hp)⟩

end

/-- The remainder of the first `N` orders, uniform in the angles, in the argument and in the waves beyond order `N`. -/
theorem multi_tail (E0 n : ℂ) {W : ℕ → Pol → Wave} (hW : DecW W) {K : Set ℂ} (hK : IsCompact K) (h0 : (0 : ℂ) ∉ K) {ρ : ℝ}
    (hρ : 0 < ρ) : ∃ C : ℝ, ∀ (N : ℕ) (w : ℕ → Pol → Wave), (∀ i < N, ∀ q, w (i + 1) q = W (i + 1) q) → ∀ z ∈ K, ∀ t p : ℝ,
      NearV (multiE E0 n z N w t p) (serE E0 W z t p) t p (C * ρ ^ N) ∧
      NearV (multiH E0 n z N w t p) (serH E0 n W z t p) t p (C * ρ ^ N) := by
  obtain ⟨C1, h1⟩ := serAt_tail (gb_EnI E0) (gb_En1 E0) (by simp [EnCoef_zero]) (by simp [EnCoef_zero]) (hW .tm) (hW .te) hK h0 hρ
  obtain ⟨C2, h2⟩ := serAt_tail (gb_EnIm E0 n) (gb_En n E0) (by simp [EnCoef_zero]) (by simp [EnCoef_zero]) (hW .te) (hW .tm) hK h0 hρ
  refine ⟨max C1 C2, fun N w hw z hz t p => ?_⟩
  obtain ⟨a1, a2, a3⟩ := h1 N t z hz _ _ (norm_cos_le p) (show ‖-((Real.sin p : ℝ) : ℂ)‖ ≤ 1 by rw [norm_neg]; exact norm_sin_le p)
  obtain ⟨b1, b2, b3⟩ := h2 N t z hz _ _ (norm_sin_le p) (norm_cos_le p)
  obtain ⟨e1, e2, e3⟩ := multiE_ser E0 n z N w t p
  obtain ⟨f1, f2, f3⟩ := multiH_ser E0 n z N w t p
  have hp : 0 ≤ ρ ^ N := pow_nonneg hρ.le N
  have m1 := mul_le_mul_of_nonneg_right (le_max_left C1 C2) hp
  have m2 := mul_le_mul_of_nonneg_right (le_max_right C1 C2) hp
  have sc : ∀ {f g : ℕ → ℂ}, (∀ i < N, f i = g i) → ∑ i ∈ Finset.range N, f i = ∑ i ∈ Finset.range N, g i :=
    fun h => Finset.sum_congr rfl fun i hi => h i (Finset.mem_range.1 hi)
  refine ⟨⟨?_, ?_, ?_⟩, ?_, ?_, ?_⟩
  · rw [e1, sc fun i hi => serR_congr (α' := fun n => W n .tm) (hw i hi .tm)]
    exact a1.trans m1
  · rw [e2, sc fun i hi => serT_congr (α' := fun n => W n .tm) (β' := fun n => W n .te) (hw i hi .tm) (hw i hi .te)]
    exact a2.trans m1
  · rw [e3, sc fun i hi => serP_congr (α' := fun n => W n .tm) (β' := fun n => W n .te) (hw i hi .tm) (hw i hi .te)]
    exact a3.trans m1
  · rw [f1, sc fun i hi => serR_congr (α' := fun n => W n .te) (hw i hi .te)]
    exact b1.trans m2
  · rw [f2, sc fun i hi => serT_congr (α' := fun n => W n .te) (β' := fun n => W n .tm) (hw i hi .te) (hw i hi .tm)]
    exact b2.trans m2
  · rw [f3, sc fun i hi => serP_congr (α' := fun n => W n .te) (β' := fun n => W n .tm) (hw i hi .te) (hw i hi .tm)]
    exact b3.trans m2

/-! ## The near fields of a run -/

/-- The total fields of the code are within `d` of the fields `E`, `H`. -/
def FieldsNear (F : Fields) (E H : SField) (v : V3 ℝ) (d : ℝ) : Prop :=
  NearV F.Et (E v.dist v.polar v.azimuth) v.polar v.azimuth d ∧ NearV F.Ht (H v.dist v.polar v.azimuth) v.polar v.azimuth d

theorem NearV.mono {v : V3 ℂ} {s : SVec} {t p d d' : ℝ} (h : NearV v s t p d) (hd : d ≤ d') : NearV v s t p d' :=
  ⟨h.1.trans hd, h.2.1.trans hd, h.2.2.trans hd⟩

/-- The scattered fields of the host as sums of outgoing waves. -/
theorem host_multi (k m E0 : ℂ) (a b : List ℂ) (eps r t p : ℝ) (w : ℕ → Pol → Wave) (hd : ∀ i q, (w (i + 1) q).d = 0)
    (ha : ∀ i < a.length, (w (i + 1) .tm).a = a.getD i 0) (hb : ∀ i < a.length, (w (i + 1) .te).a = b.getD i 0) :
    (hostFields k m E0 a b eps r t p).Et = (multiE E0 m (k * r + eps) a.length w t p).add (incidentE E0 k r t) ∧
    (hostFields k m E0 a b eps r t p).Ht = (multiH E0 m (k * r + eps) a.length w t p).add (incidentH E0 k m r t) := by
  have key : ∀ i ∈ List.range a.length, outField (EnCoef E0 (i + 1)) (a.getD i 0) (b.getD i 0) m
      (vshExact (i + 1) t p (k * r + eps) (ricZeta (i + 1))) =
      waveField false E0 m (k * r + eps) t p (i + 1) (w (i + 1)) := by
    intro i hi
    have hi := List.mem_range.1 hi
    simp only [waveField, Bool.false_eq_true, if_false, outField, inField, hd, ha i hi, hb i hi, Prod.mk.injEq, V3.smul, V3.add,
      V3.mk.injEq]
    refine ⟨⟨?_, ?_, ?_⟩, ?_, ?_, ?_⟩ <;> ring
  simp only [hostFields, multiE, multiH]
  rw [List.map_congr_left fun i hi => congrArg Prod.fst (key i hi), List.map_congr_left fun i hi => congrArg Prod.snd (key i hi)]
  exact ⟨rfl, rfl⟩

theorem NearV.add_const {u c : V3 ℂ} {s s' : SVec} {t p d : ℝ} (h : NearV u s t p d) (h1 : c.eR t p = s'.r) (h2 : c.eT t p = s'.t)
    (h3 : c.eP p = s'.p) : NearV (u.add c) (s'.add s) t p d := by
  have e : ∀ {x y z w : ℂ}, ‖x - z‖ ≤ d → y = w → ‖x + y - (w + z)‖ ≤ d := by
    intro x y z w h e
    rw [e, show x + w - (w + z) = x - z by ring]; exact h
  refine ⟨?_, ?_, ?_⟩
  · rw [eR_add]; exact e h.1 h1
  · rw [eT_add]; exact e h.2.1 h2
  · rw [eP_add]; exact e h.2.2 h3

section
variable {p : Particle1} {k0 e0 : ℝ} {W : ℕ → ℕ → Pol → Wave}

theorem arg_compact (hp : RealHost p k0 e0) (hz : ∀ e ∈ p.epsLayers, e ≠ 0) {m : ℂ} (hm : m ∈ p.media) {r1 r2 : ℝ} (hr : 0 < r1) :
    ∃ K : Set ℂ, IsCompact K ∧ (0 : ℂ) ∉ K ∧ ∀ r eps : ℝ, r1 ≤ r → r ≤ r2 → 0 ≤ eps → eps ≤ 1 → p.k0 * m * r + eps ∈ K := by
  refine ⟨(fun u : ℝ × ℝ => p.k0 * m * (u.1 : ℂ) + (u.2 : ℂ)) '' (Set.Icc r1 r2 ×ˢ Set.Icc 0 1),
    (isCompact_Icc.prod isCompact_Icc).image (by fun_prop), ?_, fun r eps h1 h2 h3 h4 => ⟨(r, eps), ⟨⟨h1, h2⟩, h3, h4⟩, rfl⟩⟩
  rintro ⟨⟨r, eps⟩, ⟨⟨h1, h2⟩, h3, h4⟩, e⟩
  exact media_arg_ne' hp hz h3 (lt_of_lt_of_le hr h1) m hm e

/-- All regions, distances up to `r2`, shifts up to 1: any fields that are those of the waves of a run differ from the fields of all
orders by less than a geometric sequence in the number of orders. -/
theorem run_tail (hW : AllWaves p W) (hd : ∀ j ≤ p.rLayers.length, DecW (W j)) (hp : RealHost p k0 e0)
    (hlen : p.epsLayers.length = p.rLayers.length) (hne : p.rLayers ≠ []) (hz : ∀ e ∈ p.epsLayers, e ≠ 0) (E0 : ℂ) {ρ r1 r2 : ℝ}
    (hρ : 0 < ρ) (hr : 0 < r1) : ∃ C : ℝ, ∀ (a b : List ℂ) (w : ℕ → ℕ → Pol → Wave), LayerWaves p a b w →
      ∀ (eps : ℝ) (v : V3 ℝ) (F : Fields), 0 ≤ eps → eps ≤ 1 → r1 ≤ v.dist → v.dist ≤ r2 →
        (∀ j < p.rLayers.length, InsideFields E0 p a.length w eps j v F →
          FieldsNear F (solE p E0 W eps j) (solH p E0 W eps j) v (C * ρ ^ a.length)) ∧
        FieldsNear (hostFields (k0 * Real.sqrt e0 : ℝ) (csqrt p.epsEnv) E0 a b eps v.dist v.polar v.azimuth)
          (solE p E0 W eps p.rLayers.length) (solH p E0 W eps p.rLayers.length) v (C * ρ ^ a.length) := by
  have inner : ∃ C : ℝ, ∀ j ≤ p.rLayers.length, j < p.rLayers.length → ∀ (N : ℕ) (w : ℕ → Pol → Wave),
      (∀ i < N, ∀ q, w (i + 1) q = W j (i + 1) q) → ∀ r eps t ph : ℝ, r1 ≤ r → r ≤ r2 → 0 ≤ eps → eps ≤ 1 →
      NearV (multiE E0 (csqrt (p.epsLayers.getD j 0)) (p.k0 * csqrt (p.epsLayers.getD j 0) * r + eps) N w t ph)
        (serE E0 (W j) (p.k0 * csqrt (p.epsLayers.getD j 0) * r + eps) t ph) t ph (C * ρ ^ N) ∧
      NearV (multiH E0 (csqrt (p.epsLayers.getD j 0)) (p.k0 * csqrt (p.epsLayers.getD j 0) * r + eps) N w t ph)
        (serH E0 (csqrt (p.epsLayers.getD j 0)) (W j) (p.k0 * csqrt (p.epsLayers.getD j 0) * r + eps) t ph) t ph (C * ρ ^ N) := by
    refine exists_common (fun j M M' hM h h1 N w hw r eps t ph b1 b2 b3 b4 => ?_) _ fun j hj => ?_
    · obtain ⟨c1, c2⟩ := h h1 N w hw r eps t ph b1 b2 b3 b4
      have := mul_le_mul_of_nonneg_right hM (pow_nonneg hρ.le N)
      exact ⟨c1.mono this, c2.mono this⟩
    · rcases Nat.lt_or_ge j p.rLayers.length with h | h
      · have hm := media_mem hlen hj
        rw [media_layer (hlen ▸ h)] at hm
        obtain ⟨K, hK, h0, hmem⟩ := arg_compact hp hz hm (r1 := r1) (r2 := r2) hr
        obtain ⟨C, hC⟩ := multi_tail E0 (csqrt (p.epsLayers.getD j 0)) (hd j hj) hK h0 hρ
        exact ⟨C, fun _ N w hw r eps t ph b1 b2 b3 b4 => hC N w hw _ (hmem r eps b1 b2 b3 b4) t ph⟩
      · exact ⟨0, fun h1 => absurd h1 (not_lt.2 h)⟩
  obtain ⟨C1, h1⟩ := inner
  have hm := media_mem hlen (le_refl p.rLayers.length)
  rw [media_host hlen] at hm
  obtain ⟨K, hK, h0, hmem⟩ := arg_compact hp hz hm (r1 := r1) (r2 := r2) hr
  obtain ⟨C2, h2⟩ := multi_tail E0 (csqrt p.epsEnv) (outW_dec (hd _ le_rfl)) hK h0 hρ
  refine ⟨max C1 C2, fun a b w hw eps v F he he1 hv1 hv2 => ⟨fun j hj hF => ?_, ?_⟩⟩
  · obtain ⟨c1, c2⟩ := h1 j hj.le hj a.length (w j) (fun i hi q => hw.agree hW hp hlen hne hz hi q hj.le) v.dist eps v.polar v.azimuth
      hv1 hv2 he he1
    have hm := mul_le_mul_of_nonneg_right (le_max_left C1 C2) (pow_nonneg hρ.le a.length)
    unfold FieldsNear
    rw [hF.1, hF.2]
    simp only [solE, solH, if_neg hj.ne]
    exact ⟨c1.mono hm, c2.mono hm⟩
  · have hm := mul_le_mul_of_nonneg_right (le_max_right C1 C2) (pow_nonneg hρ.le a.length)
    have ha : ∀ i < a.length, (outW (W p.rLayers.length) (i + 1) .tm).a = a.getD i 0 := fun i hi => by
      rw [outW, ← hw.agree hW hp hlen hne hz hi .tm le_rfl, (hw.host i hi).1]
    have hb : ∀ i < a.length, (outW (W p.rLayers.length) (i + 1) .te).a = b.getD i 0 := fun i hi => by
      rw [outW, ← hw.agree hW hp hlen hne hz hi .te le_rfl, (hw.host i hi).2]
    rw [← realHost_k hp]
    obtain ⟨e1, e2⟩ := host_multi (p.k0 * csqrt p.epsEnv) (csqrt p.epsEnv) E0 a b eps v.dist v.polar v.azimuth
      (outW (W p.rLayers.length)) (fun i q => rfl) ha hb
    obtain ⟨c1, c2⟩ := h2 a.length (outW (W p.rLayers.length)) (fun _ _ _ => rfl) _ (hmem v.dist eps hv1 hv2 he he1) v.polar v.azimuth
    obtain ⟨i1, i2, i3, i4, i5, i6⟩ := C61_incident E0 (p.k0 * csqrt p.epsEnv) (csqrt p.epsEnv) v.dist v.polar v.azimuth
    unfold FieldsNear
    rw [e1, e2]
    simp only [solE, solH, if_true]
    exact ⟨(c1.mono hm).add_const i1 i2 i3, (c2.mono hm).add_const i4 i5 i6⟩

end

end MieDiff
