import Verif.Props.Spectrum
import Mathlib.Analysis.Convex.Deriv

/-!
# C116: finely sampled spectra reproduce the spectrum between the samples
-/

namespace MieDiff

open Complex Topology

/-- Every point of `[a, b]` has a sampled point closer than `δ`. -/
def Spec.DenseIn (a b δ : ℝ) (xs : List ℝ) : Prop := ∀ x ∈ Set.Icc a b, ∃ y ∈ xs, |y - x| < δ

/-- C116 for any continuous quantity: on fine enough samples, in any order, repeated or not, `interp1d` is close to the sampled quantity in
the whole interval, also before the first and behind the last sample. -/
theorem C116_dense {G : ℝ → ℂ} {a b ε : ℝ} (hG : ContinuousOn G (Set.Icc a b)) (hε : 0 < ε) :
    ∃ δ, 0 < δ ∧ ∀ dat : List (ℝ × ℂ), (∀ p ∈ dat, p.1 ∈ Set.Icc a b ∧ p.2 = G p.1) → Spec.DenseIn a b δ (dat.map (·.1)) →
      ∀ x ∈ Set.Icc a b, ∃ y, interp1d x dat = .ok y ∧ ‖y - G x‖ < ε := by
  obtain ⟨η, hη, hu⟩ := Metric.uniformContinuousOn_iff.mp (isCompact_Icc.uniformContinuousOn_of_continuous hG) ε hε
  refine ⟨η / 2, by linarith, fun dat hd hden x hx => ?_⟩
  have near : ∀ p ∈ dat, |p.1 - x| < η → p.2 ∈ Metric.ball (G x) ε := by
    intro p hp h
    rw [(hd p hp).2]
    exact hu _ (hd p hp).1 _ hx h
  have dense : ∀ z ∈ Set.Icc a b, ∃ p ∈ dat, |p.1 - z| < η / 2 := by
    intro z hz
    obtain ⟨_, hm, h⟩ := hden z hz
    obtain ⟨p, hp, rfl⟩ := List.mem_map.mp hm
    exact ⟨p, hp, h⟩
  have hs := sortOf_mergeSort dat
  obtain ⟨q, hq, hqx⟩ := dense x hx
  obtain ⟨i, hil, hi⟩ := hs.idx hq
  unfold interp1d
  rcases interpSorted_cases x _ (interp_ne hs hq) with ⟨p, hp, hpx, e⟩ | ⟨p, hp, hpx, e⟩ | ⟨k, l, r, kl, kr, h1, h2, e⟩
  · have := hs.get_le (Nat.zero_le i) hp hi
    refine ⟨_, e, mem_ball_iff_norm.mp (near p (hs.mem hp) ?_)⟩
    rw [abs_lt] at hqx ⊢
    constructor <;> linarith
  · have := hs.get_le (show i ≤ _ by omega) hi hp
    refine ⟨_, e, mem_ball_iff_norm.mp (near p (hs.mem hp) ?_)⟩
    rw [abs_lt] at hqx ⊢
    constructor <;> linarith
  · have hl := (hd l (hs.mem kl)).1
    have hr := (hd r (hs.mem kr)).1
    obtain ⟨m, hm, hmx⟩ := dense ((l.1 + r.1) / 2) ⟨by linarith [hl.1, hr.1], by linarith [hl.2, hr.2]⟩
    obtain ⟨j, -, hj⟩ := hs.idx hm
    have hw : r.1 - l.1 < η := by
      rw [abs_lt] at hmx
      rcases Nat.lt_or_ge k j with h | h
      · have := hs.get_le h kr hj
        linarith
      · have := hs.get_le h hj kl
        linarith
    have hlr : 0 < r.1 - l.1 := by linarith
    have b1 := near l (hs.mem kl) (by rw [abs_lt]; constructor <;> linarith)
    have b2 := near r (hs.mem kr) (by rw [abs_lt]; constructor <;> linarith)
    refine ⟨_, e, mem_ball_iff_norm.mp ?_⟩
    have hc := (convex_ball (G x) ε) b1 b2 (a := (r.1 - x) / (r.1 - l.1)) (b := (x - l.1) / (r.1 - l.1))
      (div_nonneg (by linarith) hlr.le) (div_nonneg (by linarith) hlr.le) (by field_simp; ring)
    convert hc using 1
    have : ((r.1 : ℂ) - l.1) ≠ 0 := by exact_mod_cast hlr.ne'
    simp only [Complex.real_smul]
    push_cast
    field_simp

/-- Equidistant points, both ends included. -/
noncomputable def Spec.grid (a b : ℝ) (N : ℕ) : List ℝ := (List.range (N + 1)).map fun i : ℕ => a + i * ((b - a) / N)

theorem grid_mem {a b : ℝ} (hab : a ≤ b) {N : ℕ} (hN : 1 ≤ N) : ∀ x ∈ Spec.grid a b N, x ∈ Set.Icc a b := by
  intro x hx
  obtain ⟨i, hi, rfl⟩ := List.mem_map.mp hx
  have hN' : (0 : ℝ) < N := by exact_mod_cast hN
  have hi' : (i : ℝ) ≤ N := by exact_mod_cast Nat.lt_succ_iff.mp (List.mem_range.mp hi)
  have h0 : 0 ≤ (b - a) / N := div_nonneg (by linarith) hN'.le
  have h1 : (N : ℝ) * ((b - a) / N) = b - a := by field_simp
  have h2 := mul_le_mul_of_nonneg_right hi' h0
  exact ⟨by nlinarith [mul_nonneg (Nat.cast_nonneg (α := ℝ) i) h0], by linarith⟩

theorem grid_dense {a b δ : ℝ} {N : ℕ} (hN : 1 ≤ N) (h : (b - a) / N < δ) : Spec.DenseIn a b δ (Spec.grid a b N) := by
  intro x hx
  have hN' : (0 : ℝ) < N := by exact_mod_cast hN
  rcases (hx.1.trans hx.2).eq_or_lt with hab | hab
  · refine ⟨a, List.mem_map.mpr ⟨0, by simp, by simp⟩, ?_⟩
    have : x = a := le_antisymm (by rw [hab]; exact hx.2) hx.1
    rw [this, sub_self, abs_zero]
    rw [hab] at h
    simpa using h
  · have hh : 0 < (b - a) / N := div_pos (by linarith) hN'
    have h1 : (N : ℝ) * ((b - a) / N) = b - a := by field_simp
    have h0 : 0 ≤ (x - a) / ((b - a) / N) := div_nonneg (by linarith [hx.1]) hh.le
    have f1 := Nat.floor_le h0
    have f2 := Nat.lt_floor_add_one ((x - a) / ((b - a) / N))
    rw [le_div_iff₀ hh] at f1
    rw [div_lt_iff₀ hh] at f2
    refine ⟨_, List.mem_map.mpr ⟨⌊(x - a) / ((b - a) / N)⌋₊, List.mem_range.mpr ?_, rfl⟩, ?_⟩
    · rw [Nat.lt_succ_iff]
      refine Nat.floor_le_of_le ?_
      rw [div_le_iff₀ hh, h1]
      linarith [hx.2]
    · rw [abs_lt]
      constructor <;> nlinarith

/-- C116: with enough equidistant samples `interp1d` is as close to a continuous quantity as required. -/
theorem C116_grid {G : ℝ → ℂ} {a b ε : ℝ} (hab : a ≤ b) (hG : ContinuousOn G (Set.Icc a b)) (hε : 0 < ε) :
    ∃ N0 : ℕ, 1 ≤ N0 ∧ ∀ N, N0 ≤ N → ∀ dat : List (ℝ × ℂ), dat.Perm ((Spec.grid a b N).map fun x => (x, G x)) →
      ∀ x ∈ Set.Icc a b, ∃ y, interp1d x dat = .ok y ∧ ‖y - G x‖ < ε := by
  obtain ⟨δ, hδ, h⟩ := C116_dense hG hε
  obtain ⟨N0, hN0⟩ := exists_nat_gt ((b - a) / δ)
  refine ⟨max N0 1, le_max_right _ _, fun N hN dat hd => h dat ?_ ?_⟩
  · intro p hp
    obtain ⟨x, hx, rfl⟩ := List.mem_map.mp (hd.mem_iff.mp hp)
    exact ⟨grid_mem hab (le_of_max_le_right hN) x hx, rfl⟩
  · have hN1 : (0 : ℝ) < N := by exact_mod_cast lt_of_lt_of_le one_pos (le_of_max_le_right hN)
    have hN2 : (N0 : ℝ) ≤ N := by exact_mod_cast le_of_max_le_left hN
    have hlt : (b - a) / N < δ := by
      rw [div_lt_iff₀ hδ] at hN0
      rw [div_lt_iff₀ hN1]
      nlinarith
    intro x hx
    obtain ⟨y, hy, hxy⟩ := grid_dense (le_of_max_le_right hN) hlt x hx
    exact ⟨y, List.mem_map.mpr ⟨(y, G y), hd.mem_iff.mpr (List.mem_map.mpr ⟨y, hy, rfl⟩), rfl⟩, hxy⟩

/-- C116: the cross sections of a sphere or core-shell particle of shipped materials, computed at fine enough samples of a band and
interpolated with `interp1d`, agree with the cross sections computed at every other wavenumber of the band. -/
theorem C116_spectrum {Ms : List Spec.Material} {rs : List ℝ} {e0 a b : ℝ} (he0 : 0 < e0) (ha : 0 < a)
    (hM : ∀ M ∈ Ms, Spec.UsableOn ((fun κ => 2 * Real.pi / κ) '' Set.Icc a b) M) {Q : ℝ → Particle1}
    (hQ : ∀ κ ∈ Set.Icc a b, (Q κ).k0 = κ ∧ (Q κ).rLayers = rs ∧ (Q κ).epsEnv = e0 ∧
      List.Forall₂ (fun M e => M.at ⟨id, id⟩ (2 * Real.pi / κ) = .ok e) Ms (Q κ).epsLayers)
    (hinc : strictlyIncreasing rs) (hpos : ∀ r ∈ rs, 0 < r) (hne : rs ≠ []) (hl : rs.length ≤ 2) (hlen : Ms.length = rs.length)
    {backend : String} (w : String) (hb : backend.toLower = "scipy") {sp : BesselBackend} {n : ℕ} (hn : 1 ≤ n)
    (hex : ∀ z ≠ 0, ExactAt sp n z) (K : D1Kernel) {ε : ℝ} (hε : 0 < ε) :
    ∃ δ, 0 < δ ∧ ∀ samples : List (ℝ × CrossSections),
      (∀ s ∈ samples, s.1 ∈ Set.Icc a b ∧ crossSectionsOf K (codeBackends sp) (Q s.1) backend w (some n) = .ok s.2) →
      Spec.DenseIn a b δ (samples.map (·.1)) → ∀ κ ∈ Set.Icc a b, ∃ c ext sca abs,
        crossSectionsOf K (codeBackends sp) (Q κ) backend w (some n) = .ok c ∧
        interp1d κ (samples.map fun s => (s.1, (s.2.csExt : ℂ))) = .ok ext ∧ ‖ext - c.csExt‖ < ε ∧
        interp1d κ (samples.map fun s => (s.1, (s.2.csSca : ℂ))) = .ok sca ∧ ‖sca - c.csSca‖ < ε ∧
        interp1d κ (samples.map fun s => (s.1, (s.2.csAbs : ℂ))) = .ok abs ∧ ‖abs - c.csAbs‖ < ε := by
  obtain ⟨c, hc, h1, h2, h3, -⟩ := C115_spectrum he0 (fun κ hκ => lt_of_lt_of_le ha hκ.1) hM hQ hinc hpos hne hl hlen w hb hn hex K
  have key : ∀ f : CrossSections → ℝ, ContinuousOn (fun κ => f (c κ)) (Set.Icc a b) → ∃ δ, 0 < δ ∧ ∀ samples : List (ℝ × CrossSections),
      (∀ s ∈ samples, s.1 ∈ Set.Icc a b ∧ crossSectionsOf K (codeBackends sp) (Q s.1) backend w (some n) = .ok s.2) →
      Spec.DenseIn a b δ (samples.map (·.1)) → ∀ κ ∈ Set.Icc a b, ∃ y,
        interp1d κ (samples.map fun s => (s.1, (f s.2 : ℂ))) = .ok y ∧ ‖y - f (c κ)‖ < ε := by
    intro f hf
    obtain ⟨δ, hδ, h⟩ := C116_dense (G := fun κ => (f (c κ) : ℂ)) (continuous_ofReal.comp_continuousOn hf) hε
    refine ⟨δ, hδ, fun samples hs hd => h _ ?_ (by rw [List.map_map]; exact hd)⟩
    intro p hp
    obtain ⟨s, hm, rfl⟩ := List.mem_map.mp hp
    obtain ⟨k1, k2⟩ := hs s hm
    rw [hc _ k1, Except.ok.injEq] at k2
    exact ⟨k1, by simp only [k2]⟩
  obtain ⟨d1, p1, g1⟩ := key (·.csExt) h1
  obtain ⟨d2, p2, g2⟩ := key (·.csSca) h2
  obtain ⟨d3, p3, g3⟩ := key (·.csAbs) h3
  have mono : ∀ {δ δ' : ℝ} {xs : List ℝ}, δ ≤ δ' → Spec.DenseIn a b δ xs → Spec.DenseIn a b δ' xs := by
    intro δ δ' xs h hd x hx
    obtain ⟨y, hy, hxy⟩ := hd x hx
    exact ⟨y, hy, hxy.trans_le h⟩
  refine ⟨min d1 (min d2 d3), by positivity, fun samples hs hd κ hκ => ?_⟩
  obtain ⟨y1, i1, e1⟩ := g1 samples hs (mono (min_le_left _ _) hd) κ hκ
  obtain ⟨y2, i2, e2⟩ := g2 samples hs (mono ((min_le_right _ _).trans (min_le_left _ _)) hd) κ hκ
  obtain ⟨y3, i3, e3⟩ := g3 samples hs (mono ((min_le_right _ _).trans (min_le_right _ _)) hd) κ hκ
  exact ⟨c κ, y1, y2, y3, hc κ hκ, i1, e1, i2, e2, i3, e3⟩

/-- The error of linear interpolation between two points. -/
theorem chord_error {f : ℝ → ℝ} {l r M : ℝ} (hf : ∀ x ∈ Set.Icc l r, AnalyticAt ℝ f x) (hM : ∀ x ∈ Set.Icc l r, |deriv (deriv f) x| ≤ M)
    {x : ℝ} (h1 : l < x) (h2 : x ≤ r) : |(f l * (r - x) + f r * (x - l)) / (r - l) - f x| ≤ M / 2 * ((x - l) * (r - x)) := by
  have hlr : 0 < r - l := by linarith
  have upper : ∀ g : ℝ → ℝ, (∀ x ∈ Set.Icc l r, AnalyticAt ℝ g x) → (∀ x ∈ Set.Icc l r, -M ≤ deriv (deriv g) x) →
      g x - (g l * (r - x) + g r * (x - l)) / (r - l) ≤ M / 2 * ((x - l) * (r - x)) := by
    intro g hg hb
    have hc : ConvexOn ℝ (Set.Icc l r) fun y => g y + M / 2 * y ^ 2 := by
      refine convexOn_of_hasDerivWithinAt2_nonneg (convex_Icc l r) (f' := fun y => deriv g y + M * y) (f'' := fun y => deriv (deriv g) y + M)
        ?_ ?_ ?_ ?_
      · exact ContinuousOn.add (fun y hy => (hg y hy).continuousAt.continuousWithinAt) (by fun_prop)
      · intro y hy
        have hd := (hg y (interior_subset hy)).differentiableAt.hasDerivAt.add (((hasDerivAt_pow 2 y)).const_mul (M / 2))
        refine (hd.congr_deriv ?_).hasDerivWithinAt
        push_cast
        ring
      · intro y hy
        have hd := (hg y (interior_subset hy)).deriv.differentiableAt.hasDerivAt.add ((hasDerivAt_id y).const_mul M)
        refine (hd.congr_deriv ?_).hasDerivWithinAt
        ring
      · intro y hy
        have := hb y (interior_subset hy)
        linarith
    have h0 := hc.2
    have h := h0 (Set.left_mem_Icc.mpr (by linarith)) (Set.right_mem_Icc.mpr (by linarith)) (a := (r - x) / (r - l)) (b := (x - l) / (r - l))
      (div_nonneg (by linarith) hlr.le) (div_nonneg (by linarith) hlr.le) (by field_simp; ring)
    simp only [smul_eq_mul] at h
    have e1 : (r - x) / (r - l) * l + (x - l) / (r - l) * r = x := by field_simp; ring
    have e2 : (r - x) / (r - l) * (g l + M / 2 * l ^ 2) + (x - l) / (r - l) * (g r + M / 2 * r ^ 2) =
        (g l * (r - x) + g r * (x - l)) / (r - l) + M / 2 * ((x - l) * (r - x)) + M / 2 * x ^ 2 := by field_simp; ring
    rw [e1, e2] at h
    linarith
  have u1 := upper f hf fun y hy => (abs_le.mp (hM y hy)).1
  have u2 := upper (fun y => -f y) (fun y hy => (hf y hy).neg) fun y hy => by
    have : deriv (fun y => -f y) = fun y => -deriv f y := by funext y; exact deriv.fun_neg
    rw [this, deriv.fun_neg]
    linarith [(abs_le.mp (hM y hy)).2]
  have e : (-f l * (r - x) + -f r * (x - l)) / (r - l) = -((f l * (r - x) + f r * (x - l)) / (r - l)) := by field_simp; ring
  rw [e] at u2
  rw [abs_le]
  constructor <;> linarith

/-- C116 for any analytic quantity: if both ends of the interval are sampled, the error is quadratic in the spacing. -/
theorem C116_quadratic {f : ℝ → ℝ} {a b : ℝ} (hf : ∀ x ∈ Set.Icc a b, AnalyticAt ℝ f x) :
    ∃ C, 0 ≤ C ∧ ∀ δ, ∀ dat : List (ℝ × ℂ), (∀ p ∈ dat, p.1 ∈ Set.Icc a b ∧ p.2 = f p.1) → Spec.DenseIn a b δ (dat.map (·.1)) →
      a ∈ dat.map (·.1) → b ∈ dat.map (·.1) → ∀ x ∈ Set.Icc a b, ∃ y, interp1d x dat = .ok y ∧ ‖y - f x‖ ≤ C * δ ^ 2 := by
  have hcont : ContinuousOn (deriv (deriv f)) (Set.Icc a b) := fun x hx => (hf x hx).deriv.deriv.continuousAt.continuousWithinAt
  obtain ⟨M, hM⟩ := isCompact_Icc.exists_bound_of_continuousOn hcont
  refine ⟨max M 0 / 2, by positivity, fun δ dat hd hden haa hbb x hx => ?_⟩
  obtain ⟨q, hq, hqa⟩ := List.mem_map.mp haa
  obtain ⟨q', hq', hqb⟩ := List.mem_map.mp hbb
  have hs := sortOf_mergeSort dat
  obtain ⟨i, hil, hi⟩ := hs.idx hq
  obtain ⟨i', hil', hi'⟩ := hs.idx hq'
  have hC : 0 ≤ max M 0 / 2 * δ ^ 2 := by positivity
  unfold interp1d
  rcases interpSorted_cases x _ (interp_ne hs hq) with ⟨p, hp, hpx, e⟩ | ⟨p, hp, hpx, e⟩ | ⟨k, l, r, kl, kr, h1, h2, e⟩
  · have := hs.get_le (Nat.zero_le i) hp hi
    have hpe : p.1 = x := le_antisymm (by linarith [hx.1]) hpx
    refine ⟨_, e, ?_⟩
    rw [(hd p (hs.mem hp)).2, hpe, sub_self, norm_zero]
    exact hC
  · have := hs.get_le (show i' ≤ _ by omega) hi' hp
    linarith [hx.2]
  · have hl := hd l (hs.mem kl)
    have hr := hd r (hs.mem kr)
    obtain ⟨_, hm', hmx⟩ := hden ((l.1 + r.1) / 2) ⟨by linarith [hl.1.1, hr.1.1], by linarith [hl.1.2, hr.1.2]⟩
    obtain ⟨m, hm, rfl⟩ := List.mem_map.mp hm'
    obtain ⟨j, -, hj⟩ := hs.idx hm
    have hw : r.1 - l.1 < 2 * δ := by
      rw [abs_lt] at hmx
      rcases Nat.lt_or_ge k j with h | h
      · have := hs.get_le h kr hj
        linarith
      · have := hs.get_le h hj kl
        linarith
    have hsub : Set.Icc l.1 r.1 ⊆ Set.Icc a b := Set.Icc_subset_Icc hl.1.1 hr.1.2
    have hc := chord_error (f := f) (M := max M 0) (fun y hy => hf y (hsub hy))
      (fun y hy => ((Real.norm_eq_abs _).symm.trans_le (hM y (hsub hy))).trans (le_max_left _ _)) h1 h2
    refine ⟨_, e, ?_⟩
    have hval : (l.2 * (r.1 - x) + r.2 * (x - l.1)) / (r.1 - l.1) - f x =
        (((f l.1 * (r.1 - x) + f r.1 * (x - l.1)) / (r.1 - l.1) - f x : ℝ) : ℂ) := by
      rw [hl.2, hr.2]
      push_cast
      rfl
    rw [hval, norm_real, Real.norm_eq_abs]
    refine hc.trans (mul_le_mul_of_nonneg_left ?_ (by positivity))
    nlinarith [sq_nonneg ((x - l.1) - (r.1 - x))]

/-- C116: for a passive sphere or core-shell particle with constant permittivities the error of interpolated cross sections is quadratic in
the spacing of the samples. -/
theorem C116_rate {rs : List ℝ} {es : List ℂ} {e0 a b : ℝ} (ha : 0 < a) (hp : PassiveAt ⟨1, rs, es, e0⟩ 1 e0) (hl : rs.length ≤ 2)
    {backend : String} (w : String) (hb : backend.toLower = "scipy") {sp : BesselBackend} {n : ℕ} (hn : 1 ≤ n)
    (hex : ∀ z ≠ 0, ExactAt sp n z) (K : D1Kernel) :
    ∃ C, 0 ≤ C ∧ ∀ δ, ∀ samples : List (ℝ × CrossSections),
      (∀ s ∈ samples, s.1 ∈ Set.Icc a b ∧ crossSectionsOf K (codeBackends sp) ⟨(s.1 : ℂ), rs, es, e0⟩ backend w (some n) = .ok s.2) →
      Spec.DenseIn a b δ (samples.map (·.1)) → a ∈ samples.map (·.1) → b ∈ samples.map (·.1) → ∀ κ ∈ Set.Icc a b, ∃ c ext sca abs,
        crossSectionsOf K (codeBackends sp) ⟨(κ : ℂ), rs, es, e0⟩ backend w (some n) = .ok c ∧
        interp1d κ (samples.map fun s => (s.1, (s.2.csExt : ℂ))) = .ok ext ∧ ‖ext - c.csExt‖ ≤ C * δ ^ 2 ∧
        interp1d κ (samples.map fun s => (s.1, (s.2.csSca : ℂ))) = .ok sca ∧ ‖sca - c.csSca‖ ≤ C * δ ^ 2 ∧
        interp1d κ (samples.map fun s => (s.1, (s.2.csAbs : ℂ))) = .ok abs ∧ ‖abs - c.csAbs‖ ≤ C * δ ^ 2 := by
  classical
  let F : ParticleFam ℝ := ⟨fun κ => (κ : ℂ), rs.map fun r _ => r, es.map fun e _ => e, fun _ => e0⟩
  have hat : ∀ κ : ℝ, F.at κ = ⟨(κ : ℂ), rs, es, e0⟩ := by
    intro κ
    simp only [F, ParticleFam.at, List.map_map, Particle1.mk.injEq, true_and, and_true]
    exact ⟨List.map_id rs, List.map_id es⟩
  have hF : ∀ κ, AnalyticFam ℝ F κ := fun κ =>
    ⟨Complex.ofRealCLM.contDiff.contDiffAt, contDiffAt_const, fun r hr => by
      obtain ⟨x, -, rfl⟩ := List.mem_map.mp hr
      exact contDiffAt_const, fun e he => by
      obtain ⟨x, -, rfl⟩ := List.mem_map.mp he
      exact contDiffAt_const⟩
  have hP : ∀ κ : ℝ, 0 < κ → PassiveAt ⟨(κ : ℂ), rs, es, e0⟩ κ e0 := fun κ hκ =>
    ⟨⟨rfl, hκ, hp.host.env_eq, hp.host.env_pos, hp.host.radii⟩, hp.inc, hp.len, hp.ne, hp.passive, hp.nonzero⟩
  have hrun : ∀ κ : ℝ, ∃ o, 0 < κ → mieCoefficients K (codeBackends sp) ⟨(κ : ℂ), rs, es, e0⟩ backend w (some n) = .ok o := by
    intro κ
    by_cases hκ : 0 < κ
    · have h := hP κ hκ
      obtain ⟨-, o, ho, -⟩ := scipy_run w hb hn hex h.inc h.len (List.length_pos_iff.mpr h.ne) hl (layers_ne h.host h.nonzero) K
      exact ⟨o, fun _ => ho⟩
    · exact ⟨⟨0, 0, 0, 0, 0, 0, 0, [], [], [], none⟩, fun h => absurd h hκ⟩
  choose o ho using hrun
  have hc : ∀ κ : ℝ, 0 < κ → crossSectionsOf K (codeBackends sp) ⟨(κ : ℂ), rs, es, e0⟩ backend w (some n) =
      .ok (crossSections (o κ).k (o κ).rS (o κ).a (o κ).b) := by
    intro κ hκ
    unfold crossSectionsOf
    rw [ho κ hκ]
    rfl
  have hsel : selectBessel (codeBackends sp) backend w = .ok sp :=
    (scipy_run w hb hn hex hp.inc hp.len (List.length_pos_iff.mpr hp.ne) hl (layers_ne hp.host hp.nonzero) K).1
  have hA : ∀ κ : ℝ, 0 < κ → _ := fun κ hκ => C73_cross_sections (hF κ) (by rw [hat]; exact hP κ hκ)
    (⟨hn, K, codeBackends sp, backend, w, false, .inr hb, (lt_mem_nhds hκ).mono fun κ' h => by rw [hat]; exact ho κ' h, fun S hS z hz => by
      rw [hsel] at hS
      cases hS
      exact hex z hz⟩ : NearRuns F κ n o)
  have key : ∀ f : CrossSections → ℝ, (∀ κ : ℝ, 0 < κ → ContDiffAt ℝ ⊤ (fun κ => f (crossSections (o κ).k (o κ).rS (o κ).a (o κ).b)) κ) →
      ∃ C, 0 ≤ C ∧ ∀ δ, ∀ samples : List (ℝ × CrossSections),
      (∀ s ∈ samples, s.1 ∈ Set.Icc a b ∧ crossSectionsOf K (codeBackends sp) ⟨(s.1 : ℂ), rs, es, e0⟩ backend w (some n) = .ok s.2) →
      Spec.DenseIn a b δ (samples.map (·.1)) → a ∈ samples.map (·.1) → b ∈ samples.map (·.1) → ∀ κ ∈ Set.Icc a b, ∃ y,
        interp1d κ (samples.map fun s => (s.1, (f s.2 : ℂ))) = .ok y ∧
        ‖y - f (crossSections (o κ).k (o κ).rS (o κ).a (o κ).b)‖ ≤ C * δ ^ 2 := by
    intro f hf
    obtain ⟨C, hC, h⟩ := C116_quadratic (a := a) (b := b) fun κ hκ => (hf κ (lt_of_lt_of_le ha hκ.1)).analyticAt
    refine ⟨C, hC, fun δ samples hs hd h1 h2 => h δ _ ?_ (by rw [List.map_map]; exact hd) (by rw [List.map_map]; exact h1)
      (by rw [List.map_map]; exact h2)⟩
    intro p hp
    obtain ⟨s, hm, rfl⟩ := List.mem_map.mp hp
    obtain ⟨k1, k2⟩ := hs s hm
    rw [hc _ (lt_of_lt_of_le ha k1.1), Except.ok.injEq] at k2
    exact ⟨k1, by simp only [k2]⟩
  obtain ⟨d1, p1, g1⟩ := key (·.csExt) fun κ hκ => (hA κ hκ).1
  obtain ⟨d2, p2, g2⟩ := key (·.csSca) fun κ hκ => (hA κ hκ).2.1
  obtain ⟨d3, p3, g3⟩ := key (·.csAbs) fun κ hκ => (hA κ hκ).2.2.1
  refine ⟨d1 + d2 + d3, by positivity, fun δ samples hs hd h1 h2 κ hκ => ?_⟩
  obtain ⟨y1, i1, e1⟩ := g1 δ samples hs hd h1 h2 κ hκ
  obtain ⟨y2, i2, e2⟩ := g2 δ samples hs hd h1 h2 κ hκ
  obtain ⟨y3, i3, e3⟩ := g3 δ samples hs hd h1 h2 κ hκ
  have hδ := sq_nonneg δ
  exact ⟨_, y1, y2, y3, hc κ (lt_of_lt_of_le ha hκ.1), i1, e1.trans (mul_le_mul_of_nonneg_right (by linarith) hδ), i2,
    e2.trans (mul_le_mul_of_nonneg_right (by linarith) hδ), i3, e3.trans (mul_le_mul_of_nonneg_right (by linarith) hδ)⟩

/-! ## Examples -/

/-- The parabola on `[0, 2]` from enough samples. -/
example : ∃ N0 : ℕ, 1 ≤ N0 ∧ ∀ N, N0 ≤ N → ∀ x ∈ Set.Icc (0 : ℝ) 2,
    ∃ y, interp1d x ((Spec.grid 0 2 N).map fun x => (x, (x : ℂ) ^ 2)) = .ok y ∧ ‖y - (x : ℂ) ^ 2‖ < 1e-3 := by
  obtain ⟨N0, h1, h2⟩ := C116_grid (G := fun x => (x : ℂ) ^ 2) (a := 0) (b := 2) (ε := 1e-3) (by norm_num) (by fun_prop) (by norm_num)
  exact ⟨N0, h1, fun N hN => h2 N hN _ (List.Perm.refl _)⟩

/-- The visible spectrum of a glass sphere from finitely many samples. -/
example : ∃ (o : DbObj) (v : ℝ → ℂ) (samples : List (ℝ × CrossSections)), Spec.ShippedObj ⟨id, id⟩ o ∧
    (∀ wl ∈ Set.Icc 400 700, o.mat.disp.eval wl = .ok (v wl)) ∧
    (∀ s ∈ samples, crossSectionsOf codeD1 (codeBackends scipyExact) ⟨(s.1 : ℂ), [50], [v (2 * Real.pi / s.1)], 1⟩ "scipy" "recurrence"
      (some (3 : ℕ)) = .ok s.2) ∧
    ∀ κ ∈ Set.Icc (2 * Real.pi / 700) (2 * Real.pi / 400), ∃ c y, crossSectionsOf codeD1 (codeBackends scipyExact)
        ⟨(κ : ℂ), [50], [v (2 * Real.pi / κ)], 1⟩ "scipy" "recurrence" (some (3 : ℕ)) = .ok c ∧
      interp1d κ (samples.map fun s => (s.1, (s.2.csExt : ℂ))) = .ok y ∧ ‖y - c.csExt‖ < 1e-3 := by
  obtain ⟨o, v, ho, hv, hS, hM, hQ⟩ := glass_band
  have hpi := Real.pi_pos
  obtain ⟨c, h1, -⟩ := C115_spectrum one_pos hS hM (Q := fun κ => ⟨(κ : ℂ), [50], [v (2 * Real.pi / κ)], 1⟩) hQ
    (by simp [strictlyIncreasing]) (by simp) (by simp) (by simp) rfl (backend := "scipy") "recurrence" (by decide +kernel) (sp := scipyExact)
    (n := 3) (by norm_num) (fun z hz => ⟨hz, rfl, rfl⟩) codeD1
  obtain ⟨δ, hδ, h⟩ := C116_spectrum (ε := 1e-3) one_pos (by positivity) hM (Q := fun κ => ⟨(κ : ℂ), [50], [v (2 * Real.pi / κ)], 1⟩) hQ
    (by simp [strictlyIncreasing]) (by simp) (by simp) (by simp) rfl (backend := "scipy") "recurrence" (by decide +kernel) (sp := scipyExact)
    (n := 3) (by norm_num) (fun z hz => ⟨hz, rfl, rfl⟩) codeD1 (by norm_num)
  obtain ⟨N, hN⟩ := exists_nat_gt ((2 * Real.pi / 400 - 2 * Real.pi / 700) / δ)
  have hab : 2 * Real.pi / 700 < 2 * Real.pi / 400 := div_lt_div_of_pos_left (by positivity) (by norm_num) (by norm_num)
  have hN0 : (0 : ℝ) < N := lt_trans (div_pos (by linarith) hδ) hN
  have hN1 : 1 ≤ N := by exact_mod_cast hN0
  have hmem := grid_mem hab.le hN1
  have hd := grid_dense hN1 (a := 2 * Real.pi / 700) (b := 2 * Real.pi / 400) (δ := δ) (by
    rw [div_lt_iff₀ hδ] at hN
    rw [div_lt_iff₀ hN0]
    linarith)
  have hs : ∀ s ∈ (Spec.grid (2 * Real.pi / 700) (2 * Real.pi / 400) N).map fun κ => (κ, c κ),
      s.1 ∈ Set.Icc (2 * Real.pi / 700) (2 * Real.pi / 400) ∧ crossSectionsOf codeD1 (codeBackends scipyExact)
        ⟨(s.1 : ℂ), [50], [v (2 * Real.pi / s.1)], 1⟩ "scipy" "recurrence" (some (3 : ℕ)) = .ok s.2 := by
    intro s hs
    obtain ⟨κ, hκ, rfl⟩ := List.mem_map.mp hs
    exact ⟨hmem κ hκ, h1 κ (hmem κ hκ)⟩
  refine ⟨o, v, _, ho, hv, fun s h => (hs s h).2, fun κ hκ => ?_⟩
  obtain ⟨c', y, -, -, g1, g2, g3, -⟩ := h _ hs (by
    intro x hx
    obtain ⟨y, hy, hxy⟩ := hd x hx
    exact ⟨y, List.mem_map.mpr ⟨(y, c y), List.mem_map.mpr ⟨y, hy, rfl⟩, rfl⟩, hxy⟩) κ hκ
  exact ⟨c', y, g1, g2, g3⟩

/-- A coated sphere on `[1, 3]`: with `N + 1` equidistant samples the error of the interpolated absorption is of the order `1 / N ^ 2`. -/
example : ∃ C, ∀ N : ℕ, 1 ≤ N → ∃ samples : List (ℝ × CrossSections), samples.length = N + 1 ∧
    (∀ s ∈ samples, crossSectionsOf codeD1 (codeBackends scipyExact) ⟨(s.1 : ℂ), [1, 2], [4, 2 + I], 1⟩ "scipy" "recurrence" (some (3 : ℕ)) =
      .ok s.2) ∧
    ∀ κ ∈ Set.Icc (1 : ℝ) 3, ∃ c y, crossSectionsOf codeD1 (codeBackends scipyExact) ⟨(κ : ℂ), [1, 2], [4, 2 + I], 1⟩ "scipy" "recurrence"
        (some (3 : ℕ)) = .ok c ∧
      interp1d κ (samples.map fun s => (s.1, (s.2.csAbs : ℂ))) = .ok y ∧ ‖y - c.csAbs‖ ≤ C / N ^ 2 := by
  have hp : ∀ κ : ℝ, 0 < κ → PassiveAt ⟨(κ : ℂ), [1, 2], [4, 2 + I], ((1 : ℝ) : ℂ)⟩ κ 1 := by
    intro κ hκ
    refine ⟨⟨rfl, hκ, rfl, one_pos, by simp⟩, by simp [strictlyIncreasing], rfl, by simp, by simp, ?_⟩
    intro e he
    simp only [List.mem_cons, List.not_mem_nil, or_false] at he
    rcases he with rfl | rfl
    · norm_num
    · intro h; simpa using congrArg Complex.im h
  have hrun : ∀ κ : ℝ, ∃ c, 0 < κ → crossSectionsOf codeD1 (codeBackends scipyExact) ⟨(κ : ℂ), [1, 2], [4, 2 + I], ((1 : ℝ) : ℂ)⟩ "scipy"
      "recurrence" (some (3 : ℕ)) = .ok c := by
    intro κ
    by_cases hκ : 0 < κ
    · obtain ⟨-, o, ho, -⟩ := scipy_run (backend := "scipy") "recurrence" (by decide +kernel) (sp := scipyExact) (n := 3) (by norm_num)
        (fun z hz => ⟨hz, rfl, rfl⟩) (hp κ hκ).inc (hp κ hκ).len (by simp) (by simp) (layers_ne (hp κ hκ).host (hp κ hκ).nonzero) codeD1
      exact ⟨crossSections o.k o.rS o.a o.b, fun _ => by unfold crossSectionsOf; rw [ho]; rfl⟩
    · exact ⟨crossSections 0 0 [] [], fun h => absurd h hκ⟩
  choose c hc using hrun
  have h1 := hp 1 one_pos
  rw [ofReal_one] at h1
  obtain ⟨C, -, h⟩ := C116_rate (a := 1) (b := 3) one_pos (e0 := 1) (by rw [ofReal_one]; exact h1) (by simp) (backend := "scipy") "recurrence"
    (by decide +kernel) (sp := scipyExact) (n := 3) (by norm_num) (fun z hz => ⟨hz, rfl, rfl⟩) codeD1
  refine ⟨C * 16, fun N hN => ⟨(Spec.grid 1 3 N).map fun κ => (κ, c κ), by simp [Spec.grid], ?_⟩⟩
  have hN0 : (0 : ℝ) < N := by exact_mod_cast hN
  have hmem := grid_mem (a := 1) (b := 3) (by norm_num) hN
  have hid : ((Spec.grid 1 3 N).map fun κ => (κ, c κ)).map (·.1) = Spec.grid 1 3 N := by rw [List.map_map]; exact List.map_id _
  have hs : ∀ s ∈ (Spec.grid 1 3 N).map fun κ => (κ, c κ), s.1 ∈ Set.Icc (1 : ℝ) 3 ∧
      crossSectionsOf codeD1 (codeBackends scipyExact) ⟨(s.1 : ℂ), [1, 2], [4, 2 + I], ((1 : ℝ) : ℂ)⟩ "scipy" "recurrence" (some (3 : ℕ)) = .ok s.2 := by
    intro s hs
    obtain ⟨κ, hκ, rfl⟩ := List.mem_map.mp hs
    exact ⟨hmem κ hκ, hc κ (lt_of_lt_of_le one_pos (hmem κ hκ).1)⟩
  have ends : (1 : ℝ) ∈ Spec.grid 1 3 N ∧ (3 : ℝ) ∈ Spec.grid 1 3 N := by
    refine ⟨List.mem_map.mpr ⟨0, by simp, by simp⟩, List.mem_map.mpr ⟨N, by simp, ?_⟩⟩
    field_simp
    norm_num
  refine ⟨fun s h => by have := (hs s h).2; rwa [ofReal_one] at this, fun κ hκ => ?_⟩
  obtain ⟨c', -, -, y, g1, -, -, -, -, g2, g3⟩ := h (4 / N) _ hs (by
    rw [hid]
    exact grid_dense hN (by rw [div_lt_div_iff_of_pos_right hN0]; norm_num)) (by rw [hid]; exact ends.1) (by rw [hid]; exact ends.2) κ hκ
  rw [ofReal_one] at g1
  exact ⟨c', y, g1, g2, g3.trans_eq (by rw [div_pow]; ring)⟩

end MieDiff
