import Verif.Proofs.Rayleigh

/-!
# The static problem: uniqueness, equal permittivities, closed forms
-/

namespace MieDiff

open Complex Spec Filter Topology

/-! ## Units -/

theorem staticChain_scale {n : ℕ} {eh : ℂ} (c : ℂ) (hc : c ≠ 0) :
    ∀ {layers : List (ℂ × ℂ)} {P out : Pot},
      StaticChain n (eh / c) P (layers.map fun l => (l.1 / c, l.2)) out ↔ StaticChain n eh P layers out := by
  have key : ∀ {e e' r : ℂ} {P P' : Pot}, StaticCont n (e / c) (e' / c) r P P' ↔ StaticCont n e e' r P P' := by
    intro e e' r P P'
    refine and_congr Iff.rfl ?_
    rw [div_mul_eq_mul_div, div_mul_eq_mul_div, div_left_inj' hc]
  intro layers
  induction layers with
  | nil => intro P out; exact Iff.rfl
  | cons l rest ih =>
    intro P out
    obtain ⟨e, r⟩ := l
    cases rest with
    | nil => exact key
    | cons l' rest =>
      constructor
      · rintro ⟨P', h1, h2⟩; exact ⟨P', key.1 h1, ih.1 h2⟩
      · rintro ⟨P', h1, h2⟩; exact ⟨P', key.2 h1, ih.2 h2⟩

/-! ## Equal permittivities -/

theorem staticCont_one {n : ℕ} (hn : 1 ≤ n) {r : ℂ} (hr : r ≠ 0) {P P' : Pot} (h : StaticCont n 1 1 r P P') : P = P' := by
  obtain ⟨k, rfl⟩ : ∃ k, n = k + 1 := ⟨n - 1, by omega⟩
  obtain ⟨h1, h2⟩ := h
  simp only [Pot.val, Pot.der, one_mul, Nat.add_sub_cancel] at h1 h2
  have h3 : (2 * ((k : ℂ) + 1) + 1) ≠ 0 := by exact_mod_cast odd1_ne (k + 1)
  have hk : ((k : ℂ) + 1 + 1) ≠ 0 := by exact_mod_cast Nat.succ_ne_zero (k + 1)
  push_cast at h2
  have hr1 : r ^ k ≠ 0 := pow_ne_zero _ hr
  have eA : (2 * ((k : ℂ) + 1) + 1) * r ^ (k + 1) * (P.A - P'.A) = 0 := by
    have e1 : r * (((k : ℂ) + 1) * P.A * r ^ k - ((k : ℂ) + 1 + 1) * P.B / r ^ (k + 1 + 2)) =
        ((k : ℂ) + 1) * P.A * r ^ (k + 1) - ((k : ℂ) + 1 + 1) * (P.B / r ^ (k + 1 + 1)) := by
      field_simp
      ring
    have e2 : r * (((k : ℂ) + 1) * P'.A * r ^ k - ((k : ℂ) + 1 + 1) * P'.B / r ^ (k + 1 + 2)) =
        ((k : ℂ) + 1) * P'.A * r ^ (k + 1) - ((k : ℂ) + 1 + 1) * (P'.B / r ^ (k + 1 + 1)) := by
      field_simp
      ring
    have h4 := congrArg (r * ·) h2
    simp only [e1, e2] at h4
    linear_combination h4 + ((k : ℂ) + 1 + 1) * h1
  have hA : P.A = P'.A := by
    have := (mul_eq_zero.1 eA).resolve_left (mul_ne_zero h3 (pow_ne_zero _ hr))
    exact sub_eq_zero.1 this
  refine Pot.ext' hA ?_
  rw [hA] at h1
  have h5 : P.B / r ^ (k + 1 + 1) = P'.B / r ^ (k + 1 + 1) := add_left_cancel h1
  rwa [div_left_inj' (pow_ne_zero _ hr)] at h5

theorem staticChain_one {n : ℕ} (hn : 1 ≤ n) : ∀ {layers : List (ℂ × ℂ)} {P out : Pot},
    (∀ l ∈ layers, l.1 = 1 ∧ l.2 ≠ 0) → StaticChain n 1 P layers out → P = out := by
  intro layers
  induction layers with
  | nil => intro P out _ h; exact absurd h (by simp [StaticChain])
  | cons l rest ih =>
    intro P out hl h
    obtain ⟨e, r⟩ := l
    obtain ⟨h1, h2⟩ := hl (e, r) (by simp)
    simp only at h1 h2
    subst h1
    cases rest with
    | nil => exact staticCont_one hn h2 h
    | cons l' rest =>
      obtain ⟨e', r'⟩ := l'
      obtain ⟨P', a1, a2⟩ := h
      have h3 := (hl (e', r') (by simp)).1
      simp only at h3
      subst h3
      rw [staticCont_one hn h2 a1]
      exact ih (fun l hl' => hl l (List.mem_cons_of_mem _ hl')) a2

/-! ## Uniqueness -/

/-- Real part of `u e r^2 phi' conj phi`. -/
noncomputable def potFlux (u : ℂ) (n : ℕ) (e : ℂ) (P : Pot) (r : ℝ) : ℝ :=
  (u * e * ((r : ℂ) ^ 2 * P.der n r) * (starRingEnd ℂ) (P.val n r)).re

theorem flux_parts {n : ℕ} (hn : 1 ≤ n) (P : Pot) {r : ℝ} (hr : 0 < r) :
    ((r : ℂ) ^ 2 * P.der n r) * (starRingEnd ℂ) (P.val n r) =
      (((n : ℝ) * ‖P.A‖ ^ 2 * r ^ (2 * n + 1) - ((n : ℝ) + 1) * ‖P.B‖ ^ 2 / r ^ (2 * n + 1) : ℝ) : ℂ) +
      ((n : ℂ) * P.A * (starRingEnd ℂ) P.B - ((n : ℂ) + 1) * P.B * (starRingEnd ℂ) P.A) := by
  obtain ⟨k, rfl⟩ : ∃ k, n = k + 1 := ⟨n - 1, by omega⟩
  have hr0 : (r : ℂ) ≠ 0 := by exact_mod_cast hr.ne'
  have hA := Complex.mul_conj P.A
  have hB := Complex.mul_conj P.B
  rw [Complex.normSq_eq_norm_sq] at hA hB
  push_cast at hA hB
  simp only [Pot.der, Pot.val, map_add, map_mul, map_div₀, map_pow, Complex.conj_ofReal, Nat.add_sub_cancel]
  push_cast
  rw [← hA, ← hB]
  field_simp
  ring

theorem potFlux_mono {u : ℂ} {n : ℕ} (hn : 1 ≤ n) {e : ℂ} (he : 0 < (u * e).re) (P : Pot) {r r' : ℝ} (hr : 0 < r)
    (h : r ≤ r') : potFlux u n e P r ≤ potFlux u n e P r' := by
  have hr' : 0 < r' := hr.trans_le h
  unfold potFlux
  rw [mul_assoc (u * e), mul_assoc (u * e), flux_parts hn P hr, flux_parts hn P hr', mul_add, mul_add, add_re, add_re,
    re_mul_ofReal, re_mul_ofReal]
  have h1 : r ^ (2 * n + 1) ≤ r' ^ (2 * n + 1) := pow_le_pow_left₀ hr.le h _
  have h2 : ((n : ℝ) + 1) * ‖P.B‖ ^ 2 / r' ^ (2 * n + 1) ≤ ((n : ℝ) + 1) * ‖P.B‖ ^ 2 / r ^ (2 * n + 1) :=
    div_le_div_of_nonneg_left (by positivity) (by positivity) h1
  have h3 : (n : ℝ) * ‖P.A‖ ^ 2 * r ^ (2 * n + 1) ≤ (n : ℝ) * ‖P.A‖ ^ 2 * r' ^ (2 * n + 1) :=
    mul_le_mul_of_nonneg_left h1 (by positivity)
  have h4 := mul_le_mul_of_nonneg_left (sub_le_sub h3 h2) he.le
  linarith

theorem potFlux_cont {u : ℂ} {n : ℕ} {e e' : ℂ} {r : ℝ} {P P' : Pot} (h : StaticCont n e e' r P P') :
    potFlux u n e P r = potFlux u n e' P' r := by
  obtain ⟨h1, h2⟩ := h
  unfold potFlux
  rw [h1]
  congr 2
  linear_combination (u * (r : ℂ) ^ 2) * h2

/-- Radii increase outwards from `r0`. -/
def IncFrom : ℝ → List (ℂ × ℝ) → Prop
  | _, [] => True
  | r0, (_, r) :: rest => r0 ≤ r ∧ IncFrom r rest

/-- Layers with real radii. -/
noncomputable def cLayers (L : List (ℂ × ℝ)) : List (ℂ × ℂ) := L.map fun l => (l.1, (l.2 : ℂ))

/-- If the outside potential is purely singular, the flux at the first radius is not positive, and it vanishes only
for the zero potential. -/
theorem chain_flux {u : ℂ} {n : ℕ} (hn : 1 ≤ n) {eh : ℂ} (huh : 0 < (u * eh).re) :
    ∀ (rest : List (ℂ × ℝ)) (l : ℂ × ℝ), 0 < l.2 → IncFrom l.2 rest → (∀ l' ∈ l :: rest, 0 < (u * l'.1).re) →
      ∀ {P out : Pot}, StaticChain n eh P (cLayers (l :: rest)) out → out.A = 0 →
      potFlux u n l.1 P l.2 ≤ 0 := by
  intro rest
  induction rest with
  | nil =>
    intro l hl _ _ P out h hA
    obtain ⟨e, r⟩ := l
    rw [potFlux_cont h]
    unfold potFlux
    rw [mul_assoc (u * eh), flux_parts hn out hl, hA, mul_add, add_re, re_mul_ofReal]
    simp only [norm_zero, map_zero, mul_zero, zero_mul, sub_zero, zero_re, add_zero, ne_eq, OfNat.ofNat_ne_zero,
      not_false_eq_true, zero_pow, zero_sub]
    have : 0 ≤ ((n : ℝ) + 1) * ‖out.B‖ ^ 2 / r ^ (2 * n + 1) := by
      have : (0 : ℝ) < r ^ (2 * n + 1) := pow_pos hl _
      positivity
    nlinarith
  | cons l' rest ih =>
    intro l hl hinc hu P out h hA
    obtain ⟨e, r⟩ := l
    obtain ⟨e', r'⟩ := l'
    obtain ⟨P', h1, h2⟩ := h
    have hr' : 0 < r' := lt_of_lt_of_le hl hinc.1
    have := ih (e', r') hr' hinc.2 (fun l hl' => hu l (List.mem_cons_of_mem _ hl')) h2 hA
    rw [potFlux_cont h1]
    exact (potFlux_mono hn (hu (e', r') (by simp)) P' hl hinc.1).trans this

/-- Permittivities in one open half plane: no static resonance. -/
theorem staticRegular_of_halfPlane {u : ℂ} {n : ℕ} (hn : 1 ≤ n) {eh : ℂ} (huh : 0 < (u * eh).re) {l : ℂ × ℝ}
    {rest : List (ℂ × ℝ)} (hl : 0 < l.2) (hinc : IncFrom l.2 rest) (hu : ∀ l' ∈ l :: rest, 0 < (u * l'.1).re) :
    StaticRegular n eh (cLayers (l :: rest)) := by
  intro core out hB h hA
  have h1 := chain_flux hn huh rest l hl hinc hu h hA
  unfold potFlux at h1
  rw [mul_assoc (u * l.1), flux_parts hn core hl, hB, mul_add, add_re, re_mul_ofReal] at h1
  simp only [norm_zero, map_zero, mul_zero, zero_mul, sub_zero, zero_re, add_zero, ne_eq, OfNat.ofNat_ne_zero,
    not_false_eq_true, zero_pow, zero_div] at h1
  have h2 := hu l (by simp)
  have h3 : 0 < l.2 ^ (2 * n + 1) := pow_pos hl _
  have h4 : 0 < (n : ℝ) := by exact_mod_cast hn
  by_contra h5
  have h6 : 0 < ‖core.A‖ := norm_pos_iff.2 h5
  have : 0 < (u * l.1).re * ((n : ℝ) * ‖core.A‖ ^ 2 * l.2 ^ (2 * n + 1)) := by positivity
  linarith

/-- Lossy materials and dielectrics lie in one open half plane. -/
theorem halfPlane_exists (es : List ℂ) (h : ∀ e ∈ es, 0 < e.im ∨ (e.im = 0 ∧ 0 < e.re)) :
    ∃ d : ℝ, 0 < d ∧ ∀ d', 0 < d' → d' ≤ d → ∀ e ∈ es, 0 < ((d' - I) * e).re := by
  induction es with
  | nil => exact ⟨1, one_pos, by simp⟩
  | cons e es ih =>
    obtain ⟨d, hd, hd'⟩ := ih fun e he => h e (List.mem_cons_of_mem _ he)
    have hre : ∀ d' : ℝ, (((d' : ℂ) - I) * e).re = d' * e.re + e.im := by
      intro d'; simp [Complex.mul_re]
    rcases h e (by simp) with h1 | ⟨h1, h2⟩
    · refine ⟨min d (e.im / (2 * (|e.re| + 1))), lt_min hd (by positivity), fun d' h0 hle e' he' => ?_⟩
      rcases List.mem_cons.1 he' with rfl | he'
      · rw [hre]
        have h2 : d' ≤ e'.im / (2 * (|e'.re| + 1)) := hle.trans (min_le_right _ _)
        have h3 : d' * (2 * (|e'.re| + 1)) ≤ e'.im := by rwa [le_div_iff₀ (by positivity)] at h2
        have h4 : -|e'.re| ≤ e'.re := neg_abs_le _
        nlinarith [abs_nonneg e'.re]
      · exact hd' d' h0 (hle.trans (min_le_left _ _)) e' he'
    · refine ⟨d, hd, fun d' h0 hle e' he' => ?_⟩
      rcases List.mem_cons.1 he' with rfl | he'
      · rw [hre, h1, add_zero]; positivity
      · exact hd' d' h0 hle e' he'

/-! ## Closed forms for the dipole -/

theorem dipole_one {e eh r β : ℂ} (hr : r ≠ 0) (heh : eh ≠ 0) (h : StaticSolves 1 eh [(e, r)] β) :
    β = -r ^ 3 * clausius e eh := by
  obtain ⟨c, hB, h1, h2⟩ := h
  simp only [Pot.val, Pot.der, hB, zero_div, add_zero, mul_zero, sub_zero, Nat.cast_one, one_mul, mul_one,
    Nat.sub_self, pow_zero, pow_one] at h1 h2
  have e1 : c.A * r ^ 3 = r ^ 3 + β := by
    field_simp at h1
    linear_combination h1
  have e2 : e * c.A * r ^ 3 = eh * (r ^ 3 - 2 * β) := by
    field_simp at h2
    linear_combination h2
  have hr3 : r ^ 3 ≠ 0 := pow_ne_zero _ hr
  have e3 : (e + 2 * eh) * (c.A * r ^ 3) = 3 * eh * r ^ 3 := by linear_combination e2 + 2 * eh * e1
  have hD : e + 2 * eh ≠ 0 := by
    intro h0
    rw [h0, zero_mul] at e3
    exact mul_ne_zero (mul_ne_zero three_ne_zero heh) hr3 e3.symm
  unfold clausius
  rw [mul_div_assoc', eq_div_iff hD]
  linear_combination e2 - e * e1

theorem dipole_two {e1 e2 eh r1 r2 β : ℂ} (hr1 : r1 ≠ 0) (hr2 : r2 ≠ 0) (he2 : e2 ≠ 0) (heh : eh ≠ 0)
    (h : StaticSolves 1 eh [(e1, r1), (e2, r2)] β) :
    β = -r2 ^ 3 * clausiusCoated e1 e2 eh ((r1 / r2) ^ 3) := by
  obtain ⟨c, hB, P, ⟨h1, h2⟩, h3, h4⟩ := h
  simp only [Pot.val, Pot.der, hB, zero_div, add_zero, mul_zero, sub_zero, Nat.cast_one, one_mul, mul_one,
    Nat.sub_self, pow_zero, pow_one] at h1 h2 h3 h4
  have a1 : c.A * r1 ^ 3 = P.A * r1 ^ 3 + P.B := by
    field_simp at h1
    linear_combination h1
  have a2 : e1 * c.A * r1 ^ 3 = e2 * (P.A * r1 ^ 3 - 2 * P.B) := by
    field_simp at h2
    linear_combination h2
  have a3 : P.A * r2 ^ 3 + P.B = r2 ^ 3 + β := by
    field_simp at h3
    linear_combination h3
  have a4 : e2 * (P.A * r2 ^ 3 - 2 * P.B) = eh * (r2 ^ 3 - 2 * β) := by
    field_simp at h4
    linear_combination h4
  have q1 : r1 ^ 3 ≠ 0 := pow_ne_zero _ hr1
  have q2 : r2 ^ 3 ≠ 0 := pow_ne_zero _ hr2
  rw [div_pow]
  generalize r1 ^ 3 = u at *
  generalize r2 ^ 3 = v at *
  -- 3 e2 A = (e1 + 2 e2) c, 3 e2 B = (e2 - e1) c u
  have b1 : 3 * e2 * P.A * u = (e1 + 2 * e2) * c.A * u := by linear_combination -a2 - 2 * e2 * a1
  have b1' : 3 * e2 * P.A = (e1 + 2 * e2) * c.A := mul_right_cancel₀ q1 b1
  have b2 : 3 * e2 * P.B = (e2 - e1) * c.A * u := by linear_combination a2 - e2 * a1
  set D : ℂ := (e2 + 2 * eh) * (e1 + 2 * e2) + u / v * (2 * e2 - 2 * eh) * (e1 - e2) with hDd
  have b3 : c.A * D * v = 9 * e2 * eh * v := by
    have e : c.A * D * v = (e2 + 2 * eh) * ((e1 + 2 * e2) * c.A) * v + (2 * e2 - 2 * eh) * ((e1 - e2) * c.A * u) := by
      rw [hDd]; field_simp
    rw [e]
    linear_combination (-(e2 + 2 * eh) * v) * b1' + (2 * e2 - 2 * eh) * b2 + 6 * e2 * eh * a3 + 3 * e2 * a4
  have hD : D ≠ 0 := by
    intro h0
    rw [h0, mul_zero, zero_mul] at b3
    exact mul_ne_zero (mul_ne_zero (mul_ne_zero (by norm_num) he2) heh) q2 b3.symm
  have hc : c.A ≠ 0 := by
    intro h0
    rw [h0, zero_mul, zero_mul] at b3
    exact mul_ne_zero (mul_ne_zero (mul_ne_zero (by norm_num) he2) heh) q2 b3.symm
  unfold clausiusCoated
  rw [mul_div_assoc', eq_div_iff hD]
  -- 9 e2 eh β
  have b4 : 9 * e2 * eh * β = -(c.A * v) * ((e2 - eh) * (e1 + 2 * e2) + u / v * (e1 - e2) * (eh + 2 * e2)) := by
    have e : -(c.A * v) * ((e2 - eh) * (e1 + 2 * e2) + u / v * (e1 - e2) * (eh + 2 * e2)) =
      -((e2 - eh) * ((e1 + 2 * e2) * c.A) * v) + (eh + 2 * e2) * ((e2 - e1) * c.A * u) := by
      field_simp
      ring
    rw [e, ← b1', ← b2]
    linear_combination (-3 * e2 * eh) * a3 + 3 * e2 * a4
  have b5 : c.A * D = 9 * e2 * eh := mul_right_cancel₀ q2 b3
  have : c.A * (β * D) =
      c.A * (-v * ((e2 - eh) * (e1 + 2 * e2) + u / v * (e1 - e2) * (eh + 2 * e2))) := by
    linear_combination β * b5 + b4
  exact mul_left_cancel₀ hc this

end MieDiff
