import Verif.Proofs.DepthError

/-!
# The truncated downward recurrence far beyond its start, and evaluated with rational numbers
-/

namespace MieDiff

open Complex Filter Topology Spec

/-! ## Real arguments much larger than the start order -/

/-- Sum of the `j` orders below and including `N`. -/
noncomputable def topSum (N : ℝ) (j : ℕ) : ℝ := j * N - j * ((j : ℝ) - 1) / 2

/-- Relative deviation from the leading behaviour after `j` steps. -/
noncomputable def drift (eta : ℝ) (j : ℕ) : ℝ := (2 ^ (j + 1) - 2) * eta

theorem topSum_succ (N : ℝ) (j : ℕ) : topSum N (j + 1) = topSum N j + (N - j) := by
  unfold topSum; push_cast; ring

theorem drift_succ (eta : ℝ) (j : ℕ) : drift eta (j + 1) = 2 * (drift eta j + eta) := by
  unfold drift; ring

theorem drift_nonneg {eta : ℝ} (h : 0 ≤ eta) (j : ℕ) : 0 ≤ drift eta j := by
  unfold drift
  have : (2 : ℝ) ≤ 2 ^ (j + 1) := by
    have := one_le_pow₀ (a := (2 : ℝ)) (n := j) (by norm_num)
    rw [pow_succ]; linarith
  have : (0 : ℝ) ≤ 2 ^ (j + 1) - 2 := by linarith
  positivity

/-- Real numbers in the step from a small value. -/
theorem far_even {x s d eta M e : ℝ} (hx : 0 < x) (hs : 0 ≤ s) (hd : 0 ≤ d) (hM : 1 ≤ M) (heta : (s + M) * M ≤ eta * x ^ 2)
    (h1 : s ≤ e) (h2 : e ≤ s * (1 + d)) :
    (1 - 2 * (d + eta)) / (s + M) ≤ 1 / (e + M) - M / x ^ 2 ∧ 1 / (e + M) - M / x ^ 2 ≤ 1 / (s + M) := by
  have hsM : 0 < s + M := by linarith
  have heM : 0 < e + M := by linarith
  have hx2 : 0 < x ^ 2 := by positivity
  have heta0 : 0 ≤ eta := by
    by_contra hc
    have : eta * x ^ 2 < 0 := mul_neg_of_neg_of_pos (by linarith) hx2
    have : 0 < (s + M) * M := by positivity
    linarith
  constructor
  · have a : (1 - d) / (s + M) ≤ 1 / (e + M) := by
      rw [div_le_div_iff₀ hsM heM]
      nlinarith
    have b : M / x ^ 2 ≤ eta / (s + M) := by
      rw [div_le_div_iff₀ hx2 hsM]; linarith
    have c : (1 - 2 * (d + eta)) / (s + M) ≤ (1 - d) / (s + M) - eta / (s + M) := by
      rw [← sub_div]
      exact div_le_div_of_nonneg_right (by linarith) hsM.le
    linarith
  · have a : 1 / (e + M) ≤ 1 / (s + M) := one_div_le_one_div_of_le hsM (by linarith)
    have : 0 ≤ M / x ^ 2 := by positivity
    linarith

/-- Real numbers in the step from a large value. -/
theorem far_odd {x s d eta M a : ℝ} (hx : 0 < x) (hs : 0 < s) (hd : 0 ≤ d) (heta0 : 0 ≤ eta) (hM : 1 ≤ M)
    (heta : (s + M) * M ≤ eta * x ^ 2) (hhalf : d + eta ≤ 1 / 2) (h1 : (1 - d) / s ≤ a) (h2 : a ≤ 1 / s) :
    1 / 2 / s ≤ a - M / x ^ 2 ∧ s + M ≤ 1 / (a - M / x ^ 2) + M ∧ 1 / (a - M / x ^ 2) + M ≤ (s + M) * (1 + 2 * (d + eta)) := by
  have hx2 : 0 < x ^ 2 := by positivity
  have b : M / x ^ 2 ≤ eta / s := by
    rw [div_le_div_iff₀ hx2 hs]; nlinarith
  have c : (1 - (d + eta)) / s ≤ a - M / x ^ 2 := by
    have : (1 - (d + eta)) / s = (1 - d) / s - eta / s := by ring
    linarith
  have c2 : 1 / 2 / s ≤ a - M / x ^ 2 := le_trans (by gcongr; linarith) c
  have hp : 0 < a - M / x ^ 2 := lt_of_lt_of_le (by positivity) c2
  have hb : a - M / x ^ 2 ≤ 1 / s := by
    have : 0 ≤ M / x ^ 2 := by positivity
    linarith
  refine ⟨c2, ?_, ?_⟩
  · have : s ≤ 1 / (a - M / x ^ 2) := by
      rw [le_div_iff₀ hp]
      have := mul_le_mul_of_nonneg_left hb hs.le
      rw [mul_one_div_cancel hs.ne'] at this
      exact this
    linarith
  · have : 1 / (a - M / x ^ 2) ≤ s * (1 + 2 * (d + eta)) := by
      rw [div_le_iff₀ hp]
      have h3 : s * (1 + 2 * (d + eta)) * ((1 - (d + eta)) / s) ≤ s * (1 + 2 * (d + eta)) * (a - M / x ^ 2) :=
        mul_le_mul_of_nonneg_left c (by positivity)
      refine le_trans ?_ h3
      have e : s * (1 + 2 * (d + eta)) * ((1 - (d + eta)) / s) = (1 + 2 * (d + eta)) * (1 - (d + eta)) := by field_simp
      rw [e]
      nlinarith
    have : 0 ≤ M * (2 * (d + eta)) := by positivity
    nlinarith

/-- What is known after `j` steps: a small positive value after an even number of steps, a large negative one after an odd number. -/
def FarAt (x : ℝ) (N : ℕ) (eta : ℝ) (j : ℕ) : Prop :=
  (Even j → ∃ e : ℝ, d1Down (x : ℂ) solverEps N j = ((e / x : ℝ) : ℂ) ∧ topSum N j ≤ e ∧ e ≤ topSum N j * (1 + drift eta j)) ∧
  (Odd j → ∃ a : ℝ, d1Down (x : ℂ) solverEps N j = ((-(a * x) : ℝ) : ℂ) ∧ (1 - drift eta j) / topSum N j ≤ a ∧ a ≤ 1 / topSum N j)

theorem topSum_nonneg {N : ℕ} {j : ℕ} (h : j ≤ N) : 0 ≤ topSum N j := by
  unfold topSum
  have h1 : (j : ℝ) ≤ N := by exact_mod_cast h
  have h2 : (0 : ℝ) ≤ j := by positivity
  nlinarith

theorem topSum_pos {N : ℕ} {j : ℕ} (h : j ≤ N) (h0 : 1 ≤ j) : 1 ≤ topSum N j := by
  unfold topSum
  have h1 : (j : ℝ) ≤ N := by exact_mod_cast h
  have h2 : (1 : ℝ) ≤ j := by exact_mod_cast h0
  nlinarith

theorem norm_ofReal_ge {a b : ℝ} (h : a ≤ |b|) : a ≤ ‖((b : ℝ) : ℂ)‖ := by rw [norm_real, Real.norm_eq_abs]; exact h

theorem far_step {x : ℝ} {N : ℕ} {eta : ℝ} (hx : 0 < x) (hx2 : x ≤ 1e29) (heta0 : 0 ≤ eta) {j : ℕ} (hj : j < N)
    (heta : topSum N (j + 1) * N ≤ eta * x ^ 2) (hxs : topSum N (j + 1) ≤ x) (hhalf : drift eta j + eta ≤ 1 / 2)
    (h : FarAt x N eta j) : FarAt x N eta (j + 1) := by
  have hjN : (j : ℝ) + 1 ≤ N := by exact_mod_cast hj
  have hj0 : (0 : ℝ) ≤ j := by positivity
  have hM : 1 ≤ (N : ℝ) - j := by linarith
  have hs := topSum_nonneg (N := N) (j := j) (by omega)
  have hs1 := topSum_pos (N := N) (j := j + 1) (by omega) (by omega)
  have hd := drift_nonneg heta0 j
  have hM2 : (topSum N j + (N - j)) * ((N : ℝ) - j) ≤ eta * x ^ 2 := by
    rw [topSum_succ] at heta hs1
    refine le_trans ?_ heta
    gcongr
    linarith
  have hcast : ((N - j : ℕ) : ℂ) = (((N : ℝ) - j : ℝ) : ℂ) := by
    rw [Nat.cast_sub (by omega)]; push_cast; rfl
  have hxc : (x : ℂ) ≠ 0 := by exact_mod_cast hx.ne'
  rw [topSum_succ] at hxs
  constructor
  · intro hev
    have hodd : Odd j := by rwa [Nat.even_add_one, Nat.not_even_iff_odd] at hev
    have hj1 : 1 ≤ j := hodd.pos
    have hsp := topSum_pos (N := N) (j := j) (by omega) hj1
    obtain ⟨a, e, h1, h2⟩ := h.2 hodd
    obtain ⟨c1, c2, c3⟩ := far_odd hx (by linarith) hd heta0 hM hM2 hhalf h1 h2
    have hp : 0 < a - ((N : ℝ) - j) / x ^ 2 := lt_of_lt_of_le (by positivity) c1
    refine ⟨1 / (a - ((N : ℝ) - j) / x ^ 2) + ((N : ℝ) - j), ?_, by rw [topSum_succ]; exact c2,
      by rw [topSum_succ, drift_succ]; exact c3⟩
    rw [d1Down, e, hcast]
    have e1 : ((-(a * x) : ℝ) : ℂ) + (((N : ℝ) - j : ℝ) : ℂ) / (x : ℂ) =
        ((-(x * (a - ((N : ℝ) - j) / x ^ 2)) : ℝ) : ℂ) := by
      push_cast
      field_simp
      ring
    rw [e1, guardAdd_of_le]
    · have hpc : ((a - ((N : ℝ) - j) / x ^ 2 : ℝ) : ℂ) ≠ 0 := by exact_mod_cast hp.ne'
      generalize a - ((N : ℝ) - j) / x ^ 2 = q at hpc
      push_cast
      field_simp
      ring
    · apply norm_ofReal_ge
      rw [abs_neg, abs_of_pos (by positivity)]
      have h3 : x * (1 / 2 / topSum N j) ≤ x * (a - ((N : ℝ) - j) / x ^ 2) := by gcongr
      refine le_trans ?_ h3
      have h4 : (1 : ℝ) / 2 ≤ x * (1 / 2 / topSum N j) := by
        rw [mul_div_assoc', le_div_iff₀ (by linarith)]
        nlinarith
      unfold solverEps
      norm_num at h4 ⊢
      linarith
  · intro hodd
    have hev : Even j := by
      rw [← Nat.not_even_iff_odd, Nat.even_add_one, not_not] at hodd
      exact hodd
    obtain ⟨e, he, h1, h2⟩ := h.1 hev
    obtain ⟨c1, c2⟩ := far_even hx hs hd hM hM2 h1 h2
    refine ⟨1 / (e + ((N : ℝ) - j)) - ((N : ℝ) - j) / x ^ 2, ?_, by rw [topSum_succ, drift_succ]; exact c1,
      by rw [topSum_succ]; exact c2⟩
    have hp : 1 ≤ e + ((N : ℝ) - j) := by linarith
    rw [d1Down, he, hcast]
    have e1 : ((e / x : ℝ) : ℂ) + (((N : ℝ) - j : ℝ) : ℂ) / (x : ℂ) = (((e + ((N : ℝ) - j)) / x : ℝ) : ℂ) := by
      push_cast
      field_simp
    rw [e1, guardAdd_of_le]
    · have hpc : ((e + ((N : ℝ) - j) : ℝ) : ℂ) ≠ 0 := by
        have : e + ((N : ℝ) - j) ≠ 0 := by linarith
        exact_mod_cast this
      generalize hq : e + ((N : ℝ) - j) = q at hpc
      push_cast
      field_simp
      ring
    · apply norm_ofReal_ge
      rw [abs_of_pos (by positivity), le_div_iff₀ hx]
      unfold solverEps
      norm_num at hx2 ⊢
      linarith

/-- The value returned at the highest order when the argument is far beyond the start order. -/
theorem far_value (n : ℕ) {x : ℝ} (h1 : 100 * ((n : ℝ) + 15) ^ 2 ≤ x) (h2 : x ≤ 1e29) :
    ∃ a : ℝ, d1Val (x : ℂ) solverEps (n + 15) n = ((-(a * x) : ℝ) : ℂ) ∧ 1 / (30 * ((n : ℝ) + 8)) ≤ a := by
  have hn : (0 : ℝ) ≤ n := by positivity
  have hx : 0 < x := lt_of_lt_of_le (by positivity) h1
  set N : ℕ := n + 15 with hN
  have hNr : (N : ℝ) = n + 15 := by rw [hN]; push_cast; ring
  set eta : ℝ := 15 * (N : ℝ) ^ 2 / x ^ 2 with heta
  have heta0 : 0 ≤ eta := by positivity
  have hsum : ∀ j : ℕ, j ≤ 15 → topSum N j ≤ 15 * N := by
    intro j hj
    unfold topSum
    have hj' : (j : ℝ) ≤ 15 := by exact_mod_cast hj
    have hj0 : (0 : ℝ) ≤ j := by positivity
    have : (j : ℝ) * ((j : ℝ) - 1) / 2 ≥ 0 := by
      rcases Nat.eq_zero_or_pos j with rfl | h
      · simp
      · have : (1 : ℝ) ≤ j := by exact_mod_cast h
        have : 0 ≤ (j : ℝ) - 1 := by linarith
        positivity
    have : (j : ℝ) * N ≤ 15 * N := by gcongr
    linarith
  have heta_le : eta ≤ 7 / 1000000 := by
    rw [heta, div_le_iff₀ (by positivity)]
    have h3 : (100 * (N : ℝ) ^ 2) ^ 2 ≤ x ^ 2 := by
      rw [hNr]; gcongr
    have h4 : (15 : ℝ) ≤ N := by rw [hNr]; linarith
    nlinarith [sq_nonneg ((N : ℝ)), mul_self_nonneg ((N : ℝ)^2), mul_le_mul h4 h4 (by norm_num) (by linarith)]
  have hdr : ∀ j : ℕ, j ≤ 14 → drift eta j + eta ≤ 1 / 2 := by
    intro j hj
    unfold drift
    have : (2 : ℝ) ^ (j + 1) ≤ 2 ^ 15 := pow_le_pow_right₀ (by norm_num) (by omega)
    nlinarith
  have all : ∀ j : ℕ, j ≤ 15 → FarAt x N eta j := by
    intro j
    induction j with
    | zero =>
      intro _
      refine ⟨fun _ => ⟨0, by simp [d1Down], by simp [topSum], by simp [topSum]⟩, fun h => by simp at h⟩
    | succ j ih =>
      intro hj
      refine far_step hx h2 heta0 (by omega) ?_ ?_ (hdr j (by omega)) (ih (by omega))
      · have h3 := hsum (j + 1) hj
        rw [heta, div_mul_cancel₀ _ (by positivity)]
        have : (0 : ℝ) ≤ N := by positivity
        nlinarith
      · have h3 := hsum (j + 1) hj
        refine h3.trans (le_trans ?_ h1)
        rw [hNr]
        nlinarith
  obtain ⟨a, e, ha, _⟩ := (all 15 le_rfl).2 (by decide)
  refine ⟨a, ?_, le_trans ?_ ha⟩
  · unfold d1Val
    rw [show N - n = 15 by omega]
    exact e
  · have hs : topSum N 15 = 15 * ((n : ℝ) + 8) := by unfold topSum; rw [hNr]; push_cast; ring
    rw [hs, div_le_div_iff₀ (by positivity) (by positivity)]
    have hd : drift eta 15 ≤ 1 / 2 := by
      unfold drift
      norm_num at heta_le ⊢
      linarith
    nlinarith

/-- The exact value where `sin² = cos²`. -/
theorem far_exact (n : ℕ) {x : ℝ} (h1 : 100 * ((n : ℝ) + 15) ^ 2 ≤ x) (hx : Real.sin x ^ 2 = Real.cos x ^ 2) :
    ricPsi n (x : ℂ) ≠ 0 ∧ ‖logD1 n (x : ℂ)‖ ≤ 2 := by
  have hn : (0 : ℝ) ≤ n := by positivity
  have hx0 : 0 < x := lt_of_lt_of_le (by positivity) h1
  have hz : (x : ℂ) ≠ 0 := by exact_mod_cast hx0.ne'
  set c : ℝ := ((n : ℝ) + 1) / x with hc
  have hc0 : 0 ≤ c := by positivity
  have hcn : 9 * (n : ℝ) * c ≤ 9 / 100 := by
    rw [hc, mul_div_assoc', div_le_iff₀ hx0]
    nlinarith
  have hc1 : c ≤ 1 / 100 := by
    rw [hc, div_le_iff₀ hx0]
    nlinarith
  have all : ∀ k : ℕ, k ≤ n → ricPsi k (x : ℂ) ≠ 0 ∧ ‖logD1 k (x : ℂ)‖ ≤ 1 + 9 * k * c ∧ 1 / (1 + 9 * k * c) ≤ ‖logD1 k (x : ℂ)‖ := by
    intro k
    induction k with
    | zero =>
      intro _
      have hs : Real.sin x ≠ 0 := by
        intro h0
        have := Real.sin_sq_add_cos_sq x
        rw [← hx, h0] at this
        norm_num at this
      have hsc : sin (x : ℂ) ≠ 0 := by exact_mod_cast hs
      have e0 : ricPsi 0 (x : ℂ) = sin (x : ℂ) := by
        unfold ricPsi; rw [sphJ_zero]; field_simp
      have e1 : deriv (ricPsi 0) (x : ℂ) = cos (x : ℂ) := by
        have : ricPsi 0 =ᶠ[𝓝 (x : ℂ)] sin := by
          filter_upwards [isOpen_ne.mem_nhds hz] with w hw
          unfold ricPsi; rw [sphJ_zero]; field_simp
        rw [this.deriv_eq]
        exact (hasDerivAt_sin _).deriv
      have hn1 : ‖logD1 0 (x : ℂ)‖ = 1 := by
        unfold logD1
        rw [e0, e1, ← ofReal_sin, ← ofReal_cos, norm_div, norm_real, norm_real, Real.norm_eq_abs, Real.norm_eq_abs,
          div_eq_one_iff_eq (abs_ne_zero.2 hs)]
        exact (sq_eq_sq_iff_abs_eq_abs _ _).1 hx.symm
      rw [hn1]
      refine ⟨by rw [e0]; exact hsc, by simp, by simp⟩
    | succ k ih =>
      intro hk
      obtain ⟨p0, hU, hL⟩ := ih (by omega)
      have hk1 : (k : ℝ) + 1 ≤ n := by exact_mod_cast hk
      have hk0 : (0 : ℝ) ≤ k := by positivity
      set U : ℝ := 1 + 9 * k * c with hUd
      have hU1 : 1 ≤ U := by
        have : 0 ≤ 9 * (k : ℝ) * c := by positivity
        linarith
      have hU2 : U ≤ 11 / 10 := by
        have : 9 * (k : ℝ) * c ≤ 9 * n * c := by gcongr; linarith
        linarith
      have hU' : 1 + 9 * ((k + 1 : ℕ) : ℝ) * c = U + 9 * c := by rw [hUd]; push_cast; ring
      rw [hU']
      set q : ℂ := ((k : ℂ) + 1) / (x : ℂ) with hq
      have hqn : ‖q‖ ≤ c := by
        rw [hq, norm_natCast_div ((k : ℝ) + 1) (by positivity) _ _ (by push_cast; ring), norm_real, Real.norm_of_nonneg hx0.le, hc]
        gcongr
        linarith
      have eψ : ricPsi (k + 1) (x : ℂ) = ricPsi k (x : ℂ) * (q - logD1 k (x : ℂ)) := by
        unfold logD1
        rw [deriv_ricPsi_raise k hz, hq]
        field_simp
        ring
      have hlow : 1 / U - c ≤ ‖q - logD1 k (x : ℂ)‖ := by
        have := norm_sub_norm_le (logD1 k (x : ℂ)) q
        rw [norm_sub_rev] at this
        linarith
      have hup : ‖q - logD1 k (x : ℂ)‖ ≤ U + c := (norm_sub_le _ _).trans (by linarith)
      have hUi : 10 / 11 ≤ 1 / U := by rw [div_le_div_iff₀ (by norm_num) (by linarith)]; linarith
      have hpos : 0 < ‖q - logD1 k (x : ℂ)‖ := by linarith
      have hne : q - logD1 k (x : ℂ) ≠ 0 := norm_pos_iff.1 hpos
      have p1 : ricPsi (k + 1) (x : ℂ) ≠ 0 := by rw [eψ]; exact mul_ne_zero p0 hne
      have eT : logD1 (k + 1) (x : ℂ) = 1 / (q - logD1 k (x : ℂ)) - q := by
        have := logD1_add k hz p1
        have h2 : ricPsi k (x : ℂ) / ricPsi (k + 1) (x : ℂ) = 1 / (q - logD1 k (x : ℂ)) := by
          rw [eψ]; field_simp
        rw [← h2, ← this]
        ring
      refine ⟨p1, ?_, ?_⟩
      · rw [eT]
        refine (norm_sub_le _ _).trans ?_
        have : ‖1 / (q - logD1 k (x : ℂ))‖ ≤ U + 8 * c := by
          rw [norm_div, norm_one, div_le_iff₀ hpos]
          have h3 : (U + 8 * c) * (1 / U - c) ≤ (U + 8 * c) * ‖q - logD1 k (x : ℂ)‖ := by gcongr
          refine le_trans ?_ h3
          have h4 : (U + 8 * c) * (1 / U - c) = 1 + c * (8 * (1 / U) - U - 8 * c) := by field_simp; ring
          rw [h4]
          have : 0 ≤ 8 * (1 / U) - U - 8 * c := by linarith
          have := mul_nonneg hc0 this
          linarith
        linarith
      · rw [eT]
        have h3 := norm_sub_norm_le (1 / (q - logD1 k (x : ℂ))) q
        have h4 : 1 / (U + c) ≤ ‖1 / (q - logD1 k (x : ℂ))‖ := by
          rw [norm_div, norm_one]
          exact one_div_le_one_div_of_le hpos hup
        have h5 : 1 / (U + 9 * c) ≤ 1 / (U + c) - c := by
          have e : 1 / (U + c) - 1 / (U + 9 * c) = 8 * c / ((U + c) * (U + 9 * c)) := by
            field_simp
            ring
          have : c ≤ 8 * c / ((U + c) * (U + 9 * c)) := by
            rw [le_div_iff₀ (by positivity)]
            have : (U + c) * (U + 9 * c) ≤ 8 := by nlinarith
            nlinarith
          linarith
        linarith
  obtain ⟨a, b, _⟩ := all n le_rfl
  exact ⟨a, by linarith⟩

/-! ## Rational arguments -/

/-- The recurrence in rational numbers; `none` when a denominator is below the guard. -/
def downQ (z : ℚ) (N : ℕ) : ℕ → Option ℚ
  | 0 => some 0
  | j + 1 => do
    let d ← downQ z N j
    let den := d + ((N - j : ℕ) : ℚ) / z
    if 1 / 10 ^ 30 ≤ |den| then some (((N - j : ℕ) : ℚ) / z - 1 / den) else none

theorem downQ_spec {z : ℚ} {N : ℕ} : ∀ {j : ℕ} {v : ℚ}, downQ z N j = some v →
    d1Down ((z : ℝ) : ℂ) solverEps N j = ((v : ℝ) : ℂ) := by
  intro j
  induction j with
  | zero => intro v h; simp only [downQ, Option.some.injEq] at h; subst h; simp [d1Down]
  | succ j ih =>
    intro v h
    simp only [downQ, Option.bind_eq_bind, Option.bind_eq_some_iff] at h
    obtain ⟨d, hd, h⟩ := h
    split at h
    · rename_i hg
      simp only [Option.some.injEq] at h
      subst h
      rw [d1Down, ih hd]
      have e : (((d : ℝ) : ℂ)) + ((N - j : ℕ) : ℂ) / ((z : ℝ) : ℂ) = (((d + ((N - j : ℕ) : ℚ) / z : ℚ) : ℝ) : ℂ) := by
        push_cast; rfl
      rw [e, guardAdd_of_le]
      · push_cast; rfl
      · apply norm_ofReal_ge
        have : ((1 / 10 ^ 30 : ℚ) : ℝ) ≤ ((|d + ((N - j : ℕ) : ℚ) / z| : ℚ) : ℝ) := by exact_mod_cast hg
        rw [Rat.cast_abs] at this
        unfold solverEps
        refine le_trans ?_ this
        norm_num
    · simp at h

end MieDiff
