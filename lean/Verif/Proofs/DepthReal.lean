import Verif.Proofs.DepthError
import Verif.Proofs.Decay

/-!
# Size of the Riccati functions of real argument at orders below it, and the recurrence of `pena_D1_n` there
-/

namespace MieDiff

open Complex Filter Topology Spec

/-! ## The quadratic form of a three-term recurrence -/

theorem form_le {c a b : ℝ} (h0 : 0 ≤ c) : (1 - c) * |2 * (a * b)| ≤ a ^ 2 - 2 * c * (a * b) + b ^ 2 := by
  rw [abs_mul, abs_of_pos (by norm_num : (0 : ℝ) < 2), abs_mul]
  have h1 : a * b ≤ |a| * |b| := by rw [← abs_mul]; exact le_abs_self _
  have h2 := sq_nonneg (|a| - |b|)
  have h3 := sq_abs a
  have h4 := sq_abs b
  have h5 := mul_le_mul_of_nonneg_left h1 h0
  nlinarith

theorem form_left {c a b : ℝ} : (1 - c ^ 2) * a ^ 2 ≤ a ^ 2 - 2 * c * (a * b) + b ^ 2 := by
  nlinarith [sq_nonneg (b - c * a)]

/-- Growth of the form along the orders below the argument. -/
theorem form_growth {x : ℝ} (hx : 0 < x) {u : ℕ → ℝ} (hu : ∀ k, u (k + 2) = (2 * (k : ℝ) + 3) / x * u (k + 1) - u k) :
    ∀ k : ℕ, 0 < x - k + 1 / 2 →
      (u (k + 1) ^ 2 - (2 * (k : ℝ) + 1) / x * (u (k + 1) * u k) + u k ^ 2) * (x - k + 1 / 2) ≤
        (u 1 ^ 2 - 1 / x * (u 1 * u 0) + u 0 ^ 2) * (x + 1 / 2) := by
  intro k
  induction k with
  | zero => intro _; apply le_of_eq; push_cast; ring
  | succ k ih =>
    intro h
    push_cast at h ⊢
    have h1 := ih (by linarith)
    refine le_trans ?_ h1
    rw [hu k]
    set a := u (k + 1)
    set b := u k
    have e : ((2 * (k : ℝ) + 3) / x * a - b) ^ 2 - (2 * ((k : ℝ) + 1) + 1) / x * (((2 * (k : ℝ) + 3) / x * a - b) * a) + a ^ 2 =
        (a ^ 2 - (2 * (k : ℝ) + 1) / x * (a * b) + b ^ 2) - 1 / x * (2 * (a * b)) := by ring
    rw [e]
    have hc : (0 : ℝ) ≤ (2 * (k : ℝ) + 1) / (2 * x) := by positivity
    have f := form_le (a := a) (b := b) hc
    have e2 : 2 * ((2 * (k : ℝ) + 1) / (2 * x)) * (a * b) = (2 * (k : ℝ) + 1) / x * (a * b) := by field_simp
    rw [e2] at f
    set q := a ^ 2 - (2 * (k : ℝ) + 1) / x * (a * b) + b ^ 2
    have hs : 1 - (2 * (k : ℝ) + 1) / (2 * x) = (x - (k + 1) + 1 / 2) / x := by field_simp; ring
    rw [hs] at f
    have g : -(1 / x * (2 * (a * b))) * (x - (k + 1) + 1 / 2) ≤ q := by
      refine le_trans ?_ f
      have := neg_abs_le (2 * (a * b))
      have h2 : -(2 * (a * b)) ≤ |2 * (a * b)| := by linarith
      have h3 : 0 ≤ (x - ((k : ℝ) + 1) + 1 / 2) / x := by positivity
      calc _ = (x - ((k : ℝ) + 1) + 1 / 2) / x * (-(2 * (a * b))) := by ring
        _ ≤ _ := mul_le_mul_of_nonneg_left h2 h3
    nlinarith

/-- Bound at the last order below the argument. -/
theorem form_bound {x : ℝ} (hx : 0 < x) {u : ℕ → ℝ} (hu : ∀ k, u (k + 2) = (2 * (k : ℝ) + 3) / x * u (k + 1) - u k)
    (h0 : u 0 ^ 2 ≤ 1) (h1 : u 1 ^ 2 - 1 / x * (u 1 * u 0) + u 0 ^ 2 ≤ 1 + 1 / (2 * x)) (K : ℕ) (hK : K = 0 ∨ (K : ℝ) + 1 / 2 ≤ x) :
    u K ^ 2 ≤ 1 + x ^ 2 := by
  rcases hK with rfl | hK
  · nlinarith
  · cases K with
    | zero => nlinarith
    | succ k =>
      push_cast at hK
      have hs : 1 ≤ x - ((k : ℝ) + 1) + 1 / 2 := by linarith
      have g := form_growth hx hu k (by linarith)
      have hc : (0 : ℝ) ≤ (2 * (k : ℝ) + 1) / (2 * x) := by positivity
      have hc1 : (2 * (k : ℝ) + 1) / (2 * x) ≤ 1 := by rw [div_le_one (by positivity)]; linarith
      have l := form_left (c := (2 * (k : ℝ) + 1) / (2 * x)) (a := u (k + 1)) (b := u k)
      have e2 : 2 * ((2 * (k : ℝ) + 1) / (2 * x)) * (u (k + 1) * u k) = (2 * (k : ℝ) + 1) / x * (u (k + 1) * u k) := by field_simp
      rw [e2] at l
      set q := u (k + 1) ^ 2 - (2 * (k : ℝ) + 1) / x * (u (k + 1) * u k) + u k ^ 2
      have hcs : 1 / x ≤ 1 - (2 * (k : ℝ) + 1) / (2 * x) := by
        rw [div_le_iff₀ hx, sub_mul, div_mul_eq_mul_div, le_sub_iff_add_le, ← le_sub_iff_add_le', div_le_iff₀ (by positivity)]
        nlinarith
      have hsq : 1 / x ≤ 1 - ((2 * (k : ℝ) + 1) / (2 * x)) ^ 2 := by nlinarith
      have h3 : 1 / x * u (k + 1) ^ 2 ≤ q := (mul_le_mul_of_nonneg_right hsq (sq_nonneg _)).trans l
      have h4 : q * 2 ≤ (1 + 1 / (2 * x)) * (x + 1 / 2) := by
        have hq : 0 ≤ q := le_trans (by positivity) h3
        calc q * 2 ≤ q * (x - k + 1 / 2) := mul_le_mul_of_nonneg_left (by linarith) hq
          _ ≤ _ := g
          _ ≤ _ := mul_le_mul_of_nonneg_right h1 (by linarith)
      have h5 : u (k + 1) ^ 2 ≤ q * x := by
        rw [div_mul_eq_mul_div, one_mul, div_le_iff₀ hx] at h3
        exact h3
      have h6 : (1 + 1 / (2 * x)) * (x + 1 / 2) * x = (x + 1 / 2) ^ 2 := by field_simp
      nlinarith

/-- `psi_n` and `chi_n` of real argument, in real numbers. -/
noncomputable def realSeq (x u0 u1 : ℝ) : ℕ → ℝ
  | 0 => u0
  | 1 => u1
  | k + 2 => (2 * (k : ℝ) + 3) / x * realSeq x u0 u1 (k + 1) - realSeq x u0 u1 k

theorem realSeq_rec (x u0 u1 : ℝ) (k : ℕ) :
    realSeq x u0 u1 (k + 2) = (2 * (k : ℝ) + 3) / x * realSeq x u0 u1 (k + 1) - realSeq x u0 u1 k := rfl

theorem ricChi_rec (n : ℕ) {z : ℂ} (hz : z ≠ 0) :
    ricChi (n + 2) z = (2 * (n : ℂ) + 3) / z * ricChi (n + 1) z - ricChi n z := by
  have a := (hasDerivAt_chi_raise (n + 1) hz).deriv
  have b := (hasDerivAt_chi_lower n hz).deriv
  rw [a] at b
  push_cast at b
  linear_combination -b

theorem realSeq_of {x : ℝ} {f : ℕ → ℂ} {u0 u1 : ℝ} (h : ∀ n, f (n + 2) = (2 * (n : ℂ) + 3) / (x : ℂ) * f (n + 1) - f n)
    (h0 : f 0 = (u0 : ℂ)) (h1 : f 1 = (u1 : ℂ)) (n : ℕ) : f n = ((realSeq x u0 u1 n : ℝ) : ℂ) := by
  have : f n = ((realSeq x u0 u1 n : ℝ) : ℂ) ∧ f (n + 1) = ((realSeq x u0 u1 (n + 1) : ℝ) : ℂ) := by
    induction n with
    | zero => exact ⟨h0, h1⟩
    | succ n ih =>
      refine ⟨ih.2, ?_⟩
      rw [h n, ih.1, ih.2, realSeq_rec]
      push_cast
      ring
  exact this.1

/-- At the last order below a real argument `x` both Riccati functions are at most `sqrt(1 + x²)`. -/
theorem ric_bound {x : ℝ} (hx : 0 < x) (K : ℕ) (hK : K = 0 ∨ (K : ℝ) + 1 / 2 ≤ x) :
    ‖ricPsi K (x : ℂ)‖ ^ 2 ≤ 1 + x ^ 2 ∧ ‖ricChi K (x : ℂ)‖ ^ 2 ≤ 1 + x ^ 2 := by
  have hz : (x : ℂ) ≠ 0 := by exact_mod_cast hx.ne'
  have sc := Real.sin_sq_add_cos_sq x
  have hsc : 2 * |Real.sin x * Real.cos x| ≤ 1 := by
    rw [abs_mul]
    nlinarith [sq_nonneg (|Real.sin x| - |Real.cos x|), sq_abs (Real.sin x), sq_abs (Real.cos x)]
  have hd : |Real.sin x * Real.cos x| / x ≤ 1 / (2 * x) := by
    rw [div_le_div_iff₀ hx (by positivity)]
    nlinarith
  constructor
  · rw [realSeq_of (x := x) (f := fun n => ricPsi n (x : ℂ)) (u0 := Real.sin x) (u1 := Real.sin x / x - Real.cos x)
      (fun n => ricPsi_rec n hz) (by rw [ricPsi_zero _ hz]; push_cast; rfl)
      (by unfold ricPsi; rw [sphJ_one hz]; push_cast; field_simp) K, Complex.norm_real, Real.norm_eq_abs, sq_abs]
    refine form_bound hx (realSeq_rec _ _ _) ?_ ?_ K hK
    · simp only [realSeq]; nlinarith [sq_nonneg (Real.cos x)]
    · simp only [realSeq]
      have e : (Real.sin x / x - Real.cos x) ^ 2 - 1 / x * ((Real.sin x / x - Real.cos x) * Real.sin x) + Real.sin x ^ 2 =
          1 - Real.sin x * Real.cos x / x := by
        field_simp
        linear_combination x ^ 2 * sc
      rw [e]
      have := neg_abs_le (Real.sin x * Real.cos x)
      have h2 : -(Real.sin x * Real.cos x / x) ≤ |Real.sin x * Real.cos x| / x := by
        rw [← neg_div]; exact div_le_div_of_nonneg_right (by linarith) hx.le
      linarith
  · rw [realSeq_of (x := x) (f := fun n => ricChi n (x : ℂ)) (u0 := Real.cos x) (u1 := Real.cos x / x + Real.sin x)
      (fun n => ricChi_rec n hz) (by unfold ricChi; rw [sphY_zero]; push_cast; field_simp)
      (by unfold ricChi; rw [sphY_one hz]; push_cast; field_simp) K, Complex.norm_real, Real.norm_eq_abs, sq_abs]
    refine form_bound hx (realSeq_rec _ _ _) ?_ ?_ K hK
    · simp only [realSeq]; nlinarith [sq_nonneg (Real.sin x)]
    · simp only [realSeq]
      have e : (Real.cos x / x + Real.sin x) ^ 2 - 1 / x * ((Real.cos x / x + Real.sin x) * Real.cos x) + Real.cos x ^ 2 =
          1 + Real.sin x * Real.cos x / x := by
        field_simp
        linear_combination x ^ 2 * sc
      rw [e]
      have := le_abs_self (Real.sin x * Real.cos x)
      have h2 : Real.sin x * Real.cos x / x ≤ |Real.sin x * Real.cos x| / x := div_le_div_of_nonneg_right this hx.le
      linarith

/-! ## The recurrence -/

/-- The recurrence without active guards, the guards given by the wave or by the denominator. -/
theorem d1Val_closed_or {z : ℂ} {eps : ℝ} (hz : z ≠ 0) (heps : 0 < eps) (N : ℕ) :
    ∀ j k : ℕ, k + j = N → (∀ i, k ≤ i → i < N → eps * ‖stubWave N z (i + 1) z‖ ≤ ‖stubWave N z i z‖ ∨
      eps ≤ ‖d1Val z eps N (i + 1) + ((i + 1 : ℕ) : ℂ) / z‖) →
      stubWave N z k z ≠ 0 ∧ d1Val z eps N k = deriv (stubWave N z k) z / stubWave N z k z := by
  intro j
  induction j with
  | zero =>
    intro k hk _
    obtain rfl : k = N := by omega
    refine ⟨by rw [stub_top k hz]; norm_num, ?_⟩
    rw [d1Val_top, stub_deriv k k hz]
    simp [mul_comm]
  | succ j ih =>
    intro k hk h
    obtain ⟨h1, h2⟩ := ih (k + 1) (by omega) fun i hi hN => h i (by omega) hN
    have e : d1Val z eps N (k + 1) + ((k + 1 : ℕ) : ℂ) / z = stubWave N z k z / stubWave N z (k + 1) z := by
      rw [h2, (stub_lower N z k hz).deriv]
      push_cast
      field_simp
      ring
    have h3 : eps * ‖stubWave N z (k + 1) z‖ ≤ ‖stubWave N z k z‖ := by
      rcases h k le_rfl (by omega) with h3 | h3
      · exact h3
      · rw [e, norm_div, le_div_iff₀ (norm_pos_iff.2 h1)] at h3
        exact h3
    have h0 : stubWave N z k z ≠ 0 := by
      intro h0
      rw [h0, norm_zero] at h3
      have := mul_pos heps (norm_pos_iff.2 h1)
      linarith
    refine ⟨h0, ?_⟩
    rw [d1Val_step z eps (by omega : k < N), e, guardAdd_of_le, (stub_raise N z k hz).deriv]
    · push_cast
      field_simp
    · rw [norm_div, le_div_iff₀ (norm_pos_iff.2 h1)]
      exact h3

/-- Above the argument no guard is active. -/
theorem den_ge {z : ℂ} {eps : ℝ} (hz : z ≠ 0) (heps : eps ≤ 1) (N : ℕ) (hN : ‖z‖ ≤ N) {i : ℕ} (hi : i < N)
    (h : ‖z‖ ≤ (i + 1 : ℕ) + 1 / 2) : eps ≤ ‖d1Val z eps N (i + 1) + ((i + 1 : ℕ) : ℂ) / z‖ :=
  heps.trans (den_size hz heps N (N - (i + 1)) i (by omega) h hN).1

/-- The admixture of the singular solution that the start order leaves. -/
theorem admixture {x : ℝ} (hx : 0 < x) {eps : ℝ} (h0 : 0 < eps) (heps : eps ≤ 1) (N K : ℕ) (hN : x ≤ N) (hKN : K < N)
    (hK : K = 0 ∨ (K : ℝ) + 1 / 2 ≤ x) (hK' : x ≤ K + 3 / 2) {b : ℝ}
    (hb : 2 * ∏ j ∈ Finset.Ico (K + 1) N, (damp (x : ℂ) j)⁻¹ ≤ b) (hsm : b * (1 + x ^ 2) ≤ 1 / 2) :
    deriv (ricChi N) (x : ℂ) ≠ 0 ∧ ‖deriv (ricPsi N) (x : ℂ) / deriv (ricChi N) (x : ℂ)‖ ≤ 2 * b * (1 + x ^ 2) := by
  have hz : (x : ℂ) ≠ 0 := by exact_mod_cast hx.ne'
  have hn : ‖(x : ℂ)‖ = x := by rw [Complex.norm_real, Real.norm_eq_abs, abs_of_pos hx]
  have hk1 : ‖(x : ℂ)‖ ≤ (K + 1 : ℕ) + 1 / 2 := by rw [hn]; push_cast; linarith
  have hNn : ‖(x : ℂ)‖ ≤ N := by rw [hn]; exact hN
  have herr := (d1Val_error_above hz heps N hNn (N - (K + 1)) K (by omega) hk1).trans hb
  have hp := (psi_ratio_large hz K hk1).1
  obtain ⟨c1, c2⟩ := d1Val_closed_or hz h0 N (N - K) K (by omega) fun i hi hiN => .inr (den_ge hz heps N hNn hiN (by
    refine hk1.trans ?_
    have : ((K + 1 : ℕ) : ℝ) ≤ (i + 1 : ℕ) := by exact_mod_cast (by omega : K + 1 ≤ i + 1)
    linarith))
  have se := stub_error N K hz hp c1
  rw [← c2] at se
  set err := d1Val (x : ℂ) eps N K - deriv (ricPsi K) (x : ℂ) / ricPsi K (x : ℂ) with herrd
  have herr' : ‖err‖ ≤ b := herr
  obtain ⟨bp, bc⟩ := ric_bound hx K hK
  set P := deriv (ricPsi N) (x : ℂ)
  set C := deriv (ricChi N) (x : ℂ)
  have e1 : P * (1 + err * (ricPsi K (x : ℂ) * ricChi K (x : ℂ))) = err * ricPsi K (x : ℂ) ^ 2 * C := by
    rw [eq_div_iff (mul_ne_zero hp c1)] at se
    have : stubWave N (x : ℂ) K (x : ℂ) = C * ricPsi K (x : ℂ) - P * ricChi K (x : ℂ) := rfl
    rw [this] at se
    linear_combination -se
  have hprod : ‖ricPsi K (x : ℂ) * ricChi K (x : ℂ)‖ ≤ 1 + x ^ 2 := by
    rw [norm_mul]
    nlinarith [sq_nonneg (‖ricPsi K (x : ℂ)‖ - ‖ricChi K (x : ℂ)‖)]
  have hb0 : 0 ≤ b := (norm_nonneg _).trans herr'
  have h2 : 1 / 2 ≤ ‖1 + err * (ricPsi K (x : ℂ) * ricChi K (x : ℂ))‖ := by
    have h3 : ‖err * (ricPsi K (x : ℂ) * ricChi K (x : ℂ))‖ ≤ 1 / 2 := by
      rw [norm_mul]
      exact (mul_le_mul herr' hprod (norm_nonneg _) hb0).trans hsm
    have := norm_sub_le (1 + err * (ricPsi K (x : ℂ) * ricChi K (x : ℂ))) (err * (ricPsi K (x : ℂ) * ricChi K (x : ℂ)))
    rw [add_sub_cancel_right, norm_one] at this
    linarith
  have h4 : ‖P‖ * (1 / 2) ≤ b * (1 + x ^ 2) * ‖C‖ := by
    have := congrArg norm e1
    rw [norm_mul, norm_mul, norm_mul, norm_pow] at this
    calc ‖P‖ * (1 / 2) ≤ ‖P‖ * ‖1 + err * (ricPsi K (x : ℂ) * ricChi K (x : ℂ))‖ := mul_le_mul_of_nonneg_left h2 (norm_nonneg _)
      _ = _ := this
      _ ≤ _ := by
        refine mul_le_mul_of_nonneg_right ?_ (norm_nonneg _)
        exact mul_le_mul herr' bp (by positivity) hb0
  have hC : C ≠ 0 := by
    intro hC
    rw [hC, norm_zero, mul_zero] at h4
    have hP : P = 0 := by rw [← norm_le_zero_iff]; linarith
    have := wronskian N hz
    change ricPsi N (x : ℂ) * C - ricChi N (x : ℂ) * P = -1 at this
    rw [hC, hP] at this
    norm_num at this
  refine ⟨hC, ?_⟩
  rw [norm_div, div_le_iff₀ (norm_pos_iff.2 hC)]
  linarith

/-! ## Numbers for the default order -/

/-- A lower bound of `(1 + sqrt d)(1 + d)` at `d = 2 i / X`. -/
def dampQ (X i : ℕ) : ℚ := (1 + (Nat.sqrt (800 * i / X) : ℚ) / 20) * (1 + 2 * (i : ℚ) / X)

/-- Bound of the error at the last order below the argument when the recurrence starts at least 28 orders higher. -/
def depthQ (X : ℕ) : ℚ := 2 * ∏ i ∈ Finset.range 28, (dampQ X i)⁻¹

theorem dampQ_le {X : ℕ} (hX : 0 < X) {x : ℝ} (hx : 0 < x) (hxX : x ≤ X) (K i : ℕ) (hK : x ≤ K + 3 / 2) :
    (0 : ℝ) < (dampQ X i : ℝ) ∧ (dampQ X i : ℝ) ≤ damp (x : ℂ) (K + 1 + i) := by
  have hn : ‖(x : ℂ)‖ = x := by rw [Complex.norm_real, Real.norm_eq_abs, abs_of_pos hx]
  have hX' : (0 : ℝ) < X := by exact_mod_cast hX
  have he : 2 * (i : ℝ) / X ≤ excess (x : ℂ) (K + 1 + i) := by
    unfold excess
    rw [hn]
    have h1 : 2 * (i : ℝ) / X ≤ 2 * (i : ℝ) / x := by gcongr
    refine h1.trans ?_
    rw [le_sub_iff_add_le, div_add' _ _ _ hx.ne']
    refine div_le_div_of_nonneg_right ?_ hx.le
    push_cast
    linarith
  have hs : (Nat.sqrt (800 * i / X) : ℝ) / 20 ≤ Real.sqrt (excess (x : ℂ) (K + 1 + i)) := by
    refine le_trans ?_ (Real.sqrt_le_sqrt he)
    apply Real.le_sqrt_of_sq_le
    have h1 : Nat.sqrt (800 * i / X) ^ 2 * X ≤ 800 * i := by
      calc Nat.sqrt (800 * i / X) ^ 2 * X ≤ (800 * i / X) * X := Nat.mul_le_mul_right _ (Nat.sqrt_le' _)
        _ ≤ _ := Nat.div_mul_le_self _ _
    have h2 : (Nat.sqrt (800 * i / X) : ℝ) ^ 2 * X ≤ 800 * i := by exact_mod_cast h1
    rw [le_div_iff₀ hX']
    linarith
  unfold dampQ damp
  push_cast
  have a : (0 : ℝ) ≤ 2 * (i : ℝ) / X := by positivity
  have b : (0 : ℝ) ≤ (Nat.sqrt (800 * i / X) : ℝ) / 20 := by positivity
  constructor
  · positivity
  · gcongr

theorem depthQ_bound {X : ℕ} (hX : 0 < X) {x : ℝ} (hx : 0 < x) (hxX : x ≤ X) (K N : ℕ) (hK : x ≤ K + 3 / 2) (hN : K + 1 + 28 ≤ N) :
    2 * ∏ j ∈ Finset.Ico (K + 1) N, (damp (x : ℂ) j)⁻¹ ≤ (depthQ X : ℝ) := by
  have hd : ∀ i, (0 : ℝ) < damp (x : ℂ) (K + 1 + i) := fun i => (dampQ_le hX hx hxX K i hK).1.trans_le (dampQ_le hX hx hxX K i hK).2
  have h1 : ∀ i, 1 ≤ damp (x : ℂ) (K + 1 + i) := by
    intro i
    refine le_trans ?_ (dampQ_le hX hx hxX K i hK).2
    unfold dampQ
    push_cast
    have a : (0 : ℝ) ≤ 2 * (i : ℝ) / X := by positivity
    have b : (0 : ℝ) ≤ (Nat.sqrt (800 * i / X) : ℝ) / 20 := by positivity
    nlinarith [mul_nonneg a b]
  rw [Finset.prod_Ico_eq_prod_range]
  have e : N - (K + 1) = 28 + (N - (K + 1) - 28) := by omega
  rw [e, Finset.prod_range_add]
  unfold depthQ
  push_cast
  refine mul_le_mul_of_nonneg_left ?_ (by norm_num)
  have h2 : ∏ i ∈ Finset.range 28, (damp (x : ℂ) (K + 1 + i))⁻¹ ≤ ∏ i ∈ Finset.range 28, ((dampQ X i : ℝ))⁻¹ := by
    apply Finset.prod_le_prod
    · intro i _; exact (inv_pos.2 (hd i)).le
    · intro i _; exact inv_anti₀ (dampQ_le hX hx hxX K i hK).1 (dampQ_le hX hx hxX K i hK).2
  have h3 : ∏ i ∈ Finset.range (N - (K + 1) - 28), (damp (x : ℂ) (K + 1 + (28 + i)))⁻¹ ≤ 1 := by
    apply Finset.prod_le_one
    · intro i _; exact (inv_pos.2 (hd _)).le
    · intro i _; exact inv_le_one_of_one_le₀ (h1 _)
  have h4 : 0 ≤ ∏ i ∈ Finset.range 28, (damp (x : ℂ) (K + 1 + i))⁻¹ := Finset.prod_nonneg fun i _ => (inv_pos.2 (hd i)).le
  calc _ ≤ (∏ i ∈ Finset.range 28, (damp (x : ℂ) (K + 1 + i))⁻¹) * 1 := mul_le_mul_of_nonneg_left h3 h4
    _ ≤ _ := by rw [mul_one]; exact h2

theorem depthQ_32 : depthQ 32 ≤ 1 / (2 * 10 ^ 9 * (1 + 32 ^ 2)) := by
  unfold depthQ
  simp only [Finset.prod_range_succ, Finset.prod_range_zero]
  decide +kernel

theorem depthQ_64 : depthQ 64 ≤ 1 / (2 * 10 ^ 5 * (1 + 64 ^ 2)) := by
  unfold depthQ
  simp only [Finset.prod_range_succ, Finset.prod_range_zero]
  decide +kernel

end MieDiff
