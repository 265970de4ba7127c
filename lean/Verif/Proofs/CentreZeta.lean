import Verif.Props.Cancellation
import Verif.Proofs.Decay

/-!
# The outgoing waves of the pena backend at the centre

Sizes of the quantities of `pena_D3_n` at a small real argument, operation by operation in double precision.
-/

namespace MieDiff

open Complex Spec

/-- The exact factor from order `k` to `k + 1`. -/
theorem psi_factor_small (k : ℕ) {z : ℂ} (hz : z ≠ 0) (h : ‖z‖ ≤ 1 / 2) : ‖ricPsi (k + 1) z / ricPsi k z‖ ≤ ‖z‖ := by
  have hk : (0 : ℝ) ≤ k := by positivity
  have hzp : 0 < ‖z‖ := norm_pos_iff.2 hz
  obtain ⟨h0, -⟩ := ricPsi_ratio k hz (by linarith)
  obtain ⟨h1, h2⟩ := ricPsi_ratio (k + 1) hz (by push_cast; linarith)
  have hrec := ricPsi_rec k hz
  have e : ricPsi k z / ricPsi (k + 1) z = (2 * (k : ℂ) + 3) / z - ricPsi (k + 2) z / ricPsi (k + 1) z := by
    rw [hrec]; field_simp; ring
  have h3 : ‖ricPsi (k + 2) z / ricPsi (k + 1) z‖ ≤ 1 / 2 := by
    rw [norm_div, div_le_iff₀ (norm_pos_iff.2 h1)]
    linarith
  have h4 : ‖(2 * (k : ℂ) + 3) / z‖ = (2 * k + 3) / ‖z‖ := norm_natCast_div (2 * (k : ℝ) + 3) (by positivity) _ _ (by push_cast; ring)
  have h5 := norm_sub_norm_le ((2 * (k : ℂ) + 3) / z) (ricPsi (k + 2) z / ricPsi (k + 1) z)
  rw [← e, h4] at h5
  have h6 : 1 / ‖z‖ ≤ ‖ricPsi k z / ricPsi (k + 1) z‖ := by
    have : 1 / ‖z‖ + 1 / 2 ≤ (2 * k + 3) / ‖z‖ := by
      rw [div_add' _ _ _ hzp.ne', div_le_div_iff_of_pos_right hzp]
      linarith
    linarith
  rw [norm_div] at h6 ⊢
  have p0 := norm_pos_iff.2 h0
  have p1 := norm_pos_iff.2 h1
  rw [div_le_div_iff₀ hzp p1] at h6
  rw [div_le_iff₀ p0]
  linarith

section
variable {A : Arith} {u : ℝ}

theorem guard_small_real (hA : A.Within u) (hu : u ≤ 1 / 100) {z : ℝ} (hz : 1e-29 ≤ z) : A.guard (z : ℂ) = z := by
  have hz0 : 0 < z := lt_of_lt_of_le (by norm_num) hz
  have hnz : ‖(z : ℂ)‖ = z := by rw [norm_real, Real.norm_of_nonneg hz0.le]
  unfold Arith.guard
  have h1 := (abs_le.1 (hA.abs z)).1
  rw [hnz] at h1
  rw [if_neg]
  push Not
  unfold solverEps
  norm_num at hz hu ⊢
  nlinarith

/-- The two terms of the difference of order `k` and the difference. -/
theorem t1_size (hA : A.Within u) (hD : A.Double) (hu : u ≤ 1 / 2 ^ 50) {z : ℝ} (hz : 0.99e-8 ≤ z) (hz1 : z ≤ 1.01e-8)
    {n N k : ℕ} (hn : 110 ≤ n) (hN : 8 ≤ N) (hk : k < 84) :
    let q := A.div ((k + 1 : ℕ) : ℂ) (A.guard z)
    let d := A.d1 n N z k
    let t := A.sub q d
    ‖q‖ ≤ 1e10 ∧ ‖d‖ ≤ 1e10 ∧ ‖q - d‖ ≤ 1.54e-4 ∧ ‖t‖ ≤ 1.53e-4 ∧ (t = 0 ∨ 1e-8 ≤ ‖t‖) := by
  intro q d t
  have hu0 := hA.nonneg
  have hu6 : u ≤ 1 / 10 ^ 6 := hu.trans (by norm_num)
  have hu2 : u ≤ 1 / 100 := hu.trans (by norm_num)
  have hz0 : 0 < z := lt_of_lt_of_le (by norm_num) hz
  have hzc : (z : ℂ) ≠ 0 := by exact_mod_cast hz0.ne'
  have hnz : ‖(z : ℂ)‖ = z := by rw [norm_real, Real.norm_of_nonneg hz0.le]
  have hg := guard_small_real hA hu2 (z := z) (le_trans (by norm_num) hz)
  have hk1 : ((k : ℝ) + 1) ≤ 84 := by exact_mod_cast hk
  have hk0 : (0 : ℝ) ≤ k := by positivity
  have hs : ((k : ℝ) + 1) / z ≤ 8.5e9 := by
    rw [div_le_iff₀ hz0]; norm_num at hz ⊢; linarith
  have hs1 : 0.99e8 * ((k : ℝ) + 1) ≤ ((k : ℝ) + 1) / z := by
    rw [le_div_iff₀ hz0]; norm_num at hz1 ⊢; nlinarith
  have hs0 : 0.99e8 ≤ ((k : ℝ) + 1) / z := le_trans (by norm_num) hs1
  obtain ⟨d', hd, hdd⟩ := real_d1Down hA hD hu2 hz0 (hz1.trans (by norm_num)) (n + N) (n + N - k) (by omega)
  have hdd := hdd (by omega)
  obtain ⟨q', hqd, hq⟩ := hD.div ((k + 1 : ℕ) : ℝ) z hz0.ne'
  rw [ofReal_natCast] at hq
  have e1 : d = d' := by show A.d1 n N z k = _; unfold Arith.d1; rw [hg, hd]
  have e2 : q = q' := by show A.div _ (A.guard z) = _; rw [hg, hq]
  have hq1 : |q' - ((k : ℝ) + 1) / z| ≤ u * (((k : ℝ) + 1) / z) := by
    have := hA.div ((k + 1 : ℕ) : ℂ) (z : ℂ) hzc
    rw [hq, ← ofReal_natCast, ← ofReal_div, ← ofReal_sub, norm_real, norm_real, Real.norm_eq_abs,
      Real.norm_of_nonneg (by positivity : 0 ≤ ((k + 1 : ℕ) : ℝ) / z)] at this
    push_cast at this
    exact this
  have hd1 : |d' - ((k : ℝ) + 1) / z| ≤ 1 / 2 + 3 * u * (((k : ℝ) + 1) / z) := by
    have := Arith.d1_near hA hu0 hu2 hzc (n + N) (n + N - k - 1) k (by omega) (by rw [hnz]; norm_num at hz1 ⊢; linarith)
    rw [hd, hnz] at this
    have e : (d' : ℂ) - ((k : ℂ) + 1) / z = ((d' - ((k : ℝ) + 1) / z : ℝ) : ℂ) := by push_cast; ring
    rw [e, norm_real] at this
    exact this
  set s := ((k : ℝ) + 1) / z with hsd
  have hus : u * s ≤ 1e-6 * s := by gcongr; exact hu.trans (by norm_num)
  have hqn : ‖q‖ = |q'| := by rw [e2, norm_real, Real.norm_eq_abs]
  have hdn : ‖d‖ = |d'| := by rw [e1, norm_real, Real.norm_eq_abs]
  have hql : 0.999 * s ≤ q' := by
    have := (abs_le.1 hq1).1
    norm_num at hus hs0 ⊢
    linarith
  have hdl : 0.999 * s ≤ d' := by
    have := (abs_le.1 hd1).1
    norm_num at hus hs0 ⊢
    linarith
  have hsp : 0 < s := lt_of_lt_of_le (by norm_num) hs0
  -- difference
  have hP := hA.sub q d
  obtain ⟨-, hfac⟩ := C88_factor hA hu2 (z := (z : ℂ)) (by rw [hnz]; refine le_trans ?_ hz; unfold solverEps; norm_num)
    (n := n) (N := N) (k := k) (by omega) (by omega) (by rw [hnz]; norm_num at hz1 ⊢; linarith)
  have hf2 := psi_factor_small k hzc (by rw [hnz]; exact hz1.trans (by norm_num))
  rw [hnz] at hfac hf2
  have htr : (1 / 6 : ℝ) ^ (n + N - k - 1) ≤ (1 / 6) ^ 26 := pow_le_pow_of_le_one (by norm_num) (by norm_num) (by omega)
  have ht : ‖t‖ ≤ 1.53e-4 := by
    have h1 := norm_sub_norm_le t (ricPsi (k + 1) (z : ℂ) / ricPsi k (z : ℂ))
    have h2 : (20 * u + 2 * (1 / 6 : ℝ) ^ (n + N - k - 1)) * s ≤ (20 * (1 / 2 ^ 50) + 2 * (1 / 6) ^ 26) * 8.5e9 := by gcongr
    have h3 : (20 * (1 / 2 ^ 50) + 2 * (1 / 6 : ℝ) ^ 26) * 8.5e9 ≤ 1.52e-4 := by norm_num
    have h4 : ‖t - ricPsi (k + 1) (z : ℂ) / ricPsi k (z : ℂ)‖ ≤ 1.52e-4 := (hfac.trans h2).trans h3
    norm_num at h1 h4 hf2 hz1 ⊢
    linarith
  refine ⟨?_, ?_, ?_, ht, ?_⟩
  · rw [hqn, abs_of_pos (by linarith)]
    have := (abs_le.1 hq1).2
    norm_num at hus hs ⊢
    linarith
  · rw [hdn, abs_of_pos (by linarith)]
    have := (abs_le.1 hd1).2
    norm_num at hus hs ⊢
    linarith
  · have h1 := within_lower hP
    have h2 : 0.999 * ‖q - d‖ ≤ (1 - u) * ‖q - d‖ := by gcongr; norm_num at hu6 ⊢; linarith
    have h3 : (1 - u) * ‖q - d‖ ≤ ‖t‖ := h1
    norm_num at ht h2 ⊢
    linarith
  · rcases double_gap hqd hdd (w := 0.999 * s) (by positivity) (hql.trans (le_abs_self _)) (hdl.trans (le_abs_self _)) with h | h
    · left; exact within_zero hP (by rw [e1, e2, ← ofReal_sub, h, ofReal_zero])
    · right
      have h1 : (1 - u) * ‖q - d‖ ≤ ‖t‖ := within_lower hP
      rw [e1, e2, ← ofReal_sub, norm_real, Real.norm_eq_abs] at h1
      have h2 : 0.999 * |q' - d'| ≤ (1 - u) * |q' - d'| := by gcongr; norm_num at hu6 ⊢; linarith
      have h3 : 0.999 * 0.99e8 / 2 ^ 53 ≤ 0.999 * s / 2 ^ 53 := by gcongr
      norm_num at h2 h3 h ⊢
      linarith

theorem within_bounds {a b : ℂ} (hu : u ≤ 1e-9) (h : ‖a - b‖ ≤ u * ‖b‖) : 0.999999 * ‖b‖ ≤ ‖a‖ ∧ ‖a‖ ≤ 1.000001 * ‖b‖ := by
  have h1 := norm_sub_norm_le a b
  have h2 := norm_sub_norm_le b a
  rw [norm_sub_rev b a] at h2
  have h3 : u * ‖b‖ ≤ 1e-9 * ‖b‖ := by gcongr
  have := norm_nonneg b
  norm_num at h3 ⊢
  constructor <;> linarith

/-- `1j / denom` of `pena_D3_n`. -/
theorem w_size (hA : A.Within u) (hu : u ≤ 1e-9) {p : ℂ} (hp : p = 0 ∨ 8e-9 ≤ ‖p‖ ∧ ‖p‖ ≤ 1.7e-4) :
    let w := A.div I (A.guard p)
    5.8e3 ≤ ‖w‖ ∧ (p = 0 ∨ 0.99 ≤ ‖p‖ * ‖w‖ ∧ ‖p‖ * ‖w‖ ≤ 1.01) := by
  intro w
  have hu0 := hA.nonneg
  rcases hp with rfl | ⟨h1, h2⟩
  · refine ⟨?_, Or.inl rfl⟩
    have ha : A.abs 0 = 0 := by
      have := hA.abs 0
      simpa using this
    have hg : A.guard 0 = A.add 0 solverEps := by unfold Arith.guard; rw [if_pos (by rw [ha]; exact solverEps_pos)]
    have h3 := within_bounds hu (hA.add 0 solverEps)
    rw [← hg, zero_add] at h3
    have hn : ‖((solverEps : ℝ) : ℂ)‖ = 1e-30 := by rw [norm_real]; unfold solverEps; norm_num
    rw [hn] at h3
    have hg0 : A.guard 0 ≠ 0 := by
      rw [← norm_pos_iff]; refine lt_of_lt_of_le ?_ h3.1; norm_num
    have h4 := (within_bounds hu (hA.div I _ hg0)).1
    rw [norm_div, norm_I] at h4
    refine le_trans ?_ h4
    have : 1 / (1.000001 * 1e-30) ≤ 1 / ‖A.guard 0‖ := by
      apply one_div_le_one_div_of_le (norm_pos_iff.2 hg0) h3.2
    norm_num at this ⊢
    linarith
  · have hp0 : 0 < ‖p‖ := lt_of_lt_of_le (by norm_num) h1
    have hg : A.guard p = p := by
      unfold Arith.guard
      have h3 := (abs_le.1 (hA.abs p)).1
      rw [if_neg]
      push Not
      unfold solverEps
      have : u * ‖p‖ ≤ 1e-9 * ‖p‖ := by gcongr
      norm_num at this h1 ⊢
      linarith
    have h4 := within_bounds hu (hA.div I p (norm_pos_iff.1 hp0))
    rw [norm_div, norm_I] at h4
    have hw : w = A.div I p := by show A.div I (A.guard p) = _; rw [hg]
    rw [hw]
    have hpp : ‖p‖ * (1 / ‖p‖) = 1 := by field_simp
    refine ⟨le_trans ?_ h4.1, Or.inr ⟨?_, ?_⟩⟩
    · have : 1 / 1.7e-4 ≤ 1 / ‖p‖ := one_div_le_one_div_of_le hp0 h2
      norm_num at this ⊢
      linarith
    · have := mul_le_mul_of_nonneg_left h4.1 hp0.le
      norm_num at this hpp ⊢
      linarith
    · have := mul_le_mul_of_nonneg_left h4.2 hp0.le
      norm_num at this hpp ⊢
      linarith

/-- The factor `n/z - D3` is dominated by the quotient in `D3`. -/
theorem t2_size (hA : A.Within u) (hu : u ≤ 1 / 2 ^ 50) {q d w : ℂ} (hd : ‖d‖ ≤ 1e10) (hqd : ‖q - d‖ ≤ 1.54e-4)
    (hw : 5.8e3 ≤ ‖w‖) : 0.999 * ‖w‖ ≤ ‖A.sub q (A.add d w)‖ ∧ ‖A.sub q (A.add d w)‖ ≤ 1.001 * ‖w‖ := by
  have hu0 := hA.nonneg
  have h1 := hA.add d w
  have h2 := hA.sub q (A.add d w)
  have h3 : ‖d + w‖ ≤ 1e10 + ‖w‖ := (norm_add_le _ _).trans (by linarith)
  have h4 : ‖A.add d w - (d + w)‖ ≤ 1e-5 + 1e-5 * ‖w‖ := by
    refine h1.trans ((mul_le_mul hu h3 (norm_nonneg _) (by positivity)).trans ?_)
    have := norm_nonneg w
    norm_num
    linarith
  have h5 : ‖q - A.add d w - -w‖ ≤ 1e-3 + 1e-5 * ‖w‖ := by
    rw [show q - A.add d w - -w = (q - d) - (A.add d w - (d + w)) by ring]
    refine (norm_sub_le _ _).trans ?_
    norm_num at hqd h4 ⊢
    linarith
  have h6 := norm_sub_norm_le (q - A.add d w) (-w)
  have h7 := norm_sub_norm_le (-w) (q - A.add d w)
  rw [norm_sub_rev (-w)] at h7
  rw [norm_neg, sub_neg_eq_add] at h6 h7
  rw [sub_neg_eq_add] at h5
  obtain ⟨h8, h9⟩ := within_bounds (hu.trans (by norm_num)) h2
  norm_num at h5 h8 h9 hw ⊢
  constructor <;> linarith

/-- The initial product and the first factor. -/
theorem pz_init (hA : A.Within u) (hu : u ≤ 1 / 2 ^ 50) {z : ℝ} (hz : 0.99e-8 ≤ z) (hz1 : z ≤ 1.01e-8) (D : ℕ → ℂ) :
    0.97e-8 ≤ ‖(A.pzD3 z D 0).1‖ ∧ ‖(A.pzD3 z D 0).1‖ ≤ 1.03e-8 ∧
      0.98e8 ≤ ‖A.sub (A.div ((0 + 1 : ℕ) : ℂ) (A.guard z)) I‖ ∧ ‖A.sub (A.div ((0 + 1 : ℕ) : ℂ) (A.guard z)) I‖ ≤ 1.02e8 := by
  have hu0 := hA.nonneg
  have hu9 : u ≤ 1e-9 := hu.trans (by norm_num)
  have hz0 : 0 < z := lt_of_lt_of_le (by norm_num) hz
  have hzc : (z : ℂ) ≠ 0 := by exact_mod_cast hz0.ne'
  have hnz : ‖(z : ℂ)‖ = z := by rw [norm_real, Real.norm_of_nonneg hz0.le]
  have hg := guard_small_real hA (hu.trans (by norm_num)) (z := z) (le_trans (by norm_num) hz)
  have hy := within_bounds hu9 (hA.mul (2 * I) z)
  have e2 : ‖2 * I * (z : ℂ)‖ = 2 * z := by rw [norm_mul, norm_mul, norm_I, hnz]; norm_num
  rw [e2] at hy
  simp only [Arith.pzD3]
  generalize A.mul (2 * I) z = y at hy
  have hy1 : 1.97e-8 ≤ ‖y‖ := by norm_num at hy hz ⊢; linarith
  have hy2 : ‖y‖ ≤ 2.03e-8 := by norm_num at hy hz1 ⊢; linarith
  have hy3 : ‖y‖ ≤ 1 := hy2.trans (by norm_num)
  have h1 := Complex.norm_exp_sub_one_sub_id_le hy3
  have h2 : ‖y‖ ^ 2 ≤ 1e-12 := by
    have : ‖y‖ ^ 2 ≤ (2.03e-8) ^ 2 := by gcongr
    exact this.trans (by norm_num)
  have h3 : ‖exp y‖ ≤ 2 := by
    have h4 := norm_sub_norm_le (exp y) (1 + y)
    have h5 := norm_add_le (1 : ℂ) y
    rw [norm_one] at h5
    rw [show exp y - (1 + y) = exp y - 1 - y by ring] at h4
    norm_num at h2 hy2
    linarith
  have h4 : ‖A.exp y - exp y‖ ≤ 1e-14 := by
    refine (hA.exp y).trans ((mul_le_mul hu h3 (norm_nonneg _) (by positivity)).trans (by norm_num))
  have h5 : ‖1 - A.exp y + y‖ ≤ 1.1e-12 := by
    rw [show 1 - A.exp y + y = -(exp y - 1 - y) - (A.exp y - exp y) by ring]
    refine (norm_sub_le _ _).trans ?_
    rw [norm_neg]
    norm_num at h2 h4 ⊢
    linarith
  have h6 := norm_sub_norm_le (1 - A.exp y) (-y)
  have h7 := norm_sub_norm_le (-y) (1 - A.exp y)
  rw [norm_sub_rev (-y)] at h7
  rw [norm_neg, sub_neg_eq_add] at h6 h7
  have h8 := within_bounds hu9 (hA.sub 1 (A.exp y))
  have h9 := within_bounds hu9 (hA.mul (1 / 2) (A.sub 1 (A.exp y)))
  rw [norm_mul, show ‖(1 / 2 : ℂ)‖ = 1 / 2 by norm_num] at h9
  have k1 := within_bounds hu9 (hA.div ((0 + 1 : ℕ) : ℂ) z hzc)
  rw [norm_div, hnz, show ‖((0 + 1 : ℕ) : ℂ)‖ = 1 by norm_num] at k1
  rw [hg]
  generalize A.div ((0 + 1 : ℕ) : ℂ) z = q at *
  have k2 := within_bounds hu9 (hA.sub q I)
  have k3 := norm_sub_norm_le q I
  have k4 := norm_sub_le q I
  rw [norm_I] at k3 k4
  have k5 : 0.99e8 ≤ 1 / z := by rw [le_div_iff₀ hz0]; norm_num at hz1 ⊢; linarith
  have k6 : 1 / z ≤ 1.0102e8 := by rw [div_le_iff₀ hz0]; norm_num at hz ⊢; linarith
  norm_num at h5 h6 h7 h8 h9 hy1 hy2 k1 k2 k3 k4 k5 k6 ⊢
  refine ⟨?_, ?_, ?_, ?_⟩ <;> linarith

/-- The product `psi zeta` is zero or of the size of the cancelled difference. -/
theorem pz_size (hA : A.Within u) (hD : A.Double) (hu : u ≤ 1 / 2 ^ 50) {z : ℝ} (hz : 0.99e-8 ≤ z) (hz1 : z ≤ 1.01e-8)
    {n N : ℕ} (hn : 110 ≤ n) (hN : 8 ≤ N) : ∀ k < 83,
    ((A.pzD3 z (A.d1 n N z) (k + 1)).1 = 0 ∨
      8e-9 ≤ ‖(A.pzD3 z (A.d1 n N z) (k + 1)).1‖ ∧ ‖(A.pzD3 z (A.d1 n N z) (k + 1)).1‖ ≤ 1.7e-4) := by
  have hu9 : u ≤ 1e-9 := hu.trans (by norm_num)
  -- one multiplication by both factors
  have key : ∀ {p t1 t2 : ℂ}, p = 0 ∨ 0.95 ≤ ‖p‖ * ‖t2‖ ∧ ‖p‖ * ‖t2‖ ≤ 1.06 → ‖t1‖ ≤ 1.53e-4 → (t1 = 0 ∨ 1e-8 ≤ ‖t1‖) →
      (A.mul (A.mul p t1) t2 = 0 ∨ 8e-9 ≤ ‖A.mul (A.mul p t1) t2‖ ∧ ‖A.mul (A.mul p t1) t2‖ ≤ 1.7e-4) := by
    intro p t1 t2 hp h1 h2
    have hm := within_bounds hu9 (hA.mul p t1)
    have hm2 := within_bounds hu9 (hA.mul (A.mul p t1) t2)
    rw [norm_mul] at hm hm2
    rcases hp with rfl | ⟨ha, hb⟩
    · left
      rw [within_zero (hA.mul 0 t1) (zero_mul _)]
      exact within_zero (hA.mul 0 t2) (zero_mul _)
    · rcases h2 with rfl | h2
      · left
        rw [within_zero (hA.mul p 0) (mul_zero _)]
        exact within_zero (hA.mul 0 t2) (zero_mul _)
      · right
        have c1 := mul_le_mul_of_nonneg_right hm.1 (norm_nonneg t2)
        have c2 := mul_le_mul_of_nonneg_right hm.2 (norm_nonneg t2)
        have e : ‖p‖ * ‖t1‖ * ‖t2‖ = ‖p‖ * ‖t2‖ * ‖t1‖ := by ring
        have c3 : 0.95 * 1e-8 ≤ ‖p‖ * ‖t2‖ * ‖t1‖ := by gcongr
        have c4 : ‖p‖ * ‖t2‖ * ‖t1‖ ≤ 1.06 * 1.53e-4 := by gcongr
        rw [mul_assoc, e] at c1 c2
        norm_num at hm2 c1 c2 c3 c4 ⊢
        constructor <;> linarith
  intro k
  induction k with
  | zero =>
    intro _
    obtain ⟨-, -, -, t1b, t1g⟩ := t1_size hA hD hu hz hz1 hn hN (k := 0) (by norm_num)
    obtain ⟨i1, i2, i3, i4⟩ := pz_init hA hu hz hz1 (A.d1 n N z)
    simp only [zero_add] at *
    rw [Arith.pzD3]
    refine key (Or.inr ?_) t1b t1g
    have e : (A.pzD3 z (A.d1 n N z) 0).2 = I := rfl
    rw [e]
    have c1 : 0.97e-8 * 0.98e8 ≤ ‖(A.pzD3 z (A.d1 n N z) 0).1‖ * ‖A.sub (A.div ((1 : ℕ) : ℂ) (A.guard z)) I‖ := by gcongr
    have c2 : ‖(A.pzD3 z (A.d1 n N z) 0).1‖ * ‖A.sub (A.div ((1 : ℕ) : ℂ) (A.guard z)) I‖ ≤ 1.03e-8 * 1.02e8 := by gcongr
    norm_num at c1 c2 ⊢
    constructor <;> linarith
  | succ k ih =>
    intro hk
    have hp := ih (by omega)
    obtain ⟨-, db, qdb, t1b, t1g⟩ := t1_size hA hD hu hz hz1 hn hN (k := k + 1) (by omega)
    obtain ⟨w1, w2⟩ := w_size hA hu9 hp
    have t2 := t2_size hA hu db qdb w1
    have e : (A.pzD3 z (A.d1 n N z) (k + 1)).2 = A.add (A.d1 n N z (k + 1)) (A.div I (A.guard (A.pzD3 z (A.d1 n N z) (k + 1)).1)) := rfl
    rw [Arith.pzD3]
    refine key ?_ t1b t1g
    rcases w2 with w2 | ⟨w2, w3⟩
    · exact Or.inl w2
    · right
      rw [e]
      have c1 := mul_le_mul_of_nonneg_left t2.1 (norm_nonneg (A.pzD3 z (A.d1 n N z) (k + 1)).1)
      have c2 := mul_le_mul_of_nonneg_left t2.2 (norm_nonneg (A.pzD3 z (A.d1 n N z) (k + 1)).1)
      norm_num at c1 c2 w2 w3 ⊢
      constructor <;> linarith

/-- The computed `zeta` grows by a factor of `5.7e3` with every order. -/
theorem zeta_growth (hA : A.Within u) (hD : A.Double) (hu : u ≤ 1 / 2 ^ 50) {z : ℝ} (hz : 0.99e-8 ≤ z) (hz1 : z ≤ 1.01e-8)
    {n N : ℕ} (hn : 110 ≤ n) (hN : 8 ≤ N) {f0 : ℂ} (hf : 0.9 ≤ ‖f0‖) : ∀ k < 84,
    0.8e8 * 5.7e3 ^ k ≤ ‖A.prodSeq f0 z (A.d3 z (A.d1 n N z)) (k + 1)‖ := by
  have hu9 : u ≤ 1e-9 := hu.trans (by norm_num)
  intro k
  induction k with
  | zero =>
    intro _
    obtain ⟨-, -, i3, -⟩ := pz_init hA hu hz hz1 (A.d1 n N z)
    have e : A.d3 z (A.d1 n N z) 0 = I := rfl
    rw [Arith.prodSeq, Arith.prodSeq, e]
    have h := (within_bounds hu9 (hA.mul f0 (A.sub (A.div ((0 + 1 : ℕ) : ℂ) (A.guard z)) I))).1
    rw [norm_mul] at h
    have c : 0.9 * 0.98e8 ≤ ‖f0‖ * ‖A.sub (A.div ((0 + 1 : ℕ) : ℂ) (A.guard z)) I‖ := by gcongr
    norm_num at c h ⊢
    linarith
  | succ k ih =>
    intro hk
    have h0 := ih (by omega)
    have hp := pz_size hA hD hu hz hz1 hn hN k (by omega)
    obtain ⟨-, db, qdb, -, -⟩ := t1_size hA hD hu hz hz1 hn hN (k := k + 1) (by omega)
    obtain ⟨w1, -⟩ := w_size hA hu9 hp
    have t2 := (t2_size hA hu db qdb w1).1
    have e : A.d3 z (A.d1 n N z) (k + 1) = A.add (A.d1 n N z (k + 1)) (A.div I (A.guard (A.pzD3 z (A.d1 n N z) (k + 1)).1)) := rfl
    rw [Arith.prodSeq, e]
    have h := (within_bounds hu9 (hA.mul (A.prodSeq f0 z (A.d3 z (A.d1 n N z)) (k + 1))
      (A.sub (A.div ((k + 1 + 1 : ℕ) : ℂ) (A.guard z)) (A.add (A.d1 n N z (k + 1)) (A.div I (A.guard (A.pzD3 z (A.d1 n N z) (k + 1)).1)))))).1
    rw [norm_mul] at h
    have t3 : 5.75e3 ≤ ‖A.sub (A.div ((k + 1 + 1 : ℕ) : ℂ) (A.guard z)) (A.add (A.d1 n N z (k + 1)) (A.div I (A.guard (A.pzD3 z (A.d1 n N z) (k + 1)).1)))‖ := by
      refine le_trans ?_ t2
      norm_num at w1 ⊢
      linarith
    have c := mul_le_mul h0 t3 (by norm_num) (norm_nonneg _)
    refine le_trans ?_ h
    refine le_trans ?_ (mul_le_mul_of_nonneg_left c (by norm_num))
    rw [pow_succ]
    have : (0 : ℝ) ≤ 5.7e3 ^ k := by positivity
    generalize (5.7e3 : ℝ) ^ k = g at *
    norm_num
    linarith

end

end MieDiff
