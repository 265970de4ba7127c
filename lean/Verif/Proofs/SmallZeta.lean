import Verif.Proofs.CentreZeta

/-!
# The outgoing functions of the pena backend at small arguments

Sizes of the quantities of `pena_D3_n` and `pena_psi_zeta_n`, operation by operation, at arguments between `10⁻⁴` and `1/4`.
-/

namespace MieDiff

open Complex Spec

theorem psi_factor_bounds (k : ℕ) {z : ℂ} (hz : z ≠ 0) (h : ‖z‖ ≤ 1 / 4) :
    0.95 * (‖z‖ / (2 * k + 3)) ≤ ‖ricPsi (k + 1) z / ricPsi k z‖ ∧ ‖ricPsi (k + 1) z / ricPsi k z‖ ≤ 1.03 * (‖z‖ / (2 * k + 3)) := by
  have hk : (0 : ℝ) ≤ k := by positivity
  have hzp : 0 < ‖z‖ := norm_pos_iff.2 hz
  obtain ⟨h0, -⟩ := ricPsi_ratio k hz (by linarith)
  obtain ⟨h1, -⟩ := ricPsi_ratio (k + 1) hz (by push_cast; linarith)
  have hrec := ricPsi_rec k hz
  have e : ricPsi k z / ricPsi (k + 1) z = (2 * (k : ℂ) + 3) / z - ricPsi (k + 2) z / ricPsi (k + 1) z := by
    rw [hrec]; field_simp; ring
  have h3 := psi_factor_small (k + 1) hz (h.trans (by norm_num))
  have h4 : ‖(2 * (k : ℂ) + 3) / z‖ = (2 * k + 3) / ‖z‖ := norm_natCast_div (2 * (k : ℝ) + 3) (by positivity) _ _ (by push_cast; ring)
  have h5 := norm_sub_norm_le ((2 * (k : ℂ) + 3) / z) (ricPsi (k + 2) z / ricPsi (k + 1) z)
  have h6 := norm_sub_le ((2 * (k : ℂ) + 3) / z) (ricPsi (k + 2) z / ricPsi (k + 1) z)
  rw [← e, h4] at h5 h6
  have h7 : ‖z‖ ≤ 0.022 * ((2 * k + 3) / ‖z‖) := by
    rw [← mul_div_assoc, le_div_iff₀ hzp]
    norm_num
    nlinarith
  set s := (2 * (k : ℝ) + 3) / ‖z‖ with hs
  have hsp : 0 < s := by positivity
  have hinv : ‖z‖ / (2 * k + 3) = 1 / s := by rw [hs]; field_simp
  have e2 : ‖ricPsi (k + 1) z / ricPsi k z‖ = 1 / ‖ricPsi k z / ricPsi (k + 1) z‖ := by rw [norm_div, norm_div]; field_simp
  rw [hinv, e2]
  clear e2 hinv
  generalize ‖ricPsi k z / ricPsi (k + 1) z‖ = a at *
  have h8 : 0.978 * s ≤ a := by norm_num at h7 ⊢; linarith
  have h9 : a ≤ 1.022 * s := by norm_num at h7 ⊢; linarith
  have hp : 0 < a := lt_of_lt_of_le (by positivity) h8
  constructor
  · rw [mul_one_div, div_le_div_iff₀ hsp hp]
    norm_num at h9 ⊢
    linarith
  · rw [mul_one_div, div_le_div_iff₀ hp hsp]
    norm_num at h8 ⊢
    linarith

section
variable {A : Arith} {u : ℝ}

theorem guard_big (hA : A.Within u) (hu : u ≤ 1 / 100) {z : ℂ} (hz : 1e-29 ≤ ‖z‖) : A.guard z = z := by
  unfold Arith.guard
  have h1 := (abs_le.1 (hA.abs z)).1
  rw [if_neg]
  push Not
  unfold solverEps
  norm_num at hz hu ⊢
  nlinarith

/-- The cancelled difference of order `k`. -/
theorem t1_small (hA : A.Within u) (hu : u ≤ 1 / 2 ^ 50) {z : ℂ} (hz : 1e-4 ≤ ‖z‖) (hz1 : ‖z‖ ≤ 1 / 4)
    {n N k : ℕ} (hn : k + 7 ≤ n) (hN : 15 ≤ N) (hk : k ≤ 131) :
    let q := A.div ((k + 1 : ℕ) : ℂ) (A.guard z)
    let d := A.d1 n N z k
    let t := A.sub q d
    let c := ‖z‖ / (2 * k + 3)
    ‖d‖ ≤ 2 * ((k + 1) / ‖z‖) ∧ ‖q - d‖ ≤ 1.11 * c ∧ 0.87 * c ≤ ‖t‖ ∧ ‖t‖ ≤ 1.1 * c := by
  intro q d t c
  have hu0 := hA.nonneg
  have hu2 : u ≤ 1 / 100 := hu.trans (by norm_num)
  have hzp : 0 < ‖z‖ := lt_of_lt_of_le (by norm_num) hz
  have hz0 : z ≠ 0 := norm_pos_iff.1 hzp
  have hk0 : (0 : ℝ) ≤ k := by positivity
  have hk1 : (k : ℝ) ≤ 131 := by exact_mod_cast hk
  have hcp : 0 < c := by positivity
  have hsol : 2 * solverEps ≤ ‖z‖ := by refine le_trans ?_ hz; unfold solverEps; norm_num
  have hzk : 4 * ‖z‖ ≤ k + 1 := by linarith
  obtain ⟨-, hfac⟩ := C88_factor hA hu2 hsol (n := n) (N := N) (k := k) (by omega) (by omega) hzk
  obtain ⟨-, hlog⟩ := C78_log_derivative hA hu2 hsol (n := n) (N := N) (k := k) (by omega) (by omega) hzk
  have hnear := logD1_near k hz0 (by linarith)
  obtain ⟨b1, b2⟩ := psi_factor_bounds k hz0 hz1
  have htr : (1 / 6 : ℝ) ^ (n + N - k - 1) ≤ (1 / 6) ^ 21 := pow_le_pow_of_le_one (by norm_num) (by norm_num) (by omega)
  have hE : (20 * u + 2 * (1 / 6 : ℝ) ^ (n + N - k - 1)) * (((k : ℝ) + 1) / ‖z‖) ≤ 0.07 * c := by
    have h1 : 20 * u + 2 * (1 / 6 : ℝ) ^ (n + N - k - 1) ≤ 1.8e-14 := by
      have h2 : 20 * u + 2 * (1 / 6 : ℝ) ^ (n + N - k - 1) ≤ 20 * (1 / 2 ^ 50) + 2 * (1 / 6) ^ 21 := by gcongr
      exact h2.trans (by norm_num)
    have h2 : (20 * u + 2 * (1 / 6 : ℝ) ^ (n + N - k - 1)) * (((k : ℝ) + 1) / ‖z‖) ≤ 1.8e-14 * (((k : ℝ) + 1) / ‖z‖) := by gcongr
    refine h2.trans ?_
    show _ ≤ 0.07 * (‖z‖ / (2 * k + 3))
    rw [← mul_div_assoc, ← mul_div_assoc, div_le_div_iff₀ hzp (by positivity)]
    have h3 : ((k : ℝ) + 1) * (2 * k + 3) ≤ 132 * 265 := by gcongr <;> linarith
    have h4 : (1e-4 : ℝ) * 1e-4 ≤ ‖z‖ * ‖z‖ := by gcongr
    norm_num at h3 h4 ⊢
    nlinarith
  have ht : ‖t - ricPsi (k + 1) z / ricPsi k z‖ ≤ 0.07 * c := hfac.trans hE
  have h1 := norm_sub_norm_le t (ricPsi (k + 1) z / ricPsi k z)
  have h2 := norm_sub_norm_le (ricPsi (k + 1) z / ricPsi k z) t
  rw [norm_sub_rev (ricPsi (k + 1) z / ricPsi k z) t] at h2
  have b1' : 0.95 * c ≤ ‖ricPsi (k + 1) z / ricPsi k z‖ := b1
  have b2' : ‖ricPsi (k + 1) z / ricPsi k z‖ ≤ 1.03 * c := b2
  have ht1 : 0.87 * c ≤ ‖t‖ := by norm_num at ht h2 b1' ⊢; linarith
  have ht2 : ‖t‖ ≤ 1.1 * c := by norm_num at ht h1 b2' ⊢; linarith
  refine ⟨?_, ?_, ht1, ht2⟩
  · have hs : ‖((k : ℂ) + 1) / z‖ = ((k : ℝ) + 1) / ‖z‖ := norm_natCast_div ((k : ℝ) + 1) (by positivity) _ _ (by push_cast; ring)
    have g1 := norm_sub_norm_le (logD1 k z) (((k : ℂ) + 1) / z)
    have g2 := norm_sub_norm_le d (logD1 k z)
    rw [hs] at g1
    have g3 : 4 ≤ ((k : ℝ) + 1) / ‖z‖ := by rw [le_div_iff₀ hzp]; exact hzk
    have g4 : (14 * u + (1 / 6 : ℝ) ^ (n + N - k - 1)) * ‖logD1 k z‖ ≤ 0.01 * ‖logD1 k z‖ := by
      gcongr
      have g5 : 14 * u + (1 / 6 : ℝ) ^ (n + N - k - 1) ≤ 14 * (1 / 2 ^ 50) + (1 / 6) ^ 21 := by gcongr
      exact g5.trans (by norm_num)
    have g6 : ‖d - logD1 k z‖ ≤ 0.01 * ‖logD1 k z‖ := hlog.trans g4
    norm_num at g6 ⊢
    linarith
  · have hb := (within_bounds (hu.trans (by norm_num)) (hA.sub q d)).1
    have hb' : 0.999999 * ‖q - d‖ ≤ ‖t‖ := hb
    norm_num at hb' ht2 ⊢
    linarith

/-- The factor `n/z - D3`. -/
theorem t2_rel (hA : A.Within u) (hu : u ≤ 1 / 2 ^ 50) {q d w : ℂ} {S : ℝ} (hd : ‖d‖ ≤ S) (hS : S ≤ 1e6 * ‖w‖) (hqd : ‖q - d‖ ≤ 1.2e-2 * ‖w‖) :
    0.98 * ‖w‖ ≤ ‖A.sub q (A.add d w)‖ ∧ ‖A.sub q (A.add d w)‖ ≤ 1.02 * ‖w‖ := by
  have hu0 := hA.nonneg
  have h1 := hA.add d w
  have h2 := hA.sub q (A.add d w)
  have h3 : ‖d + w‖ ≤ (1e6 + 1) * ‖w‖ := (norm_add_le _ _).trans (by linarith)
  have hw := norm_nonneg w
  have h4 : ‖A.add d w - (d + w)‖ ≤ 1e-5 * ‖w‖ := by
    refine h1.trans ((mul_le_mul hu h3 (norm_nonneg _) (by positivity)).trans ?_)
    norm_num
    linarith
  have h5 : ‖q - A.add d w - -w‖ ≤ 1.3e-2 * ‖w‖ := by
    rw [show q - A.add d w - -w = (q - d) - (A.add d w - (d + w)) by ring]
    refine (norm_sub_le _ _).trans ?_
    norm_num at hqd h4 ⊢
    linarith
  have h6 := norm_sub_norm_le (q - A.add d w) (-w)
  have h7 := norm_sub_norm_le (-w) (q - A.add d w)
  rw [norm_sub_rev (-w)] at h7
  rw [norm_neg, sub_neg_eq_add] at h6 h7
  rw [sub_neg_eq_add] at h5
  obtain ⟨h8, h9⟩ := within_bounds (hu.trans (by norm_num)) h2
  norm_num at h5 h8 h9 ⊢
  constructor <;> linarith

/-- `1j / denom`. -/
theorem w_rel (hA : A.Within u) (hu : u ≤ 1e-9) {p : ℂ} (hp : 1e-20 ≤ ‖p‖) :
    0.99 ≤ ‖p‖ * ‖A.div I (A.guard p)‖ ∧ ‖p‖ * ‖A.div I (A.guard p)‖ ≤ 1.01 := by
  have hp0 : 0 < ‖p‖ := lt_of_lt_of_le (by norm_num) hp
  have hg : A.guard p = p := guard_big hA (hu.trans (by norm_num)) (le_trans (by norm_num) hp)
  have h4 := within_bounds hu (hA.div I p (norm_pos_iff.1 hp0))
  rw [norm_div, norm_I] at h4
  rw [hg]
  have hpp : ‖p‖ * (1 / ‖p‖) = 1 := by field_simp
  have c1 := mul_le_mul_of_nonneg_left h4.1 hp0.le
  have c2 := mul_le_mul_of_nonneg_left h4.2 hp0.le
  norm_num at c1 c2 hpp ⊢
  constructor <;> linarith

/-- The initial product and the first factor. -/
theorem pz_init_small (hA : A.Within u) (hu : u ≤ 1 / 2 ^ 50) {z : ℂ} (hz : 1e-4 ≤ ‖z‖) (hz1 : ‖z‖ ≤ 1 / 4) (D : ℕ → ℂ) :
    0.48 * ‖z‖ ≤ ‖(A.pzD3 z D 0).1‖ ∧ ‖(A.pzD3 z D 0).1‖ ≤ 1.52 * ‖z‖ ∧
      0.74 * (1 / ‖z‖) ≤ ‖A.sub (A.div ((0 + 1 : ℕ) : ℂ) (A.guard z)) I‖ ∧
      ‖A.sub (A.div ((0 + 1 : ℕ) : ℂ) (A.guard z)) I‖ ≤ 1.26 * (1 / ‖z‖) := by
  have hu0 := hA.nonneg
  have hu9 : u ≤ 1e-9 := hu.trans (by norm_num)
  have hzp : 0 < ‖z‖ := lt_of_lt_of_le (by norm_num) hz
  have hz0 : z ≠ 0 := norm_pos_iff.1 hzp
  have hg := guard_big hA (hu.trans (by norm_num)) (z := z) (le_trans (by norm_num) hz)
  have hy := within_bounds hu9 (hA.mul (2 * I) z)
  have e2 : ‖2 * I * z‖ = 2 * ‖z‖ := by rw [norm_mul, norm_mul, norm_I]; norm_num
  rw [e2] at hy
  simp only [Arith.pzD3]
  generalize A.mul (2 * I) z = y at hy
  have hy3 : ‖y‖ ≤ 0.501 := by norm_num at hy ⊢; linarith
  have h1 := Complex.norm_exp_sub_one_sub_id_le (hy3.trans (by norm_num))
  have h2 : ‖y‖ ^ 2 ≤ 0.501 * ‖y‖ := by rw [sq]; gcongr
  have h3 : ‖exp y‖ ≤ 2 := by
    have h4 := norm_sub_norm_le (exp y) (1 + y)
    have h5 := norm_add_le (1 : ℂ) y
    rw [norm_one] at h5
    rw [show exp y - (1 + y) = exp y - 1 - y by ring] at h4
    norm_num at h2 hy3
    linarith
  have h4 : ‖A.exp y - exp y‖ ≤ 1e-9 * ‖y‖ := by
    refine (hA.exp y).trans ((mul_le_mul hu h3 (norm_nonneg _) (by positivity)).trans ?_)
    norm_num at hy hz ⊢
    linarith
  have h5 : ‖1 - A.exp y + y‖ ≤ 0.502 * ‖y‖ := by
    rw [show 1 - A.exp y + y = -(exp y - 1 - y) - (A.exp y - exp y) by ring]
    refine (norm_sub_le _ _).trans ?_
    rw [norm_neg]
    norm_num at h2 h4 ⊢
    linarith [norm_nonneg y]
  have h6 := norm_sub_norm_le (1 - A.exp y) (-y)
  have h7 := norm_sub_norm_le (-y) (1 - A.exp y)
  rw [norm_sub_rev (-y)] at h7
  rw [norm_neg, sub_neg_eq_add] at h6 h7
  have h8 := within_bounds hu9 (hA.sub 1 (A.exp y))
  have h9 := within_bounds hu9 (hA.mul (1 / 2) (A.sub 1 (A.exp y)))
  rw [norm_mul, show ‖(1 / 2 : ℂ)‖ = 1 / 2 by norm_num] at h9
  have k1 := within_bounds hu9 (hA.div ((0 + 1 : ℕ) : ℂ) z hz0)
  rw [norm_div, show ‖((0 + 1 : ℕ) : ℂ)‖ = 1 by norm_num] at k1
  rw [hg]
  generalize A.div ((0 + 1 : ℕ) : ℂ) z = q at *
  have k2 := within_bounds hu9 (hA.sub q I)
  have k3 := norm_sub_norm_le q I
  have k4 := norm_sub_le q I
  rw [norm_I] at k3 k4
  have k5 : 4 ≤ 1 / ‖z‖ := by rw [le_div_iff₀ hzp]; linarith
  generalize 1 / ‖z‖ = r at *
  norm_num at h5 h6 h7 h8 h9 hy k1 k2 k3 k4 ⊢
  refine ⟨?_, ?_, ?_, ?_⟩ <;> linarith

/-- Upper constant of the product `psi zeta` at order `k + 1`. -/
noncomputable def pzC (k : ℕ) : ℝ := if k = 0 then 2.2 else 1.16

/-- The product `psi zeta` has the size `|z| / (2k+3)`. -/
theorem pz_small (hA : A.Within u) (hu : u ≤ 1 / 2 ^ 50) {z : ℂ} (hz : 1e-4 ≤ ‖z‖) (hz1 : ‖z‖ ≤ 1 / 4)
    {n N : ℕ} (hN : 15 ≤ N) : ∀ k : ℕ, k ≤ 131 → k + 7 ≤ n →
    0.3 * (‖z‖ / (2 * k + 3)) ≤ ‖(A.pzD3 z (A.d1 n N z) (k + 1)).1‖ ∧
      ‖(A.pzD3 z (A.d1 n N z) (k + 1)).1‖ ≤ pzC k * (‖z‖ / (2 * k + 3)) := by
  have hu9 : u ≤ 1e-9 := hu.trans (by norm_num)
  have hzp : 0 < ‖z‖ := lt_of_lt_of_le (by norm_num) hz
  -- one multiplication by both factors
  have key : ∀ {p t1 t2 : ℂ} {lo hi c : ℝ}, 0 ≤ c → 0 ≤ lo → lo ≤ ‖p‖ * ‖t2‖ → ‖p‖ * ‖t2‖ ≤ hi → 0.87 * c ≤ ‖t1‖ → ‖t1‖ ≤ 1.1 * c →
      0.86 * lo * c ≤ ‖A.mul (A.mul p t1) t2‖ ∧ ‖A.mul (A.mul p t1) t2‖ ≤ 1.101 * hi * c := by
    intro p t1 t2 lo hi c hc hlo ha hb h1 h2
    have hm := within_bounds hu9 (hA.mul p t1)
    have hm2 := within_bounds hu9 (hA.mul (A.mul p t1) t2)
    rw [norm_mul] at hm hm2
    have c1 := mul_le_mul_of_nonneg_right hm.1 (norm_nonneg t2)
    have c2 := mul_le_mul_of_nonneg_right hm.2 (norm_nonneg t2)
    have e : ‖p‖ * ‖t1‖ * ‖t2‖ = ‖p‖ * ‖t2‖ * ‖t1‖ := by ring
    have c3 : lo * (0.87 * c) ≤ ‖p‖ * ‖t2‖ * ‖t1‖ := by gcongr
    have c4 : ‖p‖ * ‖t2‖ * ‖t1‖ ≤ hi * (1.1 * c) := mul_le_mul hb h2 (norm_nonneg _) ((hlo.trans ha).trans hb)
    rw [mul_assoc, e] at c1 c2
    have c5 : 0 ≤ lo * c := mul_nonneg hlo hc
    have c6 : 0 ≤ hi * c := mul_nonneg ((hlo.trans ha).trans hb) hc
    norm_num at hm2 c1 c2 c3 c4 ⊢
    constructor <;> nlinarith
  intro k
  induction k with
  | zero =>
    intro _ hn
    obtain ⟨-, -, t1a, t1b⟩ := t1_small hA hu hz hz1 (n := n) (N := N) (k := 0) (by omega) hN (by norm_num)
    obtain ⟨i1, i2, i3, i4⟩ := pz_init_small hA hu hz hz1 (A.d1 n N z)
    have e : (A.pzD3 z (A.d1 n N z) 0).2 = I := rfl
    rw [Arith.pzD3, e]
    have hzz : ‖z‖ * (1 / ‖z‖) = 1 := by field_simp
    have c1 : 0.48 * ‖z‖ * (0.74 * (1 / ‖z‖)) ≤ ‖(A.pzD3 z (A.d1 n N z) 0).1‖ * ‖A.sub (A.div ((0 + 1 : ℕ) : ℂ) (A.guard z)) I‖ := by gcongr
    have c2 : ‖(A.pzD3 z (A.d1 n N z) 0).1‖ * ‖A.sub (A.div ((0 + 1 : ℕ) : ℂ) (A.guard z)) I‖ ≤ 1.52 * ‖z‖ * (1.26 * (1 / ‖z‖)) := by gcongr
    have c1' : 0.355 ≤ ‖(A.pzD3 z (A.d1 n N z) 0).1‖ * ‖A.sub (A.div ((0 + 1 : ℕ) : ℂ) (A.guard z)) I‖ := by
      refine le_trans ?_ c1
      rw [show 0.48 * ‖z‖ * (0.74 * (1 / ‖z‖)) = 0.48 * 0.74 * (‖z‖ * (1 / ‖z‖)) by ring, hzz]; norm_num
    have c2' : ‖(A.pzD3 z (A.d1 n N z) 0).1‖ * ‖A.sub (A.div ((0 + 1 : ℕ) : ℂ) (A.guard z)) I‖ ≤ 1.92 := by
      refine c2.trans ?_
      rw [show 1.52 * ‖z‖ * (1.26 * (1 / ‖z‖)) = 1.52 * 1.26 * (‖z‖ * (1 / ‖z‖)) by ring, hzz]; norm_num
    have := key (c := ‖z‖ / (2 * ((0 : ℕ) : ℝ) + 3)) (by positivity) (by norm_num) c1' c2' t1a t1b
    have hc : 0 ≤ ‖z‖ / (2 * ((0 : ℕ) : ℝ) + 3) := by positivity
    rw [pzC, if_pos rfl]
    generalize ‖z‖ / (2 * ((0 : ℕ) : ℝ) + 3) = c at *
    norm_num at this ⊢
    constructor <;> linarith
  | succ k ih =>
    intro hk hn
    obtain ⟨p1, p2⟩ := ih (by omega) (by omega)
    obtain ⟨db, qdb, t1a, t1b⟩ := t1_small hA hu hz hz1 (n := n) (N := N) (k := k + 1) (by omega) hN (by omega)
    have hk0 : (0 : ℝ) ≤ k := by positivity
    have hk1 : (k : ℝ) + 1 ≤ 131 := by exact_mod_cast hk
    have hpl : 1e-20 ≤ ‖(A.pzD3 z (A.d1 n N z) (k + 1)).1‖ := by
      refine le_trans ?_ p1
      rw [← mul_div_assoc, le_div_iff₀ (by positivity)]
      norm_num at hz ⊢
      linarith
    obtain ⟨w1, w2⟩ := w_rel hA hu9 hpl
    have hpC : pzC k ≤ 2.2 := by unfold pzC; split_ifs <;> norm_num
    have hp3 : ‖(A.pzD3 z (A.d1 n N z) (k + 1)).1‖ ≤ 2.2 * (‖z‖ / (2 * k + 3)) := p2.trans (by gcongr)
    have hpp : 0 < ‖(A.pzD3 z (A.d1 n N z) (k + 1)).1‖ := lt_of_lt_of_le (by norm_num) hpl
    have hw : 0.45 * ((2 * k + 3) / ‖z‖) ≤ ‖A.div I (A.guard (A.pzD3 z (A.d1 n N z) (k + 1)).1)‖ := by
      have h1 : 0.99 ≤ 2.2 * (‖z‖ / (2 * k + 3)) * ‖A.div I (A.guard (A.pzD3 z (A.d1 n N z) (k + 1)).1)‖ := w1.trans (by gcongr)
      rw [← mul_div_assoc, div_mul_eq_mul_div, le_div_iff₀ (by positivity)] at h1
      rw [← mul_div_assoc, div_le_iff₀ hzp]
      norm_num at h1 ⊢
      linarith
    have t2 := t2_rel hA hu db (w := A.div I (A.guard (A.pzD3 z (A.d1 n N z) (k + 1)).1)) (by
        have h1 : 2 * ((((k + 1 : ℕ) : ℝ) + 1) / ‖z‖) ≤ 10 * (0.45 * ((2 * k + 3) / ‖z‖)) := by
          rw [← mul_div_assoc, ← mul_div_assoc, ← mul_div_assoc]
          refine div_le_div_of_nonneg_right ?_ hzp.le
          push_cast
          norm_num
          linarith
        have h2 := norm_nonneg (A.div I (A.guard (A.pzD3 z (A.d1 n N z) (k + 1)).1))
        norm_num at hw h1 ⊢
        linarith) (by
        refine qdb.trans ?_
        have h1 : ‖z‖ / (2 * ((k + 1 : ℕ) : ℝ) + 3) ≤ 1 / 4 / 5 := by
          refine div_le_div₀ (by norm_num) hz1 (by norm_num) (by push_cast; linarith)
        have h2 : (12 : ℝ) ≤ (2 * k + 3) / ‖z‖ := by rw [le_div_iff₀ hzp]; linarith
        generalize ‖A.div I (A.guard (A.pzD3 z (A.d1 n N z) (k + 1)).1)‖ = W at *
        generalize (2 * (k : ℝ) + 3) / ‖z‖ = s at *
        generalize ‖z‖ / (2 * ((k + 1 : ℕ) : ℝ) + 3) = c at *
        norm_num at h1 hw ⊢
        linarith)
    have e : (A.pzD3 z (A.d1 n N z) (k + 1)).2 = A.add (A.d1 n N z (k + 1)) (A.div I (A.guard (A.pzD3 z (A.d1 n N z) (k + 1)).1)) := rfl
    rw [Arith.pzD3, e]
    have c1 := mul_le_mul_of_nonneg_left t2.1 hpp.le
    have c2 := mul_le_mul_of_nonneg_left t2.2 hpp.le
    have l1 : 0.95 ≤ ‖(A.pzD3 z (A.d1 n N z) (k + 1)).1‖ * ‖A.sub (A.div ((k + 1 + 1 : ℕ) : ℂ) (A.guard z)) (A.add (A.d1 n N z (k + 1)) (A.div I (A.guard (A.pzD3 z (A.d1 n N z) (k + 1)).1)))‖ := by
      norm_num at c1 w1 ⊢; linarith
    have l2 : ‖(A.pzD3 z (A.d1 n N z) (k + 1)).1‖ * ‖A.sub (A.div ((k + 1 + 1 : ℕ) : ℂ) (A.guard z)) (A.add (A.d1 n N z (k + 1)) (A.div I (A.guard (A.pzD3 z (A.d1 n N z) (k + 1)).1)))‖ ≤ 1.0303 := by
      norm_num at c2 w2 ⊢; linarith
    have := key (c := ‖z‖ / (2 * ((k + 1 : ℕ) : ℝ) + 3)) (by positivity) (by norm_num) l1 l2 t1a t1b
    have hc : 0 ≤ ‖z‖ / (2 * ((k + 1 : ℕ) : ℝ) + 3) := by positivity
    rw [pzC, if_neg (by omega)]
    generalize ‖z‖ / (2 * ((k + 1 : ℕ) : ℝ) + 3) = c at *
    norm_num at this ⊢
    constructor <;> linarith

theorem zeta_small_start (hA : A.Within u) (hu : u ≤ 1 / 2 ^ 50) {z : ℂ} (hz : 1e-4 ≤ ‖z‖) (hz1 : ‖z‖ ≤ 1 / 4) (D : ℕ → ℂ)
    {f0 : ℂ} (hf : 0.7 ≤ ‖f0‖) : 0.5 * (1 / ‖z‖) ≤ ‖A.prodSeq f0 z (A.d3 z D) 1‖ := by
  have hzp : 0 < ‖z‖ := lt_of_lt_of_le (by norm_num) hz
  obtain ⟨-, -, i3, -⟩ := pz_init_small hA hu hz hz1 D
  have e : A.d3 z D 0 = I := rfl
  rw [Arith.prodSeq, Arith.prodSeq, e]
  have h := (within_bounds (hu.trans (by norm_num)) (hA.mul f0 (A.sub (A.div ((0 + 1 : ℕ) : ℂ) (A.guard z)) I))).1
  rw [norm_mul] at h
  have c : 0.7 * (0.74 * (1 / ‖z‖)) ≤ ‖f0‖ * ‖A.sub (A.div ((0 + 1 : ℕ) : ℂ) (A.guard z)) I‖ := by gcongr
  have hr : 0 < 1 / ‖z‖ := by positivity
  generalize 1 / ‖z‖ = r at *
  norm_num at c h ⊢
  linarith

theorem zeta_small_step (hA : A.Within u) (hu : u ≤ 1 / 2 ^ 50) {z : ℂ} (hz : 1e-4 ≤ ‖z‖) (hz1 : ‖z‖ ≤ 1 / 4)
    {n N k : ℕ} (hN : 15 ≤ N) (hk : k ≤ 130) (hn : k + 8 ≤ n) (f0 : ℂ) :
    0.97 / pzC k * ((2 * k + 3) / ‖z‖) * ‖A.prodSeq f0 z (A.d3 z (A.d1 n N z)) (k + 1)‖ ≤
      ‖A.prodSeq f0 z (A.d3 z (A.d1 n N z)) (k + 2)‖ := by
  have hu9 : u ≤ 1e-9 := hu.trans (by norm_num)
  have hzp : 0 < ‖z‖ := lt_of_lt_of_le (by norm_num) hz
  obtain ⟨p1, p2⟩ := pz_small hA hu hz hz1 (n := n) hN k (by omega) (by omega)
  obtain ⟨db, qdb, -, -⟩ := t1_small hA hu hz hz1 (n := n) (N := N) (k := k + 1) (by omega) hN (by omega)
  have hk0 : (0 : ℝ) ≤ k := by positivity
  have hk1 : (k : ℝ) ≤ 130 := by exact_mod_cast hk
  have hpl : 1e-20 ≤ ‖(A.pzD3 z (A.d1 n N z) (k + 1)).1‖ := by
    refine le_trans ?_ p1
    rw [← mul_div_assoc, le_div_iff₀ (by positivity)]
    norm_num at hz ⊢
    linarith
  obtain ⟨w1, -⟩ := w_rel hA hu9 hpl
  have hpC : pzC k ≤ 2.2 := by unfold pzC; split_ifs <;> norm_num
  have hpC0 : 0 < pzC k := by unfold pzC; split_ifs <;> norm_num
  have e : A.d3 z (A.d1 n N z) (k + 1) = A.add (A.d1 n N z (k + 1)) (A.div I (A.guard (A.pzD3 z (A.d1 n N z) (k + 1)).1)) := rfl
  have hW : 0.99 / pzC k * ((2 * k + 3) / ‖z‖) ≤ ‖A.div I (A.guard (A.pzD3 z (A.d1 n N z) (k + 1)).1)‖ := by
    have h1 : 0.99 ≤ pzC k * (‖z‖ / (2 * k + 3)) * ‖A.div I (A.guard (A.pzD3 z (A.d1 n N z) (k + 1)).1)‖ := w1.trans (by gcongr)
    rw [← mul_div_assoc, div_mul_eq_mul_div, le_div_iff₀ (by positivity)] at h1
    rw [← mul_div_assoc, div_mul_eq_mul_div, div_le_iff₀ hzp, div_le_iff₀ hpC0]
    norm_num at h1 ⊢
    linarith
  have hw : 0.45 * ((2 * k + 3) / ‖z‖) ≤ ‖A.div I (A.guard (A.pzD3 z (A.d1 n N z) (k + 1)).1)‖ := by
    refine le_trans ?_ hW
    gcongr
    rw [le_div_iff₀ hpC0]
    norm_num at hpC ⊢
    linarith
  have t2 := t2_rel hA hu db (w := A.div I (A.guard (A.pzD3 z (A.d1 n N z) (k + 1)).1)) (by
      have h1 : 2 * ((((k + 1 : ℕ) : ℝ) + 1) / ‖z‖) ≤ 10 * (0.45 * ((2 * k + 3) / ‖z‖)) := by
        rw [← mul_div_assoc, ← mul_div_assoc, ← mul_div_assoc]
        refine div_le_div_of_nonneg_right ?_ hzp.le
        push_cast
        norm_num
        linarith
      have h2 := norm_nonneg (A.div I (A.guard (A.pzD3 z (A.d1 n N z) (k + 1)).1))
      norm_num at hw h1 ⊢
      linarith) (by
      refine qdb.trans ?_
      have h1 : ‖z‖ / (2 * ((k + 1 : ℕ) : ℝ) + 3) ≤ 1 / 4 / 5 := by
        refine div_le_div₀ (by norm_num) hz1 (by norm_num) (by push_cast; linarith)
      have h2 : (12 : ℝ) ≤ (2 * k + 3) / ‖z‖ := by rw [le_div_iff₀ hzp]; linarith
      clear hW
      generalize ‖A.div I (A.guard (A.pzD3 z (A.d1 n N z) (k + 1)).1)‖ = W at *
      generalize (2 * (k : ℝ) + 3) / ‖z‖ = s at *
      generalize ‖z‖ / (2 * ((k + 1 : ℕ) : ℝ) + 3) = c at *
      norm_num at h1 hw ⊢
      linarith)
  have e2 : A.prodSeq f0 z (A.d3 z (A.d1 n N z)) (k + 2) = A.mul (A.prodSeq f0 z (A.d3 z (A.d1 n N z)) (k + 1))
    (A.sub (A.div ((k + 1 + 1 : ℕ) : ℂ) (A.guard z)) (A.d3 z (A.d1 n N z) (k + 1))) := rfl
  rw [e2, e]
  have h := (within_bounds hu9 (hA.mul (A.prodSeq f0 z (A.d3 z (A.d1 n N z)) (k + 1))
    (A.sub (A.div ((k + 1 + 1 : ℕ) : ℂ) (A.guard z)) (A.add (A.d1 n N z (k + 1)) (A.div I (A.guard (A.pzD3 z (A.d1 n N z) (k + 1)).1)))))).1
  rw [norm_mul] at h
  refine le_trans ?_ h
  have t3 := t2.1
  have hv := norm_nonneg (A.prodSeq f0 z (A.d3 z (A.d1 n N z)) (k + 1))
  have e3 : 0.97 / pzC k * ((2 * k + 3) / ‖z‖) = 0.97 / 0.99 * (0.99 / pzC k * ((2 * k + 3) / ‖z‖)) := by ring
  rw [e3]
  have hb : 0 ≤ 0.99 / pzC k * ((2 * k + 3) / ‖z‖) := by positivity
  generalize 0.99 / pzC k * ((2 * k + 3) / ‖z‖) = b at *
  have c : 0.98 * b ≤ ‖A.sub (A.div ((k + 1 + 1 : ℕ) : ℂ) (A.guard z)) (A.add (A.d1 n N z (k + 1)) (A.div I (A.guard (A.pzD3 z (A.d1 n N z) (k + 1)).1)))‖ :=
    (mul_le_mul_of_nonneg_left hW (by norm_num)).trans t3
  have c2 := mul_le_mul_of_nonneg_left c hv
  have c3 : 0 ≤ b * ‖A.prodSeq f0 z (A.d3 z (A.d1 n N z)) (k + 1)‖ := mul_nonneg hb hv
  norm_num at c2 ⊢
  linarith

/-- The growth of the outgoing functions: `|zeta_m| ≥ 0.2 (0.8/|z|)^m (2m-1)!!`. -/
theorem zeta_small_growth (hA : A.Within u) (hu : u ≤ 1 / 2 ^ 50) {z : ℂ} (hz : 1e-4 ≤ ‖z‖) (hz1 : ‖z‖ ≤ 1 / 4)
    {n N : ℕ} (hN : 15 ≤ N) {f0 : ℂ} (hf : 0.7 ≤ ‖f0‖) : ∀ k : ℕ, k ≤ 130 → k + 8 ≤ n →
    0.2 * (0.8 / ‖z‖) ^ (k + 2) * ∏ j ∈ Finset.range (k + 2), (2 * (j : ℝ) + 1) ≤ ‖A.prodSeq f0 z (A.d3 z (A.d1 n N z)) (k + 2)‖ := by
  have hzp : 0 < ‖z‖ := lt_of_lt_of_le (by norm_num) hz
  intro k
  induction k with
  | zero =>
    intro _ hn
    have h1 := zeta_small_start hA hu hz hz1 (A.d1 n N z) hf
    have h2 := zeta_small_step hA hu hz hz1 (k := 0) hN (by norm_num) (by omega) f0
    refine le_trans ?_ h2
    rw [pzC, if_pos rfl]
    refine le_trans ?_ (mul_le_mul_of_nonneg_left h1 (by positivity))
    simp only [Finset.prod_range_succ, Finset.prod_range_zero]
    have hr : 0 < 1 / ‖z‖ := by positivity
    rw [div_eq_mul_one_div 0.8, div_eq_mul_one_div (2 * ((0 : ℕ) : ℝ) + 3)]
    generalize 1 / ‖z‖ = r at *
    norm_num
    nlinarith [sq_nonneg r]
  | succ k ih =>
    intro hk hn
    have h1 := ih (by omega) (by omega)
    have h2 := zeta_small_step hA hu hz hz1 (k := k + 1) hN (by omega) (by omega) f0
    refine le_trans ?_ h2
    rw [pzC, if_neg (by omega)]
    refine le_trans ?_ (mul_le_mul_of_nonneg_left h1 (by positivity))
    rw [Finset.prod_range_succ, pow_succ]
    have hP : 0 ≤ ∏ j ∈ Finset.range (k + 2), (2 * (j : ℝ) + 1) := Finset.prod_nonneg fun j _ => by positivity
    have hr : 0 < 1 / ‖z‖ := by positivity
    have hq : 0 ≤ (0.8 / ‖z‖) ^ (k + 2) := by positivity
    generalize ∏ j ∈ Finset.range (k + 2), (2 * (j : ℝ) + 1) = P at *
    generalize (0.8 / ‖z‖) ^ (k + 2) = Q at *
    rw [div_eq_mul_one_div 0.8 ‖z‖, div_eq_mul_one_div (2 * ((k + 1 : ℕ) : ℝ) + 3)]
    generalize 1 / ‖z‖ = r at *
    push_cast
    have hX : 0 ≤ Q * P * r * (2 * (k : ℝ) + 5) := by positivity
    norm_num
    nlinarith

end

end MieDiff
