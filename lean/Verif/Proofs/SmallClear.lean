import Verif.Proofs.TailBound
import Verif.Proofs.Solver
import Mathlib.Analysis.Real.Pi.Bounds
import Mathlib.Analysis.Complex.Trigonometric

/-!
# No guard of the solver fires for a small sphere, at any order
-/

namespace MieDiff

open Complex Spec Filter Topology

theorem chiR_zero {x : ℝ} (hx : 0 < x) : chiR 0 x = Real.cos x := by
  have hz : (x : ℂ) ≠ 0 := by exact_mod_cast hx.ne'
  unfold chiR ricChi
  rw [sphY_zero]
  have : -(x : ℂ) * (-cos (x : ℂ) / x) = ((Real.cos x : ℝ) : ℂ) := by push_cast; field_simp
  rw [this, ofReal_re]

theorem chiR_one {x : ℝ} (hx : 0 < x) : chiR 1 x = Real.cos x / x + Real.sin x := by
  have hz : (x : ℂ) ≠ 0 := by exact_mod_cast hx.ne'
  unfold chiR ricChi
  rw [sphY_one hz]
  have : -(x : ℂ) * (-(cos (x : ℂ) / x ^ 2 + sin (x : ℂ) / x)) = ((Real.cos x / x + Real.sin x : ℝ) : ℂ) := by
    push_cast; field_simp
  rw [this, ofReal_re]

theorem small_barrier {y : ℝ} (h : y ^ 2 ≤ 2) {k : ℕ} (hk : 1 ≤ k) : y ^ 2 ≤ (k : ℝ) * (k + 1) :=
  barrier_mono (n := 1) (by norm_num; linarith) hk

theorem psiR_one_le {y : ℝ} (hy : 0 < y) (h : y ^ 2 ≤ 2) : |psiR 1 y| ≤ 2 / 3 := by
  have hc := psiR_closed hy (small_barrier h le_rfl)
  have e : (((2 * 1 + 1).doubleFactorial : ℕ) : ℝ) = 3 := by norm_num [Nat.doubleFactorial]
  rw [e] at hc
  have h1 : Real.exp (-(y ^ 2 / (2 * ((1 : ℕ) : ℝ) + 3))) ≤ 1 := Real.exp_le_one_iff.2 (neg_nonpos.2 (by positivity))
  have h2 : (y ^ (1 + 1) / (3 : ℝ)) ^ 2 ≤ (2 / 3) ^ 2 := by
    refine pow_le_pow_left₀ (by positivity) ?_ 2
    have : y ^ (1 + 1) = y ^ 2 := rfl
    rw [this]; linarith
  have h3 : psiR 1 y ^ 2 ≤ (2 / 3) ^ 2 := hc.trans ((mul_le_of_le_one_right (by positivity) h1).trans h2)
  exact abs_le_of_sq_le_sq h3 (by norm_num)

/-- The product of the two solutions at small arguments. -/
theorem psi_chi_small {y : ℝ} (hy : 0 < y) (h : y ^ 2 ≤ 2) {k : ℕ} (hk : 1 ≤ k) :
    y / (9 * k) ≤ |psiR k y * chiR k y| := by
  obtain ⟨j, rfl⟩ : ∃ j, k = j + 1 := ⟨k - 1, by omega⟩
  rcases Nat.eq_zero_or_pos j with rfl | hj
  · have s := (sizes hy (small_barrier h le_rfl)).prod
    have c3 : chiR 2 y = 3 / y * chiR 1 y - chiR 0 y := by
      have h1 := dchiR_lower 0 hy
      unfold dchiR at h1
      push_cast at h1
      have : chiR 2 y = chiR (0 + 1 + 1) y := rfl
      rw [this]
      have e : (3 : ℝ) / y * chiR 1 y = ((0 + 1 + 1) / y + (0 + 1) / y) * chiR 1 y := by ring
      rw [e]
      linarith
    have p1 := psiR_one_le hy h
    have c0 : |chiR 0 y| ≤ 1 := by rw [chiR_zero hy]; exact Real.abs_cos_le_one y
    rw [show (1 : ℕ) + 1 = 2 from rfl, c3] at s
    have e : psiR 1 y * (3 / y * chiR 1 y - chiR 0 y) = 3 / y * (psiR 1 y * chiR 1 y) - psiR 1 y * chiR 0 y := by ring
    rw [e] at s
    have b1 : -(psiR 1 y * chiR 0 y) ≤ 2 / 3 := by
      refine (neg_le_abs _).trans ?_
      rw [abs_mul]
      calc _ ≤ 2 / 3 * 1 := mul_le_mul p1 c0 (abs_nonneg _) (by norm_num)
        _ = _ := by norm_num
    have b2 : (1 : ℝ) / 3 ≤ 3 / y * |psiR 1 y * chiR 1 y| := by
      have := mul_le_mul_of_nonneg_left (le_abs_self (psiR 1 y * chiR 1 y)) (by positivity : 0 ≤ 3 / y)
      linarith
    have : y / 9 ≤ |psiR 1 y * chiR 1 y| := by
      rw [div_mul_eq_mul_div, le_div_iff₀ hy] at b2
      linarith
    simpa using this
  · have hb := small_barrier h hj
    have s := sizes hy hb
    have hn := psiR_next hy hb
    have hs := s.psi_sign
    have e1 : y / (2 * j + 3) * |psiR j y| ≤ |psiR (j + 1) y| := by
      rcases (abs_nonneg (psiR j y)).eq_or_lt with h0 | h0
      · rw [← h0]; simp
      · have : |psiR j y| * (y / (2 * j + 3) * |psiR j y|) ≤ |psiR j y| * |psiR (j + 1) y| := by
          rw [← abs_mul, abs_of_nonneg hs]
          calc _ = y / (2 * j + 3) * (|psiR j y| * |psiR j y|) := by ring
            _ = y / (2 * j + 3) * psiR j y ^ 2 := by rw [abs_mul_abs_self]; ring
            _ ≤ _ := hn
        exact le_of_mul_le_mul_left this h0
    have e2 : 1 ≤ |psiR j y| * |chiR (j + 1) y| := by
      rw [← abs_mul]; exact s.prod.trans (le_abs_self _)
    have hjR : (1 : ℝ) ≤ j := by exact_mod_cast hj
    rw [abs_mul]
    calc y / (9 * ((j + 1 : ℕ) : ℝ)) ≤ y / (2 * j + 3) * 1 := by
          rw [mul_one]; push_cast
          exact div_le_div_of_nonneg_left hy.le (by positivity) (by linarith)
      _ ≤ y / (2 * j + 3) * (|psiR j y| * |chiR (j + 1) y|) := mul_le_mul_of_nonneg_left e2 (by positivity)
      _ = (y / (2 * j + 3) * |psiR j y|) * |chiR (j + 1) y| := by ring
      _ ≤ _ := mul_le_mul_of_nonneg_right e1 (abs_nonneg _)

/-- No guard fires in the kernel. -/
theorem small_kernelOK {y : ℝ} (hy : 0 < y) (h : y ^ 2 ≤ 2) {n : ℕ} (hn : 9 * n * 1e-30 < y) (hn1 : 1 ≤ n) :
    KernelOK n (y : ℂ) solverEps ∧ KernelClear idealFn n (y : ℂ) := by
  have hn1R : (1 : ℝ) ≤ n := by exact_mod_cast hn1
  have harg : solverEps < ‖(y : ℂ)‖ := by
    rw [norm_real, Real.norm_of_nonneg hy.le]; unfold solverEps
    refine lt_of_le_of_lt ?_ hn
    norm_num; linarith
  have hne : ∀ k, 1 ≤ k → psiR k y * chiR k y ≠ 0 := by
    intro k hk h0
    have := psi_chi_small hy h hk
    rw [h0, abs_zero] at this
    have hkR : (1 : ℝ) ≤ k := by exact_mod_cast hk
    have : 0 < y / (9 * k) := by positivity
    linarith
  have hzeta : ∀ k, |chiR k y| ≤ ‖ricZeta k (y : ℂ)‖ := by
    intro k
    have := abs_im_le_norm (ricZeta k (y : ℂ))
    rw [zeta_split, psiR_eq k hy, chiR_eq k hy] at this ⊢
    simpa using this
  have hprod : ∀ k, 1 ≤ k → k ≤ n → solverEps < ‖ricPsi k (y : ℂ) * ricZeta k (y : ℂ)‖ := by
    intro k h1 h2
    have h1R : (1 : ℝ) ≤ k := by exact_mod_cast h1
    have h2R : (k : ℝ) ≤ n := by exact_mod_cast h2
    calc solverEps < y / (9 * n) := by unfold solverEps; rw [lt_div_iff₀ (by positivity)]; linarith
      _ ≤ y / (9 * k) := div_le_div_of_nonneg_left hy.le (by positivity) (by linarith)
      _ ≤ |psiR k y * chiR k y| := psi_chi_small hy h h1
      _ ≤ _ := by
        rw [abs_mul, norm_mul, psiR_eq k hy, norm_real, Real.norm_eq_abs]
        exact mul_le_mul_of_nonneg_left (hzeta k) (abs_nonneg _)
  have ok : KernelOK n (y : ℂ) solverEps := by
    refine ⟨solverEps_pos, harg.le, fun k hk => ?_, fun k hk => ?_, fun k h1 h2 => (hprod k h1 h2).le⟩
    · rcases Nat.eq_zero_or_pos k with rfl | hk
      · have hz : (y : ℂ) ≠ 0 := by exact_mod_cast hy.ne'
        have hs : 0 < Real.sin y := Real.sin_pos_of_pos_of_lt_pi hy (by nlinarith [Real.pi_gt_three])
        rw [ricPsi_zero _ hz, ← ofReal_sin]
        exact_mod_cast hs.ne'
      · rw [psiR_eq k hy]; exact_mod_cast left_ne_zero_of_mul (hne k hk)
    · rcases Nat.eq_zero_or_pos k with rfl | hk
      · have hz : (y : ℂ) ≠ 0 := by exact_mod_cast hy.ne'
        rw [ricZeta_zero_exp _ hz]
        simp [exp_ne_zero]
      · intro h0
        have := hzeta k
        rw [h0, norm_zero] at this
        exact right_ne_zero_of_mul (hne k hk) (abs_nonpos_iff.1 this)
  refine ⟨ok, harg, fun k h1 h2 => ?_⟩
  have := pzD3_exact ok k h2
  show solverEps < ‖(pzD3 (y : ℂ) y solverEps (fun i => logD1 i y) k).1‖
  rw [this]
  exact hprod k h1 h2

/-- The derivative of the singular solution at size parameters up to 1. -/
theorem dchi_small {x : ℝ} (hx : 0 < x) (h : x ≤ 1) {k : ℕ} (hk : 1 ≤ k) : 1 / 2 ≤ |dchiR k x| := by
  have h2 : x ^ 2 ≤ 2 := by nlinarith
  obtain ⟨j, rfl⟩ : ∃ j, k = j + 1 := ⟨k - 1, by omega⟩
  rcases Nat.eq_zero_or_pos j with rfl | hj
  · rw [dchiR_lower 0 hx, chiR_zero hx, zero_add, chiR_one hx]
    have hs : 3 / 4 * x ≤ Real.sin x := by
      have := Real.sin_gt_sub_cube hx
      nlinarith [mul_pos hx hx]
    have hc : 0 ≤ Real.cos x := Real.cos_nonneg_of_neg_pi_div_two_le_of_le (by linarith [Real.pi_gt_three]) (by linarith [Real.pi_gt_three])
    push_cast
    rw [abs_sub_comm]
    refine le_trans ?_ (le_abs_self _)
    have e : ((0 : ℝ) + 1) / x * (Real.cos x / x + Real.sin x) - Real.cos x =
        Real.cos x * (1 / x ^ 2 - 1) + Real.sin x / x := by field_simp; ring
    rw [e]
    have i1 : 0 ≤ Real.cos x * (1 / x ^ 2 - 1) := by
      refine mul_nonneg hc (sub_nonneg.2 ?_)
      rw [le_div_iff₀ (by positivity)]; nlinarith
    have i2 : 1 / 2 ≤ Real.sin x / x := by rw [le_div_iff₀ hx]; linarith
    linarith
  · have hb := small_barrier h2 hj
    have s := sizes hx hb
    have hjR : (1 : ℝ) ≤ j := by exact_mod_cast hj
    have p0 : |psiR j x| ≤ 1 := by
      obtain ⟨i, rfl⟩ := Nat.exists_eq_add_of_le hj
      have hd := psiR_decay hx (small_barrier h2 le_rfl) i
      have hle : x / (((1 : ℕ) : ℝ) + 1) ≤ 1 := by rw [div_le_one (by positivity)]; norm_num; linarith
      have hp : (x / (((1 : ℕ) : ℝ) + 1)) ^ i ≤ 1 := pow_le_one₀ (by positivity) hle
      have := psiR_one_le hx h2
      exact hd.trans ((mul_le_mul hp this (abs_nonneg _) one_pos.le).trans (by norm_num))
    have c1 : 1 ≤ |chiR (j + 1) x| := by
      have e2 : 1 ≤ |psiR j x| * |chiR (j + 1) x| := by
        rw [← abs_mul]; exact s.prod.trans (le_abs_self _)
      nlinarith [abs_nonneg (chiR (j + 1) x)]
    rw [dchiR_lower j hx, abs_sub_comm]
    have t := abs_sub_abs_le_abs_sub (((j : ℝ) + 1) / x * chiR (j + 1) x) (chiR j x)
    rw [abs_mul, abs_of_pos (by positivity : (0 : ℝ) < (j + 1) / x)] at t
    have i1 : 2 ≤ ((j : ℝ) + 1) / x := by rw [le_div_iff₀ hx]; nlinarith
    have i2 : x / (j + 1) ≤ 1 / 2 := by rw [div_le_div_iff₀ (by positivity) (by norm_num)]; nlinarith
    have i3 : |chiR j x| ≤ 1 / 2 * |chiR (j + 1) x| := s.chi_step.trans (mul_le_mul_of_nonneg_right i2 (abs_nonneg _))
    have i4 := mul_le_mul_of_nonneg_right i1 (abs_nonneg (chiR (j + 1) x))
    linarith

/-- A sphere of size parameter at most 1 and `m x <= sqrt 2` passes all guards at every order a tensor can hold. -/
theorem small_solverClear {m x : ℝ} (hm : 0 < m) (hx : 0 < x) (hx1 : x ≤ 1) (hmx : (m * x) ^ 2 ≤ 2) {n : ℕ} (hn1 : 1 ≤ n)
    (h1 : 9 * n * 1e-30 < x) (h2 : 9 * n * 1e-30 < m * x) : SolverClear idealFn n [((m : ℂ), (x : ℂ))] := by
  have hy : 0 < m * x := by positivity
  have hx2 : x ^ 2 ≤ 2 := by nlinarith
  obtain ⟨okx, kx⟩ := small_kernelOK hx hx2 h1 hn1
  obtain ⟨oky, ky⟩ := small_kernelOK hy hmx h2 hn1
  refine ⟨?_, kx, ?_⟩
  · show KernelClear idealFn n ((m : ℂ) * (x : ℂ))
    rw [← ofReal_mul]; exact ky
  · intro p i hi hi'
    show solverEps < ‖(polOut p (m : ℂ) (logD1 i ((m : ℂ) * (x : ℂ))) + (i : ℂ) / (x : ℂ)) * zetaFn idealFn (x : ℂ) i -
      zetaFn idealFn (x : ℂ) (i - 1)‖
    rw [zetaFn_ideal okx i hi', zetaFn_ideal okx (i - 1) (by omega)]
    obtain ⟨j, rfl⟩ : ∃ j, i = j + 1 := ⟨i - 1, by omega⟩
    have hz : (x : ℂ) ≠ 0 := by exact_mod_cast hx.ne'
    obtain ⟨c, hc0, hc⟩ : ∃ c : ℝ, 0 ≤ c ∧ polOut p (m : ℂ) (logD1 (j + 1) ((m : ℂ) * (x : ℂ))) = (c : ℂ) := by
      have hD : logD1 (j + 1) ((m : ℂ) * (x : ℂ)) = ((dpsiR (j + 1) (m * x) / psiR (j + 1) (m * x) : ℝ) : ℂ) := by
        unfold logD1
        rw [← ofReal_mul, dpsiR_eq _ hy, psiR_eq _ hy]; push_cast; rfl
      have hg := psiR_grows hy (small_barrier hmx hi)
      have h0 : 0 ≤ dpsiR (j + 1) (m * x) / psiR (j + 1) (m * x) := by
        rcases le_or_gt 0 (psiR (j + 1) (m * x)) with h | h
        · rcases h.eq_or_lt with h | h
          · rw [← h, div_zero]
          · exact div_nonneg (nonneg_of_mul_nonneg_right hg h) h.le
        · exact div_nonneg_of_nonpos (nonpos_of_mul_nonneg_right hg h) h.le
      rw [hD]
      cases p
      · exact ⟨_, div_nonneg h0 hm.le, by simp only [polOut]; push_cast; rfl⟩
      · exact ⟨_, mul_nonneg hm.le h0, by simp only [polOut]; push_cast; rfl⟩
    have e : (polOut p (m : ℂ) (logD1 (j + 1) ((m : ℂ) * (x : ℂ))) + ((j + 1 : ℕ) : ℂ) / (x : ℂ)) * ricZeta (j + 1) (x : ℂ) -
        ricZeta (j + 1 - 1) (x : ℂ) = (c : ℂ) * ricZeta (j + 1) x - deriv (ricZeta (j + 1)) x := by
      rw [hc, deriv_ricZeta_lower j hz, Nat.add_sub_cancel]; push_cast; ring
    rw [e]
    have him := abs_im_le_norm ((c : ℂ) * ricZeta (j + 1) x - deriv (ricZeta (j + 1)) x)
    rw [dzetaR_eq _ hx, zeta_split, psiR_eq _ hx, chiR_eq _ hx] at him ⊢
    have e2 : ((c : ℂ) * ((psiR (j + 1) x : ℂ) - I * (chiR (j + 1) x : ℂ)) - ((dpsiR (j + 1) x : ℂ) - I * (dchiR (j + 1) x : ℂ))).im =
        -(c * chiR (j + 1) x - dchiR (j + 1) x) := by
      simp; ring
    rw [e2, abs_neg] at him
    refine lt_of_lt_of_le ?_ him
    have hf := chiR_falls hx (small_barrier hx2 hi)
    have hd := dchi_small hx hx1 hi
    have h5 : |dchiR (j + 1) x| ≤ |c * chiR (j + 1) x - dchiR (j + 1) x| := by
      rw [← sq_le_sq]
      nlinarith [mul_nonneg hc0 (neg_nonneg.2 hf), sq_nonneg (c * chiR (j + 1) x)]
    unfold solverEps
    linarith

end MieDiff
