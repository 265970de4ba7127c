import Verif.Proofs.TailBound
import Verif.Props.Helper
import Mathlib.Data.Nat.Factorial.DoubleFactorial

/-!
# Numbers for the truncation error

`qTail N x` bounds the truncation error of the efficiencies at order `N` and outer size parameter `x`.  It is evaluated
at the orders of Wiscombe's rule by integer arithmetic.
-/

namespace MieDiff.Spec

open Nat

/-- Bound of the truncation error of an efficiency. -/
noncomputable def qTail (N : ℕ) (x : ℝ) : ℝ :=
  16 / x * (((N : ℝ) + 1) ^ 3 * (N + 2) / ((N + 1) ^ 2 - x ^ 2) ^ 2) * psiR N x ^ 2

theorem qTail_order {M N : ℕ} {x : ℝ} (hx : 0 < x) (h : x ^ 2 ≤ M * (M + 1)) (hMN : M ≤ N) : qTail N x ≤ qTail M x := by
  have hN := barrier_mono h hMN
  have g := gap_pos h
  have gN := gap_pos hN
  have hM0 : (0 : ℝ) ≤ M := by positivity
  have hMN' : (M : ℝ) ≤ N := by exact_mod_cast hMN
  have h1 : ((N : ℝ) + 1) * (N + 2) / ((N + 1) ^ 2 - x ^ 2) ≤ (M + 1) * (M + 2) / ((M + 1) ^ 2 - x ^ 2) := by
    rw [div_le_div_iff₀ gN g]
    have e : ((M : ℝ) + 1) * (M + 2) * ((N + 1) ^ 2 - x ^ 2) - (N + 1) * (N + 2) * ((M + 1) ^ 2 - x ^ 2) =
      (N - M) * ((M + 1) * (N + 1) + x ^ 2 * (M + N + 3)) := by ring
    have : 0 ≤ ((N : ℝ) - M) * ((M + 1) * (N + 1) + x ^ 2 * (M + N + 3)) :=
      mul_nonneg (by linarith) (by positivity)
    linarith
  have h2 : ((N : ℝ) + 1) ^ 2 / ((N + 1) ^ 2 - x ^ 2) ≤ (M + 1) ^ 2 / ((M + 1) ^ 2 - x ^ 2) := by
    rw [div_le_div_iff₀ gN g]
    have : ((M : ℝ) + 1) ^ 2 * x ^ 2 ≤ (N + 1) ^ 2 * x ^ 2 := by gcongr
    nlinarith
  have h3 : psiR N x ^ 2 ≤ psiR M x ^ 2 := by
    obtain ⟨j, rfl⟩ := Nat.exists_eq_add_of_le hMN
    have hd := psiR_decay hx h j
    have hle : x / (M + 1) ≤ 1 := by rw [div_le_one (by positivity)]; nlinarith
    have hp : (x / (M + 1)) ^ j ≤ 1 := pow_le_one₀ (by positivity) hle
    rw [← sq_abs (psiR _ x), ← sq_abs (psiR M x)]
    have := abs_nonneg (psiR M x)
    have : |psiR (M + j) x| ≤ |psiR M x| := hd.trans (by nlinarith)
    gcongr
  have e : ∀ n : ℕ, qTail n x = 16 / x * ((((n : ℝ) + 1) * (n + 2) / ((n + 1) ^ 2 - x ^ 2)) *
      ((n + 1) ^ 2 / ((n + 1) ^ 2 - x ^ 2))) * psiR n x ^ 2 := by
    intro n
    unfold qTail
    generalize ((n : ℝ) + 1) ^ 2 - x ^ 2 = G
    ring
  rw [e, e]
  have i1 : 0 ≤ ((N : ℝ) + 1) * (N + 2) / ((N + 1) ^ 2 - x ^ 2) := by positivity
  have i2 : 0 ≤ ((N : ℝ) + 1) ^ 2 / ((N + 1) ^ 2 - x ^ 2) := by positivity
  have i3 : 0 ≤ ((M : ℝ) + 1) * (M + 2) / ((M + 1) ^ 2 - x ^ 2) := i1.trans h1
  exact mul_le_mul (mul_le_mul_of_nonneg_left (mul_le_mul h1 h2 i2 i3) (by positivity)) h3 (by positivity)
    (mul_nonneg (by positivity) (mul_nonneg i3 (i2.trans h2)))

theorem qTail_mono {N : ℕ} {x y : ℝ} (hx : 0 < x) (hxy : x ≤ y) (h : y ^ 2 ≤ N * (N + 1)) : qTail N x ≤ qTail N y := by
  have hy := hx.trans_le hxy
  have gy := gap_pos h
  have hsq : x ^ 2 ≤ y ^ 2 := by gcongr
  have g : (N + 1 : ℝ) ^ 2 - y ^ 2 ≤ (N + 1) ^ 2 - x ^ 2 := by linarith
  have e : ∀ t : ℝ, 0 < t → qTail N t = 16 * (((N : ℝ) + 1) ^ 3 * (N + 2) / ((N + 1) ^ 2 - t ^ 2) ^ 2) * (t * (psiR N t / t) ^ 2) := by
    intro t ht
    have e1 : t * (psiR N t / t) ^ 2 = 1 / t * psiR N t ^ 2 := by field_simp
    unfold qTail
    rw [e1]; ring
  rw [e x hx, e y hy]
  have h1 : ((N : ℝ) + 1) ^ 3 * (N + 2) / ((N + 1) ^ 2 - x ^ 2) ^ 2 ≤ (N + 1) ^ 3 * (N + 2) / ((N + 1) ^ 2 - y ^ 2) ^ 2 :=
    div_le_div_of_nonneg_left (by positivity) (by positivity) (by gcongr)
  have h2 : x * (psiR N x / x) ^ 2 ≤ y * (psiR N y / y) ^ 2 :=
    mul_le_mul hxy (psiR_over_mono hx hxy h) (by positivity) hy.le
  exact mul_le_mul (mul_le_mul_of_nonneg_left h1 (by norm_num)) h2 (by positivity) (by positivity)

/-- Integer form of `qTail N (a / b) <= 10^(-E)`. -/
def tailOK' (q b E N a : ℕ) : Bool :=
  let c := q * (2 * N + 3)
  let g := (N + 1) ^ 2 * b ^ 2 - a ^ 2
  decide (0 < a ∧ a ^ 2 ≤ N * (N + 1) * b ^ 2 ∧
    10 ^ E * (16 * (N + 1) ^ 3 * (N + 2) * b ^ 4 * a ^ (2 * N + 1) * (c * b ^ 2) ^ q) ≤
      g ^ 2 * b ^ (2 * N + 1) * (2 * N + 1)‼ ^ 2 * (c * b ^ 2 + a ^ 2) ^ q)

theorem key_scale {b T c X s D G : ℝ} {n q : ℕ} (hb : 0 < b)
    (h : T * (c * b ^ 4 * (X * b) ^ n * (s * b ^ 2) ^ q) ≤
      (G * b ^ 2 - (X * b) ^ 2) ^ 2 * b ^ n * D ^ 2 * (s * b ^ 2 + (X * b) ^ 2) ^ q) :
    T * (c * X ^ n * s ^ q) ≤ (G - X ^ 2) ^ 2 * D ^ 2 * (s + X ^ 2) ^ q := by
  have e1 : T * (c * b ^ 4 * (X * b) ^ n * (s * b ^ 2) ^ q) =
      T * (c * X ^ n * s ^ q) * (b ^ 4 * b ^ n * (b ^ 2) ^ q) := by
    rw [mul_pow X, mul_pow s]; generalize s ^ q = u; generalize (b ^ 2) ^ q = v; ring
  have e2 : (G * b ^ 2 - (X * b) ^ 2) ^ 2 * b ^ n * D ^ 2 * (s * b ^ 2 + (X * b) ^ 2) ^ q =
      (G - X ^ 2) ^ 2 * D ^ 2 * (s + X ^ 2) ^ q * (b ^ 4 * b ^ n * (b ^ 2) ^ q) := by
    rw [show s * b ^ 2 + (X * b) ^ 2 = (s + X ^ 2) * b ^ 2 by ring, mul_pow (s + X ^ 2)]
    generalize (s + X ^ 2) ^ q = u; generalize (b ^ 2) ^ q = v; ring
  rw [e1, e2] at h
  exact le_of_mul_le_mul_right h (by positivity)

theorem tail_num' {q b E N a : ℕ} (hq : 0 < q) (hb : 0 < b) (h : tailOK' q b E N a = true) {x : ℝ} (hx : 0 < x) (hxa : x ≤ a / b) :
    x ^ 2 ≤ N * (N + 1) ∧ qTail N x ≤ 1 / 10 ^ E := by
  unfold tailOK' at h
  simp only [decide_eq_true_eq] at h
  obtain ⟨h0, h1, h2⟩ := h
  have hq0 : (0 : ℝ) < q := by exact_mod_cast hq
  have hb0 : (0 : ℝ) < b := by exact_mod_cast hb
  have ha0 : (0 : ℝ) < a := by exact_mod_cast h0
  set X : ℝ := a / b with hX
  have hX0 : 0 < X := by positivity
  have haX : (a : ℝ) = X * b := by rw [hX]; field_simp
  have hle : a ^ 2 ≤ (N + 1) ^ 2 * b ^ 2 := h1.trans (by gcongr; nlinarith)
  have h1R : (a : ℝ) ^ 2 ≤ N * (N + 1) * b ^ 2 := by exact_mod_cast h1
  have hbar : X ^ 2 ≤ N * (N + 1) := by
    rw [haX, mul_pow] at h1R
    exact le_of_mul_le_mul_right h1R (by positivity)
  refine ⟨(by gcongr : x ^ 2 ≤ X ^ 2).trans hbar, (qTail_mono hx hxa hbar).trans ?_⟩
  have g := gap_pos hbar
  have h2R : (10 : ℝ) ^ E * (16 * (N + 1) ^ 3 * (N + 2) * b ^ 4 * a ^ (2 * N + 1) * (q * (2 * N + 3) * b ^ 2) ^ q) ≤
      ((N + 1) ^ 2 * b ^ 2 - a ^ 2) ^ 2 * b ^ (2 * N + 1) * ((2 * N + 1)‼ : ℝ) ^ 2 *
        (q * (2 * N + 3) * b ^ 2 + a ^ 2) ^ q := by
    have := (Nat.cast_le (α := ℝ)).2 h2
    rw [Nat.cast_mul, Nat.cast_mul _ ((_ + _) ^ _), Nat.cast_mul _ (_‼ ^ 2), Nat.cast_mul _ (b ^ _), Nat.cast_pow (_ - _),
      Nat.cast_sub hle] at this
    push_cast at this
    exact this
  obtain ⟨D, hD⟩ : ∃ D : ℝ, D = ((2 * N + 1)‼ : ℝ) := ⟨_, rfl⟩
  have hD0 : 0 < D := by rw [hD]; exact_mod_cast Nat.doubleFactorial_pos _
  rw [← hD] at h2R
  have hc := psiR_closed hX0 hbar
  rw [← hD] at hc
  obtain ⟨s, hs⟩ : ∃ s : ℝ, s = q * (2 * N + 3) := ⟨_, rfl⟩
  have hs0 : 0 < s := by rw [hs]; positivity
  rw [← hs] at h2R
  have hexp : Real.exp (-(X ^ 2 / (2 * N + 3))) ≤ (s / (s + X ^ 2)) ^ q := by
    have e : -(X ^ 2 / (2 * N + 3 : ℝ)) = (q : ℝ) * (-(X ^ 2 / s)) := by
      rw [hs]; field_simp
    rw [e, Real.exp_nat_mul]
    refine pow_le_pow_left₀ (Real.exp_pos _).le ?_ _
    have := Real.add_one_le_exp (X ^ 2 / s)
    rw [Real.exp_neg, ← one_div, div_le_div_iff₀ (Real.exp_pos _) (by positivity), one_mul]
    calc s + X ^ 2 = s * (X ^ 2 / s + 1) := by field_simp; ring
      _ ≤ _ := by gcongr
  have key : (10 : ℝ) ^ E * (16 * (N + 1) ^ 3 * (N + 2) * X ^ (2 * N + 1) * s ^ q) ≤
      ((N + 1) ^ 2 - X ^ 2) ^ 2 * D ^ 2 * (s + X ^ 2) ^ q := by
    rw [haX] at h2R
    exact key_scale hb0 h2R
  set G : ℝ := (N + 1) ^ 2 - X ^ 2 with hG
  calc qTail N X = 16 / X * (((N : ℝ) + 1) ^ 3 * (N + 2) / G ^ 2) * psiR N X ^ 2 := rfl
    _ ≤ 16 / X * (((N : ℝ) + 1) ^ 3 * (N + 2) / G ^ 2) * ((X ^ (N + 1) / D) ^ 2 * (s / (s + X ^ 2)) ^ q) := by
        gcongr
        exact hc.trans (by gcongr)
    _ = (16 * (N + 1) ^ 3 * (N + 2) * X ^ (2 * N + 1) * s ^ q) / (G ^ 2 * D ^ 2 * (s + X ^ 2) ^ q) := by
        clear_value X G
        rw [div_pow, div_pow, ← pow_mul, show (N + 1) * 2 = 2 * N + 1 + 1 by ring, _root_.pow_succ X (2 * N + 1)]
        generalize (s + X ^ 2) ^ q = u; generalize s ^ q = v
        field_simp
    _ ≤ 1 / 10 ^ E := by
        rw [div_le_div_iff₀ (by positivity) (by positivity), one_mul, mul_comm]
        exact key

/-- Integer form of `qTail N (a / 10^9) <= 10^(-E)`. -/
def tailOK (E N a : ℕ) : Bool := tailOK' 64 (10 ^ 9) E N a

theorem tail_num {E N a : ℕ} (h : tailOK E N a = true) {x : ℝ} (hx : 0 < x) (hxa : x ≤ a / 10 ^ 9) :
    x ^ 2 ≤ N * (N + 1) ∧ qTail N x ≤ 1 / 10 ^ E :=
  tail_num' (by norm_num) (by norm_num) h hx (by rw [show ((10 ^ 9 : ℕ) : ℝ) = 10 ^ 9 by norm_num]; exact hxa)

/-- Upper ends (thousandths, of the cube root) of the size parameters with order `N` by Wiscombe's rule. -/
def wisRoots : List ℕ := [0, 125, 364, 577, 764, 927, 1070, 1197, 1312, 1416, 1512, 1601, 1684, 1761, 1834, 1903, 1969, 2031, 2025,
  2085, 2142, 2197, 2250, 2301, 2351, 2398, 2445, 2489, 2533, 2575, 2617, 2657, 2696, 2734, 2772, 2808, 2844, 2879, 2913, 2947,
  2979, 3012, 3043, 3075, 3105, 3135, 3165, 3194, 3223, 3251, 3279, 3306, 3333, 3359, 3386, 3411, 3437, 3462, 3487, 3511, 3536,
  3560, 3583, 3607, 3630, 3653, 3675, 3697, 3720, 3741, 3763, 3784, 3806, 3826, 3847, 3868, 3888, 3908, 3928, 3948, 3968, 3987,
  4006]

def wisRoot (N : ℕ) : ℕ := wisRoots.getD N 0

def wisOK (N : ℕ) : Bool :=
  let k := wisRoot N
  if N ≤ 17 then decide (2 * N * 10 ^ 9 ≤ 2 * k ^ 3 + 8 * k * 10 ^ 6 + 10 ^ 9)
  else decide (200 * N * 10 ^ 9 ≤ 200 * k ^ 3 + 810 * k * 10 ^ 6 + 300 * 10 ^ 9)

theorem wisOK_all : ∀ N < 82, wisOK (N + 1) = true := by decide +kernel

theorem tail7 : ∀ N < 60, tailOK 7 (N + 1) (wisRoot (N + 1) ^ 3) = true := by decide +kernel

theorem tail6 : ∀ N < 75, tailOK 6 (N + 1) (wisRoot (N + 1) ^ 3) = true := by decide +kernel

theorem tail18 : ∀ N < 82, tailOK 18 (N + 1 + 15) (wisRoot (N + 1) ^ 3) = true := by decide +kernel

/-- The order of Wiscombe's rule and the size parameters that give it. -/
theorem wiscombe_root {x : ℝ} (hx : 0 < x) {M : ℕ} (hM : M ≤ 82) (hlt : (M : ℝ) ≤ 4000) (hle : wiscombe1 x ≤ M) :
    ∃ N : ℕ, N < M ∧ wiscombe1 x = (N + 1 : ℕ) ∧ x ≤ ((wisRoot (N + 1) ^ 3 : ℕ) : ℝ) / 10 ^ 9 := by
  set y : ℝ := x ^ (1 / 3 : ℝ) with hy
  have hy0 : 0 < y := Real.rpow_pos_of_pos hx _
  have hy3 : y ^ 3 = x := by
    rw [hy, ← Real.rpow_natCast, ← Real.rpow_mul hx.le]; norm_num
  have hleR : (wiscombe1 x : ℝ) ≤ M := by exact_mod_cast hle
  have hx4 : x < 4200 := by
    by_contra hc
    have h8 : ¬ x ≤ 8 := by intro h; linarith
    have hc2 : ¬ (8 < x ∧ x < 4200) := fun h => hc h.2
    have e : wiscombe1 x = torchRound (2 + x + 4 * y) := by rw [wiscombe1, if_neg h8, if_neg hc2]
    have := torchRound_ge (2 + x + 4 * y)
    rw [← e] at this
    linarith
  -- the order is at least 1
  have hpos : 1 ≤ wiscombe1 x := by
    by_contra hc
    have hc' : wiscombe1 x ≤ 0 := by omega
    have hcR : (wiscombe1 x : ℝ) ≤ 0 := by exact_mod_cast hc'
    by_cases h8 : x ≤ 8
    · have e : wiscombe1 x = torchRound (1 + x + 4 * y) := by rw [wiscombe1, if_pos h8]
      have := torchRound_ge (1 + x + 4 * y)
      rw [← e] at this; linarith
    · have e : wiscombe1 x = torchRound (2 + x + 4.05 * y) := by rw [wiscombe1, if_neg h8, if_pos ⟨by linarith, hx4⟩]
      have := torchRound_ge (2 + x + 4.05 * y)
      rw [← e] at this; linarith
  obtain ⟨N, hN⟩ : ∃ N : ℕ, wiscombe1 x = (N + 1 : ℕ) := ⟨(wiscombe1 x - 1).toNat, by omega⟩
  refine ⟨N, by omega, hN, ?_⟩
  have hN82 : N < 82 := by omega
  have hok := wisOK_all N hN82
  obtain ⟨k, hk⟩ : ∃ k, k = wisRoot (N + 1) := ⟨_, rfl⟩
  unfold wisOK at hok
  simp only [← hk] at hok
  rw [← hk]
  have hNR : (wiscombe1 x : ℝ) = N + 1 := by rw [hN]; push_cast; ring
  by_contra hc
  rw [not_le] at hc
  have hky : (k : ℝ) / 1000 < y := by
    by_contra h
    rw [not_lt] at h
    have : y ^ 3 ≤ ((k : ℝ) / 1000) ^ 3 := by gcongr
    rw [hy3] at this
    have e : ((k : ℝ) / 1000) ^ 3 = ((k ^ 3 : ℕ) : ℝ) / 10 ^ 9 := by push_cast; ring
    linarith
  have hkx : (k : ℝ) ^ 3 / 10 ^ 9 < x := by push_cast at hc; exact hc
  by_cases h8 : x ≤ 8
  · have e : wiscombe1 x = torchRound (1 + x + 4 * y) := by rw [wiscombe1, if_pos h8]
    have g1 := torchRound_ge (1 + x + 4 * y)
    have g2 := torchRound_le (1 + x + 4 * y)
    rw [← e, hNR] at g1 g2
    have hy2 : y ≤ 2 := rpow_third_le hx.le (by norm_num) (by linarith)
    have hN17 : N + 1 ≤ 17 := by
      have : (N : ℝ) + 1 < 18 := by linarith
      have : N + 1 < 18 := by exact_mod_cast this
      omega
    rw [if_pos hN17] at hok
    have h : 2 * (N + 1) * 10 ^ 9 ≤ 2 * k ^ 3 + 8 * k * 10 ^ 6 + 10 ^ 9 := of_decide_eq_true hok
    have hR : 2 * ((N : ℝ) + 1) * 10 ^ 9 ≤ 2 * k ^ 3 + 8 * k * 10 ^ 6 + 10 ^ 9 := by exact_mod_cast h
    linarith
  · have e : wiscombe1 x = torchRound (2 + x + 4.05 * y) := by rw [wiscombe1, if_neg h8, if_pos ⟨by linarith, hx4⟩]
    have g1 := torchRound_ge (2 + x + 4.05 * y)
    rw [← e, hNR] at g1
    have hy2 : 2 ≤ y := le_rpow_third (by norm_num) (by linarith)
    have hN17 : ¬ N + 1 ≤ 17 := by
      intro h
      have : (N : ℝ) + 1 ≤ 17 := by exact_mod_cast h
      linarith
    rw [if_neg hN17] at hok
    have h : 200 * (N + 1) * 10 ^ 9 ≤ 200 * k ^ 3 + 810 * k * 10 ^ 6 + 300 * 10 ^ 9 := of_decide_eq_true hok
    have hR : 200 * ((N : ℝ) + 1) * 10 ^ 9 ≤ 200 * k ^ 3 + 810 * k * 10 ^ 6 + 300 * 10 ^ 9 := by exact_mod_cast h
    linarith

/-- Upper bounds of Wiscombe's order. -/
theorem wiscombe1_upper {x y : ℝ} {M : ℕ} (hx : 0 < x) (h4 : x < 4200) (hy : 0 ≤ y) (hxy : x ≤ y ^ 3)
    (h : 2 + x + 4.05 * y + 1 / 2 < M + 1) : wiscombe1 x ≤ M := by
  have h3 := rpow_third_le hx.le hy hxy
  have hlt : (wiscombe1 x : ℝ) < M + 1 := by
    by_cases h8 : x ≤ 8
    · have e : wiscombe1 x = torchRound (1 + x + 4 * x ^ (1 / 3 : ℝ)) := by rw [wiscombe1, if_pos h8]
      have g2 := torchRound_le (1 + x + 4 * x ^ (1 / 3 : ℝ))
      rw [← e] at g2
      linarith
    · have e : wiscombe1 x = torchRound (2 + x + 4.05 * x ^ (1 / 3 : ℝ)) := by
        rw [wiscombe1, if_neg h8, if_pos ⟨by linarith, h4⟩]
      have g2 := torchRound_le (2 + x + 4.05 * x ^ (1 / 3 : ℝ))
      rw [← e] at g2
      linarith
  have : wiscombe1 x < (M : ℤ) + 1 := by exact_mod_cast hlt
  omega

/-- Orders of Wiscombe's rule: bound of the truncation error. -/
theorem wiscombe_tail {x : ℝ} (hx : 0 < x) :
    (x ≤ 44 → 1 ≤ wiscombe1 x ∧ x ^ 2 ≤ (wiscombe1 x).toNat * ((wiscombe1 x).toNat + 1) ∧ qTail (wiscombe1 x).toNat x ≤ 1 / 10 ^ 7) ∧
    (x ≤ 57 → 1 ≤ wiscombe1 x ∧ x ^ 2 ≤ (wiscombe1 x).toNat * ((wiscombe1 x).toNat + 1) ∧ qTail (wiscombe1 x).toNat x ≤ 1 / 10 ^ 6) ∧
    (x ≤ 64 → ∀ N : ℕ, wiscombe1 x + 15 ≤ N → x ^ 2 ≤ (N : ℝ) * (N + 1) ∧ qTail N x ≤ 1 / 10 ^ 18) := by
  refine ⟨fun h => ?_, fun h => ?_, fun h N hN => ?_⟩
  · obtain ⟨n, h1, h2, h3⟩ := wiscombe_root hx (M := 60) (by norm_num) (by norm_num)
      (wiscombe1_upper (y := 3.54) hx (by linarith) (by norm_num) (by norm_num; linarith) (by norm_num; linarith))
    rw [h2, Int.toNat_natCast]
    exact ⟨by push_cast; omega, tail_num (tail7 n h1) hx h3⟩
  · obtain ⟨n, h1, h2, h3⟩ := wiscombe_root hx (M := 75) (by norm_num) (by norm_num)
      (wiscombe1_upper (y := 3.85) hx (by linarith) (by norm_num) (by norm_num; linarith) (by norm_num; linarith))
    rw [h2, Int.toNat_natCast]
    exact ⟨by push_cast; omega, tail_num (tail6 n h1) hx h3⟩
  · obtain ⟨n, h1, h2, h3⟩ := wiscombe_root hx (M := 82) (by norm_num) (by norm_num)
      (wiscombe1_upper (y := 4) hx (by linarith) (by norm_num) (by norm_num; linarith) (by norm_num; linarith))
    obtain ⟨t1, t2⟩ := tail_num (tail18 n h1) hx h3
    have hle : n + 1 + 15 ≤ N := by omega
    exact ⟨barrier_mono t1 hle, (qTail_order hx t1 hle).trans t2⟩

end MieDiff.Spec
