import Verif.Model.Range
import Verif.Proofs.CentreZeta

/-!
# C89: the field at the centre is not finite
-/

namespace MieDiff

open Complex Spec

theorem lim2_some {f : ℂ → ℂ → ℂ} {x y : Option ℂ} {v : ℂ} (h : lim2 f x y = some v) :
    ∃ a b, x = some a ∧ y = some b ∧ v = f a b ∧ finite v = some v := by
  unfold lim2 at h
  rcases x with _ | a
  · simp at h
  · rcases y with _ | b
    · simp at h
    · refine ⟨a, b, rfl, rfl, ?_⟩
      simp only [Option.bind_some] at h
      unfold finite at h ⊢
      split_ifs at h with hc
      obtain rfl := Option.some.inj h
      exact ⟨rfl, by rw [if_pos hc]⟩

theorem finite_some {x v : ℂ} (h : finite x = some v) : v = x := by
  unfold finite at h
  split_ifs at h
  exact (Option.some.inj h).symm

theorem finite_lt {x v : ℂ} (h : finite x = some v) : ‖x‖ < 2 ^ 1025 := by
  unfold finite at h
  split_ifs at h with hc
  refine lt_of_le_of_lt (Complex.norm_le_abs_re_add_abs_im x) ?_
  have e : (2 : ℝ) ^ 1025 = 2 ^ 1024 + 2 ^ 1024 := by rw [show (1025 : ℕ) = 1024 + 1 from rfl, pow_succ]; ring
  rw [e]
  exact add_lt_add hc.1 hc.2

theorem lim2_none_left (f : ℂ → ℂ → ℂ) (y : Option ℂ) : lim2 f none y = none := rfl
theorem lim2_none_right (f : ℂ → ℂ → ℂ) (x : Option ℂ) : lim2 f x none = none := by
  unfold lim2; rcases x with _ | a <;> rfl

section
variable {A : Arith} {u : ℝ}

theorem prodSeqL_some {f0 z : ℂ} {D : ℕ → ℂ} : ∀ {n : ℕ} {v : ℂ}, A.prodSeqL f0 z D n = some v →
    v = A.prodSeq f0 z D n ∧ finite v = some v
  | 0, v, h => by
    obtain rfl := finite_some h
    exact ⟨rfl, h⟩
  | n + 1, v, h => by
    obtain ⟨a, b, ha, hb, rfl, hf⟩ := lim2_some h
    obtain ⟨rfl, -⟩ := prodSeqL_some ha
    obtain rfl := finite_some hb
    exact ⟨rfl, hf⟩

theorem big_growth : (2 : ℝ) ^ 1025 ≤ 0.8e8 * 5.7e3 ^ 81 := by
  rw [show (1025 : ℕ) = 205 * 5 from rfl, pow_mul]
  norm_num

/-- Argument and start value at the centre. -/
theorem centre_arg (hA : A.Within u) (hD : A.Double) (hu : u ≤ 1 / 2 ^ 50) (k0 nMed : ℂ) :
    ∃ z : ℝ, A.vshRho k0 nMed 0 = z ∧ 0.99e-8 ≤ z ∧ z ≤ 1.01e-8 ∧ 0.9 ≤ ‖A.sub (A.sin z) (A.mul I (A.cos z))‖ := by
  have hu0 := hA.nonneg
  have hu9 : u ≤ 1e-9 := hu.trans (by norm_num)
  have em : A.mul (A.mul k0 nMed) ((0 : ℝ) : ℂ) = 0 := within_zero (hA.mul _ _) (by simp)
  obtain ⟨z, -, hz⟩ := hD.add 0 1e-8
  have hz1 := hA.add ((0 : ℝ) : ℂ) ((1e-8 : ℝ) : ℂ)
  rw [hz, ofReal_zero, zero_add, ← ofReal_sub, norm_real, norm_real, Real.norm_eq_abs,
    Real.norm_of_nonneg (by norm_num : (0 : ℝ) ≤ 1e-8)] at hz1
  have hz2 : |z - 1e-8| ≤ 1e-9 * 1e-8 := hz1.trans (by gcongr)
  have hzl : 0.99e-8 ≤ z := by have := (abs_le.1 hz2).1; norm_num at this ⊢; linarith
  have hzu : z ≤ 1.01e-8 := by have := (abs_le.1 hz2).2; norm_num at this ⊢; linarith
  rw [ofReal_zero] at hz
  refine ⟨z, ?_, hzl, hzu, ?_⟩
  · unfold Arith.vshRho; rw [em, hz]
  · have hz0 : 0 < z := lt_of_lt_of_le (by norm_num) hzl
    have h1 := (within_bounds hu9 (hA.cos z)).1
    have h2 := (within_bounds hu9 (hA.sin z)).2
    have h3 := (within_bounds hu9 (hA.mul I (A.cos z))).1
    have h4 := (within_bounds hu9 (hA.sub (A.sin z) (A.mul I (A.cos z)))).1
    have h5 := norm_sub_norm_le (A.mul I (A.cos z)) (A.sin z)
    rw [norm_sub_rev] at h5
    rw [norm_mul, norm_I] at h3
    have hc : 0.99 ≤ ‖Complex.cos z‖ := by
      rw [← ofReal_cos, norm_real, Real.norm_eq_abs]
      refine le_trans ?_ (le_abs_self _)
      have := Real.one_sub_sq_div_two_le_cos (x := z)
      norm_num at hzu ⊢
      nlinarith
    have hs : ‖Complex.sin z‖ ≤ 0.01 := by
      rw [← ofReal_sin, norm_real, Real.norm_eq_abs]
      refine (Real.abs_sin_le_abs (x := z)).trans ?_
      rw [abs_of_pos hz0]
      exact hzu.trans (by norm_num)
    norm_num at h1 h2 h3 h4 h5 hc hs ⊢
    linarith

/-- **C89** (the waves).  At the centre of a particle `vsh_pena` evaluates the outgoing waves at `rho = 10⁻⁸`.  In double precision
the function `zeta` of order 82 leaves the range of double precision if `n_max` is 110 or larger, whatever the rounding. -/
theorem C89_overflow (hA : A.Within u) (hD : A.Double) (hu : u ≤ 1 / 2 ^ 50) {n N : ℕ} (hn : 110 ≤ n) (hN : 8 ≤ N) (k0 nMed : ℂ) :
    let rho := A.vshRho k0 nMed 0
    2 ^ 1025 ≤ ‖A.prodSeq (A.sub (A.sin rho) (A.mul I (A.cos rho))) rho (A.d3 rho (A.d1 n N rho)) 82‖ ∧
      A.prodSeqL (A.sub (A.sin rho) (A.mul I (A.cos rho))) rho (A.d3 rho (A.d1 n N rho)) 82 = none := by
  intro rho
  obtain ⟨z, hz, hzl, hzu, hf⟩ := centre_arg hA hD hu k0 nMed
  have h := zeta_growth hA hD hu hzl hzu hn hN hf 81 (by norm_num)
  have hr : rho = (z : ℂ) := hz
  rw [hr]
  refine ⟨big_growth.trans h, ?_⟩
  rcases hv : A.prodSeqL (A.sub (A.sin z) (A.mul I (A.cos z))) z (A.d3 z (A.d1 n N z)) 82 with _ | v
  · rfl
  · obtain ⟨h1, h2⟩ := prodSeqL_some hv
    have := finite_lt h2
    rw [h1] at this
    exact absurd (big_growth.trans h) (not_le.2 this)

theorem fold_none (f : ℕ → Option ℂ) : ∀ (l : List ℕ) (acc : Option ℂ), (acc = none ∨ ∃ i ∈ l, f i = none) →
    l.foldl (fun acc i => A.addL acc (f i)) acc = none
  | [], acc, h => by simpa using h
  | i :: l, acc, h => by
    rw [List.foldl_cons]
    apply fold_none f l
    rcases h with h | ⟨k, hk, h⟩
    · left; rw [h]; rfl
    · rcases List.mem_cons.1 hk with rfl | hk
      · left; rw [h]; exact lim2_none_right _ _
      · exact Or.inr ⟨k, hk, h⟩

/-- **C89** (the field).  With `n_max` 110 or larger all components of the electric field that `nearfields` computes at the centre
with the pena backend are infinite or nan: for every wavenumber, core medium, amplitude and direction, for all expansion coefficients,
including the coefficients `a = b = 0` that the core has. -/
theorem C89_field (hA : A.Within u) (hD : A.Double) (hu : u ≤ 1 / 2 ^ 50) {n N : ℕ} (hn : 110 ≤ n) (hN : 8 ≤ N) (k0 nMed : ℂ)
    (theta phi : ℝ) (pi tau : ℕ → ℝ) (E0 : ℂ) (a b c d : ℕ → ℂ) (j : ℕ) :
    A.layerEL n N k0 nMed 0 theta phi pi tau E0 a b c d j = none := by
  have h := (C89_overflow hA hD hu hn hN k0 nMed).2
  have hz : (A.radialL n N k0 nMed 0 true 82).1 = none := by
    unfold Arith.radialL
    simp only [if_true]
    rw [h]
    rfl
  have hfld : ∀ j, A.fieldL n N k0 nMed 0 theta phi pi tau E0 a b c d 82 j = none := by
    intro j
    unfold Arith.fieldL
    simp only [hz, Arith.MoL, Arith.subL, Arith.mulL, lim2_none_left, lim2_none_right]
  unfold Arith.layerEL
  refine fold_none _ _ _ (Or.inr ⟨81, List.mem_range.2 (by omega), ?_⟩)
  unfold Arith.cartL
  simp only [hfld, Arith.addL, Arith.mulL, lim2_none_left]

end

/-- **C89** (the coefficients).  In the core the outgoing waves have coefficient zero, for every particle. -/
theorem C89_core {K : D1Kernel} {n : ℤ} {ext : RegionCoefs} {l : ℂ × ℂ} {rest : List (ℂ × ℂ)} {regs : List RegionCoefs}
    (h : nfRegions K n ext true (l :: rest) = .ok regs) : ∃ core tail, regs = core :: tail ∧ (∀ v ∈ core.a, v = 0) ∧ ∀ v ∈ core.b, v = 0 := by
  obtain ⟨ml, xl⟩ := l
  simp only [nfRegions] at h
  rcases h1 : nfRegions K n ext false rest with e | outer
  · rw [h1] at h; simp [Bind.bind, Except.bind] at h
  · rw [h1] at h
    rcases outer with _ | ⟨nxt, t⟩
    · simp [Bind.bind, Except.bind] at h
    · simp only [Bind.bind, Except.bind] at h
      rcases h2 : nfStep K n ml (nextIndex rest) xl true nxt with e | cur
      · rw [h2] at h; simp at h
      · rw [h2] at h
        simp only [Except.ok.injEq] at h
        refine ⟨cur, nxt :: t, h.symm, ?_⟩
        unfold nfStep at h2
        rcases h3 : kernels K n (ml * xl) with e | k1
        · rw [h3] at h2; simp [Bind.bind, Except.bind] at h2
        · rcases h4 : kernels K n (nextIndex rest * xl) with e | k2
          · rw [h3, h4] at h2; simp [Bind.bind, Except.bind] at h2
          · rw [h3, h4] at h2
            simp only [Bind.bind, Except.bind, if_true, Except.ok.injEq] at h2
            rw [← h2]
            simp

theorem exact_lim {f : ℂ → ℂ → ℂ} {x y : Option ℂ} {v : ℂ} (h : lim2 f x y = some v) :
    x = some (x.getD 0) ∧ y = some (y.getD 0) ∧ v = f (x.getD 0) (y.getD 0) := by
  obtain ⟨a, b, rfl, rfl, h, -⟩ := lim2_some h
  exact ⟨rfl, rfl, h⟩

/-- The value of component `j` of a vector. -/
def V3.at (v : V3 ℂ) (j : ℕ) : ℂ := if j = 0 then v.c0 else if j = 1 then v.c1 else v.c2

theorem radialL_exact {n : ℕ} {k0 nMed : ℂ} {r : ℝ} {kind3 : Bool} {i : ℕ} {v : ℂ}
    (h : (exactArith.radialL n 15 k0 nMed r kind3 i).1 = some v) :
    v = (if kind3 then zetaFn (codeFn n) (k0 * nMed * r + ((1e-8 : ℝ) : ℂ)) i
      else psiFn (codeFn n) (k0 * nMed * r + ((1e-8 : ℝ) : ℂ)) i) / (k0 * nMed * r + ((1e-8 : ℝ) : ℂ)) := by
  have er : exactArith.vshRho k0 nMed r = k0 * nMed * r + ((1e-8 : ℝ) : ℂ) := rfl
  unfold Arith.radialL at h
  simp only [er] at h
  generalize k0 * nMed * r + ((1e-8 : ℝ) : ℂ) = rho at *
  obtain ⟨a, b, ha, hb, rfl, -⟩ := lim2_some h
  obtain rfl := Option.some.inj hb
  have eD : depthFn n 15 = codeFn n := rfl
  rw [exact_d1] at ha
  cases kind3
  · simp only [Bool.false_eq_true, if_false] at ha ⊢
    obtain ⟨rfl, -⟩ := prodSeqL_some ha
    rw [exact_prodSeq]
    rfl
  · simp only [if_true] at ha ⊢
    obtain ⟨rfl, -⟩ := prodSeqL_some ha
    have e3 : exactArith.d3 rho (depthFn n 15 rho) = d3Fn (depthFn n 15) rho := exact_d3 n 15 rho
    rw [exact_prodSeq, e3]
    rfl

theorem MoL_exact {cp sp pi tau : ℂ} {zn : Option ℂ} {j : ℕ} {v : ℂ} (h : exactArith.MoL cp sp pi tau zn j = some v) :
    ∃ z, zn = some z ∧ v = cp * pi * z * (if j = 1 then 1 else 0) - sp * tau * z * (if j = 2 then 1 else 0) := by
  obtain ⟨a, b, ha, hb, rfl, -⟩ := lim2_some h
  obtain ⟨a1, b1, ha1, hb1, rfl, -⟩ := lim2_some ha
  obtain ⟨a2, b2, ha2, hb2, rfl, -⟩ := lim2_some hb
  obtain ⟨a3, b3, ha3, hb3, rfl, -⟩ := lim2_some ha1
  obtain ⟨a4, b4, ha4, hb4, rfl, -⟩ := lim2_some ha2
  obtain rfl := Option.some.inj ha3
  obtain rfl := Option.some.inj ha4
  obtain rfl := Option.some.inj hb1
  obtain rfl := Option.some.inj hb2
  obtain rfl : b3 = b4 := Option.some.inj (hb3.symm.trans hb4)
  exact ⟨b3, hb3, rfl⟩

theorem NeL_exact {n : ℕ} {cp sp st rho pi tau : ℂ} {zn dz : Option ℂ} {j : ℕ} {v : ℂ}
    (h : exactArith.NeL n cp sp st rho pi tau zn dz j = some v) :
    ∃ z y, zn = some z ∧ dz = some y ∧ v = cp * n * (n + 1) * st * pi * (z / rho) * (if j = 0 then 1 else 0) +
      (cp * tau * y * (if j = 1 then 1 else 0) - sp * pi * y * (if j = 2 then 1 else 0)) := by
  obtain ⟨a, b, ha, hb, rfl, -⟩ := lim2_some h
  obtain ⟨a1, b1, ha1, hb1, rfl, -⟩ := lim2_some ha
  obtain ⟨a2, b2, ha2, hb2, rfl, -⟩ := lim2_some ha1
  obtain ⟨a3, b3, ha3, hb3, rfl, -⟩ := lim2_some hb2
  obtain ⟨c1, d1, hc1, hd1, rfl, -⟩ := lim2_some hb
  obtain ⟨c2, d2, hc2, hd2, rfl, -⟩ := lim2_some hc1
  obtain ⟨c3, d3, hc3, hd3, rfl, -⟩ := lim2_some hd1
  obtain ⟨c4, d4, hc4, hd4, rfl, -⟩ := lim2_some hc2
  obtain ⟨c5, d5, hc5, hd5, rfl, -⟩ := lim2_some hc3
  obtain rfl := Option.some.inj ha2
  obtain rfl := Option.some.inj hb1
  obtain rfl := Option.some.inj hb3
  obtain rfl := Option.some.inj hd2
  obtain rfl := Option.some.inj hd3
  obtain rfl := Option.some.inj hc4
  obtain rfl := Option.some.inj hc5
  obtain rfl : d4 = d5 := Option.some.inj (hd4.symm.trans hd5)
  exact ⟨a3, d4, ha3, hd4, rfl⟩

theorem radialL_der {n : ℕ} {k0 nMed : ℂ} {r : ℝ} {kind3 : Bool} {i : ℕ} {v w : ℂ}
    (h : (exactArith.radialL n 15 k0 nMed r kind3 i).1 = some v) (h2 : (exactArith.radialL n 15 k0 nMed r kind3 i).2 = some w) :
    w = (if kind3 then d3Fn (codeFn n) (k0 * nMed * r + ((1e-8 : ℝ) : ℂ)) i
      else codeFn n (k0 * nMed * r + ((1e-8 : ℝ) : ℂ)) i) * v := by
  have er : exactArith.vshRho k0 nMed r = k0 * nMed * r + ((1e-8 : ℝ) : ℂ) := rfl
  unfold Arith.radialL at h h2
  simp only [er] at h h2
  generalize k0 * nMed * r + ((1e-8 : ℝ) : ℂ) = rho at *
  rw [exact_d1] at h h2
  obtain ⟨a, b, ha, hb, rfl, -⟩ := lim2_some h2
  obtain rfl : b = v := Option.some.inj (hb.symm.trans h)
  obtain rfl := finite_some ha
  have e3 : exactArith.d3 rho (depthFn n 15 rho) = d3Fn (depthFn n 15) rho := exact_d3 n 15 rho
  rw [e3]
  rfl

/-- The limited program for one order, if it stays in the range, is the model of the field inside a layer. -/
theorem fieldL_exact {n i : ℕ} {k0 nMed : ℂ} {r theta phi : ℝ} {E0 : ℂ} {a b c d : ℕ → ℂ} {j : ℕ} (hj : j < 3) {v : ℂ}
    (h : exactArith.fieldL n 15 k0 nMed r theta phi (fun i => (okD ([], []) (piTau n (Real.cos theta))).1.getD i 0)
      (fun i => (okD ([], []) (piTau n (Real.cos theta))).2.getD i 0) E0 a b c d (i + 1) j = some v) :
    v = (inField (EnCoef E0 (i + 1)) (a (i + 1)) (b (i + 1)) (c (i + 1)) (d (i + 1)) nMed
      (vshPenaVal (codeFn n) n i 1 theta phi (k0 * nMed * r + ((1e-8 : ℝ) : ℂ)))
      (vshPenaVal (codeFn n) n i 3 theta phi (k0 * nMed * r + ((1e-8 : ℝ) : ℂ)))).1.at j := by
  have er : exactArith.vshRho k0 nMed r = k0 * nMed * r + ((1e-8 : ℝ) : ℂ) := rfl
  unfold Arith.fieldL at h
  simp only [er] at h
  obtain ⟨x0, x1, hx0, hx1, rfl, -⟩ := lim2_some h
  obtain ⟨x2, x3, hx2, hx3, rfl, -⟩ := lim2_some hx1
  obtain ⟨x4, x5, hx4, hx5, rfl, -⟩ := lim2_some hx2
  obtain ⟨x6, x7, hx6, hx7, rfl, -⟩ := lim2_some hx4
  obtain ⟨y0, m1, hy0, hm1, rfl, -⟩ := lim2_some hx6
  obtain ⟨y1, n1, hy1, hn1, rfl, -⟩ := lim2_some hx7
  obtain ⟨y2, n3, hy2, hn3, rfl, -⟩ := lim2_some hx5
  obtain ⟨y3, m3, hy3, hm3, rfl, -⟩ := lim2_some hx3
  obtain rfl := Option.some.inj hx0
  obtain rfl := Option.some.inj hy0
  obtain rfl := Option.some.inj hy1
  obtain rfl := Option.some.inj hy2
  obtain rfl := Option.some.inj hy3
  obtain ⟨z1, hz1, rfl⟩ := MoL_exact hm1
  obtain ⟨z1', w1, hz1', hw1, rfl⟩ := NeL_exact hn1
  obtain ⟨z3, hz3, rfl⟩ := MoL_exact hm3
  obtain ⟨z3', w3, hz3', hw3, rfl⟩ := NeL_exact hn3
  obtain rfl : z1 = z1' := Option.some.inj (hz1.symm.trans hz1')
  obtain rfl : z3 = z3' := Option.some.inj (hz3.symm.trans hz3')
  have e1 := radialL_exact hz1
  have e2 := radialL_der hz1 hw1
  have e3 := radialL_exact hz3
  have e4 := radialL_der hz3 hw3
  simp only [Bool.false_eq_true, if_false, if_true] at e1 e2 e3 e4
  show EnCoef E0 (i + 1) * (c (i + 1) * _ - I * d (i + 1) * _ + I * a (i + 1) * _ - b (i + 1) * _) = _
  unfold vshPenaVal
  simp only [if_true, show (3 : ℤ) ≠ 1 by decide, if_false, ← e1, ← e2, ← e3, ← e4]
  simp only [inField, V3.smul, V3.add, vshOrder]
  push_cast
  interval_cases j <;> norm_num [V3.at, -mul_eq_mul_left_iff] <;> ring

theorem V3.ext_at {u v : V3 ℂ} (h : ∀ j < 3, u.at j = v.at j) : u = v := by
  have h0 := h 0 (by norm_num)
  have h1 := h 1 (by norm_num)
  have h2 := h 2 (by norm_num)
  cases u; cases v
  simp [V3.at] at h0 h1 h2
  simp [h0, h1, h2]

theorem cartL_exact {theta phi : ℝ} {E : ℕ → Option ℂ} {F : V3 ℂ} (hE : ∀ j < 3, ∀ v, E j = some v → v = F.at j) {j : ℕ} (hj : j < 3)
    {v : ℂ} (h : exactArith.cartL theta phi E j = some v) : v = (fieldsSphToCart F theta phi).at j := by
  obtain ⟨a, b, ha, hb, rfl, -⟩ := lim2_some h
  obtain ⟨c, d, hc, hd, rfl, -⟩ := lim2_some ha
  obtain ⟨x2, y2, hx2, hy2, rfl, -⟩ := lim2_some hb
  obtain ⟨x0, y0, hx0, hy0, rfl, -⟩ := lim2_some hc
  obtain ⟨x1, y1, hx1, hy1, rfl, -⟩ := lim2_some hd
  obtain rfl := Option.some.inj hy0
  obtain rfl := Option.some.inj hy1
  obtain rfl := Option.some.inj hy2
  obtain rfl := hE 0 (by norm_num) _ hx0
  obtain rfl := hE 1 (by norm_num) _ hx1
  obtain rfl := hE 2 (by norm_num) _ hx2
  show F.at 0 * _ + F.at 1 * _ + F.at 2 * _ = _
  interval_cases j <;> simp [V3.at, fieldsSphToCart]

/-- **C89** (the program).  With exact arithmetic, and if no value leaves the range, the field of `layerEL` is the field of the model of
`nearfields` in the layer (`regionField`, summed by `sumCart`). -/
theorem C89_model {n : ℕ} (hn : 1 ≤ n) {k0 nMed : ℂ} {r theta phi : ℝ} {E0 : ℂ} {rc : RegionCoefs} {es hs : List (V3 ℂ)}
    (hreg : regionField codeD1 n k0 nMed r theta phi E0 false rc 1e-8 = .ok (es, hs)) {j : ℕ} (hj : j < 3) {v : ℂ}
    (h : exactArith.layerEL n 15 k0 nMed r theta phi (fun i => (okD ([], []) (piTau n (Real.cos theta))).1.getD i 0)
      (fun i => (okD ([], []) (piTau n (Real.cos theta))).2.getD i 0) E0 (fun i => rc.a.getD i 0) (fun i => rc.b.getD i 0)
      (fun i => rc.c.getD i 0) (fun i => rc.d.getD i 0) j = some v) :
    v = (sumCart theta phi es).at j := by
  have hes : es = (List.range n).map fun i => (inField (EnCoef E0 (i + 1)) (rc.a.getD (i + 1) 0) (rc.b.getD (i + 1) 0)
      (rc.c.getD (i + 1) 0) (rc.d.getD (i + 1) 0) nMed
      (vshPenaVal (codeFn n) n i 1 theta phi (k0 * nMed * r + ((1e-8 : ℝ) : ℂ)))
      (vshPenaVal (codeFn n) n i 3 theta phi (k0 * nMed * r + ((1e-8 : ℝ) : ℂ)))).1 := by
    unfold regionField at hreg
    rw [vshPena_eq (codeFn_fun n) hn k0 nMed r theta phi (Or.inl rfl), vshPena_eq (codeFn_fun n) hn k0 nMed r theta phi (Or.inr rfl)] at hreg
    simp only [Bind.bind, Except.bind, Except.ok.injEq, Prod.mk.injEq] at hreg
    rw [← hreg.1, List.map_map]
    refine List.map_congr_left fun i hi => ?_
    have hi := List.mem_range.1 hi
    simp [hi]
  rw [hes]
  unfold Arith.layerEL at h
  unfold sumCart
  have key : ∀ (l : List ℕ) (acc : Option ℂ) (acc' : V3 ℂ) (w : ℂ), (∀ x, acc = some x → x = acc'.at j) →
      l.foldl (fun acc i => exactArith.addL acc (exactArith.cartL theta phi (exactArith.fieldL n 15 k0 nMed r theta phi
        (fun i => (okD ([], []) (piTau n (Real.cos theta))).1.getD i 0)
        (fun i => (okD ([], []) (piTau n (Real.cos theta))).2.getD i 0) E0 (fun i => rc.a.getD i 0) (fun i => rc.b.getD i 0)
        (fun i => rc.c.getD i 0) (fun i => rc.d.getD i 0) (i + 1)) j)) acc = some w →
      w = ((l.map fun i => (inField (EnCoef E0 (i + 1)) (rc.a.getD (i + 1) 0) (rc.b.getD (i + 1) 0)
        (rc.c.getD (i + 1) 0) (rc.d.getD (i + 1) 0) nMed
        (vshPenaVal (codeFn n) n i 1 theta phi (k0 * nMed * r + ((1e-8 : ℝ) : ℂ)))
        (vshPenaVal (codeFn n) n i 3 theta phi (k0 * nMed * r + ((1e-8 : ℝ) : ℂ)))).1).foldl
          (fun acc v => acc.add (fieldsSphToCart v theta phi)) acc').at j := by
    intro l
    induction l with
    | nil => intro acc acc' w ha hw; exact ha w hw
    | cons i l ih =>
      intro acc acc' w ha hw
      rw [List.map_cons, List.foldl_cons]
      rw [List.foldl_cons] at hw
      refine ih _ _ _ ?_ hw
      intro x hx
      obtain ⟨p, q, hp, hq, rfl, -⟩ := lim2_some hx
      rw [ha p hp, cartL_exact (fun j' hj' v' hv' => fieldL_exact hj' hv') hj hq]
      show V3.at acc' j + V3.at _ j = _
      interval_cases j <;> simp [V3.at, V3.add]
  exact key _ _ _ _ (fun x hx => by obtain rfl := Option.some.inj hx; interval_cases j <;> simp [V3.at, V3.zero]) h

/-- Rounding to nearest: the field at the centre of any particle, from 110 orders. -/
example (k0 nMed : ℂ) (theta phi : ℝ) (pi tau : ℕ → ℝ) (E0 : ℂ) (c d : ℕ → ℂ) (j : ℕ) :
    doubleArith.layerEL 110 15 k0 nMed 0 theta phi pi tau E0 (fun _ => 0) (fun _ => 0) c d j = none :=
  C89_field doubleArith_within doubleArith_double (by norm_num) (by norm_num) (by norm_num) _ _ _ _ _ _ _ _ _ _ _ _

end MieDiff
