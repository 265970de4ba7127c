import Verif.Model.Helper
import Verif.Props.Invariance
import Verif.Props.CoreShell
import Mathlib.Analysis.Convex.Combination

/-!
# Truncation orders, plane-wave coefficients, interpolation, coordinate transforms (C25, C51, C33, C38)
-/

namespace MieDiff

open Complex

/-! ## C25 -/

theorem torchRound_ge (x : ℝ) : x - 1 / 2 ≤ torchRound x := by
  unfold torchRound
  have h1 := Int.floor_le x
  have h2 := Int.lt_floor_add_one x
  simp only
  split_ifs <;> push_cast <;> linarith

theorem torchRound_le (x : ℝ) : torchRound x ≤ x + 1 / 2 := by
  unfold torchRound
  have h1 := Int.floor_le x
  have h2 := Int.lt_floor_add_one x
  simp only
  split_ifs <;> push_cast <;> linarith

theorem torchRound_mono {x y : ℝ} (h : x ≤ y) : torchRound x ≤ torchRound y := by
  by_contra hc
  push Not at hc
  have h1 := torchRound_le x
  have h2 := torchRound_ge y
  have h3 : (torchRound y : ℝ) + 1 ≤ torchRound x := by exact_mod_cast hc
  have : x = y := le_antisymm h (by linarith)
  subst this
  exact lt_irrefl _ hc

/-- An integer at distance less than 1/2 is the rounded value. -/
theorem torchRound_eq {x : ℝ} {n : ℤ} (h1 : n - 1 / 2 < x) (h2 : x < n + 1 / 2) : torchRound x = n := by
  have a := torchRound_ge x
  have b := torchRound_le x
  have c : (torchRound x : ℝ) < n + 1 := by linarith
  have d : (n : ℝ) < torchRound x + 1 := by linarith
  have c' : torchRound x < n + 1 := by exact_mod_cast c
  have d' : n < torchRound x + 1 := by exact_mod_cast d
  omega

theorem rpow_third_mono {x y : ℝ} (hx : 0 ≤ x) (h : x ≤ y) : x ^ (1 / 3 : ℝ) ≤ y ^ (1 / 3 : ℝ) :=
  Real.rpow_le_rpow hx h (by norm_num)

theorem rpow_third_le {x y : ℝ} (hx : 0 ≤ x) (hy : 0 ≤ y) (h : x ≤ y ^ 3) : x ^ (1 / 3 : ℝ) ≤ y := by
  have := rpow_third_mono hx h
  have e : (y ^ 3) ^ (1 / 3 : ℝ) = y := by
    rw [← Real.rpow_natCast y 3, ← Real.rpow_mul hy]; norm_num
  rwa [e] at this

theorem le_rpow_third {x y : ℝ} (hy : 0 ≤ y) (h : y ^ 3 ≤ x) : y ≤ x ^ (1 / 3 : ℝ) := by
  have := rpow_third_mono (by positivity) h
  have e : (y ^ 3) ^ (1 / 3 : ℝ) = y := by
    rw [← Real.rpow_natCast y 3, ← Real.rpow_mul hy]; norm_num
  rwa [e] at this

theorem wiscombe1_mono {x y : ℝ} (hx : 0 ≤ x) (h : x ≤ y) : wiscombe1 x ≤ wiscombe1 y := by
  have hm := rpow_third_mono hx h
  have hx3 : 0 ≤ x ^ (1 / 3 : ℝ) := Real.rpow_nonneg hx _
  unfold wiscombe1
  by_cases x8 : x ≤ 8
  · rw [if_pos x8]
    split_ifs with y8 y42
    · exact torchRound_mono (by linarith)
    · exact torchRound_mono (by nlinarith)
    · exact torchRound_mono (by linarith)
  · rw [if_neg x8, if_neg (show ¬ y ≤ 8 by linarith)]
    by_cases x42 : x < 4200
    · rw [if_pos ⟨by linarith, x42⟩]
      by_cases y42 : y < 4200
      · rw [if_pos ⟨by linarith, y42⟩]
        exact torchRound_mono (by nlinarith)
      · rw [if_neg (by tauto)]
        have a : x ^ (1 / 3 : ℝ) ≤ 16.14 := rpow_third_le hx (by norm_num) (by norm_num; linarith)
        have b : 16.13 ≤ y ^ (1 / 3 : ℝ) := le_rpow_third (by norm_num) (by norm_num; linarith)
        have c := torchRound_mono (show 2 + x + 4.05 * x ^ (1 / 3 : ℝ) ≤ 4267.4 by norm_num at a ⊢; linarith)
        have d := torchRound_mono (show (4266.51 : ℝ) ≤ 2 + y + 4 * y ^ (1 / 3 : ℝ) by norm_num at b ⊢; linarith)
        rw [torchRound_eq (x := 4267.4) (n := 4267) (by norm_num) (by norm_num)] at c
        rw [torchRound_eq (x := 4266.51) (n := 4267) (by norm_num) (by norm_num)] at d
        exact c.trans d
    · rw [if_neg (by tauto), if_neg (by rintro ⟨_, hh⟩; linarith)]
      exact torchRound_mono (by linarith)

theorem wiscombe1_ge {x : ℝ} (hx : 0 ≤ x) : x + 1 / 2 ≤ wiscombe1 x := by
  have hx3 : 0 ≤ x ^ (1 / 3 : ℝ) := Real.rpow_nonneg hx _
  unfold wiscombe1
  split_ifs <;> refine le_trans ?_ (torchRound_ge _) <;> nlinarith

/-- C25: the Wiscombe order is monotone: a batch whose moduli are dominated by those of another batch gets an order that
is not larger, whatever branches of the rule the two batches use. -/
theorem C25_wiscombe_mono {ka ka' : List ℂ} {n n' : ℤ} (h : wiscombe ka = .ok n) (h' : wiscombe ka' = .ok n')
    (hd : ∀ z ∈ ka, ∃ w ∈ ka', ‖z‖ ≤ ‖w‖) : n ≤ n' := by
  have ne : ka ≠ [] := by rintro rfl; simp [wiscombe, maxAbs, bind, Except.bind] at h
  have ne' : ka' ≠ [] := by rintro rfl; simp [wiscombe, maxAbs, bind, Except.bind] at h'
  obtain ⟨M, e, m⟩ := maxAbs_spec ne
  obtain ⟨M', e', m'⟩ := maxAbs_spec ne'
  simp only [wiscombe, e, e', bind, Except.bind, Except.ok.injEq] at h h'
  subst h; subst h'
  obtain ⟨⟨z, hz, rfl⟩, _⟩ := m
  obtain ⟨w, hw, hzw⟩ := hd z hz
  exact wiscombe1_mono (norm_nonneg _) (hzw.trans (m'.2 w hw))

/-- C25: only the largest modulus of the batch matters. -/
theorem C25_wiscombe_batch {ka : List ℂ} {z : ℂ} (hz : z ∈ ka) (hmax : ∀ w ∈ ka, ‖w‖ ≤ ‖z‖) :
    wiscombe ka = wiscombe [z] := by
  obtain ⟨M, e, ⟨w, hw, hM⟩, m⟩ := maxAbs_spec (List.ne_nil_of_mem hz)
  have : M = ‖z‖ := le_antisymm (hM ▸ hmax w hw) (m z hz)
  subst this
  have e1 : maxAbs [z] = .ok ‖z‖ := rfl
  simp only [wiscombe, e, e1]

/-- C25: the Wiscombe order exceeds every size parameter of the batch; an order exists exactly for nonempty batches. -/
theorem C25_wiscombe_ge (ka : List ℂ) :
    (ka = [] → wiscombe ka = .error .runtimeError) ∧
    (ka ≠ [] → ∃ n, wiscombe ka = .ok n ∧ ∀ z ∈ ka, ‖z‖ + 1 / 2 ≤ n) := by
  constructor
  · rintro rfl; rfl
  · intro ne
    obtain ⟨M, e, ⟨w, hw, hM⟩, m⟩ := maxAbs_spec ne
    refine ⟨wiscombe1 M, by simp only [wiscombe, e, bind, Except.bind], fun z hz => ?_⟩
    have := m z hz
    have := wiscombe1_ge (x := M) (by rw [← hM]; exact norm_nonneg w)
    linarith

/-- The breakpoints: the order jumps from 17 to 18 at 8 and is 4267 on both sides of 4200. -/
theorem C25_breakpoints : wiscombe1 8 = 17 ∧ (∀ x, 8 < x → x < 8.01 → wiscombe1 x = 18) ∧ wiscombe1 4200 = 4267 ∧
    (∀ x, 4199.9 < x → x < 4200 → wiscombe1 x = 4267) := by
  have e8 : (8 : ℝ) ^ (1 / 3 : ℝ) = 2 :=
    le_antisymm (rpow_third_le (by norm_num) (by norm_num) (by norm_num)) (le_rpow_third (by norm_num) (by norm_num))
  refine ⟨?_, ?_, ?_, ?_⟩
  · rw [wiscombe1, if_pos le_rfl, e8]
    exact torchRound_eq (by norm_num) (by norm_num)
  · intro x h1 h2
    have a : 2 ≤ x ^ (1 / 3 : ℝ) := le_rpow_third (by norm_num) (by norm_num; linarith)
    have b : x ^ (1 / 3 : ℝ) ≤ 2.01 := rpow_third_le (by linarith) (by norm_num) (by norm_num at h2 ⊢; linarith)
    rw [wiscombe1, if_neg (by linarith), if_pos ⟨h1, by norm_num at h2 ⊢; linarith⟩]
    apply torchRound_eq <;> norm_num at * <;> linarith
  · have a : (16.13 : ℝ) ≤ 4200 ^ (1 / 3 : ℝ) := le_rpow_third (by norm_num) (by norm_num)
    have b : (4200 : ℝ) ^ (1 / 3 : ℝ) ≤ 16.14 := rpow_third_le (by norm_num) (by norm_num) (by norm_num)
    rw [wiscombe1, if_neg (by norm_num), if_neg (by norm_num)]
    apply torchRound_eq <;> norm_num at * <;> linarith
  · intro x h1 h2
    have a : (16.13 : ℝ) ≤ x ^ (1 / 3 : ℝ) := le_rpow_third (by norm_num) (by norm_num at h1 ⊢; linarith)
    have b : x ^ (1 / 3 : ℝ) ≤ 16.14 := rpow_third_le (by norm_num at h1 ⊢; linarith) (by norm_num) (by norm_num; linarith)
    rw [wiscombe1, if_neg (by norm_num at h1 ⊢; linarith), if_pos ⟨by norm_num at h1 ⊢; linarith, h2⟩]
    apply torchRound_eq <;> norm_num at * <;> linarith

theorem penaNStop_eq (x : ℝ) : penaNStop x = wiscombe1 x := by
  unfold penaNStop wiscombe1
  by_cases h8 : x ≤ 8
  · rw [if_pos h8, if_pos h8]; congr 1; ring
  · rw [if_neg h8, if_neg h8]
    by_cases h42 : x < 4200
    · rw [if_pos h42, if_pos ⟨by linarith, h42⟩]; congr 1; ring
    · rw [if_neg h42, if_neg (by tauto)]; congr 1; ring

/-- C25: the rule for layered spheres is at least 15 above the Wiscombe order of the outer size parameters and at least
14.5 above every `|m_l x_l|` and `|m_l x_{l-1}|`, for every entry of the batch. -/
theorem C25_pena {batch : List TruncEntry} {n : ℤ} (h : penaNmax batch = .ok n) :
    (∃ w, wiscombe (batch.map TruncEntry.xOuter) = .ok w ∧ w + 15 ≤ n) ∧
    ∀ e ∈ batch, (∀ z ∈ e.mx, ‖z‖ + 14.5 ≤ n) ∧ (∀ z ∈ e.mxPrev, ‖z‖ + 14.5 ≤ n) := by
  unfold penaNmax at h
  have n0 : batch.map TruncEntry.xOuter ≠ [] := by
    intro hc; rw [hc] at h; simp [maxAbs, bind, Except.bind] at h
  obtain ⟨M0, e0, _, _⟩ := maxAbs_spec n0
  rw [e0] at h
  simp only [bind, Except.bind] at h
  have n1 : batch.flatMap TruncEntry.mx ≠ [] := by
    intro hc; rw [hc] at h; simp [maxAbs] at h
  obtain ⟨M1, e1, _, m1⟩ := maxAbs_spec n1
  rw [e1] at h
  simp only at h
  have n2 : batch.flatMap TruncEntry.mxPrev ≠ [] := by
    intro hc; rw [hc] at h; simp [maxAbs] at h
  obtain ⟨M2, e2, _, m2⟩ := maxAbs_spec n2
  rw [e2] at h
  simp only [Except.ok.injEq] at h
  have hge := torchRound_ge (max (penaNStop M0 : ℝ) (max M1 M2) + 15)
  rw [h] at hge
  refine ⟨⟨wiscombe1 M0, by simp only [wiscombe, e0, bind, Except.bind], ?_⟩, fun e he => ⟨fun z hz => ?_, fun z hz => ?_⟩⟩
  · have h1 := torchRound_mono (show (penaNStop M0 : ℝ) + 15 ≤ max (penaNStop M0 : ℝ) (max M1 M2) + 15 by
      gcongr; exact le_max_left _ _)
    rw [h, penaNStop_eq] at h1
    rw [torchRound_eq (n := wiscombe1 M0 + 15) (by push_cast; linarith) (by push_cast; linarith)] at h1
    exact h1
  · have := m1 z (List.mem_flatMap.2 ⟨e, he, hz⟩)
    have := (le_max_left M1 M2).trans (le_max_right (penaNStop M0 : ℝ) (max M1 M2))
    norm_num; linarith
  · have := m2 z (List.mem_flatMap.2 ⟨e, he, hz⟩)
    have := (le_max_right M1 M2).trans (le_max_right (penaNStop M0 : ℝ) (max M1 M2))
    norm_num; linarith

/-- `n` is `x` rounded to the nearest integer, halves to the even one. -/
def IsRoundEven (x : ℝ) (n : ℤ) : Prop := |x - n| ≤ 1 / 2 ∧ (|x - n| = 1 / 2 → Even n)

theorem torchRound_even (x : ℝ) : IsRoundEven x (torchRound x) := by
  refine ⟨abs_le.2 ⟨by linarith [torchRound_le x], by linarith [torchRound_ge x]⟩, fun h => ?_⟩
  have h1 := Int.floor_le x
  have h2 := Int.lt_floor_add_one x
  have key : x - ⌊x⌋ = 1 / 2 := by
    unfold torchRound at h
    simp only at h
    split_ifs at h with a b c
    · rw [abs_of_nonneg (by linarith)] at h; exact h
    · push_cast at h
      rw [abs_of_nonpos (by linarith)] at h
      linarith
    · linarith
    · linarith
  unfold torchRound
  simp only
  rw [if_neg (by linarith), if_neg (by linarith)]
  split_ifs with c
  · exact Int.even_iff.2 c
  · exact Int.even_iff.2 (by omega)

theorem IsRoundEven.unique {x : ℝ} {m n : ℤ} (hm : IsRoundEven x m) (hn : IsRoundEven x n) : m = n := by
  obtain ⟨a1, b1⟩ := hm
  obtain ⟨a2, b2⟩ := hn
  have e1 := abs_le.1 a1
  have e2 := abs_le.1 a2
  have d1 : (m : ℝ) - n ≤ 1 := by linarith
  have d2 : (n : ℝ) - m ≤ 1 := by linarith
  have d1' : m - n ≤ 1 := by exact_mod_cast d1
  have d2' : n - m ≤ 1 := by exact_mod_cast d2
  by_contra hne
  rcases lt_or_gt_of_ne hne with h | h
  · have e : n = m + 1 := by omega
    subst e
    push_cast at e2
    have x1 : x - m = 1 / 2 := by linarith
    have p1 := b1 (by rw [x1]; norm_num)
    have p2 := b2 (by push_cast; rw [show x - (m + 1) = -(1 / 2) by linarith]; norm_num)
    exact (Int.even_add_one.1 p2) p1
  · have e : m = n + 1 := by omega
    subst e
    push_cast at e1
    have x1 : x - n = 1 / 2 := by linarith
    have p1 := b2 (by rw [x1]; norm_num)
    have p2 := b1 (by push_cast; rw [show x - (n + 1) = -(1 / 2) by linarith]; norm_num)
    exact (Int.even_add_one.1 p2) p1

/-- Wiscombe's estimate before rounding. -/
noncomputable def wiscombeEstimate (x : ℝ) : ℝ :=
  if x ≤ 8 then x + 4 * x ^ (1 / 3 : ℝ) + 1 else if x < 4200 then x + 4.05 * x ^ (1 / 3 : ℝ) + 2 else x + 4 * x ^ (1 / 3 : ℝ) + 2

theorem wiscombe1_round (x : ℝ) : IsRoundEven (wiscombeEstimate x) (wiscombe1 x) := by
  rw [← penaNStop_eq]
  unfold penaNStop wiscombeEstimate
  split_ifs <;> exact torchRound_even _

/-- C25: the orders are exactly the rounded estimates: halves go to the even integer, in both rules. -/
theorem C25_exact {batch : List TruncEntry} {ka : List ℂ} {n m : ℤ} :
    (wiscombe ka = .ok n → ∃ x, IsMaxNorm ka x ∧ IsRoundEven (wiscombeEstimate x) n) ∧
    (penaNmax batch = .ok m → ∃ x w u v, IsMaxNorm (batch.map TruncEntry.xOuter) x ∧ IsRoundEven (wiscombeEstimate x) w ∧
      IsMaxNorm (batch.flatMap TruncEntry.mx) u ∧ IsMaxNorm (batch.flatMap TruncEntry.mxPrev) v ∧
      IsRoundEven (max (w : ℝ) (max u v) + 15) m) := by
  have key : ∀ {l : List ℂ} {v : ℝ}, maxAbs l = .ok v → IsMaxNorm l v := by
    intro l v h
    have ne : l ≠ [] := by rintro rfl; cases h
    obtain ⟨M, e, hM⟩ := maxAbs_spec ne
    rw [e] at h
    cases h
    exact hM
  constructor
  · intro h
    unfold wiscombe at h
    rcases hx : maxAbs ka with e | x
    · rw [hx] at h; cases h
    · rw [hx] at h
      cases h
      exact ⟨x, key hx, wiscombe1_round x⟩
  · intro h
    unfold penaNmax at h
    rcases hx : maxAbs (batch.map TruncEntry.xOuter) with e | x
    · rw [hx] at h; cases h
    rcases hu : maxAbs (batch.flatMap TruncEntry.mx) with e | u
    · rw [hx, hu] at h; cases h
    rcases hv : maxAbs (batch.flatMap TruncEntry.mxPrev) with e | v
    · rw [hx, hu, hv] at h; cases h
    rw [hx, hu, hv] at h
    cases h
    exact ⟨x, wiscombe1 x, u, v, key hx, wiscombe1_round x, key hu, key hv, by
      rw [← penaNStop_eq]; exact torchRound_even _⟩

/-- The rounding mode matters: 16.5 goes to 16, 17.5 to 18. -/
example : IsRoundEven 16.5 16 ∧ IsRoundEven 17.5 18 ∧ ¬IsRoundEven 16.5 17 := by
  refine ⟨⟨by norm_num [abs_le], fun _ => ⟨8, rfl⟩⟩, ⟨by norm_num [abs_le], fun _ => ⟨9, rfl⟩⟩, fun h => ?_⟩
  have := h.2 (by norm_num [abs_of_neg])
  exact absurd this (by decide)

/-- The hypotheses are met. -/
example : ∃ n, penaNmax [⟨1, 1, [(1, 4), (2, 9)]⟩] = .ok n ∧ ∃ w, wiscombe [(8 : ℂ)] = .ok w :=
  ⟨_, rfl, _, rfl⟩

/-! ## C51 -/

/-- C51: exactly `n` coefficients `i^k (2k+1)/(k(k+1))`, `k = 1..n`; negative orders are rejected. -/
theorem C51_plane_wave (n : ℤ) :
    (n < 0 → planeWaveExpansion n = .error .assertionError) ∧
    (0 ≤ n → ∃ l, planeWaveExpansion n = .ok l ∧ (l.length : ℤ) = n ∧
      ∀ k : ℕ, 1 ≤ k → k ≤ n → l[k - 1]? = some (I ^ k * (2 * k + 1) / (k * (k + 1)))) := by
  constructor
  · intro h; simp [planeWaveExpansion, h]
  · intro h
    refine ⟨_, if_neg (not_lt.2 h), by simp [h], fun k h1 h2 => ?_⟩
    rw [List.getElem?_map, List.getElem?_range (by omega)]
    simp only [Option.map_some, Nat.sub_add_cancel h1]

/-- C51 and the near fields use the same weights: `E_n` of special.py/multishell.py is `E_0` times this coefficient. -/
theorem C51_EnCoef {n : ℤ} {l : List ℂ} (h : planeWaveExpansion n = .ok l) (E0 : ℂ) :
    l.map (E0 * ·) = (List.range n.toNat).map fun i => EnCoef E0 (i + 1) := by
  unfold planeWaveExpansion at h
  split at h
  · simp at h
  · injection h with h
    subst h
    rw [List.map_map]
    refine List.map_congr_left fun i _ => ?_
    simp only [Function.comp_apply, EnCoef]
    ring

example : ∃ l, planeWaveExpansion 2 = .ok l ∧ l = [I * 3 / 2, -(5 / 6)] := by
  refine ⟨_, if_neg (by norm_num), ?_⟩
  have : (2 : ℤ).toNat = 2 := rfl
  rw [this]
  norm_num [List.range_succ]

/-! ## C33 -/

theorem bucketize_spec (x : ℝ) : ∀ xs : List ℝ, bucketize x xs ≤ xs.length ∧
    (∀ i : ℕ, i < bucketize x xs → ∀ v, xs[i]? = some v → v < x) ∧
    (∀ v, xs[bucketize x xs]? = some v → x ≤ v) := by
  intro xs
  induction xs with
  | nil => simp [bucketize]
  | cons a xs ih =>
    by_cases ha : a < x
    · have e : bucketize x (a :: xs) = bucketize x xs + 1 := by simp [bucketize, ha]
      rw [e]
      refine ⟨by simpa using ih.1, fun i hi v hv => ?_, fun v hv => ?_⟩
      · cases i with
        | zero => simp at hv; rw [← hv]; exact ha
        | succ i => exact ih.2.1 i (by omega) v (by simpa using hv)
      · exact ih.2.2 v (by simpa using hv)
    · have e : bucketize x (a :: xs) = 0 := by simp [bucketize, ha]
      rw [e]
      refine ⟨by simp, fun i hi => by omega, fun v hv => ?_⟩
      simp at hv
      rw [← hv]; linarith

theorem interpWeights_pos (x xl xr : ℝ) : 0 ≤ (interpWeights x xl xr).1 ∧ 0 ≤ (interpWeights x xl xr).2 ∧
    0 < (interpWeights x xl xr).1 + (interpWeights x xl xr).2 := by
  have key : 0 ≤ (interpWeights x xl xr).1 ∧ 0 ≤ (interpWeights x xl xr).2 ∧
      ¬ ((interpWeights x xl xr).1 = 0 ∧ (interpWeights x xl xr).2 = 0) := by
    unfold interpWeights
    simp only
    refine ⟨?_, ?_, ?_⟩
    · split_ifs <;> linarith
    · split_ifs <;> linarith
    · split_ifs <;> simp_all
  obtain ⟨a, b, c⟩ := key
  refine ⟨a, b, lt_of_le_of_ne (add_nonneg a b) fun h => c ⟨by linarith, by linarith⟩⟩

theorem interpWeights_between {x xl xr : ℝ} (h1 : xl < x) (h2 : x ≤ xr) : interpWeights x xl xr = (x - xl, xr - x) := by
  have a : ¬ x - xl < 0 := by linarith
  have b : ¬ xr - x < 0 := by linarith
  have c : ¬ (x - xl = 0 ∧ xr - x = 0) := by rintro ⟨h, _⟩; linarith
  simp only [interpWeights, if_neg a, if_neg b, if_neg c]

/-- The three situations of a lookup. -/
theorem interpSorted_cases (x : ℝ) (s : List (ℝ × ℂ)) (hne : s ≠ []) :
    (∃ p, s[0]? = some p ∧ x ≤ p.1 ∧ interpSorted x s = .ok p.2) ∨
    (∃ p, s[s.length - 1]? = some p ∧ p.1 < x ∧ interpSorted x s = .ok p.2) ∨
    (∃ (k : ℕ) (l r : ℝ × ℂ), s[k]? = some l ∧ s[k + 1]? = some r ∧ l.1 < x ∧ x ≤ r.1 ∧
      interpSorted x s = .ok ((l.2 * (r.1 - x) + r.2 * (x - l.1)) / (r.1 - l.1))) := by
  obtain ⟨hk, hlt, hge⟩ := bucketize_spec x (s.map Prod.fst)
  have hlen : 0 < s.length := List.length_pos_iff.2 hne
  rw [List.length_map] at hk
  have hlt' : ∀ i : ℕ, i < bucketize x (s.map Prod.fst) → ∀ v, s[i]? = some v → v.1 < x := fun i hi v hv =>
    hlt i hi v.1 (by rw [List.getElem?_map, hv]; rfl)
  have hge' : ∀ v, s[bucketize x (s.map Prod.fst)]? = some v → x ≤ v.1 := fun v hv =>
    hge v.1 (by rw [List.getElem?_map, hv]; rfl)
  unfold interpSorted
  simp only
  generalize bucketize x (s.map Prod.fst) = k at *
  rcases Nat.eq_zero_or_pos k with rfl | hk0
  · left
    have h0 : s[0]? = some s[0] := List.getElem?_eq_getElem hlen
    have hx := hge' _ h0
    refine ⟨s[0], h0, hx, ?_⟩
    have i1 : (min (max (((0 : ℕ) : ℤ)) 0) ((s.length : ℤ) - 1)).toNat = 0 := by omega
    have i2 : (min (max (((0 : ℕ) : ℤ) - 1) 0) ((s.length : ℤ) - 1)).toNat = 0 := by omega
    rw [i1, i2, h0]
    simp only [Except.ok.injEq]
    rw [← mul_add, mul_div_assoc, add_comm ((_ : ℝ) : ℂ), ← ofReal_add, div_self, mul_one]
    exact_mod_cast (interpWeights_pos _ _ _).2.2.ne'
  · rcases hk.eq_or_lt with rfl | hkl
    · right; left
      have h0 : s[s.length - 1]? = some (s[s.length - 1]'(by omega)) := List.getElem?_eq_getElem (by omega)
      have hx := hlt' (s.length - 1) (by omega) _ h0
      refine ⟨_, h0, hx, ?_⟩
      have i1 : (min (max ((s.length : ℤ)) 0) ((s.length : ℤ) - 1)).toNat = s.length - 1 := by omega
      have i2 : (min (max ((s.length : ℤ) - 1) 0) ((s.length : ℤ) - 1)).toNat = s.length - 1 := by omega
      rw [i1, i2, h0]
      simp only [Except.ok.injEq]
      rw [← mul_add, mul_div_assoc, add_comm ((_ : ℝ) : ℂ), ← ofReal_add, div_self, mul_one]
      exact_mod_cast (interpWeights_pos _ _ _).2.2.ne'
    · right; right
      have h0 : s[k - 1]? = some (s[k - 1]'(by omega)) := List.getElem?_eq_getElem (by omega)
      have h1 : s[k]? = some (s[k]'(by omega)) := List.getElem?_eq_getElem (by omega)
      have hx0 := hlt' (k - 1) (by omega) _ h0
      have hx1 := hge' _ h1
      refine ⟨k - 1, _, _, h0, by rw [Nat.sub_add_cancel hk0]; exact h1, hx0, hx1, ?_⟩
      have i1 : (min (max ((k : ℤ)) 0) ((s.length : ℤ) - 1)).toNat = k := by omega
      have i2 : (min (max ((k : ℤ) - 1) 0) ((s.length : ℤ) - 1)).toNat = k - 1 := by omega
      rw [i1, i2, h0, h1]
      have w1 : interpWeights x (s[k - 1]'(by omega)).1 (s[k]'(by omega)).1 =
          (x - (s[k - 1]'(by omega)).1, (s[k]'(by omega)).1 - x) := interpWeights_between hx0 hx1
      simp only [w1, Except.ok.injEq]
      push_cast
      ring

/-- Abscissae are pairwise different. -/
def DistinctRows (dat : List (ℝ × ℂ)) : Prop := (dat.map Prod.fst).Nodup

theorem DistinctRows.eq {dat : List (ℝ × ℂ)} (h : DistinctRows dat) {p q : ℝ × ℂ} (hp : p ∈ dat) (hq : q ∈ dat)
    (e : p.1 = q.1) : p = q := List.inj_on_of_nodup_map h hp hq e

/-- `s` is one of the possible results of sorting the rows of `dat`. -/
structure SortOf (dat s : List (ℝ × ℂ)) : Prop where
  perm : s.Perm dat
  sorted : s.Pairwise fun a b => a.1 ≤ b.1

theorem sortOf_mergeSort (dat : List (ℝ × ℂ)) : SortOf dat (dat.mergeSort fun a b => decide (a.1 ≤ b.1)) := by
  refine ⟨List.mergeSort_perm _ _, ?_⟩
  have := List.pairwise_mergeSort (le := fun a b : ℝ × ℂ => decide (a.1 ≤ b.1))
    (fun a b c h1 h2 => by simp only [decide_eq_true_eq] at *; linarith)
    (fun a b => by simp only [Bool.or_eq_true, decide_eq_true_eq]; exact le_total _ _) dat
  exact this.imp (by simp)

theorem SortOf.get_le {dat s : List (ℝ × ℂ)} (h : SortOf dat s) {i j : ℕ} (hij : i ≤ j) {p q : ℝ × ℂ}
    (hp : s[i]? = some p) (hq : s[j]? = some q) : p.1 ≤ q.1 := by
  obtain ⟨hi, rfl⟩ := List.getElem?_eq_some_iff.1 hp
  obtain ⟨hj, rfl⟩ := List.getElem?_eq_some_iff.1 hq
  rcases hij.eq_or_lt with rfl | hlt
  · exact le_rfl
  · exact List.pairwise_iff_getElem.1 h.sorted i j hi hj hlt

theorem SortOf.mem {dat s : List (ℝ × ℂ)} (h : SortOf dat s) {i : ℕ} {p : ℝ × ℂ} (hp : s[i]? = some p) : p ∈ dat :=
  h.perm.mem_iff.1 (List.mem_of_getElem? hp)

theorem SortOf.idx {dat s : List (ℝ × ℂ)} (h : SortOf dat s) {p : ℝ × ℂ} (hp : p ∈ dat) :
    ∃ i : ℕ, i < s.length ∧ s[i]? = some p := by
  obtain ⟨i, hi, e⟩ := List.mem_iff_getElem.1 (h.perm.mem_iff.2 hp)
  exact ⟨i, hi, by rw [List.getElem?_eq_getElem hi, e]⟩

theorem SortOf.unique {dat s s' : List (ℝ × ℂ)} (hd : DistinctRows dat) (h : SortOf dat s) (h' : SortOf dat s') :
    s = s' := by
  refine List.Perm.eq_of_pairwise (le := fun a b => a.1 ≤ b.1) ?_ h.sorted h'.sorted (h.perm.trans h'.perm.symm)
  intro a b ha hb h1 h2
  exact hd.eq (h.perm.mem_iff.1 ha) (h'.perm.mem_iff.1 hb) (le_antisymm h1 h2)

theorem interp_ne {dat s : List (ℝ × ℂ)} (h : SortOf dat s) {p : ℝ × ℂ} (hp : p ∈ dat) : s ≠ [] :=
  List.ne_nil_of_mem (h.perm.mem_iff.2 hp)

/-- C33: a lookup succeeds exactly for nonempty tables, and the result lies in the convex hull of the table values; the
table may contain equal abscissae.  In particular a constant table gives the constant, so the weights never vanish. -/
theorem C33_convex (x : ℝ) (dat : List (ℝ × ℂ)) :
    (dat = [] → interp1d x dat = .error .indexError) ∧
    (dat ≠ [] → ∃ y, interp1d x dat = .ok y ∧ y ∈ convexHull ℝ {v | ∃ p ∈ dat, p.2 = v}) := by
  constructor
  · rintro rfl; simp [interp1d, interpSorted]
  · intro hne
    have hs := sortOf_mergeSort dat
    have hm : ∀ {i : ℕ} {p : ℝ × ℂ}, (dat.mergeSort fun a b => decide (a.1 ≤ b.1))[i]? = some p →
        p.2 ∈ convexHull ℝ {v | ∃ p ∈ dat, p.2 = v} := fun hp => subset_convexHull ℝ _ ⟨_, hs.mem hp, rfl⟩
    unfold interp1d
    obtain ⟨p0, hp0⟩ := List.exists_mem_of_ne_nil dat hne
    rcases interpSorted_cases x _ (interp_ne hs hp0) with ⟨p, hp, _, e⟩ | ⟨p, hp, _, e⟩ | ⟨k, l, r, hl, hr, h1, h2, e⟩
    · exact ⟨_, e, hm hp⟩
    · exact ⟨_, e, hm hp⟩
    · refine ⟨_, e, ?_⟩
      have hpos : 0 < r.1 - l.1 := by linarith
      refine (convex_convexHull ℝ _).segment_subset (hm hl) (hm hr)
        ⟨(r.1 - x) / (r.1 - l.1), (x - l.1) / (r.1 - l.1), by apply div_nonneg <;> linarith, by apply div_nonneg <;> linarith,
          by field_simp; ring, ?_⟩
      simp only [Complex.real_smul]
      push_cast
      field_simp

/-- The divisor in the interpolation formula is positive at every point and for every pair of neighbours. -/
theorem C33_weights (x xl xr : ℝ) : 0 < (interpWeights x xl xr).1 + (interpWeights x xl xr).2 :=
  (interpWeights_pos x xl xr).2.2

/-- C33: between two neighbouring rows (table points included) the result is the straight line through them. -/
theorem C33_linear {dat : List (ℝ × ℂ)} (hd : DistinctRows dat) {xl xr x : ℝ} {yl yr : ℂ} (hl : (xl, yl) ∈ dat)
    (hr : (xr, yr) ∈ dat) (hlt : xl < xr) (hnb : ∀ p ∈ dat, p.1 ≤ xl ∨ xr ≤ p.1) (h1 : xl ≤ x) (h2 : x ≤ xr) :
    interp1d x dat = .ok (yl + ((x - xl) / (xr - xl) : ℝ) * (yr - yl)) := by
  have hs := sortOf_mergeSort dat
  unfold interp1d
  have hpos : ((xr : ℂ) - xl) ≠ 0 := by exact_mod_cast (sub_pos.2 hlt).ne'
  rcases interpSorted_cases x _ (interp_ne hs hl) with ⟨p, hp, hx, e⟩ | ⟨p, hp, hx, e⟩ | ⟨k, l, r, kl, kr, a, b, e⟩
  · obtain ⟨i, _, hi⟩ := hs.idx hl
    have := hs.get_le (Nat.zero_le i) hp hi
    simp only at this
    have hxl : x = xl := by linarith
    have hpe : p = (xl, yl) := hd.eq (hs.mem hp) hl (by simp only; linarith)
    rw [e, hpe, hxl]; simp
  · obtain ⟨i, hil, hi⟩ := hs.idx hr
    have := hs.get_le (show i ≤ _ by omega) hi hp
    simp only at this
    linarith
  · rw [e]
    by_cases hcase : r.1 ≤ xl
    · have hxl : x = xl := by linarith
      have hre : r = (xl, yl) := hd.eq (hs.mem kr) hl (by simp only; linarith)
      subst hre
      subst hxl
      have : ((x : ℂ) - l.1) ≠ 0 := by exact_mod_cast (sub_pos.2 a).ne'
      simp only [sub_self, mul_zero, zero_add, zero_div, ofReal_zero, zero_mul, add_zero]
      rw [mul_div_cancel_right₀ _ this]
    · push Not at hcase
      have hrx : xr ≤ r.1 := (hnb r (hs.mem kr)).resolve_left (by linarith)
      have hlx : l.1 ≤ xl := (hnb l (hs.mem kl)).resolve_right (by linarith)
      obtain ⟨i, _, hi⟩ := hs.idx hl
      obtain ⟨j, _, hj⟩ := hs.idx hr
      have hik : i < k + 1 := by
        by_contra hc
        have := hs.get_le (show k + 1 ≤ i by omega) kr hi
        simp only at this; linarith
      have hjk : k < j := by
        by_contra hc
        have := hs.get_le (show j ≤ k by omega) hj kl
        simp only at this; linarith
      have h3 := hs.get_le (show i ≤ k by omega) hi kl
      have h4 := hs.get_le (show k + 1 ≤ j by omega) kr hj
      simp only at h3 h4
      have hle : l = (xl, yl) := hd.eq (hs.mem kl) hl (by simp only; linarith)
      have hre : r = (xr, yr) := hd.eq (hs.mem kr) hr (by simp only; linarith)
      rw [hle, hre]
      simp only [Except.ok.injEq]
      push_cast
      field_simp
      ring

/-- C33: table values are returned at table points. -/
theorem C33_table {dat : List (ℝ × ℂ)} (hd : DistinctRows dat) {x : ℝ} {y : ℂ} (h : (x, y) ∈ dat) :
    interp1d x dat = .ok y := by
  have hs := sortOf_mergeSort dat
  unfold interp1d
  obtain ⟨i, hil, hi⟩ := hs.idx h
  rcases interpSorted_cases x _ (interp_ne hs h) with ⟨p, hp, hx, e⟩ | ⟨p, hp, hx, e⟩ | ⟨k, l, r, kl, kr, a, b, e⟩
  · have := hs.get_le (Nat.zero_le i) hp hi
    simp only at this
    rw [e, hd.eq (hs.mem hp) h (by simp only; linarith)]
  · have := hs.get_le (show i ≤ _ by omega) hi hp
    simp only at this
    linarith
  · have hik : k < i := by
      by_contra hc
      have := hs.get_le (show i ≤ k by omega) hi kl
      simp only at this; linarith
    have h4 := hs.get_le (show k + 1 ≤ i by omega) kr hi
    simp only at h4
    have hre : r = (x, y) := hd.eq (hs.mem kr) h (by simp only; linarith)
    subst hre
    have : ((x : ℂ) - l.1) ≠ 0 := by exact_mod_cast (sub_pos.2 a).ne'
    rw [e]
    simp only [sub_self, mul_zero, zero_add]
    rw [mul_div_cancel_right₀ _ this]

/-- C33: below the table the first value is returned, above it the last one. -/
theorem C33_outside {dat : List (ℝ × ℂ)} (hd : DistinctRows dat) {x x0 : ℝ} {y0 : ℂ} (h : (x0, y0) ∈ dat) :
    (x ≤ x0 → (∀ p ∈ dat, x0 ≤ p.1) → interp1d x dat = .ok y0) ∧
    (x0 ≤ x → (∀ p ∈ dat, p.1 ≤ x0) → interp1d x dat = .ok y0) := by
  have hs := sortOf_mergeSort dat
  constructor
  · intro hx hmin
    rcases hx.eq_or_lt with rfl | hx
    · exact C33_table hd h
    unfold interp1d
    rcases interpSorted_cases x _ (interp_ne hs h) with ⟨p, hp, hx', e⟩ | ⟨p, hp, hx', e⟩ | ⟨k, l, r, kl, kr, a, b, e⟩
    · obtain ⟨i, _, hi⟩ := hs.idx h
      have h1 := hs.get_le (Nat.zero_le i) hp hi
      have h2 := hmin p (hs.mem hp)
      rw [e, hd.eq (hs.mem hp) h (le_antisymm h1 h2)]
    · have h2 := hmin p (hs.mem hp); linarith
    · have h2 := hmin l (hs.mem kl); linarith
  · intro hx hmax
    rcases hx.eq_or_lt with rfl | hx
    · exact C33_table hd h
    unfold interp1d
    rcases interpSorted_cases x _ (interp_ne hs h) with ⟨p, hp, hx', e⟩ | ⟨p, hp, hx', e⟩ | ⟨k, l, r, kl, kr, a, b, e⟩
    · have h2 := hmax p (hs.mem hp); linarith
    · obtain ⟨i, hil, hi⟩ := hs.idx h
      have h1 := hs.get_le (show i ≤ _ by omega) hi hp
      have h2 := hmax p (hs.mem hp)
      rw [e, hd.eq (hs.mem hp) h (le_antisymm h2 h1)]
    · have h2 := hmax r (hs.mem kr); linarith

/-- C33: the order of the table rows, and the order in which the sort leaves them, do not matter. -/
theorem C33_row_order {dat dat' : List (ℝ × ℂ)} (hd : DistinctRows dat) (hp : dat.Perm dat') (x : ℝ) :
    interp1d x dat = interp1d x dat' ∧ ∀ s, SortOf dat s → interpSorted x s = interp1d x dat := by
  have hs := sortOf_mergeSort dat
  have hs' := sortOf_mergeSort dat'
  refine ⟨?_, fun s h => ?_⟩
  · unfold interp1d
    rw [hs.unique hd ⟨hs'.perm.trans hp.symm, hs'.sorted⟩]
  · unfold interp1d
    rw [hs.unique hd h]

/-- With equal abscissae and different values the result depends on how the (unstable) sort orders them. -/
theorem C33_duplicate_rows : ∃ dat s s' x, SortOf dat s ∧ SortOf dat s' ∧ interpSorted x s ≠ interpSorted x s' := by
  refine ⟨[(0, 0), (0, 1)], [(0, 0), (0, 1)], [(0, 1), (0, 0)], -1, ⟨List.Perm.refl _, by simp⟩,
    ⟨List.Perm.swap _ _ _, by simp⟩, ?_⟩
  norm_num [interpSorted, bucketize, interpWeights, List.takeWhile_cons]

/-- The hypotheses are met by a table given in descending order. -/
example : DistinctRows [(2, 5), (1, 3), (0, 1)] ∧
    interp1d (3 / 2) [(2, 5), (1, 3), (0, 1)] = .ok 4 := by
  have hd : DistinctRows [(2, 5), (1, 3), (0, 1)] := by norm_num [DistinctRows]
  refine ⟨hd, ?_⟩
  rw [C33_linear hd (xl := 1) (xr := 2) (yl := 3) (yr := 5) (by simp) (by simp) (by norm_num) (by simp) (by norm_num)
    (by norm_num)]
  norm_num

/-! ## C38 -/

theorem eps10_small : 0 < eps10Double ∧ eps10Double < 1 := by
  unfold eps10Double; constructor <;> norm_num

/-- C38: the radius is always the distance to the origin, the polar angle lies strictly between 0 and `pi` and the azimuth
in `(-pi, pi]`; at no point a division by zero occurs. -/
theorem C38_ranges (x y z : ℝ) :
    (xyzToSph eps10Double x y z).c0 = Real.sqrt (x ^ 2 + y ^ 2 + z ^ 2) ∧
    0 < (xyzToSph eps10Double x y z).c1 ∧ (xyzToSph eps10Double x y z).c1 < Real.pi ∧
    -Real.pi < (xyzToSph eps10Double x y z).c2 ∧ (xyzToSph eps10Double x y z).c2 ≤ Real.pi := by
  obtain ⟨e0, e1⟩ := eps10_small
  refine ⟨rfl, ?_, ?_, Complex.neg_pi_lt_arg _, Complex.arg_le_pi _⟩
  · simp only [xyzToSph]
    rw [Real.arccos_pos]
    exact lt_of_le_of_lt (min_le_right _ _) (by linarith)
  · simp only [xyzToSph]
    rw [Real.arccos_lt_pi]
    exact lt_min (lt_of_lt_of_le (by linarith) (le_max_right _ _)) (by linarith)

theorem clampR_id {v lo hi : ℝ} (h1 : lo ≤ v) (h2 : v ≤ hi) : clampR v lo hi = v := by
  unfold clampR; rw [max_eq_left h1, min_eq_left h2]

/-- C38: spherical coordinates of a point convert back to the point. -/
theorem C38_inverse {x y z : ℝ} (hx : x ≠ 0)
    (hz : |z / Real.sqrt (x ^ 2 + y ^ 2 + z ^ 2)| ≤ 1 - eps10Double) :
    sphToXyz (xyzToSph eps10Double x y z).c0 (xyzToSph eps10Double x y z).c1 (xyzToSph eps10Double x y z).c2 = ⟨x, y, z⟩ := by
  obtain ⟨e0, e1⟩ := eps10_small
  have hx2 : 0 < x ^ 2 := by positivity
  have hs : 0 < x ^ 2 + y ^ 2 + z ^ 2 := by positivity
  have hr : 0 < Real.sqrt (x ^ 2 + y ^ 2 + z ^ 2) := Real.sqrt_pos.2 hs
  have hsq : Real.sqrt (x ^ 2 + y ^ 2 + z ^ 2) ^ 2 = x ^ 2 + y ^ 2 + z ^ 2 := Real.sq_sqrt hs.le
  simp only [xyzToSph, sphToXyz, if_neg hr.ne', if_neg hx, zero_mul, add_zero]
  set r := Real.sqrt (x ^ 2 + y ^ 2 + z ^ 2) with hrdef
  rw [abs_le] at hz
  rw [clampR_id (by linarith) hz.2, Real.sin_arccos, Real.cos_arccos (by linarith) (by linarith)]
  have hrho : r * Real.sqrt (1 - (z / r) ^ 2) = ‖(⟨x, y⟩ : ℂ)‖ := by
    rw [Complex.norm_def, Complex.normSq_mk]
    have : 1 - (z / r) ^ 2 = (x * x + y * y) / r ^ 2 := by field_simp; rw [hsq]; ring
    rw [this, Real.sqrt_div (add_nonneg (mul_self_nonneg _) (mul_self_nonneg _)), Real.sqrt_sq hr.le]
    field_simp
  have hne : (⟨x, y⟩ : ℂ) ≠ 0 := fun h => hx (congrArg Complex.re h)
  have h1 : ‖(⟨x, y⟩ : ℂ)‖ * Real.cos (atan2 y x) = x := Complex.norm_mul_cos_arg (⟨x, y⟩ : ℂ)
  have h2 : ‖(⟨x, y⟩ : ℂ)‖ * Real.sin (atan2 y x) = y := Complex.norm_mul_sin_arg (⟨x, y⟩ : ℂ)
  rw [hrho, h1, h2]
  congr 1
  field_simp

/-- C38, other direction: angles inside the clamped range are recovered from the point. -/
theorem C38_inverse' {r t p : ℝ} (hr : 0 < r) (ht0 : 0 ≤ t) (ht1 : t ≤ Real.pi) (hc : |Real.cos t| ≤ 1 - eps10Double)
    (hp0 : -Real.pi < p) (hp1 : p ≤ Real.pi) (hcp : Real.cos p ≠ 0) :
    xyzToSph eps10Double (sphToXyz r t p).c0 (sphToXyz r t p).c1 (sphToXyz r t p).c2 = ⟨r, t, p⟩ := by
  obtain ⟨e0, e1⟩ := eps10_small
  have hst : 0 < Real.sin t := by
    rcases (Real.sin_nonneg_of_nonneg_of_le_pi ht0 ht1).eq_or_lt with h | h
    · have := Real.sin_sq_add_cos_sq t
      rw [← h] at this
      have h2 : |Real.cos t| ^ 2 = 1 := by rw [sq_abs]; linarith
      nlinarith [abs_nonneg (Real.cos t)]
    · exact h
  have hrad : Real.sqrt ((r * Real.sin t * Real.cos p) ^ 2 + (r * Real.sin t * Real.sin p) ^ 2 + (r * Real.cos t) ^ 2) = r := by
    have : (r * Real.sin t * Real.cos p) ^ 2 + (r * Real.sin t * Real.sin p) ^ 2 + (r * Real.cos t) ^ 2 = r ^ 2 := by
      have a := Real.sin_sq_add_cos_sq t
      have b := Real.sin_sq_add_cos_sq p
      calc _ = r ^ 2 * (Real.sin t ^ 2 * (Real.sin p ^ 2 + Real.cos p ^ 2) + Real.cos t ^ 2) := by ring
        _ = r ^ 2 := by rw [b, mul_one, a, mul_one]
    rw [this, Real.sqrt_sq hr.le]
  have hx : r * Real.sin t * Real.cos p ≠ 0 := by positivity
  rw [abs_le] at hc
  have hat : atan2 (r * Real.sin t * Real.sin p) (r * Real.sin t * Real.cos p) = p := by
    have := Complex.arg_mul_cos_add_sin_mul_I (r := r * Real.sin t) (by positivity) (θ := p) ⟨hp0, hp1⟩
    unfold atan2
    refine Eq.trans ?_ this
    congr 1
    apply Complex.ext <;>
      simp [Complex.cos_ofReal_re, Complex.sin_ofReal_re, Complex.cos_ofReal_im, Complex.sin_ofReal_im]
  change xyzToSph eps10Double (r * Real.sin t * Real.cos p) (r * Real.sin t * Real.sin p) (r * Real.cos t) = _
  simp only [xyzToSph, hrad, if_neg hr.ne', mul_div_cancel_left₀ _ hr.ne']
  rw [clampR_id (by linarith) hc.2, Real.arccos_cos ht0 ht1, if_neg hx, zero_mul, add_zero, hat]

/-- Hermitian product of two vectors. -/
noncomputable def V3.herm (u v : V3 ℂ) : ℂ :=
  u.c0 * (starRingEnd ℂ) v.c0 + u.c1 * (starRingEnd ℂ) v.c1 + u.c2 * (starRingEnd ℂ) v.c2

/-- C38: the change of basis of the fields keeps Hermitian products. -/
theorem C38_unitary (E F : V3 ℂ) (t p : ℝ) :
    (fieldsSphToCart E t p).herm (fieldsSphToCart F t p) = E.herm F := by
  have a : ((Real.sin t : ℝ) : ℂ) ^ 2 + ((Real.cos t : ℝ) : ℂ) ^ 2 = 1 := by exact_mod_cast Real.sin_sq_add_cos_sq t
  have b : ((Real.sin p : ℝ) : ℂ) ^ 2 + ((Real.cos p : ℝ) : ℂ) ^ 2 = 1 := by exact_mod_cast Real.sin_sq_add_cos_sq p
  simp only [V3.herm, fieldsSphToCart, map_add, map_mul, map_neg, map_zero, Complex.conj_ofReal]
  generalize ((Real.sin t : ℝ) : ℂ) = st at *
  generalize ((Real.cos t : ℝ) : ℂ) = ct at *
  generalize ((Real.sin p : ℝ) : ℂ) = sp at *
  generalize ((Real.cos p : ℝ) : ℂ) = cp at *
  have a' : st ^ 2 = 1 - ct ^ 2 := by linear_combination a
  have b' : sp ^ 2 = 1 - cp ^ 2 := by linear_combination b
  ring_nf
  simp only [a', b']
  ring

/-- C38: the three unit vectors go to the directions in which the point moves when its coordinates change. -/
theorem C38_frame (r t p : ℝ) :
    HasDerivAt (fun s => ((sphToXyz s t p).c0 : ℂ)) (fieldsSphToCart ⟨1, 0, 0⟩ t p).c0 r ∧
    HasDerivAt (fun s => ((sphToXyz s t p).c1 : ℂ)) (fieldsSphToCart ⟨1, 0, 0⟩ t p).c1 r ∧
    HasDerivAt (fun s => ((sphToXyz s t p).c2 : ℂ)) (fieldsSphToCart ⟨1, 0, 0⟩ t p).c2 r ∧
    HasDerivAt (fun s => ((sphToXyz r s p).c0 : ℂ)) (r * (fieldsSphToCart ⟨0, 1, 0⟩ t p).c0) t ∧
    HasDerivAt (fun s => ((sphToXyz r s p).c1 : ℂ)) (r * (fieldsSphToCart ⟨0, 1, 0⟩ t p).c1) t ∧
    HasDerivAt (fun s => ((sphToXyz r s p).c2 : ℂ)) (r * (fieldsSphToCart ⟨0, 1, 0⟩ t p).c2) t ∧
    HasDerivAt (fun s => ((sphToXyz r t s).c0 : ℂ)) (r * Real.sin t * (fieldsSphToCart ⟨0, 0, 1⟩ t p).c0) p ∧
    HasDerivAt (fun s => ((sphToXyz r t s).c1 : ℂ)) (r * Real.sin t * (fieldsSphToCart ⟨0, 0, 1⟩ t p).c1) p ∧
    HasDerivAt (fun s => ((sphToXyz r t s).c2 : ℂ)) (r * Real.sin t * (fieldsSphToCart ⟨0, 0, 1⟩ t p).c2) p := by
  simp only [sphToXyz, fieldsSphToCart]
  have s1 := Real.hasDerivAt_sin t
  have c1 := Real.hasDerivAt_cos t
  have s2 := Real.hasDerivAt_sin p
  have c2 := Real.hasDerivAt_cos p
  have i := hasDerivAt_id r
  refine ⟨?_, ?_, ?_, ?_, ?_, ?_, ?_, ?_, ?_⟩
  · exact ((i.mul_const (Real.sin t)).mul_const (Real.cos p)).ofReal_comp.congr_deriv (by push_cast; ring)
  · exact ((i.mul_const (Real.sin t)).mul_const (Real.sin p)).ofReal_comp.congr_deriv (by push_cast; ring)
  · exact (i.mul_const (Real.cos t)).ofReal_comp.congr_deriv (by push_cast; ring)
  · exact ((s1.const_mul r).mul_const (Real.cos p)).ofReal_comp.congr_deriv (by push_cast; ring)
  · exact ((s1.const_mul r).mul_const (Real.sin p)).ofReal_comp.congr_deriv (by push_cast; ring)
  · exact (c1.const_mul r).ofReal_comp.congr_deriv (by push_cast; ring)
  · exact (c2.const_mul (r * Real.sin t)).ofReal_comp.congr_deriv (by push_cast; ring)
  · exact (s2.const_mul (r * Real.sin t)).ofReal_comp.congr_deriv (by push_cast; ring)
  · exact (hasDerivAt_const p ((r * Real.cos t : ℝ) : ℂ)).congr_deriv (by push_cast; ring)

/-- On the axis the transform is not inverse: the clamped polar angle moves the point off the axis. -/
theorem C38_axis (z : ℝ) (hz : z ≠ 0) :
    (sphToXyz (xyzToSph eps10Double 0 0 z).c0 (xyzToSph eps10Double 0 0 z).c1 (xyzToSph eps10Double 0 0 z).c2).c0 ≠ 0 := by
  obtain ⟨e0, e1⟩ := eps10_small
  obtain ⟨h0, h1, h2, _, _⟩ := C38_ranges 0 0 z
  simp only [sphToXyz, h0]
  have hr : 0 < Real.sqrt (0 ^ 2 + 0 ^ 2 + z ^ 2) := Real.sqrt_pos.2 (by positivity)
  have hs := Real.sin_pos_of_pos_of_lt_pi h1 h2
  have hp : (xyzToSph eps10Double 0 0 z).c2 = 0 := by
    simp only [xyzToSph, atan2, if_true, one_mul, zero_add]
    exact Complex.arg_ofReal_of_nonneg e0.le
  rw [hp, Real.cos_zero, mul_one]
  positivity

/-- The hypotheses are met. -/
example : (1 : ℝ) ≠ 0 ∧ |(1 : ℝ) / Real.sqrt (1 ^ 2 + 1 ^ 2 + 1 ^ 2)| ≤ 1 - eps10Double := by
  refine ⟨one_ne_zero, ?_⟩
  rw [abs_of_nonneg (by positivity), div_le_iff₀ (by positivity)]
  have : (3 / 2 : ℝ) ≤ Real.sqrt (1 ^ 2 + 1 ^ 2 + 1 ^ 2) := Real.le_sqrt_of_sq_le (by norm_num)
  unfold eps10Double
  nlinarith

/-- `C25_wiscombe_mono` and `C25_wiscombe_batch` apply. -/
example : (∃ n n', wiscombe [1, 2 * I] = .ok n ∧ wiscombe [3] = .ok n' ∧ n ≤ n') ∧ wiscombe [1, 2 * I] = wiscombe [2 * I] := by
  refine ⟨⟨_, _, rfl, rfl, C25_wiscombe_mono (ka := [1, 2 * I]) (ka' := [3]) rfl rfl ?_⟩, C25_wiscombe_batch (by simp) ?_⟩
  · intro z hz
    refine ⟨3, by simp, ?_⟩
    simp only [List.mem_cons, List.not_mem_nil, or_false] at hz
    rcases hz with rfl | rfl <;> norm_num
  · intro z hz
    simp only [List.mem_cons, List.not_mem_nil, or_false] at hz
    rcases hz with rfl | rfl <;> norm_num

/-- `C33_table`, `C33_outside` and `C33_row_order` apply to a table of three rows. -/
example : let dat : List (ℝ × ℂ) := [(2, 5), (1, 3), (0, 1)]
    interp1d 1 dat = .ok 3 ∧ interp1d (-7) dat = .ok 1 ∧ interp1d 9 dat = .ok 5 ∧ interp1d 1.5 dat = interp1d 1.5 [(0, 1), (1, 3), (2, 5)] := by
  intro dat
  have hd : DistinctRows dat := by norm_num [DistinctRows, dat]
  refine ⟨C33_table hd (by simp [dat]), (C33_outside hd (x0 := 0) (by simp [dat])).1 (by norm_num) ?_,
    (C33_outside hd (x0 := 2) (by simp [dat])).2 (by norm_num) ?_, (C33_row_order hd ?_ _).1⟩
  · intro p hp
    simp only [dat, List.mem_cons, List.not_mem_nil, or_false] at hp
    rcases hp with rfl | rfl | rfl <;> norm_num
  · intro p hp
    simp only [dat, List.mem_cons, List.not_mem_nil, or_false] at hp
    rcases hp with rfl | rfl | rfl <;> norm_num
  · exact (List.reverse_perm dat).symm

end MieDiff
