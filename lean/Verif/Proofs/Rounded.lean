import Verif.Spec.Rounding
import Verif.Proofs.GradLimit

/-!
# Rounding errors in the pena solver

First the downward recurrence: rounding errors are damped, so its relative error does not grow with the depth.  Then
convergence of all operations of the solver as the rounding error tends to zero.
-/

namespace MieDiff

open Complex Spec Filter Topology

namespace Arith

/-! ## Downward recurrence -/

theorem d1Down_top (A : Arith) (z : ℂ) (N : ℕ) : A.d1Down z N (N - N) = 0 := by simp [d1Down]

theorem d1Down_step (A : Arith) (z : ℂ) {N p : ℕ} (h : p < N) :
    A.d1Down z N (N - p) = A.sub (A.div ((p + 1 : ℕ) : ℂ) z)
      (A.div 1 (A.guard (A.add (A.d1Down z N (N - (p + 1))) (A.div ((p + 1 : ℕ) : ℂ) z)))) := by
  obtain ⟨j, hj⟩ : ∃ j, N - p = j + 1 := ⟨N - p - 1, by omega⟩
  have h1 : N - (p + 1) = j := by omega
  have h2 : N - j = p + 1 := by omega
  rw [hj, h1]
  simp only [d1Down, h2]

variable {A : Arith} {u : ℝ}

set_option maxHeartbeats 1000000 in
/-- One step of the recurrence.  `x` is the value at order `p + 1`. -/
theorem d1_one (hA : A.Within u) (hu0 : 0 ≤ u) (hu : u ≤ 1 / 100) {z : ℂ} (hz : z ≠ 0) {p : ℕ} (hp : 4 * ‖z‖ ≤ p + 1)
    {x : ℂ} (hx : x = 0 ∨ ‖x - ((p : ℂ) + 2) / z‖ ≤ 1 / 2 + 3 * u * ((p + 2) / ‖z‖)) :
    ‖A.sub (A.div ((p + 1 : ℕ) : ℂ) z) (A.div 1 (A.guard (A.add x (A.div ((p + 1 : ℕ) : ℂ) z)))) - ((p : ℂ) + 1) / z‖ ≤
        1 / 2 + 3 * u * ((p + 1) / ‖z‖) ∧
      (‖x - ((p : ℂ) + 2) / z‖ ≤ 1 / 2 + 3 * u * ((p + 2) / ‖z‖) →
        ‖A.sub (A.div ((p + 1 : ℕ) : ℂ) z) (A.div 1 (A.guard (A.add x (A.div ((p + 1 : ℕ) : ℂ) z)))) - logD1 p z‖ ≤
          ‖x - logD1 (p + 1) z‖ / 6 + 3 * u * ((p + 1) / ‖z‖)) := by
  have hzp : 0 < ‖z‖ := norm_pos_iff.2 hz
  obtain ⟨s, hs⟩ : ∃ s, s = ((p : ℝ) + 1) / ‖z‖ := ⟨_, rfl⟩
  obtain ⟨t, ht⟩ : ∃ t, t = ((p : ℝ) + 2) / ‖z‖ := ⟨_, rfl⟩
  have hs4 : 4 ≤ s := by rw [hs, le_div_iff₀ hzp]; exact hp
  have hst : s ≤ t := by rw [hs, ht]; gcongr; linarith
  have hts : t ≤ 2 * s := by
    rw [hs, ht, ← mul_div_assoc]
    gcongr
    have : (0 : ℝ) ≤ p := Nat.cast_nonneg p
    linarith
  obtain ⟨w, hw⟩ : ∃ w, w = ((p : ℂ) + 1) / z := ⟨_, rfl⟩
  have hws : ‖w‖ = s := by
    rw [hw, hs]; exact norm_natCast_div _ (by positivity) _ _ (by push_cast; ring)
  obtain ⟨w', hw'⟩ : ∃ w', w' = ((p : ℂ) + 2) / z := ⟨_, rfl⟩
  have hwt : ‖w'‖ = t := by
    rw [hw', ht]; exact norm_natCast_div _ (by positivity) _ _ (by push_cast; ring)
  have hww : ‖w' + w‖ = t + s := by
    have e : w' + w = (2 * (p : ℂ) + 3) / z := by rw [hw, hw']; ring
    rw [e, norm_natCast_div (2 * (p : ℝ) + 3) (by positivity) _ _ (by push_cast; ring), hs, ht]
    ring
  have hcast : (((p + 1 : ℕ) : ℂ)) / z = w := by rw [hw]; push_cast; ring
  obtain ⟨num, hnum⟩ : ∃ num, num = A.div ((p + 1 : ℕ) : ℂ) z := ⟨_, rfl⟩
  have hn : ‖num - w‖ ≤ u * s := by
    have := hA.div ((p + 1 : ℕ) : ℂ) z hz
    rwa [hcast, hws, ← hnum] at this
  rw [← hw', ← ht] at hx
  rw [← hnum, ← hw, ← hw', ← hs, ← ht]
  have us : u * s ≤ s / 100 := by nlinarith
  have ut : u * t ≤ t / 100 := by nlinarith
  have us0 : 0 ≤ u * s := by positivity
  have ut0 : 0 ≤ u * t := by nlinarith
  have hnn : ‖num‖ ≤ s + u * s := by
    have := norm_le_norm_add_norm_sub' num w
    rw [hws] at this; linarith
  -- size of the denominator
  obtain ⟨d, hd⟩ : ∃ d, d = A.add x num := ⟨_, rfl⟩
  have hda : ‖d - (x + num)‖ ≤ u * ‖x + num‖ := by rw [hd]; exact hA.add x num
  have hxn : 97 / 100 * s + s / 100 ≤ ‖x + num‖ := by
    rcases hx with h0 | hx
    · rw [h0, zero_add]
      have := norm_sub_norm_le w (w - num)
      have e : w - (w - num) = num := by ring
      rw [e, hws, norm_sub_rev] at this
      linarith
    · have e : x + num = (w' + w) - ((w' - x) + (w - num)) := by ring
      have h1 := norm_sub_norm_le (w' + w) ((w' - x) + (w - num))
      have h2 := norm_add_le (w' - x) (w - num)
      rw [norm_sub_rev w' x, norm_sub_rev w num] at h2
      rw [← e, hww] at h1
      linarith
  have hdl : 97 / 100 * s ≤ ‖d‖ := by
    have h1 := norm_sub_norm_le (x + num) ((x + num) - d)
    have e : (x + num) - ((x + num) - d) = d := by ring
    rw [e, norm_sub_rev] at h1
    nlinarith [norm_nonneg (x + num)]
  have hd3 : 38 / 10 ≤ ‖d‖ := by linarith
  have hg : A.guard d = d := by
    unfold guard
    rw [if_neg]
    have h1 := (abs_le.1 (hA.abs d)).1
    have h2 : solverEps < 1 := by unfold solverEps; norm_num
    push Not
    nlinarith
  have hd0 : d ≠ 0 := by rintro h; rw [h, norm_zero] at hd3; linarith
  rw [← hd, hg]
  obtain ⟨q, hq⟩ : ∃ q, q = A.div 1 d := ⟨_, rfl⟩
  have hdi : ‖1 / d‖ ≤ 27 / 100 := by
    rw [norm_div, norm_one, div_le_iff₀ (by linarith)]
    linarith
  have hqe : ‖q - 1 / d‖ ≤ u * (27 / 100) := by
    rw [hq]; exact (hA.div 1 d hd0).trans (by gcongr)
  have hqn : ‖q‖ ≤ 28 / 100 := by
    have := norm_le_norm_add_norm_sub' q (1 / d)
    linarith
  have hre : ‖A.sub num q - (num - q)‖ ≤ u * (s + u * s + 28 / 100) := by
    refine (hA.sub num q).trans ?_
    gcongr
    exact (norm_sub_le _ _).trans (by linarith)
  have hrs : u * (s + u * s + 28 / 100) ≤ 108 / 100 * (u * s) := by nlinarith
  rw [← hq]
  constructor
  · have e : A.sub num q - w = (A.sub num q - (num - q)) + ((num - w) - q) := by ring
    rw [e]
    have h1 := norm_add_le (A.sub num q - (num - q)) ((num - w) - q)
    have h2 := norm_sub_le (num - w) q
    linarith
  · intro hx
    have h2z : 2 * ‖z‖ ≤ (p : ℝ) + 1 := by linarith
    have h2z' : 2 * ‖z‖ ≤ ((p + 1 : ℕ) : ℝ) + 1 := by push_cast; linarith
    have hL := logD1_near (p + 1) hz h2z'
    obtain ⟨L, hLd⟩ : ∃ L, L = logD1 (p + 1) z := ⟨_, rfl⟩
    have ew : (((p + 1 : ℕ) : ℂ) + 1) / z = w' := by rw [hw']; push_cast; ring
    rw [ew, ← hLd] at hL
    have hstep := logD1_step p hz (ricPsi_ratio p hz h2z).1 (ricPsi_ratio (p + 1) hz h2z').1
    rw [← hw, ← hLd] at hstep
    rw [← hLd, hstep]
    obtain ⟨e0, he0⟩ : ∃ e0, e0 = L + w := ⟨_, rfl⟩
    rw [← he0]
    have hel : 15 / 10 * s ≤ ‖e0‖ := by
      have e : e0 = (w' + w) - (w' - L) := by rw [he0]; ring
      have h1 := norm_sub_norm_le (w' + w) (w' - L)
      rw [← e, hww, norm_sub_rev] at h1
      linarith
    have he6 : 6 ≤ ‖e0‖ := by linarith
    have hee : e0 ≠ 0 := by rintro h; rw [h, norm_zero] at he6; linarith
    have hxs : ‖x + num‖ ≤ 4 * s := by
      have e : x + num = (x - w') + (w' + num) := by ring
      have h1 := norm_add_le (x - w') (w' + num)
      have h2 := norm_add_le w' num
      rw [← e] at h1
      rw [hwt] at h2
      linarith
    have hde : ‖d - e0‖ ≤ ‖x - L‖ + 5 * (u * s) := by
      have e : d - e0 = (d - (x + num)) + ((x - L) + (num - w)) := by rw [he0]; ring
      rw [e]
      have h1 := norm_add_le (d - (x + num)) ((x - L) + (num - w))
      have h2 := norm_add_le (x - L) (num - w)
      have h3 : u * ‖x + num‖ ≤ 4 * (u * s) := by nlinarith
      linarith
    have hinv : ‖1 / e0 - 1 / d‖ ≤ (‖x - L‖ + 5 * (u * s)) / 6 := by
      rw [div_sub_div _ _ hee hd0, one_mul, mul_one, norm_div, norm_mul, div_le_div_iff₀ (by positivity) (by norm_num)]
      have h22 : 6 * 1 ≤ ‖e0‖ * ‖d‖ := mul_le_mul he6 (by linarith) zero_le_one (by linarith)
      have hB : 0 ≤ ‖x - L‖ + 5 * (u * s) := by positivity
      exact mul_le_mul hde (by linarith) (by norm_num) hB
    have e : A.sub num q - (w - 1 / e0) = (A.sub num q - (num - q)) + ((num - w) + ((1 / e0 - 1 / d) - (q - 1 / d))) := by ring
    rw [e]
    have h1 := norm_add_le (A.sub num q - (num - q)) ((num - w) + ((1 / e0 - 1 / d) - (q - 1 / d)))
    have h2 := norm_add_le (num - w) ((1 / e0 - 1 / d) - (q - 1 / d))
    have h3 := norm_sub_le (1 / e0 - 1 / d) (q - 1 / d)
    have h4 : u * (27 / 100) ≤ 7 / 100 * (u * s) := by nlinarith
    linarith

theorem d1_near (hA : A.Within u) (hu0 : 0 ≤ u) (hu : u ≤ 1 / 100) {z : ℂ} (hz : z ≠ 0) (N : ℕ) :
    ∀ j p : ℕ, p + (j + 1) = N → 4 * ‖z‖ ≤ p + 1 →
      ‖A.d1Down z N (N - p) - ((p : ℂ) + 1) / z‖ ≤ 1 / 2 + 3 * u * ((p + 1) / ‖z‖) := by
  intro j
  induction j with
  | zero =>
    intro p hN hp
    rw [d1Down_step A z (by omega)]
    exact (d1_one hA hu0 hu hz hp (Or.inl (by rw [← hN]; simp [d1Down]))).1
  | succ j ih =>
    intro p hN hp
    have h1 := ih (p + 1) (by omega) (by push_cast; linarith)
    rw [d1Down_step A z (by omega)]
    refine (d1_one hA hu0 hu hz hp (Or.inr ?_)).1
    push_cast at h1
    convert h1 using 2
    · congr 2; ring
    · congr 2; ring

/-- The error of the recurrence: truncation error falling with the depth plus a rounding error which does not depend on
the depth. -/
theorem d1_error (hA : A.Within u) (hu0 : 0 ≤ u) (hu : u ≤ 1 / 100) {z : ℂ} (hz : z ≠ 0) (N : ℕ) :
    ∀ j p : ℕ, p + (j + 1) = N → 4 * ‖z‖ ≤ p + 1 →
      ‖A.d1Down z N (N - p) - logD1 p z‖ ≤ (1 / 6) ^ j + 6 * u * ((p + 2) / ‖z‖) := by
  have hzp : 0 < ‖z‖ := norm_pos_iff.2 hz
  intro j
  induction j with
  | zero =>
    intro p hN hp
    have h1 := d1_near hA hu0 hu hz N 0 p hN hp
    have h2 := logD1_near p hz (by linarith)
    have h3 := norm_sub_le (A.d1Down z N (N - p) - ((p : ℂ) + 1) / z) (logD1 p z - ((p : ℂ) + 1) / z)
    have e : A.d1Down z N (N - p) - ((p : ℂ) + 1) / z - (logD1 p z - ((p : ℂ) + 1) / z) =
      A.d1Down z N (N - p) - logD1 p z := by ring
    rw [e] at h3
    have h4 : u * (((p : ℝ) + 1) / ‖z‖) ≤ u * ((p + 2) / ‖z‖) := by gcongr; linarith
    have h5 : 0 ≤ u * (((p : ℝ) + 1) / ‖z‖) := by positivity
    rw [pow_zero]
    linarith
  | succ j ih =>
    intro p hN hp
    have h0 := d1_near hA hu0 hu hz N j (p + 1) (by omega) (by push_cast; linarith)
    have h1 := ih (p + 1) (by omega) (by push_cast; linarith)
    have e : ((p + 1 : ℕ) : ℂ) + 1 = (p : ℂ) + 2 := by push_cast; ring
    have e' : ((p + 1 : ℕ) : ℝ) + 1 = (p : ℝ) + 2 := by push_cast; ring
    rw [e, e'] at h0
    rw [d1Down_step A z (by omega)]
    have h2 := (d1_one hA hu0 hu hz hp (Or.inr h0)).2 h0
    refine h2.trans ?_
    have e2 : ((p + 1 : ℕ) : ℝ) + 2 = (p : ℝ) + 3 := by push_cast; ring
    rw [e2] at h1
    have h3 : u * (((p : ℝ) + 3) / ‖z‖) / 1 + 3 * (u * ((p + 1) / ‖z‖)) ≤ 6 * (u * ((p + 2) / ‖z‖)) := by
      have a : ∀ c : ℝ, u * (c / ‖z‖) = c * (u / ‖z‖) := fun c => by ring
      rw [div_one, a, a, a]
      have : 0 ≤ u / ‖z‖ := by positivity
      have hp0 : (0 : ℝ) ≤ p := Nat.cast_nonneg p
      nlinarith
    rw [pow_succ]
    linarith

end Arith

end MieDiff
