import Verif.Proofs.Seq
import Verif.Proofs.Bessel
import Verif.Proofs.Legendre

/-!
# Refinement of the loops of the torch-native Bessel functions and of `pi_tau`
-/

namespace MieDiff

open Complex

/-- Loop rule for a fold over a mapped range in the exception monad. -/
theorem foldlM_range_map {σ : Type*} (step : σ → ℕ → Py σ) (inv : ℕ → σ) (c n : ℕ)
    (h : ∀ m < n, step (inv m) (m + c) = .ok (inv (m + 1))) :
    ((List.range n).map (· + c)).foldlM step (inv 0) = .ok (inv n) := by
  induction n with
  | zero => rfl
  | succ n ih =>
    rw [List.range_succ, List.map_append, List.foldlM_append, ih (fun m hm => h m (by omega))]
    have e : (do
        let init ← (Except.ok (inv n) : Py σ)
        List.foldlM step init ([n].map (· + c))) = step (inv n) (n + c) := by
      simp only [List.map_cons, List.map_nil, List.foldlM_cons, List.foldlM_nil, Bind.bind,
        Except.bind]
      cases step (inv n) (n + c) <;> rfl
    rw [e, h n (by omega)]

theorem guardSet_of_le {eps : ℝ} {z : ℂ} (h : eps ≤ ‖z‖) : guardSet eps z = z := by
  unfold guardSet; rw [if_neg (not_lt.2 h)]

theorem guardAdd_of_le {eps : ℝ} {z : ℂ} (h : eps ≤ ‖z‖) : guardAdd eps z = z := by
  unfold guardAdd; rw [if_neg (not_lt.2 h)]

theorem sphYnTorch_eq (n : ℕ) (z : ℂ) {eps : ℝ} (heps : 0 < eps) (h : eps ≤ ‖z‖) :
    sphYnTorch n z eps = .ok (tab n (fun k => Spec.sphY k z)) := by
  have hz : z ≠ 0 := by
    rintro rfl; simp at h; linarith
  unfold sphYnTorch
  rw [if_neg (by omega)]
  simp only [Int.toNat_natCast, guardSet_of_le h]
  have e0 : -1 * (cos z / z) = Spec.sphY 0 z := by rw [Spec.sphY_zero]; ring
  have e1 : -1 * (cos z / z ^ 2 + sin z / z) = Spec.sphY 1 z := by rw [Spec.sphY_one hz]; ring
  rw [e0, e1]
  match n with
  | 0 => simp [tab_zero]
  | 1 => simp [tab_succ, tab_zero]
  | n + 2 =>
    rw [if_pos (by omega), if_pos (by omega)]
    have hl : ([Spec.sphY 0 z] ++ [Spec.sphY 1 z]) = tab 1 (fun k => Spec.sphY k z) := by
      simp [tab_succ, tab_zero]
    rw [hl]
    have := foldlM_range_map (yRecStep z) (fun m => tab (m + 1) (fun k => Spec.sphY k z)) 2 (n + 1)
      (by
        intro m hm
        unfold yRecStep
        rw [show m + 2 - 1 = m + 1 from rfl, show m + 2 - 2 = m from rfl,
          pyIdx_tab (by omega), pyIdx_tab (by omega), tab_succ (m + 1)]
        have h3 := Spec.sphY_seq.three m hz
        simp only [Bind.bind, Except.bind]
        rw [h3]
        congr 4
        push_cast
        ring)
    simpa using this

/-! ## `pi_tau` -/

/-- The polynomial form of `tau_n`. -/
noncomputable def tauVal (mu : ℝ) : ℕ → ℝ
  | 0 => 0
  | n + 1 => ((n + 1 : ℕ) : ℝ) * mu * Spec.angPi (n + 1) mu - (((n + 1 : ℕ) : ℝ) + 1) * Spec.angPi n mu

theorem piTau_eq (n : ℕ) (hn : 1 ≤ n) (mu : ℝ) :
    piTau n mu = .ok (tab n (fun k => Spec.angPi k mu), tab n (tauVal mu)) := by
  unfold piTau
  rw [if_neg (by omega)]
  simp only [Int.toNat_natCast]
  obtain ⟨n, rfl⟩ : ∃ m, n = m + 1 := ⟨n - 1, by omega⟩
  have h1 := foldlM_rangeFrom1 (piStep mu) (fun m => tab (m + 1) (fun k => Spec.angPi k mu)) n
    (by
      intro m hm
      unfold piStep
      rw [Nat.add_sub_cancel, pyIdx_tab (by omega), pyIdx_tab (by omega), tab_succ (m + 1)]
      simp only [Bind.bind, Except.bind]
      rw [Spec.angPi_rec m mu]
      push_cast
      congr 4
      ring)
  have e0 : tab (0 + 1) (fun k => Spec.angPi k mu) = [0, 1] := by
    rw [tab_succ, tab_zero, Spec.angPi_zero, show 0 + 1 = 1 from rfl, Spec.angPi_one]; rfl
  rw [e0] at h1
  rw [h1]
  have h2 := foldlM_rangeFrom1 (tauStep mu (tab (n + 1) (fun k => Spec.angPi k mu)))
    (fun m => tab m (tauVal mu)) (n + 1)
    (by
      intro m hm
      unfold tauStep
      rw [Nat.add_sub_cancel, pyIdx_tab (by omega), pyIdx_tab (by omega), tab_succ m]
      rfl)
  rw [tab_zero] at h2
  simp only [Bind.bind, Except.bind]
  have e1 : [tauVal mu 0] = [0] := rfl
  rw [e1] at h2
  rw [h2]

theorem tauVal_cos (n : ℕ) (t : ℝ) : tauVal (Real.cos t) n = Spec.angTau n t := by
  cases n with
  | zero => rw [Spec.angTau_zero]; rfl
  | succ n => rw [Spec.angTau_succ, tauVal]; push_cast; ring

theorem tauVal_diff (n : ℕ) (mu : ℝ) :
    tauVal mu n = mu * Spec.angPi n mu - (1 - mu ^ 2) * Spec.angPi' n mu := by
  cases n with
  | zero =>
    have : Spec.angPi' 0 mu = 0 := by
      unfold Spec.angPi' Spec.legendre; simp
    simp [tauVal, Spec.angPi_zero, this]
  | succ n =>
    have h1 := Spec.legendre_ode (n + 1) mu
    have h2 := Spec.angPi_diff n mu
    push_cast at h1
    unfold tauVal
    push_cast
    linear_combination h1 + ((n : ℝ) + 2) * h2

/-! ## `f_der` -/

theorem fDer_eq {f : ℕ → ℂ → ℂ} (hf : Spec.BesselSeq f) (n : ℕ) {z : ℂ} (hz : z ≠ 0) :
    fDer z (tab (n + 1) (fun k => f k z)) = .ok (tab (n + 1) (fun k => deriv (f k) z)) := by
  unfold fDer
  rw [pyIdx_tab (by omega)]
  simp only [tab_length, Nat.add_sub_cancel, Bind.bind, Except.bind]
  congr 1
  rw [tab_cons n (fun k => deriv (f k) z)]
  congr 1
  · rw [(hf.raise 0 z hz).deriv]; simp
  · unfold tab
    apply List.map_congr_left
    intro i hi
    have hi' : i ≤ n := by simpa [Nat.lt_succ_iff] using hi
    have h1 := tab_getD (f := fun k => f k z) (show i ≤ n + 1 by omega) 0
    have h2 := tab_getD (f := fun k => f k z) (show i + 1 ≤ n + 1 by omega) 0
    unfold tab at h1 h2
    rw [h1, h2, (hf.lower i z hz).deriv]
    push_cast
    ring

end MieDiff
