import Verif.Proofs.Batch
import Verif.Spec.Layout

/-!
# Broadcasting of the input arrays
-/

namespace MieDiff
open Complex
namespace Ten
theorem bDim_one_left (n : ℕ) : bDim 1 n = .ok n := by
  unfold bDim; split_ifs with h <;> simp_all
theorem bDim_one_right (n : ℕ) : bDim n 1 = .ok n := by
  unfold bDim; split_ifs with h <;> simp_all
theorem bDim_self (n : ℕ) : bDim n n = .ok n := by simp [bDim]
theorem bi_lt {d i : ℕ} (h : i < d) : bi d i = i := by unfold bi; split_ifs <;> omega
@[simp] theorem bi_one (i : ℕ) : bi 1 i = 0 := by simp [bi]

theorem op2_ok {α β γ : Type} (f : α → β → γ) (s : Ten α) (t : Ten β) {sh : List ℕ} (h : bShape s.shape t.shape = .ok sh) :
    op2 f s t = .ok ⟨sh, fun idx => f (s.get (bIdx s.shape idx)) (t.get (bIdx t.shape idx))⟩ := by
  unfold op2; rw [h]; rfl

theorem squeeze_k0 (s : List ℕ) {nk : ℕ} (h : s.filter (· ≠ 1) = [nk]) (k : ℕ) :
    unsqIdx s [k] = s.map fun d => if d = 1 then 0 else k := by
  induction s with
  | nil => simp at h
  | cons d s ih =>
    by_cases hd : d = 1
    · subst hd
      simp only [unsqIdx, List.map_cons, if_true]
      rw [ih (by simpa using h)]
    · simp only [unsqIdx, if_neg hd, List.map_cons, List.headD_cons, List.tail_cons]
      have hs : s.filter (· ≠ 1) = [] := by
        rw [List.filter_cons_of_pos (by simpa using hd)] at h
        simpa using (List.cons.inj h).2
      congr 1
      clear ih h
      induction s with
      | nil => rfl
      | cons e s ih =>
        by_cases he : e = 1
        · subst he
          simp only [unsqIdx, List.map_cons, if_true]
          rw [ih (by simpa using hs)]
        · rw [List.filter_cons_of_pos (by simpa using he)] at hs
          exact absurd hs (by simp)

theorem squeeze_k0' (s : List ℕ) (h : s.filter (· ≠ 1) = []) (k : ℕ) (idx : List ℕ) :
    unsqIdx s idx = s.map fun d => if d = 1 then 0 else k := by
  induction s with
  | nil => rfl
  | cons e s ih =>
    by_cases he : e = 1
    · subst he
      simp only [unsqIdx, List.map_cons, if_true]
      rw [ih (by simpa using h)]
    · rw [List.filter_cons_of_pos (by simpa using he)] at h
      exact absurd h (by simp)
end Ten

/-- What `broadcastMieLayers` guarantees about the shapes. -/
structure Bcast.WF (b : Bcast) : Prop where
  k0 : b.k0.shape = [1, b.nK]
  r : b.r.shape = [b.nPart, b.nLayers]
  eps : b.eps.shape = [b.nPart, b.nLayers, b.nK]
  env : b.env.shape = [1, b.nK]
  inc : rowsIncreasing b.nPart b.nLayers b.r

theorem stretchParticles_ok {np a b c : ℕ} (g : List ℕ → ℂ) (ha : a = np ∨ a = 1 ∧ 1 ≤ np) :
    ∃ e1 : Ten ℂ, stretchParticles np a b c ⟨[a, b, c], g⟩ = .ok e1 ∧ e1.shape = [np, b, c] ∧
      ∀ p, p < np → ∀ l, l < b → ∀ k, k < c → e1.get [p, l, k] = g [if a = 1 then 0 else p, l, k] := by
  unfold stretchParticles
  by_cases h : a = 1 ∧ np > 1
  · rw [if_pos h]
    obtain ⟨rfl, _⟩ := h
    refine ⟨_, by simp [Ten.broadcastTo]; rfl, rfl, ?_⟩
    intro p hp l hl k hk
    simp [Ten.bIdx, Ten.bi_lt hl, Ten.bi_lt hk]
  · rw [if_neg h]
    have : a = np := by omega
    subst this
    refine ⟨_, rfl, rfl, ?_⟩
    intro p hp l hl k hk
    simp only
    split_ifs with h1
    · congr 2; omega
    · rfl

theorem expandEps_some {np nl nk : ℕ} {eps : Ten ℂ} {f} (h : Spec.epsIndex np nl nk eps.shape = some f) :
    ∃ e, expandEps np nl nk eps = .ok e ∧ e.shape = [np, nl, nk] ∧
      ∀ p, p < np → ∀ l, l < nl → ∀ k, k < nk → e.get [p, l, k] = eps.get (f p l k) := by
  obtain ⟨s, g⟩ := eps
  match s with
  | [] =>
    simp only [Spec.epsIndex] at h
    split_ifs at h with h1
    cases h
    subst h1
    refine ⟨_, by simp [expandEps, Ten.atleast1, Ten.broadcastTo]; rfl, rfl, ?_⟩
    intro p hp l hl k hk
    simp
  | [a] =>
    simp only [Spec.epsIndex] at h
    split_ifs at h with h1
    cases h
    subst h1
    refine ⟨_, by simp [expandEps, Ten.atleast1, Ten.broadcastTo]; rfl, rfl, ?_⟩
    intro p hp l hl k hk
    simp [Ten.bIdx, Ten.bi_lt hl]
  | [a, b] =>
    simp only [Spec.epsIndex] at h
    split_ifs at h with h1 h2
    · cases h
      obtain ⟨rfl, rfl⟩ := h1
      refine ⟨_, by simp [expandEps, Ten.atleast1, Ten.broadcastTo, Ten.unsqueeze]; rfl, rfl, ?_⟩
      intro p hp l hl k hk
      simp [Ten.bIdx, Ten.bi_lt hl, Ten.bi_lt hp]
    · cases h
      obtain ⟨rfl, rfl⟩ := h2
      refine ⟨_, by simp [expandEps, Ten.atleast1, Ten.broadcastTo, Ten.unsqueeze, h1]; rfl, rfl, ?_⟩
      intro p hp l hl k hk
      simp [Ten.bIdx, Ten.bi_lt hl, Ten.bi_lt hk]
  | [a, b, c] =>
    simp only [Spec.epsIndex] at h
    by_cases h1 : b = nl ∧ (a = np ∨ a = 1 ∧ 1 ≤ np) ∧ (c = nk ∨ c = 1 ∧ 1 ≤ nk)
    swap
    · rw [if_neg h1] at h; cases h
    rw [if_pos h1] at h
    cases h
    obtain ⟨rfl, ha, hc⟩ := h1
    have hA := stretchParticles_ok (b := b) (c := c) g ha
    obtain ⟨e1, he1, hs1, hg1⟩ := hA
    simp only [expandEps, Ten.atleast1]
    rw [he1]
    simp only [Bind.bind, Except.bind]
    rw [if_neg (by rw [hs1]; simp)]
    by_cases h : c = 1 ∧ nk > 1
    · rw [if_pos h]
      obtain ⟨rfl, _⟩ := h
      refine ⟨_, by rw [Ten.broadcastTo, hs1]; simp; rfl, rfl, ?_⟩
      intro p hp l hl k hk
      simp [Ten.bIdx, Ten.bi_lt hl, Ten.bi_lt hp]
      rw [hg1 p hp l hl 0 (by omega)]
    · rw [if_neg h]
      have : c = nk := by omega
      subst this
      rw [if_neg (by simp)]
      refine ⟨_, rfl, hs1, ?_⟩
      intro p hp l hl k hk
      rw [hg1 p hp l hl k hk]
      split_ifs with h1 h2 h2
      · congr 2; simp; omega
      · rfl
      · congr 2; simp; omega
      · rfl
  | _ :: _ :: _ :: _ :: _ => simp [Spec.epsIndex] at h

theorem expandEps_none {np nl nk : ℕ} {eps : Ten ℂ} (h : Spec.epsIndex np nl nk eps.shape = none) :
    expandEps np nl nk eps = .error .valueError := by
  obtain ⟨s, g⟩ := eps
  match s with
  | [] =>
    simp only [Spec.epsIndex] at h
    split_ifs at h with h1
    simp [expandEps, Ten.atleast1, Ne.symm h1]
  | [a] =>
    simp only [Spec.epsIndex] at h
    split_ifs at h with h1
    simp [expandEps, Ten.atleast1, h1]
  | [a, b] =>
    simp only [Spec.epsIndex] at h
    split_ifs at h with h1 h2
    simp only [expandEps, Ten.atleast1]
    rw [if_neg h1, if_neg h2]
  | [a, b, c] =>
    simp only [Spec.epsIndex] at h
    split_ifs at h with h1
    simp only [expandEps, Ten.atleast1]
    by_cases ha : a = np ∨ a = 1 ∧ 1 ≤ np
    · obtain ⟨e1, he1, hs1, -⟩ := stretchParticles_ok (b := b) (c := c) g ha
      rw [he1]
      simp only [Bind.bind, Except.bind]
      by_cases hb : b = nl
      · rw [if_neg (by rw [hs1, hb]; simp), if_neg (by intro hc; exact h1 ⟨hb, ha, .inr ⟨hc.1, by omega⟩⟩),
          if_pos (by intro hc; exact h1 ⟨hb, ha, .inl hc⟩)]
      · rw [if_pos (by rw [hs1]; simpa using hb)]
    · unfold stretchParticles
      rw [if_neg (by omega)]
      simp only [Bind.bind, Except.bind]
      rw [if_pos (by simp; omega)]
  | _ :: _ :: _ :: _ :: _ => simp [expandEps, Ten.atleast1]

theorem expandEnv_some {nk : ℕ} {env : Ten ℂ} {f} (h : Spec.envIndex nk env.shape = some f) :
    ∃ e, expandEnv nk env = .ok e ∧ e.shape = [nk] ∧ ∀ k, k < nk → e.get [k] = env.get (f k) := by
  obtain ⟨s, g⟩ := env
  match s with
  | [] =>
    simp only [Spec.envIndex] at h
    split_ifs at h with h1
    cases h
    simp only [expandEnv, Ten.atleast1]
    by_cases h2 : nk > 1
    · rw [if_pos (by simp [h2])]
      exact ⟨_, by simp [Ten.broadcastTo]; rfl, rfl, fun k hk => rfl⟩
    · have : nk = 1 := by omega
      subst this
      exact ⟨_, by simp; rfl, rfl, fun k hk => rfl⟩
  | [a] =>
    simp only [Spec.envIndex] at h
    simp only [expandEnv, Ten.atleast1]
    split_ifs at h with h1 h2
    · cases h
      subst h1
      refine ⟨_, by rw [if_neg (by omega)]; simp; rfl, rfl, fun k hk => rfl⟩
    · cases h
      obtain ⟨rfl, h3⟩ := h2
      refine ⟨_, by rw [if_pos (by omega)]; simp [Ten.broadcastTo]; rfl, rfl, fun k hk => ?_⟩
      simp [Ten.bIdx]
  | _ :: _ :: _ => simp [Spec.envIndex] at h

theorem expandEnv_none {nk : ℕ} {env : Ten ℂ} (h : Spec.envIndex nk env.shape = none) :
    expandEnv nk env = .error .valueError := by
  obtain ⟨s, g⟩ := env
  match s with
  | [] =>
    simp only [Spec.envIndex] at h
    split_ifs at h with h1
    simp only [expandEnv, Ten.atleast1]
    rw [if_neg (by omega), if_pos (by omega)]
  | [a] =>
    simp only [Spec.envIndex] at h
    simp only [expandEnv, Ten.atleast1]
    split_ifs at h with h1 h2
    rw [if_neg (by omega), if_pos (by omega)]
  | _ :: _ :: _ => simp [expandEnv, Ten.atleast1]
theorem k0_shape (k0 : Ten ℂ) {nk : ℕ} {f} (h : Spec.k0Index k0.shape = some (nk, f)) :
    k0.squeeze.atleast1.shape = [nk] ∧ ∀ k, k < nk → k0.squeeze.atleast1.get [k] = k0.get (f k) := by
  unfold Spec.k0Index at h
  by_cases h1 : (k0.shape.filter (· ≠ 1)).length ≤ 1
  swap
  · rw [if_neg h1] at h; cases h
  rw [if_pos h1] at h
  have h2 := Option.some.inj h
  obtain ⟨h3, h4⟩ := Prod.mk.inj h2
  subst h4
  rcases hs : k0.shape.filter (· ≠ 1) with _ | ⟨d, _ | ⟨e, t⟩⟩
  · rw [hs] at h3
    have hn : nk = 1 := h3.symm
    subst hn
    have hq : k0.squeeze.shape = [] := hs
    unfold Ten.atleast1
    rw [hq]
    refine ⟨rfl, fun k hk => ?_⟩
    simp only [Ten.squeeze]
    rw [Ten.squeeze_k0' _ hs k]
  · rw [hs] at h3
    have hn : d = nk := h3
    subst hn
    have hq : k0.squeeze.shape = [d] := hs
    unfold Ten.atleast1
    rw [hq]
    refine ⟨hq, fun k hk => ?_⟩
    simp only [Ten.squeeze]
    rw [Ten.squeeze_k0 _ hs k]
  · rw [hs] at h1
    simp at h1

theorem k0_shape_none (k0 : Ten ℂ) (h : Spec.k0Index k0.shape = none) (nk : ℕ) : k0.squeeze.atleast1.shape ≠ [nk] := by
  unfold Spec.k0Index at h
  by_cases h1 : (k0.shape.filter (· ≠ 1)).length ≤ 1
  · rw [if_pos h1] at h; cases h
  intro h2
  have hq : k0.squeeze.shape = k0.shape.filter (· ≠ 1) := rfl
  unfold Ten.atleast1 at h2
  rcases hs : k0.shape.filter (· ≠ 1) with _ | ⟨d, _ | ⟨e, t⟩⟩
  · rw [hs] at h1; simp at h1
  · rw [hs] at h1; simp at h1
  · rw [hs] at hq
    rw [hq] at h2
    simp only at h2
    rw [hq] at h2
    simp at h2

theorem radii_shape (r : Ten ℝ) {np nl : ℕ} {f} (h : Spec.rIndex r.shape = some (np, nl, f)) :
    (radiiMatrix r).shape = [np, nl] ∧ ∀ p, p < np → ∀ l, l < nl → (radiiMatrix r).get [p, l] = r.get (f p l) := by
  obtain ⟨s, g⟩ := r
  match s with
  | [] => cases h; simp [radiiMatrix, Ten.atleast1, Ten.ndim, Ten.unsqueeze]
  | [a] => cases h; simp [radiiMatrix, Ten.atleast1, Ten.ndim, Ten.unsqueeze]
  | [a, b] => cases h; simp [radiiMatrix, Ten.atleast1, Ten.ndim]
  | _ :: _ :: _ :: _ => simp [Spec.rIndex] at h

theorem radii_shape_none (r : Ten ℝ) (h : Spec.rIndex r.shape = none) (np nl : ℕ) : (radiiMatrix r).shape ≠ [np, nl] := by
  obtain ⟨s, g⟩ := r
  match s with
  | [] => cases h
  | [a] => cases h
  | [a, b] => cases h
  | _ :: _ :: _ :: _ => simp [radiiMatrix, Ten.atleast1, Ten.ndim]

/-- Entries of the broadcast arrays are the documented ones. -/
structure Bcast.Means (b : Bcast) (R : Spec.Reading) (k0 : Ten ℂ) (r : Ten ℝ) (eps env : Ten ℂ) : Prop where
  nPart : b.nPart = R.nPart
  nLayers : b.nLayers = R.nLayers
  nK : b.nK = R.nK
  k0 : ∀ k, k < R.nK → b.k0.get [0, k] = k0.get (R.k0 k)
  r : ∀ p, p < R.nPart → ∀ l, l < R.nLayers → b.r.get [p, l] = r.get (R.r p l)
  eps : ∀ p, p < R.nPart → ∀ l, l < R.nLayers → ∀ k, k < R.nK → b.eps.get [p, l, k] = eps.get (R.eps p l k)
  env : ∀ k, k < R.nK → b.env.get [0, k] = env.get (R.env k)

/-- Radii of every particle increase, in the documented reading. -/
def Increasing (R : Spec.Reading) (r : Ten ℝ) : Prop :=
  ∀ p, p < R.nPart → ∀ l, l + 1 < R.nLayers → r.get (R.r p l) < r.get (R.r p (l + 1))

theorem reading_some {sk sr se sv : List ℕ} {R : Spec.Reading} (h : Spec.reading sk sr se sv = some R) :
    Spec.k0Index sk = some (R.nK, R.k0) ∧ Spec.rIndex sr = some (R.nPart, R.nLayers, R.r) ∧
      Spec.epsIndex R.nPart R.nLayers R.nK se = some R.eps ∧ Spec.envIndex R.nK sv = some R.env := by
  unfold Spec.reading at h
  rcases hk : Spec.k0Index sk with _ | ⟨nk, ik⟩
  · rw [hk] at h; cases h
  rcases hr : Spec.rIndex sr with _ | ⟨np, nl, ir⟩
  · rw [hk, hr] at h; cases h
  rcases he : Spec.epsIndex np nl nk se with _ | ie
  · rw [hk, hr] at h; simp [he] at h
  rcases hv : Spec.envIndex nk sv with _ | iv
  · rw [hk, hr] at h; simp [hv] at h
  rw [hk, hr] at h
  simp [he, hv] at h
  subst h
  exact ⟨rfl, rfl, he, hv⟩

theorem broadcast_ok {k0 : Ten ℂ} {r : Ten ℝ} {eps env : Ten ℂ} {R : Spec.Reading}
    (h : Spec.reading k0.shape r.shape eps.shape env.shape = some R) (hi : Increasing R r) :
    ∃ b, broadcastMieLayers k0 r eps env = .ok b ∧ b.WF ∧ b.Means R k0 r eps env := by
  obtain ⟨hk, hr, he, hv⟩ := reading_some h
  obtain ⟨ks, kg⟩ := k0_shape k0 hk
  obtain ⟨rs, rg⟩ := radii_shape r hr
  obtain ⟨e, e1, es, eg⟩ := expandEps_some he
  obtain ⟨v, v1, vs, vg⟩ := expandEnv_some hv
  have hinc : rowsIncreasing R.nPart R.nLayers (radiiMatrix r) := by
    intro p hp l hl
    rw [rg p hp l (by omega), rg p hp (l + 1) hl]
    exact hi p hp l hl
  refine ⟨{ nPart := R.nPart, nLayers := R.nLayers, nK := R.nK, k0 := k0.squeeze.atleast1.unsqueeze 0, r := radiiMatrix r, eps := e, env := v.unsqueeze 0 }, ?_, ?_, ?_⟩
  · unfold broadcastMieLayers
    simp only [ks, rs]
    rw [if_neg (fun hh => hh.2 hinc)]
    simp only [e1, v1, Bind.bind, Except.bind]
  · exact ⟨by simp [Ten.unsqueeze, ks], rs, es, by simp [Ten.unsqueeze, vs], hinc⟩
  · exact ⟨rfl, rfl, rfl, fun k hk => kg k hk, rg, eg, fun k hk => vg k hk⟩

theorem broadcast_notIncreasing {k0 : Ten ℂ} {r : Ten ℝ} {eps env : Ten ℂ} {np nl : ℕ} {f}
    (hr : Spec.rIndex r.shape = some (np, nl, f))
    (hi : ¬∀ p, p < np → ∀ l, l + 1 < nl → r.get (f p l) < r.get (f p (l + 1))) :
    broadcastMieLayers k0 r eps env = .error .valueError := by
  rcases hk : Spec.k0Index k0.shape with _ | ⟨nk, ik⟩
  · unfold broadcastMieLayers
    simp only
    split
    · rename_i nk h
      exact absurd h (k0_shape_none k0 hk nk)
    · rfl
  obtain ⟨ks, -⟩ := k0_shape k0 hk
  obtain ⟨rs, rg⟩ := radii_shape r hr
  unfold broadcastMieLayers
  simp only [ks, rs]
  have hinc : ¬rowsIncreasing np nl (radiiMatrix r) := by
    intro h
    apply hi
    intro p hp l hl
    have := h p hp l hl
    rwa [rg p hp l (by omega), rg p hp (l + 1) hl] at this
  have h1 : nl > 1 := by
    by_contra h1
    exact hinc fun p _ l hl => by omega
  rw [if_pos ⟨h1, hinc⟩]

theorem broadcast_none {k0 : Ten ℂ} {r : Ten ℝ} {eps env : Ten ℂ}
    (h : Spec.reading k0.shape r.shape eps.shape env.shape = none) :
    broadcastMieLayers k0 r eps env = .error .valueError := by
  unfold Spec.reading at h
  rcases hr : Spec.rIndex r.shape with _ | ⟨np, nl, ir⟩
  · unfold broadcastMieLayers
    simp only
    split
    · split
      · rename_i np nl hh
        exact absurd hh (radii_shape_none r hr np nl)
      · rfl
    · rfl
  by_cases hi : ∀ p, p < np → ∀ l, l + 1 < nl → r.get (ir p l) < r.get (ir p (l + 1))
  swap
  · exact broadcast_notIncreasing hr hi
  obtain ⟨rs, rg⟩ := radii_shape r hr
  have hinc : rowsIncreasing np nl (radiiMatrix r) := by
    intro p hp l hl
    rw [rg p hp l (by omega), rg p hp (l + 1) hl]
    exact hi p hp l hl
  rcases hk : Spec.k0Index k0.shape with _ | ⟨nk, ik⟩
  · unfold broadcastMieLayers
    simp only
    split
    · rename_i nk h
      exact absurd h (k0_shape_none k0 hk nk)
    · rfl
  obtain ⟨ks, -⟩ := k0_shape k0 hk
  unfold broadcastMieLayers
  simp only [ks, rs]
  rw [if_neg (fun hh => hh.2 hinc)]
  rcases he : Spec.epsIndex np nl nk eps.shape with _ | ie
  · rw [expandEps_none he]; rfl
  obtain ⟨e, e1, es, eg⟩ := expandEps_some he
  rw [e1]
  simp only [Bind.bind, Except.bind]
  rcases hv : Spec.envIndex nk env.shape with _ | iv
  · rw [expandEnv_none hv]
  rw [hk, hr] at h
  simp [he, hv] at h

theorem broadcast_inv {k0 : Ten ℂ} {r : Ten ℝ} {eps env : Ten ℂ} {b : Bcast}
    (h : broadcastMieLayers k0 r eps env = .ok b) :
    ∃ R, Spec.reading k0.shape r.shape eps.shape env.shape = some R ∧ Increasing R r ∧ b.WF ∧ b.Means R k0 r eps env := by
  rcases hR : Spec.reading k0.shape r.shape eps.shape env.shape with _ | R
  · rw [broadcast_none hR] at h; cases h
  by_cases hi : Increasing R r
  · obtain ⟨b', hb, hw, hm⟩ := broadcast_ok hR hi
    rw [hb] at h
    cases h
    exact ⟨R, rfl, hi, hw, hm⟩
  · rw [broadcast_notIncreasing (reading_some hR).2.1 hi] at h
    cases h

end MieDiff
