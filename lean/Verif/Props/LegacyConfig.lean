import Verif.Model.LegacyConfig
import Verif.Props.Legacy

/-!
# C97: the former broadcaster of core-shell inputs

What `_broadcast_mie_config` (multishell.py:412-475, no longer called) makes of its arguments, and where this differs from what
`mie_coefficients` makes of the same arguments (C28).
-/

namespace MieDiff

namespace Spec

/-- The entry of a permittivity array used for particle `p`, wavenumber `k`, or nothing if the array is refused.  One value per particle
(`a = np`) is matched to the wavenumbers. -/
def configIndex (np nk : ℕ) : List ℕ → Option (ℕ → ℕ → List ℕ)
  | [] => if np = 1 then some fun _ _ => [] else none
  | [a] =>
    if a = np then if np = 1 then some fun _ _ => [0] else if np = nk then some fun _ k => [k] else none
    else if a = np * nk then some fun p k => [p * nk + k] else none
  | [a, b] => if a * b = np * nk then some fun p k => [(p * nk + k) / b, (p * nk + k) % b] else none
  | _ => none

end Spec

theorem atleast1_pos {α : Type} {t : Ten α} {a : ℕ} {s : List ℕ} (h : t.shape = a :: s) : t.atleast1 = t := by
  unfold Ten.atleast1
  rw [h]

theorem atleast1_nil {α : Type} {t : Ten α} (h : t.shape = []) : t.atleast1 = ⟨[1], fun _ => t.get []⟩ := by
  unfold Ten.atleast1
  rw [h]

theorem configRadii_ok {r : Ten ℝ} {np : ℕ} (h : r.atleast1.shape = [np]) (nk : ℕ) :
    ∃ t, configRadii nk r = .ok t ∧ t.shape = [np, nk] ∧ ∀ p < np, ∀ k, t.get [p, k] = radius1 r p := by
  unfold configRadii
  rw [h]
  refine ⟨⟨[np, nk], fun idx => (r.atleast1.unsqueeze 1).get (Ten.bIdx (r.atleast1.unsqueeze 1).shape idx)⟩, ?_, rfl, ?_⟩
  · simp [Ten.broadcastTo, Ten.unsqueeze, h]
  · intro p hp k
    rcases hs : r.shape with _ | ⟨a, s⟩
    · rw [atleast1_nil hs] at h ⊢
      simp [radius1, hs, Ten.unsqueeze]
    · rw [atleast1_pos hs] at h ⊢
      by_cases h1 : np = 1
      · have : p = 0 := by omega
        simp [radius1, h, Ten.unsqueeze, Ten.bIdx, Ten.bi, h1, this]
      · simp [radius1, h, Ten.unsqueeze, Ten.bIdx, Ten.bi, h1]

theorem configEps_ok {np nk : ℕ} {e : Ten ℂ} {f : ℕ → ℕ → List ℕ} (h : Spec.configIndex np nk e.shape = some f) :
    ∃ t, configEps np nk e = .ok t ∧ t.shape = [np, nk] ∧ ∀ p < np, ∀ k < nk, t.get [p, k] = e.get (f p k) := by
  unfold configEps
  rcases hs : e.shape with _ | ⟨a, _ | ⟨b, _ | ⟨c, s⟩⟩⟩
  · rw [hs] at h
    simp only [Spec.configIndex] at h
    split_ifs at h with h1
    cases h
    subst h1
    rw [atleast1_nil hs, if_pos rfl]
    exact ⟨⟨[1, nk], fun _ => e.get []⟩, by simp [Ten.broadcastTo], rfl, fun _ _ _ _ => rfl⟩
  · rw [hs] at h
    rw [atleast1_pos hs, hs]
    simp only [Spec.configIndex] at h
    split_ifs at h with h1 h2 h3 h4
    · cases h
      subst h1
      subst h2
      rw [if_pos rfl]
      refine ⟨⟨[1, nk], fun idx => e.get (Ten.bIdx e.shape idx)⟩, by simp [Ten.broadcastTo, hs], rfl, fun p hp k hk => ?_⟩
      simp [Ten.bIdx, hs, Ten.bi]
    · cases h
      subst h1
      rw [if_pos rfl]
      refine ⟨⟨[a, nk], fun idx => e.get (Ten.bIdx e.shape idx)⟩, by simp [Ten.broadcastTo, hs, h3], rfl, fun p hp k hk => ?_⟩
      simp [Ten.bIdx, hs, Ten.bi, h2]
    · cases h
      rw [if_neg (by simpa using h1)]
      refine ⟨⟨[np, nk], fun idx => e.get (Ten.indexAt e.shape (Ten.position [np, nk] idx))⟩, by simp [Ten.reshape, hs, h4], rfl,
        fun p hp k hk => ?_⟩
      simp [hs, Ten.indexAt, Ten.position]
  · rw [hs] at h
    rw [atleast1_pos hs, hs]
    simp only [Spec.configIndex] at h
    split_ifs at h with h1
    cases h
    rw [if_neg (by simp)]
    refine ⟨⟨[np, nk], fun idx => e.get (Ten.indexAt e.shape (Ten.position [np, nk] idx))⟩, by simp [Ten.reshape, hs, h1], rfl,
      fun p hp k hk => ?_⟩
    simp [hs, Ten.indexAt, Ten.position]
  · rw [hs] at h
    simp [Spec.configIndex] at h

theorem configEps_reject {np nk : ℕ} {e : Ten ℂ} (hd : e.shape.length ≤ 2) (h : Spec.configIndex np nk e.shape = none) :
    configEps np nk e = .error .runtimeError := by
  unfold configEps
  rcases hs : e.shape with _ | ⟨a, _ | ⟨b, _ | ⟨c, s⟩⟩⟩
  · rw [hs] at h
    simp only [Spec.configIndex] at h
    split_ifs at h with h1
    rw [atleast1_nil hs, if_neg (by simpa using Ne.symm h1)]
    simp only [Ten.reshape, List.prod_cons, List.prod_nil, mul_one]
    rw [if_neg]
    intro h2
    exact h1 (Nat.eq_one_of_mul_eq_one_right h2.symm)
  · rw [hs] at h
    rw [atleast1_pos hs, hs]
    simp only [Spec.configIndex] at h
    split_ifs at h with h1 h2 h3 h4
    · subst h1
      rw [if_pos rfl]
      simp [Ten.broadcastTo, hs, h2, h3]
    · rw [if_neg (by simpa using h1)]
      simp [Ten.reshape, hs, h4]
  · rw [hs] at h
    rw [atleast1_pos hs, hs]
    simp only [Spec.configIndex] at h
    split_ifs at h with h1
    rw [if_neg (by simp)]
    simp [Ten.reshape, hs, h1]
  · rw [hs] at hd
    simp at hd

section
variable {k0 : Ten ℂ} {rC rS : Ten ℝ} {epsC epsS env : Ten ℂ} {np nk : ℕ} {ik : ℕ → List ℕ}

/-- C97: what the broadcaster returns. -/
theorem C97_entries {f g : ℕ → ℕ → List ℕ} (hk : Spec.k0Index k0.shape = some (nk, ik)) (hc : rC.atleast1.shape = [np])
    (hs : rS.atleast1.shape = [np]) (hf : Spec.configIndex np nk epsC.shape = some f) (hg : Spec.configIndex np nk epsS.shape = some g) :
    ∃ c, broadcastMieConfig k0 rC rS epsC epsS env = .ok c ∧ c.k0.shape = [1, nk] ∧ c.rC.shape = [np, nk] ∧ c.rS.shape = [np, nk] ∧
      c.epsC.shape = [np, nk] ∧ c.epsS.shape = [np, nk] ∧ ∀ p < np, ∀ k < nk, c.k0.get [0, k] = k0.get (ik k) ∧
        c.rC.get [p, k] = radius1 rC p ∧ c.rS.get [p, k] = radius1 rS p ∧ c.epsC.get [p, k] = epsC.get (f p k) ∧
        c.epsS.get [p, k] = epsS.get (g p k) := by
  obtain ⟨k1, k2⟩ := k0_shape k0 hk
  obtain ⟨rc, a1, a2, a3⟩ := configRadii_ok hc nk
  obtain ⟨rs, b1, b2, b3⟩ := configRadii_ok hs nk
  obtain ⟨ec, c1, c2, c3⟩ := configEps_ok hf
  obtain ⟨es, d1, d2, d3⟩ := configEps_ok hg
  refine ⟨⟨k0.squeeze.atleast1.unsqueeze 0, rc, rs, ec, es, env.atleast1.unsqueeze 0⟩, ?_, ?_, a2, b2, c2, d2, fun p hp k hk' =>
    ⟨?_, a3 p hp k, b3 p hp k, c3 p hp k hk', d3 p hp k hk'⟩⟩
  · simp [broadcastMieConfig, k1, a1, b1, a2, b2, c1, c2, d1, d2, bind, Except.bind]
  · simp [Ten.unsqueeze, k1]
  · simpa [Ten.unsqueeze] using k2 k hk'

/-- C97: the permittivity of the surrounding medium gets a leading particle axis of length one and keeps its entries. -/
theorem C97_environment {c : Config} (h : broadcastMieConfig k0 rC rS epsC epsS env = .ok c) :
    (env.shape = [] → c.env.shape = [1, 1] ∧ c.env.get [0, 0] = env.get []) ∧
    (∀ m, env.shape = [m] → c.env.shape = [1, m] ∧ ∀ k, c.env.get [0, k] = env.get [k]) := by
  have hc : c.env = env.atleast1.unsqueeze 0 := by
    unfold broadcastMieConfig at h
    dsimp only [bind, Except.bind] at h
    repeat' split at h
    all_goals cases h
    rfl
  rw [hc]
  constructor
  · intro hs
    rw [atleast1_nil hs]
    simp [Ten.unsqueeze]
  · intro m hs
    rw [atleast1_pos hs]
    simp [Ten.unsqueeze, hs]

/-- C97: arrays that are refused. -/
theorem C97_refused (hk : Spec.k0Index k0.shape = some (nk, ik)) (hc : rC.atleast1.shape = [np]) (hs : rS.atleast1.shape = [np])
    (dc : epsC.shape.length ≤ 2) (ds : epsS.shape.length ≤ 2)
    (h : Spec.configIndex np nk epsC.shape = none ∨ Spec.configIndex np nk epsS.shape = none) :
    broadcastMieConfig k0 rC rS epsC epsS env = .error .runtimeError := by
  obtain ⟨k1, -⟩ := k0_shape k0 hk
  obtain ⟨rc, a1, a2, -⟩ := configRadii_ok hc nk
  obtain ⟨rs, b1, b2, -⟩ := configRadii_ok hs nk
  cases hC : Spec.configIndex np nk epsC.shape with
  | none =>
    have := configEps_reject dc hC
    simp [broadcastMieConfig, k1, a1, b1, a2, b2, this, bind, Except.bind]
  | some f =>
    obtain ⟨ec, c1, c2, -⟩ := configEps_ok hC
    have := configEps_reject ds (h.resolve_left (by simp [hC]))
    simp [broadcastMieConfig, k1, a1, b1, a2, b2, c1, this, bind, Except.bind]

/-- C97: wrong numbers of wavenumber axes, radius axes or radii raise `AssertionError`. -/
theorem C97_assertions :
    (Spec.k0Index k0.shape = none → broadcastMieConfig k0 rC rS epsC epsS env = .error .assertionError) ∧
    (Spec.k0Index k0.shape = some (nk, ik) → (∀ a, rC.atleast1.shape ≠ [a]) →
      broadcastMieConfig k0 rC rS epsC epsS env = .error .assertionError) ∧
    (∀ a b, Spec.k0Index k0.shape = some (nk, ik) → rC.atleast1.shape = [a] → rS.atleast1.shape = [b] → a ≠ b →
      broadcastMieConfig k0 rC rS epsC epsS env = .error .assertionError) := by
  refine ⟨fun h => ?_, fun h hr => ?_, fun a b h ha hb hab => ?_⟩
  · have := k0_shape_none k0 h
    unfold broadcastMieConfig
    dsimp only
    rcases hk : k0.squeeze.atleast1.shape with _ | ⟨a, _ | ⟨b, s⟩⟩
    · rfl
    · exact absurd hk (this a)
    · rfl
  · obtain ⟨k1, -⟩ := k0_shape k0 h
    have : configRadii nk rC = .error .assertionError := by
      unfold configRadii
      split
      · rename_i a ha
        exact absurd ha (hr a)
      · rfl
    simp [broadcastMieConfig, k1, this, bind, Except.bind]
  · obtain ⟨k1, -⟩ := k0_shape k0 h
    obtain ⟨rc, a1, a2, -⟩ := configRadii_ok ha nk
    obtain ⟨rs, b1, b2, -⟩ := configRadii_ok hb nk
    simp [broadcastMieConfig, k1, a1, b1, a2, b2, hab, bind, Except.bind]

/-- C97: a matrix of one value per particle and wavenumber is used entry by entry. -/
theorem C97_matrix (hk : Spec.k0Index k0.shape = some (nk, ik)) (hc : rC.atleast1.shape = [np]) (hs : rS.atleast1.shape = [np])
    (he : epsC.shape = [np, nk]) (he' : epsS.shape = [np, nk]) :
    ∃ c, broadcastMieConfig k0 rC rS epsC epsS env = .ok c ∧ ∀ p < np, ∀ k < nk, c.epsC.get [p, k] = epsC.get [p, k] ∧
      c.epsS.get [p, k] = epsS.get [p, k] := by
  have hcf : ∀ s : List ℕ, s = [np, nk] → Spec.configIndex np nk s = some fun p k => [(p * nk + k) / nk, (p * nk + k) % nk] := by
    rintro s rfl
    simp [Spec.configIndex]
  obtain ⟨c, h1, -, -, -, -, -, h2⟩ := C97_entries (env := env) hk hc hs (hcf _ he) (hcf _ he')
  refine ⟨c, h1, fun p hp k hk' => ?_⟩
  obtain ⟨-, -, -, e1, e2⟩ := h2 p hp k hk'
  have q1 : (p * nk + k) / nk = p := by
    rw [mul_comm, Nat.mul_add_div (by omega), Nat.div_eq_of_lt hk', add_zero]
  have q2 : (p * nk + k) % nk = k := by
    rw [mul_comm, Nat.mul_add_mod, Nat.mod_eq_of_lt hk']
  rw [q1, q2] at e1 e2
  exact ⟨e1, e2⟩

/-- C97: one permittivity per particle.  For several particles the call raises `RuntimeError` unless there are as many wavenumbers as
particles; then every particle gets, at wavenumber `k`, the permittivity of particle `k`. -/
theorem C97_per_particle (hk : Spec.k0Index k0.shape = some (nk, ik)) (hc : rC.atleast1.shape = [np]) (hs : rS.atleast1.shape = [np])
    (he : epsC.shape = [np]) (he' : epsS.shape = [np]) (hnp : 1 < np) :
    (np ≠ nk → broadcastMieConfig k0 rC rS epsC epsS env = .error .runtimeError) ∧
    (np = nk → ∃ c, broadcastMieConfig k0 rC rS epsC epsS env = .ok c ∧ ∀ p < np, ∀ k < nk, c.epsC.get [p, k] = epsC.get [k] ∧
      c.epsS.get [p, k] = epsS.get [k]) := by
  constructor
  · intro h
    refine C97_refused hk hc hs (by simp [he]) (by simp [he']) (.inl ?_)
    have : np ≠ 1 := by omega
    simp [Spec.configIndex, he, h, this]
  · intro h
    have hcf : ∀ s : List ℕ, s = [np] → Spec.configIndex np nk s = some fun _ k => [k] := by
      rintro s rfl
      have : np ≠ 1 := by omega
      simp [Spec.configIndex, ← h, this]
    obtain ⟨c, h1, -, -, -, -, -, h2⟩ := C97_entries (env := env) hk hc hs (hcf _ he) (hcf _ he')
    exact ⟨c, h1, fun p hp k hk' => ⟨(h2 p hp k hk').2.2.2.1, (h2 p hp k hk').2.2.2.2⟩⟩

/-- C97: the same arguments in `mie_coefficients`.  One permittivity per particle is read per particle there, for any number of
wavenumbers. -/
theorem C97_current_reading (np nk : ℕ) (h : 1 < np) : Spec.legacy2Index np nk [np] = some fun p _ => [p] := by
  simp [Spec.legacy2Index, h]

end

/-! ## Examples -/

/-- Two particles, three wavenumbers, one permittivity per particle: refused. -/
example : broadcastMieConfig (Ten.ofList 0 [1, 2, 3]) (Ten.ofList 0 [1, 2]) (Ten.ofList 0 [2, 3]) (Ten.ofList 0 [4, 5])
    (Ten.ofList 0 [6, 7]) (Ten.scalar 1) = .error .runtimeError :=
  (C97_per_particle (np := 2) (nk := 3) rfl rfl rfl rfl rfl (by norm_num)).1 (by norm_num)

/-- Two particles, two wavenumbers: the first particle gets the permittivity of the second one at the second wavenumber. -/
example : ∃ c, broadcastMieConfig (Ten.ofList 0 [1, 2]) (Ten.ofList 0 [1, 2]) (Ten.ofList 0 [2, 3]) (Ten.ofList 0 [4, 5])
    (Ten.ofList 0 [6, 7]) (Ten.scalar 1) = .ok c ∧ c.epsC.get [0, 1] = 5 := by
  obtain ⟨c, h1, h2⟩ := (C97_per_particle (k0 := Ten.ofList 0 [1, 2]) (rC := Ten.ofList 0 [1, 2]) (rS := Ten.ofList 0 [2, 3])
    (epsC := Ten.ofList 0 [4, 5]) (epsS := Ten.ofList 0 [6, 7]) (env := Ten.scalar 1) (np := 2) (nk := 2) rfl rfl rfl rfl rfl
    (by norm_num)).2 rfl
  exact ⟨c, h1, (h2 0 (by norm_num) 1 (by norm_num)).1⟩

/-- A matrix with the axes exchanged, for two particles and three wavenumbers, is accepted and re-read in row-major order. -/
example : ∃ c, broadcastMieConfig (Ten.ofList 0 [1, 2, 3]) (Ten.ofList 0 [1, 2]) (Ten.ofList 0 [2, 3])
    ⟨[3, 2], fun i => 10 * i.getD 0 0 + i.getD 1 0⟩ ⟨[3, 2], fun i => 10 * i.getD 0 0 + i.getD 1 0⟩ (Ten.scalar 1) = .ok c ∧
    c.epsC.get [0, 2] = 10 := by
  obtain ⟨c, h1, -, -, -, -, -, h2⟩ := C97_entries (k0 := Ten.ofList 0 [1, 2, 3]) (rC := Ten.ofList 0 [1, 2])
    (rS := Ten.ofList 0 [2, 3]) (epsC := ⟨[3, 2], fun i => 10 * i.getD 0 0 + i.getD 1 0⟩)
    (epsS := ⟨[3, 2], fun i => 10 * i.getD 0 0 + i.getD 1 0⟩) (env := Ten.scalar 1) (np := 2) (nk := 3) rfl rfl rfl rfl rfl
  refine ⟨c, h1, ?_⟩
  rw [(h2 0 (by norm_num) 2 (by norm_num)).2.2.2.1]
  norm_num

end MieDiff
