import Verif.Props.Batch

/-!
# C28: legacy core/shell inputs
-/

namespace MieDiff
open Complex

/-! ## C28 -/

/-- The radii of the legacy arguments: one number or a list of `np` numbers. -/
def radius1 (t : Ten ℝ) (p : ℕ) : ℝ := t.get (if t.shape = [] then [] else [p])

theorem atleast1_get {t : Ten ℝ} {np p : ℕ} (_ : t.atleast1.shape = [np]) : t.atleast1.get [p] = radius1 t p := by
  unfold Ten.atleast1 radius1
  rcases t.shape with _ | ⟨a, s⟩ <;> simp

theorem reading_eq {sk sr se sv : List ℕ} {nk np nl : ℕ} {ik ir ie iv} (h1 : Spec.k0Index sk = some (nk, ik))
    (h2 : Spec.rIndex sr = some (np, nl, ir)) (h3 : Spec.epsIndex np nl nk se = some ie)
    (h4 : Spec.envIndex nk sv = some iv) : Spec.reading sk sr se sv = some ⟨np, nl, nk, ik, ir, ie, iv⟩ := by
  unfold Spec.reading
  simp [h1, h2, h3, h4]

theorem homogeneous_eps {np nk : ℕ} {ec : Ten ℂ} {f} (h : Spec.legacy1Index np nk ec.shape = some f) (rc : Ten ℝ)
    (hr : rc.shape = [np]) : ∃ el : Ten ℂ, legacyEps1 rc ec = el ∧ ∃ ie, Spec.epsIndex np 1 nk el.shape = some ie ∧
        ∀ p, p < np → ∀ k, k < nk → el.get (ie p 0 k) = ec.get (f p k) := by
  refine ⟨_, rfl, ?_⟩
  unfold legacyEps1
  rcases hs : ec.shape with _ | ⟨a, _ | ⟨b, _ | ⟨c, s⟩⟩⟩
  · rw [hs] at h
    simp only [Spec.legacy1Index] at h
    split_ifs at h with h0
    cases h
    simp only [view11, Spec.epsIndex]
    by_cases h1 : 1 = np ∧ True
    · rw [if_pos h1]; exact ⟨_, rfl, fun _ _ _ _ => trivial⟩
    · rw [if_neg h1, if_pos ⟨trivial, by simp at h1; omega⟩]; exact ⟨_, rfl, fun _ _ _ _ => trivial⟩
  · rw [hs] at h
    have hn : rc.numel = np := by simp [Ten.numel, hr]
    simp only [Spec.legacy1Index] at h
    simp only [hr, hn]
    by_cases h1 : a = np ∧ 1 < np
    · rw [if_pos h1] at h
      cases h
      rw [if_pos ⟨by rw [h1.1], h1.2⟩]
      simp only [Ten.unsqueeze, hs, Spec.epsIndex, List.insertIdx_succ_cons, List.insertIdx_zero]
      rw [if_pos ⟨h1.1, trivial⟩]
      exact ⟨_, rfl, fun _ _ _ _ => rfl⟩
    · rw [if_neg h1] at h
      rw [if_neg (by simpa using h1)]
      simp only [Ten.unsqueeze, hs, Spec.epsIndex, List.insertIdx_zero]
      by_cases h2 : a = nk
      · rw [if_pos h2] at h
        cases h
        by_cases h3 : 1 = np ∧ a = 1
        · rw [if_pos h3]
          refine ⟨_, rfl, fun p hp k hk => ?_⟩
          have : k = 0 := by omega
          subst this; rfl
        · rw [if_neg h3, if_pos ⟨trivial, h2⟩]; exact ⟨_, rfl, fun _ _ _ _ => rfl⟩
      · rw [if_neg h2] at h
        split_ifs at h with h3
        cases h
        rw [if_pos ⟨h3.2.symm, h3.1⟩]
        exact ⟨_, rfl, fun _ _ _ _ => rfl⟩
  · rw [hs] at h
    simp only [Spec.legacy1Index] at h
    by_cases h0 : (a = np ∨ a = 1 ∧ 1 ≤ np) ∧ (b = nk ∨ b = 1 ∧ 1 ≤ nk)
    swap; · rw [if_neg h0] at h; cases h
    rw [if_pos h0] at h
    cases h
    simp only [Ten.unsqueeze, hs, Spec.epsIndex, List.insertIdx_succ_cons, List.insertIdx_zero]
    rw [if_pos ⟨trivial, h0⟩]
    exact ⟨_, rfl, fun _ _ _ _ => rfl⟩
  · rw [hs] at h; exact absurd h (by simp [Spec.legacy1Index])

theorem coreshell_eps {np nk : ℕ} {ec es : Ten ℂ} (hse : es.shape = ec.shape) {f} (h : Spec.legacy2Index np nk ec.shape = some f) (rc : Ten ℝ)
    (hr : rc.shape = [np]) : ∃ el : Ten ℂ, legacyEps2 rc ec es = .ok el ∧ ∃ ie, Spec.epsIndex np 2 nk el.shape = some ie ∧
        ∀ p, p < np → ∀ k, k < nk → el.get (ie p 0 k) = ec.get (f p k) ∧ el.get (ie p 1 k) = es.get (f p k) := by
  have hst : ∀ d, Ten.stack2 ec es d = .ok ⟨ec.shape.insertIdx d 2, fun idx =>
      if idx.getD d 0 = 0 then ec.get (idx.eraseIdx d) else es.get (idx.eraseIdx d)⟩ := by
    intro d; unfold Ten.stack2; rw [if_pos hse.symm]
  unfold legacyEps2
  simp only [hst]
  rcases hs : ec.shape with _ | ⟨a, _ | ⟨b, _ | ⟨c, s⟩⟩⟩
  · rw [hs] at h
    simp only [Spec.legacy2Index] at h
    split_ifs at h with h0
    cases h
    refine ⟨_, rfl, ?_⟩
    simp only [Ten.unsqueeze, Spec.epsIndex, List.insertIdx_zero]
    rw [if_pos ⟨h0.symm, trivial⟩]; exact ⟨_, rfl, fun _ _ _ _ => ⟨rfl, rfl⟩⟩
  · rw [hs] at h
    have hn : rc.numel = np := by simp [Ten.numel, hr]
    simp only [Spec.legacy2Index] at h
    simp only [hr, hn]
    by_cases h1 : a = np ∧ 1 < np
    · rw [if_pos h1] at h
      cases h
      rw [if_pos ⟨by rw [h1.1], h1.2⟩]
      refine ⟨_, rfl, ?_⟩
      simp only [Spec.epsIndex, List.insertIdx_succ_cons, List.insertIdx_zero]
      rw [if_pos ⟨h1.1, trivial⟩]
      exact ⟨_, rfl, fun _ _ _ _ => ⟨rfl, rfl⟩⟩
    · rw [if_neg h1] at h
      rw [if_neg (by simpa using h1)]
      refine ⟨_, rfl, ?_⟩
      simp only [Spec.epsIndex, List.insertIdx_zero]
      split_ifs at h with h2
      cases h
      rw [if_neg (by omega), if_pos ⟨trivial, h2⟩]
      exact ⟨_, rfl, fun _ _ _ _ => ⟨rfl, rfl⟩⟩
  · rw [hs] at h
    simp only [Spec.legacy2Index] at h
    by_cases h0 : (a = np ∨ a = 1 ∧ 1 ≤ np) ∧ (b = nk ∨ b = 1 ∧ 1 ≤ nk)
    swap; · rw [if_neg h0] at h; cases h
    rw [if_pos h0] at h
    cases h
    refine ⟨_, rfl, ?_⟩
    simp only [Spec.epsIndex, List.insertIdx_succ_cons, List.insertIdx_zero]
    rw [if_pos ⟨trivial, h0⟩]
    exact ⟨_, rfl, fun _ _ _ _ => ⟨rfl, rfl⟩⟩
  · rw [hs] at h; exact absurd h (by simp [Spec.legacy2Index])

/-- C28: one of `r_layers`, `eps_layers` without the other, or neither and one of `r_c`, `eps_c` missing, is a
`ValueError`. -/
theorem C28_incomplete (args : LayerArgs) (n : Option ℤ) (ri : Bool)
    (h : (args.rLayers.isSome ≠ args.epsLayers.isSome) ∨
      (args.rLayers = none ∧ args.epsLayers = none ∧ (args.rC = none ∨ args.epsC = none))) :
    mieCoefficientsT args n ri = .error .valueError ∧ crossSectionsT args n = .error .valueError ∧
      ∀ theta, angularT args theta n = .error .valueError := by
  have ha : asLayerInputs args = .error .valueError := by
    unfold asLayerInputs
    rcases h with h | ⟨h1, h2, h3⟩
    · cases h1 : args.rLayers <;> cases h2 : args.epsLayers <;> simp_all
    · rw [h1, h2]
      rcases h3 with h3 | h3
      · rw [h3]
      · rw [h3]; cases args.rC <;> rfl
  have h : ∀ ri, mieCoefficientsT args n ri = .error .valueError := by
    intro ri
    unfold mieCoefficientsT
    rw [ha]
    rfl
  refine ⟨h ri, ?_, fun theta => ?_⟩
  · unfold crossSectionsT; rw [h]; rfl
  · unfold angularT; rw [h]; rfl

/-- C28: with `r_layers` and `eps_layers` the legacy arguments have no effect (they are not rejected). -/
theorem C28_precedence (args : LayerArgs) (h1 : args.rLayers.isSome) (h2 : args.epsLayers.isSome)
    (rc rs : Option (Ten ℝ)) (ec es : Option (Ten ℂ)) (n : Option ℤ) (ri : Bool) (theta : Ten ℝ) :
    mieCoefficientsT { args with rC := rc, rS := rs, epsC := ec, epsS := es } n ri = mieCoefficientsT args n ri ∧
    crossSectionsT { args with rC := rc, rS := rs, epsC := ec, epsS := es } n = crossSectionsT args n ∧
    angularT { args with rC := rc, rS := rs, epsC := ec, epsS := es } theta n = angularT args theta n := by
  have h : ∀ ri, mieCoefficientsT { args with rC := rc, rS := rs, epsC := ec, epsS := es } n ri
      = mieCoefficientsT args n ri := by
    intro ri
    have : asLayerInputs { args with rC := rc, rS := rs, epsC := ec, epsS := es } = asLayerInputs args := by
      unfold asLayerInputs
      cases e1 : args.rLayers <;> cases e2 : args.epsLayers <;> simp_all
    unfold mieCoefficientsT
    rw [this]
  refine ⟨h ri, ?_, ?_⟩
  · unfold crossSectionsT; rw [h]
  · unfold angularT; rw [h]

/-- C28: `r_s` omitted or equal to `r_c`: every particle is one sphere of radius `r_c` and permittivity `eps_c`, read as
documented (`Spec.legacy1Index`). `eps_s` has no effect. -/
theorem C28_homogeneous {args : LayerArgs} {rc : Ten ℝ} {ec : Ten ℂ} (h1 : args.rLayers = none) (h2 : args.epsLayers = none)
    (h3 : args.rC = some rc) (h4 : args.epsC = some ec) (h5 : ∀ rs, args.rS = some rs → rc.atleast1.Equal rs.atleast1)
    {np nk : ℕ} {ik iv : ℕ → List ℕ} {f : ℕ → ℕ → List ℕ} (hr : rc.atleast1.shape = [np])
    (hk : Spec.k0Index args.k0.shape = some (nk, ik)) (hv : Spec.envIndex nk args.epsEnv.shape = some iv)
    (he : Spec.legacy1Index np nk ec.shape = some f) {p k : ℕ} (hp : p < np) (hkk : k < nk) (n : ℤ) (ri : Bool)
    (B : Backends) (w : String) :
    Except.map (BatchOut.entry p k) (mieCoefficientsT args (some n) ri)
      = mieCoefficients codeD1 B ⟨args.k0.get (ik k), [radius1 rc p], [ec.get (f p k)], args.epsEnv.get (iv k)⟩
          "pena" w (some n) ri := by
  obtain ⟨el, hel, ie, hie, hget⟩ := homogeneous_eps he rc.atleast1 hr
  have heq : rc.atleast1.Equal ((args.rS.getD rc).atleast1) := by
    cases hrs : args.rS with
    | none => exact ⟨rfl, rfl⟩
    | some rs => exact h5 rs hrs
  have ha : asLayerInputs args = .ok (rc.atleast1.unsqueeze rc.atleast1.ndim, el) := by
    unfold asLayerInputs
    rw [h1, h2, h3, h4]
    simp only [legacyLayers]
    rw [if_neg (by rw [not_not]; exact heq.1), if_pos heq, hel]
  have hsr : (rc.atleast1.unsqueeze rc.atleast1.ndim).shape = [np, 1] := by
    simp [Ten.unsqueeze, Ten.ndim, hr]
  have hR := reading_eq hk (by rw [hsr]; rfl : Spec.rIndex (rc.atleast1.unsqueeze rc.atleast1.ndim).shape = some (np, 1, fun p l => [p, l])) hie hv
  have hi : Increasing ⟨np, 1, nk, ik, fun p l => [p, l], ie, iv⟩ (rc.atleast1.unsqueeze rc.atleast1.ndim) := by
    intro p _ l hl
    simp only at hl
    omega
  rw [C26_coefficients ha hR hi hp hkk n ri B w]
  congr 1
  simp only [LayerArgs.particle, List.range_one, List.map_cons, List.map_nil, hget p hp k hkk]
  have : (rc.atleast1.unsqueeze rc.atleast1.ndim).get [p, 0] = radius1 rc p := by
    rw [← atleast1_get hr]
    simp [Ten.unsqueeze, Ten.ndim, hr]
  rw [this]

/-- C28: `r_c < r_s` for every particle: core `(r_c, eps_c)` and shell `(r_s, eps_s)`; an omitted `eps_s` means `eps_c`. -/
theorem C28_coreshell {args : LayerArgs} {rc rs : Ten ℝ} {ec es : Ten ℂ} (h1 : args.rLayers = none)
    (h2 : args.epsLayers = none) (h3 : args.rC = some rc) (h4 : args.epsC = some ec) (h5 : args.rS = some rs)
    (h6 : args.epsS.getD ec = es) (hse : es.shape = ec.shape)
    {np nk : ℕ} {ik iv : ℕ → List ℕ} {f : ℕ → ℕ → List ℕ} (hr : rc.atleast1.shape = [np])
    (hrs : rs.atleast1.shape = [np]) (hlt : ∀ p, p < np → radius1 rc p < radius1 rs p)
    (hk : Spec.k0Index args.k0.shape = some (nk, ik)) (hv : Spec.envIndex nk args.epsEnv.shape = some iv)
    (he : Spec.legacy2Index np nk ec.shape = some f) {p k : ℕ} (hp : p < np) (hkk : k < nk) (n : ℤ) (ri : Bool)
    (B : Backends) (w : String) :
    Except.map (BatchOut.entry p k) (mieCoefficientsT args (some n) ri)
      = mieCoefficients codeD1 B ⟨args.k0.get (ik k), [radius1 rc p, radius1 rs p], [ec.get (f p k), es.get (f p k)],
          args.epsEnv.get (iv k)⟩ "pena" w (some n) ri := by
  obtain ⟨el, hel, ie, hie, hget⟩ := coreshell_eps hse he rc.atleast1 hr
  have hne : ¬rc.atleast1.Equal rs.atleast1 := by
    rintro ⟨-, h⟩
    have := hlt p hp
    rw [← atleast1_get hr, ← atleast1_get hrs] at this
    unfold Ten.entries at h
    rw [hr, hrs] at h
    have h' := List.map_inj_left.mp h [p] (by simp [Ten.indices, hp])
    rw [h'] at this
    exact lt_irrefl _ this
  have hst : Ten.stack2 rc.atleast1 rs.atleast1 rc.atleast1.ndim = .ok ⟨[np, 2], fun idx =>
      if idx.getD 1 0 = 0 then rc.atleast1.get (idx.eraseIdx 1) else rs.atleast1.get (idx.eraseIdx 1)⟩ := by
    unfold Ten.stack2
    rw [if_pos (by rw [hr, hrs])]
    simp [Ten.ndim, hr]
  have ha : asLayerInputs args = .ok (⟨[np, 2], fun idx =>
      if idx.getD 1 0 = 0 then rc.atleast1.get (idx.eraseIdx 1) else rs.atleast1.get (idx.eraseIdx 1)⟩, el) := by
    unfold asLayerInputs
    rw [h1, h2, h3, h4]
    have h5' : args.rS.getD rc = rs := by rw [h5]; rfl
    simp only [h6]
    rw [h5']
    simp only [legacyLayers]
    rw [if_neg (by rw [not_not, hr, hrs]), if_neg hne, hst]
    simp only [Bind.bind, Except.bind]
    rw [hel]
  have hR := reading_eq hk (by rfl : Spec.rIndex [np, 2] = some (np, 2, fun p l => [p, l])) hie hv
  have hi : Increasing ⟨np, 2, nk, ik, fun p l => [p, l], ie, iv⟩ ⟨[np, 2], fun idx =>
      if idx.getD 1 0 = 0 then rc.atleast1.get (idx.eraseIdx 1) else rs.atleast1.get (idx.eraseIdx 1)⟩ := by
    intro p hp l hl
    simp only at hl hp
    obtain rfl : l = 0 := by omega
    have := hlt p hp
    rw [← atleast1_get hr, ← atleast1_get hrs] at this
    simpa using this
  rw [C26_coefficients ha hR hi hp hkk n ri B w]
  congr 1
  simp only [LayerArgs.particle, List.range_succ, List.range_zero, List.nil_append, List.cons_append, List.map_cons,
    List.map_nil, hget p hp k hkk]
  rw [← atleast1_get hr, ← atleast1_get hrs]
  rfl

theorem homogeneous_eps_none {np nk : ℕ} {ec : Ten ℂ} (h : Spec.legacy1Index np nk ec.shape = none) (rc : Ten ℝ)
    (hr : rc.shape = [np]) : Spec.epsIndex np 1 nk (legacyEps1 rc ec).shape = none := by
  unfold legacyEps1
  rcases hs : ec.shape with _ | ⟨a, _ | ⟨b, _ | ⟨c, s⟩⟩⟩
  · rw [hs] at h
    simp only [Spec.legacy1Index] at h
    split_ifs at h with h0
    simp only [view11, Spec.epsIndex]
    rw [if_neg (by simp; omega), if_neg (by simp; omega)]
  · rw [hs] at h
    have hn : rc.numel = np := by simp [Ten.numel, hr]
    simp only [Spec.legacy1Index] at h
    simp only [hr, hn]
    by_cases h1 : a = np ∧ 1 < np
    · rw [if_pos h1] at h; cases h
    · rw [if_neg h1] at h
      rw [if_neg (by simpa using h1)]
      split_ifs at h with h2 h3
      simp only [Ten.unsqueeze, hs, Spec.epsIndex, List.insertIdx_zero]
      rw [if_neg (by omega), if_neg (by simp; omega)]
  · rw [hs] at h
    simp only [Spec.legacy1Index] at h
    by_cases h0 : (a = np ∨ a = 1 ∧ 1 ≤ np) ∧ (b = nk ∨ b = 1 ∧ 1 ≤ nk)
    · rw [if_pos h0] at h; cases h
    simp only [Ten.unsqueeze, hs, Spec.epsIndex, List.insertIdx_succ_cons, List.insertIdx_zero]
    rw [if_neg (by simpa using h0)]
  · simp [Ten.unsqueeze, hs, Spec.epsIndex]

theorem coreshell_eps_none {np nk : ℕ} {ec es el : Ten ℂ} (hse : es.shape = ec.shape)
    (h : Spec.legacy2Index np nk ec.shape = none) (rc : Ten ℝ) (hr : rc.shape = [np]) (hel : legacyEps2 rc ec es = .ok el) :
    Spec.epsIndex np 2 nk el.shape = none := by
  have hst : ∀ d, Ten.stack2 ec es d = .ok ⟨ec.shape.insertIdx d 2, fun idx =>
      if idx.getD d 0 = 0 then ec.get (idx.eraseIdx d) else es.get (idx.eraseIdx d)⟩ := by
    intro d; unfold Ten.stack2; rw [if_pos hse.symm]
  unfold legacyEps2 at hel
  simp only [hst, Bind.bind, Except.bind] at hel
  rcases hs : ec.shape with _ | ⟨a, _ | ⟨b, _ | ⟨c, s⟩⟩⟩ <;> rw [hs] at hel
  · rw [hs] at h
    simp only [Spec.legacy2Index] at h
    split_ifs at h with h0
    cases hel
    simp only [Ten.unsqueeze, Spec.epsIndex, List.insertIdx_zero]
    rw [if_neg (by simp; omega), if_neg (by simp)]
  · rw [hs] at h
    have hn : rc.numel = np := by simp [Ten.numel, hr]
    simp only [Spec.legacy2Index] at h
    simp only [hr, hn] at hel
    by_cases h1 : a = np ∧ 1 < np
    · rw [if_pos h1] at h; cases h
    · rw [if_neg h1] at h
      rw [if_neg (by simpa using h1)] at hel
      split_ifs at h with h2
      cases hel
      simp only [Spec.epsIndex, List.insertIdx_zero]
      rw [if_neg (by omega), if_neg (by simp; omega)]
  · rw [hs] at h
    simp only [Spec.legacy2Index] at h
    by_cases h0 : (a = np ∨ a = 1 ∧ 1 ≤ np) ∧ (b = nk ∨ b = 1 ∧ 1 ≤ nk)
    · rw [if_pos h0] at h; cases h
    cases hel
    simp only [Spec.epsIndex, List.insertIdx_succ_cons, List.insertIdx_zero]
    rw [if_neg (by simpa using h0)]
  · cases hel
    simp [Spec.epsIndex]

theorem reading_none_eps {sk sr se sv : List ℕ} {nk np nl : ℕ} {ik ir} (h1 : Spec.k0Index sk = some (nk, ik))
    (h2 : Spec.rIndex sr = some (np, nl, ir)) (h3 : Spec.epsIndex np nl nk se = none) : Spec.reading sk sr se sv = none := by
  unfold Spec.reading
  simp [h1, h2, h3]

/-- C28: permittivity shapes outside the documented ones are `ValueError`s. -/
theorem C28_reject_shape {args : LayerArgs} {rc rs : Ten ℝ} {ec : Ten ℂ} (h1 : args.rLayers = none)
    (h2 : args.epsLayers = none) (h3 : args.rC = some rc) (h4 : args.epsC = some ec) (h5 : args.rS.getD rc = rs)
    {np nk : ℕ} {ik : ℕ → List ℕ} (hr : rc.atleast1.shape = [np]) (hrs : rs.atleast1.shape = [np])
    (hk : Spec.k0Index args.k0.shape = some (nk, ik)) (n : Option ℤ) (ri : Bool) :
    (rc.atleast1.Equal rs.atleast1 → Spec.legacy1Index np nk ec.shape = none →
      mieCoefficientsT args n ri = .error .valueError) ∧
    (¬rc.atleast1.Equal rs.atleast1 → (args.epsS.getD ec).shape = ec.shape → Spec.legacy2Index np nk ec.shape = none →
      mieCoefficientsT args n ri = .error .valueError) := by
  constructor
  · intro heq hn
    have ha : asLayerInputs args = .ok (rc.atleast1.unsqueeze rc.atleast1.ndim, legacyEps1 rc.atleast1 ec) := by
      unfold asLayerInputs
      rw [h1, h2, h3, h4]
      change legacyLayers rc (args.rS.getD rc) ec (args.epsS.getD ec) = _
      rw [h5]
      simp only [legacyLayers]
      rw [if_neg (by rw [not_not]; exact heq.1), if_pos heq]
    have hsr : (rc.atleast1.unsqueeze rc.atleast1.ndim).shape = [np, 1] := by
      simp [Ten.unsqueeze, Ten.ndim, hr]
    exact (C27_reject ha (reading_none_eps hk (by rw [hsr]; rfl) (homogeneous_eps_none hn _ hr)) n ri).1
  · intro hne hs hn
    have hst : Ten.stack2 rc.atleast1 rs.atleast1 rc.atleast1.ndim = .ok ⟨[np, 2], fun idx =>
        if idx.getD 1 0 = 0 then rc.atleast1.get (idx.eraseIdx 1) else rs.atleast1.get (idx.eraseIdx 1)⟩ := by
      unfold Ten.stack2
      rw [if_pos (by rw [hr, hrs])]
      simp [Ten.ndim, hr]
    obtain ⟨el, hel⟩ : ∃ el, legacyEps2 rc.atleast1 ec (args.epsS.getD ec) = .ok el := by
      have hst : ∀ d, ∃ t, Ten.stack2 ec (args.epsS.getD ec) d = .ok t := by
        intro d; unfold Ten.stack2; rw [if_pos hs.symm]; exact ⟨_, rfl⟩
      obtain ⟨t0, ht0⟩ := hst 0
      obtain ⟨t1, ht1⟩ := hst 1
      unfold legacyEps2
      simp only [ht0, ht1, Bind.bind, Except.bind]
      rcases ec.shape with _ | ⟨a, _ | ⟨b, s⟩⟩
      · exact ⟨_, rfl⟩
      · split_ifs <;> exact ⟨_, rfl⟩
      · exact ⟨_, rfl⟩
    have ha : asLayerInputs args = .ok (⟨[np, 2], fun idx =>
        if idx.getD 1 0 = 0 then rc.atleast1.get (idx.eraseIdx 1) else rs.atleast1.get (idx.eraseIdx 1)⟩, el) := by
      unfold asLayerInputs
      rw [h1, h2, h3, h4]
      change legacyLayers rc (args.rS.getD rc) ec (args.epsS.getD ec) = _
      rw [h5]
      simp only [legacyLayers]
      rw [if_neg (by rw [not_not, hr, hrs]), if_neg hne, hst]
      simp only [Bind.bind, Except.bind]
      rw [hel]
    exact (C27_reject ha (reading_none_eps hk (by rfl) (coreshell_eps_none hs hn _ hr hel)) n ri).1

/-- C28: radii of different shapes are a `ValueError`, core and shell permittivities of different shapes a
`RuntimeError`. -/
theorem C28_reject {args : LayerArgs} {rc rs : Ten ℝ} {ec : Ten ℂ} (h1 : args.rLayers = none)
    (h2 : args.epsLayers = none) (h3 : args.rC = some rc) (h4 : args.epsC = some ec) (h5 : args.rS.getD rc = rs)
    (n : Option ℤ) (ri : Bool) :
    (rc.atleast1.shape ≠ rs.atleast1.shape → mieCoefficientsT args n ri = .error .valueError) ∧
    (rc.atleast1.shape = rs.atleast1.shape → ¬rc.atleast1.Equal rs.atleast1 → (args.epsS.getD ec).shape ≠ ec.shape →
      mieCoefficientsT args n ri = .error .runtimeError) := by
  constructor
  · intro h
    have ha : asLayerInputs args = .error .valueError := by
      unfold asLayerInputs
      rw [h1, h2, h3, h4]
      change legacyLayers rc (args.rS.getD rc) ec (args.epsS.getD ec) = _
      rw [h5]
      simp only [legacyLayers]
      rw [if_pos h]
    unfold mieCoefficientsT
    rw [ha]; rfl
  · intro h hne hs
    obtain ⟨rl, hst⟩ : ∃ rl, Ten.stack2 rc.atleast1 rs.atleast1 rc.atleast1.ndim = .ok rl := by
      unfold Ten.stack2; rw [if_pos h]; exact ⟨_, rfl⟩
    have ha : asLayerInputs args = .error .runtimeError := by
      unfold asLayerInputs
      rw [h1, h2, h3, h4]
      change legacyLayers rc (args.rS.getD rc) ec (args.epsS.getD ec) = _
      rw [h5]
      simp only [legacyLayers]
      rw [if_neg (by rw [not_not]; exact h), if_neg hne, hst]
      have : ∀ d, Ten.stack2 ec (args.epsS.getD ec) d = .error .runtimeError := by
        intro d; unfold Ten.stack2; rw [if_neg (Ne.symm hs)]
      simp only [Bind.bind, Except.bind]
      have : legacyEps2 rc.atleast1 ec (args.epsS.getD ec) = .error .runtimeError := by
        unfold legacyEps2
        simp only [this, Bind.bind, Except.bind, ite_self]
        rcases ec.shape with _ | ⟨a, _ | ⟨b, s⟩⟩ <;> rfl
      rw [this]
    unfold mieCoefficientsT
    rw [ha]; rfl

/-- Three homogeneous particles with one permittivity each at two wavenumbers. -/
noncomputable def demoLegacy : LayerArgs where
  k0 := ⟨[2], fun idx => ((idx.headD 0 : ℕ) : ℂ) + 1⟩
  rC := some ⟨[3], fun idx => ((idx.headD 0 : ℕ) : ℝ) + 1⟩
  epsC := some ⟨[3], fun idx => ((idx.headD 0 : ℕ) : ℂ) + 2⟩

example (n : ℤ) (B : Backends) (w : String) :
    Except.map (BatchOut.entry 2 1) (mieCoefficientsT demoLegacy (some n) false)
      = mieCoefficients codeD1 B ⟨2, [3], [4], 1⟩ "pena" w (some n) false := by
  have := C28_homogeneous (args := demoLegacy) (np := 3) (nk := 2) (p := 2) (k := 1) rfl rfl rfl rfl (by simp [demoLegacy]) rfl rfl rfl
    rfl (by norm_num) (by norm_num) n false B w
  rw [this]
  simp [demoLegacy, radius1, Ten.scalar]
  norm_num

/-- A list as long as the list of radii is read per particle, not as a spectrum. -/
example : (Spec.legacy1Index 3 3 [3]).map (fun f => f 2 0) = some [2] := rfl
/-- One permittivity for several core-shell particles is not accepted. -/
example : Spec.legacy2Index 3 2 [] = none := rfl

/-- `C28_incomplete` applies to radii without permittivities. -/
example (n : Option ℤ) : mieCoefficientsT { k0 := Ten.scalar 1, rLayers := some (Ten.ofList 0 [1, 2]) } n false = .error .valueError :=
  (C28_incomplete _ n false (.inl (by simp))).1

/-- `C28_precedence` applies to layers given together with a core radius. -/
example (n : Option ℤ) : mieCoefficientsT { demoBatch with rC := some (Ten.scalar 5) } n true = mieCoefficientsT demoBatch n true :=
  (C28_precedence demoBatch rfl rfl (some (Ten.scalar 5)) none none none n true (Ten.scalar 0)).1

/-- `C28_coreshell` applies to two core-shell particles at two wavenumbers. -/
example (n : ℤ) (B : Backends) (w : String) :
    Except.map (BatchOut.entry 1 0) (mieCoefficientsT
        ⟨Ten.ofList 0 [1, 2], none, none, some (Ten.ofList 0 [1, 2]), some (Ten.ofList 0 [3, 4]), some (Ten.ofList 0 [5, 6]),
          some (Ten.ofList 0 [7, 8]), Ten.scalar 1⟩ (some n) false)
      = mieCoefficients codeD1 B ⟨1, [2, 6], [4, 8], 1⟩ "pena" w (some n) false :=
  C28_coreshell (args := ⟨Ten.ofList 0 [1, 2], none, none, some (Ten.ofList 0 [1, 2]), some (Ten.ofList 0 [3, 4]), some (Ten.ofList 0 [5, 6]),
      some (Ten.ofList 0 [7, 8]), Ten.scalar 1⟩) (rc := Ten.ofList 0 [1, 2]) (rs := Ten.ofList 0 [5, 6]) (ec := Ten.ofList 0 [3, 4])
    (es := Ten.ofList 0 [7, 8]) (np := 2) (nk := 2) (p := 1) (k := 0) rfl rfl rfl rfl rfl rfl rfl rfl rfl
    (by
      intro p hp
      obtain rfl | rfl : p = 0 ∨ p = 1 := by omega
      all_goals norm_num [radius1, Ten.ofList]) rfl rfl rfl (by norm_num) (by norm_num) n false B w

/-- `C28_reject_shape` and `C28_reject` apply: five permittivities for two particles at three wavenumbers, two core radii and three shell radii, and
core and shell permittivities of different lengths. -/
example (n : Option ℤ) :
    mieCoefficientsT ⟨Ten.ofList 0 [1, 2, 3], none, none, some (Ten.ofList 0 [1, 2]), some (Ten.ofList 0 [1, 2, 3, 4, 5]), none, none, Ten.scalar 1⟩ n false
      = .error .valueError ∧
    mieCoefficientsT ⟨Ten.scalar 1, none, none, some (Ten.ofList 0 [1, 2]), some (Ten.ofList 0 [1, 2]), some (Ten.ofList 0 [2, 3, 4]), none, Ten.scalar 1⟩
      n false = .error .valueError ∧
    mieCoefficientsT ⟨Ten.scalar 1, none, none, some (Ten.ofList 0 [1, 2]), some (Ten.ofList 0 [1, 2]), some (Ten.ofList 0 [2, 3]),
      some (Ten.ofList 0 [4]), Ten.scalar 1⟩ n false = .error .runtimeError := by
  refine ⟨(C28_reject_shape (np := 2) (nk := 3) rfl rfl rfl rfl rfl rfl rfl rfl n false).1 ⟨rfl, rfl⟩ rfl,
    (C28_reject rfl rfl rfl rfl rfl n false).1 (by decide), (C28_reject (rc := Ten.ofList 0 [1, 2])
      (rs := Ten.ofList 0 [2, 3]) rfl rfl rfl rfl rfl n false).2 rfl ?_ (by decide)⟩
  rintro ⟨-, h⟩
  norm_num [Ten.entries, Ten.indices, Ten.atleast1, Ten.ofList, List.range_succ] at h

end MieDiff
