import Verif.Proofs.BatchObs

/-!
# C26–C29: batched evaluation, input layouts, legacy inputs, increasing radii
-/

namespace MieDiff

open Complex

/-! ## C26 -/

/-- Particle `p` at wavenumber `k` in the documented reading of the user's arrays. -/
noncomputable def LayerArgs.particle (args : LayerArgs) (R : Spec.Reading) (r : Ten ℝ) (eps : Ten ℂ) (p k : ℕ) :
    Particle1 :=
  { k0 := args.k0.get (R.k0 k)
    rLayers := (List.range R.nLayers).map fun (l : ℕ) => r.get (R.r p l)
    epsLayers := (List.range R.nLayers).map fun (l : ℕ) => eps.get (R.eps p l k)
    epsEnv := args.epsEnv.get (R.env k) }

theorem Bcast.Means.particle {b : Bcast} {R : Spec.Reading} {args : LayerArgs} {r : Ten ℝ} {eps : Ten ℂ}
    (h : b.Means R args.k0 r eps args.epsEnv) {p k : ℕ} (hp : p < R.nPart) (hk : k < R.nK) :
    b.particle p k = args.particle R r eps p k := by
  unfold Bcast.particle LayerArgs.particle
  rw [h.k0 k hk, h.env k hk, h.nLayers]
  congr 1
  · exact List.map_congr_left fun l hl => h.r p hp l (by simpa using hl)
  · exact List.map_congr_left fun l hl => h.eps p hp l (by simpa using hl) k hk

/-- C26: every entry of a batched result of `mie_coefficients(backend='pena', n_max=n)` is the result for that particle
at that wavenumber alone, exceptions included. -/
theorem C26_coefficients {args : LayerArgs} {r : Ten ℝ} {eps : Ten ℂ} {R : Spec.Reading}
    (ha : asLayerInputs args = .ok (r, eps))
    (hR : Spec.reading args.k0.shape r.shape eps.shape args.epsEnv.shape = some R) (hi : Increasing R r)
    {p k : ℕ} (hp : p < R.nPart) (hk : k < R.nK) (n : ℤ) (ri : Bool) (B : Backends) (w : String) :
    Except.map (BatchOut.entry p k) (mieCoefficientsT args (some n) ri)
      = mieCoefficients codeD1 B (args.particle R r eps p k) "pena" w (some n) ri := by
  obtain ⟨b, hb, hw, hm⟩ := broadcast_ok hR hi
  rw [← hm.particle hp hk]
  exact mieCoefficientsT_entry ha hb hw (by rw [hm.nPart]; exact hp) (by rw [hm.nK]; exact hk) n ri B w

/-- C26: the same for `cross_sections`, all totals, efficiencies and multipole contributions. -/
theorem C26_cross_sections {args : LayerArgs} {r : Ten ℝ} {eps : Ten ℂ} {R : Spec.Reading}
    (ha : asLayerInputs args = .ok (r, eps))
    (hR : Spec.reading args.k0.shape r.shape eps.shape args.epsEnv.shape = some R) (hi : Increasing R r)
    {p k : ℕ} (hp : p < R.nPart) (hk : k < R.nK) (n : ℤ) (B : Backends) (w : String) :
    Except.map (CrossT.entry n.toNat p k) (crossSectionsT args (some n))
      = crossSectionsOf codeD1 B (args.particle R r eps p k) "pena" w (some n) := by
  obtain ⟨b, hb, hw, hm⟩ := broadcast_ok hR hi
  rw [← hm.particle hp hk]
  exact crossSectionsT_entry ha hb hw (by rw [hm.nPart]; exact hp) (by rw [hm.nK]; exact hk) n B w

/-- C26: the same for `angular_scattering` at every angle. -/
theorem C26_angular {args : LayerArgs} {r : Ten ℝ} {eps : Ten ℂ} {R : Spec.Reading}
    (ha : asLayerInputs args = .ok (r, eps))
    (hR : Spec.reading args.k0.shape r.shape eps.shape args.epsEnv.shape = some R) (hi : Increasing R r)
    {p k : ℕ} (hp : p < R.nPart) (hk : k < R.nK) (theta : Ten ℝ) {nt : ℕ} (ht : theta.shape = [nt]) {t : ℕ} (htt : t < nt)
    (n : ℤ) (B : Backends) (w : String) :
    Except.map (AngularT.entry p k t) (angularT args theta (some n))
      = angularOf codeD1 B (args.particle R r eps p k) (theta.get [t]) "pena" w (some n) := by
  obtain ⟨b, hb, hw, hm⟩ := broadcast_ok hR hi
  rw [← hm.particle hp hk]
  exact angularT_entry ha hb hw (by rw [hm.nPart]; exact hp) (by rw [hm.nK]; exact hk) theta ht htt n B w

/-- C26: shapes of the coefficients. -/
theorem C26_shapes {args : LayerArgs} {n : Option ℤ} {ri : Bool} {o : BatchOut}
    (h : mieCoefficientsT args n ri = .ok o) :
    ∃ r eps R, asLayerInputs args = .ok (r, eps) ∧
      Spec.reading args.k0.shape r.shape eps.shape args.epsEnv.shape = some R ∧ Increasing R r ∧
      o.a.shape = [o.nMax.toNat, R.nPart, R.nK] ∧ o.bn.shape = [o.nMax.toNat, R.nPart, R.nK] ∧
      o.k.shape = [1, R.nK] ∧ o.rS.shape = [R.nPart, R.nK] := by
  obtain ⟨r, eps, ha, hb, -, -, hw⟩ := mieCoefficientsT_inv h
  obtain ⟨R, hR, hi, -, hm⟩ := broadcast_inv hb
  refine ⟨r, eps, R, ha, hR, hi, ?_, ?_, ?_, ?_⟩
  · rw [hw.a, hm.nPart, hm.nK]
  · rw [hw.bn, hm.nPart, hm.nK]
  · rw [hw.k, hm.nK]
  · rw [hw.rS, hm.nPart, hm.nK]

theorem penaNmax_mono {l l' : List TruncEntry} {n n' : ℤ} (h : penaNmax l = .ok n) (h' : penaNmax l' = .ok n')
    (hs : ∀ e ∈ l, e ∈ l') : n ≤ n' := by
  unfold penaNmax at h h'
  obtain ⟨x, e1, h⟩ := bindE_inv h
  obtain ⟨x', e1', h'⟩ := bindE_inv h'
  obtain ⟨y, e2, h⟩ := bindE_inv h
  obtain ⟨y', e2', h'⟩ := bindE_inv h'
  obtain ⟨z, e3, h⟩ := bindE_inv h
  obtain ⟨z', e3', h'⟩ := bindE_inv h'
  have key : ∀ {l l' : List ℂ} {v v' : ℝ}, maxAbs l = .ok v → maxAbs l' = .ok v' → (∀ z ∈ l, z ∈ l') → 0 ≤ v ∧ v ≤ v' := by
    intro l l' v v' h1 h2 hs
    have n1 : l ≠ [] := by rintro rfl; cases h1
    have n2 : l' ≠ [] := by rintro rfl; cases h2
    obtain ⟨M, e, ⟨w, hw, hM⟩, m⟩ := maxAbs_spec n1
    obtain ⟨M', e', ⟨w', hw', hM'⟩, m'⟩ := maxAbs_spec n2
    rw [e] at h1; cases h1
    rw [e'] at h2; cases h2
    exact ⟨hM ▸ norm_nonneg w, hM ▸ m' w (hs w hw)⟩
  obtain ⟨hx0, hx⟩ := key e1 e1' fun z hz => by
    obtain ⟨e, he, rfl⟩ := List.mem_map.mp hz
    exact List.mem_map.mpr ⟨e, hs e he, rfl⟩
  obtain ⟨-, hy⟩ := key e2 e2' fun z hz => by
    obtain ⟨e, he, hz⟩ := List.mem_flatMap.mp hz
    exact List.mem_flatMap.mpr ⟨e, hs e he, hz⟩
  obtain ⟨-, hz⟩ := key e3 e3' fun z hz => by
    obtain ⟨e, he, hz⟩ := List.mem_flatMap.mp hz
    exact List.mem_flatMap.mpr ⟨e, hs e he, hz⟩
  rw [← Except.ok.inj h, ← Except.ok.inj h']
  apply torchRound_mono
  rw [penaNStop_eq, penaNStop_eq]
  have : ((wiscombe1 x : ℤ) : ℝ) ≤ (wiscombe1 x' : ℤ) := by exact_mod_cast wiscombe1_mono hx0 hx
  have := max_le_max this (max_le_max hy hz)
  linarith

/-- C26: without `n_max` the batch is evaluated at one common order, the rule applied to all entries together; it is at
least the order each entry would get alone. -/
theorem C26_auto {args : LayerArgs} {r : Ten ℝ} {eps : Ten ℂ} {R : Spec.Reading}
    (ha : asLayerInputs args = .ok (r, eps))
    (hR : Spec.reading args.k0.shape r.shape eps.shape args.epsEnv.shape = some R) (hi : Increasing R r)
    (hl : 0 < R.nLayers) (ri : Bool) :
    mieCoefficientsT args none ri = (penaNmax ((List.range R.nPart).flatMap fun p => (List.range R.nK).map fun k =>
        (args.particle R r eps p k).trunc) >>= fun n => mieCoefficientsT args (some n) ri) ∧
      ∀ n, penaNmax ((List.range R.nPart).flatMap fun p => (List.range R.nK).map fun k =>
        (args.particle R r eps p k).trunc) = .ok n → ∀ p, p < R.nPart → ∀ k, k < R.nK →
        ∀ n', penaNmax [(args.particle R r eps p k).trunc] = .ok n' → n' ≤ n := by
  obtain ⟨b, hb, hw, hm⟩ := broadcast_ok hR hi
  have ht : b.truncs = (List.range R.nPart).flatMap fun p => (List.range R.nK).map fun k =>
      (args.particle R r eps p k).trunc := by
    unfold Bcast.truncs
    rw [hm.nPart, hm.nK]
    rw [List.flatMap_def, List.flatMap_def]
    congr 1
    refine List.map_congr_left fun p hp => List.map_congr_left fun k hk => ?_
    rw [hm.particle (by simpa using hp) (by simpa using hk)]
  rw [← ht]
  have hl' : 0 < b.nLayers := by rw [hm.nLayers]; exact hl
  constructor
  · rw [← penaNmaxT_eq hw hl']
    have hR0 : ∃ t, b.r.select 1 0 = .ok t ∧ t.shape = [b.nPart] := by
      refine ⟨_, by simp [Ten.select, hw.r, hl']; rfl, by simp⟩
    have hE0 : ∃ t, b.eps.select 1 0 = .ok t ∧ t.shape = [b.nPart, b.nK] := by
      refine ⟨_, by simp [Ten.select, hw.eps, hl']; rfl, by simp⟩
    obtain ⟨t, ht1, ht2⟩ := hR0
    obtain ⟨e, he1, he2⟩ := hE0
    have hbr : ∀ u : Ten ℝ, u.shape = [b.nPart] → ∃ v, (u.unsqueeze 1).broadcastTo [b.nPart, b.nK] = .ok v := by
      intro u hu
      exact ⟨_, by simp [Ten.broadcastTo, Ten.unsqueeze, hu]; rfl⟩
    obtain ⟨rC, hrC⟩ := hbr t ht2
    obtain ⟨m, hmm⟩ : ∃ m, b.nLayers = m + 1 := ⟨b.nLayers - 1, by omega⟩
    obtain ⟨rS, hrS⟩ : ∃ v, aliasR b rC = .ok v := by
      unfold aliasR
      split_ifs
      · have : b.r.selectLast 1 = .ok ⟨[b.nPart], fun idx => b.r.get (idx.insertIdx 1 m)⟩ := by
          simp [Ten.selectLast, hw.r, hmm]
        rw [this]
        exact hbr _ rfl
      · exact ⟨_, rfl⟩
    obtain ⟨eS, heS⟩ : ∃ v, aliasEps b e = .ok v := by
      unfold aliasEps
      split_ifs
      · exact ⟨_, by simp [Ten.selectLast, hw.eps, hmm]; rfl⟩
      · exact ⟨_, rfl⟩
    unfold mieCoefficientsT
    simp only [ha, hb, ht1, he1, hrC, hrS, heS, orderChoiceT, Bind.bind, Except.bind]
  · intro n hn p hp k hk n' hn'
    refine penaNmax_mono hn' hn fun e he => ?_
    rw [List.mem_singleton] at he
    subst he
    rw [ht]
    exact List.mem_flatMap.mpr ⟨p, by simpa using hp, List.mem_map.mpr ⟨k, by simpa using hk, rfl⟩⟩

/-- Two particles, three wavenumbers, two layers, permittivity per layer and wavenumber, host a number. -/
noncomputable def demoBatch : LayerArgs where
  k0 := ⟨[3], fun idx => ((idx.headD 0 : ℕ) : ℂ) + 1⟩
  rLayers := some ⟨[2, 2], fun idx => (idx.getD 0 0 : ℝ) + 2 * (idx.getD 1 0 : ℝ) + 1⟩
  epsLayers := some ⟨[2, 3], fun idx => ((idx.getD 0 0 : ℕ) : ℂ) + ((idx.getD 1 0 : ℕ) : ℂ) * I + 2⟩

example : ∃ R, Spec.reading demoBatch.k0.shape [2, 2] [2, 3] demoBatch.epsEnv.shape = some R ∧
    Increasing R ⟨[2, 2], fun idx => (idx.getD 0 0 : ℝ) + 2 * (idx.getD 1 0 : ℝ) + 1⟩ ∧ R.nPart = 2 ∧ R.nLayers = 2 ∧
    R.nK = 3 ∧ R.eps 1 0 2 = [0, 2] := by
  refine ⟨_, rfl, ?_, rfl, rfl, rfl, rfl⟩
  intro p hp l hl
  have hl' : l = 0 := by
    simp only at hl
    omega
  subst hl'
  norm_num

/-! ## C27, C29 -/

/-- C27, C29: `mie_coefficients` raises `ValueError` when the shapes are not documented ones or the radii of some
particle do not increase. -/
theorem C27_reject {args : LayerArgs} {r : Ten ℝ} {eps : Ten ℂ} (ha : asLayerInputs args = .ok (r, eps))
    (hR : Spec.reading args.k0.shape r.shape eps.shape args.epsEnv.shape = none) (n : Option ℤ) (ri : Bool) :
    mieCoefficientsT args n ri = .error .valueError ∧ crossSectionsT args n = .error .valueError ∧
      ∀ theta, angularT args theta n = .error .valueError := by
  have h : ∀ ri, mieCoefficientsT args n ri = .error .valueError := by
    intro ri
    unfold mieCoefficientsT
    rw [ha]
    simp only [Bind.bind, Except.bind, broadcast_none hR]
  refine ⟨h ri, ?_, fun theta => ?_⟩
  · unfold crossSectionsT; rw [h]; rfl
  · unfold angularT; rw [h]; rfl

/-- C27: documented shapes with increasing radii and at least one layer are accepted, and the returned `r_layers`,
`eps_layers`, `k0`, `eps_env` hold the documented entries. -/
theorem C27_layouts {args : LayerArgs} {r : Ten ℝ} {eps : Ten ℂ} {R : Spec.Reading}
    (ha : asLayerInputs args = .ok (r, eps))
    (hR : Spec.reading args.k0.shape r.shape eps.shape args.epsEnv.shape = some R) (hi : Increasing R r) :
    (∃ b, broadcastMieLayers args.k0 r eps args.epsEnv = .ok b ∧ b.WF ∧ b.Means R args.k0 r eps args.epsEnv) ∧
    ∀ n ri o, mieCoefficientsT args n ri = .ok o →
      o.b.eps.shape = [R.nPart, R.nLayers, R.nK] ∧ o.b.r.shape = [R.nPart, R.nLayers] ∧
      (∀ p, p < R.nPart → ∀ l, l < R.nLayers → o.b.r.get [p, l] = r.get (R.r p l)) ∧
      (∀ p, p < R.nPart → ∀ l, l < R.nLayers → ∀ k, k < R.nK → o.b.eps.get [p, l, k] = eps.get (R.eps p l k)) ∧
      (∀ k, k < R.nK → o.b.k0.get [0, k] = args.k0.get (R.k0 k)) ∧
      ∀ k, k < R.nK → o.b.env.get [0, k] = args.epsEnv.get (R.env k) := by
  obtain ⟨b, hb, hw, hm⟩ := broadcast_ok hR hi
  refine ⟨⟨b, hb, hw, hm⟩, ?_⟩
  intro n ri o ho
  obtain ⟨r', eps', ha', hb', -, -, hwo⟩ := mieCoefficientsT_inv ho
  rw [ha] at ha'
  cases ha'
  rw [hb] at hb'
  cases hb'
  refine ⟨?_, ?_, hm.r, hm.eps, hm.k0, hm.env⟩
  · rw [hw.eps, hm.nPart, hm.nLayers, hm.nK]
  · rw [hw.r, hm.nPart, hm.nLayers]

/-- When a 2D shape fits both readings, `(N_part, L)` is meant. -/
example : (Spec.epsIndex 2 2 2 [2, 2]).map (fun f => f 0 1 0) = some [0, 1] := rfl
/-- The other reading of a 2D shape. -/
example : (Spec.epsIndex 3 2 5 [2, 5]).map (fun f => f 0 1 4) = some [1, 4] := rfl
/-- A spectral axis of length one is repeated. -/
example : (Spec.epsIndex 3 2 5 [3, 2, 1]).map (fun f => f 2 1 4) = some [2, 1, 0] := rfl
/-- Rejected: transposed layout. -/
example : Spec.epsIndex 3 2 5 [2, 3] = none := rfl

/-- C29: every observable raises `ValueError` unless the radii of every particle increase strictly. -/
theorem C29_increasing {args : LayerArgs} {r : Ten ℝ} {eps : Ten ℂ} (ha : asLayerInputs args = .ok (r, eps))
    {np nl : ℕ} {ir : ℕ → ℕ → List ℕ} (hr : Spec.rIndex r.shape = some (np, nl, ir))
    {p l : ℕ} (hp : p < np) (hl : l + 1 < nl) (hbad : r.get (ir p (l + 1)) ≤ r.get (ir p l)) (n : Option ℤ) (ri : Bool) :
    mieCoefficientsT args n ri = .error .valueError ∧ crossSectionsT args n = .error .valueError ∧
      ∀ theta, angularT args theta n = .error .valueError := by
  have h : ∀ ri, mieCoefficientsT args n ri = .error .valueError := by
    intro ri
    unfold mieCoefficientsT
    rw [ha]
    have := broadcast_notIncreasing (k0 := args.k0) (eps := eps) (env := args.epsEnv) hr
      fun h => absurd (h p hp l hl) (not_lt.mpr hbad)
    simp only [Bind.bind, Except.bind, this]
  refine ⟨h ri, ?_, fun theta => ?_⟩
  · unfold crossSectionsT; rw [h]; rfl
  · unfold angularT; rw [h]; rfl

/-- A batch whose second particle has equal radii. -/
example : ∃ (r : Ten ℝ) (ir : ℕ → ℕ → List ℕ), Spec.rIndex r.shape = some (2, 2, ir) ∧
    r.get (ir 1 1) ≤ r.get (ir 1 0) ∧ r.get (ir 0 0) < r.get (ir 0 1) :=
  ⟨⟨[2, 2], fun idx => if idx = [0, 1] then 2 else 1⟩, fun p l => [p, l], rfl, by norm_num, by norm_num⟩

end MieDiff
