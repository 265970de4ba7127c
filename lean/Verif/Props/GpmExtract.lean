import Verif.Proofs.Halton
import Verif.Proofs.Gpm
import Verif.Props.Tg

/-!
# C103: positions, probes and spectra of `extract_GPM_sphere_miediff`

The claims are stated with coordinates of the positions, `x ^ 2 + y ^ 2 + z ^ 2`, and with the arguments of the external solver.
-/

namespace MieDiff

/-! ### Generated positions -/

theorem haltonPoints_ok (n : ℕ) : haltonPoints n = .ok ((List.range n).map fun k =>
    ⟨(vanDerCorput 2 k : ℝ), (vanDerCorput 3 k : ℝ), (vanDerCorput 5 k : ℝ)⟩) := by
  unfold haltonPoints
  rw [if_neg (by omega)]
  rfl

theorem foldl_max_ge : ∀ (l : List ℝ) (x : ℝ), x ≤ l.foldl max x ∧ ∀ y ∈ l, y ≤ l.foldl max x
  | [], x => ⟨le_rfl, by simp⟩
  | a :: l, x => by
    obtain ⟨h1, h2⟩ := foldl_max_ge l (max x a)
    refine ⟨(le_max_left _ _).trans h1, fun y hy => ?_⟩
    rcases List.mem_cons.mp hy with rfl | hy
    · exact (le_max_right _ _).trans h1
    · exact h2 y hy

theorem maxNorm_ok {l : List (V3 ℝ)} (h : l ≠ []) : ∃ m, maxNorm l = .ok m ∧
    ∀ p ∈ l, Real.sqrt (p.c0 ^ 2 + p.c1 ^ 2 + p.c2 ^ 2) ≤ m := by
  rcases l with _ | ⟨a, l⟩
  · exact absurd rfl h
  · refine ⟨_, rfl, fun p hp => ?_⟩
    obtain ⟨h1, h2⟩ := foldl_max_ge (l.map fun p : V3 ℝ => Real.sqrt (p.c0 ^ 2 + p.c1 ^ 2 + p.c2 ^ 2))
      (Real.sqrt (a.c0 ^ 2 + a.c1 ^ 2 + a.c2 ^ 2))
    rcases List.mem_cons.mp hp with rfl | hp
    · exact h1
    · exact h2 _ (List.mem_map.mpr ⟨p, hp, rfl⟩)

theorem sum_range_real (f : ℕ → ℝ) (n : ℕ) : ((List.range n).map f).sum = ∑ k ∈ Finset.range n, f k := by
  induction n with
  | zero => simp
  | succ n ih => rw [List.range_succ, List.map_append, List.sum_append, ih, Finset.sum_range_succ]; simp

/-- The positions in closed form: a multiple of the difference from the mean. -/
theorem gpmPoints_eq (R : ℝ) {n : ℕ} (hn : 1 ≤ n) : ∃ m : ℝ, 0 ≤ m ∧
    (∀ k < n, Real.sqrt ((vanDerCorput 2 k : ℝ) ^ 2 + (vanDerCorput 3 k : ℝ) ^ 2 + (vanDerCorput 5 k : ℝ) ^ 2) ≤ m) ∧
    gpmPoints R n = .ok ((List.range n).map fun k =>
      ⟨((vanDerCorput 2 k : ℝ) - (∑ i ∈ Finset.range n, (vanDerCorput 2 i : ℝ)) / n) * (1.3 * R / (m + 0.0001)),
       ((vanDerCorput 3 k : ℝ) - (∑ i ∈ Finset.range n, (vanDerCorput 3 i : ℝ)) / n) * (1.3 * R / (m + 0.0001)),
       ((vanDerCorput 5 k : ℝ) - (∑ i ∈ Finset.range n, (vanDerCorput 5 i : ℝ)) / n) * (1.3 * R / (m + 0.0001))⟩) := by
  obtain ⟨m, hm, hle⟩ := maxNorm_ok (l := (List.range n).map fun k =>
    (⟨(vanDerCorput 2 k : ℝ), (vanDerCorput 3 k : ℝ), (vanDerCorput 5 k : ℝ)⟩ : V3 ℝ)) (by simp; omega)
  have hle' : ∀ k < n, Real.sqrt ((vanDerCorput 2 k : ℝ) ^ 2 + (vanDerCorput 3 k : ℝ) ^ 2 + (vanDerCorput 5 k : ℝ) ^ 2) ≤ m :=
    fun k hk => hle _ (List.mem_map.mpr ⟨k, List.mem_range.mpr hk, rfl⟩)
  have hm0 : 0 ≤ m := (Real.sqrt_nonneg _).trans (hle' 0 (by omega))
  refine ⟨m, hm0, hle', ?_⟩
  have hs : m + 0.0001 ≠ 0 := by positivity
  have hn0 : (n : ℝ) ≠ 0 := by exact_mod_cast (by omega : n ≠ 0)
  unfold gpmPoints
  rw [haltonPoints_ok]
  simp only [bind_ok, hm, centroid, List.map_map, List.length_map, List.length_range, Function.comp_def]
  congr 1
  apply List.map_congr_left
  intro k _
  have e : ∀ f : ℕ → ℝ, ((List.range n).map fun x => f x / (m + 0.0001)).sum / n
      = (∑ i ∈ Finset.range n, f i) / n / (m + 0.0001) := by
    intro f
    rw [sum_range_real, ← Finset.sum_div]
    field_simp
  rw [e, e, e]
  congr 1 <;> · field_simp; ring

/-- C103: for every number `n ≥ 1` of polarizabilities and every radius, `extract_GPM_sphere_miediff` generates `n` different
positions, centred at the particle, and all of them strictly inside the sphere that encloses the particle. -/
theorem C103_points {R : ℝ} (hR : 0 < R) {n : ℕ} (hn : 1 ≤ n) : ∃ l, gpmPoints R n = .ok l ∧ l.length = n ∧ l.Nodup ∧
    (l.map (·.c0)).sum = 0 ∧ (l.map (·.c1)).sum = 0 ∧ (l.map (·.c2)).sum = 0 ∧
    ∀ p ∈ l, p.c0 ^ 2 + p.c1 ^ 2 + p.c2 ^ 2 < R ^ 2 := by
  obtain ⟨m, hm0, hm, e⟩ := gpmPoints_eq R hn
  have hs : 0 < m + 0.0001 := by positivity
  have hf : 0 < 1.3 * R / (m + 0.0001) := by positivity
  have hn0 : (n : ℝ) ≠ 0 := by exact_mod_cast (by omega : n ≠ 0)
  refine ⟨_, e, by simp, ?_, ?_, ?_, ?_, ?_⟩
  · refine List.Nodup.map ?_ List.nodup_range
    intro k l h
    have h0 := congrArg V3.c0 h
    simp only at h0
    have h1 := sub_left_injective (mul_right_cancel₀ hf.ne' h0)
    exact vanDerCorput_injective le_rfl (by exact_mod_cast h1)
  all_goals try
    · simp only [List.map_map, Function.comp_def]
      rw [sum_range_real, ← Finset.sum_mul, Finset.sum_sub_distrib, Finset.sum_const, Finset.card_range, nsmul_eq_mul,
        mul_div_cancel₀ _ hn0, sub_self, zero_mul]
  intro p hp
  obtain ⟨k, hk, rfl⟩ := List.mem_map.mp hp
  have hk := List.mem_range.mp hk
  obtain ⟨j, hj, h⟩ := halton_spread hk
  have h : (169 : ℝ) * (((vanDerCorput 2 k : ℝ) - (∑ i ∈ Finset.range n, (vanDerCorput 2 i : ℝ)) / n) ^ 2
      + ((vanDerCorput 3 k : ℝ) - (∑ i ∈ Finset.range n, (vanDerCorput 3 i : ℝ)) / n) ^ 2
      + ((vanDerCorput 5 k : ℝ) - (∑ i ∈ Finset.range n, (vanDerCorput 5 i : ℝ)) / n) ^ 2)
    ≤ 100 * ((vanDerCorput 2 j : ℝ) ^ 2 + (vanDerCorput 3 j : ℝ) ^ 2 + (vanDerCorput 5 j : ℝ) ^ 2) := by exact_mod_cast h
  have hj2 : (vanDerCorput 2 j : ℝ) ^ 2 + (vanDerCorput 3 j : ℝ) ^ 2 + (vanDerCorput 5 j : ℝ) ^ 2 ≤ m ^ 2 :=
    (Real.sqrt_le_left hm0).mp (hm j hj)
  set a := (vanDerCorput 2 k : ℝ) - (∑ i ∈ Finset.range n, (vanDerCorput 2 i : ℝ)) / n
  set b := (vanDerCorput 3 k : ℝ) - (∑ i ∈ Finset.range n, (vanDerCorput 3 i : ℝ)) / n
  set c := (vanDerCorput 5 k : ℝ) - (∑ i ∈ Finset.range n, (vanDerCorput 5 i : ℝ)) / n
  show (a * _) ^ 2 + (b * _) ^ 2 + (c * _) ^ 2 < R ^ 2
  rw [mul_pow, mul_pow, mul_pow, ← add_mul, ← add_mul, div_pow, mul_div_assoc', div_lt_iff₀ (by positivity)]
  have h1 : 1.69 * (a ^ 2 + b ^ 2 + c ^ 2) < (m + 0.0001) ^ 2 := by nlinarith
  have h2 : 0 < R ^ 2 := by positivity
  nlinarith [mul_lt_mul_of_pos_right h1 h2]

/-- C103: the positions of a larger particle are those of a smaller one, scaled. -/
theorem C103_scale (c R : ℝ) (n : ℤ) : gpmPoints (c * R) n =
    (gpmPoints R n).map fun l => l.map fun p => ⟨c * p.c0, c * p.c1, c * p.c2⟩ := by
  unfold gpmPoints
  rcases haltonPoints n with er | l
  · rfl
  rcases h : maxNorm l with er | m
  · simp only [bind_ok, h]; rfl
  · simp only [bind_ok, h, Except.map, List.map_map, Function.comp_def]
    congr 1
    apply List.map_congr_left
    intro p _
    congr 1 <;> ring

/-- C103: no position can be generated for zero or a negative number; `None` means 36, and a float is cut off towards zero. -/
theorem C103_number (R : ℝ) : (∀ n : ℤ, n ≤ 0 → gpmPositions R (.int n) = .error .valueError) ∧
    gpmPositions R .none = gpmPositions R (.int 36) ∧
    (∀ (n : ℕ) (x : ℝ), (n : ℝ) ≤ x → x < n + 1 → gpmPositions R (.float x) = gpmPositions R (.int n)) ∧
    (∀ x : ℝ, x < 1 → gpmPositions R (.float x) = .error .valueError) ∧
    ∀ t, gpmPositions R (.tensor t) = .ok t := by
  have neg : ∀ n : ℤ, n ≤ 0 → gpmPositions R (.int n) = .error .valueError := by
    intro n hn
    unfold gpmPositions gpmPoints haltonPoints
    by_cases h : n < 0
    · simp only [if_pos h]; rfl
    · obtain rfl : n = 0 := by omega
      rfl
  refine ⟨neg, rfl, fun n x h1 h2 => ?_, fun x hx => ?_, fun t => rfl⟩
  · have h0 : (0 : ℝ) ≤ x := le_trans (by positivity) h1
    have : pyInt x = n := by
      unfold pyInt
      rw [if_pos h0, Int.floor_eq_iff]
      exact ⟨by exact_mod_cast h1, by exact_mod_cast h2⟩
    simp only [gpmPositions, this]
  · have : pyInt x ≤ 0 := by
      unfold pyInt
      split_ifs with h
      · exact Int.le_of_lt_add_one (Int.floor_lt.mpr (by simpa using hx))
      · exact Int.ceil_le.mpr (by push_cast; linarith)
    exact neg _ this

/-! ### The whole function -/

theorem positionsTen_vecs (l : List (V3 ℝ)) : (positionsTen l).vecs l.length = l := by
  unfold Ten.vecs positionsTen
  apply List.ext_getElem
  · simp
  · intro i h1 h2
    simp [List.getD_eq_getElem?_getD, h2]

section

variable {G : Type} {env : Ten ℝ → Py (Ten ℂ)} {nf : ℕ → Ten ℝ → ℕ → Ten ℝ → Py FieldsT} {solve : GpmTask → Py G}
  {sphere : ℝ → Ten ℝ} {rLayers : List ℝ} {wl : Ten ℝ} {nk : ℕ} {rGpm : GpmArg} {rProbe : Option (Ten ℝ)} {nAngles : ℤ} {add : ℝ}
  {nEnv : Option ℝ} {o : GpmOut G}

theorem envCheck_inv {eps e : Ten ℂ} (h : envCheck eps nEnv = .ok e) :
    e = eps ∧ nEnv = none ∧ ∃ e0, eps.select 0 0 = .ok e0 ∧ ∀ v ∈ eps.entries, v = e0.get [] := by
  unfold envCheck at h
  rcases hs : eps.select 0 0 with er | e0
  · rw [hs] at h
    cases h
  · rw [hs] at h
    simp only [bind_ok] at h
    split_ifs at h with hc
    rcases nEnv with _ | x
    · cases h
      exact ⟨rfl, rfl, e0, rfl, hc⟩
    · simp only at h
      split_ifs at h

/-- The steps of a call that returns. -/
theorem extractGpm_inv (hw : wl.shape = [nk])
    (h : extractGpm env nf solve sphere rLayers wl rGpm rProbe nAngles add nEnv = .ok o) :
    ∃ e e0 rEnc rg confs gs nDp, env wl = .ok e ∧ nEnv = none ∧ e.atleast1.select 0 0 = .ok e0 ∧
      (∀ v ∈ e.atleast1.entries, v = e0.get []) ∧ enclosingRadius rLayers = .ok rEnc ∧ gpmPositions rEnc rGpm = .ok rg ∧
      setupPlaneWaves nAngles ["xz", "yz", "xy"] = .ok confs ∧
      ((List.range nk).mapM fun i => do
        let k ← (wl.map fun w => 2 * Real.pi / w).select 0 i
        let fields ← gpmArraysT (nf i k) confs (rProbe.getD (sphere (rEnc + add))) rg
        solve ⟨k.map fun x => 2 * Real.pi / x, fields, rProbe.getD (sphere (rEnc + add)), rg, (e0.get []).re⟩) = .ok gs ∧
      gs ≠ [] ∧ rg.len = .ok nDp ∧
      o = ⟨rg, gs, wl, nDp, rEnc, wl.map fun w => 2 * Real.pi / w, (e0.get []).re, rProbe.getD (sphere (rEnc + add))⟩ := by
  unfold extractGpm getEnvEps at h
  simp only [atleast1_of_shape hw] at h
  rcases h1 : env wl with er | e
  · rw [h1] at h; cases h
  rw [h1] at h
  simp only [bind_ok] at h
  rcases h2 : envCheck e.atleast1 nEnv with er | e'
  · rw [h2] at h; cases h
  obtain ⟨rfl, hn, e0, h3, h4⟩ := envCheck_inv h2
  rw [h2] at h
  simp only [bind_ok, h3] at h
  rcases h5 : enclosingRadius rLayers with er | rEnc
  · rw [h5] at h; cases h
  rw [h5] at h
  simp only [bind_ok] at h
  rcases h6 : gpmPositions rEnc rGpm with er | rg
  · rw [h6] at h; cases h
  rw [h6] at h
  simp only [bind_ok] at h
  rcases h7 : setupPlaneWaves nAngles ["xz", "yz", "xy"] with er | confs
  · rw [h7] at h; cases h
  rw [h7] at h
  simp only [bind_ok] at h
  rw [show (wl.map fun w => 2 * Real.pi / w).shape.headD 0 = nk by simp [Ten.map, hw]] at h
  obtain ⟨gs, h8, h⟩ := bindE_inv h
  split_ifs at h with h9
  rcases h10 : rg.len with er | nDp
  · rw [h10] at h; cases h
  rw [h10] at h
  cases h
  exact ⟨e, e0, rEnc, rg, confs, gs, nDp, rfl, hn, h3, h4, rfl, h6, rfl, h8, by simpa using h9, h10, rfl⟩

/-- C103, the result for a spectrum: one matrix per wavelength, in the order of the wavelengths.  Matrix `i` is the answer of the solver to the fields
evaluated at the wavenumber `2 pi / wavelength i`, for the wavelength, positions and environment that are returned in the dictionary.
No call with `n_env` returns a result. -/
theorem C103_result (hw : wl.shape = [nk]) (h0 : ∀ i < nk, wl.get [i] ≠ 0)
    (h : extractGpm env nf solve sphere rLayers wl rGpm rProbe nAngles add nEnv = .ok o) :
    nEnv = none ∧ 0 < nk ∧ o.gpm.length = nk ∧ o.wl = wl ∧ o.k0 = wl.map (fun w => 2 * Real.pi / w) ∧
    rLayers.getLast? = some o.rEnc ∧ gpmPositions o.rEnc rGpm = .ok o.rGpm ∧ o.rGpm.shape.head? = some o.nDp ∧
    (∀ t, rProbe = some t → o.rProbe = t) ∧ (rProbe = none → o.rProbe = sphere (o.rEnc + add)) ∧
    ∃ confs, setupPlaneWaves nAngles ["xz", "yz", "xy"] = .ok confs ∧ ∀ i < nk, ∃ fields g, o.gpm[i]? = some g ∧
      gpmArraysT (nf i ⟨[], fun idx => 2 * Real.pi / wl.get (i :: idx)⟩) confs o.rProbe o.rGpm = .ok fields ∧
      ∃ w : Ten ℝ, w.shape = [] ∧ w.get [] = wl.get [i] ∧ solve ⟨w, fields, o.rProbe, o.rGpm, o.env⟩ = .ok g := by
  obtain ⟨e, e0, rEnc, rg, confs, gs, nDp, -, hn, -, -, h5, h6, h7, h8, h9, h10, rfl⟩ := extractGpm_inv hw h
  obtain ⟨hl, hg⟩ := mapM_ok_get h8
  rw [List.length_range] at hl
  refine ⟨hn, ?_, hl, rfl, rfl, ?_, h6, ?_, fun t ht => by simp [ht], fun ht => by simp [ht], confs, h7, fun i hi => ?_⟩
  · rw [← hl]
    exact List.length_pos_iff.mpr h9
  · unfold enclosingRadius at h5
    split at h5
    · cases h5; assumption
    · cases h5
  · unfold Ten.len at h10
    split at h10
    · cases h10
    · rename_i hs
      cases h10
      rw [hs]
      rfl
  · obtain ⟨g, g1, g2⟩ := hg i i (by rw [List.getElem?_range hi])
    have hsel : (wl.map fun w => 2 * Real.pi / w).select 0 i = .ok ⟨[], fun idx => 2 * Real.pi / wl.get (i :: idx)⟩ := by
      simp [Ten.select, Ten.map, hw, hi]
    rw [hsel] at g2
    simp only [bind_ok] at g2
    obtain ⟨fields, g3, g4⟩ := bindE_inv g2
    refine ⟨fields, g, g1, g3, _, ?_, ?_, g4⟩
    · rfl
    · have := h0 i hi
      simp only [Ten.map]
      field_simp

/-- C103: with a number of positions, or none given, every polarizability of the result is inside the particle's enclosing sphere, and every generated
probe position is outside.  The only assumption on torchgdm's grid is that it is on the sphere of the radius it is asked for. -/
theorem C103_inside (hw : wl.shape = [nk]) (h0 : ∀ i < nk, wl.get [i] ≠ 0)
    (h : extractGpm env nf solve sphere rLayers wl rGpm none nAngles add nEnv = .ok o) (hR : 0 < o.rEnc) (hadd : 0 < add)
    {n : ℕ} (hn : rGpm = .int n ∨ rGpm = .none ∧ n = 36 ∨ ∃ x : ℝ, rGpm = .float x ∧ n ≤ x ∧ x < n + 1)
    {N : ℕ} (hsph : ∀ r, ∀ p ∈ (sphere r).vecs N, p.c0 ^ 2 + p.c1 ^ 2 + p.c2 ^ 2 = r ^ 2) :
    1 ≤ n ∧ o.rGpm.shape = [n, 3] ∧ o.nDp = n ∧ (o.rGpm.vecs n).Nodup ∧
    (∀ p ∈ o.rGpm.vecs n, p.c0 ^ 2 + p.c1 ^ 2 + p.c2 ^ 2 < o.rEnc ^ 2) ∧
    ∀ p ∈ o.rProbe.vecs N, o.rEnc ^ 2 < p.c0 ^ 2 + p.c1 ^ 2 + p.c2 ^ 2 := by
  obtain ⟨-, -, -, -, -, -, h6, h7, -, h8, -⟩ := C103_result hw h0 h
  have hpos : gpmPositions o.rEnc rGpm = gpmPositions o.rEnc (.int n) := by
    rcases hn with rfl | ⟨rfl, rfl⟩ | ⟨x, rfl, h1, h2⟩
    · rfl
    · exact (C103_number o.rEnc).2.1
    · exact (C103_number o.rEnc).2.2.1 n x h1 h2
  rw [hpos] at h6
  have hn1 : 1 ≤ n := by
    by_contra hc
    rw [(C103_number o.rEnc).1 n (by omega)] at h6
    cases h6
  obtain ⟨l, e, hl, hd, -, -, -, hin⟩ := C103_points hR hn1
  have e2 : o.rGpm = positionsTen l := by
    simp only [gpmPositions, e, Except.map] at h6
    exact (Except.ok.inj h6).symm
  have hv : o.rGpm.vecs n = l := by rw [e2, ← hl, positionsTen_vecs]
  have hs : o.rGpm.shape = [n, 3] := by rw [e2, ← hl]; rfl
  refine ⟨hn1, hs, ?_, by rw [hv]; exact hd, by rw [hv]; exact hin, fun p hp => ?_⟩
  · rw [hs] at h7
    simpa using h7.symm
  · rw [h8 rfl] at hp
    rw [hsph _ p hp]
    nlinarith

/-- C103, the environment: a dispersive environment is never accepted, and the permittivity of the environment handed to torchgdm and returned is the
real part of the particle's.  They agree exactly for an environment without absorption. -/
theorem C103_environment (hw : wl.shape = [nk])
    (h : extractGpm env nf solve sphere rLayers wl rGpm rProbe nAngles add nEnv = .ok o) :
    ∃ e, env wl = .ok e ∧ (e.shape = [] → o.env = (e.get []).re ∧ ((o.env : ℂ) = e.get [] ↔ (e.get []).im = 0)) ∧
      ∀ i < nk, e.shape = [nk] → o.env = (e.get [i]).re ∧ ((o.env : ℂ) = e.get [i] ↔ (e.get [i]).im = 0) ∧
        ∀ j < nk, e.get [i] = e.get [j] := by
  obtain ⟨e, e0, rEnc, rg, confs, gs, nDp, h1, -, h3, h4, -, -, -, -, -, -, rfl⟩ := extractGpm_inv hw h
  have real : ∀ z : ℂ, ((z.re : ℂ) = z ↔ z.im = 0) := fun z =>
    ⟨fun hc => by rw [← hc]; simp, fun hc => by apply Complex.ext <;> simp [hc]⟩
  refine ⟨e, h1, fun hs => ?_, fun i hi hs => ?_⟩
  · have : e.get [] = e0.get [] := by
      refine h4 _ ?_
      simp [Ten.atleast1, Ten.entries, Ten.indices, hs]
    rw [this]
    exact ⟨rfl, real _⟩
  have hv : ∀ j < nk, e.get [j] = e0.get [] := by
    intro j hj
    refine h4 _ ?_
    rw [atleast1_of_shape hs]
    unfold Ten.entries
    rw [hs]
    exact List.mem_map.mpr ⟨[j], by simp [Ten.indices, hj], rfl⟩
  rw [hv i hi]
  exact ⟨rfl, real _, fun j hj => (hv j hj).symm⟩

/-! ### Calls that return -/

theorem gpmArraysT_total {nf : ℕ → Ten ℝ → Py FieldsT} (hnf : ∀ j u L, u.shape = [L, 3] → ∃ F, nf j u = .ok F ∧ F.Shaped (rowShape L))
    {confs : List IncConf} (hc : ∀ c ∈ confs, c.plane ∈ ["xz", "yz", "xy"] ∧ c.pol ∈ ["s", "p"]) {rp rg : Ten ℝ} {N M : ℕ}
    (hp : rp.shape = [N, 3]) (hg : rg.shape = [M, 3]) (hN : 0 < N) (hM : 0 < M) : ∃ f, gpmArraysT nf confs rp rg = .ok f := by
  have total : ∀ {α β : Type} {F : α → Py β} {P : β → Prop} (l : List α), (∀ x ∈ l, ∃ y, F x = .ok y ∧ P y) →
      ∃ r, l.mapM F = .ok r ∧ ∀ y ∈ r, P y := by
    intro α β F P l
    induction l with
    | nil => exact fun _ => ⟨[], rfl, by simp⟩
    | cons a l ih =>
      intro h
      obtain ⟨y, hy, py⟩ := h a (by simp)
      obtain ⟨r, hr, pr⟩ := ih fun x hx => h x (by simp [hx])
      refine ⟨y :: r, ?_, by simpa using ⟨py, pr⟩⟩
      rw [List.mapM_cons, hy, bind_ok, hr]
      rfl
  obtain ⟨fs, e1, hfs⟩ := total (F := fun c : IncConf × ℕ => evalMieT (nf (2 * c.2)) (nf (2 * c.2 + 1)) c.1 rp rg)
    (P := IncT.Rows N M) confs.zipIdx (by
      rintro ⟨c, j⟩ hx
      have hm : c ∈ confs := (List.mem_zipIdx' hx).2 ▸ List.getElem_mem _
      obtain ⟨d, e, hw⟩ := C40_accept c (hc c hm).1 (hc c hm).2
      obtain ⟨-, -, -, R, hR, -⟩ := C40_frame hw
      unfold evalMieT
      obtain ⟨u, eu, su, -⟩ := matmul3_vecs hp R
      obtain ⟨v, ev, sv, -⟩ := matmul3_vecs hg R
      obtain ⟨F, eF, sF⟩ := hnf (2 * j) u N su
      obtain ⟨G, eG, sG⟩ := hnf (2 * j + 1) v M sv
      obtain ⟨F', eF', sF', -⟩ := fields_matmul3 sF (R.transpose.map fun x => (x : ℂ))
      obtain ⟨G', eG', sG', -⟩ := fields_matmul3 sG (R.transpose.map fun x => (x : ℂ))
      exact ⟨⟨F'.Es, F'.Hs, G'.Ei, G'.Hi⟩, by simp only [hR, bind_ok, eu, ev, eF, eG, eF', eG'],
        sF'.2.2.1, sF'.2.2.2.1, sG'.1, sG'.2.1⟩)
  obtain ⟨gs, e2, -⟩ := total (F := fillRow N M) (P := fun _ => True) fs (by
    intro f hf
    have hr := hfs f hf
    have ne : ∀ {L : ℕ} (t : Ten ℂ), 0 < L → t.rows L ≠ [] := fun t h => by simp [Ten.rows]; omega
    have hn := fillRow_eq hr
    obtain ⟨g, hg'⟩ := C53_total (f := f.lists N M) (ne _ hN) (ne _ hN) (ne _ hM) (ne _ hM)
    rw [hg'] at hn
    rcases hfr : fillRow N M f with er | y
    · rw [hfr] at hn; cases hn
    · exact ⟨y, rfl, trivial⟩)
  have l1 : rg.len = .ok M := by unfold Ten.len; rw [hg]
  have l2 : rp.len = .ok N := by unfold Ten.len; rw [hp]
  unfold gpmArraysT
  simp only [e1, bind_ok, l1, l2, e2]
  exact ⟨_, rfl⟩

/-- C103: a call returns for every spectrum, every particle and every number `n ≥ 1` of positions, when the environment is the same at all wavelengths, the near fields can be evaluated, and the solver answers. -/
theorem C103_total (hw : wl.shape = [nk]) (hk : 1 ≤ nk) {eps : ℂ} {e : Ten ℂ} (he : env wl = .ok e)
    (hes : e.shape = [nk] ∨ nk = 1 ∧ e.shape = []) (hev : ∀ idx, e.get idx = eps) (hr : rLayers ≠ []) {n : ℕ} (hn : 1 ≤ n)
    (hnf : ∀ i k j u L, u.shape = [L, 3] → ∃ F, nf i k j u = .ok F ∧ F.Shaped (rowShape L)) (hsolve : ∀ t, ∃ g, solve t = .ok g)
    {N : ℕ} (hN : 0 < N) (hsph : ∀ r, (sphere r).shape = [N, 3]) (angles : ℕ) (R : 0 < rLayers.getLast hr) :
    ∃ o, extractGpm env nf solve sphere rLayers wl (.int n) none angles add none = .ok o := by
  obtain ⟨confs, hconfs, -, hmem, -⟩ := C41_entries angles ["xz", "yz", "xy"]
  obtain ⟨l, hl, hlen, -⟩ := C103_points R hn
  have hs1 : e.atleast1.shape = [nk] := by
    rcases hes with hs | ⟨hk1, hs⟩
    · rw [atleast1_of_shape hs, hs]
    · simp [Ten.atleast1, hs, hk1]
  have hv1 : ∀ idx, e.atleast1.get idx = eps := by
    intro idx
    rcases hes with hs | ⟨hk1, hs⟩
    · rw [atleast1_of_shape hs, hev]
    · simp [Ten.atleast1, hs, hev]
  have hsel : e.atleast1.select 0 0 = .ok ⟨[], fun idx => e.atleast1.get (0 :: idx)⟩ := by
    simp [Ten.select, hs1, (by omega : 0 < nk)]
  have hcheck : envCheck e.atleast1 none = .ok e.atleast1 := by
    unfold envCheck
    rw [hsel]
    simp only [bind_ok]
    rw [if_neg (by
      rw [not_not]
      intro v hv
      obtain ⟨idx, -, rfl⟩ := List.mem_map.mp hv
      rw [hv1, hv1])]
  have hrad : enclosingRadius rLayers = .ok (rLayers.getLast hr) := by
    unfold enclosingRadius
    rw [List.getLast?_eq_some_getLast hr]
  have hpos : gpmPositions (rLayers.getLast hr) (.int n) = .ok (positionsTen l) := by
    simp only [gpmPositions, hl, Except.map]
  have hlp : (positionsTen l).shape = [n, 3] := by rw [← hlen]; rfl
  have key : ∀ is : List ℕ, (∀ i ∈ is, i < nk) → ∃ gs, is.mapM (fun i => do
        let k ← (wl.map fun w => 2 * Real.pi / w).select 0 i
        let fields ← gpmArraysT (nf i k) confs (sphere (rLayers.getLast hr + add)) (positionsTen l)
        solve ⟨k.map fun x => 2 * Real.pi / x, fields, sphere (rLayers.getLast hr + add), positionsTen l, eps.re⟩) = .ok gs ∧
      gs.length = is.length := by
    intro is
    induction is with
    | nil => exact fun _ => ⟨[], rfl, rfl⟩
    | cons i is ih =>
      intro h
      obtain ⟨gs, hgs, hgl⟩ := ih fun x hx => h x (by simp [hx])
      have hi := h i (by simp)
      have hs : (wl.map fun w => 2 * Real.pi / w).select 0 i = .ok ⟨[], fun idx => 2 * Real.pi / wl.get (i :: idx)⟩ := by
        simp [Ten.select, Ten.map, hw, hi]
      obtain ⟨f, hf⟩ := gpmArraysT_total (hnf i ⟨[], fun idx => 2 * Real.pi / wl.get (i :: idx)⟩) (confs := confs)
        (fun c hc => by
          obtain ⟨-, h1, h2⟩ := (hmem c).mp hc
          exact ⟨h1, by simpa using h2⟩) (hsph (rLayers.getLast hr + add)) hlp hN (by omega)
      obtain ⟨g, hg⟩ := hsolve ⟨Ten.map (fun x => 2 * Real.pi / x) ⟨[], fun idx => 2 * Real.pi / wl.get (i :: idx)⟩, f,
        sphere (rLayers.getLast hr + add), positionsTen l, eps.re⟩
      refine ⟨g :: gs, ?_, by simp [hgl]⟩
      rw [List.mapM_cons, hgs]
      simp only [hs, bind_ok, hf, hg]
      rfl
  obtain ⟨gs, hgs, hgl⟩ := key (List.range nk) fun i hi => List.mem_range.mp hi
  have hemp : gs.isEmpty = false := by
    rcases gs with _ | ⟨g, gs⟩
    · simp at hgl; omega
    · rfl
  have hlen' : (positionsTen l).len = .ok n := by unfold Ten.len; rw [hlp]
  unfold extractGpm getEnvEps
  simp only [atleast1_of_shape hw, he, bind_ok, hcheck, hsel, hv1, hrad, hpos, hconfs, Option.getD_none,
    show (wl.map fun w => 2 * Real.pi / w).shape.headD 0 = nk by simp [Ten.map, hw], hgs, hemp, hlen']
  exact ⟨_, rfl⟩

/-- C103: a wavelength given as a number is a spectrum of one wavelength. -/
theorem C103_scalar (w : ℝ) : extractGpm env nf solve sphere rLayers ⟨[], fun _ => w⟩ rGpm rProbe nAngles add nEnv
    = extractGpm env nf solve sphere rLayers ⟨[1], fun _ => w⟩ rGpm rProbe nAngles add nEnv := rfl

/-- C103: without wavelengths the call never returns: the first permittivity of the environment does not exist, and for an environment that answers
with a number regardless of the wavelengths there is no matrix to stack. -/
theorem C103_empty (hw : wl.shape = [0]) {e : Ten ℂ} (he : env wl = .ok e) :
    (e.shape = [0] → extractGpm env nf solve sphere rLayers wl rGpm rProbe nAngles add nEnv = .error .indexError) ∧
    (e.shape = [] → ∀ (hr : rLayers ≠ []) (n : ℕ), 1 ≤ n → 0 < rLayers.getLast hr → ∀ angles : ℕ,
      extractGpm env nf solve sphere rLayers wl (.int n) rProbe angles add none = .error .runtimeError) := by
  constructor
  · intro hs
    unfold extractGpm getEnvEps envCheck
    simp only [atleast1_of_shape hw, he, bind_ok, atleast1_of_shape hs, show e.select 0 0 = .error .indexError by simp [Ten.select, hs]]
    rfl
  · intro hs hr n hn R angles
    obtain ⟨confs, hconfs, -⟩ := C41_entries angles ["xz", "yz", "xy"]
    obtain ⟨l, hl, -⟩ := C103_points R hn
    have hsel : e.atleast1.select 0 0 = .ok ⟨[], fun idx => e.atleast1.get (0 :: idx)⟩ := by
      simp [Ten.select, Ten.atleast1, hs]
    have hcheck : envCheck e.atleast1 none = .ok e.atleast1 := by
      unfold envCheck
      rw [hsel]
      simp only [bind_ok]
      rw [if_neg (by
        rw [not_not]
        intro v hv
        obtain ⟨idx, -, rfl⟩ := List.mem_map.mp hv
        simp [Ten.atleast1, hs])]
    have hrad : enclosingRadius rLayers = .ok (rLayers.getLast hr) := by
      unfold enclosingRadius
      rw [List.getLast?_eq_some_getLast hr]
    have hpos : gpmPositions (rLayers.getLast hr) (.int n) = .ok (positionsTen l) := by
      simp only [gpmPositions, hl, Except.map]
    unfold extractGpm getEnvEps
    simp only [atleast1_of_shape hw, he, bind_ok, hcheck, hsel, hrad, hpos, hconfs,
      show (wl.map fun w => 2 * Real.pi / w).shape.headD 0 = 0 by simp [Ten.map, hw]]
    rfl

end

/-! ### Examples -/

/-- Near fields of constant value, in the shape of the code. -/
def flatFields (v : ℂ) (_ : ℕ) (_ : Ten ℝ) (_ : ℕ) (u : Ten ℝ) : Py FieldsT :=
  let t : Ten ℂ := ⟨rowShape (u.shape.headD 0), fun _ => v⟩
  .ok ⟨t, t, t, t, t, t⟩

/-- Two wavelengths, a core-shell particle in water and a grid of one position on the polar axis: the call returns, and its 36 polarizabilities are inside
the sphere of 80 nm radius. -/
example : ∃ o, extractGpm (G := GpmTask) (fun w => .ok (w.map fun _ => 1.77)) (flatFields 1) .ok
      (fun r => ⟨[1, 3], fun idx => if idx = [0, 2] then r else 0⟩) [50, 80] ⟨[2], fun idx => 500 + 100 * (idx.headD 0 : ℝ)⟩ (.int 36) = .ok o ∧
    o.rEnc = 80 ∧ o.gpm.length = 2 ∧ o.nDp = 36 ∧ o.env = 1.77 ∧ (∀ p ∈ o.rGpm.vecs 36, p.c0 ^ 2 + p.c1 ^ 2 + p.c2 ^ 2 < 80 ^ 2) ∧
    (∀ p ∈ o.rProbe.vecs 1, (80 : ℝ) ^ 2 < p.c0 ^ 2 + p.c1 ^ 2 + p.c2 ^ 2) := by
  obtain ⟨o, ho⟩ := C103_total (G := GpmTask) (env := fun w => .ok (w.map fun _ => 1.77)) (nf := flatFields 1) (solve := .ok)
    (sphere := fun r => ⟨[1, 3], fun idx => if idx = [0, 2] then r else 0⟩) (rLayers := [50, 80])
    (wl := ⟨[2], fun idx => 500 + 100 * (idx.headD 0 : ℝ)⟩) (nk := 2) (add := 20) rfl (by norm_num) (eps := 1.77) rfl (.inl rfl)
    (fun _ => rfl) (by simp) (n := 36) (by norm_num) (fun i k j u L hu => ⟨_, rfl, by simp [FieldsT.Shaped, hu]⟩)
    (fun t => ⟨t, rfl⟩) (N := 1) one_pos (fun r => rfl) 12 (by norm_num)
  have h0 : ∀ i < 2, (⟨[2], fun idx => 500 + 100 * (idx.headD 0 : ℝ)⟩ : Ten ℝ).get [i] ≠ 0 := fun i _ => by
    simp only [List.headD_cons]
    positivity
  have hr := C103_result rfl h0 ho
  have hR : o.rEnc = 80 := by
    have := hr.2.2.2.2.2.1
    simpa using this.symm
  have hi := C103_inside rfl h0 ho (by rw [hR]; norm_num) (by norm_num) (n := 36) (.inl rfl) (N := 1) (by
    intro r p hp
    simp only [Ten.vecs, List.range_one, List.map_cons, List.map_nil, List.mem_singleton] at hp
    subst hp
    simp)
  obtain ⟨e, he, hv⟩ := C103_environment rfl ho
  cases he
  obtain ⟨v1, -, -⟩ := hv.2 0 (by norm_num) rfl
  rw [hR] at hi
  exact ⟨o, ho, hR, hr.2.2.1, hi.2.2.1, by rw [v1]; norm_num [Ten.map], hi.2.2.2.2.1, hi.2.2.2.2.2⟩

/-- An empty spectrum, with an environment evaluated at each wavelength and with one that is a number. -/
example : extractGpm (G := GpmTask) (fun w => .ok (w.map fun _ => 1.77)) (flatFields 1) .ok (fun _ => ⟨[0, 3], fun _ => 0⟩) [50] ⟨[0], fun _ => 0⟩
      (.int 8) = .error .indexError ∧
    extractGpm (G := GpmTask) (fun _ => .ok ⟨[], fun _ => 1.77⟩) (flatFields 1) .ok (fun _ => ⟨[0, 3], fun _ => 0⟩) [50] ⟨[0], fun _ => 0⟩
      (.int 8) = .error .runtimeError :=
  ⟨(C103_empty rfl rfl).1 rfl, (C103_empty (rGpm := .none) (nAngles := 12) (nEnv := none) rfl rfl).2 rfl (by simp) 8 (by norm_num) (by norm_num) 12⟩

/-- A single wavelength, with a material that returns a number without axes for it. -/
example : ∃ o, extractGpm (G := GpmTask) (fun _ => .ok ⟨[], fun _ => 1.77⟩) (flatFields 1) .ok
    (fun r => ⟨[1, 3], fun idx => if idx = [0, 2] then r else 0⟩) [50] ⟨[1], fun _ => 500⟩ (.int 8) = .ok o :=
  C103_total (nk := 1) (add := 20) rfl le_rfl (eps := 1.77) rfl (.inr ⟨rfl, rfl⟩) (fun _ => rfl) (by simp) (n := 8) (by norm_num)
    (fun i k j u L hu => ⟨_, rfl, by simp [FieldsT.Shaped, hu]⟩) (fun t => ⟨t, rfl⟩) (N := 1) one_pos (fun r => rfl) 12 (by norm_num)

/-- One polarizability is at the centre. -/
example : gpmPoints 100 1 = .ok [⟨0, 0, 0⟩] := by
  obtain ⟨l, h, hl, -, h0, h1, h2, -⟩ := C103_points (R := 100) (by norm_num) (n := 1) le_rfl
  rcases l with _ | ⟨p, _ | ⟨q, l⟩⟩
  · simp at hl
  · simp at h0 h1 h2
    rw [show ((1 : ℕ) : ℤ) = 1 from rfl] at h
    rw [h]
    cases p
    simp_all
  · simp at hl

end MieDiff
