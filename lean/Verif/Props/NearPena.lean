import Verif.Proofs.NearPenaFields
import Verif.Props.NearBatch
import Verif.Props.EndToEnd
import Verif.Model.Tg

/-!
# C63, C64: the near fields of the `pena` backend for batches, and of a particle
-/

namespace MieDiff

open Complex

/-- Fields of particle `p` at wavenumber `k` and position `s`. -/
def FieldsT.entry (p k s : ℕ) (F : FieldsT) : Fields :=
  let v (t : Ten ℂ) : V3 ℂ := ⟨t.get [p, k, s, 0], t.get [p, k, s, 1], t.get [p, k, s, 2]⟩
  { Ei := v F.Ei, Hi := v F.Hi, Es := v F.Es, Hs := v F.Hs, Et := v F.Et, Ht := v F.Ht }

/-- All six arrays have the given shape. -/
def FieldsT.Shaped (F : FieldsT) (s : List ℕ) : Prop :=
  F.Ei.shape = s ∧ F.Hi.shape = s ∧ F.Es.shape = s ∧ F.Hs.shape = s ∧ F.Et.shape = s ∧ F.Ht.shape = s

section
variable {args : LayerArgs} {r : Ten ℝ} {eps : Ten ℂ} {R : Spec.Reading}

/-- One call once the coefficients are known. -/
theorem nearfieldsPenaT_run {nMax : Option ℤ} {o : BatchOut} (h : mieCoefficientsT args nMax false = .ok o) {probe : Ten ℝ}
    {Q : ℕ} (hp : probe.shape = [Q, 3]) (E0 : ℂ) :
    ∃ F, nearfieldsPenaT args probe E0 nMax = .ok F ∧ F.Shaped [o.b.nPart, o.b.nK, Q, 3] ∧
      ∀ p k s, p < o.b.nPart → k < o.b.nK → s < Q →
        let q := o.b.particle p k
        nearfieldsPena codeD1 q.k0 q.rLayers q.epsLayers q.epsEnv E0 (o.entry p k).a (o.entry p k).b
          ⟨probe.get [s, 0], probe.get [s, 1], probe.get [s, 2]⟩ = .ok (F.entry p k s) := by
  obtain ⟨-, -, -, -, -, -, w⟩ := mieCoefficientsT_inv h
  have v := mieCoefficientsT_vals h
  obtain ⟨x, hx, sx, vx⟩ := selLast2 hp (show 0 < 3 by norm_num)
  obtain ⟨y, hy, -, vy⟩ := selLast2 hp (show 1 < 3 by norm_num)
  obtain ⟨z, hz, -, vz⟩ := selLast2 hp (show 2 < 3 by norm_num)
  obtain ⟨F, hF, s1, s2, s3, s4, s5, s6, hv⟩ := penaFieldsFrom_ok w v
    (r := ⟨x.shape, fun i => (xyzToSph eps10Double (x.get i) (y.get i) (z.get i)).c0⟩)
    (theta := ⟨x.shape, fun i => (xyzToSph eps10Double (x.get i) (y.get i) (z.get i)).c1⟩)
    (phi := ⟨x.shape, fun i => (xyzToSph eps10Double (x.get i) (y.get i) (z.get i)).c2⟩) sx sx sx E0 1e-8
  refine ⟨F, ?_, ⟨s1, s2, s3, s4, s5, s6⟩, fun p k s hpp hkk hs => ?_⟩
  · unfold nearfieldsPenaT
    rw [h]
    simp only [bind_ok, hx, hy, hz]
    exact hF
  · intro q
    have hl : q.epsLayers.length = q.rLayers.length := by simp [q, Bcast.particle]
    have hn1 : 1 ≤ o.nMax.toNat := by have := w.n; omega
    have key := nearfieldsPena_eq (codeFn_fun o.nMax.toNat) hn1 q hl E0 (fun i => o.a.get [i - 1, p, k])
      (fun i => o.bn.get [i - 1, p, k]) ⟨probe.get [s, 0], probe.get [s, 1], probe.get [s, 2]⟩ 1e-8
    simp only [Nat.add_sub_cancel] at key
    refine Eq.trans ?_ (key.trans ?_)
    · rfl
    · have h0 := hv p k s 0 hpp hkk hs (by norm_num)
      have h1 := hv p k s 1 hpp hkk hs (by norm_num)
      have h2 := hv p k s 2 hpp hkk hs (by norm_num)
      simp only [vx, vy, vz] at h0 h1 h2
      refine congrArg Except.ok ?_
      obtain ⟨a1, a2, a3, a4, a5, a6⟩ := h0
      obtain ⟨b1, b2, b3, b4, b5, b6⟩ := h1
      obtain ⟨c1, c2, c3, c4, c5, c6⟩ := h2
      simp only [FieldsT.entry, a1, a2, a3, a4, a5, a6, b1, b2, b3, b4, b5, b6, c1, c2, c3, c4, c5, c6]
      rfl

/-- C63: with the `pena` backend every particle, wavenumber and position of a call gets the fields that the single-point code
computes for that particle alone (coefficients first, then the fields); errors are the same. -/
theorem C63_entries (ha : asLayerInputs args = .ok (r, eps))
    (hR : Spec.reading args.k0.shape r.shape eps.shape args.epsEnv.shape = some R) (hi : Increasing R r)
    {p k : ℕ} (hp : p < R.nPart) (hk : k < R.nK) {probe : Ten ℝ} {Q s : ℕ} (hpr : probe.shape = [Q, 3]) (hs : s < Q) (E0 : ℂ) (n : ℤ)
    (B : Backends) (w : String) :
    let q := args.particle R r eps p k
    Except.map (FieldsT.entry p k s) (nearfieldsPenaT args probe E0 (some n))
      = (mieCoefficients codeD1 B q "pena" w (some n) >>= fun m =>
          nearfieldsPena codeD1 q.k0 q.rLayers q.epsLayers q.epsEnv E0 m.a m.b
            ⟨probe.get [s, 0], probe.get [s, 1], probe.get [s, 2]⟩) := by
  intro q
  rw [← C26_coefficients ha hR hi hp hk n false B w]
  rcases ho : mieCoefficientsT args (some n) false with er | o
  · unfold nearfieldsPenaT
    rw [ho]
    rfl
  · obtain ⟨F, hF, -, hv⟩ := nearfieldsPenaT_run ho hpr E0
    obtain ⟨r', e', ha', hb', -, -, -⟩ := mieCoefficientsT_inv ho
    rw [ha] at ha'
    cases ha'
    obtain ⟨R', hR', -, -, hm⟩ := broadcast_inv hb'
    rw [hR] at hR'
    cases hR'
    have := hv p k s (by rw [hm.nPart]; exact hp) (by rw [hm.nK]; exact hk) hs
    rw [hm.particle hp hk] at this
    rw [hF]
    exact this.symm

/-- C63: the call runs for every number of particles, wavenumbers and positions as soon as the coefficients are found, and all six
arrays have the documented shape. -/
theorem C63_shapes (ha : asLayerInputs args = .ok (r, eps))
    (hR : Spec.reading args.k0.shape r.shape eps.shape args.epsEnv.shape = some R) {nMax : Option ℤ} {o : BatchOut}
    (ho : mieCoefficientsT args nMax false = .ok o) {probe : Ten ℝ} {Q : ℕ} (hpr : probe.shape = [Q, 3]) (E0 : ℂ) :
    ∃ F, nearfieldsPenaT args probe E0 nMax = .ok F ∧ F.Shaped [R.nPart, R.nK, Q, 3] := by
  obtain ⟨F, hF, hs, -⟩ := nearfieldsPenaT_run ho hpr E0
  obtain ⟨r', e', ha', hb', -, -, -⟩ := mieCoefficientsT_inv ho
  rw [ha] at ha'
  cases ha'
  obtain ⟨R', hR', -, -, hm⟩ := broadcast_inv hb'
  rw [hR] at hR'
  cases hR'
  exact ⟨F, hF, by rw [← hm.nPart, ← hm.nK]; exact hs⟩

/-- C63: without `n_max` the order is the one of `mie_coefficients`, from all particles and wavenumbers of the call. -/
theorem C63_auto (ha : asLayerInputs args = .ok (r, eps))
    (hR : Spec.reading args.k0.shape r.shape eps.shape args.epsEnv.shape = some R) (hi : Increasing R r) (hl : 0 < R.nLayers)
    (probe : Ten ℝ) (E0 : ℂ) :
    nearfieldsPenaT args probe E0 none = (penaNmax ((List.range R.nPart).flatMap fun p => (List.range R.nK).map fun k =>
      (args.particle R r eps p k).trunc) >>= fun n => nearfieldsPenaT args probe E0 (some n)) := by
  unfold nearfieldsPenaT
  rw [(C26_auto ha hR hi hl false).1]
  rcases penaNmax ((List.range R.nPart).flatMap fun p => (List.range R.nK).map fun k => (args.particle R r eps p k).trunc) with
    er | n <;> rfl

theorem bind_err {α β : Type} {x : Py α} {f : α → Py β} (h : ∀ y, x = .ok y → ∃ e, f y = .error e) : ∃ e, (x >>= f) = .error e := by
  rcases hx : x with e | y
  · exact ⟨e, rfl⟩
  · exact h y hx

/-- C63: a single position without its own axis is an `IndexError` once the coefficients are found. -/
theorem C63_point {nMax : Option ℤ} {o : BatchOut} (h : mieCoefficientsT args nMax false = .ok o) {probe : Ten ℝ}
    (hp : probe.shape = [3]) (E0 : ℂ) : nearfieldsPenaT args probe E0 nMax = .error .indexError := by
  obtain ⟨-, -, -, -, -, -, w⟩ := mieCoefficientsT_inv h
  have v := mieCoefficientsT_vals h
  have hsel : ∀ i < 3, ∃ t, probe.selLast i = .ok t ∧ t.shape = [] := fun i hi => by
    refine ⟨_, by unfold Ten.selLast Ten.select; rw [hp]; simp [hi]; rfl, rfl⟩
  obtain ⟨x, hx, sx⟩ := hsel 0 (by norm_num)
  obtain ⟨y, hy, -⟩ := hsel 1 (by norm_num)
  obtain ⟨z, hz, -⟩ := hsel 2 (by norm_num)
  have hL : o.b.r.shape.getD 1 0 = o.b.nLayers := by rw [w.b.r]; rfl
  obtain ⟨a, b, c, d, habcd, -⟩ := regionArraysT_ok w v
  unfold nearfieldsPenaT
  rw [h]
  simp only [bind_ok, hx, hy, hz]
  unfold penaFieldsFrom
  simp only [hL, habcd, bind_ok, sx]
  rfl

/-- C63: positions on a grid with several axes are refused, unless all axes after the first have length one. -/
theorem C63_grid {nMax : Option ℤ} {probe : Ten ℝ} {N : ℕ} {rest : List ℕ} (hp : probe.shape = N :: (rest ++ [3])) (hr : rest.prod ≠ 1)
    (hN : N ≠ 0) (E0 : ℂ) : ∃ e, nearfieldsPenaT args probe E0 nMax = .error e := by
  have hsel : ∀ i t, probe.selLast i = .ok t → t.shape = N :: rest := fun i t ht => by
    unfold Ten.selLast Ten.select at ht
    rw [hp] at ht
    have h3 : (N :: (rest ++ [3])).length - 1 = rest.length + 1 := by simp
    rw [h3] at ht
    simp only [List.getElem?_cons_succ, List.getElem?_concat_length] at ht
    split at ht
    · cases ht
      simp [List.eraseIdx_append_of_length_le]
    · cases ht
  unfold nearfieldsPenaT
  refine bind_err fun o ho => bind_err fun x hx => bind_err fun y hy => bind_err fun z hz => ?_
  have sx := hsel 0 x hx
  unfold penaFieldsFrom
  simp only [sx]
  refine bind_err fun abcd _ => ?_
  obtain ⟨a, b, c, d⟩ := abcd
  refine bind_err fun npos hnp => ?_
  obtain rfl : N = npos := Except.ok.inj hnp
  refine bind_err fun lay _ => bind_err fun vs _ => bind_err fun ms hms => ?_
  exfalso
  unfold masksT Ten.view11 at hms
  rw [if_neg (by simp only [List.prod_cons]; intro h; exact hr (Nat.eq_of_mul_eq_mul_left (Nat.pos_of_ne_zero hN) (by omega)))] at hms
  cases hms

end

/-! ### The method of a particle -/

/-- Fields at the `k`-th of `K` wavenumbers and the `s`-th of `Q` positions in the dictionary of `Particle.get_nearfields`. -/
def FieldsT.at (K Q k s : ℕ) (F : FieldsT) : Fields :=
  let v (t : Ten ℂ) : V3 ℂ := ⟨t.get (Spec.dropUnit [1, K, Q, 3] [0, k, s, 0]), t.get (Spec.dropUnit [1, K, Q, 3] [0, k, s, 1]),
    t.get (Spec.dropUnit [1, K, Q, 3] [0, k, s, 2])⟩
  { Ei := v F.Ei, Hi := v F.Hi, Es := v F.Es, Hs := v F.Hs, Et := v F.Et, Ht := v F.Ht }

theorem FieldsT.Shaped.at {F : FieldsT} {K Q k s : ℕ} (h : F.Shaped [1, K, Q, 3]) (hk : k < K) (hs : s < Q) :
    F.squeeze.at K Q k s = F.entry 0 k s := by
  obtain ⟨s1, s2, s3, s4, s5, s6⟩ := h
  have h1 : ∀ t : Ten ℂ, t.shape = [1, K, Q, 3] → ∀ j < 3,
      t.squeeze.get (Spec.dropUnit [1, K, Q, 3] [0, k, s, j]) = t.get [0, k, s, j] := fun t ht j hj => by
    rw [← t.squeeze_get (idx := [0, k, s, j]) (by rw [ht]; simp [hk, hs, hj]), ht]
  unfold FieldsT.at FieldsT.entry FieldsT.squeeze
  simp only [h1 _ s1 _ (show 0 < 3 by norm_num), h1 _ s1 _ (show 1 < 3 by norm_num), h1 _ s1 _ (show 2 < 3 by norm_num),
    h1 _ s2 _ (show 0 < 3 by norm_num), h1 _ s2 _ (show 1 < 3 by norm_num), h1 _ s2 _ (show 2 < 3 by norm_num),
    h1 _ s3 _ (show 0 < 3 by norm_num), h1 _ s3 _ (show 1 < 3 by norm_num), h1 _ s3 _ (show 2 < 3 by norm_num),
    h1 _ s4 _ (show 0 < 3 by norm_num), h1 _ s4 _ (show 1 < 3 by norm_num), h1 _ s4 _ (show 2 < 3 by norm_num),
    h1 _ s5 _ (show 0 < 3 by norm_num), h1 _ s5 _ (show 1 < 3 by norm_num), h1 _ s5 _ (show 2 < 3 by norm_num),
    h1 _ s6 _ (show 0 < 3 by norm_num), h1 _ s6 _ (show 1 < 3 by norm_num), h1 _ s6 _ (show 2 < 3 by norm_num)]

section
variable {C : Casts} {before : List WOp} {a : ParticleArgs} {after : List WOp} {k0 : DTen ℝ} {K : ℕ} {Q : ℕ → Particle1}

theorem nearfieldsWith_ok {q : Particle} {h : Heap} {args : LayerArgs} (hargs : (q.layerArgs C k0 h).1 = .ok args) {probe : Ten ℝ}
    {N : ℕ} (hp : probe.shape = [N, 3]) (A : BackendsOf ArrFns) (J : TorchFns) (E0 : ℂ) (backend w : String) (n : Option ℤ) :
    q.nearfieldsWith A J C k0 probe h E0 backend w n = (nearfieldsAny A J args probe E0 backend w n).map FieldsT.squeeze := by
  unfold Particle.nearfieldsWith
  rw [hp]
  simp only [List.getLast?_cons_cons, List.getLast?_singleton, hargs, bind_ok]

theorem nearfieldsAny_pena (A : BackendsOf ArrFns) (J : TorchFns) (args : LayerArgs) (probe : Ten ℝ) (E0 : ℂ) {backend : String}
    (hb : backend.toLower = "pena") (w : String) (n : Option ℤ) :
    nearfieldsAny A J args probe E0 backend w n = nearfieldsPenaT args probe E0 n := by
  unfold nearfieldsAny
  rw [if_pos hb]

/-- C64, backend `pena`: in any program without sharing, the near fields of a particle with increasing radii are, at every
requested wavenumber and position, those of a single sphere with the given radii and the permittivities its materials have at
that vacuum wavelength. -/
theorem C64_pena (S : Scenario C before a after k0 K Q) (hinc : ∀ i x y, a.radii[i]? = some x → a.radii[i + 1]? = some y → x < y) :
    ∃ q, particleAfter C before a after = some q ∧ ∀ (A : BackendsOf ArrFns) (J : TorchFns) (B : Backends) (w w' backend : String)
      (n : ℤ) (E0 : ℂ) (probe : Ten ℝ) (N : ℕ), backend.toLower = "pena" → probe.shape = [N, 3] → ∀ k < K, ∀ s < N,
      Except.map (FieldsT.at K N k s)
          (q.nearfieldsWith A J C k0 probe (worldAfter C before a after).heap E0 backend w (some n))
        = (mieCoefficients codeD1 B (Q k) "pena" w' (some n) >>= fun m =>
            nearfieldsPena codeD1 (Q k).k0 (Q k).rLayers (Q k).epsLayers (Q k).epsEnv E0 m.a m.b
              ⟨probe.get [s, 0], probe.get [s, 1], probe.get [s, 2]⟩) := by
  obtain ⟨q, args, r, e, R, hq, hargs, ha, hR, hP, hL, hKR, hr, hpart, -⟩ := S.args
  have hi := (radii_increasing hP hL hr).mpr hinc
  refine ⟨q, hq, fun A J B w w' backend n E0 probe N hb hp k hk s hs => ?_⟩
  have key := C63_entries ha hR hi (p := 0) (k := k) (by omega) (by omega) hp hs E0 n B w'
  rw [hpart k hk] at key
  rw [← key, nearfieldsWith_ok hargs hp, nearfieldsAny_pena A J args probe E0 hb]
  rcases ho : mieCoefficientsT args (some n) false with er | o
  · unfold nearfieldsPenaT
    rw [ho]
    rfl
  · obtain ⟨F, hF, hs'⟩ := C63_shapes ha hR ho hp E0
    rw [hP, hKR] at hs'
    rw [hF]
    simp only [Except.map]
    rw [hs'.at hk hs]

/-- C64: the same without `n_max`: one order for all wavenumbers of the call. -/
theorem C64_auto (S : Scenario C before a after k0 K Q) (hinc : ∀ i x y, a.radii[i]? = some x → a.radii[i + 1]? = some y → x < y) :
    ∃ q, particleAfter C before a after = some q ∧ ∀ (A : BackendsOf ArrFns) (J : TorchFns) (w backend : String)
      (E0 : ℂ) (probe : Ten ℝ) (N : ℕ), backend.toLower = "pena" → probe.shape = [N, 3] →
      q.nearfieldsWith A J C k0 probe (worldAfter C before a after).heap E0 backend w none
        = (penaNmax ((List.range K).map fun k => (Q k).trunc) >>= fun n =>
          q.nearfieldsWith A J C k0 probe (worldAfter C before a after).heap E0 backend w (some n)) := by
  obtain ⟨q, args, r, e, R, hq, hargs, ha, hR, hP, hL, hKR, hr, hpart, -⟩ := S.args
  have hi := (radii_increasing hP hL hr).mpr hinc
  have hL1 : 0 < R.nLayers := hL ▸ S.layers
  refine ⟨q, hq, fun A J w backend E0 probe N hb hp => ?_⟩
  have hT := C63_auto ha hR hi hL1 probe E0
  rw [hP, hKR] at hT
  have hl : ((List.range 1).flatMap fun p => (List.range K).map fun k => (args.particle R r e p k).trunc)
      = (List.range K).map fun k => (Q k).trunc := by
    rw [List.range_one, List.flatMap_singleton]
    exact List.map_congr_left fun k hk => by rw [hpart k (by simpa using hk)]
  rw [hl] at hT
  simp only [nearfieldsWith_ok hargs hp, nearfieldsAny_pena A J args probe E0 hb, hT]
  rcases penaNmax ((List.range K).map fun k => (Q k).trunc) with er | n <;> rfl

/-- C64: positions without three coordinates are refused before anything is computed. -/
theorem C64_assert (A : BackendsOf ArrFns) (J : TorchFns) (q : Particle) (h : Heap) (E0 : ℂ) (backend w : String) (n : Option ℤ)
    (probe : Ten ℝ) {d : ℕ} (hp : probe.shape.getLast? = some d) (hd : d ≠ 3) :
    q.nearfieldsWith A J C k0 probe h E0 backend w n = .error .assertionError := by
  unfold Particle.nearfieldsWith
  rw [hp]
  split
  · simp_all
  · simp_all
  · rfl

theorem nearfieldsAny_core (A : BackendsOf ArrFns) (J : TorchFns) (args : LayerArgs) (probe : Ten ℝ) (E0 : ℂ) {backend : String}
    (hb : backend.toLower = "torch" ∨ backend.toLower = "scipy") (w : String) (n : Option ℤ) :
    nearfieldsAny A J args probe E0 backend w n = nearfieldsB A J args probe E0 backend w n := by
  unfold nearfieldsAny
  rw [if_neg (by rcases hb with h | h <;> rw [h] <;> decide)]

theorem FieldsT.Shaped.squeeze {F : FieldsT} {N : ℕ} (h : F.Shaped [1, 1, N, 3]) : F.squeeze.Shaped ([N, 3].filter (· ≠ 1)) := by
  have h1 : ∀ {t : Ten ℂ}, t.shape = [1, 1, N, 3] → t.squeeze.shape = [N, 3].filter (· ≠ 1) := fun {t} ht => by
    show t.shape.filter (· ≠ 1) = _
    rw [ht]
    rfl
  exact ⟨h1 h.1, h1 h.2.1, h1 h.2.2.1, h1 h.2.2.2.1, h1 h.2.2.2.2.1, h1 h.2.2.2.2.2⟩

theorem fields_of_comp {F : FieldsT} {p k s : ℕ} {f : Fields} (h : ∀ j < 3, F.Ei.get [p, k, s, j] = f.Ei.comp j ∧
    F.Hi.get [p, k, s, j] = f.Hi.comp j ∧ F.Es.get [p, k, s, j] = f.Es.comp j ∧ F.Hs.get [p, k, s, j] = f.Hs.comp j ∧
    F.Et.get [p, k, s, j] = f.Et.comp j ∧ F.Ht.get [p, k, s, j] = f.Ht.comp j) : F.entry p k s = f := by
  obtain ⟨a1, a2, a3, a4, a5, a6⟩ := h 0 (by norm_num)
  obtain ⟨b1, b2, b3, b4, b5, b6⟩ := h 1 (by norm_num)
  obtain ⟨c1, c2, c3, c4, c5, c6⟩ := h 2 (by norm_num)
  simp only [FieldsT.entry, a1, a2, a3, a4, a5, a6, b1, b2, b3, b4, b5, b6, c1, c2, c3, c4, c5, c6]
  rfl

/-- C64, torch backend with the downward recurrence, one or two layers, one wavenumber: the method never raises, and at every
position it returns the fields of the described sphere; the recurrence depth in each medium is that of the position with the
largest argument. -/
theorem C64_torch (S : Scenario C before a after k0 1 Q) (hinc : ∀ i x y, a.radii[i]? = some x → a.radii[i + 1]? = some y → x < y)
    (hl : a.radii.length ≤ 2) {backend w : String} (hb : backend.toLower = "torch") (hw : w.toLower = "recurrence") (sp : BesselBackend)
    (D : D1Kernel) {n : ℕ} (hn : 1 ≤ n) {probe : Ten ℝ} {N : ℕ} (hp : probe.shape = [N, 3]) (hN : 0 < N) (E0 : ℂ)
    (hk0 : ∃ x : ℝ, 0 ≤ x ∧ (Q 0).k0 = x) :
    let rho (m : ℂ) (s : ℕ) : ℂ := (Q 0).k0 * m * ((probeSph probe s).c0 : ℂ) + ((1e-8 : ℝ) : ℂ)
    let IsMax (m : ℂ) (z : ℝ) : Prop := (∃ s < N, ‖rho m s‖ = z) ∧ ∀ s < N, ‖rho m s‖ ≤ z
    ∃ q o co zc zs zo F, particleAfter C before a after = some q ∧
      mieCoefficients D (codeBackends sp) (Q 0) backend w (some n) true = .ok o ∧ o.internal = some co ∧
      IsMax (csqrt ((Q 0).epsLayers.headD 0)) zc ∧ IsMax (csqrt ((Q 0).epsLayers.getLastD 0)) zs ∧
      IsMax (csqrt (Q 0).epsEnv) zo ∧
      q.nearfieldsWith (codeArr sp) torchFns C k0 probe (worldAfter C before a after).heap E0 backend w (some n) = .ok F ∧
      F.Shaped ([N, 3].filter (· ≠ 1)) ∧ ∀ s < N, nearfieldsTorch (torchFns zc) (torchFns zs) (torchFns zs) (torchFns zo) (Q 0).k0 o.k
          (csqrt o.epsC) (csqrt o.epsS) o.nEnv o.rC o.rS E0 co ⟨probe.get [s, 0], probe.get [s, 1], probe.get [s, 2]⟩
        = .ok (F.at 1 N 0 s) := by
  intro rho IsMax
  obtain ⟨q, args, r, e, R, hq, hargs, ha, hR, hP, hL, hKR, hr, hpart, -⟩ := S.args
  have hi := (radii_increasing hP hL hr).mpr hinc
  have hL1 : 0 < R.nLayers := hL ▸ S.layers
  have hl' : R.nLayers = 1 ∨ R.nLayers = 2 := by omega
  have hk0' : ∃ x : ℝ, 0 ≤ x ∧ args.k0.get (R.k0 0) = x := by
    obtain ⟨x, h1, h2⟩ := hk0
    rw [← hpart 0 (by omega)] at h2
    exact ⟨x, h1, h2⟩
  obtain ⟨o, io, ho, hno, he⟩ := C57_recurrence ha hR hi hl' (by omega) (by omega) hn true hb hw sp D
  have he := he 0 (by omega) 0 (by omega) (by rw [hP, hKR]; exact C57_one_entry _ _)
  obtain ⟨co, zc, zs, zo, F, hco, mc, ms, mo, hF, s1, s2, s3, s4, s5, s6, hv⟩ := C62_single ha hR hi hl' hP hKR hn (Or.inl hb)
    (torchFns_total hn) ho hp hN E0 hk0'
  rw [hpart 0 (by omega)] at he mc ms mo
  refine ⟨q, _, co, zc, zs, zo, F.squeeze, hq, he, hco, mc, ms, mo, ?_, FieldsT.Shaped.squeeze ⟨s1, s2, s3, s4, s5, s6⟩,
    fun s hs => ?_⟩
  · rw [nearfieldsWith_ok hargs hp, nearfieldsAny_core _ _ _ _ _ (.inl hb), hF]
    rfl
  · rw [FieldsT.Shaped.at ⟨s1, s2, s3, s4, s5, s6⟩ (by omega) hs]
    obtain ⟨b, hbr, hwf, hme⟩ := broadcast_ok hR hi
    obtain ⟨run⟩ := mieCoefficientsB_inv ha hbr hwf (by rw [hme.nLayers]; omega) (by rw [hme.nLayers]; omega) (Or.inl hb) ho
    obtain ⟨-, -, hq⟩ := torchCoefs_ok run hwf
    obtain ⟨v1, -, v3, v4, v5, v6, v7, -⟩ := hq 0 0 (by rw [hme.nPart]; omega) (by rw [hme.nK]; omega)
    rw [hme.particle (by omega) (by omega), hpart 0 (by omega)] at v1 v3 v4 v5 v6 v7
    obtain ⟨f, hf, hj⟩ := hv s hs
    rw [fields_of_comp hj, ← hf, hpart 0 (by omega)]
    show nearfieldsTorch _ _ _ _ _ ((torchCoefs o run.out).k.get [0, 0]) ((torchCoefs o run.out).nC.get [0, 0])
      ((torchCoefs o run.out).nS.get [0, 0]) ((torchCoefs o run.out).nEnv.get [0, 0]) ((torchCoefs o run.out).rC.get [0, 0])
      ((torchCoefs o run.out).rS.get [0, 0]) _ _ _ = _
    rw [v1, v3, v4, v5, v6, v7]

/-- C64: with the torch and scipy backends the method raises for several wavenumbers, unless there are three. -/
theorem C64_raises (S : Scenario C before a after k0 K Q) (hinc : ∀ i x y, a.radii[i]? = some x → a.radii[i + 1]? = some y → x < y)
    (hl : a.radii.length ≤ 2) {backend : String} (w : String) (hb : backend.toLower = "torch" ∨ backend.toLower = "scipy")
    (A : BackendsOf ArrFns) (J : TorchFns) (n : ℕ) {probe : Ten ℝ} {N : ℕ} (hp : probe.shape = [N, 3]) (E0 : ℂ)
    (hK : K ≠ 1 ∧ K ≠ 3) :
    ∃ q, particleAfter C before a after = some q ∧
      ∃ er, q.nearfieldsWith A J C k0 probe (worldAfter C before a after).heap E0 backend w (some n) = .error er := by
  obtain ⟨q, args, r, e, R, hq, hargs, ha, hR, hP, hL, hKR, hr, hpart, -⟩ := S.args
  have hi := (radii_increasing hP hL hr).mpr hinc
  have hL1 : 0 < R.nLayers := hL ▸ S.layers
  obtain ⟨er, h⟩ := C62_raises ha hR hi (by omega) (n := n) (w := w) hb A J hp E0 (by omega)
  refine ⟨q, hq, er, ?_⟩
  rw [nearfieldsWith_ok hargs hp, nearfieldsAny_core _ _ _ _ _ hb, h]
  rfl

end

/-! ### Examples -/

/-- `C63_entries` applies: two spheres at two wavenumbers and five positions, where the torch branch raises. -/
example (B : Backends) (w : String) (n : ℤ) : ∃ R, Spec.reading [2] [2, 1] [] [] = some R ∧ ∀ p < 2, ∀ k < 2, ∀ s < 5,
    let q := glassBatch.particle R ⟨[2, 1], fun idx => (idx.getD 0 0 : ℝ) + 1⟩ ⟨[], fun _ => ((2 ^ 2 : ℝ) : ℂ)⟩ p k
    Except.map (FieldsT.entry p k s) (nearfieldsPenaT glassBatch ⟨[5, 3], fun idx => (idx.getD 0 0 : ℝ)⟩ 1 (some n))
      = (mieCoefficients codeD1 B q "pena" w (some n) >>= fun m =>
          nearfieldsPena codeD1 q.k0 q.rLayers q.epsLayers q.epsEnv 1 m.a m.b ⟨s, s, s⟩) :=
  ⟨_, rfl, fun _ hp _ hk _ hs => C63_entries (args := glassBatch) (r := ⟨[2, 1], fun idx => (idx.getD 0 0 : ℝ) + 1⟩)
    (eps := ⟨[], fun _ => ((2 ^ 2 : ℝ) : ℂ)⟩) rfl rfl (by intro p hp l hl; simp only at hl; omega) hp hk (Q := 5) rfl hs 1 n B w⟩

/-- `C64_pena` applies to the glass core with a differentiable shell, at two wavenumbers and four positions. -/
example (x : ℕ → ℕ → ℝ) : ∃ q, particleAfter ⟨id, id⟩ [.newDb (.formula 1 [0, 1.1, 0.1]) "cpu"] demoArgs
      [.setDevice 0 "cuda:0", .query 0 demoK0] = some q ∧
    ∀ (A : BackendsOf ArrFns) (J : TorchFns) (B : Backends), ∀ k < 2, ∀ s < 4,
      Except.map (FieldsT.at 2 4 k s) (q.nearfieldsWith A J ⟨id, id⟩ demoK0 ⟨[4, 3], fun i => x (i.getD 0 0) (i.getD 1 0)⟩
          (worldAfter ⟨id, id⟩ [.newDb (.formula 1 [0, 1.1, 0.1]) "cpu"] demoArgs [.setDevice 0 "cuda:0", .query 0 demoK0]).heap 1
          "Pena" "recurrence" (some 3))
        = nearPena codeD1 B (demoQ k) (some 3) ⟨x s 0, x s 1, x s 2⟩ := by
  obtain ⟨q, hq, h⟩ := C64_pena demoScenario (by
    intro i x y hx hy
    simp only [demoArgs, ParticleArgs.radii, Ten.ofList, Ten.numel, List.length_cons, List.length_nil,
      List.prod_cons, List.prod_nil] at hx hy
    rcases i with _ | i
    · simp [List.range_succ] at hx hy
      subst hx hy
      norm_num
    · simp [List.range_succ] at hy)
  exact ⟨q, hq, fun A J B k hk s hs => h A J B "recurrence" "recurrence" "Pena" 3 1 _ 4 (by decide +kernel) rfl k hk s hs⟩

end MieDiff
