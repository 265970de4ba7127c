import Verif.Model.GpmStruct
import Verif.Props.GpmExtract
import Verif.Props.Device

/-!
# C104: the constructor of `StructAutodiffMieGPM3D`
-/

namespace MieDiff

theorem indices_squeeze : ∀ s : List ℕ, (Ten.indices (s.filter (· ≠ 1))).map (Ten.unsqIdx s) = Ten.indices s
  | [] => rfl
  | d :: s => by
    have ih := indices_squeeze s
    by_cases hd : d = 1
    · subst hd
      rw [List.filter_cons_of_neg (by simp), Ten.indices]
      simp only [List.range_one, List.flatMap_cons, List.flatMap_nil, List.append_nil]
      rw [← ih, List.map_map]
      refine List.map_congr_left fun idx _ => ?_
      simp [Ten.unsqIdx]
    · rw [List.filter_cons_of_pos (by simpa using hd), Ten.indices, Ten.indices, List.map_flatMap]
      refine List.flatMap_congr fun i _ => ?_
      rw [← ih, List.map_map, List.map_map]
      refine List.map_congr_left fun idx _ => ?_
      simp [Ten.unsqIdx, hd]

theorem entries_squeeze {α : Type} (t : Ten α) : t.squeeze.entries = t.entries := by
  unfold Ten.entries
  conv_rhs => rw [← indices_squeeze t.shape, List.map_map]
  rfl

theorem length_indices : ∀ s : List ℕ, (Ten.indices s).length = s.prod
  | [] => rfl
  | d :: s => by
    rw [Ten.indices, List.length_flatMap, List.prod_cons]
    simp [length_indices s]

theorem squeeze_three {s : List ℕ} (h : s.prod = 3) : s.filter (· ≠ 1) = [3] := by
  induction s with
  | nil => simp at h
  | cons d s ih =>
    rw [List.prod_cons] at h
    rcases (Nat.dvd_prime Nat.prime_three).mp (Dvd.intro _ h) with rfl | rfl
    · rw [List.filter_cons_of_neg (by simp)]
      exact ih (by omega)
    · have h1 : s.prod = 1 := by omega
      rw [List.filter_cons_of_pos (by simp)]
      congr 1
      rw [List.filter_eq_nil_iff]
      intro a ha
      have := (Nat.dvd_one.mp (h1 ▸ List.dvd_prod ha))
      simp [this]

variable {G : Type} {extract : Particle → Heap → Py (GpmOut G) × Heap} {p q : Particle} {device : Option Device}
  {h h' h1 : Heap} {r0 : Option (Ten ℝ)} {d : GpmOut G}

theorem gpmStructInit_of (hm : gpmMove p device h = (q, h1)) (he : extract q h1 = (.ok d, h')) :
    gpmStructInit extract p r0 device h = ((gpmCenter r0).map fun c => ⟨c, [d], q.dev⟩, q, h') := by
  unfold gpmStructInit
  simp only [hm, he]
  cases gpmCenter r0 <;> rfl

/-- C104: the centre is the origin if none is given, and otherwise the three given numbers in their order, however many axes of length one they come with.
The dictionary is the one extracted from the particle. -/
theorem C104_center (hm : gpmMove p device h = (q, h1)) (he : extract q h1 = (.ok d, h')) :
    (∃ s, (gpmStructInit extract p none device h).1 = .ok s ∧ s.positions.shape = [3] ∧ s.positions.entries = [0, 0, 0] ∧
      s.gpmDicts = [d]) ∧
    ∀ (r : Ten ℝ) (x y z : ℝ), r.entries = [x, y, z] → ∃ s, (gpmStructInit extract p (some r) device h).1 = .ok s ∧
      s.positions.shape = [3] ∧ s.positions.entries = [x, y, z] ∧ s.gpmDicts = [d] := by
  refine ⟨⟨⟨Ten.ofList 0 [0, 0, 0], [d], q.dev⟩, by rw [gpmStructInit_of hm he]; rfl, rfl, ?_, rfl⟩, fun r x y z hr => ?_⟩
  · simp [Ten.entries, Ten.indices, Ten.ofList, List.range_succ]
  · have hs : r.squeeze.shape = [3] := by
      refine squeeze_three ?_
      rw [← length_indices, ← List.length_map (f := r.get)]
      exact congrArg List.length hr
    refine ⟨⟨r.squeeze, [d], q.dev⟩, ?_, hs, by rw [entries_squeeze, hr], rfl⟩
    rw [gpmStructInit_of hm he]
    simp [gpmCenter, Ten.len, hs, bind_ok, Except.map]

/-- C104: which other centres are refused.  One number in any shape is a `TypeError`, an array whose first axis with more or less than one entry does not
have three is an `AssertionError`, both after the whole extraction. -/
theorem C104_refused (hm : gpmMove p device h = (q, h1)) (he : extract q h1 = (.ok d, h')) (r : Ten ℝ) :
    ((∀ m ∈ r.shape, m = 1) → gpmStructInit extract p (some r) device h = (.error .typeError, q, h')) ∧
    ∀ (ones rest : List ℕ) (m : ℕ), r.shape = ones ++ m :: rest → (∀ i ∈ ones, i = 1) → m ≠ 1 →
      (m ≠ 3 → gpmStructInit extract p (some r) device h = (.error .assertionError, q, h')) ∧
      (m = 3 → ∃ s, gpmStructInit extract p (some r) device h = (.ok s, q, h') ∧ s.positions.entries = r.entries) := by
  refine ⟨fun ha => ?_, fun ones rest m hs ho hm1 => ?_⟩
  · have hs : r.squeeze.shape = [] := by
      change r.shape.filter (· ≠ 1) = []
      rw [List.filter_eq_nil_iff]
      intro a h
      simp [ha a h]
    rw [gpmStructInit_of hm he]
    simp [gpmCenter, Ten.len, hs, Except.map, Bind.bind, Except.bind]
  · have hs' : r.squeeze.shape = m :: rest.filter (· ≠ 1) := by
      change r.shape.filter (· ≠ 1) = _
      rw [hs, List.filter_append, List.filter_cons_of_pos (by simpa using hm1)]
      have : ones.filter (· ≠ 1) = [] := by
        rw [List.filter_eq_nil_iff]
        intro a h
        simp [ho a h]
      rw [this, List.nil_append]
    constructor
    · intro hm3
      rw [gpmStructInit_of hm he]
      simp [gpmCenter, Ten.len, hs', hm3, Except.map, bind_ok]
    · rintro rfl
      refine ⟨⟨r.squeeze, [d], q.dev⟩, ?_, entries_squeeze r⟩
      rw [gpmStructInit_of hm he]
      simp [gpmCenter, Ten.len, hs', Except.map, bind_ok]

/-- C104, a loose check: the coordinates of several points, one row per axis, pass as the position of one structure. -/
theorem C104_loose (hm : gpmMove p device h = (q, h1)) (he : extract q h1 = (.ok d, h')) (r : Ten ℝ) {m : ℕ} (hm2 : 2 ≤ m)
    (hr : r.shape = [3, m]) : ∃ s, (gpmStructInit extract p (some r) device h).1 = .ok s ∧ s.positions.shape = [3, m] := by
  have hs : r.squeeze.shape = [3, m] := by
    change r.shape.filter (· ≠ 1) = _
    rw [hr]
    simp [List.filter_cons]
    omega
  refine ⟨⟨r.squeeze, [d], q.dev⟩, ?_, hs⟩
  rw [gpmStructInit_of hm he]
  simp [gpmCenter, Ten.len, hs, Except.map, bind_ok]

theorem devices_setDevice (o : MatObj) (dev : Device) : ∀ d ∈ Spec.devices (o.setDevice dev), d = dev := by
  intro d hd
  cases o with
  | const c => simpa [Spec.devices, MatObj.setDevice, MatConst.setDevice] using hd
  | db m =>
    simp only [Spec.devices, MatObj.setDevice, MatDb.setDevice, List.mem_cons, List.map_map, List.mem_map] at hd
    rcases hd with rfl | rfl | ⟨e, -, rfl⟩ <;> rfl

theorem heap_moved (dev : Device) : ∀ (ids : List ℕ) (h : Heap),
    (ids.foldl (fun h id => h.modify id fun o => o.setDevice dev) h).length = h.length ∧
    (∀ id, id ∉ ids → (ids.foldl (fun h id => h.modify id fun o => o.setDevice dev) h)[id]? = h[id]?) ∧
    ∀ id ∈ ids, ∀ o, (ids.foldl (fun h id => h.modify id fun o => o.setDevice dev) h)[id]? = some o → ∀ d ∈ Spec.devices o, d = dev
  | [], h => ⟨rfl, fun _ _ => rfl, by simp⟩
  | i :: ids, h => by
    obtain ⟨h1, h2, h3⟩ := heap_moved dev ids (h.modify i fun o => o.setDevice dev)
    refine ⟨by simp [h1], fun id hid => ?_, fun id hid o ho d hd => ?_⟩
    · rw [List.mem_cons, not_or] at hid
      rw [List.foldl_cons, h2 id hid.2, List.getElem?_modify]
      have hne : i ≠ id := fun e => hid.1 e.symm
      simp only [if_neg hne, id_map']
    · rw [List.foldl_cons] at ho
      by_cases hm : id ∈ ids
      · exact h3 id hm o ho d hd
      · obtain rfl : id = i := by simpa [hm] using hid
        rw [h2 id hm, List.getElem?_modify] at ho
        simp only [if_true, Option.map_eq_map, Option.map_eq_some_iff] at ho
        obtain ⟨o', -, rfl⟩ := ho
        exact devices_setDevice o' dev d hd

/-- C104, the device: a device given to the constructor moves the caller's particle there, its tensors and its materials, before the extraction and even if the
constructor raises; no other material is touched.  Without a device, the caller's particle is unchanged.  The structure is on the particle's device. -/
theorem C104_device (extract : Particle → Heap → Py (GpmOut G) × Heap) (p : Particle) (r0 : Option (Ten ℝ)) (h : Heap) :
    (∀ dev : Device, ∃ res q h1, gpmStructInit extract p r0 (some dev) h = (res, q, (extract q h1).2) ∧
      q.dev = dev ∧ q.rDev = dev ∧ q.epsDev = dev ∧ q.rLayers = p.rLayers ∧ q.epsLayers = p.epsLayers ∧ q.ids = p.ids ∧
      h1.length = h.length ∧ (∀ id ∈ p.ids, ∀ o, h1[id]? = some o → ∀ d ∈ Spec.devices o, d = dev) ∧
      (∀ id, id ∉ p.ids → h1[id]? = h[id]?) ∧ ∀ s, res = .ok s → s.device = dev) ∧
    ∃ res, gpmStructInit extract p r0 none h = (res, p, (extract p h).2) ∧ ∀ s, res = .ok s → s.device = p.dev := by
  have key : ∀ (device : Option Device) (q : Particle) (h1 : Heap), gpmMove p device h = (q, h1) →
      ∃ res, gpmStructInit extract p r0 device h = (res, q, (extract q h1).2) ∧ ∀ s, res = .ok s → s.device = q.dev := by
    intro device q h1 hm
    rcases he : extract q h1 with ⟨e | d, h'⟩
    · refine ⟨.error e, ?_, fun s hs => by cases hs⟩
      unfold gpmStructInit
      simp only [hm, he]
    · refine ⟨_, gpmStructInit_of hm he, fun s hs => ?_⟩
      cases hc : gpmCenter r0 with
      | error e => rw [hc] at hs; cases hs
      | ok c => rw [hc] at hs; cases hs; rfl
  refine ⟨fun dev => ?_, key none _ _ rfl⟩
  obtain ⟨res, e, hs⟩ := key (some dev) _ _ rfl
  obtain ⟨h1, h2, h3⟩ := heap_moved dev p.ids h
  exact ⟨res, _, _, e, rfl, rfl, rfl, rfl, rfl, rfl, h1, h3, h2, hs⟩

/-- C104: an exception of the extraction is the exception of the constructor. -/
theorem C104_error (hm : gpmMove p device h = (q, h1)) {e : PyErr} (he : extract q h1 = (.error e, h')) :
    gpmStructInit extract p r0 device h = (.error e, q, h') := by
  unfold gpmStructInit
  simp only [hm, he]

/-! ### Examples -/

/-- A centre given as a column is read as the position `(1, 2, 3)`, on the device that was asked for, and the particle has moved there. -/
example (p : Particle) (h : Heap) (d : GpmOut ℕ) : ∃ s q h', gpmStructInit (fun _ h => (.ok d, h)) p
      (some ⟨[3, 1], fun idx => (idx.headD 0 : ℝ) + 1⟩) (some "cuda") h = (.ok s, q, h') ∧
    s.positions.entries = [1, 2, 3] ∧ s.device = "cuda" ∧ q.dev = "cuda" ∧ q.rDev = "cuda" := by
  obtain ⟨-, hc⟩ := C104_center (extract := fun _ h => (Except.ok d, h)) (p := p) (device := some "cuda") (h := h) rfl rfl
  obtain ⟨s, e, -, e3, -⟩ := hc ⟨[3, 1], fun idx => (idx.headD 0 : ℝ) + 1⟩ 1 2 3 (by
    simp [Ten.entries, Ten.indices, List.range_succ]; norm_num)
  obtain ⟨hd, -⟩ := C104_device (fun _ h => (Except.ok d, h)) p (some ⟨[3, 1], fun idx => (idx.headD 0 : ℝ) + 1⟩) h
  obtain ⟨res, q, h1, e1, e4, e5, -, -, -, -, -, -, -, e6⟩ := hd "cuda"
  rw [e1] at e
  refine ⟨s, q, _, by rw [e1, ← e], e3, e6 s e, e4, e5⟩

/-- Refused centres: the number 5, and four numbers; the particle has moved all the same. -/
example (p : Particle) (h : Heap) (d : GpmOut ℕ) :
    (gpmStructInit (fun _ h => (.ok d, h)) p (some (Ten.scalar 5)) (some "cuda") h).1 = .error .typeError ∧
    (gpmStructInit (fun _ h => (.ok d, h)) p (some (Ten.ofList 0 [1, 2, 3, 4])) (some "cuda") h).1 = .error .assertionError ∧
    (gpmStructInit (fun _ h => (.ok d, h)) p (some (Ten.ofList 0 [1, 2, 3, 4])) (some "cuda") h).2.1.dev = "cuda" := by
  obtain ⟨h1, -⟩ := C104_refused (extract := fun _ h => (Except.ok d, h)) (p := p) (device := some "cuda") (h := h) rfl rfl (Ten.scalar 5)
  obtain ⟨-, h2⟩ := C104_refused (extract := fun _ h => (Except.ok d, h)) (p := p) (device := some "cuda") (h := h) rfl rfl
    (Ten.ofList 0 [1, 2, 3, 4])
  obtain ⟨h3, -⟩ := h2 [] [] 4 rfl (by simp) (by norm_num)
  rw [h1 (by simp [Ten.scalar]), h3 (by norm_num)]
  exact ⟨rfl, rfl, rfl⟩

/-- Two points in columns pass. -/
example (p : Particle) (h : Heap) (d : GpmOut ℕ) : ∃ s, (gpmStructInit (fun _ h => (.ok d, h)) p
    (some ⟨[3, 2], fun idx => (idx.getD 1 0 : ℝ)⟩) none h).1 = .ok s ∧ s.positions.shape = [3, 2] :=
  C104_loose (extract := fun _ h => (Except.ok d, h)) rfl rfl _ le_rfl rfl

end MieDiff
