import Verif.Proofs.Mirror
import Verif.Proofs.NearPenaFields
import Verif.Props.Gpm
import Verif.Props.Invariance

/-!
# C98: the near fields and the angular pattern have the symmetries of the illuminated sphere
-/

namespace MieDiff

open Complex

/-- C98: what the pena branch of `nearfields` returns on a circle around the `z` axis (distance `rho` from the axis, height `z`)
follows from three numbers for each field. -/
theorem C98_circle_pena (K : D1Kernel) (k0 : ℂ) (rs : List ℝ) (es : List ℂ) (ee E0 : ℂ) (a b : List ℂ) (eps q z : ℝ) :
    ∃ e : Py (ℝ → ℝ → Fields), (∀ F, e = .ok F → Spec.Circular F) ∧ ∀ x y, x ^ 2 + y ^ 2 = q →
      nearfieldsPena K k0 rs es ee E0 a b ⟨x, y, z⟩ eps = e.map fun F => F (Spec.direction x y).1 (Spec.direction x y).2 := by
  by_cases hq : ∃ x y, x ^ 2 + y ^ 2 = q
  · obtain ⟨x0, y0, h0⟩ := hq
    obtain ⟨r, hr⟩ : ∃ r, r = (xyzToSph eps10Double x0 y0 z).c0 := ⟨_, rfl⟩
    obtain ⟨t, ht⟩ : ∃ t, t = (xyzToSph eps10Double x0 y0 z).c1 := ⟨_, rfl⟩
    have hrt : ∀ x y, x ^ 2 + y ^ 2 = q → (xyzToSph eps10Double x y z).c0 = r ∧ (xyzToSph eps10Double x y z).c1 = t :=
      fun x y h => by rw [hr, ht]; exact xyzToSph_same (h.trans h0.symm)
    have hreg := fun li out rc => regionField_turn K a.length k0 ((es.map csqrt ++ [csqrt ee]).getD li 0) r t E0 out rc eps
    choose f hf using hreg
    rcases h1 : nfRegions K (a.length : ℕ) (extCoefs a b) true
      ((es.map fun e => csqrt e / csqrt ee).zip (rs.map fun (r : ℝ) => k0 * csqrt ee * (r : ℂ))) with e | regs
    · refine ⟨.error e, by simp, fun x y _ => ?_⟩
      unfold nearfieldsPena
      simp only [h1]
      rfl
    rcases h2 : (List.range (rs.length + 1)).mapM
      (fun li => f li (li == rs.length) (regs.getD li ⟨[], [], [], []⟩)) with e | flds
    · refine ⟨.error e, by simp, fun x y hxy => ?_⟩
      obtain ⟨e1, e2⟩ := hrt x y hxy
      unfold nearfieldsPena
      simp only [h1, bind, Except.bind, e1, e2, hf]
      rw [mapM_turn, h2]
      rfl
    obtain ⟨F, hF, hval⟩ := circular_of E0 (k0 * csqrt ee) (csqrt ee) r t ((regionMasks rs r).getLastD false)
      (maskedAssign [] (regionMasks rs r) (flds.map (·.1))) (maskedAssign [] (regionMasks rs r) (flds.map (·.2)))
    refine ⟨.ok F, fun G hG => by cases hG; exact hF, fun x y hxy => ?_⟩
    obtain ⟨e1, e2⟩ := hrt x y hxy
    obtain ⟨d1, d2⟩ := xyzToSph_direction x y z
    unfold nearfieldsPena
    simp only [h1, bind, Except.bind, e1, e2, hf]
    rw [mapM_turn, h2]
    simp only [Except.map, List.map_map]
    rw [← d1, ← d2, ← hval]
    refine congrArg Except.ok ?_
    have m1 := maskedAssign_map (List.map (turnE (Real.cos (xyzToSph eps10Double x y z).c2 : ℝ)
      (Real.sin (xyzToSph eps10Double x y z).c2 : ℝ))) [] (regionMasks rs r) (flds.map (·.1))
    have m2 := maskedAssign_map (List.map (turnH (Real.cos (xyzToSph eps10Double x y z).c2 : ℝ)
      (Real.sin (xyzToSph eps10Double x y z).c2 : ℝ))) [] (regionMasks rs r) (flds.map (·.2))
    rw [List.map_map, List.map_nil] at m1 m2
    simp only [← m1, ← m2]
    rfl
  · exact ⟨.error .valueError, by simp, fun x y h => absurd ⟨x, y, h⟩ hq⟩

/-- C98: the same for the torch/scipy branch of `nearfields`, whatever the special functions are. -/
theorem C98_circle_torch (Bc Bs B2 Bo : BesselBackend) (k0 k nC nS nE : ℂ) (rC rS : ℝ) (E0 : ℂ) (co : List CoreShellOut)
    (eps q z : ℝ) :
    ∃ e : Py (ℝ → ℝ → Fields), (∀ F, e = .ok F → Spec.Circular F) ∧ ∀ x y, x ^ 2 + y ^ 2 = q →
      nearfieldsTorch Bc Bs B2 Bo k0 k nC nS nE rC rS E0 co ⟨x, y, z⟩ eps
        = e.map fun F => F (Spec.direction x y).1 (Spec.direction x y).2 := by
  by_cases hq : ∃ x y, x ^ 2 + y ^ 2 = q
  · obtain ⟨x0, y0, h0⟩ := hq
    obtain ⟨r, hr⟩ : ∃ r, r = (xyzToSph eps10Double x0 y0 z).c0 := ⟨_, rfl⟩
    obtain ⟨t, ht⟩ : ∃ t, t = (xyzToSph eps10Double x0 y0 z).c1 := ⟨_, rfl⟩
    have hrt : ∀ x y, x ^ 2 + y ^ 2 = q → (xyzToSph eps10Double x y z).c0 = r ∧ (xyzToSph eps10Double x y z).c1 = t :=
      fun x y h => by rw [hr, ht]; exact xyzToSph_same (h.trans h0.symm)
    obtain ⟨f1, h1⟩ := vsh_turn Bc co.length k0 nC r t 1 eps
    obtain ⟨f2, h2⟩ := vsh_turn Bs co.length k0 nS r t 1 eps
    obtain ⟨f3, h3⟩ := vsh_turn B2 co.length k0 nS r t 2 eps
    obtain ⟨f4, h4⟩ := vsh_turn Bo co.length k0 nE r t 3 eps
    have herr : ∀ e : PyErr, (∀ x y, x ^ 2 + y ^ 2 = q →
        nearfieldsTorch Bc Bs B2 Bo k0 k nC nS nE rC rS E0 co ⟨x, y, z⟩ eps = .error e) →
        ∃ e : Py (ℝ → ℝ → Fields), (∀ F, e = .ok F → Spec.Circular F) ∧ ∀ x y, x ^ 2 + y ^ 2 = q →
          nearfieldsTorch Bc Bs B2 Bo k0 k nC nS nE rC rS E0 co ⟨x, y, z⟩ eps
            = e.map fun F => F (Spec.direction x y).1 (Spec.direction x y).2 :=
      fun e h => ⟨.error e, by simp, fun x y hxy => by rw [h x y hxy]; rfl⟩
    rcases f1 with e | v1
    · refine herr e fun x y hxy => ?_
      obtain ⟨e1, e2⟩ := hrt x y hxy
      unfold nearfieldsTorch
      simp only [e1, e2, h1]
      rfl
    rcases f2 with e | v2
    · refine herr e fun x y hxy => ?_
      obtain ⟨e1, e2⟩ := hrt x y hxy
      unfold nearfieldsTorch
      simp only [e1, e2, h1, h2]
      rfl
    rcases f3 with e | v3
    · refine herr e fun x y hxy => ?_
      obtain ⟨e1, e2⟩ := hrt x y hxy
      unfold nearfieldsTorch
      simp only [e1, e2, h1, h2, h3]
      rfl
    rcases f4 with e | v4
    · refine herr e fun x y hxy => ?_
      obtain ⟨e1, e2⟩ := hrt x y hxy
      unfold nearfieldsTorch
      simp only [e1, e2, h1, h2, h3, h4]
      rfl
    let z0 : VSH := ⟨V3.zero, V3.zero, V3.zero, V3.zero⟩
    let g : ℕ → V3 ℂ × V3 ℂ := fun i => torchOrder (EnCoef E0 (i + 1)) (co.getD i ⟨0, 0, 0, 0, 0, 0, 0, 0⟩) nC nS nE rC rS r
      (v1.getD i z0) (v2.getD i z0) (v3.getD i z0) (v4.getD i z0)
    obtain ⟨F, hF, hval⟩ := circular_of E0 k nE r t (decide (rS < r))
      ((List.range co.length).map fun i => (g i).1) ((List.range co.length).map fun i => (g i).2)
    refine ⟨.ok F, fun G hG => by cases hG; exact hF, fun x y hxy => ?_⟩
    obtain ⟨e1, e2⟩ := hrt x y hxy
    obtain ⟨d1, d2⟩ := xyzToSph_direction x y z
    unfold nearfieldsTorch
    simp only [e1, e2, h1, h2, h3, h4]
    simp only [Except.map, bind, Except.bind, getD_turn, torchOrder_turn, List.map_map]
    rw [← d1, ← d2, ← hval]
    simp only [List.map_map, decide_eq_true_eq]
    rfl
  · exact ⟨.error .valueError, by simp, fun x y h => absurd ⟨x, y, h⟩ hq⟩

theorem direction_flip (x y : ℝ) : Spec.direction x (-y) = ((Spec.direction x y).1, -(Spec.direction x y).2) := by
  simp [Spec.direction, neg_div]

theorem direction_flop {x : ℝ} (hx : x ≠ 0) (y : ℝ) : Spec.direction (-x) y = (-(Spec.direction x y).1, (Spec.direction x y).2) := by
  simp [Spec.direction, hx, neg_div]

theorem electric_flip (u v w : ℂ) (c s : ℝ) : Spec.electric u v w c (-s)
    = ⟨(Spec.electric u v w c s).c0, -(Spec.electric u v w c s).c1, (Spec.electric u v w c s).c2⟩ := by
  simp only [Spec.electric, V3.mk.injEq]
  push_cast
  refine ⟨by ring, by ring, trivial⟩

theorem magnetic_flip (u v w : ℂ) (c s : ℝ) : Spec.magnetic u v w c (-s)
    = ⟨-(Spec.magnetic u v w c s).c0, (Spec.magnetic u v w c s).c1, -(Spec.magnetic u v w c s).c2⟩ := by
  simp only [Spec.magnetic, V3.mk.injEq]
  push_cast
  refine ⟨?_, ?_, ?_⟩ <;> ring

theorem electric_flop (u v w : ℂ) (c s : ℝ) : Spec.electric u v w (-c) s
    = ⟨(Spec.electric u v w c s).c0, -(Spec.electric u v w c s).c1, -(Spec.electric u v w c s).c2⟩ := by
  simp only [Spec.electric, V3.mk.injEq]
  push_cast
  refine ⟨?_, ?_, ?_⟩ <;> ring

theorem magnetic_flop (u v w : ℂ) (c s : ℝ) : Spec.magnetic u v w (-c) s
    = ⟨-(Spec.magnetic u v w c s).c0, (Spec.magnetic u v w c s).c1, (Spec.magnetic u v w c s).c2⟩ := by
  simp only [Spec.magnetic, V3.mk.injEq]
  push_cast
  refine ⟨by ring, by ring, trivial⟩

theorem circular_flip {F : ℝ → ℝ → Fields} (h : Spec.Circular F) (c s : ℝ) : Spec.FlipY (F c s) (F c (-s)) := by
  obtain ⟨⟨_, _, _, h1⟩, ⟨_, _, _, h2⟩, ⟨_, _, _, h3⟩, ⟨_, _, _, h4⟩, ⟨_, _, _, h5⟩, ⟨_, _, _, h6⟩⟩ := h
  constructor <;> intro f hf <;> simp only [List.mem_cons, List.not_mem_nil, or_false] at hf <;> rcases hf with rfl | rfl | rfl
  · simp only [h1, electric_flip]
  · simp only [h2, electric_flip]
  · simp only [h3, electric_flip]
  · simp only [h4, magnetic_flip]
  · simp only [h5, magnetic_flip]
  · simp only [h6, magnetic_flip]

theorem circular_flop {F : ℝ → ℝ → Fields} (h : Spec.Circular F) (c s : ℝ) : Spec.FlipX (F c s) (F (-c) s) := by
  obtain ⟨⟨_, _, _, h1⟩, ⟨_, _, _, h2⟩, ⟨_, _, _, h3⟩, ⟨_, _, _, h4⟩, ⟨_, _, _, h5⟩, ⟨_, _, _, h6⟩⟩ := h
  constructor <;> intro f hf <;> simp only [List.mem_cons, List.not_mem_nil, or_false] at hf <;> rcases hf with rfl | rfl | rfl
  · simp only [h1, electric_flop]
  · simp only [h2, electric_flop]
  · simp only [h3, electric_flop]
  · simp only [h4, magnetic_flop]
  · simp only [h5, magnetic_flop]
  · simp only [h6, magnetic_flop]

/-- Two runs, at a point and at its mirror image: the same error, or mirrored fields. -/
theorem mirrored {near : V3 ℝ → Py Fields} {z : ℝ}
    (h : ∀ q, ∃ e : Py (ℝ → ℝ → Fields), (∀ F, e = .ok F → Spec.Circular F) ∧ ∀ x y, x ^ 2 + y ^ 2 = q →
      near ⟨x, y, z⟩ = e.map fun F => F (Spec.direction x y).1 (Spec.direction x y).2) (x y : ℝ) :
    Spec.Alike Spec.FlipY (near ⟨x, y, z⟩) (near ⟨x, -y, z⟩) ∧
    (x ≠ 0 → Spec.Alike Spec.FlipX (near ⟨x, y, z⟩) (near ⟨-x, y, z⟩)) := by
  obtain ⟨e, he, h⟩ := h (x ^ 2 + y ^ 2)
  rw [h x y rfl, h x (-y) (by ring), h (-x) y (by ring), direction_flip]
  rcases e with e | F
  · exact ⟨rfl, fun _ => rfl⟩
  · refine ⟨circular_flip (he F rfl) _ _, fun hx => ?_⟩
    rw [direction_flop hx]
    exact circular_flop (he F rfl) _ _

/-- C98: mirror images of a point, pena branch.  Reflection in the plane `y = 0` holds everywhere, reflection in the plane `x = 0`
off that plane. -/
theorem C98_mirror_pena (K : D1Kernel) (k0 : ℂ) (rs : List ℝ) (es : List ℂ) (ee E0 : ℂ) (a b : List ℂ) (eps x y z : ℝ) :
    let near v := nearfieldsPena K k0 rs es ee E0 a b v eps
    Spec.Alike Spec.FlipY (near ⟨x, y, z⟩) (near ⟨x, -y, z⟩) ∧
    (x ≠ 0 → Spec.Alike Spec.FlipX (near ⟨x, y, z⟩) (near ⟨-x, y, z⟩)) :=
  mirrored (near := fun v => nearfieldsPena K k0 rs es ee E0 a b v eps) (fun q => C98_circle_pena K k0 rs es ee E0 a b eps q z) x y

/-- C98: mirror images of a point, torch/scipy branch. -/
theorem C98_mirror_torch (Bc Bs B2 Bo : BesselBackend) (k0 k nC nS nE : ℂ) (rC rS : ℝ) (E0 : ℂ) (co : List CoreShellOut)
    (eps x y z : ℝ) :
    let near v := nearfieldsTorch Bc Bs B2 Bo k0 k nC nS nE rC rS E0 co v eps
    Spec.Alike Spec.FlipY (near ⟨x, y, z⟩) (near ⟨x, -y, z⟩) ∧
    (x ≠ 0 → Spec.Alike Spec.FlipX (near ⟨x, y, z⟩) (near ⟨-x, y, z⟩)) :=
  mirrored (near := fun v => nearfieldsTorch Bc Bs B2 Bo k0 k nC nS nE rC rS E0 co v eps)
    (fun q => C98_circle_torch Bc Bs B2 Bo k0 k nC nS nE rC rS E0 co eps q z) x y

/-- A call in the plane `y = 0` is its own mirror image. -/
theorem flip_self {F : Fields} (h : Spec.FlipY F F) :
    F.Es.c1 = 0 ∧ F.Et.c1 = 0 ∧ F.Hs.c0 = 0 ∧ F.Hs.c2 = 0 ∧ F.Ht.c0 = 0 ∧ F.Ht.c2 = 0 := by
  obtain ⟨h3, h4⟩ := h
  have e1 := congrArg V3.c1 (h3 (F.Es, F.Es) (by simp))
  have e2 := congrArg V3.c1 (h3 (F.Et, F.Et) (by simp))
  have m1 := h4 (F.Hs, F.Hs) (by simp)
  have m2 := h4 (F.Ht, F.Ht) (by simp)
  have hz : ∀ v : ℂ, v = -v → v = 0 := fun v hv => self_eq_neg.mp hv
  exact ⟨hz _ e1, hz _ e2, hz _ (congrArg V3.c0 m1), hz _ (congrArg V3.c2 m1), hz _ (congrArg V3.c0 m2), hz _ (congrArg V3.c2 m2)⟩

/-- C98: in the plane `y = 0` the electric field stays in the plane and the magnetic field is perpendicular to it. -/
theorem C98_plane_pena {K : D1Kernel} {k0 : ℂ} {rs : List ℝ} {es : List ℂ} {ee E0 : ℂ} {a b : List ℂ} {eps x z : ℝ} {F : Fields}
    (h : nearfieldsPena K k0 rs es ee E0 a b ⟨x, 0, z⟩ eps = .ok F) :
    F.Es.c1 = 0 ∧ F.Et.c1 = 0 ∧ F.Hs.c0 = 0 ∧ F.Hs.c2 = 0 ∧ F.Ht.c0 = 0 ∧ F.Ht.c2 = 0 := by
  have := (C98_mirror_pena K k0 rs es ee E0 a b eps x 0 z).1
  simp only [neg_zero, h, Spec.Alike] at this
  exact flip_self this

/-- C98: the same for the torch/scipy branch. -/
theorem C98_plane_torch {Bc Bs B2 Bo : BesselBackend} {k0 k nC nS nE : ℂ} {rC rS : ℝ} {E0 : ℂ} {co : List CoreShellOut}
    {eps x z : ℝ} {F : Fields} (h : nearfieldsTorch Bc Bs B2 Bo k0 k nC nS nE rC rS E0 co ⟨x, 0, z⟩ eps = .ok F) :
    F.Es.c1 = 0 ∧ F.Et.c1 = 0 ∧ F.Hs.c0 = 0 ∧ F.Hs.c2 = 0 ∧ F.Ht.c0 = 0 ∧ F.Ht.c2 = 0 := by
  have := (C98_mirror_torch Bc Bs B2 Bo k0 k nC nS nE rC rS E0 co eps x 0 z).1
  simp only [neg_zero, h, Spec.Alike] at this
  exact flip_self this

section

variable {C : Casts} {before : List WOp} {a : ParticleArgs} {after : List WOp} {k0 : DTen ℝ} {K : ℕ} {Q : ℕ → Particle1}

/-- C98: `Particle.get_nearfields` with the pena backend.  If two rows of `r_probe` are mirror images of each other, so are the
fields. -/
theorem C98_particle_pena (S : Scenario C before a after k0 K Q)
    (hinc : ∀ i x y, a.radii[i]? = some x → a.radii[i + 1]? = some y → x < y) :
    ∃ q, particleAfter C before a after = some q ∧ ∀ (A : BackendsOf ArrFns) (J : TorchFns) (w backend : String) (n : ℤ) (E0 : ℂ)
      (probe : Ten ℝ) (N : ℕ) (F : FieldsT), backend.toLower = "pena" → probe.shape = [N, 3] →
      q.nearfieldsWith A J C k0 probe (worldAfter C before a after).heap E0 backend w (some n) = .ok F →
      ∀ k < K, ∀ s < N, ∀ s' < N, probe.get [s', 2] = probe.get [s, 2] →
        (probe.get [s', 0] = probe.get [s, 0] → probe.get [s', 1] = -probe.get [s, 1] → Spec.FlipY (F.at K N k s) (F.at K N k s')) ∧
        (probe.get [s, 0] ≠ 0 → probe.get [s', 0] = -probe.get [s, 0] → probe.get [s', 1] = probe.get [s, 1] →
          Spec.FlipX (F.at K N k s) (F.at K N k s')) := by
  obtain ⟨q, hq, h⟩ := C64_pena S hinc
  refine ⟨q, hq, fun A J w backend n E0 probe N F hb hp hF k hk s hs s' hs' hz => ?_⟩
  have e1 := h A J (codeBackends (torchFns 0)) w w backend n E0 probe N hb hp k hk s hs
  have e2 := h A J (codeBackends (torchFns 0)) w w backend n E0 probe N hb hp k hk s' hs'
  rw [hF] at e1 e2
  rcases hm : mieCoefficients codeD1 (codeBackends (torchFns 0)) (Q k) "pena" w (some n) with er | m
  · rw [hm] at e1; cases e1
  rw [hm] at e1 e2
  have e1' : nearfieldsPena codeD1 (Q k).k0 (Q k).rLayers (Q k).epsLayers (Q k).epsEnv E0 m.a m.b
      ⟨probe.get [s, 0], probe.get [s, 1], probe.get [s, 2]⟩ = .ok (F.at K N k s) := e1.symm
  have e2' : nearfieldsPena codeD1 (Q k).k0 (Q k).rLayers (Q k).epsLayers (Q k).epsEnv E0 m.a m.b
      ⟨probe.get [s', 0], probe.get [s', 1], probe.get [s', 2]⟩ = .ok (F.at K N k s') := e2.symm
  obtain ⟨m1, m2⟩ := C98_mirror_pena codeD1 (Q k).k0 (Q k).rLayers (Q k).epsLayers (Q k).epsEnv E0 m.a m.b 1e-8
    (probe.get [s, 0]) (probe.get [s, 1]) (probe.get [s, 2])
  rw [hz] at e2'
  constructor
  · intro hx hy
    rw [hx, hy] at e2'
    simpa only [e1', e2', Spec.Alike] using m1
  · intro h0 hx hy
    rw [hx, hy] at e2'
    simpa only [e1', e2', Spec.Alike] using m2 h0

/-- C98: the same for the torch backend (one wavenumber, as that branch requires). -/
theorem C98_particle_torch (S : Scenario C before a after k0 1 Q)
    (hinc : ∀ i x y, a.radii[i]? = some x → a.radii[i + 1]? = some y → x < y) (hl : a.radii.length ≤ 2) {backend w : String}
    (hb : backend.toLower = "torch") (hw : w.toLower = "recurrence") (sp : BesselBackend) {n : ℕ} (hn : 1 ≤ n) {probe : Ten ℝ}
    {N : ℕ} (hp : probe.shape = [N, 3]) (hN : 0 < N) (E0 : ℂ) (hk0 : ∃ x : ℝ, 0 ≤ x ∧ (Q 0).k0 = x) :
    ∃ q F, particleAfter C before a after = some q ∧
      q.nearfieldsWith (codeArr sp) torchFns C k0 probe (worldAfter C before a after).heap E0 backend w (some n) = .ok F ∧
      ∀ s < N, ∀ s' < N, probe.get [s', 2] = probe.get [s, 2] →
        (probe.get [s', 0] = probe.get [s, 0] → probe.get [s', 1] = -probe.get [s, 1] → Spec.FlipY (F.at 1 N 0 s) (F.at 1 N 0 s')) ∧
        (probe.get [s, 0] ≠ 0 → probe.get [s', 0] = -probe.get [s, 0] → probe.get [s', 1] = probe.get [s, 1] →
          Spec.FlipX (F.at 1 N 0 s) (F.at 1 N 0 s')) := by
  obtain ⟨q, o, co, zc, zs, zo, F, hq, -, -, -, -, -, hF, -, h⟩ := C64_torch S hinc hl hb hw sp codeD1 hn hp hN E0 hk0
  refine ⟨q, F, hq, hF, fun s hs s' hs' hz => ?_⟩
  have e1 := h s hs
  have e2 := h s' hs'
  obtain ⟨m1, m2⟩ := C98_mirror_torch (torchFns zc) (torchFns zs) (torchFns zs) (torchFns zo) (Q 0).k0 o.k
    (csqrt o.epsC) (csqrt o.epsS) o.nEnv o.rC o.rS E0 co 1e-8 (probe.get [s, 0]) (probe.get [s, 1]) (probe.get [s, 2])
  rw [hz] at e2
  constructor
  · intro hx hy
    rw [hx, hy] at e2
    simpa only [e1, e2, Spec.Alike] using m1
  · intro h0 hx hy
    rw [hx, hy] at e2
    simpa only [e1, e2, Spec.Alike] using m2 h0

end

/-- C98: the angular pattern is an even, `2 pi`-periodic function of the angle. -/
theorem C98_angle (theta : ℝ) (a b : List ℂ) : angularScattering (-theta) a b = angularScattering theta a b ∧
    angularScattering (theta + 2 * Real.pi) a b = angularScattering theta a b := by
  unfold angularScattering
  rw [Real.cos_neg, Real.cos_add_two_pi]
  exact ⟨rfl, rfl⟩

/-! ### Scale -/

theorem xyzToSph_scale {x : ℝ} (hx : x ≠ 0) (y z : ℝ) {s : ℝ} (hs : 0 < s) :
    xyzToSph eps10Double (s * x) (s * y) (s * z) = ⟨s * (xyzToSph eps10Double x y z).c0, (xyzToSph eps10Double x y z).c1,
      (xyzToSph eps10Double x y z).c2⟩ := by
  have hr : Real.sqrt ((s * x) ^ 2 + (s * y) ^ 2 + (s * z) ^ 2) = s * Real.sqrt (x ^ 2 + y ^ 2 + z ^ 2) := by
    rw [show (s * x) ^ 2 + (s * y) ^ 2 + (s * z) ^ 2 = s ^ 2 * (x ^ 2 + y ^ 2 + z ^ 2) by ring, Real.sqrt_mul (sq_nonneg s),
      Real.sqrt_sq hs.le]
  have hr0 : Real.sqrt (x ^ 2 + y ^ 2 + z ^ 2) ≠ 0 := (Real.sqrt_pos.2 (by positivity)).ne'
  have hsx : s * x ≠ 0 := mul_ne_zero hs.ne' hx
  simp only [xyzToSph, hr, hr0, mul_ne_zero hs.ne' hr0, hx, hsx, if_false, zero_mul, add_zero, V3.mk.injEq, true_and]
  refine ⟨by rw [mul_div_mul_left _ _ hs.ne'], ?_⟩
  unfold atan2
  rw [show (⟨s * x, s * y⟩ : ℂ) = (s : ℂ) * ⟨x, y⟩ by apply Complex.ext <;> simp]
  exact Complex.arg_real_mul _ hs

theorem regionMasks_scale (rs : List ℝ) (r : ℝ) {s : ℝ} (hs : 0 < s) :
    regionMasks (rs.map (s * ·)) (s * r) = regionMasks rs r := by
  have hg : ∀ i, (rs.map (s * ·)).getD i 0 = s * rs.getD i 0 := by
    intro i
    rcases Nat.lt_or_ge i rs.length with h | h
    · simp [List.getD_eq_getElem?_getD, h]
    · simp [List.getD_eq_getElem?_getD, h]
  unfold regionMasks
  rw [List.length_map, getLastD_scale]
  simp only [hg, mul_le_mul_iff_right₀ hs, mul_lt_mul_iff_right₀ hs]

theorem vshPena_scale (K : D1Kernel) (n : ℕ) (k0 m : ℂ) (r theta phi : ℝ) (kind : ℤ) (eps : ℝ) {s : ℝ} (hs : 0 < s) :
    vshPena K n (k0 / s) m (s * r) theta phi kind eps = vshPena K n k0 m r theta phi kind eps := by
  have hsc : (s : ℂ) ≠ 0 := by exact_mod_cast hs.ne'
  have : k0 / (s : ℂ) * m * ((s * r : ℝ) : ℂ) = k0 * m * (r : ℂ) := by
    push_cast
    field_simp
  unfold vshPena
  rw [this]

theorem vsh_scale (B : BesselBackend) (n : ℕ) (k0 m : ℂ) (r theta phi : ℝ) (kind : ℤ) (eps : ℝ) {s : ℝ} (hs : 0 < s) :
    vsh B n (k0 / s) m (s * r) theta phi kind eps = vsh B n k0 m r theta phi kind eps := by
  have hsc : (s : ℂ) ≠ 0 := by exact_mod_cast hs.ne'
  have : k0 / (s : ℂ) * m * ((s * r : ℝ) : ℂ) = k0 * m * (r : ℂ) := by
    push_cast
    field_simp
  unfold vsh vshWith
  rw [this]

theorem incident_scale (E0 k n : ℂ) (r theta : ℝ) {s : ℝ} (hs : 0 < s) : incidentE E0 (k / s) (s * r) theta = incidentE E0 k r theta ∧
    incidentH E0 (k / s) n (s * r) theta = incidentH E0 k n r theta := by
  have hsc : (s : ℂ) ≠ 0 := by exact_mod_cast hs.ne'
  have : I * (k / (s : ℂ)) * ((s * r : ℝ) : ℂ) = I * k * (r : ℂ) := by
    push_cast
    field_simp
  unfold incidentE incidentH
  rw [this]
  exact ⟨rfl, rfl⟩

/-- C10: the near fields of a particle scaled by `s`, at the wavenumber `k0 / s` and the position `s r`, are those of the original
at `r` (off the plane `x = 0`, where the program moves the point by a fixed length). -/
theorem C10_scale_nearfields (K : D1Kernel) (k0 : ℂ) (rs : List ℝ) (es : List ℂ) (ee E0 : ℂ) (a b : List ℂ) (eps : ℝ) {x : ℝ}
    (hx : x ≠ 0) (y z : ℝ) {s : ℝ} (hs : 0 < s) :
    nearfieldsPena K (k0 / s) (rs.map (s * ·)) es ee E0 a b ⟨s * x, s * y, s * z⟩ eps
      = nearfieldsPena K k0 rs es ee E0 a b ⟨x, y, z⟩ eps := by
  have hsc : (s : ℂ) ≠ 0 := by exact_mod_cast hs.ne'
  have hk : k0 / (s : ℂ) * csqrt ee = k0 * csqrt ee / s := by ring
  have hxs : ((rs.map (s * ·)).map fun (r : ℝ) => k0 / (s : ℂ) * csqrt ee * (r : ℂ)) = rs.map fun (r : ℝ) => k0 * csqrt ee * (r : ℂ) := by
    rw [List.map_map]
    refine List.map_congr_left fun r _ => ?_
    simp only [Function.comp]
    push_cast
    field_simp
  obtain ⟨i1, i2⟩ := incident_scale E0 (k0 * csqrt ee) (csqrt ee) (xyzToSph eps10Double x y z).c0 (xyzToSph eps10Double x y z).c1 hs
  unfold nearfieldsPena
  simp only [hxs, xyzToSph_scale hx y z hs, regionField, vshPena_scale K _ _ _ _ _ _ _ _ hs, regionMasks_scale rs _ hs,
    List.length_map]
  simp only [hk, i1, i2]

/-- C10: the same for the torch/scipy branch; `k` is the wavenumber in the surrounding medium. -/
theorem C10_scale_nearfields_torch (Bc Bs B2 Bo : BesselBackend) (k0 k nC nS nE : ℂ) (rC rS : ℝ) (E0 : ℂ) (co : List CoreShellOut)
    (eps : ℝ) {x : ℝ} (hx : x ≠ 0) (y z : ℝ) {s : ℝ} (hs : 0 < s) :
    nearfieldsTorch Bc Bs B2 Bo (k0 / s) (k / s) nC nS nE (s * rC) (s * rS) E0 co ⟨s * x, s * y, s * z⟩ eps
      = nearfieldsTorch Bc Bs B2 Bo k0 k nC nS nE rC rS E0 co ⟨x, y, z⟩ eps := by
  obtain ⟨i1, i2⟩ := incident_scale E0 k nE (xyzToSph eps10Double x y z).c0 (xyzToSph eps10Double x y z).c1 hs
  unfold nearfieldsTorch
  simp only [xyzToSph_scale hx y z hs, vsh_scale _ _ _ _ _ _ _ _ _ hs, torchOrder, mul_le_mul_iff_right₀ hs,
    mul_lt_mul_iff_right₀ hs, i1, i2]

/-- C10: the whole calculation (coefficients, then near fields) with the pena backend. -/
theorem C10_scale_get_nearfields (K : D1Kernel) (B : Backends) (p : Particle1) (nMax : Option ℤ) {x : ℝ} (hx : x ≠ 0) (y z : ℝ)
    {s : ℝ} (hs : 0 < s) : nearPena K B (p.scale s) nMax ⟨s * x, s * y, s * z⟩ = nearPena K B p nMax ⟨x, y, z⟩ := by
  unfold nearPena
  rw [C10_scale_coefficients K B p "pena" "recurrence" nMax false hs]
  rcases mieCoefficients K B p "pena" "recurrence" nMax with e | o
  · rfl
  · exact C10_scale_nearfields K p.k0 p.rLayers p.epsLayers p.epsEnv 1 o.a o.b 1e-8 hx y z hs

/-! ### Examples -/

/-- The pena branch returns fields for a coated sphere at a point in the plane `y = 0`, and they lie as the theorem says. -/
example : ∃ F, nearfieldsPena codeD1 0.01 [50, 80] [4, 2] 1 1 [1, 0.5] [0.25, 0.125] ⟨100, 0, 30⟩ = .ok F ∧ F.Es.c1 = 0 ∧
    F.Ht.c0 = 0 := by
  have h := nearfieldsPena_eq (codeFn_fun 2) (by norm_num) ⟨0.01, [50, 80], [4, 2], 1⟩ rfl 1 (fun i => if i = 1 then 1 else 0.5)
    (fun i => if i = 1 then 0.25 else 0.125) ⟨100, 0, 30⟩ 1e-8
  simp only [List.range_succ, List.range_zero, List.nil_append, List.map_append, List.map_cons, List.map_nil, List.cons_append,
    zero_add, one_add_one_eq_two, if_true, OfNat.ofNat_ne_one, if_false] at h
  obtain ⟨h1, -, -, -, h5, -⟩ := C98_plane_pena h
  exact ⟨_, h, h1, h5⟩

/-- Two positions that are mirror images: `get_nearfields` with the torch backend returns mirrored fields. -/
example (sp : BesselBackend) : ∃ q F, particleAfter ⟨id, id⟩ [.newDb (.formula 1 [0, 1.1, 0.1]) "cpu"] demoArgs
      [.setDevice 0 "cuda:0", .query 0 demoK0] = some q ∧
    q.nearfieldsWith (codeArr sp) torchFns ⟨id, id⟩ demoK1
      ⟨[2, 3], fun i => if i.getD 1 0 = 0 then 60 else if i.getD 1 0 = 1 then (if i.getD 0 0 = 0 then 70 else -70) else 10⟩
      (worldAfter ⟨id, id⟩ [.newDb (.formula 1 [0, 1.1, 0.1]) "cpu"] demoArgs [.setDevice 0 "cuda:0", .query 0 demoK0]).heap 1
      "torch" "recurrence" (some (4 : ℕ)) = .ok F ∧ Spec.FlipY (F.at 1 2 0 0) (F.at 1 2 0 1) := by
  obtain ⟨q, F, hq, hF, h⟩ := C98_particle_torch demoScenario1 demoArgs_increasing demoArgs_layers.le (backend := "torch")
    (w := "recurrence") (by decide +kernel) (by decide +kernel) sp (n := 4) (by norm_num)
    (probe := ⟨[2, 3], fun i => if i.getD 1 0 = 0 then 60 else if i.getD 1 0 = 1 then (if i.getD 0 0 = 0 then 70 else -70) else 10⟩)
    (N := 2) rfl (by norm_num) 1 ⟨2 * Real.pi / 500, by positivity, by simp [demoQ]⟩
  exact ⟨q, F, hq, hF, (h 0 (by norm_num) 1 (by norm_num) (by simp)).1 (by simp) (by simp)⟩

/-- A coated sphere in nanometres and in micrometres. -/
example (K : D1Kernel) (B : Backends) : nearPena K B (Particle1.scale ⟨0.01, [50, 80], [4, 2], 1⟩ (1 / 1000)) none
    ⟨1 / 1000 * 100, 1 / 1000 * 0, 1 / 1000 * 30⟩ = nearPena K B ⟨0.01, [50, 80], [4, 2], 1⟩ none ⟨100, 0, 30⟩ :=
  C10_scale_get_nearfields K B _ none (by norm_num) 0 30 (by norm_num)

end MieDiff
