import Verif.Proofs.Gpm

/-!
# C65: the arrays handed to the GPM extraction are the near fields of the described particle
-/

namespace MieDiff

open Matrix

/-! ## Repeated evaluations of one particle -/

theorem unshared_append_query {C : Casts} {i : ℕ} {k0 : DTen ℝ} : ∀ {l : List WOp} {w : World} (n : ℕ), Spec.Unshared C w l →
    Spec.Unshared C w (l ++ List.replicate n (.query i k0))
  | [], w, 0, _ => trivial
  | [], w, n + 1, _ => ⟨fun a h => (by cases h), unshared_append_query (l := []) n trivial⟩
  | _ :: _, _, n, h => ⟨h.1, unshared_append_query n h.2⟩

section
variable {C : Casts} {before : List WOp} {a : ParticleArgs} {after : List WOp} {k0 : DTen ℝ} {K : ℕ} {Q : ℕ → Particle1}

theorem run_queries {q : Particle} {j : ℕ} : ∀ (i : ℕ) {w : World}, w.parts[j]? = some q →
    w.run C (List.replicate i (.query j k0)) = ⟨q.heapAfter C k0 w.heap i, w.parts⟩
  | 0, w, _ => rfl
  | i + 1, w, h => by
    have e : w.step C (.query j k0) = ⟨(q.permittivities C k0 w.heap).2, w.parts⟩ := by
      simp only [World.step, h]
    have := run_queries (q := q) (j := j) i (w := w.step C (.query j k0)) (by rw [e]; exact h)
    show (w.step C (.query j k0)).run C (List.replicate i (.query j k0)) = _
    rw [this, e]
    rfl

/-- The situation after `i` evaluations of the materials is one of the same particle. -/
theorem Scenario.queries (S : Scenario C before a after k0 K Q) {q : Particle} (hq : particleAfter C before a after = some q) (i : ℕ) :
    ∃ after', Scenario C before a after' k0 K Q ∧ particleAfter C before a after' = some q ∧
      (worldAfter C before a after').heap = q.heapAfter C k0 (worldAfter C before a after).heap i := by
  set j := ((⟨[], []⟩ : World).run C before).parts.length with hj
  have hw : worldAfter C before a (after ++ List.replicate i (.query j k0))
      = ⟨q.heapAfter C k0 (worldAfter C before a after).heap i, (worldAfter C before a after).parts⟩ := by
    rw [← run_queries (j := j) i hq]
    unfold worldAfter
    rw [← World.run_append]
    simp
  refine ⟨after ++ List.replicate i (.query j k0), ⟨?_, S.accepted, S.exist, S.one, S.ix⟩, ?_, by rw [hw]⟩
  · have := unshared_append_query (i := j) (k0 := k0) i S.unshared
    simpa using this
  · unfold particleAfter
    rw [hw]
    exact hq

theorem Scenario.numel (S : Scenario C before a after k0 K Q) {q : Particle} (hq : particleAfter C before a after = some q) :
    q.rLayers.numel = a.radii.length := by
  obtain ⟨hu, hacc, hex, hK, ix, hix, D⟩ := S
  obtain ⟨p, h', hok, hps, -⟩ := C30_accept C a _ hex hacc
  have hrun : worldAfter C before a after = (⟨h', ((⟨[], []⟩ : World).run C before).parts ++ [p]⟩ : World).run C after := by
    unfold worldAfter
    rw [World.run_append]
    simp only [World.run, List.foldl_cons, World.step]
    rw [show Particle.init C a (List.foldl (World.step C) ⟨[], []⟩ before).heap = (.ok p, h') from hok]
    rfl
  obtain ⟨dev, rDev, epsDev, hq'⟩ := World.run_same C ((⟨[], []⟩ : World).run C before).parts.length after
    ⟨h', ((⟨[], []⟩ : World).run C before).parts ++ [p]⟩ p (by simp)
  rw [← hrun] at hq'
  unfold particleAfter at hq
  rw [hq] at hq'
  cases hq'
  simp [Ten.numel, hps]

/-! ## One call -/

theorem mapM_of_points {α β γ : Type} {X : Py α} {f : ℕ → α → β} {g : γ → Py β} {p : ℕ → γ} {N : ℕ} (hN : 0 < N)
    (h : ∀ s < N, X.map (f s) = g (p s)) :
    X.map (fun F => (List.range N).map fun s => f s F) = ((List.range N).map p).mapM g := by
  rcases X with e | F
  · obtain ⟨m, rfl⟩ : ∃ m, N = m + 1 := ⟨N - 1, by omega⟩
    rw [List.range_succ_eq_map, List.map_cons, List.mapM_cons, ← h 0 hN]
    rfl
  · rw [List.mapM_map]
    symm
    exact mapM_ok _ _ (fun s => f s F) fun s hs => by
      have := h s (by simpa using hs)
      simp only [Function.comp, ← this]
      rfl

theorem nearPena_none (D : D1Kernel) (B : Backends) (p : Particle1) (hinc : strictlyIncreasing p.rLayers)
    (hlen : p.epsLayers.length = p.rLayers.length) (hne : p.rLayers ≠ []) (r : V3 ℝ) :
    nearPena D B p none r = (penaNmax [p.trunc] >>= fun n => nearPena D B p (some n) r) := by
  obtain ⟨x, xs, hx⟩ := List.exists_cons_of_ne_nil hne
  obtain ⟨y, ys, hy⟩ := List.exists_cons_of_ne_nil (l := p.epsLayers) (by
    intro h
    rw [h, hx] at hlen
    simp at hlen)
  have hlow : "pena".toLower = "pena" := by decide +kernel
  unfold nearPena mieCoefficients
  simp only [hlow, orderChoice]
  have h1 : pyIdx p.rLayers 0 = .ok x := by rw [hx]; rfl
  have h2 : pyIdx p.epsLayers 0 = .ok y := by rw [hy]; rfl
  simp only [h1, h2, bind_ok, if_true, or_true, not_true_eq_false, if_false, hinc, hlen, ne_eq]
  rcases penaNmax [p.trunc] with e | n <;> rfl

theorem pena_pointwise (S : Scenario C before a after k0 1 Q)
    (hinc : ∀ i x y, a.radii[i]? = some x → a.radii[i + 1]? = some y → x < y) {q : Particle}
    (hq : particleAfter C before a after = some q) (A : BackendsOf ArrFns) (J : TorchFns) (B : Backends) {backend : String}
    (hb : backend.toLower = "pena") (w : String) (n : Option ℤ) {probe : Ten ℝ} {N : ℕ} (hp : probe.shape = [N, 3]) (hN : 0 < N) :
    Pointwise N (nearPena codeD1 B (Q 0) n)
      (fun pr => q.nearfieldsWith A J C k0 pr (worldAfter C before a after).heap 1 backend w n) probe := by
  have some_case : ∀ m : ℤ, Pointwise N (nearPena codeD1 B (Q 0) (some m))
      (fun pr => q.nearfieldsWith A J C k0 pr (worldAfter C before a after).heap 1 backend w (some m)) probe := by
    intro m
    obtain ⟨q', hq', h⟩ := C64_pena S hinc
    obtain rfl : q = q' := Option.some.inj (hq.symm.trans hq')
    refine ⟨mapM_of_points hN fun s hs => h A J B w "recurrence" backend m 1 probe N hb hp 0 (by norm_num) s hs, fun F hF => ?_⟩
    obtain ⟨q'', args, r, e, R, hq'', hargs, ha, hR, hP, hL, hKR, -⟩ := S.args
    obtain rfl : q = q'' := Option.some.inj (hq.symm.trans hq'')
    simp only [nearfieldsWith_ok hargs hp, nearfieldsAny_pena A J args probe 1 hb] at hF
    rcases ho : mieCoefficientsT args (some m) false with er | o
    · unfold nearfieldsPenaT at hF
      rw [ho] at hF
      cases hF
    · obtain ⟨G, hG, hs'⟩ := C63_shapes ha hR ho hp 1
      rw [hP, hKR] at hs'
      rw [hG] at hF
      cases hF
      exact hs'.squeeze
  rcases n with _ | m
  · obtain ⟨q', hq', h⟩ := C64_auto S hinc
    obtain rfl : q = q' := Option.some.inj (hq.symm.trans hq')
    obtain ⟨q'', args, r, e, R, hq'', hargs, ha, hR, hP, hL, hKR, hr, hpart, -⟩ := S.args
    have hi := (radii_increasing hP hL hr).mpr hinc
    have hL1 : 0 < R.nLayers := hL ▸ S.layers
    obtain ⟨b, hbr, hwf, hme⟩ := broadcast_ok hR hi
    have hrow := particle_row hwf (p := 0) (k := 0) (by rw [hme.nPart]; omega)
    have hle : (b.particle 0 0).epsLayers.length = (b.particle 0 0).rLayers.length := by simp [Bcast.particle]
    have hne : (b.particle 0 0).rLayers ≠ [] := by
      have := hme.nLayers
      simp [Bcast.particle]
      omega
    rw [hme.particle (by omega) (by omega), hpart 0 (by omega)] at hrow hle hne
    have e1 := h A J w backend 1 probe N hb hp
    simp only [List.range_one, List.map_cons, List.map_nil] at e1
    have e2 : nearPena codeD1 B (Q 0) none = fun pt => penaNmax [(Q 0).trunc] >>= fun n => nearPena codeD1 B (Q 0) (some n) pt :=
      funext fun pt => nearPena_none codeD1 B (Q 0) hrow hle hne pt
    unfold Pointwise
    simp only [e1, e2]
    rcases hm : penaNmax [(Q 0).trunc] with er | m
    · refine ⟨?_, fun F hF => by cases hF⟩
      obtain ⟨l, rfl⟩ : ∃ l, N = l + 1 := ⟨N - 1, by omega⟩
      unfold Ten.vecs
      rw [List.range_succ_eq_map, List.map_cons, List.mapM_cons]
      rfl
    · exact some_case m
  · exact some_case m

/-- C65, pena backend (chosen or by default for more than two layers): in any program without sharing, the arrays handed to
`extract_gpm_from_fields` for one wavenumber are, illumination by illumination, the rotated near fields of the described particle
divided by their largest modulus, at the given positions. -/
theorem C65_pena (S : Scenario C before a after k0 1 Q) (hinc : ∀ i x y, a.radii[i]? = some x → a.radii[i + 1]? = some y → x < y) :
    ∃ q, particleAfter C before a after = some q ∧ ∀ (A : BackendsOf ArrFns) (J : TorchFns) (B : Backends) (backend : Option String)
      (n : Option ℤ) (confs : List IncConf) (rProbe rGpm : Ten ℝ) (N M : ℕ), (resolveBackend a.radii.length backend).toLower = "pena" →
      rProbe.shape = [N, 3] → rGpm.shape = [M, 3] → 0 < N → 0 < M →
      Except.map (IncT.all N M) (q.gpmArrays A J C k0 (worldAfter C before a after).heap confs rProbe rGpm backend n)
        = gpmFields (nearPena codeD1 B (Q 0) n) confs (rProbe.vecs N) (rGpm.vecs M) ∧
      ∀ G, q.gpmArrays A J C k0 (worldAfter C before a after).heap confs rProbe rGpm backend n = .ok G →
        G.eSca.shape = [confs.length, N, 3] ∧ G.hSca.shape = [confs.length, N, 3] ∧ G.eInc.shape = [confs.length, M, 3] ∧
        G.hInc.shape = [confs.length, M, 3] := by
  obtain ⟨q, -, -, -, -, hq, -⟩ := S.args
  refine ⟨q, hq, fun A J B backend n confs rProbe rGpm N M hb hp hg hN hM => ?_⟩
  have hnum := S.numel hq
  have key : ∀ i {L : ℕ} (u : Ten ℝ), u.shape = [L, 3] → 0 < L → Pointwise L (nearPena codeD1 B (Q 0) n) (fun pr => q.nearfieldsWith A J C
      k0 pr (q.heapAfter C k0 (worldAfter C before a after).heap i) 1 (resolveBackend q.rLayers.numel backend) "recurrence" n) u := by
    intro i L u hu hL
    obtain ⟨after', S', hq', hh⟩ := S.queries hq i
    rw [← hh, hnum]
    exact pena_pointwise S' hinc hq' A J B hb _ n hu hL
  exact gpmArraysT_eq (nearS := nearPena codeD1 B (Q 0) n) (nearG := nearPena codeD1 B (Q 0) n) hp hg
    (fun i c _ u ⟨_, _, su, _⟩ => key i u su hN) fun i c _ u ⟨_, _, su, _⟩ => key i u su hM

/-! ## Torch backend -/

/-- The largest modulus of the argument in a medium of index `m` over the positions. -/
def LargestArg (k0 m : ℂ) (pts : List (V3 ℝ)) (z : ℝ) : Prop :=
  let rho (p : V3 ℝ) : ℝ := ‖k0 * m * (Real.sqrt (p.c0 ^ 2 + p.c1 ^ 2 + p.c2 ^ 2) : ℂ) + ((1e-8 : ℝ) : ℂ)‖
  (∃ p ∈ pts, rho p = z) ∧ ∀ p ∈ pts, rho p ≤ z

theorem LargestArg.unique {k0 m : ℂ} {pts : List (V3 ℝ)} {z z' : ℝ} (h : LargestArg k0 m pts z) (h' : LargestArg k0 m pts z') : z = z' := by
  obtain ⟨⟨p, hp, e⟩, g⟩ := h
  obtain ⟨⟨p', hp', e'⟩, g'⟩ := h'
  exact le_antisymm (e ▸ g' p hp) (e' ▸ g p' hp')

theorem LargestArg.exists (k0 m : ℂ) {pts : List (V3 ℝ)} (h : pts ≠ []) : ∃ z, LargestArg k0 m pts z := by
  classical
  obtain ⟨p, hp, hmax⟩ := pts.toFinset.exists_max_image
    (fun p => ‖k0 * m * (Real.sqrt (p.c0 ^ 2 + p.c1 ^ 2 + p.c2 ^ 2) : ℂ) + ((1e-8 : ℝ) : ℂ)‖)
    (by simpa [List.toFinset_nonempty_iff] using h)
  exact ⟨_, ⟨p, by simpa using hp, rfl⟩, fun p' hp' => hmax p' (by simpa using hp')⟩

theorem rotPoint_norm {c : IncConf} {R : Mat3} (h : planeWaveRotation c.angle c.plane c.pol = .ok R) (p : V3 ℝ) :
    (rotPoint R p).c0 ^ 2 + (rotPoint R p).c1 ^ 2 + (rotPoint R p).c2 ^ 2 = p.c0 ^ 2 + p.c1 ^ 2 + p.c2 ^ 2 := by
  rcases hw : Spec.wave c with _ | ⟨d, e⟩
  · unfold planeWaveRotation at h
    rw [Spec.wave_none hw] at h
    cases h
  · obtain ⟨-, -, -, R', hR', hso, -⟩ := C40_frame hw
    obtain rfl : R = R' := Except.ok.inj (h.symm.trans hR')
    have ho : R * Rᵀ = 1 := (Matrix.mem_orthogonalGroup_iff (Fin 3) ℝ).mp (Matrix.mem_specialOrthogonalGroup_iff.mp hso).1
    have h00 := congrFun (congrFun ho 0) 0
    have h01 := congrFun (congrFun ho 0) 1
    have h02 := congrFun (congrFun ho 0) 2
    have h11 := congrFun (congrFun ho 1) 1
    have h12 := congrFun (congrFun ho 1) 2
    have h22 := congrFun (congrFun ho 2) 2
    simp [Matrix.mul_apply, Fin.sum_univ_three] at h00 h01 h02 h11 h12 h22
    simp only [rotPoint, Matrix.vecMul, dotProduct, Fin.sum_univ_three, Matrix.cons_val_zero, Matrix.cons_val_one, Matrix.cons_val]
    linear_combination p.c0 ^ 2 * h00 + p.c1 ^ 2 * h11 + p.c2 ^ 2 * h22 + 2 * p.c0 * p.c1 * h01 + 2 * p.c0 * p.c2 * h02
      + 2 * p.c1 * p.c2 * h12

theorem LargestArg.rotated {k0 m : ℂ} {pts : List (V3 ℝ)} {z : ℝ} {c : IncConf} {R : Mat3}
    (h : planeWaveRotation c.angle c.plane c.pol = .ok R) : LargestArg k0 m (pts.map (rotPoint R)) z ↔ LargestArg k0 m pts z := by
  unfold LargestArg
  simp only [List.mem_map, exists_exists_and_eq_and, forall_exists_index, and_imp, forall_apply_eq_imp_iff₂, rotPoint_norm h]

/-- Near field of one sphere or core-shell particle from the coefficients `o`, `co`, with the torch functions at the depths that belong
to the largest arguments `z`. -/
noncomputable def nearTorch (p : Particle1) (o : MieOut) (co : List CoreShellOut) (z : ℝ × ℝ × ℝ) (r : V3 ℝ) : Py Fields :=
  nearfieldsTorch (torchFns z.1) (torchFns z.2.1) (torchFns z.2.1) (torchFns z.2.2) p.k0 o.k (csqrt o.epsC) (csqrt o.epsS) o.nEnv o.rC
    o.rS 1 co r

/-- The largest arguments in core, shell and host. -/
def LargestArgs (p : Particle1) (pts : List (V3 ℝ)) (z : ℝ × ℝ × ℝ) : Prop :=
  LargestArg p.k0 (csqrt (p.epsLayers.headD 0)) pts z.1 ∧ LargestArg p.k0 (csqrt (p.epsLayers.getLastD 0)) pts z.2.1 ∧
  LargestArg p.k0 (csqrt p.epsEnv) pts z.2.2

theorem torch_pointwise (S : Scenario C before a after k0 1 Q)
    (hinc : ∀ i x y, a.radii[i]? = some x → a.radii[i + 1]? = some y → x < y) {q : Particle}
    (hq : particleAfter C before a after = some q) (hl : a.radii.length ≤ 2) {backend : String} (hb : backend.toLower = "torch")
    (sp : BesselBackend) (D : D1Kernel) {n : ℕ} (hn : 1 ≤ n) {probe : Ten ℝ} {N : ℕ} (hp : probe.shape = [N, 3]) (hN : 0 < N)
    (hk0 : ∃ x : ℝ, 0 ≤ x ∧ (Q 0).k0 = x) {z : ℝ × ℝ × ℝ} (hz : LargestArgs (Q 0) (probe.vecs N) z) :
    ∃ o co, mieCoefficients D (codeBackends sp) (Q 0) backend "recurrence" (some n) true = .ok o ∧ o.internal = some co ∧
      Pointwise N (nearTorch (Q 0) o co z)
        (fun pr => q.nearfieldsWith (codeArr sp) torchFns C k0 pr (worldAfter C before a after).heap 1 backend "recurrence" (some n))
        probe := by
  obtain ⟨q', o, co, zc, zs, zo, F, hq', ho, hco, mc, ms, mo, hF, hsh, hv⟩ := C64_torch S hinc hl hb (w := "recurrence")
    (by decide +kernel) sp D hn hp hN 1 hk0
  obtain rfl : q = q' := Option.some.inj (hq.symm.trans hq')
  have cv : ∀ {m : ℂ} {x : ℝ}, ((∃ s < N, ‖(Q 0).k0 * m * ((probeSph probe s).c0 : ℂ) + ((1e-8 : ℝ) : ℂ)‖ = x) ∧
      ∀ s < N, ‖(Q 0).k0 * m * ((probeSph probe s).c0 : ℂ) + ((1e-8 : ℝ) : ℂ)‖ ≤ x) → LargestArg (Q 0).k0 m (probe.vecs N) x := by
    rintro m x ⟨⟨s, hs, h1⟩, h2⟩
    refine ⟨⟨_, List.mem_map.mpr ⟨s, by simpa using hs, rfl⟩, h1⟩, fun p hp => ?_⟩
    obtain ⟨t, ht, rfl⟩ := List.mem_map.mp hp
    exact h2 t (by simpa using ht)
  obtain rfl := (cv mc).unique hz.1
  obtain rfl := (cv ms).unique hz.2.1
  obtain rfl := (cv mo).unique hz.2.2
  refine ⟨o, co, ho, hco, mapM_of_points hN fun s hs => ?_, fun G hG => ?_⟩
  · show Except.map _ (q.nearfieldsWith (codeArr sp) torchFns C k0 probe (worldAfter C before a after).heap 1 backend "recurrence"
      (some n)) = _
    rw [hF]
    exact (hv s hs).symm
  · have := hG.symm.trans hF
    cases this
    exact hsh

/-- C65, torch backend (chosen or by default) with one or two layers: the same with the near fields of the torch branch.  The
recurrence depth at the probe positions is that of the outermost of them, and the same for the positions of the
polarizabilities, for every illumination. -/
theorem C65_torch (S : Scenario C before a after k0 1 Q) (hinc : ∀ i x y, a.radii[i]? = some x → a.radii[i + 1]? = some y → x < y)
    (hl : a.radii.length ≤ 2) {backend : Option String} (hb : (resolveBackend a.radii.length backend).toLower = "torch")
    (sp : BesselBackend) (D : D1Kernel) {n : ℕ} (hn : 1 ≤ n) (hk0 : ∃ x : ℝ, 0 ≤ x ∧ (Q 0).k0 = x) {rProbe rGpm : Ten ℝ} {N M : ℕ}
    (hp : rProbe.shape = [N, 3]) (hg : rGpm.shape = [M, 3]) (hN : 0 < N) (hM : 0 < M) (confs : List IncConf) :
    ∃ q o co zP zG, particleAfter C before a after = some q ∧
      mieCoefficients D (codeBackends sp) (Q 0) (resolveBackend a.radii.length backend) "recurrence" (some n) true = .ok o ∧
      o.internal = some co ∧ LargestArgs (Q 0) (rProbe.vecs N) zP ∧ LargestArgs (Q 0) (rGpm.vecs M) zG ∧
      Except.map (IncT.all N M) (q.gpmArrays (codeArr sp) torchFns C k0 (worldAfter C before a after).heap confs rProbe rGpm backend
          (some n))
        = gpmFields2 (nearTorch (Q 0) o co zP) (nearTorch (Q 0) o co zG) confs (rProbe.vecs N) (rGpm.vecs M) ∧
      ∀ G, q.gpmArrays (codeArr sp) torchFns C k0 (worldAfter C before a after).heap confs rProbe rGpm backend (some n) = .ok G →
        G.eSca.shape = [confs.length, N, 3] ∧ G.hSca.shape = [confs.length, N, 3] ∧ G.eInc.shape = [confs.length, M, 3] ∧
        G.hInc.shape = [confs.length, M, 3] := by
  obtain ⟨q, -, -, -, -, hq, -⟩ := S.args
  have hnum := S.numel hq
  have nonempty : ∀ {L : ℕ} (t : Ten ℝ), 0 < L → t.vecs L ≠ [] := fun t h => by simp [Ten.vecs]; omega
  have ex : ∀ {L : ℕ} (t : Ten ℝ), 0 < L → ∃ z, LargestArgs (Q 0) (t.vecs L) z := fun t h => by
    obtain ⟨z1, h1⟩ := LargestArg.exists (Q 0).k0 (csqrt ((Q 0).epsLayers.headD 0)) (nonempty t h)
    obtain ⟨z2, h2⟩ := LargestArg.exists (Q 0).k0 (csqrt ((Q 0).epsLayers.getLastD 0)) (nonempty t h)
    obtain ⟨z3, h3⟩ := LargestArg.exists (Q 0).k0 (csqrt (Q 0).epsEnv) (nonempty t h)
    exact ⟨(z1, z2, z3), h1, h2, h3⟩
  obtain ⟨zP, hzP⟩ := ex rProbe hN
  obtain ⟨zG, hzG⟩ := ex rGpm hM
  obtain ⟨o, co, ho, hco, -⟩ := torch_pointwise S hinc hq hl hb sp D hn hp hN hk0 hzP
  have key : ∀ i {L : ℕ} (t u : Ten ℝ) (c : IncConf) z, Rotated L t u c → 0 < L → LargestArgs (Q 0) (t.vecs L) z →
      Pointwise L (nearTorch (Q 0) o co z) (fun pr => q.nearfieldsWith (codeArr sp) torchFns C
      k0 pr (q.heapAfter C k0 (worldAfter C before a after).heap i) 1 (resolveBackend q.rLayers.numel backend) "recurrence"
        (some n)) u := by
    rintro i L t u c z ⟨R, hR, su, hu⟩ hL ⟨h1, h2, h3⟩
    obtain ⟨after', S', hq', hh⟩ := S.queries hq i
    rw [← hh, hnum]
    obtain ⟨o', co', ho', hco', h⟩ := torch_pointwise S' hinc hq' hl hb sp D hn su hL hk0 (z := z) (by
      rw [hu]
      exact ⟨(LargestArg.rotated hR).mpr h1, (LargestArg.rotated hR).mpr h2, (LargestArg.rotated hR).mpr h3⟩)
    rw [ho] at ho'
    cases ho'
    rw [hco] at hco'
    cases hco'
    exact h
  exact ⟨q, o, co, zP, zG, hq, ho, hco, hzP, hzG, gpmArraysT_eq hp hg (fun i c _ u hu => key i rProbe u c zP hu hN hzP)
    fun i c _ u hu => key i rGpm u c zG hu hM hzG⟩

theorem gpmArraysT_congr {nf nf' : ℕ → Ten ℝ → Py FieldsT} {rProbe rGpm : Ten ℝ} {N M : ℕ} (hp : rProbe.shape = [N, 3])
    (hg : rGpm.shape = [M, 3]) (h : ∀ i {L : ℕ} (u : Ten ℝ), u.shape = [L, 3] → nf i u = nf' i u) (confs : List IncConf) :
    gpmArraysT nf confs rProbe rGpm = gpmArraysT nf' confs rProbe rGpm := by
  have he : ∀ c : IncConf × ℕ, evalMieT (nf (2 * c.2)) (nf (2 * c.2 + 1)) c.1 rProbe rGpm
      = evalMieT (nf' (2 * c.2)) (nf' (2 * c.2 + 1)) c.1 rProbe rGpm := by
    intro c
    unfold evalMieT
    rcases planeWaveRotation c.1.angle c.1.plane c.1.pol with er | R
    · rfl
    obtain ⟨u, eu, su, -⟩ := matmul3_vecs hp R
    obtain ⟨v, ev, sv, -⟩ := matmul3_vecs hg R
    simp only [bind_ok, eu, ev, h _ u su, h _ v sv]
  unfold gpmArraysT
  simp only [he]

/-- C65, torch backend without `n_max`: every call uses the order of Wiscombe's rule for the described particle. -/
theorem C65_auto (S : Scenario C before a after k0 1 Q) (hinc : ∀ i x y, a.radii[i]? = some x → a.radii[i + 1]? = some y → x < y)
    (hl : a.radii.length ≤ 2) {backend : Option String} (hb : (resolveBackend a.radii.length backend).toLower = "torch") :
    ∃ q, ∃ n : ℕ, particleAfter C before a after = some q ∧ 1 ≤ n ∧
      wiscombe [(((Q 0).rLayers.getLastD 0 : ℝ) : ℂ) * (Q 0).k0 * csqrt (Q 0).epsEnv] = .ok (n : ℤ) ∧
      ∀ (A : BackendsOf ArrFns) (J : TorchFns) (rProbe rGpm : Ten ℝ) (N M : ℕ), rProbe.shape = [N, 3] → rGpm.shape = [M, 3] →
        ∀ confs, q.gpmArrays A J C k0 (worldAfter C before a after).heap confs rProbe rGpm backend none
          = q.gpmArrays A J C k0 (worldAfter C before a after).heap confs rProbe rGpm backend (some n) := by
  obtain ⟨q, -, -, -, -, hq, -⟩ := S.args
  have hnum := S.numel hq
  obtain ⟨m, hm, hge⟩ := (C25_wiscombe_ge [(((Q 0).rLayers.getLastD 0 : ℝ) : ℂ) * (Q 0).k0 * csqrt (Q 0).epsEnv]).2 (by simp)
  have hm1 : 1 ≤ m := by
    have h1 := hge _ (List.mem_singleton.mpr rfl)
    have h2 : (0 : ℝ) < m := lt_of_lt_of_le (by positivity) h1
    exact_mod_cast h2
  obtain ⟨n, rfl⟩ := Int.eq_ofNat_of_zero_le (by omega : 0 ≤ m)
  refine ⟨q, n, hq, by omega, hm, fun A J rProbe rGpm N M hp hg confs => ?_⟩
  have key : ∀ i {L : ℕ} (u : Ten ℝ), u.shape = [L, 3] →
      q.nearfieldsWith A J C k0 u (q.heapAfter C k0 (worldAfter C before a after).heap i) 1 (resolveBackend q.rLayers.numel backend)
          "recurrence" none
        = q.nearfieldsWith A J C k0 u (q.heapAfter C k0 (worldAfter C before a after).heap i) 1
          (resolveBackend q.rLayers.numel backend) "recurrence" (some n) := by
    intro i L u hu
    obtain ⟨after', S', hq', hh⟩ := S.queries hq i
    rw [← hh, hnum]
    obtain ⟨q'', args, r, e, R, hq'', hargs, ha, hR, hP, hL, hKR, hr, hpart, -⟩ := S'.args
    obtain rfl : q = q'' := Option.some.inj (hq'.symm.trans hq'')
    have hi := (radii_increasing hP hL hr).mpr hinc
    have hL1 : 0 < R.nLayers := hL ▸ S.layers
    have hA := C57_auto ha hR hi (by omega) "recurrence" (.inl hb) A true
    rw [hP, hKR] at hA
    simp only [List.range_one, List.flatMap_singleton, List.map_cons, List.map_nil, hpart 0 (by omega), hm, bind_ok] at hA
    rw [nearfieldsWith_ok hargs hu, nearfieldsWith_ok hargs hu, nearfieldsAny_core _ _ _ _ _ (.inl hb),
      nearfieldsAny_core _ _ _ _ _ (.inl hb)]
    unfold nearfieldsB
    rw [hA]
  exact gpmArraysT_congr hp hg key confs

end

/-! ### Examples -/

/-- One element of a tensor of wavenumbers, at 500 nm. -/
noncomputable def demoK1 : DTen ℝ := ⟨⟨[], fun _ => 2 * Real.pi / 500⟩, "cpu", []⟩

theorem demoScenario1 : Scenario ⟨id, id⟩ [.newDb (.formula 1 [0, 1.1, 0.1]) "cpu"] demoArgs [.setDevice 0 "cuda:0", .query 0 demoK0]
    demoK1 1 demoQ where
  unshared := demoScenario.unshared
  accepted := demoScenario.accepted
  exist := demoScenario.exist
  one := le_rfl
  ix := by
    obtain ⟨ix, hix, D⟩ := demoScenario.ix
    have e0 : ix = fun k => [k] := by
      have : Spec.k0Index demoK0.ten.shape = some (2, fun k => [k]) := rfl
      rw [this] at hix
      simpa using hix.symm
    subst e0
    have ek : ∀ k < 1, demoK1.ten.get [] = demoK0.ten.get [k] := by
      intro k hk
      obtain rfl : k = 0 := by omega
      simp [demoK0, demoK1]
    refine ⟨fun _ => [], rfl, ?_⟩
    obtain ⟨d1, d2, d3, d4, d5⟩ := D
    refine ⟨fun k hk => ?_, fun k hk => d2 k (by omega), fun k hk => ?_, fun e he => ?_, fun h k hk => ?_⟩
    · rw [d1 k (by omega), ek k hk]
    · have := d3 k (by omega)
      rwa [← ek k hk] at this
    · cases he
    · have := d5 h k (by omega)
      rwa [← ek k hk] at this

/-- `C65_pena` applies to the core-shell particle, with one probe position and three dipole positions. -/
example (x y : ℕ → ℕ → ℝ) (confs : List IncConf) : ∃ q, particleAfter ⟨id, id⟩ [.newDb (.formula 1 [0, 1.1, 0.1]) "cpu"] demoArgs
      [.setDevice 0 "cuda:0", .query 0 demoK0] = some q ∧
    ∀ (A : BackendsOf ArrFns) (J : TorchFns) (B : Backends),
      Except.map (IncT.all 1 3) (q.gpmArrays A J ⟨id, id⟩ demoK1 (worldAfter ⟨id, id⟩ [.newDb (.formula 1 [0, 1.1, 0.1]) "cpu"]
          demoArgs [.setDevice 0 "cuda:0", .query 0 demoK0]).heap confs ⟨[1, 3], fun i => x (i.getD 0 0) (i.getD 1 0)⟩
          ⟨[3, 3], fun i => y (i.getD 0 0) (i.getD 1 0)⟩ (some "Pena") none)
        = gpmFields (nearPena codeD1 B (demoQ 0) none) confs [⟨x 0 0, x 0 1, x 0 2⟩]
            [⟨y 0 0, y 0 1, y 0 2⟩, ⟨y 1 0, y 1 1, y 1 2⟩, ⟨y 2 0, y 2 1, y 2 2⟩] := by
  obtain ⟨q, hq, h⟩ := C65_pena demoScenario1 demoArgs_increasing
  exact ⟨q, hq, fun A J B => (h A J B (some "Pena") none confs _ _ 1 3 (by decide +kernel) rfl rfl one_pos (by norm_num)).1⟩

/-- `C65_torch` and `C65_auto` apply to it with the default backend. -/
example (sp : BesselBackend) (x y : ℕ → ℕ → ℝ) (confs : List IncConf) : ∃ q n o co zP zG,
    particleAfter ⟨id, id⟩ [.newDb (.formula 1 [0, 1.1, 0.1]) "cpu"] demoArgs [.setDevice 0 "cuda:0", .query 0 demoK0] = some q ∧
    mieCoefficients codeD1 (codeBackends sp) (demoQ 0) "torch" "recurrence" (some n) true = .ok o ∧ o.internal = some co ∧
      Except.map (IncT.all 2 3) (q.gpmArrays (codeArr sp) torchFns ⟨id, id⟩ demoK1 (worldAfter ⟨id, id⟩
          [.newDb (.formula 1 [0, 1.1, 0.1]) "cpu"] demoArgs [.setDevice 0 "cuda:0", .query 0 demoK0]).heap confs
          ⟨[2, 3], fun i => x (i.getD 0 0) (i.getD 1 0)⟩ ⟨[3, 3], fun i => y (i.getD 0 0) (i.getD 1 0)⟩ none none)
        = gpmFields2 (nearTorch (demoQ 0) o co zP) (nearTorch (demoQ 0) o co zG) confs [⟨x 0 0, x 0 1, x 0 2⟩, ⟨x 1 0, x 1 1, x 1 2⟩]
            [⟨y 0 0, y 0 1, y 0 2⟩, ⟨y 1 0, y 1 1, y 1 2⟩, ⟨y 2 0, y 2 1, y 2 2⟩] := by
  have hb : (resolveBackend demoArgs.radii.length none).toLower = "torch" := by rw [demoArgs_layers]; decide +kernel
  obtain ⟨q, n, hq, hn, -, h⟩ := C65_auto demoScenario1 demoArgs_increasing (by rw [demoArgs_layers]) hb
  obtain ⟨q', o, co, zP, zG, hq', ho, hco, -, -, h', -⟩ := C65_torch demoScenario1 demoArgs_increasing (by rw [demoArgs_layers]) hb sp codeD1 hn
    (by refine ⟨_, ?_, rfl⟩; positivity) (rProbe := ⟨[2, 3], fun i => x (i.getD 0 0) (i.getD 1 0)⟩)
    (rGpm := ⟨[3, 3], fun i => y (i.getD 0 0) (i.getD 1 0)⟩) rfl rfl (by norm_num) (by norm_num) confs
  obtain rfl : q = q' := Option.some.inj (hq.symm.trans hq')
  refine ⟨q, n, o, co, zP, zG, hq, ho, hco, ?_⟩
  rw [h _ _ _ _ _ _ rfl rfl]
  exact h'

end MieDiff
