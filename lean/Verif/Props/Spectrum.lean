import Verif.Props.Passive
import Verif.Props.Analytic
import Verif.Proofs.BatchObs

/-!
# C115: spectra of particles made of shipped materials have no jumps
-/

namespace MieDiff

open Complex Topology

/-- The polygon through the rows of a table, constant outside. -/
noncomputable def polyline : List (ℝ × ℂ) → ℝ → ℂ
  | [], _ => 0
  | [p], _ => p.2
  | p :: q :: rest, x => polyline (q :: rest) x + ((max 0 (min 1 ((q.1 - x) / (q.1 - p.1))) : ℝ) : ℂ) * (p.2 - q.2)

theorem polyline_continuous (s : List (ℝ × ℂ)) : Continuous (polyline s) := by
  induction s with
  | nil => exact continuous_const
  | cons p s ih =>
    cases s with
    | nil => exact continuous_const
    | cons q rest =>
      refine ih.add (Continuous.mul ?_ continuous_const)
      exact continuous_ofReal.comp (continuous_const.max (continuous_const.min ((continuous_const.sub continuous_id).div_const _)))

theorem polyline_below {p : ℝ × ℂ} {s : List (ℝ × ℂ)} (h : ((p :: s).map (·.1)).Pairwise (· < ·)) {x : ℝ} (hx : x ≤ p.1) :
    polyline (p :: s) x = p.2 := by
  induction s generalizing p with
  | nil => rfl
  | cons q rest ih =>
    rw [List.map_cons, List.pairwise_cons] at h
    have hpq : p.1 < q.1 := h.1 q.1 (by simp)
    have hc : max 0 (min 1 ((q.1 - x) / (q.1 - p.1))) = 1 := by
      rw [min_eq_left ((one_le_div (by linarith)).mpr (by linarith))]; norm_num
    simp only [polyline, hc, ih h.2 (by linarith : x ≤ q.1)]
    push_cast
    ring

theorem polyline_step {p q : ℝ × ℂ} {rest : List (ℝ × ℂ)} (hpq : p.1 < q.1) {x : ℝ} (hx : q.1 ≤ x) :
    polyline (p :: q :: rest) x = polyline (q :: rest) x := by
  have hc : max 0 (min 1 ((q.1 - x) / (q.1 - p.1))) = 0 := by
    have : (q.1 - x) / (q.1 - p.1) ≤ 0 := div_nonpos_of_nonpos_of_nonneg (by linarith) (by linarith)
    exact max_eq_left ((min_le_right _ _).trans this)
  simp only [polyline, hc]
  push_cast
  ring

theorem polyline_between {s : List (ℝ × ℂ)} (h : (s.map (·.1)).Pairwise (· < ·)) {k : ℕ} {l r : ℝ × ℂ} (hl : s[k]? = some l)
    (hr : s[k + 1]? = some r) {x : ℝ} (h1 : l.1 < x) (h2 : x ≤ r.1) :
    polyline s x = (l.2 * (r.1 - x) + r.2 * (x - l.1)) / (r.1 - l.1) := by
  induction s generalizing k with
  | nil => cases hl
  | cons p s ih =>
    cases s with
    | nil => simp at hr
    | cons q rest =>
      have h' := h
      rw [List.map_cons, List.pairwise_cons] at h'
      have hpq : p.1 < q.1 := h'.1 q.1 (by simp)
      cases k with
      | zero =>
        simp only [List.getElem?_cons_zero, Option.some.injEq, zero_add, List.getElem?_cons_succ] at hl hr
        subst hl hr
        have hpos : 0 < q.1 - p.1 := by linarith
        have hc : max 0 (min 1 ((q.1 - x) / (q.1 - p.1))) = (q.1 - x) / (q.1 - p.1) := by
          rw [min_eq_right ((div_le_one hpos).mpr (by linarith)), max_eq_right (div_nonneg (by linarith) hpos.le)]
        have hne : ((q.1 : ℂ) - p.1) ≠ 0 := by exact_mod_cast hpos.ne'
        simp only [polyline, hc, polyline_below h'.2 h2]
        push_cast
        field_simp
        ring
      | succ k =>
        simp only [List.getElem?_cons_succ] at hl hr
        have hql : q.1 ≤ l.1 := by
          cases k with
          | zero => simp at hl; rw [hl]
          | succ k =>
            have h3 := h'.2
            rw [List.map_cons, List.pairwise_cons] at h3
            rw [List.getElem?_cons_succ] at hl
            exact (h3.1 l.1 (List.mem_map.mpr ⟨l, List.mem_of_getElem? hl, rfl⟩)).le
        rw [polyline_step hpq (by linarith)]
        exact ih h'.2 hl hr

theorem polyline_above {s : List (ℝ × ℂ)} (h : (s.map (·.1)).Pairwise (· < ·)) {p : ℝ × ℂ} (hp : s[s.length - 1]? = some p) {x : ℝ} (hx : p.1 < x) :
    polyline s x = p.2 := by
  induction s with
  | nil => cases hp
  | cons a s ih =>
    cases s with
    | nil =>
      simp at hp
      rw [hp]
      rfl
    | cons q rest =>
      have h' := h
      rw [List.map_cons, List.pairwise_cons] at h'
      have hp' : (q :: rest)[(q :: rest).length - 1]? = some p := by simpa using hp
      have hq : q.1 ≤ p.1 := by
        have h3 := h'.2
        rw [List.map_cons, List.pairwise_cons] at h3
        rcases List.mem_cons.mp (List.mem_of_getElem? hp') with rfl | hm
        · exact le_rfl
        · exact (h3.1 p.1 (List.mem_map.mpr ⟨p, hm, rfl⟩)).le
      rw [polyline_step (h'.1 q.1 (by simp)) (by linarith)]
      exact ih h'.2 hp'

/-- C115: a table of distinct wavelengths, in any order, is a continuous function of the wavelength, also at its rows and at its ends. -/
theorem C115_table {dat : List (ℝ × ℂ)} (hne : dat ≠ []) (hd : DistinctRows dat) :
    ∃ f : ℝ → ℂ, Continuous f ∧ ∀ x, interp1d x dat = .ok (f x) := by
  have hs := sortOf_mergeSort dat
  unfold interp1d
  generalize (dat.mergeSort fun a b => decide (a.1 ≤ b.1)) = s at hs
  have hne' : s ≠ [] := by
    rintro rfl
    exact hne (List.nil_perm.mp hs.perm)
  have h : (s.map (·.1)).Pairwise (· < ·) := by
    have hn : (s.map (·.1)).Nodup := (hs.perm.map _).nodup_iff.mpr hd
    have hle : (s.map (·.1)).Pairwise (· ≤ ·) := List.pairwise_map.mpr hs.sorted
    exact (hle.and hn).imp fun h => lt_of_le_of_ne h.1 h.2
  refine ⟨polyline s, polyline_continuous s, fun x => ?_⟩
  rcases interpSorted_cases x s hne' with ⟨p, hp, hx, e⟩ | ⟨p, hp, hx, e⟩ | ⟨k, l, r, hl, hr, h1, h2, e⟩
  · obtain ⟨q, s, rfl⟩ := List.exists_cons_of_ne_nil hne'
    simp only [List.getElem?_cons_zero, Option.some.injEq] at hp
    subst hp
    rw [e, polyline_below h hx]
  · rw [e, polyline_above h hp hx]
  · rw [e, polyline_between h hl hr h1 h2]

/-- An unsorted table of three rows. -/
example : ∃ f : ℝ → ℂ, Continuous f ∧ ∀ x, interp1d x [(2, 4), (1, 2), (5, I)] = .ok (f x) :=
  C115_table (by simp) (by norm_num [DistinctRows])

/-- Radii, wavenumber, host and permittivities. -/
abbrev LooseParam (L : ℕ) := (Fin L → ℝ) × ℂ × ℂ × (Fin L → ℂ)

/-- Particles with independent radii, wavenumber, host and permittivities. -/
noncomputable def looseFam (L : ℕ) : ParticleFam (LooseParam L) where
  k0 v := v.2.1
  r := List.ofFn fun i v => v.1 i
  eps := List.ofFn fun i v => v.2.2.2 i
  env v := v.2.2.1

theorem looseFam_analytic (L : ℕ) (v : LooseParam L) : AnalyticFam ℝ (looseFam L) v where
  k0 := (contDiff_fst.comp contDiff_snd).contDiffAt
  env := (contDiff_fst.comp (contDiff_snd.comp contDiff_snd)).contDiffAt
  r := by
    intro r hr
    obtain ⟨i, rfl⟩ := List.mem_ofFn.mp hr
    exact (Complex.ofRealCLM.contDiff.comp ((contDiff_apply ℝ ℝ i).comp contDiff_fst)).contDiffAt
  eps := by
    intro e he
    obtain ⟨i, rfl⟩ := List.mem_ofFn.mp he
    exact ((contDiff_apply ℝ ℂ i).comp (contDiff_snd.comp (contDiff_snd.comp contDiff_snd))).contDiffAt

theorem looseFam_at {p : Particle1} {L : ℕ} (hr : p.rLayers.length = L) (hL : p.epsLayers.length = L) :
    (looseFam L).at (fun i => p.rLayers.getD i 0, p.k0, p.epsEnv, fun i => p.epsLayers.getD i 0) = p := by
  obtain ⟨k0, rs, es, ee⟩ := p
  simp only at hr hL
  simp only [looseFam, ParticleFam.at, Particle1.mk.injEq, true_and, and_true]
  refine ⟨List.ext_getElem (by simp [hr]) fun i h1 h2 => ?_, List.ext_getElem (by simp [hL]) fun i h1 h2 => ?_⟩ <;>
    simp [List.getD_eq_getElem?_getD, h2]

/-- Up to two radii remain in order under small changes. -/
theorem looseFam_inc {L : ℕ} (hl : L ≤ 2) {v : LooseParam L} (h : strictlyIncreasing ((looseFam L).at v).rLayers) :
    ∀ᶠ v' in 𝓝 v, strictlyIncreasing ((looseFam L).at v').rLayers := by
  interval_cases L
  · exact .of_forall fun v' => by simp [looseFam, ParticleFam.at, strictlyIncreasing]
  · exact .of_forall fun v' => by simp [looseFam, ParticleFam.at, strictlyIncreasing]
  · simp only [looseFam, ParticleFam.at, List.ofFn_succ, List.ofFn_zero, List.map_cons, List.map_nil, strictlyIncreasing, and_true] at h ⊢
    exact ((continuous_apply 0).comp continuous_fst).continuousAt.eventually_lt ((continuous_apply _).comp continuous_fst).continuousAt h

/-- The scipy backend succeeds for passive spheres and core-shell particles with exact special functions. -/
theorem scipy_run {p : Particle1} {backend : String} (w : String) (hb : backend.toLower = "scipy") {sp : BesselBackend} {n : ℕ}
    (hn : 1 ≤ n) (hex : ∀ z ≠ 0, ExactAt sp n z) (hinc : strictlyIncreasing p.rLayers) (hlen : p.epsLayers.length = p.rLayers.length)
    (h1 : 1 ≤ p.rLayers.length) (h2 : p.rLayers.length ≤ 2) (hz : ∀ l ∈ p.layers, l.1 ≠ 0 ∧ l.2 ≠ 0) (K : D1Kernel) :
    selectBessel (codeBackends sp) backend w = .ok sp ∧
      ∃ o, mieCoefficients K (codeBackends sp) p backend w (some n) = .ok o ∧ o.nMax = n := by
  have hsel : selectBessel (codeBackends sp) backend w = .ok sp := by
    unfold selectBessel
    rw [hb, if_neg (by rintro ⟨h, -⟩; exact absurd h (by decide)), if_neg (by rintro ⟨h, -⟩; exact absurd h (by decide)), if_pos rfl]
    rfl
  refine ⟨hsel, ?_⟩
  have hz := csArgs_ne hz
  obtain ⟨-, -, -, a1, a2, a3, a4⟩ := layers_ends hlen h1 h2 rfl rfl rfl rfl
  obtain ⟨n, rfl⟩ : ∃ n', n = n' + 1 := ⟨n - 1, by omega⟩
  exact shellCall_ok (.inr hb) hn hinc hlen h1 h2 hsel
    (miecoef_exact (hex _ (hz _ a1)) (hex _ (hz _ a2)) (hex _ (hz _ a3)) (hex _ (hz _ a4))) false

/-- Calls along a continuous family, as calls along an analytic one. -/
theorem loose_runs {T : Type*} [TopologicalSpace T] {Q : T → Particle1} {t0 : T} {L : ℕ} {k e0 : ℝ} (hp : PassiveAt (Q t0) k e0)
    (hr : ∀ᶠ t in 𝓝 t0, (Q t).rLayers.length = L) (hlen : ∀ᶠ t in 𝓝 t0, (Q t).epsLayers.length = L)
    (hrad : ∀ i < L, ContinuousAt (fun t => (Q t).rLayers.getD i 0) t0)
    (hk : ContinuousAt (fun t => (Q t).k0) t0) (henv : ContinuousAt (fun t => (Q t).epsEnv) t0)
    (heps : ∀ i < L, ContinuousAt (fun t => (Q t).epsLayers.getD i 0) t0) (hl : L ≤ 2)
    {backend : String} (w : String) (hb : backend.toLower = "scipy") {sp : BesselBackend} {n : ℕ} (hn : 1 ≤ n)
    (hex : ∀ z ≠ 0, ExactAt sp n z) (K : D1Kernel) :
    ∃ (φ : T → LooseParam L) (o : LooseParam L → MieOut), ContinuousAt φ t0 ∧
      PassiveAt ((looseFam L).at (φ t0)) k e0 ∧ NearRuns (looseFam L) (φ t0) n o ∧
      ∀ᶠ t in 𝓝 t0, mieCoefficients K (codeBackends sp) (Q t) backend w (some n) = .ok (o (φ t)) := by
  classical
  set φ : T → LooseParam L := fun t => (fun i => (Q t).rLayers.getD i 0, (Q t).k0, (Q t).epsEnv, fun i => (Q t).epsLayers.getD i 0) with hφ
  have hφc : ContinuousAt φ t0 := (continuousAt_pi.mpr fun i : Fin L => hrad i i.2).prodMk
    (hk.prodMk (henv.prodMk (continuousAt_pi.mpr fun i : Fin L => heps i i.2)))
  have hat : ∀ᶠ t in 𝓝 t0, (looseFam L).at (φ t) = Q t := by
    filter_upwards [hr, hlen] with t h1 h2
    exact looseFam_at h1 h2
  have h0 := hat.self_of_nhds
  have hp' : PassiveAt ((looseFam L).at (φ t0)) k e0 := by rw [h0]; exact hp
  have hF := looseFam_analytic L (φ t0)
  have hlenF : ∀ v, ((looseFam L).at v).epsLayers.length = ((looseFam L).at v).rLayers.length := by
    intro v; simp [looseFam, ParticleFam.at]
  have hrF : ∀ v, ((looseFam L).at v).rLayers.length = L := by
    intro v; simp [looseFam, ParticleFam.at]
  have hne : 1 ≤ L := by
    have := List.length_pos_iff.mpr hp'.ne
    rwa [hrF] at this
  have hrun : ∀ᶠ v in 𝓝 (φ t0), ∃ o, mieCoefficients K (codeBackends sp) ((looseFam L).at v) backend w (some (n : ℤ)) = .ok o := by
    filter_upwards [layers_ne_near hF hp', looseFam_inc hl hp'.inc] with v hv hi
    obtain ⟨-, o, ho, -⟩ := scipy_run w hb hn hex hi (hlenF v) (by rw [hrF]; exact hne) (by rw [hrF]; exact hl) hv K
    exact ⟨o, ho⟩
  have hex' : ∀ v, ∃ o, (∃ o, mieCoefficients K (codeBackends sp) ((looseFam L).at v) backend w (some (n : ℤ)) = .ok o) →
      mieCoefficients K (codeBackends sp) ((looseFam L).at v) backend w (some (n : ℤ)) = .ok o := by
    intro v
    by_cases h : ∃ o, mieCoefficients K (codeBackends sp) ((looseFam L).at v) backend w (some (n : ℤ)) = .ok o
    · exact ⟨h.choose, fun _ => h.choose_spec⟩
    · exact ⟨⟨0, 0, 0, 0, 0, 0, 0, [], [], [], none⟩, fun h' => absurd h' h⟩
  choose o ho using hex'
  have hall := hrun.mono fun v h => ho v h
  have hsel := (scipy_run w hb hn hex hp'.inc (hlenF _) (by rw [hrF]; exact hne) (by rw [hrF]; exact hl)
    (layers_ne_near hF hp').self_of_nhds K).1
  have hN : NearRuns (looseFam L) (φ t0) n o := ⟨hn, K, codeBackends sp, backend, w, false, .inr hb, hall, fun S hS z hz => by
    rw [hsel] at hS
    cases hS
    exact hex z hz⟩
  refine ⟨φ, o, hφc, hp', hN, ?_⟩
  filter_upwards [hat, hφc.eventually hall] with t h1 h3
  rw [h1] at h3
  exact h3

/-- C115: if radii, wavenumber, host and layers of a particle depend continuously on a parameter, so do its cross sections, wherever the
particle is passive and the host lossless. -/
theorem C115_continuous {T : Type*} [TopologicalSpace T] {Q : T → Particle1} {t0 : T} {L : ℕ} {k e0 : ℝ} (hp : PassiveAt (Q t0) k e0)
    (hr : ∀ᶠ t in 𝓝 t0, (Q t).rLayers.length = L) (hlen : ∀ᶠ t in 𝓝 t0, (Q t).epsLayers.length = L)
    (hrad : ∀ i < L, ContinuousAt (fun t => (Q t).rLayers.getD i 0) t0)
    (hk : ContinuousAt (fun t => (Q t).k0) t0) (henv : ContinuousAt (fun t => (Q t).epsEnv) t0)
    (heps : ∀ i < L, ContinuousAt (fun t => (Q t).epsLayers.getD i 0) t0) (hl : L ≤ 2)
    {backend : String} (w : String) (hb : backend.toLower = "scipy") {sp : BesselBackend} {n : ℕ} (hn : 1 ≤ n)
    (hex : ∀ z ≠ 0, ExactAt sp n z) (K : D1Kernel) {c : T → CrossSections}
    (hc : ∀ᶠ t in 𝓝 t0, crossSectionsOf K (codeBackends sp) (Q t) backend w (some n) = .ok (c t)) :
    ContinuousAt (fun t => (c t).csExt) t0 ∧ ContinuousAt (fun t => (c t).csSca) t0 ∧ ContinuousAt (fun t => (c t).csAbs) t0 ∧
      ContinuousAt (fun t => (c t).qExt) t0 ∧ ContinuousAt (fun t => (c t).qSca) t0 ∧ ContinuousAt (fun t => (c t).qAbs) t0 := by
  obtain ⟨φ, o, hφc, hp', hN, ho⟩ := loose_runs hp hr hlen hrad hk henv heps hl w hb hn hex K
  have key := C73_cross_sections (looseFam_analytic L (φ t0)) hp' hN
  have heq : ∀ᶠ t in 𝓝 t0, crossSections (o (φ t)).k (o (φ t)).rS (o (φ t)).a (o (φ t)).b = c t := by
    filter_upwards [hc, ho] with t h2 h3
    unfold crossSectionsOf at h2
    rw [h3] at h2
    exact Except.ok.inj h2
  obtain ⟨k1, k2, k3, k4, k5, k6⟩ := key
  have fin : ∀ g : CrossSections → ℝ, ContinuousAt (fun v => g (crossSections (o v).k (o v).rS (o v).a (o v).b)) (φ t0) →
      ContinuousAt (fun t => g (c t)) t0 := fun g hg =>
    (ContinuousAt.comp (f := φ) hg hφc).congr (heq.mono fun t h => congrArg g h)
  exact ⟨fin _ k1.continuousAt, fin _ k2.continuousAt, fin _ k3.continuousAt, fin _ k4.continuousAt, fin _ k5.continuousAt, fin _ k6.continuousAt⟩

theorem angPi_continuous (n : ℕ) : Continuous fun x => Spec.angPi n x := (Polynomial.derivative (Spec.legendre n)).continuous

theorem tauVal_continuous (n : ℕ) : Continuous fun x => tauVal x n := by
  cases n with
  | zero => exact continuous_const
  | succ n => exact ((continuous_const.mul continuous_id).mul (angPi_continuous _)).sub (continuous_const.mul (angPi_continuous _))

/-- C115: the same for amplitudes and intensities of `angular_scattering`, jointly in the parameter and the angle; the degree of polarization is
continuous wherever any light is scattered. -/
theorem C115_pattern {T : Type*} [TopologicalSpace T] {Q : T → Particle1} {t0 : T} {L : ℕ} {k e0 : ℝ} (hp : PassiveAt (Q t0) k e0)
    (hr : ∀ᶠ t in 𝓝 t0, (Q t).rLayers.length = L) (hlen : ∀ᶠ t in 𝓝 t0, (Q t).epsLayers.length = L)
    (hrad : ∀ i < L, ContinuousAt (fun t => (Q t).rLayers.getD i 0) t0)
    (hk : ContinuousAt (fun t => (Q t).k0) t0) (henv : ContinuousAt (fun t => (Q t).epsEnv) t0)
    (heps : ∀ i < L, ContinuousAt (fun t => (Q t).epsLayers.getD i 0) t0) (hl : L ≤ 2)
    {backend : String} (w : String) (hb : backend.toLower = "scipy") {sp : BesselBackend} {n : ℕ} (hn : 1 ≤ n)
    (hex : ∀ z ≠ 0, ExactAt sp n z) (K : D1Kernel) {θ : T → ℝ} (hθ : ContinuousAt θ t0) {A : T → Angular}
    (hA : ∀ᶠ t in 𝓝 t0, angularOf K (codeBackends sp) (Q t) (θ t) backend w (some n) = .ok (A t)) :
    ContinuousAt (fun t => (A t).S1) t0 ∧ ContinuousAt (fun t => (A t).S2) t0 ∧ ContinuousAt (fun t => (A t).iPer) t0 ∧
      ContinuousAt (fun t => (A t).iPar) t0 ∧ ContinuousAt (fun t => (A t).iUnpol) t0 ∧
      ((A t0).iUnpol ≠ 0 → ContinuousAt (fun t => (A t).polDegree) t0) := by
  obtain ⟨φ, o, hφc, hp', hN, ho⟩ := loose_runs hp hr hlen hrad hk henv heps hl w hb hn hex K
  have hF := looseFam_analytic L (φ t0)
  have hlA : ∀ᶠ t in 𝓝 t0, (o (φ t)).a.length = n := (hφc.eventually (hN.exact hF hp')).mono fun t ht => by rw [ht.1.lenA, ht.2]
  have hμ : ContinuousAt (fun t => Real.cos (θ t)) t0 := Real.continuous_cos.continuousAt.comp hθ
  have amp : ∀ {p q : ℝ → ℕ → ℝ}, (∀ i, Continuous fun x => p x i) → (∀ i, Continuous fun x => q x i) →
      ContinuousAt (fun t => ampFun (o (φ t)).a (o (φ t)).b (p (Real.cos (θ t))) (q (Real.cos (θ t)))) t0 := by
    intro p q hcp hcq
    refine ContinuousAt.congr (f := fun t => ∑ i ∈ Finset.range n, wgt i * ((o (φ t)).a.getD i 0 * (p (Real.cos (θ t)) (i + 1) : ℝ) +
      (o (φ t)).b.getD i 0 * (q (Real.cos (θ t)) (i + 1) : ℝ))) ?_ (hlA.mono fun t h => by simp only [ampFun, h])
    refine tendsto_finsetSum _ fun i hi => ?_
    obtain ⟨ha, hb'⟩ := C73_core_shell hF hp' hN (Finset.mem_range.mp hi)
    have ca : ContinuousAt (fun t => (o (φ t)).a.getD i 0) t0 := ContinuousAt.comp (f := φ) ha.continuousAt hφc
    have cb : ContinuousAt (fun t => (o (φ t)).b.getD i 0) t0 := ContinuousAt.comp (f := φ) hb'.continuousAt hφc
    have cp : ContinuousAt (fun t => ((p (Real.cos (θ t)) (i + 1) : ℝ) : ℂ)) t0 :=
      continuous_ofReal.continuousAt.comp ((hcp (i + 1)).continuousAt.comp hμ)
    have cq : ContinuousAt (fun t => ((q (Real.cos (θ t)) (i + 1) : ℝ) : ℂ)) t0 :=
      continuous_ofReal.continuousAt.comp ((hcq (i + 1)).continuousAt.comp hμ)
    exact continuousAt_const.mul ((ca.mul cp).add (cb.mul cq))
  obtain ⟨s1, hs1⟩ : ∃ s : T → ℂ, s = fun t => ampFun (o (φ t)).a (o (φ t)).b (fun i => Spec.angPi i (Real.cos (θ t))) (tauVal (Real.cos (θ t))) := ⟨_, rfl⟩
  obtain ⟨s2, hs2⟩ : ∃ s : T → ℂ, s = fun t => ampFun (o (φ t)).a (o (φ t)).b (tauVal (Real.cos (θ t))) fun i => Spec.angPi i (Real.cos (θ t)) := ⟨_, rfl⟩
  have c1 : ContinuousAt s1 t0 := hs1 ▸ amp (p := fun x i => Spec.angPi i x) (q := tauVal) angPi_continuous tauVal_continuous
  have c2 : ContinuousAt s2 t0 := hs2 ▸ amp (p := tauVal) (q := fun x i => Spec.angPi i x) tauVal_continuous angPi_continuous
  have hval : ∀ᶠ t in 𝓝 t0, A t = ⟨s1 t, s2 t, ‖s1 t‖ ^ 2, ‖s2 t‖ ^ 2, (‖s2 t‖ ^ 2 + ‖s1 t‖ ^ 2) / 2,
      (‖s1 t‖ ^ 2 - ‖s2 t‖ ^ 2) / (‖s1 t‖ ^ 2 + ‖s2 t‖ ^ 2)⟩ := by
    filter_upwards [hA, ho, hlA] with t h1 h2 h3
    unfold angularOf at h1
    rw [h2] at h1
    rw [bind_ok, angularScattering_eq _ _ _ (by rintro h0; rw [h0] at h3; simp at h3; omega)] at h1
    rw [hs1, hs2]
    exact (Except.ok.inj h1).symm
  have fin : ∀ {α : Type} [TopologicalSpace α] (g : Angular → α) (f : T → α), ContinuousAt f t0 → (∀ᶠ t in 𝓝 t0, f t = g (A t)) →
      ContinuousAt (fun t => g (A t)) t0 := fun g f hf h => hf.congr h
  have n1 : ContinuousAt (fun t => ‖s1 t‖ ^ 2) t0 := c1.norm.pow 2
  have n2 : ContinuousAt (fun t => ‖s2 t‖ ^ 2) t0 := c2.norm.pow 2
  refine ⟨fin Angular.S1 _ c1 (hval.mono fun t h => by rw [h]), fin Angular.S2 _ c2 (hval.mono fun t h => by rw [h]),
    fin Angular.iPer _ n1 (hval.mono fun t h => by rw [h]), fin Angular.iPar _ n2 (hval.mono fun t h => by rw [h]),
    fin Angular.iUnpol _ ((n2.add n1).div_const 2) (hval.mono fun t h => by rw [h]; rfl), fun h0 => ?_⟩
  rw [hval.self_of_nhds] at h0
  refine fin Angular.polDegree _ ((n1.sub n2).div (n1.add n2) fun h => h0 ?_) (hval.mono fun t h => by rw [h]; rfl)
  simp only [Pi.add_apply] at h
  simp only
  rw [add_comm, h, zero_div]

/-- A sphere whose radius and permittivity have a kink as functions of the parameter. -/
example : ∃ c : ℝ → CrossSections, (∀ t, crossSectionsOf codeD1 (codeBackends scipyExact) ⟨1, [3 + |t|], [((2 + |t| : ℝ) : ℂ)], 1⟩ "scipy" "recurrence"
    (some (2 : ℕ)) = .ok (c t)) ∧ ContinuousAt (fun t => (c t).csSca) 0 := by
  have hP : ∀ t : ℝ, PassiveAt ⟨1, [3 + |t|], [((2 + |t| : ℝ) : ℂ)], 1⟩ 1 1 := by
    intro t
    have : (0 : ℝ) < 2 + |t| := by positivity
    refine ⟨⟨by simp, one_pos, by simp, one_pos, by simp only [List.mem_singleton]; rintro _ rfl; positivity⟩, by simp [strictlyIncreasing], rfl, by simp, ?_, ?_⟩
    · simp only [List.mem_singleton]; rintro _ rfl; rw [ofReal_im]
    · simp only [List.mem_singleton]; rintro _ rfl; exact_mod_cast this.ne'
  have hrun : ∀ t : ℝ, ∃ c, crossSectionsOf codeD1 (codeBackends scipyExact) ⟨1, [3 + |t|], [((2 + |t| : ℝ) : ℂ)], 1⟩ "scipy" "recurrence"
      (some (2 : ℕ)) = .ok c := by
    intro t
    obtain ⟨-, o, ho, -⟩ := scipy_run (backend := "scipy") "recurrence" (by decide +kernel) (sp := scipyExact) (n := 2) (by norm_num)
      (fun z hz => ⟨hz, rfl, rfl⟩) (hP t).inc (hP t).len (by simp) (by simp) (layers_ne (hP t).host (hP t).nonzero) codeD1
    exact ⟨crossSections o.k o.rS o.a o.b, by unfold crossSectionsOf; rw [ho]; rfl⟩
  choose c hc using hrun
  refine ⟨c, hc, (C115_continuous (Q := fun t : ℝ => ⟨1, [3 + |t|], [((2 + |t| : ℝ) : ℂ)], 1⟩) (t0 := 0) (L := 1) (hP 0) (.of_forall fun _ => rfl) (.of_forall fun _ => rfl)
    ?_ continuousAt_const continuousAt_const
    ?_ (by simp) (backend := "scipy") "recurrence" (by decide +kernel) (sp := scipyExact) (n := 2) (by norm_num) (fun z hz => ⟨hz, rfl, rfl⟩) codeD1 (.of_forall hc)).2.1⟩
  · intro i hi
    obtain rfl : i = 0 := by simpa using hi
    exact (continuous_const.add continuous_abs).continuousAt
  · intro i hi
    obtain rfl : i = 0 := by simpa using hi
    exact (continuous_ofReal.comp (continuous_const.add continuous_abs)).continuousAt

theorem no_pole {p lo hi wl : ℝ} (h0 : 0 ≤ p) (h1 : 1000 * p < lo ∨ hi < 1000 * p) (hlo : 0 < lo) (hwl : wl ∈ Set.Icc lo hi) :
    (wl / 1000) ^ 2 ≠ p ^ 2 := by
  intro he
  have hw : 0 < wl := hlo.trans_le hwl.1
  have := (pow_left_inj₀ (by positivity) h0 two_ne_zero).mp he
  rcases h1 with h1 | h1
  · linarith [hwl.1]
  · linarith [hwl.2]

/-- A Sellmeier formula is continuous wherever it has no pole. -/
theorem sellmeier_continuousOn {poles : List (ℝ × ℝ)} {lo hi : ℝ} (h : ∀ p ∈ poles, 0 ≤ p.2 ∧ (1000 * p.2 < lo ∨ hi < 1000 * p.2)) (hlo : 0 < lo)
    (c0 : ℝ) : ContinuousOn (fun wl => Spec.sellmeier c0 poles (wl / 1000)) (Set.Icc lo hi) := by
  have hc : ContinuousOn (fun wl : ℝ => (wl / 1000) ^ 2) (Set.Icc lo hi) := ((continuous_id.div_const _).pow 2).continuousOn
  unfold Spec.sellmeier
  refine continuousOn_const.add ?_
  induction poles with
  | nil => exact continuousOn_const
  | cons p ps ih =>
    simp only [List.map_cons, List.sum_cons]
    refine ((continuousOn_const.mul hc).div (hc.sub continuousOn_const) fun wl hwl => ?_).add (ih fun q hq => h q (by simp [hq]))
    obtain ⟨h0, h1⟩ := h p (by simp)
    exact sub_ne_zero.mpr (no_pole h0 h1 hlo hwl)

/-- The formula files of the package: no pole lies inside the range of the file. -/
theorem formula_continuous (f : String × Int × List Char × List Char) (h : f ∈ shippedFormulas) :
    ∃ coeff lo hi, loadFormula f.2.2.1 f.2.2.2 = .ok (coeff, lo, hi) ∧
      ∃ g : ℝ → ℝ, ContinuousOn g (Set.Icc lo hi) ∧ ∀ wl ∈ Set.Icc lo hi, Dispersion.eval (.formula 1 coeff) wl = .ok (g wl : ℂ) := by
  have gen : ∀ (poles : List (ℝ × ℝ)) {lo hi : ℝ}, (∀ p ∈ poles, 0 ≤ p.2 ∧ (1000 * p.2 < lo ∨ hi < 1000 * p.2)) → 0 < lo →
      ∃ g : ℝ → ℝ, ContinuousOn g (Set.Icc lo hi) ∧
        ∀ wl ∈ Set.Icc lo hi, Dispersion.eval (.formula 1 (0 :: poles.flatMap fun p => [p.1, p.2])) wl = .ok (g wl : ℂ) := fun poles lo hi h hlo =>
    ⟨fun wl => Spec.sellmeier 0 poles (wl / 1000), sellmeier_continuousOn h hlo 0, fun wl hwl =>
      C37_sellmeier 0 poles wl fun p hp => no_pole (h p hp).1 (h p hp).2 hlo hwl⟩
  have two : ∀ {a p b q lo hi : ℝ}, 0 ≤ p → p < lo → 0 ≤ q → hi < q → 0 < lo → ∃ g : ℝ → ℝ, ContinuousOn g (Set.Icc (1000 * lo) (1000 * hi)) ∧
      ∀ wl ∈ Set.Icc (1000 * lo) (1000 * hi), Dispersion.eval (.formula 1 [0, a, p, b, q]) wl = .ok (g wl : ℂ) := by
    intro a p b q lo hi h1 h2 h3 h4 h5
    exact gen [(a, p), (b, q)] (by
      simp only [List.mem_cons, List.not_mem_nil, or_false]
      rintro _ (rfl | rfl)
      · exact ⟨h1, .inl (by simp only; linarith)⟩
      · exact ⟨h3, .inr (by simp only; linarith)⟩) (by linarith)
  have three : ∀ {a p b q c r lo hi : ℝ}, 0 ≤ p → p < lo → 0 ≤ q → q < lo → 0 ≤ r → hi < r → 0 < lo →
      ∃ g : ℝ → ℝ, ContinuousOn g (Set.Icc (1000 * lo) (1000 * hi)) ∧
      ∀ wl ∈ Set.Icc (1000 * lo) (1000 * hi), Dispersion.eval (.formula 1 [0, a, p, b, q, c, r]) wl = .ok (g wl : ℂ) := by
    intro a p b q c r lo hi h1 h2 h3 h4 h5 h6 h7
    exact gen [(a, p), (b, q), (c, r)] (by
      simp only [List.mem_cons, List.not_mem_nil, or_false]
      rintro _ (rfl | rfl | rfl)
      · exact ⟨h1, .inl (by simp only; linarith)⟩
      · exact ⟨h3, .inl (by simp only; linarith)⟩
      · exact ⟨h5, .inr (by simp only; linarith)⟩) (by linarith)
  simp only [shippedFormulas, List.mem_cons, List.not_mem_nil, or_false] at h
  rcases h with rfl | rfl | rfl | rfl | rfl
  · refine ⟨_, _, _, loadFormula_ok (lo := 200000000000000000000000000000) (hi := 5000000000000000000000000000000)
      (vals := [0, 1503975900000000000000000000000, 74028800000000000000000000000, 550691410000000000000000000000, 121652900000000000000000000000, 6592737900000000000000000000000, 20072248000000000000000000000000]) (by decide +kernel) (by decide +kernel), ?_⟩
    simp only [List.map_cons, List.map_nil, Int.cast_zero, zero_div]
    exact three (by norm_num) (by norm_num) (by norm_num) (by norm_num) (by norm_num) (by norm_num) (by norm_num)
  · refine ⟨_, _, _, loadFormula_ok (lo := 200000000000000000000000000000) (hi := 5000000000000000000000000000000)
      (vals := [0, 1431349300000000000000000000000, 72663100000000000000000000000, 650547130000000000000000000000, 119324200000000000000000000000, 5341402100000000000000000000000, 18028251000000000000000000000000]) (by decide +kernel) (by decide +kernel), ?_⟩
    simp only [List.map_cons, List.map_nil, Int.cast_zero, zero_div]
    exact three (by norm_num) (by norm_num) (by norm_num) (by norm_num) (by norm_num) (by norm_num) (by norm_num)
  · refine ⟨_, _, _, loadFormula_ok (lo := 310000000000000000000000000000) (hi := 5504000000000000000000000000000)
      (vals := [0, 3024900000000000000000000000000, 135340600000000000000000000000, 40314000000000000000000000000000000, 1239842000000000000000000000000000]) (by decide +kernel) (by decide +kernel), ?_⟩
    simp only [List.map_cons, List.map_nil, Int.cast_zero, zero_div]
    exact two (by norm_num) (by norm_num) (by norm_num) (by norm_num) (by norm_num)
  · refine ⟨_, _, _, loadFormula_ok (lo := 210000000000000000000000000000) (hi := 6700000000000000000000000000000)
      (vals := [0, 696166300000000000000000000000, 68404300000000000000000000000, 407942600000000000000000000000, 116241400000000000000000000000, 897479400000000000000000000000, 9896161000000000000000000000000]) (by decide +kernel) (by decide +kernel), ?_⟩
    simp only [List.map_cons, List.map_nil, Int.cast_zero, zero_div]
    exact three (by norm_num) (by norm_num) (by norm_num) (by norm_num) (by norm_num) (by norm_num) (by norm_num)
  · refine ⟨_, _, _, loadFormula_ok (lo := 361000000000000000000000000000) (hi := 5135000000000000000000000000000)
      (vals := [0, 1347091000000000000000000000000, 62543000000000000000000000000, 2117788000000000000000000000000, 166739000000000000000000000000, 9452943000000000000000000000000, 24320570000000000000000000000000]) (by decide +kernel) (by decide +kernel), ?_⟩
    simp only [List.map_cons, List.map_nil, Int.cast_zero, zero_div]
    exact three (by norm_num) (by norm_num) (by norm_num) (by norm_num) (by norm_num) (by norm_num) (by norm_num)

/-- C115: the permittivity of a shipped material is a continuous function of the wavelength: of every wavelength for a table, inside the range
that the object reports for a formula. -/
theorem C115_material {o : DbObj} (ho : Spec.ShippedObj ⟨id, id⟩ o) {W : Set ℝ} (hW : o.modelType = .data ∨ W ⊆ Set.Icc o.wlRange.1 o.wlRange.2) :
    ∃ f : ℝ → ℂ, (∀ wl ∈ W, o.mat.disp.eval wl = .ok (f wl)) ∧ ContinuousOn f W ∧ ∀ wl ∈ W, Spec.Passive (f wl) := by
  have hp := fun wl (h : wl ∈ W) => C114_material (C := ⟨id, id⟩) (fun _ h => h) ho wl (hW.imp_right fun h' => h' h)
  obtain ⟨files, disk, name, file, device, hf, hd, h, hn, hne, hob⟩ := ho
  have hcont : ∃ f : ℝ → ℂ, (∀ wl ∈ W, o.mat.disp.eval wl = .ok (f wl)) ∧ ContinuousOn f W := by
    simp only [dbInit, if_neg hne, shipped_find hf h hn] at hob
    obtain ⟨e', es, m, d, g1, g2, g3, g4⟩ := dbLoad_inv hob
    cases g4
    rcases List.mem_append.mp h with hm | hm
    · obtain ⟨f, hfm, rfl⟩ := List.mem_map.mp hm
      obtain ⟨e, hr, hte, hdat⟩ := hd.1 f hfm
      obtain ⟨rows, hl, -, hnil, hsorted, -⟩ := shipped_rows f hfm
      have hsp : splitWs e.type = ["tabulated".toList, "nk".toList] := by rw [hte]; decide +kernel
      rw [hr] at g1
      cases g1
      obtain ⟨r, hr', -⟩ := tableRange_extremes (l := rows.map fun r => (⟨id, id⟩ : Casts).f32 r.1) (by simpa using hnil)
      have hmod : loadModel ⟨id, id⟩ e' = .ok (.data, r, .ofTable ⟨id, id⟩ rows) := by
        simp only [loadModel, hsp, if_true, hdat, yKey, hl, hr', ofPy, Bind.bind, Except.bind]
      rw [hmod] at g2
      cases g2
      cases g3
      obtain ⟨g, hg, hg'⟩ := C115_table hnil (List.Pairwise.imp (fun h => h.ne) hsorted)
      refine ⟨g, fun wl _ => ?_, hg.continuousOn⟩
      have : rows.map (fun r => ((⟨id, id⟩ : Casts).f32 r.1, (⟨id, id⟩ : Casts).c64 r.2)) = rows := by simp
      show interp1d wl (rows.map fun r => ((⟨id, id⟩ : Casts).f32 r.1, (⟨id, id⟩ : Casts).c64 r.2)) = _
      rw [this, hg']
    · obtain ⟨f, hfm, rfl⟩ := List.mem_map.mp hm
      obtain ⟨e, hr, hte, hr0, hr1, hc⟩ := hd.2 f hfm
      obtain ⟨coeff, lo, hi, hl, g, hg, hev⟩ := formula_continuous f hfm
      have hsp : splitWs e.type = ["formula".toList, "1".toList] := by rw [hte]; decide +kernel
      have hx : ∃ x, (lineToks f.2.2.2).mapM (pyFloat parseFloat) = .ok x := by
        unfold loadFormula at hl
        rcases hx : (lineToks f.2.2.2).mapM (pyFloat parseFloat) with a | x
        · rw [hx] at hl; cases hl
        · exact ⟨x, rfl⟩
      obtain ⟨x, hx⟩ := hx
      rw [hr] at g1
      cases g1
      have hmod : loadModel ⟨id, id⟩ e' = .ok (.sellmeier, (lo, hi), .formula 1 coeff) := by
        simp only [loadModel, hsp, if_neg (show ("formula".toList : List Char) ≠ "tabulated".toList by decide), if_true,
          show pyIntTok "1".toList = some 1 by decide +kernel, hc, yKey, hx, hr0, hr1, Option.none_or, hl, ofPy, Bind.bind, Except.bind]
      rw [hmod] at g2
      cases g2
      cases g3
      rcases hW with hW | hW
      · cases hW
      · exact ⟨fun wl => (g wl : ℂ), fun wl hwl => hev wl (hW hwl), continuous_ofReal.comp_continuousOn (hg.mono hW)⟩
  obtain ⟨f, hf2, hf1⟩ := hcont
  refine ⟨f, hf2, hf1, fun wl hwl => ?_⟩
  obtain ⟨v, hv, hv'⟩ := hp wl hwl
  rw [hf2 wl hwl] at hv
  cases hv
  exact hv'

namespace Spec

/-- A material of a layer: a passive constant, or a shipped material; a Sellmeier formula only for wavelengths inside its range. -/
def UsableOn (W : Set ℝ) : Material → Prop
  | .const e _ => Passive e
  | .disp d => ∃ o, ShippedObj ⟨id, id⟩ o ∧ o.mat.disp = d ∧ (o.modelType = .data ∨ W ⊆ Set.Icc o.wlRange.1 o.wlRange.2)

end Spec

theorem usable_fun {M : Spec.Material} {W : Set ℝ} (h : Spec.UsableOn W M) :
    ∃ f : ℝ → ℂ, (∀ wl ∈ W, M.at ⟨id, id⟩ wl = .ok (f wl)) ∧ ContinuousOn f W ∧ ∀ wl ∈ W, Spec.Passive (f wl) := by
  cases M with
  | const e ls => exact ⟨fun _ => e, fun _ _ => rfl, continuousOn_const, fun _ _ => h⟩
  | disp d =>
    obtain ⟨o, ho, rfl, ht⟩ := h
    obtain ⟨f, h1, h2, h3⟩ := C115_material ho ht
    refine ⟨f, fun wl hwl => ?_, h2, h3⟩
    simp only [Spec.Material.at, id, h1 wl hwl]
    rfl

/-- Particles of such materials are passive, with continuous permittivities. -/
theorem spectrum_facts {Ms : List Spec.Material} {rs : List ℝ} {e0 : ℝ} {S : Set ℝ} (he0 : 0 < e0) (hS : ∀ κ ∈ S, 0 < κ)
    (hM : ∀ M ∈ Ms, Spec.UsableOn ((fun κ => 2 * Real.pi / κ) '' S) M) {Q : ℝ → Particle1}
    (hQ : ∀ κ ∈ S, (Q κ).k0 = κ ∧ (Q κ).rLayers = rs ∧ (Q κ).epsEnv = e0 ∧
      List.Forall₂ (fun M e => M.at ⟨id, id⟩ (2 * Real.pi / κ) = .ok e) Ms (Q κ).epsLayers)
    (hinc : strictlyIncreasing rs) (hpos : ∀ r ∈ rs, 0 < r) (hne : rs ≠ []) (hlen : Ms.length = rs.length) :
    (∀ κ ∈ S, PassiveAt (Q κ) κ e0) ∧ ∀ i < rs.length, ContinuousOn (fun κ => (Q κ).epsLayers.getD i 0) S := by
  have hval : ∀ κ ∈ S, ∀ i (hi : i < Ms.length) (f : ℝ → ℂ), (∀ wl ∈ (fun κ => 2 * Real.pi / κ) '' S, (Ms[i]).at ⟨id, id⟩ wl = .ok (f wl)) →
      (Q κ).epsLayers.getD i 0 = f (2 * Real.pi / κ) := by
    intro κ hκ i hi f hf
    have hF := (hQ κ hκ).2.2.2
    have := hF.get (i := i) hi (hF.length_eq ▸ hi)
    simp only [List.get_eq_getElem, hf _ ⟨κ, hκ, rfl⟩, Except.ok.injEq] at this
    rw [List.getD_eq_getElem?_getD, List.getElem?_eq_getElem (hF.length_eq ▸ hi), Option.getD_some, this]
  have hP : ∀ κ ∈ S, PassiveAt (Q κ) κ e0 := by
    intro κ hκ
    obtain ⟨h1, h2, h3, h4⟩ := hQ κ hκ
    have hpass : ∀ e ∈ (Q κ).epsLayers, Spec.Passive e := by
      intro e he
      obtain ⟨i, hi, rfl⟩ := List.getElem_of_mem he
      have hi' : i < Ms.length := h4.length_eq ▸ hi
      obtain ⟨f, hf, -, hfp⟩ := usable_fun (hM _ (List.getElem_mem hi'))
      have := hval κ hκ i hi' f hf
      rw [List.getD_eq_getElem?_getD, List.getElem?_eq_getElem hi, Option.getD_some] at this
      rw [this]
      exact hfp _ ⟨κ, hκ, rfl⟩
    exact ⟨⟨h1, hS κ hκ, h3, he0, by rw [h2]; exact hpos⟩, by rw [h2]; exact hinc, by rw [h2, ← h4.length_eq, hlen], by rw [h2]; exact hne,
      fun e he => (hpass e he).im_nonneg, fun e he => (hpass e he).ne_zero⟩
  refine ⟨hP, fun i hi => ?_⟩
  have hi' : i < Ms.length := by omega
  obtain ⟨f, hf, hf1, -⟩ := usable_fun (hM _ (List.getElem_mem hi'))
  have hwl : ContinuousOn (fun κ => 2 * Real.pi / κ) S := continuousOn_const.div continuousOn_id fun κ hκ => (hS κ hκ).ne'
  exact (hf1.comp hwl fun κ hκ => ⟨κ, hκ, rfl⟩).congr fun κ hκ => hval κ hκ i hi' f hf

/-- C115: the cross sections of a sphere or core-shell particle of shipped materials in a lossless host exist at every wavenumber of a set
and are continuous functions on it, if the formulas among the materials are used inside their range (scipy backend, exact special functions
and numbers). For tables and constants the set may be all positive wavenumbers. -/
theorem C115_spectrum {Ms : List Spec.Material} {rs : List ℝ} {e0 : ℝ} {S : Set ℝ} (he0 : 0 < e0) (hS : ∀ κ ∈ S, 0 < κ)
    (hM : ∀ M ∈ Ms, Spec.UsableOn ((fun κ => 2 * Real.pi / κ) '' S) M) {Q : ℝ → Particle1}
    (hQ : ∀ κ ∈ S, (Q κ).k0 = κ ∧ (Q κ).rLayers = rs ∧ (Q κ).epsEnv = e0 ∧
      List.Forall₂ (fun M e => M.at ⟨id, id⟩ (2 * Real.pi / κ) = .ok e) Ms (Q κ).epsLayers)
    (hinc : strictlyIncreasing rs) (hpos : ∀ r ∈ rs, 0 < r) (hne : rs ≠ []) (hl : rs.length ≤ 2) (hlen : Ms.length = rs.length)
    {backend : String} (w : String) (hb : backend.toLower = "scipy") {sp : BesselBackend} {n : ℕ} (hn : 1 ≤ n)
    (hex : ∀ z ≠ 0, ExactAt sp n z) (K : D1Kernel) :
    ∃ c : ℝ → CrossSections, (∀ κ ∈ S, crossSectionsOf K (codeBackends sp) (Q κ) backend w (some n) = .ok (c κ)) ∧
      ContinuousOn (fun κ => (c κ).csExt) S ∧ ContinuousOn (fun κ => (c κ).csSca) S ∧ ContinuousOn (fun κ => (c κ).csAbs) S ∧
      ContinuousOn (fun κ => (c κ).qExt) S ∧ ContinuousOn (fun κ => (c κ).qSca) S ∧ ContinuousOn (fun κ => (c κ).qAbs) S := by
  classical
  obtain ⟨hP, heps⟩ := spectrum_facts he0 hS hM hQ hinc hpos hne hlen
  have hex1 : ∀ κ, ∃ c, κ ∈ S → crossSectionsOf K (codeBackends sp) (Q κ) backend w (some n) = .ok c := by
    intro κ
    by_cases hκ : κ ∈ S
    · have h := hP κ hκ
      have hr := (hQ κ hκ).2.1
      obtain ⟨-, o, ho, -⟩ := scipy_run w hb hn hex h.inc h.len (by rw [hr]; exact List.length_pos_iff.mpr hne) (by rw [hr]; exact hl)
        (layers_ne h.host h.nonzero) K
      exact ⟨crossSections o.k o.rS o.a o.b, fun _ => by unfold crossSectionsOf; rw [ho]; rfl⟩
    · exact ⟨crossSections 0 0 [] [], fun h => absurd h hκ⟩
  choose c hc using hex1
  have main := fun κ0 : S => C115_continuous (T := S) (Q := fun κ => Q κ) (t0 := κ0) (L := rs.length) (hP κ0 κ0.2)
    (.of_forall fun κ => by rw [(hQ κ κ.2).2.1]) (.of_forall fun κ => by rw [← (hQ κ κ.2).2.2.2.length_eq, hlen])
    (fun i _ => (continuousAt_const (y := rs.getD i 0)).congr (.of_forall fun κ => by simp only [(hQ κ κ.2).2.1]))
    ((continuous_ofReal.comp continuous_subtype_val).continuousAt.congr (.of_forall fun κ => (hQ κ κ.2).1.symm))
    (continuousAt_const.congr (.of_forall fun κ => (hQ κ κ.2).2.2.1.symm))
    (fun i hi => (continuousOn_iff_continuous_domRestrict.mp (heps i hi)).continuousAt)
    hl w hb hn hex K (.of_forall fun κ => hc κ κ.2)
  have on : ∀ {g : ℝ → ℝ}, (∀ κ : S, ContinuousAt (fun κ : S => g κ) κ) → ContinuousOn g S := fun h =>
    continuousOn_iff_continuous_domRestrict.mpr (continuous_iff_continuousAt.mpr h)
  exact ⟨c, fun κ h => hc κ h, on fun κ => (main κ).1, on fun κ => (main κ).2.1, on fun κ => (main κ).2.2.1, on fun κ => (main κ).2.2.2.1,
    on fun κ => (main κ).2.2.2.2.1, on fun κ => (main κ).2.2.2.2.2⟩

/-- C115: the same for the angular pattern, jointly in wavenumber and angle. -/
theorem C115_spectrum_pattern {Ms : List Spec.Material} {rs : List ℝ} {e0 : ℝ} {S : Set ℝ} (he0 : 0 < e0) (hS : ∀ κ ∈ S, 0 < κ)
    (hM : ∀ M ∈ Ms, Spec.UsableOn ((fun κ => 2 * Real.pi / κ) '' S) M) {Q : ℝ → Particle1}
    (hQ : ∀ κ ∈ S, (Q κ).k0 = κ ∧ (Q κ).rLayers = rs ∧ (Q κ).epsEnv = e0 ∧
      List.Forall₂ (fun M e => M.at ⟨id, id⟩ (2 * Real.pi / κ) = .ok e) Ms (Q κ).epsLayers)
    (hinc : strictlyIncreasing rs) (hpos : ∀ r ∈ rs, 0 < r) (hne : rs ≠ []) (hl : rs.length ≤ 2) (hlen : Ms.length = rs.length)
    {backend : String} (w : String) (hb : backend.toLower = "scipy") {sp : BesselBackend} {n : ℕ} (hn : 1 ≤ n)
    (hex : ∀ z ≠ 0, ExactAt sp n z) (K : D1Kernel) :
    ∃ A : ℝ → ℝ → Angular, (∀ κ ∈ S, ∀ θ, angularOf K (codeBackends sp) (Q κ) θ backend w (some n) = .ok (A κ θ)) ∧
      ContinuousOn (fun x : ℝ × ℝ => (A x.1 x.2).S1) (S ×ˢ Set.univ) ∧ ContinuousOn (fun x : ℝ × ℝ => (A x.1 x.2).S2) (S ×ˢ Set.univ) ∧
      ContinuousOn (fun x : ℝ × ℝ => (A x.1 x.2).iPer) (S ×ˢ Set.univ) ∧ ContinuousOn (fun x : ℝ × ℝ => (A x.1 x.2).iPar) (S ×ˢ Set.univ) ∧
      ContinuousOn (fun x : ℝ × ℝ => (A x.1 x.2).iUnpol) (S ×ˢ Set.univ) := by
  classical
  obtain ⟨hP, heps⟩ := spectrum_facts he0 hS hM hQ hinc hpos hne hlen
  have hex1 : ∀ κ θ, ∃ A, κ ∈ S → angularOf K (codeBackends sp) (Q κ) θ backend w (some n) = .ok A := by
    intro κ θ
    by_cases hκ : κ ∈ S
    · have h := hP κ hκ
      have hr := (hQ κ hκ).2.1
      obtain ⟨hsel, o, ho, hoN⟩ := scipy_run w hb hn hex h.inc h.len (by rw [hr]; exact List.length_pos_iff.mpr hne) (by rw [hr]; exact hl)
        (layers_ne h.host h.nonzero) K
      have hpe : backend.toLower ≠ "pena" := by rw [hb]; decide
      have hz := layers_ne h.host h.nonzero
      have hrun : ExactRun (Q κ) o := ExactRun.of_coreShell hpe ho (by rw [hoN]; exact_mod_cast hn)
        (fun S' hS' z hz' => by
          rw [hsel] at hS'
          cases hS'
          rw [hoN]
          exact hex z (csArgs_ne hz z hz')) hz
        (fun q i _ _ => (C68_solvable h.host h.inc h.len h.ne h.passive h.nonzero q i).exists)
      have hne' : o.a ≠ [] := by
        intro h0
        have := hrun.lenA
        rw [h0, hoN] at this
        simp at this
        omega
      exact ⟨_, fun _ => by unfold angularOf; rw [ho, bind_ok, angularScattering_eq _ _ _ hne']⟩
    · exact ⟨⟨0, 0, 0, 0, 0, 0⟩, fun h => absurd h hκ⟩
  choose A hA using hex1
  have fst : Continuous fun x : (S ×ˢ Set.univ : Set (ℝ × ℝ)) => x.1.1 := continuous_fst.comp continuous_subtype_val
  have main := fun x0 : (S ×ˢ Set.univ : Set (ℝ × ℝ)) => C115_pattern (Q := fun x : (S ×ˢ Set.univ : Set (ℝ × ℝ)) => Q x.1.1) (t0 := x0) (L := rs.length)
    (hP x0.1.1 x0.2.1) (.of_forall fun x => by rw [(hQ x.1.1 x.2.1).2.1]) (.of_forall fun x => by rw [← (hQ x.1.1 x.2.1).2.2.2.length_eq, hlen])
    (fun i _ => (continuousAt_const (y := rs.getD i 0)).congr (.of_forall fun x => by simp only [(hQ x.1.1 x.2.1).2.1]))
    ((continuous_ofReal.comp fst).continuousAt.congr (.of_forall fun x => (hQ x.1.1 x.2.1).1.symm))
    (continuousAt_const.congr (.of_forall fun x => (hQ x.1.1 x.2.1).2.2.1.symm))
    (fun i hi => ((heps i hi).comp_continuous fst fun x => x.2.1).continuousAt)
    hl w hb hn hex K (θ := fun x => x.1.2) (continuous_snd.comp continuous_subtype_val).continuousAt (.of_forall fun x => hA x.1.1 x.1.2 x.2.1)
  have on : ∀ {α : Type} [TopologicalSpace α] {g : ℝ × ℝ → α}, (∀ x : (S ×ˢ Set.univ : Set (ℝ × ℝ)), ContinuousAt (fun x : (S ×ˢ Set.univ : Set (ℝ × ℝ)) => g x) x) →
      ContinuousOn g (S ×ˢ Set.univ) := fun h => continuousOn_iff_continuous_domRestrict.mpr (continuous_iff_continuousAt.mpr h)
  exact ⟨A, fun κ h θ => hA κ θ h, on fun x => (main x).1, on fun x => (main x).2.1, on fun x => (main x).2.2.1, on fun x => (main x).2.2.2.1,
    on fun x => (main x).2.2.2.2.1⟩

/-- A silicon core with a shell of index 2 in vacuum: the extinction is a continuous function of all positive wavenumbers. -/
example : ∃ (o : DbObj) (v : ℝ → ℂ), Spec.ShippedObj ⟨id, id⟩ o ∧ (∀ wl, o.mat.disp.eval wl = .ok (v wl)) ∧
    ∃ c : ℝ → CrossSections, (∀ κ > (0 : ℝ), crossSectionsOf codeD1 (codeBackends scipyExact)
        ⟨(κ : ℂ), [50, 80], [v (2 * Real.pi / κ), 2 ^ 2], 1⟩ "scipy" "recurrence" (some (3 : ℕ)) = .ok (c κ)) ∧
      ContinuousOn (fun κ => (c κ).csExt) (Set.Ioi 0) := by
  obtain ⟨o, ho, ht⟩ := silicon_shipped
  obtain ⟨v, hv, -⟩ := C115_material ho (W := Set.univ) (.inl ht)
  obtain ⟨c, h1, h2, -⟩ := C115_spectrum (Ms := [.disp o.mat.disp, .const (2 ^ 2) []]) (rs := [50, 80]) (e0 := 1) (S := Set.Ioi 0) one_pos (fun _ h => h)
    (by
      intro M hM
      simp only [List.mem_cons, List.not_mem_nil, or_false] at hM
      rcases hM with rfl | rfl
      · exact ⟨o, ho, rfl, .inl ht⟩
      · exact .inr (by norm_num [pow_two]))
    (Q := fun κ => ⟨(κ : ℂ), [50, 80], [v (2 * Real.pi / κ), 2 ^ 2], 1⟩)
    (fun κ _ => ⟨rfl, rfl, by simp, .cons (by simp only [Spec.Material.at, id, hv _ trivial]; rfl) (.cons rfl .nil)⟩)
    (by norm_num [strictlyIncreasing]) (by simp) (by simp) (by simp) rfl (backend := "scipy") "recurrence" (by decide +kernel) (sp := scipyExact)
    (n := 3) (by norm_num) (fun z hz => ⟨hz, rfl, rfl⟩) codeD1
  exact ⟨o, v, ho, fun wl => hv wl trivial, c, h1, h2⟩

/-- Glass of the package is a formula for 210 to 6700 nm. -/
theorem glass_shipped : ∃ o, Spec.ShippedObj ⟨id, id⟩ o ∧ o.modelType = .sellmeier ∧ o.wlRange = (210, 6700) := by
  have hmem : "SiO2_Malitson1965.yml" ∈ Spec.shippedNames := by rw [shippedNames_eq]; decide +kernel
  obtain ⟨o, h, -⟩ := C112_shipped ⟨id, id⟩ Spec.shippedNames shippedDisk (List.Perm.refl _) shippedDisk_ok "SiO2" "SiO2_Malitson1965.yml" "cpu"
    hmem (by decide +kernel) (by decide)
  refine ⟨o, ⟨Spec.shippedNames, shippedDisk, "SiO2", _, "cpu", List.Perm.refl _, shippedDisk_ok, hmem, by decide +kernel,
    by decide, by rw [h]⟩, ?_⟩
  have hm : ("SiO2_Malitson1965.yml", (1 : Int), "0.21 6.7".toList,
      "0 0.6961663 0.0684043 0.4079426 0.1162414 0.8974794 9.896161".toList) ∈ shippedFormulas := by
    simp only [shippedFormulas, List.mem_cons]
    exact .inr (.inr (.inr (.inl (by decide +kernel))))
  obtain ⟨e, hr, ht, hr0, hr1, hc⟩ := shippedDisk_ok.2 _ hm
  have hl := loadFormula_ok (range := "0.21 6.7".toList) (coefficients := "0 0.6961663 0.0684043 0.4079426 0.1162414 0.8974794 9.896161".toList)
    (lo := 210000000000000000000000000000) (hi := 6700000000000000000000000000000)
    (vals := [0, 696166300000000000000000000000, 68404300000000000000000000000, 407942600000000000000000000000, 116241400000000000000000000000, 897479400000000000000000000000, 9896161000000000000000000000000]) (by decide +kernel) (by decide +kernel)
  simp only [dbInit, if_neg (show ("SiO2" : String) ≠ "" by decide), shipped_find (List.Perm.refl _) hmem (show pyLower "SiO2" = _ by decide +kernel)] at h
  obtain ⟨e', es, m, d, g1, g2, -, g4⟩ := dbLoad_inv (congrArg Prod.fst h)
  rw [hr] at g1
  cases g1
  cases g4
  simp only [loadModel, show splitWs e.type = ["formula".toList, "1".toList] by rw [ht]; decide +kernel,
    if_neg (show ("formula".toList : List Char) ≠ "tabulated".toList by decide), if_true,
    show pyIntTok "1".toList = some 1 by decide +kernel, hc, yKey, hr0, hr1, Option.none_or] at g2
  obtain ⟨_, k1, g2⟩ := bindM_inv g2
  obtain ⟨_, -, g2⟩ := bindM_inv g2
  obtain ⟨_, k3, g2⟩ := bindM_inv g2
  obtain ⟨_, k4, g2⟩ := bindM_inv g2
  cases k1
  cases k3
  rw [hl] at k4
  cases k4
  cases g2
  exact ⟨rfl, by norm_num⟩

/-- Permittivity and layers of a glass sphere in vacuum between 400 and 700 nm. -/
theorem glass_band : ∃ (o : DbObj) (v : ℝ → ℂ), Spec.ShippedObj ⟨id, id⟩ o ∧ (∀ wl ∈ Set.Icc 400 700, o.mat.disp.eval wl = .ok (v wl)) ∧
    (∀ κ ∈ Set.Icc (2 * Real.pi / 700) (2 * Real.pi / 400), 0 < κ) ∧
    (∀ M ∈ [Spec.Material.disp o.mat.disp], Spec.UsableOn ((fun κ => 2 * Real.pi / κ) '' Set.Icc (2 * Real.pi / 700) (2 * Real.pi / 400)) M) ∧
    ∀ κ ∈ Set.Icc (2 * Real.pi / 700) (2 * Real.pi / 400), (⟨(κ : ℂ), [50], [v (2 * Real.pi / κ)], 1⟩ : Particle1).k0 = κ ∧
      (⟨(κ : ℂ), [50], [v (2 * Real.pi / κ)], 1⟩ : Particle1).rLayers = [50] ∧
      (⟨(κ : ℂ), [50], [v (2 * Real.pi / κ)], 1⟩ : Particle1).epsEnv = (1 : ℝ) ∧ List.Forall₂ (fun (M : Spec.Material) e => M.at ⟨id, id⟩ (2 * Real.pi / κ) = .ok e)
        [.disp o.mat.disp] (⟨(κ : ℂ), [50], [v (2 * Real.pi / κ)], 1⟩ : Particle1).epsLayers := by
  obtain ⟨o, ho, -, hr⟩ := glass_shipped
  have hpi := Real.pi_pos
  have hW : (Set.Icc 400 700 : Set ℝ) ⊆ Set.Icc o.wlRange.1 o.wlRange.2 := by
    rw [hr]
    exact Set.Icc_subset_Icc (by norm_num) (by norm_num)
  have hS : ∀ κ ∈ Set.Icc (2 * Real.pi / 700) (2 * Real.pi / 400), 0 < κ ∧ 2 * Real.pi / κ ∈ Set.Icc (400 : ℝ) 700 := by
    intro κ hκ
    have h0 : 0 < κ := lt_of_lt_of_le (by positivity) hκ.1
    have h1 := hκ.1
    have h2 := hκ.2
    rw [div_le_iff₀ (by norm_num)] at h1
    rw [le_div_iff₀ (by norm_num)] at h2
    exact ⟨h0, by rw [le_div_iff₀ h0]; linarith, by rw [div_le_iff₀ h0]; linarith⟩
  obtain ⟨v, hv, -⟩ := C115_material ho (.inr hW)
  have hM : ∀ M ∈ [Spec.Material.disp o.mat.disp], Spec.UsableOn ((fun κ => 2 * Real.pi / κ) '' Set.Icc (2 * Real.pi / 700) (2 * Real.pi / 400)) M := by
    intro M hM
    rw [List.mem_singleton] at hM
    subst hM
    refine ⟨o, ho, rfl, .inr ?_⟩
    rintro _ ⟨κ, hκ, rfl⟩
    exact hW (hS κ hκ).2
  exact ⟨o, v, ho, hv, fun κ hκ => (hS κ hκ).1, hM,
    fun κ hκ => ⟨rfl, rfl, by simp, .cons (by simp only [Spec.Material.at, id, hv _ (hS κ hκ).2]; rfl) .nil⟩⟩

/-- A glass sphere in vacuum between 400 and 700 nm. -/
example : ∃ (o : DbObj) (v : ℝ → ℂ), Spec.ShippedObj ⟨id, id⟩ o ∧ (∀ wl ∈ Set.Icc 400 700, o.mat.disp.eval wl = .ok (v wl)) ∧
    (∃ c : ℝ → CrossSections, (∀ κ ∈ Set.Icc (2 * Real.pi / 700) (2 * Real.pi / 400), crossSectionsOf codeD1 (codeBackends scipyExact)
        ⟨(κ : ℂ), [50], [v (2 * Real.pi / κ)], 1⟩ "scipy" "recurrence" (some (3 : ℕ)) = .ok (c κ)) ∧
      ContinuousOn (fun κ => (c κ).csSca) (Set.Icc (2 * Real.pi / 700) (2 * Real.pi / 400))) ∧
    ∃ A : ℝ → ℝ → Angular, (∀ κ ∈ Set.Icc (2 * Real.pi / 700) (2 * Real.pi / 400), ∀ θ, angularOf codeD1 (codeBackends scipyExact)
        ⟨(κ : ℂ), [50], [v (2 * Real.pi / κ)], 1⟩ θ "scipy" "recurrence" (some (3 : ℕ)) = .ok (A κ θ)) ∧
      ContinuousOn (fun x : ℝ × ℝ => (A x.1 x.2).iUnpol) (Set.Icc (2 * Real.pi / 700) (2 * Real.pi / 400) ×ˢ Set.univ) := by
  obtain ⟨o, v, ho, hv, hS, hM, hQ⟩ := glass_band
  obtain ⟨c, h1, -, h2, -⟩ := C115_spectrum one_pos hS hM (Q := fun κ => ⟨(κ : ℂ), [50], [v (2 * Real.pi / κ)], 1⟩) hQ
    (by simp [strictlyIncreasing]) (by simp) (by simp) (by simp) rfl (backend := "scipy") "recurrence" (by decide +kernel) (sp := scipyExact)
    (n := 3) (by norm_num) (fun z hz => ⟨hz, rfl, rfl⟩) codeD1
  obtain ⟨A, g1, -, -, -, -, g2⟩ := C115_spectrum_pattern one_pos hS hM
    (Q := fun κ => ⟨(κ : ℂ), [50], [v (2 * Real.pi / κ)], 1⟩) hQ
    (by simp [strictlyIncreasing]) (by simp) (by simp) (by simp) rfl (backend := "scipy") "recurrence" (by decide +kernel) (sp := scipyExact)
    (n := 3) (by norm_num) (fun z hz => ⟨hz, rfl, rfl⟩) codeD1
  exact ⟨o, v, ho, hv, ⟨c, h1, h2⟩, A, g1, g2⟩

end MieDiff
