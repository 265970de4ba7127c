import Verif.Proofs.FluxStrict
import Verif.Props.Sensitivity
import Verif.Proofs.GradLimit

/-!
# C99: absorption vanishes only for lossless particles
-/

namespace MieDiff

open Spec Complex Filter Topology

section
variable {p : Particle1} {k0 e0 s : ℝ} {q : Pol} {i : ℕ} {a : ℂ}

theorem radiiUp_layers (K : ℝ) (hK : 0 < K) (ne : ℂ) :
    ∀ (rs : List ℝ) (es : List ℂ) (r : ℝ), strictlyIncreasing (r :: rs) → RadiiUp (K * r) (layersOf K rs es ne) := by
  intro rs
  induction rs with
  | nil => intro es r _; cases es <;> simp [layersOf, RadiiUp]
  | cons r' rs ih =>
    intro es r h
    cases es with
    | nil => simp [layersOf, RadiiUp]
    | cons e es => exact ⟨K * r', by push_cast; rfl, mul_lt_mul_of_pos_left h.1 hK, ih es r' h.2⟩

/-- A solution of the interface problem of a particle all of whose layers have loss or none (`s = 1`), gain or none (`s = -1`), and at
least one has. -/
theorem layers_energy_lt (hp : ParticleAt p k0 e0) (hs : ∀ e ∈ p.epsLayers, 0 ≤ s * e.im) (hlt : ∃ e ∈ p.epsLayers, 0 < s * e.im)
    (hi : 1 ≤ i) (h : Solves q i p.layers a) : s * (‖a‖ ^ 2 - a.re) < 0 := by
  have hK := realHost_k hp.host
  have hKpos : 0 < k0 * Real.sqrt e0 := mul_pos hp.host.k0_pos (Real.sqrt_pos.2 hp.host.env_pos)
  have him : ∀ e : ℂ, s * ((csqrt e / csqrt p.epsEnv) ^ 2).im = s * e.im / e0 := by
    intro e
    rw [div_pow, csqrt_sq, csqrt_sq, hp.host.env_eq, div_ofReal_im, ← mul_div_assoc]
  refine Solves.energy_lt hi ?_ (fun l hl => ⟨(layers_ne hp.host hp.nonzero l hl).1, ?_⟩) ?_ h
  · unfold Particle1.layers
    rw [hK]
    have := radiiUp_layers (k0 * Real.sqrt e0) hKpos (csqrt p.epsEnv) p.rLayers p.epsLayers 0 ?_
    · rwa [mul_zero] at this
    · cases hr : p.rLayers with
      | nil => exact absurd hr hp.ne
      | cons r rs => exact ⟨hp.host.radii r (by rw [hr]; simp), by rw [← hr]; exact hp.inc⟩
  · obtain ⟨e, he, h1⟩ := List.mem_map.1 (List.of_mem_zip hl).1
    rw [← h1, him]
    exact div_nonneg (hs e he) hp.host.env_pos.le
  · obtain ⟨e, he, h1⟩ := hlt
    obtain ⟨j, hj, rfl⟩ := List.getElem_of_mem he
    have hj' : j < p.rLayers.length := by rw [← hp.len]; exact hj
    have hjl : j < p.layers.length := by simp [Particle1.layers, layersOf, hj, hj']
    refine ⟨p.layers[j], List.getElem_mem _, ?_⟩
    have : (p.layers[j]).1 = csqrt p.epsLayers[j] / csqrt p.epsEnv := by
      simp [Particle1.layers, layersOf]
    rw [this, him]
    exact div_pos h1 hp.host.env_pos

end

/-! ## C99 -/

section
variable {p : Particle1} {k0 e0 : ℝ} {o : MieOut}

theorem run_energy_lt {s : ℝ} (hp : ParticleAt p k0 e0) (run : ExactRun p o) (hs : ∀ e ∈ p.epsLayers, 0 ≤ s * e.im)
    (hlt : ∃ e ∈ p.epsLayers, 0 < s * e.im) : ∀ z, z ∈ o.a ∨ z ∈ o.b → s * (‖z‖ ^ 2 - z.re) < 0 := by
  rintro z (hz | hz)
  · obtain ⟨j, hj, rfl⟩ := List.getElem_of_mem hz
    have hl := run.lenA
    obtain ⟨a, b, e1, _, sa, _⟩ := run.coef (j + 1) (by omega) (by omega)
    simp only [Nat.add_sub_cancel, List.getElem?_eq_getElem hj, Option.some.injEq] at e1
    rw [e1]
    exact layers_energy_lt hp hs hlt (by omega) sa
  · obtain ⟨j, hj, rfl⟩ := List.getElem_of_mem hz
    have hl := run.lenB
    obtain ⟨a, b, _, e1, _, sb⟩ := run.coef (j + 1) (by omega) (by omega)
    simp only [Nat.add_sub_cancel, List.getElem?_eq_getElem hj, Option.some.injEq] at e1
    rw [e1]
    exact layers_energy_lt hp hs hlt (by omega) sb

theorem absMp_lt {k s : ℝ} (hk : 0 < k) {v : List ℂ} (h : ∀ z ∈ v, s * (‖z‖ ^ 2 - z.re) < 0) :
    ∀ x ∈ v.mapIdx (fun (i : ℕ) z => 2 * Real.pi / k ^ 2 * (2 * ((i : ℝ) + 1) + 1) * (z.re - ‖z‖ ^ 2)), 0 < s * x := by
  intro x hx
  obtain ⟨i, hi, rfl⟩ := List.mem_mapIdx.1 hx
  have h1 := h v[i] (List.getElem_mem _)
  have := Real.pi_pos
  have h2 : 0 < 2 * Real.pi / k ^ 2 * (2 * ((i : ℝ) + 1) + 1) := by positivity
  have := mul_pos h2 (by linarith : 0 < s * (v[i].re - ‖v[i]‖ ^ 2))
  linarith

theorem cross_energy_lt {s : ℝ} (hp : ParticleAt p k0 e0) (run : ExactRun p o) (hs : ∀ e ∈ p.epsLayers, 0 ≤ s * e.im)
    (hlt : ∃ e ∈ p.epsLayers, 0 < s * e.im) :
    (∀ x ∈ (crossSections o.k o.rS o.a o.b).csAbsMp.1, 0 < s * x) ∧ (∀ x ∈ (crossSections o.k o.rS o.a o.b).csAbsMp.2, 0 < s * x) ∧
    (1 ≤ o.nMax → 0 < s * (crossSections o.k o.rS o.a o.b).csAbs) := by
  have he := run_energy_lt hp run hs hlt
  have hKpos : 0 < k0 * Real.sqrt e0 := mul_pos hp.host.k0_pos (Real.sqrt_pos.2 hp.host.env_pos)
  rw [run.k, realHost_k hp.host]
  have hm := (C05_multipoles (k0 * Real.sqrt e0) o.rS o.a o.b).2.2
  have ha : ∀ x ∈ (crossSections ((k0 * Real.sqrt e0 : ℝ) : ℂ) o.rS o.a o.b).csAbsMp.1, 0 < s * x := by
    rw [hm]; exact absMp_lt hKpos fun z hz => he z (Or.inl hz)
  have hb : ∀ x ∈ (crossSections ((k0 * Real.sqrt e0 : ℝ) : ℂ) o.rS o.a o.b).csAbsMp.2, 0 < s * x := by
    rw [hm]; exact absMp_lt hKpos fun z hz => he z (Or.inr hz)
  refine ⟨ha, hb, fun hn => ?_⟩
  rw [(C05_totals _ _ _ _).2.2, mul_add]
  have hsum : ∀ l : List ℝ, s * l.sum = (l.map (s * ·)).sum := fun l => by rw [List.sum_map_mul_left, List.map_id']
  rw [hsum, hsum]
  refine add_pos_of_pos_of_nonneg ?_ (List.sum_nonneg ?_)
  · refine List.sum_pos _ ?_ ?_
    · intro x hx
      obtain ⟨y, hy, rfl⟩ := List.mem_map.1 hx
      exact ha y hy
    · have hl := run.lenA
      rw [hm]
      intro h0
      have := congrArg List.length h0
      simp only [List.length_map, List.length_mapIdx, List.length_nil] at this
      omega
  · intro x hx
    obtain ⟨y, hy, rfl⟩ := List.mem_map.1 hx
    exact (hb y hy).le

/-- C99: if a particle without gain has a lossy layer anywhere, every multipole absorbs: `|a_n|^2 < Re a_n`, `|b_n|^2 < Re b_n` at every
order.  Any backend, any number of layers. -/
theorem C99_coefficients (hp : PassiveAt p k0 e0) (run : ExactRun p o) (hlossy : ∃ e ∈ p.epsLayers, 0 < e.im) :
    ∀ z, z ∈ o.a ∨ z ∈ o.b → ‖z‖ ^ 2 < z.re ∧ ‖z - 1 / 2‖ < 1 / 2 ∧ 0 < ‖z‖ ∧ ‖z‖ < 1 := by
  intro z hz
  have h := run_energy_lt (s := 1) hp.particle run (fun e he => by rw [one_mul]; exact hp.passive e he)
    (by obtain ⟨e, he, h⟩ := hlossy; exact ⟨e, he, by rwa [one_mul]⟩) z hz
  have h1 : ‖z‖ ^ 2 < z.re := by linarith
  have h2 := re_le_norm z
  have h3 := norm_nonneg z
  refine ⟨h1, ?_, ?_, by nlinarith⟩
  · have e : ‖z - 1 / 2‖ ^ 2 = ‖z‖ ^ 2 - z.re + 1 / 4 := by
      rw [← normSq_eq_norm_sq, ← normSq_eq_norm_sq, normSq_apply, normSq_apply]
      simp
      ring
    have := norm_nonneg (z - 1 / 2)
    nlinarith
  · rcases h3.lt_or_eq with h | h
    · exact h
    · rw [← h] at h1 h2
      norm_num at h1
      linarith

/-- C99 on the observables: every absorption multipole and the absorption cross section are positive, and less is scattered than taken
from the beam. -/
theorem C99_cross_sections (hp : PassiveAt p k0 e0) (run : ExactRun p o) (hlossy : ∃ e ∈ p.epsLayers, 0 < e.im) :
    (∀ x ∈ (crossSections o.k o.rS o.a o.b).csAbsMp.1, 0 < x) ∧ (∀ x ∈ (crossSections o.k o.rS o.a o.b).csAbsMp.2, 0 < x) ∧
    (1 ≤ o.nMax → 0 < (crossSections o.k o.rS o.a o.b).csAbs ∧
      (crossSections o.k o.rS o.a o.b).csSca < (crossSections o.k o.rS o.a o.b).csExt) := by
  obtain ⟨h1, h2, h3⟩ := cross_energy_lt (s := 1) hp.particle run (fun e he => by rw [one_mul]; exact hp.passive e he)
    (by obtain ⟨e, he, h⟩ := hlossy; exact ⟨e, he, by rwa [one_mul]⟩)
  simp only [one_mul] at h1 h2 h3
  refine ⟨h1, h2, fun hn => ⟨h3 hn, ?_⟩⟩
  rw [C05_ext_eq_sca_add_abs]
  linarith [h3 hn]

/-- C99: `cross_sections` reports no absorption exactly for lossless particles. -/
theorem C99_lossless (hp : PassiveAt p k0 e0) (run : ExactRun p o) (hn : 1 ≤ o.nMax) :
    (crossSections o.k o.rS o.a o.b).csAbs = 0 ↔ ∀ e ∈ p.epsLayers, e.im = 0 := by
  constructor
  · intro h0 e he
    by_contra hne
    have hpos : 0 < e.im := lt_of_le_of_ne (hp.passive e he) (Ne.symm hne)
    have := ((C99_cross_sections hp run ⟨e, he, hpos⟩).2.2 hn).1
    linarith
  · intro hreal
    rw [run.k, realHost_k hp.host, csAbs_eq]
    have hz : ∀ z, z ∈ o.a ∨ z ∈ o.b → z.re - ‖z‖ ^ 2 = 0 := by
      intro z hz
      obtain ⟨q, i, hq⟩ : ∃ q i, Solves q i p.layers z := by
        rcases hz with hz | hz
        · obtain ⟨j, hj, rfl⟩ := List.getElem_of_mem hz
          have hl := run.lenA
          obtain ⟨a, b, e1, _, sa, _⟩ := run.coef (j + 1) (by omega) (by omega)
          simp only [Nat.add_sub_cancel, List.getElem?_eq_getElem hj, Option.some.injEq] at e1
          exact ⟨_, _, e1 ▸ sa⟩
        · obtain ⟨j, hj, rfl⟩ := List.getElem_of_mem hz
          have hl := run.lenB
          obtain ⟨a, b, _, e1, _, sb⟩ := run.coef (j + 1) (by omega) (by omega)
          simp only [Nat.add_sub_cancel, List.getElem?_eq_getElem hj, Option.some.injEq] at e1
          exact ⟨_, _, e1 ▸ sb⟩
      have hne := layers_ne hp.host hp.nonzero
      have g1 := layers_energy (s := 1) hp.host hp.inc (fun e he => by rw [hreal e he, mul_zero]) hne hq
      have g2 := layers_energy (s := -1) hp.host hp.inc (fun e he => by rw [hreal e he, mul_zero]) hne hq
      linarith
    rw [Finset.sum_eq_zero, Finset.sum_eq_zero, add_zero]
    all_goals
      intro i hi
      have hi := Finset.mem_range.1 hi
      rw [List.getD_eq_getElem?_getD, List.getElem?_eq_getElem hi, Option.getD_some]
    · rw [hz _ (Or.inr (List.getElem_mem hi)), mul_zero]
    · rw [hz _ (Or.inl (List.getElem_mem hi)), mul_zero]

/-- C99 for gain: without lossy layers and with at least one amplifying layer, every multipole and the particle as a whole emit more
power than they receive. -/
theorem C99_gain (hp : ParticleAt p k0 e0) (run : ExactRun p o) (hgain : ∀ e ∈ p.epsLayers, e.im ≤ 0)
    (hlt : ∃ e ∈ p.epsLayers, e.im < 0) :
    (∀ z, z ∈ o.a ∨ z ∈ o.b → z.re < ‖z‖ ^ 2) ∧
    (∀ x ∈ (crossSections o.k o.rS o.a o.b).csAbsMp.1, x < 0) ∧ (∀ x ∈ (crossSections o.k o.rS o.a o.b).csAbsMp.2, x < 0) ∧
    (1 ≤ o.nMax → (crossSections o.k o.rS o.a o.b).csAbs < 0 ∧
      (crossSections o.k o.rS o.a o.b).csExt < (crossSections o.k o.rS o.a o.b).csSca) := by
  have hs : ∀ e ∈ p.epsLayers, 0 ≤ (-1 : ℝ) * e.im := fun e he => by have := hgain e he; linarith
  have hl : ∃ e ∈ p.epsLayers, 0 < (-1 : ℝ) * e.im := by obtain ⟨e, he, h⟩ := hlt; exact ⟨e, he, by linarith⟩
  obtain ⟨h1, h2, h3⟩ := cross_energy_lt hp run hs hl
  refine ⟨fun z hz => by have := run_energy_lt hp run hs hl z hz; linarith, fun x hx => by have := h1 x hx; linarith,
    fun x hx => by have := h2 x hx; linarith, fun hn => ?_⟩
  have := h3 hn
  refine ⟨by linarith, ?_⟩
  rw [C05_ext_eq_sca_add_abs]
  linarith

/-- C99 inside the particle: a layer heats up (cools down) exactly if its permittivity has a positive (negative) imaginary part. `W`
are the waves whose fields `nearfields` returns (C75). -/
theorem C99_heating {a b : List ℂ} {W : ℕ → ℕ → Pol → Wave} (hW : LayerWaves p a b W) (hp : ParticleAt p k0 e0) (ha : a ≠ [])
    {E0 : ℂ} (hE : E0 ≠ 0) {j : ℕ} (hj : j < p.rLayers.length) :
    (0 < dissipated k0 (p.epsLayers.getD j 0) (p.radius j) (p.radius (j + 1)) (layerE p E0 a.length W 0 j) ↔
      0 < (p.epsLayers.getD j 0).im) ∧
    (dissipated k0 (p.epsLayers.getD j 0) (p.radius j) (p.radius (j + 1)) (layerE p E0 a.length W 0 j) < 0 ↔
      (p.epsLayers.getD j 0).im < 0) := by
  have hnp : 0 < Real.sqrt e0 := Real.sqrt_pos.2 hp.host.env_pos
  have hk0 := hp.host.k0_pos
  set ne := Real.sqrt e0 with hnedef
  have hk : 0 < k0 * ne := mul_pos hk0 hnp
  have hnE : csqrt p.epsEnv = (ne : ℂ) := by rw [hp.host.env_eq, csqrt_ofReal hp.host.env_pos.le]
  have hkE : p.k0 * csqrt p.epsEnv = ((k0 * ne : ℝ) : ℂ) := realHost_k hp.host
  set m : ℕ → ℂ := fun j => p.indices.getD j 0 with hmdef
  have hm : ∀ j, j ≤ p.rLayers.length → m j ≠ 0 := fun j hj => indices_ne hp.host hp.len hp.nonzero hj
  have hmed : csqrt (p.epsLayers.getD j 0) = m j * (ne : ℂ) := by
    rw [← media_layer (by rw [hp.len]; exact hj), media_indices hp.len (by rw [hnE]; exact_mod_cast hnp.ne') hj.le, hnE]
  have hEl : layerE p E0 a.length W 0 j = fun r : ℝ => multiE E0 (m j * ne) (k0 * (m j * ne) * r) a.length (W j) := by
    funext r t ph
    unfold layerE
    rw [hmed, hp.host.k0_eq, ofReal_zero, add_zero]
  have heps : p.epsLayers.getD j 0 = (m j * ne) ^ 2 := by rw [← hmed, csqrt_sq]
  have hreg : RegularAt a.length (W j) (p.radius j) := by
    cases j with
    | zero => exact Or.inr ⟨rfl, fun i hi q => hW.core i hi q⟩
    | succ j => exact Or.inl (radius_pos hp.host (by omega))
  have hlt := radius_lt hp.host hp.inc hj
  have hdis : dissipated k0 (p.epsLayers.getD j 0) (p.radius j) (p.radius (j + 1)) (layerE p E0 a.length W 0 j) =
      2 * Real.pi * ‖E0‖ ^ 2 / (k0 ^ 2 * ne) *
        (fluxSum a.length (W j) (m j) (k0 * ne * p.radius j) - fluxSum a.length (W j) (m j) (k0 * ne * p.radius (j + 1))) := by
    rw [hEl, heps]
    exact dissipated_multi E0 (hm j hj.le) hk0 hnp hlt.le hreg
  have hEn : 0 < ‖E0‖ := norm_pos_iff.2 hE
  have hC : 0 < 2 * Real.pi * ‖E0‖ ^ 2 / (k0 ^ 2 * ne) := by have := Real.pi_pos; positivity
  have hN : 0 < a.length := List.length_pos_iff.2 ha
  -- no wave vanishes
  have hw : ∀ i < a.length, ∀ q, ∀ d j', j' + d = p.rLayers.length → ¬((W j' (i + 1) q).d = 0 ∧ (W j' (i + 1) q).a = 0) := by
    intro i hi q d
    induction d with
    | zero =>
      rintro j' hj' ⟨h0, -⟩
      rw [add_zero] at hj'
      rw [hj'] at h0
      obtain ⟨g1, g2⟩ := hW.host i hi
      cases q
      · rw [g1] at h0; exact one_ne_zero h0
      · rw [g2] at h0; exact one_ne_zero h0
    | succ d ih =>
      intro j' hj' h0
      have hc := hW.cont i hi q j' (by omega)
      rw [hkE, ← radius_succ, ← ofReal_mul] at hc
      exact ih (j' + 1) (by omega) (Cont.zero (hm j' (by omega)) (hm (j' + 1) (by omega))
        (mul_pos hk (radius_pos hp.host (by omega))) hc h0)
  have hx : 0 ≤ k0 * ne * p.radius j := by
    refine mul_nonneg hk.le ?_
    rcases hreg with h | h
    exacts [h.le, h.1.ge]
  have hxy : k0 * ne * p.radius j < k0 * ne * p.radius (j + 1) := mul_lt_mul_of_pos_left hlt hk
  -- strict decrease of `s` times the flux
  have key : ∀ s : ℝ, 0 < s * (m j ^ 2).im →
      s * fluxSum a.length (W j) (m j) (k0 * ne * p.radius (j + 1)) < s * fluxSum a.length (W j) (m j) (k0 * ne * p.radius j) := by
    intro s hs
    have hone : ∀ i < a.length, ∀ q, s * flux q (W j (i + 1) q) (i + 1) (m j) (k0 * ne * p.radius (j + 1)) <
        s * flux q (W j (i + 1) q) (i + 1) (m j) (k0 * ne * p.radius j) := by
      intro i hi q
      have hwj := hw i hi q (p.rLayers.length - j) j (by omega)
      rcases hx.lt_or_eq with h | h
      · exact flux_lt q (by omega) (hm j hj.le) hs hwj h hxy
      · have h0 : p.radius j = 0 := (mul_eq_zero.1 h.symm).resolve_left hk.ne'
        obtain rfl : j = 0 := by
          rcases Nat.eq_zero_or_pos j with h | h
          · exact h
          · obtain ⟨j', rfl⟩ : ∃ j', j = j' + 1 := ⟨j - 1, by omega⟩
            exact absurd h0 (radius_pos hp.host (by omega)).ne'
        have hcore := hW.core i hi q
        have e : W 0 (i + 1) q = ⟨(W 0 (i + 1) q).d, 0⟩ := by
          cases hh : W 0 (i + 1) q
          rw [hh] at hcore
          simp only at hcore
          rw [hcore]
        have hy : 0 < k0 * ne * p.radius (0 + 1) := by rw [h]; exact hxy
        rw [← h, e, flux_zero, mul_zero]
        rw [e] at hwj
        have h2 : 0 < k0 * ne * p.radius (0 + 1) / 2 := by linarith
        exact (flux_lt q (by omega) (hm 0 hj.le) hs hwj h2 (by linarith)).trans_le (flux_core q _ _ (hm 0 hj.le) hs.le h2)
    unfold fluxSum
    rw [Finset.mul_sum, Finset.mul_sum]
    refine Finset.sum_lt_sum_of_nonempty ⟨0, Finset.mem_range.2 hN⟩ fun i hi => ?_
    have hi := Finset.mem_range.1 hi
    have h1 := hone i hi .tm
    have h2 := hone i hi .te
    have h3 : (0 : ℝ) < 2 * (i : ℝ) + 3 := by positivity
    nlinarith
  have him : (p.epsLayers.getD j 0).im = (m j ^ 2).im * ne ^ 2 := by
    rw [heps, mul_pow, ← ofReal_pow, im_mul_ofReal]
  have hne2 : 0 < ne ^ 2 := by positivity
  have hpos : 0 < (m j ^ 2).im → 0 < dissipated k0 (p.epsLayers.getD j 0) (p.radius j) (p.radius (j + 1)) (layerE p E0 a.length W 0 j) := by
    intro h
    have := key 1 (by linarith)
    rw [hdis]
    exact mul_pos hC (by linarith)
  have hneg : (m j ^ 2).im < 0 → dissipated k0 (p.epsLayers.getD j 0) (p.radius j) (p.radius (j + 1)) (layerE p E0 a.length W 0 j) < 0 := by
    intro h
    have := key (-1) (by linarith)
    rw [hdis]
    exact mul_neg_of_pos_of_neg hC (by linarith)
  have hzero : (p.epsLayers.getD j 0).im = 0 →
      dissipated k0 (p.epsLayers.getD j 0) (p.radius j) (p.radius (j + 1)) (layerE p E0 a.length W 0 j) = 0 := by
    intro h
    unfold dissipated
    rw [h]; ring
  have hsgn : (0 < (p.epsLayers.getD j 0).im ↔ 0 < (m j ^ 2).im) ∧ ((p.epsLayers.getD j 0).im < 0 ↔ (m j ^ 2).im < 0) := by
    rw [him]
    exact ⟨mul_pos_iff_of_pos_right hne2, by rw [mul_neg_iff]; constructor <;> rintro h <;> [skip; exact Or.inr ⟨h, hne2⟩]
                                             rcases h with h | h
                                             · linarith [h.2]
                                             · exact h.1⟩
  constructor
  · refine ⟨fun h => ?_, fun h => hpos (hsgn.1.1 h)⟩
    by_contra hc
    rcases (not_lt.1 hc).lt_or_eq with h' | h'
    · exact absurd (hneg (hsgn.2.1 h')) (not_lt.2 h.le)
    · rw [hzero h'] at h; exact lt_irrefl _ h
  · refine ⟨fun h => ?_, fun h => hneg (hsgn.2.1 h)⟩
    by_contra hc
    rcases (not_lt.1 hc).lt_or_eq with h' | h'
    · exact absurd (hpos (hsgn.1.1 h')) (not_lt.2 h.le)
    · rw [hzero h'.symm] at h; exact lt_irrefl _ h

end

/-! ## The backends -/

/-- C99 for the pena backend with exact logarithmic derivatives, `cross_sections` itself. -/
theorem C99_pena {B : Backends} {p : Particle1} {backend w : String} {nMax : Option ℤ} {c : CrossSections} {k0 e0 : ℝ}
    (hb : backend.toLower = "pena") (h : crossSectionsOf idealD1 B p backend w nMax = .ok c)
    (hc : ∀ o, mieCoefficients idealD1 B p backend w nMax = .ok o → SolverClear idealFn o.nMax.toNat p.layers)
    (hp : RealHost p k0 e0) (hz : ∀ e ∈ p.epsLayers, e ≠ 0) (hpass : ∀ e ∈ p.epsLayers, 0 ≤ e.im) :
    (c.csAbs = 0 ↔ ∀ e ∈ p.epsLayers, e.im = 0) ∧ ((∃ e ∈ p.epsLayers, 0 < e.im) → 0 < c.csAbs ∧ c.csSca < c.csExt ∧
      (∀ x ∈ c.csAbsMp.1, 0 < x) ∧ ∀ x ∈ c.csAbsMp.2, 0 < x) := by
  obtain ⟨o, ho, rfl⟩ := crossSectionsOf_inv h
  have run := mieCoefficients_pena_inv hb ho
  have hP : PassiveAt p k0 e0 := ⟨hp, run.inc, run.len, run.ne, hpass, hz⟩
  have hE := ExactRun.of_pena hb ho (hc o ho)
  refine ⟨C99_lossless hP hE run.pos, fun hl => ?_⟩
  obtain ⟨h1, h2, h3⟩ := C99_cross_sections hP hE hl
  exact ⟨(h3 run.pos).1, (h3 run.pos).2, h1, h2⟩

/-- C99 for the closed forms of a sphere and of a core-shell particle, Bessel functions exact. -/
theorem C99_core_shell {K : D1Kernel} {B : Backends} {p : Particle1} {backend w : String} {nMax : Option ℤ} {o : MieOut} {k0 e0 : ℝ}
    (hb : backend.toLower = "torch" ∨ backend.toLower = "scipy") (h : mieCoefficients K B p backend w nMax = .ok o)
    (hpos : 1 ≤ o.nMax) (hS : ∀ S, selectBessel B backend w = .ok S → ∀ z ∈ csArgs p.layers, ExactAt S o.nMax.toNat z)
    (hp : RealHost p k0 e0) (hz : ∀ e ∈ p.epsLayers, e ≠ 0) (hpass : ∀ e ∈ p.epsLayers, 0 ≤ e.im) :
    ((crossSections o.k o.rS o.a o.b).csAbs = 0 ↔ ∀ e ∈ p.epsLayers, e.im = 0) ∧
    ((∃ e ∈ p.epsLayers, 0 < e.im) → 0 < (crossSections o.k o.rS o.a o.b).csAbs ∧
      (crossSections o.k o.rS o.a o.b).csSca < (crossSections o.k o.rS o.a o.b).csExt) := by
  have hpe : backend.toLower ≠ "pena" := by rcases hb with h | h <;> rw [h] <;> decide
  have hB := mieCoefficients_basic h
  have hE := ExactRun.of_passive hpe h hpos hS hp hpass hz
  have hP : PassiveAt p k0 e0 := ⟨hp, hB.inc, hB.len, hB.ne, hpass, hz⟩
  exact ⟨C99_lossless hP hE hpos, fun hl => (C99_cross_sections hP hE hl).2.2 hpos⟩

/-- C99 for the code: with a lossy layer the absorption cross section computed with recurrence depth `N` tends to a positive value, so
it is positive for every sufficient depth. -/
theorem C99_depth_limit {B : Backends} {p : Particle1} {backend w : String} {nMax : Option ℤ}
    {c : ℕ → CrossSections} {n : ℕ} {k0 e0 : ℝ} (hb : backend.toLower = "pena")
    (h : ∀ N, 1 ≤ N → crossSectionsOf (depthD1 N) B p backend w nMax = .ok (c N))
    (hn : ∀ N o, mieCoefficients (depthD1 N) B p backend w nMax = .ok o → o.nMax = n)
    (hc : SolverClear idealFn n p.layers) (hd : ∀ z ∈ kernelArgs p.layers, D1Clear z)
    (hp : RealHost p k0 e0) (hz : ∀ e ∈ p.epsLayers, e ≠ 0) (hpass : ∀ e ∈ p.epsLayers, 0 ≤ e.im)
    (hlossy : ∃ e ∈ p.epsLayers, 0 < e.im) :
    ∃ L : ℝ, 0 < L ∧ Tendsto (fun N => (c N).csAbs) atTop (𝓝 L) ∧ ∀ᶠ N in atTop, 0 < (c N).csAbs := by
  obtain ⟨a, b, hab, hinc, hL⟩ := depth_absorption hb h hn hc hd hp
  obtain ⟨o, ho, -⟩ := crossSectionsOf_inv (h 1 le_rfl)
  have run := mieCoefficients_pena_inv hb ho
  have hpos : 1 ≤ n := by have h1 := run.pos; have h2 := hn 1 o ho; omega
  have hK : 0 < k0 * Real.sqrt e0 := mul_pos hp.k0_pos (Real.sqrt_pos.2 hp.env_pos)
  have hP : ParticleAt p k0 e0 := ⟨hp, run.inc, run.len, run.ne, hz⟩
  have hg : ∀ (q : Pol) (i : ℕ) (z : ℂ), Solves q (i + 1) p.layers z →
      0 < 2 * Real.pi / (k0 * Real.sqrt e0) ^ 2 * (2 * ((i : ℝ) + 1) + 1) * (z.re - ‖z‖ ^ 2) := by
    intro q i z hs
    have h1 := layers_energy_lt (s := 1) hP (fun e he => by rw [one_mul]; exact hpass e he)
      (by obtain ⟨e, he, h⟩ := hlossy; exact ⟨e, he, by rwa [one_mul]⟩) (by omega) hs
    have := Real.pi_pos
    exact mul_pos (by positivity) (by linarith)
  have hpL : 0 < ∑ i ∈ Finset.range n, 2 * Real.pi / (k0 * Real.sqrt e0) ^ 2 * (2 * ((i : ℝ) + 1) + 1) * ((a i).re - ‖a i‖ ^ 2) +
      ∑ i ∈ Finset.range n, 2 * Real.pi / (k0 * Real.sqrt e0) ^ 2 * (2 * ((i : ℝ) + 1) + 1) * ((b i).re - ‖b i‖ ^ 2) :=
    add_pos (Finset.sum_pos (fun i hi => hg .tm i _ (hab i (Finset.mem_range.1 hi)).1) ⟨0, Finset.mem_range.2 hpos⟩)
      (Finset.sum_pos (fun i hi => hg .te i _ (hab i (Finset.mem_range.1 hi)).2) ⟨0, Finset.mem_range.2 hpos⟩)
  exact ⟨_, hpL, hL, hL.eventually_const_lt hpL⟩

/-- C99, near fields of the pena backend: the field which `nearfields` returns in a layer dissipates there if and only if the layer is
lossy. -/
theorem C99_heating_pena {B : Backends} {p : Particle1} {backend w : String} {nMax : Option ℤ} {ri : Bool} {o : MieOut}
    (hb : backend.toLower = "pena") (h : mieCoefficients idealD1 B p backend w nMax ri = .ok o)
    (hc : SolverClear idealFn o.nMax.toNat p.layers)
    (hbd : ∀ l ∈ p.layers, ∀ i, 1 ≤ i → i ≤ o.nMax.toNat →
      ‖ricPsi i (l.1 * l.2)‖ ≤ 1e30 ∧ ‖ricZeta i (l.1 * l.2)‖ ≤ 1e30) {k0 e0 : ℝ} (hp : RealHost p k0 e0)
    (hz : ∀ e ∈ p.epsLayers, e ≠ 0) {E0 : ℂ} (hE : E0 ≠ 0) :
    ∃ W, (∀ (eps : ℝ) (v : V3 ℝ) (j : ℕ), j < p.rLayers.length → InRegion p.rLayers j v.dist →
        KernelOK o.a.length (p.k0 * csqrt (p.epsLayers.getD j 0) * v.dist + eps) solverEps →
        ∃ F, nearfieldsPena idealD1 p.k0 p.rLayers p.epsLayers p.epsEnv E0 o.a o.b v eps = .ok F ∧
          InsideFields E0 p o.a.length W eps j v F) ∧
      ∀ j < p.rLayers.length,
        (0 < dissipated k0 (p.epsLayers.getD j 0) (p.radius j) (p.radius (j + 1)) (layerE p E0 o.a.length W 0 j) ↔
          0 < (p.epsLayers.getD j 0).im) ∧
        (dissipated k0 (p.epsLayers.getD j 0) (p.radius j) (p.radius (j + 1)) (layerE p E0 o.a.length W 0 j) < 0 ↔
          (p.epsLayers.getD j 0).im < 0) := by
  have run := mieCoefficients_pena_inv hb h
  obtain ⟨la, -, -⟩ := C11_interface_conditions hb h hc
  obtain ⟨W, hF, hW⟩ := pena_inside hb h hc hbd E0
  have hne : o.a ≠ [] := by
    intro h0
    rw [h0] at la
    have := run.pos
    simp at la
    omega
  exact ⟨W, hF, fun j hj => C99_heating hW ⟨hp, run.inc, run.len, run.ne, hz⟩ hne hE hj⟩

/-- C99, near fields of the torch and scipy backends. -/
theorem C99_heating_core_shell {K : D1Kernel} {B : Backends} {p : Particle1} {backend w : String} {nMax : Option ℤ} {o : MieOut}
    (hb : backend.toLower = "torch" ∨ backend.toLower = "scipy") (h : mieCoefficients K B p backend w nMax true = .ok o)
    (hpos : 1 ≤ o.nMax) (hS : ∀ S, selectBessel B backend w = .ok S → ∀ z ∈ csArgs p.layers, ExactAt S o.nMax.toNat z)
    {k0 e0 : ℝ} (hp : RealHost p k0 e0) (hz : ∀ e ∈ p.epsLayers, e ≠ 0)
    (hsol : ∀ q i, 1 ≤ i → i ≤ o.nMax.toNat → ∃ a, Solves q i p.layers a) {E0 : ℂ} (hE : E0 ≠ 0) {Bc Bs B2 Bo : BesselBackend}
    (hBc : ∀ z, z ≠ 0 → ExactAt Bc o.a.length z) (hBs : ∀ z, z ≠ 0 → ExactAt Bs o.a.length z)
    (hB2 : ∀ z, z ≠ 0 → ExactAt B2 o.a.length z) (hBo : ∀ z, z ≠ 0 → ExactAt Bo o.a.length z) :
    ∃ co W, o.internal = some co ∧ (∀ (eps : ℝ) (v : V3 ℝ) (j : ℕ), 0 ≤ eps → 0 < v.dist → j < p.rLayers.length →
        InRegion p.rLayers j v.dist →
        ∃ F, nearfieldsTorch Bc Bs B2 Bo p.k0 o.k (csqrt o.epsC) (csqrt o.epsS) o.nEnv o.rC o.rS E0 co v eps = .ok F ∧
          InsideFields E0 p o.a.length W eps j v F) ∧
      ∀ j < p.rLayers.length,
        (0 < dissipated k0 (p.epsLayers.getD j 0) (p.radius j) (p.radius (j + 1)) (layerE p E0 o.a.length W 0 j) ↔
          0 < (p.epsLayers.getD j 0).im) ∧
        (dissipated k0 (p.epsLayers.getD j 0) (p.radius j) (p.radius (j + 1)) (layerE p E0 o.a.length W 0 j) < 0 ↔
          (p.epsLayers.getD j 0).im < 0) := by
  have hpe : backend.toLower ≠ "pena" := by rcases hb with h | h <;> rw [h] <;> decide
  have hl := layers_ne hp hz
  obtain ⟨co, hco, hcl, hW⟩ := csWaves_layer hb h hpos hS hl hsol
  have run := ExactRun.of_coreShell hpe h hpos hS hl hsol
  have hB := mieCoefficients_basic h
  have hne : o.a ≠ [] := by
    intro h0
    have := run.lenA
    rw [h0] at this
    simp at this
    omega
  exact ⟨co, csWaves p co, hco, fun eps v j he hv hj hR => torch_inside hb h hne hp hz E0 hBc hBs hB2 hBo hco he hv hj hR,
    fun j hj => C99_heating hW ⟨hp, hB.inc, hB.len, hB.ne, hz⟩ hne hE hj⟩

/-! ## Examples -/

theorem lossyDemo_passive : PassiveAt lossyDemo 1 1 :=
  ⟨lossyDemo_host, ⟨by norm_num, trivial⟩, rfl, by simp [lossyDemo], lossyDemo_eps.1, lossyDemo_eps.2⟩

theorem lossyDemo_bessel {n : ℕ} : ∀ S, selectBessel exactBackends "torch" "recurrence" = .ok S →
    ∀ z ∈ csArgs lossyDemo.layers, ExactAt S n z := by
  intro S hS z hz
  have ht : "torch".toLower = "torch" := by decide +kernel
  have hw : "recurrence".toLower = "recurrence" := by decide +kernel
  simp only [selectBessel, ht, hw, exactBackends] at hS
  rw [if_neg (by decide), if_pos (by decide)] at hS
  rw [← Except.ok.inj hS]
  exact exactBessel_at (csArgs_ne (layers_ne lossyDemo_host lossyDemo_eps.2) z hz)

/-- C99, torch: the particle with the lossy core and the transparent shell absorbs, with any number of orders; and its core heats up,
its shell does not. -/
example (n : ℕ) : ∃ o W, mieCoefficients idealD1 exactBackends lossyDemo "torch" "recurrence" (some ((n + 1 : ℕ) : ℤ)) true = .ok o ∧
    ExactRun lossyDemo o ∧ 0 < (crossSections o.k o.rS o.a o.b).csAbs ∧
    0 < dissipated 1 (2 + I) 0 1 (layerE lossyDemo 1 o.a.length W 0 0) ∧
    ¬0 < dissipated 1 3 1 2 (layerE lossyDemo 1 o.a.length W 0 1) := by
  have hl := csArgs_ne (layers_ne lossyDemo_host lossyDemo_eps.2)
  obtain ⟨o, h, hn⟩ := mieCoefficients_torch_ok (K := idealD1) (p := lossyDemo) (n := n) rfl rfl (by norm_num) hl true
  have hpos : 1 ≤ o.nMax := by rw [hn]; omega
  have ht : "torch".toLower = "torch" := by decide +kernel
  have run := ExactRun.of_passive (by rw [ht]; decide) h hpos lossyDemo_bessel lossyDemo_host lossyDemo_eps.1 lossyDemo_eps.2
  obtain ⟨co, W, -, -, hd⟩ := C99_heating_core_shell (Or.inl ht) h hpos lossyDemo_bessel lossyDemo_host lossyDemo_eps.2
    (fun q i _ _ => (C68_solvable lossyDemo_host lossyDemo_passive.inc rfl lossyDemo_passive.ne lossyDemo_eps.1 lossyDemo_eps.2 q i).exists)
    one_ne_zero (Bc := exactBessel) (Bs := exactBessel) (B2 := exactBessel) (Bo := exactBessel) (fun z hz => exactBessel_at hz)
    (fun z hz => exactBessel_at hz) (fun z hz => exactBessel_at hz) (fun z hz => exactBessel_at hz)
  have h0 := (hd 0 (by simp [lossyDemo])).1
  have h1 := (hd 1 (by simp [lossyDemo])).1
  simp only [lossyDemo, Particle1.radius, List.getD_cons_zero, List.getD_cons_succ] at h0 h1
  refine ⟨o, W, h, run, ((C99_cross_sections lossyDemo_passive run ⟨2 + I, by simp [lossyDemo], by simp⟩).2.2 hpos).1, ?_, ?_⟩
  · exact h0.2 (by simp)
  · rw [show dissipated 1 3 1 2 (layerE lossyDemo 1 o.a.length W 0 1) = _ from rfl]
    exact fun hc => absurd (h1.1 hc) (by simp)

/-- C99, gain: a core-shell particle with a weakly amplifying core can be computed with any number of orders, and emits light. -/
example (K : D1Kernel) (N : ℕ) : ∃ (t : ℝ) (o : MieOut), 0 < t ∧
    mieCoefficients K exactBackends ⟨1, [1, 2], [4 - t * I, 3], 1⟩ "torch" "recurrence" (some ((N + 1 : ℕ) : ℤ)) = .ok o ∧
    (crossSections o.k o.rS o.a o.b).csAbs < 0 ∧
      (crossSections o.k o.rS o.a o.b).csExt < (crossSections o.k o.rS o.a o.b).csSca := by
  have hp : PassiveAt ⟨1, [1, 2], [4, 3], 1⟩ 1 1 := by
    refine ⟨⟨by simp, one_pos, by simp, one_pos, by simp⟩, by simp [strictlyIncreasing], rfl, by simp, by simp, by simp⟩
  have hat : PassiveAt ((epsFam ⟨1, [1, 2], [4, 3], 1⟩ 0).at 4) 1 1 := by rw [epsFam_at]; exact hp
  obtain ⟨o, hn, ho⟩ := C73_torch_succeeds (epsFam_analytic _ 0 _) hat (r := fun _ => 1) (r' := fun _ => 2) rfl rfl K N
  have hx := hn.exact (epsFam_analytic _ 0 _) hat
  have hc : Tendsto (fun t : ℝ => (4 - t * I : ℂ)) (𝓝[>] 0) (𝓝 4) := by
    have : Continuous fun t : ℝ => (4 - t * I : ℂ) := by fun_prop
    simpa using (this.tendsto 0).mono_left nhdsWithin_le_nhds
  obtain ⟨t, ⟨h1, h2, h3⟩, ht⟩ := (((hc.eventually ho).and (hc.eventually hx)).and self_mem_nhdsWithin).exists
  rw [epsFam_at] at h1 h2
  have ht : 0 < t := ht
  have hpa : ParticleAt ⟨1, [1, 2], [4 - t * I, 3], 1⟩ 1 1 := by
    refine ⟨⟨by simp, one_pos, by simp, one_pos, by simp⟩, by simp [strictlyIncreasing], rfl, by simp, ?_⟩
    intro e he
    simp only [List.mem_cons, List.not_mem_nil, or_false] at he
    rcases he with rfl | rfl
    · intro h; have := congrArg re h; simp at this
    · norm_num
  refine ⟨t, _, ht, h1, ?_⟩
  refine (C99_gain hpa h2 ?_ ⟨4 - t * I, by simp, by simpa using ht⟩).2.2.2 (by omega)
  intro e he
  simp only [List.mem_cons, List.not_mem_nil, or_false] at he
  rcases he with rfl | rfl
  · simpa using ht.le
  · simp

theorem d1Clear_near {z : ℂ} (h : D1Clear z) : ∀ᶠ w in 𝓝 z, D1Clear w := by
  have hz : z ≠ 0 := ne_of_clear h.arg
  obtain ⟨m, hm⟩ := exists_nat_gt (2 * ‖z‖)
  have h1 : ∀ᶠ w : ℂ in 𝓝 z, w ≠ 0 ∧ 2 * ‖w‖ < m :=
    (eventually_ne_nhds hz).and ((continuous_const.mul continuous_norm).continuousAt.eventually_lt_const hm)
  have hc : ∀ k, ContinuousAt (ricPsi k) z := fun k => (ricPsi_diff k z hz).continuousAt
  have h2 : ∀ᶠ w in 𝓝 z, ∀ k ∈ Finset.range m, ricPsi k w ≠ 0 ∧ solverEps < ‖ricPsi k w / ricPsi (k + 1) w‖ := by
    rw [Filter.eventually_all_finset]
    intro k _
    exact ((hc k).eventually_ne (h.psi k)).and
      (((hc k).div (hc (k + 1)) (h.psi _)).norm.eventually_const_lt (h.ratio k))
  have h3 := continuous_norm.continuousAt.eventually_const_lt h.arg
  filter_upwards [h1, h2, h3] with w a1 a2 a3
  have big : ∀ k, m ≤ k → ricPsi k w ≠ 0 ∧ ‖ricPsi (k + 1) w‖ ≤ ‖ricPsi k w‖ / 2 := by
    intro k hk
    have : (m : ℝ) ≤ k := by exact_mod_cast hk
    exact ricPsi_ratio k a1.1 (by linarith [a1.2])
  refine ⟨a3, fun k => ?_, fun k => ?_⟩
  · rcases Nat.lt_or_ge k m with hk | hk
    · exact (a2 k (Finset.mem_range.2 hk)).1
    · exact (big k hk).1
  · rcases Nat.lt_or_ge k m with hk | hk
    · exact (a2 k (Finset.mem_range.2 hk)).2
    · have hp : 0 < ‖ricPsi (k + 1) w‖ := norm_pos_iff.2 (big (k + 1) (by omega)).1
      have heps : solverEps < 1 := by unfold solverEps; norm_num
      rw [norm_div, lt_div_iff₀ hp]
      nlinarith [(big k hk).2]

/-- A homogeneous sphere of index `π/2 + i t`, size parameter 1, in vacuum. -/
noncomputable def lossyMono (t : ℝ) : Particle1 := ⟨1, [1], [((qp : ℂ) + t * I) ^ 2], 1⟩

theorem lossyMono_layers (t : ℝ) : (lossyMono t).layers = [((qp : ℂ) + t * I, 1)] := by
  have h1 : csqrt 1 = 1 := by have := csqrt_nat_sq (r := 1) (by norm_num); simpa using this
  have h2 : csqrt (((qp : ℂ) + t * I) ^ 2) = (qp : ℂ) + t * I := by
    have e := csqrt_sq (((qp : ℂ) + t * I) ^ 2)
    rcases sq_eq_sq_iff_eq_or_eq_neg.1 e with h | h
    · exact h
    · have h3 := csqrt_re_nonneg (((qp : ℂ) + t * I) ^ 2)
      rw [h] at h3
      have := qp_odd.big
      simp at h3
      linarith [qp_bounds.1]
  simp only [Particle1.layers, layersOf, lossyMono, List.map_cons, List.map_nil, h1, h2]
  simp

theorem lossyMono_passive {t : ℝ} (ht : 0 < t) : PassiveAt (lossyMono t) 1 1 ∧ ∃ e ∈ (lossyMono t).epsLayers, 0 < e.im := by
  have hq := qp_bounds.1
  have him : 0 < ((((qp : ℂ) + t * I) ^ 2).im) := by
    have : (((qp : ℂ) + t * I) ^ 2).im = 2 * qp * t := by
      simp [pow_two]; ring
    rw [this]; nlinarith
  refine ⟨⟨⟨by simp [lossyMono], by norm_num, by simp [lossyMono], by norm_num, ?_⟩, trivial, rfl, by simp [lossyMono], ?_, ?_⟩, _,
    List.mem_cons_self, him⟩
  · intro r hr
    simp only [lossyMono, List.mem_cons, List.not_mem_nil, or_false] at hr
    rw [hr]; norm_num
  all_goals
    intro e he
    simp only [lossyMono, List.mem_cons, List.not_mem_nil, or_false] at he
    rw [he]
  · exact him.le
  · intro h
    rw [h] at him
    simp at him

/-- Slightly lossy spheres meet the hypotheses of the pena statements. -/
theorem lossyMono_clear : ∃ t : ℝ, 0 < t ∧ SolverClear idealFn 1 (lossyMono t).layers ∧
    (∀ z ∈ kernelArgs (lossyMono t).layers, D1Clear z) ∧
    ∀ l ∈ (lossyMono t).layers, ∀ i, 1 ≤ i → i ≤ 1 → ‖ricPsi i (l.1 * l.2)‖ ≤ 1e30 ∧ ‖ricZeta i (l.1 * l.2)‖ ≤ 1e30 := by
  let F : LayerFam ℂ := [(fun s => (qp : ℂ) + s * I, fun _ => 1)]
  have hF0 : F.at' 0 = monoParticle.layers := by
    rw [mono_layers]; simp [F, LayerFam.at']
  have hFt : ∀ t : ℝ, F.at' (t : ℂ) = (lossyMono t).layers := fun t => by rw [lossyMono_layers]; simp [F, LayerFam.at']
  have hne := qp_odd.ne
  have ok : F.OK ℂ 0 := by
    intro l hl
    simp only [F, List.mem_cons, List.not_mem_nil, or_false] at hl
    rw [hl]
    exact ⟨by fun_prop, by fun_prop, by simpa using hne, one_ne_zero⟩
  have h1 := solverClear_near (n := 1) ok (by rw [hF0]; exact mono_args) (by rw [hF0]; exact mono_clear)
  have hcont : ContinuousAt (fun s : ℂ => (qp : ℂ) + s * I) 0 := by fun_prop
  have hq0 : (fun s : ℂ => (qp : ℂ) + s * I) 0 = qp := by simp
  have h2 : ∀ᶠ s : ℂ in 𝓝 0, D1Clear ((qp : ℂ) + s * I) := hcont.eventually (by rw [hq0]; exact d1Clear_near d1Clear_qp)
  have b1 : ‖ricPsi 1 (qp : ℂ)‖ < 1e30 := by
    rw [qp_odd.psi1, norm_div, qp_odd.norm_sin, qp_odd.norm_t]
    have := qp_bounds.1
    rw [div_lt_iff₀ (by linarith)]
    norm_num
    linarith
  have b2 : ‖ricZeta 1 (qp : ℂ)‖ < 1e30 := by
    rw [qp_odd.zeta1, norm_mul, qp_odd.norm_sin, mul_one]
    refine (norm_sub_le _ _).trans_lt ?_
    have := qp_bounds.1
    have h : 1 / qp ≤ 1 := by rw [div_le_one (by linarith)]; linarith
    rw [norm_I, norm_div, norm_one, qp_odd.norm_t]
    norm_num at h ⊢
    linarith
  have h3 : ∀ᶠ s : ℂ in 𝓝 0, ‖ricPsi 1 ((qp : ℂ) + s * I)‖ < 1e30 :=
    hcont.eventually (p := fun w => ‖ricPsi 1 w‖ < 1e30) (by
      rw [hq0]; exact (ricPsi_diff 1 _ hne).continuousAt.norm.eventually_lt_const b1)
  have h4 : ∀ᶠ s : ℂ in 𝓝 0, ‖ricZeta 1 ((qp : ℂ) + s * I)‖ < 1e30 :=
    hcont.eventually (p := fun w => ‖ricZeta 1 w‖ < 1e30) (by
      rw [hq0]; exact (ricZeta_diff 1 _ hne).continuousAt.norm.eventually_lt_const b2)
  have hall := h1.and (h2.and (h3.and h4))
  have hreal : ∀ᶠ t : ℝ in 𝓝 0, SolverClear idealFn 1 (F.at' (t : ℂ)) ∧ D1Clear ((qp : ℂ) + t * I) ∧
      ‖ricPsi 1 ((qp : ℂ) + t * I)‖ < 1e30 ∧ ‖ricZeta 1 ((qp : ℂ) + t * I)‖ < 1e30 :=
    (continuous_ofReal.tendsto' (0 : ℝ) (0 : ℂ) (by simp)).eventually hall
  obtain ⟨t, ⟨g1, g2, g3, g4⟩, ht⟩ := ((hreal.filter_mono nhdsWithin_le_nhds).and (self_mem_nhdsWithin (s := Set.Ioi (0 : ℝ)))).exists
  refine ⟨t, ht, by rw [← hFt]; exact g1, ?_, ?_⟩
  · rw [lossyMono_layers]
    intro z hz
    simp only [kernelArgs, runArgs, List.mem_cons, List.not_mem_nil, or_false, mul_one] at hz
    rcases hz with rfl | rfl
    · exact g2
    · exact d1Clear_one
  · rw [lossyMono_layers]
    intro l hl i i1 i2
    obtain rfl : i = 1 := le_antisymm i2 i1
    simp only [List.mem_cons, List.not_mem_nil, or_false] at hl
    rw [hl, mul_one]
    exact ⟨g3.le, g4.le⟩

/-- C99, pena: for some lossy sphere the exact run absorbs, the runs with recurrence depth `N` absorb for every large `N`, and the
sphere heats up. -/
example (B : Backends) : ∃ (t : ℝ) (o : MieOut) (c : ℕ → CrossSections) (W : ℕ → ℕ → Pol → Wave), 0 < t ∧
    mieCoefficients idealD1 B (lossyMono t) "pena" "recurrence" (some 1) = .ok o ∧
    0 < (crossSections o.k o.rS o.a o.b).csAbs ∧
    (∀ N, 1 ≤ N → crossSectionsOf (depthD1 N) B (lossyMono t) "pena" "recurrence" (some 1) = .ok (c N)) ∧
    (∀ᶠ N in atTop, 0 < (c N).csAbs) ∧
    0 < dissipated 1 (((qp : ℂ) + t * I) ^ 2) 0 1 (layerE (lossyMono t) 1 o.a.length W 0 0) := by
  obtain ⟨t, ht, hc, hd, hbd⟩ := lossyMono_clear
  obtain ⟨hp, hl⟩ := lossyMono_passive ht
  have hpe : "pena".toLower = "pena" := by decide +kernel
  obtain ⟨o, h, hn⟩ := mieCoefficients_pena_ok (B := B) (w := "recurrence") (n := 1) (idealD1_fun 1) hpe le_rfl hp.inc hp.len hp.ne
  have hn1 : o.nMax.toNat = 1 := by rw [hn]; rfl
  have hex : ∀ N, ∃ c, 1 ≤ N → crossSectionsOf (depthD1 N) B (lossyMono t) "pena" "recurrence" (some 1) = .ok c := by
    intro N
    by_cases hN : 1 ≤ N
    · obtain ⟨o, ho, -⟩ := mieCoefficients_pena_ok (B := B) (w := "recurrence") (n := 1) (depthD1_fun 1 N hN) hpe le_rfl hp.inc hp.len hp.ne
      exact ⟨crossSections o.k o.rS o.a o.b, fun _ => by unfold crossSectionsOf; rw [show (some 1 : Option ℤ) = some ((1 : ℕ) : ℤ) from rfl, ho]; rfl⟩
    · exact ⟨crossSections 0 0 [] [], fun h => absurd h hN⟩
  choose c hcs using hex
  obtain ⟨L, -, -, hev⟩ := C99_depth_limit (n := 1) hpe hcs (fun N o ho => by
    unfold mieCoefficients at ho
    simp only [hpe] at ho
    rw [if_neg (by simp), if_neg (by simpa using hp.inc), if_neg (by simpa using hp.len)] at ho
    simp only [Bind.bind, Except.bind, pyIdx, lossyMono, List.getElem?_cons_zero, orderChoice, orderRange, if_true] at ho
    rw [if_neg (by omega)] at ho
    split at ho
    · simp at ho
    · cases hm : miecoefPenaK (depthD1 N) (1 * csqrt 1) [1] [((qp : ℂ) + t * I) ^ 2] (csqrt 1) 1 with
      | error e => rw [hm] at ho; simp at ho
      | ok v =>
        rw [hm] at ho
        rw [← Except.ok.inj ho]
        rfl) hc hd hp.host hp.nonzero hp.passive hl
  obtain ⟨W, -, hh⟩ := C99_heating_pena hpe h (by rw [hn1]; exact hc) (by rw [hn1]; exact hbd) hp.host hp.nonzero (E0 := 1) one_ne_zero
  have run := ExactRun.of_pena hpe h (by rw [hn1]; exact hc)
  refine ⟨t, o, c, W, ht, h, ((C99_cross_sections hp run hl).2.2 (by rw [hn]; rfl)).1, hcs, hev, ?_⟩
  have h0 := (hh 0 (by simp [lossyMono])).1
  obtain ⟨e, he, him⟩ := hl
  simp only [lossyMono, List.mem_cons, List.not_mem_nil, or_false] at he
  simp only [lossyMono, Particle1.radius, List.getD_cons_zero, List.getD_cons_succ] at h0
  exact h0.2 (he ▸ him)

end MieDiff
