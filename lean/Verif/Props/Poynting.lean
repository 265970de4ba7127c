import Verif.Proofs.Poynting

/-!
# Absorption is the dissipation by the internal near fields (C75)

`cross_sections` (multishell.py:803-893) gets the absorption from the coefficients outside; `nearfields` (multishell.py:1041-1291,
1294-1490) also returns the fields inside every layer.  The theorems below integrate `k0 Im(eps) |E|^2` of the internal fields over
the layers and recover the absorption cross section.
-/

namespace MieDiff

open Complex Spec Filter Topology

local notation "conj" => starRingEnd ℂ

/-- Inner radius of layer `j`, outer radius of layer `j - 1`. -/
noncomputable def Particle1.radius (p : Particle1) (j : ℕ) : ℝ := ((0 : ℝ) :: p.rLayers).getD j 0

theorem radius_succ (p : Particle1) (j : ℕ) : p.radius (j + 1) = p.rLayers.getD j 0 := by
  simp [Particle1.radius]

/-- Specification: waves in all regions which are regular in the core, continuous at the interfaces, and in the host consist of the
incident wave and the scattered waves with coefficients `a`, `b`. -/
structure LayerWaves (p : Particle1) (a b : List ℂ) (W : ℕ → ℕ → Pol → Wave) : Prop where
  cont : ∀ i < a.length, ∀ q, ∀ j < p.rLayers.length, Cont q (i + 1) (p.indices.getD j 0) (p.indices.getD (j + 1) 0)
    (p.k0 * csqrt p.epsEnv * (p.rLayers.getD j 0 : ℝ)) (W j (i + 1) q) (W (j + 1) (i + 1) q)
  core : ∀ i < a.length, ∀ q, (W 0 (i + 1) q).a = 0
  host : ∀ i < a.length, W p.rLayers.length (i + 1) .tm = ⟨1, a.getD i 0⟩ ∧ W p.rLayers.length (i + 1) .te = ⟨1, b.getD i 0⟩

/-- The electric field of the waves in layer `j` at distance `r`. -/
noncomputable def layerE (p : Particle1) (E0 : ℂ) (N : ℕ) (W : ℕ → ℕ → Pol → Wave) (eps : ℝ) (j : ℕ) (r t ph : ℝ) : V3 ℂ :=
  multiE E0 (csqrt (p.epsLayers.getD j 0)) (p.k0 * csqrt (p.epsLayers.getD j 0) * r + eps) N (W j) t ph

/-- The magnetic field of the waves in layer `j` at distance `r`. -/
noncomputable def layerH (p : Particle1) (E0 : ℂ) (N : ℕ) (W : ℕ → ℕ → Pol → Wave) (eps : ℝ) (j : ℕ) (r t ph : ℝ) : V3 ℂ :=
  multiH E0 (csqrt (p.epsLayers.getD j 0)) (p.k0 * csqrt (p.epsLayers.getD j 0) * r + eps) N (W j) t ph

/-- Specification: the power lost inside.  `total`: what all layers dissipate is the absorption cross section times the power density
`n |E0|^2` of the incident wave.  `inward`: through every sphere inside the particle flows what is dissipated inside the sphere. -/
structure AbsorbedInside (p : Particle1) (k0 n : ℝ) (E0 : ℂ) (N : ℕ) (W : ℕ → ℕ → Pol → Wave) (cs : CrossSections) : Prop where
  total : ∑ j ∈ Finset.range p.rLayers.length,
    dissipated k0 (p.epsLayers.getD j 0) (p.radius j) (p.radius (j + 1)) (layerE p E0 N W 0 j) = n * ‖E0‖ ^ 2 * cs.csAbs
  inward : ∀ j < p.rLayers.length, ∀ r : ℝ, p.radius j < r → r ≤ p.radius (j + 1) →
    -(r ^ 2 * sphereFlux (layerE p E0 N W 0 j r) (layerH p E0 N W 0 j r)) =
      (∑ i ∈ Finset.range j, dissipated k0 (p.epsLayers.getD i 0) (p.radius i) (p.radius (i + 1)) (layerE p E0 N W 0 i)) +
        dissipated k0 (p.epsLayers.getD j 0) (p.radius j) r (layerE p E0 N W 0 j)

section
variable {p : Particle1} {k0 e0 : ℝ}

theorem indices_ne (hp : RealHost p k0 e0) (hlen : p.epsLayers.length = p.rLayers.length) (hz : ∀ e ∈ p.epsLayers, e ≠ 0) {j : ℕ}
    (hj : j ≤ p.rLayers.length) : p.indices.getD j 0 ≠ 0 := by
  have hn : csqrt p.epsEnv ≠ 0 := by
    rw [hp.env_eq]; exact csqrt_ne_zero (by exact_mod_cast hp.env_pos.ne')
  have h := media_indices hlen hn hj
  intro h0
  rw [h0, zero_mul] at h
  unfold Particle1.media at h
  rw [List.getD_eq_getElem?_getD] at h
  rcases Nat.lt_or_ge j p.epsLayers.length with h1 | h1
  · rw [List.getElem?_append_left (by simpa using h1)] at h
    simp only [List.getElem?_map, List.getElem?_eq_getElem h1, Option.map_some, Option.getD_some] at h
    exact csqrt_ne_zero (hz _ (List.getElem_mem h1)) h
  · obtain rfl : j = p.epsLayers.length := by omega
    rw [List.getElem?_append_right (by simp)] at h
    simp only [List.length_map, Nat.sub_self, List.getElem?_cons_zero, Option.getD_some] at h
    exact hn h

theorem media_layer {j : ℕ} (hj : j < p.epsLayers.length) : p.media.getD j 0 = csqrt (p.epsLayers.getD j 0) := by
  unfold Particle1.media
  rw [List.getD_eq_getElem?_getD, List.getElem?_append_left (by simpa using hj)]
  simp [hj]

theorem indices_host (hlen : p.epsLayers.length = p.rLayers.length) : p.indices.getD p.rLayers.length 0 = 1 := by
  have hl : (p.layers.map Prod.fst).length = p.rLayers.length := by simp [Particle1.layers, layersOf, hlen]
  unfold Particle1.indices
  rw [List.getD_eq_getElem?_getD, List.getElem?_append_right hl.le, hl]
  simp

theorem radius_lt (hp : RealHost p k0 e0) (hinc : strictlyIncreasing p.rLayers) {j : ℕ} (hj : j < p.rLayers.length) :
    p.radius j < p.radius (j + 1) := by
  rw [radius_succ]
  cases j with
  | zero =>
    show (0 : ℝ) < _
    rw [List.getD_eq_getElem?_getD, List.getElem?_eq_getElem hj]
    exact hp.radii _ (List.getElem_mem hj)
  | succ j =>
    rw [radius_succ]
    exact strictlyIncreasing_lt p.rLayers hinc j (j + 1) (by omega) hj

theorem radius_pos (hp : RealHost p k0 e0) {j : ℕ} (hj : j < p.rLayers.length) : 0 < p.radius (j + 1) := by
  rw [radius_succ, List.getD_eq_getElem?_getD, List.getElem?_eq_getElem hj]
  exact hp.radii _ (List.getElem_mem hj)

theorem fluxSum_cont {N : ℕ} {w w' : ℕ → Pol → Wave} {m m' : ℂ} {x : ℝ} (hm : m ≠ 0) (hm' : m' ≠ 0)
    (h : ∀ i < N, ∀ q, Cont q (i + 1) m m' x (w (i + 1) q) (w' (i + 1) q)) : fluxSum N w m x = fluxSum N w' m' x := by
  unfold fluxSum
  refine Finset.sum_congr rfl fun i hi => ?_
  have hi := Finset.mem_range.1 hi
  rw [flux_cont hm hm' (h i hi .tm), flux_cont hm hm' (h i hi .te)]

theorem fluxSum_center {N : ℕ} {w : ℕ → Pol → Wave} {m : ℂ} (h : ∀ i < N, ∀ q, (w (i + 1) q).a = 0) : fluxSum N w m 0 = 0 := by
  unfold fluxSum
  refine Finset.sum_eq_zero fun i hi => ?_
  have hi := Finset.mem_range.1 hi
  have e : ∀ q, flux q (w (i + 1) q) (i + 1) m 0 = 0 := by
    intro q
    have := h i hi q
    cases hh : w (i + 1) q
    rw [hh] at this
    simp only at this
    rw [this]
    exact flux_zero q _ _ _
  rw [e, e]
  simp

theorem fluxSum_host {w : ℕ → Pol → Wave} {a b : List ℂ} (hab : b.length = a.length) {k x : ℝ} (hx : x ≠ 0) (rS : ℝ)
    (h : ∀ i < a.length, w (i + 1) .tm = ⟨1, a.getD i 0⟩ ∧ w (i + 1) .te = ⟨1, b.getD i 0⟩) :
    2 * Real.pi / k ^ 2 * fluxSum a.length w 1 x = -(crossSections (k : ℂ) rS a b).csAbs := by
  rw [abs_ext_sca, csExt_sum k rS a b hab, csSca_sum k rS a b hab, ← mul_sub, ← mul_neg, ← Finset.sum_sub_distrib,
    ← Finset.sum_neg_distrib, fluxSum]
  congr 1
  refine Finset.sum_congr rfl fun i hi => ?_
  have hi := Finset.mem_range.1 hi
  rw [(h i hi).1, (h i hi).2]
  have h1 := host_flux (i + 1) (a.getD i 0) hx
  have h2 := host_flux (i + 1) (b.getD i 0) hx
  simp only [flux, one_mul, div_one]
  rw [h1, h2]
  ring

/-- Poynting's theorem for waves that solve the interface problem. -/
theorem LayerWaves.absorbed {a b : List ℂ} {W : ℕ → ℕ → Pol → Wave} (hW : LayerWaves p a b W) (hp : RealHost p k0 e0)
    (hinc : strictlyIncreasing p.rLayers) (hlen : p.epsLayers.length = p.rLayers.length) (hne : p.rLayers ≠ [])
    (hz : ∀ e ∈ p.epsLayers, e ≠ 0) (hab : b.length = a.length) (E0 : ℂ) (rS : ℝ) :
    AbsorbedInside p k0 (Real.sqrt e0) E0 a.length W (crossSections (p.k0 * csqrt p.epsEnv) rS a b) := by
  set ne := Real.sqrt e0 with hnedef
  have hnp : 0 < ne := Real.sqrt_pos.2 hp.env_pos
  have hk0 := hp.k0_pos
  have hk : 0 < k0 * ne := mul_pos hk0 hnp
  have hnE : csqrt p.epsEnv = (ne : ℂ) := by rw [hp.env_eq, csqrt_ofReal hp.env_pos.le]
  have hkE : p.k0 * csqrt p.epsEnv = ((k0 * ne : ℝ) : ℂ) := realHost_k hp
  have hL : 0 < p.rLayers.length := List.length_pos_iff.2 hne
  set m : ℕ → ℂ := fun j => p.indices.getD j 0 with hmdef
  have hm : ∀ j, j ≤ p.rLayers.length → m j ≠ 0 := fun j hj => indices_ne hp hlen hz hj
  have hmed : ∀ j, j < p.rLayers.length → csqrt (p.epsLayers.getD j 0) = m j * (ne : ℂ) := by
    intro j hj
    rw [← media_layer (by omega), media_indices hlen (by rw [hnE]; exact_mod_cast hnp.ne') hj.le, hnE]
  have hE : ∀ j, j < p.rLayers.length → layerE p E0 a.length W 0 j =
      fun r : ℝ => multiE E0 (m j * ne) (k0 * (m j * ne) * r) a.length (W j) := by
    intro j hj
    funext r t ph
    unfold layerE
    rw [hmed j hj, hp.k0_eq, ofReal_zero, add_zero]
  have hH : ∀ j, j < p.rLayers.length → layerH p E0 a.length W 0 j =
      fun r : ℝ => multiH E0 (m j * ne) (k0 * (m j * ne) * r) a.length (W j) := by
    intro j hj
    funext r t ph
    unfold layerH
    rw [hmed j hj, hp.k0_eq, ofReal_zero, add_zero]
  have heps : ∀ j, j < p.rLayers.length → p.epsLayers.getD j 0 = (m j * ne) ^ 2 := by
    intro j hj
    rw [← hmed j hj, csqrt_sq]
  have hreg : ∀ j, j < p.rLayers.length → RegularAt a.length (W j) (p.radius j) := by
    intro j hj
    cases j with
    | zero => exact Or.inr ⟨rfl, fun i hi q => hW.core i hi q⟩
    | succ j => exact Or.inl (radius_pos hp (by omega))
  set C := 2 * Real.pi * ‖E0‖ ^ 2 / (k0 ^ 2 * ne) with hC
  have hdis : ∀ j, j < p.rLayers.length → ∀ r, p.radius j ≤ r →
      dissipated k0 (p.epsLayers.getD j 0) (p.radius j) r (layerE p E0 a.length W 0 j) =
        C * (fluxSum a.length (W j) (m j) (k0 * ne * p.radius j) - fluxSum a.length (W j) (m j) (k0 * ne * r)) := by
    intro j hj r hr
    rw [hE j hj, heps j hj]
    exact dissipated_multi E0 (hm j hj.le) hk0 hnp hr (hreg j hj)
  have hstep : ∀ j, j < p.rLayers.length → fluxSum a.length (W j) (m j) (k0 * ne * p.radius (j + 1)) =
      fluxSum a.length (W (j + 1)) (m (j + 1)) (k0 * ne * p.radius (j + 1)) := by
    intro j hj
    refine fluxSum_cont (hm j hj.le) (hm (j + 1) hj) fun i hi q => ?_
    have := hW.cont i hi q j hj
    rw [hkE, ← radius_succ] at this
    exact_mod_cast this
  have hsum : ∀ J, J ≤ p.rLayers.length → ∑ j ∈ Finset.range J,
      dissipated k0 (p.epsLayers.getD j 0) (p.radius j) (p.radius (j + 1)) (layerE p E0 a.length W 0 j) =
      -(C * fluxSum a.length (W J) (m J) (k0 * ne * p.radius J)) := by
    intro J
    induction J with
    | zero =>
      intro _
      rw [Finset.sum_range_zero, show p.radius 0 = 0 from rfl, mul_zero, fluxSum_center hW.core, mul_zero, neg_zero]
    | succ J ih =>
      intro hJ
      rw [Finset.sum_range_succ, ih (by omega), hdis J (by omega) _ (radius_lt hp hinc (by omega)).le, hstep J (by omega)]
      ring
  refine ⟨?_, fun j hj r h1 h2 => ?_⟩
  · rw [hsum _ le_rfl, hkE]
    obtain ⟨l, hl⟩ : ∃ l, p.rLayers.length = l + 1 := ⟨p.rLayers.length - 1, by omega⟩
    have hx : k0 * ne * p.radius p.rLayers.length ≠ 0 := by
      rw [hl]; exact (mul_pos hk (radius_pos hp (by omega))).ne'
    have h := fluxSum_host (k := k0 * ne) hab hx rS hW.host
    rw [show m p.rLayers.length = 1 from indices_host hlen]
    have e : (crossSections ((k0 * ne : ℝ) : ℂ) rS a b).csAbs =
        -(2 * Real.pi / (k0 * ne) ^ 2 * fluxSum a.length (W p.rLayers.length) 1 (k0 * ne * p.radius p.rLayers.length)) := by
      rw [h, neg_neg]
    rw [e, hC]
    field_simp
  · have hr0 : 0 < r := lt_of_le_of_lt (by rcases hreg j hj with h | h; exacts [h.le, h.1.ge]) h1
    have hr : 0 < k0 * ne * r := mul_pos hk hr0
    rw [hsum j hj.le, hdis j hj r h1.le, hE j hj, hH j hj]
    have := sphereFlux_multi E0 (hm j hj.le) (ne := ne) hr a.length (W j)
    simp only
    rw [show (k0 : ℂ) * (m j * ne) * r = m j * ((k0 * ne * r : ℝ) : ℂ) by push_cast; ring]
    have h2 : sphereFlux (multiE E0 (m j * ne) (m j * ((k0 * ne * r : ℝ) : ℂ)) a.length (W j))
        (multiH E0 (m j * ne) (m j * ((k0 * ne * r : ℝ) : ℂ)) a.length (W j)) =
        2 * Real.pi * ‖E0‖ ^ 2 * ne * fluxSum a.length (W j) (m j) (k0 * ne * r) / (k0 * ne * r) ^ 2 := by
      rw [eq_div_iff (by positivity), ← this]; ring
    rw [h2, hC]
    field_simp
    ring

end

/-! ## C75, pena -/

/-- The fields returned inside layer `j` are those of the waves. -/
def InsideFields (E0 : ℂ) (p : Particle1) (N : ℕ) (W : ℕ → ℕ → Pol → Wave) (eps : ℝ) (j : ℕ) (v : V3 ℝ) (F : Fields) : Prop :=
  F.Et = layerE p E0 N W eps j v.dist v.polar v.azimuth ∧ F.Ht = layerH p E0 N W eps j v.dist v.polar v.azimuth

/-- `nearfields` of the pena backend inside the particle: the fields of one set of waves. -/
theorem pena_inside {B : Backends} {p : Particle1} {backend w : String} {nMax : Option ℤ} {ri : Bool} {o : MieOut}
    (hb : backend.toLower = "pena") (h : mieCoefficients idealD1 B p backend w nMax ri = .ok o)
    (hc : SolverClear idealFn o.nMax.toNat p.layers)
    (hbd : ∀ l ∈ p.layers, ∀ i, 1 ≤ i → i ≤ o.nMax.toNat →
      ‖ricPsi i (l.1 * l.2)‖ ≤ 1e30 ∧ ‖ricZeta i (l.1 * l.2)‖ ≤ 1e30) (E0 : ℂ) :
    ∃ W, (∀ (eps : ℝ) (v : V3 ℝ) (j : ℕ), j < p.rLayers.length → InRegion p.rLayers j v.dist →
        KernelOK o.a.length (p.k0 * csqrt (p.epsLayers.getD j 0) * v.dist + eps) solverEps →
        ∃ F, nearfieldsPena idealD1 p.k0 p.rLayers p.epsLayers p.epsEnv E0 o.a o.b v eps = .ok F ∧
          InsideFields E0 p o.a.length W eps j v F) ∧ LayerWaves p o.a o.b W := by
  have run := mieCoefficients_pena_inv hb h
  obtain ⟨la, lb, -⟩ := C11_interface_conditions hb h hc
  obtain ⟨regs, hregs, hlen, hcont, hcore, hhost⟩ := C14_region_coefficients hb h hc hbd true
  have hpos := run.pos
  have hal : ((o.a.length : ℕ) : ℤ) = o.nMax := by rw [la]; omega
  have hget : ∀ j r, regs[j]? = some r → regs.getD j ⟨[], [], [], []⟩ = r := fun j r hr => by
    rw [List.getD_eq_getElem?_getD, hr]; rfl
  refine ⟨fun j i => (regs.getD j ⟨[], [], [], []⟩).wave i, fun eps v j hj hv hker => ?_, ?_⟩
  · have hm : (p.epsLayers.map csqrt ++ [csqrt p.epsEnv]).getD j 0 = csqrt (p.epsLayers.getD j 0) :=
      media_layer (p := p) (by rw [run.len]; exact hj)
    have hP := nearfieldsPena_waves (E0 := E0) (v := v) (eps := eps) (b := o.b) run.ne run.inc (by rw [la]; omega)
      (by rw [hal]; exact hregs) hv (by rw [hm]; exact hker)
    have hout : ¬ p.rLayers.getLastD 0 < v.dist := by
      have hlast : p.rLayers.getLastD 0 = p.rLayers.getD (p.rLayers.length - 1) 0 := by
        rw [List.getLastD_eq_getLast?, List.getLast?_eq_getElem?, List.getD_eq_getElem?_getD]
      rw [hlast, not_lt]
      refine (hv.2.2 hj).trans ?_
      rcases Nat.lt_or_ge j (p.rLayers.length - 1) with h1 | h1
      · exact (strictlyIncreasing_lt p.rLayers run.inc j (p.rLayers.length - 1) h1 (by omega)).le
      · obtain rfl : j = p.rLayers.length - 1 := by omega
        exact le_rfl
    have hjl : (j == p.rLayers.length) = false := by simp; omega
    refine ⟨_, hP, ?_, ?_⟩
    · simp only [fieldsAt, if_neg hout, hjl, hm]
      rfl
    · simp only [fieldsAt, if_neg hout, hjl, hm]
      rfl
  · refine ⟨fun i hi q j hj => ?_, fun i hi q => ?_, fun i hi => ?_⟩
    · obtain ⟨r, r', e1, e2, hC⟩ := hcont (i + 1) (by omega) (by omega) q j hj
      rw [hget j r e1, hget (j + 1) r' e2, ← run.k]
      exact hC
    · obtain ⟨r, e1, hC⟩ := hcore (i + 1) (by omega) (by omega) q
      rw [hget 0 r e1]; exact hC
    · obtain ⟨r, e1, h1, h2⟩ := hhost (i + 1) (by omega) (by omega)
      rw [hget _ r e1]; exact ⟨h1, h2⟩

/-- C75, pena backend with the exact logarithmic derivative, any number of layers: inside every layer `nearfields` returns the fields
of one set of waves, and these fields dissipate exactly the absorption cross section that `cross_sections` computes. -/
theorem C75_pena {B : Backends} {p : Particle1} {backend w : String} {nMax : Option ℤ} {ri : Bool} {o : MieOut}
    (hb : backend.toLower = "pena") (h : mieCoefficients idealD1 B p backend w nMax ri = .ok o)
    (hc : SolverClear idealFn o.nMax.toNat p.layers)
    (hbd : ∀ l ∈ p.layers, ∀ i, 1 ≤ i → i ≤ o.nMax.toNat →
      ‖ricPsi i (l.1 * l.2)‖ ≤ 1e30 ∧ ‖ricZeta i (l.1 * l.2)‖ ≤ 1e30) {k0 e0 : ℝ} (hp : RealHost p k0 e0)
    (hz : ∀ e ∈ p.epsLayers, e ≠ 0) (E0 : ℂ) :
    ∃ W, (∀ (eps : ℝ) (v : V3 ℝ) (j : ℕ), j < p.rLayers.length → InRegion p.rLayers j v.dist →
        KernelOK o.a.length (p.k0 * csqrt (p.epsLayers.getD j 0) * v.dist + eps) solverEps →
        ∃ F, nearfieldsPena idealD1 p.k0 p.rLayers p.epsLayers p.epsEnv E0 o.a o.b v eps = .ok F ∧
          InsideFields E0 p o.a.length W eps j v F) ∧
      AbsorbedInside p k0 (Real.sqrt e0) E0 o.a.length W (crossSections o.k o.rS o.a o.b) := by
  have run := mieCoefficients_pena_inv hb h
  obtain ⟨la, lb, -⟩ := C11_interface_conditions hb h hc
  obtain ⟨W, hF, hW⟩ := pena_inside hb h hc hbd E0
  refine ⟨W, hF, ?_⟩
  rw [run.k]
  exact hW.absorbed hp run.inc run.len run.ne hz (by rw [la, lb]) E0 o.rS

/-! ## C75, torch and scipy -/

/-- The waves of the closed form in the regions of a homogeneous or core-shell particle. -/
noncomputable def csWaves (p : Particle1) (co : List CoreShellOut) (j i : ℕ) : Pol → Wave :=
  let c := co.getD (i - 1) noOrder
  if j = p.rLayers.length then c.hostWave else if j = 0 then c.coreWave else c.shellWave

theorem csWaves_layer {K : D1Kernel} {B : Backends} {p : Particle1} {backend w : String} {nMax : Option ℤ} {o : MieOut}
    (hb : backend.toLower = "torch" ∨ backend.toLower = "scipy") (h : mieCoefficients K B p backend w nMax true = .ok o)
    (hpos : 1 ≤ o.nMax) (hS : ∀ S, selectBessel B backend w = .ok S → ∀ z ∈ csArgs p.layers, ExactAt S o.nMax.toNat z)
    (hne : ∀ l ∈ p.layers, l.1 ≠ 0 ∧ l.2 ≠ 0) (hsol : ∀ q i, 1 ≤ i → i ≤ o.nMax.toNat → ∃ a, Solves q i p.layers a) :
    ∃ co, o.internal = some co ∧ co.length = o.a.length ∧ LayerWaves p o.a o.b (csWaves p co) := by
  have hpe : backend.toLower ≠ "pena" := by rcases hb with h | h <;> rw [h] <;> decide
  obtain ⟨m1, x, m2, y, run⟩ := mieCoefficients_cs_inv hpe h
  have hB := mieCoefficients_basic h
  obtain ⟨S, out, hsel, hm, ea, eb, ei⟩ := run.run
  have hex := hS S hsel
  have hN : ((o.nMax.toNat : ℕ) : ℤ) = o.nMax := Int.toNat_of_nonneg (by omega)
  obtain ⟨n, hn⟩ : ∃ n, o.nMax.toNat = n + 1 := ⟨o.nMax.toNat - 1, by omega⟩
  rw [← hN, hn] at hm
  rw [hn] at hex
  have hlen := hB.len
  refine ⟨out, by rw [ei]; rfl, by rw [ea, List.length_map], ?_⟩
  have hl := run.layers
  obtain ⟨pk, rs, es, ee⟩ := p
  simp only at hlen
  rcases hl with hl | ⟨hl, rfl, rfl⟩
  · have hrs : rs.length = 2 := by
      have := congrArg List.length hl
      simp [Particle1.layers, layersOf, hlen] at this
      exact this
    obtain ⟨r, r', rfl⟩ := List.length_eq_two.mp hrs
    obtain ⟨e, e', rfl⟩ := List.length_eq_two.mp (hlen.trans hrs)
    rw [hl] at hex hne hsol
    have hli : (⟨pk, [r, r'], [e, e'], ee⟩ : Particle1).layers = [(csqrt e / csqrt ee, pk * csqrt ee * (r : ℂ)),
      (csqrt e' / csqrt ee, pk * csqrt ee * (r' : ℂ))] := rfl
    have hli' := hli.symm.trans hl
    simp only [List.cons.injEq, Prod.mk.injEq, and_true] at hli'
    obtain ⟨⟨rfl, rfl⟩, rfl, rfl⟩ := hli'
    set m1 := csqrt e / csqrt ee
    set m2 := csqrt e' / csqrt ee
    set x := pk * csqrt ee * (r : ℂ)
    set y := pk * csqrt ee * (r' : ℂ)
    have e1 := hne (m1, x) (by simp)
    have e2 := hne (m2, y) (by simp)
    rw [miecoef_exact (hex _ (by simp [csArgs])) (hex _ (by simp [csArgs])) (hex _ (by simp [csArgs])) (hex _ (by simp [csArgs]))] at hm
    injection hm with hm
    have hol : o.a.length = n + 1 := by rw [ea, ← hm]; simp
    have hg : ∀ i < o.a.length, out.getD i noOrder = miecoefOrder (exactIn (i + 1) m1 m2 x y) := by
      intro i hi
      rw [← hm, List.getD_eq_getElem?_getD, tab_getElem?, if_pos (by omega)]
      rfl
    have hw : ∀ i < o.a.length, ∀ q, Cont q (i + 1) m1 m2 x ((miecoefOrder (exactIn (i + 1) m1 m2 x y)).coreWave q) ((miecoefOrder (exactIn (i + 1) m1 m2 x y)).shellWave q) ∧
        Cont q (i + 1) m2 1 y ((miecoefOrder (exactIn (i + 1) m1 m2 x y)).shellWave q) ((miecoefOrder (exactIn (i + 1) m1 m2 x y)).hostWave q) := fun i hi q => by
      obtain ⟨a, sa⟩ := hsol .tm (i + 1) (by omega) (by omega)
      obtain ⟨b, sb⟩ := hsol .te (i + 1) (by omega) (by omega)
      exact coated_waves e1.1 e2.1 e1.2 e2.2 sa sb q
    refine ⟨fun i hi q j hj => ?_, fun i hi q => ?_, fun i hi => ?_⟩
    · simp only [csWaves, Nat.add_sub_cancel, hg i hi]
      obtain rfl | rfl : j = 0 ∨ j = 1 := by simp at hj; omega
      · exact (hw i hi q).1
      · exact (hw i hi q).2
    · simp only [csWaves, Nat.add_sub_cancel, hg i hi]
      cases q <;> rfl
    · have ha : i < out.length := by rw [← hm]; simp; omega
      simp only [csWaves, Nat.add_sub_cancel, if_true, ea, eb, List.getD_eq_getElem?_getD, List.getElem?_map,
        List.getElem?_eq_getElem ha, Option.map_some, Option.getD_some]
      exact ⟨rfl, rfl⟩
  · have hrs : rs.length = 1 := by
      have := congrArg List.length hl
      simp [Particle1.layers, layersOf, hlen] at this
      exact this
    obtain ⟨r, rfl⟩ := List.length_eq_one_iff.mp hrs
    obtain ⟨e, rfl⟩ := List.length_eq_one_iff.mp (hlen.trans hrs)
    rw [hl] at hex hne hsol
    have hli : (⟨pk, [r], [e], ee⟩ : Particle1).layers = [(csqrt e / csqrt ee, pk * csqrt ee * (r : ℂ))] := rfl
    have hli' := hli.symm.trans hl
    simp only [List.cons.injEq, Prod.mk.injEq, and_true] at hli'
    obtain ⟨rfl, rfl⟩ := hli'
    set m1 := csqrt e / csqrt ee
    set x := pk * csqrt ee * (r : ℂ)
    have e1 := hne (m1, x) (by simp)
    rw [miecoef_exact (hex _ (by simp [csArgs])) (hex _ (by simp [csArgs])) (hex _ (by simp [csArgs])) (hex _ (by simp [csArgs]))] at hm
    injection hm with hm
    have hol : o.a.length = n + 1 := by rw [ea, ← hm]; simp
    have hg : ∀ i < o.a.length, out.getD i noOrder = miecoefOrder (exactIn (i + 1) m1 m1 x x) := by
      intro i hi
      rw [← hm, List.getD_eq_getElem?_getD, tab_getElem?, if_pos (by omega)]
      rfl
    have hw : ∀ i < o.a.length, ∀ q, Cont q (i + 1) m1 m1 x ((miecoefOrder (exactIn (i + 1) m1 m1 x x)).coreWave q) ((miecoefOrder (exactIn (i + 1) m1 m1 x x)).shellWave q) ∧
        Cont q (i + 1) m1 1 x ((miecoefOrder (exactIn (i + 1) m1 m1 x x)).shellWave q) ((miecoefOrder (exactIn (i + 1) m1 m1 x x)).hostWave q) := fun i hi q => by
      obtain ⟨a, sa⟩ := hsol .tm (i + 1) (by omega) (by omega)
      obtain ⟨b, sb⟩ := hsol .te (i + 1) (by omega) (by omega)
      exact coated_waves e1.1 e1.1 e1.2 e1.2 ((solves_twice e1.1 e1.2).2 sa) ((solves_twice e1.1 e1.2).2 sb) q
    refine ⟨fun i hi q j hj => ?_, fun i hi q => ?_, fun i hi => ?_⟩
    · simp only [csWaves, Nat.add_sub_cancel, hg i hi]
      obtain rfl : j = 0 := by simp at hj; omega
      have hcs := (Cont.unique_inner e1.1 (mul_ne_zero e1.1 e1.2) (hw i hi q).1 (cont_self q (i + 1) m1 x _)).symm
      have := (hw i hi q).2
      rw [hcs] at this
      exact this
    · simp only [csWaves, Nat.add_sub_cancel, hg i hi]
      cases q <;> rfl
    · have ha : i < out.length := by rw [← hm]; simp; omega
      simp only [csWaves, Nat.add_sub_cancel, if_true, ea, eb, List.getD_eq_getElem?_getD, List.getElem?_map,
        List.getElem?_eq_getElem ha, Option.map_some, Option.getD_some]
      exact ⟨rfl, rfl⟩

theorem media_arg_ne' {p : Particle1} {k0 e0 : ℝ} (hp : RealHost p k0 e0) (hz : ∀ e ∈ p.epsLayers, e ≠ 0) {eps : ℝ} (he : 0 ≤ eps)
    {r : ℝ} (hr : 0 < r) : ∀ m ∈ p.media, p.k0 * m * r + eps ≠ 0 := by
  intro m hm
  rcases he.lt_or_eq with he | rfl
  · exact media_arg_ne hp he hr.le m hm
  · have h1 : m ≠ 0 := by
      simp only [Particle1.media, List.mem_append, List.mem_map, List.mem_singleton] at hm
      rcases hm with ⟨e, h1, rfl⟩ | rfl
      · exact csqrt_ne_zero (hz e h1)
      · rw [hp.env_eq]; exact csqrt_ne_zero (by exact_mod_cast hp.env_pos.ne')
    rw [ofReal_zero, add_zero, hp.k0_eq]
    have h2 := hp.k0_pos.ne'
    exact mul_ne_zero (mul_ne_zero (by exact_mod_cast h2) h1) (by exact_mod_cast hr.ne')

/-- `nearfields` of the torch and scipy backends inside the particle. -/
theorem torch_inside {K : D1Kernel} {B : Backends} {p : Particle1} {backend w : String} {nMax : Option ℤ} {o : MieOut}
    (hb : backend.toLower = "torch" ∨ backend.toLower = "scipy") (h : mieCoefficients K B p backend w nMax true = .ok o)
    (hne : o.a ≠ []) {k0 e0 : ℝ} (hp : RealHost p k0 e0) (hz : ∀ e ∈ p.epsLayers, e ≠ 0) (E0 : ℂ) {Bc Bs B2 Bo : BesselBackend}
    (hBc : ∀ z, z ≠ 0 → ExactAt Bc o.a.length z) (hBs : ∀ z, z ≠ 0 → ExactAt Bs o.a.length z)
    (hB2 : ∀ z, z ≠ 0 → ExactAt B2 o.a.length z) (hBo : ∀ z, z ≠ 0 → ExactAt Bo o.a.length z) {co : List CoreShellOut}
    (hco : o.internal = some co) {eps : ℝ} {v : V3 ℝ} {j : ℕ} (he : 0 ≤ eps) (hv : 0 < v.dist) (hj : j < p.rLayers.length)
    (hR : InRegion p.rLayers j v.dist) :
    ∃ F, nearfieldsTorch Bc Bs B2 Bo p.k0 o.k (csqrt o.epsC) (csqrt o.epsS) o.nEnv o.rC o.rS E0 co v eps = .ok F ∧
      InsideFields E0 p o.a.length (csWaves p co) eps j v F := by
  obtain ⟨hinc, hlen, hL, n, out, rfl⟩ := mieCoefficients_cs_meta hb h
  obtain rfl : out = co := by simpa [Particle1.meta] using hco
  have hnz := media_arg_ne' hp hz he hv
  have hal : (p.meta n out true).a.length = out.length := by simp [Particle1.meta]
  have hmC : csqrt (p.epsLayers.headD 0) ∈ p.media := by
    rcases hes : p.epsLayers with _ | ⟨e, es⟩
    · rw [hes] at hlen; simp at hlen; omega
    · simp [Particle1.media, hes]
  have hmS : csqrt (p.epsLayers.getLastD 0) ∈ p.media := by
    have hne : p.epsLayers ≠ [] := by
      intro h0; rw [h0] at hlen; simp at hlen; omega
    rw [List.getLastD_eq_getLast?, List.getLast?_eq_getLast_of_ne_nil hne]
    exact List.mem_append_left _ (List.mem_map_of_mem (List.getLast_mem hne))
  have hmE : csqrt p.epsEnv ∈ p.media := by simp [Particle1.media]
  have h1 : 1 ≤ out.length := by rw [← hal]; exact List.length_pos_iff.2 hne
  rw [hal] at hBc hBs hB2 hBo
  have hT := nearfieldsTorch_waves (k0 := p.k0) (k := p.k0 * csqrt p.epsEnv) (E0 := E0) (rC := p.rLayers.headD 0)
    (rS := p.rLayers.getLastD 0) h1 (fun i => out.getD i noOrder) (v := v) (eps := eps) (hBc _ (hnz _ hmC))
    (hBs _ (hnz _ hmS)) (hB2 _ (hnz _ hmS)) (hBo _ (hnz _ hmE))
  have ho : (List.range out.length).map (fun i => out.getD i noOrder) = out := by
    have := range_map_getD id noOrder out
    simpa using this
  rw [ho] at hT
  have hout : ¬ p.rLayers.getLastD 0 < v.dist ∧ ∀ i ∈ List.range out.length,
      torchOrder (EnCoef E0 (i + 1)) (out.getD i noOrder) (csqrt (p.epsLayers.headD 0))
        (csqrt (p.epsLayers.getLastD 0)) (csqrt p.epsEnv) (p.rLayers.headD 0) (p.rLayers.getLastD 0) v.dist
        (vshExact (i + 1) v.polar v.azimuth (p.k0 * csqrt (p.epsLayers.headD 0) * v.dist + eps) (ricPsi (i + 1)))
        (vshExact (i + 1) v.polar v.azimuth (p.k0 * csqrt (p.epsLayers.getLastD 0) * v.dist + eps) (ricPsi (i + 1)))
        (vshExact (i + 1) v.polar v.azimuth (p.k0 * csqrt (p.epsLayers.getLastD 0) * v.dist + eps) (ricChi (i + 1)))
        (vshExact (i + 1) v.polar v.azimuth (p.k0 * csqrt p.epsEnv * v.dist + eps) (ricZeta (i + 1))) =
      waveField false E0 (csqrt (p.epsLayers.getD j 0)) (p.k0 * csqrt (p.epsLayers.getD j 0) * v.dist + eps) v.polar v.azimuth (i + 1)
        (csWaves p out j (i + 1)) := by
    have key := fun i => torchOrder_waves E0 (out.getD i noOrder) (csqrt (p.epsLayers.headD 0)) (csqrt (p.epsLayers.getLastD 0))
      (csqrt p.epsEnv) (p.rLayers.headD 0) (p.rLayers.getLastD 0) v.dist v.polar v.azimuth (i + 1)
      (zc := p.k0 * csqrt (p.epsLayers.headD 0) * v.dist + eps) (zo := p.k0 * csqrt p.epsEnv * v.dist + eps) (hnz _ hmS)
    obtain ⟨-, hlo, hup⟩ := hR
    replace hup := hup hj
    clear hT hco hnz hp h
    obtain ⟨pk, rs, es, ee⟩ := p
    simp only at hlen hL hj hlo hup hinc key ⊢
    rcases hL with hL | hL
    · obtain ⟨r, rfl⟩ := List.length_eq_one_iff.mp hL
      obtain ⟨e, rfl⟩ := List.length_eq_one_iff.mp (hlen.trans hL)
      obtain rfl : j = 0 := by simp at hj; omega
      simp only [List.getD_cons_zero] at hup
      refine ⟨by simpa using hup, fun i _ => ?_⟩
      refine ((key i).2.2 (by simpa using hup) (by simpa using hup)).trans ?_
      simp [csWaves]
    · obtain ⟨r, r', rfl⟩ := List.length_eq_two.mp hL
      obtain ⟨e, e', rfl⟩ := List.length_eq_two.mp (hlen.trans hL)
      have hrr : r < r' := hinc.1
      obtain rfl | rfl : j = 0 ∨ j = 1 := by simp at hj; omega
      · simp only [List.getD_cons_zero] at hup
        have h2 : v.dist ≤ r' := hup.trans hrr.le
        refine ⟨by simpa using h2, fun i _ => ?_⟩
        refine ((key i).2.2 (by simpa using hup) (by simpa using h2)).trans ?_
        simp [csWaves]
      · have h3 : r < v.dist := by simpa using hlo 0 (by omega)
        have h2 : v.dist ≤ r' := by simpa using hup
        refine ⟨by simpa using h2, fun i _ => ?_⟩
        refine ((key i).2.1 (by simpa using h3) (by simpa using h2)).trans ?_
        simp [csWaves]
  obtain ⟨hout, key⟩ := hout
  refine ⟨_, hT, ?_, ?_⟩
  · simp only [fieldsAt, if_neg hout]
    rw [List.map_congr_left fun i hi => congrArg Prod.fst (key i hi), hal]
    rfl
  · simp only [fieldsAt, if_neg hout]
    rw [List.map_congr_left fun i hi => congrArg Prod.snd (key i hi), hal]
    rfl

/-- C75, torch and scipy backends: inside the core and the shell `nearfields` returns the fields of one set of waves, and these fields
dissipate exactly the absorption cross section that `cross_sections` computes.  The interface problem must have a solution; passive
particles always have one. -/
theorem C75_core_shell {K : D1Kernel} {B : Backends} {p : Particle1} {backend w : String} {nMax : Option ℤ} {o : MieOut}
    (hb : backend.toLower = "torch" ∨ backend.toLower = "scipy") (h : mieCoefficients K B p backend w nMax true = .ok o)
    (hpos : 1 ≤ o.nMax) (hS : ∀ S, selectBessel B backend w = .ok S → ∀ z ∈ csArgs p.layers, ExactAt S o.nMax.toNat z)
    {k0 e0 : ℝ} (hp : RealHost p k0 e0) (hz : ∀ e ∈ p.epsLayers, e ≠ 0)
    (hsol : ∀ q i, 1 ≤ i → i ≤ o.nMax.toNat → ∃ a, Solves q i p.layers a) (E0 : ℂ) {Bc Bs B2 Bo : BesselBackend}
    (hBc : ∀ z, z ≠ 0 → ExactAt Bc o.a.length z) (hBs : ∀ z, z ≠ 0 → ExactAt Bs o.a.length z)
    (hB2 : ∀ z, z ≠ 0 → ExactAt B2 o.a.length z) (hBo : ∀ z, z ≠ 0 → ExactAt Bo o.a.length z) :
    ∃ co W, o.internal = some co ∧ (∀ (eps : ℝ) (v : V3 ℝ) (j : ℕ), 0 ≤ eps → 0 < v.dist → j < p.rLayers.length →
        InRegion p.rLayers j v.dist →
        ∃ F, nearfieldsTorch Bc Bs B2 Bo p.k0 o.k (csqrt o.epsC) (csqrt o.epsS) o.nEnv o.rC o.rS E0 co v eps = .ok F ∧
          InsideFields E0 p o.a.length W eps j v F) ∧
      AbsorbedInside p k0 (Real.sqrt e0) E0 o.a.length W (crossSections o.k o.rS o.a o.b) := by
  have hpe : backend.toLower ≠ "pena" := by rcases hb with h | h <;> rw [h] <;> decide
  have hl := layers_ne hp hz
  obtain ⟨co, hco, hcl, hW⟩ := csWaves_layer hb h hpos hS hl hsol
  have run := ExactRun.of_coreShell hpe h hpos hS hl hsol
  have hB := mieCoefficients_basic h
  have hne : o.a ≠ [] := by
    intro h0
    have := run.lenA
    rw [h0] at this
    simp at this
    omega
  refine ⟨co, csWaves p co, hco, fun eps v j he hv hj hR => torch_inside hb h hne hp hz E0 hBc hBs hB2 hBo hco he hv hj hR, ?_⟩
  rw [run.k]
  exact hW.absorbed hp hB.inc hB.len hB.ne hz (by rw [run.lenA, run.lenB]) E0 o.rS

/-- C75 for passive particles: what every layer dissipates is nonnegative, and zero in a lossless layer. -/
theorem C75_passive {p : Particle1} {k0 n : ℝ} {E0 : ℂ} {N : ℕ} {W : ℕ → ℕ → Pol → Wave} {cs : CrossSections}
    (h : AbsorbedInside p k0 n E0 N W cs) {e0 : ℝ} (hp : RealHost p k0 e0) (hinc : strictlyIncreasing p.rLayers)
    (hpass : ∀ e ∈ p.epsLayers, 0 ≤ e.im) :
    (∀ j < p.rLayers.length, 0 ≤ dissipated k0 (p.epsLayers.getD j 0) (p.radius j) (p.radius (j + 1)) (layerE p E0 N W 0 j)) ∧
    (∀ j < p.rLayers.length, dissipated k0 (p.epsLayers.getD j 0) (p.radius j) (p.radius (j + 1)) (layerE p E0 N W 0 j) ≤
      n * ‖E0‖ ^ 2 * cs.csAbs) ∧
    ∀ j < p.rLayers.length, ∀ r : ℝ, p.radius j < r → r ≤ p.radius (j + 1) →
      sphereFlux (layerE p E0 N W 0 j r) (layerH p E0 N W 0 j r) ≤ 0 := by
  have him : ∀ j, 0 ≤ (p.epsLayers.getD j 0).im := by
    intro j
    rw [List.getD_eq_getElem?_getD]
    rcases Nat.lt_or_ge j p.epsLayers.length with h1 | h1
    · rw [List.getElem?_eq_getElem h1]; exact hpass _ (List.getElem_mem h1)
    · rw [List.getElem?_eq_none h1]; simp
  have hn2 : ∀ E : ℝ → ℝ → V3 ℂ, 0 ≤ sphereNorm2 E := by
    intro E
    refine intervalIntegral.integral_nonneg (by positivity) fun ph _ => intervalIntegral.integral_nonneg Real.pi_pos.le fun t ht => ?_
    exact mul_nonneg (by unfold V3.norm2; positivity) (Real.sin_nonneg_of_mem_Icc ht)
  have hd : ∀ j a b, a ≤ b → 0 ≤ dissipated k0 (p.epsLayers.getD j 0) a b (layerE p E0 N W 0 j) := by
    intro j a b hab
    exact mul_nonneg (mul_nonneg hp.k0_pos.le (him j))
      (intervalIntegral.integral_nonneg hab fun r _ => mul_nonneg (sq_nonneg r) (hn2 _))
  have h0 : ∀ j < p.rLayers.length, 0 ≤ p.radius j := by
    intro j hj
    cases j with
    | zero => exact le_rfl
    | succ j => exact (radius_pos hp (by omega)).le
  have hd' : ∀ j < p.rLayers.length, 0 ≤ dissipated k0 (p.epsLayers.getD j 0) (p.radius j) (p.radius (j + 1)) (layerE p E0 N W 0 j) :=
    fun j hj => hd j _ _ (radius_lt hp hinc hj).le
  refine ⟨hd', fun j hj => ?_, fun j hj r h1 h2 => ?_⟩
  · rw [← h.total]
    exact Finset.single_le_sum (f := fun j => dissipated k0 (p.epsLayers.getD j 0) (p.radius j) (p.radius (j + 1)) (layerE p E0 N W 0 j))
      (fun i hi => hd' i (Finset.mem_range.1 hi)) (Finset.mem_range.2 hj)
  · have hin := h.inward j hj r h1 h2
    have hs : 0 ≤ -(r ^ 2 * sphereFlux (layerE p E0 N W 0 j r) (layerH p E0 N W 0 j r)) := by
      rw [hin]
      refine add_nonneg (Finset.sum_nonneg fun i hi => hd' i ?_) (hd j _ _ h1.le)
      have := Finset.mem_range.1 hi
      omega
    have hr : 0 < r ^ 2 := by have := lt_of_le_of_lt (h0 j hj) h1; positivity
    by_contra hc
    rw [not_le] at hc
    have := mul_pos hr hc
    linarith

/-! ## Examples -/

/-- A sphere with an absorbing core of index squared `2 + i` and a transparent shell, in vacuum. -/
noncomputable def lossyDemo : Particle1 := ⟨1, [1, 2], [2 + I, 3], 1⟩

theorem lossyDemo_host : RealHost lossyDemo 1 1 := by
  refine ⟨by simp [lossyDemo], by norm_num, by simp [lossyDemo], by norm_num, ?_⟩
  intro r hr
  simp only [lossyDemo, List.mem_cons, List.not_mem_nil, or_false] at hr
  rcases hr with rfl | rfl <;> norm_num

theorem lossyDemo_eps : (∀ e ∈ lossyDemo.epsLayers, 0 ≤ e.im) ∧ ∀ e ∈ lossyDemo.epsLayers, e ≠ 0 := by
  constructor
  all_goals
    intro e he
    simp only [lossyDemo, List.mem_cons, List.not_mem_nil, or_false] at he
    rcases he with rfl | rfl
  · simp
  · simp
  · intro h; simpa using congrArg im h
  · norm_num

/-- C75 for the absorbing particle, torch backend, any number of orders: the transparent shell dissipates nothing, the core
dissipates the whole absorption cross section. -/
example (n : ℕ) : ∃ o W, mieCoefficients idealD1 exactBackends lossyDemo "torch" "recurrence" (some ((n + 1 : ℕ) : ℤ)) true = .ok o ∧
    dissipated 1 (2 + I) 0 1 (layerE lossyDemo 1 o.a.length W 0 0) = (crossSections o.k o.rS o.a o.b).csAbs := by
  have hinc : strictlyIncreasing lossyDemo.rLayers := ⟨by norm_num, trivial⟩
  have hl := csArgs_ne (layers_ne lossyDemo_host lossyDemo_eps.2)
  obtain ⟨o, h, hn⟩ := mieCoefficients_torch_ok (K := idealD1) (p := lossyDemo) (n := n) rfl rfl (by norm_num) hl true
  have hS : ∀ S, selectBessel exactBackends "torch" "recurrence" = .ok S → ∀ z ∈ csArgs lossyDemo.layers, ExactAt S o.nMax.toNat z := by
    intro S hS z hz
    have ht : "torch".toLower = "torch" := by decide +kernel
    have hw : "recurrence".toLower = "recurrence" := by decide +kernel
    simp only [selectBessel, ht, hw, exactBackends] at hS
    rw [if_neg (by decide), if_pos (by decide)] at hS
    rw [← Except.ok.inj hS]
    exact exactBessel_at (hl z hz)
  obtain ⟨co, W, -, -, hA⟩ := C75_core_shell (Or.inl (by decide +kernel)) h (by rw [hn]; omega) hS lossyDemo_host lossyDemo_eps.2
    (fun q i _ _ => (C68_solvable lossyDemo_host hinc rfl (by simp [lossyDemo]) lossyDemo_eps.1 lossyDemo_eps.2 q i).exists)
    1 (Bc := exactBessel) (Bs := exactBessel) (B2 := exactBessel) (Bo := exactBessel) (fun z hz => exactBessel_at hz)
    (fun z hz => exactBessel_at hz) (fun z hz => exactBessel_at hz) (fun z hz => exactBessel_at hz)
  refine ⟨o, W, h, ?_⟩
  have ht := hA.total
  simp only [lossyDemo, Particle1.radius, List.length_cons, List.length_nil, Finset.sum_range_succ, Finset.sum_range_zero] at ht
  simp only [dissipated, lossyDemo] at ht ⊢
  simpa using ht

/-- C75, pena backend: the hypotheses hold for the transparent core-shell particle, which therefore absorbs nothing. -/
example (B : Backends) : ∃ o W, mieCoefficients idealD1 B demoParticle "pena" "recurrence" (some 1) = .ok o ∧
    AbsorbedInside demoParticle 1 1 1 o.a.length W (crossSections o.k o.rS o.a o.b) := by
  obtain ⟨o, h, hn⟩ := demo_run B
  have h1 : o.nMax.toNat = 1 := by rw [hn]; rfl
  obtain ⟨W, -, hA⟩ := C75_pena (by decide +kernel) h (by rw [h1, demo_layers]; exact demo_clear)
    (by rw [h1, demo_layers]; exact demo_bounds) demo_realHost (by
      intro e he
      simp only [demoParticle, List.mem_cons, List.not_mem_nil, or_false] at he
      rcases he with rfl | rfl <;> norm_num) 1
  rw [Real.sqrt_one] at hA
  exact ⟨o, W, h, hA⟩

end MieDiff
