import Verif.Props.Solver

/-!
# Single-channel limits (C66)

A passive particle in a lossless host cannot scatter, absorb or extinguish more per multipole than the unitarity limit
`(2n+1) 2π/k²` (a quarter of it for absorption), whatever its layers.  The bounds concern the numbers returned by
`cross_sections`.
-/

namespace MieDiff

open Complex Spec

/-! ## The circle of admissible coefficients -/

/-- `‖z‖² ≤ Re z` is the disc of radius `1/2` about `1/2`. -/
theorem disc_iff (z : ℂ) : ‖z‖ ^ 2 ≤ z.re ↔ ‖z - 1 / 2‖ ≤ 1 / 2 := by
  have h : ‖z - 1 / 2‖ ^ 2 = ‖z‖ ^ 2 - z.re + (1 / 2) ^ 2 := by
    rw [Complex.sq_norm, Complex.sq_norm, normSq_apply, normSq_apply]
    simp only [sub_re, sub_im]
    norm_num
    ring
  rw [← abs_of_nonneg (norm_nonneg (z - 1 / 2)), ← abs_of_nonneg (by norm_num : (0 : ℝ) ≤ 1 / 2),
    ← sq_le_sq, h]
  constructor <;> intro h <;> linarith

theorem circle_iff (z : ℂ) : z.re = ‖z‖ ^ 2 ↔ ‖z - 1 / 2‖ = 1 / 2 := by
  have h : ‖z - 1 / 2‖ ^ 2 = ‖z‖ ^ 2 - z.re + (1 / 2) ^ 2 := by
    rw [Complex.sq_norm, Complex.sq_norm, normSq_apply, normSq_apply]
    simp only [sub_re, sub_im]
    norm_num
    ring
  rw [← sq_eq_sq₀ (norm_nonneg _) (by norm_num), h]
  constructor <;> intro h <;> linarith

theorem disc_bounds {z : ℂ} (h : ‖z‖ ^ 2 ≤ z.re) :
    ‖z‖ ≤ 1 ∧ ‖z‖ ^ 2 ≤ 1 ∧ 0 ≤ z.re ∧ z.re ≤ 1 ∧ z.re - ‖z‖ ^ 2 ≤ 1 / 4 := by
  have h1 := re_le_norm z
  have h0 := norm_nonneg z
  have h2 : z.re ≤ 1 := by nlinarith [sq_nonneg (z.re - 1), sq_nonneg (‖z‖ - z.re)]
  have h3 : ‖z‖ ≤ 1 := by nlinarith
  refine ⟨h3, by nlinarith, le_trans (sq_nonneg _) h, h2, ?_⟩
  nlinarith [sq_nonneg (‖z‖ - 1 / 2)]

/-- C66, coefficients: with exact logarithmic derivatives every coefficient of a passive particle lies in the disc
of radius `1/2` about `1/2`, so its modulus is at most one. -/
theorem C66_disc {B : Backends} {p : Particle1} {backend w : String} {nMax : Option ℤ}
    {ri : Bool} {o : MieOut} {k0 e0 : ℝ} (hb : backend.toLower = "pena")
    (h : mieCoefficients idealD1 B p backend w nMax ri = .ok o)
    (hc : SolverClear idealFn o.nMax.toNat p.layers) (hp : RealHost p k0 e0)
    (hpass : ∀ e ∈ p.epsLayers, 0 ≤ e.im) :
    ∀ z, z ∈ o.a ∨ z ∈ o.b → ‖z - 1 / 2‖ ≤ 1 / 2 ∧ ‖z‖ ≤ 1 := by
  obtain ⟨ha, hb'⟩ := C07_passive hb h hc hp hpass
  rintro z (hz | hz)
  · exact ⟨(disc_iff z).1 (ha z hz), (disc_bounds (ha z hz)).1⟩
  · exact ⟨(disc_iff z).1 (hb' z hz), (disc_bounds (hb' z hz)).1⟩

/-- C66, lossless: the coefficients of a particle with real permittivities lie on the circle. -/
theorem C66_circle {B : Backends} {p : Particle1} {backend w : String} {nMax : Option ℤ}
    {ri : Bool} {o : MieOut} {k0 e0 : ℝ} (hb : backend.toLower = "pena")
    (h : mieCoefficients idealD1 B p backend w nMax ri = .ok o)
    (hc : SolverClear idealFn o.nMax.toNat p.layers) (hp : RealHost p k0 e0)
    (hreal : ∀ e ∈ p.epsLayers, e.im = 0) :
    ∀ z, z ∈ o.a ∨ z ∈ o.b → ‖z - 1 / 2‖ = 1 / 2 := by
  obtain ⟨ha, hb'⟩ := C06_lossless hb h hc hp hreal
  rintro z (hz | hz)
  · exact (circle_iff z).1 (ha z hz)
  · exact (circle_iff z).1 (hb' z hz)

/-! ## Cross sections -/

theorem mp_limit {k c : ℝ} {f : ℂ → ℝ} {v : List ℂ} (h : ∀ z ∈ v, f z ≤ c) (i : ℕ) (x : ℝ)
    (hx : (v.mapIdx fun (j : ℕ) z => 2 * Real.pi / k ^ 2 * (2 * ((j : ℝ) + 1) + 1) * f z)[i]? = some x) :
    x ≤ (2 * ((i : ℝ) + 1) + 1) * (2 * Real.pi / k ^ 2) * c := by
  rw [List.getElem?_mapIdx] at hx
  obtain ⟨z, hz, rfl⟩ := Option.map_eq_some_iff.1 hx
  have hz' : z ∈ v := List.mem_of_getElem? hz
  have := h z hz'
  have hpi := Real.pi_pos
  have h2 : 0 ≤ 2 * Real.pi / k ^ 2 * (2 * ((i : ℝ) + 1) + 1) := by positivity
  have := mul_le_mul_of_nonneg_left this h2
  linarith

theorem sum_odd (n : ℕ) : ∑ i ∈ Finset.range n, (2 * ((i : ℝ) + 1) + 1) = (n : ℝ) * (n + 2) := by
  induction n with
  | zero => simp
  | succ n ih => rw [Finset.sum_range_succ, ih]; push_cast; ring

theorem mp_sum_limit {k c : ℝ} {f : ℂ → ℝ} {v : List ℂ} {n : ℕ} (hn : v.length = n) (h : ∀ z ∈ v, f z ≤ c) :
    (v.mapIdx fun (j : ℕ) z => 2 * Real.pi / k ^ 2 * (2 * ((j : ℝ) + 1) + 1) * f z).sum ≤
      (n : ℝ) * (n + 2) * (2 * Real.pi / k ^ 2) * c := by
  rw [sum_mapIdx (fun (j : ℕ) z => 2 * Real.pi / k ^ 2 * (2 * ((j : ℝ) + 1) + 1) * f z) v, hn, ← sum_odd,
    Finset.sum_mul, Finset.sum_mul]
  refine Finset.sum_le_sum fun i hi => ?_
  have hi : i < v.length := by rw [hn]; exact Finset.mem_range.1 hi
  have := h v[i] (List.getElem_mem _)
  have e : v.getD i 0 = v[i] := by simp [List.getD_eq_getElem?_getD, hi]
  rw [e]
  have hpi := Real.pi_pos
  have h2 : 0 ≤ 2 * Real.pi / k ^ 2 * (2 * ((i : ℝ) + 1) + 1) := by positivity
  have := mul_le_mul_of_nonneg_left this h2
  linarith

/-- The single-channel limits of a set of cross sections with host wavenumber `k` and `N` orders: index `i` is the
order `i + 1`. -/
def Limits (k : ℝ) (N : ℕ) (c : CrossSections) : Prop :=
  let U (i : ℕ) : ℝ := (2 * ((i : ℝ) + 1) + 1) * (2 * Real.pi / k ^ 2)
  (∀ i x, c.csExtMp.1[i]? = some x ∨ c.csExtMp.2[i]? = some x → 0 ≤ x ∧ x ≤ U i) ∧
  (∀ i x, c.csScaMp.1[i]? = some x ∨ c.csScaMp.2[i]? = some x → 0 ≤ x ∧ x ≤ U i) ∧
  (∀ i x, c.csAbsMp.1[i]? = some x ∨ c.csAbsMp.2[i]? = some x → 0 ≤ x ∧ x ≤ U i / 4) ∧
  c.csExt ≤ 4 * Real.pi * (N * (N + 2)) / k ^ 2 ∧
  c.csSca ≤ 4 * Real.pi * (N * (N + 2)) / k ^ 2 ∧
  c.csAbs ≤ Real.pi * (N * (N + 2)) / k ^ 2

/-- Limits of the cross sections computed from coefficients in the disc. -/
theorem limits_of_disc {k r : ℝ} {a b : List ℂ} {N : ℕ} (la : a.length = N) (lb : b.length = N)
    (ha : ∀ z ∈ a, ‖z‖ ^ 2 ≤ z.re) (hb : ∀ z ∈ b, ‖z‖ ^ 2 ≤ z.re) :
    Limits k N (crossSections (k : ℂ) r a b) := by
  unfold Limits
  intro U
  obtain ⟨m1, m2, m3⟩ := C05_multipoles k r a b
  obtain ⟨t1, t2, t3⟩ := C05_totals (k : ℂ) r a b
  rw [m1] at t1
  rw [m2] at t2
  rw [m3] at t3
  rw [t1, t2, t3, m1, m2, m3]
  have mem : ∀ (f : ℂ → ℝ) (v : List ℂ), (∀ z ∈ v, 0 ≤ f z) → ∀ (i : ℕ) (x : ℝ),
      (v.mapIdx fun (j : ℕ) z => 2 * Real.pi / k ^ 2 * (2 * ((j : ℝ) + 1) + 1) * f z)[i]? = some x →
      0 ≤ x := by
    intro f v hv i x hx
    rw [List.getElem?_mapIdx] at hx
    obtain ⟨z, hz, rfl⟩ := Option.map_eq_some_iff.1 hx
    have := hv z (List.mem_of_getElem? hz)
    have hpi := Real.pi_pos
    positivity
  have lim : ∀ (f : ℂ → ℝ) (q : ℝ) (v : List ℂ), (∀ z ∈ v, f z ≤ q) → ∀ (i : ℕ) (x : ℝ),
      (v.mapIdx fun (j : ℕ) z => 2 * Real.pi / k ^ 2 * (2 * ((j : ℝ) + 1) + 1) * f z)[i]? = some x →
      x ≤ U i * q := fun f q v hv i x hx => mp_limit hv i x hx
  have sum : ∀ (f : ℂ → ℝ) (q : ℝ), (∀ z ∈ a, f z ≤ q) → (∀ z ∈ b, f z ≤ q) →
      (a.mapIdx fun (j : ℕ) z => 2 * Real.pi / k ^ 2 * (2 * ((j : ℝ) + 1) + 1) * f z).sum +
      (b.mapIdx fun (j : ℕ) z => 2 * Real.pi / k ^ 2 * (2 * ((j : ℝ) + 1) + 1) * f z).sum ≤
      4 * Real.pi * ((N : ℝ) * (N + 2)) / k ^ 2 * q := by
    intro f q h1 h2
    have s1 := mp_sum_limit (k := k) la h1
    have s2 := mp_sum_limit (k := k) lb h2
    refine (add_le_add s1 s2).trans (le_of_eq ?_)
    ring
  have A := fun z hz => disc_bounds (ha z hz)
  have Bb := fun z hz => disc_bounds (hb z hz)
  refine ⟨?_, ?_, ?_, ?_, ?_, ?_⟩
  · rintro i x (hx | hx)
    · exact ⟨mem _ _ (fun z hz => (A z hz).2.2.1) i x hx,
        by simpa using lim _ 1 _ (fun z hz => (A z hz).2.2.2.1) i x hx⟩
    · exact ⟨mem _ _ (fun z hz => (Bb z hz).2.2.1) i x hx,
        by simpa using lim _ 1 _ (fun z hz => (Bb z hz).2.2.2.1) i x hx⟩
  · rintro i x (hx | hx)
    · exact ⟨mem _ _ (fun z _ => sq_nonneg ‖z‖) i x hx,
        by simpa using lim _ 1 _ (fun z hz => (A z hz).2.1) i x hx⟩
    · exact ⟨mem _ _ (fun z _ => sq_nonneg ‖z‖) i x hx,
        by simpa using lim _ 1 _ (fun z hz => (Bb z hz).2.1) i x hx⟩
  · rintro i x (hx | hx)
    · refine ⟨mem (fun z => z.re - ‖z‖ ^ 2) _ (fun z hz => sub_nonneg.2 (ha z hz)) i x hx, ?_⟩
      have := lim (fun z => z.re - ‖z‖ ^ 2) (1 / 4) _ (fun z hz => (A z hz).2.2.2.2) i x hx
      linarith
    · refine ⟨mem (fun z => z.re - ‖z‖ ^ 2) _ (fun z hz => sub_nonneg.2 (hb z hz)) i x hx, ?_⟩
      have := lim (fun z => z.re - ‖z‖ ^ 2) (1 / 4) _ (fun z hz => (Bb z hz).2.2.2.2) i x hx
      linarith
  · simpa using sum (fun z => z.re) 1 (fun z hz => (A z hz).2.2.2.1) (fun z hz => (Bb z hz).2.2.2.1)
  · simpa using sum (fun z => ‖z‖ ^ 2) 1 (fun z hz => (A z hz).2.1) (fun z hz => (Bb z hz).2.1)
  · have := sum (fun z => z.re - ‖z‖ ^ 2) (1 / 4) (fun z hz => (A z hz).2.2.2.2) (fun z hz => (Bb z hz).2.2.2.2)
    refine this.trans (le_of_eq ?_)
    ring

/-- C66: the returned extinction and scattering multipoles of a passive particle in a host of wavenumber `k` are at
most `(2n+1) 2π/k²`, the absorption multipoles at most a quarter of it; summed over both types and all `N` orders
this gives `4π N (N+2)/k²` and `π N (N+2)/k²`. -/
theorem C66_limits {B : Backends} {p : Particle1} {backend w : String} {nMax : Option ℤ}
    {c : CrossSections} {k0 e0 : ℝ} (hb : backend.toLower = "pena")
    (h : crossSectionsOf idealD1 B p backend w nMax = .ok c)
    (hc : ∀ o, mieCoefficients idealD1 B p backend w nMax = .ok o → SolverClear idealFn o.nMax.toNat p.layers)
    (hp : RealHost p k0 e0) (hpass : ∀ e ∈ p.epsLayers, 0 ≤ e.im) :
    Limits (k0 * Real.sqrt e0) c.csExtMp.1.length c := by
  obtain ⟨o, ho, rfl⟩ := crossSectionsOf_inv h
  have run := mieCoefficients_pena_inv hb ho
  obtain ⟨ha, hb'⟩ := C07_passive hb ho (hc o ho) hp hpass
  obtain ⟨la, lb, -⟩ := C11_interface_conditions hb ho (hc o ho)
  have hk : o.k = ((k0 * Real.sqrt e0 : ℝ) : ℂ) := by rw [run.k, realHost_k hp]
  have hN : (crossSections o.k o.rS o.a o.b).csExtMp.1.length = o.nMax.toNat := by
    rw [hk, (C05_multipoles (k0 * Real.sqrt e0) o.rS o.a o.b).1]; simp [la]
  rw [hN, hk]
  exact limits_of_disc la lb ha hb'

/-- The hypotheses hold for the core-shell particle of `demoParticle` (real permittivities). -/
example (B : Backends) : ∃ c, crossSectionsOf idealD1 B demoParticle "pena" "recurrence" (some 1) = .ok c ∧
    c.csExtMp.1.length = 1 ∧
    c.csExt ≤ 12 * Real.pi ∧ c.csAbs ≤ 3 * Real.pi := by
  obtain ⟨o, h, hn⟩ := demo_run B
  have h1 : o.nMax.toNat = 1 := by rw [hn]; rfl
  have hcs : crossSectionsOf idealD1 B demoParticle "pena" "recurrence" (some 1) =
      .ok (crossSections o.k o.rS o.a o.b) := by
    unfold crossSectionsOf; rw [h]; rfl
  have hcl : SolverClear idealFn o.nMax.toNat demoParticle.layers := by
    rw [h1, demo_layers]; exact demo_clear
  have hlen : (crossSections o.k o.rS o.a o.b).csExtMp.1.length = 1 := by
    have := (C11_interface_conditions (p := demoParticle) (by decide +kernel) h hcl).1
    simp [crossSections, mpTerms, this, h1]
  have key := C66_limits (by decide +kernel) hcs (fun o' h' => by rw [h] at h'; cases h'; exact hcl) demo_realHost (by
    intro e he
    simp only [demoParticle, List.mem_cons, List.not_mem_nil, or_false] at he
    rcases he with rfl | rfl <;> simp)
  simp only [hlen, Limits] at key
  refine ⟨_, hcs, hlen, ?_, ?_⟩
  · have := key.2.2.2.1; norm_num at this; linarith
  · have := key.2.2.2.2.2; norm_num at this; linarith

end MieDiff
