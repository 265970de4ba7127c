import Verif.Proofs.FarField
import Verif.Props.PlaneWave
import Verif.Props.Helper

/-!
# The scattered near field becomes the amplitudes of `angular_scattering` (C69)

`nearfields` and `angular_scattering` are separate code (multishell.py:993-1490 and 896-990): one sums vector harmonics, the
other sums angular functions.  The theorems below show that far from the particle they describe the same field: the scattered
field is an outgoing spherical wave `e^(ikr)/(kr)` times the amplitudes `S1`, `S2`, with an error of order `1/(kr)`.
-/

namespace MieDiff

open Complex Spec Filter Topology

/-- Specification: at the distance `x = k r` the scattered field, multiplied by `x e^(-ix)`, is the transverse field of the
amplitudes of `A` up to `err`.  `eps` is the shift that the code adds to `k r` in the radial functions. -/
structure FarField (A : Angular) (E0 m : ℂ) (x eps t p err : ℝ) (F : Fields) : Prop where
  Er : ‖outPhase x * F.Es.eR t p‖ ≤ err
  Et : ‖outPhase x * F.Es.eT t p - I * E0 * (Real.cos p : ℝ) * A.S2 * exp (eps * I)‖ ≤ err
  Ep : ‖outPhase x * F.Es.eP p - -(I * E0 * (Real.sin p : ℝ) * A.S1 * exp (eps * I))‖ ≤ err
  Hr : ‖outPhase x * F.Hs.eR t p‖ ≤ err
  Ht : ‖outPhase x * F.Hs.eT t p - I * m * E0 * (Real.sin p : ℝ) * A.S1 * exp (eps * I)‖ ≤ err
  Hp : ‖outPhase x * F.Hs.eP p - I * m * E0 * (Real.cos p : ℝ) * A.S2 * exp (eps * I)‖ ≤ err

theorem eR_add (v w : V3 ℂ) (t p : ℝ) : (v.add w).eR t p = v.eR t p + w.eR t p := by simp only [V3.add, V3.eR]; ring

theorem eR_cart (v : V3 ℂ) (t p : ℝ) : (fieldsSphToCart v t p).eR t p = v.c0 := by
  have h1 : ((Real.sin t : ℝ) : ℂ) ^ 2 + ((Real.cos t : ℝ) : ℂ) ^ 2 = 1 := by exact_mod_cast Real.sin_sq_add_cos_sq t
  have h2 : ((Real.sin p : ℝ) : ℂ) ^ 2 + ((Real.cos p : ℝ) : ℂ) ^ 2 = 1 := by exact_mod_cast Real.sin_sq_add_cos_sq p
  simp only [fieldsSphToCart, V3.eR, ofReal_mul]
  linear_combination (v.c0 * ((Real.sin t : ℝ) : ℂ) ^ 2 + v.c1 * ((Real.sin t : ℝ) : ℂ) * ((Real.cos t : ℝ) : ℂ)) * h2 + v.c0 * h1

theorem sumCart_parts (t p : ℝ) (l : List (V3 ℂ)) :
    (sumCart t p l).eR t p = (l.map V3.c0).sum ∧ (sumCart t p l).eT t p = (l.map V3.c1).sum ∧
    (sumCart t p l).eP p = (l.map V3.c2).sum := by
  have zR : (V3.zero).eR t p = 0 := by simp [V3.zero, V3.eR]
  have zT : (V3.zero).eT t p = 0 := by simp [V3.zero, V3.eT]
  have zP : (V3.zero).eP p = 0 := by simp [V3.zero, V3.eP]
  unfold sumCart
  rw [sum_part t p (fun v => v.eR t p) V3.c0 (fun v w => eR_add v w t p) (fun v => eR_cart v t p), zR, zero_add,
    sum_part t p (fun v => v.eT t p) V3.c1 (fun v w => eT_add v w t p) (fun v => eT_cart v t p), zT, zero_add,
    sum_part t p (fun v => v.eP p) V3.c2 (fun v w => eP_add v w p) (fun v => eP_cart v t p), zP, zero_add]
  exact ⟨rfl, rfl, rfl⟩

private theorem sum_bound {N : ℕ} {f g : ℕ → ℂ} {w c : ℂ} {K : ℕ → ℝ} {x : ℝ} (h : ∀ i < N, ‖w * f i - c * g i‖ ≤ K i / x) :
    ‖w * ∑ i ∈ Finset.range N, f i - c * ∑ i ∈ Finset.range N, g i‖ ≤ (∑ i ∈ Finset.range N, K i) / x := by
  rw [Finset.mul_sum, Finset.mul_sum, ← Finset.sum_sub_distrib, Finset.sum_div]
  exact norm_sum_le_of_le _ fun i hi => h i (Finset.mem_range.1 hi)

/-- The sum over the orders of the scattered field outside. -/
theorem farField_sum (a b : List ℂ) (ha : a ≠ []) (E0 m : ℂ) {eps : ℝ} (he : 0 ≤ eps) : ∃ C : ℝ, 0 ≤ C ∧
    ∀ x : ℝ, 1 ≤ x → ∀ v : V3 ℝ, ∀ (k : ℂ) (rS : ℝ),
      let f (i : ℕ) := outField (EnCoef E0 (i + 1)) (a.getD i 0) (b.getD i 0) m
        (vshExact (i + 1) v.polar v.azimuth (x + eps) (ricZeta (i + 1)))
      ∃ A, angularScattering v.polar a b = .ok A ∧
        FarField A E0 m x eps v.polar v.azimuth (C / x) (fieldsAt k m E0 rS v
          ((List.range a.length).map fun i => (f i).1) ((List.range a.length).map fun i => (f i).2)) := by
  choose K hK h using fun i : ℕ => order_far E0 (a.getD i 0) (b.getD i 0) m i he
  refine ⟨∑ i ∈ Finset.range a.length, K i, Finset.sum_nonneg fun i _ => hK i, fun x hx v k rS => ?_⟩
  intro f
  refine ⟨_, angularScattering_eq v.polar a b ha, ?_⟩
  have ht : tauVal (Real.cos v.polar) = fun k => angTau k v.polar := funext fun k => tauVal_cos k v.polar
  obtain ⟨p1, p2, p3⟩ := sumCart_parts v.polar v.azimuth ((List.range a.length).map fun i => (f i).1)
  obtain ⟨q1, q2, q3⟩ := sumCart_parts v.polar v.azimuth ((List.range a.length).map fun i => (f i).2)
  rw [List.map_map, sum_range_map] at p1 p2 p3 q1 q2 q3
  have key := fun i => h i x hx v.polar v.azimuth
  constructor
  · simp only [fieldsAt]
    rw [p1]
    have := sum_bound (N := a.length) (f := fun i => (f i).1.c0) (g := fun _ => 0) (w := outPhase x) (c := 0) (K := K) (x := x)
      fun i _ => by rw [zero_mul, sub_zero]; exact (key i).1
    simpa using this
  · simp only [fieldsAt]
    rw [p2]
    refine le_trans (le_of_eq (congrArg norm ?_)) (sum_bound (N := a.length) (f := fun i => (f i).1.c1)
      (g := fun i => wgt i * (a.getD i 0 * (angTau (i + 1) v.polar : ℝ) + b.getD i 0 * (angPi (i + 1) (Real.cos v.polar) : ℝ)))
      (w := outPhase x) (c := I * E0 * (Real.cos v.azimuth : ℝ) * exp (eps * I)) (K := K) (x := x) fun i _ => ?_)
    · simp only [ampFun, ht, Function.comp]; ring
    · refine le_trans (le_of_eq (congrArg norm ?_)) (key i).2.1
      simp only [f]; ring
  · simp only [fieldsAt]
    rw [p3]
    refine le_trans (le_of_eq (congrArg norm ?_)) (sum_bound (N := a.length) (f := fun i => (f i).1.c2)
      (g := fun i => wgt i * (a.getD i 0 * (angPi (i + 1) (Real.cos v.polar) : ℝ) + b.getD i 0 * (angTau (i + 1) v.polar : ℝ)))
      (w := outPhase x) (c := -(I * E0 * (Real.sin v.azimuth : ℝ) * exp (eps * I))) (K := K) (x := x) fun i _ => ?_)
    · simp only [ampFun, ht, Function.comp]; ring
    · refine le_trans (le_of_eq (congrArg norm ?_)) (key i).2.2.1
      simp only [f]; ring
  · simp only [fieldsAt]
    rw [q1]
    have := sum_bound (N := a.length) (f := fun i => (f i).2.c0) (g := fun _ => 0) (w := outPhase x) (c := 0) (K := K) (x := x)
      fun i _ => by rw [zero_mul, sub_zero]; exact (key i).2.2.2.1
    simpa using this
  · simp only [fieldsAt]
    rw [q2]
    refine le_trans (le_of_eq (congrArg norm ?_)) (sum_bound (N := a.length) (f := fun i => (f i).2.c1)
      (g := fun i => wgt i * (a.getD i 0 * (angPi (i + 1) (Real.cos v.polar) : ℝ) + b.getD i 0 * (angTau (i + 1) v.polar : ℝ)))
      (w := outPhase x) (c := I * m * E0 * (Real.sin v.azimuth : ℝ) * exp (eps * I)) (K := K) (x := x) fun i _ => ?_)
    · simp only [ampFun, ht, Function.comp]; ring
    · refine le_trans (le_of_eq (congrArg norm ?_)) (key i).2.2.2.2.1
      simp only [f]; ring
  · simp only [fieldsAt]
    rw [q3]
    refine le_trans (le_of_eq (congrArg norm ?_)) (sum_bound (N := a.length) (f := fun i => (f i).2.c2)
      (g := fun i => wgt i * (a.getD i 0 * (angTau (i + 1) v.polar : ℝ) + b.getD i 0 * (angPi (i + 1) (Real.cos v.polar) : ℝ)))
      (w := outPhase x) (c := I * m * E0 * (Real.cos v.azimuth : ℝ) * exp (eps * I)) (K := K) (x := x) fun i _ => ?_)
    · simp only [ampFun, ht, Function.comp]; ring
    · refine le_trans (le_of_eq (congrArg norm ?_)) (key i).2.2.2.2.2
      simp only [f]; ring

/-- What a successful run of the torch or scipy backend returns besides the coefficients. -/
theorem mieCoefficients_cs_meta {K : D1Kernel} {B : Backends} {p : Particle1} {backend w : String} {nMax : Option ℤ} {ri : Bool}
    {o : MieOut} (hb : backend.toLower = "torch" ∨ backend.toLower = "scipy")
    (h : mieCoefficients K B p backend w nMax ri = .ok o) :
    strictlyIncreasing p.rLayers ∧ p.epsLayers.length = p.rLayers.length ∧ (p.rLayers.length = 1 ∨ p.rLayers.length = 2) ∧
    ∃ n out, o = p.meta n out ri := by
  have hp : backend.toLower ≠ "pena" := by rcases hb with h | h <;> rw [h] <;> decide
  obtain ⟨m1, x, m2, y, run⟩ := mieCoefficients_cs_inv hp h
  have h12 : strictlyIncreasing p.rLayers ∧ p.epsLayers.length = p.rLayers.length := by
    obtain ⟨k0, rs, es, ee⟩ := p
    unfold mieCoefficients at h
    simp only [hp, or_false, if_false] at h
    split at h
    · simp at h
    split at h
    · simp at h
    split at h
    · simp at h
    rename_i h1 h2
    exact ⟨not_not.1 h1, not_not.1 h2⟩
  obtain ⟨hr, hl⟩ := h12
  have hll : p.layers.length = p.rLayers.length := by simp [Particle1.layers, layersOf, hl]
  have h1 : p.rLayers.length = 1 ∨ p.rLayers.length = 2 := by
    rw [← hll]
    rcases run.layers with e | ⟨e, -, -⟩ <;> rw [e] <;> simp
  rw [mieCoefficients_cs_eq K B p hb w nMax ri hr hl h1] at h
  obtain ⟨n, -, h⟩ := bindE_inv h
  obtain ⟨_, -, h⟩ := bindE_inv h
  obtain ⟨S, -, h⟩ := bindE_inv h
  obtain ⟨out, -, h⟩ := bindE_inv h
  exact ⟨hr, hl, h1, n, out, (Except.ok.inj h).symm⟩

/-- With a positive shift no argument of the radial functions vanishes. -/
theorem media_arg_ne {p : Particle1} {k0 e0 : ℝ} (hp : RealHost p k0 e0) {eps : ℝ} (he : 0 < eps) {r : ℝ} (hr : 0 ≤ r) :
    ∀ m ∈ p.media, p.k0 * m * r + eps ≠ 0 := by
  intro m hm h0
  have hre : 0 ≤ m.re := by
    simp only [Particle1.media, List.mem_append, List.mem_map, List.mem_singleton] at hm
    rcases hm with ⟨e, -, rfl⟩ | rfl <;> exact csqrt_re_nonneg _
  have := congrArg Complex.re h0
  rw [hp.k0_eq] at this
  simp only [add_re, mul_re, ofReal_re, ofReal_im, mul_zero, sub_zero, zero_mul, zero_re] at this
  have := mul_nonneg (mul_nonneg hp.k0_pos.le hre) hr
  linarith

/-- The fields outside as sums over the orders of outgoing multipoles, plus the plane wave.  `eps` shifts the argument of the radial
functions. -/
noncomputable def hostFields (k m E0 : ℂ) (a b : List ℂ) (eps r t p : ℝ) : Fields :=
  let f (i : ℕ) := outField (EnCoef E0 (i + 1)) (a.getD i 0) (b.getD i 0) m (vshExact (i + 1) t p (k * r + eps) (ricZeta (i + 1)))
  let Es := sumCart t p ((List.range a.length).map fun i => (f i).1)
  let Hs := sumCart t p ((List.range a.length).map fun i => (f i).2)
  { Ei := incidentE E0 k r t, Hi := incidentH E0 k m r t, Es := Es, Hs := Hs
    Et := Es.add (incidentE E0 k r t), Ht := Hs.add (incidentH E0 k m r t) }

theorem fieldsAt_host (k m E0 : ℂ) (a b : List ℂ) (eps rS : ℝ) {v : V3 ℝ} (hv : rS < v.dist) :
    let f (i : ℕ) := outField (EnCoef E0 (i + 1)) (a.getD i 0) (b.getD i 0) m
      (vshExact (i + 1) v.polar v.azimuth (k * v.dist + eps) (ricZeta (i + 1)))
    fieldsAt k m E0 rS v ((List.range a.length).map fun i => (f i).1) ((List.range a.length).map fun i => (f i).2) =
      hostFields k m E0 a b eps v.dist v.polar v.azimuth := by
  simp only [fieldsAt, hostFields, if_pos hv]

/-- `nearfields` of the torch and scipy backends outside the particle. -/
theorem torch_outside {K : D1Kernel} {B : Backends} {p : Particle1} {backend w : String} {nMax : Option ℤ} {o : MieOut}
    (hb : backend.toLower = "torch" ∨ backend.toLower = "scipy") (h : mieCoefficients K B p backend w nMax true = .ok o)
    (hne : o.a ≠ []) {k0 e0 : ℝ} (hp : RealHost p k0 e0) (E0 : ℂ) {Bc Bs B2 Bo : BesselBackend}
    (hBc : ∀ z, z ≠ 0 → ExactAt Bc o.a.length z) (hBs : ∀ z, z ≠ 0 → ExactAt Bs o.a.length z)
    (hB2 : ∀ z, z ≠ 0 → ExactAt B2 o.a.length z) (hBo : ∀ z, z ≠ 0 → ExactAt Bo o.a.length z) :
    ∃ co, o.internal = some co ∧ ∀ (eps : ℝ) (v : V3 ℝ), 0 < eps → o.rS < v.dist →
      nearfieldsTorch Bc Bs B2 Bo p.k0 o.k (csqrt o.epsC) (csqrt o.epsS) o.nEnv o.rC o.rS E0 co v eps =
        .ok (hostFields (k0 * Real.sqrt e0 : ℝ) o.nEnv E0 o.a o.b eps v.dist v.polar v.azimuth) := by
  obtain ⟨-, hlen, hL, n, out, rfl⟩ := mieCoefficients_cs_meta hb h
  refine ⟨out, rfl, fun eps v he hv => ?_⟩
  have hd0 : 0 ≤ v.dist := Real.sqrt_nonneg _
  have hnz := media_arg_ne hp he hd0
  have hal : (p.meta n out true).a.length = out.length := by simp [Particle1.meta]
  have hmC : csqrt (p.epsLayers.headD 0) ∈ p.media := by
    rcases hes : p.epsLayers with _ | ⟨e, es⟩
    · rw [hes] at hlen; simp at hlen; omega
    · simp [Particle1.media, hes]
  have hmS : csqrt (p.epsLayers.getLastD 0) ∈ p.media := by
    have hne : p.epsLayers ≠ [] := by
      intro h0; rw [h0] at hlen; simp at hlen; omega
    rw [List.getLastD_eq_getLast?, List.getLast?_eq_getLast_of_ne_nil hne]
    exact List.mem_append_left _ (List.mem_map_of_mem (List.getLast_mem hne))
  have hmE : csqrt p.epsEnv ∈ p.media := by simp [Particle1.media]
  have h1 : 1 ≤ out.length := by rw [← hal]; exact List.length_pos_iff.2 hne
  rw [hal] at hBc hBs hB2 hBo
  have hT := nearfieldsTorch_waves (k0 := p.k0) (k := p.k0 * csqrt p.epsEnv) (E0 := E0) (rC := p.rLayers.headD 0)
    (rS := p.rLayers.getLastD 0) h1 (fun i => out.getD i noOrder) (v := v) (eps := eps) (hBc _ (hnz _ hmC))
    (hBs _ (hnz _ hmS)) (hB2 _ (hnz _ hmS)) (hBo _ (hnz _ hmE))
  have ho : (List.range out.length).map (fun i => out.getD i noOrder) = out := by
    have := range_map_getD id noOrder out
    simpa using this
  rw [ho] at hT
  rw [← realHost_k hp]
  have key : ∀ i ∈ List.range out.length, torchOrder (EnCoef E0 (i + 1)) (out.getD i noOrder) (csqrt (p.epsLayers.headD 0))
        (csqrt (p.epsLayers.getLastD 0)) (csqrt p.epsEnv) (p.rLayers.headD 0) (p.rLayers.getLastD 0) v.dist
        (vshExact (i + 1) v.polar v.azimuth (p.k0 * csqrt (p.epsLayers.headD 0) * v.dist + eps) (ricPsi (i + 1)))
        (vshExact (i + 1) v.polar v.azimuth (p.k0 * csqrt (p.epsLayers.getLastD 0) * v.dist + eps) (ricPsi (i + 1)))
        (vshExact (i + 1) v.polar v.azimuth (p.k0 * csqrt (p.epsLayers.getLastD 0) * v.dist + eps) (ricChi (i + 1)))
        (vshExact (i + 1) v.polar v.azimuth (p.k0 * csqrt p.epsEnv * v.dist + eps) (ricZeta (i + 1))) =
      outField (EnCoef E0 (i + 1)) ((p.meta n out true).a.getD i 0) ((p.meta n out true).b.getD i 0) (csqrt p.epsEnv)
        (vshExact (i + 1) v.polar v.azimuth (p.k0 * csqrt p.epsEnv * v.dist + eps) (ricZeta (i + 1))) := by
    intro i hi
    have hi := List.mem_range.1 hi
    rw [(torchOrder_waves E0 (out.getD i noOrder) (csqrt (p.epsLayers.headD 0)) (csqrt (p.epsLayers.getLastD 0))
      (csqrt p.epsEnv) (p.rLayers.headD 0) (p.rLayers.getLastD 0) v.dist v.polar v.azimuth (i + 1)
      (zc := p.k0 * csqrt (p.epsLayers.headD 0) * v.dist + eps) (zo := p.k0 * csqrt p.epsEnv * v.dist + eps) (hnz _ hmS)).1 hv]
    simp [waveField, CoreShellOut.hostWave, Particle1.meta, hi]
  refine hT.trans (congrArg Except.ok ?_)
  rw [List.map_congr_left fun i hi => congrArg Prod.fst (key i hi), List.map_congr_left fun i hi => congrArg Prod.snd (key i hi)]
  have hv' : p.rLayers.getLastD 0 < v.dist := hv
  have hF := fieldsAt_host (p.k0 * csqrt p.epsEnv) (csqrt p.epsEnv) E0 (p.meta n out true).a (p.meta n out true).b eps
    (p.rLayers.getLastD 0) hv'
  rw [hal] at hF
  exact hF

/-- `nearfields` of the pena backend outside the particle, exact logarithmic derivative. -/
theorem pena_outside {p : Particle1} {k0 e0 : ℝ} (hp : RealHost p k0 e0) (hne : p.rLayers ≠ [])
    (hinc : strictlyIncreasing p.rLayers) (hlen : p.epsLayers.length = p.rLayers.length) {a b : List ℂ} (ha : a ≠ [])
    (hab : b.length = a.length) (E0 : ℂ) {eps : ℝ} {v : V3 ℝ} (hv : p.rLayers.getLastD 0 < v.dist)
    (hker : KernelOK a.length (k0 * Real.sqrt e0 * v.dist + eps : ℝ) solverEps) :
    nearfieldsPena idealD1 p.k0 p.rLayers p.epsLayers p.epsEnv E0 a b v eps =
      .ok (hostFields (k0 * Real.sqrt e0 : ℝ) (csqrt p.epsEnv) E0 a b eps v.dist v.polar v.azimuth) := by
  have h1 : 1 ≤ a.length := List.length_pos_iff.2 ha
  have hk : p.k0 * csqrt p.epsEnv * (v.dist : ℂ) = ((k0 * Real.sqrt e0 * v.dist : ℝ) : ℂ) := by
    rw [realHost_k hp]; push_cast; ring
  set ea : ℕ → ℂ := fun i => a.getD (i - 1) 0
  set eb : ℕ → ℂ := fun i => b.getD (i - 1) 0
  have ea' : (List.range a.length).map (fun i => ea (i + 1)) = a := by
    have := range_map_getD id 0 a
    simpa [ea] using this
  have eb' : (List.range a.length).map (fun i => eb (i + 1)) = b := by
    have := range_map_getD id 0 b
    rw [hab] at this
    simpa [eb] using this
  have hext : extCoefs a b = (extFn ea eb).toCoefs a.length := by
    rw [← extCoefs_eq, ea', eb']
  have hregs := nfRegions_eq (idealD1_fun a.length) (extFn ea eb) (layersOf (p.k0 * csqrt p.epsEnv) p.rLayers p.epsLayers (csqrt p.epsEnv)) true
  rw [← hext] at hregs
  have hlast : p.rLayers.getLastD 0 = p.rLayers.getD (p.rLayers.length - 1) 0 := by
    rw [List.getLastD_eq_getLast?, List.getLast?_eq_getElem?, List.getD_eq_getElem?_getD]
  have hlt := strictlyIncreasing_lt p.rLayers hinc
  have hR : InRegion p.rLayers p.rLayers.length v.dist := by
    refine ⟨le_rfl, fun i hi => ?_, fun h => absurd h (lt_irrefl _)⟩
    rw [hlast] at hv
    rcases Nat.lt_or_ge i (p.rLayers.length - 1) with h | h
    · refine lt_trans ?_ hv
      have h2 : p.rLayers.length - 1 < p.rLayers.length := by omega
      have := hlt i (p.rLayers.length - 1) h h2
      exact this
    · obtain rfl : i = p.rLayers.length - 1 := by omega
      exact hv
  have hm : (p.epsLayers.map csqrt ++ [csqrt p.epsEnv]).getD p.rLayers.length 0 = csqrt p.epsEnv := by
    rw [← hlen]; simp
  have hF := nearfieldsPena_waves (k0 := p.k0) (es := p.epsLayers) (epsEnv := p.epsEnv) (E0 := E0) (v := v) (eps := eps) hne hinc h1
    hregs hR (by rw [hm, hk]; exact_mod_cast hker)
  have hll : (layersOf (p.k0 * csqrt p.epsEnv) p.rLayers p.epsLayers (csqrt p.epsEnv)).length = p.rLayers.length := by
    simp [layersOf, hlen]
  have hreg : (((nfAll idealFn (extFn ea eb) true (layersOf (p.k0 * csqrt p.epsEnv) p.rLayers p.epsLayers (csqrt p.epsEnv))).map
      (RegFn.toCoefs a.length)).getD p.rLayers.length ⟨[], [], [], []⟩) = extCoefs a b := by
    have := nfAll_getElem? idealFn (extFn ea eb) (layersOf (p.k0 * csqrt p.epsEnv) p.rLayers p.epsLayers (csqrt p.epsEnv)) true
      p.rLayers.length (by rw [hll])
    rw [List.getD_eq_getElem?_getD, List.getElem?_map, this, hext]
    simp [nfFn, List.drop_eq_nil_of_le hll.le]
  have key : ∀ i ∈ List.range a.length, waveField (p.rLayers.length == p.rLayers.length) E0
      ((p.epsLayers.map csqrt ++ [csqrt p.epsEnv]).getD p.rLayers.length 0)
      (p.k0 * (p.epsLayers.map csqrt ++ [csqrt p.epsEnv]).getD p.rLayers.length 0 * v.dist + eps) v.polar v.azimuth (i + 1)
      (RegionCoefs.wave (((nfAll idealFn (extFn ea eb) true (layersOf (p.k0 * csqrt p.epsEnv) p.rLayers p.epsLayers (csqrt p.epsEnv))).map
        (RegFn.toCoefs a.length)).getD p.rLayers.length ⟨[], [], [], []⟩) (i + 1)) =
      outField (EnCoef E0 (i + 1)) (a.getD i 0) (b.getD i 0) (csqrt p.epsEnv)
        (vshExact (i + 1) v.polar v.azimuth (p.k0 * csqrt p.epsEnv * v.dist + eps) (ricZeta (i + 1))) := by
    intro i _
    rw [hreg, hm]
    simp [waveField, RegionCoefs.wave, extCoefs]
  refine hF.trans (congrArg Except.ok ?_)
  rw [List.map_congr_left fun i hi => congrArg Prod.fst (key i hi), List.map_congr_left fun i hi => congrArg Prod.snd (key i hi),
    ← realHost_k hp]
  exact (fieldsAt_host (p.k0 * csqrt p.epsEnv) (csqrt p.epsEnv) E0 a b eps (p.rLayers.getLastD 0) hv)

/-- C69, torch and scipy backends: for every particle in a lossless host and every set of coefficients the code returns, there is
one constant such that at every position outside the particle with `k r >= 1` the scattered fields of `nearfields` are those of
the amplitudes of `angular_scattering` up to `C/(k r)`, in all directions. -/
theorem C69_core_shell {K : D1Kernel} {B : Backends} {p : Particle1} {backend w : String} {nMax : Option ℤ} {o : MieOut}
    (hb : backend.toLower = "torch" ∨ backend.toLower = "scipy") (h : mieCoefficients K B p backend w nMax true = .ok o)
    (hne : o.a ≠ []) {k0 e0 : ℝ} (hp : RealHost p k0 e0) (E0 : ℂ) {eps : ℝ} (he : 0 < eps) {Bc Bs B2 Bo : BesselBackend}
    (hBc : ∀ z, z ≠ 0 → ExactAt Bc o.a.length z) (hBs : ∀ z, z ≠ 0 → ExactAt Bs o.a.length z)
    (hB2 : ∀ z, z ≠ 0 → ExactAt B2 o.a.length z) (hBo : ∀ z, z ≠ 0 → ExactAt Bo o.a.length z) :
    ∃ co C, o.internal = some co ∧ 0 ≤ C ∧ ∀ v : V3 ℝ, o.rS < v.dist → 1 ≤ k0 * Real.sqrt e0 * v.dist →
      ∃ F A, nearfieldsTorch Bc Bs B2 Bo p.k0 o.k (csqrt o.epsC) (csqrt o.epsS) o.nEnv o.rC o.rS E0 co v eps = .ok F ∧
        angularScattering v.polar o.a o.b = .ok A ∧
        FarField A E0 o.nEnv (k0 * Real.sqrt e0 * v.dist) eps v.polar v.azimuth (C / (k0 * Real.sqrt e0 * v.dist)) F := by
  obtain ⟨co, hco, hF⟩ := torch_outside hb h hne hp E0 hBc hBs hB2 hBo
  obtain ⟨C, hC, hfar⟩ := farField_sum o.a o.b hne E0 o.nEnv he.le
  refine ⟨co, C, hco, hC, fun v hv hx => ?_⟩
  obtain ⟨A, hA, hFar⟩ := hfar _ hx v (k0 * Real.sqrt e0 : ℝ) o.rS
  refine ⟨_, A, hF eps v he hv, hA, ?_⟩
  rw [← fieldsAt_host _ _ E0 o.a o.b eps o.rS hv]
  push_cast at hFar ⊢
  exact hFar

/-- C69, pena backend with the exact logarithmic derivative: the same for any number of layers and any coefficients, at every
position outside where the guards of the radial functions are inactive. -/
theorem C69_pena {p : Particle1} {k0 e0 : ℝ} (hp : RealHost p k0 e0) (hne : p.rLayers ≠ [])
    (hinc : strictlyIncreasing p.rLayers) (hlen : p.epsLayers.length = p.rLayers.length) {a b : List ℂ} (ha : a ≠ [])
    (hab : b.length = a.length) (E0 : ℂ) {eps : ℝ} (he : 0 ≤ eps) :
    ∃ C, 0 ≤ C ∧ ∀ v : V3 ℝ, p.rLayers.getLastD 0 < v.dist → 1 ≤ k0 * Real.sqrt e0 * v.dist →
      KernelOK a.length (k0 * Real.sqrt e0 * v.dist + eps : ℝ) solverEps →
      ∃ F A, nearfieldsPena idealD1 p.k0 p.rLayers p.epsLayers p.epsEnv E0 a b v eps = .ok F ∧
        angularScattering v.polar a b = .ok A ∧
        FarField A E0 (csqrt p.epsEnv) (k0 * Real.sqrt e0 * v.dist) eps v.polar v.azimuth (C / (k0 * Real.sqrt e0 * v.dist)) F := by
  obtain ⟨C, hC, hfar⟩ := farField_sum a b ha E0 (csqrt p.epsEnv) he
  refine ⟨C, hC, fun v hv hx hker => ?_⟩
  obtain ⟨A, hA, hFar⟩ := hfar _ hx v (k0 * Real.sqrt e0 : ℝ) (p.rLayers.getLastD 0)
  refine ⟨_, A, pena_outside hp hne hinc hlen ha hab E0 hv hker, hA, ?_⟩
  rw [← fieldsAt_host _ _ E0 a b eps (p.rLayers.getLastD 0) hv]
  push_cast at hFar ⊢
  exact hFar

/-! ## Intensity and power flow -/

/-- Squared modulus of a complex vector. -/
noncomputable def V3.norm2 (v : V3 ℂ) : ℝ := ‖v.c0‖ ^ 2 + ‖v.c1‖ ^ 2 + ‖v.c2‖ ^ 2

/-- Radial component of `Re (E x conj H)`, twice the time-averaged Poynting vector. -/
noncomputable def radialFlux (E H : V3 ℂ) (t p : ℝ) : ℝ :=
  let h : V3 ℂ := ⟨starRingEnd ℂ H.c0, starRingEnd ℂ H.c1, starRingEnd ℂ H.c2⟩
  ((E.c1 * h.c2 - E.c2 * h.c1) * (Real.sin t * Real.cos p : ℝ) + (E.c2 * h.c0 - E.c0 * h.c2) * (Real.sin t * Real.sin p : ℝ) +
    (E.c0 * h.c1 - E.c1 * h.c0) * (Real.cos t : ℝ)).re

private theorem rot_real (x y z t p : ℝ) :
    (x * (Real.sin t * Real.cos p) + y * (Real.sin t * Real.sin p) + z * Real.cos t) ^ 2 +
      (x * (Real.cos t * Real.cos p) + y * (Real.cos t * Real.sin p) - z * Real.sin t) ^ 2 +
      (-x * Real.sin p + y * Real.cos p) ^ 2 = x ^ 2 + y ^ 2 + z ^ 2 := by
  have h1 := Real.sin_sq_add_cos_sq t
  have h2 := Real.sin_sq_add_cos_sq p
  generalize Real.sin t = s at *
  generalize Real.cos t = c at *
  generalize Real.sin p = S at *
  generalize Real.cos p = C at *
  linear_combination ((x * C + y * S) ^ 2 + z ^ 2) * h1 + (x ^ 2 + y ^ 2) * h2

theorem norm2_parts (v : V3 ℂ) (t p : ℝ) : v.norm2 = ‖v.eR t p‖ ^ 2 + ‖v.eT t p‖ ^ 2 + ‖v.eP p‖ ^ 2 := by
  have h1 := rot_real v.c0.re v.c1.re v.c2.re t p
  have h2 := rot_real v.c0.im v.c1.im v.c2.im t p
  unfold V3.norm2 V3.eR V3.eT V3.eP
  simp only [← Complex.normSq_eq_norm_sq, Complex.normSq_apply, add_re, add_im, sub_re, sub_im, neg_re, neg_im, re_mul_ofReal,
    im_mul_ofReal]
  linear_combination -h1 - h2

theorem radialFlux_parts (E H : V3 ℂ) (t p : ℝ) :
    radialFlux E H t p = (E.eT t p * starRingEnd ℂ (H.eP p) - E.eP p * starRingEnd ℂ (H.eT t p)).re := by
  have h2 : ((Real.sin p : ℝ) : ℂ) ^ 2 + ((Real.cos p : ℝ) : ℂ) ^ 2 = 1 := by exact_mod_cast Real.sin_sq_add_cos_sq p
  unfold radialFlux V3.eT V3.eP
  refine congrArg Complex.re ?_
  simp only [map_add, map_sub, map_mul, map_neg, conj_ofReal, ofReal_mul]
  generalize ((Real.sin p : ℝ) : ℂ) = S at *
  generalize ((Real.cos p : ℝ) : ℂ) = C at *
  linear_combination (-(E.c0 * starRingEnd ℂ H.c1 - E.c1 * starRingEnd ℂ H.c0) * (Real.cos t : ℝ)) * h2

private theorem tendsto_of_far {f : ℝ → ℂ} {L : ℂ} {C k : ℝ} (hk : 0 < k) (h : ∀ᶠ r in atTop, ‖f r - L‖ ≤ C / (k * r)) :
    Tendsto f atTop (𝓝 L) := by
  rw [tendsto_iff_norm_sub_tendsto_zero]
  refine squeeze_zero' (Eventually.of_forall fun _ => norm_nonneg _) h ?_
  have : Tendsto (fun r : ℝ => k * r) atTop atTop := Tendsto.const_mul_atTop hk tendsto_id
  exact Tendsto.div_atTop tendsto_const_nhds this

/-- C69, intensity and power flow along a direction: `(k r)^2 |E_s|^2` tends to the scattered intensities returned by
`angular_scattering`, weighted with the polarisation, and the radial power flow to `n_env` times that. -/
theorem C69_intensity {K : D1Kernel} {B : Backends} {p : Particle1} {backend w : String} {nMax : Option ℤ} {o : MieOut}
    (hb : backend.toLower = "torch" ∨ backend.toLower = "scipy") (h : mieCoefficients K B p backend w nMax true = .ok o)
    (hne : o.a ≠ []) {k0 e0 : ℝ} (hp : RealHost p k0 e0) (E0 : ℂ) {eps : ℝ} (he : 0 < eps) {Bc Bs B2 Bo : BesselBackend}
    (hBc : ∀ z, z ≠ 0 → ExactAt Bc o.a.length z) (hBs : ∀ z, z ≠ 0 → ExactAt Bs o.a.length z)
    (hB2 : ∀ z, z ≠ 0 → ExactAt B2 o.a.length z) (hBo : ∀ z, z ≠ 0 → ExactAt Bo o.a.length z)
    {t ph : ℝ} (ht0 : 0 ≤ t) (ht1 : t ≤ Real.pi) (hct : |Real.cos t| ≤ 1 - eps10Double) (hp0 : -Real.pi < ph)
    (hp1 : ph ≤ Real.pi) (hcp : Real.cos ph ≠ 0) :
    ∃ co A, ∃ F : ℝ → Fields, o.internal = some co ∧ angularScattering t o.a o.b = .ok A ∧
      (∀ᶠ r in atTop, nearfieldsTorch Bc Bs B2 Bo p.k0 o.k (csqrt o.epsC) (csqrt o.epsS) o.nEnv o.rC o.rS E0 co
        (sphToXyz r t ph) eps = .ok (F r)) ∧
      Tendsto (fun r => (k0 * Real.sqrt e0 * r) ^ 2 * (F r).Es.norm2) atTop
        (𝓝 (‖E0‖ ^ 2 * (Real.cos ph ^ 2 * A.iPar + Real.sin ph ^ 2 * A.iPer))) ∧
      Tendsto (fun r => (k0 * Real.sqrt e0 * r) ^ 2 * radialFlux (F r).Es (F r).Hs t ph) atTop
        (𝓝 (Real.sqrt e0 * (‖E0‖ ^ 2 * (Real.cos ph ^ 2 * A.iPar + Real.sin ph ^ 2 * A.iPer)))) := by
  obtain ⟨co, C, hco, hC, hfar⟩ := C69_core_shell hb h hne hp E0 he hBc hBs hB2 hBo
  obtain ⟨A, hA⟩ : ∃ A, angularScattering t o.a o.b = .ok A := ⟨_, angularScattering_eq t o.a o.b hne⟩
  have hA1 : A.iPer = ‖A.S1‖ ^ 2 ∧ A.iPar = ‖A.S2‖ ^ 2 := by
    rw [angularScattering_eq t o.a o.b hne] at hA
    cases hA
    exact ⟨rfl, rfl⟩
  have hk : 0 < k0 * Real.sqrt e0 := mul_pos hp.k0_pos (Real.sqrt_pos.2 hp.env_pos)
  have hnE : o.nEnv = (Real.sqrt e0 : ℝ) := by
    obtain ⟨-, -, -, n, out, rfl⟩ := mieCoefficients_cs_meta hb h
    show csqrt p.epsEnv = _
    rw [hp.env_eq, csqrt_ofReal hp.env_pos.le]
  have hq : ‖exp ((eps : ℂ) * I)‖ = 1 := by rw [Complex.norm_exp]; simp
  -- the fields along the ray
  have hray : ∀ᶠ r in atTop, ∃ F, nearfieldsTorch Bc Bs B2 Bo p.k0 o.k (csqrt o.epsC) (csqrt o.epsS) o.nEnv o.rC o.rS E0 co
        (sphToXyz r t ph) eps = .ok F ∧ FarField A E0 o.nEnv (k0 * Real.sqrt e0 * r) eps t ph (C / (k0 * Real.sqrt e0 * r)) F := by
    filter_upwards [eventually_gt_atTop o.rS, eventually_gt_atTop 0, eventually_ge_atTop (1 / (k0 * Real.sqrt e0))] with r h1 h2 h3
    have hinv := C38_inverse' h2 ht0 ht1 hct hp0 hp1 hcp
    have d1 : (sphToXyz r t ph).dist = r := congrArg V3.c0 hinv
    have d2 : (sphToXyz r t ph).polar = t := congrArg V3.c1 hinv
    have d3 : (sphToXyz r t ph).azimuth = ph := congrArg V3.c2 hinv
    obtain ⟨F, A', hF, hA', hff⟩ := hfar (sphToXyz r t ph) (by rw [d1]; exact h1) (by
      rw [d1]; rw [div_le_iff₀ hk] at h3; linarith)
    rw [d2] at hA'
    obtain rfl : A = A' := Except.ok.inj (hA.symm.trans hA')
    rw [d1, d2, d3] at hff
    exact ⟨F, hF, hff⟩
  classical
  let F : ℝ → Fields := fun r => if hr : ∃ F, nearfieldsTorch Bc Bs B2 Bo p.k0 o.k (csqrt o.epsC) (csqrt o.epsS) o.nEnv o.rC o.rS E0 co
        (sphToXyz r t ph) eps = .ok F ∧ FarField A E0 o.nEnv (k0 * Real.sqrt e0 * r) eps t ph (C / (k0 * Real.sqrt e0 * r)) F
    then hr.choose else ⟨V3.zero, V3.zero, V3.zero, V3.zero, V3.zero, V3.zero⟩
  have hF : ∀ᶠ r in atTop, nearfieldsTorch Bc Bs B2 Bo p.k0 o.k (csqrt o.epsC) (csqrt o.epsS) o.nEnv o.rC o.rS E0 co
        (sphToXyz r t ph) eps = .ok (F r) ∧
      FarField A E0 o.nEnv (k0 * Real.sqrt e0 * r) eps t ph (C / (k0 * Real.sqrt e0 * r)) (F r) := by
    filter_upwards [hray] with r hr
    simp only [F, dif_pos hr]
    exact hr.choose_spec
  refine ⟨co, A, F, hco, hA, hF.mono fun r hr => hr.1, ?_, ?_⟩
  · have tR := tendsto_of_far (L := 0) hk (hF.mono fun r hr => by rw [sub_zero]; exact hr.2.Er)
    have tT := tendsto_of_far hk (hF.mono fun r hr => hr.2.Et)
    have tP := tendsto_of_far hk (hF.mono fun r hr => hr.2.Ep)
    have := (((tR.norm.pow 2).add (tT.norm.pow 2)).add (tP.norm.pow 2)).congr' (f₂ := fun r => (k0 * Real.sqrt e0 * r) ^ 2 * (F r).Es.norm2) (by
      filter_upwards [eventually_gt_atTop 0] with r hr
      have hx : 0 ≤ k0 * Real.sqrt e0 * r := by positivity
      rw [norm2_parts _ t ph, norm_mul, norm_mul, norm_mul, norm_outPhase hx]
      ring)
    convert this using 2
    rw [hA1.1, hA1.2, norm_neg, norm_zero]
    simp only [norm_mul, norm_I, hq, Complex.norm_real, Real.norm_eq_abs]
    rw [← sq_abs (Real.cos ph), ← sq_abs (Real.sin ph)]
    ring
  · have tT := tendsto_of_far hk (hF.mono fun r hr => hr.2.Et)
    have tP := tendsto_of_far hk (hF.mono fun r hr => hr.2.Ep)
    have uT := tendsto_of_far hk (hF.mono fun r hr => hr.2.Ht)
    have uP := tendsto_of_far hk (hF.mono fun r hr => hr.2.Hp)
    have cj := Complex.continuous_conj
    have h1 := (tT.mul ((cj.tendsto _).comp uP)).sub (tP.mul ((cj.tendsto _).comp uT))
    have := (((Complex.continuous_re).tendsto _).comp h1).congr' (f₂ := fun r => (k0 * Real.sqrt e0 * r) ^ 2 * radialFlux (F r).Es (F r).Hs t ph) (by
      filter_upwards [eventually_gt_atTop 0] with r hr
      have hx : 0 ≤ k0 * Real.sqrt e0 * r := by positivity
      have hw : outPhase (k0 * Real.sqrt e0 * r) * starRingEnd ℂ (outPhase (k0 * Real.sqrt e0 * r)) = (((k0 * Real.sqrt e0 * r) ^ 2 : ℝ) : ℂ) := by
        rw [Complex.mul_conj, Complex.normSq_eq_norm_sq, norm_outPhase hx]
      rw [radialFlux_parts, ← Complex.re_ofReal_mul, ← hw]
      simp only [Function.comp, map_mul]
      congr 1
      ring)
    convert this using 2
    rw [hA1.1, hA1.2, hnE]
    have e : ∀ c s : ℝ, I * E0 * (c : ℂ) * A.S2 * exp (eps * I) * starRingEnd ℂ (I * ((Real.sqrt e0 : ℝ) : ℂ) * E0 * (c : ℂ) * A.S2 * exp (eps * I)) -
        -(I * E0 * (s : ℂ) * A.S1 * exp (eps * I)) * starRingEnd ℂ (I * ((Real.sqrt e0 : ℝ) : ℂ) * E0 * (s : ℂ) * A.S1 * exp (eps * I)) =
        ((Real.sqrt e0 * (‖E0‖ ^ 2 * (c ^ 2 * ‖A.S2‖ ^ 2 + s ^ 2 * ‖A.S1‖ ^ 2)) : ℝ) : ℂ) := by
      intro c s
      have n1 := Complex.mul_conj' E0
      have n2 := Complex.mul_conj' A.S2
      have n3 := Complex.mul_conj' A.S1
      have n4 := Complex.mul_conj' (exp ((eps : ℂ) * I))
      rw [hq] at n4
      simp only [map_mul, conj_I, conj_ofReal]
      push_cast
      rw [← n1, ← n2, ← n3]
      generalize starRingEnd ℂ (exp ((eps : ℂ) * I)) = q' at *
      generalize exp ((eps : ℂ) * I) = q at *
      push_cast at n4
      linear_combination ((Real.sqrt e0 : ℝ) : ℂ) * (E0 * starRingEnd ℂ E0) * (c ^ 2 * (A.S2 * starRingEnd ℂ A.S2) + s ^ 2 * (A.S1 * starRingEnd ℂ A.S1)) *
        (n4 - q * q' * I_mul_I)
    rw [e, ofReal_re]

/-! ## Examples -/

/-- With exact special functions the torch backend succeeds for the core-shell particle of the C11 example, at any order. -/
theorem demo_torch_run (n : ℕ) : ∃ o, mieCoefficients idealD1 exactBackends demoParticle "torch" "recurrence"
    (some ((n + 1 : ℕ) : ℤ)) true = .ok o ∧ o.a.length = n + 1 := by
  have hq := qp_odd.big
  have hqc : (qp : ℂ) ≠ 0 := by exact_mod_cast (by linarith : (qp : ℝ) ≠ 0)
  have ht : "torch".toLower = "torch" := by decide +kernel
  have s1 : csqrt 1 = 1 := by have := csqrt_nat_sq (r := 1) (by norm_num); simpa using this
  have s2 : csqrt 81 = 9 := by have := csqrt_nat_sq (r := 9) (by norm_num); norm_num at this; exact this
  have s3 : csqrt 9 = 3 := by have := csqrt_nat_sq (r := 3) (by norm_num); norm_num at this; exact this
  have hX : demoParticle.csX ≠ 0 := by simp [Particle1.csX, demoParticle, s1, hqc]
  have hY : demoParticle.csY ≠ 0 := by simp [Particle1.csY, demoParticle, s1, hqc]
  have h1 : demoParticle.csM1 ≠ 0 := by simp [Particle1.csM1, demoParticle, s1, s2]
  have h2 : demoParticle.csM2 ≠ 0 := by simp [Particle1.csM2, demoParticle, s1, s3]
  have hm := miecoef_exact (n := n) (exactBessel_at hY) (exactBessel_at (mul_ne_zero h1 hX)) (exactBessel_at (mul_ne_zero h2 hX))
    (exactBessel_at (mul_ne_zero h2 hY))
  have hsel : selectBessel exactBackends "torch" "recurrence" = .ok exactBessel := by
    have hw : "recurrence".toLower = "recurrence" := by decide +kernel
    simp only [selectBessel, ht, hw, exactBackends]
    rw [if_neg (by decide), if_pos (by decide)]
  refine ⟨demoParticle.meta ((n + 1 : ℕ) : ℤ)
    (tab n fun i => miecoefOrder (exactIn (i + 1) demoParticle.csM1 demoParticle.csM2 demoParticle.csX demoParticle.csY)) true,
    ?_, ?_⟩
  · rw [mieCoefficients_cs_eq idealD1 exactBackends demoParticle (Or.inl ht) _ _ _
      (by simp only [demoParticle, strictlyIncreasing]; exact ⟨by linarith, trivial⟩) rfl (Or.inr rfl)]
    simp only [orderChoice, bind_ok, orderRange, if_neg (show ¬(((n + 1 : ℕ) : ℤ) + 1 < 1) by omega), hsel]
    rw [hm]
    rfl
  · simp [Particle1.meta]

/-- `C69_core_shell` and `C69_intensity` apply to a core-shell particle with three orders, in the direction
`theta = pi/3`, `phi = pi/6`. -/
example (E0 : ℂ) : ∃ o co A, ∃ F : ℝ → Fields, mieCoefficients idealD1 exactBackends demoParticle "torch" "recurrence"
      (some ((2 + 1 : ℕ) : ℤ)) true = .ok o ∧ o.internal = some co ∧
    angularScattering (Real.pi / 3) o.a o.b = .ok A ∧
    (∀ᶠ r in atTop, nearfieldsTorch exactBessel exactBessel exactBessel exactBessel demoParticle.k0 o.k (csqrt o.epsC)
      (csqrt o.epsS) o.nEnv o.rC o.rS E0 co (sphToXyz r (Real.pi / 3) (Real.pi / 6)) = .ok (F r)) ∧
    Tendsto (fun r => r ^ 2 * (F r).Es.norm2) atTop (𝓝 (‖E0‖ ^ 2 * (3 / 4 * A.iPar + 1 / 4 * A.iPer))) := by
  obtain ⟨o, h, hl⟩ := demo_torch_run 2
  have hpi := Real.pi_pos
  obtain ⟨co, A, F, a1, a2, a3, a4, -⟩ := C69_intensity (t := Real.pi / 3) (ph := Real.pi / 6) (Or.inl (by decide +kernel)) h
    (by intro h0; rw [h0] at hl; simp at hl) demo_realHost E0 (eps := 1e-8) (by norm_num) (fun z hz => exactBessel_at hz)
    (fun z hz => exactBessel_at hz) (fun z hz => exactBessel_at hz) (fun z hz => exactBessel_at hz) (by linarith) (by linarith)
    (by rw [Real.cos_pi_div_three, abs_of_pos (by norm_num)]; unfold eps10Double; norm_num) (by linarith) (by linarith)
    (by rw [Real.cos_pi_div_six]; positivity)
  refine ⟨o, co, A, F, h, a1, a2, a3, ?_⟩
  rw [Real.cos_pi_div_six, Real.sin_pi_div_six, Real.sqrt_one] at a4
  have e : (Real.sqrt 3 / 2) ^ 2 = 3 / 4 := by rw [div_pow, Real.sq_sqrt (by norm_num)]; norm_num
  rw [e] at a4
  norm_num at a4 ⊢
  exact a4

/-- `C69_pena` applies: the same particle with any nonempty coefficients of one order, at a point at three radii. -/
example (E0 a b : ℂ) : ∃ C F A, 0 ≤ C ∧
    nearfieldsPena idealD1 demoParticle.k0 demoParticle.rLayers demoParticle.epsLayers demoParticle.epsEnv E0 [a] [b]
      ⟨3 * qp, 0, 0⟩ 0 = .ok F ∧
    angularScattering (V3.polar ⟨3 * qp, 0, 0⟩) [a] [b] = .ok A ∧
    FarField A E0 (csqrt demoParticle.epsEnv) (3 * qp) 0 (V3.polar ⟨3 * qp, 0, 0⟩) (V3.azimuth ⟨3 * qp, 0, 0⟩) (C / (3 * qp)) F := by
  have hq := qp_odd.big
  have hd : V3.dist ⟨3 * qp, 0, 0⟩ = 3 * qp := by
    simp only [V3.dist]
    rw [show (3 * qp) ^ 2 + 0 ^ 2 + 0 ^ 2 = (3 * qp) ^ 2 by ring, Real.sqrt_sq (by linarith)]
  obtain ⟨C, hC, h⟩ := C69_pena demo_realHost (by simp [demoParticle])
    (by simp only [demoParticle, strictlyIncreasing]; exact ⟨by linarith, trivial⟩) rfl (a := [a]) (b := [b]) (by simp) rfl E0
    (eps := 0) le_rfl
  obtain ⟨F, A, h1, h2, h3⟩ := h ⟨3 * qp, 0, 0⟩ (by rw [hd]; simp [demoParticle]; linarith)
    (by rw [hd, Real.sqrt_one]; linarith)
    (by rw [hd, Real.sqrt_one, one_mul, one_mul, add_zero]; exact qp3_odd.kernelOK)
  rw [hd, Real.sqrt_one, one_mul, one_mul] at h3
  exact ⟨C, F, A, hC, h1, h2, h3⟩

end MieDiff
