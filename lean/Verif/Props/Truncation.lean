import Verif.Proofs.Barrier
import Verif.Proofs.TailBound
import Verif.Proofs.TruncTable
import Verif.Props.Convergence
import Verif.Proofs.BackwardShellRun
import Verif.Proofs.Resonance
import Verif.Proofs.SmallClear
import Verif.Props.Depth

/-!
# C86: error from cutting the Mie series at the order used by the code

`mie_coefficients` returns the orders `1 .. n_max` (multishell.py:722-739); the cross sections are sums over these
(multishell.py:848-893).  Here: how far such a sum is from the full series, for an order above the centrifugal barrier of every
layer, and what the default orders give.
-/

namespace MieDiff

open Complex Spec Filter Topology ComplexConjugate

/-- Order `N` lies above the barrier of the host and of every layer: `(k0 r |eps|)^2 <= N (N + 1) Re eps` (for a real
permittivity: `k0 n r <= sqrt (N (N + 1))`). -/
structure OrderCovers (p : Particle1) (k0 e0 : ℝ) (N : ℕ) : Prop where
  host : (k0 * Real.sqrt e0 * p.rLayers.getLastD 0) ^ 2 ≤ (N : ℝ) * (N + 1)
  layers : ∀ q ∈ p.epsLayers.zip p.rLayers, (k0 * q.2) ^ 2 * ‖q.1‖ ^ 2 ≤ (N : ℝ) * (N + 1) * q.1.re

/-- The returned cross sections miss at most `d` of the full series, and never exceed it. -/
structure Short (c : CrossSections) (k : ℝ) (layers : List (ℂ × ℂ)) (d : ℝ) : Prop where
  ext : c.csExt ≤ csExtFull k layers ∧ csExtFull k layers ≤ c.csExt + d
  sca : c.csSca ≤ csScaFull k layers ∧ csScaFull k layers ≤ c.csSca + d
  abs : c.csAbs ≤ csExtFull k layers - csScaFull k layers ∧ csExtFull k layers - csScaFull k layers ≤ c.csAbs + d

/-- The same for the efficiencies of a particle with outer radius `R`. -/
structure ShortQ (c : CrossSections) (R k : ℝ) (layers : List (ℂ × ℂ)) (d : ℝ) : Prop where
  ext : c.qExt ≤ csExtFull k layers / (Real.pi * R ^ 2) ∧ csExtFull k layers / (Real.pi * R ^ 2) ≤ c.qExt + d
  sca : c.qSca ≤ csScaFull k layers / (Real.pi * R ^ 2) ∧ csScaFull k layers / (Real.pi * R ^ 2) ≤ c.qSca + d
  abs : c.qAbs ≤ (csExtFull k layers - csScaFull k layers) / (Real.pi * R ^ 2) ∧
    (csExtFull k layers - csScaFull k layers) / (Real.pi * R ^ 2) ≤ c.qAbs + d

/-- Bound of the truncation error at order `N`; `x = k R` is the outer size parameter. -/
noncomputable def truncErr (k x : ℝ) (N : ℕ) : ℝ :=
  16 * Real.pi * x / k ^ 2 * (((N : ℝ) + 1) ^ 3 * (N + 2) / ((N + 1) ^ 2 - x ^ 2) ^ 2) * ‖ricPsi N (x : ℂ)‖ ^ 2

theorem truncErr_eq {k R : ℝ} (hk : 0 < k) (hR : 0 < R) (N : ℕ) :
    truncErr k (k * R) N = Real.pi * R ^ 2 * qTail N (k * R) := by
  unfold truncErr qTail
  rw [psiR_eq N (mul_pos hk hR), norm_real, Real.norm_eq_abs, sq_abs]
  generalize ((N : ℝ) + 1) ^ 2 - (k * R) ^ 2 = G
  field_simp

theorem tail_short {f : ℕ → ℝ} {N : ℕ} {D r : ℝ} (h0 : ∀ i, 0 ≤ f i) (hr : 0 ≤ r) (hr1 : r < 1)
    (h : ∀ j, f (N + j) ≤ D * r ^ j) :
    Summable f ∧ ∑ i ∈ Finset.range N, f i ≤ ∑' i, f i ∧ ∑' i, f i ≤ ∑ i ∈ Finset.range N, f i + D / (1 - r) := by
  have hg : HasSum (fun j => D * r ^ j) (D / (1 - r)) := (hasSum_geometric_of_lt_one hr hr1).mul_left D
  have hs' : Summable fun j => f (j + N) :=
    Summable.of_nonneg_of_le (fun j => h0 _) (fun j => by rw [add_comm]; exact h j) hg.summable
  have hs : Summable f := (summable_nat_add_iff N).1 hs'
  refine ⟨hs, hs.sum_le_tsum _ fun i _ => h0 i, ?_⟩
  rw [← hs.sum_add_tsum_nat_add N]
  have : ∑' j, f (j + N) ≤ D / (1 - r) := by
    rw [← hg.tsum_eq]
    exact hs'.tsum_le_tsum (fun j => by rw [add_comm]; exact h j) hg.summable
  linarith

/-! ## The layers of a particle -/

section
variable {p : Particle1} {k0 e0 : ℝ} {N : ℕ}

theorem layer_mem (hp : RealHost p k0 e0) {l : ℂ × ℂ} (hl : l ∈ p.layers) :
    ∃ q ∈ p.epsLayers.zip p.rLayers, l.1 ^ 2 = q.1 / (e0 : ℂ) ∧ l.2 = ((k0 * Real.sqrt e0 * q.2 : ℝ) : ℂ) ∧ 0 < q.2 := by
  unfold Particle1.layers layersOf at hl
  rw [List.zip_map] at hl
  obtain ⟨q, hq, rfl⟩ := List.mem_map.1 hl
  refine ⟨q, hq, ?_, ?_, hp.radii _ (List.of_mem_zip hq).2⟩
  · show (csqrt q.1 / csqrt p.epsEnv) ^ 2 = _
    rw [div_pow, csqrt_sq, csqrt_sq, hp.env_eq]
  · show p.k0 * csqrt p.epsEnv * (q.2 : ℂ) = _
    rw [realHost_k hp]; push_cast; ring

theorem layers_last (hp : RealHost p k0 e0) (hlen : p.epsLayers.length = p.rLayers.length) (hne : p.rLayers ≠ []) :
    (p.layers.getLastD (0, 0)).2 = ((k0 * Real.sqrt e0 * p.rLayers.getLastD 0 : ℝ) : ℂ) := by
  have key : ∀ (es : List ℂ) (rs : List ℝ), es.length = rs.length → rs ≠ [] → ∀ K n : ℂ,
      ((layersOf K rs es n).getLastD (0, 0)).2 = K * ((rs.getLastD 0 : ℝ) : ℂ) := by
    intro es
    induction es with
    | nil => intro rs h h0; simp at h; exact absurd (List.length_eq_zero_iff.1 h.symm) h0
    | cons e es ih =>
      intro rs h h0 K n
      cases rs with
      | nil => exact absurd rfl h0
      | cons r rs =>
        have hl : es.length = rs.length := by simpa using h
        cases rs with
        | nil => rw [List.length_eq_zero_iff.1 hl]; simp [layersOf]
        | cons r' rs =>
          cases es with
          | nil => simp at hl
          | cons e' es =>
            have := ih (r' :: rs) hl (by simp) K n
            simpa [layersOf] using this
  have := key p.epsLayers p.rLayers hlen hne (p.k0 * csqrt p.epsEnv) (csqrt p.epsEnv)
  rw [realHost_k hp] at this
  unfold Particle1.layers
  rw [realHost_k hp, this]; push_cast; ring

theorem last_pos (hp : RealHost p k0 e0) (hne : p.rLayers ≠ []) : 0 < p.rLayers.getLastD 0 := by
  refine hp.radii _ ?_
  rw [List.getLastD_eq_getLast?, List.getLast?_eq_getLast_of_ne_nil hne]
  exact List.getLast_mem hne

/-- The outer size parameter in the truncation rule of the pena backend. -/
theorem xOuter_eq (hp : RealHost p k0 e0) (hlen : p.epsLayers.length = p.rLayers.length) :
    p.trunc.xOuter = ((k0 * Real.sqrt e0 * p.rLayers.getLastD 0 : ℝ) : ℂ) := by
  have key : ∀ (rs : List ℝ) (es : List ℂ), es.length = rs.length → ((rs.zip es).getLastD (0, 0)).1 = rs.getLastD 0 := by
    intro rs
    induction rs with
    | nil => intro es _; simp
    | cons r rs ih =>
      intro es he
      cases es with
      | nil => simp at he
      | cons e es =>
        have hl : es.length = rs.length := by simpa using he
        cases rs with
        | nil => simp [List.length_eq_zero_iff.1 hl]
        | cons r' rs =>
          cases es with
          | nil => simp at hl
          | cons e' es =>
            have := ih (e' :: es) hl
            simpa using this
  unfold TruncEntry.xOuter
  rw [show (p.trunc.layers.getLastD (0, 0)).1 = p.rLayers.getLastD 0 from key _ _ hlen,
    show p.trunc.k0 * csqrt p.trunc.epsEnv = ((k0 * Real.sqrt e0 : ℝ) : ℂ) from realHost_k hp]
  push_cast; rfl

theorem wiscombe_real {x : ℝ} (hx : 0 < x) : wiscombe [(x : ℂ)] = .ok (wiscombe1 x) := by
  show Except.ok (wiscombe1 ‖(x : ℂ)‖) = _
  rw [norm_real, Real.norm_of_nonneg hx.le]

/-- The order of the pena backend against Wiscombe's. -/
theorem pena_order {K : D1Kernel} {B : Backends} {backend w : String} {ri : Bool} {o : MieOut} (hb : backend.toLower = "pena")
    (h : mieCoefficients K B p backend w none ri = .ok o) (hp : RealHost p k0 e0) :
    wiscombe1 (k0 * Real.sqrt e0 * p.rLayers.getLastD 0) + 15 ≤ o.nMax := by
  obtain ⟨prun, hord, -⟩ := mieCoefficients_pena_inv' hb h
  obtain ⟨⟨wn, hw, hwn⟩, -⟩ := C25_pena hord
  rw [List.map_cons, List.map_nil, xOuter_eq hp prun.len,
    wiscombe_real (mul_pos (mul_pos hp.k0_pos (Real.sqrt_pos.2 hp.env_pos)) (last_pos hp prun.ne))] at hw
  rw [Except.ok.inj hw]
  exact hwn

theorem OrderCovers.re_pos (hp : RealHost p k0 e0)
    (hz : ∀ e ∈ p.epsLayers, e ≠ 0) (h : OrderCovers p k0 e0 N) : ∀ q ∈ p.epsLayers.zip p.rLayers, 0 < q.1.re := by
  intro q hq
  have h1 := h.layers q hq
  obtain ⟨m1, m2⟩ := List.of_mem_zip hq
  have h2 : 0 < (k0 * q.2) ^ 2 * ‖q.1‖ ^ 2 := by
    have := hp.k0_pos
    have := hp.radii _ m2
    have := norm_pos_iff.2 (hz _ m1)
    positivity
  have h3 : 0 < ((N : ℝ) * (N + 1)) * q.1.re := h2.trans_le h1
  exact pos_of_mul_pos_right h3 (by positivity)

theorem OrderCovers.above (hp : RealHost p k0 e0) (hz : ∀ e ∈ p.epsLayers, e ≠ 0) (h : OrderCovers p k0 e0 N) :
    AboveAll N p.layers := by
  intro l hl
  refine ⟨(layers_ne hp hz l hl).1, ?_⟩
  obtain ⟨q, hq, e1, e2, hq2⟩ := layer_mem hp hl
  have h1 := h.layers q hq
  have he := hp.env_pos
  unfold Above
  have e3 : normSq l.1 ^ 2 = ‖q.1‖ ^ 2 / e0 ^ 2 := by
    rw [← map_pow, e1, map_div₀, normSq_eq_norm_sq, normSq_ofReal]; ring
  rw [e2, ofReal_re, e3, e1, div_ofReal_re, mul_pow, mul_pow, Real.sq_sqrt he.le]
  rw [mul_pow] at h1
  have e4 : k0 ^ 2 * e0 * q.2 ^ 2 * (‖q.1‖ ^ 2 / e0 ^ 2) = (k0 ^ 2 * q.2 ^ 2 * ‖q.1‖ ^ 2) / e0 := by field_simp
  rw [e4, ← mul_div_assoc]
  exact div_le_div_of_nonneg_right h1 he.le

/-- Above the barrier the coefficients are small. -/
theorem coef_covered (hp : RealHost p k0 e0) (hinc : strictlyIncreasing p.rLayers)
    (hlen : p.epsLayers.length = p.rLayers.length) (hne : p.rLayers ≠ []) (hpass : ∀ e ∈ p.epsLayers, 0 ≤ e.im)
    (hz : ∀ e ∈ p.epsLayers, e ≠ 0) (h : OrderCovers p k0 e0 N) (q : Pol) (j : ℕ) :
    ‖coef q (N + j + 1) p.layers‖ ≤ 2 * rhoB (N + j) (k0 * Real.sqrt e0 * p.rLayers.getLastD 0) := by
  have hl := layers_ne hp hz
  obtain ⟨a, ha, -⟩ := C68_solvable hp hinc hlen hne hpass hz q (N + j + 1)
  have ha' : Solves q (N + j + 1) p.layers (coef q (N + j + 1) p.layers) := by
    unfold coef
    rw [dif_pos ⟨a, ha⟩]
    exact (⟨a, ha⟩ : ∃ a, Solves q (N + j + 1) p.layers a).choose_spec
  have he := layers_energy (s := 1) hp hinc (fun e h => by rw [one_mul]; exact hpass e h) hl ha'
  obtain ⟨l, rest, hcons⟩ : ∃ l rest, p.layers = l :: rest := by
    cases hh : p.layers with
    | nil => rw [hh] at ha; obtain ⟨w, -, hc⟩ := ha; exact absurd hc (by simp [Chain])
    | cons l rest => exact ⟨l, rest, rfl⟩
  obtain ⟨x0, hx0, hr⟩ := layers_radiiOK hp hinc hcons
  rw [← hcons] at hr
  have hA : AboveAll (N + j + 1) p.layers := by
    refine (h.above hp hz).mono (fun l hl => ?_) (by omega)
    obtain ⟨q, -, -, e2, hq2⟩ := layer_mem hp hl
    rw [e2, ofReal_re]
    exact mul_pos (mul_pos hp.k0_pos (Real.sqrt_pos.2 hp.env_pos)) hq2
  obtain ⟨x, e, hx, hg⟩ := ha'.growth hx0 hr hA
  rw [layers_last hp hlen hne] at e
  obtain rfl : k0 * Real.sqrt e0 * p.rLayers.getLastD 0 = x := by exact_mod_cast e
  exact coef_small hx (barrier_mono h.host (Nat.le_add_right N j)) hg (by linarith)

theorem coef_energy (hp : RealHost p k0 e0) (hinc : strictlyIncreasing p.rLayers)
    (hlen : p.epsLayers.length = p.rLayers.length) (hne : p.rLayers ≠ []) (hpass : ∀ e ∈ p.epsLayers, 0 ≤ e.im)
    (hz : ∀ e ∈ p.epsLayers, e ≠ 0) (q : Pol) (n : ℕ) : ‖coef q n p.layers‖ ^ 2 ≤ (coef q n p.layers).re := by
  obtain ⟨a, ha, -⟩ := C68_solvable hp hinc hlen hne hpass hz q n
  have ha' : Solves q n p.layers (coef q n p.layers) := by
    unfold coef
    rw [dif_pos ⟨a, ha⟩]
    exact (⟨a, ha⟩ : ∃ a, Solves q n p.layers a).choose_spec
  have he := layers_energy (s := 1) hp hinc (fun e h => by rw [one_mul]; exact hpass e h) (layers_ne hp hz) ha'
  linarith

/-- The remainder of the series. -/
theorem series_tail (hp : RealHost p k0 e0) (hinc : strictlyIncreasing p.rLayers)
    (hlen : p.epsLayers.length = p.rLayers.length) (hne : p.rLayers ≠ []) (hpass : ∀ e ∈ p.epsLayers, 0 ≤ e.im)
    (hz : ∀ e ∈ p.epsLayers, e ≠ 0) (h : OrderCovers p k0 e0 N) {E S k R : ℝ} (hk : k = k0 * Real.sqrt e0)
    (hR : R = p.rLayers.getLastD 0)
    (hE : E = ∑ i ∈ Finset.range N, extTerm k p.layers i) (hS : S = ∑ i ∈ Finset.range N, scaTerm k p.layers i) :
    (E ≤ csExtFull k p.layers ∧ csExtFull k p.layers ≤ E + truncErr k (k * R) N) ∧
    (S ≤ csScaFull k p.layers ∧ csScaFull k p.layers ≤ S + truncErr k (k * R) N) ∧
    (E - S ≤ csExtFull k p.layers - csScaFull k p.layers ∧
      csExtFull k p.layers - csScaFull k p.layers ≤ E - S + truncErr k (k * R) N) := by
  have hkp : 0 < k := by rw [hk]; exact mul_pos hp.k0_pos (Real.sqrt_pos.2 hp.env_pos)
  have hRp : 0 < R := by rw [hR]; exact last_pos hp hne
  set x := k * R with hx
  have hxp : 0 < x := mul_pos hkp hRp
  have hxe : k0 * Real.sqrt e0 * p.rLayers.getLastD 0 = x := by rw [hx, hk, hR]
  have hbar : x ^ 2 ≤ (N : ℝ) * (N + 1) := by rw [← hxe]; exact h.host
  have g := gap_pos hbar
  have en := coef_energy hp hinc hlen hne hpass hz
  have cs := coef_covered hp hinc hlen hne hpass hz h
  rw [hxe] at cs
  have hc : ∀ i : ℕ, 0 ≤ 2 * Real.pi / k ^ 2 * (2 * ((i : ℝ) + 1) + 1) := fun i => by positivity
  have s0 : ∀ i, 0 ≤ scaTerm k p.layers i := fun i => mul_nonneg (hc i) (by positivity)
  have se : ∀ i, scaTerm k p.layers i ≤ extTerm k p.layers i := fun i =>
    mul_le_mul_of_nonneg_left (add_le_add (en _ _) (en _ _)) (hc i)
  have e0' : ∀ i, 0 ≤ extTerm k p.layers i := fun i => (s0 i).trans (se i)
  set D : ℝ := 16 * Real.pi * x / k ^ 2 * (((N : ℝ) + 1) * (N + 2) / ((N + 1) ^ 2 - x ^ 2)) * psiR N x ^ 2 with hD
  set r : ℝ := (x / (N + 1)) ^ 2 with hr
  have hr0 : 0 ≤ r := by positivity
  have hN1 : (0 : ℝ) < ((N : ℝ) + 1) ^ 2 := by positivity
  have hr1 : r < 1 := by
    rw [hr, div_pow, div_lt_one hN1]; linarith
  have te : ∀ j, extTerm k p.layers (N + j) ≤ D * r ^ j := by
    intro j
    have b : ∀ q : Pol, (coef q (N + j + 1) p.layers).re ≤ 2 * rhoB (N + j) x := fun q =>
      (re_le_norm _).trans (cs q j)
    have t := rhoB_tail hxp hbar j
    have hf : 0 ≤ 2 * Real.pi / k ^ 2 := by positivity
    calc extTerm k p.layers (N + j)
        ≤ 2 * Real.pi / k ^ 2 * (2 * (((N + j : ℕ) : ℝ) + 1) + 1) * (2 * rhoB (N + j) x + 2 * rhoB (N + j) x) :=
          mul_le_mul_of_nonneg_left (add_le_add (b _) (b _)) (hc _)
      _ = 4 * (2 * Real.pi / k ^ 2) * ((2 * ((N + j : ℕ) : ℝ) + 3) * rhoB (N + j) x) := by ring
      _ ≤ 4 * (2 * Real.pi / k ^ 2) * (2 * x * (((N : ℝ) + 1) * (N + 2) / ((N + 1) ^ 2 - x ^ 2)) * psiR N x ^ 2 * r ^ j) :=
          mul_le_mul_of_nonneg_left t (by positivity)
      _ = D * r ^ j := by rw [hD]; ring
  have hDr : D / (1 - r) = truncErr k x N := by
    have hgap : 1 - r = ((N + 1) ^ 2 - x ^ 2) / (N + 1) ^ 2 := by rw [hr, div_pow]; field_simp
    unfold truncErr
    rw [psiR_eq N hxp, norm_real, Real.norm_eq_abs, sq_abs, hgap, hD]
    generalize ((N : ℝ) + 1) ^ 2 - x ^ 2 = G at g ⊢
    field_simp
  obtain ⟨sm1, l1, u1⟩ := tail_short e0' hr0 hr1 te
  obtain ⟨sm2, l2, u2⟩ := tail_short s0 hr0 hr1 fun j => (se _).trans (te j)
  obtain ⟨sm3, l3, u3⟩ := tail_short (f := fun i => extTerm k p.layers i - scaTerm k p.layers i)
    (fun i => sub_nonneg.2 (se i)) hr0 hr1 fun j => (by linarith [s0 (N + j)] : _ ≤ extTerm k p.layers (N + j)).trans (te j)
  rw [hDr, ← hE] at u1
  rw [hDr, ← hS] at u2
  rw [hDr] at u3
  rw [← hE] at l1
  rw [← hS] at l2
  rw [Finset.sum_sub_distrib, ← hE, ← hS, sm1.tsum_sub sm2] at l3 u3
  exact ⟨⟨l1, u1⟩, ⟨l2, u2⟩, l3, u3⟩

/-- An exact run at an order above the barrier. -/
theorem exactRun_short {o : MieOut} (run : ExactRun p o) (hb : BasicRun p o) (hp : RealHost p k0 e0)
    (hpass : ∀ e ∈ p.epsLayers, 0 ≤ e.im) (hz : ∀ e ∈ p.epsLayers, e ≠ 0) (h : OrderCovers p k0 e0 o.nMax.toNat) :
    Short (crossSections o.k o.rS o.a o.b) (k0 * Real.sqrt e0) p.layers
      (truncErr (k0 * Real.sqrt e0) (k0 * Real.sqrt e0 * p.rLayers.getLastD 0) o.nMax.toNat) := by
  obtain ⟨s1, s2⟩ := exactRun_sums run hp (layers_ne hp hz)
  obtain ⟨t1, t2, t3⟩ := series_tail hp hb.inc hb.len hb.ne hpass hz h rfl rfl s1 s2
  refine ⟨t1, t2, ?_⟩
  have e := (C05_totals o.k o.rS o.a o.b).2.2
  have e' : (crossSections o.k o.rS o.a o.b).csAbs =
      (crossSections o.k o.rS o.a o.b).csExt - (crossSections o.k o.rS o.a o.b).csSca := by
    have := C05_ext_eq_sca_add_abs o.k o.rS o.a o.b
    linarith
  rw [e']
  exact t3

/-- From cross sections to efficiencies. -/
theorem Short.toQ {o : MieOut} {k R d q : ℝ} {layers : List (ℂ × ℂ)} (hR : 0 < R) (hrS : o.rS = R)
    (h : Short (crossSections o.k o.rS o.a o.b) k layers d) (hd : d ≤ Real.pi * R ^ 2 * q) :
    ShortQ (crossSections o.k o.rS o.a o.b) R k layers q := by
  obtain ⟨-, e1, e2, e3, -⟩ := C05_efficiencies o.k o.rS o.a o.b
  simp only [hrS] at e1 e2 e3 h ⊢
  have hA : 0 < Real.pi * R ^ 2 := by positivity
  have key : ∀ {u v : ℝ}, u ≤ v ∧ v ≤ u + d → u / (Real.pi * R ^ 2) ≤ v / (Real.pi * R ^ 2) ∧
      v / (Real.pi * R ^ 2) ≤ u / (Real.pi * R ^ 2) + q := by
    rintro u v ⟨h1, h2⟩
    refine ⟨div_le_div_of_nonneg_right h1 hA.le, ?_⟩
    rw [div_le_iff₀ hA, add_mul, div_mul_cancel₀ _ hA.ne']
    linarith
  refine ⟨?_, ?_, ?_⟩
  · rw [e1]; exact key h.ext
  · rw [e2]; exact key h.sca
  · rw [e3]; exact key h.abs

end

/-! ## C86 -/

section
variable {B : Backends} {p : Particle1} {backend w : String} {ri : Bool} {o : MieOut} {k0 e0 : ℝ}

/-- C86 for the torch and scipy backends with exact special functions: at every order above the barrier the returned
cross sections of a passive particle are lower bounds of the full series and miss at most `truncErr`. -/
theorem C86_core_shell {K : D1Kernel} {nMax : Option ℤ} (hb : backend.toLower ≠ "pena")
    (h : mieCoefficients K B p backend w nMax ri = .ok o) (hpos : 1 ≤ o.nMax)
    (hS : ∀ S, selectBessel B backend w = .ok S → ∀ z ∈ csArgs p.layers, ExactAt S o.nMax.toNat z)
    (hp : RealHost p k0 e0) (hpass : ∀ e ∈ p.epsLayers, 0 ≤ e.im) (hz : ∀ e ∈ p.epsLayers, e ≠ 0)
    (hc : OrderCovers p k0 e0 o.nMax.toNat) :
    Short (crossSections o.k o.rS o.a o.b) (k0 * Real.sqrt e0) p.layers
      (truncErr (k0 * Real.sqrt e0) (k0 * Real.sqrt e0 * p.rLayers.getLastD 0) o.nMax.toNat) :=
  exactRun_short (ExactRun.of_passive hb h hpos hS hp hpass hz) (mieCoefficients_basic h) hp hpass hz hc

/-- C86 for the pena backend with the exact logarithmic derivative. -/
theorem C86_pena {nMax : Option ℤ} (hb : backend.toLower = "pena")
    (h : mieCoefficients idealD1 B p backend w nMax ri = .ok o) (hcl : SolverClear idealFn o.nMax.toNat p.layers)
    (hp : RealHost p k0 e0) (hpass : ∀ e ∈ p.epsLayers, 0 ≤ e.im) (hz : ∀ e ∈ p.epsLayers, e ≠ 0)
    (hc : OrderCovers p k0 e0 o.nMax.toNat) :
    Short (crossSections o.k o.rS o.a o.b) (k0 * Real.sqrt e0) p.layers
      (truncErr (k0 * Real.sqrt e0) (k0 * Real.sqrt e0 * p.rLayers.getLastD 0) o.nMax.toNat) :=
  exactRun_short (ExactRun.of_pena hb h hcl) (mieCoefficients_basic h) hp hpass hz hc

/-- The default order of the torch and scipy backends: the efficiencies of a passive particle are accurate to `10^-7`
up to outer size parameter 44 and to `10^-6` up to 57, provided the order lies above the barrier of every layer. -/
theorem C86_default_order {K : D1Kernel} (hb : backend.toLower ≠ "pena")
    (h : mieCoefficients K B p backend w none ri = .ok o)
    (hS : ∀ S, selectBessel B backend w = .ok S → ∀ z ∈ csArgs p.layers, ExactAt S o.nMax.toNat z)
    (hp : RealHost p k0 e0) (hpass : ∀ e ∈ p.epsLayers, 0 ≤ e.im) (hz : ∀ e ∈ p.epsLayers, e ≠ 0)
    (hl : ∀ q ∈ p.epsLayers.zip p.rLayers, (k0 * q.2) ^ 2 * ‖q.1‖ ^ 2 ≤ (o.nMax : ℝ) * (o.nMax + 1) * q.1.re) :
    (k0 * Real.sqrt e0 * p.rLayers.getLastD 0 ≤ 44 →
      ShortQ (crossSections o.k o.rS o.a o.b) (p.rLayers.getLastD 0) (k0 * Real.sqrt e0) p.layers 1e-7) ∧
    (k0 * Real.sqrt e0 * p.rLayers.getLastD 0 ≤ 57 →
      ShortQ (crossSections o.k o.rS o.a o.b) (p.rLayers.getLastD 0) (k0 * Real.sqrt e0) p.layers 1e-6) := by
  have hB := mieCoefficients_basic h
  have hRp := last_pos hp hB.ne
  have hkp : 0 < k0 * Real.sqrt e0 := mul_pos hp.k0_pos (Real.sqrt_pos.2 hp.env_pos)
  obtain ⟨m1, x1, m2, x2, run⟩ := mieCoefficients_cs_inv hb h
  set R := p.rLayers.getLastD 0 with hR
  set k := k0 * Real.sqrt e0 with hk
  have hxp : 0 < k * R := mul_pos hkp hRp
  have hord : o.nMax = wiscombe1 (k * R) := by
    have := run.order
    simp only [orderChoice, hb, if_false] at this
    rw [← hR, show ((R : ℝ) : ℂ) * p.k0 * csqrt p.epsEnv = ((k * R : ℝ) : ℂ) by
      rw [mul_assoc, realHost_k hp, ← hk]; push_cast; ring] at this
    rw [wiscombe_real hxp] at this
    exact (Except.ok.inj this).symm
  obtain ⟨t7, t6, -⟩ := wiscombe_tail hxp
  have main : ∀ d : ℝ, 1 ≤ wiscombe1 (k * R) ∧ (k * R) ^ 2 ≤ (wiscombe1 (k * R)).toNat * ((wiscombe1 (k * R)).toNat + 1) ∧
      qTail (wiscombe1 (k * R)).toNat (k * R) ≤ d →
      ShortQ (crossSections o.k o.rS o.a o.b) R k p.layers d := by
    rintro d ⟨h1, h2, h3⟩
    rw [← hord] at h1 h2 h3
    have hn : ((o.nMax.toNat : ℕ) : ℝ) = o.nMax := by
      exact_mod_cast Int.toNat_of_nonneg (by omega : 0 ≤ o.nMax)
    have hs := C86_core_shell hb h h1 hS hp hpass hz ⟨h2, by rw [hn]; exact hl⟩
    refine hs.toQ hRp (shellRun_of hb h).rS ?_
    rw [truncErr_eq hkp hRp]
    exact mul_le_mul_of_nonneg_left h3 (by positivity)
  refine ⟨fun hx => main _ ?_, fun hx => main _ ?_⟩
  · have := t7 hx; norm_num at this ⊢; exact this
  · have := t6 hx; norm_num at this ⊢; exact this

/-- The default order of the pena backend lies above the barrier of the host and of every lossless layer. -/
theorem C86_pena_covers {K : D1Kernel} (hb : backend.toLower = "pena") (h : mieCoefficients K B p backend w none ri = .ok o)
    (hp : RealHost p k0 e0) (hreal : ∀ e ∈ p.epsLayers, e.im = 0 ∧ 0 < e.re) : OrderCovers p k0 e0 o.nMax.toNat := by
  obtain ⟨prun, hord, -⟩ := mieCoefficients_pena_inv' hb h
  obtain ⟨⟨wn, hw, hwn⟩, hm⟩ := C25_pena hord
  have hpos := prun.pos
  have hn : ((o.nMax.toNat : ℕ) : ℝ) = o.nMax := by
    exact_mod_cast Int.toNat_of_nonneg (by omega : 0 ≤ o.nMax)
  have hkp : 0 < k0 * Real.sqrt e0 := mul_pos hp.k0_pos (Real.sqrt_pos.2 hp.env_pos)
  have hn0 : (0 : ℝ) ≤ o.nMax := by exact_mod_cast (by omega : 0 ≤ o.nMax)
  have sq_le : ∀ t : ℝ, 0 ≤ t → t ≤ o.nMax → t ^ 2 ≤ (o.nMax : ℝ) * (o.nMax + 1) := by
    intro t h0 ht
    nlinarith
  refine ⟨?_, fun q hq => ?_⟩
  · obtain ⟨w', hw', hge⟩ := (C25_wiscombe_ge ([p.trunc].map TruncEntry.xOuter)).2 (by simp)
    rw [hw] at hw'
    injection hw' with hw'
    subst hw'
    have h1 := hge p.trunc.xOuter (by simp)
    have h2 : (wn : ℝ) + 15 ≤ o.nMax := by exact_mod_cast hwn
    have h3 : ‖p.trunc.xOuter‖ = k0 * Real.sqrt e0 * p.rLayers.getLastD 0 := by
      rw [xOuter_eq hp prun.len, norm_real, Real.norm_of_nonneg (mul_pos hkp (last_pos hp prun.ne)).le]
    rw [h3] at h1
    rw [hn]
    exact sq_le _ (mul_pos hkp (last_pos hp prun.ne)).le (by linarith)
  · obtain ⟨m1, m2⟩ := List.of_mem_zip hq
    obtain ⟨him, hre⟩ := hreal _ m1
    have hr := hp.radii _ m2
    have hk := hp.k0_pos
    have h1 := (hm p.trunc (by simp)).1 (p.k0 * csqrt q.1 * (q.2 : ℂ)) (by
      unfold TruncEntry.mx Particle1.trunc
      refine List.mem_map.2 ⟨(q.2, q.1), ?_, rfl⟩
      rw [← List.zip_swap]
      exact List.mem_map.2 ⟨q, hq, rfl⟩)
    have hqe : q.1 = ((q.1.re : ℝ) : ℂ) := Complex.ext rfl (by rw [him, ofReal_im])
    have h2 : ‖p.k0 * csqrt q.1 * (q.2 : ℂ)‖ = k0 * Real.sqrt q.1.re * q.2 := by
      rw [hqe, csqrt_ofReal hre.le, hp.k0_eq, norm_mul, norm_mul, norm_real, norm_real, norm_real, Real.norm_of_nonneg hk.le,
        Real.norm_of_nonneg (Real.sqrt_nonneg _), Real.norm_of_nonneg hr.le, ofReal_re]
    rw [h2] at h1
    have h3 := sq_le (k0 * Real.sqrt q.1.re * q.2) (by positivity) (by linarith)
    have h4 : ‖q.1‖ = q.1.re := by rw [hqe, norm_real, Real.norm_of_nonneg hre.le, ofReal_re]
    rw [hn, h4]
    rw [mul_pow, mul_pow, Real.sq_sqrt hre.le] at h3
    calc (k0 * q.2) ^ 2 * q.1.re ^ 2 = k0 ^ 2 * q.1.re * q.2 ^ 2 * q.1.re := by ring
      _ ≤ _ := mul_le_mul_of_nonneg_right h3 hre.le

/-- The default order of the pena backend, lossless particle, outer size parameter up to 64: the efficiencies are accurate
to `10^-18`, whatever the refractive indices. -/
theorem C86_pena_default (hb : backend.toLower = "pena") (h : mieCoefficients idealD1 B p backend w none ri = .ok o)
    (hcl : SolverClear idealFn o.nMax.toNat p.layers) (hp : RealHost p k0 e0) (hreal : ∀ e ∈ p.epsLayers, e.im = 0 ∧ 0 < e.re)
    (hx : k0 * Real.sqrt e0 * p.rLayers.getLastD 0 ≤ 64) :
    ShortQ (crossSections o.k o.rS o.a o.b) (p.rLayers.getLastD 0) (k0 * Real.sqrt e0) p.layers 1e-18 := by
  have hz : ∀ e ∈ p.epsLayers, e ≠ 0 := by
    intro e he h0
    have := (hreal e he).2
    rw [h0] at this; simp at this
  have hs := C86_pena hb h hcl hp (fun e he => (hreal e he).1.ge) hz (C86_pena_covers hb h hp hreal)
  obtain ⟨prun, hord, -⟩ := mieCoefficients_pena_inv' hb h
  have hRp := last_pos hp prun.ne
  have hkp : 0 < k0 * Real.sqrt e0 := mul_pos hp.k0_pos (Real.sqrt_pos.2 hp.env_pos)
  refine hs.toQ hRp prun.rS ?_
  rw [truncErr_eq hkp hRp]
  refine mul_le_mul_of_nonneg_left ?_ (by positivity)
  obtain ⟨-, -, t⟩ := wiscombe_tail (mul_pos hkp hRp)
  have hpos := prun.pos
  have ho := pena_order hb h hp
  have := (t hx o.nMax.toNat (by omega)).2
  norm_num at this ⊢
  exact this

/-- A homogeneous sphere. -/
noncomputable def sphere (k0 e0 R eps : ℝ) : Particle1 := ⟨k0, [R], [(eps : ℂ)], e0⟩

theorem sphere_host {R eps : ℝ} (hk : 0 < k0) (he : 0 < e0) (hR : 0 < R) : RealHost (sphere k0 e0 R eps) k0 e0 :=
  ⟨rfl, hk, rfl, he, by intro r hr; simp only [sphere, List.mem_singleton] at hr; rw [hr]; exact hR⟩

theorem sphere_layers {R eps : ℝ} (hk : 0 < k0) (he : 0 < e0) (hR : 0 < R) (heps : 0 ≤ eps) :
    (sphere k0 e0 R eps).layers =
      [(((Real.sqrt eps / Real.sqrt e0 : ℝ) : ℂ), ((k0 * Real.sqrt e0 * R : ℝ) : ℂ))] := by
  have h := realHost_k (sphere_host (eps := eps) hk he hR)
  unfold Particle1.layers layersOf
  rw [h]
  simp only [sphere, List.map_cons, List.map_nil, List.zip_cons_cons, List.zip_nil_left, csqrt_ofReal heps, csqrt_ofReal he.le]
  push_cast
  rfl

/-- The default order of the torch and scipy backends does not see the refractive index.  For every host, wavenumber and
radius there is a lossless dielectric sphere for which the first missing order alone contributes the largest possible
amount `2 pi (2 n + 1) / k^2`, so the extinction and scattering cross sections are too small by at least this amount. -/
theorem C86_missed_resonance {k0 e0 R : ℝ} (hk : 0 < k0) (he : 0 < e0) (hR : 0 < R) :
    ∃ eps : ℝ, e0 < eps ∧ ∀ (K : D1Kernel) (B : Backends) (backend w : String) (ri : Bool) (o : MieOut),
      backend.toLower ≠ "pena" → mieCoefficients K B (sphere k0 e0 R eps) backend w none ri = .ok o →
      (∀ S, selectBessel B backend w = .ok S → ∀ z ∈ csArgs (sphere k0 e0 R eps).layers, ExactAt S o.nMax.toNat z) →
      let c := crossSections o.k o.rS o.a o.b
      let k := k0 * Real.sqrt e0
      c.csExt + 2 * Real.pi / k ^ 2 * (2 * o.nMax + 3) ≤ csExtFull k (sphere k0 e0 R eps).layers ∧
      c.csSca + 2 * Real.pi / k ^ 2 * (2 * o.nMax + 3) ≤ csScaFull k (sphere k0 e0 R eps).layers := by
  have hkp : 0 < k0 * Real.sqrt e0 := mul_pos hk (Real.sqrt_pos.2 he)
  set k := k0 * Real.sqrt e0 with hkd
  have hxp : 0 < k * R := mul_pos hkp hR
  obtain ⟨wn, hw, hge⟩ := (C25_wiscombe_ge [((k * R : ℝ) : ℂ)]).2 (by simp)
  have hge := hge _ (List.mem_singleton.2 rfl)
  rw [norm_real, Real.norm_of_nonneg hxp.le] at hge
  have hwe : wn = wiscombe1 (k * R) := by
    rw [wiscombe_real hxp] at hw
    exact (Except.ok.inj hw).symm
  have hw0 : 0 ≤ wn := by
    have : (0 : ℝ) ≤ wn := by linarith
    exact_mod_cast this
  have hwn : ((wn.toNat : ℕ) : ℝ) = wn := by exact_mod_cast Int.toNat_of_nonneg hw0
  obtain ⟨m, hm1, hres⟩ := resonance (n := wn.toNat) hxp (by rw [hwn]; nlinarith)
  have hs0 := Real.sqrt_pos.2 he
  refine ⟨m ^ 2 * e0, lt_mul_of_one_lt_left he (one_lt_pow₀ hm1 two_ne_zero), ?_⟩
  intro K B backend w ri o hb h hS
  have heps : 0 < m ^ 2 * e0 := by positivity
  have hp := sphere_host (eps := m ^ 2 * e0) hk he hR
  have hl : (sphere k0 e0 R (m ^ 2 * e0)).layers = [((m : ℂ), ((k * R : ℝ) : ℂ))] := by
    rw [sphere_layers hk he hR heps.le, Real.sqrt_mul (by positivity), Real.sqrt_sq (by linarith), mul_div_cancel_right₀ _ hs0.ne']
  have hmem : ∀ e ∈ (sphere k0 e0 R (m ^ 2 * e0)).epsLayers, e = ((m ^ 2 * e0 : ℝ) : ℂ) := by
    intro e h; simpa [sphere] using h
  have hpass : ∀ e ∈ (sphere k0 e0 R (m ^ 2 * e0)).epsLayers, 0 ≤ e.im := by
    intro e h; rw [hmem e h, ofReal_im]
  have hz : ∀ e ∈ (sphere k0 e0 R (m ^ 2 * e0)).epsLayers, e ≠ 0 := by
    intro e h; rw [hmem e h]; exact_mod_cast heps.ne'
  have hB := mieCoefficients_basic h
  have hq : NoCancel (sphere k0 e0 R (m ^ 2 * e0)) := by
    intro q hq
    simp only [sphere, List.tail_cons, List.nil_append, List.zip_cons_cons, List.zip_nil_left,
      List.mem_cons, List.not_mem_nil, or_false] at hq
    subst hq
    intro h0
    have := congrArg re h0
    simp only [add_re, ofReal_re, zero_re] at this
    linarith
  obtain ⟨m1, x1, m2, x2, run⟩ := mieCoefficients_cs_inv hb h
  have hord : o.nMax = wn := by
    have := run.order
    simp only [orderChoice, hb, if_false] at this
    rw [show (((sphere k0 e0 R (m ^ 2 * e0)).rLayers.getLastD 0 : ℝ) : ℂ) * (sphere k0 e0 R (m ^ 2 * e0)).k0 *
        csqrt (sphere k0 e0 R (m ^ 2 * e0)).epsEnv = ((k * R : ℝ) : ℂ) by
      rw [mul_assoc, realHost_k hp, ← hkd]; simp [sphere]; ring] at this
    rw [hw] at this
    exact (Except.ok.inj this).symm
  have hpos : 1 ≤ o.nMax := by
    rw [hord]
    have : (0 : ℝ) < wn := by linarith
    have : 0 < wn := by exact_mod_cast this
    omega
  obtain ⟨s1, s2⟩ := exactRun_sums (ExactRun.of_passive hb h hpos hS hp hpass hz) hp (layers_ne hp hz)
  obtain ⟨sm1, sm2, -⟩ := C67_summable hp hB.inc hB.len hB.ne hz hq
  have en := coef_energy hp hB.inc hB.len hB.ne hpass hz
  have hc : ∀ i : ℕ, 0 ≤ 2 * Real.pi / k ^ 2 * (2 * ((i : ℝ) + 1) + 1) := fun i => by positivity
  have hcoef : coef .te (wn.toNat + 1) (sphere k0 e0 R (m ^ 2 * e0)).layers = 1 := by
    have hu := C68_solvable hp hB.inc hB.len hB.ne hpass hz .te (wn.toNat + 1)
    have h1 : Solves .te (wn.toNat + 1) (sphere k0 e0 R (m ^ 2 * e0)).layers 1 := by rw [hl]; exact hres
    unfold coef
    rw [dif_pos ⟨1, h1⟩]
    exact hu.unique (⟨1, h1⟩ : ∃ a, Solves .te (wn.toNat + 1) (sphere k0 e0 R (m ^ 2 * e0)).layers a).choose_spec h1
  have fin : ∀ (f : ℕ → ℝ) (c : ℝ), Summable f → (∀ i, 0 ≤ f i) → c ≤ f wn.toNat →
      ∑ i ∈ Finset.range o.nMax.toNat, f i + c ≤ ∑' i, f i := by
    intro f c hs h0 hcf
    have := hs.sum_le_tsum (Finset.range (wn.toNat + 1)) fun i _ => h0 i
    rw [Finset.sum_range_succ, ← hord] at this
    rw [← hord] at hcf
    linarith
  intro c k'
  have sc0 : ∀ i, 0 ≤ scaTerm k (sphere k0 e0 R (m ^ 2 * e0)).layers i := fun i => mul_nonneg (hc i) (by positivity)
  have ex0 : ∀ i, 0 ≤ extTerm k (sphere k0 e0 R (m ^ 2 * e0)).layers i := fun i =>
    mul_nonneg (hc i) (add_nonneg ((sq_nonneg _).trans (en _ _)) ((sq_nonneg _).trans (en _ _)))
  have e1 : 2 * Real.pi / k ^ 2 * (2 * (o.nMax : ℝ) + 3) =
      2 * Real.pi / k ^ 2 * (2 * (((wn.toNat : ℕ) : ℝ) + 1) + 1) * 1 := by rw [hord, hwn]; ring
  refine ⟨?_, ?_⟩
  · show (crossSections o.k o.rS o.a o.b).csExt + _ ≤ _
    rw [s1]
    refine fin _ _ sm1 ex0 ?_
    rw [e1]
    refine mul_le_mul_of_nonneg_left ?_ (hc _)
    rw [hcoef, one_re]
    have := (sq_nonneg _).trans (en .tm (wn.toNat + 1))
    linarith
  · show (crossSections o.k o.rS o.a o.b).csSca + _ ≤ _
    rw [s2]
    refine fin _ _ sm2 sc0 ?_
    rw [e1]
    refine mul_le_mul_of_nonneg_left ?_ (hc _)
    rw [hcoef, norm_one]
    have := sq_nonneg ‖coef .tm (wn.toNat + 1) (sphere k0 e0 R (m ^ 2 * e0)).layers‖
    linarith

/-- A call for a sphere with exact special functions succeeds. -/
theorem sphere_torch_ok {K : D1Kernel} {R eps : ℝ} (hk : 0 < k0) (he : 0 < e0) (hR : 0 < R) (heps : 0 < eps) :
    ∃ o : MieOut, mieCoefficients K exactBackends (sphere k0 e0 R eps) "torch" "recurrence" none = .ok o ∧
      o.nMax = wiscombe1 (k0 * Real.sqrt e0 * R) ∧
      ∀ S, selectBessel exactBackends "torch" "recurrence" = .ok S → ∀ z ∈ csArgs (sphere k0 e0 R eps).layers,
        ExactAt S o.nMax.toNat z := by
  have ht : "torch".toLower = "torch" := by decide +kernel
  have hw : "recurrence".toLower = "recurrence" := by decide +kernel
  have hs0 := Real.sqrt_pos.2 he
  have hxp : 0 < k0 * Real.sqrt e0 * R := by positivity
  have hx0 : ((k0 * Real.sqrt e0 * R : ℝ) : ℂ) ≠ 0 := by exact_mod_cast hxp.ne'
  have hm0 : ((Real.sqrt eps / Real.sqrt e0 : ℝ) : ℂ) ≠ 0 := by
    exact_mod_cast (div_pos (Real.sqrt_pos.2 heps) hs0).ne'
  have hp := sphere_host (eps := eps) hk he hR
  obtain ⟨wn, hwi, hge⟩ := (C25_wiscombe_ge [((k0 * Real.sqrt e0 * R : ℝ) : ℂ)]).2 (by simp)
  have hge := hge _ (List.mem_singleton.2 rfl)
  rw [norm_real, Real.norm_of_nonneg hxp.le] at hge
  have hwe : wn = wiscombe1 (k0 * Real.sqrt e0 * R) := by
    rw [wiscombe_real hxp] at hwi
    exact (Except.ok.inj hwi).symm
  obtain ⟨n, hn⟩ : ∃ n : ℕ, wn = ((n + 1 : ℕ) : ℤ) := by
    have : (0 : ℝ) < wn := by linarith
    have : 0 < wn := by exact_mod_cast this
    exact ⟨(wn - 1).toNat, by omega⟩
  have hargs : ∀ z ∈ csArgs (sphere k0 e0 R eps).layers, z ≠ 0 := by
    rw [sphere_layers hk he hR heps.le]
    intro z hz
    simp only [csArgs, List.mem_cons, List.not_mem_nil, or_false] at hz
    rcases hz with rfl | rfl
    · exact hx0
    · exact mul_ne_zero hm0 hx0
  have hsel : ∀ S, selectBessel exactBackends "torch" "recurrence" = .ok S → S = exactBessel := by
    intro S hS
    simp only [selectBessel, ht, hw, exactBackends] at hS
    simpa using hS.symm
  have hx : (sphere k0 e0 R eps).k0 * csqrt (sphere k0 e0 R eps).epsEnv * (R : ℂ) = ((k0 * Real.sqrt e0 * R : ℝ) : ℂ) := by
    rw [realHost_k hp]; push_cast; ring
  have hm := miecoef_exact (n := n) (x := ((k0 * Real.sqrt e0 * R : ℝ) : ℂ)) (y := ((k0 * Real.sqrt e0 * R : ℝ) : ℂ))
    (m1 := ((Real.sqrt eps / Real.sqrt e0 : ℝ) : ℂ)) (m2 := ((Real.sqrt eps / Real.sqrt e0 : ℝ) : ℂ))
    (exactBessel_at hx0) (exactBessel_at (mul_ne_zero hm0 hx0)) (exactBessel_at (mul_ne_zero hm0 hx0))
    (exactBessel_at (mul_ne_zero hm0 hx0))
  suffices h : ∃ o : MieOut, mieCoefficients K exactBackends (sphere k0 e0 R eps) "torch" "recurrence" none = .ok o ∧ o.nMax = wn by
    obtain ⟨o, h1, h2⟩ := h
    refine ⟨o, h1, by rw [h2, hwe], fun S hS z hz => ?_⟩
    rw [hsel S hS]
    exact exactBessel_at (hargs z hz)
  have hord : orderChoice "torch" (sphere k0 e0 R eps) none = .ok wn := by
    simp only [orderChoice, show ("torch" = "pena") = False by decide, if_false]
    rw [show (((sphere k0 e0 R eps).rLayers.getLastD 0 : ℝ) : ℂ) * (sphere k0 e0 R eps).k0 *
        csqrt (sphere k0 e0 R eps).epsEnv = ((k0 * Real.sqrt e0 * R : ℝ) : ℂ) by rw [← hx]; simp [sphere]; ring]
    exact hwi
  unfold mieCoefficients
  simp only [ht, true_or, not_true_eq_false, if_false]
  rw [if_neg (by simp [strictlyIncreasing, sphere]), if_neg (by simp [sphere]), hord]
  have hq : csqrt ((eps : ℝ) : ℂ) / csqrt (sphere k0 e0 R eps).epsEnv = ((Real.sqrt eps / Real.sqrt e0 : ℝ) : ℂ) := by
    rw [csqrt_ofReal heps.le, hp.env_eq, csqrt_ofReal he.le]; push_cast; rfl
  have hr1 : (sphere k0 e0 R eps).rLayers = [R] := rfl
  have he1 : (sphere k0 e0 R eps).epsLayers = [(eps : ℂ)] := rfl
  simp only [Bind.bind, Except.bind, pyIdx, hr1, he1, List.getElem?_cons_zero, orderRange, selectBessel, ht, hw,
    List.length_cons, List.length_nil, zero_add, lt_self_iff_false, if_false, hx, hq, hn]
  rw [if_neg (by push_cast; omega)]
  simp only [show ("torch" = "pena") = False by decide, if_false]
  rw [if_neg (by norm_num), if_neg (by decide), if_pos (by decide)]
  simp only [exactBackends]
  rw [hm]
  exact ⟨_, rfl, rfl⟩

theorem sphere_order {R eps : ℝ} (hk : 0 < k0) (he : 0 < e0) (hR : 0 < R) (heps : 0 < eps) :
    penaNmax [(sphere k0 e0 R eps).trunc] = .ok (torchRound (max (penaNStop (k0 * Real.sqrt e0 * R) : ℝ)
      (max (k0 * Real.sqrt eps * R) 0) + 15)) := by
  have hs0 := Real.sqrt_pos.2 he
  have hs1 := Real.sqrt_pos.2 heps
  have n1 : ‖(k0 : ℂ) * (Real.sqrt e0 : ℝ) * (R : ℂ)‖ = k0 * Real.sqrt e0 * R := by
    rw [norm_mul, norm_mul, norm_real, norm_real, norm_real, Real.norm_of_nonneg hk.le, Real.norm_of_nonneg hs0.le, Real.norm_of_nonneg hR.le]
  have n2 : ‖(k0 : ℂ) * (Real.sqrt eps : ℝ) * (R : ℂ)‖ = k0 * Real.sqrt eps * R := by
    rw [norm_mul, norm_mul, norm_real, norm_real, norm_real, Real.norm_of_nonneg hk.le, Real.norm_of_nonneg hs1.le, Real.norm_of_nonneg hR.le]
  have n3 : ‖(k0 : ℂ) * (Real.sqrt eps : ℝ) * ((0 : ℝ) : ℂ)‖ = 0 := by simp
  unfold penaNmax
  simp only [Particle1.trunc, sphere, TruncEntry.xOuter, TruncEntry.mx, TruncEntry.mxPrev, maxAbs, csqrt_ofReal he.le,
    csqrt_ofReal heps.le, List.zip_cons_cons, List.zip_nil_left, List.map_cons, List.map_nil, List.getLastD_cons, List.getLastD_nil,
    List.flatMap_cons, List.flatMap_nil, List.append_nil, List.dropLast_singleton, List.zipWith_cons_cons, List.zipWith_nil_left, n1,
    n2, n3, List.foldl_nil]
  rfl

theorem sphere_pena_ok (B : Backends) (w : String) {R eps : ℝ} (hk : 0 < k0) (he : 0 < e0) (hR : 0 < R) (heps : 0 < eps)
    (hx0 : 1e-26 ≤ k0 * Real.sqrt e0 * R) (hx1 : k0 * Real.sqrt e0 * R ≤ 1) (hy0 : 1e-26 ≤ k0 * Real.sqrt eps * R)
    (hy1 : (k0 * Real.sqrt eps * R) ^ 2 ≤ 2) :
    ∃ o : MieOut, mieCoefficients idealD1 B (sphere k0 e0 R eps) "pena" w none = .ok o ∧
      SolverClear idealFn o.nMax.toNat (sphere k0 e0 R eps).layers := by
  have hs0 := Real.sqrt_pos.2 he
  have hs1 := Real.sqrt_pos.2 heps
  have hpena : "pena".toLower = "pena" := by decide +kernel
  have hord := sphere_order hk he hR heps
  set x := k0 * Real.sqrt e0 * R with hx
  set y := k0 * Real.sqrt eps * R with hy
  have hxp : 0 < x := by positivity
  have hyp : 0 < y := by positivity
  have hy2 : y ≤ 1.5 := by by_contra h; norm_num at h; nlinarith
  set t : ℝ := max (penaNStop x : ℝ) (max y 0) + 15 with ht
  have hstop : (penaNStop x : ℝ) ≤ 6.5 := by
    have e : penaNStop x = torchRound (x + 4 * x ^ (1 / 3 : ℝ) + 1) := by unfold penaNStop; rw [if_pos (by linarith)]
    have h3 : x ^ (1 / 3 : ℝ) ≤ 1 := rpow_third_le hxp.le (by norm_num) (by linarith)
    rw [e]
    refine (torchRound_le _).trans ?_
    norm_num; linarith
  have t1 : t ≤ 21.5 := by
    have : max (penaNStop x : ℝ) (max y 0) ≤ 6.5 := max_le hstop (max_le (by norm_num at hy2 ⊢; linarith) (by norm_num))
    rw [ht]; linarith
  have t0 : 15 ≤ t := by
    have : (0 : ℝ) ≤ max (penaNStop x : ℝ) (max y 0) := le_max_of_le_right (le_max_right _ _)
    linarith
  have g0 := torchRound_ge t
  have g1 := torchRound_le t
  obtain ⟨n, hn⟩ : ∃ n : ℕ, torchRound t = n := by
    have : (0 : ℝ) ≤ torchRound t := by linarith
    exact ⟨(torchRound t).toNat, (Int.toNat_of_nonneg (by exact_mod_cast this)).symm⟩
  have hn1 : 1 ≤ n := by
    have : (1 : ℝ) ≤ (torchRound t : ℝ) := by linarith
    rw [hn] at this
    exact_mod_cast this
  have hn2 : n ≤ 22 := by
    have h : (torchRound t : ℝ) ≤ 22 := by norm_num at t1; linarith
    rw [hn] at h
    exact_mod_cast h
  rw [hn] at hord
  obtain ⟨o, h, ho⟩ := mieCoefficients_pena_ok (B := B) (w := w) (p := sphere k0 e0 R eps) (idealD1_fun n) hpena hn1
    (by simp [sphere, strictlyIncreasing]) (by simp [sphere]) (by simp [sphere])
  have hN : o.nMax.toNat = n := by rw [ho, Int.toNat_natCast]
  rw [← mieCoefficients_none hpena hord] at h
  have hmx : Real.sqrt eps / Real.sqrt e0 * x = y := by rw [hx, hy]; field_simp
  have hsmall : 9 * (n : ℝ) * 1e-30 ≤ 9 * 22 * 1e-30 := by
    have : (n : ℝ) ≤ 22 := by exact_mod_cast hn2
    gcongr
  refine ⟨o, h, ?_⟩
  · rw [hN, sphere_layers hk he hR heps.le]
    refine small_solverClear (by positivity) hxp hx1 ?_ hn1 ?_ ?_
    · rw [hmx]; exact hy1
    · refine lt_of_le_of_lt hsmall (lt_of_lt_of_le ?_ hx0); norm_num
    · rw [hmx]; refine lt_of_le_of_lt hsmall (lt_of_lt_of_le ?_ hy0); norm_num

/-- The default call of the pena backend (exact logarithmic derivative) for a small lossless sphere, with nothing else
assumed: size parameter between `10^-26` and 1, `|m| x` between `10^-26` and `sqrt 2`.  The call succeeds and every efficiency is
within `10^-18` of the full series. -/
theorem C86_small_sphere (B : Backends) (w : String) {R eps : ℝ} (hk : 0 < k0) (he : 0 < e0) (hR : 0 < R) (heps : 0 < eps)
    (hx0 : 1e-26 ≤ k0 * Real.sqrt e0 * R) (hx1 : k0 * Real.sqrt e0 * R ≤ 1) (hy0 : 1e-26 ≤ k0 * Real.sqrt eps * R)
    (hy1 : (k0 * Real.sqrt eps * R) ^ 2 ≤ 2) :
    ∃ o : MieOut, mieCoefficients idealD1 B (sphere k0 e0 R eps) "pena" w none = .ok o ∧
      ShortQ (crossSections o.k o.rS o.a o.b) R (k0 * Real.sqrt e0) (sphere k0 e0 R eps).layers 1e-18 := by
  have hpena : "pena".toLower = "pena" := by decide +kernel
  obtain ⟨o, h, hcl⟩ := sphere_pena_ok B w hk he hR heps hx0 hx1 hy0 hy1
  have hmem : ∀ e ∈ (sphere k0 e0 R eps).epsLayers, e.im = 0 ∧ 0 < e.re := by
    intro e h
    have : e = (eps : ℂ) := by simpa [sphere] using h
    rw [this, ofReal_im, ofReal_re]; exact ⟨rfl, heps⟩
  refine ⟨o, h, ?_⟩
  have := C86_pena_default hpena h hcl (sphere_host hk he hR) hmem (by
    show k0 * Real.sqrt e0 * R ≤ 64
    linarith)
  exact this

/-! ## Instances

Unit sphere in vacuum at `k0 = 1`; permittivity 2. -/

theorem wiscombe1_one : wiscombe1 1 = 6 := by
  unfold wiscombe1
  norm_num
  exact torchRound_eq (by norm_num) (by norm_num)

example : ∃ o : MieOut, mieCoefficients idealD1 exactBackends (sphere 1 1 1 2) "torch" "recurrence" none = .ok o ∧
    Short (crossSections o.k o.rS o.a o.b) (1 * Real.sqrt 1) (sphere 1 1 1 2).layers
      (truncErr (1 * Real.sqrt 1) (1 * Real.sqrt 1 * 1) 6) ∧
    ShortQ (crossSections o.k o.rS o.a o.b) 1 (1 * Real.sqrt 1) (sphere 1 1 1 2).layers 1e-7 := by
  have ht : "torch".toLower ≠ "pena" := by decide +kernel
  obtain ⟨o, h, hn, hS⟩ := sphere_torch_ok (K := idealD1) (k0 := 1) (e0 := 1) (R := 1) (eps := 2) (by norm_num) (by norm_num)
    (by norm_num) (by norm_num)
  have hn6 : o.nMax = 6 := by rw [hn]; norm_num [wiscombe1_one]
  have hp : RealHost (sphere 1 1 1 2) 1 1 := sphere_host (by norm_num) (by norm_num) (by norm_num)
  have hpass : ∀ e ∈ (sphere 1 1 1 2).epsLayers, 0 ≤ e.im := by simp [sphere]
  have hz : ∀ e ∈ (sphere 1 1 1 2).epsLayers, e ≠ 0 := by simp [sphere]
  refine ⟨o, h, ?_, (C86_default_order ht h hS hp hpass hz ?_).1 (by simp [sphere])⟩
  · have := C86_core_shell ht h (by omega) hS hp hpass hz ⟨by rw [hn6]; simp [sphere]; norm_num, by
      rw [hn6]; simp [sphere]; norm_num⟩
    rw [hn6] at this
    exact this
  · rw [hn6]; simp [sphere]; norm_num

example : ∃ (o : MieOut) (N : ℕ), mieCoefficients idealD1 exactBackends (sphere 1 1 1 2) "pena" "recurrence" none = .ok o ∧
    OrderCovers (sphere 1 1 1 2) 1 1 N ∧
    Short (crossSections o.k o.rS o.a o.b) (1 * Real.sqrt 1) (sphere 1 1 1 2).layers
      (truncErr (1 * Real.sqrt 1) (1 * Real.sqrt 1 * 1) N) ∧
    ShortQ (crossSections o.k o.rS o.a o.b) 1 (1 * Real.sqrt 1) (sphere 1 1 1 2).layers 1e-18 := by
  have ht : "pena".toLower = "pena" := by decide +kernel
  have hs : Real.sqrt 2 ^ 2 = 2 := Real.sq_sqrt (by norm_num)
  have h1 : 1 ≤ Real.sqrt 2 := Real.one_le_sqrt.2 (by norm_num)
  obtain ⟨o, h, hcl⟩ := sphere_pena_ok (k0 := 1) (e0 := 1) (R := 1) (eps := 2) exactBackends "recurrence" (by norm_num)
    (by norm_num) (by norm_num) (by norm_num) (by norm_num) (by norm_num) (by rw [one_mul, mul_one]; norm_num; linarith)
    (by rw [one_mul, mul_one, hs])
  have hp : RealHost (sphere 1 1 1 2) 1 1 := sphere_host (by norm_num) (by norm_num) (by norm_num)
  have hreal : ∀ e ∈ (sphere 1 1 1 2).epsLayers, e.im = 0 ∧ 0 < e.re := by simp [sphere]
  have hpass : ∀ e ∈ (sphere 1 1 1 2).epsLayers, 0 ≤ e.im := by simp [sphere]
  have hz : ∀ e ∈ (sphere 1 1 1 2).epsLayers, e ≠ 0 := by simp [sphere]
  have hc := C86_pena_covers ht h hp hreal
  exact ⟨o, o.nMax.toNat, h, hc, C86_pena ht h hcl hp hpass hz hc, C86_pena_default ht h hcl hp hreal (by simp [sphere])⟩

/-- A resonant sphere exists for which the torch backend does run at its default order and misses the resonance. -/
example : ∃ (eps : ℝ) (o : MieOut), 1 < eps ∧
    mieCoefficients idealD1 exactBackends (sphere 1 1 1 eps) "torch" "recurrence" none = .ok o ∧
    (crossSections o.k o.rS o.a o.b).csExt + 30 * Real.pi ≤ csExtFull (1 * Real.sqrt 1) (sphere 1 1 1 eps).layers := by
  have ht : "torch".toLower ≠ "pena" := by decide +kernel
  obtain ⟨eps, he, H⟩ := C86_missed_resonance (k0 := 1) (e0 := 1) (R := 1) (by norm_num) (by norm_num) (by norm_num)
  obtain ⟨o, h, hn, hS⟩ := sphere_torch_ok (K := idealD1) (k0 := 1) (e0 := 1) (R := 1) (eps := eps) (by norm_num) (by norm_num)
    (by norm_num) (by linarith)
  have hn6 : o.nMax = 6 := by rw [hn]; norm_num [wiscombe1_one]
  refine ⟨eps, o, he, h, le_trans (le_of_eq ?_) (H _ _ _ _ _ o ht h hS).1⟩
  rw [hn6]; norm_num; ring

/-- A sphere of radius 30 nm and permittivity 2.25 in water at wavelength 800 nm. -/
example : ∃ o : MieOut, mieCoefficients idealD1 exactBackends (sphere (1 / 128) 1.77 30 2.25) "pena" "recurrence" none = .ok o ∧
    ShortQ (crossSections o.k o.rS o.a o.b) 30 (1 / 128 * Real.sqrt 1.77) (sphere (1 / 128) 1.77 30 2.25).layers 1e-18 := by
  have a0 : 1 ≤ Real.sqrt 1.77 := Real.one_le_sqrt.2 (by norm_num)
  have a1 : Real.sqrt 1.77 ≤ 2 := by rw [Real.sqrt_le_left (by norm_num)]; norm_num
  have b0 : 1 ≤ Real.sqrt 2.25 := Real.one_le_sqrt.2 (by norm_num)
  have b1 : Real.sqrt 2.25 ^ 2 = 2.25 := Real.sq_sqrt (by norm_num)
  refine C86_small_sphere exactBackends "recurrence" (by norm_num) (by norm_num) (by norm_num) (by norm_num) ?_ ?_ ?_ ?_
  · norm_num at a0 ⊢; linarith
  · norm_num at a1 ⊢; linarith
  · norm_num at b0 ⊢; linarith
  · rw [mul_pow, mul_pow, b1]; norm_num

end

end MieDiff
