import Verif.Proofs.Solvable
import Verif.Spec.Series
import Mathlib.Analysis.Calculus.ContDiff.Operations
import Mathlib.Analysis.Complex.CauchyIntegral
import Mathlib.Analysis.SpecialFunctions.Pow.Deriv
import Mathlib.Analysis.SpecialFunctions.Complex.LogDeriv

/-!
# Analytic dependence of the scattering coefficients on the parameters

Layers whose indices and size parameters depend analytically on a parameter `t` in a normed space: where the interface
problem is solvable it stays solvable nearby, and the coefficient is an analytic function of `t`.  The scalar field is `ℝ` or
`ℂ`.  The sign of a layer's refractive index does not matter, so that the branch of the square root is irrelevant.
-/

namespace MieDiff

open Complex Spec Filter Topology
open scoped ContDiff

variable {𝕜 : Type*} [NontriviallyNormedField 𝕜] [NormedAlgebra 𝕜 ℂ] {E : Type*} [NormedAddCommGroup E] [NormedSpace 𝕜 E]

/-- A function holomorphic away from the origin, composed with an analytic one. -/
theorem analytic_comp {f : ℂ → ℂ} (hf : ∀ z, z ≠ 0 → DifferentiableAt ℂ f z) {z : E → ℂ} {t0 : E}
    (hz : ContDiffAt 𝕜 ω z t0) (h0 : z t0 ≠ 0) : ContDiffAt 𝕜 ω (fun t => f (z t)) t0 := by
  have hd : DifferentiableOn ℂ f {z | z ≠ 0} := fun z hz => (hf z hz).differentiableWithinAt
  have ha : AnalyticAt ℂ f (z t0) := hd.analyticAt (isOpen_ne0.mem_nhds h0)
  have hc : ContDiffAt ℂ ω f (z t0) := ha.contDiffAt
  exact (hc.restrict_scalars 𝕜).comp t0 hz

theorem ricPsi_diff (n : ℕ) (z : ℂ) (hz : z ≠ 0) : DifferentiableAt ℂ (ricPsi n) z :=
  differentiableAt_id.mul (sphJ_seq.raise n z hz).differentiableAt

theorem ricZeta_diff (n : ℕ) (z : ℂ) (hz : z ≠ 0) : DifferentiableAt ℂ (ricZeta n) z :=
  differentiableAt_id.mul (sphH_seq.raise n z hz).differentiableAt

theorem deriv_diff {f : ℂ → ℂ} (hf : ∀ z, z ≠ 0 → DifferentiableAt ℂ f z) (z : ℂ) (hz : z ≠ 0) :
    DifferentiableAt ℂ (deriv f) z := by
  have hd : DifferentiableOn ℂ f {z | z ≠ 0} := fun z hz => (hf z hz).differentiableWithinAt
  exact (hd.deriv isOpen_ne0).differentiableAt (isOpen_ne0.mem_nhds hz)

/-- Amplitudes depending analytically on the parameter. -/
def WaveAn (𝕜 : Type*) [NontriviallyNormedField 𝕜] [NormedAlgebra 𝕜 ℂ] {E : Type*} [NormedAddCommGroup E] [NormedSpace 𝕜 E]
    (t0 : E) (w : E → Wave) : Prop :=
  ContDiffAt 𝕜 ω (fun t => (w t).d) t0 ∧ ContDiffAt 𝕜 ω (fun t => (w t).a) t0

theorem WaveAn.val {t0 : E} {w : E → Wave} (h : WaveAn 𝕜 t0 w) {z : E → ℂ} (hz : ContDiffAt 𝕜 ω z t0) (h0 : z t0 ≠ 0)
    (n : ℕ) : ContDiffAt 𝕜 ω (fun t => (w t).val n (z t)) t0 :=
  (h.1.mul (analytic_comp (ricPsi_diff n) hz h0)).sub (h.2.mul (analytic_comp (ricZeta_diff n) hz h0))

theorem WaveAn.der {t0 : E} {w : E → Wave} (h : WaveAn 𝕜 t0 w) {z : E → ℂ} (hz : ContDiffAt 𝕜 ω z t0) (h0 : z t0 ≠ 0)
    (n : ℕ) : ContDiffAt 𝕜 ω (fun t => (w t).der n (z t)) t0 :=
  (h.1.mul (analytic_comp (deriv_diff (ricPsi_diff n)) hz h0)).sub
    (h.2.mul (analytic_comp (deriv_diff (ricZeta_diff n)) hz h0))

theorem eventually_ne {z : E → ℂ} {t0 : E} (hz : ContDiffAt 𝕜 ω z t0) (h0 : z t0 ≠ 0) : ∀ᶠ t in 𝓝 t0, z t ≠ 0 :=
  hz.continuousAt.eventually_ne h0

theorem waveAn_of {t0 : E} {w : E → Wave} {z V D : E → ℂ} (hz : ContDiffAt 𝕜 ω z t0) (h0 : z t0 ≠ 0) (n : ℕ)
    (hV : ContDiffAt 𝕜 ω V t0) (hD : ContDiffAt 𝕜 ω D t0)
    (h : ∀ᶠ t in 𝓝 t0, (w t).val n (z t) = V t ∧ (w t).der n (z t) = D t) : WaveAn 𝕜 t0 w := by
  constructor
  · refine (((hV.mul (analytic_comp (deriv_diff (ricZeta_diff n)) hz h0)).sub
      (hD.mul (analytic_comp (ricZeta_diff n) hz h0))).mul (contDiffAt_const (c := I⁻¹))).congr_of_eventuallyEq ?_
    filter_upwards [h, eventually_ne hz h0] with t ht hne
    have := wave_d (w t) n hne
    rw [ht.1, ht.2] at this
    rw [this, mul_assoc, mul_inv_cancel₀ I_ne_zero, mul_one]
  · refine (((hV.mul (analytic_comp (deriv_diff (ricPsi_diff n)) hz h0)).sub
      (hD.mul (analytic_comp (ricPsi_diff n) hz h0))).mul (contDiffAt_const (c := I⁻¹))).congr_of_eventuallyEq ?_
    filter_upwards [h, eventually_ne hz h0] with t ht hne
    have := wave_a (w t) n hne
    rw [ht.1, ht.2] at this
    rw [this, mul_assoc, mul_inv_cancel₀ I_ne_zero, mul_one]

theorem cont_analytic {q : Pol} {n : ℕ} {t0 : E} {m m' x : E → ℂ} (hm : ContDiffAt 𝕜 ω m t0) (hm' : ContDiffAt 𝕜 ω m' t0)
    (hx : ContDiffAt 𝕜 ω x t0) (m0 : m t0 ≠ 0) (m0' : m' t0 ≠ 0) (x0 : x t0 ≠ 0) {w w' : E → Wave}
    (hw : WaveAn 𝕜 t0 w) (hc : ∀ᶠ t in 𝓝 t0, Cont q n (m t) (m' t) (x t) (w t) (w' t)) : WaveAn 𝕜 t0 w' := by
  have hz : ContDiffAt 𝕜 ω (fun t => m t * x t) t0 := hm.mul hx
  have hz' : ContDiffAt 𝕜 ω (fun t => m' t * x t) t0 := hm'.mul hx
  have hv := hw.val hz (mul_ne_zero m0 x0) n
  have hd := hw.der hz (mul_ne_zero m0 x0) n
  have hi : ContDiffAt 𝕜 ω (fun t => (m t)⁻¹) t0 := hm.inv m0
  have hne := eventually_ne hm m0
  cases q with
  | tm =>
    refine waveAn_of hz' (mul_ne_zero m0' x0) n hv ((hd.mul hm').mul hi) ?_
    filter_upwards [hc, hne] with t h h0
    refine ⟨h.1.symm, ?_⟩
    rw [h.2]
    field_simp
  | te =>
    refine waveAn_of hz' (mul_ne_zero m0' x0) n ((hv.mul hm').mul hi) hd ?_
    filter_upwards [hc, hne] with t h h0
    refine ⟨?_, h.2.symm⟩
    rw [h.1]
    field_simp

/-- A list of layers depending on a parameter. -/
abbrev LayerFam (E : Type*) := List ((E → ℂ) × (E → ℂ))

def LayerFam.at' (ls : LayerFam E) (t : E) : List (ℂ × ℂ) := ls.map fun l => (l.1 t, l.2 t)

/-- Analytic and non-zero at `t0`. -/
def LayerFam.OK (𝕜 : Type*) [NontriviallyNormedField 𝕜] [NormedAlgebra 𝕜 ℂ] {E : Type*} [NormedAddCommGroup E]
    [NormedSpace 𝕜 E] (ls : LayerFam E) (t0 : E) : Prop :=
  ∀ l ∈ ls, ContDiffAt 𝕜 ω l.1 t0 ∧ ContDiffAt 𝕜 ω l.2 t0 ∧ l.1 t0 ≠ 0 ∧ l.2 t0 ≠ 0

theorem LayerFam.OK.eventually {ls : LayerFam E} {t0 : E} (h : ls.OK 𝕜 t0) :
    ∀ᶠ t in 𝓝 t0, ∀ l ∈ ls.at' t, l.1 ≠ 0 ∧ l.2 ≠ 0 := by
  induction ls with
  | nil => exact Eventually.of_forall fun t l hl => by simp [LayerFam.at'] at hl
  | cons l ls ih =>
    obtain ⟨h1, h2, h3, h4⟩ := h l (by simp)
    filter_upwards [eventually_ne h1 h3, eventually_ne h2 h4, ih fun l hl => h l (by simp [hl])] with t a1 a2 a3
    intro l' hl'
    simp only [LayerFam.at', List.map_cons, List.mem_cons] at hl'
    rcases hl' with rfl | hl'
    · exact ⟨a1, a2⟩
    · exact a3 l' hl'

theorem chain_analytic {q : Pol} {n : ℕ} {t0 : E} : ∀ (rest : LayerFam E) (l : (E → ℂ) × (E → ℂ)),
    LayerFam.OK 𝕜 (l :: rest) t0 → ∀ {w out : E → Wave}, WaveAn 𝕜 t0 w →
      (∀ᶠ t in 𝓝 t0, Chain q n (w t) (LayerFam.at' (l :: rest) t) (out t)) → WaveAn 𝕜 t0 out := by
  intro rest
  induction rest with
  | nil =>
    intro l hl w out hw hc
    obtain ⟨h1, h2, h3, h4⟩ := hl l (by simp)
    exact cont_analytic h1 contDiffAt_const h2 h3 one_ne_zero h4 hw hc
  | cons l' rest ih =>
    intro l hl w out hw hc
    obtain ⟨h1, h2, h3, h4⟩ := hl l (by simp)
    obtain ⟨h1', h2', h3', h4'⟩ := hl l' (by simp)
    have hex : ∀ t, ∃ w', Chain q n (w t) (LayerFam.at' (l :: l' :: rest) t) (out t) →
        Cont q n (l.1 t) (l'.1 t) (l.2 t) (w t) w' ∧ Chain q n w' (LayerFam.at' (l' :: rest) t) (out t) := by
      intro t
      by_cases h : Chain q n (w t) (LayerFam.at' (l :: l' :: rest) t) (out t)
      · obtain ⟨w', a1, a2⟩ := h
        exact ⟨w', fun _ => ⟨a1, a2⟩⟩
      · exact ⟨⟨0, 0⟩, fun h' => absurd h' h⟩
    choose w' hw0 using hex
    have hw' := hc.mono fun t h => hw0 t h
    exact ih l' (fun k hk => hl k (List.mem_cons_of_mem _ hk))
      (cont_analytic h1 h1' h2 h3 h3' h4 hw (hw'.mono fun t h => h.1)) (hw'.mono fun t h => h.2)

/-- Where the interface problem is solvable it is solvable nearby, and the coefficient is analytic. -/
theorem coef_analytic {q : Pol} {n : ℕ} {t0 : E} {ls : LayerFam E} (hl : ls.OK 𝕜 t0)
    (hs : ∃ a, Solves q n (ls.at' t0) a) :
    (∀ᶠ t in 𝓝 t0, ∃ a, Solves q n (ls.at' t) a) ∧ ContDiffAt 𝕜 ω (fun t => coef q n (ls.at' t)) t0 := by
  cases ls with
  | nil =>
    obtain ⟨a, c, -, h⟩ := hs
    exact h.elim
  | cons l rest =>
    have hex : ∀ t, ∃ out, (∀ l' ∈ LayerFam.at' (l :: rest) t, l'.1 ≠ 0 ∧ l'.2 ≠ 0) →
        Chain q n ⟨1, 0⟩ (LayerFam.at' (l :: rest) t) out := by
      intro t
      by_cases h : ∀ l' ∈ LayerFam.at' (l :: rest) t, l'.1 ≠ 0 ∧ l'.2 ≠ 0
      · obtain ⟨out, ho⟩ := chain_exists q n _ _ ⟨1, 0⟩ h
        exact ⟨out, fun _ => ho⟩
      · exact ⟨⟨0, 0⟩, fun h' => absurd h' h⟩
    choose out ho using hex
    have hev := hl.eventually
    have han : WaveAn 𝕜 t0 out := chain_analytic rest l hl (w := fun _ => ⟨1, 0⟩) ⟨contDiffAt_const, contDiffAt_const⟩
      (hev.mono fun t h => ho t h)
    have hd0 : (out t0).d ≠ 0 := by
      obtain ⟨a, c, hc0, hc⟩ := hs
      have hne := hev.self_of_nhds
      have h1 := (ho t0 hne).smul c.d
      have e : Wave.smul c.d ⟨1, 0⟩ = c := by
        cases c
        simp only at hc0
        simp [Wave.smul, hc0]
      rw [e] at h1
      have h2 := Chain.unique hne h1 hc
      intro h0
      have := congrArg Wave.d h2
      simp [Wave.smul, h0] at this
    have hdne := eventually_ne han.1 hd0
    have hsol : ∀ᶠ t in 𝓝 t0, Solves q n (LayerFam.at' (l :: rest) t) ((out t).a / (out t).d) := by
      filter_upwards [hev, hdne] with t h1 h2
      exact solves_of_chain rfl (ho t h1) h2
    refine ⟨hsol.mono fun t h => ⟨_, h⟩, ?_⟩
    refine (han.2.mul (han.1.inv hd0)).congr_of_eventuallyEq ?_
    filter_upwards [hsol, hev] with t h1 h2
    have hx : ∃ a, Solves q n (LayerFam.at' (l :: rest) t) a := ⟨_, h1⟩
    rw [coef, dif_pos hx, hx.choose_spec.unique h2 h1, div_eq_mul_inv]
    rfl

/-! ## The sign of a refractive index does not matter -/

theorem sphJ_neg (n : ℕ) {z : ℂ} (hz : z ≠ 0) : sphJ n (-z) = (-1) ^ n * sphJ n z := by
  have hz' : -z ≠ 0 := neg_ne_zero.2 hz
  induction n using Nat.twoStepInduction with
  | zero => rw [sphJ_zero, sphJ_zero]; simp
  | one => rw [sphJ_one hz, sphJ_one hz']; simp; field_simp; ring
  | more n h0 h1 =>
    rw [sphJ_seq.three n hz, sphJ_seq.three n hz', h0, h1]
    field_simp
    ring

theorem sphY_neg (n : ℕ) {z : ℂ} (hz : z ≠ 0) : sphY n (-z) = (-1) ^ (n + 1) * sphY n z := by
  have hz' : -z ≠ 0 := neg_ne_zero.2 hz
  induction n using Nat.twoStepInduction with
  | zero => rw [sphY_zero, sphY_zero]; simp; field_simp
  | one => rw [sphY_one hz, sphY_one hz']; simp
  | more n h0 h1 =>
    rw [sphY_seq.three n hz, sphY_seq.three n hz', h0, h1]
    field_simp
    ring

/-- The wave `z ↦ f(-z)`. -/
def flipW (n : ℕ) (w : Wave) : Wave := ⟨(-1) ^ (n + 1) * (w.d - 2 * w.a), (-1) ^ (n + 1) * -w.a⟩

theorem flipW_val (n : ℕ) (w : Wave) {z : ℂ} (hz : z ≠ 0) : (flipW n w).val n z = w.val n (-z) := by
  simp only [flipW, Wave.val, ricPsi, ricZeta, sphH, sphJ_neg n hz, sphY_neg n hz]
  ring

theorem hasDerivAt_val (n : ℕ) (w : Wave) {z : ℂ} (hz : z ≠ 0) : HasDerivAt (fun y => w.val n y) (w.der n z) z :=
  ((ricPsi_diff n z hz).hasDerivAt.const_mul w.d).sub ((ricZeta_diff n z hz).hasDerivAt.const_mul w.a)

theorem flipW_der (n : ℕ) (w : Wave) {z : ℂ} (hz : z ≠ 0) : (flipW n w).der n z = -w.der n (-z) := by
  have h1 := hasDerivAt_val n (flipW n w) hz
  have h2 : HasDerivAt (fun y => w.val n (-y)) (w.der n (-z) * -1) z :=
    (hasDerivAt_val n w (neg_ne_zero.2 hz)).comp z (hasDerivAt_neg z)
  have h3 : (fun y => (flipW n w).val n y) =ᶠ[𝓝 z] fun y => w.val n (-y) := by
    filter_upwards [isOpen_ne0.mem_nhds hz] with y hy
    exact flipW_val n w hy
  have := h1.unique (h2.congr_of_eventuallyEq h3)
  rw [this]
  ring

/-- Wave in the medium of index `-m` with the same tangential fields as `w` in the medium of index `m`. -/
def flipQ (q : Pol) (n : ℕ) (w : Wave) : Wave :=
  match q with
  | .tm => flipW n w
  | .te => (flipW n w).smul (-1)

/-- The index of a medium up to sign, with the wave adapted. -/
inductive SignWave (q : Pol) (n : ℕ) : ℂ → Wave → ℂ → Wave → Prop
  | same (m : ℂ) (w : Wave) : SignWave q n m w m w
  | flip (m : ℂ) (w : Wave) : SignWave q n m w (-m) (flipQ q n w)

theorem smul_neg_val (n : ℕ) (w : Wave) (z : ℂ) : (w.smul (-1)).val n z = -w.val n z := by
  simp only [Wave.smul, Wave.val]; ring

theorem smul_neg_der (n : ℕ) (w : Wave) (z : ℂ) : (w.smul (-1)).der n z = -w.der n z := by
  simp only [Wave.smul, Wave.der]; ring

theorem SignWave.cont {q : Pol} {n : ℕ} {m m' x k k' : ℂ} {w w' v v' : Wave} (hm : m ≠ 0) (hm' : m' ≠ 0) (hx : x ≠ 0)
    (h : SignWave q n m w k v) (h' : SignWave q n m' w' k' v') (hc : Cont q n m m' x w w') : Cont q n k k' x v v' := by
  have z1 : -m * x ≠ 0 := mul_ne_zero (neg_ne_zero.2 hm) hx
  have z2 : -m' * x ≠ 0 := mul_ne_zero (neg_ne_zero.2 hm') hx
  have e1 : -(-m * x) = m * x := by ring
  have e2 : -(-m' * x) = m' * x := by ring
  cases q with
  | tm =>
    obtain ⟨h1, h2⟩ := hc
    cases h <;> cases h' <;>
      simp only [Cont, flipQ, flipW_val n _ z1, flipW_val n _ z2, flipW_der n _ z1, flipW_der n _ z2, e1, e2]
    · exact ⟨h1, h2⟩
    · exact ⟨h1, by linear_combination -h2⟩
    · exact ⟨h1, by linear_combination -h2⟩
    · exact ⟨h1, by linear_combination h2⟩
  | te =>
    obtain ⟨h1, h2⟩ := hc
    cases h <;> cases h' <;>
      simp only [Cont, flipQ, smul_neg_val, smul_neg_der, flipW_val n _ z1, flipW_val n _ z2, flipW_der n _ z1,
        flipW_der n _ z2, e1, e2]
    · exact ⟨h1, h2⟩
    · exact ⟨by linear_combination -h1, by linear_combination h2⟩
    · exact ⟨by linear_combination -h1, by linear_combination h2⟩
    · exact ⟨by linear_combination h1, by linear_combination h2⟩

/-- Same size parameter, index up to sign. -/
def SignEq (l l' : ℂ × ℂ) : Prop := l'.2 = l.2 ∧ (l'.1 = l.1 ∨ l'.1 = -l.1)

theorem SignEq.wave {l l' : ℂ × ℂ} (h : SignEq l l') (q : Pol) (n : ℕ) (w : Wave) : ∃ v, SignWave q n l.1 w l'.1 v := by
  rcases h.2 with h | h <;> rw [h]
  exacts [⟨_, .same _ _⟩, ⟨_, .flip _ _⟩]

theorem signChain {q : Pol} {n : ℕ} : ∀ (rest rest' : List (ℂ × ℂ)) (l l' : ℂ × ℂ) (w v out : Wave),
    List.Forall₂ SignEq rest rest' → SignEq l l' → SignWave q n l.1 w l'.1 v →
    (∀ k ∈ l :: rest, k.1 ≠ 0 ∧ k.2 ≠ 0) → Chain q n w (l :: rest) out → Chain q n v (l' :: rest') out := by
  intro rest
  induction rest with
  | nil =>
    intro rest' l l' w v out hr hl hw hne hc
    cases hr
    have h0 := hne l (by simp)
    obtain ⟨m, x⟩ := l
    obtain ⟨m', x'⟩ := l'
    obtain ⟨rfl, -⟩ := hl
    exact SignWave.cont h0.1 one_ne_zero h0.2 hw (.same 1 out) hc
  | cons k rest ih =>
    intro rest' l l' w v out hr hl hw hne hc
    cases hr with
    | cons hk hr =>
      rename_i k' rest'
      have h0 := hne l (by simp)
      have hk0 := hne k (by simp)
      obtain ⟨m, x⟩ := l
      obtain ⟨m', x'⟩ := l'
      obtain ⟨rfl, -⟩ := hl
      obtain ⟨u, c1, c2⟩ := hc
      obtain ⟨u', hu⟩ := hk.wave q n u
      exact ⟨u', SignWave.cont h0.1 hk0.1 h0.2 hw hu c1,
        ih rest' k k' u u' out hr hk hu (fun y hy => hne y (List.mem_cons_of_mem _ hy)) c2⟩

theorem signSolves {q : Pol} {n : ℕ} {ls ls' : List (ℂ × ℂ)} {a : ℂ} (h : List.Forall₂ SignEq ls ls')
    (hne : ∀ k ∈ ls, k.1 ≠ 0 ∧ k.2 ≠ 0) (hs : Solves q n ls a) : Solves q n ls' a := by
  cases h with
  | nil => exact hs
  | cons hl hr =>
    rename_i l l' rest rest'
    obtain ⟨c, hc0, hc⟩ := hs
    obtain ⟨v, hv⟩ := hl.wave q n c
    refine ⟨v, ?_, signChain rest rest' l l' c v _ hr hl hv hne hc⟩
    generalize l.1 = m at hv
    generalize l'.1 = m' at hv
    cases hv
    · exact hc0
    · cases q <;> simp [flipQ, flipW, Wave.smul, hc0]

theorem SignEq.symm {l l' : ℂ × ℂ} (h : SignEq l l') : SignEq l' l := by
  refine ⟨h.1.symm, ?_⟩
  rcases h.2 with h | h
  · exact .inl h.symm
  · exact .inr (by rw [h, neg_neg])

theorem signNe {ls ls' : List (ℂ × ℂ)} (h : List.Forall₂ SignEq ls ls') (hne : ∀ k ∈ ls, k.1 ≠ 0 ∧ k.2 ≠ 0) :
    ∀ k ∈ ls', k.1 ≠ 0 ∧ k.2 ≠ 0 := by
  induction h with
  | nil => simp
  | cons hl hr ih =>
    intro k hk
    rcases List.mem_cons.1 hk with rfl | hk
    · have := hne _ List.mem_cons_self
      refine ⟨?_, by rw [hl.1]; exact this.2⟩
      rcases hl.2 with h | h <;> rw [h]
      exacts [this.1, neg_ne_zero.2 this.1]
    · exact ih (fun y hy => hne y (List.mem_cons_of_mem _ hy)) k hk

theorem signSolves_iff {q : Pol} {n : ℕ} {ls ls' : List (ℂ × ℂ)} {a : ℂ} (h : List.Forall₂ SignEq ls ls')
    (hne : ∀ k ∈ ls, k.1 ≠ 0 ∧ k.2 ≠ 0) : Solves q n ls a ↔ Solves q n ls' a :=
  ⟨signSolves h hne, signSolves (h.flip.imp fun _ _ h => SignEq.symm h) (signNe h hne)⟩

theorem signCoef {q : Pol} {n : ℕ} {ls ls' : List (ℂ × ℂ)} (h : List.Forall₂ SignEq ls ls')
    (hne : ∀ k ∈ ls, k.1 ≠ 0 ∧ k.2 ≠ 0) : coef q n ls = coef q n ls' := by
  have : Solves q n ls = Solves q n ls' := funext fun a => propext (signSolves_iff h hne)
  unfold coef
  rw [this]

/-- Near every non-zero point there is an analytic square root; `csqrt` is it up to sign. -/
noncomputable def sqrtNear (e0 e : ℂ) : ℂ := csqrt e0 * csqrt (e / e0)

theorem sqrtNear_analytic {e : E → ℂ} {t0 : E} (he : ContDiffAt 𝕜 ω e t0) (h0 : e t0 ≠ 0) :
    ContDiffAt 𝕜 ω (fun t => sqrtNear (e t0) (e t)) t0 := by
  have h1 : ContDiffAt 𝕜 ω (fun t => e t / e t0) t0 := he.div_const _
  have h2 : DifferentiableOn ℂ csqrt slitPlane := fun z hz =>
    ((differentiableAt_id.cpow_const (c := (1 / 2 : ℂ)) hz)).differentiableWithinAt
  have h3 : AnalyticAt ℂ csqrt (e t0 / e t0) :=
    h2.analyticAt (isOpen_slitPlane.mem_nhds (by rw [div_self h0]; exact one_mem_slitPlane))
  have h4 : ContDiffAt ℂ ω csqrt (e t0 / e t0) := h3.contDiffAt
  have h5 : ContDiffAt 𝕜 ω (fun t => csqrt (e t / e t0)) t0 := 
    ContDiffAt.comp (g := csqrt) (f := fun t => e t / e t0) t0 (h4.restrict_scalars 𝕜) h1
  exact contDiffAt_const.mul h5

end MieDiff
