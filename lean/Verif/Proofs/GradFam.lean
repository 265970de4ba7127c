import Mathlib.Analysis.Calculus.FDeriv.Pi
import Mathlib.Analysis.Calculus.FDeriv.RestrictScalars
import Verif.Proofs.GradLimit
import Verif.Proofs.Pipeline
import Verif.Spec.Gradient

/-!
# Gradients with respect to real parameters

`GradConv` for the coefficients and its closure under arithmetic.
-/

namespace MieDiff

open Complex Spec Filter Topology
open scoped ContDiff

variable {V : Type*} [NormedAddCommGroup V] [NormedSpace ℝ V] {v0 : V}

section closure

variable {W : Type*} [NormedAddCommGroup W] [NormedSpace ℝ W]

theorem Spec.GradConv.of_const {g : V → W} (h : DifferentiableAt ℝ g v0) : GradConv (fun _ => g) g v0 :=
  ⟨tendsto_const_nhds, Eventually.of_forall fun _ => h, h, fun _ => tendsto_const_nhds⟩

theorem Spec.GradConv.congr {f f' : ℕ → V → W} {g g' : V → W} (h : GradConv f g v0)
    (hf : ∀ᶠ N in atTop, f' N =ᶠ[𝓝 v0] f N) (hg : g' =ᶠ[𝓝 v0] g) : GradConv f' g' v0 where
  value := by
    rw [hg.self_of_nhds]
    exact h.value.congr' (hf.mono fun N hN => hN.self_of_nhds.symm)
  exists_approx := by filter_upwards [h.exists_approx, hf] with N a b using a.congr_of_eventuallyEq b
  exists_exact := h.exists_exact.congr_of_eventuallyEq hg
  grad v := by
    rw [hg.fderiv_eq]
    refine (h.grad v).congr' (hf.mono fun N hN => ?_)
    simp only [hN.fderiv_eq]

theorem Spec.GradConv.add {f f' : ℕ → V → W} {g g' : V → W} (h : GradConv f g v0) (h' : GradConv f' g' v0) :
    GradConv (fun N v => f N v + f' N v) (fun v => g v + g' v) v0 where
  value := h.value.add h'.value
  exists_approx := by filter_upwards [h.exists_approx, h'.exists_approx] with N a b using a.add b
  exists_exact := h.exists_exact.add h'.exists_exact
  grad v := by
    rw [fderiv_fun_add h.exists_exact h'.exists_exact]
    refine ((h.grad v).add (h'.grad v)).congr' ?_
    filter_upwards [h.exists_approx, h'.exists_approx] with N a b
    rw [fderiv_fun_add a b]
    rfl

theorem Spec.GradConv.sub {f f' : ℕ → V → W} {g g' : V → W} (h : GradConv f g v0) (h' : GradConv f' g' v0) :
    GradConv (fun N v => f N v - f' N v) (fun v => g v - g' v) v0 where
  value := h.value.sub h'.value
  exists_approx := by filter_upwards [h.exists_approx, h'.exists_approx] with N a b using a.sub b
  exists_exact := h.exists_exact.sub h'.exists_exact
  grad v := by
    rw [fderiv_fun_sub h.exists_exact h'.exists_exact]
    refine ((h.grad v).sub (h'.grad v)).congr' ?_
    filter_upwards [h.exists_approx, h'.exists_approx] with N a b
    rw [fderiv_fun_sub a b]
    rfl

/-- A continuous linear map of the result. -/
theorem Spec.GradConv.clm {W' : Type*} [NormedAddCommGroup W'] [NormedSpace ℝ W'] (T : W →L[ℝ] W') {f : ℕ → V → W} {g : V → W}
    (h : GradConv f g v0) : GradConv (fun N v => T (f N v)) (fun v => T (g v)) v0 where
  value := (T.continuous.tendsto _).comp h.value
  exists_approx := by
    filter_upwards [h.exists_approx] with N a
    exact DifferentiableAt.comp (g := T) (f := f N) v0 T.differentiableAt a
  exists_exact := DifferentiableAt.comp (g := T) (f := g) v0 T.differentiableAt h.exists_exact
  grad v := by
    have e : ∀ u : V → W, DifferentiableAt ℝ u v0 → fderiv ℝ (fun v => T (u v)) v0 v = T (fderiv ℝ u v0 v) := by
      intro u hu
      rw [show (fun v => T (u v)) = T ∘ u from rfl, (T.hasFDerivAt.comp (g := T) (f := u) v0 hu.hasFDerivAt).fderiv]
      rfl
    rw [e g h.exists_exact]
    refine ((T.continuous.tendsto _).comp (h.grad v)).congr' ?_
    filter_upwards [h.exists_approx] with N a
    rw [e _ a]
    rfl

end closure

theorem Spec.GradConv.mul {A : Type*} [NormedCommRing A] [NormedAlgebra ℝ A] {f f' : ℕ → V → A} {g g' : V → A}
    (h : GradConv f g v0) (h' : GradConv f' g' v0) : GradConv (fun N v => f N v * f' N v) (fun v => g v * g' v) v0 where
  value := h.value.mul h'.value
  exists_approx := by filter_upwards [h.exists_approx, h'.exists_approx] with N a b using a.mul b
  exists_exact := h.exists_exact.mul h'.exists_exact
  grad v := by
    have e : ∀ u w : V → A, DifferentiableAt ℝ u v0 → DifferentiableAt ℝ w v0 →
        fderiv ℝ (fun v => u v * w v) v0 v = u v0 * fderiv ℝ w v0 v + w v0 * fderiv ℝ u v0 v := by
      intro u w hu hw
      rw [fderiv_fun_mul hu hw]
      simp
    rw [e g g' h.exists_exact h'.exists_exact]
    refine ((h.value.mul (h'.grad v)).add (h'.value.mul (h.grad v))).congr' ?_
    filter_upwards [h.exists_approx, h'.exists_approx] with N a b
    rw [e _ _ a b]

theorem Spec.GradConv.re {f : ℕ → V → ℂ} {g : V → ℂ} (h : GradConv f g v0) :
    GradConv (fun N v => (f N v).re) (fun v => (g v).re) v0 := h.clm reCLM

theorem Spec.GradConv.im {f : ℕ → V → ℂ} {g : V → ℂ} (h : GradConv f g v0) :
    GradConv (fun N v => (f N v).im) (fun v => (g v).im) v0 := h.clm imCLM

theorem Spec.GradConv.normSq {f : ℕ → V → ℂ} {g : V → ℂ} (h : GradConv f g v0) :
    GradConv (fun N v => ‖f N v‖ ^ 2) (fun v => ‖g v‖ ^ 2) v0 := by
  have e : ∀ z : ℂ, ‖z‖ ^ 2 = z.re * z.re + z.im * z.im := fun z => by rw [← normSq_eq_norm_sq, normSq_apply]
  simp only [e]
  exact (h.re.mul h.re).add (h.im.mul h.im)

theorem Spec.GradConv.sum {W : Type*} [NormedAddCommGroup W] [NormedSpace ℝ W] {ι : Type*} (s : Finset ι) {f : ι → ℕ → V → W}
    {g : ι → V → W} (h : ∀ i ∈ s, GradConv (f i) (g i) v0) :
    GradConv (fun N v => ∑ i ∈ s, f i N v) (fun v => ∑ i ∈ s, g i v) v0 := by
  classical
  induction s using Finset.induction_on with
  | empty => simpa using GradConv.of_const (differentiableAt_const (0 : W))
  | insert i s hi ih =>
    simp only [Finset.sum_insert hi]
    exact (h i (by simp)).add (ih fun j hj => h j (by simp [hj]))

/-! ## From holomorphic functions of the layers to real parameters -/

/-- Chain rule: the approximations are holomorphic functions of finitely many complex quantities, which are differentiable
functions of the real parameters. -/
theorem AC.grad {E : Type*} [NormedAddCommGroup E] [NormedSpace ℂ E] {f : ℕ → E → ℂ} {g : E → ℂ}
    {γ : V → E} (h : AC f g (γ v0)) (hγ : DifferentiableAt ℝ γ v0) :
    GradConv (fun N v => f N (γ v)) (fun v => g (γ v)) v0 := by
  have hd : ∀ᶠ N in atTop, DifferentiableAt ℂ (f N) (γ v0) := by
    filter_upwards [h.diff.curry] with N hN using hN.self_of_nhds
  have hg : DifferentiableAt ℂ g (γ v0) := h.hol.self_of_nhds
  have e : ∀ u : E → ℂ, DifferentiableAt ℂ u (γ v0) → DifferentiableAt ℝ (fun v => u (γ v)) v0 ∧
      ∀ v, fderiv ℝ (fun v => u (γ v)) v0 v = _root_.deriv (fun s : ℂ => u (γ v0 + s • fderiv ℝ γ v0 v)) 0 := by
    intro u hu
    have h1 : HasFDerivAt u ((fderiv ℂ u (γ v0)).restrictScalars ℝ) (γ v0) := hu.hasFDerivAt.restrictScalars ℝ
    have h2 := h1.comp (g := u) (f := γ) v0 hγ.hasFDerivAt
    refine ⟨h2.differentiableAt, fun v => ?_⟩
    rw [show (fun v => u (γ v)) = u ∘ γ from rfl, h2.fderiv]
    have h3 : HasDerivAt (fun s : ℂ => γ v0 + s • fderiv ℝ γ v0 v) (fderiv ℝ γ v0 v) 0 := by
      simpa using ((hasDerivAt_id (0 : ℂ)).smul_const (fderiv ℝ γ v0 v)).const_add (γ v0)
    have h4 : HasFDerivAt u (fderiv ℂ u (γ v0)) (γ v0 + (0 : ℂ) • fderiv ℝ γ v0 v) := by simpa using hu.hasFDerivAt
    have h5 := h4.comp_hasDerivAt (0 : ℂ) h3
    rw [show (fun s : ℂ => u (γ v0 + s • fderiv ℝ γ v0 v)) = u ∘ fun s : ℂ => γ v0 + s • fderiv ℝ γ v0 v from rfl, h5.deriv]
    rfl
  refine ⟨?_, hd.mono fun N hN => (e _ hN).1, (e g hg).1, ?_⟩
  · exact h.lim.self_of_nhds.comp (tendsto_id.prodMk (tendsto_const_nhds (x := γ v0)))
  · intro v
    rw [(e g hg).2]
    refine (h.line (fderiv ℝ γ v0 v)).deriv.congr' ?_
    filter_upwards [hd] with N hN
    rw [(e _ hN).2]

/-- All indices and size parameters as independent variables. -/
def allLayers (L : ℕ) : LayerFam (Fin L → ℂ × ℂ) := List.ofFn fun j => (fun e => (e j).1, fun e => (e j).2)

theorem allLayers_at (L : ℕ) (e : Fin L → ℂ × ℂ) : (allLayers L).at' e = List.ofFn e := by
  simp only [allLayers, LayerFam.at', List.map_ofFn]
  rfl

theorem allLayers_ok (L : ℕ) (e : Fin L → ℂ × ℂ) (h : ∀ l ∈ List.ofFn e, l.1 ≠ 0 ∧ l.2 ≠ 0) : (allLayers L).OK ℂ e := by
  intro l hl
  obtain ⟨j, rfl⟩ := (List.mem_ofFn' _ _).1 hl
  have := h (e j) ((List.mem_ofFn' _ _).2 ⟨j, rfl⟩)
  exact ⟨(contDiff_fst.comp (contDiff_apply ℂ (ℂ × ℂ) j)).contDiffAt,
    (contDiff_snd.comp (contDiff_apply ℂ (ℂ × ℂ) j)).contDiffAt, this.1, this.2⟩

/-- The layers of a family as one function. -/
def LayerFam.vec {E : Type*} (lf : LayerFam E) (v : E) : Fin lf.length → ℂ × ℂ := fun j => ((lf.get j).1 v, (lf.get j).2 v)

theorem LayerFam.ofFn_vec {E : Type*} (lf : LayerFam E) (v : E) : List.ofFn (lf.vec v) = lf.at' v := by
  unfold LayerFam.at' LayerFam.vec
  conv_rhs => rw [← List.ofFn_get lf, List.map_ofFn]
  rfl

theorem coefAt_grad (p : Pol) {n i : ℕ} (h1 : 1 ≤ i) (hi : i ≤ n) {lf : LayerFam V}
    (hl : ∀ l ∈ lf, DifferentiableAt ℝ l.1 v0 ∧ DifferentiableAt ℝ l.2 v0)
    (hd : ∀ z ∈ kernelArgs (lf.at' v0), D1Clear z) (hc : SolverClear idealFn n (lf.at' v0)) :
    GradConv (fun N v => coefAt (depthFn n N) p i (lf.at' v)) (fun v => coefAt idealFn p i (lf.at' v)) v0 ∧
      ∀ᶠ v in 𝓝 v0, SolverClear idealFn n (lf.at' v) := by
  have hne : ∀ l ∈ lf.at' v0, l.1 ≠ 0 ∧ l.2 ≠ 0 := by
    cases lf with
    | nil => exact hc.elim
    | cons l rest => exact SolverClear.ne hc
  have hγ : DifferentiableAt ℝ lf.vec v0 := by
    refine differentiableAt_pi.2 fun j => ?_
    obtain ⟨a, b⟩ := hl (lf.get j) (List.get_mem _ _)
    exact a.prodMk b
  have hat : ∀ v, (allLayers lf.length).at' (lf.vec v) = lf.at' v := fun v => by rw [allLayers_at, lf.ofFn_vec]
  have ok := allLayers_ok lf.length (lf.vec v0) (by rw [lf.ofFn_vec]; exact hne)
  have hac := coefAt_ac p h1 hi ok (by rw [hat]; exact hd) (by rw [hat]; exact hc)
  have hnear := hγ.continuousAt.eventually (solverClear_near ok (by rw [hat]; exact hd) (by rw [hat]; exact hc))
  have hgr := hac.grad hγ
  simp only [hat] at hgr hnear
  exact ⟨hgr, hnear⟩

end MieDiff
