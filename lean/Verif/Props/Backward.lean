import Verif.Proofs.BackwardOk
import Verif.Props.GradLimit
import Verif.Props.Rounded

/-!
# C79: reverse-mode gradients

`loss.backward()` through the pena backend.  Model/Backward records the operations of the solver with the backward formulas of PyTorch; here it
is shown that what arrives in the parameters is the gradient of the function that `mie_coefficients` and `cross_sections` compute.
-/

namespace MieDiff

open Complex Spec Filter Topology
open scoped RealInnerProductSpace

variable {V : Type*} [NormedAddCommGroup V] [InnerProductSpace ℝ V] {v0 : V}

theorem re_mul_deriv {f : V → ℂ} {f' : V →L[ℝ] ℂ} (hf : HasFDerivAt f f' v0) (s : ℂ) :
    HasFDerivAt (fun v => ((starRingEnd ℂ) s * f v).re) (reCLM.comp ((starRingEnd ℂ) s • f')) v0 :=
  reCLM.hasFDerivAt.comp v0 (hf.const_mul _)

/-- The two ways of saying that `b` is the reverse-mode derivative of `f`. -/
theorem adj_iff [CompleteSpace V] {b : ℂ → V} {f : V → ℂ} : Node.Adj v0 b f ↔ Vjp v0 b f := by
  constructor
  · rintro ⟨f', hf, hb⟩ s
    rw [hasGradientAt_iff_hasFDerivAt]
    have e : InnerProductSpace.toDual ℝ V (b s) = reCLM.comp ((starRingEnd ℂ) s • f') := by
      refine ContinuousLinearMap.ext fun dv => ?_
      rw [InnerProductSpace.toDual_apply_apply, hb]
      simp
    rw [e]
    exact re_mul_deriv hf s
  · intro h
    have h1 := hasGradientAt_iff_hasFDerivAt.1 (h 1)
    have h2 := hasGradientAt_iff_hasFDerivAt.1 (h I)
    have e1 : (fun v => ((starRingEnd ℂ) 1 * f v).re) = fun v => (f v).re := by funext v; simp
    have e2 : (fun v => ((starRingEnd ℂ) I * f v).re) = fun v => (f v).im := by funext v; simp
    rw [e1] at h1
    rw [e2] at h2
    have hf := (ofRealCLM.hasFDerivAt.comp v0 h1).add ((ofRealCLM.hasFDerivAt.comp v0 h2).const_mul I)
    have e : (fun v => (ofRealCLM ∘ fun v => (f v).re) v + I * (ofRealCLM ∘ fun v => (f v).im) v) = f := by
      funext v
      simp only [Function.comp_apply, ofRealCLM_apply]
      rw [mul_comm, re_add_im]
    change HasFDerivAt (fun v => (ofRealCLM ∘ fun v => (f v).re) v + I * (ofRealCLM ∘ fun v => (f v).im) v) _ v0 at hf
    rw [e] at hf
    refine ⟨_, hf, fun s dv => ?_⟩
    have hu := (hasGradientAt_iff_hasFDerivAt.1 (h s)).unique (re_mul_deriv hf s)
    have := congrArg (fun L : V →L[ℝ] ℝ => L dv) hu
    simp only [InnerProductSpace.toDual_apply_apply] at this
    rw [this]
    rfl

/-! ## Inputs -/

/-- The tensor entry `x` was computed from the parameters: it holds `f v0`, and calling `backward` on it leaves the right gradient.  An entry
that does not require a gradient is constant. -/
structure Node.Recorded [CompleteSpace V] (v0 : V) (x : Node V) (f : V → ℂ) : Prop where
  value : x.val = f v0
  backward : Vjp v0 x.back f
  regular : x.ok
  frozen : x.req = false → ∀ v, f v = f v0

/-- The inputs of `mie_coefficients` hold the parameters of the family `F`.  The refractive index is the principal root, so permittivities that
require a gradient must not be on its branch cut. -/
structure Node.Inputs.Holds [CompleteSpace V] (v0 : V) (p : Node.Inputs V) (F : ParticleFam V) : Prop where
  k0 : Node.Recorded v0 p.k0 F.k0
  r : List.Forall₂ (fun x f => Node.Recorded v0 x fun v => (f v : ℂ)) p.r F.r
  eps : List.Forall₂ (fun x e => Node.Recorded v0 x e ∧ (x.req = true → e v0 ∈ slitPlane)) p.eps F.eps
  env : Node.Recorded v0 p.env F.env
  cut : p.env.req = true → F.env v0 ∈ slitPlane

namespace Node

section Inputs

variable [CompleteSpace V] {x : Node V} {f : V → ℂ} {p : Inputs V} {F : ParticleFam V}

theorem Recorded.tracks (h : Recorded v0 x f) : Tracks v0 x f := ⟨h.value, h.frozen, fun _ => adj_iff.2 h.backward⟩

theorem Recorded.good (h : Recorded v0 x f) : Good x (f v0) := ⟨h.value, h.regular⟩

theorem zip_forall {α β γ δ : Type*} {R : α → β → Prop} {S : γ → δ → Prop} {l1 : List α} {l2 : List β} (h : List.Forall₂ R l1 l2) :
    ∀ {m1 : List γ} {m2 : List δ}, List.Forall₂ S m1 m2 →
      List.Forall₂ (fun a b => R a.1 b.1 ∧ S a.2 b.2) (l1.zip m1) (l2.zip m2) := by
  induction h with
  | nil => intro m1 m2 _; simp
  | cons h1 _ ih =>
    intro m1 m2 hm
    cases hm with
    | nil => simp
    | cons h2 hm => exact .cons ⟨h1, h2⟩ (ih hm)

theorem map_forall {α β γ δ : Type*} {R : α → β → Prop} {S : γ → δ → Prop} {f : α → γ} {g : β → δ} (hfg : ∀ a b, R a b → S (f a) (g b))
    {l1 : List α} {l2 : List β} (h : List.Forall₂ R l1 l2) : List.Forall₂ S (l1.map f) (l2.map g) := by
  induction h with
  | nil => exact .nil
  | cons h1 _ ih => exact .cons (hfg _ _ h1) ih

theorem layers_track (h : p.Holds v0 F) : LTracks v0 (Node.layers p) F.layerFam := by
  have he := h.env.tracks.powHalf
  have hk := h.k0.tracks.mul he
  exact zip_forall (map_forall (fun x e hx => hx.1.tracks.sqrt.div he) h.eps) (map_forall (fun x r hx => hk.mul hx.tracks) h.r)

theorem mie_tracks (h : p.Holds v0 F) (n N i : ℕ) :
    Tracks v0 (Node.mie n N p i).1 (fun v => (exactArith.mie n N (F.at v) i).1) ∧
    Tracks v0 (Node.mie n N p i).2 (fun v => (exactArith.mie n N (F.at v) i).2) := by
  have hl := layers_track h
  have hv := layerFam_at F
  unfold Node.mie
  generalize Node.layers p = L at hl
  generalize hG : F.layerFam = G at hl hv
  unfold LTracks at hl
  cases hl with
  | nil =>
    have e : ∀ v, exactArith.layers (F.at v) = [] := fun v => (hv v).symm
    simp only [Arith.mie, e]
    exact ⟨Tracks.const 0, Tracks.const 0⟩
  | @cons a b la lb hab hrest =>
    have hs := fold_tracks (n := n) (N := N) hrest (init_tracks (n := n) (N := N) hab.1 hab.2)
    obtain ⟨c1, c2⟩ := coefs_tracks (n := n) (N := N) hs i
    have e : ∀ v, exactArith.mie n N (F.at v) i = _ := fun v => exact_mie n N (F.at v) (hv v).symm i
    simp only [e]
    exact ⟨c1, c2⟩

omit [CompleteSpace V] in
theorem mpTerm_tracks {k w : Node V} {kf wf : V → ℂ} (hk : Tracks v0 k kf) (hw : Tracks v0 w wf) (i : ℕ) :
    Tracks v0 (Node.mpTerm k i w) fun v => exactArith.mpTerm (kf v) i (wf v) :=
  ((((hk.sq.rdiv (2 * Real.pi)).mul (Tracks.const _)).mul hw)).congr fun v => by
    rw [exact_mpTerm]; push_cast; rfl

theorem getLastD_tracks : ∀ {l : List (Node V)} {fs : List (V → ℝ)}, List.Forall₂ (fun x f => Recorded v0 x fun v => (f v : ℂ)) l fs →
    Tracks v0 (l.getLastD (Node.const 0)) (fun v => (((fs.map (· v)).getLastD 0 : ℝ) : ℂ)) := by
  intro l fs h
  induction h with
  | nil => simpa using Tracks.const 0
  | @cons a b l1 l2 h1 h2 ih =>
    cases h2 with
    | nil => simpa using h1.tracks
    | cons h3 h4 => simpa [List.getLastD] using ih

/-- The recorded cross sections follow those of the exact program. -/
structure CrossTracks (v0 : V) (c : Cross V) (e : V → Arith.Cross) : Prop where
  ext : Tracks v0 c.ext fun v => ((e v).ext : ℂ)
  sca : Tracks v0 c.sca fun v => ((e v).sca : ℂ)
  abs : Tracks v0 c.abs fun v => ((e v).abs : ℂ)
  qExt : Tracks v0 c.qExt fun v => ((e v).qExt : ℂ)
  qSca : Tracks v0 c.qSca fun v => ((e v).qSca : ℂ)
  qAbs : Tracks v0 c.qAbs fun v => ((e v).qAbs : ℂ)

theorem cross_tracks (h : p.Holds v0 F) (n N : ℕ) : CrossTracks v0 (Node.cross n N p) fun v => exactArith.cross n N (F.at v) := by
  have hk : Tracks v0 (Node.host p).2 fun v => (exactArith.host (F.at v)).2 := h.k0.tracks.mul h.env.tracks.powHalf
  have hr := getLastD_tracks h.r
  have hgeo : Tracks v0 (Node.mul (Node.const Real.pi) (Node.sq (p.r.getLastD (Node.const 0)))) fun v =>
      ((Real.pi * (((F.r.map (· v)).getLastD 0) * ((F.r.map (· v)).getLastD 0)) : ℝ) : ℂ) :=
    ((Tracks.const _).mul hr.sq).congr fun v => by push_cast; ring
  have ext := fun i => (mpTerm_tracks hk (mie_tracks h n N (i + 1)).1.re i)
  have ext' := fun i => (mpTerm_tracks hk (mie_tracks h n N (i + 1)).2.re i)
  have sca := fun i => (mpTerm_tracks hk (mie_tracks h n N (i + 1)).1.absSq i)
  have sca' := fun i => (mpTerm_tracks hk (mie_tracks h n N (i + 1)).2.absSq i)
  have tot : ∀ {x y : ℕ → Node V} {f g : ℕ → V → ℂ}, (∀ i, Tracks v0 (x i) (f i)) → (∀ i, Tracks v0 (y i) (g i)) →
      Tracks v0 (Node.re (Node.sum ((List.range n).map x ++ (List.range n).map y))) fun v =>
        (((exactArith.sum ((List.range n).map (fun i => f i v) ++ (List.range n).map fun i => g i v)).re : ℝ) : ℂ) := by
    intro x y f g hx hy
    have := Tracks.sum_map (v0 := v0) (x := fun s : ℕ ⊕ ℕ => Sum.elim x y s) (f := fun s => Sum.elim f g s)
      ((List.range n).map Sum.inl ++ (List.range n).map Sum.inr) (fun s _ => by cases s <;> simp [hx, hy])
    simpa [List.map_append, List.map_map, Function.comp_def, exactArith] using this.re
  have hsq : ∀ z : ℂ, ((‖z‖ ^ 2 : ℝ) : ℂ) = exactArith.mul (exactArith.abs z) (exactArith.abs z) := fun z => by
    rw [_root_.sq]; push_cast; rfl
  have t1 := tot ext ext'
  have t2 := tot sca sca'
  have t3 := tot (fun i => (ext i).sub (sca i)) (fun i => (ext' i).sub (sca' i))
  simp only [hsq] at t2 t3
  have eff : ∀ {x : Node V} {c : V → ℝ}, Tracks v0 x (fun v => (c v : ℂ)) → Tracks v0
      (Node.div x (Node.mul (Node.const Real.pi) (Node.sq (p.r.getLastD (Node.const 0))))) fun v =>
        (((exactArith.div (c v : ℂ) (exactArith.mul exactArith.pi (exactArith.mul (((F.r.map (· v)).getLastD 0 : ℝ) : ℂ)
          (((F.r.map (· v)).getLastD 0 : ℝ) : ℂ)))).re : ℝ) : ℂ) := by
    intro x c hx
    refine (hx.div hgeo).congr fun v => ?_
    rw [← ofReal_div]
    congr 1
    change _ = ((c v : ℂ) / ((Real.pi : ℂ) * (_ * _))).re
    rw [← ofReal_mul, ← ofReal_mul, ← ofReal_div, ofReal_re]
  exact ⟨t1, t2, t3, eff t1, eff t2, eff t3⟩

/-! ## No guard fires -/

theorem layers_good (h : p.Holds v0 F) (h0 : csqrt (F.env v0) ≠ 0) :
    List.Forall₂ (fun a b => Good a.1 b.1 ∧ Good a.2 b.2) (Node.layers p) (F.at v0).layers := by
  have he := h.env.good.powHalf h.cut
  have hk := h.k0.good.mul he
  have h1 := zip_forall (map_forall (S := Good) (g := fun e : V → ℂ => csqrt (e v0) / csqrt (F.env v0))
    (fun x e hx => (hx.1.good.sqrt hx.2).div he h0) h.eps)
    (map_forall (S := Good) (g := fun r : V → ℝ => F.k0 v0 * csqrt (F.env v0) * (r v0 : ℂ)) (fun x r hx => hk.mul hx.good) h.r)
  have e : (F.at v0).layers = (F.eps.map fun e => csqrt (e v0) / csqrt (F.env v0)).zip
      (F.r.map fun r => F.k0 v0 * csqrt (F.env v0) * (r v0 : ℂ)) := by
    simp [Particle1.layers, layersOf, ParticleFam.at, List.map_map, Function.comp_def]
  rw [e]
  exact h1

theorem getLastD_good : ∀ {l : List (Node V)} {fs : List (V → ℝ)}, List.Forall₂ (fun x f => Recorded v0 x fun v => (f v : ℂ)) l fs →
    Good (l.getLastD (Node.const 0)) (((fs.map (· v0)).getLastD 0 : ℝ) : ℂ) := by
  intro l fs h
  induction h with
  | nil => simpa using Good.const 0
  | @cons a b l1 l2 h1 h2 ih =>
    cases h2 with
    | nil => simpa using h1.good
    | cons h3 h4 => simpa [List.getLastD] using ih

/-- Every operation behind the six results was differentiable. -/
def Cross.Regular (c : Cross V) : Prop := c.ext.ok ∧ c.sca.ok ∧ c.abs.ok ∧ c.qExt.ok ∧ c.qSca.ok ∧ c.qAbs.ok

variable {n N : ℕ}

theorem mie_regular (h : p.Holds v0 F) (hc : SolverClear (depthFn n N) n (F.at v0).layers)
    (hd : ∀ z ∈ kernelArgs (F.at v0).layers, DepthClear (n + N) z) {i : ℕ} (h1 : 1 ≤ i) (hi : i ≤ n) :
    (Node.mie n N p i).1.ok ∧ (Node.mie n N p i).2.ok := by
  have hne := SolverClear.ne hc
  have h0 : csqrt (F.env v0) ≠ 0 := by
    intro h0
    rcases hl : (F.at v0).layers with _ | ⟨l, rest⟩
    · rw [hl] at hc; exact hc.elim
    · have hm : l ∈ (F.at v0).layers := by rw [hl]; simp
      obtain ⟨g1, -⟩ := List.of_mem_zip (by exact hm : (l.1, l.2) ∈ _)
      obtain ⟨e, -, g1⟩ := List.mem_map.1 g1
      refine (hne l hm).1 ?_
      rw [← g1]
      change csqrt e / csqrt (F.env v0) = 0
      rw [h0, div_zero]
  exact mie_good (layers_good h h0) (fun l hl => (hne l hl).1) hd hc h1 hi

theorem cross_regular (h : p.Holds v0 F) (hlen : F.eps.length = F.r.length) (hc : SolverClear (depthFn n N) n (F.at v0).layers)
    (hd : ∀ z ∈ kernelArgs (F.at v0).layers, DepthClear (n + N) z) : (Node.cross n N p).Regular := by
  obtain ⟨-, hk0, hr0, -⟩ := particle_ne hc (by simpa [ParticleFam.at] using hlen)
  have hm := fun i (hi : i < n) => mie_regular (i := i + 1) h hc hd (by omega) (by omega)
  have hk : Good (Node.host p).2 (F.k0 v0 * csqrt (F.env v0)) := h.k0.good.mul (h.env.good.powHalf h.cut)
  have hr : Good (p.r.getLastD (Node.const 0)) _ := getLastD_good h.r
  have hgeo := (Good.const (V := V) (Real.pi : ℂ)).mul hr.sq
  have hgeo0 : (Real.pi : ℂ) * ((((F.r.map (· v0)).getLastD 0 : ℝ) : ℂ)) ^ 2 ≠ 0 :=
    mul_ne_zero (by exact_mod_cast Real.pi_ne_zero) (pow_ne_zero 2 (by exact_mod_cast hr0))
  have term : ∀ {w : Node V} (i : ℕ), w.ok → (Node.mpTerm (Node.host p).2 i w).ok := fun i hw =>
    (((hk.sq.rdiv (2 * Real.pi) (pow_ne_zero 2 hk0)).mul (Good.const _)).mul ⟨rfl, hw⟩).ok
  have tot : ∀ {x y : ℕ → Node V}, (∀ i < n, (x i).ok) → (∀ i < n, (y i).ok) →
      (Node.re (Node.sum ((List.range n).map x ++ (List.range n).map y))).ok := by
    intro x y hx hy z hz
    rcases List.mem_append.1 hz with hz | hz
    · obtain ⟨i, hi, rfl⟩ := List.mem_map.1 hz
      exact hx i (List.mem_range.1 hi)
    · obtain ⟨i, hi, rfl⟩ := List.mem_map.1 hz
      exact hy i (List.mem_range.1 hi)
  have t1 := tot (fun i hi => term i (show (Node.re (Node.mie n N p (i + 1)).1).ok from (hm i hi).1))
    (fun i hi => term i (show (Node.re (Node.mie n N p (i + 1)).2).ok from (hm i hi).2))
  have t2 := tot (fun i hi => term i (show (Node.absSq (Node.mie n N p (i + 1)).1).ok from (hm i hi).1))
    (fun i hi => term i (show (Node.absSq (Node.mie n N p (i + 1)).2).ok from (hm i hi).2))
  have t3 : (Node.cross n N p).abs.ok := tot
    (fun i hi => ⟨term i (show (Node.re (Node.mie n N p (i + 1)).1).ok from (hm i hi).1),
      term i (show (Node.absSq (Node.mie n N p (i + 1)).1).ok from (hm i hi).1)⟩)
    (fun i hi => ⟨term i (show (Node.re (Node.mie n N p (i + 1)).2).ok from (hm i hi).2),
      term i (show (Node.absSq (Node.mie n N p (i + 1)).2).ok from (hm i hi).2)⟩)
  have q : ∀ {w : Node V}, w.ok → (Node.div w (Node.mul (Node.const Real.pi) (Node.sq (p.r.getLastD (Node.const 0))))).ok :=
    fun hw => (Good.div ⟨rfl, hw⟩ hgeo hgeo0).ok
  exact ⟨t1, t2, t3, q t1, q t2, q t3⟩

end Inputs

end Node

/-! ## The property -/

section Property

variable [CompleteSpace V] {p : Node.Inputs V} {F : ParticleFam V} {n N : ℕ} {o : V → MieOut}

/-- Calls of the pena backend with `n_add = N` for all parameters near `v0`, truncated at order `n`. -/
structure PenaCallAt (F : ParticleFam V) (v0 : V) (n N : ℕ) (o : V → MieOut) : Prop where
  call : ∃ B backend w nMax ri, backend.toLower = "pena" ∧ ∀ᶠ v in 𝓝 v0,
    mieCoefficients (depthD1 N) B (F.at v) backend w nMax ri = .ok (o v) ∧ (o v).nMax = n

theorem getD_range {f : ℕ → ℂ} {i : ℕ} (h1 : 1 ≤ i) (hi : i ≤ n) : ((List.range n).map fun j => f (j + 1)).getD (i - 1) 0 = f i :=
  getD_order f h1 hi

omit [CompleteSpace V] [InnerProductSpace ℝ V] in
theorem PenaCallAt.eval (h : PenaCallAt F v0 n N o) (hN : 1 ≤ N) : ∀ᶠ v in 𝓝 v0,
    (∀ i, 1 ≤ i → i ≤ n → (o v).a.getD (i - 1) 0 = (exactArith.mie n N (F.at v) i).1 ∧
      (o v).b.getD (i - 1) 0 = (exactArith.mie n N (F.at v) i).2) ∧
    (let cs := crossSections (o v).k (o v).rS (o v).a (o v).b
     exactArith.cross n N (F.at v) = ⟨cs.csExt, cs.csSca, cs.csAbs, cs.qExt, cs.qSca, cs.qAbs⟩) ∧
    F.eps.length = F.r.length := by
  obtain ⟨B, backend, w, nMax, ri, hb, hcall⟩ := h.call
  filter_upwards [hcall] with v hv
  obtain ⟨-, ea, eb, ec⟩ := C78_exact_arithmetic hN hb hv.1 hv.2
  refine ⟨fun i h1 hi => ?_, ec, by simpa [ParticleFam.at] using (mieCoefficients_pena_inv hb hv.1).len⟩
  rw [ea, eb]
  exact ⟨getD_range (f := fun j => (exactArith.mie n N (F.at v) j).1) h1 hi,
    getD_range (f := fun j => (exactArith.mie n N (F.at v) j).2) h1 hi⟩

omit [InnerProductSpace ℝ V] [CompleteSpace V] [NormedAddCommGroup V] in
theorem Vjp.congr [NormedAddCommGroup V] [InnerProductSpace ℝ V] [CompleteSpace V] {v0 : V} {b : ℂ → V} {f g : V → ℂ}
    (h : Vjp v0 b f) (e : ∀ᶠ v in 𝓝 v0, g v = f v) : Vjp v0 b g := by
  intro s
  refine (h s).congr_of_eventuallyEq ?_
  filter_upwards [e] with v hv
  rw [hv]

theorem Node.Tracks.gradient {x : Node V} {c : V → ℝ} (h : Node.Tracks v0 x fun v => (c v : ℂ)) (ok : x.ok) :
    HasGradientAt c (x.back 1) v0 := by
  have := adj_iff.1 (h.adj ok) 1
  simpa using this

/-- What the recorded run of `mie_coefficients` has to deliver at order `i`: the values, and for every incoming gradient the gradient. -/
structure CoefBackward (v0 : V) (o : V → MieOut) (i : ℕ) (c : Node V × Node V) : Prop where
  a_value : c.1.val = (o v0).a.getD (i - 1) 0
  b_value : c.2.val = (o v0).b.getD (i - 1) 0
  a_grad : Vjp v0 c.1.back fun v => (o v).a.getD (i - 1) 0
  b_grad : Vjp v0 c.2.back fun v => (o v).b.getD (i - 1) 0

/-- What the recorded run of `cross_sections` has to deliver. -/
structure CrossBackward (v0 : V) (cs : V → CrossSections) (c : Node.Cross V) : Prop where
  ext_value : c.ext.val = (cs v0).csExt
  sca_value : c.sca.val = (cs v0).csSca
  abs_value : c.abs.val = (cs v0).csAbs
  qExt_value : c.qExt.val = (cs v0).qExt
  qSca_value : c.qSca.val = (cs v0).qSca
  qAbs_value : c.qAbs.val = (cs v0).qAbs
  ext_grad : HasGradientAt (fun v => (cs v).csExt) (c.ext.back 1) v0
  sca_grad : HasGradientAt (fun v => (cs v).csSca) (c.sca.back 1) v0
  abs_grad : HasGradientAt (fun v => (cs v).csAbs) (c.abs.back 1) v0
  qExt_grad : HasGradientAt (fun v => (cs v).qExt) (c.qExt.back 1) v0
  qSca_grad : HasGradientAt (fun v => (cs v).qSca) (c.qSca.back 1) v0
  qAbs_grad : HasGradientAt (fun v => (cs v).qAbs) (c.qAbs.back 1) v0

/-- C79, coefficients, whatever the guards do: if every operation of the run was differentiable at its operands (`ok`: no guarded value is
exactly on its threshold), `backward` returns the gradient of the value that `mie_coefficients` returns. -/
theorem C79_coefficients_regular (h : p.Holds v0 F) (hN : 1 ≤ N) (hcall : PenaCallAt F v0 n N o) {i : ℕ} (h1 : 1 ≤ i) (hi : i ≤ n)
    (ok : (Node.mie n N p i).1.ok ∧ (Node.mie n N p i).2.ok) : CoefBackward v0 o i (Node.mie n N p i) := by
  obtain ⟨t1, t2⟩ := Node.mie_tracks h n N i
  have he := hcall.eval hN
  have h0 := he.self_of_nhds.1 i h1 hi
  refine ⟨?_, ?_, ?_, ?_⟩
  · rw [t1.val, h0.1]
  · rw [t2.val, h0.2]
  · exact Vjp.congr (adj_iff.1 (t1.adj ok.1)) (he.mono fun v hv => (hv.1 i h1 hi).1)
  · exact Vjp.congr (adj_iff.1 (t2.adj ok.2)) (he.mono fun v hv => (hv.1 i h1 hi).2)

/-- C79, cross sections and efficiencies, whatever the guards do. -/
theorem C79_cross_sections_regular (h : p.Holds v0 F) (hN : 1 ≤ N) (hcall : PenaCallAt F v0 n N o)
    (ok : (Node.cross n N p).Regular) :
    CrossBackward v0 (fun v => crossSections (o v).k (o v).rS (o v).a (o v).b) (Node.cross n N p) := by
  have t := Node.cross_tracks h n N
  have he := hcall.eval hN
  have h0 := he.self_of_nhds.2.1
  obtain ⟨k1, k2, k3, k4, k5, k6⟩ := ok
  have val : ∀ {x : Node V} {c : Arith.Cross → ℝ}, Node.Tracks v0 x (fun v => (c (exactArith.cross n N (F.at v)) : ℂ)) → x.val =
      (c ((fun cs : CrossSections => ⟨cs.csExt, cs.csSca, cs.csAbs, cs.qExt, cs.qSca, cs.qAbs⟩)
        (crossSections (o v0).k (o v0).rS (o v0).a (o v0).b)) : ℂ) := by
    intro x c hx
    rw [hx.val, h0]
  have grad : ∀ {x : Node V} {c : Arith.Cross → ℝ}, Node.Tracks v0 x (fun v => (c (exactArith.cross n N (F.at v)) : ℂ)) → x.ok →
      HasGradientAt (fun v => c ((fun cs : CrossSections => ⟨cs.csExt, cs.csSca, cs.csAbs, cs.qExt, cs.qSca, cs.qAbs⟩)
        (crossSections (o v).k (o v).rS (o v).a (o v).b))) (x.back 1) v0 := by
    intro x c hx hok
    refine (hx.gradient hok).congr_of_eventuallyEq ?_
    filter_upwards [he] with v hv
    rw [hv.2.1]
  exact ⟨val t.ext, val t.sca, val t.abs, val t.qExt, val t.qSca, val t.qAbs, grad (c := fun c => c.ext) t.ext k1,
    grad (c := fun c => c.sca) t.sca k2, grad (c := fun c => c.abs) t.abs k3, grad (c := fun c => c.qExt) t.qExt k4,
    grad (c := fun c => c.qSca) t.qSca k5, grad (c := fun c => c.qAbs) t.qAbs k6⟩

/-- C79: if no guard fires, `backward` through `mie_coefficients(backend='pena')` returns the gradient, for every number of layers, every
order and every incoming gradient. -/
theorem C79_coefficients (h : p.Holds v0 F) (hN : 1 ≤ N) (hcall : PenaCallAt F v0 n N o)
    (hc : SolverClear (depthFn n N) n (F.at v0).layers) (hd : ∀ z ∈ kernelArgs (F.at v0).layers, DepthClear (n + N) z)
    {i : ℕ} (h1 : 1 ≤ i) (hi : i ≤ n) : CoefBackward v0 o i (Node.mie n N p i) :=
  C79_coefficients_regular h hN hcall h1 hi (Node.mie_regular h hc hd h1 hi)

/-- C79: if no guard fires, `backward` through `cross_sections(backend='pena')` returns the gradient of each cross section and
efficiency. -/
theorem C79_cross_sections (h : p.Holds v0 F) (hN : 1 ≤ N) (hcall : PenaCallAt F v0 n N o)
    (hc : SolverClear (depthFn n N) n (F.at v0).layers) (hd : ∀ z ∈ kernelArgs (F.at v0).layers, DepthClear (n + N) z) :
    CrossBackward v0 (fun v => crossSections (o v).k (o v).rS (o v).a (o v).b) (Node.cross n N p) :=
  C79_cross_sections_regular h hN hcall (Node.cross_regular h (hcall.eval hN).self_of_nhds.2.2 hc hd)

/-! ## The limit of deep recurrences -/

omit [CompleteSpace V] in
theorem tendsto_of_inner [FiniteDimensional ℝ V] {x : ℕ → V} {y : V}
    (h : ∀ d, Tendsto (fun k => ⟪x k, d⟫) atTop (𝓝 ⟪y, d⟫)) : Tendsto x atTop (𝓝 y) := by
  have b := stdOrthonormalBasis ℝ V
  have e : ∀ z : V, z = ∑ i, ⟪z, b i⟫ • b i := fun z => by
    conv_lhs => rw [← b.sum_repr' z]
    exact Finset.sum_congr rfl fun i _ => by rw [real_inner_comm]
  rw [e y]
  refine (tendsto_finsetSum _ fun i _ => (h (b i)).smul_const (b i)).congr fun k => ?_
  exact (e (x k)).symm

theorem Node.Inputs.Holds.smooth (h : p.Holds v0 F) : SmoothFam F v0 := by
  have diff : ∀ {x : Node V} {f : V → ℂ}, Node.Tracks v0 x f → x.ok → DifferentiableAt ℝ f v0 := fun ht hok => by
    obtain ⟨f', hf, -⟩ := ht.adj hok
    exact hf.differentiableAt
  refine ⟨diff h.k0.tracks h.k0.regular, diff h.env.tracks.powHalf (h.env.good.powHalf h.cut).ok, ?_, ?_⟩
  · have := h.r
    intro r hr
    generalize p.r = L at this
    generalize F.r = G at this hr
    induction this with
    | nil => simp at hr
    | cons h1 _ ih =>
      rcases List.mem_cons.1 hr with rfl | hr
      · exact reCLM.differentiableAt.comp v0 (diff h1.tracks h1.regular)
      · exact ih hr
  · have := h.eps
    intro e he
    generalize p.eps = L at this
    generalize F.eps = G at this he
    induction this with
    | nil => simp at he
    | cons h1 _ ih =>
      rcases List.mem_cons.1 he with rfl | he
      · exact diff h1.1.tracks.sqrt (h1.1.good.sqrt h1.2).ok
      · exact ih he

/-- The vectors `b N` converge to the gradient of `g` at `v0`. -/
def ToGradient (v0 : V) (g : V → ℝ) (b : ℕ → V) : Prop := ∃ d, HasGradientAt g d v0 ∧ Tendsto b atTop (𝓝 d)

theorem grad_limit [FiniteDimensional ℝ V] {f : ℕ → V → ℝ} {g : V → ℝ} {b : ℕ → V} (hg : GradConv f g v0)
    (hb : ∀ᶠ k in atTop, HasGradientAt (f k) (b k) v0) : ToGradient v0 g b := by
  refine ⟨_, hg.exists_exact.hasGradientAt, tendsto_of_inner fun d => ?_⟩
  have e : ⟪gradient g v0, d⟫ = fderiv ℝ g v0 d := by
    rw [(hasGradientAt_iff_hasFDerivAt.1 hg.exists_exact.hasGradientAt).fderiv, InnerProductSpace.toDual_apply_apply]
  rw [e]
  refine (hg.grad d).congr' ?_
  filter_upwards [hb] with k hk
  rw [(hasGradientAt_iff_hasFDerivAt.1 hk).fderiv, InnerProductSpace.toDual_apply_apply]

/-- C79: as the recurrence depth grows, the gradients returned by `backward` converge to the gradients of the cross sections of the exact
coefficients. -/
theorem C79_limit [FiniteDimensional ℝ V] {o : ℕ → V → MieOut} (h : p.Holds v0 F) (hcalls : PenaCalls F v0 n o)
    (hc : SolverClear idealFn n (F.at v0).layers) (hd : ∀ z ∈ kernelArgs (F.at v0).layers, D1Clear z) :
    let ex := fun v => exactCross n (F.at v)
    let run := fun N => Node.cross n N p
    ToGradient v0 (fun v => (ex v).csExt) (fun N => (run N).ext.back 1) ∧
    ToGradient v0 (fun v => (ex v).csSca) (fun N => (run N).sca.back 1) ∧
    ToGradient v0 (fun v => (ex v).csAbs) (fun N => (run N).abs.back 1) ∧
    ToGradient v0 (fun v => (ex v).qExt) (fun N => (run N).qExt.back 1) ∧
    ToGradient v0 (fun v => (ex v).qSca) (fun N => (run N).qSca.back 1) ∧
    ToGradient v0 (fun v => (ex v).qAbs) (fun N => (run N).qAbs.back 1) := by
  intro ex run
  obtain ⟨g1, g2, g3, g4, g5, g6⟩ := C77_cross_sections h.smooth hcalls hc hd
  obtain ⟨N0, h0⟩ := C78_depth_clear hc hd
  have key : ∀ᶠ N in atTop, CrossBackward v0 (fun v => crossSections (o N v).k (o N v).rS (o N v).a (o N v).b) (run N) := by
    filter_upwards [eventually_ge_atTop N0, eventually_ge_atTop 1] with N hN hN1
    obtain ⟨B, backend, w, nMax, ri, hb, hcall⟩ := hcalls.call
    exact C79_cross_sections h hN1 ⟨B, backend, w, nMax, ri, hb, hcall N hN1⟩ (h0 N hN).1 (h0 N hN).2
  exact ⟨grad_limit g1 (key.mono fun _ k => k.ext_grad), grad_limit g2 (key.mono fun _ k => k.sca_grad),
    grad_limit g3 (key.mono fun _ k => k.abs_grad), grad_limit g4 (key.mono fun _ k => k.qExt_grad),
    grad_limit g5 (key.mono fun _ k => k.qSca_grad), grad_limit g6 (key.mono fun _ k => k.qAbs_grad)⟩

end Property

/-! ## The engine -/

/-- The maps of a recorded operation are the adjoints of the linear maps `T` that take the tangents of the inputs to their contributions to the
tangent of the output; inputs are recorded before outputs. -/
structure Tape.Valid (t : Tape) (w : ℕ → ℂ) : Prop where
  order : ∀ i, ∀ e ∈ t.getD i [], e.1 < i
  adjoint : ∀ i, t.getD i [] ≠ [] → ∃ T : (ℕ × (ℂ → ℂ)) → ℂ, w i = ((t.getD i []).map T).sum ∧
    ∀ e ∈ t.getD i [], ∀ s, ((starRingEnd ℂ) s * T e).re = ((starRingEnd ℂ) (e.2 s) * w e.1).re

section Engine

variable {t : Tape} {w : ℕ → ℂ} {root : ℕ}

open Classical in
/-- What has been distributed when the nodes from `m` on have been visited. -/
noncomputable def Tape.pairing (t : Tape) (w : ℕ → ℂ) (root m : ℕ) (g : ℕ → ℂ) : ℝ :=
  ∑ i ∈ Finset.range (root + 1), if i < m ∨ t.getD i [] = [] then ((starRingEnd ℂ) (g i) * w i).re else 0

theorem Tape.pairing_update {m j : ℕ} (hj : j < m) (hm : m ≤ root + 1) (g : ℕ → ℂ) (c : ℂ) :
    t.pairing w root m (Function.update g j (g j + c)) = t.pairing w root m g + ((starRingEnd ℂ) c * w j).re := by
  classical
  unfold Tape.pairing
  have hmem : j ∈ Finset.range (root + 1) := Finset.mem_range.2 (by omega)
  rw [← Finset.add_sum_erase _ _ hmem, ← Finset.add_sum_erase (a := j) _ (fun i => if i < m ∨ t.getD i [] = [] then _ else 0) hmem]
  rw [if_pos (Or.inl hj), if_pos (Or.inl hj), Function.update_self, map_add, add_mul, add_re]
  have : ∀ i ∈ (Finset.range (root + 1)).erase j,
      (if i < m ∨ t.getD i [] = [] then ((starRingEnd ℂ) (Function.update g j (g j + c) i) * w i).re else 0) =
      if i < m ∨ t.getD i [] = [] then ((starRingEnd ℂ) (g i) * w i).re else 0 := fun i hi => by
    rw [Function.update_of_ne (Finset.ne_of_mem_erase hi)]
  rw [Finset.sum_congr rfl this]
  ring

theorem Tape.pairing_fold {m : ℕ} (hm : m ≤ root + 1) : ∀ (es : List (ℕ × (ℂ → ℂ))) (g : ℕ → ℂ), (∀ e ∈ es, e.1 < m) →
    t.pairing w root m (es.foldl (fun g e => Function.update g e.1 (g e.1 + e.2 (g m))) g) =
      t.pairing w root m g + (es.map fun e => ((starRingEnd ℂ) (e.2 (g m)) * w e.1).re).sum
  | [], g, _ => by simp
  | e :: es, g, h => by
    have he := h e (by simp)
    rw [List.foldl_cons, Tape.pairing_fold hm es _ fun e' he' => h e' (List.mem_cons_of_mem _ he'), Tape.pairing_update he hm]
    have e0 : Function.update g e.1 (g e.1 + e.2 (g m)) m = g m := Function.update_of_ne (by omega) _ _
    rw [e0, List.map_cons, List.sum_cons]
    ring

theorem Tape.pairing_visit (h : t.Valid w) {m : ℕ} (hm : m ≤ root) (g : ℕ → ℂ) :
    t.pairing w root m (t.visit m g) = t.pairing w root (m + 1) g := by
  classical
  unfold Tape.visit
  rw [Tape.pairing_fold (by omega) _ _ (h.order m)]
  by_cases hl : t.getD m [] = []
  · rw [hl]
    simp only [List.map_nil, List.sum_nil, add_zero]
    unfold Tape.pairing
    refine Finset.sum_congr rfl fun i _ => ?_
    rcases eq_or_ne i m with rfl | hne
    · rw [if_pos (Or.inr hl), if_pos (Or.inr hl)]
    · have : i < m ↔ i < m + 1 := by omega
      simp only [this]
  · obtain ⟨T, hT, ha⟩ := h.adjoint m hl
    have e1 : ((t.getD m []).map fun e => ((starRingEnd ℂ) (e.2 (g m)) * w e.1).re) =
        (t.getD m []).map fun e => ((starRingEnd ℂ) (g m) * T e).re :=
      List.map_congr_left fun e he => (ha e he (g m)).symm
    have e2 : ∀ l : List (ℕ × (ℂ → ℂ)), (l.map fun e => ((starRingEnd ℂ) (g m) * T e).re).sum =
        ((starRingEnd ℂ) (g m) * (l.map T).sum).re := by
      intro l
      induction l with
      | nil => simp
      | cons e l ih => simp only [List.map_cons, List.sum_cons, ih, mul_add, add_re]
    rw [e1, e2, ← hT]
    unfold Tape.pairing
    have hmem : m ∈ Finset.range (root + 1) := Finset.mem_range.2 (by omega)
    rw [← Finset.add_sum_erase _ _ hmem, ← Finset.add_sum_erase (a := m) _ (fun i => if i < m + 1 ∨ t.getD i [] = [] then _ else 0) hmem,
      if_neg (not_or.2 ⟨lt_irrefl m, hl⟩), if_pos (Or.inl (Nat.lt_succ_self m))]
    have : ∀ i ∈ (Finset.range (root + 1)).erase m,
        (if i < m ∨ t.getD i [] = [] then ((starRingEnd ℂ) (g i) * w i).re else 0) =
        if i < m + 1 ∨ t.getD i [] = [] then ((starRingEnd ℂ) (g i) * w i).re else 0 := fun i hi => by
      have : i < m ↔ i < m + 1 := by
        have := Finset.ne_of_mem_erase hi
        omega
      simp only [this]
    rw [Finset.sum_congr rfl this]
    ring

theorem Tape.pairing_run (h : t.Valid w) : ∀ (m : ℕ), m ≤ root + 1 → ∀ g,
    t.pairing w root 0 (t.run m g) = t.pairing w root m g
  | 0, _, g => rfl
  | m + 1, hm, g => by rw [Tape.run, Tape.pairing_run h m (by omega), Tape.pairing_visit h (by omega)]

open Classical in
/-- C79 for the engine: on every recorded graph, with any sharing of intermediate results, visiting the nodes once in reverse order and
accumulating gives leaves whose gradients pair with every tangent of the leaves to the change of the root: the gradients are the
derivative of the root. -/
theorem C79_engine (h : t.Valid w) (root : ℕ) (s : ℂ) :
    ((starRingEnd ℂ) s * w root).re =
      ∑ i ∈ Finset.range (root + 1) with t.getD i [] = [], ((starRingEnd ℂ) (t.backward root s i) * w i).re := by
  have h1 := Tape.pairing_run (root := root) h (root + 1) le_rfl (Pi.single root s)
  have h2 : t.pairing w root (root + 1) (Pi.single root s) = ((starRingEnd ℂ) s * w root).re := by
    unfold Tape.pairing
    rw [Finset.sum_eq_single root]
    · simp
    · intro i _ hne
      simp [Pi.single_eq_of_ne hne]
    · simp
  rw [← h2, ← h1]
  unfold Tape.pairing Tape.backward
  rw [Finset.sum_filter]
  simp

/-- `y = x * x`, `z = y * y`: every input is used twice. -/
noncomputable def quarticTape (x : ℂ) : Tape :=
  [[], [(0, fun g => g * (starRingEnd ℂ) x), (0, fun g => g * (starRingEnd ℂ) x)],
    [(1, fun g => g * (starRingEnd ℂ) (x * x)), (1, fun g => g * (starRingEnd ℂ) (x * x))]]

/-- The tape is valid for the tangents `dx`, `2 x dx`, `4 x^3 dx`, and the engine computes the conjugate of `4 x^3`. -/
example (x dx : ℂ) : (quarticTape x).Valid (fun i => if i = 0 then dx else if i = 1 then 2 * x * dx else 4 * x ^ 3 * dx) ∧
    (quarticTape x).backward 2 1 0 = (starRingEnd ℂ) (4 * x ^ 3) := by
  refine ⟨⟨fun i e he => ?_, fun i hi => ?_⟩, ?_⟩
  · rcases i with _ | _ | _ | i <;> simp [quarticTape] at he <;> simp [he]
  · rcases i with _ | _ | _ | i
    · simp [quarticTape] at hi
    · refine ⟨fun _ => x * dx, by simp [quarticTape]; ring, fun e he s => ?_⟩
      simp [quarticTape] at he
      subst he
      simp only [map_mul, conj_conj, if_true]
      ring_nf
    · refine ⟨fun _ => x * x * (2 * x * dx), by simp [quarticTape]; ring, fun e he s => ?_⟩
      simp [quarticTape] at he
      subst he
      simp only [map_mul, conj_conj, if_true, one_ne_zero, if_false]
      ring_nf
    · simp [quarticTape] at hi
  · simp [quarticTape, Tape.backward, Tape.run, Tape.visit, Function.update, Pi.single]
    rw [show (starRingEnd ℂ) 4 = 4 from map_ofNat _ 4]
    ring

end Engine

/-! ## A sphere with all parameters free -/

section Sphere

abbrev Params := EuclideanSpace ℝ (Fin 5)

/-- Wavenumber, radius, real and imaginary part of the permittivity and host permittivity. -/
noncomputable def sphereE : ParticleFam Params where
  k0 t := t 0
  r := [fun t => t 1]
  eps := [fun t => t 2 + I * t 3]
  env t := t 4

noncomputable def spherePt : Params := WithLp.toLp 2 ![1, 1, qp ^ 2, 0, 1]

/-- A real leaf: `torch.tensor(t_i, requires_grad=True)`. -/
noncomputable def coord (i : Fin 5) : Node Params := Node.ofReal (spherePt i) fun g => g • EuclideanSpace.single i 1

/-- The call `cross_sections(k0, r_layers=[r], eps_layers=[er + 1j*ei], eps_env=ee)` with five leaves. -/
noncomputable def sphereIn : Node.Inputs Params where
  k0 := coord 0
  r := [coord 1]
  eps := [Node.add (coord 2) (Node.mul (Node.const I) (coord 3))]
  env := coord 4

noncomputable def sphereRun (N : ℕ) : Node.Cross Params := @Node.cross Params NormedAddCommGroup.toAddCommGroup 1 N sphereIn

theorem coord_tracks (i : Fin 5) : Node.Tracks spherePt (coord i) fun t => ((t i : ℝ) : ℂ) := by
  refine ⟨rfl, fun h => by simp [coord, Node.ofReal] at h, fun _ => ?_⟩
  refine ⟨ofRealCLM.comp (EuclideanSpace.proj i), (ofRealCLM.comp (EuclideanSpace.proj (𝕜 := ℝ) i)).hasFDerivAt, fun g dv => ?_⟩
  simp [coord, Node.ofReal, inner_smul_left, EuclideanSpace.inner_single_left]

theorem Node.Tracks.recorded [CompleteSpace V] {x : Node V} {f : V → ℂ} (h : Node.Tracks v0 x f) (ok : x.ok) : Node.Recorded v0 x f :=
  ⟨h.val, adj_iff.1 (h.adj ok), ok, h.frozen⟩

theorem sphere_holds : sphereIn.Holds spherePt sphereE := by
  have c : ∀ i, (coord i).ok := fun _ => trivial
  refine ⟨(coord_tracks 0).recorded (c 0), .cons ((coord_tracks 1).recorded (c 1)) .nil, .cons ⟨?_, fun _ => ?_⟩ .nil,
    (coord_tracks 4).recorded (c 4), fun _ => ?_⟩
  · exact ((coord_tracks 2).add ((Node.Tracks.const I).mul (coord_tracks 3))).recorded ⟨c 2, trivial, c 3⟩
  · left
    have hq : 0 < qp := by linarith [qp_odd.big]
    have e : (((spherePt 2 : ℝ) : ℂ) + I * ((spherePt 3 : ℝ) : ℂ)).re = qp ^ 2 := by
      simp only [spherePt, add_re, ofReal_re, mul_re, I_re, I_im, ofReal_im]
      simp
    rw [e]
    positivity
  · exact ofReal_mem_slitPlane.2 (by simp [spherePt])

theorem sphereE_at : sphereE.at spherePt = monoParticle := by
  simp [sphereE, spherePt, ParticleFam.at, monoParticle]

/-- The sphere of index `π/2` with all parameters free: at every sufficient depth the calls succeed near the given parameters, `backward` on
the scattering efficiency returns its gradient, and in the limit the exact gradient. -/
example (B : Backends) : ∃ o : ℕ → Params → MieOut, PenaCalls sphereE spherePt 1 o ∧
    (∀ᶠ N in atTop, CrossBackward spherePt (fun v => crossSections (o N v).k (o N v).rS (o N v).a (o N v).b) (sphereRun N)) ∧
    ToGradient spherePt (fun v => (exactCross 1 (sphereE.at v)).qSca) (fun N => (sphereRun N).qSca.back 1) := by
  have hs : SmoothFam sphereE spherePt := sphere_holds.smooth
  have hi : strictlyIncreasing (sphereE.at spherePt).rLayers := by rw [sphereE_at]; simp [monoParticle, strictlyIncreasing]
  obtain ⟨o, h1, h2⟩ := C77_calls_succeed (n := 1) hs hi (by simp [sphereE]) (by simp [sphereE]) B (le_refl 1)
  have hc : SolverClear idealFn 1 (sphereE.at spherePt).layers := by rw [sphereE_at]; exact mono_clear
  have hd : ∀ z ∈ kernelArgs (sphereE.at spherePt).layers, D1Clear z := by rw [sphereE_at]; exact mono_args
  refine ⟨o, h1, ?_, (C79_limit sphere_holds h1 hc hd).2.2.2.2.1⟩
  obtain ⟨N0, h0⟩ := C78_depth_clear hc hd
  filter_upwards [eventually_ge_atTop N0, eventually_ge_atTop 1] with N hN hN1
  obtain ⟨B, backend, w, nMax, ri, hb, hcall⟩ := h1.call
  exact C79_cross_sections sphere_holds hN1 ⟨B, backend, w, nMax, ri, hb, hcall N hN1⟩ (h0 N hN).1 (h0 N hN).2

end Sphere

end MieDiff
