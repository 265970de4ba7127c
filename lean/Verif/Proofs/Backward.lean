import Mathlib.Analysis.InnerProductSpace.Calculus
import Mathlib.Analysis.SpecialFunctions.Pow.Deriv
import Mathlib.Analysis.SpecialFunctions.Trigonometric.ComplexDeriv
import Verif.Model.Backward
import Verif.Proofs.Smooth
import Verif.Proofs.SolverLimit
import Verif.Proofs.Seq

/-!
# Reverse mode computes the adjoint of the derivative

`Node.Tracks v0 x f`: the node `x` holds the value of `f` at `v0` and its `back` is the adjoint of the derivative of `f`.  Every operation
preserves this, hence the whole program does.
-/

namespace MieDiff

open Complex Spec Filter Topology
open scoped RealInnerProductSpace

variable {V : Type*} [NormedAddCommGroup V] [InnerProductSpace ℝ V] {v0 : V}

namespace Node

/-- `b` is the adjoint of the derivative of `f` at `v0`. -/
def Adj (v0 : V) (b : ℂ → V) (f : V → ℂ) : Prop :=
  ∃ f' : V →L[ℝ] ℂ, HasFDerivAt f f' v0 ∧ ∀ g dv, ⟪b g, dv⟫ = ((starRingEnd ℂ) g * f' dv).re

structure Tracks (v0 : V) (x : Node V) (f : V → ℂ) : Prop where
  val : x.val = f v0
  frozen : x.req = false → ∀ v, f v = f v0
  adj : x.ok → Adj v0 x.back f

variable {x y : Node V} {f g : V → ℂ}

theorem Tracks.congr (h : Tracks v0 x f) (e : ∀ v, f v = g v) : Tracks v0 x g := by
  rwa [← funext e]

theorem Tracks.const (c : ℂ) : Tracks v0 (Node.const c) fun _ => c := by
  refine ⟨rfl, fun _ _ => rfl, fun _ => ⟨0, hasFDerivAt_const c v0, fun g dv => ?_⟩⟩
  simp [Node.const]

/-- Unary holomorphic operation. -/
theorem Adj.comp {b : ℂ → V} {φ : ℂ → ℂ} {φ' : ℂ} (h : Adj v0 b f) (hφ : HasDerivAt φ φ' (f v0)) :
    Adj v0 (fun g => b (g * (starRingEnd ℂ) φ')) fun v => φ (f v) := by
  obtain ⟨f', hf, hb⟩ := h
  refine ⟨φ' • f', hφ.comp_hasFDerivAt v0 hf, fun g dv => ?_⟩
  rw [hb]
  simp only [map_mul, conj_conj, _root_.smul_apply, smul_eq_mul]
  ring_nf

theorem Adj.add {b c : ℂ → V} (h : Adj v0 b f) (k : Adj v0 c g) : Adj v0 (fun s => b s + c s) fun v => f v + g v := by
  obtain ⟨f', hf, hb⟩ := h
  obtain ⟨g', hg, hc⟩ := k
  refine ⟨f' + g', hf.add hg, fun s dv => ?_⟩
  rw [inner_add_left, hb, hc, _root_.add_apply, mul_add, add_re]

theorem Adj.neg {b : ℂ → V} (h : Adj v0 b f) : Adj v0 (fun s => b (-s)) fun v => -f v := by
  obtain ⟨f', hf, hb⟩ := h
  refine ⟨-f', hf.neg, fun s dv => ?_⟩
  rw [hb, _root_.neg_apply, map_neg, neg_mul_comm]

theorem Adj.mul {b c : ℂ → V} (h : Adj v0 b f) (k : Adj v0 c g) :
    Adj v0 (fun s => b (s * (starRingEnd ℂ) (g v0)) + c (s * (starRingEnd ℂ) (f v0))) fun v => f v * g v := by
  obtain ⟨f', hf, hb⟩ := h
  obtain ⟨g', hg, hc⟩ := k
  refine ⟨f v0 • g' + g v0 • f', hf.mul hg, fun s dv => ?_⟩
  rw [inner_add_left, hb, hc]
  simp only [map_mul, conj_conj, _root_.add_apply, _root_.smul_apply, smul_eq_mul]
  rw [← add_re]
  ring_nf

theorem Tracks.add (h : Tracks v0 x f) (k : Tracks v0 y g) : Tracks v0 (Node.add x y) fun v => f v + g v := by
  refine ⟨by simp [Node.add, h.val, k.val], fun hr v => ?_, fun ok => (h.adj ok.1).add (k.adj ok.2)⟩
  simp only [Node.add, Bool.or_eq_false_iff] at hr
  rw [h.frozen hr.1 v, k.frozen hr.2 v]

theorem Tracks.sub (h : Tracks v0 x f) (k : Tracks v0 y g) : Tracks v0 (Node.sub x y) fun v => f v - g v := by
  refine ⟨by simp [Node.sub, h.val, k.val], fun hr v => ?_, fun ok => ?_⟩
  · simp only [Node.sub, Bool.or_eq_false_iff] at hr
    rw [h.frozen hr.1 v, k.frozen hr.2 v]
  · have := (h.adj ok.1).add (k.adj ok.2).neg
    simp only [← sub_eq_add_neg] at this
    exact this

theorem Tracks.mul (h : Tracks v0 x f) (k : Tracks v0 y g) : Tracks v0 (Node.mul x y) fun v => f v * g v := by
  refine ⟨by simp [Node.mul, h.val, k.val], fun hr v => ?_, fun ok => ?_⟩
  · simp only [Node.mul, Bool.or_eq_false_iff] at hr
    rw [h.frozen hr.1 v, k.frozen hr.2 v]
  · have := (h.adj ok.1).mul (k.adj ok.2)
    rw [← h.val, ← k.val] at this
    exact this

theorem Tracks.comp {φ : ℂ → ℂ} {φ' : ℂ} {b : ℂ → V} {ok : Prop} (h : Tracks v0 x f) (ho : ok → x.ok)
    (hφ : ok → x.req = true → HasDerivAt φ φ' (f v0)) (hb : ∀ s, b s = x.back (s * (starRingEnd ℂ) φ')) :
    Tracks v0 ⟨φ x.val, b, x.req, ok⟩ fun v => φ (f v) := by
  refine ⟨by simp [h.val], fun hr v => by rw [h.frozen hr v], fun hok => ?_⟩
  change Adj v0 b _
  rw [funext hb]
  cases hr : x.req
  · have hc : ∀ v, f v = f v0 := h.frozen hr
    obtain ⟨f', hf, hbk⟩ := h.adj (ho hok)
    have h0 : f' = 0 := by
      have : HasFDerivAt f (0 : V →L[ℝ] ℂ) v0 := by
        rw [funext hc]; exact hasFDerivAt_const _ _
      exact hf.unique this
    refine ⟨0, ?_, fun g dv => ?_⟩
    · have : (fun v => φ (f v)) = fun _ => φ (f v0) := funext fun v => by rw [hc v]
      rw [this]; exact hasFDerivAt_const _ _
    · rw [hbk, h0]; simp
  · exact (h.adj (ho hok)).comp (hφ hok hr)

theorem Tracks.exp (h : Tracks v0 x f) : Tracks v0 (Node.exp x) fun v => Complex.exp (f v) :=
  h.comp (φ := Complex.exp) id (fun _ _ => by rw [h.val]; exact hasDerivAt_exp _) fun _ => rfl

theorem Tracks.sin (h : Tracks v0 x f) : Tracks v0 (Node.sin x) fun v => Complex.sin (f v) :=
  h.comp (φ := Complex.sin) id (fun _ _ => by rw [h.val]; exact hasDerivAt_sin _) fun _ => rfl

theorem Tracks.cos (h : Tracks v0 x f) : Tracks v0 (Node.cos x) fun v => Complex.cos (f v) :=
  h.comp (φ := Complex.cos) (φ' := -Complex.sin x.val) id (fun _ _ => by rw [h.val]; exact hasDerivAt_cos _) fun _ => by
    rw [map_neg]

theorem Tracks.recip (h : Tracks v0 x f) : Tracks v0 (Node.recip x) fun v => (f v)⁻¹ := by
  refine h.comp (φ := fun z => z⁻¹) (φ' := -(x.val⁻¹ * x.val⁻¹)) (fun ok => ok.1) (fun ok _ => ?_) fun s => ?_
  · have h0 := ok.2
    rw [h.val] at h0 ⊢
    have := hasDerivAt_inv h0
    rwa [_root_.sq, mul_inv] at this
  · rw [map_neg, mul_neg, neg_mul]

theorem Tracks.rdiv (c : ℂ) (h : Tracks v0 x f) : Tracks v0 (Node.rdiv c x) fun v => c / f v :=
  (h.recip.mul (Tracks.const c)).congr fun v => by rw [div_eq_mul_inv, mul_comm]

theorem Tracks.div (h : Tracks v0 x f) (k : Tracks v0 y g) : Tracks v0 (Node.div x y) fun v => f v / g v := by
  refine ⟨by simp [Node.div, h.val, k.val], fun hr v => ?_, fun ok => ?_⟩
  · simp only [Node.div, Bool.or_eq_false_iff] at hr
    rw [h.frozen hr.1 v, k.frozen hr.2 v]
  · have hk := k.recip.adj ⟨ok.2.1, ok.2.2⟩
    have := (h.adj ok.1).mul hk
    simp only [← div_eq_mul_inv] at this
    convert this using 2 with s
    simp only [Node.div, Node.recip, h.val, k.val, map_mul, map_div₀, map_inv₀]
    rw [div_eq_mul_inv]
    congr 2
    ring

theorem csqrt_deriv {e : ℂ} (h : e ∈ slitPlane) : HasDerivAt csqrt (1 / 2 * e ^ (-(1 / 2) : ℂ)) e := by
  have := (hasDerivAt_id e).cpow_const (c := (1 / 2 : ℂ)) h
  have e1 : (1 / 2 : ℂ) * id e ^ ((1 / 2 : ℂ) - 1) * 1 = 1 / 2 * e ^ (-(1 / 2) : ℂ) := by
    rw [id, mul_one]
    norm_num
  rw [e1] at this
  exact this

theorem csqrt_inv (e : ℂ) : (1 / 2 * e ^ (-(1 / 2) : ℂ)) = 1 / (2 * csqrt e) := by
  unfold csqrt
  rw [cpow_neg, one_div, one_div, mul_inv]

theorem Tracks.powHalf (h : Tracks v0 x f) : Tracks v0 (Node.powHalf x) fun v => csqrt (f v) :=
  h.comp (φ := csqrt) (fun ok => ok.1) (fun ok hr => by
    have := ok.2 hr
    rw [h.val] at this ⊢
    exact csqrt_deriv this) fun _ => rfl

theorem Tracks.sqrt (h : Tracks v0 x f) : Tracks v0 (Node.sqrt x) fun v => csqrt (f v) :=
  h.comp (φ := csqrt) (φ' := 1 / (2 * csqrt x.val)) (fun ok => ok.1) (fun ok hr => by
    have := ok.2 hr
    rw [h.val] at this ⊢
    rw [← csqrt_inv]
    exact csqrt_deriv this) fun s => by
      congr 1
      rw [map_div₀, map_mul, map_one, map_ofNat, mul_one_div]

theorem Tracks.sq (h : Tracks v0 x f) : Tracks v0 (Node.sq x) fun v => f v ^ 2 :=
  h.comp (φ := fun z => z ^ 2) id (fun _ _ => by
    rw [h.val]
    simpa using hasDerivAt_pow 2 (f v0)) fun _ => rfl

/-- Real-linear operation. -/
theorem Adj.clm {b : ℂ → V} (L : ℂ →L[ℝ] ℂ) (L' : ℂ → ℂ) (hL : ∀ s w, ((starRingEnd ℂ) s * L w).re = ((starRingEnd ℂ) (L' s) * w).re)
    (h : Adj v0 b f) : Adj v0 (fun s => b (L' s)) fun v => L (f v) := by
  obtain ⟨f', hf, hb⟩ := h
  refine ⟨L.comp f', L.hasFDerivAt.comp v0 hf, fun g dv => ?_⟩
  rw [hb, ContinuousLinearMap.comp_apply, hL]

theorem Tracks.re (h : Tracks v0 x f) : Tracks v0 (Node.re x) fun v => ((f v).re : ℂ) := by
  refine ⟨by simp [Node.re, h.val], fun hr v => by rw [h.frozen hr v], fun ok => ?_⟩
  exact (h.adj ok).clm (ofRealCLM.comp reCLM) (fun s => (s.re : ℂ)) fun s w => by simp

theorem Tracks.im (h : Tracks v0 x f) : Tracks v0 (Node.im x) fun v => ((f v).im : ℂ) := by
  refine ⟨by simp [Node.im, h.val], fun hr v => by rw [h.frozen hr v], fun ok => ?_⟩
  exact (h.adj ok).clm (ofRealCLM.comp imCLM) (fun s => I * (s.re : ℂ)) fun s w => by simp

theorem Adj.absSq {b : ℂ → V} (h : Adj v0 b f) :
    Adj v0 (fun s => b ((s.re * (2 * ‖f v0‖) : ℝ) * (f v0 / ‖f v0‖))) fun v => ((‖f v‖ ^ 2 : ℝ) : ℂ) := by
  obtain ⟨f', hf, hb⟩ := h
  refine ⟨ofRealCLM.comp (2 • (innerSL ℝ (f v0)).comp f'), ofRealCLM.hasFDerivAt.comp v0 hf.norm_sq, fun s dv => ?_⟩
  rw [hb]
  have e : ((s.re * (2 * ‖f v0‖) : ℝ) : ℂ) * (f v0 / ‖f v0‖) = ((2 * s.re : ℝ) : ℂ) * f v0 := by
    rcases eq_or_ne (f v0) 0 with h0 | h0
    · simp [h0]
    · have : (‖f v0‖ : ℂ) ≠ 0 := by simpa using h0
      push_cast
      field_simp
  rw [e]
  simp [inner, mul_re]
  ring

theorem Tracks.absSq (h : Tracks v0 x f) : Tracks v0 (Node.absSq x) fun v => ((‖f v‖ ^ 2 : ℝ) : ℂ) := by
  refine ⟨by simp [Node.absSq, h.val], fun hr v => by rw [h.frozen hr v], fun ok => ?_⟩
  have := (h.adj ok).absSq
  rw [← h.val] at this
  exact this

theorem Adj.congr_near {b : ℂ → V} (h : Adj v0 b f) (e : ∀ᶠ v in 𝓝 v0, g v = f v) : Adj v0 b g := by
  obtain ⟨f', hf, hb⟩ := h
  exact ⟨f', hf.congr_of_eventuallyEq e, hb⟩

theorem Adj.cont {b : ℂ → V} (h : Adj v0 b f) : ContinuousAt f v0 := by
  obtain ⟨f', hf, -⟩ := h
  exact hf.continuousAt

theorem Adj.zero {b : ℂ → V} (h : Adj v0 b f) : b 0 = 0 := by
  obtain ⟨f', -, hb⟩ := h
  refine ext_inner_right ℝ fun v => ?_
  rw [hb, inner_zero_left]; simp

theorem Tracks.guard (h : Tracks v0 x f) : Tracks v0 (Node.guard x) fun v => guardAdd solverEps (f v) := by
  refine ⟨?_, fun hr v => ?_, fun ok => ?_⟩
  · simp only [Node.guard, Node.where', Node.add, Node.const, guardAdd, h.val]
  · simp only [Node.guard, Node.where', Node.add, Node.const, Bool.or_self, Bool.or_false] at hr
    rw [h.frozen hr v]
  · obtain ⟨ok, hne⟩ := ok
    have ha := h.adj ok
    rw [h.val] at hne
    have hb : ∀ s, (Node.guard x).back s = x.back s := by
      intro s
      simp only [Node.guard, Node.where', Node.add, Node.const, add_zero]
      by_cases hc : ‖x.val‖ < solverEps
      · simp only [hc, if_true, ha.zero, add_zero]
      · simp only [hc, if_false, ha.zero, zero_add]
    rw [funext hb]
    rcases lt_or_gt_of_ne hne with hlt | hgt
    · have : Adj v0 x.back fun v => f v + solverEps := by
        obtain ⟨f', hf, hb⟩ := ha
        exact ⟨f', hf.add_const _, hb⟩
      refine this.congr_near ?_
      filter_upwards [ha.cont.norm.eventually_lt_const hlt] with v hv
      simp only [guardAdd, if_pos hv]
    · refine ha.congr_near ?_
      filter_upwards [ha.cont.norm.eventually_const_lt hgt] with v hv
      simp only [guardAdd, if_neg (not_lt.2 hv.le)]

theorem Tracks.sum_map {ι : Type*} {x : ι → Node V} {f : ι → V → ℂ} :
    ∀ (l : List ι), (∀ i ∈ l, Tracks v0 (x i) (f i)) → Tracks v0 (Node.sum (l.map x)) fun v => (l.map fun i => f i v).sum
  | [], _ => by
    refine ⟨by simp [Node.sum], fun _ _ => rfl, fun _ => ⟨0, by simpa using hasFDerivAt_const (0 : ℂ) v0, fun g dv => ?_⟩⟩
    simp [Node.sum]
  | i :: l, h => by
    have h0 := h i (by simp)
    have h1 := Tracks.sum_map l fun j hj => h j (List.mem_cons_of_mem _ hj)
    have h2 := h0.add h1
    refine ⟨?_, fun hr => ?_, fun ok => ?_⟩
    · simpa [Node.sum, Node.add] using h2.val
    · refine fun v => ?_
      have := h2.frozen (by simpa [Node.sum, Node.add] using hr) v
      simpa using this
    · have := h2.adj ⟨ok _ (by simp), fun y hy => ok y (by
        simp only [List.map_cons, List.mem_cons]; right; exact hy)⟩
      simpa [Node.sum, Node.add] using this

/-! ## The program -/

section Program

variable {n N : ℕ}

theorem d1Down_tracks {zs : Node V} {z : V → ℂ} (h : Tracks v0 zs z) (M : ℕ) :
    ∀ j, Tracks v0 (Node.d1Down zs M j) fun v => MieDiff.d1Down (z v) solverEps M j
  | 0 => Tracks.const 0
  | j + 1 => by
    have hq := h.rdiv ((M - j : ℕ) : ℂ)
    exact hq.sub (((d1Down_tracks h M j).add hq).guard.rdiv 1)

theorem d1_tracks {x : Node V} {z : V → ℂ} (h : Tracks v0 x z) (k : ℕ) :
    Tracks v0 (Node.d1 n N x k) fun v => depthFn n N (z v) k :=
  d1Down_tracks h.guard (n + N) (n + N - k)

theorem pzD3_tracks {x : Node V} {z : V → ℂ} (h : Tracks v0 x z) {D : ℕ → Node V} {G : V → ℕ → ℂ}
    (hD : ∀ k, Tracks v0 (D k) fun v => G v k) : ∀ j,
      Tracks v0 (Node.pzD3 x D j).1 (fun v => (MieDiff.pzD3 (z v) (guardAdd solverEps (z v)) solverEps (G v) j).1) ∧
      Tracks v0 (Node.pzD3 x D j).2 (fun v => (MieDiff.pzD3 (z v) (guardAdd solverEps (z v)) solverEps (G v) j).2)
  | 0 => ⟨(Tracks.const _).mul ((Tracks.const 1).sub ((Tracks.const _).mul h).exp), Tracks.const I⟩
  | j + 1 => by
    obtain ⟨i1, i2⟩ := pzD3_tracks h hD j
    have hq := h.guard.rdiv ((j + 1 : ℕ) : ℂ)
    have h1 := (i1.mul (hq.sub (hD j))).mul (hq.sub i2)
    exact ⟨h1, (hD (j + 1)).add (h1.guard.rdiv I)⟩

theorem d3_tracks {x : Node V} {z : V → ℂ} (h : Tracks v0 x z) {D : ℕ → Node V} {E : ℂ → ℕ → ℂ}
    (hD : ∀ k, Tracks v0 (D k) fun v => E (z v) k) (j : ℕ) : Tracks v0 (Node.d3 x D j) fun v => d3Fn E (z v) j :=
  (pzD3_tracks h (G := fun v => E (z v)) hD j).2

theorem q_tracks {z1 z2 x1 x2 : Node V} {f1 f2 g1 g2 : V → ℂ} (h1 : Tracks v0 z1 f1) (h2 : Tracks v0 z2 f2) (k1 : Tracks v0 x1 g1)
    (k2 : Tracks v0 x2 g2) {D11 D12 D31 D32 : ℕ → Node V} {E : ℂ → ℕ → ℂ} (a1 : ∀ k, Tracks v0 (D11 k) fun v => E (f1 v) k)
    (a2 : ∀ k, Tracks v0 (D12 k) fun v => E (f2 v) k) (b1 : ∀ k, Tracks v0 (D31 k) fun v => d3Fn E (f1 v) k)
    (b2 : ∀ k, Tracks v0 (D32 k) fun v => d3Fn E (f2 v) k) :
    ∀ j, Tracks v0 (Node.q z1 z2 x1 x2 D11 D12 D31 D32 j) fun v => qFn E (f1 v) (f2 v) (g1 v) (g2 v) j
  | 0 => by
    have e : ∀ {z : Node V} {f : V → ℂ}, Tracks v0 z f →
        Tracks v0 (Node.sub (Node.exp (Node.mul (Node.const (-2 * I)) (Node.re z))) (Node.exp (Node.mul (Node.const (-2)) (Node.im z))))
          fun v => Complex.exp (-2 * I * (f v).re) - Complex.exp ((-2 * (f v).im : ℝ) : ℂ) := by
      intro z f h
      refine (((Tracks.const _).mul h.re).exp.sub ((Tracks.const _).mul h.im).exp).congr fun v => ?_
      push_cast
      rfl
    refine (((e h1).div (e h2).guard).mul ((Tracks.const _).mul (h2.im.sub h1.im)).exp).congr fun v => ?_
    simp only [qFn, qVal]
    push_cast
    rfl
  | j + 1 => by
    have hn : Tracks v0 (Node.const ((j + 1 : ℕ) : ℂ)) fun _ => ((j + 1 : ℕ) : ℂ) := Tracks.const _
    have fac : ∀ {z : Node V} {f : V → ℂ} {D D3 : ℕ → Node V}, Tracks v0 z f → (∀ k, Tracks v0 (D k) fun v => E (f v) k) →
        (∀ k, Tracks v0 (D3 k) fun v => d3Fn E (f v) k) →
        Tracks v0 (Node.mul (Node.add (Node.mul z (D (j + 1))) (Node.const ((j + 1 : ℕ) : ℂ)))
          (Node.sub (Node.const ((j + 1 : ℕ) : ℂ)) (Node.mul z (D3 j))))
          fun v => (f v * E (f v) (j + 1) + (j + 1 : ℕ)) * ((j + 1 : ℕ) - f v * d3Fn E (f v) j) := by
      intro z f D D3 h a b
      exact ((h.mul (a _)).add hn).mul (hn.sub (h.mul (b _)))
    exact ((q_tracks h1 h2 k1 k2 a1 a2 b1 b2 j).mul (k1.div k2.guard).sq).mul ((fac h2 a2 b2).div (fac h1 a1 b1).guard)

theorem prodSeq_tracks {f0 x : Node V} {p z : V → ℂ} (h0 : Tracks v0 f0 p) (h : Tracks v0 x z) {D : ℕ → Node V} {G : V → ℕ → ℂ}
    (hD : ∀ k, Tracks v0 (D k) fun v => G v k) :
    ∀ j, Tracks v0 (Node.prodSeq f0 x D j) fun v => MieDiff.prodSeq (p v) (guardAdd solverEps (z v)) (G v) j
  | 0 => h0
  | j + 1 => (prodSeq_tracks h0 h hD j).mul ((h.guard.rdiv _).sub (hD j))

/-- `H_a` or `H_b`. -/
def State.H {V : Type*} (st : State V) : Pol → ℕ → Node V
  | .tm => st.Ha
  | .te => st.Hb

structure StTracks (v0 : V) (st : State V) (s : V → HState) : Prop where
  m : Tracks v0 st.m fun v => (s v).m
  x : Tracks v0 st.x fun v => (s v).x
  H : ∀ p i, Tracks v0 (st.H p i) fun v => (s v).H p i

theorem init_tracks {l : Node V × Node V} {lf : (V → ℂ) × (V → ℂ)} (h1 : Tracks v0 l.1 lf.1) (h2 : Tracks v0 l.2 lf.2) :
    StTracks v0 (Node.init n N l) fun v => hInit (depthFn n N) (lf.1 v, lf.2 v) :=
  ⟨h1, h2, fun p i => by cases p <;> exact d1_tracks (h1.mul h2) i⟩

theorem step_tracks {st : State V} {s : V → HState} (h : StTracks v0 st s) {l : Node V × Node V} {lf : (V → ℂ) × (V → ℂ)}
    (h1 : Tracks v0 l.1 lf.1) (h2 : Tracks v0 l.2 lf.2) :
    StTracks v0 (Node.step n N st l) fun v => hStep (depthFn n N) (s v) (lf.1 v, lf.2 v) := by
  refine ⟨h1, h2, ?_⟩
  have hzc := h1.mul h2
  have hzp := h1.mul h.x
  have dc := fun k => d1_tracks (n := n) (N := N) hzc k
  have dp := fun k => d1_tracks (n := n) (N := N) hzp k
  have ec := fun k => d3_tracks hzc dc k
  have ep := fun k => d3_tracks hzp dp k
  have hQ := fun k => q_tracks hzp hzc h.x h2 dp dc ep ec k
  intro p i
  have hH := h.H p i
  have key : ∀ {P Q : Node V} {pf qf : V → ℂ}, Tracks v0 P pf → Tracks v0 Q qf →
      Tracks v0 (Node.update P Q (st.H p i) (Node.d1 n N (Node.mul l.1 st.x) i)
        (Node.d3 (Node.mul l.1 st.x) (Node.d1 n N (Node.mul l.1 st.x)) i)
        (Node.d1 n N (Node.mul l.1 l.2) i) (Node.d3 (Node.mul l.1 l.2) (Node.d1 n N (Node.mul l.1 l.2)) i)
        (Node.q (Node.mul l.1 st.x) (Node.mul l.1 l.2) st.x l.2 (Node.d1 n N (Node.mul l.1 st.x)) (Node.d1 n N (Node.mul l.1 l.2))
          (Node.d3 (Node.mul l.1 st.x) (Node.d1 n N (Node.mul l.1 st.x)))
          (Node.d3 (Node.mul l.1 l.2) (Node.d1 n N (Node.mul l.1 l.2))) i))
        fun v => hUpdate (pf v) (qf v) ((s v).H p i) (depthFn n N (lf.1 v * (s v).x) i) (d3Fn (depthFn n N) (lf.1 v * (s v).x) i)
          (depthFn n N (lf.1 v * lf.2 v) i) (d3Fn (depthFn n N) (lf.1 v * lf.2 v) i)
          (qFn (depthFn n N) (lf.1 v * (s v).x) (lf.1 v * lf.2 v) (s v).x (lf.2 v) i) := by
    intro P Q pf qf hP hQ'
    have g1 := (hP.mul hH).sub (hQ'.mul (dp i))
    have g2 := (hP.mul hH).sub (hQ'.mul (ep i))
    exact ((g2.mul (dc i)).sub (((hQ i).mul g1).mul (ec i))).div (g2.sub ((hQ i).mul g1)).guard
  cases p
  · exact key h1 h.m
  · exact key h.m h1

theorem coefs_tracks {st : State V} {s : V → HState} (h : StTracks v0 st s) (i : ℕ) :
    Tracks v0 (Node.coefs n N st i).1 (fun v => coefFn (depthFn n N) .tm (s v) i) ∧
    Tracks v0 (Node.coefs n N st i).2 (fun v => coefFn (depthFn n N) .te (s v) i) := by
  have d1 := fun k => d1_tracks (n := n) (N := N) h.x k
  have hpsi := fun k => prodSeq_tracks h.x.sin h.x (G := fun v => depthFn n N (s v).x) d1 k
  have hzeta := fun k => prodSeq_tracks (h.x.sin.sub ((Tracks.const I).mul h.x.cos)) h.x (G := fun v => d3Fn (depthFn n N) (s v).x)
    (fun k => d3_tracks h.x d1 k) k
  have hix := (Tracks.const (v0 := v0) (i : ℂ)).div h.x.guard
  have fin : ∀ {T : Node V} {t : V → ℂ}, Tracks v0 T t → Tracks v0 (Node.final T _ _ _ _) fun v => finalCoef (t v) _ _ _ _ :=
    fun hT => ((hT.mul (hpsi i)).sub (hpsi (i - 1))).div ((hT.mul (hzeta i)).sub (hzeta (i - 1))).guard
  exact ⟨fin (((h.H .tm i).div h.m).add hix), fin ((h.m.mul (h.H .te i)).add hix)⟩

/-- Lists of layers. -/
def LTracks (v0 : V) (ls : List (Node V × Node V)) (lf : LayerFam V) : Prop :=
  List.Forall₂ (fun l f => Tracks v0 l.1 f.1 ∧ Tracks v0 l.2 f.2) ls lf

theorem fold_tracks {ls : List (Node V × Node V)} {lf : LayerFam V} (h : LTracks v0 ls lf) :
    ∀ {st : State V} {s : V → HState}, StTracks v0 st s →
      StTracks v0 (ls.foldl (Node.step n N) st) fun v => (lf.at' v).foldl (hStep (depthFn n N)) (s v) := by
  unfold LTracks at h
  induction h with
  | nil => intro st s hs; exact hs
  | cons hl _ ih =>
    intro st s hs
    exact ih (step_tracks hs hl.1 hl.2)

end Program

end Node

end MieDiff
