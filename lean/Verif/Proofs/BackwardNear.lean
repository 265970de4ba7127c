import Mathlib.Analysis.SpecialFunctions.Trigonometric.InverseDeriv
import Mathlib.Analysis.SpecialFunctions.Complex.LogDeriv
import Verif.Model.BackwardNear
import Verif.Props.BackwardAngular
import Verif.Proofs.NearTorch

/-!
# Reverse mode through the near field

`Exact` for the real functions, the spherical coordinates, the harmonics and the masks.
-/

namespace MieDiff

open Complex Spec Filter Topology
open scoped RealInnerProductSpace

variable {V : Type*} [NormedAddCommGroup V] [InnerProductSpace ℝ V] {v0 : V}

namespace Node

variable {x y z : Node V} {f g : V → ℂ}

theorem Exact.neg (h : Exact v0 x f) : Exact v0 (Node.neg x) fun v => -f v := by
  have t := h.forget.neg
  exact ⟨t.val, t.adj trivial⟩

theorem Adj.back_zero {b : ℂ → V} (h : Adj v0 b f) : b 0 = 0 := by
  obtain ⟨f', -, h⟩ := h
  refine ext_inner_right ℝ fun w => ?_
  rw [h 0 w]
  simp

theorem Exact.where' (h : Exact v0 x f) (k : Exact v0 y g) (c : Prop) [Decidable c] :
    Exact v0 (Node.where' c x y) fun v => if c then f v else g v := by
  by_cases hc : c
  · simp only [Node.where', if_pos hc, k.adj.back_zero, add_zero]
    exact ⟨h.val, h.adj⟩
  · simp only [Node.where', if_neg hc, h.adj.back_zero, zero_add]
    exact ⟨k.val, k.adj⟩

/-! ## Real functions -/

section Real

variable {a b : V → ℝ}

theorem Exact.real_deriv (h : Exact v0 x fun v => (a v : ℂ)) : ∃ a' : V →L[ℝ] ℝ, HasFDerivAt a a' v0 ∧
    ∀ g dv, ⟪x.back g, dv⟫ = ((starRingEnd ℂ) g * (a' dv : ℂ)).re := by
  obtain ⟨f', hf, ha⟩ := h.adj
  have hr := (reCLM.hasFDerivAt (x := (a v0 : ℂ))).comp v0 hf
  have hi := (imCLM.hasFDerivAt (x := (a v0 : ℂ))).comp v0 hf
  refine ⟨reCLM.comp f', hr, fun g dv => ?_⟩
  have h0 : imCLM.comp f' = 0 := by
    refine hi.unique ?_
    have e : (⇑imCLM ∘ fun v => (a v : ℂ)) = fun _ => (0 : ℝ) := by ext v; simp
    rw [e]
    exact hasFDerivAt_const 0 v0
  rw [ha g dv]
  congr 2
  refine Complex.ext ?_ ?_
  · simp
  · have : (f' dv).im = 0 := congrArg (fun L : V →L[ℝ] ℝ => L dv) h0
    rw [this]
    simp

theorem Exact.of_real {b : ℂ → V} {a : V → ℝ} {a' : V →L[ℝ] ℝ} (h : HasFDerivAt a a' v0)
    (k : ∀ g dv, ⟪b g, dv⟫ = ((starRingEnd ℂ) g * (a' dv : ℂ)).re) : Adj v0 b fun v => (a v : ℂ) :=
  ⟨ofRealCLM.comp a', (ofRealCLM.hasFDerivAt (x := a v0)).comp v0 h, k⟩

/-- A real function of a real entry. -/
theorem Exact.real_fn (h : Exact v0 x fun v => (a v : ℂ)) {φ : ℝ → ℝ} {φ' : ℝ} (hφ : HasDerivAt φ φ' (a v0)) :
    Adj v0 (fun g => x.back (g * (φ' : ℂ))) fun v => (φ (a v) : ℂ) := by
  obtain ⟨a', ha, hb⟩ := h.real_deriv
  refine Exact.of_real (hφ.comp_hasFDerivAt v0 ha) fun g dv => ?_
  rw [hb]
  simp
  ring

theorem Exact.clamp (h : Exact v0 x fun v => (a v : ℂ)) {lo hi : ℝ} (hl : a v0 ≠ lo) (hh : a v0 ≠ hi) (hlh : lo < hi) :
    Exact v0 (Node.clamp x lo hi) fun v => ((clampR (a v) lo hi : ℝ) : ℂ) := by
  have hv : x.val.re = a v0 := by rw [h.val]; exact ofReal_re _
  refine ⟨by simp only [Node.clamp, hv], ?_⟩
  simp only [Node.clamp, hv]
  obtain ⟨a', ha, hb⟩ := h.real_deriv
  have hc := ha.continuousAt
  by_cases h1 : lo ≤ a v0 ∧ a v0 ≤ hi
  · simp only [if_pos h1]
    refine h.adj.congr_near ?_
    filter_upwards [hc.eventually_const_lt (lt_of_le_of_ne h1.1 hl.symm), hc.eventually_lt_const (lt_of_le_of_ne h1.2 hh)] with v q1 q2
    rw [clampR, max_eq_left q1.le, min_eq_left q2.le]
  · simp only [if_neg h1, h.adj.back_zero]
    have hk : ∀ c : ℂ, Adj v0 (fun _ : ℂ => (0 : V)) fun _ : V => c := fun c => (Exact.const c).adj
    rcases not_and_or.1 h1 with h2 | h2
    · refine (hk (lo : ℂ)).congr_near ?_
      filter_upwards [hc.eventually_lt_const (not_le.1 h2)] with v q
      rw [clampR, max_eq_right q.le, min_eq_left hlh.le]
    · refine (hk (hi : ℂ)).congr_near ?_
      filter_upwards [hc.eventually_const_lt (not_le.1 h2)] with v q
      rw [clampR, max_eq_left (by linarith), min_eq_right q.le]

theorem Exact.acos (h : Exact v0 x fun v => (a v : ℂ)) (h1 : a v0 ≠ -1) (h2 : a v0 ≠ 1) :
    Exact v0 (Node.acos x) fun v => ((Real.arccos (a v) : ℝ) : ℂ) := by
  have hv : x.val.re = a v0 := by rw [h.val]; exact ofReal_re _
  refine ⟨by simp only [Node.acos, hv], ?_⟩
  simp only [Node.acos, hv]
  have := Real.hasDerivAt_arccos h1 h2
  rw [one_div] at this
  exact h.real_fn this

/-- The local branch of the azimuth: equal to `atan2` modulo a full turn, without its jump. -/
theorem Exact.atan2 {a b : V → ℝ} (hy : Exact v0 y fun v => (a v : ℂ)) (hx : Exact v0 x fun v => (b v : ℂ)) (h0 : b v0 ≠ 0) :
    ∃ p : V → ℝ, Exact v0 (Node.atan2N y x) (fun v => (p v : ℂ)) ∧
      ∀ᶠ v in 𝓝 v0, Real.cos (p v) = Real.cos (MieDiff.atan2 (a v) (b v)) ∧ Real.sin (p v) = Real.sin (MieDiff.atan2 (a v) (b v)) := by
  have va : y.val.re = a v0 := by rw [hy.val]; exact ofReal_re _
  have vb : x.val.re = b v0 := by rw [hx.val]; exact ofReal_re _
  obtain ⟨a', da, ea⟩ := hy.real_deriv
  obtain ⟨b', db, eb⟩ := hx.real_deriv
  set w0 : ℂ := ⟨b v0, a v0⟩ with hw0
  have hne : w0 ≠ 0 := fun h => h0 (by simpa [hw0] using congrArg Complex.re h)
  have hpos : 0 < b v0 ^ 2 + a v0 ^ 2 := by positivity
  -- the quotient
  have hq : ∀ v, (⟨b v, a v⟩ : ℂ) / w0 = ((b v : ℂ) + (a v : ℂ) * I) * ((((b v0 ^ 2 + a v0 ^ 2)⁻¹ : ℝ) : ℂ) * ((b v0 : ℂ) - (a v0 : ℂ) * I)) := by
    intro v
    rw [div_eq_mul_inv]
    congr 1
    · rw [mk_eq_add_mul_I]
    · rw [Complex.inv_def, mul_comm]
      congr 1
      · simp [hw0, normSq_mk, pow_two]
      · refine Complex.ext ?_ ?_ <;> simp [hw0]
  set s : ℝ := (b v0 ^ 2 + a v0 ^ 2)⁻¹ with hs
  obtain ⟨L, hds, hL⟩ : ∃ L : V →L[ℝ] ℂ, HasFDerivAt (fun v => (⟨b v, a v⟩ : ℂ) / w0) L v0 ∧
      ∀ dv, L dv = ((b' dv : ℂ) + (a' dv : ℂ) * I) * ((s : ℂ) * ((b v0 : ℂ) - (a v0 : ℂ) * I)) := by
    simp only [hq]
    have dA : HasFDerivAt (fun v => (a v : ℂ)) (ofRealCLM.comp a') v0 := (ofRealCLM.hasFDerivAt (x := a v0)).comp v0 da
    have dB : HasFDerivAt (fun v => (b v : ℂ)) (ofRealCLM.comp b') v0 := (ofRealCLM.hasFDerivAt (x := b v0)).comp v0 db
    exact ⟨_, (dB.add (dA.mul_const' I)).mul_const' _, fun dv => by simp; ring⟩
  have h1 : (⟨b v0, a v0⟩ : ℂ) / w0 = 1 := div_self hne
  have hslit : (⟨b v0, a v0⟩ : ℂ) / w0 ∈ slitPlane := by rw [h1]; exact one_mem_slitPlane
  have hlog := ((Complex.hasDerivAt_log hslit).hasFDerivAt.restrictScalars ℝ).comp v0 hds
  have him := (imCLM.hasFDerivAt (x := Complex.log ((⟨b v0, a v0⟩ : ℂ) / w0))).comp v0 hlog
  refine ⟨fun v => MieDiff.atan2 (a v0) (b v0) + ((⟨b v, a v⟩ : ℂ) / w0).arg, ⟨?_, ?_⟩, ?_⟩
  · simp only [Node.atan2N, va, vb, h1, arg_one, add_zero]
  · have hp : HasFDerivAt (fun v => MieDiff.atan2 (a v0) (b v0) + ((⟨b v, a v⟩ : ℂ) / w0).arg) ((b v0 * s) • a' + (-a v0 * s) • b') v0 := by
      have := him.const_add (MieDiff.atan2 (a v0) (b v0))
      refine (this.congr_fderiv ?_).congr_of_eventuallyEq (Eventually.of_forall fun v => ?_)
      · ext dv
        simp [h1, hL]
        ring
      · simp [Complex.log_im]
    refine Exact.of_real hp fun g dv => ?_
    simp only [Node.atan2N, va, vb]
    rw [inner_add_left, ea, eb]
    rw [show (a v0 ^ 2 + b v0 ^ 2)⁻¹ = s by rw [hs, add_comm]]
    simp only [map_mul, conj_ofReal, add_apply, smul_apply, smul_eq_mul]
    push_cast
    rw [← add_re]
    congr 1
    ring
  · have hcont : ContinuousAt (fun v => (⟨b v, a v⟩ : ℂ) / w0) v0 := hds.continuousAt
    have hnear : ∀ᶠ v in 𝓝 v0, (⟨b v, a v⟩ : ℂ) / w0 ≠ 0 := hcont.eventually_ne (by rw [h1]; exact one_ne_zero)
    filter_upwards [hnear] with v hv
    have hang : ((MieDiff.atan2 (a v0) (b v0) + ((⟨b v, a v⟩ : ℂ) / w0).arg : ℝ) : Real.Angle) = ((MieDiff.atan2 (a v) (b v) : ℝ) : Real.Angle) := by
      have := Complex.arg_mul_coe_angle hne hv
      rw [mul_div_cancel₀ _ hne] at this
      rw [MieDiff.atan2, MieDiff.atan2, this]
      rfl
    exact ⟨by rw [← Real.Angle.cos_coe, hang, Real.Angle.cos_coe], by rw [← Real.Angle.sin_coe, hang, Real.Angle.sin_coe]⟩

end Real

/-! ## Spherical coordinates -/

/-- The recorded spherical coordinates of the point `P`. -/
structure SphExact (v0 : V) (s : V3 (Node V)) (P : V → V3 ℝ) : Prop where
  tracks : Tracks v0 s.c0 fun v => ((P v).c0 : ℂ)
  ok : s.c0.ok
  theta : Exact v0 s.c1 fun v => ((P v).c1 : ℂ)
  cosPhi : Exact v0 (Node.cos s.c2) fun v => ((Real.cos (P v).c2 : ℝ) : ℂ)
  sinPhi : Exact v0 (Node.sin s.c2) fun v => ((Real.sin (P v).c2 : ℝ) : ℂ)

theorem SphExact.r {s : V3 (Node V)} {P : V → V3 ℝ} (h : SphExact v0 s P) : Exact v0 s.c0 fun v => ((P v).c0 : ℂ) := h.tracks.exact h.ok

theorem eps10_bounds : 0 < eps10Double ∧ eps10Double < 1 := by
  unfold eps10Double
  norm_num

theorem sph_exact [CompleteSpace V] {P : V → V3 ℝ} (hx : Recorded v0 x fun v => ((P v).c0 : ℂ)) (hy : Recorded v0 y fun v => ((P v).c1 : ℂ))
    (hz : Recorded v0 z fun v => ((P v).c2 : ℂ)) (h0 : (P v0).c0 ≠ 0)
    (hp : |(P v0).c2| ≠ (1 - eps10Double) * Real.sqrt ((P v0).c0 ^ 2 + (P v0).c1 ^ 2 + (P v0).c2 ^ 2)) :
    SphExact v0 (Node.sph eps10Double x y z) fun v => xyzToSph eps10Double (P v).c0 (P v).c1 (P v).c2 := by
  set R : V → ℝ := fun v => Real.sqrt ((P v).c0 ^ 2 + (P v).c1 ^ 2 + (P v).c2 ^ 2) with hR
  have hsum : 0 < (P v0).c0 ^ 2 + (P v0).c1 ^ 2 + (P v0).c2 ^ 2 := by positivity
  have hRpos : 0 < R v0 := Real.sqrt_pos.2 hsum
  have ts := ((hx.tracks.sq.add hy.tracks.sq).add hz.tracks.sq)
  have tr : Tracks v0 (Node.sqrt (Node.add (Node.add (Node.sq x) (Node.sq y)) (Node.sq z))) fun v => (R v : ℂ) := by
    refine ts.sqrt.congr fun v => ?_
    rw [hR, ← csqrt_ofReal (by positivity)]
    push_cast
    rfl
  have okr : (Node.sqrt (Node.add (Node.add (Node.sq x) (Node.sq y)) (Node.sq z))).ok := by
    refine ⟨⟨⟨hx.regular, hy.regular⟩, hz.regular⟩, fun _ => ?_⟩
    rw [ts.val]
    have : (((P v0).c0 : ℂ) ^ 2 + ((P v0).c1 : ℂ) ^ 2 + ((P v0).c2 : ℂ) ^ 2) = (((P v0).c0 ^ 2 + (P v0).c1 ^ 2 + (P v0).c2 ^ 2 : ℝ) : ℂ) := by
      push_cast
      rfl
    rw [this]
    exact ofReal_mem_slitPlane.2 hsum
  have er := tr.exact okr
  have hrv : (Node.sqrt (Node.add (Node.add (Node.sq x) (Node.sq y)) (Node.sq z))).val ≠ 0 := by
    rw [tr.val]; exact_mod_cast hRpos.ne'
  have hxv : x.val ≠ 0 := by rw [hx.value]; exact_mod_cast h0
  have hRc : ContinuousAt R v0 := (er.real_deriv.choose_spec.1).continuousAt
  have hXc : ContinuousAt (fun v => (P v).c0) v0 := (hx.exact.real_deriv.choose_spec.1).continuousAt
  have hRn : ∀ᶠ v in 𝓝 v0, R v ≠ 0 := hRc.eventually_ne hRpos.ne'
  have hXn : ∀ᶠ v in 𝓝 v0, (P v).c0 ≠ 0 := hXc.eventually_ne h0
  obtain ⟨e1, e2⟩ := eps10_bounds
  have hcs : Exact v0 (Node.cos (Node.sph eps10Double x y z).c2) (fun v => ((Real.cos (xyzToSph eps10Double (P v).c0 (P v).c1 (P v).c2).c2 : ℝ) : ℂ)) ∧
      Exact v0 (Node.sin (Node.sph eps10Double x y z).c2) (fun v => ((Real.sin (xyzToSph eps10Double (P v).c0 (P v).c1 (P v).c2).c2 : ℝ) : ℂ)) := by
    have ex : Exact v0 (Node.add x (Node.const (((if x.val = 0 then 1 else 0) * eps10Double : ℝ) : ℂ))) fun v => ((P v).c0 : ℂ) := by
      rw [if_neg hxv]
      refine (hx.exact.add (Exact.const _)).congr (Eventually.of_forall fun v => by simp)
    obtain ⟨p, ep, hp'⟩ := Exact.atan2 hy.exact ex h0
    refine ⟨ep.cos.congr ?_, ep.sin.congr ?_⟩
    · filter_upwards [hp', hXn] with v hv hn
      simp only [xyzToSph, if_neg hn, zero_mul, add_zero]
      rw [← hv.1]
      push_cast
      rfl
    · filter_upwards [hp', hXn] with v hv hn
      simp only [xyzToSph, if_neg hn, zero_mul, add_zero]
      rw [← hv.2]
      push_cast
      rfl
  refine ⟨tr, okr, ?_, hcs.1, hcs.2⟩
  · have es : Exact v0 (Node.where' ((Node.sqrt (Node.add (Node.add (Node.sq x) (Node.sq y)) (Node.sq z))).val = 0) (Node.const 1e-12)
        (Node.sqrt (Node.add (Node.add (Node.sq x) (Node.sq y)) (Node.sq z)))) fun v => (R v : ℂ) := by
      refine ((Exact.const 1e-12).where' er _).congr (Eventually.of_forall fun v => ?_)
      rw [if_neg hrv]
    have ez : Exact v0 (Node.div z _) fun v => (((P v).c2 / R v : ℝ) : ℂ) :=
      (hz.exact.div es (by exact_mod_cast hRpos.ne')).congr (Eventually.of_forall fun v => by push_cast; rfl)
    have hq : |(P v0).c2 / R v0| ≠ 1 - eps10Double := by
      rw [abs_div, abs_of_pos hRpos]
      intro h
      exact hp ((div_eq_iff hRpos.ne').1 h)
    have ec := ez.clamp (lo := -1 + eps10Double) (hi := 1 - eps10Double)
      (fun h => hq (by rw [h, abs_of_nonpos (by linarith)]; ring)) (fun h => hq (by rw [h, abs_of_nonneg (by linarith)])) (by
        have : eps10Double < 1 / 2 := by unfold eps10Double; norm_num
        linarith)
    have hb : -1 < clampR ((P v0).c2 / R v0) (-1 + eps10Double) (1 - eps10Double) ∧
        clampR ((P v0).c2 / R v0) (-1 + eps10Double) (1 - eps10Double) < 1 := by
      have : eps10Double < 1 / 2 := by unfold eps10Double; norm_num
      unfold clampR
      exact ⟨lt_min (lt_of_lt_of_le (by linarith) (le_max_right _ _)) (by linarith), lt_of_le_of_lt (min_le_right _ _) (by linarith)⟩
    refine (ec.acos hb.1.ne' hb.2.ne).congr ?_
    filter_upwards [hRn] with v hv
    simp only [xyzToSph]
    rw [if_neg hv]

/-! ## Vectors -/

/-- A recorded vector has the value and the adjoint of each component. -/
structure Exact3 (v0 : V) (w : V3 (Node V)) (f : V → V3 ℂ) : Prop where
  c0 : Exact v0 w.c0 fun v => (f v).c0
  c1 : Exact v0 w.c1 fun v => (f v).c1
  c2 : Exact v0 w.c2 fun v => (f v).c2

section Vectors

variable {u w : V3 (Node V)} {F G : V → V3 ℂ}

theorem Exact3.congr (h : Exact3 v0 u F) (e : ∀ᶠ v in 𝓝 v0, G v = F v) : Exact3 v0 u G :=
  ⟨h.c0.congr (e.mono fun v hv => by rw [hv]), h.c1.congr (e.mono fun v hv => by rw [hv]), h.c2.congr (e.mono fun v hv => by rw [hv])⟩

theorem Exact3.scale {c : Node V} {k : V → ℂ} (hc : Exact v0 c k) (h : Exact3 v0 u F) : Exact3 v0 (Node.scale c u) fun v => V3.smul (k v) (F v) :=
  ⟨hc.mul h.c0, hc.mul h.c1, hc.mul h.c2⟩

theorem Exact3.add (h : Exact3 v0 u F) (k : Exact3 v0 w G) : Exact3 v0 (Node.add3 u w) fun v => (F v).add (G v) :=
  ⟨h.c0.add k.c0, h.c1.add k.c1, h.c2.add k.c2⟩

theorem Exact3.sub (h : Exact3 v0 u F) (k : Exact3 v0 w G) : Exact3 v0 (Node.sub3 u w) fun v => (F v).add (V3.smul (-1) (G v)) :=
  ⟨(h.c0.sub k.c0).congr (Eventually.of_forall fun v => by simp [V3.add, V3.smul]; ring),
   (h.c1.sub k.c1).congr (Eventually.of_forall fun v => by simp [V3.add, V3.smul]; ring),
   (h.c2.sub k.c2).congr (Eventually.of_forall fun v => by simp [V3.add, V3.smul]; ring)⟩

theorem Exact3.where3 (h : Exact3 v0 u F) (k : Exact3 v0 w G) (c : Prop) [Decidable c] :
    Exact3 v0 (Node.where3 c u w) fun v => if c then F v else G v := by
  have e : ∀ v, (if c then F v else G v) = ⟨if c then (F v).c0 else (G v).c0, if c then (F v).c1 else (G v).c1,
      if c then (F v).c2 else (G v).c2⟩ := fun v => by split_ifs <;> rfl
  have := (⟨h.c0.where' k.c0 c, h.c1.where' k.c1 c, h.c2.where' k.c2 c⟩ :
    Exact3 v0 (Node.where3 c u w) fun v => ⟨if c then (F v).c0 else (G v).c0, if c then (F v).c1 else (G v).c1,
      if c then (F v).c2 else (G v).c2⟩)
  exact this.congr (Eventually.of_forall e)

end Vectors

/-! ## Harmonics -/

/-- The radial functions by kind. -/
noncomputable def ricFn (B : BessFn) (kind : ℤ) (z : ℂ) (i : ℕ) : ℂ × ℂ :=
  if kind = 1 then (z * B.j z i, B.j z i + z * derFn z (B.j z) i)
  else if kind = 2 then (-z * B.y z i, -B.y z i - z * derFn z (B.y z) i)
  else (z * (B.j z i + I * B.y z i), B.j z i + I * B.y z i + z * derFn z (fun k => B.j z k + I * B.y z k) i)

theorem ricKind_run {S : BesselBackend} {B : BessFn} {n : ℕ} {kind : ℤ} (hk : kind = 1 ∨ kind = 2 ∨ kind = 3) {z : ℂ}
    (h : RunsAt S (n + 1) B z) :
    ricKind S ((n + 1 : ℕ) : ℕ) kind z = .ok (tab (n + 1) fun i => (ricFn B kind z i).1, tab (n + 1) fun i => (ricFn B kind z i).2) := by
  unfold ricKind
  rcases hk with rfl | rfl | rfl
  · rw [if_pos rfl]
    refine bind_of h.j ?_
    unfold ricPlus
    refine bind_of (fDer_run n z _) ?_
    rw [map_tab, zipWith_tab]
    simp [ricFn]
  · rw [if_neg (by norm_num), if_pos rfl]
    refine bind_of h.y ?_
    unfold ricMinus
    refine bind_of (fDer_run n z _) ?_
    rw [map_tab, zipWith_tab]
    simp [ricFn]
  · rw [if_neg (by norm_num), if_neg (by norm_num), if_pos rfl]
    refine bind_of h.j (bind_of h.y ?_)
    unfold ricPlus h1Of
    rw [zipWith_tab]
    refine bind_of (fDer_run n z _) ?_
    rw [map_tab, zipWith_tab]
    simp [ricFn]

/-- Recorded functions that have the values and adjoints of `B`. -/
structure Bess.ExactAt (v0 : V) (b : Bess V) (x : Node V) (f : V → ℂ) (B : BessFn) : Prop where
  ne : f v0 ≠ 0
  arg : Exact v0 x f
  j : ∀ k, Exact v0 (b.jn x k) fun v => B.j (f v) k
  y : ∀ k, Exact v0 (b.yn x k) fun v => B.y (f v) k

theorem Bess.ratioAt_exact (h : Tracks v0 x f) (ok : x.ok) {n d : ℕ} (h0 : 1e-10 < ‖f v0‖) (hc : CfClear (f v0) (n + d)) :
    Bess.ExactAt v0 (Bess.ratioAt n d) x f (ratFn n d) := by
  have hne : f v0 ≠ 0 := by rintro h; rw [h] at h0; norm_num at h0
  have g : Good x (f v0) := ⟨h.val, ok⟩
  exact ⟨hne, h.exact ok, fun k => (Node.ratio_tracks h n d k).exact (Node.ratio_good g hne hc k).ok,
    fun k => (yRec_tracks h.safe k).exact (yRec_safe_good g h0 k).ok⟩

theorem fDer_exact {F : ℕ → Node V} {φ : V → ℕ → ℂ} (h : Exact v0 z f) (h0 : f v0 ≠ 0) (hF : ∀ k, Exact v0 (F k) fun v => φ v k) :
    ∀ k, Exact v0 (Node.fDer z F k) fun v => derFn (f v) (φ v) k
  | 0 => (hF 1).neg
  | k + 1 => (hF k).sub (((Exact.const _).div h h0).mul (hF (k + 1)))

theorem ric_exact {b : Bess V} {B : BessFn} (h : Bess.ExactAt v0 b x f B) {kind : ℤ} (i : ℕ) :
    Exact v0 (Node.ric b kind x i).1 (fun v => (ricFn B kind (f v) i).1) ∧ Exact v0 (Node.ric b kind x i).2 (fun v => (ricFn B kind (f v) i).2) := by
  unfold Node.ric ricFn
  by_cases h1 : kind = 1
  · simp only [if_pos h1]
    exact ⟨h.arg.mul (h.j i), (h.j i).add (h.arg.mul (fDer_exact h.arg h.ne h.j i))⟩
  · by_cases h2 : kind = 2
    · simp only [if_neg h1, if_pos h2]
      exact ⟨h.arg.neg.mul (h.y i), (h.y i).neg.sub (h.arg.mul (fDer_exact h.arg h.ne h.y i))⟩
    · simp only [if_neg h1, if_neg h2]
      have hh : ∀ k, Exact v0 (Node.add (b.jn x k) (Node.mul (Node.const I) (b.yn x k))) fun v => B.j (f v) k + I * B.y (f v) k :=
        fun k => (h.j k).add ((Exact.const I).mul (h.y k))
      exact ⟨h.arg.mul (hh i), (hh i).add (h.arg.mul (fDer_exact (φ := fun v k => B.j (f v) k + I * B.y (f v) k) h.arg h.ne hh i))⟩

/-- The recorded harmonics of one order. -/
structure VshExact (v0 : V) (w : Vsh V) (f : V → VSH) : Prop where
  Mo : Exact3 v0 w.Mo fun v => (f v).Mo
  Me : Exact3 v0 w.Me fun v => (f v).Me
  No : Exact3 v0 w.No fun v => (f v).No
  Ne : Exact3 v0 w.Ne fun v => (f v).Ne

/-- The harmonics of order `i` from the radial functions `R`. -/
noncomputable def vshFn (R : ℂ → ℕ → ℂ × ℂ) (theta phi : ℝ) (rho : ℂ) (i : ℕ) : VSH :=
  vshOrder i theta phi rho (angPi i (Real.cos theta) : ℝ) (tauVal (Real.cos theta) i : ℝ) ((R rho i).1 / rho) ((R rho i).2 / rho)

theorem vshVal_run {S : BesselBackend} {R : ℂ → ℕ → ℂ × ℂ} {n i : ℕ} {kind : ℤ} (hi : i < n) {theta phi : ℝ} {rho : ℂ}
    (h : ricKind S n kind rho = .ok (tab n fun i => (R rho i).1, tab n fun i => (R rho i).2)) :
    vshVal S n i kind theta phi rho = vshFn R theta phi rho (i + 1) := by
  unfold vshVal vshFn
  rw [h, piTau_eq n (by omega)]
  simp only [okD]
  rw [tab_getD (by omega), tab_getD (by omega), tab_getD (by omega), tab_getD (by omega)]

theorem vshOf_exact {s : V3 (Node V)} {P : V → V3 ℝ} (hs : SphExact v0 s P) {rho zn dz : Node V} {fr fz fd : V → ℂ} (hr : Exact v0 rho fr)
    (h0 : fr v0 ≠ 0) (hz : Exact v0 zn fz) (hd : Exact v0 dz fd) (i : ℕ) :
    VshExact v0 (Node.vshOf i s.c1 s.c2 rho (piN (Node.cos s.c1) i) (tauN (Node.cos s.c1) i) zn dz) fun v =>
      vshOrder i (P v).c1 (P v).c2 (fr v) (angPi i (Real.cos (P v).c1) : ℝ) (tauVal (Real.cos (P v).c1) i : ℝ) (fz v) (fd v) := by
  have hmu : Exact v0 (Node.cos s.c1) fun v => ((Real.cos (P v).c1 : ℝ) : ℂ) := hs.theta.cos.congr (Eventually.of_forall fun v => by push_cast; rfl)
  have hst : Exact v0 (Node.sin s.c1) fun v => ((Real.sin (P v).c1 : ℝ) : ℂ) := hs.theta.sin.congr (Eventually.of_forall fun v => by push_cast; rfl)
  have hp := piN_exact hmu i
  have ht := tauN_exact hmu i
  have cp := hs.cosPhi
  have sp := hs.sinPhi
  have nn : Exact v0 (Node.const (i : ℂ)) fun _ => (i : ℂ) := Exact.const _
  have n1 : Exact v0 (Node.const ((i : ℂ) + 1)) fun _ => (i : ℂ) + 1 := Exact.const _
  have o : Exact v0 (Node.const 0) fun _ => (0 : ℂ) := Exact.const _
  have hzr := hz.div hr h0
  exact ⟨⟨o, (cp.mul hp).mul hz, ((sp.mul ht).mul hz).neg⟩, ⟨o, (sp.neg.mul hp).mul hz, ((cp.mul ht).mul hz).neg⟩,
    ⟨((((sp.mul nn).mul n1).mul hst).mul hp).mul hzr, (sp.mul ht).mul hd, (cp.mul hp).mul hd⟩,
    ⟨((((cp.mul nn).mul n1).mul hst).mul hp).mul hzr, (cp.mul ht).mul hd, ((sp.mul hp).mul hd).neg⟩⟩

/-- The argument of the radial functions in a medium of index `m`. -/
noncomputable def rhoFn (k0 m : V → ℂ) (P : V → V3 ℝ) (v : V) : ℂ := k0 v * m v * ((P v).c0 : ℂ) + ((1e-8 : ℝ) : ℂ)

theorem vshAt_exact {s : V3 (Node V)} {P : V → V3 ℝ} (hs : SphExact v0 s P) {k0 nm : Node V} {fk fm : V → ℂ} (hk : Tracks v0 k0 fk)
    (ok1 : k0.ok) (hm : Tracks v0 nm fm) (ok2 : nm.ok) {n d : ℕ} (h0 : 1e-8 < ‖rhoFn fk fm P v0‖) (hc : CfClear (rhoFn fk fm P v0) (n + d))
    (kind : ℤ) (i : ℕ) :
    VshExact v0 (Node.vshAt (Bess.ratioAt n d) k0 nm s.c0 s.c1 s.c2 kind i) fun v =>
      vshFn (ricFn (ratFn n d) kind) (P v).c1 (P v).c2 (rhoFn fk fm P v) i := by
  have tr := ((hk.mul hm).mul hs.tracks).add (Tracks.const ((1e-8 : ℝ) : ℂ))
  have hb := Bess.ratioAt_exact (f := rhoFn fk fm P) tr ⟨⟨⟨ok1, ok2⟩, hs.ok⟩, trivial⟩ (by norm_num at h0 ⊢; linarith) hc
  obtain ⟨r1, r2⟩ := ric_exact hb (kind := kind) i
  exact vshOf_exact hs hb.arg hb.ne (r1.div hb.arg hb.ne) (r2.div hb.arg hb.ne) i

/-! ## Fields -/

/-- The eight recorded coefficients of one order. -/
structure OutExact (v0 : V) (co : ShellOut V) (out : V → CoreShellOut) : Prop where
  a : Exact v0 co.a fun v => (out v).a
  b : Exact v0 co.b fun v => (out v).b
  c : Exact v0 co.c fun v => (out v).c
  d : Exact v0 co.d fun v => (out v).d
  f : Exact v0 co.f fun v => (out v).f
  g : Exact v0 co.g fun v => (out v).g
  v : Exact v0 co.v fun v => (out v).v
  w : Exact v0 co.w fun v => (out v).w

/-- The functions that a recorded medium follows. -/
structure MedFn (V : Type*) where
  k : V → ℂ
  k0 : V → ℂ
  nC : V → ℂ
  nS : V → ℂ
  nE : V → ℂ
  rC : V → ℝ
  rS : V → ℝ

/-- The recorded medium. -/
structure MedExact (v0 : V) (M : Medium V) (m : MedFn V) : Prop where
  k : Exact v0 M.k m.k
  k0 : Tracks v0 M.k0 m.k0
  nC : Tracks v0 M.nC m.nC
  nS : Tracks v0 M.nS m.nS
  nE : Tracks v0 M.nE m.nE
  ok0 : M.k0.ok
  okC : M.nC.ok
  okS : M.nS.ok
  okE : M.nE.ok
  rC : Exact v0 M.rC fun v => (m.rC v : ℂ)
  rS : Exact v0 M.rS fun v => (m.rS v : ℂ)

theorem Exact.real_cont {a : V → ℝ} (h : Exact v0 x fun v => (a v : ℂ)) : ContinuousAt a v0 := h.real_deriv.choose_spec.1.continuousAt

omit [InnerProductSpace ℝ V] in
theorem lt_near {a b : V → ℝ} (ha : ContinuousAt a v0) (hb : ContinuousAt b v0) (h : b v0 ≠ a v0) :
    ∀ᶠ v in 𝓝 v0, (a v < b v ↔ a v0 < b v0) ∧ (b v ≤ a v ↔ b v0 ≤ a v0) := by
  rcases lt_or_gt_of_ne h with h' | h'
  · filter_upwards [hb.eventually_lt ha h'] with v hv
    exact ⟨⟨fun q => absurd q (not_lt.2 hv.le), fun q => absurd q (not_lt.2 h'.le)⟩, ⟨fun _ => h'.le, fun _ => hv.le⟩⟩
  · filter_upwards [ha.eventually_lt hb h'] with v hv
    exact ⟨⟨fun _ => h', fun _ => hv⟩, ⟨fun q => absurd q (not_le.2 hv), fun q => absurd q (not_le.2 h')⟩⟩

/-- The field of one region, by the masks. -/
theorem sel_exact {f1 f2 f3 : V3 (Node V)} {F1 F2 F3 : V → V3 ℂ} {r : Node V} {fr : V → ℝ} {M : Medium V} {m : MedFn V} (hM : MedExact v0 M m)
    (hr : Exact v0 r fun v => (fr v : ℂ)) (h1 : fr v0 ≠ m.rC v0) (h2 : fr v0 ≠ m.rS v0) (e1 : Exact3 v0 f1 F1) (e2 : Exact3 v0 f2 F2)
    (e3 : Exact3 v0 f3 F3) :
    Exact3 v0 (Node.where3 (M.rS.val.re < r.val.re) f3 (Node.where3 (M.rC.val.re < r.val.re ∧ r.val.re ≤ M.rS.val.re) f2
        (Node.where3 (r.val.re ≤ M.rC.val.re) f1 ⟨Node.const 0, Node.const 0, Node.const 0⟩)))
      fun v => if m.rS v < fr v then F3 v else if m.rC v < fr v ∧ fr v ≤ m.rS v then F2 v else if fr v ≤ m.rC v then F1 v else V3.zero := by
  have v1 : r.val.re = fr v0 := by rw [hr.val]; exact ofReal_re _
  have v2 : M.rC.val.re = m.rC v0 := by rw [hM.rC.val]; exact ofReal_re _
  have v3 : M.rS.val.re = m.rS v0 := by rw [hM.rS.val]; exact ofReal_re _
  have z : Exact3 v0 ⟨Node.const 0, Node.const 0, Node.const 0⟩ fun _ => V3.zero := ⟨Exact.const 0, Exact.const 0, Exact.const 0⟩
  refine (e3.where3 (e2.where3 (e1.where3 z _) _) _).congr ?_
  filter_upwards [lt_near hM.rC.real_cont hr.real_cont h1, lt_near hM.rS.real_cont hr.real_cont h2] with v q1 q2
  simp only [v1, v2, v3, q1.1, q1.2, q2.1, q2.2]

theorem orderFields_exact {Bc Bs Bo : Bess V} {M : Medium V} {m : MedFn V} (hM : MedExact v0 M m) (E0 : ℂ) {co : ShellOut V} {out : V → CoreShellOut}
    (hco : OutExact v0 co out) {r theta phi : Node V} {fr : V → ℝ} (hr : Exact v0 r fun v => (fr v : ℂ)) (h1 : fr v0 ≠ m.rC v0)
    (h2 : fr v0 ≠ m.rS v0) {i : ℕ} {wc ws w2 wo : V → VSH} (ec : VshExact v0 (vshAt Bc M.k0 M.nC r theta phi 1 i) wc)
    (es : VshExact v0 (vshAt Bs M.k0 M.nS r theta phi 1 i) ws) (e2 : VshExact v0 (vshAt Bs M.k0 M.nS r theta phi 2 i) w2)
    (eo : VshExact v0 (vshAt Bo M.k0 M.nE r theta phi 3 i) wo) :
    Exact3 v0 (orderFields Bc Bs Bo M E0 co r theta phi i).1 (fun v =>
      (torchOrder (EnCoef E0 i) (out v) (m.nC v) (m.nS v) (m.nE v) (m.rC v) (m.rS v) (fr v) (wc v) (ws v) (w2 v) (wo v)).1) ∧
    Exact3 v0 (orderFields Bc Bs Bo M E0 co r theta phi i).2 (fun v =>
      (torchOrder (EnCoef E0 i) (out v) (m.nC v) (m.nS v) (m.nE v) (m.rC v) (m.rS v) (fr v) (wc v) (ws v) (w2 v) (wo v)).2) := by
  have En : Exact v0 (Node.const (EnCoef E0 i)) fun _ => EnCoef E0 i := Exact.const _
  have j : Exact v0 (Node.const I) fun _ => I := Exact.const _
  have nC := hM.nC.exact hM.okC
  have nS := hM.nS.exact hM.okS
  have nE := hM.nE.exact hM.okE
  have E1 := Exact3.scale En ((Exact3.scale hco.c ec.Mo).sub (Exact3.scale (j.mul hco.d) ec.Ne))
  have E2 := Exact3.scale En (((Exact3.scale hco.f es.Mo).sub (Exact3.scale (j.mul hco.g) es.Ne)).sub
    ((Exact3.scale hco.v e2.Mo).sub (Exact3.scale (j.mul hco.w) e2.Ne)))
  have E3 := Exact3.scale En ((Exact3.scale (j.mul hco.a) eo.Ne).sub (Exact3.scale hco.b eo.Mo))
  have H1 := Exact3.scale (nC.neg.mul En) ((Exact3.scale hco.d ec.Me).add (Exact3.scale (j.mul hco.c) ec.No))
  have H2 := Exact3.scale (nS.neg.mul En) (((Exact3.scale hco.g es.Me).add (Exact3.scale (j.mul hco.f) es.No)).sub
    ((Exact3.scale hco.w e2.Me).add (Exact3.scale (j.mul hco.v) e2.No)))
  have H3 := Exact3.scale (En.mul nE) ((Exact3.scale (j.mul hco.b) eo.No).add (Exact3.scale hco.a eo.Me))
  have sm : ∀ (c : ℂ) (w : V3 ℂ), V3.smul (-1) (V3.smul c w) = V3.smul (-c) w := fun c w => by simp [V3.smul]
  refine ⟨(sel_exact hM hr h1 h2 E1 E2 E3).congr (Eventually.of_forall fun v => ?_), (sel_exact hM hr h1 h2 H1 H2 H3).congr (Eventually.of_forall fun v => ?_)⟩
  · simp only [torchOrder, sm]
  · simp only [torchOrder]

theorem cart_exact {s : V3 (Node V)} {P : V → V3 ℝ} (hs : SphExact v0 s P) {E : V3 (Node V)} {F : V → V3 ℂ} (h : Exact3 v0 E F) :
    Exact3 v0 (Node.cart E s.c1 s.c2) fun v => fieldsSphToCart (F v) (P v).c1 (P v).c2 := by
  have ct : Exact v0 (Node.cos s.c1) fun v => ((Real.cos (P v).c1 : ℝ) : ℂ) := hs.theta.cos.congr (Eventually.of_forall fun v => by push_cast; rfl)
  have st : Exact v0 (Node.sin s.c1) fun v => ((Real.sin (P v).c1 : ℝ) : ℂ) := hs.theta.sin.congr (Eventually.of_forall fun v => by push_cast; rfl)
  have cp := hs.cosPhi
  have sp := hs.sinPhi
  exact ⟨((h.c0.mul (st.mul cp)).add (h.c1.mul (ct.mul cp))).add (h.c2.mul sp.neg),
    ((h.c0.mul (st.mul sp)).add (h.c1.mul (ct.mul sp))).add (h.c2.mul cp),
    ((h.c0.mul ct).add (h.c1.mul st.neg)).add (h.c2.mul (Exact.const 0))⟩

theorem sumOrders_exact {s : V3 (Node V)} {P : V → V3 ℝ} (hs : SphExact v0 s P) {n : ℕ} {E : ℕ → V3 (Node V)} {F : ℕ → V → V3 ℂ}
    (h : ∀ i < n, Exact3 v0 (E (i + 1)) (F i)) :
    Exact3 v0 (Node.sumOrders n s.c1 s.c2 E) fun v => sumCart (P v).c1 (P v).c2 ((List.range n).map fun i => F i v) := by
  have hc := fun i (hi : i ∈ List.range n) => cart_exact hs (h i (List.mem_range.1 hi))
  have e0 := Exact.sum_map (f := fun i v => (fieldsSphToCart (F i v) (P v).c1 (P v).c2).c0) (List.range n) fun i hi => (hc i hi).c0
  have e1 := Exact.sum_map (f := fun i v => (fieldsSphToCart (F i v) (P v).c1 (P v).c2).c1) (List.range n) fun i hi => (hc i hi).c1
  have e2 := Exact.sum_map (f := fun i v => (fieldsSphToCart (F i v) (P v).c1 (P v).c2).c2) (List.range n) fun i hi => (hc i hi).c2
  refine ⟨e0.congr (Eventually.of_forall fun v => ?_), e1.congr (Eventually.of_forall fun v => ?_), e2.congr (Eventually.of_forall fun v => ?_)⟩
  · simpa [V3.comp, Function.comp_def] using sumCart_comp (P v).c1 (P v).c2 ((List.range n).map fun i => F i v) 0
  · simpa [V3.comp, Function.comp_def] using sumCart_comp (P v).c1 (P v).c2 ((List.range n).map fun i => F i v) 1
  · simpa [V3.comp, Function.comp_def] using sumCart_comp (P v).c1 (P v).c2 ((List.range n).map fun i => F i v) 2

/-- The six recorded fields. -/
structure NearExact (v0 : V) (w : NearFields V) (A : V → Fields) : Prop where
  Ei : Exact3 v0 w.Ei fun v => (A v).Ei
  Hi : Exact3 v0 w.Hi fun v => (A v).Hi
  Es : Exact3 v0 w.Es fun v => (A v).Es
  Hs : Exact3 v0 w.Hs fun v => (A v).Hs
  Et : Exact3 v0 w.Et fun v => (A v).Et
  Ht : Exact3 v0 w.Ht fun v => (A v).Ht

/-- The fields in closed form, from spherical coordinates `p` and the radial functions in the three media. -/
noncomputable def nearFn (n : ℕ) (Rc Rs R2 Ro : ℂ → ℕ → ℂ × ℂ) (k0 k nC nS nE : ℂ) (rC rS : ℝ) (E0 : ℂ) (out : ℕ → CoreShellOut) (p : V3 ℝ) : Fields :=
  let rho (m : ℂ) : ℂ := k0 * m * (p.c0 : ℂ) + ((1e-8 : ℝ) : ℂ)
  let eh (i : ℕ) := torchOrder (EnCoef E0 (i + 1)) (out i) nC nS nE rC rS p.c0 (vshFn Rc p.c1 p.c2 (rho nC) (i + 1))
    (vshFn Rs p.c1 p.c2 (rho nS) (i + 1)) (vshFn R2 p.c1 p.c2 (rho nS) (i + 1)) (vshFn Ro p.c1 p.c2 (rho nE) (i + 1))
  let Es := sumCart p.c1 p.c2 ((List.range n).map fun i => (eh i).1)
  let Hs := sumCart p.c1 p.c2 ((List.range n).map fun i => (eh i).2)
  let Ei := incidentE E0 k p.c0 p.c1
  let Hi := incidentH E0 k nE p.c0 p.c1
  { Ei := Ei, Hi := Hi, Es := Es, Hs := Hs
    Et := if rS < p.c0 then Es.add Ei else Es
    Ht := if rS < p.c0 then Hs.add Hi else Hs }

theorem nearOf_exact [CompleteSpace V] {n dc ds de : ℕ} {M : Medium V} {m : MedFn V} (hM : MedExact v0 M m) (E0 : ℂ) {co : ℕ → ShellOut V}
    {out : ℕ → V → CoreShellOut} (hco : ∀ i < n, OutExact v0 (co (i + 1)) (out i)) {P : V → V3 ℝ}
    (hs : SphExact v0 (Node.sph eps10Double x y z) P) (h1 : (P v0).c0 ≠ m.rC v0) (h2 : (P v0).c0 ≠ m.rS v0)
    (hc : 1e-8 < ‖rhoFn m.k0 m.nC P v0‖ ∧ CfClear (rhoFn m.k0 m.nC P v0) (n + dc))
    (hh : 1e-8 < ‖rhoFn m.k0 m.nS P v0‖ ∧ CfClear (rhoFn m.k0 m.nS P v0) (n + ds))
    (he : 1e-8 < ‖rhoFn m.k0 m.nE P v0‖ ∧ CfClear (rhoFn m.k0 m.nE P v0) (n + de)) :
    NearExact v0 (Node.nearOf n (Bess.ratioAt n dc) (Bess.ratioAt n ds) (Bess.ratioAt n de) M E0 co x y z) fun v =>
      nearFn n (ricFn (ratFn n dc) 1) (ricFn (ratFn n ds) 1) (ricFn (ratFn n ds) 2) (ricFn (ratFn n de) 3) (m.k0 v) (m.k v) (m.nC v) (m.nS v)
        (m.nE v) (m.rC v) (m.rS v) E0 (fun i => out i v) (P v) := by
  have f := fun i (hi : i < n) => orderFields_exact hM E0 (hco i hi) hs.r h1 h2 (i := i + 1)
    (vshAt_exact hs hM.k0 hM.ok0 hM.nC hM.okC hc.1 hc.2 1 (i + 1)) (vshAt_exact hs hM.k0 hM.ok0 hM.nS hM.okS hh.1 hh.2 1 (i + 1))
    (vshAt_exact hs hM.k0 hM.ok0 hM.nS hM.okS hh.1 hh.2 2 (i + 1)) (vshAt_exact hs hM.k0 hM.ok0 hM.nE hM.okE he.1 he.2 3 (i + 1))
  have Es := sumOrders_exact (E := fun i => (orderFields (Bess.ratioAt n dc) (Bess.ratioAt n ds) (Bess.ratioAt n de) M E0 (co i)
    (Node.sph eps10Double x y z).c0 (Node.sph eps10Double x y z).c1 (Node.sph eps10Double x y z).c2 i).1) hs fun i hi => (f i hi).1
  have Hs := sumOrders_exact (E := fun i => (orderFields (Bess.ratioAt n dc) (Bess.ratioAt n ds) (Bess.ratioAt n de) M E0 (co i)
    (Node.sph eps10Double x y z).c0 (Node.sph eps10Double x y z).c1 (Node.sph eps10Double x y z).c2 i).2) hs fun i hi => (f i hi).2
  have ct : Exact v0 (Node.cos (Node.sph eps10Double x y z).c1) fun v => ((Real.cos (P v).c1 : ℝ) : ℂ) :=
    hs.theta.cos.congr (Eventually.of_forall fun v => by push_cast; rfl)
  have wave := (((Exact.const I).mul hM.k |>.mul hs.r).mul ct).exp
  have Ei : Exact3 v0 ⟨Node.mul (Node.const E0) _, Node.const 0, Node.const 0⟩ fun v => incidentE E0 (m.k v) (P v).c0 (P v).c1 :=
    ⟨(Exact.const E0).mul wave, Exact.const 0, Exact.const 0⟩
  have Hi : Exact3 v0 ⟨Node.const 0, Node.mul (Node.mul (Node.const E0) M.nE) _, Node.const 0⟩ fun v =>
      incidentH E0 (m.k v) (m.nE v) (P v).c0 (P v).c1 := ⟨Exact.const 0, ((Exact.const E0).mul (hM.nE.exact hM.okE)).mul wave, Exact.const 0⟩
  have v1 : (Node.sph eps10Double x y z).c0.val.re = (P v0).c0 := by rw [hs.r.val]; exact ofReal_re _
  have v3 : M.rS.val.re = m.rS v0 := by rw [hM.rS.val]; exact ofReal_re _
  have hlt := lt_near hM.rS.real_cont hs.r.real_cont h2
  refine ⟨Ei, Hi, Es, Hs, ((Es.add Ei).where3 Es _).congr ?_, ((Hs.add Hi).where3 Hs _).congr ?_⟩
  · filter_upwards [hlt] with v hv
    simp only [nearFn, v1, v3, hv.1]
    rfl
  · filter_upwards [hlt] with v hv
    simp only [nearFn, v1, v3, hv.1]
    rfl

/-! ## The run -/

theorem torchFns_runs (n : ℕ) (zm : ℝ) {z : ℂ} (h : 1e-8 ≤ ‖z‖) : RunsAt (torchFns zm) n (ratFn n (batchDepth zm)) z := by
  refine ⟨?_, sphYnTorch_run n z⟩
  change sphJnTorchNd n z zm = _
  unfold sphJnTorchNd
  rw [if_neg (by rintro ⟨-, h'⟩; linarith)]
  unfold sphJnTorch
  rw [if_neg (by omega), if_neg (by linarith)]
  simp only [resolveNAddRatio, Bind.bind, Except.bind]
  rw [if_pos trivial]
  have := sphJnTorchDepth_run n z (batchDepth zm) h
  refine Eq.trans ?_ this
  simp only
  congr 1
  unfold batchDepth
  omega

theorem near_run {co : List CoreShellOut} {zc zs zo : ℝ} (hn : 1 ≤ co.length) (k0 k nC nS nE : ℂ) (rC rS : ℝ) (E0 : ℂ) (p : V3 ℝ)
    (h : ∀ m ∈ [nC, nS, nE], 1e-8 ≤ ‖k0 * m * ((xyzToSph eps10Double p.c0 p.c1 p.c2).c0 : ℂ) + ((1e-8 : ℝ) : ℂ)‖) :
    nearfieldsTorch (torchFns zc) (torchFns zs) (torchFns zs) (torchFns zo) k0 k nC nS nE rC rS E0 co p =
      .ok (nearFn co.length (ricFn (ratFn co.length (batchDepth zc)) 1) (ricFn (ratFn co.length (batchDepth zs)) 1)
        (ricFn (ratFn co.length (batchDepth zs)) 2) (ricFn (ratFn co.length (batchDepth zo)) 3) k0 k nC nS nE rC rS E0
        (fun i => co.getD i noOrder) (xyzToSph eps10Double p.c0 p.c1 p.c2)) := by
  obtain ⟨n, hl⟩ : ∃ n, co.length = n + 1 := ⟨co.length - 1, by omega⟩
  have run : ∀ m ∈ [nC, nS, nE], ∀ zm : ℝ, ∀ kind : ℤ, kind = 1 ∨ kind = 2 ∨ kind = 3 →
      ∀ z, z = k0 * m * ((xyzToSph eps10Double p.c0 p.c1 p.c2).c0 : ℂ) + ((1e-8 : ℝ) : ℂ) → ricKind (torchFns zm) co.length kind z =
        .ok (tab co.length fun i => (ricFn (ratFn co.length (batchDepth zm)) kind z i).1,
          tab co.length fun i => (ricFn (ratFn co.length (batchDepth zm)) kind z i).2) := by
    rintro m hm zm kind hk z rfl
    rw [hl]
    exact ricKind_run hk (torchFns_runs (n + 1) zm (h m hm))
  have rc := run nC (by simp) zc 1 (.inl rfl) _ rfl
  have rs := run nS (by simp) zs 1 (.inl rfl) _ rfl
  have r2 := run nS (by simp) zs 2 (.inr (.inl rfl)) _ rfl
  have ro := run nE (by simp) zo 3 (.inr (.inr rfl)) _ rfl
  have key := nearfieldsTorch_eq hn k0 k nC nS nE rC rS E0 p 1e-8 ⟨_, rc⟩ ⟨_, rs⟩ ⟨_, r2⟩ ⟨_, ro⟩
  generalize xyzToSph eps10Double p.c0 p.c1 p.c2 = q at *
  rw [key]
  have eh : ∀ {α : Type} (g : V3 ℂ × V3 ℂ → α), (List.range co.length).map (fun i => g (torchOrder (EnCoef E0 (i + 1))
      (co.getD i ⟨0, 0, 0, 0, 0, 0, 0, 0⟩) nC nS nE rC rS q.c0
      (vshVal (torchFns zc) co.length i 1 q.c1 q.c2 (k0 * nC * (q.c0 : ℂ) + ((1e-8 : ℝ) : ℂ)))
      (vshVal (torchFns zs) co.length i 1 q.c1 q.c2 (k0 * nS * (q.c0 : ℂ) + ((1e-8 : ℝ) : ℂ)))
      (vshVal (torchFns zs) co.length i 2 q.c1 q.c2 (k0 * nS * (q.c0 : ℂ) + ((1e-8 : ℝ) : ℂ)))
      (vshVal (torchFns zo) co.length i 3 q.c1 q.c2 (k0 * nE * (q.c0 : ℂ) + ((1e-8 : ℝ) : ℂ))))) =
      (List.range co.length).map (fun i => g (torchOrder (EnCoef E0 (i + 1)) (co.getD i noOrder) nC nS nE rC rS q.c0
      (vshFn (ricFn (ratFn co.length (batchDepth zc)) 1) q.c1 q.c2 (k0 * nC * (q.c0 : ℂ) + ((1e-8 : ℝ) : ℂ)) (i + 1))
      (vshFn (ricFn (ratFn co.length (batchDepth zs)) 1) q.c1 q.c2 (k0 * nS * (q.c0 : ℂ) + ((1e-8 : ℝ) : ℂ)) (i + 1))
      (vshFn (ricFn (ratFn co.length (batchDepth zs)) 2) q.c1 q.c2 (k0 * nS * (q.c0 : ℂ) + ((1e-8 : ℝ) : ℂ)) (i + 1))
      (vshFn (ricFn (ratFn co.length (batchDepth zo)) 3) q.c1 q.c2 (k0 * nE * (q.c0 : ℂ) + ((1e-8 : ℝ) : ℂ)) (i + 1)))) := by
    intro α g
    refine List.map_congr_left fun i hi => ?_
    have hi := List.mem_range.1 hi
    rw [vshVal_run hi rc, vshVal_run hi rs, vshVal_run hi r2, vshVal_run hi ro]
    rfl
  have e1 := eh Prod.fst
  have e2 := eh Prod.snd
  simp only [nearFn, e1, e2]

end Node

end MieDiff
