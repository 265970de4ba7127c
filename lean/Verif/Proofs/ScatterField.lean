import Verif.Proofs.SeriesField
import Verif.Props.PlaneWave
import Verif.Props.FarField

/-!
# The infinite multipole series of a layered sphere

Maxwell's equations, continuity at the interfaces, plane wave in the host, bounded at the centre, radiation condition.
-/

namespace MieDiff

open Complex Spec Filter Topology

/-- Electric field of all orders at the argument `z`. -/
noncomputable def serE (E0 : ℂ) (W : ℕ → Pol → Wave) (z : ℂ) (t p : ℝ) : SVec :=
  serAt (Real.cos p : ℝ) (-(Real.sin p : ℝ)) (fun n => -(I * EnCoef E0 n)) (fun n => EnCoef E0 n) (fun n => W n .tm)
    (fun n => W n .te) z t

/-- Magnetic field of all orders at the argument `z` in a medium of index `m`. -/
noncomputable def serH (E0 m : ℂ) (W : ℕ → Pol → Wave) (z : ℂ) (t p : ℝ) : SVec :=
  serAt (Real.sin p : ℝ) (Real.cos p : ℝ) (fun n => -(I * m * EnCoef E0 n)) (fun n => m * EnCoef E0 n) (fun n => W n .te)
    (fun n => W n .tm) z t

theorem EnCoef_zero (E0 : ℂ) : EnCoef E0 0 = 0 := by simp [EnCoef]

theorem norm_EnCoef_le (E0 : ℂ) (n : ℕ) : ‖EnCoef E0 n‖ ≤ 2 * ‖E0‖ := by
  cases n with
  | zero => rw [EnCoef_zero, norm_zero]; positivity
  | succ n =>
    unfold EnCoef
    have e : (2 * ((n + 1 : ℕ) : ℂ) + 1) / (((n + 1 : ℕ) : ℂ) * (((n + 1 : ℕ) : ℂ) + 1)) =
        (((2 * (n + 1) + 1) / ((n + 1) * (n + 1 + 1)) : ℝ) : ℂ) := by push_cast; ring
    have h0 : (0 : ℝ) ≤ (2 * (n + 1) + 1) / ((n + 1) * (n + 1 + 1)) := by positivity
    rw [mul_div_assoc, e, norm_mul, norm_mul, norm_pow, norm_I, one_pow, one_mul, norm_real, Real.norm_of_nonneg h0, mul_comm]
    refine mul_le_mul_of_nonneg_right ?_ (norm_nonneg _)
    rw [div_le_iff₀ (by positivity)]
    have : (0 : ℝ) ≤ n := Nat.cast_nonneg n
    nlinarith

theorem gb_En (c E0 : ℂ) : GB fun n => ‖c * EnCoef E0 n‖ :=
  (GB.const (‖c‖ * (2 * ‖E0‖))).mono (Eventually.of_forall fun n => by
    rw [abs_norm, norm_mul]
    refine (mul_le_mul_of_nonneg_left (norm_EnCoef_le E0 n) (norm_nonneg c)).trans (le_abs_self _))

theorem gb_En1 (E0 : ℂ) : GB fun n => ‖EnCoef E0 n‖ := by simpa using gb_En 1 E0

theorem gb_EnI (E0 : ℂ) : GB fun n => ‖-(I * EnCoef E0 n)‖ := by simpa using gb_En I E0

theorem gb_EnIm (E0 m : ℂ) : GB fun n => ‖-(I * m * EnCoef E0 n)‖ := by
  have := gb_En (I * m) E0
  simpa only [norm_neg] using this

/-- Waves of all orders with convergent series. -/
def DecW (W : ℕ → Pol → Wave) : Prop := ∀ q, Dec fun n => W n q

section
variable {x y x' y' : ℕ → ℂ} {α β α' β' : ℕ → Wave}

theorem serAt_scale {c c' s : ℂ} (z : ℂ) (t : ℝ) : serAt c c' (fun n => s * x n) (fun n => s * y n) α β z t =
    (serAt c c' x y α β z t).smul s := by
  have e1 : ∑' n, serR (fun n => s * x n) α n t z = s * ∑' n, serR x α n t z := by
    rw [← tsum_mul_left]; exact tsum_congr fun n => by simp only [serR]; ring
  have e2 : ∑' n, serT (fun n => s * x n) (fun n => s * y n) α β n t z = s * ∑' n, serT x y α β n t z := by
    rw [← tsum_mul_left]; exact tsum_congr fun n => by simp only [serT]; ring
  have e3 : ∑' n, serP (fun n => s * x n) (fun n => s * y n) α β n t z = s * ∑' n, serP x y α β n t z := by
    rw [← tsum_mul_left]; exact tsum_congr fun n => by simp only [serP]; ring
  simp only [serAt, SVec.smul, e1, e2, e3, SVec.mk.injEq]
  refine ⟨?_, ?_, ?_⟩ <;> ring

theorem serAt_neg {c c' : ℂ} (z : ℂ) (t : ℝ) : serAt (-c) (-c') x y α β z t = (serAt c c' x y α β z t).smul (-1) := by
  simp only [serAt, SVec.smul, SVec.mk.injEq]
  refine ⟨?_, ?_, ?_⟩ <;> ring

end

theorem ofReal_cos_deriv (p : ℝ) : HasDerivAt (fun s : ℝ => ((Real.cos s : ℝ) : ℂ)) (-((Real.sin p : ℝ) : ℂ)) p := by
  have := (Real.hasDerivAt_cos p).ofReal_comp
  simpa using this

theorem ofReal_sin_deriv (p : ℝ) : HasDerivAt (fun s : ℝ => ((Real.sin s : ℝ) : ℂ)) ((Real.cos p : ℝ) : ℂ) p :=
  (Real.hasDerivAt_sin p).ofReal_comp

/-- The series satisfies Maxwell's equations off the axis. -/
theorem ser_maxwell (E0 : ℂ) {W : ℕ → Pol → Wave} (hW : DecW W) {k0 m : ℂ} (hk : k0 * m ≠ 0) {r t p : ℝ} (hr : 0 < r)
    (ht : Real.sin t ≠ 0) :
    MaxwellAt k0 m (fun r t p => serE E0 W (k0 * m * r) t p) (fun r t p => serH E0 m W (k0 * m * r) t p) r t p := by
  constructor
  · refine HasCurlAt.congr (serAt_curl ofReal_cos_deriv (gb_EnI E0) (gb_En1 E0) (hW .tm) (hW .te) hk hr ht) ?_
    unfold serH
    have e : serAt (Real.sin p : ℝ) (Real.cos p : ℝ) (fun n => -(I * m * EnCoef E0 n)) (fun n => m * EnCoef E0 n)
        (fun n => W n .te) (fun n => W n .tm) (k0 * m * r) t = (serAt (Real.sin p : ℝ) (Real.cos p : ℝ)
        (fun n => -EnCoef E0 n) (fun n => -(I * EnCoef E0 n)) (fun n => W n .te) (fun n => W n .tm) (k0 * m * r) t).smul (I * m) := by
      rw [← serAt_scale]
      congr 1 <;> funext n
      · ring
      · linear_combination (m * EnCoef E0 n) * I_mul_I
    rw [e]
    rw [serAt_neg]
    simp only [SVec.smul, SVec.mk.injEq]
    refine ⟨?_, ?_, ?_⟩
    all_goals
      generalize SVec.r _ = u
      first | linear_combination (-k0 * m * u) * I_mul_I | skip
    all_goals
      generalize SVec.t _ = u
      first | linear_combination (-k0 * m * u) * I_mul_I | skip
    all_goals
      generalize SVec.p _ = u
      linear_combination (-k0 * m * u) * I_mul_I
  · refine HasCurlAt.congr (serAt_curl ofReal_sin_deriv (gb_EnIm E0 m) (gb_En m E0) (hW .te) (hW .tm) hk hr ht) ?_
    unfold serE
    have e : serAt (Real.cos p : ℝ) (-(Real.sin p : ℝ)) (fun n => -(m * EnCoef E0 n)) (fun n => -(I * m * EnCoef E0 n))
        (fun n => W n .tm) (fun n => W n .te) (k0 * m * r) t = (serAt (Real.cos p : ℝ) (-(Real.sin p : ℝ))
        (fun n => -(I * EnCoef E0 n)) (fun n => EnCoef E0 n) (fun n => W n .tm) (fun n => W n .te) (k0 * m * r) t).smul (-(I * m)) := by
      rw [← serAt_scale]
      congr 1 <;> funext n
      · linear_combination (-m * EnCoef E0 n) * I_mul_I
      · ring
    rw [e]
    simp only [SVec.smul, SVec.mk.injEq]
    refine ⟨?_, ?_, ?_⟩ <;> ring

/-! ## Continuity -/

/-- Tangential components agree at an interface.  `x` is the size parameter, `m`, `m'` are the indices relative to the host. -/
theorem ser_tang (E0 ne : ℂ) {W W' : ℕ → Pol → Wave} {m m' x : ℂ} (hm : m ≠ 0) (hm' : m' ≠ 0) (hx : x ≠ 0)
    (h : ∀ n q, Cont q (n + 1) m m' x (W (n + 1) q) (W' (n + 1) q)) (t p : ℝ) :
    (serE E0 W (m * x) t p).tang = (serE E0 W' (m' * x) t p).tang ∧
    (serH E0 (m * ne) W (m * x) t p).tang = (serH E0 (m' * ne) W' (m' * x) t p).tang ∧
    m ^ 2 * (serE E0 W (m * x) t p).r = m' ^ 2 * (serE E0 W' (m' * x) t p).r ∧
    (serH E0 (m * ne) W (m * x) t p).r = (serH E0 (m' * ne) W' (m' * x) t p).r := by
  have tmv : ∀ n, (W (n + 1) .tm).val (n + 1) (m * x) = (W' (n + 1) .tm).val (n + 1) (m' * x) := fun n => (h n .tm).1
  have tmd : ∀ n, (W (n + 1) .tm).der (n + 1) (m * x) = (W' (n + 1) .tm).der (n + 1) (m' * x) * m / m' := fun n => by
    rw [eq_div_iff hm']; exact (h n .tm).2
  have tev : ∀ n, (W (n + 1) .te).val (n + 1) (m * x) = (W' (n + 1) .te).val (n + 1) (m' * x) * m / m' := fun n => by
    rw [eq_div_iff hm']; exact (h n .te).1
  have ted : ∀ n, (W (n + 1) .te).der (n + 1) (m * x) = (W' (n + 1) .te).der (n + 1) (m' * x) := fun n => (h n .te).2
  have key : ∀ {f g : ℕ → ℂ} {s u : ℂ}, (∀ n, s * f n = u * g n) → s * ∑' n, f n = u * ∑' n, g n := by
    intro f g s u h
    rw [← tsum_mul_left, ← tsum_mul_left]; exact tsum_congr h
  have div : ∀ {c a b u v : ℂ}, u ≠ 0 → v ≠ 0 → 1 / u * a = 1 / v * b → c * a / u = c * b / v := by
    intro c a b u v hu hv h
    rw [mul_div_assoc, mul_div_assoc, show a / u = 1 / u * a by ring, h]
    ring
  have hmx := mul_ne_zero hm hx
  have hmx' := mul_ne_zero hm' hx
  refine ⟨?_, ?_, ?_, ?_⟩
  · simp only [serE, serAt, SVec.tang, Prod.mk.injEq]
    refine ⟨div hmx hmx' (key fun n => ?_), div hmx hmx' (key fun n => ?_)⟩ <;> cases n with
    | zero => simp [serT, serP, EnCoef_zero]
    | succ n =>
      simp only [serT, serP, tmd, tev]
      field_simp
  · simp only [serH, serAt, SVec.tang, Prod.mk.injEq]
    refine ⟨div hmx hmx' (key fun n => ?_), div hmx hmx' (key fun n => ?_)⟩ <;> cases n with
    | zero => simp [serT, serP, EnCoef_zero]
    | succ n =>
      simp only [serT, serP, ted, tmv]
      field_simp
  · simp only [serE, serAt]
    have e : ∑' n, serR (fun n => -(I * EnCoef E0 n)) (fun n => W n .tm) n t (m * x) =
        ∑' n, serR (fun n => -(I * EnCoef E0 n)) (fun n => W' n .tm) n t (m' * x) := by
      refine tsum_congr fun n => ?_
      cases n with
      | zero => simp [serR]
      | succ n => simp only [serR, tmv]
    rw [e]
    field_simp
  · simp only [serH, serAt]
    refine div (pow_ne_zero 2 hmx) (pow_ne_zero 2 hmx') (key fun n => ?_)
    cases n with
    | zero => simp [serR]
    | succ n =>
      simp only [serR, tev]
      field_simp


/-! ## Partial sums -/

theorem tendsto_from_one {f : ℕ → ℂ} (hf : Summable f) (h0 : f 0 = 0) :
    Tendsto (fun N => ∑ i ∈ Finset.range N, f (i + 1)) atTop (𝓝 (∑' n, f n)) := by
  have h := (tendsto_add_atTop_iff_nat 1).2 hf.hasSum.tendsto_sum_nat
  refine h.congr fun N => ?_
  rw [Finset.sum_range_succ', h0, add_zero]

theorem serE_summable (E0 : ℂ) {W : ℕ → Pol → Wave} (hW : DecW W) {z : ℂ} (hz : z ≠ 0) (t : ℝ) :
    (Summable fun n => serR (fun n => -(I * EnCoef E0 n)) (fun n => W n .tm) n t z) ∧
    (Summable fun n => serT (fun n => -(I * EnCoef E0 n)) (fun n => EnCoef E0 n) (fun n => W n .tm) (fun n => W n .te) n t z) ∧
    Summable fun n => serP (fun n => -(I * EnCoef E0 n)) (fun n => EnCoef E0 n) (fun n => W n .tm) (fun n => W n .te) n t z :=
  ⟨(good_serR (gb_EnI E0) (hW .tm)).summable t hz, (good_serT (gb_EnI E0) (gb_En1 E0) (hW .tm) (hW .te)).summable t hz,
    (good_serP (gb_EnI E0) (gb_En1 E0) (hW .tm) (hW .te)).summable t hz⟩

theorem serH_summable (E0 m : ℂ) {W : ℕ → Pol → Wave} (hW : DecW W) {z : ℂ} (hz : z ≠ 0) (t : ℝ) :
    (Summable fun n => serR (fun n => -(I * m * EnCoef E0 n)) (fun n => W n .te) n t z) ∧
    (Summable fun n => serT (fun n => -(I * m * EnCoef E0 n)) (fun n => m * EnCoef E0 n) (fun n => W n .te) (fun n => W n .tm) n t z) ∧
    Summable fun n => serP (fun n => -(I * m * EnCoef E0 n)) (fun n => m * EnCoef E0 n) (fun n => W n .te) (fun n => W n .tm) n t z :=
  ⟨(good_serR (gb_EnIm E0 m) (hW .te)).summable t hz, (good_serT (gb_EnIm E0 m) (gb_En m E0) (hW .te) (hW .tm)).summable t hz,
    (good_serP (gb_EnIm E0 m) (gb_En m E0) (hW .te) (hW .tm)).summable t hz⟩

/-! ## The host -/

/-- The waves of the incident plane wave. -/
def planeW : ℕ → Pol → Wave := fun _ _ => ⟨1, 0⟩

/-- The outgoing part of waves. -/
def outW (W : ℕ → Pol → Wave) : ℕ → Pol → Wave := fun n q => ⟨0, (W n q).a⟩

theorem planeW_dec : DecW planeW := fun _ =>
  dec_host (x := 1) one_ne_zero (C := 0) (Eventually.of_forall fun _ => rfl) (Eventually.of_forall fun _ => by simp [planeW])

theorem outW_dec {W : ℕ → Pol → Wave} (hW : DecW W) : DecW (outW W) := fun q =>
  ⟨fun r _ => by simpa [outW] using Asymptotics.isBigO_zero _ _, (hW q).2⟩

/-- The series with the waves of the plane wave is the plane wave. -/
theorem ser_plane (E0 k0 m : ℂ) {r : ℝ} (hz : k0 * m * r ≠ 0) (t p : ℝ) :
    serE E0 planeW (k0 * m * r) t p = planeE E0 (k0 * m) r t p ∧ serH E0 m planeW (k0 * m * r) t p = planeH E0 (k0 * m) m r t p := by
  obtain ⟨⟨a1, a2, a3⟩, b1, b2, b3⟩ := C61_tendsto (E0 := E0) hz t p
  have hm : m ≠ 0 := fun h => hz (by rw [h]; ring)
  obtain ⟨s1, s2, s3⟩ := serE_summable E0 planeW_dec hz t
  obtain ⟨u1, u2, u3⟩ := serH_summable E0 m planeW_dec hz t
  have fin : ∀ {f : ℕ → ℂ} {c u A : ℂ} {S : ℕ → ℂ}, Summable f → f 0 = 0 → Tendsto S atTop (𝓝 A) →
      (∀ N, S N = c * (∑ i ∈ Finset.range N, f (i + 1)) / u) → c * (∑' n, f n) / u = A := by
    intro f c u A S hf h0 hS he
    refine tendsto_nhds_unique (((tendsto_from_one hf h0).const_mul c).div_const u) (hS.congr he)
  constructor
  · ext
    · refine fin s1 (by simp [serR]) a1 fun N => ?_
      simp only [sumOrders, Finset.mul_sum, Finset.sum_div]
      refine Finset.sum_congr rfl fun i _ => ?_
      simp only [incidentMultipole, eFld, SVec.smul, SVec.add, mFld, nFld, Parity.fn, Parity.fn', serR, planeW, Wave.val]
      push_cast
      field_simp
      ring
    · refine fin s2 (by simp [serT, EnCoef_zero]) a2 fun N => ?_
      simp only [sumOrders, Finset.mul_sum, Finset.sum_div]
      refine Finset.sum_congr rfl fun i _ => ?_
      simp only [incidentMultipole, eFld, SVec.smul, SVec.add, mFld, nFld, Parity.fn, Parity.fn', serT, planeW, Wave.val, Wave.der]
      push_cast
      field_simp
      ring
    · refine fin s3 (by simp [serP, EnCoef_zero]) a3 fun N => ?_
      simp only [sumOrders, Finset.mul_sum, Finset.sum_div]
      refine Finset.sum_congr rfl fun i _ => ?_
      simp only [incidentMultipole, eFld, SVec.smul, SVec.add, mFld, nFld, Parity.fn, Parity.fn', serP, planeW, Wave.val, Wave.der]
      push_cast
      field_simp
      ring
  · ext
    · refine fin u1 (by simp [serR]) b1 fun N => ?_
      simp only [sumOrders, Finset.mul_sum, Finset.sum_div]
      refine Finset.sum_congr rfl fun i _ => ?_
      simp only [incidentMultipole, hFld, SVec.smul, SVec.add, mFld, nFld, Parity.fn, Parity.fn', serR, planeW, Wave.val]
      push_cast
      field_simp
      ring
    · refine fin u2 (by simp [serT, EnCoef_zero]) b2 fun N => ?_
      simp only [sumOrders, Finset.mul_sum, Finset.sum_div]
      refine Finset.sum_congr rfl fun i _ => ?_
      simp only [incidentMultipole, hFld, SVec.smul, SVec.add, mFld, nFld, Parity.fn, Parity.fn', serT, planeW, Wave.val, Wave.der]
      push_cast
      field_simp
      ring
    · refine fin u3 (by simp [serP, EnCoef_zero]) b3 fun N => ?_
      simp only [sumOrders, Finset.mul_sum, Finset.sum_div]
      refine Finset.sum_congr rfl fun i _ => ?_
      simp only [incidentMultipole, hFld, SVec.smul, SVec.add, mFld, nFld, Parity.fn, Parity.fn', serP, planeW, Wave.val, Wave.der]
      push_cast
      field_simp
      ring

/-- Waves that consist of the plane wave and an outgoing part. -/
theorem ser_split (E0 m : ℂ) {W : ℕ → Pol → Wave} (hW : DecW W) (h1 : ∀ n q, (W (n + 1) q).d = 1) {z : ℂ} (hz : z ≠ 0) (t p : ℝ) :
    serE E0 W z t p = (serE E0 planeW z t p).add (serE E0 (outW W) z t p) ∧
    serH E0 m W z t p = (serH E0 m planeW z t p).add (serH E0 m (outW W) z t p) := by
  have key : ∀ {f g h : ℕ → ℂ} {c u : ℂ}, Summable g → Summable h → (∀ n, f n = g n + h n) →
      c * (∑' n, f n) / u = c * (∑' n, g n) / u + c * (∑' n, h n) / u := by
    intro f g h c u hg hh e
    rw [tsum_congr e, hg.tsum_add hh]; ring
  have v : ∀ n q, (W (n + 1) q).val (n + 1) z = (planeW (n + 1) q).val (n + 1) z + (outW W (n + 1) q).val (n + 1) z := fun n q => by
    simp only [Wave.val, planeW, outW, h1]; ring
  have d : ∀ n q, (W (n + 1) q).der (n + 1) z = (planeW (n + 1) q).der (n + 1) z + (outW W (n + 1) q).der (n + 1) z := fun n q => by
    simp only [Wave.der, planeW, outW, h1]; ring
  obtain ⟨s1, s2, s3⟩ := serE_summable E0 planeW_dec hz t
  obtain ⟨u1, u2, u3⟩ := serH_summable E0 m planeW_dec hz t
  obtain ⟨s1', s2', s3'⟩ := serE_summable E0 (outW_dec hW) hz t
  obtain ⟨u1', u2', u3'⟩ := serH_summable E0 m (outW_dec hW) hz t
  constructor
  · simp only [serE, serAt, SVec.add, SVec.mk.injEq]
    refine ⟨key s1 s1' fun n => ?_, key s2 s2' fun n => ?_, key s3 s3' fun n => ?_⟩ <;> cases n with
    | zero => simp [serR, serT, serP, EnCoef_zero]
    | succ n => simp only [serR, serT, serP, v, d]; ring
  · simp only [serH, serAt, SVec.add, SVec.mk.injEq]
    refine ⟨key u1 u1' fun n => ?_, key u2 u2' fun n => ?_, key u3 u3' fun n => ?_⟩ <;> cases n with
    | zero => simp [serR, serT, serP, EnCoef_zero]
    | succ n => simp only [serR, serT, serP, v, d]; ring


/-! ## Bounded at the centre -/

theorem regular_bound (w : Wave) (ha : w.a = 0) (k : ℕ) {z : ℂ} (hz : z ≠ 0) (h1 : ‖z‖ ≤ 1) :
    ‖w.val (k + 1) z‖ ≤ ‖z‖ ^ 2 * (‖w.d‖ / dfac (k + 1) * (6 * ((k + 1 : ℕ) : ℝ) + 2)) ∧
    ‖w.der (k + 1) z‖ ≤ ‖z‖ * (‖w.d‖ / dfac (k + 1) * (6 * ((k + 1 : ℕ) : ℝ) + 2)) := by
  have hp : 0 < ‖z‖ := norm_pos_iff.2 hz
  have hsq : ‖z‖ ^ 2 ≤ 1 := pow_le_one₀ hp.le h1
  have hD := dfac_pos k
  have hD1 := dfac_pos (k + 1)
  have b : ∀ n : ℕ, ‖ricPsi n z‖ ≤ 2 * ‖z‖ ^ (n + 1) / dfac n := by
    intro n
    have := norm_sphJ_le n hz (by have : (0 : ℝ) ≤ n := Nat.cast_nonneg n; linarith)
    unfold ricPsi
    rw [norm_mul]
    calc ‖z‖ * ‖sphJ n z‖ ≤ ‖z‖ * (2 * (‖z‖ ^ n / dfac n)) := mul_le_mul_of_nonneg_left this hp.le
      _ = _ := by rw [pow_succ]; ring
  have b1 : ‖ricPsi (k + 1) z‖ ≤ ‖z‖ ^ 2 * (2 / dfac (k + 1)) := by
    refine (b (k + 1)).trans ?_
    have : ‖z‖ ^ (k + 1 + 1) ≤ ‖z‖ ^ 2 := pow_le_pow_of_le_one hp.le h1 (by omega)
    calc 2 * ‖z‖ ^ (k + 1 + 1) / dfac (k + 1) ≤ 2 * ‖z‖ ^ 2 / dfac (k + 1) := by gcongr
      _ = _ := by ring
  have b0 : ‖ricPsi k z‖ ≤ ‖z‖ * (2 / dfac k) := by
    refine (b k).trans ?_
    have : ‖z‖ ^ (k + 1) ≤ ‖z‖ := by
      calc ‖z‖ ^ (k + 1) ≤ ‖z‖ ^ 1 := pow_le_pow_of_le_one hp.le h1 (by omega)
        _ = ‖z‖ := pow_one _
    calc 2 * ‖z‖ ^ (k + 1) / dfac k ≤ 2 * ‖z‖ / dfac k := by gcongr
      _ = _ := by ring
  have bd : ‖deriv (ricPsi (k + 1)) z‖ ≤ ‖z‖ * ((6 * ((k + 1 : ℕ) : ℝ) + 2) / dfac (k + 1)) := by
    rw [deriv_ricPsi_lower k hz]
    refine (norm_sub_le _ _).trans ?_
    rw [norm_mul, norm_div, norm_nat_add_one]
    have e : (2 : ℝ) / dfac k = 2 * (2 * k + 3) / dfac (k + 1) := by rw [dfac_succ]; field_simp
    calc ‖ricPsi k z‖ + (k + 1) / ‖z‖ * ‖ricPsi (k + 1) z‖
        ≤ ‖z‖ * (2 / dfac k) + (k + 1) / ‖z‖ * (‖z‖ ^ 2 * (2 / dfac (k + 1))) := by gcongr
      _ = ‖z‖ * ((6 * ((k + 1 : ℕ) : ℝ) + 2) / dfac (k + 1)) := by
          rw [e]; push_cast; field_simp; ring
  have hk : (0 : ℝ) ≤ ((k + 1 : ℕ) : ℝ) := Nat.cast_nonneg _
  constructor
  · simp only [Wave.val, ha, zero_mul, sub_zero, norm_mul]
    calc ‖w.d‖ * ‖ricPsi (k + 1) z‖ ≤ ‖w.d‖ * (‖z‖ ^ 2 * (2 / dfac (k + 1))) := by gcongr
      _ = ‖z‖ ^ 2 * (‖w.d‖ / dfac (k + 1) * 2) := by ring
      _ ≤ _ := by gcongr; linarith
  · simp only [Wave.der, ha, zero_mul, sub_zero, norm_mul]
    calc ‖w.d‖ * ‖deriv (ricPsi (k + 1)) z‖ ≤ ‖w.d‖ * (‖z‖ * ((6 * ((k + 1 : ℕ) : ℝ) + 2) / dfac (k + 1))) := by gcongr
      _ = _ := by ring

theorem regular_tsum {T : ℕ → ℝ → ℂ → ℂ} {u : ℕ → ℝ} (hu : Summable u) (s : ℂ → ℝ)
    (h : ∀ n t z, z ≠ 0 → ‖z‖ ≤ 1 → ‖T n t z‖ ≤ s z * u n) (t : ℝ) {z : ℂ} (hz : z ≠ 0) (h1 : ‖z‖ ≤ 1) :
    ‖∑' n, T n t z‖ ≤ s z * ∑' n, u n :=
  tsum_of_norm_bounded ((hu.hasSum).mul_left (s z)) fun n => h n t z hz h1

/-- A series of regular waves is bounded near the centre. -/
theorem serAt_bounded {x y : ℕ → ℂ} {α β : ℕ → Wave} (hx : GB fun n => ‖x n‖) (hy : GB fun n => ‖y n‖) (hα : Dec α) (hβ : Dec β)
    (aα : ∀ n, (α (n + 1)).a = 0) (aβ : ∀ n, (β (n + 1)).a = 0) :
    ∃ M : ℝ, ∀ (c c' z : ℂ) (t : ℝ), ‖c‖ ≤ 1 → ‖c'‖ ≤ 1 → z ≠ 0 → ‖z‖ ≤ 1 →
      ‖(serAt c c' x y α β z t).r‖ ≤ M ∧ ‖(serAt c c' x y α β z t).t‖ ≤ M ∧ ‖(serAt c c' x y α β z t).p‖ ≤ M := by
  let v : (ℕ → Wave) → ℕ → ℝ := fun w n => ‖(w n).d‖ / dfac n * (6 * (n : ℝ) + 2)
  have v0 : ∀ w n, 0 ≤ v w n := fun w n => by have := dfac_pos n; positivity
  have sv : ∀ {w}, Dec w → SG (v w) := fun h => h.1.mul (((GB.const 6).mul GB.nat).add (GB.const 2))
  obtain ⟨bR, gR, hR⟩ := ((AngB.coef hx).mul (AngB.nat.mul (AngB.nat.add (AngB.const 1)))).mul (AngB.sin.mul AngB.pi)
  obtain ⟨b1, g1, h1⟩ := (AngB.coef hx).mul AngB.tau
  obtain ⟨b2, g2, h2⟩ := (AngB.coef hy).mul AngB.pi
  obtain ⟨b3, g3, h3⟩ := (AngB.coef hx).mul AngB.pi
  obtain ⟨b4, g4, h4⟩ := (AngB.coef hy).mul AngB.tau
  have bnn : ∀ {b : ℕ → ℝ} {θ : ℕ → ℝ → ℂ}, (∀ n t, ‖θ n t‖ ≤ b n) → ∀ n, 0 ≤ b n := fun h n => (norm_nonneg _).trans (h n 0)
  have sR : Summable fun n => v α n * bR n := ((sv hα).mul gR).summable
  have sT : Summable fun n => v α n * b1 n + v β n * b2 n := (((sv hα).mul g1).add ((sv hβ).mul g2)).summable
  have sP : Summable fun n => v α n * b3 n + v β n * b4 n := (((sv hα).mul g3).add ((sv hβ).mul g4)).summable
  -- bounds of the terms
  have tR : ∀ n t z, z ≠ 0 → ‖z‖ ≤ 1 → ‖serR x α n t z‖ ≤ ‖z‖ ^ 2 * (v α n * bR n) := by
    intro n t z hz hz1
    cases n with
    | zero =>
      have := mul_nonneg (v0 α 0) (bnn hR 0)
      simp only [serR, Nat.cast_zero, zero_mul, mul_zero, norm_zero]
      positivity
    | succ n =>
      have := hR (n + 1) t
      unfold serR
      rw [norm_mul]
      calc _ ≤ bR (n + 1) * (‖z‖ ^ 2 * v α (n + 1)) :=
            mul_le_mul this (regular_bound _ (aα n) n hz hz1).1 (norm_nonneg _) (bnn hR _)
        _ = _ := by ring
  have two : ∀ {a b : ℂ} {A B : ℝ} {f g : ℂ} {F G s : ℝ}, ‖a‖ ≤ A → ‖b‖ ≤ B → ‖f‖ ≤ s * F → ‖g‖ ≤ s * G →
      ‖a * f + b * g‖ ≤ s * (F * A + G * B) := by
    intro a b A B f g F G s ha hb hf hg
    refine (norm_add_le _ _).trans ?_
    rw [norm_mul, norm_mul]
    have i1 := mul_le_mul ha hf (norm_nonneg _) ((norm_nonneg _).trans ha)
    have i2 := mul_le_mul hb hg (norm_nonneg _) ((norm_nonneg _).trans hb)
    linarith
  have sq1 : ∀ {z : ℂ} {V : ℝ}, ‖z‖ ≤ 1 → 0 ≤ V → ‖z‖ ^ 2 * V ≤ ‖z‖ * V := by
    intro z V hz hV
    refine mul_le_mul_of_nonneg_right ?_ hV
    nlinarith [norm_nonneg z]
  have tT : ∀ n t z, z ≠ 0 → ‖z‖ ≤ 1 → ‖serT x y α β n t z‖ ≤ ‖z‖ * (v α n * b1 n + v β n * b2 n) := by
    intro n t z hz hz1
    cases n with
    | zero =>
      have i1 := mul_nonneg (v0 α 0) (bnn h1 0)
      have i2 := mul_nonneg (v0 β 0) (bnn h2 0)
      simp only [serT, angTau_zero, angPi_zero, ofReal_zero, zero_mul, mul_zero, add_zero, norm_zero]
      positivity
    | succ n =>
      exact two (h1 (n + 1) t) (h2 (n + 1) t) (regular_bound _ (aα n) n hz hz1).2
        ((regular_bound _ (aβ n) n hz hz1).1.trans (sq1 hz1 (v0 β _)))
  have tP : ∀ n t z, z ≠ 0 → ‖z‖ ≤ 1 → ‖serP x y α β n t z‖ ≤ ‖z‖ * (v α n * b3 n + v β n * b4 n) := by
    intro n t z hz hz1
    cases n with
    | zero =>
      have i1 := mul_nonneg (v0 α 0) (bnn h3 0)
      have i2 := mul_nonneg (v0 β 0) (bnn h4 0)
      simp only [serP, angTau_zero, angPi_zero, ofReal_zero, zero_mul, mul_zero, add_zero, norm_zero]
      positivity
    | succ n =>
      exact two (h3 (n + 1) t) (h4 (n + 1) t) (regular_bound _ (aα n) n hz hz1).2
        ((regular_bound _ (aβ n) n hz hz1).1.trans (sq1 hz1 (v0 β _)))
  refine ⟨max (∑' n, v α n * bR n) (max (∑' n, (v α n * b1 n + v β n * b2 n)) (∑' n, (v α n * b3 n + v β n * b4 n))),
    fun c c' z t hc hc' hz hz1 => ?_⟩
  have hp : 0 < ‖z‖ := norm_pos_iff.2 hz
  have cut : ∀ {c a u : ℂ} {S s : ℝ}, ‖c‖ ≤ 1 → 0 < s → ‖u‖ = s → ‖a‖ ≤ s * S → ‖c * a / u‖ ≤ S := by
    intro c a u S s hc hs hu ha
    rw [norm_div, norm_mul, hu, div_le_iff₀ hs]
    have := mul_le_mul hc ha (norm_nonneg _) zero_le_one
    linarith
  refine ⟨?_, ?_, ?_⟩
  · exact (cut hc (by positivity) (norm_pow z 2) (regular_tsum sR (fun z => ‖z‖ ^ 2) tR t hz hz1)).trans (le_max_left _ _)
  · exact (cut hc hp rfl (regular_tsum sT (fun z => ‖z‖) tT t hz hz1)).trans ((le_max_left _ _).trans (le_max_right _ _))
  · exact (cut hc' hp rfl (regular_tsum sP (fun z => ‖z‖) tP t hz hz1)).trans ((le_max_right _ _).trans (le_max_right _ _))

end MieDiff
