import Verif.Model.Tg
import Verif.Props.Angular
import Verif.Props.Batch
import Verif.Props.CoreShell
import Verif.Props.Helper
import Verif.Props.NearField
import Verif.Props.Solver
import Verif.Proofs.Pipeline
import Mathlib.LinearAlgebra.UnitaryGroup
import Mathlib.LinearAlgebra.Matrix.Determinant.Basic
import Mathlib.Tactic.LinearCombination
import Mathlib.Tactic.FinCases

/-!
# C39–C42, C44, C45, C50, C53, C54: coupling to torchGDM
-/

namespace MieDiff

open Matrix Complex

/-! ## C39: rotation matrices -/

theorem mem_SO3 {R : Mat3} (h1 : R * Rᵀ = 1) (h2 : R.det = 1) : R ∈ Matrix.specialOrthogonalGroup (Fin 3) ℝ := by
  rw [Matrix.mem_specialOrthogonalGroup_iff, Matrix.mem_orthogonalGroup_iff]
  exact ⟨h1, h2⟩

/-- C39: the three matrices are orthogonal with determinant 1. -/
theorem C39_rotation (t : ℝ) : rotationX t ∈ Matrix.specialOrthogonalGroup (Fin 3) ℝ ∧
    rotationY t ∈ Matrix.specialOrthogonalGroup (Fin 3) ℝ ∧ rotationZ t ∈ Matrix.specialOrthogonalGroup (Fin 3) ℝ := by
  have h := Real.sin_sq_add_cos_sq t
  refine ⟨mem_SO3 ?_ ?_, mem_SO3 ?_ ?_, mem_SO3 ?_ ?_⟩
  · ext i j
    fin_cases i <;> fin_cases j <;> simp [rotationX, Matrix.mul_apply, Fin.sum_univ_three] <;>
      first | linear_combination h | ring
  · simp [rotationX, Matrix.det_fin_three]; linear_combination h
  · ext i j
    fin_cases i <;> fin_cases j <;> simp [rotationY, Matrix.mul_apply, Fin.sum_univ_three] <;>
      first | linear_combination h | ring
  · simp [rotationY, Matrix.det_fin_three]; linear_combination h
  · ext i j
    fin_cases i <;> fin_cases j <;> simp [rotationZ, Matrix.mul_apply, Fin.sum_univ_three] <;>
      first | linear_combination h | ring
  · simp [rotationZ, Matrix.det_fin_three]; linear_combination h

/-- C39: angles add. -/
theorem C39_add (s t : ℝ) : rotationX (s + t) = rotationX s * rotationX t ∧
    rotationY (s + t) = rotationY s * rotationY t ∧ rotationZ (s + t) = rotationZ s * rotationZ t := by
  refine ⟨?_, ?_, ?_⟩ <;> ext i j <;> fin_cases i <;> fin_cases j <;>
    simp [rotationX, rotationY, rotationZ, Matrix.mul_apply, Fin.sum_univ_three, Real.sin_add, Real.cos_add] <;> ring

/-- C39: each matrix fixes its axis, and angle 0 is the identity. -/
theorem C39_axis (t : ℝ) : rotationX t *ᵥ ![1, 0, 0] = ![1, 0, 0] ∧ rotationY t *ᵥ ![0, 1, 0] = ![0, 1, 0] ∧
    rotationZ t *ᵥ ![0, 0, 1] = ![0, 0, 1] ∧ rotationX 0 = 1 ∧ rotationY 0 = 1 ∧ rotationZ 0 = 1 := by
  refine ⟨?_, ?_, ?_, ?_, ?_, ?_⟩
  · ext i; fin_cases i <;> simp [rotationX]
  · ext i; fin_cases i <;> simp [rotationY]
  · ext i; fin_cases i <;> simp [rotationZ]
  all_goals ext i j; fin_cases i <;> fin_cases j <;> simp [rotationX, rotationY, rotationZ]

/-- C39: sense of rotation, applied to column vectors: the right-hand rule about the axis. -/
theorem C39_sense (t : ℝ) : rotationX t *ᵥ ![0, 1, 0] = ![0, Real.cos t, Real.sin t] ∧
    rotationY t *ᵥ ![0, 0, 1] = ![Real.sin t, 0, Real.cos t] ∧
    rotationZ t *ᵥ ![1, 0, 0] = ![Real.cos t, Real.sin t, 0] := by
  refine ⟨?_, ?_, ?_⟩
  · ext i; fin_cases i <;> simp [rotationX]
  · ext i; fin_cases i <;> simp [rotationY]
  · ext i; fin_cases i <;> simp [rotationZ]

example : rotationZ (Real.pi / 2) *ᵥ ![1, 0, 0] = ![0, 1, 0] := by
  rw [(C39_sense _).2.2, Real.cos_pi_div_two, Real.sin_pi_div_two]

/-! ## C41: list of illuminations -/

/-- C41: the entries are exactly the combinations of the angles `2 pi i / n`, the planes and the two polarizations. -/
theorem C41_entries (n : ℕ) (planes : List String) :
    ∃ l, setupPlaneWaves n planes = .ok l ∧ l.length = 2 * n * planes.length ∧
      (∀ c : IncConf, c ∈ l ↔ (∃ i < n, c.angle = 2 * Real.pi * i / n) ∧ c.plane ∈ planes ∧ (c.pol = "s" ∨ c.pol = "p")) ∧
      (∀ c ∈ l, 0 ≤ c.angle ∧ c.angle < 2 * Real.pi) ∧ (planes.Nodup → l.Nodup) := by
  have hl : ¬ ((n : ℤ) + 1 < 0) := by omega
  have ha : ((List.range ((n : ℤ) + 1).toNat).map fun (i : ℕ) =>
      (0 : ℝ) + (i : ℝ) * ((2 * Real.pi - 0) / ((((n : ℤ) + 1 : ℤ) : ℝ) - 1))).dropLast =
      (List.range n).map fun (i : ℕ) => 2 * Real.pi * i / n := by
    rw [show ((n : ℤ) + 1).toNat = n + 1 by omega, List.range_succ, List.map_append, List.map_singleton,
      List.dropLast_concat]
    refine List.map_congr_left fun i _ => ?_
    push_cast
    rw [add_sub_cancel_right, zero_add, sub_zero]
    ring
  refine ⟨((List.range n).map fun (i : ℕ) => 2 * Real.pi * i / n).flatMap fun angle => planes.flatMap fun inc =>
    ["s", "p"].map fun pol => (⟨angle, inc, pol⟩ : IncConf), ?_, ?_, ?_, ?_, ?_⟩
  · unfold setupPlaneWaves linspace
    simp only [if_neg hl, Bind.bind, Except.bind, ha]
  · simp only [List.length_flatMap, List.length_map, List.length_cons, List.length_nil, zero_add, Nat.reduceAdd,
      List.map_const', List.sum_replicate, smul_eq_mul, List.length_range]
    ring
  · intro c
    rcases c with ⟨a, p, q⟩
    simp only [List.mem_flatMap, List.mem_map, List.mem_range, List.mem_cons, List.not_mem_nil, or_false,
      IncConf.mk.injEq]
    constructor
    · rintro ⟨a', ⟨i, hi, rfl⟩, p', hp', q', hq', rfl, rfl, rfl⟩
      exact ⟨⟨i, hi, rfl⟩, hp', hq'⟩
    · rintro ⟨⟨i, hi, rfl⟩, hp, hq⟩
      exact ⟨_, ⟨i, hi, rfl⟩, p, hp, q, hq, rfl, rfl, rfl⟩
  · intro c hc
    simp only [List.mem_flatMap, List.mem_map, List.mem_range] at hc
    obtain ⟨a', ⟨i, hi, rfl⟩, p', _, q', _, rfl⟩ := hc
    have hn : (0 : ℝ) < n := by exact_mod_cast (by omega : 0 < n)
    have hin : (i : ℝ) < n := by exact_mod_cast hi
    refine ⟨by positivity, ?_⟩
    rw [div_lt_iff₀ hn]
    have := Real.pi_pos
    nlinarith
  · intro hp
    rw [List.nodup_flatMap]
    constructor
    · intro a _
      rw [List.nodup_flatMap]
      refine ⟨fun p _ => ?_, ?_⟩
      · refine List.Nodup.map (fun x y h => by simpa using h) (by decide)
      · refine hp.imp ?_
        intro x y hxy
        simp only [Function.onFun, List.Disjoint, List.mem_map]
        rintro c ⟨_, _, rfl⟩ ⟨_, _, h⟩
        exact hxy (congrArg IncConf.plane h).symm
    · refine List.Pairwise.imp (R := fun x y : ℝ => x ≠ y) ?_ ?_
      · intro x y hxy
        simp only [Function.onFun, List.Disjoint, List.mem_flatMap, List.mem_map]
        rintro c ⟨_, _, _, _, rfl⟩ ⟨_, _, _, _, h⟩
        exact hxy (congrArg IncConf.angle h).symm
      · refine List.Nodup.map_on ?_ List.nodup_range
        intro i hi j hj h
        have hn : (n : ℝ) ≠ 0 := by
          have := List.mem_range.1 hi
          exact_mod_cast (by omega : n ≠ 0)
        have := Real.pi_pos.ne'
        field_simp at h
        exact_mod_cast h

/-- C41: negative counts: `-1` gives no illumination, anything below raises `RuntimeError`. -/
theorem C41_negative (planes : List String) : setupPlaneWaves (-1) planes = .ok [] ∧
    ∀ n : ℤ, n < -1 → setupPlaneWaves n planes = .error .runtimeError := by
  refine ⟨?_, fun n hn => ?_⟩
  · simp [setupPlaneWaves, linspace, Bind.bind, Except.bind]
  · unfold setupPlaneWaves linspace
    rw [if_pos (by omega)]
    rfl

example : ∃ l, setupPlaneWaves 12 ["xz", "yz", "xy"] = .ok l ∧ l.length = 72 ∧ l.Nodup := by
  obtain ⟨l, h1, h2, -, -, h5⟩ := C41_entries 12 ["xz", "yz", "xy"]
  exact ⟨l, h1, h2, h5 (by decide)⟩

/-! ## C40: illuminations in the lab frame -/

namespace Spec

/-- A vector given by its components along three axes. -/
def along (i : Fin 3) (v : ℝ) : Fin 3 → ℝ := fun j => if j = i then v else 0

/-- Axes of an incidence plane: the two axes it is named after, and the axis normal to it. -/
def planeAxes : String → Option (Fin 3 × Fin 3 × Fin 3)
  | "xz" => some (0, 2, 1)
  | "yz" => some (1, 2, 0)
  | "xy" => some (0, 1, 2)
  | _ => none

/-- Direction of propagation: in the plane, at the given angle from its second axis. -/
noncomputable def waveDir (ax : Fin 3 × Fin 3 × Fin 3) (angle : ℝ) : Fin 3 → ℝ :=
  along ax.1 (Real.sin angle) + along ax.2.1 (Real.cos angle)

/-- Polarization: `s` is normal to the plane, `p` lies in the plane. -/
noncomputable def wavePol (ax : Fin 3 × Fin 3 × Fin 3) (angle : ℝ) : String → Option (Fin 3 → ℝ)
  | "s" => some (along ax.2.2 1)
  | "p" => some (along ax.1 (-Real.cos angle) + along ax.2.1 (Real.sin angle))
  | _ => none

/-- Direction and polarization of a requested wave. -/
noncomputable def wave (c : IncConf) : Option ((Fin 3 → ℝ) × (Fin 3 → ℝ)) := do
  let ax ← planeAxes c.plane
  let e ← wavePol ax c.angle c.pol
  some (waveDir ax c.angle, e)

/-- Scalar product. -/
def dot (u v : Fin 3 → ℝ) : ℝ := u 0 * v 0 + u 1 * v 1 + u 2 * v 2

/-- Vector product. -/
def cross (u v : Fin 3 → ℝ) : Fin 3 → ℝ :=
  ![u 1 * v 2 - u 2 * v 1, u 2 * v 0 - u 0 * v 2, u 0 * v 1 - u 1 * v 0]

/-- Position as a vector. -/
def pos (r : V3 ℝ) : Fin 3 → ℝ := ![r.c0, r.c1, r.c2]

/-- The field `f u` with a real unit vector `u`. -/
def fieldAlong (f : ℂ) (u : Fin 3 → ℝ) : V3 ℂ := ⟨f * u 0, f * u 1, f * u 2⟩

/-- The field with components `F` along three real vectors. -/
def fieldIn (u v w : Fin 3 → ℝ) (F : V3 ℂ) : V3 ℂ :=
  ⟨F.c0 * u 0 + F.c1 * v 0 + F.c2 * w 0, F.c0 * u 1 + F.c1 * v 1 + F.c2 * w 1, F.c0 * u 2 + F.c1 * v 2 + F.c2 * w 2⟩

end Spec

/-- The six waves of the specification. -/
theorem Spec.wave_cases {c : IncConf} {d e : Fin 3 → ℝ} (h : Spec.wave c = some (d, e)) :
    waveDirs c.angle c.plane c.pol = .ok (d, e) ∧ Spec.dot d d = 1 ∧ Spec.dot e e = 1 ∧ Spec.dot d e = 0 := by
  have hs := Real.sin_sq_add_cos_sq c.angle
  unfold Spec.wave at h
  obtain ⟨ax, hax, h⟩ := Option.bind_eq_some_iff.1 h
  obtain ⟨e', he, h⟩ := Option.bind_eq_some_iff.1 h
  simp only [Option.some.injEq, Prod.mk.injEq] at h
  obtain ⟨rfl, rfl⟩ := h
  unfold Spec.planeAxes at hax
  have key : ∀ {p : String}, c.plane = p → (p = "xz" ∧ ax = (0, 2, 1) ∨ p = "yz" ∧ ax = (1, 2, 0) ∨ p = "xy" ∧ ax = (0, 1, 2)) →
      waveDirs c.angle c.plane c.pol = .ok (Spec.waveDir ax c.angle, e') ∧
        Spec.dot (Spec.waveDir ax c.angle) (Spec.waveDir ax c.angle) = 1 ∧ Spec.dot e' e' = 1 ∧
        Spec.dot (Spec.waveDir ax c.angle) e' = 0 := by
    intro p hp hcase
    unfold Spec.wavePol at he
    have fin : ∀ {q : String}, c.pol = q → (q = "s" ∧ e' = Spec.along ax.2.2 1 ∨
        q = "p" ∧ e' = Spec.along ax.1 (-Real.cos c.angle) + Spec.along ax.2.1 (Real.sin c.angle)) →
        waveDirs c.angle c.plane c.pol = .ok (Spec.waveDir ax c.angle, e') ∧
        Spec.dot (Spec.waveDir ax c.angle) (Spec.waveDir ax c.angle) = 1 ∧ Spec.dot e' e' = 1 ∧
        Spec.dot (Spec.waveDir ax c.angle) e' = 0 := by
      intro q hq hc
      rw [hp, hq]
      rcases hcase with ⟨rfl, rfl⟩ | ⟨rfl, rfl⟩ | ⟨rfl, rfl⟩ <;> rcases hc with ⟨rfl, rfl⟩ | ⟨rfl, rfl⟩ <;>
        (refine ⟨?_, ?_, ?_, ?_⟩
         · simp only [waveDirs, String.reduceEq, if_true, if_false, Except.ok.injEq, Prod.mk.injEq]
           constructor <;> ext j <;> fin_cases j <;> simp [Spec.waveDir, Spec.along]
         all_goals simp [Spec.dot, Spec.waveDir, Spec.along]
         all_goals first | linear_combination hs | ring)
    split at he
    · rename_i hq; exact fin hq (.inl ⟨rfl, by simpa using he.symm⟩)
    · rename_i hq; exact fin hq (.inr ⟨rfl, by simpa using he.symm⟩)
    · simp at he
  split at hax
  · rename_i hq; exact key hq (.inl ⟨rfl, by simpa using hax.symm⟩)
  · rename_i hq; exact key hq (.inr (.inl ⟨rfl, by simpa using hax.symm⟩))
  · rename_i hq; exact key hq (.inr (.inr ⟨rfl, by simpa using hax.symm⟩))
  · simp at hax

theorem Spec.wave_none {c : IncConf} (h : Spec.wave c = none) : waveDirs c.angle c.plane c.pol = .error .valueError := by
  unfold waveDirs
  simp only
  split_ifs with h1 h2 h3 h4 h5 h6 h7 h8 h9 <;> first | rfl | (exfalso; simp_all [Spec.wave, Spec.planeAxes, Spec.wavePol])

theorem vecNorm_of_unit {v : Fin 3 → ℝ} (h : Spec.dot v v = 1) : vecNorm v = 1 := by
  unfold vecNorm
  rw [show v 0 ^ 2 + v 1 ^ 2 + v 2 ^ 2 = 1 by rw [← h]; simp only [Spec.dot]; ring, Real.sqrt_one]

theorem cross_neg_eq (d e : Fin 3 → ℝ) : -(e ⨯₃ d) = Spec.cross d e := by
  rw [cross_apply]
  ext j
  fin_cases j <;> simp [Spec.cross] <;> ring

theorem cross_unit {d e : Fin 3 → ℝ} (hd : Spec.dot d d = 1) (he : Spec.dot e e = 1) (h : Spec.dot d e = 0) :
    Spec.dot (Spec.cross d e) (Spec.cross d e) = 1 := by
  simp only [Spec.dot, Spec.cross, Matrix.cons_val_zero, Matrix.cons_val_one, Matrix.cons_val] at *
  linear_combination (e 0 ^ 2 + e 1 ^ 2 + e 2 ^ 2) * hd + he - (d 0 * e 0 + d 1 * e 1 + d 2 * e 2) * h

theorem frameOf_unit {d e : Fin 3 → ℝ} (hd : Spec.dot d d = 1) (he : Spec.dot e e = 1) (h : Spec.dot d e = 0) :
    frameOf d e = (Matrix.of ![e, Spec.cross d e, d])ᵀ := by
  unfold frameOf
  simp only [vecNorm_of_unit hd, vecNorm_of_unit he, inv_one, one_smul, cross_neg_eq,
    vecNorm_of_unit (cross_unit hd he h)]

/-- C40: the matrix built for a documented plane and polarization is a rotation whose columns are the polarization `e`,
`d x e` and the direction `d`, with `e`, `d` orthogonal unit vectors. -/
theorem C40_frame {c : IncConf} {d e : Fin 3 → ℝ} (h : Spec.wave c = some (d, e)) :
    Spec.dot d d = 1 ∧ Spec.dot e e = 1 ∧ Spec.dot d e = 0 ∧
    ∃ R, planeWaveRotation c.angle c.plane c.pol = .ok R ∧ R ∈ Matrix.specialOrthogonalGroup (Fin 3) ℝ ∧
      (∀ i, R i 0 = e i) ∧ (∀ i, R i 1 = Spec.cross d e i) ∧ ∀ i, R i 2 = d i := by
  obtain ⟨h0, hd, he, hde⟩ := Spec.wave_cases h
  refine ⟨hd, he, hde, frameOf d e, by simp [planeWaveRotation, h0, Bind.bind, Except.bind], ?_, ?_⟩
  · rw [frameOf_unit hd he hde]
    have hh := cross_unit hd he hde
    have ht : (Matrix.of ![e, Spec.cross d e, d]) * (Matrix.of ![e, Spec.cross d e, d])ᵀ = 1 := by
      simp only [Spec.dot, Spec.cross, Matrix.cons_val_zero, Matrix.cons_val_one, Matrix.cons_val] at hd he hde hh
      ext i j
      fin_cases i <;> fin_cases j <;> simp [Matrix.mul_apply, Fin.sum_univ_three, Spec.cross] <;>
        first | linear_combination he | linear_combination hd | linear_combination hde | linear_combination hh | ring
    refine mem_SO3 ?_ ?_
    · rw [Matrix.transpose_transpose]
      exact mul_eq_one_comm.1 ht
    · rw [Matrix.det_transpose]
      simp only [Spec.dot] at hd he hde
      simp [Matrix.det_fin_three, Spec.cross]
      linear_combination (e 0 ^ 2 + e 1 ^ 2 + e 2 ^ 2) * hd + he - (d 0 * e 0 + d 1 * e 1 + d 2 * e 2) * hde
  · rw [frameOf_unit hd he hde]
    exact ⟨fun _ => rfl, fun _ => rfl, fun _ => rfl⟩

theorem mapM_ok_get {α β : Type} {f : α → Py β} : ∀ {l : List α} {r : List β}, l.mapM f = .ok r →
    r.length = l.length ∧ ∀ (i : ℕ) (x : α), l[i]? = some x → ∃ y, r[i]? = some y ∧ f x = .ok y
  | [], r, h => by
    simp only [List.mapM_nil, pure, Except.pure, Except.ok.injEq] at h
    subst h
    simp
  | a :: l, r, h => by
    rw [List.mapM_cons] at h
    rcases ha : f a with e | b
    · rw [ha] at h; simp [bind, Except.bind] at h
    · rcases hl : l.mapM f with e | bs
      · rw [ha, hl] at h; simp [bind, Except.bind] at h
      · rw [ha, hl] at h
        simp only [bind, Except.bind, pure, Except.pure, Except.ok.injEq] at h
        subst h
        obtain ⟨h1, h2⟩ := mapM_ok_get hl
        refine ⟨by simp [h1], fun i x hx => ?_⟩
        cases i with
        | zero => simp at hx; subst hx; exact ⟨b, by simp, ha⟩
        | succ i => simpa using h2 i x (by simpa using hx)

/-- Coordinates of a position in the frame of a wave. -/
noncomputable def frameCoords (d e : Fin 3 → ℝ) (r : V3 ℝ) : V3 ℝ :=
  ⟨Spec.dot e (Spec.pos r), Spec.dot (Spec.cross d e) (Spec.pos r), Spec.dot d (Spec.pos r)⟩

/-- C40: the returned fields are the native fields (wave along +z, polarized along +x) carried by the rotation that takes
`z` to `d` and `x` to `e`: at each position they have the components, in the frame `e, d x e, d`, of the native fields
at the point with the same coordinates. -/
theorem C40_rotated {near : V3 ℝ → Py Fields} {c : IncConf} {d e : Fin 3 → ℝ} (hw : Spec.wave c = some (d, e))
    {rp rg : List (V3 ℝ)} {o : IncFields} (h : evalMie near c rp rg = .ok o) :
    o.eSca.length = rp.length ∧ o.hSca.length = rp.length ∧ o.eInc.length = rg.length ∧ o.hInc.length = rg.length ∧
    (∀ (i : ℕ) (r : V3 ℝ), rp[i]? = some r → ∃ F, near (frameCoords d e r) = .ok F ∧
      o.eSca[i]? = some (Spec.fieldIn e (Spec.cross d e) d F.Es) ∧
      o.hSca[i]? = some (Spec.fieldIn e (Spec.cross d e) d F.Hs)) ∧
    (∀ (i : ℕ) (r : V3 ℝ), rg[i]? = some r → ∃ F, near (frameCoords d e r) = .ok F ∧
      o.eInc[i]? = some (Spec.fieldIn e (Spec.cross d e) d F.Ei) ∧
      o.hInc[i]? = some (Spec.fieldIn e (Spec.cross d e) d F.Hi)) := by
  obtain ⟨h0, hd, he, hde⟩ := Spec.wave_cases hw
  have hR : planeWaveRotation c.angle c.plane c.pol = .ok (Matrix.of ![e, Spec.cross d e, d])ᵀ := by
    simp [planeWaveRotation, h0, Bind.bind, Except.bind, frameOf_unit hd he hde]
  have hp : rotPoint (Matrix.of ![e, Spec.cross d e, d])ᵀ = frameCoords d e := by
    funext r
    simp [rotPoint, frameCoords, Matrix.vecMul, dotProduct, Fin.sum_univ_three, Spec.dot, Spec.pos]
    refine ⟨?_, ?_, ?_⟩ <;> ring
  have hf : rotFieldBack (Matrix.of ![e, Spec.cross d e, d])ᵀ = Spec.fieldIn e (Spec.cross d e) d := by
    funext F
    simp [rotFieldBack, Spec.fieldIn, Matrix.vecMul, dotProduct, Fin.sum_univ_three]
  unfold evalMie at h
  rw [hR] at h
  simp only [Bind.bind, Except.bind, hp] at h
  rcases h1 : (rp.map (frameCoords d e)).mapM near with x | sca
  · rw [h1] at h; simp at h
  rcases h2 : (rg.map (frameCoords d e)).mapM near with x | inc
  · rw [h1, h2] at h; simp at h
  rw [h1, h2] at h
  simp only [Except.ok.injEq, hf] at h
  subst h
  obtain ⟨l1, g1⟩ := mapM_ok_get h1
  obtain ⟨l2, g2⟩ := mapM_ok_get h2
  simp only [List.length_map] at l1 l2
  refine ⟨by simp [l1], by simp [l1], by simp [l2], by simp [l2], fun i r hr => ?_, fun i r hr => ?_⟩
  · obtain ⟨F, hF, hn⟩ := g1 i (frameCoords d e r) (by simp [hr])
    exact ⟨F, hn, by simp [hF], by simp [hF]⟩
  · obtain ⟨F, hF, hn⟩ := g2 i (frameCoords d e r) (by simp [hr])
    exact ⟨F, hn, by simp [hF], by simp [hF]⟩

/-- Clamped projection used in the phase, with its distance from the true projection. -/
theorem sph_phase (x y z : ℝ) :
    |(xyzToSph eps10Double x y z).c0 * Real.cos (xyzToSph eps10Double x y z).c1 - z|
      ≤ eps10Double * Real.sqrt (x ^ 2 + y ^ 2 + z ^ 2) ∧
    (|z| ≤ (1 - eps10Double) * Real.sqrt (x ^ 2 + y ^ 2 + z ^ 2) →
      (xyzToSph eps10Double x y z).c0 * Real.cos (xyzToSph eps10Double x y z).c1 = z) := by
  obtain ⟨e0, e1⟩ := eps10_small
  simp only [xyzToSph]
  set r := Real.sqrt (x ^ 2 + y ^ 2 + z ^ 2) with hr
  have hr0 : 0 ≤ r := Real.sqrt_nonneg _
  by_cases h0 : r = 0
  · have hz : z = 0 := by
      have := Real.sqrt_eq_zero (by positivity : 0 ≤ x ^ 2 + y ^ 2 + z ^ 2) |>.1 h0
      nlinarith [sq_nonneg x, sq_nonneg y, sq_nonneg z]
    simp [h0, hz]
  have hrp : 0 < r := lt_of_le_of_ne hr0 (Ne.symm h0)
  have hzr : |z| ≤ r := by
    rw [← Real.sqrt_sq_eq_abs, hr]
    exact Real.sqrt_le_sqrt (by nlinarith [sq_nonneg x, sq_nonneg y])
  have hq : |z / r| ≤ 1 := by rw [abs_div, abs_of_pos hrp, div_le_one hrp]; exact hzr
  simp only [if_neg h0]
  have hb1 : -1 + eps10Double ≤ clampR (z / r) (-1 + eps10Double) (1 - eps10Double) :=
    le_min (le_max_right _ _) (by linarith)
  have hb2 : clampR (z / r) (-1 + eps10Double) (1 - eps10Double) ≤ 1 - eps10Double := min_le_right _ _
  rw [Real.cos_arccos (by linarith) (by linarith)]
  refine ⟨?_, fun h => ?_⟩
  · have hcl : |clampR (z / r) (-1 + eps10Double) (1 - eps10Double) - z / r| ≤ eps10Double := by
      rw [abs_le] at hq ⊢
      unfold clampR at *
      rcases le_total (z / r) (-1 + eps10Double) with h | h
      · rw [max_eq_right h, min_eq_left (by linarith)]; constructor <;> linarith
      · rw [max_eq_left h]
        rcases le_total (z / r) (1 - eps10Double) with h' | h'
        · rw [min_eq_left h']; constructor <;> linarith
        · rw [min_eq_right h']; constructor <;> linarith
    have : r * clampR (z / r) (-1 + eps10Double) (1 - eps10Double) - z
        = r * (clampR (z / r) (-1 + eps10Double) (1 - eps10Double) - z / r) := by field_simp
    rw [this, abs_mul, abs_of_pos hrp, mul_comm]
    exact mul_le_mul_of_nonneg_right hcl hr0
  · have hz' : |z / r| ≤ 1 - eps10Double := by rw [abs_div, abs_of_pos hrp, div_le_iff₀ hrp]; exact h
    rw [abs_le] at hz'
    rw [clampR_id (by linarith) hz'.2]
    field_simp

theorem frame_norm {d e : Fin 3 → ℝ} (hd : Spec.dot d d = 1) (he : Spec.dot e e = 1) (h : Spec.dot d e = 0) (r : V3 ℝ) :
    (frameCoords d e r).c0 ^ 2 + (frameCoords d e r).c1 ^ 2 + (frameCoords d e r).c2 ^ 2
      = r.c0 ^ 2 + r.c1 ^ 2 + r.c2 ^ 2 := by
  have ht : (Matrix.of ![e, Spec.cross d e, d])ᵀ * (Matrix.of ![e, Spec.cross d e, d]) = (1 : Mat3) := by
    refine mul_eq_one_comm.1 ?_
    have hh := cross_unit hd he h
    simp only [Spec.dot, Spec.cross, Matrix.cons_val_zero, Matrix.cons_val_one, Matrix.cons_val] at hd he h hh
    ext i j
    fin_cases i <;> fin_cases j <;> simp [Matrix.mul_apply, Fin.sum_univ_three, Spec.cross] <;>
      first | linear_combination he | linear_combination hd | linear_combination h | linear_combination hh | ring
  have g : ∀ i j, (Matrix.of ![e, Spec.cross d e, d])ᵀ i 0 * e j + (Spec.cross d e i) * Spec.cross d e j + d i * d j
      = (1 : Mat3) i j := by
    intro i j
    rw [← ht]
    simp [Matrix.mul_apply, Fin.sum_univ_three]
  have g' : ∀ i j, e i * e j + Spec.cross d e i * Spec.cross d e j + d i * d j = (1 : Mat3) i j := g
  have a00 := g' 0 0
  have a11 := g' 1 1
  have a22 := g' 2 2
  have a01 := g' 0 1
  have a02 := g' 0 2
  have a12 := g' 1 2
  simp at a00 a11 a22 a01 a02 a12
  simp only [frameCoords, Spec.pos]
  generalize Spec.cross d e = f at *
  simp only [Spec.dot, Matrix.cons_val_zero, Matrix.cons_val_one, Matrix.cons_val]
  linear_combination r.c0 ^ 2 * a00 + r.c1 ^ 2 * a11 + r.c2 ^ 2 * a22 + 2 * r.c0 * r.c1 * a01 + 2 * r.c0 * r.c2 * a02 +
    2 * r.c1 * r.c2 * a12

/-- The incident field of a native evaluation: a plane wave along +z polarized along +x. -/
def NativeWave (k nEnv : ℂ) (near : V3 ℝ → Py Fields) : Prop :=
  ∀ r F, near r = .ok F →
    F.Ei = incidentE 1 k (xyzToSph eps10Double r.c0 r.c1 r.c2).c0 (xyzToSph eps10Double r.c0 r.c1 r.c2).c1 ∧
    F.Hi = incidentH 1 k nEnv (xyzToSph eps10Double r.c0 r.c1 r.c2).c0 (xyzToSph eps10Double r.c0 r.c1 r.c2).c1

/-- C40: the incident field in the lab frame is `e exp(i k phi)`, the magnetic one `n_env (d x e) exp(i k phi)`, with
`phi = d . r` unless `r` is within about 1e-7 rad of the axis `d`; there `|phi - d . r| ≤ 10 eps |r|`, which is the pole
guard of `transform_xyz_to_spherical`. -/
theorem C40_incident {near : V3 ℝ → Py Fields} {k nEnv : ℂ} (hn : NativeWave k nEnv near) {c : IncConf}
    {d e : Fin 3 → ℝ} (hw : Spec.wave c = some (d, e)) {rp rg : List (V3 ℝ)} {o : IncFields}
    (h : evalMie near c rp rg = .ok o) {i : ℕ} {r : V3 ℝ} (hr : rg[i]? = some r) :
    ∃ phi : ℝ, |phi - Spec.dot d (Spec.pos r)| ≤ eps10Double * Real.sqrt (r.c0 ^ 2 + r.c1 ^ 2 + r.c2 ^ 2) ∧
      (|Spec.dot d (Spec.pos r)| ≤ (1 - eps10Double) * Real.sqrt (r.c0 ^ 2 + r.c1 ^ 2 + r.c2 ^ 2) →
        phi = Spec.dot d (Spec.pos r)) ∧
      o.eInc[i]? = some (Spec.fieldAlong (exp (I * k * phi)) e) ∧
      o.hInc[i]? = some (Spec.fieldAlong (nEnv * exp (I * k * phi)) (Spec.cross d e)) := by
  obtain ⟨_, hd, he, hde⟩ := Spec.wave_cases hw
  obtain ⟨-, -, -, -, -, hi⟩ := C40_rotated hw h
  obtain ⟨F, hF, e1, e2⟩ := hi i r hr
  obtain ⟨hE, hH⟩ := hn _ _ hF
  obtain ⟨p1, p2⟩ := sph_phase (frameCoords d e r).c0 (frameCoords d e r).c1 (frameCoords d e r).c2
  rw [frame_norm hd he hde] at p1 p2
  refine ⟨_, p1, p2, ?_, ?_⟩
  · rw [e1, hE]
    simp only [incidentE, Spec.fieldIn, Spec.fieldAlong, zero_mul, add_zero, one_mul]
    push_cast
    simp only [mul_assoc]
  · rw [e2, hH]
    simp only [incidentH, Spec.fieldIn, Spec.fieldAlong, zero_mul, add_zero, zero_add, one_mul]
    push_cast
    simp only [mul_assoc]

/-- C40: other plane or polarization names raise `ValueError` before any field is computed. -/
theorem C40_reject {near : V3 ℝ → Py Fields} {c : IncConf} (rp rg : List (V3 ℝ))
    (h : c.plane ∉ ["xz", "yz", "xy"] ∨ c.pol ∉ ["s", "p"]) :
    planeWaveRotation c.angle c.plane c.pol = .error .valueError ∧ evalMie near c rp rg = .error .valueError := by
  have hn : Spec.wave c = none := by
    unfold Spec.wave
    rcases h with h | h
    · have : Spec.planeAxes c.plane = none := by
        unfold Spec.planeAxes
        split <;> simp_all
      rw [this]; rfl
    · have : ∀ ax, Spec.wavePol ax c.angle c.pol = none := by
        intro ax
        unfold Spec.wavePol
        split <;> simp_all
      cases Spec.planeAxes c.plane with
      | none => rfl
      | some ax => simp [this]
  have h1 : planeWaveRotation c.angle c.plane c.pol = .error .valueError := by
    simp [planeWaveRotation, Spec.wave_none hn, Bind.bind, Except.bind]
  refine ⟨h1, ?_⟩
  unfold evalMie
  rw [h1]
  rfl

/-- C40: every documented combination has a direction and a polarization. -/
theorem C40_accept (c : IncConf) (h1 : c.plane ∈ ["xz", "yz", "xy"]) (h2 : c.pol ∈ ["s", "p"]) :
    ∃ d e, Spec.wave c = some (d, e) := by
  obtain ⟨ang, p, q⟩ := c
  simp only [List.mem_cons, List.not_mem_nil, or_false] at h1 h2
  rcases h1 with rfl | rfl | rfl <;> rcases h2 with rfl | rfl <;> exact ⟨_, _, rfl⟩

/-- C40: `get_nearfields` with the pena backend is a native evaluation with `k = k0 n_env`. -/
theorem C40_native (K : D1Kernel) (B : Backends) (p : Particle1) (nMax : Option ℤ) :
    NativeWave (p.k0 * csqrt p.epsEnv) (csqrt p.epsEnv) (nearPena K B p nMax) := by
  intro r F h
  unfold nearPena at h
  rcases ho : mieCoefficients K B p "pena" "recurrence" nMax with x | o
  · rw [ho] at h; simp [Bind.bind, Except.bind] at h
  rw [ho] at h
  simp only [Bind.bind, Except.bind] at h
  unfold nearfieldsPena at h
  simp only [Bind.bind, Except.bind] at h
  split at h
  · simp at h
  split at h
  · simp at h
  injection h with h
  subst h
  exact ⟨rfl, rfl⟩

example : ∃ d e, Spec.wave ⟨0, "yz", "s"⟩ = some (d, e) ∧ d = ![0, 0, 1] ∧ e = ![1, 0, 0] := by
  refine ⟨_, _, rfl, ?_, ?_⟩ <;> ext j <;> fin_cases j <;> simp [Spec.waveDir, Spec.along]

/-! ## C42: backend and radius chosen for a particle -/

theorem fDer_total (z : ℂ) {fs : List ℂ} (h : 2 ≤ fs.length) : ∃ ds, fDer z fs = .ok ds := by
  obtain ⟨a, fs, rfl⟩ : ∃ a l, fs = a :: l := by cases fs with | nil => simp at h | cons a l => exact ⟨a, l, rfl⟩
  obtain ⟨b, fs, rfl⟩ : ∃ a l, fs = a :: l := by cases fs with | nil => simp at h | cons a l => exact ⟨a, l, rfl⟩
  exact ⟨_, rfl⟩

/-- `_miecoef` succeeds as soon as the special functions return two orders or more. -/
theorem miecoef_total {S : BesselBackend} {n : ℤ} (hS : ∀ z, ∃ js ys, S.jn n z = .ok js ∧ S.yn n z = .ok ys ∧
    2 ≤ js.length ∧ 2 ≤ ys.length) (x y m1 m2 : ℂ) : ∃ out, miecoef S x y n m1 m2 = .ok out := by
  obtain ⟨j1, y1, h1, h1', l1, l1'⟩ := hS y
  obtain ⟨j2, y2, h2, h2', l2, l2'⟩ := hS (m1 * x)
  obtain ⟨j3, y3, h3, h3', l3, l3'⟩ := hS (m2 * x)
  obtain ⟨j4, y4, h4, h4', l4, l4'⟩ := hS (m2 * y)
  obtain ⟨d1, e1⟩ := fDer_total y l1
  obtain ⟨d2, e2⟩ := fDer_total (m1 * x) l2
  obtain ⟨d3, e3⟩ := fDer_total (m2 * x) l3
  obtain ⟨d4, e4⟩ := fDer_total (m2 * y) l4
  obtain ⟨d5, e5⟩ := fDer_total y l1'
  obtain ⟨d6, e6⟩ := fDer_total (m2 * x) l3'
  obtain ⟨d7, e7⟩ := fDer_total (m2 * y) l4'
  unfold miecoef miecoef4
  simp only [h1, h1', h2, h3, h3', h4, h4', e1, e2, e3, e4, e5, e6, e7, Bind.bind, Except.bind]
  exact ⟨_, rfl⟩

/-- C42: with no backend forced, the solver accepts the particle whatever its number of layers: the call succeeds for every
order `n ≥ 1` (for at most two layers the torch special functions have to return the orders they are asked for). -/
theorem C42_supported (B : Backends) {p : Particle1} (hp : ValidLayers p) {n : ℕ} (hn : 1 ≤ n)
    (hS : ∀ z, ∃ js ys, B.torchRec.jn n z = .ok js ∧ B.torchRec.yn n z = .ok ys ∧ 2 ≤ js.length ∧ 2 ≤ ys.length) :
    ∃ o, mieCoefficients codeD1 B p (resolveBackend p.rLayers.length none) "recurrence" (some n) = .ok o := by
  unfold resolveBackend
  simp only
  by_cases hL : p.rLayers.length > 2
  · rw [if_pos hL]
    obtain ⟨o, ho, -⟩ := mieCoefficients_pena_ok (B := B) (w := "recurrence") (codeD1_fun n)
      (by decide +kernel : "pena".toLower = "pena") hn hp.inc hp.len hp.ne
    exact ⟨o, ho⟩
  · rw [if_neg hL]
    obtain ⟨r, rs, hr⟩ := List.exists_cons_of_ne_nil hp.ne
    obtain ⟨e, es, he⟩ : ∃ e es, p.epsLayers = e :: es := by
      have := hp.len
      cases hh : p.epsLayers with
      | nil => rw [hr, hh] at this; simp at this
      | cons e es => exact ⟨e, es, rfl⟩
    have h1 : pyIdx p.rLayers 0 = .ok r := by rw [hr]; rfl
    have h2 : pyIdx p.epsLayers 0 = .ok e := by rw [he]; rfl
    have hb : "torch".toLower = "torch" := by decide +kernel
    have hw : "recurrence".toLower = "recurrence" := by decide +kernel
    have hsel : selectBessel B "torch" "recurrence" = .ok B.torchRec := by simp [selectBessel, hb, hw]
    unfold mieCoefficients
    simp only [hb, true_or, not_true_eq_false, if_false, hp.inc, hp.len, ne_eq, h1, h2, Bind.bind, Except.bind, orderChoice,
      orderRange, String.reduceEq, if_neg hL, hsel]
    rw [if_neg (by omega)]
    simp only
    obtain ⟨out, hout⟩ := miecoef_total (S := B.torchRec) (n := (n : ℤ)) hS
      (p.k0 * csqrt p.epsEnv * (r : ℂ))
      (p.k0 * csqrt p.epsEnv * ((if p.rLayers.length > 1 then p.rLayers.getLastD 0 else r : ℝ) : ℂ))
      (csqrt e / csqrt p.epsEnv) (csqrt (if p.rLayers.length > 1 then p.epsLayers.getLastD 0 else e) / csqrt p.epsEnv)
    rw [hout]
    exact ⟨_, rfl⟩

/-- C42: forcing a legacy backend for three or more layers is the case the choice avoids. -/
theorem C42_forced (B : Backends) {p : Particle1} (hp : ValidLayers p) (hL : 3 ≤ p.rLayers.length) (n : ℕ) :
    resolveBackend p.rLayers.length (some "torch") = "torch" ∧
    mieCoefficients codeD1 B p (resolveBackend p.rLayers.length (some "torch")) "recurrence" (some n) = .error .valueError :=
  ⟨rfl, C49_too_many_layers codeD1 B (b := "torch") "recurrence" false (.inl (by decide +kernel)) hp hL
    (by intro m hm; injection hm with hm; omega)⟩

theorem strictlyIncreasing_last : ∀ {l : List ℝ}, strictlyIncreasing l → ∀ R, l.getLast? = some R → ∀ r ∈ l, r ≤ R
  | [], _, R, h, _, _ => by simp at h
  | [a], _, R, h, r, hr => by simp at h hr; rw [hr, h]
  | a :: b :: l, hi, R, h, r, hr => by
    have ih := strictlyIncreasing_last hi.2 R (by simpa using h)
    rcases List.mem_cons.1 hr with rfl | hr
    · exact hi.1.le.trans (ih b (by simp))
    · exact ih r hr

/-- C42: the enclosing radius of a particle the solver accepts is its largest layer radius. -/
theorem C42_radius {K : D1Kernel} {B : Backends} {p : Particle1} {b w : String} {nMax : Option ℤ} {ri : Bool} {o : MieOut}
    (h : mieCoefficients K B p b w nMax ri = .ok o) :
    ∃ R, enclosingRadius p.rLayers = .ok R ∧ R ∈ p.rLayers ∧ ∀ r ∈ p.rLayers, r ≤ R := by
  have hinc : strictlyIncreasing p.rLayers := by
    by_contra hc
    unfold mieCoefficients at h
    simp only [hc, not_false_eq_true, if_true] at h
    split at h <;> simp at h
  have hne : p.rLayers ≠ [] := by
    intro hc
    unfold mieCoefficients at h
    simp only [hc, pyIdx, List.getElem?_nil, Bind.bind, Except.bind] at h
    split_ifs at h
  obtain ⟨R, hR⟩ : ∃ R, p.rLayers.getLast? = some R := ⟨_, List.getLast?_eq_some_getLast hne⟩
  refine ⟨R, by simp [enclosingRadius, hR], List.mem_of_getLast? hR, strictlyIncreasing_last hinc R hR⟩

example : ValidLayers ⟨0.01, [50, 60, 70], [4, 2, 3], 1⟩ ∧ resolveBackend 3 none = "pena" ∧ resolveBackend 2 none = "torch" :=
  ⟨⟨⟨by norm_num, by norm_num, trivial⟩, rfl, by simp⟩, rfl, rfl⟩

example (n : ℕ) (hn : 1 ≤ n) (z : ℂ) : ∃ js ys, exactBessel.jn n z = .ok js ∧ exactBessel.yn n z = .ok ys ∧
    2 ≤ js.length ∧ 2 ≤ ys.length := by
  refine ⟨_, _, rfl, rfl, ?_, ?_⟩ <;> simp <;> omega

/-- The solver needs increasing radii; the last radius alone would not be the largest otherwise. -/
example : ¬ strictlyIncreasing [60, 50] ∧ enclosingRadius [60, 50] = .ok 50 := by
  refine ⟨by norm_num [strictlyIncreasing], rfl⟩

/-! ## C44: order axis -/

/-- Swapping the first two axes. -/
theorem moveaxis_two {t : Ten ℂ} {a b : ℕ} (h : t.shape = [a, b]) :
    ∃ u, t.moveaxis01 = .ok u ∧ u.shape = [b, a] ∧ ∀ i j, u.get [i, j] = t.get [j, i] := by
  unfold Ten.moveaxis01
  rw [h]
  exact ⟨_, rfl, rfl, fun i j => rfl⟩

theorem orderLast_two {t : Ten ℂ} {a b : ℕ} (h : t.shape = [a, b]) :
    ∃ u, orderLast t = .ok u ∧ u.shape = [b, a] ∧ ∀ i j, u.get [i, j] = t.get [j, i] := by
  unfold orderLast
  rw [if_neg (by simp [Ten.ndim, h])]
  exact moveaxis_two h

theorem orderLast_one {t : Ten ℂ} {a : ℕ} (h : t.shape = [a]) :
    ∃ u, orderLast t = .ok u ∧ u.shape = [1, a] ∧ ∀ i j, u.get [i, j] = t.get [j] := by
  unfold orderLast
  rw [if_pos (by simp [Ten.ndim, h])]
  obtain ⟨u, h1, h2, h3⟩ := moveaxis_two (t := t.unsqueeze 1) (a := a) (b := 1) (by simp [Ten.unsqueeze, h])
  refine ⟨u, h1, h2, fun i j => ?_⟩
  rw [h3]
  simp [Ten.unsqueeze]

/-- C44: solver coefficients of one particle, `(n_max, 1, N_wavelength)`, after squeezing and reordering.  For two or more
orders the result is `(N_wavelength, n_max)` with the coefficient of order `i + 1` at wavelength `j` in position `[j, i]`. -/
theorem C44_order_last {t : Ten ℂ} {n nk : ℕ} (h : t.shape = [n, 1, nk]) (hn : n ≠ 1) :
    ∃ u, orderLast t.squeeze = .ok u ∧ u.shape = [nk, n] ∧
      ∀ i j, j < nk → u.get [j, i] = t.get [i, 0, j] := by
  by_cases hk : nk = 1
  · subst hk
    obtain ⟨u, h1, h2, h3⟩ := orderLast_one (t := t.squeeze) (a := n) (by simp [Ten.squeeze, h, hn])
    refine ⟨u, h1, h2, fun i j hj => ?_⟩
    rw [h3]
    have : j = 0 := by omega
    simp [Ten.squeeze, h, Ten.unsqIdx, hn, this]
  · obtain ⟨u, h1, h2, h3⟩ := orderLast_two (t := t.squeeze) (a := n) (b := nk) (by simp [Ten.squeeze, h, hn, hk])
    refine ⟨u, h1, h2, fun i j _ => ?_⟩
    rw [h3]
    simp [Ten.squeeze, h, Ten.unsqIdx, hn, hk]

/-- C44 fails for `n_max = 1`: with several wavelengths the axes are swapped, `(1, N_wavelength)`, and with one wavelength
the call raises `IndexError`. -/
theorem C44_one_order_partial {t : Ten ℂ} {nk : ℕ} (h : t.shape = [1, 1, nk]) :
    (nk ≠ 1 → ∃ u, orderLast t.squeeze = .ok u ∧ u.shape = [1, nk]) ∧
    (nk = 1 → orderLast t.squeeze = .error .indexError) := by
  refine ⟨fun hk => ?_, ?_⟩
  · obtain ⟨u, h1, h2, -⟩ := orderLast_one (t := t.squeeze) (a := nk) (by simp [Ten.squeeze, h, hk])
    exact ⟨u, h1, h2⟩
  · rintro rfl
    simp [orderLast, Ten.squeeze, h, Ten.ndim, Ten.moveaxis01]

/-- C44: the coefficients of a particle at `nk` wavenumbers are the squeezed `(n_max, 1, nk)` tensor of the solver. -/
theorem C44_particle {C : Casts} {p : Particle} {k0 : DTen ℝ} {h : Heap} {n : ℕ} {nk L : ℕ} {o : ParticleCoeffs}
    (hk : k0.ten.shape = [nk]) (hr : p.rLayers.shape = [L])
    (ho : p.getMieCoefficients C k0 h (some n) = .ok o) :
    ∃ A B : Ten ℂ, o.a = A.squeeze ∧ o.bn = B.squeeze ∧ A.shape = [n, 1, nk] ∧ B.shape = [n, 1, nk] := by
  unfold Particle.getMieCoefficients at ho
  rcases ha : (p.layerArgs C k0 h).1 with x | args
  · rw [ha] at ho; simp [Bind.bind, Except.bind] at ho
  rw [ha] at ho
  simp only [Bind.bind, Except.bind] at ho
  rcases hm : mieCoefficientsT args (some n) false with x | m
  · rw [hm] at ho; simp [Except.map] at ho
  rw [hm] at ho
  simp only [Except.map, Except.ok.injEq] at ho
  subst ho
  refine ⟨m.a, m.bn, rfl, rfl, ?_⟩
  have hargs : args.k0.shape = [nk] ∧ args.rLayers = some p.rLayers ∧ ∃ e, args.epsLayers = some e := by
    unfold Particle.layerArgs at ha
    simp only at ha
    rcases hp : (p.permittivities C k0 h).1 with x | e
    · rw [hp] at ha; simp [Except.map] at ha
    · rw [hp] at ha
      simp only [Except.map, Except.ok.injEq] at ha
      subst ha
      exact ⟨hk, rfl, _, rfl⟩
  obtain ⟨h1, h2, e, h3⟩ := hargs
  obtain ⟨r, eps, R, g1, g2, g3, g4, g5, -⟩ := C26_shapes hm
  obtain ⟨rl, el, -, -, hn, -, -⟩ := mieCoefficientsT_inv hm
  simp only [orderChoiceT, Except.ok.injEq] at hn
  rw [asLayerInputs, h2, h3] at g1
  simp only [Except.ok.injEq, Prod.mk.injEq] at g1
  obtain ⟨rfl, rfl⟩ := g1
  have hK : ∃ ik, Spec.k0Index [nk] = some (nk, ik) := by
    unfold Spec.k0Index
    by_cases h1 : nk = 1
    · subst h1; exact ⟨_, rfl⟩
    · simp [h1]
  obtain ⟨ik, hik⟩ := hK
  rw [h1, hr] at g2
  unfold Spec.reading at g2
  simp only [hik, Spec.rIndex, Option.bind_eq_bind, Option.bind_some] at g2
  obtain ⟨ie, -, g2⟩ := Option.bind_eq_some_iff.1 g2
  obtain ⟨iv, -, g2⟩ := Option.bind_eq_some_iff.1 g2
  simp only [Option.some.injEq] at g2
  subst g2
  rw [g4, g5, ← hn]
  exact ⟨rfl, rfl⟩

/-- What the solver hands to `mie_ab_sphere_3d_AD` for `nk` wavelengths: squeezed coefficients of one particle, and one
permittivity of the environment. -/
structure SphereRun (coef : Ten ℝ → ℤ → Py (Ten ℂ × Ten ℂ)) (env : Ten ℝ → Py (Ten ℂ)) (wl : Ten ℝ) (n nk : ℕ) (A B : Ten ℂ)
    (eps : ℂ) : Prop where
  hwl : wl.shape = [nk]
  pos : 1 ≤ nk
  hcoef : coef (wl.map fun w => 2 * Real.pi / w) n = .ok (A.squeeze, B.squeeze)
  shapeA : A.shape = [n, 1, nk]
  shapeB : B.shape = [n, 1, nk]
  henv : ∃ e, env wl = .ok e ∧ (e.shape = [nk] ∨ nk = 1 ∧ e.shape = []) ∧ ∀ idx, e.get idx = eps

theorem SphereRun.envCheck {coef : Ten ℝ → ℤ → Py (Ten ℂ × Ten ℂ)} {env : Ten ℝ → Py (Ten ℂ)} {wl : Ten ℝ} {n nk : ℕ}
    {A B : Ten ℂ} {eps : ℂ} (h : SphereRun coef env wl n nk A B eps) {e : Ten ℂ} (he : env wl = .ok e) (x : Option ℝ) :
    e.atleast1.shape = [nk] ∧ (∀ idx, e.atleast1.get idx = eps) ∧
    envCheck e.atleast1 x = match x with
      | none => .ok e.atleast1
      | some n => if eps ≠ ((n ^ 2 : ℝ) : ℂ) then .error .assertionError else .error .typeError := by
  obtain ⟨e', he', hs, hv⟩ := h.henv
  rw [he] at he'
  injection he' with he'
  subst he'
  have hsh : e.atleast1.shape = [nk] := by
    unfold Ten.atleast1
    rcases hs with hs | ⟨hk, hs⟩
    · split
      · rename_i h0; rw [h0] at hs; simp at hs
      · exact hs
    · rw [hs]; simp [hk]
  have hval : ∀ idx, e.atleast1.get idx = eps := by
    intro idx
    unfold Ten.atleast1
    split
    · exact hv _
    · exact hv _
  refine ⟨hsh, hval, ?_⟩
  unfold MieDiff.envCheck
  have hsel : e.atleast1.select 0 0 = .ok ⟨e.atleast1.shape.eraseIdx 0, fun idx => e.atleast1.get (idx.insertIdx 0 0)⟩ := by
    unfold Ten.select
    rw [hsh]
    simp only [List.getElem?_cons_zero]
    rw [if_pos (by have := h.pos; omega)]
  rw [hsel]
  simp only [Bind.bind, Except.bind, hval]
  rw [if_neg (by
    simp only [not_not]
    intro v hv
    simp only [Ten.entries, List.mem_map] at hv
    obtain ⟨idx, _, rfl⟩ := hv
    exact hval idx)]
  cases x <;> rfl

theorem select_front {t : Ten ℂ} {nk : ℕ} {eps : ℂ} (hs : t.shape = [nk]) (hk : 1 ≤ nk) (hv : ∀ idx, t.get idx = eps) :
    ∃ u, t.select 0 0 = .ok u ∧ u.get [] = eps := by
  refine ⟨⟨t.shape.eraseIdx 0, fun idx => t.get (idx.insertIdx 0 0)⟩, ?_, hv _⟩
  unfold Ten.select
  rw [hs]
  simp only [List.getElem?_cons_zero]
  rw [if_pos (by omega)]

theorem atleast1_of_shape {α : Type} {t : Ten α} {n : ℕ} (h : t.shape = [n]) : t.atleast1 = t := by
  unfold Ten.atleast1
  split
  · rename_i h0; rw [h0] at h; simp at h
  · rfl

/-- C44: `mie_ab_sphere_3d_AD` returns `(N_wavelength, n_max)` arrays for every `n_max ≥ 2`. -/
theorem C44_shape {coef : Ten ℝ → ℤ → Py (Ten ℂ × Ten ℂ)} {env : Ten ℝ → Py (Ten ℂ)} {wl : Ten ℝ} {n nk : ℕ} {A B : Ten ℂ}
    {eps : ℂ} (h : SphereRun coef env wl n nk A B eps) (hn : 2 ≤ n) {rs : List ℝ} (hr : rs ≠ []) :
    ∃ o, mieAbSphere coef env rs wl none n = .ok o ∧ o.a.shape = [nk, n] ∧ o.b.shape = [nk, n] ∧
      (∀ i j, j < nk → o.a.get [j, i] = A.get [i, 0, j] ∧ o.b.get [j, i] = B.get [i, 0, j]) ∧
      o.nEnv.shape = [nk] ∧ (∀ idx, o.nEnv.get idx = csqrt eps) ∧ o.wl = wl ∧ rs.getLast? = some o.rEnc ∧ o.envEps = eps.re := by
  obtain ⟨e, he, _⟩ := h.henv
  obtain ⟨c1, c2, c3⟩ := h.envCheck he none
  obtain ⟨u, u1, u2, u3⟩ := C44_order_last h.shapeA (by omega)
  obtain ⟨v, v1, v2, v3⟩ := C44_order_last h.shapeB (by omega)
  have hR := List.getLast?_eq_some_getLast hr
  obtain ⟨e0, s1, s2⟩ := select_front c1 h.pos c2
  refine ⟨⟨u, v, e.atleast1.map csqrt, rs.getLast hr, wl, (e0.get []).re⟩, ?_, u2, v2, fun i j hj => ⟨u3 i j hj, v3 i j hj⟩, ?_, ?_, rfl, hR,
    congrArg Complex.re s2⟩
  · unfold mieAbSphere
    simp only [atleast1_of_shape h.hwl, he, Bind.bind, Except.bind, c3, s1, h.hcoef, u1, v1, enclosingRadius, hR]
  · exact c1
  · intro idx; exact congrArg csqrt (c2 idx)

/-- C44 for `n_max = 1`, the negation of the property: no call returns arrays of shape `(N_wavelength, 1)` for `n_max = 1`:
several wavelengths give `(1, N_wavelength)`, one wavelength raises. -/
theorem C44_fails_partial {coef : Ten ℝ → ℤ → Py (Ten ℂ × Ten ℂ)} {env : Ten ℝ → Py (Ten ℂ)} {wl : Ten ℝ} {nk : ℕ}
    {A B : Ten ℂ} {eps : ℂ} (h : SphereRun coef env wl 1 nk A B eps) (rs : List ℝ) :
    ¬∃ o, mieAbSphere coef env rs wl none 1 = .ok o ∧ o.a.shape = [nk, 1] := by
  rintro ⟨o, ho, hs⟩
  obtain ⟨e, he, _⟩ := h.henv
  obtain ⟨c1, c2, c3⟩ := h.envCheck he none
  have hc := h.hcoef
  rw [Nat.cast_one] at hc
  obtain ⟨e0, s1, -⟩ := select_front c1 h.pos c2
  unfold mieAbSphere at ho
  simp only [atleast1_of_shape h.hwl, he, Bind.bind, Except.bind, c3, s1, hc] at ho
  obtain ⟨p1, p2⟩ := C44_one_order_partial h.shapeA
  by_cases hk : nk = 1
  · rw [p2 hk] at ho; simp at ho
  · obtain ⟨u, hu, hus⟩ := p1 hk
    rw [hu] at ho
    simp only at ho
    split at ho
    · simp at ho
    split at ho
    · simp at ho
    injection ho with ho
    subst ho
    simp only [hus, List.cons.injEq, and_true] at hs
    omega

/-! ## C45: environment index override -/

/-- C45 fails: a call with the optional `n_env` never returns.  If it differs from the environment of the particle the call
raises `AssertionError` (the intended check), if it agrees the call raises `TypeError` (a python number is indexed). -/
theorem C45_fails_partial {coef : Ten ℝ → ℤ → Py (Ten ℂ × Ten ℂ)} {env : Ten ℝ → Py (Ten ℂ)} {wl : Ten ℝ} {n nk : ℕ}
    {A B : Ten ℂ} {eps : ℂ} (h : SphereRun coef env wl n nk A B eps) (rs : List ℝ) (x : ℝ) (m : ℤ) :
    (eps = ((x ^ 2 : ℝ) : ℂ) → mieAbSphere coef env rs wl (some x) m = .error .typeError) ∧
    (eps ≠ ((x ^ 2 : ℝ) : ℂ) → mieAbSphere coef env rs wl (some x) m = .error .assertionError) := by
  obtain ⟨e, he, _⟩ := h.henv
  obtain ⟨c1, c2, c3⟩ := h.envCheck he (some x)
  unfold mieAbSphere
  simp only [atleast1_of_shape h.hwl, he, Bind.bind, Except.bind, c3]
  constructor
  · intro hx; rw [if_neg (by simpa using hx)]
  · intro hx; rw [if_pos hx]

/-- C45, negation of the property: leaving `n_env` out works, passing the right value does not. -/
theorem C45_negation_partial {coef : Ten ℝ → ℤ → Py (Ten ℂ × Ten ℂ)} {env : Ten ℝ → Py (Ten ℂ)} {wl : Ten ℝ} {n nk : ℕ}
    {A B : Ten ℂ} {eps : ℂ} (h : SphereRun coef env wl n nk A B eps) (hn : 2 ≤ n) {rs : List ℝ} (hr : rs ≠ []) {x : ℝ}
    (hx : eps = ((x ^ 2 : ℝ) : ℂ)) :
    (∃ o, mieAbSphere coef env rs wl none n = .ok o) ∧
      mieAbSphere coef env rs wl (some x) n ≠ mieAbSphere coef env rs wl none n := by
  obtain ⟨o, ho, -⟩ := C44_shape h hn hr
  refine ⟨⟨o, ho⟩, ?_⟩
  rw [ho, (C45_fails_partial h rs x n).1 hx]
  simp

/-- A run with three wavelengths and two orders. -/
example : SphereRun (fun _ n => .ok ((⟨[n.toNat, 1, 3], fun _ => 1⟩ : Ten ℂ).squeeze, (⟨[n.toNat, 1, 3], fun _ => 1⟩ : Ten ℂ).squeeze))
    (fun w => .ok ⟨w.shape, fun _ => 4⟩) ⟨[3], fun _ => 500⟩ 2 3 ⟨[2, 1, 3], fun _ => 1⟩ ⟨[2, 1, 3], fun _ => 1⟩ 4 :=
  ⟨rfl, by norm_num, rfl, rfl, rfl, _, rfl, .inl rfl, fun _ => rfl⟩

/-! ## C50: effective polarizability -/

theorem op2_vec {α β γ : Type} (f : α → β → γ) {s : Ten α} {t : Ten β} {n : ℕ} (hs : s.shape = [n]) (ht : t.shape = [n]) :
    ∃ u, Ten.op2 f s t = .ok u ∧ u.shape = [n] ∧ ∀ j < n, u.get [j] = f (s.get [j]) (t.get [j]) := by
  have hb : Ten.bShape [n] [n] = .ok [n] := by simp [Ten.bShape, Ten.bShapeRev, Ten.bDim, Bind.bind, Except.bind]
  unfold Ten.op2
  rw [hs, ht, hb]
  refine ⟨_, rfl, rfl, fun j hj => ?_⟩
  have : Ten.bIdx [n] [j] = [j] := by
    by_cases h : n = 1
    · subst h; simp [Ten.bIdx, Ten.bi]; omega
    · simp [Ten.bIdx, Ten.bi, h]
  simp only [this]

theorem polaOf_ok {c : Ten ℂ} {k0 : Ten ℝ} {nEnv : Ten ℂ} {nk n : ℕ} (hn : 1 ≤ n) (hc : c.shape = [nk, n])
    (hk : k0.shape = [nk]) (he : nEnv.shape = [nk]) (p : ℕ) :
    ∃ u, polaOf c k0 nEnv p = .ok u ∧ u.shape = [nk] ∧
      ∀ j < nk, u.get [j] = I * 3 / 2 * c.get [j, 0] / (k0.get [j] : ℂ) ^ 3 / nEnv.get [j] ^ p := by
  have h1 : c.select 1 0 = .ok ⟨[nk], fun idx => c.get (idx.insertIdx 1 0)⟩ := by
    unfold Ten.select
    rw [hc]
    simp only [List.getElem?_cons_succ, List.getElem?_cons_zero]
    rw [if_pos (by omega)]
    rfl
  obtain ⟨u, u1, u2, u3⟩ := op2_vec (fun (v : ℂ) (k : ℝ) => I * 3 / 2 * v / (k : ℂ) ^ 3)
    (s := ⟨[nk], fun idx => c.get (idx.insertIdx 1 0)⟩) rfl hk
  obtain ⟨v, v1, v2, v3⟩ := op2_vec (fun (v n : ℂ) => v / n ^ p) u2 he
  refine ⟨v, ?_, v2, fun j hj => ?_⟩
  · unfold polaOf
    rw [h1]
    simp only [Bind.bind, Except.bind, u1, v1]
  · rw [v3 j hj, u3 j hj]
    rfl

theorem broadcast_col {a : Ten ℂ} {nk : ℕ} (h : a.shape = [nk]) :
    ∃ u, Ten.broadcastTo (a.unsqueeze 1) [nk, 3] = .ok u ∧ ∀ j < nk, ∀ r, u.get [j, r] = a.get [j] := by
  unfold Ten.broadcastTo
  have hs : (a.unsqueeze 1).shape = [nk, 1] := by simp [Ten.unsqueeze, h]
  rw [hs, if_pos (by simp)]
  refine ⟨_, rfl, fun j hj r => ?_⟩
  have : Ten.bIdx [nk, 1] [j, r] = [j, 0] := by
    by_cases h : nk = 1
    · subst h; simp [Ten.bIdx, Ten.bi]; omega
    · simp [Ten.bIdx, Ten.bi, h]
  simp only [this]
  simp [Ten.unsqueeze]

/-- C50: the polarizability tensor, entry by entry. -/
theorem C50_entries {coef : Ten ℝ → ℤ → Py (Ten ℂ × Ten ℂ)} {env : Ten ℝ → Py (Ten ℂ)} {wl : Ten ℝ} {nk : ℕ} {A B : Ten ℂ}
    {eps : ℂ} (h : SphereRun coef env wl 2 nk A B eps) {rs : List ℝ} (hr : rs ≠ []) :
    ∃ alpha, effPola coef env rs wl = .ok alpha ∧ alpha.shape = [nk, 6, 6] ∧ ∀ j < nk, ∀ r < 6, ∀ c < 6,
      alpha.get [j, r, c] =
        if r ≠ c then 0
        else if r < 3 then 3 * I / 2 * A.get [0, 0, j] / (((2 * Real.pi / wl.get [j] : ℝ) : ℂ) ^ 3 * csqrt eps)
        else 3 * I / 2 * B.get [0, 0, j] / (((2 * Real.pi / wl.get [j] : ℝ) : ℂ) ^ 3 * csqrt eps ^ 3) := by
  obtain ⟨o, ho, hsa, hsb, hv, hes, hev, hw, -⟩ := C44_shape h (le_refl 2) hr
  have hk : (wl.map fun w => 2 * Real.pi / w).shape = [nk] := h.hwl
  obtain ⟨pe, e1, e2, e3⟩ := polaOf_ok (n := 2) (by norm_num) hsa hk hes 1
  obtain ⟨ph, m1, m2, m3⟩ := polaOf_ok (n := 2) (by norm_num) hsb hk hes 3
  obtain ⟨be, b1, b2⟩ := broadcast_col e2
  obtain ⟨bh, d1, d2⟩ := broadcast_col m2
  have hq : ∀ t : Ten ℂ, t.shape = [nk, 2] → ∃ u, t.select 1 1 = .ok u := by
    intro t ht
    unfold Ten.select
    rw [ht]
    exact ⟨_, rfl⟩
  obtain ⟨q1, hq1⟩ := hq o.a hsa
  obtain ⟨q2, hq2⟩ := hq o.b hsb
  unfold effPola
  have ho' : mieAbSphere coef env rs wl none 2 = .ok o := ho
  simp only [atleast1_of_shape h.hwl, ho', Bind.bind, Except.bind, hq1, hq2, e1, m1]
  unfold blockAlpha
  have hl : wl.shape.headD 0 = nk := by rw [h.hwl]; rfl
  simp only [hl, b1, d1, Bind.bind, Except.bind]
  refine ⟨_, rfl, rfl, fun j hj r hr6 c hc6 => ?_⟩
  simp only [List.getD_cons_zero, List.getD_cons_succ]
  by_cases hrc : r = c
  · subst hrc
    by_cases h3 : r < 3
    · simp only [h3, and_self, if_true, Nat.not_le.2 h3, and_false, if_false, add_zero, ne_eq, not_true_eq_false]
      rw [b2 j hj, e3 j hj, (hv 0 j hj).1, hev, pow_one, div_div]
      simp only [Ten.map]
      ring
    · simp only [h3, and_false, if_false, Nat.not_lt.1 h3, and_self, if_true, zero_add, ne_eq, not_true_eq_false]
      rw [d2 j hj, m3 j hj, (hv 0 j hj).2, hev, div_div]
      simp only [Ten.map]
      ring
  · simp [hrc]

theorem pola_im (c : ℂ) (q : ℝ) : (3 * I / 2 * c / (q : ℂ)).im = 3 / 2 * c.re / q := by
  rw [Complex.div_ofReal_im]
  congr 1
  rw [show 3 * I / 2 * c = ((3 / 2 : ℝ) : ℂ) * (I * c) by push_cast; ring, Complex.im_ofReal_mul]
  simp

/-- Absorption of a dipole with polarizability `3i c / (2 q)` is proportional to `Re c - |c|^2`. -/
theorem pola_abs {c : ℂ} {q : ℝ} (hq : 0 < q) (hc : ‖c‖ ^ 2 ≤ c.re) :
    0 ≤ (3 * I / 2 * c / (q : ℂ)).im - 2 / 3 * q * ‖3 * I / 2 * c / (q : ℂ)‖ ^ 2 := by
  have h1 := pola_im c q
  have h2 : ‖3 * I / 2 * c / (q : ℂ)‖ ^ 2 = 9 / 4 * ‖c‖ ^ 2 / q ^ 2 := by
    rw [norm_div, norm_mul, norm_div, norm_mul, Complex.norm_I, Complex.norm_real, Real.norm_of_nonneg hq.le]
    norm_num
    ring
  rw [h1, h2]
  have : 3 / 2 * c.re / q - 2 / 3 * q * (9 / 4 * ‖c‖ ^ 2 / q ^ 2) = 3 / 2 * (c.re - ‖c‖ ^ 2) / q := by
    field_simp
    ring
  rw [this]
  have : 0 ≤ c.re - ‖c‖ ^ 2 := by linarith
  positivity

/-- C50: for dipole coefficients of a passive particle (`|c|^2 ≤ Re c`) in a host with real index `n > 0`, the optical
theorem of the returned polarizability gives non-negative absorption: `Im alpha ≥ (2/3) k0^3 n |alpha|^2` on the electric
diagonal, `Im alpha ≥ (2/3) k0^3 n^3 |alpha|^2` on the magnetic diagonal. -/
theorem C50_absorption {coef : Ten ℝ → ℤ → Py (Ten ℂ × Ten ℂ)} {env : Ten ℝ → Py (Ten ℂ)} {wl : Ten ℝ} {nk : ℕ} {A B : Ten ℂ}
    {e0 : ℝ} (h : SphereRun coef env wl 2 nk A B (e0 : ℂ)) (he : 0 < e0) (hw : ∀ j < nk, 0 < wl.get [j])
    (hA : ∀ j < nk, ‖A.get [0, 0, j]‖ ^ 2 ≤ (A.get [0, 0, j]).re)
    (hB : ∀ j < nk, ‖B.get [0, 0, j]‖ ^ 2 ≤ (B.get [0, 0, j]).re) {rs : List ℝ} (hr : rs ≠ []) {alpha : Ten ℂ}
    (ha : effPola coef env rs wl = .ok alpha) :
    ∀ j < nk, ∀ r < 3,
      0 ≤ (alpha.get [j, r, r]).im
        - 2 / 3 * ((2 * Real.pi / wl.get [j]) ^ 3 * Real.sqrt e0) * ‖alpha.get [j, r, r]‖ ^ 2 ∧
      0 ≤ (alpha.get [j, r + 3, r + 3]).im
        - 2 / 3 * ((2 * Real.pi / wl.get [j]) ^ 3 * Real.sqrt e0 ^ 3) * ‖alpha.get [j, r + 3, r + 3]‖ ^ 2 := by
  obtain ⟨al, e1, -, e3⟩ := C50_entries h hr
  rw [ha] at e1
  injection e1 with e1
  subst e1
  intro j hj r hr3
  have hs : 0 < Real.sqrt e0 := Real.sqrt_pos.2 he
  have hk : 0 < 2 * Real.pi / wl.get [j] := by have := hw j hj; have := Real.pi_pos; positivity
  rw [e3 j hj r (by omega) r (by omega), e3 j hj (r + 3) (by omega) (r + 3) (by omega)]
  simp only [ne_eq, not_true_eq_false, if_false, hr3, if_true, show ¬ r + 3 < 3 by omega, csqrt_ofReal he.le]
  constructor
  · have := pola_abs (q := (2 * Real.pi / wl.get [j]) ^ 3 * Real.sqrt e0) (by positivity) (hA j hj)
    push_cast at this ⊢
    exact this
  · have := pola_abs (q := (2 * Real.pi / wl.get [j]) ^ 3 * Real.sqrt e0 ^ 3) (by positivity) (hB j hj)
    push_cast at this ⊢
    exact this

/-- C50: the extinction read off the polarizability is the dipole contribution of `cross_sections`:
`(4 pi k0 / n) Im alpha_E` and `4 pi k0 n Im alpha_H` are `6 pi / k^2` times the real part of `a_1` and `b_1`. -/
theorem C50_extinction {coef : Ten ℝ → ℤ → Py (Ten ℂ × Ten ℂ)} {env : Ten ℝ → Py (Ten ℂ)} {wl : Ten ℝ} {nk : ℕ} {A B : Ten ℂ}
    {e0 : ℝ} (h : SphereRun coef env wl 2 nk A B (e0 : ℂ)) (he : 0 < e0) (hw : ∀ j < nk, 0 < wl.get [j])
    {rs : List ℝ} (hr : rs ≠ []) {alpha : Ten ℂ} (ha : effPola coef env rs wl = .ok alpha) :
    ∀ j < nk, ∀ r < 3, ∀ R a' b',
      4 * Real.pi * (2 * Real.pi / wl.get [j]) / Real.sqrt e0 * (alpha.get [j, r, r]).im
        = (crossSections ((2 * Real.pi / wl.get [j] * Real.sqrt e0 : ℝ) : ℂ) R (A.get [0, 0, j] :: a')
            (B.get [0, 0, j] :: b')).csExtMp.1.headD 0 ∧
      4 * Real.pi * (2 * Real.pi / wl.get [j]) * Real.sqrt e0 * (alpha.get [j, r + 3, r + 3]).im
        = (crossSections ((2 * Real.pi / wl.get [j] * Real.sqrt e0 : ℝ) : ℂ) R (A.get [0, 0, j] :: a')
            (B.get [0, 0, j] :: b')).csExtMp.2.headD 0 := by
  obtain ⟨al, e1, -, e3⟩ := C50_entries h hr
  rw [ha] at e1
  injection e1 with e1
  subst e1
  intro j hj r hr3 R a' b'
  have hs : 0 < Real.sqrt e0 := Real.sqrt_pos.2 he
  have hk : 0 < 2 * Real.pi / wl.get [j] := by have := hw j hj; have := Real.pi_pos; positivity
  rw [e3 j hj r (by omega) r (by omega), e3 j hj (r + 3) (by omega) (r + 3) (by omega)]
  simp only [ne_eq, not_true_eq_false, if_false, hr3, if_true, show ¬ r + 3 < 3 by omega, csqrt_ofReal he.le]
  generalize 2 * Real.pi / wl.get [j] = k at *
  rw [show ((k : ℂ) ^ 3 * (Real.sqrt e0 : ℂ)) = ((k ^ 3 * Real.sqrt e0 : ℝ) : ℂ) by push_cast; ring,
    show ((k : ℂ) ^ 3 * (Real.sqrt e0 : ℂ) ^ 3) = ((k ^ 3 * Real.sqrt e0 ^ 3 : ℝ) : ℂ) by push_cast; ring,
    pola_im, pola_im]
  have hmp := (C05_multipoles (k * Real.sqrt e0) R (A.get [0, 0, j] :: a') (B.get [0, 0, j] :: b')).1
  simp only at hmp
  rw [hmp]
  simp only [List.mapIdx_cons, List.headD_cons, Nat.cast_zero, zero_add, mul_one]
  constructor <;> field_simp <;> ring

/-- C50: the hypothesis on the coefficients holds for every passive particle solved with exact logarithmic derivatives. -/
theorem C50_passive {coef : Ten ℝ → ℤ → Py (Ten ℂ × Ten ℂ)} {env : Ten ℝ → Py (Ten ℂ)} {wl : Ten ℝ} {nk : ℕ} {A B : Ten ℂ}
    {e0 : ℝ} (h : SphereRun coef env wl 2 nk A B (e0 : ℂ)) (he : 0 < e0) (hw : ∀ j < nk, 0 < wl.get [j])
    {Bk : Backends} {w : String} (p : ℕ → Particle1) (o : ℕ → MieOut)
    (hrun : ∀ j < nk, mieCoefficients idealD1 Bk (p j) "pena" w (some 2) = .ok (o j))
    (hval : ∀ j < nk, A.get [0, 0, j] ∈ (o j).a ∧ B.get [0, 0, j] ∈ (o j).b)
    (hclear : ∀ j < nk, SolverClear idealFn (o j).nMax.toNat (p j).layers)
    (hhost : ∀ j < nk, RealHost (p j) (2 * Real.pi / wl.get [j]) e0)
    (hpass : ∀ j < nk, ∀ e ∈ (p j).epsLayers, 0 ≤ e.im) {rs : List ℝ} (hr : rs ≠ []) {alpha : Ten ℂ}
    (ha : effPola coef env rs wl = .ok alpha) :
    ∀ j < nk, ∀ r < 3,
      0 ≤ (alpha.get [j, r, r]).im
        - 2 / 3 * ((2 * Real.pi / wl.get [j]) ^ 3 * Real.sqrt e0) * ‖alpha.get [j, r, r]‖ ^ 2 ∧
      0 ≤ (alpha.get [j, r + 3, r + 3]).im
        - 2 / 3 * ((2 * Real.pi / wl.get [j]) ^ 3 * Real.sqrt e0 ^ 3) * ‖alpha.get [j, r + 3, r + 3]‖ ^ 2 := by
  have hp : "pena".toLower = "pena" := by decide +kernel
  refine C50_absorption h he hw (fun j hj => ?_) (fun j hj => ?_) hr ha
  · exact (C07_passive hp (hrun j hj) (hclear j hj) (hhost j hj) (hpass j hj)).1 _ (hval j hj).1
  · exact (C07_passive hp (hrun j hj) (hclear j hj) (hhost j hj) (hpass j hj)).2 _ (hval j hj).2

/-! ## C53: normalisation of the fields -/

namespace Spec

/-- A list of field vectors as one vector (zero beyond the end). -/
def fieldVec (l : List (V3 ℂ)) : ℕ → Fin 3 → ℂ := fun i c =>
  let v := l.getD i ⟨0, 0, 0⟩
  if c = 0 then v.c0 else if c = 1 then v.c1 else v.c2

/-- Electric and magnetic field together. -/
def pairVec (e h : List (V3 ℂ)) : (ℕ → Fin 3 → ℂ) × (ℕ → Fin 3 → ℂ) := (fieldVec e, fieldVec h)

/-- Moduli of all components. -/
noncomputable def moduli (l : List (V3 ℂ)) : List ℝ := l.flatMap fun v => [‖v.c0‖, ‖v.c1‖, ‖v.c2‖]

end Spec

theorem fieldVec_div (c : ℝ) (l : List (V3 ℂ)) : Spec.fieldVec (divField c l) = ((c : ℂ)⁻¹) • Spec.fieldVec l := by
  funext i j
  simp only [Spec.fieldVec, divField, Pi.smul_apply, smul_eq_mul]
  rcases lt_or_ge i l.length with h | h
  · simp only [List.getD_eq_getElem?_getD, List.getElem?_map, List.getElem?_eq_getElem h, Option.map_some, Option.getD_some]
    split_ifs <;> simp only [div_eq_inv_mul]
  · simp only [List.getD_eq_getElem?_getD, List.getElem?_map, List.getElem?_eq_none h, Option.map_none, Option.getD_none]
    simp

theorem pairVec_div (c : ℝ) (e h : List (V3 ℂ)) :
    Spec.pairVec (divField c e) (divField c h) = ((c : ℂ)⁻¹) • Spec.pairVec e h := by
  simp only [Spec.pairVec, fieldVec_div]
  rfl

theorem absMax_spec {l : List (V3 ℂ)} {m : ℝ} (h : absMax l = .ok m) :
    m ∈ Spec.moduli l ∧ ∀ x ∈ Spec.moduli l, x ≤ m := by
  unfold absMax at h
  change (match Spec.moduli l with
    | [] => (.error .runtimeError : Py ℝ)
    | x :: xs => .ok (xs.foldl max x)) = .ok m at h
  cases hm : Spec.moduli l with
  | nil => rw [hm] at h; simp at h
  | cons x xs =>
    rw [hm] at h
    simp only [Except.ok.injEq] at h
    subst h
    clear hm
    induction xs generalizing x with
    | nil => simp
    | cons y ys ih =>
      obtain ⟨h1, h2⟩ := ih (max x y)
      rw [List.foldl_cons]
      refine ⟨?_, ?_⟩
      · rcases List.mem_cons.1 h1 with h | h
        · rcases max_choice x y with h' | h' <;> rw [h] <;> simp [h']
        · exact List.mem_cons_of_mem _ (List.mem_cons_of_mem _ h)
      · intro z hz
        have hb := h2 (max x y) (by simp)
        rcases List.mem_cons.1 hz with rfl | hz
        · exact (le_max_left _ _).trans hb
        · rcases List.mem_cons.1 hz with rfl | hz
          · exact (le_max_right _ _).trans hb
          · exact h2 z (List.mem_cons_of_mem _ hz)

theorem absMax_total {l : List (V3 ℂ)} (h : l ≠ []) : ∃ m, absMax l = .ok m := by
  obtain ⟨v, l, rfl⟩ := List.exists_cons_of_ne_nil h
  exact ⟨_, rfl⟩

theorem normalise_inv {f g : IncFields} (h : normalise f = .ok g) :
    ∃ c : ℝ, incNorm f = .ok c ∧ g = ⟨divField c f.eSca, divField c f.hSca, divField c f.eInc, divField c f.hInc⟩ := by
  unfold normalise at h
  rcases hc : incNorm f with x | c
  · rw [hc] at h; simp [Bind.bind, Except.bind] at h
  · rw [hc] at h
    simp only [Bind.bind, Except.bind, Except.ok.injEq] at h
    exact ⟨c, rfl, h.symm⟩

theorem incNorm_inv {f : IncFields} {c : ℝ} (h : incNorm f = .ok c) :
    (∀ l ∈ [f.eSca, f.hSca, f.eInc, f.hInc], ∀ x ∈ Spec.moduli l, x ≤ c) ∧ 1e-30 ≤ c ∧
      (c = 1e-30 ∨ ∃ l ∈ [f.eSca, f.hSca, f.eInc, f.hInc], c ∈ Spec.moduli l) := by
  unfold incNorm at h
  rcases h1 : absMax f.eSca with x | a
  · rw [h1] at h; simp [Bind.bind, Except.bind] at h
  rcases h2 : absMax f.hSca with x | b
  · rw [h1, h2] at h; simp [Bind.bind, Except.bind] at h
  rcases h3 : absMax f.eInc with x | c'
  · rw [h1, h2, h3] at h; simp [Bind.bind, Except.bind] at h
  rcases h4 : absMax f.hInc with x | d
  · rw [h1, h2, h3, h4] at h; simp [Bind.bind, Except.bind] at h
  rw [h1, h2, h3, h4] at h
  simp only [Bind.bind, Except.bind, Except.ok.injEq] at h
  subst h
  obtain ⟨a1, a2⟩ := absMax_spec h1
  obtain ⟨b1, b2⟩ := absMax_spec h2
  obtain ⟨c1, c2⟩ := absMax_spec h3
  obtain ⟨d1, d2⟩ := absMax_spec h4
  refine ⟨?_, le_max_right _ _, ?_⟩
  · intro l hl x hx
    simp only [List.mem_cons, List.not_mem_nil, or_false] at hl
    rcases hl with rfl | rfl | rfl | rfl
    · exact (a2 x hx).trans (by simp)
    · exact (b2 x hx).trans (by simp)
    · exact (c2 x hx).trans (by simp)
    · exact (d2 x hx).trans (by simp)
  · rcases max_choice (max (max (max a b) c') d) 1e-30 with h | h
    · right
      rw [h]
      rcases max_choice (max (max a b) c') d with h | h
      · rw [h]
        rcases max_choice (max a b) c' with h | h
        · rw [h]
          rcases max_choice a b with h | h
          · rw [h]; exact ⟨_, by simp, a1⟩
          · rw [h]; exact ⟨_, by simp, b1⟩
        · rw [h]; exact ⟨_, by simp, c1⟩
      · rw [h]; exact ⟨_, by simp, d1⟩
    · left; exact h

/-- C53: all four fields of an illumination are divided by one positive number. -/
theorem C53_scale {f g : IncFields} (h : normalise f = .ok g) :
    ∃ c : ℝ, 1e-30 ≤ c ∧ Spec.pairVec g.eSca g.hSca = ((c : ℂ)⁻¹) • Spec.pairVec f.eSca f.hSca ∧
      Spec.pairVec g.eInc g.hInc = ((c : ℂ)⁻¹) • Spec.pairVec f.eInc f.hInc := by
  obtain ⟨c, hc, rfl⟩ := normalise_inv h
  exact ⟨c, (incNorm_inv hc).2.1, pairVec_div _ _ _, pairVec_div _ _ _⟩

/-- C53: every linear relation between incident and scattered fields holds for the normalised fields iff it holds for the
computed ones. -/
theorem C53_relation {f g : IncFields} (h : normalise f = .ok g)
    (T : ((ℕ → Fin 3 → ℂ) × (ℕ → Fin 3 → ℂ)) →ₗ[ℂ] ((ℕ → Fin 3 → ℂ) × (ℕ → Fin 3 → ℂ))) :
    Spec.pairVec g.eSca g.hSca = T (Spec.pairVec g.eInc g.hInc) ↔
      Spec.pairVec f.eSca f.hSca = T (Spec.pairVec f.eInc f.hInc) := by
  obtain ⟨c, hc, h1, h2⟩ := C53_scale h
  have hc0 : ((c : ℂ)⁻¹) ≠ 0 := by
    apply inv_ne_zero
    exact_mod_cast (lt_of_lt_of_le (by norm_num) hc : (0 : ℝ) < c).ne'
  rw [h1, h2, map_smul]
  exact (smul_right_injective _ hc0).eq_iff

theorem moduli_div {c : ℝ} (hc : 0 < c) (l : List (V3 ℂ)) : Spec.moduli (divField c l) = (Spec.moduli l).map (· / c) := by
  unfold Spec.moduli divField
  induction l with
  | nil => rfl
  | cons v l ih =>
    rw [List.map_cons, List.flatMap_cons, List.flatMap_cons, ih, List.map_append]
    simp only [List.map_cons, List.map_nil, norm_div, Complex.norm_real, Real.norm_of_nonneg hc.le]

/-- C53: normalised components have modulus at most 1, and 1 is reached unless every computed component is below `1e-30`. -/
theorem C53_range {f g : IncFields} (h : normalise f = .ok g) :
    (∀ l ∈ [g.eSca, g.hSca, g.eInc, g.hInc], ∀ x ∈ Spec.moduli l, x ≤ 1) ∧
    ((∃ l ∈ [f.eSca, f.hSca, f.eInc, f.hInc], ∃ x ∈ Spec.moduli l, 1e-30 < x) →
      ∃ l ∈ [g.eSca, g.hSca, g.eInc, g.hInc], (1 : ℝ) ∈ Spec.moduli l) := by
  obtain ⟨c, hc, rfl⟩ := normalise_inv h
  obtain ⟨i1, i2, i3⟩ := incNorm_inv hc
  have hc0 : 0 < c := lt_of_lt_of_le (by norm_num) i2
  have hlist : [divField c f.eSca, divField c f.hSca, divField c f.eInc, divField c f.hInc]
      = [f.eSca, f.hSca, f.eInc, f.hInc].map (divField c) := rfl
  simp only [hlist, List.mem_map]
  refine ⟨?_, ?_⟩
  · rintro _ ⟨l, hl, rfl⟩ x hx
    rw [moduli_div hc0, List.mem_map] at hx
    obtain ⟨y, hy, rfl⟩ := hx
    exact (div_le_one hc0).2 (i1 l hl y hy)
  · rintro ⟨l, hl, x, hx, hgt⟩
    rcases i3 with h0 | ⟨l', hl', hm⟩
    · have := i1 l hl x hx
      rw [h0] at this
      linarith
    · refine ⟨divField c l', ⟨l', hl', rfl⟩, ?_⟩
      rw [moduli_div hc0, List.mem_map]
      exact ⟨c, hm, div_self hc0.ne'⟩

/-- C53: the normalisation succeeds whenever there is at least one probe and one support position. -/
theorem C53_total {f : IncFields} (h1 : f.eSca ≠ []) (h2 : f.hSca ≠ []) (h3 : f.eInc ≠ []) (h4 : f.hInc ≠ []) :
    ∃ g, normalise f = .ok g := by
  obtain ⟨a, ha⟩ := absMax_total h1
  obtain ⟨b, hb⟩ := absMax_total h2
  obtain ⟨c, hc⟩ := absMax_total h3
  obtain ⟨d, hd⟩ := absMax_total h4
  unfold normalise incNorm
  simp only [ha, hb, hc, hd, Bind.bind, Except.bind]
  exact ⟨_, rfl⟩

example : ∃ g, normalise ⟨[⟨2, 0, 0⟩], [⟨0, 1, 0⟩], [⟨0, 0, 0⟩], [⟨0, 0, 4⟩]⟩ = .ok g :=
  C53_total (by simp) (by simp) (by simp) (by simp)

/-! ## C54: combining structures -/

namespace Spec

/-- The one dictionary of a structure. -/
def onlyGpm {D : Type} : List D ⊕ D → Option D
  | .inl [d] => some d
  | .inr d => some d
  | _ => none

end Spec

theorem singleGpm_eq {D : Type} (g : List D ⊕ D) : singleGpm g = match Spec.onlyGpm g with
    | some d => .ok d
    | none => .error .valueError := by
  rcases g with l | d
  · rcases l with _ | ⟨a, _ | ⟨b, l⟩⟩ <;> rfl
  · rfl

/-- C54: structures with one entry each are combined in order; environment and device default to those of the first. -/
theorem C54_combine {D Env Dev : Type} (ss : List (GpmStruct D Env Dev)) (hne : ss ≠ []) (env : Option Env) (dev : Option Dev)
    (h : ∀ s ∈ ss, Spec.onlyGpm s.gpm ≠ none) :
    ∃ o, combineGpm ss env dev = .ok o ∧ o.positions = ss.map (·.r0) ∧
      o.gpmDicts.map some = ss.map (fun s => Spec.onlyGpm s.gpm) ∧
      o.environment = env.getD (ss.head hne).environment ∧ o.device = dev.getD (ss.head hne).device := by
  have key : ∀ l : List (GpmStruct D Env Dev), (∀ s ∈ l, Spec.onlyGpm s.gpm ≠ none) →
      ∃ ds, (l.mapM fun s => singleGpm s.gpm) = .ok ds ∧ ds.map some = l.map (fun s => Spec.onlyGpm s.gpm) := by
    intro l
    induction l with
    | nil => exact fun _ => ⟨[], rfl, rfl⟩
    | cons s l ih =>
      intro hl
      obtain ⟨ds, h1, h2⟩ := ih fun s hs => hl s (List.mem_cons_of_mem _ hs)
      obtain ⟨d, hd⟩ := Option.ne_none_iff_exists'.1 (hl s (by simp))
      refine ⟨d :: ds, ?_, by simp [h2, hd]⟩
      rw [List.mapM_cons, h1, singleGpm_eq, hd]
      rfl
  obtain ⟨ds, h1, h2⟩ := key ss h
  obtain ⟨s, l, rfl⟩ := List.exists_cons_of_ne_nil hne
  unfold combineGpm
  simp only [h1, Bind.bind, Except.bind]
  exact ⟨_, rfl, rfl, h2, rfl, rfl⟩

/-- C54: an empty list, and any structure with no or several entries, raise `ValueError`. -/
theorem C54_reject {D Env Dev : Type} (ss : List (GpmStruct D Env Dev)) (env : Option Env) (dev : Option Dev)
    (h : ss = [] ∨ ∃ s ∈ ss, Spec.onlyGpm s.gpm = none) : combineGpm ss env dev = .error .valueError := by
  have key : ∀ l : List (GpmStruct D Env Dev), (∃ s ∈ l, Spec.onlyGpm s.gpm = none) →
      (l.mapM fun s => singleGpm s.gpm) = .error .valueError := by
    intro l
    induction l with
    | nil => rintro ⟨s, hs, _⟩; simp at hs
    | cons s l ih =>
      rintro ⟨t, ht, hn⟩
      rw [List.mapM_cons, singleGpm_eq]
      cases hs : Spec.onlyGpm s.gpm with
      | none => rfl
      | some d =>
        rcases List.mem_cons.1 ht with rfl | ht
        · rw [hn] at hs; simp at hs
        · rw [ih ⟨t, ht, hn⟩]; rfl
  cases ss with
  | nil => rfl
  | cons s l =>
    have hh : ∃ t ∈ s :: l, Spec.onlyGpm t.gpm = none := by
      rcases h with h | h
      · simp at h
      · exact h
    unfold combineGpm
    simp only [key _ hh, Bind.bind, Except.bind]

example : Spec.onlyGpm (.inl [1, 2] : List ℕ ⊕ ℕ) = none ∧ Spec.onlyGpm (.inl [] : List ℕ ⊕ ℕ) = none ∧
    Spec.onlyGpm (.inl [7] : List ℕ ⊕ ℕ) = some 7 ∧ Spec.onlyGpm (.inr 7 : List ℕ ⊕ ℕ) = some 7 := ⟨rfl, rfl, rfl, rfl⟩

/-- `C40_rotated` applies: an s-polarised wave along `z` with its field along `x`, two positions for the scattered field and one for the incident one. -/
example (F : Fields) : ∃ o, evalMie (fun _ => .ok F) ⟨0, "yz", "s"⟩ [⟨100, 20, 30⟩, ⟨0, 0, 90⟩] [⟨10, 20, 30⟩] = .ok o ∧ o.eSca.length = 2 ∧
    o.hInc.length = 1 := by
  obtain ⟨d, e, hw⟩ := C40_accept ⟨0, "yz", "s"⟩ (by decide) (by decide)
  obtain ⟨-, -, -, R, hR, -⟩ := C40_frame hw
  have h : ∃ o, evalMie (fun _ => .ok F) ⟨0, "yz", "s"⟩ [⟨100, 20, 30⟩, ⟨0, 0, 90⟩] [⟨10, 20, 30⟩] = .ok o := by
    unfold evalMie
    rw [hR]
    exact ⟨_, rfl⟩
  obtain ⟨o, ho⟩ := h
  obtain ⟨h1, -, -, h4, -⟩ := C40_rotated hw ho
  exact ⟨o, ho, h1, h4⟩

/-- `C40_reject` applies to a wrong plane. -/
example (near : V3 ℝ → Py Fields) : evalMie near ⟨0, "zx", "s"⟩ [⟨1, 2, 3⟩] [] = .error .valueError :=
  (C40_reject _ _ (.inl (by decide))).2

/-- `C42_supported` and `C42_forced` apply to a sphere with two shells. -/
example : (∃ o, mieCoefficients codeD1 exactBackends ⟨0.01, [50, 60, 70], [4, 2, 3], 1⟩ (resolveBackend 3 none) "recurrence" (some 5) = .ok o) ∧
    mieCoefficients codeD1 exactBackends ⟨0.01, [50, 60, 70], [4, 2, 3], 1⟩ (resolveBackend 3 (some "torch")) "recurrence" (some 5)
      = .error .valueError := by
  have hp : ValidLayers ⟨0.01, [50, 60, 70], [4, 2, 3], 1⟩ := ⟨⟨by norm_num, by norm_num, trivial⟩, rfl, by simp⟩
  refine ⟨C42_supported exactBackends hp (n := 5) (by norm_num) ?_, (C42_forced exactBackends hp (by simp) 5).2⟩
  intro z
  refine ⟨_, _, rfl, rfl, ?_, ?_⟩ <;> simp

/-- `C44_order_last` and `C44_one_order_partial` apply. -/
example : (∃ u, orderLast (⟨[3, 1, 5], fun _ => (1 : ℂ)⟩ : Ten ℂ).squeeze = .ok u ∧ u.shape = [5, 3]) ∧
    orderLast (⟨[1, 1, 1], fun _ => (1 : ℂ)⟩ : Ten ℂ).squeeze = .error .indexError := by
  obtain ⟨u, h1, h2, -⟩ := C44_order_last (t := ⟨[3, 1, 5], fun _ => (1 : ℂ)⟩) rfl (by norm_num)
  exact ⟨⟨u, h1, h2⟩, (C44_one_order_partial (t := ⟨[1, 1, 1], fun _ => (1 : ℂ)⟩) rfl).2 rfl⟩

/-- `C54_combine` and `C54_reject` apply: two structures with one dictionary each, and one with two. -/
example : let s : List ℕ ⊕ ℕ → GpmStruct ℕ String String := fun g => ⟨⟨1, 2, 3⟩, g, "air", "cpu"⟩
    (∃ o, combineGpm [s (.inl [7]), s (.inr 8)] none (some "cuda") = .ok o ∧ o.gpmDicts.map some = [some 7, some 8] ∧ o.environment = "air" ∧
      o.device = "cuda") ∧
    combineGpm [s (.inl [7]), s (.inl [8, 9])] none none = .error .valueError := by
  intro s
  constructor
  · obtain ⟨o, h1, -, h2, h3, h4⟩ := C54_combine [s (.inl [7]), s (.inr 8)] (by simp) none (some "cuda") (by simp [s, Spec.onlyGpm])
    exact ⟨o, h1, by simpa [s, Spec.onlyGpm] using h2, h3, h4⟩
  · exact C54_reject _ none none (.inr ⟨_, List.mem_cons_of_mem _ List.mem_cons_self, rfl⟩)

end MieDiff
