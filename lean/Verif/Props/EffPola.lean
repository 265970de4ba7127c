import Verif.Model.EffPola
import Verif.Props.GpmStruct
import Verif.Props.Tg

/-!
# C108: the constructor of `StructAutodiffMieEffPola3D`
-/

namespace MieDiff

open Complex

namespace Spec

/-- The wavelengths, in order, at which a quantity is above a limit. -/
noncomputable def above (limit : ℝ) (wl val : List ℝ) : List ℝ :=
  open Classical in ((wl.zip val).filter fun x => decide (limit < x.2)).map Prod.fst

/-- The warnings to expect from the lists of wavelengths for the electric and the magnetic quadrupole. -/
def expected (e m : List ℝ) : List QuadWarning :=
  (if e = [] then [] else [⟨.electric, e⟩]) ++ (if m = [] then [] else [⟨.magnetic, m⟩])

end Spec

theorem warnQuad_eq (k : Quad) (l : List ℝ) : warnQuad k l = if l = [] then [] else [⟨k, l⟩] := by
  cases l <;> simp [warnQuad]

theorem overTol_ok {wl : Ten ℝ} {c : Ten ℂ} {nk : ℕ} (tol : ℝ) (hw : wl.shape = [nk]) (hc : c.shape = [nk, 2]) :
    overTol wl c tol = .ok (Spec.above tol ((List.range nk).map fun j => wl.get [j]) ((List.range nk).map fun j => ‖c.get [j, 1]‖)) := by
  have h1 : c.select 1 1 = .ok ⟨[nk], fun idx => c.get (idx.insertIdx 1 1)⟩ := by
    unfold Ten.select
    rw [hc]
    rfl
  unfold overTol
  rw [h1]
  simp only [Bind.bind, Except.bind, hw, ne_eq, not_true_eq_false, if_false, List.headD_cons, Except.ok.injEq]
  unfold Spec.above
  rw [List.zip_map', List.filter_map, List.map_map]
  rfl

section

variable {coef : Ten ℝ → ℤ → Py (Ten ℂ × Ten ℂ)} {env : Ten ℝ → Py (Ten ℂ)} {wl : Ten ℝ} {nk : ℕ} {A B : Ten ℂ} {eps : ℂ}

/-- The wavelengths of the electric or magnetic warning: those at which the second coefficient is larger than the tolerance. -/
noncomputable def Spec.quadAbove (A : Ten ℂ) (wl : Ten ℝ) (nk : ℕ) (tol : ℝ) : List ℝ :=
  Spec.above tol ((List.range nk).map fun j => wl.get [j]) ((List.range nk).map fun j => ‖A.get [1, 0, j]‖)

theorem effPolaInit_of (h : SphereRun coef env wl 2 nk A B eps) {rs : List ℝ} (hr : rs ≠ []) (dev : Device) (r0 : Option (Ten ℝ)) (tol : ℝ) :
    ∃ alpha, effPola coef env rs wl = .ok alpha ∧
      effPolaInit coef env rs dev wl none r0 tol = ((gpmCenter r0).map fun c =>
        ⟨c, [⟨c, c, c, alpha, wl, rs.getLast hr, wl.map fun w => 2 * Real.pi / w, eps.re⟩], dev⟩,
        Spec.expected (Spec.quadAbove A wl nk tol) (Spec.quadAbove B wl nk tol)) := by
  obtain ⟨alpha, ha, -⟩ := C50_entries h hr
  obtain ⟨o, ho, hsa, hsb, hv, hes, -, hw, hR, hE⟩ := C44_shape h (le_refl 2) hr
  have ho' : mieAbSphere coef env rs wl none 2 = .ok o := ho
  have hk : (wl.map fun w => 2 * Real.pi / w).shape = [nk] := h.hwl
  refine ⟨alpha, ha, ?_⟩
  have hq : ∀ t : Ten ℂ, t.shape = [nk, 2] → ∃ u, t.select 1 1 = .ok u := by
    intro t ht
    unfold Ten.select
    rw [ht]
    exact ⟨_, rfl⟩
  obtain ⟨q1, hq1⟩ := hq o.a hsa
  obtain ⟨q2, hq2⟩ := hq o.b hsb
  obtain ⟨pe, e1, -⟩ := polaOf_ok (n := 2) (by norm_num) hsa hk hes 1
  obtain ⟨ph, m1, -⟩ := polaOf_ok (n := 2) (by norm_num) hsb hk hes 3
  unfold effPola at ha
  simp only [atleast1_of_shape h.hwl, ho', Bind.bind, Except.bind, hq1, hq2, e1, m1] at ha
  have hva : (List.range nk).map (fun j => ‖o.a.get [j, 1]‖) = (List.range nk).map fun j => ‖A.get [1, 0, j]‖ :=
    List.map_congr_left fun j hj => by rw [(hv 1 j (List.mem_range.1 hj)).1]
  have hvb : (List.range nk).map (fun j => ‖o.b.get [j, 1]‖) = (List.range nk).map fun j => ‖B.get [1, 0, j]‖ :=
    List.map_congr_left fun j hj => by rw [(hv 1 j (List.mem_range.1 hj)).2]
  have hrr : o.rEnc = rs.getLast hr := by
    rw [List.getLast?_eq_some_getLast hr] at hR
    exact (Option.some.inj hR).symm
  unfold effPolaInit
  simp only [atleast1_of_shape h.hwl, ho', overTol_ok tol h.hwl hsa, overTol_ok tol h.hwl hsb, hva, hvb, warnQuad_eq]
  refine Prod.ext ?_ rfl
  unfold effPolaDict
  simp only [Bind.bind, Except.bind, e1, m1, ha, hrr, hE]
  cases gpmCenter r0 <;> rfl

/-- C108: the structure that is built.  There is one dictionary; its polarizability is (3i/2) a_1/(k0^3 n) on the electric diagonal, (3i/2) b_1/(k0^3 n^3) on
the magnetic one, zero elsewhere.  Electric and magnetic dipole are at the position of the structure: the origin, or the three given numbers.  The
enclosing radius is the outermost one, the wavenumbers belong to the wavelengths, the device is the particle's. -/
theorem C108_structure (h : SphereRun coef env wl 2 nk A B eps) {rs : List ℝ} (hr : rs ≠ []) (dev : Device) (tol : ℝ) (r0 : Option (Ten ℝ))
    {x y z : ℝ} (hc : (r0 = none ∧ x = 0 ∧ y = 0 ∧ z = 0) ∨ ∃ r, r0 = some r ∧ r.entries = [x, y, z]) :
    ∃ s d, (effPolaInit coef env rs dev wl none r0 tol).1 = .ok s ∧ s.alphaDicts = [d] ∧ s.device = dev ∧
      s.positions.shape = [3] ∧ s.positions.entries = [x, y, z] ∧ d.r0 = s.positions ∧ d.r0MD = s.positions ∧ d.r0ED = s.positions ∧
      d.wl = wl ∧ d.k0.shape = [nk] ∧ (∀ j < nk, wl.get [j] ≠ 0 → d.k0.get [j] * wl.get [j] = 2 * Real.pi) ∧
      rs.getLast? = some d.rEnc ∧ d.alpha.shape = [nk, 6, 6] ∧ ∀ j < nk, ∀ r < 6, ∀ c < 6,
        d.alpha.get [j, r, c] =
          if r ≠ c then 0
          else if r < 3 then 3 * I / 2 * A.get [0, 0, j] / (((2 * Real.pi / wl.get [j] : ℝ) : ℂ) ^ 3 * csqrt eps)
          else 3 * I / 2 * B.get [0, 0, j] / (((2 * Real.pi / wl.get [j] : ℝ) : ℂ) ^ 3 * csqrt eps ^ 3) := by
  obtain ⟨alpha, ha, hi⟩ := effPolaInit_of h hr dev r0 tol
  obtain ⟨alpha', ha', hs, he⟩ := C50_entries h hr
  rw [ha] at ha'
  obtain rfl : alpha = alpha' := by injection ha'
  have hcen : ∃ c, gpmCenter r0 = .ok c ∧ c.shape = [3] ∧ c.entries = [x, y, z] := by
    rcases hc with ⟨rfl, rfl, rfl, rfl⟩ | ⟨r, rfl, hre⟩
    · exact ⟨_, rfl, rfl, by simp [Ten.entries, Ten.indices, Ten.ofList, List.range_succ]⟩
    · have hsq : r.squeeze.shape = [3] := by
        refine squeeze_three ?_
        rw [← length_indices, ← List.length_map (f := r.get)]
        exact congrArg List.length hre
      exact ⟨r.squeeze, by simp [gpmCenter, Ten.len, hsq, bind_ok], hsq, by rw [entries_squeeze, hre]⟩
  obtain ⟨c, c1, c2, c3⟩ := hcen
  rw [c1] at hi
  refine ⟨_, _, by rw [hi]; rfl, rfl, rfl, c2, c3, rfl, rfl, rfl, rfl, h.hwl, fun j _ h0 => div_mul_cancel₀ _ h0, List.getLast?_eq_some_getLast hr, hs, he⟩

/-- C108: the warnings.  There is one for each of the two quadrupoles whose coefficient is above the tolerance somewhere, the electric one first, and it names these
wavelengths in their order.  A refused position comes after the warnings. -/
theorem C108_warnings (h : SphereRun coef env wl 2 nk A B eps) {rs : List ℝ} (hr : rs ≠ []) (dev : Device) (r0 : Option (Ten ℝ)) (tol : ℝ) :
    (effPolaInit coef env rs dev wl none r0 tol).2 = Spec.expected (Spec.quadAbove A wl nk tol) (Spec.quadAbove B wl nk tol) := by
  obtain ⟨alpha, -, hi⟩ := effPolaInit_of h hr dev r0 tol
  rw [hi]

theorem quadAbove_mem {tol w : ℝ} : w ∈ Spec.quadAbove A wl nk tol ↔ ∃ j < nk, wl.get [j] = w ∧ tol < ‖A.get [1, 0, j]‖ := by
  unfold Spec.quadAbove Spec.above
  rw [List.zip_map', List.filter_map, List.map_map]
  simp only [List.mem_map, List.mem_filter, List.mem_range, Function.comp_apply, decide_eq_true_eq]
  constructor
  · rintro ⟨j, ⟨h1, h2⟩, h3⟩
    exact ⟨j, h1, h3, h2⟩
  · rintro ⟨j, h1, h3, h2⟩
    exact ⟨j, ⟨h1, h2⟩, h3⟩

theorem expected_wls {e m : List ℝ} {w : QuadWarning} (hw : w ∈ Spec.expected e m) :
    (w.kind = .electric ∧ w.wls = e ∧ e ≠ []) ∨ (w.kind = .magnetic ∧ w.wls = m ∧ m ≠ []) := by
  unfold Spec.expected at hw
  rcases List.mem_append.1 hw with hw | hw
  · by_cases he : e = []
    · simp [he] at hw
    · rw [if_neg he, List.mem_singleton] at hw
      subst hw
      exact .inl ⟨rfl, rfl, he⟩
  · by_cases he : m = []
    · simp [he] at hw
    · rw [if_neg he, List.mem_singleton] at hw
      subst hw
      exact .inr ⟨rfl, rfl, he⟩

theorem norm_le_one {c : ℂ} (h : ‖c‖ ^ 2 ≤ c.re) : ‖c‖ ≤ 1 := by
  have h1 := (Complex.re_le_norm c)
  by_contra h2
  have h3 : 1 < ‖c‖ := not_le.1 h2
  nlinarith

/-- C108: for coefficients of a passive particle (`|c|^2 ≤ Re c`), every wavelength named in a warning has a quadrupole larger than the tolerance times the dipole,
as documented, and with a tolerance of one or more there is no warning. -/
theorem C108_sound (h : SphereRun coef env wl 2 nk A B eps) {rs : List ℝ} (hr : rs ≠ []) (dev : Device) (r0 : Option (Ten ℝ)) {tol : ℝ} (ht : 0 ≤ tol)
    (hp : ∀ i < 2, ∀ j < nk, ‖A.get [i, 0, j]‖ ^ 2 ≤ (A.get [i, 0, j]).re ∧ ‖B.get [i, 0, j]‖ ^ 2 ≤ (B.get [i, 0, j]).re) :
    (∀ w ∈ (effPolaInit coef env rs dev wl none r0 tol).2, w.wls ≠ [] ∧ ∀ v ∈ w.wls, ∃ j < nk, wl.get [j] = v ∧
      (w.kind = .electric → tol * ‖A.get [0, 0, j]‖ < ‖A.get [1, 0, j]‖) ∧ (w.kind = .magnetic → tol * ‖B.get [0, 0, j]‖ < ‖B.get [1, 0, j]‖)) ∧
    (1 ≤ tol → (effPolaInit coef env rs dev wl none r0 tol).2 = []) := by
  rw [C108_warnings h hr]
  refine ⟨fun w hw => ?_, fun h1 => ?_⟩
  · rcases expected_wls hw with ⟨hk, hl, hne⟩ | ⟨hk, hl, hne⟩
    · rw [hl, hk]
      refine ⟨hne, fun v hv => ?_⟩
      obtain ⟨j, hj, e, hgt⟩ := quadAbove_mem.1 hv
      have := norm_le_one (hp 0 (by norm_num) j hj).1
      exact ⟨j, hj, e, fun _ => lt_of_le_of_lt (by nlinarith) hgt, fun hh => absurd hh (by decide)⟩
    · rw [hl, hk]
      refine ⟨hne, fun v hv => ?_⟩
      obtain ⟨j, hj, e, hgt⟩ := quadAbove_mem.1 hv
      have := norm_le_one (hp 0 (by norm_num) j hj).2
      exact ⟨j, hj, e, fun hh => absurd hh (by decide), fun _ => lt_of_le_of_lt (by nlinarith) hgt⟩
  · have hA : Spec.quadAbove A wl nk tol = [] := List.eq_nil_iff_forall_not_mem.2 fun v hv => by
      obtain ⟨j, hj, -, hgt⟩ := quadAbove_mem.1 hv
      have := norm_le_one (hp 1 (by norm_num) j hj).1
      linarith
    have hB : Spec.quadAbove B wl nk tol = [] := List.eq_nil_iff_forall_not_mem.2 fun v hv => by
      obtain ⟨j, hj, -, hgt⟩ := quadAbove_mem.1 hv
      have := norm_le_one (hp 1 (by norm_num) j hj).2
      linarith
    simp [hA, hB, Spec.expected]

/-- C108: the documented ratio is not what is tested.  The dipole terms have no influence on the warnings. -/
theorem C108_not_a_ratio {coef' : Ten ℝ → ℤ → Py (Ten ℂ × Ten ℂ)} {env' : Ten ℝ → Py (Ten ℂ)} {A' B' : Ten ℂ} {eps' : ℂ}
    (h : SphereRun coef env wl 2 nk A B eps) (h' : SphereRun coef' env' wl 2 nk A' B' eps')
    (hA : ∀ j < nk, ‖A'.get [1, 0, j]‖ = ‖A.get [1, 0, j]‖) (hB : ∀ j < nk, ‖B'.get [1, 0, j]‖ = ‖B.get [1, 0, j]‖)
    {rs rs' : List ℝ} (hr : rs ≠ []) (hr' : rs' ≠ []) (dev dev' : Device) (r0 r0' : Option (Ten ℝ)) (tol : ℝ) :
    (effPolaInit coef env rs dev wl none r0 tol).2 = (effPolaInit coef' env' rs' dev' wl none r0' tol).2 := by
  have key : ∀ {A A' : Ten ℂ}, (∀ j < nk, ‖A'.get [1, 0, j]‖ = ‖A.get [1, 0, j]‖) →
      Spec.quadAbove A' wl nk tol = Spec.quadAbove A wl nk tol := fun hh => by
    unfold Spec.quadAbove
    rw [List.map_congr_left fun j hj => hh j (List.mem_range.1 hj)]
  rw [C108_warnings h hr, C108_warnings h' hr', key hA, key hB]

/-- C108, the host: the environment object has the real part of the permittivity, whatever the imaginary part, while the polarizability uses the complex index. -/
theorem C108_host (h : SphereRun coef env wl 2 nk A B eps) {rs : List ℝ} (hr : rs ≠ []) (dev : Device) (tol : ℝ) :
    ∃ s d, (effPolaInit coef env rs dev wl none none tol).1 = .ok s ∧ s.alphaDicts = [d] ∧ d.envEps = eps.re ∧
      (eps.im ≠ 0 → ((d.envEps : ℝ) : ℂ) ≠ eps) := by
  obtain ⟨alpha, -, hi⟩ := effPolaInit_of h hr dev none tol
  refine ⟨_, _, by rw [hi]; rfl, rfl, rfl, fun hne hh => hne ?_⟩
  have := congrArg Complex.im hh
  simpa using this.symm

/-- C108, refused arguments: a given `n_env` always raises, without warnings; a single number as position is a `TypeError` and a first axis that does not have three
entries an `AssertionError`, after the warnings. -/
theorem C108_refused (h : SphereRun coef env wl 2 nk A B eps) {rs : List ℝ} (hr : rs ≠ []) (dev : Device) (tol : ℝ) :
    (∀ x r0, ∃ e, effPolaInit coef env rs dev wl (some x) r0 tol = (.error e, [])) ∧
    (∀ r : Ten ℝ, (∀ m ∈ r.shape, m = 1) → effPolaInit coef env rs dev wl none (some r) tol =
      (.error .typeError, Spec.expected (Spec.quadAbove A wl nk tol) (Spec.quadAbove B wl nk tol))) ∧
    ∀ (r : Ten ℝ) (n : ℕ), r.shape = [n] → n ≠ 1 → n ≠ 3 → effPolaInit coef env rs dev wl none (some r) tol =
      (.error .assertionError, Spec.expected (Spec.quadAbove A wl nk tol) (Spec.quadAbove B wl nk tol)) := by
  refine ⟨fun x r0 => ?_, fun r ha => ?_, fun r n hs h1 h3 => ?_⟩
  · obtain ⟨c1, c2⟩ := C45_fails_partial h rs x 2
    unfold effPolaInit
    simp only [atleast1_of_shape h.hwl]
    by_cases he : eps = ((x ^ 2 : ℝ) : ℂ)
    · rw [c1 he]; exact ⟨_, rfl⟩
    · rw [c2 he]; exact ⟨_, rfl⟩
  · obtain ⟨alpha, -, hi⟩ := effPolaInit_of h hr dev (some r) tol
    have hs : r.squeeze.shape = [] := by
      change r.shape.filter (· ≠ 1) = []
      rw [List.filter_eq_nil_iff]
      intro a h
      simp [ha a h]
    rw [hi]
    simp [gpmCenter, Ten.len, hs, Except.map, Bind.bind, Except.bind]
  · obtain ⟨alpha, -, hi⟩ := effPolaInit_of h hr dev (some r) tol
    have hs : r.squeeze.shape = [n] := by
      change r.shape.filter (· ≠ 1) = [n]
      rw [hs]
      simp [h1]
    rw [hi]
    simp [gpmCenter, Ten.len, hs, h3, Except.map, bind_ok]

end

/-- C108: one wavelength may be given as a number. -/
theorem C108_scalar (coef : Ten ℝ → ℤ → Py (Ten ℂ × Ten ℂ)) (env : Ten ℝ → Py (Ten ℂ)) (rs : List ℝ) (dev : Device) (w : ℝ) (nEnv : Option ℝ)
    (r0 : Option (Ten ℝ)) (tol : ℝ) :
    effPolaInit coef env rs dev (Ten.scalar w) nEnv r0 tol = effPolaInit coef env rs dev ⟨[1], fun _ => w⟩ nEnv r0 tol := by
  have : (Ten.scalar w).atleast1 = (⟨[1], fun _ => w⟩ : Ten ℝ) := rfl
  unfold effPolaInit
  rw [this]
  rfl

/-! ### Example -/

/-- Coefficients of a passive particle at two wavelengths: small electric dipole and larger electric quadrupole at the first, a large magnetic quadrupole at the
second. -/
noncomputable def quadA : Ten ℂ := ⟨[2, 1, 2], fun idx => if idx = [0, 0, 0] then 1 / 100 else if idx = [1, 0, 0] then 1 / 10 else 0⟩

noncomputable def quadB : Ten ℂ := ⟨[2, 1, 2], fun idx => if idx = [1, 0, 1] then 1 / 2 else 0⟩

/-- Wavelengths 500 and 600. -/
noncomputable def quadWl : Ten ℝ := ⟨[2], fun idx => if idx = [0] then 500 else 600⟩

theorem quadRun : SphereRun (fun _ _ => .ok (quadA.squeeze, quadB.squeeze)) (fun w => .ok ⟨w.shape, fun _ => 2 + I⟩) quadWl 2 2 quadA quadB (2 + I) :=
  ⟨rfl, by norm_num, rfl, rfl, rfl, _, rfl, .inl rfl, fun _ => rfl⟩

theorem quad_passive : ∀ i < 2, ∀ j < 2, ‖quadA.get [i, 0, j]‖ ^ 2 ≤ (quadA.get [i, 0, j]).re ∧ ‖quadB.get [i, 0, j]‖ ^ 2 ≤ (quadB.get [i, 0, j]).re := by
  intro i hi j hj
  interval_cases i <;> interval_cases j <;> norm_num [quadA, quadB]

/-- With the default tolerance the magnetic quadrupole at 600 is reported, the electric one at 500 is not, although it is ten times the dipole.  The environment
has permittivity 2 instead of 2 + i. -/
example : (effPolaInit (fun _ _ => .ok (quadA.squeeze, quadB.squeeze)) (fun w => .ok ⟨w.shape, fun _ => 2 + I⟩) [10, 20] "cpu" quadWl none none 0.15).2 =
      [⟨.magnetic, [600]⟩] ∧
    0.15 * ‖quadA.get [0, 0, 0]‖ < ‖quadA.get [1, 0, 0]‖ ∧
    ∃ s d, (effPolaInit (fun _ _ => .ok (quadA.squeeze, quadB.squeeze)) (fun w => .ok ⟨w.shape, fun _ => 2 + I⟩) [10, 20] "cpu" quadWl none none 0.15).1 = .ok s ∧
      s.alphaDicts = [d] ∧ d.envEps = 2 ∧ ((d.envEps : ℝ) : ℂ) ≠ 2 + I := by
  refine ⟨?_, by norm_num [quadA], ?_⟩
  · rw [C108_warnings quadRun (by simp)]
    have e1 : Spec.quadAbove quadA quadWl 2 0.15 = [] := by
      refine List.eq_nil_iff_forall_not_mem.2 fun v hv => ?_
      obtain ⟨j, hj, -, hgt⟩ := quadAbove_mem.1 hv
      interval_cases j <;> norm_num [quadA] at hgt
    have e2 : Spec.quadAbove quadB quadWl 2 0.15 = [600] := by
      norm_num [Spec.quadAbove, Spec.above, List.range_succ, quadB, quadWl]
    simp [e1, e2, Spec.expected]
  · obtain ⟨s, d, h1, h2, h3, h4⟩ := C108_host quadRun (rs := [10, 20]) (by simp) "cpu" 0.15
    exact ⟨s, d, h1, h2, by simpa using h3, h4 (by simp)⟩

/-- The other theorems apply to the same run: position, soundness of the warnings, independence of the dipole terms, refused arguments. -/
example : (∃ s d, (effPolaInit (fun _ _ => .ok (quadA.squeeze, quadB.squeeze)) (fun w => .ok ⟨w.shape, fun _ => 2 + I⟩) [10, 20] "cpu" quadWl none
        (some ⟨[1, 3], fun idx => (idx.getD 1 0 : ℝ)⟩) 0.15).1 = .ok s ∧ s.alphaDicts = [d] ∧ s.positions.entries = [0, 1, 2] ∧
        d.alpha.get [0, 1, 1] = 3 * I / 2 * (1 / 100) / (((2 * Real.pi / 500 : ℝ) : ℂ) ^ 3 * csqrt (2 + I))) ∧
    (effPolaInit (fun _ _ => .ok (quadA.squeeze, quadB.squeeze)) (fun w => .ok ⟨w.shape, fun _ => 2 + I⟩) [10, 20] "cpu" quadWl none none 1).2 = [] ∧
    (effPolaInit (fun _ _ => .ok (quadA.squeeze, quadB.squeeze)) (fun w => .ok ⟨w.shape, fun _ => 2 + I⟩) [10, 20] "cpu" quadWl none
      (some (Ten.scalar 7)) 0.15).1 = .error .typeError := by
  refine ⟨?_, (C108_sound quadRun (by simp) "cpu" none zero_le_one quad_passive).2 le_rfl, ?_⟩
  · obtain ⟨s, d, h1, h2, -, -, h3, -, -, -, -, -, -, -, -, h4⟩ := C108_structure quadRun (rs := [10, 20]) (by simp) "cpu" 0.15
      (some ⟨[1, 3], fun idx => (idx.getD 1 0 : ℝ)⟩) (x := 0) (y := 1) (z := 2) (.inr ⟨_, rfl, by simp [Ten.entries, Ten.indices, List.range_succ]⟩)
    refine ⟨s, d, h1, h2, h3, ?_⟩
    rw [h4 0 (by norm_num) 1 (by norm_num) 1 (by norm_num)]
    simp [quadA, quadWl]
  · rw [(C108_refused quadRun (rs := [10, 20]) (by simp) "cpu" 0.15).2.1 _ (by simp [Ten.scalar])]

end MieDiff
