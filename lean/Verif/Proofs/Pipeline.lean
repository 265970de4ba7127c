import Verif.Model.Pipeline
import Verif.Proofs.SolverLimit
import Verif.Proofs.Flux

/-!
# Inversion lemmas for `mie_coefficients`
-/

namespace MieDiff

open Complex Spec

/-- Relative index and size parameter of every layer. -/
noncomputable def Particle1.layers (p : Particle1) : List (ℂ × ℂ) :=
  layersOf (p.k0 * csqrt p.epsEnv) p.rLayers p.epsLayers (csqrt p.epsEnv)

/-- What a successful call with the pena backend tells. -/
structure PenaRun (K : D1Kernel) (p : Particle1) (o : MieOut) : Prop where
  inc : strictlyIncreasing p.rLayers
  len : p.epsLayers.length = p.rLayers.length
  ne : p.rLayers ≠ []
  pos : 1 ≤ o.nMax
  k : o.k = p.k0 * csqrt p.epsEnv
  rS : o.rS = p.rLayers.getLastD 0
  run : miecoefPenaK K (p.k0 * csqrt p.epsEnv) p.rLayers p.epsLayers (csqrt p.epsEnv) o.nMax =
    .ok (o.a, o.b)

theorem miecoefPenaK_ok {K : D1Kernel} {k : ℂ} {rs : List ℝ} {es : List ℂ} {e : ℂ} {n : ℤ} {ri : Bool}
    {ab : List ℂ × List ℂ} (h : miecoefPenaK K k rs es e n ri = .ok ab) : ri = false ∧ 1 ≤ n := by
  unfold miecoefPenaK at h
  cases ri with
  | true => simp at h
  | false =>
    refine ⟨rfl, ?_⟩
    by_contra hn
    rw [if_neg (by simp), if_pos (by omega)] at h
    exact absurd h (by simp)

/-- The order used by the pena backend: the given one or the truncation rule. -/
noncomputable def penaOrder (p : Particle1) : Option ℤ → Py ℤ
  | some n => .ok n
  | none => penaNmax [p.trunc]

theorem mieCoefficients_pena_inv' {K : D1Kernel} {B : Backends} {p : Particle1} {backend w : String}
    {nMax : Option ℤ} {ri : Bool} {o : MieOut} (hb : backend.toLower = "pena")
    (h : mieCoefficients K B p backend w nMax ri = .ok o) :
    PenaRun K p o ∧ penaOrder p nMax = .ok o.nMax ∧ ri = false := by
  unfold mieCoefficients at h
  simp only [hb] at h
  rw [if_neg (by simp)] at h
  by_cases h1 : strictlyIncreasing p.rLayers
  swap
  · rw [if_pos h1] at h; simp at h
  rw [if_neg (by simpa using h1)] at h
  by_cases h2 : p.epsLayers.length = p.rLayers.length
  swap
  · rw [if_pos h2] at h; simp at h
  rw [if_neg (by simpa using h2)] at h
  simp only [bind, Except.bind, if_true] at h
  cases hr : p.rLayers with
  | nil => rw [hr] at h; simp [pyIdx] at h
  | cons r rest =>
    have he : ∃ e es, p.epsLayers = e :: es := by
      cases hh : p.epsLayers with
      | nil => rw [hr, hh] at h2; simp at h2
      | cons e es => exact ⟨e, es, rfl⟩
    obtain ⟨e, es, he⟩ := he
    simp only [hr, he, pyIdx, List.getElem?_cons_zero] at h
    split at h
    · simp at h
    split at h
    · simp at h
    split at h
    · simp at h
    rename_i _ n hn _ v hv _ ab hab
    injection h with h
    subst h
    cases hm : miecoefPenaK K (p.k0 * csqrt p.epsEnv) (r :: rest) (e :: es) (csqrt p.epsEnv) n ri with
    | error e' => rw [hm] at hab; simp at hab
    | ok xy =>
      rw [hm] at hab
      simp only [Except.ok.injEq] at hab
      obtain ⟨h3, h4⟩ := miecoefPenaK_ok hm
      subst h3
      subst hab
      refine ⟨⟨h1, h2, by rw [hr]; simp, h4, rfl, ?_, ?_⟩, ?_, rfl⟩
      · simp only [hr]
        cases rest with
        | nil => simp
        | cons a b => simp
      · rw [hr, he]; exact hm
      · cases nMax <;> simpa only [orderChoice, penaOrder, if_true] using hn

theorem mieCoefficients_pena_inv {K : D1Kernel} {B : Backends} {p : Particle1} {backend w : String}
    {nMax : Option ℤ} {ri : Bool} {o : MieOut} (hb : backend.toLower = "pena")
    (h : mieCoefficients K B p backend w nMax ri = .ok o) : PenaRun K p o :=
  (mieCoefficients_pena_inv' hb h).1

theorem PenaRun.layers_cons {K : D1Kernel} {p : Particle1} {o : MieOut} (h : PenaRun K p o) :
    ∃ l rest, p.layers = l :: rest := by
  unfold Particle1.layers layersOf
  obtain ⟨r, rs, hr⟩ := List.exists_cons_of_ne_nil h.ne
  have := h.len
  cases he : p.epsLayers with
  | nil => rw [he, hr] at this; simp at this
  | cons e es => rw [hr]; simp

/-- The returned coefficients for a kernel with values `D`. -/
theorem PenaRun.coefs {K : D1Kernel} {D : ℂ → ℕ → ℂ} {p : Particle1} {o : MieOut} (h : PenaRun K p o)
    (hK : KernelFun K o.nMax.toNat D) {l : ℂ × ℂ} {rest : List (ℂ × ℂ)} (hl : p.layers = l :: rest) :
    o.a = (List.range o.nMax.toNat).map (fun i => coefFn D .tm (hFinal D l rest) (i + 1)) ∧
    o.b = (List.range o.nMax.toNat).map (fun i => coefFn D .te (hFinal D l rest) (i + 1)) := by
  have hn : ((o.nMax.toNat : ℕ) : ℤ) = o.nMax := Int.toNat_of_nonneg (by have := h.pos; omega)
  have h1 := h.run
  rw [← hn, miecoefPenaK_eq hK (by have := h.pos; omega) hl] at h1
  injection h1 with h1
  rw [Prod.mk.injEq] at h1
  exact ⟨h1.1.symm, h1.2.symm⟩

/-- A call with an explicit `n_max >= 1` and well-formed layers succeeds. -/
theorem mieCoefficients_pena_ok {K : D1Kernel} {D : ℂ → ℕ → ℂ} {B : Backends} {p : Particle1} {backend w : String}
    {n : ℕ} (hK : KernelFun K n D) (hb : backend.toLower = "pena") (hn : 1 ≤ n)
    (hinc : strictlyIncreasing p.rLayers) (hlen : p.epsLayers.length = p.rLayers.length)
    (hne : p.rLayers ≠ []) :
    ∃ o, mieCoefficients K B p backend w (some (n : ℤ)) = .ok o ∧ o.nMax = n := by
  obtain ⟨r, rs, hr⟩ := List.exists_cons_of_ne_nil hne
  obtain ⟨e, es, he⟩ : ∃ e es, p.epsLayers = e :: es := by
    cases hh : p.epsLayers with
    | nil => rw [hr, hh] at hlen; simp at hlen
    | cons e es => exact ⟨e, es, rfl⟩
  have hrun := miecoefPenaK_eq hK hn (k := p.k0 * csqrt p.epsEnv) (rs := r :: rs) (es := e :: es)
    (nEnv := csqrt p.epsEnv) (l := (csqrt e / csqrt p.epsEnv, p.k0 * csqrt p.epsEnv * r))
    (rest := layersOf (p.k0 * csqrt p.epsEnv) rs es (csqrt p.epsEnv)) rfl
  unfold mieCoefficients
  simp only [hb]
  rw [if_neg (by simp), if_neg (by simpa using hinc), if_neg (by simpa using hlen)]
  simp only [bind, Except.bind, pyIdx, hr, he, List.getElem?_cons_zero, orderChoice, orderRange, if_true]
  rw [if_neg (by omega), hrun]
  exact ⟨_, rfl, rfl⟩

theorem runClear_ne {D : ℂ → ℕ → ℂ} {n : ℕ} : ∀ (rest : List (ℂ × ℂ)) (st : HState), RunClear D n st rest →
    ∀ l ∈ rest, l.1 ≠ 0 ∧ l.2 ≠ 0 := by
  intro rest
  induction rest with
  | nil => intro st _ l h; simp at h
  | cons a rest ih =>
    intro st h l hl
    rcases List.mem_cons.1 hl with rfl | hl
    · have := h.1.curr.ne
      exact ⟨left_ne_zero_of_mul this, right_ne_zero_of_mul this⟩
    · exact ih _ h.2 l hl

theorem SolverClear.ne {D : ℂ → ℕ → ℂ} {n : ℕ} {layers : List (ℂ × ℂ)} (h : SolverClear D n layers) :
    ∀ l ∈ layers, l.1 ≠ 0 ∧ l.2 ≠ 0 := by
  cases layers with
  | nil => intro l hl; simp at hl
  | cons a rest =>
    intro l hl
    rcases List.mem_cons.1 hl with rfl | hl
    · have := h.1.ne
      exact ⟨left_ne_zero_of_mul this, right_ne_zero_of_mul this⟩
    · exact runClear_ne rest _ h.2 l hl

/-- The orders of the returned list. -/
theorem getElem?_order {n i : ℕ} (f : ℕ → ℂ) (h1 : 1 ≤ i) (hi : i ≤ n) :
    ((List.range n).map (fun j => f (j + 1)))[i - 1]? = some (f i) := by
  rw [List.getElem?_map, List.getElem?_range (by omega)]
  simp only [Option.map_some]
  congr 2
  omega

theorem csqrt_sq (e : ℂ) : csqrt e ^ 2 = e := by
  unfold csqrt
  rw [one_div]
  exact_mod_cast Complex.cpow_nat_inv_pow e (n := 2) (by norm_num)

theorem csqrt_ofReal {e : ℝ} (h : 0 ≤ e) : csqrt (e : ℂ) = (Real.sqrt e : ℝ) := by
  unfold csqrt
  rw [Real.sqrt_eq_rpow, Complex.ofReal_cpow h]
  norm_num

/-- A particle with positive radii and positive wavenumber in a transparent host. -/
structure RealHost (p : Particle1) (k0 e0 : ℝ) : Prop where
  k0_eq : p.k0 = k0
  k0_pos : 0 < k0
  env_eq : p.epsEnv = e0
  env_pos : 0 < e0
  radii : ∀ r ∈ p.rLayers, 0 < r

theorem crossSectionsOf_inv {K : D1Kernel} {B : Backends} {p : Particle1} {backend w : String}
    {nMax : Option ℤ} {c : CrossSections} (h : crossSectionsOf K B p backend w nMax = .ok c) :
    ∃ o, mieCoefficients K B p backend w nMax = .ok o ∧ c = crossSections o.k o.rS o.a o.b := by
  unfold crossSectionsOf at h
  cases hm : mieCoefficients K B p backend w nMax with
  | error e => rw [hm] at h; simp [Bind.bind, Except.bind] at h
  | ok o =>
    rw [hm] at h
    simp only [Bind.bind, Except.bind, Except.ok.injEq] at h
    exact ⟨o, rfl, h.symm⟩

end MieDiff
