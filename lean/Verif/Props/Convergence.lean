import Verif.Spec.Series
import Verif.Proofs.Solvable
import Verif.Props.Channel
import Verif.Props.CoreShell

/-!
# Solvability at every order (C68) and convergence with the truncation order (C67)

C68: a passive particle in a transparent host has exactly one scattering coefficient per order and type, so the
core-shell formulas of the torch and scipy backends never divide by zero and, with exact special functions, obey energy
conservation without further hypotheses.

C67: with exact special functions the coefficients fall off faster than every geometric sequence in the order, and the
returned cross sections differ from the full multipole series by at most `C r^n_max` for every `r > 0`, with a
constant that does not depend on the call.  Excluded are only particles with `eps_l + eps_(l+1) = 0` at some interface.
-/

namespace MieDiff

open Complex Spec Filter Topology

/-! ## Layers of a particle -/

theorem layers_ne {p : Particle1} {k0 e0 : ℝ} (hp : RealHost p k0 e0) (hz : ∀ e ∈ p.epsLayers, e ≠ 0) :
    ∀ l ∈ p.layers, l.1 ≠ 0 ∧ l.2 ≠ 0 := by
  intro l hl
  have hK := realHost_k hp
  have hKpos : 0 < k0 * Real.sqrt e0 := mul_pos hp.k0_pos (Real.sqrt_pos.2 hp.env_pos)
  have he0 : csqrt p.epsEnv ≠ 0 := by
    rw [hp.env_eq, csqrt_ofReal hp.env_pos.le]
    exact_mod_cast (Real.sqrt_pos.2 hp.env_pos).ne'
  obtain ⟨h1, h2⟩ := List.of_mem_zip hl
  obtain ⟨e, he, h1⟩ := List.mem_map.1 h1
  obtain ⟨r, hr, h2⟩ := List.mem_map.1 h2
  refine ⟨?_, ?_⟩
  · rw [← h1]
    refine div_ne_zero (fun h0 => hz e he ?_) he0
    rw [← csqrt_sq e, h0]; ring
  · rw [← h2, hK, ← ofReal_mul]
    exact_mod_cast (mul_pos hKpos (hp.radii r hr)).ne'

theorem layers_passive {p : Particle1} {k0 e0 : ℝ} (hp : RealHost p k0 e0) (hpass : ∀ e ∈ p.epsLayers, 0 ≤ e.im) :
    ∀ l ∈ p.layers, 0 ≤ (l.1 ^ 2).im := by
  intro l hl
  obtain ⟨h1, -⟩ := List.of_mem_zip hl
  obtain ⟨e, he, h1⟩ := List.mem_map.1 h1
  rw [← h1, div_pow, csqrt_sq, csqrt_sq, hp.env_eq, div_ofReal_im]
  exact div_nonneg (hpass e he) hp.env_pos.le

theorem layers_radiiOK {p : Particle1} {k0 e0 : ℝ} (hp : RealHost p k0 e0) (hinc : strictlyIncreasing p.rLayers)
    {l : ℂ × ℂ} {rest : List (ℂ × ℂ)} (hl : p.layers = l :: rest) : ∃ x0 : ℝ, 0 < x0 ∧ RadiiOK x0 (l :: rest) := by
  have hKpos : 0 < k0 * Real.sqrt e0 := mul_pos hp.k0_pos (Real.sqrt_pos.2 hp.env_pos)
  cases hr : p.rLayers with
  | nil => rw [show p.layers = [] by simp [Particle1.layers, layersOf, hr]] at hl; simp at hl
  | cons r rs =>
    cases he : p.epsLayers with
    | nil => rw [show p.layers = [] by simp [Particle1.layers, layersOf, he]] at hl; simp at hl
    | cons e es =>
      have hr0 : 0 < r := hp.radii r (by rw [hr]; simp)
      refine ⟨k0 * Real.sqrt e0 * r, mul_pos hKpos hr0, ?_⟩
      rw [← hl]
      unfold Particle1.layers
      rw [realHost_k hp, hr, he]
      refine ⟨k0 * Real.sqrt e0 * r, by push_cast; rfl, le_rfl, ?_⟩
      exact radiiOK_layers _ hKpos _ rs es r (by rw [← hr]; exact hinc)

/-! ## C68 -/

/-- C68: at every order, electric and magnetic, the interface problem of a passive particle in a transparent host has
exactly one scattering coefficient. -/
theorem C68_solvable {p : Particle1} {k0 e0 : ℝ} (hp : RealHost p k0 e0) (hinc : strictlyIncreasing p.rLayers)
    (hlen : p.epsLayers.length = p.rLayers.length) (hne : p.rLayers ≠ [])
    (hpass : ∀ e ∈ p.epsLayers, 0 ≤ e.im) (hz : ∀ e ∈ p.epsLayers, e ≠ 0) (q : Pol) (n : ℕ) :
    ∃! a, Solves q n p.layers a := by
  have hl := layers_ne hp hz
  obtain ⟨l, rest, h⟩ : ∃ l rest, p.layers = l :: rest := by
    obtain ⟨r, rs, hr⟩ := List.exists_cons_of_ne_nil hne
    cases he : p.epsLayers with
    | nil => rw [he, hr] at hlen; simp at hlen
    | cons e es => exact ⟨_, _, by unfold Particle1.layers layersOf; rw [hr, he]; rfl⟩
  obtain ⟨x0, hx0, hr⟩ := layers_radiiOK hp hinc h
  have hq := layers_passive hp hpass
  rw [h] at hl hq ⊢
  obtain ⟨a, ha⟩ := passive_solvable q n hx0 hr (fun l' h' => ⟨(hl l' h').1, hq l' h'⟩) (fun l' h' => (hl l' h').2)
  exact ⟨a, ha, fun a' ha' => ha'.unique hl ha⟩

/-- The passivity hypotheses hold for an absorbing core in a lossless shell; a gain layer can break solvability. -/
example : ∃ p : Particle1, RealHost p 1 2 ∧ strictlyIncreasing p.rLayers ∧
    p.epsLayers.length = p.rLayers.length ∧ p.rLayers ≠ [] ∧ (∀ e ∈ p.epsLayers, 0 ≤ e.im) ∧
    (∀ e ∈ p.epsLayers, e ≠ 0) ∧ ∃ e ∈ p.epsLayers, 0 < e.im := by
  refine ⟨⟨1, [1, 2], [-3 + I, 4], 2⟩, ⟨by norm_num, one_pos, by norm_num, two_pos, ?_⟩, ?_, rfl, by simp, ?_, ?_, ?_⟩
  · intro r hr
    simp only [List.mem_cons, List.not_mem_nil, or_false] at hr
    rcases hr with rfl | rfl <;> norm_num
  · simp [strictlyIncreasing]
  · intro e he
    simp only [List.mem_cons, List.not_mem_nil, or_false] at he
    rcases he with rfl | rfl <;> simp
  · intro e he
    simp only [List.mem_cons, List.not_mem_nil, or_false] at he
    rcases he with rfl | rfl
    · intro h0; have := congrArg im h0; simp at this
    · norm_num
  · exact ⟨-3 + I, by simp, by simp⟩

/-- What every successful call has checked and copied. -/
structure BasicRun (p : Particle1) (o : MieOut) : Prop where
  k : o.k = p.k0 * csqrt p.epsEnv
  inc : strictlyIncreasing p.rLayers
  len : p.epsLayers.length = p.rLayers.length
  ne : p.rLayers ≠ []

theorem mieCoefficients_basic {K : D1Kernel} {B : Backends} {p : Particle1} {backend w : String}
    {nMax : Option ℤ} {ri : Bool} {o : MieOut} (h : mieCoefficients K B p backend w nMax ri = .ok o) :
    BasicRun p o := by
  unfold mieCoefficients at h
  simp only at h
  split at h
  · simp at h
  split at h
  · simp at h
  rename_i h1
  split at h
  · simp at h
  rename_i h2
  simp only [not_not] at h1 h2
  simp only [Bind.bind, Except.bind] at h
  split at h
  · simp at h
  rename_i hr
  split at h
  · simp at h
  split at h
  · simp at h
  split at h
  · simp at h
  split at h
  · simp at h
  injection h with h
  subst h
  refine ⟨rfl, h1, h2, ?_⟩
  intro h0
  rw [h0] at hr
  simp [pyIdx] at hr

/-- Every order of the output solves the interface problem. -/
structure ExactRun (p : Particle1) (o : MieOut) : Prop where
  lenA : o.a.length = o.nMax.toNat
  lenB : o.b.length = o.nMax.toNat
  k : o.k = p.k0 * csqrt p.epsEnv
  coef : ∀ i, 1 ≤ i → i ≤ o.nMax.toNat → ∃ a b, o.a[i - 1]? = some a ∧ o.b[i - 1]? = some b ∧
    Solves .tm i p.layers a ∧ Solves .te i p.layers b

theorem ExactRun.of_pena {B : Backends} {p : Particle1} {backend w : String} {nMax : Option ℤ}
    {ri : Bool} {o : MieOut} (hb : backend.toLower = "pena")
    (h : mieCoefficients idealD1 B p backend w nMax ri = .ok o)
    (hc : SolverClear idealFn o.nMax.toNat p.layers) : ExactRun p o := by
  obtain ⟨la, lb, hi⟩ := C11_interface_conditions hb h hc
  refine ⟨la, lb, (mieCoefficients_pena_inv hb h).k, fun i h1 h2 => ?_⟩
  obtain ⟨a, b, ea, eb, sa, -, sb, -⟩ := hi i h1 h2
  exact ⟨a, b, ea, eb, sa, sb⟩

/-- A core-shell backend with exact special functions solves the interface problem wherever it is solvable. -/
theorem ExactRun.of_coreShell {K : D1Kernel} {B : Backends} {p : Particle1} {backend w : String}
    {nMax : Option ℤ} {ri : Bool} {o : MieOut} (hb : backend.toLower ≠ "pena")
    (h : mieCoefficients K B p backend w nMax ri = .ok o) (hpos : 1 ≤ o.nMax)
    (hS : ∀ S, selectBessel B backend w = .ok S → ∀ z ∈ csArgs p.layers, ExactAt S o.nMax.toNat z)
    (hne : ∀ l ∈ p.layers, l.1 ≠ 0 ∧ l.2 ≠ 0)
    (hsol : ∀ q i, 1 ≤ i → i ≤ o.nMax.toNat → ∃ a, Solves q i p.layers a) : ExactRun p o := by
  obtain ⟨m1, x, m2, y, run⟩ := mieCoefficients_cs_inv hb h
  obtain ⟨S, out, hsel, hm, ea, eb, -⟩ := run.run
  have hex := hS S hsel
  have hN : ((o.nMax.toNat : ℕ) : ℤ) = o.nMax := Int.toNat_of_nonneg (by omega)
  rw [← hN] at hm
  have hl := run.layers
  obtain ⟨a1, a2, a3, a4, n1, n2, n3, n4, hiff⟩ : ExactAt S o.nMax.toNat y ∧ ExactAt S o.nMax.toNat (m1 * x) ∧
      ExactAt S o.nMax.toNat (m2 * x) ∧ ExactAt S o.nMax.toNat (m2 * y) ∧ m1 ≠ 0 ∧ m2 ≠ 0 ∧ x ≠ 0 ∧ y ≠ 0 ∧
      ∀ q i a, Solves q i [(m1, x), (m2, y)] a ↔ Solves q i p.layers a := by
    rcases hl with hl | ⟨hl, rfl, rfl⟩
    · rw [hl] at hex hne ⊢
      have e1 := hne (m1, x) (by simp)
      have e2 := hne (m2, y) (by simp)
      exact ⟨hex _ (by simp [csArgs]), hex _ (by simp [csArgs]), hex _ (by simp [csArgs]), hex _ (by simp [csArgs]),
        e1.1, e2.1, e1.2, e2.2, fun _ _ _ => Iff.rfl⟩
    · rw [hl] at hex hne ⊢
      have e1 := hne (m1, x) (by simp)
      have z := hex (m1 * x) (by simp [csArgs])
      exact ⟨hex _ (by simp [csArgs]), z, z, z, e1.1, e1.1, e1.2, e1.2, fun q i a => solves_twice e1.1 e1.2⟩
  obtain ⟨lo, hout⟩ := C12_solves (by omega) a1 a2 a3 a4 hm
  refine ⟨by rw [ea, List.length_map, lo], by rw [eb, List.length_map, lo], (mieCoefficients_basic h).k, fun i h1 hi => ?_⟩
  obtain ⟨c, hc1, hc2, hc3⟩ := hout i h1 hi
  obtain ⟨d1, d2⟩ := det_ne_of_solves (n := i) n1 n2 n3 n4
  obtain ⟨a, sa⟩ := hsol .tm i h1 hi
  obtain ⟨b, sb⟩ := hsol .te i h1 hi
  refine ⟨c.a, c.b, by rw [ea, List.getElem?_map, hc1]; rfl, by rw [eb, List.getElem?_map, hc1]; rfl, ?_, ?_⟩
  · exact (hiff .tm i c.a).1 (hc2 (d1 a ((hiff .tm i a).2 sa)))
  · exact (hiff .te i c.b).1 (hc3 (d2 b ((hiff .te i b).2 sb)))

theorem ExactRun.forall_a {p : Particle1} {o : MieOut} (h : ExactRun p o) {P : ℂ → Prop}
    (hP : ∀ i a, Solves .tm i p.layers a → P a) : ∀ z ∈ o.a, P z := by
  intro z hz
  obtain ⟨j, hj, rfl⟩ := List.getElem_of_mem hz
  obtain ⟨a, b, e1, _, sa, _⟩ := h.coef (j + 1) (by omega) (by rw [← h.lenA]; omega)
  simp only [Nat.add_sub_cancel, List.getElem?_eq_getElem hj, Option.some.injEq] at e1
  rw [e1]; exact hP _ _ sa

theorem ExactRun.forall_b {p : Particle1} {o : MieOut} (h : ExactRun p o) {P : ℂ → Prop}
    (hP : ∀ i a, Solves .te i p.layers a → P a) : ∀ z ∈ o.b, P z := by
  intro z hz
  obtain ⟨j, hj, rfl⟩ := List.getElem_of_mem hz
  obtain ⟨a, b, _, e1, _, sb⟩ := h.coef (j + 1) (by omega) (by rw [← h.lenB]; omega)
  simp only [Nat.add_sub_cancel, List.getElem?_eq_getElem hj, Option.some.injEq] at e1
  rw [e1]; exact hP _ _ sb

/-- A call of a core-shell backend on a passive particle, with exact special functions. -/
theorem ExactRun.of_passive {K : D1Kernel} {B : Backends} {p : Particle1} {backend w : String}
    {nMax : Option ℤ} {ri : Bool} {o : MieOut} {k0 e0 : ℝ} (hb : backend.toLower ≠ "pena")
    (h : mieCoefficients K B p backend w nMax ri = .ok o) (hpos : 1 ≤ o.nMax)
    (hS : ∀ S, selectBessel B backend w = .ok S → ∀ z ∈ csArgs p.layers, ExactAt S o.nMax.toNat z)
    (hp : RealHost p k0 e0) (hpass : ∀ e ∈ p.epsLayers, 0 ≤ e.im) (hz : ∀ e ∈ p.epsLayers, e ≠ 0) :
    ExactRun p o := by
  have hB := mieCoefficients_basic h
  refine ExactRun.of_coreShell hb h hpos hS (layers_ne hp hz) fun q i _ _ => ?_
  exact (C68_solvable hp hB.inc hB.len hB.ne hpass hz q i).exists

/-- C68 for the torch and scipy backends with exact special functions, without any hypothesis on denominators: every
returned coefficient of a passive particle is the unique solution of the interface problem, satisfies
`|a_n|^2 <= Re a_n`, and with real permittivities `|a_n|^2 = Re a_n`. -/
theorem C68_core_shell {K : D1Kernel} {B : Backends} {p : Particle1} {backend w : String}
    {nMax : Option ℤ} {ri : Bool} {o : MieOut} {k0 e0 : ℝ} (hb : backend.toLower ≠ "pena")
    (h : mieCoefficients K B p backend w nMax ri = .ok o) (hpos : 1 ≤ o.nMax)
    (hS : ∀ S, selectBessel B backend w = .ok S → ∀ z ∈ csArgs p.layers, ExactAt S o.nMax.toNat z)
    (hp : RealHost p k0 e0) (hpass : ∀ e ∈ p.epsLayers, 0 ≤ e.im) (hz : ∀ e ∈ p.epsLayers, e ≠ 0) :
    (∀ i, 1 ≤ i → i ≤ o.nMax.toNat → ∃ a b, o.a[i - 1]? = some a ∧ o.b[i - 1]? = some b ∧
      Solves .tm i p.layers a ∧ (∀ a', Solves .tm i p.layers a' → a' = a) ∧
      Solves .te i p.layers b ∧ (∀ b', Solves .te i p.layers b' → b' = b)) ∧
    (∀ z, z ∈ o.a ∨ z ∈ o.b → ‖z‖ ^ 2 ≤ z.re) ∧
    ((∀ e ∈ p.epsLayers, e.im = 0) → ∀ z, z ∈ o.a ∨ z ∈ o.b → z.re = ‖z‖ ^ 2) := by
  have run := ExactRun.of_passive hb h hpos hS hp hpass hz
  have hB := mieCoefficients_basic h
  have hne := layers_ne hp hz
  refine ⟨fun i h1 hi => ?_, ?_, ?_⟩
  · obtain ⟨a, b, ea, eb, sa, sb⟩ := run.coef i h1 hi
    exact ⟨a, b, ea, eb, sa, fun a' h' => h'.unique hne sa, sb, fun b' h' => h'.unique hne sb⟩
  · have key : ∀ (q : Pol) i a, Solves q i p.layers a → ‖a‖ ^ 2 ≤ a.re := by
      intro q i a ha
      have := layers_energy (s := 1) hp hB.inc (fun e he => by rw [one_mul]; exact hpass e he) hne ha
      linarith
    rintro z (h | h)
    · exact run.forall_a (key .tm) z h
    · exact run.forall_b (key .te) z h
  · intro hreal
    have key : ∀ (q : Pol) i a, Solves q i p.layers a → a.re = ‖a‖ ^ 2 := by
      intro q i a ha
      have h1 := layers_energy (s := 1) hp hB.inc (fun e he => by rw [hreal e he, mul_zero]) hne ha
      have h2 := layers_energy (s := -1) hp hB.inc (fun e he => by rw [hreal e he, mul_zero]) hne ha
      linarith
    rintro z (h | h)
    · exact run.forall_a (key .tm) z h
    · exact run.forall_b (key .te) z h

/-- C66 for the torch and scipy backends with exact special functions. -/
theorem C66_core_shell {K : D1Kernel} {B : Backends} {p : Particle1} {backend w : String}
    {nMax : Option ℤ} {c : CrossSections} {k0 e0 : ℝ} (hb : backend.toLower ≠ "pena")
    (h : crossSectionsOf K B p backend w nMax = .ok c)
    (ho : ∀ o, mieCoefficients K B p backend w nMax = .ok o → 1 ≤ o.nMax ∧
      ∀ S, selectBessel B backend w = .ok S → ∀ z ∈ csArgs p.layers, ExactAt S o.nMax.toNat z)
    (hp : RealHost p k0 e0) (hpass : ∀ e ∈ p.epsLayers, 0 ≤ e.im) (hz : ∀ e ∈ p.epsLayers, e ≠ 0) :
    Limits (k0 * Real.sqrt e0) c.csExtMp.1.length c := by
  obtain ⟨o, hm, rfl⟩ := crossSectionsOf_inv h
  obtain ⟨hpos, hS⟩ := ho o hm
  have run := ExactRun.of_passive hb hm hpos hS hp hpass hz
  obtain ⟨-, hd, -⟩ := C68_core_shell hb hm hpos hS hp hpass hz
  have hk : o.k = ((k0 * Real.sqrt e0 : ℝ) : ℂ) := by rw [run.k, realHost_k hp]
  have hN : (crossSections o.k o.rS o.a o.b).csExtMp.1.length = o.nMax.toNat := by
    rw [hk, (C05_multipoles (k0 * Real.sqrt e0) o.rS o.a o.b).1]; simp [run.lenA]
  rw [hN, hk]
  exact limits_of_disc run.lenA run.lenB (fun z hz => hd z (Or.inl hz)) (fun z hz => hd z (Or.inr hz))

/-! ## C67 -/

theorem coef_eq {q : Pol} {n : ℕ} {layers : List (ℂ × ℂ)} {a : ℂ} (hl : ∀ l ∈ layers, l.1 ≠ 0 ∧ l.2 ≠ 0)
    (h : Solves q n layers a) : coef q n layers = a := by
  have hex : ∃ a, Solves q n layers a := ⟨a, h⟩
  rw [coef, dif_pos hex]
  exact hex.choose_spec.unique hl h

theorem coef_decay (q : Pol) {l : ℂ × ℂ} {rest : List (ℂ × ℂ)} (hd : DecayOK l rest) {r : ℝ} (hr : 0 < r) :
    ∃ C : ℝ, 0 ≤ C ∧ ∀ n, ‖coef q n (l :: rest)‖ ≤ C * r ^ n := by
  obtain ⟨C, hC, h⟩ := solves_decay q hd hr
  refine ⟨C, hC, fun n => ?_⟩
  by_cases hex : ∃ a, Solves q n (l :: rest) a
  · rw [coef, dif_pos hex]
    exact h n _ hex.choose_spec
  · rw [coef, dif_neg hex, norm_zero]
    positivity

/-- No interface joins permittivities that cancel: `eps_l + eps_(l+1) ≠ 0`, the host being the last one. -/
def NoCancel (p : Particle1) : Prop := ∀ q ∈ p.epsLayers.zip (p.epsLayers.tail ++ [p.epsEnv]), q.1 + q.2 ≠ 0

theorem decayOK_layers {K : ℝ} (hK : 0 < K) {e0 : ℝ} (h0 : 0 < e0) :
    ∀ (rs : List ℝ) (es : List ℂ) (r : ℝ) (e : ℂ), strictlyIncreasing (r :: rs) → 0 < r →
      es.length = rs.length → (∀ e' ∈ e :: es, e' ≠ 0) →
      (∀ q ∈ (e :: es).zip (es ++ [(e0 : ℂ)]), q.1 + q.2 ≠ 0) →
      DecayOK (csqrt e / csqrt (e0 : ℂ), (K : ℂ) * (r : ℂ)) (layersOf K rs es (csqrt (e0 : ℂ))) := by
  have he0 : csqrt (e0 : ℂ) ≠ 0 := by
    rw [csqrt_ofReal h0.le]; exact_mod_cast (Real.sqrt_pos.2 h0).ne'
  have hE : (e0 : ℂ) ≠ 0 := by exact_mod_cast h0.ne'
  have hm : ∀ e : ℂ, e ≠ 0 → csqrt e / csqrt (e0 : ℂ) ≠ 0 := by
    intro e he
    refine div_ne_zero (fun h => he ?_) he0
    rw [← csqrt_sq e, h]; ring
  have hx : ∀ r : ℝ, 0 < r → (K : ℂ) * (r : ℂ) ≠ 0 := by
    intro r hr
    rw [← ofReal_mul]; exact_mod_cast (mul_pos hK hr).ne'
  intro rs
  induction rs with
  | nil =>
    intro es r e _ hr hlen hz hq
    obtain rfl : es = [] := List.length_eq_zero_iff.1 hlen
    have := hq (e, (e0 : ℂ)) (by simp)
    refine ⟨hm e (hz e (by simp)), hx r hr, ?_⟩
    show (csqrt e / csqrt (e0 : ℂ)) ^ 2 + 1 ≠ 0
    rw [div_pow, csqrt_sq, csqrt_sq]
    intro h
    apply this
    field_simp at h
    simpa using h
  | cons r' rs ih =>
    intro es r e hinc hr hlen hz hq
    obtain ⟨e', es, rfl⟩ : ∃ e' es', es = e' :: es' := by
      cases es with
      | nil => simp at hlen
      | cons e' es' => exact ⟨e', es', rfl⟩
    have h1 := hq (e, e') (by simp)
    refine ⟨hm e (hz e (by simp)), hx r hr, ?_, ?_, ?_⟩
    · show (csqrt e / csqrt (e0 : ℂ)) ^ 2 + (csqrt e' / csqrt (e0 : ℂ)) ^ 2 ≠ 0
      rw [div_pow, div_pow, csqrt_sq, csqrt_sq, csqrt_sq, ← add_div]
      exact div_ne_zero h1 hE
    · show ‖(K : ℂ) * (r : ℂ)‖ < ‖(K : ℂ) * (r' : ℂ)‖
      rw [← ofReal_mul, ← ofReal_mul, norm_real, norm_real, Real.norm_of_nonneg (mul_pos hK hr).le,
        Real.norm_of_nonneg (mul_pos hK (hr.trans hinc.1)).le]
      exact mul_lt_mul_of_pos_left hinc.1 hK
    · refine ih es r' e' hinc.2 (hr.trans hinc.1) (by simpa using hlen) (fun x hx => hz x (by simp [hx])) ?_
      intro q hq'
      exact hq q (by rw [List.cons_append, List.zip_cons_cons]; exact List.mem_cons_of_mem _ hq')

theorem decayOK_particle {p : Particle1} {k0 e0 : ℝ} (hp : RealHost p k0 e0)
    (hinc : strictlyIncreasing p.rLayers) (hlen : p.epsLayers.length = p.rLayers.length) (hne : p.rLayers ≠ [])
    (hz : ∀ e ∈ p.epsLayers, e ≠ 0) (hq : NoCancel p) :
    ∃ l rest, p.layers = l :: rest ∧ DecayOK l rest := by
  have hKpos : 0 < k0 * Real.sqrt e0 := mul_pos hp.k0_pos (Real.sqrt_pos.2 hp.env_pos)
  obtain ⟨r, rs, hr⟩ := List.exists_cons_of_ne_nil hne
  cases he : p.epsLayers with
  | nil => rw [he, hr] at hlen; simp at hlen
  | cons e es =>
    unfold NoCancel at hq
    rw [he, hp.env_eq] at hq
    rw [hr] at hinc
    rw [he, hr] at hlen
    rw [he] at hz
    refine ⟨_, _, ?_, decayOK_layers hKpos hp.env_pos rs es r e hinc (hp.radii r (by rw [hr]; simp))
      (by simpa using hlen) hz hq⟩
    unfold Particle1.layers
    rw [realHost_k hp, hr, he, hp.env_eq]
    rfl

/-- C67, coefficients: for every `r > 0` there is one constant such that in every call with exact logarithmic
derivatives (pena) or exact special functions (torch, scipy), at every order, `|a_n| <= C r^n` and `|b_n| <= C r^n`. -/
theorem C67_coefficients {p : Particle1} {k0 e0 : ℝ} (hp : RealHost p k0 e0)
    (hz : ∀ e ∈ p.epsLayers, e ≠ 0) (hq : NoCancel p) {r : ℝ} (hr : 0 < r) :
    ∃ C : ℝ, ∀ {K : D1Kernel} {B : Backends} {backend w : String} {nMax : Option ℤ} {ri : Bool} {o : MieOut},
      mieCoefficients K B p backend w nMax ri = .ok o → ExactRun p o → ∀ i, 1 ≤ i → i ≤ o.nMax.toNat →
      ‖o.a.getD (i - 1) 0‖ ≤ C * r ^ i ∧ ‖o.b.getD (i - 1) 0‖ ≤ C * r ^ i := by
  by_cases hok : strictlyIncreasing p.rLayers ∧ p.epsLayers.length = p.rLayers.length ∧ p.rLayers ≠ []
  · obtain ⟨l, rest, hl, hd⟩ := decayOK_particle hp hok.1 hok.2.1 hok.2.2 hz hq
    obtain ⟨C1, h1, hC1⟩ := solves_decay .tm hd hr
    obtain ⟨C2, h2, hC2⟩ := solves_decay .te hd hr
    refine ⟨C1 + C2, ?_⟩
    intro K B backend w nMax ri o _ run i hi1 hi2
    obtain ⟨a, b, ea, eb, sa, sb⟩ := run.coef i hi1 hi2
    rw [hl] at sa sb
    have hri : 0 < r ^ i := pow_pos hr i
    rw [List.getD_eq_getElem?_getD, List.getD_eq_getElem?_getD, ea, eb]
    exact ⟨(hC1 i a sa).trans (mul_le_mul_of_nonneg_right (by linarith) hri.le),
      (hC2 i b sb).trans (mul_le_mul_of_nonneg_right (by linarith) hri.le)⟩
  · refine ⟨0, ?_⟩
    intro K B backend w nMax ri o h
    have hB := mieCoefficients_basic h
    exact absurd ⟨hB.inc, hB.len, hB.ne⟩ hok

theorem odd_le_pow (i : ℕ) : (2 * ((i : ℝ) + 1) + 1) ≤ 3 * 2 ^ (i + 1) := by
  induction i with
  | zero => norm_num
  | succ i ih =>
    push_cast
    rw [pow_succ]
    have : (0 : ℝ) ≤ 3 * 2 ^ (i + 1) - 2 := by
      have : (1 : ℝ) ≤ 2 ^ (i + 1) := one_le_pow₀ (by norm_num)
      linarith
    linarith

/-- The terms of both series decay geometrically. -/
theorem term_decay (k : ℝ) {l : ℂ × ℂ} {rest : List (ℂ × ℂ)} (hd : DecayOK l rest) {r : ℝ} (hr : 0 < r) (hr1 : r < 1) :
    ∃ D : ℝ, ∀ i, ‖extTerm k (l :: rest) i‖ ≤ D * r ^ i ∧ ‖scaTerm k (l :: rest) i‖ ≤ D * r ^ i := by
  obtain ⟨C1, h1, hC1⟩ := coef_decay .tm hd (half_pos hr)
  obtain ⟨C2, h2, hC2⟩ := coef_decay .te hd (half_pos hr)
  have hpi := Real.pi_pos
  refine ⟨2 * Real.pi / k ^ 2 * 3 * (C1 + C2 + C1 ^ 2 + C2 ^ 2), fun i => ?_⟩
  set a := coef .tm (i + 1) (l :: rest) with ha
  set b := coef .te (i + 1) (l :: rest) with hb
  set t := (r / 2) ^ (i + 1) with ht
  have t0 : 0 < t := pow_pos (half_pos hr) _
  have t1 : t ≤ 1 := pow_le_one₀ (half_pos hr).le (by linarith)
  have na : ‖a‖ ≤ C1 * t := hC1 (i + 1)
  have nb : ‖b‖ ≤ C2 * t := hC2 (i + 1)
  have sq : ∀ {C : ℝ} {z : ℂ}, 0 ≤ C → ‖z‖ ≤ C * t → ‖z‖ ^ 2 ≤ C ^ 2 * t := by
    intro C z hC hz
    have : ‖z‖ ^ 2 ≤ (C * t) ^ 2 := pow_le_pow_left₀ (norm_nonneg _) hz 2
    nlinarith [mul_nonneg (sq_nonneg C) (mul_nonneg t0.le (sub_nonneg.2 t1))]
  have w0 : 0 ≤ 2 * Real.pi / k ^ 2 * (2 * ((i : ℝ) + 1) + 1) := by positivity
  have hS : 0 ≤ C1 + C2 + C1 ^ 2 + C2 ^ 2 := by positivity
  have key : ∀ y : ℝ, |y| ≤ (C1 + C2 + C1 ^ 2 + C2 ^ 2) * t →
      ‖2 * Real.pi / k ^ 2 * (2 * ((i : ℝ) + 1) + 1) * y‖ ≤
        2 * Real.pi / k ^ 2 * 3 * (C1 + C2 + C1 ^ 2 + C2 ^ 2) * r ^ i := by
    intro y hy
    rw [Real.norm_eq_abs, abs_mul, abs_of_nonneg w0]
    have hri : r ^ (i + 1) ≤ r ^ i := pow_le_pow_of_le_one hr.le hr1.le (by omega)
    have e1 : (2 * ((i : ℝ) + 1) + 1) * t ≤ 3 * r ^ (i + 1) := by
      have := mul_le_mul_of_nonneg_right (odd_le_pow i) t0.le
      rw [mul_assoc 3, ht, ← mul_pow, mul_div_cancel₀ r two_ne_zero] at this
      exact this
    have wk : 0 ≤ 2 * Real.pi / k ^ 2 := by positivity
    calc 2 * Real.pi / k ^ 2 * (2 * ((i : ℝ) + 1) + 1) * |y|
        ≤ 2 * Real.pi / k ^ 2 * (2 * ((i : ℝ) + 1) + 1) * ((C1 + C2 + C1 ^ 2 + C2 ^ 2) * t) :=
          mul_le_mul_of_nonneg_left hy w0
      _ = 2 * Real.pi / k ^ 2 * (C1 + C2 + C1 ^ 2 + C2 ^ 2) * ((2 * ((i : ℝ) + 1) + 1) * t) := by ring
      _ ≤ 2 * Real.pi / k ^ 2 * (C1 + C2 + C1 ^ 2 + C2 ^ 2) * (3 * r ^ i) :=
          mul_le_mul_of_nonneg_left (e1.trans (by linarith)) (mul_nonneg wk hS)
      _ = _ := by ring
  constructor
  · refine key (a.re + b.re) ?_
    have i1 := abs_re_le_norm a
    have i2 := abs_re_le_norm b
    have i3 := abs_add_le a.re b.re
    nlinarith [mul_nonneg (sq_nonneg C1) t0.le, mul_nonneg (sq_nonneg C2) t0.le]
  · refine key (‖a‖ ^ 2 + ‖b‖ ^ 2) ?_
    rw [abs_of_nonneg (by positivity)]
    have i1 := sq h1 na
    have i2 := sq h2 nb
    nlinarith [mul_nonneg h1 t0.le, mul_nonneg h2 t0.le]

theorem summable_of_geo {f : ℕ → ℝ} {D r : ℝ} (hr : 0 < r) (hr1 : r < 1) (h : ∀ i, ‖f i‖ ≤ D * r ^ i) :
    Summable f :=
  Summable.of_norm_bounded ((summable_geometric_of_lt_one hr.le hr1).mul_left D) h

theorem tail_of_geo {f : ℕ → ℝ} {D r : ℝ} (hr : 0 < r) (hr1 : r < 1) (h : ∀ i, ‖f i‖ ≤ D * r ^ i) (N : ℕ) :
    |∑ i ∈ Finset.range N, f i - ∑' i, f i| ≤ D * (1 - r)⁻¹ * r ^ N := by
  have hs := summable_of_geo hr hr1 h
  have e := hs.sum_add_tsum_nat_add N
  have hg : HasSum (fun i => D * r ^ N * r ^ i) (D * r ^ N * (1 - r)⁻¹) :=
    (hasSum_geometric_of_lt_one hr.le hr1).mul_left _
  have hb := tsum_of_norm_bounded (f := fun i => f (i + N)) hg (fun i => by
    refine (h (i + N)).trans (le_of_eq ?_)
    rw [pow_add]; ring)
  rw [← e, sub_add_cancel_left, abs_neg, ← Real.norm_eq_abs]
  refine hb.trans (le_of_eq (by ring))

/-- The cross sections of an exact run are partial sums of the full series. -/
theorem exactRun_sums {p : Particle1} {o : MieOut} {k0 e0 : ℝ} (run : ExactRun p o) (hp : RealHost p k0 e0)
    (hne : ∀ l ∈ p.layers, l.1 ≠ 0 ∧ l.2 ≠ 0) :
    (crossSections o.k o.rS o.a o.b).csExt =
      ∑ i ∈ Finset.range o.nMax.toNat, extTerm (k0 * Real.sqrt e0) p.layers i ∧
    (crossSections o.k o.rS o.a o.b).csSca =
      ∑ i ∈ Finset.range o.nMax.toNat, scaTerm (k0 * Real.sqrt e0) p.layers i := by
  have hk : o.k = ((k0 * Real.sqrt e0 : ℝ) : ℂ) := by rw [run.k, realHost_k hp]
  obtain ⟨m1, m2, m3⟩ := C05_multipoles (k0 * Real.sqrt e0) o.rS o.a o.b
  obtain ⟨t1, t2, t3⟩ := C05_totals o.k o.rS o.a o.b
  have hcoef : ∀ i, i < o.nMax.toNat → o.a.getD i 0 = coef .tm (i + 1) p.layers ∧
      o.b.getD i 0 = coef .te (i + 1) p.layers := by
    intro i hi
    obtain ⟨a, b, ea, eb, sa, sb⟩ := run.coef (i + 1) (by omega) (by omega)
    rw [Nat.add_sub_cancel] at ea eb
    rw [List.getD_eq_getElem?_getD, List.getD_eq_getElem?_getD, ea, eb]
    exact ⟨(coef_eq hne sa).symm, (coef_eq hne sb).symm⟩
  have key : ∀ f : ℂ → ℝ,
      (o.a.mapIdx fun (j : ℕ) z => 2 * Real.pi / (k0 * Real.sqrt e0) ^ 2 * (2 * ((j : ℝ) + 1) + 1) * f z).sum +
      (o.b.mapIdx fun (j : ℕ) z => 2 * Real.pi / (k0 * Real.sqrt e0) ^ 2 * (2 * ((j : ℝ) + 1) + 1) * f z).sum =
      ∑ i ∈ Finset.range o.nMax.toNat, 2 * Real.pi / (k0 * Real.sqrt e0) ^ 2 * (2 * ((i : ℝ) + 1) + 1) *
        (f (coef .tm (i + 1) p.layers) + f (coef .te (i + 1) p.layers)) := by
    intro f
    rw [sum_mapIdx (fun (j : ℕ) z => 2 * Real.pi / (k0 * Real.sqrt e0) ^ 2 * (2 * ((j : ℝ) + 1) + 1) * f z),
      sum_mapIdx (fun (j : ℕ) z => 2 * Real.pi / (k0 * Real.sqrt e0) ^ 2 * (2 * ((j : ℝ) + 1) + 1) * f z),
      run.lenA, run.lenB, ← Finset.sum_add_distrib]
    refine Finset.sum_congr rfl fun i hi => ?_
    obtain ⟨h1, h2⟩ := hcoef i (Finset.mem_range.1 hi)
    rw [h1, h2]; ring
  constructor
  · rw [t1, hk, m1]; exact key fun z => z.re
  · rw [t2, hk, m2]; exact key fun z => ‖z‖ ^ 2

/-- Distance of returned cross sections from the full series. -/
structure Near (c : CrossSections) (k : ℝ) (layers : List (ℂ × ℂ)) (d : ℝ) : Prop where
  ext : |c.csExt - csExtFull k layers| ≤ d
  sca : |c.csSca - csScaFull k layers| ≤ d
  abs : |c.csAbs - (csExtFull k layers - csScaFull k layers)| ≤ d

/-- The full series exist (absolutely). -/
theorem C67_summable {p : Particle1} {k0 e0 : ℝ} (hp : RealHost p k0 e0) (hinc : strictlyIncreasing p.rLayers)
    (hlen : p.epsLayers.length = p.rLayers.length) (hne : p.rLayers ≠ [])
    (hz : ∀ e ∈ p.epsLayers, e ≠ 0) (hq : NoCancel p) :
    Summable (extTerm (k0 * Real.sqrt e0) p.layers) ∧ Summable (scaTerm (k0 * Real.sqrt e0) p.layers) ∧
    ∀ᶠ n : ℕ in atTop, ∀ q, ∃! a, Solves q n p.layers a := by
  obtain ⟨l, rest, hl, hd⟩ := decayOK_particle hp hinc hlen hne hz hq
  obtain ⟨D, hD⟩ := term_decay (k0 * Real.sqrt e0) hd (r := 1 / 2) (by norm_num) (by norm_num)
  rw [hl]
  refine ⟨summable_of_geo (r := 1 / 2) (by norm_num) (by norm_num) fun i => (hD i).1,
    summable_of_geo (r := 1 / 2) (by norm_num) (by norm_num) fun i => (hD i).2, ?_⟩
  filter_upwards [eventually_solvable .tm hd, eventually_solvable .te hd] with n h1 h2
  intro q
  cases q
  · obtain ⟨a, ha⟩ := h1; exact ⟨a, ha, fun a' h' => h'.unique hd.ne ha⟩
  · obtain ⟨a, ha⟩ := h2; exact ⟨a, ha, fun a' h' => h'.unique hd.ne ha⟩

theorem exactRun_near {p : Particle1} {k0 e0 : ℝ} (hp : RealHost p k0 e0)
    (hz : ∀ e ∈ p.epsLayers, e ≠ 0) (hq : NoCancel p) {r : ℝ} (hr : 0 < r) (hr1 : r < 1) :
    ∃ C : ℝ, ∀ {K : D1Kernel} {B : Backends} {backend w : String} {nMax : Option ℤ} {ri : Bool} {o : MieOut},
      mieCoefficients K B p backend w nMax ri = .ok o → ExactRun p o →
      Near (crossSections o.k o.rS o.a o.b) (k0 * Real.sqrt e0) p.layers (C * r ^ o.nMax.toNat) := by
  by_cases hok : strictlyIncreasing p.rLayers ∧ p.epsLayers.length = p.rLayers.length ∧ p.rLayers ≠ []
  swap
  · refine ⟨0, ?_⟩
    intro K B backend w nMax ri o h
    have hB := mieCoefficients_basic h
    exact absurd ⟨hB.inc, hB.len, hB.ne⟩ hok
  obtain ⟨l, rest, hl, hd⟩ := decayOK_particle hp hok.1 hok.2.1 hok.2.2 hz hq
  obtain ⟨D, hD⟩ := term_decay (k0 * Real.sqrt e0) hd hr hr1
  refine ⟨2 * (D * (1 - r)⁻¹), ?_⟩
  intro K B backend w nMax ri o _ run
  obtain ⟨e1, e2⟩ := exactRun_sums run hp (layers_ne hp hz)
  have b1 := tail_of_geo hr hr1 (fun i => (hD i).1) o.nMax.toNat
  have b2 := tail_of_geo hr hr1 (fun i => (hD i).2) o.nMax.toNat
  rw [← hl] at b1 b2
  rw [← e1] at b1
  rw [← e2] at b2
  have p1 := (abs_nonneg _).trans b1
  refine ⟨b1.trans (by linarith), b2.trans (by linarith), ?_⟩
  have e3 := C05_ext_eq_sca_add_abs o.k o.rS o.a o.b
  have : (crossSections o.k o.rS o.a o.b).csAbs - (csExtFull (k0 * Real.sqrt e0) p.layers -
      csScaFull (k0 * Real.sqrt e0) p.layers) =
      ((crossSections o.k o.rS o.a o.b).csExt - csExtFull (k0 * Real.sqrt e0) p.layers) -
      ((crossSections o.k o.rS o.a o.b).csSca - csScaFull (k0 * Real.sqrt e0) p.layers) := by linarith
  rw [this]
  refine (abs_sub _ _).trans ?_
  have b1' : |(crossSections o.k o.rS o.a o.b).csExt - csExtFull (k0 * Real.sqrt e0) p.layers| ≤ _ := b1
  have b2' : |(crossSections o.k o.rS o.a o.b).csSca - csScaFull (k0 * Real.sqrt e0) p.layers| ≤ _ := b2
  linarith

/-- C67 for the pena backend with exact logarithmic derivatives: for every `0 < r < 1` there is one constant such that
the cross sections of every call whose guards stay inactive are within `C r^n_max` of the full series. -/
theorem C67_pena {p : Particle1} {k0 e0 : ℝ} (hp : RealHost p k0 e0)
    (hz : ∀ e ∈ p.epsLayers, e ≠ 0) (hq : NoCancel p) {r : ℝ} (hr : 0 < r) (hr1 : r < 1) :
    ∃ C : ℝ, ∀ {B : Backends} {backend w : String} {nMax : Option ℤ} {o : MieOut} {c : CrossSections},
      backend.toLower = "pena" → mieCoefficients idealD1 B p backend w nMax = .ok o →
      crossSectionsOf idealD1 B p backend w nMax = .ok c → SolverClear idealFn o.nMax.toNat p.layers →
      Near c (k0 * Real.sqrt e0) p.layers (C * r ^ o.nMax.toNat) := by
  obtain ⟨C, hC⟩ := exactRun_near hp hz hq hr hr1
  refine ⟨C, ?_⟩
  intro B backend w nMax o c hb ho hc hcl
  obtain ⟨o', ho', rfl⟩ := crossSectionsOf_inv hc
  rw [ho] at ho'
  injection ho' with e
  subst e
  exact hC ho (ExactRun.of_pena hb ho hcl)

/-- C67 for the torch and scipy backends with exact special functions and a passive particle. -/
theorem C67_core_shell {p : Particle1} {k0 e0 : ℝ} (hp : RealHost p k0 e0) (hpass : ∀ e ∈ p.epsLayers, 0 ≤ e.im)
    (hz : ∀ e ∈ p.epsLayers, e ≠ 0) (hq : NoCancel p) {r : ℝ} (hr : 0 < r) (hr1 : r < 1) :
    ∃ C : ℝ, ∀ {K : D1Kernel} {B : Backends} {backend w : String} {nMax : Option ℤ} {o : MieOut}
      {c : CrossSections},
      backend.toLower ≠ "pena" → mieCoefficients K B p backend w nMax = .ok o → 1 ≤ o.nMax →
      crossSectionsOf K B p backend w nMax = .ok c →
      (∀ S, selectBessel B backend w = .ok S → ∀ z ∈ csArgs p.layers, ExactAt S o.nMax.toNat z) →
      Near c (k0 * Real.sqrt e0) p.layers (C * r ^ o.nMax.toNat) := by
  obtain ⟨C, hC⟩ := exactRun_near hp hz hq hr hr1
  refine ⟨C, ?_⟩
  intro K B backend w nMax o c hb ho hpos hc hS
  obtain ⟨o', ho', rfl⟩ := crossSectionsOf_inv hc
  rw [ho] at ho'
  injection ho' with e
  subst e
  exact hC ho (ExactRun.of_passive hb ho hpos hS hp hpass hz)

/-- C67, limit: with the torch or scipy backend, exact special functions and a passive particle, the cross sections for
`n_max = 1, 2, 3, ...` converge to the full series. -/
theorem C67_limit {K : D1Kernel} {B : Backends} {p : Particle1} {backend w : String} {k0 e0 : ℝ}
    {c : ℕ → CrossSections} (hp : RealHost p k0 e0) (hpass : ∀ e ∈ p.epsLayers, 0 ≤ e.im)
    (hz : ∀ e ∈ p.epsLayers, e ≠ 0) (hq : NoCancel p) (hb : backend.toLower ≠ "pena")
    (hc : ∀ n : ℕ, crossSectionsOf K B p backend w (some ((n + 1 : ℕ) : ℤ)) = .ok (c n))
    (hS : ∀ S, selectBessel B backend w = .ok S → ∀ n, ∀ z ∈ csArgs p.layers, ExactAt S n z) :
    Tendsto (fun n => (c n).csExt) atTop (𝓝 (csExtFull (k0 * Real.sqrt e0) p.layers)) ∧
    Tendsto (fun n => (c n).csSca) atTop (𝓝 (csScaFull (k0 * Real.sqrt e0) p.layers)) ∧
    Tendsto (fun n => (c n).csAbs) atTop
      (𝓝 (csExtFull (k0 * Real.sqrt e0) p.layers - csScaFull (k0 * Real.sqrt e0) p.layers)) := by
  obtain ⟨C, hC⟩ := C67_core_shell hp hpass hz hq (r := 1 / 2) (by norm_num) (by norm_num)
  have near : ∀ n, Near (c n) (k0 * Real.sqrt e0) p.layers (C * (1 / 2) ^ (n + 1)) := by
    intro n
    obtain ⟨o, ho, -⟩ := crossSectionsOf_inv (hc n)
    obtain ⟨m1, x, m2, y, run⟩ := mieCoefficients_cs_inv hb ho
    have hn : o.nMax = ((n + 1 : ℕ) : ℤ) := by
      have := run.order
      simp only [orderChoice, Except.ok.injEq] at this
      exact this.symm
    have := hC hb ho (by rw [hn]; omega) (hc n) (fun S hs => hS S hs _)
    rwa [hn, Int.toNat_natCast] at this
  have lim : Tendsto (fun n : ℕ => C * (1 / 2 : ℝ) ^ (n + 1)) atTop (𝓝 0) := by
    have h := tendsto_pow_atTop_nhds_zero_of_lt_one (r := (1 / 2 : ℝ)) (by norm_num) (by norm_num)
    simpa using ((tendsto_add_atTop_iff_nat 1).2 h).const_mul C
  refine ⟨?_, ?_, ?_⟩ <;> rw [tendsto_iff_norm_sub_tendsto_zero]
  · exact squeeze_zero (fun _ => norm_nonneg _) (fun n => (near n).ext) lim
  · exact squeeze_zero (fun _ => norm_nonneg _) (fun n => (near n).sca) lim
  · exact squeeze_zero (fun _ => norm_nonneg _) (fun n => (near n).abs) lim

/-- The limit statement applies to a core-shell particle (indices 9 and 3) at all `n_max`. -/
example : ∃ c : ℕ → CrossSections,
    (∀ n : ℕ, crossSectionsOf codeD1 exactBackends demoParticle "torch" "recurrence" (some ((n + 1 : ℕ) : ℤ)) =
      .ok (c n)) ∧
    Tendsto (fun n => (c n).csExt) atTop (𝓝 (csExtFull 1 demoParticle.layers)) ∧
    ∀ n, (c n).csAbs = 0 := by
  have hqp := qp_odd.big
  have hz : ∀ e ∈ demoParticle.epsLayers, e ≠ 0 := by
    intro e he
    simp only [demoParticle, List.mem_cons, List.not_mem_nil, or_false] at he
    rcases he with rfl | rfl <;> norm_num
  have hreal : ∀ e ∈ demoParticle.epsLayers, e.im = 0 := by
    intro e he
    simp only [demoParticle, List.mem_cons, List.not_mem_nil, or_false] at he
    rcases he with rfl | rfl <;> simp
  have hpass : ∀ e ∈ demoParticle.epsLayers, 0 ≤ e.im := fun e he => (hreal e he).ge
  have hargs : ∀ z ∈ csArgs demoParticle.layers, z ≠ 0 := by
    have h := layers_ne demo_realHost hz
    rw [demo_layers] at h ⊢
    have h1 := h (9, ((qp / 3 : ℝ) : ℂ)) (by simp [demoLayers])
    have h2 := h (3, (qp : ℂ)) (by simp [demoLayers])
    intro z hz
    simp only [csArgs, demoLayers, List.mem_cons, List.not_mem_nil, or_false] at hz
    rcases hz with rfl | rfl | rfl | rfl
    · exact h2.2
    · exact mul_ne_zero h1.1 h1.2
    · exact mul_ne_zero h2.1 h1.2
    · exact mul_ne_zero h2.1 h2.2
  have hq : NoCancel demoParticle := by
    intro q hq
    simp only [demoParticle, List.tail_cons, List.cons_append, List.nil_append, List.zip_cons_cons, List.zip_nil_left,
      List.mem_cons, List.not_mem_nil, or_false] at hq
    rcases hq with rfl | rfl <;> norm_num
  have hb : "torch".toLower ≠ "pena" := by decide +kernel
  have hsel : ∀ S, selectBessel exactBackends "torch" "recurrence" = .ok S → S = exactBessel := by
    intro S hS
    have ht : "torch".toLower = "torch" := by decide +kernel
    have hw : "recurrence".toLower = "recurrence" := by decide +kernel
    simp only [selectBessel, ht, hw, exactBackends] at hS
    simpa using hS.symm
  choose o ho hon using fun n : ℕ => mieCoefficients_torch_ok (K := codeD1) (p := demoParticle) (n := n) rfl rfl
    (by show qp / 3 < qp; linarith) hargs
  have hc : ∀ n : ℕ, crossSectionsOf codeD1 exactBackends demoParticle "torch" "recurrence"
      (some ((n + 1 : ℕ) : ℤ)) = .ok (crossSections (o n).k (o n).rS (o n).a (o n).b) := by
    intro n
    unfold crossSectionsOf
    rw [ho n]; rfl
  have hex : ∀ S, selectBessel exactBackends "torch" "recurrence" = .ok S → ∀ n, ∀ z ∈ csArgs demoParticle.layers,
      ExactAt S n z := by
    intro S hS n z hz'
    rw [hsel S hS]
    exact exactBessel_at (hargs z hz')
  refine ⟨_, hc, ?_, fun n => ?_⟩
  · have := (C67_limit demo_realHost hpass hz hq hb hc hex).1
    rwa [Real.sqrt_one, mul_one] at this
  · have hpos : 1 ≤ (o n).nMax := by rw [hon n]; omega
    have run := ExactRun.of_passive hb (ho n) hpos (fun S hS => hex S hS _) demo_realHost hpass hz
    obtain ⟨-, -, hl⟩ := C68_core_shell hb (ho n) hpos (fun S hS => hex S hS _) demo_realHost hpass hz
    have hl := hl hreal
    rw [run.k, realHost_k demo_realHost, csAbs_eq]
    rw [Finset.sum_eq_zero, Finset.sum_eq_zero, add_zero]
    · intro i hi
      have hi := Finset.mem_range.1 hi
      have := hl (o n).b[i] (Or.inr (List.getElem_mem _))
      simp [List.getD_eq_getElem?_getD, hi, this]
    · intro i hi
      have hi := Finset.mem_range.1 hi
      have := hl (o n).a[i] (Or.inl (List.getElem_mem _))
      simp [List.getD_eq_getElem?_getD, hi, this]

end MieDiff
