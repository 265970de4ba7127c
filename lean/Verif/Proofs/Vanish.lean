import Verif.Proofs.Rayleigh
import Verif.Proofs.Solvable
import Verif.Proofs.Smooth
import Verif.Props.Convergence
import Mathlib.Analysis.Asymptotics.Lemmas

/-!
# Layers of vanishing volume in the interface problem
-/

namespace MieDiff

open Complex Spec Filter Topology Nat Asymptotics
open scoped ContDiff

/-! ## Superposition -/

def waveAdd (u v : Wave) : Wave := ⟨u.d + v.d, u.a + v.a⟩

theorem cont_add {q : Pol} {n : ℕ} {m m' x : ℂ} {u v u' v' : Wave} (h : Cont q n m m' x u u')
    (k : Cont q n m m' x v v') : Cont q n m m' x (waveAdd u v) (waveAdd u' v') := by
  cases q <;> obtain ⟨h1, h2⟩ := h <;> obtain ⟨k1, k2⟩ := k <;>
    simp only [Cont, Wave.val, Wave.der, waveAdd] at h1 h2 k1 k2 ⊢ <;>
    exact ⟨by linear_combination h1 + k1, by linear_combination h2 + k2⟩

theorem chain_add {q : Pol} {n : ℕ} : ∀ {layers : List (ℂ × ℂ)} {u v u' v' : Wave}, Chain q n u layers u' →
    Chain q n v layers v' → Chain q n (waveAdd u v) layers (waveAdd u' v') := by
  intro layers
  induction layers with
  | nil => intro u v u' v' h; exact h.elim
  | cons l rest ih =>
    intro u v u' v' h k
    obtain ⟨m, x⟩ := l
    cases rest with
    | nil => exact cont_add h k
    | cons l' rest =>
      obtain ⟨w, h1, h2⟩ := h
      obtain ⟨z, k1, k2⟩ := k
      exact ⟨waveAdd w z, cont_add h1 k1, ih h2 k2⟩

/-! ## A vanishing core -/

/-- What a small core leaves in the next layer: the wave there is regular up to `kappa^(2n+1)`. -/
theorem core_small {ι : Type*} {F : Filter ι} [F.NeBot] {κ : ι → ℂ} (hκ : Tendsto κ F (𝓝[≠] 0)) {q : Pol} {n : ℕ}
    (hn : 1 ≤ n) {m m' : ℂ} (hm : m ≠ 0) (hm' : m' ≠ 0) (hres : n * sEps q m + ((n : ℂ) + 1) * sEps q m' ≠ 0)
    {w : ι → Wave} (hc : ∀ᶠ i in F, Cont q n m m' (κ i) ⟨1, 0⟩ (w i)) : ∃ D α, D ≠ 0 ∧ WaveLim F κ n w D α := by
  have h1 : WaveLim F κ n (fun _ => ⟨1, 0⟩) 1 0 := ⟨tendsto_const_nhds, by simp⟩
  obtain ⟨D, α, h2, h3, h4⟩ := cont_small hκ hn hm hm' one_ne_zero h1 (w' := w) (by simpa using hc)
  refine ⟨D, α, ?_, h2⟩
  rintro rfl
  have hK := dfac_ne n
  have hn1 : (n : ℂ) + 1 ≠ 0 := by exact_mod_cast Nat.succ_ne_zero n
  have hA : (toPot q n m 1 0).A ≠ 0 := by
    cases q <;> simp [toPot, hm, hK, hn1]
  have hB : (toPot q n m 1 0).B = 0 := by cases q <;> simp [toPot]
  have hA' : (toPot q n m' 0 α).A = 0 := by cases q <;> simp [toPot]
  simp only [Pot.val, Pot.der, hB, hA', one_pow, mul_one, div_one, mul_zero, add_zero, zero_add, sub_zero,
    zero_sub] at h3 h4
  rw [← h3] at h4
  refine mul_ne_zero hA hres ?_
  linear_combination h4

theorem pow_small {ι : Type*} {F : Filter ι} {κ : ι → ℂ} (hκ : Tendsto κ F (𝓝[≠] 0)) (n : ℕ) :
    Tendsto (fun i => κ i ^ (2 * n + 1)) F (𝓝 0) := by
  have := ((tendsto_nhdsWithin_iff.1 hκ).1).pow (2 * n + 1)
  simpa using this

/-- The amplitude of the regular wave after a resonant core: it vanishes like `kappa^2`. -/
theorem core_resonant {ι : Type*} {F : Filter ι} {κ : ι → ℂ} (hκ : Tendsto κ F (𝓝[≠] 0)) {n : ℕ} {m m' : ℂ}
    (hm : m ≠ 0) (hm' : m' ≠ 0) (hres : ((n : ℂ) + 1) * m ^ 2 + ((n : ℂ) + 2) * m' ^ 2 = 0)
    {w : ι → Wave} (hc : ∀ᶠ i in F, Cont .tm (n + 1) m m' (κ i) ⟨1, 0⟩ (w i)) :
    ∃ D, D ≠ 0 ∧ Tendsto (fun i => (w i).d / κ i ^ 2) F (𝓝 D) := by
  have h1 := (psi_scale hκ hm (n + 1)).mul (zeta_scale hκ hm' n)
  have h2 := ((psi_scale hκ hm (n + 2)).mul (zeta_scale hκ hm' (n + 1))).const_mul (m' / m)
  refine ⟨_, ?_, ((h1.add h2).div_const I).congr' ?_⟩
  · have e : m ^ (n + 1 + 1) / ((2 * (n + 1) + 1)‼ : ℂ) * (-I * kOut n / m' ^ n) +
        m' / m * (m ^ (n + 2 + 1) / ((2 * (n + 2) + 1)‼ : ℂ) * (-I * kOut (n + 1) / m' ^ (n + 1))) =
        -I * (m ^ (n + 2) / m' ^ n) * (kOut n / ((2 * (n + 1) + 1)‼ : ℂ) + kOut (n + 1) / ((2 * (n + 2) + 1)‼ : ℂ)) := by
      field_simp
      ring
    rw [e]
    have hpos : 0 < ((2 * n + 1)‼ : ℝ) / (2 * n + 1) / ((2 * (n + 1) + 1)‼ : ℝ) +
        ((2 * (n + 1) + 1)‼ : ℝ) / (2 * (n + 1 : ℕ) + 1) / ((2 * (n + 2) + 1)‼ : ℝ) := by
      have a1 : (0 : ℝ) < ((2 * n + 1)‼ : ℝ) := by exact_mod_cast doubleFactorial_pos _
      have a2 : (0 : ℝ) < ((2 * (n + 1) + 1)‼ : ℝ) := by exact_mod_cast doubleFactorial_pos _
      have a3 : (0 : ℝ) < ((2 * (n + 2) + 1)‼ : ℝ) := by exact_mod_cast doubleFactorial_pos _
      positivity
    have hne : kOut n / ((2 * (n + 1) + 1)‼ : ℂ) + kOut (n + 1) / ((2 * (n + 2) + 1)‼ : ℂ) ≠ 0 := by
      have := ofReal_ne_zero.2 hpos.ne'
      simpa [kOut] using this
    exact div_ne_zero (mul_ne_zero (mul_ne_zero (neg_ne_zero.2 I_ne_zero)
      (div_ne_zero (pow_ne_zero _ hm) (pow_ne_zero _ hm'))) hne) I_ne_zero
  · filter_upwards [hc, kappa_ne hκ] with i h hi
    have hz := mul_ne_zero hm hi
    have hz' := mul_ne_zero hm' hi
    have hd := wave_d (w i) (n + 1) hz'
    obtain ⟨h3, h4⟩ := h
    have h5 : (⟨1, 0⟩ : Wave).val (n + 1) (m * κ i) = ricPsi (n + 1) (m * κ i) := by simp [Wave.val]
    have h6 : (⟨1, 0⟩ : Wave).der (n + 1) (m * κ i) = deriv (ricPsi (n + 1)) (m * κ i) := by simp [Wave.der]
    rw [h5] at h3
    rw [h6, deriv_ricPsi_raise (n + 1) hz] at h4
    rw [← h3, deriv_ricZeta_lower n hz'] at hd
    have hI := I_ne_zero
    have hk := pow_ne_zero n hi
    rw [show n + 1 + 1 = n + 2 from rfl] at h4
    rw [show κ i ^ (n + 1 + 1) = κ i ^ n * κ i ^ 2 by ring, show κ i ^ (n + 2 + 1) = κ i ^ (n + 1) * κ i ^ 2 by ring]
    have hk1 := pow_ne_zero (n + 1) hi
    have hd' : (w i).d = (ricPsi (n + 1) (m * κ i) * ricZeta n (m' * κ i) +
        m' / m * (ricPsi (n + 2) (m * κ i) * ricZeta (n + 1) (m' * κ i))) / I := by
      rw [eq_div_iff hI, ← hd]
      generalize ricPsi (n + 1) (m * κ i) = P at *
      generalize ricPsi (n + 2) (m * κ i) = Q at *
      generalize ricZeta (n + 1) (m' * κ i) = Z at *
      generalize ricZeta n (m' * κ i) = Y at *
      have h7 : (w i).der (n + 1) (m' * κ i) = (((n + 1 : ℕ) : ℂ) + 1) / (m * κ i) * P * (m' / m) - Q * (m' / m) := by
        rw [← mul_left_inj' hm, ← h4]
        field_simp
      rw [h7]
      push_cast
      field_simp
      linear_combination (-(Z * P)) * hres
    rw [hd']
    generalize κ i ^ n = u at *
    generalize κ i ^ (n + 1) = v at *
    generalize ricPsi (n + 1) (m * κ i) = P at *
    generalize ricPsi (n + 2) (m * κ i) = Q at *
    generalize ricZeta (n + 1) (m' * κ i) = Z at *
    generalize ricZeta n (m' * κ i) = Y at *
    field_simp

/-- A core after which the wave has outgoing part `a` and regular part `d` with `a / d` of the order `kappa^s`. -/
theorem coef_core_of_ratio {ι : Type*} {F : Filter ι} {κ : ι → ℂ} (hκ : Tendsto κ F (𝓝[≠] 0)) {q : Pol} {n s : ℕ}
    (hs0 : 1 ≤ s) {m : ℂ} (hm : m ≠ 0) {l : ℂ × ℂ} {rest : List (ℂ × ℂ)} (hl : ∀ l' ∈ l :: rest, l'.1 ≠ 0 ∧ l'.2 ≠ 0)
    (hs : ∃ a, Solves q n (l :: rest) a) {w : ι → Wave} (hc : ∀ᶠ i in F, Cont q n m l.1 (κ i) ⟨1, 0⟩ (w i))
    (hd : ∀ᶠ i in F, (w i).d ≠ 0) {β : ℂ} (ht : Tendsto (fun i => (w i).a / (w i).d / κ i ^ s) F (𝓝 β)) :
    (∀ᶠ i in F, ∃ a, Solves q n ((m, κ i) :: l :: rest) a) ∧
      (fun i => coef q n ((m, κ i) :: l :: rest) - coef q n (l :: rest)) =O[F] fun i => κ i ^ s := by
  obtain ⟨u, hu⟩ := chain_exists q n rest l ⟨1, 0⟩ hl
  obtain ⟨v, hv⟩ := chain_exists q n rest l ⟨0, 1⟩ hl
  have hud : u.d ≠ 0 := by
    obtain ⟨a, c, hc, hch⟩ := hs
    have h1 := hu.smul c.d
    have e : Wave.smul c.d ⟨1, 0⟩ = c := by
      cases c
      simp only [Wave.smul] at hc ⊢
      simp [hc]
    rw [e] at h1
    have := Chain.unique hl h1 hch
    intro h0
    have h2 := congrArg Wave.d this
    simp [Wave.smul, h0] at h2
  have ht0 : Tendsto (fun i => (w i).a / (w i).d) F (𝓝 0) := by
    have := ht.mul (((tendsto_nhdsWithin_iff.1 hκ).1).pow s)
    rw [zero_pow (by omega), mul_zero] at this
    refine this.congr' ?_
    filter_upwards [kappa_ne hκ] with i hi
    have := pow_ne_zero s hi
    field_simp
  have hout : Tendsto (fun i => u.d + (w i).a / (w i).d * v.d) F (𝓝 u.d) := by
    have := (ht0.mul_const v.d).const_add u.d
    simpa using this
  have hne : ∀ᶠ i in F, u.d + (w i).a / (w i).d * v.d ≠ 0 := hout.eventually_ne hud
  have hsol : ∀ᶠ i in F, Solves q n ((m, κ i) :: l :: rest)
      ((u.a + (w i).a / (w i).d * v.a) / (u.d + (w i).a / (w i).d * v.d)) := by
    filter_upwards [hc, hne, hd] with i h1 h2 h4
    have h3 := chain_add hu (hv.smul ((w i).a / (w i).d))
    have h1' := h1.smul (1 / (w i).d)
    have e : (w i).smul (1 / (w i).d) = waveAdd ⟨1, 0⟩ (Wave.smul ((w i).a / (w i).d) ⟨0, 1⟩) := by
      simp only [waveAdd, Wave.smul, Wave.mk.injEq]
      constructor
      · field_simp; ring
      · ring
    rw [e] at h1'
    have h5 := solves_of_chain (p := q) (n := n) (layers := (m, κ i) :: l :: rest) (out := waveAdd u (v.smul ((w i).a / (w i).d)))
      (core := Wave.smul (1 / (w i).d) ⟨1, 0⟩) (by simp [Wave.smul]) ⟨_, h1', h3⟩ h2
    exact h5
  refine ⟨hsol.mono fun i h => ⟨_, h⟩, ?_⟩
  have hred : coef q n (l :: rest) = u.a / u.d := coef_eq hl (solves_of_chain rfl hu hud)
  have hlim : Tendsto (fun i => (coef q n ((m, κ i) :: l :: rest) - coef q n (l :: rest)) / κ i ^ s) F
      (𝓝 (β * ((v.a * u.d - u.a * v.d) / (u.d * u.d)))) := by
    refine (ht.mul (tendsto_const_nhds.div (hout.mul_const u.d) (mul_ne_zero hud hud))).congr' ?_
    filter_upwards [hsol, hne, kappa_ne hκ] with i h1 h2 h3
    have hne' : ∀ l' ∈ (m, κ i) :: l :: rest, l'.1 ≠ 0 ∧ l'.2 ≠ 0 := by
      intro l' h
      rcases List.mem_cons.1 h with rfl | h
      · exact ⟨hm, h3⟩
      · exact hl l' h
    rw [coef_eq hne' h1, hred]
    have h4 := pow_ne_zero s h3
    simp only [Pi.div_apply]
    generalize (w i).a / (w i).d = t at h2 ⊢
    generalize hQ : u.d + t * v.d = Q at h2 ⊢
    field_simp
    rw [← hQ]
    ring
  exact isBigO_of_div_tendsto_nhds ((kappa_ne hκ).mono fun i hi h0 => absurd h0 (pow_ne_zero _ hi)) _ hlim

theorem core_waves (q : Pol) (n : ℕ) {m m' : ℂ} (hm : m ≠ 0) (hm' : m' ≠ 0) {ι : Type*} {F : Filter ι} {κ : ι → ℂ}
    (hκ : Tendsto κ F (𝓝[≠] 0)) : ∃ w : ι → Wave, ∀ᶠ i in F, Cont q n m m' (κ i) ⟨1, 0⟩ (w i) := by
  have hw : ∀ i, ∃ w, κ i ≠ 0 → Cont q n m m' (κ i) ⟨1, 0⟩ w := by
    intro i
    by_cases h : κ i = 0
    · exact ⟨⟨0, 0⟩, fun h' => absurd h h'⟩
    · obtain ⟨w, hw⟩ := cont_exists' q n hm hm' h ⟨1, 0⟩
      exact ⟨w, fun _ => hw⟩
  choose w hw using hw
  exact ⟨w, (kappa_ne hκ).mono fun i h => hw i h⟩

/-- A core whose size goes to zero: the interface problem becomes solvable and its coefficient approaches that of the sphere
without the core, with an error of the order of the core's size to the power `2n+1`. -/
theorem coef_vanish_core {ι : Type*} {F : Filter ι} [F.NeBot] {κ : ι → ℂ} (hκ : Tendsto κ F (𝓝[≠] 0)) {q : Pol} {n : ℕ}
    (hn : 1 ≤ n) {m : ℂ} (hm : m ≠ 0) {l : ℂ × ℂ} {rest : List (ℂ × ℂ)} (hl : ∀ l' ∈ l :: rest, l'.1 ≠ 0 ∧ l'.2 ≠ 0)
    (hres : n * sEps q m + ((n : ℂ) + 1) * sEps q l.1 ≠ 0) (hs : ∃ a, Solves q n (l :: rest) a) :
    (∀ᶠ i in F, ∃ a, Solves q n ((m, κ i) :: l :: rest) a) ∧
      (fun i => coef q n ((m, κ i) :: l :: rest) - coef q n (l :: rest)) =O[F] fun i => κ i ^ (2 * n + 1) := by
  have hl0 := hl l (by simp)
  obtain ⟨w, hc⟩ := core_waves q n hm hl0.1 hκ
  obtain ⟨D, α, hD, hd, ha⟩ := core_small hκ hn hm hl0.1 hres hc
  refine coef_core_of_ratio hκ (by omega) hm hl hs hc (hd.eventually_ne hD) (β := α / D) ?_
  refine (ha.div hd hD).congr fun i => ?_
  simp only [Pi.div_apply]
  ring

/-- The same for a core in static resonance with the layer around it; two powers are lost. -/
theorem coef_vanish_resonant {ι : Type*} {F : Filter ι} [F.NeBot] {κ : ι → ℂ} (hκ : Tendsto κ F (𝓝[≠] 0)) {n : ℕ}
    {m : ℂ} (hm : m ≠ 0) {l : ℂ × ℂ} {rest : List (ℂ × ℂ)} (hl : ∀ l' ∈ l :: rest, l'.1 ≠ 0 ∧ l'.2 ≠ 0)
    (hres : ((n : ℂ) + 1) * m ^ 2 + ((n : ℂ) + 2) * l.1 ^ 2 = 0) (hs : ∃ a, Solves .tm (n + 1) (l :: rest) a) :
    (∀ᶠ i in F, ∃ a, Solves .tm (n + 1) ((m, κ i) :: l :: rest) a) ∧
      (fun i => coef .tm (n + 1) ((m, κ i) :: l :: rest) - coef .tm (n + 1) (l :: rest)) =O[F]
        fun i => κ i ^ (2 * n + 1) := by
  have hl0 := hl l (by simp)
  obtain ⟨w, hc⟩ := core_waves .tm (n + 1) hm hl0.1 hκ
  obtain ⟨D, hD, hd⟩ := core_resonant hκ hm hl0.1 hres hc
  have h1 : WaveLim F κ (n + 1) (fun _ => ⟨1, 0⟩) 1 0 := ⟨tendsto_const_nhds, by simp⟩
  obtain ⟨-, α, ⟨-, ha⟩, -⟩ := cont_small hκ (by omega) hm hl0.1 one_ne_zero h1 (w' := w) (by simpa using hc)
  refine coef_core_of_ratio hκ (by omega) hm hl hs hc ?_ (β := α / D) ?_
  · filter_upwards [hd.eventually_ne hD] with i h h0
    rw [h0, zero_div] at h
    exact h rfl
  · refine (ha.div hd hD).congr' ?_
    filter_upwards [kappa_ne hκ] with i hi
    simp only [Pi.div_apply]
    rw [show κ i ^ (2 * (n + 1) + 1) = κ i ^ (2 * n + 1) * κ i ^ 2 by ring]
    have := pow_ne_zero 2 hi
    have := pow_ne_zero (2 * n + 1) hi
    field_simp

/-! ## A layer of no thickness -/

theorem cont_trans {q : Pol} {n : ℕ} {m m' m'' x : ℂ} (hm' : m' ≠ 0) {u v w : Wave} (h : Cont q n m m' x u v)
    (k : Cont q n m' m'' x v w) : Cont q n m m'' x u w := by
  cases q <;> obtain ⟨h1, h2⟩ := h <;> obtain ⟨k1, k2⟩ := k
  · refine ⟨h1.trans k1, mul_right_cancel₀ hm' ?_⟩
    linear_combination m'' * h2 + m * k2
  · refine ⟨mul_right_cancel₀ hm' ?_, h2.trans k2⟩
    linear_combination m'' * h1 + m * k1

/-- A layer of no thickness may be inserted after any layer. -/
theorem chain_film {q : Pol} {n : ℕ} {m' x : ℂ} (hm' : m' ≠ 0) (hx : x ≠ 0) {m : ℂ} (hm : m ≠ 0) (after : List (ℂ × ℂ))
    (ha : ∀ l ∈ after, l.1 ≠ 0 ∧ l.2 ≠ 0) :
    ∀ (before : List (ℂ × ℂ)) {w out : Wave}, Chain q n w (before ++ (m, x) :: after) out →
      Chain q n w (before ++ (m, x) :: (m', x) :: after) out := by
  intro before
  induction before with
  | nil =>
    intro w out h
    obtain ⟨v, hv⟩ := cont_exists' q n hm hm' hx w
    refine ⟨v, hv, ?_⟩
    cases after with
    | nil =>
      obtain ⟨o, ho⟩ := cont_exists' q n hm' one_ne_zero hx v
      have := Cont.unique hm (by simpa using hx) (cont_trans hm' hv ho) h
      subst this
      exact ho
    | cons l after =>
      obtain ⟨z, h1, h2⟩ := h
      have hl := ha l (by simp)
      obtain ⟨o, ho⟩ := cont_exists' q n hm' hl.1 hx v
      have := Cont.unique hm (mul_ne_zero hl.1 hx) (cont_trans hm' hv ho) h1
      subst this
      exact ⟨o, ho, h2⟩
  | cons l before ih =>
    intro w out h
    cases before with
    | nil =>
      obtain ⟨z, h1, h2⟩ := h
      exact ⟨z, h1, ih h2⟩
    | cons l' before =>
      obtain ⟨z, h1, h2⟩ := h
      exact ⟨z, h1, ih h2⟩

theorem solves_film {q : Pol} {n : ℕ} {m' x : ℂ} (hm' : m' ≠ 0) (hx : x ≠ 0) {m : ℂ} (hm : m ≠ 0)
    {before after : List (ℂ × ℂ)} (ha : ∀ l ∈ after, l.1 ≠ 0 ∧ l.2 ≠ 0) {a : ℂ}
    (h : Solves q n (before ++ (m, x) :: after) a) : Solves q n (before ++ (m, x) :: (m', x) :: after) a := by
  obtain ⟨c, hc, h⟩ := h
  exact ⟨c, hc, chain_film hm' hx hm after ha before h⟩

/-- A thin layer after any layer: the coefficient is an analytic function of its outer size parameter at the point where the
thickness is zero, with the value of the sphere without it. -/
theorem coef_vanish_film {q : Pol} {n : ℕ} {m' x : ℂ} (hm' : m' ≠ 0) {m : ℂ} {before after : List (ℂ × ℂ)}
    (hl : ∀ l ∈ before ++ (m, x) :: after, l.1 ≠ 0 ∧ l.2 ≠ 0) (hs : ∃ a, Solves q n (before ++ (m, x) :: after) a) :
    (∀ᶠ y in 𝓝 x, ∃ a, Solves q n (before ++ (m, x) :: (m', y) :: after) a) ∧
      (fun y => coef q n (before ++ (m, x) :: (m', y) :: after) - coef q n (before ++ (m, x) :: after)) =O[𝓝 x]
        fun y => y - x := by
  have hmx := hl (m, x) (by simp)
  have ha : ∀ l ∈ after, l.1 ≠ 0 ∧ l.2 ≠ 0 := fun l h => hl l (by simp [h])
  obtain ⟨a, hs⟩ := hs
  have hs' := solves_film (n := n) (q := q) hm' hmx.2 hmx.1 ha hs
  set K : List (ℂ × ℂ) → LayerFam ℂ := fun L => L.map fun l => (fun _ => l.1, fun _ => l.2) with hK
  set ls : LayerFam ℂ := K before ++ (fun _ => m, fun _ => x) :: (fun _ => m', fun y => y) :: K after with hls
  have hat : ∀ y, ls.at' y = before ++ (m, x) :: (m', y) :: after := by
    intro y
    simp [hls, hK, LayerFam.at', Function.comp_def]
  have hconst : ∀ L : List (ℂ × ℂ), (∀ l ∈ L, l.1 ≠ 0 ∧ l.2 ≠ 0) → ∀ l ∈ K L,
      ContDiffAt ℂ ω l.1 x ∧ ContDiffAt ℂ ω l.2 x ∧ l.1 x ≠ 0 ∧ l.2 x ≠ 0 := by
    intro L hL l h
    obtain ⟨l', h', rfl⟩ := List.mem_map.1 h
    exact ⟨contDiffAt_const, contDiffAt_const, (hL l' h').1, (hL l' h').2⟩
  have hok : ls.OK ℂ x := by
    intro l h
    simp only [hls, List.mem_append, List.mem_cons] at h
    rcases h with h | rfl | rfl | h
    · exact hconst before (fun l h => hl l (by simp [h])) l h
    · exact ⟨contDiffAt_const, contDiffAt_const, hmx.1, hmx.2⟩
    · exact ⟨contDiffAt_const, contDiffAt_id, hm', hmx.2⟩
    · exact hconst after ha l h
  obtain ⟨h1, h2⟩ := coef_analytic hok (q := q) (n := n) ⟨a, by rw [hat]; exact hs'⟩
  refine ⟨h1.mono fun y h => by rwa [hat] at h, ?_⟩
  have hne : ∀ l ∈ before ++ (m, x) :: (m', x) :: after, l.1 ≠ 0 ∧ l.2 ≠ 0 := by
    intro l h
    simp only [List.mem_append, List.mem_cons] at h
    rcases h with h | rfl | rfl | h
    · exact hl l (by simp [h])
    · exact hmx
    · exact ⟨hm', hmx.2⟩
    · exact ha l h
  have e : coef q n (before ++ (m, x) :: after) = coef q n (ls.at' x) := by
    rw [hat, coef_eq hl hs, coef_eq hne hs']
  have h3 := (h2.differentiableAt (by simp)).isBigO_sub
  rw [← e] at h3
  refine h3.congr_left fun y => ?_
  rw [hat]

end MieDiff
