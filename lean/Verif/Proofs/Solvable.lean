import Verif.Proofs.Decay
import Verif.Proofs.Flux

/-!
# Solvability of the interface problem
-/

namespace MieDiff

open Complex Spec Filter Topology

theorem cont_exists' (p : Pol) (n : ℕ) {m m' x : ℂ} (hm : m ≠ 0) (hm' : m' ≠ 0) (hx : x ≠ 0) (w : Wave) :
    ∃ w', Cont p n m m' x w w' := by
  have hz := mul_ne_zero hm' hx
  cases p
  · refine ⟨waveOf n (m' * x) (w.val n (m * x)) (w.der n (m * x) * m' / m), ?_, ?_⟩
    · rw [waveOf_val n hz]
    · rw [waveOf_der n hz]; field_simp
  · refine ⟨waveOf n (m' * x) (w.val n (m * x) * m' / m) (w.der n (m * x)), ?_, ?_⟩
    · rw [waveOf_val n hz]; field_simp
    · rw [waveOf_der n hz]

theorem chain_exists (p : Pol) (n : ℕ) : ∀ (rest : List (ℂ × ℂ)) (l : ℂ × ℂ) (w : Wave),
    (∀ l' ∈ l :: rest, l'.1 ≠ 0 ∧ l'.2 ≠ 0) → ∃ out, Chain p n w (l :: rest) out := by
  intro rest
  induction rest with
  | nil =>
    intro l w h
    have h0 := h l (by simp)
    exact cont_exists' p n h0.1 one_ne_zero h0.2 w
  | cons l' rest ih =>
    intro l w h
    have h0 := h l (by simp)
    have h1 := h l' (by simp)
    obtain ⟨w', hw⟩ := cont_exists' p n h0.1 h1.1 h0.2 w
    obtain ⟨out, ho⟩ := ih l' w' (fun k hk => h k (List.mem_cons_of_mem _ hk))
    exact ⟨out, w', hw, ho⟩

/-- A chain from the core whose host wave has a regular part gives a solution. -/
theorem solves_of_chain {p : Pol} {n : ℕ} {layers : List (ℂ × ℂ)} {core out : Wave} (ha : core.a = 0)
    (h : Chain p n core layers out) (hd : out.d ≠ 0) : Solves p n layers (out.a / out.d) := by
  refine ⟨core.smul (1 / out.d), by simp [Wave.smul, ha], ?_⟩
  have := h.smul (1 / out.d)
  have e : out.smul (1 / out.d) = ⟨1, out.a / out.d⟩ := by
    simp only [Wave.smul, Wave.mk.injEq]
    constructor <;> field_simp
  rwa [e] at this

/-- At large order the interface problem has a solution. -/
theorem eventually_solvable (p : Pol) {l : ℂ × ℂ} {rest : List (ℂ × ℂ)} (hd : DecayOK l rest) :
    ∀ᶠ k : ℕ in atTop, ∃ a, Solves p k (l :: rest) a := by
  choose out ho using fun k : ℕ => chain_exists p k rest l ⟨1, 0⟩ hd.ne
  have hz : l.1 * l.2 ≠ 0 := mul_ne_zero hd.head.1 hd.head.2
  have hw : Tendsto (fun k : ℕ => logH ⟨1, 0⟩ k (l.1 * l.2)) atTop (𝓝 1) := by
    refine (d1_lim hz).congr fun k => ?_
    simp only [logH, Wave.val, Wave.der, zero_mul, sub_zero, logD1, one_mul]
  obtain ⟨L, h1, -⟩ := chain_lim tendsto_id p rest l (fun _ => ⟨1, 0⟩) out hd (Eventually.of_forall ho) hw
  exact h1.mono fun k h => ⟨_, solves_of_chain rfl (ho k) h⟩

/-- Flux of a purely outgoing wave in the host. -/
theorem host_flux_out (n : ℕ) (a : ℂ) {x : ℝ} (hx : x ≠ 0) :
    ((starRingEnd ℂ) ((⟨0, a⟩ : Wave).val n x) * (⟨0, a⟩ : Wave).der n x).im = ‖a‖ ^ 2 := by
  have hz : (x : ℂ) ≠ 0 := by exact_mod_cast hx
  have w := ric_wronskian n hz
  simp only [Wave.val, Wave.der, zero_mul, zero_sub, map_neg, map_mul]
  have c1 := ricPsi_conj n hx
  have c2 := dricPsi_conj n hx
  have c3 := ricZeta_conj n hx
  have c4 := dricZeta_conj n hx
  set P := ricPsi n (x : ℂ)
  set P' := deriv (ricPsi n) (x : ℂ)
  set Z := ricZeta n (x : ℂ)
  set Z' := deriv (ricZeta n) (x : ℂ)
  have p0 : P.im = 0 := by have := congrArg im c1; simp at this; linarith
  have p1 : P'.im = 0 := by have := congrArg im c2; simp at this; linarith
  have z0 : Z.re = P.re := by have := congrArg re c3; simp at this; linarith
  have z1 : Z'.re = P'.re := by have := congrArg re c4; simp at this; linarith
  have wi := congrArg im w
  simp [p0, p1, z0, z1] at wi
  rw [← normSq_eq_norm_sq, normSq_apply]
  simp [z0, z1]
  linear_combination (a.re * a.re + a.im * a.im) * wi

/-- Inward determinism. -/
theorem chain_inner_unique {p : Pol} {n : ℕ} : ∀ (rest : List (ℂ × ℂ)) (l : ℂ × ℂ) (w1 w2 out : Wave),
    (∀ l' ∈ l :: rest, l'.1 ≠ 0 ∧ l'.2 ≠ 0) → Chain p n w1 (l :: rest) out → Chain p n w2 (l :: rest) out →
    w1 = w2 := by
  intro rest
  induction rest with
  | nil =>
    intro l w1 w2 out h h1 h2
    have h0 := h l (by simp)
    exact Cont.unique_inner one_ne_zero (mul_ne_zero h0.1 h0.2) h1 h2
  | cons l' rest ih =>
    intro l w1 w2 out h h1 h2
    have h0 := h l (by simp)
    have h0' := h l' (by simp)
    obtain ⟨v1, c1, d1⟩ := h1
    obtain ⟨v2, c2, d2⟩ := h2
    obtain rfl := ih l' v1 v2 out (fun k hk => h k (List.mem_cons_of_mem _ hk)) d1 d2
    exact Cont.unique_inner h0'.1 (mul_ne_zero h0.1 h0.2) c1 c2

/-- A passive layered sphere in a transparent host has a scattering coefficient at every order. -/
theorem passive_solvable (p : Pol) (n : ℕ) {l : ℂ × ℂ} {rest : List (ℂ × ℂ)} {x0 : ℝ} (hx0 : 0 < x0)
    (hr : RadiiOK x0 (l :: rest)) (hl : ∀ l' ∈ l :: rest, l'.1 ≠ 0 ∧ 0 ≤ (l'.1 ^ 2).im)
    (hx : ∀ l' ∈ l :: rest, l'.2 ≠ 0) : ∃ a, Solves p n (l :: rest) a := by
  have hne : ∀ l' ∈ l :: rest, l'.1 ≠ 0 ∧ l'.2 ≠ 0 := fun l' h => ⟨(hl l' h).1, hx l' h⟩
  obtain ⟨out, ho⟩ := chain_exists p n rest l ⟨1, 0⟩ hne
  refine ⟨_, solves_of_chain rfl ho ?_⟩
  intro hd
  obtain ⟨m, x⟩ := l
  obtain ⟨y, rfl, hy, hr⟩ := hr
  have hl0 := hl (m, (y : ℂ)) (by simp)
  have hy0 := hx0.trans_le hy
  obtain ⟨xL, hxL, hf⟩ := chain_flux (s := 1) rest m y ⟨1, 0⟩ out hy0 hl0.1
    (flux_core p 1 n hl0.1 (by rw [one_mul]; exact hl0.2) hy0) hr
    (fun l' h => by rw [one_mul]; exact hl l' (by simp [h])) ho
  obtain ⟨d, a⟩ := out
  simp only at hd
  subst hd
  have e : flux p ⟨0, a⟩ n 1 xL = ‖a‖ ^ 2 := by
    rw [← host_flux_out n a hxL.ne']
    cases p <;> simp only [flux, one_mul, div_one]
  rw [e, one_mul] at hf
  have ha : a = 0 := norm_eq_zero.1 (pow_eq_zero_iff (two_ne_zero) |>.1 (le_antisymm hf (sq_nonneg _)))
  subst ha
  -- the zero wave comes from the zero core wave only
  have hz : Chain p n ((⟨1, 0⟩ : Wave).smul 0) ((m, (y : ℂ)) :: rest) ⟨0, 0⟩ := by
    have := ho.smul 0
    simpa [Wave.smul] using this
  have := chain_inner_unique rest _ _ _ _ hne ho hz
  simp [Wave.smul] at this

end MieDiff
