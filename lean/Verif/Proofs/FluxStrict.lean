import Verif.Proofs.Flux

/-!
# Lossy layers absorb: the flux decreases strictly
-/

namespace MieDiff.Spec

open Complex Filter Topology
open scoped ComplexConjugate

theorem Wave.eq_zero {w : Wave} {n : ℕ} {z : ℂ} (hz : z ≠ 0) (h1 : w.val n z = 0) (h2 : w.der n z = 0) : w.d = 0 ∧ w.a = 0 := by
  have W := ric_wronskian n hz
  simp only [Wave.val, Wave.der] at h1 h2
  have hI := I_ne_zero
  set P := ricPsi n z
  set P' := deriv (ricPsi n) z
  set Z := ricZeta n z
  set Z' := deriv (ricZeta n) z
  constructor
  · have : w.d * I = 0 := by rw [← W]; linear_combination Z' * h1 - Z * h2
    exact (mul_eq_zero.1 this).resolve_right hI
  · have : w.a * I = 0 := by rw [← W]; linear_combination P' * h1 - P * h2
    exact (mul_eq_zero.1 this).resolve_right hI

theorem Wave.val_zero {w : Wave} (h : w.d = 0 ∧ w.a = 0) (n : ℕ) (z : ℂ) : w.val n z = 0 ∧ w.der n z = 0 := by
  simp [Wave.val, Wave.der, h.1, h.2]

theorem Cont.zero {p : Pol} {n : ℕ} {m m' : ℂ} {x : ℝ} {w w' : Wave} (hm : m ≠ 0) (hm' : m' ≠ 0) (hx : 0 < x)
    (h : Cont p n m m' x w w') (hw : w.d = 0 ∧ w.a = 0) : w'.d = 0 ∧ w'.a = 0 := by
  have hx' : (x : ℂ) ≠ 0 := by exact_mod_cast hx.ne'
  obtain ⟨v0, d0⟩ := Wave.val_zero hw n (m * x)
  cases p <;> simp only [Cont, v0, d0, zero_mul] at h <;> obtain ⟨h1, h2⟩ := h
  · exact Wave.eq_zero (mul_ne_zero hm' hx') h1.symm ((mul_eq_zero.1 h2.symm).resolve_right hm)
  · exact Wave.eq_zero (mul_ne_zero hm' hx') ((mul_eq_zero.1 h1.symm).resolve_right hm) h2.symm

/-- In a medium with loss the flux of a nonzero wave decreases strictly. -/
theorem flux_lt (p : Pol) {w : Wave} {n : ℕ} (hn : 1 ≤ n) {m : ℂ} (hm : m ≠ 0) {s : ℝ} (hs : 0 < s * (m ^ 2).im)
    (hw : ¬(w.d = 0 ∧ w.a = 0)) {x y : ℝ} (hx : 0 < x) (hy : x < y) : s * flux p w n m y < s * flux p w n m x := by
  have hanti := flux_antitone p w n hm hs.le
  refine lt_of_le_of_ne (hanti hx (hx.trans hy) hy.le) fun heq => hw ?_
  have hconst : ∀ r ∈ Set.Ioo x y, s * flux p w n m r = s * flux p w n m x := fun r hr =>
    le_antisymm (hanti hx (hx.trans hr.1) hr.1.le) (heq ▸ hanti (hx.trans hr.1) (hx.trans hy) hr.2.le)
  have hloss : ∀ r ∈ Set.Ioo x y, fluxLoss p w n m r = 0 := by
    intro r hr
    have h1 := (hasDerivAt_flux_loss p w n hm (hx.trans hr.1)).const_mul s
    have h2 : HasDerivAt (fun r => s * flux p w n m r) 0 r :=
      (hasDerivAt_const r (s * flux p w n m x)).congr_of_eventuallyEq
        (eventually_of_mem (Ioo_mem_nhds hr.1 hr.2) hconst)
    have h3 := h1.unique h2
    have h4 : s * (m ^ 2).im * fluxLoss p w n m r = 0 := by linarith
    exact (mul_eq_zero.1 h4).resolve_left hs.ne'
  have hN : 0 < normSq m := normSq_pos.2 hm
  have hr : (x + y) / 2 ∈ Set.Ioo x y := ⟨by linarith, by linarith⟩
  set r := (x + y) / 2
  have hr0 : 0 < r := hx.trans hr.1
  have hz : m * (r : ℂ) ≠ 0 := mul_ne_zero hm (by exact_mod_cast hr0.ne')
  cases p
  · have h := hloss r hr
    simp only [fluxLoss] at h
    have hn' : (1 : ℝ) ≤ n := by exact_mod_cast hn
    have h1 : 0 ≤ normSq (w.der n (m * r)) / normSq m := div_nonneg (normSq_nonneg _) hN.le
    have hc : 0 < (n : ℝ) * (n + 1) / r ^ 2 / normSq m ^ 2 := by positivity
    have h2 := mul_nonneg (normSq_nonneg (w.val n (m * r))) hc.le
    have e1 : normSq (w.der n (m * r)) / normSq m = 0 := by linarith
    have e2 : normSq (w.val n (m * r)) * (n * (n + 1) / r ^ 2 / normSq m ^ 2) = 0 := by linarith
    exact Wave.eq_zero hz (normSq_eq_zero.1 ((mul_eq_zero.1 e2).resolve_right hc.ne'))
      (normSq_eq_zero.1 ((div_eq_zero_iff.1 e1).resolve_right hN.ne'))
  · have hval : ∀ t ∈ Set.Ioo x y, w.val n (m * (t : ℝ)) = 0 := by
      intro t ht
      have h := hloss t ht
      simp only [fluxLoss] at h
      exact normSq_eq_zero.1 ((div_eq_zero_iff.1 h).resolve_right hN.ne')
    have h1 := hasDerivAt_scaled (w.hasDerivAt_val n hz)
    have h2 : HasDerivAt (fun t : ℝ => w.val n (m * t)) 0 r :=
      (hasDerivAt_const r (0 : ℂ)).congr_of_eventuallyEq (eventually_of_mem (Ioo_mem_nhds hr.1 hr.2) hval)
    have h3 := h1.unique h2
    exact Wave.eq_zero hz (hval r hr) ((mul_eq_zero.1 h3).resolve_left hm)

/-- Size parameters are real and increase outwards. -/
def RadiiUp : ℝ → List (ℂ × ℂ) → Prop
  | _, [] => True
  | x, l :: rest => ∃ x' : ℝ, l.2 = x' ∧ x < x' ∧ RadiiUp x' rest

theorem chain_nonzero {p : Pol} {n : ℕ} :
    ∀ (rest : List (ℂ × ℂ)) (m : ℂ) (x : ℝ) (w out : Wave), 0 < x → m ≠ 0 → RadiiUp x rest → (∀ l ∈ rest, l.1 ≠ 0) →
      Chain p n w ((m, (x : ℂ)) :: rest) out → w.d = 0 ∧ w.a = 0 → out.d = 0 ∧ out.a = 0 := by
  intro rest
  induction rest with
  | nil => intro m x w out hx hm _ _ hc hw; exact Cont.zero hm one_ne_zero hx hc hw
  | cons l rest ih =>
    intro m x w out hx hm hr hl hc hw
    obtain ⟨m', x'⟩ := l
    obtain ⟨y, rfl, hy, hr⟩ := hr
    obtain ⟨w', c, hc⟩ := hc
    have hm' : m' ≠ 0 := hl (m', (y : ℂ)) (by simp)
    exact ih m' y w' out (hx.trans hy) hm' hr (fun l h => hl l (by simp [h])) hc (Cont.zero hm hm' hx c hw)

theorem chain_flux_lt {p : Pol} {n : ℕ} (hn : 1 ≤ n) {s : ℝ} :
    ∀ (rest : List (ℂ × ℂ)) (m : ℂ) (x : ℝ) (w out : Wave), 0 < x → m ≠ 0 → s * flux p w n m x ≤ 0 →
      RadiiUp x rest → (∀ l ∈ rest, l.1 ≠ 0 ∧ 0 ≤ s * (l.1 ^ 2).im) → ¬(out.d = 0 ∧ out.a = 0) →
      (s * flux p w n m x < 0 ∨ ∃ l ∈ rest, 0 < s * (l.1 ^ 2).im) →
      Chain p n w ((m, (x : ℂ)) :: rest) out → ∃ xL : ℝ, 0 < xL ∧ s * flux p out n 1 xL < 0 := by
  intro rest
  induction rest with
  | nil =>
    intro m x w out hx hm _ _ _ _ hlt hc
    exact ⟨x, hx, by rw [← flux_cont hm one_ne_zero hc]; exact hlt.resolve_right (by simp)⟩
  | cons l rest ih =>
    intro m x w out hx hm hf hr hl hout hlt hc
    obtain ⟨m', x'⟩ := l
    obtain ⟨y, rfl, hy, hr⟩ := hr
    obtain ⟨w', c, hc⟩ := hc
    have hl0 := hl (m', (y : ℂ)) (by simp)
    have hl' : ∀ l ∈ rest, l.1 ≠ 0 ∧ 0 ≤ s * (l.1 ^ 2).im := fun l h => hl l (by simp [h])
    have hanti := flux_antitone p w' n hl0.1 hl0.2 hx (hx.trans hy) hy.le
    simp only at hanti
    rw [flux_cont hm hl0.1 c] at hf hlt
    have hw' : ¬(w'.d = 0 ∧ w'.a = 0) := fun h0 =>
      hout (chain_nonzero rest m' y w' out (hx.trans hy) hl0.1 hr (fun l h => (hl' l h).1) hc h0)
    refine ih m' y w' out (hx.trans hy) hl0.1 (hanti.trans hf) hr hl' hout ?_ hc
    rcases hlt with h | ⟨l, hmem, h⟩
    · exact Or.inl (hanti.trans_lt h)
    · rcases List.mem_cons.1 hmem with rfl | hmem
      · exact Or.inl ((flux_lt p hn hl0.1 h hw' hx hy).trans_le hf)
      · exact Or.inr ⟨l, hmem, h⟩

/-- Every solution of the interface problem with `s * Im m_l^2 ≥ 0` in all layers and `> 0` in one of them has
`s * (|a|^2 - Re a) < 0`. -/
theorem Solves.energy_lt {p : Pol} {n : ℕ} (hn : 1 ≤ n) {layers : List (ℂ × ℂ)} {a : ℂ} {s : ℝ}
    (hr : RadiiUp 0 layers) (hl : ∀ l ∈ layers, l.1 ≠ 0 ∧ 0 ≤ s * (l.1 ^ 2).im)
    (hlt : ∃ l ∈ layers, 0 < s * (l.1 ^ 2).im) (h : Solves p n layers a) : s * (‖a‖ ^ 2 - a.re) < 0 := by
  obtain ⟨⟨d, a0⟩, rfl, hc⟩ := h
  cases layers with
  | nil => exact absurd hc (by simp [Chain])
  | cons l rest =>
    obtain ⟨m, x⟩ := l
    obtain ⟨y, rfl, hy, hr⟩ := hr
    have hl0 := hl (m, (y : ℂ)) (by simp)
    have hl' : ∀ l ∈ rest, l.1 ≠ 0 ∧ 0 ≤ s * (l.1 ^ 2).im := fun l h => hl l (by simp [h])
    have hw : ¬((⟨d, 0⟩ : Wave).d = 0 ∧ (⟨d, 0⟩ : Wave).a = 0) := fun h0 => by
      have := (chain_nonzero rest m y ⟨d, 0⟩ ⟨1, a⟩ hy hl0.1 hr (fun l h => (hl' l h).1) hc h0).1
      exact one_ne_zero this
    obtain ⟨xL, hxL, hf⟩ := chain_flux_lt hn rest m y ⟨d, 0⟩ ⟨1, a⟩ hy hl0.1 (flux_core p d n hl0.1 hl0.2 hy) hr hl'
      (fun h0 => one_ne_zero h0.1) (by
        obtain ⟨l, hmem, h⟩ := hlt
        rcases List.mem_cons.1 hmem with rfl | hmem
        · have h2 : (0 : ℝ) < y / 2 := by linarith
          exact Or.inl ((flux_lt p hn hl0.1 h hw h2 (by linarith)).trans_le (flux_core p d n hl0.1 hl0.2 h2))
        · exact Or.inr ⟨l, hmem, h⟩) hc
    have : flux p ⟨1, a⟩ n 1 xL = ‖a‖ ^ 2 - a.re := by
      rw [← host_flux n a hxL.ne']
      cases p <;> simp only [flux, one_mul, div_one]
    rw [this] at hf
    exact hf

end MieDiff.Spec
