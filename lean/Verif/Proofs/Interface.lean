import Verif.Spec.Interface
import Verif.Proofs.Kernel

/-!
# The interface problem: determinism, scaling, uniqueness
-/

namespace MieDiff.Spec

open Complex

def Wave.smul (s : ℂ) (w : Wave) : Wave := ⟨s * w.d, s * w.a⟩

theorem Wave.smul_val (s : ℂ) (w : Wave) (n : ℕ) (z : ℂ) : (w.smul s).val n z = s * w.val n z := by
  simp only [Wave.smul, Wave.val]; ring

theorem Wave.smul_der (s : ℂ) (w : Wave) (n : ℕ) (z : ℂ) : (w.smul s).der n z = s * w.der n z := by
  simp only [Wave.smul, Wave.der]; ring

theorem wave_d (w : Wave) (n : ℕ) {z : ℂ} (hz : z ≠ 0) :
    w.val n z * deriv (ricZeta n) z - w.der n z * ricZeta n z = w.d * I := by
  have := ric_wronskian n hz
  simp only [Wave.val, Wave.der]
  linear_combination w.d * this

theorem wave_a (w : Wave) (n : ℕ) {z : ℂ} (hz : z ≠ 0) :
    w.val n z * deriv (ricPsi n) z - w.der n z * ricPsi n z = w.a * I := by
  have := ric_wronskian n hz
  simp only [Wave.val, Wave.der]
  linear_combination w.a * this

theorem wave_ext {w w' : Wave} (n : ℕ) {z : ℂ} (hz : z ≠ 0) (h1 : w.val n z = w'.val n z)
    (h2 : w.der n z = w'.der n z) : w = w' := by
  have a1 := wave_d w n hz
  have a2 := wave_d w' n hz
  have b1 := wave_a w n hz
  have b2 := wave_a w' n hz
  rw [h1, h2, a2] at a1
  rw [h1, h2, b2] at b1
  cases w; cases w'
  simp only [Wave.mk.injEq]
  exact ⟨(mul_right_cancel₀ I_ne_zero a1).symm, (mul_right_cancel₀ I_ne_zero b1).symm⟩

/-- The wave with prescribed value and derivative. -/
noncomputable def waveOf (n : ℕ) (z v e : ℂ) : Wave :=
  ⟨(v * deriv (ricZeta n) z - e * ricZeta n z) / I, (v * deriv (ricPsi n) z - e * ricPsi n z) / I⟩

theorem waveOf_val (n : ℕ) {z : ℂ} (hz : z ≠ 0) (v e : ℂ) : (waveOf n z v e).val n z = v := by
  have := ric_wronskian n hz
  simp only [Wave.val, waveOf]
  have h := I_ne_zero
  field_simp
  linear_combination v * this

theorem waveOf_der (n : ℕ) {z : ℂ} (hz : z ≠ 0) (v e : ℂ) : (waveOf n z v e).der n z = e := by
  have := ric_wronskian n hz
  simp only [Wave.der, waveOf]
  have h := I_ne_zero
  field_simp
  linear_combination e * this

theorem Cont.smul {p : Pol} {n : ℕ} {m m' x : ℂ} {w w' : Wave} (h : Cont p n m m' x w w') (s : ℂ) :
    Cont p n m m' x (w.smul s) (w'.smul s) := by
  cases p <;> simp only [Cont, Wave.smul_val, Wave.smul_der] at h ⊢ <;> obtain ⟨h1, h2⟩ := h
  · exact ⟨by rw [h1], by linear_combination s * h2⟩
  · exact ⟨by linear_combination s * h1, by rw [h2]⟩

theorem Cont.unique {p : Pol} {n : ℕ} {m m' x : ℂ} {w w1 w2 : Wave} (hm : m ≠ 0) (hz : m' * x ≠ 0)
    (h1 : Cont p n m m' x w w1) (h2 : Cont p n m m' x w w2) : w1 = w2 := by
  cases p <;> simp only [Cont] at h1 h2 <;> obtain ⟨a1, b1⟩ := h1 <;> obtain ⟨a2, b2⟩ := h2
  · exact wave_ext n hz (a1.symm.trans a2) (mul_right_cancel₀ hm (b1.symm.trans b2))
  · exact wave_ext n hz (mul_right_cancel₀ hm (a1.symm.trans a2)) (b1.symm.trans b2)

/-- Inward determinism. -/
theorem Cont.unique_inner {p : Pol} {n : ℕ} {m m' x : ℂ} {w1 w2 w : Wave} (hm : m' ≠ 0) (hz : m * x ≠ 0)
    (h1 : Cont p n m m' x w1 w) (h2 : Cont p n m m' x w2 w) : w1 = w2 := by
  cases p <;> simp only [Cont] at h1 h2 <;> obtain ⟨a1, b1⟩ := h1 <;> obtain ⟨a2, b2⟩ := h2
  · exact wave_ext n hz (a1.trans a2.symm) (mul_right_cancel₀ hm (b1.trans b2.symm))
  · exact wave_ext n hz (mul_right_cancel₀ hm (a1.trans a2.symm)) (b1.trans b2.symm)

theorem Chain.smul {p : Pol} {n : ℕ} (s : ℂ) :
    ∀ {layers : List (ℂ × ℂ)} {w out : Wave}, Chain p n w layers out →
      Chain p n (w.smul s) layers (out.smul s) := by
  intro layers
  induction layers with
  | nil => intro w out h; exact h
  | cons l rest ih =>
    intro w out h
    obtain ⟨m, x⟩ := l
    cases rest with
    | nil => exact Cont.smul h s
    | cons l' rest =>
      obtain ⟨w', h1, h2⟩ := h
      exact ⟨w'.smul s, h1.smul s, ih h2⟩

theorem Chain.unique {p : Pol} {n : ℕ} :
    ∀ {layers : List (ℂ × ℂ)} {w o1 o2 : Wave}, (∀ l ∈ layers, l.1 ≠ 0 ∧ l.2 ≠ 0) →
      Chain p n w layers o1 → Chain p n w layers o2 → o1 = o2 := by
  intro layers
  induction layers with
  | nil => intro w o1 o2 _ h; exact absurd h (by simp [Chain])
  | cons l rest ih =>
    intro w o1 o2 hl h1 h2
    obtain ⟨m, x⟩ := l
    have hmx := hl (m, x) (by simp)
    cases rest with
    | nil => exact Cont.unique hmx.1 (by simpa using hmx.2) h1 h2
    | cons l' rest =>
      obtain ⟨m', x'⟩ := l'
      obtain ⟨w1, a1, b1⟩ := h1
      obtain ⟨w2, a2, b2⟩ := h2
      have hm' := hl (m', x') (by simp)
      obtain rfl := Cont.unique hmx.1 (mul_ne_zero hm'.1 hmx.2) a1 a2
      exact ih (fun l h => hl l (by simp only [List.mem_cons] at h ⊢; tauto)) b1 b2

/-- The scattering coefficient of a layered sphere is unique. -/
theorem Solves.unique {p : Pol} {n : ℕ} {layers : List (ℂ × ℂ)} {a1 a2 : ℂ}
    (hl : ∀ l ∈ layers, l.1 ≠ 0 ∧ l.2 ≠ 0) (h1 : Solves p n layers a1) (h2 : Solves p n layers a2) :
    a1 = a2 := by
  obtain ⟨c1, e1, h1⟩ := h1
  obtain ⟨c2, e2, h2⟩ := h2
  have s1 := h1.smul c2.d
  have s2 := h2.smul c1.d
  have e : c1.smul c2.d = c2.smul c1.d := by
    cases c1; cases c2
    simp only [Wave.smul, Wave.mk.injEq] at *
    subst e1 e2
    exact ⟨mul_comm _ _, by ring⟩
  rw [e] at s1
  have := Chain.unique hl s1 s2
  simp only [Wave.smul, Wave.mk.injEq] at this
  obtain ⟨h3, h4⟩ := this
  have h5 : c1.d = c2.d := by simpa using h3.symm
  by_cases h0 : c1.d = 0
  · exfalso
    -- zero core wave gives zero outer wave
    have hz : c1 = (⟨1, 0⟩ : Wave).smul 0 := by
      cases c1; simp only [Wave.smul, Wave.mk.injEq] at *; exact ⟨by rw [h0]; ring, by rw [e1]; ring⟩
    have h6 := h1.smul 0
    have h7 : c1.smul 0 = c1 := by
      cases c1; simp only [Wave.smul, Wave.mk.injEq] at *; exact ⟨by rw [h0]; ring, by rw [e1]; ring⟩
    rw [h7] at h6
    have h8 := Chain.unique hl h1 h6
    simp [Wave.smul] at h8
  · rw [← h5] at h4
    exact mul_left_cancel₀ h0 h4

end MieDiff.Spec
