import Verif.Proofs.Geo
import Verif.Proofs.Decay
import Verif.Proofs.PlaneWave

/-!
# Bounds of the partial waves that are uniform in the position

All bounds are up to geometric factors: `psi_n` is of the size of `1 / (2n+1)!!`, `zeta_n` of the size of `(2n+1)!!`.
-/

namespace MieDiff

open Complex Spec Filter Topology Nat

/-- `(2n+1)!!` -/
noncomputable def dfac (n : ℕ) : ℝ := ((2 * n + 1)‼ : ℕ)

theorem dfac_pos (n : ℕ) : 0 < dfac n := dfacR_pos n

theorem dfac_succ (n : ℕ) : dfac (n + 1) = (2 * n + 3) * dfac n := dfacR_succ n

theorem dfac_le (n : ℕ) : dfac n ≤ dfac (n + 1) := by
  rw [dfac_succ]
  have := dfac_pos n
  nlinarith [(Nat.cast_nonneg n : (0 : ℝ) ≤ n)]

theorem sg_inv_dfac : SG fun n => 1 / dfac n := by
  intro r hr
  have hs : Tendsto (fun n : ℕ => (1 / r) ^ n / (n ! : ℝ)) atTop (𝓝 0) := FloorSemiring.tendsto_pow_div_factorial_atTop _
  refine Asymptotics.IsBigO.of_bound 1 ?_
  filter_upwards [hs.eventually_lt_const one_pos] with n hn
  have h1 : (n ! : ℝ) ≤ dfac n := by unfold dfac; exact_mod_cast fac_le_dfac n
  have h2 : (0 : ℝ) < n ! := by exact_mod_cast Nat.factorial_pos n
  have h3 : 0 < r ^ n := pow_pos hr n
  rw [one_mul, Real.norm_of_nonneg (by have := dfac_pos n; positivity), Real.norm_of_nonneg h3.le, div_le_iff₀ (dfac_pos n)]
  rw [div_lt_one h2, div_pow, one_pow, div_lt_iff₀ h3] at hn
  nlinarith

/-! ## Growth of solutions of the three-term recurrence -/

theorem rec_growth {f : ℕ → ℂ} {z : ℂ} (hf : ∀ n, f (n + 2) = (2 * (n : ℂ) + 3) / z * f (n + 1) - f n) {ρ C : ℝ}
    (hρ : 0 < ρ) (h : ρ ≤ ‖z‖) (h0 : ‖f 0‖ ≤ C) (h1 : ‖f 1‖ ≤ C) (n : ℕ) : ‖f n‖ ≤ C * (1 / ρ + 1) ^ n * dfac n := by
  have hC : 0 ≤ C := (norm_nonneg _).trans h0
  set q := 1 / ρ + 1 with hq
  have hq1 : 1 ≤ q := by have : 0 < 1 / ρ := by positivity
                         linarith
  have key : ∀ n, ‖f n‖ ≤ C * q ^ n * dfac n ∧ ‖f (n + 1)‖ ≤ C * q ^ (n + 1) * dfac (n + 1) := by
    intro n
    induction n with
    | zero =>
      have e0 : dfac 0 = 1 := by simp [dfac]
      have e1 : dfac 1 = 3 := by have := dfac_succ 0; rw [e0] at this; simpa using this
      constructor
      · rw [e0]; simpa using h0
      · rw [e1]; refine h1.trans ?_
        rw [zero_add, pow_one]
        nlinarith
    | succ n ih =>
      refine ⟨ih.2, ?_⟩
      have hz' : ‖(2 * (n : ℂ) + 3) / z‖ ≤ (2 * (n : ℝ) + 3) / ρ := by
        rw [norm_odd_div]
        gcongr
      have hD := dfac_pos (n + 1)
      have hDn := dfac_pos n
      have hDl := dfac_le n
      have hp := pow_pos (lt_of_lt_of_le one_pos hq1) n
      have hn : (0 : ℝ) ≤ n := Nat.cast_nonneg n
      calc ‖f (n + 1 + 1)‖ ≤ ‖(2 * (n : ℂ) + 3) / z‖ * ‖f (n + 1)‖ + ‖f n‖ := by
            rw [hf n, ← norm_mul]; exact norm_sub_le _ _
        _ ≤ (2 * (n : ℝ) + 3) / ρ * (C * q ^ (n + 1) * dfac (n + 1)) + C * q ^ n * dfac n :=
            add_le_add (mul_le_mul hz' ih.2 (norm_nonneg _) (by positivity)) ih.1
        _ ≤ (2 * (n : ℝ) + 3) / ρ * (C * q ^ (n + 1) * dfac (n + 1)) + C * q ^ n * dfac (n + 1) := by
            gcongr
        _ = C * q ^ n * dfac (n + 1) * ((2 * n + 3) * (1 / ρ) * q + 1) := by rw [pow_succ]; ring
        _ ≤ C * q ^ n * dfac (n + 1) * (q ^ 2 * (2 * n + 5)) := by
            refine mul_le_mul_of_nonneg_left ?_ (by positivity)
            rw [show 1 / ρ = q - 1 by rw [hq]; ring]
            nlinarith [mul_nonneg hn (sub_nonneg.2 hq1)]
        _ = C * q ^ (n + 1 + 1) * dfac (n + 1 + 1) := by
            rw [dfac_succ (n + 1)]; push_cast; ring
  exact (key n).1


theorem ric_cont_psi (n : ℕ) {K : Set ℂ} (h0 : (0 : ℂ) ∉ K) : ContinuousOn (ricPsi n) K := fun z hz => by
  have hz0 : z ≠ 0 := fun e => h0 (e ▸ hz)
  exact (sphJ_seq.ric_raise n hz0).continuousAt.continuousWithinAt

theorem ric_cont_zeta (n : ℕ) {K : Set ℂ} (h0 : (0 : ℂ) ∉ K) : ContinuousOn (ricZeta n) K := fun z hz => by
  have hz0 : z ≠ 0 := fun e => h0 (e ▸ hz)
  exact (sphH_seq.ric_raise n hz0).continuousAt.continuousWithinAt

theorem compact_lower {K : Set ℂ} (hK : IsCompact K) (h0 : (0 : ℂ) ∉ K) : ∃ ρ : ℝ, 0 < ρ ∧ ∀ z ∈ K, ρ ≤ ‖z‖ := by
  rcases K.eq_empty_or_nonempty with rfl | hne
  · exact ⟨1, one_pos, by simp⟩
  · obtain ⟨w, hw, h⟩ := hK.exists_isMinOn hne continuous_norm.continuousOn
    refine ⟨‖w‖, norm_pos_iff.2 fun e => h0 (e ▸ hw), fun z hz => h hz⟩

theorem psi_unif {K : Set ℂ} (hK : IsCompact K) (h0 : (0 : ℂ) ∉ K) :
    ∃ P : ℕ → ℝ, (∀ n, ∀ z ∈ K, ‖ricPsi n z‖ ≤ P n) ∧ GB fun n => P n * dfac n := by
  choose M hM using fun n => hK.exists_bound_of_continuousOn (ric_cont_psi n h0)
  obtain ⟨R, hR⟩ := hK.exists_bound_of_continuousOn (f := id) continuousOn_id
  set R' := max R 1 with hR'
  have hR1 : 0 < R' := lt_of_lt_of_le one_pos (le_max_right _ _)
  refine ⟨fun n => if R' ^ 2 ≤ n + 1 then 2 * R' ^ (n + 1) / dfac n else M n, fun n z hz => ?_, ?_⟩
  · beta_reduce
    split_ifs with hn
    · have hz0 : z ≠ 0 := fun e => h0 (e ▸ hz)
      have hzR : ‖z‖ ≤ R' := (hR z hz).trans (le_max_left _ _)
      have := norm_sphJ_le n hz0 (le_trans (by gcongr) hn)
      unfold ricPsi
      rw [norm_mul]
      calc ‖z‖ * ‖sphJ n z‖ ≤ R' * (2 * (R' ^ n / dfac n)) := by
            refine mul_le_mul hzR (this.trans ?_) (norm_nonneg _) hR1.le
            have hd : (0 : ℝ) < ((2 * n + 1)‼ : ℕ) := dfac_pos n
            unfold dfac
            gcongr
        _ = _ := by rw [pow_succ]; ring
    · exact hM n z hz
  · have hg : GB fun n => 2 * R' ^ (n + 1) := (GB.const 2).mul (GB.shift (GB.pow hR1))
    refine hg.mono ?_
    filter_upwards [eventually_big (R' ^ 2)] with n hn
    rw [if_pos (by linarith), div_mul_cancel₀ _ (dfac_pos n).ne']

theorem zeta_unif {K : Set ℂ} (hK : IsCompact K) (h0 : (0 : ℂ) ∉ K) :
    ∃ Q : ℕ → ℝ, (∀ n, ∀ z ∈ K, ‖ricZeta n z‖ ≤ Q n) ∧ GB fun n => Q n / dfac n := by
  obtain ⟨ρ, hρ, hl⟩ := compact_lower hK h0
  obtain ⟨C0, hC0⟩ := hK.exists_bound_of_continuousOn (ric_cont_zeta 0 h0)
  obtain ⟨C1, hC1⟩ := hK.exists_bound_of_continuousOn (ric_cont_zeta 1 h0)
  refine ⟨fun n => max C0 C1 * (1 / ρ + 1) ^ n * dfac n, fun n z hz => ?_, ?_⟩
  · have hz0 : z ≠ 0 := fun e => h0 (e ▸ hz)
    exact rec_growth (f := fun n => ricZeta n z) (fun n => ricZeta_rec n hz0) hρ (hl z hz)
      ((hC0 z hz).trans (le_max_left _ _)) ((hC1 z hz).trans (le_max_right _ _)) n
  · have : GB fun n => max C0 C1 * (1 / ρ + 1) ^ n := (GB.const _).mul (GB.pow (by positivity))
    refine this.mono (Eventually.of_forall fun n => ?_)
    rw [mul_div_cancel_right₀ _ (dfac_pos n).ne']

theorem raise_bound {f : ℕ → ℂ → ℂ} {n : ℕ} {z d : ℂ} {ρ A B : ℝ} (hρ : 0 < ρ) (hz : ρ ≤ ‖z‖)
    (hd : d = ((n : ℂ) + 1) / z * f n z - f (n + 1) z) (hA : ‖f n z‖ ≤ A) (hB : ‖f (n + 1) z‖ ≤ B) :
    ‖d‖ ≤ (n + 1) / ρ * A + B := by
  rw [hd]
  refine (norm_sub_le _ _).trans (add_le_add ?_ hB)
  rw [norm_mul, norm_div]
  have : ‖(n : ℂ) + 1‖ = n + 1 := by
    rw [show (n : ℂ) + 1 = ((n + 1 : ℝ) : ℂ) by push_cast; ring, norm_real, Real.norm_of_nonneg (by positivity)]
  rw [this]
  gcongr

theorem psi_der_unif {K : Set ℂ} (hK : IsCompact K) (h0 : (0 : ℂ) ∉ K) :
    ∃ P : ℕ → ℝ, (∀ n, ∀ z ∈ K, ‖deriv (ricPsi n) z‖ ≤ P n) ∧ GB fun n => P n * dfac n := by
  obtain ⟨ρ, hρ, hl⟩ := compact_lower hK h0
  obtain ⟨P, hP, hg⟩ := psi_unif hK h0
  refine ⟨fun n => (n + 1) / ρ * P n + P (n + 1), fun n z hz => ?_, ?_⟩
  · exact raise_bound (f := ricPsi) hρ (hl z hz) (deriv_ricPsi_raise n fun e => h0 (e ▸ hz)) (hP n z hz) (hP _ z hz)
  · have g1 : GB fun n => ((n : ℝ) + 1) * (1 / ρ) * (P n * dfac n) := ((GB.nat.add (GB.const 1)).mul (GB.const _)).mul hg
    have g2 : GB fun n => P (n + 1) * dfac n := by
      refine (GB.shift hg).mono (Eventually.of_forall fun n => ?_)
      rw [abs_mul, abs_mul, abs_of_pos (dfac_pos n), abs_of_pos (dfac_pos (n + 1))]
      exact mul_le_mul_of_nonneg_left (dfac_le n) (abs_nonneg _)
    refine (g1.add g2).mono (Eventually.of_forall fun n => le_of_eq ?_)
    congr 1; ring

theorem zeta_der_unif {K : Set ℂ} (hK : IsCompact K) (h0 : (0 : ℂ) ∉ K) :
    ∃ Q : ℕ → ℝ, (∀ n, ∀ z ∈ K, ‖deriv (ricZeta n) z‖ ≤ Q n) ∧ GB fun n => Q n / dfac n := by
  obtain ⟨ρ, hρ, hl⟩ := compact_lower hK h0
  obtain ⟨Q, hQ, hg⟩ := zeta_unif hK h0
  refine ⟨fun n => (n + 1) / ρ * Q n + Q (n + 1), fun n z hz => ?_, ?_⟩
  · exact raise_bound (f := ricZeta) hρ (hl z hz) (deriv_ricZeta_raise n fun e => h0 (e ▸ hz)) (hQ n z hz) (hQ _ z hz)
  · have g1 : GB fun n => ((n : ℝ) + 1) * (1 / ρ) * (Q n / dfac n) := ((GB.nat.add (GB.const 1)).mul (GB.const _)).mul hg
    have g2 : GB fun n => (Q (n + 1) / dfac (n + 1)) * (2 * n + 3) :=
      (GB.shift hg).mul (((GB.const 2).mul GB.nat).add (GB.const 3))
    refine (g1.add g2).mono (Eventually.of_forall fun n => le_of_eq ?_)
    congr 1
    rw [dfac_succ]
    have := (dfac_pos n).ne'
    have h3 : (2 * (n : ℝ) + 3) ≠ 0 := by positivity
    field_simp

/-! ## Sequences of waves whose series converges -/

/-- The wave of order `n` becomes small faster than geometrically. -/
def Dec (w : ℕ → Wave) : Prop := (SG fun n => ‖(w n).d‖ / dfac n) ∧ SG fun n => ‖(w n).a‖ * dfac n

theorem Dec.unif {w : ℕ → Wave} (hw : Dec w) {K : Set ℂ} (hK : IsCompact K) (h0 : (0 : ℂ) ∉ K) :
    ∃ u : ℕ → ℝ, SG u ∧ (∀ n, 0 ≤ u n) ∧ ∀ n, ∀ z ∈ K, ‖(w n).val n z‖ ≤ u n ∧ ‖(w n).der n z‖ ≤ u n := by
  obtain ⟨P, hP, gP⟩ := psi_unif hK h0
  obtain ⟨P', hP', gP'⟩ := psi_der_unif hK h0
  obtain ⟨Q, hQ, gQ⟩ := zeta_unif hK h0
  obtain ⟨Q', hQ', gQ'⟩ := zeta_der_unif hK h0
  have s : ∀ {A B : ℕ → ℝ}, (GB fun n => A n * dfac n) → (GB fun n => B n / dfac n) →
      SG fun n => ‖(w n).d‖ * A n + ‖(w n).a‖ * B n := by
    intro A B hA hB
    refine ((hw.1.mul hA).add (hw.2.mul hB)).mono (Eventually.of_forall fun n => le_of_eq ?_)
    congr 1
    have := (dfac_pos n).ne'
    field_simp
  have key : ∀ {A B : ℝ} {x y d a : ℂ}, ‖x‖ ≤ A → ‖y‖ ≤ B → ‖d * x - a * y‖ ≤ |‖d‖ * A + ‖a‖ * B| := by
    intro A B x y d a hA hB
    refine le_trans ?_ (le_abs_self _)
    refine (norm_sub_le _ _).trans ?_
    rw [norm_mul, norm_mul]
    gcongr
  refine ⟨fun n => |‖(w n).d‖ * P n + ‖(w n).a‖ * Q n| + |‖(w n).d‖ * P' n + ‖(w n).a‖ * Q' n|, ?_, fun n => by positivity,
    fun n z hz => ⟨?_, ?_⟩⟩
  · refine SG.add ((s gP gQ).mono (Eventually.of_forall fun n => ?_)) ((s gP' gQ').mono (Eventually.of_forall fun n => ?_)) <;>
      rw [abs_abs]
  · exact (key (hP n z hz) (hQ n z hz)).trans (le_add_of_nonneg_right (abs_nonneg _))
  · exact (key (hP' n z hz) (hQ' n z hz)).trans (le_add_of_nonneg_left (abs_nonneg _))

theorem Dec.of_val {w : ℕ → Wave} {z : ℂ} (hz : z ≠ 0) (h1 : SG fun n => ‖(w n).val n z‖) (h2 : SG fun n => ‖(w n).der n z‖) :
    Dec w := by
  have hK : IsCompact ({z} : Set ℂ) := isCompact_singleton
  have h0 : (0 : ℂ) ∉ ({z} : Set ℂ) := fun e => hz (Set.mem_singleton_iff.1 e).symm
  have hm : z ∈ ({z} : Set ℂ) := rfl
  obtain ⟨P, hP, gP⟩ := psi_unif hK h0
  obtain ⟨P', hP', gP'⟩ := psi_der_unif hK h0
  obtain ⟨Q, hQ, gQ⟩ := zeta_unif hK h0
  obtain ⟨Q', hQ', gQ'⟩ := zeta_der_unif hK h0
  have key : ∀ {A B : ℝ} {x y v d e : ℂ}, v * x - d * y = e * I → ‖x‖ ≤ A → ‖y‖ ≤ B → ‖e‖ ≤ ‖v‖ * A + ‖d‖ * B := by
    intro A B x y v d e he hA hB
    have : ‖e‖ = ‖v * x - d * y‖ := by rw [he, norm_mul, norm_I, mul_one]
    rw [this]
    refine (norm_sub_le _ _).trans ?_
    rw [norm_mul, norm_mul]
    gcongr
  constructor
  · refine ((h1.mul gQ').add (h2.mul gQ)).mono (Eventually.of_forall fun n => ?_)
    have hd := dfac_pos n
    have := key (wave_d (w n) n hz) (hQ' n z hm) (hQ n z hm)
    rw [abs_of_nonneg (by positivity)]
    refine le_trans ?_ (le_abs_self _)
    rw [← mul_div_assoc, ← mul_div_assoc, ← add_div]
    gcongr
  · refine ((h1.mul gP').add (h2.mul gP)).mono (Eventually.of_forall fun n => ?_)
    have hd := dfac_pos n
    have := key (wave_a (w n) n hz) (hP' n z hm) (hP n z hm)
    rw [abs_of_nonneg (by positivity)]
    refine le_trans ?_ (le_abs_self _)
    rw [← mul_assoc, ← mul_assoc, ← add_mul]
    gcongr

theorem Dec.val {w : ℕ → Wave} (hw : Dec w) {z : ℂ} (hz : z ≠ 0) :
    (SG fun n => ‖(w n).val n z‖) ∧ SG fun n => ‖(w n).der n z‖ := by
  have h0 : (0 : ℂ) ∉ ({z} : Set ℂ) := fun e => hz (Set.mem_singleton_iff.1 e).symm
  obtain ⟨u, hu, hp, h⟩ := hw.unif isCompact_singleton h0
  constructor <;> refine hu.mono (Eventually.of_forall fun n => ?_) <;> rw [abs_norm, abs_of_nonneg (hp n)]
  exacts [(h n z rfl).1, (h n z rfl).2]

/-- Going inwards through an interface. -/
theorem Dec.cont {w w' : ℕ → Wave} {q : Pol} {m m' x : ℂ} (hm : m ≠ 0) (hm' : m' ≠ 0) (hx : x ≠ 0) (hw : Dec w')
    (hc : ∀ᶠ n in atTop, Cont q n m m' x (w n) (w' n)) : Dec w := by
  obtain ⟨h1, h2⟩ := hw.val (mul_ne_zero hm' hx)
  have scale : ∀ {f g : ℕ → ℂ}, (SG fun n => ‖g n‖) → (∀ᶠ n in atTop, f n * m' = g n * m) → SG fun n => ‖f n‖ := by
    intro f g hg hfg
    refine (hg.mul (GB.const (‖m‖ / ‖m'‖))).mono (hfg.mono fun n hn => le_of_eq ?_)
    have : f n = g n * m / m' := by rw [eq_div_iff hm', hn]
    rw [this, norm_div, norm_mul, mul_div_assoc]
  cases q
  · refine Dec.of_val (mul_ne_zero hm hx) (h1.of_ev (hc.mono fun n h => by simp only [h.1])) (scale h2 (hc.mono fun n h => h.2))
  · refine Dec.of_val (mul_ne_zero hm hx) (scale h1 (hc.mono fun n h => h.1)) (h2.of_ev (hc.mono fun n h => by simp only [h.2]))

/-- From some order on `|psi_n zeta_{n+1}|` is at least 1/2. -/
theorem psi_zeta_lower {z : ℂ} (hz : z ≠ 0) : ∀ᶠ n : ℕ in atTop, 1 / 2 ≤ ‖ricPsi n z‖ * ‖ricZeta (n + 1) z‖ := by
  have l := ((psi_ratio_zero hz).mul (zeta_ratio_zero hz)).norm
  simp only [mul_zero, norm_zero] at l
  filter_upwards [l.eventually_lt_const one_pos, eventually_ricPsi_ne hz,
    (tendsto_add_atTop_nat 1).eventually (eventually_ricZeta_ne hz)] with n h1 h2 h3
  have hc := ric_cross' n hz
  have p : 0 < ‖ricPsi n z * ricZeta (n + 1) z‖ := norm_pos_iff.2 (mul_ne_zero h2 h3)
  have e : ricPsi (n + 1) z * ricZeta n z = (ricPsi (n + 1) z / ricPsi n z * (ricZeta n z / ricZeta (n + 1) z)) *
      (ricPsi n z * ricZeta (n + 1) z) := by field_simp
  have b : ‖ricPsi (n + 1) z * ricZeta n z‖ ≤ ‖ricPsi n z * ricZeta (n + 1) z‖ := by
    rw [e, norm_mul]
    nlinarith
  have : (1 : ℝ) ≤ ‖ricPsi (n + 1) z * ricZeta n z‖ + ‖ricPsi n z * ricZeta (n + 1) z‖ := by
    have := norm_sub_le (ricPsi (n + 1) z * ricZeta n z) (ricPsi n z * ricZeta (n + 1) z)
    rwa [hc, norm_I] at this
  rw [norm_mul (ricPsi n z)] at this b
  linarith

/-- The wave of the host. -/
theorem dec_host {w : ℕ → Wave} {x : ℂ} (hx : x ≠ 0) {C : ℝ} (hd : ∀ᶠ n in atTop, (w n).d = 1)
    (ha : ∀ᶠ n in atTop, ‖(w n).a‖ ≤ C * ‖ricPsi n x / ricZeta n x‖) : Dec w := by
  have h0 : (0 : ℂ) ∉ ({x} : Set ℂ) := fun e => hx (Set.mem_singleton_iff.1 e).symm
  obtain ⟨P, hP, gP⟩ := psi_unif isCompact_singleton h0
  refine ⟨sg_inv_dfac.of_ev (hd.mono fun n h => by simp only [h, norm_one]), SG.shift ?_⟩
  have g : SG fun n => 1 / dfac n * (|2 * C| * (P n * dfac n) * (P (n + 1) * dfac (n + 1))) :=
    sg_inv_dfac.mul (((GB.const _).mul gP).mul (GB.shift gP))
  refine g.mono ?_
  filter_upwards [psi_zeta_lower hx, (tendsto_add_atTop_nat 1).eventually ha,
    (tendsto_add_atTop_nat 1).eventually (eventually_ricZeta_ne hx)] with n h1 h2 h3
  have hD := dfac_pos n
  have hD1 := dfac_pos (n + 1)
  have hp0 : ‖ricPsi n x‖ ≤ P n := hP n x rfl
  have hp1 : ‖ricPsi (n + 1) x‖ ≤ P (n + 1) := hP (n + 1) x rfl
  have z0 : 0 < ‖ricZeta (n + 1) x‖ := norm_pos_iff.2 h3
  have q0 : 0 ≤ P n := (norm_nonneg _).trans hp0
  have q1 : 0 ≤ P (n + 1) := (norm_nonneg _).trans hp1
  have hq : ‖ricPsi (n + 1) x / ricZeta (n + 1) x‖ ≤ 2 * P n * P (n + 1) := by
    rw [norm_div, div_le_iff₀ z0]
    nlinarith [mul_nonneg q0 q1, mul_le_mul hp0 le_rfl z0.le q0, norm_nonneg (ricPsi (n + 1) x),
      mul_le_mul_of_nonneg_left (h1.trans (mul_le_mul_of_nonneg_right hp0 z0.le)) q1]
  have hC : ‖(w (n + 1)).a‖ ≤ |2 * C| * (P n * P (n + 1)) := by
    refine h2.trans ?_
    calc C * ‖ricPsi (n + 1) x / ricZeta (n + 1) x‖ ≤ |C| * (2 * P n * P (n + 1)) :=
          mul_le_mul (le_abs_self _) hq (norm_nonneg _) (abs_nonneg _)
      _ = _ := by rw [abs_mul, abs_two]; ring
  rw [abs_of_nonneg (by positivity), abs_of_nonneg (by positivity)]
  calc ‖(w (n + 1)).a‖ * dfac (n + 1) ≤ |2 * C| * (P n * P (n + 1)) * dfac (n + 1) := by gcongr
    _ = _ := by field_simp

end MieDiff
