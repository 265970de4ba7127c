import Verif.Proofs.BackwardShell
import Verif.Proofs.LogDer
import Verif.Props.Backward
import Verif.Props.Convergence

/-!
# Reverse mode through calls of the core-shell backends

Locally constant depths, the arguments of the special functions, and the cross sections from recorded coefficients.
-/

namespace MieDiff

set_option linter.unusedSectionVars false

open Complex Spec Filter Topology

/-! ## The call -/

/-- A successful call of a core-shell backend, by first and last layer. -/
structure ShellRun (B : Backends) (p : Particle1) (backend w : String) (ri : Bool) (o : MieOut) : Prop where
  k : o.k = p.k0 * csqrt p.epsEnv
  rC : o.rC = p.rLayers.headD 0
  rS : o.rS = p.rLayers.getLastD 0
  epsC : o.epsC = p.epsLayers.headD 0
  epsS : o.epsS = p.epsLayers.getLastD 0
  nEnv : o.nEnv = csqrt p.epsEnv
  len : p.epsLayers.length = p.rLayers.length
  one : 1 ≤ p.rLayers.length
  two : p.rLayers.length ≤ 2
  run : ∃ S out, selectBessel B backend w = .ok S ∧
    miecoef S (p.k0 * csqrt p.epsEnv * (p.rLayers.headD 0 : ℝ)) (p.k0 * csqrt p.epsEnv * (p.rLayers.getLastD 0 : ℝ)) o.nMax
      (csqrt (p.epsLayers.headD 0) / csqrt p.epsEnv) (csqrt (p.epsLayers.getLastD 0) / csqrt p.epsEnv) = .ok out ∧
    o.a = out.map (·.a) ∧ o.b = out.map (·.b) ∧ o.internal = if ri then some out else none

theorem shellRun_of {K : D1Kernel} {B : Backends} {p : Particle1} {backend w : String} {nMax : Option ℤ} {ri : Bool} {o : MieOut}
    (hb : backend.toLower ≠ "pena") (h : mieCoefficients K B p backend w nMax ri = .ok o) : ShellRun B p backend w ri o := by
  obtain ⟨k0, rs, es, ee⟩ := p
  unfold mieCoefficients at h
  simp only [hb, or_false, if_false] at h
  split at h
  · simp at h
  split at h
  · simp at h
  split at h
  · simp at h
  rename_i hlen
  simp only [not_not] at hlen
  rcases rs with _ | ⟨r, rs⟩
  · simp [pyIdx, Bind.bind, Except.bind] at h
  rcases es with _ | ⟨e, es⟩
  · simp at hlen
  have i0 : ∀ {α : Type} (a : α) (l : List α), pyIdx (a :: l) 0 = .ok a := fun a l => by simp [pyIdx]
  simp only [i0, Bind.bind, Except.bind] at h
  cases ho : orderChoice backend.toLower ⟨k0, r :: rs, e :: es, ee⟩ nMax with
  | error x => simp [ho] at h
  | ok n =>
    simp only [ho] at h
    cases hr : orderRange n with
    | error x => simp [hr] at h
    | ok u =>
      simp only [hr] at h
      split at h
      · simp at h
      · rename_i w' out hout
        simp only [Except.ok.injEq] at h
        subst h
        split at hout
        · simp at hout
        rename_i hl2
        cases hS : selectBessel B backend w with
        | error x => simp [hS] at hout
        | ok S =>
          simp only [hS] at hout
          have el : (if (r :: rs).length > 1 then (r :: rs).getLastD 0 else r) = (r :: rs).getLastD 0 := by
            rcases rs with _ | ⟨r', rs⟩
            · simp
            · rw [if_pos (by simp)]
          have el' : (if (r :: rs).length > 1 then (e :: es).getLastD 0 else e) = (e :: es).getLastD 0 := by
            rcases rs with _ | ⟨r', rs⟩
            · have : es = [] := by simpa using hlen
              subst this
              simp
            · rw [if_pos (by simp)]
          rw [el, el'] at hout
          split at hout
          · simp at hout
          · rename_i out' hm
            simp only [Except.ok.injEq] at hout
            obtain ⟨rfl, rfl, rfl⟩ := hout
            exact ⟨rfl, rfl, el, rfl, el', rfl, hlen, by simp, by simpa using hl2, S, out', hS, hm, rfl, rfl, rfl⟩

/-! ## Backends -/

/-- The three ways of computing the special functions: `backend='scipy'`, and `backend='torch'` with `which_jn='recurrence'` or
`'ratios'`. -/
inductive ShellKind
  | scipy
  | recurrence
  | ratios

namespace ShellKind

/-- The recorded functions; SciPy is exact. -/
noncomputable def bess (V : Type*) [AddCommGroup V] (n : ℕ) : ShellKind → Node.Bess V
  | scipy => Node.Bess.exact V
  | recurrence => Node.Bess.torchRec n
  | ratios => Node.Bess.torchRatio n

/-- The functions of the code. -/
noncomputable def select (sp : BesselBackend) : ShellKind → BesselBackend
  | scipy => (codeBackends sp).scipy
  | recurrence => (codeBackends sp).torchRec
  | ratios => (codeBackends sp).torchRatio

/-- The functions that the code evaluates near `z`: the depth of its recurrences is chosen from `|z|`. -/
noncomputable def fn (n : ℕ) (z : ℂ) : ShellKind → BessFn
  | scipy => Node.exactFn
  | recurrence => Node.recFn n (Node.recDepth z)
  | ratios => Node.ratFn n (Node.ratioDepth z)

/-- The depth of the recurrence does not change near `z`. -/
def Stable (z : ℂ) : ShellKind → Prop
  | scipy => z ≠ 0
  | recurrence => 3 / 2 * ‖z‖ < 11 ∨ 35 < 3 / 2 * ‖z‖ ∨ ∀ k : ℤ, 3 / 2 * ‖z‖ ≠ k
  | ratios => ‖z‖ * 2 < 11 ∨ 40 < ‖z‖ * 2 ∨ ∀ k : ℤ, ‖z‖ * 2 ≠ k

/-- No guard of the special functions fires at `z` and nothing is divided by zero. -/
def Clear (n : ℕ) (z : ℂ) : ShellKind → Prop
  | scipy => z ≠ 0
  | recurrence => 1e-10 < ‖z‖ ∧ (jDown z (n + Node.recDepth z) (n + Node.recDepth z)).1 ≠ 0
  | ratios => 1e-10 < ‖z‖ ∧ Node.CfClear z (n + Node.ratioDepth z)

end ShellKind

variable {V : Type*} [NormedAddCommGroup V] [InnerProductSpace ℝ V] {v0 : V}

section Stability

variable {E : Type*} [TopologicalSpace E] {e0 : E}

theorem floor_stable {t : E → ℝ} (h : ContinuousAt t e0) (hk : ∀ k : ℤ, t e0 ≠ k) : ∀ᶠ e in 𝓝 e0, ⌊t e⌋ = ⌊t e0⌋ := by
  have h1 : (⌊t e0⌋ : ℝ) < t e0 := lt_of_le_of_ne (Int.floor_le _) (hk _).symm
  have h2 : t e0 < ⌊t e0⌋ + 1 := Int.lt_floor_add_one _
  filter_upwards [h.eventually_const_lt h1, h.eventually_lt_const h2] with e g1 g2
  exact Int.floor_eq_iff.2 ⟨g1.le, g2⟩

theorem recDepth_stable {f : E → ℂ} (h : ContinuousAt f e0) (hs : ShellKind.recurrence.Stable (f e0)) :
    ∀ᶠ e in 𝓝 e0, Node.recDepth (f e) = Node.recDepth (f e0) := by
  have ht : ContinuousAt (fun e => 3 / 2 * ‖f e‖) e0 := h.norm.const_mul (3 / 2)
  have low : ∀ e, 3 / 2 * ‖f e‖ < 11 → Node.recDepth (f e) = 10 := by
    intro e he
    have : ⌊(3 / 2 : ℝ) * ‖f e‖⌋ < 11 := Int.floor_lt.2 (by exact_mod_cast he)
    unfold Node.recDepth
    rw [max_eq_left (by omega)]
    rfl
  have high : ∀ e, 35 < 3 / 2 * ‖f e‖ → Node.recDepth (f e) = 35 := by
    intro e he
    have : 35 ≤ ⌊(3 / 2 : ℝ) * ‖f e‖⌋ := Int.le_floor.2 (by exact_mod_cast he.le)
    unfold Node.recDepth
    simp only
    split <;> omega
  rcases hs with hs | hs | hs
  · filter_upwards [ht.eventually_lt_const hs] with e he
    rw [low e he, low e0 hs]
  · filter_upwards [ht.eventually_const_lt hs] with e he
    rw [high e he, high e0 hs]
  · filter_upwards [floor_stable ht hs] with e he
    unfold Node.recDepth
    rw [he]

theorem ratioDepth_stable {f : E → ℂ} (h : ContinuousAt f e0) (hs : ShellKind.ratios.Stable (f e0)) :
    ∀ᶠ e in 𝓝 e0, Node.ratioDepth (f e) = Node.ratioDepth (f e0) := by
  have ht : ContinuousAt (fun e => ‖f e‖ * 2) e0 := h.norm.mul_const 2
  have low : ∀ e, ‖f e‖ * 2 < 11 → Node.ratioDepth (f e) = 20 := by
    intro e he
    have : ⌊‖f e‖ * 2⌋ < 11 := Int.floor_lt.2 (by exact_mod_cast he)
    unfold Node.ratioDepth
    omega
  have high : ∀ e, 40 < ‖f e‖ * 2 → Node.ratioDepth (f e) = 50 := by
    intro e he
    have : 40 ≤ ⌊‖f e‖ * 2⌋ := Int.le_floor.2 (by exact_mod_cast he.le)
    unfold Node.ratioDepth
    omega
  rcases hs with hs | hs | hs
  · filter_upwards [ht.eventually_lt_const hs] with e he
    rw [low e he, low e0 hs]
  · filter_upwards [ht.eventually_const_lt hs] with e he
    rw [high e he, high e0 hs]
  · filter_upwards [floor_stable ht hs] with e he
    unfold Node.ratioDepth
    rw [he]

theorem one_le_recDepth (z : ℂ) : 1 ≤ Node.recDepth z := by
  unfold Node.recDepth
  simp only
  split <;> omega

theorem rec_runs (sp : BesselBackend) (n : ℕ) (z : ℂ) : RunsAt (codeBackends sp).torchRec n (Node.recFn n (Node.recDepth z)) z := by
  refine ⟨?_, sphYnTorch_run n z⟩
  change sphJnViaRec n z ‖z‖ = _
  unfold sphJnViaRec
  rw [if_neg (by omega)]
  rw [resolve_auto]
  simp only [Bind.bind, Except.bind]
  have := sphJnViaRecDepth_run n z (one_le_recDepth z)
  refine Eq.trans ?_ this
  congr 1
  have hmin : 1 ≤ max 10 ⌊(3 / 2 : ℝ) * ‖z‖⌋ := by omega
  unfold autoDepth Node.recDepth
  simp only
  split <;> omega

theorem ratio_runs (sp : BesselBackend) (n : ℕ) {z : ℂ} (h : 1e-8 ≤ ‖z‖) :
    RunsAt (codeBackends sp).torchRatio n (Node.ratFn n (Node.ratioDepth z)) z := by
  refine ⟨?_, sphYnTorch_run n z⟩
  change sphJnTorchNd n z ‖z‖ = _
  unfold sphJnTorchNd
  rw [if_neg (by rintro ⟨-, h'⟩; linarith)]
  unfold sphJnTorch
  rw [if_neg (by omega), if_neg (by linarith)]
  simp only [resolveNAddRatio, Bind.bind, Except.bind]
  rw [if_pos trivial]
  have := sphJnTorchDepth_run n z (Node.ratioDepth z) h
  refine Eq.trans ?_ this
  simp only
  congr 1
  unfold Node.ratioDepth
  omega

/-- The code evaluates the functions `k.fn` at all arguments near a stable one; `sphJnTorchNd` raises at small arguments. -/
theorem ShellKind.runs {k : ShellKind} {sp : BesselBackend} {n : ℕ} (hn : 1 ≤ n) (hsp : k = .scipy → ∀ z ≠ 0, ExactAt sp n z) {f : E → ℂ}
    (h : ContinuousAt f e0) (hs : k.Stable (f e0)) :
    ∀ᶠ e in 𝓝 e0, (∃ l, (k.select sp).jn n (f e) = .ok l) → RunsAt (k.select sp) n (k.fn n (f e0)) (f e) := by
  cases k with
  | scipy =>
    filter_upwards [h.eventually_ne hs] with e he _
    exact ⟨(hsp rfl _ he).j, (hsp rfl _ he).y⟩
  | recurrence =>
    filter_upwards [recDepth_stable h hs] with e he _
    change RunsAt _ n (Node.recFn n (Node.recDepth (f e0))) _
    rw [← he]
    exact rec_runs sp n (f e)
  | ratios =>
    filter_upwards [ratioDepth_stable h hs] with e he hl
    have h8 : 1e-8 ≤ ‖f e‖ := by
      by_contra hc
      obtain ⟨l, hl⟩ := hl
      change sphJnTorchNd n (f e) ‖f e‖ = _ at hl
      unfold sphJnTorchNd at hl
      rw [if_pos ⟨by exact_mod_cast hn, not_le.1 hc⟩] at hl
      simp at hl
    change RunsAt _ n (Node.ratFn n (Node.ratioDepth (f e0))) _
    rw [← he]
    exact ratio_runs sp n h8

end Stability

/-! ## Arguments -/

namespace Node

section Args

variable [CompleteSpace V] {p : Inputs V} {F : ParticleFam V} {x : Node V} {f : V → ℂ}

theorem ShellKind.tracks {k : ShellKind} (h : Tracks v0 x f) (n : ℕ) : (k.bess V n).TracksAt v0 x f (k.fn n (f v0)) := by
  cases k with
  | scipy => exact Bess.exact_tracks h
  | recurrence => exact Bess.rec_tracks h n
  | ratios => exact Bess.ratio_tracks h n

theorem ShellKind.good {k : ShellKind} {a : ℂ} (h : Good x a) {n : ℕ} (hc : k.Clear n a) : (k.bess V n).GoodAt x a (k.fn n a) := by
  cases k with
  | scipy => exact Bess.exact_good h hc
  | recurrence => exact Bess.rec_good h hc.1 n hc.2
  | ratios => exact Bess.ratio_good h hc.1 n hc.2

theorem headD_rel {α β : Type*} {R : α → β → Prop} {l : List α} {m : List β} (h : List.Forall₂ R l m) (hm : m ≠ []) (a : α) :
    ∃ b ∈ m, R (l.headD a) b ∧ ∀ c, m.headD c = b := by
  cases h with
  | nil => exact absurd rfl hm
  | cons h1 _ => exact ⟨_, List.mem_cons_self, h1, fun _ => rfl⟩

theorem getLastD_rel {α β : Type*} {R : α → β → Prop} {l : List α} {m : List β} (h : List.Forall₂ R l m) : m ≠ [] → ∀ a : α,
    ∃ b ∈ m, R (l.getLastD a) b ∧ ∀ c, m.getLastD c = b := by
  induction h with
  | nil => intro hm; exact absurd rfl hm
  | @cons x y l' m' h1 h2 ih =>
    intro _ a
    cases h2 with
    | nil => exact ⟨y, by simp, by simpa using h1, fun _ => by simp⟩
    | cons h3 h4 =>
      obtain ⟨b, hb, e1, e2⟩ := ih (by simp) a
      exact ⟨b, List.mem_cons_of_mem _ hb, by simpa [List.getLastD] using e1, fun c => by simpa [List.getLastD] using e2 c⟩

/-- The four arguments of `_miecoef` as functions of the parameters: indices and size parameters of core and shell. -/
structure ArgsOf (v0 : V) (p : Inputs V) (F : ParticleFam V) (m1 x m2 y : V → ℂ) : Prop where
  tm1 : Tracks v0 (shellArgs p).1.1 m1
  tx : Tracks v0 (shellArgs p).1.2 x
  tm2 : Tracks v0 (shellArgs p).2.1 m2
  ty : Tracks v0 (shellArgs p).2.2 y
  gm1 : csqrt (F.env v0) ≠ 0 → Good (shellArgs p).1.1 (m1 v0)
  gx : Good (shellArgs p).1.2 (x v0)
  gm2 : csqrt (F.env v0) ≠ 0 → Good (shellArgs p).2.1 (m2 v0)
  gy : Good (shellArgs p).2.2 (y v0)
  em1 : ∀ v, m1 v = csqrt ((F.at v).epsLayers.headD 0) / csqrt (F.env v)
  ex : ∀ v, x v = F.k0 v * csqrt (F.env v) * ((F.at v).rLayers.headD 0 : ℝ)
  em2 : ∀ v, m2 v = csqrt ((F.at v).epsLayers.getLastD 0) / csqrt (F.env v)
  ey : ∀ v, y v = F.k0 v * csqrt (F.env v) * ((F.at v).rLayers.getLastD 0 : ℝ)

theorem argsOf (h : p.Holds v0 F) (he : F.eps ≠ []) (hr : F.r ≠ []) : ∃ m1 x m2 y, ArgsOf v0 p F m1 x m2 y := by
  obtain ⟨e1, -, he1, de1⟩ := headD_rel h.eps he (const 0)
  obtain ⟨e2, -, he2, de2⟩ := getLastD_rel h.eps he (const 0)
  obtain ⟨r1, -, hr1, dr1⟩ := headD_rel h.r hr (const 0)
  obtain ⟨r2, -, hr2, dr2⟩ := getLastD_rel h.r hr (const 0)
  have tn := h.env.tracks.powHalf
  have tk := h.k0.tracks.mul tn
  have gn := h.env.good.powHalf h.cut
  have gk := h.k0.good.mul gn
  have hd : ∀ {β : Type} (l : List (V → β)) (hl : l ≠ []) (g : V → β) (d : β) (hg : ∀ c, l.headD c = g) (v : V),
      (l.map (· v)).headD d = g v := by
    intro β l hl g d hg v
    cases l with
    | nil => exact absurd rfl hl
    | cons a l => simpa using congrFun (hg a) v
  have hl : ∀ {β : Type} (l : List (V → β)) (hl : l ≠ []) (g : V → β) (d : β) (hg : ∀ c, l.getLastD c = g) (v : V),
      (l.map (· v)).getLastD d = g v := by
    intro β l hl g d hg v
    rw [List.getLastD_eq_getLast?, List.getLast?_map]
    have := hg g
    rw [List.getLastD_eq_getLast?] at this
    obtain ⟨b, hb⟩ := Option.isSome_iff_exists.1 (List.getLast?_isSome.2 hl)
    rw [hb] at this ⊢
    simpa using congrFun this v
  exact ⟨fun v => csqrt (e1 v) / csqrt (F.env v), fun v => F.k0 v * csqrt (F.env v) * (r1 v : ℂ),
    fun v => csqrt (e2 v) / csqrt (F.env v), fun v => F.k0 v * csqrt (F.env v) * (r2 v : ℂ),
    he1.1.tracks.powHalf.div tn, tk.mul hr1.tracks, he2.1.tracks.powHalf.div tn, tk.mul hr2.tracks,
    fun h0 => (he1.1.good.powHalf he1.2).div gn h0, gk.mul hr1.good, fun h0 => (he2.1.good.powHalf he2.2).div gn h0, gk.mul hr2.good,
    fun v => by rw [show (F.at v).epsLayers.headD 0 = e1 v from hd F.eps he e1 0 de1 v],
    fun v => by rw [show (F.at v).rLayers.headD 0 = r1 v from hd F.r hr r1 0 dr1 v],
    fun v => by rw [show (F.at v).epsLayers.getLastD 0 = e2 v from hl F.eps he e2 0 de2 v],
    fun v => by rw [show (F.at v).rLayers.getLastD 0 = r2 v from hl F.r hr r2 0 dr2 v]⟩

/-! ## Cross sections -/

/-- The recorded cross sections follow functions. -/
structure CsTracks (v0 : V) (c : Cross V) (e : V → CrossSections) : Prop where
  ext : Tracks v0 c.ext fun v => ((e v).csExt : ℂ)
  sca : Tracks v0 c.sca fun v => ((e v).csSca : ℂ)
  abs : Tracks v0 c.abs fun v => ((e v).csAbs : ℂ)
  qExt : Tracks v0 c.qExt fun v => ((e v).qExt : ℂ)
  qSca : Tracks v0 c.qSca fun v => ((e v).qSca : ℂ)
  qAbs : Tracks v0 c.qAbs fun v => ((e v).qAbs : ℂ)

theorem mpTerms_range (k : ℂ) (n : ℕ) (f : ℕ → ℂ) :
    mpTerms k ((List.range n).map f) = (List.range n).map fun i : ℕ => 2 * (Real.pi : ℂ) / k ^ 2 * (2 * ((i : ℂ) + 1) + 1) * f i := by
  unfold mpTerms
  refine List.ext_getElem (by simp) fun i h1 h2 => ?_
  simp

theorem crossOf_tracks (h : p.Holds v0 F) {n : ℕ} {c : ℕ → Node V × Node V} {α β : ℕ → V → ℂ} (ha : ∀ i, Tracks v0 (c i).1 (α i))
    (hb : ∀ i, Tracks v0 (c i).2 (β i)) :
    CsTracks v0 (crossOf n p c) fun v => crossSections (F.k0 v * csqrt (F.env v)) ((F.at v).rLayers.getLastD 0)
      ((List.range n).map fun i => α (i + 1) v) ((List.range n).map fun i => β (i + 1) v) := by
  have hk : Tracks v0 (Node.host p).2 fun v => F.k0 v * csqrt (F.env v) := h.k0.tracks.mul h.env.tracks.powHalf
  have hr := getLastD_tracks h.r
  have hgeo : Tracks v0 (Node.mul (Node.const Real.pi) (Node.sq (p.r.getLastD (Node.const 0)))) fun v =>
      ((Real.pi * ((F.at v).rLayers.getLastD 0) ^ 2 : ℝ) : ℂ) :=
    ((Tracks.const _).mul hr.sq).congr fun v => by push_cast; rfl
  have term : ∀ {w : Node V} {wf : V → ℂ} (i : ℕ), Tracks v0 w wf → Tracks v0 (Node.mpTerm (Node.host p).2 i w) fun v =>
      2 * (Real.pi : ℂ) / (F.k0 v * csqrt (F.env v)) ^ 2 * (2 * ((i : ℂ) + 1) + 1) * wf v := fun i hw =>
    (((hk.sq.rdiv (2 * Real.pi)).mul (Tracks.const _)).mul hw).congr fun v => by push_cast; rfl
  have ext := fun i => term i (ha (i + 1)).re
  have ext' := fun i => term i (hb (i + 1)).re
  have sca := fun i => term i (ha (i + 1)).absSq
  have sca' := fun i => term i (hb (i + 1)).absSq
  have tot : ∀ {x y : ℕ → Node V} {f g : ℕ → V → ℂ}, (∀ i, Tracks v0 (x i) (f i)) → (∀ i, Tracks v0 (y i) (g i)) →
      Tracks v0 (Node.re (Node.sum ((List.range n).map x ++ (List.range n).map y))) fun v =>
        (((((List.range n).map (fun i => f i v)).sum + ((List.range n).map fun i => g i v).sum).re : ℝ) : ℂ) := by
    intro x y f g hx hy
    have := Tracks.sum_map (v0 := v0) (x := fun s : ℕ ⊕ ℕ => Sum.elim x y s) (f := fun s => Sum.elim f g s)
      ((List.range n).map Sum.inl ++ (List.range n).map Sum.inr) (fun s _ => by cases s <;> simp [hx, hy])
    simpa [List.map_append, List.map_map, Function.comp_def] using this.re
  have zw : ∀ (f g : ℕ → ℂ), List.zipWith (· - ·) ((List.range n).map f) ((List.range n).map g) = (List.range n).map fun i => f i - g i :=
    fun f g => by rw [List.zipWith_map_left, List.zipWith_map_right, List.zipWith_self]
  have t1 := tot ext ext'
  have t2 := tot sca sca'
  have t3 := tot (fun i => (ext i).sub (sca i)) (fun i => (ext' i).sub (sca' i))
  have eff : ∀ {x : Node V} {c : V → ℝ}, Tracks v0 x (fun v => (c v : ℂ)) → Tracks v0
      (Node.div x (Node.mul (Node.const Real.pi) (Node.sq (p.r.getLastD (Node.const 0))))) fun v =>
        ((c v / (Real.pi * ((F.at v).rLayers.getLastD 0) ^ 2) : ℝ) : ℂ) :=
    fun hx => (hx.div hgeo).congr fun v => by push_cast; rfl
  simp only [crossSections, List.map_map, Function.comp_def, mpTerms_range, zw]
  exact ⟨t1, t2, t3, eff t1, eff t2, eff t3⟩

theorem crossOf_regular (h : p.Holds v0 F) {n : ℕ} {c : ℕ → Node V × Node V} (hc : ∀ i, 1 ≤ i → i ≤ n → (c i).1.ok ∧ (c i).2.ok)
    (hk0 : F.k0 v0 * csqrt (F.env v0) ≠ 0) (hr0 : (F.at v0).rLayers.getLastD 0 ≠ 0) : (crossOf n p c).Regular := by
  have hm := fun i (hi : i < n) => hc (i + 1) (by omega) (by omega)
  have hk : Good (Node.host p).2 (F.k0 v0 * csqrt (F.env v0)) := h.k0.good.mul (h.env.good.powHalf h.cut)
  have hr : Good (p.r.getLastD (Node.const 0)) _ := getLastD_good h.r
  have hgeo := (Good.const (V := V) (Real.pi : ℂ)).mul hr.sq
  have hgeo0 : (Real.pi : ℂ) * ((((F.r.map (· v0)).getLastD 0 : ℝ) : ℂ)) ^ 2 ≠ 0 :=
    mul_ne_zero (by exact_mod_cast Real.pi_ne_zero) (pow_ne_zero 2 (by exact_mod_cast hr0))
  have term : ∀ {w : Node V} (i : ℕ), w.ok → (Node.mpTerm (Node.host p).2 i w).ok := fun i hw =>
    (((hk.sq.rdiv (2 * Real.pi) (pow_ne_zero 2 hk0)).mul (Good.const _)).mul ⟨rfl, hw⟩).ok
  have tot : ∀ {x y : ℕ → Node V}, (∀ i < n, (x i).ok) → (∀ i < n, (y i).ok) →
      (Node.re (Node.sum ((List.range n).map x ++ (List.range n).map y))).ok := by
    intro x y hx hy z hz
    rcases List.mem_append.1 hz with hz | hz
    · obtain ⟨i, hi, rfl⟩ := List.mem_map.1 hz
      exact hx i (List.mem_range.1 hi)
    · obtain ⟨i, hi, rfl⟩ := List.mem_map.1 hz
      exact hy i (List.mem_range.1 hi)
  have t1 := tot (fun i hi => term i (show (Node.re (c (i + 1)).1).ok from (hm i hi).1))
    (fun i hi => term i (show (Node.re (c (i + 1)).2).ok from (hm i hi).2))
  have t2 := tot (fun i hi => term i (show (Node.absSq (c (i + 1)).1).ok from (hm i hi).1))
    (fun i hi => term i (show (Node.absSq (c (i + 1)).2).ok from (hm i hi).2))
  have t3 : (crossOf n p c).abs.ok := tot
    (fun i hi => ⟨term i (show (Node.re (c (i + 1)).1).ok from (hm i hi).1),
      term i (show (Node.absSq (c (i + 1)).1).ok from (hm i hi).1)⟩)
    (fun i hi => ⟨term i (show (Node.re (c (i + 1)).2).ok from (hm i hi).2),
      term i (show (Node.absSq (c (i + 1)).2).ok from (hm i hi).2)⟩)
  have q : ∀ {w : Node V}, w.ok → (Node.div w (Node.mul (Node.const Real.pi) (Node.sq (p.r.getLastD (Node.const 0))))).ok :=
    fun hw => (Good.div ⟨rfl, hw⟩ hgeo hgeo0).ok
  exact ⟨t1, t2, t3, q t1, q t2, q t3⟩

end Args

end Node

end MieDiff
