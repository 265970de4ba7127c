import Verif.Proofs.NearTorch

/-!
# C43: near fields of the torch/scipy backends for several wavelengths or particles
-/

namespace MieDiff

open Complex Ten

/-- Particle `p` at wavenumber `k` alone. -/
def TorchCoefs.alone (o : TorchCoefs) (p k : ℕ) : TorchCoefs :=
  let one {α : Type} (x : α) : Ten α := ⟨[1, 1], fun _ => x⟩
  let ord (t : Ten ℂ) : Ten ℂ := ⟨[o.nMax, 1, 1], fun idx => t.get [idx.headD 0, p, k]⟩
  { nMax := o.nMax, k := one (o.k.get [0, k]), k0 := one (o.k0.get [0, k]), rC := one (o.rC.get [p, k])
    rS := one (o.rS.get [p, k]), nEnv := one (o.nEnv.get [0, k]), nC := one (o.nC.get [p, k]), nS := one (o.nS.get [p, k])
    a := ord o.a, b := ord o.b, c := ord o.c, d := ord o.d, f := ord o.f, g := ord o.g, v := ord o.v, w := ord o.w }

/-- One probe position alone. -/
def Ten.pick {α : Type} (t : Ten α) (q : ℕ) : Ten α := ⟨[1], fun _ => t.get [q]⟩

/-- The six arrays have the same entries at the two positions. -/
def FieldsT.SameAt (R : FieldsT) (i : List ℕ) (R' : FieldsT) (i' : List ℕ) : Prop :=
  R.Ei.get i = R'.Ei.get i' ∧ R.Hi.get i = R'.Hi.get i' ∧ R.Es.get i = R'.Es.get i' ∧ R.Hs.get i = R'.Hs.get i' ∧
    R.Et.get i = R'.Et.get i' ∧ R.Ht.get i = R'.Ht.get i'

/-- C43 as stated: a call for `P` particles, `K` wavenumbers and `Q` positions succeeds and every entry is what the call for
that particle, wavenumber and position alone returns. -/
def AgreesAlone (J : TorchFns) (o : TorchCoefs) (P K Q : ℕ) (r theta phi : Ten ℝ) (E0 : ℂ) (epsilon : ℝ) : Prop :=
  ∃ R, torchFieldsFrom J o r theta phi E0 epsilon = .ok R ∧
    ∀ p k q j, p < P → k < K → q < Q → j < 3 →
      ∃ R', torchFieldsFrom J (o.alone p k) (r.pick q) (theta.pick q) (phi.pick q) E0 epsilon = .ok R' ∧
        R.SameAt [p, k, q, j] R' [0, 0, 0, j]

/-- Special functions that act on every entry separately. -/
def TorchFns.Entrywise (J : TorchFns) : Prop := ∀ z z', J z = J z'

theorem TorchCoefs.WF.alone {o : TorchCoefs} {N P K : ℕ} (h : o.WF N P K) (p k : ℕ) : (o.alone p k).WF N 1 1 := by
  obtain ⟨rfl, -⟩ := h
  exact ⟨rfl, rfl, rfl, rfl, rfl, rfl, rfl, rfl, rfl, rfl, rfl, rfl, rfl, rfl, rfl, rfl⟩

theorem TorchCoefs.Physical.alone {o : TorchCoefs} {P K Q : ℕ} {r : Ten ℝ} (h : o.Physical P K Q r) {p k q : ℕ} (hp : p < P)
    (hk : k < K) (hq : q < Q) : (o.alone p k).Physical 1 1 1 (r.pick q) where
  k0 := fun _ _ => h.k0 k hk
  nC := fun _ _ _ _ => h.nC p k hp hk
  nS := fun _ _ _ _ => h.nS p k hp hk
  nEnv := fun _ _ => h.nEnv k hk
  r := fun _ _ => h.r q hq

/-- C43, exact result for the shapes that run: at position `q` component `j` of the media, radii and the region is read at
particle `q` (or the only one) and wavenumber `j` (or the only one), and `H_i` uses the host index of the first wavenumber. -/
theorem C43_entries_partial {J : TorchFns} {N P K Q : ℕ} (hJ : TotalRic J N) (hN : 1 ≤ N) (hP : 0 < P) (hK : 0 < K)
    (hQ : 0 < Q) (hPQ : P = 1 ∨ P = Q) (hK3 : K = 1 ∨ K = 3) {o : TorchCoefs} (ho : o.WF N P K) {r theta phi : Ten ℝ}
    (hr : r.shape = [Q]) (ht : theta.shape = [Q]) (hf : phi.shape = [Q]) (E0 : ℂ) (epsilon : ℝ)
    (hph : o.Physical P K Q r) (heps : 1e-8 ≤ epsilon) :
    ∃ zc zs zo R, torchFieldsFrom J o r theta phi E0 epsilon = .ok R ∧
      R.Es.shape = [P, K, Q, 3] ∧ R.Hs.shape = [P, K, Q, 3] ∧ R.Ei.shape = [P, K, Q, 3] ∧ R.Hi.shape = [P, K, Q, 3] ∧
      R.Et.shape = [P, K, Q, 3] ∧ R.Ht.shape = [P, K, Q, 3] ∧
      ∀ p k q j, p < P → k < K → q < Q → j < 3 →
        let fld (n i : ℕ) := o.orderField (J zc) (J zs) (J zs) (J zo) E0 epsilon (r.get [q]) (theta.get [q]) (phi.get [q]) n p k
          (bi P q) (bi K i)
        R.Es.get [p, k, q, j] = (sumCart (theta.get [q]) (phi.get [q]) ((List.range N).map fun n =>
          ⟨(fld n 0).1.c0, (fld n 1).1.c1, (fld n 2).1.c2⟩)).comp j ∧
        R.Hs.get [p, k, q, j] = (sumCart (theta.get [q]) (phi.get [q]) ((List.range N).map fun n =>
          ⟨(fld n 0).2.c0, (fld n 1).2.c1, (fld n 2).2.c2⟩)).comp j ∧
        R.Ei.get [p, k, q, j] = (incidentE E0 (o.k.get [0, k]) (r.get [q]) (theta.get [q])).comp j ∧
        R.Hi.get [p, k, q, j] = (incidentH E0 (o.k.get [0, k]) (o.nEnv.get [0, 0]) (r.get [q]) (theta.get [q])).comp j ∧
        R.Et.get [p, k, q, j] = (if o.rS.get [bi P q, bi K j] < r.get [q] then R.Es.get [p, k, q, j] + R.Ei.get [p, k, q, j]
          else R.Es.get [p, k, q, j]) ∧
        R.Ht.get [p, k, q, j] = (if o.rS.get [bi P q, bi K j] < r.get [q] then R.Hs.get [p, k, q, j] + R.Hi.get [p, k, q, j]
          else R.Hs.get [p, k, q, j]) := by
  obtain ⟨zc, zs, z2, zo, R, hR, -, -, h2, -, s1, s2, s3, s4, s5, s6, h⟩ :=
    torchFieldsFrom_ok hJ hN hP hK hQ hPQ hK3 ho hr ht hf E0 epsilon hph heps
  subst h2
  exact ⟨zc, z2, zo, R, hR, s3, s4, s1, s2, s5, s6, h⟩

/-- C43: for all other shapes the call raises. -/
theorem C43_raises {J : TorchFns} {N P K Q : ℕ} (h : ¬((P = 1 ∨ P = Q) ∧ (K = 1 ∨ K = 3))) {o : TorchCoefs}
    (ho : o.WF N P K) {r theta phi : Ten ℝ} (hr : r.shape = [Q]) (ht : theta.shape = [Q]) (E0 : ℂ) (epsilon : ℝ) :
    ∃ e, torchFieldsFrom J o r theta phi E0 epsilon = .error e := by
  rcases hR : torchFieldsFrom J o r theta phi E0 epsilon with e | R
  · exact ⟨e, rfl⟩
  · exact absurd hR (torchFieldsFrom_raises h ho hr ht E0 epsilon R)

/-- C43, the largest case in which it holds: the shapes run and media and radii are the same for all particles and
wavenumbers (in particular one particle at one wavenumber, any number of positions). -/
theorem C43_uniform_partial {J : TorchFns} (hE : J.Entrywise) {N P K Q : ℕ} (hJ : TotalRic J N) (hN : 1 ≤ N) (hP : 0 < P)
    (hK : 0 < K) (hQ : 0 < Q) (hPQ : P = 1 ∨ P = Q) (hK3 : K = 1 ∨ K = 3) {o : TorchCoefs} (ho : o.WF N P K)
    (hu : ∀ p k, p < P → k < K → o.rC.get [p, k] = o.rC.get [0, 0] ∧ o.rS.get [p, k] = o.rS.get [0, 0] ∧
      o.nC.get [p, k] = o.nC.get [0, 0] ∧ o.nS.get [p, k] = o.nS.get [0, 0] ∧ o.nEnv.get [0, k] = o.nEnv.get [0, 0])
    {r theta phi : Ten ℝ} (hr : r.shape = [Q]) (ht : theta.shape = [Q]) (hf : phi.shape = [Q]) (E0 : ℂ) (epsilon : ℝ)
    (hph : o.Physical P K Q r) (heps : 1e-8 ≤ epsilon) :
    AgreesAlone J o P K Q r theta phi E0 epsilon := by
  obtain ⟨zc, zs, z2, zo, R, hR, -, -, -, -, -, -, -, -, -, -, h⟩ :=
    torchFieldsFrom_ok hJ hN hP hK hQ hPQ hK3 ho hr ht hf E0 epsilon hph heps
  refine ⟨R, hR, ?_⟩
  intro p k q j hp hk hq hj
  obtain ⟨yc, ys, y2, yo, R', hR', -, -, -, -, -, -, -, -, -, -, h'⟩ :=
    torchFieldsFrom_ok hJ hN Nat.one_pos Nat.one_pos Nat.one_pos (.inl rfl) (.inl rfl) (ho.alone p k)
      (r := r.pick q) (theta := theta.pick q) (phi := phi.pick q) rfl rfl rfl E0 epsilon (hph.alone hp hk hq) heps
  refine ⟨R', hR', ?_⟩
  obtain ⟨a1, a2, a3, a4, a5, a6⟩ := h p k q j hp hk hq hj
  obtain ⟨b1, b2, b3, b4, b5, b6⟩ := h' 0 0 0 j Nat.one_pos Nat.one_pos Nat.one_pos hj
  rw [hE yc zc, hE ys zs, hE y2 z2, hE yo zo] at b1 b2
  have hbP : bi P q < P := by unfold bi; split_ifs <;> omega
  have hbK (i : ℕ) (hi : i < 3) : bi K i < K := by unfold bi; split_ifs <;> omega
  have key (n i : ℕ) (hi : i < 3) :
      (o.alone p k).orderField (J zc) (J zs) (J z2) (J zo) E0 epsilon (r.get [q]) (theta.get [q]) (phi.get [q]) n 0 0
        (bi 1 0) (bi 1 i) =
      o.orderField (J zc) (J zs) (J z2) (J zo) E0 epsilon (r.get [q]) (theta.get [q]) (phi.get [q]) n p k (bi P q) (bi K i) := by
    obtain ⟨u1, u2, u3, u4, u5⟩ := hu _ _ hbP (hbK i hi)
    obtain ⟨v1, v2, v3, v4, v5⟩ := hu _ _ hp hk
    unfold TorchCoefs.orderField
    rw [u1, u2, u3, u4, u5, v5]
    simp only [TorchCoefs.alone, TorchCoefs.order, v1, v2, v3, v4, v5, List.headD_cons]
  have eE : R.Es.get [p, k, q, j] = R'.Es.get [0, 0, 0, j] := by
    rw [a1, b1]
    congr 2
    apply List.map_congr_left
    intro n _
    have k0 := key n 0 (by omega)
    have k1 := key n 1 (by omega)
    have k2 := key n 2 (by omega)
    simp only [← k0, ← k1, ← k2]
    rfl
  have eH : R.Hs.get [p, k, q, j] = R'.Hs.get [0, 0, 0, j] := by
    rw [a2, b2]
    congr 2
    apply List.map_congr_left
    intro n _
    have k0 := key n 0 (by omega)
    have k1 := key n 1 (by omega)
    have k2 := key n 2 (by omega)
    simp only [← k0, ← k1, ← k2]
    rfl
  have eEi : R.Ei.get [p, k, q, j] = R'.Ei.get [0, 0, 0, j] := by rw [a3, b3]; rfl
  have eHi : R.Hi.get [p, k, q, j] = R'.Hi.get [0, 0, 0, j] := by
    rw [a4, b4, ← (hu p k hp hk).2.2.2.2]; rfl
  have er : (o.alone p k).rS.get [bi 1 0, bi 1 j] = o.rS.get [bi P q, bi K j] := by
    rw [(hu _ _ hbP (hbK j hj)).2.1, ← (hu p k hp hk).2.1]; rfl
  refine ⟨eEi, eHi, eE, eH, ?_, ?_⟩
  · rw [a5, b5, er, eE, eEi]; rfl
  · rw [a6, b6, er, eH, eHi]; rfl

/-- C43: the electric incident field is right for every number of particles and wavenumbers for which the call runs. -/
theorem C43_incident_partial {J : TorchFns} {N P K Q : ℕ} (hJ : TotalRic J N) (hN : 1 ≤ N) (hP : 0 < P) (hK : 0 < K)
    (hQ : 0 < Q) {o : TorchCoefs} (ho : o.WF N P K) {r theta phi : Ten ℝ} (hr : r.shape = [Q]) (ht : theta.shape = [Q])
    (hf : phi.shape = [Q]) (E0 : ℂ) (epsilon : ℝ) (hph : o.Physical P K Q r) (heps : 1e-8 ≤ epsilon) {R : FieldsT} (hR : torchFieldsFrom J o r theta phi E0 epsilon = .ok R)
    {p k q j : ℕ} (hp : p < P) (hk : k < K) (hq : q < Q) (hj : j < 3) :
    R.Ei.get [p, k, q, j] = (incidentE E0 (o.k.get [0, k]) (r.get [q]) (theta.get [q])).comp j := by
  by_cases h : (P = 1 ∨ P = Q) ∧ (K = 1 ∨ K = 3)
  · obtain ⟨_, _, _, _, R', hR', -, -, -, -, -, -, -, -, -, -, h'⟩ :=
      torchFieldsFrom_ok hJ hN hP hK hQ h.1 h.2 ho hr ht hf E0 epsilon hph heps
    rw [hR] at hR'
    cases hR'
    exact (h' p k q j hp hk hq hj).2.2.1
  · exact absurd hR (torchFieldsFrom_raises h ho hr ht E0 epsilon R)

/-- Three wavenumbers in a dispersive host, one homogeneous particle of the host's material; orders up to 1. -/
noncomputable def dispersive (K : ℕ) : TorchCoefs :=
  let m {α : Type} (f : ℕ → α) : Ten α := ⟨[1, K], fun idx => f (idx.getD 1 0)⟩
  let z : Ten ℂ := ⟨[1, 1, K], fun _ => 0⟩
  { nMax := 1, k := m fun k => ((k : ℂ) + 1) ^ 2, k0 := m fun k => (k : ℂ) + 1, rC := m fun _ => 1, rS := m fun _ => 1
    nEnv := m fun k => (k : ℂ) + 1, nC := m fun k => (k : ℂ) + 1, nS := m fun k => (k : ℂ) + 1
    a := z, b := z, c := ⟨[1, 1, K], fun _ => 1⟩, d := ⟨[1, 1, K], fun _ => 1⟩, f := z, g := z, v := z, w := z }

theorem dispersive_WF (K : ℕ) : (dispersive K).WF 1 1 K :=
  ⟨rfl, rfl, rfl, rfl, rfl, rfl, rfl, rfl, rfl, rfl, rfl, rfl, rfl, rfl, rfl, rfl⟩

theorem dispersive_physical (K Q : ℕ) {r : Ten ℝ} (hr : ∀ q, q < Q → 0 ≤ r.get [q]) : (dispersive K).Physical 1 K Q r where
  k0 := fun k _ => ⟨(k : ℝ) + 1, by positivity, by simp [dispersive]⟩
  nC := fun _ k _ _ => by simp [dispersive]; positivity
  nS := fun _ k _ _ => by simp [dispersive]; positivity
  nEnv := fun k _ => by simp [dispersive]; positivity
  r := hr

/-- C43 is false: with three wavelengths and a dispersive host the call succeeds and returns a wrong magnetic field. -/
theorem C43_silently_wrong : ∃ (o : TorchCoefs) (r theta phi : Ten ℝ), o.WF 1 1 3 ∧ r.shape = [1] ∧ theta.shape = [1] ∧
    phi.shape = [1] ∧ (∃ R, torchFieldsFrom torchFns o r theta phi 1 1e-8 = .ok R) ∧
    ¬AgreesAlone torchFns o 1 3 1 r theta phi 1 1e-8 := by
  refine ⟨dispersive 3, ⟨[1], fun _ => 2⟩, ⟨[1], fun _ => 0⟩, ⟨[1], fun _ => 0⟩, dispersive_WF 3, rfl, rfl, rfl, ?_, ?_⟩
  · obtain ⟨_, _, _, _, R, hR, -⟩ := torchFieldsFrom_ok (J := torchFns) (N := 1) (P := 1) (K := 3) (Q := 1)
      (torchFns_total le_rfl) le_rfl Nat.one_pos (by omega) Nat.one_pos (.inl rfl) (.inr rfl) (dispersive_WF 3)
      (r := ⟨[1], fun _ => 2⟩) (theta := ⟨[1], fun _ => 0⟩) (phi := ⟨[1], fun _ => 0⟩) rfl rfl rfl 1 1e-8
      (dispersive_physical 3 1 fun _ _ => by norm_num) le_rfl
    exact ⟨R, hR⟩
  · rintro ⟨R, hR, h⟩
    obtain ⟨_, _, _, _, R1, hR1, -, -, -, -, -, -, -, -, -, -, h1⟩ := torchFieldsFrom_ok (J := torchFns) (N := 1) (P := 1)
      (K := 3) (Q := 1) (torchFns_total le_rfl) le_rfl Nat.one_pos (by omega) Nat.one_pos (.inl rfl) (.inr rfl)
      (dispersive_WF 3) (r := ⟨[1], fun _ => 2⟩) (theta := ⟨[1], fun _ => 0⟩) (phi := ⟨[1], fun _ => 0⟩) rfl rfl rfl 1 1e-8
      (dispersive_physical 3 1 fun _ _ => by norm_num) le_rfl
    rw [hR] at hR1
    cases hR1
    obtain ⟨R', hR', -, hs, -⟩ := h 0 1 0 1 (by omega) (by omega) (by omega) (by omega)
    obtain ⟨_, _, _, _, R2, hR2, -, -, -, -, -, -, -, -, -, -, h2⟩ := torchFieldsFrom_ok (J := torchFns) (N := 1) (P := 1)
      (K := 1) (Q := 1) (torchFns_total le_rfl) le_rfl Nat.one_pos Nat.one_pos Nat.one_pos (.inl rfl) (.inl rfl)
      ((dispersive_WF 3).alone 0 1) (r := Ten.pick ⟨[1], fun _ => 2⟩ 0) (theta := Ten.pick ⟨[1], fun _ => 0⟩ 0)
      (phi := Ten.pick ⟨[1], fun _ => 0⟩ 0) rfl rfl rfl 1 1e-8
      ((dispersive_physical 3 1 (r := ⟨[1], fun _ => 2⟩) fun _ _ => by norm_num).alone (by omega) (by omega) (by omega)) le_rfl
    rw [hR'] at hR2
    cases hR2
    have e1 := (h1 0 1 0 1 (by omega) (by omega) (by omega) (by omega)).2.2.2.1
    have e2 := (h2 0 0 0 1 (by omega) (by omega) (by omega) (by omega)).2.2.2.1
    rw [e1, e2] at hs
    simp [incidentH, V3.comp, dispersive, TorchCoefs.alone, Ten.pick] at hs

/-- C43 is false: with two wavelengths the call raises. -/
theorem C43_two_wavelengths : ∃ (o : TorchCoefs) (r theta phi : Ten ℝ), o.WF 1 1 2 ∧ r.shape = [1] ∧ theta.shape = [1] ∧
    phi.shape = [1] ∧ ∃ e, torchFieldsFrom torchFns o r theta phi 1 1e-8 = .error e :=
  ⟨dispersive 2, ⟨[1], fun _ => 2⟩, ⟨[1], fun _ => 0⟩, ⟨[1], fun _ => 0⟩, dispersive_WF 2, rfl, rfl, rfl,
    C43_raises (N := 1) (P := 1) (K := 2) (Q := 1) (by omega) (dispersive_WF 2) rfl rfl 1 1e-8⟩

/-- Entrywise special functions that never raise exist, so `C43_uniform_partial` applies. -/
example : AgreesAlone (fun _ => torchFns 1) (dispersive 1) 1 1 2 ⟨[2], fun idx => 1 / 2 + idx.getD 0 0⟩ ⟨[2], fun _ => 1⟩
    ⟨[2], fun _ => 1⟩ 1 1e-8 :=
  C43_uniform_partial (N := 1) (fun _ _ => rfl) (fun _ kind hk z hz => torchFns_total le_rfl 1 kind hk z hz) le_rfl Nat.one_pos
    Nat.one_pos (by omega) (.inl rfl) (.inl rfl) (dispersive_WF 1) (by
      intro p k hp hk
      obtain rfl : p = 0 := by omega
      obtain rfl : k = 0 := by omega
      exact ⟨rfl, rfl, rfl, rfl, rfl⟩) rfl rfl rfl 1 1e-8
    (dispersive_physical 1 2 fun q _ => by simp; positivity) le_rfl

/-- The hypotheses of `C43_raises` for three particles and two positions. -/
example : ¬((3 = 1 ∨ 3 = 2) ∧ (1 = 1 ∨ 1 = 3)) := by omega

end MieDiff
