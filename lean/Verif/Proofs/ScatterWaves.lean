import Verif.Proofs.Radiation
import Verif.Props.Poynting
import Verif.Props.Convergence

/-!
# The waves of all orders in all regions of a particle
-/

namespace MieDiff

open Complex Spec Filter Topology

/-! ## Chains as indexed families -/

theorem chain_indexed {q : Pol} {n : ℕ} : ∀ {layers : List (ℂ × ℂ)} {w out : Wave}, Chain q n w layers out →
    ∃ V : ℕ → Wave, V 0 = w ∧ V layers.length = out ∧ ∀ j < layers.length,
      Cont q n ((layers.map Prod.fst ++ [1]).getD j 0) ((layers.map Prod.fst ++ [1]).getD (j + 1) 0)
        ((layers.map Prod.snd).getD j 0) (V j) (V (j + 1)) := by
  intro layers
  induction layers with
  | nil => intro w out h; exact absurd h (by simp [Chain])
  | cons l rest ih =>
    intro w out h
    obtain ⟨m, x⟩ := l
    cases rest with
    | nil =>
      refine ⟨fun j => if j = 0 then w else out, rfl, rfl, fun j hj => ?_⟩
      obtain rfl : j = 0 := by simpa using hj
      simpa [Chain] using h
    | cons l' rest =>
      obtain ⟨m', x'⟩ := l'
      obtain ⟨w', h1, h2⟩ := h
      obtain ⟨V, e0, e1, hV⟩ := ih h2
      refine ⟨fun j => Nat.casesOn j w V, rfl, e1, fun j hj => ?_⟩
      cases j with
      | zero => simpa [e0] using h1
      | succ j => simpa using hV j (by simpa using hj)

theorem chain_of_indexed {q : Pol} {n : ℕ} : ∀ {layers : List (ℂ × ℂ)} (V : ℕ → Wave), layers ≠ [] →
    (∀ j < layers.length, Cont q n ((layers.map Prod.fst ++ [1]).getD j 0) ((layers.map Prod.fst ++ [1]).getD (j + 1) 0)
        ((layers.map Prod.snd).getD j 0) (V j) (V (j + 1))) → Chain q n (V 0) layers (V layers.length) := by
  intro layers
  induction layers with
  | nil => intro V h; exact absurd rfl h
  | cons l rest ih =>
    intro V _ hV
    obtain ⟨m, x⟩ := l
    cases rest with
    | nil => simpa [Chain] using hV 0 (by simp)
    | cons l' rest =>
      obtain ⟨m', x'⟩ := l'
      refine ⟨V 1, by simpa using hV 0 (by simp), ?_⟩
      exact ih (fun j => V (j + 1)) (by simp) fun j hj => by simpa using hV (j + 1) (by simpa using hj)

/-! ## All orders -/

/-- Waves of all orders: regular in the core, continuous, incident wave of amplitude 1 in the host. -/
structure AllWaves (p : Particle1) (W : ℕ → ℕ → Pol → Wave) : Prop where
  cont : ∀ i q, ∀ j < p.rLayers.length, Cont q (i + 1) (p.indices.getD j 0) (p.indices.getD (j + 1) 0)
    (p.k0 * csqrt p.epsEnv * (p.rLayers.getD j 0 : ℝ)) (W j (i + 1) q) (W (j + 1) (i + 1) q)
  core : ∀ i q, (W 0 (i + 1) q).a = 0
  host : ∀ i q, (W p.rLayers.length (i + 1) q).d = 1

section
variable {p : Particle1} {k0 e0 : ℝ}

theorem layers_length (hlen : p.epsLayers.length = p.rLayers.length) : p.layers.length = p.rLayers.length := by
  simp [Particle1.layers, layersOf, hlen]

theorem layers_snd (hlen : p.epsLayers.length = p.rLayers.length) {j : ℕ} (hj : j < p.rLayers.length) :
    (p.layers.map Prod.snd).getD j 0 = p.k0 * csqrt p.epsEnv * (p.rLayers.getD j 0 : ℝ) := by
  have hl : p.layers.map Prod.snd = p.rLayers.map fun r : ℝ => p.k0 * csqrt p.epsEnv * (r : ℂ) := by
    unfold Particle1.layers layersOf
    rw [List.map_snd_zip]
    simp [hlen]
  rw [hl]
  simp [List.getD_eq_getElem?_getD, hj]

theorem cont_layers (hlen : p.epsLayers.length = p.rLayers.length) {q : Pol} {n : ℕ} (V : ℕ → Wave) :
    (∀ j < p.rLayers.length, Cont q n (p.indices.getD j 0) (p.indices.getD (j + 1) 0)
      (p.k0 * csqrt p.epsEnv * (p.rLayers.getD j 0 : ℝ)) (V j) (V (j + 1))) ↔
    ∀ j < p.layers.length, Cont q n ((p.layers.map Prod.fst ++ [1]).getD j 0) ((p.layers.map Prod.fst ++ [1]).getD (j + 1) 0)
        ((p.layers.map Prod.snd).getD j 0) (V j) (V (j + 1)) := by
  rw [layers_length hlen]
  refine forall₂_congr fun j hj => ?_
  rw [layers_snd hlen hj]
  rfl

theorem exists_allWaves (hp : RealHost p k0 e0) (hinc : strictlyIncreasing p.rLayers)
    (hlen : p.epsLayers.length = p.rLayers.length) (hne : p.rLayers ≠ []) (hpass : ∀ e ∈ p.epsLayers, 0 ≤ e.im)
    (hz : ∀ e ∈ p.epsLayers, e ≠ 0) : ∃ W, AllWaves p W := by
  have key : ∀ n q, ∃ V : ℕ → Wave, (V 0).a = 0 ∧ (V p.rLayers.length).d = 1 ∧ ∀ j < p.rLayers.length,
      Cont q n (p.indices.getD j 0) (p.indices.getD (j + 1) 0)
        (p.k0 * csqrt p.epsEnv * (p.rLayers.getD j 0 : ℝ)) (V j) (V (j + 1)) := by
    intro n q
    obtain ⟨a, ⟨core, hc, hch⟩, -⟩ := C68_solvable hp hinc hlen hne hpass hz q n
    obtain ⟨V, e0, e1, hV⟩ := chain_indexed hch
    refine ⟨V, by rw [e0, hc], by rw [← layers_length hlen, e1], (cont_layers hlen V).2 hV⟩
  choose V h1 h2 h3 using key
  exact ⟨fun j n q => V n q j, ⟨fun i q j hj => h3 (i + 1) q j hj, fun i q => h1 (i + 1) q, fun i q => h2 (i + 1) q⟩⟩

theorem layers_ne_nil (hlen : p.epsLayers.length = p.rLayers.length) (hne : p.rLayers ≠ []) : p.layers ≠ [] := by
  rw [← List.length_pos_iff, layers_length hlen]
  exact List.length_pos_iff.2 hne

theorem AllWaves.solves {W : ℕ → ℕ → Pol → Wave} (hW : AllWaves p W) (hlen : p.epsLayers.length = p.rLayers.length)
    (hne : p.rLayers ≠ []) (i : ℕ) (q : Pol) : Solves q (i + 1) p.layers (W p.rLayers.length (i + 1) q).a := by
  refine ⟨_, hW.core i q, ?_⟩
  have := chain_of_indexed (fun j => W j (i + 1) q) (layers_ne_nil hlen hne)
    ((cont_layers hlen fun j => W j (i + 1) q).1 fun j hj => hW.cont i q j hj)
  rw [layers_length hlen] at this
  rw [show (⟨1, (W p.rLayers.length (i + 1) q).a⟩ : Wave) = W p.rLayers.length (i + 1) q from
    congrArg (fun d => (⟨d, (W p.rLayers.length (i + 1) q).a⟩ : Wave)) (hW.host i q).symm]
  exact this

theorem size_ne (hp : RealHost p k0 e0) {j : ℕ} (hj : j < p.rLayers.length) :
    p.k0 * csqrt p.epsEnv * ((p.rLayers.getD j 0 : ℝ) : ℂ) ≠ 0 := by
  rw [realHost_k hp]
  have h1 := mul_pos hp.k0_pos (Real.sqrt_pos.2 hp.env_pos)
  have h2 : 0 < p.rLayers.getD j 0 := by
    rw [List.getD_eq_getElem?_getD, List.getElem?_eq_getElem hj]; exact hp.radii _ (List.getElem_mem hj)
  exact mul_ne_zero (by exact_mod_cast h1.ne') (by exact_mod_cast h2.ne')

/-- The waves of a run are the waves of all orders, cut off. -/
theorem LayerWaves.agree {a b : List ℂ} {W W' : ℕ → ℕ → Pol → Wave} (hW : LayerWaves p a b W) (hW' : AllWaves p W')
    (hp : RealHost p k0 e0) (hlen : p.epsLayers.length = p.rLayers.length) (hne : p.rLayers ≠ []) (hz : ∀ e ∈ p.epsLayers, e ≠ 0)
    {i : ℕ} (hi : i < a.length) (q : Pol) {j : ℕ} (hj : j ≤ p.rLayers.length) : W j (i + 1) q = W' j (i + 1) q := by
  have hd : (W p.rLayers.length (i + 1) q).d = 1 := by cases q <;> simp [hW.host i hi]
  have hs : Solves q (i + 1) p.layers (W p.rLayers.length (i + 1) q).a := by
    refine ⟨_, hW.core i hi q, ?_⟩
    have := chain_of_indexed (fun j => W j (i + 1) q) (layers_ne_nil hlen hne)
      ((cont_layers hlen fun j => W j (i + 1) q).1 fun j hj => hW.cont i hi q j hj)
    rw [layers_length hlen] at this
    rw [show (⟨1, (W p.rLayers.length (i + 1) q).a⟩ : Wave) = W p.rLayers.length (i + 1) q from
      congrArg (fun d => (⟨d, (W p.rLayers.length (i + 1) q).a⟩ : Wave)) hd.symm]
    exact this
  have ha := hs.unique (layers_ne hp hz) (hW'.solves hlen hne i q)
  have hbase : W p.rLayers.length (i + 1) q = W' p.rLayers.length (i + 1) q := by
    have h2 := hW'.host i q
    generalize W p.rLayers.length (i + 1) q = u at *
    generalize W' p.rLayers.length (i + 1) q = v at *
    cases u; cases v
    simp only at *
    rw [hd, ha, h2]
  have hm := fun {j : ℕ} => indices_ne (j := j) hp hlen hz
  have key : ∀ d, d ≤ p.rLayers.length → W (p.rLayers.length - d) (i + 1) q = W' (p.rLayers.length - d) (i + 1) q := by
    intro d
    induction d with
    | zero => intro _; exact hbase
    | succ d ih =>
      intro hd
      have e := ih (by omega)
      have hj : p.rLayers.length - (d + 1) < p.rLayers.length := by omega
      have h1 := hW.cont i hi q _ hj
      have h2 := hW'.cont i q _ hj
      rw [show p.rLayers.length - (d + 1) + 1 = p.rLayers.length - d by omega] at h1 h2
      rw [e] at h1
      exact h1.unique_inner (hm (by omega)) (mul_ne_zero (hm (by omega)) (size_ne hp hj)) h2
  have := key (p.rLayers.length - j) (by omega)
  rwa [show p.rLayers.length - (p.rLayers.length - j) = j by omega] at this

/-- In every region the waves become small faster than geometrically. -/
theorem AllWaves.dec {W : ℕ → ℕ → Pol → Wave} (hW : AllWaves p W) (hp : RealHost p k0 e0) (hinc : strictlyIncreasing p.rLayers)
    (hlen : p.epsLayers.length = p.rLayers.length) (hne : p.rLayers ≠ []) (hz : ∀ e ∈ p.epsLayers, e ≠ 0) (hq : NoCancel p)
    {j : ℕ} (hj : j ≤ p.rLayers.length) : DecW (W j) := by
  intro q
  obtain ⟨l, rest, hl, hd⟩ := decayOK_particle hp hinc hlen hne hz hq
  obtain ⟨C, hC⟩ := solves_bound q hd
  have hx0 := (hd.ne _ (List.getLast_mem (List.cons_ne_nil l rest))).2
  have hbase : Dec fun n => W p.rLayers.length n q := by
    refine dec_host hx0 (C := C) ?_ ?_
    · filter_upwards [eventually_ge_atTop 1] with n hn
      obtain ⟨i, rfl⟩ : ∃ i, n = i + 1 := ⟨n - 1, by omega⟩
      exact hW.host i q
    · filter_upwards [eventually_ge_atTop 1, hC] with n hn h
      obtain ⟨i, rfl⟩ : ∃ i, n = i + 1 := ⟨n - 1, by omega⟩
      exact h _ (hl ▸ hW.solves hlen hne i q)
  have hm := fun {j : ℕ} => indices_ne (j := j) hp hlen hz
  have key : ∀ d, d ≤ p.rLayers.length → Dec fun n => W (p.rLayers.length - d) n q := by
    intro d
    induction d with
    | zero => intro _; exact hbase
    | succ d ih =>
      intro hd
      have hj : p.rLayers.length - (d + 1) < p.rLayers.length := by omega
      have e : p.rLayers.length - (d + 1) + 1 = p.rLayers.length - d := by omega
      refine Dec.cont (q := q) (m := p.indices.getD (p.rLayers.length - (d + 1)) 0) (m' := p.indices.getD (p.rLayers.length - d) 0)
        (x := p.k0 * csqrt p.epsEnv * ((p.rLayers.getD (p.rLayers.length - (d + 1)) 0 : ℝ) : ℂ)) (hm (by omega)) (hm (by omega))
        (size_ne hp hj) (ih (by omega)) ?_
      filter_upwards [eventually_ge_atTop 1] with n hn
      obtain ⟨i, rfl⟩ : ∃ i, n = i + 1 := ⟨n - 1, by omega⟩
      have := hW.cont i q _ hj
      rwa [e] at this
  have := key (p.rLayers.length - j) (by omega)
  rwa [show p.rLayers.length - (p.rLayers.length - j) = j by omega] at this

end

end MieDiff
