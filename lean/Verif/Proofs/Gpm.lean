import Verif.Model.Gpm
import Verif.Props.NearPena
import Verif.Props.Tg

/-!
# The field arrays of the GPM extraction, entry by entry
-/

namespace MieDiff

open Matrix

/-! ## Rows of squeezed arrays -/

/-- Shape of an `(N, 3)` array without its axes of length one. -/
def rowShape (N : ℕ) : List ℕ := [N, 3].filter (· ≠ 1)

/-- Vectors in an array of `rowShape`. -/
def Ten.rows (N : ℕ) (t : Ten ℂ) : List (V3 ℂ) :=
  (List.range N).map fun s => ⟨t.get (Spec.dropUnit [N, 3] [s, 0]), t.get (Spec.dropUnit [N, 3] [s, 1]),
    t.get (Spec.dropUnit [N, 3] [s, 2])⟩

/-- Vectors in an `(N, 3)` array. -/
def Ten.vecs {α : Type} (N : ℕ) (t : Ten α) : List (V3 α) :=
  (List.range N).map fun s => ⟨t.get [s, 0], t.get [s, 1], t.get [s, 2]⟩

theorem dropRow_one (s j : ℕ) : Spec.dropUnit [1, 3] [s, j] = [j] := rfl

theorem dropRow_ne {N : ℕ} (h : N ≠ 1) (s j : ℕ) : Spec.dropUnit [N, 3] [s, j] = [s, j] := by simp [Spec.dropUnit, h]

theorem rowShape_one : rowShape 1 = [3] := rfl

theorem rowShape_ne {N : ℕ} (h : N ≠ 1) : rowShape N = [N, 3] := by simp [rowShape, h]

/-- Row vector times matrix. -/
def mulRow (R : Matrix (Fin 3) (Fin 3) ℂ) (v : V3 ℂ) : V3 ℂ :=
  ⟨v.c0 * R 0 0 + v.c1 * R 1 0 + v.c2 * R 2 0, v.c0 * R 0 1 + v.c1 * R 1 1 + v.c2 * R 2 1, v.c0 * R 0 2 + v.c1 * R 1 2 + v.c2 * R 2 2⟩

theorem rotFieldBack_eq (R : Mat3) (F : V3 ℂ) : rotFieldBack R F = mulRow (Rᵀ.map fun x => (x : ℂ)) F := by
  simp [rotFieldBack, mulRow, Matrix.vecMul, dotProduct, Fin.sum_univ_three]

theorem matmul3_rows {N : ℕ} {t : Ten ℂ} (h : t.shape = rowShape N) (R : Matrix (Fin 3) (Fin 3) ℂ) :
    ∃ u, t.matmul3 R = .ok u ∧ u.shape = rowShape N ∧ u.rows N = (t.rows N).map (mulRow R) := by
  have hl : t.shape.getLast? = some 3 := by
    rw [h]
    by_cases hN : N = 1
    · subst hN; rfl
    · rw [rowShape_ne hN]; rfl
  refine ⟨⟨t.shape, fun idx => ∑ c : Fin 3, t.get (idx.dropLast ++ [c.val]) * R c (Fin.ofNat 3 (idx.getLastD 0))⟩,
    by unfold Ten.matmul3; rw [hl]; rfl, h, ?_⟩
  unfold Ten.rows
  rw [List.map_map]
  refine List.map_congr_left fun s _ => ?_
  by_cases hN : N = 1
  · subst hN
    simp only [dropRow_one, Function.comp, mulRow, Fin.sum_univ_three]
    rfl
  · simp only [dropRow_ne hN, Function.comp, mulRow, Fin.sum_univ_three]
    rfl

theorem matmul3_vecs {N : ℕ} {t : Ten ℝ} (h : t.shape = [N, 3]) (R : Mat3) :
    ∃ u, t.matmul3 R = .ok u ∧ u.shape = [N, 3] ∧ u.vecs N = (t.vecs N).map (rotPoint R) := by
  refine ⟨_, by unfold Ten.matmul3; rw [h]; rfl, rfl, ?_⟩
  unfold Ten.vecs
  rw [List.map_map]
  refine List.map_congr_left fun s _ => ?_
  simp only [Function.comp, rotPoint, Matrix.vecMul, dotProduct, Fin.sum_univ_three]
  rfl

theorem absMaxT_rows {N : ℕ} {t : Ten ℂ} (h : t.shape = rowShape N) : absMaxT t = absMax (t.rows N) := by
  have : (t.entries.map fun v => ‖v‖) = (t.rows N).flatMap fun v => [‖v.c0‖, ‖v.c1‖, ‖v.c2‖] := by
    unfold Ten.entries Ten.rows
    rw [h, List.flatMap_map]
    by_cases hN : N = 1
    · subst hN
      rfl
    · rw [rowShape_ne hN]
      simp only [Ten.indices, dropRow_ne hN, List.map_flatMap]
      rfl
  unfold absMaxT absMax
  rw [this]
  rfl

theorem rows_broadcast {N : ℕ} {t : Ten ℂ} (h : t.shape = rowShape N) :
    ∃ u, t.broadcastTo [N, 3] = .ok u ∧ u.vecs N = t.rows N := by
  by_cases hN : N = 1
  · subst hN
    rw [rowShape_one] at h
    refine ⟨_, by unfold Ten.broadcastTo; rw [h]; rfl, ?_⟩
    rfl
  · rw [rowShape_ne hN] at h
    refine ⟨_, by unfold Ten.broadcastTo; rw [if_pos (by simp [h])], ?_⟩
    unfold Ten.vecs Ten.rows
    refine List.map_congr_left fun s _ => ?_
    simp only [dropRow_ne hN, h]
    have : ∀ j, Ten.bIdx [N, 3] [s, j] = [s, j] := fun j => by simp [Ten.bIdx, Ten.bi, hN]
    simp only [this]

/-- The lists of vectors of one illumination. -/
def IncT.lists (N M : ℕ) (f : IncT) : IncFields := ⟨f.eSca.rows N, f.hSca.rows N, f.eInc.rows M, f.hInc.rows M⟩

/-- The same for full `(N, 3)` arrays. -/
def IncT.full (N M : ℕ) (f : IncT) : IncFields := ⟨f.eSca.vecs N, f.hSca.vecs N, f.eInc.vecs M, f.hInc.vecs M⟩

/-- Shapes of one illumination. -/
def IncT.Rows (N M : ℕ) (f : IncT) : Prop :=
  f.eSca.shape = rowShape N ∧ f.hSca.shape = rowShape N ∧ f.eInc.shape = rowShape M ∧ f.hInc.shape = rowShape M

theorem rows_map (N : ℕ) (t : Ten ℂ) (c : ℝ) : (t.map fun v => v / (c : ℂ)).rows N = divField c (t.rows N) := by
  unfold Ten.rows divField
  rw [List.map_map]
  rfl

theorem fillRow_eq {N M : ℕ} {f : IncT} (h : f.Rows N M) : (fillRow N M f).map (IncT.full N M) = normalise (f.lists N M) := by
  obtain ⟨h1, h2, h3, h4⟩ := h
  unfold fillRow normalise incNorm IncT.lists
  rw [absMaxT_rows h1, absMaxT_rows h2, absMaxT_rows h3, absMaxT_rows h4]
  rcases absMax (f.eSca.rows N) with e | a
  · rfl
  rcases absMax (f.hSca.rows N) with e | b
  · rfl
  rcases absMax (f.eInc.rows M) with e | c
  · rfl
  rcases absMax (f.hInc.rows M) with e | d
  · rfl
  simp only [bind_ok]
  set m : ℝ := max (max (max (max a b) c) d) 1e-30
  obtain ⟨u1, e1, r1⟩ := rows_broadcast (N := N) (t := f.eSca.map fun v => v / (m : ℂ)) h1
  obtain ⟨u2, e2, r2⟩ := rows_broadcast (N := N) (t := f.hSca.map fun v => v / (m : ℂ)) h2
  obtain ⟨u3, e3, r3⟩ := rows_broadcast (N := M) (t := f.eInc.map fun v => v / (m : ℂ)) h3
  obtain ⟨u4, e4, r4⟩ := rows_broadcast (N := M) (t := f.hInc.map fun v => v / (m : ℂ)) h4
  rw [e1, e2, e3, e4]
  simp only [bind_ok, Except.map, IncT.full, r1, r2, r3, r4, rows_map]

/-! ## One illumination -/

/-- `evalMie` with its own field function for each of the two sets of positions. -/
noncomputable def evalMie2 (nearS nearG : V3 ℝ → Py Fields) (conf : IncConf) (rProbe rGpm : List (V3 ℝ)) : Py IncFields := do
  let rot ← planeWaveRotation conf.angle conf.plane conf.pol
  let sca ← (rProbe.map (rotPoint rot)).mapM nearS
  let inc ← (rGpm.map (rotPoint rot)).mapM nearG
  .ok { eSca := sca.map fun F => rotFieldBack rot F.Es
        hSca := sca.map fun F => rotFieldBack rot F.Hs
        eInc := inc.map fun F => rotFieldBack rot F.Ei
        hInc := inc.map fun F => rotFieldBack rot F.Hi }

theorem evalMie2_self (near : V3 ℝ → Py Fields) (c : IncConf) (rp rg : List (V3 ℝ)) : evalMie2 near near c rp rg = evalMie near c rp rg :=
  rfl

/-- The fields at the positions of a call, from its squeezed arrays. -/
def FieldsT.list (N : ℕ) (F : FieldsT) : List Fields := (List.range N).map fun s => F.at 1 N 0 s

/-- A call on `(N, 3)` positions is the evaluation of `near` at every position. -/
def Pointwise (N : ℕ) (near : V3 ℝ → Py Fields) (nf : Ten ℝ → Py FieldsT) (probe : Ten ℝ) : Prop :=
  (nf probe).map (FieldsT.list N) = (probe.vecs N).mapM near ∧ ∀ F, nf probe = .ok F → F.Shaped (rowShape N)

theorem dropField (N s j : ℕ) : Spec.dropUnit [1, 1, N, 3] [0, 0, s, j] = Spec.dropUnit [N, 3] [s, j] := by simp [Spec.dropUnit]

theorem list_rows (N : ℕ) (F : FieldsT) : (F.list N).map (·.Es) = F.Es.rows N ∧ (F.list N).map (·.Hs) = F.Hs.rows N ∧
    (F.list N).map (·.Ei) = F.Ei.rows N ∧ (F.list N).map (·.Hi) = F.Hi.rows N := by
  unfold FieldsT.list FieldsT.at Ten.rows
  simp only [List.map_map, dropField]
  exact ⟨rfl, rfl, rfl, rfl⟩

theorem fields_matmul3 {N : ℕ} {F : FieldsT} (h : F.Shaped (rowShape N)) (R : Matrix (Fin 3) (Fin 3) ℂ) :
    ∃ G, F.matmul3 R = .ok G ∧ G.Shaped (rowShape N) ∧ G.Es.rows N = (F.Es.rows N).map (mulRow R) ∧
      G.Hs.rows N = (F.Hs.rows N).map (mulRow R) ∧ G.Ei.rows N = (F.Ei.rows N).map (mulRow R) ∧
      G.Hi.rows N = (F.Hi.rows N).map (mulRow R) := by
  obtain ⟨s1, s2, s3, s4, s5, s6⟩ := h
  obtain ⟨u1, e1, t1, r1⟩ := matmul3_rows s1 R
  obtain ⟨u2, e2, t2, r2⟩ := matmul3_rows s2 R
  obtain ⟨u3, e3, t3, r3⟩ := matmul3_rows s3 R
  obtain ⟨u4, e4, t4, r4⟩ := matmul3_rows s4 R
  obtain ⟨u5, e5, t5, r5⟩ := matmul3_rows s5 R
  obtain ⟨u6, e6, t6, r6⟩ := matmul3_rows s6 R
  refine ⟨⟨u1, u2, u3, u4, u5, u6⟩, ?_, ⟨t1, t2, t3, t4, t5, t6⟩, r3, r4, r1, r2⟩
  unfold FieldsT.matmul3
  simp only [e1, e2, e3, e4, e5, e6, bind_ok]

/-- Rotated positions. -/
def Rotated (N : ℕ) (probe u : Ten ℝ) (c : IncConf) : Prop :=
  ∃ R, planeWaveRotation c.angle c.plane c.pol = .ok R ∧ u.shape = [N, 3] ∧ u.vecs N = (probe.vecs N).map (rotPoint R)

theorem evalMieT_eq {N M : ℕ} {nf₁ nf₂ : Ten ℝ → Py FieldsT} {nearS nearG : V3 ℝ → Py Fields} {c : IncConf} {rProbe rGpm : Ten ℝ}
    (hp : rProbe.shape = [N, 3]) (hg : rGpm.shape = [M, 3]) (h1 : ∀ u, Rotated N rProbe u c → Pointwise N nearS nf₁ u)
    (h2 : ∀ u, Rotated M rGpm u c → Pointwise M nearG nf₂ u) :
    (evalMieT nf₁ nf₂ c rProbe rGpm).map (IncT.lists N M) = evalMie2 nearS nearG c (rProbe.vecs N) (rGpm.vecs M) ∧
      ∀ f, evalMieT nf₁ nf₂ c rProbe rGpm = .ok f → f.Rows N M := by
  unfold evalMieT evalMie2
  rcases hR : planeWaveRotation c.angle c.plane c.pol with e | R
  · exact ⟨rfl, fun f h => by cases h⟩
  obtain ⟨u, eu, su, vu⟩ := matmul3_vecs hp R
  obtain ⟨v, ev, sv, vv⟩ := matmul3_vecs hg R
  obtain ⟨p1, q1⟩ := h1 u ⟨R, hR, su, vu⟩
  obtain ⟨p2, q2⟩ := h2 v ⟨R, hR, sv, vv⟩
  rw [vu] at p1
  rw [vv] at p2
  simp only [bind_ok, eu, ev]
  rw [← p1, ← p2]
  rcases hS : nf₁ u with e | F
  · exact ⟨rfl, fun f h => by cases h⟩
  rcases hG : nf₂ v with e | G
  · exact ⟨rfl, fun f h => by cases h⟩
  obtain ⟨F', eF, sF, f1, f2, f3, f4⟩ := fields_matmul3 (q1 F hS) (Rᵀ.map fun x => (x : ℂ))
  obtain ⟨G', eG, sG, g1, g2, g3, g4⟩ := fields_matmul3 (q2 G hG) (Rᵀ.map fun x => (x : ℂ))
  simp only [bind_ok, eF, eG, Except.map]
  refine ⟨?_, fun f h => ?_⟩
  · obtain ⟨a1, a2, -, -⟩ := list_rows N F
    obtain ⟨-, -, a3, a4⟩ := list_rows M G
    simp only [IncT.lists, f1, f2, g3, g4, ← a1, ← a2, ← a3, ← a4, List.map_map, rotFieldBack_eq]
    rfl
  · cases h
    exact ⟨sF.2.2.1, sF.2.2.2.1, sG.1, sG.2.1⟩

/-! ## All illuminations -/

/-- `gpmFields` with its own field function for each of the two sets of positions. -/
noncomputable def gpmFields2 (nearS nearG : V3 ℝ → Py Fields) (confs : List IncConf) (rProbe rGpm : List (V3 ℝ)) :
    Py (List IncFields) := do
  let fs ← confs.mapM fun c => evalMie2 nearS nearG c rProbe rGpm
  fs.mapM normalise

theorem gpmFields2_self (near : V3 ℝ → Py Fields) (cs : List IncConf) (rp rg : List (V3 ℝ)) :
    gpmFields2 near near cs rp rg = gpmFields near cs rp rg := rfl

theorem mapM_map_eq {α β γ : Type} {F : α → Py β} {G : α → Py γ} {g : β → γ} : ∀ {l : List α}, (∀ x ∈ l, (F x).map g = G x) →
    (l.mapM F).map (List.map g) = l.mapM G
  | [], _ => rfl
  | x :: l, h => by
    rw [List.mapM_cons, List.mapM_cons, ← h x (by simp), ← mapM_map_eq fun y hy => h y (by simp [hy])]
    rcases F x with e | y
    · rfl
    rcases l.mapM F with e | ys <;> rfl

theorem mapM_forall {α β : Type} {F : α → Py β} {P : β → Prop} : ∀ {l : List α} {r : List β}, l.mapM F = .ok r →
    (∀ x ∈ l, ∀ y, F x = .ok y → P y) → ∀ y ∈ r, P y := fun {l r} h hP y hy => by
  obtain ⟨hlen, hget⟩ := mapM_ok_get h
  obtain ⟨i, hi, rfl⟩ := List.mem_iff_getElem.mp hy
  obtain ⟨z, hz, hz'⟩ := hget i (l[i]'(by omega)) (List.getElem?_eq_getElem _)
  rw [List.getElem?_eq_getElem hi] at hz
  exact hP _ (List.getElem_mem _) _ (by rw [hz', Option.some.inj hz])

/-- The `i`-th illumination in the arrays. -/
def IncT.at (N M i : ℕ) (G : IncT) : IncFields :=
  let v (n : ℕ) (t : Ten ℂ) : List (V3 ℂ) := (List.range n).map fun s => ⟨t.get [i, s, 0], t.get [i, s, 1], t.get [i, s, 2]⟩
  ⟨v N G.eSca, v N G.hSca, v M G.eInc, v M G.hInc⟩

/-- All illuminations in the arrays. -/
def IncT.all (N M : ℕ) (G : IncT) : List IncFields := (List.range (G.eSca.shape.headD 0)).map fun i => G.at N M i

theorem gpmArraysT_eq {N M : ℕ} {nf : ℕ → Ten ℝ → Py FieldsT} {nearS nearG : V3 ℝ → Py Fields} {confs : List IncConf}
    {rProbe rGpm : Ten ℝ} (hp : rProbe.shape = [N, 3]) (hg : rGpm.shape = [M, 3])
    (h1 : ∀ i, ∀ c ∈ confs, ∀ u, Rotated N rProbe u c → Pointwise N nearS (nf i) u)
    (h2 : ∀ i, ∀ c ∈ confs, ∀ u, Rotated M rGpm u c → Pointwise M nearG (nf i) u) :
    (gpmArraysT nf confs rProbe rGpm).map (IncT.all N M) = gpmFields2 nearS nearG confs (rProbe.vecs N) (rGpm.vecs M) ∧
      ∀ G, gpmArraysT nf confs rProbe rGpm = .ok G → G.eSca.shape = [confs.length, N, 3] ∧ G.hSca.shape = [confs.length, N, 3] ∧
        G.eInc.shape = [confs.length, M, 3] ∧ G.hInc.shape = [confs.length, M, 3] := by
  have hm : ∀ c ∈ confs.zipIdx, c.1 ∈ confs := fun c hc => by
    have := List.mem_map_of_mem (f := Prod.fst) hc
    rwa [List.zipIdx_map_fst] at this
  have key := fun (c : IncConf × ℕ) (hc : c ∈ confs.zipIdx) =>
    evalMieT_eq (nf₁ := nf (2 * c.2)) (nf₂ := nf (2 * c.2 + 1)) (nearS := nearS) (nearG := nearG) (c := c.1) hp hg
      (fun u hu => h1 _ _ (hm c hc) u hu) fun u hu => h2 _ _ (hm c hc) u hu
  have e1 := mapM_map_eq fun c hc => (key c hc).1
  have e2 : (confs.zipIdx.mapM fun c => evalMie2 nearS nearG c.1 (rProbe.vecs N) (rGpm.vecs M)) =
      confs.mapM fun c => evalMie2 nearS nearG c (rProbe.vecs N) (rGpm.vecs M) := by
    conv_rhs => rw [← List.zipIdx_map_fst 0 confs, List.mapM_map]
    rfl
  rw [e2] at e1
  unfold gpmArraysT gpmFields2
  rw [← e1]
  rcases hf : confs.zipIdx.mapM (fun c => evalMieT (nf (2 * c.2)) (nf (2 * c.2 + 1)) c.1 rProbe rGpm) with e | fs <;> rw [hf]
  · exact ⟨rfl, fun G h => by cases h⟩
  have hrows := mapM_forall (P := IncT.Rows N M) hf fun c hc f hfc => (key c hc).2 f hfc
  have hlen : fs.length = confs.length := by
    have := (mapM_ok_get hf).1
    simpa using this
  have lG : rGpm.len = .ok M := by unfold Ten.len; rw [hg]
  have lP : rProbe.len = .ok N := by unfold Ten.len; rw [hp]
  simp only [bind_ok, lG, lP, Except.map]
  have e3 := mapM_map_eq (l := fs) (F := fillRow N M) (G := fun f => normalise (f.lists N M)) (g := IncT.full N M)
    fun f hf => fillRow_eq (hrows f hf)
  have e4 : (fs.map (IncT.lists N M)).mapM normalise = fs.mapM fun f => normalise (f.lists N M) := by
    rw [List.mapM_map]
    rfl
  rw [e4, ← e3]
  rcases hg' : fs.mapM (fillRow N M) with e | gs
  · exact ⟨rfl, fun G h => by cases h⟩
  have hlg : gs.length = fs.length := (mapM_ok_get hg').1
  refine ⟨?_, fun G h => ?_⟩
  · simp only [bind_ok, Except.map]
    refine congrArg Except.ok ?_
    unfold IncT.all
    apply List.ext_getElem
    · simp [fillArray]
    · intro i hi1 hi2
      simp only [List.length_map] at hi2
      simp only [List.getElem_map, List.getElem_range, IncT.at, IncT.full, fillArray, List.headD_cons, List.tail_cons,
        List.getD_eq_getElem?_getD, List.getElem?_map, List.getElem?_eq_getElem hi2, Option.map_some, Option.getD_some, Ten.vecs]
  · cases h
    simp [fillArray, hlg, hlen]

end MieDiff
