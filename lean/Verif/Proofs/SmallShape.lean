import Verif.Model.BatchTorch
import Verif.Proofs.BatchObs
import Verif.Proofs.NearTorch

/-!
# Shapes in `sph_jn_torch` (special.py:846-860)
-/

namespace MieDiff

open Ten

theorem bShapeRev_ones (n : ℕ) : ∀ e : ℕ, bShapeRev (List.replicate e 1 ++ [n + 1]) (List.replicate e 1 ++ [n + 1, 1])
    = .ok (List.replicate e 1 ++ [n + 1, 1])
  | 0 => by simp [bShapeRev, bDim, Bind.bind, Except.bind]
  | e + 1 => by
    simp only [List.replicate_succ, List.cons_append, bShapeRev, bDim_self, bind_ok, bShapeRev_ones n e]

theorem smallShape_one (n s : ℕ) : smallShape n 1 s = .ok [1, n + 1, s] := by
  simp [smallShape, bShape, bShapeRev, bDim_one_left, bDim_one_right, bDim_self, Bind.bind, Except.bind]

theorem smallShape_many (n e s : ℕ) : smallShape n (e + 2) s = .ok (1 :: (n + 1) :: (List.replicate e 1 ++ [1, s])) := by
  have h1 : bShape [1, s] ((n + 1) :: List.replicate (e + 2) 1) = .ok ((n + 1) :: (List.replicate e 1 ++ [1, s])) := by
    have : ((n + 1) :: List.replicate (e + 2) 1).reverse = 1 :: 1 :: (List.replicate e 1 ++ [n + 1]) := by
      rw [List.reverse_cons, List.reverse_replicate]; simp [List.replicate_succ]
    unfold bShape
    rw [this]
    simp [bShapeRev, bDim_one_right, bDim_self, Bind.bind, Except.bind]
  unfold smallShape
  rw [h1, bind_ok]
  have r1 : ((n + 1) :: (List.replicate e 1 ++ [1, s])).reverse = s :: 1 :: (List.replicate e 1 ++ [n + 1]) := by simp
  have r2 : (1 :: (n + 1) :: List.replicate (e + 2) 1).reverse = 1 :: 1 :: (List.replicate e 1 ++ [n + 1, 1]) := by
    rw [List.reverse_cons, List.reverse_cons, List.reverse_replicate]; simp [List.replicate_succ]
  unfold bShape
  rw [r1, r2]
  simp only [bShapeRev, bDim_one_right, bDim_self, bind_ok, bShapeRev_ones]
  simp

theorem assign_one (n s : ℕ) : assignCheck [1, n + 1, s] [n + 1, s] = .ok () := by
  unfold assignCheck broadcastTo
  rcases Nat.eq_zero_or_pos n with rfl | hn
  · rcases eq_or_ne s 1 with rfl | hs
    · simp [Bind.bind, Except.bind]
    · simp [hs, Bind.bind, Except.bind]
  · have : (n + 1 == 1) = false := by simp; omega
    simp [List.dropWhile, this, Bind.bind, Except.bind]

theorem assign_zero (e s : ℕ) : assignCheck (1 :: 1 :: (List.replicate e 1 ++ [1, s])) [1, s] = .ok () := by
  have : (1 :: 1 :: (List.replicate e 1 ++ [1, s])).dropWhile (· == 1) = if s = 1 then [] else [s] := by
    have h : ∀ e : ℕ, (List.replicate e 1 ++ [1, s]).dropWhile (· == 1) = if s = 1 then [] else [s] := by
      intro e
      induction e with
      | zero => by_cases hs : s = 1 <;> simp [hs]
      | succ e ih => simpa [List.replicate_succ] using ih
    simpa using h e
  unfold assignCheck broadcastTo
  rw [this]
  by_cases hs : s = 1 <;> simp [hs, Bind.bind, Except.bind]

theorem assign_many {n : ℕ} (hn : 1 ≤ n) (e s : ℕ) :
    assignCheck (1 :: (n + 1) :: (List.replicate e 1 ++ [1, s])) [n + 1, s] = .error .runtimeError := by
  have h : (n + 1 == 1) = false := by simp; omega
  unfold assignCheck broadcastTo
  rw [if_neg]
  · rfl
  · simp [List.dropWhile, h]

open Classical in
/-- The entries below `1e-8`. -/
noncomputable def smallOf (l : List ℂ) : List ℂ := l.filter fun v => decide (‖v‖ < 1e-8)

open Classical in
/-- The largest absolute value among the other entries. -/
noncomputable def bigMax (l : List ℂ) : ℝ :=
  okD 0 (if (l.filter fun v => decide (¬‖v‖ < 1e-8)).isEmpty then .ok 0 else maxAbs (l.filter fun v => decide (¬‖v‖ < 1e-8)))

/-- The assignment of the series values (special.py:860). -/
noncomputable def smallCheck (n : ℕ) (z : Ten ℂ) : Py Unit :=
  if (smallOf z.entries).isEmpty then .ok () else do
    let sh ← smallShape n z.ndim (smallOf z.entries).length
    assignCheck sh [n + 1, (smallOf z.entries).length]

theorem max_ok (l : List ℂ) : (if l.isEmpty then .ok 0 else maxAbs l : Py ℝ)
    = .ok (okD 0 (if l.isEmpty then .ok 0 else maxAbs l)) := by
  cases l <;> rfl

theorem sphJnTorchT_eq (n : ℕ) (z : Ten ℂ) : sphJnTorchT n z = (smallCheck n z.atleast1 >>= fun _ =>
    .ok ⟨(n + 1) :: z.atleast1.shape, fun idx =>
      (okD [] (sphJnTorch n (z.atleast1.get idx.tail) (bigMax z.atleast1.entries))).getD (idx.headD 0) 0⟩) := by
  unfold sphJnTorchT
  rw [if_neg (by omega)]
  have hm := mapM_ok z.atleast1.entries (fun v => sphJnTorch (n : ℤ) v (bigMax z.atleast1.entries))
    (fun v => okD [] (sphJnTorch (n : ℤ) v (bigMax z.atleast1.entries))) fun v _ => by
      obtain ⟨l, hl, -⟩ := sphJnTorch_ok n v (bigMax z.atleast1.entries)
      rw [hl]; rfl
  unfold smallCheck smallOf
  simp only [Int.toNat_natCast]
  congr 1
  funext u
  rw [max_ok, bind_ok]
  exact bind_of hm rfl

end MieDiff
