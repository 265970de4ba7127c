import Verif.Model.NearTorch
import Verif.Spec.Mirror

/-!
# The near fields depend on the azimuth as the symmetry of the problem demands
-/

namespace MieDiff

open Complex

/-- Spherical components of an electric field, from amplitudes. -/
def turnE (c s : ℂ) (v : V3 ℂ) : V3 ℂ := ⟨c * v.c0, c * v.c1, s * v.c2⟩

/-- Spherical components of a magnetic field, from amplitudes. -/
def turnH (c s : ℂ) (v : V3 ℂ) : V3 ℂ := ⟨s * v.c0, s * v.c1, c * v.c2⟩

/-- The harmonics in a direction, from their amplitudes. -/
def VSH.turn (c s : ℂ) (v : VSH) : VSH := ⟨turnE c s v.Mo, turnH c s v.Me, turnH c s v.No, turnE c s v.Ne⟩

/-- The amplitudes of the harmonics of one order. -/
noncomputable def vshAmp (n : ℕ) (theta : ℝ) (rho pi tau zn dz : ℂ) : VSH :=
  { Mo := ⟨0, pi * zn, -(tau * zn)⟩
    Me := ⟨0, -(pi * zn), -(tau * zn)⟩
    No := ⟨n * (n + 1) * (Real.sin theta : ℝ) * pi * (zn / rho), tau * dz, pi * dz⟩
    Ne := ⟨n * (n + 1) * (Real.sin theta : ℝ) * pi * (zn / rho), tau * dz, -(pi * dz)⟩ }

theorem vshOrder_turn (n : ℕ) (theta phi : ℝ) (rho pi tau zn dz : ℂ) :
    vshOrder n theta phi rho pi tau zn dz = (vshAmp n theta rho pi tau zn dz).turn (Real.cos phi : ℝ) (Real.sin phi : ℝ) := by
  simp only [vshOrder, vshAmp, VSH.turn, turnE, turnH, VSH.mk.injEq, V3.mk.injEq]
  refine ⟨⟨?_, ?_, ?_⟩, ⟨?_, ?_, ?_⟩, ⟨?_, ?_, ?_⟩, ?_, ?_, ?_⟩ <;> ring

theorem vshWith_turn (n : ℕ) (k0 m : ℂ) (r theta : ℝ) (ric : ℂ → Py (List ℂ × List ℂ)) (eps : ℝ) :
    ∃ e : Py (List VSH), ∀ phi, vshWith n k0 m r theta phi ric eps
      = e.map (List.map (VSH.turn (Real.cos phi : ℝ) (Real.sin phi : ℝ))) := by
  unfold vshWith
  rcases piTau n (Real.cos theta) with e | ⟨pis, taus⟩
  · exact ⟨.error e, fun _ => rfl⟩
  rcases h : ric (k0 * m * (r : ℂ) + (eps : ℂ)) with e | ⟨rz, drz⟩
  · exact ⟨.error e, fun _ => by simp only [h]; rfl⟩
  refine ⟨.ok ((List.range n).map fun i => vshAmp (i + 1) theta (k0 * m * (r : ℂ) + (eps : ℂ)) (pis.getD (i + 1) 0 : ℝ)
    (taus.getD (i + 1) 0 : ℝ) (rz.getD (i + 1) 0 / (k0 * m * (r : ℂ) + (eps : ℂ)))
    (drz.getD (i + 1) 0 / (k0 * m * (r : ℂ) + (eps : ℂ)))), fun phi => ?_⟩
  simp only [h, Except.map, List.map_map]
  refine congrArg Except.ok (List.map_congr_left fun i _ => ?_)
  exact vshOrder_turn ..

theorem vsh_turn (B : BesselBackend) (n : ℕ) (k0 m : ℂ) (r theta : ℝ) (kind : ℤ) (eps : ℝ) :
    ∃ e : Py (List VSH), ∀ phi, vsh B n k0 m r theta phi kind eps
      = e.map (List.map (VSH.turn (Real.cos phi : ℝ) (Real.sin phi : ℝ))) :=
  vshWith_turn n k0 m r theta _ eps

theorem vshPena_turn (K : D1Kernel) (n : ℕ) (k0 m : ℂ) (r theta : ℝ) (kind : ℤ) (eps : ℝ) :
    ∃ e : Py (List VSH), ∀ phi, vshPena K n k0 m r theta phi kind eps
      = e.map (List.map (VSH.turn (Real.cos phi : ℝ) (Real.sin phi : ℝ))) := by
  unfold vshPena
  rcases piTau n (Real.cos theta) with e | ⟨pis, taus⟩
  · exact ⟨.error e, fun _ => rfl⟩
  rcases h : kernels K n (k0 * m * (r : ℂ) + (eps : ℂ)) with e | ⟨D1, D3, psi, zeta⟩
  · exact ⟨.error e, fun _ => by simp only [h]; rfl⟩
  rcases h' : (if kind = 1 then .ok (psi, D1) else if kind = 3 then .ok (zeta, D3) else .error .valueError
    : Py (List ℂ × List ℂ)) with e | ⟨rz, D⟩
  · exact ⟨.error e, fun _ => by simp only [h, bind, Except.bind]; rw [h']; rfl⟩
  refine ⟨.ok ((List.range n).map fun i => vshAmp (i + 1) theta (k0 * m * (r : ℂ) + (eps : ℂ)) (pis.getD (i + 1) 0 : ℝ)
    (taus.getD (i + 1) 0 : ℝ) (rz.getD (i + 1) 0 / (k0 * m * (r : ℂ) + (eps : ℂ)))
    (D.getD (i + 1) 0 * (rz.getD (i + 1) 0 / (k0 * m * (r : ℂ) + (eps : ℂ))))), fun phi => ?_⟩
  simp only [h, bind, Except.bind]
  rw [h']
  simp only [Except.map, List.map_map]
  refine congrArg Except.ok (List.map_congr_left fun i _ => ?_)
  exact vshOrder_turn ..

theorem turnE_smul (c s x : ℂ) (v : V3 ℂ) : V3.smul x (turnE c s v) = turnE c s (V3.smul x v) := by
  simp only [V3.smul, turnE, V3.mk.injEq]
  refine ⟨?_, ?_, ?_⟩ <;> ring

theorem turnH_smul (c s x : ℂ) (v : V3 ℂ) : V3.smul x (turnH c s v) = turnH c s (V3.smul x v) := by
  simp only [V3.smul, turnH, V3.mk.injEq]
  refine ⟨?_, ?_, ?_⟩ <;> ring

theorem turnE_add (c s : ℂ) (u v : V3 ℂ) : (turnE c s u).add (turnE c s v) = turnE c s (u.add v) := by
  simp only [V3.add, turnE, V3.mk.injEq]
  refine ⟨?_, ?_, ?_⟩ <;> ring

theorem turnH_add (c s : ℂ) (u v : V3 ℂ) : (turnH c s u).add (turnH c s v) = turnH c s (u.add v) := by
  simp only [V3.add, turnH, V3.mk.injEq]
  refine ⟨?_, ?_, ?_⟩ <;> ring

theorem turnE_zero (c s : ℂ) : turnE c s V3.zero = V3.zero := by simp [turnE, V3.zero]

theorem turnH_zero (c s : ℂ) : turnH c s V3.zero = V3.zero := by simp [turnH, V3.zero]

theorem outField_turn (c s En a b m : ℂ) (v : VSH) :
    outField En a b m (v.turn c s) = (turnE c s (outField En a b m v).1, turnH c s (outField En a b m v).2) := by
  simp only [outField, VSH.turn, turnE_smul, turnE_add, turnH_smul, turnH_add]

theorem inField_turn (c s En a b c' d m : ℂ) (v w : VSH) :
    inField En a b c' d m (v.turn c s) (w.turn c s)
      = (turnE c s (inField En a b c' d m v w).1, turnH c s (inField En a b c' d m v w).2) := by
  simp only [inField, VSH.turn, turnE_smul, turnE_add, turnH_smul, turnH_add]

theorem torchOrder_turn (c s En : ℂ) (co : CoreShellOut) (nC nS nE : ℂ) (rC rS r : ℝ) (v1 v2 v3 v4 : VSH) :
    torchOrder En co nC nS nE rC rS r (v1.turn c s) (v2.turn c s) (v3.turn c s) (v4.turn c s)
      = (turnE c s (torchOrder En co nC nS nE rC rS r v1 v2 v3 v4).1,
        turnH c s (torchOrder En co nC nS nE rC rS r v1 v2 v3 v4).2) := by
  simp only [torchOrder, VSH.turn, turnE_smul, turnE_add, turnH_smul, turnH_add]
  split_ifs <;> simp only [turnE_zero, turnH_zero]

theorem getD_turn (c s : ℂ) (l : List VSH) (i : ℕ) :
    (l.map (VSH.turn c s)).getD i ⟨V3.zero, V3.zero, V3.zero, V3.zero⟩
      = (l.getD i ⟨V3.zero, V3.zero, V3.zero, V3.zero⟩).turn c s := by
  rcases Nat.lt_or_ge i l.length with h | h
  · simp [List.getD_eq_getElem?_getD, h]
  · simp [List.getD_eq_getElem?_getD, h, VSH.turn, turnE_zero, turnH_zero]

theorem regionField_turn (K : D1Kernel) (n : ℕ) (k0 m : ℂ) (r theta : ℝ) (E0 : ℂ) (out : Bool) (rc : RegionCoefs) (eps : ℝ) :
    ∃ e : Py (List (V3 ℂ) × List (V3 ℂ)), ∀ phi, regionField K n k0 m r theta phi E0 out rc eps
      = e.map fun f => (f.1.map (turnE (Real.cos phi : ℝ) (Real.sin phi : ℝ)), f.2.map (turnH (Real.cos phi : ℝ) (Real.sin phi : ℝ))) := by
  obtain ⟨e1, h1⟩ := vshPena_turn K n k0 m r theta 1 eps
  obtain ⟨e3, h3⟩ := vshPena_turn K n k0 m r theta 3 eps
  unfold regionField
  simp only [h1, h3]
  rcases e1 with e | v1
  · exact ⟨.error e, fun _ => rfl⟩
  rcases e3 with e | v3
  · exact ⟨.error e, fun _ => rfl⟩
  let z : VSH := ⟨V3.zero, V3.zero, V3.zero, V3.zero⟩
  let g : ℕ → V3 ℂ × V3 ℂ := fun i =>
    if out then outField (EnCoef E0 (i + 1)) (rc.a.getD (i + 1) 0) (rc.b.getD (i + 1) 0) m (v3.getD i z)
    else inField (EnCoef E0 (i + 1)) (rc.a.getD (i + 1) 0) (rc.b.getD (i + 1) 0) (rc.c.getD (i + 1) 0) (rc.d.getD (i + 1) 0) m
      (v1.getD i z) (v3.getD i z)
  refine ⟨.ok ((List.range n).map fun i => (g i).1, (List.range n).map fun i => (g i).2), fun phi => ?_⟩
  simp only [Except.map, bind, Except.bind, getD_turn, outField_turn, inField_turn, List.map_map]
  refine congrArg Except.ok (Prod.ext ?_ ?_)
  · refine List.map_congr_left fun i _ => ?_
    cases out <;> simp [g, z]
  · refine List.map_congr_left fun i _ => ?_
    cases out <;> simp [g, z]

/-- A pass over a list that never fails. -/
theorem mapM_turn {α β γ : Type} (f : α → Py β) (g : β → γ) (l : List α) :
    l.mapM (fun x => (f x).map g) = (l.mapM f).map (List.map g) := by
  induction l with
  | nil => rfl
  | cons x t ih =>
    simp only [List.mapM_cons, ih]
    rcases f x with e | y
    · rfl
    rcases List.mapM f t with e | ys <;> rfl

theorem maskedAssign_map {α β : Type*} (g : α → β) (zero : α) (masks : List Bool) (vals : List α) :
    maskedAssign (g zero) masks (vals.map g) = g (maskedAssign zero masks vals) := by
  unfold maskedAssign
  rw [List.zip_map_right, List.foldl_map]
  generalize masks.zip vals = l
  induction l generalizing zero with
  | nil => rfl
  | cons x t ih =>
    simp only [List.foldl_cons, Prod.map_snd, Prod.map_fst, id]
    rw [← ih]
    split_ifs <;> rfl

theorem sumCart_turnE (theta : ℝ) (l : List (V3 ℂ)) : ∃ u v w : ℂ, ∀ phi,
    sumCart theta phi (l.map (turnE (Real.cos phi : ℝ) (Real.sin phi : ℝ))) = Spec.electric u v w (Real.cos phi) (Real.sin phi) := by
  have key : ∀ (l : List (V3 ℂ)) (u0 v0 w0 : ℂ), ∃ u v w : ℂ, ∀ phi,
      (l.map (turnE (Real.cos phi : ℝ) (Real.sin phi : ℝ))).foldl (fun acc v => acc.add (fieldsSphToCart v theta phi))
        (Spec.electric u0 v0 w0 (Real.cos phi) (Real.sin phi)) = Spec.electric u v w (Real.cos phi) (Real.sin phi) := by
    intro l
    induction l with
    | nil => exact fun u0 v0 w0 => ⟨u0, v0, w0, fun _ => rfl⟩
    | cons x t ih =>
      intro u0 v0 w0
      let P : ℂ := x.c0 * (Real.sin theta : ℝ) + x.c1 * (Real.cos theta : ℝ)
      obtain ⟨u, v, w, h⟩ := ih (u0 + (P - x.c2) / 2) (v0 + (P + x.c2) / 2)
        (w0 + (x.c0 * (Real.cos theta : ℝ) - x.c1 * (Real.sin theta : ℝ)))
      refine ⟨u, v, w, fun phi => ?_⟩
      rw [List.map_cons, List.foldl_cons, ← h phi]
      congr 1
      have hc : ((Real.cos phi : ℝ) : ℂ) ^ 2 + ((Real.sin phi : ℝ) : ℂ) ^ 2 = 1 := by exact_mod_cast Real.cos_sq_add_sin_sq phi
      simp only [Spec.electric, V3.add, fieldsSphToCart, turnE, P, V3.mk.injEq]
      generalize ((Real.cos phi : ℝ) : ℂ) = c at *
      generalize ((Real.sin phi : ℝ) : ℂ) = s at *
      refine ⟨?_, ?_, ?_⟩
      · linear_combination (-(x.c0 * (Real.sin theta : ℝ) + x.c1 * (Real.cos theta : ℝ) - x.c2) / 2) * (-hc)
      · ring
      · ring
  obtain ⟨u, v, w, h⟩ := key l 0 0 0
  refine ⟨u, v, w, fun phi => ?_⟩
  rw [← h phi]
  unfold sumCart
  congr 1
  simp [Spec.electric, V3.zero]

theorem sumCart_turnH (theta : ℝ) (l : List (V3 ℂ)) : ∃ u v w : ℂ, ∀ phi,
    sumCart theta phi (l.map (turnH (Real.cos phi : ℝ) (Real.sin phi : ℝ))) = Spec.magnetic u v w (Real.cos phi) (Real.sin phi) := by
  have key : ∀ (l : List (V3 ℂ)) (u0 v0 w0 : ℂ), ∃ u v w : ℂ, ∀ phi,
      (l.map (turnH (Real.cos phi : ℝ) (Real.sin phi : ℝ))).foldl (fun acc v => acc.add (fieldsSphToCart v theta phi))
        (Spec.magnetic u0 v0 w0 (Real.cos phi) (Real.sin phi)) = Spec.magnetic u v w (Real.cos phi) (Real.sin phi) := by
    intro l
    induction l with
    | nil => exact fun u0 v0 w0 => ⟨u0, v0, w0, fun _ => rfl⟩
    | cons x t ih =>
      intro u0 v0 w0
      let P : ℂ := x.c0 * (Real.sin theta : ℝ) + x.c1 * (Real.cos theta : ℝ)
      obtain ⟨u, v, w, h⟩ := ih (u0 + (P + x.c2) / 2) (v0 + (P - x.c2) / 2)
        (w0 + (x.c0 * (Real.cos theta : ℝ) - x.c1 * (Real.sin theta : ℝ)))
      refine ⟨u, v, w, fun phi => ?_⟩
      rw [List.map_cons, List.foldl_cons, ← h phi]
      congr 1
      have hc : ((Real.cos phi : ℝ) : ℂ) ^ 2 + ((Real.sin phi : ℝ) : ℂ) ^ 2 = 1 := by exact_mod_cast Real.cos_sq_add_sin_sq phi
      simp only [Spec.magnetic, V3.add, fieldsSphToCart, turnH, P, V3.mk.injEq]
      generalize ((Real.cos phi : ℝ) : ℂ) = c at *
      generalize ((Real.sin phi : ℝ) : ℂ) = s at *
      refine ⟨?_, ?_, ?_⟩
      · ring
      · linear_combination ((x.c0 * (Real.sin theta : ℝ) + x.c1 * (Real.cos theta : ℝ) + x.c2) / 2) * hc
      · ring
  obtain ⟨u, v, w, h⟩ := key l 0 0 0
  refine ⟨u, v, w, fun phi => ?_⟩
  rw [← h phi]
  unfold sumCart
  congr 1
  simp [Spec.magnetic, V3.zero]

theorem xyzToSph_direction (x y z : ℝ) :
    Real.cos (xyzToSph eps10Double x y z).c2 = (Spec.direction x y).1 ∧
    Real.sin (xyzToSph eps10Double x y z).c2 = (Spec.direction x y).2 := by
  have hx : x + (if x = 0 then 1 else 0) * eps10Double = if x = 0 then 10 / 2 ^ 52 else x := by
    split_ifs with h <;> simp [h, eps10Double]
  have h0 : (if x = 0 then (10 : ℝ) / 2 ^ 52 else x) ≠ 0 := by
    split_ifs with h
    · norm_num
    · exact h
  simp only [xyzToSph, atan2, hx, Spec.direction]
  generalize (if x = 0 then (10 : ℝ) / 2 ^ 52 else x) = x' at h0
  have hn : ‖(⟨x', y⟩ : ℂ)‖ = Real.sqrt (x' ^ 2 + y ^ 2) := by
    rw [Complex.norm_def, Complex.normSq_mk]
    congr 1
    ring
  have hne : (⟨x', y⟩ : ℂ) ≠ 0 := fun h => h0 (congrArg Complex.re h)
  exact ⟨by rw [Complex.cos_arg hne, hn], by rw [Complex.sin_arg, hn]⟩

theorem xyzToSph_same {x y z x' y' : ℝ} (h : x ^ 2 + y ^ 2 = x' ^ 2 + y' ^ 2) :
    (xyzToSph eps10Double x y z).c0 = (xyzToSph eps10Double x' y' z).c0 ∧
    (xyzToSph eps10Double x y z).c1 = (xyzToSph eps10Double x' y' z).c1 := by
  simp only [xyzToSph, h, and_self]

theorem electric_add (u v w u' v' w' : ℂ) (c s : ℝ) :
    (Spec.electric u v w c s).add (Spec.electric u' v' w' c s) = Spec.electric (u + u') (v + v') (w + w') c s := by
  simp only [Spec.electric, V3.add, V3.mk.injEq]
  refine ⟨?_, ?_, ?_⟩ <;> ring

theorem magnetic_add (u v w u' v' w' : ℂ) (c s : ℝ) :
    (Spec.magnetic u v w c s).add (Spec.magnetic u' v' w' c s) = Spec.magnetic (u + u') (v + v') (w + w') c s := by
  simp only [Spec.magnetic, V3.add, V3.mk.injEq]
  refine ⟨?_, ?_, ?_⟩ <;> ring

theorem incidentE_electric (E0 k : ℂ) (r theta : ℝ) (c s : ℝ) :
    incidentE E0 k r theta = Spec.electric (E0 * exp (I * k * (r : ℂ) * (Real.cos theta : ℝ))) 0 0 c s := by
  simp [incidentE, Spec.electric]

theorem incidentH_magnetic (E0 k n : ℂ) (r theta : ℝ) (c s : ℝ) :
    incidentH E0 k n r theta = Spec.magnetic (E0 * n * exp (I * k * (r : ℂ) * (Real.cos theta : ℝ))) 0 0 c s := by
  simp [incidentH, Spec.magnetic]

/-- The fields of a call whose sums over orders are known. -/
theorem circular_of (E0 k n : ℂ) (r theta : ℝ) (b : Bool) (le lh : List (V3 ℂ)) : ∃ F, Spec.Circular F ∧ ∀ phi : ℝ,
    (let c : ℂ := (Real.cos phi : ℝ)
     let s : ℂ := (Real.sin phi : ℝ)
     let Es := sumCart theta phi (le.map (turnE c s))
     let Hs := sumCart theta phi (lh.map (turnH c s))
     let Ei := incidentE E0 k r theta
     let Hi := incidentH E0 k n r theta
     ({ Ei := Ei, Hi := Hi, Es := Es, Hs := Hs, Et := if b then Es.add Ei else Es, Ht := if b then Hs.add Hi else Hs } : Fields))
      = F (Real.cos phi) (Real.sin phi) := by
  obtain ⟨u, v, w, hE⟩ := sumCart_turnE theta le
  obtain ⟨u', v', w', hH⟩ := sumCart_turnH theta lh
  let i := E0 * exp (I * k * (r : ℂ) * (Real.cos theta : ℝ))
  let j := E0 * n * exp (I * k * (r : ℂ) * (Real.cos theta : ℝ))
  refine ⟨fun c s => ⟨Spec.electric i 0 0 c s, Spec.magnetic j 0 0 c s, Spec.electric u v w c s, Spec.magnetic u' v' w' c s,
    if b then Spec.electric (u + i) (v + 0) (w + 0) c s else Spec.electric u v w c s,
    if b then Spec.magnetic (u' + j) (v' + 0) (w' + 0) c s else Spec.magnetic u' v' w' c s⟩, ?_, fun phi => ?_⟩
  · refine ⟨⟨_, _, _, fun _ _ => rfl⟩, ⟨_, _, _, fun _ _ => rfl⟩, ?_, ⟨_, _, _, fun _ _ => rfl⟩, ⟨_, _, _, fun _ _ => rfl⟩, ?_⟩
    · cases b <;> exact ⟨_, _, _, fun _ _ => rfl⟩
    · cases b <;> exact ⟨_, _, _, fun _ _ => rfl⟩
  · simp only [hE, hH, incidentE_electric E0 k r theta (Real.cos phi) (Real.sin phi),
      incidentH_magnetic E0 k n r theta (Real.cos phi) (Real.sin phi), electric_add, magnetic_add]
    rfl

end MieDiff
