import Verif.Props.Invariance
import Verif.Props.BackwardShell
import Verif.Model.NearTorch
import Verif.Model.Tg

/-!
# C106: Euler's relations between the gradients

The results do not change if all lengths grow and the wavenumber shrinks by the same factor (C10), nor if all refractive indices grow and
the wavenumber shrinks by the same factor.  For the gradients that `backward` leaves in the leaves this means linear relations.
-/

namespace MieDiff

open Complex Spec Filter Topology
open scoped InnerProductSpace

/-! ## Indices and wavenumber -/

theorem csqrt_dilute {t : ℝ} (ht : 0 < t) (e : ℂ) : csqrt ((t : ℂ) ^ 2 * e) = t * csqrt e := by
  unfold csqrt
  rcases eq_or_ne e 0 with rfl | he
  · simp
  have h1 : ((t : ℂ)) ^ 2 = ((t ^ 2 : ℝ) : ℂ) := by push_cast; rfl
  have hc : ((t ^ 2 : ℝ) : ℂ) ≠ 0 := by exact_mod_cast (pow_pos ht 2).ne'
  have ht0 : (t : ℂ) ≠ 0 := by exact_mod_cast ht.ne'
  rw [h1, Complex.cpow_def_of_ne_zero (mul_ne_zero hc he), Complex.cpow_def_of_ne_zero he, Complex.log_ofReal_mul (pow_pos ht 2) he,
    add_mul, Complex.exp_add, Real.log_pow]
  congr 1
  have : (((2 : ℕ) * Real.log t : ℝ) : ℂ) * (1 / 2) = ((Real.log t : ℝ) : ℂ) := by push_cast; ring
  rw [this, ← Complex.ofReal_exp, Real.exp_log ht]

/-- The same particle with all refractive indices multiplied by `t`, at the wavenumber divided by `t`. -/
noncomputable def Particle1.dilute (p : Particle1) (t : ℝ) : Particle1 :=
  { k0 := p.k0 / (t : ℂ), rLayers := p.rLayers, epsLayers := p.epsLayers.map ((t : ℂ) ^ 2 * ·), epsEnv := (t : ℂ) ^ 2 * p.epsEnv }

/-- The output for the diluted particle. -/
noncomputable def MieOut.dilute (o : MieOut) (t : ℝ) : MieOut :=
  { o with epsC := (t : ℂ) ^ 2 * o.epsC, epsS := (t : ℂ) ^ 2 * o.epsS, nEnv := t * o.nEnv }

theorem dilute_trunc {t : ℝ} (ht : 0 < t) (p : Particle1) : penaNmax [(p.dilute t).trunc] = penaNmax [p.trunc] := by
  have hc : (t : ℂ) ≠ 0 := by exact_mod_cast ht.ne'
  have hz : (p.dilute t).trunc.layers = p.trunc.layers.map fun l => (l.1, (t : ℂ) ^ 2 * l.2) := by
    simp only [Particle1.trunc, Particle1.dilute]
    rw [List.zip_map_right]
    rfl
  have hm : ∀ (e : ℂ) (r : ℝ), p.k0 / (t : ℂ) * csqrt ((t : ℂ) ^ 2 * e) * (r : ℂ) = p.k0 * csqrt e * (r : ℂ) := by
    intro e r
    rw [csqrt_dilute ht]
    field_simp
  have h1 : (p.dilute t).trunc.mx = p.trunc.mx := by
    unfold TruncEntry.mx
    rw [hz, List.map_map]
    exact List.map_congr_left fun l _ => hm _ _
  have h2 : (p.dilute t).trunc.mxPrev = p.trunc.mxPrev := by
    unfold TruncEntry.mxPrev
    rw [hz, List.map_map, List.zipWith_map_left]
    congr 1
    funext l rp
    exact hm _ _
  have h3 : (p.dilute t).trunc.xOuter = p.trunc.xOuter := by
    unfold TruncEntry.xOuter
    rw [hz]
    have : ((p.trunc.layers.map fun l => (l.1, (t : ℂ) ^ 2 * l.2)).getLastD (0, 0)).1 = (p.trunc.layers.getLastD (0, 0)).1 := by
      induction p.trunc.layers using List.reverseRecOn with
      | nil => simp
      | append_singleton l a ih => simp
    rw [this]
    exact hm _ _
  unfold penaNmax
  simp only [List.map_cons, List.map_nil, List.flatMap_cons, List.flatMap_nil, h1, h2, h3]

/-- C106, indices: multiplying all refractive indices, that of the host too, by `t > 0` and dividing the wavenumber by `t` gives the same
outcome for every backend. -/
theorem C106_dilute (K : D1Kernel) (B : Backends) (p : Particle1) (backend w : String) (nMax : Option ℤ) (ri : Bool) {t : ℝ} (ht : 0 < t) :
    mieCoefficients K B (p.dilute t) backend w nMax ri =
      (mieCoefficients K B p backend w nMax ri).map (MieOut.dilute · t) := by
  have hc : (t : ℂ) ≠ 0 := by exact_mod_cast ht.ne'
  have htr := dilute_trunc ht p
  have hn : csqrt (p.dilute t).epsEnv = t * csqrt p.epsEnv := csqrt_dilute ht _
  have hk : (p.dilute t).k0 * ((t : ℂ) * csqrt p.epsEnv) = p.k0 * csqrt p.epsEnv := by
    simp only [Particle1.dilute]; field_simp
  have hr : (p.dilute t).rLayers = p.rLayers := rfl
  have hlen : (p.dilute t).epsLayers.length = p.epsLayers.length := by simp [Particle1.dilute]
  have hm : ∀ e : ℂ, csqrt ((t : ℂ) ^ 2 * e) / ((t : ℂ) * csqrt p.epsEnv) = csqrt e / csqrt p.epsEnv := by
    intro e
    rw [csqrt_dilute ht, mul_div_mul_left _ _ hc]
  have hms : ((p.dilute t).epsLayers.map fun e => csqrt e / ((t : ℂ) * csqrt p.epsEnv)) = p.epsLayers.map fun e => csqrt e / csqrt p.epsEnv := by
    simp only [Particle1.dilute, List.map_map]
    exact List.map_congr_left fun e _ => hm e
  have hgl : (p.dilute t).epsLayers.getLastD 0 = (t : ℂ) ^ 2 * p.epsLayers.getLastD 0 := by
    simp only [Particle1.dilute]
    induction p.epsLayers using List.reverseRecOn with
    | nil => simp
    | append_singleton l a ih => simp
  have hidx : pyIdx (p.dilute t).epsLayers 0 = (pyIdx p.epsLayers 0).map ((t : ℂ) ^ 2 * ·) := by
    simp only [Particle1.dilute]
    cases p.epsLayers with
    | nil => rfl
    | cons r rs => rfl
  have hch : orderChoice backend.toLower (p.dilute t) nMax = orderChoice backend.toLower p nMax := by
    cases nMax with
    | some n => rfl
    | none =>
      have hw : (((p.rLayers.getLastD 0 : ℝ) : ℂ) * (p.dilute t).k0 * csqrt (p.dilute t).epsEnv) =
          ((p.rLayers.getLastD 0 : ℝ) : ℂ) * p.k0 * csqrt p.epsEnv := by rw [hn, mul_assoc, hk, mul_assoc]
      simp only [orderChoice, htr, hr, hw]
  have hpena : ∀ n, miecoefPenaK K (p.k0 * csqrt p.epsEnv) p.rLayers (p.dilute t).epsLayers ((t : ℂ) * csqrt p.epsEnv) n ri =
      miecoefPenaK K (p.k0 * csqrt p.epsEnv) p.rLayers p.epsLayers (csqrt p.epsEnv) n ri := by
    intro n
    unfold miecoefPenaK
    rw [hms]
  unfold mieCoefficients
  simp only [hr, hlen, hidx, hn, hk, hpena, hms, hgl]
  by_cases c1 : backend.toLower = "torch" ∨ backend.toLower = "scipy" ∨ backend.toLower = "pena"
  swap
  · simp only [c1, not_false_eq_true, if_true]; rfl
  by_cases c2 : strictlyIncreasing p.rLayers
  swap
  · have c2' : ¬ strictlyIncreasing (p.dilute t).rLayers := c2
    simp only [c1, c2, c2', not_true_eq_false, not_false_eq_true, if_true, if_false]; rfl
  have c2' : strictlyIncreasing (p.dilute t).rLayers := c2
  by_cases c3 : p.epsLayers.length = p.rLayers.length
  swap
  · simp only [c1, c2, c2', c3, ne_eq, not_true_eq_false, not_false_eq_true, if_true, if_false]; rfl
  simp only [c1, c2, c2', c3, ne_eq, not_true_eq_false, if_false]
  cases h1 : pyIdx p.rLayers 0 with
  | error e => rfl
  | ok rC =>
  cases h2 : pyIdx p.epsLayers 0 with
  | error e => rfl
  | ok eC =>
  simp only [Except.map, Bind.bind, Except.bind]
  rw [hch]
  generalize orderChoice backend.toLower p nMax = N
  cases N with
  | error e => rfl
  | ok n =>
  dsimp only
  cases orderRange n with
  | error e => rfl
  | ok _ =>
  dsimp only
  have heS : (if p.rLayers.length > 1 then (t : ℂ) ^ 2 * p.epsLayers.getLastD 0 else (t : ℂ) ^ 2 * eC) =
      (t : ℂ) ^ 2 * (if p.rLayers.length > 1 then p.epsLayers.getLastD 0 else eC) := by
    split <;> rfl
  rw [heS]
  by_cases c4 : backend.toLower = "pena"
  · simp only [c4, if_true]
    cases miecoefPenaK K (p.k0 * csqrt p.epsEnv) p.rLayers p.epsLayers (csqrt p.epsEnv) n ri with
    | error e => rfl
    | ok ab => rfl
  · simp only [c4, if_false, hm]
    by_cases c5 : p.rLayers.length > 2
    · simp only [c5, if_true]
    · simp only [c5, if_false]
      cases selectBessel B backend w with
      | error e => rfl
      | ok S =>
        dsimp only
        cases miecoef S (p.k0 * csqrt p.epsEnv * (rC : ℂ))
          (p.k0 * csqrt p.epsEnv * ((if p.rLayers.length > 1 then p.rLayers.getLastD 0 else rC : ℝ) : ℂ)) n
          (csqrt eC / csqrt p.epsEnv)
          (csqrt (if p.rLayers.length > 1 then p.epsLayers.getLastD 0 else eC) / csqrt p.epsEnv) with
        | error e => rfl
        | ok out => rfl

/-- The diluted particle is a different particle in a different host at a different wavenumber. -/
example : (Particle1.mk 3 [1, 2] [4, 9] 1).dilute 2 = ⟨3 / 2, [1, 2], [16, 36], 4⟩ := by
  simp [Particle1.dilute]; norm_num

/-! ## Near fields -/

/-- Electric fields stay, magnetic fields are multiplied by `t`. -/
noncomputable def Fields.dilute (f : Fields) (t : ℝ) : Fields :=
  { Ei := f.Ei, Hi := V3.smul t f.Hi, Es := f.Es, Hs := V3.smul t f.Hs, Et := f.Et, Ht := V3.smul t f.Ht }

theorem V3.smul_add' (t : ℂ) (u v : V3 ℂ) : V3.smul t (u.add v) = (V3.smul t u).add (V3.smul t v) := by
  simp only [V3.smul, V3.add, mul_add]

theorem dilute_sumCart_smul (t : ℂ) (theta phi : ℝ) (l : List (V3 ℂ)) :
    sumCart theta phi (l.map (V3.smul t)) = V3.smul t (sumCart theta phi l) := by
  have hl : ∀ v : V3 ℂ, fieldsSphToCart (V3.smul t v) theta phi = V3.smul t (fieldsSphToCart v theta phi) := by
    intro v
    simp only [fieldsSphToCart, V3.smul]
    congr 1 <;> ring
  unfold sumCart
  have : V3.zero = V3.smul t V3.zero := by simp [V3.smul, V3.zero]
  conv_lhs => rw [this]
  generalize V3.zero = z
  induction l generalizing z with
  | nil => rfl
  | cons v l ih =>
    simp only [List.map_cons, List.foldl_cons]
    rw [hl, ← V3.smul_add', ih]

theorem dilute_maskedAssign_map {α β : Type*} (f : α → β) (zero : α) (masks : List Bool) (vals : List α) :
    maskedAssign (f zero) masks (vals.map f) = f (maskedAssign zero masks vals) := by
  unfold maskedAssign
  induction masks generalizing zero vals with
  | nil => rfl
  | cons m ms ih =>
    cases vals with
    | nil => rfl
    | cons v vs =>
      simp only [List.map_cons, List.zip_cons_cons, List.foldl_cons]
      cases m
      · exact ih zero vs
      · exact ih v vs

theorem outField_dilute (t : ℂ) (En a b nMed : ℂ) (v3 : VSH) :
    outField En a b (t * nMed) v3 = ((outField En a b nMed v3).1, V3.smul t (outField En a b nMed v3).2) := by
  simp only [outField, V3.smul, mul_assoc]

theorem inField_dilute (t : ℂ) (En a b c d nMed : ℂ) (v1 v3 : VSH) :
    inField En a b c d (t * nMed) v1 v3 = ((inField En a b c d nMed v1 v3).1, V3.smul t (inField En a b c d nMed v1 v3).2) := by
  simp only [inField, V3.smul]
  refine Prod.ext rfl ?_
  dsimp only
  congr 1 <;> ring

theorem regionField_dilute (K : D1Kernel) (nMax : ℕ) (k0 nMed : ℂ) (r theta phi : ℝ) (E0 : ℂ) (isOut : Bool) (rc : RegionCoefs) (epsilon : ℝ)
    {t : ℂ} (ht : t ≠ 0) :
    regionField K nMax (k0 / t) (t * nMed) r theta phi E0 isOut rc epsilon =
      (regionField K nMax k0 nMed r theta phi E0 isOut rc epsilon).map fun eh => (eh.1, eh.2.map (V3.smul t)) := by
  have hk : k0 / t * (t * nMed) = k0 * nMed := by field_simp
  have hv : ∀ kind, vshPena K nMax (k0 / t) (t * nMed) r theta phi kind epsilon = vshPena K nMax k0 nMed r theta phi kind epsilon := by
    intro kind
    unfold vshPena
    rw [hk]
  unfold regionField
  simp only [hv]
  cases vshPena K nMax k0 nMed r theta phi 1 epsilon with
  | error e => rfl
  | ok v1 =>
  cases vshPena K nMax k0 nMed r theta phi 3 epsilon with
  | error e => rfl
  | ok v3 =>
  simp only [Bind.bind, Except.bind, Except.map, List.map_map]
  congr 2
  · refine List.map_congr_left fun i _ => ?_
    simp only [Function.comp, outField_dilute, inField_dilute]
    cases isOut <;> rfl
  · refine List.map_congr_left fun i _ => ?_
    simp only [Function.comp, outField_dilute, inField_dilute]
    cases isOut <;> rfl

theorem dilute_mapM_map_ok {α β γ : Type} (f : α → Py β) (g : β → γ) (l : List α) :
    l.mapM (fun a => (f a).map g) = (l.mapM f).map (List.map g) := by
  induction l with
  | nil => rfl
  | cons a l ih =>
    rw [List.mapM_cons, List.mapM_cons, ih]
    cases f a with
    | error e => rfl
    | ok b => cases l.mapM f <;> rfl

/-- C106, near fields of the pena backend: if all refractive indices are multiplied by `t` and the wavenumber divided by it, the electric
fields at every point stay and the magnetic ones are multiplied by `t`. -/
theorem C106_near_pena (K : D1Kernel) (p : Particle1) (E0 : ℂ) (a b : List ℂ) (x : V3 ℝ) (epsilon : ℝ) {t : ℝ} (ht : 0 < t) :
    nearfieldsPena K (p.dilute t).k0 (p.dilute t).rLayers (p.dilute t).epsLayers (p.dilute t).epsEnv E0 a b x epsilon =
      (nearfieldsPena K p.k0 p.rLayers p.epsLayers p.epsEnv E0 a b x epsilon).map (Fields.dilute · t) := by
  have hc : (t : ℂ) ≠ 0 := by exact_mod_cast ht.ne'
  have hn : csqrt ((t : ℂ) ^ 2 * p.epsEnv) = t * csqrt p.epsEnv := csqrt_dilute ht _
  have hk : p.k0 / t * ((t : ℂ) * csqrt p.epsEnv) = p.k0 * csqrt p.epsEnv := by field_simp
  have hms : ((p.epsLayers.map ((t : ℂ) ^ 2 * ·)).map fun e => csqrt e / ((t : ℂ) * csqrt p.epsEnv)) =
      p.epsLayers.map fun e => csqrt e / csqrt p.epsEnv := by
    rw [List.map_map]
    exact List.map_congr_left fun e _ => by simp only [Function.comp]; rw [csqrt_dilute ht, mul_div_mul_left _ _ hc]
  have hmed : (p.epsLayers.map ((t : ℂ) ^ 2 * ·)).map csqrt ++ [(t : ℂ) * csqrt p.epsEnv] =
      (p.epsLayers.map csqrt ++ [csqrt p.epsEnv]).map ((t : ℂ) * ·) := by
    rw [List.map_append, List.map_map, List.map_map]
    congr 1
    exact List.map_congr_left fun e _ => csqrt_dilute ht e
  have hget : ∀ (l : List ℂ) (i : ℕ), (l.map ((t : ℂ) * ·)).getD i 0 = t * l.getD i 0 := by
    intro l i
    simp only [List.getD_eq_getElem?_getD, List.getElem?_map]
    cases l[i]? <;> simp
  unfold nearfieldsPena
  simp only [Particle1.dilute, hn, hk, hms, hmed, hget, regionField_dilute _ _ _ _ _ _ _ _ _ _ _ hc]
  cases nfRegions K a.length (extCoefs a b) true
      ((p.epsLayers.map fun e => csqrt e / csqrt p.epsEnv).zip (p.rLayers.map fun (r : ℝ) => p.k0 * csqrt p.epsEnv * (r : ℂ))) with
  | error e => rfl
  | ok regs =>
  simp only [Bind.bind, Except.bind]
  rw [dilute_mapM_map_ok]
  generalize List.mapM (m := Except PyErr) _ (List.range (p.rLayers.length + 1)) = M
  cases M with
  | error e => rfl
  | ok flds =>
  have h1 : (flds.map fun eh : List (V3 ℂ) × List (V3 ℂ) => (eh.1, eh.2.map (V3.smul (t : ℂ)))).map (·.1) = flds.map (·.1) := by
    rw [List.map_map]; rfl
  have h2 : (flds.map fun eh : List (V3 ℂ) × List (V3 ℂ) => (eh.1, eh.2.map (V3.smul (t : ℂ)))).map (·.2) =
      (flds.map (·.2)).map (List.map (V3.smul (t : ℂ))) := by
    rw [List.map_map, List.map_map]; rfl
  have h3 : ∀ masks, maskedAssign ([] : List (V3 ℂ)) masks ((flds.map (·.2)).map (List.map (V3.smul (t : ℂ)))) =
      (maskedAssign [] masks (flds.map (·.2))).map (V3.smul (t : ℂ)) := fun masks => dilute_maskedAssign_map (List.map (V3.smul (t : ℂ))) [] masks _
  have h4 : ∀ (k : ℂ) (r theta : ℝ), incidentH E0 k (t * csqrt p.epsEnv) r theta = V3.smul t (incidentH E0 k (csqrt p.epsEnv) r theta) := by
    intro k r theta
    simp only [incidentH, V3.smul, mul_zero]
    congr 1
    ring
  simp only [Except.map, h1, h2, h3, h4, dilute_sumCart_smul, Fields.dilute]
  congr 2
  split
  · rw [V3.smul_add']
  · rfl

theorem torchOrder_dilute (t En : ℂ) (co : CoreShellOut) (nC nS nE : ℂ) (rC rS r : ℝ) (vc vs ws vo : VSH) :
    torchOrder En co (t * nC) (t * nS) (t * nE) rC rS r vc vs ws vo =
      ((torchOrder En co nC nS nE rC rS r vc vs ws vo).1, V3.smul t (torchOrder En co nC nS nE rC rS r vc vs ws vo).2) := by
  have e1 : ∀ n : ℂ, -(t * n) * En = t * (-n * En) := fun n => by ring
  have e2 : En * (t * nE) = t * (En * nE) := by ring
  have e3 : ∀ (x : ℂ) (v : V3 ℂ), V3.smul (t * x) v = V3.smul t (V3.smul x v) := fun x v => by simp only [V3.smul, mul_assoc]
  have e4 : V3.smul t V3.zero = V3.zero := by simp [V3.smul, V3.zero]
  simp only [torchOrder, e1, e2, e3]
  refine Prod.ext rfl ?_
  dsimp only
  split_ifs <;> first | rfl | exact e4.symm

/-- C106, near fields of the torch and scipy backends. -/
theorem C106_near_shell (Bc Bs B2 Bo : BesselBackend) (k0 nC nS nEnv : ℂ) (rC rS : ℝ) (E0 : ℂ) (co : List CoreShellOut) (x : V3 ℝ) (epsilon : ℝ)
    {t : ℝ} (ht : 0 < t) :
    nearfieldsTorch Bc Bs B2 Bo (k0 / t) (k0 / t * (t * nEnv)) (t * nC) (t * nS) (t * nEnv) rC rS E0 co x epsilon =
      (nearfieldsTorch Bc Bs B2 Bo k0 (k0 * nEnv) nC nS nEnv rC rS E0 co x epsilon).map (Fields.dilute · t) := by
  have hc : (t : ℂ) ≠ 0 := by exact_mod_cast ht.ne'
  have hk : ∀ n : ℂ, k0 / t * ((t : ℂ) * n) = k0 * n := fun n => by field_simp
  have hv : ∀ (B : BesselBackend) (N : ℕ) (n : ℂ) (r theta phi : ℝ) (kind : ℤ),
      vsh B N (k0 / t) (t * n) r theta phi kind epsilon = vsh B N k0 n r theta phi kind epsilon := by
    intro B N n r theta phi kind
    unfold vsh vshWith
    rw [hk]
  unfold nearfieldsTorch
  simp only [hv, hk]
  generalize vsh Bc _ _ _ _ _ _ _ _ = M1
  generalize vsh Bs _ _ _ _ _ _ _ _ = M2
  generalize vsh B2 _ _ _ _ _ _ _ _ = M3
  generalize vsh Bo _ _ _ _ _ _ _ _ = M4
  cases M1 with
  | error e => rfl
  | ok vc =>
  cases M2 with
  | error e => rfl
  | ok vs =>
  cases M3 with
  | error e => rfl
  | ok ws =>
  cases M4 with
  | error e => rfl
  | ok vo =>
  have h4 : ∀ (k : ℂ) (r theta : ℝ), incidentH E0 k (t * nEnv) r theta = V3.smul t (incidentH E0 k nEnv r theta) := by
    intro k r theta
    simp only [incidentH, V3.smul, mul_zero]
    congr 1
    ring
  have hl : ∀ (l : List ℕ) (f : ℕ → V3 ℂ), (l.map fun i => V3.smul (t : ℂ) (f i)) = (l.map f).map (V3.smul t) := fun l f => by
    rw [List.map_map]; rfl
  simp only [Bind.bind, Except.bind, Except.map, torchOrder_dilute, List.map_map, Function.comp_def, h4]
  rw [hl]
  simp only [dilute_sumCart_smul, Fields.dilute]
  congr 2
  split
  · rw [V3.smul_add']
  · rfl

/-- C106, a whole call: coefficients and near fields of the pena backend with automatic or given order. -/
theorem C106_near (K : D1Kernel) (B : Backends) (p : Particle1) (nMax : Option ℤ) (x : V3 ℝ) {t : ℝ} (ht : 0 < t) :
    nearPena K B (p.dilute t) nMax x = (nearPena K B p nMax x).map (Fields.dilute · t) := by
  unfold nearPena
  rw [C106_dilute K B p "pena" "recurrence" nMax false ht]
  cases mieCoefficients K B p "pena" "recurrence" nMax false with
  | error e => rfl
  | ok o => exact C106_near_pena K p 1 o.a o.b x _ ht

/-- The sphere of index `π/2` in vacuum at wavenumber 1 and the sphere of index `π` in a host of index 2 at wavenumber 1/2. -/
example (K : D1Kernel) (B : Backends) (x : V3 ℝ) :
    nearPena K B ⟨1 / 2, [1], [4 * (qp : ℂ) ^ 2], 4⟩ (some 1) x = (nearPena K B monoParticle (some 1) x).map (Fields.dilute · 2) := by
  rw [← C106_near K B monoParticle (some 1) x (by norm_num : (0 : ℝ) < 2)]
  congr 1
  simp [Particle1.dilute, monoParticle]
  norm_num

/-! ## Leaves -/

/-- The real leaves of a call with `L` layers: wavenumber, radii, real and imaginary parts of the permittivities, host permittivity. -/
inductive Leaf (L : ℕ) where
  | k0
  | radius (j : Fin L)
  | re (j : Fin L)
  | im (j : Fin L)
  | host
  deriving DecidableEq, Fintype

/-- One value for each leaf, or one gradient for each leaf. -/
abbrev Leaves (L : ℕ) := EuclideanSpace ℝ (Leaf L)

/-- The arguments of the call as functions of the leaves. -/
noncomputable def leafFam (L : ℕ) : ParticleFam (Leaves L) where
  k0 v := v .k0
  r := List.ofFn fun j v => v (.radius j)
  eps := List.ofFn fun j v => v (.re j) + I * v (.im j)
  env v := v .host

/-- `Σ r_j * r_j.grad - k0 * k0.grad` -/
noncomputable def lengthTerm {L : ℕ} (v g : Leaves L) : ℝ := ∑ j, v (.radius j) * g (.radius j) - v .k0 * g .k0

/-- `2 * (Σ (re_j * re_j.grad + im_j * im_j.grad) + host * host.grad) - k0 * k0.grad` -/
noncomputable def indexTerm {L : ℕ} (v g : Leaves L) : ℝ :=
  2 * (∑ j, (v (.re j) * g (.re j) + v (.im j) * g (.im j)) + v .host * g .host) - v .k0 * g .k0

section Curves

variable {L : ℕ} (v : Leaves L)

noncomputable def waveDir : Leaves L := v .k0 • EuclideanSpace.single .k0 1

noncomputable def radiusDir : Leaves L := ∑ j, v (.radius j) • EuclideanSpace.single (.radius j) 1

noncomputable def epsDir : Leaves L :=
  ∑ j, (v (.re j) • EuclideanSpace.single (.re j) 1 + v (.im j) • EuclideanSpace.single (.im j) 1) + v .host • EuclideanSpace.single .host 1

theorem inner_length (g : Leaves L) : -⟪g, waveDir v⟫_ℝ + ⟪g, radiusDir v⟫_ℝ = lengthTerm v g := by
  simp only [waveDir, radiusDir, lengthTerm, inner_sum, inner_smul_right, EuclideanSpace.inner_single_right]
  simp
  ring

theorem inner_index (g : Leaves L) : -⟪g, waveDir v⟫_ℝ + 2 * ⟪g, epsDir v⟫_ℝ = indexTerm v g := by
  simp only [waveDir, epsDir, indexTerm, inner_sum, inner_add_right, inner_smul_right, EuclideanSpace.inner_single_right]
  simp
  ring

theorem leaf_scale {s : ℝ} (hs : s ≠ 0) :
    (leafFam L).at (v + (s⁻¹ - 1) • waveDir v + (s - 1) • radiusDir v) = ((leafFam L).at v).scale s := by
  have hc : (s : ℂ) ≠ 0 := by exact_mod_cast hs
  simp only [leafFam, ParticleFam.at, Particle1.scale, List.map_ofFn, waveDir, radiusDir]
  congr 1
  · simp
    field_simp
    ring
  · congr 1
    funext j
    simp [Pi.single_apply]
    ring
  · congr 1
    funext j
    simp
  · simp

theorem leaf_dilute {t : ℝ} (ht : t ≠ 0) :
    (leafFam L).at (v + (t⁻¹ - 1) • waveDir v + (t ^ 2 - 1) • epsDir v) = ((leafFam L).at v).dilute t := by
  have hc : (t : ℂ) ≠ 0 := by exact_mod_cast ht
  simp only [leafFam, ParticleFam.at, Particle1.dilute, List.map_ofFn, waveDir, epsDir]
  congr 1
  · simp
    field_simp
    ring
  · congr 1
    funext j
    simp
  · congr 1
    funext j
    simp [Finset.sum_add_distrib, Pi.single_apply]
    ring
  · simp
    ring

end Curves

/-- Euler's relation for a function that is homogeneous along a curve. -/
theorem euler_curve {V : Type*} [NormedAddCommGroup V] [InnerProductSpace ℝ V] [CompleteSpace V] {f : V → ℝ} {g v A U : V} (q m : ℕ)
    (hf : HasGradientAt f g v) (h : ∀ᶠ s : ℝ in 𝓝 1, f (v + (s⁻¹ - 1) • A + (s ^ q - 1) • U) = s ^ m * f v) :
    -⟪g, A⟫_ℝ + q * ⟪g, U⟫_ℝ = m * f v := by
  have hγ : HasDerivAt (fun s : ℝ => v + (s⁻¹ - 1) • A + (s ^ q - 1) • U) ((-1 : ℝ) • A + (q : ℝ) • U) 1 := by
    have h1 := (((hasDerivAt_inv (one_ne_zero (α := ℝ))).sub_const 1).smul_const A).const_add v
    have h2 := ((hasDerivAt_pow q (1 : ℝ)).sub_const 1).smul_const U
    have := h1.add h2
    exact this.congr_deriv (by simp)
  have h0 : v + ((1 : ℝ)⁻¹ - 1) • A + ((1 : ℝ) ^ q - 1) • U = v := by simp
  have hf' : HasFDerivAt f (InnerProductSpace.toDual ℝ V g) (v + ((1 : ℝ)⁻¹ - 1) • A + ((1 : ℝ) ^ q - 1) • U) := by
    rw [h0]; exact hf.hasFDerivAt
  have h3 := hf'.comp_hasDerivAt (1 : ℝ) hγ
  have h4 : HasDerivAt (fun s : ℝ => s ^ m * f v) (m * f v) 1 := by
    have := (hasDerivAt_pow m (1 : ℝ)).mul_const (f v)
    exact this.congr_deriv (by simp)
  have h5 := h3.unique (h4.congr_of_eventuallyEq h)
  rw [InnerProductSpace.toDual_apply_apply] at h5
  rw [← h5, inner_add_right, inner_smul_right, inner_smul_right]
  ring

theorem crossSections_scale (o : MieOut) {s : ℝ} (hs : 0 < s) :
    let c := crossSections o.k o.rS o.a o.b
    let c' := crossSections (o.scale s).k (o.scale s).rS (o.scale s).a (o.scale s).b
    c'.csExt = s ^ 2 * c.csExt ∧ c'.csSca = s ^ 2 * c.csSca ∧ c'.csAbs = s ^ 2 * c.csAbs ∧
      c'.qExt = c.qExt ∧ c'.qSca = c.qSca ∧ c'.qAbs = c.qAbs := by
  have hs0 : s ≠ 0 := hs.ne'
  have hsc : (s : ℂ) ≠ 0 := by exact_mod_cast hs0
  have hmp : ∀ v : List ℂ, mpTerms (o.k / (s : ℂ)) v = (mpTerms o.k v).map (((s ^ 2 : ℝ) : ℂ) * ·) := by
    intro v
    unfold mpTerms
    apply List.ext_getElem?
    intro i
    simp only [List.getElem?_map, List.getElem?_mapIdx, Option.map_map]
    congr 1
    funext vi
    simp only [Function.comp]
    push_cast
    rw [div_pow, div_div_eq_mul_div]
    ring
  have hsum : ∀ l : List ℂ, (l.map (((s ^ 2 : ℝ) : ℂ) * ·)).sum = ((s ^ 2 : ℝ) : ℂ) * l.sum := by
    intro l; simpa only [id, List.map_id] using List.sum_map_mul_left l id ((s ^ 2 : ℝ) : ℂ)
  have hzip : ∀ l l' : List ℂ, List.zipWith (· - ·) (l.map (((s ^ 2 : ℝ) : ℂ) * ·)) (l'.map (((s ^ 2 : ℝ) : ℂ) * ·)) =
      (List.zipWith (· - ·) l l').map (((s ^ 2 : ℝ) : ℂ) * ·) := by
    intro l l'
    rw [List.zipWith_map, List.map_zipWith]
    congr 1
    funext a b
    ring
  have hre : ∀ z w : ℂ, (((s ^ 2 : ℝ) : ℂ) * z + ((s ^ 2 : ℝ) : ℂ) * w).re = s ^ 2 * (z + w).re := by
    intro z w
    rw [← mul_add, Complex.re_ofReal_mul]
  have hg : Real.pi * (s * o.rS) ^ 2 = s ^ 2 * (Real.pi * o.rS ^ 2) := by ring
  have hq : ∀ x : ℝ, s ^ 2 * x / (s ^ 2 * (Real.pi * o.rS ^ 2)) = x / (Real.pi * o.rS ^ 2) := fun x =>
    mul_div_mul_left _ _ (pow_ne_zero 2 hs0)
  refine ⟨?_, ?_, ?_, ?_, ?_, ?_⟩ <;>
    simp only [crossSections, MieOut.scale, hmp, hzip, hsum, hre, hg, hq]

/-- Calls for all leaves near `v0`, with any backend and any options. -/
def CallsAt {L : ℕ} (v0 : Leaves L) (o : Leaves L → MieOut) : Prop :=
  ∃ K B backend w nMax ri, ∀ᶠ v in 𝓝 v0, mieCoefficients K B ((leafFam L).at v) backend w nMax ri = .ok (o v)

section Property

variable {L : ℕ} {v0 : Leaves L} {o : Leaves L → MieOut}

theorem CallsAt.length (h : CallsAt v0 o) :
    ∀ᶠ s : ℝ in 𝓝 1, 0 < s ∧ o (v0 + (s⁻¹ - 1) • waveDir v0 + (s ^ 1 - 1) • radiusDir v0) = (o v0).scale s := by
  obtain ⟨K, B, backend, w, nMax, ri, hc⟩ := h
  have hγ : Tendsto (fun s : ℝ => v0 + (s⁻¹ - 1) • waveDir v0 + (s ^ 1 - 1) • radiusDir v0) (𝓝 1) (𝓝 v0) := by
    have : ContinuousAt (fun s : ℝ => v0 + (s⁻¹ - 1) • waveDir v0 + (s ^ 1 - 1) • radiusDir v0) 1 := by
      fun_prop (disch := norm_num)
    simpa [ContinuousAt] using this
  filter_upwards [hγ.eventually hc, lt_mem_nhds (one_pos (α := ℝ))] with s h1 hs
  refine ⟨hs, ?_⟩
  rw [pow_one] at h1 ⊢
  rw [leaf_scale v0 hs.ne', C10_scale_coefficients K B _ backend w nMax ri hs, hc.self_of_nhds] at h1
  exact (Except.ok.inj h1).symm

theorem CallsAt.index (h : CallsAt v0 o) :
    ∀ᶠ s : ℝ in 𝓝 1, 0 < s ∧ o (v0 + (s⁻¹ - 1) • waveDir v0 + (s ^ 2 - 1) • epsDir v0) = (o v0).dilute s := by
  obtain ⟨K, B, backend, w, nMax, ri, hc⟩ := h
  have hγ : Tendsto (fun s : ℝ => v0 + (s⁻¹ - 1) • waveDir v0 + (s ^ 2 - 1) • epsDir v0) (𝓝 1) (𝓝 v0) := by
    have : ContinuousAt (fun s : ℝ => v0 + (s⁻¹ - 1) • waveDir v0 + (s ^ 2 - 1) • epsDir v0) 1 := by
      fun_prop (disch := norm_num)
    simpa [ContinuousAt] using this
  filter_upwards [hγ.eventually hc, lt_mem_nhds (one_pos (α := ℝ))] with s h1 hs
  refine ⟨hs, ?_⟩
  rw [leaf_dilute v0 hs.ne', C106_dilute K B _ backend w nMax ri hs, hc.self_of_nhds] at h1
  exact (Except.ok.inj h1).symm

theorem length_relation {f : MieOut → ℝ} {g : Leaves L} (m : ℕ) (h : CallsAt v0 o) (hg : HasGradientAt (fun v => f (o v)) g v0)
    (hf : ∀ s : ℝ, 0 < s → ∀ x : MieOut, f (x.scale s) = s ^ m * f x) : lengthTerm v0 g = m * f (o v0) := by
  have := euler_curve (f := fun v => f (o v)) 1 m hg (h.length.mono fun s hs => by rw [hs.2, hf s hs.1])
  rw [← inner_length, ← this]
  simp

theorem index_relation {f : MieOut → ℝ} {g : Leaves L} (h : CallsAt v0 o) (hg : HasGradientAt (fun v => f (o v)) g v0)
    (hf : ∀ s : ℝ, 0 < s → ∀ x : MieOut, f (x.dilute s) = f x) : indexTerm v0 g = 0 := by
  have := euler_curve (f := fun v => f (o v)) 2 0 hg (h.index.mono fun s hs => by rw [hs.2, hf s hs.1]; simp)
  rw [← inner_index, ← sub_eq_zero.2 this]
  simp

/-- C106, coefficients: for every cotangent `s`, the gradients that `backward` leaves in the leaves are related by
`Σ r_j * r_j.grad = k0 * k0.grad` and `2 * (Σ (re_j * re_j.grad + im_j * im_j.grad) + host * host.grad) = k0 * k0.grad`. -/
theorem C106_coefficients {i : ℕ} {c : Node (Leaves L) × Node (Leaves L)} (h : CallsAt v0 o) (hb : CoefBackward v0 o i c) (s : ℂ) :
    lengthTerm v0 (c.1.back s) = 0 ∧ indexTerm v0 (c.1.back s) = 0 ∧ lengthTerm v0 (c.2.back s) = 0 ∧ indexTerm v0 (c.2.back s) = 0 := by
  refine ⟨?_, ?_, ?_, ?_⟩
  · simpa using length_relation (f := fun x => ((starRingEnd ℂ) s * x.a.getD (i - 1) 0).re) 0 h (hb.a_grad s) fun s _ x => by simp [MieOut.scale]
  · exact index_relation (f := fun x => ((starRingEnd ℂ) s * x.a.getD (i - 1) 0).re) h (hb.a_grad s) fun s _ x => rfl
  · simpa using length_relation (f := fun x => ((starRingEnd ℂ) s * x.b.getD (i - 1) 0).re) 0 h (hb.b_grad s) fun s _ x => by simp [MieOut.scale]
  · exact index_relation (f := fun x => ((starRingEnd ℂ) s * x.b.getD (i - 1) 0).re) h (hb.b_grad s) fun s _ x => rfl

/-- C106, cross sections and efficiencies. -/
theorem C106_cross_sections {c : Node.Cross (Leaves L)} (h : CallsAt v0 o)
    (hb : CrossBackward v0 (fun v => crossSections (o v).k (o v).rS (o v).a (o v).b) c) :
    let cs := crossSections (o v0).k (o v0).rS (o v0).a (o v0).b
    (lengthTerm v0 (c.ext.back 1) = 2 * cs.csExt ∧ lengthTerm v0 (c.sca.back 1) = 2 * cs.csSca ∧ lengthTerm v0 (c.abs.back 1) = 2 * cs.csAbs) ∧
    (lengthTerm v0 (c.qExt.back 1) = 0 ∧ lengthTerm v0 (c.qSca.back 1) = 0 ∧ lengthTerm v0 (c.qAbs.back 1) = 0) ∧
    (indexTerm v0 (c.ext.back 1) = 0 ∧ indexTerm v0 (c.sca.back 1) = 0 ∧ indexTerm v0 (c.abs.back 1) = 0) ∧
    (indexTerm v0 (c.qExt.back 1) = 0 ∧ indexTerm v0 (c.qSca.back 1) = 0 ∧ indexTerm v0 (c.qAbs.back 1) = 0) := by
  let F : MieOut → CrossSections := fun x => crossSections x.k x.rS x.a x.b
  refine ⟨⟨?_, ?_, ?_⟩, ⟨?_, ?_, ?_⟩, ⟨?_, ?_, ?_⟩, ⟨?_, ?_, ?_⟩⟩
  · exact_mod_cast length_relation (f := fun x => (F x).csExt) 2 h hb.ext_grad fun s hs x => (crossSections_scale x hs).1
  · exact_mod_cast length_relation (f := fun x => (F x).csSca) 2 h hb.sca_grad fun s hs x => (crossSections_scale x hs).2.1
  · exact_mod_cast length_relation (f := fun x => (F x).csAbs) 2 h hb.abs_grad fun s hs x => (crossSections_scale x hs).2.2.1
  · simpa using length_relation (f := fun x => (F x).qExt) 0 h hb.qExt_grad fun s hs x => by
      rw [pow_zero, one_mul]; exact (crossSections_scale x hs).2.2.2.1
  · simpa using length_relation (f := fun x => (F x).qSca) 0 h hb.qSca_grad fun s hs x => by
      rw [pow_zero, one_mul]; exact (crossSections_scale x hs).2.2.2.2.1
  · simpa using length_relation (f := fun x => (F x).qAbs) 0 h hb.qAbs_grad fun s hs x => by
      rw [pow_zero, one_mul]; exact (crossSections_scale x hs).2.2.2.2.2
  · exact index_relation (f := fun x => (F x).csExt) h hb.ext_grad fun s _ x => rfl
  · exact index_relation (f := fun x => (F x).csSca) h hb.sca_grad fun s _ x => rfl
  · exact index_relation (f := fun x => (F x).csAbs) h hb.abs_grad fun s _ x => rfl
  · exact index_relation (f := fun x => (F x).qExt) h hb.qExt_grad fun s _ x => rfl
  · exact index_relation (f := fun x => (F x).qSca) h hb.qSca_grad fun s _ x => rfl
  · exact index_relation (f := fun x => (F x).qAbs) h hb.qAbs_grad fun s _ x => rfl

/-! ## The recorded runs -/

/-- A real leaf: `torch.tensor(x, requires_grad=True)`. -/
noncomputable def leafNode (v : Leaves L) (i : Leaf L) : Node (Leaves L) := Node.ofReal (v i) fun g => g • EuclideanSpace.single i 1

/-- The call `mie_coefficients(k0, r_layers=[..], eps_layers=[re + 1j*im, ..], eps_env=host)` with all leaves. Code: multishell.py:633, 742. -/
noncomputable def leafIn (v : Leaves L) : Node.Inputs (Leaves L) where
  k0 := leafNode v .k0
  r := List.ofFn fun j => leafNode v (.radius j)
  eps := List.ofFn fun j => Node.add (leafNode v (.re j)) (Node.mul (Node.const I) (leafNode v (.im j)))
  env := leafNode v .host

theorem leaf_tracks (v : Leaves L) (i : Leaf L) : Node.Tracks v (leafNode v i) fun t => ((t i : ℝ) : ℂ) := by
  refine ⟨rfl, fun h => by simp [leafNode, Node.ofReal] at h, fun _ => ?_⟩
  refine ⟨ofRealCLM.comp (EuclideanSpace.proj i), (ofRealCLM.comp (EuclideanSpace.proj (𝕜 := ℝ) i)).hasFDerivAt, fun g dv => ?_⟩
  simp [leafNode, Node.ofReal, inner_smul_left, EuclideanSpace.inner_single_left]

theorem leaf_holds {v : Leaves L} (he : ∀ j, (v (.re j) + I * v (.im j) : ℂ) ∈ slitPlane) (hh : 0 < v .host) :
    (leafIn v).Holds v (leafFam L) := by
  have c : ∀ i, (leafNode v i).ok := fun _ => trivial
  refine ⟨(leaf_tracks v _).recorded (c _), List.forall₂_iff_get.2 ⟨by simp [leafIn, leafFam], fun i h1 h2 => ?_⟩,
    List.forall₂_iff_get.2 ⟨by simp [leafIn, leafFam], fun i h1 h2 => ?_⟩, (leaf_tracks v _).recorded (c _),
    fun _ => ofReal_mem_slitPlane.2 hh⟩
  · simp only [leafIn, leafFam, List.get_ofFn]
    exact (leaf_tracks v _).recorded (c _)
  · simp only [leafIn, leafFam, List.get_ofFn]
    exact ⟨((leaf_tracks v _).add ((Node.Tracks.const I).mul (leaf_tracks v _))).recorded ⟨c _, trivial, c _⟩, fun _ => he _⟩

/-- The relations for one recorded run: degree 2 in the lengths for cross sections, 0 for all other results and for the indices. -/
structure EulerHolds (v0 : Leaves L) (o : MieOut) (n : ℕ) (c : ℕ → Node (Leaves L) × Node (Leaves L)) (x : Node.Cross (Leaves L)) : Prop where
  coefficients : ∀ i, 1 ≤ i → i ≤ n → ∀ s, lengthTerm v0 ((c i).1.back s) = 0 ∧ indexTerm v0 ((c i).1.back s) = 0 ∧
    lengthTerm v0 ((c i).2.back s) = 0 ∧ indexTerm v0 ((c i).2.back s) = 0
  cross : let cs := crossSections o.k o.rS o.a o.b
    lengthTerm v0 (x.ext.back 1) = 2 * cs.csExt ∧ lengthTerm v0 (x.sca.back 1) = 2 * cs.csSca ∧ lengthTerm v0 (x.abs.back 1) = 2 * cs.csAbs
  efficiencies : lengthTerm v0 (x.qExt.back 1) = 0 ∧ lengthTerm v0 (x.qSca.back 1) = 0 ∧ lengthTerm v0 (x.qAbs.back 1) = 0
  cross_index : indexTerm v0 (x.ext.back 1) = 0 ∧ indexTerm v0 (x.sca.back 1) = 0 ∧ indexTerm v0 (x.abs.back 1) = 0
  efficiencies_index : indexTerm v0 (x.qExt.back 1) = 0 ∧ indexTerm v0 (x.qSca.back 1) = 0 ∧ indexTerm v0 (x.qAbs.back 1) = 0

/-- The recorded coefficients of the core-shell backend `k`. -/
noncomputable def shellCoefs {V : Type*} [NormedAddCommGroup V] (k : ShellKind) (n : ℕ) (p : Node.Inputs V) (i : ℕ) : Node V × Node V :=
  ((Node.shell (k.bess V n) p i).a, (Node.shell (k.bess V n) p i).b)

/-- The recorded cross sections of the core-shell backend `k`. -/
noncomputable def shellCs {V : Type*} [NormedAddCommGroup V] (k : ShellKind) (n : ℕ) (p : Node.Inputs V) : Node.Cross V :=
  Node.shellCross n (k.bess V n) p

theorem ShellGradients.parts {V : Type*} [NormedAddCommGroup V] [InnerProductSpace ℝ V] [CompleteSpace V] {v0 : V} {k : ShellKind}
    {p : Node.Inputs V} {n : ℕ} {ri : Bool} {o : V → MieOut} (h : ShellGradients v0 k p n ri o) :
    (∀ i, 1 ≤ i → i ≤ n → CoefBackward v0 o i (shellCoefs k n p i)) ∧
      CrossBackward v0 (fun v => crossSections (o v).k (o v).rS (o v).a (o v).b) (shellCs k n p) := ⟨h.coefficients, h.cross⟩

/-- C106, pena: at every depth of the recurrence for which no guard fires. -/
theorem C106_pena {n N : ℕ} (he : ∀ j, (v0 (.re j) + I * v0 (.im j) : ℂ) ∈ slitPlane) (hh : 0 < v0 .host) (hN : 1 ≤ N)
    (hcall : PenaCallAt (leafFam L) v0 n N o) (hc : SolverClear (depthFn n N) n ((leafFam L).at v0).layers)
    (hd : ∀ z ∈ kernelArgs ((leafFam L).at v0).layers, DepthClear (n + N) z) :
    EulerHolds v0 (o v0) n (Node.mie n N (leafIn v0)) (Node.cross n N (leafIn v0)) := by
  have h : CallsAt v0 o := by
    obtain ⟨B, backend, w, nMax, ri, -, hv⟩ := hcall.call
    exact ⟨_, B, backend, w, nMax, ri, hv.mono fun v hv => hv.1⟩
  have hl := leaf_holds he hh
  obtain ⟨c1, c2, c3, c4⟩ := C106_cross_sections h (C79_cross_sections hl hN hcall hc hd)
  exact ⟨fun i h1 hi s => C106_coefficients h (C79_coefficients hl hN hcall hc hd h1 hi) s, c1, c2, c3, c4⟩

/-- C106, core-shell backends: whenever `backward` returns the gradients (C81). -/
theorem C106_shell {n : ℕ} {k : ShellKind} {sp : BesselBackend} {ri : Bool} (hcall : ShellCallAt k sp (leafFam L) v0 n ri o)
    (hg : ShellGradients v0 k (leafIn v0) n ri o) :
    EulerHolds v0 (o v0) n (shellCoefs k n (leafIn v0)) (shellCs k n (leafIn v0)) := by
  have h : CallsAt v0 o := by
    obtain ⟨K, backend, w, nMax, -, hv⟩ := hcall.call
    exact ⟨K, _, backend, w, nMax, ri, hv.mono fun v hv => hv.1⟩
  obtain ⟨c1, c2, c3, c4⟩ := C106_cross_sections h hg.parts.2
  exact ⟨fun i h1 hi s => C106_coefficients h (hg.parts.1 i h1 hi) s, c1, c2, c3, c4⟩

end Property

/-! ## Two particles -/

/-- The sphere of index `π/2`. -/
noncomputable def leafSphere : Leaves 1 := WithLp.toLp 2 fun
  | .k0 => 1
  | .radius _ => 1
  | .re _ => qp ^ 2
  | .im _ => 0
  | .host => 1

theorem leafSphere_at : (leafFam 1).at leafSphere = monoParticle := by
  simp [leafFam, leafSphere, ParticleFam.at, monoParticle]

/-- At every sufficient depth the calls succeed near the given leaves and their gradients satisfy the relations. -/
example (B : Backends) : ∃ o : ℕ → Leaves 1 → MieOut, PenaCalls (leafFam 1) leafSphere 1 o ∧
    ∀ᶠ N in atTop, EulerHolds leafSphere (o N leafSphere) 1 (Node.mie 1 N (leafIn leafSphere)) (Node.cross 1 N (leafIn leafSphere)) := by
  have he : ∀ j, (leafSphere (.re j) + I * leafSphere (.im j) : ℂ) ∈ slitPlane := fun j => by
    have e : (leafSphere (.re j) + I * leafSphere (.im j) : ℂ) = ((qp ^ 2 : ℝ) : ℂ) := by simp [leafSphere]
    rw [e]
    have hq : 0 < qp := by linarith [qp_odd.big]
    exact ofReal_mem_slitPlane.2 (by positivity)
  have hh : 0 < leafSphere .host := by simp [leafSphere]
  have hs : SmoothFam (leafFam 1) leafSphere := (leaf_holds he hh).smooth
  have hi : strictlyIncreasing ((leafFam 1).at leafSphere).rLayers := by rw [leafSphere_at]; simp [monoParticle, strictlyIncreasing]
  obtain ⟨o, h1, h2⟩ := C77_calls_succeed (n := 1) hs hi (by simp [leafFam]) (by simp [leafFam]) B (le_refl 1)
  have hc : SolverClear idealFn 1 ((leafFam 1).at leafSphere).layers := by rw [leafSphere_at]; exact mono_clear
  have hd : ∀ z ∈ kernelArgs ((leafFam 1).at leafSphere).layers, D1Clear z := by rw [leafSphere_at]; exact mono_args
  refine ⟨o, h1, ?_⟩
  obtain ⟨N0, h0⟩ := C78_depth_clear hc hd
  filter_upwards [eventually_ge_atTop N0, eventually_ge_atTop 1] with N hN hN1
  obtain ⟨B, backend, w, nMax, ri, hb, hcall⟩ := h1.call
  exact C106_pena he hh hN1 ⟨B, backend, w, nMax, ri, hb, hcall N hN1⟩ (h0 N hN).1 (h0 N hN).2

/-- The coated sphere of `coatPt`. -/
noncomputable def leafCoat : Leaves 2 := WithLp.toLp 2 fun
  | .k0 => 1
  | .radius j => ![1 / 4, 1 / 2] j
  | .re j => ![4, 9 / 4] j
  | .im _ => 0
  | .host => 1

theorem leafCoat_at : (leafFam 2).at leafCoat = coatE.at coatPt := by
  rw [coat_at]
  simp [leafFam, leafCoat, ParticleFam.at, List.ofFn_succ]

/-- All core-shell backends, two orders. -/
example (k : ShellKind) {backend w : String} (hname : k.Named backend w) (K : D1Kernel) :
    ∃ o : Leaves 2 → MieOut, (∀ᶠ v in 𝓝 leafCoat, mieCoefficients K (codeBackends exactBessel) ((leafFam 2).at v) backend w (some 2) true = .ok (o v)) ∧
      EulerHolds leafCoat (o leafCoat) 2 (shellCoefs k 2 (leafIn leafCoat)) (shellCs k 2 (leafIn leafCoat)) := by
  have he : ∀ j, (leafCoat (.re j) + I * leafCoat (.im j) : ℂ) ∈ slitPlane := fun j => by
    have e : (leafCoat (.re j) + I * leafCoat (.im j) : ℂ) = ((![4, 9 / 4] j : ℝ) : ℂ) := by simp [leafCoat]
    rw [e]
    exact ofReal_mem_slitPlane.2 (by fin_cases j <;> norm_num)
  have hl := leaf_holds he (show 0 < leafCoat .host by simp [leafCoat])
  have hinc : strictlyIncreasing ((leafFam 2).at leafCoat).rLayers := by rw [leafCoat_at, coat_at]; norm_num [strictlyIncreasing]
  have ha := coat_args
  have hp := coat_lossless
  rw [← leafCoat_at] at ha hp
  have hz : ∀ z ∈ csArgs ((leafFam 2).at leafCoat).layers, k.Stable z ∧ 1e-8 < ‖z‖ := fun z hz =>
    ⟨small_stable (by have := (ha z hz).1; rintro rfl; norm_num at this) (ha z hz).2, (ha z hz).1⟩
  obtain ⟨o, h1, h2⟩ := C81_calls_succeed (sp := exactBessel) hl hname (n := 2) (by norm_num) (fun _ z hz => exactBessel_at hz) hinc
    (by simp [leafFam]) (by simp [leafFam]) (by simp [leafFam]) hz K true
  refine ⟨o, h2, C106_shell h1 (C81_small hl h1 hp fun z hz => ⟨?_, (ha z hz).2⟩)⟩
  have := (ha z hz).1
  norm_num at this ⊢
  linarith

/-- The relations exclude wrong gradients: all ones would need `Σ r_j = k0`, which fails for the coated sphere. -/
example : lengthTerm leafCoat (WithLp.toLp 2 fun _ => 1) = -1 / 4 ∧ indexTerm leafCoat (WithLp.toLp 2 fun _ => 1) = 27 / 2 := by
  constructor <;> simp [lengthTerm, indexTerm, leafCoat, Fin.sum_univ_two] <;> norm_num

end MieDiff
