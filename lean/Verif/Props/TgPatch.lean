import Verif.Model.TgPatch

/-!
# C72: the patched torchgdm linear system
-/

namespace MieDiff

open Finset

/-- First row of block `b` of a block structure with the given sizes. -/
def blockStart (sizes : List ℕ) (b : ℕ) : ℕ := (sizes.take b).sum

theorem blockDiag_append (bs : List Mat) (b : Mat) :
    blockDiag (bs ++ [b]) =
      { rows := (blockDiag bs).rows + b.rows
        cols := (blockDiag bs).cols + b.cols
        get := fun i j =>
          if i < (blockDiag bs).rows ∧ j < (blockDiag bs).cols then (blockDiag bs).get i j
          else if (blockDiag bs).rows ≤ i ∧ (blockDiag bs).cols ≤ j then
            b.get (i - (blockDiag bs).rows) (j - (blockDiag bs).cols)
          else 0 } := by
  unfold blockDiag
  rw [List.foldl_append]
  rfl

theorem blockDiag_rows (bs : List Mat) : (blockDiag bs).rows = (bs.map Mat.rows).sum := by
  induction bs using List.reverseRecOn with
  | nil => rfl
  | append_singleton bs b ih => rw [blockDiag_append]; simp [ih]

theorem blockDiag_cols (bs : List Mat) : (blockDiag bs).cols = (bs.map Mat.cols).sum := by
  induction bs using List.reverseRecOn with
  | nil => rfl
  | append_singleton bs b ih => rw [blockDiag_append]; simp [ih]

theorem blockStart_append {sizes : List ℕ} {n b : ℕ} (hb : b ≤ sizes.length) :
    blockStart (sizes ++ [n]) b = blockStart sizes b := by
  unfold blockStart
  rw [List.take_append_of_le_length hb]

theorem blockStart_length (sizes : List ℕ) : blockStart sizes sizes.length = sizes.sum := by
  simp [blockStart]

theorem blockStart_add_lt {sizes : List ℕ} {b n s : ℕ} (hb : sizes[b]? = some n) (hs : s < n) :
    blockStart sizes b + s < sizes.sum := by
  induction sizes using List.reverseRecOn with
  | nil => simp at hb
  | append_singleton l m ih =>
    rcases lt_or_ge b l.length with h | h
    · rw [List.getElem?_append_left h] at hb
      rw [blockStart_append h.le]
      have := ih hb
      simp
      omega
    · rw [List.getElem?_append_right h] at hb
      have hb0 : b = l.length := by
        by_contra hne
        have : 0 < b - l.length := by omega
        rw [List.getElem?_eq_none (by simp; omega)] at hb
        simp at hb
      subst hb0
      simp at hb
      subst hb
      rw [blockStart_append le_rfl, blockStart_length]
      simp [hs]

/-- Entry of a block-diagonal matrix. -/
theorem blockDiag_get {bs : List Mat} (hsq : ∀ m ∈ bs, m.cols = m.rows) {b c s t : ℕ} {mb mc : Mat}
    (hb : bs[b]? = some mb) (hc : bs[c]? = some mc) (hs : s < mb.rows) (ht : t < mc.rows) :
    (blockDiag bs).get (blockStart (bs.map Mat.rows) b + s) (blockStart (bs.map Mat.rows) c + t) =
      if b = c then mb.get s t else 0 := by
  induction bs using List.reverseRecOn with
  | nil => simp at hb
  | append_singleton l m ih =>
    have hcols : (l.map Mat.cols) = l.map Mat.rows :=
      List.map_congr_left fun x hx => hsq x (by simp [hx])
    have hr := blockDiag_rows l
    have hcl := blockDiag_cols l
    rw [hcols] at hcl
    have key : ∀ {b s : ℕ} {mb : Mat}, (l ++ [m])[b]? = some mb → s < mb.rows →
        (l[b]? = some mb ∧ blockStart (l.map Mat.rows ++ [m.rows]) b + s < (l.map Mat.rows).sum ∧ b < l.length ∧
          blockStart (l.map Mat.rows ++ [m.rows]) b = blockStart (l.map Mat.rows) b) ∨
        (b = l.length ∧ mb = m ∧ blockStart (l.map Mat.rows ++ [m.rows]) b = (l.map Mat.rows).sum) := by
      intro b s mb hb hs
      rcases lt_or_ge b l.length with h | h
      · rw [List.getElem?_append_left h] at hb
        have h1 : blockStart (l.map Mat.rows ++ [m.rows]) b = blockStart (l.map Mat.rows) b :=
          blockStart_append (by simpa using h.le)
        refine .inl ⟨hb, ?_, h, h1⟩
        rw [h1]
        exact blockStart_add_lt (n := mb.rows) (by rw [List.getElem?_map, hb]; rfl) hs
      · rw [List.getElem?_append_right h] at hb
        have hb0 : b = l.length := by
          by_contra hne
          rw [List.getElem?_eq_none (by simp; omega)] at hb
          simp at hb
        subst hb0
        simp at hb
        refine .inr ⟨rfl, hb.symm, ?_⟩
        rw [blockStart_append (by simp)]
        have := blockStart_length (l.map Mat.rows)
        rwa [List.length_map] at this
    rw [blockDiag_append]
    simp only [List.map_append, List.map_cons, List.map_nil]
    rcases key hb hs with ⟨b1, b2, b3, b4⟩ | ⟨b1, b2, b3⟩ <;> rcases key hc ht with ⟨c1, c2, c3, c4⟩ | ⟨c1, c2, c3⟩
    · rw [if_pos (by rw [hr, hcl]; exact ⟨b2, c2⟩), b4, c4]
      exact ih (fun x hx => hsq x (by simp [hx])) b1 c1
    · rw [if_neg (by rw [hr, hcl]; omega), if_neg (by rw [hr, hcl]; omega), if_neg (by omega)]
    · rw [if_neg (by rw [hr, hcl]; omega), if_neg (by rw [hr, hcl]; omega), if_neg (by omega)]
    · rw [if_neg (by rw [hr, hcl]; omega), if_pos (by rw [hr, hcl]; omega), if_pos (by omega), b2, b3, c3, hr, hcl]
      simp

/-- A sum over all components, block by block. -/
theorem sum_blocks (sizes : List ℕ) (g : ℕ → ℂ) :
    ∑ l ∈ range sizes.sum, g l =
      ∑ c ∈ range sizes.length, ∑ t ∈ range (sizes.getD c 0), g (blockStart sizes c + t) := by
  induction sizes using List.reverseRecOn with
  | nil => simp
  | append_singleton l n ih =>
    rw [List.sum_append, List.length_append, List.length_singleton, sum_range_succ, List.sum_singleton, sum_range_add, ih,
      blockStart_append le_rfl, blockStart_length]
    congr 1
    · refine sum_congr rfl fun c hc => ?_
      rw [mem_range] at hc
      rw [blockStart_append hc.le, List.getD_eq_getElem?_getD, List.getD_eq_getElem?_getD, List.getElem?_append_left hc]
    · simp

theorem getD_rows {bs : List Mat} {c : ℕ} {mc : Mat} (hc : bs[c]? = some mc) : (bs.map Mat.rows).getD c 0 = mc.rows := by
  rw [List.getD_eq_getElem?_getD, List.getElem?_map, hc]
  rfl

/-- C72: the patched matrix couples the blocks.  Within one block it is the self term times the polarizability, between
different blocks the interaction times the polarizability of the source; the interaction of a block with itself is not used. -/
theorem C72_matrix (alphas selfs : List Mat) (G : Mat) (ha : ∀ m ∈ alphas, m.cols = m.rows)
    (hs : ∀ m ∈ selfs, m.cols = m.rows) (hsz : selfs.map Mat.rows = alphas.map Mat.rows)
    (hGr : G.rows = (alphas.map Mat.rows).sum) (hGc : G.cols = (alphas.map Mat.rows).sum) :
    ∃ M, gDotAlpha alphas selfs G = .ok M ∧ M.rows = (alphas.map Mat.rows).sum ∧ M.cols = (alphas.map Mat.rows).sum ∧
      ∀ b c mb mc sb s t, alphas[b]? = some mb → selfs[b]? = some sb → alphas[c]? = some mc → s < mb.rows → t < mc.rows →
        M.get (blockStart (alphas.map Mat.rows) b + s) (blockStart (alphas.map Mat.rows) c + t) =
          if b = c then ∑ u ∈ range mb.rows, sb.get s u * mb.get u t
          else ∑ u ∈ range mc.rows,
            G.get (blockStart (alphas.map Mat.rows) b + s) (blockStart (alphas.map Mat.rows) c + u) * mc.get u t := by
  have hcol : ∀ {bs : List Mat}, (∀ m ∈ bs, m.cols = m.rows) → (blockDiag bs).cols = (bs.map Mat.rows).sum := by
    intro bs h
    rw [blockDiag_cols]
    exact congrArg List.sum (List.map_congr_left h)
  have hones : (alphas.map onesLike).map Mat.rows = alphas.map Mat.rows := by
    rw [List.map_map]
    exact List.map_congr_left fun _ _ => rfl
  have hosq : ∀ m ∈ alphas.map onesLike, m.cols = m.rows := by
    intro m hm
    obtain ⟨x, hx, rfl⟩ := List.mem_map.1 hm
    exact ha x hx
  unfold gDotAlpha maskedFill0 addMat matMul
  simp only [blockDiag_rows, hcol ha, hcol hs, hcol hosq, hones, hsz, hGr, hGc, and_self, if_true, bind, Except.bind]
  refine ⟨_, rfl, rfl, rfl, ?_⟩
  intro b c mb mc sb s t hb hsb hc hs1 ht
  simp only
  have hsb' : sb.rows = mb.rows := by
    have h1 : (selfs.map Mat.rows)[b]? = some sb.rows := by rw [List.getElem?_map, hsb]; rfl
    have h2 : (alphas.map Mat.rows)[b]? = some mb.rows := by rw [List.getElem?_map, hb]; rfl
    rw [hsz, h2] at h1
    exact (Option.some.inj h1).symm
  have hlt : c < (alphas.map Mat.rows).length := by
    rw [List.length_map]
    exact (List.getElem?_eq_some_iff.1 hc).1
  rw [sum_blocks, sum_eq_single_of_mem c (mem_range.2 hlt)]
  · rw [getD_rows hc]
    have hpola : ∀ u < mc.rows, (blockDiag alphas).get (blockStart (alphas.map Mat.rows) c + u)
        (blockStart (alphas.map Mat.rows) c + t) = mc.get u t := by
      intro u hu
      rw [blockDiag_get ha hc hc hu ht, if_pos rfl]
    have hob : (alphas.map onesLike)[b]? = some (onesLike mb) := by rw [List.getElem?_map, hb]; rfl
    have hoc : (alphas.map onesLike)[c]? = some (onesLike mc) := by rw [List.getElem?_map, hc]; rfl
    have hmask : ∀ u < mc.rows, (blockDiag (alphas.map onesLike)).get (blockStart (alphas.map Mat.rows) b + s)
        (blockStart (alphas.map Mat.rows) c + u) = if b = c then 1 else 0 := by
      intro u hu
      have := blockDiag_get hosq hob hoc (s := s) (t := u) hs1 hu
      rw [hones] at this
      exact this
    have hself : ∀ u < mc.rows, (blockDiag selfs).get (blockStart (alphas.map Mat.rows) b + s)
        (blockStart (alphas.map Mat.rows) c + u) = if b = c then sb.get s u else 0 := by
      intro u hu
      have hlt' : c < selfs.length := by
        have := congrArg List.length hsz
        simp only [List.length_map] at this hlt
        omega
      obtain ⟨sc, hsc⟩ : ∃ sc, selfs[c]? = some sc := ⟨_, List.getElem?_eq_getElem hlt'⟩
      have hsc' : sc.rows = mc.rows := by
        have h1 : (selfs.map Mat.rows)[c]? = some sc.rows := by rw [List.getElem?_map, hsc]; rfl
        have h2 : (alphas.map Mat.rows)[c]? = some mc.rows := by rw [List.getElem?_map, hc]; rfl
        rw [hsz, h2] at h1
        exact (Option.some.inj h1).symm
      have := blockDiag_get hs hsb hsc (s := s) (t := u) (by omega) (by omega)
      rw [hsz] at this
      exact this
    rcases eq_or_ne b c with rfl | hne
    · rw [if_pos rfl]
      obtain rfl : mb = mc := by rw [hb] at hc; exact Option.some.inj hc
      refine sum_congr rfl fun u hu => ?_
      rw [mem_range] at hu
      rw [hmask u hu, hself u hu, hpola u hu]
      simp
    · rw [if_neg hne]
      refine sum_congr rfl fun u hu => ?_
      rw [mem_range] at hu
      rw [hmask u hu, hself u hu, hpola u hu]
      simp [hne]
  · intro c' hc' hne
    refine sum_eq_zero fun u hu => ?_
    have hlt' : c' < alphas.length := by simpa using hc'
    obtain ⟨mc', hmc'⟩ : ∃ mc', alphas[c']? = some mc' := ⟨_, List.getElem?_eq_getElem hlt'⟩
    rw [getD_rows hmc', mem_range] at hu
    rw [blockDiag_get ha hmc' hc hu ht, if_neg hne, mul_zero]

/-- C72: with that matrix, the system solved by torchgdm is the multiple-scattering problem: every block sees the
illumination, its own self term and the fields radiated by the other blocks. -/
theorem C72_coupled (alphas selfs : List Mat) (G : Mat) (ha : ∀ m ∈ alphas, m.cols = m.rows)
    (hs : ∀ m ∈ selfs, m.cols = m.rows) (hsz : selfs.map Mat.rows = alphas.map Mat.rows)
    (hGr : G.rows = (alphas.map Mat.rows).sum) (hGc : G.cols = (alphas.map Mat.rows).sum) :
    ∃ M, gDotAlpha alphas selfs G = .ok M ∧
      ∀ (f x : ℕ → ℂ) b mb sb s, alphas[b]? = some mb → selfs[b]? = some sb → s < mb.rows →
        let i := blockStart (alphas.map Mat.rows) b + s
        (x i - ∑ j ∈ range (alphas.map Mat.rows).sum, M.get i j * x j = f i ↔
          x i = f i +
            ∑ u ∈ range mb.rows, sb.get s u *
              ∑ t ∈ range mb.rows, mb.get u t * x (blockStart (alphas.map Mat.rows) b + t) +
            ∑ c ∈ (range alphas.length).erase b, ∑ u ∈ range ((alphas.map Mat.rows).getD c 0),
              G.get i (blockStart (alphas.map Mat.rows) c + u) *
                ∑ t ∈ range ((alphas.map Mat.rows).getD c 0),
                  (alphas.getD c ⟨0, 0, fun _ _ => 0⟩).get u t * x (blockStart (alphas.map Mat.rows) c + t)) := by
  obtain ⟨M, hM, -, -, hent⟩ := C72_matrix alphas selfs G ha hs hsz hGr hGc
  refine ⟨M, hM, ?_⟩
  intro f x b mb sb s hb hsb hs1 i
  have hbl : b ∈ range alphas.length := mem_range.2 (List.getElem?_eq_some_iff.1 hb).1
  have e : ∑ j ∈ range (alphas.map Mat.rows).sum, M.get i j * x j =
      (∑ u ∈ range mb.rows, sb.get s u * ∑ t ∈ range mb.rows, mb.get u t * x (blockStart (alphas.map Mat.rows) b + t)) +
      ∑ c ∈ (range alphas.length).erase b, ∑ u ∈ range ((alphas.map Mat.rows).getD c 0),
              G.get i (blockStart (alphas.map Mat.rows) c + u) *
                ∑ t ∈ range ((alphas.map Mat.rows).getD c 0),
                  (alphas.getD c ⟨0, 0, fun _ _ => 0⟩).get u t * x (blockStart (alphas.map Mat.rows) c + t) := by
    rw [sum_blocks, List.length_map, ← add_sum_erase _ _ hbl, getD_rows hb]
    congr 1
    · simp only [mul_sum]
      rw [sum_comm]
      refine sum_congr rfl fun t ht => ?_
      rw [mem_range] at ht
      rw [hent b b mb mb sb s t hb hsb hb hs1 ht, if_pos rfl, sum_mul]
      exact sum_congr rfl fun u _ => by ring
    · refine sum_congr rfl fun c hc => ?_
      obtain ⟨hne, hc⟩ := mem_erase.1 hc
      rw [mem_range] at hc
      have hmc : alphas[c]? = some (alphas.getD c ⟨0, 0, fun _ _ => 0⟩) := by
        rw [List.getD_eq_getElem?_getD, List.getElem?_eq_getElem hc]
        rfl
      rw [getD_rows hmc]
      simp only [mul_sum]
      rw [sum_comm]
      refine sum_congr rfl fun t ht => ?_
      rw [mem_range] at ht
      rw [hent b c mb _ sb s t hb hsb hmc hs1 ht, if_neg (Ne.symm hne), sum_mul]
      exact sum_congr rfl fun u _ => by ring
  rw [e]
  constructor <;> intro h <;> linear_combination h

/-! ## Fields at polarizable components -/

/-- Number of polarizable components before component `i`. -/
def rank (mask : List Bool) (i : ℕ) : ℕ := (mask.take i).count true

theorem nonzeroIdx_append (mask : List Bool) (b : Bool) :
    nonzeroIdx (mask ++ [b]) = nonzeroIdx mask ++ if b then [mask.length] else [] := by
  unfold nonzeroIdx
  rw [List.length_append, List.length_singleton, List.range_succ, List.filter_append]
  congr 1
  · refine List.filter_congr fun i hi => ?_
    rw [List.mem_range] at hi
    rw [List.getD_eq_getElem?_getD, List.getD_eq_getElem?_getD, List.getElem?_append_left hi]
  · cases b <;> simp

theorem nonzeroIdx_length (mask : List Bool) : (nonzeroIdx mask).length = mask.count true := by
  induction mask using List.reverseRecOn with
  | nil => rfl
  | append_singleton l b ih => rw [nonzeroIdx_append]; cases b <;> simp [ih]

theorem nonzeroIdx_mem {mask : List Bool} {i : ℕ} :
    i ∈ nonzeroIdx mask ↔ i < mask.length ∧ mask.getD i false = true := by
  simp [nonzeroIdx]

theorem nonzeroIdx_nodup (mask : List Bool) : (nonzeroIdx mask).Nodup := List.nodup_range.filter _

theorem nonzeroIdx_rank {mask : List Bool} {i : ℕ} (h : mask.getD i false = true) :
    (nonzeroIdx mask)[rank mask i]? = some i := by
  induction mask using List.reverseRecOn with
  | nil => simp at h
  | append_singleton l b ih =>
    rw [nonzeroIdx_append]
    rcases lt_or_ge i l.length with hi | hi
    · have h' : l.getD i false = true := by
        rw [List.getD_eq_getElem?_getD, List.getElem?_append_left hi] at h
        rwa [List.getD_eq_getElem?_getD]
      have hr : rank (l ++ [b]) i = rank l i := by
        unfold rank
        rw [List.take_append_of_le_length hi.le]
      have := ih h'
      rw [hr, List.getElem?_append_left (List.getElem?_eq_some_iff.1 this).1, this]
    · rw [List.getD_eq_getElem?_getD, List.getElem?_append_right hi] at h
      have hi0 : i = l.length := by
        by_contra hne
        rw [List.getElem?_eq_none (by simp; omega)] at h
        simp at h
      subst hi0
      simp at h
      subst h
      have hr : rank (l ++ [true]) l.length = (nonzeroIdx l).length := by
        unfold rank
        rw [List.take_append_of_le_length le_rfl, List.take_length, nonzeroIdx_length]
      rw [hr]
      simp

theorem rank_lt {mask : List Bool} {i : ℕ} (h : mask.getD i false = true) : rank mask i < mask.count true := by
  rw [← nonzeroIdx_length]
  exact (List.getElem?_eq_some_iff.1 (nonzeroIdx_rank h)).1

theorem foldl_set_length (ps : List (ℕ × ℂ)) (base : List ℂ) :
    (ps.foldl (fun b iv => b.set iv.1 iv.2) base).length = base.length := by
  induction ps generalizing base with
  | nil => rfl
  | cons p ps ih => rw [List.foldl_cons, ih, List.length_set]

theorem foldl_set_notMem (idx : List ℕ) (src base : List ℂ) {i : ℕ} (hi : i ∉ idx) :
    ((idx.zip src).foldl (fun b iv => b.set iv.1 iv.2) base).getD i 0 = base.getD i 0 := by
  induction idx generalizing src base with
  | nil => rfl
  | cons j idx ih =>
    cases src with
    | nil => rfl
    | cons v src =>
      rw [List.zip_cons_cons, List.foldl_cons, ih src _ (fun h => hi (List.mem_cons_of_mem _ h))]
      have : j ≠ i := fun h => hi (by simp [h])
      rw [List.getD_eq_getElem?_getD, List.getElem?_set_ne this, ← List.getD_eq_getElem?_getD]

theorem foldl_set_mem (idx : List ℕ) (src base : List ℂ) (hn : idx.Nodup) {i k : ℕ} (hk : idx[k]? = some i)
    (hsrc : k < src.length) (hb : i < base.length) :
    ((idx.zip src).foldl (fun b iv => b.set iv.1 iv.2) base).getD i 0 = src.getD k 0 := by
  induction idx generalizing src base k with
  | nil => simp at hk
  | cons j idx ih =>
    cases src with
    | nil => simp at hsrc
    | cons v src =>
      rw [List.zip_cons_cons, List.foldl_cons]
      rw [List.nodup_cons] at hn
      cases k with
      | zero =>
        simp at hk
        subst hk
        rw [foldl_set_notMem _ _ _ hn.1]
        simp [List.getD_eq_getElem?_getD, hb]
      | succ k =>
        simp at hk
        rw [ih src _ hn.2 hk (by simpa using hsrc) (by simpa using hb)]
        simp [List.getD_eq_getElem?_getD]

/-- C72: the solution is put back at the polarizable components, in order, and every other component is zero.  Too short a
solution is an error. -/
theorem C72_zero_fill (nIll nPos : ℕ) (mask : List Bool) (vals : List ℂ) (hm : mask.length = nIll * nPos * 6) :
    (vals.length < mask.count true → zeroFillFields nIll nPos mask vals = .error .runtimeError) ∧
    (mask.count true ≤ vals.length → ∃ full, zeroFillFields nIll nPos mask vals = .ok full ∧
      full.length = nIll * nPos * 6 ∧
      ∀ i, full.getD i 0 = if mask.getD i false then vals.getD (rank mask i) 0 else 0) := by
  constructor
  · intro h
    unfold zeroFillFields scatter0
    rw [if_pos (.inl (by rwa [nonzeroIdx_length]))]
  · intro h
    have hno : ¬ (vals.length < (nonzeroIdx mask).length ∨
        ∃ i ∈ nonzeroIdx mask, (List.replicate (nIll * nPos * 6) (0 : ℂ)).length ≤ i) := by
      rintro (h1 | ⟨i, hi, h1⟩)
      · rw [nonzeroIdx_length] at h1
        omega
      · have := (nonzeroIdx_mem.1 hi).1
        rw [List.length_replicate] at h1
        omega
    unfold zeroFillFields scatter0
    rw [if_neg hno]
    refine ⟨_, rfl, by rw [foldl_set_length, List.length_replicate], fun i => ?_⟩
    split_ifs with hi
    · have hr := rank_lt hi
      have hil : i < mask.length := (nonzeroIdx_mem.1 (List.mem_of_getElem? (nonzeroIdx_rank hi))).1
      exact foldl_set_mem _ _ _ (nonzeroIdx_nodup mask) (nonzeroIdx_rank hi) (by omega) (by
        rw [List.length_replicate]; omega)
    · rw [foldl_set_notMem _ _ _ (fun h => hi (nonzeroIdx_mem.1 h).2)]
      rw [List.getD_eq_getElem?_getD, List.getElem?_replicate]
      split_ifs <;> rfl

theorem flatten_getD {α : Type*} (ll : List (List α)) (L : ℕ) (hL : ∀ l ∈ ll, l.length = L) {q i : ℕ} {l : List α}
    (hq : ll[q]? = some l) (hi : i < L) (a : α) : ll.flatten.getD (q * L + i) a = l.getD i a := by
  induction ll generalizing q with
  | nil => simp at hq
  | cons m ll ih =>
    have hm : m.length = L := hL m (by simp)
    rw [List.flatten_cons]
    cases q with
    | zero =>
      simp at hq
      subst hq
      rw [Nat.zero_mul, Nat.zero_add, List.getD_eq_getElem?_getD, List.getElem?_append_left (by omega),
        ← List.getD_eq_getElem?_getD]
    | succ q =>
      simp at hq
      have e : (q + 1) * L + i = L + (q * L + i) := by ring
      rw [List.getD_eq_getElem?_getD, List.getElem?_append_right (by rw [e]; omega), ← List.getD_eq_getElem?_getD, e, hm,
        Nat.add_sub_cancel_left]
      exact ih (fun l hl => hL l (by simp [hl])) hq

theorem rank_replicate (m : List Bool) {nIll q i : ℕ} (hq : q < nIll) (hi : i ≤ m.length) :
    rank (List.replicate nIll m).flatten (q * m.length + i) = q * m.count true + rank m i := by
  induction q generalizing nIll with
  | zero =>
    obtain ⟨n, rfl⟩ : ∃ n, nIll = n + 1 := ⟨nIll - 1, by omega⟩
    rw [List.replicate_succ, List.flatten_cons, Nat.zero_mul, Nat.zero_add, Nat.zero_mul, Nat.zero_add]
    unfold rank
    rw [List.take_append_of_le_length hi]
  | succ q ih =>
    obtain ⟨n, rfl⟩ : ∃ n, nIll = n + 1 := ⟨nIll - 1, by omega⟩
    have h := ih (nIll := n) (by omega)
    rw [List.replicate_succ, List.flatten_cons]
    unfold rank at h ⊢
    have e : (q + 1) * m.length + i = m.length + (q * m.length + i) := by ring
    rw [e, List.take_length_add_append, List.count_append, h]
    ring

theorem count_replicate_flatten (m : List Bool) (nIll : ℕ) :
    (List.replicate nIll m).flatten.count true = nIll * m.count true := by
  induction nIll with
  | zero => simp
  | succ n ih => rw [List.replicate_succ, List.flatten_cons, List.count_append, ih]; ring

/-- C72: `solve` returns, for every illumination, electric and magnetic fields whose polarizable components solve the linear
system and whose other components are zero. -/
theorem C72_solve {d : ℕ} (interact : Matrix (Fin d) (Fin d) ℂ) (hdet : interact.det ≠ 0) (f0 : List (Fin d → ℂ))
    (nPos : ℕ) (m : List Bool) (hm : m.length = nPos * 6) (hd : m.count true = d) :
    ∃ e h, tgSolve interact f0 nPos (List.replicate f0.length m).flatten = .ok (e, h) ∧
      ∀ q f, f0[q]? = some f → ∃ x : Fin d → ℂ, interact.mulVec x = f ∧
        ∀ p < nPos, ∀ c : Fin 3,
          (∀ hc : m.getD (p * 6 + c) false = true, e q p c = x ⟨rank m (p * 6 + c), hd ▸ rank_lt hc⟩) ∧
          (m.getD (p * 6 + c) false = false → e q p c = 0) ∧
          (∀ hc : m.getD (p * 6 + 3 + c) false = true, h q p c = x ⟨rank m (p * 6 + 3 + c), hd ▸ rank_lt hc⟩) ∧
          (m.getD (p * 6 + 3 + c) false = false → h q p c = 0) := by
  set vals := (f0.map fun f => interact⁻¹.mulVec f).flatMap fun x => List.ofFn x with hvals
  have hvl : vals.length = f0.length * d := by
    simp [hvals, List.length_flatMap, Function.comp_def]
  have hml : (List.replicate f0.length m).flatten.length = f0.length * nPos * 6 := by
    simp [List.length_flatten, hm, mul_assoc]
  obtain ⟨full, hfull, -, hget⟩ := (C72_zero_fill f0.length nPos (List.replicate f0.length m).flatten vals hml).2
    (by rw [count_replicate_flatten, hd, hvl])
  refine ⟨(chunkEH nPos full).1, (chunkEH nPos full).2, ?_, ?_⟩
  · unfold tgSolve
    simp only [← hvals, hfull]
    rfl
  intro q f hq
  have hql : q < f0.length := (List.getElem?_eq_some_iff.1 hq).1
  refine ⟨interact⁻¹.mulVec f, ?_, ?_⟩
  · rw [Matrix.mulVec_mulVec, Matrix.mul_nonsing_inv _ (isUnit_iff_ne_zero.2 hdet), Matrix.one_mulVec]
  intro p hp c
  have key : ∀ i, i < nPos * 6 → full.getD (q * (nPos * 6) + i) 0 =
      if m.getD i false then (List.ofFn (interact⁻¹.mulVec f)).getD (rank m i) 0 else 0 := by
    intro i hi
    rw [hget, flatten_getD (List.replicate f0.length m) (nPos * 6) (fun l hl => by
      rw [List.eq_of_mem_replicate hl, hm]) (q := q) (l := m) (by rw [List.getElem?_replicate, if_pos hql]) hi]
    split_ifs with hmi
    · have hr := rank_lt hmi
      have : rank (List.replicate f0.length m).flatten (q * (nPos * 6) + i) = q * d + rank m i := by
        rw [← hm, rank_replicate m hql (by omega), hd]
      rw [this, hvals, List.flatMap_def]
      refine flatten_getD _ d ?_ ?_ (by omega) 0
      · intro l hl
        obtain ⟨x, -, rfl⟩ := List.mem_map.1 hl
        simp
      · simp [hq]
    · rfl
  have hce := c.2
  have ie : (q * nPos + p) * 6 + (c : ℕ) = q * (nPos * 6) + (p * 6 + c) := by ring
  have ih : (q * nPos + p) * 6 + 3 + (c : ℕ) = q * (nPos * 6) + (p * 6 + 3 + c) := by ring
  have ke := key (p * 6 + c) (by omega)
  have kh := key (p * 6 + 3 + c) (by omega)
  have hx : ∀ r (hr : r < d), (List.ofFn (interact⁻¹.mulVec f)).getD r 0 = interact⁻¹.mulVec f ⟨r, hr⟩ := by
    intro r hr
    rw [List.getD_eq_getElem?_getD, List.getElem?_ofFn, dif_pos hr]
    rfl
  refine ⟨fun hc => ?_, fun hc => ?_, fun hc => ?_, fun hc => ?_⟩
  · simp only [chunkEH, ie, ke, hc, if_true]
    exact hx _ _
  · simp only [chunkEH, ie, ke, hc]
    rfl
  · simp only [chunkEH, ih, kh, hc, if_true]
    exact hx _ _
  · simp only [chunkEH, ih, kh, hc]
    rfl

/-- Two blocks of different size. -/
noncomputable def demoBlocks : List Mat := [⟨1, 1, fun _ _ => 2⟩, ⟨2, 2, fun i j => if i = j then 3 else 1⟩]

example : ∃ M, gDotAlpha demoBlocks [⟨1, 1, fun _ _ => 5⟩, ⟨2, 2, fun _ _ => 7⟩] ⟨3, 3, fun i j => i + 10 * j⟩ = .ok M ∧
    M.get 0 0 = 10 ∧ M.get 0 1 = 10 * 3 + 20 * 1 ∧ M.get 2 1 = 28 := by
  obtain ⟨M, hM, -, -, h⟩ := C72_matrix demoBlocks [⟨1, 1, fun _ _ => 5⟩, ⟨2, 2, fun _ _ => 7⟩] ⟨3, 3, fun i j => i + 10 * j⟩
    (by simp [demoBlocks]) (by simp) (by simp [demoBlocks]) (by simp [demoBlocks]) (by simp [demoBlocks])
  refine ⟨M, hM, ?_, ?_, ?_⟩
  · have := h 0 0 _ _ _ 0 0 rfl rfl rfl (by norm_num) (by norm_num)
    simp only [blockStart] at this
    norm_num [Finset.sum_range_succ] at this
    exact this
  · have := h 0 1 _ _ _ 0 0 rfl rfl rfl (by norm_num) (by norm_num)
    simp only [blockStart, demoBlocks] at this
    norm_num [Finset.sum_range_succ] at this
    rw [this]
    norm_num
  · have := h 1 1 _ _ _ 1 0 rfl rfl rfl (by norm_num) (by norm_num)
    simp only [blockStart, demoBlocks] at this
    norm_num [Finset.sum_range_succ] at this
    rw [this]

/-- Two illuminations, two positions; the second position has only an electric response. -/
example : ∃ e h, tgSolve (2 : Matrix (Fin 9) (Fin 9) ℂ) [fun i => i, fun _ => 4] 2
    (List.replicate 2 [true, true, true, true, true, true, true, true, true, false, false, false]).flatten = .ok (e, h) ∧
    e 1 1 0 = 2 ∧ h 0 1 0 = 0 := by
  have hdet : (2 : Matrix (Fin 9) (Fin 9) ℂ).det ≠ 0 := by
    rw [← Matrix.diagonal_ofNat', Matrix.det_diagonal]
    simp
  obtain ⟨e, h, hr, hs⟩ := C72_solve (2 : Matrix (Fin 9) (Fin 9) ℂ) hdet [fun i => i, fun _ => 4] 2
    [true, true, true, true, true, true, true, true, true, false, false, false] rfl rfl
  refine ⟨e, h, hr, ?_, ?_⟩
  · obtain ⟨x, hx, hf⟩ := hs 1 _ rfl
    have h1 := (hf 1 (by norm_num) 0).1 rfl
    rw [h1]
    have h2 := congrFun hx ⟨6, by norm_num⟩
    rw [← Matrix.diagonal_ofNat', Matrix.mulVec_diagonal] at h2
    have h3 : x ⟨6, by norm_num⟩ = 2 := by
      have h4 : 2 * x ⟨6, by norm_num⟩ = 4 := h2
      linear_combination h4 / 2
    exact h3
  · obtain ⟨x, -, hf⟩ := hs 0 _ rfl
    exact (hf 1 (by norm_num) 0).2.2.2 rfl

end MieDiff
