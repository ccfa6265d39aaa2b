import Verif.Model.Addr
import Verif.Lemmas.Radix
import Mathlib.Data.List.GetD
namespace Verif.Addr
open Verif.Spec Verif.Radix

theorem npRepeat_length (l : List Nat) (r : Nat) : (npRepeat l r).length = l.length * r := by
  induction l with
  | nil => simp [npRepeat]
  | cons a l ih =>
    have : npRepeat (a :: l) r = List.replicate r a ++ npRepeat l r := rfl
    rw [this, List.length_append, ih]; simp; ring

theorem npRepeat_getD (l : List Nat) (r k : Nat) (h : k < l.length * r) :
    (npRepeat l r).getD k 0 = l.getD (k / r) 0 := by
  induction l generalizing k with
  | nil => simp at h
  | cons a l ih =>
    have hr : 0 < r := by
      rcases Nat.eq_zero_or_pos r with h0 | h0
      · rw [h0] at h; omega
      · exact h0
    have e : npRepeat (a :: l) r = List.replicate r a ++ npRepeat l r := rfl
    rw [e]
    by_cases hk : k < r
    · rw [List.getD_append _ _ _ _ (by simpa using hk), Nat.div_eq_of_lt hk]
      simp [hk]
    · rw [List.getD_append_right _ _ _ _ (by simpa using hk)]
      simp only [List.length_replicate]
      rw [ih (k - r) (by simp only [List.length_cons, Nat.add_mul] at h; omega)]
      have : k / r = (k - r) / r + 1 := by
        rw [← Nat.add_div_right _ hr]; congr 1; omega
      rw [this, List.getD_cons_succ]

theorem npTile_length (l : List Nat) (t : Nat) : (npTile l t).length = t * l.length := by
  simp [npTile]

theorem npTile_getD (l : List Nat) (t k : Nat) (h : k < t * l.length) :
    (npTile l t).getD k 0 = l.getD (k % l.length) 0 := by
  induction t generalizing k with
  | zero => simp at h
  | succ t ih =>
    have e : npTile l (t + 1) = l ++ npTile l t := by simp [npTile, List.replicate_succ]
    rw [e]
    by_cases hk : k < l.length
    · rw [List.getD_append _ _ _ _ hk, Nat.mod_eq_of_lt hk]
    · rw [List.getD_append_right _ _ _ _ (by omega), ih _ (by rw [Nat.add_mul] at h; omega)]
      congr 1
      rw [← Nat.mod_eq_sub_mod (by omega)]

theorem prod_split (col : List Nat) (i : Nat) (hi : i < col.length) :
    col.prod = (col.take i).prod * (col.getD i 0 * (col.drop (i + 1)).prod) := by
  conv_lhs => rw [← List.take_append_drop i col, List.prod_append, List.drop_eq_getElem_cons hi, List.prod_cons]
  simp [hi]

theorem addrsOf_length (col : List Nat) (i : Nat) (hi : i < col.length) :
    (addrsOf col i).length = col.prod := by
  unfold addrsOf
  rw [npTile_length, npRepeat_length, List.length_range, prod_split col i hi]
  ring

theorem addrsOf_getD (col : List Nat) (i k : Nat) (hi : i < col.length) (hk : k < col.prod) :
    (addrsOf col i).getD k 0 = (digits col k).getD i 0 := by
  rw [digits_getD col k i hi]
  have hp := prod_split col i hi
  have hr : (npRepeat (List.range (col.getD i 0)) (col.take i).prod).length = col.getD i 0 * (col.take i).prod := by
    rw [npRepeat_length, List.length_range]
  unfold addrsOf
  rw [npTile_getD _ _ _ (by rw [hr]; rw [hp] at hk; convert hk using 1; ring), hr]
  have hpos : 0 < col.getD i 0 * (col.take i).prod := by
    rcases Nat.eq_zero_or_pos (col.getD i 0 * (col.take i).prod) with h0 | h0
    · have : col.prod = 0 := by rw [hp]; calc
        _ = (col.getD i 0 * (col.take i).prod) * (col.drop (i + 1)).prod := by ring
        _ = 0 := by rw [h0]; simp
      omega
    · exact h0
  rw [npRepeat_getD _ _ _ (by rw [List.length_range]; exact Nat.mod_lt _ hpos)]
  rw [Nat.mul_comm (col.getD i 0), Nat.mod_mul_right_div_self]
  have hlt : k / (col.take i).prod % col.getD i 0 < col.getD i 0 := by
    apply Nat.mod_lt
    exact Nat.pos_of_mul_pos_right hpos
  rw [List.getD_eq_getElem _ _ (by simpa using hlt), List.getElem_range]

/-! ### tiling of the flat arrays -/

/-- offset of a rootspace -/
def off (cols : List (List Nat)) (r : Nat) : Nat := ((cols.take r).map List.prod).sum

theorem off_succ (cols : List (List Nat)) (r : Nat) (h : r < cols.length) :
    off cols (r + 1) = off cols r + (cols.getD r []).prod := by
  unfold off
  rw [List.take_succ_eq_append_getElem h]
  simp [h]

theorem off_all (cols : List (List Nat)) : off cols cols.length = (cols.map List.prod).sum := by
  simp [off]

theorem off_mono (cols : List (List Nat)) {r s : Nat} (h : r ≤ s) (hs : s ≤ cols.length) :
    off cols r ≤ off cols s := by
  induction s, h using Nat.le_induction with
  | base => exact Nat.le_refl _
  | succ s hrs ih =>
    rw [off_succ cols s (by omega)]
    have := ih (by omega)
    omega

theorem off_find (cols : List (List Nat)) (k m : Nat) (hm : m ≤ cols.length) (hk : k < off cols m) :
    ∃ r k', r < m ∧ k' < (cols.getD r []).prod ∧ k = off cols r + k' := by
  induction m with
  | zero => simp [off] at hk
  | succ m ih =>
    by_cases h : k < off cols m
    · obtain ⟨r, k', h1, h2, h3⟩ := ih (by omega) h
      exact ⟨r, k', by omega, h2, h3⟩
    · rw [off_succ cols m (by omega)] at hk
      exact ⟨m, k - off cols m, by omega, by omega, by omega⟩

theorem flatMap_off (cols : List (List Nat)) (g : Nat → List Nat)
    (hg : ∀ r, r < cols.length → (g r).length = (cols.getD r []).prod) (m : Nat) (hm : m ≤ cols.length) :
    ((List.range m).flatMap g).length = off cols m := by
  induction m with
  | zero => simp [off]
  | succ m ih =>
    rw [List.range_succ, List.flatMap_append, List.length_append, ih (by omega), off_succ cols m (by omega)]
    simp only [List.flatMap_cons, List.flatMap_nil, List.append_nil]
    rw [hg m (by omega)]

theorem flatMap_getD (cols : List (List Nat)) (g : Nat → List Nat)
    (hg : ∀ r, r < cols.length → (g r).length = (cols.getD r []).prod) (m : Nat) (hm : m ≤ cols.length)
    (r k' : Nat) (hr : r < m) (hk : k' < (cols.getD r []).prod) :
    ((List.range m).flatMap g).getD (off cols r + k') 0 = (g r).getD k' 0 := by
  induction m with
  | zero => omega
  | succ m ih =>
    rw [List.range_succ, List.flatMap_append]
    have hl := flatMap_off cols g hg m (by omega)
    by_cases h : r < m
    · have : off cols r + k' < off cols m := by
        have := off_mono cols (show r + 1 ≤ m by omega) (by omega)
        rw [off_succ cols r (by omega)] at this
        omega
      rw [List.getD_append _ _ _ _ (by omega)]
      exact ih (by omega) h
    · have : r = m := by omega
      subst this
      rw [List.getD_append_right _ _ _ _ (by omega), hl]
      simp

theorem sliceAssign_tile {α : Type} (P Z v : List α) (h : v.length ≤ Z.length) :
    sliceAssign (P ++ Z) P.length (P.length + v.length) v = some ((P ++ v) ++ Z.drop v.length) := by
  unfold sliceAssign
  rw [if_pos ⟨by omega, by simp; omega, by omega⟩]
  simp [List.drop_append]

theorem npCumsum_getD (l : List Nat) (i : Nat) (h : i < l.length) :
    (npCumsum l).getD i 0 = (l.take (i + 1)).sum := by
  simp [npCumsum, h]

theorem mapM_some {α β : Type} (l : List α) (f : α → Option β) (g : α → β) (h : ∀ a ∈ l, f a = some (g a)) :
    l.mapM f = some (l.map g) := by
  induction l with
  | nil => rfl
  | cons a l ih =>
    rw [List.mapM_cons, h a (by simp), ih (fun b hb => h b (by simp [hb]))]
    rfl

theorem addr_inv (nfrags : Nat) (cols : List (List Nat)) (hc : ∀ c ∈ cols, c.length = nfrags) (m : Nat)
    (hm : m ≤ cols.length) :
    (List.range m).foldl (addrStep cols) (some (List.replicate (off cols cols.length) 0,
        List.replicate nfrags (List.replicate (off cols cols.length) 0))) =
      some ((List.range m).flatMap (fun r => List.replicate (cols.getD r []).prod r) ++
          List.replicate (off cols cols.length - off cols m) 0,
        (List.range nfrags).map (fun i => (List.range m).flatMap (fun r => addrsOf (cols.getD r []) i) ++
          List.replicate (off cols cols.length - off cols m) 0)) := by
  induction m with
  | zero =>
    have : off cols 0 = 0 := by simp [off]
    simp [this]
  | succ m ih =>
    rw [List.range_succ, List.foldl_append, ih (by omega)]
    simp only [List.foldl_cons, List.foldl_nil]
    have hmem : cols.getD m [] ∈ cols := by
      rw [List.getD_eq_getElem _ _ (by omega)]; exact List.getElem_mem _
    have hcl := hc _ hmem
    have hoff := off_succ cols m (by omega)
    have hoffle := off_mono cols (show m + 1 ≤ cols.length by omega) (Nat.le_refl _)
    have hj : (npCumsum (cols.map List.prod)).getD m 0 = off cols m + (cols.getD m []).prod := by
      rw [npCumsum_getD _ _ (by simp; omega), ← hoff, off, List.map_take]
    have hi : (cols.map List.prod).getD m 0 = (cols.getD m []).prod := by
      simp [show m < cols.length by omega]
    have ij : off cols m + (cols.getD m []).prod - (cols.getD m []).prod = off cols m := by omega
    have ji : off cols m + (cols.getD m []).prod - off cols m = (cols.getD m []).prod := by omega
    unfold addrStep
    simp only [Option.bind_some, hj, hi, ij, ji]
    rw [mapM_some _ _ (fun x => (List.range m ++ [m]).flatMap (fun r => addrsOf (cols.getD r []) x.2) ++
      List.replicate (off cols cols.length - off cols (m + 1)) 0)]
    · simp only [Option.bind_some]
      have hl := flatMap_off cols (fun r => List.replicate (cols.getD r []).prod r) (by simp) m (by omega)
      have := sliceAssign_tile ((List.range m).flatMap (fun r => List.replicate (cols.getD r []).prod r))
        (List.replicate (off cols cols.length - off cols m) 0) (List.replicate (cols.getD m []).prod m)
        (by rw [List.length_replicate, List.length_replicate]; omega)
      rw [hl, List.length_replicate] at this
      rw [this, Option.map_some]
      congr 1
      rw [Prod.mk.injEq]
      constructor
      · rw [List.flatMap_append, List.drop_replicate, hoff]
        simp only [List.flatMap_cons, List.flatMap_nil, List.append_nil]
        congr 2
        omega
      · apply List.ext_getElem
        · simp
        · intro i h1 h2
          simp
    · rintro ⟨row, i⟩ hmemr
      rw [List.mem_zipIdx_iff_getElem?] at hmemr
      simp only at hmemr
      rw [List.getElem?_map] at hmemr
      have hi' : i < nfrags := by
        by_contra hge
        rw [List.getElem?_eq_none (by simpa using hge)] at hmemr
        simp at hmemr
      rw [List.getElem?_range hi'] at hmemr
      simp only [Option.map_some, Option.some.injEq] at hmemr
      subst hmemr
      have hg : ∀ r, r < cols.length → (addrsOf (cols.getD r []) i).length = (cols.getD r []).prod := by
        intro r hr
        apply addrsOf_length
        have : cols.getD r [] ∈ cols := by
          rw [List.getD_eq_getElem _ _ hr]; exact List.getElem_mem _
        rw [hc _ this]; exact hi'
      have hl := flatMap_off cols (fun r => addrsOf (cols.getD r []) i) hg m (by omega)
      have := sliceAssign_tile ((List.range m).flatMap (fun r => addrsOf (cols.getD r []) i))
        (List.replicate (off cols cols.length - off cols m) 0) (addrsOf (cols.getD m []) i)
        (by rw [hg m (by omega), List.length_replicate]; omega)
      rw [hl, hg m (by omega)] at this
      simp only [] at this ⊢
      rw [this]
      congr 1
      rw [List.flatMap_append, List.drop_replicate, hoff]
      simp only [List.flatMap_cons, List.flatMap_nil, List.append_nil]
      congr 2
      omega

theorem addr_closed (nfrags : Nat) (cols : List (List Nat)) (hc : ∀ c ∈ cols, c.length = nfrags) :
    getRootaddrFragaddr nfrags cols =
      some ((List.range cols.length).flatMap (fun r => List.replicate (cols.getD r []).prod r),
        (List.range nfrags).map (fun i => (List.range cols.length).flatMap (fun r => addrsOf (cols.getD r []) i))) := by
  unfold getRootaddrFragaddr
  rw [← off_all]
  have := addr_inv nfrags cols hc cols.length (Nat.le_refl _)
  simp only [Nat.sub_self, List.replicate_zero, List.append_nil] at this
  exact this

end Verif.Addr
