import Verif.Model.SymBlocks
import Verif.Spec.SymBlocks
import Mathlib.Tactic.Common
import Mathlib.Data.List.GetD
import Mathlib.Data.List.Nodup
import Mathlib.Data.List.Range
import Mathlib.Algebra.Order.Group.Defs
import Mathlib.Algebra.BigOperators.Group.List.Basic
import Mathlib.Order.Basic
/-!
# C49: symmetry-block assembly returns eigenvectors in the original product order
-/
namespace Verif.Props
open Verif.SymBlocks Verif.Spec.SymBlocks

namespace SymBlocks
variable {σ K E : Type}

theorem prodOff_cons (n : Nat) (ns : List Nat) (i : Nat) : prodOff (n :: ns) (i + 1) = n + prodOff ns i := by
  simp [prodOff]

theorem spaceOf_iff (nprods : List Nat) (p : Nat) (hp : p < nprods.sum) (i : Nat) :
    (prodOff nprods i ≤ p ∧ p < prodOff nprods i + nprods.getD i 0) ↔ spaceOf nprods p = i := by
  induction nprods generalizing p i with
  | nil => simp at hp
  | cons n ns ih =>
    rw [List.sum_cons] at hp
    rw [spaceOf]
    cases i with
    | zero =>
      simp only [prodOff, List.take_zero, List.sum_nil, List.getD_cons_zero]
      split <;> omega
    | succ i =>
      rw [prodOff_cons, List.getD_cons_succ]
      split
      · omega
      · rename_i h
        have := ih (p - n) (by omega) i
        omega

variable [DecidableEq σ]

theorem blockRows_eq (spacesym : List σ) (nprods : List Nat) (h : nprods.length = spacesym.length) (sym : σ) :
    blockRows spacesym nprods sym = (List.range nprods.sum).filter (fun p => decide (HasSym spacesym nprods sym p)) := by
  unfold blockRows
  apply List.filter_congr
  intro p hp
  rw [List.mem_range] at hp
  rw [Bool.eq_iff_iff]
  simp only [List.any_eq_true, List.mem_range, Bool.and_eq_true, decide_eq_true_eq]
  constructor
  · rintro ⟨i, hi, ⟨h1, h2⟩, h3⟩
    unfold HasSym
    rw [(spaceOf_iff nprods p hp i).1 ⟨h2, h3⟩]
    exact h1
  · intro h1
    unfold HasSym at h1
    have h2 := (spaceOf_iff nprods p hp _).2 rfl
    refine ⟨spaceOf nprods p, ?_, ⟨h1, h2.1⟩, h2.2⟩
    exact (List.getElem?_eq_some_iff.1 h1).1

theorem idxOf_filter_range (P : Nat → Bool) (n p : Nat) (hp : p < n) (h : P p = true) :
    ((List.range n).filter P).idxOf p = ((List.range p).filter P).length := by
  have : List.range n = List.range p ++ p :: (List.range' (p + 1) (n - p - 1)) := by
    rw [List.range_eq_range', List.range_eq_range', ← List.range'_succ]
    rw [show n - p - 1 + 1 = n - p from by omega]
    have := List.range'_append (s := 0) (m := p) (n := n - p) (step := 1)
    rw [Nat.one_mul, Nat.zero_add, show p + (n - p) = n from by omega] at this
    exact this.symm
  rw [this, List.filter_append, List.filter_cons, if_pos h, List.idxOf_append_of_notMem]
  · simp
  · simp

/-- The column labels of the block-diagonal matrix: block and column within it. -/
def labels (bs : List (Blk σ K E)) : List (Blk σ K E × Nat) := bs.flatMap (fun b => (List.range b.sol.ncol).map (fun j => (b, j)))

omit [DecidableEq σ] in
theorem blockDiag_spec [Zero K] (bs : List (Blk σ K E)) (hnd : (bs.flatMap (·.rows)).Nodup) (r c : Nat) (p : Nat)
    (hr : (bs.flatMap (·.rows))[r]? = some p) (b : Blk σ K E) (j : Nat) (hc : (labels bs)[c]? = some (b, j)) :
    blockDiag bs r c = if p ∈ b.rows then b.sol.c (b.rows.idxOf p) j else 0 := by
  induction bs generalizing r c with
  | nil => simp at hr
  | cons a bs ih =>
    rw [List.flatMap_cons] at hr hnd
    unfold labels at hc
    rw [List.flatMap_cons] at hc
    rw [List.nodup_append] at hnd
    rw [blockDiag]
    rw [List.getElem?_append] at hr hc
    have hb : ¬ c < a.sol.ncol → b ∈ bs := by
      intro h
      rw [if_neg (by simpa using h)] at hc
      have := List.mem_of_getElem? hc
      simp at this
      exact this.1
    by_cases h1 : r < a.rows.length
    · rw [if_pos h1]
      rw [if_pos h1] at hr
      have hpa : p ∈ a.rows := List.mem_of_getElem? hr
      by_cases h2 : c < a.sol.ncol
      · rw [if_pos h2]
        rw [if_pos (by simpa using h2)] at hc
        simp [List.getElem?_map, List.getElem?_range h2] at hc
        obtain ⟨rfl, rfl⟩ := hc
        rw [if_pos hpa]
        congr 1
        obtain ⟨h3, h4⟩ := List.getElem?_eq_some_iff.1 hr
        rw [← h4, List.Nodup.idxOf_getElem hnd.1]
      · rw [if_neg h2, if_neg]
        intro hpb
        exact hnd.2.2 p hpa p (List.mem_flatMap.2 ⟨b, hb h2, hpb⟩) rfl
    · rw [if_neg h1]
      rw [if_neg h1] at hr
      by_cases h2 : c < a.sol.ncol
      · rw [if_pos h2]
        rw [if_pos (by simpa using h2)] at hc
        simp [List.getElem?_map, List.getElem?_range h2] at hc
        obtain ⟨rfl, rfl⟩ := hc
        rw [if_neg]
        intro hpa
        exact hnd.2.2 p hpa p (List.mem_of_getElem? hr) rfl
      · rw [if_neg h2]
        rw [if_neg (by simpa using h2)] at hc
        exact ih hnd.2.1 _ _ hr (by simpa [labels] using hc)

/-- Sorting a permutation of `0, …, n-1` inverts it. -/
theorem argsort_perm (l idx : List Nat) (n : Nat) (hl : l.Perm (List.range n)) (h : IsArgsort l idx) (p : Nat) (hp : p < n) :
    l[idx.getD p 0]? = some p := by
  have hlen : l.length = n := by simpa using hl.length_eq
  have hidx : ∀ i ∈ idx, i < l.length := fun i hi => List.mem_range.1 (h.perm.mem_iff.1 hi)
  have key : idx.map (fun i => l.getD i 0) = List.range n := by
    apply List.Perm.eq_of_pairwise (le := (· ≤ ·))
    · intro a b _ _ h1 h2; omega
    · have := h.sorted
      rw [List.pairwise_map] at this ⊢
      refine this.imp_of_mem (fun {a b} ha hb hab => ?_)
      rw [List.getElem?_eq_getElem (hidx a ha), List.getElem?_eq_getElem (hidx b hb)] at hab
      rw [List.getD_eq_getElem _ _ (hidx a ha), List.getD_eq_getElem _ _ (hidx b hb)]
      exact hab _ rfl _ rfl
    · exact List.pairwise_le_range
    · refine (h.perm.map _).trans ?_
      rw [show (List.range l.length).map (fun i => l.getD i 0) = l from by
        apply List.ext_getElem (by simp)
        intro i h1 h2
        simp [List.getElem?_eq_getElem h2]]
      exact hl
  have hp' : p < idx.length := by
    have := h.perm.length_eq
    simp at this
    omega
  have h2 : (idx.map (fun i => l.getD i 0))[p]? = (List.range n)[p]? := by rw [key]
  rw [List.getElem?_map, List.getElem?_eq_getElem hp', List.getElem?_range hp] at h2
  simp only [Option.map_some, Option.some.injEq] at h2
  have h3 := hidx _ (List.getElem_mem hp')
  rw [List.getD_eq_getElem _ _ h3] at h2
  rw [List.getD_eq_getElem _ _ hp', List.getElem?_eq_getElem h3, h2]

theorem rows_perm (spacesym : List σ) (nprods : List Nat) (h : nprods.length = spacesym.length) (subset : List σ)
    (hnd : subset.Nodup) (hall : ∀ s, s ∈ spacesym → s ∈ subset) :
    (subset.flatMap (fun s => blockRows spacesym nprods s)).Perm (List.range nprods.sum) := by
  apply (List.perm_ext_iff_of_nodup ?_ List.nodup_range).2
  · intro p
    simp only [List.mem_flatMap, blockRows_eq spacesym nprods h, List.mem_filter, decide_eq_true_eq]
    constructor
    · rintro ⟨s, _, h1, _⟩; exact h1
    · intro hp
      have h1 := (spaceOf_iff nprods p (List.mem_range.1 hp) _).2 rfl
      have h2 : spaceOf nprods p < spacesym.length := by
        rw [← h]
        by_contra h2
        rw [List.getD_eq_default _ _ (by omega)] at h1
        omega
      refine ⟨spacesym[spaceOf nprods p], hall _ (List.getElem_mem h2), hp, ?_⟩
      unfold HasSym
      rw [List.getElem?_eq_getElem h2]
  · rw [List.nodup_flatMap]
    refine ⟨fun s _ => ?_, ?_⟩
    · rw [blockRows_eq spacesym nprods h]
      exact List.nodup_range.filter _
    · refine hnd.imp (fun {a b} hab => ?_)
      intro p h1 h2
      simp only at h1 h2
      rw [blockRows_eq spacesym nprods h, List.mem_filter, decide_eq_true_eq] at h1 h2
      unfold HasSym at h1 h2
      rw [h1.2] at h2
      exact hab (Option.some.inj h2.2)

/-- Indexing with valid indices. -/
theorem take_map_some {α : Type} (l : List α) (idx : List Nat) (h : ∀ i ∈ idx, i < l.length) :
    (idx.filterMap (fun i => l[i]?)).map some = idx.map (fun i => l[i]?) := by
  induction idx with
  | nil => rfl
  | cons i idx ih =>
    have hi := h i (by simp)
    rw [List.filterMap_cons, List.getElem?_eq_getElem hi]
    simp only [List.map_cons]
    rw [ih (fun j hj => h j (by simp [hj])), List.getElem?_eq_getElem hi]

theorem take_perm {α : Type} (l : List α) (idx : List Nat) (h : idx.Perm (List.range l.length)) :
    (idx.filterMap (fun i => l[i]?)).Perm l := by
  refine (h.filterMap _).trans ?_
  have : (List.range l.length).filterMap (fun i => l[i]?) = l := by
    apply List.map_injective_iff.2 (fun _ _ h => Option.some.inj h)
    rw [take_map_some l _ (fun i hi => List.mem_range.1 hi)]
    apply List.ext_getElem (by simp)
    intro i h1 h2
    simp at h1
    simp [List.getElem?_eq_getElem h1]
  rw [this]

theorem flatMap_labels {α X : Type} (f : α → Nat) (F : α → List X) (hF : ∀ a, (F a).length = f a) (l : List α) :
    (l.flatMap F).map some = (l.flatMap (fun a => (List.range (f a)).map (fun j => (a, j)))).map (fun x => (F x.1)[x.2]?) := by
  induction l with
  | nil => rfl
  | cons a l ih =>
    rw [List.flatMap_cons, List.flatMap_cons, List.map_append, List.map_append, ih, List.map_map]
    congr 1
    apply List.ext_getElem (by simp [hF])
    intro i h1 h2
    simp at h1
    simp [List.getElem?_eq_getElem h1]

end SymBlocks
open SymBlocks

/-- **C49**. Let `subset` list the symmetries in any order, let the diagonalizer return anything, and let numpy break ties in
any way. Then the columns of the returned matrix are a rearrangement `cols` of the columns of all blocks, such that
energies, symmetry labels and columns agree, energies ascend, and column `(block, j)` has in row `p` the entry of the block
eigenvector for the product state `p` (counted within its symmetry) if `p` has that symmetry, and zero otherwise. -/
theorem C49_assembly {σ K E : Type} [DecidableEq σ] [Zero K] [One K] [AddCommGroup E] [LinearOrder E] [IsOrderedAddMonoid E]
    (spacesym : List σ) (nprods : List Nat) (hlen : nprods.length = spacesym.length) (subset : List σ) (hnd : subset.Nodup)
    (hsub : ∀ s, s ∈ subset ↔ s ∈ spacesym) (eState : σ → E) (e0 : E) (solver : σ → Sol K E)
    (hsol : ∀ s, (solver s).e.length = (solver s).ncol) (rowIdx colIdx : List Nat)
    (hrow : IsArgsort ((blocks spacesym nprods subset eState e0 solver).flatMap (·.rows)) rowIdx)
    (hcol : IsArgsort ((blocks spacesym nprods subset eState e0 solver).flatMap (·.sol.e)) colIdx) :
    let nst := fun s => ((List.range nprods.sum).filter (fun p => decide (HasSym spacesym nprods s p))).length
    let ncol := fun s => if nst s = 1 then 1 else (solver s).ncol
    let energy := fun s j => if nst s = 1 then some (eState s) else ((solver s).e[j]?).map (· + e0)
    let bs := blocks spacesym nprods subset eState e0 solver
    ∃ cols : List (σ × Nat),
      cols.Perm (subset.flatMap (fun s => (List.range (ncol s)).map (fun j => (s, j)))) ∧
      (finalE bs e0 colIdx).map some = cols.map (fun x => energy x.1 x.2) ∧
      (finalE bs e0 colIdx).Pairwise (· ≤ ·) ∧
      finalSym bs colIdx = cols.map (·.1) ∧
      ∀ q s j, cols[q]? = some (s, j) → ∀ p, p < nprods.sum →
        finalSi bs rowIdx colIdx p q =
          if HasSym spacesym nprods s p then
            (if nst s = 1 then 1 else (solver s).c (rank spacesym nprods s p) j)
          else 0 := by
  intro nst ncol energy bs
  -- the block of one symmetry
  let mk : σ → Blk σ K E := fun s =>
    if nst s = 1 then ⟨s, blockRows spacesym nprods s, ⟨1, fun _ _ => 1, [eState s - e0]⟩⟩
    else ⟨s, blockRows spacesym nprods s, solver s⟩
  have hnst : ∀ s, (blockRows spacesym nprods s).length = nst s := fun s => by rw [blockRows_eq _ _ hlen]
  have hbs : bs = subset.map mk := by
    simp only [bs, blocks, mk]
    apply List.map_congr_left
    intro s _
    rw [hnst s]
  have hmkrows : ∀ s, (mk s).rows = blockRows spacesym nprods s := fun s => by
    simp only [mk]; split <;> rfl
  have hmksym : ∀ s, (mk s).sym = s := fun s => by
    simp only [mk]; split <;> rfl
  have hmkncol : ∀ s, (mk s).sol.ncol = ncol s := fun s => by
    simp only [mk, ncol]; split <;> rfl
  have hmke : ∀ s, (mk s).sol.e.length = ncol s := fun s => by
    simp only [mk, ncol]; split
    · rfl
    · exact hsol s
  let L := subset.flatMap (fun s => (List.range (ncol s)).map (fun j => (s, j)))
  have hrowsEq : bs.flatMap (·.rows) = subset.flatMap (fun s => blockRows spacesym nprods s) := by
    rw [hbs, List.flatMap_map]
    simp only [hmkrows]
  have hperm : (bs.flatMap (·.rows)).Perm (List.range nprods.sum) := by
    rw [hrowsEq]
    exact rows_perm spacesym nprods hlen subset hnd (fun s hs => (hsub s).2 hs)
  have hlab : labels bs = L.map (fun x => (mk x.1, x.2)) := by
    rw [hbs]
    simp only [labels, L, List.flatMap_map, List.map_flatMap, List.map_map, hmkncol]
    rfl
  have hE : (bs.flatMap (·.sol.e)).map some = L.map (fun x => (mk x.1).sol.e[x.2]?) := by
    rw [hbs, List.flatMap_map]
    exact flatMap_labels ncol (fun s => (mk s).sol.e) hmke subset
  have hS : bs.flatMap (fun b => List.replicate b.sol.ncol b.sym) = L.map (·.1) := by
    rw [hbs, List.flatMap_map]
    simp only [hmkncol, hmksym, L, List.map_flatMap, List.map_map]
    congr 1
    funext s
    apply List.ext_getElem (by simp)
    intro i h1 h2
    simp
  have hElen : (bs.flatMap (·.sol.e)).length = L.length := by
    have := congrArg List.length hE
    simpa using this
  have hidx : ∀ i ∈ colIdx, i < L.length := fun i hi => by
    rw [← hElen]
    exact List.mem_range.1 (hcol.perm.mem_iff.1 hi)
  have hcolsome : (colIdx.filterMap (fun i => L[i]?)).map some = colIdx.map (fun i => L[i]?) := take_map_some L colIdx hidx
  have hEget : ∀ i : Nat, (bs.flatMap (·.sol.e))[i]?.map some = (L[i]?).map (fun x : σ × Nat => (mk x.1).sol.e[x.2]?) := by
    intro i
    rw [← List.getElem?_map, hE, List.getElem?_map]
  have hFE : finalE bs e0 colIdx = (colIdx.filterMap (fun i => (bs.flatMap (·.sol.e))[i]?)).map (· + e0) := by
    rw [List.map_filterMap]
    rfl
  refine ⟨colIdx.filterMap (fun i => L[i]?), ?_, ?_, ?_, ?_, ?_⟩
  · exact take_perm L colIdx (by rw [← hElen]; exact hcol.perm)
  · have h1 : ((colIdx.filterMap (fun i => L[i]?)).map (fun x => energy x.1 x.2)).map some =
        colIdx.map (fun i => (L[i]?).map (fun x => energy x.1 x.2)) := by
      have := congrArg (List.map (Option.map (fun x : σ × Nat => energy x.1 x.2))) hcolsome
      simpa [List.map_map, Function.comp_def] using this
    apply List.map_injective_iff.2 (fun _ _ h => Option.some.inj h)
    rw [h1, hFE]
    have h2 := take_map_some (bs.flatMap (·.sol.e)) colIdx (by rw [hElen]; exact hidx)
    have h3 := congrArg (List.map (Option.map (fun x : E => some (x + e0)))) h2
    simp only [List.map_map, Function.comp_def, Option.map_some] at h3
    rw [List.map_map, List.map_map]
    simp only [Function.comp_def]
    rw [h3]
    apply List.map_congr_left
    intro i hi
    have hi' := hidx i hi
    have h4 := hEget i
    rw [List.getElem?_eq_getElem hi'] at h4 ⊢
    rw [List.getElem?_eq_getElem (by rw [hElen]; exact hi')] at h4 ⊢
    simp only [Option.map_some, Option.some.injEq] at h4 ⊢
    simp only [energy]
    by_cases h5 : nst L[i].1 = 1
    · rw [if_pos h5]
      simp only [mk, if_pos h5] at h4
      have hmem := List.getElem_mem hi'
      simp only [L, List.mem_flatMap, List.mem_map, List.mem_range] at hmem
      obtain ⟨s, _, j, hj, hsj⟩ := hmem
      have hs : s = L[i].1 := congrArg Prod.fst hsj
      have hj2 : j = L[i].2 := congrArg Prod.snd hsj
      have hj0 : L[i].2 = 0 := by
        rw [← hj2]
        simp only [ncol, hs, h5, if_true] at hj
        omega
      rw [hj0] at h4
      simp only [List.getElem?_cons_zero, Option.some.injEq] at h4
      rw [h4, sub_add_cancel]
    · rw [if_neg h5]
      simp only [mk, if_neg h5] at h4
      rw [← h4]
      rfl
  · rw [hFE, List.pairwise_map]
    have h1 := hcol.sorted
    rw [← take_map_some _ colIdx (by rw [hElen]; exact hidx), List.pairwise_map] at h1
    refine h1.imp (fun {a b} hab => ?_)
    have := hab a rfl b rfl
    simpa using this
  · unfold finalSym
    rw [hS, List.map_filterMap]
    congr 1
    funext i
    rw [List.getElem?_map]
  · intro q s j hq p hp
    have h1 := congrArg (fun l => l[q]?) hcolsome
    simp only [List.getElem?_map] at h1
    rw [hq] at h1
    obtain ⟨i, hi1, hi2⟩ : ∃ i, colIdx[q]? = some i ∧ L[i]? = some (s, j) := by
      cases h : colIdx[q]? with
      | none => rw [h] at h1; simp at h1
      | some i =>
        rw [h] at h1
        simp only [Option.map_some, Option.some.injEq] at h1
        exact ⟨i, rfl, h1.symm⟩
    unfold finalSi
    rw [blockDiag_spec bs (hperm.nodup_iff.2 List.nodup_range) (rowIdx.getD p 0) (colIdx.getD q 0) p
      (argsort_perm _ rowIdx nprods.sum hperm hrow p hp) (mk s) j
      (by rw [hlab, List.getElem?_map, List.getD_eq_getElem?_getD, hi1]; simp [hi2])]
    have hmem : p ∈ (mk s).rows ↔ HasSym spacesym nprods s p := by
      rw [hmkrows, blockRows_eq _ _ hlen, List.mem_filter, List.mem_range, decide_eq_true_eq]
      exact ⟨fun h => h.2, fun h => ⟨hp, h⟩⟩
    by_cases hsym : HasSym spacesym nprods s p
    · rw [if_pos (hmem.2 hsym), if_pos hsym, hmkrows, blockRows_eq _ _ hlen,
        idxOf_filter_range _ _ p hp (by simpa using hsym)]
      simp only [mk]
      split <;> rfl
    · rw [if_neg (fun h => hsym (hmem.1 h)), if_neg hsym]

/-- Example: three root spaces, the first and last of one symmetry, processed in the opposite order. -/
example : let sol : Nat → Sol Int Int := fun _ => ⟨3, fun r c => 10 * r + c, [5, -2, 7]⟩
    let bs := blocks [4, 9, 4] [2, 1, 1] [9, 4] (fun _ => 6) 1 sol
    IsArgsort (bs.flatMap (·.rows)) [1, 2, 0, 3] ∧ IsArgsort (bs.flatMap (·.sol.e)) [2, 0, 1, 3] ∧
      finalE bs 1 [2, 0, 1, 3] = [-1, 6, 6, 8] ∧
      (List.range 4).map (fun p => (List.range 4).map (fun q => finalSi bs [1, 2, 0, 3] [2, 0, 1, 3] p q)) =
        [[1, 0, 0, 2], [11, 0, 10, 12], [0, 1, 0, 0], [21, 0, 20, 22]] := by
  refine ⟨⟨by decide, by decide⟩, ⟨by decide, by decide⟩, by decide, by decide⟩

end Verif.Props
