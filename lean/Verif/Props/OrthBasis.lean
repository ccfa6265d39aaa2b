import Verif.Lemmas.OrthLin
import Mathlib.Analysis.Complex.Basic
/-!
# C33, C34, C64, C65: the orthonormal basis of a LASSI model space
-/
namespace Verif.Props
open Verif.OrthBasis Verif.Spec.OrthBasis Finset

/-- C33. Each address below the size of the basis is mapped to the block containing it and its column inside the
block. -/
theorem C33_split {n : List Nat} {addr : Nat} (h : addr < n.sum) :
    ∃ blk col, splitAddr n addr = some (blk, col) ∧ InBlock n addr blk col := by
  obtain ⟨blk, col, hb⟩ := exists_inBlock h
  exact ⟨blk, col, splitAddr_of hb, hb⟩

/-- C33. Every column of every block arises from exactly one address. -/
theorem C33_surjective {n : List Nat} {blk col : Nat} (h1 : blk < n.length) (h2 : col < n.getD blk 0) :
    ∃ addr, addr < n.sum ∧ splitAddr n addr = some (blk, col) ∧
      ∀ addr', addr' < n.sum → splitAddr n addr' = some (blk, col) → addr' = addr := by
  have hb : InBlock n ((n.take blk).sum + col) blk col := ⟨h1, h2, rfl⟩
  refine ⟨_, inBlock_lt hb, splitAddr_of hb, ?_⟩
  intro addr' h' he
  obtain ⟨blk', col', e, h1', h2', h3'⟩ := C33_split h'
  rw [e, Option.some.injEq, Prod.mk.injEq] at he
  rw [h3', he.1, he.2]

example : [2, 0, 3].sum = 5 ∧ splitAddr [2, 0, 3] 2 = some (2, 0) ∧ splitAddr [2, 0, 3] 1 = some (0, 1) := by decide

/-- C33 (manifolds). The address book (manifold, spin string, spatial state) is a bijection onto the addresses. -/
theorem C33_manifolds (shapes : List (Nat × Nat)) :
    (∀ addr < (shapes.map (fun s => s.1 * s.2)).sum,
      ∃ i t p, idx2addrsOrth shapes addr = some (i, t, p) ∧ InManifold shapes addr i t p) ∧
    (∀ i a b t p, shapes[i]? = some (a, b) → t < a → p < b →
      ∃ addr, addr < (shapes.map (fun s => s.1 * s.2)).sum ∧ idx2addrsOrth shapes addr = some (i, t, p) ∧
        (manifoldOrthOffs shapes i).1 ≤ addr ∧ addr < (manifoldOrthOffs shapes i).2) := by
  constructor
  · intro addr h
    obtain ⟨i, t, p, hm⟩ := exists_inManifold h
    exact ⟨i, t, p, idx2addrs_of hm, hm⟩
  · intro i a b t p h1 h2 h3
    have hm : InManifold shapes (((shapes.take i).map (fun s => s.1 * s.2)).sum + (t * b + p)) i t p :=
      ⟨a, b, h1, h2, h3, rfl⟩
    obtain ⟨hi, h1'⟩ := List.getElem?_eq_some_iff.mp h1
    have ho : ((List.range i).map (fun i => (shapes.getD i (0, 0)).1 * (shapes.getD i (0, 0)).2)).sum =
        ((shapes.take i).map (fun s => s.1 * s.2)).sum := by
      congr 1
      apply List.ext_getElem
      · simp; omega
      · intro k k1 k2
        have hk : k < i := by simpa using k1
        simp only [List.getElem_map, List.getElem_range, List.getElem_take]
        rw [List.getD_eq_getElem _ _ (by omega)]
    have hlt : t * b + p < a * b := by
      calc t * b + p < t * b + b := by omega
        _ = (t + 1) * b := by ring
        _ ≤ a * b := Nat.mul_le_mul_right _ h2
    have hg : shapes.getD i (0, 0) = (a, b) := by rw [List.getD_eq_getElem _ _ hi, h1']
    refine ⟨_, inManifold_lt hm, idx2addrs_of hm, ?_, ?_⟩
    · simp only [manifoldOrthOffs, ho]; omega
    · simp only [manifoldOrthOffs, ho, hg]; omega

example : idx2addrsOrth [(2, 3), (0, 4), (1, 2)] 7 = some (2, 0, 1) ∧ idx2addrsOrth [(2, 3), (0, 4), (1, 2)] 4 = some (0, 1, 1) := by
  decide

/-- C64. For a partition of the rootspaces into blocks, the product state at position `col` of block `blk` has the
block address `(blk, col)`. -/
theorem C64_raw_blocks {nprods : List Nat} {blocks : List (List Nat)} (hnd : blocks.flatten.Nodup)
    (hmem : ∀ r, r ∈ blocks.flatten ↔ r < nprods.length) {addr blk col : Nat} {b : List Nat}
    (hb : blocks[blk]? = some b) (h : (prodIdx nprods b)[col]? = some addr) :
    splitRblocks nprods blocks addr = some (blk, col) := splitRblocks_of hnd hmem hb h

/-- C64. Every raw address occurs in the table of product states, at its block address. -/
theorem C64_raw_cover {nprods : List Nat} {blocks : List (List Nat)} (hnd : blocks.flatten.Nodup)
    (hmem : ∀ r, r ∈ blocks.flatten ↔ r < nprods.length) {addr : Nat} (h : addr < nprods.sum) :
    ∃ (blk : Nat) (b : List Nat) (col : Nat), splitRblocks nprods blocks addr = some (blk, col) ∧
      blocks[blk]? = some b ∧ (prodIdx nprods b)[col]? = some addr := by
  obtain ⟨blk, b, col, h1, h2⟩ := exists_prodIdx hmem h
  exact ⟨blk, b, col, splitRblocks_of hnd hmem h1 h2, h1, h2⟩

example : [[2, 0], [1]].flatten.Nodup ∧ (∀ r, r ∈ [[2, 0], [1]].flatten ↔ r < [2, 1, 3].length) ∧
    (prodIdx [2, 1, 3] [2, 0])[3]? = some 0 ∧ splitRblocks [2, 1, 3] [[2, 0], [1]] 0 = some (0, 3) := by
  refine ⟨by decide, fun r => ?_, by decide, by decide⟩
  simp; omega

/-- C65. The transformation from the orthonormal basis back to the primitive basis is the adjoint of the forward
transformation (basis without spin coupling). -/
theorem C65_adjoint {K : Type} [CommSemiring K] [StarRing K] (nprods : List Nat) (mans : List (Man K))
    (h : ManOK nprods mans) (x y : Nat → K) :
    ∑ n ∈ range ((manBlocks mans).map (fun p => p.1.ncol nprods)).sum, star (y n) * matvec nprods mans x n =
      ∑ n ∈ range nprods.sum, star (rmatvec nprods mans y n) * x n := adjoint_core nprods mans h x y

/-- C65. The same for the spin-coupled basis; the spin-coupling coefficients are real. -/
theorem C65_coupled_adjoint {K : Type} [CommSemiring K] [StarRing K] (nprods : List Nat) (mans : List (Man K))
    (h : ManOK nprods mans) (hu : ∀ m ∈ mans, ∀ j t, star (m.umat j t) = m.umat j t) (x y : Nat → K) :
    ∑ n ∈ range (mans.map (fun m => m.nt * m.ncol nprods)).sum, star (y n) * scMatvec nprods mans x n =
      ∑ n ∈ range nprods.sum, star (scRmatvec nprods mans y n) * x n := scAdjoint_core nprods mans h hu x y

/-- C65. If no manifold has linear dependencies to remove, the two transformations are inverse to each other. -/
theorem C65_inverse {K : Type} [NonUnitalNonAssocSemiring K] [Star K] (nprods : List Nat) (mans : List (Man K))
    (h : ManOK nprods mans) (hx : ∀ m ∈ mans, m.xmat = none)
    (hcov : ∀ r < nprods.length, r ∈ mans.flatMap (fun m => m.mBlocks.flatten)) (x y : Nat → K) :
    (∀ n < ((manBlocks mans).map (fun p => p.1.ncol nprods)).sum, matvec nprods mans (rmatvec nprods mans y) n = y n) ∧
    (∀ n < nprods.sum, rmatvec nprods mans (matvec nprods mans x) n = x n) :=
  ⟨matvec_rmatvec_core nprods mans h hx y, rmatvec_matvec_core nprods mans h hx hcov x⟩

/-- Three rootspaces of 2, 1, 2 products; the first and the third form one manifold of two spin strings. -/
noncomputable def demoMans (x : Option (Nat × (Nat → Nat → ℂ))) : List (Man ℂ) :=
  [⟨[[0], [2]], x, 1, fun j _ => if j = 0 then 1 else -1⟩, ⟨[[1]], none, 1, fun _ _ => 1⟩]

theorem demoMans_ok (x : Option (Nat × (Nat → Nat → ℂ))) : ManOK [2, 1, 2] (demoMans x) := by
  have e : (demoMans x).flatMap (fun m => m.mBlocks.flatten) = [0, 2, 1] := rfl
  refine ⟨?_, by rw [e]; decide, by rw [e]; decide⟩
  intro m hm b hb
  simp only [demoMans, List.mem_cons, List.not_mem_nil, or_false] at hm
  rcases hm with rfl | rfl
  · simp only [List.mem_cons, List.not_mem_nil, or_false] at hb
    rcases hb with rfl | rfl <;> rfl
  · simp only [List.mem_cons, List.not_mem_nil, or_false] at hb
    subst hb; rfl

/-- The hypotheses of the three theorems. -/
example : ManOK [2, 1, 2] (demoMans (some (1, fun q _ => if q = 0 then 1 else Complex.I))) ∧
    ManOK [2, 1, 2] (demoMans none) ∧ (∀ m ∈ demoMans none, m.xmat = none) ∧
    (∀ m ∈ demoMans none, ∀ j t, star (m.umat j t) = m.umat j t) ∧
    (∀ r < [2, 1, 2].length, r ∈ (demoMans none).flatMap (fun m => m.mBlocks.flatten)) := by
  refine ⟨demoMans_ok _, demoMans_ok _, ?_, ?_, by decide⟩
  · intro m hm
    simp only [demoMans, List.mem_cons, List.not_mem_nil, or_false] at hm
    rcases hm with rfl | rfl <;> rfl
  · intro m hm j t
    simp only [demoMans, List.mem_cons, List.not_mem_nil, or_false] at hm
    rcases hm with rfl | rfl
    · dsimp only; split <;> simp
    · simp

/-- C34, partial: the coefficients of each manifold move from its own block of the source basis to its own block of the
target basis, when no manifold is empty in one of the two bases only.
Full statement: the same for every list of manifolds; it is false (`C34_aligned_violated`). -/
theorem C34_aligned_partial {K : Type} [NonUnitalNonAssocSemiring K] (mans : List (ShiftMan K))
    (h : ∀ m ∈ mans, m.it * m.p = 0 ↔ m.ft * m.p = 0) (iarr : Nat → K) : BlockAligned mans iarr (shift mans iarr) := by
  intro k m hk t ht x hx
  have := shiftLoop_aligned iarr mans h 0 0 (fun _ => 0) k m hk t ht x hx
  unfold shift
  simpa using this

/-- A manifold with a triplet only (fragment multiplicities 3 and 1), and one with a triplet and a singlet
(multiplicities 2 and 2), both with one spatial state: the shift from triplet to singlet. -/
def demoShift : List (ShiftMan Int) := [⟨1, 0, 1, fun _ _ => 1⟩, ⟨1, 1, 1, fun _ _ => 1⟩]

/-- C34 is false: a manifold that exists in the source basis only does not advance the source offset, so the next
manifold receives its coefficients. -/
theorem C34_aligned_violated : ¬ ∀ (mans : List (ShiftMan Int)) (iarr : Nat → Int), BlockAligned mans iarr (shift mans iarr) := by
  intro h
  have := h demoShift (fun n => n) 1 _ rfl 0 (by decide) 0 (by decide)
  revert this
  decide

/-- C34. The coefficients of one source spin string are spread over the nearest target spin strings with unit norm. -/
theorem C34_unit_columns (tF : List (List Int)) (ti : List Int) (h : tF ≠ []) :
    ∑ k ∈ range tF.length, omatCol tF ti k ^ 2 = 1 := by
  unfold omatCol
  dsimp only
  generalize hf : (List.map (fun t => tDist t ti) tF).map
    (fun d => decide (some d = (tF.map (fun t => tDist t ti)).min?)) = f
  have hlen : f.length = tF.length := by rw [← hf]; simp
  have hc : 0 < f.count true := by
    rw [List.count_pos_iff, ← hf, List.mem_map]
    obtain ⟨d, hd⟩ : ∃ d, (tF.map (fun t => tDist t ti)).min? = some d := by
      cases hq : (tF.map (fun t => tDist t ti)).min? with
      | none => simp at hq; exact absurd hq h
      | some d => exact ⟨d, rfl⟩
    exact ⟨d, List.min?_mem hd, by simp [hd]⟩
  have hcount : ∀ l : List Bool, ((l.count true : ℕ) : ℝ) = ∑ k ∈ range l.length, if l.getD k false then (1 : ℝ) else 0 := by
    intro l
    induction l with
    | nil => simp
    | cons b l ih =>
      rw [List.length_cons, sum_range_succ', List.count_cons]
      simp only [List.getD_cons_succ, List.getD_cons_zero]
      rw [← ih]; cases b <;> simp
  have hpos : (0 : ℝ) < (f.count true : ℕ) := by exact_mod_cast hc
  have e : ∀ k ∈ range tF.length, (if f.getD k false = true then 1 / Real.sqrt (f.count true : ℕ) else 0) ^ 2 =
      (if f.getD k false then (1 : ℝ) else 0) * (1 / (f.count true : ℕ)) := by
    intro k _
    split
    · rw [div_pow, Real.sq_sqrt hpos.le]; simp
    · simp
  rw [sum_congr rfl e, ← sum_mul, ← hlen, ← hcount, mul_one_div_cancel (ne_of_gt hpos)]

/-- Two target spin strings, the nearer one chosen. -/
example : ([[1, 1], [1, -1]] : List (List Int)) ≠ [] ∧ tDist [1, 1] [1, 1] = 0 ∧ tDist [1, -1] [1, 1] = 2 := by decide

example : ∀ m ∈ ([⟨1, 1, 2, fun _ _ => 1⟩, ⟨2, 1, 1, fun _ _ => 1⟩] : List (ShiftMan Int)),
    m.it * m.p = 0 ↔ m.ft * m.p = 0 := by decide

end Verif.Props
