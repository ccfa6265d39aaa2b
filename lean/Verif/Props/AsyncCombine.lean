import Verif.Model.AsyncCombine
import Verif.Props.ExcFrags
import Mathlib.Algebra.Order.Field.Rat
import Mathlib.Algebra.Order.Group.Unbundled.Basic
import Mathlib.Algebra.CharZero.Defs
import Mathlib.Tactic.FieldSimp
import Mathlib.Tactic.NormNum
import Mathlib.Tactic.Ring
/-!
# C58, C59, C81: recombination of keyframes
-/
namespace Verif.Props
open Verif.AsyncCombine Verif.Spec.ExcFrags Verif.SymBlocks Verif.Spec.SymBlocks SymBlocks

namespace AsyncCombine

theorem fragOrbs_unique {norb : List Nat} {f g p : Nat} (hf : p ∈ fragOrbs norb f) (hg : p ∈ fragOrbs norb g) : f = g := by
  have hlt : ∀ f, p ∈ fragOrbs norb f → f < norb.length := by
    intro f h
    by_contra hc
    have := ExcFrags.mem_fragOrbs.1 h
    rw [List.getD_eq_default _ _ (by omega)] at this
    omega
  have hs : p < norb.sum := by
    have : p ∈ List.range norb.sum := by
      rw [ExcFrags.range_blocks, List.mem_flatMap]
      exact ⟨f, List.mem_range.2 (hlt f hf), hf⟩
    exact List.mem_range.1 this
  rw [← (spaceOf_iff norb p hs f).1 (ExcFrags.mem_fragOrbs.1 hf), ← (spaceOf_iff norb p hs g).1 (ExcFrags.mem_fragOrbs.1 hg)]

variable {V C M : Type}

/-- The data that the pair `(mo_cas, ci)` holds for fragment `f` equals the given columns and CI vectors. -/
def Holds (ncasSub : List Nat) (f : Nat) (acc : (Nat → V) × (Nat → C)) (mo : Nat → V) (c : C) : Prop :=
  acc.2 f = c ∧ ∀ p ∈ fragOrbs ncasSub f, acc.1 p = mo p

theorem holds_assign_same (ncore : Nat) (ncasSub : List Nat) (kf : Kf V C M) (acc : (Nat → V) × (Nat → C)) (f : Nat) :
    Holds ncasSub f (assignFrag ncore ncasSub kf acc f) (fun p => kf.mo (p + ncore)) (kf.ci f) := by
  refine ⟨by simp [assignFrag], fun p hp => ?_⟩
  simp only [assignFrag]
  rw [if_pos (ExcFrags.mem_fragOrbs.1 hp)]

theorem holds_assign_other {ncore : Nat} {ncasSub : List Nat} {kf : Kf V C M} {acc : (Nat → V) × (Nat → C)} {f g : Nat}
    {mo : Nat → V} {c : C} (hne : f ≠ g) (h : Holds ncasSub f acc mo c) :
    Holds ncasSub f (assignFrag ncore ncasSub kf acc g) mo c := by
  refine ⟨by simp only [assignFrag]; rw [if_neg hne]; exact h.1, fun p hp => ?_⟩
  simp only [assignFrag]
  rw [if_neg, h.2 p hp]
  intro hg
  exact hne (fragOrbs_unique hp (ExcFrags.mem_fragOrbs.2 hg))

theorem holds_fold_other {ncore : Nat} {ncasSub : List Nat} {kf : Kf V C M} {f : Nat} {mo : Nat → V} {c : C} (l : List Nat)
    (hl : f ∉ l) (acc : (Nat → V) × (Nat → C)) (h : Holds ncasSub f acc mo c) :
    Holds ncasSub f (l.foldl (assignFrag ncore ncasSub kf) acc) mo c := by
  induction l generalizing acc with
  | nil => exact h
  | cons g l ih =>
    rw [List.mem_cons, not_or] at hl
    exact ih hl.2 _ (holds_assign_other hl.1 h)

theorem holds_fold_mem {ncore : Nat} {ncasSub : List Nat} {kf : Kf V C M} {f : Nat} (l : List Nat)
    (hl : f ∈ l) (acc : (Nat → V) × (Nat → C)) :
    Holds ncasSub f (l.foldl (assignFrag ncore ncasSub kf) acc) (fun p => kf.mo (p + ncore)) (kf.ci f) := by
  induction l generalizing acc with
  | nil => simp at hl
  | cons g l ih =>
    rw [List.foldl_cons]
    by_cases h : f ∈ l
    · exact ih h _
    · have : f = g := by rcases List.mem_cons.1 hl with h' | h' <;> [exact h'; exact absurd h' h]
      subst this
      exact holds_fold_other l h _ (holds_assign_same ncore ncasSub kf acc f)

theorem holds_merge_other {ncore : Nat} {ncasSub : List Nat} {f : Nat} {mo : Nat → V} {c : C} (kfs : List (Kf V C M))
    (hl : ∀ kf ∈ kfs, f ∉ kf.frags) (acc : (Nat → V) × (Nat → C)) (h : Holds ncasSub f acc mo c) :
    Holds ncasSub f (merge ncore ncasSub kfs acc) mo c := by
  unfold merge
  induction kfs generalizing acc with
  | nil => exact h
  | cons kf kfs ih =>
    exact ih (fun k hk => hl k (List.mem_cons_of_mem _ hk)) _ (holds_fold_other _ (hl kf (by simp)) _ h)

end AsyncCombine
open AsyncCombine

/-- **C58**. Merging keyframes gives every fragment the active orbitals and CI vectors of the keyframe responsible for it
(the last one, if there are several). -/
theorem C58_owner {V C M : Type} (ncore : Nat) (ncasSub : List Nat) (start : (Nat → V) × (Nat → C)) (pre post : List (Kf V C M))
    (kf : Kf V C M) (f : Nat) (hf : f ∈ kf.frags) (hpost : ∀ k ∈ post, f ∉ k.frags) :
    let r := merge ncore ncasSub (pre ++ kf :: post) start
    r.2 f = kf.ci f ∧ ∀ p ∈ fragOrbs ncasSub f, r.1 p = kf.mo (p + ncore) := by
  intro r
  have : r = merge ncore ncasSub post (kf.frags.foldl (assignFrag ncore ncasSub kf) (merge ncore ncasSub pre start)) := by
    simp only [r, merge, List.foldl_append, List.foldl_cons]
  rw [this]
  exact holds_merge_other post hpost _ (holds_fold_mem _ hf _)

/-- **C58**. A fragment that no merged keyframe is responsible for keeps the orbitals and CI vectors of the reference. -/
theorem C58_unowned {V C M : Type} (ncore : Nat) (ncasSub : List Nat) (ref : Kf V C M) (kfs : List (Kf V C M)) (f : Nat)
    (hf : ∀ k ∈ kfs, f ∉ k.frags) :
    let r := merge ncore ncasSub kfs (startRef ncore ref)
    r.2 f = ref.ci f ∧ ∀ p ∈ fragOrbs ncasSub f, r.1 p = ref.mo (p + ncore) :=
  holds_merge_other kfs hf _ ⟨rfl, fun _ _ => rfl⟩

/-- **C58**. The potential used for the non-active orbitals is the average of all the keyframes' potentials. -/
theorem C58_veff {V C M : Type} [Field M] [CharZero M] (kfs : List (Kf V C M)) (h : kfs ≠ []) :
    (kfs.length : M) * meanVeff kfs = (kfs.map (·.veff)).sum := by
  unfold meanVeff
  have : (kfs.length : M) ≠ 0 := by
    rw [Nat.cast_ne_zero]
    exact fun h' => h (List.length_eq_zero_iff.1 h')
  field_simp

/-- **C58**, what holds of the density matrix: it is that of the last keyframe, so it is the average of all of them exactly
when that average happens to equal the last one; in particular for a single keyframe. (Entry by entry; the full claim, that
it is always the average, is false: `C58_dm1s_violated`.) -/
theorem C58_dm1s_partial {V C M : Type} [Field M] [CharZero M] (kfs : List (Kf V C M)) (kf : Kf V C M) :
    meanDm1s (kfs ++ [kf]) = some kf.dm1s ∧
      (meanDm1s (kfs ++ [kf]) = some (((kfs ++ [kf]).map (·.dm1s)).sum / ((kfs ++ [kf]).length : M)) ↔
        (kfs.map (·.dm1s)).sum = (kfs.length : M) * kf.dm1s) := by
  have h0 : ((kfs.length : M) + 1) ≠ 0 := Nat.cast_add_one_ne_zero _
  have h1 : meanDm1s (kfs ++ [kf]) = some kf.dm1s := by
    unfold meanDm1s
    rw [List.getLast?_concat, Option.map_some, List.map_const', List.sum_replicate, List.length_append, nsmul_eq_mul]
    simp only [List.length_singleton, Nat.cast_add, Nat.cast_one]
    congr 1
    field_simp
  refine ⟨h1, ?_⟩
  rw [h1, Option.some.injEq, List.map_append, List.sum_append]
  simp only [List.map_cons, List.map_nil, List.sum_singleton, List.length_append, List.length_singleton, Nat.cast_add,
    Nat.cast_one]
  rw [eq_div_iff h0]
  constructor
  · intro h
    have : kf.dm1s * (kfs.length : M) + kf.dm1s = (kfs.map (·.dm1s)).sum + kf.dm1s := by rw [← h]; ring
    rw [← add_right_cancel this, mul_comm]
  · intro h
    rw [h]; ring

/-- **C58** is false of the density matrix: two keyframes with different density matrices. -/
theorem C58_dm1s_violated : ¬ ∀ kfs : List (Kf Unit Unit ℚ), kfs ≠ [] →
    meanDm1s kfs = some ((kfs.map (·.dm1s)).sum / (kfs.length : ℚ)) := by
  intro h
  have := h [⟨fun _ => (), fun _ => (), [0], 0, 0⟩, ⟨fun _ => (), fun _ => (), [1], 2, 0⟩] (by simp)
  norm_num [meanDm1s] at this

/-- Non-vacuity of C58: three keyframes on three fragments of one, two and one orbitals. -/
example : let k (f : Nat) : Kf Nat Nat ℚ := ⟨fun p => 100 * f + p, fun g => 10 * f + g, [f], f, f⟩
    let r := merge 2 [1, 2, 1] [k 2, k 0] (startRef 2 (k 7))
    (r.2 0, r.2 1, r.2 2) = (0, 71, 22) ∧ (r.1 0, r.1 1, r.1 2, r.1 3) = (2, 703, 704, 205) := by decide

namespace AsyncCombine
section
variable {K : Type} [LinearOrder K] [AddCommGroup K]

theorem argmax_none (l : List K) : argmax l = none ↔ l = [] := by
  cases l with
  | nil => simp [argmax]
  | cons x xs =>
    simp only [argmax, reduceCtorEq, iff_false]
    split
    · simp
    · split <;> simp

theorem argmax_spec (l : List K) (k : Nat) (h : argmax l = some k) : ∃ m, l[k]? = some m ∧ ∀ x ∈ l, x ≤ m := by
  induction l generalizing k with
  | nil => simp [argmax] at h
  | cons x xs ih =>
    simp only [argmax] at h
    cases hm : argmax xs with
    | none =>
      rw [hm] at h
      have := (argmax_none xs).1 hm
      subst this
      simp only [Option.some.injEq] at h
      subst h
      exact ⟨x, rfl, by simp⟩
    | some j =>
      rw [hm] at h
      simp only at h
      obtain ⟨m, h1, h2⟩ := ih j hm
      have hd : xs.getD j 0 = m := by rw [List.getD_eq_getElem?_getD, h1]; rfl
      rw [hd] at h
      by_cases hx : m ≤ x
      · rw [if_pos hx, Option.some.injEq] at h
        subst h
        refine ⟨x, rfl, fun y hy => ?_⟩
        rcases List.mem_cons.1 hy with rfl | hy
        · exact le_refl _
        · exact le_trans (h2 y hy) hx
      · rw [if_neg hx, Option.some.injEq] at h
        subst h
        refine ⟨m, by simpa using h1, fun y hy => ?_⟩
        rcases List.mem_cons.1 hy with rfl | hy
        · exact le_of_lt (not_le.1 hx)
        · exact h2 y hy

theorem grid_getElem? {α β γ : Type} (f : α → β → γ) (l1 : List α) (l2 : List β) (k : Nat) (m : γ)
    (h : (l1.flatMap (fun a => l2.map (f a)))[k]? = some m) :
    ∃ a b, l1[k / l2.length]? = some a ∧ l2[k % l2.length]? = some b ∧ m = f a b := by
  induction l1 generalizing k with
  | nil => simp at h
  | cons a l1 ih =>
    rw [List.flatMap_cons, List.getElem?_append, List.length_map] at h
    by_cases hk : k < l2.length
    · rw [if_pos hk, List.getElem?_map] at h
      refine ⟨a, l2[k], by rw [Nat.div_eq_of_lt hk]; rfl, by rw [Nat.mod_eq_of_lt hk, List.getElem?_eq_getElem hk], ?_⟩
      rw [List.getElem?_eq_getElem hk] at h
      simpa using h.symm
    · rw [if_neg hk] at h
      obtain ⟨a', b, h1, h2, h3⟩ := ih _ h
      have hpos : 0 < l2.length := by
        rcases Nat.eq_zero_or_pos l2.length with h0 | h0
        · rw [List.length_eq_zero_iff.1 h0] at h2; simp at h2
        · exact h0
      refine ⟨a', b, ?_, ?_, h3⟩
      · have : k / l2.length = (k - l2.length) / l2.length + 1 := by
          rw [← Nat.add_div_right _ hpos, Nat.sub_add_cancel (by omega)]
        rw [this, List.getElem?_cons_succ, h1]
      · rw [← h2, Nat.mod_eq_sub_mod (by omega)]

end
end AsyncCombine

/-- **C59**. For two disjoint, non-empty lists of fragments, the selection contains a pair, one fragment from each list,
whose gradient block is largest; it is drawn from the two lists without repetition; its size is the smaller of the number of
fragments and the limit, but at least two; and every additional fragment couples to the pair at least as strongly as every
fragment left out. -/
theorem C59_selection {K : Type} [LinearOrder K] [AddCommGroup K] [IsOrderedAddMonoid K] (argsort : List K → List Nat)
    (hs : ∀ l, IsArgsort l (argsort l)) (g : Nat → Nat → K) (gx : Nat → Nat → Nat → K) (frags1 frags2 : List Nat)
    (maxFrags : Nat) (h1 : frags1.Nodup) (h2 : frags2.Nodup) (hd : ∀ f ∈ frags1, f ∉ frags2) (hn1 : frags1 ≠ [])
    (hn2 : frags2 ≠ []) :
    ∃ r i j, selectAA argsort g gx frags1 frags2 maxFrags = some r ∧
      i ∈ frags1 ∧ j ∈ frags2 ∧ i ∈ r ∧ j ∈ r ∧ (∀ i' ∈ frags1, ∀ j' ∈ frags2, g i' j' ≤ g i j) ∧
      r.Nodup ∧ (∀ k ∈ r, k ∈ frags1 ∨ k ∈ frags2) ∧
      r.length = max 2 (min (frags1.length + frags2.length) maxFrags) ∧
      (∀ k ∈ r, k ≠ i → k ≠ j → ∀ k', k' ∈ frags1 ∨ k' ∈ frags2 → k' ∉ r → gx k' i j ≤ gx k i j) := by
  cases hm : argmax (frags1.flatMap (fun i => frags2.map (fun j => g i j))) with
  | none =>
    exfalso
    have := (argmax_none _).1 hm
    obtain ⟨a, l, rfl⟩ := List.exists_cons_of_ne_nil hn1
    obtain ⟨b, l', rfl⟩ := List.exists_cons_of_ne_nil hn2
    simp at this
  | some gmax =>
    obtain ⟨m, e1, e2⟩ := argmax_spec _ _ hm
    obtain ⟨i, j, hi, hj, rfl⟩ := grid_getElem? g frags1 frags2 gmax m e1
    have hi' := List.mem_of_getElem? hi
    have hj' := List.mem_of_getElem? hj
    have hij : i ≠ j := fun h => hd i hi' (h ▸ hj')
    have hmax : ∀ i' ∈ frags1, ∀ j' ∈ frags2, g i' j' ≤ g i j := by
      intro i' hi2 j' hj2
      exact e2 _ (List.mem_flatMap.2 ⟨i', hi2, List.mem_map.2 ⟨j', hj2, rfl⟩⟩)
    have hl1 : 0 < frags1.length := List.length_pos_of_mem hi'
    have hl2 : 0 < frags2.length := List.length_pos_of_mem hj'
    unfold selectAA
    simp only [hm, hi, hj]
    have hall : ((frags1 ++ frags2).mergeSort (fun a b => decide (a ≤ b))).Perm (frags1 ++ frags2) := List.mergeSort_perm _ _
    generalize (frags1 ++ frags2).mergeSort (fun a b => decide (a ≤ b)) = all at hall ⊢
    have hlen : all.length = frags1.length + frags2.length := by rw [hall.length_eq, List.length_append]
    have hnd : all.Nodup := by
      rw [hall.nodup_iff, List.nodup_append]
      exact ⟨h1, h2, fun a ha b hb hab => hd a ha (hab ▸ hb)⟩
    have hmem : ∀ k, k ∈ all ↔ k ∈ frags1 ∨ k ∈ frags2 := fun k => by rw [hall.mem_iff, List.mem_append]
    rw [hlen]
    by_cases hlt : min (frags1.length + frags2.length) maxFrags < 3
    · rw [if_pos hlt]
      refine ⟨[i, j], i, j, rfl, hi', hj', by simp, by simp, hmax, by simp [hij], ?_, ?_, ?_⟩
      · intro k hk
        simp only [List.mem_cons, List.not_mem_nil, or_false] at hk
        rcases hk with rfl | rfl
        · exact Or.inl hi'
        · exact Or.inr hj'
      · simp only [List.length_cons, List.length_nil]; omega
      · intro k hk ki kj
        simp [ki, kj] at hk
    · rw [if_neg hlt]
      set rest := (all.erase i).erase j with hrest
      have hnr : rest.Nodup := (hnd.erase i).erase j
      have hmr : ∀ k, k ∈ rest ↔ k ∈ all ∧ k ≠ i ∧ k ≠ j := by
        intro k
        rw [hrest, (hnd.erase i).mem_erase_iff, hnd.mem_erase_iff]
        tauto
      have hlr : rest.length = frags1.length + frags2.length - 2 := by
        rw [hrest, List.length_erase_of_mem ((hnd.mem_erase_iff).2 ⟨hij.symm, (hmem j).2 (Or.inr hj')⟩),
          List.length_erase_of_mem ((hmem i).2 (Or.inl hi')), hlen]
        omega
      have ha := hs (rest.map (fun k => -gx k i j))
      have hpr : (argsort (rest.map (fun k => -gx k i j))).Perm (List.range rest.length) := by simpa using ha.perm
      have hb : ∀ x ∈ argsort (rest.map (fun k => -gx k i j)), x < rest.length :=
        fun x h => List.mem_range.1 (hpr.mem_iff.1 h)
      have hp := take_perm rest _ hpr
      have hsort : ((argsort (rest.map (fun k => -gx k i j))).filterMap (fun k => rest[k]?)).Pairwise
          (fun a b => gx b i j ≤ gx a i j) := by
        have h3 := ha.sorted
        have h4 : (argsort (rest.map (fun k => -gx k i j))).map (fun x => (rest.map (fun k => -gx k i j))[x]?) =
            ((argsort (rest.map (fun k => -gx k i j))).filterMap (fun k => rest[k]?)).map (fun k => some (-gx k i j)) := by
          have := congrArg (List.map (Option.map (fun k => -gx k i j))) (take_map_some rest _ hb)
          rw [List.map_map, List.map_map] at this
          rw [show (fun k => some (-gx k i j)) = (Option.map fun k => -gx k i j) ∘ some from rfl, this]
          apply List.map_congr_left
          intro x _
          simp
        rw [h4, List.pairwise_map] at h3
        refine h3.imp ?_
        intro a b hab
        exact neg_le_neg_iff.1 (hab _ rfl _ rfl)
      generalize (argsort (rest.map (fun k => -gx k i j))).filterMap (fun k => rest[k]?) = L at hp hsort ⊢
      set n := min (frags1.length + frags2.length) maxFrags - 2 with hn
      have hsub : ∀ k ∈ L.take n, k ∈ rest := fun k hk => hp.mem_iff.1 (List.mem_of_mem_take hk)
      refine ⟨[i, j] ++ L.take n, i, j, rfl, hi', hj', by simp, by simp, hmax, ?_, ?_, ?_, ?_⟩
      · rw [List.nodup_append]
        refine ⟨by simp [hij], (hp.nodup_iff.2 hnr).sublist (List.take_sublist _ _), fun a h3 b h4 hab => ?_⟩
        have := (hmr b).1 (hsub b h4)
        simp only [List.mem_cons, List.not_mem_nil, or_false] at h3
        rcases h3 with rfl | rfl
        · exact this.2.1 hab.symm
        · exact this.2.2 hab.symm
      · intro k hk
        rw [List.mem_append] at hk
        rcases hk with hk | hk
        · simp only [List.mem_cons, List.not_mem_nil, or_false] at hk
          rcases hk with rfl | rfl
          · exact Or.inl hi'
          · exact Or.inr hj'
        · exact (hmem k).1 ((hmr k).1 (hsub k hk)).1
      · rw [List.length_append, List.length_take, hp.length_eq, hlr]
        simp only [List.length_cons, List.length_nil]
        omega
      · intro k hk ki kj k' hk' hnk
        have hkL : k ∈ L.take n := by
          rw [List.mem_append] at hk
          rcases hk with hk | hk
          · simp [ki, kj] at hk
          · exact hk
        have hk'r : k' ∈ L := hp.mem_iff.2 ((hmr k').2 ⟨(hmem k').2 hk', fun h => hnk (by simp [h]), fun h => hnk (by simp [h])⟩)
        have hk'd : k' ∈ L.drop n := by
          rw [← List.take_append_drop n L, List.mem_append] at hk'r
          rcases hk'r with h | h
          · exact absurd (List.mem_append.2 (Or.inr h)) hnk
          · exact h
        rw [← List.take_append_drop n L, List.pairwise_append] at hsort
        exact hsort.2.2 k hkL k' hk'd

/-- Non-vacuity of C59: fragments 0, 1 against 2, 3, the largest block being (1, 2); the third place goes to fragment 3. -/
example : selectAA (K := Int) (fun l => if l = [-1, -5] then [1, 0] else []) (fun i j => if i = 1 ∧ j = 2 then 7 else i + j)
    (fun k _ _ => if k = 3 then 5 else 1) [0, 1] [2, 3] 3 = some [1, 2, 3] := by
  simp [selectAA, argmax, List.mergeSort, List.MergeSort.Internal.splitInTwo, List.merge]

namespace AsyncCombine

/-- Every keyframe has a fragment, only existing ones, and (if `full`) fresh data for all of them. -/
def Good (n : Nat) (full : Bool) (x : Node) : Prop :=
  x.frags ≠ [] ∧ ∀ f ∈ x.frags, f < n ∧ (full = true → x.fresh f = true)

/-- The fragments of `q` (with multiplicity) are among those of `p`, and (if `full`) the same. -/
def Sub (full : Bool) (q p : List Nat) : Prop := ∀ f, q.count f ≤ p.count f ∧ (full = true → q.count f = p.count f)

theorem Sub.trans {full : Bool} {a b c : List Nat} (h1 : Sub full a b) (h2 : Sub full b c) : Sub full a c :=
  fun f => ⟨le_trans (h1 f).1 (h2 f).1, fun h => ((h1 f).2 h).trans ((h2 f).2 h)⟩

theorem Sub.nodup {full : Bool} {a b : List Nat} (h : Sub full a b) (hb : b.Nodup) : a.Nodup :=
  List.nodup_iff_count_le_one.2 (fun f => le_trans (h f).1 (List.nodup_iff_count_le_one.1 hb f))

theorem Sub.append {full : Bool} {a b c d : List Nat} (h1 : Sub full a b) (h2 : Sub full c d) : Sub full (a ++ c) (b ++ d) :=
  fun f => by
    rw [List.count_append, List.count_append]
    exact ⟨Nat.add_le_add (h1 f).1 (h2 f).1, fun h => by rw [(h1 f).2 h, (h2 f).2 h]⟩

def CombOk (n : Nat) (full : Bool) (comb : Node → Node → Except String Node) : Prop :=
  ∀ a b, Good n full a → Good n full b → (a.frags ++ b.frags).Nodup →
    ∃ x, comb a b = .ok x ∧ Good n full x ∧ Sub full x.frags (a.frags ++ b.frags)

theorem pairs_ok {n : Nat} {full : Bool} {comb : Node → Node → Except String Node} (hc : CombOk n full comb) :
    ∀ l : List Node, (∀ x ∈ l, Good n full x) → (l.flatMap (·.frags)).Nodup →
      ∃ r, pairs comb l = .ok r ∧ r.length = l.length / 2 ∧ (∀ x ∈ r, Good n full x) ∧
        Sub full (r.flatMap (·.frags) ++ (if l.length % 2 = 1 then l.getLast?.toList else []).flatMap (·.frags))
          (l.flatMap (·.frags))
  | [], _, _ => ⟨[], rfl, rfl, by simp, fun f => by simp⟩
  | [a], _, _ => ⟨[], rfl, by simp, by simp, fun f => by simp⟩
  | a :: b :: l, hg, hn => by
    have hn' : ((a.frags ++ b.frags) ++ l.flatMap (·.frags)).Nodup := by simpa using hn
    obtain ⟨x, e1, e2, e3⟩ := hc a b (hg a (by simp)) (hg b (by simp)) (List.nodup_append.1 hn').1
    obtain ⟨r, d1, d2, d3, d4⟩ := pairs_ok hc l (fun x hx => hg x (by simp [hx])) (List.nodup_append.1 hn').2.1
    refine ⟨x :: r, ?_, ?_, ?_, ?_⟩
    · simp only [pairs, e1, d1]; rfl
    · simp only [List.length_cons, d2]; omega
    · intro y hy
      rcases List.mem_cons.1 hy with rfl | hy
      · exact e2
      · exact d3 y hy
    · have hlast : (if (a :: b :: l).length % 2 = 1 then (a :: b :: l).getLast?.toList else []) =
          (if l.length % 2 = 1 then l.getLast?.toList else []) := by
        have : (a :: b :: l).length % 2 = l.length % 2 := by simp only [List.length_cons]; omega
        rw [this]
        split
        · cases l with
          | nil => simp at *
          | cons c l => simp [List.getLast?_cons_cons]
        · rfl
      rw [hlast, List.flatMap_cons, List.flatMap_cons, List.flatMap_cons, List.append_assoc, ← List.append_assoc a.frags]
      exact e3.append d4

theorem round_ok {n : Nat} {full : Bool} {comb : Node → Node → Except String Node} (hc : CombOk n full comb)
    (l : List Node) (hg : ∀ x ∈ l, Good n full x) (hn : (l.flatMap (·.frags)).Nodup) :
    ∃ r, round comb l = .ok r ∧ r.length = (l.length + 1) / 2 ∧ (∀ x ∈ r, Good n full x) ∧
      Sub full (r.flatMap (·.frags)) (l.flatMap (·.frags)) := by
  obtain ⟨r, d1, d2, d3, d4⟩ := pairs_ok hc l hg hn
  by_cases ho : l.length % 2 = 1
  · have hl : l ≠ [] := by rintro rfl; simp at ho
    have hla := List.getLast?_eq_some_getLast hl
    have hp : (r.insertIdx (r.length - 1) (l.getLast hl)).Perm (l.getLast hl :: r) := List.perm_insertIdx _ _ (by omega)
    rw [if_pos ho, hla] at d4
    refine ⟨r.insertIdx (r.length - 1) (l.getLast hl), ?_, ?_, ?_, ?_⟩
    · unfold round
      simp only [d1, bind, Except.bind, if_pos ho, hla]
      rfl
    · rw [hp.length_eq, List.length_cons, d2]; omega
    · intro x hx
      rcases List.mem_cons.1 (hp.mem_iff.1 hx) with rfl | hx
      · exact hg _ (List.getLast_mem hl)
      · exact d3 x hx
    · intro f
      have := d4 f
      rw [List.count_append] at this
      rw [(hp.flatMap_right _).count_eq, List.flatMap_cons, List.count_append]
      simpa [Nat.add_comm] using this
  · refine ⟨r, ?_, ?_, d3, ?_⟩
    · unfold round
      simp only [d1, bind, Except.bind, if_neg ho]
      rfl
    · omega
    · rw [if_neg ho] at d4
      simpa using d4

theorem rounds_ok {n : Nat} {full : Bool} {comb : Node → Node → Except String Node} (hc : CombOk n full comb) (k : Nat)
    (l : List Node) (hg : ∀ x ∈ l, Good n full x) (hn : (l.flatMap (·.frags)).Nodup) (h0 : l ≠ []) (hk : l.length ≤ 2 ^ k) :
    ∃ x, rounds comb k l = .ok [x] ∧ Good n full x ∧ Sub full x.frags (l.flatMap (·.frags)) := by
  induction k generalizing l with
  | zero =>
    have : l.length = 1 := by
      have := List.length_pos_iff.2 h0
      simp at hk; omega
    obtain ⟨x, rfl⟩ := List.length_eq_one_iff.1 this
    exact ⟨x, rfl, hg x (by simp), fun f => by simp⟩
  | succ k ih =>
    obtain ⟨r, d1, d2, d3, d4⟩ := round_ok hc l hg hn
    have hpos := List.length_pos_iff.2 h0
    obtain ⟨x, e1, e2, e3⟩ := ih r d3 (d4.nodup hn) (by rw [← List.length_pos_iff]; omega)
      (by rw [d2]; rw [pow_succ] at hk; omega)
    refine ⟨x, ?_, e2, e3.trans d4⟩
    simp only [rounds, d1, bind, Except.bind]
    exact e1

theorem tournament_ok {n : Nat} {full : Bool} {comb : Node → Node → Except String Node} (hc : CombOk n full comb)
    (hn : 0 < n) : ∃ x, tournament comb ((List.range n).map impurity) = .ok x ∧ Good n full x ∧
      Sub full x.frags (List.range n) := by
  have hfl : ((List.range n).map impurity).flatMap (·.frags) = List.range n := by
    rw [List.flatMap_map]
    simp [impurity]
  have h0 : (List.range n).map impurity ≠ [] := by simp; omega
  obtain ⟨x, e1, e2, e3⟩ := rounds_ok hc (Nat.clog 2 n) ((List.range n).map impurity) (by
      intro x hx
      obtain ⟨f, hf, rfl⟩ := List.mem_map.1 hx
      rw [List.mem_range] at hf
      refine ⟨by simp [impurity], fun g hg => ?_⟩
      simp only [impurity, List.mem_singleton] at hg
      subst hg
      exact ⟨hf, fun _ => by simp [impurity]⟩) (by rw [hfl]; exact List.nodup_range) h0
      (by rw [List.length_map, List.length_range]; exact Nat.le_pow_clog (by omega) n)
  rw [hfl] at e3
  refine ⟨x, ?_, e2, e3⟩
  unfold tournament
  rw [if_neg h0, List.length_map, List.length_range, e1]
  rfl

theorem combinePair_ok {K : Type} [LinearOrder K] [AddCommGroup K] [IsOrderedAddMonoid K] (argsort : List K → List Nat)
    (hs : ∀ l, IsArgsort l (argsort l)) (grad : Node → (Nat → Nat → K) × (Nat → Nat → Nat → K)) (maxFrags n : Nat)
    (full : Bool) (hf : full = true → n ≤ maxFrags) : CombOk n full (combinePair argsort grad maxFrags) := by
  intro a b ha hb hn
  obtain ⟨n1, n2, n3⟩ := List.nodup_append.1 hn
  set fresh := fun f => if f ∈ b.frags then b.fresh f else if f ∈ a.frags then a.fresh f else false with hfresh
  obtain ⟨r, i, j, h1, h2, h3, h4, h5, -, h7, h8, h9, -⟩ := C59_selection argsort hs (grad ⟨[], fresh⟩).1 (grad ⟨[], fresh⟩).2
    a.frags b.frags maxFrags n1 n2 (fun f h h' => n3 f h f h' rfl) ha.1 hb.1
  refine ⟨⟨r.dedup, fresh⟩, ?_, ⟨?_, ?_⟩, ?_⟩
  · unfold combinePair
    rw [if_neg]
    · simp only [← hfresh, h1]
    · simp only [List.any_eq_true, decide_eq_true_eq, not_exists, not_and]
      exact fun f h h' => n3 f h f h' rfl
  · intro h
    have := List.mem_dedup.2 h4
    rw [show r.dedup = [] from h] at this
    simp at this
  · intro f hfm
    have hfr : f ∈ r := List.mem_dedup.1 hfm
    rcases h8 f hfr with h | h
    · refine ⟨(ha.2 f h).1, fun hfu => ?_⟩
      simp only [hfresh]
      split
      · exact (hb.2 f (by assumption)).2 hfu
      · exact (ha.2 f h).2 hfu
    · refine ⟨(hb.2 f h).1, fun hfu => ?_⟩
      simp only [hfresh]
      rw [if_pos h]; exact (hb.2 f h).2 hfu
  · have hE : (r.dedup).Perm r := by
      apply (List.perm_ext_iff_of_nodup (List.nodup_dedup r) h7).2
      intro f; exact List.mem_dedup
    have hsub : r ⊆ a.frags ++ b.frags := fun f h => List.mem_append.2 (h8 f h)
    have hsp : r.Subperm (a.frags ++ b.frags) := List.subperm_of_subset h7 hsub
    intro f
    rw [hE.count_eq]
    refine ⟨hsp.count_le f, fun hfu => ?_⟩
    have hlen : (a.frags ++ b.frags).length ≤ n := by
      have : (a.frags ++ b.frags).Subperm (List.range n) := List.subperm_of_subset hn (fun f h => by
        rw [List.mem_range]
        rcases List.mem_append.1 h with h | h
        · exact (ha.2 f h).1
        · exact (hb.2 f h).1)
      simpa using this.length_le
    have := hf hfu
    have hp1 := List.length_pos_iff.2 ha.1
    have hp2 := List.length_pos_iff.2 hb.1
    rw [List.length_append] at hlen
    have : r.Perm (a.frags ++ b.frags) := hsp.perm_of_length_le (by rw [List.length_append, h9]; omega)
    rw [this.count_eq]

end AsyncCombine

/-- **C81**. With one keyframe per fragment, for any positive number of fragments, any gradients and any limit on the size
of a recombination: the recombination never tries to merge two keyframes responsible for the same fragment, and the
prescribed number of rounds leaves exactly one keyframe. -/
theorem C81_completes {K : Type} [LinearOrder K] [AddCommGroup K] [IsOrderedAddMonoid K] (argsort : List K → List Nat)
    (hs : ∀ l, IsArgsort l (argsort l)) (grad : Node → (Nat → Nat → K) × (Nat → Nat → Nat → K)) (maxFrags n : Nat)
    (hn : 0 < n) : ∃ x, tournament (combinePair argsort grad maxFrags) ((List.range n).map impurity) = .ok x := by
  obtain ⟨x, h, -⟩ := tournament_ok (combinePair_ok argsort hs grad maxFrags n false (by simp)) hn
  exact ⟨x, h⟩

/-- **C81**. If the limit is at least the number of fragments (the default), the final keyframe is responsible for every
fragment once, and every fragment has the data of its own update in this macrocycle. (Not for smaller limits:
`C81_small_limit_violated`.) -/
theorem C81_default_limit_partial {K : Type} [LinearOrder K] [AddCommGroup K] [IsOrderedAddMonoid K]
    (argsort : List K → List Nat) (hs : ∀ l, IsArgsort l (argsort l)) (grad : Node → (Nat → Nat → K) × (Nat → Nat → Nat → K))
    (maxFrags n : Nat) (hn : 0 < n) (hm : n ≤ maxFrags) :
    ∃ x, tournament (combinePair argsort grad maxFrags) ((List.range n).map impurity) = .ok x ∧
      x.frags.Perm (List.range n) ∧ ∀ f < n, x.fresh f = true := by
  obtain ⟨x, h1, h2, h3⟩ := tournament_ok (combinePair_ok argsort hs grad maxFrags n true (fun _ => hm)) hn
  have hp : x.frags.Perm (List.range n) := List.perm_iff_count.2 (fun f => (h3 f).2 rfl)
  exact ⟨x, h1, hp, fun f hf => (h2.2 f (hp.mem_iff.2 (List.mem_range.2 hf))).2 rfl⟩

/-- **C81** fails for a limit smaller than the number of fragments: with five fragments and recombinations of two, some
fragment ends up with the data it had before the macrocycle, whatever the gradients' norms are when they are all equal. -/
theorem C81_small_limit_violated : ¬ ∀ (argsort : List Int → List Nat), (∀ l, IsArgsort l (argsort l)) →
    ∀ (grad : Node → (Nat → Nat → Int) × (Nat → Nat → Nat → Int)) (maxFrags n : Nat), 0 < n →
      ∃ x, tournament (combinePair argsort grad maxFrags) ((List.range n).map impurity) = .ok x ∧
        ∀ f < n, x.fresh f = true := by
  intro h
  have hx : ∃ argsort : List Int → List Nat, ∀ l, IsArgsort l (argsort l) := by
    refine ⟨fun l => (List.range l.length).mergeSort (fun i j => decide (l.getD i 0 ≤ l.getD j 0)), fun l => ⟨?_, ?_⟩⟩
    · exact List.mergeSort_perm _ _
    · have h := List.pairwise_mergeSort (le := fun i j => decide (l.getD i 0 ≤ l.getD j 0))
        (by intro a b c; simp only [decide_eq_true_eq]; omega)
        (by intro a b; simp only [Bool.or_eq_true, decide_eq_true_eq]; omega) (List.range l.length)
      rw [List.pairwise_map]
      refine h.imp ?_
      intro a b hab x hx y hy
      rw [Option.mem_def] at hx hy
      simpa [List.getD_eq_getElem?_getD, hx, hy] using hab
  obtain ⟨argsort, hs⟩ := hx
  obtain ⟨x, h1, h2⟩ := h argsort hs (fun _ => (fun _ _ => 0, fun _ _ _ => 0)) 2 5 (by omega)
  have h3 := h2 1 (by omega)
  have hc : Nat.clog 2 5 = 3 := by decide
  simp [tournament, rounds, round, pairs, combinePair, selectAA, argmax, impurity, List.range, List.range.loop, hc,
    List.insertIdx, bind, Except.bind, pure, Except.pure] at h1
  rw [← h1] at h3
  simp at h3

/-- Non-vacuity: the default limit is the number of fragments, and an explicit attribute overrides it. -/
example : maxFragsOf none none 5 = 5 ∧ maxFragsOf none (some 2) 5 = 2 ∧ maxFragsOf (some 3) (some 2) 5 = 3 := by decide

end Verif.Props
