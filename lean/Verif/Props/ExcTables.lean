import Verif.Lemmas.ExcTables
/-!
# Property C10: classification of interactions by `make_exc_tables`
-/
namespace Verif.Props
open Verif.Spec Verif.SC Verif.Exc

theorem hopping_getD (bra ket : List (Int × Int)) (hl : bra.length = ket.length) (f : Nat) :
    (hopping bra ket).getD f (0, 0) =
      ((bra.getD f (0,0)).1 - (ket.getD f (0,0)).1, (bra.getD f (0,0)).2 - (ket.getD f (0,0)).2) := by
  unfold hopping
  by_cases hf : f < bra.length
  · have hk : f < ket.length := by omega
    simp [hf, hk]
  · have hk : ¬ f < ket.length := by omega
    simp [List.getD_eq_getElem?_getD, List.getElem?_eq_none (Nat.le_of_not_lt hf),
      List.getElem?_eq_none (Nat.le_of_not_lt hk), hf]

theorem classify_screened (bra ket : List (Int × Int)) (hl : bra.length = ket.length)
    (hc : isCoupled bra ket = true) :
    ∃ x : Inter, rowAll (hopping bra ket) = [x] ∧ x.Normal ∧ ∀ f, f < bra.length →
      change x.moves true f = (bra.getD f (0,0)).1 - (ket.getD f (0,0)).1 ∧
      change x.moves false f = (bra.getD f (0,0)).2 - (ket.getD f (0,0)).2 := by
  unfold isCoupled at hc
  rw [acc_eq] at hc
  simp only [Bool.and_eq_true, beq_iff_eq, decide_eq_true_eq] at hc
  obtain ⟨⟨h1, h2⟩, h3⟩ := hc
  have hlen : (hopping bra ket).length = bra.length := by simp [hopping, hl]
  obtain ⟨x, e1, e2, e3⟩ := classify_one (hopping bra ket)
    (by unfold hopping; rw [List.map_map]; exact h1)
    (by unfold hopping; rw [List.map_map]; exact h2)
    (by
      refine Nat.le_trans (Nat.le_of_eq ?_) h3
      unfold nop nsop hopping
      simp only [List.map_map]
      generalize bra.zip ket = l
      induction l with
      | nil => rfl
      | cons a l ih => simp only [List.map_cons, List.sum_cons, Function.comp] at ih ⊢; omega)
  refine ⟨x, e1, e2, fun f hf => ?_⟩
  have := e3 f (by omega)
  rwa [hopping_getD bra ket hl f] at this

/-- **C10.** For every list of screened interactions: the primary tables together contain each
interaction exactly once, in the class and with the fragments and spin of a row in normal form whose
electron moves turn the ket occupations into the bra occupations. -/
theorem C10_classification (nfrags : Nat) (nelec : List (List (Int × Int))) (scai : List (Nat × Nat))
    (hs : ∀ p ∈ scai, (nelec.getD p.1 []).length = nfrags ∧ (nelec.getD p.2 []).length = nfrags ∧
      isCoupled (nelec.getD p.1 []) (nelec.getD p.2 []) = true) :
    ∃ cls : Nat × Nat → Inter,
      (excTables nelec scai).flatten.Perm (scai.map (fun p => (p, cls p))) ∧
      ∀ p ∈ scai, (cls p).Normal ∧ ∀ f, f < nfrags →
        change (cls p).moves true f = ((nelec.getD p.1 []).getD f (0,0)).1 - ((nelec.getD p.2 []).getD f (0,0)).1 ∧
        change (cls p).moves false f = ((nelec.getD p.1 []).getD f (0,0)).2 - ((nelec.getD p.2 []).getD f (0,0)).2 := by
  let cls : Nat × Nat → Inter := fun p =>
    ((rowAll (hopping (nelec.getD p.1 []) (nelec.getD p.2 []))).head?).getD .null
  have hcls : ∀ p ∈ scai, rowAll (hopping (nelec.getD p.1 []) (nelec.getD p.2 [])) = [cls p] ∧
      (cls p).Normal ∧ ∀ f, f < nfrags →
        change (cls p).moves true f = ((nelec.getD p.1 []).getD f (0,0)).1 - ((nelec.getD p.2 []).getD f (0,0)).1 ∧
        change (cls p).moves false f = ((nelec.getD p.1 []).getD f (0,0)).2 - ((nelec.getD p.2 []).getD f (0,0)).2 := by
    intro p hp
    obtain ⟨h1, h2, h3⟩ := hs p hp
    obtain ⟨x, e1, e2, e3⟩ := classify_screened _ _ (by omega) h3
    have : cls p = x := by simp only [cls, e1]; rfl
    rw [this]
    exact ⟨e1, e2, fun f hf => e3 f (by omega)⟩
  refine ⟨cls, ?_, fun p hp => (hcls p hp).2⟩
  have tadd : ∀ r s : List (Int × Int) → List Inter,
      (table r nelec scai ++ table s nelec scai).Perm (table (fun h => r h ++ s h) nelec scai) := by
    intro r s
    refine (List.flatMap_append_perm scai _ _).trans ?_
    unfold table
    simp
  have hall : (excTables nelec scai).flatten.Perm (table rowAll nelec scai) := by
    unfold excTables
    simp only [List.flatten_cons, List.flatten_nil, List.append_nil]
    refine List.Perm.trans ?_ (tadd rowNull _)
    refine List.Perm.append_left _ ?_
    refine List.Perm.trans ?_ (tadd row1c _)
    refine List.Perm.append_left _ ?_
    refine List.Perm.trans ?_ (tadd row1s _)
    refine List.Perm.append_left _ ?_
    refine List.Perm.trans ?_ (tadd (fun h => row1s1c h ++ row1s1cT h) _)
    refine List.Perm.append (tadd _ _) ?_
    refine List.Perm.trans ?_ (tadd (fun h => rowPair h ++ (rowSplit h ++ rowCoalesce h)) rowScatter)
    refine List.Perm.append_right _ ?_
    refine List.Perm.trans ?_ (tadd rowPair (fun h => rowSplit h ++ rowCoalesce h))
    exact List.Perm.append_left _ (tadd _ _)
  refine hall.trans (List.Perm.of_eq ?_)
  unfold table
  rw [List.map_eq_flatMap]
  have : ∀ l : List (Nat × Nat), (∀ p ∈ l, p ∈ scai) →
      l.flatMap (fun p => (rowAll (hopping (nelec.getD p.1 []) (nelec.getD p.2 []))).map (fun x => (p, x))) =
      l.flatMap (fun p => [(p, cls p)]) := by
    intro l hl
    induction l with
    | nil => rfl
    | cons a l ih =>
      rw [List.flatMap_cons, List.flatMap_cons, ih (fun p hp => hl p (by simp [hp])),
        (hcls a (hl a (by simp))).1]
      rfl
  exact this scai (fun p hp => hp)

/-- A coalescence, a split, a transfer with spin exchange in both orientations, a scatter. -/
example : isCoupled [(1, 1), (1, 1), (0, 1), (2, 2)] [(2, 1), (0, 0), (0, 2), (2, 2)] = true ∧
    isCoupled [(0, 1), (1, 1), (2, 0), (1, 0)] [(1, 1), (0, 1), (1, 1), (1, 0)] = false ∧
    isCoupled [(0, 2), (1, 1), (1, 0)] [(1, 1), (0, 1), (1, 1)] = true ∧
    isCoupled [(0, 1), (1, 1), (1, 1), (1, 0)] [(1, 1), (0, 1), (1, 0), (1, 1)] = true := by decide

/-- The row functions evaluated (sorting replaced by its specification lemmas): j(a)k(b) etc. -/
example : rowAll [(-1, 1), (1, 0), (0, -1)] = [.s1c1 1 2 0 0] := by
  simp [rowAll, rowNull, row1c, row1s, row1s1c, row1s1cT, rowPair, rowSplit, rowCoalesce, rowScatter,
    nop, nsop, nonzero, charge, spin, aminIs, amaxIs, lst, fst, findf, List.range_succ, key, List.mergeSort,
    List.MergeSort.Internal.splitInTwo, List.min?, List.max?, List.merge]

/-- **C10.** Each table holds rows of its own class only. -/
theorem C10_table_classes (nelec : List (List (Int × Int))) (scai : List (Nat × Nat)) :
    ∃ null c1 s1 s1c1 c2, excTables nelec scai = [null, c1, s1, s1c1, c2] ∧
      (∀ x ∈ null, x.2 = .null) ∧ (∀ x ∈ c1, ∃ i j s, x.2 = .c1 i j s) ∧
      (∀ x ∈ s1, ∃ i j, x.2 = .s1 i j) ∧ (∀ x ∈ s1c1, ∃ i j k s, x.2 = .s1c1 i j k s) ∧
      (∀ x ∈ c2, ∃ i j k l s, x.2 = .c2 i j k l s) := by
  have hmem : ∀ (r : List (Int × Int) → List Inter) (x : (Nat × Nat) × Inter),
      x ∈ table r nelec scai → ∃ h, x.2 ∈ r h := by
    intro r x hx
    simp only [table, List.mem_flatMap, List.mem_map] at hx
    obtain ⟨p, _, y, hy, rfl⟩ := hx
    exact ⟨_, hy⟩
  refine ⟨_, _, _, _, _, rfl, ?_, ?_, ?_, ?_, ?_⟩
  · intro x hx
    obtain ⟨h, hx⟩ := hmem _ x hx
    unfold rowNull at hx; split at hx <;> simp at hx; exact hx
  · intro x hx
    obtain ⟨h, hx⟩ := hmem _ x hx
    unfold row1c at hx; split at hx <;> simp at hx; exact ⟨_, _, _, hx⟩
  · intro x hx
    obtain ⟨h, hx⟩ := hmem _ x hx
    unfold row1s at hx; split at hx <;> simp at hx; exact ⟨_, _, hx⟩
  · intro x hx
    rcases List.mem_append.mp hx with hx | hx
    · obtain ⟨h, hx⟩ := hmem _ x hx
      unfold row1s1c at hx; split at hx <;> simp at hx; exact ⟨_, _, _, _, hx⟩
    · obtain ⟨h, hx⟩ := hmem _ x hx
      unfold row1s1cT at hx; split at hx <;> simp at hx; exact ⟨_, _, _, _, hx⟩
  · intro x hx
    rcases List.mem_append.mp hx with hx | hx
    · rcases List.mem_append.mp hx with hx | hx
      · obtain ⟨h, hx⟩ := hmem _ x hx
        unfold rowPair at hx; split at hx <;> simp at hx; exact ⟨_, _, _, _, _, hx⟩
      · rcases List.mem_append.mp hx with hx | hx
        · obtain ⟨h, hx⟩ := hmem _ x hx
          unfold rowSplit at hx; split at hx <;> simp at hx; exact ⟨_, _, _, _, _, hx⟩
        · obtain ⟨h, hx⟩ := hmem _ x hx
          unfold rowCoalesce at hx; split at hx <;> simp at hx; exact ⟨_, _, _, _, _, hx⟩
    · obtain ⟨h, hx⟩ := hmem _ x hx
      unfold rowScatter at hx; split at hx <;> simp at hx; exact ⟨_, _, _, _, _, hx⟩

/-- **C10.** The lower-triangular restriction keeps, for a symmetric interaction list, one
orientation of every pair. -/
theorem C10_tril (scai : List (Nat × Nat)) (hsym : ∀ b k, (b, k) ∈ scai → (k, b) ∈ scai) (b k : Nat)
    (h : (b, k) ∈ scai) :
    (b, k) ∈ tril true scai ∨ (k, b) ∈ tril true scai := by
  simp only [tril, if_true, List.mem_filter, decide_eq_true_eq]
  rcases Nat.le_total k b with hh | hh
  · exact Or.inl ⟨h, hh⟩
  · exact Or.inr ⟨hsym b k h, hh⟩

/-- **C10.** The derived tables: `1d` pairs every `null` row with every fragment, `2d` with every pair
`k > l` of fragments, and `1c1d` every `1c` row with every third fragment. -/
theorem C10_derived_tables (nfrags : Nat) (null : List (Nat × Nat))
    (c1 : List ((Nat × Nat) × (Nat × Nat × Nat)))
    (hc1 : ∀ r ∈ c1, r.2.1 < nfrags ∧ r.2.2.1 < nfrags ∧ r.2.1 ≠ r.2.2.1) :
    (∀ p f, (p, f) ∈ table1d nfrags null ↔ p ∈ null ∧ f < nfrags) ∧
    (∀ p f g, (p, (f, g)) ∈ table2d nfrags null ↔ p ∈ null ∧ g < f ∧ f < nfrags) ∧
    (∀ p i j k s, (p, (i, j, k, s)) ∈ table1c1d nfrags c1 ↔
      (p, (i, j, s)) ∈ c1 ∧ k < nfrags ∧ k ≠ i ∧ k ≠ j) := by
  refine ⟨?_, ?_, ?_⟩
  · intro p f
    simp [table1d]
  · intro p f g
    unfold table2d
    split
    · simp only [trilIndices, List.mem_flatMap, List.mem_map, List.mem_range]
      constructor
      · rintro ⟨a, ha, _, ⟨i, hi, j, hj, rfl⟩, h⟩
        cases h
        exact ⟨ha, hj, hi⟩
      · rintro ⟨ha, hg, hf⟩
        exact ⟨p, ha, (f, g), ⟨f, hf, g, hg, rfl⟩, rfl⟩
    · simp only [List.not_mem_nil, false_iff, not_and]
      omega
  · intro p i j k s
    unfold table1c1d
    split
    · simp only [List.mem_map, List.mem_filter, List.mem_flatMap, List.mem_range]
      constructor
      · rintro ⟨_, ⟨⟨⟨p', i', j', s'⟩, hr, k', hk, rfl⟩, hne⟩, h⟩
        cases h
        simp at hne
        exact ⟨hr, hk, Ne.symm hne.1, Ne.symm hne.2⟩
      · rintro ⟨hr, hk, h1, h2⟩
        refine ⟨((p, (i, j, s)), k), ⟨⟨_, hr, k, hk, rfl⟩, ?_⟩, rfl⟩
        simp [Ne.symm h1, Ne.symm h2]
    · simp only [List.not_mem_nil, false_iff, not_and]
      intro hr
      have := hc1 _ hr
      simp only at this
      omega

example : table1c1d 3 [((1, 0), (2, 0, 1))] = [((1, 0), (2, 0, 1, 1))] ∧
    table2d 3 [(0, 0)] = [((0, 0), (1, 0)), ((0, 0), (2, 0)), ((0, 0), (2, 1))] := by decide

end Verif.Props
