import Verif.Model.SingleExc
import Verif.Props.Spaces
/-!
# C63: recognition and description of single excitations

The specification is `SingleExc` (Spec/Spaces.lean), the same that `get_singles` satisfies (C21).
-/
namespace Verif.Props
open Verif.Spaces Verif.Spec Verif.Spaces.Space

namespace SingleExcP

theorem npSort2 (x y : Int) : npSort [x, y] = [-1, 1] ↔ (x = -1 ∧ y = 1) ∨ (x = 1 ∧ y = -1) := by
  unfold npSort
  rw [List.insertionSort_cons, List.insertionSort_cons, List.insertionSort_nil]
  by_cases h : x ≤ y
  · simp [List.orderedInsert, h]; omega
  · simp [List.orderedInsert, h]; omega

theorem filter_two {n : Nat} {p : Nat → Bool} (h : ((List.range n).filter p).length = 2) :
    ∃ i j, i < j ∧ j < n ∧ (List.range n).filter p = [i, j] := by
  match hl : (List.range n).filter p, h with
  | [i, j], _ =>
    have hs : ((List.range n).filter p).Pairwise (· < ·) := List.Pairwise.filter _ List.pairwise_lt_range
    rw [hl] at hs
    have hj : j ∈ (List.range n).filter p := by rw [hl]; simp
    refine ⟨i, j, by simpa using hs, by simpa using (List.mem_filter.1 hj).1, rfl⟩

theorem filter_eq_two {n : Nat} {p : Nat → Bool} {i j : Nat} (hij : i < j) (hj : j < n)
    (h : ∀ k, k < n → (p k = true ↔ k = i ∨ k = j)) : (List.range n).filter p = [i, j] := by
  have hs : ((List.range n).filter p).Pairwise (· < ·) := List.Pairwise.filter _ List.pairwise_lt_range
  have hs' : [i, j].Pairwise (· < ·) := by simpa using hij
  have hperm : ((List.range n).filter p).Perm [i, j] := by
    rw [List.perm_ext_iff_of_nodup (List.nodup_range.filter _) (by simp; omega)]
    intro k
    rw [List.mem_filter, List.mem_range]
    constructor
    · rintro ⟨h1, h2⟩; simpa using (h k h1).1 h2
    · intro hk
      have : k = i ∨ k = j := by simpa using hk
      have hk' : k < n := by omega
      exact ⟨hk', (h k hk').2 this⟩
  exact hperm.eq_of_pairwise (fun a b _ _ h1 h2 => absurd h1 (by omega)) hs hs'

theorem head_filter {n i : Nat} {p : Nat → Bool} (hi : i < n) (h : ∀ k, k < n → (p k = true ↔ k = i)) :
    ((List.range n).filter p).head? = some i := by
  have : i ∈ (List.range n).filter p := List.mem_filter.2 ⟨List.mem_range.2 hi, (h i hi).2 rfl⟩
  match hl : (List.range n).filter p with
  | [] => rw [hl] at this; simp at this
  | k :: l =>
    have hk : k ∈ (List.range n).filter p := by rw [hl]; simp
    obtain ⟨h1, h2⟩ := List.mem_filter.1 hk
    rw [List.head?_cons, (h k (List.mem_range.1 h1)).1 h2]

/-- The quantum numbers of the two spaces, one fragment at a time. -/
theorem occ_of_ok {sp : Space} {k : Nat} (h : FragOk sp k) :
    ∃ na nb, sp.neleca k = na ∧ sp.nelecb k = nb ∧ sp.nelec k = na + nb ∧ el sp.spins k = na - nb ∧
      Realizable (el sp.nlas k) na nb (el sp.smults k) := by
  obtain ⟨na, nb, ho, hr⟩ := h
  obtain ⟨h1, h2⟩ := occ_counts ho
  exact ⟨na, nb, h1, h2, ho.1.symm, ho.2.symm, hr⟩

/-- Moving one electron, in terms of differences. -/
structure Diff (sp new : Space) (i a : Nat) (m : Int) : Prop where
  ni : new.nelec i - sp.nelec i = -1
  na : new.nelec a - sp.nelec a = 1
  si : el new.spins i - el sp.spins i = -m
  sa : el new.spins a - el sp.spins a = m
  others : ∀ k, k < sp.nfrag → k ≠ i → k ≠ a →
    new.nelec k = sp.nelec k ∧ el new.spins k = el sp.spins k ∧ el new.smults k = el sp.smults k
  mult : |el new.smults i - el sp.smults i| = 1 ∧ |el new.smults a - el sp.smults a| = 1

theorem singleExc_iff_diff (sp new : Space) (h : Shaped sp) (hn : Shaped new) (ho : new.nlas = sp.nlas ∧ new.nelelas = sp.nelelas)
    (hok : ∀ k, k < sp.nfrag → FragOk sp k) (hok' : ∀ k, k < new.nfrag → FragOk new k) (i a : Nat) (hi : i < sp.nfrag)
    (ha : a < sp.nfrag) (alpha : Bool) :
    SingleExc sp new i a alpha ↔ Diff sp new i a (if alpha then 1 else -1) := by
  have hnf : new.nfrag = sp.nfrag := by unfold Space.nfrag; rw [ho.1]
  constructor
  · intro he
    obtain ⟨na, nb, o1, -⟩ := hok i hi
    obtain ⟨na', nb', o2, -⟩ := hok a ha
    have hs := he.source _ _ o1
    have hd := he.dest _ _ o2
    refine ⟨?_, ?_, ?_, ?_, ?_, he.mult⟩
    · unfold FragOcc at o1 hs; unfold Space.nelec
      cases alpha <;> simp only [Bool.false_eq_true, if_true, if_false] at hs ⊢ <;> omega
    · unfold FragOcc at o2 hd; unfold Space.nelec
      cases alpha <;> simp only [Bool.false_eq_true, if_true, if_false] at hd ⊢ <;> omega
    · unfold FragOcc at o1 hs
      cases alpha <;> simp only [Bool.false_eq_true, if_true, if_false] at hs ⊢ <;> omega
    · unfold FragOcc at o2 hd
      cases alpha <;> simp only [Bool.false_eq_true, if_true, if_false] at hd ⊢ <;> omega
    · intro k _ hki hka
      obtain ⟨g1, g2, g3⟩ := he.others k hki hka
      refine ⟨?_, g2, g3⟩
      unfold Space.nelec
      rw [g1, ho.2]
  · intro hd
    refine ⟨hn, ho, ?_, ?_, ?_, hd.mult, hok' i (by omega), hok' a (by omega)⟩
    · intro k hki hka
      by_cases hk : k < sp.nfrag
      · obtain ⟨g1, g2, g3⟩ := hd.others k hk hki hka
        refine ⟨?_, g2, g3⟩
        unfold Space.nelec at g1
        rw [ho.2] at g1
        omega
      · obtain ⟨a1, a2, a3, a4⟩ := h
        obtain ⟨b1, b2, b3, b4⟩ := hn
        have e : ∀ l : List Int, l.length = sp.nfrag → el l k = 0 := fun l hl => by
          rw [el, List.getD_eq_getElem?_getD, List.getElem?_eq_none (by omega)]; rfl
        refine ⟨?_, ?_, ?_⟩ <;> rw [e _ (by omega), e _ (by omega)]
    · intro na nb o1
      have g1 := hd.ni
      have g2 := hd.si
      unfold Space.nelec at g1
      unfold FragOcc at o1 ⊢
      rw [ho.2] at g1 ⊢
      cases alpha <;> simp only [Bool.false_eq_true, if_true, if_false] at g2 ⊢ <;> omega
    · intro na nb o1
      have g1 := hd.na
      have g2 := hd.sa
      unfold Space.nelec at g1
      unfold FragOcc at o1 ⊢
      rw [ho.2] at g1 ⊢
      cases alpha <;> simp only [Bool.false_eq_true, if_true, if_false] at g2 ⊢ <;> omega

theorem excited_iff (sp new : Space) (k : Nat) (hok : FragOk sp k) (hok' : FragOk new k) :
    new.excitedFragment sp false k = true ↔
      ¬ (new.nelec k = sp.nelec k ∧ el new.spins k = el sp.spins k ∧ el new.smults k = el sp.smults k) := by
  obtain ⟨na, nb, h1, h2, h3, h4, -⟩ := occ_of_ok hok
  obtain ⟨na', nb', h1', h2', h3', h4', -⟩ := occ_of_ok hok'
  simp only [Space.excitedFragment, h1, h2, h1', h2', h3, h4, h3', h4', Bool.false_eq_true, if_false, Bool.not_eq_true',
    Bool.and_eq_false_iff, decide_eq_false_iff_not]
  omega

/-- The three tests on the two excited fragments. -/
theorem tests_iff (sp new : Space) (p q : Nat) :
    (npSort [new.nelec p - sp.nelec p, new.nelec q - sp.nelec q] = [-1, 1] ∧
      npSort [el new.spins p - el sp.spins p, el new.spins q - el sp.spins q] = [-1, 1] ∧
      |el new.smults p - el sp.smults p| = 1 ∧ |el new.smults q - el sp.smults q| = 1) ↔
    ∃ i a m, ((i = p ∧ a = q) ∨ (i = q ∧ a = p)) ∧ (m = 1 ∨ m = -1) ∧ new.nelec i - sp.nelec i = -1 ∧ new.nelec a - sp.nelec a = 1 ∧
      el new.spins i - el sp.spins i = -m ∧ el new.spins a - el sp.spins a = m ∧
      |el new.smults i - el sp.smults i| = 1 ∧ |el new.smults a - el sp.smults a| = 1 := by
  rw [npSort2, npSort2]
  constructor
  · rintro ⟨h1, h2, h3, h4⟩
    rcases h1 with ⟨x1, x2⟩ | ⟨x1, x2⟩
    · exact ⟨p, q, el new.spins q - el sp.spins q, Or.inl ⟨rfl, rfl⟩, by omega, x1, x2, by omega, rfl, h3, h4⟩
    · exact ⟨q, p, el new.spins p - el sp.spins p, Or.inr ⟨rfl, rfl⟩, by omega, x2, x1, by omega, rfl, h4, h3⟩
  · rintro ⟨i, a, m, hia, hm, h1, h2, h3, h4, h5, h6⟩
    rcases hia with ⟨rfl, rfl⟩ | ⟨rfl, rfl⟩
    · exact ⟨by omega, by omega, h5, h6⟩
    · exact ⟨by omega, by omega, h6, h5⟩

theorem sumFrag_eq (l m : List Int) (n : Nat) (hl : l.length = n) (hm : m.length = n) :
    sumFrag n (fun k => el l k - el m k) = l.sum - m.sum := by
  unfold sumFrag
  subst hl
  induction l generalizing m with
  | nil => cases m with
    | nil => rfl
    | cons x m => simp at hm
  | cons x l ih =>
    cases m with
    | nil => simp at hm
    | cons y m =>
      rw [List.length_cons, List.range_succ_eq_map, List.map_cons, List.map_map, List.sum_cons]
      have := ih m (by simpa using hm)
      have e : ((fun k => el (x :: l) k - el (y :: m) k) ∘ Nat.succ) = fun k => el l k - el m k := by
        funext k; simp
      rw [e, this]
      simp
      omega

theorem isSingle_iff_diff (sp new : Space) (h : Shaped sp) (hn : Shaped new)
    (ho : new.nlas = sp.nlas ∧ new.nelelas = sp.nelelas) (hok : ∀ k, k < sp.nfrag → FragOk sp k)
    (hok' : ∀ k, k < new.nfrag → FragOk new k) :
    new.isSingleExcitationOf sp = true ↔
      ∃ i a m, i < sp.nfrag ∧ a < sp.nfrag ∧ i ≠ a ∧ (m = 1 ∨ m = -1) ∧ Diff sp new i a m := by
  have hnf : new.nfrag = sp.nfrag := by unfold Space.nfrag; rw [ho.1]
  have hexc := fun k (hk : k < sp.nfrag) => excited_iff sp new k (hok k hk) (hok' k (by omega))
  unfold isSingleExcitationOf excitedWhere
  simp only [hnf]
  constructor
  · intro hs
    split at hs
    · simp at hs
    split at hs
    · simp at hs
    split at hs
    · simp at hs
    rename_i hlen
    rw [ne_eq, not_not] at hlen
    obtain ⟨p, q, hpq, hq, hf⟩ := filter_two hlen
    rw [hf] at hs
    split at hs
    · simp at hs
    rename_i h1
    split at hs
    · simp at hs
    rename_i h2
    split at hs
    · simp at hs
    rename_i h3
    rw [ne_eq, not_not] at h1 h2
    simp only [List.map_cons, List.map_nil] at h1 h2 h3
    simp only [ne_eq, List.any_cons, List.any_nil, Bool.or_false, Bool.or_eq_true, decide_eq_true_eq, not_or, not_not] at h3
    obtain ⟨i, a, m, hia, hm, g1, g2, g3, g4, g5, g6⟩ := (tests_iff sp new p q).1 ⟨h1, h2, h3.1, h3.2⟩
    refine ⟨i, a, m, by omega, by omega, by omega, hm, g1, g2, g3, g4, ?_, g5, g6⟩
    intro k hk hki hka
    by_contra hc
    have : k ∈ (List.range sp.nfrag).filter (new.excitedFragment sp false) :=
      List.mem_filter.2 ⟨List.mem_range.2 hk, (hexc k hk).2 hc⟩
    rw [hf] at this
    have : k = p ∨ k = q := by simpa using this
    omega
  · rintro ⟨i, a, m, hi, ha, hia, hm, hd⟩
    have hf : (List.range sp.nfrag).filter (new.excitedFragment sp false) = [min i a, max i a] := by
      apply filter_eq_two (by omega) (by omega)
      intro k hk
      rw [hexc k hk]
      constructor
      · intro hc
        by_contra hk'
        exact hc (hd.others k hk (by omega) (by omega))
      · intro hk'
        have : k = i ∨ k = a := by omega
        have g1 := hd.ni
        have g2 := hd.na
        rcases this with rfl | rfl
        · intro hc; omega
        · intro hc; omega
    obtain ⟨h1, h2, h3, h4⟩ := (tests_iff sp new (min i a) (max i a)).2
      ⟨i, a, m, by omega, hm, hd.ni, hd.na, hd.si, hd.sa, hd.mult.1, hd.mult.2⟩
    have hie : SingleExc sp new i a (decide (m = 1)) := by
      rw [singleExc_iff_diff sp new h hn ho hok hok' i a hi ha]
      have : (if decide (m = 1) = true then (1 : Int) else -1) = m := by
        rcases hm with rfl | rfl <;> simp
      rw [this]
      exact hd
    obtain ⟨c1, c2⟩ := singleExc_conserved sp new h hok i a hi ha hia _ hie
    have s1 : sumFrag sp.nfrag new.nelec = sumFrag sp.nfrag sp.nelec := by
      have e1 := sumFrag_eq sp.nelelas sp.charges sp.nfrag h.1 h.2.2.2
      have e2 := sumFrag_eq new.nelelas new.charges sp.nfrag (by rw [hn.1, hnf]) (by rw [hn.2.2.2, hnf])
      unfold totalElectrons at c1
      unfold Space.nelec
      rw [e1, e2]
      exact c1
    rw [if_neg (by rw [s1]; simp), if_neg (by unfold totalSpin at c2; simp [c2]), hf]
    simp only [List.map_cons, List.map_nil]
    rw [if_neg (by simp), if_neg (not_not.2 h1), if_neg (not_not.2 h2), if_neg]
    simp only [List.any_cons, List.any_nil, h3, h4]
    decide

theorem describe_of_diff (sp new : Space) (h : Shaped sp) (hn : Shaped new)
    (ho : new.nlas = sp.nlas ∧ new.nelelas = sp.nelelas) (hok : ∀ k, k < sp.nfrag → FragOk sp k)
    (hok' : ∀ k, k < new.nfrag → FragOk new k) (i a : Nat) (m : Int) (hi : i < sp.nfrag) (ha : a < sp.nfrag) (hia : i ≠ a)
    (hm : m = 1 ∨ m = -1) (hd : Diff sp new i a m) :
    new.describe sp = some (some ⟨i, a, decide (m = 1), decide (el new.smults i > el sp.smults i),
      decide (el new.smults a > el sp.smults a), min (sp.nelecu i) (sp.nholed a)⟩) := by
  have hnf : new.nfrag = sp.nfrag := by unfold Space.nfrag; rw [ho.1]
  have his := (isSingle_iff_diff sp new h hn ho hok hok').2 ⟨i, a, m, hi, ha, hia, hm, hd⟩
  unfold describe
  rw [his]
  simp only [Bool.not_true, Bool.false_eq_true, if_false, hnf]
  rw [head_filter (i := i) hi, head_filter (i := a) ha]
  · simp only [Option.bind_eq_bind, Option.bind_some, Option.some.injEq, Description.mk.injEq, true_and, and_true]
    rw [Bool.eq_iff_iff, List.any_eq_true, decide_eq_true_eq]
    constructor
    · rintro ⟨k, hk, hne⟩
      rw [List.mem_range] at hk
      rw [decide_eq_true_eq] at hne
      rcases hm with hm | hm
      · exact hm
      · exfalso
        apply hne
        obtain ⟨na, nb, h1, h2, h3, h4, -⟩ := occ_of_ok (hok k hk)
        obtain ⟨na', nb', h1', h2', h3', h4', -⟩ := occ_of_ok (hok' k (by omega))
        have e1 := hd.ni
        have e2 := hd.na
        have e3 := hd.si
        have e4 := hd.sa
        by_cases hki : k = i
        · subst hki; omega
        · by_cases hka : k = a
          · subst hka; omega
          · obtain ⟨f1, f2, -⟩ := hd.others k hk hki hka
            omega
    · intro hm1
      refine ⟨i, List.mem_range.2 hi, ?_⟩
      rw [decide_eq_true_eq]
      obtain ⟨na, nb, h1, h2, h3, h4, -⟩ := occ_of_ok (hok i hi)
      obtain ⟨na', nb', h1', h2', h3', h4', -⟩ := occ_of_ok (hok' i (by omega))
      have e1 := hd.ni
      have e3 := hd.si
      omega
  · intro k hk
    rw [decide_eq_true_eq]
    have e1 := hd.ni
    have e2 := hd.na
    constructor
    · intro hk1
      by_contra hka
      by_cases hki : k = i
      · subst hki; omega
      · obtain ⟨f1, -⟩ := hd.others k hk hki hka
        omega
    · rintro rfl; exact e2
  · intro k hk
    rw [decide_eq_true_eq]
    have e1 := hd.ni
    have e2 := hd.na
    constructor
    · intro hk1
      by_contra hki
      by_cases hka : k = a
      · subst hka; omega
      · obtain ⟨f1, -⟩ := hd.others k hk hki hka
        omega
    · rintro rfl; exact e1

end SingleExcP
open SingleExcP

section
variable (sp new : Space) (h : Shaped sp) (hn : Shaped new) (ho : new.nlas = sp.nlas ∧ new.nelelas = sp.nelelas)
  (hok : ∀ k, k < sp.nfrag → FragOk sp k) (hok' : ∀ k, k < new.nfrag → FragOk new k)
include h hn ho hok hok'

/-- **C63**. `is_single_excitation_of` accepts exactly the rootspaces that arise by moving one electron between two fragments
with both multiplicities changing by one. -/
theorem C63_recognizes : new.isSingleExcitationOf sp = true ↔
    ∃ i a alpha, i < sp.nfrag ∧ a < sp.nfrag ∧ i ≠ a ∧ SingleExc sp new i a alpha := by
  rw [isSingle_iff_diff sp new h hn ho hok hok']
  constructor
  · rintro ⟨i, a, m, hi, ha, hia, hm, hd⟩
    refine ⟨i, a, decide (m = 1), hi, ha, hia, ?_⟩
    rw [singleExc_iff_diff sp new h hn ho hok hok' i a hi ha]
    have : (if decide (m = 1) = true then (1 : Int) else -1) = m := by rcases hm with rfl | rfl <;> simp
    rw [this]
    exact hd
  · rintro ⟨i, a, alpha, hi, ha, hia, he⟩
    exact ⟨i, a, if alpha then 1 else -1, hi, ha, hia, by cases alpha <;> simp,
      (singleExc_iff_diff sp new h hn ho hok hok' i a hi ha alpha).1 he⟩

/-- **C63**. The description names the source, the destination, the spin of the electron, the direction in which the two
multiplicities change, and the smaller of the number of spin-up electrons of the source and of spin-down holes of the
destination when both are in their high-spin component. -/
theorem C63_describes (i a : Nat) (alpha : Bool) (hi : i < sp.nfrag) (ha : a < sp.nfrag) (hia : i ≠ a)
    (he : SingleExc sp new i a alpha) :
    ∃ u d u' d' : Int, (u + d = sp.nelec i ∧ u - d = el sp.smults i - 1) ∧
      (u' + d' = sp.nelec a ∧ u' - d' = el sp.smults a - 1) ∧
      new.describe sp = some (some ⟨i, a, alpha, decide (el new.smults i = el sp.smults i + 1),
        decide (el new.smults a = el sp.smults a + 1), min u (el sp.nlas a - d')⟩) := by
  have hd := (singleExc_iff_diff sp new h hn ho hok hok' i a hi ha alpha).1 he
  have hpar : ∀ k, k < sp.nfrag → (sp.nelec k + (el sp.smults k - 1)) % 2 = 0 := by
    intro k hk
    obtain ⟨na, nb, h1, h2, h3, h4, hr⟩ := occ_of_ok (hok k hk)
    unfold Realizable at hr
    omega
  refine ⟨sp.nelecu i, sp.nelec i - sp.nelecu i, sp.nelec a - (sp.nelec a - (el sp.smults a - 1)) / 2,
    (sp.nelec a - (el sp.smults a - 1)) / 2, ?_, ?_, ?_⟩
  · have := hpar i hi
    unfold Space.nelecu
    omega
  · have := hpar a ha
    omega
  have e0 : el sp.nlas a - (sp.nelec a - (el sp.smults a - 1)) / 2 = sp.nholed a := rfl
  rw [e0, describe_of_diff sp new h hn ho hok hok' i a _ hi ha hia (by cases alpha <;> simp) hd]
  have e1 : decide ((if alpha = true then (1 : Int) else -1) = 1) = alpha := by cases alpha <;> simp
  have e2 : ∀ k, |el new.smults k - el sp.smults k| = 1 →
      decide (el new.smults k > el sp.smults k) = decide (el new.smults k = el sp.smults k + 1) := by
    intro k hk
    rw [decide_eq_decide]
    rcases abs_cases (el new.smults k - el sp.smults k) with ⟨g, _⟩ | ⟨g, _⟩ <;> omega
  rw [e1, e2 i hd.mult.1, e2 a hd.mult.2]

/-- **C63**. Anything else is described as `None` (and never fails). -/
theorem C63_describes_none (hne : ¬ ∃ i a alpha, i < sp.nfrag ∧ a < sp.nfrag ∧ i ≠ a ∧ SingleExc sp new i a alpha) :
    new.describe sp = some none := by
  rw [← C63_recognizes sp new h hn ho hok hok', Bool.not_eq_true] at hne
  unfold describe
  rw [hne]
  rfl

end

/-- **C63**. Two single excitations of the same rootspace with the same key, moving an electron of the same spin, are the same
rootspace. -/
theorem C63_key_injective (sp x y : Space) (h : Shaped sp) (hok : ∀ k, k < sp.nfrag → FragOk sp k)
    (hx : Shaped x) (hox : x.nlas = sp.nlas ∧ x.nelelas = sp.nelelas) (hokx : ∀ k, k < x.nfrag → FragOk x k)
    (hy : Shaped y) (hoy : y.nlas = sp.nlas ∧ y.nelelas = sp.nelelas) (hoky : ∀ k, k < y.nfrag → FragOk y k)
    (i a i' a' : Nat) (alpha : Bool) (hi : i < sp.nfrag) (ha : a < sp.nfrag) (hia : i ≠ a) (hi' : i' < sp.nfrag)
    (ha' : a' < sp.nfrag) (hia' : i' ≠ a') (hex : SingleExc sp x i a alpha) (hey : SingleExc sp y i' a' alpha)
    (hkey : x.excKey sp = y.excKey sp) : SameNumbers x y := by
  obtain ⟨_, _, _, _, -, -, hl⟩ := C63_describes sp x h hx hox hok hokx i a alpha hi ha hia hex
  obtain ⟨_, _, _, _, -, -, hl'⟩ := C63_describes sp y h hy hoy hok hoky i' a' alpha hi' ha' hia' hey
  unfold excKey at hkey
  rw [hl, hl'] at hkey
  simp only [Option.some.injEq, Prod.mk.injEq] at hkey
  obtain ⟨rfl, rfl, hk⟩ := hkey
  have hnf : x.nfrag = sp.nfrag := by unfold Space.nfrag; rw [hox.1]
  have hnf' : y.nfrag = sp.nfrag := by unfold Space.nfrag; rw [hoy.1]
  have dx := (singleExc_iff_diff sp x h hx hox hok hokx i a hi ha alpha).1 hex
  have dy := (singleExc_iff_diff sp y h hy hoy hok hoky i a hi ha alpha).1 hey
  have hb : ∀ p q r s : Bool, 2 * p.toNat + q.toNat = 2 * r.toNat + s.toNat → p = r ∧ q = s := by decide
  obtain ⟨b1, b2⟩ := hb _ _ _ _ hk
  rw [decide_eq_decide] at b1 b2
  have hm : ∀ k, |el x.smults k - el sp.smults k| = 1 → |el y.smults k - el sp.smults k| = 1 →
      (el x.smults k = el sp.smults k + 1 ↔ el y.smults k = el sp.smults k + 1) → el x.smults k = el y.smults k := by
    intro k h1 h2 h3
    rcases abs_cases (el x.smults k - el sp.smults k) with ⟨g, _⟩ | ⟨g, _⟩ <;>
      rcases abs_cases (el y.smults k - el sp.smults k) with ⟨g', _⟩ | ⟨g', _⟩ <;> omega
  refine ⟨by omega, fun k hk => ?_⟩
  have c1 := dx.ni; have c2 := dx.na; have c3 := dx.si; have c4 := dx.sa
  have e1 := dy.ni; have e2 := dy.na; have e3 := dy.si; have e4 := dy.sa
  unfold Space.nelec at c1 c2 e1 e2
  rw [hox.2] at c1 c2
  rw [hoy.2] at e1 e2
  by_cases hki : k = i
  · subst hki
    exact ⟨by omega, hm k dx.mult.1 dy.mult.1 b1, by omega⟩
  · by_cases hka : k = a
    · subst hka
      exact ⟨by omega, hm k dx.mult.2 dy.mult.2 b2, by omega⟩
    · obtain ⟨f1, f2, f3⟩ := dx.others k (by omega) hki hka
      obtain ⟨g1, g2, g3⟩ := dy.others k (by omega) hki hka
      unfold Space.nelec at f1 g1
      rw [hox.2] at f1
      rw [hoy.2] at g1
      exact ⟨by omega, by omega, by omega⟩

/-- **C63**. `possible_excitation`: a list of one-electron moves is possible exactly when every fragment has, for each spin, at
least as many electrons as are taken from it and at least as many holes as electrons are put into it. -/
theorem C63_possible (sp : Space) (moves : List (Nat × Nat × Nat))
    (hpos : ∀ f, 0 ≤ sp.neleca f ∧ 0 ≤ sp.nelecb f ∧ 0 ≤ sp.nholea f ∧ 0 ≤ sp.nholeb f) :
    sp.possibleExcitation moves = true ↔ ∀ f : Nat,
      (moves.countP (fun x => x.1 == f && x.2.2 == 0) : Int) ≤ sp.neleca f ∧
      (moves.countP (fun x => x.2.1 == f && x.2.2 == 0) : Int) ≤ sp.nholea f ∧
      (moves.countP (fun x => x.1 == f && x.2.2 == 1) : Int) ≤ sp.nelecb f ∧
      (moves.countP (fun x => x.2.1 == f && x.2.2 == 1) : Int) ≤ sp.nholeb f := by
  have key : ∀ (have_ : Nat → Int) (l : List Nat), (∀ f, 0 ≤ have_ f) →
      ((l.dedup.any fun f => decide (have_ f < (l.count f : Int))) = true ↔ ¬ ∀ f, (l.count f : Int) ≤ have_ f) := by
    intro hv l h0
    simp only [List.any_eq_true, List.mem_dedup, decide_eq_true_eq, not_forall, not_le]
    constructor
    · rintro ⟨f, -, hf⟩; exact ⟨f, hf⟩
    · rintro ⟨f, hf⟩
      refine ⟨f, ?_, hf⟩
      by_contra hc
      rw [List.count_eq_zero.2 hc] at hf
      have := h0 f
      simp at hf
      omega
  have cnt : ∀ (g : Nat × Nat × Nat → Nat) (m f : Nat),
      (ofSpin m (moves.map fun p => (g p, p.2.2))).count f = moves.countP (fun x => g x == f && x.2.2 == m) := by
    intro g m f
    unfold ofSpin
    rw [List.count_eq_countP, List.countP_map, List.countP_filter, List.countP_map]
    apply List.countP_congr
    intro x _
    simp
  unfold possibleExcitation
  have k1 := fun l => key sp.neleca l (fun f => (hpos f).1)
  have k2 := fun l => key sp.nholea l (fun f => (hpos f).2.2.1)
  have k3 := fun l => key sp.nelecb l (fun f => (hpos f).2.1)
  have k4 := fun l => key sp.nholeb l (fun f => (hpos f).2.2.2)
  have c1 := fun m f => cnt (fun p => p.1) m f
  have c2 := fun m f => cnt (fun p => p.2.1) m f
  dsimp only
  split
  · rename_i h1; rw [k1] at h1; simp only [c1] at h1
    exact ⟨fun h => (by cases h), fun h => absurd (fun f => (h f).1) h1⟩
  split
  · rename_i h1; rw [k2] at h1; simp only [c2] at h1
    exact ⟨fun h => (by cases h), fun h => absurd (fun f => (h f).2.1) h1⟩
  split
  · rename_i h1; rw [k3] at h1; simp only [c1] at h1
    exact ⟨fun h => (by cases h), fun h => absurd (fun f => (h f).2.2.1) h1⟩
  split
  · rename_i h1; rw [k4] at h1; simp only [c2] at h1
    exact ⟨fun h => (by cases h), fun h => absurd (fun f => (h f).2.2.2) h1⟩
  rename_i h1 h2 h3 h4
  rw [k1, not_not] at h1
  rw [k2, not_not] at h2
  rw [k3, not_not] at h3
  rw [k4, not_not] at h4
  simp only [c1, c2] at h1 h2 h3 h4
  exact ⟨fun _ f => ⟨h1 f, h2 f, h3 f, h4 f⟩, fun _ => rfl⟩

/-- Non-vacuity: in the space of two doubly occupied two-orbital fragments, moving one beta electron from fragment 0 to
fragment 1 is recognized and described. -/
example : let new : Space := ⟨[2, 2], [2, 2], [1, -1], [2, 2], [1, -1], 0, []⟩
    new.isSingleExcitationOf demoSpace = true ∧
    (new.describe demoSpace).map (fun d => d.map fun d => (d.src, d.dest, d.alpha, d.srcUp, d.destUp)) =
      some (some (0, 1, false, true, true)) ∧
    new.excKey demoSpace = some (0, 1, 3) ∧ demoSpace.isSingleExcitationOf demoSpace = false ∧
    demoSpace.possibleExcitation [(0, 1, 0), (0, 1, 1)] = true ∧
    demoSpace.possibleExcitation [(0, 1, 0), (0, 1, 0)] = false := by decide

/-- Its hypotheses hold. -/
example : let new : Space := ⟨[2, 2], [2, 2], [1, -1], [2, 2], [1, -1], 0, []⟩
    Shaped demoSpace ∧ Shaped new ∧ (new.nlas = demoSpace.nlas ∧ new.nelelas = demoSpace.nelelas) ∧
    (∀ k, k < demoSpace.nfrag → FragOk demoSpace k) ∧ (∀ k, k < new.nfrag → FragOk new k) := by
  refine ⟨⟨rfl, rfl, rfl, rfl⟩, ⟨rfl, rfl, rfl, rfl⟩, ⟨rfl, rfl⟩, demo_ok, ?_⟩
  intro k hk
  have : k = 0 ∨ k = 1 := by simp [Space.nfrag] at hk; omega
  rcases this with rfl | rfl
  · exact ⟨1, 0, ⟨rfl, rfl⟩, by unfold Realizable; decide⟩
  · exact ⟨1, 2, ⟨rfl, rfl⟩, by unfold Realizable; decide⟩

end Verif.Props
