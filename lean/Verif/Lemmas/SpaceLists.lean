import Verif.Model.SpaceLists
import Verif.Spec.SpaceLists
import Verif.Lemmas.Spaces
import Verif.Lemmas.SpinTables
/-!
# Lemmas about lists of rootspaces
-/
namespace Verif.Spaces
open Verif.Spec

/-- Python considers `x` and `y` the same element of a set. -/
def SameEl (h : List Space.HashItem → Int) (x y : Space) : Prop := h x.hashKey = h y.hashKey ∧ x.eq y = true

theorem eq_true_iff (a b : Space) : a.eq b = true ↔
    a.nfrag = b.nfrag ∧ a.spins = b.spins ∧ a.smults = b.smults ∧ a.charges = b.charges := by
  unfold Space.eq
  by_cases h : a.nfrag = b.nfrag
  · simp only [h, ne_eq, not_true, if_false, Bool.and_eq_true, decide_eq_true_eq]; tauto
  · simp only [h, ne_eq, not_false_eq_true, if_true, Bool.false_eq_true, false_and]

theorem sameEl_refl (h : List Space.HashItem → Int) (x : Space) : SameEl h x x :=
  ⟨rfl, (eq_true_iff x x).mpr ⟨rfl, rfl, rfl, rfl⟩⟩

theorem sameEl_trans {h : List Space.HashItem → Int} {x y z : Space} (a : SameEl h x y) (b : SameEl h y z) :
    SameEl h x z := by
  obtain ⟨a1, a2⟩ := a
  obtain ⟨b1, b2⟩ := b
  rw [eq_true_iff] at a2 b2
  exact ⟨a1.trans b1, (eq_true_iff _ _).mpr ⟨a2.1.trans b2.1, a2.2.1.trans b2.2.1, a2.2.2.1.trans b2.2.2.1,
    a2.2.2.2.trans b2.2.2.2⟩⟩

theorem sameEl_symm {h : List Space.HashItem → Int} {x y : Space} (a : SameEl h x y) : SameEl h y x := by
  obtain ⟨a1, a2⟩ := a
  rw [eq_true_iff] at a2
  exact ⟨a1.symm, (eq_true_iff _ _).mpr ⟨a2.1.symm, a2.2.1.symm, a2.2.2.1.symm, a2.2.2.2.symm⟩⟩

theorem sameEl_of_fields (h : List Space.HashItem → Int) {x y : Space} (h1 : x.nfrag = y.nfrag) (h2 : x.spins = y.spins)
    (h3 : x.smults = y.smults) (h4 : x.charges = y.charges) (h5 : x.entmap = y.entmap) : SameEl h x y := by
  refine ⟨?_, (eq_true_iff _ _).mpr ⟨h1, h2, h3, h4⟩⟩
  unfold Space.hashKey
  rw [h1, h2, h3, h4, h5]

theorem pyIn_iff' (h : List Space.HashItem → Int) (seen : List Space) (x : Space) :
    pyIn h seen x = true ↔ ∃ y ∈ seen, SameEl h y x := pyIn_iff h seen x

/-- What the loop "append unless already seen" does. -/
theorem addUnseen_fold (h : List Space.HashItem → Int) (xs : List Space) (seen all : List Space) :
    ∃ N, xs.foldl (addUnseen h) (seen, all) = (seen ++ N, all ++ N) ∧ N.Sublist xs ∧
      N.Pairwise (fun a b => ¬ SameEl h a b) ∧ (∀ n ∈ N, ∀ s ∈ seen, ¬ SameEl h s n) ∧
      ∀ x ∈ xs, ∃ y ∈ seen ++ N, SameEl h y x := by
  induction xs generalizing seen all with
  | nil => exact ⟨[], by simp, List.Sublist.refl _, List.Pairwise.nil, by simp, by simp⟩
  | cons x xs ih =>
    rw [List.foldl_cons]
    by_cases hin : pyIn h seen x = true
    · rw [show addUnseen h (seen, all) x = (seen, all) by unfold addUnseen; rw [if_pos hin]]
      obtain ⟨N, e, s, p, q, c⟩ := ih seen all
      refine ⟨N, e, s.cons x, p, q, ?_⟩
      intro y hy
      rcases List.mem_cons.mp hy with rfl | hy
      · obtain ⟨z, hz, hs⟩ := (pyIn_iff' h seen y).mp hin
        exact ⟨z, List.mem_append_left _ hz, hs⟩
      · exact c y hy
    · rw [show addUnseen h (seen, all) x = (seen ++ [x], all ++ [x]) by unfold addUnseen; rw [if_neg hin]]
      obtain ⟨N, e, s, p, q, c⟩ := ih (seen ++ [x]) (all ++ [x])
      refine ⟨x :: N, by rw [e]; simp, s.cons_cons x, ?_, ?_, ?_⟩
      · rw [List.pairwise_cons]
        exact ⟨fun n hn => q n hn x (by simp), p⟩
      · intro n hn s hs
        rcases List.mem_cons.mp hn with rfl | hn
        · intro hc
          exact hin ((pyIn_iff' h seen n).mpr ⟨s, hs, hc⟩)
        · exact q n hn s (List.mem_append_left _ hs)
      · intro y hy
        rcases List.mem_cons.mp hy with rfl | hy
        · exact ⟨y, by simp, sameEl_refl h y⟩
        · obtain ⟨z, hz, hs⟩ := c y hy
          exact ⟨z, by simpa using hz, hs⟩

theorem pySet_fold (h : List Space.HashItem → Int) (xs : List Space) :
    pySet h xs = (xs.foldl (addUnseen h) ([], [])).1 := by
  unfold pySet
  suffices ∀ (s a : List Space), xs.foldl (fun seen x => if pyIn h seen x then seen else seen ++ [x]) s =
      (xs.foldl (addUnseen h) (s, a)).1 from this [] []
  induction xs with
  | nil => intro s a; rfl
  | cons x xs ih =>
    intro s a
    rw [List.foldl_cons, List.foldl_cons]
    by_cases hin : pyIn h s x = true
    · rw [if_pos hin, show addUnseen h (s, a) x = (s, a) by unfold addUnseen; rw [if_pos hin]]
      exact ih s a
    · rw [if_neg hin, show addUnseen h (s, a) x = (s ++ [x], a ++ [x]) by unfold addUnseen; rw [if_neg hin]]
      exact ih _ _

theorem pySet_spec (h : List Space.HashItem → Int) (xs : List Space) :
    (∀ y ∈ pySet h xs, y ∈ xs) ∧ ∀ x ∈ xs, ∃ y ∈ pySet h xs, SameEl h y x := by
  rw [pySet_fold]
  obtain ⟨N, e, s, -, -, c⟩ := addUnseen_fold h xs [] []
  rw [e]
  simp only [List.nil_append] at *
  exact ⟨fun y hy => s.subset hy, c⟩

/-- All shuffles of all references. -/
def allShuffles : List Space → Option (List Space)
  | [] => some []
  | ref :: refs => (genSpinShuffles ref).bind fun a => (allShuffles refs).map (a ++ ·)

theorem spinShuffleLoop_eq (h : List Space.HashItem → Int) (refs : List Space) (st : List Space × List Space) :
    spinShuffleLoop h refs st = (allShuffles refs).map fun l => l.foldl (addUnseen h) st := by
  induction refs generalizing st with
  | nil => rfl
  | cons r rs ih =>
    rw [spinShuffleLoop, allShuffles]
    cases genSpinShuffles r with
    | none => rfl
    | some a =>
      simp only [Option.bind_some]
      rw [ih]
      cases allShuffles rs with
      | none => rfl
      | some b => simp [List.foldl_append]

/-- Facts about the fragments of a rootspace with possible projections. -/
theorem projOk_table (sp : Space) (hs : ∀ x ∈ sp.smults, 1 ≤ x) (hp : ProjOk sp) :
    ∃ l, genSpinShuffles sp = some l ∧ ∀ new, new ∈ l ↔ new.weight = 0 ∧ new.entmap = sp.entmap ∧ Rearranged sp new := by
  obtain ⟨p1, p2, -⟩ := hp
  have hel : ∀ i, i < sp.smults.length → 1 ≤ el sp.smults i := by
    intro i hi
    have : el sp.smults i = sp.smults[i] := by simp [el, hi]
    rw [this]
    exact hs _ (by simp)
  have hle : sp.spins.sum ≤ (sp.smults.map (· - 1)).sum :=
    sum_le_of_el _ _ p1 (fun i hi => (p2 i (by omega)).2.1)
  have hpar : ((sp.smults.map (· - 1)).sum - sp.spins.sum) % 2 = 0 := by
    have : ∀ (s m : List Int), m.length = s.length → (∀ i, i < s.length → (el s i - el m i) % 2 = 0) →
        (s.sum - m.sum) % 2 = 0 := by
      intro s
      induction s with
      | nil => intro m hm _; cases m <;> simp_all
      | cons a s ih =>
        intro m hm hh
        cases m with
        | nil => simp at hm
        | cons b m =>
          have h0 := hh 0 (by simp)
          have h1 := ih m (by simpa using hm) (fun i hi => by
            have := hh (i + 1) (by simpa using hi)
            simpa [el] using this)
          simp only [el, List.getD_cons_zero] at h0
          simp only [List.sum_cons]
          omega
    exact this _ _ p1 (fun i hi => (p2 i hi).2.2)
  obtain ⟨-, hmem⟩ := spinTable_level sp.smults hel (((sp.smults.map (· - 1)).sum - sp.spins.sum) / 2).toNat
  have hM : (sp.smults.map (· - 1)).sum - 2 * ((((sp.smults.map (· - 1)).sum - sp.spins.sum) / 2).toNat : Int) =
      sp.spins.sum := by
    rw [Int.toNat_of_nonneg (by omega)]
    omega
  rw [hM] at hmem
  unfold genSpinShuffles makeSpinShuffleTable
  simp only [hpar, ne_eq, not_true, if_false, Option.map_some]
  refine ⟨_, rfl, ?_⟩
  intro new
  rw [List.mem_map]
  constructor
  · rintro ⟨m, hm, rfl⟩
    exact ⟨rfl, rfl, rfl, rfl, rfl, rfl, (hmem m).mp hm⟩
  · rintro ⟨h1, h2, h3, h4, h5, h6, h7⟩
    refine ⟨new.spins, (hmem _).mpr h7, ?_⟩
    cases new
    simp only at h1 h2 h3 h4 h5 h6
    rw [h1, h2, h3, h4, h5, h6]

theorem allShuffles_spec (refs : List Space) (hs : ∀ r ∈ refs, (∀ x ∈ r.smults, 1 ≤ x) ∧ ProjOk r) :
    ∃ l, allShuffles refs = some l ∧
      ∀ new, new ∈ l ↔ ∃ r ∈ refs, new.weight = 0 ∧ new.entmap = r.entmap ∧ Rearranged r new := by
  induction refs with
  | nil => exact ⟨[], rfl, by simp⟩
  | cons r rs ih =>
    obtain ⟨a, ha, hma⟩ := projOk_table r (hs r (by simp)).1 (hs r (by simp)).2
    obtain ⟨b, hb, hmb⟩ := ih (fun x hx => hs x (by simp [hx]))
    refine ⟨a ++ b, by rw [allShuffles, ha, hb]; rfl, ?_⟩
    intro new
    rw [List.mem_append, hma, hmb]
    simp

theorem rearranged_trans {a b c : Space} (h1 : Rearranged a b) (h2 : Rearranged b c) : Rearranged a c := by
  obtain ⟨x1, x2, x3, x4, x5⟩ := h1
  obtain ⟨y1, y2, y3, y4, y5⟩ := h2
  refine ⟨y1.trans x1, y2.trans x2, y3.trans x3, y4.trans x4, ?_⟩
  rw [x4] at y5
  unfold totalSpin at *
  obtain ⟨-, -, x53⟩ := x5
  rw [x53] at y5
  exact y5

theorem rearranged_projOk {a b : Space} (h1 : Rearranged a b) : ProjOk b := by
  obtain ⟨x1, x2, x3, x4, x5⟩ := h1
  unfold ProjOk
  rw [x4]
  obtain ⟨a1, a2, a3⟩ := x5
  exact ⟨a1, a2, rfl⟩

/-- Adding a list all of whose members have been seen changes nothing. -/
theorem addUnseen_none (h : List Space.HashItem → Int) (xs seen all : List Space)
    (hx : ∀ x ∈ xs, ∃ y ∈ seen, SameEl h y x) : xs.foldl (addUnseen h) (seen, all) = (seen, all) := by
  induction xs with
  | nil => rfl
  | cons x xs ih =>
    rw [List.foldl_cons, show addUnseen h (seen, all) x = (seen, all) by
      unfold addUnseen; rw [if_pos ((pyIn_iff' h seen x).mpr (hx x (by simp)))]]
    exact ih (fun y hy => hx y (by simp [hy]))

end Verif.Spaces

namespace Verif.Spaces
open Verif.Spec

theorem rearranged_shaped {a b : Space} (ha : Shaped a) (h : Rearranged a b) : Shaped b := by
  obtain ⟨x1, x2, x3, x4, x5, -⟩ := h
  obtain ⟨a1, a2, a3, a4⟩ := ha
  unfold Shaped Space.nfrag at *
  rw [x1, x2, x3, x4]
  refine ⟨a1, ?_, a3, a4⟩
  rw [x5]
  simpa using a3

theorem sameNumbers_of_sameEl {h : List Space.HashItem → Int} {a b : Space} (hs : SameEl h a b) : SameNumbers a b := by
  obtain ⟨h1, h2, h3, h4⟩ := (eq_true_iff _ _).mp hs.2
  refine ⟨h1, fun i _ => ?_⟩
  rw [h2, h3, h4]
  exact ⟨rfl, rfl, rfl⟩

theorem sameEl_of_same (h : List Space.HashItem → Int) {a b : Space} (ha : Shaped a) (hb : Shaped b)
    (hs : SameNumbers a b) (he : a.entmap = b.entmap) : SameEl h a b :=
  ⟨by rw [hashKey_eq ha hb hs he], (eq_iff a b ha hb).mpr hs⟩

/-- The result before weights are set. -/
theorem spinShuffle_core (h : List Space.HashItem → Int) (refs : List Space)
    (hs : ∀ r ∈ refs, (∀ x ∈ r.smults, 1 ≤ x) ∧ ProjOk r) :
    ∃ N, (spinShuffleLoop h refs (pySet h refs, refs)).map (·.2) = some (refs ++ N) ∧
      (∀ n ∈ N, ∃ r ∈ refs, n.weight = 0 ∧ n.entmap = r.entmap ∧ Rearranged r n) ∧
      N.Pairwise (fun a b => ¬ SameEl h a b) ∧ (∀ n ∈ N, ∀ r ∈ refs, ¬ SameEl h r n) ∧
      ∀ r ∈ refs, ∀ t, t.entmap = r.entmap → Rearranged r t → ∃ y ∈ refs ++ N, SameEl h y t := by
  obtain ⟨l, hl, hmem⟩ := allShuffles_spec refs hs
  obtain ⟨N, e, s, p, q, c⟩ := addUnseen_fold h l (pySet h refs) refs
  obtain ⟨s1, s2⟩ := pySet_spec h refs
  refine ⟨N, ?_, fun n hn => (hmem n).mp (s.subset hn), p, ?_, ?_⟩
  · rw [spinShuffleLoop_eq, hl]
    simp [e]
  · intro n hn r hr hc
    obtain ⟨y, hy, hyr⟩ := s2 r hr
    exact q n hn y hy (sameEl_trans hyr hc)
  · intro r hr t he ht
    obtain ⟨y, hy, hyt⟩ := c { t with weight := 0 } ((hmem _).mpr ⟨r, hr, rfl, he, ht⟩)
    refine ⟨y, ?_, sameEl_trans hyt (sameEl_of_fields h rfl rfl rfl rfl rfl)⟩
    rcases List.mem_append.mp hy with hy | hy
    · exact List.mem_append_left _ (s1 y hy)
    · exact List.mem_append_right _ hy

/-- A list which already contains all arrangements is left alone. -/
theorem spinShuffle_closed (h : List Space.HashItem → Int) (L : List Space)
    (hs : ∀ r ∈ L, (∀ x ∈ r.smults, 1 ≤ x) ∧ ProjOk r)
    (hc : ∀ x ∈ L, ∀ y, y.entmap = x.entmap → Rearranged x y → ∃ z ∈ L, SameEl h z y) :
    spinShuffleLoop h L (pySet h L, L) = some (pySet h L, L) := by
  obtain ⟨l, hl, hmem⟩ := allShuffles_spec L hs
  rw [spinShuffleLoop_eq, hl, Option.map_some, addUnseen_none]
  intro x hx
  obtain ⟨r, hr, -, he, hre⟩ := (hmem x).mp hx
  obtain ⟨z, hz, hzx⟩ := hc r hr x he hre
  obtain ⟨y, hy, hyz⟩ := (pySet_spec h L).2 z hz
  exact ⟨y, hy, sameEl_trans hyz hzx⟩

theorem newSingles_spec (f : NCsf) (hf : CsfCounts f) (mask : Nat → Nat → Bool) (refs : List Space)
    (h : ∀ r ∈ refs, Shaped r ∧ ∀ k, k < r.nfrag → FragOk r k) :
    ∃ l, newSingles f mask refs = .ok l ∧ ∀ new, new ∈ l ↔
      new.weight = 0 ∧ new.entmap = [] ∧ ∃ r ∈ refs,
      ∃ i a alpha, i < r.nfrag ∧ a < r.nfrag ∧ i ≠ a ∧ mask i a = true ∧ SingleExc r new i a alpha := by
  induction refs with
  | nil => exact ⟨[], rfl, by simp⟩
  | cons r rs ih =>
    obtain ⟨a, ha, hma⟩ := mem_getSingles f hf r (h r (by simp)).1 (h r (by simp)).2 mask
    obtain ⟨b, hb, hmb⟩ := ih (fun x hx => h x (by simp [hx]))
    refine ⟨a ++ b, by rw [newSingles, ha, hb]; rfl, ?_⟩
    intro new
    rw [List.mem_append, hma, hmb]
    simp only [List.exists_mem_cons_iff]
    rw [← and_or_left, ← and_or_left]

/-- The list before filtering. -/
theorem allSingles_core (f : NCsf) (hf : CsfCounts f) (h : List Space.HashItem → Int) (mask : Nat → Nat → Bool)
    (refs : List Space) (hr : ∀ r ∈ refs, Shaped r ∧ ∀ k, k < r.nfrag → FragOk r k) (he : ∀ r ∈ refs, r.entmap = []) :
    ∃ l N, newSingles f mask refs = .ok l ∧ (l.foldl (addUnseen h) (pySet h refs, refs)).2 = refs ++ N ∧
      (∀ n ∈ N, n.weight = 0 ∧ n.entmap = [] ∧ ∃ r ∈ refs,
        ∃ i a alpha, i < r.nfrag ∧ a < r.nfrag ∧ i ≠ a ∧ mask i a = true ∧ SingleExc r n i a alpha) ∧
      N.Pairwise (fun a b => ¬ SameNumbers a b) ∧ (∀ n ∈ N, ∀ r ∈ refs, ¬ SameNumbers r n) ∧
      ∀ r ∈ refs, ∀ i a alpha new, i < r.nfrag → a < r.nfrag → i ≠ a → mask i a = true → SingleExc r new i a alpha →
        ∃ y ∈ refs ++ N, SameNumbers y new := by
  obtain ⟨l, hl, hmem⟩ := newSingles_spec f hf mask refs hr
  obtain ⟨N, e, s, p, q, c⟩ := addUnseen_fold h l (pySet h refs) refs
  obtain ⟨s1, s2⟩ := pySet_spec h refs
  have hN : ∀ n ∈ N, Shaped n ∧ n.entmap = [] := by
    intro n hn
    obtain ⟨-, h2, r, -, i, a, al, -, -, -, -, hx⟩ := (hmem n).mp (s.subset hn)
    exact ⟨hx.shaped, h2⟩
  refine ⟨l, N, hl, by rw [e], fun n hn => (hmem n).mp (s.subset hn), ?_, ?_, ?_⟩
  · rw [List.pairwise_iff_getElem] at *
    intro i j hi hj hij hsame
    refine p i j hi hj hij (sameEl_of_same h (hN _ (List.getElem_mem _)).1 (hN _ (List.getElem_mem _)).1 hsame ?_)
    rw [(hN _ (List.getElem_mem hi)).2, (hN _ (List.getElem_mem hj)).2]
  · intro n hn r hrr hc
    obtain ⟨y, hy, hyr⟩ := s2 r hrr
    refine q n hn y hy (sameEl_trans hyr (sameEl_of_same h (hr r hrr).1 (hN n hn).1 hc ?_))
    rw [he r hrr, (hN n hn).2]
  · intro r hrr i a al new hi ha hia hm hx
    have hx' : SingleExc r { new with weight := 0, entmap := [] } i a al := by
      obtain ⟨x1, x2, x3, x4, x5, x6, x7⟩ := hx
      exact ⟨x1, x2, x3, x4, x5, x6, x7⟩
    obtain ⟨y, hy, hyn⟩ := c { new with weight := 0, entmap := [] }
      ((hmem _).mpr ⟨rfl, rfl, r, hrr, i, a, al, hi, ha, hia, hm, hx'⟩)
    refine ⟨y, ?_, ?_⟩
    · rcases List.mem_append.mp hy with hy | hy
      · exact List.mem_append_left _ (s1 y hy)
      · exact List.mem_append_right _ hy
    · have := sameNumbers_of_sameEl hyn
      exact ⟨this.1, this.2⟩

/-! ### manifolds -/

theorem isSpinShuffleOf_iff (a b : Space) : isSpinShuffleOf a b = true ↔ SpinRelated a b := by
  unfold isSpinShuffleOf SpinRelated Space.nelec totalSpin
  split
  · rename_i h
    rw [List.any_eq_true] at h
    obtain ⟨i, hi, hne⟩ := h
    rw [List.mem_range] at hi
    simp only [Bool.false_eq_true, false_iff, not_and]
    intro hc
    simp only [decide_eq_true_eq] at hne
    exact absurd (hc i hi).1 hne
  · rename_i h
    split
    · rename_i h'
      rw [List.any_eq_true] at h'
      obtain ⟨i, hi, hne⟩ := h'
      rw [List.mem_range] at hi
      simp only [Bool.false_eq_true, false_iff, not_and]
      intro hc
      simp only [decide_eq_true_eq] at hne
      exact absurd (hc i hi).2 hne
    · rename_i h'
      rw [decide_eq_true_eq]
      constructor
      · intro hs
        refine ⟨fun i hi => ⟨?_, ?_⟩, hs⟩
        · by_contra hc
          exact h (List.any_eq_true.mpr ⟨i, List.mem_range.mpr hi, by simpa using hc⟩)
        · by_contra hc
          exact h' (List.any_eq_true.mpr ⟨i, List.mem_range.mpr hi, by simpa using hc⟩)
      · exact fun hc => hc.2

theorem spinRelated_symm {a b : Space} (hn : a.nfrag = b.nfrag) (h : SpinRelated a b) : SpinRelated b a :=
  ⟨fun i hi => ⟨((h.1 i (by omega)).1).symm, ((h.1 i (by omega)).2).symm⟩, h.2.symm⟩

theorem spinRelated_trans {a b c : Space} (hn : a.nfrag = b.nfrag) (h : SpinRelated a b) (h' : SpinRelated b c) :
    SpinRelated a c :=
  ⟨fun i hi => ⟨(h.1 i hi).1.trans (h'.1 i (by omega)).1, (h.1 i hi).2.trans (h'.1 i (by omega)).2⟩, h.2.trans h'.2⟩

/-- A grouping of rootspaces with `n` fragments: groups are not empty, members of a group are related to its first
member, and first members of different groups are not related. -/
structure Grouping (n : Nat) (ms : List (List Space)) : Prop where
  frag : ∀ m ∈ ms, ∀ x ∈ m, x.nfrag = n
  rel : ∀ m ∈ ms, ∃ m0 r, m = m0 :: r ∧ ∀ x ∈ m, SpinRelated x m0
  sep : ms.Pairwise fun m m' => ∀ x ∈ m, ∀ y ∈ m', ¬ SpinRelated x y

theorem insertManifold_none (n : Nat) (sp : Space) (hsp : sp.nfrag = n) (ms : List (List Space)) (g : Grouping n ms)
    (h : insertManifold sp ms = none) : ∀ m ∈ ms, ∀ x ∈ m, ¬ SpinRelated x sp := by
  induction ms with
  | nil => simp
  | cons m ms ih =>
    obtain ⟨m0, r, rfl, hrel⟩ := g.rel m (by simp)
    rw [insertManifold] at h
    split at h
    · simp at h
    · rename_i hno
      intro m' hm'
      rcases List.mem_cons.mp hm' with rfl | hm'
      · intro x hx hc
        apply hno
        rw [isSpinShuffleOf_iff]
        have hxn := g.frag _ (List.mem_cons_self ..) x hx
        exact spinRelated_trans (by omega) (spinRelated_symm (by omega) hc) (hrel x hx)
      · refine ih ⟨fun a ha => g.frag a (by simp [ha]), fun a ha => g.rel a (by simp [ha]), (List.pairwise_cons.mp g.sep).2⟩ ?_ m' hm'
        cases hi : insertManifold sp ms with
        | none => rfl
        | some v => rw [hi] at h; simp at h

theorem insertManifold_some (n : Nat) (sp : Space) (hsp : sp.nfrag = n) (ms ms' : List (List Space)) (g : Grouping n ms)
    (h : insertManifold sp ms = some ms') :
    Grouping n ms' ∧ ms'.flatten.Perm (ms.flatten ++ [sp]) ∧ (∃ pre m post, ms = pre ++ m :: post ∧
      ms' = pre ++ (m ++ [sp]) :: post) := by
  induction ms generalizing ms' with
  | nil => simp [insertManifold] at h
  | cons m ms ih =>
    obtain ⟨m0, r, rfl, hrel⟩ := g.rel m (by simp)
    have g' : Grouping n ms := ⟨fun a ha => g.frag a (by simp [ha]), fun a ha => g.rel a (by simp [ha]),
      (List.pairwise_cons.mp g.sep).2⟩
    have hm0 : m0.nfrag = n := g.frag _ (List.mem_cons_self ..) m0 (by simp)
    rw [insertManifold] at h
    split at h
    · rename_i hyes
      rw [isSpinShuffleOf_iff] at hyes
      cases h
      refine ⟨⟨?_, ?_, ?_⟩, ?_, ⟨[], m0 :: r, ms, rfl, by simp⟩⟩
      · intro m hm x hx
        rcases List.mem_cons.mp hm with rfl | hm
        · rw [List.mem_append, List.mem_singleton] at hx
          rcases hx with hx | rfl
          · exact g.frag _ (List.mem_cons_self ..) x hx
          · exact hsp
        · exact g'.frag m hm x hx
      · intro m hm
        rcases List.mem_cons.mp hm with rfl | hm
        · refine ⟨m0, r ++ [sp], rfl, ?_⟩
          intro x hx
          rw [List.mem_append, List.mem_singleton] at hx
          rcases hx with hx | rfl
          · exact hrel x hx
          · exact hyes
        · exact g'.rel m hm
      · rw [List.pairwise_cons]
        refine ⟨?_, g'.sep⟩
        intro m' hm' x hx y hy hc
        rw [List.mem_append, List.mem_singleton] at hx
        have hsep := (List.pairwise_cons.mp g.sep).1 m' hm'
        rcases hx with hx | rfl
        · exact hsep x hx y hy hc
        · exact hsep m0 (by simp) y hy (spinRelated_trans (by omega) (spinRelated_symm (by omega) hyes) hc)
      · simp only [List.flatten_cons]
        refine List.Perm.trans (l₂ := (m0 :: r) ++ ([sp] ++ ms.flatten)) (by simp) ?_
        rw [List.append_assoc]
        exact List.Perm.append_left _ List.perm_append_comm
    · rename_i hno
      cases hi : insertManifold sp ms with
      | none => rw [hi] at h; simp at h
      | some v =>
        rw [hi, Option.map_some] at h
        cases h
        obtain ⟨gv, pv, pre, m1, post, e1, e2⟩ := ih v g' hi
        refine ⟨⟨?_, ?_, ?_⟩, ?_, ⟨(m0 :: r) :: pre, m1, post, by rw [e1]; rfl, by rw [e2]; rfl⟩⟩
        · intro m hm
          rcases List.mem_cons.mp hm with rfl | hm
          · exact g.frag _ (List.mem_cons_self ..)
          · exact gv.frag m hm
        · intro m hm
          rcases List.mem_cons.mp hm with rfl | hm
          · exact ⟨m0, r, rfl, hrel⟩
          · exact gv.rel m hm
        · rw [List.pairwise_cons]
          refine ⟨?_, gv.sep⟩
          intro m' hm' x hx y hy hc
          have hy' : y ∈ ms.flatten ++ [sp] := pv.mem_iff.mp (List.mem_flatten.mpr ⟨m', hm', hy⟩)
          rw [List.mem_append, List.mem_singleton] at hy'
          rcases hy' with hy' | rfl
          · obtain ⟨m2, hm2, hy2⟩ := List.mem_flatten.mp hy'
            exact (List.pairwise_cons.mp g.sep).1 m2 hm2 x hx y hy2 hc
          · apply hno
            rw [isSpinShuffleOf_iff]
            have hxn := g.frag _ (List.mem_cons_self ..) x hx
            exact spinRelated_trans (by omega) (spinRelated_symm (by omega) hc) (hrel x hx)
        · simp only [List.flatten_cons]
          rw [List.append_assoc]
          exact List.Perm.append_left _ pv

theorem manifolds_grouping (n : Nat) (xs : List Space) (hx : ∀ x ∈ xs, x.nfrag = n) (ms : List (List Space))
    (g : Grouping n ms) : Grouping n (xs.foldl manifoldStep ms) ∧ (xs.foldl manifoldStep ms).flatten.Perm (ms.flatten ++ xs) := by
  induction xs generalizing ms with
  | nil => exact ⟨g, by simp⟩
  | cons x xs ih =>
    have hxn := hx x (by simp)
    have key : Grouping n (manifoldStep ms x) ∧ (manifoldStep ms x).flatten.Perm (ms.flatten ++ [x]) := by
      unfold manifoldStep
      cases hi : insertManifold x ms with
      | some v =>
        obtain ⟨a, b, -⟩ := insertManifold_some n x hxn ms v g hi
        exact ⟨a, b⟩
      | none =>
        have hno := insertManifold_none n x hxn ms g hi
        refine ⟨⟨?_, ?_, ?_⟩, by simp⟩
        · intro m hm y hy
          rw [List.mem_append, List.mem_singleton] at hm
          rcases hm with hm | rfl
          · exact g.frag m hm y hy
          · rw [List.mem_singleton] at hy; rw [hy]; exact hxn
        · intro m hm
          rw [List.mem_append, List.mem_singleton] at hm
          rcases hm with hm | rfl
          · exact g.rel m hm
          · refine ⟨x, [], rfl, ?_⟩
            intro y hy
            rw [List.mem_singleton] at hy; subst hy
            exact ⟨fun _ _ => ⟨rfl, rfl⟩, rfl⟩
        · rw [List.pairwise_append]
          refine ⟨g.sep, List.pairwise_singleton _ _, ?_⟩
          intro m hm m' hm' y hy z hz
          rw [List.mem_singleton] at hm'
          subst hm'
          rw [List.mem_singleton] at hz
          subst hz
          exact hno m hm y hy
    obtain ⟨a, b⟩ := ih (fun y hy => hx y (by simp [hy])) _ key.1
    refine ⟨a, b.trans ?_⟩
    refine (List.Perm.append_right xs key.2).trans ?_
    simp

end Verif.Spaces

namespace Verif.Spaces
open Verif.Spec

theorem selectFromManifold_mem (space0 : Space) (m : List Space) (s : Space)
    (h : selectFromManifold space0 m = .ok (some s)) : s ∈ m := by
  unfold selectFromManifold at h
  cases m with
  | nil => cases h
  | cons m0 ms =>
    simp only [] at h
    cases h1 : firstWhere space0.nfrag fun i => decide (m0.nelec i - space0.nelec i = -1) with
    | error e => rw [h1] at h; cases h
    | ok i =>
      rw [h1] at h
      cases h2 : firstWhere space0.nfrag fun i => decide (m0.nelec i - space0.nelec i = 1) with
      | error e => rw [h2] at h; cases h
      | ok a =>
        rw [h2] at h
        simp only [bind, Except.bind] at h
        split at h
        · cases h
        · split at h
          · rename_i p hp
            cases h
            have : p ∈ [p] := by simp
            rw [← hp] at this
            exact (List.of_mem_zip (a := p.1) (b := p.2) (List.mem_filter.mp this).1).1
          · cases h

theorem selectAll_spec (space0 : Space) (ms : List (List Space)) (r : List Space)
    (h : selectAll space0 ms = .ok (some r)) : List.Forall₂ (fun s m => s ∈ m) r ms := by
  induction ms generalizing r with
  | nil => cases h; exact List.Forall₂.nil
  | cons m ms ih =>
    rw [selectAll] at h
    cases h1 : selectFromManifold space0 m with
    | error e => rw [h1] at h; cases h
    | ok s =>
      rw [h1] at h
      cases s with
      | none => cases h
      | some s =>
        cases h2 : selectAll space0 ms with
        | error e => rw [h2] at h; cases h
        | ok v =>
          rw [h2] at h
          cases v with
          | none => cases h
          | some v =>
            cases h
            exact List.Forall₂.cons (selectFromManifold_mem space0 m s h1) (ih v h2)

theorem filterShuffles_spec (refs N out : List Space) (h : filterShuffles (refs ++ N) refs.length = .ok (some out)) :
    ∃ sel, out = refs ++ sel ∧ List.Forall₂ (fun s m => s ∈ m) sel (manifolds N) := by
  unfold filterShuffles at h
  rw [List.take_left, List.drop_left] at h
  cases refs with
  | nil => cases h
  | cons s0 rs =>
    simp only [] at h
    cases h1 : selectAll s0 (manifolds N) with
    | error e => rw [h1] at h; cases h
    | ok v =>
      rw [h1] at h
      cases v with
      | none => cases h
      | some v =>
        cases h
        exact ⟨v, rfl, selectAll_spec s0 _ v h1⟩

theorem forall2_mem_left {r : List Space} {ms : List (List Space)} (h : List.Forall₂ (fun s m => s ∈ m) r ms) :
    ∀ s ∈ r, ∃ m ∈ ms, s ∈ m := by
  induction h with
  | nil => simp
  | cons hd _ ih =>
    intro s hs
    rcases List.mem_cons.mp hs with rfl | hs
    · exact ⟨_, List.mem_cons_self .., hd⟩
    · obtain ⟨m, hm, hsm⟩ := ih s hs
      exact ⟨m, List.mem_cons_of_mem _ hm, hsm⟩

theorem forall2_mem_right {r : List Space} {ms : List (List Space)} (h : List.Forall₂ (fun s m => s ∈ m) r ms) :
    ∀ m ∈ ms, ∃ s ∈ r, s ∈ m := by
  induction h with
  | nil => simp
  | cons hd _ ih =>
    intro s hs
    rcases List.mem_cons.mp hs with rfl | hs
    · exact ⟨_, List.mem_cons_self .., hd⟩
    · obtain ⟨m, hm, hsm⟩ := ih s hs
      exact ⟨m, List.mem_cons_of_mem _ hm, hsm⟩

theorem forall2_pairwise {r : List Space} {ms : List (List Space)} (h : List.Forall₂ (fun s m => s ∈ m) r ms)
    (hp : ms.Pairwise fun m m' => ∀ x ∈ m, ∀ y ∈ m', ¬ SpinRelated x y) :
    r.Pairwise (fun a b => ¬ SpinRelated a b) := by
  induction h with
  | nil => exact List.Pairwise.nil
  | cons hd tl ih =>
    rw [List.pairwise_cons] at *
    refine ⟨?_, ih hp.2⟩
    intro s hs
    obtain ⟨m, hm, hsm⟩ := forall2_mem_left tl s hs
    exact hp.1 m hm _ hd s hsm

end Verif.Spaces
