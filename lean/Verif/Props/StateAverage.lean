import Verif.Model.StateAverage
import Mathlib.Data.List.Nodup
import Mathlib.Algebra.Order.Ring.Int
/-!
# C61, C62: changing the table of states

The specification is in terms of rows of quantum numbers only.
-/
namespace Verif.Props
open Verif.StateAverage

namespace StateAverage

theorem filter_range_eq {α : Type} [DecidableEq α] [BEq α] [LawfulBEq α] (new : List α) (r : α) (hn : new.count r ≤ 1) :
    (List.range new.length).filter (fun j => decide (new[j]? = some r)) = if r ∈ new then [new.idxOf r] else [] := by
  induction new with
  | nil => simp
  | cons a new ih =>
    rw [List.length_cons, List.range_succ_eq_map, List.filter_cons, List.filter_map]
    have h1 : ((fun j => decide ((a :: new)[j]? = some r)) ∘ Nat.succ) = (fun j => decide (new[j]? = some r)) := by
      funext j; simp
    rw [h1]
    by_cases ha : a = r
    · subst ha
      rw [List.count_cons_self] at hn
      have hnm : a ∉ new := List.count_eq_zero.1 (by omega)
      rw [ih (by omega), if_neg hnm]
      simp
    · rw [List.count_cons_of_ne ha] at hn
      rw [ih hn]
      by_cases hr : r ∈ new
      · simp [ha, hr, List.idxOf_cons_ne _ ha]
      · have : r ≠ a := fun h => ha h.symm
        simp [ha, hr, this]

theorem filter_range_length {α : Type} [DecidableEq α] [BEq α] [LawfulBEq α] (new : List α) (r : α) :
    ((List.range new.length).filter (fun j => decide (new[j]? = some r))).length = new.count r := by
  induction new with
  | nil => rfl
  | cons a new ih =>
    rw [List.length_cons, List.range_succ_eq_map, List.filter_cons, List.filter_map]
    have h1 : ((fun j => decide ((a :: new)[j]? = some r)) ∘ Nat.succ) = (fun j => decide (new[j]? = some r)) := by
      funext j; simp
    rw [h1, List.count_cons]
    by_cases ha : a = r
    · simp [ha, ih]
    · simp [ha, ih]

/-- The last position below `n` of the row `r` in `old`. -/
def lastPos (old : List (List Qn)) (r : List Qn) : Option Nat :=
  ((List.range old.length).filter (fun i => decide (old[i]? = some r))).getLast?

theorem carryStep_ok {C : Type} (new : List (List Qn)) (ci : Nat → Nat → C) (ci0 : Nat → Nat → Option C) (r : List Qn)
    (i : Nat) (h : new.count r ≤ 1) :
    carryStep new ci ci0 (r, i) = some (fun f j => if new[j]? = some r then some (ci f i) else ci0 f j) := by
  unfold carryStep
  simp only
  rw [filter_range_eq new r h]
  by_cases hr : r ∈ new
  · rw [if_pos hr]
    simp only [Option.some.injEq]
    funext f j
    have : j = new.idxOf r ↔ new[j]? = some r := by
      constructor
      · rintro rfl; exact List.getElem?_idxOf hr
      · intro hj
        have hm := filter_range_eq new r h
        rw [if_pos hr] at hm
        have : j ∈ (List.range new.length).filter (fun j => decide (new[j]? = some r)) := by
          rw [List.mem_filter, List.mem_range]
          exact ⟨(List.getElem?_eq_some_iff.1 hj).1, by simpa using hj⟩
        rw [hm] at this
        simpa using this
    simp only [this]
  · rw [if_neg hr]
    simp only [Option.some.injEq]
    funext f j
    rw [if_neg]
    exact fun hj => hr (List.mem_of_getElem? hj)

theorem carryStep_fail {C : Type} (new : List (List Qn)) (ci : Nat → Nat → C) (ci0 : Nat → Nat → Option C) (r : List Qn)
    (i : Nat) (h : 1 < new.count r) : carryStep new ci ci0 (r, i) = none := by
  unfold carryStep
  simp only
  have := filter_range_length new r
  match hm : (List.range new.length).filter (fun j => decide (new[j]? = some r)) with
  | [] => rw [hm] at this; simp at this; omega
  | [j] => rw [hm] at this; simp at this; omega
  | _ :: _ :: _ => rfl

/-- Invariant of the loop. -/
theorem carry_fold {C : Type} (new : List (List Qn)) (ci : Nat → Nat → C) (old : List (List Qn)) (k : Nat)
    (ci0 : Nat → Nat → Option C) (h : ∀ r ∈ old, new.count r ≤ 1) :
    ∃ t, (old.zipIdx k).foldlM (carryStep new ci) ci0 = some t ∧
      ∀ f (j : Nat) r, new[j]? = some r →
        (∀ i : Nat, old[i]? = some r → (∀ i' : Nat, i < i' → old[i']? ≠ some r) → t f j = some (ci f (k + i))) ∧
        (r ∉ old → t f j = ci0 f j) := by
  induction old generalizing k ci0 with
  | nil => exact ⟨ci0, rfl, fun f j r _ => ⟨by simp, fun _ => rfl⟩⟩
  | cons a old ih =>
    rw [List.zipIdx_cons, List.foldlM_cons, carryStep_ok new ci ci0 a k (h a (by simp))]
    obtain ⟨t, h1, h2⟩ := ih (k + 1) (fun f j => if new[j]? = some a then some (ci f k) else ci0 f j)
      (fun r hr => h r (List.mem_cons_of_mem _ hr))
    refine ⟨t, by simpa using h1, fun f j r hj => ⟨fun i hi hl => ?_, fun hr => ?_⟩⟩
    · cases i with
      | zero =>
        rw [List.getElem?_cons_zero, Option.some.injEq] at hi
        subst hi
        have hn : a ∉ old := by
          intro hm
          obtain ⟨i, hi, he⟩ := List.mem_iff_getElem.1 hm
          exact hl (i + 1) (by omega) (by rw [List.getElem?_cons_succ, List.getElem?_eq_getElem hi, he])
        rw [(h2 f j a hj).2 hn, if_pos hj, Nat.add_zero]
      | succ i =>
        rw [List.getElem?_cons_succ] at hi
        rw [(h2 f j r hj).1 i hi (fun i' hii' => by
          have := hl (i' + 1) (by omega)
          rwa [List.getElem?_cons_succ] at this), Nat.add_assoc, Nat.add_comm 1 i]
    · rw [List.mem_cons, not_or] at hr
      rw [(h2 f j r hj).2 hr.2, if_neg]
      rw [hj]
      simpa using hr.1

theorem carry_fold_fail {C : Type} (new : List (List Qn)) (ci : Nat → Nat → C) (old : List (List Qn)) (k : Nat)
    (ci0 : Nat → Nat → Option C) (r : List Qn) (hr : r ∈ old) (h : 1 < new.count r) :
    (old.zipIdx k).foldlM (carryStep new ci) ci0 = none := by
  induction old generalizing k ci0 with
  | nil => simp at hr
  | cons a old ih =>
    rw [List.zipIdx_cons, List.foldlM_cons]
    by_cases ha : 1 < new.count a
    · rw [carryStep_fail new ci ci0 a k ha]; rfl
    · rw [carryStep_ok new ci ci0 a k (by omega)]
      have : r ∈ old := by
        rcases List.mem_cons.1 hr with rfl | h'
        · exact absurd h ha
        · exact h'
      exact ih (k + 1) _ this

end StateAverage
open StateAverage

/-- **C61**. If no row of the old table occurs twice in the new one, `state_average_` succeeds; every new state whose row
occurs in the old table gets, for every fragment, the CI vector of the old state with that row (the last one, if there are
several), and every other new state gets none. -/
theorem C61_carry {C : Type} (old new : List (List Qn)) (ci : Nat → Nat → C) (h : ∀ r ∈ old, new.count r ≤ 1) :
    ∃ t, carry old new ci = some t ∧ ∀ f (j : Nat) r, new[j]? = some r →
      (∀ i : Nat, old[i]? = some r → (∀ i' : Nat, i < i' → old[i']? ≠ some r) → t f j = some (ci f i)) ∧
      (r ∉ old → t f j = none) := by
  obtain ⟨t, h1, h2⟩ := carry_fold new ci old 0 (fun _ _ => none) h
  refine ⟨t, h1, fun f j r hj => ⟨fun i hi hl => ?_, (h2 f j r hj).2⟩⟩
  have := (h2 f j r hj).1 i hi hl
  rwa [Nat.zero_add] at this

/-- **C61**. Otherwise it raises an error. -/
theorem C61_ambiguous {C : Type} (old new : List (List Qn)) (ci : Nat → Nat → C) (r : List Qn) (hr : r ∈ old)
    (h : 1 < new.count r) : carry old new ci = none :=
  carry_fold_fail new ci old 0 _ r hr h

/-- **C61**. With old and new tables free of duplicates: the CI vector of old state `i` goes to the new state with the same
row and to no other. -/
theorem C61_exactly_one {C : Type} (old new : List (List Qn)) (ci : Nat → Nat → C) (ho : old.Nodup) (hn : new.Nodup) :
    ∃ t, carry old new ci = some t ∧ ∀ f (j : Nat), j < new.length → ∀ c,
      (t f j = some c ↔ ∃ i : Nat, old[i]? = new[j]? ∧ old[i]?.isSome ∧ c = ci f i) := by
  obtain ⟨t, h1, h2⟩ := C61_carry old new ci (fun r _ => List.nodup_iff_count_le_one.1 hn r)
  refine ⟨t, h1, fun f j hj c => ?_⟩
  have hj' : new[j]? = some new[j] := List.getElem?_eq_getElem hj
  obtain ⟨e1, e2⟩ := h2 f j _ hj'
  have huniq : ∀ i : Nat, old[i]? = some new[j] → ∀ i' : Nat, i < i' → old[i']? ≠ some new[j] := by
    intro i hi i' hii' hi'
    obtain ⟨a1, a2⟩ := List.getElem?_eq_some_iff.1 hi
    obtain ⟨b1, b2⟩ := List.getElem?_eq_some_iff.1 hi'
    have := (ho.getElem_inj_iff (hi := a1) (hj := b1)).1 (a2.trans b2.symm)
    omega
  rw [hj']
  constructor
  · intro hc
    by_cases hm : new[j] ∈ old
    · obtain ⟨i, hi, he⟩ := List.mem_iff_getElem.1 hm
      have hi' : old[i]? = some new[j] := by rw [List.getElem?_eq_getElem hi, he]
      have := e1 i hi' (huniq i hi')
      rw [hc, Option.some.injEq] at this
      exact ⟨i, hi', by rw [hi']; rfl, this⟩
    · rw [e2 hm] at hc
      cases hc
  · rintro ⟨i, hi, -, rfl⟩
    exact e1 i hi (huniq i hi)

/-- **C61**. For a table whose rows have one entry per fragment and whose spins have the parity of the electron number left
after charging, `get_space_info` afterwards returns exactly the requested table. -/
theorem C61_info (tab : List (List Qn)) (nelecs : List (Nat × Nat)) (hlen : ∀ row ∈ tab, row.length = nelecs.length)
    (hpar : ∀ row ∈ tab, ∀ p ∈ row.zip nelecs, ((p.2.1 : Int) + p.2.2 - p.1.charge + p.1.spin) % 2 = 0) :
    spaceInfoAll (mkSolvers tab) nelecs = tab := by
  unfold spaceInfoAll mkSolvers
  rw [List.map_map]
  conv_rhs => rw [← List.map_id tab]
  apply List.map_congr_left
  intro row hrow
  simp only [Function.comp, id]
  have hl := hlen row hrow
  have hp := hpar row hrow
  clear hlen hpar hrow
  induction row generalizing nelecs with
  | nil => simp
  | cons q row ih =>
    cases nelecs with
    | nil => simp at hl
    | cons n nelecs =>
      simp only [List.map_cons, List.zip_cons_cons]
      rw [ih nelecs (by simpa using hl) (fun p h => hp p (by simp [h]))]
      congr 1
      have := hp (q, n) (by simp)
      simp only at this
      rcases q with ⟨c, m, s, w⟩
      simp only [spaceInfo, mkSolver, getNelec, Option.getD_some, Qn.mk.injEq] at this ⊢
      refine ⟨by omega, by omega, trivial, trivial⟩

/-- **C61**. For a spin of the wrong parity the spin is kept, and the reported charge is one more than requested: the request
is accepted and silently changed. -/
theorem C61_info_wrong_parity (q : Qn) (nelec : Nat × Nat) (h : ((nelec.1 : Int) + nelec.2 - q.charge + q.spin) % 2 = 1) :
    spaceInfo (mkSolver q) nelec = { q with charge := q.charge + 1 } := by
  rcases q with ⟨c, m, s, w⟩
  simp only [spaceInfo, mkSolver, getNelec, Option.getD_some, Qn.mk.injEq] at h ⊢
  refine ⟨by omega, by omega, trivial, trivial⟩

/-- **C61**. The defaults describe the fragment's own electrons: no charge, and a spin of the right parity. -/
theorem C61_defaults (nelec : Nat × Nat) : spaceInfo (mkSolver (defaults nelec none none none none)) nelec =
    ⟨0, (nelec.1 : Int) - nelec.2, |(nelec.1 : Int) - nelec.2| + 1, 0⟩ ∧
    getNelec (mkSolver (defaults nelec none none none none)) nelec = ((nelec.1 : Int), (nelec.2 : Int)) := by
  constructor
  · simp only [spaceInfo, mkSolver, getNelec, defaults, Option.getD_some, Option.getD_none, Qn.mk.injEq]
    refine ⟨by omega, by omega, trivial, trivial⟩
  · simp only [mkSolver, getNelec, defaults, Option.getD_some, Option.getD_none, Prod.mk.injEq]
    constructor <;> omega

/-- **C62**. The duplicate check raises exactly when two different states have the same quantum numbers in all fragments. -/
theorem C62_exact (tab : List (List Qn)) :
    raisesDuplicates tab = true ↔ ∃ i j : Nat, i < j ∧ j < tab.length ∧ tab[i]? = tab[j]? := by
  have : raisesDuplicates tab = true ↔ ¬ tab.Nodup := by
    unfold raisesDuplicates
    rw [List.nodup_iff_count_le_one]
    simp only [List.any_map, List.any_eq_true, List.mem_dedup, Function.comp, decide_eq_true_eq, not_forall, not_le]
    constructor
    · rintro ⟨r, -, h⟩; exact ⟨r, h⟩
    · rintro ⟨r, h⟩; exact ⟨r, List.count_pos_iff.1 (by omega), h⟩
  rw [this, ← not_iff_not, not_not, List.nodup_iff_getElem?_ne_getElem?]
  constructor
  · rintro h ⟨i, j, h1, h2, h3⟩; exact h i j h1 h2 h3
  · intro h i j h1 h2 h3; exact h ⟨i, j, h1, h2, h3⟩

/-- Non-vacuity: two fragments, three old states, the first and third kept in the opposite order. -/
example : let q (c m : Int) : Qn := ⟨c, m, |m| + 1, 0⟩
    let old := [[q 0 0, q 0 0], [q 1 1, q (-1) 1], [q (-1) 1, q 1 1]]
    let new := [[q (-1) 1, q 1 1], [q 1 (-1), q (-1) 1], [q 0 0, q 0 0]]
    old.Nodup ∧ new.Nodup ∧ raisesDuplicates old = false ∧ raisesDuplicates (old ++ new) = true ∧
    ((carry old new (fun f i => 10 * f + i)).map (fun t => (t 0 0, t 1 0, t 0 1, t 0 2, t 1 2))) =
      some (some 2, some 12, none, some 0, some 10) ∧
    spaceInfoAll (mkSolvers new) [(1, 1), (2, 2)] = new := by decide

end Verif.Props
