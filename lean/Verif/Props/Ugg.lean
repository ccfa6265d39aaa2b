import Verif.Model.Ugg
import Verif.Spec.Ugg
import Mathlib.Tactic.Ring
import Mathlib.Data.List.GetD
/-!
# C86-C88: the coordinates of a LASSCF problem
-/
namespace Verif.Props
open Verif.Ugg Verif.Spec.Ugg

namespace UggL

theorem frag_iff (l : List Nat) (p i : Nat) (hi : i < l.length) :
    frag l p = i ↔ (l.take i).sum ≤ p ∧ p < (l.take (i + 1)).sum := by
  induction l generalizing p i with
  | nil => simp at hi
  | cons n l ih =>
    cases i with
    | zero =>
      simp only [frag, List.take_zero, List.sum_nil, List.take_succ_cons, List.sum_cons]
      split <;> omega
    | succ i =>
      simp only [frag, List.take_succ_cons, List.sum_cons]
      have := ih (p - n) i (by simpa using hi)
      split <;> omega

theorem frag_le (l : List Nat) (p : Nat) : frag l p ≤ l.length ∧ (frag l p = l.length ↔ l.sum ≤ p) := by
  induction l generalizing p with
  | nil => simp [frag]
  | cons n l ih =>
    have := ih (p - n)
    simp only [frag, List.length_cons, List.sum_cons]
    split <;> omega

theorem subSlice_getD (c : Nat) (l : List Nat) (i : Nat) (hi : i ≤ l.length) : (subSlice c l).getD i 0 = c + (l.take i).sum := by
  induction l generalizing c i with
  | nil => simp at hi; subst hi; rfl
  | cons n l ih =>
    cases i with
    | zero => simp [subSlice]
    | succ i =>
      simp only [subSlice, List.getD_cons_succ, List.take_succ_cons, List.sum_cons]
      rw [ih _ _ (by simpa using hi)]
      omega

theorem subSlice_head (c : Nat) (l : List Nat) : (subSlice c l).headD 0 = c := by cases l <;> rfl

theorem subSlice_last (c : Nat) (l : List Nat) : (subSlice c l).getLastD 0 = c + l.sum := by
  induction l generalizing c with
  | nil => rfl
  | cons n l ih =>
    have := ih (c + n)
    cases l with
    | nil => simp [subSlice]
    | cons m l =>
      simp only [subSlice, List.getLastD_cons, List.sum_cons] at this ⊢
      omega

theorem foldl_true {α : Type*} (L : List α) (f : Mask → α → Mask) (In : α → Nat → Nat → Prop)
    (hf : ∀ A x p q, f A x p q = true ↔ A p q = true ∨ In x p q) (A : Mask) (p q : Nat) :
    L.foldl f A p q = true ↔ A p q = true ∨ ∃ x ∈ L, In x p q := by
  induction L generalizing A with
  | nil => simp
  | cons x L ih => rw [List.foldl_cons, ih, hf]; simp [or_assoc]

theorem setRect_true (n r0 r1 c0 c1 : Nat) (A : Mask) (p q : Nat) : setRect n true r0 r1 c0 c1 A p q = true ↔
    A p q = true ∨ (r0 ≤ p ∧ p < r1 ∧ p < n ∧ c0 ≤ q ∧ q < c1 ∧ q < n) := by
  unfold setRect
  split <;> simp_all

theorem cls_cases (ncore : Nat) (ncas : List Nat) (p : Nat) :
    (cls ncore ncas p = 0 ∧ p < ncore) ∨
    (∃ i < ncas.length, cls ncore ncas p = i + 1 ∧ ncore + (ncas.take i).sum ≤ p ∧ p < ncore + (ncas.take (i + 1)).sum) ∨
    (cls ncore ncas p = ncas.length + 1 ∧ ncore + ncas.sum ≤ p) := by
  unfold cls
  split
  · exact Or.inl ⟨rfl, by assumption⟩
  · right
    have h := frag_le ncas (p - ncore)
    by_cases e : frag ncas (p - ncore) = ncas.length
    · right
      have := h.2.1 e
      omega
    · left
      refine ⟨_, lt_of_le_of_ne h.1 e, rfl, ?_⟩
      have := (frag_iff ncas (p - ncore) _ (lt_of_le_of_ne h.1 e)).1 rfl
      omega

theorem sum_take_le (l : List Nat) (i : Nat) : (l.take i).sum ≤ l.sum := by
  rw [← List.take_append_drop i l, List.sum_append]
  simp

theorem sum_take_mono (l : List Nat) (i j : Nat) (h : i ≤ j) : (l.take i).sum ≤ (l.take j).sum := by
  have := sum_take_le (l.take j) i
  rwa [List.take_take, min_eq_left h] at this

theorem active_iff (ncore : Nat) (ncas : List Nat) (p : Nat) :
    Active ncore ncas p ↔ 0 < cls ncore ncas p ∧ cls ncore ncas p ≤ ncas.length := by
  unfold Active
  rcases cls_cases ncore ncas p with h | ⟨i, hi, h⟩ | h
  · omega
  · have := sum_take_le ncas (i + 1)
    omega
  · omega

end UggL
open UggL

/-- **C86** The coordinates for orbital rotations: the pair `(p, q)` is one exactly if `q` belongs to an earlier class of orbitals
(inactive, first fragment, second fragment, …, virtual) than `p`. -/
theorem C86_mask (nmo ncore : Nat) (ncas : List Nat) (p q : Nat) (hp : p < nmo) (hq : q < nmo) :
    allNonredundant nmo ncore ncas p q = true ↔ cls ncore ncas q < cls ncore ncas p := by
  unfold allNonredundant
  simp only [subSlice_head, subSlice_last]
  rw [foldl_true _ _ (fun ix1 p q => ∃ ix2 ∈ List.range ix1, (subSlice ncore ncas).getD ix1 0 ≤ p ∧
    p < (subSlice ncore ncas).getD (ix1 + 1) 0 ∧ p < nmo ∧ (subSlice ncore ncas).getD ix2 0 ≤ q ∧
    q < (subSlice ncore ncas).getD (ix2 + 1) 0 ∧ q < nmo)
    (fun A x p q => foldl_true (List.range x) (fun idx ix2 => setRect nmo true ((subSlice ncore ncas).getD x 0)
      ((subSlice ncore ncas).getD (x + 1) 0) ((subSlice ncore ncas).getD ix2 0) ((subSlice ncore ncas).getD (ix2 + 1) 0) idx) _
      (fun A y p q => setRect_true ..) A p q)]
  simp only [setRect_true, Bool.false_eq_true, false_or, List.mem_range]
  constructor
  · rintro (((h | h) | h) | ⟨i, hi, j, hj, h⟩)
    · rcases cls_cases ncore ncas p with h1 | ⟨i, hi, h1⟩ | h1 <;> rcases cls_cases ncore ncas q with h2 | ⟨j, hj, h2⟩ | h2 <;> omega
    · rcases cls_cases ncore ncas p with h1 | ⟨i, hi, h1⟩ | h1
      · omega
      · have := sum_take_le ncas (i + 1); omega
      · rcases cls_cases ncore ncas q with h2 | ⟨j, hj, h2⟩ | h2 <;> omega
    · rcases cls_cases ncore ncas p with h1 | ⟨i, hi, h1⟩ | h1 <;> rcases cls_cases ncore ncas q with h2 | ⟨j, hj, h2⟩ | h2 <;> omega
    · rw [subSlice_getD _ _ _ (by omega), subSlice_getD _ _ _ (by omega), subSlice_getD _ _ _ (by omega),
        subSlice_getD _ _ _ (by omega)] at h
      have h1 : frag ncas (p - ncore) = i := (frag_iff _ _ _ hi).2 (by omega)
      have h2 : frag ncas (q - ncore) = j := (frag_iff _ _ _ (by omega)).2 (by omega)
      unfold cls
      rw [if_neg (by omega), if_neg (by omega), h1, h2]
      omega
  · intro hlt
    rcases cls_cases ncore ncas p with h1 | ⟨i, hi, h1⟩ | h1
    · omega
    · rcases cls_cases ncore ncas q with h2 | ⟨j, hj, h2⟩ | h2
      · left; left; left; omega
      · right
        refine ⟨i, hi, j, by omega, ?_⟩
        rw [subSlice_getD _ _ _ (by omega), subSlice_getD _ _ _ (by omega), subSlice_getD _ _ _ (by omega),
          subSlice_getD _ _ _ (by omega)]
        omega
      · omega
    · rcases cls_cases ncore ncas q with h2 | ⟨j, hj, h2⟩ | h2
      · left; left; left; omega
      · left; left; right
        have := sum_take_le ncas (j + 1); omega
      · omega

/-- **C86** Two different classes: one coordinate for every pair of orbitals; the same class: none. -/
theorem C86_once (nmo ncore : Nat) (ncas : List Nat) (p q : Nat) (hp : p < nmo) (hq : q < nmo) :
    (cls ncore ncas p ≠ cls ncore ncas q →
      (allNonredundant nmo ncore ncas p q = true ↔ ¬ allNonredundant nmo ncore ncas q p = true)) ∧
    (cls ncore ncas p = cls ncore ncas q →
      allNonredundant nmo ncore ncas p q = false ∧ allNonredundant nmo ncore ncas q p = false) := by
  constructor
  · intro h
    rw [C86_mask _ _ _ _ _ hp hq, C86_mask _ _ _ _ _ hq hp]
    omega
  · intro h
    rw [← Bool.not_eq_true, ← Bool.not_eq_true, C86_mask _ _ _ _ _ hp hq, C86_mask _ _ _ _ _ hq hp]
    omega

/-- **C86** With frozen orbitals and point-group symmetry: the pairs of C86_mask without a frozen orbital and of the same irrep. The
full-LASSCF problem has no other coordinates. -/
theorem C86_lasscf (nmo ncore : Nat) (ncas : List Nat) (frozen : Option (List Nat)) (orbsym : Nat → Nat) (m : Mask × Mask)
    (h : initOrb nmo ncore ncas frozen = some m) (p q : Nat) (hp : p < nmo) (hq : q < nmo) :
    (m.2 p q = true ↔ cls ncore ncas q < cls ncore ncas p ∧ ∀ fr ∈ frozen, p ∉ fr ∧ q ∉ fr) ∧
    ((symmForbid orbsym m).2 p q = true ↔ m.2 p q = true ∧ orbsym p = orbsym q) ∧
    gxIdx m p q = false ∧ gxIdx (symmForbid orbsym m) p q = false := by
  have hx : orbsym p ^^^ orbsym q = 0 ↔ orbsym p = orbsym q := by
    constructor
    · intro h
      have := congrArg (· ^^^ orbsym q) h
      simpa [Nat.xor_assoc] using this
    · intro h; simp [h]
  unfold initOrb nfrzOrbIdx at h
  rcases frozen with _ | fr
  · simp only [Option.bind_eq_bind, Option.bind_some, Option.pure_def, Option.some.injEq] at h
    subst h
    refine ⟨by simp [C86_mask _ _ _ _ _ hp hq], ?_, ?_, ?_⟩
    · simp only [symmForbid, ne_eq, hx]; split <;> simp_all
    · simp [gxIdx]
    · simp [gxIdx, symmForbid]
  · dsimp only at h
    split at h
    · simp only [Option.bind_eq_bind, Option.bind_some, Option.pure_def, Option.some.injEq] at h
      subst h
      refine ⟨?_, ?_, ?_, ?_⟩
      · simp only [Option.mem_def, Option.some.injEq, forall_eq']
        split
        · simp_all; tauto
        · rw [C86_mask _ _ _ _ _ hp hq]; tauto
      · simp only [symmForbid, ne_eq, hx]; split <;> simp_all
      · simp [gxIdx]
      · simp [gxIdx, symmForbid]
    · simp at h

/-- **C86** In the LASPSCF problem (active orbitals fixed relative to the others) the nonredundant pairs split: rotations among
fragments and between inactive and virtual orbitals are coordinates, those between active and other orbitals are the rest `gx`. -/
theorem C86_laspscf (nmo ncore : Nat) (ncas : List Nat) (frozen : Option (List Nat)) (m : Mask × Mask)
    (h : initOrbP nmo ncore ncas frozen = some m) (p q : Nat) (hp : p < nmo) (hq : q < nmo) :
    (m.1 p q = true ↔ cls ncore ncas q < cls ncore ncas p ∧ ∀ fr ∈ frozen, p ∉ fr ∧ q ∉ fr) ∧
    (m.2 p q = true ↔ m.1 p q = true ∧ (Active ncore ncas p ↔ Active ncore ncas q)) ∧
    (gxIdx m p q = true ↔ m.1 p q = true ∧ ¬(Active ncore ncas p ↔ Active ncore ncas q)) := by
  unfold initOrbP at h
  simp only [Option.bind_eq_bind, Option.pure_def, Option.bind_eq_some_iff, Option.some.injEq] at h
  obtain ⟨z, hz, rfl⟩ := h
  have hz' : z p q = true ↔ cls ncore ncas q < cls ncore ncas p ∧ ∀ fr ∈ frozen, p ∉ fr ∧ q ∉ fr :=
    (C86_lasscf nmo ncore ncas frozen (fun _ => 0) (z, z) (by simp [initOrb, hz]) p q hp hq).1
  have h2 : setRect nmo false (ncore + ncas.sum) nmo ncore (ncore + ncas.sum)
      (setRect nmo false ncore (ncore + ncas.sum) 0 ncore z) p q = true ↔
      z p q = true ∧ (Active ncore ncas p ↔ Active ncore ncas q) := by
    by_cases hzt : z p q = true
    · have hlt := (hz'.1 hzt).1
      have a1 := cls_cases ncore ncas p
      have a2 := cls_cases ncore ncas q
      simp only [setRect, Active]
      split
      · rename_i hh
        simp only [Bool.false_eq_true, false_iff, not_and]
        intro _ hiff
        have := hiff.2 (by omega)
        omega
      · split
        · rename_i hh
          simp only [Bool.false_eq_true, false_iff, not_and]
          intro _ hiff
          have := hiff.1 (by omega)
          omega
        · simp only [hzt, true_and, true_iff]
          rcases a1 with a1 | ⟨i, hi, a1⟩ | a1
          · omega
          · have := sum_take_le ncas (i + 1)
            rcases a2 with a2 | ⟨j, hj, a2⟩ | a2
            · omega
            · have := sum_take_le ncas (j + 1)
              constructor <;> intro <;> omega
            · omega
          · rcases a2 with a2 | ⟨j, hj, a2⟩ | a2
            · constructor <;> intro <;> omega
            · have := sum_take_le ncas (j + 1)
              omega
            · omega
    · simp only [setRect]
      have : z p q = false := by simpa using hzt
      split
      · simp [this]
      · split <;> simp [this]
  refine ⟨hz', h2, ?_⟩
  simp only [gxIdx, Bool.and_eq_true, Bool.not_eq_true', ← Bool.not_eq_true, h2]
  tauto

/-- A molecule with one inactive orbital, fragments of two and one orbitals, two virtual orbitals, orbital 2 frozen. -/
example : (initOrbP 6 1 [2, 1] (some [2])).isSome ∧ (initOrb 6 1 [2, 1] none).isSome ∧
    positions 6 (allNonredundant 6 1 [2, 1]) =
      [(1, 0), (2, 0), (3, 0), (3, 1), (3, 2), (4, 0), (4, 1), (4, 2), (4, 3), (5, 0), (5, 1), (5, 2), (5, 3)] := by
  decide

end Verif.Props
