import Verif.Model.Fbf
import Verif.Spec.Fbf
import Mathlib.Algebra.BigOperators.Group.Finset.Basic
import Mathlib.Tactic.IntervalCases
/-!
# Blocks of the basis of fragment wave functions
-/
namespace Verif.Fbf
open Verif.Spaces Verif.Lassis Verif.Spec

/-! ### Index ranges -/

theorem scan_append (i : Nat) (l m : List (Option Nat)) :
    (scan i (l ++ m)).1 = (scan i l).1 ++ (scan (scan i l).2 m).1 ∧ (scan i (l ++ m)).2 = (scan (scan i l).2 m).2 := by
  induction l generalizing i with
  | nil => exact ⟨rfl, rfl⟩
  | cons o os ih =>
    simp only [List.cons_append, scan]
    cases o <;> simp only [(ih _).1, (ih _).2, and_self]

theorem scan2_flatten (i : Nat) (L : List (List (Option Nat))) :
    (scan2 i L).1.flatten = (scan i L.flatten).1 ∧ (scan2 i L).2 = (scan i L.flatten).2 := by
  induction L generalizing i with
  | nil => exact ⟨rfl, rfl⟩
  | cons row rows ih =>
    simp only [scan2, List.flatten_cons, (scan_append i row rows.flatten).1, (scan_append i row rows.flatten).2,
      (ih _).1, (ih _).2, and_self]

theorem scan_length (i : Nat) (l : List (Option Nat)) : (scan i l).1.length = l.length := by
  induction l generalizing i with
  | nil => rfl
  | cons o os ih => simp [scan, ih]

theorem scan_getD (i : Nat) (l : List (Option Nat)) (k : Nat) (hk : k < l.length) :
    (scan i l).1[k]? = some (i + ((l.take k).map fun o => o.getD 0).sum, i + ((l.take (k + 1)).map fun o => o.getD 0).sum) := by
  induction l generalizing i k with
  | nil => simp at hk
  | cons o os ih =>
    cases k with
    | zero => cases o <;> simp [scan]
    | succ k =>
      have hk' : k < os.length := by simpa using hk
      cases o with
      | none => simpa [scan] using ih i k hk'
      | some c => simpa [scan, Nat.add_assoc] using ih (i + c) k hk'

theorem scan_snd (i : Nat) (l : List (Option Nat)) : (scan i l).2 = i + (l.map fun o => o.getD 0).sum := by
  induction l generalizing i with
  | nil => rfl
  | cons o os ih => cases o <;> simp [scan, ih, Nat.add_assoc]

theorem scan2_row_length (i : Nat) (L : List (List (Option Nat))) (c : Nat) (h : ∀ r ∈ L, r.length = c) :
    (scan2 i L).1.length = L.length ∧ ∀ r ∈ (scan2 i L).1, r.length = c := by
  induction L generalizing i with
  | nil => exact ⟨rfl, by simp [scan2]⟩
  | cons row rows ih =>
    obtain ⟨h1, h2⟩ := ih (scan i row).2 fun r hr => h r (by simp [hr])
    refine ⟨by simp [scan2, h1], fun r hr => ?_⟩
    simp only [scan2, List.mem_cons] at hr
    rcases hr with rfl | hr
    · rw [scan_length]; exact h row (by simp)
    · exact h2 r hr

theorem flatMap_rows {α : Type} (d : α) (L : List (List α)) (h : ∀ r ∈ L, r.length = 4) :
    ((List.range L.length).flatMap fun a => [(L.getD a []).getD 0 d, (L.getD a []).getD 1 d, (L.getD a []).getD 2 d,
      (L.getD a []).getD 3 d]) = L.flatten := by
  induction L with
  | nil => rfl
  | cons r rows ih =>
    have hr := h r (by simp)
    rw [List.length_cons, List.range_succ_eq_map, List.flatMap_cons, List.flatMap_map, List.flatten_cons]
    congr 1
    · match r, hr with
      | [a, b, c, e], _ => rfl
    · simpa using ih fun r hr => h r (by simp [hr])

theorem range4 : List.range 4 = [0, 1, 2, 3] := rfl

/-- Size of a set as the code sees it. -/
def optLen (len : Vec → Option Nat) : Vec → Option Nat
  | .ref _ => some 1
  | x => len x

theorem optLen_getD (len : Vec → Option Nat) (x : Vec) : (optLen len x).getD 0 = setSize len x := by
  cases x <;> rfl

theorem sets_rng (len : Vec → Option Nat) (n p : Nat) :
    (fbfSets n p).map (fbfIdx len n p).rng = (scan 0 ((fbfSets n p).map (optLen len))).1 ∧
      (n ≠ 0 → (fbfIdx len n p).nstates = ((fbfSets n p).map (setSize len)).sum) := by
  set L0 := (List.range n).map fun a => (List.range 4).map fun s => len (.hop p a s 0) with hL0
  set L1 := (List.range n).map fun j => (List.range 4).map fun s => len (.hop j p s 1) with hL1
  have h0 : ∀ r ∈ L0, r.length = 4 := by simp [hL0]
  have h1 : ∀ r ∈ L1, r.length = 4 := by simp [hL1]
  have hopt : (fbfSets n p).map (optLen len) = [some 1] ++ ([len (.flip p 0), len (.flip p 1)] ++ (L0.flatten ++ L1.flatten)) := by
    simp only [fbfSets, optLen, hL0, hL1, range4, List.map_append, List.map_cons, List.map_nil, List.map_flatMap,
      List.append_assoc, List.cons_append, List.nil_append]
    simp only [List.flatMap_def]
  set r1 := scan 1 [len (.flip p 0), len (.flip p 1)] with hr1
  set r2 := scan2 r1.2 L0 with hr2
  set r3 := scan2 r2.2 L1 with hr3
  have hidx : fbfIdx len n p = ⟨(0, 1), r1.1, r2.1, r3.1⟩ := rfl
  have hscan : (scan 0 ((fbfSets n p).map (optLen len))).1 = (0, 1) :: (r1.1 ++ (r2.1.flatten ++ r3.1.flatten)) ∧
      (scan 0 ((fbfSets n p).map (optLen len))).2 = r3.2 := by
    rw [hopt, (scan_append _ _ _).1, (scan_append _ _ _).2]
    have e : (scan 0 [some 1]).2 = 1 := rfl
    rw [e, (scan_append _ _ _).1, (scan_append _ _ _).2, ← hr1, (scan_append _ _ _).1, (scan_append _ _ _).2,
      ← (scan2_flatten r1.2 L0).1, ← (scan2_flatten r1.2 L0).2, ← hr2, ← (scan2_flatten r2.2 L1).1,
      ← (scan2_flatten r2.2 L1).2]
    exact ⟨rfl, rfl⟩
  have l0 := scan2_row_length r1.2 L0 4 h0
  have l1 := scan2_row_length r2.2 L1 4 h1
  have hn0 : r2.1.length = n := by rw [hr2, l0.1]; simp [hL0]
  have hn1 : r3.1.length = n := by rw [hr3, l1.1]; simp [hL1]
  refine ⟨?_, fun hn => ?_⟩
  · rw [hscan.1, hidx, ← flatMap_rows (0, 0) r2.1 l0.2, ← flatMap_rows (0, 0) r3.1 l1.2, hn0, hn1]
    have hr1l : [r1.1.getD 0 (0, 0), r1.1.getD 1 (0, 0)] = r1.1 := by
      rw [hr1]; simp [scan]
    rw [show r1.1 = [r1.1.getD 0 (0, 0), r1.1.getD 1 (0, 0)] from hr1l.symm]
    simp [fbfSets, Idx.rng, List.map_flatMap, hr1l]
  · have hsum : ((fbfSets n p).map (setSize len)).sum = r3.2 := by
      rw [← hscan.2, scan_snd, Nat.zero_add, List.map_map]
      congr 1
      exact List.map_congr_left fun x _ => (optLen_getD len x).symm
    rw [hsum, hidx]
    have hlast : ∀ (i : Nat) (L : List (List (Option Nat))), L ≠ [] → (∀ r ∈ L, r.length = 4) →
        (((scan2 i L).1.getLastD []).getLastD (0, 0)).2 = (scan2 i L).2 := by
      intro i L hL hr
      induction L generalizing i with
      | nil => exact absurd rfl hL
      | cons row rows ih =>
        by_cases hrs : rows = []
        · subst hrs
          have h4 := hr row (by simp)
          match row, h4 with
          | [a, b, c, e], _ => rfl
        · have := ih (scan i row).2 hrs fun r h => hr r (by simp [h])
          have hne : (scan2 (scan i row).2 rows).1 ≠ [] := by
            cases rows with
            | nil => exact absurd rfl hrs
            | cons a b => simp [scan2]
          simp only [scan2]
          rw [← this, List.getLastD_eq_getLast?, List.getLastD_eq_getLast?, List.getLast?_cons_of_ne_nil hne,
            List.getLastD_eq_getLast?, List.getLastD_eq_getLast?]
    exact hlast _ _ (by simp [hL1, hn]) h1

theorem sets_nodup (n p : Nat) : (fbfSets n p).Nodup := by
  have row : ∀ (g : Nat → Nat → Vec) , (∀ a s b t, g a s = g b t → a = b ∧ s = t) →
      ((List.range n).flatMap fun a => [g a 0, g a 1, g a 2, g a 3]).Nodup := by
    intro g hg
    rw [List.nodup_flatMap]
    refine ⟨fun a _ => ?_, List.nodup_range.imp fun {a b} hab => ?_⟩
    · simp only [List.nodup_cons, List.mem_cons, List.not_mem_nil, or_false, not_or, List.nodup_nil, not_false_eq_true, and_true]
      refine ⟨⟨?_, ?_, ?_⟩, ⟨?_, ?_⟩, ?_⟩ <;> · intro e; have := (hg _ _ _ _ e).2; omega
    · intro x hx hy
      simp only [List.mem_cons, List.not_mem_nil, or_false] at hx hy
      obtain ⟨s, rfl⟩ : ∃ s, x = g a s := by rcases hx with h | h | h | h <;> exact ⟨_, h⟩
      obtain ⟨t, e⟩ : ∃ t, g a s = g b t := by rcases hy with h | h | h | h <;> exact ⟨_, h⟩
      exact hab (hg _ _ _ _ e).1
  unfold fbfSets
  rw [List.nodup_append, List.nodup_append]
  refine ⟨⟨by simp, row (fun a s => .hop p a s 0) (by intro a s b t e; injection e; constructor <;> assumption), ?_⟩,
    row (fun j s => .hop j p s 1) (by intro a s b t e; injection e; constructor <;> assumption), ?_⟩
  · intro x hx y hy e
    subst e
    simp only [List.mem_flatMap, List.mem_cons, List.not_mem_nil, or_false] at hx hy
    obtain ⟨a, -, h⟩ := hy
    rcases hx with rfl | rfl | rfl <;> simp at h
  · intro x hx y hy e
    subst e
    simp only [List.mem_append, List.mem_flatMap, List.mem_cons, List.not_mem_nil, or_false] at hx hy
    obtain ⟨a, -, h⟩ := hy
    rcases hx with (rfl | rfl | rfl) | ⟨b, -, h'⟩
    · simp at h
    · simp at h
    · simp at h
    · rcases h with rfl | rfl | rfl | rfl <;> simp at h'

theorem mem_sets (n p : Nat) (x : Vec) : x ∈ fbfSets n p ↔ x = .ref p ∨ (∃ s < 2, x = .flip p s) ∨
    (∃ a < n, ∃ s < 4, x = .hop p a s 0) ∨ ∃ j < n, ∃ s < 4, x = .hop j p s 1 := by
  have four : ∀ (g : Nat → Vec), (x = g 0 ∨ x = g 1 ∨ x = g 2 ∨ x = g 3) ↔ ∃ s < 4, x = g s := by
    intro g
    constructor
    · rintro (h | h | h | h)
      · exact ⟨0, by omega, h⟩
      · exact ⟨1, by omega, h⟩
      · exact ⟨2, by omega, h⟩
      · exact ⟨3, by omega, h⟩
    · rintro ⟨s, hs, h⟩
      interval_cases s
      · exact Or.inl h
      · exact Or.inr (Or.inl h)
      · exact Or.inr (Or.inr (Or.inl h))
      · exact Or.inr (Or.inr (Or.inr h))
  have two : (x = .flip p 0 ∨ x = .flip p 1) ↔ ∃ s < 2, x = .flip p s := by
    constructor
    · rintro (h | h)
      · exact ⟨0, by omega, h⟩
      · exact ⟨1, by omega, h⟩
    · rintro ⟨s, hs, h⟩
      interval_cases s
      · exact Or.inl h
      · exact Or.inr h
  simp only [fbfSets, List.mem_append, List.mem_cons, List.mem_flatMap, List.not_mem_nil, or_false, List.mem_range]
  have f0 : ∀ a, _ := fun a => four fun s => .hop p a s 0
  have f1 : ∀ j, _ := fun j => four fun s => .hop j p s 1
  simp only [f0, f1, two, or_assoc]

theorem rng_eq (len : Vec → Option Nat) (n p : Nat) (x : Vec) (hx : x ∈ fbfSets n p) :
    (fbfIdx len n p).rng x = (firstFn len n p x, firstFn len n p x + setSize len x) := by
  set S := fbfSets n p with hS
  have hk : S.idxOf x < S.length := List.idxOf_lt_length_iff.2 hx
  have hxk : S[S.idxOf x] = x := List.getElem_idxOf hk
  have h := (sets_rng len n p).1
  have h1 : (S.map (fbfIdx len n p).rng)[S.idxOf x]? = some ((fbfIdx len n p).rng x) := by
    rw [List.getElem?_map, List.getElem?_eq_getElem hk, hxk]; rfl
  rw [← hS] at h
  rw [h, scan_getD _ _ _ (by simpa using hk)] at h1
  have hm : ∀ m, ((S.map (optLen len)).take m).map (fun o => o.getD 0) = (S.take m).map (setSize len) := by
    intro m
    rw [← List.map_take, List.map_map]
    exact List.map_congr_left fun y _ => optLen_getD len y
  rw [hm, hm, Nat.zero_add, Nat.zero_add, List.take_add_one, List.getElem?_eq_getElem hk, hxk] at h1
  simp only [Option.toList_some, List.map_append, List.map_cons, List.map_nil, List.sum_append, List.sum_cons, List.sum_nil,
    Nat.add_zero, Option.some.injEq] at h1
  exact h1.symm

theorem sublist_sum_le {l m : List Nat} (h : l.Sublist m) : l.sum ≤ m.sum := by
  induction h with
  | slnil => exact le_rfl
  | cons a _ ih => rw [List.sum_cons]; omega
  | cons_cons a _ ih => rw [List.sum_cons, List.sum_cons]; omega

theorem first_lt (len : Vec → Option Nat) (n p : Nat) (x y : Vec) (hx : x ∈ fbfSets n p)
    (h : (fbfSets n p).idxOf x < (fbfSets n p).idxOf y) : firstFn len n p x + setSize len x ≤ firstFn len n p y := by
  set S := fbfSets n p with hS
  have hk : S.idxOf x < S.length := List.idxOf_lt_length_iff.2 hx
  have hxk : S[S.idxOf x] = x := List.getElem_idxOf hk
  unfold firstFn
  rw [← hS]
  have e : ((S.take (S.idxOf x + 1)).map (setSize len)).sum =
      ((S.take (S.idxOf x)).map (setSize len)).sum + setSize len x := by
    rw [List.take_add_one, List.getElem?_eq_getElem hk, hxk]
    simp
  rw [← e]
  have hs : (S.take (S.idxOf x + 1)).Sublist (S.take (S.idxOf y)) := by
    have : S.take (S.idxOf x + 1) = (S.take (S.idxOf y)).take (S.idxOf x + 1) := by
      rw [List.take_take, Nat.min_eq_left (by omega)]
    rw [this]
    exact List.take_sublist _ _
  exact sublist_sum_le (hs.map _)

theorem block_unique (len : Vec → Option Nat) (n p : Nat) (x y : Vec) (hx : x ∈ fbfSets n p) (hy : y ∈ fbfSets n p)
    (a b : Nat) (ha : a < setSize len x) (hb : b < setSize len y)
    (e : firstFn len n p x + a = firstFn len n p y + b) : x = y ∧ a = b := by
  have hxy : x = y := by
    rcases Nat.lt_trichotomy ((fbfSets n p).idxOf x) ((fbfSets n p).idxOf y) with h | h | h
    · have := first_lt len n p x y hx h; omega
    · exact (List.idxOf_inj hx).1 h
    · have := first_lt len n p y x hy h; omega
  subst hxy
  exact ⟨rfl, by omega⟩

theorem block_exists (len : Vec → Option Nat) (n p u : Nat) (hu : u < ((fbfSets n p).map (setSize len)).sum) :
    ∃ x ∈ fbfSets n p, ∃ a < setSize len x, u = firstFn len n p x + a := by
  have key : ∀ m, m ≤ (fbfSets n p).length → u < (((fbfSets n p).take m).map (setSize len)).sum →
      ∃ x ∈ fbfSets n p, ∃ a < setSize len x, u = firstFn len n p x + a := by
    intro m
    induction m with
    | zero => intro _ h; simp at h
    | succ m ih =>
      intro hm h
      by_cases hlt : u < (((fbfSets n p).take m).map (setSize len)).sum
      · exact ih (by omega) hlt
      · have hk : m < (fbfSets n p).length := by omega
        rw [List.take_add_one, List.getElem?_eq_getElem hk] at h
        simp only [Option.toList_some, List.map_append, List.map_cons, List.map_nil, List.sum_append, List.sum_cons,
          List.sum_nil, Nat.add_zero] at h
        have hi : (fbfSets n p).idxOf (fbfSets n p)[m] = m := (sets_nodup n p).idxOf_getElem m hk
        refine ⟨(fbfSets n p)[m], List.getElem_mem hk, u - (((fbfSets n p).take m).map (setSize len)).sum, by omega, ?_⟩
        rw [firstFn, hi]
        omega
  have := key _ le_rfl
  rw [List.take_length] at this
  exact this hu

theorem in_block (len : Vec → Option Nat) (n p : Nat) (x y : Vec) (hx : x ∈ fbfSets n p) (hy : y ∈ fbfSets n p) (a : Nat)
    (ha : a < setSize len x) :
    (((fbfIdx len n p).rng y).1 ≤ firstFn len n p x + a ∧ firstFn len n p x + a < ((fbfIdx len n p).rng y).2) ↔ y = x := by
  rw [rng_eq len n p y hy]
  constructor
  · rintro ⟨h1, h2⟩
    exact (block_unique len n p x y hx hy a (firstFn len n p x + a - firstFn len n p y) ha (by simp only at h1 h2; omega)
      (by simp only at h1 h2; omega)).1.symm
  · rintro rfl
    simp only; omega

variable {K V : Type}

theorem foldl_set (len : Vec → Option Nat) (n p : Nat) (F : Vec → Vec → Nat → Nat → K) (l : List (Vec × Vec))
    (hl : ∀ xy ∈ l, xy.1 ∈ fbfSets n p ∧ xy.2 ∈ fbfSets n p) (m : Nat → Nat → K) (x y : Vec) (hx : x ∈ fbfSets n p)
    (hy : y ∈ fbfSets n p) (a b : Nat) (ha : a < setSize len x) (hb : b < setSize len y) :
    l.foldl (fun m xy => setBlock ((fbfIdx len n p).rng xy.1) ((fbfIdx len n p).rng xy.2) (F xy.1 xy.2) m) m
        (firstFn len n p x + a) (firstFn len n p y + b) =
      if (x, y) ∈ l then F x y a b else m (firstFn len n p x + a) (firstFn len n p y + b) := by
  induction l generalizing m with
  | nil => simp
  | cons xy l ih =>
    have h1 := hl xy (by simp)
    rw [List.foldl_cons, ih fun z hz => hl z (by simp [hz])]
    by_cases hm : (x, y) ∈ l
    · rw [if_pos hm, if_pos (by simp [hm])]
    · rw [if_neg hm]
      unfold setBlock
      simp only [in_block len n p x xy.1 hx h1.1 a ha, in_block len n p y xy.2 hy h1.2 b hb]
      by_cases he : xy = (x, y)
      · subst he
        rw [if_pos ⟨rfl, rfl⟩, if_pos (by simp), rng_eq len n p x hx, rng_eq len n p y hy]
        simp
      · rw [if_neg (by rintro ⟨e1, e2⟩; exact he (Prod.ext e1 e2)), if_neg (by simp only [List.mem_cons, not_or]; exact ⟨Ne.symm he, hm⟩)]

theorem foldl_add [AddCommMonoid K] (len : Vec → Option Nat) (n p : Nat) (F : Vec → Vec → Nat → Nat → K)
    (m : Nat → Nat → K) (x y x' y' : Vec) (hx : x ∈ fbfSets n p) (hy : y ∈ fbfSets n p) (hx' : x' ∈ fbfSets n p)
    (hy' : y' ∈ fbfSets n p) (a b : Nat) (ha : a < setSize len x) (hb : b < setSize len y) (G : Nat → Nat → Nat → Nat → K)
    (l : List (Nat × Nat)) :
    l.foldl (fun m ij => addBlock ((fbfIdx len n p).rng x') ((fbfIdx len n p).rng y') (G ij.1 ij.2) m) m
        (firstFn len n p x + a) (firstFn len n p y + b) =
      m (firstFn len n p x + a) (firstFn len n p y + b) +
        if x' = x ∧ y' = y then (l.map fun ij => G ij.1 ij.2 a b).sum else 0 := by
  induction l generalizing m with
  | nil => simp
  | cons ij l ih =>
    rw [List.foldl_cons, ih]
    unfold addBlock
    simp only [in_block len n p x x' hx hx' a ha, in_block len n p y y' hy hy' b hb]
    by_cases he : x' = x ∧ y' = y
    · obtain ⟨rfl, rfl⟩ := he
      simp only [and_self, if_true, List.map_cons, List.sum_cons, rng_eq len n p _ hx', rng_eq len n p _ hy',
        Nat.add_sub_cancel_left]
      rw [add_assoc]
    · simp only [if_neg he, add_zero]

theorem foldl_add2 [AddCommMonoid K] (len : Vec → Option Nat) (n p : Nat) (G : Nat → Nat → Nat → Nat → K)
    (R : Vec → List Nat) (bl : List (Vec × Vec)) (hbl : ∀ xy ∈ bl, xy.1 ∈ fbfSets n p ∧ xy.2 ∈ fbfSets n p)
    (hnd : bl.Nodup) (m : Nat → Nat → K) (x y : Vec) (hx : x ∈ fbfSets n p) (hy : y ∈ fbfSets n p) (a b : Nat)
    (ha : a < setSize len x) (hb : b < setSize len y) :
    bl.foldl (fun m xy => ((R xy.1).flatMap fun ix => (R xy.2).map fun jx => (ix, jx)).foldl
        (fun m ij => addBlock ((fbfIdx len n p).rng xy.1) ((fbfIdx len n p).rng xy.2) (G ij.1 ij.2) m) m) m
        (firstFn len n p x + a) (firstFn len n p y + b) =
      m (firstFn len n p x + a) (firstFn len n p y + b) +
        if (x, y) ∈ bl then ((R x).map fun ix => ((R y).map fun jx => G ix jx a b).sum).sum else 0 := by
  induction bl generalizing m with
  | nil => simp
  | cons xy bl ih =>
    obtain ⟨h1, h2⟩ := hbl xy (by simp)
    rw [List.nodup_cons] at hnd
    rw [List.foldl_cons, ih (fun z hz => hbl z (by simp [hz])) hnd.2, foldl_add len n p (fun _ _ _ _ => (0 : K)) m x y xy.1 xy.2 hx hy h1 h2
      a b ha hb G, add_assoc]
    congr 1
    have hflat : (((R xy.1).flatMap fun ix => (R xy.2).map fun jx => (ix, jx)).map fun ij => G ij.1 ij.2 a b).sum =
        ((R xy.1).map fun ix => ((R xy.2).map fun jx => G ix jx a b).sum).sum := by
      rw [List.map_flatMap, List.flatMap_def, List.sum_flatten, List.map_map]
      simp [Function.comp_def]
    rw [hflat]
    by_cases he : xy = (x, y)
    · subst he
      rw [if_pos ⟨rfl, rfl⟩, if_neg hnd.1, if_pos (by simp), add_zero]
    · rw [if_neg (by rintro ⟨e1, e2⟩; exact he (Prod.ext e1 e2)), zero_add]
      simp only [List.mem_cons, Ne.symm he, false_or]

end Verif.Fbf
