import Verif.Model.Fsucc
import Verif.Spec.Fsucc
import Mathlib.Data.Nat.Bitwise
import Mathlib.Data.List.Nodup
import Mathlib.Data.List.Perm.Basic
import Mathlib.Algebra.BigOperators.Ring.List
import Mathlib.Data.List.Range
import Mathlib.Tactic.Ring
import Mathlib.Tactic.LinearCombination
/-!
# Lemmas on fsucc.c
-/
namespace Verif.Fsucc
open Verif.Spec.Fsucc

variable {K : Type}

theorem and_bit (m p : Nat) : (m &&& (1 <<< p) ≠ 0) ↔ m.testBit p = true := by
  rw [Nat.one_shiftLeft, Nat.and_two_pow]
  cases m.testBit p <;> simp

theorem testBit_insertZero (p d j : Nat) :
    (insertZero p d).testBit j = if j < p then d.testBit j else if j = p then false else d.testBit (j - 1) := by
  unfold insertZero
  rw [Nat.testBit_or, Nat.testBit_shiftLeft, Nat.testBit_shiftRight, Nat.testBit_and, Nat.one_shiftLeft,
    Nat.testBit_two_pow_sub_one]
  rcases lt_trichotomy j p with h | h | h
  · simp [h, show ¬ p + 1 ≤ j by omega]
  · simp [h]
  · simp [show ¬ j < p by omega, show ¬ j = p by omega, show p + 1 ≤ j by omega,
      show p + (j - (p + 1)) = j - 1 by omega]

theorem insertZero_inj (p : Nat) {d d' : Nat} (h : insertZero p d = insertZero p d') : d = d' := by
  apply Nat.eq_of_testBit_eq
  intro i
  by_cases hi : i < p
  · have := congrArg (fun x => x.testBit i) h
    simpa [testBit_insertZero, hi] using this
  · have := congrArg (fun x => x.testBit (i + 1)) h
    simpa [testBit_insertZero, show ¬ i + 1 < p by omega, show ¬ i + 1 = p by omega] using this

/-- Delete the bit `p`. -/
def removeBit (p d : Nat) : Nat := ((d >>> (p + 1)) <<< p) ||| (d % 2 ^ p)

theorem testBit_removeBit (p d j : Nat) :
    (removeBit p d).testBit j = if j < p then d.testBit j else d.testBit (j + 1) := by
  unfold removeBit
  rw [Nat.testBit_or, Nat.testBit_shiftLeft, Nat.testBit_shiftRight, Nat.testBit_mod_two_pow]
  by_cases h : j < p
  · simp [h, show ¬ p ≤ j by omega]
  · simp [h, show p ≤ j by omega, show p + 1 + (j - p) = j + 1 by omega]

theorem insertZero_removeBit {p d : Nat} (h : d.testBit p = false) : insertZero p (removeBit p d) = d := by
  apply Nat.eq_of_testBit_eq
  intro i
  rw [testBit_insertZero]
  split
  · rw [testBit_removeBit, if_pos (by omega)]
  · split
    · simp_all
    · rw [testBit_removeBit, if_neg (by omega), show i - 1 + 1 = i by omega]

theorem lt_two_pow_iff (d k : Nat) : d < 2 ^ k ↔ ∀ j, k ≤ j → d.testBit j = false := by
  constructor
  · intro h j hj
    exact Nat.testBit_lt_two_pow (lt_of_lt_of_le h (Nat.pow_le_pow_right (by omega) hj))
  · intro h
    exact Nat.lt_pow_two_of_testBit d (fun i hi => h i hi)

theorem insertZero_lt {p d k : Nat} (hp : p ≤ k) : insertZero p d < 2 ^ (k + 1) ↔ d < 2 ^ k := by
  rw [lt_two_pow_iff, lt_two_pow_iff]
  constructor
  · intro h j hj
    have := h (j + 1) (by omega)
    rwa [testBit_insertZero, if_neg (by omega), if_neg (by omega)] at this
  · intro h j hj
    rw [testBit_insertZero, if_neg (by omega), if_neg (by omega)]
    exact h _ (by omega)

/-- The loop of `expand` up to orbital `n`. -/
theorem expand_succ (n mask d : Nat) :
    expand (n + 1) mask d = if mask.testBit n then insertZero n (expand n mask d) else expand n mask d := by
  unfold expand
  rw [List.range_succ, List.foldl_append]
  simp only [List.foldl_cons, List.foldl_nil, and_bit]

theorem expand_inj (n mask : Nat) {d d' : Nat} (h : expand n mask d = expand n mask d') : d = d' := by
  induction n with
  | zero => exact h
  | succ n ih =>
    rw [expand_succ, expand_succ] at h
    split at h
    · exact ih (insertZero_inj _ h)
    · exact ih h

theorem expand_bits (n mask d p : Nat) (hp : p < n) (hm : mask.testBit p = true) :
    (expand n mask d).testBit p = false := by
  induction n with
  | zero => omega
  | succ n ih =>
    rw [expand_succ]
    split
    · rw [testBit_insertZero]
      split
      · exact ih (by omega)
      · rw [if_pos (by omega)]
    · rename_i hn
      have : p ≠ n := by rintro rfl; exact hn hm
      exact ih (by omega)

theorem expand_surj (n mask D : Nat) (h : ∀ p < n, mask.testBit p = true → D.testBit p = false) :
    ∃ d, expand n mask d = D := by
  induction n generalizing D with
  | zero => exact ⟨D, rfl⟩
  | succ n ih =>
    by_cases hn : mask.testBit n = true
    · obtain ⟨d, hd⟩ := ih (removeBit n D) (by
        intro p hp hm
        rw [testBit_removeBit, if_pos hp]
        exact h p (by omega) hm)
      refine ⟨d, ?_⟩
      rw [expand_succ, if_pos hn, hd, insertZero_removeBit (h n (by omega) hn)]
    · obtain ⟨d, hd⟩ := ih D (fun p hp => h p (by omega))
      exact ⟨d, by rw [expand_succ, if_neg hn, hd]⟩

/-- Number of set bits of `mask` below `n`. -/
def cntBits (mask : Nat) : Nat → Nat
  | 0 => 0
  | n + 1 => cntBits mask n + if mask.testBit n then 1 else 0

theorem cntBits_le (mask n : Nat) : cntBits mask n ≤ n := by
  induction n with
  | zero => simp [cntBits]
  | succ n ih => simp only [cntBits]; split <;> omega

theorem cntBits_mono (mask : Nat) {m n : Nat} (h : m ≤ n) : cntBits mask n ≤ cntBits mask m + (n - m) := by
  induction n with
  | zero => simp [cntBits]
  | succ n ih =>
    rcases Nat.lt_or_ge n m with h' | h'
    · have : m = n + 1 := by omega
      subst this; omega
    · have := ih h'
      simp only [cntBits]; split <;> omega

theorem expand_lt (n mask d k : Nat) (hk : n ≤ k + cntBits mask n) :
    expand n mask d < 2 ^ (k + cntBits mask n) ↔ d < 2 ^ k := by
  induction n with
  | zero => simp [expand, cntBits]
  | succ n ih =>
    rw [expand_succ]
    simp only [cntBits] at hk ⊢
    split
    · rename_i h
      rw [if_pos h] at hk
      rw [← Nat.add_assoc, insertZero_lt (by omega)]
      exact ih (by omega)
    · rename_i h
      rw [if_neg h] at hk
      exact ih (by omega)

theorem ndet_eq (norb mask : Nat) : ndet norb mask = 2 ^ (norb - cntBits mask norb) := by
  have h : ∀ n, ∀ k, n ≤ k → (List.range n).foldl (fun m r => if mask &&& (1 <<< r) ≠ 0 then m >>> 1 else m) (2 ^ k) =
      2 ^ (k - cntBits mask n) := by
    intro n k hk
    induction n with
    | zero => simp [cntBits]
    | succ n ih =>
      rw [List.range_succ, List.foldl_append, ih (by omega)]
      simp only [List.foldl_cons, List.foldl_nil, and_bit, cntBits]
      split
      · have := cntBits_le mask n
        rw [Nat.shiftRight_eq_div_pow, show k - cntBits mask n = (k - (cntBits mask n + 1)) + 1 by omega,
          Nat.pow_succ]
        simp
      · simp
  unfold ndet
  rw [Nat.one_shiftLeft]
  exact h norb norb le_rfl

theorem expand_lt_iff (norb mask d : Nat) : expand norb mask d < 2 ^ norb ↔ d < ndet norb mask := by
  have hc := cntBits_le mask norb
  have := expand_lt norb mask d (norb - cntBits mask norb) (by omega)
  rw [show norb - cntBits mask norb + cntBits mask norb = norb by omega] at this
  rw [this, ndet_eq]

/-! ### Determinants of the operator strings -/

theorem detOf_some {l : List Nat} {d e : Nat} (h : detOf l d = some e) :
    l.Nodup ∧ (∀ x ∈ l, d.testBit x = false) ∧ ∀ x, e.testBit x = (d.testBit x || decide (x ∈ l)) := by
  induction l generalizing d with
  | nil =>
    simp only [detOf, Option.some.injEq] at h
    simp [h]
  | cons x l ih =>
    rw [detOf] at h
    split at h
    · cases h
    · rename_i hx
      rw [and_bit] at hx
      obtain ⟨h1, h2, h3⟩ := ih h
      have hb : ∀ y, (d ||| 1 <<< x).testBit y = (d.testBit y || decide (y = x)) := by
        intro y
        rw [Nat.testBit_or, Nat.one_shiftLeft, Nat.testBit_two_pow]
        simp [eq_comm]
      refine ⟨?_, ?_, ?_⟩
      · rw [List.nodup_cons]
        refine ⟨fun hm => ?_, h1⟩
        have := h2 x hm
        rw [hb] at this
        simp at this
      · intro y hy
        rcases List.mem_cons.mp hy with rfl | hy
        · simpa using hx
        · have := h2 y hy
          rw [hb] at this
          simp at this
          exact this.1
      · intro y
        rw [h3, hb]
        simp [Bool.or_assoc]

theorem detOf_isSome {l : List Nat} {d : Nat} (h1 : l.Nodup) (h2 : ∀ x ∈ l, d.testBit x = false) :
    ∃ e, detOf l d = some e := by
  induction l generalizing d with
  | nil => exact ⟨d, rfl⟩
  | cons x l ih =>
    rw [List.nodup_cons] at h1
    rw [detOf, if_neg (by rw [and_bit, h2 x (by simp)]; simp)]
    apply ih h1.2
    intro y hy
    have hne : x ≠ y := by rintro rfl; exact h1.1 hy
    rw [Nat.testBit_or, Nat.one_shiftLeft, Nat.testBit_two_pow, h2 y (by simp [hy])]
    simp [hne]

/-- The bits of `l`. -/
theorem detOf_bits {l : List Nat} {e : Nat} (h : detOf l 0 = some e) : l.Nodup ∧ ∀ x, e.testBit x = decide (x ∈ l) := by
  obtain ⟨h1, _, h3⟩ := detOf_some h
  exact ⟨h1, fun x => by rw [h3]; simp⟩

theorem detOf_none {l : List Nat} (h : detOf l 0 = none) : ¬ l.Nodup := by
  intro hn
  obtain ⟨e, he⟩ := detOf_isSome hn (d := 0) (by simp)
  rw [h] at he; cases he

/-! ### Popping operators -/

/-- Toggle all orbitals of a list. -/
def pop (l : List Nat) (D : Nat) : Nat := l.foldl (fun d x => d ^^^ 2 ^ x) D

theorem pop_cons (x : Nat) (l : List Nat) (D : Nat) : pop (x :: l) D = pop l (D ^^^ 2 ^ x) := rfl

theorem pop_xor (l : List Nat) (D y : Nat) : pop l (D ^^^ y) = pop l D ^^^ y := by
  induction l generalizing D with
  | nil => rfl
  | cons x l ih => rw [pop_cons, pop_cons, Nat.xor_assoc, Nat.xor_comm y, ← Nat.xor_assoc, ih]

theorem pop_pop (l : List Nat) (D : Nat) : pop l (pop l D) = D := by
  induction l generalizing D with
  | nil => rfl
  | cons x l ih =>
    rw [pop_cons, pop_cons, pop_xor, pop_xor, pop_xor, ih]
    rw [Nat.xor_assoc, Nat.xor_self, Nat.xor_zero]

/-- Each operator of the list finds its orbital occupied. -/
def Valid : List Nat → Nat → Bool
  | [], _ => true
  | x :: l, D => D.testBit x && Valid l (D ^^^ 2 ^ x)

theorem valid_cons (x : Nat) (l : List Nat) (D : Nat) :
    Valid (x :: l) D = (D.testBit x && Valid l (D ^^^ 2 ^ x)) := by rw [Valid]

/-- Number of transpositions. -/
def cnt (norb : Nat) : List Nat → Nat → Nat
  | [], _ => 0
  | x :: l, D => nAbove norb D x + cnt norb l (D ^^^ 2 ^ x)

theorem nAbove_xor (norb D p : Nat) : nAbove norb (D ^^^ 2 ^ p) p = nAbove norb D p := by
  unfold nAbove
  congr 1
  apply Finset.filter_congr
  intro q _
  constructor
  · rintro ⟨h1, h2⟩
    refine ⟨h1, ?_⟩
    rw [Nat.testBit_xor, Nat.testBit_two_pow_of_ne (by omega)] at h2
    simpa using h2
  · rintro ⟨h1, h2⟩
    refine ⟨h1, ?_⟩
    rw [Nat.testBit_xor, Nat.testBit_two_pow_of_ne (by omega)]
    simpa using h2

theorem cres_eq [CommRing K] (norb : Nat) (l : List Nat) (ψ : Nat → K) (D : Nat) :
    cres norb l ψ D = if Valid l D then (-1) ^ cnt norb l D * ψ (pop l D) else 0 := by
  induction l generalizing D with
  | nil => simp [cres, Valid, cnt, pop]
  | cons x l ih =>
    rw [valid_cons]
    simp only [cres, cre, cnt]
    cases h : D.testBit x
    · simp
    · rw [if_pos rfl, ih]
      cases h2 : Valid l (D ^^^ 2 ^ x)
      · simp
      · simp only [Bool.and_self, if_true, pop_cons, pow_add]; ring

theorem pop_cons' (x : Nat) (l : List Nat) (D : Nat) : pop (x :: l) D = pop l D ^^^ 2 ^ x := by
  rw [pop_cons, pop_xor]

theorem anns_eq [CommRing K] (norb : Nat) (l : List Nat) (ψ : Nat → K) (D : Nat) :
    anns norb l ψ D = if Valid l (pop l D) then (-1) ^ cnt norb l (pop l D) * ψ (pop l D) else 0 := by
  induction l generalizing ψ with
  | nil => simp [anns, Valid, cnt, pop]
  | cons x l ih =>
    rw [valid_cons]
    simp only [anns, cnt]
    rw [ih, pop_cons']
    simp only [ann]
    have h2 : pop l D ^^^ 2 ^ x ^^^ 2 ^ x = pop l D := by rw [Nat.xor_assoc, Nat.xor_self, Nat.xor_zero]
    have h3 : (pop l D ^^^ 2 ^ x).testBit x = !(pop l D).testBit x := by
      rw [Nat.testBit_xor, Nat.testBit_two_pow_self]; simp
    rw [h2, h3, nAbove_xor]
    cases hv : Valid l (pop l D)
    · simp
    · cases hx : (pop l D).testBit x
      · simp only [if_true, Bool.false_eq_true, if_false, Bool.not_false, Bool.and_self, pow_add]; ring
      · simp

/-- `Valid` in terms of membership. -/
theorem valid_iff (l : List Nat) (D : Nat) : Valid l D = true ↔ l.Nodup ∧ ∀ x ∈ l, D.testBit x = true := by
  induction l generalizing D with
  | nil => simp [Valid]
  | cons x l ih =>
    simp only [Valid, Bool.and_eq_true, ih, List.nodup_cons]
    have hb : ∀ y, (D ^^^ 2 ^ x).testBit y = (D.testBit y ^^ decide (x = y)) := by
      intro y; rw [Nat.testBit_xor, Nat.testBit_two_pow]
    constructor
    · rintro ⟨h1, h2, h3⟩
      refine ⟨⟨fun hm => ?_, h2⟩, ?_⟩
      · have := h3 x hm
        rw [hb, h1] at this
        simp at this
      · intro y hy
        rcases List.mem_cons.mp hy with rfl | hy
        · exact h1
        · have := h3 y hy
          rw [hb] at this
          by_cases hxy : x = y
          · rw [← hxy]; exact h1
          · simpa [hxy] using this
    · rintro ⟨⟨h1, h2⟩, h3⟩
      refine ⟨h3 x (by simp), h2, ?_⟩
      intro y hy
      rw [hb, h3 y (by simp [hy])]
      have : x ≠ y := by rintro rfl; exact h1 hy
      simp [this]

theorem pop_bits {l : List Nat} (hl : l.Nodup) (D x : Nat) : (pop l D).testBit x = (D.testBit x ^^ decide (x ∈ l)) := by
  induction l generalizing D with
  | nil => simp [pop]
  | cons y l ih =>
    rw [List.nodup_cons] at hl
    rw [pop_cons, ih hl.2, Nat.testBit_xor, Nat.testBit_two_pow]
    by_cases h1 : y = x
    · subst h1; simp [hl.1]
    · have : ¬ x = y := fun h => h1 h.symm
      simp [h1, this]

/-! ### The sign loop -/

theorem bit_val (D q : Nat) : (D &&& (1 <<< q)) >>> q = (D.testBit q).toNat := by
  rw [Nat.one_shiftLeft, Nat.and_two_pow, Nat.shiftRight_eq_div_pow]
  exact Nat.mul_div_cancel _ (Nat.two_pow_pos q)

theorem xor_bit (s : Nat) (hs : s < 2) (b : Bool) : s ^^^ b.toNat = (s + b.toNat) % 2 := by
  have : s = 0 ∨ s = 1 := by omega
  rcases this with rfl | rfl <;> cases b <;> rfl

theorem signInner_aux (D : Nat) (x m s : Nat) (hs : s < 2) :
    (List.range' (x + 1) m).foldl (fun s q => s ^^^ ((D &&& (1 <<< q)) >>> q)) s =
      (s + ((Finset.range (x + 1 + m)).filter fun q => x < q ∧ D.testBit q).card) % 2 := by
  induction m with
  | zero =>
    have : ((Finset.range (x + 1 + 0)).filter fun q => x < q ∧ D.testBit q = true) = ∅ := by
      apply Finset.filter_eq_empty_iff.mpr
      intro q hq
      simp only [Finset.mem_range] at hq
      omega
    rw [this]; simp; omega
  | succ m ih =>
    rw [List.range'_1_concat, List.foldl_append, ih]
    simp only [List.foldl_cons, List.foldl_nil, bit_val]
    rw [xor_bit _ (Nat.mod_lt _ (by omega)), ← Nat.add_assoc, Finset.range_add_one, Finset.filter_insert]
    cases h : D.testBit (x + 1 + m)
    · simp
    · rw [if_pos ⟨by omega, rfl⟩, Finset.card_insert_of_notMem (by simp)]
      simp only [Bool.toNat_true]
      omega

theorem signInner_eq (norb x D s : Nat) (hs : s < 2) : signInner norb x D s = (s + nAbove norb D x) % 2 := by
  unfold signInner nAbove
  rw [signInner_aux D x _ s hs]
  by_cases h : x + 1 ≤ norb
  · rw [show x + 1 + (norb - (x + 1)) = norb by omega]
  · rw [show norb - (x + 1) = 0 by omega]
    have h1 : ((Finset.range (x + 1 + 0)).filter fun q => x < q ∧ D.testBit q = true) = ∅ := by
      apply Finset.filter_eq_empty_iff.mpr
      intro q hq
      simp only [Finset.mem_range] at hq
      omega
    have h2 : ((Finset.range norb).filter fun q => x < q ∧ D.testBit q = true) = ∅ := by
      apply Finset.filter_eq_empty_iff.mpr
      intro q hq
      simp only [Finset.mem_range] at hq
      omega
    rw [h1, h2]

theorem signLoop_eq (norb : Nat) (l : List Nat) (D s : Nat) (hs : s < 2) :
    signLoop norb l D s = (s + cnt norb l D) % 2 := by
  induction l generalizing D s with
  | nil => simp [signLoop, cnt]; omega
  | cons x l ih =>
    rw [signLoop, signInner_eq _ _ _ _ hs, ih _ _ (Nat.mod_lt _ (by omega)), Nat.one_shiftLeft, cnt]
    omega

theorem sgnOf_eq [CommRing K] (norb : Nat) (aidx iidx : List Nat) (ia ai : Nat) :
    ((sgnOf norb aidx iidx ia ai : Int) : K) = (-1) ^ (cnt norb aidx ai + cnt norb iidx ia) := by
  unfold sgnOf
  rw [signLoop_eq _ _ _ 0 (by omega), signLoop_eq _ _ _ _ (Nat.mod_lt _ (by omega))]
  generalize cnt norb iidx ia = m
  generalize cnt norb aidx ai = n
  rcases Nat.even_or_odd (n + m) with h | h
  · rw [h.neg_one_pow, show ((0 + m) % 2 + n) % 2 = 0 by rcases h with ⟨k, hk⟩; omega]; simp
  · rw [h.neg_one_pow, show ((0 + m) % 2 + n) % 2 = 1 by rcases h with ⟨k, hk⟩; omega]; norm_num

end Verif.Fsucc
