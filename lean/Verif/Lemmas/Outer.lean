import Verif.Model.Outer
import Verif.Spec.Outer
import Verif.Lemmas.Fockspace
import Verif.Lemmas.Np
import Mathlib.Data.List.GetD
import Mathlib.Data.List.Sort
import Mathlib.Algebra.BigOperators.Ring.Finset
import Mathlib.Algebra.Order.BigOperators.Group.List
/-!
# Lemmas on products of fragment CI vectors
-/
namespace Verif.Outer
open Verif.Np Verif.Fockspace Verif.Spec Verif.Spec.Outer Verif.Spec.Fsucc Verif.Spec.Fockspace Verif.Radix

/-! ### Strings of all fragments -/

theorem fragOcc_cons (m : Nat) (ns : List Nat) (D : Nat) :
    fragOcc (m :: ns) D = nOcc 0 m D :: fragOcc ns (D / 2 ^ m) := by
  unfold fragOcc
  rw [List.length_cons, List.range_succ_eq_map, List.map_cons, List.map_map]
  congr 1
  · apply List.map_congr_left
    intro f hf
    have e : ∀ f, fragStart (m :: ns) (f + 1) = m + fragStart ns f := by intro f; simp [fragStart]
    simp only [Function.comp, Nat.succ_eq_add_one]
    rw [e, e]
    have hle : fragStart ns f ≤ fragStart ns (f + 1) := by
      unfold fragStart
      rw [List.take_add_one, List.sum_append]; omega
    unfold nOcc
    apply Finset.card_bij' (fun p _ => p - m) (fun p _ => p + m)
    · intro p hp
      rw [Finset.mem_filter, Finset.mem_Ico] at hp ⊢
      refine ⟨by omega, ?_⟩
      rw [Nat.testBit_div_two_pow, show p - m + m = p by omega]; exact hp.2
    · intro p hp
      rw [Finset.mem_filter, Finset.mem_Ico] at hp ⊢
      refine ⟨by omega, ?_⟩
      rw [Nat.testBit_div_two_pow] at hp; exact hp.2
    · intro p hp
      rw [Finset.mem_filter, Finset.mem_Ico] at hp
      omega
    · intro p hp; simp

theorem fragStr_zero (m : Nat) (ns : List Nat) (D : Nat) : fragStr (m :: ns) 0 D = D % 2 ^ m := by
  simp [fragStr, fragStart]

theorem fragStr_succ (m : Nat) (ns : List Nat) (f D : Nat) :
    fragStr (m :: ns) (f + 1) D = fragStr ns f (D / 2 ^ m) := by
  simp [fragStr, fragStart, pow_add, Nat.div_div_eq_div_mul]

/-- The product strings, in the order of the positions of their parts (first fragment fastest). -/
def prodStrs : List Nat → List Nat → List Nat
  | m :: ns, k :: ks => (prodStrs ns ks).flatMap fun hi => (strs m k).map fun lo => lo + 2 ^ m * hi
  | _, _ => [0]

theorem nOcc_zero_zero (D : Nat) : nOcc 0 0 D = 0 := by simp [nOcc]

theorem nOcc_add (m n D : Nat) : nOcc 0 (m + n) D = nOcc 0 m D + nOcc 0 n (D / 2 ^ m) := by
  induction n with
  | zero => simp [nOcc_zero_zero]
  | succ n ih => rw [← Nat.add_assoc, nOcc_succ, nOcc_succ, ih, Nat.testBit_div_two_pow, Nat.add_comm n m]; omega

theorem mem_prodStrs {ns ks : List Nat} (hl : ks.length = ns.length) {D : Nat} :
    D ∈ prodStrs ns ks ↔ D < 2 ^ ns.sum ∧ fragOcc ns D = ks := by
  induction ns generalizing ks D with
  | nil =>
    cases ks with
    | nil => simp [prodStrs, fragOcc]
    | cons => simp at hl
  | cons m ns ih =>
    cases ks with
    | nil => simp at hl
    | cons k ks =>
      have hl' : ks.length = ns.length := by simpa using hl
      simp only [prodStrs, List.mem_flatMap, List.mem_map, mem_strs]
      rw [fragOcc_cons, List.sum_cons, List.cons.injEq]
      have hp : 0 < 2 ^ m := Nat.two_pow_pos m
      constructor
      · rintro ⟨hi, hhi, lo, ⟨hlo, ho⟩, rfl⟩
        rw [ih hl'] at hhi
        have e1 : (lo + 2 ^ m * hi) / 2 ^ m = hi := by
          rw [Nat.add_mul_div_left _ _ hp, Nat.div_eq_of_lt hlo, Nat.zero_add]
        have e2 : (lo + 2 ^ m * hi) % 2 ^ m = lo := by rw [Nat.add_mul_mod_self_left, Nat.mod_eq_of_lt hlo]
        refine ⟨?_, ?_, ?_⟩
        · rw [pow_add]
          have : 2 ^ m * (hi + 1) ≤ 2 ^ m * 2 ^ ns.sum := Nat.mul_le_mul_left _ hhi.1
          rw [Nat.mul_add] at this; omega
        · rw [← nOcc_mod, e2, ho]
        · rw [e1]; exact hhi.2
      · rintro ⟨hD, h1, h2⟩
        refine ⟨D / 2 ^ m, (ih hl').2 ⟨?_, h2⟩, D % 2 ^ m, ⟨Nat.mod_lt _ hp, ?_⟩, Nat.mod_add_div D _⟩
        · rw [Nat.div_lt_iff_lt_mul hp, Nat.mul_comm, ← pow_add]; exact hD
        · rw [nOcc_mod, h1]

theorem sum_fragOcc (ns : List Nat) (D : Nat) : (fragOcc ns D).sum = nOcc 0 ns.sum D := by
  induction ns generalizing D with
  | nil => simp [fragOcc, nOcc_zero_zero]
  | cons m ns ih => rw [fragOcc_cons, List.sum_cons, ih, List.sum_cons, nOcc_add]

theorem strs_sorted (m k : Nat) : (strs m k).Pairwise (· < ·) := List.Pairwise.filter _ List.pairwise_lt_range

theorem prodStrs_sorted (ns ks : List Nat) : (prodStrs ns ks).Pairwise (· < ·) := by
  induction ns generalizing ks with
  | nil => simp [prodStrs]
  | cons m ns ih =>
    cases ks with
    | nil => simp [prodStrs]
    | cons k ks =>
      rw [prodStrs, List.pairwise_flatMap]
      refine ⟨?_, ?_⟩
      · intro hi _
        rw [List.pairwise_map]
        exact (strs_sorted m k).imp (fun h => by omega)
      · refine (ih ks).imp ?_
        intro h1 h2 h12 x hx y hy
        rw [List.mem_map] at hx hy
        obtain ⟨a, ha, rfl⟩ := hx
        obtain ⟨b, hb, rfl⟩ := hy
        have := (mem_strs.1 ha).1
        have : 2 ^ m * (h1 + 1) ≤ 2 ^ m * h2 := Nat.mul_le_mul_left _ h12
        rw [Nat.mul_add] at this; omega

theorem prodStrs_length (ns ks : List Nat) (hl : ks.length = ns.length) :
    (prodStrs ns ks).length = (List.zipWith Nat.choose ns ks).prod := by
  induction ns generalizing ks with
  | nil => cases ks with
    | nil => simp [prodStrs]
    | cons => simp at hl
  | cons m ns ih =>
    cases ks with
    | nil => simp at hl
    | cons k ks =>
      rw [prodStrs, List.length_flatMap]
      simp [strs_length, ih ks (by simpa using hl), Nat.mul_comm]

/-- Sorted lists with the same members are equal. -/
theorem sorted_ext {a b : List Nat} (ha : a.Pairwise (· < ·)) (hb : b.Pairwise (· < ·)) (h : ∀ x, x ∈ a ↔ x ∈ b) :
    a = b := by
  exact List.Perm.eq_of_pairwise' (r := (· < ·)) ha hb
    (List.perm_ext_iff_of_nodup (ha.imp (fun h => Nat.ne_of_lt h)) (hb.imp (fun h => Nat.ne_of_lt h)) |>.2 h)

/-- In a sorted list, the position of a member is the number of smaller members. -/
theorem idxOf_sorted {a : List Nat} (ha : a.Pairwise (· < ·)) {x : Nat} (hx : x ∈ a) :
    a.idxOf x = (a.filter (· < x)).length := by
  induction a with
  | nil => simp at hx
  | cons y a ih =>
    rw [List.pairwise_cons] at ha
    by_cases e : y = x
    · subst e
      rw [List.idxOf_cons_self]
      have : (List.filter (fun z => decide (z < y)) (y :: a)) = [] := by
        rw [List.filter_eq_nil_iff]
        intro z hz
        rcases List.mem_cons.1 hz with rfl | hz
        · simp
        · have := ha.1 z hz; simp; omega
      rw [this]; rfl
    · have hx' : x ∈ a := by
        rcases List.mem_cons.1 hx with h | h
        · exact absurd h.symm e
        · exact h
      rw [List.idxOf_cons_ne _ e, ih ha.2 hx', List.filter_cons, if_pos (by have := ha.1 x hx'; simpa using this)]
      rfl

theorem idxOf_strs {m k D : Nat} (h : D ∈ strs m k) : (strs m k).idxOf D = addrOf m D := by
  rw [idxOf_sorted (strs_sorted m k) h]
  obtain ⟨hD, ho⟩ := mem_strs.1 h
  unfold addrOf
  rw [ho]
  rw [← List.toFinset_card_of_nodup ((strs_nodup m k).filter _)]
  congr 1
  ext E
  simp only [List.mem_toFinset, List.mem_filter, mem_strs, Finset.mem_filter, Finset.mem_range, decide_eq_true_eq]
  constructor
  · rintro ⟨⟨_, h⟩, h'⟩; exact ⟨h', h⟩
  · rintro ⟨h', h⟩; exact ⟨⟨by omega, h⟩, h'⟩

theorem idxOf_map_on {α β : Type} [DecidableEq α] [DecidableEq β] {f : α → β} {l : List α}
    (hf : ∀ a ∈ l, ∀ b ∈ l, f a = f b → a = b) {x : α} (hx : x ∈ l) : (l.map f).idxOf (f x) = l.idxOf x := by
  induction l with
  | nil => simp at hx
  | cons y l ih =>
    by_cases e : y = x
    · subst e; simp
    · have hx' : x ∈ l := by
        rcases List.mem_cons.1 hx with h | h
        · exact absurd h.symm e
        · exact h
      rw [List.map_cons, List.idxOf_cons_ne _ (fun h => e (hf y (by simp) x hx h)), List.idxOf_cons_ne _ e,
        ih (fun a ha b hb => hf a (by simp [ha]) b (by simp [hb])) hx']

theorem idxOf_flat {m k : Nat} {l : List Nat} (hl : l.Pairwise (· < ·)) {lo hi : Nat} (hlo : lo ∈ strs m k) (hhi : hi ∈ l) :
    (l.flatMap fun h => (strs m k).map fun lo => lo + 2 ^ m * h).idxOf (lo + 2 ^ m * hi) =
      (strs m k).idxOf lo + (strs m k).length * l.idxOf hi := by
  have hp : 0 < 2 ^ m := Nat.two_pow_pos m
  have hlt := (mem_strs.1 hlo).1
  induction l with
  | nil => simp at hhi
  | cons y l ih =>
    rw [List.flatMap_cons]
    by_cases e : y = hi
    · subst e
      rw [List.idxOf_append_of_mem (a := lo + 2 ^ m * y) (List.mem_map.2 ⟨lo, hlo, rfl⟩), List.idxOf_cons_self, Nat.mul_zero, Nat.add_zero]
      have inj : Function.Injective fun lo => lo + 2 ^ m * y := fun a b h => by simpa using h
      exact idxOf_map_on (fun a _ b _ h => inj h) hlo
    · have hhi' : hi ∈ l := by
        rcases List.mem_cons.1 hhi with h | h
        · exact absurd h.symm e
        · exact h
      rw [List.idxOf_append_of_notMem, List.idxOf_cons_ne _ e, ih (List.pairwise_cons.1 hl).2 hhi', List.length_map,
        Nat.succ_eq_add_one, Nat.mul_add]
      · omega
      · rw [List.mem_map]
        rintro ⟨a, ha, h⟩
        have h1 := congrArg (· / 2 ^ m) h
        simp only [Nat.add_mul_div_left _ _ hp, Nat.div_eq_of_lt hlt, Nat.div_eq_of_lt (mem_strs.1 ha).1, Nat.zero_add] at h1
        exact e h1

/-- The addresses of the parts of a string. -/
def partAddrs (ns : List Nat) (D : Nat) : List Nat :=
  (List.range ns.length).map fun f => addrOf (ns.getD f 0) (fragStr ns f D)

theorem partAddrs_cons (m : Nat) (ns : List Nat) (D : Nat) :
    partAddrs (m :: ns) D = addrOf m (D % 2 ^ m) :: partAddrs ns (D / 2 ^ m) := by
  unfold partAddrs
  rw [List.length_cons, List.range_succ_eq_map, List.map_cons, List.map_map, fragStr_zero]
  congr 1
  apply List.map_congr_left
  intro f _
  simp [fragStr_succ]

theorem addrOf_lt {m k D : Nat} (h : D ∈ strs m k) : addrOf m D < m.choose k := by
  rw [← idxOf_strs h, ← strs_length]
  exact List.idxOf_lt_length_of_mem h

/-- The position of a product string among the product strings. -/
theorem idxOf_prodStrs {ns ks : List Nat} (hl : ks.length = ns.length) {D : Nat} (hD : D ∈ prodStrs ns ks) :
    InShape (partAddrs ns D) (List.zipWith Nat.choose ns ks) ∧
    (prodStrs ns ks).idxOf D = posF (List.zipWith Nat.choose ns ks) (partAddrs ns D) := by
  induction ns generalizing ks D with
  | nil =>
    cases ks with
    | nil =>
      simp only [prodStrs, List.mem_singleton] at hD
      subst hD
      refine ⟨List.Forall₂.nil, ?_⟩
      simp [prodStrs, partAddrs, posF]
    | cons => simp at hl
  | cons m ns ih =>
    cases ks with
    | nil => simp at hl
    | cons k ks =>
      have hl' : ks.length = ns.length := by simpa using hl
      rw [prodStrs] at hD ⊢
      rw [List.mem_flatMap] at hD
      obtain ⟨hi, hhi, hD⟩ := hD
      rw [List.mem_map] at hD
      obtain ⟨lo, hlo, rfl⟩ := hD
      have hp : 0 < 2 ^ m := Nat.two_pow_pos m
      have hlt := (mem_strs.1 hlo).1
      have e1 : (lo + 2 ^ m * hi) / 2 ^ m = hi := by
        rw [Nat.add_mul_div_left _ _ hp, Nat.div_eq_of_lt hlt, Nat.zero_add]
      have e2 : (lo + 2 ^ m * hi) % 2 ^ m = lo := by rw [Nat.add_mul_mod_self_left, Nat.mod_eq_of_lt hlt]
      rw [partAddrs_cons, e1, e2, List.zipWith_cons_cons]
      obtain ⟨i1, i2⟩ := ih hl' hhi
      refine ⟨List.Forall₂.cons (addrOf_lt hlo) i1, ?_⟩
      rw [idxOf_flat (prodStrs_sorted ns ks) hlo hhi, posF, ← i2, idxOf_strs hlo, strs_length]

theorem prodStrs_ne_nil {ns ks : List Nat} (hle : List.Forall₂ (· ≤ ·) ks ns) : prodStrs ns ks ≠ [] := by
  rw [← List.length_pos_iff_ne_nil, prodStrs_length _ _ hle.length_eq]
  induction hle with
  | nil => simp
  | cons h _ ih =>
    rw [List.zipWith_cons_cons, List.prod_cons]
    exact Nat.mul_pos (Nat.choose_pos h) ih

/-! ### `addr_outer_product` -/

theorem nOcc_eq_countP {lo hi D : Nat} (h : lo ≤ hi) :
    (List.range' lo (hi - lo)).countP (fun p => D.testBit p) = nOcc lo hi D := by
  have := nOcc_countP lo (hi - lo) D
  rw [show lo + (hi - lo) = hi by omega] at this
  exact this.symm

theorem fragOcc_getD {ns : List Nat} {i D : Nat} (hi : i < ns.length) :
    (fragOcc ns D).getD i 0 = nOcc (fragStart ns i) (fragStart ns (i + 1)) D := by
  simp [fragOcc, List.getD_eq_getElem?_getD, hi]

theorem mem_subAddrs {ns : List Nat} {nelec i sub k : Nat} (hi : i < ns.length) :
    k ∈ subAddrs ns.sum nelec ((ns.take (i + 1)).sum - ns.getD i 0) (ns.take (i + 1)).sum sub ↔
      k < (strs ns.sum nelec).length ∧ (fragOcc ns ((strs ns.sum nelec).getD k 0)).getD i 0 = sub := by
  have e : (ns.take (i + 1)).sum - ns.getD i 0 = (ns.take i).sum := by
    rw [List.take_add_one, List.sum_append, List.getD_eq_getElem?_getD]
    rw [List.getElem?_eq_getElem hi]; simp
  have hle : (ns.take i).sum ≤ (ns.take (i + 1)).sum := by
    rw [List.take_add_one, List.sum_append]; omega
  rw [subAddrs, List.mem_filter, List.mem_range, e, nOcc_eq_countP hle, fragOcc_getD hi]
  simp [fragStart]

/-- What the loop has collected after `j` fragments. -/
theorem addr_loop {ns ks : List Nat} (hle : List.Forall₂ (· ≤ ·) ks ns) (j : Nat) (hj : j ≤ ns.length) :
    (List.range j).foldl (addrStep ns ks) [] =
      if ∃ i < j, ks.getD i 0 ≠ 0 then
        (List.range (strs ns.sum ks.sum).length).filter fun k =>
          decide (∀ i < j, ks.getD i 0 ≠ 0 → (fragOcc ns ((strs ns.sum ks.sum).getD k 0)).getD i 0 = ks.getD i 0)
      else [] := by
  obtain ⟨D, hD⟩ := List.exists_mem_of_ne_nil _ (prodStrs_ne_nil hle)
  rw [mem_prodStrs hle.length_eq] at hD
  have hDs : D ∈ strs ns.sum ks.sum := mem_strs.2 ⟨hD.1, by rw [← sum_fragOcc, hD.2]⟩
  obtain ⟨k0, hk0, ek0⟩ := List.getElem_of_mem hDs
  have ek0' : (strs ns.sum ks.sum).getD k0 0 = D := by rw [List.getD_eq_getElem _ _ hk0, ek0]
  induction j with
  | zero => simp
  | succ j ih =>
    rw [List.range_succ, List.foldl_append, ih (by omega), List.foldl_cons, List.foldl_nil]
    have hjl : j < ns.length := by omega
    unfold addrStep
    simp only
    by_cases hex : ∃ i < j, ks.getD i 0 ≠ 0
    · have hne : k0 ∈ ((List.range (strs ns.sum ks.sum).length).filter fun k =>
          decide (∀ i < j, ks.getD i 0 ≠ 0 → (fragOcc ns ((strs ns.sum ks.sum).getD k 0)).getD i 0 = ks.getD i 0)) := by
        rw [List.mem_filter, List.mem_range]
        refine ⟨hk0, ?_⟩
        rw [ek0', hD.2]; simp
      rw [if_pos hex, if_pos (show ∃ i < j + 1, ks.getD i 0 ≠ 0 by obtain ⟨i, h1, h2⟩ := hex; exact ⟨i, by omega, h2⟩)]
      rw [if_neg (by have := List.length_pos_of_mem hne; omega)]
      by_cases hz : ks.getD j 0 ≠ 0
      · rw [if_pos hz, if_pos, intersect1d, List.filter_filter]
        · apply List.filter_congr
          intro k hk
          rw [List.mem_range] at hk
          rw [Bool.eq_iff_iff, Bool.and_eq_true, List.contains_iff_mem, mem_subAddrs hjl, decide_eq_true_eq, decide_eq_true_eq]
          constructor
          · rintro ⟨⟨_, h1⟩, h2⟩ i hi hi0
            by_cases e : i = j
            · subst e; exact h1
            · exact h2 i (by omega) hi0
          · intro h
            exact ⟨⟨hk, h j (by omega) hz⟩, fun i hi hi0 => h i (by omega) hi0⟩
        · apply List.length_pos_of_mem (a := k0)
          rw [mem_subAddrs hjl, ek0', hD.2]
          exact ⟨hk0, rfl⟩
      · rw [if_neg hz]
        simp only [List.length_nil, gt_iff_lt, Nat.lt_irrefl, if_false]
        apply List.filter_congr
        intro k _
        rw [decide_eq_decide]
        constructor
        · intro h i hi hi0
          by_cases e : i = j
          · subst e; exact absurd hi0 hz
          · exact h i (by omega) hi0
        · intro h i hi hi0; exact h i (by omega) hi0
    · rw [if_neg hex]
      simp only [List.length_nil, if_true]
      by_cases hz : ks.getD j 0 ≠ 0
      · rw [if_pos hz, if_pos ⟨j, by omega, hz⟩]
        apply sorted_ext
        · exact List.Pairwise.filter _ List.pairwise_lt_range
        · exact List.Pairwise.filter _ List.pairwise_lt_range
        · intro k
          rw [mem_subAddrs hjl, List.mem_filter, List.mem_range, decide_eq_true_eq]
          constructor
          · rintro ⟨h1, h2⟩
            refine ⟨h1, fun i hi hi0 => ?_⟩
            by_cases e : i = j
            · subst e; exact h2
            · exact absurd ⟨i, by omega, hi0⟩ hex
          · rintro ⟨h1, h2⟩; exact ⟨h1, h2 j (by omega) hz⟩
      · rw [if_neg hz, if_neg]
        rintro ⟨i, hi, hi0⟩
        by_cases e : i = j
        · subst e; exact hz hi0
        · exact hex ⟨i, by omega, hi0⟩

/-- `sum` and pointwise order -/
theorem eq_of_sum_le {a b : List Nat} (hl : a.length = b.length) (h : ∀ i < a.length, b.getD i 0 ≤ a.getD i 0)
    (hs : a.sum = b.sum) : a = b := by
  have key : ∀ (a b : List Nat), a.length = b.length → (∀ i < a.length, b.getD i 0 ≤ a.getD i 0) →
      b.sum ≤ a.sum ∧ (a.sum = b.sum → a = b) := by
    intro a
    induction a with
    | nil => intro b hl _; cases b with
      | nil => simp
      | cons => simp at hl
    | cons x a ih =>
      intro b hl h
      cases b with
      | nil => simp at hl
      | cons y b =>
        obtain ⟨i1, i2⟩ := ih b (by simpa using hl) (fun i hi => by simpa using h (i + 1) (by simpa using hi))
        have h0 : y ≤ x := by simpa using h 0 (by simp)
        rw [List.sum_cons, List.sum_cons]
        refine ⟨by omega, fun hs => ?_⟩
        rw [i2 (by omega), show x = y by omega]
  exact (key a b hl h).2 hs

theorem filter_idx {S : List Nat} (hS : S.Nodup) (Q : Nat → Bool) :
    (S.filter Q).map S.idxOf = (List.range S.length).filter fun k => Q (S.getD k 0) := by
  have e2 : (List.range S.length).map (fun k => S.getD k 0) = S := by
    apply List.ext_getElem
    · simp
    · intro i h1 h2
      simp [List.getD_eq_getElem?_getD, h2]
  have e3 : S.filter Q = ((List.range S.length).filter fun k => Q (S.getD k 0)).map (fun k => S.getD k 0) := by
    conv_lhs => rw [← e2]
    rw [List.filter_map]
    rfl
  rw [e3, List.map_map]
  conv_rhs => rw [← List.map_id ((List.range S.length).filter fun k => Q (S.getD k 0))]
  apply List.map_congr_left
  intro k hk
  have hk' : k < S.length := by
    have := (List.mem_filter.1 hk).1
    simpa using this
  simp only [Function.comp, id]
  rw [List.getD_eq_getElem _ _ hk']
  exact List.Nodup.idxOf_getElem hS k hk'

/-- `addr_outer_product`: the addresses of the product strings, in order. -/
theorem addrOuter_eq {ns ks : List Nat} (hle : List.Forall₂ (· ≤ ·) ks ns) :
    addrOuter ns ks = (prodStrs ns ks).map (addrOf ns.sum) := by
  have hl := hle.length_eq
  obtain ⟨D, hD0⟩ := List.exists_mem_of_ne_nil _ (prodStrs_ne_nil hle)
  have hD := (mem_prodStrs hl).1 hD0
  have hDs : D ∈ strs ns.sum ks.sum := mem_strs.2 ⟨hD.1, by rw [← sum_fragOcc, hD.2]⟩
  obtain ⟨k0, hk0, ek0⟩ := List.getElem_of_mem hDs
  have ek0' : (strs ns.sum ks.sum).getD k0 0 = D := by rw [List.getD_eq_getElem _ _ hk0, ek0]
  have hP : ∀ E, E ∈ prodStrs ns ks ↔ E ∈ strs ns.sum ks.sum ∧ fragOcc ns E = ks := by
    intro E
    rw [mem_prodStrs hl, mem_strs]
    constructor
    · rintro ⟨h1, h2⟩; exact ⟨⟨h1, by rw [← sum_fragOcc, h2]⟩, h2⟩
    · rintro ⟨⟨h1, _⟩, h2⟩; exact ⟨h1, h2⟩
  have hPf : prodStrs ns ks = (strs ns.sum ks.sum).filter (fun E => fragOcc ns E = ks) := by
    apply sorted_ext (prodStrs_sorted _ _) ((strs_sorted _ _).filter _)
    intro E
    rw [hP, List.mem_filter, decide_eq_true_eq]
  have hmap : (prodStrs ns ks).map (addrOf ns.sum) =
      (List.range (strs ns.sum ks.sum).length).filter fun k => fragOcc ns ((strs ns.sum ks.sum).getD k 0) = ks := by
    have e : (prodStrs ns ks).map (addrOf ns.sum) = (prodStrs ns ks).map ((strs ns.sum ks.sum).idxOf) := by
      apply List.map_congr_left
      intro E hE
      rw [idxOf_strs ((hP E).1 hE).1]
    rw [e, hPf, filter_idx (strs_nodup _ _)]
  rw [hmap, addrOuter, addr_loop hle _ le_rfl]
  by_cases hex : ∃ i < ns.length, ks.getD i 0 ≠ 0
  · rw [if_pos hex, if_neg]
    · apply List.filter_congr
      intro k hk
      rw [List.mem_range] at hk
      rw [decide_eq_decide]
      constructor
      · intro h
        apply eq_of_sum_le
        · rw [hl]; simp [fragOcc]
        · intro i hi
          have hi' : i < ns.length := by simpa [fragOcc] using hi
          by_cases hz : ks.getD i 0 = 0
          · omega
          · exact (h i hi' hz).ge
        · rw [sum_fragOcc]
          rw [List.getD_eq_getElem _ _ hk]
          exact (mem_strs.1 (List.getElem_mem hk)).2
      · intro h i _ _
        rw [h]
    · have : k0 ∈ ((List.range (strs ns.sum ks.sum).length).filter fun k =>
          decide (∀ i < ns.length, ks.getD i 0 ≠ 0 → (fragOcc ns ((strs ns.sum ks.sum).getD k 0)).getD i 0 = ks.getD i 0)) := by
        rw [List.mem_filter, List.mem_range]
        refine ⟨hk0, ?_⟩
        rw [ek0', hD.2]; simp
      have := List.length_pos_of_mem this
      omega
  · rw [if_neg hex]
    simp only [List.length_nil, if_true]
    have hz : ks.sum = 0 := by
      apply List.sum_eq_zero
      intro x hx
      obtain ⟨i, hi, rfl⟩ := List.getElem_of_mem hx
      by_contra hne
      exact hex ⟨i, by omega, by rw [List.getD_eq_getElem _ _ hi]; exact hne⟩
    have hlen : (strs ns.sum ks.sum).length = 1 := by rw [strs_length, hz, Nat.choose_zero_right]
    have hk00 : k0 = 0 := by omega
    subst hk00
    rw [hlen]
    rw [List.range_one, List.filter_cons, if_pos, List.filter_nil]
    rw [ek0', hD.2]; simp

end Verif.Outer
