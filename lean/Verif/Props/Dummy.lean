import Verif.Model.Dummy
import Verif.Spec.Dummy
import Verif.Props.Fockspace
/-!
# C57: dummy-orbital padding
-/
namespace Verif.Props
open Verif.Dummy Verif.Fockspace Verif.Spec.Dummy Verif.Spec.Fockspace Verif.Spec Verif.Spec.Fsucc

namespace Dummy

theorem testBit_add_pow {n D : Nat} (hD : D < 2 ^ n) : (2 ^ n + D).testBit n = true := by
  rw [Nat.testBit_two_pow_add_eq, Nat.testBit_lt_two_pow hD]; rfl

theorem testBit_add_pow_lt {n D p : Nat} (hp : p < n) : (2 ^ n + D).testBit p = D.testBit p :=
  Nat.testBit_two_pow_add_gt hp D

theorem strs_succ (n k : Nat) : strs (n + 1) k = strs n k ++ (if k = 0 then [] else (strs n (k - 1)).map (2 ^ n + ·)) := by
  unfold strs
  have hr : List.range (2 ^ (n + 1)) = List.range (2 ^ n) ++ (List.range (2 ^ n)).map (2 ^ n + ·) := by
    rw [pow_succ, Nat.mul_two, List.range_add]
  rw [hr, List.filter_append]
  congr 1
  · apply List.filter_congr
    intro D hD
    rw [List.mem_range] at hD
    rw [List.range_succ, List.countP_append]
    simp [Nat.testBit_lt_two_pow hD]
  · rw [List.filter_map]
    have h1 : ∀ D ∈ List.range (2 ^ n), ((fun D => (List.range (n + 1)).countP (fun p => D.testBit p) == k) ∘ (2 ^ n + ·)) D =
        ((List.range n).countP (fun p => D.testBit p) + 1 == k) := by
      intro D hD
      rw [List.mem_range] at hD
      simp only [Function.comp]
      rw [List.range_succ, List.countP_append]
      rw [List.countP_congr (q := fun p => D.testBit p) (fun p hp => by
        rw [testBit_add_pow_lt (List.mem_range.1 hp)])]
      simp [testBit_add_pow hD]
    rw [List.filter_congr h1]
    by_cases hk : k = 0
    · subst hk; simp
    · rw [if_neg hk]
      congr 1
      apply List.filter_congr
      intro D _
      rw [Bool.eq_iff_iff]
      simp only [beq_iff_eq]
      omega

/-- One spin: the slice `[off, hi)` holds exactly the strings in which the added orbital has occupation `occ`. -/
theorem side (n k : Nat) (occ : Bool) (A s off top : Nat) (hA : (strs (n + 1) (k + occ.toNat))[A]? = some s)
    (hof : off = if occ then (n + 1).choose (k + occ.toNat) - n.choose k else 0)
    (hto : top = if occ then (n + 1).choose (k + occ.toNat) else n.choose k) :
    ((off ≤ A ∧ A < top) ↔ s.testBit n = occ) ∧ (s.testBit n = occ → A - off = (strs n k).idxOf (s % 2 ^ n)) := by
  have hlt : ∀ k D, D ∈ strs n k → D < 2 ^ n := fun k D h => (mem_strs.1 h).1
  have hidx : ∀ (i D : Nat), (strs n k)[i]? = some D → (strs n k).idxOf D = i := by
    intro i D h
    obtain ⟨h1, h2⟩ := List.getElem?_eq_some_iff.1 h
    rw [← h2, (strs_nodup n k).idxOf_getElem]
  rw [strs_succ, List.getElem?_append] at hA
  cases occ with
  | true =>
    simp only [Bool.toNat_true, Nat.add_sub_cancel, Nat.succ_ne_zero, if_false, if_true, Nat.add_eq_zero_iff,
      one_ne_zero, and_false] at hA hof hto ⊢
    have hc : (n + 1).choose (k + 1) = n.choose k + n.choose (k + 1) := Nat.choose_succ_succ n k
    have hoff : off = n.choose (k + 1) := by omega
    rw [strs_length] at hA
    by_cases h : A < n.choose (k + 1)
    · rw [if_pos h] at hA
      have hs := hlt _ s (List.mem_of_getElem? hA)
      rw [Nat.testBit_lt_two_pow hs]
      refine ⟨⟨fun h' => by omega, fun h' => by simp at h'⟩, fun h' => by simp at h'⟩
    · rw [if_neg h, List.getElem?_map] at hA
      cases hD : (strs n k)[A - n.choose (k + 1)]? with
      | none => rw [hD] at hA; simp at hA
      | some D =>
        rw [hD] at hA
        simp only [Option.map_some, Option.some.injEq] at hA
        have hs := hlt _ D (List.mem_of_getElem? hD)
        have hlen := (List.getElem?_eq_some_iff.1 hD).1
        rw [strs_length] at hlen
        subst hA
        rw [testBit_add_pow hs, Nat.add_mod_left, Nat.mod_eq_of_lt hs, hidx _ _ hD, hoff]
        refine ⟨⟨fun _ => rfl, fun _ => ⟨by omega, ?_⟩⟩, fun _ => rfl⟩
        omega
  | false =>
    simp only [Bool.toNat_false, Nat.add_zero, Bool.false_eq_true, if_false] at hA hof hto ⊢
    rw [strs_length] at hA
    by_cases h : A < n.choose k
    · rw [if_pos h] at hA
      have hs := hlt _ s (List.mem_of_getElem? hA)
      rw [Nat.testBit_lt_two_pow hs, Nat.mod_eq_of_lt hs, hidx _ _ hA]
      exact ⟨⟨fun _ => rfl, fun _ => ⟨by omega, by omega⟩⟩, fun _ => by omega⟩
    · rw [if_neg h] at hA
      have : s.testBit n = true := by
        by_cases hk : k = 0
        · rw [if_pos hk] at hA; simp at hA
        · rw [if_neg hk, List.getElem?_map] at hA
          cases hD : (strs n (k - 1))[A - n.choose k]? with
          | none => rw [hD] at hA; simp at hA
          | some D =>
            rw [hD] at hA
            simp only [Option.map_some, Option.some.injEq] at hA
            rw [← hA]
            exact testBit_add_pow (hlt _ D (List.mem_of_getElem? hD))
      rw [this]
      refine ⟨⟨fun h' => by omega, fun h' => by simp at h'⟩, fun h' => by simp at h'⟩

theorem occDesc_succ (n D : Nat) : occDesc 0 (n + 1) D = (if D.testBit n then [n] else []) ++ occDesc 0 n (D % 2 ^ n) := by
  unfold occDesc
  rw [Nat.sub_zero, Nat.sub_zero, ← List.range_eq_range', ← List.range_eq_range', List.range_succ, List.filter_append,
    List.reverse_append]
  congr 1
  · by_cases h : D.testBit n <;> simp [h]
  · congr 1
    apply List.filter_congr
    intro p hp
    rw [Nat.testBit_mod_two_pow]
    simp [List.mem_range.1 hp]

theorem detWord_nodup (n A B : Nat) : (detWord n A B).Nodup := by
  unfold detWord
  rw [List.nodup_append]
  refine ⟨(occDesc_nodup 0 n A).map (fun a b h => by simpa using h), (occDesc_nodup 0 n B).map (fun a b h => by simpa using h), ?_⟩
  intro x hx y hy
  rw [List.mem_map] at hx hy
  obtain ⟨p, -, rfl⟩ := hx
  obtain ⟨q, -, rfl⟩ := hy
  simp

theorem word_sign {norb na nb sA sB : Nat} {occA occB : Bool} (hA : sA ∈ strs (norb + 1) (na + occA.toNat))
    (h1 : sA.testBit norb = occA) (h2 : sB.testBit norb = occB) :
    IsReorderSign (addWord norb occA occB ++ detWord norb (sA % 2 ^ norb) (sB % 2 ^ norb)) (detWord (norb + 1) sA sB)
      (params norb na nb occA occB).sgn := by
  have hw : detWord (norb + 1) sA sB = (if occA then [(true, norb)] else []) ++
      ((occDesc 0 norb (sA % 2 ^ norb)).map (fun p => (true, p)) ++ (if occB then [(false, norb)] else [])) ++
      (occDesc 0 norb (sB % 2 ^ norb)).map (fun p => (false, p)) := by
    unfold detWord
    rw [occDesc_succ, occDesc_succ, h1, h2]
    cases occA <;> cases occB <;> simp
  have hlen : (occDesc 0 norb (sA % 2 ^ norb)).length = na := by
    rw [occDesc_length _ _ _ (Nat.zero_le _), nOcc_mod]
    have := (mem_strs.1 hA).2
    rw [nOcc_succ, h1] at this
    cases occA <;> simpa using this
  have hsw := (swaps_block (if occB then [(false, norb)] else [])
    ((occDesc 0 norb (sA % 2 ^ norb)).map (fun p => (true, p)))).ctx (if occA then [(true, norb)] else [])
      ((occDesc 0 norb (sB % 2 ^ norb)).map (fun p => (false, p)))
  rw [← hw] at hsw
  have hl : (if occA then [(true, norb)] else []) ++ ((if occB then [(false, norb)] else []) ++
      (occDesc 0 norb (sA % 2 ^ norb)).map (fun p => (true, p))) ++ (occDesc 0 norb (sB % 2 ^ norb)).map (fun p => (false, p)) =
      addWord norb occA occB ++ detWord norb (sA % 2 ^ norb) (sB % 2 ^ norb) := by
    simp [addWord, detWord]
  rw [hl] at hsw
  have hnd : (addWord norb occA occB ++ detWord norb (sA % 2 ^ norb) (sB % 2 ^ norb)).Nodup :=
    hsw.perm.nodup_iff.1 (detWord_nodup _ _ _)
  have := IsReorderSign.of_path hnd hsw
  rw [List.length_map, hlen] at this
  convert this using 1
  simp only [params]
  cases occB
  · simp
  · rcases Nat.mod_two_eq_zero_or_one na with h | h <;> simp [h]

end Dummy
open Dummy

/-- **C57**. Reading the orbital back undoes adding it, for every occupation. -/
theorem C57_roundtrip {K : Type} [Ring K] (ci : Nat → Nat → K) (norb na nb : Nat) (occA occB : Bool) (A B : Nat)
    (hA : A < norb.choose na) (hB : B < norb.choose nb) :
    readOrbital (addOrbital ci norb na nb occA occB) norb na nb occA occB A B = ci A B := by
  have h1 : ∀ k (occ : Bool), norb.choose k ≤ (norb + 1).choose (k + occ.toNat) := by
    intro k occ
    cases occ
    · exact Nat.choose_le_choose k (by omega)
    · rw [Bool.toNat_true, Nat.choose_succ_succ]; omega
  have ha := h1 na occA
  have hb := h1 nb occB
  have hs : (((params norb na nb occA occB).sgn : Int) : K) * ((params norb na nb occA occB).sgn : K) = 1 := by
    simp only [params]
    split <;> simp
  unfold readOrbital addOrbital
  rw [if_pos]
  · rw [Nat.add_sub_cancel_left, Nat.add_sub_cancel_left, ← mul_assoc, hs, one_mul]
  · simp only [params]
    cases occA <;> cases occB <;> simp at * <;> omega

/-- **C57**. The entry of the padded vector at the determinant `(sA, sB)` of `norb + 1` orbitals is zero unless the added
orbital has the requested occupation; then it is the entry of the original vector at the determinant without that orbital,
times the sign of moving the added creation operators into place. -/
theorem C57_entries {K : Type} [Ring K] (ci : Nat → Nat → K) (norb na nb : Nat) (occA occB : Bool) (A B sA sB : Nat)
    (hA : (strs (norb + 1) (na + occA.toNat))[A]? = some sA) (hB : (strs (norb + 1) (nb + occB.toNat))[B]? = some sB) :
    if sA.testBit norb = occA ∧ sB.testBit norb = occB then
      ∃ sgn : Int, IsReorderSign (addWord norb occA occB ++ detWord norb (sA % 2 ^ norb) (sB % 2 ^ norb))
          (detWord (norb + 1) sA sB) sgn ∧
        addOrbital ci norb na nb occA occB A B =
          (sgn : K) * ci ((strs norb na).idxOf (sA % 2 ^ norb)) ((strs norb nb).idxOf (sB % 2 ^ norb))
    else addOrbital ci norb na nb occA occB A B = 0 := by
  obtain ⟨a1, a2⟩ := side norb na occA A sA (params norb na nb occA occB).ia (params norb na nb occA occB).ja hA
    (by simp only [params]; split <;> rfl) (by simp only [params]; split <;> rfl)
  obtain ⟨b1, b2⟩ := side norb nb occB B sB (params norb na nb occA occB).ib (params norb na nb occA occB).jb hB
    (by simp only [params]; split <;> rfl) (by simp only [params]; split <;> rfl)
  by_cases h : sA.testBit norb = occA ∧ sB.testBit norb = occB
  · rw [if_pos h]
    have hin : (params norb na nb occA occB).ia ≤ A ∧ A < (params norb na nb occA occB).ja ∧
        (params norb na nb occA occB).ib ≤ B ∧ B < (params norb na nb occA occB).jb :=
      ⟨(a1.2 h.1).1, (a1.2 h.1).2, b1.2 h.2⟩
    refine ⟨(params norb na nb occA occB).sgn, ?_, ?_⟩
    · exact word_sign (List.mem_of_getElem? hA) h.1 h.2
    · unfold addOrbital
      rw [if_pos hin, a2 h.1, b2 h.2]
  · rw [if_neg h]
    unfold addOrbital
    rw [if_neg]
    rintro ⟨c1, c2, c3, c4⟩
    exact h ⟨a1.1 ⟨c1, c2⟩, b1.1 ⟨c3, c4⟩⟩

/-- Non-vacuity: adding a doubly occupied third orbital to two orbitals with one electron of each spin. The determinant
`(101, 110)` gets minus the old entry at `(01, 10)`; `(011, 110)` gets zero. -/
example : (strs 3 2)[1]? = some 0b101 ∧ (strs 3 2)[2]? = some 0b110 ∧ (strs 3 2)[0]? = some 0b011 ∧
    addOrbital (fun A B => (10 * A + B + 5 : Int)) 2 1 1 true true 1 2 = -6 ∧
    addOrbital (fun A B => (10 * A + B + 5 : Int)) 2 1 1 true true 0 2 = 0 ∧
    readOrbital (addOrbital (fun A B => (10 * A + B + 5 : Int)) 2 1 1 true true) 2 1 1 true true 0 1 = 6 := by decide

end Verif.Props
