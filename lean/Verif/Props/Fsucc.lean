import Verif.Lemmas.FsuccSpin
import Mathlib.Analysis.SpecialFunctions.Trigonometric.Deriv
import Mathlib.Analysis.SpecialFunctions.Trigonometric.Basic
/-!
# C36-C39, C66-C68: the Fock-space unitary coupled-cluster kernels
-/
namespace Verif.Props
open Verif.Fsucc Verif.Spec.Fsucc

/-! ### C36 -/

/-- C36. The loop visits every determinant in which the `i` orbitals are occupied and the other orbitals of the
excitation empty exactly once as "occupied string", every determinant in which the `a` orbitals are occupied and the
others empty exactly once as "excited string", and no other. -/
theorem C36_visits {norb : Nat} {a i : List Nat} {dA dI : Nat} (ha : detOf a 0 = some dA) (hi : detOf i 0 = some dI)
    (la : ∀ x ∈ a, x < norb) (li : ∀ x ∈ i, x < norb) :
    let pairs := (List.range (iterations norb a i)).map (pairOf norb dI dA)
    (pairs.map Prod.fst).Nodup ∧ (pairs.map Prod.snd).Nodup ∧
    (∀ D, D ∈ pairs.map Prod.fst ↔ Matches norb i a D) ∧ (∀ D, D ∈ pairs.map Prod.snd ↔ Matches norb a i D) := by
  have c : Ctx norb a i dA dI := ⟨ha, hi, la, li⟩
  intro pairs
  have hp : pairs = (List.range (ndet norb (dI ||| dA))).map (pairOf norb dI dA) := by
    simp only [pairs]; rw [c.iterations]
  rw [hp, List.map_map, List.map_map]
  refine ⟨List.nodup_range.map (fun d d' h => c.inj1 h), List.nodup_range.map (fun d d' h => c.inj2 h), ?_, ?_⟩
  · intro D
    simp only [List.mem_map, List.mem_range, Function.comp]
    constructor
    · rintro ⟨d, hd, rfl⟩; exact c.m1 hd
    · exact c.ex1
  · intro D
    simp only [List.mem_map, List.mem_range, Function.comp]
    constructor
    · rintro ⟨d, hd, rfl⟩; exact c.m2 hd
    · exact c.ex2

/-- C36. Different iterations touch no common determinant. -/
theorem C36_disjoint {norb : Nat} {a i : List Nat} {dA dI : Nat} (ha : detOf a 0 = some dA) (hi : detOf i 0 = some dI)
    (la : ∀ x ∈ a, x < norb) (li : ∀ x ∈ i, x < norb) {d d' : Nat} (hne : d ≠ d') :
    (pairOf norb dI dA d).1 ≠ (pairOf norb dI dA d').1 ∧ (pairOf norb dI dA d).1 ≠ (pairOf norb dI dA d').2 ∧
    (pairOf norb dI dA d).2 ≠ (pairOf norb dI dA d').1 ∧ (pairOf norb dI dA d).2 ≠ (pairOf norb dI dA d').2 := by
  have c : Ctx norb a i dA dI := ⟨ha, hi, la, li⟩
  exact ⟨fun h => hne (c.inj1 h), fun h => hne (c.cross h).1, fun h => hne (c.cross h.symm).1.symm,
    fun h => hne (c.inj2 h)⟩

example : detOf [2] 0 = some 4 ∧ detOf [0] 0 = some 1 ∧ iterations 3 [2] [0] = 2 ∧
    (List.range (iterations 3 [2] [0])).map (pairOf 3 1 4) = [(1, 4), (3, 6)] := by decide

/-- C36. The result of the in-place rotation does not depend on the order in which the threads execute the
iterations. -/
theorem C36_schedule_rotation {K : Type} [CommRing K] [DecidableEq K] {norb : Nat} {a i : List Nat}
    (la : ∀ x ∈ a, x < norb) (li : ∀ x ∈ i, x < norb) (cc ss : K) (psi : Nat → K) {order order' : List Nat}
    (h : order.Perm (List.range (iterations norb a i))) (h' : order'.Perm (List.range (iterations norb a i))) :
    contract1u norb a i cc ss order psi = contract1u norb a i cc ss order' psi := by
  by_cases hn : a.Nodup ∧ i.Nodup
  · obtain ⟨dA, dI, c⟩ := exists_ctx hn.1 hn.2 la li
    rw [c.iterations] at h h'
    have hN : order.Nodup := h.nodup_iff.mpr List.nodup_range
    have hN' : order'.Nodup := h'.nodup_iff.mpr List.nodup_range
    funext x
    by_cases hx : ∃ d ∈ order, Touch norb dI dA d x
    · obtain ⟨d, hd, ht⟩ := hx
      rw [contract1u_touched c cc ss hN psi hd ht,
        contract1u_touched c cc ss hN' psi (h'.mem_iff.mpr (h.mem_iff.mp hd)) ht]
    · push Not at hx
      rw [contract1u_untouched c cc ss psi hx,
        contract1u_untouched c cc ss psi (fun d hd => hx d (h.mem_iff.mpr (h'.mem_iff.mp hd)))]
  · unfold contract1u contract1
    cases h1 : detOf i 0 with
    | none => rfl
    | some e =>
      cases h2 : detOf a 0 with
      | none => rfl
      | some e' => exact absurd ⟨(detOf_bits h2).1, (detOf_bits h1).1⟩ hn

/-- C36. Nor does the result of the accumulating kernel. -/
theorem C36_schedule_accumulate {K : Type} [CommRing K] [DecidableEq K] {norb : Nat} {a i : List Nat}
    (la : ∀ x ∈ a, x < norb) (li : ∀ x ∈ i, x < norb) (g : K) (psi hpsi : Nat → K) {order order' : List Nat}
    (h : order.Perm (List.range (iterations norb a i))) (h' : order'.Perm (List.range (iterations norb a i))) :
    contract1g norb a i g psi order hpsi = contract1g norb a i g psi order' hpsi := by
  by_cases hn : a.Nodup ∧ i.Nodup
  · obtain ⟨dA, dI, c⟩ := exists_ctx hn.1 hn.2 la li
    funext x
    rw [contract1g_eq c, contract1g_eq c]
    congr 1
    exact ((h.trans h'.symm).map _).sum_eq
  · unfold contract1g contract1
    cases h1 : detOf i 0 with
    | none => rfl
    | some e =>
      cases h2 : detOf a 0 with
      | none => rfl
      | some e' => exact absurd ⟨(detOf_bits h2).1, (detOf_bits h1).1⟩ hn

example : [1, 0].Perm (List.range (iterations 3 [2] [0])) ∧
    contract1u (K := Int) 3 [2] [0] 0 1 [1, 0] (fun D => D) 6 = -3 := by
  constructor
  · decide
  · decide

/-! ### C37 -/

/-- Two duplicate-free strings that are not rearrangements of each other are different sets. -/
theorem sets_ne {a i : List Nat} (ha : a.Nodup) (hi : i.Nodup) (h : ¬ a.Perm i) : ¬ ∀ p, p ∈ a ↔ p ∈ i :=
  fun h' => h ((List.perm_ext_iff_of_nodup ha hi).mpr h')

/-- With a repeated orbital in either string the rotation is the identity. -/
theorem contract1u_nilpotent {K : Type} [CommRing K] [DecidableEq K] {norb : Nat} {a i : List Nat}
    (hn : ¬ (a.Nodup ∧ i.Nodup)) (x y : K) (o : List Nat) (p : Nat → K) : contract1u norb a i x y o p = p := by
  unfold contract1u contract1
  cases h1 : detOf i 0 with
  | none => rfl
  | some e =>
    cases h2 : detOf a 0 with
    | none => rfl
    | some e' => exact absurd ⟨(detOf_bits h2).1, (detOf_bits h1).1⟩ hn

/-- A determinant is the occupied string of an iteration, the excited string of an iteration, or neither. -/
theorem det_cases {norb : Nat} {a i : List Nat} {dA dI : Nat} (k : Ctx norb a i dA dI) (D : Nat) :
    (∃ d < ndet norb (dI ||| dA), (pairOf norb dI dA d).1 = D) ∨
    (∃ d < ndet norb (dI ||| dA), (pairOf norb dI dA d).2 = D) ∨
    (¬ Matches norb a i D ∧ ¬ Matches norb i a D) := by
  by_cases h1 : Matches norb a i D
  · exact Or.inr (Or.inl (by obtain ⟨d, hd, e⟩ := k.ex2 h1; exact ⟨d, hd, e⟩))
  · by_cases h2 : Matches norb i a D
    · exact Or.inl (by obtain ⟨d, hd, e⟩ := k.ex1 h2; exact ⟨d, hd, e⟩)
    · exact Or.inr (Or.inr ⟨h1, h2⟩)

/-- C37. Rotations compose by adding their angles: `(c, s)` followed by `(c', s')` is
`(c c' - s s', c s' + s c')`. -/
theorem C37_compose {K : Type} [CommRing K] [DecidableEq K] {norb : Nat} {a i : List Nat}
    (la : ∀ x ∈ a, x < norb) (li : ∀ x ∈ i, x < norb) (hne : ¬ a.Perm i) (c s c' s' : K) (psi : Nat → K)
    {order order' order'' : List Nat} (h : order.Perm (List.range (iterations norb a i)))
    (h' : order'.Perm (List.range (iterations norb a i))) (h'' : order''.Perm (List.range (iterations norb a i))) :
    contract1u norb a i c' s' order' (contract1u norb a i c s order psi) =
      contract1u norb a i (c * c' - s * s') (c * s' + s * c') order'' psi := by
  by_cases hn : a.Nodup ∧ i.Nodup
  · obtain ⟨dA, dI, k⟩ := exists_ctx hn.1 hn.2 la li
    have hne' := sets_ne hn.1 hn.2 hne
    have H := contract1u_cases k hne' c s h psi
    have H' := contract1u_cases k hne' c' s' h' (contract1u norb a i c s order psi)
    have H'' := contract1u_cases k hne' (c * c' - s * s') (c * s' + s * c') h'' psi
    have hs : ∀ n : Nat, ((-1 : K) ^ n) ^ 2 = 1 := by intro n; rw [← pow_mul, mul_comm, pow_mul]; simp
    funext D
    rcases det_cases k D with ⟨d, hd, rfl⟩ | ⟨d, hd, rfl⟩ | ⟨h1, h2⟩
    · rw [(H'.1 d hd).1, (H.1 d hd).1, (H.1 d hd).2, (H''.1 d hd).1]
      linear_combination (-(s * s' * psi (pairOf norb dI dA d).1)) *
        hs (cnt norb a (pairOf norb dI dA d).2 + cnt norb i (pairOf norb dI dA d).1)
    · rw [(H'.1 d hd).2, (H.1 d hd).1, (H.1 d hd).2, (H''.1 d hd).2]
      linear_combination (-(s * s' * psi (pairOf norb dI dA d).2)) *
        hs (cnt norb a (pairOf norb dI dA d).2 + cnt norb i (pairOf norb dI dA d).1)
    · rw [H'.2 D h1 h2, H.2 D h1 h2, H''.2 D h1 h2]
  · rw [contract1u_nilpotent hn, contract1u_nilpotent hn, contract1u_nilpotent hn]

/-- Rotation by the angle zero. -/
theorem contract1u_zero {K : Type} [CommRing K] [DecidableEq K] {norb : Nat} {a i : List Nat}
    (la : ∀ x ∈ a, x < norb) (li : ∀ x ∈ i, x < norb) (hne : ¬ a.Perm i) (psi : Nat → K) {order : List Nat}
    (h : order.Perm (List.range (iterations norb a i))) : contract1u norb a i 1 0 order psi = psi := by
  by_cases hn : a.Nodup ∧ i.Nodup
  · obtain ⟨dA, dI, k⟩ := exists_ctx hn.1 hn.2 la li
    have H := contract1u_cases k (sets_ne hn.1 hn.2 hne) 1 0 h psi
    funext D
    rcases det_cases k D with ⟨d, hd, rfl⟩ | ⟨d, hd, rfl⟩ | ⟨h1, h2⟩
    · rw [(H.1 d hd).1]; ring
    · rw [(H.1 d hd).2]; ring
    · rw [H.2 D h1 h2]
  · rw [contract1u_nilpotent hn]

/-- C37 (partial: the two strings must not be rearrangements of each other, see `C37_restore_violated`). The rotation
with amplitude `t` (`c = cos t`, `s = sin t`) followed by the one with `-t` restores the vector. -/
theorem C37_restore_partial {K : Type} [CommRing K] [DecidableEq K] {norb : Nat} {a i : List Nat}
    (la : ∀ x ∈ a, x < norb) (li : ∀ x ∈ i, x < norb) (hne : ¬ a.Perm i) {c s : K} (hcs : c ^ 2 + s ^ 2 = 1)
    (psi : Nat → K) {order order' : List Nat} (h : order.Perm (List.range (iterations norb a i)))
    (h' : order'.Perm (List.range (iterations norb a i))) :
    contract1u norb a i c (-s) order' (contract1u norb a i c s order psi) = psi := by
  rw [C37_compose la li hne c s c (-s) psi h h' h, show c * c - s * -s = 1 by linear_combination hcs,
    show c * -s + s * c = 0 by ring]
  exact contract1u_zero la li hne psi h

/-- C37 (partial, as above). The norm of the vector is preserved. -/
theorem C37_norm_partial {K : Type} [CommRing K] [DecidableEq K] {norb : Nat} {a i : List Nat}
    (la : ∀ x ∈ a, x < norb) (li : ∀ x ∈ i, x < norb) (hne : ¬ a.Perm i) {c s : K} (hcs : c ^ 2 + s ^ 2 = 1)
    (psi : Nat → K) {order : List Nat} (h : order.Perm (List.range (iterations norb a i))) :
    ∑ D ∈ Finset.range (2 ^ norb), contract1u norb a i c s order psi D ^ 2 =
      ∑ D ∈ Finset.range (2 ^ norb), psi D ^ 2 := by
  by_cases hn : a.Nodup ∧ i.Nodup
  · obtain ⟨dA, dI, k⟩ := exists_ctx hn.1 hn.2 la li
    have hne' := sets_ne hn.1 hn.2 hne
    rw [contract1u_fold k]
    rw [k.iterations] at h
    have hlt : ∀ d ∈ order, d < ndet norb (dI ||| dA) := fun d hd => List.mem_range.mp (h.mem_iff.mp hd)
    clear h
    induction order generalizing psi with
    | nil => rfl
    | cons d l ih =>
      rw [List.foldl_cons, ih _ (fun e he => hlt e (by simp [he]))]
      have hd := hlt d (by simp)
      have hne2 : (pairOf norb dI dA d).1 ≠ (pairOf norb dI dA d).2 := fun h => hne' (k.cross h).2
      have hsplit : ∀ f : Nat → K, ∑ D ∈ Finset.range (2 ^ norb), f D =
          f (pairOf norb dI dA d).1 + f (pairOf norb dI dA d).2 +
            ∑ D ∈ ((Finset.range (2 ^ norb)).erase (pairOf norb dI dA d).1).erase (pairOf norb dI dA d).2, f D := by
        intro f
        rw [← Finset.add_sum_erase _ _ (Finset.mem_range.mpr (k.lt1 hd)),
          ← Finset.add_sum_erase _ _ (Finset.mem_erase.mpr ⟨hne2.symm, Finset.mem_range.mpr (k.lt2 hd)⟩), add_assoc]
      rw [hsplit, hsplit]
      congr 1
      · rw [mixdetu_ia hne2, mixdetu_ai hne2, sgnOf_eq]
        have hs : ∀ n : Nat, ((-1 : K) ^ n) ^ 2 = 1 := by intro n; rw [← pow_mul, mul_comm, pow_mul]; simp
        have := hs (cnt norb a (pairOf norb dI dA d).2 + cnt norb i (pairOf norb dI dA d).1)
        generalize ((-1 : K) ^ (cnt norb a (pairOf norb dI dA d).2 + cnt norb i (pairOf norb dI dA d).1)) = e at this
        linear_combination (s ^ 2 * (psi (pairOf norb dI dA d).1 ^ 2 + psi (pairOf norb dI dA d).2 ^ 2)) * this +
          (psi (pairOf norb dI dA d).1 ^ 2 + psi (pairOf norb dI dA d).2 ^ 2) * hcs
      · apply Finset.sum_congr rfl
        intro D hD
        rw [Finset.mem_erase, Finset.mem_erase] at hD
        rw [mixdetu_untouched _ _ _ _ _ _ _ (fun h => h.elim hD.2.1 hD.1)]
  · rw [contract1u_nilpotent hn]

/-- C37 fails if the two strings consist of the same orbitals: `t = π/2` followed by `t = -π/2` changes the sign of
the occupied determinant of one orbital, although the generator `a'a - a'a` is zero. -/
theorem C37_restore_violated : ¬ ∀ (norb : Nat) (a i : List Nat) (c s : Int) (psi : Nat → Int),
    (∀ x ∈ a, x < norb) → (∀ x ∈ i, x < norb) → c ^ 2 + s ^ 2 = 1 →
    contract1u norb a i c (-s) (List.range (iterations norb a i))
      (contract1u norb a i c s (List.range (iterations norb a i)) psi) = psi := by
  intro h
  have := congrFun (h 1 [0] [0] 0 1 (fun _ => 1) (by decide) (by decide) (by decide)) 1
  revert this
  decide

example : (∀ x ∈ [2], x < 3) ∧ (∀ x ∈ [0], x < 3) ∧ ¬ [2].Perm [0] ∧ ((0 : Int) ^ 2 + 1 ^ 2 = 1) ∧
    (List.range (iterations 3 [2] [0])).length = 2 := by decide

/-! ### C38 -/

theorem foldl_or_bits (l : List Nat) (d p : Nat) :
    (l.foldl (fun d x => d ||| (1 <<< x)) d).testBit p = (d.testBit p || decide (p ∈ l)) := by
  induction l generalizing d with
  | nil => simp
  | cons x l ih =>
    rw [List.foldl_cons, ih, Nat.testBit_or, Nat.one_shiftLeft, Nat.testBit_two_pow]
    simp [Bool.or_assoc, eq_comm]

theorem and_eq_iff {D m e : Nat} (he : ∀ p, e.testBit p = true → m.testBit p = true) :
    D &&& m = e ↔ ∀ p, m.testBit p = true → (D.testBit p = true ↔ e.testBit p = true) := by
  constructor
  · rintro rfl p hp
    rw [Nat.testBit_and, hp]; simp
  · intro h
    apply Nat.eq_of_testBit_eq
    intro p
    rw [Nat.testBit_and]
    by_cases hm : m.testBit p = true
    · have := h p hm
      rw [hm]
      cases h1 : D.testBit p <;> cases h2 : e.testBit p <;> simp_all
    · have h1 : e.testBit p ≠ true := fun h2 => hm (he p h2)
      simp only [Bool.not_eq_true] at hm h1
      rw [hm, h1]; simp

theorem foldl_zero {K : Type} [Zero K] (P : Nat → Prop) [DecidablePred P] (l : List Nat) (psi : Nat → K) (x : Nat) :
    (l.foldl (fun psi det => if P det then psi else Function.update psi det 0) psi) x =
      if x ∈ l ∧ ¬ P x then 0 else psi x := by
  induction l generalizing psi with
  | nil => simp
  | cons d l ih =>
    rw [List.foldl_cons, ih]
    by_cases hl : x ∈ l ∧ ¬ P x
    · rw [if_pos hl, if_pos ⟨by simp [hl.1], hl.2⟩]
    · rw [if_neg hl]
      by_cases hx : x = d
      · subst hx
        by_cases hp : P x
        · simp [hp]
        · simp [hp]
      · have h2 : ¬ (x ∈ d :: l ∧ ¬ P x) := by
          rintro ⟨h1, h2⟩
          rcases List.mem_cons.mp h1 with h1 | h1
          · exact hx h1
          · exact hl ⟨h1, h2⟩
        rw [if_neg h2]
        split
        · rfl
        · rw [Function.update_of_ne hx]

open Classical in
/-- C38. The projection keeps the coefficient of a determinant whose pattern on the orbitals of the excitation is
"exactly `i` occupied" or "exactly `a` occupied" and zeroes every other coefficient of the array, in whatever order
the threads run. -/
theorem C38_projects {K : Type} [CommRing K] (norb : Nat) (a i : List Nat) {order : List Nat}
    (h : order.Perm (List.range (2 ^ norb))) (psi : Nat → K) {D : Nat} (hD : D < 2 ^ norb) :
    projai norb a i order psi D = if Matches norb i a D ∨ Matches norb a i D then psi D else 0 := by
  unfold projai
  set dI := i.foldl (fun d x => d ||| (1 <<< x)) 0 with hI
  set dA := a.foldl (fun d x => d ||| (1 <<< x)) 0 with hA
  have bI : ∀ p, dI.testBit p = decide (p ∈ i) := fun p => by rw [hI, foldl_or_bits]; simp
  have bA : ∀ p, dA.testBit p = decide (p ∈ a) := fun p => by rw [hA, foldl_or_bits]; simp
  have e : (fun (psi : Nat → K) det => if det &&& (dI ||| dA) = dI then psi else
      if det &&& (dI ||| dA) = dA then psi else Function.update psi det 0) =
      fun psi det => if (det &&& (dI ||| dA) = dI ∨ det &&& (dI ||| dA) = dA) then psi else
        Function.update psi det 0 := by
    funext psi det
    by_cases h1 : det &&& (dI ||| dA) = dI
    · rw [if_pos h1, if_pos (Or.inl h1)]
    · rw [if_neg h1]
      by_cases h2 : det &&& (dI ||| dA) = dA
      · rw [if_pos h2, if_pos (Or.inr h2)]
      · rw [if_neg h2, if_neg (fun h => h.elim h1 h2)]
  rw [e, foldl_zero]
  have m1 : D &&& (dI ||| dA) = dI ↔ Matches norb i a D := by
    rw [and_eq_iff (by intro p hp; rw [Nat.testBit_or, hp]; rfl)]
    simp only [Matches, Nat.testBit_or, bI, bA, hD, true_and, Bool.or_eq_true, decide_eq_true_eq]
  have m2 : D &&& (dI ||| dA) = dA ↔ Matches norb a i D := by
    rw [and_eq_iff (by intro p hp; rw [Nat.testBit_or, hp]; simp)]
    simp only [Matches, Nat.testBit_or, bI, bA, hD, true_and, Bool.or_eq_true, decide_eq_true_eq, or_comm]
  have hm : D ∈ order := h.mem_iff.mpr (List.mem_range.mpr hD)
  have mm : (D &&& (dI ||| dA) = dI ∨ D &&& (dI ||| dA) = dA) ↔ (Matches norb i a D ∨ Matches norb a i D) :=
    or_congr m1 m2
  by_cases hx : Matches norb i a D ∨ Matches norb a i D
  · rw [if_pos hx, if_neg (fun h => h.2 (mm.mpr hx))]
  · rw [if_neg hx, if_pos ⟨hm, fun h => hx (mm.mp h)⟩]

/-- C38. Projecting twice is projecting once. -/
theorem C38_idempotent {K : Type} [CommRing K] (norb : Nat) (a i : List Nat) {order order' : List Nat}
    (h : order.Perm (List.range (2 ^ norb))) (h' : order'.Perm (List.range (2 ^ norb))) (psi : Nat → K) {D : Nat}
    (hD : D < 2 ^ norb) :
    projai norb a i order' (projai norb a i order psi) D = projai norb a i order psi D := by
  rw [C38_projects norb a i h' _ hD, C38_projects norb a i h _ hD]
  split <;> rfl

/-- C38. For duplicate-free strings the determinants kept are those on which `a0'a1'…i1i0` or its conjugate acts. -/
theorem C38_interacting {norb : Nat} {a i : List Nat} (ha : a.Nodup) (hi : i.Nodup)
    (la : ∀ x ∈ a, x < norb) (li : ∀ x ∈ i, x < norb) {D : Nat} :
    Matches norb i a D ↔ ∃ D' < 2 ^ norb, D < 2 ^ norb ∧
      excite norb a i (fun E => if E = D then (1 : Int) else 0) D' ≠ 0 := by
  classical
  obtain ⟨dA, dI, k⟩ := exists_ctx ha hi la li
  constructor
  · intro h
    obtain ⟨d, hd, rfl⟩ := k.ex1 h
    refine ⟨(pairOf norb dI dA d).2, k.lt2 hd, k.lt1 hd, ?_⟩
    rw [excite_eq ha hi _ (k.lt2 hd), if_pos (k.m2 hd), k.partner, if_pos rfl, mul_one]
    exact pow_ne_zero _ (by decide)
  · rintro ⟨D', h1, h2, h3⟩
    rw [excite_eq ha hi _ h1] at h3
    split at h3
    · rename_i hm
      obtain ⟨d, hd, rfl⟩ := k.ex2 hm
      rw [k.partner] at h3
      split at h3
      · rename_i he
        rw [← he]; exact k.m1 hd
      · simp at h3
    · exact absurd rfl h3

example : projai (K := Int) 3 [2] [0] (List.range 8) (fun D => D + 1) 3 = 4 ∧
    projai (K := Int) 3 [2] [0] (List.range 8) (fun D => D + 1) 5 = 0 := by decide

/-! ### C66: the kernels compute second-quantized operators -/

/-- C66. `FSUCCcontract1g` adds `g a0'a1'…i1i0|Ψ⟩` to the output vector. -/
theorem C66_operator {K : Type} [CommRing K] [DecidableEq K] {norb : Nat} {a i : List Nat} (la : ∀ x ∈ a, x < norb)
    (li : ∀ x ∈ i, x < norb) (g : K) (psi : Nat → K) {order : List Nat}
    (ho : order.Perm (List.range (iterations norb a i))) (hpsi : Nat → K) {D : Nat} (hD : D < 2 ^ norb) :
    contract1g norb a i g psi order hpsi D = hpsi D + g * excite norb a i psi D :=
  contract1g_spec la li g psi ho hpsi hD

example : contract1g (K := Int) 3 [2] [0] 5 (fun D => D) [1, 0] (fun _ => 0) 6 = -15 ∧
    excite 3 [2] [0] (fun D => (D : Int)) 6 = -3 := by decide

/-- The closed form of the rotation. -/
theorem rotation_closed {K : Type} [CommRing K] [DecidableEq K] {norb : Nat} {a i : List Nat}
    (la : ∀ x ∈ a, x < norb) (li : ∀ x ∈ i, x < norb) (hne : ¬ a.Perm i) (c s : K) (psi : Nat → K)
    {order : List Nat} (h : order.Perm (List.range (iterations norb a i))) {D : Nat} (hD : D < 2 ^ norb) :
    contract1u norb a i c s order psi D =
      psi D + s * generator norb a i psi D + (1 - c) * generator norb a i (generator norb a i psi) D := by
  by_cases hn : a.Nodup ∧ i.Nodup
  · obtain ⟨dA, dI, k⟩ := exists_ctx hn.1 hn.2 la li
    have hne' := sets_ne hn.1 hn.2 hne
    have H := contract1u_cases k hne' c s h psi
    have hs : ∀ n : Nat, ((-1 : K) ^ n) ^ 2 = 1 := by intro n; rw [← pow_mul, mul_comm, pow_mul]; simp
    rcases det_cases k D with ⟨d, hd, rfl⟩ | ⟨d, hd, rfl⟩ | ⟨h1, h2⟩
    · obtain ⟨e1, e2, e3, e4⟩ := excite_pair k hne' psi hd
      obtain ⟨f1, f2, f3, f4⟩ := excite_pair k hne' (generator norb a i psi) hd
      rw [(H.1 d hd).1]
      have hs' := hs (cnt norb a (pairOf norb dI dA d).2 + cnt norb i (pairOf norb dI dA d).1)
      have g1 : generator norb a i psi (pairOf norb dI dA d).1 =
          -((-1) ^ (cnt norb a (pairOf norb dI dA d).2 + cnt norb i (pairOf norb dI dA d).1) *
            psi (pairOf norb dI dA d).2) := by unfold generator; rw [e2, e3]; ring
      have g2 : generator norb a i psi (pairOf norb dI dA d).2 =
          (-1) ^ (cnt norb a (pairOf norb dI dA d).2 + cnt norb i (pairOf norb dI dA d).1) *
            psi (pairOf norb dI dA d).1 := by unfold generator; rw [e1, e4]; ring
      have g3 : generator norb a i (generator norb a i psi) (pairOf norb dI dA d).1 =
          -((-1) ^ (cnt norb a (pairOf norb dI dA d).2 + cnt norb i (pairOf norb dI dA d).1) *
            generator norb a i psi (pairOf norb dI dA d).2) := by
        rw [generator, f2, f3]; ring
      rw [g3, g1, g2]
      linear_combination ((1 - c) * psi (pairOf norb dI dA d).1) * hs'
    · obtain ⟨e1, e2, e3, e4⟩ := excite_pair k hne' psi hd
      obtain ⟨f1, f2, f3, f4⟩ := excite_pair k hne' (generator norb a i psi) hd
      rw [(H.1 d hd).2]
      have hs' := hs (cnt norb a (pairOf norb dI dA d).2 + cnt norb i (pairOf norb dI dA d).1)
      have g1 : generator norb a i psi (pairOf norb dI dA d).1 =
          -((-1) ^ (cnt norb a (pairOf norb dI dA d).2 + cnt norb i (pairOf norb dI dA d).1) *
            psi (pairOf norb dI dA d).2) := by unfold generator; rw [e2, e3]; ring
      have g2 : generator norb a i psi (pairOf norb dI dA d).2 =
          (-1) ^ (cnt norb a (pairOf norb dI dA d).2 + cnt norb i (pairOf norb dI dA d).1) *
            psi (pairOf norb dI dA d).1 := by unfold generator; rw [e1, e4]; ring
      have g3 : generator norb a i (generator norb a i psi) (pairOf norb dI dA d).2 =
          (-1) ^ (cnt norb a (pairOf norb dI dA d).2 + cnt norb i (pairOf norb dI dA d).1) *
            generator norb a i psi (pairOf norb dI dA d).1 := by
        rw [generator, f1, f4]; ring
      rw [g3, g2, g1]
      linear_combination ((1 - c) * psi (pairOf norb dI dA d).2) * hs'
    · classical
      have hg : ∀ φ : Nat → K, generator norb a i φ D = 0 := by
        intro φ
        unfold generator
        rw [excite_eq hn.1 hn.2 φ hD, excite_eq hn.2 hn.1 φ hD, if_neg h1, if_neg h2, sub_zero]
      rw [H.2 D h1 h2, hg, hg]; ring
  · rw [contract1u_nilpotent hn]
    have hg : ∀ φ : Nat → K, generator norb a i φ D = 0 := by
      intro φ
      unfold generator
      by_cases ha : a.Nodup
      · have hi : ¬ i.Nodup := fun hi => hn ⟨ha, hi⟩
        rw [excite_none_right hi, excite_none_left hi, sub_zero]
      · rw [excite_none_left ha, excite_none_right ha, sub_zero]
    rw [hg, hg]; ring

/-- C66 (partial: strings that are rearrangements of each other are excluded, see `C37_restore_violated`). The
in-place rotation with amplitude `t` is `exp(t A)`, `A = a0'a1'…i1i0 - i0'i1'…a1a0`: it is the identity at `t = 0`
and its derivative is `A` applied to it. -/
theorem C66_exponential_partial {norb : Nat} {a i : List Nat} (la : ∀ x ∈ a, x < norb) (li : ∀ x ∈ i, x < norb)
    (hne : ¬ a.Perm i) (psi : Nat → ℝ) {order : List Nat} (h : order.Perm (List.range (iterations norb a i)))
    {D : Nat} (hD : D < 2 ^ norb) :
    contract1u norb a i (Real.cos 0) (Real.sin 0) order psi D = psi D ∧
    ∀ t, HasDerivAt (fun t => contract1u norb a i (Real.cos t) (Real.sin t) order psi D)
      (generator norb a i (contract1u norb a i (Real.cos t) (Real.sin t) order psi) D) t := by
  constructor
  · rw [Real.cos_zero, Real.sin_zero, contract1u_zero la li hne psi h]
  · intro t
    have e : (fun t => contract1u norb a i (Real.cos t) (Real.sin t) order psi D) = fun t =>
        psi D + Real.sin t * generator norb a i psi D +
          (1 - Real.cos t) * generator norb a i (generator norb a i psi) D := by
      funext t
      exact rotation_closed la li hne _ _ psi h hD
    rw [e]
    have key : generator norb a i (contract1u norb a i (Real.cos t) (Real.sin t) order psi) D =
        0 + Real.cos t * generator norb a i psi D +
          (0 - -Real.sin t) * generator norb a i (generator norb a i psi) D := by
      by_cases hn : a.Nodup ∧ i.Nodup
      · obtain ⟨dA, dI, k⟩ := exists_ctx hn.1 hn.2 la li
        have hne' := sets_ne hn.1 hn.2 hne
        have H := contract1u_cases k hne' (Real.cos t) (Real.sin t) h psi
        have hs : ∀ n : Nat, ((-1 : ℝ) ^ n) ^ 2 = 1 := by intro n; rw [← pow_mul, mul_comm, pow_mul]; simp
        rcases det_cases k D with ⟨d, hd, rfl⟩ | ⟨d, hd, rfl⟩ | ⟨h1, h2⟩
        · have f := excite_pair k hne' psi hd
          have f' := excite_pair k hne' (generator norb a i psi) hd
          have f'' := excite_pair k hne' (contract1u norb a i (Real.cos t) (Real.sin t) order psi) hd
          simp only [generator] at f' ⊢
          rw [f''.2.1, f''.2.2.1, (H.1 d hd).2, f'.2.1, f'.2.2.1, f.1, f.2.1, f.2.2.1, f.2.2.2]
          ring
        · have f := excite_pair k hne' psi hd
          have f' := excite_pair k hne' (generator norb a i psi) hd
          have f'' := excite_pair k hne' (contract1u norb a i (Real.cos t) (Real.sin t) order psi) hd
          simp only [generator] at f' ⊢
          rw [f''.1, f''.2.2.2, (H.1 d hd).1, f'.1, f'.2.2.2, f.1, f.2.1, f.2.2.1, f.2.2.2]
          ring
        · classical
          have hg : ∀ φ : Nat → ℝ, generator norb a i φ D = 0 := by
            intro φ
            unfold generator
            rw [excite_eq hn.1 hn.2 φ hD, excite_eq hn.2 hn.1 φ hD, if_neg h1, if_neg h2, sub_zero]
          rw [hg, hg, hg]; ring
      · have hg : ∀ φ : Nat → ℝ, generator norb a i φ D = 0 := by
          intro φ
          unfold generator
          by_cases ha : a.Nodup
          · have hi : ¬ i.Nodup := fun hi => hn ⟨ha, hi⟩
            rw [excite_none_right hi, excite_none_left hi, sub_zero]
          · rw [excite_none_left ha, excite_none_right ha, sub_zero]
        rw [hg, hg, hg]; ring
    rw [key]
    exact (((hasDerivAt_const t (psi D)).add ((Real.hasDerivAt_sin t).mul_const _)).add
      (((hasDerivAt_const t (1 : ℝ)).sub (Real.hasDerivAt_cos t)).mul_const _))

/-! ### C67: the derivative recipe -/

/-- C67. Rotating with `t + π/2` and then projecting onto the interacting determinants gives `dU/dt|Ψ⟩`. -/
theorem C67_derivative_projected {norb : Nat} {a i : List Nat} (ha : a.Nodup) (hi : i.Nodup)
    (la : ∀ x ∈ a, x < norb) (li : ∀ x ∈ i, x < norb) (hne : ¬ a.Perm i) (psi : Nat → ℝ) {order order' : List Nat}
    (h : order.Perm (List.range (iterations norb a i))) (h' : order'.Perm (List.range (2 ^ norb)))
    {D : Nat} (hD : D < 2 ^ norb) (t : ℝ) :
    HasDerivAt (fun t => contract1u norb a i (Real.cos t) (Real.sin t) order psi D)
      (projai norb a i order' (contract1u norb a i (Real.cos (t + Real.pi / 2)) (Real.sin (t + Real.pi / 2))
        order psi) D) t := by
  have hd := (C66_exponential_partial la li hne psi h hD).2 t
  convert hd using 1
  clear hd
  classical
  rw [C38_projects norb a i h' _ hD, Real.cos_add_pi_div_two, Real.sin_add_pi_div_two]
  obtain ⟨dA, dI, k⟩ := exists_ctx ha hi la li
  have hne' := sets_ne ha hi hne
  have H := contract1u_cases k hne' (Real.cos t) (Real.sin t) h psi
  have H' := contract1u_cases k hne' (-Real.sin t) (Real.cos t) h psi
  have hs : ∀ n : Nat, ((-1 : ℝ) ^ n) ^ 2 = 1 := by intro n; rw [← pow_mul, mul_comm, pow_mul]; simp
  rcases det_cases k D with ⟨d, hd, rfl⟩ | ⟨d, hd, rfl⟩ | ⟨h1, h2⟩
  · have hs' := hs (cnt norb a (pairOf norb dI dA d).2 + cnt norb i (pairOf norb dI dA d).1)
    rw [if_pos (Or.inl (k.m1 hd)), (H'.1 d hd).1]
    have f := excite_pair k hne' (contract1u norb a i (Real.cos t) (Real.sin t) order psi) hd
    simp only [generator]
    rw [f.2.1, f.2.2.1, (H.1 d hd).2]
    linear_combination (Real.sin t * psi (pairOf norb dI dA d).1) * hs'
  · have hs' := hs (cnt norb a (pairOf norb dI dA d).2 + cnt norb i (pairOf norb dI dA d).1)
    rw [if_pos (Or.inr (k.m2 hd)), (H'.1 d hd).2]
    have f := excite_pair k hne' (contract1u norb a i (Real.cos t) (Real.sin t) order psi) hd
    simp only [generator]
    rw [f.1, f.2.2.2, (H.1 d hd).1]
    linear_combination (Real.sin t * psi (pairOf norb dI dA d).2) * hs'
  · rw [if_neg (fun h => h.elim h2 h1)]
    unfold generator
    rw [excite_eq ha hi _ hD, excite_eq hi ha _ hD, if_neg h1, if_neg h2, sub_zero]

/-- C67 fails without the projection, as the comment in the code has it ("add pi/2 to the amplitude to evaluate
dU/dt"): on the vacuum of three orbitals, untouched by the excitation 0 → 2, the derivative is 0 but the recipe
returns the vector itself. -/
theorem C67_derivative_violated : ¬ ∀ (norb : Nat) (a i : List Nat) (psi : Nat → ℝ) (D : Nat) (t : ℝ),
    a.Nodup → i.Nodup → (∀ x ∈ a, x < norb) → (∀ x ∈ i, x < norb) → ¬ a.Perm i → D < 2 ^ norb →
    HasDerivAt (fun t => contract1u norb a i (Real.cos t) (Real.sin t) (List.range (iterations norb a i)) psi D)
      (contract1u norb a i (Real.cos (t + Real.pi / 2)) (Real.sin (t + Real.pi / 2))
        (List.range (iterations norb a i)) psi D) t := by
  intro h
  have h1 := h 3 [2] [0] (fun _ => 1) 0 0 (by decide) (by decide) (by decide) (by decide) (by decide) (by decide)
  have h2 := (C66_exponential_partial (norb := 3) (a := [2]) (i := [0]) (by decide) (by decide) (by decide)
    (fun _ => 1) (List.Perm.refl _) (D := 0) (by decide)).2 0
  have h3 := h1.unique h2
  obtain ⟨dA, dI, k⟩ := exists_ctx (norb := 3) (a := [2]) (i := [0]) (by decide) (by decide) (by decide) (by decide)
  have hne' : ¬ ∀ p, p ∈ [2] ↔ p ∈ [0] := fun h => by simpa using (h 2).mp (by simp)
  have n1 : ¬ Matches 3 [2] [0] 0 := fun h => by
    have := (h.2 2 (Or.inl (by simp))).mpr (by simp)
    simp at this
  have n2 : ¬ Matches 3 [0] [2] 0 := fun h => by
    have := (h.2 0 (Or.inl (by simp))).mpr (by simp)
    simp at this
  rw [(contract1u_cases k hne' _ _ (List.Perm.refl _) _).2 0 n1 n2] at h3
  classical
  unfold generator at h3
  rw [excite_eq (by decide) (by decide) _ (by decide), excite_eq (by decide) (by decide) _ (by decide), if_neg n1,
    if_neg n2] at h3
  norm_num at h3

/-! ### C39 -/

/-- C39. The packed index unpacks to the pair `q ≤ p < norb` with `p(p+1)/2+q` equal to it, for each pair exactly
one index. -/
theorem C39_triangle (norb : Nat) :
    (∀ pq < norb * (norb + 1) / 2, (unpackTri pq).2 ≤ (unpackTri pq).1 ∧ (unpackTri pq).1 < norb ∧
      pq = (unpackTri pq).1 * ((unpackTri pq).1 + 1) / 2 + (unpackTri pq).2) ∧
    (∀ p q, q ≤ p → p < norb → p * (p + 1) / 2 + q < norb * (norb + 1) / 2 ∧
      unpackTri (p * (p + 1) / 2 + q) = (p, q)) := by
  constructor
  · intro pq h
    obtain ⟨p, q, h1, h2, rfl⟩ := unpackTri_lt h
    rw [unpackTri_eq h1]
    exact ⟨h1, h2, rfl⟩
  · intro p q h1 h2
    refine ⟨?_, unpackTri_eq h1⟩
    have : ∀ m, (p + 1) * (p + 1 + 1) / 2 ≤ (p + 1 + m) * (p + 1 + m + 1) / 2 := by
      intro m
      induction m with
      | zero => exact le_rfl
      | succ m ih => have := tri_succ (p + 1 + m); rw [← Nat.add_assoc (p + 1) m 1]; omega
    have h3 := this (norb - (p + 1))
    rw [show p + 1 + (norb - (p + 1)) = norb by omega, tri_succ] at h3
    omega

theorem foldl_calls {K : Type} [CommRing K] (D : Nat) (f : (Nat → K) → (List Nat × List Nat × Nat) → (Nat → K))
    (v : List Nat × List Nat × Nat → K) (l : List (List Nat × List Nat × Nat))
    (hf : ∀ h, ∀ c ∈ l, f h c D = h D + v c) (h0 : Nat → K) : (l.foldl f h0) D = h0 D + (l.map v).sum := by
  induction l generalizing h0 with
  | nil => simp
  | cons c l ih =>
    rw [List.foldl_cons, ih (fun h c hc => hf h c (by simp [hc])), hf h0 c (by simp), List.map_cons, List.sum_cons]
    ring

theorem calls_lt (norb : Nat) (k : Nat) (ps qs : List Nat) (base : Nat) (hp : ∀ x ∈ ps, x < 2 * norb)
    (hq : ∀ x ∈ qs, x < 2 * norb) :
    ∀ c ∈ fullhopCalls norb k ps qs base, (∀ x ∈ c.1, x < 2 * norb) ∧ (∀ x ∈ c.2.1, x < 2 * norb) := by
  induction k generalizing ps qs base with
  | zero => simp [fullhopCalls]
  | succ k ih =>
    intro c hc
    rw [fullhopCalls] at hc
    simp only [List.mem_flatMap, List.mem_range] at hc
    obtain ⟨pq, hpq, x, hx, spin, hs, hc⟩ := hc
    have ⟨h1, h2, _⟩ := (C39_triangle norb).1 pq hpq
    have hx' : x.1 < norb ∧ x.2 < norb := by
      split at hx
      · rw [List.mem_singleton] at hx; subst hx; exact ⟨h2, by omega⟩
      · rcases List.mem_cons.mp hx with rfl | hx
        · exact ⟨h2, by omega⟩
        · rw [List.mem_singleton] at hx; subst hx; exact ⟨by dsimp only; omega, h2⟩
    have hsn : spin * norb ≤ norb := by
      have : spin ≤ 1 := by omega
      calc spin * norb ≤ 1 * norb := Nat.mul_le_mul_right _ this
        _ = norb := one_mul _
    have hp' : ∀ y ∈ ps ++ [x.1 + spin * norb], y < 2 * norb := by
      intro y hy
      rcases List.mem_append.mp hy with hy | hy
      · exact hp y hy
      · rw [List.mem_singleton] at hy; omega
    have hq' : ∀ y ∈ qs ++ [x.2 + spin * norb], y < 2 * norb := by
      intro y hy
      rcases List.mem_append.mp hy with hy | hy
      · exact hq y hy
      · rw [List.mem_singleton] at hy; omega
    split at hc
    · exact ih _ _ _ hp' hq' c hc
    · rw [List.mem_singleton] at hc
      subst hc
      exact ⟨hp', hq'⟩

/-- C39. `FSUCCfullhop` adds the full spin-symmetric operator applied to the vector: every combination of orbitals
and spins contributes exactly once, with the amplitude stored for its unordered pairs. -/
theorem C39_fullhop {K : Type} [CommRing K] [DecidableEq K] (norb k : Nat) (hop psi hpsi : Nat → K) {D : Nat}
    (hD : D < 2 ^ (2 * norb)) :
    fullhop norb (k + 1) hop psi hpsi D = hpsi D + hopOp norb (k + 1) hop psi D := by
  unfold fullhop
  rw [foldl_calls D _ (fun c => hop c.2.2 * excite (2 * norb) c.1 c.2.1 psi D)]
  · rw [calls_sum]
    simp only [List.nil_append, Nat.zero_add]
    rfl
  · intro h c hc
    obtain ⟨h1, h2⟩ := calls_lt norb (k + 1) [] [] 0 (by simp) (by simp) c hc
    exact contract1g_spec h1 h2 _ _ (List.Perm.refl _) _ hD

example : (fullhopCalls 2 1 [] [] 0).length = 8 ∧ fullhop (K := Int) 1 2 (fun _ => 1) (fun D => D) (fun _ => 0) 3 = 6 := by
  decide

/-! ### C68: total spin -/

/-- C68. `FSUCCcontractS2` applies `S² = S₋S₊ + Sz(Sz+1)`, with the spin-up orbitals numbered first. -/
theorem C68_spin {K : Type} [Field K] [DecidableEq K] (h2 : (2 : K) ≠ 0) (norb : Nat) (psi : Nat → K) {D : Nat}
    (hD : D < 2 ^ (2 * norb)) : contractS2 norb psi D = ssquare norb psi D := by
  have key : ∀ (l : List (Nat × Nat)), (∀ x ∈ l, x.1 < norb ∧ x.2 < norb) → ∀ h0 : Nat → K,
      (l.foldl (fun s2psi pq => contract1g (2 * norb) [pq.1 + norb, pq.2] [pq.2 + norb, pq.1] (-1) psi
        (List.range (iterations (2 * norb) [pq.1 + norb, pq.2] [pq.2 + norb, pq.1])) s2psi) h0) D =
      h0 D - (l.map fun pq => excite (2 * norb) [pq.1 + norb, pq.2] [pq.2 + norb, pq.1] psi D).sum := by
    intro l
    induction l with
    | nil => simp
    | cons x l ih =>
      intro hl h0
      have hx := hl x (by simp)
      rw [List.foldl_cons, ih (fun y hy => hl y (by simp [hy])),
        contract1g_spec (by simp; omega) (by simp; omega) _ _ (List.Perm.refl _) _ hD, List.map_cons, List.sum_cons]
      ring
  unfold contractS2
  rw [key _ (by
    intro x hx
    simp only [List.mem_flatMap, List.mem_map, List.mem_range] at hx
    obtain ⟨p, hp, q, hq, rfl⟩ := hx
    exact ⟨hp, hq⟩), sum_flatMap]
  unfold ssquare
  rw [sminus_splus, sum_bits, s2diag_eq, sum_range_list]
  simp only [List.map_map, sum_range_list, Function.comp]
  unfold sz
  field_simp
  ring

example : contractS2 (K := ℚ) 1 (fun D => if D = 1 then 1 else 0) 1 = 3 / 4 := by
  rw [C68_spin (by norm_num) 1 _ (by norm_num)]
  have h0 : nOcc 0 1 1 = 1 := by decide
  have h1 : nOcc 1 2 1 = 0 := by decide
  simp only [ssquare, sminus, splus, sz, Finset.sum_range_one, ann, cre, h0, h1]
  norm_num [h0, h1]

end Verif.Props
