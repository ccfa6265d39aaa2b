import Verif.Lemmas.SCSpin
import Verif.Lemmas.SCList
/-!
# Properties C05 - C09: screening, listing and fingerprinting of rootspace interactions
-/
namespace Verif.Props
open Verif.Spec Verif.SC

/-- **C05.** `is_interaction_coupled` accepts a pair of rootspaces iff the bra occupations are reached
from the ket occupations by at most two hops of single electrons. -/
theorem C05_screening_iff_two_hops (bra ket : Occ) (h1 : bra.a.length = bra.b.length)
    (h2 : ket.a.length = bra.a.length) (h3 : ket.b.length = bra.a.length) :
    isCoupled bra.row ket.row = true ↔ ∃ k, k ≤ 2 ∧ Hops k ket bra :=
  isCoupled_iff_hops bra ket h1 h2 h3

/-- **C05.** The screening is symmetric in bra and ket. -/
theorem C05_screening_symmetric (bra ket : List (Int × Int)) :
    isCoupled bra ket = isCoupled ket bra := isCoupled_symm bra ket

/-- A pair two hops apart, and one that is three hops apart. -/
example : isCoupled (Occ.row ⟨[2, 1, 0], [1, 1, 1]⟩) (Occ.row ⟨[1, 1, 1], [0, 2, 1]⟩) = true ∧
    isCoupled (Occ.row ⟨[3, 0, 0], [1, 1, 1]⟩) (Occ.row ⟨[0, 1, 2], [1, 1, 1]⟩) = false := by decide

/-- **C06.** On physically consistent rows (2S+1 of a fragment has the parity of N+1) the asserts of
`is_interaction_coupled_s` do not fire, and it accepts exactly the pairs that the two-body selection
rules allow: some string of at most four elementary operators that conserves the electrons of each
spin produces the occupation change, with at least |ΔS|*2 operators on each fragment. -/
theorem C06_spin_screening_iff (bra ket : List (Int × Int)) (sb sk : List Int) (n : Nat)
    (h1 : bra.length = n) (h2 : ket.length = n) (h3 : sb.length = n) (h4 : sk.length = n)
    (hb : ∀ f, f < n → (sb.getD f 0 - ((bra.getD f (0,0)).1 + (bra.getD f (0,0)).2 + 1)) % 2 = 0)
    (hk : ∀ f, f < n → (sk.getD f 0 - ((ket.getD f (0,0)).1 + (ket.getD f (0,0)).2 + 1)) % 2 = 0) :
    ∃ r, isCoupledS bra ket sb sk = some r ∧ (r = true ↔
      TwoBodyAllowed (fun f => (bra.getD f (0,0)).1) (fun f => (bra.getD f (0,0)).2) (fun f => sb.getD f 0)
        (fun f => (ket.getD f (0,0)).1) (fun f => (ket.getD f (0,0)).2) (fun f => sk.getD f 0) n) :=
  coupledS_iff bra ket sb sk n h1 h2 h3 h4 hb hk

/-- Non-vacuity: singlet to triplet on two fragments at once (accepted: four operators), and the same
together with an electron transfer elsewhere (rejected). -/
example : isCoupledS [(1, 1), (1, 1), (1, 0), (0, 0)] [(1, 1), (1, 1), (1, 0), (0, 0)]
      [3, 3, 2, 1] [1, 1, 2, 1] = some true ∧
    isCoupledS [(1, 1), (1, 1), (1, 0), (0, 0)] [(1, 1), (1, 1), (0, 0), (1, 0)]
      [3, 3, 2, 1] [1, 1, 1, 2] = some false ∧
    (∀ f, f < 4 → (([3, 3, 2, 1] : List Int).getD f 0 -
      ((([(1, 1), (1, 1), (1, 0), (0, 0)] : List (Int × Int)).getD f (0,0)).1 +
       (([(1, 1), (1, 1), (1, 0), (0, 0)] : List (Int × Int)).getD f (0,0)).2 + 1)) % 2 = 0) := by
  decide

/-- **C06.** The spin-aware screening accepts only what the charge screening accepts. -/
theorem C06_spin_screening_refines (bra ket : List (Int × Int)) (sb sk : List Int)
    (h : isCoupledS bra ket sb sk = some true) : isCoupled bra ket = true :=
  isCoupledS_le bra ket sb sk h

/-- **C06.** Symmetry in bra and ket (including whether an assert fires). -/
theorem C06_spin_screening_symmetric (bra ket : List (Int × Int)) (sb sk : List Int) :
    isCoupledS bra ket sb sk = isCoupledS ket bra sk sb := isCoupledS_symm bra ket sb sk

/-- **C06.** Equal multiplicities on bra and ket: same answer as the charge screening, whatever the
parity. -/
theorem C06_equal_smult (bra ket : List (Int × Int)) (s : List Int) :
    isCoupledS bra ket s s = some (isCoupled bra ket) := by
  have h0 : ∀ (l : List ((Int × Int) × (Int × Int))) (s : List Int) (c : Bool) (z : Int),
      (l.zip (s.zip s)).foldl (ladderStep c) (some z) = some z := by
    intro l
    induction l with
    | nil => intro s c z; simp
    | cons p l ih =>
      intro s c z
      cases s with
      | nil => simp
      | cons x s =>
        rw [List.zip_cons_cons, List.zip_cons_cons, List.foldl_cons]
        have : ladderStep c (some z) (p, (x, x)) = some z := by simp [ladderStep]
        rw [this, ih]
  unfold isCoupledS isCoupled
  have hp := acc_parity bra ket
  dsimp only
  rw [h0]
  split
  · rename_i hh
    simp only [Bool.and_eq_true, beq_iff_eq, decide_eq_true_eq] at hh
    omega
  · have : decide (sladder0 (acc bra ket).d ≥ 0) = true := by
      unfold sladder0; split <;> [simp; split <;> simp]
    simp [this]

example : isCoupledS [(1, 1), (1, 0)] [(1, 0), (1, 1)] [1, 2] [1, 2] = some true ∧
    isCoupledS [(3, 1), (1, 0), (0, 0)] [(0, 1), (1, 0), (3, 0)] [1, 2, 1] [1, 2, 1] = some false := by decide

/-- **C07.** There is one table, of exactly the coupled pairs in strictly increasing lexicographic
order, such that whatever way the loop iterations are divided among threads and whatever the order in
which the threads pass the critical section - independently for the counting and the listing pass -
the count is the table's length, no write leaves a buffer and the returned array is that table. -/
theorem C07_interaction_list (cpl : Nat × Nat → Bool) (nb nk : Nat) :
    ∃ table : List (Nat × Nat),
      (∀ b k, (b, k) ∈ table ↔ b < nb ∧ k < nk ∧ cpl (b, k) = true) ∧
      table.Pairwise (fun p q => p.1 < q.1 ∨ (p.1 = q.1 ∧ p.2 < q.2)) ∧
      ∀ sched1 sched2 : List (List Nat),
        sched1.flatten.Perm (List.range (nb * nk)) → sched2.flatten.Perm (List.range (nb * nk)) →
        cntInter cpl nk sched1 = table.length ∧
        scallowed cpl nk sched1 sched2 = some (table.map (fun p => ((p.1 : Int), (p.2 : Int)))) := by
  refine ⟨canonical cpl nb nk, ?_, ?_, fun s1 s2 h1 h2 => scallowed_eq cpl nb nk s1 s2 h1 h2⟩
  · intro b k
    simp only [canonical, List.mem_filter, List.mem_flatMap, List.mem_range, List.mem_map, Prod.mk.injEq]
    constructor
    · rintro ⟨⟨b', hb, k', hk, rfl, rfl⟩, hc⟩; exact ⟨hb, hk, hc⟩
    · rintro ⟨hb, hk, hc⟩; exact ⟨⟨b, hb, k, hk, rfl, rfl⟩, hc⟩
  · apply List.Pairwise.filter
    rw [List.pairwise_flatMap]
    constructor
    · intro b _
      rw [List.pairwise_map]
      exact List.Pairwise.imp (fun h => Or.inr ⟨rfl, h⟩) List.pairwise_lt_range
    · apply List.Pairwise.imp _ (List.pairwise_lt_range)
      intro b b' hb x hx y hy
      simp only [List.mem_map] at hx hy
      obtain ⟨_, _, rfl⟩ := hx
      obtain ⟨_, _, rfl⟩ := hy
      exact Or.inl hb

/-- **C07** for the charge screening of an actual occupation table: the returned rows are exactly the
pairs of rootspaces at most two hops apart. -/
theorem C07_interaction_list_charge (nfrag : Nat) (occ : List Occ)
    (hocc : ∀ o ∈ occ, o.a.length = nfrag ∧ o.b.length = nfrag)
    (sched1 sched2 : List (List Nat))
    (h1 : sched1.flatten.Perm (List.range (occ.length * occ.length)))
    (h2 : sched2.flatten.Perm (List.range (occ.length * occ.length))) :
    ∃ table : List (Nat × Nat),
      scallowed (cplCharge (occ.map Occ.row)) occ.length sched1 sched2 =
        some (table.map (fun p => ((p.1 : Int), (p.2 : Int)))) ∧
      table.Nodup ∧
      ∀ b k, (b, k) ∈ table ↔ ∃ (hb : b < occ.length) (hk : k < occ.length) (m : Nat),
        m ≤ 2 ∧ Hops m occ[k] occ[b] := by
  obtain ⟨t, ht, hs, hall⟩ := C07_interaction_list (cplCharge (occ.map Occ.row)) occ.length occ.length
  refine ⟨t, (hall sched1 sched2 h1 h2).2, ?_, ?_⟩
  · refine List.Pairwise.imp ?_ hs
    rintro ⟨a, b⟩ ⟨c, d⟩ h e
    simp only [Prod.mk.injEq] at e
    simp only at h
    omega
  · intro b k
    rw [ht]
    constructor
    · rintro ⟨hb, hk, hc⟩
      refine ⟨hb, hk, ?_⟩
      have eb := hocc _ (List.getElem_mem hb)
      have ek := hocc _ (List.getElem_mem hk)
      rw [← C05_screening_iff_two_hops _ _ (by omega) (by omega) (by omega)]
      simpa [cplCharge, hb, hk] using hc
    · rintro ⟨hb, hk, hm⟩
      refine ⟨hb, hk, ?_⟩
      have eb := hocc _ (List.getElem_mem hb)
      have ek := hocc _ (List.getElem_mem hk)
      rw [← C05_screening_iff_two_hops _ _ (by omega) (by omega) (by omega)] at hm
      simpa [cplCharge, hb, hk] using hm

/-- Three rootspaces, nine iterations on three threads in two different ways. -/
example : (∀ s ∈ ([[[4, 1], [], [8, 2, 0, 3, 7, 5, 6]], [[0, 1, 2], [3, 4, 5], [6, 7, 8]]] : List (List (List Nat))),
      s.flatten.isPerm (List.range 9)) ∧
    cntInter (cplCharge [[(1, 1), (1, 1)], [(2, 1), (0, 1)], [(0, 0), (2, 2)]]) 3
      [[4, 1], [], [8, 2, 0, 3, 7, 5, 6]] = 7 ∧
    listInter (cplCharge [[(1, 1), (1, 1)], [(2, 1), (0, 1)], [(0, 0), (2, 2)]]) 3 7
      (List.replicate 14 (-1)) [[3, 4, 5], [6, 7, 8], [0, 1, 2]] =
      some ([1, 0, 1, 1, 2, 0, 2, 2, 0, 0, 0, 1, 0, 2], 14) := by decide +kernel

/-- **C08.** The row hashed into the sorted-pair fingerprint is the same after exchanging bra and ket
and after permuting the fragment columns of the interaction. -/
theorem C08_fprintLT_invariant (str : Nat → Int → Int) (bra ket : Nat) (frags frags' : List Int)
    (h : frags.Perm frags') :
    (fprintRows str bra ket frags).2 = (fprintRows str ket bra frags').2 := by
  rw [fprintRows_swap, fprintRows_perm str ket bra frags frags' h]

/-- **C08.** Equal sorted-pair rows: same fragments and the same unordered pair of state strings on
them. -/
theorem C08_fprintLT_faithful (str : Nat → Int → Int) (bra ket bra' ket' : Nat) (frags frags' : List Int)
    (hl : frags.length = frags'.length)
    (h : (fprintRows str bra ket frags).2 = (fprintRows str bra' ket' frags').2) :
    frags.Perm frags' ∧
      ((∀ x ∈ frags, str bra x = str bra' x ∧ str ket x = str ket' x) ∨
       (∀ x ∈ frags, str bra x = str ket' x ∧ str ket x = str bra' x)) :=
  fprintRows_LT_inj str bra ket bra' ket' frags frags' hl h

/-- **C08.** Equal unsorted-pair rows: same fragments and same ordered pair of state strings; and the
row does not depend on the order of the fragment columns. -/
theorem C08_fprint_faithful (str : Nat → Int → Int) (bra ket bra' ket' : Nat) (frags frags' : List Int)
    (hl : frags.length = frags'.length) :
    (fprintRows str bra ket frags).1 = (fprintRows str bra' ket' frags').1 ↔
      frags.Perm frags' ∧ ∀ x ∈ frags, str bra x = str bra' x ∧ str ket x = str ket' x := by
  refine ⟨fprintRows_inj str bra ket bra' ket' frags frags' hl, ?_⟩
  rintro ⟨hp, hx⟩
  rw [← fprintRows_perm str bra' ket' frags frags' hp]
  have hm : ∀ x ∈ bubblesort frags, x ∈ frags := fun x h => (bubblesort_spec frags).1.mem_iff.mp h
  simp only [fprintRows]
  rw [List.map_congr_left (fun x h => (hx x (hm x h)).1), List.map_congr_left (fun x h => (hx x (hm x h)).2)]

example : (fprintRows (fun m f => 10 * m + f) 1 2 [3, 0, 2]).2 =
      (fprintRows (fun m f => 10 * m + f) 2 1 [0, 2, 3]).2 ∧
    (fprintRows (fun m f => 10 * m + f) 1 2 [3, 0, 2]).1 = [0, 2, 3, 10, 12, 13, 20, 22, 23] ∧
    (fprintRows (fun m f => 10 * m + f) 1 2 [3, 0, 2]).2 = [0, 2, 3, 20, 22, 23, 10, 12, 13] := by decide

/-- **C09.** Rows of equal length that differ in exactly one word have different fingerprints. -/
theorem C09_fnv_one_word (a b : List UInt64) (hl : a.length = b.length) (i : Nat) (hi : i < a.length)
    (hne : a[i] ≠ b[i]'(hl ▸ hi)) (heq : ∀ j (hj : j < a.length), j ≠ i → a[j] = b[j]'(hl ▸ hj)) :
    fnv1a a ≠ fnv1a b := by
  have ea : a = a.take i ++ a[i] :: a.drop (i + 1) := by simp
  have eb : b = a.take i ++ b[i]'(hl ▸ hi) :: a.drop (i + 1) := by
    apply List.ext_getElem
    · simp; omega
    · intro j h1 h2
      by_cases hj : j = i
      · subst hj
        rw [List.getElem_append_right (by simp)]
        simp [Nat.min_eq_left (Nat.le_of_lt hi)]
      · rw [← heq j (by omega) hj]
        by_cases hlt : j < i
        · rw [List.getElem_append_left (by simp; omega)]; simp
        · rw [List.getElem_append_right (by simp; omega), List.getElem_cons]
          have h0 : ¬ j - (a.take i).length = 0 := by simp; omega
          rw [dif_neg h0, List.getElem_drop]
          congr 1
          simp
          omega
  rw [ea, eb]
  exact fnv1a_one_word _ _ _ _ hne

example : fnv1a [1, 2, 3] ≠ fnv1a [1, 7, 3] := by decide +kernel

/-- **C09** (the documented uniqueness is false). Every row of two or more words shares its
fingerprint with a different row of the same length - for any other choice of its first word. -/
theorem C09_fnv_collisions (x y : UInt64) (l : List UInt64) (x' : UInt64) (hx : x' ≠ x) :
    ∃ b : List UInt64, b.length = (x :: y :: l).length ∧ b ≠ x :: y :: l ∧ b.head? = some x' ∧
      fnv1a b = fnv1a (x :: y :: l) := by
  obtain ⟨y', h⟩ := fnv1a_collision x y l x'
  exact ⟨x' :: y' :: l, by simp, by simp [hx], rfl, h.symm⟩

example : (2 : UInt64) ≠ 1 := by decide

end Verif.Props
