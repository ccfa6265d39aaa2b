import Verif.Lemmas.Spaces
/-!
# C20, C21, C22: rootspaces and single excitations
-/
namespace Verif.Props
open Verif.Spec Verif.Spaces

/-! ### C20 -/

/-- The comparison of rootspaces is equality of all quantum numbers; in particular it is an equivalence relation. -/
theorem C20_eq_meaning (a b : Space) (ha : Shaped a) (hb : Shaped b) : a.eq b = true ↔ SameNumbers a b :=
  eq_iff a b ha hb

/-- Missing from the full statement: rootspaces which differ in their record of entangled fragments (`entmap`). For
rootspaces with the same record, comparing equal implies hashing equal, for every hash function on tuples. -/
theorem C20_equal_hash_partial (h : List Space.HashItem → Int) (a b : Space) (ha : Shaped a) (hb : Shaped b)
    (hent : a.entmap = b.entmap) (heq : a.eq b = true) : h a.hashKey = h b.hashKey := by
  rw [hashKey_eq ha hb ((eq_iff a b ha hb).mp heq) hent]

/-- Missing: as above. Putting rootspaces with the same record of entangled fragments into a set keeps exactly one
of each group with the same quantum numbers. -/
theorem C20_set_partial (h : List Space.HashItem → Int) (xs : List Space) (hsh : ∀ x ∈ xs, Shaped x)
    (e : List (List Nat)) (hent : ∀ x ∈ xs, x.entmap = e) :
    (∀ y ∈ pySet h xs, y ∈ xs) ∧ (∀ x ∈ xs, ∃ y ∈ pySet h xs, SameNumbers y x) ∧
    (pySet h xs).Pairwise (fun a b => ¬ SameNumbers a b) := by
  have key : ∀ (ys seen : List Space), (∀ x ∈ ys, Shaped x ∧ x.entmap = e) → (∀ x ∈ seen, Shaped x ∧ x.entmap = e) →
      seen.Pairwise (fun a b => ¬ SameNumbers a b) →
      let r := ys.foldl (fun seen x => if pyIn h seen x then seen else seen ++ [x]) seen
      (∀ y ∈ r, y ∈ seen ∨ y ∈ ys) ∧ (∀ x, x ∈ seen ∨ x ∈ ys → ∃ y ∈ r, SameNumbers y x) ∧
        r.Pairwise (fun a b => ¬ SameNumbers a b) := by
    intro ys
    induction ys with
    | nil =>
      intro seen _ _ hp
      exact ⟨fun y hy => Or.inl hy, fun x hx => ⟨x, by simpa using hx, sameNumbers_refl x⟩, hp⟩
    | cons x ys ih =>
      intro seen hys hseen hp
      have hx := hys x (List.mem_cons_self ..)
      have hys' : ∀ y ∈ ys, Shaped y ∧ y.entmap = e := fun y hy => hys y (List.mem_cons_of_mem _ hy)
      simp only [List.foldl_cons]
      by_cases hin : pyIn h seen x = true
      · rw [if_pos hin]
        obtain ⟨g1, g2, g3⟩ := ih seen hys' hseen hp
        refine ⟨fun y hy => ?_, fun z hz => ?_, g3⟩
        · rcases g1 y hy with h' | h'
          · exact Or.inl h'
          · exact Or.inr (List.mem_cons_of_mem _ h')
        · rcases hz with hz | hz
          · exact g2 z (Or.inl hz)
          · rcases List.mem_cons.mp hz with rfl | hz
            · obtain ⟨y, hy, -, heq⟩ := (pyIn_iff h seen z).mp hin
              obtain ⟨w, hw, hs⟩ := g2 y (Or.inl hy)
              exact ⟨w, hw, sameNumbers_trans hs ((eq_iff y z (hseen y hy).1 hx.1).mp heq)⟩
            · exact g2 z (Or.inr hz)
      · rw [if_neg hin]
        have hp' : (seen ++ [x]).Pairwise (fun a b => ¬ SameNumbers a b) := by
          rw [List.pairwise_append]
          refine ⟨hp, List.pairwise_singleton _ _, ?_⟩
          intro y hy z hz hs
          rw [List.mem_singleton] at hz
          subst hz
          apply hin
          refine pyIn_of_same h seen z y hy ?_ ((eq_iff y z (hseen y hy).1 hx.1).mpr hs)
          rw [hashKey_eq (hseen y hy).1 hx.1 hs ((hseen y hy).2.trans hx.2.symm)]
        obtain ⟨g1, g2, g3⟩ := ih (seen ++ [x]) hys' (by
          intro y hy
          rcases List.mem_append.mp hy with hy | hy
          · exact hseen y hy
          · rw [List.mem_singleton] at hy; subst hy; exact hx) hp'
        refine ⟨fun y hy => ?_, fun z hz => ?_, g3⟩
        · rcases g1 y hy with h' | h'
          · rcases List.mem_append.mp h' with h'' | h''
            · exact Or.inl h''
            · exact Or.inr (by rw [List.mem_singleton] at h''; rw [h'']; exact List.mem_cons_self ..)
          · exact Or.inr (List.mem_cons_of_mem _ h')
        · apply g2
          rcases hz with hz | hz
          · exact Or.inl (List.mem_append_left _ hz)
          · rcases List.mem_cons.mp hz with rfl | hz
            · exact Or.inl (List.mem_append_right _ (List.mem_singleton.mpr rfl))
            · exact Or.inr hz
  obtain ⟨g1, g2, g3⟩ := key xs [] (fun x hx => ⟨hsh x hx, hent x hx⟩) (by simp) List.Pairwise.nil
  exact ⟨fun y hy => by simpa using g1 y hy, fun x hx => g2 x (Or.inr hx), g3⟩

/-- Two fragments with two orbitals each, both with one alpha and one beta electron. -/
def demoSpace : Space := ⟨[2, 2], [2, 2], [0, 0], [1, 1], [0, 0], 1, []⟩

example : Shaped demoSpace := ⟨rfl, rfl, rfl, rfl⟩

/-- A counting of CSFs good enough for the examples: it says "one" exactly for possible multiplicities. -/
def demoCsf : NCsf := fun norb na nb smult =>
  if 0 ≤ na ∧ 0 ≤ nb ∧ na ≤ norb ∧ nb ≤ norb ∧ |na - nb| ≤ smult - 1 ∧ (smult - 1 - (na - nb)) % 2 = 0 ∧
    smult - 1 ≤ na + nb ∧ smult - 1 ≤ 2 * norb - (na + nb) then some 1 else none

theorem demoCsf_counts : CsfCounts demoCsf := by
  intro norb na nb smult
  unfold demoCsf Realizable
  constructor
  · rintro ⟨k, h, -⟩
    by_contra hc
    rw [if_neg hc] at h
    simp at h
  · intro h
    exact ⟨1, by rw [if_pos h], by decide⟩

/-- C20 fails: moving one alpha electron from fragment 0 to fragment 1 with `get_single` and with
`get_single_any_m` gives rootspaces that compare equal, but the tuples that are hashed differ, and a set keeps both
whenever the hash function tells those two tuples apart. -/
theorem C20_equal_hash_violated :
    ∃ a b : Space, demoSpace.getSingle demoCsf 0 1 0 1 1 = .ok a ∧
      demoSpace.getSingleAnyM demoCsf id 0 1 1 1 = .ok b ∧ a.eq b = true ∧ a.hashKey ≠ b.hashKey ∧
      ∀ h : List Space.HashItem → Int, h a.hashKey ≠ h b.hashKey → pySet h [a, b] = [a, b] := by
  refine ⟨⟨[2, 2], [2, 2], [-1, 1], [2, 2], [1, -1], 0, []⟩, ⟨[2, 2], [2, 2], [-1, 1], [2, 2], [1, -1], 0, [[0, 1]]⟩,
    by decide, by decide, by decide, by decide, ?_⟩
  intro h hne
  unfold pySet pyIn
  simp only [List.foldl_cons, List.foldl_nil, List.any_nil, Bool.false_eq_true, if_false, List.nil_append,
    List.any_cons, Bool.or_false]
  rw [if_neg (by simp [hne])]
  rfl

/-! ### C22 -/

/-- C22. In a possible fragment state, the multiplicity changes offered for adding or removing one electron are
exactly those of `-1` and `+1` which lead to a possible state with the new electron counts. -/
theorem C22_valid_changes (sp : Space) (i : Nat) (na nb : Int) (hocc : FragOcc sp i na nb)
    (hreal : Realizable (el sp.nlas i) na nb (el sp.smults i)) (da db : Int) (hd : |da| + |db| = 1) (ds : Int) :
    ds ∈ sp.getValidSmultChange i da db ↔
      (ds = -1 ∨ ds = 1) ∧ Realizable (el sp.nlas i) (na + da) (nb + db) (el sp.smults i + ds) := by
  have := validChange_mem sp i da db hd ⟨na, nb, hocc, hreal⟩ ds
  rw [(occ_counts hocc).1, (occ_counts hocc).2] at this
  exact this

/-- Removing an alpha electron from a singlet pair: only a doublet is possible. -/
example : FragOcc demoSpace 0 1 1 ∧ Realizable (el demoSpace.nlas 0) 1 1 (el demoSpace.smults 0) ∧
    demoSpace.getValidSmultChange 0 (-1) 0 = [1] :=
  ⟨⟨rfl, rfl⟩, by unfold Realizable; decide, by decide⟩

/-! ### C21 -/

/-- Moving an electron conserves electron number and spin projection, and both are non-negative counts afterwards. -/
theorem singleExc_conserved (sp new : Space) (h : Shaped sp) (hok : ∀ k, k < sp.nfrag → FragOk sp k) (i a : Nat)
    (hi : i < sp.nfrag) (ha : a < sp.nfrag) (hia : i ≠ a) (alpha : Bool) (hexc : SingleExc sp new i a alpha) :
    totalElectrons new = totalElectrons sp ∧ totalSpin new = totalSpin sp := by
  have h0 : ∃ n0 : Space, n0.nlas = new.nlas ∧ n0.nelelas = new.nelelas ∧ n0.spins = new.spins ∧
      n0.smults = new.smults ∧ n0.charges = new.charges ∧ n0.weight = 0 ∧ n0.entmap = [] :=
    ⟨{ new with weight := 0, entmap := [] }, rfl, rfl, rfl, rfl, rfl, rfl, rfl⟩
  obtain ⟨n0, e1, e2, e3, e4, e5, e6, e7⟩ := h0
  have hexc' : SingleExc sp n0 i a alpha := by
    obtain ⟨x1, x2, x3, x4, x5, x6, x7⟩ := hexc
    refine ⟨?_, ?_, ?_, ?_, ?_, ?_, ?_⟩ <;>
      simp only [Shaped, Space.nfrag, FragOcc, FragOk, e1, e2, e3, e4, e5] at * <;> assumption
  obtain ⟨si, sa, hraw, -⟩ := singleExc_raw sp n0 h hok i a hi ha hia alpha hexc' e6 e7
  obtain ⟨h1, h2, h3, h4⟩ := h
  unfold totalElectrons totalSpin
  rw [← e2, ← e3, ← e5, hraw]
  unfold raw
  simp only []
  rw [sum_bump _ _ _ (by rw [bump_length, h4]; exact ha), sum_bump _ _ _ (by rw [h4]; exact hi),
    sum_bump _ _ _ (by rw [bump_length, h2]; exact ha), sum_bump _ _ _ (by rw [h2]; exact hi)]
  constructor <;> ring

/-- C21, `get_singles`. For a parent whose fragments are all in possible states, the call succeeds, and the list
returned consists exactly of the rootspaces (with weight zero) obtained by moving one electron of one spin between
two different fragments allowed by the mask, multiplicities changing by one, with a possible state in both
fragments (in particular non-negative electron and hole counts). -/
theorem C21_singles (f : NCsf) (hf : CsfCounts f) (sp : Space) (h : Shaped sp)
    (hok : ∀ k, k < sp.nfrag → FragOk sp k) (mask : Nat → Nat → Bool) :
    ∃ l, sp.getSingles f mask = .ok l ∧ ∀ new, new ∈ l ↔
      new.weight = 0 ∧ new.entmap = [] ∧
      ∃ i a alpha, i < sp.nfrag ∧ a < sp.nfrag ∧ i ≠ a ∧ mask i a = true ∧ SingleExc sp new i a alpha :=
  mem_getSingles f hf sp h hok mask

/-- C21, `get_singles`: every rootspace returned has the electron number and spin projection of its parent. -/
theorem C21_singles_conserve (f : NCsf) (hf : CsfCounts f) (sp : Space) (h : Shaped sp)
    (hok : ∀ k, k < sp.nfrag → FragOk sp k) (mask : Nat → Nat → Bool) (l : List Space)
    (hl : sp.getSingles f mask = .ok l) (new : Space) (hnew : new ∈ l) :
    totalElectrons new = totalElectrons sp ∧ totalSpin new = totalSpin sp := by
  obtain ⟨l', hl', hmem⟩ := mem_getSingles f hf sp h hok mask
  rw [hl] at hl'
  cases hl'
  obtain ⟨-, -, i, a, alpha, hi, ha, hia, -, hexc⟩ := (hmem new).mp hnew
  exact singleExc_conserved sp new h hok i a hi ha hia alpha hexc

theorem demo_ok : ∀ k, k < demoSpace.nfrag → FragOk demoSpace k := by
  intro k hk
  have : k = 0 ∨ k = 1 := by simp [demoSpace, Space.nfrag] at hk; omega
  refine ⟨1, 1, ?_, ?_⟩
  · rcases this with rfl | rfl <;> exact ⟨rfl, rfl⟩
  · rcases this with rfl | rfl <;> (unfold Realizable; decide)

/-- The example space has four single excitations. -/
example : (demoSpace.getSingles demoCsf (fun _ _ => true)).map (List.map (fun s => (s.charges, s.spins, s.smults))) =
    .ok [([1, -1], [-1, 1], [2, 2]), ([-1, 1], [1, -1], [2, 2]), ([1, -1], [1, -1], [2, 2]),
      ([-1, 1], [-1, 1], [2, 2])] := by decide

/-- C21, `get_single` between different fragments. Whenever a rootspace is returned, electron number and spin
projection are those of the parent, all other fragments are unchanged, one electron of the requested spin has moved
from `i` to `a`, the multiplicities have changed as requested and both fragments are in possible states. -/
theorem C21_get_single (f : NCsf) (hf : CsfCounts f) (sp new : Space) (h : Shaped sp) (i a : Nat)
    (hi : i < sp.nfrag) (ha : a < sp.nfrag) (hia : i ≠ a) (alpha : Bool) (si sa : Int)
    (oi : ∃ na nb, FragOcc sp i na nb) (oa : ∃ na nb, FragOcc sp a na nb)
    (hnew : sp.getSingle f i a (if alpha then 0 else 1) si sa = .ok new) :
    totalElectrons new = totalElectrons sp ∧ totalSpin new = totalSpin sp ∧
    new.nlas = sp.nlas ∧ new.nelelas = sp.nelelas ∧ Shaped new ∧
    (∀ k, k ≠ i → k ≠ a →
      el new.charges k = el sp.charges k ∧ el new.spins k = el sp.spins k ∧ el new.smults k = el sp.smults k) ∧
    (∀ na nb, FragOcc sp i na nb → if alpha then FragOcc new i (na - 1) nb else FragOcc new i na (nb - 1)) ∧
    (∀ na nb, FragOcc sp a na nb → if alpha then FragOcc new a (na + 1) nb else FragOcc new a na (nb + 1)) ∧
    el new.smults i = el sp.smults i + si ∧ el new.smults a = el sp.smults a + sa ∧
    FragOk new i ∧ FragOk new a := by
  obtain ⟨rfl, r1, r2⟩ := (getSingle_ok_iff f hf sp new i a _ si sa).mp hnew
  have hai : ¬ a = i := fun e => hia e.symm
  obtain ⟨o1, o2⟩ := raw_occ sp h i a hi ha hia alpha si sa
  have s1 := (raw_el sp h i a hi ha (if alpha then 0 else 1) si sa i).2.2
  have s2 := (raw_el sp h i a hi ha (if alpha then 0 else 1) si sa a).2.2
  simp only [hia, hai, if_true, if_false, add_zero] at s1 s2
  obtain ⟨na, nb, p1⟩ := oi
  obtain ⟨na', nb', p2⟩ := oa
  have q1 := occ_counts (o1 _ _ p1)
  have q2 := occ_counts (o2 _ _ p2)
  rw [q1.1, q1.2] at r1
  rw [q2.1, q2.2] at r2
  obtain ⟨h1, h2, h3, h4⟩ := h
  refine ⟨?_, ?_, rfl, rfl, raw_shaped sp ⟨h1, h2, h3, h4⟩ _ _ _ _ _, ?_, ?_, ?_, s1, s2,
    ⟨_, _, o1 _ _ p1, r1⟩, ⟨_, _, o2 _ _ p2, r2⟩⟩
  · unfold totalElectrons raw
    simp only []
    rw [sum_bump _ _ _ (by rw [bump_length, h4]; exact ha), sum_bump _ _ _ (by rw [h4]; exact hi)]
    ring
  · unfold totalSpin raw
    simp only []
    rw [sum_bump _ _ _ (by rw [bump_length, h2]; exact ha), sum_bump _ _ _ (by rw [h2]; exact hi)]
    ring
  · intro k hki hka
    obtain ⟨c1, c2, c3⟩ := raw_el sp ⟨h1, h2, h3, h4⟩ i a hi ha (if alpha then 0 else 1) si sa k
    simp only [hki, hka, if_false, add_zero] at c1 c2 c3
    exact ⟨c1, c2, c3⟩
  · intro na nb hocc
    have := o1 na nb hocc
    cases alpha <;> simpa [sub_eq_add_neg] using this
  · intro na nb hocc
    have := o2 na nb hocc
    cases alpha <;> simpa using this

example : ∃ new, demoSpace.getSingle demoCsf 0 1 (if true then 0 else 1) 1 1 = .ok new :=
  ⟨⟨[2, 2], [2, 2], [-1, 1], [2, 2], [1, -1], 0, []⟩, by decide⟩

theorem firstOther_ok {n i a p : Nat} {cond : Nat → Bool} (h : Space.firstOther n i a cond = .ok p) :
    p < n ∧ p ≠ i ∧ p ≠ a ∧ cond p = true := by
  unfold Space.firstOther at h
  cases hl : (List.range n).filter (fun p => (!(p == i) && !(p == a)) && cond p) with
  | nil => rw [hl] at h; simp at h
  | cons q qs =>
    rw [hl] at h
    simp only [Except.ok.injEq] at h
    subst h
    have : q ∈ (List.range n).filter (fun p => (!(p == i) && !(p == a)) && cond p) := by
      rw [hl]; exact List.mem_cons_self ..
    simp only [List.mem_filter, List.mem_range, Bool.and_eq_true, Bool.not_eq_true', beq_eq_false_iff_ne] at this
    exact ⟨this.1, this.2.1.1, this.2.1.2, this.2.2⟩

/-- What `get_single_any_m` guarantees of the rootspace it returns. -/
structure AnyM (sp new : Space) (i a : Nat) (dsi dsa : Int) : Prop where
  electrons : totalElectrons new = totalElectrons sp
  spin : totalSpin new = totalSpin sp
  orbs : new.nlas = sp.nlas ∧ new.nelelas = sp.nelelas ∧ Shaped new
  moved : el new.charges i = el sp.charges i + 1 ∧ el new.charges a = el sp.charges a - 1
  mult : el new.smults i = el sp.smults i + dsi ∧ el new.smults a = el sp.smults a + dsa
  others : ∀ k, k ≠ i → k ≠ a → el new.charges k = el sp.charges k ∧ el new.smults k = el sp.smults k
  one : ∃ p, ∀ k, k ≠ i → k ≠ a → k ≠ p → el new.spins k = el sp.spins k
  ok : ∀ k, k < sp.nfrag → FragOk new k

theorem anyM_of_one (f : NCsf) (hf : CsfCounts f) (sp new : Space) (h : Shaped sp)
    (hok : ∀ k, k < sp.nfrag → FragOk sp k) (i a : Nat)
    (hi : i < sp.nfrag) (ha : a < sp.nfrag) (hia : i ≠ a) (alpha : Bool) (si sa : Int)
    (hnew : sp.getSingle f i a (if alpha then 0 else 1) si sa = .ok new) : AnyM sp new i a si sa := by
  have oi : ∃ na nb, FragOcc sp i na nb := by obtain ⟨na, nb, o, -⟩ := hok i hi; exact ⟨na, nb, o⟩
  have oa : ∃ na nb, FragOcc sp a na nb := by obtain ⟨na, nb, o, -⟩ := hok a ha; exact ⟨na, nb, o⟩
  obtain ⟨g1, g2, g3, g4, g5, g6, g7, g8, g9, g10, g11, g12⟩ :=
    C21_get_single f hf sp new h i a hi ha hia alpha si sa oi oa hnew
  obtain ⟨na, nb, o⟩ := oi
  obtain ⟨na', nb', o'⟩ := oa
  have k1 := g7 _ _ o
  have k2 := g8 _ _ o'
  refine ⟨g1, g2, ⟨g3, g4, g5⟩, ?_, ⟨g9, g10⟩, fun k h1 h2 => ⟨(g6 k h1 h2).1, (g6 k h1 h2).2.2⟩,
    ⟨i, fun k h1 h2 _ => (g6 k h1 h2).2.1⟩, ?_⟩
  · unfold FragOcc at *
    rw [g4] at k1 k2
    cases alpha <;> simp only [Bool.false_eq_true, if_true, if_false] at k1 k2 <;> omega
  · intro k hk
    by_cases e1 : k = i
    · rw [e1]; exact g11
    · by_cases e2 : k = a
      · rw [e2]; exact g12
      · obtain ⟨x, y, oc, re⟩ := hok k hk
        obtain ⟨m1, m2, m3⟩ := g6 k e1 e2
        exact ⟨x, y, by unfold FragOcc at *; rw [g4, m1, m2]; exact oc, by rw [g3, m3]; exact re⟩

theorem anyM_of_two (f : NCsf) (hf : CsfCounts f) (sp mid new : Space) (h : Shaped sp)
    (hok : ∀ k, k < sp.nfrag → FragOk sp k) (i a p : Nat)
    (hi : i < sp.nfrag) (ha : a < sp.nfrag) (hp : p < sp.nfrag) (hia : i ≠ a) (hpi : p ≠ i) (hpa : p ≠ a)
    (alpha : Bool) (si sa dsp : Int)
    (hmid : sp.getSingle f i p (if alpha then 0 else 1) si dsp = .ok mid)
    (hnew : mid.getSingle f p a (if alpha then 1 else 0) (-dsp) sa = .ok new) : AnyM sp new i a si sa := by
  have A := anyM_of_one f hf sp mid h hok i p hi hp (Ne.symm hpi) alpha si dsp hmid
  have hn : mid.nfrag = sp.nfrag := by unfold Space.nfrag; rw [A.orbs.1]
  have hnew' : mid.getSingle f p a (if (!alpha) then 0 else 1) (-dsp) sa = .ok new := by
    cases alpha <;> exact hnew
  have B := anyM_of_one f hf mid new A.orbs.2.2 (fun k hk => A.ok k (by omega)) p a (by omega) (by omega) hpa
    (!alpha) (-dsp) sa hnew'
  have hspin : ∀ k, k ≠ i → k ≠ a → k ≠ p → el new.spins k = el sp.spins k := by
    intro k h1 h2 h3
    have oi : ∃ na nb, FragOcc sp i na nb := by obtain ⟨na, nb, o, -⟩ := hok i hi; exact ⟨na, nb, o⟩
    have op : ∃ na nb, FragOcc sp p na nb := by obtain ⟨na, nb, o, -⟩ := hok p hp; exact ⟨na, nb, o⟩
    have op' : ∃ na nb, FragOcc mid p na nb := by obtain ⟨na, nb, o, -⟩ := A.ok p hp; exact ⟨na, nb, o⟩
    have oa' : ∃ na nb, FragOcc mid a na nb := by obtain ⟨na, nb, o, -⟩ := A.ok a ha; exact ⟨na, nb, o⟩
    have m1 := (C21_get_single f hf sp mid h i p hi hp (Ne.symm hpi) alpha si dsp oi op hmid).2.2.2.2.2.1 k h1 h3
    have m2 := (C21_get_single f hf mid new A.orbs.2.2 p a (by omega) (by omega) hpa (!alpha) (-dsp) sa op' oa'
      hnew').2.2.2.2.2.1 k h3 h2
    rw [m2.2.1, m1.2.1]
  refine ⟨B.electrons.trans A.electrons, B.spin.trans A.spin,
    ⟨B.orbs.1.trans A.orbs.1, B.orbs.2.1.trans A.orbs.2.1, B.orbs.2.2⟩, ?_, ?_, ?_, ⟨p, hspin⟩,
    fun k hk => B.ok k (by omega)⟩
  · have b1 := B.others i (Ne.symm hpi) hia
    have a1 := A.others a (Ne.symm hia) (Ne.symm hpa)
    have b2 := B.moved
    have a2 := A.moved
    omega
  · have b1 := B.others i (Ne.symm hpi) hia
    have a1 := A.others a (Ne.symm hia) (Ne.symm hpa)
    have b2 := B.mult
    have a2 := A.mult
    omega
  · intro k h1 h2
    by_cases h3 : k = p
    · subst h3
      have b2 := B.mult
      have a2 := A.mult
      have b3 := B.moved
      have a3 := A.moved
      omega
    · have b1 := B.others k h3 h2
      have a1 := A.others k h1 h3
      omega

/-- C21, `get_single_any_m`. Whenever a rootspace is returned, the total electron number and spin projection are
those of the parent, one electron has moved from `i` to `a` and their multiplicities have changed as requested, no
other fragment has changed charge or multiplicity and at most one of them has changed its local projection, and all
fragments are in possible states. -/
theorem C21_any_m (f : NCsf) (hf : CsfCounts f) (setOrder : List Nat → List Nat) (sp new : Space) (h : Shaped sp)
    (hok : ∀ k, k < sp.nfrag → FragOk sp k) (i a : Nat) (hi : i < sp.nfrag) (ha : a < sp.nfrag) (hia : i ≠ a)
    (dsi dsa : Int) (hnew : sp.getSingleAnyM f setOrder i a dsi dsa = .ok new) : AnyM sp new i a dsi dsa := by
  unfold Space.getSingleAnyM at hnew
  simp only [] at hnew
  have ent : ∀ n0 : Space, AnyM sp n0 i a dsi dsa → AnyM sp (n0.setEntmap setOrder sp true) i a dsi dsa := by
    intro n0 hn
    obtain ⟨x1, x2, x3, x4, x5, x6, x7, x8⟩ := hn
    exact ⟨x1, x2, x3, x4, x5, x6, x7, x8⟩
  have fin : ∀ r : Except Err Space, (∀ n0, r = .ok n0 → AnyM sp n0 i a dsi dsa) →
      (r >>= fun n0 => pure (n0.setEntmap setOrder sp true)) = .ok new → AnyM sp new i a dsi dsa := by
    intro r hr hb
    cases r with
    | error e => simp [bind, Except.bind] at hb
    | ok n0 =>
      simp only [bind, Except.bind, pure, Except.pure, Except.ok.injEq] at hb
      rw [← hb]
      exact ent n0 (hr n0 rfl)
  split_ifs at hnew with c1 c2 c3 c4
  · exact fin _ (fun n0 => anyM_of_one f hf sp n0 h hok i a hi ha hia true dsi dsa) hnew
  · exact fin _ (fun n0 => anyM_of_one f hf sp n0 h hok i a hi ha hia false dsi dsa) hnew
  · cases hp : Space.firstOther sp.nfrag i a (fun p => decide (el sp.spins p < el sp.smults p - 1)) with
    | error e => rw [hp] at hnew; simp [bind, Except.bind] at hnew
    | ok p =>
      rw [hp] at hnew
      obtain ⟨p1, p2, p3, -⟩ := firstOther_ok hp
      cases hm : sp.getSingle f i p 0 dsi (if sp.nholeu p > 0 then 1 else -1) with
      | error e => simp [bind, Except.bind, hm] at hnew
      | ok mid =>
        refine fin (mid.getSingle f p a 1 (-(if sp.nholeu p > 0 then 1 else -1)) dsa) (fun n0 hn0 =>
          anyM_of_two f hf sp mid n0 h hok i a p hi ha p1 hia p2 p3 true dsi dsa _ hm hn0) ?_
        simp only [bind, Except.bind, hm] at hnew ⊢
        exact hnew
  · cases hp : Space.firstOther sp.nfrag i a (fun p => decide (el sp.spins p > 1 - el sp.smults p)) with
    | error e => rw [hp] at hnew; simp [bind, Except.bind] at hnew
    | ok p =>
      rw [hp] at hnew
      obtain ⟨p1, p2, p3, -⟩ := firstOther_ok hp
      cases hm : sp.getSingle f i p 1 dsi (if sp.nholeu p > 0 then 1 else -1) with
      | error e => simp [bind, Except.bind, hm] at hnew
      | ok mid =>
        refine fin (mid.getSingle f p a 0 (-(if sp.nholeu p > 0 then 1 else -1)) dsa) (fun n0 hn0 =>
          anyM_of_two f hf sp mid n0 h hok i a p hi ha p1 hia p2 p3 false dsi dsa _ hm hn0) ?_
        simp only [bind, Except.bind, hm] at hnew ⊢
        exact hnew
  · simp [throw, throwThe, MonadExceptOf.throw, bind, Except.bind] at hnew

/-- A case that needs the third fragment: a doublet with an alpha electron, a doublet with an alpha electron and a
doublet with a beta electron, one orbital in the first two. The electron hops from 0 to 1 and fragment 2 flips. -/
example : (Space.getSingleAnyM demoCsf id ⟨[1, 1, 2], [1, 1, 1], [1, 1, -1], [2, 2, 2], [0, 0, 0], 0, []⟩ 0 1 (-1) (-1)).map
    (fun s => (s.charges, s.spins, s.smults, s.entmap)) =
    .ok ([1, -1, 0], [0, 0, 1], [1, 1, 2], [[0, 1]]) := by decide

end Verif.Props
