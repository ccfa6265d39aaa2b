import Verif.Lemmas.SpaceLists
import Verif.Props.Spaces
/-!
# C28, C29, C31: generating and grouping rootspaces
-/
namespace Verif.Props
open Verif.Spec Verif.Spaces

/-! ### C28 -/

/-- C28. For every list of reference rootspaces with possible local projections (and for every hash function), spin
shuffling succeeds. The references come first, in order, with unchanged weights. Every rootspace added has weight 0 and
only the arrangement of the local projections distinguishes it from some reference. Every arrangement of every
reference is present. No added rootspace repeats another one, or a reference, with the same record of entanglement. -/
theorem C28_shuffle (h : List Space.HashItem → Int) (refs : List Space)
    (hr : ∀ r ∈ refs, Shaped r ∧ Mults r.smults ∧ ProjOk r) :
    ∃ new, spinShuffle h refs false = some (refs ++ new) ∧
      (∀ n ∈ new, n.weight = 0 ∧ ∃ r ∈ refs, n.entmap = r.entmap ∧ Rearranged r n) ∧
      (∀ r ∈ refs, ∀ t, Rearranged r t → ∃ y ∈ refs ++ new, SameNumbers y t) ∧
      new.Pairwise (fun a b => a.entmap = b.entmap → ¬ SameNumbers a b) ∧
      (∀ n ∈ new, ∀ r ∈ refs, r.entmap = n.entmap → ¬ SameNumbers r n) := by
  obtain ⟨N, e, p1, p2, p3, p4⟩ := spinShuffle_core h refs (fun r hx => ⟨(hr r hx).2.1, (hr r hx).2.2⟩)
  have hN : ∀ n ∈ N, Shaped n := by
    intro n hn
    obtain ⟨r, hrr, -, -, hre⟩ := p1 n hn
    exact rearranged_shaped (hr r hrr).1 hre
  refine ⟨N, ?_, ?_, ?_, ?_, ?_⟩
  · unfold spinShuffle
    cases hl : spinShuffleLoop h refs (pySet h refs, refs) with
    | none => rw [hl] at e; simp at e
    | some st =>
      rw [hl] at e
      simp only [Option.map_some, Option.some.injEq] at e
      simp [e]
  · intro n hn
    obtain ⟨r, hrr, h1, h2, h3⟩ := p1 n hn
    exact ⟨h1, r, hrr, h2, h3⟩
  · intro r hrr t ht
    obtain ⟨y, hy, hyt⟩ := p4 r hrr { t with entmap := r.entmap } rfl ht
    have := sameNumbers_of_sameEl hyt
    exact ⟨y, hy, this.1, this.2⟩
  · rw [List.pairwise_iff_getElem] at *
    intro i j hi hj hij he hs
    exact p2 i j hi hj hij (sameEl_of_same h (hN _ (List.getElem_mem _)) (hN _ (List.getElem_mem _)) hs he)
  · intro n hn r hrr he hs
    exact p3 n hn r hrr (sameEl_of_same h (hr r hrr).1 (hN n hn) hs he)

/-- C28, `equal_weights`. The rootspaces are the same, all weights are equal, and they add up to one. -/
theorem C28_equal_weights (h : List Space.HashItem → Int) (refs all : List Space) (h0 : refs ≠ [])
    (hr : ∀ r ∈ refs, Shaped r ∧ Mults r.smults ∧ ProjOk r) (ha : spinShuffle h refs false = some all) :
    ∃ all', spinShuffle h refs true = some all' ∧
      all'.map (fun sp => { sp with weight := 0 }) = all.map (fun sp => { sp with weight := 0 }) ∧
      (∀ x ∈ all', ∀ y ∈ all', x.weight = y.weight) ∧ (all'.map (·.weight)).sum = 1 := by
  obtain ⟨new, e, -⟩ := C28_shuffle h refs hr
  rw [ha] at e
  cases e
  unfold spinShuffle at *
  cases hl : spinShuffleLoop h refs (pySet h refs, refs) with
  | none => rw [hl] at ha; simp at ha
  | some st =>
    rw [hl] at ha
    simp only [Option.map_some, Bool.false_eq_true, if_false, Option.some.injEq] at ha
    refine ⟨_, rfl, ?_, ?_, ?_⟩
    · simp [ha, List.map_map, Function.comp_def]
    · intro x hx y hy
      simp only [if_true, List.mem_map] at hx hy
      obtain ⟨a, -, rfl⟩ := hx
      obtain ⟨b, -, rfl⟩ := hy
      rfl
    · have hlen : (st.2.length : Rat) ≠ 0 := by
        rw [ha]
        have : 0 < (refs ++ new).length := by
          rw [List.length_append]
          have := List.length_pos_iff.mpr h0
          omega
        exact_mod_cast this.ne'
      have : ∀ (l : List Space) (w : Rat), ((l.map fun sp => { sp with weight := w }).map (·.weight)).sum = l.length * w := by
        intro l w
        induction l with
        | nil => simp
        | cons a l ih => simp only [List.map_cons, List.sum_cons, ih, List.length_cons]; push_cast; ring
      simp only [if_true]
      rw [this]
      exact mul_one_div_cancel hlen

/-- C28: shuffling a second time adds nothing and changes nothing, in both modes. -/
theorem C28_idempotent (h : List Space.HashItem → Int) (refs out : List Space) (eqw : Bool)
    (hr : ∀ r ∈ refs, Mults r.smults ∧ ProjOk r) (ho : spinShuffle h refs eqw = some out) :
    spinShuffle h out eqw = some out := by
  obtain ⟨N, e, p1, p2, p3, p4⟩ := spinShuffle_core h refs hr
  -- the list before weights are set is closed
  have hok : ∀ x ∈ refs ++ N, (∀ m ∈ x.smults, 1 ≤ m) ∧ ProjOk x := by
    intro x hx
    rcases List.mem_append.mp hx with hx | hx
    · exact hr x hx
    · obtain ⟨r, hrr, -, -, hre⟩ := p1 x hx
      exact ⟨by rw [hre.2.2.2.1]; exact (hr r hrr).1, rearranged_projOk hre⟩
  have hcl : ∀ x ∈ refs ++ N, ∀ y, y.entmap = x.entmap → Rearranged x y → ∃ z ∈ refs ++ N, SameEl h z y := by
    intro x hx y hy hxy
    rcases List.mem_append.mp hx with hx | hx
    · exact p4 x hx y hy hxy
    · obtain ⟨r, hrr, -, he, hre⟩ := p1 x hx
      exact p4 r hrr y (hy.trans he) (rearranged_trans hre hxy)
  unfold spinShuffle at ho
  cases hl : spinShuffleLoop h refs (pySet h refs, refs) with
  | none => rw [hl] at e; simp at e
  | some st =>
    rw [hl] at e ho
    simp only [Option.map_some, Option.some.injEq] at e ho
    cases eqw with
    | false =>
      simp only [Bool.false_eq_true, if_false] at ho
      rw [← ho, e]
      unfold spinShuffle
      rw [spinShuffle_closed h (refs ++ N) hok hcl]
      simp
    | true =>
      simp only [if_true] at ho
      rw [e] at ho
      unfold spinShuffle
      rw [spinShuffle_closed h out]
      · simp only [Option.map_some, if_true, Option.some.injEq]
        rw [← ho]
        simp [List.map_map, Function.comp_def]
      · intro x hx
        rw [← ho, List.mem_map] at hx
        obtain ⟨x', hx', rfl⟩ := hx
        exact hok x' hx'
      · intro x hx y hy hxy
        rw [← ho, List.mem_map] at hx
        obtain ⟨x', hx', rfl⟩ := hx
        obtain ⟨z, hz, hzy⟩ := hcl x' hx' y hy hxy
        refine ⟨{ z with weight := 1 / ((refs ++ N).length : Rat) }, ?_, ?_⟩
        · rw [← ho]
          exact List.mem_map.mpr ⟨z, hz, rfl⟩
        · exact sameEl_trans (sameEl_of_fields h rfl rfl rfl rfl rfl) hzy

/-- Two doublets, one with projection +1/2 and one with -1/2: a reference with one other arrangement. -/
def demoPair : Space := ⟨[2, 2], [1, 1], [1, -1], [2, 2], [0, 0], 1, []⟩

example : Shaped demoPair ∧ Mults demoPair.smults ∧ ProjOk demoPair ∧
    Rearranged demoPair { demoPair with spins := [-1, 1] } := by
  have key : ∀ m : List Int, m = [1, -1] ∨ m = [-1, 1] → SpinVec [1, 1] 0 m := by
    rintro m (rfl | rfl) <;> refine ⟨rfl, ?_, rfl⟩ <;>
    · intro i hi
      have : i = 0 ∨ i = 1 := by simp at hi; omega
      rcases this with rfl | rfl <;> decide
  exact ⟨⟨rfl, rfl, rfl, rfl⟩, by intro x hx; simp [demoPair] at hx; omega, key _ (Or.inl rfl),
    rfl, rfl, rfl, rfl, key _ (Or.inr rfl)⟩

/-! ### C29 -/

/-- C29, `all_single_excitations`, without filtering. For every list of references in possible states, every mask and
every hash function the call succeeds and returns the references first, in order and unchanged; then rootspaces of
weight 0, no two with the same quantum numbers and none with those of a reference, each a single excitation of some
reference allowed by the mask; and every such single excitation is in the list. -/
theorem C29_all_singles (f : NCsf) (hf : CsfCounts f) (h : List Space.HashItem → Int) (mask : Nat → Nat → Bool)
    (refs : List Space) (hr : ∀ r ∈ refs, Shaped r ∧ ∀ k, k < r.nfrag → FragOk r k) (he : ∀ r ∈ refs, r.entmap = []) :
    ∃ new, allSingleExcitations f h mask false refs = .ok (some (refs ++ new)) ∧
      (∀ n ∈ new, n.weight = 0 ∧ ∃ r ∈ refs, ∃ i a alpha, i < r.nfrag ∧ a < r.nfrag ∧ i ≠ a ∧ mask i a = true ∧
        SingleExc r n i a alpha) ∧
      new.Pairwise (fun a b => ¬ SameNumbers a b) ∧ (∀ n ∈ new, ∀ r ∈ refs, ¬ SameNumbers r n) ∧
      ∀ r ∈ refs, ∀ i a alpha exc, i < r.nfrag → a < r.nfrag → i ≠ a → mask i a = true → SingleExc r exc i a alpha →
        ∃ y ∈ refs ++ new, SameNumbers y exc := by
  obtain ⟨l, N, hl, e, c1, c2, c3, c4⟩ := allSingles_core f hf h mask refs hr he
  refine ⟨N, ?_, ?_, c2, c3, c4⟩
  · unfold allSingleExcitations
    rw [hl]
    show (Except.ok (some ((l.foldl (addUnseen h) (pySet h refs, refs)).2)) : Except Err _) = _
    rw [e]
  · intro n hn
    obtain ⟨h1, -, h3⟩ := c1 n hn
    exact ⟨h1, h3⟩

/-- C29, with `filter_shuffles`. If the call succeeds, the references come first, in order and unchanged, followed by
members of the unfiltered list; and every new rootspace of the unfiltered list is represented by one, and only one, of
them with the same electron numbers and multiplicities. -/
theorem C29_filtered (f : NCsf) (hf : CsfCounts f) (h : List Space.HashItem → Int) (mask : Nat → Nat → Bool) (n : Nat)
    (refs : List Space) (hr : ∀ r ∈ refs, Shaped r ∧ ∀ k, k < r.nfrag → FragOk r k) (hn : ∀ r ∈ refs, r.nfrag = n)
    (he : ∀ r ∈ refs, r.entmap = []) (out new : List Space)
    (hnew : allSingleExcitations f h mask false refs = .ok (some (refs ++ new)))
    (hout : allSingleExcitations f h mask true refs = .ok (some out)) :
    ∃ sel, out = refs ++ sel ∧ (∀ s ∈ sel, s ∈ new) ∧
      (∀ x ∈ new, ∃ s ∈ sel, SpinRelated s x) ∧ sel.Pairwise (fun a b => ¬ SpinRelated a b) := by
  obtain ⟨l, N, hl, e, c1, -⟩ := allSingles_core f hf h mask refs hr he
  unfold allSingleExcitations at hnew hout
  rw [hl] at hnew hout
  replace hnew : (Except.ok (some ((l.foldl (addUnseen h) (pySet h refs, refs)).2)) : Except Err _) =
    .ok (some (refs ++ new)) := hnew
  replace hout : filterShuffles ((l.foldl (addUnseen h) (pySet h refs, refs)).2) refs.length = .ok (some out) := hout
  rw [e] at hnew hout
  obtain rfl : N = new := by
    simp only [Except.ok.injEq, Option.some.injEq, List.append_cancel_left_eq] at hnew
    exact hnew
  have hNn : ∀ x ∈ N, x.nfrag = n := by
    intro x hx
    obtain ⟨-, -, r, hrr, i, a, al, -, -, -, -, hexc⟩ := c1 x hx
    rw [← hn r hrr]
    unfold Space.nfrag
    rw [hexc.orbs.1]
  obtain ⟨g, p⟩ := manifolds_grouping n N hNn [] ⟨by simp, by simp, List.Pairwise.nil⟩
  obtain ⟨sel, rfl, hsel⟩ := filterShuffles_spec refs N out hout
  have hp : (manifolds N).flatten.Perm N := by unfold manifolds; simpa using p
  have hg : Grouping n (manifolds N) := g
  refine ⟨sel, rfl, ?_, ?_, ?_⟩
  · intro s hs
    obtain ⟨m, hm, hsm⟩ := forall2_mem_left hsel s hs
    exact hp.mem_iff.mp (List.mem_flatten.mpr ⟨m, hm, hsm⟩)
  · intro x hx
    obtain ⟨m, hm, hxm⟩ := List.mem_flatten.mp (hp.mem_iff.mpr hx)
    obtain ⟨s, hs, hsm⟩ := forall2_mem_right hsel m hm
    obtain ⟨m0, r, rfl, hrel⟩ := hg.rel m hm
    have f1 := hg.frag _ hm s hsm
    have f2 := hg.frag _ hm x hxm
    have f3 := hg.frag _ hm m0 (by simp)
    exact ⟨s, hs, spinRelated_trans (by omega) (hrel s hsm) (spinRelated_symm (by omega) (hrel x hxm))⟩
  · exact forall2_pairwise hsel hg.sep

example : ∀ r ∈ [demoSpace], Shaped r ∧ (∀ k, k < r.nfrag → FragOk r k) ∧ r.entmap = [] := by
  intro r hr
  rw [List.mem_singleton] at hr
  subst hr
  exact ⟨⟨rfl, rfl, rfl, rfl⟩, demo_ok, rfl⟩

/-- Two references with three fragments of two orbitals: no electrons in the first fragment of the first one. -/
def demoRefs : List Space :=
  [⟨[2, 2, 2], [0, 2, 2], [0, 0, 0], [1, 1, 1], [0, 0, 0], 1, []⟩,
   ⟨[2, 2, 2], [0, 2, 2], [0, 0, 0], [1, 1, 1], [-2, 0, 2], 0, []⟩]

/-- With `filter_shuffles` the call can fail although all references are in possible states: the selection compares
with the first reference only, and a single excitation of another reference need not be one of the first
(`IndexError`). -/
theorem C29_filter_violated :
    ∃ (f : NCsf) (mask : Nat → Nat → Bool) (refs : List Space), CsfCounts f ∧
      (∀ r ∈ refs, Shaped r ∧ (∀ k, k < r.nfrag → FragOk r k) ∧ r.entmap = [] ∧ r.nfrag = 3) ∧
      ∀ h, allSingleExcitations f h mask true refs = .error .index := by
  have ok : ∀ r ∈ demoRefs, Shaped r ∧ (∀ k, k < r.nfrag → FragOk r k) ∧ r.entmap = [] ∧ r.nfrag = 3 := by
    intro r hr
    simp only [demoRefs, List.mem_cons, List.not_mem_nil, or_false] at hr
    rcases hr with rfl | rfl <;> refine ⟨⟨rfl, rfl, rfl, rfl⟩, ?_, rfl, rfl⟩ <;>
    · intro k hk
      have : k = 0 ∨ k = 1 ∨ k = 2 := by simp [Space.nfrag] at hk; omega
      unfold FragOk FragOcc Realizable
      rcases this with rfl | rfl | rfl
      · first
          | exact ⟨0, 0, by decide⟩
          | exact ⟨1, 1, by decide⟩
      · exact ⟨1, 1, by decide⟩
      · first
          | exact ⟨0, 0, by decide⟩
          | exact ⟨1, 1, by decide⟩
  refine ⟨demoCsf, fun i a => i == 0 && a == 1, demoRefs, demoCsf_counts, ok, ?_⟩
  intro h
  obtain ⟨l, N, hl, e, c1, c2, c3, c4⟩ := allSingles_core demoCsf demoCsf_counts h (fun i a => i == 0 && a == 1) demoRefs
    (fun r hr => ⟨(ok r hr).1, (ok r hr).2.1⟩) (fun r hr => (ok r hr).2.2.1)
  unfold allSingleExcitations
  rw [hl]
  show filterShuffles ((l.foldl (addUnseen h) (pySet h demoRefs, demoRefs)).2) demoRefs.length = _
  rw [e]
  unfold filterShuffles
  rw [List.take_left, List.drop_left]
  -- every new rootspace has one electron in the first fragment and three in the second
  have hnew : ∀ n ∈ N, n.nelec 0 = 1 ∧ n.nelec 1 = 3 ∧ n.nelec 2 = 0 := by
    intro n hn
    obtain ⟨-, -, r, hr, i, a, al, -, -, -, hm, hx⟩ := c1 n hn
    simp only [Bool.and_eq_true, beq_iff_eq] at hm
    obtain ⟨rfl, rfl⟩ := hm
    simp only [demoRefs, List.mem_cons, List.not_mem_nil, or_false] at hr
    obtain ⟨na, nb, ⟨o1, o2⟩, re⟩ := hx.ok.1
    unfold Realizable at re
    have hn0 : el n.nelelas 0 - el n.charges 0 = na + nb := o1.symm
    rcases hr with rfl | rfl
    · have hs := hx.source 0 0 ⟨rfl, rfl⟩
      exfalso
      cases al <;> simp only [if_true, if_false, Bool.false_eq_true] at hs <;> obtain ⟨s1, s2⟩ := hs <;> omega
    · have hs := hx.source 1 1 ⟨rfl, rfl⟩
      have hd := hx.dest 1 1 ⟨rfl, rfl⟩
      have ho := (hx.others 2 (by decide) (by decide)).1
      have hne : n.nelelas = [0, 2, 2] := hx.orbs.2
      unfold Space.nelec
      refine ⟨?_, ?_, ?_⟩
      · cases al <;> simp only [if_true, if_false, Bool.false_eq_true] at hs <;> obtain ⟨s1, s2⟩ := hs <;> omega
      · cases al <;> simp only [if_true, if_false, Bool.false_eq_true] at hd <;> obtain ⟨s1, s2⟩ := hd <;> omega
      · rw [ho, hne]; decide
  -- there is one
  have hex : ∃ y ∈ demoRefs ++ N, SameNumbers y ⟨[2, 2, 2], [0, 2, 2], [-1, 1, 0], [2, 2, 1], [-1, -1, 2], 0, []⟩ := by
    refine c4 ⟨[2, 2, 2], [0, 2, 2], [0, 0, 0], [1, 1, 1], [-2, 0, 2], 0, []⟩ (by simp [demoRefs]) 0 1 true _ (by decide)
      (by decide) (by decide) rfl ⟨⟨rfl, rfl, rfl, rfl⟩, ⟨rfl, rfl⟩, ?_, ?_, ?_, by decide, ?_⟩
    · intro k h0 h1
      match k, h0, h1 with
      | k + 2, _, _ => match k with
        | 0 => decide
        | k + 1 => simp [el]
    · rintro na nb ⟨x, y⟩
      simp only [el, List.getD_cons_zero] at x y
      show FragOcc _ _ _ _
      unfold FragOcc
      simp only [el, List.getD_cons_zero]
      omega
    · rintro na nb ⟨x, y⟩
      simp only [el, List.getD_cons_succ, List.getD_cons_zero] at x y
      show FragOcc _ _ _ _
      unfold FragOcc
      simp only [el, List.getD_cons_succ, List.getD_cons_zero]
      omega
    · unfold FragOk FragOcc Realizable
      exact ⟨⟨0, 1, by decide⟩, ⟨2, 1, by decide⟩⟩
  obtain ⟨y, hy, hyn⟩ := hex
  have hN : N ≠ [] := by
    rintro rfl
    simp only [demoRefs, List.append_nil, List.mem_cons, List.not_mem_nil, or_false] at hy
    rcases hy with rfl | rfl
    · exact absurd (hyn.2 0 (by decide)).1 (by decide)
    · exact absurd (hyn.2 0 (by decide)).1 (by decide)
  have hNn : ∀ x ∈ N, x.nfrag = 3 := by
    intro x hx
    obtain ⟨-, -, r, hrr, i, a, al, -, -, -, -, hexc⟩ := c1 x hx
    rw [← (ok r hrr).2.2.2]
    unfold Space.nfrag
    rw [hexc.orbs.1]
  obtain ⟨g, p⟩ := manifolds_grouping 3 N hNn [] ⟨by simp, by simp, List.Pairwise.nil⟩
  have hp : (manifolds N).flatten.Perm N := by unfold manifolds; simpa using p
  cases hms : manifolds N with
  | nil => rw [hms] at hp; exact absurd (List.perm_nil.mp hp.symm) hN
  | cons m ms =>
    obtain ⟨m0, r, hm, -⟩ := g.rel m (by
      have : m ∈ manifolds N := by rw [hms]; simp
      exact this)
    subst hm
    have hm0 : m0 ∈ N := hp.mem_iff.mp (List.mem_flatten.mpr ⟨m0 :: r, by rw [hms]; simp, by simp⟩)
    obtain ⟨e0, e1, e2⟩ := hnew m0 hm0
    simp only [demoRefs, selectAll, selectFromManifold]
    have hf : (firstWhere (Space.nfrag ⟨[2, 2, 2], [0, 2, 2], [0, 0, 0], [1, 1, 1], [0, 0, 0], 1, []⟩) fun i =>
        decide (m0.nelec i - Space.nelec ⟨[2, 2, 2], [0, 2, 2], [0, 0, 0], [1, 1, 1], [0, 0, 0], 1, []⟩ i = -1)) =
        .error .index := by
      unfold firstWhere
      rw [show (List.range (Space.nfrag ⟨[2, 2, 2], [0, 2, 2], [0, 0, 0], [1, 1, 1], [0, 0, 0], 1, []⟩)) = [0, 1, 2] from rfl]
      simp only [List.filter_cons, e0, e1, e2]
      rfl
    rw [hf]
    rfl

/-! ### C31 -/

/-- C31: the relation the code tests is "same electron number and multiplicity in every fragment, same total
projection". -/
theorem C31_meaning (a b : Space) : isSpinShuffleOf a b = true ↔ SpinRelated a b := isSpinShuffleOf_iff a b

/-- C31: on rootspaces with the same number of fragments it is an equivalence relation. -/
theorem C31_equivalence (n : Nat) (a b c : Space) (ha : a.nfrag = n) (hb : b.nfrag = n) (_hc : c.nfrag = n) :
    isSpinShuffleOf a a = true ∧ (isSpinShuffleOf a b = true → isSpinShuffleOf b a = true) ∧
    (isSpinShuffleOf a b = true → isSpinShuffleOf b c = true → isSpinShuffleOf a c = true) := by
  simp only [isSpinShuffleOf_iff]
  exact ⟨⟨fun _ _ => ⟨rfl, rfl⟩, rfl⟩, fun h => spinRelated_symm (by omega) h,
    fun h h' => spinRelated_trans (by omega) h h'⟩

/-- C31: the grouping loop distributes the rootspaces (each exactly once) over nonempty groups, members of one group
being related to each other and members of different groups not. -/
theorem C31_manifolds (n : Nat) (xs : List Space) (hx : ∀ x ∈ xs, x.nfrag = n) :
    (manifolds xs).flatten.Perm xs ∧ (∀ m ∈ manifolds xs, m ≠ [] ∧ ∀ x ∈ m, ∀ y ∈ m, SpinRelated x y) ∧
    (manifolds xs).Pairwise (fun m m' => ∀ x ∈ m, ∀ y ∈ m', ¬ SpinRelated x y) := by
  obtain ⟨g, p⟩ := manifolds_grouping n xs hx [] ⟨by simp, by simp, List.Pairwise.nil⟩
  refine ⟨by unfold manifolds; simpa using p, ?_, g.sep⟩
  intro m hm
  obtain ⟨m0, r, rfl, hrel⟩ := g.rel m hm
  have hfr := g.frag _ hm
  refine ⟨by simp, ?_⟩
  intro x hx y hy
  have h1 := hfr x hx
  have h2 := hfr y hy
  have h3 := hfr m0 (by simp)
  exact spinRelated_trans (by omega) (hrel x hx) (spinRelated_symm (by omega) (hrel y hy))

example : manifolds [demoSpace, demoPair, { demoPair with spins := [-1, 1] }] =
    [[demoSpace], [demoPair, { demoPair with spins := [-1, 1] }]] := by decide

end Verif.Props
