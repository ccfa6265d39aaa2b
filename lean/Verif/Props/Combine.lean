import Verif.Lemmas.Combine
import Verif.Props.SpaceLists
/-!
# C30: products of excitations of one reference
-/
namespace Verif.Props
open Verif.Spec Verif.Spaces

theorem _root_.Verif.Spec.Fits.nfrag {sp ref : Space} (h : Fits sp ref) : sp.nfrag = ref.nfrag := by
  unfold Space.nfrag; rw [h.orbs]

theorem excited_iff {sp ref : Space} (h : Fits sp ref) (hr : Fits ref ref) (m : Bool) (i : Nat) (hi : i < ref.nfrag) :
    sp.excitedFragment ref m i = false ↔ Unchanged m sp ref i := by
  obtain ⟨na, nb, o1, -⟩ := h.ok i (by rw [h.nfrag]; exact hi)
  obtain ⟨na', nb', o2, -⟩ := hr.ok i hi
  cases m
  · exact excited_false_iff sp ref h.elec i na nb na' nb' o1 o2
  · exact excited_false_iff_noM sp ref h.elec i na nb na' nb' o1 o2

/-- C30: two excitations are orthogonal exactly when each changes some fragment and no fragment is changed by both. -/
theorem C30_orthogonal (e1 e2 ref : Space) (h1 : Fits e1 ref) (h2 : Fits e2 ref) (hr : Fits ref ref) (m : Bool) :
    orthogonalExcitations e1 e2 ref m = true ↔
      (∃ i, i < ref.nfrag ∧ ¬ Unchanged m e1 ref i) ∧ (∃ i, i < ref.nfrag ∧ ¬ Unchanged m e2 ref i) ∧
      ∀ i, i < ref.nfrag → Unchanged m e1 ref i ∨ Unchanged m e2 ref i := by
  unfold orthogonalExcitations
  rw [if_neg (by rw [h1.nfrag]; simp), if_neg (by rw [h2.nfrag]; simp)]
  simp only [h1.nfrag, h2.nfrag]
  have x1 : ∀ i, i < ref.nfrag → (e1.excitedFragment ref m i = true ↔ ¬ Unchanged m e1 ref i) := by
    intro i hi; rw [← excited_iff h1 hr m i hi]; simp
  have x2 : ∀ i, i < ref.nfrag → (e2.excitedFragment ref m i = true ↔ ¬ Unchanged m e2 ref i) := by
    intro i hi; rw [← excited_iff h2 hr m i hi]; simp
  have y1 : (List.range ref.nfrag).any (e1.excitedFragment ref m) = true ↔ ∃ i, i < ref.nfrag ∧ ¬ Unchanged m e1 ref i := by
    rw [List.any_eq_true]
    constructor
    · rintro ⟨i, hi, h⟩; rw [List.mem_range] at hi; exact ⟨i, hi, (x1 i hi).mp h⟩
    · rintro ⟨i, hi, h⟩; exact ⟨i, List.mem_range.mpr hi, (x1 i hi).mpr h⟩
  have y2 : (List.range ref.nfrag).any (e2.excitedFragment ref m) = true ↔ ∃ i, i < ref.nfrag ∧ ¬ Unchanged m e2 ref i := by
    rw [List.any_eq_true]
    constructor
    · rintro ⟨i, hi, h⟩; rw [List.mem_range] at hi; exact ⟨i, hi, (x2 i hi).mp h⟩
    · rintro ⟨i, hi, h⟩; exact ⟨i, List.mem_range.mpr hi, (x2 i hi).mpr h⟩
  have y3 : (List.range ref.nfrag).any (fun i => e1.excitedFragment ref m i && e2.excitedFragment ref m i) = true ↔
      ¬ ∀ i, i < ref.nfrag → Unchanged m e1 ref i ∨ Unchanged m e2 ref i := by
    rw [List.any_eq_true]
    constructor
    · rintro ⟨i, hi, h⟩ hc
      rw [List.mem_range] at hi
      rw [Bool.and_eq_true] at h
      rcases hc i hi with h' | h'
      · exact (x1 i hi).mp h.1 h'
      · exact (x2 i hi).mp h.2 h'
    · intro h
      by_contra hc
      apply h
      intro i hi
      by_contra hc'
      rw [not_or] at hc'
      exact hc ⟨i, List.mem_range.mpr hi, by rw [Bool.and_eq_true]; exact ⟨(x1 i hi).mpr hc'.1, (x2 i hi).mpr hc'.2⟩⟩
  rw [← y1, ← y2]
  by_cases a : (List.range ref.nfrag).any (e1.excitedFragment ref m) = true
  · by_cases b : (List.range ref.nfrag).any (e2.excitedFragment ref m) = true
    · rw [if_neg (by simp [a]), if_neg (by simp [b])]
      by_cases c : (List.range ref.nfrag).any (fun i => e1.excitedFragment ref m i && e2.excitedFragment ref m i) = true
      · rw [if_pos c]
        have := y3.mp c
        simp only [Bool.false_eq_true, false_iff]
        exact fun hc => this hc.2.2
      · rw [if_neg c]
        refine ⟨fun _ => ⟨a, b, ?_⟩, fun _ => rfl⟩
        by_contra hc
        exact c (y3.mpr hc)
    · rw [if_neg (by simp [a]), if_pos (by simpa using b)]
      simp [b]
  · rw [if_pos (by simpa using a)]
    simp [a]

/-- What a successful call returns, apart from the projections in the flexible mode. -/
theorem combine_fields {e1 e2 ref p : Space} {m : Bool} (h : combineOrthogonal e1 e2 ref m = .ok p) :
    p.nlas = ref.nlas ∧ p.nelelas = ref.nelelas ∧
    p.smults = maskedCopy ref.nfrag (e2.excitedFragment ref m) e1.smults e2.smults ∧
    p.charges = maskedCopy ref.nfrag (e2.excitedFragment ref m) e1.charges e2.charges ∧
    (m = false → p.spins = maskedCopy ref.nfrag (e2.excitedFragment ref m) e1.spins e2.spins) ∧
    p.weight = 0 ∧ p.entmap.Perm (e1.entmap ++ e2.entmap) := by
  unfold combineOrthogonal at h
  cases m
  · simp only [Bool.false_eq_true, if_false, bind, Except.bind, pure, Except.pure] at h
    split at h
    · cases h
    · cases h
      exact ⟨rfl, rfl, rfl, rfl, fun _ => rfl, rfl, List.mergeSort_perm _ _⟩
  · simp only [if_true, bind, Except.bind, pure, Except.pure] at h
    iterate 5 (split at h; · cases h)
    · cases h
      exact ⟨rfl, rfl, rfl, rfl, fun hc => (by cases hc), rfl, List.mergeSort_perm _ _⟩

/-- C30: the order does not matter. For excitations of one reference no fragment of which is changed by both, both
orders give the same charges and multiplicities (and the same projections, when these are not adjusted). -/
theorem C30_commute (e1 e2 ref p q : Space) (h1 : Fits e1 ref) (h2 : Fits e2 ref) (hr : Fits ref ref) (m : Bool)
    (ho : ∀ i, i < ref.nfrag → Unchanged m e1 ref i ∨ Unchanged m e2 ref i)
    (hp : combineOrthogonal e1 e2 ref m = .ok p) (hq : combineOrthogonal e2 e1 ref m = .ok q) :
    p.charges = q.charges ∧ p.smults = q.smults ∧ (m = false → p.spins = q.spins) := by
  obtain ⟨-, -, p3, p4, p5, -, -⟩ := combine_fields hp
  obtain ⟨-, -, q3, q4, q5, -, -⟩ := combine_fields hq
  have hu1 := excited_iff h1 hr m
  have hu2 := excited_iff h2 hr m
  have hkey : ∀ i, i < ref.nfrag → ∀ x1 x2 : List Int,
      (e1.excitedFragment ref m i = false → e2.excitedFragment ref m i = false → el x1 i = el x2 i) →
      el (maskedCopy ref.nfrag (e2.excitedFragment ref m) x1 x2) i =
        el (maskedCopy ref.nfrag (e1.excitedFragment ref m) x2 x1) i := by
    intro i hi x1 x2 hx
    rw [maskedCopy_el _ _ _ _ _ hi, maskedCopy_el _ _ _ _ _ hi]
    cases e : e2.excitedFragment ref m i <;> cases e' : e1.excitedFragment ref m i
    · exact hx e' e
    · rfl
    · rfl
    · exfalso
      rcases ho i hi with h | h
      · rw [← hu1 i hi, e'] at h; cases h
      · rw [← hu2 i hi, e] at h; cases h
  refine ⟨?_, ?_, ?_⟩
  · rw [p4, q4]
    apply ext_el (by rw [maskedCopy_length, maskedCopy_length])
    intro i hi
    rw [maskedCopy_length] at hi
    apply hkey i hi
    intro ha hb
    rw [hu1 i hi] at ha
    rw [hu2 i hi] at hb
    unfold Unchanged at ha hb
    cases m
    · exact ha.1.trans hb.1.symm
    · exact ha.1.trans hb.1.symm
  · rw [p3, q3]
    apply ext_el (by rw [maskedCopy_length, maskedCopy_length])
    intro i hi
    rw [maskedCopy_length] at hi
    apply hkey i hi
    intro ha hb
    rw [hu1 i hi] at ha
    rw [hu2 i hi] at hb
    unfold Unchanged at ha hb
    cases m
    · exact ha.2.1.trans hb.2.1.symm
    · exact ha.2.trans hb.2.symm
  · intro hm
    rw [p5 hm, q5 hm]
    subst hm
    apply ext_el (by rw [maskedCopy_length, maskedCopy_length])
    intro i hi
    rw [maskedCopy_length] at hi
    apply hkey i hi
    intro ha hb
    rw [hu1 i hi] at ha
    rw [hu2 i hi] at hb
    exact ha.2.2.trans hb.2.2.symm

theorem sum_eq_range (l : List Int) (n : Nat) (h : l.length = n) : l.sum = ((List.range n).map (el l)).sum := by
  subst h
  rw [map_el_self]

/-- C30: if both excitations keep the electron number of the reference, so does their product. -/
theorem C30_electrons (e1 e2 ref p : Space) (h1 : Fits e1 ref) (h2 : Fits e2 ref) (hr : Fits ref ref) (m : Bool)
    (ho : ∀ i, i < ref.nfrag → Unchanged m e1 ref i ∨ Unchanged m e2 ref i)
    (hp : combineOrthogonal e1 e2 ref m = .ok p) (t1 : totalElectrons e1 = totalElectrons ref)
    (t2 : totalElectrons e2 = totalElectrons ref) : totalElectrons p = totalElectrons ref := by
  obtain ⟨-, p2, -, p4, -, -, -⟩ := combine_fields hp
  unfold totalElectrons at *
  rw [h1.elec] at t1
  rw [h2.elec] at t2
  rw [p2]
  have hc : e1.charges.sum + e2.charges.sum = p.charges.sum + ref.charges.sum := by
    rw [p4, sum_eq_range e1.charges ref.nfrag (by rw [h1.shaped.2.2.2, h1.nfrag]),
      sum_eq_range e2.charges ref.nfrag (by rw [h2.shaped.2.2.2, h2.nfrag]),
      sum_eq_range ref.charges ref.nfrag hr.shaped.2.2.2, sum_eq_range _ ref.nfrag (maskedCopy_length ..)]
    have key : ∀ n, n ≤ ref.nfrag →
        ((List.range n).map (el e1.charges)).sum + ((List.range n).map (el e2.charges)).sum =
        ((List.range n).map (el (maskedCopy ref.nfrag (e2.excitedFragment ref m) e1.charges e2.charges))).sum +
          ((List.range n).map (el ref.charges)).sum := by
      intro n
      induction n with
      | zero => simp
      | succ n ih =>
        intro hn
        have := ih (by omega)
        simp only [List.range_succ, List.map_append, List.sum_append, List.map_cons, List.map_nil, List.sum_cons,
          List.sum_nil]
        rw [maskedCopy_el _ _ _ _ _ (by omega)]
        have hi : n < ref.nfrag := by omega
        have u1 := excited_iff h1 hr m n hi
        have u2 := excited_iff h2 hr m n hi
        cases e : e2.excitedFragment ref m n
        · have hb := u2.mp e
          have : el e2.charges n = el ref.charges n := by
            unfold Unchanged at hb
            cases m
            · exact hb.1
            · exact hb.1
          simp only [Bool.false_eq_true, if_false]
          omega
        · have ha : Unchanged m e1 ref n := by
            rcases ho n hi with h | h
            · exact h
            · rw [← u2, e] at h; cases h
          have : el e1.charges n = el ref.charges n := by
            unfold Unchanged at ha
            cases m
            · exact ha.1
            · exact ha.1
          simp only [if_true]
          omega
    exact key ref.nfrag (Nat.le_refl _)
  omega

/-- C30, flexible mode. The call returns a rootspace with the projection of the reference and possible local
projections exactly when such an arrangement of projections exists for the multiplicities of the product. In
particular no assertion fails then. (The entanglement records must have no entry in common.) -/
theorem C30_flexible (e1 e2 ref : Space) (h1 : Fits e1 ref) (h2 : Fits e2 ref) (hr : Fits ref ref)
    (hent : (e1.entmap ++ e2.entmap).Nodup) (s : List Int) (hs : ProductMults e1 e2 ref s) :
    (∃ w, SpinVec (s.map (· - 1)) (totalSpin ref) w) ↔
    ∃ p, combineOrthogonal e1 e2 ref true = .ok p ∧ p.smults = s ∧ SpinVec (s.map (· - 1)) (totalSpin ref) p.spins := by
  constructor
  swap
  · rintro ⟨p, -, -, h⟩
    exact ⟨_, h⟩
  intro hw
  obtain ⟨idx, hidx⟩ : ∃ idx, idx = e2.excitedFragment ref true := ⟨_, rfl⟩
  have hsm : maskedCopy ref.nfrag idx e1.smults e2.smults = s := by
    apply ext_el (by rw [maskedCopy_length, hs.1])
    intro i hi
    rw [maskedCopy_length] at hi
    rw [maskedCopy_el _ _ _ _ _ hi]
    have u2 := excited_iff h2 hr true i hi
    rw [← hidx] at u2
    cases e : idx i
    · rw [if_neg (by simp)]
      exact ((hs.2 i hi).1 (u2.mp e)).symm
    · rw [if_pos rfl]
      refine ((hs.2 i hi).2 ?_).symm
      rw [← u2, e]
      simp
  obtain ⟨m, hm⟩ : ∃ m, m = maskedCopy ref.nfrag idx e1.spins e2.spins := ⟨_, rfl⟩
  have hml : m.length = s.length := by rw [hm, maskedCopy_length, hs.1]
  have hfrag : ∀ (e : Space), Fits e ref → ∀ i, i < ref.nfrag →
      -(el e.smults i - 1) ≤ el e.spins i ∧ el e.spins i ≤ el e.smults i - 1 ∧ (el e.smults i - 1 - el e.spins i) % 2 = 0 := by
    intro e he i hi
    obtain ⟨na, nb, ⟨o1, o2⟩, re⟩ := he.ok i (by rw [he.nfrag]; exact hi)
    obtain ⟨-, -, -, -, r5, r6, -, -⟩ := re
    rw [abs_le] at r5
    omega
  have hmv : SpinVec (s.map (· - 1)) m.sum m := by
    refine ⟨by simp [hml], ?_, rfl⟩
    intro i hi
    simp only [List.length_map, hs.1] at hi
    rw [el_map_sub s i (by rw [hs.1]; exact hi), hm, ← hsm, maskedCopy_el _ _ _ _ _ hi, maskedCopy_el _ _ _ _ _ hi]
    split
    · exact hfrag e2 h2 i hi
    · exact hfrag e1 h1 i hi
  obtain ⟨a1, a2, -⟩ := adjustSpins_spec m s hml (totalSpin ref) hmv
  obtain ⟨v, hv⟩ := a2 hw
  have hvv := a1 v hv hw
  have hvlen : v.length = ref.nfrag := by rw [hvv.1]; simp [hs.1]
  unfold combineOrthogonal
  simp only [if_true, bind, Except.bind, pure, Except.pure]
  rw [← hidx, hsm, ← hm]
  unfold totalSpin at hv hvv
  rw [hv]
  have as1 : assert' (decide (v.sum = ref.spins.sum)) = .ok () := by
    unfold assert'; rw [if_pos]; rw [decide_eq_true_eq]; exact hvv.2.2
  have hvb : ∀ i, i < ref.nfrag → -(el s i - 1) ≤ el v i ∧ el v i ≤ el s i - 1 := by
    intro i hi
    have := hvv.2.1 i (by simp [hs.1, hi])
    rw [el_map_sub s i (by rw [hs.1]; exact hi)] at this
    exact ⟨this.1, this.2.1⟩
  have as2 : assert' ((List.range ref.nfrag).all fun i => decide (el v i < el s i)) = .ok () := by
    unfold assert'; rw [if_pos]; rw [List.all_eq_true]
    intro i hi
    rw [List.mem_range] at hi
    have := hvb i hi
    rw [decide_eq_true_eq]; omega
  have as3 : assert' ((List.range ref.nfrag).all fun i => decide (-el v i < el s i)) = .ok () := by
    unfold assert'; rw [if_pos]; rw [List.all_eq_true]
    intro i hi
    rw [List.mem_range] at hi
    have := hvb i hi
    rw [decide_eq_true_eq]; omega
  have as4 : assert' (decide (((e1.entmap ++ e2.entmap).mergeSort tupLe).Nodup)) = .ok () := by
    unfold assert'; rw [if_pos]; rw [decide_eq_true_eq, (List.mergeSort_perm _ _).nodup_iff]; exact hent
  simp only [as1, as2, as3, as4]
  exact ⟨_, rfl, rfl, hvv⟩

/-- The records of two excitations of disjoint sets of fragments have no entry in common when each has no repeated
entries and every entry names at least one fragment, and only fragments the excitation changes. -/
theorem C30_records_disjoint (e1 e2 ref : Space) (m : Bool)
    (ho : ∀ i, Unchanged m e1 ref i ∨ Unchanged m e2 ref i) (n1 : e1.entmap.Nodup) (n2 : e2.entmap.Nodup)
    (r1 : ∀ t ∈ e1.entmap, t ≠ [] ∧ ∀ i ∈ t, ¬ Unchanged m e1 ref i)
    (r2 : ∀ t ∈ e2.entmap, ∀ i ∈ t, ¬ Unchanged m e2 ref i) : (e1.entmap ++ e2.entmap).Nodup := by
  rw [List.nodup_append]
  refine ⟨n1, n2, ?_⟩
  rintro t ht t' ht' rfl
  obtain ⟨hne, hch⟩ := r1 t ht
  obtain ⟨i, hi⟩ := List.exists_mem_of_ne_nil _ hne
  rcases ho i with h | h
  · exact hch i hi h
  · exact r2 t ht' i hi h

/-- Four fragments with one electron each; one excitation moves an electron from the second to the first, the other
one from the fourth to the third. -/
def demo4 : Space := ⟨[2, 2, 2, 2], [1, 1, 1, 1], [1, -1, 1, -1], [2, 2, 2, 2], [0, 0, 0, 0], 1, []⟩
def demo4a : Space := ⟨[2, 2, 2, 2], [1, 1, 1, 1], [0, 0, 1, -1], [1, 1, 2, 2], [-1, 1, 0, 0], 0, [[0, 1]]⟩
def demo4b : Space := ⟨[2, 2, 2, 2], [1, 1, 1, 1], [1, -1, 0, 0], [2, 2, 3, 1], [0, 0, -1, 1], 0, [[2, 3]]⟩

theorem demo4_fits : Fits demo4 demo4 ∧ Fits demo4a demo4 ∧ Fits demo4b demo4 := by
  refine ⟨⟨⟨rfl, rfl, rfl, rfl⟩, rfl, rfl, ?_⟩, ⟨⟨rfl, rfl, rfl, rfl⟩, rfl, rfl, ?_⟩, ⟨⟨rfl, rfl, rfl, rfl⟩, rfl, rfl, ?_⟩⟩ <;>
  · intro k hk
    have : k = 0 ∨ k = 1 ∨ k = 2 ∨ k = 3 := by simp [Space.nfrag, demo4, demo4a, demo4b] at hk; omega
    unfold FragOk FragOcc Realizable
    rcases this with rfl | rfl | rfl | rfl <;>
    first
      | exact ⟨0, 0, by decide⟩
      | exact ⟨1, 0, by decide⟩
      | exact ⟨0, 1, by decide⟩
      | exact ⟨1, 1, by decide⟩

example : orthogonalExcitations demo4a demo4b demo4 true = true ∧
    ProductMults demo4a demo4b demo4 [1, 1, 3, 1] ∧ SpinVec [0, 0, 2, 0] (totalSpin demo4) [0, 0, 0, 0] ∧
    (demo4a.entmap ++ demo4b.entmap).Nodup := by
  refine ⟨by decide, ⟨rfl, ?_⟩, ⟨rfl, ?_, rfl⟩, by decide⟩ <;>
  · intro i hi
    have : i = 0 ∨ i = 1 ∨ i = 2 ∨ i = 3 := by simp [Space.nfrag, demo4] at hi; omega
    try simp only [Unchanged, SameFragNoM, if_true]
    rcases this with rfl | rfl | rfl | rfl <;> decide

end Verif.Props
