import Verif.Model.SpinTables
import Verif.Spec.SpinTables
import Verif.Lemmas.Spaces
import Mathlib.Data.List.Induction
import Mathlib.Algebra.Order.BigOperators.Group.List
/-!
# Lemmas about the spin tables
-/
namespace Verif.Spaces
open Verif.Spec

theorem mem_npUnique (rows : List (List Int)) (r : List Int) : r ∈ npUnique rows ↔ r ∈ rows := by
  unfold npUnique
  rw [(List.mergeSort_perm _ _).mem_iff, List.mem_dedup]

theorem nodup_npUnique (rows : List (List Int)) : (npUnique rows).Nodup := by
  unfold npUnique
  rw [(List.mergeSort_perm _ _).nodup_iff]
  exact List.nodup_dedup _

theorem sum_le_of_el (a b : List Int) (hl : a.length = b.length) (h : ∀ i, i < a.length → el a i ≤ el b i) :
    a.sum ≤ b.sum := by
  induction a generalizing b with
  | nil => cases b <;> simp_all
  | cons x xs ih =>
    cases b with
    | nil => simp at hl
    | cons y ys =>
      have h0 := h 0 (by simp)
      have := ih ys (by simpa using hl) (fun i hi => by
        have := h (i + 1) (by simpa using hi)
        simpa [el] using this)
      simp [el] at h0
      simp only [List.sum_cons]
      omega

theorem exists_el_lt (a b : List Int) (hl : a.length = b.length) (h : a.sum < b.sum) :
    ∃ i, i < a.length ∧ el a i < el b i := by
  by_contra hc
  push Not at hc
  have := sum_le_of_el b a hl.symm (fun i hi => hc i (by omega))
  omega

theorem bump_bump (l : List Int) (i : Nat) (d : Int) (hi : i < l.length) : bump (bump l i d) i (-d) = l := by
  apply ext_el
  · rw [bump_length, bump_length]
  · intro k _
    rw [el_bump _ _ _ _ (by rw [bump_length]; exact hi), el_bump _ _ _ _ hi]
    split <;> omega

theorem iter_succ {α : Type} (f : α → α) (n : Nat) (x : α) : iter f (n + 1) x = f (iter f n x) := by
  induction n generalizing x with
  | zero => rfl
  | succ n ih => rw [iter, ih]; rfl

theorem el_map_sub (l : List Int) (i : Nat) (hi : i < l.length) : el (l.map (· - 1)) i = el l i - 1 := by
  simp [el, List.getD_eq_getElem?_getD, List.getElem?_eq_getElem hi]

/-! ### projections -/

theorem spinTable_level (smults : List Int) (hs : ∀ i, i < smults.length → 1 ≤ el smults i) (k : Nat) :
    (iter (spinTableStep smults) k [smults.map (· - 1)]).Nodup ∧
    ∀ m, m ∈ iter (spinTableStep smults) k [smults.map (· - 1)] ↔
      SpinVec (smults.map (· - 1)) ((smults.map (· - 1)).sum - 2 * k) m := by
  set s := smults.map (· - 1) with hsdef
  have hlen : s.length = smults.length := by simp [hsdef]
  have hel : ∀ i, i < smults.length → el s i = el smults i - 1 := fun i hi => el_map_sub smults i hi
  induction k with
  | zero =>
    refine ⟨by simp [iter], ?_⟩
    intro m
    simp only [iter, List.mem_singleton]
    constructor
    · rintro rfl
      refine ⟨rfl, fun i hi => ?_, by simp⟩
      have := hs i (by omega)
      have := hel i (by omega)
      omega
    · rintro ⟨h1, h2, h3⟩
      by_contra hne
      apply hne
      apply ext_el h1
      intro i hi
      by_contra hne'
      have hlt : el m i < el s i := by have := h2 i (by omega); omega
      have h4 := sum_le_of_el (bump m i 1) s (by rw [bump_length, h1]) (fun j hj => by
        rw [bump_length] at hj
        rw [el_bump m i j 1 hi]
        have := h2 j (by omega)
        split
        · rename_i hji; subst hji; omega
        · omega)
      rw [sum_bump m i 1 hi] at h4
      simp at h3
      omega
  | succ k ih =>
    obtain ⟨-, ihm⟩ := ih
    rw [iter_succ]
    generalize iter (spinTableStep smults) k [s] = T at ihm
    refine ⟨?_, ?_⟩
    · unfold spinTableStep
      exact (nodup_npUnique _).filter _
    · intro m
      unfold spinTableStep
      simp only [List.mem_filter, mem_npUnique, List.mem_flatMap, List.mem_map, List.mem_range, List.all_eq_true,
        decide_eq_true_eq]
      constructor
      · rintro ⟨⟨r, hr, i, hi, rfl⟩, hv⟩
        obtain ⟨r1, r2, r3⟩ := (ihm r).mp hr
        refine ⟨by rw [bump_length, r1], ?_, ?_⟩
        · intro j hj
          have h1 := hv j (by omega)
          have h2 := r2 j hj
          have h3 := hel j (by omega)
          rw [el_bump r i j _ (by omega)] at h1 ⊢
          by_cases hji : j = i
          · rw [if_pos hji] at h1 ⊢; omega
          · rw [if_neg hji] at h1 ⊢; omega
        · rw [sum_bump _ _ _ (by omega), r3]
          push_cast
          ring
      · rintro ⟨h1, h2, h3⟩
        obtain ⟨i, hi, hlt⟩ := exists_el_lt m s h1 (by rw [h3]; push_cast; omega)
        refine ⟨⟨bump m i 2, ?_, i, by omega, ?_⟩, ?_⟩
        · rw [ihm]
          refine ⟨by rw [bump_length, h1], ?_, ?_⟩
          · intro j hj
            rw [el_bump m i j 2 hi]
            have := h2 j hj
            split
            · rename_i hji; subst hji; omega
            · omega
          · rw [sum_bump _ _ _ hi, h3]
            push_cast
            ring
        · exact bump_bump m i 2 hi
        · intro j hj
          have := h2 j (by omega)
          have := hel j hj
          omega

/-! ### couplings -/

theorem cumsum_el (l : List Int) (i : Nat) (hi : i < l.length) : el (cumsum l) i = (l.take (i + 1)).sum := by
  simp [cumsum, el, List.getD_eq_getElem?_getD, hi]

theorem take_bump (l : List Int) (i k : Nat) (d : Int) :
    (bump l i d).take k = if i < k then bump (l.take k) i d else l.take k := by
  unfold bump
  split
  · rename_i h
    rw [List.take_modify]
  · rename_i h
    rw [List.take_modify]
    apply List.modify_eq_self
    simp; omega

theorem take_sum_bump (l : List Int) (i k : Nat) (d : Int) (hi : i < l.length) :
    ((bump l i d).take k).sum = (l.take k).sum + if i < k then d else 0 := by
  rw [take_bump]
  split
  · rename_i h
    rw [sum_bump _ _ _ (by simp; omega)]
  · simp

/-- The rows present after `k` passes. -/
def Level (s : List Int) (k : Nat) (t : List Int) : Prop :=
  t.length = s.length ∧ el t 0 = el s 0 ∧
  (∀ i, i < s.length → -el s i ≤ el t i ∧ el t i ≤ el s i ∧ (el s i - el t i) % 2 = 0) ∧
  (∀ i, i < s.length → 0 ≤ (t.take (i + 1)).sum) ∧ t.sum = s.sum - 2 * k

theorem nodup_map_fst {t : List (List Int)} (h : t.Nodup) (q : List Int × List Int → Bool) :
    (((t.map fun row => (row, cumsum row)).filter q).map (·.1)).Nodup := by
  have h1 : (t.map fun row => (row, cumsum row)).Pairwise (fun a b => a.1 ≠ b.1) := by
    rw [List.pairwise_map]; exact h
  rw [List.nodup_iff_pairwise_ne, List.pairwise_map]
  exact List.Pairwise.filter q h1

theorem smultTable_level (smults : List Int) (hs : ∀ i, i < smults.length → 1 ≤ el smults i) (h0 : smults ≠ [])
    (lsf : Int) (N : Nat) (hN : (smults.map (· - 1)).sum - 2 * N = lsf - 1) (k : Nat) (hk : k ≤ N) :
    ∃ T, smultTableLoop smults lsf k [(smults.map (· - 1), cumsum (smults.map (· - 1)))] = some T ∧
      (T.map (·.1)).Nodup ∧ (∀ rg ∈ T, rg.2 = cumsum rg.1) ∧
      ∀ t, t ∈ T.map (·.1) ↔ Level (smults.map (· - 1)) k t := by
  set s := smults.map (· - 1) with hsdef
  have hlen : s.length = smults.length := by simp [hsdef]
  have hpos : 0 < s.length := by rw [hlen]; exact List.length_pos_iff.mpr h0
  have hel : ∀ i, i < smults.length → el s i = el smults i - 1 := fun i hi => el_map_sub smults i hi
  have hloop : ∀ k t0, smultTableLoop smults lsf (k + 1) t0 =
      (smultTableLoop smults lsf k t0).bind (smultTableStep smults lsf) := by
    intro k
    induction k with
    | zero => intro t0; simp [smultTableLoop]
    | succ k ih =>
      intro t0
      rw [smultTableLoop]
      conv => rhs; rw [smultTableLoop]
      cases smultTableStep smults lsf t0 with
      | none => rfl
      | some t1 => simp only [Option.bind_some]; exact ih t1
  induction k with
  | zero =>
    refine ⟨_, rfl, by simp, by simp, ?_⟩
    intro t
    simp only [List.map_cons, List.map_nil, List.mem_singleton]
    constructor
    · rintro rfl
      refine ⟨rfl, rfl, fun i hi => ?_, fun i hi => ?_, by simp⟩
      · have := hs i (by omega)
        have := hel i (by omega)
        omega
      · have : (List.replicate ((s.take (i + 1)).length) (0 : Int)).sum ≤ (s.take (i + 1)).sum := by
          apply sum_le_of_el
          · simp
          · intro j hj
            simp only [List.length_replicate, List.length_take] at hj
            have e1 : el (s.take (i + 1)) j = el s j := by
              simp [el, List.getD_eq_getElem?_getD, List.getElem?_take, show j < i + 1 by omega]
            have e2 : el (List.replicate ((s.take (i + 1)).length) (0 : Int)) j = 0 := by
              simp [el, List.getD_eq_getElem?_getD, List.getElem?_replicate]
              split <;> rfl
            rw [e1, e2, hel j (by omega)]
            have := hs j (by omega)
            omega
        simpa using this
    · rintro ⟨h1, -, h2, -, h3⟩
      apply ext_el h1
      intro i hi
      by_contra hne'
      have hlt : el t i < el s i := by have := h2 i (by omega); omega
      have h4 := sum_le_of_el (bump t i 1) s (by rw [bump_length, h1]) (fun j hj => by
        rw [bump_length] at hj
        rw [el_bump t i j 1 hi]
        have := h2 j (by omega)
        split
        · rename_i hji; subst hji; omega
        · omega)
      rw [sum_bump t i 1 hi] at h4
      simp at h3
      omega
  | succ k ih =>
    obtain ⟨T, hT, -, -, hmem⟩ := ih (by omega)
    rw [hloop, hT]
    simp only [Option.bind_some]
    unfold smultTableStep
    simp only []
    set U := (((npUnique ((T.map (·.1)).flatMap fun row =>
      ((List.range smults.length).drop 1).map fun i => bump row i (-2))).map fun row => (row, cumsum row)).filter
      fun rg => (List.range smults.length).all (fun i => decide (el rg.2 i ≥ 0)) &&
        (List.range smults.length).all (fun i => decide (el rg.1 i > -el smults i))) with hU
    have hdrop : ∀ i, i ∈ (List.range smults.length).drop 1 ↔ 1 ≤ i ∧ i < smults.length := by
      intro i
      rw [List.range_eq_range', List.drop_range', List.mem_range'_1]
      omega
    have hmem' : ∀ t, t ∈ U.map (·.1) ↔ Level s (k + 1) t := by
      intro t
      rw [hU]
      simp only [List.mem_map, List.mem_filter, mem_npUnique, List.mem_flatMap, List.mem_range, List.all_eq_true,
        decide_eq_true_eq, Bool.and_eq_true, hdrop]
      constructor
      · rintro ⟨⟨row, g⟩, ⟨⟨row', ⟨r, ⟨rg, hrg, rfl⟩, i, hi, rfl⟩, hrow⟩, hv⟩, rfl⟩
        simp only [Prod.mk.injEq] at hrow
        obtain ⟨rfl, rfl⟩ := hrow
        obtain ⟨r1, r2, r3, r4, r5⟩ := (hmem rg.1).mp (List.mem_map_of_mem hrg)
        have hi' : i < rg.1.length := by omega
        refine ⟨by rw [bump_length, r1], ?_, ?_, ?_, ?_⟩
        · rw [el_bump _ _ _ _ hi', if_neg (by omega), add_zero, r2]
        · intro j hj
          have h1 := hv.2 j (by omega)
          have h2 := r3 j hj
          have h3 := hel j (by omega)
          simp only [] at h1
          rw [el_bump _ i j _ hi'] at h1 ⊢
          by_cases hji : j = i
          · rw [if_pos hji] at h1 ⊢; omega
          · rw [if_neg hji] at h1 ⊢; omega
        · intro j hj
          have h1 := hv.1 j (by omega)
          simp only [] at h1
          rw [cumsum_el _ _ (by rw [bump_length]; omega)] at h1
          exact h1
        · rw [sum_bump _ _ _ hi', r5]
          push_cast
          ring
      · rintro ⟨h1, h0', h2, h2', h3⟩
        obtain ⟨i, hi, hlt⟩ := exists_el_lt t s h1 (by rw [h3]; push_cast; omega)
        have hi1 : 1 ≤ i := by
          by_contra hc
          have : i = 0 := by omega
          subst this
          omega
        have hlev : Level s k (bump t i 2) := by
          refine ⟨by rw [bump_length, h1], ?_, ?_, ?_, ?_⟩
          · rw [el_bump _ _ _ _ hi, if_neg (by omega), add_zero, h0']
          · intro j hj
            rw [el_bump t i j 2 hi]
            have := h2 j hj
            split
            · rename_i hji; subst hji; omega
            · omega
          · intro j hj
            rw [take_sum_bump _ _ _ _ hi]
            have := h2' j hj
            split <;> omega
          · rw [sum_bump _ _ _ hi, h3]
            push_cast
            ring
        obtain ⟨rg, hrg, hrg'⟩ := List.mem_map.mp ((hmem _).mpr hlev)
        refine ⟨(t, cumsum t), ⟨⟨t, ⟨bump t i 2, ⟨rg, hrg, hrg'⟩, i, ⟨hi1, by omega⟩, bump_bump t i 2 hi⟩, rfl⟩, ?_, ?_⟩, rfl⟩
        · intro j hj
          simp only []
          rw [cumsum_el _ _ (by omega)]
          exact h2' j (by omega)
        · intro j hj
          have := h2 j (by omega)
          have := hel j hj
          simp only []
          omega
    have hgen : ∀ rg ∈ U, rg.2 = cumsum rg.1 := by
      intro rg hrg
      rw [hU, List.mem_filter, List.mem_map] at hrg
      obtain ⟨⟨row, -, rfl⟩, -⟩ := hrg
      rfl
    refine ⟨U, ?_, ?_, hgen, hmem'⟩
    · rw [if_pos]
      rw [List.all_eq_true]
      intro rg hrg
      obtain ⟨l1, -, -, -, l5⟩ := (hmem' rg.1).mp (List.mem_map_of_mem hrg)
      rw [decide_eq_true_eq, hgen rg hrg, cumsum_el _ _ (by omega), List.take_of_length_le (by omega), l5, ← hN]
      push_cast
      omega
    · rw [hU]
      exact nodup_map_fst (nodup_npUnique _) _

theorem take_succ_sum (t : List Int) (i : Nat) : (t.take (i + 1)).sum = (t.take i).sum + el t i := by
  induction t generalizing i with
  | nil => simp [el]
  | cons x xs ih =>
    cases i with
    | zero => simp [el]
    | succ i =>
      rw [List.take_succ_cons, List.take_succ_cons, List.sum_cons, List.sum_cons, ih i]
      simp [el]
      ring

/-- `Coupled` by indices. -/
def CoupledIx (ss ts : List Int) (S : Int) : Prop :=
  ss ≠ [] ∧ ts.length = ss.length ∧ el ts 0 = el ss 0 ∧
  (∀ i, i + 1 < ss.length → Triangle ((ts.take (i + 1)).sum) (el ss (i + 1)) ((ts.take (i + 2)).sum)) ∧ ts.sum = S

theorem el_append_left (a b : List Int) (i : Nat) (h : i < a.length) : el (a ++ b) i = el a i := by
  simp [el, List.getD_eq_getElem?_getD, List.getElem?_append_left h]

theorem el_append_last (a : List Int) (x : Int) : el (a ++ [x]) a.length = x := by
  simp [el, List.getD_eq_getElem?_getD]

theorem coupled_iff (ss ts : List Int) (S : Int) : Coupled ss ts S ↔ CoupledIx ss ts S := by
  constructor
  · intro h
    induction h with
    | first s => exact ⟨by simp, rfl, rfl, fun i hi => by simp at hi, by simp⟩
    | @next ss ts S s t _ tri ih =>
      obtain ⟨h1, h2, h3, h4, h5⟩ := ih
      have hpos : 0 < ss.length := List.length_pos_iff.mpr h1
      refine ⟨by simp, by simp [h2], ?_, ?_, by simp [h5]⟩
      · rw [el_append_left _ _ _ (by omega), el_append_left _ _ _ hpos, h3]
      · intro i hi
        simp only [List.length_append, List.length_cons, List.length_nil] at hi
        by_cases hlt : i + 1 < ss.length
        · rw [List.take_append_of_le_length (by omega), List.take_append_of_le_length (by omega),
            el_append_left _ _ _ hlt]
          exact h4 i hlt
        · have he : i + 1 = ss.length := by omega
          rw [he, List.take_append_of_le_length (by omega), List.take_of_length_le (by omega : ts.length ≤ ss.length),
            el_append_last, List.take_of_length_le (by simp; omega), h5]
          simpa [h5] using tri
  · intro h
    induction ss using List.reverseRecOn generalizing ts S with
    | nil => exact absurd rfl h.1
    | append_singleton ss s ih =>
      obtain ⟨-, h2, h3, h4, h5⟩ := h
      simp only [List.length_append, List.length_cons, List.length_nil] at h2
      rcases List.eq_nil_or_concat ts with rfl | ⟨ts, t, rfl⟩
      · simp at h2
      · simp only [List.concat_eq_append, List.length_append, List.length_cons, List.length_nil] at h2
        rw [List.concat_eq_append] at *
        have hl : ts.length = ss.length := by omega
        by_cases hss : ss = []
        · subst hss
          have : ts = [] := by simpa using hl
          subst this
          simp [el] at h3 h5
          subst h3
          subst h5
          exact Coupled.first t
        · have hpos : 0 < ss.length := List.length_pos_iff.mpr hss
          have hc : Coupled ss ts ts.sum := by
            apply ih
            refine ⟨hss, hl, ?_, ?_, rfl⟩
            · rw [el_append_left _ _ _ (by omega), el_append_left _ _ _ hpos] at h3
              exact h3
            · intro i hi
              have := h4 i (by simp; omega)
              rwa [List.take_append_of_le_length (by omega), List.take_append_of_le_length (by omega),
                el_append_left _ _ _ hi] at this
          have := h4 (ss.length - 1) (by simp; omega)
          rw [show ss.length - 1 + 1 = ss.length by omega, show ss.length - 1 + 2 = ss.length + 1 by omega,
            el_append_last, List.take_append_of_le_length (by omega),
            List.take_of_length_le (by omega : ts.length ≤ ss.length), List.take_of_length_le (by simp; omega)] at this
          simp only [List.sum_append, List.sum_cons, List.sum_nil, add_zero] at this h5
          subst h5
          exact Coupled.next s t hc this

theorem coupled_range {ss ts : List Int} {S : Int} (h : Coupled ss ts S) (hn : ∀ x ∈ ss, 0 ≤ x) :
    0 ≤ S ∧ S ≤ ss.sum ∧ (ss.sum - S) % 2 = 0 ∧ ∀ x ∈ ss, 2 * x - ss.sum ≤ S := by
  induction h with
  | first s =>
    have := hn s (by simp)
    refine ⟨this, by simp, by simp, ?_⟩
    intro x hx
    simp at hx
    subst hx
    simp
    omega
  | @next ss ts S s t _ tri ih =>
    obtain ⟨h1, h2, h3, h4⟩ := ih (fun x hx => hn x (by simp [hx]))
    have hs := hn s (by simp)
    obtain ⟨t1, t2, t3⟩ := tri
    rw [abs_le] at t1
    rw [List.sum_append, List.sum_singleton]
    refine ⟨by omega, by omega, by omega, ?_⟩
    intro x hx
    rw [List.mem_append, List.mem_singleton] at hx
    rcases hx with hx | rfl
    · have := h4 x hx
      omega
    · omega

theorem exists_coupled (ss : List Int) (h0 : ss ≠ []) (hn : ∀ x ∈ ss, 0 ≤ x) (S : Int) (hS : 0 ≤ S)
    (hle : S ≤ ss.sum) (hpar : (ss.sum - S) % 2 = 0) (hmin : ∀ x ∈ ss, 2 * x - ss.sum ≤ S) :
    ∃ ts, Coupled ss ts S := by
  induction ss using List.reverseRecOn generalizing S with
  | nil => exact absurd rfl h0
  | append_singleton ss s ih =>
    rw [List.sum_append, List.sum_singleton] at *
    have hs := hn s (by simp)
    by_cases hss : ss = []
    · subst hss
      have := hmin s (by simp)
      simp at this hle
      have : S = s := by omega
      subst this
      exact ⟨_, Coupled.first S⟩
    · have hmins := hmin s (by simp)
      have hsum : 0 ≤ ss.sum := by
        have := sum_le_of_el (List.replicate ss.length 0) ss (by simp) (fun i hi => by
          simp at hi
          have e : el (List.replicate ss.length (0 : Int)) i = 0 := by
            simp [el, List.getD_eq_getElem?_getD, List.getElem?_replicate, hi]
          rw [e]
          have : el ss i = ss[i] := by simp [el, hi]
          rw [this]
          exact hn _ (by simp))
        simpa using this
      obtain ⟨S', hS'⟩ : ∃ S', S' = min ss.sum (S + s) := ⟨_, rfl⟩
      obtain ⟨ts, hts⟩ := ih hss (fun x hx => hn x (by simp [hx])) S' (by omega) (by omega) (by omega) (by
        intro x hx
        have := hmin x (by simp [hx])
        have := sum_le_of_el (List.replicate ss.length 0) ss (by simp) (fun i hi => by
          simp at hi
          have e : el (List.replicate ss.length (0 : Int)) i = 0 := by
            simp [el, List.getD_eq_getElem?_getD, List.getElem?_replicate, hi]
          rw [e]
          have : el ss i = ss[i] := by simp [el, hi]
          rw [this]
          exact hn _ (by simp))
        have hx' : x ≤ ss.sum := by
          exact List.single_le_sum (fun y hy => hn y (by simp [hy])) x hx
        omega)
      refine ⟨ts ++ [S - S'], ?_⟩
      have := Coupled.next s (S - S') hts (by
        rw [show S' + (S - S') = S by omega]
        refine ⟨?_, by omega, by omega⟩
        rw [abs_le]
        omega)
      rwa [show S' + (S - S') = S by omega] at this

theorem foldl_max (l : List Int) (a : Int) : (a ≤ l.foldl max a ∧ ∀ x ∈ l, x ≤ l.foldl max a) ∧
    (l.foldl max a = a ∨ l.foldl max a ∈ l) := by
  induction l generalizing a with
  | nil => simp
  | cons y ys ih =>
    rw [List.foldl_cons]
    obtain ⟨⟨h1, h2⟩, h3⟩ := ih (max a y)
    refine ⟨⟨by omega, ?_⟩, ?_⟩
    · intro x hx
      rcases List.mem_cons.mp hx with rfl | hx
      · omega
      · exact h2 x hx
    · rcases h3 with h3 | h3
      · rw [h3]
        rcases max_choice a y with h | h
        · left; exact h
        · right; rw [h]; exact List.mem_cons_self ..
      · right; exact List.mem_cons_of_mem _ h3

theorem amax_spec (l : List Int) (h : l ≠ []) : amax l ∈ l ∧ ∀ x ∈ l, x ≤ amax l := by
  unfold amax
  cases l with
  | nil => exact absurd rfl h
  | cons y ys =>
    obtain ⟨⟨h1, h2⟩, h3⟩ := foldl_max (y :: ys) y
    refine ⟨?_, h2⟩
    rcases h3 with h3 | h3
    · simp only [List.headD_cons]; rw [h3]; exact List.mem_cons_self ..
    · exact h3

theorem mem_tail (smults : List Int) (T : List (List Int × List Int)) (rg : List Int × List Int) :
    rg ∈ smultTableTail smults T ↔ rg ∈ T ∧
      ∀ i, i + 1 < smults.length → el smults (i + 1) - 1 - el rg.2 i ≤ el rg.2 (i + 1) := by
  unfold smultTableTail
  have : ∀ (l : List Nat) (T : List (List Int × List Int)),
      rg ∈ l.foldl (fun t i => t.filter fun rg => decide (el rg.2 (i + 1) ≥ el smults (i + 1) - 1 - el rg.2 i)) T ↔
        rg ∈ T ∧ ∀ i ∈ l, el smults (i + 1) - 1 - el rg.2 i ≤ el rg.2 (i + 1) := by
    intro l
    induction l with
    | nil => intro T; simp
    | cons a l ih =>
      intro T
      rw [List.foldl_cons, ih, List.mem_filter, decide_eq_true_eq]
      constructor
      · rintro ⟨⟨h1, h2⟩, h3⟩
        refine ⟨h1, fun i hi => ?_⟩
        rcases List.mem_cons.mp hi with rfl | hi
        · exact h2
        · exact h3 i hi
      · rintro ⟨h1, h2⟩
        exact ⟨⟨h1, h2 a (List.mem_cons_self ..)⟩, fun i hi => h2 i (List.mem_cons_of_mem _ hi)⟩
  rw [this]
  simp only [List.mem_range]
  constructor <;> rintro ⟨h1, h2⟩ <;> exact ⟨h1, fun i hi => h2 i (by omega)⟩

theorem tail_sublist (smults : List Int) (T : List (List Int × List Int)) : (smultTableTail smults T).Sublist T := by
  unfold smultTableTail
  generalize List.range (smults.length - 1) = l
  induction l generalizing T with
  | nil => exact List.Sublist.refl _
  | cons a l ih =>
    rw [List.foldl_cons]
    exact (ih _).trans List.filter_sublist

end Verif.Spaces
