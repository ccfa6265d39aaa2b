import Verif.Model.SiteDm
import Verif.Spec.SiteDm
import Verif.Lemmas.Umat
import Verif.Lemmas.Np
import Mathlib.Tactic.Ring
/-!
# Axes of a vector over product states: the sites of interest behind the others
-/
namespace Verif.SiteDm
open Verif.Spec Verif.Np Verif.Radix Verif.Umat

theorem mem_configs (l x : List Nat) : x ∈ configs l ↔ InShape x l := by
  induction l generalizing x with
  | nil => simp [configs, InShape]
  | cons b bs ih =>
    cases x with
    | nil => simp [configs, InShape]
    | cons c cs =>
      simp only [configs, List.mem_flatMap, List.mem_range, List.mem_map, InShape, List.forall₂_cons]
      constructor
      · rintro ⟨a, ha, y, hy, e⟩
        injection e with e1 e2
        subst e1 e2
        exact ⟨ha, (ih _).1 hy⟩
      · rintro ⟨h1, h2⟩
        exact ⟨c, h1, cs, (ih _).2 h2, rfl⟩

/-- The sites that are not of interest, in increasing order. -/
def oth (n : Nat) (S : List Nat) : List Nat := (List.range n).filter fun f => f ∉ S

theorem mem_oth (n : Nat) (S : List Nat) (f : Nat) : f ∈ oth n S ↔ f < n ∧ f ∉ S := by simp [oth]

theorem oth_nodup (n : Nat) (S : List Nat) : (oth n S).Nodup := List.nodup_range.filter _

/-- The configuration with `e` on the other sites and `v` on the sites of interest. -/
def merge (n : Nat) (S e v : List Nat) : List Nat :=
  (List.range n).map fun f => (e ++ v).getD ((oth n S ++ S).idxOf f) 0

theorem merge_length (n : Nat) (S e v : List Nat) : (merge n S e v).length = n := by simp [merge]

theorem merge_getD (n : Nat) (S e v : List Nat) (f : Nat) (h : f < n) :
    (merge n S e v).getD f 0 = (e ++ v).getD ((oth n S ++ S).idxOf f) 0 := by
  simp [merge, List.getD_eq_getElem?_getD, h]

theorem merge_site (n : Nat) (S e v : List Nat) (k : Nat) (hk : k < S.length) (hS : S.Nodup) (hn : ∀ f ∈ S, f < n)
    (he : e.length = (oth n S).length) :
    (merge n S e v).getD (S.getD k 0) 0 = v.getD k 0 := by
  have hm : S.getD k 0 ∈ S := by
    rw [List.getD_eq_getElem _ _ hk]; exact List.getElem_mem hk
  rw [merge_getD _ _ _ _ _ (hn _ hm), List.idxOf_append_of_notMem (by rw [mem_oth]; tauto), ← he]
  rw [List.getD_append_right _ _ _ _ (by omega), Nat.add_sub_cancel_left]
  congr 1
  rw [List.getD_eq_getElem _ _ hk]
  exact hS.idxOf_getElem k hk

theorem merge_oth (n : Nat) (S e v : List Nat) (k : Nat) (hk : k < (oth n S).length)
    (he : e.length = (oth n S).length) :
    (merge n S e v).getD ((oth n S).getD k 0) 0 = e.getD k 0 := by
  have hm : (oth n S).getD k 0 ∈ oth n S := by
    rw [List.getD_eq_getElem _ _ hk]; exact List.getElem_mem hk
  have hi : (oth n S).idxOf ((oth n S).getD k 0) = k := by
    rw [List.getD_eq_getElem _ _ hk]; exact (oth_nodup n S).idxOf_getElem k hk
  rw [merge_getD _ _ _ _ _ ((mem_oth n S _).1 hm).1, List.idxOf_append_of_mem hm, hi,
    List.getD_append _ _ _ _ (by omega)]

/-- Extents of some axes. -/
def dims (l : List Nat) (A : List Nat) : List Nat := A.map fun f => l.getD f 0

theorem inShape_getD {x l : List Nat} (h : InShape x l) (f : Nat) (hf : f < l.length) : x.getD f 0 < l.getD f 0 :=
  ((inShape_iff x l).1 h).2 f hf

theorem inShape_dims {x l : List Nat} (h : InShape x l) (A : List Nat) (hA : ∀ f ∈ A, f < l.length) :
    InShape (A.map fun f => x.getD f 0) (dims l A) := by
  induction A with
  | nil => exact List.Forall₂.nil
  | cons f A ih =>
    exact List.Forall₂.cons (inShape_getD h f (hA f (by simp))) (ih fun g hg => hA g (by simp [hg]))

theorem dims_getD (l A : List Nat) (k : Nat) (hk : k < A.length) : (dims l A).getD k 0 = l.getD (A.getD k 0) 0 := by
  simp [dims, List.getD_eq_getElem?_getD, hk]

theorem exists_idx {A : List Nat} {f : Nat} (h : f ∈ A) : ∃ k, k < A.length ∧ A.getD k 0 = f := by
  obtain ⟨k, hk, e⟩ := List.getElem_of_mem h
  exact ⟨k, hk, by rw [List.getD_eq_getElem _ _ hk, e]⟩

theorem merge_inShape {l S e v : List Nat} (hS : S.Nodup) (hn : ∀ f ∈ S, f < l.length)
    (he : InShape e (dims l (oth l.length S))) (hv : InShape v (dims l S)) : InShape (merge l.length S e v) l := by
  have hel : e.length = (oth l.length S).length := by simpa [dims] using inShape_length he
  rw [inShape_iff]
  refine ⟨merge_length _ _ _ _, fun f hf => ?_⟩
  by_cases h : f ∈ S
  · obtain ⟨k, hk, rfl⟩ := exists_idx h
    rw [merge_site _ _ _ _ k hk hS hn hel, ← dims_getD l S k hk]
    exact inShape_getD hv k (by simpa [dims] using hk)
  · obtain ⟨k, hk, rfl⟩ := exists_idx ((mem_oth _ _ _).2 ⟨hf, h⟩)
    rw [merge_oth _ _ _ _ k hk hel, ← dims_getD l _ k hk]
    exact inShape_getD he k (by simpa [dims] using hk)

theorem ext_getD' {a b : List Nat} (h : a.length = b.length) (he : ∀ f, f < a.length → a.getD f 0 = b.getD f 0) : a = b := by
  refine List.ext_getElem h fun f h1 h2 => ?_
  have := he f h1
  rwa [List.getD_eq_getElem _ _ h1, List.getD_eq_getElem _ _ h2] at this

theorem merge_self {l S x : List Nat} (hS : S.Nodup) (hn : ∀ f ∈ S, f < l.length) (hx : x.length = l.length) :
    merge l.length S ((oth l.length S).map fun f => x.getD f 0) (S.map fun f => x.getD f 0) = x := by
  refine ext_getD' (by rw [merge_length, hx]) fun f hf => ?_
  rw [merge_length] at hf
  by_cases h : f ∈ S
  · obtain ⟨k, hk, rfl⟩ := exists_idx h
    rw [merge_site _ _ _ _ k hk hS hn (by simp)]
    simp [List.getD_eq_getElem?_getD, hk]
  · obtain ⟨k, hk, rfl⟩ := exists_idx ((mem_oth _ _ _).2 ⟨hf, h⟩)
    rw [merge_oth _ _ _ _ k hk (by simp)]
    simp [List.getD_eq_getElem?_getD, hk]

theorem merge_map_oth {n : Nat} {S e v : List Nat} (he : e.length = (oth n S).length) :
    ((oth n S).map fun f => (merge n S e v).getD f 0) = e := by
  refine ext_getD' (by simp [he]) fun k hk => ?_
  have hk' : k < (oth n S).length := by simpa using hk
  rw [← merge_oth n S e v k hk' he]
  simp [List.getD_eq_getElem?_getD, hk']

theorem merge_set {n : Nat} {S e v : List Nat} (k w : Nat) (hk : k < S.length) (hS : S.Nodup) (hn : ∀ f ∈ S, f < n)
    (he : e.length = (oth n S).length) (hv : v.length = S.length) :
    (merge n S e v).set (S.getD k 0) w = merge n S e (v.set k w) := by
  refine ext_getD' (by simp [merge_length]) fun f hf => ?_
  have hf' : f < n := by simpa [merge_length] using hf
  by_cases h : f ∈ S
  · obtain ⟨j, hj, rfl⟩ := exists_idx h
    rw [merge_site _ _ _ _ j hj hS hn he]
    by_cases hjk : j = k
    · subst hjk
      simp only [List.getD_eq_getElem?_getD] at hf' ⊢
      rw [List.getElem?_set_self (by rw [merge_length]; exact hf'), List.getElem?_set_self (by omega)]
    · have hne : S.getD k 0 ≠ S.getD j 0 := by
        rw [List.getD_eq_getElem _ _ hk, List.getD_eq_getElem _ _ hj]
        exact fun e => hjk ((hS.getElem_inj_iff).1 e).symm
      have hms := merge_site n S e v j hj hS hn he
      simp only [List.getD_eq_getElem?_getD] at hne hms ⊢
      rw [List.getElem?_set_ne hne, List.getElem?_set_ne (Ne.symm hjk), hms]
  · have hne : S.getD k 0 ≠ f := by
      rintro rfl
      exact h (by rw [List.getD_eq_getElem _ _ hk]; exact List.getElem_mem hk)
    obtain ⟨j, hj, rfl⟩ := exists_idx ((mem_oth _ _ _).2 ⟨hf', h⟩)
    have h1 := merge_oth n S e v j hj he
    rw [merge_oth n S e (v.set k w) j hj he, ← h1]
    simp only [List.getD_eq_getElem?_getD] at hne ⊢
    rw [List.getElem?_set_ne hne]

variable {K : Type}

/-- The sum over the flattened other sites is the sum over the configurations with the given states on the sites of
interest. -/
theorem sum_merge [AddCommMonoid K] (l S v : List Nat) (hS : S.Nodup) (hn : ∀ f ∈ S, f < l.length)
    (hv : InShape v (dims l S)) (G : List Nat → K) :
    ∑ a ∈ Finset.range (dims l (oth l.length S)).prod, G (merge l.length S (unravelC (dims l (oth l.length S)) a) v) =
      ∑ x ∈ (configs l).toFinset with (S.map fun f => x.getD f 0) = v, G x := by
  have hvl : v.length = S.length := by simpa [dims] using inShape_length hv
  refine Finset.sum_bij' (fun a _ => merge l.length S (unravelC (dims l (oth l.length S)) a) v)
    (fun x _ => posC (dims l (oth l.length S)) ((oth l.length S).map fun f => x.getD f 0)) ?_ ?_ ?_ ?_ ?_
  · intro a ha
    have ha' := posC_unravelC _ a (Finset.mem_range.1 ha)
    have hel : (unravelC (dims l (oth l.length S)) a).length = (oth l.length S).length := by
      simpa [dims] using inShape_length ha'.1
    simp only [Finset.mem_filter, List.mem_toFinset, mem_configs]
    refine ⟨merge_inShape hS hn ha'.1 hv, ext_getD' (by simp [hvl]) fun k hk => ?_⟩
    have hk' : k < S.length := by simpa using hk
    rw [← merge_site l.length S _ v k hk' hS hn hel]
    simp [List.getD_eq_getElem?_getD, hk']
  · intro x hx
    simp only [Finset.mem_filter, List.mem_toFinset, mem_configs] at hx
    exact Finset.mem_range.2 (posC_lt (inShape_dims hx.1 _ fun f hf => ((mem_oth _ _ _).1 hf).1))
  · intro a ha
    have ha' := posC_unravelC _ a (Finset.mem_range.1 ha)
    have hel : (unravelC (dims l (oth l.length S)) a).length = (oth l.length S).length := by
      simpa [dims] using inShape_length ha'.1
    rw [merge_map_oth hel, ha'.2]
  · intro x hx
    simp only [Finset.mem_filter, List.mem_toFinset, mem_configs] at hx
    rw [unravelC_posC (inShape_dims hx.1 _ fun f hf => ((mem_oth _ _ _).1 hf).1), ← hx.2]
    exact merge_self hS hn (inShape_length hx.1)
  · intro a _; rfl

theorem dims_prod (l S : List Nat) (hS : S.Nodup) (hn : ∀ f ∈ S, f < l.length) :
    (dims l (oth l.length S)).prod * (dims l S).prod = l.prod := by
  have hp : (oth l.length S ++ S).Perm (List.range l.length) := by
    refine (List.perm_ext_iff_of_nodup ?_ List.nodup_range).2 fun f => ?_
    · rw [List.nodup_append]
      exact ⟨oth_nodup _ _, hS, fun a ha b hb e => by subst e; exact ((mem_oth _ _ _).1 ha).2 hb⟩
    · simp only [List.mem_append, mem_oth, List.mem_range]
      constructor
      · rintro (h | h)
        · exact h.1
        · exact hn f h
      · intro h
        by_cases hs : f ∈ S
        · exact Or.inr hs
        · exact Or.inl ⟨h, hs⟩
  rw [← List.prod_append, dims, dims, ← List.map_append, (hp.map _).prod_eq]
  congr 1
  refine List.ext_getElem (by simp) fun i h1 h2 => ?_
  simp [List.getD_eq_getElem?_getD, h2]

/-- A vector over product states, with the sites `S` moved behind the others and the others flattened. -/
theorem tail_get (s : Nd K) (l S : List Nat) (nr : Nat) (hs : s.shape = [l.prod, nr]) (hS : S.Nodup)
    (hn : ∀ f ∈ S, f < l.length) (hpos : 0 < l.prod) (hnr : 0 < nr) :
    ∃ s1 s2, s.reshapeF (l ++ [nr]) = some s1 ∧ s1.shape = l ++ [nr] ∧
      reshapeInfer (s1.transpose (oth l.length S ++ S ++ [l.length])) (dims l S ++ [nr]) = some s2 ∧
      s2.shape = (dims l (oth l.length S)).prod :: (dims l S ++ [nr]) ∧
      ∀ a v i, a < (dims l (oth l.length S)).prod → InShape v (dims l S) → i < nr →
        s2.get (a :: (v ++ [i])) =
          s.get [posF l (merge l.length S (unravelC (dims l (oth l.length S)) a) v), i] := by
  have hprod := dims_prod l S hS hn
  obtain ⟨s1, h1⟩ : ∃ s1, s.reshapeF (l ++ [nr]) = some s1 := by
    simp only [Nd.reshapeF, hs, List.prod_append, List.prod_cons, List.prod_nil]
    exact ⟨_, if_pos trivial⟩
  have hs1 : s1 = ⟨l ++ [nr], fun t => s.get (unravelF s.shape (posF (l ++ [nr]) t))⟩ := by
    simp only [Nd.reshapeF, hs, List.prod_append, List.prod_cons, List.prod_nil, if_true, Option.some.injEq] at h1
    rw [← h1, hs]
  have hsh : (s1.transpose (oth l.length S ++ S ++ [l.length])).shape = dims l (oth l.length S) ++ (dims l S ++ [nr]) := by
    rw [hs1]
    simp only [Nd.transpose, List.map_append, List.append_assoc, dims]
    have aux : ∀ A : List Nat, (∀ f ∈ A, f < l.length) →
        A.map (fun f => (l ++ [nr]).getD f 0) = A.map fun f => l.getD f 0 := by
      intro A hA
      refine List.map_congr_left fun f hf => ?_
      exact List.getD_append _ _ _ _ (hA f hf)
    rw [aux _ (fun f hf => ((mem_oth _ _ _).1 hf).1), aux _ hn]
    congr 2
    simp [List.getD_eq_getElem?_getD]
  have hsize : (s1.transpose (oth l.length S ++ S ++ [l.length])).size =
      (dims l (oth l.length S)).prod * (dims l S ++ [nr]).prod := by
    rw [Nd.size, hsh, List.prod_append]
  have hdp : 0 < (dims l S ++ [nr]).prod := by
    rw [List.prod_append]
    have : 0 < (dims l S).prod := Nat.pos_of_ne_zero fun h => by rw [h] at hprod; omega
    simpa using Nat.mul_pos this hnr
  have h2 : reshapeInfer (s1.transpose (oth l.length S ++ S ++ [l.length])) (dims l S ++ [nr]) =
      some ⟨(dims l (oth l.length S)).prod :: (dims l S ++ [nr]), fun t =>
        (s1.transpose (oth l.length S ++ S ++ [l.length])).get
          (unravelC (dims l (oth l.length S) ++ (dims l S ++ [nr]))
            (posC ((dims l (oth l.length S)).prod :: (dims l S ++ [nr])) t))⟩ := by
    unfold reshapeInfer
    rw [if_neg (by rw [hsize, Nat.mul_mod_left]; omega), hsize, Nat.mul_div_cancel _ hdp, Nd.reshape, hsh,
      if_pos (by rw [List.prod_cons, List.prod_append (l₁ := dims l (oth l.length S))])]
  refine ⟨s1, _, h1, by rw [hs1], h2, rfl, fun a v i ha hv hi => ?_⟩
  obtain ⟨he, hea⟩ := posC_unravelC (dims l (oth l.length S)) a ha
  have hel : (unravelC (dims l (oth l.length S)) a).length = (oth l.length S).length := by
    simpa [dims] using inShape_length he
  have hvl : v.length = S.length := by simpa [dims] using inShape_length hv
  generalize hE : unravelC (dims l (oth l.length S)) a = e at *
  have hin : InShape (e ++ (v ++ [i])) (dims l (oth l.length S) ++ (dims l S ++ [nr])) :=
    inShape_append he (inShape_append hv (List.Forall₂.cons hi List.Forall₂.nil))
  have hpos1 : posC ((dims l (oth l.length S)).prod :: (dims l S ++ [nr])) (a :: (v ++ [i])) =
      posC (dims l (oth l.length S) ++ (dims l S ++ [nr])) (e ++ (v ++ [i])) := by
    rw [Radix.posC_append _ _ _ _ (inShape_length he), hea]
    rfl
  simp only [hpos1, unravelC_posC hin]
  have hlist : (List.range (l ++ [nr]).length).map (fun f => (e ++ (v ++ [i])).getD
      ((oth l.length S ++ S ++ [l.length]).idxOf f) 0) = merge l.length S e v ++ [i] := by
    rw [List.length_append, List.length_singleton, List.range_succ, List.map_append, merge, ← List.append_assoc]
    congr 1
    · refine List.map_congr_left fun f hf => ?_
      have hf' := List.mem_range.1 hf
      have hm : f ∈ oth l.length S ++ S := by
        rw [List.mem_append, mem_oth]
        by_cases h : f ∈ S
        · exact Or.inr h
        · exact Or.inl ⟨hf', h⟩
      rw [List.idxOf_append_of_mem hm]
      refine List.getD_append _ _ _ _ ?_
      have := List.idxOf_lt_length_iff.2 hm
      simp only [List.length_append] at this ⊢
      omega
    · have hm : l.length ∉ oth l.length S ++ S := by
        rw [List.mem_append, mem_oth]
        rintro (h | h)
        · exact absurd h.1 (lt_irrefl _)
        · exact absurd (hn _ h) (lt_irrefl _)
      rw [List.map_singleton, List.idxOf_append_of_notMem hm]
      simp [List.getD_eq_getElem?_getD, hel, hvl]
  have hmer : InShape (merge l.length S e v) l := merge_inShape hS hn he hv
  subst hs1
  simp only [Nd.transpose]
  rw [hlist, Radix.posF_append _ _ _ _ (inShape_length hmer), hs]
  have : posF [nr] [i] = i := by simp [posF]
  rw [this]
  have hpl := posF_lt hmer
  have hnn : (posF l (merge l.length S e v) + l.prod * i) / l.prod = i := by
    rw [Nat.add_mul_div_left _ _ hpos, Nat.div_eq_of_lt hpl, Nat.zero_add]
  simp only [unravelF, Nat.add_mul_mod_self_left, Nat.mod_eq_of_lt hpl, hnn, Nat.mod_eq_of_lt hi]

end Verif.SiteDm
