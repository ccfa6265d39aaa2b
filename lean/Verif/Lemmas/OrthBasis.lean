import Verif.Model.OrthBasis
import Verif.Spec.OrthBasis
import Verif.Lemmas.Addr
import Mathlib.Tactic.Ring
/-! # Lemmas about the orthonormal-basis bookkeeping -/
namespace Verif.OrthBasis
open Verif.Addr Verif.Spec.OrthBasis

theorem offs0_eq (n : List Nat) : offs0 n = (List.range n.length).map (fun i => (n.take i).sum) := by
  apply List.ext_getElem
  · simp [offs0, npCumsum]
  · intro i h1 h2
    simp only [offs0, npCumsum, List.getElem_zipWith, List.getElem_map, List.getElem_range]
    simp [offs0, npCumsum] at h1
    rw [← List.take_concat_get' n i h1, List.sum_append]
    simp

theorem offs0_getD (n : List Nat) (i : Nat) (h : i < n.length) : (offs0 n).getD i 0 = (n.take i).sum := by
  rw [offs0_eq, List.getD_eq_getElem _ _ (by simpa using h)]; simp

theorem take_sum_mono (n : List Nat) {i j : Nat} (h : i ≤ j) : (n.take i).sum ≤ (n.take j).sum := by
  obtain ⟨k, rfl⟩ := Nat.exists_eq_add_of_le h
  rw [List.take_add, List.sum_append]; omega

theorem take_succ_sum (n : List Nat) {i : Nat} (h : i < n.length) :
    (n.take (i + 1)).sum = (n.take i).sum + n.getD i 0 := by
  rw [← List.take_concat_get' n i h, List.sum_append, List.getD_eq_getElem _ _ h]; simp

theorem searchsorted_map (g : Nat → Nat) (N x blk : Nat) (hb : blk < N) (hle : ∀ i ≤ blk, g i ≤ x)
    (hlt : ∀ i, blk < i → i < N → x < g i) : searchsortedRight ((List.range N).map g) x = blk + 1 := by
  unfold searchsortedRight
  obtain ⟨k, rfl⟩ := Nat.exists_eq_add_of_le (Nat.succ_le_of_lt hb)
  rw [List.range_add, List.map_append, List.filter_append, List.filter_eq_self.mpr, List.filter_eq_nil_iff.mpr]
  · simp
  · simp only [List.map_map, List.mem_map, List.mem_range, decide_eq_true_eq, not_le]
    rintro y ⟨i, hi, rfl⟩
    simp only [Function.comp]
    exact hlt _ (by omega) (by omega)
  · simp only [List.mem_map, List.mem_range, decide_eq_true_eq]
    rintro y ⟨i, hi, rfl⟩
    exact hle i (by omega)

theorem splitAddr_of {n : List Nat} {addr blk col : Nat} (h : InBlock n addr blk col) :
    splitAddr n addr = some (blk, col) := by
  obtain ⟨h1, h2, rfl⟩ := h
  have hs : searchsortedRight (offs0 n) ((n.take blk).sum + col) = blk + 1 := by
    rw [offs0_eq]
    apply searchsorted_map _ _ _ _ h1
    · intro i hi; have := take_sum_mono n hi; omega
    · intro i hi _
      have := take_sum_mono n (Nat.succ_le_of_lt hi)
      rw [Nat.succ_eq_add_one, take_succ_sum n h1] at this
      omega
  unfold splitAddr
  simp only [hs, Nat.add_sub_cancel, offs0_getD n blk h1]
  simp

theorem exists_inBlock {n : List Nat} {addr : Nat} (h : addr < n.sum) : ∃ blk col, InBlock n addr blk col := by
  induction n generalizing addr with
  | nil => simp at h
  | cons a n ih =>
    by_cases ha : addr < a
    · exact ⟨0, addr, by simp, by simpa using ha, by simp⟩
    · obtain ⟨blk, col, h1, h2, h3⟩ := ih (addr := addr - a) (by simp at h; omega)
      refine ⟨blk + 1, col, by simpa using h1, by simpa using h2, ?_⟩
      simp; omega

theorem inBlock_lt {n : List Nat} {addr blk col : Nat} (h : InBlock n addr blk col) : addr < n.sum := by
  obtain ⟨h1, h2, rfl⟩ := h
  have := take_sum_mono n (Nat.succ_le_of_lt h1)
  rw [Nat.succ_eq_add_one, take_succ_sum n h1] at this
  have h3 : (n.take n.length).sum = n.sum := by rw [List.take_length]
  omega

/-! ## manifolds -/

theorem nprodsOrth_take (shapes : List (Nat × Nat)) (i t a b : Nat) (h : shapes[i]? = some (a, b)) (ht : t < a) :
    ∃ blk, blk < (nprodsOrth shapes).length ∧ (nprodsOrth shapes).getD blk 0 = b ∧
      ((nprodsOrth shapes).take blk).sum = ((shapes.take i).map (fun s => s.1 * s.2)).sum + t * b ∧
      ∀ i0, (oblockManifoldAddr i0 shapes)[blk]? = some (i0 + i, t) := by
  induction shapes generalizing i with
  | nil => simp at h
  | cons s shapes ih =>
    cases i with
    | zero =>
      simp only [List.getElem?_cons_zero, Option.some.injEq] at h
      subst h
      refine ⟨t, ?_, ?_, ?_, ?_⟩
      · simp [nprodsOrth]; omega
      · rw [nprodsOrth, List.flatMap_cons, List.getD_append _ _ _ _ (by simpa using ht), List.getD_eq_getElem _ _ (by simpa using ht)]
        simp
      · simp only [nprodsOrth, List.flatMap_cons]
        rw [List.take_append_of_le_length (by simp; omega), List.take_replicate]
        simp [Nat.min_eq_left ht.le]
      · intro i0
        simp only [oblockManifoldAddr]
        rw [List.getElem?_append_left (by simpa using ht)]
        simp [ht]
    | succ i =>
      rw [List.getElem?_cons_succ] at h
      obtain ⟨blk, b1, b2, b3, b4⟩ := ih i h
      refine ⟨s.1 + blk, ?_, ?_, ?_, ?_⟩
      · simpa [nprodsOrth] using b1
      · rw [nprodsOrth, List.flatMap_cons, List.getD_append_right _ _ _ _ (by simp)]
        simpa [nprodsOrth] using b2
      · simp only [nprodsOrth, List.flatMap_cons] at b3 ⊢
        rw [List.take_append, List.sum_append, List.length_replicate, Nat.add_sub_cancel_left, b3,
          List.take_of_length_le (by simp)]
        simp; omega
      · intro i0
        simp only [oblockManifoldAddr]
        rw [List.getElem?_append_right (by simp)]
        simp only [List.length_map, List.length_range, Nat.add_sub_cancel_left]
        rw [b4]; simp; omega

theorem idx2addrs_of {shapes : List (Nat × Nat)} {addr i t p : Nat} (h : InManifold shapes addr i t p) :
    idx2addrsOrth shapes addr = some (i, t, p) := by
  obtain ⟨a, b, h1, h2, h3, rfl⟩ := h
  obtain ⟨blk, b1, b2, b3, b4⟩ := nprodsOrth_take shapes i t a b h1 h2
  have : InBlock (nprodsOrth shapes) (((shapes.take i).map (fun s => s.1 * s.2)).sum + (t * b + p)) blk p :=
    ⟨b1, by omega, by omega⟩
  unfold idx2addrsOrth
  rw [splitAddr_of this]
  simp [b4 0]

theorem exists_inManifold {shapes : List (Nat × Nat)} {addr : Nat}
    (h : addr < (shapes.map (fun s => s.1 * s.2)).sum) : ∃ i t p, InManifold shapes addr i t p := by
  obtain ⟨i, x, h1, h2, h3⟩ := exists_inBlock h
  rw [List.length_map] at h1
  rw [List.getD_eq_getElem _ _ (by simpa using h1), List.getElem_map] at h2
  have hb : 0 < (shapes[i]).2 := by
    rcases Nat.eq_zero_or_pos (shapes[i]).2 with hz | hz
    · rw [hz] at h2; simp at h2
    · exact hz
  refine ⟨i, x / (shapes[i]).2, x % (shapes[i]).2, (shapes[i]).1, (shapes[i]).2, ?_, ?_, ?_, ?_⟩
  · rw [List.getElem?_eq_getElem h1]
  · exact (Nat.div_lt_iff_lt_mul hb).mpr h2
  · exact Nat.mod_lt _ hb
  · rw [h3, ← List.map_take, Nat.div_add_mod']

theorem inManifold_lt {shapes : List (Nat × Nat)} {addr i t p : Nat} (h : InManifold shapes addr i t p) :
    addr < (shapes.map (fun s => s.1 * s.2)).sum := by
  obtain ⟨a, b, h1, h2, h3, rfl⟩ := h
  obtain ⟨hi, h1⟩ := List.getElem?_eq_some_iff.mp h1
  refine inBlock_lt (n := shapes.map (fun s => s.1 * s.2)) (blk := i) (col := t * b + p) ⟨by simpa using hi, ?_, ?_⟩
  · rw [List.getD_eq_getElem _ _ (by simpa using hi), List.getElem_map, h1]
    calc t * b + p < t * b + b := by omega
      _ = (t + 1) * b := by ring
      _ ≤ a * b := Nat.mul_le_mul_right _ h2
  · rw [List.map_take]

/-! ## raw blocks -/

theorem prodIdx_cons (nprods : List Nat) (r : Nat) (b : List Nat) :
    prodIdx nprods (r :: b) = List.range' ((offs0 nprods).getD r 0) (nprods.getD r 0) ++ prodIdx nprods b := rfl

theorem prodIdx_length (nprods b : List Nat) : (prodIdx nprods b).length = (b.map (fun r => nprods.getD r 0)).sum := by
  induction b with
  | nil => rfl
  | cons r b ih => rw [prodIdx_cons]; simp [ih]

/-- The products of a block: position `col` is product `c` of the `k`-th rootspace of the block. -/
theorem prodIdx_get {nprods b : List Nat} (hb : ∀ r ∈ b, r < nprods.length) {col addr : Nat} :
    (prodIdx nprods b)[col]? = some addr ↔
      ∃ k c, InBlock (b.map (fun r => nprods.getD r 0)) col k c ∧ InBlock nprods addr (b.getD k 0) c := by
  induction b generalizing col with
  | nil => simp [prodIdx, InBlock]
  | cons r b ih =>
    have hr := hb r (by simp)
    have ih := fun col => @ih (fun r hr => hb r (by simp [hr])) col
    rw [prodIdx_cons]
    by_cases hc : col < nprods.getD r 0
    · rw [List.getElem?_append_left (by simpa using hc), List.getElem?_range' hc, offs0_getD _ _ hr]
      constructor
      · intro h
        refine ⟨0, col, ⟨by simp, by simpa using hc, by simp⟩, hr, by simpa using hc, ?_⟩
        simp [hc] at h
        simpa using h.symm
      · rintro ⟨k, c, ⟨h1, h2, h3⟩, h4⟩
        cases k with
        | zero =>
          simp at h3
          obtain ⟨-, -, h5⟩ := h4
          subst h3
          simp [hc]
          simpa using h5.symm
        | succ k => simp only [List.map_cons, List.take_succ_cons, List.sum_cons] at h3; omega
    · rw [List.getElem?_append_right (by simpa using hc), List.length_range', ih]
      constructor
      · rintro ⟨k, c, ⟨h1, h2, h3⟩, h4⟩
        refine ⟨k + 1, c, ⟨by simpa using h1, by simpa using h2, ?_⟩, by simpa using h4⟩
        simp only [List.map_cons, List.take_succ_cons, List.sum_cons]; omega
      · rintro ⟨k, c, ⟨h1, h2, h3⟩, h4⟩
        cases k with
        | zero => simp only [List.take_zero, List.sum_nil, Nat.zero_add, List.map_cons, List.getD_cons_zero] at h3 h2; omega
        | succ k =>
          refine ⟨k, c, ⟨by simpa using h1, by simpa using h2, ?_⟩, by simpa using h4⟩
          simp only [List.map_cons, List.take_succ_cons, List.sum_cons] at h3; omega

/-! ### the table of rootspaces -/

theorem rootTableBlock_spec (nman : Nat) (offs : List Nat) (b : List Nat) (k0 : Nat)
    (tab : List (Option (Nat × Nat × Nat))) (hnd : b.Nodup) (hb : ∀ r ∈ b, r < tab.length) :
    (rootTableBlock nman offs k0 b tab).length = tab.length ∧
    (∀ k (h : k < b.length), (rootTableBlock nman offs k0 b tab)[b[k]]? =
      some (some (nman, k0 + k, offs.getD (k0 + k) 0))) ∧
    (∀ r, r ∉ b → (rootTableBlock nman offs k0 b tab)[r]? = tab[r]?) := by
  induction b generalizing k0 tab with
  | nil => simp [rootTableBlock]
  | cons x b ih =>
    rw [List.nodup_cons] at hnd
    obtain ⟨i1, i2, i3⟩ := ih (k0 + 1) (tab.set x (some (nman, k0, offs.getD k0 0))) hnd.2
      (fun r hr => by rw [List.length_set]; exact hb r (by simp [hr]))
    simp only [rootTableBlock]
    refine ⟨by rw [i1, List.length_set], ?_, ?_⟩
    · intro k hk
      cases k with
      | zero =>
        simp only [List.getElem_cons_zero]
        rw [i3 x hnd.1, List.getElem?_set_self (hb x (by simp))]; simp
      | succ k =>
        simp only [List.getElem_cons_succ]
        rw [i2 k (by simpa using hk)]
        have : k0 + 1 + k = k0 + (k + 1) := by omega
        rw [this]
    · intro r hr
      rw [List.mem_cons, not_or] at hr
      rw [i3 r hr.2, List.getElem?_set_ne (Ne.symm hr.1)]

theorem rootTableLoop_spec (nprods : List Nat) (blocks : List (List Nat)) (n0 : Nat)
    (tab : List (Option (Nat × Nat × Nat))) (hnd : blocks.flatten.Nodup) (hb : ∀ r ∈ blocks.flatten, r < tab.length) :
    (rootTableLoop nprods n0 blocks tab).length = tab.length ∧
    (∀ m (hm : m < blocks.length) k (h : k < blocks[m].length),
      (rootTableLoop nprods n0 blocks tab)[blocks[m][k]]? =
      some (some (n0 + m, k, (offs0 (blocks[m].map (fun r => nprods.getD r 0))).getD k 0))) ∧
    (∀ r, r ∉ blocks.flatten → (rootTableLoop nprods n0 blocks tab)[r]? = tab[r]?) := by
  induction blocks generalizing n0 tab with
  | nil => simp [rootTableLoop]
  | cons b blocks ih =>
    rw [List.flatten_cons, List.nodup_append] at hnd
    obtain ⟨hn1, hn2, hn3⟩ := hnd
    have hbb : ∀ r ∈ b, r < tab.length := fun r hr => hb r (by simp [hr])
    obtain ⟨j1, j2, j3⟩ := rootTableBlock_spec n0 (offs0 (b.map (fun r => nprods.getD r 0))) b 0 tab hn1 hbb
    obtain ⟨i1, i2, i3⟩ := ih (n0 + 1) (rootTableBlock n0 (offs0 (b.map (fun r => nprods.getD r 0))) 0 b tab) hn2
      (fun r hr => by rw [j1]; exact hb r (by rw [List.flatten_cons]; exact List.mem_append_right _ hr))
    simp only [rootTableLoop]
    refine ⟨by rw [i1, j1], ?_, ?_⟩
    · intro m hm k hk
      cases m with
      | zero =>
        simp only [List.getElem_cons_zero] at hk ⊢
        rw [i3 _ (fun h => hn3 _ (List.getElem_mem hk) _ h rfl), j2 k hk]
        simp
      | succ m =>
        simp only [List.getElem_cons_succ] at hk ⊢
        rw [i2 m (by simpa using hm) k hk]
        have : n0 + 1 + m = n0 + (m + 1) := by omega
        rw [this]
    · intro r hr
      rw [List.flatten_cons, List.mem_append, not_or] at hr
      rw [i3 r hr.2, j3 r hr.1]

theorem mapM_id_some {α : Type} (l : List (Option α)) (h : ∀ i : Nat, i < l.length → ∃ a, l[i]? = some (some a)) :
    ∃ l' : List α, l.mapM id = some l' ∧ l'.length = l.length ∧ ∀ (i : Nat) (a : α), l[i]? = some (some a) → l'[i]? = some a := by
  induction l with
  | nil => exact ⟨[], rfl, rfl, by simp⟩
  | cons x l ih =>
    obtain ⟨l', e1, e2, e3⟩ := ih (fun i hi => by simpa using h (i + 1) (by simpa using hi))
    obtain ⟨a, ha⟩ := h 0 (by simp)
    simp at ha
    subst ha
    refine ⟨a :: l', by simp [e1], by simp [e2], ?_⟩
    intro i b hb
    cases i with
    | zero => simpa using hb
    | succ i => simpa using e3 i b (by simpa using hb)

theorem rootTable_spec (nprods : List Nat) (blocks : List (List Nat)) (hnd : blocks.flatten.Nodup)
    (hmem : ∀ r, r ∈ blocks.flatten ↔ r < nprods.length) :
    ∃ tab, rootTable nprods blocks = some tab ∧
      ∀ m (hm : m < blocks.length) k (h : k < blocks[m].length),
        tab[blocks[m][k]]? = some (m, k, (offs0 (blocks[m].map (fun r => nprods.getD r 0))).getD k 0) := by
  obtain ⟨i1, i2, -⟩ := rootTableLoop_spec nprods blocks 0 (List.replicate nprods.length none) hnd
    (fun r hr => by rw [List.length_replicate]; exact (hmem r).mp hr)
  rw [List.length_replicate] at i1
  obtain ⟨tab, t1, -, t3⟩ := mapM_id_some (rootTableLoop nprods 0 blocks (List.replicate nprods.length none)) (by
    intro r hr
    rw [i1] at hr
    obtain ⟨b, hb, hr2⟩ := List.mem_flatten.mp ((hmem r).mpr hr)
    obtain ⟨m, hm, rfl⟩ := List.getElem_of_mem hb
    obtain ⟨k, hk, rfl⟩ := List.getElem_of_mem hr2
    exact ⟨_, i2 m hm k hk⟩)
  refine ⟨tab, t1, ?_⟩
  intro m hm k hk
  have := t3 _ _ (i2 m hm k hk)
  simpa using this

theorem splitRblocks_of {nprods : List Nat} {blocks : List (List Nat)} (hnd : blocks.flatten.Nodup)
    (hmem : ∀ r, r ∈ blocks.flatten ↔ r < nprods.length) {addr blk col : Nat} {b : List Nat}
    (hb : blocks[blk]? = some b) (h : (prodIdx nprods b)[col]? = some addr) :
    splitRblocks nprods blocks addr = some (blk, col) := by
  obtain ⟨hm, rfl⟩ := List.getElem?_eq_some_iff.mp hb
  have hin : ∀ r ∈ blocks[blk], r < nprods.length :=
    fun r hr => (hmem r).mp (List.mem_flatten.mpr ⟨_, List.getElem_mem hm, hr⟩)
  obtain ⟨k, c, h1, h2⟩ := (prodIdx_get hin).mp h
  obtain ⟨tab, t1, t2⟩ := rootTable_spec nprods blocks hnd hmem
  have hk : k < blocks[blk].length := by simpa using h1.1
  rw [List.getD_eq_getElem _ _ hk] at h2
  unfold splitRblocks
  rw [t1, splitAddr_of h2]
  simp only [Option.bind_eq_bind, Option.bind_some]
  rw [t2 blk hm k hk, offs0_getD _ _ h1.1]
  have := h1.2.2
  simp only [Option.bind_some, pure, Option.some.injEq, Prod.mk.injEq, true_and]
  omega

theorem exists_prodIdx {nprods : List Nat} {blocks : List (List Nat)}
    (hmem : ∀ r, r ∈ blocks.flatten ↔ r < nprods.length) {addr : Nat} (h : addr < nprods.sum) :
    ∃ (blk : Nat) (b : List Nat) (col : Nat), blocks[blk]? = some b ∧ (prodIdx nprods b)[col]? = some addr := by
  obtain ⟨r, c, h1⟩ := exists_inBlock h
  obtain ⟨b, hb, hr⟩ := List.mem_flatten.mp ((hmem r).mpr h1.1)
  obtain ⟨m, hm, rfl⟩ := List.getElem_of_mem hb
  obtain ⟨k, hk, rfl⟩ := List.getElem_of_mem hr
  have hin : ∀ r ∈ blocks[m], r < nprods.length :=
    fun r hr => (hmem r).mp (List.mem_flatten.mpr ⟨_, List.getElem_mem hm, hr⟩)
  refine ⟨m, blocks[m], ((blocks[m].map (fun r => nprods.getD r 0)).take k).sum + c,
    List.getElem?_eq_getElem hm, (prodIdx_get hin).mpr ⟨k, c, ⟨by simpa using hk, ?_, rfl⟩, ?_⟩⟩
  · rw [List.getD_eq_getElem _ _ (by simpa using hk), List.getElem_map]; exact h1.2.1
  · rw [List.getD_eq_getElem _ _ hk]; exact h1

end Verif.OrthBasis
