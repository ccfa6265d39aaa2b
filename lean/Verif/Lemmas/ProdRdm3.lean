import Verif.Lemmas.ProdRdm
import Verif.Model.ProdRdm3
/-!
# Lemmas for the three-body density matrix: block updates with transposed copies, product expectation values
-/
namespace Verif.ProdRdm
open scoped BigOperators
variable {R : Type*} [CommRing R]

/-- The blocks an update writes. -/
def Upd.writes (u : Upd R) : List (List Nat) :=
  match u.copies, u.blk with
  | .none, b => [b]
  | .two, [a, b, c, d, e, f] => [[a, b, c, d, e, f], [a, b, e, f, c, d], [e, f, a, b, c, d]]
  | .five, [a, b, c, d, e, f] => [[a, b, c, d, e, f], [a, b, e, f, c, d], [e, f, a, b, c, d], [e, f, c, d, a, b],
      [c, d, e, f, a, b], [c, d, a, b, e, f]]
  | _, b => [b]

/-- Invariance under exchange of the pairs of indices. -/
structure PairSym (T : List Nat → List Nat → R) : Prop where
  swap23 : ∀ f1 f2 f3 f4 f5 f6 a1 a2 a3 a4 a5 a6,
    T [f1, f2, f5, f6, f3, f4] [a1, a2, a5, a6, a3, a4] = T [f1, f2, f3, f4, f5, f6] [a1, a2, a3, a4, a5, a6]
  swap12 : ∀ f1 f2 f3 f4 f5 f6 a1 a2 a3 a4 a5 a6,
    T [f3, f4, f1, f2, f5, f6] [a3, a4, a1, a2, a5, a6] = T [f1, f2, f3, f4, f5, f6] [a1, a2, a3, a4, a5, a6]

theorem PairSym.all {T : List Nat → List Nat → R} (h : PairSym T) (f1 f2 f3 f4 f5 f6 a1 a2 a3 a4 a5 a6 : Nat) :
    T [f1, f2, f5, f6, f3, f4] [a1, a2, a5, a6, a3, a4] = T [f1, f2, f3, f4, f5, f6] [a1, a2, a3, a4, a5, a6] ∧
    T [f5, f6, f1, f2, f3, f4] [a5, a6, a1, a2, a3, a4] = T [f1, f2, f3, f4, f5, f6] [a1, a2, a3, a4, a5, a6] ∧
    T [f5, f6, f3, f4, f1, f2] [a5, a6, a3, a4, a1, a2] = T [f1, f2, f3, f4, f5, f6] [a1, a2, a3, a4, a5, a6] ∧
    T [f3, f4, f5, f6, f1, f2] [a3, a4, a5, a6, a1, a2] = T [f1, f2, f3, f4, f5, f6] [a1, a2, a3, a4, a5, a6] ∧
    T [f3, f4, f1, f2, f5, f6] [a3, a4, a1, a2, a5, a6] = T [f1, f2, f3, f4, f5, f6] [a1, a2, a3, a4, a5, a6] := by
  refine ⟨h.swap23 .., ?_, ?_, ?_, h.swap12 ..⟩
  · rw [h.swap12, h.swap23]
  · rw [h.swap23 f5, h.swap12, h.swap23]
  · rw [h.swap23 f3, h.swap12]

theorem valid6 (n : List Nat) (f1 f2 f3 f4 f5 f6 a b c d e f : Nat) : Valid n [f1, f2, f3, f4, f5, f6] [a, b, c, d, e, f] ↔
    (∃ h : f1 < n.length, a < n[f1]) ∧ (∃ h : f2 < n.length, b < n[f2]) ∧ (∃ h : f3 < n.length, c < n[f3]) ∧
      (∃ h : f4 < n.length, d < n[f4]) ∧ (∃ h : f5 < n.length, e < n[f5]) ∧ (∃ h : f6 < n.length, f < n[f6]) := by
  simp [Valid]

theorem valid_length (n fs as : List Nat) (h : Valid n fs as) : as.length = fs.length := (List.Forall₂.length_eq h).symm

theorem len6 (as : List Nat) (h : as.length = 6) : ∃ a b c d e f, as = [a, b, c, d, e, f] := by
  match as, h with
  | [a, b, c, d, e, f], _ => exact ⟨a, b, c, d, e, f, rfl⟩

/-- Holding the right values after writing: the copies preserve "the blocks in `S` have the values `T`". -/
theorem copy_ok (n : List Nat) (A : Arr R) (T : List Nat → List Nat → R) (b tgt : List Nat)
    (V : Arr R) (hV : ∀ as, Valid n tgt as → V as = T tgt as) (W : List (List Nat)) (A0 : Arr R)
    (hA : ∀ fs as, Valid n fs as → A (pos n fs as) = if fs ∈ W then T fs as else A0 (pos n fs as)) :
    ∀ fs as, Valid n fs as → setB n A tgt V (pos n fs as) = if fs ∈ W ++ [tgt] then T fs as else A0 (pos n fs as) := by
  intro fs as hv
  rw [setB_pos n A tgt V fs as hv]
  by_cases h : fs = tgt
  · subst h
    rw [if_pos rfl, if_pos (by simp), hV as hv]
  · rw [if_neg h, hA fs as hv]
    simp [h]

theorem apply_ok (n : List Nat) (A0 : Arr R) (u : Upd R) (T : List Nat → List Nat → R)
    (hlen : u.blk.length = 6) (hval : ∀ as, Valid n u.blk as → (if u.neg then -u.V as else u.V as) = T u.blk as)
    (hsym : u.copies ≠ .none → PairSym T) (h0 : ∀ as, Valid n u.blk as → A0 (pos n u.blk as) = 0) :
    ∀ fs as, Valid n fs as → u.apply n A0 (pos n fs as) = if fs ∈ u.writes then T fs as else A0 (pos n fs as) := by
  obtain ⟨cp, neg, blk, V⟩ := u
  dsimp only at hlen hval hsym h0
  obtain ⟨f1, f2, f3, f4, f5, f6, rfl⟩ := len6 blk hlen
  have hfirst : ∀ fs as, Valid n fs as → (if neg then subB n A0 [f1, f2, f3, f4, f5, f6] V else addB n A0 [f1, f2, f3, f4, f5, f6] V)
      (pos n fs as) = if fs ∈ [[f1, f2, f3, f4, f5, f6]] then T fs as else A0 (pos n fs as) := by
    intro fs as hv
    by_cases h : fs = [f1, f2, f3, f4, f5, f6]
    · subst h
      have := hval as hv
      cases neg
      · simp only [Bool.false_eq_true, if_false] at this ⊢
        rw [addB_pos _ _ _ _ _ _ hv, h0 as hv]
        simpa using this
      · simp only [if_true] at this ⊢
        rw [subB_pos _ _ _ _ _ _ hv, h0 as hv]
        simpa using this
    · cases neg
      · simp [addB_pos _ _ _ _ _ _ hv, h]
      · simp [subB_pos _ _ _ _ _ _ hv, h]
  -- the value read back from the primary block
  have hread : ∀ (A : Arr R) (W : List (List Nat)), [f1, f2, f3, f4, f5, f6] ∈ W →
      (∀ fs as, Valid n fs as → A (pos n fs as) = if fs ∈ W then T fs as else A0 (pos n fs as)) →
      ∀ a b c d e f, Valid n [f1, f2, f3, f4, f5, f6] [a, b, c, d, e, f] →
        getB n A [f1, f2, f3, f4, f5, f6] [a, b, c, d, e, f] = T [f1, f2, f3, f4, f5, f6] [a, b, c, d, e, f] := by
    intro A W hW hA a b c d e f hv
    rw [getB_pos, hA _ _ hv, if_pos hW]
  cases cp with
  | none => intro fs as hv; simpa [Upd.apply, Upd.writes] using hfirst fs as hv
  | two =>
    have hs := hsym (by simp)
    have h1 := copy_ok n _ T [f1, f2, f3, f4, f5, f6] [f1, f2, f5, f6, f3, f4]
      (arr6 fun a b e f c d => getB n _ [f1, f2, f3, f4, f5, f6] [a, b, c, d, e, f]) (by
        intro as hv
        obtain ⟨a, b, e, f, c, d, rfl⟩ := len6 as (valid_length _ _ _ hv)
        rw [arr6, hread _ _ (by simp) hfirst, (hs.all f1 f2 f3 f4 f5 f6 a b c d e f).1]
        rw [valid6] at hv ⊢; tauto) _ A0 hfirst
    have h2 := copy_ok n _ T [f1, f2, f3, f4, f5, f6] [f5, f6, f1, f2, f3, f4]
      (arr6 fun e f a b c d => getB n _ [f1, f2, f3, f4, f5, f6] [a, b, c, d, e, f]) (by
        intro as hv
        obtain ⟨e, f, a, b, c, d, rfl⟩ := len6 as (valid_length _ _ _ hv)
        rw [arr6, hread _ _ (by simp) h1, (hs.all f1 f2 f3 f4 f5 f6 a b c d e f).2.1]
        rw [valid6] at hv ⊢; tauto) _ A0 h1
    intro fs as hv
    have := h2 fs as hv
    simpa [Upd.apply, Upd.writes, copy1, copy2, or_assoc] using this
  | five =>
    have hs := hsym (by simp)
    have h1 := copy_ok n _ T [f1, f2, f3, f4, f5, f6] [f1, f2, f5, f6, f3, f4]
      (arr6 fun a b e f c d => getB n _ [f1, f2, f3, f4, f5, f6] [a, b, c, d, e, f]) (by
        intro as hv
        obtain ⟨a, b, e, f, c, d, rfl⟩ := len6 as (valid_length _ _ _ hv)
        rw [arr6, hread _ _ (by simp) hfirst, (hs.all f1 f2 f3 f4 f5 f6 a b c d e f).1]
        rw [valid6] at hv ⊢; tauto) _ A0 hfirst
    have h2 := copy_ok n _ T [f1, f2, f3, f4, f5, f6] [f5, f6, f1, f2, f3, f4]
      (arr6 fun e f a b c d => getB n _ [f1, f2, f3, f4, f5, f6] [a, b, c, d, e, f]) (by
        intro as hv
        obtain ⟨e, f, a, b, c, d, rfl⟩ := len6 as (valid_length _ _ _ hv)
        rw [arr6, hread _ _ (by simp) h1, (hs.all f1 f2 f3 f4 f5 f6 a b c d e f).2.1]
        rw [valid6] at hv ⊢; tauto) _ A0 h1
    have h3 := copy_ok n _ T [f1, f2, f3, f4, f5, f6] [f5, f6, f3, f4, f1, f2]
      (arr6 fun e f c d a b => getB n _ [f1, f2, f3, f4, f5, f6] [a, b, c, d, e, f]) (by
        intro as hv
        obtain ⟨e, f, c, d, a, b, rfl⟩ := len6 as (valid_length _ _ _ hv)
        rw [arr6, hread _ _ (by simp) h2, (hs.all f1 f2 f3 f4 f5 f6 a b c d e f).2.2.1]
        rw [valid6] at hv ⊢; tauto) _ A0 h2
    have h4 := copy_ok n _ T [f1, f2, f3, f4, f5, f6] [f3, f4, f5, f6, f1, f2]
      (arr6 fun c d e f a b => getB n _ [f1, f2, f3, f4, f5, f6] [a, b, c, d, e, f]) (by
        intro as hv
        obtain ⟨c, d, e, f, a, b, rfl⟩ := len6 as (valid_length _ _ _ hv)
        rw [arr6, hread _ _ (by simp) h3, (hs.all f1 f2 f3 f4 f5 f6 a b c d e f).2.2.2.1]
        rw [valid6] at hv ⊢; tauto) _ A0 h3
    have h5 := copy_ok n _ T [f1, f2, f3, f4, f5, f6] [f3, f4, f1, f2, f5, f6]
      (arr6 fun c d a b e f => getB n _ [f1, f2, f3, f4, f5, f6] [a, b, c, d, e, f]) (by
        intro as hv
        obtain ⟨c, d, a, b, e, f, rfl⟩ := len6 as (valid_length _ _ _ hv)
        rw [arr6, hread _ _ (by simp) h4, (hs.all f1 f2 f3 f4 f5 f6 a b c d e f).2.2.2.2]
        rw [valid6] at hv ⊢; tauto) _ A0 h4
    intro fs as hv
    have := h5 fs as hv
    simpa [Upd.apply, Upd.writes, copy1, copy2, copy3, copy4, copy5, or_assoc] using this

theorem run_ok (n : List Nat) (us : List (Upd R)) (T : List Nat → List Nat → R) (A0 : Arr R)
    (hlen : ∀ u ∈ us, u.blk.length = 6)
    (hval : ∀ u ∈ us, ∀ as, Valid n u.blk as → (if u.neg then -u.V as else u.V as) = T u.blk as)
    (hsym : ∀ u ∈ us, u.copies ≠ .none → PairSym T)
    (hpw : us.Pairwise fun u v => v.blk ∉ u.writes)
    (h0 : ∀ u ∈ us, ∀ as, Valid n u.blk as → A0 (pos n u.blk as) = 0) (fs as : List Nat) (hv : Valid n fs as) :
    ((∃ u ∈ us, fs ∈ u.writes) → us.foldl (Upd.apply n) A0 (pos n fs as) = T fs as) ∧
    ((¬∃ u ∈ us, fs ∈ u.writes) → us.foldl (Upd.apply n) A0 (pos n fs as) = A0 (pos n fs as)) := by
  induction us generalizing A0 with
  | nil => simp
  | cons u us ih =>
    have h1 := apply_ok n A0 u T (hlen u (by simp)) (hval u (by simp)) (hsym u (by simp)) (h0 u (by simp))
    rw [List.pairwise_cons] at hpw
    have := ih (u.apply n A0) (fun v hv => hlen v (by simp [hv])) (fun v hv => hval v (by simp [hv]))
      (fun v hv => hsym v (by simp [hv])) hpw.2 (by
        intro v hv as hvv
        rw [h1 _ _ hvv, if_neg (hpw.1 v hv), h0 v (by simp [hv]) as hvv])
    rw [List.foldl_cons]
    by_cases hr : ∃ v ∈ us, fs ∈ v.writes
    · refine ⟨fun _ => this.1 hr, fun hn => absurd ?_ hn⟩
      obtain ⟨v, hv, hw⟩ := hr
      exact ⟨v, by simp [hv], hw⟩
    · rw [this.2 hr, h1 fs as hv]
      by_cases hu : fs ∈ u.writes
      · simp only [if_pos hu]
        exact ⟨fun _ => trivial, fun hn => absurd ⟨u, by simp, hu⟩ hn⟩
      · simp only [if_neg hu]
        refine ⟨?_, fun _ => trivial⟩
        rintro ⟨v, hv, hw⟩
        rcases List.mem_cons.1 hv with rfl | hv
        · exact absurd hw hu
        · exact absurd ⟨v, hv, hw⟩ hr

theorem mem_comb3 (n i k m : Nat) : (i, k, m) ∈ comb3 n ↔ i < k ∧ k < m ∧ m < n := by
  simp only [comb3, List.mem_flatMap, List.mem_range, List.mem_map, List.mem_filter, Bool.and_eq_true, decide_eq_true_eq,
    Prod.mk.injEq]
  constructor
  · rintro ⟨i', hi', k', hk', m', ⟨hm', h1, h2⟩, rfl, rfl, rfl⟩; exact ⟨h1, h2, hm'⟩
  · rintro ⟨h1, h2, h3⟩; exact ⟨i, by omega, k, by omega, m, ⟨h3, h1, h2⟩, rfl, rfl, rfl⟩

theorem comb3_nodup (n : Nat) : (comb3 n).Nodup := by
  unfold comb3
  rw [List.nodup_flatMap]
  constructor
  · intro i _
    rw [List.nodup_flatMap]
    constructor
    · intro k _
      exact (List.nodup_range.filter _).map (fun a b h => by simpa using h)
    · refine List.nodup_range.imp ?_
      intro a b hne
      rw [Function.onFun, List.disjoint_left]
      rintro ⟨i, j, m⟩ h1 h2
      simp only [List.mem_map, Prod.mk.injEq] at h1 h2
      obtain ⟨_, _, _, rfl, _⟩ := h1
      obtain ⟨_, _, _, rfl, _⟩ := h2
      exact hne rfl
  · refine List.nodup_range.imp ?_
    intro a b hne
    rw [Function.onFun, List.disjoint_left]
    rintro ⟨i, j, m⟩ h1 h2
    simp only [List.mem_flatMap, List.mem_map, Prod.mk.injEq] at h1 h2
    obtain ⟨_, _, _, _, rfl, _⟩ := h1
    obtain ⟨_, _, _, _, rfl, _⟩ := h2
    exact hne rfl

theorem mem_perm2 (n i k : Nat) : (i, k) ∈ perm2 n ↔ i < n ∧ k < n ∧ i ≠ k := by
  simp only [perm2, List.mem_flatMap, List.mem_range, List.mem_map, List.mem_filter, decide_eq_true_eq, Prod.mk.injEq]
  constructor
  · rintro ⟨i', hi', k', ⟨hk', hne⟩, rfl, rfl⟩; exact ⟨hi', hk', hne⟩
  · rintro ⟨h1, h2, h3⟩; exact ⟨i, h1, k, ⟨h2, h3⟩, rfl, rfl⟩

theorem perm2_nodup (n : Nat) : (perm2 n).Nodup := by
  unfold perm2
  rw [List.nodup_flatMap]
  constructor
  · intro i _
    exact (List.nodup_range.filter _).map (fun a b h => (Prod.mk.inj h).2)
  · refine List.nodup_range.imp ?_
    intro a b hne
    rw [Function.onFun, List.disjoint_left]
    rintro ⟨i, j⟩ h1 h2
    simp only [List.mem_map, Prod.mk.injEq] at h1 h2
    obtain ⟨_, _, rfl, _⟩ := h1
    obtain ⟨_, _, rfl, _⟩ := h2
    exact hne rfl

theorem diag6_val (F : Frags2 R) (dm3 : Nat → Arr R) (fs as : List Nat) (h : Valid F.ncas fs as) :
    (∀ f, fs = [f, f, f, f, f, f] → F.diag6 dm3 (fun _ => 0) (pos F.ncas fs as) = dm3 f as) ∧
    ((∀ f, fs ≠ [f, f, f, f, f, f]) → F.diag6 dm3 (fun _ => 0) (pos F.ncas fs as) = 0) := by
  constructor
  · rintro f rfl
    unfold Frags2.diag6
    have hf' : f < F.ncas.length := by cases h with | cons h1 _ => exact h1.1
    rw [foldl_hit (fun A f => setB F.ncas A [f, f, f, f, f, f] (dm3 f)) (fun ps => ps = pos F.ncas [f, f, f, f, f, f] as) _ f
      List.nodup_range (List.mem_range.2 hf') ?_ ?_ _ _ rfl, setB_pos _ _ _ _ _ _ h, if_pos rfl]
    · rintro x _ hne A ps rfl
      rw [setB_pos _ _ _ _ _ _ h, if_neg (by simp; omega)]
    · rintro A A' hA ps rfl
      rw [setB_pos _ _ _ _ _ _ h, setB_pos _ _ _ _ _ _ h, if_pos rfl, if_pos rfl]
  · intro hf
    unfold Frags2.diag6
    refine foldl_miss (fun A f => setB F.ncas A [f, f, f, f, f, f] (dm3 f)) (fun ps => ps = pos F.ncas fs as) _ ?_ (fun _ => 0) _ rfl
    rintro x _ A ps rfl
    rw [setB_pos _ _ _ _ _ _ h, if_neg (fun e => hf x e)]

end Verif.ProdRdm

namespace Verif.Spec.ProdRdm
variable {R : Type*} [CommRing R]

theorem inversions_append (w : List Op) (v : List Op) : inversions (w ++ v) =
    inversions w + inversions v + (w.map fun x => v.countP (fun y => decide (y.frag < x.frag))).sum := by
  induction w with
  | nil => simp [inversions]
  | cons x w ih =>
    simp only [List.cons_append, inversions, ih, List.countP_append, List.map_cons, List.sum_cons]
    omega

/-- Exchanging two neighbouring creation (or destruction) operators changes the sign of the expectation value. -/
theorem expect_swap (E : Nat → List Op → R) (ha : Anticommutes E) (w : List Op) (x y : Op) (w' : List Op) (hxy : x.cre = y.cre) :
    expect E (w ++ x :: y :: w') = -expect E (w ++ y :: x :: w') := by
  have hp : (w ++ x :: y :: w').Perm (w ++ y :: x :: w') := (List.Perm.swap y x w').append_left w
  have hd : ((w ++ x :: y :: w').map Op.frag).dedup.Perm ((w ++ y :: x :: w').map Op.frag).dedup :=
    (hp.map Op.frag).dedup
  have hc : (w.map fun z => (x :: y :: w').countP (fun v => decide (v.frag < z.frag))) =
      (w.map fun z => (y :: x :: w').countP (fun v => decide (v.frag < z.frag))) :=
    List.map_congr_left fun z _ => (List.Perm.swap y x w').countP_eq _
  by_cases hf : x.frag = y.frag
  · -- same fragment: one factor changes sign
    have hinv : inversions (w ++ x :: y :: w') = inversions (w ++ y :: x :: w') := by
      rw [inversions_append, inversions_append, hc]
      simp [inversions, List.countP_cons, hf]
    unfold expect
    rw [hinv, ← mul_neg, (hd.map _).prod_eq]
    congr 1
    have hnd : ((w ++ y :: x :: w').map Op.frag).dedup.Nodup := List.nodup_dedup _
    have hmem : x.frag ∈ ((w ++ y :: x :: w').map Op.frag).dedup := by simp
    generalize ((w ++ y :: x :: w').map Op.frag).dedup = L at hnd hmem
    obtain ⟨L1, L2, rfl⟩ := List.append_of_mem hmem
    have hne : ∀ f ∈ L1 ++ L2, f ≠ x.frag := by
      rw [List.nodup_append, List.nodup_cons] at hnd
      intro f hf he
      rcases List.mem_append.1 hf with h | h
      · exact hnd.2.2 f h x.frag (by simp) he
      · exact hnd.2.1.1 (he ▸ h)
    have hother : ∀ f, f ≠ x.frag → ((w ++ x :: y :: w').filter fun z => z.frag == f) = ((w ++ y :: x :: w').filter fun z => z.frag == f) := by
      intro f hfx
      have h1 : ¬ x.frag = f := fun e => hfx e.symm
      have h2 : ¬ y.frag = f := fun e => hfx (by rw [hf]; exact e.symm)
      simp [List.filter_append, List.filter_cons, h1, h2]
    have hself : E x.frag ((w ++ x :: y :: w').filter fun z => z.frag == x.frag) =
        -E x.frag ((w ++ y :: x :: w').filter fun z => z.frag == x.frag) := by
      simp only [List.filter_append, List.filter_cons, beq_self_eq_true, if_true, ← hf]
      exact ha _ _ _ _ _ hxy
    have m1 : ∀ M : List Nat, (∀ f ∈ M, f ≠ x.frag) → (M.map fun f => E f ((w ++ x :: y :: w').filter fun z => z.frag == f)) =
        M.map fun f => E f ((w ++ y :: x :: w').filter fun z => z.frag == f) :=
      fun M hM => List.map_congr_left fun f hfm => by rw [hother f (hM f hfm)]
    simp only [List.map_append, List.map_cons, List.prod_append, List.prod_cons]
    rw [m1 L1 (fun f h => hne f (by simp [h])), m1 L2 (fun f h => hne f (by simp [h])), hself]
    ring
  · have hfil : ∀ f, ((w ++ x :: y :: w').filter fun z => z.frag == f) = ((w ++ y :: x :: w').filter fun z => z.frag == f) := by
      intro f
      simp only [List.filter_append, List.filter_cons]
      by_cases h1 : x.frag = f
      · have h2 : ¬ y.frag = f := fun e => hf (h1.trans e.symm)
        simp [h1, h2]
      · simp [h1]
    have hinv : (-1 : R) ^ inversions (w ++ x :: y :: w') = -(-1) ^ inversions (w ++ y :: x :: w') := by
      rw [inversions_append, inversions_append, hc]
      simp only [inversions, List.countP_cons, decide_eq_true_eq]
      rcases Nat.lt_or_gt_of_ne hf with h | h
      · rw [if_neg (by omega), if_pos h]
        ring
      · rw [if_pos h, if_neg (by omega)]
        ring
    unfold expect
    rw [hinv, (hd.map _).prod_eq]
    simp only [hfil]
    ring

theorem expect_swap12 (E : Nat → List Op → R) (ha : Anticommutes E) (s t y : Bool) (p q r u v x : Nat × Nat) :
    expect E (word3 s t y p q r u v x) = expect E (word3 t s y r u p q v x) := by
  have h1 := expect_swap E ha [] (c p.1 p.2 s) (c r.1 r.2 t) [c v.1 v.2 y, d x.1 x.2 y, d u.1 u.2 t, d q.1 q.2 s] rfl
  have h2 := expect_swap E ha [c r.1 r.2 t, c p.1 p.2 s, c v.1 v.2 y, d x.1 x.2 y] (d u.1 u.2 t) (d q.1 q.2 s) [] rfl
  simp only [List.nil_append, List.cons_append] at h1 h2
  simp only [word3]
  rw [h1, h2, neg_neg]

theorem expect_swap23 (E : Nat → List Op → R) (ha : Anticommutes E) (s t y : Bool) (p q r u v x : Nat × Nat) :
    expect E (word3 s t y p q r u v x) = expect E (word3 s y t p q v x r u) := by
  have h1 := expect_swap E ha [c p.1 p.2 s] (c r.1 r.2 t) (c v.1 v.2 y) [d x.1 x.2 y, d u.1 u.2 t, d q.1 q.2 s] rfl
  have h2 := expect_swap E ha [c p.1 p.2 s, c v.1 v.2 y, c r.1 r.2 t] (d x.1 x.2 y) (d u.1 u.2 t) [d q.1 q.2 s] rfl
  simp only [List.nil_append, List.cons_append] at h1 h2
  simp only [word3]
  rw [h1, h2, neg_neg]

theorem pair_swap (E : Nat → List Op → R) (ha : Anticommutes E) (f : Nat) (s t : Bool) (p q r u : Nat × Nat) :
    E f (word2 s t p q r u) = E f (word2 t s r u p q) := by
  have h1 := ha f [] (c p.1 p.2 s) (c r.1 r.2 t) [d u.1 u.2 t, d q.1 q.2 s] rfl
  have h2 := ha f [c r.1 r.2 t, c p.1 p.2 s] (d u.1 u.2 t) (d q.1 q.2 s) [] rfl
  simp only [List.nil_append, List.cons_append] at h1 h2
  simp only [word2]
  rw [h1, h2, neg_neg]

theorem order3 (f g h : Nat) (hfg : f ≠ g) (hgh : g ≠ h) (hfh : f ≠ h) :
    (f < g ∧ ¬ g < f ∧ g < h ∧ ¬ h < g ∧ f < h ∧ ¬ h < f) ∨ (f < g ∧ ¬ g < f ∧ h < g ∧ ¬ g < h ∧ f < h ∧ ¬ h < f) ∨
    (f < g ∧ ¬ g < f ∧ h < g ∧ ¬ g < h ∧ h < f ∧ ¬ f < h) ∨ (g < f ∧ ¬ f < g ∧ g < h ∧ ¬ h < g ∧ f < h ∧ ¬ h < f) ∨
    (g < f ∧ ¬ f < g ∧ g < h ∧ ¬ h < g ∧ h < f ∧ ¬ f < h) ∨ (g < f ∧ ¬ f < g ∧ h < g ∧ ¬ g < h ∧ h < f ∧ ¬ f < h) := by
  omega

theorem expect3_A (E : Nat → List Op → R) (hc : Conserves E) (s t y : Bool) (f g h a1 a2 a3 a4 a5 a6 : Nat) (hfg : f ≠ g) (hgh : g ≠ h)
    (hfh : f ≠ h) : expect E (word3 s t y (f, a1) (f, a2) (g, a3) (g, a4) (h, a5) (h, a6)) =
      E f (word1 s (f, a1) (f, a2)) * E g (word1 t (g, a3) (g, a4)) * E h (word1 y (h, a5) (h, a6)) := by
  have hfg' := hfg.symm
  have hgh' := hgh.symm
  have hfh' := hfh.symm
  rcases order3 f g h hfg hgh hfh with hs | hs | hs | hs | hs | hs <;>
  · obtain ⟨h1, h2, h3, h4, h5, h6⟩ := hs
    simp [expect, word3, word1, inversions, c, d, List.filter_cons, List.dedup_cons, List.dedup_nil, hfg, hgh, hfh, hfg', hgh', hfh',
      h1, h2, h3, h4, h5, h6]
    try ring

theorem expect3_B (E : Nat → List Op → R) (hc : Conserves E) (s t y : Bool) (f g h a1 a2 a3 a4 a5 a6 : Nat) (hfg : f ≠ g) (hgh : g ≠ h)
    (hfh : f ≠ h) : expect E (word3 s t y (f, a1) (f, a2) (g, a3) (h, a4) (h, a5) (g, a6)) =
      if t = y then -(E f (word1 s (f, a1) (f, a2)) * E g (word1 t (g, a3) (g, a6)) * E h (word1 t (h, a5) (h, a4))) else 0 := by
  have hfg' := hfg.symm
  have hgh' := hgh.symm
  have hfh' := hfh.symm
  split
  · rename_i he
    subst he
    rcases order3 f g h hfg hgh hfh with hs | hs | hs | hs | hs | hs <;>
    · obtain ⟨h1, h2, h3, h4, h5, h6⟩ := hs
      simp [expect, word3, word1, inversions, c, d, List.filter_cons, List.dedup_cons, List.dedup_nil, hfg, hgh, hfh, hfg', hgh', hfh',
        h1, h2, h3, h4, h5, h6]
      try ring
  · rename_i he
    refine expect_zero E hc _ g t ?_
    have he' : ¬ y = t := fun e => he e.symm
    simp [word3, c, d, List.filter_cons, hfg, hgh, hfh, hfg', hgh', hfh', he']

theorem expect3_C (E : Nat → List Op → R) (hc : Conserves E) (s t y : Bool) (f g h a1 a2 a3 a4 a5 a6 : Nat) (hfg : f ≠ g) (hgh : g ≠ h)
    (hfh : f ≠ h) : expect E (word3 s t y (f, a1) (g, a2) (g, a3) (f, a4) (h, a5) (h, a6)) =
      if s = t then -(E f (word1 s (f, a1) (f, a4)) * E g (word1 s (g, a3) (g, a2)) * E h (word1 y (h, a5) (h, a6))) else 0 := by
  have hfg' := hfg.symm
  have hgh' := hgh.symm
  have hfh' := hfh.symm
  split
  · rename_i he
    subst he
    rcases order3 f g h hfg hgh hfh with hs | hs | hs | hs | hs | hs <;>
    · obtain ⟨h1, h2, h3, h4, h5, h6⟩ := hs
      simp [expect, word3, word1, inversions, c, d, List.filter_cons, List.dedup_cons, List.dedup_nil, hfg, hgh, hfh, hfg', hgh', hfh',
        h1, h2, h3, h4, h5, h6]
      try ring
  · rename_i he
    refine expect_zero E hc _ f s ?_
    have he' : ¬ t = s := fun e => he e.symm
    simp [word3, c, d, List.filter_cons, hfg, hgh, hfh, hfg', hgh', hfh', he']

theorem expect3_D (E : Nat → List Op → R) (hc : Conserves E) (s t y : Bool) (f g h a1 a2 a3 a4 a5 a6 : Nat) (hfg : f ≠ g) (hgh : g ≠ h)
    (hfh : f ≠ h) : expect E (word3 s t y (f, a1) (h, a2) (g, a3) (g, a4) (h, a5) (f, a6)) =
      if s = y then -(E f (word1 s (f, a1) (f, a6)) * E g (word1 t (g, a3) (g, a4)) * E h (word1 s (h, a5) (h, a2))) else 0 := by
  have hfg' := hfg.symm
  have hgh' := hgh.symm
  have hfh' := hfh.symm
  split
  · rename_i he
    subst he
    rcases order3 f g h hfg hgh hfh with hs | hs | hs | hs | hs | hs <;>
    · obtain ⟨h1, h2, h3, h4, h5, h6⟩ := hs
      simp [expect, word3, word1, inversions, c, d, List.filter_cons, List.dedup_cons, List.dedup_nil, hfg, hgh, hfh, hfg', hgh', hfh',
        h1, h2, h3, h4, h5, h6]
      try ring
  · rename_i he
    refine expect_zero E hc _ f s ?_
    have he' : ¬ y = s := fun e => he e.symm
    simp [word3, c, d, List.filter_cons, hfg, hgh, hfh, hfg', hgh', hfh', he']

theorem expect3_E (E : Nat → List Op → R) (hc : Conserves E) (s t y : Bool) (f g h a1 a2 a3 a4 a5 a6 : Nat) (hfg : f ≠ g) (hgh : g ≠ h)
    (hfh : f ≠ h) : expect E (word3 s t y (f, a1) (g, a2) (g, a3) (h, a4) (h, a5) (f, a6)) =
      if s = t ∧ s = y then E f (word1 s (f, a1) (f, a6)) * E g (word1 s (g, a3) (g, a2)) * E h (word1 s (h, a5) (h, a4)) else 0 := by
  have hfg' := hfg.symm
  have hgh' := hgh.symm
  have hfh' := hfh.symm
  split
  · rename_i he
    obtain ⟨rfl, rfl⟩ := he
    rcases order3 f g h hfg hgh hfh with hs | hs | hs | hs | hs | hs <;>
    · obtain ⟨h1, h2, h3, h4, h5, h6⟩ := hs
      simp [expect, word3, word1, inversions, c, d, List.filter_cons, List.dedup_cons, List.dedup_nil, hfg, hgh, hfh, hfg', hgh', hfh',
        h1, h2, h3, h4, h5, h6]
      try ring
  · rename_i he
    by_cases h1 : s = y
    · have h2 : ¬ t = s := fun e => he ⟨e.symm, h1⟩
      have h2' : ¬ s = t := fun e => h2 e.symm
      refine expect_zero E hc _ g s ?_
      simp [word3, c, d, List.filter_cons, hfg, hgh, hfh, hfg', hgh', hfh', h2, h2']
    · refine expect_zero E hc _ f s ?_
      have h1' : ¬ y = s := fun e => h1 e.symm
      simp [word3, c, d, List.filter_cons, hfg, hgh, hfh, hfg', hgh', hfh', h1, h1']

theorem expect3_F (E : Nat → List Op → R) (hc : Conserves E) (s t y : Bool) (f g h a1 a2 a3 a4 a5 a6 : Nat) (hfg : f ≠ g) (hgh : g ≠ h)
    (hfh : f ≠ h) : expect E (word3 s t y (f, a1) (h, a2) (g, a3) (f, a4) (h, a5) (g, a6)) =
      if s = t ∧ s = y then E f (word1 s (f, a1) (f, a4)) * E g (word1 s (g, a3) (g, a6)) * E h (word1 s (h, a5) (h, a2)) else 0 := by
  have hfg' := hfg.symm
  have hgh' := hgh.symm
  have hfh' := hfh.symm
  split
  · rename_i he
    obtain ⟨rfl, rfl⟩ := he
    rcases order3 f g h hfg hgh hfh with hs | hs | hs | hs | hs | hs <;>
    · obtain ⟨h1, h2, h3, h4, h5, h6⟩ := hs
      simp [expect, word3, word1, inversions, c, d, List.filter_cons, List.dedup_cons, List.dedup_nil, hfg, hgh, hfh, hfg', hgh', hfh',
        h1, h2, h3, h4, h5, h6]
      try ring
  · rename_i he
    by_cases h1 : s = t
    · have h2 : ¬ y = s := fun e => he ⟨h1, e.symm⟩
      have h2' : ¬ s = y := fun e => h2 e.symm
      refine expect_zero E hc _ h s ?_
      simp [word3, c, d, List.filter_cons, hfg, hgh, hfh, hfg', hgh', hfh', h2, h2']
    · refine expect_zero E hc _ f s ?_
      have h1' : ¬ t = s := fun e => h1 e.symm
      simp [word3, c, d, List.filter_cons, hfg, hgh, hfh, hfg', hgh', hfh', h1, h1']

theorem expect3_diag (E : Nat → List Op → R) (s t y : Bool) (f a1 a2 a3 a4 a5 a6 : Nat) :
    expect E (word3 s t y (f, a1) (f, a2) (f, a3) (f, a4) (f, a5) (f, a6)) =
      E f (word3 s t y (f, a1) (f, a2) (f, a3) (f, a4) (f, a5) (f, a6)) := by
  simp [expect, word3, inversions, c, d]

theorem expect3_G (E : Nat → List Op → R) (s t y : Bool) (f g a1 a2 a3 a4 a5 a6 : Nat) (hfg : f ≠ g) :
    expect E (word3 s t y (f, a1) (f, a2) (f, a3) (f, a4) (g, a5) (g, a6)) =
      E f (word2 s t (f, a1) (f, a2) (f, a3) (f, a4)) * E g (word1 y (g, a5) (g, a6)) := by
  have hfg' := hfg.symm
  rcases Nat.lt_or_gt_of_ne hfg with h1 | h1 <;>
  · have h2 := Nat.lt_asymm h1
    simp [expect, word3, word2, word1, inversions, c, d, List.filter_cons, List.dedup_cons, List.dedup_nil, hfg, hfg', h1, h2]
    try ring

theorem expect3_H (E : Nat → List Op → R) (hc : Conserves E) (s t y : Bool) (f g a1 a2 a3 a4 a5 a6 : Nat) (hfg : f ≠ g) :
    expect E (word3 s t y (f, a1) (f, a2) (f, a3) (g, a4) (g, a5) (f, a6)) =
      if t = y then -(E f (word2 s t (f, a1) (f, a2) (f, a3) (f, a6)) * E g (word1 t (g, a5) (g, a4))) else 0 := by
  have hfg' := hfg.symm
  split
  · rename_i he
    subst he
    rcases Nat.lt_or_gt_of_ne hfg with h1 | h1 <;>
    · have h2 := Nat.lt_asymm h1
      simp [expect, word3, word2, word1, inversions, c, d, List.filter_cons, List.dedup_cons, List.dedup_nil, hfg, hfg', h1, h2]
      try ring
  · rename_i he
    refine expect_zero E hc _ g t ?_
    have he' : ¬ y = t := fun e => he e.symm
    simp [word3, c, d, List.filter_cons, hfg, he, he']

end Verif.Spec.ProdRdm
