import Verif.Model.RdmC
import Verif.Props.Blocks
import Mathlib.Data.List.Sublists
import Mathlib.Algebra.BigOperators.Group.List.Basic
namespace Verif.RdmC
open Verif.Spec Verif.Blocks Verif.Props

variable {R : Type} [CommRing R]

theorem row_inj {N a b x y : Nat} (hx : x < N) (hy : y < N) (h : a * N + x = b * N + y) : a = b ∧ x = y := by
  have h1 : (a * N + x) / N = a := by
    rw [Nat.mul_comm, Nat.mul_add_div (by omega), Nat.div_eq_of_lt hx, Nat.add_zero]
  have h2 : (b * N + y) / N = b := by
    rw [Nat.mul_comm, Nat.mul_add_div (by omega), Nat.div_eq_of_lt hy, Nat.add_zero]
  have hab : a = b := by rw [← h1, ← h2, h]
  subst hab
  exact ⟨rfl, by omega⟩

/-- a sequence of `axpy` calls with disjoint targets -/
theorem axpys {ι : Type} (src : Buf R) (N : Nat) (iter : Buf R → ι → Option (Buf R)) (d s n : ι → Nat) (a : ι → R)
    (order : List ι) (hnd : order.Nodup)
    (hiter : ∀ i ∈ order, ∀ b : Buf R, b.size = N → iter b i = axpy (n i) (a i) src (s i) b (d i))
    (hs : ∀ i ∈ order, s i + n i ≤ src.size) (hd : ∀ i ∈ order, d i + n i ≤ N)
    (hdis : ∀ i ∈ order, ∀ j ∈ order, ∀ x, d i ≤ x → x < d i + n i → d j ≤ x → x < d j + n j → i = j)
    (dest : Buf R) (hN : dest.size = N) :
    ∃ out, order.foldlM iter dest = some out ∧ out.size = N ∧
      (∀ i ∈ order, ∀ k, k < n i → out.val (d i + k) = dest.val (d i + k) + a i * src.val (s i + k)) ∧
      (∀ x, (∀ i ∈ order, ¬ (d i ≤ x ∧ x < d i + n i)) → out.val x = dest.val x) := by
  induction order generalizing dest with
  | nil => exact ⟨dest, rfl, hN, by simp, by simp⟩
  | cons i order ih =>
    rw [List.nodup_cons] at hnd
    set b : Buf R := ⟨dest.size, fun x => if d i ≤ x ∧ x < d i + n i then dest.val x + a i * src.val (s i + (x - d i))
      else dest.val x⟩ with hb
    have h1 : iter dest i = some b := by
      rw [hiter i (by simp) dest hN, axpy, if_pos ⟨hs i (by simp), by rw [hN]; exact hd i (by simp)⟩]
    obtain ⟨out, e1, e2, e3, e4⟩ := ih hnd.2 (fun j hj => hiter j (by simp [hj])) (fun j hj => hs j (by simp [hj]))
      (fun j hj => hd j (by simp [hj])) (fun j hj k hk => hdis j (by simp [hj]) k (by simp [hk])) b hN
    refine ⟨out, ?_, e2, ?_, ?_⟩
    · rw [List.foldlM_cons, h1]; exact e1
    · intro j hj k hk
      rcases List.mem_cons.mp hj with rfl | hj
      · rw [e4]
        · simp only [hb]
          rw [if_pos ⟨by omega, by omega⟩, Nat.add_sub_cancel_left]
        · rintro j' hj' ⟨h5, h6⟩
          have := hdis j (by simp) j' (by simp [hj']) (d j + k) (by omega) (by omega) h5 h6
          subst this
          exact hnd.1 hj'
      · rw [e3 j hj k hk]
        simp only [hb]
        rw [if_neg]
        rintro ⟨h5, h6⟩
        have := hdis i (by simp) j (by simp [hj]) (d j + k) h5 h6 (by omega) (by omega)
        subst this
        exact hnd.1 hj
    · intro x hx
      rw [e4 x (fun j hj => hx j (by simp [hj]))]
      simp only [hb]
      rw [if_neg (hx i (by simp))]

/-! ### the pair mask -/

theorem selected_lt {mask : List Bool} {x : Nat} (h : Selected mask x) : x < mask.length := by
  by_contra hge
  rw [Selected, List.getD_eq_getElem?_getD, List.getElem?_eq_none (by omega)] at h
  simp at h

theorem rank_lt {mask : List Bool} {x : Nat} (h : Selected mask x) : rank mask x < mask.count true := by
  have h1 : rank mask (x + 1) = rank mask x + 1 := by
    rw [rank_succ]; unfold Selected at h; rw [if_pos h]
  have h2 : rank mask (x + 1) ≤ mask.count true := by
    unfold rank; exact (List.take_sublist _ _).count_le _
  omega

theorem map_and_count (p : Bool) (l : List Bool) : (l.map (fun q => p && q)).count true = if p then l.count true else 0 := by
  cases p
  · simp [List.count_eq_zero]
  · simp

theorem pair_rows (l orb : List Bool) (p q : Nat) (hq : q < orb.length) :
    (l.flatMap (fun p => orb.map (fun q => p && q))).getD (p * orb.length + q) false = (l.getD p false && orb.getD q false) ∧
    ((l.flatMap (fun p => orb.map (fun q => p && q))).take (p * orb.length + q)).count true =
      (l.take p).count true * orb.count true + (if l.getD p false then (orb.take q).count true else 0) := by
  induction l generalizing p with
  | nil => simp
  | cons b bs ih =>
    rw [List.flatMap_cons]
    cases p with
    | zero =>
      constructor
      · rw [Nat.zero_mul, Nat.zero_add, List.getD_append _ _ _ _ (by simpa using hq)]
        simp [hq]
      · rw [Nat.zero_mul, Nat.zero_add, List.take_append_of_le_length (by simp; omega), ← List.map_take, map_and_count]
        simp
    | succ p =>
      have hlen : (orb.map (fun q => b && q)).length = orb.length := by simp
      have hidx : (p + 1) * orb.length + q = orb.length + (p * orb.length + q) := by ring
      constructor
      · rw [hidx, List.getD_append_right _ _ _ _ (by omega), hlen, Nat.add_sub_cancel_left, (ih p).1]
        simp
      · rw [hidx, List.take_append, hlen, Nat.add_sub_cancel_left, List.take_of_length_le (by omega),
          List.count_append, map_and_count, (ih p).2]
        rw [List.take_succ_cons, List.getD_cons_succ]
        cases b <;> simp <;> ring

theorem pairMask_length (orb : List Bool) : (pairMask orb).length = orb.length * orb.length := by
  unfold pairMask
  have : ∀ l : List Bool, (l.flatMap (fun p => orb.map (fun q => p && q))).length = l.length * orb.length := by
    intro l
    induction l with
    | nil => simp
    | cons b bs ih => rw [List.flatMap_cons, List.length_append, ih]; simp; ring
  exact this orb

theorem pairMask_selected (orb : List Bool) (p q : Nat) (hq : q < orb.length) :
    Selected (pairMask orb) (p * orb.length + q) ↔ Selected orb p ∧ Selected orb q := by
  unfold Selected pairMask
  rw [(pair_rows orb orb p q hq).1]
  simp

theorem pairMask_rank (orb : List Bool) (p q : Nat) (hq : q < orb.length) (hp : Selected orb p) :
    rank (pairMask orb) (p * orb.length + q) = rank orb p * orb.count true + rank orb q := by
  unfold rank pairMask
  rw [(pair_rows orb orb p q hq).2]
  unfold Selected at hp
  rw [if_pos hp]

theorem pairMask_count (orb : List Bool) : (pairMask orb).count true = orb.count true * orb.count true := by
  unfold pairMask
  have : ∀ l : List Bool, (l.flatMap (fun p => orb.map (fun q => p && q))).count true = l.count true * orb.count true := by
    intro l
    induction l with
    | nil => simp
    | cons b bs ih =>
      rw [List.flatMap_cons, List.count_append, ih, map_and_count]
      cases b <;> simp <;> ring
  exact this orb

/-! ### `np.where` -/

theorem whereFrom_length (l : List Bool) (k : Nat) : (whereFrom l k).length = l.count true := by
  induction l generalizing k with
  | nil => rfl
  | cons b bs ih => cases b <;> simp [whereFrom, ih] <;> omega

theorem whereFrom_rank (l : List Bool) (k x : Nat) (h : Selected l x) :
    (whereFrom l k)[rank l x]? = some (k + x) := by
  induction l generalizing k x with
  | nil => simp [Selected] at h
  | cons b bs ih =>
    cases x with
    | zero =>
      have : b = true := by simpa [Selected] using h
      subst this
      simp [whereFrom, rank]
    | succ x =>
      have hs : Selected bs x := by simpa [Selected] using h
      have := ih (k + 1) x hs
      cases b
      · simp only [whereFrom, Bool.false_eq_true, if_false, List.nil_append]
        have hr : rank (false :: bs) (x + 1) = rank bs x := by simp [rank]
        rw [hr, this]; congr 1; omega
      · simp only [whereFrom, if_true]
        have hr : rank (true :: bs) (x + 1) = rank bs x + 1 := by simp [rank]
        rw [hr, List.singleton_append, List.getElem?_cons_succ, this]; congr 1; omega

theorem exists_rank (l : List Bool) (i : Nat) (hi : i < l.count true) : ∃ x, Selected l x ∧ rank l x = i := by
  induction l generalizing i with
  | nil => simp at hi
  | cons b bs ih =>
    cases b
    · obtain ⟨x, h1, h2⟩ := ih i (by simpa using hi)
      exact ⟨x + 1, by simpa [Selected] using h1, by simpa [rank] using h2⟩
    · cases i with
      | zero => exact ⟨0, by simp [Selected], by simp [rank]⟩
      | succ i =>
        obtain ⟨x, h1, h2⟩ := ih i (by simpa using hi)
        exact ⟨x + 1, by simpa [Selected] using h1, by simp [rank] at h2 ⊢; omega⟩

/-! ### the prepared blocks -/

/-- what the caller prepares is a correct block list -/
theorem orbrange_copies (orb : List Bool) (nthreads : Nat) (h0 : orb ≠ []) (ht : 0 < nthreads) :
    ∃ dblk sblk lblk, orbrange orb nthreads =
        some (orb.count true, npWhere (pairMask orb), dblk, sblk, lblk, lblk.length) ∧
      Copies (pairMask orb) dblk (sblk.take lblk.length) lblk := by
  unfold orbrange
  by_cases hall : orb.count true = orb.length
  · have hpos : 0 < orb.length := List.length_pos_iff.mpr h0
    obtain ⟨start, len, e1, e2, e3, e4, e5, e6, e7, e8, e9⟩ := C17_tiles (orb.length ^ 2) nthreads (Nat.pow_pos hpos) ht
    refine ⟨start, start, len, ?_, ?_⟩
    · simp only [hall, if_true, e1, Option.map_some]
    · have hsel : ∀ x, x < orb.length ^ 2 → Selected (pairMask orb) x := by
        intro x hx
        have hrow : x = x / orb.length * orb.length + x % orb.length := (Nat.div_add_mod' x orb.length).symm
        rw [hrow, pairMask_selected orb _ _ (Nat.mod_lt _ hpos)]
        have ha : ∀ y, y < orb.length → Selected orb y := by
          intro y hy
          have := List.count_eq_length.mp hall (orb[y]) (List.getElem_mem _)
          rw [Selected, List.getD_eq_getElem _ _ hy, ← this]
        refine ⟨ha _ ?_, ha _ (Nat.mod_lt _ hpos)⟩
        rw [Nat.div_lt_iff_lt_mul hpos, ← pow_two]; exact hx
      have hend : ∀ i, i < start.length → start.getD i 0 + len.getD i 0 ≤ orb.length ^ 2 := by
        intro i hi
        have key : ∀ m, i + m < start.length → start.getD i 0 + len.getD i 0 ≤ start.getD (i + m) 0 + len.getD (i + m) 0 := by
          intro m
          induction m with
          | zero => intro _; exact Nat.le_refl _
          | succ m ih =>
            intro hm
            have := ih (by omega)
            have h5 := e5 (i + m) (by omega)
            rw [show i + (m + 1) = i + m + 1 by omega]
            omega
        have := key (start.length - 1 - i) (by omega)
        rw [show i + (start.length - 1 - i) = start.length - 1 by omega, e6] at this
        exact this
      have htake : start.take len.length = start := by rw [List.take_of_length_le]; omega
      rw [htake]
      refine ⟨⟨rfl, by omega⟩, e7, ?_, ?_⟩
      · intro i k hi hk
        have hx : start.getD i 0 + k < orb.length ^ 2 := by have := hend i hi; omega
        refine ⟨hsel _ hx, ?_⟩
        have := rank_run (pairMask orb) 0 (start.getD i 0 + k) (fun j hj => by rw [Nat.zero_add]; exact hsel j (by omega))
        rw [Nat.zero_add] at this
        rw [this]; simp [rank]
      · intro x hx
        apply e9
        have := selected_lt hx
        rw [pairMask_length, ← pow_two] at this
        exact this
  · have h := (C16_copies (pairMask orb) _ _ _ rfl).1
    refine ⟨(getContigBlks (pairMask orb)).2.1, (getContigBlks (pairMask orb)).1.map Int.toNat,
      (getContigBlks (pairMask orb)).2.2.map Int.toNat, ?_, ?_⟩
    · simp only [hall, if_false, List.length_map]
    · rw [List.map_take] at h
      rw [List.length_map]
      exact h

theorem copies_end {mask : List Bool} {D S L : List Nat} (h : Copies mask D S L) (i : Nat) (hi : i < D.length) :
    D.getD i 0 + L.getD i 0 ≤ mask.length ∧ S.getD i 0 + L.getD i 0 ≤ mask.count true := by
  have h1 := h.nonempty i hi
  have h2 := h.sound i (L.getD i 0 - 1) hi (by omega)
  have h3 := selected_lt h2.1
  have h4 := rank_lt h2.1
  omega

theorem copies_card {mask : List Bool} {D S L : List Nat} (h : Copies mask D S L) : D.length ≤ mask.length := by
  have hnd : D.Nodup := by
    rw [List.nodup_iff_injective_getElem]
    intro ⟨i, hi⟩ ⟨j, hj⟩ he
    simp only at he
    have h1 := h.nonempty i hi
    have h2 := h.nonempty j hj
    have h3 := (h.sound i 0 hi (by omega)).1
    obtain ⟨m, -, hm⟩ := h.complete _ h3
    have e1 := hm i ⟨hi, by omega, by omega⟩
    have e2 := hm j ⟨hj, by rw [List.getD_eq_getElem _ _ hj, List.getD_eq_getElem _ _ hi, he]; omega,
      by rw [List.getD_eq_getElem _ _ hj, List.getD_eq_getElem _ _ hi, he]; omega⟩
    ext
    simp only
    omega
  have hsub : D ⊆ List.range mask.length := by
    intro x hx
    obtain ⟨i, hi, rfl⟩ := List.getElem_of_mem hx
    have := (copies_end h i hi).1
    have h1 := h.nonempty i hi
    rw [List.getD_eq_getElem _ _ hi] at this
    rw [List.mem_range]
    omega
  have := (List.subperm_of_subset hnd hsub).length_le
  simpa using this

theorem i32_some {x : Nat} (h : x < 2 ^ 31) : i32 x = some x := by unfold i32; rw [if_pos h]

theorem cassert_true {c : Prop} [Decidable c] (h : c) : cassert (decide c) = some () := by
  unfold cassert; rw [if_pos (by simpa using h)]

theorem getElem?_getD (l : List Nat) (i : Nat) (h : i < l.length) : l[i]? = some (l.getD i 0) := by
  rw [List.getElem?_eq_getElem h, List.getD_eq_getElem _ _ h]

/-- decoding of two nested divisions -/
theorem decode2 (i b c : Nat) (hc : 0 < c) : i / (b * c) * b + i % (b * c) / c = i / c ∧ i % (b * c) % c = i % c := by
  constructor
  · have h1 : i / (b * c) = i / c / b := by rw [Nat.mul_comm b c, Nat.div_div_eq_div_mul]
    have h2 : i % (b * c) / c = i / c % b := by rw [Nat.mul_comm b c, Nat.mod_mul_right_div_self]
    rw [h1, h2, Nat.div_add_mod']
  · exact Nat.mod_mul_left_mod _ _ _

end Verif.RdmC
