import Verif.Model.Blocks
import Verif.Spec.Blocks
import Mathlib.Data.List.GetD
import Mathlib.Tactic.Ring
namespace Verif.Blocks
open Verif.Spec Verif.Addr

/-- starts of runs, given the truth value just before -/
def startsFrom : Bool → List Bool → Nat → List Nat
  | _, [], _ => []
  | p, b :: bs, k => (if b && !p then [k] else []) ++ startsFrom b bs (k + 1)

def endsFrom : List Bool → Nat → List Nat
  | [], _ => []
  | b :: bs, k => (if b && !(bs.headD false) then [k] else []) ++ endsFrom bs (k + 1)

theorem starts_eq (mask : List Bool) (p : Bool) (k : Nat) :
    whereFrom (List.zipWith (fun b p => b && !p) mask (p :: mask.dropLast)) k = startsFrom p mask k := by
  induction mask generalizing p k with
  | nil => rfl
  | cons b bs ih =>
    cases bs with
    | nil => simp [whereFrom, startsFrom]
    | cons c cs =>
      have := ih b (k + 1)
      simp only [List.dropLast_cons₂, List.zipWith_cons_cons, whereFrom, startsFrom] at this ⊢
      rw [this]

theorem andNotInt_eq (b c : Bool) : andNotInt b (if c then 1 else 0) = (b && !c) := by
  cases b <;> cases c <;> rfl

theorem ends_eq (mask : List Bool) (k : Nat) :
    whereFrom (List.zipWith andNotInt mask ((mask.drop 1).map (fun b => if b then 1 else 0) ++ [0])) k =
      endsFrom mask k := by
  induction mask generalizing k with
  | nil => rfl
  | cons b bs ih =>
    cases bs with
    | nil =>
      have : andNotInt b 0 = (b && !false) := andNotInt_eq b false
      simp [whereFrom, endsFrom, this]
    | cons c cs =>
      have := ih (k + 1)
      simp only [List.drop_succ_cons, List.drop_zero, List.map_cons, List.cons_append, List.zipWith_cons_cons,
        whereFrom, endsFrom, andNotInt_eq, List.headD_cons] at this ⊢
      rw [this]
      rfl

/-- the runs of a mask -/
structure Good (bs : List Bool) (k : Nat) (R : List (Nat × Nat)) : Prop where
  pos : ∀ r ∈ R, 1 ≤ r.2 ∧ k ≤ r.1
  sep : R.Pairwise (fun r s => r.1 + r.2 < s.1)
  cover : ∀ i, bs.getD i false = true ↔ ∃ r ∈ R, r.1 ≤ k + i ∧ k + i < r.1 + r.2

theorem runs (bs : List Bool) : ∀ k, ∃ R, Good bs k R ∧ startsFrom false bs k = R.map (·.1) ∧
    endsFrom bs k = R.map (fun r => r.1 + r.2 - 1) ∧
    startsFrom true bs k = (if bs.headD false then (R.map (·.1)).tail else R.map (·.1)) ∧
    (bs.headD false = true → ∃ l R', R = (k, l) :: R') := by
  induction bs with
  | nil =>
    intro k
    refine ⟨[], ⟨by simp, by simp, by simp⟩, rfl, rfl, rfl, by simp⟩
  | cons b bs ih =>
    intro k
    obtain ⟨R, hG, h1, h2, h3, h4⟩ := ih (k + 1)
    cases b with
    | false =>
      refine ⟨R, ⟨?_, hG.sep, ?_⟩, ?_, ?_, ?_, by simp⟩
      · intro r hr; have := hG.pos r hr; omega
      · intro i
        cases i with
        | zero =>
          simp only [List.getD_cons_zero, Bool.false_eq_true, false_iff]
          rintro ⟨r, hr, h5, h6⟩
          have := hG.pos r hr; omega
        | succ i =>
          rw [List.getD_cons_succ, hG.cover i]
          constructor
          · rintro ⟨r, hr, h5, h6⟩; exact ⟨r, hr, by omega, by omega⟩
          · rintro ⟨r, hr, h5, h6⟩; exact ⟨r, hr, by omega, by omega⟩
      · simp [startsFrom, h1]
      · simp [endsFrom, h2]
      · simp [startsFrom, h1]
    | true =>
      by_cases hh : bs.headD false = true
      · obtain ⟨l, R', rfl⟩ := h4 hh
        rw [if_pos hh] at h3
        refine ⟨(k, l + 1) :: R', ⟨?_, ?_, ?_⟩, ?_, ?_, ?_, fun _ => ⟨_, _, rfl⟩⟩
        · intro r hr
          rcases List.mem_cons.mp hr with rfl | hr
          · simp
          · have := hG.pos r (by simp [hr]); omega
        · have := hG.sep
          rw [List.pairwise_cons] at this ⊢
          refine ⟨fun s hs => ?_, this.2⟩
          have := this.1 s hs
          simp only at this ⊢
          omega
        · intro i
          cases i with
          | zero =>
            simp only [List.getD_cons_zero, true_iff]
            exact ⟨(k, l + 1), by simp, by simp, by simp⟩
          | succ i =>
            rw [List.getD_cons_succ, hG.cover i]
            constructor
            · rintro ⟨r, hr, h5, h6⟩
              rcases List.mem_cons.mp hr with rfl | hr
              · exact ⟨(k, l + 1), by simp, by simp at h5 h6 ⊢, by simp at h5 h6 ⊢; omega⟩
              · exact ⟨r, by simp [hr], by omega, by omega⟩
            · rintro ⟨r, hr, h5, h6⟩
              rcases List.mem_cons.mp hr with rfl | hr
              · exact ⟨(k + 1, l), by simp, by simp at h5 h6 ⊢, by simp at h5 h6 ⊢; omega⟩
              · exact ⟨r, by simp [hr], by omega, by omega⟩
        · simp [startsFrom, h3]
        · simp only [endsFrom, hh, h2, List.map_cons]
          simp
        · simp [startsFrom, h3]
      · have hh' : bs.headD false = false := by simpa using hh
        rw [hh'] at h3
        simp only [Bool.false_eq_true, if_false] at h3
        have hfirst : bs.getD 0 false = false := by
          cases bs with
          | nil => rfl
          | cons c cs => simpa using hh'
        refine ⟨(k, 1) :: R, ⟨?_, ?_, ?_⟩, ?_, ?_, ?_, fun _ => ⟨_, _, rfl⟩⟩
        · intro r hr
          rcases List.mem_cons.mp hr with rfl | hr
          · simp
          · have := hG.pos r hr; omega
        · rw [List.pairwise_cons]
          refine ⟨fun s hs => ?_, hG.sep⟩
          have h5 := hG.pos s hs
          have h6 : s.1 ≠ k + 1 := by
            intro he
            have := (hG.cover 0).mpr ⟨s, hs, by omega, by omega⟩
            rw [hfirst] at this
            exact absurd this (by simp)
          simp only
          omega
        · intro i
          cases i with
          | zero =>
            simp only [List.getD_cons_zero, true_iff]
            exact ⟨(k, 1), by simp, by simp, by simp⟩
          | succ i =>
            rw [List.getD_cons_succ, hG.cover i]
            constructor
            · rintro ⟨r, hr, h5, h6⟩
              exact ⟨r, by simp [hr], by omega, by omega⟩
            · rintro ⟨r, hr, h5, h6⟩
              rcases List.mem_cons.mp hr with rfl | hr
              · simp at h5 h6
              · exact ⟨r, hr, by omega, by omega⟩
        · simp [startsFrom, h3]
        · simp only [endsFrom, hh', h2, List.map_cons]
          simp
        · simp [startsFrom, h3]

/-! ### ranks -/

theorem rank_succ (mask : List Bool) (x : Nat) :
    rank mask (x + 1) = rank mask x + (if mask.getD x false then 1 else 0) := by
  unfold rank
  by_cases h : x < mask.length
  · rw [List.take_succ_eq_append_getElem h, List.count_append, List.getD_eq_getElem _ _ h]
    cases mask[x] <;> simp
  · have : mask.getD x false = false := by simp [List.getD_eq_getElem?_getD, List.getElem?_eq_none (Nat.le_of_not_lt h)]
    rw [this, List.take_of_length_le (by omega), List.take_of_length_le (by omega)]
    simp

theorem rank_run (mask : List Bool) (x n : Nat) (h : ∀ k, k < n → mask.getD (x + k) false = true) :
    rank mask (x + n) = rank mask x + n := by
  induction n with
  | zero => rfl
  | succ n ih =>
    rw [← Nat.add_assoc, rank_succ, ih (fun k hk => h k (by omega)), h n (by omega)]
    simp; omega

theorem rank_gap (mask : List Bool) (x n : Nat) (h : ∀ k, k < n → mask.getD (x + k) false = false) :
    rank mask (x + n) = rank mask x := by
  induction n with
  | zero => rfl
  | succ n ih =>
    rw [← Nat.add_assoc, rank_succ, ih (fun k hk => h k (by omega)), h n (by omega)]
    simp

/-- the rank of the start of run `i` is the total length of the runs before it -/
theorem rank_start (mask : List Bool) (R : List (Nat × Nat)) (hG : Good mask 0 R) (i : Nat) (hi : i < R.length) :
    rank mask R[i].1 = ((R.map (·.2)).take i).sum ∧ rank mask (R[i].1 + R[i].2) = ((R.map (·.2)).take (i + 1)).sum := by
  have hsep := hG.sep
  rw [List.pairwise_iff_getElem] at hsep
  have hrun : ∀ j (hj : j < R.length), ∀ k, k < R[j].2 → mask.getD (R[j].1 + k) false = true := by
    intro j hj k hk
    exact (hG.cover _).mpr ⟨R[j], List.getElem_mem _, by omega, by omega⟩
  have key : rank mask R[i].1 = ((R.map (·.2)).take i).sum → rank mask (R[i].1 + R[i].2) = ((R.map (·.2)).take (i + 1)).sum := by
    intro h
    rw [rank_run _ _ _ (hrun i hi), h, List.take_succ_eq_append_getElem (by simpa using hi)]
    simp
  induction i with
  | zero =>
    have h0 : rank mask R[0].1 = ((R.map (·.2)).take 0).sum := by
      have := rank_gap mask 0 R[0].1 (by
        intro k hk
        by_contra hne
        obtain ⟨r, hr, h5, h6⟩ := (hG.cover (0 + k)).mp (by simpa using hne)
        obtain ⟨j, hj, rfl⟩ := List.getElem_of_mem hr
        rcases Nat.eq_zero_or_pos j with h0 | h0
        · subst h0; omega
        · have := hsep 0 j hi hj h0; omega)
      rw [Nat.zero_add] at this
      rw [this]; simp [rank]
    exact ⟨h0, key h0⟩
  | succ i ih =>
    have hi' : i < R.length := by omega
    have := (ih hi' (by
      intro h
      rw [rank_run _ _ _ (hrun i hi'), h, List.take_succ_eq_append_getElem (by simpa using hi')]
      simp)).2
    have hlt := hsep i (i + 1) hi' hi (by omega)
    have hg : rank mask (R[i].1 + R[i].2 + (R[i + 1].1 - (R[i].1 + R[i].2))) = rank mask (R[i].1 + R[i].2) := by
      apply rank_gap
      intro k hk
      by_contra hne
      obtain ⟨r, hr, h5, h6⟩ := (hG.cover (R[i].1 + R[i].2 + k)).mp (by simpa using hne)
      obtain ⟨j, hj, rfl⟩ := List.getElem_of_mem hr
      rcases Nat.lt_trichotomy j (i + 1) with h0 | h0 | h0
      · rcases Nat.lt_or_ge j i with h1 | h1
        · have := hsep j i hj hi' h1; omega
        · have : j = i := by omega
          subst this; omega
      · subst h0; omega
      · have := hsep (i + 1) j hi hj h0; omega
    rw [show R[i].1 + R[i].2 + (R[i + 1].1 - (R[i].1 + R[i].2)) = R[i + 1].1 by omega] at hg
    have h0 : rank mask R[i + 1].1 = ((R.map (·.2)).take (i + 1)).sum := by rw [hg, this]
    exact ⟨h0, key h0⟩

/-- closed form of the decomposition -/
theorem contig_closed (mask : List Bool) : ∃ R, Good mask 0 R ∧
    getContigBlks mask = (cumsumZ (0 :: (R.map (fun r => (r.2 : Int))).dropLast), R.map (·.1), R.map (fun r => (r.2 : Int))) := by
  obtain ⟨R, hG, h1, h2, -, -⟩ := runs mask 0
  refine ⟨R, hG, ?_⟩
  have hlen : List.zipWith (fun (e s : Nat) => (e : Int) - s + 1) (R.map (fun r => r.1 + r.2 - 1)) (R.map (·.1)) =
      R.map (fun r => (r.2 : Int)) := by
    rw [List.zipWith_map, List.zipWith_self]
    apply List.map_congr_left
    intro r hr
    have := (hG.pos r hr).1
    omega
  unfold getContigBlks
  simp only [npWhere, starts_eq, ends_eq, h1, h2, hlen]

theorem cumsumZ_length (l : List Int) : (cumsumZ l).length = l.length := by simp [cumsumZ]

theorem take_dropLast_sum (l : List Int) (i : Nat) (hi : i < l.length) :
    ((0 :: l.dropLast).take (i + 1)).sum = (l.take i).sum := by
  rw [List.take_succ_cons, List.sum_cons, zero_add, List.dropLast_eq_take, List.take_take,
    Nat.min_eq_left (by omega)]

theorem src_getD (R : List (Nat × Nat)) (i : Nat) (hi : i < R.length) :
    (cumsumZ (0 :: (R.map (fun r => (r.2 : Int))).dropLast)).getD i 0 = (((R.map (·.2)).take i).sum : Nat) := by
  have hl : i < (0 :: (R.map (fun r => (r.2 : Int))).dropLast).length := by
    rw [List.length_cons, List.length_dropLast, List.length_map]; omega
  rw [List.getD_eq_getElem _ _ (by rw [cumsumZ_length]; exact hl)]
  unfold cumsumZ
  rw [List.getElem_map, List.getElem_range, take_dropLast_sum _ i (by simpa using hi)]
  have : ∀ l : List (Nat × Nat), (l.map (fun r => (r.2 : Int))).sum = ((l.map (·.2)).sum : Nat) := by
    intro l
    induction l with
    | nil => rfl
    | cons a l ih => simp [ih]
  rw [← List.map_take, this, List.map_take]

end Verif.Blocks
