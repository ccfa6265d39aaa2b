import Verif.Spec.Swaps
namespace Verif.Spec
open List
variable {α : Type}

theorem Swaps.trans {n m : Nat} {u v w : List α} (h1 : Swaps n u v) (h2 : Swaps m v w) :
    Swaps (n + m) u w := by
  induction h2 with
  | refl => simpa using h1
  | step pre a b post _ ih => exact Swaps.step pre a b post (ih h1)

theorem Swaps.ctx {n : Nat} {w w' : List α} (p s : List α) (h : Swaps n w w') :
    Swaps n (p ++ w ++ s) (p ++ w' ++ s) := by
  induction h with
  | refl => exact Swaps.refl _
  | step pre a b post _ ih =>
    have := Swaps.step (p ++ pre) a b (post ++ s) (by simpa [List.append_assoc] using ih)
    simpa [List.append_assoc] using this

theorem Swaps.perm {n : Nat} {w w' : List α} (h : Swaps n w w') : w'.Perm w := by
  induction h with
  | refl => exact Perm.refl _
  | step pre a b post _ ih =>
    exact (Perm.append_left pre (Perm.swap a b post)).trans ih

theorem Swaps.cast {n m : Nat} {u v : List α} (h : Swaps n u v) (e : n = m) : Swaps m u v := e ▸ h

theorem swaps_letter (a : α) (B : List α) : Swaps B.length (a :: B) (B ++ [a]) := by
  induction B with
  | nil => exact Swaps.refl _
  | cons b B ih =>
    have h1 : Swaps 1 (a :: b :: B) (b :: a :: B) := by
      have := Swaps.step (n := 0) [] a b B (Swaps.refl (a :: b :: B))
      simpa using this
    have h2 := ih.ctx [b] []
    have := h1.trans (by simpa using h2)
    exact (by simpa using this : Swaps (1 + B.length) (a :: b :: B) (b :: (B ++ [a]))).cast (by simp; omega)

theorem swaps_block (A B : List α) : Swaps (A.length * B.length) (A ++ B) (B ++ A) := by
  induction A with
  | nil => simpa using Swaps.refl B
  | cons a A ih =>
    have h1 := ih.ctx [a] []
    have h2 := (swaps_letter a B).ctx [] A
    have := Swaps.trans (by simpa using h1) (by simpa using h2)
    exact Swaps.cast (by simpa using this) (by simp [Nat.succ_mul])

/-- inversions of a word with respect to a rank -/
def inv (r : α → Nat) : List α → Nat
  | [] => 0
  | a :: t => (t.filter (fun b => decide (r b < r a))).length + inv r t

theorem inv_append_swap (r : α → Nat) (pre : List α) (a b : α) (post : List α) (h : r a ≠ r b) :
    (inv r (pre ++ b :: a :: post)) % 2 ≠ (inv r (pre ++ a :: b :: post)) % 2 := by
  induction pre with
  | nil =>
    simp only [List.nil_append, inv, List.filter_cons]
    rcases Nat.lt_or_gt_of_ne h with h' | h'
    · have : ¬ r b < r a := by omega
      simp only [h', this, decide_true, decide_false, if_true, List.length_cons]
      simp
      omega
    · have : ¬ r a < r b := by omega
      simp only [h', this, decide_true, decide_false, if_true, List.length_cons]
      simp
      omega
  | cons c pre ih =>
    simp only [List.cons_append, inv]
    have e : (filter (fun x => decide (r x < r c)) (pre ++ b :: a :: post)).length
        = (filter (fun x => decide (r x < r c)) (pre ++ a :: b :: post)).length := by
      apply List.Perm.length_eq
      apply List.Perm.filter
      exact Perm.append_left pre (Perm.swap a b post)
    rw [e]
    omega

theorem Swaps.inv_parity {n : Nat} {w w' : List α} (r : α → Nat) (h : Swaps n w w')
    (hinj : ∀ a ∈ w, ∀ b ∈ w, r a = r b → a = b) (hn : w.Nodup) :
    (inv r w + n) % 2 = inv r w' % 2 := by
  induction h with
  | refl => simp
  | step pre a b post hs ih =>
    have hp := hs.perm
    have hnd : (pre ++ a :: b :: post).Nodup := hp.nodup_iff.mpr hn
    have hab : a ≠ b := by
      intro e; subst e
      have := (List.nodup_append.mp hnd).2.1
      simp at this
    have hr : r a ≠ r b := by
      intro e
      exact hab (hinj a (hp.mem_iff.mp (by simp)) b (hp.mem_iff.mp (by simp)) e)
    have := inv_append_swap r pre a b post hr
    have ih' := ih hinj hn
    omega

theorem Swaps.parity_unique [DecidableEq α] {n m : Nat} {w w' : List α} (hn : w.Nodup)
    (h1 : Swaps n w w') (h2 : Swaps m w w') : n % 2 = m % 2 := by
  have hinj : ∀ a ∈ w, ∀ b ∈ w, w.idxOf a = w.idxOf b → a = b := by
    intro a ha b hb e
    have h1 := List.getElem_idxOf (List.idxOf_lt_length_of_mem ha)
    have h2 := List.getElem_idxOf (List.idxOf_lt_length_of_mem hb)
    rw [← h1, ← h2]; simp only [e]
  have e1 := h1.inv_parity (fun a => w.idxOf a) hinj hn
  have e2 := h2.inv_parity (fun a => w.idxOf a) hinj hn
  omega

theorem neg_one_pow_parity (n : Nat) : ((-1 : Int)) ^ n = if n % 2 = 0 then 1 else -1 := by
  induction n with
  | zero => simp
  | succ n ih => rw [Int.pow_succ, ih]; split <;> split <;> omega

/-- one explicit reordering of a duplicate-free word fixes the sign of all of them -/
theorem IsReorderSign.of_path [DecidableEq α] {n : Nat} {w w' : List α} (hn : w.Nodup)
    (h : Swaps n w w') : IsReorderSign w w' (if n % 2 = 0 then 1 else -1) := by
  refine ⟨⟨n, h⟩, fun m hm => ?_⟩
  rw [neg_one_pow_parity, h.parity_unique hn hm]

theorem mem_block {f : Nat} {u : Bool} {n : Nat} {x : Op} :
    x ∈ block f u n ↔ x.cre = true ∧ x.frag = f ∧ x.up = u ∧ x.idx < n := by
  rcases x with ⟨c, g, v, k⟩
  simp only [block, List.mem_map, List.mem_range, Op.mk.injEq]
  constructor
  · rintro ⟨a, h, rfl, rfl, rfl, rfl⟩; exact ⟨rfl, rfl, rfl, h⟩
  · rintro ⟨rfl, rfl, rfl, h⟩; exact ⟨_, h, rfl, rfl, rfl, rfl⟩

theorem nodup_block (f : Nat) (u : Bool) (n : Nat) : (block f u n).Nodup := by
  unfold block
  rw [List.Nodup, List.pairwise_map]
  exact List.nodup_range.imp (by intro a b h e; apply h; simpa using e)

@[simp] theorem length_block (f : Nat) (u : Bool) (n : Nat) : (block f u n).length = n := by
  simp [block]

end Verif.Spec
