import Verif.Lemmas.CplxCi2
/-!
# Lemmas: sums over link tables are excitation operators
-/
namespace Verif.CplxCi
open Verif.FciRdm Verif.HalfOp Verif.Spec.CplxCi Verif.Spec.HalfOp Verif.Spec.Tdm Verif.Spec.FciRdm Verif.Fockspace
open Verif.Spec.Fsucc (nOcc nAbove)

/-- The sign of `p'q` on a string, and when it is not zero: the string contains `p`, and without `p` it does not contain `q`. -/
def sgnx (n D p q : Nat) : Nat := nAbove n D p + nAbove n (D ^^^ 2 ^ p) q
def okx (D p q : Nat) : Bool := D.testBit p && !(D ^^^ 2 ^ p).testBit q

section
variable {K : Type} [Field K]

theorem exc_up (n p q : Nat) (ψ : Vec K) (A B : Nat) :
    exc n false p q ψ A B = if okx A p q then (-1) ^ sgnx n A p q * ψ (A ^^^ 2 ^ p ^^^ 2 ^ q) B else 0 := by
  unfold exc cre ann okx sgnx
  simp only [Bool.false_eq_true, if_false]
  cases A.testBit p <;> cases (A ^^^ 2 ^ p).testBit q <;> simp [pow_add, mul_assoc]

theorem exc_down (n p q : Nat) (ψ : Vec K) (A B : Nat) :
    exc n true p q ψ A B = if okx B p q then (-1) ^ sgnx n B p q * ψ A (B ^^^ 2 ^ p ^^^ 2 ^ q) else 0 := by
  unfold exc cre ann okx sgnx
  simp only [if_true]
  cases B.testBit p <;> cases (B ^^^ 2 ^ p).testBit q <;> simp [pow_add]
  have := Ladder.sq1 (K := K) (nOcc 0 n A)
  linear_combination ((-1) ^ nAbove n B p * (-1) ^ nAbove n (B ^^^ 2 ^ p) q * ψ A (B ^^^ 2 ^ p ^^^ 2 ^ q)) * this
end

theorem xor_cancel (D x y : Nat) : D ^^^ x ^^^ y ^^^ y = D ^^^ x := by rw [Nat.xor_assoc, Nat.xor_self, Nat.xor_zero]
theorem xor_cancel2 (D x y : Nat) : D ^^^ x ^^^ y ^^^ y ^^^ x = D := by rw [xor_cancel, Nat.xor_assoc, Nat.xor_self, Nat.xor_zero]

theorem nAbove_flip (n D p : Nat) : nAbove n (D ^^^ 2 ^ p) p = nAbove n D p := by
  rw [Verif.Tdm.nAbove_eq, Verif.Tdm.nAbove_eq]
  apply nOcc_congr
  intro q hq _
  exact testBit_xor_ne (by omega)

/-- The string after `p'q` has the reverse excitation, with the same sign. -/
theorem okx_rev {D p q : Nat} (h : okx D p q = true) : okx (D ^^^ 2 ^ p ^^^ 2 ^ q) q p = true := by
  unfold okx at *
  rw [Bool.and_eq_true] at h
  rw [xor_cancel, testBit_xor_self', testBit_xor_self', h.1]
  simpa using h.2

theorem sgnx_rev (n D p q : Nat) : sgnx n (D ^^^ 2 ^ p ^^^ 2 ^ q) q p = sgnx n D p q := by
  unfold sgnx
  rw [xor_cancel, nAbove_flip, nAbove_flip]
  omega

theorem strs_exc {n k D p q : Nat} (hD : D ∈ strs n k) (hp : p < n) (hq : q < n) (h : okx D p q = true) : D ^^^ 2 ^ p ^^^ 2 ^ q ∈ strs n k := by
  rw [mem_strs] at hD ⊢
  unfold okx at h
  rw [Bool.and_eq_true] at h
  refine ⟨(xor_lt hq).2 ((xor_lt hp).2 hD.1), ?_⟩
  have h1 := Verif.Tdm.nOcc_xor n q (D ^^^ 2 ^ p) hq (by simpa using h.2)
  have h2 := Verif.Tdm.nOcc_xor n p (D ^^^ 2 ^ p) hp (by rw [testBit_xor_self', h.1]; rfl)
  rw [Nat.xor_assoc D, Nat.xor_self, Nat.xor_zero] at h2
  omega

theorem getD_idx {n k D : Nat} (hD : D ∈ strs n k) : (strs n k).getD ((strs n k).idxOf D) 0 = D := by
  rw [List.getD_eq_getElem?_getD, List.getElem?_idxOf hD]
  rfl

theorem idx_lt {n k D : Nat} (hD : D ∈ strs n k) : (strs n k).idxOf D < (strs n k).length := List.idxOf_lt_length_of_mem hD

theorem getD_mem {n k s : Nat} (hs : s < (strs n k).length) : (strs n k).getD s 0 ∈ strs n k := by
  rw [List.getD_eq_getElem _ _ hs]
  exact List.getElem_mem hs

theorem idx_getD {n k s : Nat} (hs : s < (strs n k).length) : (strs n k).idxOf ((strs n k).getD s 0) = s := by
  rw [List.getD_eq_getElem _ _ hs]
  exact (strs_nodup n k).idxOf_getElem s hs

theorem idx_inj {n k D E : Nat} (hD : D ∈ strs n k) (h : (strs n k).idxOf D = (strs n k).idxOf E) (hE : E ∈ strs n k) : D = E := by
  rw [← getD_idx hD, ← getD_idx hE, h]

/-- Sums over the entries of a string. -/
theorem links_sum {M : Type} [AddCommMonoid M] (n k s : Nat) (G : Lk → M) :
    ((links n k s).map G).sum = ∑ i ∈ Finset.range n, ∑ a ∈ Finset.range n, if okx ((strs n k).getD s 0) i a then
      G ⟨a, i, (strs n k).idxOf ((strs n k).getD s 0 ^^^ 2 ^ i ^^^ 2 ^ a), (-1) ^ sgnx n ((strs n k).getD s 0) i a⟩ else 0 := by
  unfold links
  dsimp only
  set D := (strs n k).getD s 0
  have fm : ∀ (l : List Nat) (f : Nat → List Lk), ((l.flatMap f).map G).sum = (l.map fun i => ((f i).map G).sum).sum := by
    intro l f
    induction l with
    | nil => rfl
    | cons a l ih => rw [List.flatMap_cons, List.map_append, List.sum_append, ih, List.map_cons, List.sum_cons]
  rw [fm, sum_list_range]
  refine Finset.sum_congr rfl fun i _ => ?_
  have ff : ∀ (l : List Nat) (P : Nat → Bool) (g : Nat → M), ((l.filter P).map g).sum = (l.map fun a => if P a then g a else 0).sum := by
    intro l P g
    induction l with
    | nil => rfl
    | cons a l ih =>
      rw [List.filter_cons]
      cases h : P a
      · simp [h, ih]
      · simp [h, ih]
  rw [List.map_map, ff, sum_list_range]
  rfl

theorem links_good {n k : Nat} {la : Tab} (h : LinkTable n k la) : Good n (strs n k).length la := by
  intro s hs l hl
  have hl := (h s hs).subset hl
  unfold links at hl
  dsimp only at hl
  rw [List.mem_flatMap] at hl
  obtain ⟨i, hi, hl⟩ := hl
  obtain ⟨a, ha, rfl⟩ := List.mem_map.1 hl
  rw [List.mem_filter] at ha
  have hi := List.mem_range.1 hi
  have ha1 := List.mem_range.1 ha.1
  refine ⟨ha1, hi, idx_lt (strs_exc (getD_mem hs) hi ha1 ha.2), ?_⟩
  exact neg_one_pow_eq_or ℤ _

theorem cast_sign (m : Nat) : (((-1 : Int) ^ m : Int) : ℂ) = (-1) ^ m := by push_cast; rfl

/-- Reading along the links of a string is an excitation operator. -/
theorem gather {n k : Nat} {la : Tab} (h : LinkTable n k la) {D p q : Nat} (hD : D ∈ strs n k) (hp : p < n) (hq : q < n) (F : Nat → ℂ) :
    ((la ((strs n k).idxOf D)).map fun l => if l.i = p ∧ l.a = q then (l.sign : ℂ) * F l.addr else 0).sum =
      if okx D p q then (-1) ^ sgnx n D p q * F ((strs n k).idxOf (D ^^^ 2 ^ p ^^^ 2 ^ q)) else 0 := by
  rw [((h _ (idx_lt hD)).map _).sum_eq, links_sum, getD_idx hD]
  have e : ∀ i ∈ Finset.range n, (∑ a ∈ Finset.range n, if okx D i a = true then (if i = p ∧ a = q then
      (((-1 : Int) ^ sgnx n D i a : Int) : ℂ) * F ((strs n k).idxOf (D ^^^ 2 ^ i ^^^ 2 ^ a)) else 0) else 0) =
      if i = p then (if okx D p q then (-1) ^ sgnx n D p q * F ((strs n k).idxOf (D ^^^ 2 ^ p ^^^ 2 ^ q)) else 0) else 0 := by
    intro i _
    by_cases hi : i = p
    · subst hi
      rw [if_pos rfl]
      have e2 : ∀ a ∈ Finset.range n, (if okx D i a = true then (if i = i ∧ a = q then
          (((-1 : Int) ^ sgnx n D i a : Int) : ℂ) * F ((strs n k).idxOf (D ^^^ 2 ^ i ^^^ 2 ^ a)) else 0) else 0) =
          if a = q then (if okx D i q then (-1) ^ sgnx n D i q * F ((strs n k).idxOf (D ^^^ 2 ^ i ^^^ 2 ^ q)) else 0) else 0 := by
        intro a _
        by_cases ha : a = q
        · subst ha; simp [cast_sign]
        · simp [ha]
      rw [Finset.sum_congr rfl e2, Finset.sum_ite_eq', if_pos (Finset.mem_range.2 hq)]
    · simp [hi]
  refine (Finset.sum_congr rfl e).trans ?_
  rw [Finset.sum_ite_eq', if_pos (Finset.mem_range.2 hp)]

/-- Writing along the links of all strings is an excitation operator. -/
theorem scatter {n k : Nat} {la : Tab} (h : LinkTable n k la) {E : Nat} (hE : E ∈ strs n k) (F : Nat → Nat → Nat → ℂ) :
    (∑ s ∈ Finset.range (strs n k).length, ((la s).map fun l => if l.addr = (strs n k).idxOf E then (l.sign : ℂ) * F s l.a l.i else 0).sum) =
      ∑ a ∈ Finset.range n, ∑ i ∈ Finset.range n, if okx E a i then
        (-1) ^ sgnx n E a i * F ((strs n k).idxOf (E ^^^ 2 ^ a ^^^ 2 ^ i)) a i else 0 := by
  have e : ∀ s ∈ Finset.range (strs n k).length, ((la s).map fun l => if l.addr = (strs n k).idxOf E then (l.sign : ℂ) * F s l.a l.i else 0).sum =
      ∑ i ∈ Finset.range n, ∑ a ∈ Finset.range n, if okx ((strs n k).getD s 0) i a then
        (if (strs n k).idxOf ((strs n k).getD s 0 ^^^ 2 ^ i ^^^ 2 ^ a) = (strs n k).idxOf E then
          (-1) ^ sgnx n ((strs n k).getD s 0) i a * F s a i else 0) else 0 := by
    intro s hs
    rw [((h s (Finset.mem_range.1 hs)).map _).sum_eq, links_sum]
    simp only [cast_sign]
  rw [Finset.sum_congr rfl e, Finset.sum_comm]
  rw [Finset.sum_congr rfl fun i _ => Finset.sum_comm]
  rw [Finset.sum_comm]
  refine Finset.sum_congr rfl fun a ha => Finset.sum_congr rfl fun i hi => ?_
  have ha := Finset.mem_range.1 ha
  have hi := Finset.mem_range.1 hi
  by_cases hk : okx E a i = true
  · rw [if_pos hk]
    have hm := strs_exc hE ha hi hk
    rw [Finset.sum_eq_single ((strs n k).idxOf (E ^^^ 2 ^ a ^^^ 2 ^ i))]
    · rw [getD_idx hm, if_pos (okx_rev hk), xor_cancel2, if_pos rfl, sgnx_rev]
    · intro s hs hne
      have hs := Finset.mem_range.1 hs
      split
      · next h1 =>
        rw [if_neg]
        intro h2
        have h3 := idx_inj (strs_exc (getD_mem hs) hi ha h1) h2 hE
        apply hne
        rw [← h3, xor_cancel2, idx_getD hs]
      · rfl
    · intro hn
      exact absurd (Finset.mem_range.2 (idx_lt hm)) hn
  · rw [if_neg hk]
    refine Finset.sum_eq_zero fun s hs => ?_
    have hs := Finset.mem_range.1 hs
    split
    · next h1 =>
      rw [if_neg]
      intro h2
      have h3 := idx_inj (strs_exc (getD_mem hs) hi ha h1) h2 hE
      apply hk
      rw [← h3]
      exact okx_rev h1
    · rfl

/-- The intermediate array holds the vectors `Σ_s p'_s q_s |c⟩`. -/
theorem tt_val {n : Nat} {e : Nat × Nat} {la lb : Tab} (ha : LinkTable n e.1 la) (hb : LinkTable n e.2 lb) (c : Arr ℂ) {A B p q : Nat}
    (hA : A ∈ strs n e.1) (hB : B ∈ strs n e.2) (hp : p < n) (hq : q < n) :
    tt (strs n e.2).length la lb (toFlat (strs n e.2).length c) ((strs n e.1).idxOf A) ((strs n e.2).idxOf B) p q =
      ∑ s : Bool, exc n s p q (vec n e c) A B := by
  unfold tt
  rw [gather ha hA hp hq (fun x => toFlat (strs n e.2).length c (x * (strs n e.2).length + (strs n e.2).idxOf B)),
    gather hb hB hp hq (fun x => toFlat (strs n e.2).length c ((strs n e.1).idxOf A * (strs n e.2).length + x)), Fintype.sum_bool, exc_up, exc_down, add_comm]
  congr 1
  · split
    · next h =>
      have hm := strs_exc hB hp hq h
      rw [toFlat_val (idx_lt hm)]
      unfold vec
      rw [if_pos ⟨hA, hm⟩]
    · rfl
  · split
    · next h =>
      have hm := strs_exc hA hp hq h
      rw [toFlat_val (idx_lt hB)]
      unfold vec
      rw [if_pos ⟨hm, hB⟩]
    · rfl

/-- `Σ_pq eri[p,q,a,i] Σ_s p'_s q_s |c⟩`. -/
noncomputable def vv (n : Nat) (eri : M4 ℂ) (ψ : Vec ℂ) (a i : Nat) : Vec ℂ := fun A B =>
  ∑ p ∈ Finset.range n, ∑ q ∈ Finset.range n, eri p q a i * ∑ s : Bool, exc n s p q ψ A B

theorem ww_val {n : Nat} {e : Nat × Nat} {la lb : Tab} (ha : LinkTable n e.1 la) (hb : LinkTable n e.2 lb) (eri : M4 ℂ) (c : Arr ℂ) {A B : Nat}
    (hA : A ∈ strs n e.1) (hB : B ∈ strs n e.2) (a i : Nat) :
    ww eri n (strs n e.2).length la lb (toFlat (strs n e.2).length c) ((strs n e.1).idxOf A) ((strs n e.2).idxOf B) a i = vv n eri (vec n e c) a i A B := by
  unfold ww vv
  refine Finset.sum_congr rfl fun p hp => Finset.sum_congr rfl fun q hq => ?_
  rw [tt_val ha hb c hA hB (Finset.mem_range.1 hp) (Finset.mem_range.1 hq)]

/-- The spin-down half of the result: `Σ_ai a'i` on the intermediate vectors. -/
theorem half_down {n : Nat} {e : Nat × Nat} {la lb : Tab} (ha : LinkTable n e.1 la) (hb : LinkTable n e.2 lb) (eri : M4 ℂ) (c : Arr ℂ) {A B : Nat}
    (hA : A ∈ strs n e.1) (hB : B ∈ strs n e.2) :
    (∑ b ∈ Finset.range (strs n e.2).length, ((lb b).map fun l => if l.addr = (strs n e.2).idxOf B then
      (l.sign : ℂ) * ww eri n (strs n e.2).length la lb (toFlat (strs n e.2).length c) ((strs n e.1).idxOf A) b l.a l.i else 0).sum) =
    ∑ a ∈ Finset.range n, ∑ i ∈ Finset.range n, exc n true a i (vv n eri (vec n e c) a i) A B := by
  rw [scatter hb hB (fun b a i => ww eri n (strs n e.2).length la lb (toFlat (strs n e.2).length c) ((strs n e.1).idxOf A) b a i)]
  refine Finset.sum_congr rfl fun a h1 => Finset.sum_congr rfl fun i h2 => ?_
  rw [exc_down]
  split
  · next h =>
    rw [ww_val ha hb eri c hA (strs_exc hB (Finset.mem_range.1 h1) (Finset.mem_range.1 h2) h)]
  · rfl

theorem half_up {n : Nat} {e : Nat × Nat} {la lb : Tab} (ha : LinkTable n e.1 la) (hb : LinkTable n e.2 lb) (eri : M4 ℂ) (c : Arr ℂ) {A B : Nat}
    (hA : A ∈ strs n e.1) (hB : B ∈ strs n e.2) :
    (∑ s ∈ Finset.range (strs n e.1).length, ((la s).map fun l => if l.addr = (strs n e.1).idxOf A then
      (l.sign : ℂ) * ww eri n (strs n e.2).length la lb (toFlat (strs n e.2).length c) s ((strs n e.2).idxOf B) l.a l.i else 0).sum) =
    ∑ a ∈ Finset.range n, ∑ i ∈ Finset.range n, exc n false a i (vv n eri (vec n e c) a i) A B := by
  rw [scatter ha hA (fun s a i => ww eri n (strs n e.2).length la lb (toFlat (strs n e.2).length c) s ((strs n e.2).idxOf B) a i)]
  refine Finset.sum_congr rfl fun a h1 => Finset.sum_congr rfl fun i h2 => ?_
  rw [exc_up]
  split
  · next h =>
    rw [ww_val ha hb eri c (strs_exc hA (Finset.mem_range.1 h1) (Finset.mem_range.1 h2) h) hB]
  · rfl

theorem both_halves (n : Nat) (eri : M4 ℂ) (ψ : Vec ℂ) (A B : Nat) :
    (∑ a ∈ Finset.range n, ∑ i ∈ Finset.range n, exc n true a i (vv n eri ψ a i) A B) +
      (∑ a ∈ Finset.range n, ∑ i ∈ Finset.range n, exc n false a i (vv n eri ψ a i) A B) =
    twoE n (fun _ _ p q r u => eri r u p q) ψ A B := by
  unfold twoE vv
  rw [← Finset.sum_add_distrib]
  refine Finset.sum_congr rfl fun a _ => ?_
  rw [← Finset.sum_add_distrib]
  refine Finset.sum_congr rfl fun i _ => ?_
  have e : ∀ s : Bool, exc n s a i (fun A B => ∑ p ∈ Finset.range n, ∑ q ∈ Finset.range n, eri p q a i * ∑ t : Bool, exc n t p q ψ A B) A B =
      ∑ p ∈ Finset.range n, ∑ q ∈ Finset.range n, ∑ t : Bool, eri p q a i * exc n s a i (exc n t p q ψ) A B := by
    intro s
    rw [exc_sum]
    refine Finset.sum_congr rfl fun p _ => ?_
    rw [exc_sum]
    refine Finset.sum_congr rfl fun q _ => ?_
    rw [exc_smul, exc_sum]
    exact Finset.mul_sum _ _ _
  rw [e, e, ← Finset.sum_add_distrib]
  refine Finset.sum_congr rfl fun p _ => ?_
  rw [← Finset.sum_add_distrib]
  refine Finset.sum_congr rfl fun q _ => ?_
  simp only [Fintype.sum_bool]

end Verif.CplxCi
