import Verif.Lemmas.CplxRdm2
/-!
# Lemmas: density matrices of complex vectors as scalar products
-/
namespace Verif.CplxRdm
open Verif.FciRdm Verif.HalfOp Verif.CplxCi Verif.Spec.CplxCi Verif.Spec.CplxRdm Verif.Spec.HalfOp Verif.Spec.Tdm Verif.Spec.FciRdm Verif.Fockspace

theorem dm1_herm {n p q : Nat} (s : Bool) (hp : p < n) (hq : q < n) (ψ : Vec ℂ) : star (dot n ψ (exc n s q p ψ)) = dot n ψ (exc n s p q ψ) := by
  rw [dot_conj, dot_exc s hq hp]

theorem dm1_conj {n p q : Nat} (s : Bool) (hp : p < n) (hq : q < n) (ψ : Vec ℂ) : star (dm1 n ψ s q p) = dm1 n ψ s p q :=
  dm1_herm s hq hp ψ

/-- The kernel of one spin. -/
def kap (s : Bool) : Kern := if s then .b else .a

section
variable {thr : ℝ} {n : Nat} {e : Nat × Nat} {la lb : Tab} (hla : LinkTable n e.1 la) (hlb : LinkTable n e.2 lb) {c : Arr ℂ}
  (hc : Seen thr (strs n e.1).length (strs n e.2).length c)
include hla hlb hc

theorem tot1_dot (s sym : Bool) {p q : Nat} (hp : p < n) (hq : q < n) :
    tot1 thr (kap s) sym (toFlat (strs n e.2).length c) (toFlat (strs n e.2).length c) n (strs n e.1).length (strs n e.2).length la lb (p * n + q) =
      dot n (vec n e c) (exc n s p q (vec n e c)) := by
  cases s
  · exact (tot1_a (links_good hla) hc sym hp hq).trans (dot1 (holds_xa hla c hp hq))
  · exact (tot1_b (links_good hlb) hc sym hp hq).trans (dot1 (holds_xb hlb c hp hq))

theorem tot2_dot (s sym : Bool) {p q r u : Nat} (hp : p < n) (hq : q < n) (hr : r < n) (hu : u < n) :
    tot2 thr (kap s) sym (toFlat (strs n e.2).length c) (toFlat (strs n e.2).length c) n (strs n e.1).length (strs n e.2).length la lb
      ((p * n + q) * (n * n) + (r * n + u)) =
      if sym = true → r * n + u ≤ p * n + q then dm2raw n (vec n e c) s s q p r u else 0 := by
  unfold dm2raw
  cases s
  · rw [← dot2 false hp hq (holds_xa hla c hr hu) (holds_xa hla c hp hq)]
    exact tot2_a (links_good hla) hc sym hp hq hr hu
  · rw [← dot2 true hp hq (holds_xb hlb c hr hu) (holds_xb hlb c hp hq)]
    exact tot2_b (links_good hlb) hc sym hp hq hr hu

theorem raw_conj (s t : Bool) {p q r u : Nat} (hp : p < n) (hq : q < n) (hr : r < n) (hu : u < n) :
    star (dm2raw n (vec n e c) s t p q r u) = dm2raw n (vec n e c) t s u r q p := by
  unfold dm2raw
  rw [dot_conj, dot_exc s hp hq, dot_exc t hr hu]

/-- The density matrices of one spin. -/
theorem spin1_dot (s : Bool) {S : Sched} (hS : Allowed (fun _ => 0) (strs n e.1).length S) :
    (∀ p < n, ∀ q < n, (makeRdm12Spin1 thr (kap s) true c n (strs n e.1).length (strs n e.2).length la lb S).1 p q =
      dot n (vec n e c) (exc n s p q (vec n e c))) ∧
    (∀ p < n, ∀ q < n, ∀ r < n, ∀ u < n, (makeRdm12Spin1 thr (kap s) true c n (strs n e.1).length (strs n e.2).length la lb S).2 p q r u =
      dm2raw n (vec n e c) s s p q r u) := by
  unfold makeRdm12Spin1
  obtain ⟨dm, h1, h2, h3⟩ := drv_val thr (kap s) true (toFlat (strs n e.2).length c) (toFlat (strs n e.2).length c) n (strs n e.1).length
    (strs n e.2).length la lb hS
  dsimp only
  rw [h3, if_pos rfl]
  refine ⟨fun p hp q hq => ?_, fun p hp q hq r hr u hu => ?_⟩
  · unfold conjT of2
    dsimp only
    rw [fillHerm_val n dm.1 hq hp]
    split
    · rw [h1 _ (pair_lt hq hp), tot1_dot hla hlb hc s true hq hp, dm1_herm s hp hq]
    · rw [h1 _ (pair_lt hp hq), tot1_dot hla hlb hc s true hp hq, star_star]
  · unfold of4
    dsimp only
    have hqp := pair_lt hq hp
    have hru := pair_lt hr hu
    rw [transposeJikl_val _ hp hq hru, fillHerm_val _ dm.2 hqp hru]
    split
    · next h =>
      rw [h2 _ (pair_lt hqp hru), tot2_dot hla hlb hc s true hq hp hr hu, if_pos (fun _ => h)]
    · next h =>
      rw [h2 _ (pair_lt hru hqp), tot2_dot hla hlb hc s true hr hu hq hp, if_pos (fun _ => by omega), raw_conj hla hlb hc s s hu hr hq hp]

theorem ab_dot {S : Sched} (hS : Allowed (fun _ => 0) (strs n e.1).length S) {p q r u : Nat} (hp : p < n) (hq : q < n) (hr : r < n) (hu : u < n) :
    (makeRdm12Spin1 thr .ab false c n (strs n e.1).length (strs n e.2).length la lb S).2 p q r u = dm2raw n (vec n e c) false true p q r u := by
  unfold makeRdm12Spin1
  obtain ⟨dm, h1, h2, h3⟩ := drv_val thr .ab false (toFlat (strs n e.2).length c) (toFlat (strs n e.2).length c) n (strs n e.1).length
    (strs n e.2).length la lb hS
  dsimp only
  rw [h3, if_neg Bool.false_ne_true]
  unfold of4
  dsimp only
  have hqp := pair_lt hq hp
  have hru := pair_lt hr hu
  rw [transposeJikl_val _ hp hq hru, h2 _ (pair_lt hqp hru), tot2_ab (links_good hla) (links_good hlb) hc false hq hp hr hu]
  exact dot2 false hq hp (holds_xb hlb c hr hu) (holds_xa hla c hq hp)
end

theorem reorder_val (n : Nat) (d1 : M2 ℂ) (d2 : M4 ℂ) (p q r u : Nat) :
    reorderRdm n d1 d2 p q r u = d2 p q r u - if q = r ∧ q < n then star (d1 u p) else 0 := by
  unfold reorderRdm conjT
  induction n with
  | zero => simp
  | succ n ih =>
    rw [List.range_succ, List.foldl_append, List.foldl_cons, List.foldl_nil, ih]
    by_cases h : q = n ∧ r = n
    · obtain ⟨rfl, rfl⟩ := h
      simp
    · rw [if_neg h]
      congr 1
      by_cases h1 : q = r ∧ q < n
      · rw [if_pos h1, if_pos (by omega)]
      · rw [if_neg h1, if_neg (by omega)]

theorem dot_add (n : Nat) (ψ φ χ : Vec ℂ) : dot n ψ (fun A B => φ A B + χ A B) = dot n ψ φ + dot n ψ χ := by
  unfold dot ovl
  rw [← Finset.sum_add_distrib]
  refine Finset.sum_congr rfl fun A _ => ?_
  rw [← Finset.sum_add_distrib]
  refine Finset.sum_congr rfl fun B _ => ?_
  rw [mul_add]

theorem dot_smul (n : Nat) (ψ φ : Vec ℂ) (x : ℂ) : dot n ψ (fun A B => x * φ A B) = x * dot n ψ φ := by
  unfold dot ovl
  rw [Finset.mul_sum]
  refine Finset.sum_congr rfl fun A _ => ?_
  rw [Finset.mul_sum]
  refine Finset.sum_congr rfl fun B _ => ?_
  ring

theorem dot_sum {ι : Type} (n : Nat) (ψ : Vec ℂ) (I : Finset ι) (φ : ι → Vec ℂ) : dot n ψ (fun A B => ∑ i ∈ I, φ i A B) = ∑ i ∈ I, dot n ψ (φ i) := by
  classical
  induction I using Finset.induction_on with
  | empty =>
    simp only [Finset.sum_empty]
    unfold dot ovl
    simp
  | insert a I ha ih =>
    simp only [Finset.sum_insert ha]
    rw [dot_add, ih]

/-- Putting the operators in order. -/
theorem raw_dm2 {n : Nat} {p q r u : Nat} (s t : Bool) (hq : q < n) (hr : r < n) (hu : u < n) (ψ : Vec ℂ) :
    dm2raw n ψ s t p q r u = (if s = t ∧ q = r then dot n ψ (exc n s p u ψ) else 0) + dm2 n ψ s t p q r u := by
  unfold dm2raw dm2
  have : exc n s p q (exc n t r u ψ) = fun A B => (if s = t ∧ q = r then exc n s p u ψ A B else 0) +
      cre n s p (cre n t r (ann n t u (ann n s q ψ))) A B := by
    funext A B
    exact exc_exc s t hq hr hu ψ A B
  rw [this, dot_add]
  congr 1
  split
  · rfl
  · unfold dot ovl
    simp

theorem dm2_swap {n p q r u : Nat} (s t : Bool) (hp : p < n) (hq : q < n) (hr : r < n) (hu : u < n) (ψ : Vec ℂ) :
    dm2 n ψ s t p q r u = dm2 n ψ t s r u p q := by
  have := nrm_swap s t hp hq hr hu ψ
  unfold nrm at this
  unfold dm2
  rw [this]

/-- The energy from density matrices. -/
theorem dot_ham (n : Nat) (h1 : M2 ℂ) (g : M4 ℂ) (ψ : Vec ℂ) :
    dot n ψ (hamOp n (fun _ => h1) g ψ) = (∑ p ∈ Finset.range n, ∑ q ∈ Finset.range n, h1 p q * ∑ s : Bool, dm1 n ψ s q p) +
      1 / 2 * ∑ p ∈ Finset.range n, ∑ q ∈ Finset.range n, ∑ r ∈ Finset.range n, ∑ u ∈ Finset.range n, g p q r u * ∑ s : Bool, ∑ t : Bool, dm2 n ψ s t p q r u := by
  unfold hamOp
  rw [dot_add, dot_smul, dot_sum]
  simp only [dot_sum, dot_smul]
  congr 1
  · rw [Finset.sum_comm]
    refine Finset.sum_congr rfl fun p _ => ?_
    rw [Finset.sum_comm]
    refine Finset.sum_congr rfl fun q _ => ?_
    rw [← Finset.mul_sum]
    rfl
  · congr 1
    simp only [Fintype.sum_bool, mul_add, Finset.sum_add_distrib, ← add_assoc]
    rfl

/-! ## The routines for the one-body density matrix alone -/

theorem xa_list (la : Tab) (c : Arr ℂ) (p q s b : Nat) (w : ℂ) :
    ((la s).map fun l => if l.i = p ∧ l.a = q then (l.sign : ℂ) * (w * c l.addr b) else 0).sum = w * xa la c p q s b := by
  unfold xa
  rw [← list_sum_mul]
  congr 1
  refine List.map_congr_left fun l _ => ?_
  split
  · ring
  · rw [mul_zero]

theorem rdm1a_val {n : Nat} {e : Nat × Nat} {la : Tab} (hla : LinkTable n e.1 la) (c : Arr ℂ) {p q : Nat} (hp : p < n) (hq : q < n) :
    rdm1a (toFlat (strs n e.2).length c) n (strs n e.1).length (strs n e.2).length la (p * n + q) = dm1 n (vec n e c) false p q := by
  have low : ∀ p q, p < n → q < n → q ≤ p → (List.range (strs n e.1).length).foldl (fun m str0 => (la str0).foldl (fun m l =>
      if l.a ≥ l.i then (List.range (strs n e.2).length).foldl (fun m k =>
        addAt m (l.a * n + l.i) (if l.sign > 0 then star (toFlat (strs n e.2).length c (str0 * (strs n e.2).length + k)) * toFlat (strs n e.2).length c (l.addr * (strs n e.2).length + k) else
          -(star (toFlat (strs n e.2).length c (str0 * (strs n e.2).length + k)) * toFlat (strs n e.2).length c (l.addr * (strs n e.2).length + k)))) m
      else m) m) (fun _ => 0) (p * n + q) = dm1 n (vec n e c) false p q := by
    intro p q hp hq hpq
    have hg := links_good hla
    rw [foldl_gen _ _ (fun s y => ((la s).map fun l => if l.a ≥ l.i then (∑ k ∈ Finset.range (strs n e.2).length,
      if y = l.a * n + l.i then (if l.sign > 0 then star (toFlat (strs n e.2).length c (s * (strs n e.2).length + k)) * toFlat (strs n e.2).length c (l.addr * (strs n e.2).length + k) else
          -(star (toFlat (strs n e.2).length c (s * (strs n e.2).length + k)) * toFlat (strs n e.2).length c (l.addr * (strs n e.2).length + k))) else 0) else 0).sum), zero_add, sum_list_range]
    · unfold dm1
      rw [← energy_val (holds_xa hla c hq hp)]
      refine Finset.sum_congr rfl fun s hs => ?_
      have hs := Finset.mem_range.1 hs
      have e1 : ∀ k ∈ Finset.range (strs n e.2).length, star (c s k) * xa la c q p s k =
          ((la s).map fun l => if l.i = q ∧ l.a = p then (l.sign : ℂ) * (star (c s k) * c l.addr k) else 0).sum := fun k _ => (xa_list la c q p s k _).symm
      rw [Finset.sum_congr rfl e1, ← list_sum_comm]
      congr 1
      refine List.map_congr_left fun l hl => ?_
      obtain ⟨g1, g2, -, g4⟩ := hg s hs l hl
      have e2 : (p * n + q = l.a * n + l.i) ↔ (l.i = q ∧ l.a = p) := by
        rw [digit_inj hq g2]
        constructor
        · rintro ⟨a, b⟩; exact ⟨b.symm, a.symm⟩
        · rintro ⟨a, b⟩; exact ⟨b.symm, a.symm⟩
      simp only [e2, sgn_mul g4]
      by_cases h : l.i = q ∧ l.a = p
      · rw [if_pos (by omega)]
        refine Finset.sum_congr rfl fun k hk => ?_
        rw [if_pos h, toFlat_val (Finset.mem_range.1 hk), toFlat_val (Finset.mem_range.1 hk), if_pos h]
      · simp [h]
    · intro m s y
      rw [foldl_gen _ _ (fun (l : Lk) y => if l.a ≥ l.i then (∑ k ∈ Finset.range (strs n e.2).length,
        if y = l.a * n + l.i then (if l.sign > 0 then star (toFlat (strs n e.2).length c (s * (strs n e.2).length + k)) * toFlat (strs n e.2).length c (l.addr * (strs n e.2).length + k) else
          -(star (toFlat (strs n e.2).length c (s * (strs n e.2).length + k)) * toFlat (strs n e.2).length c (l.addr * (strs n e.2).length + k))) else 0) else 0)]
      intro m l y
      split
      · rw [foldl_gen _ _ (fun k y => if y = l.a * n + l.i then (if l.sign > 0 then star (toFlat (strs n e.2).length c (s * (strs n e.2).length + k)) * toFlat (strs n e.2).length c (l.addr * (strs n e.2).length + k) else
          -(star (toFlat (strs n e.2).length c (s * (strs n e.2).length + k)) * toFlat (strs n e.2).length c (l.addr * (strs n e.2).length + k))) else 0), sum_list_range]
        intro m k y
        exact addAt_val m _ _ y
      · rw [add_zero]
  unfold rdm1a
  rw [fillHerm_val n _ hp hq]
  split
  · next h => exact low p q hp hq h
  · next h =>
    rw [low q p hq hp (by omega)]
    exact dm1_herm false hq hp _

theorem xb_list (lb : Tab) (c : Arr ℂ) (p q s b : Nat) (w : ℂ) :
    ((lb b).map fun l => if l.i = p ∧ l.a = q then (l.sign : ℂ) * (c s l.addr * w) else 0).sum = w * xb lb c p q s b := by
  unfold xb
  rw [← list_sum_mul]
  congr 1
  refine List.map_congr_left fun l _ => ?_
  split
  · ring
  · rw [mul_zero]

theorem rdm1b_val {n : Nat} {e : Nat × Nat} {lb : Tab} (hlb : LinkTable n e.2 lb) (c : Arr ℂ) {p q : Nat} (hp : p < n) (hq : q < n) :
    rdm1b (toFlat (strs n e.2).length c) n (strs n e.1).length (strs n e.2).length lb (p * n + q) = dm1 n (vec n e c) true p q := by
  have low : ∀ p q, p < n → q < n → q ≤ p → (List.range (strs n e.1).length).foldl (fun m str0 => (List.range (strs n e.2).length).foldl (fun m k => (lb k).foldl (fun m l =>
      if l.a ≥ l.i then
        addAt m (l.a * n + l.i) (if l.sign > 0 then toFlat (strs n e.2).length c (str0 * (strs n e.2).length + l.addr) * star (toFlat (strs n e.2).length c (str0 * (strs n e.2).length + k)) else
          -(toFlat (strs n e.2).length c (str0 * (strs n e.2).length + l.addr) * star (toFlat (strs n e.2).length c (str0 * (strs n e.2).length + k))))
      else m) m) m) (fun _ => 0) (p * n + q) = dm1 n (vec n e c) true p q := by
    intro p q hp hq hpq
    have hg := links_good hlb
    rw [foldl_gen _ _ (fun s y => ∑ k ∈ Finset.range (strs n e.2).length, ((lb k).map fun l => if l.a ≥ l.i then (
      if y = l.a * n + l.i then (if l.sign > 0 then toFlat (strs n e.2).length c (s * (strs n e.2).length + l.addr) * star (toFlat (strs n e.2).length c (s * (strs n e.2).length + k)) else
          -(toFlat (strs n e.2).length c (s * (strs n e.2).length + l.addr) * star (toFlat (strs n e.2).length c (s * (strs n e.2).length + k)))) else 0) else 0).sum), zero_add, sum_list_range]
    · unfold dm1
      rw [← energy_val (holds_xb hlb c hq hp)]
      refine Finset.sum_congr rfl fun s hs => Finset.sum_congr rfl fun k hk => ?_
      have hs := Finset.mem_range.1 hs
      have hk := Finset.mem_range.1 hk
      rw [← xb_list]
      congr 1
      refine List.map_congr_left fun l hl => ?_
      obtain ⟨g1, g2, g3, g4⟩ := hg k hk l hl
      have e2 : (p * n + q = l.a * n + l.i) ↔ (l.i = q ∧ l.a = p) := by
        rw [digit_inj hq g2]
        constructor
        · rintro ⟨a, b⟩; exact ⟨b.symm, a.symm⟩
        · rintro ⟨a, b⟩; exact ⟨b.symm, a.symm⟩
      simp only [e2, sgn_mul g4]
      by_cases h : l.i = q ∧ l.a = p
      · rw [if_pos (by omega), if_pos h, if_pos h, toFlat_val g3, toFlat_val hk]
      · simp [h]
    · intro m s y
      rw [foldl_gen _ _ (fun k y => ((lb k).map fun l => if l.a ≥ l.i then (
        if y = l.a * n + l.i then (if l.sign > 0 then toFlat (strs n e.2).length c (s * (strs n e.2).length + l.addr) * star (toFlat (strs n e.2).length c (s * (strs n e.2).length + k)) else
          -(toFlat (strs n e.2).length c (s * (strs n e.2).length + l.addr) * star (toFlat (strs n e.2).length c (s * (strs n e.2).length + k)))) else 0) else 0).sum), sum_list_range]
      intro m k y
      rw [foldl_gen _ _ (fun (l : Lk) y => if l.a ≥ l.i then (
        if y = l.a * n + l.i then (if l.sign > 0 then toFlat (strs n e.2).length c (s * (strs n e.2).length + l.addr) * star (toFlat (strs n e.2).length c (s * (strs n e.2).length + k)) else
          -(toFlat (strs n e.2).length c (s * (strs n e.2).length + l.addr) * star (toFlat (strs n e.2).length c (s * (strs n e.2).length + k)))) else 0) else 0)]
      intro m l y
      split
      · rw [addAt_val]
      · rw [add_zero]
  unfold rdm1b
  rw [fillHerm_val n _ hp hq]
  split
  · next h => exact low p q hp hq h
  · next h =>
    rw [low q p hq hp (by omega)]
    exact dm1_herm true hq hp _

end Verif.CplxRdm
