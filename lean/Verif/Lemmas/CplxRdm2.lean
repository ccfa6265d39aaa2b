import Verif.Lemmas.CplxRdm
import Verif.Lemmas.S2El
import Mathlib.Algebra.Star.BigOperators
/-!
# Lemmas: what the routines for density matrices return
-/
namespace Verif.CplxRdm
open Verif.FciRdm Verif.HalfOp Verif.CplxCi Verif.Spec.CplxCi Verif.Spec.CplxRdm Verif.Spec.HalfOp Verif.Spec.Tdm Verif.Spec.FciRdm Verif.Fockspace

/-- A kernel adds something that does not depend on what is there. -/
theorem kern_add (thr : ℝ) (κ : Kern) (sym : Bool) (bra ket : Flat) (norb nb : Nat) (la lb : Tab) (bcount stra strb : Nat) (dm : Flat × Flat) (y : Nat) :
    (kern thr κ sym bra ket norb nb la lb bcount stra strb dm).1 y =
      dm.1 y + (kern thr κ sym bra ket norb nb la lb bcount stra strb (fun _ => 0, fun _ => 0)).1 y ∧
    (kern thr κ sym bra ket norb nb la lb bcount stra strb dm).2 y =
      dm.2 y + (kern thr κ sym bra ket norb nb la lb bcount stra strb (fun _ => 0, fun _ => 0)).2 y := by
  unfold kern zgemv zherk zgemmNC
  cases κ <;> cases sym <;> dsimp only <;> refine ⟨?_, ?_⟩ <;> split_ifs <;> simp only [add_zero, zero_add] <;> split_ifs <;> simp only [add_zero, zero_add]

theorem fold2 {γ : Type} (l : List γ) (g : Flat × Flat → γ → Flat × Flat) (d1 d2 : γ → Flat)
    (h : ∀ dm x y, (g dm x).1 y = dm.1 y + d1 x y ∧ (g dm x).2 y = dm.2 y + d2 x y) (dm : Flat × Flat) (y : Nat) :
    (l.foldl g dm).1 y = dm.1 y + (l.map fun x => d1 x y).sum ∧ (l.foldl g dm).2 y = dm.2 y + (l.map fun x => d2 x y).sum := by
  induction l generalizing dm with
  | nil => simp
  | cons a l ih =>
    rw [List.foldl_cons, (ih _).1, (ih _).2, (h _ _ _).1, (h _ _ _).2, List.map_cons, List.map_cons, List.sum_cons, List.sum_cons]
    exact ⟨add_assoc _ _ _, add_assoc _ _ _⟩

theorem fold_threads (l : List Nat) (tid : Nat → Nat) (K : Nat → Flat × Flat → Flat × Flat) (d1 d2 : Nat → Flat)
    (h : ∀ dm s y, (K s dm).1 y = dm.1 y + d1 s y ∧ (K s dm).2 y = dm.2 y + d2 s y) (p : Nat → Flat × Flat) (t y : Nat) :
    (l.foldl (fun p s => Function.update p (tid s) (K s (p (tid s)))) p t).1 y = (p t).1 y + (l.map fun s => if tid s = t then d1 s y else 0).sum ∧
    (l.foldl (fun p s => Function.update p (tid s) (K s (p (tid s)))) p t).2 y = (p t).2 y + (l.map fun s => if tid s = t then d2 s y else 0).sum := by
  induction l generalizing p with
  | nil => simp
  | cons a l ih =>
    rw [List.foldl_cons, (ih _).1, (ih _).2, List.map_cons, List.map_cons, List.sum_cons, List.sum_cons]
    by_cases ht : tid a = t
    · subst ht
      rw [Function.update_self, (h _ _ _).1, (h _ _ _).2, if_pos rfl, if_pos rfl]
      exact ⟨add_assoc _ _ _, add_assoc _ _ _⟩
    · rw [Function.update_of_ne (Ne.symm ht), if_neg ht, if_neg ht, zero_add, zero_add]
      exact ⟨rfl, rfl⟩

theorem addAll (N : Nat) (m v : Flat) {y : Nat} : (List.range N).foldl (fun m i => addAt m i (v i)) m y = m y + if y < N then v y else 0 := by
  rw [foldl_gen _ _ (fun i y => if y = i then v i else 0) (fun c i y => addAt_val c i (v i) y), sum_list_range, Finset.sum_ite_eq]
  simp only [Finset.mem_range]

/-- The sums of the driver before the last step, for every schedule of the threads. -/
noncomputable def tot1 (thr : ℝ) (κ : Kern) (sym : Bool) (bra ket : Flat) (norb na nb : Nat) (la lb : Tab) (y : Nat) : ℂ :=
  ∑ s ∈ Finset.range na, ((blocks nb 96).map fun ib => (kern thr κ sym bra ket norb nb la lb (min 96 (nb - ib)) s ib (fun _ => 0, fun _ => 0)).1 y).sum
noncomputable def tot2 (thr : ℝ) (κ : Kern) (sym : Bool) (bra ket : Flat) (norb na nb : Nat) (la lb : Tab) (y : Nat) : ℂ :=
  ∑ s ∈ Finset.range na, ((blocks nb 96).map fun ib => (kern thr κ sym bra ket norb nb la lb (min 96 (nb - ib)) s ib (fun _ => 0, fun _ => 0)).2 y).sum

theorem drv_val (thr : ℝ) (κ : Kern) (sym : Bool) (bra ket : Flat) (norb na nb : Nat) (la lb : Tab) {S : Sched} (hS : Allowed (fun _ => 0) na S) :
    ∃ dm : Flat × Flat, (∀ y < norb * norb, dm.1 y = tot1 thr κ sym bra ket norb na nb la lb y) ∧
      (∀ y < norb * norb * (norb * norb), dm.2 y = tot2 thr κ sym bra ket norb na nb la lb y) ∧
      drv thr κ sym bra ket norb na nb la lb S =
        if sym then (fillHerm norb dm.1, transposeJikl norb (fillHerm (norb * norb) dm.2)) else (dm.1, transposeJikl norb dm.2) := by
  refine ⟨_, ?_, ?_, rfl⟩
  all_goals
    intro y hy
    have hrow : ∀ (dm : Flat × Flat) (s y : Nat),
        ((blocks nb 96).foldl (fun dm ib => kern thr κ sym bra ket norb nb la lb (min 96 (nb - ib)) s ib dm) dm).1 y = dm.1 y +
          ((blocks nb 96).map fun ib => (kern thr κ sym bra ket norb nb la lb (min 96 (nb - ib)) s ib (fun _ => 0, fun _ => 0)).1 y).sum ∧
        ((blocks nb 96).foldl (fun dm ib => kern thr κ sym bra ket norb nb la lb (min 96 (nb - ib)) s ib dm) dm).2 y = dm.2 y +
          ((blocks nb 96).map fun ib => (kern thr κ sym bra ket norb nb la lb (min 96 (nb - ib)) s ib (fun _ => 0, fun _ => 0)).2 y).sum := by
      intro dm s y
      exact fold2 (blocks nb 96) (fun dm ib => kern thr κ sym bra ket norb nb la lb (min 96 (nb - ib)) s ib dm)
        (fun ib => (kern thr κ sym bra ket norb nb la lb (min 96 (nb - ib)) s ib (fun _ => 0, fun _ => 0)).1)
        (fun ib => (kern thr κ sym bra ket norb nb la lb (min 96 (nb - ib)) s ib (fun _ => 0, fun _ => 0)).2)
        (fun dm ib y => kern_add thr κ sym bra ket norb nb la lb _ s ib dm y) dm y
    have hth := fun t y => fold_threads (S.order 0) (S.tid 0)
      (fun s dm => (blocks nb 96).foldl (fun dm ib => kern thr κ sym bra ket norb nb la lb (min 96 (nb - ib)) s ib dm) dm) _ _
      (fun dm s y => hrow dm s y) (fun _ => (fun _ => 0, fun _ => 0)) t y
    generalize (S.order 0).foldl _ _ = pdm at hth ⊢
    have hc := fold2 (S.crit 0) (fun (dm : Flat × Flat) t =>
      ((List.range (norb * norb)).foldl (fun m i => addAt m i ((pdm t).1 i)) dm.1,
        (List.range (norb * norb * (norb * norb))).foldl (fun m i => addAt m i ((pdm t).2 i)) dm.2))
      (fun t y => if y < norb * norb then (pdm t).1 y else 0) (fun t y => if y < norb * norb * (norb * norb) then (pdm t).2 y else 0)
      (fun dm t y => ⟨addAll _ _ _, addAll _ _ _⟩) (fun _ => 0, fun _ => 0) y
  · refine hc.1.trans ?_
    rw [zero_add]
    simp only [if_pos hy, (hth _ _).1, zero_add]
    rw [((hS.crit 0).map _).sum_eq, sum_list_range, sum_threads (S.order 0) S.threads (S.tid 0) (hS.tid 0)]
    rw [((hS.order 0).map _).sum_eq, Nat.sub_zero, ← List.range_eq_range', sum_list_range]
    rfl
  · refine hc.2.trans ?_
    rw [zero_add]
    simp only [if_pos hy, (hth _ _).2, zero_add]
    rw [((hS.crit 0).map _).sum_eq, sum_list_range, sum_threads (S.order 0) S.threads (S.tid 0) (hS.tid 0)]
    rw [((hS.order 0).map _).sum_eq, Nat.sub_zero, ← List.range_eq_range', sum_list_range]
    rfl

/-- The tiles of a row cover it. -/
theorem row_cover {nb : Nat} (g : Nat → ℂ) (f : Nat → ℂ) (h : ∀ ib, ib < nb → f ib = ∑ k ∈ Finset.range (min 96 (nb - ib)), g (ib + k)) :
    ((blocks nb 96).map f).sum = ∑ b ∈ Finset.range nb, g b := by
  rw [← blocks_cover (Or.inl (by decide : 0 < 96)) g]
  congr 1
  exact List.map_congr_left fun ib hib => h ib (blocks_lt hib)

theorem split_pair {n x y : Nat} (hy : y < n * n) (hn : 0 < n * n) : (x * (n * n) + y) % (n * n) = y ∧ (x * (n * n) + y) / (n * n) = x := by
  rw [Nat.mul_comm]
  exact ⟨by rw [Nat.mul_add_mod, Nat.mod_eq_of_lt hy], by rw [Nat.mul_add_div hn, Nat.div_eq_of_lt hy, Nat.add_zero]⟩

section
variable {thr : ℝ} {n na nb : Nat} {la lb : Tab} (hla : Good n na la) (hlb : Good n nb lb) {c : Arr ℂ} (hc : Seen thr na nb c) (sym : Bool)
include hla hc

theorem tot1_a {p q : Nat} (hp : p < n) (hq : q < n) :
    tot1 thr .a sym (toFlat nb c) (toFlat nb c) n na nb la lb (p * n + q) =
      ∑ s ∈ Finset.range na, ∑ b ∈ Finset.range nb, xa la c p q s b * star (c s b) := by
  unfold tot1
  refine Finset.sum_congr rfl fun s hs => row_cover (fun b => xa la c p q s b * star (c s b)) _ fun ib hib => ?_
  have hs := Finset.mem_range.1 hs
  unfold kern zgemv
  dsimp only
  split
  · dsimp only
    rw [if_pos (pair_lt hp hq), zero_add]
    refine Finset.sum_congr rfl fun k hk => ?_
    have hk := Finset.mem_range.1 hk
    rw [t1ciA_val hla c hs (by omega) hk hp hq, Nat.add_assoc, toFlat_val (by omega)]
  · next h =>
    refine (Finset.sum_eq_zero fun k hk => ?_).symm
    rw [skipA hla hc hs (by omega) (Finset.mem_range.1 hk) (not_lt.1 h), zero_mul]

theorem tot2_a {p q r u : Nat} (hp : p < n) (hq : q < n) (hr : r < n) (hu : u < n) :
    tot2 thr .a sym (toFlat nb c) (toFlat nb c) n na nb la lb ((p * n + q) * (n * n) + (r * n + u)) = if sym = true → r * n + u ≤ p * n + q then
      ∑ s ∈ Finset.range na, ∑ b ∈ Finset.range nb, xa la c r u s b * star (xa la c p q s b) else 0 := by
  have key : ∀ s ∈ Finset.range na, ((blocks nb 96).map fun ib => (kern thr .a sym (toFlat nb c) (toFlat nb c) n nb la lb (min 96 (nb - ib)) s ib
      (fun _ => 0, fun _ => 0)).2 ((p * n + q) * (n * n) + (r * n + u))).sum =
      ∑ b ∈ Finset.range nb, if sym = true → r * n + u ≤ p * n + q then xa la c r u s b * star (xa la c p q s b) else 0 := by
    intro s hs
    refine row_cover (fun b => if sym = true → r * n + u ≤ p * n + q then xa la c r u s b * star (xa la c p q s b) else 0) _ fun ib hib => ?_
    have hs := Finset.mem_range.1 hs
    have hpq := pair_lt hp hq
    have hru := pair_lt hr hu
    obtain ⟨m, d⟩ := split_pair (x := p * n + q) hru (by omega)
    unfold kern zherk zgemmNC
    dsimp only
    split
    · have e : ∀ k ∈ Finset.range (min 96 (nb - ib)), (t1ciA (toFlat nb c) (min 96 (nb - ib)) s ib n nb la).1 (k * (n * n) + (r * n + u)) *
          star ((t1ciA (toFlat nb c) (min 96 (nb - ib)) s ib n nb la).1 (k * (n * n) + (p * n + q))) =
          xa la c r u s (ib + k) * star (xa la c p q s (ib + k)) := by
        intro k hk
        have hk := Finset.mem_range.1 hk
        rw [t1ciA_val hla c hs (by omega) hk hr hu, t1ciA_val hla c hs (by omega) hk hp hq]
      cases sym
      · rw [if_neg Bool.false_ne_true]
        dsimp only
        rw [m, d, if_pos hpq, zero_add, Finset.sum_congr rfl e]
        simp
      · rw [if_pos rfl]
        dsimp only
        rw [m, d]
        by_cases h : r * n + u ≤ p * n + q
        · rw [if_pos ⟨h, hpq⟩, zero_add, Finset.sum_congr rfl e]
          simp [h]
        · rw [if_neg (fun x => h x.1)]
          simp [h]
    · next h =>
      refine (Finset.sum_eq_zero fun k hk => ?_).symm
      rw [skipA hla hc hs (by omega) (Finset.mem_range.1 hk) (not_lt.1 h), zero_mul, ite_self]
  unfold tot2
  rw [Finset.sum_congr rfl key]
  split
  · rfl
  · simp

include hlb

omit hla in
theorem tot1_b {p q : Nat} (hp : p < n) (hq : q < n) :
    tot1 thr .b sym (toFlat nb c) (toFlat nb c) n na nb la lb (p * n + q) =
      ∑ s ∈ Finset.range na, ∑ b ∈ Finset.range nb, xb lb c p q s b * star (c s b) := by
  unfold tot1
  refine Finset.sum_congr rfl fun s hs => row_cover (fun b => xb lb c p q s b * star (c s b)) _ fun ib hib => ?_
  have hs := Finset.mem_range.1 hs
  unfold kern zgemv
  dsimp only
  split
  · dsimp only
    rw [if_pos (pair_lt hp hq), zero_add]
    refine Finset.sum_congr rfl fun k hk => ?_
    have hk := Finset.mem_range.1 hk
    rw [t1ciB_val hlb c (by omega) hk hp hq, Nat.add_assoc, toFlat_val (by omega)]
  · next h =>
    refine (Finset.sum_eq_zero fun k hk => ?_).symm
    rw [skipB hlb hc hs (by omega) (Finset.mem_range.1 hk) (not_lt.1 h), zero_mul]

omit hla in
theorem tot2_b {p q r u : Nat} (hp : p < n) (hq : q < n) (hr : r < n) (hu : u < n) :
    tot2 thr .b sym (toFlat nb c) (toFlat nb c) n na nb la lb ((p * n + q) * (n * n) + (r * n + u)) = if sym = true → r * n + u ≤ p * n + q then
      ∑ s ∈ Finset.range na, ∑ b ∈ Finset.range nb, xb lb c r u s b * star (xb lb c p q s b) else 0 := by
  have key : ∀ s ∈ Finset.range na, ((blocks nb 96).map fun ib => (kern thr .b sym (toFlat nb c) (toFlat nb c) n nb la lb (min 96 (nb - ib)) s ib
      (fun _ => 0, fun _ => 0)).2 ((p * n + q) * (n * n) + (r * n + u))).sum =
      ∑ b ∈ Finset.range nb, if sym = true → r * n + u ≤ p * n + q then xb lb c r u s b * star (xb lb c p q s b) else 0 := by
    intro s hs
    refine row_cover (fun b => if sym = true → r * n + u ≤ p * n + q then xb lb c r u s b * star (xb lb c p q s b) else 0) _ fun ib hib => ?_
    have hs := Finset.mem_range.1 hs
    have hpq := pair_lt hp hq
    have hru := pair_lt hr hu
    obtain ⟨m, d⟩ := split_pair (x := p * n + q) hru (by omega)
    unfold kern zherk zgemmNC
    dsimp only
    split
    · have e : ∀ k ∈ Finset.range (min 96 (nb - ib)), (t1ciB (toFlat nb c) (min 96 (nb - ib)) s ib n nb lb).1 (k * (n * n) + (r * n + u)) *
          star ((t1ciB (toFlat nb c) (min 96 (nb - ib)) s ib n nb lb).1 (k * (n * n) + (p * n + q))) =
          xb lb c r u s (ib + k) * star (xb lb c p q s (ib + k)) := by
        intro k hk
        have hk := Finset.mem_range.1 hk
        rw [t1ciB_val hlb c (by omega) hk hr hu, t1ciB_val hlb c (by omega) hk hp hq]
      cases sym
      · rw [if_neg Bool.false_ne_true]
        dsimp only
        rw [m, d, if_pos hpq, zero_add, Finset.sum_congr rfl e]
        simp
      · rw [if_pos rfl]
        dsimp only
        rw [m, d]
        by_cases h : r * n + u ≤ p * n + q
        · rw [if_pos ⟨h, hpq⟩, zero_add, Finset.sum_congr rfl e]
          simp [h]
        · rw [if_neg (fun x => h x.1)]
          simp [h]
    · next h =>
      refine (Finset.sum_eq_zero fun k hk => ?_).symm
      rw [skipB hlb hc hs (by omega) (Finset.mem_range.1 hk) (not_lt.1 h), zero_mul, ite_self]
  unfold tot2
  rw [Finset.sum_congr rfl key]
  split
  · rfl
  · simp

theorem tot2_ab {p q r u : Nat} (hp : p < n) (hq : q < n) (hr : r < n) (hu : u < n) :
    tot2 thr .ab sym (toFlat nb c) (toFlat nb c) n na nb la lb ((p * n + q) * (n * n) + (r * n + u)) =
      ∑ s ∈ Finset.range na, ∑ b ∈ Finset.range nb, xb lb c r u s b * star (xa la c p q s b) := by
  unfold tot2
  refine Finset.sum_congr rfl fun s hs => row_cover (fun b => xb lb c r u s b * star (xa la c p q s b)) _ fun ib hib => ?_
  have hs := Finset.mem_range.1 hs
  have hpq := pair_lt hp hq
  have hru := pair_lt hr hu
  obtain ⟨m, d⟩ := split_pair (x := p * n + q) hru (by omega)
  unfold kern zgemmNC
  dsimp only
  split
  · next h =>
    refine (Finset.sum_eq_zero fun k hk => ?_).symm
    rw [skipA hla hc hs (by omega) (Finset.mem_range.1 hk) h.le, star_zero, mul_zero]
  · split
    · next h =>
      refine (Finset.sum_eq_zero fun k hk => ?_).symm
      rw [skipB hlb hc hs (by omega) (Finset.mem_range.1 hk) h.le, zero_mul]
    · dsimp only
      rw [m, d, if_pos hpq, zero_add]
      refine Finset.sum_congr rfl fun k hk => ?_
      have hk := Finset.mem_range.1 hk
      rw [t1ciB_val hlb c (by omega) hk hr hu, t1ciA_val hla c hs (by omega) hk hp hq]
end

/-! ## Scalar products -/

theorem star_sign (m : Nat) : star ((-1 : ℂ) ^ m) = (-1) ^ m := by rw [star_pow, star_neg, star_one]

theorem star_exc (n : Nat) (s : Bool) (p q : Nat) (ψ : Vec ℂ) :
    (fun A B => star (exc n s p q ψ A B)) = exc n s p q (fun A B => star (ψ A B)) := by
  funext A B
  cases s
  · rw [exc_up, exc_up]
    split
    · rw [star_mul', star_sign]
    · exact star_zero _
  · rw [exc_down, exc_down]
    split
    · rw [star_mul', star_sign]
    · exact star_zero _

/-- The adjoint of `p'q` is `q'p`. -/
theorem dot_exc {n p q : Nat} (s : Bool) (hp : p < n) (hq : q < n) (φ χ : Vec ℂ) : dot n (exc n s p q φ) χ = dot n φ (exc n s q p χ) := by
  unfold dot
  rw [star_exc]
  generalize (fun A B => star (φ A B)) = φ'
  rw [Verif.Tdm.ovl_comm]
  unfold exc
  rw [Verif.Tdm.ovl_cre n s p hp, Verif.Tdm.ovl_cre n s q hq, Verif.Tdm.ovl_comm]

theorem dot_conj (n : Nat) (φ χ : Vec ℂ) : star (dot n φ χ) = dot n χ φ := by
  unfold dot ovl
  rw [star_sum]
  refine Finset.sum_congr rfl fun A _ => ?_
  rw [star_sum]
  refine Finset.sum_congr rfl fun B _ => ?_
  rw [star_mul', star_star, mul_comm]

theorem supp_exc {n : Nat} {e : Nat × Nat} {c : Arr ℂ} (s : Bool) {p q : Nat} (hp : p < n) (hq : q < n) {A B : Nat}
    (h : ¬(A ∈ strs n e.1 ∧ B ∈ strs n e.2)) : exc n s p q (vec n e c) A B = 0 := by
  cases s
  · rw [exc_up]
    split
    · next hk =>
      unfold vec
      rw [if_neg, mul_zero]
      rintro ⟨h1, h2⟩
      apply h
      have := strs_exc h1 hq hp (okx_rev hk)
      rw [xor_cancel2] at this
      exact ⟨this, h2⟩
    · rfl
  · rw [exc_down]
    split
    · next hk =>
      unfold vec
      rw [if_neg, mul_zero]
      rintro ⟨h1, h2⟩
      apply h
      have := strs_exc h2 hq hp (okx_rev hk)
      rw [xor_cancel2] at this
      exact ⟨h1, this⟩
    · rfl

theorem holds_xa {n : Nat} {e : Nat × Nat} {la : Tab} (hla : LinkTable n e.1 la) (c : Arr ℂ) {p q : Nat} (hp : p < n) (hq : q < n) :
    Holds n e (xa la c p q) (exc n false p q (vec n e c)) := by
  intro A hA B hB
  unfold xa
  rw [gather hla hA hp hq (fun x => c x ((strs n e.2).idxOf B)), exc_up]
  split
  · next h =>
    unfold vec
    rw [if_pos ⟨strs_exc hA hp hq h, hB⟩]
  · rfl

theorem holds_xb {n : Nat} {e : Nat × Nat} {lb : Tab} (hlb : LinkTable n e.2 lb) (c : Arr ℂ) {p q : Nat} (hp : p < n) (hq : q < n) :
    Holds n e (xb lb c p q) (exc n true p q (vec n e c)) := by
  intro A hA B hB
  unfold xb
  rw [gather hlb hB hp hq (fun x => c ((strs n e.1).idxOf A) x), exc_down]
  split
  · next h =>
    unfold vec
    rw [if_pos ⟨hA, strs_exc hB hp hq h⟩]
  · rfl

theorem dot1 {n : Nat} {e : Nat × Nat} {σ c : Arr ℂ} {φ : Vec ℂ} (h : Holds n e σ φ) :
    (∑ i ∈ Finset.range (strs n e.1).length, ∑ j ∈ Finset.range (strs n e.2).length, σ i j * star (c i j)) = dot n (vec n e c) φ := by
  rw [← energy_val h]
  exact Finset.sum_congr rfl fun i _ => Finset.sum_congr rfl fun j _ => mul_comm _ _

theorem dot2 {n : Nat} {e : Nat × Nat} {σ τ c : Arr ℂ} {φ : Vec ℂ} (s : Bool) {p q : Nat} (hp : p < n) (hq : q < n) (h : Holds n e σ φ)
    (ht : Holds n e τ (exc n s p q (vec n e c))) :
    (∑ i ∈ Finset.range (strs n e.1).length, ∑ j ∈ Finset.range (strs n e.2).length, σ i j * star (τ i j)) =
      dot n (vec n e c) (exc n s q p φ) := by
  have : vec n e τ = exc n s p q (vec n e c) := by
    funext A B
    by_cases hm : A ∈ strs n e.1 ∧ B ∈ strs n e.2
    · rw [← ht A hm.1 B hm.2]
      exact if_pos hm
    · rw [supp_exc s hp hq hm]
      exact if_neg hm
  rw [dot1 h, this, dot_exc s hp hq]

end Verif.CplxRdm
