import Verif.Lemmas.CplxRdm3
/-!
# Lemmas: the python routines for density matrices
-/
namespace Verif.CplxRdm
open Verif.FciRdm Verif.HalfOp Verif.CplxCi Verif.Spec.CplxCi Verif.Spec.CplxRdm Verif.Spec.HalfOp Verif.Spec.Tdm Verif.Spec.FciRdm Verif.Fockspace

theorem fold_at {α β : Type} (l : List α) (g : β → α → β) (at' : β → ℂ) (d : α → ℂ) (h : ∀ b x, at' (g b x) = at' b + d x) (b : β) :
    at' (l.foldl g b) = at' b + (l.map d).sum := by
  induction l generalizing b with
  | nil => simp
  | cons a l ih => rw [List.foldl_cons, ih, h, List.map_cons, List.sum_cons, add_assoc]

theorem t1Py_a (la : Tab) (c : Arr ℂ) (s q p B : Nat) : t1Py (la s) (fun x B => c x B) q p B = xa la c q p s B := by
  unfold t1Py xa
  have := fold_at (la s) (fun (t : Nat → Nat → Nat → ℂ) l q p B => if q = l.i ∧ p = l.a then t q p B + (l.sign : ℂ) * c l.addr B else t q p B) (fun t => t q p B)
    (fun l => if l.i = q ∧ l.a = p then (l.sign : ℂ) * c l.addr B else 0) (fun t l => ?_) (fun _ _ _ => 0)
  · rw [zero_add] at this
    exact this
  · dsimp only
    by_cases h : q = l.i ∧ p = l.a
    · rw [if_pos h, if_pos ⟨h.1.symm, h.2.symm⟩]
    · rw [if_neg h, if_neg (fun k => h ⟨k.1.symm, k.2.symm⟩), add_zero]

theorem t1Py_b (lb : Tab) (c : Arr ℂ) (b q p A : Nat) : t1Py (lb b) (fun x B => c B x) q p A = xb lb c q p A b := by
  rw [t1Py_a lb (fun i j => c j i)]
  rfl

theorem vec_of_holds {n : Nat} {e : Nat × Nat} {σ : Arr ℂ} {φ : Vec ℂ} (h : Holds n e σ φ) (h0 : ∀ A B, ¬(A ∈ strs n e.1 ∧ B ∈ strs n e.2) → φ A B = 0) :
    vec n e σ = φ := by
  funext A B
  unfold vec
  split
  · next k => exact h A k.1 B k.2
  · next k => exact (h0 A B k).symm

theorem rdm1sPy_a {n : Nat} {e : Nat × Nat} {la lb : Tab} (hla : LinkTable n e.1 la) (c : Arr ℂ) {p q : Nat} (hp : p < n) (hq : q < n) :
    (makeRdm1sPy c (strs n e.1).length (strs n e.2).length la lb).1 p q = dm1 n (vec n e c) false p q := by
  unfold makeRdm1sPy
  dsimp only
  rw [fold_at _ _ (fun m : M2 ℂ => m p q) (fun s => ∑ k ∈ Finset.range (strs n e.2).length, star (c s k) * xa la c q p s k), zero_add, sum_list_range]
  · exact energy_val (holds_xa hla c hq hp)
  · intro m s
    rw [fold_at _ _ (fun m : M2 ℂ => m p q) (fun l : Lk => if l.i = q ∧ l.a = p then (l.sign : ℂ) * ∑ j ∈ Finset.range (strs n e.2).length, star (c s j) * c l.addr j else 0)]
    · congr 1
      rw [Finset.sum_congr rfl (fun k _ => (xa_list la c q p s k (star (c s k))).symm), ← list_sum_comm]
      congr 1
      refine List.map_congr_left fun l _ => ?_
      split
      · rw [Finset.mul_sum]
      · simp
    · intro m l
      by_cases h : p = l.a ∧ q = l.i
      · rw [if_pos h, if_pos ⟨h.2.symm, h.1.symm⟩]
      · rw [if_neg h, if_neg (fun k => h ⟨k.2.symm, k.1.symm⟩), add_zero]

theorem rdm1sPy_b {n : Nat} {e : Nat × Nat} {la lb : Tab} (hlb : LinkTable n e.2 lb) (c : Arr ℂ) {p q : Nat} (hp : p < n) (hq : q < n) :
    (makeRdm1sPy c (strs n e.1).length (strs n e.2).length la lb).2 p q = dm1 n (vec n e c) true p q := by
  unfold makeRdm1sPy
  dsimp only
  rw [fold_at _ _ (fun m : M2 ℂ => m p q) (fun b => ∑ s ∈ Finset.range (strs n e.1).length, star (c s b) * xb lb c q p s b), zero_add, sum_list_range]
  · rw [Finset.sum_comm]
    exact energy_val (holds_xb hlb c hq hp)
  · intro m b
    rw [fold_at _ _ (fun m : M2 ℂ => m p q) (fun l : Lk => if l.i = q ∧ l.a = p then (l.sign : ℂ) * ∑ j ∈ Finset.range (strs n e.1).length, star (c j b) * c j l.addr else 0)]
    · congr 1
      rw [Finset.sum_congr rfl (fun s _ => (xb_list lb c q p s b (star (c s b))).symm), ← list_sum_comm]
      congr 1
      refine List.map_congr_left fun l _ => ?_
      split
      · rw [Finset.mul_sum]
        exact Finset.sum_congr rfl fun _ _ => by ring
      · simp
    · intro m l
      by_cases h : p = l.a ∧ q = l.i
      · rw [if_pos h, if_pos ⟨h.2.symm, h.1.symm⟩]
      · rw [if_neg h, if_neg (fun k => h ⟨k.2.symm, k.1.symm⟩), add_zero]

section
variable {n : Nat} {e : Nat × Nat} {la lb : Tab} (hla : LinkTable n e.1 la) (hlb : LinkTable n e.2 lb) (nrm : ℂ) (ci : Arr ℂ)
local notation "cc" => (fun i j => ci i j / nrm : Arr ℂ)
include hla

theorem py1_a (ro : Bool) {p q : Nat} (hp : p < n) (hq : q < n) :
    (makeRdm12sPy nrm ci n (strs n e.1).length (strs n e.2).length la lb ro).2.1.1 p q = dm1 n (vec n e cc) false p q := by
  unfold makeRdm12sPy
  dsimp only
  rw [fold_at _ _ (fun d : M2 ℂ × M4 ℂ => d.1 p q) (fun s => ∑ B ∈ Finset.range (strs n e.2).length, star (cc s B) * xa la cc q p s B), zero_add, sum_list_range]
  · exact energy_val (holds_xa hla cc hq hp)
  · intro d s
    refine congrArg (d.1 p q + ·) (Finset.sum_congr rfl fun B _ => ?_)
    rw [t1Py_a la cc]

theorem pyraw_a {p q r u : Nat} (hp : p < n) (hq : q < n) (hr : r < n) (hu : u < n) :
    ((List.range (strs n e.1).length).foldl (fun (d : M2 ℂ × M4 ℂ) ia =>
    (fun p q => d.1 p q + ∑ B ∈ Finset.range (strs n e.2).length, star (cc ia B) * t1Py (la ia) (fun x B => cc x B) q p B,
     fun p q s r => d.2 p q s r + ∑ B ∈ Finset.range (strs n e.2).length, star (t1Py (la ia) (fun x B => cc x B) q p B) * t1Py (la ia) (fun x B => cc x B) s r B))
     (fun _ _ => 0, fun _ _ _ _ => 0)).2 p q r u = dm2raw n (vec n e cc) false false p q r u := by
  rw [fold_at _ _ (fun d : M2 ℂ × M4 ℂ => d.2 p q r u) (fun s => ∑ B ∈ Finset.range (strs n e.2).length, xa la cc r u s B * star (xa la cc q p s B)), zero_add, sum_list_range]
  · exact dot2 false hq hp (holds_xa hla cc hr hu) (holds_xa hla cc hq hp)
  · intro d s
    refine congrArg (d.2 p q r u + ·) (Finset.sum_congr rfl fun B _ => ?_)
    rw [t1Py_a la cc, t1Py_a la cc, mul_comm]

omit hla
include hlb

theorem py1_b (ro : Bool) {p q : Nat} (hp : p < n) (hq : q < n) :
    (makeRdm12sPy nrm ci n (strs n e.1).length (strs n e.2).length la lb ro).2.1.2 p q = dm1 n (vec n e cc) true p q := by
  unfold makeRdm12sPy
  dsimp only
  rw [fold_at _ _ (fun d : M2 ℂ × M4 ℂ => d.1 p q) (fun b => ∑ A ∈ Finset.range (strs n e.1).length, star (cc A b) * xb lb cc q p A b), zero_add, sum_list_range]
  · rw [Finset.sum_comm]
    exact energy_val (holds_xb hlb cc hq hp)
  · intro d b
    refine congrArg (d.1 p q + ·) (Finset.sum_congr rfl fun A _ => ?_)
    rw [t1Py_b lb cc]

theorem pyraw_b {p q r u : Nat} (hp : p < n) (hq : q < n) (hr : r < n) (hu : u < n) :
    ((List.range (strs n e.2).length).foldl (fun (d : M2 ℂ × M4 ℂ) ib =>
    (fun p q => d.1 p q + ∑ B ∈ Finset.range (strs n e.1).length, star (cc B ib) * t1Py (lb ib) (fun x B => cc B x) q p B,
     fun p q s r => d.2 p q s r + ∑ B ∈ Finset.range (strs n e.1).length, star (t1Py (lb ib) (fun x B => cc B x) q p B) * t1Py (lb ib) (fun x B => cc B x) s r B))
     (fun _ _ => 0, fun _ _ _ _ => 0)).2 p q r u = dm2raw n (vec n e cc) true true p q r u := by
  rw [fold_at _ _ (fun d : M2 ℂ × M4 ℂ => d.2 p q r u) (fun b => ∑ A ∈ Finset.range (strs n e.1).length, xb lb cc r u A b * star (xb lb cc q p A b)), zero_add, sum_list_range]
  · rw [Finset.sum_comm]
    exact dot2 true hq hp (holds_xb hlb cc hr hu) (holds_xb hlb cc hq hp)
  · intro d b
    refine congrArg (d.2 p q r u + ·) (Finset.sum_congr rfl fun A _ => ?_)
    rw [t1Py_b lb cc, t1Py_b lb cc, mul_comm]

include hla

theorem pyab (ro : Bool) {p q r u : Nat} (hp : p < n) (hq : q < n) (hr : r < n) (hu : u < n) :
    (makeRdm12sPy nrm ci n (strs n e.1).length (strs n e.2).length la lb ro).2.2.2.1 p q r u = dm2raw n (vec n e cc) false true p q r u := by
  have hv : vec n e (xa la cc p q) = exc n false p q (vec n e cc) := vec_of_holds (holds_xa hla cc hp hq) fun A B h => supp_exc false hp hq h
  have main : (makeRdm12sPy nrm ci n (strs n e.1).length (strs n e.2).length la lb ro).2.2.2.1 p q r u =
      dot n (vec n e cc) (exc n true r u (exc n false p q (vec n e cc))) := by
    unfold makeRdm12sPy
    dsimp only
    rw [fold_at _ _ (fun d : M4 ℂ => d p q r u) (fun s => ∑ b ∈ Finset.range (strs n e.2).length, star (cc s b) * xb lb (xa la cc p q) r u s b), zero_add, sum_list_range]
    · rw [← hv]
      exact energy_val (holds_xb hlb (xa la cc p q) hr hu)
    · intro d s
      rw [fold_at _ _ (fun d : M4 ℂ => d p q r u) (fun b => star (cc s b) * xb lb (xa la cc p q) r u s b), sum_list_range]
      intro d b
      split
      · next h =>
        dsimp only at h ⊢
        rw [h, zero_mul, add_zero]
      · rw [fold_at _ _ (fun d : M4 ℂ => d p q r u) (fun l : Lk => if l.i = r ∧ l.a = u then (l.sign : ℂ) * (xa la cc p q s l.addr * star (cc s b)) else 0), xb_list]
        intro d l
        dsimp only
        by_cases h : r = l.i ∧ u = l.a
        · rw [if_pos h, if_pos ⟨h.1.symm, h.2.symm⟩, t1Py_a la cc]
          ring
        · rw [if_neg h, if_neg (fun k => h ⟨k.1.symm, k.2.symm⟩), add_zero]
  rw [main]
  have e1 := raw_dm2 (p := r) true false hu hp hq (vec n e cc)
  have e2 := raw_dm2 (p := p) false true hq hr hu (vec n e cc)
  rw [if_neg (by simp), zero_add] at e1 e2
  rw [e2, dm2_swap false true hp hq hr hu, ← e1]
  rfl

theorem py2_aa (ro : Bool) {p q r u : Nat} (hp : p < n) (hq : q < n) (hr : r < n) (hu : u < n) :
    (makeRdm12sPy nrm ci n (strs n e.1).length (strs n e.2).length la lb ro).2.2.1 p q r u =
      if ro then dm2 n (vec n e cc) false false p q r u else dm2raw n (vec n e cc) false false p q r u := by
  have h1 := py1_a (lb := lb) hla nrm ci ro hu hp
  have h2 := pyraw_a hla nrm ci hp hq hr hu
  unfold makeRdm12sPy at h1 ⊢
  dsimp only at h1 ⊢
  cases ro
  · rw [if_neg Bool.false_ne_true, if_neg Bool.false_ne_true, star_star]
    exact h2
  · rw [if_pos rfl, if_pos rfl, reorder_val, star_sub, star_star]
    refine Eq.trans (congrArg₂ (· - ·) h2 ?_) (b := dm2raw n (vec n e cc) false false p q r u - if q = r then dot n (vec n e cc) (exc n false p u (vec n e cc)) else 0) ?_
    · by_cases h : q = r
      · subst h
        rw [if_pos ⟨rfl, hq⟩, star_star, h1, if_pos rfl]
        rfl
      · rw [if_neg h, if_neg (fun k => h k.1.symm), star_zero]
    · rw [raw_dm2 false false hq hr hu]
      simp

theorem py2_bb (ro : Bool) {p q r u : Nat} (hp : p < n) (hq : q < n) (hr : r < n) (hu : u < n) :
    (makeRdm12sPy nrm ci n (strs n e.1).length (strs n e.2).length la lb ro).2.2.2.2 p q r u =
      if ro then dm2 n (vec n e cc) true true p q r u else dm2raw n (vec n e cc) true true p q r u := by
  have h1 := py1_b (la := la) hlb nrm ci ro hu hp
  have h2 := pyraw_b hlb nrm ci hp hq hr hu
  unfold makeRdm12sPy at h1 ⊢
  dsimp only at h1 ⊢
  cases ro
  · rw [if_neg Bool.false_ne_true, if_neg Bool.false_ne_true, star_star]
    exact h2
  · rw [if_pos rfl, if_pos rfl, reorder_val, star_sub, star_star]
    refine Eq.trans (congrArg₂ (· - ·) h2 ?_) (b := dm2raw n (vec n e cc) true true p q r u - if q = r then dot n (vec n e cc) (exc n true p u (vec n e cc)) else 0) ?_
    · by_cases h : q = r
      · subst h
        rw [if_pos ⟨rfl, hq⟩, star_star, h1, if_pos rfl]
        rfl
      · rw [if_neg h, if_neg (fun k => h k.1.symm), star_zero]
    · rw [raw_dm2 true true hq hr hu]
      simp
end

end Verif.CplxRdm
