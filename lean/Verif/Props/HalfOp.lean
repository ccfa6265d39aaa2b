import Verif.Lemmas.HalfOp3
import Mathlib.Data.Rat.Cast.CharZero
/-!
# C115: operators that change the number of electrons act exactly on CI vectors
-/
namespace Verif.Props
open Verif.HalfOp Verif.FciRdm Verif.Spec.FciRdm Verif.Spec.Tdm Verif.Spec.HalfOp Verif.Dummy Verif.Tdm Verif.Fockspace

namespace HalfOp
open FciRdm
variable {K : Type} [Field K]

theorem plus_add (n : Nat × Nat) (s : Bool) : (n.1 + (!s).toNat, n.2 + s.toNat) = plus n s := by cases s <;> rfl

/-- The electrons are created: the operator gets the padded vector, and the part without dummy electron is returned. -/
theorem half_up (op : Arr K → Nat × Nat → Link → Arr K) (s : Bool) (ci : Arr K) {norb : Nat} {n : Nat × Nat} {link : Option Link}
    (hl : link = none ∨ link = some (norb + 1, (plus n s).1, (plus n s).2)) (hf : n.1 ≤ norb ∧ n.2 ≤ norb) {φ : Vec K}
    (h : Holds (norb + 1) (plus n s) (op (addOrbital ci norb n.1 n.2 (!s) s) (plus n s) (norb + 1, (plus n s).1, (plus n s).2)) φ) :
    ∃ d, halfContract op true s ci norb n link = some d ∧ Holds norb (plus n s) d (unpad norb false false φ) := by
  unfold halfContract
  simp only [Bool.true_and, Bool.not_true, Bool.false_and, if_true]
  rw [plus_add, unpack_eq hl, linkOk_self (by cases s <;> simp [plus] <;> omega) (by cases s <;> simp [plus] <;> omega), if_pos rfl]
  refine ⟨_, rfl, ?_⟩
  rw [bump_eq]
  exact holds_read h

/-- The electrons are annihilated: the operator gets the vector without dummy electron, and the part with one is returned. -/
theorem half_down (op : Arr K → Nat × Nat → Link → Arr K) (s : Bool) (ci : Arr K) {norb : Nat} {n : Nat × Nat} {link : Option Link}
    (hl : link = none ∨ link = some (norb + 1, (plus n s).1, (plus n s).2)) (hf : (plus n s).1 ≤ norb ∧ (plus n s).2 ≤ norb) {φ : Vec K}
    (h : Holds (norb + 1) (plus n s) (op (addOrbital ci norb (plus n s).1 (plus n s).2 false false) (plus n s)
      (norb + 1, (plus n s).1, (plus n s).2)) φ) :
    ∃ d, halfContract op false s ci norb (plus n s) link = some d ∧ Holds norb n d (unpad norb (!s) s φ) := by
  unfold halfContract
  simp only [Bool.false_and, Bool.not_false, Bool.true_and, Bool.false_eq_true, if_false, Bool.toNat_false, Nat.add_zero]
  rw [show ((plus n s).1, (plus n s).2) = plus n s from rfl, unpack_eq hl, linkOk_self (by omega) (by omega), if_pos rfl]
  refine ⟨_, rfl, ?_⟩
  rw [drop_plus]
  rw [← plus_add n s] at h ⊢
  exact holds_read h

/-- The padded matrices of `absorb_h1he`, contracted with a vector that has electrons. -/
theorem absorbed [CharZero K] {P : Ops K} (hP : Contracts P) {N : Nat} {e : Nat × Nat} (he : e.1 + e.2 ≠ 0) {h1 : M2 K} {h2 : M4 K}
    (s1 : Sym2 h1) (s2 : Sym4 h2) (s3 : ∀ p q r u, h2 p q r u = h2 r u p q) (fac : K) (c : Arr K) :
    Holds N e (P.c2 (pack (absorbH1e h1 h2 N (e.1 + e.2) fac)) c N e (N, e.1, e.2)) (fun A B =>
      fac * (2 * oneE N (fun _ => h1) (vec N e c) A B +
        ∑ p ∈ Finset.range N, ∑ q ∈ Finset.range N, ∑ r ∈ Finset.range N, ∑ u ∈ Finset.range N, ∑ s : Bool, ∑ t : Bool,
          h2 p q r u * nrm N s t p q r u (vec N e c) A B)) := by
  intro A hA B hB
  rw [hP.c2 _ c N e (pack_sym _) A hA B hB, absorb_pack s1 s2 s3, absorb_twoE he h1 h2 fac c hA hB]

theorem halfMat3_pairs (h : Nat → Nat → Nat → K) (c : Bool) (n p q r u : Nat) : halfMat3 h c n p q r u = halfMat3 h c n r u p q := by
  unfold halfMat3
  dsimp only
  rw [add_comm]

theorem unpad_lin (n : Nat) (a b : Bool) (c : K) (φ χ : Vec K) (A B : Nat) :
    unpad n a b (fun A B => c * (2 * φ A B + χ A B)) A B = c * (2 * unpad n a b φ A B + unpad n a b χ A B) := by
  unfold unpad; ring

theorem three_up [CharZero K] {P : Ops K} (hP : Contracts P) (h1 : Nat → K) (h3 : Nat → Nat → Nat → K) (hs : ∀ p q r, h3 p q r = h3 p r q)
    (fac : K) (s : Bool) (ci : Arr K) (norb : Nat) (n : Nat × Nat) (link : Option Link)
    (hl : link = none ∨ link = some (norb + 1, (plus n s).1, (plus n s).2)) (hf : n.1 ≤ norb ∧ n.2 ≤ norb) :
    ∃ d, contract3he P (absorbH1he h1 h3 true s norb n fac) true s ci norb n link = some d ∧
      Holds norb (plus n s) d (fun A B => 2 * fac * halfCre norb s h1 h3 (vec norb n ci) A B) := by
  unfold contract3he absorbH1he
  simp only [if_true]
  rw [bump_eq]
  obtain ⟨d, hd, h⟩ := half_up (fun c nd l => P.c2 (pack (absorbH1e (halfMat h1 norb) (halfMat3 h3 true norb) (norb + 1)
    ((plus n s).1 + (plus n s).2) fac)) c (norb + 1) nd l) s ci hl hf
    (absorbed hP (by cases s <;> simp [plus] <;> omega) (halfMat_sym h1 norb) (halfMat3_sym (by simpa using hs) norb) (halfMat3_pairs h3 true norb) fac _)
  refine ⟨d, hd, holds_congr h fun A hA B hB => ?_⟩
  rw [unpad_lin, vec_ket, half_create s h1 _ hA hB, three_create s h3 _ hA hB]
  unfold halfCre
  ring

theorem three_down [CharZero K] {P : Ops K} (hP : Contracts P) (h1 : Nat → K) (h3 : Nat → Nat → Nat → K) (hs : ∀ p q r, h3 p q r = h3 q p r)
    (fac : K) (s : Bool) (ci : Arr K) (norb : Nat) (n : Nat × Nat) (link : Option Link)
    (hl : link = none ∨ link = some (norb + 1, (plus n s).1, (plus n s).2)) (hf : (plus n s).1 ≤ norb ∧ (plus n s).2 ≤ norb) :
    ∃ d, contract3he P (absorbH1he h1 h3 false s norb (plus n s) fac) false s ci norb (plus n s) link = some d ∧
      Holds norb n d (fun A B => 2 * fac * halfAnn norb s h1 h3 (vec norb (plus n s) ci) A B) := by
  unfold contract3he absorbH1he
  simp only [Bool.false_eq_true, if_false]
  obtain ⟨d, hd, h⟩ := half_down (fun c nd l => P.c2 (pack (absorbH1e (halfMat h1 norb) (halfMat3 h3 false norb) (norb + 1)
    ((plus n s).1 + (plus n s).2) fac)) c (norb + 1) nd l) s ci hl hf
    (absorbed hP (by cases s <;> simp [plus] <;> omega) (halfMat_sym h1 norb) (halfMat3_sym (by simpa using hs) norb) (halfMat3_pairs h3 false norb) fac _)
  refine ⟨d, hd, holds_congr h fun A hA B hB => ?_⟩
  rw [unpad_lin, vec_bra, half_destroy s h1 _ hA hB, three_destroy s h3 _ hA hB]
  unfold halfAnn
  ring

theorem ann_vac {N p : Nat} (s : Bool) (hp : p < N) (c : Arr K) : ann N s p (vec N (0, 0) c) = fun _ _ => 0 := by
  have hz : ∀ D, D.testBit p = false → ¬ (D ^^^ 2 ^ p) ∈ strs N 0 := by
    intro D hD hm
    have h1 := (mem_strs.1 hm).2
    have h2 := nOcc_rem N p (D ^^^ 2 ^ p) hp (by rw [Verif.FciRdm.testBit_xor_self', hD]; rfl)
    omega
  funext A B
  unfold ann vec
  cases s
  · simp only [Bool.false_eq_true, if_false]
    cases hb : A.testBit p
    · simp [hz A hb]
    · simp
  · simp only [if_true]
    cases hb : B.testBit p
    · simp [hz B hb]
    · simp

end HalfOp
open HalfOp

variable {K : Type} [Field K]

/-- **C115** `contract_1he` with `cre=True` acts with `Σ h[r] r'_s`. -/
theorem C115_one_create {P : Ops K} (hP : Contracts P) (h : Nat → K) (s : Bool) (ci : Arr K) (norb : Nat) (n : Nat × Nat) (link : Option Link)
    (hl : link = none ∨ link = some (norb + 1, (plus n s).1, (plus n s).2)) (hf : n.1 ≤ norb ∧ n.2 ≤ norb) :
    ∃ d, contract1he P h true s ci norb n link = some d ∧
      Holds norb (plus n s) d (fun A B => ∑ r ∈ Finset.range norb, h r * cre norb s r (vec norb n ci) A B) := by
  unfold contract1he
  obtain ⟨d, hd, h'⟩ := half_up (fun c nd l => P.c1 (pack2 (halfMat h norb)) c (norb + 1) nd l) s ci hl hf (hP.c1 _ _ _ _ (pack2_sym _))
  refine ⟨d, hd, holds_congr h' fun A hA B hB => ?_⟩
  rw [pack2_of_sym (halfMat_sym h norb), FciRdm.vec_ket, half_create s h _ hA hB]

/-- **C115** `contract_1he` with `cre=False` acts with `Σ h[r] r_s`. -/
theorem C115_one_destroy {P : Ops K} (hP : Contracts P) (h : Nat → K) (s : Bool) (ci : Arr K) (norb : Nat) (n : Nat × Nat) (link : Option Link)
    (hl : link = none ∨ link = some (norb + 1, (plus n s).1, (plus n s).2)) (hf : (plus n s).1 ≤ norb ∧ (plus n s).2 ≤ norb) :
    ∃ d, contract1he P h false s ci norb (plus n s) link = some d ∧
      Holds norb n d (fun A B => ∑ r ∈ Finset.range norb, h r * ann norb s r (vec norb (plus n s) ci) A B) := by
  unfold contract1he
  obtain ⟨d, hd, h'⟩ := half_down (fun c nd l => P.c1 (pack2 (halfMat h norb)) c (norb + 1) nd l) s ci hl hf (hP.c1 _ _ _ _ (pack2_sym _))
  refine ⟨d, hd, holds_congr h' fun A hA B hB => ?_⟩
  rw [pack2_of_sym (halfMat_sym h norb), FciRdm.vec_bra, half_destroy s h _ hA hB]

/-- **C115** `absorb_h1he` with `fac=0.5` followed by `contract_3he`, with `cre=True`, acts with `Σ h1[r] r'_s + Σ h3[p,q,r] p'_s q'_t r_t`, if
`h3` is symmetric in its last two indices. -/
theorem C115_three_create_partial [CharZero K] {P : Ops K} (hP : Contracts P) (h1 : Nat → K) (h3 : Nat → Nat → Nat → K) (hs : ∀ p q r, h3 p q r = h3 p r q)
    (s : Bool) (ci : Arr K) (norb : Nat) (n : Nat × Nat) (link : Option Link)
    (hl : link = none ∨ link = some (norb + 1, (plus n s).1, (plus n s).2)) (hf : n.1 ≤ norb ∧ n.2 ≤ norb) :
    ∃ d, contract3he P (absorbH1he h1 h3 true s norb n (1 / 2)) true s ci norb n link = some d ∧
      Holds norb (plus n s) d (halfCre norb s h1 h3 (vec norb n ci)) := by
  obtain ⟨d, hd, h⟩ := three_up hP h1 h3 hs (1 / 2) s ci norb n link hl hf
  exact ⟨d, hd, holds_congr h fun A _ B _ => by field_simp⟩

/-- **C115** The same with `cre=False`: `Σ h1[r] r_s + Σ h3[p,q,r] p'_t q_t r_s`, if `h3` is symmetric in its first two indices. -/
theorem C115_three_destroy_partial [CharZero K] {P : Ops K} (hP : Contracts P) (h1 : Nat → K) (h3 : Nat → Nat → Nat → K)
    (hs : ∀ p q r, h3 p q r = h3 q p r)
    (s : Bool) (ci : Arr K) (norb : Nat) (n : Nat × Nat) (link : Option Link)
    (hl : link = none ∨ link = some (norb + 1, (plus n s).1, (plus n s).2)) (hf : (plus n s).1 ≤ norb ∧ (plus n s).2 ≤ norb) :
    ∃ d, contract3he P (absorbH1he h1 h3 false s norb (plus n s) (1 / 2)) false s ci norb (plus n s) link = some d ∧
      Holds norb n d (halfAnn norb s h1 h3 (vec norb (plus n s) ci)) := by
  obtain ⟨d, hd, h⟩ := three_down hP h1 h3 hs (1 / 2) s ci norb n link hl hf
  exact ⟨d, hd, holds_congr h fun A _ B _ => by field_simp⟩

/-- **C115** What other values of `fac` do: both parts are multiplied by twice the factor, not only the three-half-electron part. -/
theorem C115_factor [CharZero K] {P : Ops K} (hP : Contracts P) (h1 : Nat → K) (h3 : Nat → Nat → Nat → K) (fac : K)
    (s : Bool) (ci : Arr K) (norb : Nat) (n : Nat × Nat) (link : Option Link)
    (hl : link = none ∨ link = some (norb + 1, (plus n s).1, (plus n s).2)) :
    ((∀ p q r, h3 p q r = h3 p r q) → n.1 ≤ norb ∧ n.2 ≤ norb →
      ∃ d, contract3he P (absorbH1he h1 h3 true s norb n fac) true s ci norb n link = some d ∧
        Holds norb (plus n s) d (fun A B => 2 * fac * halfCre norb s h1 h3 (vec norb n ci) A B)) ∧
    ((∀ p q r, h3 p q r = h3 q p r) → (plus n s).1 ≤ norb ∧ (plus n s).2 ≤ norb →
      ∃ d, contract3he P (absorbH1he h1 h3 false s norb (plus n s) fac) false s ci norb (plus n s) link = some d ∧
        Holds norb n d (fun A B => 2 * fac * halfAnn norb s h1 h3 (vec norb (plus n s) ci) A B)) :=
  ⟨fun hs hf => three_up hP h1 h3 hs fac s ci norb n link hl hf, fun hs hf => three_down hP h1 h3 hs fac s ci norb n link hl hf⟩

/-- **C115** `contract_pair_op` with `cre=True` acts with `Σ op[p,q] p'_s q'_t`. -/
theorem C115_pair_create [CharZero K] {P : Ops K} (hP : Contracts P) (op : M2 K) (s t : Bool) (hst : s = true → t = true) (ci : Arr K) (norb : Nat)
    (n : Nat × Nat) (link : Option Link)
    (hl : link = none ∨ link = some (norb + (if s = t then 2 else 1), (plus (plus n s) t).1, (plus (plus n s) t).2))
    (hf : n.1 ≤ norb ∧ n.2 ≤ norb) :
    ∃ d, contractPairOp P op true (s.toNat + t.toNat) ci norb n link = some d ∧
      Holds norb (plus (plus n s) t) d (pairCre norb s t op (vec norb n ci)) := by
  have hadd := fun (m : Nat) (e : Nat × Nat) (a b : Bool) (c : Arr K) => vec_addOrbital m e a b c
  cases s <;> cases t
  · unfold contractPairOp
    simp only [plus, Bool.toNat_false, Nat.add_zero, Nat.zero_mod, Nat.sub_zero, addDummies, readDummies, Nat.add_sub_cancel, if_true,
      Bool.false_eq_true, if_false] at hl ⊢
    simp only [Nat.lt_irrefl, decide_false, gt_iff_lt, Bool.false_and, show (0 : Nat) < 2 from by omega, decide_true, Bool.true_and, Bool.toNat_true, Bool.toNat_false, Nat.add_zero, Bool.not_true,
      Nat.sub_zero, show (0 : Nat) ≠ 1 from by omega, show (0 : Nat) ≠ 2 from by omega, if_false, show (0 : Nat) < 3 from by omega, if_true]
    rw [FciRdm.unpack_eq (e := (n.1 + 1 + 1, n.2)) hl, FciRdm.linkOk_self (by simp; omega) (by simp; omega), if_pos rfl]
    refine ⟨_, rfl, ?_⟩
    have h0 := hP.c2u (pack (pairMat op norb 2)) (pack fun _ _ _ _ => 0) (pack fun _ _ _ _ => 0)
      (addOrbital (addOrbital ci norb n.1 n.2 true false) (norb + 1) (n.1 + 1) n.2 true false) (norb + 2) (n.1 + 1 + 1, n.2) (pack_sym _) (pack_sym _) (pack_sym _)
    have h1 := holds_read (a := false) (b := false) (n := norb + 1) (e := (n.1 + 1 + 1, n.2)) h0
    have h2 := holds_read (a := false) (b := false) (n := norb) (e := (n.1 + 1 + 1, n.2)) h1
    refine holds_congr h2 fun A hA B hB => ?_
    rw [show vec (norb + 2) (n.1 + 1 + 1, n.2) (addOrbital (addOrbital ci norb n.1 n.2 true false) (norb + 1) (n.1 + 1) n.2 true false) =
      pad (norb + 1) true false (pad norb true false (vec norb n ci)) from by
        rw [← hadd norb n true false ci]; exact hadd (norb + 1) (n.1 + 1, n.2) true false _]
    exact same_create false op (vec norb n ci) hA hB _ fun s t => by cases s <;> cases t <;> first | rfl | (funext p q r u; simp [pack])
  · unfold contractPairOp
    simp only [plus, Bool.toNat_false, Bool.toNat_true, Nat.zero_add, Nat.add_zero, addDummies, readDummies, Nat.add_sub_cancel, if_true,
      Bool.false_eq_true, if_false] at hl ⊢
    simp only [show 2 - 1 % 2 = 1 from rfl, addDummies, readDummies, gt_iff_lt, show (1 : Nat) < 2 from by omega, show (0 : Nat) < 1 from by omega, decide_true, Bool.true_and, Bool.toNat_true, Bool.toNat_false, Nat.add_zero, Bool.not_true,
      Nat.sub_zero, show (1 : Nat) ≠ 0 from by omega, show (1 : Nat) ≠ 2 from by omega, if_false, show (1 : Nat) < 3 from by omega, if_true]
    rw [FciRdm.unpack_eq (e := (n.1 + 1, n.2 + 1)) hl, FciRdm.linkOk_self (by simp; omega) (by simp; omega), if_pos rfl]
    refine ⟨_, rfl, ?_⟩
    have h0 := hP.c2u (pack fun _ _ _ _ => 0) (pack (pairMat (fun p q => op p q * (1 / 2)) norb 1)) (pack fun _ _ _ _ => 0)
      (addOrbital ci norb n.1 n.2 true true) (norb + 1) (n.1 + 1, n.2 + 1) (pack_sym _) (pack_sym _) (pack_sym _)
    have h1 := holds_read (a := false) (b := false) (n := norb) (e := (n.1 + 1, n.2 + 1)) h0
    refine holds_congr h1 fun A hA B hB => ?_
    rw [show vec (norb + 1) (n.1 + 1, n.2 + 1) (addOrbital ci norb n.1 n.2 true true) = pad norb true true (vec norb n ci) from hadd norb n true true ci,
      ← mixed_create op (vec norb n ci) hA hB]
    rfl
  · exact absurd (hst rfl) (by simp)
  · unfold contractPairOp
    simp only [plus, Bool.toNat_true, Nat.add_zero, Nat.reduceAdd, Nat.mod_self, Nat.sub_zero, addDummies, readDummies, Nat.add_sub_cancel, if_true,
      Bool.false_eq_true, if_false] at hl ⊢
    simp only [Nat.lt_irrefl, decide_false, gt_iff_lt, Bool.false_and, show (0 : Nat) < 2 from by omega, decide_true, Bool.true_and, Bool.toNat_true, Bool.toNat_false, Nat.add_zero, Bool.not_true,
      Nat.sub_zero, show (2 : Nat) ≠ 1 from by omega, show (2 : Nat) ≠ 0 from by omega, if_false, show (2 : Nat) < 3 from by omega, if_true]
    rw [FciRdm.unpack_eq (e := (n.1, n.2 + 1 + 1)) hl, FciRdm.linkOk_self (by simp; omega) (by simp; omega), if_pos rfl]
    refine ⟨_, rfl, ?_⟩
    have h0 := hP.c2u (pack fun _ _ _ _ => 0) (pack fun _ _ _ _ => 0) (pack (pairMat op norb 2))
      (addOrbital (addOrbital ci norb n.1 n.2 false true) (norb + 1) n.1 (n.2 + 1) false true) (norb + 2) (n.1, n.2 + 1 + 1) (pack_sym _) (pack_sym _) (pack_sym _)
    have h1 := holds_read (a := false) (b := false) (n := norb + 1) (e := (n.1, n.2 + 1 + 1)) h0
    have h2 := holds_read (a := false) (b := false) (n := norb) (e := (n.1, n.2 + 1 + 1)) h1
    refine holds_congr h2 fun A hA B hB => ?_
    rw [show vec (norb + 2) (n.1, n.2 + 1 + 1) (addOrbital (addOrbital ci norb n.1 n.2 false true) (norb + 1) n.1 (n.2 + 1) false true) =
      pad (norb + 1) false true (pad norb false true (vec norb n ci)) from by
        rw [← hadd norb n false true ci]; exact hadd (norb + 1) (n.1, n.2 + 1) false true _]
    exact same_create true op (vec norb n ci) hA hB _ fun s t => by cases s <;> cases t <;> first | rfl | (funext p q r u; simp [pack])

/-- **C115** `contract_pair_op` with `cre=False` acts with `Σ op[p,q] p_t q_s`. -/
theorem C115_pair_destroy [CharZero K] {P : Ops K} (hP : Contracts P) (op : M2 K) (s t : Bool) (hst : s = true → t = true) (ci : Arr K) (norb : Nat)
    (n : Nat × Nat) (link : Option Link)
    (hl : link = none ∨ link = some (norb + (if s = t then 2 else 1), (plus (plus n s) t).1, (plus (plus n s) t).2))
    (hf : (plus (plus n s) t).1 ≤ norb ∧ (plus (plus n s) t).2 ≤ norb) :
    ∃ d, contractPairOp P op false (s.toNat + t.toNat) ci norb (plus (plus n s) t) link = some d ∧
      Holds norb n d (pairAnn norb s t op (vec norb (plus (plus n s) t) ci)) := by
  have hadd := fun (m : Nat) (e : Nat × Nat) (c : Arr K) => vec_addOrbital m e false false c
  cases s <;> cases t
  · unfold contractPairOp
    simp only [plus, Bool.toNat_false, Nat.add_zero, Nat.zero_mod, Nat.sub_zero, addDummies, readDummies, Nat.add_sub_cancel, if_true,
      Bool.false_eq_true, if_false, Bool.and_false] at hl hf ⊢
    simp only [Nat.lt_irrefl, decide_false, gt_iff_lt, Bool.false_and, show (0 : Nat) < 2 from by omega, decide_true, Bool.true_and, Bool.toNat_true, Bool.toNat_false, Nat.add_zero, Bool.not_false,
      Nat.sub_zero, show (0 : Nat) ≠ 1 from by omega, show (0 : Nat) ≠ 2 from by omega, if_false, show (0 : Nat) < 3 from by omega, if_true, Nat.add_sub_cancel]
    rw [FciRdm.unpack_eq (e := (n.1 + 1 + 1, n.2)) hl, FciRdm.linkOk_self (by simp; omega) (by simp; omega), if_pos rfl]
    refine ⟨_, rfl, ?_⟩
    have h0 := hP.c2u (pack (pairMat (fun p q => op q p) norb 2)) (pack fun _ _ _ _ => 0) (pack fun _ _ _ _ => 0)
      (addOrbital (addOrbital ci norb (n.1 + 1 + 1) n.2 false false) (norb + 1) (n.1 + 1 + 1) n.2 false false) (norb + 2) (n.1 + 1 + 1, n.2) (pack_sym _) (pack_sym _) (pack_sym _)
    have h1 := holds_read (a := true) (b := false) (n := norb + 1) (e := (n.1 + 1, n.2)) h0
    have h2 := holds_read (a := true) (b := false) (n := norb) (e := n) h1
    refine holds_congr h2 fun A hA B hB => ?_
    rw [show vec (norb + 2) (n.1 + 1 + 1, n.2) (addOrbital (addOrbital ci norb (n.1 + 1 + 1) n.2 false false) (norb + 1) (n.1 + 1 + 1) n.2 false false) =
      pad (norb + 1) false false (pad norb false false (vec norb (n.1 + 1 + 1, n.2) ci)) from by
        rw [← hadd norb (n.1 + 1 + 1, n.2) ci]; exact hadd (norb + 1) (n.1 + 1 + 1, n.2) _]
    exact same_destroy false op (vec norb (n.1 + 1 + 1, n.2) ci) hA hB _ fun s t => by cases s <;> cases t <;> first | rfl | (funext p q r u; simp [pack])
  · unfold contractPairOp
    simp only [plus, Bool.toNat_false, Bool.toNat_true, Nat.zero_add, Nat.add_zero, addDummies, readDummies, Nat.add_sub_cancel, if_true,
      Bool.false_eq_true, if_false, Bool.and_false] at hl hf ⊢
    simp only [show 2 - 1 % 2 = 1 from rfl, addDummies, readDummies, gt_iff_lt, show (1 : Nat) < 2 from by omega, show (0 : Nat) < 1 from by omega, decide_true, Bool.true_and, Bool.toNat_true, Bool.toNat_false, Nat.add_zero, Bool.not_false,
      Nat.sub_zero, show (1 : Nat) ≠ 0 from by omega, show (1 : Nat) ≠ 2 from by omega, if_false, show (1 : Nat) < 3 from by omega, if_true, Nat.add_sub_cancel]
    rw [FciRdm.unpack_eq (e := (n.1 + 1, n.2 + 1)) hl, FciRdm.linkOk_self (by simp; omega) (by simp; omega), if_pos rfl]
    refine ⟨_, rfl, ?_⟩
    have h0 := hP.c2u (pack fun _ _ _ _ => 0) (pack (pairMat (fun p q => op q p * (1 / 2)) norb 1)) (pack fun _ _ _ _ => 0)
      (addOrbital ci norb (n.1 + 1) (n.2 + 1) false false) (norb + 1) (n.1 + 1, n.2 + 1) (pack_sym _) (pack_sym _) (pack_sym _)
    have h1 := holds_read (a := true) (b := true) (n := norb) (e := n) h0
    refine holds_congr h1 fun A hA B hB => ?_
    rw [show vec (norb + 1) (n.1 + 1, n.2 + 1) (addOrbital ci norb (n.1 + 1) (n.2 + 1) false false) = pad norb false false (vec norb (n.1 + 1, n.2 + 1) ci) from
      hadd norb (n.1 + 1, n.2 + 1) ci, ← mixed_destroy op (vec norb (n.1 + 1, n.2 + 1) ci) hA hB]
    rfl
  · exact absurd (hst rfl) (by simp)
  · unfold contractPairOp
    simp only [plus, Bool.toNat_true, Nat.add_zero, Nat.reduceAdd, Nat.mod_self, Nat.sub_zero, addDummies, readDummies, Nat.add_sub_cancel, if_true,
      Bool.false_eq_true, if_false, Bool.and_false] at hl hf ⊢
    simp only [Nat.lt_irrefl, decide_false, gt_iff_lt, Bool.false_and, show (0 : Nat) < 2 from by omega, decide_true, Bool.true_and, Bool.toNat_true, Bool.toNat_false, Nat.add_zero, Bool.not_false,
      Nat.sub_zero, show (2 : Nat) ≠ 1 from by omega, show (2 : Nat) ≠ 0 from by omega, if_false, show (2 : Nat) < 3 from by omega, if_true, Nat.add_sub_cancel]
    rw [FciRdm.unpack_eq (e := (n.1, n.2 + 1 + 1)) hl, FciRdm.linkOk_self (by simp; omega) (by simp; omega), if_pos rfl]
    refine ⟨_, rfl, ?_⟩
    have h0 := hP.c2u (pack fun _ _ _ _ => 0) (pack fun _ _ _ _ => 0) (pack (pairMat (fun p q => op q p) norb 2))
      (addOrbital (addOrbital ci norb n.1 (n.2 + 1 + 1) false false) (norb + 1) n.1 (n.2 + 1 + 1) false false) (norb + 2) (n.1, n.2 + 1 + 1) (pack_sym _) (pack_sym _) (pack_sym _)
    have h1 := holds_read (a := false) (b := true) (n := norb + 1) (e := (n.1, n.2 + 1)) h0
    have h2 := holds_read (a := false) (b := true) (n := norb) (e := n) h1
    refine holds_congr h2 fun A hA B hB => ?_
    rw [show vec (norb + 2) (n.1, n.2 + 1 + 1) (addOrbital (addOrbital ci norb n.1 (n.2 + 1 + 1) false false) (norb + 1) n.1 (n.2 + 1 + 1) false false) =
      pad (norb + 1) false false (pad norb false false (vec norb (n.1, n.2 + 1 + 1) ci)) from by
        rw [← hadd norb (n.1, n.2 + 1 + 1) ci]; exact hadd (norb + 1) (n.1, n.2 + 1 + 1) _]
    exact same_destroy true op (vec norb (n.1, n.2 + 1 + 1) ci) hA hB _ fun s t => by cases s <;> cases t <;> first | rfl | (funext p q r u; simp [pack])

/-- **C115** `contract_h10` of a fragment: one electron of spin `s` is created. Without the three-half-electron part only `h_10` acts. -/
theorem C115_h10 [CharZero K] {P : Ops K} (hP : Contracts P) (s : Bool) (h10 : Nat → K) (h21 : Option (Nat → Nat → Nat → K))
    (hs : ∀ h ∈ h21, ∀ p q r, h p q r = h p r q) (ci : Arr K) (norb : Nat) (n : Nat × Nat) (hf : n.1 ≤ norb ∧ n.2 ≤ norb) :
    ∃ d, contractH10 P s h10 h21 ci norb n = some d ∧
      Holds norb (plus n s) d (halfCre norb s h10 (h21.getD fun _ _ _ => 0) (vec norb n ci)) := by
  unfold contractH10
  dsimp only
  rw [FciRdm.bump_eq]
  cases h21 with
  | none =>
    obtain ⟨d, hd, h⟩ := C115_one_create hP h10 s ci norb n _ (Or.inr rfl) hf
    exact ⟨d, hd, holds_congr h fun A _ B _ => by simp [halfCre]⟩
  | some h => exact C115_three_create_partial hP h10 h (hs h rfl) s ci norb n _ (Or.inr rfl) hf

/-- **C115** `contract_h01` of a fragment: one electron of spin `s` is annihilated. -/
theorem C115_h01 [CharZero K] {P : Ops K} (hP : Contracts P) (s : Bool) (h01 : Nat → K) (h12 : Option (Nat → Nat → Nat → K))
    (hs : ∀ h ∈ h12, ∀ p q r, h p q r = h q p r) (ci : Arr K) (norb : Nat) (n : Nat × Nat)
    (hf : (plus n s).1 ≤ norb ∧ (plus n s).2 ≤ norb) :
    ∃ d, contractH01 P s h01 h12 ci norb (plus n s) = some d ∧
      Holds norb n d (halfAnn norb s h01 (h12.getD fun _ _ _ => 0) (vec norb (plus n s) ci)) := by
  unfold contractH01
  dsimp only
  cases h12 with
  | none =>
    obtain ⟨d, hd, h⟩ := C115_one_destroy hP h01 s ci norb n _ (Or.inr rfl) hf
    exact ⟨d, hd, holds_congr h fun A _ B _ => by simp [halfAnn]⟩
  | some h => exact C115_three_destroy_partial hP h01 h (hs h rfl) s ci norb n _ (Or.inr rfl) hf

/-- **C115** `contract_h20` of a fragment: a pair is created; the spin index 0, 1, 2 is aa, ab, bb. -/
theorem C115_h20 [CharZero K] {P : Ops K} (hP : Contracts P) (op : M2 K) (s t : Bool) (hst : s = true → t = true) (ci : Arr K) (norb : Nat)
    (n : Nat × Nat) (hf : n.1 ≤ norb ∧ n.2 ≤ norb) :
    ∃ d, contractH20 P (s.toNat + t.toNat) op ci norb n = some d ∧
      Holds norb (plus (plus n s) t) d (pairCre norb s t op (vec norb n ci)) := by
  refine C115_pair_create hP op s t hst ci norb n _ (Or.inr ?_) hf
  cases s <;> cases t <;> first | rfl | exact absurd (hst rfl) (by simp)

/-- **C115** `contract_h02` of a fragment: a pair is annihilated. -/
theorem C115_h02 [CharZero K] {P : Ops K} (hP : Contracts P) (op : M2 K) (s t : Bool) (hst : s = true → t = true) (ci : Arr K) (norb : Nat)
    (n : Nat × Nat) (hf : (plus (plus n s) t).1 ≤ norb ∧ (plus (plus n s) t).2 ≤ norb) :
    ∃ d, contractH02 P (s.toNat + t.toNat) op ci norb (plus (plus n s) t) = some d ∧
      Holds norb n d (pairAnn norb s t op (vec norb (plus (plus n s) t) ci)) := by
  refine C115_pair_destroy hP op s t hst ci norb n _ (Or.inr ?_) hf
  cases s <;> cases t <;> first | rfl | exact absurd (hst rfl) (by simp)

/-- **C115** `contract_h00` of a fragment: a constant and the Hamiltonian with spin-dependent one-electron elements, for symmetric
one-electron elements and two-electron elements with the usual symmetry. -/
theorem C115_h00 [CharZero K] {P : Ops K} (hP : Contracts P) (h00 : K) (h11 : Bool → M2 K) (s1 : ∀ s, Sym2 (h11 s)) (h22 : Option (M4 K))
    (s2 : ∀ g ∈ h22, Sym4 g ∧ ∀ p q r u, g p q r u = g r u p q) (ci : Arr K) (norb : Nat) (e : Nat × Nat) :
    Holds norb e (contractH00 P h00 h11 h22 ci norb e) (fun A B => h00 * vec norb e ci A B +
      hamOp norb h11 (h22.getD fun _ _ _ _ => 0) (vec norb e ci) A B) := by
  have hu : Sym2 (fun p q => (h11 false p q - h11 true p q) / 2) := fun p q => by
    dsimp only; rw [s1 false p q, s1 true p q]
  have hu' : Sym2 (fun p q => -((h11 false p q - h11 true p q) / 2)) := fun p q => by
    dsimp only; rw [s1 false p q, s1 true p q]
  have hm : Sym2 (fun p q => (h11 false p q + h11 true p q) / 2) := fun p q => by
    dsimp only; rw [s1 false p q, s1 true p q]
  intro A hA B hB
  have hv : ci ((strs norb e.1).idxOf A) ((strs norb e.2).idxOf B) = vec norb e ci A B := by
    unfold vec; rw [if_pos ⟨hA, hB⟩]
  have hU := hP.c1u _ _ ci norb e (pack2_sym fun p q => (h11 false p q - h11 true p q) / 2)
    (pack2_sym fun p q => -((h11 false p q - h11 true p q) / 2)) A hA B hB
  rw [pack2_of_sym hu, pack2_of_sym hu'] at hU
  -- the one-electron parts together
  have one : oneE norb (fun _ p q => (h11 false p q + h11 true p q) / 2) (vec norb e ci) A B +
      oneE norb (fun s => if s then fun p q => -((h11 false p q - h11 true p q) / 2) else fun p q => (h11 false p q - h11 true p q) / 2)
        (vec norb e ci) A B =
      ∑ s : Bool, ∑ p ∈ Finset.range norb, ∑ q ∈ Finset.range norb, h11 s p q * cre norb s p (ann norb s q (vec norb e ci)) A B := by
    unfold oneE exc
    simp only [Fintype.sum_bool, ← Finset.sum_add_distrib, if_true, Bool.false_eq_true, if_false]
    refine Finset.sum_congr rfl fun p _ => Finset.sum_congr rfl fun q _ => ?_
    field_simp
    ring
  unfold contractH00
  dsimp only
  rw [hv, pack2_of_sym hu, pack2_of_sym hu', hU]
  unfold hamOp
  cases h22 with
  | none =>
    dsimp only
    rw [hP.c1 _ ci norb e (pack2_sym _) A hA B hB, pack2_of_sym hm, add_assoc, one]
    simp
  | some g =>
    obtain ⟨g1, g2⟩ := s2 g rfl
    dsimp only
    simp only [Option.getD_some]
    by_cases he : e.1 + e.2 = 0
    · obtain ⟨e1, e2⟩ := e
      obtain ⟨rfl, rfl⟩ : e1 = 0 ∧ e2 = 0 := by simp only at he; omega
      have z : ∀ (s : Bool), ∀ p ∈ Finset.range norb, ann norb s p (vec norb (0, 0) ci) = fun _ _ => 0 := fun s p hp =>
        ann_vac s (Finset.mem_range.1 hp) ci
      have t1 : ∀ G : Bool → Bool → M4 K, twoE norb G (vec norb (0, 0) ci) A B = 0 := by
        intro G
        unfold twoE exc
        refine Finset.sum_eq_zero fun p _ => Finset.sum_eq_zero fun q _ => Finset.sum_eq_zero fun r _ => Finset.sum_eq_zero fun u hu =>
          Finset.sum_eq_zero fun s _ => Finset.sum_eq_zero fun t _ => ?_
        rw [z t u hu, cre_zero, Ladder.ann_zero, cre_zero, mul_zero]
      have t2 : oneE norb (fun _ p q => (h11 false p q + h11 true p q) / 2) (vec norb (0, 0) ci) A B = 0 := by
        unfold oneE exc
        refine Finset.sum_eq_zero fun p _ => Finset.sum_eq_zero fun q hq => Finset.sum_eq_zero fun s _ => ?_
        rw [z s q hq, cre_zero, mul_zero]
      have t3 : (∑ s : Bool, ∑ t : Bool, ∑ p ∈ Finset.range norb, ∑ q ∈ Finset.range norb, ∑ r ∈ Finset.range norb, ∑ u ∈ Finset.range norb,
          g p q r u * cre norb s p (cre norb t r (ann norb t u (ann norb s q (vec norb (0, 0) ci)))) A B) = 0 := by
        refine Finset.sum_eq_zero fun s _ => Finset.sum_eq_zero fun t _ => Finset.sum_eq_zero fun p _ => Finset.sum_eq_zero fun q hq =>
          Finset.sum_eq_zero fun r _ => Finset.sum_eq_zero fun u _ => ?_
        rw [z s q hq, Ladder.ann_zero, cre_zero, cre_zero, mul_zero]
      rw [hP.c2 _ ci norb (0, 0) (pack_sym _) A hA B hB, t1, ← one, t2, t3]
      ring
    · rw [absorbed hP he hm g1 g2 (1 / 2) ci A hA B hB, ← one]
      have t4 : (∑ p ∈ Finset.range norb, ∑ q ∈ Finset.range norb, ∑ r ∈ Finset.range norb, ∑ u ∈ Finset.range norb, ∑ s : Bool, ∑ t : Bool,
          g p q r u * nrm norb s t p q r u (vec norb e ci) A B) =
          ∑ s : Bool, ∑ t : Bool, ∑ p ∈ Finset.range norb, ∑ q ∈ Finset.range norb, ∑ r ∈ Finset.range norb, ∑ u ∈ Finset.range norb,
            g p q r u * cre norb s p (cre norb t r (ann norb t u (ann norb s q (vec norb e ci)))) A B :=
        sum_spin norb (fun _ _ => g) (fun s t p q r u => nrm norb s t p q r u (vec norb e ci) A B)
      dsimp only
      rw [t4]
      field_simp
      ring

/-- **C115 violated**: the factor of `absorb_h1he` is documented as the factor of the three-half-electron part. With the default factor 1
the one-half-electron part is doubled. -/
theorem C115_factor_violated : ∃ d, contract3he (exactOps : Ops ℚ) (absorbH1he (fun _ => 1) (fun _ _ _ => 0) true false 1 (0, 0) 1) true false
    (fun _ _ => 1) 1 (0, 0) none = some d ∧ ¬ Holds 1 (1, 0) d (halfCre 1 false (fun _ => 1) (fun _ _ _ => 0) (vec 1 (0, 0) fun _ _ => 1)) := by
  obtain ⟨d, hd, h⟩ := (C115_factor exactOps_contracts (fun _ => (1 : ℚ)) (fun _ _ _ => 0) 1 false (fun _ _ => 1) 1 (0, 0) none (Or.inl rfl)).1
    (fun _ _ _ => rfl) (by decide)
  refine ⟨d, hd, fun h' => ?_⟩
  have a := h 1 (by decide +kernel) 0 (by decide +kernel)
  have b := h' 1 (by decide +kernel) 0 (by decide +kernel)
  have c : halfCre 1 false (fun _ => (1 : ℚ)) (fun _ _ _ => 0) (vec 1 (0, 0) fun _ _ => 1) 1 0 = 1 := by decide +kernel
  have b' := a.symm.trans b
  dsimp only at b'
  rw [c] at b'
  norm_num at b'

/-- **C115 violated**: `absorb_h1he` does not ask for a symmetric `h3he`, but only one triangle of the full-electron pair is used: with
`h3[0,0,1]` alone it acts with `0' 1' 0` too. -/
theorem C115_symmetry_violated : ∃ (h3 : Nat → Nat → Nat → ℚ) (d : Arr ℚ),
    contract3he exactOps (absorbH1he (fun _ => 0) h3 true false 2 (0, 1) (1 / 2)) true false (fun _ _ => 1) 2 (0, 1) none = some d ∧
    ¬ Holds 2 (1, 1) d (halfCre 2 false (fun _ => 0) h3 (vec 2 (0, 1) fun _ _ => 1)) := by
  refine ⟨fun p q r => if p = 0 ∧ q = 0 ∧ r = 1 then 1 else 0, _, rfl, fun h => ?_⟩
  have a := h 1 (by decide +kernel) 2 (by decide +kernel)
  revert a
  decide +kernel

example : ∃ d, contract3he (exactOps : Ops ℚ) (absorbH1he (fun r => r + 1) (fun p q r => p + q + r + 2) true true 2 (1, 0) (1 / 2)) true true
    (fun i _ => i + 1) 2 (1, 0) none = some d ∧
    Holds 2 (1, 1) d (halfCre 2 true (fun r => r + 1) (fun p q r => p + q + r + 2) (vec 2 (1, 0) fun i _ => i + 1)) :=
  C115_three_create_partial exactOps_contracts _ _ (fun p q r => by ring) true _ 2 (1, 0) none (Or.inl rfl) (by decide)

example : halfCre 2 true (fun r => if r = 0 then (1 : ℚ) else 2) (fun _ _ _ => 1) (vec 2 (1, 0) fun i _ => if i = 0 then 1 else 3) 2 1 = -7 := by
  decide +kernel

example : ∃ d, contractH01 (exactOps : Ops ℚ) false (fun r => r + 1) (some fun p q r => p + q + r + 2) (fun i j => i + j + 1) 2 (1, 1) = some d ∧
    Holds 2 (0, 1) d (halfAnn 2 false (fun r => r + 1) (fun p q r => p + q + r + 2) (vec 2 (1, 1) fun i j => i + j + 1)) :=
  C115_h01 exactOps_contracts false _ _ (by rintro h ⟨⟩ p q r; ring) _ 2 (0, 1) (by decide)

example : ∃ d, contractH20 (exactOps : Ops ℚ) 1 (fun p q => p + 2 * q + 1) (fun _ _ => 1) 2 (0, 0) = some d ∧
    Holds 2 (1, 1) d (pairCre 2 false true (fun p q => p + 2 * q + 1) (vec 2 (0, 0) fun _ _ => 1)) :=
  C115_h20 exactOps_contracts _ false true (by simp) _ 2 (0, 0) (by decide)

example : pairCre 2 false true (fun p q => if p = 0 ∧ q = 1 then (3 : ℚ) else 1) (vec 2 (0, 0) fun _ _ => 1) 1 2 = 3 := by decide +kernel

example : ∃ d, contractH02 (exactOps : Ops ℚ) 2 (fun p q => p + 2 * q + 1) (fun i j => i + j + 1) 3 (1, 2) = some d ∧
    Holds 3 (1, 0) d (pairAnn 3 true true (fun p q => p + 2 * q + 1) (vec 3 (1, 2) fun i j => i + j + 1)) :=
  C115_h02 exactOps_contracts _ true true (by simp) _ 3 (1, 0) (by decide)

example : Holds 2 (1, 1) (contractH00 (exactOps : Ops ℚ) 3 (fun s p q => if s then p * q else p + q) (some fun p q r u => p * q + r * u) (fun i j => i + j + 1) 2 (1, 1))
    (fun A B => 3 * vec (K := ℚ) 2 (1, 1) (fun i j => i + j + 1) A B +
      hamOp (K := ℚ) 2 (fun s p q => if s then p * q else p + q) (fun p q r u => p * q + r * u) (vec 2 (1, 1) fun i j => i + j + 1) A B) :=
  C115_h00 exactOps_contracts (3 : ℚ) (fun s p q => if s then p * q else p + q) (fun s p q => by cases s <;> simp <;> ring)
    (some fun p q r u => p * q + r * u) (by rintro g ⟨⟩; exact ⟨fun p q r u => ⟨by ring, by ring⟩, fun p q r u => by ring⟩) _ 2 (1, 1)

end Verif.Props
