import Verif.Lemmas.FciRdm
import Mathlib.Tactic.NormNum
/-!
# C104: transition density matrices between different numbers of electrons by dummy orbitals
-/
namespace Verif.Props
open Verif.FciRdm Verif.Spec.FciRdm Verif.Spec.Tdm Verif.Dummy Verif.Tdm

namespace FciRdm
variable {K : Type} [CommRing K]

theorem bump_eq (n : Nat × Nat) (s : Bool) : bump n s = plus n s := by cases s <;> rfl

theorem drop_plus (n : Nat × Nat) (s : Bool) : drop (plus n s) s = n := by cases s <;> rfl

theorem linkOk_self {n : Nat} {e : Nat × Nat} (h1 : e.1 ≤ n) (h2 : e.2 ≤ n) : linkOk (n, e.1, e.2) n e = true := by
  have h : ∀ k ≤ n, ((width n k : Nat) : Int) = k * ((n : Int) - k + 1) := by
    intro k hk
    unfold width
    push_cast [Nat.cast_sub hk]
    ring
  unfold linkOk
  rw [h _ h1, h _ h2]
  simp

theorem unpack_eq {n : Nat} {e : Nat × Nat} {link : Option Link} (h : link = none ∨ link = some (n, e.1, e.2)) :
    unpack n e link = (n, e.1, e.2) := by
  rcases h with rfl | rfl <;> rfl

theorem vec_bra (n : Nat) (e : Nat × Nat) (c : Arr K) :
    vec (n + 1) e (addOrbital c n e.1 e.2 false false) = pad n false false (vec n e c) := vec_addOrbital n e false false c

theorem vec_ket (n : Nat) (e : Nat × Nat) (s : Bool) (c : Arr K) :
    vec (n + 1) (plus e s) (addOrbital c n e.1 e.2 (!s) s) = pad n (!s) s (vec n e c) := by
  have := vec_addOrbital n e (!s) s c
  cases s <;> exact this

theorem setup_create (bra ket : Arr K) {norb : Nat} {n : Nat × Nat} (s : Bool) {link : Option Link}
    (hl : link = none ∨ link = some (norb + 1, (plus n s).1, (plus n s).2)) (hf : (plus n s).1 ≤ norb ∧ (plus n s).2 ≤ norb) :
    halfSetup true bra ket norb n s link = some (addOrbital bra norb (plus n s).1 (plus n s).2 false false,
      addOrbital ket norb n.1 n.2 (!s) s, plus n s, (norb + 1, (plus n s).1, (plus n s).2)) := by
  unfold halfSetup
  simp only [if_true, bump_eq, unpack_eq hl]
  rw [if_pos (linkOk_self (by omega) (by omega))]

theorem setup_destroy (bra ket : Arr K) {norb : Nat} {n : Nat × Nat} (s : Bool) {link : Option Link}
    (hl : link = none ∨ link = some (norb + 1, (plus n s).1, (plus n s).2)) (hf : (plus n s).1 ≤ norb ∧ (plus n s).2 ≤ norb) :
    halfSetup false bra ket norb (plus n s) s link = some (addOrbital ket norb (plus n s).1 (plus n s).2 false false,
      addOrbital bra norb n.1 n.2 (!s) s, plus n s, (norb + 1, (plus n s).1, (plus n s).2)) := by
  unfold halfSetup
  simp only [Bool.false_eq_true, if_false, drop_plus, bump_eq, unpack_eq hl]
  rw [if_pos (linkOk_self (by omega) (by omega))]

/-- Removing the dummy electron of spin `s`. -/
theorem ann_dummy (n : Nat) (s : Bool) (ψ : Vec K) : ann (n + 1) s n (pad n (!s) s ψ) = pad n false false ψ := by
  cases s
  · exact ann_pad_up false ψ
  · rw [show (!true) = false from rfl, ann_pad_down]
    simp

theorem ann_empty {n p : Nat} (s : Bool) (ψ : Vec K) (hp : p < n) :
    ann (n + 1) s p (pad n false false ψ) = pad n false false (ann n s p ψ) := by
  rw [ann_pad s false false ψ hp]
  simp

/-- `⟨bra| r'_s d_s |d ket⟩` where `d` is the dummy orbital. -/
theorem half_one {n r : Nat} (s : Bool) (φ ψ : Vec K) (hr : r < n) :
    tdm1 (n + 1) (pad n false false φ) (pad n (!s) s ψ) s r n = ovl n (ann n s r φ) ψ := by
  unfold tdm1
  rw [ann_empty s φ hr, ann_dummy, ovl_pad]

theorem half_three {n r p q : Nat} (s t : Bool) (φ ψ : Vec K) (hr : r < n) (hp : p < n) (hq : q < n) :
    tdm2 (n + 1) (pad n false false φ) (pad n (!s) s ψ) s t r n p q = ovl n (ann n t p (ann n s r φ)) (ann n t q ψ) := by
  unfold tdm2
  rw [ann_empty s φ hr, ann_empty t _ hp, ann_dummy, ann_empty t ψ hq, ovl_pad]

theorem tdm2_adj {N : Nat} (φ ψ : Vec K) (s t : Bool) {p q r u : Nat} (hp : p < N) (hq : q < N) (hr : r < N) (hu : u < N) :
    tdm2 N φ ψ s t p q r u = tdm2 N ψ φ t s u r q p := by
  unfold tdm2
  rw [ovl_comm, ann_comm N s t q u hq hu ψ, ann_comm N s t p r hp hr φ, ovl_neg_left, ovl_neg_right, neg_neg]

/-- The two-electron arrays of the half-particle functions, for any vectors with the right padding. -/
theorem three_full {P : Fci K} (hP : Right P) (s t : Bool) (bra ket : Arr K) {norb : Nat} {e n : Nat × Nat} (he : e = plus n s)
    {r p q : Nat} (hr : r < norb) (hp : p < norb) (hq : q < norb) :
    (fun T : (Nat → Nat → K) × (Nat → Nat → Nat → Nat → K) × (Nat → Nat → Nat → Nat → K) => (if t then T.2.2 else T.2.1) r norb p q)
      (tdm3Full P s true (addOrbital bra norb e.1 e.2 false false, addOrbital ket norb n.1 n.2 (!s) s, e, (norb + 1, e.1, e.2)) norb) =
      ovl norb (ann norb t p (ann norb s r (vec norb e bra))) (ann norb t q (vec norb n ket)) := by
  subst he
  have r1 : r < norb + 1 := by omega
  have p1 : p < norb + 1 := by omega
  have q1 : q < norb + 1 := by omega
  have d1 : norb < norb + 1 := by omega
  have hne : norb ≠ p := by omega
  have hsame := hP.same2 s (norb + 1) (plus n s) (addOrbital bra norb (plus n s).1 (plus n s).2 false false)
    (addOrbital ket norb n.1 n.2 (!s) s) r norb p q r1 d1 p1 q1
  rw [if_neg hne, add_zero, vec_bra, vec_ket, half_three s s _ _ hr hp hq] at hsame
  cases s <;> cases t
  · simpa [tdm3Full, reorder, hne] using hsame
  · have := hP.mixed (norb + 1) (plus n false) (addOrbital bra norb (plus n false).1 (plus n false).2 false false)
      (addOrbital ket norb n.1 n.2 (!false) false) r norb p q r1 d1 p1 q1
    rw [vec_bra, vec_ket, half_three false true _ _ hr hp hq] at this
    simpa [tdm3Full] using this
  · have := hP.mixed (norb + 1) (plus n true) (addOrbital ket norb n.1 n.2 (!true) true)
      (addOrbital bra norb (plus n true).1 (plus n true).2 false false) q p norb r q1 p1 d1 r1
    rw [vec_bra, vec_ket, tdm2_adj _ _ false true q1 p1 d1 r1, half_three true false _ _ hr hp hq] at this
    simpa [tdm3Full] using this
  · simpa [tdm3Full, reorder, hne] using hsame

theorem one_full {P : Fci K} (hP : Right P) (s : Bool) (bra ket : Arr K) {norb : Nat} {e n : Nat × Nat} (he : e = plus n s)
    {r : Nat} (hr : r < norb) :
    (tdm3Full P s true (addOrbital bra norb e.1 e.2 false false, addOrbital ket norb n.1 n.2 (!s) s, e, (norb + 1, e.1, e.2)) norb).1
      norb r = ovl norb (ann norb s r (vec norb e bra)) (vec norb n ket) := by
  subst he
  have h := hP.same1 s (norb + 1) (plus n s) (addOrbital bra norb (plus n s).1 (plus n s).2 false false)
    (addOrbital ket norb n.1 n.2 (!s) s) norb r (by omega) (by omega)
  rw [vec_bra, vec_ket, half_one s _ _ hr] at h
  cases s <;> simpa [tdm3Full] using h

end FciRdm
open FciRdm

variable {K : Type} [CommRing K]

/-- **C104**. `trans_rdm1ha_cre`, `trans_rdm1hb_cre`: `[r] = ⟨bra| r'_s |ket⟩`, where the bra has one more electron of spin `s`. -/
theorem C104_create {P : Fci K} (hP : Right P) (bra ket : Arr K) (norb : Nat) (n : Nat × Nat) (s : Bool) (link : Option Link)
    (hl : link = none ∨ link = some (norb + 1, (plus n s).1, (plus n s).2)) (hf : (plus n s).1 ≤ norb ∧ (plus n s).2 ≤ norb) :
    ∃ d, transRdm1hs P true bra ket norb n s link = some d ∧
      ∀ r < norb, d r = ovl norb (ann norb s r (vec norb (plus n s) bra)) (vec norb n ket) := by
  refine ⟨_, by unfold transRdm1hs; rw [setup_create bra ket s hl hf]; rfl, ?_⟩
  intro r hr
  dsimp only
  rw [hP.rdm1 s (norb + 1) (plus n s) _ _ _ _ (by omega) (by omega), vec_bra, vec_ket, half_one s _ _ hr]

/-- **C104**. `trans_rdm1ha_des`, `trans_rdm1hb_des`: `[r] = ⟨bra| r_s |ket⟩`, where the ket has one more electron of spin `s`. -/
theorem C104_destroy {P : Fci K} (hP : Right P) (bra ket : Arr K) (norb : Nat) (n : Nat × Nat) (s : Bool) (link : Option Link)
    (hl : link = none ∨ link = some (norb + 1, (plus n s).1, (plus n s).2)) (hf : (plus n s).1 ≤ norb ∧ (plus n s).2 ≤ norb) :
    ∃ d, transRdm1hs P false bra ket norb (plus n s) s link = some d ∧
      ∀ r < norb, d r = ovl norb (vec norb n bra) (ann norb s r (vec norb (plus n s) ket)) := by
  refine ⟨_, by unfold transRdm1hs; rw [setup_destroy bra ket s hl hf]; rfl, ?_⟩
  intro r hr
  dsimp only
  rw [hP.rdm1 s (norb + 1) (plus n s) _ _ _ _ (by omega) (by omega), vec_bra, vec_ket, half_one s _ _ hr, ovl_comm]

/-- **C104**. `trans_rdm13ha_cre`, `trans_rdm13hb_cre`: `tdm1h[r] = ⟨bra| r'_s |ket⟩` and, for both spins `t`,
`tdm3h_t[r,p,q] = ⟨bra| r'_s p'_t q_t |ket⟩`. -/
theorem C104_three_create {P : Fci K} (hP : Right P) (bra ket : Arr K) (norb : Nat) (n : Nat × Nat) (s : Bool) (link : Option Link)
    (hl : link = none ∨ link = some (norb + 1, (plus n s).1, (plus n s).2)) (hf : (plus n s).1 ≤ norb ∧ (plus n s).2 ≤ norb) :
    ∃ d1 da db, transRdm13hs P true bra ket norb n s link = some (d1, da, db) ∧
      (∀ r < norb, d1 r = ovl norb (ann norb s r (vec norb (plus n s) bra)) (vec norb n ket)) ∧
      ∀ (t : Bool), ∀ r < norb, ∀ p < norb, ∀ q < norb, (if t then db else da) r p q =
        ovl norb (ann norb t p (ann norb s r (vec norb (plus n s) bra))) (ann norb t q (vec norb n ket)) := by
  refine ⟨_, _, _, by unfold transRdm13hs; rw [setup_create bra ket s hl hf]; rfl, ?_, ?_⟩
  · intro r hr
    exact one_full hP s bra ket rfl hr
  · intro t r hr p hp q hq
    rw [← three_full hP s t bra ket rfl hr hp hq]
    cases t <;> rfl

/-- **C104**. `trans_rdm13ha_des`, `trans_rdm13hb_des`: `tdm1h[r] = ⟨bra| r_s |ket⟩` and, for both spins `t`,
`tdm3h_t[r,p,q] = ⟨bra| p'_t q_t r_s |ket⟩`. -/
theorem C104_three_destroy {P : Fci K} (hP : Right P) (bra ket : Arr K) (norb : Nat) (n : Nat × Nat) (s : Bool) (link : Option Link)
    (hl : link = none ∨ link = some (norb + 1, (plus n s).1, (plus n s).2)) (hf : (plus n s).1 ≤ norb ∧ (plus n s).2 ≤ norb) :
    ∃ d1 da db, transRdm13hs P false bra ket norb (plus n s) s link = some (d1, da, db) ∧
      (∀ r < norb, d1 r = ovl norb (vec norb n bra) (ann norb s r (vec norb (plus n s) ket))) ∧
      ∀ (t : Bool), ∀ r < norb, ∀ p < norb, ∀ q < norb, (if t then db else da) r p q =
        ovl norb (ann norb t p (vec norb n bra)) (ann norb t q (ann norb s r (vec norb (plus n s) ket))) := by
  refine ⟨_, _, _, by unfold transRdm13hs; rw [setup_destroy bra ket s hl hf]; rfl, ?_, ?_⟩
  · intro r hr
    rw [ovl_comm]
    exact one_full hP s ket bra rfl hr
  · intro t r hr p hp q hq
    rw [ovl_comm, ← three_full hP s t ket bra rfl hr hq hp]
    cases t <;> rfl

/-- **C104**. `trans_sfudm1`: `[p,q] = ⟨bra| p'_a q_b |ket⟩`. -/
theorem C104_flip_up {P : Fci K} (hP : Right P) (bra ket : Arr K) (norb na nb : Nat) (link : Option Link)
    (hl : link = none ∨ link = some (norb + 1, na + 1, nb + 1)) (hf : na + 1 ≤ norb ∧ nb + 1 ≤ norb) :
    ∃ d, transSfudm1 P bra ket norb (na, nb + 1) link = some d ∧ ∀ p < norb, ∀ q < norb,
      d p q = ovl norb (ann norb false p (vec norb (na + 1, nb) bra)) (ann norb true q (vec norb (na, nb + 1) ket)) := by
  have hu : unpack (norb + 1) (na + 1, nb + 1) link = (norb + 1, na + 1, nb + 1) := unpack_eq hl
  have hok : linkOk (norb + 1, na + 1, nb + 1) (norb + 1) (na + 1, nb + 1) = true :=
    linkOk_self (e := (na + 1, nb + 1)) (by show na + 1 ≤ norb + 1; omega) (by show nb + 1 ≤ norb + 1; omega)
  refine ⟨fun p q => -(P.rdm12 Fn.ab (addOrbital ket norb na (nb + 1) true false) (addOrbital bra norb (na + 1) nb false true)
      (norb + 1) (na + 1, nb + 1) (norb + 1, na + 1, nb + 1) 0).2 norb p q norb, ?_, ?_⟩
  · simp only [transSfudm1, drop, bump, Bool.false_eq_true, if_false, if_true, Nat.add_sub_cancel, hu, hok]
  · intro p hp q hq
    have e1 : vec (norb + 1) (na + 1, nb + 1) (addOrbital ket norb na (nb + 1) true false) =
      pad norb true false (vec norb (na, nb + 1) ket) := vec_addOrbital norb (na, nb + 1) true false ket
    have e2 : vec (norb + 1) (na + 1, nb + 1) (addOrbital bra norb (na + 1) nb false true) =
      pad norb false true (vec norb (na + 1, nb) bra) := vec_addOrbital norb (na + 1, nb) false true bra
    have h := hP.mixed (norb + 1) (na + 1, nb + 1) (addOrbital ket norb na (nb + 1) true false)
      (addOrbital bra norb (na + 1) nb false true) norb p q norb (by omega) (by omega) (by omega) (by omega)
    dsimp only at h ⊢
    rw [h, e1, e2]
    unfold tdm2
    rw [ann_pad_up, ann_empty true _ hq, ann_pad false false true _ hp]
    simp only [Bool.toNat_false, Bool.toNat_true, zero_add, pow_one]
    rw [ann_smul, ann_pad_down]
    simp only [Bool.toNat_false, pow_zero, one_mul, neg_mul]
    rw [ovl_neg_right, neg_neg, ovl_pad, ovl_comm]

/-- **C104**. `trans_sfddm1`: `[p,q] = ⟨bra| p'_b q_a |ket⟩`. -/
theorem C104_flip_down {P : Fci K} (hP : Right P) (bra ket : Arr K) (norb na nb : Nat) (link : Option Link)
    (hl : link = none ∨ link = some (norb + 1, na + 1, nb + 1)) (hf : na + 1 ≤ norb ∧ nb + 1 ≤ norb) :
    ∃ d, transSfddm1 P bra ket norb (na + 1, nb) link = some d ∧ ∀ p < norb, ∀ q < norb,
      d p q = ovl norb (ann norb true p (vec norb (na, nb + 1) bra)) (ann norb false q (vec norb (na + 1, nb) ket)) := by
  obtain ⟨d, h1, h2⟩ := C104_flip_up hP ket bra norb na nb link hl hf
  refine ⟨fun p q => d q p, ?_, fun p hp q hq => ?_⟩
  · unfold transSfddm1
    have : bump (drop (na + 1, nb) false) true = (na, nb + 1) := rfl
    rw [this, h1]
    rfl
  · rw [ovl_comm]
    exact h2 q hq p hp

/-- **C104**. `trans_ppdm`: `[p,q] = ⟨bra| p'_s q'_t |ket⟩` for the pairs of spins `st` = aa, ab, bb (`spin` = 0, 1, 2), where the bra
has the two more electrons. The `link_index` is for one dummy orbital for ab, two for aa and bb. -/
theorem C104_pair_create {P : Fci K} (hP : Right P) (bra ket : Arr K) (norb : Nat) (n : Nat × Nat) (s t : Bool) (hst : s = true → t = true)
    (link : Option Link)
    (hl : link = none ∨ link = some (norb + (if s = t then 2 else 1), (plus (plus n s) t).1, (plus (plus n s) t).2))
    (hf : (plus (plus n s) t).1 ≤ norb ∧ (plus (plus n s) t).2 ≤ norb) :
    ∃ d, transPpdm P bra ket norb n (s.toNat + t.toNat) link = some d ∧ ∀ p < norb, ∀ q < norb,
      d p q = ovl norb (ann norb t q (ann norb s p (vec norb (plus (plus n s) t) bra))) (vec norb n ket) := by
  obtain ⟨hf1, hf2⟩ := hf
  have key : s = t ∨ (s = false ∧ t = true) := by cases s <;> cases t <;> simp at hst ⊢
  rcases key with rfl | ⟨rfl, rfl⟩
  · rw [if_pos rfl] at hl
    have hok : linkOk (norb + 2, (plus (plus n s) s).1, (plus (plus n s) s).2) (norb + 2) (plus (plus n s) s) = true :=
      linkOk_self (by omega) (by omega)
    refine ⟨fun p q => reorder (P.rdm12 (if s then Fn.b else Fn.a)
        (addOrbital (addOrbital bra norb (plus (plus n s) s).1 (plus (plus n s) s).2 false false) (norb + 1)
          (plus (plus n s) s).1 (plus (plus n s) s).2 false false)
        (addOrbital (addOrbital ket norb n.1 n.2 (!s) s) (norb + 1) (plus n s).1 (plus n s).2 (!s) s)
        (norb + 2) (plus (plus n s) s) (norb + 2, (plus (plus n s) s).1, (plus (plus n s) s).2) 2) p (norb + 1) q norb, ?_, ?_⟩
    · have hu := unpack_eq hl
      cases s
      · simp only [transPpdm, Bool.toNat_false, Nat.add_zero, Nat.zero_mod, Nat.sub_zero, gt_iff_lt, Nat.not_lt_zero, decide_false,
          bump_eq, hu, hok, if_true]
        rfl
      · simp only [transPpdm, Bool.toNat_true, Nat.reduceAdd, Nat.mod_self, Nat.sub_zero, gt_iff_lt, Nat.one_lt_ofNat, Nat.zero_lt_two,
          decide_true, bump_eq, hu, hok, if_true]
        rfl
    · intro p hp q hq
      have hne : norb + 1 ≠ q := by omega
      have h := hP.same2 s (norb + 2) (plus (plus n s) s) 
        (addOrbital (addOrbital bra norb (plus (plus n s) s).1 (plus (plus n s) s).2 false false) (norb + 1)
          (plus (plus n s) s).1 (plus (plus n s) s).2 false false)
        (addOrbital (addOrbital ket norb n.1 n.2 (!s) s) (norb + 1) (plus n s).1 (plus n s).2 (!s) s)
        p (norb + 1) q norb (by omega) (by omega) (by omega) (by omega)
      rw [if_neg hne, add_zero, vec_bra (norb + 1), vec_bra, vec_ket (norb + 1), vec_ket] at h
      unfold reorder
      dsimp only
      rw [if_neg hne, h]
      unfold tdm2
      rw [ann_empty s _ (by omega), ann_empty s _ hp, ann_empty s _ (by omega), ann_empty s _ hq, ann_dummy, ann_empty s _ (by omega),
        ann_dummy, ovl_pad, ovl_pad]
  · rw [if_neg (by simp)] at hl
    have hok : linkOk (norb + 1, (plus (plus n false) true).1, (plus (plus n false) true).2) (norb + 1) (plus (plus n false) true) = true :=
      linkOk_self (by omega) (by omega)
    refine ⟨fun p q => (P.rdm12 Fn.ab
        (addOrbital bra norb (plus (plus n false) true).1 (plus (plus n false) true).2 false false)
        (addOrbital ket norb n.1 n.2 true true) (norb + 1) (plus (plus n false) true)
        (norb + 1, (plus (plus n false) true).1, (plus (plus n false) true).2) 0).2 p norb q norb, ?_, ?_⟩
    · have hu := unpack_eq hl
      simp only [transPpdm, Bool.toNat_false, Bool.toNat_true, Nat.zero_add, Nat.one_mod, Nat.reduceSub, gt_iff_lt, Nat.lt_irrefl,
        Nat.zero_lt_one, Nat.one_lt_two, decide_false, decide_true, bump_eq, hu, hok, if_true]
      rfl
    · intro p hp q hq
      have h := hP.mixed (norb + 1) (plus (plus n false) true)
        (addOrbital bra norb (plus (plus n false) true).1 (plus (plus n false) true).2 false false)
        (addOrbital ket norb n.1 n.2 true true) p norb q norb (by omega) (by omega) (by omega) (by omega)
      have e1 : vec (norb + 1) (plus (plus n false) true) (addOrbital ket norb n.1 n.2 true true) =
        pad norb true true (vec norb n ket) := vec_addOrbital norb n true true ket
      rw [vec_bra, e1] at h
      dsimp only
      rw [h]
      unfold tdm2
      rw [ann_empty false _ hp, ann_empty true _ hq, ann_pad_up, ann_pad_down]
      simp only [Bool.toNat_false, pow_zero, one_mul]
      rw [ovl_pad]

/-- **C104**. `trans_hhdm`: `[p,q] = ⟨bra| p_t q_s |ket⟩` for `st` = aa, ab, bb, where the ket has the two more electrons. -/
theorem C104_pair_destroy {P : Fci K} (hP : Right P) (bra ket : Arr K) (norb : Nat) (n : Nat × Nat) (s t : Bool) (hst : s = true → t = true)
    (link : Option Link)
    (hl : link = none ∨ link = some (norb + (if s = t then 2 else 1), (plus (plus n s) t).1, (plus (plus n s) t).2))
    (hf : (plus (plus n s) t).1 ≤ norb ∧ (plus (plus n s) t).2 ≤ norb) :
    ∃ d, transHhdm P bra ket norb (plus (plus n s) t) (s.toNat + t.toNat) link = some d ∧ ∀ p < norb, ∀ q < norb,
      d p q = ovl norb (vec norb n bra) (ann norb t p (ann norb s q (vec norb (plus (plus n s) t) ket))) := by
  obtain ⟨d, h1, h2⟩ := C104_pair_create hP ket bra norb n s t hst link hl hf
  refine ⟨fun p q => d q p, ?_, fun p hp q hq => ?_⟩
  · unfold transHhdm
    have : drop (drop (plus (plus n s) t) (decide (s.toNat + t.toNat > 1))) (decide (s.toNat + t.toNat > 0)) = n := by
      cases s <;> cases t <;> first | rfl | (simp at hst)
    rw [this, h1]
    rfl
  · rw [ovl_comm]
    exact h2 q hq p hp

/-- Non-vacuity: two orbitals; the kets have one spin-up electron, the bras one more electron, a flipped spin or a pair more.
`exactFci` meets the assumption on the PySCF routines. -/
example : Right (exactFci : Fci Int) ∧
    (transRdm1hs exactFci true (fun A B => (A + 2 * B + 1 : Int)) (fun A _ => 3 * A + 1) 2 (1, 0) true none).map
      (fun d => (d 0, d 1)) = some (-9, -19) ∧
    (transRdm13hs exactFci false (fun A _ => (3 * A + 1 : Int)) (fun A B => A + 2 * B + 1) 2 (1, 1) true none).map
      (fun d => (d.1 1, d.2.1 1 0 1, d.2.2 1 0 1)) = some (-19, -4, 0) ∧
    (transSfddm1 exactFci (fun _ B => (B + 2 : Int)) (fun A _ => 3 * A + 1) 2 (1, 0) none).map
      (fun d => (d 0 1, d 1 0)) = some (8, 3) ∧
    (transPpdm exactFci (fun _ B => (B + 2 : Int)) (fun A _ => 3 * A + 1) 2 (1, 0) 1 none).map
      (fun d => (d 0 1, d 1 0)) = some (12, -2) ∧
    (transPpdm exactFci (fun _ _ => (5 : Int)) (fun _ _ => 7) 2 (0, 0) 0 none).map (fun d => (d 0 1, d 1 0)) = some (-35, 35) := by
  refine ⟨exactFci_right, ?_⟩
  decide +kernel

end Verif.Props
