import Verif.Lemmas.SpinFill
import Mathlib.Tactic.SplitIfs
/-!
# Looking up the matrix elements of a pair of states in the entry of the pair of rootspaces that stands for theirs
-/
namespace Verif.FragSpin
open Verif.FciRdm Verif.FragTables Verif.RdmSmult Verif.Spec.Tdm Verif.Spec.RdmSmult Verif.Spec.Spin Verif.Spec.FragSpin
open Verif.Spec.FragTables Verif.Spec.FciRdm Verif.Spec.Lstdm

/-- The same multiplets, with the same projection or not. -/
structure Like (F : SFrag) (i j : Nat) : Prop where
  tot : (F.nelec i).1 + (F.nelec i).2 = (F.nelec j).1 + (F.nelec j).2
  smult : F.smult i = F.smult j
  lroots : F.lroots i = F.lroots j
  top : ∀ s, F.smult i = some s → ∀ a < F.lroots i,
    SpinOp.mup F.norb (F.nelec i).1 (F.nelec i).2 s (F.vecS i a) = SpinOp.mup F.norb (F.nelec j).1 (F.nelec j).2 s (F.vecS j a)

theorem like_of {F : SFrag} (hN : Manifolds F) {p u : Nat} (hp : p < F.nuroots) (hu : u < F.nuroots) (h : F.spman p = F.spman u) :
    Like F (F.addr p) (F.addr u) := by
  by_cases e : p = u
  · rw [e]
    exact ⟨rfl, rfl, rfl, fun _ _ _ _ => rfl⟩
  · have := hN.same p hp u hu h e
    exact ⟨this.tot, this.smult, this.lroots, this.top⟩

/-- The rotated vectors in terms of the vectors of highest projection. -/
noncomputable def fromTop (norb : Nat) (N : ℤ) (d : ℤ × ℤ) (sb sk : ℤ) (x y : SpinOp.Vec) : SpinOp.Vec × SpinOp.Vec × (Nat × Nat) :=
  let spinKet := min (sk - 1) (sb - 1 - (d.1 - d.2))
  let spinBra := spinKet + (d.1 - d.2)
  let totBra := N + d.1 + d.2
  (SpinOp.mdown norb ((totBra + spinBra) / 2).toNat ((totBra - spinBra) / 2).toNat sb x,
    SpinOp.mdown norb ((N + spinKet) / 2).toNat ((N - spinKet) / 2).toNat sk y, (((N + spinKet) / 2).toNat, ((N - spinKet) / 2).toNat))

theorem highm_top {F : SFrag} {d : ℤ × ℤ} {i j : Nat} (h1 : ((F.nelec i).1 : ℤ) = (F.nelec j).1 + d.1)
    (h2 : ((F.nelec i).2 : ℤ) = (F.nelec j).2 + d.2) {sb sk : ℤ} (hb : F.smult i = some sb) (hk : F.smult j = some sk) (a b : Nat) :
    highm F d i j a b = fromTop F.norb ((((F.nelec j).1 + (F.nelec j).2 : ℕ)) : ℤ) d sb sk
      (SpinOp.mup F.norb (F.nelec i).1 (F.nelec i).2 sb (F.vecS i a)) (SpinOp.mup F.norb (F.nelec j).1 (F.nelec j).2 sk (F.vecS j b)) := by
  unfold highm getHighmCivecs fromTop
  rw [hb, hk]
  dsimp only
  rw [← h1, ← h2]
  have e : ((F.nelec i).1 : ℤ) + (F.nelec i).2 = (((F.nelec j).1 + (F.nelec j).2 : ℕ) : ℤ) + d.1 + d.2 := by push_cast; omega
  rw [e, ← Nat.cast_add]
  rfl

theorem highm_bra (F : SFrag) (d : ℤ × ℤ) (i j a b b' : Nat) : (highm F d i j a b).1 = (highm F d i j a b').1 := by
  unfold highm
  cases F.smult i <;> cases F.smult j <;> rfl

theorem highm_ket (F : SFrag) (d : ℤ × ℤ) (i j a a' b : Nat) : (highm F d i j a b).2.1 = (highm F d i j a' b).2.1 := by
  unfold highm
  cases F.smult i <;> cases F.smult j <;> rfl

theorem highm_nel (F : SFrag) (d : ℤ × ℤ) (i j a b : Nat) : (highm F d i j a b).2.2 = highmKet F d i j := by
  unfold highmKet highm
  cases F.smult i <;> cases F.smult j <;> rfl

section
variable {F : SFrag} (hM : Multiplicities F) (hF : Coherent F.toFrag)
include hM

/-- The vectors of the loops. -/
theorem civ_duo {d : ℤ × ℤ} {i j a b : Nat} (hi : i < F.nroots ∧ F.unique i = true) (hj : j < F.nroots ∧ F.unique j = true)
    (h1 : ((F.nelec i).1 : ℤ) = (F.nelec j).1 + d.1) (h2 : ((F.nelec i).2 : ℤ) = (F.nelec j).2 + d.2) (ha : a < F.lroots i)
    (hb : b < F.lroots j) :
    Agree F.norb (civ (duo F d i j) 0 a) (onStrings F.norb (highm F d i j a b).1) ∧
      Agree F.norb (civ (duo F d i j) 1 b) (onStrings F.norb (highm F d i j a b).2.1) := by
  have key : InSpace F.norb (highmBra F d i j).1 (highmBra F d i j).2 (highm F d i j a b).1 ∧
      InSpace F.norb (highmKet F d i j).1 (highmKet F d i j).2 (highm F d i j a b).2.1 := by
    have hn : (F.smult i = none ∨ F.smult j = none) → InSpace F.norb (highmBra F d i j).1 (highmBra F d i j).2 (highm F d i j a b).1 ∧
        InSpace F.norb (highmKet F d i j).1 (highmKet F d i j).2 (highm F d i j a b).2.1 := by
      intro hn
      have e : ∀ a b, highm F d i j a b = (F.vecS i a, F.vecS j b, F.nelec j) := fun a b => Verif.Props.C106_unrotated _ _ _ _ _ _ _ hn
      have ek : highmKet F d i j = F.nelec j := by unfold highmKet; rw [e]
      have eb : highmBra F d i j = F.nelec i := by
        unfold highmBra
        rw [ek]
        exact Prod.ext (by dsimp only; omega) (by dsimp only; omega)
      rw [ek, eb, e]
      exact ⟨toSets_inSpace _ _ _, toSets_inSpace _ _ _⟩
    cases eb : F.smult i with
    | none => exact hn (Or.inl eb)
    | some sb =>
      cases ek : F.smult j with
      | none => exact hn (Or.inr ek)
      | some sk =>
        obtain ⟨-, g2, ma, mb, g3, g4, g5, -⟩ := Verif.Props.C106_rotated (d := d) (hM.state i hi.1 hi.2 sb eb a ha)
          (hM.state j hj.1 hj.2 sk ek b hb) h1 h2
        have eq : highm F d i j a b = getHighmCivecs (F.vecS i a) (F.vecS j b) F.norb ((F.nelec j).1, (F.nelec j).2) d (some sb) (some sk) := by
          unfold highm
          rw [eb, ek]
        rw [← eq] at g2 g3 g4 g5
        rw [highm_nel] at g2 g3 g4
        have e1 : (highmBra F d i j).1 = ma := by unfold highmBra; dsimp only; omega
        have e2 : (highmBra F d i j).2 = mb := by unfold highmBra; dsimp only; omega
        rw [e1, e2]
        exact ⟨g5.inSpace, g2.inSpace⟩
  constructor
  · have := key.1
    rw [highm_bra F d i j a b 0] at this ⊢
    exact agree_ofSets this
  · have := key.2
    rw [highm_ket F d i j a 0 b] at this ⊢
    exact agree_ofSets this

end

/-! ### What the rotations of density matrices depend on -/

theorem mdownPhh_congr {n : Nat} {D D' : T3} (h : ∀ t : Bool, ∀ r < n, ∀ p < n, ∀ q < n, D (ix t) r p q = D' (ix t) r p q) (sb : ℤ)
    (s : Nat) (sk m : ℤ) (t : Bool) {r p q : Nat} (hr : r < n) (hp : p < n) (hq : q < n) :
    mdownPhh D sb s sk m (ix t) r p q = mdownPhh D' sb s sk m (ix t) r p q := by
  have e0 : D 0 r p q = D' 0 r p q := h false r hr p hp q hq
  have e1 : D 1 r p q = D' 1 r p q := h true r hr p hp q hq
  have f0 : D 0 q p r = D' 0 q p r := h false q hq p hp r hr
  have f1 : D 1 q p r = D' 1 q p r := h true q hq p hp r hr
  unfold mdownPhh
  cases t <;> simp only [ix, Bool.false_eq_true, if_true, if_false] <;> split_ifs <;>
    simp only [phh0, phh1, phh2, phh3, tr3, e0, e1, f0, f1]

theorem mdownHh_congr {n : Nat} {D D' : Nat → Nat → ℝ} (h : ∀ p < n, ∀ q < n, D p q = D' p q) (sb : ℤ)
    (s : Nat) (sk m : ℤ) {p q : Nat} (hp : p < n) (hq : q < n) : mdownHh D sb s sk m p q = mdownHh D' sb s sk m p q := by
  have e0 := h p hp q hq
  have e1 := h q hq p hp
  unfold mdownHh
  split_ifs <;> simp only [hh0, e0, e1]

theorem mdownDm1_congr {n : Nat} {D D' : T2} (h : ∀ t : Bool, ∀ p < n, ∀ q < n, D (ix t) p q = D' (ix t) p q) (sb sk m : ℤ) (t : Bool)
    {p q : Nat} (hp : p < n) (hq : q < n) : mdownDm1 D sb sk m (ix t) p q = mdownDm1 D' sb sk m (ix t) p q := by
  have e0 : D 0 p q = D' 0 p q := h false p hp q hq
  have e1 : D 1 p q = D' 1 p q := h true p hp q hq
  unfold mdownDm1
  cases t <;> simp only [ix, Bool.false_eq_true, if_true, if_false] <;> split_ifs <;> simp only [dm10, e0, e1]

theorem mdownDm2_congr {n : Nat} {D D' : T4} (h : ∀ s t : Bool, ∀ p < n, ∀ q < n, ∀ r < n, ∀ u < n,
    D (2 * ix s + ix t) p q r u = D' (2 * ix s + ix t) p q r u) (sb sk m : ℤ) (s t : Bool)
    {p q r u : Nat} (hp : p < n) (hq : q < n) (hr : r < n) (hu : u < n) :
    mdownDm2 D sb sk m (2 * ix s + ix t) p q r u = mdownDm2 D' sb sk m (2 * ix s + ix t) p q r u := by
  have e0 : D 0 p q r u = D' 0 p q r u := h false false p hp q hq r hr u hu
  have e1 : D 1 p q r u = D' 1 p q r u := h false true p hp q hq r hr u hu
  have e2 : D 2 p q r u = D' 2 p q r u := h true false p hp q hq r hr u hu
  have e3 : D 3 p q r u = D' 3 p q r u := h true true p hp q hq r hr u hu
  have f0 : D 0 p u r q = D' 0 p u r q := h false false p hp u hu r hr q hq
  have f1 : D 1 p u r q = D' 1 p u r q := h false true p hp u hu r hr q hq
  have f2 : D 2 p u r q = D' 2 p u r q := h true false p hp u hu r hr q hq
  have f3 : D 3 p u r q = D' 3 p u r q := h true true p hp u hu r hr q hq
  have key : ∀ k < 4, mdownDm2 D sb sk m k p q r u = mdownDm2 D' sb sk m k p q r u := by
    intro k hk
    have ek : D k p q r u = D' k p q r u := by
      rcases (show k = 0 ∨ k = 1 ∨ k = 2 ∨ k = 3 by omega) with rfl | rfl | rfl | rfl <;> assumption
    unfold mdownDm2
    split_ifs <;> simp only [dm20, dm21, tr4, e0, e1, e2, e3, f0, f1, f2, f3, ek]
  exact key _ (by cases s <;> cases t <;> simp [ix])

/-! ### Looking up -/

/-- All entries of pairs that stand for pairs of manifolds. -/
def FilledS (F : SFrag) (M : Mats ℝ) : Prop := ∀ k u w, u < F.nuroots → w < F.nuroots → interUniq F u w = true →
  Conn F.toFrag (F.addr u) (F.addr w) k → AtS F M u w k

section
variable {F : SFrag} (hM : Multiplicities F) (hF : Coherent F.toFrag) (hN : Manifolds F)
include hM hF hN

theorem stands_like {u w p q : Nat} (hu : u < F.nuroots) (hw : w < F.nuroots) (h : Stands F u w p q) :
    Like F (F.addr p) (F.addr u) ∧ Like F (F.addr q) (F.addr w) ∧
      ((F.nelec (F.addr p)).1 : ℤ) - (F.nelec (F.addr q)).1 = (F.nelec (F.addr u)).1 - (F.nelec (F.addr w)).1 ∧
      ((F.nelec (F.addr p)).2 : ℤ) - (F.nelec (F.addr q)).2 = (F.nelec (F.addr u)).2 - (F.nelec (F.addr w)).2 := by
  have l1 := like_of hN h.hp hu h.sp
  have l2 := like_of hN h.hq hw h.sq
  have e := h.spin
  unfold SFrag.spin at e
  have := l1.tot
  have := l2.tot
  exact ⟨l1, l2, by omega, by omega⟩

/-- A rootspace and itself: the pair that stands for them is a rootspace and itself. -/
theorem interMap_diag {u : Nat} (hu : u < F.nuroots) : (interMap F u u).1 = (interMap F u u).2 := by
  have h := interMap_stands F hu hu
  by_contra hne
  have hs := hN.same _ h.hp _ h.hq (h.sp.trans h.sq.symm) hne
  have e := h.spin
  unfold SFrag.spin at e
  have := hs.tot
  exact hs.spin (Prod.ext (by omega) (by omega))

/-- What the entry of the pair that stands for the rootspaces of two states holds. -/
structure Look (F : SFrag) (M : Mats ℝ) (k : Kind) (p q i j : Nat) : Prop where
  val : At (duo F (dn k) (F.addr p) (F.addr q)) M p q 0 1 k
  bra : (duo F (dn k) (F.addr p) (F.addr q)).lroots 0 = F.lroots i
  ket : (duo F (dn k) (F.addr p) (F.addr q)).lroots 1 = F.lroots j
  vecs : ∀ a < F.lroots i, ∀ b < F.lroots j,
    Agree F.norb (civ (duo F (dn k) (F.addr p) (F.addr q)) 0 a) (onStrings F.norb (highm F (dn k) i j a b).1) ∧
    Agree F.norb (civ (duo F (dn k) (F.addr p) (F.addr q)) 1 b) (onStrings F.norb (highm F (dn k) i j a b).2.1)

theorem look {M : Mats ℝ} (hT : FilledS F M) {k : Kind} (hk : k ≠ .ovlp) {u w : Nat} (hu : u < F.nuroots) (hw : w < F.nuroots)
    (h1 : ((F.nelec (F.addr u)).1 : ℤ) = (F.nelec (F.addr w)).1 + (dn k).1)
    (h2 : ((F.nelec (F.addr u)).2 : ℤ) = (F.nelec (F.addr w)).2 + (dn k).2) (hle : k = .dm → (interMap F u w).2 ≤ (interMap F u w).1) :
    Look F M k (interMap F u w).1 (interMap F u w).2 (F.addr u) (F.addr w) := by
  have hst := interMap_stands F hu hw
  generalize (interMap F u w).1 = p at hst hle ⊢
  generalize (interMap F u w).2 = q at hst hle ⊢
  obtain ⟨l1, l2, e1, e2⟩ := stands_like hM hF hN hu hw hst
  have f1 : ((F.nelec (F.addr p)).1 : ℤ) = (F.nelec (F.addr q)).1 + (dn k).1 := by omega
  have f2 : ((F.nelec (F.addr p)).2 : ℤ) = (F.nelec (F.addr q)).2 + (dn k).2 := by omega
  have hc : Conn F.toFrag (F.addr p) (F.addr q) k := conn_of f1 f2 fun h => by
    have := hle h
    by_cases e : q = p
    · rw [e]
    · exact Nat.le_of_lt (addr_lt hst.hp (by omega))
  have hv := hT k p q hst.hp hst.hq hst.uniq hc
  refine ⟨?_, l1.lroots, l2.lroots, fun a ha b hb => ?_⟩
  · cases k <;> first | exact absurd rfl hk | exact hv
  · have hciv := civ_duo hM (addr_mem hst.hp) (addr_mem hst.hq) f1 f2 (a := a) (b := b) (by rw [l1.lroots]; exact ha)
      (by rw [l2.lroots]; exact hb)
    have heq : highm F (dn k) (F.addr p) (F.addr q) a b = highm F (dn k) (F.addr u) (F.addr w) a b := by
      have hn : (F.smult (F.addr u) = none ∨ F.smult (F.addr w) = none) → F.allSmult = false := by
        intro hn
        unfold SFrag.allSmult
        rw [List.all_eq_false]
        rcases hn with hn | hn
        · exact ⟨_, List.mem_range.2 (addr_mem hu).1, by rw [hn]; simp⟩
        · exact ⟨_, List.mem_range.2 (addr_mem hw).1, by rw [hn]; simp⟩
      have hn' : (F.smult (F.addr u) = none ∨ F.smult (F.addr w) = none) → p = u ∧ q = w := fun h =>
        ⟨hN.given (hn h) p hst.hp u hu hst.sp, hN.given (hn h) q hst.hq w hw hst.sq⟩
      cases eb : F.smult (F.addr u) with
      | none => obtain ⟨rfl, rfl⟩ := hn' (Or.inl eb); rfl
      | some sb =>
        cases ek : F.smult (F.addr w) with
        | none => obtain ⟨rfl, rfl⟩ := hn' (Or.inr ek); rfl
        | some sk =>
          have eb' := l1.smult.trans eb
          have ek' := l2.smult.trans ek
          rw [highm_top h1 h2 eb ek, highm_top f1 f2 eb' ek', l2.tot, l1.top sb eb' a (by rw [l1.lroots]; exact ha),
            l2.top sk ek' b (by rw [l2.lroots]; exact hb)]
    rw [← heq]
    exact hciv

end

/-! ### One kind after the other -/

section
variable {F : SFrag} (hM : Multiplicities F) {M : Mats ℝ} {p q i j : Nat} (hi : i < F.nroots ∧ F.unique i = true)
  (hj : j < F.nroots ∧ F.unique j = true) {a b : Nat} (ha : a < F.lroots i) (hb : b < F.lroots j)

theorem agree_vecS (F : SFrag) (i a : Nat) : Agree F.norb (onStrings F.norb (F.vecS i a)) (civ F.toFrag i a) := agree_toSets _ _ _

theorem agree_mat {n : Nat} {v w v' w' : Vec ℝ} (h : Agree n v w) (h' : Agree n v' w') :
    (∀ s r, r < n → ovl n v (ann n s r v') = matH n w w' s r) ∧
    (∀ t s r p q, r < n → p < n → q < n → ovl n (ann n t p v) (ann n t q (ann n s r v')) = matPhh n w w' t s r p q) ∧
    (∀ s t p q, p < n → q < n → ovl n v (ann n s p (ann n t q v')) = matHh n w w' s t p q) ∧
    (∀ p q, p < n → q < n → ovl n (ann n true p v) (ann n false q v') = matSm n w w' p q) :=
  ⟨fun s _ hr => agree_ovl h (agree_ann h' s hr),
    fun t s _ _ _ hr hp hq => agree_ovl (agree_ann h t hp) (agree_ann (agree_ann h' s hr) t hq),
    fun s t _ _ hp hq => agree_ovl h (agree_ann (agree_ann h' t hq) s hp),
    fun _ _ hp hq => agree_ovl (agree_ann h true hp) (agree_ann h' false hq)⟩

theorem highm_some (d : ℤ × ℤ) {sb sk : ℤ} (eb : F.smult i = some sb) (ek : F.smult j = some sk) (a b : Nat) : highm F d i j a b =
    getHighmCivecs (F.vecS i a) (F.vecS j b) F.norb ((F.nelec j).1, (F.nelec j).2) d (some sb) (some sk) := by
  unfold highm
  rw [eb, ek]

theorem highm_none (d : ℤ × ℤ) (h : F.smult i = none ∨ F.smult j = none) (a b : Nat) :
    (highm F d i j a b).1 = F.vecS i a ∧ (highm F d i j a b).2.1 = F.vecS j b := by
  unfold highm
  rw [Verif.Props.C106_unrotated _ _ _ _ _ _ _ h]
  exact ⟨rfl, rfl⟩

/-- With or without rotation. -/
theorem rotated_cases {X : Type} (si sj : Option ℤ) (Q : X → Prop) {t : X} {f : ℤ → ℤ → X} (h : (si = none ∨ sj = none) → Q t)
    (h' : ∀ sb sk, si = some sb → sj = some sk → Q (f sb sk)) : Q (rotated si sj t f) := by
  cases si with
  | none => exact h (Or.inl rfl)
  | some sb =>
    cases sj with
    | none => exact h (Or.inr rfl)
    | some sk => exact h' sb sk rfl rfl

include hM hi hj ha hb

theorem look_h {s : Bool} (L : Look F M (.half s) p q i j) (h1 : ((F.nelec i).1 : ℤ) = (F.nelec j).1 + (dn (.half s)).1)
    (h2 : ((F.nelec i).2 : ℤ) = (F.nelec j).2 + (dn (.half s)).2) {r : Nat} (hr : r < F.norb) : ∃ d, M.h (ix s) p q = some d ∧
    rotated (F.smult i) (F.smult j) (d a b) (fun sb sk => mdownH (d a b) sb (ix s) sk (F.spin j)) r =
      ovl F.norb (civ F.toFrag i a) (ann F.norb s r (civ F.toFrag j b)) := by
  obtain ⟨⟨d, g1, g2⟩, -⟩ := L.val
  refine ⟨d, g1, ?_⟩
  have hv := g2 a (by rw [L.bra]; exact ha) b (by rw [L.ket]; exact hb)
  obtain ⟨v1, v2⟩ := L.vecs a ha b hb
  have hv' : ∀ r < F.norb, d a b r = matH F.norb (onStrings F.norb (highm F (dn (.half s)) i j a b).1)
      (onStrings F.norb (highm F (dn (.half s)) i j a b).2.1) s r := fun r hr => (hv r hr).trans ((agree_mat v1 v2).1 s r hr)
  rw [(agree_mat (agree_vecS F i a).symm (agree_vecS F j b).symm).1 s r hr]
  refine rotated_cases (F.smult i) (F.smult j) (fun X : Nat → ℝ => X r = _) (fun h => ?_) fun sb sk eb ek => ?_
  · rw [hv' r hr, (highm_none _ h a b).1, (highm_none _ h a b).2]
  · have := Verif.Props.C106_h s (hM.state i hi.1 hi.2 sb eb a ha) (hM.state j hj.1 hj.2 sk ek b hb) (by
      cases s <;> simp [dn, dnelecH] at h1 h2 ⊢ <;> omega) hr
    refine Eq.trans ?_ this
    rw [highm_some _ eb ek] at hv'
    rw [← ix_eq]
    unfold mdownH
    rw [hv' r hr]
    rfl

theorem look_phh {s : Bool} (L : Look F M (.half s) p q i j) (h1 : ((F.nelec i).1 : ℤ) = (F.nelec j).1 + (dn (.half s)).1)
    (h2 : ((F.nelec i).2 : ℤ) = (F.nelec j).2 + (dn (.half s)).2) (t : Bool) {r x y : Nat} (hr : r < F.norb) (hx : x < F.norb)
    (hy : y < F.norb) : ∃ d, M.phh (ix s) p q = some d ∧
    rotated (F.smult i) (F.smult j) (d a b) (fun sb sk => mdownPhh (d a b) sb (ix s) sk (F.spin j)) (ix t) r x y =
      ovl F.norb (ann F.norb t x (civ F.toFrag i a)) (ann F.norb t y (ann F.norb s r (civ F.toFrag j b))) := by
  obtain ⟨-, ⟨d, g1, g2⟩⟩ := L.val
  refine ⟨d, g1, ?_⟩
  have hv := g2 a (by rw [L.bra]; exact ha) b (by rw [L.ket]; exact hb)
  obtain ⟨v1, v2⟩ := L.vecs a ha b hb
  have hv' : ∀ t, ∀ r < F.norb, ∀ x < F.norb, ∀ y < F.norb, d a b (ix t) r x y =
      matPhh F.norb (onStrings F.norb (highm F (dn (.half s)) i j a b).1)
      (onStrings F.norb (highm F (dn (.half s)) i j a b).2.1) t s r x y :=
    fun t r hr x hx y hy => (hv t r hr x hx y hy).trans ((agree_mat v1 v2).2.1 t s r x y hr hx hy)
  rw [(agree_mat (agree_vecS F i a).symm (agree_vecS F j b).symm).2.1 t s r x y hr hx hy]
  refine rotated_cases (F.smult i) (F.smult j) (fun X : T3 => X (ix t) r x y = _) (fun h => ?_) fun sb sk eb ek => ?_
  · rw [hv' t r hr x hx y hy, (highm_none _ h a b).1, (highm_none _ h a b).2]
  · have := Verif.Props.C106_phh s t (hM.state i hi.1 hi.2 sb eb a ha) (hM.state j hj.1 hj.2 sk ek b hb) (by
      cases s <;> simp [dn, dnelecH] at h1 h2 ⊢ <;> omega) hr hx hy
    refine Eq.trans ?_ this
    rw [highm_some _ eb ek] at hv'
    rw [ix_eq, ix_eq]
    refine mdownPhh_congr (n := F.norb) (fun t' r hr x hx y hy => (hv' t' r hr x hx y hy).trans ?_) sb (ix s) sk _ t hr hx hy
    rw [← ix_eq s]
    cases t' <;> rfl

theorem look_hh {s t : Bool} (hst : s = true → t = true) (L : Look F M (.pair s t hst) p q i j)
    (h1 : ((F.nelec i).1 : ℤ) = (F.nelec j).1 + (dn (.pair s t hst)).1)
    (h2 : ((F.nelec i).2 : ℤ) = (F.nelec j).2 + (dn (.pair s t hst)).2) {x y : Nat} (hx : x < F.norb) (hy : y < F.norb) :
    ∃ d, M.hh (ix s + ix t) p q = some d ∧
    rotated (F.smult i) (F.smult j) (d a b) (fun sb sk => mdownHh (d a b) sb (ix s + ix t) sk (F.spin j)) x y =
      ovl F.norb (civ F.toFrag i a) (ann F.norb t x (ann F.norb s y (civ F.toFrag j b))) := by
  obtain ⟨d, g1, g2⟩ := L.val
  refine ⟨d, g1, ?_⟩
  have hv := g2 a (by rw [L.bra]; exact ha) b (by rw [L.ket]; exact hb)
  obtain ⟨v1, v2⟩ := L.vecs a ha b hb
  have hv' : ∀ x < F.norb, ∀ y < F.norb, d a b x y =
      matHh F.norb (onStrings F.norb (highm F (dn (.pair s t hst)) i j a b).1)
      (onStrings F.norb (highm F (dn (.pair s t hst)) i j a b).2.1) t s x y :=
    fun x hx y hy => (hv x hx y hy).trans ((agree_mat v1 v2).2.2.1 t s x y hx hy)
  rw [(agree_mat (agree_vecS F i a).symm (agree_vecS F j b).symm).2.2.1 t s x y hx hy]
  refine rotated_cases (F.smult i) (F.smult j) (fun X : Nat → Nat → ℝ => X x y = _) (fun h => ?_) fun sb sk eb ek => ?_
  · rw [hv' x hx y hy, (highm_none _ h a b).1, (highm_none _ h a b).2]
  · have b1 := hM.state i hi.1 hi.2 sb eb a ha
    have b2 := hM.state j hj.1 hj.2 sk ek b hb
    rw [highm_some _ eb ek] at hv'
    cases s <;> cases t <;> first | (simp at hst; done) | skip
    · have := Verif.Props.C106_hh_same false b1 b2 (by simp [dn, dnelecHh, ix] at h1 h2 ⊢; omega) hx hy
      exact Eq.trans (mdownHh_congr (n := F.norb) (fun x hx y hy => hv' x hx y hy) sb _ sk _ hx hy) this
    · have := Verif.Props.C106_hh_ba b1 b2 (by simp [dn, dnelecHh, ix] at h1 h2 ⊢; omega) (by simp [dn, dnelecHh, ix] at h1 h2 ⊢; omega) hx hy
      exact Eq.trans (mdownHh_congr (n := F.norb) (fun x hx y hy => hv' x hx y hy) sb _ sk _ hx hy) this
    · have := Verif.Props.C106_hh_same true b1 b2 (by simp [dn, dnelecHh, ix] at h1 h2 ⊢; omega) hx hy
      exact Eq.trans (mdownHh_congr (n := F.norb) (fun x hx y hy => hv' x hx y hy) sb _ sk _ hx hy) this

theorem look_sm (L : Look F M .flip p q i j) (h1 : ((F.nelec i).1 : ℤ) = (F.nelec j).1 + (dn .flip).1)
    (h2 : ((F.nelec i).2 : ℤ) = (F.nelec j).2 + (dn .flip).2) {x y : Nat} (hx : x < F.norb) (hy : y < F.norb) : ∃ d, M.sm p q = some d ∧
    rotated (F.smult i) (F.smult j) (d a b) (fun sb sk => mdownSm (d a b) sb sk (F.spin j)) x y =
      ovl F.norb (ann F.norb true x (civ F.toFrag i a)) (ann F.norb false y (civ F.toFrag j b)) := by
  obtain ⟨d, g1, g2⟩ := L.val
  refine ⟨d, g1, ?_⟩
  have hv := g2 a (by rw [L.bra]; exact ha) b (by rw [L.ket]; exact hb)
  obtain ⟨v1, v2⟩ := L.vecs a ha b hb
  have hv' : d a b x y = matSm F.norb (onStrings F.norb (highm F (dn .flip) i j a b).1)
      (onStrings F.norb (highm F (dn .flip) i j a b).2.1) x y := (hv x hx y hy).trans ((agree_mat v1 v2).2.2.2 x y hx hy)
  rw [(agree_mat (agree_vecS F i a).symm (agree_vecS F j b).symm).2.2.2 x y hx hy]
  refine rotated_cases (F.smult i) (F.smult j) (fun X : Nat → Nat → ℝ => X x y = _) (fun h => ?_) fun sb sk eb ek => ?_
  · rw [hv', (highm_none _ h a b).1, (highm_none _ h a b).2]
  · have := Verif.Props.C106_sm (hM.state i hi.1 hi.2 sb eb a ha) (hM.state j hj.1 hj.2 sk ek b hb) (by
      simp [dn, dnelecSm] at h1 h2 ⊢; omega) (by simp [dn, dnelecSm] at h1 h2 ⊢; omega) hx hy
    refine Eq.trans ?_ this
    rw [highm_some _ eb ek] at hv'
    unfold mdownSm
    rw [hv']
    rfl

theorem look_dm1 (L : Look F M .dm p q i j) (he : F.nelec i = F.nelec j) (s : Bool) {x y : Nat} (hx : x < F.norb) (hy : y < F.norb) :
    ∃ d, M.dm1 p q = some d ∧
    rotated (F.smult i) (F.smult j) (d a b) (fun sb sk => mdownDm1 (d a b) sb sk (F.spin j)) (ix s) x y =
      tdm1 F.norb (civ F.toFrag i a) (civ F.toFrag j b) s x y := by
  obtain ⟨⟨d, g1, g2⟩, -⟩ := L.val
  refine ⟨d, g1, ?_⟩
  have hv := g2 a (by rw [L.bra]; exact ha) b (by rw [L.ket]; exact hb)
  obtain ⟨v1, v2⟩ := L.vecs a ha b hb
  have hv' : ∀ s, ∀ x < F.norb, ∀ y < F.norb, d a b (ix s) x y = tdm1 F.norb (onStrings F.norb (highm F (dn .dm) i j a b).1)
      (onStrings F.norb (highm F (dn .dm) i j a b).2.1) s x y := fun s x hx y hy => (hv s x hx y hy).trans (agree_tdm1 v1 v2 s hx hy)
  rw [agree_tdm1 (agree_vecS F i a).symm (agree_vecS F j b).symm s hx hy]
  refine rotated_cases (F.smult i) (F.smult j) (fun X : T2 => X (ix s) x y = _) (fun h => ?_) fun sb sk eb ek => ?_
  · rw [hv' s x hx y hy, (highm_none _ h a b).1, (highm_none _ h a b).2]
  · have b1 := hM.state i hi.1 hi.2 sb eb a ha
    rw [he] at b1
    have := Verif.Props.C106_dm1 s b1 (hM.state j hj.1 hj.2 sk ek b hb) hx hy
    refine Eq.trans ?_ this
    rw [highm_some _ eb ek] at hv'
    rw [ix_eq]
    refine mdownDm1_congr (n := F.norb) (fun t' x hx y hy => (hv' t' x hx y hy).trans ?_) sb sk _ s hx hy
    cases t' <;> rfl

theorem look_dm2 (L : Look F M .dm p q i j) (he : F.nelec i = F.nelec j) (s t : Bool) {x y z w : Nat} (hx : x < F.norb) (hy : y < F.norb)
    (hz : z < F.norb) (hw : w < F.norb) : ∃ d, M.dm2 p q = some d ∧
    rotated (F.smult i) (F.smult j) (d a b) (fun sb sk => mdownDm2 (d a b) sb sk (F.spin j)) (2 * ix s + ix t) x y z w =
      tdm2 F.norb (civ F.toFrag i a) (civ F.toFrag j b) s t x y z w := by
  obtain ⟨-, ⟨d, g1, g2⟩⟩ := L.val
  refine ⟨d, g1, ?_⟩
  have hv := g2 a (by rw [L.bra]; exact ha) b (by rw [L.ket]; exact hb)
  obtain ⟨v1, v2⟩ := L.vecs a ha b hb
  have hv' : ∀ s t, ∀ x < F.norb, ∀ y < F.norb, ∀ z < F.norb, ∀ w < F.norb, d a b (2 * ix s + ix t) x y z w =
      tdm2 F.norb (onStrings F.norb (highm F (dn .dm) i j a b).1) (onStrings F.norb (highm F (dn .dm) i j a b).2.1) s t x y z w :=
    fun s t x hx y hy z hz w hw => (hv s t x hx y hy z hz w hw).trans (agree_tdm2 v1 v2 s t hx hy hz hw)
  rw [agree_tdm2 (agree_vecS F i a).symm (agree_vecS F j b).symm s t hx hy hz hw]
  refine rotated_cases (F.smult i) (F.smult j) (fun X : T4 => X (2 * ix s + ix t) x y z w = _) (fun h => ?_) fun sb sk eb ek => ?_
  · rw [hv' s t x hx y hy z hz w hw, (highm_none _ h a b).1, (highm_none _ h a b).2]
  · have b1 := hM.state i hi.1 hi.2 sb eb a ha
    rw [he] at b1
    have := Verif.Props.C106_dm2 s t b1 (hM.state j hj.1 hj.2 sk ek b hb) hx hy hz hw
    refine Eq.trans ?_ this
    rw [highm_some _ eb ek] at hv'
    rw [ix_eq, ix_eq]
    refine mdownDm2_congr (n := F.norb) (fun s' t' x hx y hy z hz w hw => (hv' s' t' x hx y hy z hz w hw).trans ?_) sb sk _ s t hx hy hz hw
    cases s' <;> cases t' <;> rfl

end

end Verif.FragSpin
