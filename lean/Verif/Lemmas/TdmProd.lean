import Verif.Lemmas.TdmSign
/-!
# Lemmas: transition density matrices of product vectors
-/
namespace Verif.Tdm
open Verif.Spec.Tdm Verif.Spec.Fockspace Verif.Spec.Outer
open Verif.Spec.Fsucc (nOcc nAbove)

variable {K : Type} [CommRing K]

/-! ### Annihilation operators -/

theorem ann_smul (N : Nat) (s : Bool) (p : Nat) (c : K) (ψ : Vec K) :
    ann N s p (fun A B => c * ψ A B) = fun A B => c * ann N s p ψ A B := by
  funext A B
  unfold ann
  cases s
  · simp only [Bool.false_eq_true, if_false]
    split
    · simp
    · ring
  · simp only [if_true]
    split
    · simp
    · ring

theorem ovl_smul (N : Nat) (c c' : K) (φ ψ : Vec K) :
    ovl N (fun A B => c * φ A B) (fun A B => c' * ψ A B) = c * c' * ovl N φ ψ := by
  unfold ovl
  rw [Finset.mul_sum]
  refine Finset.sum_congr rfl fun A _ => ?_
  rw [Finset.mul_sum]
  refine Finset.sum_congr rfl fun B _ => ?_
  ring

theorem ovl_comm (N : Nat) (φ ψ : Vec K) : ovl N φ ψ = ovl N ψ φ := by
  unfold ovl
  refine Finset.sum_congr rfl fun A _ => Finset.sum_congr rfl fun B _ => ?_
  ring

theorem nOcc_xor_ico (a n x D : Nat) (hx : x < n) (hb : D.testBit x = false) :
    nOcc a n (D ^^^ 2 ^ x) = nOcc a n D + if a ≤ x then 1 else 0 := by
  unfold nOcc
  by_cases h : a ≤ x
  · rw [if_pos h]
    have : (Finset.Ico a n).filter (fun p => (D ^^^ 2 ^ x).testBit p = true) =
        insert x ((Finset.Ico a n).filter (fun p => D.testBit p = true)) := by
      ext p
      simp only [Finset.mem_filter, Finset.mem_Ico, Finset.mem_insert, Nat.testBit_xor, Nat.testBit_two_pow]
      by_cases h' : x = p
      · subst h'; simp [hb, hx, h]
      · have h'' : ¬ p = x := fun e => h' e.symm
        simp [h', h'']
    rw [this, Finset.card_insert_of_notMem]
    simp [hb]
  · rw [if_neg h, Nat.add_zero]
    congr 1
    apply Finset.filter_congr
    intro p hp
    rw [Finset.mem_Ico] at hp
    have : ¬ x = p := by omega
    simp [Nat.testBit_xor, Nat.testBit_two_pow, this]

theorem nAbove_xor (N x p D : Nat) (hx : x < N) (hb : D.testBit x = false) :
    nAbove N (D ^^^ 2 ^ x) p = nAbove N D p + if p < x then 1 else 0 := by
  rw [nAbove_eq, nAbove_eq, nOcc_xor_ico _ _ _ _ hx hb]
  rfl

theorem testBit_xor_pow (D x p : Nat) (h : p ≠ x) : (D ^^^ 2 ^ x).testBit p = D.testBit p := by
  rw [Nat.testBit_xor, Nat.testBit_two_pow]
  simp [Ne.symm h]

/-- Annihilation operators anticommute. -/
theorem ann_comm (N : Nat) (s t : Bool) (p r : Nat) (hp : p < N) (hr : r < N) (ψ : Vec K) :
    ann N t r (ann N s p ψ) = fun A B => -ann N s p (ann N t r ψ) A B := by
  have xc : ∀ A, (A ^^^ 2 ^ r) ^^^ 2 ^ p = (A ^^^ 2 ^ p) ^^^ 2 ^ r := by
    intro A; rw [Nat.xor_assoc, Nat.xor_assoc, Nat.xor_comm (2 ^ r)]
  funext A B
  unfold ann
  cases s <;> cases t
  · simp only [Bool.false_eq_true, if_false]
    by_cases hrp : r = p
    · subst hrp
      by_cases hb : A.testBit r = true
      · simp [hb]
      · rw [if_neg hb, if_pos (by simp [Nat.testBit_xor, hb])]; simp
    · rw [testBit_xor_pow A r p (Ne.symm hrp), testBit_xor_pow A p r hrp]
      by_cases h1 : A.testBit p = true
      · by_cases h2 : A.testBit r = true <;> simp [h1, h2]
      · by_cases h2 : A.testBit r = true
        · simp [h1, h2]
        · rw [if_neg h2, if_neg h1, if_neg h1, if_neg h2, xc, nAbove_xor N r p A hr (by simpa using h2),
            nAbove_xor N p r A hp (by simpa using h1)]
          rcases Nat.lt_or_gt_of_ne hrp with h | h
          · rw [if_pos h, if_neg (show ¬ p < r by omega)]; ring
          · rw [if_pos (show p < r from h), if_neg (show ¬ r < p by omega)]; ring
  · simp only [Bool.false_eq_true, if_false, if_true]
    by_cases h1 : A.testBit p = true
    · by_cases h2 : B.testBit r = true <;> simp [h1, h2]
    · by_cases h2 : B.testBit r = true
      · simp [h1, h2]
      · rw [if_neg h2, if_neg h1, if_neg h1, if_neg h2, nOcc_xor N p A hp (by simpa using h1)]
        ring
  · simp only [Bool.false_eq_true, if_false, if_true]
    by_cases h1 : B.testBit p = true
    · by_cases h2 : A.testBit r = true <;> simp [h1, h2]
    · by_cases h2 : A.testBit r = true
      · simp [h1, h2]
      · rw [if_neg h2, if_neg h1, if_neg h1, if_neg h2, nOcc_xor N r A hr (by simpa using h2)]
        ring
  · simp only [if_true]
    by_cases hrp : r = p
    · subst hrp
      by_cases hb : B.testBit r = true
      · simp [hb]
      · rw [if_neg hb, if_pos (by simp [Nat.testBit_xor, hb])]; simp
    · rw [testBit_xor_pow B r p (Ne.symm hrp), testBit_xor_pow B p r hrp]
      by_cases h1 : B.testBit p = true
      · by_cases h2 : B.testBit r = true <;> simp [h1, h2]
      · by_cases h2 : B.testBit r = true
        · simp [h1, h2]
        · rw [if_neg h2, if_neg h1, if_neg h1, if_neg h2, xc, nAbove_xor N r p B hr (by simpa using h2),
            nAbove_xor N p r B hp (by simpa using h1)]
          rcases Nat.lt_or_gt_of_ne hrp with h | h
          · rw [if_pos h, if_neg (show ¬ p < r by omega)]; ring
          · rw [if_pos (show p < r from h), if_neg (show ¬ r < p by omega)]; ring

theorem ovl_neg_left (N : Nat) (φ ψ : Vec K) : ovl N (fun A B => -φ A B) ψ = -ovl N φ ψ := by
  have := ovl_smul N (-1) 1 φ ψ
  simpa using this

theorem ovl_neg_right (N : Nat) (φ ψ : Vec K) : ovl N φ (fun A B => -ψ A B) = -ovl N φ ψ := by
  have := ovl_smul N 1 (-1) φ ψ
  simpa using this

/-- Exchange of the two electrons. -/
theorem tdm2_swap (N : Nat) (bra ket : Vec K) (s t : Bool) (p q r u : Nat) (hp : p < N) (hq : q < N) (hr : r < N) (hu : u < N) :
    tdm2 N bra ket s t p q r u = tdm2 N bra ket t s r u p q := by
  unfold tdm2
  rw [ann_comm N s t p r hp hr bra, ann_comm N s t q u hq hu ket, ovl_neg_left, ovl_neg_right, neg_neg]

/-- Exchange of two annihilated electrons of the same spin. -/
theorem tdm2_exch (N : Nat) (bra ket : Vec K) (s : Bool) (p q r u : Nat) (hq : q < N) (hu : u < N) :
    tdm2 N bra ket s s p q r u = -tdm2 N bra ket s s p u r q := by
  unfold tdm2
  rw [ann_comm N s s q u hq hu ket, ovl_neg_right]

/-! ### Product vectors -/

/-- Annihilate orbital `x` with spin `s` in fragment `f`. -/
def app (ns : List Nat) (s : Bool) (f x : Nat) (v : Nat → Vec K) : Nat → Vec K := fun g =>
  if g = f then ann (ns.getD g 0) s x (v g) else v g

/-- The numbers of electrons after the annihilation of an electron of spin `s` in fragment `f`. -/
def decF (s : Bool) (f : Nat) (c : Nat → Bool → ℤ) : Nat → Bool → ℤ := fun g σ =>
  c g σ - if g = f ∧ σ = s then 1 else 0

/-- The numbers of spin-up electrons modulo two. -/
def na2 (c : Nat → Bool → ℤ) : Nat → ZMod 2 := fun g => (c g false : ZMod 2)
/-- The numbers of spin-down electrons modulo two. -/
def nb2 (c : Nat → Bool → ℤ) : Nat → ZMod 2 := fun g => (c g true : ZMod 2)
/-- The numbers of electrons modulo two. -/
def nn2 (c : Nat → Bool → ℤ) : Nat → ZMod 2 := na2 c + nb2 c

theorem app_eq_update (ns : List Nat) (s : Bool) (f x : Nat) (v : Nat → Vec K) :
    app ns s f x v = Function.update v f (ann (ns.getD f 0) s x (v f)) := by
  funext g
  unfold app
  by_cases h : g = f
  · subst h; simp
  · simp [h]

/-- All fragments have definite numbers of electrons. -/
def Nums (ns : List Nat) (v : Nat → Vec K) (c : Nat → Bool → ℤ) : Prop := ∀ g < ns.length, HasNum (ns.getD g 0) (v g) (c g)

theorem Nums.app {ns : List Nat} {v : Nat → Vec K} {c : Nat → Bool → ℤ} (h : Nums ns v c) (s : Bool) (f x : Nat)
    (hx : x < ns.getD f 0) : Nums ns (app ns s f x v) (decF s f c) := by
  intro g hg
  unfold Tdm.app decF
  by_cases hgf : g = f
  · subst hgf
    have := (h g hg).ann s x hx
    simp only [if_true, true_and]
    exact this
  · simp only [hgf, if_false, false_and, sub_zero]
    exact h g hg

theorem ann_prod (ns : List Nat) (v : Nat → Vec K) (c : Nat → Bool → ℤ) (hv : Nums ns v c) (s : Bool) (f x : Nat)
    (hf : f < ns.length) (hx : x < ns.getD f 0) :
    ann ns.sum s (fragStart ns f + x) (prodVec ns v) = fun A B =>
      sg (eps ns.length s f (na2 c) (nb2 c)) * prodVec ns (app ns s f x v) A B := by
  rw [ann_prodVec ns v c s f x hf hx (fun g hg _ => hv g hg), app_eq_update]
  rfl

/-- Sign of the element of the one-body matrix. -/
def E1 (m : Nat) (s : Bool) (cb ck : Nat → Bool → ℤ) (fp fq : Nat) : ZMod 2 :=
  eps m s fp (na2 cb) (nb2 cb) + eps m s fq (na2 ck) (nb2 ck)

/-- Sign of the element of the two-body matrix. -/
def E2 (m : Nat) (s t : Bool) (cb ck : Nat → Bool → ℤ) (fp fq fr fu : Nat) : ZMod 2 :=
  E1 m s cb ck fp fq + E1 m t (decF s fp cb) (decF s fq ck) fr fu

theorem tdm1_prod (ns : List Nat) (φ χ : Nat → Vec K) (cb ck : Nat → Bool → ℤ) (hφ : Nums ns φ cb) (hχ : Nums ns χ ck)
    (s : Bool) (fp fq p q : Nat) (hfp : fp < ns.length) (hfq : fq < ns.length) (hp : p < ns.getD fp 0) (hq : q < ns.getD fq 0) :
    tdm1 ns.sum (prodVec ns φ) (prodVec ns χ) s (fragStart ns fp + p) (fragStart ns fq + q) =
      sg (E1 ns.length s cb ck fp fq) *
        ∏ g ∈ Finset.range ns.length, ovl (ns.getD g 0) (app ns s fp p φ g) (app ns s fq q χ g) := by
  unfold tdm1 E1
  rw [ann_prod ns φ cb hφ s fp p hfp hp, ann_prod ns χ ck hχ s fq q hfq hq, ovl_smul, ovl_prodVec, sg_add]

theorem tdm2_prod (ns : List Nat) (φ χ : Nat → Vec K) (cb ck : Nat → Bool → ℤ) (hφ : Nums ns φ cb) (hχ : Nums ns χ ck)
    (s t : Bool) (fp fq fr fu p q r u : Nat) (hfp : fp < ns.length) (hfq : fq < ns.length) (hfr : fr < ns.length)
    (hfu : fu < ns.length) (hp : p < ns.getD fp 0) (hq : q < ns.getD fq 0) (hr : r < ns.getD fr 0) (hu : u < ns.getD fu 0) :
    tdm2 ns.sum (prodVec ns φ) (prodVec ns χ) s t (fragStart ns fp + p) (fragStart ns fq + q) (fragStart ns fr + r)
        (fragStart ns fu + u) =
      sg (E2 ns.length s t cb ck fp fq fr fu) *
        ∏ g ∈ Finset.range ns.length, ovl (ns.getD g 0) (app ns t fr r (app ns s fp p φ) g) (app ns t fu u (app ns s fq q χ) g) := by
  unfold tdm2 E2 E1
  rw [ann_prod ns φ cb hφ s fp p hfp hp, ann_prod ns χ ck hχ s fq q hfq hq, ann_smul, ann_smul,
    ann_prod ns _ _ (hφ.app s fp p hp) t fr r hfr hr, ann_prod ns _ _ (hχ.app s fq q hq) t fu u hfu hu]
  rw [show (fun A B => (sg (eps ns.length s fp (na2 cb) (nb2 cb)) : K) *
      ((fun A B => sg (eps ns.length t fr (na2 (decF s fp cb)) (nb2 (decF s fp cb))) *
        prodVec ns (app ns t fr r (app ns s fp p φ)) A B) A B)) = fun A B =>
      (sg (eps ns.length s fp (na2 cb) (nb2 cb)) * sg (eps ns.length t fr (na2 (decF s fp cb)) (nb2 (decF s fp cb)))) *
        prodVec ns (app ns t fr r (app ns s fp p φ)) A B by funext A B; ring]
  rw [show (fun A B => (sg (eps ns.length s fq (na2 ck) (nb2 ck)) : K) *
      ((fun A B => sg (eps ns.length t fu (na2 (decF s fq ck)) (nb2 (decF s fq ck))) *
        prodVec ns (app ns t fu u (app ns s fq q χ)) A B) A B)) = fun A B =>
      (sg (eps ns.length s fq (na2 ck) (nb2 ck)) * sg (eps ns.length t fu (na2 (decF s fq ck)) (nb2 (decF s fq ck)))) *
        prodVec ns (app ns t fu u (app ns s fq q χ)) A B by funext A B; ring]
  rw [ovl_smul, ovl_prodVec, sg_add, sg_add, sg_add]
  ring

theorem tdm1_counts (ns : List Nat) (φ χ : Nat → Vec K) (cb ck : Nat → Bool → ℤ) (hφ : Nums ns φ cb) (hχ : Nums ns χ ck)
    (s : Bool) (fp fq p q : Nat) (hfp : fp < ns.length) (hfq : fq < ns.length) (hp : p < ns.getD fp 0) (hq : q < ns.getD fq 0)
    (hne : tdm1 ns.sum (prodVec ns φ) (prodVec ns χ) s (fragStart ns fp + p) (fragStart ns fq + q) ≠ 0) :
    ∀ g < ns.length, decF s fp cb g = decF s fq ck g := by
  intro g hg
  by_contra h
  apply hne
  rw [tdm1_prod ns φ χ cb ck hφ hχ s fp fq p q hfp hfq hp hq, Finset.prod_eq_zero (Finset.mem_range.mpr hg), mul_zero]
  exact ovl_eq_zero ((hφ.app s fp p hp) g hg) ((hχ.app s fq q hq) g hg) h

theorem tdm2_counts (ns : List Nat) (φ χ : Nat → Vec K) (cb ck : Nat → Bool → ℤ) (hφ : Nums ns φ cb) (hχ : Nums ns χ ck)
    (s t : Bool) (fp fq fr fu p q r u : Nat) (hfp : fp < ns.length) (hfq : fq < ns.length) (hfr : fr < ns.length)
    (hfu : fu < ns.length) (hp : p < ns.getD fp 0) (hq : q < ns.getD fq 0) (hr : r < ns.getD fr 0) (hu : u < ns.getD fu 0)
    (hne : tdm2 ns.sum (prodVec ns φ) (prodVec ns χ) s t (fragStart ns fp + p) (fragStart ns fq + q) (fragStart ns fr + r)
        (fragStart ns fu + u) ≠ 0) :
    ∀ g < ns.length, decF t fr (decF s fp cb) g = decF t fu (decF s fq ck) g := by
  intro g hg
  by_contra h
  apply hne
  rw [tdm2_prod ns φ χ cb ck hφ hχ s t fp fq fr fu p q r u hfp hfq hfr hfu hp hq hr hu,
    Finset.prod_eq_zero (Finset.mem_range.mpr hg), mul_zero]
  exact ovl_eq_zero (((hφ.app s fp p hp).app t fr r hr) g hg) (((hχ.app s fq q hq).app t fu u hu) g hg) h

/-! ### Signs -/

theorem na2_decF (s : Bool) (f : Nat) (c : Nat → Bool → ℤ) : na2 (decF s f c) = upA s f (na2 c) := by
  funext g
  unfold na2 decF upA del
  cases s
  · simp only [Bool.false_eq_true, if_false, Pi.add_apply, and_true]
    split <;> simp [sub_eq_add_neg, show (-1 : ZMod 2) = 1 by decide]
  · simp

theorem nb2_decF (s : Bool) (f : Nat) (c : Nat → Bool → ℤ) : nb2 (decF s f c) = upB s f (nb2 c) := by
  funext g
  unfold nb2 decF upB del
  cases s
  · simp
  · simp only [if_true, Pi.add_apply, and_true]
    split <;> simp [sub_eq_add_neg, show (-1 : ZMod 2) = 1 by decide]

theorem nn2_decF (s : Bool) (f : Nat) (c : Nat → Bool → ℤ) : nn2 (decF s f c) = nn2 c + del f := by
  unfold nn2
  rw [na2_decF, nb2_decF, up_add]

/-- The phase of gathering the fragments `inv`. -/
def ph (m low : Nat) (inv : Nat → Bool) (c : Nat → Bool → ℤ) : ZMod 2 := phase m low inv (na2 c) (nb2 c)

theorem ph_congr (m low : Nat) (inv : Nat → Bool) (c c' : Nat → Bool → ℤ) (h : ∀ g < m, c g = c' g) :
    ph m low inv c = ph m low inv c' := by
  apply phase_congr
  · intro g hg; unfold na2; rw [h g hg]
  · intro g hg; unfold nb2; rw [h g hg]

theorem eps_ph (m low : Nat) (inv : Nat → Bool) (c : Nat → Bool → ℤ) (s : Bool) (f : Nat) (hf : f < m)
    (hi : inv f = true) (hlow : low ≤ f) :
    eps m s f (na2 c) (nb2 c) = ph m low inv c + ph m low inv (decF s f c) + phD m inv f (nn2 c) + phL m low inv (nn2 c) := by
  rw [eps_phase m low inv _ _ s f hf hi hlow]
  unfold ph
  rw [na2_decF, nb2_decF]
  rfl

theorem phL_decF (m low : Nat) (inv : Nat → Bool) (c : Nat → Bool → ℤ) (s : Bool) (f : Nat) (hi : inv f = true) :
    phL m low inv (nn2 (decF s f c)) = phL m low inv (nn2 c) := by
  rw [nn2_decF, phL_del _ _ _ _ _ hi]

theorem phD_decF (m : Nat) (inv : Nat → Bool) (c : Nat → Bool → ℤ) (s : Bool) (f x : Nat) (hf : f < m) (hi : inv f = true) :
    phD m inv x (nn2 (decF s f c)) = phD m inv x (nn2 c) + if x < f then 1 else 0 := by
  rw [nn2_decF, phD_del _ _ _ _ _ hf hi]

theorem phL_counts (m low : Nat) (inv : Nat → Bool) (c c' : Nat → Bool → ℤ) (h : ∀ g < m, c g = c' g) :
    phL m low inv (nn2 c) = phL m low inv (nn2 c') := by
  apply phL_congr
  intro g hg _
  unfold nn2 na2 nb2
  simp only [Pi.add_apply, h g hg]

theorem E1_eq (m low : Nat) (inv : Nat → Bool) (cb ck : Nat → Bool → ℤ) (s : Bool) (fp fq : Nat) (hfp : fp < m) (hfq : fq < m)
    (hip : inv fp = true) (hiq : inv fq = true) (hlp : low ≤ fp) (hlq : low ≤ fq)
    (hc : ∀ g < m, decF s fp cb g = decF s fq ck g) :
    E1 m s cb ck fp fq = ph m low inv cb + ph m low inv ck + (phD m inv fp (nn2 cb) + phD m inv fq (nn2 ck)) := by
  unfold E1
  rw [eps_ph m low inv cb s fp hfp hip hlp, eps_ph m low inv ck s fq hfq hiq hlq, ph_congr m low inv _ _ hc]
  have h1 := phL_counts m low inv _ _ hc
  rw [phL_decF m low inv cb s fp hip, phL_decF m low inv ck s fq hiq] at h1
  rw [h1]
  generalize ph m low inv cb = x1
  generalize ph m low inv ck = x2
  generalize ph m low inv (decF s fq ck) = x3
  generalize phD m inv fp (nn2 cb) = x4
  generalize phD m inv fq (nn2 ck) = x5
  generalize phL m low inv (nn2 ck) = x6
  revert x1 x2 x3 x4 x5 x6
  decide

theorem E2_eq (m low : Nat) (inv : Nat → Bool) (cb ck : Nat → Bool → ℤ) (s t : Bool) (fp fq fr fu : Nat) (hfp : fp < m)
    (hfq : fq < m) (hfr : fr < m) (hfu : fu < m) (hip : inv fp = true) (hiq : inv fq = true) (hir : inv fr = true)
    (hiu : inv fu = true) (hlow : ∀ f, inv f = true → low ≤ f)
    (hc : ∀ g < m, decF t fr (decF s fp cb) g = decF t fu (decF s fq ck) g) :
    E2 m s t cb ck fp fq fr fu = ph m low inv cb + ph m low inv ck +
      (phD m inv fp (nn2 cb) + phD m inv fr (nn2 cb) + (if fr < fp then 1 else 0) +
       (phD m inv fq (nn2 ck) + phD m inv fu (nn2 ck) + if fu < fq then 1 else 0)) := by
  unfold E2
  rw [E1_eq m low inv (decF s fp cb) (decF s fq ck) t fr fu hfr hfu hir hiu (hlow _ hir) (hlow _ hiu) hc]
  unfold E1
  rw [eps_ph m low inv cb s fp hfp hip (hlow _ hip), eps_ph m low inv ck s fq hfq hiq (hlow _ hiq),
    phD_decF m inv cb s fp fr hfp hip, phD_decF m inv ck s fq fu hfq hiq]
  have h1 := phL_counts m low inv _ _ hc
  rw [phL_decF m low inv _ t fr hir, phL_decF m low inv _ t fu hiu, phL_decF m low inv cb s fp hip,
    phL_decF m low inv ck s fq hiq] at h1
  rw [h1]
  generalize ph m low inv cb = x1
  generalize ph m low inv ck = x2
  generalize ph m low inv (decF s fq ck) = x3
  generalize ph m low inv (decF s fp cb) = x3'
  generalize phD m inv fp (nn2 cb) = x4
  generalize phD m inv fq (nn2 ck) = x5
  generalize phL m low inv (nn2 ck) = x6
  generalize phD m inv fr (nn2 cb) = x7
  generalize phD m inv fu (nn2 ck) = x8
  generalize (if fr < fp then (1 : ZMod 2) else 0) = x9
  generalize (if fu < fq then (1 : ZMod 2) else 0) = x10
  have h2 : ∀ x : ZMod 2, x + x = 0 := by decide
  linear_combination h2 x3 + h2 x3' + h2 x6

end Verif.Tdm
