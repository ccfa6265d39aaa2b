import Verif.Lemmas.LstdmBlk
/-!
# Lemmas: the rows of `LSTDM`
-/
namespace Verif.Lstdm
open Verif.Spec.Tdm Verif.Spec.Lstdm Verif.Spec.Fockspace Verif.Tdm Verif.Signs

variable {K : Type} [CommRing K]

/-! ### Accessors -/

section
variable {L : Lstdm K} {v : Nat → Nat → Vec K} (hD : Describes L v) (bra ket f : Nat) (hf : f < L.nlas.length)
include hD hf

theorem get1H_eq (s : Bool) (x : Nat) (hc : ∀ σ, cz L bra f σ + (if σ = s then 1 else 0) = cz L ket f σ)
    (hx : x < L.nlas.getD f 0) :
    (L.ints f).get1H bra ket (ix s) x = ovl (L.nlas.getD f 0) (v f bra) (ann (L.nlas.getD f 0) s x (v f ket)) :=
  (hD.tables f hf).h s bra ket x (fun σ => by
    have := hc σ
    unfold cz at this; unfold one; split at this <;> simp_all <;> omega) hx

theorem get1P_eq (s : Bool) (x : Nat) (hc : ∀ σ, cz L ket f σ + (if σ = s then 1 else 0) = cz L bra f σ)
    (hx : x < L.nlas.getD f 0) :
    (L.ints f).get1P bra ket (ix s) x = ovl (L.nlas.getD f 0) (ann (L.nlas.getD f 0) s x (v f bra)) (v f ket) := by
  rw [ovl_comm]
  exact get1H_eq hD ket bra f hf s x hc hx

theorem get1Hh_eq (s t : Bool) (hst : s = true → t = true) (x y : Nat)
    (hc : ∀ σ, cz L bra f σ + (if σ = s then 1 else 0) + (if σ = t then 1 else 0) = cz L ket f σ)
    (hx : x < L.nlas.getD f 0) (hy : y < L.nlas.getD f 0) :
    (L.ints f).get1Hh bra ket (ix s + ix t) x y =
      ovl (L.nlas.getD f 0) (v f bra) (ann (L.nlas.getD f 0) t x (ann (L.nlas.getD f 0) s y (v f ket))) :=
  (hD.tables f hf).hh s t bra ket x y (fun σ => by
    have := hc σ
    unfold cz at this; unfold one
    revert this
    cases σ <;> cases s <;> cases t <;> simp <;> omega) hst hx hy

theorem get1Pp_eq (s t : Bool) (hst : s = true → t = true) (x y : Nat)
    (hc : ∀ σ, cz L ket f σ + (if σ = s then 1 else 0) + (if σ = t then 1 else 0) = cz L bra f σ)
    (hx : x < L.nlas.getD f 0) (hy : y < L.nlas.getD f 0) :
    (L.ints f).get1Pp bra ket (ix s + ix t) x y =
      ovl (L.nlas.getD f 0) (ann (L.nlas.getD f 0) t y (ann (L.nlas.getD f 0) s x (v f bra))) (v f ket) := by
  rw [ovl_comm]
  exact get1Hh_eq hD ket bra f hf s t hst y x hc hy hx

theorem get1Phh_eq (s t : Bool) (a b c : Nat) (hc : ∀ σ, cz L bra f σ + (if σ = s then 1 else 0) = cz L ket f σ)
    (ha : a < L.nlas.getD f 0) (hb : b < L.nlas.getD f 0) (hcc : c < L.nlas.getD f 0) :
    (L.ints f).get1Phh bra ket (ix s) (ix t) a b c =
      ovl (L.nlas.getD f 0) (ann (L.nlas.getD f 0) t a (v f bra))
        (ann (L.nlas.getD f 0) t b (ann (L.nlas.getD f 0) s c (v f ket))) :=
  (hD.tables f hf).phh s t bra ket c a b (fun σ => by
    have := hc σ
    unfold cz at this; unfold one; split at this <;> simp_all <;> omega) hcc ha hb

theorem get1Pph_eq (s t : Bool) (a b c : Nat) (hc : ∀ σ, cz L ket f σ + (if σ = s then 1 else 0) = cz L bra f σ)
    (ha : a < L.nlas.getD f 0) (hb : b < L.nlas.getD f 0) (hcc : c < L.nlas.getD f 0) :
    (L.ints f).get1Pph bra ket (ix s) (ix t) a b c =
      ovl (L.nlas.getD f 0) (ann (L.nlas.getD f 0) t b (ann (L.nlas.getD f 0) s a (v f bra)))
        (ann (L.nlas.getD f 0) t c (v f ket)) := by
  rw [ovl_comm]
  exact get1Phh_eq hD ket bra f hf s t c b a hc hcc hb ha

theorem get1Sm_eq (x y : Nat)
    (hc : ∀ σ, cz L bra f σ + (if σ = false then 1 else 0) = cz L ket f σ + (if σ = true then 1 else 0))
    (hx : x < L.nlas.getD f 0) (hy : y < L.nlas.getD f 0) :
    (L.ints f).get1Sm bra ket x y =
      ovl (L.nlas.getD f 0) (ann (L.nlas.getD f 0) true x (v f bra)) (ann (L.nlas.getD f 0) false y (v f ket)) :=
  (hD.tables f hf).sm bra ket x y (fun σ => by
    have := hc σ
    unfold cz at this; unfold one; cases σ <;> simp at this ⊢ <;> omega) hx hy

theorem get1Sp_eq (x y : Nat)
    (hc : ∀ σ, cz L bra f σ + (if σ = true then 1 else 0) = cz L ket f σ + (if σ = false then 1 else 0))
    (hx : x < L.nlas.getD f 0) (hy : y < L.nlas.getD f 0) :
    (L.ints f).get1Sp bra ket x y =
      ovl (L.nlas.getD f 0) (ann (L.nlas.getD f 0) false x (v f bra)) (ann (L.nlas.getD f 0) true y (v f ket)) := by
  rw [ovl_comm]
  exact get1Sm_eq hD ket bra f hf y x (fun σ => (hc σ).symm) hy hx

theorem get1Dm1_eq (s : Bool) (a b : Nat) (hc : cz L bra f = cz L ket f) (ha : a < L.nlas.getD f 0) (hb : b < L.nlas.getD f 0) :
    (L.ints f).get1Dm1 bra ket (ix s) a b =
      ovl (L.nlas.getD f 0) (ann (L.nlas.getD f 0) s a (v f bra)) (ann (L.nlas.getD f 0) s b (v f ket)) := by
  have h := (hD.tables f hf).dm1 bra ket s a b (fun σ => by
    have := congrFun hc σ
    unfold cz at this; exact_mod_cast this) ha hb
  unfold FragInt.get1Dm1
  cases hu : (L.ints f).upper bra ket
  · simp only [Bool.false_eq_true, if_false]
    exact h.1 hu
  · simp only [if_true]
    rw [h.2 hu, ovl_comm]
    rfl

theorem get1Dm2_eq (s t : Bool) (a b c e : Nat) (hc : cz L bra f = cz L ket f) (ha : a < L.nlas.getD f 0)
    (hb : b < L.nlas.getD f 0) (hcc : c < L.nlas.getD f 0) (he : e < L.nlas.getD f 0) :
    (L.ints f).get1Dm2 bra ket (ix2 s t) a b c e =
      ovl (L.nlas.getD f 0) (ann (L.nlas.getD f 0) t c (ann (L.nlas.getD f 0) s a (v f bra)))
        (ann (L.nlas.getD f 0) t e (ann (L.nlas.getD f 0) s b (v f ket))) := by
  have h := (hD.tables f hf).dm2 bra ket s t a b c e (fun σ => by
    have := congrFun hc σ
    unfold cz at this; exact_mod_cast this) ha hb hcc he
  unfold FragInt.get1Dm2
  cases hu : (L.ints f).upper bra ket
  · simp only [Bool.false_eq_true, if_false]
    exact h.1 hu
  · simp only [if_true]
    unfold ix2
    rw [h.2 hu, ovl_comm]
    rfl

end

/-! ### Rows with one electron hop -/

/-- The symmetries of a two-body matrix. -/
structure Sym2 (N : Nat) (X : Bool → Bool → Nat → Nat → Nat → Nat → K) : Prop where
  swap : ∀ s t p q r u, p < N → q < N → r < N → u < N → X s t p q r u = X t s r u p q
  exch : ∀ s p q r u, q < N → u < N → X s s p q r u = -X s s p u r q

theorem sym2_tdm2 (N : Nat) (φ χ : Vec K) : Sym2 N (tdm2 N φ χ) :=
  ⟨fun s t p q r u hp hq hr hu => tdm2_swap N φ χ s t p q r u hp hq hr hu,
    fun s p q r u hq hu => tdm2_exch N φ χ s p q r u hq hu⟩

/-- The blocks written by `_crunch_1c_tdm2`. -/
def pat1c (s1 : Bool) (i j k : Nat) (s t : Bool) (a b c e : Nat) : Prop :=
  (s = s1 ∧ a = i ∧ b = j ∧ c = k ∧ e = k) ∨ (t = s1 ∧ a = k ∧ b = k ∧ c = i ∧ e = j) ∨
  (s = s1 ∧ t = s1 ∧ ((a = i ∧ b = k ∧ c = k ∧ e = j) ∨ (a = k ∧ b = j ∧ c = i ∧ e = k)))

theorem good_1cTdm2 {ns : List Nat} {W : K} {X : Bool → Bool → Nat → Nat → Nat → Nat → K} (hX : Sym2 ns.sum X)
    {pat : Bool → Bool → Nat → Nat → Nat → Nat → Prop} {d : D2 K} (hd : Good2 ns W X pat d) (s1 : Bool) (i j k : Nat)
    (blk : Nat → Nat → Nat → Nat → Nat → K)
    (hb : ∀ t a b c e, a < ns.getD i 0 → b < ns.getD j 0 → c < ns.getD k 0 → e < ns.getD k 0 →
      X s1 t (fragStart ns i + a) (fragStart ns j + b) (fragStart ns k + c) (fragStart ns k + e) = blk (ix t) a b c e * W) :
    Good2 ns W X (fun s t a b c e => pat1c s1 i j k s t a b c e ∨ pat s t a b c e)
      (Lstdm.crunch1cTdm2 (ix s1) d blk (getRange ns i) (getRange ns j) (getRange ns k)) := by
  unfold Lstdm.crunch1cTdm2
  have h1 := good2_put hd [ix s1 * 2, ix s1 * 2 + 1] i j k k blk (by
    intro s t p q r u hm hp hq hr hu
    have : s = s1 ∧ [ix s1 * 2, ix s1 * 2 + 1].idxOf (ix2 s t) = ix t := by
      revert hm; cases s <;> cases t <;> cases s1 <;> decide
    rw [this.2, this.1]
    exact hb t p q r u hp hq hr hu)
  have h2 := good2_put h1 [ix s1, ix s1 + 2] k k i j (fun t x0 x1 x2 x3 => blk t x2 x3 x0 x1) (by
    intro s t p q r u hm hp hq hr hu
    have : t = s1 ∧ [ix s1, ix s1 + 2].idxOf (ix2 s t) = ix s := by
      revert hm; cases s <;> cases t <;> cases s1 <;> decide
    rw [this.2, this.1, hX.swap _ _ _ _ _ _ (frag_lt ns _ _ hp) (frag_lt ns _ _ hq) (frag_lt ns _ _ hr) (frag_lt ns _ _ hu)]
    exact hb s r u p q hr hu hp hq)
  have h3 := good2_put h2 [ix s1 * 3] i k k j (fun _ x0 x1 x2 x3 => -blk (ix s1) x0 x3 x2 x1) (by
    intro s t p q r u hm hp hq hr hu
    have : s = s1 ∧ t = s1 := by revert hm; cases s <;> cases t <;> cases s1 <;> decide
    rw [this.1, this.2, hX.exch _ _ _ _ _ (frag_lt ns _ _ hq) (frag_lt ns _ _ hu), hb s1 p u r q hp hu hr hq]
    ring)
  have h4 := good2_put h3 [ix s1 * 3] k j i k (fun _ x0 x1 x2 x3 => -blk (ix s1) x2 x1 x0 x3) (by
    intro s t p q r u hm hp hq hr hu
    have : s = s1 ∧ t = s1 := by revert hm; cases s <;> cases t <;> cases s1 <;> decide
    rw [this.1, this.2, hX.swap _ _ _ _ _ _ (frag_lt ns _ _ hp) (frag_lt ns _ _ hq) (frag_lt ns _ _ hr) (frag_lt ns _ _ hu),
      hX.exch _ _ _ _ _ (frag_lt ns _ _ hu) (frag_lt ns _ _ hq), hb s1 r q p u hr hq hp hu]
    ring)
  refine good2_congr h4 ?_
  intro s t a b c e
  unfold pat1c
  have e1 : ix2 s t ∈ [ix s1 * 2, ix s1 * 2 + 1] ↔ s = s1 := by cases s <;> cases t <;> cases s1 <;> decide
  have e2 : ix2 s t ∈ [ix s1, ix s1 + 2] ↔ t = s1 := by cases s <;> cases t <;> cases s1 <;> decide
  have e3 : ix2 s t ∈ [ix s1 * 3] ↔ s = s1 ∧ t = s1 := by cases s <;> cases t <;> cases s1 <;> decide
  rw [e1, e2, e3]
  generalize (a = k ∧ b = j ∧ c = i ∧ e = k) = A1
  generalize (a = i ∧ b = k ∧ c = k ∧ e = j) = A2
  generalize (a = k ∧ b = k ∧ c = i ∧ e = j) = A3
  generalize (a = i ∧ b = j ∧ c = k ∧ e = k) = A4
  generalize (s = s1) = A5
  generalize (t = s1) = A6
  constructor
  · rintro (⟨⟨h1, h2⟩, h3⟩ | ⟨⟨h1, h2⟩, h3⟩ | ⟨h1, h2⟩ | ⟨h1, h2⟩ | h)
    · exact Or.inl (Or.inr (Or.inr ⟨h1, h2, Or.inr h3⟩))
    · exact Or.inl (Or.inr (Or.inr ⟨h1, h2, Or.inl h3⟩))
    · exact Or.inl (Or.inr (Or.inl ⟨h1, h2⟩))
    · exact Or.inl (Or.inl ⟨h1, h2⟩)
    · exact Or.inr h
  · rintro ((⟨h1, h2⟩ | ⟨h1, h2⟩ | ⟨h1, h2, h3 | h3⟩) | h)
    · exact Or.inr (Or.inr (Or.inr (Or.inl ⟨h1, h2⟩)))
    · exact Or.inr (Or.inr (Or.inl ⟨h1, h2⟩))
    · exact Or.inr (Or.inl ⟨⟨h1, h2⟩, h3⟩)
    · exact Or.inl ⟨⟨h1, h2⟩, h3⟩
    · exact Or.inr (Or.inr (Or.inr (Or.inr h)))

end Verif.Lstdm
