import Verif.Lemmas.TdmProd
import Verif.Spec.Lstdm
/-!
# Lemmas: the factors and the block writes of `LSTDM`
-/
namespace Verif.Lstdm
open Verif.Spec.Tdm Verif.Spec.Lstdm Verif.Spec.Fockspace Verif.Tdm Verif.Signs
open Verif.Spec.Fsucc (nOcc nAbove)

variable {K : Type} [CommRing K]

/-! ### Sign factors -/

/-- The numbers of electrons of all fragments. -/
def cz (L : Lstdm K) (st : Nat) : Nat → Bool → ℤ := fun f σ => (cnt L f st σ : ℤ)

theorem getD_map_fst (l : List (Nat × Nat)) (g : Nat) : (l.map Prod.fst).getD g 0 = (l.getD g (0, 0)).1 := by
  rw [List.getD_eq_getElem?_getD, List.getElem?_map, List.getD_eq_getElem?_getD]
  cases l[g]? <;> rfl

theorem getD_map_snd (l : List (Nat × Nat)) (g : Nat) : (l.map Prod.snd).getD g 0 = (l.getD g (0, 0)).2 := by
  rw [List.getD_eq_getElem?_getD, List.getElem?_map, List.getD_eq_getElem?_getD]
  cases l[g]? <;> rfl

theorem nelecF_getD (L : Lstdm K) (st g : Nat) : (L.nelecF st).getD g 0 = cnt L g st false + cnt L g st true := by
  unfold Lstdm.nelecF cnt
  rw [List.getD_eq_getElem?_getD, List.getElem?_map, List.getD_eq_getElem?_getD]
  cases (L.nelec st)[g]? <;> rfl

theorem nelecF_length (L : Lstdm K) (st : Nat) : (L.nelecF st).length = (L.nelec st).length := by simp [Lstdm.nelecF]

theorem nn2_cz (L : Lstdm K) (st : Nat) : (fun g => ((L.nelecF st).getD g 0 : ZMod 2)) = nn2 (cz L st) := by
  funext g
  rw [nelecF_getD]
  unfold nn2 na2 nb2 cz
  simp

section
variable {L : Lstdm K} {v : Nat → Nat → Vec K} (hD : Describes L v)
include hD

theorem nums (st : Nat) : Nums L.nlas (fun f => v f st) (cz L st) := by
  intro f hf
  have := HasNumbers.num (hD.num f hf st)
  refine fun A B h => ?_
  have h' := this A B h
  unfold cz
  simpa using h'

theorem spinShuffle_eq (st : Nat) : ∃ e, L.spinShuffle st = some e ∧
    (e : K) = sg (phS L.nlas.length (na2 (cz L st)) (nb2 (cz L st))) := by
  obtain ⟨e, h1, h2⟩ := spinShuffle_sg (K := K) ((L.nelec st).map Prod.fst) ((L.nelec st).map Prod.snd) (by simp)
  refine ⟨e, h1, ?_⟩
  rw [h2, List.length_map, hD.len]
  congr 2
  · funext g; rw [getD_map_fst]; simp [na2, cz, cnt]
  · funext g; rw [getD_map_snd]; simp [nb2, cz, cnt]

variable (h8 : L.nlas.length ≤ 8)
include h8

omit hD in
theorem asc (inv : List Nat) (hinv : ∀ f ∈ inv, f < L.nlas.length) : Asc L.nlas.length inv :=
  listSet_small inv _ (fun v hv => by have := hinv v hv; omega) hinv

omit hD in
theorem mem_uniq (inv : List Nat) (hinv : ∀ f ∈ inv, f < L.nlas.length) (f : Nat) : f ∈ PySet.listSet inv ↔ f ∈ inv := by
  rw [asc h8 inv hinv, List.mem_filter, List.mem_range]
  simp only [decide_eq_true_eq]
  exact ⟨fun h => h.2, fun h => ⟨hinv f h, h⟩⟩

theorem fragShuffle_eq (st : Nat) (inv : List Nat) (hinv : ∀ f ∈ inv, f < L.nlas.length) (low : Nat) (hlow : low ∈ inv)
    (hmin : ∀ f ∈ inv, low ≤ f) : ((fermionFragShuffle (L.nelecF st) (PySet.listSet inv) : Int) : K) =
      sg (phF L.nlas.length low (fun f => decide (f ∈ inv)) (nn2 (cz L st))) := by
  have hlen : (L.nelecF st).length = L.nlas.length := by rw [nelecF_length, hD.len]
  have hmem := mem_uniq h8 inv hinv
  rw [fragShuffle_sg (L.nelecF st) (PySet.listSet inv) low (by
      rw [hlen]; exact asc h8 _ (fun f hf => hinv f ((hmem f).mp hf))) ((hmem low).mpr hlow)
    (fun f hf => hmin f ((hmem f).mp hf)) (by rw [hlen]; exact hinv low hlow), nn2_cz, hlen]
  congr 2
  funext f
  simp only [hmem f]

theorem desShuffle_eq (st : Nat) (inv : List Nat) (hinv : ∀ f ∈ inv, f < L.nlas.length) (i : Nat) (hi : i ∈ inv) :
    ∃ e, fermionDesShuffle (L.nelecF st) inv i = some e ∧
      (e : K) = sg (phD L.nlas.length (fun f => decide (f ∈ inv)) i (nn2 (cz L st))) := by
  have hlen : (L.nelecF st).length = L.nlas.length := by rw [nelecF_length, hD.len]
  obtain ⟨e, h1, h2⟩ := desShuffle_sg (K := K) (L.nelecF st) inv i (by rw [hlen]; exact asc h8 inv hinv) hi
    (by rw [hlen]; exact hinv i hi)
  exact ⟨e, h1, by rw [h2, nn2_cz, hlen]⟩

end

/-- The lowest of the fragments. -/
def lowOf (inv : List Nat) : Nat := inv.foldr min (inv.headD 0)

theorem lowOf_le (inv : List Nat) : ∀ f ∈ inv, lowOf inv ≤ f := by
  have : ∀ (l : List Nat) (d : Nat), ∀ f ∈ l, l.foldr min d ≤ f := by
    intro l d
    induction l with
    | nil => simp
    | cons a l ih =>
      intro f hf
      rcases List.mem_cons.mp hf with rfl | hf
      · simp
      · have := ih f hf; simp only [List.foldr_cons]; omega
  exact this inv _

theorem lowOf_mem (inv : List Nat) (h : inv ≠ []) : lowOf inv ∈ inv := by
  have : ∀ (l : List Nat) (d : Nat), l.foldr min d ∈ d :: l := by
    intro l d
    induction l with
    | nil => simp
    | cons a l ih =>
      simp only [List.foldr_cons]
      rcases Nat.le_total a (l.foldr min d) with hh | hh
      · rw [min_eq_left hh]; simp
      · rw [min_eq_right hh]
        rcases List.mem_cons.mp ih with e | e
        · rw [e]; simp
        · simp [e]
  cases inv with
  | nil => exact absurd rfl h
  | cons a l =>
    have := this (a :: l) a
    unfold lowOf
    simp only [List.headD_cons]
    rcases List.mem_cons.mp this with e | e
    · rw [e]; simp
    · exact e

/-- Membership in the list of interacting fragments. -/
def invB (inv : List Nat) : Nat → Bool := fun f => decide (f ∈ inv)

/-- The value of the overlap and permutation factor. -/
def wgt (L : Lstdm K) (v : Nat → Nat → Vec K) (bra ket : Nat) (inv : List Nat) : K :=
  sg (ph L.nlas.length (lowOf inv) (invB inv) (cz L bra)) * sg (ph L.nlas.length (lowOf inv) (invB inv) (cz L ket)) *
    ∏ g ∈ (Finset.range L.nlas.length).filter (fun g => g ∉ inv), ovl (L.nlas.getD g 0) (v g bra) (v g ket)

theorem list_prod_filter (m : Nat) (p : Nat → Bool) (F : Nat → K) :
    (((List.range m).filter p).map F).prod = ∏ g ∈ (Finset.range m).filter (fun g => p g = true), F g := by
  induction m with
  | zero => simp
  | succ m ih =>
    rw [List.range_succ, List.filter_append, List.map_append, List.prod_append, ih, Finset.range_add_one, Finset.filter_insert]
    cases h : p m
    · simp [h]
    · simp only [if_true]
      rw [Finset.prod_insert (by simp)]
      simp [h, mul_comm]

theorem ovlpFac_eq {L : Lstdm K} {v : Nat → Nat → Vec K} (hD : Describes L v) (h8 : L.nlas.length ≤ 8) (bra ket : Nat)
    (inv : List Nat) (hne : inv ≠ []) (hinv : ∀ f ∈ inv, f < L.nlas.length)
    (hspec : ∀ g < L.nlas.length, g ∉ inv → cz L bra g = cz L ket g) :
    L.ovlpFac bra ket inv = some (wgt L v bra ket inv) := by
  obtain ⟨sb, b1, b2⟩ := spinShuffle_eq hD bra
  obtain ⟨sk, k1, k2⟩ := spinShuffle_eq hD ket
  unfold Lstdm.ovlpFac
  rw [b1, k1]
  simp only [Option.bind_eq_bind, Option.bind_some, Option.pure_def]
  congr 1
  rw [fragShuffle_eq hD h8 bra inv hinv (lowOf inv) (lowOf_mem inv hne) (lowOf_le inv),
    fragShuffle_eq hD h8 ket inv hinv (lowOf inv) (lowOf_mem inv hne) (lowOf_le inv), list_prod_filter, Int.cast_mul, b2, k2]
  unfold wgt ph phase invB
  rw [sg_add, sg_add]
  have hp : ∏ g ∈ (Finset.range L.nlas.length).filter (fun g => decide (g ∉ inv) = true), (L.ints g).get1Ovlp bra ket =
      ∏ g ∈ (Finset.range L.nlas.length).filter (fun g => g ∉ inv), ovl (L.nlas.getD g 0) (v g bra) (v g ket) := by
    rw [Finset.filter_congr (q := fun g => g ∉ inv) (by intro g _; simp)]
    refine Finset.prod_congr rfl fun g hg => ?_
    rw [Finset.mem_filter, Finset.mem_range] at hg
    refine (hD.tables g hg.1).ovlp bra ket fun σ => ?_
    have := congrFun (hspec g hg.1 hg.2) σ
    unfold cz at this
    exact_mod_cast this
  rw [hp]
  unfold nn2
  ring

/-! ### Exact elements in terms of the factor -/

/-- Local factor of a fragment in an element of the two-body matrix. -/
def loc2 (L : Lstdm K) (v : Nat → Nat → Vec K) (bra ket : Nat) (s t : Bool) (fp p fq q fr r fu u g : Nat) : K :=
  ovl (L.nlas.getD g 0) (app L.nlas t fr r (app L.nlas s fp p fun f => v f bra) g)
    (app L.nlas t fu u (app L.nlas s fq q fun f => v f ket) g)

/-- Local factor of a fragment in an element of the one-body matrix. -/
def loc1 (L : Lstdm K) (v : Nat → Nat → Vec K) (bra ket : Nat) (s : Bool) (fp p fq q g : Nat) : K :=
  ovl (L.nlas.getD g 0) (app L.nlas s fp p (fun f => v f bra) g) (app L.nlas s fq q (fun f => v f ket) g)

/-- Sign relative to the factor, two-body. -/
def dl2 (L : Lstdm K) (bra ket : Nat) (inv : List Nat) (fp fq fr fu : Nat) : ZMod 2 :=
  phD L.nlas.length (invB inv) fp (nn2 (cz L bra)) + phD L.nlas.length (invB inv) fr (nn2 (cz L bra)) +
    (if fr < fp then 1 else 0) +
   (phD L.nlas.length (invB inv) fq (nn2 (cz L ket)) + phD L.nlas.length (invB inv) fu (nn2 (cz L ket)) +
    if fu < fq then 1 else 0)

theorem prod_split (m : Nat) (inv : List Nat) (hinv : ∀ f ∈ inv, f < m) (F : Nat → K) :
    ∏ g ∈ Finset.range m, F g = (∏ g ∈ (Finset.range m).filter (fun g => g ∉ inv), F g) * ∏ g ∈ inv.toFinset, F g := by
  rw [← Finset.prod_filter_mul_prod_filter_not (Finset.range m) (fun g => g ∉ inv)]
  congr 1
  apply Finset.prod_congr _ (fun _ _ => rfl)
  ext g
  simp only [Finset.mem_filter, Finset.mem_range, not_not, List.mem_toFinset]
  exact ⟨fun h => h.2, fun h => ⟨hinv g h, h⟩⟩

theorem tdm2_wgt {L : Lstdm K} {v : Nat → Nat → Vec K} (hD : Describes L v) (bra ket : Nat)
    (inv : List Nat) (hinv : ∀ f ∈ inv, f < L.nlas.length) (s t : Bool) (fp fq fr fu p q r u : Nat)
    (hfp : fp ∈ inv) (hfq : fq ∈ inv) (hfr : fr ∈ inv) (hfu : fu ∈ inv) (hp : p < L.nlas.getD fp 0) (hq : q < L.nlas.getD fq 0)
    (hr : r < L.nlas.getD fr 0) (hu : u < L.nlas.getD fu 0)
    (hc : ∀ g < L.nlas.length, decF t fr (decF s fp (cz L bra)) g = decF t fu (decF s fq (cz L ket)) g) :
    tdm2 L.nlas.sum (state L v bra) (state L v ket) s t (fragStart L.nlas fp + p) (fragStart L.nlas fq + q)
        (fragStart L.nlas fr + r) (fragStart L.nlas fu + u) =
      (sg (dl2 L bra ket inv fp fq fr fu) * ∏ g ∈ inv.toFinset, loc2 L v bra ket s t fp p fq q fr r fu u g) *
        wgt L v bra ket inv := by
  unfold state
  rw [tdm2_prod L.nlas _ _ _ _ (nums hD bra) (nums hD ket) s t fp fq fr fu p q r u (hinv _ hfp) (hinv _ hfq) (hinv _ hfr)
    (hinv _ hfu) hp hq hr hu, E2_eq L.nlas.length (lowOf inv) (invB inv) _ _ s t fp fq fr fu (hinv _ hfp) (hinv _ hfq)
    (hinv _ hfr) (hinv _ hfu) (by simpa [invB] using hfp) (by simpa [invB] using hfq) (by simpa [invB] using hfr)
    (by simpa [invB] using hfu) (fun f hf => lowOf_le inv f (by simpa [invB] using hf)) hc, prod_split _ inv hinv, sg_add, sg_add]
  unfold wgt dl2 loc2
  rw [Finset.prod_congr (s₁ := (Finset.range L.nlas.length).filter (fun g => g ∉ inv)) rfl (g := fun g =>
    ovl (L.nlas.getD g 0) (v g bra) (v g ket))]
  · ring
  · intro g hg
    rw [Finset.mem_filter] at hg
    have hn : ∀ f ∈ inv, ¬ g = f := fun f hf e => hg.2 (e ▸ hf)
    unfold app
    rw [if_neg (hn _ hfr), if_neg (hn _ hfp), if_neg (hn _ hfu), if_neg (hn _ hfq)]

theorem tdm1_wgt {L : Lstdm K} {v : Nat → Nat → Vec K} (hD : Describes L v) (bra ket : Nat)
    (inv : List Nat) (hinv : ∀ f ∈ inv, f < L.nlas.length) (s : Bool) (fp fq p q : Nat)
    (hfp : fp ∈ inv) (hfq : fq ∈ inv) (hp : p < L.nlas.getD fp 0) (hq : q < L.nlas.getD fq 0)
    (hc : ∀ g < L.nlas.length, decF s fp (cz L bra) g = decF s fq (cz L ket) g) :
    tdm1 L.nlas.sum (state L v bra) (state L v ket) s (fragStart L.nlas fp + p) (fragStart L.nlas fq + q) =
      (sg (phD L.nlas.length (invB inv) fp (nn2 (cz L bra)) + phD L.nlas.length (invB inv) fq (nn2 (cz L ket))) *
        ∏ g ∈ inv.toFinset, loc1 L v bra ket s fp p fq q g) * wgt L v bra ket inv := by
  unfold state
  rw [tdm1_prod L.nlas _ _ _ _ (nums hD bra) (nums hD ket) s fp fq p q (hinv _ hfp) (hinv _ hfq)
    hp hq, E1_eq L.nlas.length (lowOf inv) (invB inv) _ _ s fp fq (hinv _ hfp) (hinv _ hfq)
    (by simpa [invB] using hfp) (by simpa [invB] using hfq) (lowOf_le inv _ hfp) (lowOf_le inv _ hfq) hc,
    prod_split _ inv hinv, sg_add, sg_add]
  unfold wgt loc1
  rw [Finset.prod_congr (s₁ := (Finset.range L.nlas.length).filter (fun g => g ∉ inv)) rfl (g := fun g =>
    ovl (L.nlas.getD g 0) (v g bra) (v g ket))]
  · ring
  · intro g hg
    rw [Finset.mem_filter] at hg
    have hn : ∀ f ∈ inv, ¬ g = f := fun f hf e => hg.2 (e ▸ hf)
    unfold app
    rw [if_neg (hn _ hfp), if_neg (hn _ hfq)]

/-! ### Moves of electrons -/

/-- An electron of spin `s` moves from fragment `e` to fragment `d`. -/
def mv (d e : Nat) (s : Bool) (c : Nat → Bool → ℤ) : Nat → Bool → ℤ := fun g σ =>
  c g σ + (if g = d ∧ σ = s then 1 else 0) - if g = e ∧ σ = s then 1 else 0

theorem nn2_mv (d e : Nat) (s : Bool) (c : Nat → Bool → ℤ) : nn2 (mv d e s c) = nn2 c + del d + del e := by
  funext g
  unfold nn2 na2 nb2 mv del
  simp only [Pi.add_apply]
  have h2 : ∀ x : ZMod 2, x + x = 0 := by decide
  have h1 : (-1 : ZMod 2) = 1 := by decide
  cases s <;> by_cases hd : g = d <;> by_cases he : g = e <;>
    simp [hd, he, sub_eq_add_neg, h1] <;> ring_nf

theorem phD_congr (m : Nat) (inv : Nat → Bool) (f : Nat) (N N' : Nat → ZMod 2) (h : ∀ g < m, N g = N' g) :
    phD m inv f N = phD m inv f N' := by
  unfold phD
  refine Finset.sum_congr rfl fun g hg => ?_
  rw [h g (Finset.mem_range.mp hg)]

theorem nn2_congr (c c' : Nat → Bool → ℤ) (g : Nat) (h : c g = c' g) : nn2 c g = nn2 c' g := by
  unfold nn2 na2 nb2
  simp only [Pi.add_apply, h]

theorem phD_mv (m : Nat) (inv : Nat → Bool) (f d e : Nat) (s : Bool) (c : Nat → Bool → ℤ) (hd : d < m) (he : e < m)
    (hid : inv d = true) (hie : inv e = true) :
    phD m inv f (nn2 (mv d e s c)) = phD m inv f (nn2 c) + (if f < d then 1 else 0) + if f < e then 1 else 0 := by
  rw [nn2_mv, phD_del _ _ _ _ _ he hie, phD_del _ _ _ _ _ hd hid]

end Verif.Lstdm
