import Verif.Props.Outer
import Verif.Model.OuterGen
/-!
# C95: overlap matrix of the product states, and the filter on numbers of electron hops
-/
namespace Verif.Outer
open Verif.Np Verif.Fockspace Verif.Spec Verif.Spec.Outer Verif.Spec.Fsucc Verif.Spec.Fockspace Verif.Radix Verif.Props
open scoped BigOperators

variable {K : Type} [CommRing K]

theorem mapM_rel {α β : Type} {f : α → Option β} {R : α → β → Prop} {l : List α} (h : ∀ a ∈ l, ∃ b, f a = some b ∧ R a b) :
    ∃ r, l.mapM f = some r ∧ List.Forall₂ R l r := by
  induction l with
  | nil => exact ⟨[], rfl, List.Forall₂.nil⟩
  | cons a l ih =>
    obtain ⟨b, hb, hR⟩ := h a (by simp)
    obtain ⟨r, hr, hF⟩ := ih (fun x hx => h x (by simp [hx]))
    refine ⟨b :: r, ?_, List.Forall₂.cons hR hF⟩
    rw [List.mapM_cons, hb, hr]
    rfl

theorem flatten_getD {β : Type} {vs : List (List β)} {d : β} {s p : Nat} (hs : s < vs.length) (hp : p < (vs[s]).length) :
    vs.flatten.getD (((vs.take s).map List.length).sum + p) d = (vs[s]).getD p d := by
  induction vs generalizing s with
  | nil => simp at hs
  | cons v vs ih =>
    cases s with
    | zero =>
      simp only [List.take_zero, List.map_nil, List.sum_nil, Nat.zero_add, List.flatten_cons, List.getElem_cons_zero] at hp ⊢
      exact List.getD_append _ _ _ _ hp
    | succ s =>
      simp only [List.take_succ_cons, List.map_cons, List.sum_cons, List.flatten_cons, List.getElem_cons_succ] at hp ⊢
      rw [Nat.add_assoc, List.getD_append_right _ _ _ _ (by omega), Nat.add_sub_cancel_left]
      exact ih (by simpa using hs) hp

/-- What is needed of the product of one rootspace. -/
structure Good (fs : List (Frag K)) (P : Product K) : Prop where
  nprods : P.nprods = (fs.map Frag.lroots).prod
  nelec : P.nelec = ((fs.map Frag.na).sum, (fs.map Frag.nb).sum)
  gen : ∀ p, ∃ v, P.gen p = some v ∧ ∀ t, InShape t (fs.map Frag.lroots) → p = posF (fs.map Frag.lroots) t →
    ∀ A ∈ strs (fs.map Frag.norb).sum (fs.map Frag.na).sum, ∀ B ∈ strs (fs.map Frag.norb).sum (fs.map Frag.nb).sum,
      v (addrOf (fs.map Frag.norb).sum A) (addrOf (fs.map Frag.norb).sum B) = prodState fs t A B
  dot : ∀ c1, ∃ r, P.dotter fs c1 P.nelec none = some r ∧ ∀ t, InShape t (fs.map Frag.lroots) →
    r.get [posF (fs.map Frag.lroots) t] = ∑ A ∈ (strs (fs.map Frag.norb).sum (fs.map Frag.na).sum).toFinset,
      ∑ B ∈ (strs (fs.map Frag.norb).sum (fs.map Frag.nb).sum).toFinset,
        prodState fs t A B * c1 (addrOf (fs.map Frag.norb).sum A) (addrOf (fs.map Frag.norb).sum B)

theorem good {fs : List (Frag K)} (hne : fs ≠ []) (hok : ∀ f ∈ fs, f.OK) : ∃ P, ciOuterProduct fs = some P ∧ Good fs P := by
  obtain ⟨P, hP, h1, h2, h3⟩ := C93_coefficients fs hne hok
  have hgen : ∀ t, InShape t (fs.map Frag.lroots) → ∀ v, P.gen (posF (fs.map Frag.lroots) t) = some v →
      ∀ A ∈ strs (fs.map Frag.norb).sum (fs.map Frag.na).sum, ∀ B ∈ strs (fs.map Frag.norb).sum (fs.map Frag.nb).sum,
      v (addrOf (fs.map Frag.norb).sum A) (addrOf (fs.map Frag.norb).sum B) = prodState fs t A B := by
    intro t ht v hv A hA B hB
    obtain ⟨v', hv', h⟩ := h3 t ht
    rw [hv] at hv'
    cases hv'
    have hA := mem_strs.1 hA
    have hB := mem_strs.1 hB
    exact h A B hA.1 hB.1 hA.2 hB.2
  refine ⟨P, hP, h1, h2, ?_, ?_⟩
  · intro p
    obtain ⟨_, hP', _, _, _, _, hs, lA, lB, _⟩ := product_ok hne hok
    rw [hP] at hP'
    cases hP'
    have e : ∃ v, P.gen p = some v := by rw [Product.gen, if_pos (by rw [hs, lA, lB]; rfl)]; exact ⟨_, rfl⟩
    obtain ⟨v, hv⟩ := e
    exact ⟨v, hv, fun t ht e => hgen t ht v (by rw [← e]; exact hv)⟩
  · intro c1
    obtain ⟨P', r, hP', hr, _, hv⟩ := C94_overlap fs hne hok c1 P.nelec
    rw [hP] at hP'
    cases hP'
    refine ⟨r, hr, fun t ht => ?_⟩
    obtain ⟨v, hv1, hv2⟩ := hv (posF (fs.map Frag.lroots) t) (by rw [h1]; exact posF_lt ht)
    rw [hv2, if_pos rfl, h2, sum_strs]
    apply Finset.sum_congr rfl
    intro A hA
    rw [sum_strs]
    apply Finset.sum_congr rfl
    intro B hB
    rw [hgen t ht v hv1 A (List.mem_toFinset.1 hA) B (List.mem_toFinset.1 hB)]

theorem products_ok {ns : List Nat} {spaces : List (List (Frag K))} (h : Wf ns spaces) :
    ∃ prods, products spaces = some prods ∧ List.Forall₂ (fun fs x => x.1 = fs ∧ Good fs x.2) spaces prods := by
  apply mapM_rel
  intro fs hfs
  obtain ⟨P, hP, hg⟩ := good (fs := fs) (by rintro rfl; exact h.ne (by rw [← h.norb _ hfs]; rfl)) (h.ok fs hfs)
  exact ⟨(fs, P), by rw [hP]; rfl, rfl, hg⟩

theorem prods_len {spaces : List (List (Frag K))} {prods : List (List (Frag K) × Product K)}
    (h : List.Forall₂ (fun fs x => x.1 = fs ∧ Good fs x.2) spaces prods) :
    prods.map (fun x => x.2.nprods) = spaces.map (fun fs => (fs.map Frag.lroots).prod) := by
  induction h with
  | nil => rfl
  | cons h _ ih => rw [List.map_cons, List.map_cons, ih, h.2.nprods]

/-- Entry of a concatenation with one list per rootspace. -/
theorem concat_get {β : Type} {d : β} {spaces : List (List (Frag K))} {vs : List (List β)}
    (h : List.Forall₂ (fun fs l => l.length = (fs.map Frag.lroots).prod) spaces vs) :
    vs.flatten.length = (spaces.map fun fs => (fs.map Frag.lroots).prod).sum ∧
    ∀ s (hs : s < spaces.length) t, InShape t (spaces[s].map Frag.lroots) →
      vs.flatten.getD (pos spaces s t) d = (vs.getD s []).getD (posF (spaces[s].map Frag.lroots) t) d := by
  have hl : vs.map List.length = spaces.map fun fs => (fs.map Frag.lroots).prod := by
    induction h with
    | nil => rfl
    | cons h _ ih => rw [List.map_cons, List.map_cons, ih, h]
  refine ⟨by rw [List.length_flatten, hl], ?_⟩
  intro s hs t ht
  have hlen := h.length_eq
  have hsv : s < vs.length := by omega
  have e : (vs[s]).length = (spaces[s].map Frag.lroots).prod := by
    have := congrArg (fun l => l.getD s 0) hl
    simpa [List.getD_eq_getElem?_getD, hs, hsv] using this
  rw [pos, List.map_take, ← hl, ← List.map_take, List.getD_eq_getElem _ _ hs, flatten_getD hsv (by rw [e]; exact posF_lt ht),
    List.getD_eq_getElem _ _ hsv]

/-- The entry of one rootspace in `dotter`. -/
def entry {V : Type} (prods : List (List (Frag K) × Product K)) (conv : V → Nat × Nat → Nat → Nat → K) (spinless : Bool) (ket : V)
    (nelecKet : Nat × Nat) (filt : Option (Nat × Nat)) (fs : List (Frag K)) (t : List Nat) : K :=
  if dropped prods spinless nelecKet filt fs ((fs.map Frag.na).sum, (fs.map Frag.nb).sum) then 0
  else ∑ A ∈ (strs (fs.map Frag.norb).sum (fs.map Frag.na).sum).toFinset,
      ∑ B ∈ (strs (fs.map Frag.norb).sum (fs.map Frag.nb).sum).toFinset,
        prodState fs t A B * conv ket ((fs.map Frag.na).sum, (fs.map Frag.nb).sum) (addrOf (fs.map Frag.norb).sum A)
          (addrOf (fs.map Frag.norb).sum B)

theorem dotterAll_ok {V : Type} {spaces : List (List (Frag K))} {prods : List (List (Frag K) × Product K)}
    (h : List.Forall₂ (fun fs x => x.1 = fs ∧ Good fs x.2) spaces prods) (conv : V → Nat × Nat → Nat → Nat → K) (spinless : Bool)
    (ket : V) (nelecKet : Nat × Nat) (filt : Option (Nat × Nat)) :
    ∃ vs, dotterAll prods conv spinless ket nelecKet filt = some vs ∧
      vs.length = (spaces.map fun fs => (fs.map Frag.lroots).prod).sum ∧
      ∀ s (hs : s < spaces.length) t, InShape t (spaces[s].map Frag.lroots) →
        vs.getD (pos spaces s t) 0 = entry prods conv spinless ket nelecKet filt spaces[s] t := by
  have hg : ∀ x ∈ prods, Good x.1 x.2 := by
    intro x hx
    obtain ⟨i, hi, rfl⟩ := List.getElem_of_mem hx
    have hi' : i < spaces.length := by rw [h.length_eq]; exact hi
    have := (List.forall₂_iff_get.1 h).2 i hi' hi
    simp only [List.get_eq_getElem] at this
    rw [this.1]; exact this.2
  obtain ⟨vs, hvs, hR⟩ := mapM_rel (l := prods) (f := dotOne prods conv spinless ket nelecKet filt)
    (R := fun x l => l.length = (x.1.map Frag.lroots).prod ∧ ∀ t, InShape t (x.1.map Frag.lroots) →
      l.getD (posF (x.1.map Frag.lroots) t) 0 = entry prods conv spinless ket nelecKet filt x.1 t) (by
    intro x hx
    have g := hg x hx
    obtain ⟨r, hr, hrv⟩ := g.dot (conv ket x.2.nelec)
    unfold dotOne
    split_ifs with hc
    · refine ⟨_, rfl, by rw [List.length_replicate, g.nprods], fun t ht => ?_⟩
      rw [List.getD_replicate _ (by rw [g.nprods]; exact posF_lt ht)]
      unfold entry
      rw [if_pos]
      rw [g.nelec] at hc; exact hc
    · refine ⟨_, by rw [hr]; rfl, by rw [List.length_map, List.length_range, g.nprods], fun t ht => ?_⟩
      have hlt := posF_lt ht
      rw [List.getD_eq_getElem _ _ (by rw [List.length_map, List.length_range, g.nprods]; exact hlt), List.getElem_map,
        List.getElem_range, hrv t ht]
      unfold entry
      rw [if_neg]
      · rw [g.nelec]
      · rw [g.nelec] at hc; exact hc)
  have hF : List.Forall₂ (fun fs l => l.length = (fs.map Frag.lroots).prod ∧ ∀ t, InShape t (fs.map Frag.lroots) →
      l.getD (posF (fs.map Frag.lroots) t) 0 = entry prods conv spinless ket nelecKet filt fs t) spaces vs := by
    rw [List.forall₂_iff_get] at h hR ⊢
    refine ⟨h.1.trans hR.1, fun i h1 h2 => ?_⟩
    have a := h.2 i h1 (by rw [← h.1]; exact h1)
    have b := hR.2 i (by rw [← h.1]; exact h1) h2
    rw [a.1] at b
    exact b
  have hc := concat_get (d := (0 : K)) (hF.imp fun _ _ h => h.1)
  refine ⟨vs.flatten, ?_, hc.1, ?_⟩
  · unfold dotterAll
    rw [hvs]
    rfl
  · intro s hs t ht
    rw [hc.2 s hs t ht]
    have hsv : s < vs.length := by rw [← hF.length_eq]; exact hs
    have := (List.forall₂_iff_get.1 hF).2 s hs hsv
    rw [List.getD_eq_getElem _ _ hsv]
    exact this.2 t ht

theorem genAll_ok {spaces : List (List (Frag K))} {prods : List (List (Frag K) × Product K)}
    (h : List.Forall₂ (fun fs x => x.1 = fs ∧ Good fs x.2) spaces prods) :
    ∃ vs, genAll prods = some vs ∧ vs.length = (spaces.map fun fs => (fs.map Frag.lroots).prod).sum ∧
      ∀ s (hs : s < spaces.length) t, InShape t (spaces[s].map Frag.lroots) →
        ∀ A ∈ strs (spaces[s].map Frag.norb).sum (spaces[s].map Frag.na).sum,
        ∀ B ∈ strs (spaces[s].map Frag.norb).sum (spaces[s].map Frag.nb).sum,
        vs.getD (pos spaces s t) (fun _ _ => 0) (addrOf (spaces[s].map Frag.norb).sum A) (addrOf (spaces[s].map Frag.norb).sum B) =
          prodState spaces[s] t A B := by
  have hg : ∀ x ∈ prods, Good x.1 x.2 := by
    intro x hx
    obtain ⟨i, hi, rfl⟩ := List.getElem_of_mem hx
    have hi' : i < spaces.length := by rw [h.length_eq]; exact hi
    have := (List.forall₂_iff_get.1 h).2 i hi' hi
    simp only [List.get_eq_getElem] at this
    rw [this.1]; exact this.2
  obtain ⟨vs, hvs, hR⟩ := mapM_rel (l := prods) (f := fun x => (List.range x.2.nprods).mapM x.2.gen)
    (R := fun x l => l.length = (x.1.map Frag.lroots).prod ∧ ∀ t, InShape t (x.1.map Frag.lroots) →
      ∀ A ∈ strs (x.1.map Frag.norb).sum (x.1.map Frag.na).sum,
        ∀ B ∈ strs (x.1.map Frag.norb).sum (x.1.map Frag.nb).sum,
      l.getD (posF (x.1.map Frag.lroots) t) (fun _ _ => 0) (addrOf (x.1.map Frag.norb).sum A) (addrOf (x.1.map Frag.norb).sum B) =
        prodState x.1 t A B) (by
    intro x hx
    have g := hg x hx
    obtain ⟨l, hl, hlR⟩ := mapM_rel (l := List.range x.2.nprods) (f := x.2.gen) (R := fun p v =>
      ∀ t, InShape t (x.1.map Frag.lroots) → p = posF (x.1.map Frag.lroots) t →
      ∀ A ∈ strs (x.1.map Frag.norb).sum (x.1.map Frag.na).sum, ∀ B ∈ strs (x.1.map Frag.norb).sum (x.1.map Frag.nb).sum,
      v (addrOf (x.1.map Frag.norb).sum A) (addrOf (x.1.map Frag.norb).sum B) = prodState x.1 t A B) (fun p _ => g.gen p)
    have hll : l.length = x.2.nprods := by rw [← hlR.length_eq, List.length_range]
    refine ⟨l, hl, by rw [hll, g.nprods], fun t ht => ?_⟩
    have hlt : posF (x.1.map Frag.lroots) t < l.length := by rw [hll, g.nprods]; exact posF_lt ht
    have := (List.forall₂_iff_get.1 hlR).2 (posF (x.1.map Frag.lroots) t) (by rw [List.length_range, ← hll]; exact hlt) hlt
    rw [List.getD_eq_getElem _ _ hlt]
    exact this t ht (by simp))
  have hF : List.Forall₂ (fun fs l => l.length = (fs.map Frag.lroots).prod ∧ ∀ t, InShape t (fs.map Frag.lroots) →
      ∀ A ∈ strs (fs.map Frag.norb).sum (fs.map Frag.na).sum,
        ∀ B ∈ strs (fs.map Frag.norb).sum (fs.map Frag.nb).sum,
      l.getD (posF (fs.map Frag.lroots) t) (fun _ _ => 0) (addrOf (fs.map Frag.norb).sum A) (addrOf (fs.map Frag.norb).sum B) =
        prodState fs t A B) spaces vs := by
    rw [List.forall₂_iff_get] at h hR ⊢
    refine ⟨h.1.trans hR.1, fun i h1 h2 => ?_⟩
    have a := h.2 i h1 (by rw [← h.1]; exact h1)
    have b := hR.2 i (by rw [← h.1]; exact h1) h2
    rw [a.1] at b
    exact b
  have hc := concat_get (d := (fun _ _ => 0 : Nat → Nat → K)) (hF.imp fun _ _ h => h.1)
  refine ⟨vs.flatten, ?_, hc.1, ?_⟩
  · unfold genAll
    rw [hvs]
    rfl
  · intro s hs t ht
    rw [hc.2 s hs t ht]
    have hsv : s < vs.length := by rw [← hF.length_eq]; exact hs
    have := (List.forall₂_iff_get.1 hF).2 s hs hsv
    rw [List.getD_eq_getElem _ _ hsv]
    exact this.2 t ht

theorem label_ok {β : Type} {d : β} {spaces : List (List (Frag K))} {prods : List (List (Frag K) × Product K)}
    (h : List.Forall₂ (fun fs x => x.1 = fs ∧ Good fs x.2) spaces prods) (g : List (Frag K) × Product K → Nat → β) (n : Nat) :
    ∀ s (hs : s < spaces.length) t, InShape t (spaces[s].map Frag.lroots) → ∃ x, prods[s]? = some x ∧
      ((prods.zipIdx n).flatMap fun x => List.replicate x.1.2.nprods (g x.1 x.2)).getD (pos spaces s t) d = g x (n + s) := by
  intro s hs t ht
  have hsp : s < prods.length := by rw [← h.length_eq]; exact hs
  refine ⟨prods[s], by simp [hsp], ?_⟩
  rw [List.flatMap_def]
  have hF : List.Forall₂ (fun fs l => l.length = (fs.map Frag.lroots).prod) spaces
      ((prods.zipIdx n).map fun x => List.replicate x.1.2.nprods (g x.1 x.2)) := by
    rw [List.forall₂_iff_get] at h ⊢
    refine ⟨by simpa using h.1, fun i h1 h2 => ?_⟩
    have a := h.2 i h1 (by rw [← h.1]; exact h1)
    simp only [List.get_eq_getElem] at a
    simp [a.2.nprods]
  rw [(concat_get hF).2 s hs t ht]
  have a := (List.forall₂_iff_get.1 h).2 s hs hsp
  simp only [List.get_eq_getElem] at a
  have e0 : ((prods.zipIdx n).map fun x => List.replicate x.1.2.nprods (g x.1 x.2)).getD s [] =
      List.replicate prods[s].2.nprods (g prods[s] (n + s)) := by simp [List.getD_eq_getElem?_getD, hsp]
  rw [e0, List.getD_replicate _ (by rw [a.2.nprods]; exact posF_lt ht)]

/-! ### Hops -/

theorem diffBits_succ (n A B : Nat) : diffBits (n + 1) A B = diffBits n A B + (if A.testBit n ≠ B.testBit n then 1 else 0) := by
  unfold diffBits
  rw [Finset.range_add_one, Finset.filter_insert]
  split_ifs with h
  · rw [Finset.card_insert_of_notMem (by simp)]
  · rfl

theorem diffBits_add (m n A B : Nat) : diffBits (m + n) A B = diffBits m A B + diffBits n (A / 2 ^ m) (B / 2 ^ m) := by
  induction n with
  | zero => simp [diffBits]
  | succ n ih =>
    rw [← Nat.add_assoc, diffBits_succ, diffBits_succ, ih, Nat.testBit_div_two_pow, Nat.testBit_div_two_pow, Nat.add_comm n m]; omega

theorem nOcc_diff (m A B : Nat) : ((nOcc 0 m A : Int) - nOcc 0 m B).natAbs ≤ diffBits m A B := by
  induction m with
  | zero => simp [nOcc_zero_zero]
  | succ m ih =>
    rw [nOcc_succ, nOcc_succ, diffBits_succ]
    cases A.testBit m <;> cases B.testBit m <;> simp <;> omega

theorem occ_dist (ns : List Nat) (A B : Nat) :
    (((fragOcc ns A).zip (fragOcc ns B)).map fun x => ((x.1 : Int) - x.2).natAbs).sum ≤ diffBits ns.sum A B := by
  induction ns generalizing A B with
  | nil => simp [fragOcc]
  | cons m ns ih =>
    rw [fragOcc_cons, fragOcc_cons, List.zip_cons_cons, List.map_cons, List.sum_cons, List.sum_cons, diffBits_add]
    exact Nat.add_le_add (nOcc_diff m A B) (ih _ _)

theorem hops_eq (fs gs : List (Frag K)) : hops fs gs =
    (((fs.map Frag.na).zip (gs.map Frag.na)).map fun x => ((x.1 : Int) - x.2).natAbs).sum +
    (((fs.map Frag.nb).zip (gs.map Frag.nb)).map fun x => ((x.1 : Int) - x.2).natAbs).sum := by
  induction fs generalizing gs with
  | nil => simp [hops]
  | cons f fs ih =>
    cases gs with
    | nil => simp [hops]
    | cons g gs =>
      have := ih gs
      simp only [hops, List.map_cons, List.zip_cons_cons, List.sum_cons] at this ⊢
      rw [this]; omega

theorem state_occ {fs : List (Frag K)} {t : List Nat} {A B : Nat} (h : prodState fs t A B ≠ 0) :
    fragOcc (fs.map Frag.norb) A = fs.map Frag.na ∧ fragOcc (fs.map Frag.norb) B = fs.map Frag.nb := by
  unfold prodState at h
  by_contra hc
  rw [if_neg hc] at h
  exact h rfl

theorem rel_getElem? {spaces : List (List (Frag K))} {prods : List (List (Frag K) × Product K)}
    (h : List.Forall₂ (fun fs x => x.1 = fs ∧ Good fs x.2) spaces prods) (s : Nat) :
    prods[s]?.map Prod.fst = spaces[s]? := by
  induction h generalizing s with
  | nil => rfl
  | cons h _ ih =>
    cases s with
    | zero => simp [h.1]
    | succ s => simpa using ih s

theorem spaceP_pos {spaces : List (List (Frag K))} {prods : List (List (Frag K) × Product K)}
    (h : List.Forall₂ (fun fs x => x.1 = fs ∧ Good fs x.2) spaces prods) {s : Nat} (hs : s < spaces.length) {t : List Nat}
    (ht : InShape t (spaces[s].map Frag.lroots)) : (spaceP prods).getD (pos spaces s t) 0 = s := by
  obtain ⟨x, _, h2⟩ := label_ok (d := 0) h (fun _ i => i) 0 s hs t ht
  rw [Nat.zero_add] at h2
  exact h2

theorem nelecP_pos {spaces : List (List (Frag K))} {prods : List (List (Frag K) × Product K)}
    (h : List.Forall₂ (fun fs x => x.1 = fs ∧ Good fs x.2) spaces prods) {s : Nat} (hs : s < spaces.length) {t : List Nat}
    (ht : InShape t (spaces[s].map Frag.lroots)) :
    (nelecP prods).getD (pos spaces s t) (0, 0) = ((spaces[s].map Frag.na).sum, (spaces[s].map Frag.nb).sum) := by
  obtain ⟨x, h1, h2⟩ := label_ok (d := (0, 0)) h (fun x _ => x.2.nelec) 0 s hs t ht
  have e : nelecP prods = (prods.zipIdx 0).flatMap fun x => List.replicate x.1.2.nprods x.1.2.nelec := by
    unfold nelecP
    conv_lhs => rw [← List.zipIdx_map_fst 0 prods]
    rw [List.flatMap_map]
  have hsp : s < prods.length := by rw [← h.length_eq]; exact hs
  have a := (List.forall₂_iff_get.1 h).2 s hs hsp
  simp only [List.get_eq_getElem] at a
  have ex : x = prods[s] := by
    rw [List.getElem?_eq_getElem hsp] at h1
    exact (Option.some.inj h1).symm
  rw [e, h2, ex, a.2.nelec]

end Verif.Outer

namespace Verif.Props
open Verif.Np Verif.Fockspace Verif.Spec Verif.Spec.Outer Verif.Spec.Fsucc Verif.Spec.Fockspace Verif.Radix Verif.Outer
open scoped BigOperators

variable {K : Type} [CommRing K]

theorem sum_support {N k : Nat} (g : Nat → K) (h : ∀ A, A < 2 ^ N → nOcc 0 N A ≠ k → g A = 0) :
    ∑ A ∈ (strs N k).toFinset, g A = ∑ A ∈ Finset.range (2 ^ N), g A := by
  apply Finset.sum_subset
  · intro A hA
    rw [List.mem_toFinset] at hA
    exact Finset.mem_range.2 (mem_strs.1 hA).1
  · intro A hA hA'
    rw [List.mem_toFinset, mem_strs] at hA'
    rw [Finset.mem_range] at hA
    exact h A hA (fun e => hA' ⟨hA, e⟩)

/-- `get_ovlp`: entry (product `t` of rootspace `s`, product `t'` of rootspace `s'`) is the scalar product of the two
product states, summed over all determinants; whatever the rootspaces, also with different numbers of electrons. -/
theorem C95_overlap_matrix (ns : List Nat) (spaces : List (List (Frag K))) (hw : Wf ns spaces) :
    ∃ M, getOvlp spaces = some M ∧ M.length = (spaces.map fun fs => (fs.map Frag.lroots).prod).sum ∧
      (∀ row ∈ M, row.length = M.length) ∧
      ∀ s (hs : s < spaces.length) t, InShape t (spaces[s].map Frag.lroots) →
      ∀ s' (hs' : s' < spaces.length) t', InShape t' (spaces[s'].map Frag.lroots) →
        (M.getD (pos spaces s t) []).getD (pos spaces s' t') 0 =
          ∑ A ∈ Finset.range (2 ^ ns.sum), ∑ B ∈ Finset.range (2 ^ ns.sum), prodState spaces[s] t A B * prodState spaces[s'] t' A B := by
  obtain ⟨prods, hp, hF⟩ := products_ok hw
  obtain ⟨vs, hv, hvl, hvv⟩ := genAll_ok hF
  obtain ⟨M, hM, hMR⟩ := mapM_rel (l := vs.zipIdx)
    (f := fun x => dotterAll prods (fun v _ => v) false x.1 ((nelecP prods).getD x.2 (0, 0)) (some (x.2, 0)))
    (R := fun x row => row.length = (spaces.map fun fs => (fs.map Frag.lroots).prod).sum ∧
      ∀ s (hs : s < spaces.length) t, InShape t (spaces[s].map Frag.lroots) →
        row.getD (pos spaces s t) 0 =
          entry prods (fun v _ => v) false x.1 ((nelecP prods).getD x.2 (0, 0)) (some (x.2, 0)) spaces[s] t)
    (fun x _ => dotterAll_ok hF _ _ _ _ _)
  have hMl : M.length = vs.length := by rw [← hMR.length_eq, List.length_zipIdx]
  refine ⟨M, ?_, by rw [hMl, hvl], ?_, ?_⟩
  · unfold getOvlp
    rw [hp]
    simp only [Option.bind_eq_bind, Option.bind_some, hv]
    exact hM
  · intro row hrow
    obtain ⟨i, hi, rfl⟩ := List.getElem_of_mem hrow
    rw [hMl, hvl]
    exact ((List.forall₂_iff_get.1 hMR).2 i (by rw [hMR.length_eq]; exact hi) hi).1
  · intro s hs t ht s' hs' t' ht'
    have hlt : pos spaces s t < vs.length := by
      have hlr : ∀ n, n < spaces.length → ((spaces.take n).map fun fs => (fs.map Frag.lroots).prod).sum +
          ((spaces.getD n []).map Frag.lroots).prod ≤ (spaces.map fun fs => (fs.map Frag.lroots).prod).sum := by
        intro n hn
        rw [List.getD_eq_getElem _ _ hn]
        conv_rhs => rw [← List.take_append_drop n spaces, List.drop_eq_getElem_cons hn]
        rw [List.map_append, List.sum_append, List.map_cons, List.sum_cons]; omega
      have := hlr s hs
      have hpl := posF_lt ht
      rw [hvl, pos]
      rw [List.getD_eq_getElem _ _ hs] at this ⊢
      omega
    have hrow := (List.forall₂_iff_get.1 hMR).2 (pos spaces s t) (by rw [List.length_zipIdx]; exact hlt) (by rw [hMl]; exact hlt)
    simp only [List.get_eq_getElem, List.getElem_zipIdx, Nat.zero_add] at hrow
    rw [List.getD_eq_getElem M [] (by rw [hMl]; exact hlt), hrow.2 s' hs' t' ht']
    have hket := hvv s hs t ht
    rw [List.getD_eq_getElem _ _ hlt] at hket
    rw [nelecP_pos hF hs ht]
    have n1 : spaces[s].map Frag.norb = ns := hw.norb _ (List.getElem_mem hs)
    have n2 : spaces[s'].map Frag.norb = ns := hw.norb _ (List.getElem_mem hs')
    rw [n1] at hket
    have occ : ∀ {s : Nat} (hs : s < spaces.length) {t : List Nat} {A B : Nat}, prodState spaces[s] t A B ≠ 0 →
        fragOcc ns A = spaces[s].map Frag.na ∧ fragOcc ns B = spaces[s].map Frag.nb := by
      intro s hs t A B h
      have := state_occ h
      rwa [hw.norb _ (List.getElem_mem hs)] at this
    unfold entry
    rw [n2]
    by_cases hd : dropped prods false ((spaces[s].map Frag.na).sum, (spaces[s].map Frag.nb).sum) (some (pos spaces s t, 0)) spaces[s']
        ((spaces[s'].map Frag.na).sum, (spaces[s'].map Frag.nb).sum)
    · rw [if_pos hd]
      symm
      apply Finset.sum_eq_zero
      intro A _
      apply Finset.sum_eq_zero
      intro B _
      by_contra hne
      have h1 := occ hs (left_ne_zero_of_mul hne)
      have h2 := occ hs' (right_ne_zero_of_mul hne)
      have ea : spaces[s].map Frag.na = spaces[s'].map Frag.na := by rw [← h1.1, h2.1]
      have eb : spaces[s].map Frag.nb = spaces[s'].map Frag.nb := by rw [← h1.2, h2.2]
      unfold dropped at hd
      simp only [Bool.false_eq_true, if_false, ea, eb, ne_eq, not_true, decide_false, Bool.false_or, decide_eq_true_eq] at hd
      rw [spaceP_pos hF hs ht, rel_getElem? hF, List.getElem?_eq_getElem hs, Option.getD_some, hops_eq, ea, eb, ← h2.1, ← h2.2] at hd
      have z : ∀ l : List Nat, ((l.zip l).map fun x => ((x.1 : Int) - x.2).natAbs).sum = 0 := by
        intro l
        induction l with
        | nil => rfl
        | cons a l ih => rw [List.zip_cons_cons, List.map_cons, List.sum_cons, ih]; simp
      rw [z, z] at hd
      omega
    · rw [if_neg hd]
      have hne : ((spaces[s'].map Frag.na).sum, (spaces[s'].map Frag.nb).sum) = ((spaces[s].map Frag.na).sum, (spaces[s].map Frag.nb).sum) := by
        by_contra hne
        apply hd
        unfold dropped
        simp [hne]
      rw [Prod.mk.injEq] at hne
      rw [← sum_support (N := ns.sum) (k := (spaces[s'].map Frag.na).sum)]
      · apply Finset.sum_congr rfl
        intro A hA
        rw [← sum_support (N := ns.sum) (k := (spaces[s'].map Frag.nb).sum)]
        · apply Finset.sum_congr rfl
          intro B hB
          rw [List.mem_toFinset] at hA hB
          dsimp only
          rw [hket A (by rw [← hne.1]; exact hA) B (by rw [← hne.2]; exact hB), mul_comm]
        · intro B _ hB
          by_contra hc
          apply hB
          rw [← sum_fragOcc, (occ hs' (right_ne_zero_of_mul hc)).2]
      · intro A _ hA
        apply Finset.sum_eq_zero
        intro B _
        by_contra hc
        apply hA
        rw [← sum_fragOcc, (occ hs' (right_ne_zero_of_mul hc)).1]

/-- The filter of `dotter` drops nothing: let `ket` be the result of an operator of order `k` acting on a product state of
rootspace `s`, that is, every determinant with a non-zero coefficient differs in at most `2 k` spin-orbitals from a determinant
with the electron numbers of that rootspace. Then the projections with the filter are the projections without it. This holds both
for vectors of one number of electrons of each spin and for vectors in the spinless representation. -/
theorem C95_filter_exact {V : Type} (ns : List Nat) (spaces : List (List (Frag K))) (hw : Wf ns spaces)
    (conv : V → Nat × Nat → Nat → Nat → K) (spinless : Bool) (ket : V) (nelecKet : Nat × Nat) (k : Nat) (s : Nat) (hs : s < spaces.length)
    (t : List Nat) (ht : InShape t (spaces[s].map Frag.lroots))
    (hk : ∀ na nb A B, A ∈ strs ns.sum na → B ∈ strs ns.sum nb → conv ket (na, nb) (addrOf ns.sum A) (addrOf ns.sum B) ≠ 0 →
      ∃ A' B', fragOcc ns A' = spaces[s].map Frag.na ∧ fragOcc ns B' = spaces[s].map Frag.nb ∧
        diffBits ns.sum A A' + diffBits ns.sum B B' ≤ 2 * k) :
    ∃ prods vs vs', products spaces = some prods ∧
      dotterAll prods conv spinless ket nelecKet (some (pos spaces s t, k)) = some vs ∧
      dotterAll prods conv spinless ket nelecKet none = some vs' ∧ vs.length = vs'.length ∧
      ∀ s' (hs' : s' < spaces.length) t', InShape t' (spaces[s'].map Frag.lroots) →
        vs.getD (pos spaces s' t') 0 = vs'.getD (pos spaces s' t') 0 := by
  obtain ⟨prods, hp, hF⟩ := products_ok hw
  obtain ⟨vs, hv, hvl, hvv⟩ := dotterAll_ok hF conv spinless ket nelecKet (some (pos spaces s t, k))
  obtain ⟨vs', hv', hvl', hvv'⟩ := dotterAll_ok hF conv spinless ket nelecKet none
  refine ⟨prods, vs, vs', hp, hv, hv', by rw [hvl, hvl'], ?_⟩
  intro s' hs' t' ht'
  rw [hvv s' hs' t' ht', hvv' s' hs' t' ht']
  have n2 : spaces[s'].map Frag.norb = ns := hw.norb _ (List.getElem_mem hs')
  unfold entry
  rw [n2]
  by_cases h1 : dropped prods spinless nelecKet none spaces[s'] ((spaces[s'].map Frag.na).sum, (spaces[s'].map Frag.nb).sum)
  · rw [if_pos h1, if_pos]
    unfold dropped at h1 ⊢
    rw [Bool.or_eq_true] at h1 ⊢
    exact Or.inl (h1.resolve_right (by simp))
  · rw [if_neg h1]
    split_ifs with h2
    · symm
      apply Finset.sum_eq_zero
      intro A hA
      apply Finset.sum_eq_zero
      intro B hB
      rw [List.mem_toFinset] at hA hB
      by_contra hne
      obtain ⟨A', B', ha, hb, hd⟩ := hk _ _ A B hA hB (right_ne_zero_of_mul hne)
      have ho := state_occ (left_ne_zero_of_mul hne)
      rw [n2] at ho
      have h3 : hops spaces[s'] spaces[s] > 2 * k := by
        unfold dropped at h1 h2
        rw [Bool.or_eq_true] at h1 h2
        have := h2.resolve_left (fun h => h1 (Or.inl h))
        simp only [decide_eq_true_eq] at this
        rwa [spaceP_pos hF hs ht, rel_getElem? hF, List.getElem?_eq_getElem hs, Option.getD_some] at this
      rw [hops_eq, ← ho.1, ← ho.2, ← ha, ← hb] at h3
      have := occ_dist ns A A'
      have := occ_dist ns B B'
      omega
    · rfl

/-- The hypotheses of `C95_overlap_matrix` and `C95_filter_exact` are met by two rootspaces of two fragments that are related by the
hop of a spin-up electron; a hop changes two orbitals. -/
example : Wf [2, 2] [exFrags, [⟨2, 0, 0, ⟨[1, 1], fun _ => (1 : ℤ)⟩⟩, ⟨2, 2, 1, ⟨[1, 2], fun _ => 1⟩⟩]] ∧
    hops exFrags [⟨2, 0, 0, ⟨[1, 1], fun _ => (1 : ℤ)⟩⟩, ⟨2, 2, 1, ⟨[1, 2], fun _ => 1⟩⟩] = 2 ∧ diffBits 4 9 12 = 2 := by
  refine ⟨⟨by decide, ?_, ?_⟩, by decide, by decide⟩
  · intro fs hfs
    simp only [List.mem_cons, List.not_mem_nil, or_false] at hfs
    rcases hfs with rfl | rfl <;> rfl
  · intro fs hfs f hf
    simp only [List.mem_cons, List.not_mem_nil, or_false] at hfs
    rcases hfs with rfl | rfl
    · simp only [exFrags, List.mem_cons, List.not_mem_nil, or_false] at hf
      rcases hf with rfl | rfl
      · exact ⟨by decide, by decide, Or.inr ⟨2, by decide⟩⟩
      · exact ⟨by decide, by decide, Or.inl (by decide)⟩
    · simp only [List.mem_cons, List.not_mem_nil, or_false] at hf
      rcases hf with rfl | rfl
      · exact ⟨by decide, by decide, Or.inl (by decide)⟩
      · exact ⟨by decide, by decide, Or.inl (by decide)⟩

end Verif.Props
