import Verif.Lemmas.LassisBase
/-!
# LASSIS: products of hops and spin flips
-/
namespace Verif.Lassis
open Verif.Spaces Verif.Spaces.Space Verif.Spec Verif.Props

/-! ### The sorted record -/

theorem tupLe_total (a b : List Nat) : (tupLe a b || tupLe b a) = true := by
  induction a generalizing b with
  | nil => simp [tupLe]
  | cons x xs ih =>
    cases b with
    | nil => simp [tupLe]
    | cons y ys =>
      have := ih ys
      simp only [tupLe]
      split
      · simp
      · split
        · simp
        · simpa using this

theorem tupLe_trans (a b c : List Nat) : tupLe a b = true → tupLe b c = true → tupLe a c = true := by
  induction a generalizing b c with
  | nil => simp [tupLe]
  | cons x xs ih =>
    cases b with
    | nil => simp [tupLe]
    | cons y ys =>
      cases c with
      | nil => simp [tupLe]
      | cons z zs =>
        have := ih ys zs
        simp only [tupLe]
        grind

theorem tupLe_antisymm (a b : List Nat) : tupLe a b = true → tupLe b a = true → a = b := by
  induction a generalizing b with
  | nil => cases b <;> simp [tupLe]
  | cons x xs ih =>
    cases b with
    | nil => simp [tupLe]
    | cons y ys =>
      have := ih ys
      simp only [tupLe]
      grind

theorem mergeSort_eq_of_perm {l l' : List (List Nat)} (h : l.Perm l') : l.mergeSort tupLe = l'.mergeSort tupLe := by
  have p : (l.mergeSort tupLe).Perm (l'.mergeSort tupLe) :=
    ((List.mergeSort_perm l tupLe).trans h).trans (List.mergeSort_perm l' tupLe).symm
  refine p.eq_of_pairwise (le := fun a b => tupLe a b = true) (fun a b _ _ => tupLe_antisymm a b) ?_ ?_
  · exact List.pairwise_mergeSort (fun a b c => tupLe_trans a b c) tupLe_total l
  · exact List.pairwise_mergeSort (fun a b c => tupLe_trans a b c) tupLe_total l'

/-- The pair of fragments a hop links, as recorded. -/
def pairOf (so : List Nat → List Nat) (x : ElHop) : List Nat := so [min x.src x.dst, max x.src x.dst]

theorem hopRecord_perm (so : List Nat → List Nat) {xs ys : List ElHop} (h : xs.Perm ys) : hopRecord so xs = hopRecord so ys :=
  mergeSort_eq_of_perm (h.map _)

theorem hopRecord_append (so : List Nat → List Nat) (xs ys : List ElHop) :
    (hopRecord so xs ++ hopRecord so ys).mergeSort tupLe = hopRecord so (xs ++ ys) := by
  apply mergeSort_eq_of_perm
  rw [List.map_append]
  exact (List.mergeSort_perm _ _).append (List.mergeSort_perm _ _)

theorem mem_hopRecord (so : List Nat → List Nat) (xs : List ElHop) (t : List Nat) :
    t ∈ hopRecord so xs ↔ ∃ x ∈ xs, pairOf so x = t := by
  unfold hopRecord
  rw [(List.mergeSort_perm _ _).mem_iff, List.mem_map]
  rfl

theorem hopRecord_single (so : List Nat → List Nat) (x : ElHop) : hopRecord so [x] = [pairOf so x] := by
  simp [hopRecord, pairOf, List.mergeSort]

theorem hopRecord_length (so : List Nat → List Nat) (xs : List ElHop) : (hopRecord so xs).length = xs.length := by
  simp [hopRecord]

theorem pairOf_perm {so : List Nat → List Nat} {n : Nat} (ho : PairOrder so n) {x : ElHop} (h1 : x.src < n) (h2 : x.dst < n)
    (hne : x.src ≠ x.dst) : (pairOf so x).Perm [min x.src x.dst, max x.src x.dst] := by
  unfold pairOf
  exact ho _ _ (by omega) (by omega)

theorem mem_pairOf {so : List Nat → List Nat} {n : Nat} (ho : PairOrder so n) {x : ElHop} (h1 : x.src < n) (h2 : x.dst < n)
    (hne : x.src ≠ x.dst) (k : Nat) :
    k ∈ pairOf so x ↔ k = x.src ∨ k = x.dst := by
  rw [(pairOf_perm ho h1 h2 hne).mem_iff]
  simp only [List.mem_cons, List.not_mem_nil, or_false]
  omega

/-! ### Touched fragments -/

theorem mem_touched (hops : List ElHop) (flips : List (Nat × Nat)) (k : Nat) :
    k ∈ touched hops flips ↔ (∃ x ∈ hops, k = x.src ∨ k = x.dst) ∨ ∃ y ∈ flips, k = y.1 := by
  unfold touched
  simp only [List.mem_append, List.mem_flatMap, List.mem_cons, List.not_mem_nil, or_false, List.mem_map]
  constructor
  · rintro (h | ⟨y, hy, rfl⟩)
    · exact Or.inl h
    · exact Or.inr ⟨y, hy, rfl⟩
  · rintro (h | ⟨y, hy, rfl⟩)
    · exact Or.inl h
    · exact Or.inr ⟨y, hy, rfl⟩

theorem touched_perm {xs xs' : List ElHop} {ys ys' : List (Nat × Nat)} (h : xs.Perm xs') (h' : ys.Perm ys') :
    (touched xs ys).Perm (touched xs' ys') := by
  unfold touched
  exact (h.flatMap_right _).append (h'.map _)

theorem _root_.Verif.Spec.IsProduct.perm {so : List Nat → List Nat} {ref t : Space} {xs xs' : List ElHop} {ys ys' : List (Nat × Nat)}
    (h : xs.Perm xs') (h' : ys.Perm ys') (hp : IsProduct so ref xs ys t) : IsProduct so ref xs' ys' t where
  fits := hp.fits
  once := (touched_perm h h').nodup_iff.mp hp.once
  source x hx := hp.source x (h.mem_iff.mpr hx)
  dest x hx := hp.dest x (h.mem_iff.mpr hx)
  flipped y hy := hp.flipped y (h'.mem_iff.mpr hy)
  rest k hk := hp.rest k (fun hc => hk ((touched_perm h h').mem_iff.mp hc))
  total := hp.total
  pairs := by rw [hp.pairs, hopRecord_perm so h]

theorem el_oob {l : List Int} {k : Nat} (h : l.length ≤ k) : el l k = 0 := by
  simp [el, List.getD_eq_getElem?_getD, List.getElem?_eq_none h]

theorem same_el {a b ref : Space} (ha : Fits a ref) (hb : Fits b ref) (h : SameNumbers a b) (k : Nat) :
    el a.spins k = el b.spins k ∧ el a.smults k = el b.smults k ∧ el a.charges k = el b.charges k := by
  have la := fits_len ha
  have lb := fits_len hb
  by_cases hk : k < a.nfrag
  · exact h.2 k hk
  · rw [ha.nfrag] at hk
    push Not at hk
    refine ⟨?_, ?_, ?_⟩ <;> rw [el_oob, el_oob] <;> omega

theorem same_lists {a b ref : Space} (ha : Fits a ref) (hb : Fits b ref) (h : SameNumbers a b) :
    a.spins = b.spins ∧ a.smults = b.smults ∧ a.charges = b.charges := by
  have la := fits_len ha
  have lb := fits_len hb
  exact ⟨ext_el (by omega) fun k _ => (same_el ha hb h k).1, ext_el (by omega) fun k _ => (same_el ha hb h k).2.1,
    ext_el (by omega) fun k _ => (same_el ha hb h k).2.2⟩

/-- Being a product depends on the quantum numbers and the record only. -/
theorem _root_.Verif.Spec.IsProduct.congr {so : List Nat → List Nat} {ref a b : Space} {xs : List ElHop} {ys : List (Nat × Nat)}
    (hp : IsProduct so ref xs ys a) (hb : Fits b ref) (h : SameRoot a b) : IsProduct so ref xs ys b := by
  obtain ⟨h1, h2, h3⟩ := same_lists hp.fits hb h.1
  refine ⟨hb, hp.once, ?_, ?_, ?_, ?_, ?_, ?_⟩
  · intro x hx; rw [← h3, ← h2]; exact hp.source x hx
  · intro x hx; rw [← h3, ← h2]; exact hp.dest x hx
  · intro x hx; rw [← h3, ← h2]; exact hp.flipped x hx
  · intro k hk; unfold SameFragNoM; rw [← h3, ← h2]; exact hp.rest k hk
  · unfold totalSpin; rw [← h1]; exact hp.total
  · rw [← h.2]; exact hp.pairs

/-! ### A product determines its hops and flips -/

theorem hop_of_charge_up {so : List Nat → List Nat} {ref t : Space} {xs : List ElHop} {ys : List (Nat × Nat)}
    (hp : IsProduct so ref xs ys t) {k : Nat} (h : el t.charges k = el ref.charges k + 1) : ∃ x ∈ xs, x.src = k := by
  by_cases ht : k ∈ touched xs ys
  · rcases (mem_touched _ _ _).mp ht with ⟨x, hx, rfl | rfl⟩ | ⟨y, hy, rfl⟩
    · exact ⟨x, hx, rfl⟩
    · have := (hp.dest x hx).1; omega
    · have := (hp.flipped y hy).1; omega
  · have := (hp.rest k ht).1; omega

theorem hop_of_charge_down {so : List Nat → List Nat} {ref t : Space} {xs : List ElHop} {ys : List (Nat × Nat)}
    (hp : IsProduct so ref xs ys t) {k : Nat} (h : el t.charges k = el ref.charges k - 1) : ∃ x ∈ xs, x.dst = k := by
  by_cases ht : k ∈ touched xs ys
  · rcases (mem_touched _ _ _).mp ht with ⟨x, hx, rfl | rfl⟩ | ⟨y, hy, rfl⟩
    · have := (hp.source x hx).1; omega
    · exact ⟨x, hx, rfl⟩
    · have := (hp.flipped y hy).1; omega
  · have := (hp.rest k ht).1; omega

theorem hop_ext {x y : ElHop} (h1 : x.src = y.src) (h2 : x.dst = y.dst) (h3 : x.dSrc = y.dSrc) (h4 : x.dDst = y.dDst)
    (h5 : x.s < 4) (h6 : y.s < 4) : x = y := by
  obtain ⟨i, a, s⟩ := x
  obtain ⟨i', a', s'⟩ := y
  simp only at h1 h2 h5 h6
  subst h1 h2
  unfold ElHop.dSrc at h3
  unfold ElHop.dDst at h4
  simp only at h3 h4
  have : s = s' := by
    split at h3 <;> split at h3 <;> split at h4 <;> split at h4 <;> first | omega | (exfalso; simp at h3) | (exfalso; simp at h4)
  rw [this]

/-- A hop between two of the fragments. -/
def Ranged (ref : Space) (x : ElHop) : Prop := x.src < ref.nfrag ∧ x.dst < ref.nfrag ∧ x.s < 4

theorem _root_.Verif.Spec.HasHop.ranged {ch : Nat → Nat → Nat → Bool} {ref : Space} {x : ElHop} (h : HasHop ch ref x) :
    Ranged ref x := ⟨h.1, h.2.1, h.2.2.1⟩

theorem touched_ne {xs : List ElHop} {ys : List (Nat × Nat)} (hp : (touched xs ys).Nodup) {x : ElHop} (hx : x ∈ xs) :
    x.src ≠ x.dst := by
  unfold touched at hp
  have := (List.nodup_flatMap.mp (List.nodup_append.mp hp).1).1 x hx
  simpa using this

theorem hop_mem_of_same {so : List Nat → List Nat} {ref a b : Space} (ho : PairOrder so ref.nfrag) {xs xs' : List ElHop}
    {ys ys' : List (Nat × Nat)} (hp : IsProduct so ref xs ys a) (hq : IsProduct so ref xs' ys' b)
    (hx : ∀ x ∈ xs, Ranged ref x) (hx' : ∀ x ∈ xs', Ranged ref x) (h : SameRoot a b) : ∀ x ∈ xs, x ∈ xs' := by
  intro x hm
  have hs := same_el hp.fits hq.fits h.1
  have hr : pairOf so x ∈ hopRecord so xs' := by
    rw [← hq.pairs, ← h.2, hp.pairs, mem_hopRecord]; exact ⟨x, hm, rfl⟩
  obtain ⟨x', hm', he⟩ := (mem_hopRecord _ _ _).mp hr
  have e : ∀ k, (k = x'.src ∨ k = x'.dst) ↔ (k = x.src ∨ k = x.dst) := by
    intro k
    rw [← mem_pairOf ho (hx' x' hm').1 (hx' x' hm').2.1 (touched_ne hq.once hm') k,
      ← mem_pairOf ho (hx x hm).1 (hx x hm).2.1 (touched_ne hp.once hm) k, he]
  obtain ⟨s1, s2⟩ := hp.source x hm
  obtain ⟨d1, d2⟩ := hp.dest x hm
  obtain ⟨s1', s2'⟩ := hq.source x' hm'
  obtain ⟨d1', d2'⟩ := hq.dest x' hm'
  rw [(hs _).2.2] at s1 d1
  rw [(hs _).2.1] at s2 d2
  have a1 := (e x'.src).mp (Or.inl rfl)
  have a2 := (e x'.dst).mp (Or.inr rfl)
  have b1 : x'.src = x.src := by
    rcases a1 with h | h
    · exact h
    · rw [h] at s1'; omega
  have b2 : x'.dst = x.dst := by
    rcases a2 with h | h
    · rw [h] at d1'; omega
    · exact h
  rw [b1] at s2'
  rw [b2] at d2'
  have : x = x' := hop_ext b1.symm b2.symm (by omega) (by omega) (hx x hm).2.2 (hx' x' hm').2.2
  rw [this]; exact hm'

theorem flipBy_inj {d d' : Nat} (h : d < 2) (h' : d' < 2) (he : flipBy d = flipBy d') : d = d' := by
  unfold flipBy at he
  split at he <;> split at he <;> first | omega | (exfalso; simp at he)

theorem flipBy_ne (d : Nat) : flipBy d = 2 ∨ flipBy d = -2 := by unfold flipBy; split <;> simp

theorem flip_mem_of_same {so : List Nat → List Nat} {ref a b : Space} {xs xs' : List ElHop}
    {ys ys' : List (Nat × Nat)} (hp : IsProduct so ref xs ys a) (hq : IsProduct so ref xs' ys' b)
    (hy : ∀ y ∈ ys, y.2 < 2) (hy' : ∀ y ∈ ys', y.2 < 2) (h : SameRoot a b) : ∀ y ∈ ys, y ∈ ys' := by
  intro y hm
  have hs := same_el hp.fits hq.fits h.1
  obtain ⟨s1, s2⟩ := hp.flipped y hm
  rw [(hs _).2.2] at s1
  rw [(hs _).2.1] at s2
  have hne := flipBy_ne y.2
  by_cases ht : y.1 ∈ touched xs' ys'
  · rcases (mem_touched _ _ _).mp ht with ⟨x, hx, h | h⟩ | ⟨y', hm', h⟩
    · have := (hq.source x hx).1; rw [← h] at this; omega
    · have := (hq.dest x hx).1; rw [← h] at this; omega
    · have := (hq.flipped y' hm').2
      rw [← h] at this
      have e2 := flipBy_inj (hy y hm) (hy' y' hm') (by omega)
      rw [show y = y' from Prod.ext h e2]
      exact hm'
  · have := (hq.rest _ ht).2; omega

theorem hops_nodup {hops : List ElHop} {flips : List (Nat × Nat)} (h : (touched hops flips).Nodup) : hops.Nodup := by
  unfold touched at h
  replace h := (List.nodup_append.mp h).1
  induction hops with
  | nil => exact List.nodup_nil
  | cons x xs ih =>
    simp only [List.flatMap_cons, List.cons_append, List.nil_append] at h
    refine List.nodup_cons.mpr ⟨fun hx => ?_, ih (List.nodup_cons.mp (List.nodup_cons.mp h).2).2⟩
    refine (List.nodup_cons.mp h).1 (List.mem_cons_of_mem _ (List.mem_flatMap.mpr ⟨x, hx, by simp⟩))

theorem flips_nodup {hops : List ElHop} {flips : List (Nat × Nat)} (h : (touched hops flips).Nodup) : flips.Nodup :=
  (List.nodup_append.mp h).2.1.of_map _

/-- Two products with the same quantum numbers and record come from the same hops and flips. -/
theorem product_inj {so : List Nat → List Nat} {ref a b : Space} (ho : PairOrder so ref.nfrag) {xs xs' : List ElHop}
    {ys ys' : List (Nat × Nat)} (hp : IsProduct so ref xs ys a) (hq : IsProduct so ref xs' ys' b)
    (hx : ∀ x ∈ xs, Ranged ref x) (hx' : ∀ x ∈ xs', Ranged ref x) (hy : ∀ y ∈ ys, y.2 < 2) (hy' : ∀ y ∈ ys', y.2 < 2)
    (h : SameRoot a b) : xs.Perm xs' ∧ ys.Perm ys' := by
  have h' : SameRoot b a := ⟨sameNumbers_symm h.1, h.2.symm⟩
  exact ⟨(List.perm_ext_iff_of_nodup (hops_nodup hp.once) (hops_nodup hq.once)).mpr fun x =>
      ⟨hop_mem_of_same ho hp hq hx hx' h x, hop_mem_of_same ho hq hp hx' hx h' x⟩,
    (List.perm_ext_iff_of_nodup (flips_nodup hp.once) (flips_nodup hq.once)).mpr fun y =>
      ⟨flip_mem_of_same hp hq hy hy' h y, flip_mem_of_same hq hp hy' hy h' y⟩⟩

/-! ### One hop -/

theorem bind_ok {α β : Type} {r : Except Err α} {g : α → Except Err β} {b : β} (h : (r >>= g) = .ok b) :
    ∃ a, r = .ok a ∧ g a = .ok b := by
  cases r with
  | error e => simp [bind, Except.bind] at h
  | ok a => exact ⟨a, rfl, h⟩

theorem anyM_entmap (f : NCsf) (so : List Nat → List Nat) (sp new : Space) (i a : Nat) (si sa : Int)
    (h : sp.getSingleAnyM f so i a si sa = .ok new) : new.entmap = [so (new.excitedWhere sp true)] := by
  unfold Space.getSingleAnyM at h
  simp only [] at h
  have fin : ∀ n0 : Space, (pure (n0.setEntmap so sp true) : Except Err Space) = .ok new →
      new.entmap = [so (new.excitedWhere sp true)] := by
    intro n0 h
    simp only [pure, Except.pure, Except.ok.injEq] at h
    subst h
    rfl
  split at h
  · obtain ⟨n0, -, h⟩ := bind_ok h
    exact fin n0 h
  split at h
  · obtain ⟨n0, -, h⟩ := bind_ok h
    exact fin n0 h
  split at h
  · obtain ⟨p, -, h⟩ := bind_ok h
    obtain ⟨mid, -, h⟩ := bind_ok h
    obtain ⟨n0, -, h⟩ := bind_ok h
    exact fin n0 h
  split at h
  · obtain ⟨p, -, h⟩ := bind_ok h
    obtain ⟨mid, -, h⟩ := bind_ok h
    obtain ⟨n0, -, h⟩ := bind_ok h
    exact fin n0 h
  · obtain ⟨n0, h1, h⟩ := bind_ok h
    exact fin n0 h

theorem filter_pair (n i a : Nat) (hi : i < n) (ha : a < n) (hia : i ≠ a) (p : Nat → Bool)
    (hp : ∀ k, k < n → (p k = true ↔ k = i ∨ k = a)) : (List.range n).filter p = [min i a, max i a] := by
  have hperm : ((List.range n).filter p).Perm [min i a, max i a] := by
    rw [List.perm_ext_iff_of_nodup (List.nodup_range.filter _) (by simp; omega)]
    intro k
    simp only [List.mem_filter, List.mem_range, List.mem_cons, List.not_mem_nil, or_false]
    constructor
    · rintro ⟨hk, h⟩
      have := (hp k hk).mp h
      omega
    · intro h
      have hk : k < n := by omega
      exact ⟨hk, (hp k hk).mpr (by omega)⟩
  refine hperm.eq_of_pairwise (le := fun a b => a < b) (fun a b _ _ h h' => by omega) ?_ ?_
  · exact List.pairwise_lt_range.sublist List.filter_sublist
  · simp; omega

theorem hop_isProduct (f : NCsf) (hf : CsfCounts f) (so : List Nat → List Nat) (ref : Space) (hr : Fits ref ref)
    (x : ElHop) (h4 : x.s < 4) (hx : x.src < ref.nfrag) (hy : x.dst < ref.nfrag) (hne : x.src ≠ x.dst) (new : Space)
    (h : ref.getSingleAnyM f so x.src x.dst (dsi x.s) (dsa x.s) = .ok new) : IsProduct so ref [x] [] new := by
  have hent := anyM_entmap f so ref new _ _ _ _ h
  have hA := C21_any_m f hf so ref new hr.shaped hr.ok x.src x.dst hx hy hne _ _ h
  rw [dsi_eq x h4, dsa_eq x h4] at hA
  have hn : new.nfrag = ref.nfrag := by unfold Space.nfrag; rw [hA.orbs.1]
  have hfit : Fits new ref := ⟨hA.orbs.2.2, hA.orbs.1, hA.orbs.2.1, fun k hk => hA.ok k (by rw [← hn]; exact hk)⟩
  refine ⟨hfit, by rw [touched_single]; simp [hne], ?_, ?_, by simp, ?_, hA.spin, ?_⟩
  · intro z hz
    rw [List.mem_singleton.mp hz]
    exact ⟨hA.moved.1, hA.mult.1⟩
  · intro z hz
    rw [List.mem_singleton.mp hz]
    exact ⟨hA.moved.2, hA.mult.2⟩
  · intro k hk
    rw [touched_single] at hk
    simp only [List.mem_cons, List.not_mem_nil, or_false, not_or] at hk
    exact hA.others k hk.1 hk.2
  · rw [hent, hopRecord_single]
    unfold pairOf Space.excitedWhere
    rw [hn, filter_pair ref.nfrag x.src x.dst hx hy hne]
    intro k hk
    have := excited_iff hfit hr true k hk
    rw [← Bool.not_eq_false, this]
    simp only [Unchanged, if_true]
    constructor
    · intro hc
      by_contra hd
      push Not at hd
      exact hc (hA.others k hd.1 hd.2)
    · rintro (rfl | rfl) hc
      · have := hA.moved.1; have := hc.1; omega
      · have := hA.moved.2; have := hc.1; omega

/-! ### Combining -/

theorem combine_entmap {e1 e2 ref p : Space} {m : Bool} (h : combineOrthogonal e1 e2 ref m = .ok p) :
    p.entmap = (e1.entmap ++ e2.entmap).mergeSort tupLe := by
  unfold combineOrthogonal at h
  simp only [] at h
  split at h
  · obtain ⟨v, -, h⟩ := bind_ok h
    obtain ⟨u, -, h⟩ := bind_ok h
    obtain ⟨u, -, h⟩ := bind_ok h
    obtain ⟨u, -, h⟩ := bind_ok h
    obtain ⟨u, -, h⟩ := bind_ok h
    obtain ⟨w, -, h⟩ := bind_ok h
    simp only [pure, Except.pure, Except.ok.injEq] at h
    subst h
    rfl
  · obtain ⟨u, -, h⟩ := bind_ok h
    obtain ⟨w, -, h⟩ := bind_ok h
    simp only [pure, Except.pure, Except.ok.injEq] at h
    subst h
    rfl

theorem unchanged_iff {so : List Nat → List Nat} {ref t : Space} {xs : List ElHop} (hp : IsProduct so ref xs [] t) (k : Nat) :
    Unchanged true t ref k ↔ k ∉ touched xs [] := by
  simp only [Unchanged, if_true]
  constructor
  · intro hc ht
    rcases (mem_touched _ _ _).mp ht with ⟨x, hx, rfl | rfl⟩ | ⟨y, hy, rfl⟩
    · have := (hp.source x hx).1; have := hc.1; omega
    · have := (hp.dest x hx).1; have := hc.1; omega
    · simp at hy
  · exact hp.rest k

theorem touched_append (xs ys : List ElHop) : touched (xs ++ ys) [] = touched xs [] ++ touched ys [] := by
  simp [touched]

/-- Combining a product with one more hop elsewhere. -/
theorem combine_product {so : List Nat → List Nat} {ref p q t : Space} (ho : PairOrder so ref.nfrag) {xs : List ElHop} {x : ElHop}
    (hr : Fits ref ref) (h0 : xs ≠ []) (hb : ∀ k ∈ touched xs [], k < ref.nfrag) (hx : x.src < ref.nfrag) (hx' : x.dst < ref.nfrag)
    (hp : IsProduct so ref xs [] p) (hq : IsProduct so ref [x] [] q) (ht : IsProduct so ref (xs ++ [x]) [] t) :
    orthogonalExcitations p q ref true = true ∧
    ∃ r, combineOrthogonal p q ref true = .ok r ∧ IsProduct so ref (xs ++ [x]) [] r := by
  have honce := ht.once
  rw [touched_append, List.nodup_append] at honce
  have disj : ∀ k, k ∉ touched xs [] ∨ k ∉ touched [x] [] := by
    intro k
    by_contra hc
    push Not at hc
    exact honce.2.2 k hc.1 k hc.2 rfl
  have hun := unchanged_iff hp
  have hun' := unchanged_iff hq
  constructor
  · rw [C30_orthogonal p q ref hp.fits hq.fits hr]
    refine ⟨?_, ⟨x.src, hx, ?_⟩, ?_⟩
    · obtain ⟨z, zs, rfl⟩ := List.exists_cons_of_ne_nil h0
      have hm : z.src ∈ touched (z :: zs) [] := (mem_touched _ _ _).mpr (Or.inl ⟨z, by simp, Or.inl rfl⟩)
      refine ⟨z.src, hb _ hm, ?_⟩
      rw [hun]; exact not_not.mpr hm
    · rw [hun']; simp [touched_single]
    · intro i hi
      rw [hun, hun']; exact disj i
  · have hbd : ∀ z ∈ xs, z.src < ref.nfrag ∧ z.dst < ref.nfrag := fun z hz =>
      ⟨hb _ ((mem_touched _ _ _).mpr (Or.inl ⟨z, hz, Or.inl rfl⟩)), hb _ ((mem_touched _ _ _).mpr (Or.inl ⟨z, hz, Or.inr rfl⟩))⟩
    have hbx : ∀ z ∈ [x], z.src < ref.nfrag ∧ z.dst < ref.nfrag := by simpa using ⟨hx, hx'⟩
    have hent : (p.entmap ++ q.entmap).Nodup := by
      rw [hp.pairs, hq.pairs, List.nodup_append]
      have key : ∀ ys : List ElHop, (∀ z ∈ ys, z.src < ref.nfrag ∧ z.dst < ref.nfrag) → (touched ys []).Nodup →
          (hopRecord so ys).Nodup := by
        intro ys hys hy
        unfold hopRecord
        rw [(List.mergeSort_perm _ _).nodup_iff]
        refine (hops_nodup hy).map_on ?_
        intro z hz w hw he
        have e : ∀ k, (k = z.src ∨ k = z.dst) ↔ (k = w.src ∨ k = w.dst) := by
          intro k
          rw [← mem_pairOf ho (hys z hz).1 (hys z hz).2 (touched_ne hy hz) k,
            ← mem_pairOf ho (hys w hw).1 (hys w hw).2 (touched_ne hy hw) k, show pairOf so z = pairOf so w from he]
        by_contra hne
        unfold touched at hy
        simp only [List.map_nil, List.append_nil] at hy
        rw [List.nodup_flatMap] at hy
        have hd : ∀ z ∈ ys, ∀ w ∈ ys, z ≠ w → List.Disjoint [z.src, z.dst] [w.src, w.dst] := by
          intro z hz w hw hzw
          haveI : Std.Symm (Function.onFun List.Disjoint fun x : ElHop => [x.src, x.dst]) := ⟨fun a b h => h.symm⟩
          exact hy.2.forall hz hw hzw
        have := hd z hz w hw hne
        rcases (e z.src).mp (Or.inl rfl) with h | h
        · exact this (a := z.src) (by simp) (by simp [h])
        · exact this (a := z.src) (by simp) (by simp [h])
      refine ⟨key _ hbd honce.1, key _ hbx honce.2.1, ?_⟩
      rintro u hu v hv rfl
      obtain ⟨z, hz, e1⟩ := (mem_hopRecord _ _ _).mp hu
      obtain ⟨w, hw, e2⟩ := (mem_hopRecord _ _ _).mp hv
      have hzu : z.src ∈ u := by rw [← e1, mem_pairOf ho (hbd z hz).1 (hbd z hz).2 (touched_ne hp.once hz)]; exact Or.inl rfl
      have hzw := hzu
      rw [← e2, mem_pairOf ho (hbx w hw).1 (hbx w hw).2 (touched_ne hq.once hw)] at hzw
      rcases disj z.src with h | h
      · exact h ((mem_touched _ _ _).mpr (Or.inl ⟨z, hz, Or.inl rfl⟩))
      · exact h ((mem_touched _ _ _).mpr (Or.inl ⟨w, hw, hzw⟩))
    -- values of the product
    have tval : ∀ k, (Unchanged true q ref k → SameFragNoM t p k) ∧ (¬ Unchanged true q ref k → SameFragNoM t q k) := by
      intro k
      constructor
      · intro hu
        rw [hun'] at hu
        by_cases hk : k ∈ touched xs []
        · rcases (mem_touched _ _ _).mp hk with ⟨z, hz, rfl | rfl⟩ | ⟨y, hy, -⟩
          · have a := ht.source z (List.mem_append_left _ hz)
            have b := hp.source z hz
            exact ⟨a.1.trans b.1.symm, a.2.trans b.2.symm⟩
          · have a := ht.dest z (List.mem_append_left _ hz)
            have b := hp.dest z hz
            exact ⟨a.1.trans b.1.symm, a.2.trans b.2.symm⟩
          · simp at hy
        · have a := ht.rest k (by rw [touched_append, List.mem_append]; tauto)
          have b := hp.rest k hk
          exact ⟨a.1.trans b.1.symm, a.2.trans b.2.symm⟩
      · intro hu
        rw [hun', not_not, touched_single] at hu
        simp only [List.mem_cons, List.not_mem_nil, or_false] at hu
        rcases hu with rfl | rfl
        · have a := ht.source x (by simp)
          have b := hq.source x (by simp)
          exact ⟨a.1.trans b.1.symm, a.2.trans b.2.symm⟩
        · have a := ht.dest x (by simp)
          have b := hq.dest x (by simp)
          exact ⟨a.1.trans b.1.symm, a.2.trans b.2.symm⟩
    have hPM : ProductMults p q ref t.smults :=
      ⟨(fits_len ht.fits).1, fun i _ => ⟨fun h => ((tval i).1 h).2, fun h => ((tval i).2 h).2⟩⟩
    have hw : ∃ w, SpinVec (t.smults.map (· - 1)) (totalSpin ref) w := by
      refine ⟨t.spins, ?_⟩
      rw [← ht.total]; exact fits_spinVec ht.fits
    obtain ⟨r, hc, hs, hv⟩ := (C30_flexible p q ref hp.fits hq.fits hr hent t.smults hPM).mp hw
    refine ⟨r, hc, ?_⟩
    obtain ⟨c1, c2, c3, c4, -, -, -⟩ := combine_fields hc
    have hch : r.charges = t.charges := by
      apply ext_el
      · rw [c4, maskedCopy_length, (fits_len ht.fits).2.2]
      · intro k hk
        rw [c4, maskedCopy_length] at hk
        rw [c4, maskedCopy_el _ _ _ _ _ hk]
        have := excited_iff hq.fits hr true k hk
        split
        · rename_i he
          exact ((tval k).2 (fun hu => by rw [← this] at hu; rw [hu] at he; simp at he)).1.symm
        · rename_i he
          exact ((tval k).1 (this.mp (by simpa using he))).1.symm
    have hn : r.nfrag = ref.nfrag := by unfold Space.nfrag; rw [c1]
    have hlen : r.spins.length = ref.nfrag := by rw [hv.1]; simp [(fits_len ht.fits).1]
    have hfit : Fits r ref := by
      refine ⟨⟨?_, ?_, ?_, ?_⟩, c1, c2, ?_⟩
      · rw [c2, hn]; exact hr.shaped.1
      · rw [hlen, hn]
      · rw [hs, hn]; exact (fits_len ht.fits).1
      · rw [hch, hn]; exact (fits_len ht.fits).2.2
      · intro k hk
        rw [hn] at hk
        have hk' : k < t.nfrag := by rw [ht.fits.nfrag]; exact hk
        rw [fragOk_iff]
        have := (fragOk_iff t k).mp (ht.fits.ok k hk')
        rw [c1, c2, hch, hs]
        rw [ht.fits.orbs, ht.fits.elec] at this
        refine ⟨this.1, ?_⟩
        have hb := hv.2.1 k (by simp [(fits_len ht.fits).1, hk])
        rw [el_map_sub _ _ (by rw [(fits_len ht.fits).1]; exact hk)] at hb
        exact hb
    refine ⟨hfit, ht.once, ?_, ?_, by simp, ?_, hv.2.2, ?_⟩
    · intro z hz; rw [hch, hs]; exact ht.source z hz
    · intro z hz; rw [hch, hs]; exact ht.dest z hz
    · intro k hk; unfold SameFragNoM; rw [hch, hs]; exact ht.rest k hk
    · rw [combine_entmap hc, hp.pairs, hq.pairs, hopRecord_append]

end Verif.Lassis
