import Verif.Lemmas.SpinOvl
/-!
# Manifolds of rootspaces and the pairs of rootspaces that stand for pairs of manifolds
-/
namespace Verif.FragSpin
open Verif.FragTables Verif.Spec.Tdm Verif.Spec.RdmSmult Verif.Spec.Spin Verif.Spec.FragSpin Verif.Spec.FragTables Verif.Spec.FciRdm

/-! ### Pairs -/

theorem mem_product2 {n i j : Nat} : (i, j) ∈ product2 n ↔ i < n ∧ j < n := by
  unfold product2
  simp only [List.mem_flatMap, List.mem_range, List.mem_map, Prod.mk.injEq]
  constructor
  · rintro ⟨a, ha, b, hb, rfl, rfl⟩
    exact ⟨ha, hb⟩
  · rintro ⟨ha, hb⟩
    exact ⟨i, ha, j, hb, rfl, rfl⟩

/-- The pair that stands for `(i, j)` has the same manifolds and the same difference of projections. -/
theorem interRep_spec (F : SFrag) {i j : Nat} (hi : i < F.nuroots) (hj : j < F.nuroots) :
    ((interRep F i j).1 < F.nuroots ∧ (interRep F i j).2 < F.nuroots) ∧ interKey F (interRep F i j) = interKey F (i, j) := by
  have h : ∃ x ∈ product2 F.nuroots, inter F (interKey F (i, j)) = some x ∧ interKey F x = interKey F (i, j) := by
    unfold inter
    refine foldl_set (fun (D : Nat × Nat × ℤ → Option (Nat × Nat)) (x : Nat × Nat) => Function.update D (interKey F x) (some x))
      (product2 F.nuroots)
      (fun D => ∃ x ∈ product2 F.nuroots, D (interKey F (i, j)) = some x ∧ interKey F x = interKey F (i, j)) ?_ _
      ⟨(i, j), mem_product2.2 ⟨hi, hj⟩, fun D => ⟨(i, j), mem_product2.2 ⟨hi, hj⟩, Function.update_self .., rfl⟩⟩
    intro y hy D hD
    by_cases he : interKey F (i, j) = interKey F y
    · exact ⟨y, hy, by rw [he]; exact Function.update_self .., he.symm⟩
    · obtain ⟨x, hx, h1, h2⟩ := hD
      exact ⟨x, hx, by rw [Function.update_of_ne he]; exact h1, h2⟩
  obtain ⟨⟨p, q⟩, hx, h1, h2⟩ := h
  unfold interRep
  rw [h1]
  exact ⟨mem_product2.1 hx, h2⟩

/-- `(p, q)` stands for `(u, w)`. -/
structure Stands (F : SFrag) (u w p q : Nat) : Prop where
  hp : p < F.nuroots
  hq : q < F.nuroots
  sp : F.spman p = F.spman u
  sq : F.spman q = F.spman w
  spin : F.spin (F.addr p) - F.spin (F.addr q) = F.spin (F.addr u) - F.spin (F.addr w)
  uniq : interUniq F p q = true

theorem interRep_stands (F : SFrag) {i j : Nat} (hij : i ≤ j) (hj : j < F.nuroots) :
    Stands F i j (interRep F i j).1 (interRep F i j).2 ∧ Stands F j i (interRep F i j).2 (interRep F i j).1 := by
  obtain ⟨⟨h1, h2⟩, h3⟩ := interRep_spec F (i := i) (j := j) (by omega) hj
  unfold interKey at h3
  simp only [Prod.mk.injEq] at h3
  have hm : (i, j) ∈ product2 F.nuroots := mem_product2.2 ⟨by omega, hj⟩
  refine ⟨⟨h1, h2, h3.1, h3.2.1, h3.2.2, ?_⟩, ⟨h2, h1, h3.2.1, h3.1, by omega, ?_⟩⟩
  · unfold interUniq
    rw [List.any_eq_true]
    exact ⟨(i, j), hm, by simp [hij]⟩
  · unfold interUniq
    rw [List.any_eq_true]
    exact ⟨(i, j), hm, by simp [hij]⟩

theorem interMap_stands (F : SFrag) {i j : Nat} (hi : i < F.nuroots) (hj : j < F.nuroots) :
    Stands F i j (interMap F i j).1 (interMap F i j).2 := by
  unfold interMap
  by_cases h : i < j
  · rw [if_pos h]
    exact (interRep_stands F (Nat.le_of_lt h) hj).1
  · rw [if_neg h]
    exact (interRep_stands F (by omega) hi).2

theorem interMap_swap (F : SFrag) {i j : Nat} (h : i ≠ j) : interMap F j i = ((interMap F i j).2, (interMap F i j).1) := by
  unfold interMap
  by_cases h1 : i < j
  · rw [if_pos h1, if_neg (by omega)]
  · rw [if_neg h1, if_pos (by omega)]

/-! ### The search -/

/-- What the search needs of the data: `R` equal data, `m` projections. -/
structure Inv (R : Nat → Nat → Prop) (T : Nat → Nat → Prop) (m : Nat → ℤ) (s : Man) : Prop where
  rel : ∀ k, R k (s.root k)
  dist : ∀ k l, k ≠ l → s.root k = s.root l → m k ≠ m l
  self : ∀ i, s.unique i = true → s.root i = i
  diag : ∀ i, s.excl i i = true
  symm : ∀ i j, s.excl i j = s.excl j i
  tags : ∀ i j, s.excl i j = false → T i j
  free : ∀ i l, s.unique i = true → s.excl i l = false → ∀ k, s.root k = i → m k ≠ m l

theorem merge_excl (e : Nat → Nat → Bool) (hd : ∀ i, e i i = true) (hs : ∀ i j, e i j = e j i) {i j : Nat} :
    (∀ a, mergeRows e i j a a = true) ∧ (∀ a b, mergeRows e i j a b = mergeRows e i j b a) ∧
    (∀ a b, mergeRows e i j a b = false → e a b = false) ∧
    (∀ l, mergeRows e i j i l = false → e i l = false ∧ e j l = false) ∧
    (∀ a, mergeRows e i j a i = false ∨ mergeRows e i j a j = false → e i a = false ∧ e j a = false) := by
  have h1 : ∀ a, mergeRows e i j a a = true := by
    intro a
    unfold mergeRows
    dsimp only
    split
    · next h => subst h; simp [hd]
    split
    · next h => subst h; simp [hd]
    · exact hd a
  have h2 : ∀ a b, mergeRows e i j a b = mergeRows e i j b a := by
    intro a b
    by_cases hab : a = b
    · rw [hab]
    unfold mergeRows
    dsimp only
    by_cases b1 : b = j
    · subst b1
      rw [if_pos rfl]
      by_cases a2 : a = i
      · subst a2
        rw [if_neg hab, if_pos rfl, hd, hd, Bool.true_or, Bool.or_true]
      · rw [if_neg hab, if_neg a2, if_pos rfl]
    rw [if_neg b1]
    by_cases b2 : b = i
    · subst b2
      rw [if_pos rfl]
      by_cases a1 : a = j
      · subst a1
        rw [if_pos rfl, hd, hd, Bool.true_or, Bool.or_true]
      · rw [if_neg a1, if_neg hab, if_neg b1, if_pos rfl]
    rw [if_neg b2]
    by_cases a1 : a = j
    · rw [if_pos a1, if_pos a1]
    rw [if_neg a1, if_neg a1]
    by_cases a2 : a = i
    · rw [if_pos a2, if_pos a2]
    · rw [if_neg a2, if_neg a2, if_neg b1, if_neg b2]
      exact hs a b
  have h3 : ∀ a, mergeRows e i j a i = false ∨ mergeRows e i j a j = false → e i a = false ∧ e j a = false := by
    intro a h
    have e1 : mergeRows e i j a j = (e i a || e j a) := if_pos rfl
    have e2 : mergeRows e i j a i = (e i a || e j a) := by
      unfold mergeRows
      dsimp only
      by_cases hij : i = j
      · rw [if_pos hij]
      · rw [if_neg hij, if_pos rfl]
    rw [e1, e2, or_self, Bool.or_eq_false_iff] at h
    exact h
  refine ⟨h1, h2, ?_, fun l h => h3 l (Or.inl (by rw [h2]; exact h)), h3⟩
  intro a b h
  by_cases hb : b = i ∨ b = j
  · rcases hb with rfl | rfl
    · rw [hs]; exact (h3 a (Or.inl h)).1
    · rw [hs]; exact (h3 a (Or.inr h)).2
  by_cases ha : a = i ∨ a = j
  · rw [h2] at h
    rcases ha with rfl | rfl
    · exact (h3 b (Or.inl h)).1
    · exact (h3 b (Or.inr h)).2
  push Not at hb ha
  unfold mergeRows at h
  dsimp only at h
  rw [if_neg hb.2, if_neg hb.1, if_neg ha.2, if_neg ha.1] at h
  exact h

theorem Inv.merge {R T : Nat → Nat → Prop} {m : Nat → ℤ} {s : Man} (h : Inv R T m s) {i j : Nat} (he : s.excl i j = false)
    (hi : s.unique i = true) (hj : s.unique j = true) (hR : R j i) :
    Inv R T m { unique := Function.update s.unique j false, root := Function.update s.root j i, excl := mergeRows s.excl i j } := by
  obtain ⟨d1, d2, d3, d4, d5⟩ := merge_excl s.excl h.diag h.symm (i := i) (j := j)
  have hij : i ≠ j := by
    rintro rfl
    rw [h.diag] at he
    exact absurd he (by simp)
  have hu : ∀ x, Function.update s.unique j false x = true → x ≠ j ∧ s.unique x = true := by
    intro x hx
    by_cases hxj : x = j
    · rw [hxj, Function.update_self] at hx
      exact absurd hx (by simp)
    · rw [Function.update_of_ne hxj] at hx
      exact ⟨hxj, hx⟩
  refine ⟨?_, ?_, ?_, d1, d2, fun a b hab => h.tags a b (d3 a b hab), ?_⟩
  · intro k
    dsimp only
    by_cases hk : k = j
    · rw [hk, Function.update_self]; exact hR
    · rw [Function.update_of_ne hk]; exact h.rel k
  · intro k l hkl hr
    dsimp only at hr
    by_cases hk : k = j
    · subst hk
      rw [Function.update_self, Function.update_of_ne (Ne.symm hkl)] at hr
      exact fun hm => h.free i k hi he l hr.symm hm.symm
    · rw [Function.update_of_ne hk] at hr
      by_cases hl : l = j
      · subst hl
        rw [Function.update_self] at hr
        exact h.free i l hi he k hr
      · rw [Function.update_of_ne hl] at hr
        exact h.dist k l hkl hr
  · intro x hx
    obtain ⟨h1, h2⟩ := hu x hx
    dsimp only
    rw [Function.update_of_ne h1]
    exact h.self x h2
  · intro x l hx hl k hk
    obtain ⟨h1, h2⟩ := hu x hx
    dsimp only at hl hk
    by_cases hxi : x = i
    · subst hxi
      obtain ⟨e1, e2⟩ := d4 l hl
      by_cases hkj : k = j
      · subst hkj
        exact h.free k l hj e2 k (h.self k hj)
      · rw [Function.update_of_ne hkj] at hk
        exact h.free x l hi e1 k hk
    · have hkj : k ≠ j := by
        rintro rfl
        rw [Function.update_self] at hk
        exact hxi hk.symm
      rw [Function.update_of_ne hkj] at hk
      exact h.free x l h2 (d3 x l hl) k hk

/-! ### Equal vectors -/

theorem dotS_normSq {norb na nb : ℕ} {v : SpinOp.Vec} (h : InSpace norb na nb v) : dotS norb v v = normSq norb na nb v := by
  have hsub : ∀ k, SpinOp.strings norb k ⊆ (Finset.range norb).powerset := fun k a ha =>
    Finset.mem_powerset.2 (Finset.mem_powersetCard.1 ha).1
  unfold dotS normSq
  symm
  rw [Finset.sum_subset (hsub na)]
  · refine Finset.sum_congr rfl fun a _ => ?_
    rw [Finset.sum_subset (hsub nb)]
    · exact Finset.sum_congr rfl fun b _ => pow_two _
    · intro b _ hb
      rw [h a b (fun hh => hb hh.2)]
      norm_num
  · intro a _ ha
    refine Finset.sum_eq_zero fun b _ => ?_
    rw [h a b (fun hh => ha hh.1)]
    norm_num

/-- Two unit vectors with overlap 1 are equal. -/
theorem eq_of_dot {norb na nb : ℕ} {v w : SpinOp.Vec} (hv : InSpace norb na nb v) (hw : InSpace norb na nb w) (h1 : dotS norb v v = 1)
    (h2 : dotS norb w w = 1) (h : dotS norb v w = 1) : v = w := by
  have hs : InSpace norb na nb (fun a b => v a b - w a b) := by
    intro a b hab
    dsimp only
    rw [hv a b hab, hw a b hab, sub_zero]
  have h0 := Verif.SpinFam.eq_zero_of_sq hs (by
    have e : ∑ a ∈ (Finset.range norb).powerset, ∑ b ∈ (Finset.range norb).powerset, (v a b - w a b) * (v a b - w a b) =
        dotS norb v v + dotS norb w w - 2 * dotS norb v w := by
      unfold dotS
      rw [Finset.mul_sum, ← Finset.sum_add_distrib, ← Finset.sum_sub_distrib]
      refine Finset.sum_congr rfl fun a _ => ?_
      rw [Finset.mul_sum, ← Finset.sum_add_distrib, ← Finset.sum_sub_distrib]
      exact Finset.sum_congr rfl fun b _ => by ring
    rw [e, h1, h2, h]
    norm_num)
  funext a b
  have h3 : v a b - w a b = 0 := congrFun (congrFun h0 a) b
  linarith

theorem highest_spec {F : SFrag} (hM : Multiplicities F) (hN : Normalized F) {u a : Nat} (hu : u < F.nuroots)
    (ha : a < F.lroots (F.addr u)) {s : ℤ} (hs : F.smult (F.addr u) = some s) {na0 nb0 : ℕ}
    (h1 : na0 + nb0 = (F.nelec (F.addr u)).1 + (F.nelec (F.addr u)).2) (h2 : (na0 : ℤ) - nb0 = s - 1) :
    InSpace F.norb na0 nb0 (highest F u a) ∧ dotS F.norb (highest F u a) (highest F u a) = 1 := by
  obtain ⟨m1, m2⟩ := addr_mem hu
  have st := hM.state _ m1 m2 s hs a ha
  obtain ⟨c1, -, c3, -⟩ := Verif.Props.C32_mup st.ok h1 h2 st.inSpace st.pure
  unfold highest
  rw [hs, Option.getD_some]
  refine ⟨c1, ?_⟩
  rw [dotS_normSq c1, c3, ← dotS_normSq st.inSpace, agree_dotS, ← hN _ m1 m2 a ha]
  exact agree_ovl (agree_toSets _ _ _) (agree_toSets _ _ _)

/-- The relation kept by the search. -/
def Rel (F : SFrag) (k l : Nat) : Prop :=
  k = l ∨ (F.nelec (F.addr k)).1 + (F.nelec (F.addr k)).2 = (F.nelec (F.addr l)).1 + (F.nelec (F.addr l)).2 ∧
    F.smult (F.addr k) = F.smult (F.addr l) ∧ F.lroots (F.addr k) = F.lroots (F.addr l) ∧
    ∀ a < F.lroots (F.addr k), highest F k a = highest F l a

theorem Rel.symm {F : SFrag} {k l : Nat} (h : Rel F k l) : Rel F l k := by
  rcases h with rfl | ⟨h1, h2, h3, h4⟩
  · exact Or.inl rfl
  · exact Or.inr ⟨h1.symm, h2.symm, h3.symm, fun a ha => (h4 a (by rw [h3]; exact ha)).symm⟩

theorem Rel.trans {F : SFrag} {k l m : Nat} (h : Rel F k l) (h' : Rel F l m) : Rel F k m := by
  rcases h with rfl | ⟨h1, h2, h3, h4⟩
  · exact h'
  rcases h' with rfl | ⟨k1, k2, k3, k4⟩
  · exact Or.inr ⟨h1, h2, h3, h4⟩
  · exact Or.inr ⟨h1.trans k1, h2.trans k2, h3.trans k3, fun a ha => (h4 a ha).trans (k4 a (by rw [← h3]; exact ha))⟩

/-- The tags compared before the vectors. -/
def Tags (F : SFrag) (k l : Nat) : Prop :=
  (F.nelec (F.addr k)).1 + (F.nelec (F.addr k)).2 = (F.nelec (F.addr l)).1 + (F.nelec (F.addr l)).2 ∧
    F.smult (F.addr k) = F.smult (F.addr l) ∧ F.lroots (F.addr k) = F.lroots (F.addr l) ∧ F.disc (F.addr k) = F.disc (F.addr l) ∧
    F.spin (F.addr k) ≠ F.spin (F.addr l)

theorem exclude0_false {F : SFrag} {k l : Nat} (h : exclude0 F k l = false) : Tags F k l := by
  unfold exclude0 at h
  dsimp only at h
  split at h
  · exact absurd h (by simp)
  split at h
  · exact absurd h (by simp)
  split at h
  · exact absurd h (by simp)
  split at h
  · exact absurd h (by simp)
  split at h
  · exact absurd h (by simp)
  next a b c d e =>
    exact ⟨not_not.1 b, not_not.1 c, not_not.1 d, not_not.1 e, by simpa using h⟩

theorem exclude0_of {F : SFrag} {k l : Nat} (hkl : k ≠ l) (h : Tags F k l) : exclude0 F k l = false := by
  obtain ⟨h1, h2, h3, h4, h5⟩ := h
  unfold exclude0
  dsimp only
  rw [if_neg hkl, if_neg (not_not.2 h1), if_neg (not_not.2 h2), if_neg (not_not.2 h3), if_neg (not_not.2 h4)]
  simpa using h5

theorem exclude0_self (F : SFrag) (k : Nat) : exclude0 F k k = true := by
  unfold exclude0
  dsimp only
  rw [if_pos rfl]

theorem exclude0_symm (F : SFrag) (k l : Nat) : exclude0 F k l = exclude0 F l k := by
  have key : ∀ k l, exclude0 F k l = false → exclude0 F l k = false := by
    intro k l h
    have hkl : l ≠ k := by
      rintro rfl
      rw [exclude0_self] at h
      exact absurd h (by simp)
    obtain ⟨h1, h2, h3, h4, h5⟩ := exclude0_false h
    exact exclude0_of hkl ⟨h1.symm, h2.symm, h3.symm, h4.symm, h5.symm⟩
  cases e : exclude0 F k l
  · exact (key k l e).symm
  · cases e' : exclude0 F l k
    · rw [key l k e'] at e
      exact absurd e (by simp)
    · rfl

theorem inv_init (F : SFrag) : Inv (Rel F) (Tags F) (fun u => F.spin (F.addr u)) ⟨fun _ => true, fun u => u, exclude0 F⟩ := by
  refine ⟨fun _ => Or.inl rfl, fun k l h e => absurd e h, fun _ _ => rfl, ?_, exclude0_symm F, fun _ _ h => exclude0_false h, ?_⟩
  · exact exclude0_self F
  · rintro i l - h k rfl
    exact (exclude0_false h).2.2.2.2

theorem all_smult {F : SFrag} (h : F.allSmult = true) {i : Nat} (hi : i < F.nroots) : ∃ s, F.smult i = some s := by
  unfold SFrag.allSmult at h
  rw [List.all_eq_true] at h
  exact Option.isSome_iff_exists.1 (h i (List.mem_range.2 hi))

theorem inv_step {F : SFrag} (hM : Multiplicities F) (hN : Normalized F) (hA : F.allSmult = true) {s : Man}
    (h : Inv (Rel F) (Tags F) (fun u => F.spin (F.addr u)) s) {i j : Nat} (hi : i < F.nuroots) (hj : j < F.nuroots) :
    Inv (Rel F) (Tags F) (fun u => F.spin (F.addr u)) (manStep F s (i, j)) := by
  unfold manStep
  dsimp only
  split
  · exact h
  next he =>
  split
  · exact h
  next hi' =>
  split
  · exact h
  next hj' =>
  split
  · next hd =>
    have he' : s.excl i j = false := by simpa using he
    refine h.merge he' (by simpa using hi') (by simpa using hj') (Rel.symm ?_)
    obtain ⟨t1, t2, t3, -, -⟩ := h.tags i j he'
    refine Or.inr ⟨t1, t2, t3, fun a ha => ?_⟩
    obtain ⟨sm, hs⟩ := all_smult hA (addr_mem hi).1
    have ok := hM.ok _ (addr_mem hi).1 sm hs
    obtain ⟨a0, b0, z1, z2⟩ : ∃ a0 b0 : ℕ, a0 + b0 = (F.nelec (F.addr i)).1 + (F.nelec (F.addr i)).2 ∧ (a0 : ℤ) - b0 = sm - 1 := by
      have := ok.parity; have := ok.elec; have := ok.high; have := ok.low
      exact ⟨((((F.nelec (F.addr i)).1 : ℤ) + (F.nelec (F.addr i)).2 + (sm - 1)) / 2).toNat,
        ((((F.nelec (F.addr i)).1 : ℤ) + (F.nelec (F.addr i)).2 - (sm - 1)) / 2).toNat, by omega, by omega⟩
    obtain ⟨p1, p2⟩ := highest_spec hM hN hi ha hs z1 z2
    obtain ⟨q1, q2⟩ := highest_spec hM hN hj (by rw [← t3]; exact ha) (by rw [← t2]; exact hs) (z1.trans t1) z2
    exact eq_of_dot p1 q1 p2 q2 (hd a ha)
  · exact h

/-- The manifolds that the search finds. -/
theorem manifolds_spec {F : SFrag} (hM : Multiplicities F) (hN : Normalized F) : Manifolds { F with spman := manifolds F } := by
  constructor
  · intro hA u _ w _ h
    change manifolds F u = manifolds F w at h
    unfold manifolds at h
    have hA' : F.allSmult = false := hA
    rw [if_neg (by rw [hA']; simp)] at h
    exact h
  · intro u hu w hw h huw
    change manifolds F u = manifolds F w at h
    unfold manifolds at h
    split at h
    · next hA =>
      have inv : Inv (Rel F) (Tags F) (fun u => F.spin (F.addr u))
          ((UniqueRoots.combinations2 F.nuroots).foldl (manStep F) ⟨fun _ => true, fun u => u, exclude0 F⟩) := by
        refine foldl_pres (manStep F) _ _ ?_ _ (inv_init F)
        rintro ⟨i, j⟩ hij s hs
        rw [Verif.Props.mem_combinations2] at hij
        exact inv_step hM hN hA hs (by omega) hij.2
      have hr := (inv.rel u).trans (by rw [h]; exact (inv.rel w).symm)
      have hd := inv.dist u w huw h
      rcases hr with e | ⟨h1, h2, h3, h4⟩
      · exact absurd e huw
      · refine ⟨h1, h2, h3, fun e => hd ?_, fun s hs a ha => ?_⟩
        · show F.spin (F.addr u) = F.spin (F.addr w)
          have e' : F.nelec (F.addr u) = F.nelec (F.addr w) := e
          unfold SFrag.spin
          rw [e']
        · have := h4 a ha
          unfold highest at this
          have hs1 : F.smult (F.addr u) = some s := hs
          rw [← h2, hs1] at this
          exact this
    · exact absurd h huw

end Verif.FragSpin
