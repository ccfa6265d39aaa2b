import Verif.Spec.FragTables
import Verif.Props.FciRdm
import Verif.Props.UniqueRoots
import Verif.Lemmas.OuterDot
/-!
# Lemmas about the tables of one fragment
-/
namespace Verif.FragTables
open Verif.FciRdm Verif.Spec.FciRdm Verif.Spec.Tdm Verif.Spec.Lstdm Verif.Spec.FragTables Verif.Fockspace Verif.Tdm

section generic
variable {α β : Type}

theorem foldlM_total (step : β → α → Option β) (L : List α) (hs : ∀ M, ∀ x ∈ L, ∃ M', step M x = some M') (M : β) :
    ∃ M', L.foldlM step M = some M' := by
  induction L generalizing M with
  | nil => exact ⟨M, rfl⟩
  | cons x L ih =>
    obtain ⟨M1, h1⟩ := hs M x (List.mem_cons_self ..)
    obtain ⟨M', h'⟩ := ih (fun M y hy => hs M y (List.mem_cons_of_mem _ hy)) M1
    exact ⟨M', by rw [List.foldlM_cons, h1]; exact h'⟩

theorem foldlM_pres (step : β → α → Option β) (L : List α) (Q : β → Prop)
    (pres : ∀ x ∈ L, ∀ M M', step M x = some M' → Q M → Q M') {M M' : β} (h : L.foldlM step M = some M') (hM : Q M) : Q M' := by
  induction L generalizing M with
  | nil => cases h; exact hM
  | cons x L ih =>
    rw [List.foldlM_cons] at h
    cases h1 : step M x with
    | none => rw [h1] at h; simp at h
    | some M1 =>
      rw [h1] at h
      exact ih (fun y hy => pres y (List.mem_cons_of_mem _ hy)) h (pres x (List.mem_cons_self ..) M M1 h1 hM)

theorem foldlM_set (step : β → α → Option β) (L : List α) (Q : β → Prop)
    (pres : ∀ x ∈ L, ∀ M M', step M x = some M' → Q M → Q M') {M M' : β} (h : L.foldlM step M = some M')
    (hM : ∃ x ∈ L, ∀ M M', step M x = some M' → Q M') : Q M' := by
  induction L generalizing M with
  | nil => obtain ⟨x, hx, -⟩ := hM; simp at hx
  | cons x L ih =>
    rw [List.foldlM_cons] at h
    cases h1 : step M x with
    | none => rw [h1] at h; simp at h
    | some M1 =>
      rw [h1] at h
      obtain ⟨y, hy, hq⟩ := hM
      rcases List.mem_cons.1 hy with rfl | hy
      · exact foldlM_pres step L Q (fun y hy => pres y (List.mem_cons_of_mem _ hy)) h (hq M M1 h1)
      · exact ih (fun y hy => pres y (List.mem_cons_of_mem _ hy)) h ⟨y, hy, hq⟩

theorem foldl_pres (step : β → α → β) (L : List α) (Q : β → Prop) (pres : ∀ x ∈ L, ∀ M, Q M → Q (step M x)) (M : β) (hM : Q M) :
    Q (L.foldl step M) := by
  induction L generalizing M with
  | nil => exact hM
  | cons x L ih =>
    exact ih (fun y hy => pres y (List.mem_cons_of_mem _ hy)) _ (pres x (List.mem_cons_self ..) M hM)

theorem foldl_set (step : β → α → β) (L : List α) (Q : β → Prop) (pres : ∀ x ∈ L, ∀ M, Q M → Q (step M x)) (M : β)
    (hM : ∃ x ∈ L, ∀ M, Q (step M x)) : Q (L.foldl step M) := by
  induction L generalizing M with
  | nil => obtain ⟨x, hx, -⟩ := hM; simp at hx
  | cons x L ih =>
    obtain ⟨y, hy, hq⟩ := hM
    rcases List.mem_cons.1 hy with rfl | hy
    · exact foldl_pres step L Q (fun y hy => pres y (List.mem_cons_of_mem _ hy)) _ (hq M)
    · exact ih (fun y hy => pres y (List.mem_cons_of_mem _ hy)) _ ⟨y, hy, hq⟩

theorem loop2_spec {X : Type} {nb nk : Nat} (z : X) (f : Nat → Nat → Option X) (R : Nat → Nat → X → Prop)
    (h : ∀ a < nb, ∀ b < nk, ∃ x, f a b = some x ∧ R a b x) :
    ∃ d, loop2 nb nk z f = some d ∧ ∀ a < nb, ∀ b < nk, R a b (d a b) := by
  unfold loop2
  rw [if_pos]
  · refine ⟨_, rfl, fun a ha b hb => ?_⟩
    obtain ⟨x, hx, hr⟩ := h a ha b hb
    rw [if_pos ⟨ha, hb⟩, hx]
    exact hr
  · rw [List.all_eq_true]
    intro a ha
    rw [List.all_eq_true]
    intro b hb
    obtain ⟨x, hx, -⟩ := h a (List.mem_range.1 ha) b (List.mem_range.1 hb)
    rw [hx]
    rfl

theorem put_self {X : Type} (T : Tab X) (i j : Nat) (x : X) : put T i j x i j = some x := if_pos ⟨rfl, rfl⟩

theorem put_ne {X : Type} (T : Tab X) {i j a b : Nat} (x : X) (h : ¬(a = i ∧ b = j)) : put T i j x a b = T a b := if_neg h

theorem putS_self {X : Type} (T : Nat → Tab X) (s i j : Nat) (x : X) : putS T s i j x s i j = some x := by
  unfold putS
  rw [if_pos rfl, put_self]

theorem putS_ne {X : Type} (T : Nat → Tab X) {s i j t a b : Nat} (x : X) (h : ¬(t = s ∧ a = i ∧ b = j)) :
    putS T s i j x t a b = T t a b := by
  unfold putS
  by_cases ht : t = s
  · rw [if_pos ht, put_ne]
    exact fun h' => h ⟨ht, h'⟩
  · rw [if_neg ht]

end generic

variable {K : Type} [CommRing K] [DecidableEq K]

theorem ix_eq (s : Bool) : s.toNat = ix s := by cases s <;> rfl

theorem ix_inj {s t : Bool} (h : ix s = ix t) : s = t := by cases s <;> cases t <;> simp_all [ix]

/-! ### Unique rootspaces -/

section uniq
variable {F : Frag K}

omit [CommRing K] [DecidableEq K] in
theorem nodup_addr (F : Frag K) : F.urootAddr.Nodup := List.nodup_range.filter _

omit [CommRing K] [DecidableEq K] in
theorem addr_eq {u : Nat} (hu : u < F.nuroots) : F.addr u = F.urootAddr[u]'hu := by
  exact List.getD_eq_getElem _ _ hu

omit [CommRing K] [DecidableEq K] in
theorem addr_mem {u : Nat} (hu : u < F.nuroots) : F.addr u < F.nroots ∧ F.unique (F.addr u) = true := by
  have h : F.addr u ∈ F.urootAddr := by rw [addr_eq hu]; exact List.getElem_mem hu
  unfold Frag.urootAddr at h
  rw [List.mem_filter, List.mem_range] at h
  exact h

omit [CommRing K] [DecidableEq K] in
theorem addr_lt {u w : Nat} (hw : w < F.nuroots) (h : u < w) : F.addr u < F.addr w := by
  have hs : F.urootAddr.Pairwise (· < ·) := List.Pairwise.filter _ List.pairwise_lt_range
  rw [addr_eq (show u < F.nuroots by omega), addr_eq hw]
  exact List.pairwise_iff_getElem.1 hs u w _ hw h

omit [DecidableEq K] in
theorem idx_addr (hF : Coherent F) {u : Nat} (hu : u < F.nuroots) : F.urootIdx (F.addr u) = u := by
  have h := addr_mem hu
  unfold Frag.urootIdx
  rw [hF.self _ h.1 h.2, addr_eq hu]
  exact List.Nodup.idxOf_getElem (nodup_addr F) u hu

omit [DecidableEq K] in
theorem idx_lt (hF : Coherent F) {i : Nat} (hi : i < F.nroots) : F.urootIdx i < F.nuroots := by
  have h : F.rep i ∈ F.urootAddr := by
    unfold Frag.urootAddr
    rw [List.mem_filter, List.mem_range]
    exact hF.rep i hi
  exact List.idxOf_lt_length_of_mem h

omit [DecidableEq K] in
theorem addr_idx (hF : Coherent F) {i : Nat} (hi : i < F.nroots) : F.addr (F.urootIdx i) = F.rep i := by
  rw [addr_eq (idx_lt hF hi)]
  unfold Frag.urootIdx
  exact List.getElem_idxOf _

end uniq

/-! ### Overlaps -/

omit [DecidableEq K] in
theorem ovl_vec (n : Nat) (e : Nat × Nat) (c c' : Arr K) : ovl n (vec n e c) (vec n e c') =
    ∑ A ∈ Finset.range (n.choose e.1), ∑ B ∈ Finset.range (n.choose e.2), c A B * c' A B := by
  have hsub : ∀ k, (strs n k).toFinset ⊆ Finset.range (2 ^ n) := by
    intro k D hD
    rw [List.mem_toFinset, mem_strs] at hD
    exact Finset.mem_range.2 hD.1
  rw [Verif.Outer.sum_strs n e.1 (fun A => ∑ B ∈ Finset.range (n.choose e.2), c A B * c' A B)]
  unfold ovl
  rw [← Finset.sum_subset (hsub e.1)]
  · apply Finset.sum_congr rfl
    intro A hA
    rw [List.mem_toFinset] at hA
    rw [Verif.Outer.sum_strs n e.2 (fun B => c (Verif.Spec.Outer.addrOf n A) B * c' (Verif.Spec.Outer.addrOf n A) B), ← Finset.sum_subset (hsub e.2)]
    · apply Finset.sum_congr rfl
      intro B hB
      rw [List.mem_toFinset] at hB
      unfold vec
      rw [if_pos ⟨hA, hB⟩, if_pos ⟨hA, hB⟩, Verif.Outer.idxOf_strs hA, Verif.Outer.idxOf_strs hB]
    · intro B _ hB
      rw [List.mem_toFinset] at hB
      unfold vec
      rw [if_neg (fun h => hB h.2), zero_mul]
  · intro A _ hA
    rw [List.mem_toFinset] at hA
    refine Finset.sum_eq_zero fun B _ => ?_
    unfold vec
    rw [if_neg (fun h => hA h.1), zero_mul]

omit [DecidableEq K] in
theorem dotCi_eq (F : Frag K) {i j a b : Nat} (h : F.nelec i = F.nelec j) (ha : a < F.lroots i) (hb : b < F.lroots j) :
    dotCi F i j a b = ovl F.norb (civ F i a) (civ F j b) := by
  unfold dotCi civ
  rw [if_pos ⟨ha, hb⟩, ← h, ovl_vec]

/-! ### Entries -/

/-- Kinds of tables. -/
inductive Kind | ovlp | half (s : Bool) | pair (s t : Bool) (h : s = true → t = true) | flip | dm

/-- The numbers of electrons that a kind of table connects. -/
def Conn (F : Frag K) (i j : Nat) : Kind → Prop
  | .ovlp => F.nelec i = F.nelec j
  | .half s => plus (F.nelec i) s = F.nelec j
  | .pair s t _ => plus (plus (F.nelec i) s) t = F.nelec j
  | .flip => plus (F.nelec i) false = plus (F.nelec j) true
  | .dm => F.nelec i = F.nelec j ∧ j ≤ i

/-- The entry at positions `u`, `w` is there and right for the rootspaces `i`, `j`. -/
def At (F : Frag K) (M : Mats K) (u w i j : Nat) : Kind → Prop
  | .ovlp => ∃ d, M.ovlp u w = some d ∧ ∀ a < F.lroots i, ∀ b < F.lroots j, d a b = ovl F.norb (civ F i a) (civ F j b)
  | .half s => (∃ d, M.h (ix s) u w = some d ∧
      ∀ a < F.lroots i, ∀ b < F.lroots j, ∀ r < F.norb, d a b r = ovl F.norb (civ F i a) (ann F.norb s r (civ F j b))) ∧
      ∃ d, M.phh (ix s) u w = some d ∧
      ∀ a < F.lroots i, ∀ b < F.lroots j, ∀ t, ∀ r < F.norb, ∀ p < F.norb, ∀ q < F.norb, d a b (ix t) r p q =
        ovl F.norb (ann F.norb t p (civ F i a)) (ann F.norb t q (ann F.norb s r (civ F j b)))
  | .pair s t _ => ∃ d, M.hh (ix s + ix t) u w = some d ∧
      ∀ a < F.lroots i, ∀ b < F.lroots j, ∀ p < F.norb, ∀ q < F.norb, d a b p q =
        ovl F.norb (civ F i a) (ann F.norb t p (ann F.norb s q (civ F j b)))
  | .flip => ∃ d, M.sm u w = some d ∧
      ∀ a < F.lroots i, ∀ b < F.lroots j, ∀ p < F.norb, ∀ q < F.norb, d a b p q =
        ovl F.norb (ann F.norb true p (civ F i a)) (ann F.norb false q (civ F j b))
  | .dm => (∃ d, M.dm1 u w = some d ∧
      ∀ a < F.lroots i, ∀ b < F.lroots j, ∀ s, ∀ p < F.norb, ∀ q < F.norb, d a b (ix s) p q =
        tdm1 F.norb (civ F i a) (civ F j b) s p q) ∧
      ∃ d, M.dm2 u w = some d ∧
      ∀ a < F.lroots i, ∀ b < F.lroots j, ∀ s t, ∀ p < F.norb, ∀ q < F.norb, ∀ r < F.norb, ∀ x < F.norb,
        d a b (2 * ix s + ix t) p q r x = tdm2 F.norb (civ F i a) (civ F j b) s t p q r x

/-- `M'` is `M` with the entry of kind `k` at `(u, w)` replaced. -/
structure Only (M M' : Mats K) (u w : Nat) (k : Kind) : Prop where
  ovlp : M'.ovlp = M.ovlp
  h : ∀ t a b, ¬((∃ s, k = .half s ∧ t = ix s) ∧ a = u ∧ b = w) → M'.h t a b = M.h t a b
  phh : ∀ t a b, ¬((∃ s, k = .half s ∧ t = ix s) ∧ a = u ∧ b = w) → M'.phh t a b = M.phh t a b
  hh : ∀ x a b, ¬((∃ s t h, k = .pair s t h ∧ x = ix s + ix t) ∧ a = u ∧ b = w) → M'.hh x a b = M.hh x a b
  sm : ∀ a b, ¬(k = .flip ∧ a = u ∧ b = w) → M'.sm a b = M.sm a b
  dm1 : ∀ a b, ¬(k = .dm ∧ a = u ∧ b = w) → M'.dm1 a b = M.dm1 a b
  dm2 : ∀ a b, ¬(k = .dm ∧ a = u ∧ b = w) → M'.dm2 a b = M.dm2 a b

omit [DecidableEq K] in
/-- Replacing an entry by a right one leaves all right entries right. -/
theorem Only.pres {F : Frag K} {M M' : Mats K} {u w i j : Nat} {k : Kind} (h : Only M M' u w k) (hset : At F M' u w i j k)
    {u' w' i' j' : Nat} (k' : Kind) (hi : u' = u → w' = w → i' = i ∧ j' = j) (h' : At F M u' w' i' j' k') : At F M' u' w' i' j' k' := by
  by_cases hk : k' = k ∧ u' = u ∧ w' = w
  · obtain ⟨rfl, rfl, rfl⟩ := hk
    obtain ⟨rfl, rfl⟩ := hi rfl rfl
    exact hset
  cases k' with
  | ovlp => simpa only [At, h.ovlp] using h'
  | half s =>
    have hn : ¬((∃ s', k = .half s' ∧ ix s = ix s') ∧ u' = u ∧ w' = w) := by
      rintro ⟨⟨s', rfl, hs⟩, h2⟩
      exact hk ⟨by rw [ix_inj hs], h2⟩
    simpa only [At, h.h _ _ _ hn, h.phh _ _ _ hn] using h'
  | pair s t hst =>
    have hn : ¬((∃ s' t' h', k = .pair s' t' h' ∧ ix s + ix t = ix s' + ix t') ∧ u' = u ∧ w' = w) := by
      rintro ⟨⟨s', t', h', rfl, hs⟩, h2⟩
      refine hk ⟨?_, h2⟩
      cases s <;> cases t <;> cases s' <;> cases t' <;> simp_all [ix]
    simpa only [At, h.hh _ _ _ hn] using h'
  | flip =>
    have hn : ¬(k = .flip ∧ u' = u ∧ w' = w) := fun h2 => hk ⟨h2.1.symm, h2.2⟩
    simpa only [At, h.sm _ _ hn] using h'
  | dm =>
    have hn : ¬(k = .dm ∧ u' = u ∧ w' = w) := fun h2 => hk ⟨h2.1.symm, h2.2⟩
    simpa only [At, h.dm1 _ _ hn, h.dm2 _ _ hn] using h'

/-! ### One step -/

section steps
variable {P : Ext K} {F : Frag K}

theorem setHalf_spec (hP : Right12 P) (hF : Coherent F) (M : Mats K) {u w : Nat} (hu : u < F.nuroots) (hw : w < F.nuroots) (s : Bool)
    (hc : Conn F (F.addr u) (F.addr w) (.half s)) : ∃ M', setHalf P F M (F.addr u) (F.addr w) s = some M' ∧
      Only M M' u w (.half s) ∧ At F M' u w (F.addr u) (F.addr w) (.half s) := by
  have hfit := hF.fits _ (addr_mem hw).1
  unfold Conn at hc
  obtain ⟨d, hd, hr⟩ := loop2_spec (nb := F.lroots (F.addr u)) (nk := F.lroots (F.addr w))
    ((fun _ => 0, fun _ _ _ => 0, fun _ _ _ => 0) : (Nat → K) × (Nat → Nat → Nat → K) × (Nat → Nat → Nat → K))
    (fun i j => transRdm13hs P.toFci false (F.ci (F.addr u) i) (F.ci (F.addr w) j) F.norb (F.nelec (F.addr w)) s
      (some (F.norb + 1, (F.nelec (F.addr w)).1, (F.nelec (F.addr w)).2)))
    (fun a b x => (∀ r < F.norb, x.1 r = ovl F.norb (civ F (F.addr u) a) (ann F.norb s r (civ F (F.addr w) b))) ∧
      ∀ (t : Bool), ∀ r < F.norb, ∀ p < F.norb, ∀ q < F.norb, (if t then x.2.2 else x.2.1) r p q =
        ovl F.norb (ann F.norb t p (civ F (F.addr u) a)) (ann F.norb t q (ann F.norb s r (civ F (F.addr w) b)))) (by
      intro a _ b _
      unfold civ
      rw [← hc] at hfit ⊢
      obtain ⟨d1, da, db, h1, h2, h3⟩ := Verif.Props.C104_three_destroy hP.base (F.ci (F.addr u) a) (F.ci (F.addr w) b) F.norb
        (F.nelec (F.addr u)) s _ (Or.inr rfl) hfit
      exact ⟨_, h1, h2, h3⟩)
  have hd' : rdm13hLoop P F (F.addr u) (F.addr w) s = some (fun i j r => (d i j).1 r,
      fun i j t r p q => if t = 0 then (d i j).2.1 r p q else (d i j).2.2 r p q) := by
    unfold rdm13hLoop
    dsimp only
    rw [hd]
    rfl
  have hphh : ∀ a < F.lroots (F.addr u), ∀ b < F.lroots (F.addr w), ∀ t, ∀ r < F.norb, ∀ p < F.norb, ∀ q < F.norb,
      (if ix t = 0 then (d a b).2.1 r p q else (d a b).2.2 r p q) =
        ovl F.norb (ann F.norb t p (civ F (F.addr u) a)) (ann F.norb t q (ann F.norb s r (civ F (F.addr w) b))) := by
    intro a ha b hb t r hrn p hp q hq
    rw [← (hr a ha b hb).2 t r hrn p hp q hq]
    cases t <;> simp [ix]
  unfold setHalf
  rw [hd', Option.bind_some]
  dsimp only
  rw [if_pos]
  · rw [idx_addr hF hu, idx_addr hF hw]
    refine ⟨_, rfl, ⟨rfl, ?_, ?_, fun _ _ _ _ => rfl, fun _ _ _ => rfl, fun _ _ _ => rfl, fun _ _ _ => rfl⟩, ?_, ?_⟩
    · intro t a b hn
      apply putS_ne
      rintro ⟨h1, h2⟩
      exact hn ⟨⟨s, rfl, by rw [h1, ix_eq]⟩, h2⟩
    · intro t a b hn
      apply putS_ne
      rintro ⟨h1, h2⟩
      exact hn ⟨⟨s, rfl, by rw [h1, ix_eq]⟩, h2⟩
    · refine ⟨_, by rw [← ix_eq s]; exact putS_self .., fun a ha b hb r hrn => (hr a ha b hb).1 r hrn⟩
    · refine ⟨_, by rw [← ix_eq s]; exact putS_self .., fun a ha b hb t r hrn p hp q hq => hphh a ha b hb t r hrn p hp q hq⟩
  · unfold antisym
    simp only [List.all_eq_true, List.mem_range, decide_eq_true_eq]
    intro a ha b hb r hrn p hp q hq
    rw [ix_eq, hphh a ha b hb s r hrn p hp q hq, hphh a ha b hb s q hq p hp r hrn, ann_comm F.norb s s q r hq hrn, ovl_neg_right]
    exact add_neg_cancel (G := K) _

theorem flip_spec (hP : Right12 P) (hF : Coherent F) (M : Mats K) {u w : Nat} (hu : u < F.nuroots) (hw : w < F.nuroots)
    (hc : Conn F (F.addr u) (F.addr w) .flip) : ∃ M', ((sfddmLoop P F (F.addr u) (F.addr w)).map fun d =>
      { M with sm := put M.sm (F.urootIdx (F.addr u)) (F.urootIdx (F.addr w)) d }) = some M' ∧
      Only M M' u w .flip ∧ At F M' u w (F.addr u) (F.addr w) .flip := by
  have hfw := hF.fits _ (addr_mem hw).1
  have hfu := hF.fits _ (addr_mem hu).1
  simp only [Conn, plus, Prod.mk.injEq] at hc
  simp only [if_true, Bool.false_eq_true, if_false, Nat.add_zero] at hc
  obtain ⟨d, hd, hr⟩ := loop2_spec (nb := F.lroots (F.addr u)) (nk := F.lroots (F.addr w)) ((fun _ _ => 0) : Nat → Nat → K)
    (fun i j => transSfddm1 P.toFci (F.ci (F.addr u) i) (F.ci (F.addr w) j) F.norb (F.nelec (F.addr w))
      (some (F.norb + 1, (F.nelec (F.addr w)).1, (F.nelec (F.addr w)).2 + 1)))
    (fun a b x => ∀ p < F.norb, ∀ q < F.norb, x p q =
      ovl F.norb (ann F.norb true p (civ F (F.addr u) a)) (ann F.norb false q (civ F (F.addr w) b))) (by
      intro a _ b _
      unfold civ
      have e1 : F.nelec (F.addr w) = ((F.nelec (F.addr u)).1 + 1, (F.nelec (F.addr w)).2) := by rw [hc.1]
      have e2 : F.nelec (F.addr u) = ((F.nelec (F.addr u)).1, (F.nelec (F.addr w)).2 + 1) := by rw [← hc.2]
      obtain ⟨d, h1, h2⟩ := Verif.Props.C104_flip_down hP.base (F.ci (F.addr u) a) (F.ci (F.addr w) b) F.norb
        (F.nelec (F.addr u)).1 (F.nelec (F.addr w)).2 _ (Or.inr rfl) (by omega)
      rw [← e1, ← e2] at h2
      rw [← e1] at h1
      exact ⟨d, by rw [← hc.1]; exact h1, h2⟩)
  rw [show sfddmLoop P F (F.addr u) (F.addr w) = some d from hd, idx_addr hF hu, idx_addr hF hw, Option.map_some]
  refine ⟨_, rfl, ⟨rfl, fun _ _ _ _ => rfl, fun _ _ _ _ => rfl, fun _ _ _ _ => rfl, ?_, fun _ _ _ => rfl, fun _ _ _ => rfl⟩, ?_⟩
  · intro a b hn
    exact put_ne _ _ fun h => hn ⟨rfl, h⟩
  · exact ⟨_, put_self .., hr⟩

theorem setHh_spec (hP : Right12 P) (hF : Coherent F) (M : Mats K) {u w : Nat} (hu : u < F.nuroots) (hw : w < F.nuroots) (s t : Bool)
    (hst : s = true → t = true) (hc : Conn F (F.addr u) (F.addr w) (.pair s t hst)) :
    ∃ M', setHh P F M (F.addr u) (F.addr w) (ix s + ix t) = some M' ∧
      Only M M' u w (.pair s t hst) ∧ At F M' u w (F.addr u) (F.addr w) (.pair s t hst) := by
  have hfit := hF.fits _ (addr_mem hw).1
  simp only [Conn] at hc
  obtain ⟨d, hd, hr⟩ := loop2_spec (nb := F.lroots (F.addr u)) (nk := F.lroots (F.addr w)) ((fun _ _ => 0) : Nat → Nat → K)
    (fun i j => transHhdm P.toFci (F.ci (F.addr u) i) (F.ci (F.addr w) j) F.norb (F.nelec (F.addr w)) (ix s + ix t)
      (some (F.norb + (2 - (ix s + ix t) % 2), (F.nelec (F.addr w)).1, (F.nelec (F.addr w)).2)))
    (fun a b x => ∀ p < F.norb, ∀ q < F.norb, x p q =
      ovl F.norb (civ F (F.addr u) a) (ann F.norb t p (ann F.norb s q (civ F (F.addr w) b)))) (by
      intro a _ b _
      unfold civ
      rw [← hc] at hfit ⊢
      obtain ⟨d, h1, h2⟩ := Verif.Props.C104_pair_destroy hP.base (F.ci (F.addr u) a) (F.ci (F.addr w) b) F.norb
        (F.nelec (F.addr u)) s t hst _ (Or.inr rfl) hfit
      refine ⟨d, ?_, h2⟩
      rw [← h1, ix_eq, ix_eq]
      congr 4
      cases s <;> cases t <;> first | rfl | (simp at hst))
  unfold setHh
  rw [show hhdmLoop P F (F.addr u) (F.addr w) (ix s + ix t) = some d from hd, idx_addr hF hu, idx_addr hF hw, Option.map_some]
  refine ⟨_, rfl, ⟨rfl, fun _ _ _ _ => rfl, fun _ _ _ _ => rfl, ?_, fun _ _ _ => rfl, fun _ _ _ => rfl, fun _ _ _ => rfl⟩, ?_⟩
  · intro x a b hn
    exact putS_ne _ _ fun h => hn ⟨⟨s, t, hst, rfl, h.1⟩, h.2⟩
  · exact ⟨_, putS_self .., hr⟩

theorem dm_spec (hP : Right12 P) (hF : Coherent F) (M : Mats K) {u w : Nat} (hu : u < F.nuroots) (hw : w < F.nuroots)
    (hc : Conn F (F.addr u) (F.addr w) .dm) {sc : Option (List Nat)} (hs : unmasked sc (F.addr u) (F.addr w) = true) :
    ∃ M', dmStep P F sc M (u, w) = some M' ∧ Only M M' u w .dm ∧ At F M' u w (F.addr u) (F.addr w) .dm := by
  obtain ⟨he, hle⟩ := hc
  unfold dmStep
  dsimp only
  rw [hs, if_neg (by simp), if_pos hle, idx_addr hF hu, idx_addr hF hw]
  refine ⟨_, rfl, ⟨rfl, fun _ _ _ _ => rfl, fun _ _ _ _ => rfl, fun _ _ _ _ => rfl, fun _ _ _ => rfl, ?_, ?_⟩, ?_, ?_⟩
  · intro a b hn
    exact put_ne _ _ fun h => hn ⟨rfl, h⟩
  · intro a b hn
    exact put_ne _ _ fun h => hn ⟨rfl, h⟩
  · refine ⟨_, put_self .., fun a ha b hb s p hp q hq => ?_⟩
    unfold rdm12sLoop
    dsimp only
    rw [if_pos ⟨ha, hb⟩, hP.one s F.norb _ _ _ q p hq hp]
    unfold civ
    rw [he]
  · refine ⟨_, put_self .., fun a ha b hb s t p hp q hq r hr x hx => ?_⟩
    unfold rdm12sLoop
    dsimp only
    rw [if_pos ⟨ha, hb⟩, hP.two s t F.norb _ _ _ p q r x hp hq hr hx]
    unfold civ
    rw [he]

end steps

/-! ### All steps -/

/-- All right entries stay right. -/
def Pres (F : Frag K) (M M' : Mats K) : Prop :=
  ∀ k u w, u < F.nuroots → w < F.nuroots → At F M u w (F.addr u) (F.addr w) k → At F M' u w (F.addr u) (F.addr w) k

/-- A step that leaves right entries right and provides the kinds `S`. -/
def Does (F : Frag K) (S : Kind → Prop) (sc : Option (List Nat)) (x : Nat × Nat) (M M' : Mats K) : Prop :=
  Pres F M M' ∧ ∀ k, S k → Conn F (F.addr x.1) (F.addr x.2) k → unmasked sc (F.addr x.1) (F.addr x.2) = true →
    At F M' x.1 x.2 (F.addr x.1) (F.addr x.2) k

omit [DecidableEq K] in
theorem Only.does {F : Frag K} {M M' : Mats K} {u w : Nat} {k : Kind} (h : Only M M' u w k)
    (hset : At F M' u w (F.addr u) (F.addr w) k) : Pres F M M' := by
  intro k' u' w' _ _ h'
  exact h.pres hset k' (by rintro rfl rfl; exact ⟨rfl, rfl⟩) h'

omit [DecidableEq K] in
theorem fold_does {P : Ext K} {F : Frag K} (S : Kind → Prop) (sc : Option (List Nat)) (step : Mats K → Nat × Nat → Option (Mats K))
    (L : List (Nat × Nat)) (hs : ∀ M, ∀ x ∈ L, ∃ M', step M x = some M' ∧ Does F S sc x M M') (M : Mats K)
    (hL : ∀ k u w, u < F.nuroots → w < F.nuroots → S k → Conn F (F.addr u) (F.addr w) k → (u, w) ∈ L) :
    ∃ M', L.foldlM step M = some M' ∧ Pres F M M' ∧ ∀ k u w, u < F.nuroots → w < F.nuroots → S k →
      Conn F (F.addr u) (F.addr w) k → unmasked sc (F.addr u) (F.addr w) = true → At F M' u w (F.addr u) (F.addr w) k := by
  obtain ⟨M', hM'⟩ := foldlM_total step L (fun M x hx => by obtain ⟨M', h, -⟩ := hs M x hx; exact ⟨M', h⟩) M
  have hp : ∀ x ∈ L, ∀ M M', step M x = some M' → Does F S sc x M M' := by
    intro x hx M M' h
    obtain ⟨M1, h1, h2⟩ := hs M x hx
    rw [h] at h1
    cases h1
    exact h2
  refine ⟨M', hM', ?_, ?_⟩
  · intro k u w hu hw h
    exact foldlM_pres step L _ (fun x hx M M' h' h2 => (hp x hx M M' h').1 k u w hu hw h2) hM' h
  · intro k u w hu hw hS hc hsc
    exact foldlM_set step L (fun M => At F M u w (F.addr u) (F.addr w) k)
      (fun x hx M M' h' h2 => (hp x hx M M' h').1 k u w hu hw h2) hM'
      ⟨(u, w), hL k u w hu hw hS hc, fun M M' h' => (hp _ (hL k u w hu hw hS hc) M M' h').2 k hS hc hsc⟩

/-- Kinds filled by the first loop, the loop over spin up and the loop over spin down. -/
def IsDm : Kind → Prop
  | .dm => True
  | _ => False

/-- See `IsDm`. -/
def IsUp : Kind → Prop
  | .half s => s = false
  | .pair s _ _ => s = false
  | .flip => True
  | _ => False

/-- See `IsDm`. -/
def IsDown : Kind → Prop
  | .half s => s = true
  | .pair s _ _ => s = true
  | _ => False

section all
variable {P : Ext K} {F : Frag K}

omit [CommRing K] [DecidableEq K] in
theorem hop_eq {u w : Nat} {x y : Int} : F.hop u w = (x, y) ↔ ((F.nelec (F.addr u)).1 : Int) = (F.nelec (F.addr w)).1 + x ∧
    ((F.nelec (F.addr u)).2 : Int) = (F.nelec (F.addr w)).2 + y := by
  unfold Frag.hop
  rw [Prod.mk.injEq]
  omega

theorem dm_does (hP : Right12 P) (hF : Coherent F) (sc : Option (List Nat)) (M : Mats K) : ∀ x ∈ spectators F,
    ∃ M', dmStep P F sc M x = some M' ∧ Does F IsDm sc x M M' := by
  rintro ⟨u, w⟩ hx
  simp only [spectators, List.mem_flatMap, List.mem_range, List.mem_map, List.mem_filter, Prod.mk.injEq, Bool.and_eq_true,
    decide_eq_true_eq, Bool.not_eq_true', decide_eq_false_iff_not] at hx
  obtain ⟨u', hu, w', ⟨hw, hh, hle⟩, rfl, rfl⟩ := hx
  have hc : Conn F (F.addr u') (F.addr w') .dm := by
    rw [hop_eq] at hh
    refine ⟨Prod.ext (by omega) (by omega), ?_⟩
    by_cases h : w' = u'
    · rw [h]
    · exact Nat.le_of_lt (addr_lt hu (by omega))
  by_cases hs : unmasked sc (F.addr u') (F.addr w') = true
  · obtain ⟨M', h1, h2, h3⟩ := dm_spec hP hF M hu hw hc hs
    refine ⟨M', h1, h2.does h3, fun k hk _ _ => ?_⟩
    cases k <;> first | exact h3 | exact hk.elim
  · refine ⟨M, ?_, fun _ _ _ _ _ h => h, fun k _ _ h => absurd h hs⟩
    unfold dmStep
    dsimp only
    rw [if_pos (by simp [hs])]

theorem up_does (hP : Right12 P) (hF : Coherent F) (sc : Option (List Nat)) (M : Mats K) : ∀ x ∈ upPairs F,
    ∃ M', upStep P F sc M x = some M' ∧ Does F IsUp sc x M M' := by
  rintro ⟨u, w⟩ hx
  simp only [upPairs, List.mem_flatMap, List.mem_range, List.mem_map, List.mem_filter, Prod.mk.injEq, decide_eq_true_eq] at hx
  obtain ⟨w', ⟨hw, -⟩, u', ⟨hu, -⟩, rfl, rfl⟩ := hx
  by_cases hs : unmasked sc (F.addr u') (F.addr w') = true
  swap
  · refine ⟨M, ?_, fun _ _ _ _ _ h => h, fun k _ _ h => absurd h hs⟩
    unfold upStep
    dsimp only
    rw [if_pos (by simp [hs])]
  unfold upStep
  dsimp only
  rw [if_neg (by simp [hs])]
  by_cases h1 : F.hop u' w' = (-1, 0)
  · rw [if_pos h1]
    rw [hop_eq] at h1
    obtain ⟨M', e1, e2, e3⟩ := setHalf_spec hP hF M hu hw false (Prod.ext (by simp [plus]; omega) (by simp [plus]; omega))
    refine ⟨M', e1, e2.does e3, fun k hk hc _ => ?_⟩
    cases k with
    | half s => cases hk; exact e3
    | pair s t hst => cases hk; cases t <;> simp [Conn, plus, Prod.ext_iff] at hc <;> omega
    | flip => simp [Conn, plus, Prod.ext_iff] at hc; omega
    | _ => exact hk.elim
  rw [if_neg h1]
  by_cases h2 : F.hop u' w' = (-1, 1)
  · rw [if_pos h2]
    rw [hop_eq] at h2
    obtain ⟨M', e1, e2, e3⟩ := flip_spec hP hF M hu hw (Prod.ext (by simp [plus]; omega) (by simp [plus]; omega))
    refine ⟨M', e1, e2.does e3, fun k hk hc _ => ?_⟩
    cases k with
    | half s => cases hk; simp [Conn, plus, Prod.ext_iff] at hc; omega
    | pair s t hst => cases hk; cases t <;> simp [Conn, plus, Prod.ext_iff] at hc <;> omega
    | flip => exact e3
    | _ => exact hk.elim
  rw [if_neg h2]
  by_cases h3 : F.hop u' w' = (-1, -1)
  · rw [if_pos h3]
    rw [hop_eq] at h3
    obtain ⟨M', e1, e2, e3⟩ := setHh_spec hP hF M hu hw false true (by simp) (Prod.ext (by simp [plus]; omega) (by simp [plus]; omega))
    refine ⟨M', e1, e2.does e3, fun k hk hc _ => ?_⟩
    cases k with
    | half s => cases hk; simp [Conn, plus, Prod.ext_iff] at hc; omega
    | pair s t hst =>
      cases hk
      cases t
      · simp [Conn, plus, Prod.ext_iff] at hc; omega
      · exact e3
    | flip => simp [Conn, plus, Prod.ext_iff] at hc; omega
    | _ => exact hk.elim
  rw [if_neg h3]
  by_cases h4 : F.hop u' w' = (-2, 0)
  · rw [if_pos h4]
    rw [hop_eq] at h4
    obtain ⟨M', e1, e2, e3⟩ := setHh_spec hP hF M hu hw false false (by simp) (Prod.ext (by simp [plus]; omega) (by simp [plus]; omega))
    refine ⟨M', e1, e2.does e3, fun k hk hc _ => ?_⟩
    cases k with
    | half s => cases hk; simp [Conn, plus, Prod.ext_iff] at hc; omega
    | pair s t hst =>
      cases hk
      cases t
      · exact e3
      · simp [Conn, plus, Prod.ext_iff] at hc; omega
    | flip => simp [Conn, plus, Prod.ext_iff] at hc; omega
    | _ => exact hk.elim
  rw [if_neg h4]
  refine ⟨M, rfl, fun _ _ _ _ _ h => h, fun k hk hc _ => ?_⟩
  exfalso
  rw [hop_eq] at h1 h2 h3 h4
  cases k with
  | half s => cases hk; simp [Conn, plus, Prod.ext_iff] at hc; omega
  | pair s t hst => cases hk; cases t <;> simp [Conn, plus, Prod.ext_iff] at hc <;> omega
  | flip => simp [Conn, plus, Prod.ext_iff] at hc; omega
  | _ => exact hk.elim

theorem down_does (hP : Right12 P) (hF : Coherent F) (sc : Option (List Nat)) (M : Mats K) : ∀ x ∈ downPairs F,
    ∃ M', downStep P F sc M x = some M' ∧ Does F IsDown sc x M M' := by
  rintro ⟨u, w⟩ hx
  simp only [downPairs, List.mem_flatMap, List.mem_range, List.mem_map, List.mem_filter, Prod.mk.injEq, decide_eq_true_eq] at hx
  obtain ⟨w', ⟨hw, -⟩, u', ⟨hu, -⟩, rfl, rfl⟩ := hx
  by_cases hs : unmasked sc (F.addr u') (F.addr w') = true
  swap
  · refine ⟨M, ?_, fun _ _ _ _ _ h => h, fun k _ _ h => absurd h hs⟩
    unfold downStep
    dsimp only
    rw [if_pos (by simp [hs])]
  unfold downStep
  dsimp only
  rw [if_neg (by simp [hs])]
  by_cases h1 : F.hop u' w' = (0, -1)
  · rw [if_pos h1]
    rw [hop_eq] at h1
    obtain ⟨M', e1, e2, e3⟩ := setHalf_spec hP hF M hu hw true (Prod.ext (by simp [plus]; omega) (by simp [plus]; omega))
    refine ⟨M', e1, e2.does e3, fun k hk hc _ => ?_⟩
    cases k with
    | half s => cases hk; exact e3
    | pair s t hst => cases hk; cases t <;> simp [Conn, plus, Prod.ext_iff] at hc <;> omega
    | _ => exact hk.elim
  rw [if_neg h1]
  by_cases h4 : F.hop u' w' = (0, -2)
  · rw [if_pos h4]
    rw [hop_eq] at h4
    obtain ⟨M', e1, e2, e3⟩ := setHh_spec hP hF M hu hw true true (by simp) (Prod.ext (by simp [plus]; omega) (by simp [plus]; omega))
    refine ⟨M', e1, e2.does e3, fun k hk hc _ => ?_⟩
    cases k with
    | half s => cases hk; simp [Conn, plus, Prod.ext_iff] at hc; omega
    | pair s t hst =>
      cases hk
      cases t
      · simp at hst
      · exact e3
    | _ => exact hk.elim
  rw [if_neg h4]
  refine ⟨M, rfl, fun _ _ _ _ _ h => h, fun k hk hc _ => ?_⟩
  exfalso
  rw [hop_eq] at h1 h4
  cases k with
  | half s => cases hk; simp [Conn, plus, Prod.ext_iff] at hc; omega
  | pair s t hst =>
    cases hk
    cases t
    · simp at hst
    · simp [Conn, plus, Prod.ext_iff] at hc; omega
  | _ => exact hk.elim

omit [DecidableEq K] in
/-- The overlap matrices. -/
theorem ovlp_spec (hF : Coherent F) (sc : Option (List Nat)) (M : Mats K) {u w : Nat} (hu : u < F.nuroots) (hw : w < F.nuroots)
    (hc : F.nelec (F.addr u) = F.nelec (F.addr w))
    (h : unmasked sc (F.addr u) (F.addr w) = true ∨ At F M u w (F.addr u) (F.addr w) .ovlp) :
    At F { M with ovlp := makeOvlp F sc M.ovlp } u w (F.addr u) (F.addr w) .ovlp := by
  let Q : Tab (Nat → Nat → K) → Prop := fun T => ∃ d, T u w = some d ∧
    ∀ a < F.lroots (F.addr u), ∀ b < F.lroots (F.addr w), d a b = ovl F.norb (civ F (F.addr u) a) (civ F (F.addr w) b)
  show Q (makeOvlp F sc M.ovlp)
  have hmem : ∀ x ∈ pairs F.urootAddr, ∃ a b, a < b ∧ b < F.nuroots ∧ x = (F.addr a, F.addr b) := by
    intro x hx
    unfold pairs at hx
    rw [List.mem_map] at hx
    obtain ⟨⟨a, b⟩, hab, rfl⟩ := hx
    rw [Verif.Props.mem_combinations2] at hab
    exact ⟨a, b, hab.1, hab.2, rfl⟩
  have hmem' : ∀ a b, a < b → b < F.nuroots → (F.addr a, F.addr b) ∈ pairs F.urootAddr := by
    intro a b h1 h2
    unfold pairs
    rw [List.mem_map]
    exact ⟨(a, b), (Verif.Props.mem_combinations2 _ _ _).2 ⟨h1, h2⟩, rfl⟩
  have hstep : ∀ a b, a < b → b < F.nuroots → ∀ T, Q (ovlpStep F sc T (F.addr a, F.addr b)) ∨
      (ovlpStep F sc T (F.addr a, F.addr b) u w = T u w ∧
        ((u = a ∧ w = b ∨ u = b ∧ w = a) → ¬ unmasked sc (F.addr a) (F.addr b) = true)) := by
    intro a b hab hb T
    have ha : a < F.nuroots := by omega
    unfold ovlpStep
    dsimp only
    by_cases h1 : F.nelec (F.addr a) ≠ F.nelec (F.addr b)
    · rw [if_pos h1]
      refine Or.inr ⟨rfl, ?_⟩
      rintro (⟨rfl, rfl⟩ | ⟨rfl, rfl⟩)
      · exact absurd hc h1
      · exact absurd hc.symm h1
    rw [if_neg h1]
    by_cases h2 : unmasked sc (F.addr a) (F.addr b) = true
    swap
    · rw [if_pos (by simp [h2])]
      exact Or.inr ⟨rfl, fun _ => h2⟩
    rw [if_neg (by simp [h2]), idx_addr hF ha, idx_addr hF hb]
    by_cases h3 : u = b ∧ w = a
    · obtain ⟨rfl, rfl⟩ := h3
      refine Or.inl ⟨_, put_self .., fun x hx y hy => ?_⟩
      rw [dotCi_eq F hc.symm hy hx, ovl_comm]
    by_cases h4 : u = a ∧ w = b
    · obtain ⟨rfl, rfl⟩ := h4
      refine Or.inl ⟨_, by rw [put_ne _ _ h3]; exact put_self .., fun x hx y hy => ?_⟩
      rw [dotCi_eq F hc hx hy]
    · refine Or.inr ⟨by rw [put_ne _ _ h3, put_ne _ _ h4], fun h => ?_⟩
      rcases h with h | h
      · exact absurd h h4
      · exact absurd h h3
  have hdiag : ∀ a, a < F.nuroots → ∀ T, Q (ovlpDiag F sc T (F.addr a)) ∨
      (ovlpDiag F sc T (F.addr a) u w = T u w ∧ ((u = a ∧ w = a) → ¬ unmasked sc (F.addr a) (F.addr a) = true)) := by
    intro a ha T
    unfold ovlpDiag
    by_cases h2 : unmasked sc (F.addr a) (F.addr a) = true
    swap
    · rw [if_pos (by simp [h2])]
      exact Or.inr ⟨rfl, fun _ => h2⟩
    rw [if_neg (by simp [h2]), idx_addr hF ha]
    by_cases h4 : u = a ∧ w = a
    · obtain ⟨rfl, rfl⟩ := h4
      refine Or.inl ⟨_, put_self .., fun x hx y hy => ?_⟩
      rw [dotCi_eq F hc hx hy]
    · exact Or.inr ⟨put_ne _ _ h4, fun h => absurd h h4⟩
  have hp1 : ∀ x ∈ pairs F.urootAddr, ∀ T, Q T → Q (ovlpStep F sc T x) := by
    intro x hx T hT
    obtain ⟨a, b, hab, hb, rfl⟩ := hmem x hx
    rcases hstep a b hab hb T with h | h
    · exact h
    · show ∃ d, _ = some d ∧ _
      rw [h.1]
      exact hT
  have hp2 : ∀ x ∈ F.urootAddr, ∀ T, Q T → Q (ovlpDiag F sc T x) := by
    intro x hx T hT
    obtain ⟨a, ha, rfl⟩ := List.getElem_of_mem hx
    rw [← addr_eq ha]
    rcases hdiag a ha T with h | h
    · exact h
    · show ∃ d, _ = some d ∧ _
      rw [h.1]
      exact hT
  unfold makeOvlp
  rcases h with h | h
  · rcases Nat.lt_trichotomy u w with huw | huw | huw
    · apply foldl_pres _ _ Q hp2
      refine foldl_set _ _ Q hp1 _ ⟨_, hmem' u w huw hw, fun T => ?_⟩
      rcases hstep u w huw hw T with h' | h'
      · exact h'
      · exact absurd h (h'.2 (Or.inl ⟨rfl, rfl⟩))
    · refine foldl_set _ _ Q hp2 _ ⟨F.addr u, by rw [addr_eq hu]; exact List.getElem_mem hu, fun T => ?_⟩
      rcases hdiag u hu T with h' | h'
      · exact h'
      · rw [← huw] at h
        exact absurd h (h'.2 ⟨rfl, huw.symm⟩)
    · apply foldl_pres _ _ Q hp2
      refine foldl_set _ _ Q hp1 _ ⟨_, hmem' w u huw hu, fun T => ?_⟩
      rcases hstep w u huw hu T with h' | h'
      · exact h'
      · refine absurd ?_ (h'.2 (Or.inr ⟨rfl, rfl⟩))
        unfold unmasked at h ⊢
        cases sc with
        | none => rfl
        | some l => simpa [or_comm] using h
  · apply foldl_pres _ _ Q hp2
    apply foldl_pres _ _ Q hp1
    exact h

/-- `_make_dms_` succeeds; every entry whose rootspaces are not screened out is right, and the others stay right. -/
theorem makeDms_spec (hP : Right12 P) (hF : Coherent F) (sc : Option (List Nat)) (M : Mats K) :
    ∃ M', makeDms P F sc M = some M' ∧ ∀ k u w, u < F.nuroots → w < F.nuroots → Conn F (F.addr u) (F.addr w) k →
      (unmasked sc (F.addr u) (F.addr w) = true ∨ At F M u w (F.addr u) (F.addr w) k) → At F M' u w (F.addr u) (F.addr w) k := by
  obtain ⟨M1, e1, p1, s1⟩ := fold_does (P := P) IsDm sc (dmStep P F sc) (spectators F)
    (fun M x hx => dm_does hP hF sc M x hx) { M with ovlp := makeOvlp F sc M.ovlp } (by
      intro k u w hu hw hS hc
      cases k <;> first | exact hS.elim | skip
      obtain ⟨hc1, hc2⟩ := hc
      simp only [spectators, List.mem_flatMap, List.mem_range, List.mem_map, List.mem_filter, Prod.mk.injEq, Bool.and_eq_true,
        decide_eq_true_eq, Bool.not_eq_true', decide_eq_false_iff_not]
      refine ⟨u, hu, w, ⟨hw, ?_, fun h => ?_⟩, rfl, rfl⟩
      · rw [hop_eq, hc1]; omega
      · have := addr_lt hw h; omega)
  obtain ⟨M2, e2, p2, s2⟩ := fold_does (P := P) IsUp sc (upStep P F sc) (upPairs F)
    (fun M x hx => up_does hP hF sc M x hx) M1 (by
      intro k u w hu hw hS hc
      have hneg : (F.hop u w).1 < 0 := by
        unfold Frag.hop
        cases k with
        | half s => cases hS; simp [Conn, plus, Prod.ext_iff] at hc; omega
        | pair s t hst => cases hS; cases t <;> simp [Conn, plus, Prod.ext_iff] at hc <;> omega
        | flip => simp [Conn, plus, Prod.ext_iff] at hc; omega
        | _ => exact hS.elim
      simp only [upPairs, List.mem_flatMap, List.mem_range, List.mem_map, List.mem_filter, Prod.mk.injEq, decide_eq_true_eq,
        List.any_eq_true]
      exact ⟨w, ⟨hw, u, hu, hneg⟩, u, ⟨hu, hneg⟩, rfl, rfl⟩)
  obtain ⟨M3, e3, p3, s3⟩ := fold_does (P := P) IsDown sc (downStep P F sc) (downPairs F)
    (fun M x hx => down_does hP hF sc M x hx) M2 (by
      intro k u w hu hw hS hc
      have hneg : (F.hop u w).2 < 0 := by
        unfold Frag.hop
        cases k with
        | half s => cases hS; simp [Conn, plus, Prod.ext_iff] at hc; omega
        | pair s t hst => cases hS; cases t <;> simp [Conn, plus, Prod.ext_iff] at hc <;> omega
        | _ => exact hS.elim
      simp only [downPairs, List.mem_flatMap, List.mem_range, List.mem_map, List.mem_filter, Prod.mk.injEq, decide_eq_true_eq,
        List.any_eq_true]
      exact ⟨w, ⟨hw, u, hu, hneg⟩, u, ⟨hu, hneg⟩, rfl, rfl⟩)
  refine ⟨M3, by unfold makeDms; rw [e1, Option.bind_some, e2, Option.bind_some, e3], ?_⟩
  intro k u w hu hw hc h
  have hkeep : At F M u w (F.addr u) (F.addr w) k → k ≠ .ovlp → At F M3 u w (F.addr u) (F.addr w) k := by
    intro h' hk
    refine p3 k u w hu hw (p2 k u w hu hw (p1 k u w hu hw ?_))
    cases k <;> first | exact absurd rfl hk | exact h'
  cases k with
  | ovlp => exact p3 _ u w hu hw (p2 _ u w hu hw (p1 _ u w hu hw (ovlp_spec hF sc M hu hw hc h)))
  | dm =>
    rcases h with h | h
    · exact p3 _ u w hu hw (p2 _ u w hu hw (s1 _ u w hu hw trivial hc h))
    · exact hkeep h (by simp)
  | flip =>
    rcases h with h | h
    · exact p3 _ u w hu hw (s2 _ u w hu hw trivial hc h)
    · exact hkeep h (by simp)
  | half s =>
    rcases h with h | h
    · cases s
      · exact p3 _ u w hu hw (s2 _ u w hu hw rfl hc h)
      · exact s3 _ u w hu hw rfl hc h
    · exact hkeep h (by simp)
  | pair s t hst =>
    rcases h with h | h
    · cases s
      · exact p3 _ u w hu hw (s2 _ u w hu hw rfl hc h)
      · exact s3 _ u w hu hw rfl hc h
    · exact hkeep h (by simp)

omit [DecidableEq K] in
/-- All entries together. -/
theorem filled_iff (hF : Coherent F) (M : Mats K) : Filled F M ↔ ∀ k u w, u < F.nuroots → w < F.nuroots →
    Conn F (F.addr u) (F.addr w) k → At F M u w (F.addr u) (F.addr w) k := by
  constructor
  · intro h k u w hu hw hc
    have au := addr_mem hu
    have aw := addr_mem hw
    have iu := idx_addr hF hu
    have iw := idx_addr hF hw
    cases k with
    | ovlp => have := h.ovlp _ au.1 _ aw.1 au.2 aw.2 hc; rw [iu, iw] at this; exact this
    | half s =>
      have h1 := h.h s _ au.1 _ aw.1 au.2 aw.2 hc
      have h2 := h.phh s _ au.1 _ aw.1 au.2 aw.2 hc
      rw [iu, iw] at h1 h2
      exact ⟨h1, h2⟩
    | pair s t hst => have := h.hh s t hst _ au.1 _ aw.1 au.2 aw.2 hc; rw [iu, iw] at this; exact this
    | flip => have := h.sm _ au.1 _ aw.1 au.2 aw.2 hc; rw [iu, iw] at this; exact this
    | dm =>
      have h1 := h.dm1 _ au.1 _ aw.1 au.2 aw.2 hc.1 hc.2
      have h2 := h.dm2 _ au.1 _ aw.1 au.2 aw.2 hc.1 hc.2
      rw [iu, iw] at h1 h2
      exact ⟨h1, h2⟩
  · intro h
    have key : ∀ k i j, i < F.nroots → j < F.nroots → F.unique i = true → F.unique j = true → Conn F i j k →
        At F M (F.urootIdx i) (F.urootIdx j) i j k := by
      intro k i j hi hj ui uj hc
      have := h k (F.urootIdx i) (F.urootIdx j) (idx_lt hF hi) (idx_lt hF hj)
      rw [addr_idx hF hi, addr_idx hF hj, hF.self i hi ui, hF.self j hj uj] at this
      exact this hc
    exact ⟨fun i hi j hj ui uj hc => key .ovlp i j hi hj ui uj hc, fun s i hi j hj ui uj hc => (key (.half s) i j hi hj ui uj hc).1,
      fun s i hi j hj ui uj hc => (key (.half s) i j hi hj ui uj hc).2,
      fun s t hst i hi j hj ui uj hc => key (.pair s t hst) i j hi hj ui uj hc,
      fun i hi j hj ui uj hc => key .flip i j hi hj ui uj hc,
      fun i hi j hj ui uj hc hle => (key .dm i j hi hj ui uj ⟨hc, hle⟩).1,
      fun i hi j hj ui uj hc hle => (key .dm i j hi hj ui uj ⟨hc, hle⟩).2⟩

end all

end Verif.FragTables
