import Verif.Lemmas.ProdRdm3
/-!
# The block updates of the three-body density matrix: distinct blocks, complete coverage
-/
namespace Verif.ProdRdm
open scoped BigOperators
open Verif.Spec.ProdRdm (Op Conserves Anticommutes word1 word2 word3 expect sumSpin)
variable {R : Type*} [CommRing R]

/-- A target given element by element. -/
def tgt (g : Nat × Nat → Nat × Nat → Nat × Nat → Nat × Nat → Nat × Nat → Nat × Nat → R) : List Nat → List Nat → R
  | [f1, f2, f3, f4, f5, f6], [a1, a2, a3, a4, a5, a6] => g (f1, a1) (f2, a2) (f3, a3) (f4, a4) (f5, a5) (f6, a6)
  | _, _ => 0

theorem assembled3 (F : Frags2 R) (dm3 : Nat → Arr R) (us3 : Nat × Nat × Nat → List (Upd R)) (us2 : Nat × Nat → List (Upd R))
    (g : Nat × Nat → Nat × Nat → Nat × Nat → Nat × Nat → Nat × Nat → Nat × Nat → R)
    (hlen3 : ∀ x, ∀ u ∈ us3 x, u.blk.length = 6) (hlen2 : ∀ x, ∀ u ∈ us2 x, u.blk.length = 6)
    (hval3 : ∀ i k m, i < k → k < m → ∀ u ∈ us3 (i, k, m), ∀ as, as.length = 6 → (if u.neg then -u.V as else u.V as) = tgt g u.blk as)
    (hval2 : ∀ i k, i ≠ k → ∀ u ∈ us2 (i, k), ∀ as, as.length = 6 → (if u.neg then -u.V as else u.V as) = tgt g u.blk as)
    (hsym3 : ∀ x, ∀ u ∈ us3 x, u.copies ≠ .none → PairSym (tgt g)) (hsym2 : ∀ x, ∀ u ∈ us2 x, u.copies ≠ .none → PairSym (tgt g))
    (hp3 : ∀ i k m, i < k → k < m → (us3 (i, k, m)).Pairwise fun u v => v.blk ∉ u.writes)
    (hp2 : ∀ i k, i ≠ k → (us2 (i, k)).Pairwise fun u v => v.blk ∉ u.writes)
    (hp33 : ∀ i k m i' k' m', i < k → k < m → i' < k' → k' < m' → ¬(i = i' ∧ k = k' ∧ m = m') →
      ∀ u ∈ us3 (i, k, m), ∀ v ∈ us3 (i', k', m'), v.blk ∉ u.writes)
    (hp22 : ∀ i k i' k', i ≠ k → i' ≠ k' → ¬(i = i' ∧ k = k') → ∀ u ∈ us2 (i, k), ∀ v ∈ us2 (i', k'), v.blk ∉ u.writes)
    (hp32 : ∀ i k m i' k', i < k → k < m → i' ≠ k' → ∀ u ∈ us3 (i, k, m), ∀ v ∈ us2 (i', k'), v.blk ∉ u.writes)
    (hn3 : ∀ i k m, i < k → k < m → ∀ u ∈ us3 (i, k, m), ∀ f, u.blk ≠ [f, f, f, f, f, f])
    (hn2 : ∀ i k, i ≠ k → ∀ u ∈ us2 (i, k), ∀ f, u.blk ≠ [f, f, f, f, f, f])
    (hz : ∀ f1 a1 f2 a2 f3 a3 f4 a4 f5 a5 f6 a6,
      (∀ i k m, i < k → k < m → i ∈ [f1, f3, f5] → k ∈ [f1, f3, f5] → m ∈ [f1, f3, f5] → ∀ u ∈ us3 (i, k, m), [f1, f2, f3, f4, f5, f6] ∉ u.writes) →
      (∀ i k, i ≠ k → i ∈ [f1, f3, f5] → k ∈ [f1, f3, f5] → ∀ u ∈ us2 (i, k), [f1, f2, f3, f4, f5, f6] ∉ u.writes) →
      (∀ f, [f1, f2, f3, f4, f5, f6] ≠ [f, f, f, f, f, f]) → g (f1, a1) (f2, a2) (f3, a3) (f4, a4) (f5, a5) (f6, a6) = 0)
    (hd : ∀ f a b c d e h, g (f, a) (f, b) (f, c) (f, d) (f, e) (f, h) = dm3 f [a, b, c, d, e, h])
    (p q r u v x : Nat × Nat) (hp : Spec.ProdRdm.Exists F.ncas p) (hq : Spec.ProdRdm.Exists F.ncas q)
    (hr : Spec.ProdRdm.Exists F.ncas r) (hu : Spec.ProdRdm.Exists F.ncas u) (hv : Spec.ProdRdm.Exists F.ncas v)
    (hx : Spec.ProdRdm.Exists F.ncas x) :
    ((comb3 F.ncas.length).flatMap us3 ++ (perm2 F.ncas.length).flatMap us2).foldl (Upd.apply F.ncas) (F.diag6 dm3 fun _ => 0)
      [Spec.ProdRdm.index F.ncas p, Spec.ProdRdm.index F.ncas q, Spec.ProdRdm.index F.ncas r, Spec.ProdRdm.index F.ncas u,
       Spec.ProdRdm.index F.ncas v, Spec.ProdRdm.index F.ncas x] = g p q r u v x := by
  have hE : ∀ x : Nat × Nat, Spec.ProdRdm.Exists F.ncas x → ∃ h : x.1 < F.ncas.length, x.2 < F.ncas[x.1] := by
    intro x hx
    unfold Spec.ProdRdm.Exists at hx
    by_cases hl : x.1 < F.ncas.length
    · refine ⟨hl, ?_⟩
      simpa [List.getD_eq_getElem?_getD, List.getElem?_eq_getElem hl] using hx
    · simp [List.getD_eq_getElem?_getD, List.getElem?_eq_none (Nat.le_of_not_lt hl)] at hx
  obtain ⟨f1, a1⟩ := p
  obtain ⟨f2, a2⟩ := q
  obtain ⟨f3, a3⟩ := r
  obtain ⟨f4, a4⟩ := u
  obtain ⟨f5, a5⟩ := v
  obtain ⟨f6, a6⟩ := x
  have hvd : Valid F.ncas [f1, f2, f3, f4, f5, f6] [a1, a2, a3, a4, a5, a6] :=
    (valid6 ..).2 ⟨hE _ hp, hE _ hq, hE _ hr, hE _ hu, hE _ hv, hE _ hx⟩
  have e : [Spec.ProdRdm.index F.ncas (f1, a1), Spec.ProdRdm.index F.ncas (f2, a2), Spec.ProdRdm.index F.ncas (f3, a3),
      Spec.ProdRdm.index F.ncas (f4, a4), Spec.ProdRdm.index F.ncas (f5, a5), Spec.ProdRdm.index F.ncas (f6, a6)] =
      pos F.ncas [f1, f2, f3, f4, f5, f6] [a1, a2, a3, a4, a5, a6] := rfl
  rw [e]
  have hmem : ∀ w ∈ (comb3 F.ncas.length).flatMap us3 ++ (perm2 F.ncas.length).flatMap us2,
      (∃ i k m, i < k ∧ k < m ∧ m < F.ncas.length ∧ w ∈ us3 (i, k, m)) ∨ (∃ i k, i < F.ncas.length ∧ k < F.ncas.length ∧ i ≠ k ∧ w ∈ us2 (i, k)) := by
    intro w hw
    rcases List.mem_append.1 hw with h | h
    · obtain ⟨⟨i, k, m⟩, hx, hw⟩ := List.mem_flatMap.1 h
      rw [mem_comb3] at hx
      exact Or.inl ⟨i, k, m, hx.1, hx.2.1, hx.2.2, hw⟩
    · obtain ⟨⟨i, k⟩, hx, hw⟩ := List.mem_flatMap.1 h
      rw [mem_perm2] at hx
      exact Or.inr ⟨i, k, hx.1, hx.2.1, hx.2.2, hw⟩
  have hlenU : ∀ w ∈ (comb3 F.ncas.length).flatMap us3 ++ (perm2 F.ncas.length).flatMap us2, w.blk.length = 6 := by
    intro w hw
    rcases hmem w hw with ⟨i, k, m, _, _, _, h⟩ | ⟨i, k, _, _, _, h⟩
    · exact hlen3 _ w h
    · exact hlen2 _ w h
  have key := run_ok F.ncas ((comb3 F.ncas.length).flatMap us3 ++ (perm2 F.ncas.length).flatMap us2) (tgt g) (F.diag6 dm3 fun _ => 0)
    hlenU (by
      intro w hw as hv
      have hl : as.length = 6 := (valid_length _ _ _ hv).trans (hlenU w hw)
      rcases hmem w hw with ⟨i, k, m, h1, h2, _, h⟩ | ⟨i, k, _, _, h1, h⟩
      · exact hval3 i k m h1 h2 w h as hl
      · exact hval2 i k h1 w h as hl) (by
      intro w hw
      rcases hmem w hw with ⟨i, k, m, h1, h2, _, h⟩ | ⟨i, k, _, _, h1, h⟩
      · exact hsym3 _ w h
      · exact hsym2 _ w h) (by
      rw [List.pairwise_append]
      refine ⟨?_, ?_, ?_⟩
      · rw [List.pairwise_flatMap]
        refine ⟨?_, ?_⟩
        · rintro ⟨i, k, m⟩ h
          rw [mem_comb3] at h
          exact hp3 i k m h.1 h.2.1
        · refine List.Pairwise.imp_of_mem ?_ (comb3_nodup F.ncas.length)
          rintro ⟨i, k, m⟩ ⟨i', k', m'⟩ ha hb hne u hu v hv
          rw [mem_comb3] at ha hb
          exact hp33 i k m i' k' m' ha.1 ha.2.1 hb.1 hb.2.1 (fun e => hne (by rw [e.1, e.2.1, e.2.2])) u hu v hv
      · rw [List.pairwise_flatMap]
        refine ⟨?_, ?_⟩
        · rintro ⟨i, k⟩ h
          rw [mem_perm2] at h
          exact hp2 i k h.2.2
        · refine List.Pairwise.imp_of_mem ?_ (perm2_nodup F.ncas.length)
          rintro ⟨i, k⟩ ⟨i', k'⟩ ha hb hne u hu v hv
          rw [mem_perm2] at ha hb
          exact hp22 i k i' k' ha.2.2 hb.2.2 (fun e => hne (by rw [e.1, e.2])) u hu v hv
      · intro u hu v hv
        obtain ⟨⟨i, k, m⟩, ha, hu⟩ := List.mem_flatMap.1 hu
        obtain ⟨⟨i', k'⟩, hb, hv⟩ := List.mem_flatMap.1 hv
        rw [mem_comb3] at ha
        rw [mem_perm2] at hb
        exact hp32 i k m i' k' ha.1 ha.2.1 hb.2.2 u hu v hv) (by
      intro w hw as hv
      refine (diag6_val F dm3 _ _ hv).2 ?_
      rcases hmem w hw with ⟨i, k, m, h1, h2, _, h⟩ | ⟨i, k, _, _, h1, h⟩
      · exact hn3 i k m h1 h2 w h
      · exact hn2 i k h1 w h) _ _ hvd
  by_cases hc : ∃ w ∈ (comb3 F.ncas.length).flatMap us3 ++ (perm2 F.ncas.length).flatMap us2, [f1, f2, f3, f4, f5, f6] ∈ w.writes
  · exact key.1 hc
  · rw [key.2 hc]
    have hlt : ∀ i ∈ [f1, f3, f5], i < F.ncas.length := by
      intro i hi
      simp only [List.mem_cons, List.not_mem_nil, or_false] at hi
      rcases hi with rfl | rfl | rfl
      · exact (hE _ hp).1
      · exact (hE _ hr).1
      · exact (hE _ hv).1
    by_cases hdg : ∃ f, [f1, f2, f3, f4, f5, f6] = [f, f, f, f, f, f]
    · obtain ⟨f, hf⟩ := hdg
      rw [(diag6_val F dm3 _ _ hvd).1 f hf]
      simp only [List.cons.injEq, and_true] at hf
      obtain ⟨rfl, rfl, rfl, rfl, rfl, rfl⟩ := hf
      rw [hd]
    · rw [(diag6_val F dm3 _ _ hvd).2 (fun f hf => hdg ⟨f, hf⟩)]
      refine (hz _ _ _ _ _ _ _ _ _ _ _ _ ?_ ?_ (fun f hf => hdg ⟨f, hf⟩)).symm
      · intro i k m h1 h2 _ _ hm w hw hin
        exact hc ⟨w, List.mem_append_left _ (List.mem_flatMap.2 ⟨(i, k, m), (mem_comb3 ..).2 ⟨h1, h2, hlt m hm⟩, hw⟩), hin⟩
      · intro i k h1 hi hk w hw hin
        exact hc ⟨w, List.mem_append_right _ (List.mem_flatMap.2 ⟨(i, k), (mem_perm2 ..).2 ⟨hlt i hi, hlt k hk, h1⟩, hw⟩), hin⟩

/-- The annihilators are in the fragments of the creators, in some order. -/
theorem perm_frags (f1 f2 f3 f4 f5 f6 : Nat)
    (h : ∀ k, [f1, f3, f5].count k = [f2, f4, f6].count k) :
    (f2 = f1 ∧ f4 = f3 ∧ f6 = f5) ∨ (f2 = f1 ∧ f4 = f5 ∧ f6 = f3) ∨ (f2 = f3 ∧ f4 = f1 ∧ f6 = f5) ∨
    (f2 = f3 ∧ f4 = f5 ∧ f6 = f1) ∨ (f2 = f5 ∧ f4 = f1 ∧ f6 = f3) ∨ (f2 = f5 ∧ f4 = f3 ∧ f6 = f1) := by
  have hp : [f1, f3, f5].Perm [f2, f4, f6] := List.perm_iff_count.2 h
  have two : ∀ a b c d : Nat, [a, b].Perm [c, d] → (c = a ∧ d = b) ∨ (c = b ∧ d = a) := by
    intro a b c d h
    have h1 : a ∈ [c, d] := h.mem_iff.1 (by simp)
    simp only [List.mem_cons, List.not_mem_nil, or_false] at h1
    rcases h1 with rfl | rfl
    · have := (List.perm_cons a).1 h
      rw [List.singleton_perm] at this
      left; simpa using this.symm
    · have := (List.perm_cons a).1 (h.trans (List.Perm.swap a c []))
      rw [List.singleton_perm] at this
      right; simpa using this.symm
  have h1 : f1 ∈ [f2, f4, f6] := hp.mem_iff.1 (by simp)
  simp only [List.mem_cons, List.not_mem_nil, or_false] at h1
  rcases h1 with e | e | e
  · subst e
    rcases two _ _ _ _ ((List.perm_cons _).1 hp) with ⟨h3, h4⟩ | ⟨h3, h4⟩ <;> simp [h3, h4]
  · subst e
    rcases two _ _ _ _ ((List.perm_cons _).1 (hp.trans (List.Perm.swap f1 f2 [f6]))) with ⟨h3, h4⟩ | ⟨h3, h4⟩ <;> simp [h3, h4]
  · subst e
    have : [f2, f4, f1].Perm [f1, f2, f4] := by
      have := (List.perm_append_comm (l₁ := [f2, f4]) (l₂ := [f1]))
      simpa using this
    rcases two _ _ _ _ ((List.perm_cons _).1 (hp.trans this)) with ⟨h3, h4⟩ | ⟨h3, h4⟩ <;> simp [h3, h4]

theorem expect_frags (E : Nat → List Op → R) (hc : Conserves E) (s t y : Bool) (p q r u v x : Nat × Nat)
    (h : expect E (word3 s t y p q r u v x) ≠ 0) :
    (q.1 = p.1 ∧ u.1 = r.1 ∧ x.1 = v.1) ∨ (q.1 = p.1 ∧ u.1 = v.1 ∧ x.1 = r.1) ∨ (q.1 = r.1 ∧ u.1 = p.1 ∧ x.1 = v.1) ∨
    (q.1 = r.1 ∧ u.1 = v.1 ∧ x.1 = p.1) ∨ (q.1 = v.1 ∧ u.1 = p.1 ∧ x.1 = r.1) ∨ (q.1 = v.1 ∧ u.1 = r.1 ∧ x.1 = p.1) := by
  apply perm_frags
  intro k
  by_contra hk
  apply h
  refine Spec.ProdRdm.expect_unbalanced E hc _ k ?_
  simp only [word3, Spec.ProdRdm.c, Spec.ProdRdm.d, List.countP_cons, List.countP_nil, Bool.true_and, Bool.false_and, Bool.not_true,
    Bool.not_false, Bool.false_eq_true, if_false]
  simp only [List.count_cons, List.count_nil] at hk
  omega

theorem expect_frags_aab (E : Nat → List Op → R) (hc : Conserves E) (s : Bool) (p q r u v x : Nat × Nat)
    (h : expect E (word3 s s (!s) p q r u v x) ≠ 0) :
    x.1 = v.1 ∧ ((q.1 = p.1 ∧ u.1 = r.1) ∨ (q.1 = r.1 ∧ u.1 = p.1)) := by
  have hs : ∀ k b, (([p.1, r.1].count k = [q.1, u.1].count k) ∨ b ≠ s) ∧ (([v.1].count k = [x.1].count k) ∨ b = s) := by
    intro k b
    have := mt (Spec.ProdRdm.expect_zero E hc (word3 s s (!s) p q r u v x) k b) h
    simp only [not_not] at this
    simp only [word3, Spec.ProdRdm.c, Spec.ProdRdm.d, List.countP_filter, List.countP_cons, List.countP_nil, Bool.true_and,
      Bool.false_and, Bool.not_true, Bool.not_false, Bool.false_eq_true, if_false] at this
    simp only [List.count_cons, List.count_nil]
    cases s <;> cases b <;> simp at this ⊢ <;> omega
  have h1 := fun k => (hs k s).1.resolve_right (by simp)
  have h2 := fun k => (hs k (!s)).2.resolve_right (by cases s <;> simp)
  refine ⟨?_, ?_⟩
  · have := h2 v.1
    simp only [List.count_cons, List.count_nil, beq_self_eq_true, if_true] at this
    by_contra hne
    rw [if_neg (by simpa using hne)] at this
    omega
  · have hp : [p.1, r.1].Perm [q.1, u.1] := List.perm_iff_count.2 h1
    have h3 : p.1 ∈ [q.1, u.1] := hp.mem_iff.1 (by simp)
    simp only [List.mem_cons, List.not_mem_nil, or_false] at h3
    rcases h3 with e | e
    · rw [e] at hp ⊢
      have := (List.perm_cons _).1 hp
      rw [List.singleton_perm] at this
      left; exact ⟨rfl, by simpa using this.symm⟩
    · rw [e] at hp ⊢
      have := (List.perm_cons _).1 (hp.trans (List.Perm.swap u.1 q.1 []))
      rw [List.singleton_perm] at this
      right; exact ⟨by simpa using this.symm, rfl⟩

theorem expect_frags_abb (E : Nat → List Op → R) (hc : Conserves E) (ha : Anticommutes E) (s : Bool) (p q r u v x : Nat × Nat)
    (h : expect E (word3 s (!s) (!s) p q r u v x) ≠ 0) :
    q.1 = p.1 ∧ ((u.1 = r.1 ∧ x.1 = v.1) ∨ (u.1 = v.1 ∧ x.1 = r.1)) := by
  rw [Spec.ProdRdm.expect_swap12 E ha, Spec.ProdRdm.expect_swap23 E ha] at h
  have := expect_frags_aab E hc (!s) r u v x p q (by simpa using h)
  tauto

open Verif.Spec.ProdRdm in
theorem expect3_G2 (E : Nat → List Op → R) (ha : Anticommutes E) (s t y : Bool) (f g a1 a2 a3 a4 a5 a6 : Nat) (hfg : f ≠ g) :
    expect E (word3 s t y (f, a1) (f, a2) (g, a3) (g, a4) (f, a5) (f, a6)) =
      E f (word2 s y (f, a1) (f, a2) (f, a5) (f, a6)) * E g (word1 t (g, a3) (g, a4)) := by
  rw [expect_swap23 E ha, expect3_G E _ _ _ _ _ _ _ _ _ _ _ hfg]

open Verif.Spec.ProdRdm in
theorem expect3_G3 (E : Nat → List Op → R) (ha : Anticommutes E) (s t y : Bool) (f g a1 a2 a3 a4 a5 a6 : Nat) (hfg : f ≠ g) :
    expect E (word3 s t y (g, a1) (g, a2) (f, a3) (f, a4) (f, a5) (f, a6)) =
      E f (word2 t y (f, a3) (f, a4) (f, a5) (f, a6)) * E g (word1 s (g, a1) (g, a2)) := by
  rw [expect_swap12 E ha, expect3_G2 E ha _ _ _ _ _ _ _ _ _ _ _ hfg]

open Verif.Spec.ProdRdm in
theorem expect3_H2 (E : Nat → List Op → R) (hc : Conserves E) (ha : Anticommutes E) (s t y : Bool) (f g a1 a2 a3 a4 a5 a6 : Nat)
    (hfg : f ≠ g) : expect E (word3 s t y (f, a1) (f, a2) (g, a3) (f, a4) (f, a5) (g, a6)) =
      if y = t then -(E f (word2 s y (f, a1) (f, a2) (f, a5) (f, a4)) * E g (word1 y (g, a3) (g, a6))) else 0 := by
  rw [expect_swap23 E ha, expect3_H E hc _ _ _ _ _ _ _ _ _ _ _ hfg]

open Verif.Spec.ProdRdm in
theorem expect3_H4 (E : Nat → List Op → R) (hc : Conserves E) (ha : Anticommutes E) (s t y : Bool) (f g a1 a2 a3 a4 a5 a6 : Nat)
    (hfg : f ≠ g) : expect E (word3 s t y (f, a1) (g, a2) (g, a3) (f, a4) (f, a5) (f, a6)) =
      if s = t then -(E f (word2 s y (f, a1) (f, a4) (f, a5) (f, a6)) * E g (word1 s (g, a3) (g, a2))) else 0 := by
  rw [expect_swap23 E ha, expect_swap12 E ha, expect3_H E hc _ _ _ _ _ _ _ _ _ _ _ hfg, pair_swap E ha]

open Verif.Spec.ProdRdm in
theorem expect3_H3 (E : Nat → List Op → R) (hc : Conserves E) (ha : Anticommutes E) (s t y : Bool) (f g a1 a2 a3 a4 a5 a6 : Nat)
    (hfg : f ≠ g) : expect E (word3 s t y (g, a1) (f, a2) (f, a3) (g, a4) (f, a5) (f, a6)) =
      if t = s then -(E f (word2 t y (f, a3) (f, a2) (f, a5) (f, a6)) * E g (word1 t (g, a1) (g, a4))) else 0 := by
  rw [expect_swap12 E ha, expect3_H4 E hc ha _ _ _ _ _ _ _ _ _ _ _ hfg]

end Verif.ProdRdm
