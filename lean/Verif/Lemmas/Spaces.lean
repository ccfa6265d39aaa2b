import Verif.Spec.Spaces
import Mathlib.Data.List.GetD
import Mathlib.Tactic.Ring
import Mathlib.Tactic.Linarith
import Mathlib.Algebra.BigOperators.Group.List.Basic
/-!
# Lemmas about rootspaces
-/
namespace Verif.Spaces
open Verif.Spec

theorem bump_length (l : List Int) (i : Nat) (d : Int) : (bump l i d).length = l.length := by simp [bump]

theorem el_bump (l : List Int) (i k : Nat) (d : Int) (hi : i < l.length) :
    el (bump l i d) k = el l k + if k = i then d else 0 := by
  unfold el bump
  rw [List.getD_eq_getElem?_getD, List.getD_eq_getElem?_getD, List.getElem?_modify]
  by_cases h : k = i
  · subst h
    simp [List.getElem?_eq_getElem hi]
  · have h' : ¬ i = k := fun e => h e.symm
    simp [h, h']

theorem sum_bump (l : List Int) (i : Nat) (d : Int) (hi : i < l.length) : (bump l i d).sum = l.sum + d := by
  unfold bump
  induction l generalizing i with
  | nil => simp at hi
  | cons x xs ih =>
    cases i with
    | zero => simp; ring
    | succ i =>
      rw [List.modify_succ_cons, List.sum_cons, List.sum_cons, ih i (by simpa using hi)]
      ring

theorem ext_el {a b : List Int} (hl : a.length = b.length) (h : ∀ i, i < a.length → el a i = el b i) : a = b := by
  apply List.ext_getElem hl
  intro i h1 h2
  have := h i h1
  simpa [el, List.getD_eq_getElem?_getD, List.getElem?_eq_getElem, h1, h2] using this

theorem eq_iff (a b : Space) (ha : Shaped a) (hb : Shaped b) : a.eq b = true ↔ SameNumbers a b := by
  unfold Space.eq SameNumbers
  obtain ⟨-, a1, a2, a3⟩ := ha
  obtain ⟨-, b1, b2, b3⟩ := hb
  by_cases h : a.nfrag = b.nfrag
  · simp only [h, ne_eq, not_true, if_false, Bool.and_eq_true, decide_eq_true_eq, true_and]
    constructor
    · rintro ⟨⟨h1, h2⟩, h3⟩ i _
      rw [h1, h2, h3]; exact ⟨rfl, rfl, rfl⟩
    · intro hi
      refine ⟨⟨?_, ?_⟩, ?_⟩
      · exact ext_el (by omega) (fun i hi' => (hi i (by omega)).1)
      · exact ext_el (by omega) (fun i hi' => (hi i (by omega)).2.1)
      · exact ext_el (by omega) (fun i hi' => (hi i (by omega)).2.2)
  · simp [h]

theorem sameNumbers_refl (a : Space) : SameNumbers a a := ⟨rfl, fun _ _ => ⟨rfl, rfl, rfl⟩⟩

theorem sameNumbers_symm {a b : Space} (h : SameNumbers a b) : SameNumbers b a :=
  ⟨h.1.symm, fun i hi => by
    obtain ⟨h1, h2, h3⟩ := h.2 i (by rw [h.1]; exact hi)
    exact ⟨h1.symm, h2.symm, h3.symm⟩⟩

theorem sameNumbers_trans {a b c : Space} (h : SameNumbers a b) (h' : SameNumbers b c) : SameNumbers a c :=
  ⟨h.1.trans h'.1, fun i hi => by
    obtain ⟨h1, h2, h3⟩ := h.2 i hi
    obtain ⟨g1, g2, g3⟩ := h'.2 i (by rw [← h.1]; exact hi)
    exact ⟨h1.trans g1, h2.trans g2, h3.trans g3⟩⟩

theorem hashKey_eq {a b : Space} (ha : Shaped a) (hb : Shaped b) (h : SameNumbers a b) (he : a.entmap = b.entmap) :
    a.hashKey = b.hashKey := by
  have := (eq_iff a b ha hb).mpr h
  unfold Space.eq at this
  rw [if_neg (by simpa using h.1)] at this
  simp only [Bool.and_eq_true, decide_eq_true_eq] at this
  unfold Space.hashKey
  rw [this.1.1, this.1.2, this.2, he, h.1]

theorem pyIn_of_same (h : List Space.HashItem → Int) (seen : List Space) (x y : Space) (hy : y ∈ seen)
    (hk : h y.hashKey = h x.hashKey) (he : y.eq x = true) : pyIn h seen x = true := by
  unfold pyIn
  rw [List.any_eq_true]
  exact ⟨y, hy, by simp [hk, he]⟩

theorem pyIn_iff (h : List Space.HashItem → Int) (seen : List Space) (x : Space) :
    pyIn h seen x = true ↔ ∃ y ∈ seen, h y.hashKey = h x.hashKey ∧ y.eq x = true := by
  unfold pyIn
  rw [List.any_eq_true]
  simp

/-- Counts of a fragment in terms of its occupation. -/
theorem occ_counts {sp : Space} {i : Nat} {na nb : Int} (h : FragOcc sp i na nb) :
    sp.neleca i = na ∧ sp.nelecb i = nb := by
  obtain ⟨h1, h2⟩ := h
  unfold Space.neleca Space.nelecb Space.nelec
  omega

theorem validChange_mem (sp : Space) (i : Nat) (da db : Int) (hd : |da| + |db| = 1) (hok : FragOk sp i) (ds : Int) :
    ds ∈ sp.getValidSmultChange i da db ↔
      (ds = -1 ∨ ds = 1) ∧
        Realizable (el sp.nlas i) (sp.neleca i + da) (sp.nelecb i + db) (el sp.smults i + ds) := by
  obtain ⟨na, nb, hocc, hreal⟩ := hok
  obtain ⟨e1, e2⟩ := occ_counts hocc
  unfold Space.getValidSmultChange
  simp only [e1, e2]
  unfold Realizable at *
  obtain ⟨r1, r2, r3, r4, r5, r6, r7, r8⟩ := hreal
  generalize el sp.nlas i = norb at *
  generalize el sp.smults i = sm at *
  clear hocc e1 e2
  rw [abs_le] at r5
  have hcase : (da = 1 ∧ db = 0) ∨ (da = -1 ∧ db = 0) ∨ (da = 0 ∧ db = 1) ∨ (da = 0 ∧ db = -1) := by
    rcases abs_cases da with ⟨h1, _⟩ | ⟨h1, _⟩ <;> rcases abs_cases db with ⟨h2, _⟩ | ⟨h2, _⟩ <;> omega
  have key : ∀ A : Int, A = |na + da - (nb + db)| →
      (na + da - (nb + db) ≤ A ∧ -(na + da - (nb + db)) ≤ A ∧
        (A = na + da - (nb + db) ∨ A = -(na + da - (nb + db)))) := by
    intro A hA
    rcases abs_cases (na + da - (nb + db)) with ⟨h1, h2⟩ | ⟨h1, h2⟩ <;> omega
  obtain ⟨k1, k2, k3⟩ := key _ rfl
  generalize |na + da - (nb + db)| = A at *
  have hmem : ∀ (p q : Prop) [Decidable p] [Decidable q],
      (ds ∈ (if p then ([-1] : List Int) else []) ++ (if q then [1] else [])) ↔ (ds = -1 ∧ p) ∨ (ds = 1 ∧ q) := by
    intro p q _ _
    by_cases hp : p <;> by_cases hq : q <;> simp [hp, hq]
  rw [hmem]
  rcases hcase with ⟨rfl, rfl⟩ | ⟨rfl, rfl⟩ | ⟨rfl, rfl⟩ | ⟨rfl, rfl⟩ <;>
  · constructor
    · rintro (⟨rfl, h⟩ | ⟨rfl, h⟩) <;> simp only [true_or, or_true, true_and] <;> omega
    · rintro ⟨rfl | rfl, h⟩
      · left; omega
      · right; omega

/-- The rootspace `get_single` returns if it returns. -/
def raw (sp : Space) (i a : Nat) (m si sa : Int) : Space :=
  ⟨sp.nlas, sp.nelelas, bump (bump sp.spins i (-(1 - 2 * m))) a (1 - 2 * m), bump (bump sp.smults i si) a sa,
    bump (bump sp.charges i 1) a (-1), 0, []⟩

theorem getSingle_ok_iff (f : NCsf) (hf : CsfCounts f) (sp new : Space) (i a : Nat) (m si sa : Int) :
    sp.getSingle f i a m si sa = .ok new ↔
      new = raw sp i a m si sa ∧
      Realizable (el sp.nlas i) ((raw sp i a m si sa).neleca i) ((raw sp i a m si sa).nelecb i)
        (el (raw sp i a m si sa).smults i) ∧
      Realizable (el sp.nlas a) ((raw sp i a m si sa).neleca a) ((raw sp i a m si sa).nelecb a)
        (el (raw sp i a m si sa).smults a) := by
  have hraw : sp.getSingle f i a m si sa = (do
      let r := raw sp i a m si sa
      let i_ncsf ← csf f (el sp.nlas i) (r.neleca i) (r.nelecb i) (el r.smults i)
      let a_ncsf ← csf f (el sp.nlas a) (r.neleca a) (r.nelecb a) (el r.smults a)
      if r.neleca a = el sp.nlas a ∧ r.nelecb a = el sp.nlas a ∧ el r.smults a > 1 then
        throw .impossibleSpin
      if r.neleca i = 0 ∧ r.nelecb i = 0 ∧ el r.smults i > 1 then
        throw .impossibleSpin
      assert' (decide (r.neleca i ≥ 0))
      assert' (decide (r.nelecb i ≥ 0))
      assert' (decide (r.neleca a ≥ 0))
      assert' (decide (r.nelecb a ≥ 0))
      assert' (decide (i_ncsf ≠ 0))
      assert' (decide (a_ncsf ≠ 0))
      pure r) := rfl
  rw [hraw]
  generalize raw sp i a m si sa = r
  simp only []
  have hI := hf (el sp.nlas i) (r.neleca i) (r.nelecb i) (el r.smults i)
  have hA := hf (el sp.nlas a) (r.neleca a) (r.nelecb a) (el r.smults a)
  rw [← hI, ← hA]
  unfold csf
  cases e1 : f (el sp.nlas i) (r.neleca i) (r.nelecb i) (el r.smults i) with
  | none => simp [bind, Except.bind]
  | some k1 =>
    cases e2 : f (el sp.nlas a) (r.neleca a) (r.nelecb a) (el r.smults a) with
    | none => simp [bind, Except.bind]
    | some k2 =>
      rw [e1] at hI
      rw [e2] at hA
      simp only [Option.some.injEq, exists_eq_left'] at hI hA
      by_cases h1 : k1 ≠ 0
      · by_cases h2 : k2 ≠ 0
        · obtain ⟨i1, i2, i3, i4, i5, i6, i7, i8⟩ := hI.mp h1
          obtain ⟨a1, a2, a3, a4, a5, a6, a7, a8⟩ := hA.mp h2
          have n1 : ¬ (r.neleca a = el sp.nlas a ∧ r.nelecb a = el sp.nlas a ∧ el r.smults a > 1) := by omega
          have n2 : ¬ (r.neleca i = 0 ∧ r.nelecb i = 0 ∧ el r.smults i > 1) := by omega
          simp only [bind, Except.bind, n1, n2, if_false, assert', i1, i2, a1, a2, h1, h2, ge_iff_le, decide_true,
            if_true, pure, Except.pure, Option.some.injEq, exists_eq_left', ne_eq, not_false_eq_true, and_true]
          constructor
          · intro h; exact (Except.ok.inj h).symm
          · intro h; rw [h]
        · constructor
          · intro h
            exfalso
            simp only [not_not] at h2
            subst h2
            simp only [bind, Except.bind, assert', ne_eq, not_true, decide_false] at h
            split_ifs at h <;> simp_all [throw, throwThe, MonadExceptOf.throw, pure, Except.pure]
          · rintro ⟨-, -, k, hk, hk'⟩
            exact absurd (by rw [Option.some.inj hk]; exact hk') h2
      · constructor
        · intro h
          exfalso
          simp only [not_not] at h1
          subst h1
          simp only [bind, Except.bind, assert', ne_eq, not_true, decide_false] at h
          split_ifs at h <;> simp_all [throw, throwThe, MonadExceptOf.throw, pure, Except.pure]
        · rintro ⟨-, ⟨k, hk, hk'⟩, -⟩
          exact absurd (by rw [Option.some.inj hk]; exact hk') h1

theorem raw_shaped (sp : Space) (h : Shaped sp) (i a : Nat) (m si sa : Int) : Shaped (raw sp i a m si sa) := by
  obtain ⟨h1, h2, h3, h4⟩ := h
  unfold Shaped raw
  simp only [bump_length, Space.nfrag] at *
  exact ⟨h1, h2, h3, h4⟩

theorem raw_el (sp : Space) (h : Shaped sp) (i a : Nat) (hi : i < sp.nfrag) (ha : a < sp.nfrag) (m si sa : Int)
    (k : Nat) :
    el (raw sp i a m si sa).charges k = el sp.charges k + (if k = i then 1 else 0) + (if k = a then -1 else 0) ∧
    el (raw sp i a m si sa).spins k =
      el sp.spins k + (if k = i then -(1 - 2 * m) else 0) + (if k = a then 1 - 2 * m else 0) ∧
    el (raw sp i a m si sa).smults k = el sp.smults k + (if k = i then si else 0) + (if k = a then sa else 0) := by
  obtain ⟨h1, h2, h3, h4⟩ := h
  unfold raw
  simp only []
  refine ⟨?_, ?_, ?_⟩
  · rw [el_bump _ _ _ _ (by rw [bump_length, h4]; exact ha), el_bump _ _ _ _ (by rw [h4]; exact hi)]
  · rw [el_bump _ _ _ _ (by rw [bump_length, h2]; exact ha), el_bump _ _ _ _ (by rw [h2]; exact hi)]
  · rw [el_bump _ _ _ _ (by rw [bump_length, h3]; exact ha), el_bump _ _ _ _ (by rw [h3]; exact hi)]

/-- Occupations after a move between different fragments; `m` is 0 (alpha) or 1 (beta). -/
theorem raw_occ (sp : Space) (h : Shaped sp) (i a : Nat) (hi : i < sp.nfrag) (ha : a < sp.nfrag) (hia : i ≠ a)
    (alpha : Bool) (si sa : Int) :
    (∀ na nb, FragOcc sp i na nb → FragOcc (raw sp i a (if alpha then 0 else 1) si sa) i
      (na + if alpha then -1 else 0) (nb + if alpha then 0 else -1)) ∧
    (∀ na nb, FragOcc sp a na nb → FragOcc (raw sp i a (if alpha then 0 else 1) si sa) a
      (na + if alpha then 1 else 0) (nb + if alpha then 0 else 1)) := by
  obtain ⟨c1, c2, -⟩ := raw_el sp h i a hi ha (if alpha then 0 else 1) si sa i
  obtain ⟨d1, d2, -⟩ := raw_el sp h i a hi ha (if alpha then 0 else 1) si sa a
  have hai : ¬ a = i := fun e => hia e.symm
  simp only [hia, hai, if_true, if_false] at c1 c2 d1 d2
  unfold FragOcc
  rw [c1, c2, d1, d2]
  have e : (raw sp i a (if alpha then 0 else 1) si sa).nelelas = sp.nelelas := rfl
  rw [e]
  constructor <;> intro na nb hocc <;> cases alpha <;> simp at * <;> omega

theorem mem_wherePos (n : Nat) (v : Nat → Int) (i : Nat) : i ∈ Space.wherePos n v ↔ i < n ∧ v i > 0 := by
  simp [Space.wherePos]

theorem mem_product2 {α β : Type} (xs : List α) (ys : List β) (x : α) (y : β) :
    (x, y) ∈ Space.product2 xs ys ↔ x ∈ xs ∧ y ∈ ys := by
  simp [Space.product2]

theorem foldlM_append {α β : Type} (g : List β → α → Except Err (List β)) (u : α → List β) (xs : List α)
    (h : ∀ x ∈ xs, ∀ acc, g acc x = .ok (acc ++ u x)) (acc : List β) :
    xs.foldlM g acc = .ok (acc ++ xs.flatMap u) := by
  induction xs generalizing acc with
  | nil => simp [pure, Except.pure]
  | cons x xs ih =>
    rw [List.foldlM_cons, h x (List.mem_cons_self ..)]
    simp only [bind, Except.bind]
    rw [ih (fun y hy => h y (List.mem_cons_of_mem _ hy))]
    simp

/-- The list `get_singles` builds in one loop. -/
def singlesList (sp : Space) (mask : Nat → Nat → Bool) (alpha : Bool) (ia : Nat × Nat) : List Space :=
  if ia.1 = ia.2 ∨ mask ia.1 ia.2 = false then [] else
    (Space.product2 (sp.getValidSmultChange ia.1 (if alpha then -1 else 0) (if alpha then 0 else -1))
      (sp.getValidSmultChange ia.2 (if alpha then 1 else 0) (if alpha then 0 else 1))).map
      (fun s => raw sp ia.1 ia.2 (if alpha then 0 else 1) s.1 s.2)

theorem singlesFor_eq (f : NCsf) (hf : CsfCounts f) (sp : Space) (h : Shaped sp) (hok : ∀ k, k < sp.nfrag → FragOk sp k)
    (mask : Nat → Nat → Bool) (alpha : Bool) (ia : Nat × Nat) (hi : ia.1 < sp.nfrag) (ha : ia.2 < sp.nfrag)
    (acc : List Space) :
    sp.singlesFor f mask (if alpha then 0 else 1) ia acc = .ok (acc ++ singlesList sp mask alpha ia) := by
  obtain ⟨i, a⟩ := ia
  unfold Space.singlesFor singlesList
  simp only [] at hi ha ⊢
  by_cases hia : i = a
  · simp [hia]
  by_cases hm : mask i a = true
  swap
  · simp [hia, hm]
  have e1 : (if (if alpha then (0 : Int) else 1) = 0 then (-1 : Int) else 0) = if alpha then -1 else 0 := by
    cases alpha <;> simp
  have e2 : (if (if alpha then (0 : Int) else 1) = 0 then (0 : Int) else -1) = if alpha then 0 else -1 := by
    cases alpha <;> simp
  have e3 : (if (if alpha then (0 : Int) else 1) = 0 then (1 : Int) else 0) = if alpha then 1 else 0 := by
    cases alpha <;> simp
  have e4 : (if (if alpha then (0 : Int) else 1) = 0 then (0 : Int) else 1) = if alpha then 0 else 1 := by
    cases alpha <;> simp
  simp only [hia, hm, if_false, Bool.not_true, Bool.false_eq_true, Bool.true_eq_false, or_self, e1, e2, e3, e4]
  rw [foldlM_append _ (fun s => [raw sp i a (if alpha then 0 else 1) s.1 s.2])]
  · rw [List.map_eq_flatMap]
  · rintro ⟨si, sa⟩ hs acc
    rw [mem_product2] at hs
    have h1 := (validChange_mem sp i _ _ (by cases alpha <;> simp) (hok i hi) si).mp hs.1
    have h2 := (validChange_mem sp a _ _ (by cases alpha <;> simp) (hok a ha) sa).mp hs.2
    obtain ⟨na, nb, o1, -⟩ := hok i hi
    obtain ⟨na', nb', o2, -⟩ := hok a ha
    obtain ⟨r1, r2⟩ := raw_occ sp h i a hi ha hia alpha si sa
    have q1 := occ_counts (r1 _ _ o1)
    have q2 := occ_counts (r2 _ _ o2)
    have p1 := occ_counts o1
    have p2 := occ_counts o2
    have s1 := (raw_el sp h i a hi ha (if alpha then 0 else 1) si sa i).2.2
    have s2 := (raw_el sp h i a hi ha (if alpha then 0 else 1) si sa a).2.2
    have hai : ¬ a = i := fun e => hia e.symm
    simp only [hia, hai, if_true, if_false, add_zero] at s1 s2
    have : sp.getSingle f i a (if alpha then 0 else 1) si sa = .ok (raw sp i a (if alpha then 0 else 1) si sa) := by
      rw [getSingle_ok_iff f hf]
      refine ⟨rfl, ?_, ?_⟩
      · rw [q1.1, q1.2, s1, ← p1.1, ← p1.2]; exact h1.2
      · rw [q2.1, q2.2, s2, ← p2.1, ← p2.2]; exact h2.2
    simp only [this]

theorem getSingles_eq (f : NCsf) (hf : CsfCounts f) (sp : Space) (h : Shaped sp)
    (hok : ∀ k, k < sp.nfrag → FragOk sp k) (mask : Nat → Nat → Bool) :
    sp.getSingles f mask = .ok
      ((Space.product2 (Space.wherePos sp.nfrag sp.neleca) (Space.wherePos sp.nfrag sp.nholea)).flatMap
          (singlesList sp mask true) ++
        (Space.product2 (Space.wherePos sp.nfrag sp.nelecb) (Space.wherePos sp.nfrag sp.nholeb)).flatMap
          (singlesList sp mask false)) := by
  unfold Space.getSingles
  rw [foldlM_append _ (singlesList sp mask true)]
  · simp only [bind, Except.bind]
    rw [foldlM_append _ (singlesList sp mask false)]
    · simp
    · rintro ⟨i, a⟩ hia acc
      rw [mem_product2, mem_wherePos, mem_wherePos] at hia
      exact singlesFor_eq f hf sp h hok mask false (i, a) hia.1.1 hia.2.1 acc
  · rintro ⟨i, a⟩ hia acc
    rw [mem_product2, mem_wherePos, mem_wherePos] at hia
    exact singlesFor_eq f hf sp h hok mask true (i, a) hia.1.1 hia.2.1 acc

theorem raw_singleExc (sp : Space) (h : Shaped sp) (hok : ∀ k, k < sp.nfrag → FragOk sp k) (i a : Nat)
    (hi : i < sp.nfrag) (ha : a < sp.nfrag) (hia : i ≠ a) (alpha : Bool) (si sa : Int)
    (hsi : si ∈ sp.getValidSmultChange i (if alpha then -1 else 0) (if alpha then 0 else -1))
    (hsa : sa ∈ sp.getValidSmultChange a (if alpha then 1 else 0) (if alpha then 0 else 1)) :
    SingleExc sp (raw sp i a (if alpha then 0 else 1) si sa) i a alpha := by
  have h1 := (validChange_mem sp i _ _ (by cases alpha <;> simp) (hok i hi) si).mp hsi
  have h2 := (validChange_mem sp a _ _ (by cases alpha <;> simp) (hok a ha) sa).mp hsa
  obtain ⟨na, nb, o1, -⟩ := hok i hi
  obtain ⟨na', nb', o2, -⟩ := hok a ha
  obtain ⟨r1, r2⟩ := raw_occ sp h i a hi ha hia alpha si sa
  have p1 := occ_counts o1
  have p2 := occ_counts o2
  have hai : ¬ a = i := fun e => hia e.symm
  have s1 := (raw_el sp h i a hi ha (if alpha then 0 else 1) si sa i).2.2
  have s2 := (raw_el sp h i a hi ha (if alpha then 0 else 1) si sa a).2.2
  simp only [hia, hai, if_true, if_false, add_zero] at s1 s2
  refine ⟨raw_shaped sp h _ _ _ _ _, ⟨rfl, rfl⟩, ?_, ?_, ?_, ?_, ?_, ?_⟩
  · intro k hki hka
    obtain ⟨c1, c2, c3⟩ := raw_el sp h i a hi ha (if alpha then 0 else 1) si sa k
    simp only [hki, hka, if_false, add_zero] at c1 c2 c3
    exact ⟨c1, c2, c3⟩
  · intro na nb hocc
    have := r1 na nb hocc
    cases alpha
    · simpa [sub_eq_add_neg] using this
    · simpa [sub_eq_add_neg] using this
  · intro na nb hocc
    have := r2 na nb hocc
    cases alpha
    · simpa using this
    · simpa using this
  · rw [s1, s2]
    rcases h1.1 with rfl | rfl <;> rcases h2.1 with rfl | rfl <;> simp
  · exact ⟨_, _, r1 _ _ o1, by rw [s1, ← p1.1, ← p1.2]; exact h1.2⟩
  · exact ⟨_, _, r2 _ _ o2, by rw [s2, ← p2.1, ← p2.2]; exact h2.2⟩

theorem singleExc_raw (sp new : Space) (h : Shaped sp) (hok : ∀ k, k < sp.nfrag → FragOk sp k) (i a : Nat)
    (hi : i < sp.nfrag) (ha : a < sp.nfrag) (hia : i ≠ a) (alpha : Bool) (hexc : SingleExc sp new i a alpha)
    (hw : new.weight = 0) (he : new.entmap = []) :
    ∃ si sa, new = raw sp i a (if alpha then 0 else 1) si sa ∧
      si ∈ sp.getValidSmultChange i (if alpha then -1 else 0) (if alpha then 0 else -1) ∧
      sa ∈ sp.getValidSmultChange a (if alpha then 1 else 0) (if alpha then 0 else 1) ∧
      (if alpha then sp.neleca i > 0 ∧ sp.nholea a > 0 else sp.nelecb i > 0 ∧ sp.nholeb a > 0) := by
  obtain ⟨hsh, ⟨ho1, ho2⟩, hoth, hsrc, hdst, ⟨hm1, hm2⟩, hoki, hoka⟩ := hexc
  have hai : ¬ a = i := fun e => hia e.symm
  obtain ⟨na, nb, o1, -⟩ := hok i hi
  obtain ⟨na', nb', o2, -⟩ := hok a ha
  have hs := hsrc _ _ o1
  have hd := hdst _ _ o2
  have p1 := occ_counts o1
  have p2 := occ_counts o2
  obtain ⟨xa, xb, ox, rx⟩ := hoki
  obtain ⟨ya, yb, oy, ry⟩ := hoka
  have q1 := occ_counts ox
  have q2 := occ_counts oy
  have hnf : new.nfrag = sp.nfrag := by unfold Space.nfrag; rw [ho1]
  refine ⟨el new.smults i - el sp.smults i, el new.smults a - el sp.smults a, ?_, ?_, ?_, ?_⟩
  · obtain ⟨n1, n2, n3, n4⟩ := hsh
    obtain ⟨n1', n2', n3', n4'⟩ := raw_shaped sp h i a (if alpha then 0 else 1) (el new.smults i - el sp.smults i)
      (el new.smults a - el sp.smults a)
    have hrn : (raw sp i a (if alpha then 0 else 1) (el new.smults i - el sp.smults i)
      (el new.smults a - el sp.smults a)).nfrag = sp.nfrag := rfl
    have hel := raw_el sp h i a hi ha (if alpha then 0 else 1) (el new.smults i - el sp.smults i)
      (el new.smults a - el sp.smults a)
    have key : ∀ k, el new.charges k = el (raw sp i a (if alpha then 0 else 1) (el new.smults i - el sp.smults i)
        (el new.smults a - el sp.smults a)).charges k ∧
        el new.spins k = el (raw sp i a (if alpha then 0 else 1) (el new.smults i - el sp.smults i)
        (el new.smults a - el sp.smults a)).spins k ∧
        el new.smults k = el (raw sp i a (if alpha then 0 else 1) (el new.smults i - el sp.smults i)
        (el new.smults a - el sp.smults a)).smults k := by
      intro k
      obtain ⟨e1, e2, e3⟩ := hel k
      rw [e1, e2, e3]
      by_cases hki : k = i
      · subst hki
        simp only [hia, if_true, if_false]
        unfold FragOcc at o1 hs
        rw [ho2] at hs
        cases alpha <;> simp only [Bool.false_eq_true, if_true, if_false] at hs ⊢ <;> omega
      · by_cases hka : k = a
        · subst hka
          simp only [hai, if_true, if_false]
          unfold FragOcc at o2 hd
          rw [ho2] at hd
          cases alpha <;> simp only [Bool.false_eq_true, if_true, if_false] at hd ⊢ <;> omega
        · simp only [hki, hka, if_false, add_zero]
          exact hoth k hki hka
    have f1 := ext_el (n4.trans (by rw [n4', hrn, hnf])) (fun k _ => (key k).1)
    have f2 := ext_el (n2.trans (by rw [n2', hrn, hnf])) (fun k _ => (key k).2.1)
    have f3 := ext_el (n3.trans (by rw [n3', hrn, hnf])) (fun k _ => (key k).2.2)
    cases new
    simp only [raw, Space.mk.injEq] at *
    exact ⟨ho1, ho2, f2, f3, f1, hw, he⟩
  · rw [validChange_mem sp i _ _ (by cases alpha <;> simp) (hok i hi)]
    refine ⟨by rcases abs_cases (el new.smults i - el sp.smults i) with ⟨g, _⟩ | ⟨g, _⟩ <;> omega, ?_⟩
    have : xa = sp.neleca i + (if alpha then -1 else 0) ∧ xb = sp.nelecb i + (if alpha then 0 else -1) := by
      rw [p1.1, p1.2]
      unfold FragOcc at ox hs
      cases alpha <;> simp only [Bool.false_eq_true, if_true, if_false] at hs ⊢ <;> omega
    rw [← this.1, ← this.2, ← ho1]
    simpa using rx
  · rw [validChange_mem sp a _ _ (by cases alpha <;> simp) (hok a ha)]
    refine ⟨by rcases abs_cases (el new.smults a - el sp.smults a) with ⟨g, _⟩ | ⟨g, _⟩ <;> omega, ?_⟩
    have : ya = sp.neleca a + (if alpha then 1 else 0) ∧ yb = sp.nelecb a + (if alpha then 0 else 1) := by
      rw [p2.1, p2.2]
      unfold FragOcc at oy hd
      cases alpha <;> simp only [Bool.false_eq_true, if_true, if_false] at hd ⊢ <;> omega
    rw [← this.1, ← this.2, ← ho1]
    simpa using ry
  · unfold Space.nholea Space.nholeb
    rw [p1.1, p1.2, p2.1, p2.2]
    unfold Realizable at rx ry
    rw [ho1] at rx ry
    unfold FragOcc at ox oy hd hs
    cases alpha <;> simp only [Bool.false_eq_true, if_true, if_false] at hd hs ⊢ <;> omega

theorem mem_getSingles (f : NCsf) (hf : CsfCounts f) (sp : Space) (h : Shaped sp)
    (hok : ∀ k, k < sp.nfrag → FragOk sp k) (mask : Nat → Nat → Bool) :
    ∃ l, sp.getSingles f mask = .ok l ∧ ∀ new, new ∈ l ↔
      new.weight = 0 ∧ new.entmap = [] ∧
      ∃ i a alpha, i < sp.nfrag ∧ a < sp.nfrag ∧ i ≠ a ∧ mask i a = true ∧ SingleExc sp new i a alpha := by
  refine ⟨_, getSingles_eq f hf sp h hok mask, ?_⟩
  intro new
  rw [List.mem_append, List.mem_flatMap, List.mem_flatMap]
  constructor
  · intro hmem
    have : ∃ alpha i a, i < sp.nfrag ∧ a < sp.nfrag ∧ new ∈ singlesList sp mask alpha (i, a) := by
      rcases hmem with ⟨⟨i, a⟩, h1, h2⟩ | ⟨⟨i, a⟩, h1, h2⟩
      · rw [mem_product2, mem_wherePos, mem_wherePos] at h1
        exact ⟨true, i, a, h1.1.1, h1.2.1, h2⟩
      · rw [mem_product2, mem_wherePos, mem_wherePos] at h1
        exact ⟨false, i, a, h1.1.1, h1.2.1, h2⟩
    obtain ⟨alpha, i, a, hi, ha, hin⟩ := this
    unfold singlesList at hin
    simp only [] at hin
    by_cases hc : i = a ∨ mask i a = false
    · rw [if_pos hc] at hin; simp at hin
    · rw [if_neg hc, List.mem_map] at hin
      obtain ⟨⟨si, sa⟩, hs, rfl⟩ := hin
      rw [mem_product2] at hs
      rw [not_or] at hc
      exact ⟨rfl, rfl, i, a, alpha, hi, ha, hc.1, by simpa using hc.2,
        raw_singleExc sp h hok i a hi ha hc.1 alpha si sa hs.1 hs.2⟩
  · rintro ⟨hw, he, i, a, alpha, hi, ha, hia, hm, hexc⟩
    obtain ⟨si, sa, rfl, h1, h2, h3⟩ := singleExc_raw sp new h hok i a hi ha hia alpha hexc hw he
    have hin : raw sp i a (if alpha then 0 else 1) si sa ∈ singlesList sp mask alpha (i, a) := by
      unfold singlesList
      simp only []
      rw [if_neg (by simp [hia, hm]), List.mem_map]
      exact ⟨(si, sa), by rw [mem_product2]; exact ⟨h1, h2⟩, rfl⟩
    cases alpha with
    | true =>
      left
      exact ⟨(i, a), by rw [mem_product2, mem_wherePos, mem_wherePos]; exact ⟨⟨hi, h3.1⟩, ⟨ha, h3.2⟩⟩, hin⟩
    | false =>
      right
      exact ⟨(i, a), by rw [mem_product2, mem_wherePos, mem_wherePos]; exact ⟨⟨hi, h3.1⟩, ⟨ha, h3.2⟩⟩, hin⟩

end Verif.Spaces
