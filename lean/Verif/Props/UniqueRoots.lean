import Verif.Model.UniqueRoots
/-!
# C13: unique-root detection
-/
namespace Verif.Props
open Verif.UniqueRoots

variable {U : Type}

/-- Two roots have the same electron numbers, number of vectors, shape and tag. -/
def SameTags (a b : Tags) : Prop :=
  a.nelec = b.nelec ∧ a.lroots = b.lroots ∧ a.shape = b.shape ∧ a.discriminator = b.discriminator

/-- The numerical tests judge the pair identical, or, when linear screening is on, equivalent. -/
def Judged (screen : Bool) (t : Tests U) : Prop :=
  t.isSame = true ∨ t.shares = some true ∨
    (screen = true ∧ (t.allEq = true ∨ t.allClose = true ∨ t.ovlpEye = true ∨ (t.err1 = true ∧ t.err2 = true)))

/-- The pair is judged equivalent only up to a rotation among its vectors. -/
def JudgedByRotation (screen : Bool) (t : Tests U) : Prop :=
  screen = true ∧ t.isSame = false ∧ t.shares ≠ some true ∧ t.allEq = false ∧ t.allClose = false ∧
    t.ovlpEye = false ∧ t.err1 = true ∧ t.err2 = true

theorem isequal_fst (screen : Bool) (t : Tests U) : (isequal screen t).1 = true ↔ Judged screen t := by
  obtain ⟨a, b, c, d, e, f, g, u⟩ := t
  unfold isequal Judged
  rcases b with _ | b
  · cases a <;> cases screen <;> cases c <;> cases d <;> cases e <;> simp
  · cases a <;> cases b <;> cases screen <;> cases c <;> cases d <;> cases e <;> simp

theorem isequal_snd (screen : Bool) (t : Tests U) (u : U) :
    (isequal screen t).2 = some u ↔ JudgedByRotation screen t ∧ u = t.rot := by
  obtain ⟨a, b, c, d, e, f, g, v⟩ := t
  unfold isequal JudgedByRotation
  rcases b with _ | b
  · cases a <;> cases screen <;> cases c <;> cases d <;> cases e <;> cases f <;> cases g <;> simp [eq_comm]
  · cases a <;> cases b <;> cases screen <;> cases c <;> cases d <;> cases e <;> cases f <;> cases g <;> simp [eq_comm]

theorem rotation_judged {screen : Bool} {t : Tests U} (h : JudgedByRotation screen t) : Judged screen t :=
  Or.inr (Or.inr ⟨h.1, Or.inr (Or.inr (Or.inr ⟨h.2.2.2.2.2.2.1, h.2.2.2.2.2.2.2⟩))⟩)

/-- Two roots are to be identified. -/
def Equiv (tags : Nat → Tags) (tests : Nat → Nat → Tests U) (screen : Bool) (i j : Nat) : Prop :=
  SameTags (tags i) (tags j) ∧ Judged screen (tests i j)

/-- Loop invariant. `todo` are the pairs not yet visited. -/
structure Inv (tags : Nat → Tags) (tests : Nat → Nat → Tests U) (screen : Bool) (n : Nat) (todo : List (Nat × Nat))
    (s : State U) : Prop where
  fix : ∀ j, s.unique j = true → s.rep j = j ∧ s.umat j = none
  img : ∀ j, s.unique j = false → s.rep j < j ∧ s.unique (s.rep j) = true ∧ Equiv tags tests screen (s.rep j) j ∧
    (∀ p ∈ todo, s.rep j ≤ p.1) ∧
    (∀ u, s.umat j = some u ↔ JudgedByRotation screen (tests (s.rep j) j) ∧ u = (tests (s.rep j) j).rot)
  dist : ∀ i j, i < j → j < n → (i, j) ∉ todo → s.unique i = true → s.unique j = true →
    ¬ Equiv tags tests screen i j

theorem step_inv (tags : Nat → Tags) (tests : Nat → Nat → Tests U) (screen : Bool) (n : Nat) (s : State U)
    (i j : Nat) (ps : List (Nat × Nat)) (hij : i < j) (hps : ∀ p ∈ ps, p.1 < p.2)
    (hord : ∀ p ∈ ps, i ≤ p.1) (hinv : Inv tags tests screen n ((i, j) :: ps) s) :
    Inv tags tests screen n ps (step tags tests screen s (i, j)) := by
  have hskip : (s.unique i = true → s.unique j = true → ¬ Equiv tags tests screen i j) →
      Inv tags tests screen n ps s := by
    intro h
    refine ⟨hinv.fix, ?_, ?_⟩
    · intro k hk
      obtain ⟨h1, h2, h3, h4, h5⟩ := hinv.img k hk
      exact ⟨h1, h2, h3, fun p hp => h4 p (List.mem_cons_of_mem _ hp), h5⟩
    · intro a b hab hb hnot ha hb'
      by_cases he : (a, b) = (i, j)
      · obtain ⟨rfl, rfl⟩ := Prod.mk.injEq _ _ _ _ ▸ he
        exact h ha hb'
      · exact hinv.dist a b hab hb (by simp [List.mem_cons, he, hnot]) ha hb'
  unfold step
  simp only []
  by_cases hi : s.unique i = true
  swap
  · simp only [Bool.not_eq_true] at hi
    simp only [hi, Bool.not_false, if_true]
    exact hskip (fun h => absurd h (by simp [hi]))
  by_cases hj : s.unique j = true
  swap
  · simp only [Bool.not_eq_true] at hj
    simp only [hi, hj, Bool.not_true, Bool.not_false, if_true]
    exact hskip (fun _ h => absurd h (by simp [hj]))
  simp only [hi, hj, Bool.not_true]
  by_cases t1 : (tags i).nelec = (tags j).nelec
  swap
  · simp only [t1, ne_eq, not_false_eq_true, if_true]
    exact hskip (fun _ _ h => t1 h.1.1)
  by_cases t2 : (tags i).lroots = (tags j).lroots
  swap
  · simp only [t1, t2, ne_eq, not_true, not_false_eq_true, if_true]
    exact hskip (fun _ _ h => t2 h.1.2.1)
  by_cases t3 : (tags i).shape = (tags j).shape
  swap
  · simp only [t1, t2, t3, ne_eq, not_true, not_false_eq_true, if_true]
    exact hskip (fun _ _ h => t3 h.1.2.2.1)
  by_cases t4 : (tags i).discriminator = (tags j).discriminator
  swap
  · simp only [t1, t2, t3, t4, ne_eq, not_true, not_false_eq_true, if_true]
    exact hskip (fun _ _ h => t4 h.1.2.2.2)
  simp only [t1, t2, t3, t4, ne_eq, not_true, if_false]
  have htags : SameTags (tags i) (tags j) := ⟨t1, t2, t3, t4⟩
  have h1 := isequal_fst screen (tests i j)
  have h2 := isequal_snd screen (tests i j)
  rcases hres : isequal screen (tests i j) with ⟨eq, rot⟩
  rw [hres] at h1 h2
  simp only [] at h1 h2
  cases eq with
  | false =>
    have hnj : ¬ Judged screen (tests i j) := fun h => by simpa using h1.mpr h
    have hrot : rot = none := by
      rcases rot with _ | u
      · rfl
      · exact absurd (rotation_judged ((h2 u).mp rfl).1) hnj
    subst hrot
    simp only [Bool.false_eq_true, if_false]
    exact hskip (fun _ _ h => hnj h.2)
  | true =>
    have hJ : Judged screen (tests i j) := h1.mp rfl
    have key : Inv tags tests screen n ps
        ⟨fun k => if k = j then false else s.unique k, fun k => if k = j then i else s.rep k,
          fun k => if k = j then rot else s.umat k⟩ := by
      refine ⟨?_, ?_, ?_⟩
      · intro k hk
        simp only [] at hk ⊢
        by_cases hkj : k = j
        · simp [hkj] at hk
        · rw [if_neg hkj] at hk
          rw [if_neg hkj, if_neg hkj]
          exact hinv.fix k hk
      · intro k hk
        simp only [] at hk ⊢
        by_cases hkj : k = j
        · subst hkj
          simp only [if_true]
          have hne : ¬ i = k := by omega
          simp only [hne, if_false]
          exact ⟨hij, hi, ⟨htags, hJ⟩, hord, h2⟩
        · simp only [hkj, if_false] at hk ⊢
          obtain ⟨g1, g2, g3, g4, g5⟩ := hinv.img k hk
          have hle := g4 (i, j) (List.mem_cons_self ..)
          have hne : ¬ s.rep k = j := by simp only [] at hle; omega
          simp only [hne, if_false]
          exact ⟨g1, g2, g3, fun p hp => g4 p (List.mem_cons_of_mem _ hp), g5⟩
      · intro a b hab hb hnot ha hb'
        simp only [] at ha hb'
        have hbj : ¬ b = j := fun h => by simp [h] at hb'
        have haj : ¬ a = j := fun h => by simp [h] at ha
        rw [if_neg haj] at ha
        rw [if_neg hbj] at hb'
        refine hinv.dist a b hab hb ?_ ha hb'
        simp only [List.mem_cons, Prod.mk.injEq, not_or, not_and]
        exact ⟨fun _ => hbj, hnot⟩
    rcases rot with _ | u
    · simp only [if_true]
      have hn : s.umat j = none := (hinv.fix j hj).2
      have : (fun k => if k = j then none else s.umat k) = s.umat := by
        funext k
        by_cases hk : k = j
        · simp [hk, hn]
        · simp [hk]
      rw [this] at key
      exact key
    · simp only [if_true]
      exact key

theorem fold_inv (tags : Nat → Tags) (tests : Nat → Nat → Tests U) (screen : Bool) (n : Nat)
    (ps : List (Nat × Nat)) (hps : ∀ p ∈ ps, p.1 < p.2) (hord : ps.Pairwise (fun p q => p.1 ≤ q.1))
    (s : State U) (hinv : Inv tags tests screen n ps s) :
    Inv tags tests screen n [] (ps.foldl (step tags tests screen) s) := by
  induction ps generalizing s with
  | nil => exact hinv
  | cons p ps ih =>
    obtain ⟨i, j⟩ := p
    rw [List.pairwise_cons] at hord
    exact ih (fun p hp => hps p (List.mem_cons_of_mem _ hp)) hord.2 _
      (step_inv tags tests screen n s i j ps (hps _ (List.mem_cons_self ..))
        (fun p hp => hps p (List.mem_cons_of_mem _ hp)) hord.1 hinv)

theorem mem_combinations2 (n i j : Nat) : (i, j) ∈ combinations2 n ↔ i < j ∧ j < n := by
  unfold combinations2
  simp only [List.mem_flatMap, List.mem_range, List.mem_map, List.mem_filter, decide_eq_true_eq, Prod.mk.injEq]
  constructor
  · rintro ⟨a, h1, b, ⟨h2, h3⟩, rfl, rfl⟩
    exact ⟨h3, h2⟩
  · rintro ⟨h1, h2⟩
    exact ⟨i, by omega, j, ⟨h2, h1⟩, rfl, rfl⟩

theorem pairwise_combinations2 (n : Nat) : (combinations2 n).Pairwise (fun p q => p.1 ≤ q.1) := by
  unfold combinations2
  rw [List.pairwise_flatMap]
  constructor
  · intro i _
    rw [List.pairwise_map]
    exact List.pairwise_of_forall (fun _ _ => Nat.le_refl _)
  · refine List.Pairwise.imp ?_ List.pairwise_lt_range
    intro a b hab p hp q hq
    rw [List.mem_map] at hp hq
    obtain ⟨x, -, rfl⟩ := hp
    obtain ⟨y, -, rfl⟩ := hq
    exact Nat.le_of_lt hab

/-- C13. For every list of roots and every outcome of the pairwise numerical tests, transitive or not, the internal
consistency check holds; every root's representative is an earlier or equal root which is its own representative
and is flagged unique; exactly the unique roots represent themselves; a root with another representative has the
same electron numbers, number of vectors, shape and tag as it and was judged equivalent to it; a rotation is
recorded exactly when the pair is equivalent up to a rotation only, and it is the one computed for that pair; and
no two distinct representatives are equivalent. -/
theorem C13_unique_roots (tags : Nat → Tags) (tests : Nat → Nat → Tests U) (screen : Bool) (n : Nat) :
    ∃ s, getUniqueRoots tags tests screen n = some s ∧
      (∀ j, j < n → s.rep j ≤ j ∧ s.rep (s.rep j) = s.rep j ∧ s.unique (s.rep j) = true ∧
        (s.unique j = true ↔ s.rep j = j)) ∧
      (∀ j, j < n → s.rep j ≠ j → SameTags (tags (s.rep j)) (tags j) ∧ Judged screen (tests (s.rep j) j)) ∧
      (∀ j u, j < n → (s.umat j = some u ↔
        s.rep j ≠ j ∧ JudgedByRotation screen (tests (s.rep j) j) ∧ u = (tests (s.rep j) j).rot)) ∧
      (∀ i j, i < j → j < n → s.rep i = i → s.rep j = j →
        ¬ (SameTags (tags i) (tags j) ∧ Judged screen (tests i j))) := by
  have hinv : Inv tags tests screen n [] ((combinations2 n).foldl (step tags tests screen)
      ⟨fun _ => true, fun j => j, fun _ => none⟩) := by
    apply fold_inv
    · rintro ⟨i, j⟩ hp; exact ((mem_combinations2 n i j).mp hp).1
    · exact pairwise_combinations2 n
    · refine ⟨fun j _ => ⟨rfl, rfl⟩, fun j h => by simp at h, ?_⟩
      intro i j hij hj hnot
      exact absurd ((mem_combinations2 n i j).mpr ⟨hij, hj⟩) hnot
  unfold getUniqueRoots
  generalize (combinations2 n).foldl (step tags tests screen) ⟨fun _ => true, fun j => j, fun _ => none⟩ = s at hinv
  have hu : ∀ j, s.unique (s.rep j) = true := by
    intro j
    cases h : s.unique j with
    | true => rw [(hinv.fix j h).1]; exact h
    | false => exact (hinv.img j h).2.1
  have hiff : ∀ j, s.unique j = true ↔ s.rep j = j := by
    intro j
    constructor
    · exact fun h => (hinv.fix j h).1
    · intro h; rw [← h]; exact hu j
  refine ⟨s, ?_, ?_, ?_, ?_, ?_⟩
  · simp only []
    rw [if_pos]
    rw [List.all_eq_true]
    exact fun i _ => hu i
  · intro j _
    refine ⟨?_, (hinv.fix _ (hu j)).1, hu j, hiff j⟩
    cases h : s.unique j with
    | true => rw [(hinv.fix j h).1]
    | false => exact Nat.le_of_lt (hinv.img j h).1
  · intro j _ hne
    cases h : s.unique j with
    | true => exact absurd (hinv.fix j h).1 hne
    | false => exact (hinv.img j h).2.2.1
  · intro j u _
    cases h : s.unique j with
    | true =>
      obtain ⟨h1, h2⟩ := hinv.fix j h
      rw [h2]
      simp [h1]
    | false =>
      obtain ⟨h1, -, -, -, h5⟩ := hinv.img j h
      rw [h5 u]
      exact ⟨fun h => ⟨by omega, h⟩, fun h => h.2⟩
  · intro i j hij hj hi hj'
    exact hinv.dist i j hij hj (List.not_mem_nil) ((hiff i).mpr hi) ((hiff j).mpr hj')

/-- Four roots with a non-transitive comparison: 0~1, 1~2, but not 0~2; 2~3 by a rotation only. -/
example : (getUniqueRoots (U := Nat) (fun _ => ⟨(1, 1), 1, [2, 2], 0⟩)
    (fun i j => ⟨false, none, decide (i + 1 = j ∧ j < 3), false, false, decide (i = 2 ∧ j = 3), true, 7⟩) true 4).map
      (fun s => ((List.range 4).map s.unique, (List.range 4).map s.rep, (List.range 4).map s.umat)) =
    some ([true, false, true, false], [0, 0, 2, 2], [none, none, none, some 7]) := by decide

end Verif.Props
