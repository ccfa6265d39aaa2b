import Verif.Model.Converge
import Verif.Spec.Converge
import Mathlib.Tactic.Common
import Mathlib.Data.List.Basic
import Mathlib.Data.List.GetD
import Mathlib.Data.List.Nodup
/-!
# C45, C46, C47, C48, C50, C55: convergence flags, keywords, temporary state, schedule
-/
namespace Verif.Props
open Verif.Converge Verif.Spec.Converge

variable {S C E : Type}

theorem loop_spec (P : Product S C E) (e : E) (c : C) (s : S) (n it : Nat) :
    (∃ k, it ≤ k ∧ k < it + n ∧ 0 < k ∧ cycleGradOk P e c s k = true ∧ cycleSpreadOk P e c s k = true ∧
        cycleFlags P e c s k ≠ [] ∧
        P.loop n it (cycleState P e c s it).1 (cycleState P e c s it).2.1 (cycleState P e c s it).2.2 = (true, cycleState P e c s k)) ∨
      ((∀ k, it ≤ k → k < it + n → ¬ (0 < k ∧ cycleGradOk P e c s k = true ∧ cycleSpreadOk P e c s k = true ∧
        cycleFlags P e c s k ≠ [])) ∧
        P.loop n it (cycleState P e c s it).1 (cycleState P e c s it).2.1 (cycleState P e c s it).2.2 =
          (false, cycleState P e c s (it + n))) := by
  induction n generalizing it with
  | zero =>
    right
    exact ⟨fun k h1 h2 => by omega, rfl⟩
  | succ n ih =>
    rw [Product.loop]
    by_cases hc : 0 < it ∧ cycleGradOk P e c s it = true ∧ cycleSpreadOk P e c s it = true ∧ cycleFlags P e c s it ≠ []
    · left
      refine ⟨it, by omega, by omega, hc.1, hc.2.1, hc.2.2.1, hc.2.2.2, ?_⟩
      rw [if_pos]
      obtain ⟨h1, h2, h3, h4⟩ := hc
      unfold cycleGradOk at h2
      unfold cycleSpreadOk at h3
      unfold cycleFlags at h4
      simp [h1, h2, h3, h4]
    · have hneg : ¬ ((P.gradOk (P.guess (cycleState P e c s it).2.1) && P.spreadOk (cycleState P e c s it).1 &&
          ([P.flags (cycleState P e c s it).2.2].all (fun l => !l.isEmpty)) && decide (0 < it)) = true) := by
        intro h
        apply hc
        simp at h
        exact ⟨h.2, h.1.1.1, h.1.1.2, by simpa [cycleFlags] using h.1.2⟩
      rw [if_neg hneg]
      rcases ih (it + 1) with ⟨k, h1, h2, h3, h4, h5, h6, h7⟩ | ⟨h1, h2⟩
      · left
        exact ⟨k, by omega, by omega, h3, h4, h5, h6, h7⟩
      · right
        refine ⟨?_, ?_⟩
        · intro k hk1 hk2
          by_cases hk : k = it
          · rw [hk]; exact hc
          · exact h1 k (by omega) (by omega)
        · rw [show it + (n + 1) = it + 1 + n from by omega]
          exact h2

/-- **C45**, the part that holds: the solver reports convergence iff there is a cycle, after the first and within the
limit, at which the gradient and the energy spread are below their thresholds; and what it returns is the state at the
first of these tests that it meets. Missing: the fragment CI solvers, see `C45_violated`. -/
theorem C45_partial (P : Product S C E) (maxCycle : Nat) (e : E) (c : C) (s : S) (hs : ∀ s, P.flags s ≠ []) :
    ((P.kernel maxCycle e c s).1 = true ↔
      ∃ k, 0 < k ∧ k < maxCycle ∧ cycleGradOk P e c s k = true ∧ cycleSpreadOk P e c s k = true) ∧
    ((P.kernel maxCycle e c s).1 = true → ∃ k, 0 < k ∧ k < maxCycle ∧ cycleGradOk P e c s k = true ∧
      cycleSpreadOk P e c s k = true ∧ (P.kernel maxCycle e c s).2 = cycleState P e c s k) := by
  have hl := loop_spec P e c s maxCycle 0
  simp only [cycleState, Nat.zero_add] at hl
  unfold Product.kernel
  rcases hl with ⟨k, h1, h2, h3, h4, h5, h6, h7⟩ | ⟨h1, h2⟩
  · rw [h7]
    exact ⟨⟨fun _ => ⟨k, h3, h2, h4, h5⟩, fun _ => rfl⟩, fun _ => ⟨k, h3, h2, h4, h5, rfl⟩⟩
  · rw [h2]
    refine ⟨⟨fun h => absurd h (by simp), ?_⟩, fun h => absurd h (by simp)⟩
    rintro ⟨k, a, b, c', d⟩
    exact absurd ⟨a, c', d, hs _⟩ (h1 k (by omega) b)

/-- Example: energies halve in every cycle; convergence is reported at cycle 3 of 10 and not within 3 cycles. -/
example : let P : Product Unit Nat Nat := ⟨id, fun c => decide (c ≤ 2), fun _ => [true, true], fun e => decide (e < 2), fun _ e c s => (e / 2, c - 1, s)⟩
    (P.kernel 10 8 4 ()).1 = true ∧ (P.kernel 10 8 4 ()).2 = cycleState P 8 4 () 3 ∧ (P.kernel 3 8 4 ()).1 = false := by decide

/-- **C45** fails: the product-state solver reports convergence while a fragment CI solver of the final cycle did not
converge. -/
theorem C45_violated : ¬ ∀ (P : Product (List Bool) Unit Unit) (maxCycle : Nat) (s : List Bool),
    (P.kernel maxCycle () () s).1 = true → (P.flags (P.kernel maxCycle () () s).2.2.2).all id = true := by
  intro H
  have := H ⟨id, fun _ => true, id, fun _ => true, fun _ e c _ => (e, c, [true, false])⟩ 5 [true, true] (by decide)
  exact absurd this (by decide)

/-- **C46**, the part that holds: if every component converged, the flag is set. Missing: the converse, see
`C46_violated`. -/
theorem C46_partial (flags : List Bool) (_h : flags.all id = true) : mixConverged flags = true := rfl

example : ([true, true] : List Bool).all id = true := by decide

/-- **C46** fails: the flag is set whatever the components report. -/
theorem C46_violated : ¬ ∀ flags : List Bool, mixConverged flags = flags.all id := by
  intro H
  exact absurd (H [true, false]) (by decide)

/-- **C47**, the part that holds: if exactly one block needs a diagonalization, the flag is the one it returned. Missing:
several such blocks, see `C47_violated`. -/
theorem C47_single_block_partial (flag0 : Bool) (pre post : List Block) (b : Block) (hb : b.nstates ≠ 1)
    (hpre : ∀ x ∈ pre, x.nstates = 1) (hpost : ∀ x ∈ post, x.nstates = 1) :
    lassiConverged flag0 (pre ++ b :: post) = b.conv := by
  have skip : ∀ (l : List Block) (f : Bool), (∀ x ∈ l, x.nstates = 1) →
      l.foldl (fun flag b => if b.nstates == 1 then flag else b.conv) f = f := by
    intro l
    induction l with
    | nil => intro f _; rfl
    | cons x l ih =>
      intro f h
      rw [List.foldl_cons, if_pos (by simp [h x (by simp)])]
      exact ih f (fun y hy => h y (by simp [hy]))
  unfold lassiConverged
  rw [List.foldl_append, skip pre flag0 hpre, List.foldl_cons, if_neg (by simpa using hb), skip post _ hpost]

example : lassiConverged true ([⟨1, true⟩] ++ (⟨3, false⟩ : Block) :: [⟨1, true⟩, ⟨1, false⟩]) = false :=
  C47_single_block_partial true [⟨1, true⟩] [⟨1, true⟩, ⟨1, false⟩] ⟨3, false⟩ (by decide) (by decide) (by decide)

/-- **C47**: convergence of all blocks is reported, provided some block needed a diagonalization. -/
theorem C47_all_partial (flag0 : Bool) (blocks : List Block) (hall : ∀ b ∈ blocks, b.nstates ≠ 1 → b.conv = true)
    (hex : ∃ b ∈ blocks, b.nstates ≠ 1) : lassiConverged flag0 blocks = true := by
  unfold lassiConverged
  induction blocks generalizing flag0 with
  | nil => obtain ⟨b, hb, _⟩ := hex; simp at hb
  | cons x l ih =>
    rw [List.foldl_cons]
    by_cases hl : ∃ b ∈ l, b.nstates ≠ 1
    · exact ih _ (fun b hb => hall b (by simp [hb])) hl
    · have hx : x.nstates ≠ 1 := by
        obtain ⟨b, hb, hn⟩ := hex
        rw [List.mem_cons] at hb
        rcases hb with rfl | hb
        · exact hn
        · exact absurd ⟨b, hb, hn⟩ hl
      have skip : ∀ (l : List Block) (f : Bool), (∀ x ∈ l, x.nstates = 1) →
          l.foldl (fun flag b => if b.nstates == 1 then flag else b.conv) f = f := by
        intro l
        induction l with
        | nil => intro f _; rfl
        | cons x l ih =>
          intro f h
          rw [List.foldl_cons, if_pos (by simp [h x (by simp)])]
          exact ih f (fun y hy => h y (by simp [hy]))
      rw [skip l _ (fun y hy => by
        by_contra h
        exact hl ⟨y, hy, h⟩), if_neg (by simpa using hx)]
      exact hall x (by simp) hx

example : lassiConverged false [⟨2, true⟩, ⟨1, false⟩, ⟨5, true⟩] = true := C47_all_partial _ _ (by decide) (by decide)

/-- **C47** fails: only the last block that needed a diagonalization counts. -/
theorem C47_violated : ¬ ∀ (flag0 : Bool) (blocks : List Block), lassiConverged flag0 blocks = true →
    ∀ b ∈ blocks, b.nstates ≠ 1 → b.conv = true := by
  intro H
  have := H false [⟨2, false⟩, ⟨2, true⟩] (by decide) ⟨2, false⟩ (by simp) (by decide)
  exact absurd this (by decide)

/-- **C47** fails in the other direction too: if every block has one state, so that nothing had to be diagonalized, a new
solver object reports no convergence. -/
theorem C47_trivial_violated (blocks : List Block) (h : ∀ b ∈ blocks, b.nstates = 1) : lassiConverged false blocks = false := by
  unfold lassiConverged
  induction blocks with
  | nil => rfl
  | cons x l ih =>
    rw [List.foldl_cons, if_pos (by simp [h x (by simp)])]
    exact ih (fun b hb => h b (by simp [hb]))

example : lassiConverged false [⟨1, true⟩, ⟨1, true⟩] = false := C47_trivial_violated _ (by decide)

/-- **C78** fails: once a LASSI object has been unconverged, no later `kernel` call reports convergence, whatever its
diagonalization returns. -/
theorem C78_sticky_violated (siFlag0 : Bool) (blocks : List Block) : lassiKernelConverged false siFlag0 blocks = false := rfl

/-- **C78**, the part that holds: starting from a converged preparation, the reported flag is that of this call's
diagonalization. -/
theorem C78_first_call_partial (siFlag0 : Bool) (blocks : List Block) :
    lassiKernelConverged true siFlag0 blocks = lassiConverged siFlag0 blocks := rfl

/-- **C48** fails: `level_shift_si`, `nroots_si` and `privref_si` given to `LASSI.kernel` never change what the
diagonalizer uses. -/
theorem C48_violated {V : Type} (a : Attrs V) (levelShift nroots privref : V) :
    readSettings (kernelAttrs a (some levelShift) (some nroots) none none (some privref)) = readSettings a := by
  simp [readSettings, kernelAttrs, Attrs.set]

/-- **C48**, the part that holds: `pspace_size_si` and `smult_si` reach the diagonalizer, and arguments left out change
nothing. -/
theorem C48_partial {V : Type} (a : Attrs V) (l n p pspaceSize smult : Option V) :
    readSettings (kernelAttrs a l n pspaceSize smult p) =
      { readSettings a with
        pspaceSize := pspaceSize.orElse (fun _ => (readSettings a).pspaceSize)
        smult := smult.orElse (fun _ => (readSettings a).smult) } := by
  cases l <;> cases n <;> cases p <;> cases pspaceSize <;> cases smult <;> simp [readSettings, kernelAttrs, Attrs.set]

example : readSettings (kernelAttrs (fun k => if k = "nroots" then some 1 else none) (some 3) (some 5) (some 7) none none) =
    ⟨none, some 1, none, some 7, none⟩ := by decide

/-- **C50**. Whatever the consumer of the symmetry blocks does to the object, and wherever it raises, the fragment solvers
and state energies are afterwards those before the loop. The consumer may not add or remove fragments. -/
theorem C50_restored {F En R : Type} (blocks : List (List F × En × Body (Las F En R))) (l : Las F En R)
    (hb : ∀ b ∈ blocks, b.1.length = l.boxes.length ∧ ∀ x, (b.2.2 x).1.boxes.length = x.boxes.length) :
    (runBlocks blocks l).1.boxes = l.boxes ∧ (runBlocks blocks l).1.eStates = l.eStates := by
  induction blocks generalizing l with
  | nil => exact ⟨rfl, rfl⟩
  | cons b rest ih =>
    obtain ⟨my, e, body⟩ := b
    obtain ⟨h1, h2⟩ := hb (my, e, body) (by simp)
    have hlen : (body (l.enter my e)).1.boxes.length = l.boxes.length := by
      rw [h2]
      simp only [Las.enter, List.length_append, List.length_take, List.length_drop]
      simp only at h1
      omega
    have hexit : ((body (l.enter my e)).1.exit l).boxes = l.boxes := by
      unfold Las.exit
      apply List.ext_getElem (by simp [hlen])
      intro i h3 h4
      simp [List.getElem?_eq_getElem h4]
    have hexitE : ((body (l.enter my e)).1.exit l).eStates = l.eStates := rfl
    rw [runBlocks]
    by_cases hr : (body (l.enter my e)).2 = true
    · simp only [hr, if_true]
      exact ⟨hexit, hexitE⟩
    · simp only [hr]
      have := ih ((body (l.enter my e)).1.exit l) (by
        intro b hb'
        rw [hexit]
        exact hb b (by simp [hb']))
      rw [hexit, hexitE] at this
      exact this

/-- Example: two blocks; the second consumer overwrites everything and raises. -/
example : let body : Body (Las Nat Nat Nat) := fun l => (⟨l.boxes.map (fun _ => 0), 0, 5⟩, true)
    let r := runBlocks [([7, 8], 1, fun l => (l, false)), ([3, 4], 2, body)] ⟨[10, 20], 30, 40⟩
    r.1.boxes = [10, 20] ∧ r.1.eStates = 30 ∧ r.1.rest = 5 ∧ r.2 = true := by decide

/-- **C50**: inside the block, the consumer sees the block's own solvers and energies. -/
theorem C50_inside {F En R : Type} (l : Las F En R) (my : List F) (e : En) (h : my.length = l.boxes.length) :
    (l.enter my e).boxes = my ∧ (l.enter my e).eStates = e := by
  unfold Las.enter
  simp [← h]

/-- **C55**. In `serialfrag` mode, cycle `it` replaces the CI vector of exactly the fragment `it mod nfrag` and leaves every
other one unchanged; otherwise every fragment is solved. -/
theorem C55_one_fragment {C : Type} (solve : Nat → C → C) (it : Nat) (ci0 : List C) (f : Nat) :
    (oneShot solve true it ci0.length ci0)[f]? =
      (ci0[f]?).map (fun c => if f = it % ci0.length then solve f c else c) ∧
    (oneShot solve false it ci0.length ci0)[f]? = (ci0[f]?).map (fun c => solve f c) := by
  unfold oneShot
  constructor
  · rw [List.getElem?_map, List.getElem?_zipIdx]
    cases h : ci0[f]? with
    | none => rfl
    | some c =>
      simp only [Option.map_some, Nat.zero_add, Bool.true_and, bne_iff_ne, ne_eq]
      by_cases hf : f = it % ci0.length
      · rw [if_pos hf, if_neg (by omega)]
      · rw [if_neg hf, if_pos (by omega)]
  · rw [List.getElem?_map, List.getElem?_zipIdx]
    cases h : ci0[f]? with
    | none => rfl
    | some c => simp

example : oneShot (fun f c => 100 * f + c) true 4 3 [1, 2, 3] = [1, 102, 3] := by decide

/-- **C55**. Every window of `nfrag` consecutive cycles solves every fragment exactly once. -/
theorem C55_fair (nfrag f it : Nat) (hf : f < nfrag) : solvedCount nfrag f it nfrag = 1 := by
  unfold solvedCount
  have key : ∀ it, ((List.range' (it + 1) nfrag).filter (fun k => k % nfrag == f)).length =
      ((List.range' it nfrag).filter (fun k => k % nfrag == f)).length := by
    intro it
    have h1 := List.range'_succ (s := it) (n := nfrag) (step := 1)
    have h2 := List.range'_concat (s := it) (n := nfrag) (step := 1)
    have h3 := congrArg (fun l => (l.filter (fun k => k % nfrag == f)).length) (h1.symm.trans h2)
    simp only [List.filter_append, List.filter_cons, List.filter_nil, List.length_append, Nat.one_mul,
      Nat.add_mod_right] at h3
    by_cases h : it % nfrag == f <;> simp [h] at h3 <;> omega
  induction it with
  | zero =>
    rw [← List.range_eq_range']
    have : (List.range nfrag).filter (fun k => k % nfrag == f) = (List.range nfrag).filter (fun k => k == f) := by
      apply List.filter_congr
      intro k hk
      rw [Nat.mod_eq_of_lt (List.mem_range.1 hk)]
    rw [this, ← List.countP_eq_length_filter]
    have h := List.count_eq_one_of_mem List.nodup_range (List.mem_range.2 hf)
    rw [List.count] at h
    exact h
  | succ it ih => rw [key it, ih]

example : solvedCount 3 1 5 3 = 1 := by decide

end Verif.Props
