import Verif.Lemmas.ProdRdm
import Verif.Spec.DetState
import Mathlib.Tactic.Abel
/-!
# C82, C83: density matrices of all active orbitals from those of the fragments

`E r f` is the state of fragment `f` in rootspace `r`: it gives the expectation value of every word of ladder operators. The
active-space density matrix must be the weighted average over rootspaces of the expectation values in the product states.
-/
namespace Verif.ProdRdm
open scoped BigOperators
open Verif.Spec.ProdRdm
variable {R : Type*} [CommRing R]

theorem stepAvg_pair (F : Frags R) : PairStep F.ncas F.stepAvg
    (fun f g i j k l => ∑ r ∈ Finset.range F.nroots, F.w r * F.sf f r i j * F.sf g r k l)
    (fun f g i l k j => ∑ r ∈ Finset.range F.nroots,
      F.w r * (F.dm1 f r false i j * F.dm1 g r false k l + F.dm1 f r true i j * F.dm1 g r true k l)) := by
  have sw : ∀ f1 f2 f3 f4 a b c d, Valid F.ncas [f1, f2, f3, f4] [a, b, c, d] → Valid F.ncas [f2, f1, f4, f3] [b, a, d, c] := by
    intro f1 f2 f3 f4 a b c d h
    rw [valid4] at h ⊢; exact ⟨h.2.1, h.1, h.2.2.2, h.2.2.1⟩
  have sw2 : ∀ f1 f2 f3 f4 a b c d, Valid F.ncas [f1, f2, f3, f4] [a, b, c, d] → Valid F.ncas [f3, f4, f1, f2] [c, d, a, b] := by
    intro f1 f2 f3 f4 a b c d h
    rw [valid4] at h ⊢; exact ⟨h.2.2.1, h.2.2.2, h.1, h.2.1⟩
  constructor
  · intro A f g a b c d hne hv
    have hne' : ¬ g = f := fun e => hne e.symm
    simp [Frags.stepAvg, setB_pos _ _ _ _ _ _ hv, subB_pos _ _ _ _ _ _ hv, hne, hne', arr4]
  · intro A f g a b c d hne hv
    have hne' : ¬ g = f := fun e => hne e.symm
    simp [Frags.stepAvg, setB_pos _ _ _ _ _ _ hv, subB_pos _ _ _ _ _ _ hv, hne, hne', arr4, getB_pos,
      setB_pos _ _ _ _ _ _ (sw2 _ _ _ _ _ _ _ _ hv)]
  · intro A f g a b c d hne hv h0
    have hne' : ¬ g = f := fun e => hne e.symm
    simp [Frags.stepAvg, setB_pos _ _ _ _ _ _ hv, subB_pos _ _ _ _ _ _ hv, hne, hne', arr4, h0]
  · intro A f g a b c d hne hv h0 h1
    have hne' : ¬ g = f := fun e => hne e.symm
    simp [Frags.stepAvg, setB_pos _ _ _ _ _ _ hv, hne, hne', arr4, getB_pos,
      setB_pos _ _ _ _ _ _ (sw _ _ _ _ _ _ _ _ hv), subB_pos _ _ _ _ _ _ (sw _ _ _ _ _ _ _ _ hv), h0]
  · intro A f g fs as hne hv hm
    simp only [fourBlocks, List.mem_cons, List.not_mem_nil, or_false, not_or] at hm
    simp [Frags.stepAvg, setB_pos _ _ _ _ _ _ hv, subB_pos _ _ _ _ _ _ hv, hm]

theorem stepState_pair (F : Frags R) (r : Nat) : PairStep F.ncas (F.stepState r)
    (fun f g i j k l => F.sf f r i j * F.sf g r k l)
    (fun f g i l k j => F.dm1 f r false i j * F.dm1 g r false k l + F.dm1 f r true i j * F.dm1 g r true k l) := by
  have sw : ∀ f1 f2 f3 f4 a b c d, Valid F.ncas [f1, f2, f3, f4] [a, b, c, d] → Valid F.ncas [f2, f1, f4, f3] [b, a, d, c] := by
    intro f1 f2 f3 f4 a b c d h
    rw [valid4] at h ⊢; exact ⟨h.2.1, h.1, h.2.2.2, h.2.2.1⟩
  have sw2 : ∀ f1 f2 f3 f4 a b c d, Valid F.ncas [f1, f2, f3, f4] [a, b, c, d] → Valid F.ncas [f3, f4, f1, f2] [c, d, a, b] := by
    intro f1 f2 f3 f4 a b c d h
    rw [valid4] at h ⊢; exact ⟨h.2.2.1, h.2.2.2, h.1, h.2.1⟩
  constructor
  · intro A f g a b c d hne hv
    have hne' : ¬ g = f := fun e => hne e.symm
    simp [Frags.stepState, setB_pos _ _ _ _ _ _ hv, hne, hne', arr4]
  · intro A f g a b c d hne hv
    have hne' : ¬ g = f := fun e => hne e.symm
    simp [Frags.stepState, setB_pos _ _ _ _ _ _ hv, hne, hne', arr4, getB_pos,
      setB_pos _ _ _ _ _ _ (sw2 _ _ _ _ _ _ _ _ hv)]
  · intro A f g a b c d hne hv h0
    have hne' : ¬ g = f := fun e => hne e.symm
    simp [Frags.stepState, setB_pos _ _ _ _ _ _ hv, hne', arr4]
  · intro A f g a b c d hne hv h0 h1
    have hne' : ¬ g = f := fun e => hne e.symm
    simp [Frags.stepState, setB_pos _ _ _ _ _ _ hv, arr4, getB_pos,
      setB_pos _ _ _ _ _ _ (sw _ _ _ _ _ _ _ _ hv)]
  · intro A f g fs as hne hv hm
    simp only [fourBlocks, List.mem_cons, List.not_mem_nil, or_false, not_or] at hm
    simp [Frags.stepState, setB_pos _ _ _ _ _ _ hv, hm]

theorem stepSpin_pair (F : Frags R) (s t : Bool) : PairStep F.ncas (F.stepSpin s t)
    (fun f g i j k l => ∑ r ∈ Finset.range F.nroots, F.w r * F.dm1 f r s i j * F.dm1 g r t k l)
    (fun f g i l k j => if s = t then ∑ r ∈ Finset.range F.nroots, F.w r * (F.dm1 f r s i j * F.dm1 g r s k l) else 0) := by
  have sw : ∀ f1 f2 f3 f4 a b c d, Valid F.ncas [f1, f2, f3, f4] [a, b, c, d] → Valid F.ncas [f2, f1, f4, f3] [b, a, d, c] := by
    intro f1 f2 f3 f4 a b c d h
    rw [valid4] at h ⊢; exact ⟨h.2.1, h.1, h.2.2.2, h.2.2.1⟩
  have sw2 : ∀ f1 f2 f3 f4 a b c d, Valid F.ncas [f1, f2, f3, f4] [a, b, c, d] → Valid F.ncas [f3, f4, f1, f2] [c, d, a, b] := by
    intro f1 f2 f3 f4 a b c d h
    rw [valid4] at h ⊢; exact ⟨h.2.2.1, h.2.2.2, h.1, h.2.1⟩
  constructor
  · intro A f g a b c d hne hv
    have hne' : ¬ g = f := fun e => hne e.symm
    by_cases hst : s = t <;>
    simp [Frags.stepSpin, hst, setB_pos _ _ _ _ _ _ hv, subB_pos _ _ _ _ _ _ hv, hne, hne', arr4]
  · intro A f g a b c d hne hv
    have hne' : ¬ g = f := fun e => hne e.symm
    by_cases hst : s = t <;>
    simp [Frags.stepSpin, hst, setB_pos _ _ _ _ _ _ hv, subB_pos _ _ _ _ _ _ hv, hne, hne', arr4, getB_pos,
      setB_pos _ _ _ _ _ _ (sw2 _ _ _ _ _ _ _ _ hv)]
  · intro A f g a b c d hne hv h0
    have hne' : ¬ g = f := fun e => hne e.symm
    by_cases hst : s = t <;>
    simp [Frags.stepSpin, hst, setB_pos _ _ _ _ _ _ hv, subB_pos _ _ _ _ _ _ hv, hne, hne', arr4, h0]
  · intro A f g a b c d hne hv h0 h1
    have hne' : ¬ g = f := fun e => hne e.symm
    by_cases hst : s = t <;>
    simp [Frags.stepSpin, hst, setB_pos _ _ _ _ _ _ hv, hne, hne', arr4, getB_pos,
      setB_pos _ _ _ _ _ _ (sw _ _ _ _ _ _ _ _ hv), subB_pos _ _ _ _ _ _ (sw _ _ _ _ _ _ _ _ hv), h0, h1]
  · intro A f g fs as hne hv hm
    simp only [fourBlocks, List.mem_cons, List.not_mem_nil, or_false, not_or] at hm
    by_cases hst : s = t <;>
    simp [Frags.stepSpin, hst, setB_pos _ _ _ _ _ _ hv, subB_pos _ _ _ _ _ _ hv, hm]

end Verif.ProdRdm

namespace Verif.Props
open scoped BigOperators
open Verif.ProdRdm Verif.Spec.ProdRdm
variable {R : Type*} [CommRing R]

/-- C82: every element of the spin-summed, state-averaged two-body density matrix of all active orbitals is the weighted average
over rootspaces of the expectation value of `Σ_{στ} p†_σ r†_τ u_τ q_σ` in the product of the fragment states. -/
theorem C82_average (F : Frags R) (E : Nat → Nat → List Op → R) (dm2 : Nat → Arr R) (hcons : ∀ r, Conserves (E r))
    (h1 : ∀ f r s a b, F.dm1 f r s a b = E r f (word1 s (f, a) (f, b)))
    (hsym : ∀ f r s a b, E r f (word1 s (f, a) (f, b)) = E r f (word1 s (f, b) (f, a)))
    (h2 : ∀ f a b k l, dm2 f [a, b, k, l] = ∑ r ∈ Finset.range F.nroots,
      F.w r * sumSpin fun s => sumSpin fun t => E r f (word2 s t (f, a) (f, b) (f, k) (f, l)))
    (p q r u : Nat × Nat) (hp : Exists F.ncas p) (hq : Exists F.ncas q) (hr : Exists F.ncas r) (hu : Exists F.ncas u) :
    F.makeCasdm2 dm2 [index F.ncas p, index F.ncas q, index F.ncas r, index F.ncas u] =
      ∑ k ∈ Finset.range F.nroots, F.w k * sumSpin fun s => sumSpin fun t => expect (E k) (word2 s t p q r u) := by
  unfold Frags.makeCasdm2
  rw [assembled F dm2 _ _ _ (stepAvg_pair F) (fun p q r u => ∑ k ∈ Finset.range F.nroots,
    F.w k * sumSpin fun s => sumSpin fun t => expect (E k) (word2 s t p q r u)) ?_ ?_ ?_ ?_ ?_ ?_ p q r u hp hq hr hu]
  · intro p q r u hz
    simp [expect_unbalanced2 _ (hcons _) _ _ _ _ _ _ hz, sumSpin]
  · intro f a b k l
    simp only [expect_diag, h2]
  · intro f g hfg a b k l
    simp only [expect_coulomb _ _ _ _ _ _ _ _ _ (Nat.ne_of_lt hfg), sumSpin, Frags.sf, h1]
    exact Finset.sum_congr rfl fun r _ => by ring
  · intro f g hfg a b k l
    simp only [expect_coulomb _ _ _ _ _ _ _ _ _ (Nat.ne_of_gt hfg), sumSpin, Frags.sf, h1]
    exact Finset.sum_congr rfl fun r _ => by ring
  · intro f g hfg a b k l
    rw [← Finset.sum_neg_distrib]
    refine Finset.sum_congr rfl fun r _ => ?_
    simp [expect_exchange _ (hcons _) _ _ _ _ _ _ _ _ (Nat.ne_of_lt hfg), sumSpin, h1]
    ring
  · intro f g hfg a b k l
    rw [← Finset.sum_neg_distrib]
    refine Finset.sum_congr rfl fun r _ => ?_
    simp [expect_exchange _ (hcons _) _ _ _ _ _ _ _ _ (Nat.ne_of_gt hfg), sumSpin, h1]
    rw [hsym g r false l a, hsym g r true l a, hsym f r false b k, hsym f r true b k]
    ring

/-- C82: the same for one rootspace. -/
theorem C82_state (F : Frags R) (E : Nat → Nat → List Op → R) (dm2 : Nat → Nat → Arr R) (k : Nat) (hcons : Conserves (E k))
    (h1 : ∀ f s a b, F.dm1 f k s a b = E k f (word1 s (f, a) (f, b)))
    (hsym : ∀ f s a b, E k f (word1 s (f, a) (f, b)) = E k f (word1 s (f, b) (f, a)))
    (h2 : ∀ f a b m l, dm2 f k [a, b, m, l] = sumSpin fun s => sumSpin fun t => E k f (word2 s t (f, a) (f, b) (f, m) (f, l)))
    (p q r u : Nat × Nat) (hp : Exists F.ncas p) (hq : Exists F.ncas q) (hr : Exists F.ncas r) (hu : Exists F.ncas u) :
    F.stateMakeCasdm2 dm2 k [index F.ncas p, index F.ncas q, index F.ncas r, index F.ncas u] =
      sumSpin fun s => sumSpin fun t => expect (E k) (word2 s t p q r u) := by
  unfold Frags.stateMakeCasdm2
  rw [assembled F _ _ _ _ (stepState_pair F k) (fun p q r u =>
    sumSpin fun s => sumSpin fun t => expect (E k) (word2 s t p q r u)) ?_ ?_ ?_ ?_ ?_ ?_ p q r u hp hq hr hu]
  · intro p q r u hz
    simp [expect_unbalanced2 _ hcons _ _ _ _ _ _ hz, sumSpin]
  · intro f a b m l
    simp only [expect_diag, h2]
  · intro f g hfg a b m l
    simp only [expect_coulomb _ _ _ _ _ _ _ _ _ (Nat.ne_of_lt hfg), sumSpin, Frags.sf, h1]
    ring
  · intro f g hfg a b m l
    simp only [expect_coulomb _ _ _ _ _ _ _ _ _ (Nat.ne_of_gt hfg), sumSpin, Frags.sf, h1]
    ring
  · intro f g hfg a b m l
    simp [expect_exchange _ hcons _ _ _ _ _ _ _ _ (Nat.ne_of_lt hfg), sumSpin, h1]
    ring
  · intro f g hfg a b m l
    simp [expect_exchange _ hcons _ _ _ _ _ _ _ _ (Nat.ne_of_gt hfg), sumSpin, h1]
    rw [hsym g false l a, hsym g true l a, hsym f false b m, hsym f true b m]
    ring

/-- C83: the same-spin components of `make_casdm2s`. -/
theorem C83_same_spin (F : Frags R) (E : Nat → Nat → List Op → R) (dm2s : Nat → Bool → Bool → Arr R) (s : Bool)
    (hcons : ∀ r, Conserves (E r))
    (h1 : ∀ f r s a b, F.dm1 f r s a b = E r f (word1 s (f, a) (f, b)))
    (hsym : ∀ f r s a b, E r f (word1 s (f, a) (f, b)) = E r f (word1 s (f, b) (f, a)))
    (h2 : ∀ f a b k l, dm2s f s s [a, b, k, l] = ∑ r ∈ Finset.range F.nroots,
      F.w r * E r f (word2 s s (f, a) (f, b) (f, k) (f, l)))
    (p q r u : Nat × Nat) (hp : Exists F.ncas p) (hq : Exists F.ncas q) (hr : Exists F.ncas r) (hu : Exists F.ncas u) :
    F.makeCasdm2s dm2s s s [index F.ncas p, index F.ncas q, index F.ncas r, index F.ncas u] =
      ∑ k ∈ Finset.range F.nroots, F.w k * expect (E k) (word2 s s p q r u) := by
  unfold Frags.makeCasdm2s
  rw [assembled F _ _ _ _ (stepSpin_pair F s s) (fun p q r u => ∑ k ∈ Finset.range F.nroots,
    F.w k * expect (E k) (word2 s s p q r u)) ?_ ?_ ?_ ?_ ?_ ?_ p q r u hp hq hr hu]
  · intro p q r u hz
    simp [expect_unbalanced2 _ (hcons _) _ _ _ _ _ _ hz]
  · intro f a b k l
    simp only [expect_diag, h2]
  · intro f g hfg a b k l
    simp only [expect_coulomb _ _ _ _ _ _ _ _ _ (Nat.ne_of_lt hfg), h1]
    exact Finset.sum_congr rfl fun r _ => by ring
  · intro f g hfg a b k l
    simp only [expect_coulomb _ _ _ _ _ _ _ _ _ (Nat.ne_of_gt hfg), h1]
    exact Finset.sum_congr rfl fun r _ => by ring
  · intro f g hfg a b k l
    rw [if_pos rfl, ← Finset.sum_neg_distrib]
    refine Finset.sum_congr rfl fun r _ => ?_
    simp [expect_exchange _ (hcons _) _ _ _ _ _ _ _ _ (Nat.ne_of_lt hfg), h1]
  · intro f g hfg a b k l
    rw [if_pos rfl, ← Finset.sum_neg_distrib]
    refine Finset.sum_congr rfl fun r _ => ?_
    simp [expect_exchange _ (hcons _) _ _ _ _ _ _ _ _ (Nat.ne_of_gt hfg), h1]
    rw [hsym g r s l a, hsym f r s b k]
    ring

/-- C83 (part): the opposite-spin component, at every element except the Coulomb elements whose first pair is in a later fragment
than the second pair; or everywhere, if no fragment has spin polarization. What is missing: those Coulomb elements for
spin-polarized fragments, which are wrong (`C83_opposite_spin_violated`). -/
theorem C83_opposite_spin_partial (F : Frags R) (E : Nat → Nat → List Op → R) (dm2s : Nat → Bool → Bool → Arr R)
    (hcons : ∀ r, Conserves (E r))
    (h1 : ∀ f r s a b, F.dm1 f r s a b = E r f (word1 s (f, a) (f, b)))
    (h2 : ∀ f a b k l, dm2s f false true [a, b, k, l] = ∑ r ∈ Finset.range F.nroots,
      F.w r * E r f (word2 false true (f, a) (f, b) (f, k) (f, l)))
    (p q r u : Nat × Nat) (hp : Exists F.ncas p) (hq : Exists F.ncas q) (hr : Exists F.ncas r) (hu : Exists F.ncas u)
    (hok : ¬(p.1 = q.1 ∧ r.1 = u.1 ∧ r.1 < p.1) ∨ ∀ f r a b, E r f (word1 false (f, a) (f, b)) = E r f (word1 true (f, a) (f, b))) :
    F.makeCasdm2s dm2s false true [index F.ncas p, index F.ncas q, index F.ncas r, index F.ncas u] =
      ∑ k ∈ Finset.range F.nroots, F.w k * expect (E k) (word2 false true p q r u) := by
  unfold Frags.makeCasdm2s
  rw [assembled F _ _ _ _ (stepSpin_pair F false true) (fun p q r u =>
    if p.1 = q.1 ∧ r.1 = u.1 ∧ r.1 < p.1 then
      ∑ k ∈ Finset.range F.nroots, F.w k * (E k r.1 (word1 false r u) * E k p.1 (word1 true p q))
    else ∑ k ∈ Finset.range F.nroots, F.w k * expect (E k) (word2 false true p q r u)) ?_ ?_ ?_ ?_ ?_ ?_ p q r u hp hq hr hu]
  · split
    · rename_i hbad
      rcases hok with hok | hok
      · exact absurd hbad hok
      · obtain ⟨f, a⟩ := p
        obtain ⟨f', b⟩ := q
        obtain ⟨g, k⟩ := r
        obtain ⟨g', l⟩ := u
        obtain ⟨h, h', hlt⟩ := hbad
        dsimp only at h h' hlt
        subst h h'
        refine Finset.sum_congr rfl fun r _ => ?_
        rw [expect_coulomb _ _ _ _ _ _ _ _ _ (Nat.ne_of_gt hlt), hok, ← hok f]
        ring
    · rfl
  · intro p q r u hz
    rw [if_neg (fun h => hz.1 ⟨h.1, h.2.1⟩)]
    simp [expect_unbalanced2 _ (hcons _) _ _ _ _ _ _ hz]
  · intro f a b k l
    rw [if_neg (by simp)]
    simp only [expect_diag, h2]
  · intro f g hfg a b k l
    rw [if_neg (by dsimp only; omega)]
    simp only [expect_coulomb _ _ _ _ _ _ _ _ _ (Nat.ne_of_lt hfg), h1]
    exact Finset.sum_congr rfl fun r _ => by ring
  · intro f g hfg a b k l
    rw [if_pos (by dsimp only; omega)]
    simp only [h1]
    exact Finset.sum_congr rfl fun r _ => by ring
  · intro f g hfg a b k l
    rw [if_neg (by dsimp only; omega)]
    simp [expect_exchange _ (hcons _) _ _ _ _ _ _ _ _ (Nat.ne_of_lt hfg)]
  · intro f g hfg a b k l
    rw [if_neg (by dsimp only; omega)]
    simp [expect_exchange _ (hcons _) _ _ _ _ _ _ _ _ (Nat.ne_of_gt hfg)]

/-! ### A concrete product state: one alpha electron in the orbital of fragment 0, one beta electron in that of fragment 1 -/

/-- Fragment 0 has an alpha electron, fragment 1 a beta electron, in one orbital each. -/
def demoE : Nat → List Op → Int := detE fun f => if f = 0 then [true, false] else [false, true]

theorem demoE_conserves : Conserves demoE := detE_conserves _

/-- The fragment density matrices of the concrete state. -/
def demoFrags : Frags Int := ⟨[1, 1], 1, fun _ => 1, fun f _ s a b => demoE f (word1 s (f, a) (f, b))⟩

theorem demo_sym (f : Nat) (s : Bool) (a b : Nat) : demoE f (word1 s (f, a) (f, b)) = demoE f (word1 s (f, b) (f, a)) :=
  detE_sym _ f s a b

/-- The hypotheses of the theorems above hold for the concrete state, and elements are not all zero. -/
example : Conserves demoE ∧ (∀ f r s a b, demoFrags.dm1 f r s a b = demoE f (word1 s (f, a) (f, b))) ∧
    (∀ f s a b, demoE f (word1 s (f, a) (f, b)) = demoE f (word1 s (f, b) (f, a))) ∧
    Exists demoFrags.ncas (0, 0) ∧ Exists demoFrags.ncas (1, 0) ∧
    expect demoE (word2 false true (0, 0) (0, 0) (1, 0) (1, 0)) = 1 ∧
    expect demoE (word2 true true (0, 0) (1, 0) (1, 0) (0, 0)) = 0 :=
  ⟨demoE_conserves, fun _ _ _ _ _ => rfl, demo_sym, by decide, by decide, by decide, by decide⟩

/-- C83 is violated for the opposite-spin component: with an alpha electron in fragment 0 and a beta electron in fragment 1, the
element that counts alpha electrons of fragment 1 together with beta electrons of fragment 0 is returned as 1; it is 0. -/
theorem C83_opposite_spin_violated : ∃ (F : Frags Int) (E : Nat → List Op → Int) (dm2s : Nat → Bool → Bool → Arr Int)
    (p q r u : Nat × Nat), Conserves E ∧ (∀ f r s a b, F.dm1 f r s a b = E f (word1 s (f, a) (f, b))) ∧
    (∀ f s a b, E f (word1 s (f, a) (f, b)) = E f (word1 s (f, b) (f, a))) ∧ F.nroots = 1 ∧ F.w 0 = 1 ∧
    (∀ f s t a b k l, dm2s f s t [a, b, k, l] = E f (word2 s t (f, a) (f, b) (f, k) (f, l))) ∧
    Exists F.ncas p ∧ Exists F.ncas q ∧ Exists F.ncas r ∧ Exists F.ncas u ∧
    F.makeCasdm2s dm2s false true [index F.ncas p, index F.ncas q, index F.ncas r, index F.ncas u] ≠
      expect E (word2 false true p q r u) := by
  refine ⟨demoFrags, demoE, fun f s t => arr4 fun a b k l => demoE f (word2 s t (f, a) (f, b) (f, k) (f, l)),
    (1, 0), (1, 0), (0, 0), (0, 0), demoE_conserves, fun _ _ _ _ _ => rfl, demo_sym, rfl, rfl, fun _ _ _ _ _ _ _ => rfl,
    by decide, by decide, by decide, by decide, by decide⟩

end Verif.Props
