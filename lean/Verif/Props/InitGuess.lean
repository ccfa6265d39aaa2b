import Verif.Model.InitGuess
import Verif.Spec.InitGuess
import Mathlib.Algebra.Field.Rat
import Mathlib.Tactic.NormNum
import Mathlib.Tactic.Ring
import Mathlib.Tactic.FieldSimp
import Mathlib.Tactic.LinearCombination
import Mathlib.Tactic.IntervalCases
import Mathlib.Tactic.Linarith
/-!
# C123: combination of stored and generated CI vectors
-/
namespace Verif.Props
open Verif.InitGuess Verif.Spec.InitGuess

variable {K : Type} [Field K]

theorem guess_fits {nda ndb n : Nat} (a : Arr K) (h : a.size = n * (nda * ndb)) : fits nda ndb a = true := by
  have e : a.size = nda * (n * ndb) := by rw [h]; ring
  simp [fits, e]

theorem guess_reshape {nda ndb n : Nat} (a : Arr K) (ha : 0 < nda) (hb : 0 < ndb) (h : a.size = n * (nda * ndb)) :
    reshape3 nda ndb a = some ⟨[n, nda, ndb], a.val⟩ := by
  have hp : 0 < nda * ndb := Nat.mul_pos ha hb
  simp only [reshape3, rows]
  rw [if_pos ⟨by omega, by rw [h]; simp⟩, h, Nat.mul_div_cancel _ hp]
  rfl

/-- C123: without stored vectors the generated vectors are returned; a single one is returned without the leading dimension. -/
theorem C123_none (qr : Nat → (Nat → Nat → K) → Nat → Nat → K) (g : Arr K) (nda ndb nroots : Nat) (ha : 0 < nda) (hb : 0 < ndb)
    (hr : 0 < nroots) (hg : g.size = nroots * (nda * ndb)) :
    combine qr none g nda ndb nroots = some ⟨if nroots = 1 then [nda, ndb] else [nroots, nda, ndb], g.val⟩ := by
  unfold combine combined
  rw [guess_fits g hg, guess_reshape g ha hb hg]
  by_cases h : nroots = 1
  · subst h; simp [first]
  · simp [h]

example : combine (fun _ _ _ _ => (0 : Rat)) none ⟨[12], fun k => k⟩ 3 2 2 = some ⟨[2, 3, 2], fun k => k⟩ :=
  C123_none _ ⟨[12], fun k => (k : Rat)⟩ 3 2 2 (by norm_num) (by norm_num) (by norm_num) (by rfl)

/-- C123: if at least as many vectors are stored as are asked for, they are returned unchanged. -/
theorem C123_enough (qr : Nat → (Nat → Nat → K) → Nat → Nat → K) (c g : Arr K) (nda ndb nroots n n0 : Nat) (ha : 0 < nda)
    (hb : 0 < ndb) (hr : 0 < nroots) (hg : g.size = n * (nda * ndb)) (hc : c.size = n0 * (nda * ndb)) (hn : nroots ≤ n0) :
    combine qr (some c) g nda ndb nroots = some ⟨if nroots = 1 then [nda, ndb] else [n0, nda, ndb], c.val⟩ := by
  unfold combine combined
  rw [guess_fits g hg, guess_reshape g ha hb hg]
  simp only [guess_fits c hc, guess_reshape c ha hb hc, if_true]
  have h1 : ¬ n0 = 0 := by omega
  have h2 : ¬ n0 < nroots := by omega
  by_cases h : nroots = 1
  · subst h; simp [first, h1, h2]
  · simp [h, h1, h2]

example : combine (fun _ _ _ _ => (0 : Rat)) (some ⟨[3, 3, 2], fun k => k⟩) ⟨[12], fun k => 2 * k⟩ 3 2 2 =
    some ⟨[3, 3, 2], fun k => k⟩ :=
  C123_enough _ ⟨[3, 3, 2], fun k => (k : Rat)⟩ ⟨[12], fun k => 2 * (k : Rat)⟩ 3 2 2 2 3 (by norm_num) (by norm_num) (by norm_num)
    (by rfl) (by rfl) (by norm_num)

/-- C123: if fewer vectors are stored than are asked for and the call returns, it returns as many as are asked for, and the stored
vectors come first. Missing: that it returns, and that the others are orthogonal to the stored ones. -/
theorem C123_stored_partial (qr : Nat → (Nat → Nat → K) → Nat → Nat → K) (c g : Arr K) (nda ndb nroots n0 : Nat) (ha : 0 < nda)
    (hb : 0 < ndb) (hg : g.size = nroots * (nda * ndb)) (hc : c.size = n0 * (nda * ndb)) (h0 : 0 < n0) (hn : n0 < nroots)
    (out : Arr K) (hout : combine qr (some c) g nda ndb nroots = some out) :
    out.shape = [nroots, nda, ndb] ∧ SameVectors (nda * ndb) n0 out.val c.val := by
  have h1 : ¬ n0 = 0 := by omega
  have h2 : ¬ nroots = 1 := by omega
  unfold combine combined at hout
  rw [guess_fits g hg, guess_reshape g ha hb hg] at hout
  simp only [guess_fits c hc, guess_reshape c ha hb hc, if_true] at hout
  simp only [Option.map_some, List.headD_cons, h1, hn, if_true, if_false, h2, rows, Arr.size, List.prod_cons, List.prod_nil,
    Option.bind_eq_bind, Option.bind_some, matmul3, appendCut] at hout
  have e1 : nroots * (nda * (ndb * 1)) % nroots = 0 := by simp
  have e2 : n0 * (nda * (ndb * 1)) % n0 = 0 := by simp
  have e3 : nroots * (nda * (ndb * 1)) / nroots = nda * ndb := by rw [Nat.mul_div_cancel_left _ (by omega), Nat.mul_one]
  have e4 : n0 * (nda * (ndb * 1)) / n0 = nda * ndb := by rw [Nat.mul_div_cancel_left _ h0, Nat.mul_one]
  have e5 : nroots ≠ 0 := by omega
  simp only [e1, e2, e3, e4, e5, h1, ne_eq, not_false_eq_true, and_self, if_true, Option.bind_some] at hout
  by_cases h3 : nda = nroots
  · simp only [h3, if_true, Option.bind_some] at hout
    injection hout with hout
    subst hout
    refine ⟨by simp [h3], fun r hr x hx => ?_⟩
    simp only
    rw [if_pos]
    have : (r + 1) * (nda * ndb) ≤ n0 * (nda * ndb) := Nat.mul_le_mul_right _ hr
    rw [Nat.add_mul] at this
    have e : n0 * nroots * ndb = n0 * (nda * ndb) := by rw [h3]; ring
    omega
  · simp [h3] at hout

/-- One stored vector and two generated ones, for two determinants. -/
def guessStored : Arr Rat := ⟨[1, 2, 1], fun k => if k = 0 then 3 / 5 else 4 / 5⟩
def guessMade : Arr Rat := ⟨[2, 2, 1], fun k => if k = 0 ∨ k = 3 then 1 else 0⟩

def guessQ : Nat → (Nat → Nat → Rat) → Nat → Nat → Rat := fun _ _ i j => if i = j then 1 else 0

example : ∃ out, combine guessQ (some guessStored) guessMade 2 1 2 = some out ∧
    out.shape = [2, 2, 1] ∧ SameVectors 2 1 out.val guessStored.val := by
  refine ⟨_, rfl, ?_⟩
  exact C123_stored_partial guessQ guessStored guessMade 2 1 2 1 (by norm_num) (by norm_num) (by rfl) (by rfl) (by norm_num) (by norm_num)
    _ rfl

/-- C123: stored arrays whose size is not a multiple of the number of determinants of one spin are ignored. -/
theorem C123_ignored (qr : Nat → (Nat → Nat → K) → Nat → Nat → K) (c g : Arr K) (nda ndb nroots : Nat) (ha : 0 < nda)
    (hb : 0 < ndb) (hr : 0 < nroots) (hg : g.size = nroots * (nda * ndb)) (hc : ¬ nda ∣ c.size) :
    combine qr (some c) g nda ndb nroots = some ⟨if nroots = 1 then [nda, ndb] else [nroots, nda, ndb], g.val⟩ := by
  have hf : fits nda ndb c = false := by
    have : c.size % nda ≠ 0 := fun h => hc (Nat.dvd_of_mod_eq_zero h)
    simp [fits, this]; omega
  unfold combine combined
  rw [guess_fits g hg, guess_reshape g ha hb hg]
  simp only [hf]
  by_cases h : nroots = 1
  · subst h; simp [first]
  · simp [h]

example : combine (fun _ _ _ _ => (0 : Rat)) (some ⟨[4], fun k => k⟩) ⟨[12], fun k => 2 * k⟩ 3 2 2 =
    some ⟨[2, 3, 2], fun k => 2 * k⟩ :=
  C123_ignored _ ⟨[4], fun k => (k : Rat)⟩ ⟨[12], fun k => 2 * (k : Rat)⟩ 3 2 2 (by norm_num) (by norm_num) (by norm_num)
    (by rfl) (by decide)

/-- C123 does not hold in general. (1) If fewer vectors are stored than are asked for, the call fails for all vectors unless the number of
vectors asked for happens to be the number of α strings. (2) If it is, the added vectors need not be orthogonal to the stored ones,
although they are projected, whichever orthogonal factor `qr` returns. (3) Stored arrays whose size is a multiple of the number of α strings
but not of the number of determinants make the call fail. -/
theorem C123_few_violated :
    (∀ (qr : Nat → (Nat → Nat → K) → Nat → Nat → K) (c g : Arr K) (nda ndb nroots n0 : Nat), 0 < nda → 0 < ndb →
      g.size = nroots * (nda * ndb) → c.size = n0 * (nda * ndb) → 0 < n0 → n0 < nroots → nroots ≠ nda →
      combine qr (some c) g nda ndb nroots = none) ∧
    (∀ qr : Nat → (Nat → Nat → Rat) → Nat → Nat → Rat, (∀ n A, (∃ Q, IsQR n A Q) → IsQR n A (qr n A)) →
      ∃ out, combine qr (some guessStored) guessMade 2 1 2 = some out ∧ overlap 2 guessStored.val guessStored.val 0 0 = 1 ∧
        overlap 2 out.val guessStored.val 1 0 ≠ 0) ∧
    (∀ (qr : Nat → (Nat → Nat → K) → Nat → Nat → K) (c g : Arr K) (nda ndb nroots : Nat), 0 < nda → 0 < ndb →
      g.size = nroots * (nda * ndb) → nda ∣ c.size → ¬ nda * ndb ∣ c.size → combine qr (some c) g nda ndb nroots = none) := by
  refine ⟨?_, ?_, ?_⟩
  · intro qr c g nda ndb nroots n0 ha hb hg hc h0 hn h3
    have h1 : ¬ n0 = 0 := by omega
    unfold combine combined
    rw [guess_fits g hg, guess_reshape g ha hb hg]
    simp only [guess_fits c hc, guess_reshape c ha hb hc, if_true]
    simp only [Option.map_some, List.headD_cons, h1, hn, if_true, if_false, rows, Arr.size, List.prod_cons, List.prod_nil,
      Option.bind_eq_bind, Option.bind_some, matmul3]
    have e1 : nroots * (nda * (ndb * 1)) % nroots = 0 := by simp
    have e2 : n0 * (nda * (ndb * 1)) % n0 = 0 := by simp
    have e5 : nroots ≠ 0 := by omega
    simp only [e1, e2, e5, h1, ne_eq, not_false_eq_true, and_self, if_true, Option.bind_some, Ne.symm h3, if_false]
    split <;> rfl
  · intro qr hqr
    let cg := projectOut 1 2 guessMade.val guessStored.val
    let A := gram 2 cg
    have hcg : cg 0 = 16 / 25 ∧ cg 1 = -12 / 25 ∧ cg 2 = -12 / 25 ∧ cg 3 = 9 / 25 := by
      refine ⟨?_, ?_, ?_, ?_⟩ <;> norm_num [cg, projectOut, guessMade, guessStored, Finset.sum_range_succ]
    have hA : A 0 0 = 16 / 25 ∧ A 0 1 = -12 / 25 ∧ A 1 0 = -12 / 25 ∧ A 1 1 = 9 / 25 := by
      refine ⟨?_, ?_, ?_, ?_⟩ <;>
        norm_num [A, gram, Finset.sum_range_succ, hcg.1, hcg.2.1, hcg.2.2.1, hcg.2.2.2]
    obtain ⟨ho, R, hR, hQR⟩ := hqr 2 A ⟨fun i j => if i = 0 then (if j = 0 then 4 / 5 else 3 / 5) else (if j = 0 then -3 / 5 else 4 / 5),
      by intro i hi j hj; interval_cases i <;> interval_cases j <;> norm_num [Finset.sum_range_succ],
      fun i j => if i = 0 then (if j = 0 then 4 / 5 else -3 / 5) else 0,
      by intro i hi j hj; simp; omega,
      by intro i hi j hj; interval_cases i <;> interval_cases j <;> norm_num [Finset.sum_range_succ, hA]⟩
    generalize hQ : qr 2 A = Q at ho hQR
    refine ⟨⟨[2, 2, 1], fun k => if k < 2 then guessStored.val k else ∑ i ∈ Finset.range 2, Q i ((k - 2) / 1 % 2) *
      cg (((k - 2) / 1 / 2 * 2 + i) * 1 + (k - 2) % 1)⟩, ?_, ?_, ?_⟩
    · rw [← hQ]; rfl
    · norm_num [overlap, guessStored, Finset.sum_range_succ]
    · have q00 := hQR 0 (by norm_num) 0 (by norm_num)
      have q10 := hQR 1 (by norm_num) 0 (by norm_num)
      have o00 := ho 0 (by norm_num) 0 (by norm_num)
      have o10 := ho 1 (by norm_num) 0 (by norm_num)
      have r10 := hR 1 (by norm_num) 0 (by norm_num)
      simp only [Finset.sum_range_succ, Finset.sum_range_zero, zero_add, r10, mul_zero, add_zero, hA.1, hA.2.2.1] at q00 q10
      norm_num [Finset.sum_range_succ] at o00 o10
      norm_num [overlap, guessStored, Finset.sum_range_succ, hcg.1, hcg.2.1]
      intro hz
      have h1 : Q 0 0 * (16 / 25) + Q 1 0 * (-12 / 25) = R 0 0 := by rw [q00, q10]; linear_combination R 0 0 * o00
      have h2 : Q 0 1 * (16 / 25) + Q 1 1 * (-12 / 25) = 0 := by rw [q00, q10]; linear_combination R 0 0 * o10
      have h3 : R 0 0 = 0 := by linear_combination (5 / 3) * hz - h1 - (4 / 3) * h2
      rw [h3] at q00
      norm_num at q00
  · intro qr c g nda ndb nroots ha hb hg h1 h2
    have hf : fits nda ndb c = true := by simp [fits, Nat.mod_eq_zero_of_dvd h1]
    have hr : reshape3 nda ndb c = none := by
      simp only [reshape3, rows]
      rw [if_neg]
      · rfl
      · rintro ⟨-, h⟩
        exact h2 (Nat.dvd_of_mod_eq_zero h)
    unfold combine combined
    rw [guess_fits g hg, guess_reshape g ha hb hg]
    simp only [hf, hr]
    rfl

example : combine (fun _ _ _ _ => (0 : Rat)) (some ⟨[3], fun k => k⟩) ⟨[12], fun k => 2 * k⟩ 3 2 2 = none :=
  C123_few_violated.2.2 _ ⟨[3], fun k => (k : Rat)⟩ ⟨[12], fun k => 2 * (k : Rat)⟩ 3 2 2 (by norm_num) (by norm_num) (by rfl)
    (by decide) (by decide)

end Verif.Props
