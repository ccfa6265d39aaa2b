import Verif.Lemmas.LstdmRows3
import Verif.Lemmas.S2El
import Verif.Model.HamS2
/-!
# Lemmas: linear functionals of the arrays written block by block
-/
namespace Verif.Lstdm
open Verif.Spec.Tdm Verif.Spec.Lstdm Verif.Spec.Fockspace Verif.Tdm Verif.Signs

variable {K : Type} [Field K]

/-- Sum over four ranges. -/
def S4 (A B C E : Nat) (F : Nat → Nat → Nat → Nat → K) : K :=
  ∑ a ∈ Finset.range A, ∑ b ∈ Finset.range B, ∑ c ∈ Finset.range C, ∑ e ∈ Finset.range E, F a b c e

/-- Sum over two ranges. -/
def S2 (A B : Nat) (F : Nat → Nat → K) : K := ∑ a ∈ Finset.range A, ∑ b ∈ Finset.range B, F a b

theorem S4_congr {A B C E : Nat} {F G : Nat → Nat → Nat → Nat → K}
    (h : ∀ a b c e, a < A → b < B → c < C → e < E → F a b c e = G a b c e) : S4 A B C E F = S4 A B C E G :=
  Finset.sum_congr rfl fun a ha => Finset.sum_congr rfl fun b hb => Finset.sum_congr rfl fun c hc => Finset.sum_congr rfl fun e he =>
    h a b c e (Finset.mem_range.mp ha) (Finset.mem_range.mp hb) (Finset.mem_range.mp hc) (Finset.mem_range.mp he)

theorem S2_congr {A B : Nat} {F G : Nat → Nat → K} (h : ∀ a b, a < A → b < B → F a b = G a b) : S2 A B F = S2 A B G :=
  Finset.sum_congr rfl fun a ha => Finset.sum_congr rfl fun b hb => h a b (Finset.mem_range.mp ha) (Finset.mem_range.mp hb)

theorem S4_12 (A B C E : Nat) (F : Nat → Nat → Nat → Nat → K) : S4 A B C E F = S4 B A C E (fun b a c e => F a b c e) :=
  Finset.sum_comm

theorem S4_23 (A B C E : Nat) (F : Nat → Nat → Nat → Nat → K) : S4 A B C E F = S4 A C B E (fun a c b e => F a b c e) :=
  Finset.sum_congr rfl fun _ _ => Finset.sum_comm

theorem S4_34 (A B C E : Nat) (F : Nat → Nat → Nat → Nat → K) : S4 A B C E F = S4 A B E C (fun a b e c => F a b c e) :=
  Finset.sum_congr rfl fun _ _ => Finset.sum_congr rfl fun _ _ => Finset.sum_comm

theorem S2_12 (A B : Nat) (F : Nat → Nat → K) : S2 A B F = S2 B A (fun b a => F a b) := Finset.sum_comm

theorem S4_add (A B C E : Nat) (F G : Nat → Nat → Nat → Nat → K) :
    S4 A B C E (fun a b c e => F a b c e + G a b c e) = S4 A B C E F + S4 A B C E G := by
  unfold S4; simp only [Finset.sum_add_distrib]

theorem S4_sub (A B C E : Nat) (F G : Nat → Nat → Nat → Nat → K) :
    S4 A B C E (fun a b c e => F a b c e - G a b c e) = S4 A B C E F - S4 A B C E G := by
  unfold S4; simp only [Finset.sum_sub_distrib]

theorem S4_mul (A B C E : Nat) (x : K) (F : Nat → Nat → Nat → Nat → K) :
    S4 A B C E (fun a b c e => x * F a b c e) = x * S4 A B C E F := by
  unfold S4; simp only [Finset.mul_sum]

theorem S4_neg (A B C E : Nat) (F : Nat → Nat → Nat → Nat → K) :
    S4 A B C E (fun a b c e => -F a b c e) = -S4 A B C E F := by
  unfold S4; simp only [Finset.sum_neg_distrib]

theorem S4_zero (A B C E : Nat) : S4 A B C E (fun _ _ _ _ => (0 : K)) = 0 := by unfold S4; simp

theorem S2_add (A B : Nat) (F G : Nat → Nat → K) : S2 A B (fun a b => F a b + G a b) = S2 A B F + S2 A B G := by
  unfold S2; simp only [Finset.sum_add_distrib]

theorem S2_mul (A B : Nat) (x : K) (F : Nat → Nat → K) : S2 A B (fun a b => x * F a b) = x * S2 A B F := by
  unfold S2; simp only [Finset.mul_sum]

theorem S2_zero (A B : Nat) : S2 A B (fun _ _ => (0 : K)) = 0 := by unfold S2; simp

/-! ### Restriction to blocks -/

theorem sum_rng {R : Type} [AddCommMonoid R] (ns : List Nat) (i : Nat) (hi : i < ns.length) (F : Nat → R) :
    (∑ p ∈ Finset.range ns.sum, if inRng (getRange ns i) p = true then F p else 0) =
      ∑ a ∈ Finset.range (ns.getD i 0), F (fragStart ns i + a) := by
  have hle : fragStart ns i + ns.getD i 0 ≤ ns.sum := by
    rw [← fragStart_succ, ← fragStart_length]; exact fragStart_mono ns (by omega)
  rw [← Finset.sum_filter]
  have : (Finset.range ns.sum).filter (fun p => inRng (getRange ns i) p = true) =
      Finset.Ico (fragStart ns i) (fragStart ns i + ns.getD i 0) := by
    ext p
    simp only [inRng, Finset.mem_filter, Finset.mem_range, Finset.mem_Ico, Bool.and_eq_true, decide_eq_true_eq]
    change _ ∧ fragStart ns i ≤ p ∧ p < fragStart ns i + ns.getD i 0 ↔ _
    constructor
    · rintro ⟨_, h⟩; exact h
    · intro h; exact ⟨by omega, h⟩
  rw [this, Finset.sum_Ico_eq_sum_range]
  simp

theorem inRng_iff (ns : List Nat) (i p : Nat) : inRng (getRange ns i) p = true ↔
    ∃ a, a < ns.getD i 0 ∧ p = fragStart ns i + a := by
  simp only [inRng, Bool.and_eq_true, decide_eq_true_eq]
  change fragStart ns i ≤ p ∧ p < fragStart ns i + ns.getD i 0 ↔ _
  constructor
  · intro h; exact ⟨p - fragStart ns i, by omega, by omega⟩
  · rintro ⟨a, h1, rfl⟩; omega

/-- The functional of a one-body array. -/
def L1 (N : Nat) (g : D1 K) (d : D1 K) : K := ∑ s ∈ Finset.range 2, S2 N N (fun p q => g s p q * d s p q)
/-- The functional of a two-body array. -/
def L2 (N : Nat) (g : D2 K) (d : D2 K) : K := ∑ st ∈ Finset.range 4, S4 N N N N (fun p q r u => g st p q r u * d st p q r u)

/-- A block of a functional. -/
def B4 (ns : List Nat) (g : Nat → Nat → Nat → Nat → K) (i j k l : Nat) (f : Nat → Nat → Nat → Nat → K) : K :=
  S4 (ns.getD i 0) (ns.getD j 0) (ns.getD k 0) (ns.getD l 0) (fun a b c e =>
    g (fragStart ns i + a) (fragStart ns j + b) (fragStart ns k + c) (fragStart ns l + e) * f a b c e)
@[inherit_doc B4]
def B2 (ns : List Nat) (g : Nat → Nat → K) (i j : Nat) (f : Nat → Nat → K) : K :=
  S2 (ns.getD i 0) (ns.getD j 0) (fun a b => g (fragStart ns i + a) (fragStart ns j + b) * f a b)

/-- The array is zero in a block. -/
def Zr (ns : List Nat) (d : D2 K) (st i j k l : Nat) : Prop :=
  ∀ a b c e, a < ns.getD i 0 → b < ns.getD j 0 → c < ns.getD k 0 → e < ns.getD l 0 →
    d st (fragStart ns i + a) (fragStart ns j + b) (fragStart ns k + c) (fragStart ns l + e) = 0

theorem zr_zero (ns : List Nat) (st i j k l : Nat) : Zr ns (zero2 : D2 K) st i j k l := fun _ _ _ _ _ _ _ _ => rfl

theorem put4_in (ns : List Nat) (d : D2 K) (ss : List Nat) (i j k l : Nat) (blk : Nat → Nat → Nat → Nat → Nat → K) (st a b c e : Nat)
    (hs : st ∈ ss) (ha : a < ns.getD i 0) (hb : b < ns.getD j 0) (hc : c < ns.getD k 0) (he : e < ns.getD l 0) :
    put4 d ss (getRange ns i) (getRange ns j) (getRange ns k) (getRange ns l) blk st (fragStart ns i + a) (fragStart ns j + b)
      (fragStart ns k + c) (fragStart ns l + e) = blk (ss.idxOf st) a b c e := by
  unfold put4
  rw [inRng_frag ns i i a ha, inRng_frag ns j j b hb, inRng_frag ns k k c hc, inRng_frag ns l l e he, if_pos (by simp [hs]),
    sub_frag, sub_frag, sub_frag, sub_frag]

theorem put4_out (ns : List Nat) (d : D2 K) (ss : List Nat) (i j k l i' j' k' l' : Nat) (blk : Nat → Nat → Nat → Nat → Nat → K)
    (st a b c e : Nat) (hs : ¬ (st ∈ ss ∧ i' = i ∧ j' = j ∧ k' = k ∧ l' = l)) (ha : a < ns.getD i' 0) (hb : b < ns.getD j' 0)
    (hc : c < ns.getD k' 0) (he : e < ns.getD l' 0) :
    put4 d ss (getRange ns i) (getRange ns j) (getRange ns k) (getRange ns l) blk st (fragStart ns i' + a) (fragStart ns j' + b)
      (fragStart ns k' + c) (fragStart ns l' + e) =
    d st (fragStart ns i' + a) (fragStart ns j' + b) (fragStart ns k' + c) (fragStart ns l' + e) := by
  unfold put4
  rw [inRng_frag ns i i' a ha, inRng_frag ns j j' b hb, inRng_frag ns k k' c hc, inRng_frag ns l l' e he, if_neg]
  simp only [Bool.and_eq_true, decide_eq_true_eq]
  rintro ⟨⟨⟨⟨h0, h1⟩, h2⟩, h3⟩, h4⟩
  exact hs ⟨h0, h1, h2, h3, h4⟩

theorem zr_put {ns : List Nat} {d : D2 K} {st i' j' k' l' : Nat} (h : Zr ns d st i' j' k' l') (ss : List Nat) (i j k l : Nat)
    (blk : Nat → Nat → Nat → Nat → Nat → K) (hs : ¬ (st ∈ ss ∧ i' = i ∧ j' = j ∧ k' = k ∧ l' = l)) :
    Zr ns (put4 d ss (getRange ns i) (getRange ns j) (getRange ns k) (getRange ns l) blk) st i' j' k' l' := by
  intro a b c e ha hb hc he
  rw [put4_out ns d ss i j k l i' j' k' l' blk st a b c e hs ha hb hc he]
  exact h a b c e ha hb hc he

theorem put4_noop (ns : List Nat) (d : D2 K) (ss : List Nat) (i j k l : Nat) (blk : Nat → Nat → Nat → Nat → Nat → K)
    (h : ∀ st ∈ ss, ∀ a b c e, a < ns.getD i 0 → b < ns.getD j 0 → c < ns.getD k 0 → e < ns.getD l 0 →
      d st (fragStart ns i + a) (fragStart ns j + b) (fragStart ns k + c) (fragStart ns l + e) = blk (ss.idxOf st) a b c e) :
    put4 d ss (getRange ns i) (getRange ns j) (getRange ns k) (getRange ns l) blk = d := by
  funext st p q r u
  unfold put4
  split
  next hh =>
    simp only [Bool.and_eq_true, decide_eq_true_eq] at hh
    obtain ⟨⟨⟨⟨h0, h1⟩, h2⟩, h3⟩, h4⟩ := hh
    obtain ⟨a, ha, rfl⟩ := (inRng_iff ns i p).mp h1
    obtain ⟨b, hb, rfl⟩ := (inRng_iff ns j q).mp h2
    obtain ⟨c, hc, rfl⟩ := (inRng_iff ns k r).mp h3
    obtain ⟨e, he, rfl⟩ := (inRng_iff ns l u).mp h4
    rw [sub_frag, sub_frag, sub_frag, sub_frag]
    exact (h st h0 a b c e ha hb hc he).symm
  next => rfl

theorem S4_rng (ns : List Nat) (i j k l : Nat) (hi : i < ns.length) (hj : j < ns.length) (hk : k < ns.length) (hl : l < ns.length)
    (F : Nat → Nat → Nat → Nat → K) :
    S4 ns.sum ns.sum ns.sum ns.sum (fun p q r u => if inRng (getRange ns i) p = true ∧ inRng (getRange ns j) q = true ∧
      inRng (getRange ns k) r = true ∧ inRng (getRange ns l) u = true then F p q r u else 0) =
    S4 (ns.getD i 0) (ns.getD j 0) (ns.getD k 0) (ns.getD l 0) (fun a b c e =>
      F (fragStart ns i + a) (fragStart ns j + b) (fragStart ns k + c) (fragStart ns l + e)) := by
  unfold S4
  rw [← sum_rng ns i hi (fun p => ∑ b ∈ Finset.range (ns.getD j 0), ∑ c ∈ Finset.range (ns.getD k 0), ∑ e ∈ Finset.range (ns.getD l 0),
    F p (fragStart ns j + b) (fragStart ns k + c) (fragStart ns l + e))]
  refine Finset.sum_congr rfl fun p _ => ?_
  by_cases h1 : inRng (getRange ns i) p = true
  · rw [if_pos h1, ← sum_rng ns j hj (fun q => ∑ c ∈ Finset.range (ns.getD k 0), ∑ e ∈ Finset.range (ns.getD l 0),
      F p q (fragStart ns k + c) (fragStart ns l + e))]
    refine Finset.sum_congr rfl fun q _ => ?_
    by_cases h2 : inRng (getRange ns j) q = true
    · rw [if_pos h2, ← sum_rng ns k hk (fun r => ∑ e ∈ Finset.range (ns.getD l 0), F p q r (fragStart ns l + e))]
      refine Finset.sum_congr rfl fun r _ => ?_
      by_cases h3 : inRng (getRange ns k) r = true
      · rw [if_pos h3, ← sum_rng ns l hl (fun u => F p q r u)]
        simp only [h1, h2, h3, true_and]
      · rw [if_neg h3]; simp [h3]
    · rw [if_neg h2]; simp [h2]
  · rw [if_neg h1]; simp [h1]

theorem S2_rng (ns : List Nat) (i j : Nat) (hi : i < ns.length) (hj : j < ns.length) (F : Nat → Nat → K) :
    S2 ns.sum ns.sum (fun p q => if inRng (getRange ns i) p = true ∧ inRng (getRange ns j) q = true then F p q else 0) =
    S2 (ns.getD i 0) (ns.getD j 0) (fun a b => F (fragStart ns i + a) (fragStart ns j + b)) := by
  unfold S2
  rw [← sum_rng ns i hi (fun p => ∑ b ∈ Finset.range (ns.getD j 0), F p (fragStart ns j + b))]
  refine Finset.sum_congr rfl fun p _ => ?_
  by_cases h1 : inRng (getRange ns i) p = true
  · rw [if_pos h1, ← sum_rng ns j hj (fun q => F p q)]
    simp only [h1, true_and]
  · rw [if_neg h1]; simp [h1]

theorem put4_add (ns : List Nat) (d : D2 K) (ss : List Nat) (i j k l : Nat) (blk : Nat → Nat → Nat → Nat → Nat → K)
    (h : ∀ st ∈ ss, Zr ns d st i j k l) (st p q r u : Nat) :
    put4 d ss (getRange ns i) (getRange ns j) (getRange ns k) (getRange ns l) blk st p q r u = d st p q r u +
      if st ∈ ss then (if inRng (getRange ns i) p = true ∧ inRng (getRange ns j) q = true ∧
      inRng (getRange ns k) r = true ∧ inRng (getRange ns l) u = true then
        blk (ss.idxOf st) (p - fragStart ns i) (q - fragStart ns j) (r - fragStart ns k) (u - fragStart ns l) else 0) else 0 := by
  unfold put4
  by_cases h0 : st ∈ ss
  · rw [if_pos h0]
    by_cases hh : inRng (getRange ns i) p = true ∧ inRng (getRange ns j) q = true ∧
      inRng (getRange ns k) r = true ∧ inRng (getRange ns l) u = true
    · rw [if_pos hh, if_pos (by simp [h0, hh])]
      obtain ⟨h1, h2, h3, h4⟩ := hh
      obtain ⟨a, ha, rfl⟩ := (inRng_iff ns i p).mp h1
      obtain ⟨b, hb, rfl⟩ := (inRng_iff ns j q).mp h2
      obtain ⟨c, hc, rfl⟩ := (inRng_iff ns k r).mp h3
      obtain ⟨e, he, rfl⟩ := (inRng_iff ns l u).mp h4
      rw [h st h0 a b c e ha hb hc he, zero_add]
      rfl
    · rw [if_neg hh, add_zero, if_neg]
      simp only [Bool.and_eq_true, decide_eq_true_eq]
      rintro ⟨⟨⟨⟨_, h1⟩, h2⟩, h3⟩, h4⟩
      exact hh ⟨h1, h2, h3, h4⟩
  · rw [if_neg h0, add_zero, if_neg (by simp [h0])]

/-- Writing to a block that was zero. -/
theorem L2_put (ns : List Nat) (g d : D2 K) (ss : List Nat) (i j k l : Nat) (hi : i < ns.length) (hj : j < ns.length)
    (hk : k < ns.length) (hl : l < ns.length) (blk : Nat → Nat → Nat → Nat → Nat → K) (h : ∀ st ∈ ss, Zr ns d st i j k l) :
    L2 ns.sum g (put4 d ss (getRange ns i) (getRange ns j) (getRange ns k) (getRange ns l) blk) = L2 ns.sum g d +
      ∑ st ∈ Finset.range 4, if st ∈ ss then B4 ns (g st) i j k l (blk (ss.idxOf st)) else 0 := by
  unfold L2
  rw [← Finset.sum_add_distrib]
  refine Finset.sum_congr rfl fun st _ => ?_
  simp only [put4_add ns d ss i j k l blk h, mul_add]
  rw [S4_add]
  congr 1
  by_cases h0 : st ∈ ss
  · simp only [if_pos h0, mul_ite, mul_zero]
    rw [S4_rng ns i j k l hi hj hk hl (fun p q r u => g st p q r u * blk (ss.idxOf st) (p - fragStart ns i) (q - fragStart ns j)
      (r - fragStart ns k) (u - fragStart ns l))]
    unfold B4
    simp only [Nat.add_sub_cancel_left]
  · simp only [if_neg h0, mul_zero, S4_zero]

theorem L2_put1 (ns : List Nat) (g d : D2 K) (a i j k l : Nat) (h4 : a < 4) (hi : i < ns.length) (hj : j < ns.length)
    (hk : k < ns.length) (hl : l < ns.length) (blk : Nat → Nat → Nat → Nat → Nat → K) (h : Zr ns d a i j k l) :
    L2 ns.sum g (put4 d [a] (getRange ns i) (getRange ns j) (getRange ns k) (getRange ns l) blk) = L2 ns.sum g d +
      B4 ns (g a) i j k l (blk 0) := by
  rw [L2_put ns g d [a] i j k l hi hj hk hl blk (by intro st hst; simp at hst; rw [hst]; exact h)]
  congr 1
  rw [Finset.sum_eq_single a (by intro b _ hb; rw [if_neg (by simpa using hb)]) (by intro hn; exact absurd (Finset.mem_range.mpr h4) hn),
    if_pos (by simp)]
  simp

theorem L2_put2 (ns : List Nat) (g d : D2 K) (a b i j k l : Nat) (ha : a < 4) (hb : b < 4) (hab : a ≠ b) (hi : i < ns.length)
    (hj : j < ns.length) (hk : k < ns.length) (hl : l < ns.length) (blk : Nat → Nat → Nat → Nat → Nat → K) (h : Zr ns d a i j k l)
    (h' : Zr ns d b i j k l) :
    L2 ns.sum g (put4 d [a, b] (getRange ns i) (getRange ns j) (getRange ns k) (getRange ns l) blk) = L2 ns.sum g d +
      (B4 ns (g a) i j k l (blk 0) + B4 ns (g b) i j k l (blk 1)) := by
  rw [L2_put ns g d [a, b] i j k l hi hj hk hl blk (by
    intro st hst; simp at hst; rcases hst with rfl | rfl
    · exact h
    · exact h')]
  congr 1
  have e : ∀ st, (if st ∈ [a, b] then B4 ns (g st) i j k l (blk ([a, b].idxOf st)) else 0) =
      (if st = a then B4 ns (g a) i j k l (blk 0) else 0) + if st = b then B4 ns (g b) i j k l (blk 1) else 0 := by
    intro st
    by_cases h1 : st = a
    · subst h1; simp [hab]
    · by_cases h2 : st = b
      · subst h2
        have : [a, st].idxOf st = 1 := by
          rw [List.idxOf_cons_ne _ (fun h => h1 h.symm), List.idxOf_cons_self]
        simp [h1, this]
      · simp [h1, h2]
  simp only [e, Finset.sum_add_distrib, Finset.sum_ite_eq', Finset.mem_range, ha, hb, if_true]

theorem L2_zero (N : Nat) (g : D2 K) : L2 N g zero2 = 0 := by
  unfold L2 zero2; simp only [mul_zero, S4_zero, Finset.sum_const_zero]

theorem L1_zero (N : Nat) (g : D1 K) : L1 N g zero1 = 0 := by
  unfold L1 zero1; simp only [mul_zero, S2_zero, Finset.sum_const_zero]

/-- Writing a block of a one-body array. -/
theorem L1_put (ns : List Nat) (g : D1 K) (ss : List Nat) (i j : Nat) (hi : i < ns.length) (hj : j < ns.length)
    (blk : Nat → Nat → Nat → K) :
    L1 ns.sum g (put2 zero1 ss (getRange ns i) (getRange ns j) blk) =
      ∑ s ∈ Finset.range 2, if s ∈ ss then B2 ns (g s) i j (blk (ss.idxOf s)) else 0 := by
  unfold L1
  refine Finset.sum_congr rfl fun s _ => ?_
  by_cases h0 : s ∈ ss
  · rw [if_pos h0]
    unfold B2
    have e := S2_rng ns i j hi hj (fun p q => g s p q * blk (ss.idxOf s) (p - fragStart ns i) (q - fragStart ns j))
    simp only [Nat.add_sub_cancel_left] at e
    rw [← e]
    refine S2_congr fun p q _ _ => ?_
    unfold put2 zero1
    by_cases hh : inRng (getRange ns i) p = true ∧ inRng (getRange ns j) q = true
    · rw [if_pos hh, if_pos (by simp [h0, hh])]; rfl
    · rw [if_neg hh, if_neg (by
        simp only [Bool.and_eq_true, decide_eq_true_eq]
        rintro ⟨⟨_, h1⟩, h2⟩
        exact hh ⟨h1, h2⟩), mul_zero]
  · rw [if_neg h0]
    unfold put2 zero1
    simp [h0, S2_zero]

/-! ### Blocks -/

theorem B4_swap (ns : List Nat) (g : Nat → Nat → Nat → Nat → K) (i j k l : Nat) (f : Nat → Nat → Nat → Nat → K) :
    B4 ns g k l i j (fun x0 x1 x2 x3 => f x2 x3 x0 x1) = B4 ns (fun p q r u => g r u p q) i j k l f := by
  unfold B4
  rw [S4_23, S4_12, S4_34, S4_23]

theorem B4_exch (ns : List Nat) (g : Nat → Nat → Nat → Nat → K) (i j k l : Nat) (f : Nat → Nat → Nat → Nat → K) :
    B4 ns g i l k j (fun x0 x1 x2 x3 => f x0 x3 x2 x1) = B4 ns (fun p q r u => g p u r q) i j k l f := by
  unfold B4
  rw [S4_23, S4_34, S4_23]

theorem B4_exch' (ns : List Nat) (g : Nat → Nat → Nat → Nat → K) (i j k l : Nat) (f : Nat → Nat → Nat → Nat → K) :
    B4 ns g k j i l (fun x0 x1 x2 x3 => f x2 x1 x0 x3) = B4 ns (fun p q r u => g r q p u) i j k l f := by
  unfold B4
  rw [S4_12, S4_23, S4_12]

theorem B4_congr {ns : List Nat} {g : Nat → Nat → Nat → Nat → K} {i j k l : Nat} {f f' : Nat → Nat → Nat → Nat → K}
    (h : ∀ a b c e, a < ns.getD i 0 → b < ns.getD j 0 → c < ns.getD k 0 → e < ns.getD l 0 → f a b c e = f' a b c e) :
    B4 ns g i j k l f = B4 ns g i j k l f' := S4_congr fun a b c e ha hb hc he => by rw [h a b c e ha hb hc he]

theorem B4_neg (ns : List Nat) (g : Nat → Nat → Nat → Nat → K) (i j k l : Nat) (f : Nat → Nat → Nat → Nat → K) :
    B4 ns g i j k l (fun a b c e => -f a b c e) = -B4 ns g i j k l f := by
  unfold B4; rw [← S4_neg]; exact S4_congr fun _ _ _ _ _ _ _ _ => by ring

theorem B4_smul (ns : List Nat) (x : K) (g : Nat → Nat → Nat → Nat → K) (i j k l : Nat) (f : Nat → Nat → Nat → Nat → K) :
    B4 ns (fun p q r u => x * g p q r u) i j k l f = x * B4 ns g i j k l f := by
  unfold B4; rw [← S4_mul]; exact S4_congr fun _ _ _ _ _ _ _ _ => by ring

end Verif.Lstdm
