import Verif.Lemmas.CplxCi
import Mathlib.Algebra.Order.BigOperators.Group.List
/-!
# Lemmas: what the contraction adds to each coefficient, in terms of the link tables
-/
namespace Verif.CplxCi
open Verif.FciRdm Verif.HalfOp Verif.Spec.CplxCi

/-- The entries of a link table are in range. -/
def Good (n na : Nat) (la : Tab) : Prop := ∀ s < na, ∀ l ∈ la s, l.a < n ∧ l.i < n ∧ l.addr < na ∧ (l.sign = 1 ∨ l.sign = -1)

theorem digit_inj {n k k' x x' : Nat} (hx : x < n) (hx' : x' < n) : k * n + x = k' * n + x' ↔ k = k' ∧ x = x' := by
  constructor
  · intro h
    have h1 : (k * n + x) / n = (k' * n + x') / n := by rw [h]
    have hn : 0 < n := by omega
    rw [Nat.mul_comm k, Nat.mul_comm k', Nat.mul_add_div hn, Nat.mul_add_div hn, Nat.div_eq_of_lt hx, Nat.div_eq_of_lt hx'] at h1
    have : k = k' := by omega
    subst this
    exact ⟨rfl, by omega⟩
  · rintro ⟨rfl, rfl⟩; rfl

theorem pair_lt {n p q : Nat} (hp : p < n) (hq : q < n) : p * n + q < n * n := by
  have := Nat.mul_le_mul_right n hp
  rw [Nat.succ_mul] at this
  omega

theorem sum_pairs_range {M : Type} [AddCommMonoid M] (n m : Nat) (f : Nat → M) :
    ∑ j ∈ Finset.range (m * n), f j = ∑ p ∈ Finset.range m, ∑ q ∈ Finset.range n, f (p * n + q) := by
  induction m with
  | zero => simp
  | succ m ih => rw [Nat.succ_mul, Finset.sum_range_add, ih, Finset.sum_range_succ]

/-- `(p'q ci)` at the strings `s`, `b`, from the link tables. -/
noncomputable def tt (nb : Nat) (la lb : Tab) (ci : Flat) (s b p q : Nat) : ℂ :=
  ((la s).map fun l => if l.i = p ∧ l.a = q then (l.sign : ℂ) * ci (l.addr * nb + b) else 0).sum +
  ((lb b).map fun l => if l.i = p ∧ l.a = q then (l.sign : ℂ) * ci (s * nb + l.addr) else 0).sum

/-- `Σ eri[p,q,a,i] (p'q ci)` at the strings `s`, `b`. -/
noncomputable def ww (eri : M4 ℂ) (n nb : Nat) (la lb : Tab) (ci : Flat) (s b a i : Nat) : ℂ :=
  ∑ p ∈ Finset.range n, ∑ q ∈ Finset.range n, eri p q a i * tt nb la lb ci s b p q

theorem cplx_sum {α : Type} (l : List α) (f g : α → ℝ) : (⟨(l.map f).sum, (l.map g).sum⟩ : ℂ) = (l.map fun x => (⟨f x, g x⟩ : ℂ)).sum := by
  induction l with
  | nil => rfl
  | cons a l ih =>
    simp only [List.map_cons, List.sum_cons, ← ih]
    rfl

theorem cplx_add (a b c d : ℝ) : (⟨a + b, c + d⟩ : ℂ) = ⟨a, c⟩ + ⟨b, d⟩ := rfl

theorem cplx_sign (z : Int) (w : ℂ) : (⟨(z : ℝ) * w.re, (z : ℝ) * w.im⟩ : ℂ) = (z : ℂ) * w := by
  apply Complex.ext <;> simp

theorem t1_val {n nb na bcount s strb k p q : Nat} {la lb : Tab} (hla : Good n na la) (hlb : Good n nb lb) (ci : Flat) (hs : s < na)
    (hb : strb + bcount ≤ nb) (hk : k < bcount) (hp : p < n) (hq : q < n) :
    (⟨(t1ciSf (fun x => (ci x).re) bcount s strb n nb la lb).1 (k * (n * n) + (p * n + q)),
      (t1ciSf (fun x => (ci x).im) bcount s strb n nb la lb).1 (k * (n * n) + (p * n + q))⟩ : ℂ) = tt nb la lb ci s (strb + k) p q := by
  unfold t1ciSf
  dsimp only
  rw [cplx_sum, sum_list_range]
  have key : ∀ k' ∈ Finset.range bcount,
      (⟨((la s).map fun l => if k * (n * n) + (p * n + q) = k' * (n * n) + (l.i * n + l.a) then (l.sign : ℝ) * (ci (l.addr * nb + (strb + k'))).re else 0).sum +
        ((lb (strb + k')).map fun l => if k * (n * n) + (p * n + q) = k' * (n * n) + (l.i * n + l.a) then (l.sign : ℝ) * (ci (s * nb + l.addr)).re else 0).sum,
       ((la s).map fun l => if k * (n * n) + (p * n + q) = k' * (n * n) + (l.i * n + l.a) then (l.sign : ℝ) * (ci (l.addr * nb + (strb + k'))).im else 0).sum +
        ((lb (strb + k')).map fun l => if k * (n * n) + (p * n + q) = k' * (n * n) + (l.i * n + l.a) then (l.sign : ℝ) * (ci (s * nb + l.addr)).im else 0).sum⟩ : ℂ) =
      if k' = k then tt nb la lb ci s (strb + k) p q else 0 := by
    intro k' hk'
    rw [cplx_add, cplx_sum, cplx_sum]
    have hk' := Finset.mem_range.1 hk'
    have e : ∀ l : Lk, l.a < n → l.i < n →
        ((k * (n * n) + (p * n + q) = k' * (n * n) + (l.i * n + l.a)) ↔ (k' = k ∧ l.i = p ∧ l.a = q)) := by
      intro l h1 h2
      rw [digit_inj (pair_lt hp hq) (pair_lt h2 h1), digit_inj hq h1]
      constructor
      · rintro ⟨a, b, c⟩; exact ⟨a.symm, b.symm, c.symm⟩
      · rintro ⟨a, b, c⟩; exact ⟨a.symm, b.symm, c.symm⟩
    have e1 : ((la s).map fun l => (⟨if k * (n * n) + (p * n + q) = k' * (n * n) + (l.i * n + l.a) then (l.sign : ℝ) * (ci (l.addr * nb + (strb + k'))).re else 0,
          if k * (n * n) + (p * n + q) = k' * (n * n) + (l.i * n + l.a) then (l.sign : ℝ) * (ci (l.addr * nb + (strb + k'))).im else 0⟩ : ℂ)) =
        (la s).map fun l => if k' = k then (if l.i = p ∧ l.a = q then (l.sign : ℂ) * ci (l.addr * nb + (strb + k)) else 0) else 0 := by
      apply List.map_congr_left
      intro l hl
      obtain ⟨h1, h2, -, -⟩ := hla s hs l hl
      simp only [e l h1 h2]
      by_cases hkk : k' = k
      · subst hkk
        by_cases h : l.i = p ∧ l.a = q
        · rw [if_pos ⟨rfl, h⟩, if_pos ⟨rfl, h⟩, if_pos rfl, if_pos h, cplx_sign]
        · rw [if_neg (fun x => h x.2), if_neg (fun x => h x.2), if_pos rfl, if_neg h]; rfl
      · rw [if_neg (fun x => hkk x.1), if_neg (fun x => hkk x.1), if_neg hkk]; rfl
    have e2 : ((lb (strb + k')).map fun l => (⟨if k * (n * n) + (p * n + q) = k' * (n * n) + (l.i * n + l.a) then (l.sign : ℝ) * (ci (s * nb + l.addr)).re else 0,
          if k * (n * n) + (p * n + q) = k' * (n * n) + (l.i * n + l.a) then (l.sign : ℝ) * (ci (s * nb + l.addr)).im else 0⟩ : ℂ)) =
        (lb (strb + k')).map fun l => if k' = k then (if l.i = p ∧ l.a = q then (l.sign : ℂ) * ci (s * nb + l.addr) else 0) else 0 := by
      apply List.map_congr_left
      intro l hl
      obtain ⟨h1, h2, -, -⟩ := hlb (strb + k') (by omega) l hl
      simp only [e l h1 h2]
      by_cases hkk : k' = k
      · subst hkk
        by_cases h : l.i = p ∧ l.a = q
        · rw [if_pos ⟨rfl, h⟩, if_pos ⟨rfl, h⟩, if_pos rfl, if_pos h, cplx_sign]
        · rw [if_neg (fun x => h x.2), if_neg (fun x => h x.2), if_pos rfl, if_neg h]; rfl
      · rw [if_neg (fun x => hkk x.1), if_neg (fun x => hkk x.1), if_neg hkk]; rfl
    rw [e1, e2, list_sum_ite, list_sum_ite]
    unfold tt
    by_cases hkk : k' = k
    · subst hkk; simp
    · simp [hkk]
  rw [Finset.sum_congr rfl key, Finset.sum_ite_eq', if_pos (Finset.mem_range.2 hk)]

theorem flat4_val (eri : M4 ℂ) {n p q a i : Nat} (hp : p < n) (hq : q < n) (ha : a < n) (hi : i < n) :
    flat4 eri n ((p * n + q) * (n * n) + (a * n + i)) = eri p q a i := by
  unfold flat4
  have hn : 0 < n := by omega
  have e0 : (p * n + q) * (n * n) + (a * n + i) = (p * n ^ 2 + q * n + a) * n + i := by ring
  have m1 : ((p * n + q) * (n * n) + (a * n + i)) % n = i := by
    rw [e0, Nat.mul_comm, Nat.mul_add_mod, Nat.mod_eq_of_lt hi]
  have d1 : ((p * n + q) * (n * n) + (a * n + i)) / n = p * n ^ 2 + q * n + a := by
    rw [e0, Nat.mul_comm _ n, Nat.mul_add_div hn, Nat.div_eq_of_lt hi, Nat.add_zero]
  have e1 : p * n ^ 2 + q * n + a = (p * n + q) * n + a := by ring
  have m2 : (p * n ^ 2 + q * n + a) % n = a := by
    rw [e1, Nat.mul_comm, Nat.mul_add_mod, Nat.mod_eq_of_lt ha]
  have d2 : (p * n ^ 2 + q * n + a) / n = p * n + q := by
    rw [e1, Nat.mul_comm _ n, Nat.mul_add_div hn, Nat.div_eq_of_lt ha, Nat.add_zero]
  have m3 : (p * n + q) % n = q := by
    rw [Nat.mul_comm, Nat.mul_add_mod, Nat.mod_eq_of_lt hq]
  have d3 : (p * n + q) / n = p := by
    rw [Nat.mul_comm, Nat.mul_add_div hn, Nat.div_eq_of_lt hq, Nat.add_zero]
  have p2 : n ^ 2 = n * n := by ring
  have p3 : n ^ 3 = n * n * n := by ring
  rw [m1, p2, p3, ← Nat.div_div_eq_div_mul, ← Nat.div_div_eq_div_mul, d1, d2, d3, m3, m2]

theorem zgemm_val {n nb na bcount s strb k a i : Nat} {la lb : Tab} (hla : Good n na la) (hlb : Good n nb lb) (eri : M4 ℂ) (ci : Flat) (hs : s < na)
    (hb : strb + bcount ≤ nb) (hk : k < bcount) (ha : a < n) (hi : i < n) :
    zgemm (flat4 eri n) (fun x => ⟨(t1ciSf (fun x => (ci x).re) bcount s strb n nb la lb).1 x,
      (t1ciSf (fun x => (ci x).im) bcount s strb n nb la lb).1 x⟩) (n * n) (k * (n * n) + (a * n + i)) = ww eri n nb la lb ci s (strb + k) a i := by
  unfold zgemm ww
  have hn : 0 < n * n := Nat.mul_pos (by omega) (by omega)
  rw [sum_pairs_range]
  refine Finset.sum_congr rfl fun p hp => Finset.sum_congr rfl fun q hq => ?_
  have hp := Finset.mem_range.1 hp
  have hq := Finset.mem_range.1 hq
  dsimp only
  have m : (k * (n * n) + (a * n + i)) % (n * n) = a * n + i := by
    rw [Nat.mul_comm, Nat.mul_add_mod, Nat.mod_eq_of_lt (pair_lt ha hi)]
  have d : (k * (n * n) + (a * n + i)) / (n * n) = k := by
    rw [Nat.mul_comm, Nat.mul_add_div hn, Nat.div_eq_of_lt (pair_lt ha hi), Nat.add_zero]
  rw [m, d, flat4_val eri hp hq ha hi, t1_val hla hlb ci hs hb hk hp hq]

theorem sq_le_sum {α : Type} {l : List α} (f : α → ℝ) {x : α} (hx : x ∈ l) : f x * f x ≤ (l.map fun y => f y * f y).sum := by
  induction l with
  | nil => simp at hx
  | cons a l ih =>
    rw [List.map_cons, List.sum_cons]
    have h0 : ∀ l : List α, 0 ≤ (l.map fun y => f y * f y).sum := by
      intro l
      induction l with
      | nil => simp
      | cons a l ih => rw [List.map_cons, List.sum_cons]; exact add_nonneg (mul_self_nonneg _) ih
    rcases List.mem_cons.1 hx with h | h
    · subst h; exact le_add_of_nonneg_right (h0 l)
    · exact (ih h).trans (le_add_of_nonneg_left (mul_self_nonneg _))

theorem sq_sum_nonneg {α : Type} (l : List α) (f : α → ℝ) : 0 ≤ (l.map fun y => f y * f y).sum := by
  induction l with
  | nil => simp
  | cons a l ih => rw [List.map_cons, List.sum_cons]; exact add_nonneg (mul_self_nonneg _) ih

/-- The sum of squares bounds each of its terms. -/
theorem csum_ge (f : Nat → ℝ) {bcount s strb n nb k : Nat} {la lb : Tab} (hk : k < bcount) :
    (∀ l ∈ la s, f (l.addr * nb + (strb + k)) * f (l.addr * nb + (strb + k)) ≤ (t1ciSf f bcount s strb n nb la lb).2) ∧
    (∀ l ∈ lb (strb + k), f (s * nb + l.addr) * f (s * nb + l.addr) ≤ (t1ciSf f bcount s strb n nb la lb).2) := by
  unfold t1ciSf
  dsimp only
  rw [sum_list_range]
  have h := Finset.single_le_sum (f := fun k => ((la s).map fun l => f (l.addr * nb + (strb + k)) * f (l.addr * nb + (strb + k))).sum +
      ((lb (strb + k)).map fun l => f (s * nb + l.addr) * f (s * nb + l.addr)).sum)
    (fun k _ => add_nonneg (sq_sum_nonneg _ _) (sq_sum_nonneg _ _)) (Finset.mem_range.2 hk)
  refine ⟨fun l hl => ?_, fun l hl => ?_⟩
  · refine le_trans ?_ h
    exact (sq_le_sum (fun l : Lk => f (l.addr * nb + (strb + k))) hl).trans (le_add_of_nonneg_right (sq_sum_nonneg _ _))
  · refine le_trans ?_ h
    exact (sq_le_sum (fun l : Lk => f (s * nb + l.addr)) hl).trans (le_add_of_nonneg_left (sq_sum_nonneg _ _))

theorem toFlat_val {K : Type} {nb i j : Nat} (hj : j < nb) (c : Arr K) : toFlat nb c (i * nb + j) = c i j := by
  unfold toFlat
  rw [Nat.mul_comm, Nat.mul_add_div (by omega), Nat.div_eq_of_lt hj, Nat.add_zero, Nat.mul_add_mod, Nat.mod_eq_of_lt hj]

/-- A tile that is skipped would have contributed nothing. -/
theorem skip_zero {thr : ℝ} {n nb na bcount s strb k : Nat} {la lb : Tab} (hla : Good n na la) (hlb : Good n nb lb) {c : Arr ℂ}
    (hc : Resolved thr na nb c) (hs : s < na) (hb : strb + bcount ≤ nb) (hk : k < bcount)
    (h : ¬((t1ciSf (fun x => (toFlat nb c x).re) bcount s strb n nb la lb).2 > thr ∨ (t1ciSf (fun x => (toFlat nb c x).im) bcount s strb n nb la lb).2 > thr))
    (p q : Nat) : tt nb la lb (toFlat nb c) s (strb + k) p q = 0 := by
  rw [not_or, not_lt, not_lt] at h
  obtain ⟨r1, r2⟩ := csum_ge (fun x => (toFlat nb c x).re) (s := s) (strb := strb) (n := n) (nb := nb) (la := la) (lb := lb) hk
  obtain ⟨i1, i2⟩ := csum_ge (fun x => (toFlat nb c x).im) (s := s) (strb := strb) (n := n) (nb := nb) (la := la) (lb := lb) hk
  have e1 : ∀ l ∈ la s, toFlat nb c (l.addr * nb + (strb + k)) = 0 := by
    intro l hl
    have h3 := (hla s hs l hl).2.2.1
    have a1 := (r1 l hl).trans h.1
    have a2 := (i1 l hl).trans h.2
    rw [toFlat_val (by omega)] at a1 a2 ⊢
    rcases hc l.addr h3 (strb + k) (by omega) with h | h | h
    · exact h
    · rw [pow_two] at h; exact absurd a1 (not_le.2 h)
    · rw [pow_two] at h; exact absurd a2 (not_le.2 h)
  have e2 : ∀ l ∈ lb (strb + k), toFlat nb c (s * nb + l.addr) = 0 := by
    intro l hl
    have h3 := (hlb (strb + k) (by omega) l hl).2.2.1
    have a1 := (r2 l hl).trans h.1
    have a2 := (i2 l hl).trans h.2
    rw [toFlat_val h3] at a1 a2 ⊢
    rcases hc s hs l.addr h3 with h | h | h
    · exact h
    · rw [pow_two] at h; exact absurd a1 (not_le.2 h)
    · rw [pow_two] at h; exact absurd a2 (not_le.2 h)
  unfold tt
  have z : ∀ (L : List Lk) (f : Lk → ℂ), (∀ l ∈ L, f l = 0) → (L.map f).sum = 0 := by
    intro L f hf
    rw [List.map_congr_left hf]
    simp
  rw [z, z, add_zero]
  · intro l hl
    rw [e2 l hl, mul_zero, ite_self]
  · intro l hl
    rw [e1 l hl, mul_zero, ite_self]

/-- What the call for one row adds to `ci1`. -/
theorem kB_val {thr : ℝ} {n nb na bcount s strb : Nat} {la lb : Tab} (hla : Good n na la) (hlb : Good n nb lb) (eri : M4 ℂ) {c : Arr ℂ}
    (hc : Resolved thr na nb c) (hs : s < na) (hb : strb + bcount ≤ nb) (y : Nat) :
    kB thr (flat4 eri n) (fun x => (toFlat nb c x).re) (fun x => (toFlat nb c x).im) bcount s strb n nb la lb y =
      ∑ k ∈ Finset.range bcount, ((lb (strb + k)).map fun l => if y = s * nb + l.addr then
        (l.sign : ℂ) * ww eri n nb la lb (toFlat nb c) s (strb + k) l.a l.i else 0).sum := by
  unfold kB
  split
  · unfold dB
    refine Finset.sum_congr rfl fun k hk => ?_
    have hk := Finset.mem_range.1 hk
    congr 1
    apply List.map_congr_left
    intro l hl
    obtain ⟨h1, h2, -, -⟩ := hlb (strb + k) (by omega) l hl
    rw [zgemm_val hla hlb eri (toFlat nb c) hs hb hk h1 h2]
  · next h =>
    symm
    refine Finset.sum_eq_zero fun k hk => ?_
    have hk := Finset.mem_range.1 hk
    have : ∀ a i, ww eri n nb la lb (toFlat nb c) s (strb + k) a i = 0 := by
      intro a i
      unfold ww
      refine Finset.sum_eq_zero fun p _ => Finset.sum_eq_zero fun q _ => ?_
      rw [skip_zero hla hlb hc hs hb hk h p q, mul_zero]
    simp [this]

/-- What the call for one row adds to the buffer. -/
theorem kA_val {thr : ℝ} {n nb na bcountA ncol bcount s strb : Nat} {la lb : Tab} (hla : Good n na la) (hlb : Good n nb lb) (eri : M4 ℂ) {c : Arr ℂ}
    (hc : Resolved thr na nb c) (hs : s < na) (hb : strb + bcount ≤ nb) (hA : bcountA ≤ bcount) (y : Nat) :
    kA thr (flat4 eri n) (fun x => (toFlat nb c x).re) (fun x => (toFlat nb c x).im) bcountA ncol bcount s strb n nb la lb y =
      ∑ k ∈ Finset.range bcountA, ((la s).map fun l => if y = l.addr * ncol + k then
        (l.sign : ℂ) * ww eri n nb la lb (toFlat nb c) s (strb + k) l.a l.i else 0).sum := by
  unfold kA
  split
  · unfold dA
    rw [list_sum_comm]
    refine Finset.sum_congr rfl fun k hk => ?_
    have hk := Finset.mem_range.1 hk
    congr 1
    apply List.map_congr_left
    intro l hl
    obtain ⟨h1, h2, -, h4⟩ := hla s hs l hl
    have e : l.a * n + l.i + k * (n * n) = k * (n * n) + (l.a * n + l.i) := by omega
    rw [e, zgemm_val hla hlb eri (toFlat nb c) hs hb (by omega) h1 h2]
    rcases h4 with h | h <;> rw [h] <;> simp
  · next h =>
    symm
    refine Finset.sum_eq_zero fun k hk => ?_
    have hk := Finset.mem_range.1 hk
    have : ∀ a i, ww eri n nb la lb (toFlat nb c) s (strb + k) a i = 0 := by
      intro a i
      unfold ww
      refine Finset.sum_eq_zero fun p _ => Finset.sum_eq_zero fun q _ => ?_
      rw [skip_zero hla hlb hc hs hb (by omega) h p q, mul_zero]
    simp [this]

theorem sum_tail {M : Type} [AddCommMonoid M] (lo na : Nat) (f : Nat → M) :
    ((List.range' lo (na - lo)).map f).sum = ∑ s ∈ Finset.range na, if lo ≤ s then f s else 0 := by
  induction na with
  | zero => simp
  | succ na ih =>
    rw [Finset.sum_range_succ, ← ih]
    by_cases h : lo ≤ na
    · rw [if_pos h, show na + 1 - lo = (na - lo) + 1 by omega, List.range'_concat, List.map_append, List.sum_append]
      simp only [List.map_cons, List.map_nil, List.sum_cons, List.sum_nil, add_zero, Nat.one_mul]
      rw [show lo + (na - lo) = na by omega]
    · rw [if_neg h, show na + 1 - lo = 0 by omega, show na - lo = 0 by omega]
      simp

theorem sum_cut {M : Type} [AddCommMonoid M] {m b : Nat} (h : m ≤ b) (f : Nat → M) :
    ∑ k ∈ Finset.range m, f k = ∑ k ∈ Finset.range b, if k < m then f k else 0 := by
  rw [← Finset.sum_filter]
  refine Finset.sum_congr ?_ fun _ _ => rfl
  ext k
  simp only [Finset.mem_range, Finset.mem_filter]
  omega

/-- All blocks and all rows together. -/
theorem drive_val {thr : ℝ} {n nb na blk : Nat} {la lb : Tab} (hla : Good n na la) (hlb : Good n nb lb) (eri : M4 ℂ) {c : Arr ℂ}
    (hc : Resolved thr na nb c) (hblk : 0 < blk ∨ nb = 0) (lo : Nat → Nat) (cntA cntB : Nat → Nat → Nat) (P Q : Nat → Nat → Prop)
    [∀ s b, Decidable (P s b)] [∀ s b, Decidable (Q s b)]
    (hP : ∀ ib s k, s < na → k < min blk (nb - ib) → (k < cntB ib s ↔ P s (ib + k)))
    (hQ : ∀ ib s k, s < na → k < min blk (nb - ib) → (k < cntA ib s ↔ Q s (ib + k)))
    (hB : ∀ ib s, cntB ib s ≤ min blk (nb - ib)) (hAB : ∀ ib s, cntA ib s ≤ cntB ib s) (hlo : ∀ ib s k, P s (ib + k) → lo ib ≤ s)
    {A B : Nat} (hA : A < na) (hBn : B < nb) :
    ((blocks nb blk).map fun ib => ((List.range' (lo ib) (na - lo ib)).map fun s =>
      kB thr (flat4 eri n) (fun x => (toFlat nb c x).re) (fun x => (toFlat nb c x).im) (cntB ib s) s ib n nb la lb (A * nb + B) +
        ∑ i ∈ Finset.range na, ∑ j ∈ Finset.range (min blk (nb - ib)), if A * nb + B = ib + i * nb + j then
          kA thr (flat4 eri n) (fun x => (toFlat nb c x).re) (fun x => (toFlat nb c x).im) (cntA ib s) (min blk (nb - ib)) (cntB ib s) s ib n nb la lb
            (i * min blk (nb - ib) + j) else 0).sum).sum =
    (∑ b ∈ Finset.range nb, if P A b then ((lb b).map fun l => if l.addr = B then
      (l.sign : ℂ) * ww eri n nb la lb (toFlat nb c) A b l.a l.i else 0).sum else 0) +
    ∑ s ∈ Finset.range na, if Q s B then ((la s).map fun l => if l.addr = A then
      (l.sign : ℂ) * ww eri n nb la lb (toFlat nb c) s B l.a l.i else 0).sum else 0 := by
  set W := ww eri n nb la lb (toFlat nb c) with hW
  have step : ∀ ib ∈ blocks nb blk, ((List.range' (lo ib) (na - lo ib)).map fun s =>
      kB thr (flat4 eri n) (fun x => (toFlat nb c x).re) (fun x => (toFlat nb c x).im) (cntB ib s) s ib n nb la lb (A * nb + B) +
        ∑ i ∈ Finset.range na, ∑ j ∈ Finset.range (min blk (nb - ib)), if A * nb + B = ib + i * nb + j then
          kA thr (flat4 eri n) (fun x => (toFlat nb c x).re) (fun x => (toFlat nb c x).im) (cntA ib s) (min blk (nb - ib)) (cntB ib s) s ib n nb la lb
            (i * min blk (nb - ib) + j) else 0).sum =
      ∑ k ∈ Finset.range (min blk (nb - ib)), ((if P A (ib + k) then ((lb (ib + k)).map fun l => if l.addr = B then
          (l.sign : ℂ) * W A (ib + k) l.a l.i else 0).sum else 0) +
        if ib + k = B then ∑ s ∈ Finset.range na, (if Q s (ib + k) then ((la s).map fun l => if l.addr = A then
          (l.sign : ℂ) * W s (ib + k) l.a l.i else 0).sum else 0) else 0) := by
    intro ib hib
    have hib := blocks_lt hib
    have hle : ∀ s, ib + cntB ib s ≤ nb := fun s => by have := hB ib s; omega
    set L := min blk (nb - ib) with hL
    rw [list_sum_add, Finset.sum_add_distrib]
    congr 1
    · rw [sum_tail]
      have e : ∀ s ∈ Finset.range na, (if lo ib ≤ s then kB thr (flat4 eri n) (fun x => (toFlat nb c x).re) (fun x => (toFlat nb c x).im) (cntB ib s) s ib n nb la lb (A * nb + B) else 0) =
          if s = A then ∑ k ∈ Finset.range L, (if P A (ib + k) then ((lb (ib + k)).map fun l => if l.addr = B then
            (l.sign : ℂ) * W A (ib + k) l.a l.i else 0).sum else 0) else 0 := by
        intro s hs
        have hs := Finset.mem_range.1 hs
        rw [kB_val hla hlb eri hc hs (hle s), sum_cut (hB ib s)]
        rw [← hW]
        have z : ∀ k < L, (if lo ib ≤ s then if k < cntB ib s then ((lb (ib + k)).map fun l => if A * nb + B = s * nb + l.addr then
              (l.sign : ℂ) * W s (ib + k) l.a l.i else 0).sum else 0 else 0) =
            if s = A then (if P A (ib + k) then ((lb (ib + k)).map fun l => if l.addr = B then
              (l.sign : ℂ) * W A (ib + k) l.a l.i else 0).sum else 0) else 0 := by
          intro k hk
          have e3 : ((lb (ib + k)).map fun l => if A * nb + B = s * nb + l.addr then (l.sign : ℂ) * W s (ib + k) l.a l.i else 0) =
              (lb (ib + k)).map fun l => if s = A then (if l.addr = B then (l.sign : ℂ) * W A (ib + k) l.a l.i else 0) else 0 := by
            apply List.map_congr_left
            intro l hl
            have h3 := (hlb (ib + k) (by omega) l hl).2.2.1
            simp only [digit_inj hBn h3]
            by_cases hsA : s = A
            · subst hsA
              by_cases h : l.addr = B
              · rw [if_pos ⟨rfl, h.symm⟩, if_pos rfl, if_pos h]
              · rw [if_neg (fun x => h x.2.symm), if_pos rfl, if_neg h]
            · rw [if_neg (fun x => hsA x.1.symm), if_neg hsA]
          rw [e3, list_sum_ite]
          by_cases hsA : s = A
          · subst hsA
            rw [if_pos rfl, if_pos rfl]
            by_cases hp : P s (ib + k)
            · rw [if_pos (hlo ib s k hp), if_pos ((hP ib s k hs hk).2 hp), if_pos hp]
            · rw [if_neg (fun x => hp ((hP ib s k hs hk).1 x)), if_neg hp, ite_self]
          · rw [if_neg hsA, if_neg hsA, ite_self, ite_self]
        by_cases hl : lo ib ≤ s
        · rw [if_pos hl]
          rw [Finset.sum_congr rfl fun k hk => (if_pos hl).symm.trans (z k (Finset.mem_range.1 hk))]
          split <;> simp
        · rw [if_neg hl]
          have z' : ∀ k ∈ Finset.range L, (0 : ℂ) = if s = A then (if P A (ib + k) then ((lb (ib + k)).map fun l => if l.addr = B then
              (l.sign : ℂ) * W A (ib + k) l.a l.i else 0).sum else 0) else 0 := by
            intro k hk
            rw [← z k (Finset.mem_range.1 hk), if_neg hl]
          have z2 := Finset.sum_congr rfl z'
          rw [Finset.sum_const_zero] at z2
          refine z2.trans ?_
          by_cases hsA : s = A <;> simp [hsA]
      rw [Finset.sum_congr rfl e, Finset.sum_ite_eq', if_pos (Finset.mem_range.2 hA)]
    · have e : ∀ s ∈ List.range' (lo ib) (na - lo ib), (∑ i ∈ Finset.range na, ∑ j ∈ Finset.range L, if A * nb + B = ib + i * nb + j then
          kA thr (flat4 eri n) (fun x => (toFlat nb c x).re) (fun x => (toFlat nb c x).im) (cntA ib s) L (cntB ib s) s ib n nb la lb (i * L + j) else 0) =
          ∑ j ∈ Finset.range L, if ib + j = B then (if Q s (ib + j) then ((la s).map fun l => if l.addr = A then
            (l.sign : ℂ) * W s (ib + j) l.a l.i else 0).sum else 0) else 0 := by
        intro s hs
        have hs : s < na := by
          have := List.mem_range'_1.1 hs
          omega
        rw [Finset.sum_comm]
        refine Finset.sum_congr rfl fun j hj => ?_
        have hj := Finset.mem_range.1 hj
        have e4 : ∀ i ∈ Finset.range na, (if A * nb + B = ib + i * nb + j then
          kA thr (flat4 eri n) (fun x => (toFlat nb c x).re) (fun x => (toFlat nb c x).im) (cntA ib s) L (cntB ib s) s ib n nb la lb (i * L + j) else 0) =
            if i = A then (if ib + j = B then kA thr (flat4 eri n) (fun x => (toFlat nb c x).re) (fun x => (toFlat nb c x).im) (cntA ib s) L (cntB ib s) s ib n nb la lb (i * L + j) else 0) else 0 := by
          intro i _
          have e5 : ib + i * nb + j = i * nb + (ib + j) := by omega
          have e6 : (A * nb + B = i * nb + (ib + j)) ↔ (A = i ∧ B = ib + j) := digit_inj hBn (by omega)
          simp only [e5, e6]
          by_cases h1 : i = A
          · by_cases h2 : ib + j = B
            · rw [if_pos ⟨h1.symm, h2.symm⟩, if_pos h1, if_pos h2]
            · rw [if_neg (fun x => h2 x.2.symm), if_pos h1, if_neg h2]
          · rw [if_neg (fun x => h1 x.1.symm), if_neg h1]
        rw [Finset.sum_congr rfl e4, Finset.sum_ite_eq', if_pos (Finset.mem_range.2 hA)]
        by_cases h2 : ib + j = B
        swap
        · rw [if_neg h2, if_neg h2]
        rw [if_pos h2, if_pos h2, kA_val hla hlb eri hc hs (hle s) (hAB ib s)]
        rw [← hW]
        have e7 : ∀ k ∈ Finset.range (cntA ib s), ((la s).map fun l => if A * L + j = l.addr * L + k then
            (l.sign : ℂ) * W s (ib + k) l.a l.i else 0).sum =
            if k = j then ((la s).map fun l => if l.addr = A then (l.sign : ℂ) * W s (ib + j) l.a l.i else 0).sum else 0 := by
          intro k hk
          have hk := Finset.mem_range.1 hk
          have hkL : k < L := lt_of_lt_of_le hk ((hAB ib s).trans (hB ib s))
          rw [← list_sum_ite]
          congr 1
          apply List.map_congr_left
          intro l _
          simp only [digit_inj (k := A) (k' := l.addr) hj hkL]
          by_cases h1 : k = j
          · subst h1
            by_cases h : l.addr = A
            · rw [if_pos ⟨h.symm, rfl⟩, if_pos rfl, if_pos h]
            · rw [if_neg (fun x => h x.1.symm), if_pos rfl, if_neg h]
          · rw [if_neg (fun x => h1 x.2.symm), if_neg h1]
        rw [Finset.sum_congr rfl e7, Finset.sum_ite_eq']
        simp only [Finset.mem_range, hQ ib s j hs hj]
      rw [List.map_congr_left e, list_sum_comm]
      refine Finset.sum_congr rfl fun j hj => ?_
      have hj := Finset.mem_range.1 hj
      rw [list_sum_ite]
      congr 1
      rw [sum_tail]
      refine Finset.sum_congr rfl fun s hs => ?_
      have hs := Finset.mem_range.1 hs
      by_cases hl : lo ib ≤ s
      · rw [if_pos hl]
      · rw [if_neg hl, if_neg]
        intro hq
        have h1 := (hQ ib s j hs hj).2 hq
        have h2 := lt_of_lt_of_le h1 (hAB ib s)
        exact hl (hlo ib s j ((hP ib s j hs hj).1 h2))
  rw [List.map_congr_left step, blocks_cover hblk (fun b => (if P A b then ((lb b).map fun l => if l.addr = B then
          (l.sign : ℂ) * W A b l.a l.i else 0).sum else 0) +
        if b = B then ∑ s ∈ Finset.range na, (if Q s b then ((la s).map fun l => if l.addr = A then
          (l.sign : ℂ) * W s b l.a l.i else 0).sum else 0) else 0), Finset.sum_add_distrib, Finset.sum_ite_eq', if_pos (Finset.mem_range.2 hBn)]

end Verif.CplxCi
