import Verif.Model.LasCanon
import Verif.Spec.LasCanon
import Verif.Lemmas.DfInts
/-!
# Lemmas for C124
-/
namespace Verif.LasCanon
open Verif.PsEnergy (Mat Ten)
open Verif.Spec.LasCanon

theorem part_bounds : ∀ (l : List Nat) (o a n : Nat), IsPart l o a n → o ≤ a ∧ a + n ≤ o + l.sum := by
  intro l
  induction l with
  | nil => intro o a n h; exact h.elim
  | cons m l ih =>
    intro o a n h
    rw [List.sum_cons]
    rcases h with ⟨rfl, rfl⟩ | h
    · omega
    · have := ih _ _ _ h; omega

theorem part_exists : ∀ (l : List Nat) (o q : Nat), o ≤ q → q < o + l.sum → ∃ a n, IsPart l o a n ∧ a ≤ q ∧ q < a + n := by
  intro l
  induction l with
  | nil => intro o q h1 h2; simp at h2; omega
  | cons m l ih =>
    intro o q h1 h2
    rw [List.sum_cons] at h2
    by_cases h : q < o + m
    · exact ⟨o, m, Or.inl ⟨rfl, rfl⟩, h1, h⟩
    · obtain ⟨a, n, h3, h4⟩ := ih (o + m) q (by omega) (by omega)
      exact ⟨a, n, Or.inr h3, h4⟩

theorem part_unique : ∀ (l : List Nat) (o a n a' n' r : Nat), IsPart l o a n → IsPart l o a' n' → a ≤ r → r < a + n → a' ≤ r →
    r < a' + n' → a = a' ∧ n = n' := by
  intro l
  induction l with
  | nil => intro o a n a' n' r h; exact h.elim
  | cons m l ih =>
    intro o a n a' n' r h h' h1 h2 h3 h4
    rcases h with ⟨rfl, rfl⟩ | h <;> rcases h' with ⟨rfl, rfl⟩ | h'
    · exact ⟨rfl, rfl⟩
    · have := part_bounds _ _ _ _ h'; omega
    · have := part_bounds _ _ _ _ h; omega
    · exact ih _ _ _ _ _ r h h' h1 h2 h3 h4

theorem space_unique {ncore nmo : Nat} {parts : List Nat} {o n o' n' r : Nat} (h : IsSpace ncore nmo parts o n)
    (h' : IsSpace ncore nmo parts o' n') (h1 : o ≤ r) (h2 : r < o + n) (h3 : o' ≤ r) (h4 : r < o' + n') : o = o' ∧ n = n' := by
  rcases h with ⟨rfl, rfl⟩ | ⟨rfl, rfl⟩ | ⟨a, ha, rfl⟩ <;> rcases h' with ⟨rfl, rfl⟩ | ⟨rfl, rfl⟩ | ⟨a', ha', rfl⟩
  · exact ⟨rfl, rfl⟩
  · omega
  · omega
  · omega
  · exact ⟨rfl, rfl⟩
  · have := part_bounds _ _ _ _ ha'; omega
  · omega
  · have := part_bounds _ _ _ _ ha; omega
  · obtain ⟨h5, h6⟩ := part_unique parts 0 a n a' n' (r - ncore) ha ha' (by omega) (by omega) (by omega) (by omega)
    omega

theorem space_exists {ncore nmo : Nat} {parts : List Nat} {r : Nat} (hr : r < nmo) : ∃ o n, IsSpace ncore nmo parts o n ∧ o ≤ r ∧
    r < o + n := by
  by_cases h1 : r < ncore
  · exact ⟨0, ncore, Or.inl ⟨rfl, rfl⟩, by omega, by omega⟩
  · by_cases h2 : ncore + parts.sum ≤ r
    · exact ⟨_, _, Or.inr (Or.inl ⟨rfl, rfl⟩), h2, by omega⟩
    · obtain ⟨a, n, h3, h4, h5⟩ := part_exists parts 0 (r - ncore) (by omega) (by omega)
      exact ⟨ncore + a, n, Or.inr (Or.inr ⟨a, h3, rfl⟩), by omega, by omega⟩

theorem space_le {ncore nmo : Nat} {parts : List Nat} {o n : Nat} (hle : ncore + parts.sum ≤ nmo) (h : IsSpace ncore nmo parts o n) :
    o + n ≤ nmo := by
  rcases h with ⟨rfl, rfl⟩ | ⟨rfl, rfl⟩ | ⟨a, ha, rfl⟩
  · omega
  · omega
  · have := part_bounds _ _ _ _ ha; omega

section
variable {K : Type} [Field K]

/-- Columns `o … o+n-1` of `U` are nonzero only in the rows `o … o+n-1`. -/
def Col (U : Mat K) (o n : Nat) (W : Mat K) : Prop := ∀ q, o ≤ q → q < o + n → ∀ r,
  U r q = if o ≤ r ∧ r < o + n then W (r - o) (q - o) else 0

theorem sum_seg (f : Nat → K) {o n N : Nat} (h : o + n ≤ N) :
    ∑ r ∈ Finset.range N, (if o ≤ r ∧ r < o + n then f r else 0) = ∑ k ∈ Finset.range n, f (o + k) := by
  obtain ⟨m, rfl⟩ : ∃ m, N = o + n + m := ⟨N - (o + n), by omega⟩
  rw [Finset.sum_range_add, Finset.sum_range_add]
  have h1 : ∑ r ∈ Finset.range o, (if o ≤ r ∧ r < o + n then f r else 0) = 0 :=
    Finset.sum_eq_zero fun r hr => if_neg (by have := Finset.mem_range.1 hr; omega)
  have h2 : ∑ r ∈ Finset.range m, (if o ≤ o + n + r ∧ o + n + r < o + n then f (o + n + r) else 0) = 0 :=
    Finset.sum_eq_zero fun r hr => if_neg (by omega)
  rw [h1, h2, zero_add, add_zero]
  exact Finset.sum_congr rfl fun r hr => if_pos (by have := Finset.mem_range.1 hr; omega)

theorem col_sum {U W : Mat K} {o n N : Nat} (h : Col U o n W) (hN : o + n ≤ N) (f : Nat → K) {q : Nat} (h1 : o ≤ q) (h2 : q < o + n) :
    ∑ r ∈ Finset.range N, U r q * f r = ∑ k ∈ Finset.range n, W k (q - o) * f (o + k) := by
  have e : ∀ r, U r q * f r = if o ≤ r ∧ r < o + n then W (r - o) (q - o) * f r else 0 := by
    intro r; rw [h q h1 h2 r]; split <;> simp
  simp only [e]
  rw [sum_seg _ hN]
  exact Finset.sum_congr rfl fun k _ => by rw [Nat.add_sub_cancel_left]

theorem sum_perm (f : Nat → K) {n : Nat} {π : Nat → Nat} (h1 : ∀ a < n, π a < n) (h2 : ∀ a < n, ∀ b < n, π a = π b → a = b) :
    ∑ k ∈ Finset.range n, f (π k) = ∑ k ∈ Finset.range n, f k := by
  have hinj : Set.InjOn π (Finset.range n : Set Nat) := by
    intro a ha b hb e
    exact h2 a (by simpa using ha) b (by simpa using hb) e
  have himg : (Finset.range n).image π = Finset.range n := by
    apply Finset.eq_of_subset_of_card_le
    · intro x hx
      obtain ⟨a, ha, rfl⟩ := Finset.mem_image.1 hx
      exact Finset.mem_range.2 (h1 a (Finset.mem_range.1 ha))
    · rw [Finset.card_image_of_injOn hinj]
  rw [← Finset.sum_image (f := f) hinj, himg]

/-- A block of eigenvectors in some order. -/
structure Blk (U : Mat K) (o n : Nat) (M : Mat K) (e : Nat → K) (c : Mat K) (π : Nat → Nat) : Prop where
  col : Col U o n fun k b => c k (π b)
  eig : IsEig n (fun k l => M (o + k) (o + l)) (e, c)
  lt : ∀ a < n, π a < n
  inj : ∀ a < n, ∀ b < n, π a = π b → a = b

variable {U M c : Mat K} {o n : Nat} {e : Nat → K} {π : Nat → Nat}

theorem Blk.orth (B : Blk U o n M e c π) {N p q : Nat} (hN : o + n ≤ N) (hp : o ≤ p) (hp' : p < o + n) (hq : o ≤ q) (hq' : q < o + n) :
    ∑ r ∈ Finset.range N, U r p * U r q = if p = q then 1 else 0 := by
  rw [col_sum B.col hN (fun r => U r q) hp hp']
  have : ∀ k ∈ Finset.range n, c k (π (p - o)) * U (o + k) q = c k (π (p - o)) * c k (π (q - o)) := by
    intro k hk
    rw [B.col q hq hq', if_pos (by have := Finset.mem_range.1 hk; omega), Nat.add_sub_cancel_left]
  rw [Finset.sum_congr rfl this, B.eig.cols _ (B.lt _ (by omega)) _ (B.lt _ (by omega))]
  by_cases h : p = q
  · subst h; simp
  · rw [if_neg h, if_neg fun h' => h (by have := B.inj _ (by omega) _ (by omega) h'; omega)]

theorem Blk.rows (B : Blk U o n M e c π) {r t : Nat} (hr : r < n) (ht : t < n) :
    ∑ q ∈ Finset.range n, U (o + r) (o + q) * U (o + t) (o + q) = if r = t then 1 else 0 := by
  have : ∀ q ∈ Finset.range n, U (o + r) (o + q) * U (o + t) (o + q) = c r (π q) * c t (π q) := by
    intro q hq
    have hq := Finset.mem_range.1 hq
    rw [B.col (o + q) (by omega) (by omega), B.col (o + q) (by omega) (by omega), if_pos (by omega), if_pos (by omega)]
    simp only [Nat.add_sub_cancel_left]
  rw [Finset.sum_congr rfl this, sum_perm (fun q => c r q * c t q) B.lt B.inj]
  exact B.eig.rows r hr t ht

theorem Blk.diag (B : Blk U o n M e c π) {N p q : Nat} (hN : o + n ≤ N) (hp : o ≤ p) (hp' : p < o + n) (hq : o ≤ q) (hq' : q < o + n) :
    rot N U M p q = if p = q then e (π (p - o)) else 0 := by
  unfold rot
  have h1 : ∀ r, ∑ t ∈ Finset.range N, U r p * U t q * M r t = U r p * ∑ k ∈ Finset.range n, M r (o + k) * c k (π (q - o)) := by
    intro r
    have : ∀ t, U r p * U t q * M r t = U t q * (U r p * M r t) := fun t => by ring
    simp only [this]
    rw [col_sum B.col hN (fun t => U r p * M r t) hq hq', Finset.mul_sum]
    exact Finset.sum_congr rfl fun k _ => by ring
  simp only [h1]
  rw [col_sum B.col hN _ hp hp']
  have h2 : ∀ k ∈ Finset.range n, c k (π (p - o)) * ∑ l ∈ Finset.range n, M (o + k) (o + l) * c l (π (q - o)) =
      c k (π (p - o)) * c k (π (q - o)) * e (π (q - o)) := by
    intro k hk
    rw [B.eig.eig k (Finset.mem_range.1 hk) _ (B.lt _ (by omega))]; ring
  rw [Finset.sum_congr rfl h2, ← Finset.sum_mul, B.eig.cols _ (B.lt _ (by omega)) _ (B.lt _ (by omega))]
  by_cases h : p = q
  · subst h; simp
  · rw [if_neg h, if_neg fun h' => h (by have := B.inj _ (by omega) _ (by omega) h'; omega), zero_mul]

end

section
variable {K Ci : Type} [Field K] [LinearOrder K]

theorem active_out (X : Ext K Ci) (ncore : Nat) (d : Mat K) : ∀ (l : List Nat) (i : Nat) (u : Mat K) (q r : Nat),
    q < ncore + i ∨ ncore + i + l.sum ≤ q → active X ncore d l i u r q = u r q := by
  intro l
  induction l with
  | nil => intro i u q r _; rfl
  | cons n l ih =>
    intro i u q r h
    rw [List.sum_cons] at h
    rw [active, ih _ _ _ _ (by omega), setBlock, if_neg (by omega)]

theorem active_part (X : Ext K Ci) (ncore : Nat) (d : Mat K) : ∀ (l : List Nat) (i : Nat) (u : Mat K) (a n : Nat), IsPart l i a n →
    ∀ q r, ncore + a ≤ q → q < ncore + a + n → active X ncore d l i u r q =
      if ncore + a ≤ r ∧ r < ncore + a + n then
        (X.eig n fun x y => d (a + x) (a + y)).2 (r - (ncore + a))
          (X.argsort n (X.eig n fun x y => d (a + x) (a + y)).1 (n - 1 - (q - (ncore + a))))
      else u r q := by
  intro l
  induction l with
  | nil => intro i u a n h; exact h.elim
  | cons m l ih =>
    intro i u a n h q r h1 h2
    rcases h with ⟨rfl, rfl⟩ | h
    · rw [active, active_out _ _ _ _ _ _ _ _ (Or.inl (by omega)), setBlock]
      by_cases hr : ncore + a ≤ r ∧ r < ncore + a + n
      · rw [if_pos hr, if_pos ⟨hr, h1, h2⟩]
      · rw [if_neg hr, if_neg fun h => hr h.1]
    · have := part_bounds _ _ _ _ h
      rw [active, ih _ _ a n h q r h1 h2]
      by_cases hr : ncore + a ≤ r ∧ r < ncore + a + n
      · rw [if_pos hr, if_pos hr]
      · rw [if_neg hr, if_neg hr, setBlock, if_neg (by omega)]

/-- The blocks in which the active orbitals are diagonalized. -/
def parts (I : Input K Ci) (tol : K) : List Nat := if isBlockDiag tol I.sub I.natorb then I.sub else [I.ncas]

theorem parts_sum (I : Input K Ci) (tol : K) : (parts I tol).sum = I.ncas := by
  unfold parts; split <;> simp [Input.ncas]

theorem umat_eq (I : Input K Ci) (X : Ext K Ci) (tol : K) :
    I.umat X tol = active X I.ncore I.natorb (parts I tol) 0 (I.umat0 X) := by
  unfold Input.umat parts; split <;> rfl

theorem core_blk (I : Input K Ci) (X : Ext K Ci) (tol : K) (hX : EigContract X.eig) (hs : SortContract X.argsort)
    (hF : ∀ p q, I.fockMo p q = I.fockMo q p) :
    Blk (I.umat X tol) 0 I.ncore I.fockMo (X.eig I.ncore fun p q => I.fockMo p q).1 (X.eig I.ncore fun p q => I.fockMo p q).2
      (X.argsort I.ncore (eigIV X I.ncore I.nocc I.nmo I.fockMo).1) := by
  have hnocc : I.ncore ≤ I.nocc := by unfold Input.nocc; omega
  refine ⟨?_, ?_, (hs _ _).1, (hs _ _).2.1⟩
  · intro q _ hq r
    have hlt := (hs I.ncore (eigIV X I.ncore I.nocc I.nmo I.fockMo).1).1 q (by omega)
    rw [umat_eq, active_out _ _ _ _ _ _ _ _ (Or.inl (by omega)), Input.umat0]
    simp only [order]
    rw [if_neg (by omega), if_pos (by omega)]
    generalize X.argsort I.ncore (eigIV X I.ncore I.nocc I.nmo I.fockMo).1 q = s at hlt
    simp only [eigIV, setBlock]
    rw [if_neg (by omega)]
    by_cases hr : r < I.ncore
    · rw [if_pos (by omega), if_pos (by omega)]; rfl
    · rw [if_neg (by omega), if_neg (by omega), if_neg (by omega)]
  · have := hX I.ncore (fun p q => I.fockMo p q) (fun a _ b _ => hF a b)
    simpa using this

theorem virt_blk (I : Input K Ci) (X : Ext K Ci) (tol : K) (hX : EigContract X.eig) (hs : SortContract X.argsort)
    (hF : ∀ p q, I.fockMo p q = I.fockMo q p) :
    Blk (I.umat X tol) I.nocc (I.nmo - I.nocc) I.fockMo (X.eig (I.nmo - I.nocc) fun p q => I.fockMo (I.nocc + p) (I.nocc + q)).1
      (X.eig (I.nmo - I.nocc) fun p q => I.fockMo (I.nocc + p) (I.nocc + q)).2
      (X.argsort (I.nmo - I.nocc) (fun k => (eigIV X I.ncore I.nocc I.nmo I.fockMo).1 (I.nocc + k))) := by
  have hnocc : I.ncore + I.ncas = I.nocc := rfl
  refine ⟨?_, ?_, (hs _ _).1, (hs _ _).2.1⟩
  · intro q h1 h2 r
    have hlt := (hs (I.nmo - I.nocc) (fun k => (eigIV X I.ncore I.nocc I.nmo I.fockMo).1 (I.nocc + k))).1 (q - I.nocc) (by omega)
    rw [umat_eq, active_out _ _ _ _ _ _ _ _ (Or.inr (by rw [parts_sum]; omega)), Input.umat0]
    simp only [order]
    rw [if_pos h1]
    generalize X.argsort (I.nmo - I.nocc) (fun k => (eigIV X I.ncore I.nocc I.nmo I.fockMo).1 (I.nocc + k)) (q - I.nocc) = s at hlt
    simp only [eigIV, setBlock]
    by_cases hr : I.nocc ≤ r ∧ r < I.nocc + (I.nmo - I.nocc)
    · rw [if_pos ⟨hr, by omega, by omega⟩, if_pos hr, Nat.add_sub_cancel_left]
    · rw [if_neg fun h => hr h.1, if_neg hr, if_neg (by omega), if_neg (by omega)]
  · exact hX _ _ (fun a _ b _ => hF _ _)

theorem part_blk (I : Input K Ci) (X : Ext K Ci) (tol : K) (hX : EigContract X.eig) (hs : SortContract X.argsort)
    (hD : ∀ p q, I.natorb p q = I.natorb q p) {a n : Nat} (h : IsPart (parts I tol) 0 a n) :
    Blk (I.umat X tol) (I.ncore + a) n (fun p q => I.natorb (p - I.ncore) (q - I.ncore))
      (X.eig n fun x y => I.natorb (a + x) (a + y)).1 (X.eig n fun x y => I.natorb (a + x) (a + y)).2
      (fun k => X.argsort n (X.eig n fun x y => I.natorb (a + x) (a + y)).1 (n - 1 - k)) := by
  have hb := part_bounds _ _ _ _ h
  rw [parts_sum] at hb
  have hnocc : I.ncore + I.ncas = I.nocc := rfl
  refine ⟨?_, ?_, fun k hk => (hs _ _).1 _ (by omega), fun x hx y hy e => ?_⟩
  · intro q h1 h2 r
    rw [umat_eq, active_part _ _ _ _ _ _ a n h q r h1 h2]
    split
    · rfl
    · rename_i hr
      simp only [Input.umat0, order]
      rw [if_neg (by omega), if_neg (by omega)]
      simp only [eigIV, setBlock]
      rw [if_neg (by omega), if_neg (by omega), if_neg]
      rintro rfl; exact hr ⟨h1, h2⟩
  · have e : (fun k l => (fun p q => I.natorb (p - I.ncore) (q - I.ncore)) (I.ncore + a + k) (I.ncore + a + l)) =
        fun x y => I.natorb (a + x) (a + y) := by
      funext k l
      simp only
      congr 1 <;> omega
    rw [e]
    exact hX _ _ (fun a _ b _ => hD _ _)
  · have := (hs n (X.eig n fun x y => I.natorb (a + x) (a + y)).1).2.1 _ (by omega) _ (by omega) e
    omega

theorem checkDiag_eq : ∀ (l : List Nat) (i : Nat) (d : Mat K) (p q : Nat), checkDiag l i d p q = 0 ∨ checkDiag l i d p q = d p q := by
  intro l
  induction l with
  | nil => intro i d p q; right; rfl
  | cons n l ih =>
    intro i d p q
    rw [checkDiag]
    rcases ih (i + n) (setBlock d i n fun _ _ => 0) p q with h | h
    · left; exact h
    · rw [h, setBlock]; split
      · left; rfl
      · right; rfl

theorem checkDiag_in : ∀ (l : List Nat) (i : Nat) (d : Mat K) (p q a n : Nat), IsPart l i a n → (a ≤ p ∧ p < a + n) →
    (a ≤ q ∧ q < a + n) → checkDiag l i d p q = 0 := by
  intro l
  induction l with
  | nil => intro i d p q a n h; exact h.elim
  | cons m l ih =>
    intro i d p q a n h hp hq
    rw [checkDiag]
    rcases h with ⟨rfl, rfl⟩ | h
    · rcases checkDiag_eq l (a + n) (setBlock d a n fun _ _ => 0) p q with h | h
      · exact h
      · rw [h, setBlock, if_pos ⟨hp, hq⟩]
    · exact ih _ _ _ _ a n h hp hq

theorem checkDiag_out : ∀ (l : List Nat) (i : Nat) (d : Mat K) (p q : Nat),
    (∀ a n, IsPart l i a n → ¬ ((a ≤ p ∧ p < a + n) ∧ (a ≤ q ∧ q < a + n))) → checkDiag l i d p q = d p q := by
  intro l
  induction l with
  | nil => intro i d p q _; rfl
  | cons m l ih =>
    intro i d p q h
    rw [checkDiag, ih _ _ _ _ (fun a n hp => h a n (Or.inr hp)), setBlock, if_neg (h i m (Or.inl ⟨rfl, rfl⟩))]

theorem isBlockDiag_iff [IsStrictOrderedRing K] (tol : K) (ht : 0 < tol) (sub : List Nat) (d : Mat K) :
    isBlockDiag tol sub d = true ↔ ∀ p < sub.sum, ∀ q < sub.sum,
      (∀ a n, IsPart sub 0 a n → ¬ ((a ≤ p ∧ p < a + n) ∧ (a ≤ q ∧ q < a + n))) → |d p q| < tol := by
  unfold isBlockDiag
  simp only [List.all_eq_true, List.mem_range, decide_eq_true_eq]
  constructor
  · intro h p hp q hq hn
    have := h p hp q hq
    rwa [checkDiag_out _ _ _ _ _ hn] at this
  · intro h p hp q hq
    by_cases hn : ∃ a n, IsPart sub 0 a n ∧ ((a ≤ p ∧ p < a + n) ∧ (a ≤ q ∧ q < a + n))
    · obtain ⟨a, n, h1, h2, h3⟩ := hn
      rw [checkDiag_in _ _ _ _ _ a n h1 h2 h3, abs_zero]; exact ht
    · push Not at hn
      rw [checkDiag_out _ _ _ _ _ (fun a n h1 h2 => by have := hn a n h1 h2.1 h2.2.1; omega)]
      exact h p hp q hq (fun a n h1 h2 => by have := hn a n h1 h2.1 h2.2.1; omega)

/-- Each space is a block of eigenvectors of some matrix. -/
theorem space_blk (I : Input K Ci) (X : Ext K Ci) (tol : K) (hX : EigContract X.eig) (hs : SortContract X.argsort)
    (hF : ∀ p q, I.fockMo p q = I.fockMo q p) (hD : ∀ p q, I.natorb p q = I.natorb q p) {o n : Nat}
    (h : IsSpace I.ncore I.nmo (parts I tol) o n) : ∃ M e c π, Blk (I.umat X tol) o n M e c π := by
  rcases h with ⟨rfl, rfl⟩ | ⟨h1, h2⟩ | ⟨a, ha, rfl⟩
  · exact ⟨_, _, _, _, core_blk I X tol hX hs hF⟩
  · rw [parts_sum] at h1 h2
    subst h1; subst h2
    exact ⟨_, _, _, _, virt_blk I X tol hX hs hF⟩
  · exact ⟨_, _, _, _, part_blk I X tol hX hs hD ha⟩

theorem keeps (I : Input K Ci) (X : Ext K Ci) (tol : K) (hX : EigContract X.eig) (hs : SortContract X.argsort)
    (hF : ∀ p q, I.fockMo p q = I.fockMo q p) (hD : ∀ p q, I.natorb p q = I.natorb q p) (hle : I.ncore + I.ncas ≤ I.nmo) :
    KeepsSpaces I.ncore I.nmo (parts I tol) (I.umat X tol) := by
  have hle' : I.ncore + (parts I tol).sum ≤ I.nmo := by rw [parts_sum]; exact hle
  have hw : ∀ o n, IsSpace I.ncore I.nmo (parts I tol) o n → ∀ p, o ≤ p → p < o + n → ∀ r, ¬ (o ≤ r ∧ r < o + n) →
      I.umat X tol r p = 0 := by
    intro o n h p h1 h2 r hr
    obtain ⟨M, e, c, π, B⟩ := space_blk I X tol hX hs hF hD h
    rw [B.col p h1 h2 r, if_neg hr]
  refine ⟨fun p hp q hq => ?_, fun o n h p h1 h2 r _ hr => hw o n h p h1 h2 r hr⟩
  obtain ⟨o, n, h, h1, h2⟩ := space_exists (ncore := I.ncore) (parts := parts I tol) hp
  obtain ⟨M, e, c, π, B⟩ := space_blk I X tol hX hs hF hD h
  by_cases hq' : o ≤ q ∧ q < o + n
  · exact B.orth (space_le hle' h) h1 h2 hq'.1 hq'.2
  · obtain ⟨o', n', h', h1', h2'⟩ := space_exists (ncore := I.ncore) (parts := parts I tol) hq
    rw [if_neg (by rintro rfl; exact hq' ⟨h1, h2⟩)]
    refine Finset.sum_eq_zero fun r _ => ?_
    by_cases hr : o ≤ r ∧ r < o + n
    · have : ¬ (o' ≤ r ∧ r < o' + n') := by
        rintro ⟨h3, h4⟩
        obtain ⟨e1, e2⟩ := space_unique h h' hr.1 hr.2 h3 h4
        subst e1; subst e2
        exact hq' ⟨h1', h2'⟩
      rw [hw o' n' h' q h1' h2' r this, mul_zero]
    · rw [hw o n h p h1 h2 r hr, zero_mul]

theorem fockMo_eq (I : Input K Ci) (p q : Nat) : I.fockMo p q = Spec.LasEnergy.mo1 I.nao I.mo I.fock p q := by
  unfold Input.fockMo Spec.LasEnergy.mo1
  simp only [Finset.sum_mul]
  rw [Finset.sum_comm]
  exact Finset.sum_congr rfl fun μ _ => Finset.sum_congr rfl fun ν _ => by ring

theorem fockMo_symm (I : Input K Ci) (h : ∀ μ ν, I.fock μ ν = I.fock ν μ) (p q : Nat) : I.fockMo p q = I.fockMo q p := by
  rw [fockMo_eq, fockMo_eq]
  unfold Spec.LasEnergy.mo1
  rw [Finset.sum_comm]
  exact Finset.sum_congr rfl fun μ _ => Finset.sum_congr rfl fun ν _ => by rw [h]; ring

/-- The matrix of an operator in the new orbitals. -/
theorem mo1_rot (nao nmo : Nat) (mo mo' U f : Mat K) (h : Rotated nmo mo mo' U) (p q : Nat) :
    Spec.LasEnergy.mo1 nao mo' f p q = rot nmo U (Spec.LasEnergy.mo1 nao mo f) p q := by
  unfold Spec.LasEnergy.mo1 rot
  simp only [h _ _]
  have e : ∀ μ ν, (∑ r ∈ Finset.range nmo, mo μ r * U r p) * (∑ t ∈ Finset.range nmo, mo ν t * U t q) * f μ ν =
      ∑ r ∈ Finset.range nmo, ∑ t ∈ Finset.range nmo, U r p * U t q * (mo μ r * mo ν t * f μ ν) := by
    intro μ ν
    rw [Finset.sum_mul, Finset.sum_mul]
    refine Finset.sum_congr rfl fun r _ => ?_
    rw [Finset.mul_sum, Finset.sum_mul]
    exact Finset.sum_congr rfl fun t _ => by ring
  simp only [e]
  have e1 : ∀ r t, U r p * U t q * (∑ μ ∈ Finset.range nao, ∑ ν ∈ Finset.range nao, mo μ r * mo ν t * f μ ν) =
      ∑ μ ∈ Finset.range nao, ∑ ν ∈ Finset.range nao, U r p * U t q * (mo μ r * mo ν t * f μ ν) := by
    intro r t
    rw [Finset.mul_sum]
    exact Finset.sum_congr rfl fun μ _ => Finset.mul_sum _ _ _
  simp only [e1]
  have e2 : ∀ μ, (∑ ν ∈ Finset.range nao, ∑ r ∈ Finset.range nmo, ∑ t ∈ Finset.range nmo, U r p * U t q * (mo μ r * mo ν t * f μ ν)) =
      ∑ r ∈ Finset.range nmo, ∑ t ∈ Finset.range nmo, ∑ ν ∈ Finset.range nao, U r p * U t q * (mo μ r * mo ν t * f μ ν) := by
    intro μ
    rw [Finset.sum_comm]
    exact Finset.sum_congr rfl fun r _ => Finset.sum_comm
  simp only [e2]
  rw [Finset.sum_comm]
  exact Finset.sum_congr rfl fun r _ => Finset.sum_comm

theorem moEne_rot (I : Input K Ci) (X : Ext K Ci) (tol : K) {p : Nat} (h : ¬ (I.ncore ≤ p ∧ p < I.nocc)) :
    I.moEne X tol p = rot I.nmo (I.umat X tol) I.fockMo p p := by
  unfold Input.moEne rot
  rw [if_neg h]
  refine Finset.sum_congr rfl fun r _ => ?_
  rw [Finset.sum_mul]
  exact Finset.sum_congr rfl fun t _ => by ring

theorem moOcc_rot (I : Input K Ci) (X : Ext K Ci) (tol : K) {p : Nat} (h : p < I.ncas) :
    I.moOcc X tol (I.ncore + p) = rot I.ncas (I.ucas X tol) I.natorb p p := by
  unfold Input.moOcc rot
  rw [if_neg (by omega), if_pos (by unfold Input.nocc; omega), Nat.add_sub_cancel_left]
  refine Finset.sum_congr rfl fun r _ => ?_
  rw [Finset.sum_mul]
  exact Finset.sum_congr rfl fun t _ => by ring

theorem ucas_blk {U M c : Mat K} {e : Nat → K} {π : Nat → Nat} {a n ncore : Nat}
    (B : Blk U (ncore + a) n (fun p q => M (p - ncore) (q - ncore)) e c π) :
    Blk (fun p q => U (ncore + p) (ncore + q)) a n M e c π := by
  refine ⟨?_, ?_, B.lt, B.inj⟩
  · intro q h1 h2 r
    change U (ncore + r) (ncore + q) = _
    rw [B.col (ncore + q) (by omega) (by omega)]
    have e1 : ncore + r - (ncore + a) = r - a := by omega
    have e2 : ncore + q - (ncore + a) = q - a := by omega
    simp only [e1, e2]
    by_cases h : a ≤ r ∧ r < a + n
    · rw [if_pos h, if_pos (by omega)]
    · rw [if_neg h, if_neg (by omega)]
  · have := B.eig
    have e : (fun k l => (fun p q => M (p - ncore) (q - ncore)) (ncore + a + k) (ncore + a + l)) =
        fun k l => M (a + k) (a + l) := by
      funext k l
      simp only
      congr 1 <;> omega
    rwa [e] at this

/-- Orbitals of a space come from the orbitals of the space. -/
theorem moOut_space (I : Input K Ci) (X : Ext K Ci) (tol : K) {o n : Nat} {M c : Mat K} {e : Nat → K} {π : Nat → Nat}
    (B : Blk (I.umat X tol) o n M e c π) (hle : o + n ≤ I.nmo) (μ : Nat) {b : Nat} (hb : b < n) :
    I.moOut X tol μ (o + b) = ∑ k ∈ Finset.range n, I.mo μ (o + k) * I.umat X tol (o + k) (o + b) := by
  unfold Input.moOut
  have : ∀ r, I.mo μ r * I.umat X tol r (o + b) = I.umat X tol r (o + b) * I.mo μ r := fun r => mul_comm _ _
  simp only [this]
  rw [col_sum B.col hle (fun r => I.mo μ r) (by omega) (by omega)]
  refine Finset.sum_congr rfl fun k hk => ?_
  have hk := Finset.mem_range.1 hk
  rw [B.col (o + b) (by omega) (by omega), if_pos (by omega)]
  simp only [Nat.add_sub_cancel_left]

/-- A density matrix which is rotated with the orbitals is the same in atomic orbitals. -/
theorem density_same (n : Nat) (W x y d : Mat K)
    (hW : ∀ r < n, ∀ t < n, (∑ q ∈ Finset.range n, W r q * W t q) = if r = t then 1 else 0) (μ ν : Nat) :
    ∑ a ∈ Finset.range n, ∑ b ∈ Finset.range n, (∑ k ∈ Finset.range n, x μ k * W k a) * rot n W d a b *
      (∑ k ∈ Finset.range n, y ν k * W k b) =
    ∑ a ∈ Finset.range n, ∑ b ∈ Finset.range n, x μ a * d a b * y ν b := by
  have back : ∀ (z : Nat → K), ∀ r ∈ Finset.range n, ∑ a ∈ Finset.range n, (∑ k ∈ Finset.range n, z k * W k a) * W r a = z r := by
    intro z r hr
    have : ∀ a, (∑ k ∈ Finset.range n, z k * W k a) * W r a = ∑ k ∈ Finset.range n, z k * (W k a * W r a) := by
      intro a; rw [Finset.sum_mul]; exact Finset.sum_congr rfl fun k _ => by ring
    simp only [this]
    rw [Finset.sum_comm]
    have h2 : ∀ k ∈ Finset.range n, ∑ a ∈ Finset.range n, z k * (W k a * W r a) = if k = r then z k else 0 := by
      intro k hk
      rw [← Finset.mul_sum, hW k (Finset.mem_range.1 hk) r (Finset.mem_range.1 hr)]
      split <;> simp
    rw [Finset.sum_congr rfl h2]
    simp [Finset.mem_range.1 hr]
  have e : ∀ a b, (∑ k ∈ Finset.range n, x μ k * W k a) * rot n W d a b * (∑ k ∈ Finset.range n, y ν k * W k b) =
      ∑ r ∈ Finset.range n, ∑ t ∈ Finset.range n, ((∑ k ∈ Finset.range n, x μ k * W k a) * W r a) * d r t *
        ((∑ k ∈ Finset.range n, y ν k * W k b) * W t b) := by
    intro a b
    generalize (∑ k ∈ Finset.range n, x μ k * W k a) = A
    generalize (∑ k ∈ Finset.range n, y ν k * W k b) = B
    unfold rot
    rw [Finset.mul_sum, Finset.sum_mul]
    refine Finset.sum_congr rfl fun r _ => ?_
    rw [Finset.mul_sum, Finset.sum_mul]
    exact Finset.sum_congr rfl fun t _ => by ring
  simp only [e]
  have e2 : ∀ a, (∑ b ∈ Finset.range n, ∑ r ∈ Finset.range n, ∑ t ∈ Finset.range n,
      ((∑ k ∈ Finset.range n, x μ k * W k a) * W r a) * d r t * ((∑ k ∈ Finset.range n, y ν k * W k b) * W t b)) =
      ∑ r ∈ Finset.range n, ∑ t ∈ Finset.range n, ((∑ k ∈ Finset.range n, x μ k * W k a) * W r a) * d r t * y ν t := by
    intro a
    rw [Finset.sum_comm]
    refine Finset.sum_congr rfl fun r _ => ?_
    rw [Finset.sum_comm]
    refine Finset.sum_congr rfl fun t ht => ?_
    rw [← Finset.mul_sum, back (y ν) t ht]
  simp only [e2]
  rw [Finset.sum_comm]
  refine Finset.sum_congr rfl fun r hr => ?_
  rw [Finset.sum_comm]
  refine Finset.sum_congr rfl fun t _ => ?_
  have e3 : ∀ a, (∑ k ∈ Finset.range n, x μ k * W k a) * W r a * d r t * y ν t =
      ((∑ k ∈ Finset.range n, x μ k * W k a) * W r a) * (d r t * y ν t) := fun a => by ring
  simp only [e3]
  rw [← Finset.sum_mul, back (x μ) r hr]; ring

/-- Integrals over four sets of coefficients. -/
def t4 (nao : Nat) (a b c d : Nat → K) (g : Ten K) : K :=
  ∑ μ ∈ Finset.range nao, ∑ ν ∈ Finset.range nao, ∑ l ∈ Finset.range nao, ∑ k ∈ Finset.range nao, a μ * b ν * c l * d k * g μ ν l k

theorem lin (nao N : Nat) (A : Mat K) (w T : Nat → K) : ∑ μ ∈ Finset.range nao, (∑ x ∈ Finset.range N, A μ x * w x) * T μ =
    ∑ x ∈ Finset.range N, w x * ∑ μ ∈ Finset.range nao, A μ x * T μ := by
  simp only [Finset.sum_mul, Finset.mul_sum]
  rw [Finset.sum_comm]
  exact Finset.sum_congr rfl fun x _ => Finset.sum_congr rfl fun μ _ => by ring

theorem t4_a (nao : Nat) (a b c d : Nat → K) (g : Ten K) : t4 nao a b c d g = ∑ μ ∈ Finset.range nao, a μ *
    ∑ ν ∈ Finset.range nao, ∑ l ∈ Finset.range nao, ∑ k ∈ Finset.range nao, b ν * c l * d k * g μ ν l k := by
  unfold t4
  simp only [Finset.mul_sum]
  exact Finset.sum_congr rfl fun μ _ => Finset.sum_congr rfl fun ν _ => Finset.sum_congr rfl fun l _ =>
    Finset.sum_congr rfl fun k _ => by ring

theorem t4_ab (nao : Nat) (a b c d : Nat → K) (g : Ten K) : t4 nao a b c d g = t4 nao b a c d fun μ ν l k => g ν μ l k := by
  unfold t4
  rw [Finset.sum_comm]
  exact Finset.sum_congr rfl fun μ _ => Finset.sum_congr rfl fun ν _ => Finset.sum_congr rfl fun l _ =>
    Finset.sum_congr rfl fun k _ => by ring

theorem t4_bc (nao : Nat) (a b c d : Nat → K) (g : Ten K) : t4 nao a b c d g = t4 nao a c b d fun μ ν l k => g μ l ν k := by
  unfold t4
  refine Finset.sum_congr rfl fun μ _ => ?_
  rw [Finset.sum_comm]
  exact Finset.sum_congr rfl fun ν _ => Finset.sum_congr rfl fun l _ => Finset.sum_congr rfl fun k _ => by ring

theorem t4_cd (nao : Nat) (a b c d : Nat → K) (g : Ten K) : t4 nao a b c d g = t4 nao a b d c fun μ ν l k => g μ ν k l := by
  unfold t4
  refine Finset.sum_congr rfl fun μ _ => Finset.sum_congr rfl fun ν _ => ?_
  rw [Finset.sum_comm]
  exact Finset.sum_congr rfl fun l _ => Finset.sum_congr rfl fun k _ => by ring

theorem t4_lin_a (nao N : Nat) (A : Mat K) (w b c d : Nat → K) (g : Ten K) :
    t4 nao (fun μ => ∑ x ∈ Finset.range N, A μ x * w x) b c d g = ∑ x ∈ Finset.range N, w x * t4 nao (fun μ => A μ x) b c d g := by
  simp only [t4_a]
  exact lin _ _ _ _ _

theorem t4_lin_b (nao N : Nat) (A : Mat K) (w a c d : Nat → K) (g : Ten K) :
    t4 nao a (fun μ => ∑ x ∈ Finset.range N, A μ x * w x) c d g = ∑ x ∈ Finset.range N, w x * t4 nao a (fun μ => A μ x) c d g := by
  rw [t4_ab, t4_lin_a]
  exact Finset.sum_congr rfl fun x _ => by rw [t4_ab nao a]

theorem t4_lin_c (nao N : Nat) (A : Mat K) (w a b d : Nat → K) (g : Ten K) :
    t4 nao a b (fun μ => ∑ x ∈ Finset.range N, A μ x * w x) d g = ∑ x ∈ Finset.range N, w x * t4 nao a b (fun μ => A μ x) d g := by
  rw [t4_bc, t4_lin_b]
  exact Finset.sum_congr rfl fun x _ => by rw [t4_bc nao a b]

theorem t4_lin_d (nao N : Nat) (A : Mat K) (w a b c : Nat → K) (g : Ten K) :
    t4 nao a b c (fun μ => ∑ x ∈ Finset.range N, A μ x * w x) g = ∑ x ∈ Finset.range N, w x * t4 nao a b c (fun μ => A μ x) g := by
  rw [t4_cd, t4_lin_c]
  exact Finset.sum_congr rfl fun x _ => by rw [t4_cd nao a b c]

/-- Active orbitals come from active orbitals. -/
theorem moOut_cas (I : Input K Ci) (X : Ext K Ci) (tol : K) (hX : EigContract X.eig) (hs : SortContract X.argsort)
    (hD : ∀ p q, I.natorb p q = I.natorb q p) (hle : I.ncore + I.ncas ≤ I.nmo) (μ : Nat) {u : Nat} (hu : u < I.ncas) :
    I.moOut X tol μ (I.ncore + u) = ∑ x ∈ Finset.range I.ncas, I.mo μ (I.ncore + x) * I.ucas X tol x u := by
  obtain ⟨a, n, h, h1, h2⟩ := part_exists (parts I tol) 0 u (by omega) (by rw [parts_sum]; omega)
  have hb := part_bounds _ _ _ _ h
  rw [parts_sum] at hb
  have B := part_blk I X tol hX hs hD h
  have B' : Blk (I.ucas X tol) a n I.natorb _ _ _ := ucas_blk B
  have e1 := moOut_space I X tol B (by omega) μ (b := u - a) (by omega)
  have e2 : I.ncore + a + (u - a) = I.ncore + u := by omega
  rw [e2] at e1
  rw [e1]
  have e3 : ∀ x, I.mo μ (I.ncore + x) * I.ucas X tol x u = I.ucas X tol x u * I.mo μ (I.ncore + x) := fun x => mul_comm _ _
  simp only [e3]
  rw [col_sum B'.col (by omega) (fun x => I.mo μ (I.ncore + x)) h1 h2]
  refine Finset.sum_congr rfl fun k hk => ?_
  have hk := Finset.mem_range.1 hk
  rw [B.col (I.ncore + u) (by omega) (by omega), if_pos (by omega), Nat.add_sub_cancel_left]
  have e4 : I.ncore + u - (I.ncore + a) = u - a := by omega
  rw [e4, Nat.add_assoc, mul_comm]

end
end Verif.LasCanon
