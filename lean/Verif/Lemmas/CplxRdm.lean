import Verif.Spec.CplxRdm
import Verif.Lemmas.CplxCi4
/-!
# Lemmas: loops of the routines for density matrices
-/
namespace Verif.CplxRdm
open Verif.FciRdm Verif.HalfOp Verif.CplxCi Verif.Spec.CplxCi Verif.Spec.CplxRdm

theorem fold_pair {α β γ : Type} (l : List γ) (f : α → γ → α) (g : β → γ → β) (st : α × β) :
    l.foldl (fun st x => (f st.1 x, g st.2 x)) st = (l.foldl f st.1, l.foldl g st.2) := by
  induction l generalizing st with
  | nil => rfl
  | cons a l ih => rw [List.foldl_cons, ih]; rfl

theorem fold_real {γ : Type} (l : List γ) (g : γ → ℝ) (s : ℝ) : l.foldl (fun s x => s + g x) s = s + (l.map g).sum := by
  induction l generalizing s with
  | nil => simp
  | cons a l ih => rw [List.foldl_cons, ih, List.map_cons, List.sum_cons, add_assoc]

theorem nsq (p : ℂ) : (star p * p).re = Complex.normSq p := by
  rw [Complex.normSq_apply]
  simp [Complex.mul_re]

theorem mem_le_sum {α : Type} {l : List α} (f : α → ℝ) (h0 : ∀ y, 0 ≤ f y) {x : α} (hx : x ∈ l) : f x ≤ (l.map f).sum := by
  induction l with
  | nil => simp at hx
  | cons a l ih =>
    rw [List.map_cons, List.sum_cons]
    rcases List.mem_cons.1 hx with h | h
    · subst h
      refine le_add_of_nonneg_right (List.sum_nonneg ?_)
      intro y hy
      obtain ⟨z, -, rfl⟩ := List.mem_map.1 hy
      exact h0 z
    · exact (ih h).trans (le_add_of_nonneg_left (h0 a))

theorem sum_nonneg' {α : Type} (l : List α) (f : α → ℝ) (h0 : ∀ y, 0 ≤ f y) : 0 ≤ (l.map f).sum := by
  refine List.sum_nonneg ?_
  intro y hy
  obtain ⟨z, -, rfl⟩ := List.mem_map.1 hy
  exact h0 z

/-- `i'a c` at the strings `s`, `b`, for spin up and spin down. -/
noncomputable def xa (la : Tab) (c : Arr ℂ) (i a s b : Nat) : ℂ :=
  ((la s).map fun l => if l.i = i ∧ l.a = a then (l.sign : ℂ) * c l.addr b else 0).sum
noncomputable def xb (lb : Tab) (c : Arr ℂ) (i a s b : Nat) : ℂ :=
  ((lb b).map fun l => if l.i = i ∧ l.a = a then (l.sign : ℂ) * c s l.addr else 0).sum

theorem sgn_mul {z : Int} (h : z = 1 ∨ z = -1) (w : ℂ) : (if z > 0 then w else -w) = (z : ℂ) * w := by
  rcases h with h | h <;> subst h <;> simp

theorem t1ciA_pair (ci0 : Flat) (bcount stra strb norb nstrb : Nat) (la : Tab) :
    t1ciA ci0 bcount stra strb norb nstrb la =
      ((la stra).foldl (fun t l => (List.range bcount).foldl (fun (t : Flat) k =>
        addAt t (l.i * norb + l.a + k * (norb * norb)) (if l.sign > 0 then ci0 (strb + l.addr * nstrb + k) else -ci0 (strb + l.addr * nstrb + k))) t) (fun _ => 0),
       ((la stra).map fun l => ((List.range bcount).map fun k => Complex.normSq (ci0 (strb + l.addr * nstrb + k))).sum).sum) := by
  unfold t1ciA
  have e : ∀ (st : Flat × ℝ) (l : Lk), (List.range bcount).foldl (fun (st : Flat × ℝ) k =>
      (addAt st.1 (l.i * norb + l.a + k * (norb * norb)) (if l.sign > 0 then ci0 (strb + l.addr * nstrb + k) else -ci0 (strb + l.addr * nstrb + k)),
        st.2 + (star (ci0 (strb + l.addr * nstrb + k)) * ci0 (strb + l.addr * nstrb + k)).re)) st =
      ((List.range bcount).foldl (fun (t : Flat) k =>
        addAt t (l.i * norb + l.a + k * (norb * norb)) (if l.sign > 0 then ci0 (strb + l.addr * nstrb + k) else -ci0 (strb + l.addr * nstrb + k))) st.1,
       st.2 + ((List.range bcount).map fun k => Complex.normSq (ci0 (strb + l.addr * nstrb + k))).sum) := by
    intro st l
    rw [fold_pair _ (fun (t : Flat) k => addAt t (l.i * norb + l.a + k * (norb * norb)) (if l.sign > 0 then ci0 (strb + l.addr * nstrb + k) else -ci0 (strb + l.addr * nstrb + k)))
      (fun s k => s + (star (ci0 (strb + l.addr * nstrb + k)) * ci0 (strb + l.addr * nstrb + k)).re), fold_real]
    simp only [nsq]
  simp only [e]
  rw [fold_pair _ (fun (t : Flat) (l : Lk) => (List.range bcount).foldl (fun (t : Flat) k =>
        addAt t (l.i * norb + l.a + k * (norb * norb)) (if l.sign > 0 then ci0 (strb + l.addr * nstrb + k) else -ci0 (strb + l.addr * nstrb + k))) t)
      (fun s l => s + ((List.range bcount).map fun k => Complex.normSq (ci0 (strb + l.addr * nstrb + k))).sum), fold_real, zero_add]

theorem t1ciB_pair (ci0 : Flat) (bcount stra strb norb nstrb : Nat) (lb : Tab) :
    t1ciB ci0 bcount stra strb norb nstrb lb =
      ((List.range bcount).foldl (fun t k => (lb (strb + k)).foldl (fun (t : Flat) l =>
        addAt t (k * (norb * norb) + (l.i * norb + l.a)) ((l.sign : ℂ) * ci0 (stra * nstrb + l.addr))) t) (fun _ => 0),
       ((List.range bcount).map fun k => ((lb (strb + k)).map fun l => Complex.normSq (ci0 (stra * nstrb + l.addr))).sum).sum) := by
  unfold t1ciB
  have e : ∀ (st : Flat × ℝ) (k : Nat), (lb (strb + k)).foldl (fun (st : Flat × ℝ) l =>
      (addAt st.1 (k * (norb * norb) + (l.i * norb + l.a)) ((l.sign : ℂ) * ci0 (stra * nstrb + l.addr)),
        st.2 + (star (ci0 (stra * nstrb + l.addr)) * ci0 (stra * nstrb + l.addr)).re)) st =
      ((lb (strb + k)).foldl (fun (t : Flat) l =>
        addAt t (k * (norb * norb) + (l.i * norb + l.a)) ((l.sign : ℂ) * ci0 (stra * nstrb + l.addr))) st.1,
       st.2 + ((lb (strb + k)).map fun l => Complex.normSq (ci0 (stra * nstrb + l.addr))).sum) := by
    intro st k
    rw [fold_pair _ (fun (t : Flat) (l : Lk) => addAt t (k * (norb * norb) + (l.i * norb + l.a)) ((l.sign : ℂ) * ci0 (stra * nstrb + l.addr)))
      (fun s l => s + (star (ci0 (stra * nstrb + l.addr)) * ci0 (stra * nstrb + l.addr)).re), fold_real]
    simp only [nsq]
  simp only [e]
  rw [fold_pair _ (fun (t : Flat) (k : Nat) => (lb (strb + k)).foldl (fun (t : Flat) l =>
        addAt t (k * (norb * norb) + (l.i * norb + l.a)) ((l.sign : ℂ) * ci0 (stra * nstrb + l.addr))) t)
      (fun s k => s + ((lb (strb + k)).map fun l => Complex.normSq (ci0 (stra * nstrb + l.addr))).sum), fold_real, zero_add]

theorem slot {n k k' p q a i : Nat} (hp : p < n) (hq : q < n) (ha : a < n) (hi : i < n) :
    (k * (n * n) + (p * n + q) = k' * (n * n) + (i * n + a)) ↔ (k' = k ∧ i = p ∧ a = q) := by
  rw [digit_inj (pair_lt hp hq) (pair_lt hi ha), digit_inj hq ha]
  constructor
  · rintro ⟨a, b, c⟩; exact ⟨a.symm, b.symm, c.symm⟩
  · rintro ⟨a, b, c⟩; exact ⟨a.symm, b.symm, c.symm⟩

theorem t1ciA_val {n nb na bcount s strb k p q : Nat} {la : Tab} (hla : Good n na la) (c : Arr ℂ) (hs : s < na)
    (hb : strb + bcount ≤ nb) (hk : k < bcount) (hp : p < n) (hq : q < n) :
    (t1ciA (toFlat nb c) bcount s strb n nb la).1 (k * (n * n) + (p * n + q)) = xa la c p q s (strb + k) := by
  rw [t1ciA_pair]
  dsimp only
  rw [foldl_gen _ _ (fun (l : Lk) y => ∑ k ∈ Finset.range bcount, if y = l.i * n + l.a + k * (n * n) then
    (if l.sign > 0 then toFlat nb c (strb + l.addr * nb + k) else -toFlat nb c (strb + l.addr * nb + k)) else 0), zero_add]
  · unfold xa
    congr 1
    refine List.map_congr_left fun l hl => ?_
    obtain ⟨h1, h2, -, h4⟩ := hla s hs l hl
    have e : ∀ k' ∈ Finset.range bcount, (if k * (n * n) + (p * n + q) = l.i * n + l.a + k' * (n * n) then
        (if l.sign > 0 then toFlat nb c (strb + l.addr * nb + k') else -toFlat nb c (strb + l.addr * nb + k')) else 0) =
        if k' = k then (if l.i = p ∧ l.a = q then (l.sign : ℂ) * c l.addr (strb + k) else 0) else 0 := by
      intro k' hk'
      have hk' := Finset.mem_range.1 hk'
      rw [Nat.add_comm (l.i * n + l.a)]
      simp only [slot hp hq h1 h2, sgn_mul h4]
      rw [show strb + l.addr * nb + k' = l.addr * nb + (strb + k') by omega, toFlat_val (by omega)]
      by_cases hkk : k' = k
      · subst hkk; simp
      · simp [hkk]
    rw [Finset.sum_congr rfl e, Finset.sum_ite_eq', if_pos (Finset.mem_range.2 hk)]
  · intro t l y
    rw [foldl_gen _ _ (fun k y => if y = l.i * n + l.a + k * (n * n) then
      (if l.sign > 0 then toFlat nb c (strb + l.addr * nb + k) else -toFlat nb c (strb + l.addr * nb + k)) else 0), sum_list_range]
    intro t k y
    rw [addAt_val]

theorem t1ciB_val {n nb bcount s strb k p q : Nat} {lb : Tab} (hlb : Good n nb lb) (c : Arr ℂ)
    (hb : strb + bcount ≤ nb) (hk : k < bcount) (hp : p < n) (hq : q < n) :
    (t1ciB (toFlat nb c) bcount s strb n nb lb).1 (k * (n * n) + (p * n + q)) = xb lb c p q s (strb + k) := by
  rw [t1ciB_pair]
  dsimp only
  rw [foldl_gen _ _ (fun (k : Nat) y => ((lb (strb + k)).map fun l => if y = k * (n * n) + (l.i * n + l.a) then
    (l.sign : ℂ) * toFlat nb c (s * nb + l.addr) else 0).sum), zero_add, sum_list_range]
  · have e : ∀ k' ∈ Finset.range bcount, ((lb (strb + k')).map fun l => if k * (n * n) + (p * n + q) = k' * (n * n) + (l.i * n + l.a) then
        (l.sign : ℂ) * toFlat nb c (s * nb + l.addr) else 0).sum = if k' = k then xb lb c p q s (strb + k) else 0 := by
      intro k' hk'
      have hk' := Finset.mem_range.1 hk'
      have e2 : ((lb (strb + k')).map fun l => if k * (n * n) + (p * n + q) = k' * (n * n) + (l.i * n + l.a) then
          (l.sign : ℂ) * toFlat nb c (s * nb + l.addr) else 0) =
          (lb (strb + k')).map fun l => if k' = k then (if l.i = p ∧ l.a = q then (l.sign : ℂ) * c s l.addr else 0) else 0 := by
        refine List.map_congr_left fun l hl => ?_
        obtain ⟨h1, h2, h3, -⟩ := hlb (strb + k') (by omega) l hl
        simp only [slot hp hq h1 h2, toFlat_val h3]
        by_cases hkk : k' = k
        · simp [hkk]
        · simp [hkk]
      rw [e2, list_sum_ite]
      by_cases hkk : k' = k
      · subst hkk; rfl
      · simp [hkk]
    rw [Finset.sum_congr rfl e, Finset.sum_ite_eq', if_pos (Finset.mem_range.2 hk)]
  · intro t k y
    rw [foldl_gen _ _ (fun (l : Lk) y => if y = k * (n * n) + (l.i * n + l.a) then (l.sign : ℂ) * toFlat nb c (s * nb + l.addr) else 0)]
    intro t l y
    rw [addAt_val]

/-- A tile that is skipped would have contributed nothing. -/
theorem skipA {thr : ℝ} {n nb na bcount s strb k : Nat} {la : Tab} (hla : Good n na la) {c : Arr ℂ} (hc : Seen thr na nb c) (hs : s < na)
    (hb : strb + bcount ≤ nb) (hk : k < bcount) (h : (t1ciA (toFlat nb c) bcount s strb n nb la).2 ≤ thr) (p q : Nat) :
    xa la c p q s (strb + k) = 0 := by
  rw [t1ciA_pair] at h
  dsimp only at h
  unfold xa
  apply List.sum_eq_zero
  intro x hx
  obtain ⟨l, hl, rfl⟩ := List.mem_map.1 hx
  obtain ⟨-, -, h3, -⟩ := hla s hs l hl
  have h1 := mem_le_sum (fun l : Lk => ((List.range bcount).map fun k => Complex.normSq (toFlat nb c (strb + l.addr * nb + k))).sum)
    (fun l => sum_nonneg' _ _ fun k => Complex.normSq_nonneg _) hl
  have h2 := mem_le_sum (fun k => Complex.normSq (toFlat nb c (strb + l.addr * nb + k))) (fun k => Complex.normSq_nonneg _) (List.mem_range.2 hk)
  rw [show strb + l.addr * nb + k = l.addr * nb + (strb + k) by omega, toFlat_val (by omega)] at h2
  rcases hc _ h3 (strb + k) (by omega) with h4 | h4
  · rw [h4, mul_zero, ite_self]
  · exfalso; linarith

theorem skipB {thr : ℝ} {n nb na bcount s strb k : Nat} {lb : Tab} (hlb : Good n nb lb) {c : Arr ℂ} (hc : Seen thr na nb c) (hs : s < na)
    (hb : strb + bcount ≤ nb) (hk : k < bcount) (h : (t1ciB (toFlat nb c) bcount s strb n nb lb).2 ≤ thr) (p q : Nat) :
    xb lb c p q s (strb + k) = 0 := by
  rw [t1ciB_pair] at h
  dsimp only at h
  unfold xb
  apply List.sum_eq_zero
  intro x hx
  obtain ⟨l, hl, rfl⟩ := List.mem_map.1 hx
  obtain ⟨-, -, h3, -⟩ := hlb (strb + k) (by omega) l hl
  have h1 := mem_le_sum (fun k => ((lb (strb + k)).map fun l => Complex.normSq (toFlat nb c (s * nb + l.addr))).sum)
    (fun k => sum_nonneg' _ _ fun l => Complex.normSq_nonneg _) (List.mem_range.2 hk)
  have h2 := mem_le_sum (fun l : Lk => Complex.normSq (toFlat nb c (s * nb + l.addr))) (fun k => Complex.normSq_nonneg _) hl
  rw [toFlat_val h3] at h2
  rcases hc _ hs _ h3 with h4 | h4
  · rw [h4, mul_zero, ite_self]
  · exfalso; linarith

/-- The triangle that `fillHerm` completes. -/
theorem fillHerm_val (d : Nat) (m : Flat) {j k : Nat} (hj : j < d) (hk : k < d) :
    fillHerm d m (j * d + k) = if k ≤ j then m (j * d + k) else star (m (k * d + j)) := by
  have inner : ∀ (J K : Nat) (m : Flat), J < d → K ≤ J →
      ∀ a < d, ∀ b < d, (List.range K).foldl (fun m k => setAt m (k * d + J) (star (m (J * d + k)))) m (a * d + b) =
        if b = J ∧ a < K then star (m (J * d + a)) else m (a * d + b) := by
    intro J K m hJ
    induction K with
    | zero => intro _ a _ b _; simp
    | succ K ih =>
      intro hK a ha b hb
      have ih := ih (by omega)
      rw [List.range_succ, List.foldl_append, List.foldl_cons, List.foldl_nil]
      rw [show ∀ (f : Flat) (x : Nat) (v : ℂ) (y : Nat), setAt f x v y = if y = x then v else f y from fun _ _ _ _ => rfl]
      rw [ih J hJ K (by omega), ih a ha b hb]
      simp only [digit_inj hb hJ]
      by_cases h1 : a = K ∧ b = J
      · obtain ⟨rfl, rfl⟩ := h1
        rw [if_pos ⟨rfl, rfl⟩, if_neg (by omega), if_pos (by omega)]
      · rw [if_neg h1]
        by_cases h2 : b = J ∧ a < K
        · rw [if_pos h2, if_pos (by omega)]
        · rw [if_neg h2, if_neg (by omega)]
  have outer : ∀ (D : Nat) (m : Flat), D ≤ d → ∀ a < d, ∀ b < d,
      (List.range D).foldl (fun m j => (List.range j).foldl (fun m k => setAt m (k * d + j) (star (m (j * d + k)))) m) m (a * d + b) =
        if a < b ∧ b < D then star (m (b * d + a)) else m (a * d + b) := by
    intro D m
    induction D with
    | zero => intro _ a _ b _; simp
    | succ D ih =>
      intro hD a ha b hb
      have ih := ih (by omega)
      rw [List.range_succ, List.foldl_append, List.foldl_cons, List.foldl_nil, inner D D _ (by omega) (le_refl _) a ha b hb, ih a ha b hb,
        ih D (by omega) a ha]
      by_cases h1 : b = D ∧ a < D
      · obtain ⟨rfl, h1⟩ := h1
        rw [if_pos ⟨rfl, h1⟩, if_neg (by omega), if_pos (by omega)]
      · rw [if_neg h1]
        by_cases h2 : a < b ∧ b < D
        · rw [if_pos h2, if_pos (by omega)]
        · rw [if_neg h2, if_neg (by omega)]
  unfold fillHerm
  rw [outer d m (le_refl _) j hj k hk]
  by_cases h : k ≤ j
  · rw [if_pos h, if_neg (by omega)]
  · rw [if_neg h, if_pos (by omega)]

theorem transposeJikl_val {n : Nat} (m : Flat) {p q x : Nat} (hp : p < n) (hq : q < n) (hx : x < n * n) :
    transposeJikl n m ((p * n + q) * (n * n) + x) = m ((q * n + p) * (n * n) + x) := by
  unfold transposeJikl
  dsimp only
  have hn : 0 < n := by omega
  rw [Nat.mul_comm (p * n + q), Nat.mul_add_div (Nat.mul_pos hn hn), Nat.div_eq_of_lt hx, Nat.add_zero, Nat.mul_add_mod, Nat.mod_eq_of_lt hx,
    Nat.mul_comm p, Nat.mul_add_mod, Nat.mod_eq_of_lt hq, Nat.mul_add_div hn, Nat.div_eq_of_lt hq, Nat.add_zero]

end Verif.CplxRdm
