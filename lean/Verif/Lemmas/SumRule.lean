import Verif.Lemmas.SpinTables
import Mathlib.Algebra.BigOperators.Group.List.Basic
/-!
# Counting projections and couplings

Fragment lists are reversed here, the last fragment first.
-/
namespace Verif.Spaces
open Verif.Spec

/-- The vectors of projections with total `M`. -/
def enumM : List Int → Int → List (List Int)
  | [], M => if M = 0 then [[]] else []
  | s :: r, M => (List.range (s.toNat + 1)).flatMap fun k : Nat => (enumM r (M - (-s + 2 * (k : Int)))).map (· ++ [-s + 2 * (k : Int)])

/-- The vectors of couplings to `S`. -/
def enumP : List Int → Int → List (List Int)
  | [], _ => []
  | [s], S => if S = s then [[s]] else []
  | s :: s' :: r, S => (List.range ((min S s).toNat + 1)).flatMap fun k : Nat =>
      (enumP (s' :: r) (|S - s| + 2 * (k : Int))).map (· ++ [S - (|S - s| + 2 * (k : Int))])

/-- Number of vectors of projections. -/
def numM (r : List Int) (M : Int) : Int := (enumM r M).length

/-- Number of couplings. -/
def numP (r : List Int) (S : Int) : Int := (enumP r S).length

theorem length_flatMap_range (n : Nat) (f : Nat → List (List Int)) :
    (((List.range n).flatMap f).length : Int) = ((List.range n).map fun k : Nat => ((f k).length : Int)).sum := by
  induction n with
  | zero => simp
  | succ n ih => rw [List.range_succ, List.flatMap_append, List.map_append, List.length_append]; push_cast; rw [ih]; simp

theorem numM_cons (s : Int) (r : List Int) (M : Int) :
    numM (s :: r) M = ((List.range (s.toNat + 1)).map fun k : Nat => numM r (M - (-s + 2 * (k : Int)))).sum := by
  unfold numM
  rw [enumM, length_flatMap_range]
  simp

theorem numP_cons (s s' : Int) (r : List Int) (S : Int) :
    numP (s :: s' :: r) S = ((List.range ((min S s).toNat + 1)).map fun k : Nat => numP (s' :: r) (|S - s| + 2 * (k : Int))).sum := by
  unfold numP
  rw [enumP, length_flatMap_range]
  simp

theorem cast_sum_map (l : List Nat) (f : Nat → Nat) : (((l.map f).sum : Nat) : Int) = (l.map fun k : Nat => (f k : Int)).sum := by
  induction l with
  | nil => simp
  | cons a l ih => simp [ih]

/-- Telescoping sums upwards. -/
theorem telescope (f : Int → Int) (a : Int) (n : Nat) :
    ((List.range n).map fun k : Nat => f (a + 2 * (k : Int)) - f (a + 2 * (k : Int) + 2)).sum = f a - f (a + 2 * n) := by
  induction n with
  | zero => simp
  | succ n ih =>
    rw [List.range_succ, List.map_append, List.sum_append, ih]
    simp only [List.map_cons, List.map_nil, List.sum_cons, List.sum_nil]
    rw [show a + 2 * ((n + 1 : Nat) : Int) = a + 2 * n + 2 by push_cast; ring]
    ring

theorem telescope_down (f : Int → Int) (a : Int) (n : Nat) :
    ((List.range n).map fun k : Nat => f (a - 2 * (k : Int)) - f (a - 2 * (k : Int) + 2)).sum = f (a - 2 * n + 2) - f (a + 2) := by
  induction n with
  | zero => simp
  | succ n ih =>
    rw [List.range_succ, List.map_append, List.sum_append, ih]
    simp only [List.map_cons, List.map_nil, List.sum_cons, List.sum_nil]
    rw [show a - 2 * ((n + 1 : Nat) : Int) + 2 = a - 2 * n by push_cast; ring]
    ring

theorem sum_map_sub (l : List Nat) (f g : Nat → Int) :
    (l.map f).sum - (l.map g).sum = (l.map fun k : Nat => f k - g k).sum := by
  induction l with
  | nil => simp
  | cons a l ih => simp only [List.map_cons, List.sum_cons]; rw [← ih]; ring

/-- Adding a fragment of spin `s`: the difference of consecutive counts. -/
theorem numM_diff (s : Int) (hs : 0 ≤ s) (r : List Int) (M : Int) :
    numM (s :: r) M - numM (s :: r) (M + 2) = numM r (M - s) - numM r (M + s + 2) := by
  rw [numM_cons, numM_cons, sum_map_sub]
  have : ∀ k : Nat, numM r (M - (-s + 2 * (k : Int))) - numM r (M + 2 - (-s + 2 * (k : Int))) =
      numM r (M + s - 2 * k) - numM r (M + s - 2 * k + 2) := by
    intro k
    rw [show M - (-s + 2 * (k : Int)) = M + s - 2 * k by ring, show M + 2 - (-s + 2 * (k : Int)) = M + s - 2 * k + 2 by ring]
  simp only [this]
  rw [telescope_down]
  have h2 : ((s.toNat + 1 : Nat) : Int) = s + 1 := by omega
  rw [h2]
  congr 2
  ring

theorem sum_range_reflect (n : Nat) (f g : Nat → Int) (h : ∀ k, k < n → f k = g (n - 1 - k)) :
    ((List.range n).map f).sum = ((List.range n).map g).sum := by
  rw [← List.sum_reverse ((List.range n).map g), ← List.map_reverse]
  congr 1
  apply List.ext_getElem
  · simp
  · intro i h1 h2
    simp at h1
    simp [h i h1]

theorem numM_even (r : List Int) (hr : ∀ x ∈ r, 0 ≤ x) (M : Int) : numM r (-M) = numM r M := by
  induction r generalizing M with
  | nil => simp [numM, enumM]
  | cons s r ih =>
    have hs := hr s (by simp)
    rw [numM_cons, numM_cons]
    apply sum_range_reflect
    intro k hk
    rw [← ih (fun x hx => hr x (by simp [hx]))]
    congr 1
    have : ((s.toNat + 1 - 1 - k : Nat) : Int) = s - k := by omega
    rw [this]
    ring

theorem numM_abs (r : List Int) (hr : ∀ x ∈ r, 0 ≤ x) (M : Int) : numM r |M| = numM r M := by
  rcases abs_cases M with ⟨h, h'⟩ | ⟨h, h'⟩ <;> rw [h]
  exact numM_even r hr M

theorem numM_zero_of_big (r : List Int) (hr : ∀ x ∈ r, 0 ≤ x) (M : Int) (h : r.sum < M) : numM r M = 0 := by
  induction r generalizing M with
  | nil => simp at h; simp [numM, enumM, ne_of_gt h]
  | cons s r ih =>
    have hs := hr s (by simp)
    rw [List.sum_cons] at h
    rw [numM_cons]
    apply List.sum_eq_zero
    intro x hx
    obtain ⟨k, hk, rfl⟩ := List.mem_map.mp hx
    rw [List.mem_range] at hk
    apply ih (fun x hx => hr x (by simp [hx]))
    omega

/-- The number of couplings to `S` is the difference of the numbers of projection vectors. -/
theorem numP_eq (r : List Int) (h0 : r ≠ []) (hr : ∀ x ∈ r, 0 ≤ x) (S : Int) (hS : 0 ≤ S) :
    numP r S = numM r S - numM r (S + 2) := by
  induction r generalizing S with
  | nil => exact absurd rfl h0
  | cons s r ih =>
    have hs := hr s (by simp)
    have hr' : ∀ x ∈ r, 0 ≤ x := fun x hx => hr x (by simp [hx])
    rw [numM_diff s hs]
    cases r with
    | nil =>
      simp only [numP, enumP, numM, enumM]
      by_cases h : S = s
      · subst h
        rw [if_pos rfl, if_pos (by ring), if_neg (by omega)]
        simp
      · rw [if_neg h, if_neg (by omega), if_neg (by omega)]
        simp
    | cons s' r =>
      rw [numP_cons]
      have : ∀ k : Nat, numP (s' :: r) (|S - s| + 2 * (k : Int)) =
          numM (s' :: r) (|S - s| + 2 * (k : Int)) - numM (s' :: r) (|S - s| + 2 * (k : Int) + 2) := by
        intro k
        apply ih (by simp) hr'
        have := abs_nonneg (S - s)
        omega
      simp only [this]
      rw [telescope, numM_abs _ hr']
      have h2 : |S - s| + 2 * (((min S s).toNat + 1 : Nat) : Int) = S + s + 2 := by
        rcases abs_cases (S - s) with ⟨h, h'⟩ | ⟨h, h'⟩ <;> omega
      rw [h2]

/-- The sum rule for the counts. -/
theorem sum_rule (r : List Int) (h0 : r ≠ []) (hr : ∀ x ∈ r, 0 ≤ x) (M : Int) (n : Nat) (hn : r.sum < |M| + 2 * n) :
    numM r M = ((List.range n).map fun j : Nat => numP r (|M| + 2 * (j : Int))).sum := by
  have : ∀ j : Nat, numP r (|M| + 2 * (j : Int)) = numM r (|M| + 2 * (j : Int)) - numM r (|M| + 2 * (j : Int) + 2) := by
    intro j
    apply numP_eq r h0 hr
    have := abs_nonneg M
    omega
  simp only [this]
  rw [telescope, numM_zero_of_big r hr _ hn, numM_abs r hr]
  ring

/-! ### The enumerations are right -/

theorem spinVec_snoc (r : List Int) (s M : Int) (v : List Int) :
    SpinVec (r ++ [s]) M v ↔ ∃ v' m, v = v' ++ [m] ∧ SpinVec r (M - m) v' ∧ -s ≤ m ∧ m ≤ s ∧ (s - m) % 2 = 0 := by
  constructor
  · rintro ⟨h1, h2, h3⟩
    rcases List.eq_nil_or_concat v with rfl | ⟨v', m, rfl⟩
    · simp at h1
    · rw [List.concat_eq_append] at *
      have hl : v'.length = r.length := by simpa using h1
      refine ⟨v', m, rfl, ⟨hl, ?_, ?_⟩, ?_⟩
      · intro i hi
        have := h2 i (by simp; omega)
        rwa [el_append_left _ _ _ hi, el_append_left _ _ _ (by omega)] at this
      · simp at h3; omega
      · have := h2 r.length (by simp)
        rw [el_append_last, ← hl, el_append_last] at this
        exact this
  · rintro ⟨v', m, rfl, ⟨h1, h2, h3⟩, h4⟩
    refine ⟨by simp [h1], ?_, by simp [h3]⟩
    intro i hi
    simp at hi
    rcases Nat.lt_or_ge i r.length with h | h
    · rw [el_append_left _ _ _ h, el_append_left _ _ _ (by omega)]
      exact h2 i h
    · obtain rfl : i = r.length := by omega
      rw [el_append_last, ← h1, el_append_last]
      exact h4

theorem mem_enumM (r : List Int) (hr : ∀ x ∈ r, 0 ≤ x) (M : Int) (v : List Int) :
    v ∈ enumM r M ↔ SpinVec r.reverse M v := by
  induction r generalizing M v with
  | nil =>
    unfold enumM SpinVec
    split
    · rename_i h; subst h; cases v <;> simp
    · rename_i h; cases v <;> simp [Ne.symm h]
  | cons s r ih =>
    have hs := hr s (by simp)
    rw [List.reverse_cons, spinVec_snoc, enumM]
    simp only [List.mem_flatMap, List.mem_range, List.mem_map, ih (fun x hx => hr x (by simp [hx]))]
    constructor
    · rintro ⟨k, hk, v', hv', rfl⟩
      exact ⟨v', _, rfl, hv', by omega, by omega, by omega⟩
    · rintro ⟨v', m, rfl, hv', h1, h2, h3⟩
      have hm : -s + 2 * (((m + s) / 2).toNat : Int) = m := by omega
      exact ⟨((m + s) / 2).toNat, by omega, v', by rw [hm]; exact hv', by rw [hm]⟩

theorem append_singleton_inj {a b : List Int} {x y : Int} (h : a ++ [x] = b ++ [y]) : a = b ∧ x = y := by
  have := List.append_inj' h rfl
  exact ⟨this.1, by simpa using this.2⟩

theorem nodup_snocs (n : Nat) (f : Nat → List (List Int)) (g : Nat → Int) (hf : ∀ k, k < n → (f k).Nodup)
    (hg : ∀ a b : Nat, g a = g b → a = b) :
    ((List.range n).flatMap fun k : Nat => (f k).map (· ++ [g k])).Nodup := by
  rw [List.nodup_iff_pairwise_ne, List.pairwise_flatMap]
  refine ⟨?_, ?_⟩
  · intro k hk
    rw [List.mem_range] at hk
    apply List.Nodup.map _ (hf k hk)
    intro a b h
    exact (append_singleton_inj h).1
  · apply List.Pairwise.imp _ List.nodup_range
    intro a b hab x hx y hy hxy
    obtain ⟨x', -, rfl⟩ := List.mem_map.mp hx
    obtain ⟨y', -, rfl⟩ := List.mem_map.mp hy
    exact hab (hg _ _ (append_singleton_inj hxy).2)

theorem nodup_enumM (r : List Int) (M : Int) : (enumM r M).Nodup := by
  induction r generalizing M with
  | nil => unfold enumM; split <;> simp
  | cons s r ih =>
    rw [enumM]
    apply nodup_snocs _ (fun k : Nat => enumM r (M - (-s + 2 * (k : Int)))) (fun k : Nat => -s + 2 * (k : Int)) (fun k _ => ih _)
    intro a b h
    omega

theorem nodup_enumP (r : List Int) (S : Int) : (enumP r S).Nodup := by
  induction r generalizing S with
  | nil => simp [enumP]
  | cons s r ih =>
    cases r with
    | nil => unfold enumP; split <;> simp
    | cons s' r =>
      rw [enumP]
      apply nodup_snocs _ (fun k : Nat => enumP (s' :: r) (|S - s| + 2 * (k : Int))) (fun k : Nat => S - (|S - s| + 2 * (k : Int)))
        (fun k _ => ih _)
      intro a b h
      omega

theorem coupled_ne_nil {ss ts : List Int} {S : Int} (h : Coupled ss ts S) : ss ≠ [] := by
  cases h <;> simp

theorem coupled_snoc (r : List Int) (h0 : r ≠ []) (s S : Int) (v : List Int) :
    Coupled (r ++ [s]) v S ↔ ∃ v' S', v = v' ++ [S - S'] ∧ Coupled r v' S' ∧ Triangle S' s S := by
  constructor
  · intro h
    generalize hr : r ++ [s] = rs at h
    cases h with
    | first =>
      exact absurd (append_singleton_inj (hr.trans (List.nil_append _).symm)).1 h0
    | @next ss ts S' s' t hc tri =>
      obtain ⟨rfl, rfl⟩ := append_singleton_inj hr
      exact ⟨ts, S', by congr 2; ring, hc, tri⟩
  · rintro ⟨v', S', rfl, hc, tri⟩
    have := Coupled.next s (S - S') hc (by rwa [show S' + (S - S') = S by ring])
    rwa [show S' + (S - S') = S by ring] at this

theorem mem_enumP (r : List Int) (h0 : r ≠ []) (hr : ∀ x ∈ r, 0 ≤ x) (S : Int) (hS : 0 ≤ S) (v : List Int) :
    v ∈ enumP r S ↔ Coupled r.reverse v S := by
  induction r generalizing S v with
  | nil => exact absurd rfl h0
  | cons s r ih =>
    have hs := hr s (by simp)
    have hr' : ∀ x ∈ r, 0 ≤ x := fun x hx => hr x (by simp [hx])
    cases r with
    | nil =>
      rw [enumP, List.reverse_singleton]
      constructor
      · intro h
        split at h
        · rename_i h'
          subst h'
          rw [List.mem_singleton] at h
          rw [h]
          exact Coupled.first _
        · simp at h
      · intro h
        have := (coupled_iff _ _ _).mp h
        obtain ⟨-, c1, c2, -, c3⟩ := this
        have hv : v = [s] := by
          match v, c1 with
          | [x], _ => simpa [el] using c2
        subst hv
        simp at c3
        simp [c3]
    | cons s' r =>
      rw [List.reverse_cons, coupled_snoc _ (by simp), enumP]
      simp only [List.mem_flatMap, List.mem_range, List.mem_map]
      constructor
      · rintro ⟨k, hk, v', hv', rfl⟩
        have hn : 0 ≤ |S - s| + 2 * (k : Int) := by have := abs_nonneg (S - s); omega
        refine ⟨v', |S - s| + 2 * (k : Int), rfl, (ih (by simp) hr' _ hn _).mp hv', ?_⟩
        unfold Triangle
        rw [abs_le]
        rcases abs_cases (S - s) with ⟨h, h'⟩ | ⟨h, h'⟩ <;> rw [h] <;> omega
      · rintro ⟨v', S', rfl, hc, t1, t2, t3⟩
        obtain ⟨c1, -, -, -⟩ := coupled_range hc (fun x hx => hr' x (List.mem_reverse.mp hx))
        rw [abs_le] at t1
        have hk : |S - s| + 2 * (((S' - |S - s|) / 2).toNat : Int) = S' := by
          rcases abs_cases (S - s) with ⟨h, h'⟩ | ⟨h, h'⟩ <;> omega
        refine ⟨((S' - |S - s|) / 2).toNat, ?_, v', by rw [hk]; exact (ih (by simp) hr' _ c1 _).mpr hc, by rw [hk]⟩
        rcases abs_cases (S - s) with ⟨h, h'⟩ | ⟨h, h'⟩ <;> omega

theorem length_eq_of_same {α : Type} {a b : List α} (ha : a.Nodup) (hb : b.Nodup) (h : ∀ x, x ∈ a ↔ x ∈ b) :
    a.length = b.length := ((List.perm_ext_iff_of_nodup ha hb).mpr h).length_eq

end Verif.Spaces
