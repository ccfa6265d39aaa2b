import Verif.Model.ExcTables
import Verif.Lemmas.SCSpin
import Mathlib.Data.List.Perm.Basic
import Mathlib.Tactic.Ring
import Mathlib.Tactic.Linarith
import Mathlib.Tactic.Zify
namespace Verif.Exc
open Verif.Spec Verif.SC

/-! ### argsort -/

/-- strict order by (key, index) -/
def SLt (key : Nat → Int) (x y : Nat) : Prop := key x < key y ∨ (key x = key y ∧ x < y)

theorem argsort_spec (key : Nat → Int) (n : Nat) :
    let L := (List.range n).mergeSort (fun i j => decide (key i ≤ key j))
    L.Perm (List.range n) ∧ L.Pairwise (SLt key) := by
  intro L
  have hperm : L.Perm (List.range n) := List.mergeSort_perm _ _
  refine ⟨hperm, ?_⟩
  have tr : ∀ a b c : Nat, decide (key a ≤ key b) = true → decide (key b ≤ key c) = true →
      decide (key a ≤ key c) = true := by
    intro a b c; simp only [decide_eq_true_eq]; omega
  have tot : ∀ a b : Nat, (decide (key a ≤ key b) || decide (key b ≤ key a)) = true := by
    intro a b; simp only [Bool.or_eq_true, decide_eq_true_eq]; omega
  have hs := List.pairwise_mergeSort (le := fun i j => decide (key i ≤ key j)) tr tot (List.range n)
  have hnd : L.Nodup := hperm.nodup_iff.mpr List.nodup_range
  rw [List.pairwise_iff_forall_sublist] at hs ⊢
  intro a b hab
  have h1 : key a ≤ key b := by simpa using hs hab
  rcases Int.lt_or_eq_of_le h1 with h | h
  · exact Or.inl h
  · refine Or.inr ⟨h, ?_⟩
    have hne : a ≠ b := by
      intro e; subst e
      have := hnd.sublist hab
      simp at this
    by_contra hge
    have hlt : b < a := by omega
    have ma : a ∈ List.range n := hperm.mem_iff.mp (hab.subset (by simp))
    have hr : [b, a].Sublist (List.range n) := by
      have e : List.range n = List.range a ++ List.range' a (n - a) := by
        have hn := List.mem_range.mp ma
        have := (List.range'_append_1 (s := 0) (m := a) (n := n - a)).symm
        rw [show a + (n - a) = n by omega, Nat.zero_add] at this
        rw [List.range_eq_range', List.range_eq_range', this]
      rw [e]
      have hn := List.mem_range.mp ma
      exact List.Sublist.append (l₁ := [b]) (r₁ := [a])
        (List.singleton_sublist.mpr (List.mem_range.mpr hlt))
        (List.singleton_sublist.mpr (by simp; omega))
    have h2 := List.pair_sublist_mergeSort (le := fun i j => decide (key i ≤ key j)) tr tot
      (by simp; omega) hr
    -- both [a,b] and [b,a] are sublists of a nodup list
    rw [List.nodup_iff_pairwise_ne] at hnd
    have hidx : ∀ x y, [x, y].Sublist L → L.idxOf x < L.idxOf y := by
      intro x y hxy
      have hnd' : L.Nodup := hperm.nodup_iff.mpr List.nodup_range
      clear hs h1 h hne hge hlt ma hr h2 hab hnd
      clear hperm tr tot
      generalize L = M at hxy hnd'
      induction M with
      | nil => simp at hxy
      | cons z M ih =>
        rw [List.nodup_cons] at hnd'
        rcases List.sublist_cons_iff.mp hxy with h | ⟨r, hr, h⟩
        · have hx : x ∈ M := h.subset (by simp)
          have hy : y ∈ M := h.subset (by simp)
          rw [List.idxOf_cons_ne _ (by rintro rfl; exact hnd'.1 hx),
            List.idxOf_cons_ne _ (by rintro rfl; exact hnd'.1 hy)]
          have := ih h hnd'.2
          omega
        · simp only [List.cons.injEq] at hr
          obtain ⟨rfl, rfl⟩ := hr
          have hy : y ∈ M := h.subset (by simp)
          rw [List.idxOf_cons_self, List.idxOf_cons_ne _ (by rintro rfl; exact hnd'.1 hy)]
          omega
    have := hidx _ _ hab
    have := hidx _ _ h2
    omega

theorem slt_trans {key : Nat → Int} {x y z : Nat} (h1 : SLt key x y) (h2 : SLt key y z) : SLt key x z := by
  unfold SLt at *; omega

theorem slt_asymm {key : Nat → Int} {x y : Nat} (h1 : SLt key x y) (h2 : SLt key y x) : False := by
  unfold SLt at *; omega

theorem first_of (key : Nat → Int) (L : List Nat) (hs : L.Pairwise (SLt key)) (q : Nat) (hq : q ∈ L)
    (h : ∀ f ∈ L, f ≠ q → SLt key q f) : L.getD 0 0 = q := by
  match L with
  | [] => simp at hq
  | x :: L =>
    by_cases e : x = q
    · simp [e]
    · exfalso
      have h1 := h x (by simp) e
      have h2 := (List.pairwise_cons.mp hs).1 q (by simpa [Ne.symm e] using hq)
      exact slt_asymm h1 h2

theorem first2_of (key : Nat → Int) (L : List Nat) (hs : L.Pairwise (SLt key)) (q t : Nat)
    (hq : q ∈ L) (ht : t ∈ L) (hqt : SLt key q t)
    (h : ∀ f ∈ L, f ≠ q → f ≠ t → SLt key t f) : L.getD 0 0 = q ∧ L.getD 1 0 = t := by
  have hne : t ≠ q := by rintro rfl; exact slt_asymm hqt hqt
  have h0 : L.getD 0 0 = q := first_of key L hs q hq (by
    intro f hf hfq
    by_cases e : f = t
    · subst e; exact hqt
    · exact slt_trans hqt (h f hf hfq e))
  refine ⟨h0, ?_⟩
  match L with
  | [] => simp at hq
  | x :: L =>
    simp at h0
    subst h0
    have := first_of key L (List.pairwise_cons.mp hs).2 t (by simpa [hne] using ht)
      (by intro f hf hft
          have hx := (List.pairwise_cons.mp hs).1 f hf
          exact h f (by simp [hf]) (by rintro rfl; exact slt_asymm hx hx) hft)
    simpa using this

theorem rev_slt (key : Nat → Int) (L : List Nat) (hs : L.Pairwise (SLt key)) :
    L.reverse.Pairwise (fun x y => SLt key y x) := by
  rwa [List.pairwise_reverse]

theorem last_of (key : Nat → Int) (L : List Nat) (hs : L.Pairwise (SLt key)) (q : Nat) (hq : q ∈ L)
    (h : ∀ f ∈ L, f ≠ q → SLt key f q) : L.getD (L.length - 1) 0 = q := by
  have hr := rev_slt key L hs
  have e : L.getD (L.length - 1) 0 = L.reverse.getD 0 0 := by
    have : 0 < L.length := List.length_pos_of_mem hq
    simp [List.getD_eq_getElem?_getD, this, List.getElem?_eq_getElem (show L.length - 1 < L.length by omega),
      List.getElem?_eq_getElem (show 0 < L.reverse.length by simpa)]
  rw [e]
  have hq' : q ∈ L.reverse := by simpa
  have h' : ∀ f ∈ L.reverse, f ≠ q → SLt key f q := fun f hf => h f (by simpa using hf)
  generalize L.reverse = M at *
  match M with
  | [] => simp at hq'
  | x :: M =>
    by_cases e : x = q
    · simp [e]
    · exfalso
      exact slt_asymm (h' x (by simp) e) ((List.pairwise_cons.mp hr).1 q (by simpa [Ne.symm e] using hq'))

theorem last2_of (key : Nat → Int) (L : List Nat) (hs : L.Pairwise (SLt key)) (p r : Nat)
    (hp : p ∈ L) (hr : r ∈ L) (hpr : SLt key r p)
    (h : ∀ f ∈ L, f ≠ p → f ≠ r → SLt key f r) :
    L.getD (L.length - 1) 0 = p ∧ L.getD (L.length - 1 - 1) 0 = r := by
  have hne : r ≠ p := by rintro rfl; exact slt_asymm hpr hpr
  have h0 : L.getD (L.length - 1) 0 = p := last_of key L hs p hp (by
    intro f hf hfq
    by_cases e : f = r
    · subst e; exact hpr
    · exact slt_trans (h f hf hfq e) hpr)
  refine ⟨h0, ?_⟩
  rcases List.eq_nil_or_concat L with rfl | ⟨M, x, rfl⟩
  · simp at hp
  · rw [List.concat_eq_append] at *
    simp at h0
    subst h0
    have hM := (List.pairwise_append.mp hs)
    have := last_of key M hM.1 r (by simpa [hne] using hr)
      (by intro f hf hft
          have hx := hM.2.2 f hf x (by simp)
          exact h f (by simp [hf]) (by rintro rfl; exact slt_asymm hx hx) hft)
    have hl : 0 < M.length := List.length_pos_of_mem (a := r) (by simpa [hne] using hr)
    rw [← this, List.getD_eq_getElem?_getD, List.getD_eq_getElem?_getD, List.length_append]
    simp only [List.length_singleton, Nat.add_sub_cancel]
    rw [List.getElem?_append_left (by omega)]

/-! ### from lists to functions -/

theorem sum_map_range {M : Type} [AddCommMonoid M] (h : List (Int × Int)) (g : Int × Int → M) :
    (h.map g).sum = ∑ f ∈ Finset.range h.length, g (h.getD f (0, 0)) := by
  rw [← map_range_sum]
  congr 1
  apply List.ext_getElem
  · simp
  · intro i h1 h2
    simp at h2
    simp [h2]

theorem map_eq_range {β : Type} (h : List (Int × Int)) (g : Int × Int → β) :
    h.map g = (List.range h.length).map (fun f => g (h.getD f (0, 0))) := by
  apply List.ext_getElem
  · simp
  · intro i h1 h2
    simp at h2
    simp [h2]

theorem nonzero_map (h : List (Int × Int)) (g : Int × Int → Int) :
    nonzero (h.map g) = ((Finset.range h.length).filter (fun f => g (h.getD f (0, 0)) ≠ 0)).card := by
  unfold nonzero
  rw [map_eq_range, List.filter_map, List.length_map, Finset.card_def]
  rfl

theorem nonzero_le {h : List (Int × Int)} {g : Int × Int → Int} (s : Finset Nat)
    (hs : ∀ f, f < h.length → (g (h.getD f (0, 0)) ≠ 0 ↔ f ∈ s)) (hr : ∀ f ∈ s, f < h.length) :
    nonzero (h.map g) = s.card := by
  rw [nonzero_map]
  congr 1
  ext f
  simp only [Finset.mem_filter, Finset.mem_range]
  constructor
  · rintro ⟨a, b⟩; exact (hs f a).mp b
  · intro a; exact ⟨hr f a, (hs f (hr f a)).mpr a⟩

theorem aminIs_iff (h : List (Int × Int)) (g : Int × Int → Int) (m : Int) :
    aminIs (h.map g) m = true ↔ (∃ f, f < h.length ∧ g (h.getD f (0,0)) = m) ∧
      ∀ f, f < h.length → m ≤ g (h.getD f (0,0)) := by
  unfold aminIs
  rw [beq_iff_eq, List.min?_eq_some_iff, map_eq_range]
  simp

theorem amaxIs_iff (h : List (Int × Int)) (g : Int × Int → Int) (m : Int) :
    amaxIs (h.map g) m = true ↔ (∃ f, f < h.length ∧ g (h.getD f (0,0)) = m) ∧
      ∀ f, f < h.length → g (h.getD f (0,0)) ≤ m := by
  unfold amaxIs
  rw [beq_iff_eq, List.max?_eq_some_iff, map_eq_range]
  simp

/-! ### decomposing occupation changes -/

/-- unit vector -/
def e1 (p f : Nat) : Int := if p = f then 1 else 0

theorem pos_exists (n : Nat) (v : Nat → Int) (h : ∑ f ∈ Finset.range n, v f = 0)
    (hne : 0 < ∑ f ∈ Finset.range n, (v f).natAbs) :
    (∃ p, p < n ∧ 0 < v p) ∧ (∃ q, q < n ∧ v q < 0) := by
  constructor
  · by_contra hc
    push Not at hc
    have h1 : ∀ f ∈ Finset.range n, v f ≤ 0 := fun f hf => hc f (Finset.mem_range.mp hf)
    have h2 := (Finset.sum_eq_zero_iff_of_nonpos h1).mp h
    have : ∑ f ∈ Finset.range n, (v f).natAbs = 0 := Finset.sum_eq_zero (fun f hf => by rw [h2 f hf]; rfl)
    omega
  · by_contra hc
    push Not at hc
    have h1 : ∀ f ∈ Finset.range n, 0 ≤ v f := fun f hf => hc f (Finset.mem_range.mp hf)
    have h2 := (Finset.sum_eq_zero_iff_of_nonneg h1).mp h
    have : ∑ f ∈ Finset.range n, (v f).natAbs = 0 := Finset.sum_eq_zero (fun f hf => by rw [h2 f hf]; rfl)
    omega

theorem sum_e1 (n p : Nat) (hp : p < n) : ∑ f ∈ Finset.range n, e1 p f = 1 := by
  unfold e1
  rw [Finset.sum_ite_eq (Finset.range n) p]
  simp [hp]

theorem peel (n : Nat) (v : Nat → Int) (h : ∑ f ∈ Finset.range n, v f = 0)
    (hne : 0 < ∑ f ∈ Finset.range n, (v f).natAbs) :
    ∃ (p q : Nat) (w : Nat → Int), p < n ∧ q < n ∧ p ≠ q ∧ 0 < v p ∧ v q < 0 ∧ (∀ f, v f = w f + e1 p f - e1 q f) ∧
      ∑ f ∈ Finset.range n, w f = 0 ∧
      ∑ f ∈ Finset.range n, (w f).natAbs + 2 = ∑ f ∈ Finset.range n, (v f).natAbs := by
  obtain ⟨⟨p, hp, vp⟩, ⟨q, hq, vq⟩⟩ := pos_exists n v h hne
  have hpq : p ≠ q := by rintro rfl; omega
  refine ⟨p, q, fun f => v f - e1 p f + e1 q f, hp, hq, hpq, vp, vq, by intro f; ring, ?_, ?_⟩
  · rw [Finset.sum_add_distrib, Finset.sum_sub_distrib, h, sum_e1 n p hp, sum_e1 n q hq]; rfl
  · have : ∀ f ∈ Finset.range n, ((v f).natAbs : Int) = ((v f - e1 p f + e1 q f).natAbs : Int) + e1 p f + e1 q f := by
      intro f _
      unfold e1
      by_cases h1 : p = f
      · subst h1; simp only [if_true, if_neg hpq.symm]; omega
      · by_cases h2 : q = f
        · subst h2; simp only [if_true, if_neg h1]; omega
        · simp [h1, h2]
    have h2 := Finset.sum_congr rfl this
    rw [Finset.sum_add_distrib, Finset.sum_add_distrib, sum_e1 n p hp, sum_e1 n q hq] at h2
    zify
    push_cast at h2
    linarith

theorem zero_of (n : Nat) (v : Nat → Int) (h : ∑ f ∈ Finset.range n, (v f).natAbs = 0) :
    ∀ f, f < n → v f = 0 := by
  intro f hf
  have := Finset.sum_eq_zero_iff.mp h f (Finset.mem_range.mpr hf)
  omega

theorem sum_even (n : Nat) (v : Nat → Int) (h : ∑ f ∈ Finset.range n, v f = 0) :
    (∑ f ∈ Finset.range n, (v f).natAbs) % 2 = 0 := by
  have : ∀ m, (∑ f ∈ Finset.range m, ((v f).natAbs : Int)) % 2 = (∑ f ∈ Finset.range m, v f) % 2 := by
    intro m
    induction m with
    | zero => simp
    | succ m ih => rw [Finset.sum_range_succ, Finset.sum_range_succ]; omega
  have := this n
  rw [h] at this
  have h3 : ((∑ f ∈ Finset.range n, (v f).natAbs : Nat) : Int) % 2 = 0 := by
    rw [Nat.cast_sum]; exact this
  omega

/-- two-unit decomposition -/
theorem decomp2 (n : Nat) (v : Nat → Int) (h : ∑ f ∈ Finset.range n, v f = 0)
    (h2 : ∑ f ∈ Finset.range n, (v f).natAbs = 2) :
    ∃ p q, p < n ∧ q < n ∧ p ≠ q ∧ ∀ f, f < n → v f = e1 p f - e1 q f := by
  obtain ⟨p, q, w, hp, hq, hpq, _, _, hv, _, hw⟩ := peel n v h (by omega)
  have hz := zero_of n w (by omega)
  exact ⟨p, q, hp, hq, hpq, fun f hf => by rw [hv, hz f hf]; ring⟩

theorem decomp4 (n : Nat) (v : Nat → Int) (h : ∑ f ∈ Finset.range n, v f = 0)
    (h2 : ∑ f ∈ Finset.range n, (v f).natAbs = 4) :
    ∃ p q r t, p < n ∧ q < n ∧ r < n ∧ t < n ∧ p ≠ q ∧ p ≠ t ∧ r ≠ q ∧ r ≠ t ∧ r ≤ p ∧ q ≤ t ∧
      ∀ f, f < n → v f = e1 p f - e1 q f + e1 r f - e1 t f := by
  obtain ⟨p, q, w, hp, hq, hpq, vp, vq, hv, hw0, hw⟩ := peel n v h (by omega)
  obtain ⟨r, t, hr, ht, hrt, hwv⟩ := decomp2 n w hw0 (by omega)
  have hpt : p ≠ t := by
    rintro rfl
    have := hv p
    rw [hwv p hp] at this
    have e1' : e1 r p = 0 := by simp [e1, hrt]
    have e2 : e1 p p = 1 := by simp [e1]
    have e3 : e1 q p = 0 := by simp [e1, hpq.symm]
    omega
  have hrq : r ≠ q := by
    rintro rfl
    have := hv r
    rw [hwv r hr] at this
    have e1' : e1 t r = 0 := by simp [e1, hrt.symm]
    have e2 : e1 r r = 1 := by simp [e1]
    have e3 : e1 p r = 0 := by simp [e1, hpq]
    omega
  have key : ∀ f, f < n → v f = e1 p f - e1 q f + e1 r f - e1 t f := by
    intro f hf; rw [hv, hwv f hf]; ring
  rcases Nat.le_total r p with h1 | h1 <;> rcases Nat.le_total q t with h2 | h2
  · exact ⟨p, q, r, t, hp, hq, hr, ht, hpq, hpt, hrq, hrt, h1, h2, key⟩
  · exact ⟨p, t, r, q, hp, ht, hr, hq, hpt, hpq, hrt, hrq, h1, h2, fun f hf => by rw [key f hf]; ring⟩
  · exact ⟨r, q, p, t, hr, hq, hp, ht, hrq, hrt, hpq, hpt, h1, h2, fun f hf => by rw [key f hf]; ring⟩
  · exact ⟨r, t, p, q, hr, ht, hp, hq, hrt, hrq, hpt, hpq, h1, h2, fun f hf => by rw [key f hf]; ring⟩

/-! ### positions in `findf` -/

theorem mem_findf (h : List (Int × Int)) (f : Nat) : f ∈ findf h ↔ f < h.length := by
  have := (argsort_spec (key h) h.length).1.mem_iff (a := f)
  rw [List.mem_range] at this
  exact this

theorem findf_sorted (h : List (Int × Int)) : (findf h).Pairwise (SLt (key h)) :=
  (argsort_spec (key h) h.length).2

theorem findf_length (h : List (Int × Int)) : (findf h).length = h.length := by
  unfold findf; simp

theorem fst_of (h : List (Int × Int)) (q : Nat) (hq : q < h.length)
    (hh : ∀ f, f < h.length → f ≠ q → SLt (key h) q f) : fst h 0 = q :=
  first_of (key h) (findf h) (findf_sorted h) q ((mem_findf h q).mpr hq)
    (fun f hf => hh f ((mem_findf h f).mp hf))

theorem lst_of (h : List (Int × Int)) (q : Nat) (hq : q < h.length)
    (hh : ∀ f, f < h.length → f ≠ q → SLt (key h) f q) : lst h 0 = q := by
  have := last_of (key h) (findf h) (findf_sorted h) q ((mem_findf h q).mpr hq)
    (fun f hf => hh f ((mem_findf h f).mp hf))
  rw [findf_length] at this
  exact this

theorem fst2_of (h : List (Int × Int)) (q t : Nat) (hq : q < h.length) (ht : t < h.length)
    (hqt : SLt (key h) q t)
    (hh : ∀ f, f < h.length → f ≠ q → f ≠ t → SLt (key h) t f) : fst h 0 = q ∧ fst h 1 = t :=
  first2_of (key h) (findf h) (findf_sorted h) q t ((mem_findf h q).mpr hq) ((mem_findf h t).mpr ht) hqt
    (fun f hf => hh f ((mem_findf h f).mp hf))

theorem lst2_of (h : List (Int × Int)) (p r : Nat) (hp : p < h.length) (hr : r < h.length)
    (hpr : SLt (key h) r p)
    (hh : ∀ f, f < h.length → f ≠ p → f ≠ r → SLt (key h) f r) : lst h 0 = p ∧ lst h 1 = r := by
  have := last2_of (key h) (findf h) (findf_sorted h) p r ((mem_findf h p).mpr hp)
    ((mem_findf h r).mpr hr) hpr (fun f hf => hh f ((mem_findf h f).mp hf))
  rw [findf_length] at this
  exact this

/-! ### classification -/

/-- all rows of one interaction, over all primary tables -/
def rowAll (h : List (Int × Int)) : List Inter :=
  rowNull h ++ (row1c h ++ (row1s h ++ ((row1s1c h ++ row1s1cT h) ++
    (rowPair h ++ (rowSplit h ++ rowCoalesce h) ++ rowScatter h))))

section
variable (h : List (Int × Int))

set_option maxHeartbeats 1000000 in
/-- two electrons of the same spin -/
theorem classify_same (v : Nat → Int) (σ c : Int) (hσ : σ = 1 ∨ σ = -1) (hc : c = 1 ∨ c = 3)
    (hch : ∀ f, f < h.length → (h.getD f (0,0)).1 + (h.getD f (0,0)).2 = v f)
    (hsp : ∀ f, f < h.length → (h.getD f (0,0)).1 - (h.getD f (0,0)).2 = σ * v f)
    (hkey : ∀ f, f < h.length → key h f = c * v f) (hnop : nop h = 4)
    (p q r t : Nat) (hp : p < h.length) (hq : q < h.length) (hr : r < h.length) (ht : t < h.length)
    (hpq : p ≠ q) (hpt : p ≠ t) (hrq : r ≠ q) (hrt : r ≠ t) (hrp : r ≤ p) (hqt : q ≤ t)
    (hv : ∀ f, f < h.length → v f = e1 p f - e1 q f + e1 r f - e1 t f) :
    rowAll h = [.c2 p q r t (ispin h)] := by
  have hss : nonzero (spin h) = nonzero (charge h) := by
    unfold spin charge
    rw [nonzero_map, nonzero_map]
    congr 1
    apply Finset.filter_congr
    intro f hf
    have hf := Finset.mem_range.mp hf
    rw [hch f hf, hsp f hf]
    rcases hσ with rfl | rfl <;> simp
  have hkv : ∀ f g, f < h.length → g < h.length → (v f < v g ∨ (v f = v g ∧ f < g)) → SLt (key h) f g := by
    intro f g hf hg hh
    unfold SLt
    rw [hkey f hf, hkey g hg]
    rcases hc with rfl | rfl <;> omega
  have hvp := hv p hp
  have hvq := hv q hq
  have hvr := hv r hr
  have hvt := hv t ht
  by_cases h1 : r = p
  · subst h1
    by_cases h2 : q = t
    · subst h2
      have hn : nonzero (charge h) = 2 := by
        unfold charge
        rw [nonzero_le {r, q}]
        · rw [Finset.card_pair hpq]
        · intro f hf; rw [hch f hf, hv f hf]; unfold e1
          simp only [Finset.mem_insert, Finset.mem_singleton]
          split_ifs <;> omega
        · intro f; simp only [Finset.mem_insert, Finset.mem_singleton]; omega
      have hf0 : fst h 0 = q := fst_of h q hq (by
        intro f hf hfq
        apply hkv q f hq hf
        rw [hvq, hv f hf]; unfold e1; split_ifs <;> omega)
      have hl0 : lst h 0 = r := lst_of h r hr (by
        intro f hf hfq
        apply hkv f r hf hr
        rw [hvr, hv f hf]; unfold e1; split_ifs <;> omega)
      have hlen : 1 < h.length := by omega
      simp [rowAll, rowNull, row1c, row1s, row1s1c, row1s1cT, rowPair, rowSplit, rowCoalesce, rowScatter,
        hnop, hss, hn, hf0, hl0, hlen]
    · have hn : nonzero (charge h) = 3 := by
        unfold charge
        rw [nonzero_le {r, q, t}]
        · rw [Finset.card_eq_three]; exact ⟨r, q, t, hpq, hpt, h2, rfl⟩
        · intro f hf; rw [hch f hf, hv f hf]; unfold e1
          simp only [Finset.mem_insert, Finset.mem_singleton]
          split_ifs <;> omega
        · intro f; simp only [Finset.mem_insert, Finset.mem_singleton]; omega
      have hmin : aminIs (charge h) (-2) = false := by
        rw [Bool.eq_false_iff, ne_eq, charge, aminIs_iff]
        rintro ⟨⟨f, hf, he⟩, _⟩
        rw [hch f hf, hv f hf] at he; unfold e1 at he; split_ifs at he <;> omega
      have hmax : amaxIs (charge h) 2 = true := by
        rw [charge, amaxIs_iff]
        refine ⟨⟨r, hr, ?_⟩, fun f hf => ?_⟩
        · rw [hch r hr, hvr]; unfold e1; split_ifs <;> omega
        · rw [hch f hf, hv f hf]; unfold e1; split_ifs <;> omega
      obtain ⟨hf0, hf1⟩ := fst2_of h q t hq ht (by
        apply hkv q t hq ht
        rw [hvq, hvt]; unfold e1; split_ifs <;> omega) (by
        intro f hf hfq hft
        apply hkv t f ht hf
        rw [hvt, hv f hf]; unfold e1; split_ifs <;> omega)
      have hl0 : lst h 0 = r := lst_of h r hr (by
        intro f hf hfq
        apply hkv f r hf hr
        rw [hvr, hv f hf]; unfold e1; split_ifs <;> omega)
      have hlen : 2 < h.length := by omega
      simp [rowAll, rowNull, row1c, row1s, row1s1c, row1s1cT, rowPair, rowSplit, rowCoalesce, rowScatter,
        hnop, hss, hn, hf0, hf1, hl0, hlen, hmin, hmax]
  · by_cases h2 : q = t
    · subst h2
      have hn : nonzero (charge h) = 3 := by
        unfold charge
        rw [nonzero_le {p, r, q}]
        · rw [Finset.card_eq_three]; exact ⟨p, r, q, Ne.symm h1, hpq, hrq, rfl⟩
        · intro f hf; rw [hch f hf, hv f hf]; unfold e1
          simp only [Finset.mem_insert, Finset.mem_singleton]
          split_ifs <;> omega
        · intro f; simp only [Finset.mem_insert, Finset.mem_singleton]; omega
      have hmax : amaxIs (charge h) 2 = false := by
        rw [Bool.eq_false_iff, ne_eq, charge, amaxIs_iff]
        rintro ⟨⟨f, hf, he⟩, _⟩
        rw [hch f hf, hv f hf] at he; unfold e1 at he; split_ifs at he <;> omega
      have hmin : aminIs (charge h) (-2) = true := by
        rw [charge, aminIs_iff]
        refine ⟨⟨q, hq, ?_⟩, fun f hf => ?_⟩
        · rw [hch q hq, hvq]; unfold e1; split_ifs <;> omega
        · rw [hch f hf, hv f hf]; unfold e1; split_ifs <;> omega
      obtain ⟨hl0, hl1⟩ := lst2_of h p r hp hr (by
        apply hkv r p hr hp
        rw [hvr, hvp]; unfold e1; split_ifs <;> omega) (by
        intro f hf hfq hft
        apply hkv f r hf hr
        rw [hvr, hv f hf]; unfold e1; split_ifs <;> omega)
      have hf0 : fst h 0 = q := fst_of h q hq (by
        intro f hf hfq
        apply hkv q f hq hf
        rw [hvq, hv f hf]; unfold e1; split_ifs <;> omega)
      have hlen : 2 < h.length := by omega
      simp [rowAll, rowNull, row1c, row1s, row1s1c, row1s1cT, rowPair, rowSplit, rowCoalesce, rowScatter,
        hnop, hss, hn, hf0, hl1, hl0, hlen, hmin, hmax]
    · have hn : nonzero (charge h) = 4 := by
        unfold charge
        rw [nonzero_le {p, r, q, t}]
        · rw [Finset.card_insert_of_notMem, Finset.card_eq_three.mpr ⟨r, q, t, hrq, hrt, h2, rfl⟩]
          simp only [Finset.mem_insert, Finset.mem_singleton]; omega
        · intro f hf; rw [hch f hf, hv f hf]; unfold e1
          simp only [Finset.mem_insert, Finset.mem_singleton]
          split_ifs <;> omega
        · intro f; simp only [Finset.mem_insert, Finset.mem_singleton]; omega
      obtain ⟨hl0, hl1⟩ := lst2_of h p r hp hr (by
        apply hkv r p hr hp
        rw [hvr, hvp]; unfold e1; split_ifs <;> omega) (by
        intro f hf hfq hft
        apply hkv f r hf hr
        rw [hvr, hv f hf]; unfold e1; split_ifs <;> omega)
      obtain ⟨hf0, hf1⟩ := fst2_of h q t hq ht (by
        apply hkv q t hq ht
        rw [hvq, hvt]; unfold e1; split_ifs <;> omega) (by
        intro f hf hfq hft
        apply hkv t f ht hf
        rw [hvt, hv f hf]; unfold e1; split_ifs <;> omega)
      have hlen : 3 < h.length := by omega
      simp [rowAll, rowNull, row1c, row1s, row1s1c, row1s1cT, rowPair, rowSplit, rowCoalesce, rowScatter,
        hnop, hss, hn, hf0, hf1, hl1, hl0, hlen]

end


set_option maxHeartbeats 1000000 in
/-- one electron of each spin -/
theorem classify_ab (h : List (Int × Int)) (p q r t : Nat)
    (hp : p < h.length) (hq : q < h.length) (hr : r < h.length) (ht : t < h.length)
    (hpq : p ≠ q) (hrt : r ≠ t) (hnop : nop h = 4) (his : ispin h = 1)
    (ha : ∀ f, f < h.length → (h.getD f (0,0)).1 = e1 p f - e1 q f)
    (hb : ∀ f, f < h.length → (h.getD f (0,0)).2 = e1 r f - e1 t f) :
    ∃ x : Inter, rowAll h = [x] ∧ x.Normal ∧
      ∀ f, change x.moves true f = e1 p f - e1 q f ∧ change x.moves false f = e1 r f - e1 t f := by
  have hk : ∀ f, f < h.length → key h f = 3 * (e1 p f - e1 q f) + (e1 r f - e1 t f) := by
    intro f hf; unfold key; rw [ha f hf, hb f hf]
  by_cases h1 : p = r
  · subst h1
    by_cases h2 : q = t
    · subst h2
      have hn : nonzero (charge h) = 2 := by
        unfold charge
        rw [nonzero_le {p, q}]
        · rw [Finset.card_pair (by omega)]
        · intro f hf; rw [ha f hf, hb f hf]; unfold e1
          simp only [Finset.mem_insert, Finset.mem_singleton]
          split_ifs <;> omega
        · intro f; simp only [Finset.mem_insert, Finset.mem_singleton]; omega
      have hs : nonzero (spin h) = 0 := by
        unfold spin
        rw [nonzero_le ∅]
        · rfl
        · intro f hf; rw [ha f hf, hb f hf]; unfold e1
          simp only [Finset.notMem_empty, iff_false, ne_eq, not_not]
          split_ifs <;> omega
        · intro f hf; simp at hf
      have hf0 : fst h 0 = q := fst_of h q (by assumption) (by
        intro f hf hne; left
        rw [hk f hf, hk q (by assumption)]; unfold e1; split_ifs <;> omega)
      have hl0 : lst h 0 = p := lst_of h p (by assumption) (by
        intro f hf hne; left
        rw [hk f hf, hk p (by assumption)]; unfold e1; split_ifs <;> omega)
      have hlen : 1 < h.length := by omega
      refine ⟨.c2 p q p q 1, ?_, ?_, ?_⟩
      · simp [rowAll, rowNull, row1c, row1s, row1s1c, row1s1cT, rowPair, rowSplit, rowCoalesce, rowScatter,
          hnop, his, hn, hs, hlen, hf0, hl0]
      · simp only [Inter.Normal]; omega
      · intro f
        simp only [Inter.moves, change, e1]
        constructor <;> simp <;> split_ifs <;> omega
    ·
      have hn : nonzero (charge h) = 3 := by
        unfold charge
        rw [nonzero_le {p, q, t}]
        · rw [Finset.card_eq_three]; exact ⟨p, q, t, by omega, by omega, by omega, rfl⟩
        · intro f hf; rw [ha f hf, hb f hf]; unfold e1
          simp only [Finset.mem_insert, Finset.mem_singleton]
          split_ifs <;> omega
        · intro f; simp only [Finset.mem_insert, Finset.mem_singleton]; omega
      have hs : nonzero (spin h) = 2 := by
        unfold spin
        rw [nonzero_le {q, t}]
        · rw [Finset.card_pair (by omega)]
        · intro f hf; rw [ha f hf, hb f hf]; unfold e1
          simp only [Finset.mem_insert, Finset.mem_singleton]
          split_ifs <;> omega
        · intro f; simp only [Finset.mem_insert, Finset.mem_singleton]; omega
      have hmax : amaxIs (charge h) (2) = true := by
        rw [charge, amaxIs_iff]
        refine ⟨⟨p, by assumption, ?_⟩, fun f hf => ?_⟩
        · rw [ha p (by assumption), hb p (by assumption)]; unfold e1; split_ifs <;> omega
        · rw [ha f hf, hb f hf]; unfold e1; split_ifs <;> omega
      have hmin : aminIs (charge h) (-2) = false := by
        rw [Bool.eq_false_iff, ne_eq, charge, aminIs_iff]
        rintro ⟨⟨f, hf, he⟩, _⟩
        rw [ha f hf, hb f hf] at he; unfold e1 at he; split_ifs at he <;> omega
      obtain ⟨hf0, hf1⟩ := fst2_of h q t (by assumption) (by assumption) (by
        left; rw [hk q (by assumption), hk t (by assumption)]; unfold e1; split_ifs <;> omega) (by
        intro f hf hne hne'; left
        rw [hk f hf, hk t (by assumption)]; unfold e1; split_ifs <;> omega)
      have hl0 : lst h 0 = p := lst_of h p (by assumption) (by
        intro f hf hne; left
        rw [hk f hf, hk p (by assumption)]; unfold e1; split_ifs <;> omega)
      have hlen : 2 < h.length := by omega
      refine ⟨.c2 p q p t 1, ?_, ?_, ?_⟩
      · simp [rowAll, rowNull, row1c, row1s, row1s1c, row1s1cT, rowPair, rowSplit, rowCoalesce, rowScatter,
          hnop, his, hn, hs, hlen, hmax, hmin, hf0, hf1, hl0]
      · simp only [Inter.Normal]; omega
      · intro f
        simp only [Inter.moves, change, e1]
        constructor <;> simp <;> split_ifs <;> omega
  · by_cases h2 : q = t
    · subst h2
      have hn : nonzero (charge h) = 3 := by
        unfold charge
        rw [nonzero_le {p, r, q}]
        · rw [Finset.card_eq_three]; exact ⟨p, r, q, by omega, by omega, by omega, rfl⟩
        · intro f hf; rw [ha f hf, hb f hf]; unfold e1
          simp only [Finset.mem_insert, Finset.mem_singleton]
          split_ifs <;> omega
        · intro f; simp only [Finset.mem_insert, Finset.mem_singleton]; omega
      have hs : nonzero (spin h) = 2 := by
        unfold spin
        rw [nonzero_le {p, r}]
        · rw [Finset.card_pair (by omega)]
        · intro f hf; rw [ha f hf, hb f hf]; unfold e1
          simp only [Finset.mem_insert, Finset.mem_singleton]
          split_ifs <;> omega
        · intro f; simp only [Finset.mem_insert, Finset.mem_singleton]; omega
      have hmax : amaxIs (charge h) (2) = false := by
        rw [Bool.eq_false_iff, ne_eq, charge, amaxIs_iff]
        rintro ⟨⟨f, hf, he⟩, _⟩
        rw [ha f hf, hb f hf] at he; unfold e1 at he; split_ifs at he <;> omega
      have hmin : aminIs (charge h) (-2) = true := by
        rw [charge, aminIs_iff]
        refine ⟨⟨q, by assumption, ?_⟩, fun f hf => ?_⟩
        · rw [ha q (by assumption), hb q (by assumption)]; unfold e1; split_ifs <;> omega
        · rw [ha f hf, hb f hf]; unfold e1; split_ifs <;> omega
      have hf0 : fst h 0 = q := fst_of h q (by assumption) (by
        intro f hf hne; left
        rw [hk f hf, hk q (by assumption)]; unfold e1; split_ifs <;> omega)
      obtain ⟨hl0, hl1⟩ := lst2_of h p r (by assumption) (by assumption) (by
        left; rw [hk p (by assumption), hk r (by assumption)]; unfold e1; split_ifs <;> omega) (by
        intro f hf hne hne'; left
        rw [hk f hf, hk r (by assumption)]; unfold e1; split_ifs <;> omega)
      have hlen : 2 < h.length := by omega
      refine ⟨.c2 p q r q 1, ?_, ?_, ?_⟩
      · simp [rowAll, rowNull, row1c, row1s, row1s1c, row1s1cT, rowPair, rowSplit, rowCoalesce, rowScatter,
          hnop, his, hn, hs, hlen, hmax, hmin, hf0, hl0, hl1]
      · simp only [Inter.Normal]; omega
      · intro f
        simp only [Inter.moves, change, e1]
        constructor <;> simp <;> split_ifs <;> omega
    · by_cases h3 : p = t
      · subst h3
        by_cases h4 : q = r
        · subst h4
          have hn : nonzero (charge h) = 0 := by
            unfold charge
            rw [nonzero_le ∅]
            · rfl
            · intro f hf; rw [ha f hf, hb f hf]; unfold e1
              simp only [Finset.notMem_empty, iff_false, ne_eq, not_not]
              split_ifs <;> omega
            · intro f hf; simp at hf
          have hs : nonzero (spin h) = 2 := by
            unfold spin
            rw [nonzero_le {p, q}]
            · rw [Finset.card_pair (by omega)]
            · intro f hf; rw [ha f hf, hb f hf]; unfold e1
              simp only [Finset.mem_insert, Finset.mem_singleton]
              split_ifs <;> omega
            · intro f; simp only [Finset.mem_insert, Finset.mem_singleton]; omega
          have hf0 : fst h 0 = q := fst_of h q (by assumption) (by
            intro f hf hne; left
            rw [hk f hf, hk q (by assumption)]; unfold e1; split_ifs <;> omega)
          have hl0 : lst h 0 = p := lst_of h p (by assumption) (by
            intro f hf hne; left
            rw [hk f hf, hk p (by assumption)]; unfold e1; split_ifs <;> omega)
          have hlen : 1 < h.length := by omega
          refine ⟨.s1 p q, ?_, ?_, ?_⟩
          · simp [rowAll, rowNull, row1c, row1s, row1s1c, row1s1cT, rowPair, rowSplit, rowCoalesce, rowScatter,
              hnop, his, hn, hs, hlen, hf0, hl0]
          · simp only [Inter.Normal]; omega
          · intro f
            simp only [Inter.moves, change, e1]
            constructor <;> simp <;> split_ifs <;> omega
        ·
          have hn : nonzero (charge h) = 2 := by
            unfold charge
            rw [nonzero_le {q, r}]
            · rw [Finset.card_pair (by omega)]
            · intro f hf; rw [ha f hf, hb f hf]; unfold e1
              simp only [Finset.mem_insert, Finset.mem_singleton]
              split_ifs <;> omega
            · intro f; simp only [Finset.mem_insert, Finset.mem_singleton]; omega
          have hs : nonzero (spin h) = 3 := by
            unfold spin
            rw [nonzero_le {p, q, r}]
            · rw [Finset.card_eq_three]; exact ⟨p, q, r, by omega, by omega, by omega, rfl⟩
            · intro f hf; rw [ha f hf, hb f hf]; unfold e1
              simp only [Finset.mem_insert, Finset.mem_singleton]
              split_ifs <;> omega
            · intro f; simp only [Finset.mem_insert, Finset.mem_singleton]; omega
          have hmax : amaxIs (spin h) (2) = true := by
            rw [spin, amaxIs_iff]
            refine ⟨⟨p, by assumption, ?_⟩, fun f hf => ?_⟩
            · rw [ha p (by assumption), hb p (by assumption)]; unfold e1; split_ifs <;> omega
            · rw [ha f hf, hb f hf]; unfold e1; split_ifs <;> omega
          have hmin : aminIs (spin h) (-2) = false := by
            rw [Bool.eq_false_iff, ne_eq, spin, aminIs_iff]
            rintro ⟨⟨f, hf, he⟩, _⟩
            rw [ha f hf, hb f hf] at he; unfold e1 at he; split_ifs at he <;> omega
          have hf0 : fst h 0 = q := fst_of h q (by assumption) (by
            intro f hf hne; left
            rw [hk f hf, hk q (by assumption)]; unfold e1; split_ifs <;> omega)
          obtain ⟨hl0, hl1⟩ := lst2_of h p r (by assumption) (by assumption) (by
            left; rw [hk p (by assumption), hk r (by assumption)]; unfold e1; split_ifs <;> omega) (by
            intro f hf hne hne'; left
            rw [hk f hf, hk r (by assumption)]; unfold e1; split_ifs <;> omega)
          have hlen : 2 < h.length := by omega
          refine ⟨.s1c1 r q p 1, ?_, ?_, ?_⟩
          · simp [rowAll, rowNull, row1c, row1s, row1s1c, row1s1cT, rowPair, rowSplit, rowCoalesce, rowScatter,
              hnop, his, hn, hs, hlen, hmax, hmin, hf0, hl0, hl1]
          · simp only [Inter.Normal]; omega
          · intro f
            simp only [Inter.moves, change, e1]
            constructor <;> simp <;> split_ifs <;> omega
      · by_cases h4 : q = r
        · subst h4
          have hn : nonzero (charge h) = 2 := by
            unfold charge
            rw [nonzero_le {p, t}]
            · rw [Finset.card_pair (by omega)]
            · intro f hf; rw [ha f hf, hb f hf]; unfold e1
              simp only [Finset.mem_insert, Finset.mem_singleton]
              split_ifs <;> omega
            · intro f; simp only [Finset.mem_insert, Finset.mem_singleton]; omega
          have hs : nonzero (spin h) = 3 := by
            unfold spin
            rw [nonzero_le {p, q, t}]
            · rw [Finset.card_eq_three]; exact ⟨p, q, t, by omega, by omega, by omega, rfl⟩
            · intro f hf; rw [ha f hf, hb f hf]; unfold e1
              simp only [Finset.mem_insert, Finset.mem_singleton]
              split_ifs <;> omega
            · intro f; simp only [Finset.mem_insert, Finset.mem_singleton]; omega
          have hmax : amaxIs (spin h) (2) = false := by
            rw [Bool.eq_false_iff, ne_eq, spin, amaxIs_iff]
            rintro ⟨⟨f, hf, he⟩, _⟩
            rw [ha f hf, hb f hf] at he; unfold e1 at he; split_ifs at he <;> omega
          have hmin : aminIs (spin h) (-2) = true := by
            rw [spin, aminIs_iff]
            refine ⟨⟨q, by assumption, ?_⟩, fun f hf => ?_⟩
            · rw [ha q (by assumption), hb q (by assumption)]; unfold e1; split_ifs <;> omega
            · rw [ha f hf, hb f hf]; unfold e1; split_ifs <;> omega
          obtain ⟨hf0, hf1⟩ := fst2_of h q t (by assumption) (by assumption) (by
            left; rw [hk q (by assumption), hk t (by assumption)]; unfold e1; split_ifs <;> omega) (by
            intro f hf hne hne'; left
            rw [hk f hf, hk t (by assumption)]; unfold e1; split_ifs <;> omega)
          have hl0 : lst h 0 = p := lst_of h p (by assumption) (by
            intro f hf hne; left
            rw [hk f hf, hk p (by assumption)]; unfold e1; split_ifs <;> omega)
          have hlen : 2 < h.length := by omega
          refine ⟨.s1c1 p t q 0, ?_, ?_, ?_⟩
          · simp [rowAll, rowNull, row1c, row1s, row1s1c, row1s1cT, rowPair, rowSplit, rowCoalesce, rowScatter,
              hnop, his, hn, hs, hlen, hmax, hmin, hf0, hf1, hl0]
          · simp only [Inter.Normal]; omega
          · intro f
            simp only [Inter.moves, change, e1]
            constructor <;> simp <;> split_ifs <;> omega
        ·
          have hn : nonzero (charge h) = 4 := by
            unfold charge
            rw [nonzero_le {p, q, r, t}]
            · rw [Finset.card_insert_of_notMem, Finset.card_eq_three.mpr ⟨q, r, t, by omega, by omega, by omega, rfl⟩]
              simp only [Finset.mem_insert, Finset.mem_singleton]; omega
            · intro f hf; rw [ha f hf, hb f hf]; unfold e1
              simp only [Finset.mem_insert, Finset.mem_singleton]
              split_ifs <;> omega
            · intro f; simp only [Finset.mem_insert, Finset.mem_singleton]; omega
          have hs : nonzero (spin h) = 4 := by
            unfold spin
            rw [nonzero_le {p, q, r, t}]
            · rw [Finset.card_insert_of_notMem, Finset.card_eq_three.mpr ⟨q, r, t, by omega, by omega, by omega, rfl⟩]
              simp only [Finset.mem_insert, Finset.mem_singleton]; omega
            · intro f hf; rw [ha f hf, hb f hf]; unfold e1
              simp only [Finset.mem_insert, Finset.mem_singleton]
              split_ifs <;> omega
            · intro f; simp only [Finset.mem_insert, Finset.mem_singleton]; omega
          obtain ⟨hf0, hf1⟩ := fst2_of h q t (by assumption) (by assumption) (by
            left; rw [hk q (by assumption), hk t (by assumption)]; unfold e1; split_ifs <;> omega) (by
            intro f hf hne hne'; left
            rw [hk f hf, hk t (by assumption)]; unfold e1; split_ifs <;> omega)
          obtain ⟨hl0, hl1⟩ := lst2_of h p r (by assumption) (by assumption) (by
            left; rw [hk p (by assumption), hk r (by assumption)]; unfold e1; split_ifs <;> omega) (by
            intro f hf hne hne'; left
            rw [hk f hf, hk r (by assumption)]; unfold e1; split_ifs <;> omega)
          have hlen : 3 < h.length := by omega
          refine ⟨.c2 p q r t 1, ?_, ?_, ?_⟩
          · simp [rowAll, rowNull, row1c, row1s, row1s1c, row1s1cT, rowPair, rowSplit, rowCoalesce, rowScatter,
              hnop, his, hn, hs, hlen, hf0, hf1, hl0, hl1]
          · simp only [Inter.Normal]; omega
          · intro f
            simp only [Inter.moves, change, e1]
            constructor <;> simp <;> split_ifs <;> omega

/-- everything together -/
theorem classify_one (h : List (Int × Int))
    (ha : (h.map (fun p => p.1)).sum = 0) (hb : (h.map (fun p => p.2)).sum = 0) (hd : nop h ≤ 4) :
    ∃ x : Inter, rowAll h = [x] ∧ x.Normal ∧ ∀ f, f < h.length →
      change x.moves true f = (h.getD f (0,0)).1 ∧ change x.moves false f = (h.getD f (0,0)).2 := by
  have hn1 : (nsop h).1 = ∑ f ∈ Finset.range h.length, ((h.getD f (0,0)).1).natAbs := by
    unfold nsop; exact sum_map_range h _
  have hn2 : (nsop h).2 = ∑ f ∈ Finset.range h.length, ((h.getD f (0,0)).2).natAbs := by
    unfold nsop; exact sum_map_range h _
  rw [sum_map_range] at ha hb
  have ea := sum_even h.length (fun f => (h.getD f (0,0)).1) ha
  have eb := sum_even h.length (fun f => (h.getD f (0,0)).2) hb
  rw [← hn1] at ea
  rw [← hn2] at eb
  have hnop : nop h = (nsop h).1 + (nsop h).2 := rfl
  have hisp : ispin h = (nsop h).2 / 2 := rfl
  by_cases a0 : (nsop h).1 = 0
  · have az := zero_of h.length (fun f => (h.getD f (0,0)).1) (by rw [← hn1]; exact a0)
    by_cases b0 : (nsop h).2 = 0
    · -- null
      have bz := zero_of h.length (fun f => (h.getD f (0,0)).2) (by rw [← hn2]; exact b0)
      have : nop h = 0 := by omega
      refine ⟨.null, ?_, trivial, ?_⟩
      · simp [rowAll, rowNull, row1c, row1s, row1s1c, row1s1cT, rowPair, rowSplit, rowCoalesce, rowScatter, this]
      · intro f hf; rw [az f hf, bz f hf]; simp [change, Inter.moves]
    · by_cases b2 : (nsop h).2 = 2
      · -- 1c beta
        obtain ⟨p, q, hp, hq, hpq, hv⟩ := decomp2 h.length (fun f => (h.getD f (0,0)).2) hb (by rw [← hn2]; exact b2)
        have hk : ∀ f, f < h.length → key h f = e1 p f - e1 q f := by
          intro f hf; unfold key; have := az f hf; have := hv f hf; omega
        have hl0 : lst h 0 = p := lst_of h p hp (by
          intro f hf hne; left
          rw [hk f hf, hk p hp]; unfold e1; split_ifs <;> omega)
        have hf0 : fst h 0 = q := fst_of h q hq (by
          intro f hf hne; left
          rw [hk f hf, hk q hq]; unfold e1; split_ifs <;> omega)
        have h2 : nop h = 2 := by omega
        have hi : ispin h = 1 := by omega
        have hlen : 1 < h.length := by omega
        refine ⟨.c1 p q 1, ?_, by simp [Inter.Normal, hpq], ?_⟩
        · simp [rowAll, rowNull, row1c, row1s, row1s1c, row1s1cT, rowPair, rowSplit, rowCoalesce, rowScatter,
            h2, hi, hl0, hf0, hlen]
        · intro f hf
          rw [az f hf, hv f hf]
          simp [change, Inter.moves, e1]
      · -- bb
        have b4 : (nsop h).2 = 4 := by omega
        obtain ⟨p, q, r, t, hp, hq, hr, ht, h1, h2, h3, h4, h5, h6, hv⟩ :=
          decomp4 h.length (fun f => (h.getD f (0,0)).2) hb (by rw [← hn2]; exact b4)
        refine ⟨.c2 p q r t 2, ?_, ?_, ?_⟩
        · have := classify_same h (fun f => (h.getD f (0,0)).2) (-1) 1 (Or.inr rfl) (Or.inl rfl)
            (by intro f hf; have := az f hf; omega)
            (by intro f hf; have := az f hf; omega)
            (by intro f hf; unfold key; have := az f hf; omega)
            (by omega) p q r t hp hq hr ht h1 h2 h3 h4 h5 h6 hv
          rw [this, show ispin h = 2 by omega]
        · simp only [Inter.Normal]; omega
        · intro f hf
          rw [az f hf, hv f hf]
          simp [change, Inter.moves, e1]
          omega
  · by_cases a2 : (nsop h).1 = 2
    · obtain ⟨p, q, hp, hq, hpq, hv⟩ := decomp2 h.length (fun f => (h.getD f (0,0)).1) ha (by rw [← hn1]; exact a2)
      by_cases b0 : (nsop h).2 = 0
      · have bz := zero_of h.length (fun f => (h.getD f (0,0)).2) (by rw [← hn2]; exact b0)
        have hk : ∀ f, f < h.length → key h f = 3 * (e1 p f - e1 q f) := by
          intro f hf; unfold key; have := bz f hf; have := hv f hf; omega
        have hl0 : lst h 0 = p := lst_of h p hp (by
          intro f hf hne; left
          rw [hk f hf, hk p hp]; unfold e1; split_ifs <;> omega)
        have hf0 : fst h 0 = q := fst_of h q hq (by
          intro f hf hne; left
          rw [hk f hf, hk q hq]; unfold e1; split_ifs <;> omega)
        have h2 : nop h = 2 := by omega
        have hi : ispin h = 0 := by omega
        have hlen : 1 < h.length := by omega
        refine ⟨.c1 p q 0, ?_, by simp [Inter.Normal, hpq], ?_⟩
        · simp [rowAll, rowNull, row1c, row1s, row1s1c, row1s1cT, rowPair, rowSplit, rowCoalesce, rowScatter,
            h2, hi, hl0, hf0, hlen]
        · intro f hf
          rw [bz f hf, hv f hf]
          simp [change, Inter.moves, e1]
      · have b2 : (nsop h).2 = 2 := by omega
        obtain ⟨r, t, hr, ht, hrt, hw⟩ := decomp2 h.length (fun f => (h.getD f (0,0)).2) hb (by rw [← hn2]; exact b2)
        obtain ⟨x, e1', e2, e3⟩ := classify_ab h p q r t hp hq hr ht hpq hrt (by omega) (by omega) hv hw
        exact ⟨x, e1', e2, fun f hf => by rw [hv f hf, hw f hf]; exact e3 f⟩
    · have a4 : (nsop h).1 = 4 := by omega
      have b0 : (nsop h).2 = 0 := by omega
      have bz := zero_of h.length (fun f => (h.getD f (0,0)).2) (by rw [← hn2]; exact b0)
      obtain ⟨p, q, r, t, hp, hq, hr, ht, h1, h2, h3, h4, h5, h6, hv⟩ :=
        decomp4 h.length (fun f => (h.getD f (0,0)).1) ha (by rw [← hn1]; exact a4)
      refine ⟨.c2 p q r t 0, ?_, ?_, ?_⟩
      · have := classify_same h (fun f => (h.getD f (0,0)).1) 1 3 (Or.inl rfl) (Or.inr rfl)
          (by intro f hf; have := bz f hf; omega)
          (by intro f hf; have := bz f hf; omega)
          (by intro f hf; unfold key; have := bz f hf; omega)
          (by omega) p q r t hp hq hr ht h1 h2 h3 h4 h5 h6 hv
        rw [this, show ispin h = 0 by omega]
      · simp only [Inter.Normal]; omega
      · intro f hf
        rw [bz f hf, hv f hf]
        simp [change, Inter.moves, e1]
        omega

end Verif.Exc
