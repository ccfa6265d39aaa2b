import Verif.Lemmas.LocalizeOcc
import Mathlib.Data.List.Sort
import Mathlib.Algebra.Order.Ring.Rat
import Mathlib.Tactic.NormNum
/-!
# C125: division of a reference determinant among fragments
-/
namespace Verif.Props
open Verif.LocalizeOcc Verif.Spec.LocalizeOcc
open Verif.Spec.LasCanon (SortContract)

theorem localize_count3 (l : List Nat) : l.count 0 + l.count 1 + l.count 2 ≤ l.length := by
  induction l with
  | nil => simp
  | cons a l ih =>
    simp only [List.count_cons, List.length_cons, beq_iff_eq]
    split_ifs <;> omega

theorem localize_count3_eq (l : List Nat) (h : ∀ x ∈ l, x ≤ 2) : l.count 0 + l.count 1 + l.count 2 = l.length := by
  induction l with
  | nil => simp
  | cons a l ih =>
    have := ih fun x hx => h x (List.mem_cons_of_mem _ hx)
    have ha := h a List.mem_cons_self
    simp only [List.count_cons, List.length_cons, beq_iff_eq]
    split_ifs <;> omega

theorem localize_pair (d s : Nat) (r1 : Nat → Int × Int) (h : ∀ f < 2, (r1 f).2 = s) :
    pairRngs (some [2 * (d : Int) + s, 2 * d + s]) 2 (2 * d) (2 * s) r1 0 = ((d : Int), (d : Int)) := by
  have h0 := h 0 (by omega)
  have h1 := h 1 (by omega)
  have hall : ((List.range 2).all fun f => decide (0 ≤ (r1 f).2)) = true := by simp [List.range_succ, h0, h1]
  have hsum : [2 * (d : Int) + s, 2 * d + s].sum = 2 * ((2 * d : Nat) : Int) + ((2 * s : Nat) : Int) := by simp; ring
  unfold pairRngs
  simp only [hall, if_true]
  rw [if_pos hsum]
  simp [List.range_succ, h0, h1]

/-- C125: two fragments of equal numbers of electrons and equal spins, defined by at least as many orbitals as there are active ones, get
the demanded numbers of doubly and singly occupied orbitals, whatever the overlaps are. -/
theorem C125_two_equal_partial {K : Type} [Field K] [LinearOrder K] [IsStrictOrderedRing K] {argsort : Nat → (Nat → K) → Nat → Nat}
    (hs : SortContract argsort) (F G : Frag K) (s d : Nat) (occ : List Nat) (hocc : ∀ x ∈ occ, x ≤ 2) (h1 : occ.count 1 = 2 * s)
    (h2 : occ.count 2 = 2 * d) (hl : occ.length = F.nlas + G.nlas) (hF : d + s ≤ F.nlas) (hG : d + s ≤ G.nlas)
    (hF' : F.nlas + G.nlas ≤ F.nao) (hG' : G.nlas ≤ G.nao) (hsv : ∀ m i, 0 < F.sv m i ∧ F.sv m i < 1) :
    ∃ res, localize argsort [F, G] (some [2 * d + s, 2 * d + s]) (some [s + 1, s + 1]) occ = some res ∧
      Divided [F.nlas, G.nlas] [2 * d + s, 2 * d + s] [s + 1, s + 1] res := by
  have e3 := localize_count3_eq occ hocc
  obtain ⟨r, hr, r0, r1, r2⟩ : ∃ r, minmaxOccs 2 (some [2 * (d : Int) + s, 2 * d + s]) (some [(s : Int) + 1, s + 1]) occ = some r ∧
      r 0 0 = (-1, -1) ∧ r 0 1 = ((s : Int), (s : Int)) ∧ r 0 2 = ((d : Int), (d : Int)) := by
    unfold minmaxOccs spinRngs
    simp only [h1, h2]
    rw [if_pos (by simp; omega)]
    have hall : ((List.range 2).all fun f => decide (0 ≤ ([(s : Int) + 1, s + 1].getD f 0 - 1) ∧
        0 ≤ -([(s : Int) + 1, s + 1].getD f 0 - 1 - ((List.range 2).map fun g => [(s : Int) + 1, s + 1].getD g 0 - 1).sum))) = true := by
      simp [List.range_succ]
    rw [if_pos hall]
    refine ⟨_, rfl, rfl, ?_, ?_⟩
    · simp [List.range_succ]
    · beta_reduce
      rw [if_neg (by omega), if_pos rfl]
      refine localize_pair d s _ fun f hf => ?_
      obtain rfl | rfl : f = 0 ∨ f = 1 := by omega
      · simp [List.range_succ]
      · simp [List.range_succ]
  have hc := localize_count3 occ
  have k0 : nsv F.nao occ 0 = occ.count 0 := Nat.min_eq_right (by omega)
  have k1 : nsv F.nao occ 1 = occ.count 1 := Nat.min_eq_right (by omega)
  have k2 : nsv F.nao occ 2 = occ.count 2 := Nat.min_eq_right (by omega)
  have kt : total F.nao occ = occ.length := by unfold total; omega
  obtain ⟨l, hsome⟩ : ∃ l, svdOcc argsort F.nao occ (r 0) F.sv = some l := by
    unfold svdOcc
    simp only
    rw [if_neg (by omega)]
    exact ⟨_, rfl⟩
  have hlen := svdOcc_length _ _ hsome
  have hcnt := fun m hm => svdOcc_count F.nao occ hs hsome (m := m) hm
  have c0 := hcnt 0 (by omega)
  have c1 := hcnt 1 (by omega)
  have c2 := hcnt 2 (by omega)
  obtain ⟨f1, f2⟩ := svdOcc_first F.nao occ hs hsome (nlas := F.nlas) r0 r1 r2 (by omega) (by omega) hF (by omega) hsv
  have htl : (l.take F.nlas).length = F.nlas := by rw [List.length_take]; omega
  have hdl : (l.drop F.nlas).length = G.nlas := by rw [List.length_drop]; omega
  have add : ∀ m, (l.take F.nlas).count m + (l.drop F.nlas).count m = l.count m := by
    intro m
    rw [← List.count_append, List.take_append_drop]
  have a0 := add 0
  have a1 := add 1
  have a2 := add 2
  have b1 := localize_count3 (l.take F.nlas)
  have b2 := localize_count3 (l.drop F.nlas)
  generalize hD : l.drop F.nlas = D at *
  have q0 : nsv G.nao D 0 = D.count 0 := Nat.min_eq_right (by omega)
  have q1 : nsv G.nao D 1 = D.count 1 := Nat.min_eq_right (by omega)
  have q2 : nsv G.nao D 2 = D.count 2 := Nat.min_eq_right (by omega)
  have qt : total G.nao D = D.length := by unfold total; omega
  obtain ⟨l', hsome'⟩ : ∃ l', svdOcc argsort G.nao D (r 1) G.sv = some l' := by
    unfold svdOcc
    simp only
    rw [if_neg (by omega)]
    exact ⟨_, rfl⟩
  have hlen' := svdOcc_length _ _ hsome'
  have g1 := svdOcc_count G.nao D hs hsome' (m := 1) (by omega)
  have g2 := svdOcc_count G.nao D hs hsome' (m := 2) (by omega)
  refine ⟨[l.take F.nlas, l'], ?_, rfl, ?_⟩
  · unfold localize
    simp only [List.length_cons, List.length_nil, hr]
    unfold loop
    simp only [hsome]
    rw [if_neg (by omega), hD]
    unfold loop
    simp only [hsome']
    rw [if_neg (by omega)]
    unfold loop
    simp only [Option.map_some]
    rw [List.take_of_length_le (l := l') (by omega)]
  · intro f hf
    have hf : f < 2 := hf
    obtain rfl | rfl : f = 0 ∨ f = 1 := by omega
    · simp only [List.getD_cons_zero]
      refine ⟨htl, ?_, ?_⟩ <;> push_cast <;> omega
    · simp only [List.getD_cons_succ, List.getD_cons_zero]
      refine ⟨by omega, ?_, ?_⟩ <;> omega

/-- A sorting routine. -/
def localizeSort (n : Nat) (w : Nat → ℚ) (a : Nat) : Nat := ((List.range n).insertionSort fun i j => w i ≤ w j).getD a 0

theorem localizeSort_ok : SortContract localizeSort := by
  intro n w
  have hp := List.perm_insertionSort (fun i j => w i ≤ w j) (List.range n)
  have hlen : ((List.range n).insertionSort fun i j => w i ≤ w j).length = n := by rw [hp.length_eq, List.length_range]
  have hnd : ((List.range n).insertionSort fun i j => w i ≤ w j).Nodup := hp.nodup_iff.2 List.nodup_range
  haveI : Std.Total (fun i j : Nat => w i ≤ w j) := ⟨fun i j => le_total _ _⟩
  haveI : IsTrans Nat (fun i j : Nat => w i ≤ w j) := ⟨fun _ _ _ => le_trans⟩
  have hpw := List.pairwise_insertionSort (fun i j => w i ≤ w j) (List.range n)
  unfold localizeSort
  generalize (List.range n).insertionSort (fun i j => w i ≤ w j) = L at *
  have hget : ∀ a (h : a < L.length), L.getD a 0 = L[a] := fun a h => by simp [List.getD, h]
  refine ⟨fun a ha => ?_, fun a ha b hb h => ?_, fun a b hab hb => ?_⟩
  · rw [hget a (by omega)]
    exact List.mem_range.1 (hp.mem_iff.1 (List.getElem_mem _))
  · rw [hget a (by omega), hget b (by omega)] at h
    exact (hnd.getElem_inj_iff).1 h
  · rw [hget a (by omega), hget b (by omega)]
    rcases Nat.lt_or_ge a b with h | h
    · exact List.pairwise_iff_getElem.1 hpw a b (by omega) (by omega) h
    · have : a = b := by omega
      subst this
      exact le_rfl

/-- The hypotheses are met by two triplets of three orbitals and four electrons. -/
example : ∃ F G : Frag ℚ, SortContract localizeSort ∧ (∀ x ∈ [2, 2, 1, 1, 1, 1], x ≤ 2) ∧ [2, 2, 1, 1, 1, 1].count 1 = 2 * 2 ∧
    [2, 2, 1, 1, 1, 1].count 2 = 2 * 1 ∧ [2, 2, 1, 1, 1, 1].length = F.nlas + G.nlas ∧ 1 + 2 ≤ F.nlas ∧ 1 + 2 ≤ G.nlas ∧
    F.nlas + G.nlas ≤ F.nao ∧ G.nlas ≤ G.nao ∧ (∀ m i, 0 < F.sv m i ∧ F.sv m i < 1) := by
  refine ⟨⟨3, 6, fun _ i => 1 / (i + 2)⟩, ⟨3, 6, fun _ i => 1 / (i + 2)⟩, localizeSort_ok, by decide, by decide, by decide, by decide, by decide,
    by decide, by decide, by decide, fun m i => ⟨by positivity, ?_⟩⟩
  have : (0 : ℚ) ≤ i := by positivity
  rw [div_lt_one (by linarith)]
  linarith

/-- C125: three equal closed-shell fragments are divided into 4, 2 and 0 electrons and a triplet beside a singlet into 3 and 1, because the
upper limit of a fragment is what the other fragments need, not what they leave; with as many orbitals as the fragments have active ones
(a minimal basis), the call fails for all overlaps. -/
theorem C125_division_violated :
    SortContract localizeSort ∧
    (∃ F : Frag ℚ, F.nlas = 2 ∧ F.nao = 10 ∧ (∀ m i, 0 < F.sv m i ∧ F.sv m i < 1) ∧
      localize localizeSort [F, F, F] (some [2, 2, 2]) (some [1, 1, 1]) [2, 2, 2, 0, 0, 0] = some [[2, 2], [2, 0], [0, 0]]) ∧
    (∃ F : Frag ℚ, F.nlas = 2 ∧ F.nao = 10 ∧ (∀ m i, 0 < F.sv m i ∧ F.sv m i < 1) ∧
      localize localizeSort [F, F] (some [2, 2]) (some [3, 1]) [2, 1, 1, 0] = some [[2, 1], [1, 0]]) ∧
    ∀ (argsort : Nat → (Nat → ℚ) → Nat → Nat) (F G : Frag ℚ), F.nlas = 2 → F.nao = 2 → G.nlas = 2 → G.nao = 2 →
      localize argsort [F, G] (some [2, 2]) (some [1, 1]) [2, 2, 0, 0] = none := by
  refine ⟨localizeSort_ok, ⟨⟨2, 10, fun m i => (10 * m + 1) / (10 * m + 10 + i)⟩, rfl, rfl, fun m i => ⟨by positivity, ?_⟩, by decide +kernel⟩,
    ⟨⟨2, 10, fun m i => (10 * m + 1) / (10 * m + 10 + i)⟩, rfl, rfl, fun m i => ⟨by positivity, ?_⟩, by decide +kernel⟩, ?_⟩
  · rw [div_lt_one (by positivity)]
    have h1 : (0 : ℚ) ≤ m := by positivity
    have h2 : (0 : ℚ) ≤ i := by positivity
    linarith
  · rw [div_lt_one (by positivity)]
    have h1 : (0 : ℚ) ≤ m := by positivity
    have h2 : (0 : ℚ) ≤ i := by positivity
    linarith
  · intro argsort F G hF hF' hG hG'
    unfold localize
    have : minmaxOccs [F, G].length (some [2, 2]) (some [1, 1]) [2, 2, 0, 0] ≠ none := by
      change minmaxOccs 2 _ _ _ ≠ none
      simp [minmaxOccs, spinRngs, List.range_succ]
    split
    · rfl
    · unfold loop
      have h : svdOcc argsort F.nao [2, 2, 0, 0] = fun _ _ => none := by
        funext rng sv
        unfold svdOcc
        rw [hF']
        rfl
      rw [h]

end Verif.Props
