import Verif.Lemmas.SpaceLists
import Verif.Spec.SelectTarget
/-!
# C29: `filter_shuffles` keeps the preferred member of a manifold
-/
namespace Verif.Props
open Verif.Spec Verif.Spaces

theorem el_map_lt (g : Int → Int) (l : List Int) (k : Nat) (hk : k < l.length) : el (l.map g) k = g (el l k) := by
  unfold el
  rw [List.getD_eq_getElem _ _ (by simpa using hk), List.getD_eq_getElem _ _ hk, List.getElem_map]

theorem el_set (l : List Int) (i k : Nat) (x : Int) (hi : i < l.length) :
    el (l.set i x) k = if k = i then x else el l k := by
  unfold el
  by_cases h : k = i
  · subst h
    rw [if_pos rfl, List.getD_eq_getElem _ _ (by simpa using hi), List.getElem_set_self]
  · rw [if_neg h]
    simp only [List.getD_eq_getElem?_getD, List.getElem?_set_ne (fun e => h e.symm)]

theorem el_zipWith_mul (l m : List Int) (k : Nat) (h : l.length = m.length) :
    el (List.zipWith (· * ·) l m) k = el l k * el m k := by
  unfold el
  by_cases hk : k < l.length
  · rw [List.getD_eq_getElem _ _ (by simp [← h, hk]), List.getD_eq_getElem _ _ hk,
      List.getD_eq_getElem _ _ (by omega), List.getElem_zipWith]
  · rw [List.getD_eq_default _ _ (by simp; omega), List.getD_eq_default _ _ (by omega)]
    simp

theorem el_ext (l m : List Int) (h : l.length = m.length) (he : ∀ k, k < l.length → el l k = el m k) : l = m := by
  refine List.ext_getElem h fun k h1 h2 => ?_
  have := he k h1
  unfold el at this
  rwa [List.getD_eq_getElem _ _ h1, List.getD_eq_getElem _ _ h2] at this

theorem sign_mul_abs (x : Int) : npSign x * |x| = x := by
  unfold npSign
  split_ifs with h1 h2
  · rw [abs_of_pos h1]; ring
  · rw [abs_of_neg h2]; ring
  · have : x = 0 := by omega
    subst this; simp

theorem sign_same {x y : Int} (hy : y ≠ 0) (h : 0 ≤ x * y) : npSign y * |x| = x := by
  unfold npSign
  split_ifs with h1 h2
  · have : 0 ≤ x := by by_contra hx; nlinarith
    rw [abs_of_nonneg this]; ring
  · have : x ≤ 0 := by by_contra hx; nlinarith
    rw [abs_of_nonpos this]; ring
  · omega

theorem sign_opp {x y : Int} (hy : y ≠ 0) (h : x * y ≤ 0) : -npSign y * |x| = x := by
  unfold npSign
  split_ifs with h1 h2
  · have : x ≤ 0 := by by_contra hx; nlinarith
    rw [abs_of_nonpos this]; ring
  · have : 0 ≤ x := by by_contra hx; nlinarith
    rw [abs_of_nonneg this]; ring
  · omega

/-- The code's target projections are the preferred ones. -/
theorem targetSpins_eq (ref m0 t : Space) (i a : Nat) (hr : Shaped ref) (ht : Shaped t) (hn : t.nfrag = ref.nfrag)
    (hi : i < ref.nfrag) (ha : a < ref.nfrag) (hia : i ≠ a) (hs : ∀ k, el t.smults k = el m0.smults k)
    (hp : Preferred ref t i a) : targetSpins ref m0 i a = t.spins := by
  obtain ⟨-, h2, -, -⟩ := hr
  obtain ⟨-, t2, -, -⟩ := ht
  have hai : ¬ a = i := fun e => hia e.symm
  have len1 : ∀ x y z w : Int, ((((ref.spins.map npSign).set i x).set a y).set i z).length = ref.nfrag := by
    intros; simp [h2]
  have habs : ∀ k, k < ref.nfrag → el (bump (bump (ref.spins.map (|·|)) i (el m0.smults i - el ref.smults i)) a
      (el m0.smults a - el ref.smults a)) k = if k = i ∨ k = a then |el t.spins k| else |el ref.spins k| := by
    intro k hk
    rw [el_bump _ _ _ _ (by rw [bump_length]; simp [h2, ha]), el_bump _ _ _ _ (by simp [h2, hi]),
      el_map_lt _ _ _ (by omega)]
    by_cases e1 : k = i
    · subst e1
      simp only [hia, if_true, if_false, true_or]
      rw [hp.size_i, hs]; ring
    · by_cases e2 : k = a
      · subst e2
        simp only [hai, if_true, if_false, or_true]
        rw [hp.size_a, hs]; ring
      · simp [e1, e2]
  have hlen : ∀ ts : List Int, ts.length = ref.nfrag →
      (∀ k, k < ref.nfrag → el ts k * (if k = i ∨ k = a then |el t.spins k| else |el ref.spins k|) = el t.spins k) →
      List.zipWith (· * ·) ts (bump (bump (ref.spins.map (|·|)) i (el m0.smults i - el ref.smults i)) a
      (el m0.smults a - el ref.smults a)) = t.spins := by
    intro ts hl he
    refine el_ext _ _ (by simp [bump_length, hl, h2, t2, hn]) fun k hk => ?_
    have hk' : k < ref.nfrag := by simp [bump_length, hl, h2] at hk; exact hk
    rw [el_zipWith_mul _ _ _ (by simp [bump_length, hl, h2]), habs k hk', he k hk']
  unfold targetSpins
  simp only []
  apply hlen
  · split_ifs <;> simp [h2]
  · intro k hk
    have hsg : ∀ k, k < ref.nfrag → el (ref.spins.map npSign) k = npSign (el ref.spins k) := fun k hk =>
      el_map_lt _ _ _ (by omega)
    by_cases e1 : k = i
    · subst e1
      simp only [true_or, if_true]
      split_ifs with c1 c2 c3
      · rw [el_set _ _ _ _ (by simp [h2, ha]), if_neg hia, el_set _ _ _ _ (by simp [h2, hi]), if_pos rfl]
        rw [abs_of_nonpos (hp.both c1.1 c1.2).1]; ring
      · rw [el_set _ _ _ _ (by simp [h2, hi]), if_pos rfl, hsg a ha]
        exact sign_opp (fun e => c1 ⟨c2, e⟩) (hp.turn_i c2 (fun e => c1 ⟨c2, e⟩))
      · rw [el_set _ _ _ _ (by simp [h2, ha]), if_neg hia, hsg k hk]
        exact sign_same c2 (hp.keep_i c2)
      · rw [hsg k hk]
        exact sign_same c2 (hp.keep_i c2)
    · by_cases e2 : k = a
      · subst e2
        simp only [or_true, if_true]
        split_ifs with c1 c2 c3
        · rw [el_set _ _ _ _ (by simp [h2, hk]), if_pos rfl, abs_of_nonneg (hp.both c1.1 c1.2).2]; ring
        · have c3 : el ref.spins k ≠ 0 := fun e => c1 ⟨c2, e⟩
          rw [el_set _ _ _ _ (by simp [h2, hi]), if_neg e1, hsg k hk]
          exact sign_same c3 (hp.keep_a c3)
        · rw [el_set _ _ _ _ (by simp [h2, hk]), if_pos rfl, hsg i hi]
          exact sign_opp c2 (hp.turn_a c3 c2)
        · rw [hsg k hk]
          exact sign_same c3 (hp.keep_a c3)
      · simp only [e1, e2, or_self, if_false]
        have : ∀ ts : List Int, el ts k = npSign (el ref.spins k) → el ts k * |el ref.spins k| = el t.spins k := by
          intro ts hts
          rw [hts, sign_mul_abs, hp.spectators k e1 e2]
        apply this
        split_ifs
        · rw [el_set _ _ _ _ (by simp [h2, ha]), if_neg e2, el_set _ _ _ _ (by simp [h2, hi]), if_neg e1, hsg k hk]
        · rw [el_set _ _ _ _ (by simp [h2, hi]), if_neg e1, hsg k hk]
        · rw [el_set _ _ _ _ (by simp [h2, ha]), if_neg e2, hsg k hk]
        · rw [hsg k hk]

theorem cumprodRev_pos (l : List Int) (h : ∀ x ∈ l, 0 ≤ x) :
    (cumprodRev l).length = l.length ∧ ∀ y ∈ cumprodRev l, 0 < y := by
  induction l with
  | nil => simp [cumprodRev]
  | cons d ds ih =>
    obtain ⟨i1, i2⟩ := ih (fun x hx => h x (List.mem_cons_of_mem _ hx))
    have hd := h d (List.mem_cons_self ..)
    unfold cumprodRev
    cases hc : cumprodRev ds with
    | nil =>
      rw [hc] at i1
      refine ⟨by simp at i1 ⊢; exact List.length_eq_zero_iff.mp i1.symm, ?_⟩
      intro y hy
      simp at hy
      omega
    | cons e es =>
      rw [hc] at i1 i2
      refine ⟨by simp at i1 ⊢; omega, ?_⟩
      intro y hy
      have he := i2 e (List.mem_cons_self ..)
      rcases List.mem_cons.mp hy with rfl | hy
      · positivity
      · exact i2 y hy

theorem foldl_max_nonneg (l : List Int) (a : Int) (ha : 0 ≤ a) : 0 ≤ l.foldl max a := by
  induction l generalizing a with
  | nil => exact ha
  | cons x l ih => exact ih _ (le_trans ha (le_max_left _ _))

theorem amax_nonneg (l : List Int) (h : ∀ x ∈ l, 0 ≤ x) : 0 ≤ amax l := by
  unfold amax
  cases l with
  | nil => simp
  | cons x l => exact foldl_max_nonneg _ _ (h x (List.mem_cons_self ..))

theorem weighted_zero (d row : List Int) (hl : d.length = row.length) (hd : ∀ x ∈ d, 0 < x) (hr : ∀ x ∈ row, 0 ≤ x) :
    0 ≤ (List.zipWith (· * ·) d row).sum ∧ ((List.zipWith (· * ·) d row).sum = 0 ↔ ∀ x ∈ row, x = 0) := by
  induction d generalizing row with
  | nil =>
    have : row = [] := by simpa [eq_comm] using hl
    subst this
    simp
  | cons x d ih =>
    cases row with
    | nil => simp at hl
    | cons y row =>
      obtain ⟨i1, i2⟩ := ih row (by simpa using hl) (fun z hz => hd z (List.mem_cons_of_mem _ hz))
        (fun z hz => hr z (List.mem_cons_of_mem _ hz))
      have hx := hd x (List.mem_cons_self ..)
      have hy := hr y (List.mem_cons_self ..)
      have hxy : 0 ≤ x * y := mul_nonneg hx.le hy
      rw [List.zipWith_cons_cons, List.sum_cons]
      refine ⟨by omega, ?_⟩
      simp only [List.mem_cons, forall_eq_or_imp]
      rw [← i2]
      constructor
      · intro h
        have h1 : x * y = 0 := by omega
        exact ⟨by rcases mul_eq_zero.mp h1 with h | h <;> omega, by omega⟩
      · rintro ⟨rfl, h⟩
        omega

theorem manifoldOrder_perm (s : List Int) (i a : Nat) : (manifoldOrder s i a).Perm (List.range s.length) := by
  unfold manifoldOrder
  exact List.mergeSort_perm _ _

/-- The score of a member is never negative, and zero exactly for the target projections. -/
theorem scores_zero (ms : List Space) (smults1 target : List Int) (i a : Nat) :
    ∃ sc : Space → Int, manifoldScores ms smults1 target i a = ms.map sc ∧
      ∀ sp ∈ ms, 0 ≤ sc sp ∧ (sc sp = 0 ↔ ∀ k, k < smults1.length → el sp.spins k = el target k) := by
  unfold manifoldScores
  simp only [List.map_map]
  set dims := cumprodRev ((List.range (manifoldOrder smults1 i a).length).map fun c =>
    ((ms.map fun sp => (manifoldOrder smults1 i a).map fun k => |el sp.spins k - el target k|).length : Int) *
      amax (ms.map ((fun row => el row c) ∘ fun sp => (manifoldOrder smults1 i a).map fun k =>
        |el sp.spins k - el target k|))) with hdims
  refine ⟨fun sp => (List.zipWith (· * ·) dims
    ((manifoldOrder smults1 i a).map fun k => |el sp.spins k - el target k|)).sum, ?_, ?_⟩
  · rfl
  · intro sp _
    have hnn : ∀ x ∈ (List.range (manifoldOrder smults1 i a).length).map fun c =>
      ((ms.map fun sp => (manifoldOrder smults1 i a).map fun k => |el sp.spins k - el target k|).length : Int) *
      amax (ms.map ((fun row => el row c) ∘ fun sp => (manifoldOrder smults1 i a).map fun k =>
        |el sp.spins k - el target k|)), 0 ≤ x := by
      intro x hx
      obtain ⟨c, -, rfl⟩ := List.mem_map.mp hx
      refine mul_nonneg (by positivity) (amax_nonneg _ ?_)
      intro y hy
      obtain ⟨s, -, rfl⟩ := List.mem_map.mp hy
      simp only [Function.comp]
      unfold el
      rw [List.getD_eq_getElem?_getD]
      cases hq : (List.map (fun k => |s.spins.getD k 0 - target.getD k 0|) (manifoldOrder smults1 i a))[c]? with
      | none => simp
      | some v =>
        have := List.mem_of_getElem? hq
        obtain ⟨k, -, rfl⟩ := List.mem_map.mp this
        simp
    obtain ⟨l1, l2⟩ := cumprodRev_pos _ hnn
    have hl : dims.length = ((manifoldOrder smults1 i a).map fun k => |el sp.spins k - el target k|).length := by
      rw [hdims, l1]; simp
    obtain ⟨w1, w2⟩ := weighted_zero dims _ hl l2 (by
      intro x hx
      obtain ⟨k, -, rfl⟩ := List.mem_map.mp hx
      exact abs_nonneg _)
    refine ⟨w1, w2.trans ?_⟩
    simp only [List.mem_map, forall_exists_index, and_imp, forall_apply_eq_imp_iff₂, abs_eq_zero, sub_eq_zero]
    constructor
    · intro h k hk
      exact h k ((manifoldOrder_perm smults1 i a).mem_iff.mpr (List.mem_range.mpr hk))
    · intro h k hk
      exact h k (List.mem_range.mp ((manifoldOrder_perm smults1 i a).mem_iff.mp hk))

theorem firstWhere_unique (n i : Nat) (p : Nat → Bool) (hi : i < n) (h : ∀ k, k < n → (p k = true ↔ k = i)) :
    firstWhere n p = .ok i := by
  unfold firstWhere
  have : (List.range n).filter p = [i] := by
    have h1 : (List.range n).filter p = (List.range n).filter (fun k => decide (k = i)) := by
      apply List.filter_congr
      intro k hk
      have := h k (List.mem_range.mp hk)
      by_cases e : k = i
      · rw [this.mpr e]; simp [e]
      · have h2 : p k = false := by rw [← Bool.not_eq_true]; exact fun h' => e (this.mp h')
        simp [h2, e]
    rw [h1]
    have : (List.range n).filter (fun k => decide (k = i)) = List.replicate ((List.range n).count i) i := by
      rw [← List.filter_eq]
    rw [this, List.count_eq_one_of_mem List.nodup_range (List.mem_range.mpr hi)]
    rfl
  rw [this]

theorem foldl_min_zero (l : List Int) (a : Int) (h : ∀ x ∈ l, 0 ≤ x) (ha : 0 ≤ a) (hz : a = 0 ∨ 0 ∈ l) :
    l.foldl min a = 0 := by
  induction l generalizing a with
  | nil => simpa using hz
  | cons x l ih =>
    have hx := h x (List.mem_cons_self ..)
    refine ih _ (fun y hy => h y (List.mem_cons_of_mem _ hy)) (le_min ha hx) ?_
    rcases hz with rfl | hz
    · left; simp [hx]
    · rcases List.mem_cons.mp hz with rfl | hz
      · left; simp [ha]
      · right; exact hz

theorem filter_none (sc : Space → Int) (l : List Space) (h : ∀ x ∈ l, sc x ≠ 0) :
    (l.zip (l.map sc)).filter (fun p => decide (p.2 = 0)) = [] := by
  rw [List.filter_eq_nil_iff]
  rintro ⟨x, y⟩ hx
  rw [List.zip_map_right, List.mem_map] at hx
  obtain ⟨⟨u, v⟩, huv, e⟩ := hx
  have hu := (List.of_mem_zip huv).2
  simp only [Prod.map, id, Prod.mk.injEq] at e
  have := h v hu
  simp [← e.2, this]

theorem filter_one (sc : Space → Int) (t : Space) (l : List Space) (ht : t ∈ l)
    (hpw : l.Pairwise (fun x y => x.spins ≠ y.spins)) (hz : ∀ x ∈ l, sc x = 0 ↔ x.spins = t.spins) :
    (l.zip (l.map sc)).filter (fun p => decide (p.2 = 0)) = [(t, 0)] := by
  induction l with
  | nil => simp at ht
  | cons x l ih =>
    rw [List.pairwise_cons] at hpw
    have hz' : ∀ y ∈ l, sc y = 0 ↔ y.spins = t.spins := fun y hy => hz y (List.mem_cons_of_mem _ hy)
    rw [List.map_cons, List.zip_cons_cons, List.filter_cons]
    rcases List.mem_cons.mp ht with rfl | ht
    · have h0 : sc t = 0 := (hz t (List.mem_cons_self ..)).mpr rfl
      rw [filter_none sc l (fun y hy h => hpw.1 y hy ((hz' y hy).mp h).symm)]
      simp [h0]
    · have h0 : sc x ≠ 0 := fun h => hpw.1 t ht ((hz x (List.mem_cons_self ..)).mp h)
      rw [ih ht hpw.2 hz']
      simp [h0]

/-- C29: the representative of a manifold. Let the members of a manifold have different projections, the same
multiplicities, and one electron moved from `i` to `a` with respect to the first reference. If one of the members has
the preferred projections and they are possible, then that member is selected (and the call does not fail). -/
theorem C29_preferred (ref m0 : Space) (ms : List Space) (t : Space) (i a : Nat) (hr : Shaped ref)
    (hsh : ∀ x ∈ m0 :: ms, Shaped x ∧ x.nfrag = ref.nfrag ∧ x.smults = m0.smults)
    (hdiff : (m0 :: ms).Pairwise (fun x y => x.spins ≠ y.spins))
    (hi : i < ref.nfrag) (ha : a < ref.nfrag)
    (hsrc : ∀ k, k < ref.nfrag → (m0.nelec k - ref.nelec k = -1 ↔ k = i))
    (hdst : ∀ k, k < ref.nfrag → (m0.nelec k - ref.nelec k = 1 ↔ k = a))
    (ht : t ∈ m0 :: ms) (hp : Preferred ref t i a) (hok : ∀ k, k < ref.nfrag → |el t.spins k| < el t.smults k) :
    selectFromManifold ref (m0 :: ms) = .ok (some t) := by
  obtain ⟨t1, t2, t3⟩ := hsh t ht
  have hia : i ≠ a := by
    rintro rfl
    have := (hsrc i hi).mpr rfl
    have := (hdst i hi).mpr rfl
    omega
  have htg := targetSpins_eq ref m0 t i a hr t1 t2 hi ha hia (fun k => by rw [t3]) hp
  have hlen : t.spins.length = ref.nfrag := by rw [t1.2.1, t2]
  have hm0l : m0.smults.length = ref.nfrag := by
    obtain ⟨s1, s2, -⟩ := hsh m0 (List.mem_cons_self ..)
    rw [s1.2.2.1, s2]
  unfold selectFromManifold
  simp only []
  rw [firstWhere_unique ref.nfrag i _ hi (by intro k hk; simpa using hsrc k hk),
    firstWhere_unique ref.nfrag a _ ha (by intro k hk; simpa using hdst k hk)]
  simp only [bind, Except.bind]
  rw [htg]
  have hall : ((List.range t.spins.length).all fun i => decide (|el t.spins i| < el m0.smults i)) = true := by
    rw [List.all_eq_true]
    intro k hk
    have := hok k (by rw [List.mem_range, hlen] at hk; exact hk)
    rw [t3] at this
    simpa using this
  rw [hall]
  obtain ⟨sc, hsc, hz⟩ := scores_zero (m0 :: ms) m0.smults t.spins i a
  rw [hsc]
  have hzero : ∀ x ∈ m0 :: ms, sc x = 0 ↔ x.spins = t.spins := by
    intro x hx
    rw [(hz x hx).2]
    constructor
    · intro h
      obtain ⟨x1, x2, -⟩ := hsh x hx
      exact el_ext _ _ (by rw [hlen, x1.2.1, x2]) (fun k hk => h k (by rw [x1.2.1, x2] at hk; omega))
    · intro h k _
      rw [h]
  have hbest : ((m0 :: ms).map sc).foldl min (((m0 :: ms).map sc).headD 0) = 0 := by
    refine foldl_min_zero _ _ ?_ ?_ (Or.inr ?_)
    · intro x hx
      obtain ⟨s, hs, rfl⟩ := List.mem_map.mp hx
      exact (hz s hs).1
    · exact (hz m0 (List.mem_cons_self ..)).1
    · exact List.mem_map.mpr ⟨t, ht, (hzero t ht).mpr rfl⟩
  rw [hbest]
  rw [filter_one sc t (m0 :: ms) ht hdiff hzero]
  rfl

def demoRef : Space := ⟨[2, 2], [2, 2], [0, 0], [1, 1], [0, 0], 1, []⟩
def demoUp : Space := ⟨[2, 2], [2, 2], [1, -1], [2, 2], [1, -1], 0, []⟩
def demoDown : Space := ⟨[2, 2], [2, 2], [-1, 1], [2, 2], [1, -1], 0, []⟩

/-- A manifold of two members, of which the second has the preferred projections. -/
example : selectFromManifold demoRef [demoUp, demoDown] = .ok (some demoDown) := by
  have two : ∀ k, k < demoRef.nfrag → k = 0 ∨ k = 1 := by
    intro k hk
    have : demoRef.nfrag = 2 := rfl
    omega
  refine C29_preferred demoRef demoUp [demoDown] demoDown 0 1 ⟨rfl, rfl, rfl, rfl⟩ ?_ (by simp [demoUp, demoDown])
    (by decide) (by decide) ?_ ?_ (by simp) ?_ ?_
  · intro x hx
    simp only [List.mem_cons, List.not_mem_nil, or_false] at hx
    rcases hx with rfl | rfl <;> exact ⟨⟨rfl, rfl, rfl, rfl⟩, rfl, rfl⟩
  · intro k hk
    rcases two k hk with rfl | rfl <;> decide
  · intro k hk
    rcases two k hk with rfl | rfl <;> decide
  · constructor <;> simp [el, demoRef, demoDown]
    intro k h0 h1
    match k, h0, h1 with
    | k + 2, _, _ => simp
  · intro k hk
    rcases two k hk with rfl | rfl <;> decide

end Verif.Props
