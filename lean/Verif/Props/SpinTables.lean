import Verif.Lemmas.SumRule
/-!
# C23 - C27: spin projections, genealogical couplings, filters
-/
namespace Verif.Props
open Verif.Spec Verif.Spaces

theorem mults_el {smults : List Int} (h : Mults smults) : ∀ i, i < smults.length → 1 ≤ el smults i := by
  intro i hi
  have : el smults i = smults[i] := by simp [el, hi]
  rw [this]
  exact h _ (by simp)

theorem mults_nonneg {smults : List Int} (h : Mults smults) : ∀ x ∈ smults.map (· - 1), 0 ≤ x := by
  intro x hx
  obtain ⟨y, hy, rfl⟩ := List.mem_map.mp hx
  have := h y hy
  omega

/-- C23. For every list of multiplicities `s_i + 1` and every total projection of the right parity not above the
maximum `∑ s_i`, the table lists, without repetition, exactly the vectors of local projections with that total. -/
theorem C23_table (smults spins : List Int) (hs : Mults smults)
    (hpar : ((smults.map (· - 1)).sum - spins.sum) % 2 = 0) (hle : spins.sum ≤ (smults.map (· - 1)).sum) :
    ∃ tbl, makeSpinShuffleTable smults spins = some tbl ∧ tbl.Nodup ∧
      ∀ m, m ∈ tbl ↔ SpinVec (smults.map (· - 1)) spins.sum m := by
  unfold makeSpinShuffleTable
  obtain ⟨h1, h2⟩ := spinTable_level smults (mults_el hs) (((smults.map (· - 1)).sum - spins.sum) / 2).toNat
  refine ⟨_, ?_, h1, ?_⟩
  · simp only [hpar, ne_eq, not_true, if_false]
  · intro m
    rw [h2]
    have : (smults.map (· - 1)).sum - 2 * ((((smults.map (· - 1)).sum - spins.sum) / 2).toNat : Int) = spins.sum := by
      rw [Int.toNat_of_nonneg (by omega)]
      omega
    rw [this]

/-- A triplet and a doublet with total projection 1/2. -/
example : Mults [3, 2] ∧ (([3, 2] : List Int).map (· - 1)).sum = 3 ∧ SpinVec [2, 1] 1 [2, -1] ∧ SpinVec [2, 1] 1 [0, 1] := by
  refine ⟨by intro x hx; simp at hx; omega, by decide, ⟨rfl, ?_, rfl⟩, ⟨rfl, ?_, rfl⟩⟩ <;>
  · intro i hi
    have : i = 0 ∨ i = 1 := by simp at hi; omega
    rcases this with rfl | rfl <;> decide

/-- C24. For every nonempty list of multiplicities and every requested total multiplicity `S + 1` of the right
parity, in range or not, the call succeeds and lists, without repetition, exactly the vectors of successive spin
changes of a coupling of the fragments, one after the other, to total spin `S`. -/
theorem C24_table (smults : List Int) (h0 : smults ≠ []) (hs : Mults smults) (lsf : Int)
    (hpar : ((smults.map (· - 1)).sum - (lsf - 1)) % 2 = 0) :
    ∃ tbl, makeSmultShuffleTable smults lsf = some tbl ∧ tbl.Nodup ∧
      ∀ t, t ∈ tbl ↔ Coupled (smults.map (· - 1)) t (lsf - 1) := by
  unfold makeSmultShuffleTable
  simp only [hpar, ne_eq, not_true, if_false]
  have hs0 : smults.map (· - 1) ≠ [] := by simpa using h0
  obtain ⟨am, am'⟩ := amax_spec _ hs0
  have hel : ∀ i, i < smults.length → el (smults.map (· - 1)) i = el smults i - 1 := fun i hi => el_map_sub smults i hi
  have hnn := mults_nonneg hs
  set s := smults.map (· - 1) with hsdef
  have hlen : s.length = smults.length := by simp [hsdef]
  have hpos : 0 < s.length := List.length_pos_iff.mpr hs0
  by_cases hr : lsf < 2 * (amax s + 1) - (s.sum + 1) ∨ lsf > s.sum + 1
  · rw [if_pos hr]
    refine ⟨[], rfl, List.nodup_nil, ?_⟩
    intro t
    simp only [List.not_mem_nil, false_iff]
    intro hc
    obtain ⟨c1, c2, c3, c4⟩ := coupled_range hc hnn
    have := c4 _ am
    omega
  · rw [if_neg hr]
    rw [not_or] at hr
    have hN : s.sum - 2 * (((s.sum - (lsf - 1)) / 2).toNat : Int) = lsf - 1 := by
      rw [Int.toNat_of_nonneg (by omega)]
      omega
    obtain ⟨T, hT, hnd, hgen, hmem⟩ := smultTable_level smults (mults_el hs) h0 lsf ((s.sum - (lsf - 1)) / 2).toNat hN
      ((s.sum - (lsf - 1)) / 2).toNat (Nat.le_refl _)
    rw [← hsdef] at hT hmem
    rw [hT]
    simp only []
    rw [if_pos]
    · refine ⟨_, rfl, (List.Sublist.map _ (tail_sublist smults T)).nodup hnd, ?_⟩
      intro t
      rw [coupled_iff]
      have hcs : ∀ t : List Int, ∀ i, i < t.length → el (cumsum t) i = (t.take (i + 1)).sum := cumsum_el
      constructor
      · intro ht
        obtain ⟨rg, hrg, rfl⟩ := List.mem_map.mp ht
        obtain ⟨m1, m2⟩ := (mem_tail smults T rg).mp hrg
        obtain ⟨l1, l2, l3, l4, l5⟩ := (hmem rg.1).mp (List.mem_map_of_mem m1)
        refine ⟨hs0, l1, l2, ?_, by rw [l5, hN]⟩
        intro i hi
        have e1 := m2 i (by omega)
        rw [hgen rg m1, hcs _ _ (by omega), hcs _ _ (by omega)] at e1
        have e2 := take_succ_sum rg.1 (i + 1)
        have e3 := l3 (i + 1) hi
        have e4 := hel (i + 1) (by omega)
        have e5 := l4 i (by omega)
        rw [show i + 1 + 1 = i + 2 from rfl] at e1 e2
        refine ⟨?_, by omega, by omega⟩
        rw [abs_le]
        omega
      · rintro ⟨-, l1, l2, l3, l5⟩
        have hnn0 : ∀ i, i < s.length → 0 ≤ el s i := by
          intro i hi
          have : el s i = s[i] := by simp [el, hi]
          rw [this]
          exact hnn _ (by simp)
        have hstep : ∀ i, i < s.length → -el s i ≤ el t i ∧ el t i ≤ el s i ∧ (el s i - el t i) % 2 = 0 := by
          intro i hi
          cases i with
          | zero => have := hnn0 0 hi; omega
          | succ i =>
            obtain ⟨t1, t2, t3⟩ := l3 i hi
            have e2 := take_succ_sum t (i + 1)
            rw [show i + 1 + 1 = i + 2 from rfl] at e2
            rw [abs_le] at t1
            omega
        have hps : ∀ i, i < s.length → 0 ≤ (t.take (i + 1)).sum := by
          intro i hi
          cases i with
          | zero => rw [take_succ_sum]; simp only [List.take_zero, List.sum_nil]; have := hnn0 0 hi; omega
          | succ i =>
            obtain ⟨t1, -, -⟩ := l3 i hi
            exact le_trans (abs_nonneg _) t1
        have hlev := (hmem t).mpr ⟨l1, l2, hstep, hps, by rw [l5, hN]⟩
        obtain ⟨rg, hrg, rfl⟩ := List.mem_map.mp hlev
        refine List.mem_map.mpr ⟨rg, (mem_tail smults T rg).mpr ⟨hrg, ?_⟩, rfl⟩
        intro i hi
        rw [hgen rg hrg, hcs _ _ (by omega), hcs _ _ (by omega)]
        obtain ⟨t1, t2, t3⟩ := l3 i (by omega)
        have e4 := hel (i + 1) (by omega)
        rw [abs_le] at t1
        rw [show i + 1 + 1 = i + 2 from rfl]
        omega
    · rw [List.all_eq_true]
      intro rg hrg
      obtain ⟨l1, -, -, -, l5⟩ := (hmem rg.1).mp (List.mem_map_of_mem hrg)
      rw [decide_eq_true_eq, hgen rg hrg, cumsum_el _ _ (by omega), List.take_of_length_le (by omega), l5, hN]

/-- A triplet, a doublet and a doublet coupled to a triplet. -/
example : ([3, 2, 2] : List Int) ≠ [] ∧ Mults [3, 2, 2] ∧ ((([3, 2, 2] : List Int).map (· - 1)).sum - (3 - 1)) % 2 = 0 ∧
    Coupled [2, 1, 1] [2, -1, 1] 2 := by
  refine ⟨by decide, by intro x hx; simp at hx; omega, by decide, ?_⟩
  exact Coupled.next 1 1 (Coupled.next 1 (-1) (Coupled.first 2) (by unfold Triangle; decide)) (by unfold Triangle; decide)

/-- C24: the table is nonempty exactly when the requested spin is one the fragments can couple to: not above the sum,
and not below what the largest spin leaves after subtracting all the others. -/
theorem C24_nonempty (smults : List Int) (h0 : smults ≠ []) (hs : Mults smults) (lsf : Int)
    (hpar : ((smults.map (· - 1)).sum - (lsf - 1)) % 2 = 0) (hpos : 1 ≤ lsf) :
    (∃ t tbl, makeSmultShuffleTable smults lsf = some tbl ∧ t ∈ tbl) ↔
      lsf - 1 ≤ (smults.map (· - 1)).sum ∧
      ∀ x ∈ smults.map (· - 1), x - ((smults.map (· - 1)).sum - x) ≤ lsf - 1 := by
  obtain ⟨tbl, h1, -, h2⟩ := C24_table smults h0 hs lsf hpar
  constructor
  · rintro ⟨t, tbl', e, ht⟩
    rw [h1] at e
    cases e
    obtain ⟨c1, c2, c3, c4⟩ := coupled_range ((h2 t).mp ht) (mults_nonneg hs)
    exact ⟨c2, fun x hx => by have := c4 x hx; omega⟩
  · rintro ⟨g1, g2⟩
    obtain ⟨t, ht⟩ := exists_coupled (smults.map (· - 1)) (by simpa using h0) (mults_nonneg hs) (lsf - 1) (by omega) g1 hpar
      (fun x hx => by have := g2 x hx; omega)
    exact ⟨t, tbl, h1, (h2 t).mpr ht⟩

/-- C25. The number of vectors of local projections with total projection `M` is the sum, over the total spins
`|M|, |M| + 2, ..., ∑ s_i`, of the number of couplings to that spin. The tables are those the code returns. -/
theorem C25_sum_rule (smults spins : List Int) (h0 : smults ≠ []) (hs : Mults smults)
    (n : Nat) (hn : (smults.map (· - 1)).sum = |spins.sum| + 2 * n)
    (tM : List (List Int)) (hM : makeSpinShuffleTable smults spins = some tM)
    (tS : Nat → List (List Int)) (hS : ∀ j, j ≤ n → makeSmultShuffleTable smults (|spins.sum| + 2 * j + 1) = some (tS j)) :
    tM.length = ((List.range (n + 1)).map fun j => (tS j).length).sum := by
  have h0' : smults.map (· - 1) ≠ [] := by simpa using h0
  have hnn := mults_nonneg hs
  have hpar : ((smults.map (· - 1)).sum - spins.sum) % 2 = 0 := by
    rcases abs_cases spins.sum with ⟨h, h'⟩ | ⟨h, h'⟩ <;> omega
  have hpm : spins.sum ≤ (smults.map (· - 1)).sum := by
    rcases abs_cases spins.sum with ⟨h, h'⟩ | ⟨h, h'⟩ <;> omega
  obtain ⟨tM', e1, nd1, m1⟩ := C23_table smults spins hs hpar hpm
  rw [hM] at e1
  cases e1
  have hr0 : (smults.map (· - 1)).reverse ≠ [] := by simpa using h0
  have hrn : ∀ x ∈ (smults.map (· - 1)).reverse, 0 ≤ x := fun x hx => hnn x (List.mem_reverse.mp hx)
  have lM : (tM.length : Int) = numM (smults.map (· - 1)).reverse spins.sum := by
    unfold numM
    rw [length_eq_of_same nd1 (nodup_enumM _ _)]
    intro v
    rw [m1, mem_enumM _ hrn, List.reverse_reverse]
  have lS : ∀ j, j ≤ n → ((tS j).length : Int) = numP (smults.map (· - 1)).reverse (|spins.sum| + 2 * j) := by
    intro j hj
    obtain ⟨t', e2, nd2, m2⟩ := C24_table smults h0 hs (|spins.sum| + 2 * j + 1) (by omega)
    rw [hS j hj] at e2
    cases e2
    unfold numP
    rw [length_eq_of_same nd2 (nodup_enumP _ _)]
    intro v
    have := abs_nonneg spins.sum
    rw [m2, mem_enumP _ hr0 hrn _ (by omega), List.reverse_reverse, add_sub_cancel_right]
  have := sum_rule (smults.map (· - 1)).reverse hr0 hrn spins.sum (n + 1) (by
    rw [List.sum_reverse, hn]
    push_cast
    omega)
  rw [← lM] at this
  have hsum : ((((List.range (n + 1)).map fun j => (tS j).length).sum : Nat) : Int) =
      ((List.range (n + 1)).map fun j : Nat => numP (smults.map (· - 1)).reverse (|spins.sum| + 2 * j)).sum := by
    rw [cast_sum_map]
    congr 1
    apply List.map_congr_left
    intro j hj
    rw [List.mem_range] at hj
    exact lS j (by omega)
  omega

/-- Three doublets with total projection 1/2: three vectors of projections, two couplings to a doublet and one to a
quartet. -/
example : ([2, 2, 2] : List Int) ≠ [] ∧ Mults [2, 2, 2] ∧
    (([2, 2, 2] : List Int).map (· - 1)).sum = |([1, 1, -1] : List Int).sum| + 2 * (1 : Nat) ∧
    numM [1, 1, 1] 1 = 3 ∧ numP [1, 1, 1] 1 = 2 ∧ numP [1, 1, 1] 3 = 1 := by
  refine ⟨by decide, by intro x hx; simp at hx; omega, by decide, by decide, by decide, by decide⟩

/-! ### C26 -/

/-- C26. For rootspaces whose total spins have the same parity, the test answers "orthogonal" exactly when no total
spin can be reached by coupling the local spins of both. -/
theorem C26_orthogonal (a b : List Int) (ha0 : a ≠ []) (hb0 : b ≠ []) (ha : Mults a) (hb : Mults b)
    (hpar : ((a.map (· - 1)).sum - (b.map (· - 1)).sum) % 2 = 0) :
    isOrthogonalBySmult a b = true ↔
      ¬ ∃ S ta tb, Coupled (a.map (· - 1)) ta S ∧ Coupled (b.map (· - 1)) tb S := by
  unfold isOrthogonalBySmult
  have ha0' : a.map (· - 1) ≠ [] := by simpa using ha0
  have hb0' : b.map (· - 1) ≠ [] := by simpa using hb0
  have han := mults_nonneg ha
  have hbn := mults_nonneg hb
  simp only []
  generalize a.map (· - 1) = A at *
  generalize b.map (· - 1) = B at *
  obtain ⟨a1, a2⟩ := amax_spec A ha0'
  obtain ⟨b1, b2⟩ := amax_spec B hb0'
  have sA : 0 ≤ A.sum := le_trans (han _ a1) (List.single_le_sum han _ a1)
  have sB : 0 ≤ B.sum := le_trans (hbn _ b1) (List.single_le_sum hbn _ b1)
  have mA : amax A ≤ A.sum := List.single_le_sum han _ a1
  have mB : amax B ≤ B.sum := List.single_le_sum hbn _ b1
  simp only [Bool.or_eq_true, decide_eq_true_eq]
  constructor
  · rintro h ⟨S, ta, tb, c1, c2⟩
    obtain ⟨x1, x2, -, x4⟩ := coupled_range c1 han
    obtain ⟨y1, y2, -, y4⟩ := coupled_range c2 hbn
    have := x4 _ a1
    have := y4 _ b1
    omega
  · intro h
    by_contra hc
    apply h
    obtain ⟨S, hS⟩ : ∃ S, S = min A.sum B.sum := ⟨_, rfl⟩
    obtain ⟨ta, hta⟩ := exists_coupled A ha0' han S (by omega) (by omega) (by omega) (by
      intro x hx
      have := a2 x hx
      omega)
    obtain ⟨tb, htb⟩ := exists_coupled B hb0' hbn S (by omega) (by omega) (by omega) (by
      intro x hx
      have := b2 x hx
      omega)
    exact ⟨S, ta, tb, hta, htb⟩

/-- Two triplets against one quintet and one singlet (not orthogonal), and against a septet and a singlet. -/
example : isOrthogonalBySmult [3, 3] [5, 1] = false ∧ isOrthogonalBySmult [3, 3] [7, 1] = true ∧
    ((([3, 3] : List Int).map (· - 1)).sum - (([7, 1] : List Int).map (· - 1)).sum) % 2 = 0 := by decide

/-! ### C27 -/

theorem within_iff (cmp : Int → Int → Bool) (le : Int → Int → Prop) (h : ∀ a b, cmp a b = true ↔ le a b) (b : Bound)
    (x : List Int) : within cmp b x = true ↔ Bounded le b x := by
  unfold within Bounded
  cases b with
  | none => simp
  | some bs => simp [List.all_eq_true, h]

/-- The charge and multiplicity windows are applied exactly. -/
theorem C27_windows {α : Type} (rows : List (List Int × List Int × α)) (maxC minC maxS minS : Bound) :
    ∀ r, r ∈ filterSpaces rows maxC minC maxS minS none none ↔ r ∈ rows ∧
      Bounded (· ≤ ·) maxC r.1 ∧ Bounded (· ≥ ·) minC r.1 ∧ Bounded (· ≤ ·) maxS r.2.1 ∧ Bounded (· ≥ ·) minS r.2.1 := by
  intro r
  unfold filterSpaces filterKeeps
  simp only [List.mem_filter, Bool.and_eq_true]
  rw [within_iff _ (· ≤ ·) (by simp), within_iff _ (· ≥ ·) (by simp), within_iff _ (· ≤ ·) (by simp),
    within_iff _ (· ≥ ·) (by simp)]
  tauto

example : (filterSpaces [([0, 0], [1, 1], 0), ([1, -1], [2, 2], 1)] (some [0, 0]) none none none none none).map (·.2.2) =
    [0] := by decide

theorem reaches_iff (smults : List Int) (h0 : smults ≠ []) (hs : Mults smults) (T : Int) (hT : 1 ≤ T)
    (hpar : ((smults.map (· - 1)).sum - (T - 1)) % 2 = 0) :
    Reaches smults T ↔ 2 * amax (smults.map (· - 1)) - (smults.map (· - 1)).sum ≤ T - 1 ∧
      T - 1 ≤ (smults.map (· - 1)).sum := by
  have h0' : smults.map (· - 1) ≠ [] := by simpa using h0
  have hn := mults_nonneg hs
  obtain ⟨a1, a2⟩ := amax_spec _ h0'
  unfold Reaches
  constructor
  · rintro ⟨t, ht⟩
    obtain ⟨c1, c2, c3, c4⟩ := coupled_range ht hn
    exact ⟨c4 _ a1, c2⟩
  · rintro ⟨h1, h2⟩
    exact exists_coupled _ h0' hn _ (by omega) h2 hpar (fun x hx => by have := a2 x hx; omega)

/-- Missing from the full statement: targets whose parity does not match the rootspace. For target multiplicities of
the right parity `target_all_smult` keeps a rootspace exactly when its local spins can couple to all of them. -/
theorem C27_all_partial (charges smults : List Int) (h0 : smults ≠ []) (hs : Mults smults) (targets : List Int)
    (hT : ∀ T ∈ targets, 1 ≤ T ∧ ((smults.map (· - 1)).sum - (T - 1)) % 2 = 0) :
    filterKeeps charges smults none none none none none (some targets) = true ↔ ∀ T ∈ targets, Reaches smults T := by
  unfold filterKeeps within
  simp only [Bool.true_and, Bool.and_eq_true, List.all_eq_true, List.mem_map, forall_exists_index, and_imp,
    forall_apply_eq_imp_iff₂, decide_eq_true_eq]
  constructor
  · rintro ⟨h1, h2⟩ T hmem
    exact (reaches_iff smults h0 hs T (hT T hmem).1 (hT T hmem).2).mpr ⟨h1 T hmem, h2 T hmem⟩
  · intro h
    constructor <;> intro T hmem
    · exact ((reaches_iff smults h0 hs T (hT T hmem).1 (hT T hmem).2).mp (h T hmem)).1
    · exact ((reaches_iff smults h0 hs T (hT T hmem).1 (hT T hmem).2).mp (h T hmem)).2

example : filterKeeps [0, 0] [3, 3] none none none none none (some [1, 3, 5]) = true ∧
    filterKeeps [0, 0] [5, 1] none none none none none (some [1, 5]) = false := by decide

/-- Missing: several targets, and targets of the wrong parity. With one target of the right parity
`target_any_smult` keeps a rootspace exactly when its local spins can couple to it. -/
theorem C27_any_partial (charges smults : List Int) (h0 : smults ≠ []) (hs : Mults smults) (T : Int)
    (hT : 1 ≤ T ∧ ((smults.map (· - 1)).sum - (T - 1)) % 2 = 0) :
    filterKeeps charges smults none none none none (some [T]) none = true ↔ Reaches smults T := by
  unfold filterKeeps within
  simp only [Bool.true_and, Bool.and_eq_true, List.map_cons, List.map_nil, List.any_cons, List.any_nil, Bool.or_false,
    decide_eq_true_eq]
  rw [reaches_iff smults h0 hs T hT.1 hT.2]

/-- `target_any_smult` never drops a rootspace that can couple to one of the targets. -/
theorem C27_any_keeps (charges smults : List Int) (hs : Mults smults) (h0 : smults ≠ []) (targets : List Int) (T : Int)
    (hT : T ∈ targets) (hr : Reaches smults T) :
    filterKeeps charges smults none none none none (some targets) none = true := by
  obtain ⟨t, ht⟩ := hr
  obtain ⟨c1, c2, c3, c4⟩ := coupled_range ht (mults_nonneg hs)
  obtain ⟨a1, -⟩ := amax_spec (smults.map (· - 1)) (by simpa using h0)
  unfold filterKeeps within
  simp only [Bool.true_and, Bool.and_eq_true, List.any_eq_true, List.mem_map, exists_exists_and_eq_and,
    decide_eq_true_eq]
  exact ⟨⟨T, hT, c4 _ a1⟩, ⟨T, hT, c2⟩⟩

example : filterKeeps [0, 0] [3, 3] none none none none (some [3, 9]) none = true := by decide

/-- C27 fails for `target_any_smult`: two triplets couple to multiplicities 1, 3, 5. For two orbitals-spaces with
spins 3 and 1 (multiplicities 3 and 5 reachable), the targets 1 and 7 are both unreachable, but the rootspace is kept,
because one target is above the minimum and another one is below the maximum. -/
theorem C27_any_violated :
    ¬ ∀ (charges smults targets : List Int), smults ≠ [] → Mults smults →
      (∀ T ∈ targets, 1 ≤ T ∧ ((smults.map (· - 1)).sum - (T - 1)) % 2 = 0) →
      (filterKeeps charges smults none none none none (some targets) none = true ↔ ∃ T ∈ targets, Reaches smults T) := by
  intro h
  have := h [0, 0] [4, 2] [1, 7] (by decide) (by intro x hx; simp at hx; omega) (by
    intro T hT
    simp at hT
    rcases hT with rfl | rfl <;> decide)
  have hk : filterKeeps [0, 0] [4, 2] none none none none (some [1, 7]) none = true := by decide
  obtain ⟨T, hT, t, ht⟩ := this.mp hk
  obtain ⟨c1, c2, c3, c4⟩ := coupled_range ht (mults_nonneg (by intro x hx; simp at hx; omega))
  have := c4 3 (by decide)
  simp at hT c2 this
  omega

/-- C27 fails for `target_all_smult` too when a target has the wrong parity: two doublets couple to singlets and
triplets, never to a doublet, but the rootspace is kept. -/
theorem C27_all_violated :
    ¬ ∀ (charges smults targets : List Int), smults ≠ [] → Mults smults → (∀ T ∈ targets, 1 ≤ T) →
      (filterKeeps charges smults none none none none none (some targets) = true ↔ ∀ T ∈ targets, Reaches smults T) := by
  intro h
  have := h [0, 0] [2, 2] [2] (by decide) (by intro x hx; simp at hx; omega) (by simp)
  have hk : filterKeeps [0, 0] [2, 2] none none none none none (some [2]) = true := by decide
  obtain ⟨t, ht⟩ := this.mp hk 2 (by simp)
  obtain ⟨c1, c2, c3, c4⟩ := coupled_range ht (mults_nonneg (by intro x hx; simp at hx; omega))
  simp at c3

end Verif.Props
