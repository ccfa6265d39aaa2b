import Verif.Lemmas.Swaps
import Verif.Model.Signs
namespace Verif.Signs
open List Verif.Spec Verif

/-! ## C01 -/

theorem reverse_range_succ (n : Nat) : (List.range (n+1)).reverse = n :: (List.range n).reverse := by
  simp [List.range_succ]

def permsF (a b : Nat → Nat) : Nat → Nat
  | 0 => 0
  | n + 1 => permsF a b n + b n * ((List.range n).map a).sum

theorem length_flatMap_block (n : Nat) (a : Nat → Nat) (u : Bool) :
    ((List.range n).reverse.flatMap (fun f => block f u (a f))).length = ((List.range n).map a).sum := by
  induction n with
  | zero => simp
  | succ n ih =>
    rw [reverse_range_succ, List.flatMap_cons, List.length_append, ih, List.range_succ]
    simp; omega

theorem swaps_spin (a b : Nat → Nat) (n : Nat) :
    Swaps (permsF a b n)
      ((List.range n).reverse.flatMap (fun f => block f true (a f) ++ block f false (b f)))
      ((List.range n).reverse.flatMap (fun f => block f true (a f)) ++
       (List.range n).reverse.flatMap (fun f => block f false (b f))) := by
  induction n with
  | zero => exact Swaps.refl _
  | succ n ih =>
    simp only [reverse_range_succ, List.flatMap_cons]
    have h1 := ih.ctx (block n true (a n) ++ block n false (b n)) []
    have h2 := (swaps_block (block n false (b n))
      ((List.range n).reverse.flatMap (fun f => block f true (a f)))).ctx (block n true (a n))
      ((List.range n).reverse.flatMap (fun f => block f false (b f)))
    rw [length_flatMap_block, length_block] at h2
    have h3 := Swaps.trans (by simpa [List.append_assoc] using h1)
      (by simpa [List.append_assoc] using h2)
    simpa [permsF, List.append_assoc] using h3

theorem zipIdx_map_eq_range {β : Type} (l : List Nat) (F : Nat × Nat → β) :
    l.zipIdx.map F = (List.range l.length).map (fun i => F (l.getD i 0, i)) := by
  apply List.ext_getElem
  · simp
  · intro i h1 h2
    simp at h1
    simp [h1]

theorem take_sum_eq (l : List Nat) (k : Nat) :
    (l.take k).sum = ((List.range k).map (fun i => l.getD i 0)).sum := by
  induction k generalizing l with
  | zero => simp
  | succ k ih =>
    rcases l with _ | ⟨x, l⟩
    · have := ih []
      rw [List.range_succ, List.map_append, List.sum_append, ← this]; simp
    · rw [List.take_succ_cons, List.sum_cons, ih l, List.range_succ_eq_map]
      simp [Function.comp_def]

theorem permsF_eq (a b : Nat → Nat) (n : Nat) :
    permsF a b (n+1) = ((List.range n).map (fun i => ((List.range (i+1)).map a).sum * b (i+1))).sum := by
  induction n with
  | zero => simp [permsF]
  | succ n ih =>
    have e : (List.range (n+1)).map (fun i => ((List.range (i+1)).map a).sum * b (i+1)) =
        (List.range n).map (fun i => ((List.range (i+1)).map a).sum * b (i+1)) ++
        [((List.range (n+1)).map a).sum * b (n+1)] := by
      rw [List.range_succ (n := n), List.map_append, ← List.range_succ (n := n)]; rfl
    rw [permsF, ih, e, List.sum_append, Nat.mul_comm]
    simp

theorem spinShufflePerms_eq (na nb : List Nat) (h : na.length = nb.length) :
    spinShufflePerms na nb = permsF (fun f => na.getD f 0) (fun f => nb.getD f 0) na.length := by
  unfold spinShufflePerms
  rw [zipIdx_map_eq_range]
  rcases hn : nb with _ | ⟨x, t⟩
  · have : na.length = 0 := by rw [h, hn]; rfl
    simp [this, permsF]
  · have hl : na.length = t.length + 1 := by rw [h, hn]; rfl
    rw [hl, permsF_eq]
    simp only [List.drop_succ_cons, List.drop_zero]
    congr 1
    apply List.map_congr_left
    intro i _
    simp only [take_sum_eq]
    simp

theorem nodup_interleaved (na nb : List Nat) : (interleavedWord na nb).Nodup := by
  unfold interleavedWord
  generalize na.length = n
  induction n with
  | zero => simp
  | succ n ih =>
    rw [reverse_range_succ, List.flatMap_cons, List.nodup_append, List.nodup_append]
    refine ⟨⟨nodup_block _ _ _, nodup_block _ _ _, ?_⟩, ih, ?_⟩
    · intro x hx y hy e
      rw [mem_block] at hx hy
      subst e
      simp_all
    · intro x hx y hy e
      subst e
      rw [List.mem_append, mem_block, mem_block] at hx
      simp only [List.mem_flatMap, List.mem_reverse, List.mem_range, List.mem_append, mem_block] at hy
      obtain ⟨f, hf, hy⟩ := hy
      have h1 : x.frag = n := by rcases hx with h | h <;> exact h.2.1
      have h2 : x.frag = f := by rcases hy with h | h <;> exact h.2.1
      omega

/-! ## set order -/

theorem newSize_ge (m fuel s : Nat) : s ≤ PySet.newSize m fuel s := by
  induction fuel generalizing s with
  | zero => simp [PySet.newSize]
  | succ k ih =>
    unfold PySet.newSize
    split
    · have := ih (s*2); omega
    · omega

/-- every key sits in its own slot -/
def Own (t : List (Option Nat)) (s : Nat → Bool) : Prop :=
  8 ≤ t.length ∧ ∀ j, j < t.length → t[j]? = some (if s j then some j else none)

theorem Own.slot {t s} (h : Own t s) {v : Nat} (hv : v < 8) : PySet.slot t v = v := by
  obtain ⟨hl, ho⟩ := h
  have hv' : v < t.length := by omega
  unfold PySet.slot
  rw [Nat.mod_eq_of_lt hv']
  have : 64 + t.length = (63 + t.length) + 1 := by omega
  rw [this, PySet.slotOf]
  have hs : ∀ n, 0 < n → PySet.scan t v v n = some v := by
    intro n hn
    obtain ⟨m, rfl⟩ : ∃ m, n = m + 1 := ⟨n-1, by omega⟩
    unfold PySet.scan
    rw [List.range_succ_eq_map, List.map_cons, List.find?_cons]
    have := ho v hv'
    simp only [Nat.add_zero, this]
    cases s v <;> simp
  rw [hs _ (by split <;> omega)]

theorem Own.set {t s} (h : Own t s) {v : Nat} (hv : v < 8) :
    Own (t.set v (some v)) (fun j => s j || decide (j = v)) := by
  obtain ⟨hl, ho⟩ := h
  refine ⟨by simpa using hl, ?_⟩
  intro j hj
  rw [List.length_set] at hj
  rw [List.getElem?_set]
  by_cases e : v = j
  · subst e; simp [hj]
  · have e' : ¬ j = v := fun h => e h.symm
    simp [e, e', ho j hj]

theorem own_replicate (n : Nat) (h : 8 ≤ n) : Own (List.replicate n none) (fun _ => false) := by
  refine ⟨by simpa using h, ?_⟩
  intro j hj
  simp at hj
  simp [List.getElem?_replicate, hj]

theorem Own.congr {t s s'} (h : Own t s) (e : ∀ j, s j = s' j) : Own t s' := by
  have : s = s' := funext e
  rwa [← this]

theorem Own.insertClean_foldl (l : List Nat) (hl : ∀ v ∈ l, v < 8) {t s} (h : Own t s) :
    Own (l.foldl PySet.insertClean t) (fun j => s j || decide (j ∈ l)) := by
  induction l generalizing t s with
  | nil => simpa using h
  | cons v l ih =>
    rw [List.foldl_cons]
    have hv : v < 8 := hl v (by simp)
    have h1 : Own (PySet.insertClean t v) (fun j => s j || decide (j = v)) := by
      unfold PySet.insertClean; rw [h.slot hv]; exact h.set hv
    exact (ih (fun w hw => hl w (by simp [hw])) h1).congr (by intro j; simp [Bool.or_assoc])

theorem Own.eq_map {t s} (h : Own t s) :
    t = (List.range t.length).map (fun j => if s j then some j else none) := by
  apply List.ext_getElem
  · simp
  · intro i h1 h2
    have := h.2 i h1
    rw [List.getElem?_eq_getElem h1] at this
    simpa using this

theorem Own.filterMap {t s} (h : Own t s) : t.filterMap id = (List.range t.length).filter s := by
  conv => lhs; rw [h.eq_map]
  rw [List.filterMap_map]
  generalize t.length = n
  induction n with
  | zero => simp
  | succ n ih =>
    simp only [List.range_succ, List.filterMap_append, List.filter_append, ih]
    cases hs : s n <;> simp [hs]

theorem Own.add {t s} (h : Own t s) (hs : ∀ j, s j = true → j < 8) {v : Nat} (hv : v < 8) :
    Own (PySet.add t v) (fun j => s j || decide (j = v)) := by
  unfold PySet.add
  simp only [h.slot hv]
  split
  · rename_i he
    have := h.2 v (by have := h.1; omega)
    rw [this] at he
    refine h.congr ?_
    intro j
    by_cases e : j = v
    · subst e; cases hsv : s j <;> simp_all
    · simp [e]
  · have h1 := h.set hv
    split
    · exact h1
    · unfold PySet.resize
      rw [h1.filterMap]
      have h2 := Own.insertClean_foldl ((List.range (t.set v (some v)).length).filter
        (fun j => s j || decide (j = v))) (by
          intro w hw
          rw [List.mem_filter] at hw
          have := hw.2
          simp at this
          rcases this with h | h
          · exact hs _ h
          · omega) (own_replicate (PySet.newSize (if ((List.range (t.set v (some v)).length).filter
              (fun j => s j || decide (j = v))).length > 50000 then
              ((List.range (t.set v (some v)).length).filter
              (fun j => s j || decide (j = v))).length * 2 else
              ((List.range (t.set v (some v)).length).filter
              (fun j => s j || decide (j = v))).length * 4) 64 8) (newSize_ge _ _ _))
      refine h2.congr ?_
      intro j
      simp only [Bool.false_or, List.mem_filter, List.mem_range, List.length_set]
      by_cases hj : (s j || decide (j = v)) = true
      · have : j < t.length := by
          have := h.1
          simp at hj
          rcases hj with h' | h'
          · have := hs _ h'; omega
          · omega
        rw [hj]
        simp [this]
      · simp only [Bool.not_eq_true] at hj
        rw [hj]
        simp

theorem own_foldl (l : List Nat) (hl : ∀ v ∈ l, v < 8) {t s} (h : Own t s)
    (hs : ∀ j, s j = true → j < 8) :
    Own (l.foldl PySet.add t) (fun j => s j || decide (j ∈ l)) := by
  induction l generalizing t s with
  | nil => simpa using h
  | cons v l ih =>
    have hv : v < 8 := hl v (by simp)
    rw [List.foldl_cons]
    refine (ih (fun w hw => hl w (by simp [hw])) (h.add hs hv) ?_).congr (by intro j; simp [Bool.or_assoc])
    intro j hj
    simp at hj
    rcases hj with h | h
    · exact hs _ h
    · omega

theorem filter_range_extend (p : Nat → Bool) (a k : Nat) (h : ∀ j, a ≤ j → p j = false) :
    (List.range (a + k)).filter p = (List.range a).filter p := by
  induction k with
  | zero => rfl
  | succ k ih =>
    rw [← Nat.add_assoc, List.range_succ, List.filter_append, ih]
    simp [h (a+k) (by omega)]

theorem filter_range_eq (p : Nat → Bool) (a b : Nat) (h : ∀ j, p j = true → j < a ∧ j < b) :
    (List.range a).filter p = (List.range b).filter p := by
  have key : ∀ c, c ≤ a → c = min a b → (List.range a).filter p = (List.range c).filter p := by
    intro c hc e
    obtain ⟨k, rfl⟩ := Nat.exists_eq_add_of_le hc
    apply filter_range_extend
    intro j hj
    cases hp : p j
    · rfl
    · have := h j hp; omega
  have key2 : ∀ c, c ≤ b → c = min a b → (List.range b).filter p = (List.range c).filter p := by
    intro c hc e
    obtain ⟨k, rfl⟩ := Nat.exists_eq_add_of_le hc
    apply filter_range_extend
    intro j hj
    cases hp : p j
    · rfl
    · have := h j hp; omega
  rw [key (min a b) (by omega) rfl, key2 (min a b) (by omega) rfl]

/-- `list(set(l))` is ascending and duplicate-free when all entries are below 8. -/
theorem listSet_small (l : List Nat) (n : Nat) (hl : ∀ v ∈ l, v < 8) (hn : ∀ v ∈ l, v < n) :
    PySet.listSet l = (List.range n).filter (fun f => decide (f ∈ l)) := by
  unfold PySet.listSet
  have h := own_foldl l hl (own_replicate 8 (by omega)) (by simp)
  rw [h.filterMap]
  have e : (fun j => ((fun _ => false) j : Bool) || decide (j ∈ l)) = fun f => decide (f ∈ l) := by
    funext j; simp
  rw [e]
  apply filter_range_eq
  intro j hj
  have hj' : j ∈ l := by simpa using hj
  have := h.1
  exact ⟨by have := hl j hj'; omega, hn j hj'⟩

/-! ## C02 -/

theorem fragWord_append (ne : List Nat) (a b : List Nat) :
    fragWord ne (a ++ b) = fragWord ne a ++ fragWord ne b := by
  simp [fragWord]

theorem fragWord_length (ne : List Nat) (a : List Nat) :
    (fragWord ne a).length = (a.map (fun f => ne.getD f 0)).sum := by
  induction a with
  | nil => simp [fragWord]
  | cons x a ih =>
    simp only [fragWord, List.flatMap_cons, List.length_append, length_block, List.map_cons,
      List.sum_cons] at ih ⊢
    omega

theorem descending_succ (n : Nat) : descending (n+1) = n :: descending n := reverse_range_succ n

theorem nodup_descending (n : Nat) : (descending n).Nodup := by
  unfold descending
  exact (List.reverse_perm _).nodup_iff.mpr List.nodup_range

theorem nodup_fragWord (ne : List Nat) (l : List Nat) (h : l.Nodup) : (fragWord ne l).Nodup := by
  induction l with
  | nil => simp [fragWord]
  | cons x l ih =>
    have hx := List.nodup_cons.mp h
    unfold fragWord
    rw [List.flatMap_cons, List.nodup_append]
    refine ⟨nodup_block _ _ _, ih hx.2, ?_⟩
    intro u hu v hv e
    subst e
    rw [mem_block] at hu
    simp only [List.mem_flatMap, mem_block] at hv
    obtain ⟨f, hf, hv⟩ := hv
    have : f = x := by rw [← hv.2.1, hu.2.1]
    subst this
    exact hx.1 hf

def gath (low : Nat) (p : Nat → Bool) (m : Nat) : List Nat :=
  (descending m).filter (fun f => !p f && decide (low < f)) ++
  (descending m).filter p ++
  (descending m).filter (fun f => !p f && decide (f < low))

/-- electrons of spectators strictly above `low` and below `m` -/
def specSum (ne : List Nat) (low : Nat) (p : Nat → Bool) (m : Nat) : Nat :=
  (((descending m).filter (fun f => !p f && decide (low < f))).map (fun f => ne.getD f 0)).sum

def gperms (ne : List Nat) (low : Nat) (p : Nat → Bool) : Nat → Nat
  | 0 => 0
  | m + 1 => gperms ne low p m + if p m then ne.getD m 0 * specSum ne low p m else 0

theorem swaps_gath (ne : List Nat) (low : Nat) (p : Nat → Bool) (n : Nat)
    (hlow : ∀ j, j < n → p j = true → low ≤ j) (hp : low < n → p low = true) (m : Nat) (hm : m ≤ n) :
    Swaps (gperms ne low p m) (fragWord ne (descending m)) (fragWord ne (gath low p m)) := by
  induction m with
  | zero => exact Swaps.refl _
  | succ m ih =>
    have ih := ih (by omega)
    have h1 := ih.ctx (block m true (ne.getD m 0)) []
    have e0 : fragWord ne (descending (m+1)) = block m true (ne.getD m 0) ++ fragWord ne (descending m) := by
      rw [descending_succ]; simp [fragWord]
    have e1 : ∀ l, fragWord ne (m :: l) = block m true (ne.getD m 0) ++ fragWord ne l := by
      intro l; simp [fragWord]
    rw [e0]
    simp only [List.append_nil] at h1
    by_cases hpm : p m = true
    · have hs := (swaps_block (block m true (ne.getD m 0)) (fragWord ne
        ((descending m).filter (fun f => !p f && decide (low < f))))).ctx []
        (fragWord ne ((descending m).filter p ++ (descending m).filter (fun f => !p f && decide (f < low))))
      rw [length_block, fragWord_length] at hs
      have := h1.trans (by
        simpa [gath, fragWord_append, List.append_assoc] using hs)
      have e2 : gath low p (m+1) = (descending m).filter (fun f => !p f && decide (low < f)) ++
          (m :: (descending m).filter p) ++ (descending m).filter (fun f => !p f && decide (f < low)) := by
        unfold gath
        rw [descending_succ]
        simp [List.filter_cons, hpm]
      rw [e2]
      refine Swaps.cast (n := gperms ne low p m + ne.getD m 0 * specSum ne low p m) ?_
        (by simp [gperms, hpm])
      simpa [fragWord_append, e1, List.append_assoc, specSum] using this
    · have hpf : p m = false := by simpa using hpm
      have hg : gath low p (m+1) = m :: gath low p m := by
        rcases Nat.lt_trichotomy low m with hl | hl | hl
        · unfold gath
          rw [descending_succ]
          have : ¬ m < low := by omega
          simp [List.filter_cons, hpf, hl, this]
        · exfalso
          have : p low = true := hp (by omega)
          rw [hl] at this
          exact hpm this
        · have n1 : (descending m).filter (fun f => !p f && decide (low < f)) = [] := by
            rw [List.filter_eq_nil_iff]
            intro a ha
            simp [descending] at ha
            simp; intro; omega
          have n2 : (descending m).filter p = [] := by
            rw [List.filter_eq_nil_iff]
            intro a ha hpa
            simp [descending] at ha
            have := hlow a (by omega) hpa
            omega
          unfold gath
          rw [descending_succ]
          have h' : ¬ low < m := by omega
          simp [List.filter_cons, hpf, hl, h', n1, n2]
      rw [hg, e1]
      simpa [gperms, hpf] using h1

/-- the loop's state after the involved fragments below `m` have been visited -/
theorem frag_fold (ne : List Nat) (low : Nat) (p : Nat → Bool) (n : Nat)
    (hlow : ∀ j, j < n → p j = true → low ≤ j) (hp : p low = true) (m : Nat)
    (hm : m ≤ n) (hlm : low < m) :
    ∃ rest lf nb, (List.range m).filter p = low :: rest ∧
      rest.foldl (fragShuffleStep ne) (low, 0, 0) = (lf, nb, gperms ne low p m) ∧
      low ≤ lf ∧ lf < m ∧
      nb + ((List.range' (lf+1) (m - (lf+1))).map (fun j => ne.getD j 0)).sum = specSum ne low p m := by
  have emp : ∀ k, k ≤ low → k ≤ n → (List.range k).filter p = [] ∧ gperms ne low p k = 0 := by
    intro k hk hkn
    refine ⟨?_, ?_⟩
    · rw [List.filter_eq_nil_iff]
      intro a ha hpa
      simp at ha
      have := hlow a (by omega) hpa
      omega
    · induction k with
      | zero => rfl
      | succ k ih =>
        have : p k = false := by
          cases h : p k
          · rfl
          · have := hlow k (by omega) h; omega
        simp [gperms, this, ih (by omega) (by omega)]
  have spec0 : ∀ k, k ≤ low + 1 → specSum ne low p k = 0 := by
    intro k hk
    unfold specSum
    have : (descending k).filter (fun f => !p f && decide (low < f)) = [] := by
      rw [List.filter_eq_nil_iff]
      intro a ha
      simp [descending] at ha
      simp; intro; omega
    rw [this]; simp
  induction m with
  | zero => omega
  | succ m ih =>
    by_cases hle : low = m
    · subst hle
      refine ⟨[], low, 0, ?_, ?_, Nat.le_refl _, Nat.lt_succ_self _, ?_⟩
      · rw [List.range_succ, List.filter_append, (emp low (Nat.le_refl _) (by omega)).1]
        simp [hp]
      · simp [gperms, (emp low (Nat.le_refl _) (by omega)).2, hp, spec0 low (by omega)]
      · simp [spec0 (low+1) (by omega)]
    · obtain ⟨rest, lf, nb, hf, hfold, hl1, hl2, hsum⟩ := ih (by omega) (by omega)
      have hfil : (List.range (m+1)).filter p = (low :: rest) ++ (if p m then [m] else []) := by
        rw [List.range_succ, List.filter_append, hf]
        cases hpm : p m <;> simp [hpm]
      have hsS : specSum ne low p (m+1) = specSum ne low p m + if p m then 0 else ne.getD m 0 := by
        unfold specSum
        rw [descending_succ]
        have : low < m := by omega
        cases hpm : p m
        · simp [List.filter_cons, hpm, this]; omega
        · simp [List.filter_cons, hpm]
      by_cases hpm : p m = true
      · refine ⟨rest ++ [m], m, specSum ne low p m, ?_, ?_, by omega, by omega, ?_⟩
        · rw [hfil]; simp [hpm]
        · rw [List.foldl_append, hfold]
          simp only [List.foldl_cons, List.foldl_nil, fragShuffleStep]
          have hnb : (if 1 < (m : Int) - (lf : Int) then
              nb + ((List.range' (lf+1) (m - (lf+1))).map (fun j => ne.getD j 0)).sum else nb)
              = specSum ne low p m := by
            split
            · exact hsum
            · have : m - (lf+1) = 0 := by omega
              rw [this] at hsum
              simpa using hsum
          rw [hnb]
          simp only [gperms, hpm, if_true, Prod.mk.injEq, true_and]
          split
          · rfl
          · rename_i h0
            simp only [ne_eq, Decidable.not_not] at h0
            rw [h0]; simp
        · rw [hsS]; simp [hpm]
      · have hpf : p m = false := by simpa using hpm
        refine ⟨rest, lf, nb, ?_, ?_, hl1, by omega, ?_⟩
        · rw [hfil]; simp [hpf]
        · simpa [gperms, hpf] using hfold
        · rw [hsS, ← hsum]
          have : m + 1 - (lf+1) = (m - (lf+1)) + 1 := by omega
          rw [this, List.range'_concat]
          have e : lf + 1 + 1 * (m - (lf+1)) = m := by omega
          rw [List.map_append, List.sum_append, e]
          simp [hpf]; omega

theorem find_low (n : Nat) (p : Nat → Bool) :
    let low := ((List.range n).find? p).getD n
    (∀ j, j < n → p j = true → low ≤ j) ∧ (low < n → p low = true) ∧ (low ≤ n) := by
  intro low
  cases h : (List.range n).find? p with
  | none =>
    have hlow : low = n := by simp [low, h]
    rw [List.find?_eq_none] at h
    refine ⟨fun j hj hp => ?_, fun hl => by omega, by omega⟩
    exact absurd hp (by simpa using h j (by simpa using hj))
  | some v =>
    have hlow : low = v := by simp [low, h]
    rw [hlow]
    have hm := List.mem_of_find?_eq_some h
    have hpv := List.find?_some h
    simp at hm
    refine ⟨fun j hj hp => ?_, fun _ => hpv, by omega⟩
    rcases Nat.lt_or_ge j v with hjv | hjv
    · exfalso
      rw [List.find?_eq_some_iff_append] at h
      obtain ⟨_, as, bs, he, hno⟩ := h
      have hlen : as.length = v := by
        have h1 : (List.range n)[as.length]? = some v := by rw [he]; simp
        rw [List.getElem?_range] at h1
        · simpa using h1
        · have : as.length < (List.range n).length := by rw [he]; simp
          simpa using this
      have hja : (List.range n)[j]? = as[j]? := by
        rw [he, List.getElem?_append_left (by omega)]
      rw [List.getElem?_range (by omega)] at hja
      have : j ∈ as := List.mem_of_getElem? hja.symm
      have := hno j this
      simp [hp] at this
    · exact hjv

theorem fragShuffle_sorted (ne : List Nat) (n : Nat) (p : Nat → Bool) :
    IsReorderSign (fragWord ne (descending n)) (fragWord ne (gatheredFrags n p))
      (fragShuffleOf ne ((List.range n).filter p)) := by
  obtain ⟨h1, h2, h3⟩ := find_low n p
  generalize hlow : ((List.range n).find? p).getD n = low at h1 h2 h3
  have hpath := swaps_gath ne low p n h1 h2 n (Nat.le_refl _)
  have hnd : (fragWord ne (descending n)).Nodup := by
    apply nodup_fragWord
    exact nodup_descending n
  have hg : gatheredFrags n p = gath low p n := by
    unfold gatheredFrags gath
    rw [hlow]
  rw [hg]
  have hres := IsReorderSign.of_path hnd hpath
  have : fragShuffleOf ne ((List.range n).filter p) = if gperms ne low p n % 2 = 0 then 1 else -1 := by
    by_cases hl : low < n
    · obtain ⟨rest, lf, nb, hf, hfold, _⟩ := frag_fold ne low p n h1 (h2 hl) n (Nat.le_refl _) hl
      rw [hf, fragShuffleOf, hfold]
      rfl
    · have hno : (List.range n).filter p = [] := by
        rw [List.filter_eq_nil_iff]
        intro a ha hpa
        simp at ha
        have := h1 a ha hpa
        omega
      have hz : ∀ k, k ≤ n → gperms ne low p k = 0 := by
        intro k
        induction k with
        | zero => intro _; rfl
        | succ k ih =>
          intro hk
          have : p k = false := by
            cases h : p k
            · rfl
            · have := h1 k (by omega) h; omega
          simp [gperms, this, ih (by omega)]
      rw [hno, hz n (Nat.le_refl _)]
      rfl
  rw [this]
  exact hres

end Verif.Signs

namespace Verif.Signs
open List Verif.Spec Verif

/-! ## C03 -/

theorem desc_split (n : Nat) (p : Nat → Bool) (i : Nat) :
    (descending n).filter p = (descending n).filter (fun f => p f && decide (i < f)) ++
      (descending n).filter (fun f => p f && decide (f ≤ i)) := by
  induction n with
  | zero => rfl
  | succ n ih =>
    rw [descending_succ]
    simp only [List.filter_cons]
    rw [ih]
    cases hp : p n
    · simp
    · rcases Nat.lt_or_ge i n with h | h
      · have : ¬ n ≤ i := by omega
        simp [h, this]
      · have h' : ¬ i < n := by omega
        have hnil : (descending n).filter (fun f => p f && decide (i < f)) = [] := by
          rw [List.filter_eq_nil_iff]
          intro a ha
          simp [descending] at ha
          simp; intro; omega
        simp [h, h', hnil]

theorem filter_le_head (n : Nat) (p : Nat → Bool) (i : Nat) (hi : i < n) (hp : p i = true) :
    ∃ t, (descending n).filter (fun f => p f && decide (f ≤ i)) = i :: t := by
  induction n with
  | zero => omega
  | succ n ih =>
    rw [descending_succ]
    by_cases e : i = n
    · subst e; simp [hp]
    · obtain ⟨t, ht⟩ := ih (by omega)
      have : ¬ n ≤ i := by omega
      refine ⟨t, ?_⟩
      simpa [List.filter_cons, this] using ht

theorem desShuffle_sorted (ne : List Nat) (n : Nat) (p : Nat → Bool) (i : Nat) (hi : i < n)
    (hp : p i = true) :
    IsReorderSign (⟨false, i, true, 0⟩ :: fragWord ne ((descending n).filter p))
      (fragWord ne ((descending n).filter (fun f => p f && decide (i < f))) ++
        ⟨false, i, true, 0⟩ :: fragWord ne ((descending n).filter (fun f => p f && decide (f ≤ i))))
      (desShuffleOf ne ((descending n).filter p) i) := by
  obtain ⟨t, ht⟩ := filter_le_head n p i hi hp
  have hnd : ((⟨false, i, true, 0⟩ : Op) :: fragWord ne ((descending n).filter p)).Nodup := by
    rw [List.nodup_cons]
    refine ⟨?_, ?_⟩
    · intro hm
      simp [fragWord, mem_block] at hm
    · apply nodup_fragWord
      apply List.Pairwise.filter
      exact nodup_descending n
  have hpath := (swaps_letter (⟨false, i, true, 0⟩ : Op)
    (fragWord ne ((descending n).filter (fun f => p f && decide (i < f))))).ctx []
    (fragWord ne ((descending n).filter (fun f => p f && decide (f ≤ i))))
  rw [fragWord_length] at hpath
  have hs := desc_split n p i
  have hidx : ((descending n).filter p).idxOf i =
      ((descending n).filter (fun f => p f && decide (i < f))).length := by
    rw [hs, ht, List.idxOf_append, if_neg]
    · simp
    · intro hm
      simp at hm
  have hval : desShuffleOf ne ((descending n).filter p) i =
      if (((descending n).filter (fun f => p f && decide (i < f))).map (fun f => ne.getD f 0)).sum % 2 = 0
        then 1 else -1 := by
    unfold desShuffleOf sgnOf
    rw [hidx]
    conv => lhs; rw [hs]
    rw [List.map_append, List.take_append_of_le_length (by simp), List.take_of_length_le (by simp)]
  rw [hval]
  have e1 : (⟨false, i, true, 0⟩ : Op) :: fragWord ne ((descending n).filter p) =
      [] ++ ((⟨false, i, true, 0⟩ : Op) :: fragWord ne ((descending n).filter (fun f => p f && decide (i < f)))) ++
      fragWord ne ((descending n).filter (fun f => p f && decide (f ≤ i))) := by
    conv => lhs; rw [hs]
    simp [fragWord_append]
  have e2 : (fragWord ne ((descending n).filter (fun f => p f && decide (i < f))) ++
        (⟨false, i, true, 0⟩ : Op) :: fragWord ne ((descending n).filter (fun f => p f && decide (f ≤ i)))) =
      [] ++ (fragWord ne ((descending n).filter (fun f => p f && decide (i < f))) ++ [(⟨false, i, true, 0⟩ : Op)]) ++
      fragWord ne ((descending n).filter (fun f => p f && decide (f ≤ i))) := by simp
  rw [e2]
  rw [e1] at hnd ⊢
  exact IsReorderSign.of_path hnd hpath

end Verif.Signs
