import Verif.Lemmas.LassisLevels
/-!
# LASSIS: spin flips
-/
namespace Verif.Lassis
open Verif.Spaces Verif.Spaces.Space Verif.Spec Verif.Props

/-! ### The entries of a spin-flip object -/

/-- The entry of the set `(i, d)` lowered `j` times. -/
def entry (i d : Nat) (s : Int) (j : Nat) : Flip := ⟨s - 1 - 2 * j, s, (.flip i d, s - 1 - 2 * j)⟩

theorem flipLower_eq (smult : Int) (v : Vec) (n : Nat) (m na nb : Int) (h : na - nb = m) :
    flipLower smult v n m na nb =
      (List.range n).map fun j => ⟨m - 2 * ((j : Int) + 1), smult, (v, m - 2 * ((j : Int) + 1))⟩ := by
  induction n generalizing m na nb with
  | zero => rfl
  | succ n ih =>
    rw [flipLower, ih (m - 2) (na - 1) (nb + 1) (by omega), List.range_succ_eq_map, List.map_cons, List.map_map]
    refine List.cons_eq_cons.mpr ⟨?_, ?_⟩
    · rw [show (na - 1) - (nb + 1) = m - 2 by omega]; simp
    · refine List.map_congr_left fun j _ => ?_
      simp only [Function.comp]
      rw [show m - 2 - 2 * ((j : Int) + 1) = m - 2 * (((j + 1 : Nat) : Int) + 1) by push_cast; omega]

/-- The given and lowered entries of one set. -/
def lowered (i d : Nat) (s : Int) : List Flip := (List.range (s - 1).toNat).map fun j => entry i d s (j + 1)

theorem spinFlips_eq (sf : Nat → Nat → Bool) (ref : Space) (i : Nat)
    (h0 : sf i 0 = true → 1 ≤ el ref.smults i - 2 ∧ (ref.nelec i - (el ref.smults i - 2 - 1)) % 2 = 0)
    (h1 : sf i 1 = true → 1 ≤ el ref.smults i + 2 ∧ (ref.nelec i - (el ref.smults i + 2 - 1)) % 2 = 0) :
    spinFlips sf ref i =
      ((if sf i 0 then [entry i 0 (el ref.smults i - 2) 0] else []) ++
        (if sf i 1 then [entry i 1 (el ref.smults i + 2) 0] else [])) ++
      ((if sf i 0 then lowered i 0 (el ref.smults i - 2) else []) ++
        (if sf i 1 then lowered i 1 (el ref.smults i + 2) else [])) := by
  have low : ∀ d s, 1 ≤ s → (ref.nelec i - (s - 1)) % 2 = 0 →
      (if s > 1 then flipLower s (.flip i d) (s - 1).toNat (s - 1) ((ref.nelec i + (s - 1)) / 2)
        ((ref.nelec i - (s - 1)) / 2) else []) = lowered i d s := by
    intro d s hs hp
    split
    · rw [flipLower_eq _ _ _ _ _ _ (by omega)]
      unfold lowered entry
      refine List.map_congr_left fun j _ => ?_
      push_cast
      rfl
    · rw [show s = 1 by omega]; rfl
  unfold spinFlips spinFlipsInit
  simp only []
  by_cases c0 : sf i 0 = true
  · by_cases c1 : sf i 1 = true
    · have a := low 0 _ (h0 c0).1 (h0 c0).2
      have b := low 1 _ (h1 c1).1 (h1 c1).2
      simp only [c0, c1, if_true, List.cons_append, List.nil_append, List.flatMap_cons, List.flatMap_nil, List.append_nil, a, b]
      unfold entry
      simp only [List.cons.injEq, Flip.mk.injEq, Prod.mk.injEq, true_and]
      refine ⟨⟨by push_cast; omega, by push_cast; omega⟩, ⟨by push_cast; omega, by push_cast; omega⟩, trivial⟩
    · have a := low 0 _ (h0 c0).1 (h0 c0).2
      simp only [c0, c1, if_true, if_false, List.cons_append, List.nil_append, List.flatMap_cons, List.flatMap_nil, List.append_nil, a, Bool.false_eq_true]
      unfold entry
      simp only [List.cons.injEq, Flip.mk.injEq, Prod.mk.injEq, true_and]
      refine ⟨⟨by push_cast; omega, by push_cast; omega⟩, trivial⟩
  · by_cases c1 : sf i 1 = true
    · have b := low 1 _ (h1 c1).1 (h1 c1).2
      simp only [c0, c1, if_true, if_false, List.cons_append, List.nil_append, List.flatMap_cons, List.flatMap_nil, List.append_nil, b, Bool.false_eq_true]
      unfold entry
      simp only [List.cons.injEq, Flip.mk.injEq, Prod.mk.injEq, true_and]
      refine ⟨⟨by push_cast; omega, by push_cast; omega⟩, trivial⟩
    · simp [c0, c1]

theorem entry_mem_lowered (i d : Nat) (s : Int) (hs : 1 ≤ s) (fl : Flip) :
    (fl = entry i d s 0 ∨ fl ∈ lowered i d s) ↔ fl.smult = s ∧ ProjIn s fl.spin ∧ fl.ci = (.flip i d, fl.spin) := by
  unfold lowered ProjIn
  constructor
  · rintro (rfl | hm)
    · unfold entry; simp only [true_and, and_true]; push_cast; omega
    · obtain ⟨j, hj, rfl⟩ := List.mem_map.mp hm
      rw [List.mem_range] at hj
      unfold entry; simp only [true_and, and_true]; push_cast; omega
  · rintro ⟨h1, h2, h3⟩
    obtain ⟨sp, sm, ci⟩ := fl
    simp only at h1 h2 h3
    subst h1 h3
    by_cases hc : sp = sm - 1
    · left
      unfold entry
      subst hc
      simp
    · right
      refine List.mem_map.mpr ⟨((sm - 1 - sp) / 2 - 1).toNat, List.mem_range.mpr (by omega), ?_⟩
      unfold entry
      have : sm - 1 - 2 * (((((sm - 1 - sp) / 2 - 1).toNat + 1 : Nat)) : Int) = sp := by push_cast; omega
      rw [this]

section
variable {so : List Nat → List Nat} {ch : Nat → Nat → Nat → Bool} {sf : Nat → Nat → Bool} {ref : Space}
  {h : List HashItem → Int}

theorem flips_room (hin : LassisInput so ch sf ref) (i : Nat) (hi : i < ref.nfrag) :
    (sf i 0 = true → 1 ≤ el ref.smults i - 2 ∧ (ref.nelec i - (el ref.smults i - 2 - 1)) % 2 = 0) ∧
    (sf i 1 = true → 1 ≤ el ref.smults i + 2 ∧ (ref.nelec i - (el ref.smults i + 2 - 1)) % 2 = 0) := by
  constructor
  · intro h0
    have := hin.flips (i, 0) ⟨hi, by simp, h0⟩
    unfold Room flipBy at this
    simp only [if_true] at this
    unfold Space.nelec
    exact ⟨by omega, by omega⟩
  · intro h0
    have := hin.flips (i, 1) ⟨hi, by simp, h0⟩
    unfold Room flipBy at this
    simp only [Nat.one_ne_zero, if_false] at this
    unfold Space.nelec
    exact ⟨by omega, by omega⟩

theorem mem_spinFlips (hin : LassisInput so ch sf ref) (i : Nat) (hi : i < ref.nfrag) (fl : Flip) :
    fl ∈ spinFlips sf ref i ↔ ∃ d, d < 2 ∧ sf i d = true ∧ fl.smult = el ref.smults i + flipBy d ∧
      ProjIn fl.smult fl.spin ∧ fl.ci = (.flip i d, fl.spin) := by
  obtain ⟨r0, r1⟩ := flips_room hin i hi
  rw [spinFlips_eq sf ref i r0 r1]
  have e0 := fun hs => entry_mem_lowered i 0 (el ref.smults i - 2) hs fl
  have e1 := fun hs => entry_mem_lowered i 1 (el ref.smults i + 2) hs fl
  have f0 : flipBy 0 = -2 := rfl
  have f1 : flipBy 1 = 2 := rfl
  constructor
  · intro hm
    have : (sf i 0 = true ∧ (fl = entry i 0 (el ref.smults i - 2) 0 ∨ fl ∈ lowered i 0 (el ref.smults i - 2))) ∨
        (sf i 1 = true ∧ (fl = entry i 1 (el ref.smults i + 2) 0 ∨ fl ∈ lowered i 1 (el ref.smults i + 2))) := by
      by_cases c0 : sf i 0 = true <;> by_cases c1 : sf i 1 = true <;> simp [c0, c1] at hm <;> tauto
    rcases this with ⟨c, hm⟩ | ⟨c, hm⟩
    · obtain ⟨a1, a2, a3⟩ := (e0 (r0 c).1).mp hm
      exact ⟨0, by omega, c, by rw [a1, f0]; omega, by rw [a1]; exact a2, a3⟩
    · obtain ⟨a1, a2, a3⟩ := (e1 (r1 c).1).mp hm
      exact ⟨1, by omega, c, by rw [a1, f1], by rw [a1]; exact a2, a3⟩
  · rintro ⟨d, hd, c, a1, a2, a3⟩
    have : d = 0 ∨ d = 1 := by omega
    rcases this with rfl | rfl
    · have := (e0 (r0 c).1).mpr ⟨by rw [a1, f0]; omega, by rw [a1, f0] at a2; exact a2, a3⟩
      simp only [c, if_true, List.mem_append, List.mem_singleton]
      exact this.elim (fun h => Or.inl (Or.inl h)) (fun h => Or.inr (Or.inl h))
    · have := (e1 (r1 c).1).mpr ⟨by rw [a1, f1], by rw [a1, f1] at a2; exact a2, a3⟩
      simp only [c, if_true, List.mem_append, List.mem_singleton]
      exact this.elim (fun h => Or.inl (Or.inr h)) (fun h => Or.inr (Or.inr h))

theorem entry_inj {i d d' : Nat} {s s' : Int} {j j' : Nat} (he : entry i d s j = entry i d' s' j') : s = s' ∧ j = j' := by
  unfold entry at he
  simp only [Flip.mk.injEq] at he
  omega

theorem lowered_nodup (i d : Nat) (s : Int) : (lowered i d s).Nodup :=
  List.nodup_range.map fun a b hab => by have := entry_inj hab; omega

theorem spinFlips_nodup (hin : LassisInput so ch sf ref) (i : Nat) (hi : i < ref.nfrag) : (spinFlips sf ref i).Nodup := by
  obtain ⟨r0, r1⟩ := flips_room hin i hi
  rw [spinFlips_eq sf ref i r0 r1]
  have n0 := lowered_nodup i 0 (el ref.smults i - 2)
  have n1 := lowered_nodup i 1 (el ref.smults i + 2)
  have m : ∀ d d' s s' j, s ≠ s' ∨ j = 0 → entry i d s j ∉ lowered i d' s' := by
    intro d d' s s' j hc hm
    obtain ⟨k, -, he⟩ := List.mem_map.mp hm
    have := entry_inj he
    omega
  have dis : ∀ fl ∈ lowered i 0 (el ref.smults i - 2), ∀ fl' ∈ lowered i 1 (el ref.smults i + 2), fl ≠ fl' := by
    rintro fl h1 fl' h2 rfl
    obtain ⟨k, -, rfl⟩ := List.mem_map.mp h1
    exact m _ _ _ _ _ (Or.inl (by omega)) h2
  have a0 := m 0 0 (el ref.smults i - 2) (el ref.smults i - 2) 0 (Or.inr rfl)
  have a1 := m 0 1 (el ref.smults i - 2) (el ref.smults i + 2) 0 (Or.inr rfl)
  have b0 := m 1 0 (el ref.smults i + 2) (el ref.smults i - 2) 0 (Or.inr rfl)
  have b1 := m 1 1 (el ref.smults i + 2) (el ref.smults i + 2) 0 (Or.inr rfl)
  have c : entry i 0 (el ref.smults i - 2) 0 ≠ entry i 1 (el ref.smults i + 2) 0 := by
    intro he
    have := (entry_inj he).1
    omega
  by_cases c0 : sf i 0 = true <;> by_cases c1 : sf i 1 = true <;>
    simp only [c0, c1, if_true, if_false, Bool.false_eq_true, List.nil_append, List.append_nil, List.cons_append,
      List.nodup_cons, List.nodup_append, List.mem_cons, List.mem_append, List.nodup_nil, n0, n1, true_and, and_true, a0, a1, b0, b1, c, not_or,
      not_false_eq_true, or_false]
  exact dis

/-- There is exactly one entry with given quantum numbers. -/
theorem flip_unique (hin : LassisInput so ch sf ref) (i : Nat) (hi : i < ref.nfrag) (d : Nat) (hd : d < 2)
    (hs : sf i d = true) (m : Int) (hm : ProjIn (el ref.smults i + flipBy d) m) :
    ((spinFlips sf ref i).filter fun fl => decide (fl.smult = el ref.smults i + flipBy d) && decide (fl.spin = m)) =
      [⟨m, el ref.smults i + flipBy d, (.flip i d, m)⟩] := by
  apply List.perm_singleton.mp
  rw [List.perm_ext_iff_of_nodup ((spinFlips_nodup hin i hi).filter _) (List.nodup_singleton _)]
  intro fl
  rw [List.mem_filter, mem_spinFlips hin i hi, List.mem_singleton]
  simp only [Bool.and_eq_true, decide_eq_true_eq]
  constructor
  · rintro ⟨⟨d', hd', -, h1, -, h3⟩, h4, h5⟩
    have : d' = d := flipBy_inj hd' hd (by omega)
    subst this
    obtain ⟨sp, sm, ci⟩ := fl
    simp only at h3 h4 h5
    subst h5 h3 h4
    rfl
  · rintro rfl
    exact ⟨⟨d, hd, hs, rfl, hm, rfl⟩, rfl, rfl⟩

/-! ### Injecting them -/

/-- `t` is `a` with the multiplicity and projection of some untouched fragments below `n` replaced by those of an
available spin flip. -/
structure FlipTo (sf : Nat → Nat → Bool) (ref : Space) (n : Nat) (a t : Space) : Prop where
  nlas : t.nlas = a.nlas
  nelelas : t.nelelas = a.nelelas
  charges : t.charges = a.charges
  entmap : t.entmap = a.entmap
  len : t.smults.length = a.smults.length ∧ t.spins.length = a.spins.length
  frag : ∀ k, (el t.smults k = el a.smults k ∧ el t.spins k = el a.spins k) ∨
    (k < n ∧ el a.charges k = el ref.charges k ∧ el a.smults k = el ref.smults k ∧
      ∃ d, d < 2 ∧ sf k d = true ∧ el t.smults k = el ref.smults k + flipBy d ∧ ProjIn (el t.smults k) (el t.spins k))

theorem el_set (l : List Int) (i k : Nat) (v : Int) (hi : i < l.length) : el (l.set i v) k = if k = i then v else el l k := by
  unfold el
  rw [List.getD_eq_getElem?_getD, List.getElem?_set]
  by_cases hk : i = k
  · subst hk; simp [hi]
  · rw [if_neg hk, if_neg (fun hc => hk hc.symm), List.getD_eq_getElem?_getD]

theorem inject_succ (flips : Nat → List Flip) (n : Nat) (spaces : List Root) :
    injectFlips ref flips (n + 1) spaces =
      injectFlips ref flips n spaces ++ flipsOf ref (flips n) n (injectFlips ref flips n spaces) := by
  unfold injectFlips
  rw [List.range_succ, List.foldl_append]
  rfl

theorem inject_prefix (flips : Nat → List Flip) (n : Nat) (spaces : List Root) :
    ∃ extra, injectFlips ref flips n spaces = spaces ++ extra := by
  induction n with
  | zero => exact ⟨[], by simp [injectFlips]⟩
  | succ n ih =>
    obtain ⟨e, he⟩ := ih
    rw [inject_succ, he]
    exact ⟨e ++ _, by rw [List.append_assoc]⟩

theorem inject_sound (hin : LassisInput so ch sf ref) (spaces : List Root) (hsp : ∀ r ∈ spaces, Fits r.sp ref) (n : Nat)
    (hn : n ≤ ref.nfrag) : ∀ r' ∈ injectFlips ref (spinFlips sf ref) n spaces, ∃ r ∈ spaces, FlipTo sf ref n r.sp r'.sp := by
  induction n with
  | zero =>
    intro r' hr'
    exact ⟨r', by simpa [injectFlips] using hr', rfl, rfl, rfl, rfl, ⟨rfl, rfl⟩, fun k => Or.inl ⟨rfl, rfl⟩⟩
  | succ n ih =>
    intro r' hr'
    rw [inject_succ] at hr'
    rcases List.mem_append.mp hr' with hr' | hr'
    · obtain ⟨r, hr, hf⟩ := ih (by omega) r' hr'
      refine ⟨r, hr, hf.nlas, hf.nelelas, hf.charges, hf.entmap, hf.len, fun k => ?_⟩
      rcases hf.frag k with h1 | ⟨h1, h2⟩
      · exact Or.inl h1
      · exact Or.inr ⟨by omega, h2⟩
    · unfold flipsOf at hr'
      obtain ⟨q, hq, hr'⟩ := List.mem_flatMap.mp hr'
      split at hr'
      · simp at hr'
      rename_i c1
      split at hr'
      · simp at hr'
      rename_i c2
      rw [not_not] at c1 c2
      obtain ⟨fl, hfl, rfl⟩ := List.mem_map.mp hr'
      obtain ⟨r, hr, hf⟩ := ih (by omega) q hq
      have hfit := hsp r hr
      have ln := fits_len hfit
      obtain ⟨d, hd, hs, e1, e2, -⟩ := (mem_spinFlips hin n (by omega) fl).mp hfl
      have hun : el q.sp.smults n = el r.sp.smults n ∧ el q.sp.spins n = el r.sp.spins n := by
        rcases hf.frag n with h1 | ⟨h1, -⟩
        · exact h1
        · omega
      refine ⟨r, hr, hf.nlas, hf.nelelas, hf.charges, hf.entmap, ?_, ?_⟩
      · simp only [spinChange, List.length_set]; exact hf.len
      · intro k
        simp only [spinChange]
        rw [el_set _ _ _ _ (by rw [hf.len.1]; omega), el_set _ _ _ _ (by rw [hf.len.2]; omega)]
        by_cases hk : k = n
        · subst hk
          right
          rw [if_pos rfl, if_pos rfl]
          refine ⟨by omega, ?_, by rw [← hun.1]; exact c2, d, hd, hs, e1, e2⟩
          unfold Space.nelec at c1
          rw [hf.nelelas, hfit.elec, hf.charges] at c1
          omega
        · rw [if_neg hk, if_neg hk]
          rcases hf.frag k with h1 | ⟨h1, h2⟩
          · exact Or.inl h1
          · exact Or.inr ⟨by omega, h2⟩

/-- Equal but for the weight. -/
def EqW (a b : Space) : Prop :=
  a.nlas = b.nlas ∧ a.nelelas = b.nelelas ∧ a.charges = b.charges ∧ a.entmap = b.entmap ∧ a.smults = b.smults ∧
  a.spins = b.spins

theorem set_el_self (l : List Int) (i : Nat) (v : Int) (h : el l i = v) : l.set i v = l := by
  by_cases hi : i < l.length
  · apply ext_el (by simp)
    intro k hk
    rw [el_set _ _ _ _ hi]
    split
    · rename_i hk; subst hk; exact h.symm
    · rfl
  · exact List.set_eq_of_length_le (by omega)

theorem inject_complete (hin : LassisInput so ch sf ref) (spaces : List Root) (r : Root) (hr : r ∈ spaces)
    (hfit : Fits r.sp ref) (n : Nat) (hn : n ≤ ref.nfrag) :
    ∀ t, FlipTo sf ref n r.sp t → ∃ r' ∈ injectFlips ref (spinFlips sf ref) n spaces, EqW r'.sp t := by
  have ln := fits_len hfit
  induction n with
  | zero =>
    intro t ht
    refine ⟨r, by simpa [injectFlips] using hr, ht.nlas.symm, ht.nelelas.symm, ht.charges.symm, ht.entmap.symm, ?_, ?_⟩
    · apply ext_el ht.len.1.symm
      intro k _
      rcases ht.frag k with h1 | ⟨h1, -⟩
      · exact h1.1.symm
      · omega
    · apply ext_el ht.len.2.symm
      intro k _
      rcases ht.frag k with h1 | ⟨h1, -⟩
      · exact h1.2.symm
      · omega
  | succ n ih =>
    intro t ht
    have l1 := ht.len.1
    have l2 := ht.len.2
    let t' : Space := { t with smults := t.smults.set n (el r.sp.smults n), spins := t.spins.set n (el r.sp.spins n) }
    have ht' : FlipTo sf ref n r.sp t' := by
      refine ⟨ht.nlas, ht.nelelas, ht.charges, ht.entmap, by simpa [t'] using ht.len, ?_⟩
      intro k
      simp only [t']
      rw [el_set _ _ _ _ (by omega), el_set _ _ _ _ (by omega)]
      by_cases hk : k = n
      · subst hk; simp
      · rw [if_neg hk, if_neg hk]
        rcases ht.frag k with h1 | ⟨h1, h2⟩
        · exact Or.inl h1
        · exact Or.inr ⟨by omega, h2⟩
    obtain ⟨q, hq, e1, e2, e3, e4, e5, e6⟩ := ih (by omega) t' ht'
    rw [inject_succ]
    rcases ht.frag n with h1 | ⟨-, h2, h3, d, hd, hs, h4, h5⟩
    · refine ⟨q, List.mem_append_left _ hq, e1, e2, e3, e4, ?_, ?_⟩
      · rw [e5]; exact set_el_self _ _ _ h1.1
      · rw [e6]; exact set_el_self _ _ _ h1.2
    · let fl : Flip := ⟨el t.spins n, el t.smults n, (.flip n d, el t.spins n)⟩
      have hfl : fl ∈ spinFlips sf ref n := (mem_spinFlips hin n (by omega) fl).mpr ⟨d, hd, hs, h4, h5, rfl⟩
      refine ⟨spinChange q n fl, List.mem_append_right _ ?_, e1, e2, e3, e4, ?_, ?_⟩
      · unfold flipsOf
        refine List.mem_flatMap.mpr ⟨q, hq, ?_⟩
        rw [if_neg, if_neg]
        · exact List.mem_map.mpr ⟨fl, hfl, rfl⟩
        · rw [not_not, e5]
          simp only [t']
          rw [el_set _ _ _ _ (by omega), if_pos rfl]
          exact h3
        · rw [not_not]
          unfold Space.nelec
          rw [e2, e3]
          simp only [t']
          rw [ht.nelelas, ht.charges, hfit.elec]
          omega
      · simp only [spinChange, fl]
        rw [e5]
        simp only [t', List.set_set]
        exact set_el_self _ _ _ rfl
      · simp only [spinChange, fl]
        rw [e6]
        simp only [t', List.set_set]
        exact set_el_self _ _ _ rfl

/-! ### They are products -/

theorem flipTo_product (hin : LassisInput so ch sf ref) {hops : List ElHop} {a t : Space} (ha : IsProduct so ref hops [] a)
    (hf : FlipTo sf ref ref.nfrag a t) (htot : totalSpin t = totalSpin ref) :
    ∃ flips, (∀ y ∈ flips, HasFlip sf ref y) ∧ IsProduct so ref hops flips t := by
  classical
  let ys : List (Nat × Nat) := ((List.range ref.nfrag).filter fun k => decide (el t.smults k ≠ el a.smults k)).map
    fun k => (k, if el t.smults k < el ref.smults k then 0 else 1)
  have la := fits_len ha.fits
  have hn : t.nfrag = ref.nfrag := by
    unfold Space.nfrag; rw [hf.nlas]; exact ha.fits.nfrag
  have hys : ∀ y ∈ ys, y.1 < ref.nfrag ∧ el a.charges y.1 = el ref.charges y.1 ∧ el a.smults y.1 = el ref.smults y.1 ∧
      y.2 < 2 ∧ sf y.1 y.2 = true ∧ el t.smults y.1 = el ref.smults y.1 + flipBy y.2 := by
    intro y hy
    obtain ⟨k, hk, rfl⟩ := List.mem_map.mp hy
    obtain ⟨hk, hne⟩ := List.mem_filter.mp hk
    rw [List.mem_range] at hk
    simp only [decide_eq_true_eq] at hne
    rcases hf.frag k with h1 | ⟨-, h2, h3, d, hd, hs, h4, h5⟩
    · exact absurd h1.1 hne
    · have : (if el t.smults k < el ref.smults k then 0 else 1) = d := by
        have hd2 : d = 0 ∨ d = 1 := by omega
        rcases hd2 with rfl | rfl
        · rw [if_pos]; rw [h4]; have : flipBy 0 = -2 := rfl; omega
        · rw [if_neg]; rw [h4]; have : flipBy 1 = 2 := rfl; omega
      simp only [this]
      exact ⟨hk, h2, h3, hd, hs, h4⟩
  have hroom : ∀ k, k < ref.nfrag → Room (el ref.nlas k) (el ref.nelelas k - el t.charges k) (el t.smults k) ∧
      ProjIn (el t.smults k) (el t.spins k) := by
    intro k hk
    have hak := (fragOk_iff a k).mp (ha.fits.ok k (by rw [ha.fits.nfrag]; exact hk))
    rw [ha.fits.orbs, ha.fits.elec] at hak
    rw [hf.charges]
    rcases hf.frag k with h1 | ⟨-, h2, h3, d, hd, hs, h4, h5⟩
    · rw [h1.1, h1.2]; exact hak
    · refine ⟨?_, h5⟩
      rw [h4, h2]
      exact hin.flips (k, d) ⟨hk, hd, hs⟩
  refine ⟨ys, fun y hy => ⟨(hys y hy).1, (hys y hy).2.2.2.1, (hys y hy).2.2.2.2.1⟩, ?_⟩
  have hdis : ∀ y ∈ ys, y.1 ∉ touched hops [] := by
    intro y hy hc
    have hy2 := (hys y hy).2.1
    rcases (mem_touched _ _ _).mp hc with ⟨x, hx, h1 | h1⟩ | ⟨z, hz, -⟩
    · have := (ha.source x hx).1; rw [← h1] at this; omega
    · have := (ha.dest x hx).1; rw [← h1] at this; omega
    · simp at hz
  have heq : ∀ k ∈ touched hops [], el t.smults k = el a.smults k := by
    intro k hk
    by_contra hc
    by_cases hkn : k < ref.nfrag
    · exact hdis (k, if el t.smults k < el ref.smults k then 0 else 1) (List.mem_map.mpr ⟨k, List.mem_filter.mpr
        ⟨List.mem_range.mpr hkn, by simpa using hc⟩, rfl⟩) hk
    · exact hc (by rw [el_oob (by rw [hf.len.1]; omega), el_oob (by omega)])
  refine ⟨⟨⟨?_, ?_, ?_, ?_⟩, ?_, ?_, ?_⟩, ?_, ?_, ?_, ?_, ?_, htot, ?_⟩
  · rw [hf.nelelas, hn, ha.fits.elec]; exact hin.fits.shaped.1
  · rw [hf.len.2, hn]; exact la.2.1
  · rw [hf.len.1, hn]; exact la.1
  · rw [hf.charges, hn]; exact la.2.2
  · rw [hf.nlas, ha.fits.orbs]
  · rw [hf.nelelas, ha.fits.elec]
  · intro k hk
    rw [hn] at hk
    rw [fragOk_iff, hf.nlas, hf.nelelas, ha.fits.orbs, ha.fits.elec]
    exact hroom k hk
  · have h1 := ha.once
    unfold touched at h1 hdis ⊢
    simp only [List.map_nil, List.append_nil] at h1 hdis
    rw [List.nodup_append]
    refine ⟨h1, ?_, ?_⟩
    · simp only [ys, List.map_map]
      rw [show ((fun x : Nat × Nat => x.1) ∘ fun k => (k, if el t.smults k < el ref.smults k then 0 else 1)) = id from rfl,
        List.map_id]
      exact List.nodup_range.filter _
    · rintro u hu v hv rfl
      obtain ⟨y, hy, rfl⟩ := List.mem_map.mp hv
      exact hdis y hy hu
  · intro x hx
    rw [hf.charges, heq _ ((mem_touched _ _ _).mpr (Or.inl ⟨x, hx, Or.inl rfl⟩))]
    exact ha.source x hx
  · intro x hx
    rw [hf.charges, heq _ ((mem_touched _ _ _).mpr (Or.inl ⟨x, hx, Or.inr rfl⟩))]
    exact ha.dest x hx
  · intro y hy
    obtain ⟨-, h2, -, -, -, h6⟩ := hys y hy
    rw [hf.charges]
    exact ⟨h2, h6⟩
  · intro k hk
    have hk1 : k ∉ touched hops [] := by
      intro hc
      apply hk
      rcases (mem_touched _ _ _).mp hc with h1 | ⟨z, hz, -⟩
      · exact (mem_touched _ _ _).mpr (Or.inl h1)
      · simp at hz
    have hr := ha.rest k hk1
    refine ⟨by rw [hf.charges]; exact hr.1, ?_⟩
    rw [← hr.2]
    by_contra hc
    by_cases hkn : k < ref.nfrag
    · exact hk ((mem_touched _ _ _).mpr (Or.inr ⟨(k, _), List.mem_map.mpr ⟨k, List.mem_filter.mpr
        ⟨List.mem_range.mpr hkn, by simpa using hc⟩, rfl⟩, rfl⟩))
    · exact hc (by rw [el_oob (by rw [hf.len.1]; omega), el_oob (by omega)])
  · rw [hf.entmap]; exact ha.pairs

end

end Verif.Lassis
