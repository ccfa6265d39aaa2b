import Verif.Lemmas.LassisFlips
/-!
# LASSIS: filters, removal of duplicates, spin shuffling
-/
namespace Verif.Lassis
open Verif.Spaces Verif.Spaces.Space Verif.Spec Verif.Props

/-! ### Duplicates -/

theorem dedup_spec (h : List HashItem → Int) (rs : List Root) (seen : List Space) :
    (dedup h seen rs).Sublist rs ∧ ((dedup h seen rs).map (·.sp)).Pairwise (fun a b => ¬ SameEl h a b) ∧
    (∀ n ∈ dedup h seen rs, ∀ s ∈ seen, ¬ SameEl h s n.sp) ∧
    ∀ r ∈ rs, (∃ s ∈ seen, SameEl h s r.sp) ∨ ∃ y ∈ dedup h seen rs, SameEl h y.sp r.sp := by
  induction rs generalizing seen with
  | nil => simp [dedup]
  | cons r rs ih =>
    unfold dedup
    by_cases hin : pyIn h seen r.sp = true
    · rw [if_pos hin]
      obtain ⟨a1, a2, a3, a4⟩ := ih seen
      refine ⟨a1.cons _, a2, a3, ?_⟩
      intro q hq
      rcases List.mem_cons.mp hq with rfl | hq
      · exact Or.inl ((pyIn_iff' h seen q.sp).mp hin)
      · exact a4 q hq
    · rw [if_neg hin]
      obtain ⟨a1, a2, a3, a4⟩ := ih (seen ++ [r.sp])
      refine ⟨a1.cons₂ _, ?_, ?_, ?_⟩
      · rw [List.map_cons, List.pairwise_cons]
        refine ⟨?_, a2⟩
        intro b hb
        obtain ⟨n, hn, rfl⟩ := List.mem_map.mp hb
        exact a3 n hn r.sp (by simp)
      · intro n hn s hs
        rcases List.mem_cons.mp hn with rfl | hn
        · intro he
          exact hin ((pyIn_iff' h seen n.sp).mpr ⟨s, hs, he⟩)
        · exact a3 n hn s (List.mem_append_left _ hs)
      · intro q hq
        rcases List.mem_cons.mp hq with rfl | hq
        · exact Or.inr ⟨q, by simp, sameEl_refl h _⟩
        · rcases a4 q hq with ⟨s, hs, he⟩ | ⟨y, hy, he⟩
          · rcases List.mem_append.mp hs with hs | hs
            · exact Or.inl ⟨s, hs, he⟩
            · rw [List.mem_singleton.mp hs] at he
              exact Or.inr ⟨r, by simp, he⟩
          · exact Or.inr ⟨y, List.mem_cons_of_mem _ hy, he⟩

theorem dedup_prefix (h : List HashItem → Int) (pre post : List Root) (seen : List Space)
    (hp : (seen ++ pre.map (·.sp)).Pairwise (fun a b => ¬ SameEl h a b)) :
    dedup h seen (pre ++ post) = pre ++ dedup h (seen ++ pre.map (·.sp)) post := by
  induction pre generalizing seen with
  | nil => simp
  | cons r pre ih =>
    rw [List.cons_append, dedup, if_neg]
    · rw [ih (seen ++ [r.sp]) (by simpa using hp)]
      simp
    · intro hin
      obtain ⟨s, hs, he⟩ := (pyIn_iff' h seen r.sp).mp hin
      exact (List.pairwise_append.mp hp).2.2 s hs r.sp (by simp) he

/-! ### Common total spins -/

section
variable {so : List Nat → List Nat} {ch : Nat → Nat → Nat → Bool} {sf : Nat → Nat → Bool} {ref : Space}
  {h : List HashItem → Int}

theorem fits_parity {a : Space} (ha : Fits a ref) (hr : Fits ref ref) (ht : totalSpin a = totalSpin ref) :
    ((a.smults.map (· - 1)).sum - (ref.smults.map (· - 1)).sum) % 2 = 0 := by
  have h1 := spinVec_bound (fits_spinVec ha)
  have h2 := spinVec_bound (fits_spinVec hr)
  rw [ht] at h1
  omega

theorem smults_ne {a : Space} (ha : Fits a ref) (h0 : 0 < ref.nfrag) : a.smults ≠ [] := by
  intro hc
  have := (fits_len ha).1
  rw [hc] at this
  simp at this
  omega

theorem commonSpin_iff (hin : LassisInput so ch sf ref) {a : Space} (ha : Fits a ref) (ht : totalSpin a = totalSpin ref) :
    (!isOrthogonalBySmult a.smults ref.smults) = true ↔ CommonSpin a ref := by
  have := C26_orthogonal a.smults ref.smults (smults_ne ha hin.nonempty) (smults_ne hin.fits hin.nonempty) (fits_mults ha)
    (fits_mults hin.fits) (fits_parity ha hin.fits ht)
  unfold CommonSpin
  rw [Bool.not_eq_true', ← Bool.not_eq_true, this, not_not]

theorem two_le_sum (l : List Int) (hl : ∀ x ∈ l, 0 ≤ x) (i j : Nat) (hi : i < l.length) (hj : j < l.length) (hij : i ≠ j) :
    el l i + el l j ≤ l.sum := by
  have hnn : ∀ k, 0 ≤ el l k := by
    intro k
    by_cases hk : k < l.length
    · have := hl l[k] (List.getElem_mem hk)
      simpa [el, List.getD_eq_getElem?_getD, List.getElem?_eq_getElem hk] using this
    · rw [el_oob (by omega)]
  have h1 := sum_bump l i (-el l i) hi
  have h2 := sum_bump (bump l i (-el l i)) j (-el l j) (by rw [bump_length]; exact hj)
  have h3 : 0 ≤ (bump (bump l i (-el l i)) j (-el l j)).sum := by
    have := sum_le_of_el (List.replicate l.length 0) (bump (bump l i (-el l i)) j (-el l j)) (by simp [bump_length]) (by
      intro k hk
      rw [el_bump _ _ _ _ (by rw [bump_length]; exact hj), el_bump _ _ _ _ hi]
      rw [show el (List.replicate l.length 0) k = 0 by
        simp only [List.length_replicate] at hk
        simp [el, List.getD_eq_getElem?_getD, hk]]
      have := hnn k
      split
      · split
        · omega
        · rename_i h1 h2; subst h1; omega
      · split
        · rename_i h1 h2; subst h2; omega
        · omega)
    simpa using this
  omega

theorem one_le_sum (l : List Int) (hl : ∀ x ∈ l, 0 ≤ x) (x : Int) (hx : x ∈ l) : x ≤ l.sum := by
  induction l with
  | nil => simp at hx
  | cons a l ih =>
    have h0 := List.sum_nonneg (fun y hy => hl y (List.mem_cons_of_mem _ hy))
    rw [List.sum_cons]
    rcases List.mem_cons.mp hx with rfl | hx
    · omega
    · have := ih (fun y hy => hl y (List.mem_cons_of_mem _ hy)) hx
      have := hl a (by simp)
      omega

theorem hop_common (hin : LassisInput so ch sf ref) {hops : List ElHop} {t : Space} (hops' : ∀ x ∈ hops, HasHop ch ref x)
    (hp : IsProduct so ref hops [] t) : CommonSpin t ref := by
  have lt := fits_len hp.fits
  have lr := fits_len hin.fits
  have mt := fits_mults hp.fits
  have mr := fits_mults hin.fits
  have nt := mults_nonneg mt
  have nr := mults_nonneg mr
  -- the list of sums of the two spins
  let c : List Int := (List.range ref.nfrag).map fun k => (el t.smults k - 1) + (el ref.smults k - 1)
  have hsum : ∀ s : List Int, s.length = ref.nfrag → (s.map (· - 1)).sum = ((List.range ref.nfrag).map fun k => el s k - 1).sum := by
    intro s hs
    rw [sum_eq_range (s.map (· - 1)) ref.nfrag (by simp [hs])]
    refine congrArg List.sum (List.map_congr_left fun k hk => ?_)
    exact el_map_sub s k (by rw [hs]; exact List.mem_range.mp hk)
  have hc : c.sum = (t.smults.map (· - 1)).sum + (ref.smults.map (· - 1)).sum := by
    rw [hsum _ lt.1, hsum _ lr.1]
    have := sum_map_lin ref.nfrag (fun k => el t.smults k - 1) (fun k => el ref.smults k - 1) 1
    simp only [one_mul] at this
    exact this
  have clen : c.length = ref.nfrag := by simp [c]
  have cel : ∀ k, k < ref.nfrag → el c k = (el t.smults k - 1) + (el ref.smults k - 1) := fun k hk => el_range_map _ _ _ hk
  have pos : ∀ {s : List Int}, Mults s → s.length = ref.nfrag → ∀ k, k < ref.nfrag → 1 ≤ el s k := by
    intro s hs hl k hk
    exact mults_el hs k (by omega)
  have cnn : ∀ x ∈ c, 0 ≤ x := by
    intro x hx
    obtain ⟨k, hk, rfl⟩ := List.mem_map.mp hx
    have := pos mt lt.1 k (List.mem_range.mp hk)
    have := pos mr lr.1 k (List.mem_range.mp hk)
    omega
  have one_le : ∀ k, k < ref.nfrag → el c k ≤ c.sum := by
    intro k hk
    have hk' : k < c.length := by omega
    have e : el c k = c[k] := by simp [el, List.getD_eq_getElem?_getD, List.getElem?_eq_getElem hk']
    rw [e]
    exact one_le_sum c cnn _ (List.getElem_mem hk')
  have key : ∀ k, k < ref.nfrag → 2 * (el t.smults k - 1) ≤ c.sum ∧ 2 * (el ref.smults k - 1) ≤ c.sum := by
    intro k hk
    have h1 := one_le k hk
    have ck := cel k hk
    by_cases hk' : k ∈ touched hops []
    · rcases (mem_touched _ _ _).mp hk' with ⟨x, hx, h2 | h2⟩ | ⟨y, hy, -⟩
      · have hh := hops' x hx
        have hne := hin.apart x hh
        have := two_le_sum c cnn k x.dst (by omega) (by rw [clen]; exact hh.2.1) (by rw [h2]; exact hne)
        have e1 := (hp.source x hx).2
        have e2 := (hp.dest x hx).2
        have p1 := dSrc_pm x
        have p2 := dDst_pm x
        have q1 := pos mt lt.1 x.dst hh.2.1
        have q2 := pos mr lr.1 x.dst hh.2.1
        rw [cel _ hh.2.1] at this
        rw [← h2] at e1
        omega
      · have hh := hops' x hx
        have hne := hin.apart x hh
        have := two_le_sum c cnn k x.src (by omega) (by rw [clen]; exact hh.1) (by rw [h2]; exact hne.symm)
        have e1 := (hp.source x hx).2
        have e2 := (hp.dest x hx).2
        have p1 := dSrc_pm x
        have p2 := dDst_pm x
        have q1 := pos mt lt.1 x.src hh.1
        have q2 := pos mr lr.1 x.src hh.1
        rw [cel _ hh.1] at this
        rw [← h2] at e2
        omega
      · simp at hy
    · have := (hp.rest k hk').2
      omega
  have memel : ∀ {s : List Int}, s.length = ref.nfrag → ∀ x ∈ s.map (· - 1), ∃ k, k < ref.nfrag ∧ x = el s k - 1 := by
    intro s hs x hx
    obtain ⟨y, hy, rfl⟩ := List.mem_map.mp hx
    obtain ⟨k, hk, rfl⟩ := List.mem_iff_getElem.mp hy
    exact ⟨k, by omega, by simp [el, List.getD_eq_getElem?_getD, List.getElem?_eq_getElem hk]⟩
  have sumnn : ∀ {s : List Int}, Mults s → 0 ≤ (s.map (· - 1)).sum := fun hs => List.sum_nonneg (mults_nonneg hs)
  have hpar := fits_parity hp.fits hin.fits hp.total
  have s1 := sumnn mt
  have s2 := sumnn mr
  obtain ⟨ta, hta⟩ := exists_coupled (t.smults.map (· - 1)) (by simpa using smults_ne hp.fits hin.nonempty) nt
    (min (t.smults.map (· - 1)).sum (ref.smults.map (· - 1)).sum) (by omega) (by omega) (by omega) (by
      intro x hx
      obtain ⟨k, hk, rfl⟩ := memel lt.1 x hx
      have := (key k hk).1
      have h2 := one_le_sum _ nt _ hx
      omega)
  obtain ⟨tb, htb⟩ := exists_coupled (ref.smults.map (· - 1)) (by simpa using smults_ne hin.fits hin.nonempty) nr
    (min (t.smults.map (· - 1)).sum (ref.smults.map (· - 1)).sum) (by omega) (by omega) (by omega) (by
      intro x hx
      obtain ⟨k, hk, rfl⟩ := memel lr.1 x hx
      have := (key k hk).2
      have h2 := one_le_sum _ nr _ hx
      omega)
  exact ⟨_, ta, tb, hta, htb⟩

/-! ### After the spin flips -/

/-- The rootspaces the spin flips start from. -/
def Base (so : List Nat → List Nat) (ch : Nat → Nat → Nat → Bool) (ref : Space) (rest : List Root) (hops : List ElHop)
    (a : Space) : Prop :=
  (∃ r ∈ refRoot ref :: rest, r.sp = a) ∧ (∀ x ∈ hops, HasHop ch ref x) ∧ IsProduct so ref hops [] a

theorem base_exists (hin : LassisInput so ch sf ref) {rest : List Root} (hc : ChargeStage so ch ref h rest) (hops : List ElHop)
    (hx : ∀ x ∈ hops, HasHop ch ref x) (hnd : (touched hops []).Nodup) : ∃ a, Base so ch ref rest hops a := by
  by_cases h0 : hops = []
  · subst h0
    exact ⟨ref, ⟨refRoot ref, by simp, rfl⟩, hx, ref_isProduct hin⟩
  · obtain ⟨r, hr, hp⟩ := hc.complete hops h0 hx hnd
    exact ⟨r.sp, ⟨r, by simp [hr], rfl⟩, hx, hp⟩

theorem base_of_mem (hin : LassisInput so ch sf ref) {rest : List Root} (hc : ChargeStage so ch ref h rest) {r : Root}
    (hr : r ∈ refRoot ref :: rest) : ∃ hops, Base so ch ref rest hops r.sp := by
  rcases List.mem_cons.mp hr with rfl | hr'
  · exact ⟨[], ⟨refRoot ref, by simp, rfl⟩, by simp, ref_isProduct hin⟩
  · obtain ⟨hops, -, hx, hp, -⟩ := hc.sound r hr'
    exact ⟨hops, ⟨r, hr, rfl⟩, hx, hp⟩

structure FlipStage (so : List Nat → List Nat) (ch : Nat → Nat → Nat → Bool) (sf : Nat → Nat → Bool) (ref : Space)
    (h : List HashItem → Int) (rest extra : List Root) : Prop where
  sound : ∀ r ∈ refRoot ref :: (rest ++ extra), ∃ hops a, Base so ch ref rest hops a ∧ FlipTo sf ref ref.nfrag a r.sp ∧
    totalSpin r.sp = totalSpin ref ∧ CommonSpin r.sp ref
  apart : ((refRoot ref :: (rest ++ extra)).map (·.sp)).Pairwise (fun a b => ¬ SameEl h a b)
  complete : ∀ hops a t, Base so ch ref rest hops a → FlipTo sf ref ref.nfrag a t → totalSpin t = totalSpin ref →
    CommonSpin t ref → ∃ r ∈ refRoot ref :: (rest ++ extra), SameEl h r.sp t

theorem flipTo_refl (a : Space) (n : Nat) : FlipTo sf ref n a a :=
  ⟨rfl, rfl, rfl, rfl, ⟨rfl, rfl⟩, fun _ => Or.inl ⟨rfl, rfl⟩⟩

theorem eqW_sameEl (h : List HashItem → Int) {a b : Space} (he : EqW a b) : SameEl h a b := by
  obtain ⟨h1, h2, h3, h4, h5, h6⟩ := he
  exact sameEl_of_fields h (by unfold Space.nfrag; rw [h1]) h6 h5 h3 h4

theorem flip_stage (hin : LassisInput so ch sf ref) {rest : List Root} (hc : ChargeStage so ch ref h rest) :
    ∃ extra, spinFlipProducts h (spinFlips sf ref) (refRoot ref :: rest) = .ok (refRoot ref :: (rest ++ extra)) ∧
      FlipStage so ch sf ref h rest extra := by
  have hbase := fun r (hr : r ∈ refRoot ref :: rest) => base_of_mem hin hc hr
  have hfits : ∀ r ∈ refRoot ref :: rest, Fits r.sp ref := by
    intro r hr
    obtain ⟨hops, -, -, hp⟩ := hbase r hr
    exact hp.fits
  obtain ⟨ex, hex⟩ := inject_prefix (ref := ref) (spinFlips sf ref) ref.nfrag (refRoot ref :: rest)
  let flt := fun r : Root => decide (r.sp.spins.sum = ref.spins.sum)
  let flt2 := fun r : Root => !isOrthogonalBySmult r.sp.smults ref.smults
  have keep : ((refRoot ref :: rest).filter flt).filter flt2 = refRoot ref :: rest := by
    rw [List.filter_filter, List.filter_eq_self]
    intro r hr
    obtain ⟨hops, -, hx, hp⟩ := hbase r hr
    rw [Bool.and_eq_true]
    exact ⟨(commonSpin_iff hin hp.fits hp.total).mpr (hop_common hin hx hp), decide_eq_true hp.total⟩
  have hap : ([] ++ (refRoot ref :: rest).map Root.sp).Pairwise (fun a b => ¬ SameEl h a b) := by
    simpa [refRoot] using hc.apart
  have heq : spinFlipProducts h (spinFlips sf ref) (refRoot ref :: rest) =
      .ok (dedup h [] (((injectFlips ref (spinFlips sf ref) ref.nfrag (refRoot ref :: rest)).filter flt).filter flt2)) := rfl
  have hlist : dedup h [] (((injectFlips ref (spinFlips sf ref) ref.nfrag (refRoot ref :: rest)).filter flt).filter flt2) =
      refRoot ref :: (rest ++ dedup h ((refRoot ref :: rest).map (·.sp)) ((ex.filter flt).filter flt2)) := by
    rw [hex, List.filter_append, List.filter_append, keep, dedup_prefix h _ _ [] hap]
    simp
  refine ⟨dedup h ((refRoot ref :: rest).map (·.sp)) ((ex.filter flt).filter flt2), by rw [heq, hlist], ?_⟩
  obtain ⟨d1, d2, -, d4⟩ := dedup_spec h (((injectFlips ref (spinFlips sf ref) ref.nfrag (refRoot ref :: rest)).filter flt).filter flt2) []
  rw [hlist] at d1 d2 d4
  refine ⟨?_, d2, ?_⟩
  · intro r hr
    have hm := d1.subset hr
    obtain ⟨hm, f2⟩ := List.mem_filter.mp hm
    obtain ⟨hm, f1⟩ := List.mem_filter.mp hm
    obtain ⟨q, hq, hf⟩ := inject_sound hin (refRoot ref :: rest) hfits ref.nfrag le_rfl r hm
    obtain ⟨hops, hb⟩ := hbase q hq
    have htot : totalSpin r.sp = totalSpin ref := of_decide_eq_true f1
    obtain ⟨flips, -, hp⟩ := flipTo_product hin hb.2.2 hf htot
    exact ⟨hops, q.sp, hb, hf, htot, (commonSpin_iff hin hp.fits htot).mp f2⟩
  · intro hops a t hb hf htot hcom
    obtain ⟨⟨q, hq, rfl⟩, hx, hp⟩ := hb
    obtain ⟨r', hr', he⟩ := inject_complete hin (refRoot ref :: rest) q hq hp.fits ref.nfrag le_rfl t hf
    obtain ⟨flips, -, hpt⟩ := flipTo_product hin hp hf htot
    have hm : r' ∈ ((injectFlips ref (spinFlips sf ref) ref.nfrag (refRoot ref :: rest)).filter flt).filter flt2 := by
      refine List.mem_filter.mpr ⟨List.mem_filter.mpr ⟨hr', ?_⟩, ?_⟩
      · simp only [flt, decide_eq_true_eq]; rw [he.2.2.2.2.2]; exact htot
      · simp only [flt2]; rw [he.2.2.2.2.1]; exact (commonSpin_iff hin hpt.fits htot).mpr hcom
    rcases d4 r' hm with ⟨s, hs, -⟩ | ⟨y, hy, hs⟩
    · simp at hs
    · exact ⟨y, hy, sameEl_trans hs (eqW_sameEl h he)⟩

/-! ### Products with the same hops and flips -/

theorem product_same {xs : List ElHop} {ys : List (Nat × Nat)} {a b : Space} (ha : IsProduct so ref xs ys a)
    (hb : IsProduct so ref xs ys b) : a.charges = b.charges ∧ a.smults = b.smults ∧ a.entmap = b.entmap := by
  have la := fits_len ha.fits
  have lb := fits_len hb.fits
  have key : ∀ k, el a.charges k = el b.charges k ∧ el a.smults k = el b.smults k := by
    intro k
    by_cases hk : k ∈ touched xs ys
    · rcases (mem_touched _ _ _).mp hk with ⟨x, hx, rfl | rfl⟩ | ⟨y, hy, rfl⟩
      · exact ⟨(ha.source x hx).1.trans (hb.source x hx).1.symm, (ha.source x hx).2.trans (hb.source x hx).2.symm⟩
      · exact ⟨(ha.dest x hx).1.trans (hb.dest x hx).1.symm, (ha.dest x hx).2.trans (hb.dest x hx).2.symm⟩
      · exact ⟨(ha.flipped y hy).1.trans (hb.flipped y hy).1.symm, (ha.flipped y hy).2.trans (hb.flipped y hy).2.symm⟩
    · exact ⟨(ha.rest k hk).1.trans (hb.rest k hk).1.symm, (ha.rest k hk).2.trans (hb.rest k hk).2.symm⟩
  exact ⟨ext_el (by omega) fun k _ => (key k).1, ext_el (by omega) fun k _ => (key k).2, by rw [ha.pairs, hb.pairs]⟩

theorem product_rearranged {xs : List ElHop} {ys : List (Nat × Nat)} {a b : Space} (ha : IsProduct so ref xs ys a)
    (hb : IsProduct so ref xs ys b) : Rearranged a b := by
  obtain ⟨h1, h2, -⟩ := product_same ha hb
  refine ⟨by rw [hb.fits.orbs, ha.fits.orbs], by rw [hb.fits.elec, ha.fits.elec], h1.symm, h2.symm, ?_⟩
  rw [h2, ha.total, ← hb.total]
  exact fits_spinVec hb.fits

theorem rearranged_product {xs : List ElHop} {ys : List (Nat × Nat)} {a b : Space} (ha : IsProduct so ref xs ys a)
    (he : b.entmap = a.entmap) (hr : Rearranged a b) : IsProduct so ref xs ys b := by
  obtain ⟨r1, r2, r3, r4, r5⟩ := hr
  have la := fits_len ha.fits
  have hn : b.nfrag = ref.nfrag := by unfold Space.nfrag; rw [r1]; exact ha.fits.nfrag
  have hna := ha.fits.nfrag
  refine ⟨⟨⟨?_, ?_, ?_, ?_⟩, ?_, ?_, ?_⟩, ha.once, ?_, ?_, ?_, ?_, ?_, ?_⟩
  · rw [r2, hn, ← hna]; exact ha.fits.shaped.1
  · rw [r5.1, hn]; simpa using la.1
  · rw [r4, hn]; exact la.1
  · rw [r3, hn]; exact la.2.2
  · rw [r1]; exact ha.fits.orbs
  · rw [r2]; exact ha.fits.elec
  · intro k hk
    rw [hn] at hk
    have := (fragOk_iff a k).mp (ha.fits.ok k (by rw [hna]; exact hk))
    rw [fragOk_iff, r1, r2, r3, r4]
    refine ⟨this.1, ?_⟩
    have hb := r5.2.1 k (by simp [la.1, hk])
    rw [el_map_sub _ _ (by rw [la.1]; exact hk)] at hb
    exact hb
  · intro x hx; rw [r3, r4]; exact ha.source x hx
  · intro x hx; rw [r3, r4]; exact ha.dest x hx
  · intro x hx; rw [r3, r4]; exact ha.flipped x hx
  · intro k hk; unfold SameFragNoM; rw [r3, r4]; exact ha.rest k hk
  · unfold totalSpin; rw [r5.2.2]; exact ha.total
  · rw [he]; exact ha.pairs

/-! ### Shuffling -/

theorem shuffle_stage (L : List Root) (hp : ∀ r ∈ L, ∃ xs ys, IsProduct so ref xs ys r.sp)
    (hap : (L.map (·.sp)).Pairwise (fun a b => ¬ SameEl h a b)) :
    ∃ N, shuffle h L = .ok (L ++ N.map fun sp => ⟨sp, []⟩) ∧
      (∀ n ∈ N, ∃ r ∈ L, n.entmap = r.sp.entmap ∧ Rearranged r.sp n) ∧
      (L.map (·.sp) ++ N).Pairwise (fun a b => ¬ SameEl h a b) ∧
      ∀ r ∈ L, ∀ t, t.entmap = r.sp.entmap → Rearranged r.sp t → ∃ y ∈ L.map (·.sp) ++ N, SameEl h y t := by
  obtain ⟨N, e, a1, a2, a3, a4⟩ := spinShuffle_core h (L.map (·.sp)) (by
    intro s hs
    obtain ⟨r, hr, rfl⟩ := List.mem_map.mp hs
    obtain ⟨xs, ys, hpr⟩ := hp r hr
    exact ⟨fits_mults hpr.fits, fits_spinVec hpr.fits⟩)
  refine ⟨N, ?_, ?_, ?_, ?_⟩
  · unfold shuffle spinShuffle
    rw [show (fun st : List Space × List Space => if false = true then st.2.map fun sp => { sp with weight := 1 / (st.2.length : Rat) } else st.2) =
      (fun st => st.2) by funext st; simp]
    rw [e]
    simp
  · intro n hn
    obtain ⟨s, hs, -, h2, h3⟩ := a1 n hn
    obtain ⟨r, hr, rfl⟩ := List.mem_map.mp hs
    exact ⟨r, hr, h2, h3⟩
  · rw [List.pairwise_append]
    exact ⟨hap, a2, fun a ha b hb => a3 b hb a ha⟩
  · intro r hr t h1 h2
    exact a4 r.sp (List.mem_map.mpr ⟨r, hr, rfl⟩) t h1 h2

end

end Verif.Lassis
