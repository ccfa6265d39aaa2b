import Verif.Lemmas.LassisFill
/-!
# LASSIS: the whole model space
-/
namespace Verif.Lassis
open Verif.Spaces Verif.Spaces.Space Verif.Spec Verif.Props

section
variable {so : List Nat → List Nat} {ch : Nat → Nat → Nat → Bool} {sf : Nat → Nat → Bool} {ref : Space}
  {h : List HashItem → Int}

/-- What is known about the list of rootspaces, in terms of the pure charge excitations it starts from. -/
structure ModelSpace (so : List Nat → List Nat) (ch : Nat → Nat → Nat → Bool) (sf : Nat → Nat → Bool) (ref : Space)
    (rest tail : List Root) : Prop where
  apart : ((refRoot ref :: tail).map (·.sp)).Pairwise (fun a b => ¬ SameRoot a b)
  sound : ∀ r ∈ refRoot ref :: tail, ∃ hops a t flips, Base so ch ref rest hops a ∧ FlipTo sf ref ref.nfrag a t ∧
    totalSpin t = totalSpin ref ∧ (∀ y ∈ flips, HasFlip sf ref y) ∧ IsProduct so ref hops flips t ∧
    IsProduct so ref hops flips r.sp ∧ CommonSpin r.sp ref ∧ RightCi hops flips r.sp r.ci
  complete : ∀ hops flips a u t, Base so ch ref rest hops a → FlipTo sf ref ref.nfrag a u → totalSpin u = totalSpin ref →
    CommonSpin u ref → IsProduct so ref hops flips u → IsProduct so ref hops flips t →
    ∃ r ∈ refRoot ref :: tail, SameRoot r.sp t

theorem refRoot_right (ref : Space) : RightCi [] [] ref (refRoot ref).ci where
  len := by simp [refRoot]
  hop := by simp
  flip := by simp
  rest k hk _ := by
    unfold refRoot
    rw [List.getD_eq_getElem?_getD, List.getElem?_map, List.getElem?_range hk]
    rfl

theorem commonSpin_congr {a b ref : Space} (he : a.smults = b.smults) (hc : CommonSpin a ref) : CommonSpin b ref := by
  unfold CommonSpin at hc ⊢
  rw [← he]; exact hc

theorem model_space (f : NCsf) (hf : CsfCounts f) (hh : SeparatesRecords so ref h) (ho : PairOrder so ref.nfrag)
    (hin : LassisInput so ch sf ref) :
    ∃ rest tail, prepareModelStates f h so ch sf ref = .ok (refRoot ref :: tail) ∧ ChargeStage so ch ref h rest ∧
      ModelSpace so ch sf ref rest tail := by
  obtain ⟨l, e1, hk, hl⟩ := hopSpaces_spec (sf := sf) f hf hin (hopKeys ch ref.nfrag)
    (fun k hk => (mem_hopKeys (ch := ch) (ref := ref) (keyHop k)).mp hk)
  obtain ⟨rest, e2, hc⟩ := charge_stage (h := h) ho hh hin l hk hl
  obtain ⟨extra, e3, hfs⟩ := flip_stage (h := h) hin hc
  have prod : ∀ r ∈ refRoot ref :: (rest ++ extra), ∃ hops a flips, Base so ch ref rest hops a ∧ FlipTo sf ref ref.nfrag a r.sp ∧
      totalSpin r.sp = totalSpin ref ∧ CommonSpin r.sp ref ∧ (∀ y ∈ flips, HasFlip sf ref y) ∧ IsProduct so ref hops flips r.sp := by
    intro r hr
    obtain ⟨hops, a, hb, hft, ht, hcs⟩ := hfs.sound r hr
    obtain ⟨flips, hy, hp⟩ := flipTo_product hin hb.2.2 hft ht
    exact ⟨hops, a, flips, hb, hft, ht, hcs, hy, hp⟩
  obtain ⟨N, e4, n1, n2, n3⟩ := shuffle_stage (so := so) (ref := ref) (h := h) (refRoot ref :: (rest ++ extra))
    (fun r hr => by obtain ⟨hops, -, flips, -, -, -, -, -, hp⟩ := prod r hr; exact ⟨hops, flips, hp⟩) hfs.apart
  obtain ⟨hl', zs, e5, f5, g0, g1, g2, g3⟩ := prepHopped_ok ho hin rest hc.sound
  have hz : ∀ z, z ∈ zs ↔ HasHop ch ref z := by
    intro z
    refine ⟨g0 z, fun hzz => ?_⟩
    obtain ⟨r, hr, hp⟩ := hc.complete [z] (by simp) (by simpa using hzz) (by
      rw [touched_single]; simpa using hin.apart z hzz)
    exact g2 r hr z hzz hp
  have hnd := g3 hc.once
  -- all rootspaces before the vectors are filled in
  have all : ∀ r ∈ (rest ++ extra) ++ N.map (fun sp => (⟨sp, []⟩ : Root)), ∃ hops a t flips, Base so ch ref rest hops a ∧
      FlipTo sf ref ref.nfrag a t ∧ totalSpin t = totalSpin ref ∧ (∀ y ∈ flips, HasFlip sf ref y) ∧ IsProduct so ref hops flips t ∧
      IsProduct so ref hops flips r.sp ∧ CommonSpin r.sp ref := by
    intro r hr
    rcases List.mem_append.mp hr with hr | hr
    · obtain ⟨hops, a, flips, hb, hft, ht, hcs, hy, hp⟩ := prod r (List.mem_cons_of_mem _ hr)
      exact ⟨hops, a, r.sp, flips, hb, hft, ht, hy, hp, hp, hcs⟩
    · obtain ⟨n, hn, rfl⟩ := List.mem_map.mp hr
      obtain ⟨r', hr', he, hre⟩ := n1 n hn
      obtain ⟨hops, a, flips, hb, hft, ht, hcs, hy, hp⟩ := prod r' hr'
      exact ⟨hops, a, r'.sp, flips, hb, hft, ht, hy, hp, rearranged_product hp he hre, commonSpin_congr hre.2.2.2.1.symm hcs⟩
  obtain ⟨tail, e6, f6⟩ := mapM_exists (fun r : Root => fillCi (refRoot ref) (spinFlips sf ref) hl' r.sp)
    (fun r r' => r'.sp = r.sp ∧ ∃ hops a t flips, Base so ch ref rest hops a ∧ FlipTo sf ref ref.nfrag a t ∧
      totalSpin t = totalSpin ref ∧ (∀ y ∈ flips, HasFlip sf ref y) ∧ IsProduct so ref hops flips t ∧
      IsProduct so ref hops flips r'.sp ∧ CommonSpin r'.sp ref ∧ RightCi hops flips r'.sp r'.ci)
    ((rest ++ extra) ++ N.map (fun sp => (⟨sp, []⟩ : Root))) (by
      intro r hr
      obtain ⟨hops, a, t, flips, hb, hft, ht, hy, hp, hpr, hcs⟩ := all r hr
      obtain ⟨r', er, es, hR⟩ := fillCi_ok ho hin hb.2.1 hy hpr zs hl' f5 hz hnd
      exact ⟨r', er, es, hops, a, t, flips, hb, hft, ht, hy, hp, by rw [es]; exact hpr, by rw [es]; exact hcs, by rw [es]; exact hR⟩)
  have hsp : tail.map (·.sp) = ((rest ++ extra) ++ N.map (fun sp => (⟨sp, []⟩ : Root))).map (·.sp) := by
    have : ∀ (as bs : List Root) (P : Root → Root → Prop), List.Forall₂ (fun r r' => r'.sp = r.sp ∧ P r r') as bs →
        bs.map (·.sp) = as.map (·.sp) := by
      intro as bs P hf
      induction hf with
      | nil => rfl
      | cons hab _ ih => rw [List.map_cons, List.map_cons, hab.1, ih]
    exact this _ _ _ f6
  have hsp' : (refRoot ref :: tail).map (·.sp) = (refRoot ref :: (rest ++ extra)).map (·.sp) ++ N := by
    rw [List.map_cons, hsp]
    simp [Function.comp_def]
  refine ⟨rest, tail, ?_, hc, ?_, ?_, ?_⟩
  · have hmap : ∃ d, (List.range (refRoot ref).sp.nfrag).mapM (rootSzrot (refRoot ref)) = .ok d := by
      obtain ⟨d, ed, -⟩ := mapM_exists (rootSzrot (refRoot ref)) (fun _ _ => True) (List.range (refRoot ref).sp.nfrag) (by
        intro k hk
        have := (refRoot_right ref).rest k (List.mem_range.mp hk) (by simp [touched])
        refine ⟨szrot ref k (.ref k, el ref.spins k), ?_, trivial⟩
        unfold rootSzrot
        rw [this]
        rfl)
      exact ⟨d, ed⟩
    obtain ⟨d, ed⟩ := hmap
    have htake : ((rest ++ extra) ++ N.map (fun sp => (⟨sp, []⟩ : Root))).take ((refRoot ref :: rest).length - 1) = rest := by
      simp [List.take_append]
    have last : spinShuffleCi (spinFlips sf ref) ((refRoot ref :: (rest ++ extra)) ++ N.map (fun sp => (⟨sp, []⟩ : Root)))
        (refRoot ref :: rest).length = .ok (refRoot ref :: tail) := by
      unfold spinShuffleCi
      simp only [List.cons_append, bind, Except.bind, ed]
      rw [htake, e5]
      simp only [e6, pure, Except.pure]
    unfold prepareModelStates
    simp only [e1, bind, Except.bind]
    by_cases hn : ref.nfrag > 3
    · rw [if_pos hn] at e2 ⊢
      simp only [e2, e3, e4, last]
    · rw [if_neg hn] at e2 ⊢
      simp only [pure, Except.pure, Except.ok.injEq] at e2
      simp only [pure, Except.pure, e2, e3, e4, last]
  · rw [hsp']
    exact n2.imp_of_mem (fun {a b} ha hb hne hs => hne (by
      have fa : ∀ x ∈ (refRoot ref :: (rest ++ extra)).map (·.sp) ++ N, Fits x ref := by
        intro x hx
        rcases List.mem_append.mp hx with hx | hx
        · obtain ⟨r, hr, rfl⟩ := List.mem_map.mp hx
          obtain ⟨_, _, _, _, _, _, _, _, hp⟩ := prod r hr
          exact hp.fits
        · obtain ⟨_, _, _, _, _, _, _, _, _, hp, _⟩ := all ⟨x, []⟩ (by simp [hx])
          exact hp.fits
      exact sameEl_of_sameRoot h (fa a ha) (fa b hb) hs))
  · intro r hr
    rcases List.mem_cons.mp hr with rfl | hr
    · obtain ⟨hops, a, hb, hft, ht, hcs⟩ := hfs.sound (refRoot ref) (by simp)
      have hp := ref_isProduct (so := so) hin
      exact ⟨[], ref, ref, [], ⟨⟨refRoot ref, by simp, rfl⟩, by simp, hp⟩, flipTo_refl _ _, rfl, by simp, hp, hp, hcs, refRoot_right ref⟩
    · have : ∀ (as : List Root) (bs : List Root) (P : Root → Root → Prop), List.Forall₂ P as bs → ∀ b ∈ bs, ∃ a ∈ as, P a b := by
        intro as bs P hf
        induction hf with
        | nil => simp
        | cons hab _ ih =>
          intro b hb
          rcases List.mem_cons.mp hb with rfl | hb
          · exact ⟨_, by simp, hab⟩
          · obtain ⟨a, ha, hP⟩ := ih b hb
            exact ⟨a, List.mem_cons_of_mem _ ha, hP⟩
      obtain ⟨_, _, _, hP⟩ := this _ _ _ f6 r hr
      exact hP
  · intro hops flips a u t hb hft ht hcs hpu hpt
    obtain ⟨r, hr, hse⟩ := hfs.complete hops a u hb hft ht hcs
    obtain ⟨_, _, _, _, _, _, _, _, hp0⟩ := prod r hr
    have hsr := sameRoot_of_sameEl hh hp0 hpu hse
    have hpr : IsProduct so ref hops flips r.sp := hpu.congr hp0.fits ⟨sameNumbers_symm hsr.1, hsr.2.symm⟩
    obtain ⟨y, hy, hys⟩ := n3 r hr t (product_same hpt hpr).2.2 (product_rearranged hpr hpt)
    have hpy : ∃ xs ys, IsProduct so ref xs ys y := by
      rcases List.mem_append.mp hy with hx | hx
      · obtain ⟨r, hr, rfl⟩ := List.mem_map.mp hx
        obtain ⟨xs, _, ys, _, _, _, _, _, hp⟩ := prod r hr
        exact ⟨xs, ys, hp⟩
      · obtain ⟨xs, _, _, ys, _, _, _, _, _, hp, _⟩ := all ⟨y, []⟩ (by simp [hx])
        exact ⟨xs, ys, hp⟩
    obtain ⟨_, _, hpy⟩ := hpy
    have hys := sameRoot_of_sameEl hh hpy hpt hys
    rw [← hsp'] at hy
    obtain ⟨r', hr', rfl⟩ := List.mem_map.mp hy
    exact ⟨r', hr', hys⟩

/-! ### Which products are there -/

theorem unflipped_same {hops : List ElHop} {flips : List (Nat × Nat)} {a u : Space}
    (ha : IsProduct so ref hops [] a) (hu : IsProduct so ref hops flips u) (k : Nat) (hk : k ∉ flips.map (·.1)) :
    el u.charges k = el a.charges k ∧ el u.smults k = el a.smults k := by
  by_cases hk' : k ∈ touched hops []
  · rcases (mem_touched _ _ _).mp hk' with ⟨x, hx, rfl | rfl⟩ | ⟨y, hy, -⟩
    · exact ⟨(hu.source x hx).1.trans (ha.source x hx).1.symm, (hu.source x hx).2.trans (ha.source x hx).2.symm⟩
    · exact ⟨(hu.dest x hx).1.trans (ha.dest x hx).1.symm, (hu.dest x hx).2.trans (ha.dest x hx).2.symm⟩
    · simp at hy
  · have hk2 : k ∉ touched hops flips := by
      intro hc
      rcases (mem_touched _ _ _).mp hc with h1 | ⟨y, hy, rfl⟩
      · exact hk' ((mem_touched _ _ _).mpr (Or.inl h1))
      · exact hk (List.mem_map.mpr ⟨y, hy, rfl⟩)
    exact ⟨(hu.rest k hk2).1.trans (ha.rest k hk').1.symm, (hu.rest k hk2).2.trans (ha.rest k hk').2.symm⟩

theorem flipped_apart {hops : List ElHop} {flips : List (Nat × Nat)} {u : Space}
    (hu : IsProduct so ref hops flips u) : ∀ y ∈ flips, y.1 ∉ touched hops [] := by
  intro y hy' hc
  have hone := hu.once
  unfold touched at hone hc
  simp only [List.map_nil, List.append_nil] at hc
  exact (List.nodup_append.mp hone).2.2 y.1 hc y.1 (List.mem_map.mpr ⟨y, hy', rfl⟩) rfl

/-- Flipping the given fragments of `a`. -/
theorem flipTo_of {hops : List ElHop} {flips : List (Nat × Nat)} {a u : Space} (hy : ∀ y ∈ flips, HasFlip sf ref y)
    (ha : IsProduct so ref hops [] a) (hu : IsProduct so ref hops flips u)
    (hm : ∀ k, k ∉ flips.map (·.1) → el u.spins k = el a.spins k) : FlipTo sf ref ref.nfrag a u := by
  have la := fits_len ha.fits
  have lu := fits_len hu.fits
  have key := unflipped_same ha hu
  have fl := flipped_apart hu
  refine ⟨by rw [hu.fits.orbs, ha.fits.orbs], by rw [hu.fits.elec, ha.fits.elec], ?_, by rw [hu.pairs, ha.pairs],
    ⟨by omega, by omega⟩, ?_⟩
  · refine ext_el (by omega) fun k _ => ?_
    by_cases hk : k ∈ flips.map (·.1)
    · obtain ⟨y, hy', rfl⟩ := List.mem_map.mp hk
      exact (hu.flipped y hy').1.trans (ha.rest _ (fl y hy')).1.symm
    · exact (key k hk).1
  · intro k
    by_cases hk : k ∈ flips.map (·.1)
    · obtain ⟨y, hy', rfl⟩ := List.mem_map.mp hk
      have hh := hy y hy'
      exact Or.inr ⟨hh.1, (ha.rest _ (fl y hy')).1, (ha.rest _ (fl y hy')).2, y.2, hh.2.1, hh.2.2, (hu.flipped y hy').2,
        ((fragOk_iff u y.1).mp (hu.fits.ok _ (by rw [hu.fits.nfrag]; exact hh.1))).2⟩
    · exact Or.inl ⟨(key k hk).2, hm k hk⟩

/-- After flips upwards the projections need not change. -/
theorem flip_up {hops : List ElHop} {flips : List (Nat × Nat)} {a t : Space} (hup : ∀ y ∈ flips, y.2 = 1)
    (ha : IsProduct so ref hops [] a) (ht : IsProduct so ref hops flips t) :
    IsProduct so ref hops flips { t with spins := a.spins } := by
  have la := fits_len ha.fits
  have lt := fits_len ht.fits
  refine rearranged_product ht rfl ⟨rfl, rfl, rfl, rfl, ?_, ?_, ?_⟩
  · simp only [List.length_map]; omega
  · intro k hk
    rw [List.length_map] at hk
    rw [el_map_sub _ _ hk]
    have hp := ((fragOk_iff a k).mp (ha.fits.ok k (by rw [ha.fits.nfrag]; omega))).2
    unfold ProjIn at hp
    by_cases hf : k ∈ flips.map (·.1)
    · obtain ⟨y, hy', rfl⟩ := List.mem_map.mp hf
      have h1 := (ha.rest _ (flipped_apart ht y hy')).2
      have h2 := (ht.flipped y hy').2
      rw [hup y hy', show flipBy 1 = 2 from rfl] at h2
      rw [h1] at hp
      simp only
      omega
    · have := (unflipped_same ha ht k hf).2
      simp only
      omega
  · exact ha.total.trans ht.total.symm

/-- The pure charge excitations from which a rootspace without charge excitations is made: the reference only. -/
theorem base_nil (ho : PairOrder so ref.nfrag) {rest : List Root} (hc : ChargeStage so ch ref h rest) {a : Space}
    (hb : Base so ch ref rest [] a) : a = ref := by
  obtain ⟨⟨r, hr, rfl⟩, -, hp⟩ := hb
  rcases List.mem_cons.mp hr with rfl | hr
  · rfl
  · exfalso
    obtain ⟨hops, h0, hx, hp', -⟩ := hc.sound r hr
    have := (product_inj ho hp' hp (fun x hx' => (hx x hx').ranged) (by simp) (by simp) (by simp)
      ⟨sameNumbers_refl _, rfl⟩).1
    exact h0 (List.perm_nil.mp this)

end
end Verif.Lassis
