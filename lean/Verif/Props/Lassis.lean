import Verif.Lemmas.LassisLow
import Verif.Lemmas.Signs
import Mathlib.Logic.Encodable.Basic
import Mathlib.Logic.Equiv.List
/-!
# C111: the LASSIS model space; C112: which rootspaces use which vectors
-/
namespace Verif.Props
open Verif.Spaces Verif.Spaces.Space Verif.Spec Verif.Lassis

section
variable {so : List Nat → List Nat} {ch : Nat → Nat → Nat → Bool} {sf : Nat → Nat → Bool} {ref : Space}
  {h : List HashItem → Int}

/-- C111 (when every combination of the available hops is possible): `prepare_model_states` finishes. The first
rootspace of the result is the reference, no rootspace appears twice, and every one is obtained from the reference by
available hops and spin flips acting on different fragments, has the projection of the reference, can couple to the
same total spin, and carries in each fragment the vectors that were made for this fragment and this excitation, rotated
to the local projection. -/
theorem C111_model_space_partial (f : NCsf) (hf : CsfCounts f) (hh : SeparatesRecords so ref h)
    (ho : PairOrder so ref.nfrag) (hin : LassisInput so ch sf ref) :
    ∃ out, prepareModelStates f h so ch sf ref = .ok out ∧ (out.map (·.sp)).head? = some ref ∧
      (out.map (·.sp)).Pairwise (fun a b => ¬ SameRoot a b) ∧
      ∀ r ∈ out, ∃ hops flips, (∀ x ∈ hops, HasHop ch ref x) ∧ (∀ y ∈ flips, HasFlip sf ref y) ∧
        IsProduct so ref hops flips r.sp ∧ CommonSpin r.sp ref ∧ RightCi hops flips r.sp r.ci := by
  obtain ⟨rest, tail, e, -, hm⟩ := model_space f hf hh ho hin
  refine ⟨_, e, rfl, hm.apart, fun r hr => ?_⟩
  obtain ⟨hops, a, t, flips, hb, -, -, hy, -, hp, hc, hR⟩ := hm.sound r hr
  exact ⟨hops, flips, hb.2.1, hy, hp, hc, hR⟩

/-- Every combination of hops is there, with every distribution of the projections. -/
theorem C111_hops_complete (f : NCsf) (hf : CsfCounts f) (hh : SeparatesRecords so ref h)
    (ho : PairOrder so ref.nfrag) (hin : LassisInput so ch sf ref) (out : List Root)
    (e : prepareModelStates f h so ch sf ref = .ok out) (hops : List ElHop) (hx : ∀ x ∈ hops, HasHop ch ref x) (t : Space)
    (ht : IsProduct so ref hops [] t) : Present out t := by
  obtain ⟨rest, tail, e', hc, hm⟩ := model_space f hf hh ho hin
  rw [e] at e'
  cases e'
  obtain ⟨a, hb⟩ := base_exists hin hc hops hx ht.once
  exact hm.complete hops [] a a t hb (flipTo_refl _ _) hb.2.2.total (hop_common hin hx hb.2.2) hb.2.2 ht

/-- So is every combination of hops with spin flips upwards that can couple to the total spin. -/
theorem C111_flips_up_partial (f : NCsf) (hf : CsfCounts f) (hh : SeparatesRecords so ref h)
    (ho : PairOrder so ref.nfrag) (hin : LassisInput so ch sf ref) (out : List Root)
    (e : prepareModelStates f h so ch sf ref = .ok out) (hops : List ElHop) (hx : ∀ x ∈ hops, HasHop ch ref x)
    (flips : List (Nat × Nat)) (hy : ∀ y ∈ flips, HasFlip sf ref y) (hup : ∀ y ∈ flips, y.2 = 1) (t : Space)
    (ht : IsProduct so ref hops flips t) (hc : CommonSpin t ref) : Present out t := by
  obtain ⟨rest, tail, e', hcs, hm⟩ := model_space f hf hh ho hin
  rw [e] at e'
  cases e'
  have hnd : (touched hops []).Nodup := by
    have := ht.once
    unfold touched at this ⊢
    simpa using (List.nodup_append.mp this).1
  obtain ⟨a, hb⟩ := base_exists hin hcs hops hx hnd
  have hu := flip_up hup hb.2.2 ht
  exact hm.complete hops flips a _ t hb (flipTo_of hy hb.2.2 hu fun _ _ => rfl) hu.total hc hu ht

/-- A combination of spin flips without hops is there exactly if it can couple to the total spin and the other fragments
can keep the projections they have in the reference. -/
theorem C111_flips_alone_partial (f : NCsf) (hf : CsfCounts f) (hh : SeparatesRecords so ref h)
    (ho : PairOrder so ref.nfrag) (hin : LassisInput so ch sf ref) (out : List Root)
    (e : prepareModelStates f h so ch sf ref = .ok out)
    (flips : List (Nat × Nat)) (hy : ∀ y ∈ flips, HasFlip sf ref y) (t : Space) (ht : IsProduct so ref [] flips t) :
    Present out t ↔ CommonSpin t ref ∧
      ∃ u, IsProduct so ref [] flips u ∧ ∀ k, k ∉ flips.map (·.1) → el u.spins k = el ref.spins k := by
  obtain ⟨rest, tail, e', hcs, hm⟩ := model_space f hf hh ho hin
  rw [e] at e'
  cases e'
  constructor
  · rintro ⟨r, hr, hs⟩
    obtain ⟨hops, a, u, flips', hb, hft, htot, hy', hpu, hpr, hc, -⟩ := hm.sound r hr
    have hpt := hpr.congr ht.fits hs
    have hinj := product_inj ho hpr ht (fun x hx' => (hb.2.1 x hx').ranged) (by simp) (fun y hy0 => (hy' y hy0).2.1)
      (fun y hy0 => (hy y hy0).2.1) hs
    have h0 : hops = [] := List.perm_nil.mp hinj.1
    subst h0
    have ha := base_nil ho hcs hb
    subst ha
    refine ⟨commonSpin_congr (product_same hpr hpt).2.1 hc, u, hpu.perm (List.Perm.refl _) hinj.2, ?_⟩
    intro k hk
    rcases hft.frag k with h1 | ⟨-, -, -, d, hd, -, h4, -⟩
    · exact h1.2
    · exfalso
      have hk' : k ∉ flips'.map (·.1) := fun hc => hk ((hinj.2.map _).mem_iff.mp hc)
      have := (unflipped_same hb.2.2 hpu k hk').2
      have := flipBy_ne d
      omega
  · rintro ⟨hc, u, hu, hk⟩
    have hr := ref_isProduct (so := so) hin
    have hb : Base so ch ref rest [] ref := ⟨⟨refRoot ref, by simp, rfl⟩, by simp, hr⟩
    exact hm.complete [] flips ref u t hb (flipTo_of hy hr hu hk) hu.total
      (commonSpin_congr (product_same ht hu).2.1 hc) hu ht

/-- The condition on the input holds for every reference of low total projection. -/
theorem C111_low_spin (so : List Nat → List Nat) (hl : LowSpinInput ch sf ref) : LassisInput so ch sf ref where
  fits := hl.fits
  nonempty := hl.nonempty
  record := hl.record
  apart x hx := (hl.hops x hx).1
  hops xs hxs hnd := exists_product so ref hl.fits hl.record hl.low xs
    (fun x hx => ⟨(hxs x hx).1, (hxs x hx).2.1, (hl.hops x (hxs x hx)).2⟩) hnd
  flips := hl.flips

end

/-- An injective function on the tuples that are hashed has no collisions. -/
theorem separates_of_injective {h : List HashItem → Int} (hi : Function.Injective h) (so : List Nat → List Nat) (ref : Space) :
    SeparatesRecords so ref h := by
  intro a b _ _ _ _ _ _ _ he
  have he := hi he
  let g : HashItem → Option (List Nat) := fun | .int _ => none | .tup l => some l
  have key : ∀ s : Space, s.hashKey.filterMap g = s.entmap := by
    intro s
    have h1 : ∀ l : List Int, (l.map HashItem.int).filterMap g = [] := by
      intro l; induction l with
      | nil => rfl
      | cons a l ih => rw [List.map_cons, List.filterMap_cons_none (by rfl), ih]
    have h2 : ∀ l : List (List Nat), (l.map HashItem.tup).filterMap g = l := by
      intro l; induction l with
      | nil => rfl
      | cons a l ih => rw [List.map_cons, List.filterMap_cons_some (b := a) (by rfl), ih]
    unfold Space.hashKey
    rw [List.filterMap_append, List.filterMap_append, List.filterMap_append, List.filterMap_cons_none (by rfl), h1, h1, h1, h2]
    rfl
  rw [← key a, he, key b]

theorem exists_injective_hash : ∃ h : List HashItem → Int, Function.Injective h := by
  let e : HashItem → Int ⊕ List Nat := fun | .int i => .inl i | .tup l => .inr l
  have he : Function.Injective e := by
    intro a b hab
    cases a <;> cases b <;> simp_all [e]
  refine ⟨fun l => (Encodable.encode (l.map e) : Nat), fun a b hab => ?_⟩
  have := Encodable.encode_injective (Int.ofNat_injective hab)
  exact List.map_injective_iff.mpr he this

/-- CPython's sets keep pairs of up to eight fragments. -/
theorem pairOrder_listSet (n : Nat) (hn : n ≤ 8) : PairOrder PySet.listSet n := by
  intro i j hij hj
  rw [Verif.Signs.listSet_small [i, j] n (by simp; omega) (by simp; omega)]
  apply (List.perm_ext_iff_of_nodup (List.nodup_range.filter _) (by simp; omega)).mpr
  intro k
  simp only [List.mem_filter, List.mem_range, decide_eq_true_eq, List.mem_cons, List.not_mem_nil, or_false]
  omega

/-- Two triplets of opposite projections and two doublets. -/
def demoLassis : Space := ⟨[2, 2, 1, 1], [2, 2, 1, 1], [2, -2, 1, -1], [3, 3, 2, 2], [0, 0, 0, 0], 1, []⟩
/-- Vectors for the hops `0 → 1` and `2 → 3` that lower both multiplicities. -/
def demoCh : Nat → Nat → Nat → Bool := fun i a s => (decide (i = 0 ∧ a = 1) || decide (i = 2 ∧ a = 3)) && decide (s = 0)
/-- Vectors for the singlets of the first two fragments. -/
def demoSf : Nat → Nat → Bool := fun i d => decide (i < 2) && decide (d = 0)

theorem demoLassis_low : LowSpinInput demoCh demoSf demoLassis where
  fits := by
    refine ⟨⟨rfl, rfl, rfl, rfl⟩, rfl, rfl, ?_⟩
    intro k hk
    have hk : k < 4 := hk
    rw [fragOk_iff]
    unfold Room ProjIn
    interval_cases k <;> decide
  nonempty := by decide
  record := rfl
  low := by decide
  hops := by
    rintro ⟨i, a, s⟩ ⟨h1, h2, h3, h4⟩
    simp only [demoCh, Bool.and_eq_true, Bool.or_eq_true, decide_eq_true_eq] at h4
    obtain ⟨⟨rfl, rfl⟩ | ⟨rfl, rfl⟩, rfl⟩ := h4 <;> (unfold Room; decide)
  flips := by
    rintro ⟨i, d⟩ ⟨h1, h2, h3⟩
    simp only [demoSf, Bool.and_eq_true, decide_eq_true_eq] at h3
    obtain ⟨h3, rfl⟩ := h3
    interval_cases i <;> (unfold Room; decide)

/-- The hypotheses of the theorems above are met by this reference, whose model space contains products of two hops. -/
example : ∃ h : List HashItem → Int, ∃ out, prepareModelStates demoCsf h PySet.listSet demoCh demoSf demoLassis = .ok out ∧
    ∃ t, IsProduct PySet.listSet demoLassis [⟨0, 1, 0⟩, ⟨2, 3, 0⟩] [] t ∧ Present out t := by
  obtain ⟨h, hi⟩ := exists_injective_hash
  have hin := C111_low_spin PySet.listSet demoLassis_low
  have hs := separates_of_injective hi PySet.listSet demoLassis
  have ho := pairOrder_listSet demoLassis.nfrag (by decide)
  obtain ⟨out, e, -⟩ := C111_model_space_partial demoCsf demoCsf_counts hs ho hin
  have hx : ∀ x ∈ [(⟨0, 1, 0⟩ : ElHop), ⟨2, 3, 0⟩], HasHop demoCh demoLassis x := by
    intro x hx
    simp only [List.mem_cons, List.not_mem_nil, or_false] at hx
    rcases hx with rfl | rfl <;> exact ⟨by decide, by decide, by decide, by decide⟩
  obtain ⟨t, ht⟩ := hin.hops _ hx (by decide)
  exact ⟨h, out, e, t, ht, C111_hops_complete demoCsf demoCsf_counts hs ho hin out e _ hx t ht⟩

/-- Two triplets of opposite projections. -/
def twoTriplets : Space := ⟨[2, 2], [2, 2], [2, -2], [3, 3], [0, 0], 1, []⟩

/-- C111 fails: with two triplets of projections 1 and -1, and vectors for the singlet of the first one, the rootspace
in which the first fragment is a singlet is possible, has the projection of the reference and can couple to the same
total spin, but it is left out: the second fragment would have to change its projection too. -/
theorem C111_flip_missing_violated :
    ∃ (ref t : Space) (sf : Nat → Nat → Bool) (flips : List (Nat × Nat)), LassisInput PySet.listSet (fun _ _ _ => false) sf ref ∧
      (∀ y ∈ flips, HasFlip sf ref y) ∧ IsProduct PySet.listSet ref [] flips t ∧ CommonSpin t ref ∧
      ∀ f h, CsfCounts f → SeparatesRecords PySet.listSet ref h →
        ∃ out, prepareModelStates f h PySet.listSet (fun _ _ _ => false) sf ref = .ok out ∧ ¬ Present out t := by
  let sf : Nat → Nat → Bool := fun i d => decide (i = 0) && decide (d = 0)
  have hlow : LowSpinInput (fun _ _ _ => false) sf twoTriplets := by
    refine ⟨⟨⟨rfl, rfl, rfl, rfl⟩, rfl, rfl, ?_⟩, by decide, rfl, by decide, ?_, ?_⟩
    · intro k hk
      have hk : k < 2 := hk
      rw [fragOk_iff]
      unfold Room ProjIn
      interval_cases k <;> decide
    · rintro x ⟨-, -, -, h4⟩
      simp at h4
    · rintro ⟨i, d⟩ ⟨h1, h2, h3⟩
      simp only [sf, Bool.and_eq_true, decide_eq_true_eq] at h3
      obtain ⟨rfl, rfl⟩ := h3
      unfold Room; decide
  have hin := C111_low_spin PySet.listSet hlow
  have hy : ∀ y ∈ [((0, 0) : Nat × Nat)], HasFlip sf twoTriplets y := by
    intro y hy
    rw [List.mem_singleton.mp hy]
    exact ⟨by decide, by decide, by decide⟩
  have ht : IsProduct PySet.listSet twoTriplets [] [(0, 0)] ⟨[2, 2], [2, 2], [0, 0], [1, 3], [0, 0], 1, []⟩ := by
    refine ⟨⟨⟨rfl, rfl, rfl, rfl⟩, rfl, rfl, ?_⟩, by decide, by simp, by simp, ?_, ?_, by decide, by simp [hopRecord]⟩
    · intro k hk
      have hk : k < 2 := hk
      rw [fragOk_iff]
      unfold Room ProjIn
      interval_cases k <;> decide
    · intro y hy
      rw [List.mem_singleton.mp hy]
      decide
    · intro k hk
      rcases k with _ | _ | k
      · exact absurd (by decide) hk
      · exact ⟨rfl, rfl⟩
      · exact ⟨rfl, rfl⟩
  refine ⟨twoTriplets, ⟨[2, 2], [2, 2], [0, 0], [1, 3], [0, 0], 1, []⟩, sf, [(0, 0)], hin, hy, ht, ?_, ?_⟩
  · refine ⟨2, [0, 2], [2, 0], ?_, ?_⟩
    · exact Coupled.next (ss := [0]) (ts := [0]) (S := 0) 2 2 (Coupled.first 0) (by unfold Triangle; decide)
    · exact Coupled.next (ss := [2]) (ts := [2]) (S := 2) 2 0 (Coupled.first 2) (by unfold Triangle; decide)
  · intro f h hf hh
    have ho := pairOrder_listSet twoTriplets.nfrag (by decide)
    obtain ⟨out, e, -⟩ := C111_model_space_partial f hf hh ho hin
    refine ⟨out, e, fun hc => ?_⟩
    obtain ⟨-, u, hu, hk⟩ := (C111_flips_alone_partial f hf hh ho hin out e _ hy _ ht).mp hc
    have h1 : el u.spins 1 = -2 := hk 1 (by decide)
    have h0 := ((fragOk_iff u 0).mp (hu.fits.ok 0 (by rw [hu.fits.nfrag]; decide))).2
    have hm : el u.smults 0 = 1 := (hu.flipped (0, 0) (by simp)).2
    have hl : u.spins.length = 2 := (fits_len hu.fits).2.1
    have htot : u.spins.sum = 0 := hu.total
    obtain ⟨a, b, hab⟩ := List.length_eq_two.mp hl
    rw [hab] at htot h1 h0
    unfold ProjIn at h0
    rw [hm] at h0
    simp [el] at htot h1 h0
    omega

/-- Four doublets, three of them up. -/
def fourDoublets : Space := ⟨[1, 1, 1, 1], [1, 1, 1, 1], [1, 1, 1, -1], [2, 2, 2, 2], [0, 0, 0, 0], 1, []⟩

/-- C111 fails: with four doublets of total projection 1 and vectors for two hops each of which is possible on its own,
but not together, `prepare_model_states` fails with an `IndexError` instead of leaving the combination out. -/
theorem C111_crash_violated :
    ∃ (ref : Space) (ch : Nat → Nat → Nat → Bool), Fits ref ref ∧ ref.entmap = [] ∧
      (∃ x y, HasHop ch ref x ∧ HasHop ch ref y ∧ x ≠ y) ∧
      (∀ x, HasHop ch ref x → x.src ≠ x.dst ∧ ∃ t, IsProduct PySet.listSet ref [x] [] t) ∧
      CsfCounts demoCsf ∧
      ∀ h, prepareModelStates demoCsf h PySet.listSet ch (fun _ _ => false) ref = .error .index := by
  have hfit : Fits fourDoublets fourDoublets := by
    refine ⟨⟨rfl, rfl, rfl, rfl⟩, rfl, rfl, ?_⟩
    intro k hk
    have hk : k < 4 := hk
    rw [fragOk_iff]
    unfold Room ProjIn
    interval_cases k <;> decide
  refine ⟨fourDoublets, demoCh, hfit, rfl, ⟨⟨0, 1, 0⟩, ⟨2, 3, 0⟩, ⟨by decide, by decide, by decide, by decide⟩,
    ⟨by decide, by decide, by decide, by decide⟩, by decide⟩, ?_, demoCsf_counts, ?_⟩
  · rintro ⟨i, a, s⟩ ⟨h1, h2, h3, h4⟩
    simp only [demoCh, Bool.and_eq_true, Bool.or_eq_true, decide_eq_true_eq] at h4
    obtain ⟨⟨rfl, rfl⟩ | ⟨rfl, rfl⟩, rfl⟩ := h4
    · refine ⟨by decide, ⟨[1, 1, 1, 1], [1, 1, 1, 1], [0, 0, 1, 1], [1, 1, 2, 2], [1, -1, 0, 0], 0, [[0, 1]]⟩, ?_⟩
      refine ⟨⟨⟨rfl, rfl, rfl, rfl⟩, rfl, rfl, ?_⟩, by decide, ?_, ?_, by simp, ?_, by decide, ?_⟩
      · intro k hk
        have hk : k < 4 := hk
        rw [fragOk_iff]
        unfold Room ProjIn
        interval_cases k <;> decide
      · intro y hy; rw [List.mem_singleton.mp hy]; decide
      · intro y hy; rw [List.mem_singleton.mp hy]; decide
      · intro k hk
        rcases k with _ | _ | _ | _ | k
        · exact absurd (by decide) hk
        · exact absurd (by decide) hk
        · exact ⟨rfl, rfl⟩
        · exact ⟨rfl, rfl⟩
        · exact ⟨rfl, rfl⟩
      · rw [hopRecord_single]; decide
    · refine ⟨by decide, ⟨[1, 1, 1, 1], [1, 1, 1, 1], [1, 1, 0, 0], [2, 2, 1, 1], [0, 0, 1, -1], 0, [[2, 3]]⟩, ?_⟩
      refine ⟨⟨⟨rfl, rfl, rfl, rfl⟩, rfl, rfl, ?_⟩, by decide, ?_, ?_, by simp, ?_, by decide, ?_⟩
      · intro k hk
        have hk : k < 4 := hk
        rw [fragOk_iff]
        unfold Room ProjIn
        interval_cases k <;> decide
      · intro y hy; rw [List.mem_singleton.mp hy]; decide
      · intro y hy; rw [List.mem_singleton.mp hy]; decide
      · intro k hk
        rcases k with _ | _ | _ | _ | k
        · exact ⟨rfl, rfl⟩
        · exact ⟨rfl, rfl⟩
        · exact absurd (by decide) hk
        · exact absurd (by decide) hk
        · exact ⟨rfl, rfl⟩
      · rw [hopRecord_single]; decide
  · intro h
    rfl

/-! ### C112 -/

section
variable {so : List Nat → List Nat} {ch : Nat → Nat → Nat → Bool} {sf : Nat → Nat → Bool} {ref : Space}
  {h : List HashItem → Int}

/-- What each fragment of a rootspace of the model space looks like. -/
theorem frag_cases {hops : List ElHop} {flips : List (Nat × Nat)} {r : Root} (hp : IsProduct so ref hops flips r.sp)
    (hR : RightCi hops flips r.sp r.ci) (i : Nat) (hi : i < ref.nfrag) :
    (r.ci.getD i none = some (.ref i, el r.sp.spins i) ∧ r.sp.nelec i = ref.nelec i ∧ el r.sp.smults i = el ref.smults i) ∨
    (∃ d, (i, d) ∈ flips ∧ r.ci.getD i none = some (.flip i d, el r.sp.spins i) ∧ r.sp.nelec i = ref.nelec i ∧
      el r.sp.smults i = el ref.smults i + flipBy d) ∨
    (∃ x ∈ hops, x.src = i ∧ r.ci.getD i none = some (.hop x.src x.dst x.s 0, el r.sp.spins i) ∧
      r.sp.nelec i = ref.nelec i - 1 ∧ el r.sp.smults i = el ref.smults i + x.dSrc) ∨
    (∃ x ∈ hops, x.dst = i ∧ r.ci.getD i none = some (.hop x.src x.dst x.s 1, el r.sp.spins i) ∧
      r.sp.nelec i = ref.nelec i + 1 ∧ el r.sp.smults i = el ref.smults i + x.dDst) := by
  have hel := hp.fits.elec
  unfold Space.nelec
  rw [hel]
  by_cases ht : i ∈ touched hops flips
  · rcases (mem_touched _ _ _).mp ht with ⟨x, hx, rfl | rfl⟩ | ⟨y, hy, rfl⟩
    · refine Or.inr (Or.inr (Or.inl ⟨x, hx, rfl, (hR.hop x hx).1, ?_, (hp.source x hx).2⟩))
      have := (hp.source x hx).1; omega
    · refine Or.inr (Or.inr (Or.inr ⟨x, hx, rfl, (hR.hop x hx).2, ?_, (hp.dest x hx).2⟩))
      have := (hp.dest x hx).1; omega
    · refine Or.inr (Or.inl ⟨y.2, hy, hR.flip y hy, ?_, (hp.flipped y hy).2⟩)
      have := (hp.flipped y hy).1; omega
  · have := hp.rest i ht
    refine Or.inl ⟨hR.rest i (by rw [hp.fits.nfrag]; exact hi) ht, ?_, this.2⟩
    have := this.1; omega

theorem mem_indices (roots : List Root) (ref : Space) (p : Space → Bool) (n : Nat) :
    n ∈ (List.range (roots.map (·.sp)).length).filter (fun r => p ((roots.map (·.sp)).getD r ref)) ↔
      ∃ r, roots[n]? = some r ∧ p r.sp = true := by
  rw [List.mem_filter, List.mem_range, List.length_map]
  constructor
  · rintro ⟨hn, hp⟩
    refine ⟨roots[n], List.getElem?_eq_getElem hn, ?_⟩
    rw [List.getD_eq_getElem?_getD, List.getElem?_map, List.getElem?_eq_getElem hn] at hp
    exact hp
  · rintro ⟨r, hr, hp⟩
    refine ⟨(List.getElem?_eq_some_iff.mp hr).1, ?_⟩
    rw [List.getD_eq_getElem?_getD, List.getElem?_map, hr]
    exact hp

/-- C112, reference vectors: `get_ref_fbf_rootspaces` returns the indices of exactly the rootspaces whose vectors of
fragment `i` are those of the reference, rotated to the projection of the rootspace. -/
theorem C112_ref_rootspaces (f : NCsf) (hf : CsfCounts f) (hh : SeparatesRecords so ref h)
    (ho : PairOrder so ref.nfrag) (hin : LassisInput so ch sf ref) (out : List Root)
    (e : prepareModelStates f h so ch sf ref = .ok out) (i : Nat) (hi : i < ref.nfrag) (n : Nat) :
    n ∈ getRefRootspaces ref (out.map (·.sp)) i ↔
      ∃ r, out[n]? = some r ∧ r.ci.getD i none = some (.ref i, el r.sp.spins i) := by
  obtain ⟨out', e', -, -, hs⟩ := C111_model_space_partial f hf hh ho hin
  rw [e] at e'
  cases e'
  unfold getRefRootspaces
  rw [mem_indices out ref (fun s => decide (s.nelec i = ref.nelec i) && decide (el s.smults i = el ref.smults i))]
  refine exists_congr fun r => and_congr_right fun hr => ?_
  obtain ⟨hops, flips, hx, hy, hp, -, hR⟩ := hs r (List.mem_of_getElem? hr)
  rw [Bool.and_eq_true, decide_eq_true_eq, decide_eq_true_eq]
  rcases frag_cases hp hR i hi with ⟨c, h1, h2⟩ | ⟨d, -, c, h1, h2⟩ | ⟨x, -, -, c, h1, h2⟩ | ⟨x, -, -, c, h1, h2⟩
  · exact ⟨fun _ => c, fun _ => ⟨h1, h2⟩⟩
  · rw [c]; have := flipBy_ne d; exact ⟨fun hc => by omega, fun hc => by simp at hc⟩
  · rw [c]; exact ⟨fun hc => by omega, fun hc => by simp at hc⟩
  · rw [c]; exact ⟨fun hc => by omega, fun hc => by simp at hc⟩

/-- C112, spin flips: `get_sf_fbf_rootspaces` returns the indices of exactly the rootspaces whose vectors of fragment
`i` are those of the given spin flip. -/
theorem C112_sf_rootspaces (f : NCsf) (hf : CsfCounts f) (hh : SeparatesRecords so ref h)
    (ho : PairOrder so ref.nfrag) (hin : LassisInput so ch sf ref) (out : List Root)
    (e : prepareModelStates f h so ch sf ref = .ok out) (i : Nat) (hi : i < ref.nfrag) (d : Nat) (hd : d < 2) (n : Nat) :
    n ∈ getSfRootspaces ref (out.map (·.sp)) i d ↔
      ∃ r, out[n]? = some r ∧ r.ci.getD i none = some (.flip i d, el r.sp.spins i) := by
  obtain ⟨out', e', -, -, hs⟩ := C111_model_space_partial f hf hh ho hin
  rw [e] at e'
  cases e'
  unfold getSfRootspaces
  rw [mem_indices out ref (fun s => decide (s.nelec i = ref.nelec i) && decide (el s.smults i = el ref.smults i - 2 + 4 * d))]
  refine exists_congr fun r => and_congr_right fun hr => ?_
  obtain ⟨hops, flips, hx, hy, hp, -, hR⟩ := hs r (List.mem_of_getElem? hr)
  rw [Bool.and_eq_true, decide_eq_true_eq, decide_eq_true_eq]
  have hfl : flipBy d = -2 + 4 * (d : Int) := by interval_cases d <;> rfl
  rcases frag_cases hp hR i hi with ⟨c, h1, h2⟩ | ⟨d', hm, c, h1, h2⟩ | ⟨x, -, -, c, h1, h2⟩ | ⟨x, -, -, c, h1, h2⟩
  · rw [c]; exact ⟨fun hc => by omega, fun hc => by simp at hc⟩
  · rw [c]
    constructor
    · rintro ⟨-, h3⟩
      have : d' = d := flipBy_inj (hy _ hm).2.1 hd (by omega)
      rw [this]
    · intro hc
      simp at hc
      subst hc
      exact ⟨h1, by omega⟩
  · rw [c]; exact ⟨fun hc => by omega, fun hc => by simp at hc⟩
  · rw [c]; exact ⟨fun hc => by omega, fun hc => by simp at hc⟩

/-- C112, charge hops (when the order in which a Python set of the two fragments is traversed does not depend on the
order of insertion): `get_ch_fbf_rootspaces` returns the indices of exactly the rootspaces whose vectors of fragments
`i` and `a` are those of the given hop. -/
theorem C112_ch_rootspaces_partial (f : NCsf) (hf : CsfCounts f) (hh : SeparatesRecords so ref h)
    (ho : PairOrder so ref.nfrag) (hin : LassisInput so ch sf ref) (out : List Root)
    (e : prepareModelStates f h so ch sf ref = .ok out) (i a s : Nat) (hi : i < ref.nfrag) (ha : a < ref.nfrag) (hia : i ≠ a)
    (hs4 : s < 4) (hord : so [i, a] = so [min i a, max i a]) (n : Nat) :
    n ∈ getChRootspaces so ref (out.map (·.sp)) i a s ↔
      ∃ r, out[n]? = some r ∧ r.ci.getD i none = some (.hop i a s 0, el r.sp.spins i) ∧
        r.ci.getD a none = some (.hop i a s 1, el r.sp.spins a) := by
  obtain ⟨out', e', -, -, hs⟩ := C111_model_space_partial f hf hh ho hin
  rw [e] at e'
  cases e'
  have key : n ∈ getChRootspaces so ref (out.map (·.sp)) i a s ↔ ∃ r, out[n]? = some r ∧
      (r.sp.nelec i = ref.nelec i - 1 ∧ el r.sp.smults i = el ref.smults i - 1 + 2 * (s / 2 : Nat) ∧
       r.sp.nelec a = ref.nelec a + 1 ∧ el r.sp.smults a = el ref.smults a - 1 + 2 * (s % 2 : Nat) ∧ so [i, a] ∈ r.sp.entmap) := by
    unfold getChRootspaces
    simp only
    rw [List.filter_filter]
    rw [mem_indices out ref (fun t => t.entmap.contains (so [i, a]) &&
      ((decide (t.nelec i = ref.nelec i - 1) && decide (el t.smults i = el ref.smults i - 1 + 2 * (s / 2 : Nat))) &&
      (decide (t.nelec a = ref.nelec a + 1) && decide (el t.smults a = el ref.smults a - 1 + 2 * (s % 2 : Nat)))))]
    refine exists_congr fun r => and_congr_right fun hr => ?_
    simp only [Bool.and_eq_true, decide_eq_true_eq, List.contains_iff_mem]
    tauto
  rw [key]
  refine exists_congr fun r => and_congr_right fun hr => ?_
  obtain ⟨hops, flips, hx, hy, hp, -, hR⟩ := hs r (List.mem_of_getElem? hr)
  have hsrc : (⟨i, a, s⟩ : ElHop).dSrc = -1 + 2 * (s / 2 : Nat) := by unfold ElHop.dSrc; interval_cases s <;> rfl
  have hdst : (⟨i, a, s⟩ : ElHop).dDst = -1 + 2 * (s % 2 : Nat) := by unfold ElHop.dDst; interval_cases s <;> simp
  constructor
  · rintro ⟨n1, m1, n2, m2, hent⟩
    rw [hp.pairs, mem_hopRecord] at hent
    obtain ⟨x, hxm, hxe⟩ := hent
    have hrx := (hx x hxm).ranged
    have hk : ∀ k, (k = x.src ∨ k = x.dst) ↔ (k = i ∨ k = a) := by
      intro k
      rw [← mem_pairOf ho hrx.1 hrx.2.1 (touched_ne hp.once hxm) k, hxe, hord]
      exact mem_pairOf ho (x := ⟨i, a, s⟩) hi ha hia k
    have hel := hp.fits.elec
    unfold Space.nelec at n1 n2
    rw [hel] at n1 n2
    have p1 := hp.source x hxm
    have p2 := hp.dest x hxm
    have a1 : x.src = i := by
      rcases (hk x.src).mp (Or.inl rfl) with h1 | h1
      · exact h1
      · rw [h1] at p1; omega
    have a2 : x.dst = a := by
      rcases (hk x.dst).mp (Or.inr rfl) with h1 | h1
      · rw [h1] at p2; omega
      · exact h1
    rw [a1] at p1
    rw [a2] at p2
    have : x = ⟨i, a, s⟩ := hop_ext a1 a2 (by omega) (by omega) hrx.2.2 hs4
    subst this
    exact hR.hop _ hxm
  · rintro ⟨c1, c2⟩
    have hm : (⟨i, a, s⟩ : ElHop) ∈ hops := by
      rcases frag_cases hp hR i hi with ⟨c, -⟩ | ⟨d, -, c, -⟩ | ⟨x, hxm, -, c, -⟩ | ⟨x, hxm, -, c, -⟩
      · rw [c] at c1; simp at c1
      · rw [c] at c1; simp at c1
      · rw [c] at c1
        simp only [Option.some.injEq, Prod.mk.injEq, Vec.hop.injEq] at c1
        obtain ⟨⟨rfl, rfl, rfl, -⟩, -⟩ := c1
        exact hxm
      · rw [c] at c1; simp at c1
    have p1 := hp.source _ hm
    have p2 := hp.dest _ hm
    have hel := hp.fits.elec
    unfold Space.nelec
    rw [hel]
    simp only at p1 p2
    refine ⟨by omega, by omega, by omega, by omega, ?_⟩
    rw [hp.pairs, mem_hopRecord]
    exact ⟨_, hm, hord.symm⟩

end

/-- With up to eight fragments the order of insertion does not matter. -/
theorem C112_order_small (n : Nat) (hn : n ≤ 8) (i a : Nat) (hi : i < n) (ha : a < n) :
    PySet.listSet [i, a] = PySet.listSet [min i a, max i a] := by
  rw [Verif.Signs.listSet_small [i, a] n (by simp; omega) (by simp; omega),
    Verif.Signs.listSet_small [min i a, max i a] n (by simp; omega) (by simp; omega)]
  apply List.filter_congr
  intro k _
  simp only [List.mem_cons, List.not_mem_nil, or_false, decide_eq_decide]
  omega

/-- The hypotheses are met: for the reference above, the rootspaces of the first hop are found, and there are some. -/
example : ∃ h : List HashItem → Int, ∃ out, prepareModelStates demoCsf h PySet.listSet demoCh demoSf demoLassis = .ok out ∧
    ∃ n, n ∈ getChRootspaces PySet.listSet demoLassis (out.map (·.sp)) 0 1 0 := by
  obtain ⟨h, hi⟩ := exists_injective_hash
  have hin := C111_low_spin PySet.listSet demoLassis_low
  have hs := separates_of_injective hi PySet.listSet demoLassis
  have ho := pairOrder_listSet demoLassis.nfrag (by decide)
  obtain ⟨out, e, -, -, hsound⟩ := C111_model_space_partial demoCsf demoCsf_counts hs ho hin
  have hhas : HasHop demoCh demoLassis ⟨0, 1, 0⟩ := ⟨by decide, by decide, by decide, by decide⟩
  obtain ⟨t, ht⟩ := hin.hops [⟨0, 1, 0⟩] (by simpa using hhas) (by decide)
  obtain ⟨r, hr, hsr⟩ := C111_hops_complete demoCsf demoCsf_counts hs ho hin out e _ (by simpa using hhas) t ht
  obtain ⟨hops, flips, hx, hy, hp, -, hR⟩ := hsound r hr
  have := (product_inj ho hp ht (fun x hx' => (hx x hx').ranged) (by simpa using hhas.ranged) (fun y hy' => (hy y hy').2.1)
    (by simp) hsr).1
  rw [List.perm_singleton.mp this] at hR
  obtain ⟨n, hn⟩ := List.mem_iff_getElem?.mp hr
  exact ⟨h, out, e, n, (C112_ch_rootspaces_partial demoCsf demoCsf_counts hs ho hin out e 0 1 0 (by decide) (by decide) (by decide)
    (by decide) (C112_order_small 4 (by decide) 0 1 (by decide) (by decide)) n).mpr ⟨r, hn, hR.hop ⟨0, 1, 0⟩ (by simp)⟩⟩

/-- Nine fragments in a row, each a doublet with one orbital. -/
def nineDoublets : Space :=
  ⟨[1, 1, 1, 1, 1, 1, 1, 1, 1], [1, 1, 1, 1, 1, 1, 1, 1, 1], [1, -1, 1, -1, 1, -1, 1, -1, 1], [2, 2, 2, 2, 2, 2, 2, 2, 2],
   [0, 0, 0, 0, 0, 0, 0, 0, 0], 1, []⟩

/-- C112 fails: with nine fragments and an electron that hops from the last to the first one, rootspaces with this hop
are in the model space, but `get_ch_fbf_rootspaces` finds none. -/
theorem C112_ch_rootspaces_violated :
    ∃ (ref : Space) (ch : Nat → Nat → Nat → Bool), LassisInput PySet.listSet ch (fun _ _ => false) ref ∧
      ∀ f h, CsfCounts f → SeparatesRecords PySet.listSet ref h →
        ∃ out, prepareModelStates f h PySet.listSet ch (fun _ _ => false) ref = .ok out ∧
          (∃ r ∈ out, ∃ m, r.ci.getD 8 none = some (.hop 8 0 0 0, m)) ∧
          getChRootspaces PySet.listSet ref (out.map (·.sp)) 8 0 0 = [] := by
  let ch : Nat → Nat → Nat → Bool := fun i a s => decide (i = 8 ∧ a = 0) && decide (s = 0)
  have hlow : LowSpinInput ch (fun _ _ => false) nineDoublets := by
    refine ⟨⟨⟨rfl, rfl, rfl, rfl⟩, rfl, rfl, ?_⟩, by decide, rfl, by decide, ?_, ?_⟩
    · intro k hk
      have hk : k < 9 := hk
      rw [fragOk_iff]
      unfold Room ProjIn
      interval_cases k <;> decide
    · rintro ⟨i, a, s⟩ ⟨h1, h2, h3, h4⟩
      simp only [ch, Bool.and_eq_true, decide_eq_true_eq] at h4
      obtain ⟨⟨rfl, rfl⟩, rfl⟩ := h4
      unfold Room; decide
    · rintro ⟨i, d⟩ ⟨-, -, h3⟩
      simp at h3
  have hin := C111_low_spin PySet.listSet hlow
  have hmem : ∀ x : ElHop, HasHop ch nineDoublets x → x = ⟨8, 0, 0⟩ := by
    rintro ⟨i, a, s⟩ ⟨h1, h2, h3, h4⟩
    simp only [ch, Bool.and_eq_true, decide_eq_true_eq] at h4
    obtain ⟨⟨rfl, rfl⟩, rfl⟩ := h4
    rfl
  have hhas : HasHop ch nineDoublets ⟨8, 0, 0⟩ := ⟨by decide, by decide, by decide, by decide⟩
  refine ⟨nineDoublets, ch, hin, fun f h hf hh => ?_⟩
  have ho : PairOrder PySet.listSet nineDoublets.nfrag := by
    have : ∀ i < 9, ∀ j < 9, i < j → (PySet.listSet [i, j]).Perm [i, j] := by decide +kernel
    intro i j hij hj
    have hj : j < 9 := hj
    exact this i (by omega) j hj hij
  obtain ⟨out, e, -, -, hs⟩ := C111_model_space_partial f hf hh ho hin
  refine ⟨out, e, ?_, ?_⟩
  · obtain ⟨t, ht⟩ := hin.hops [⟨8, 0, 0⟩] (by simpa using hhas) (by decide)
    obtain ⟨r, hr, hsr⟩ := C111_hops_complete f hf hh ho hin out e [⟨8, 0, 0⟩] (by simpa using hhas) t ht
    obtain ⟨hops, flips, hx, hy, hp, -, hR⟩ := hs r hr
    have := (product_inj ho hp ht (fun x hx' => (hx x hx').ranged) (by simpa using hhas.ranged) (fun y hy' => (hy y hy').2.1)
      (by simp) hsr).1
    rw [List.perm_singleton.mp this] at hR
    exact ⟨r, hr, _, (hR.hop ⟨8, 0, 0⟩ (by simp)).1⟩
  · rw [List.eq_nil_iff_forall_not_mem]
    intro n hn
    unfold getChRootspaces at hn
    obtain ⟨hn, hent⟩ := List.mem_filter.mp hn
    have hlt := List.mem_range.mp (List.mem_filter.mp hn).1
    rw [List.getD_eq_getElem?_getD, List.getElem?_eq_getElem hlt, Option.getD_some, List.contains_iff_mem] at hent
    obtain ⟨r, hr, he⟩ := List.mem_map.mp (List.getElem_mem hlt)
    obtain ⟨hops, flips, hx, hy, hp, -, -⟩ := hs r hr
    rw [← he, hp.pairs, mem_hopRecord] at hent
    obtain ⟨x, hxm, hxe⟩ := hent
    rw [hmem x (hx x hxm)] at hxe
    exact absurd hxe (by decide +kernel)

end Verif.Props
