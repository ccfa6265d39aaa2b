import Verif.Lemmas.LassisStage
/-!
# LASSIS: filling in the CI vectors
-/
namespace Verif.Lassis
open Verif.Spaces Verif.Spaces.Space Verif.Spec Verif.Props

/-! ### Dictionaries of rotated vectors -/

theorem rotDown_mem (v : Vec) (n : Nat) (sz : Int) :
    (∀ e ∈ rotDown v n sz sz, e.2 = (v, e.1)) ∧ ∀ j : Nat, 1 ≤ j → j ≤ n → ∃ e ∈ rotDown v n sz sz, e.1 = sz - 2 * j := by
  induction n generalizing sz with
  | zero => exact ⟨by simp [rotDown], fun j h1 h2 => by omega⟩
  | succ n ih =>
    obtain ⟨a1, a2⟩ := ih (sz - 2)
    constructor
    · intro e he
      rcases List.mem_cons.mp he with rfl | he
      · rfl
      · exact a1 e he
    · intro j h1 h2
      by_cases hj : j = 1
      · subst hj
        exact ⟨_, List.mem_cons_self, by simp⟩
      · obtain ⟨e, he, h3⟩ := a2 (j - 1) (by omega) (by omega)
        exact ⟨e, List.mem_cons_of_mem _ he, by rw [h3]; omega⟩

theorem rotUp_mem (v : Vec) (n : Nat) (sz : Int) :
    (∀ e ∈ rotUp v n sz sz, e.2 = (v, e.1)) ∧ ∀ j : Nat, 1 ≤ j → j ≤ n → ∃ e ∈ rotUp v n sz sz, e.1 = sz + 2 * j := by
  induction n generalizing sz with
  | zero => exact ⟨by simp [rotUp], fun j h1 h2 => by omega⟩
  | succ n ih =>
    obtain ⟨a1, a2⟩ := ih (sz + 2)
    constructor
    · intro e he
      rcases List.mem_cons.mp he with rfl | he
      · rfl
      · exact a1 e he
    · intro j h1 h2
      by_cases hj : j = 1
      · subst hj
        exact ⟨_, List.mem_cons_self, by simp⟩
      · obtain ⟨e, he, h3⟩ := a2 (j - 1) (by omega) (by omega)
        exact ⟨e, List.mem_cons_of_mem _ he, by rw [h3]; omega⟩

theorem dictGet_ok (d : List (Int × Ci)) (v : Vec) (m : Int) (h1 : ∀ e ∈ d, e.2 = (v, e.1)) (h2 : ∃ e ∈ d, e.1 = m) :
    dictGet d m = .ok (v, m) := by
  unfold dictGet
  cases hf : d.find? (fun e => decide (e.1 = m)) with
  | none =>
    obtain ⟨e, he, hm⟩ := h2
    have := List.find?_eq_none.mp hf e he
    simp [hm] at this
  | some e =>
    have a := List.find?_some hf
    have b := List.mem_of_find?_eq_some hf
    simp only [decide_eq_true_eq] at a
    simp only
    rw [h1 e b, a]

theorem szrot_get (sp : Space) (i : Nat) (v : Vec) (m : Int) (hp : ProjIn (el sp.smults i) (el sp.spins i))
    (hm : ProjIn (el sp.smults i) m) : dictGet (szrot sp i (v, el sp.spins i)) m = .ok (v, m) := by
  unfold ProjIn at hp hm
  obtain ⟨d1, d2⟩ := rotDown_mem v (rangeLen2 (-(el sp.spins i - 2)) (1 + el sp.smults i)) (el sp.spins i)
  obtain ⟨u1, u2⟩ := rotUp_mem v (rangeLen2 (el sp.spins i + 2) (1 + el sp.smults i)) (el sp.spins i)
  apply dictGet_ok
  · intro e he
    unfold szrot at he
    rcases List.mem_cons.mp he with rfl | he
    · rfl
    · rcases List.mem_append.mp he with he | he
      · exact d1 e he
      · exact u1 e he
  · unfold szrot
    by_cases c : m = el sp.spins i
    · exact ⟨_, List.mem_cons_self, c.symm⟩
    · by_cases c2 : m < el sp.spins i
      · obtain ⟨e, he, h3⟩ := d2 ((el sp.spins i - m) / 2).toNat (by omega) (by unfold rangeLen2; omega)
        exact ⟨e, List.mem_cons_of_mem _ (List.mem_append_left _ he), by rw [h3]; omega⟩
      · obtain ⟨e, he, h3⟩ := u2 ((m - el sp.spins i) / 2).toNat (by omega) (by unfold rangeLen2; omega)
        exact ⟨e, List.mem_cons_of_mem _ (List.mem_append_right _ he), by rw [h3]; omega⟩

/-! ### mapM -/

theorem mapM_exists {α β : Type} (g : α → Except Err β) (P : α → β → Prop) (l : List α)
    (hg : ∀ a ∈ l, ∃ b, g a = .ok b ∧ P a b) : ∃ bs, l.mapM g = .ok bs ∧ List.Forall₂ P l bs := by
  induction l with
  | nil => exact ⟨[], rfl, List.Forall₂.nil⟩
  | cons a l ih =>
    obtain ⟨b, e, hp⟩ := hg a (by simp)
    obtain ⟨bs, e2, hf⟩ := ih fun x hx => hg x (List.mem_cons_of_mem _ hx)
    refine ⟨b :: bs, ?_, List.Forall₂.cons hp hf⟩
    rw [List.mapM_cons, e, e2]
    rfl

theorem forall2_range {β : Type} {P : Nat → β → Prop} {n : Nat} {bs : List β} (hf : List.Forall₂ P (List.range n) bs) :
    bs.length = n ∧ ∀ k, k < n → ∃ b, bs[k]? = some b ∧ P k b := by
  have hl := hf.length_eq
  rw [List.length_range] at hl
  refine ⟨hl.symm, fun k hk => ?_⟩
  refine ⟨bs[k]'(by omega), List.getElem?_eq_getElem (by omega), ?_⟩
  have := List.Forall₂.get hf (i := k) (by simpa using hk) (by omega)
  simpa using this

section
variable {so : List Nat → List Nat} {ch : Nat → Nat → Nat → Bool} {sf : Nat → Nat → Bool} {ref : Space}
  {h : List HashItem → Int}

theorem refRoot_ci (k : Nat) (hk : k < ref.nfrag) : (refRoot ref).ci.getD k none = some (.ref k, el ref.spins k) := by
  unfold refRoot
  rw [List.getD_eq_getElem?_getD, List.getElem?_map, List.getElem?_range hk]
  simp

/-! ### The reference and the spin flips -/

theorem baseCi_ok (hin : LassisInput so ch sf ref) {hops : List ElHop} {flips : List (Nat × Nat)} {sp : Space}
    (hy : ∀ y ∈ flips, HasFlip sf ref y) (hp : IsProduct so ref hops flips sp) (k : Nat) (hk : k < ref.nfrag) :
    ∃ c, baseCi (refRoot ref) (spinFlips sf ref) sp k = .ok c ∧ (k ∈ touched hops [] → c = none) ∧
      (∀ y ∈ flips, y.1 = k → c = some (.flip y.1 y.2, el sp.spins y.1)) ∧
      (k ∉ touched hops flips → c = some (.ref k, el sp.spins k)) := by
  have hex := excited_iff hp.fits hin.fits false k hk
  have hproj := ((fragOk_iff sp k).mp (hp.fits.ok k (by rw [hp.fits.nfrag]; exact hk))).2
  have hprojr := ((fragOk_iff ref k).mp (hin.fits.ok k hk)).2
  simp only [Unchanged, Bool.false_eq_true, if_false] at hex
  by_cases c1 : el sp.charges k = el ref.charges k
  · have hnt : k ∉ touched hops [] := by
      intro hc
      rcases (mem_touched _ _ _).mp hc with ⟨x, hx, rfl | rfl⟩ | ⟨z, hz, -⟩
      · have := (hp.source x hx).1; omega
      · have := (hp.dest x hx).1; omega
      · simp at hz
    by_cases c2 : k ∈ touched hops flips
    · -- a spin flip
      have : ∃ y ∈ flips, k = y.1 := by
        rcases (mem_touched _ _ _).mp c2 with h1 | h1
        · exact absurd ((mem_touched _ _ _).mpr (Or.inl h1)) hnt
        · exact h1
      obtain ⟨y, hym, rfl⟩ := this
      have hf := hp.flipped y hym
      have hne := flipBy_ne y.2
      have hs : el sp.smults y.1 ≠ el ref.smults y.1 := by omega
      have hx : sp.excitedFragment (refRoot ref).sp false y.1 = true := by
        rw [← Bool.not_eq_false]
        intro hc
        exact hs (hex.mp hc).2.1
      refine ⟨some (.flip y.1 y.2, el sp.spins y.1), ?_, fun hc => absurd hc hnt, ?_, fun hc => absurd c2 hc⟩
      · unfold baseCi
        rw [hx]
        have hh := hy y hym
        have hu := flip_unique hin y.1 hk y.2 hh.2.1 hh.2.2 (el sp.spins y.1) (by rw [← hf.2]; exact hproj)
        rw [← hf.2] at hu
        simp only [Bool.not_true, Bool.false_eq_true, if_false, show (refRoot ref).sp = ref from rfl, c1, ne_eq, not_true_eq_false,
          hs, not_false_eq_true, if_true, hu]
      · intro y' hy' he
        have hone := hp.once
        unfold touched at hone
        have hnd := (List.nodup_append.mp hone).2.1
        have : y' = y := List.inj_on_of_nodup_map hnd hy' hym he
        rw [this]
    · have hr := hp.rest k c2
      refine ⟨some (.ref k, el sp.spins k), ?_, fun hc => absurd hc hnt, ?_, fun _ => rfl⟩
      · unfold baseCi
        by_cases c3 : el sp.spins k = el ref.spins k
        · have hx : sp.excitedFragment (refRoot ref).sp false k = false := hex.mpr ⟨hr.1, hr.2, c3⟩
          rw [hx, refRoot_ci k hk, c3]
          rfl
        · have hx : sp.excitedFragment (refRoot ref).sp false k = true := by
            rw [← Bool.not_eq_false]
            intro hc
            exact c3 (hex.mp hc).2.2
          rw [hx]
          have hg : rootSzrot (refRoot ref) k = .ok (szrot ref k (.ref k, el ref.spins k)) := by
            unfold rootSzrot; rw [refRoot_ci k hk]; rfl
          have hd := szrot_get ref k (.ref k) (el sp.spins k) hprojr (by rw [← hr.2]; exact hproj)
          simp only [Bool.not_true, Bool.false_eq_true, if_false, show (refRoot ref).sp = ref from rfl, c1, ne_eq, not_true_eq_false,
            hr.2, hg, hd, bind, Except.bind, pure, Except.pure]
      · rintro y hy' rfl
        exact absurd ((mem_touched _ _ _).mpr (Or.inr ⟨y, hy', rfl⟩)) c2
  · -- a hop
    have hx : sp.excitedFragment (refRoot ref).sp false k = true := by
      rw [← Bool.not_eq_false]
      intro hc
      exact c1 (hex.mp hc).1
    refine ⟨none, ?_, fun _ => rfl, ?_, fun hc => absurd (hp.rest k hc).1 c1⟩
    · unfold baseCi
      rw [hx]
      simp only [Bool.not_true, Bool.false_eq_true, if_false, show (refRoot ref).sp = ref from rfl, ne_eq, c1, not_false_eq_true, if_true]
    · rintro y hy' rfl
      exact absurd (hp.flipped y hy').1 c1

/-! ### The charge hops -/

/-- The set of vectors of fragment `k` made for hop `x`. -/
def vecOf (x : ElHop) (k : Nat) : Vec := if k = x.dst then .hop x.src x.dst x.s 1 else .hop x.src x.dst x.s 0

/-- A prepared charge-hop rootspace belongs to the hop `x`. -/
structure HoppedOf (so : List Nat → List Nat) (ref : Space) (x : ElHop) (e : Hopped) : Prop where
  prod : IsProduct so ref [x] [] e.sp
  pair : [e.i, e.j] = pairOf so x
  di : ∀ m, ProjIn (el e.sp.smults e.i) m → dictGet e.di m = .ok (vecOf x e.i, m)
  dj : ∀ m, ProjIn (el e.sp.smults e.j) m → dictGet e.dj m = .ok (vecOf x e.j, m)

theorem hoppedOf_cases (ho : PairOrder so ref.nfrag) {x : ElHop} {e : Hopped} (hr : Ranged ref x) (hne : x.src ≠ x.dst) (he : [e.i, e.j] = pairOf so x) :
    (e.i = x.src ∧ e.j = x.dst) ∨ (e.i = x.dst ∧ e.j = x.src) := by
  have hm := mem_pairOf ho hr.1 hr.2.1 hne
  rw [← he] at hm
  have h1 := (hm e.i).mp (by simp)
  have h2 := (hm e.j).mp (by simp)
  have h3 := (hm x.src).mpr (Or.inl rfl)
  have h4 := (hm x.dst).mpr (Or.inr rfl)
  simp only [List.mem_cons, List.not_mem_nil, or_false] at h3 h4
  omega

theorem prepHopped_ok (ho : PairOrder so ref.nfrag) (hin : LassisInput so ch sf ref) (rest : List Root)
    (hs : ∀ r ∈ rest, ∃ hops : List ElHop, hops ≠ [] ∧ (∀ x ∈ hops, HasHop ch ref x) ∧ IsProduct so ref hops [] r.sp ∧
      (hops.length = 1 → RightCi hops [] r.sp r.ci)) :
    ∃ hl zs, prepHopped rest = .ok hl ∧ List.Forall₂ (HoppedOf so ref) zs hl ∧
      (∀ z ∈ zs, HasHop ch ref z) ∧
      (∀ z ∈ zs, ∃ r ∈ rest, IsProduct so ref [z] [] r.sp) ∧
      (∀ r ∈ rest, ∀ z, HasHop ch ref z → IsProduct so ref [z] [] r.sp → z ∈ zs) ∧
      ((rest.map (·.sp)).Pairwise
        (fun a b => ∀ x : ElHop, Ranged ref x → IsProduct so ref [x] [] a → ¬ IsProduct so ref [x] [] b) → zs.Nodup) := by
  induction rest with
  | nil => exact ⟨[], [], rfl, List.Forall₂.nil, by simp, by simp, by simp, by simp⟩
  | cons r rest ih =>
    obtain ⟨hl, zs, e, f, g0, g1, g2, g3⟩ := ih fun r hr => hs r (List.mem_cons_of_mem _ hr)
    obtain ⟨hops, h0, hx, hp, hci⟩ := hs r (by simp)
    by_cases hl1 : r.sp.entmap.length = 1
    · have hlen : hops.length = 1 := by rw [hp.pairs, hopRecord_length] at hl1; exact hl1
      obtain ⟨x, rfl⟩ := List.length_eq_one_iff.mp hlen
      have hxx := hx x (by simp)
      have hne := hin.apart x hxx
      have hR := hci hlen
      have hpl : (pairOf so x).length = 2 := by rw [(pairOf_perm ho hxx.1 hxx.2.1 hne).length_eq]; rfl
      obtain ⟨i, j, hij⟩ := List.length_eq_two.mp hpl
      have hent : r.sp.entmap = [[i, j]] := by rw [hp.pairs, hopRecord_single, hij]
      have hn := hp.fits.nfrag
      have proj : ∀ k, k < ref.nfrag → ProjIn (el r.sp.smults k) (el r.sp.spins k) := fun k hk =>
        ((fragOk_iff r.sp k).mp (hp.fits.ok k (by rw [hn]; exact hk))).2
      have hroot : ∀ k, k = x.src ∨ k = x.dst → rootSzrot r k = .ok (szrot r.sp k (vecOf x k, el r.sp.spins k)) := by
        intro k hk
        unfold rootSzrot
        have hh := hR.hop x (by simp)
        rcases hk with rfl | rfl
        · rw [hh.1]; simp [vecOf, hne]
        · rw [hh.2]; simp [vecOf]
      have hcase := hoppedOf_cases ho (x := x) (e := ⟨r.sp, i, j, [], []⟩) hxx.ranged hne hij.symm
      simp only at hcase
      have hmi : i = x.src ∨ i = x.dst := by omega
      have hmj : j = x.src ∨ j = x.dst := by omega
      have hi : i < ref.nfrag := by have := hxx.1; have := hxx.2.1; omega
      have hj : j < ref.nfrag := by have := hxx.1; have := hxx.2.1; omega
      refine ⟨⟨r.sp, i, j, szrot r.sp i (vecOf x i, el r.sp.spins i), szrot r.sp j (vecOf x j, el r.sp.spins j)⟩ :: hl, x :: zs,
        ?_, List.Forall₂.cons ⟨hp, hij.symm, fun m hm => szrot_get _ _ _ _ (proj i hi) hm,
          fun m hm => szrot_get _ _ _ _ (proj j hj) hm⟩ f, ?_, ?_, ?_, ?_⟩
      · unfold prepHopped
        rw [if_pos hl1]
        simp only [hent, hroot i hmi, hroot j hmj, e, bind, Except.bind, pure, Except.pure]
      · intro z hz
        rcases List.mem_cons.mp hz with rfl | hz
        · exact hxx
        · exact g0 z hz
      · intro z hz
        rcases List.mem_cons.mp hz with rfl | hz
        · exact ⟨r, by simp, hp⟩
        · obtain ⟨r', hr', hp'⟩ := g1 z hz
          exact ⟨r', List.mem_cons_of_mem _ hr', hp'⟩
      · intro r' hr' z hz hpz
        rcases List.mem_cons.mp hr' with rfl | hr'
        · have := (product_inj ho hp hpz (by simpa using hxx.ranged) (by simpa using hz.ranged) (by simp) (by simp)
            ⟨sameNumbers_refl _, rfl⟩).1
          rw [List.singleton_perm_singleton.mp this]
          exact List.mem_cons_self
        · exact List.mem_cons_of_mem _ (g2 r' hr' z hz hpz)
      · intro hpw
        rw [List.map_cons, List.pairwise_cons] at hpw
        refine List.nodup_cons.mpr ⟨?_, g3 hpw.2⟩
        intro hc
        obtain ⟨r', hr', hp'⟩ := g1 x hc
        exact hpw.1 r'.sp (List.mem_map.mpr ⟨r', hr', rfl⟩) x hxx.ranged hp hp'
    · refine ⟨hl, zs, ?_, f, g0, ?_, ?_, ?_⟩
      · unfold prepHopped
        rw [if_neg hl1]
        exact e
      · intro z hz
        obtain ⟨r', hr', hp'⟩ := g1 z hz
        exact ⟨r', List.mem_cons_of_mem _ hr', hp'⟩
      · intro r' hr' z hz hpz
        rcases List.mem_cons.mp hr' with rfl | hr'
        · exfalso
          apply hl1
          rw [hpz.pairs, hopRecord_length]
          rfl
        · exact g2 r' hr' z hz hpz
      · intro hpw
        rw [List.map_cons, List.pairwise_cons] at hpw
        exact g3 hpw.2

theorem getD_set {α : Type} (l : List (Option α)) (i k : Nat) (v : Option α) (hi : i < l.length) :
    (l.set i v).getD k none = if k = i then v else l.getD k none := by
  rw [List.getD_eq_getElem?_getD, List.getElem?_set]
  by_cases hk : i = k
  · subst hk; simp [hi]
  · rw [if_neg hk, if_neg (fun hc => hk hc.symm), List.getD_eq_getElem?_getD]

theorem fill_fold (ho : PairOrder so ref.nfrag) (hin : LassisInput so ch sf ref) {hops : List ElHop} {flips : List (Nat × Nat)}
    {sp : Space} (hx : ∀ x ∈ hops, HasHop ch ref x) (hp : IsProduct so ref hops flips sp) (zs : List ElHop) (hl : List Hopped)
    (hf : List.Forall₂ (HoppedOf so ref) zs hl) (hz : ∀ z ∈ zs, HasHop ch ref z) (hnd : zs.Nodup) :
    ∀ ci : List (Option Ci), ci.length = ref.nfrag →
      (∀ x ∈ hops, x ∈ zs → ci.getD x.src none = none ∧ ci.getD x.dst none = none) →
      ∃ ci', hl.foldlM (hopFill sp) ci = .ok ci' ∧ ci'.length = ref.nfrag ∧
        (∀ x ∈ hops, x ∈ zs → ci'.getD x.src none = some (.hop x.src x.dst x.s 0, el sp.spins x.src) ∧
          ci'.getD x.dst none = some (.hop x.src x.dst x.s 1, el sp.spins x.dst)) ∧
        ∀ k, (∀ x ∈ hops, x ∈ zs → k ≠ x.src ∧ k ≠ x.dst) → ci'.getD k none = ci.getD k none := by
  induction hf with
  | nil =>
    intro ci hlen _
    exact ⟨ci, rfl, hlen, by simp, fun _ _ => rfl⟩
  | @cons z e zs hl he hf ih =>
    intro ci hlen hnone
    have hzz := hz z (by simp)
    have hne := hin.apart z hzz
    have ih := ih (fun y hy => hz y (List.mem_cons_of_mem _ hy)) (List.nodup_cons.mp hnd).2
    have hzn := (List.nodup_cons.mp hnd).1
    have hcase := hoppedOf_cases ho hzz.ranged hne he.pair
    have es := he.prod.source z (by simp)
    have ed := he.prod.dest z (by simp)
    -- disjointness of different hops of the product
    have hdis : ∀ x ∈ hops, z ∈ hops → x ≠ z → x.src ≠ z.src ∧ x.src ≠ z.dst ∧ x.dst ≠ z.src ∧ x.dst ≠ z.dst := by
      intro x hxm hzm hxz
      have hone := hp.once
      unfold touched at hone
      have hone := (List.nodup_append.mp hone).1
      rw [List.nodup_flatMap] at hone
      have : Std.Symm (Function.onFun List.Disjoint fun x : ElHop => [x.src, x.dst]) := ⟨fun a b h => h.symm⟩
      have hd : List.Disjoint [x.src, x.dst] [z.src, z.dst] := hone.2.forall hxm hzm hxz
      refine ⟨fun hc => ?_, fun hc => ?_, fun hc => ?_, fun hc => ?_⟩
      · exact hd (a := x.src) (by simp) (by simp [hc])
      · exact hd (a := x.src) (by simp) (by simp [hc])
      · exact hd (a := x.dst) (by simp) (by simp [hc])
      · exact hd (a := x.dst) (by simp) (by simp [hc])
    rw [List.foldlM_cons]
    by_cases hm : z ∈ hops
    · have ps := hp.source z hm
      have pd := hp.dest z hm
      have projs := ((fragOk_iff sp z.src).mp (hp.fits.ok _ (by rw [hp.fits.nfrag]; exact hzz.1))).2
      have projd := ((fragOk_iff sp z.dst).mp (hp.fits.ok _ (by rw [hp.fits.nfrag]; exact hzz.2.1))).2
      have hn := hnone z hm (by simp)
      have hcont : sp.entmap.contains [e.i, e.j] = true := by
        rw [List.contains_iff_mem, he.pair, hp.pairs, mem_hopRecord]
        exact ⟨z, hm, rfl⟩
      have sch : el e.sp.charges z.src = el sp.charges z.src := es.1.trans ps.1.symm
      have dch : el e.sp.charges z.dst = el sp.charges z.dst := ed.1.trans pd.1.symm
      have ssm : el e.sp.smults z.src = el sp.smults z.src := es.2.trans ps.2.symm
      have dsm : el e.sp.smults z.dst = el sp.smults z.dst := ed.2.trans pd.2.symm
      have v0 : vecOf z z.src = .hop z.src z.dst z.s 0 := by simp [vecOf, hne]
      have v1 : vecOf z z.dst = .hop z.src z.dst z.s 1 := by simp [vecOf]
      -- the result of this step
      have step : ∃ ci1, hopFill sp ci e = .ok ci1 ∧ ci1.length = ref.nfrag ∧
          ci1.getD z.src none = some (.hop z.src z.dst z.s 0, el sp.spins z.src) ∧
          ci1.getD z.dst none = some (.hop z.src z.dst z.s 1, el sp.spins z.dst) ∧
          ∀ k, k ≠ z.src → k ≠ z.dst → ci1.getD k none = ci.getD k none := by
        rcases hcase with ⟨hi, hj⟩ | ⟨hi, hj⟩
        · have gi := he.di (el sp.spins z.src) (by rw [hi, ssm]; exact projs)
          have gj := he.dj (el sp.spins z.dst) (by rw [hj, dsm]; exact projd)
          rw [hi, v0] at gi
          rw [hj, v1] at gj
          rw [hi, hj] at hcont
          refine ⟨(ci.set z.src (some (.hop z.src z.dst z.s 0, el sp.spins z.src))).set z.dst
            (some (.hop z.src z.dst z.s 1, el sp.spins z.dst)), ?_, by simp [hlen], ?_, ?_, ?_⟩
          · unfold hopFill
            rw [hi, hj, hcont, sch, dch, ssm, dsm, hn.1, hn.2]
            simp only [Bool.not_true, Bool.false_eq_true, if_false, ne_eq, not_true_eq_false, or_self, Option.isNone_none,
              assert_ok rfl, gi, gj, bind, Except.bind, pure, Except.pure]
          · rw [getD_set _ _ _ _ (by simp [hlen]; exact hzz.2.1), if_neg hne, getD_set _ _ _ _ (by rw [hlen]; exact hzz.1), if_pos rfl]
          · rw [getD_set _ _ _ _ (by simp [hlen]; exact hzz.2.1), if_pos rfl]
          · intro k h1 h2
            rw [getD_set _ _ _ _ (by simp [hlen]; exact hzz.2.1), if_neg h2, getD_set _ _ _ _ (by rw [hlen]; exact hzz.1), if_neg h1]
        · have gi := he.di (el sp.spins z.dst) (by rw [hi, dsm]; exact projd)
          have gj := he.dj (el sp.spins z.src) (by rw [hj, ssm]; exact projs)
          rw [hi, v1] at gi
          rw [hj, v0] at gj
          rw [hi, hj] at hcont
          refine ⟨(ci.set z.dst (some (.hop z.src z.dst z.s 1, el sp.spins z.dst))).set z.src
            (some (.hop z.src z.dst z.s 0, el sp.spins z.src)), ?_, by simp [hlen], ?_, ?_, ?_⟩
          · unfold hopFill
            rw [hi, hj, hcont, sch, dch, ssm, dsm, hn.1, hn.2]
            simp only [Bool.not_true, Bool.false_eq_true, if_false, ne_eq, not_true_eq_false, or_self, Option.isNone_none,
              assert_ok rfl, gi, gj, bind, Except.bind, pure, Except.pure]
          · rw [getD_set _ _ _ _ (by simp [hlen]; exact hzz.1), if_pos rfl]
          · rw [getD_set _ _ _ _ (by simp [hlen]; exact hzz.1), if_neg hne.symm, getD_set _ _ _ _ (by rw [hlen]; exact hzz.2.1), if_pos rfl]
          · intro k h1 h2
            rw [getD_set _ _ _ _ (by simp [hlen]; exact hzz.1), if_neg h1, getD_set _ _ _ _ (by rw [hlen]; exact hzz.2.1), if_neg h2]
      obtain ⟨ci1, e1, l1, g1, g2, g3⟩ := step
      rw [e1]
      simp only [bind, Except.bind]
      obtain ⟨ci', e2, l2, k1, k2⟩ := ih ci1 l1 (by
        intro x hxm hxz
        have hxne : x ≠ z := fun hc => hzn (hc ▸ hxz)
        obtain ⟨d1, d2, d3, d4⟩ := hdis x hxm hm hxne
        rw [g3 _ d1 d2, g3 _ d3 d4]
        exact hnone x hxm (List.mem_cons_of_mem _ hxz))
      refine ⟨ci', e2, l2, ?_, ?_⟩
      · intro x hxm hxz
        rcases List.mem_cons.mp hxz with rfl | hxz
        · have free : ∀ k, k = x.src ∨ k = x.dst → ∀ y ∈ hops, y ∈ zs → k ≠ y.src ∧ k ≠ y.dst := by
            intro k hk y hy hyz
            have hyne : y ≠ x := fun hc => hzn (hc ▸ hyz)
            obtain ⟨d1, d2, d3, d4⟩ := hdis y hy hm hyne
            rcases hk with rfl | rfl
            · exact ⟨d1.symm, d3.symm⟩
            · exact ⟨d2.symm, d4.symm⟩
          rw [k2 _ (free _ (Or.inl rfl)), k2 _ (free _ (Or.inr rfl))]
          exact ⟨g1, g2⟩
        · exact k1 x hxm hxz
      · intro k hk
        rw [k2 k (fun x hxm hxz => hk x hxm (List.mem_cons_of_mem _ hxz))]
        have := hk z hm (by simp)
        exact g3 k this.1 this.2
    · have step : hopFill sp ci e = .ok ci := by
        unfold hopFill
        by_cases b1 : sp.entmap.contains [e.i, e.j] = true
        · rw [b1]
          simp only [Bool.not_true, Bool.false_eq_true, if_false]
          by_cases b2 : el e.sp.charges e.i ≠ el sp.charges e.i ∨ el e.sp.charges e.j ≠ el sp.charges e.j
          · rw [if_pos b2]
          · rw [if_neg b2]
            by_cases b3 : el e.sp.smults e.i ≠ el sp.smults e.i ∨ el e.sp.smults e.j ≠ el sp.smults e.j
            · rw [if_pos b3]
            · exfalso
              push Not at b2 b3
              have q : el e.sp.charges z.src = el sp.charges z.src ∧ el e.sp.charges z.dst = el sp.charges z.dst ∧
                  el e.sp.smults z.src = el sp.smults z.src ∧ el e.sp.smults z.dst = el sp.smults z.dst := by
                rcases hcase with ⟨hi, hj⟩ | ⟨hi, hj⟩
                · rw [hi, hj] at b2 b3; exact ⟨b2.1, b2.2, b3.1, b3.2⟩
                · rw [hi, hj] at b2 b3; exact ⟨b2.2, b2.1, b3.2, b3.1⟩
              rw [List.contains_iff_mem, he.pair, hp.pairs, mem_hopRecord] at b1
              obtain ⟨x, hxm, hxe⟩ := b1
              have hk : ∀ k, (k = x.src ∨ k = x.dst) ↔ (k = z.src ∨ k = z.dst) := by
                intro k
                rw [← mem_pairOf ho (hx x hxm).1 (hx x hxm).2.1 (touched_ne hp.once hxm) k, ← mem_pairOf ho hzz.1 hzz.2.1 hne k, hxe]
              have ps := hp.source x hxm
              have pd := hp.dest x hxm
              have a1 : x.src = z.src := by
                rcases (hk x.src).mp (Or.inl rfl) with h1 | h1
                · exact h1
                · rw [h1] at ps; omega
              have a2 : x.dst = z.dst := by
                rcases (hk x.dst).mp (Or.inr rfl) with h1 | h1
                · rw [h1] at pd; omega
                · exact h1
              rw [a1] at ps
              rw [a2] at pd
              have : x = z := hop_ext a1 a2 (by omega) (by omega) (hx x hxm).2.2.1 hzz.2.2.1
              exact hm (this ▸ hxm)
        · rw [Bool.not_eq_true] at b1
          rw [b1]
          rfl
      rw [step]
      simp only [bind, Except.bind]
      obtain ⟨ci', e2, l2, k1, k2⟩ := ih ci hlen (fun x hxm hxz => hnone x hxm (List.mem_cons_of_mem _ hxz))
      refine ⟨ci', e2, l2, ?_, ?_⟩
      · intro x hxm hxz
        rcases List.mem_cons.mp hxz with rfl | hxz
        · exact absurd hxm hm
        · exact k1 x hxm hxz
      · intro k hk
        exact k2 k (fun x hxm hxz => hk x hxm (List.mem_cons_of_mem _ hxz))

/-- Every rootspace gets its CI vectors. -/
theorem fillCi_ok (ho : PairOrder so ref.nfrag) (hin : LassisInput so ch sf ref) {hops : List ElHop} {flips : List (Nat × Nat)}
    {sp : Space} (hx : ∀ x ∈ hops, HasHop ch ref x) (hy : ∀ y ∈ flips, HasFlip sf ref y)
    (hp : IsProduct so ref hops flips sp) (zs : List ElHop) (hl : List Hopped)
    (hf : List.Forall₂ (HoppedOf so ref) zs hl) (hz : ∀ z, z ∈ zs ↔ HasHop ch ref z) (hnd : zs.Nodup) :
    ∃ r, fillCi (refRoot ref) (spinFlips sf ref) hl sp = .ok r ∧ r.sp = sp ∧ RightCi hops flips sp r.ci := by
  have hn := hp.fits.nfrag
  obtain ⟨ci0, e0, f0⟩ := mapM_exists (baseCi (refRoot ref) (spinFlips sf ref) sp)
    (fun k c => (k ∈ touched hops [] → c = none) ∧
      (∀ y ∈ flips, y.1 = k → c = some (.flip y.1 y.2, el sp.spins y.1)) ∧
      (k ∉ touched hops flips → c = some (.ref k, el sp.spins k))) (List.range sp.nfrag)
    (fun k hk => baseCi_ok hin hy hp k (by rw [← hn]; exact List.mem_range.mp hk))
  rw [hn] at f0
  obtain ⟨l0, g0⟩ := forall2_range f0
  have get0 : ∀ k, k < ref.nfrag → (k ∈ touched hops [] → ci0.getD k none = none) ∧
      (∀ y ∈ flips, y.1 = k → ci0.getD k none = some (.flip y.1 y.2, el sp.spins y.1)) ∧
      (k ∉ touched hops flips → ci0.getD k none = some (.ref k, el sp.spins k)) := by
    intro k hk
    obtain ⟨b, hb, hP⟩ := g0 k hk
    rw [List.getD_eq_getElem?_getD, hb, Option.getD_some]
    exact hP
  have tch : ∀ x ∈ hops, x.src ∈ touched hops [] ∧ x.dst ∈ touched hops [] := fun x hxm =>
    ⟨(mem_touched _ _ _).mpr (Or.inl ⟨x, hxm, Or.inl rfl⟩), (mem_touched _ _ _).mpr (Or.inl ⟨x, hxm, Or.inr rfl⟩)⟩
  obtain ⟨ci', e1, l1, k1, k2⟩ := fill_fold ho hin hx hp zs hl hf (fun z hz' => (hz z).mp hz') hnd ci0 l0 (by
    intro x hxm _
    exact ⟨(get0 _ (hx x hxm).1).1 (tch x hxm).1, (get0 _ (hx x hxm).2.1).1 (tch x hxm).2⟩)
  have hfree : ∀ k, k ∉ touched hops [] → ci'.getD k none = ci0.getD k none := by
    intro k hk
    apply k2
    intro x hxm _
    exact ⟨fun hc => hk (hc ▸ (tch x hxm).1), fun hc => hk (hc ▸ (tch x hxm).2)⟩
  have hR : RightCi hops flips sp ci' := by
    refine ⟨by rw [l1, hn], ?_, ?_, ?_⟩
    · intro x hxm
      exact k1 x hxm ((hz x).mpr (hx x hxm))
    · intro y hym
      have hk : y.1 ∉ touched hops [] := by
        intro hc
        have hone := hp.once
        unfold touched at hone hc
        simp only [List.map_nil, List.append_nil] at hc
        exact (List.nodup_append.mp hone).2.2 y.1 hc y.1 (List.mem_map.mpr ⟨y, hym, rfl⟩) rfl
      rw [hfree _ hk]
      exact (get0 _ (hy y hym).1).2.1 y hym rfl
    · intro k hk ht
      have hk' : k ∉ touched hops [] := by
        intro hc
        apply ht
        rcases (mem_touched _ _ _).mp hc with h1 | ⟨z, hz, -⟩
        · exact (mem_touched _ _ _).mpr (Or.inl h1)
        · simp at hz
      rw [hfree k hk']
      exact (get0 k (by rw [← hn]; exact hk)).2.2 ht
  have hsome : ∀ k, k < ref.nfrag → (ci'.getD k none).isSome = true := by
    intro k hk
    by_cases ht : k ∈ touched hops flips
    · rcases (mem_touched _ _ _).mp ht with ⟨x, hxm, rfl | rfl⟩ | ⟨y, hym, rfl⟩
      · rw [(hR.hop x hxm).1]; rfl
      · rw [(hR.hop x hxm).2]; rfl
      · rw [hR.flip y hym]; rfl
    · rw [hR.rest k (by rw [hn]; exact hk) ht]; rfl
  have hhas : Root.hasCi ⟨sp, ci'⟩ = true := by
    unfold Root.hasCi
    simp only [Bool.and_eq_true, Bool.not_eq_true', List.all_eq_true]
    constructor
    · rw [List.isEmpty_eq_false_iff]
      intro hc
      rw [hc] at l1
      have := hin.nonempty
      simp at l1
      omega
    · intro c hc
      obtain ⟨k, hk, rfl⟩ := List.mem_iff_getElem.mp hc
      have := hsome k (by omega)
      rw [List.getD_eq_getElem?_getD, List.getElem?_eq_getElem hk] at this
      exact this
  refine ⟨⟨sp, ci'⟩, ?_, rfl, hR⟩
  unfold fillCi
  simp only [e0, e1, assert_ok hhas, bind, Except.bind, pure, Except.pure]

end
end Verif.Lassis
