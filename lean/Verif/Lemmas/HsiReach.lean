import Verif.Lemmas.HamSim
/-!
# Lemmas: the pairs of rootspaces of a row
-/
namespace Verif.Lstdm
open Verif.Spec Verif.Exc Verif.Addr Verif.Spec.Lstdm

/-- The fragments of a row differ as they should. -/
def RowN : Lstdm.Row → Prop
  | .d1 _ => True
  | .d2 i j => i ≠ j
  | .c1 i j _ => i ≠ j
  | .c1d1 i j k _ => i ≠ j ∧ k ≠ i ∧ k ≠ j
  | .s1 i j => i ≠ j
  | .s1c1 i j k _ => i ≠ j ∧ i ≠ k ∧ j ≠ k
  | .c2 i j k l _ => i ≠ j ∧ i ≠ l ∧ k ≠ j ∧ k ≠ l

theorem rowN_expand (m : Nat) (x : Inter) (hn : x.Normal) (r : Lstdm.Row) (hr : r ∈ expand m x) : RowN r := by
  cases x with
  | null =>
    simp only [expand, List.mem_append, List.mem_map, List.mem_range] at hr
    rcases hr with ⟨i, _, rfl⟩ | ⟨p, hp, rfl⟩
    · trivial
    · have := trilIndices_lt m p.1 p.2 hp; simp only [RowN]; omega
  | c1 i j s =>
    simp only [expand, List.mem_cons, List.mem_map, List.mem_filter] at hr
    simp only [Inter.Normal] at hn
    rcases hr with rfl | ⟨k, ⟨_, hk⟩, rfl⟩
    · simp only [RowN]; omega
    · simp at hk; simp only [RowN]; omega
  | s1 i j =>
    simp only [expand, List.mem_singleton] at hr; subst hr; simp only [Inter.Normal] at hn; simp only [RowN]; omega
  | s1c1 i j k s =>
    simp only [expand, List.mem_singleton] at hr; subst hr; simp only [Inter.Normal] at hn; simp only [RowN]; omega
  | c2 i j k l s =>
    simp only [expand, List.mem_singleton] at hr; subst hr; simp only [Inter.Normal] at hn; simp only [RowN]; omega

/-- A block of a row. -/
theorem block_expand (m : Nat) (x : Inter) (hn : x.Normal) (hb : InB m x) (r : Lstdm.Row) (hr : r ∈ expand m x) :
    ∃ s t fp fq fr fu, rp2 r s t fp fq fr fu ∧ fq < m ∧ fu < m ∧
      (∀ y, ((mvs x).map (fun p => ei p.1 y - ei p.2 y)).sum = ei (fp, s) y + ei (fr, t) y - ei (fq, s) y - ei (fu, t) y) ∧
      ∀ r', RowN r' → rp2 r' s t fq fp fu fr → kind r' = kind r ∧ r'.inv.Perm r.inv := by
  have hN := rowN_expand m x hn r hr
  have key : ∀ s t fp fq fr fu, rp2 r s t fp fq fr fu → ∀ r', RowN r' → rp2 r' s t fq fp fu fr → kind r' = kind r ∧ r'.inv.Perm r.inv := by
    clear hr hb
    intro s t fp fq fr fu h r' hN' h'
    have hset : ∀ g, g ∈ r'.inv ↔ g ∈ r.inv := by
      intro g
      rw [rp2_set _ _ _ _ _ _ _ h g, rp2_set _ _ _ _ _ _ _ h' g]
      simp only [List.mem_cons, List.not_mem_nil, or_false]
      omega
    have hk : kind r' = kind r := by
      clear hset
      cases r <;> cases r' <;> simp only [rp2, RowN, pat1c, pat2c] at hN hN' h h' <;>
        simp only [kind] <;>
        first
        | (exfalso; omega)
        | (exfalso; grind)
    refine ⟨hk, ?_⟩
    by_cases h6 : kind r = 6
    · cases r <;> simp only [kind] at hk h6 <;> try omega
      cases r' <;> simp only at hk <;> try omega
      clear hset hN hN' hk h6
      simp only [rp2, pat2c] at h h'
      simp only [Lstdm.Row.inv, List.perm_iff_count, List.count_cons, List.count_nil]
      intro a
      rcases h with ⟨_, _, rfl, rfl, rfl, rfl⟩ | ⟨_, _, rfl, rfl, rfl, rfl⟩ | ⟨_, _, _, ⟨rfl, rfl, rfl, rfl⟩ | ⟨rfl, rfl, rfl, rfl⟩⟩ <;>
        rcases h' with ⟨_, _, rfl, rfl, rfl, rfl⟩ | ⟨_, _, rfl, rfl, rfl, rfl⟩ | ⟨_, _, _, ⟨rfl, rfl, rfl, rfl⟩ | ⟨rfl, rfl, rfl, rfl⟩⟩ <;> ring
    · rw [List.perm_ext_iff_of_nodup]
      · exact hset
      · cases r' <;> simp [RowN, Lstdm.Row.inv, kind] at hN' hk h6 ⊢ <;> omega
      · cases r <;> simp [RowN, Lstdm.Row.inv, kind] at hN h6 ⊢ <;> omega
  cases x with
  | null =>
    simp only [expand, List.mem_append, List.mem_map, List.mem_range] at hr
    rcases hr with ⟨i, hi, rfl⟩ | ⟨p, hp, rfl⟩
    · have h : rp2 (.d1 i) false false i i i i := ⟨rfl, rfl, rfl, rfl⟩
      exact ⟨_, _, _, _, _, _, h, hi, hi, fun y => by simp [mvs, Inter.moves], key _ _ _ _ _ _ h⟩
    · have h1 := (mem_tril m p.1 p.2).mp hp
      have h : rp2 (.d2 p.1 p.2) false false p.1 p.1 p.2 p.2 := Or.inl ⟨rfl, rfl, rfl, rfl⟩
      exact ⟨_, _, _, _, _, _, h, h1.1, by omega, fun y => by simp [mvs, Inter.moves], key _ _ _ _ _ _ h⟩
  | c1 i j n =>
    simp only [expand, List.mem_cons, List.mem_map, List.mem_filter, List.mem_range] at hr
    simp only [InB] at hb
    rcases hr with rfl | ⟨c, ⟨hc, _⟩, rfl⟩
    · have h : rp2 (.c1 i j n) (n != 0) (n != 0) i j j j := Or.inl (Or.inl ⟨rfl, rfl, rfl, rfl, rfl⟩)
      exact ⟨_, _, _, _, _, _, h, hb.2, hb.2, fun y => by
        simp only [mvs, Inter.moves, List.map_cons, List.map_nil, List.sum_cons, List.sum_nil, bne, Bool.not_not, Bool.not_true, Bool.not_false]; omega, key _ _ _ _ _ _ h⟩
    · have h : rp2 (.c1d1 i j c n) (n != 0) (n != 0) i j c c := Or.inl ⟨rfl, rfl, rfl, rfl, rfl⟩
      exact ⟨_, _, _, _, _, _, h, hb.2, hc, fun y => by
        simp only [mvs, Inter.moves, List.map_cons, List.map_nil, List.sum_cons, List.sum_nil, bne, Bool.not_not, Bool.not_true, Bool.not_false]; omega, key _ _ _ _ _ _ h⟩
  | s1 i j =>
    simp only [expand, List.mem_singleton] at hr
    subst hr
    simp only [InB] at hb
    have h : rp2 (.s1 i j) false true i j j i := Or.inl ⟨rfl, rfl, rfl, rfl, rfl, rfl⟩
    exact ⟨_, _, _, _, _, _, h, hb.2, hb.1, fun y => by
        simp only [mvs, Inter.moves, List.map_cons, List.map_nil, List.sum_cons, List.sum_nil, bne, Bool.not_not, Bool.not_true, Bool.not_false]; omega, key _ _ _ _ _ _ h⟩
  | s1c1 i j c n =>
    simp only [expand, List.mem_singleton] at hr
    subst hr
    simp only [InB] at hb
    have h : rp2 (.s1c1 i j c n) (n != 0) (!(n != 0)) i c c j := Or.inl ⟨rfl, rfl, rfl, rfl, rfl, rfl⟩
    exact ⟨_, _, _, _, _, _, h, hb.2.2, hb.2.1, fun y => by
        simp only [mvs, Inter.moves, List.map_cons, List.map_nil, List.sum_cons, List.sum_nil, bne, Bool.not_not, Bool.not_true, Bool.not_false]; omega, key _ _ _ _ _ _ h⟩
  | c2 i j c l n =>
    simp only [expand, List.mem_singleton] at hr
    subst hr
    simp only [InB] at hb
    have h : rp2 (.c2 i j c l n) (n == 2) (n != 0) i j c l := Or.inl ⟨rfl, rfl, rfl, rfl, rfl, rfl⟩
    exact ⟨_, _, _, _, _, _, h, hb.2.1, hb.2.2.2, fun y => by
        simp only [mvs, Inter.moves, List.map_cons, List.map_nil, List.sum_cons, List.sum_nil, bne, Bool.not_not, Bool.not_true, Bool.not_false]; omega, key _ _ _ _ _ _ h⟩

/-- The row of the reversed pair. -/
theorem expand_rev (m : Nat) (x x' : Inter) (hn : x.Normal) (hb : InB m x) (hn' : x'.Normal) (hb' : InB m x')
    (h : ∀ f < m, ∀ σ, ((mvs x').map (fun p => ei p.1 (f, σ) - ei p.2 (f, σ))).sum =
      -((mvs x).map (fun p => ei p.1 (f, σ) - ei p.2 (f, σ))).sum) (r : Lstdm.Row) (hr : r ∈ expand m x) :
    ∃ r' ∈ expand m x', kind r' = kind r ∧ r'.inv.Perm r.inv := by
  obtain ⟨s, t, fp, fq, fr, fu, _, hq, hu, hs, hrev⟩ := block_expand m x hn hb r hr
  obtain ⟨r', hr', hp, _⟩ := cover2 m x' hn' s t fq fp fu fr hq hu (fun y => by
    have : ((mvs x').map (fun p => ei p.1 y - ei p.2 y)).sum = -((mvs x).map (fun p => ei p.1 y - ei p.2 y)).sum := by
      by_cases hy : y.1 < m
      · exact h y.1 hy y.2
      · rw [mvs_out m x' hb' y hy, mvs_out m x hb y hy]; rfl
    rw [this, hs y]
    ring)
  exact ⟨r', hr', hrev r' (rowN_expand m x' hn' r' hr') hp⟩


namespace Kern
variable {K : Type} {k : Kern K}

theorem isCoupled_hop (a b c d : List (Int × Int)) (h : hopping a b = hopping c d) : SC.isCoupled a b = SC.isCoupled c d := by
  have e : ∀ a b : List (Int × Int), SC.acc a b = ⟨((hopping a b).map Prod.fst).sum, ((hopping a b).map Prod.snd).sum,
      ((hopping a b).map (fun p => p.1.natAbs + p.2.natAbs)).sum⟩ := by
    intro a b
    rw [SC.acc_eq]
    unfold hopping
    simp only [List.map_map]
    rfl
  unfold SC.isCoupled
  rw [e, e, h]

section
variable (hK : Consistent k)
include hK

theorem hopping_congr (b g b' g' : Nat) (hb : b < k.cols.length) (hg : g < k.cols.length) (hb' : b' < k.cols.length) (hg' : g' < k.cols.length)
    (h : ∀ f < k.nlas.length, ∀ σ, k.cr b f σ - k.cr g f σ = k.cr b' f σ - k.cr g' f σ) :
    hopping (k.nelecI.getD b []) (k.nelecI.getD g []) = hopping (k.nelecI.getD b' []) (k.nelecI.getD g' []) := by
  have hl : ∀ r < k.cols.length, (k.nelecI.getD r []).length = k.nlas.length := fun r hr => by rw [nelecI_len, hK.nelec_len _ hr]
  have hlen : ∀ r < k.cols.length, ∀ r' < k.cols.length, (hopping (k.nelecI.getD r []) (k.nelecI.getD r' [])).length = k.nlas.length := by
    intro r hr r' hr'
    unfold hopping
    rw [List.length_map, List.length_zip, hl r hr, hl r' hr', Nat.min_self]
  apply List.ext_getElem ((hlen b hb g hg).trans (hlen b' hb' g' hg').symm)
  intro f h1 h2
  have hf : f < k.nlas.length := by rw [hlen b hb g hg] at h1; exact h1
  have e1 := Verif.Props.hopping_getD (k.nelecI.getD b []) (k.nelecI.getD g []) ((hl b hb).trans (hl g hg).symm) f
  have e2 := Verif.Props.hopping_getD (k.nelecI.getD b' []) (k.nelecI.getD g' []) ((hl b' hb').trans (hl g' hg').symm) f
  rw [List.getD_eq_getElem _ _ h1] at e1
  rw [List.getD_eq_getElem _ _ h2] at e2
  rw [e1, e2, nelecI_cr, nelecI_cr, nelecI_cr, nelecI_cr]
  exact Prod.ext (h f hf false) (h f hf true)

/-- The interaction of a row of the tables. -/
theorem row_class (tab : List ExcRow) (ht : tab ∈ k.tables) (u : ExcRow) (hu : u ∈ tab) : u.1 ∈ k.scai ∧ ∃ x : Inter,
    rowAll (hopping (k.nelecI.getD u.1.1 []) (k.nelecI.getD u.1.2 [])) = [x] ∧ x.Normal ∧ InB k.nlas.length x ∧ k.Diff u.1.1 u.1.2 x ∧
    u.2 ∈ expand k.nlas.length x := by
  have := List.mem_flatten.mpr ⟨tab, ht, hu⟩
  rw [tables_eq] at this
  have := (tables_flat _ _ _).mem_iff.mp this
  obtain ⟨p, hp, hup⟩ := List.mem_flatMap.mp this
  obtain ⟨x, h1, h2, h3, h4⟩ := cls_ex hK p hp
  rw [tables_one _ _ p x h1 h2 h3] at hup
  obtain ⟨r, hr, rfl⟩ := List.mem_map.mp hup
  exact ⟨hp, x, h1, h2, h3, h4, hr⟩

theorem row_mem (tab : List ExcRow) (ht : tab ∈ k.tables) (u : ExcRow) (hu : u ∈ tab) (p : Nat × Nat) (hp : p ∈ k.scai) (x : Inter)
    (hx : rowAll (hopping (k.nelecI.getD p.1 []) (k.nelecI.getD p.2 [])) = [x]) (hn : x.Normal) (hb : InB k.nlas.length x)
    (r : Lstdm.Row) (hr : r ∈ expand k.nlas.length x) (hkd : kind r = kind u.2) : (p, r) ∈ tab := by
  have h1 : (p, r) ∈ k.tables.flatten := by
    rw [tables_eq]
    rw [(tables_flat _ _ _).mem_iff]
    refine List.mem_flatMap.mpr ⟨p, hp, ?_⟩
    rw [tables_one _ _ p x hx hn hb]
    exact List.mem_map_of_mem hr
  obtain ⟨t', ht', h2⟩ := List.mem_flatten.mp h1
  obtain ⟨i, hi, rfl⟩ := List.mem_iff_getElem.mp ht
  obtain ⟨j, hj, rfl⟩ := List.mem_iff_getElem.mp ht'
  rw [← List.getD_eq_getElem _ [] hi] at hu ⊢
  rw [← List.getD_eq_getElem _ [] hj] at h2
  rw [tables_eq] at hu h2 ⊢
  have e1 := tables_kind _ _ _ _ _ hu
  have e2 := tables_kind _ _ _ _ _ h2
  rw [← e1, ← hkd, e2]
  exact h2

theorem words_eq (x y : ExcRow) (hp : x.2.inv.Perm y.2.inv) (h1 : ∀ f ∈ y.2.inv, k.uroot f x.1.1 = k.uroot f y.1.1)
    (h2 : ∀ f ∈ y.2.inv, k.uroot f x.1.2 = k.uroot f y.1.2) : k.words x = k.words y := by
  clear hK
  unfold words
  rw [SC.fprintRows_perm _ _ _ _ _ (hp.map _)]
  unfold SC.fprintRows
  dsimp only
  have e : ∀ (a b : Nat), (∀ f ∈ y.2.inv, k.uroot f a = k.uroot f b) →
      (SC.bubblesort (y.2.inv.map (fun f : Nat => (f : Int)))).map (fun f => (k.uroot f.toNat a : Int)) =
      (SC.bubblesort (y.2.inv.map (fun f : Nat => (f : Int)))).map (fun f => (k.uroot f.toNat b : Int)) := by
    intro a b h
    apply List.map_congr_left
    intro z hz
    obtain ⟨f, hf, rfl⟩ := List.mem_map.mp ((SC.bubblesort_spec _).1.mem_iff.mp hz)
    simp [h f hf]
  rw [e _ _ h1, e _ _ h2]

theorem words_rev (x y : ExcRow) (hp : x.2.inv.Perm y.2.inv) (h1 : ∀ f ∈ y.2.inv, k.uroot f x.1.1 = k.uroot f y.1.2)
    (h2 : ∀ f ∈ y.2.inv, k.uroot f x.1.2 = k.uroot f y.1.1) : (k.words x).2 = (k.words y).2 := by
  rw [words_eq hK x ((y.1.2, y.1.1), y.2) hp h1 h2]
  unfold words
  dsimp only
  rw [SC.fprintRows_swap]

/-- What the images of a row have in common. -/
theorem images_mem (hH : NoCollision k) (tab : List ExcRow) (ht : tab ∈ k.tables) (u : ExcRow) (hu : u ∈ k.findUniqueExc tab)
    (im : Nat × Nat) (him : im ∈ k.images tab u) : im.1 < k.cols.length ∧ im.2 < k.cols.length ∧
    (∀ f ∈ u.2.inv, k.uroot f im.1 = k.uroot f u.1.1 ∧ k.uroot f im.2 = k.uroot f u.1.2) ∧
    (∀ f < k.nlas.length, f ∉ u.2.inv → ∀ σ, k.cr im.1 f σ = k.cr im.2 f σ) ∧
    ((∀ f ∈ u.2.inv, k.uroot f u.1.1 = k.uroot f u.1.2) → im.2 ≤ im.1) := by
  obtain ⟨hut, hrep⟩ := mem_unique tab u hu
  unfold images at him
  simp only [List.mem_map, List.mem_filter] at him
  obtain ⟨y, ⟨hy, hyu⟩, rfl⟩ := him
  have hyu : k.fprintLT y = k.fprintLT u := by simpa using hyu
  have hru : k.rep tab y = u := by
    rw [← hrep]; unfold rep; rw [hyu]
    rw [(rep_spec tab u hut).2.2]; rfl
  obtain ⟨w0, w1, w2⟩ := rep_words hH tab ht y hy
  rw [hru] at w0 w1 w2
  obtain ⟨hsc, x, _, hxn, hxb, hxd, hxe⟩ := row_class hK tab ht y hy
  have hsy := mem_scai y.1 |>.mp hsc
  change (k.flp u y).1 < _ ∧ (k.flp u y).2 < _ ∧ (∀ f ∈ u.2.inv, k.uroot f (k.flp u y).1 = _ ∧ k.uroot f (k.flp u y).2 = _) ∧
    (∀ f < k.nlas.length, f ∉ u.2.inv → ∀ σ, k.cr (k.flp u y).1 f σ = k.cr (k.flp u y).2 f σ) ∧ (_ → (k.flp u y).2 ≤ (k.flp u y).1)
  have hsp : ∀ f < k.nlas.length, f ∉ u.2.inv → ∀ σ, k.cr y.1.1 f σ = k.cr y.1.2 f σ := by
    intro f hf hfu σ
    have h := hxd f hf σ
    rw [mvs_spec _ x _ hxe f σ (fun h => hfu ((w0 f).mp h))] at h
    omega
  have hperm : y.2.inv.Perm u.2.inv := by
    obtain ⟨c1, c2⟩ := hH tab ht y hy u hut
    have hlen : (y.2.inv.map (fun f : Nat => (f : Int))).length = (u.2.inv.map (fun f : Nat => (f : Int))).length := by
      rw [List.length_map, List.length_map]
      exact tab_kind _ _ _ tab (by rw [← tables_eq]; exact ht) y u hy hut
    have hp := (SC.fprintRows_LT_inj _ _ _ _ _ _ _ hlen (c2 hyu)).1
    exact (List.map_perm_map_iff (fun a b h => by simpa using h)).mp hp
  refine ⟨?_, ?_, w2, ?_, ?_⟩
  · rcases w1 with e | e <;> rw [e]
    · exact hsy.1
    · exact hsy.2.1
  · rcases w1 with e | e <;> rw [e]
    · exact hsy.2.1
    · exact hsy.1
  · intro f hf hfu σ
    rcases w1 with e | e <;> rw [e]
    · exact hsp f hf hfu σ
    · exact (hsp f hf hfu σ).symm
  · intro hAB
    by_cases he : k.fprint y = k.fprint u
    · rw [show k.flp u y = y.1 by unfold flp; rw [if_neg (by simp [he])]]
      exact hsy.2.2.1
    · exfalso
      have e : k.flp u y = (y.1.2, y.1.1) := by unfold flp; rw [if_pos (by simpa using he)]
      rw [e] at w2
      apply he
      unfold fprint
      rw [words_eq hK y u hperm (fun f hf => by rw [(w2 f hf).2, hAB f hf]) (fun f hf => by rw [(w2 f hf).1, hAB f hf])]

/-- All pairs of rootspaces with the same interaction are images. -/
theorem images_all (hs : k.smult = none) (hH : NoCollision k) (tab : List ExcRow) (ht : tab ∈ k.tables) (u : ExcRow)
    (hu : u ∈ k.findUniqueExc tab) (b g : Nat) (hb : b < k.cols.length) (hg : g < k.cols.length)
    (hub : ∀ f ∈ u.2.inv, k.uroot f b = k.uroot f u.1.1) (hug : ∀ f ∈ u.2.inv, k.uroot f g = k.uroot f u.1.2)
    (hsp : ∀ f < k.nlas.length, f ∉ u.2.inv → ∀ σ, k.cr b f σ = k.cr g f σ) :
    (b, g) ∈ k.images tab u ∨ ((g, b) ∈ k.images tab u ∧ ∀ f ∈ u.2.inv, k.uroot f u.1.1 = k.uroot f u.1.2) := by
  obtain ⟨hut, hrep⟩ := mem_unique tab u hu
  obtain ⟨hsc, x, hx, hxn, hxb, hxd, hxe⟩ := row_class hK tab ht u hut
  have hsu := mem_scai u.1 |>.mp hsc
  have hinv := expand_lt _ x hxb _ hxe
  have hcr : ∀ r < k.cols.length, ∀ r' < k.cols.length, ∀ f ∈ u.2.inv, k.uroot f r = k.uroot f r' → ∀ σ, k.cr r f σ = k.cr r' f σ := by
    intro r hr r' hr' f hf h σ
    unfold cr
    rw [hK.same_nelec f (hinv f hf) r hr r' hr' h]
  have hdiff : ∀ f < k.nlas.length, ∀ σ, k.cr b f σ - k.cr g f σ = k.cr u.1.1 f σ - k.cr u.1.2 f σ := by
    intro f hf σ
    by_cases hfi : f ∈ u.2.inv
    · rw [hcr b hb _ hsu.1 f hfi (hub f hfi), hcr g hg _ hsu.2.1 f hfi (hug f hfi)]
    · rw [hsp f hf hfi σ, hxd f hf σ, mvs_spec _ x _ hxe f σ hfi]; omega
  have hhop := hopping_congr hK b g u.1.1 u.1.2 hb hg hsu.1 hsu.2.1 hdiff
  have hal : k.allowed (b, g) = true := by
    have := hsu.2.2.2
    unfold allowed at this ⊢
    rw [hs] at this ⊢
    dsimp only at this ⊢
    unfold SC.cplCharge at this ⊢
    rw [isCoupled_hop _ _ _ _ hhop]
    exact this
  have himg : ∀ y ∈ tab, k.fprintLT y = k.fprintLT u → k.flp u y ∈ k.images tab u := by
    intro y hy he
    unfold images
    exact List.mem_map.mpr ⟨y, List.mem_filter.mpr ⟨hy, by simpa using he⟩, rfl⟩
  rcases Nat.le_total g b with hle | hle
  · left
    have hy := row_mem hK tab ht u hut (b, g) (mem_scai _ |>.mpr ⟨hb, hg, hle, hal⟩) x (by rw [hhop]; exact hx) hxn hxb u.2 hxe rfl
    have hw := words_eq hK ((b, g), u.2) u (List.Perm.refl _) hub hug
    have := himg _ hy (by unfold fprintLT; rw [hw])
    rwa [show k.flp u ((b, g), u.2) = (b, g) by
      unfold flp; rw [if_neg]; unfold fprint; rw [hw]; simp] at this
  · have hscg : (g, b) ∈ k.scai := mem_scai _ |>.mpr ⟨hg, hb, hle, by rw [allowed_symm]; exact hal⟩
    obtain ⟨x', hx', hxn', hxb', hxd'⟩ := cls_ex hK (g, b) hscg
    obtain ⟨r', hr', hkd, hperm⟩ := expand_rev k.nlas.length x x' hxn hxb hxn' hxb' (fun f hf σ => by
      rw [← hxd' f hf σ, ← hxd f hf σ, ← hdiff f hf σ]; dsimp only; omega) u.2 hxe
    have hy := row_mem hK tab ht u hut (g, b) hscg x' hx' hxn' hxb' r' hr' hkd
    have hw := words_rev hK ((g, b), r') u hperm hug hub
    have hLT : k.fprintLT ((g, b), r') = k.fprintLT u := by unfold fprintLT; rw [hw]
    have := himg _ hy hLT
    by_cases he : k.fprint ((g, b), r') = k.fprint u
    · right
      rw [show k.flp u ((g, b), r') = (g, b) by unfold flp; rw [if_neg (by simp [he])]] at this
      refine ⟨this, fun f hf => ?_⟩
      have c1 := (hH tab ht _ hy u hut).1 he
      have hlen : (r'.inv.map (fun f : Nat => (f : Int))).length = (u.2.inv.map (fun f : Nat => (f : Int))).length := by
        rw [List.length_map, List.length_map]; exact hperm.length_eq
      have := ((SC.fprintRows_inj _ _ _ _ _ _ _ hlen c1).2 (f : Int) (List.mem_map_of_mem (hperm.mem_iff.mpr hf))).1
      simp only [Int.toNat_natCast, Nat.cast_inj] at this
      rw [← this, hug f hf]
    · left
      rwa [show k.flp u ((g, b), r') = (b, g) by unfold flp; rw [if_pos (by simpa using he)]] at this

end
end Kern
end Verif.Lstdm
