import Verif.Lemmas.Umat
import Verif.Props.Addr
/-!
# C12: transforming the local basis of one fragment in one rootspace
-/
namespace Verif.Props
open Verif.Spec Verif.Addr Verif.Radix Verif.Np Verif.Umat

/-- C11, formula: the address table of `get_rootaddr_fragaddr` is the specification `stateIndex` read backwards. -/
theorem C11_stateIndex (nfrags : Nat) (cols : List (List Nat)) (hc : ∀ c ∈ cols, c.length = nfrags)
    (rootaddr : List Nat) (fragaddr : List (List Nat)) (h : getRootaddrFragaddr nfrags cols = some (rootaddr, fragaddr))
    (r : Nat) (d : List Nat) (hr : r < cols.length) (hd : InShape d (cols.getD r [])) :
    stateIndex cols r d < (cols.map List.prod).sum ∧ rootaddr.getD (stateIndex cols r d) 0 = r ∧
      fragaddr.map (fun row => row.getD (stateIndex cols r d) 0) = d := by
  have hcl : (cols.getD r []).length = nfrags := by
    apply hc
    rw [List.getD_eq_getElem _ _ hr]; exact List.getElem_mem _
  rw [addr_closed nfrags cols hc] at h
  simp only [Option.some.injEq, Prod.mk.injEq] at h
  obtain ⟨rfl, rfl⟩ := h
  have hlt := posF_lt hd
  have hoff := off_mono cols (show r + 1 ≤ cols.length by omega) (Nat.le_refl _)
  rw [off_succ cols r hr, off_all] at hoff
  refine ⟨?_, ?_, ?_⟩
  · unfold stateIndex
    rw [← off_eq]
    omega
  · unfold stateIndex
    rw [← off_eq, flatMap_getD cols _ (by simp) _ (Nat.le_refl _) r _ hr hlt, List.getD_replicate _ hlt]
  · apply List.ext_getElem
    · simp only [List.length_map, List.length_range]
      rw [inShape_length hd, hcl]
    · intro i h1 h2
      have hi : i < nfrags := by simpa using h1
      simp only [List.getElem_map, List.getElem_range]
      unfold stateIndex
      rw [← off_eq, flatMap_getD cols _ _ _ (Nat.le_refl _) r _ hr hlt,
        addrsOf_getD _ _ _ (by rw [hcl]; exact hi) hlt, digits_posF hd, List.getD_eq_getElem _ _ h2]
      intro r' hr'
      apply addrsOf_length
      have : cols.getD r' [] ∈ cols := by rw [List.getD_eq_getElem _ _ hr']; exact List.getElem_mem _
      rw [hc _ this]; exact hi

variable {R : Type} [CommRing R]

/-- What a caller supplies: `axis` of the target spans the states, the matrix is square with the extent of the
targeted fragment in the targeted rootspace. -/
def UmatArgs (cols : List (List Nat)) (target umat : Nd R) (ifrag iroot axis : Nat) : Prop :=
  axis < target.shape.length ∧ target.shape.getD axis 0 = (cols.map List.prod).sum ∧
  iroot < cols.length ∧ ifrag < (cols.getD iroot []).length ∧
  umat.shape = [(cols.getD iroot []).getD ifrag 0, (cols.getD iroot []).getD ifrag 0] ∧
  0 < (cols.getD iroot []).getD ifrag 0

/-- Every position on the state axis is a state. -/
theorem state_cases (cols : List (List Nat)) (k : Nat) (h : k < (cols.map List.prod).sum) :
    ∃ r d, r < cols.length ∧ InShape d (cols.getD r []) ∧ k = stateIndex cols r d := by
  rw [← off_all] at h
  obtain ⟨r, k', h1, h2, rfl⟩ := off_find cols k _ (Nat.le_refl _) h
  obtain ⟨d, hd, rfl⟩ := posF_surj _ _ h2
  exact ⟨r, d, h1, hd, rfl⟩

theorem stateIndex_lt (cols : List (List Nat)) (r : Nat) (d : List Nat) (hr : r < cols.length)
    (hd : InShape d (cols.getD r [])) : stateIndex cols r d < (cols.map List.prod).sum := by
  have hlt := posF_lt hd
  have hoff := off_mono cols (show r + 1 ≤ cols.length by omega) (Nat.le_refl _)
  rw [off_succ cols r hr, off_all, off_eq] at hoff
  unfold stateIndex
  omega

/-- C12. For an array with any number of axes: the entry for a state of the targeted rootspace becomes the sum,
over the local roots `c` of the targeted fragment, of `umat[c, local root]` times the old entry with that
fragment's local root replaced by `c`; entries of the other rootspaces do not change; the shape does not change. -/
theorem C12_action (cols : List (List Nat)) (target umat : Nd R) (ifrag iroot axis : Nat)
    (h : UmatArgs cols target umat ifrag iroot axis) :
    ∃ out, umatDot1frag target umat cols ifrag iroot axis = some out ∧ out.shape = target.shape ∧
      ∀ t, InShape t target.shape →
        (∀ d, InShape d (cols.getD iroot []) → t.getD axis 0 = stateIndex cols iroot d →
          out.get t = ∑ c ∈ Finset.range ((cols.getD iroot []).getD ifrag 0),
            umat.get [c, d.getD ifrag 0] * target.get (t.set axis (stateIndex cols iroot (d.set ifrag c)))) ∧
        (∀ r d, r < cols.length → r ≠ iroot → InShape d (cols.getD r []) → t.getD axis 0 = stateIndex cols r d →
          out.get t = target.get t) := by
  obtain ⟨hax, hN, hr, hf, hu, hpos⟩ := h
  set l := cols.getD iroot [] with hl
  set p := newaxes target.shape.length axis with hp
  have hpp : p.Perm (List.range target.shape.length) := newaxes_perm _ _ hax
  have hpl : p.length = target.shape.length := newaxes_length _ _ hax
  have hi : (0 :: npCumsum (cols.map List.prod)).getD iroot 0 = rootStart cols iroot := by
    cases iroot with
    | zero => simp [rootStart]
    | succ k =>
      rw [List.getD_cons_succ, npCumsum_getD _ _ (by simp; omega), rootStart, List.map_take]
  have hj : (0 :: npCumsum (cols.map List.prod)).getD (iroot + 1) 0 = rootStart cols iroot + l.prod := by
    rw [List.getD_cons_succ, npCumsum_getD _ _ (by simp; omega), ← List.map_take, ← off_eq, hl, ← off_succ cols iroot hr]
    rfl
  have hend : rootStart cols iroot + l.prod ≤ (cols.map List.prod).sum := by
    have := off_mono cols (show iroot + 1 ≤ cols.length by omega) (Nat.le_refl _)
    rwa [off_succ cols iroot hr, off_all, off_eq] at this
  set i := rootStart cols iroot with hidef
  set t1 := target.transpose p with ht1
  have ht1s : t1.shape = (cols.map List.prod).sum :: target.shape.eraseIdx axis := by
    have := newaxes_map target.shape.length axis target.shape hax rfl
    rw [hN] at this
    rw [ht1]
    exact this
  have hsl : (t1.slice0 i (i + l.prod)).shape = l.prod :: target.shape.eraseIdx axis := by
    simp only [Nd.slice0, ht1s, List.getD_cons_zero, List.drop_succ_cons, List.drop_zero]
    congr 1
    omega
  obtain ⟨b, hb1, hb2, hb3⟩ := action1 (t1.slice0 i (i + l.prod)) umat l (target.shape.eraseIdx axis) ifrag
    (l.getD ifrag 0) hf hpos hsl hu
  rw [set_getD_self l ifrag hf] at hb2 hb3
  set t2 : Nd R := ⟨t1.shape, fun t =>
      if i ≤ t.getD 0 0 ∧ t.getD 0 0 < i + l.prod then b.get ((t.getD 0 0 - i) :: t.drop 1) else t1.get t⟩ with ht2d
  have hset : t1.setSlice0 i (i + l.prod) b = some t2 := by
    unfold Nd.setSlice0
    rw [if_pos (by rw [hb2, hsl])]
  have hperm' : p.Perm (List.range p.length) := by rw [hpl]; exact hpp
  refine ⟨t2.transpose (argsort p), ?_, ?_, ?_⟩
  · unfold umatDot1frag
    simp only [hi, hj]
    have hpe : [axis] ++ List.range axis ++ (List.range target.shape.length).drop (axis + 1) = p := rfl
    rw [hpe, ← ht1, hb1]
    simp only [Option.bind_eq_bind, Option.bind_some, hset]
    rfl
  · exact transpose_back_shape t2 p target.shape hperm' hpl.symm rfl
  · intro t ht
    have htl := inShape_length ht
    have hout : (t2.transpose (argsort p)).get t = t2.get (t.getD axis 0 :: t.eraseIdx axis) := by
      rw [transpose_back t2 p t hperm' (by rw [ht2d]; simp [ht1, Nd.transpose]), hp,
        newaxes_map _ axis t hax htl]
    have hold : ∀ x, t1.get (x :: t.eraseIdx axis) = target.get (t.set axis x) := by
      intro x
      have := transpose_get target p (t.set axis x) hpp (by simpa using htl)
      rw [← this, hp, newaxes_map _ axis (t.set axis x) hax (by simpa using htl), ht1, hp]
      congr 2
      · simp [show axis < t.length by omega]
      · rw [List.eraseIdx_set_eq]
    have hself : t.set axis (t.getD axis 0) = t := set_getD_self t axis (by omega)
    constructor
    · intro d hd hk
      have hlt := posF_lt hd
      have herase : InShape (t.eraseIdx axis) (target.shape.eraseIdx axis) := by
        rw [List.eraseIdx_eq_take_drop_succ, List.eraseIdx_eq_take_drop_succ]
        exact inShape_append (List.forall₂_take axis ht) (List.forall₂_drop (axis + 1) ht)
      rw [hout, ht2d]
      simp only [List.getD_cons_zero, List.drop_succ_cons, List.drop_zero]
      rw [hk]
      unfold stateIndex
      rw [← hl, ← hidef, if_pos ⟨by omega, by omega⟩, Nat.add_sub_cancel_left, hb3 d _ hd herase]
      apply Finset.sum_congr rfl
      intro c hc
      congr 1
      simp only [Nd.slice0, List.getD_cons_zero, List.drop_succ_cons, List.drop_zero]
      rw [hold]
    · intro r d hrl hne hd hk
      have hlt := posF_lt hd
      rw [hout, ht2d]
      simp only [List.getD_cons_zero]
      rw [if_neg, hold, hself]
      rw [hk]
      unfold stateIndex
      rintro ⟨h1, h2⟩
      rcases Nat.lt_or_ge r iroot with hlt2 | hge
      · have := off_mono cols (show r + 1 ≤ iroot by omega) (by omega)
        rw [off_succ cols r hrl, off_eq, off_eq] at this
        omega
      · have := off_mono cols (show iroot + 1 ≤ r by omega) (by omega)
        rw [off_succ cols iroot hr, off_eq, off_eq, ← hl] at this
        omega

/-- Two rootspaces, two fragments, two SI roots: the hypotheses of `C12_action` are met. -/
example : UmatArgs [[2, 3], [1, 2]] (⟨[8, 2], fun _ => 1⟩ : Nd Int) ⟨[3, 3], fun _ => 2⟩ 1 0 0 := by
  simp [UmatArgs]

/-- C12: a transformation by the identity matrix changes nothing. -/
theorem C12_identity (cols : List (List Nat)) (target umat : Nd R) (ifrag iroot axis : Nat)
    (h : UmatArgs cols target umat ifrag iroot axis)
    (hid : ∀ a b, a < (cols.getD iroot []).getD ifrag 0 → b < (cols.getD iroot []).getD ifrag 0 →
      umat.get [a, b] = if a = b then 1 else 0) :
    ∃ out, umatDot1frag target umat cols ifrag iroot axis = some out ∧ out.Same target := by
  obtain ⟨out, h1, h2, h3⟩ := C12_action cols target umat ifrag iroot axis h
  obtain ⟨hax, hN, hr, hf, hu, hpos⟩ := h
  refine ⟨out, h1, h2, fun t ht => ?_⟩
  rw [h2] at ht
  obtain ⟨r, d, hrl, hd, hk⟩ := state_cases cols (t.getD axis 0)
    (by rw [← hN]; exact ((inShape_iff t _).mp ht).2 axis hax)
  by_cases hrr : r = iroot
  · subst hrr
    rw [(h3 t ht).1 d hd hk]
    have hdf : d.getD ifrag 0 < (cols.getD r []).getD ifrag 0 := ((inShape_iff d _).mp hd).2 ifrag hf
    rw [Finset.sum_eq_single (d.getD ifrag 0)]
    · rw [hid _ _ hdf hdf, if_pos rfl, one_mul, set_getD_self d ifrag (by rw [inShape_length hd]; exact hf), ← hk,
        set_getD_self t axis (by rw [inShape_length ht]; exact hax)]
    · intro c hc hne
      rw [hid _ _ (Finset.mem_range.mp hc) hdf, if_neg hne, zero_mul]
    · intro hn
      exact absurd (Finset.mem_range.mpr hdf) hn
  · exact (h3 t ht).2 r d hrl hrr hd hk

theorem inShape_set_state (cols : List (List Nat)) {t shape : List Nat} (ht : InShape t shape) (axis r : Nat) (d : List Nat)
    (hax : axis < shape.length) (hN : shape.getD axis 0 = (cols.map List.prod).sum) (hr : r < cols.length)
    (hd : InShape d (cols.getD r [])) : InShape (t.set axis (stateIndex cols r d)) shape := by
  have := Bigdim.inShape_set ht axis (stateIndex cols r d) (shape.getD axis 0)
    (by rw [hN]; exact stateIndex_lt cols r d hr hd)
  rwa [set_getD_self shape axis hax] at this

theorem inShape_setFrag {d l : List Nat} (hd : InShape d l) (i c : Nat) (hi : i < l.length) (hc : c < l.getD i 0) :
    InShape (d.set i c) l := by
  have := Bigdim.inShape_set hd i c (l.getD i 0) hc
  rwa [set_getD_self l i hi] at this

/-- C12: transforming twice is transforming once with the product of the matrices; in particular the inverse
matrix undoes the transformation (with `C12_identity`). -/
theorem C12_compose (cols : List (List Nat)) (target u v w : Nd R) (ifrag iroot axis : Nat)
    (hu : UmatArgs cols target u ifrag iroot axis) (hv : v.shape = u.shape) (hw : w.shape = u.shape)
    (hprod : ∀ a b, a < (cols.getD iroot []).getD ifrag 0 → b < (cols.getD iroot []).getD ifrag 0 →
      w.get [a, b] = ∑ k ∈ Finset.range ((cols.getD iroot []).getD ifrag 0), u.get [a, k] * v.get [k, b]) :
    ∃ x y z, umatDot1frag target u cols ifrag iroot axis = some x ∧
      umatDot1frag x v cols ifrag iroot axis = some y ∧
      umatDot1frag target w cols ifrag iroot axis = some z ∧ y.Same z := by
  obtain ⟨x, x1, x2, x3⟩ := C12_action cols target u ifrag iroot axis hu
  obtain ⟨hax, hN, hr, hf, hus, hpos⟩ := hu
  obtain ⟨y, y1, y2, y3⟩ := C12_action cols x v ifrag iroot axis
    ⟨by rw [x2]; exact hax, by rw [x2]; exact hN, hr, hf, by rw [hv]; exact hus, hpos⟩
  obtain ⟨z, z1, z2, z3⟩ := C12_action cols target w ifrag iroot axis
    ⟨hax, hN, hr, hf, by rw [hw]; exact hus, hpos⟩
  rw [x2] at y2 y3
  refine ⟨x, y, z, x1, y1, z1, by rw [y2, z2], fun t ht => ?_⟩
  rw [y2] at ht
  obtain ⟨r, d, hrl, hd, hk⟩ := state_cases cols (t.getD axis 0)
    (by rw [← hN]; exact ((inShape_iff t _).mp ht).2 axis hax)
  have htl := inShape_length ht
  by_cases hrr : r = iroot
  · subst hrr
    have hdl := inShape_length hd
    have hdf : d.getD ifrag 0 < (cols.getD r []).getD ifrag 0 := ((inShape_iff d _).mp hd).2 ifrag hf
    rw [(y3 t ht).1 d hd hk, (z3 t ht).1 d hd hk]
    have : ∀ k ∈ Finset.range ((cols.getD r []).getD ifrag 0),
        v.get [k, d.getD ifrag 0] * x.get (t.set axis (stateIndex cols r (d.set ifrag k))) =
        ∑ c ∈ Finset.range ((cols.getD r []).getD ifrag 0), u.get [c, k] * v.get [k, d.getD ifrag 0] *
          target.get (t.set axis (stateIndex cols r (d.set ifrag c))) := by
      intro k hk'
      have hk'' := Finset.mem_range.mp hk'
      have hdk := inShape_setFrag hd ifrag k hf hk''
      rw [(x3 _ (inShape_set_state cols ht axis r _ hax hN hr hdk)).1 (d.set ifrag k) hdk
        (by simp [show axis < t.length by omega]), Finset.mul_sum]
      apply Finset.sum_congr rfl
      intro c _
      rw [List.set_set, List.set_set]
      have : (d.set ifrag k).getD ifrag 0 = k := by simp [show ifrag < d.length by omega]
      rw [this]
      ring
    rw [Finset.sum_congr rfl this, Finset.sum_comm]
    apply Finset.sum_congr rfl
    intro c hc
    rw [hprod _ _ (Finset.mem_range.mp hc) hdf, Finset.sum_mul]
  · rw [(y3 t ht).2 r d hrl hrr hd hk, (x3 t ht).2 r d hrl hrr hd hk, (z3 t ht).2 r d hrl hrr hd hk]

/-- C12: transformations of different fragments, or of different rootspaces, commute. -/
theorem C12_commute (cols : List (List Nat)) (target u v : Nd R) (f g r s axis : Nat)
    (hu : UmatArgs cols target u f r axis) (hv : UmatArgs cols target v g s axis) (hne : r ≠ s ∨ f ≠ g) :
    ∃ x y x' y', umatDot1frag target u cols f r axis = some x ∧ umatDot1frag x v cols g s axis = some y ∧
      umatDot1frag target v cols g s axis = some x' ∧ umatDot1frag x' u cols f r axis = some y' ∧ y.Same y' := by
  obtain ⟨x, x1, x2, x3⟩ := C12_action cols target u f r axis hu
  obtain ⟨x', x1', x2', x3'⟩ := C12_action cols target v g s axis hv
  obtain ⟨hax, hN, hr, hf, hus, hup⟩ := hu
  obtain ⟨-, -, hs, hg, hvs, hvp⟩ := hv
  obtain ⟨y, y1, y2, y3⟩ := C12_action cols x v g s axis
    ⟨by rw [x2]; exact hax, by rw [x2]; exact hN, hs, hg, hvs, hvp⟩
  obtain ⟨y', y1', y2', y3'⟩ := C12_action cols x' u f r axis
    ⟨by rw [x2']; exact hax, by rw [x2']; exact hN, hr, hf, hus, hup⟩
  rw [x2] at y2 y3
  rw [x2'] at y2' y3'
  refine ⟨x, y, x', y', x1, y1, x1', y1', by rw [y2, y2'], fun t ht => ?_⟩
  rw [y2] at ht
  obtain ⟨q, d, hql, hd, hk⟩ := state_cases cols (t.getD axis 0)
    (by rw [← hN]; exact ((inShape_iff t _).mp ht).2 axis hax)
  have htl := inShape_length ht
  have hdl := inShape_length hd
  have hat : ∀ n, (t.set axis n).getD axis 0 = n := by intro n; simp [show axis < t.length by omega]
  by_cases hqs : q = s
  · subst hqs
    rw [(y3 t ht).1 d hd hk]
    by_cases hqr : q = r
    · subst hqr
      have hfg : f ≠ g := by rcases hne with h | h; exact absurd rfl h; exact h
      rw [(y3' t ht).1 d hd hk]
      have e1 : ∀ c ∈ Finset.range ((cols.getD q []).getD g 0),
          v.get [c, d.getD g 0] * x.get (t.set axis (stateIndex cols q (d.set g c))) =
          ∑ e ∈ Finset.range ((cols.getD q []).getD f 0), v.get [c, d.getD g 0] * u.get [e, d.getD f 0] *
            target.get (t.set axis (stateIndex cols q ((d.set g c).set f e))) := by
        intro c hc
        have hdc := inShape_setFrag hd g c hg (Finset.mem_range.mp hc)
        rw [(x3 _ (inShape_set_state cols ht axis q _ hax hN hs hdc)).1 _ hdc (hat _), Finset.mul_sum]
        apply Finset.sum_congr rfl
        intro e _
        rw [List.set_set]
        have : (d.set g c).getD f 0 = d.getD f 0 := by
          simp [List.getD_eq_getElem?_getD, List.getElem?_set_ne (Ne.symm hfg)]
        rw [this]; ring
      have e2 : ∀ e ∈ Finset.range ((cols.getD q []).getD f 0),
          u.get [e, d.getD f 0] * x'.get (t.set axis (stateIndex cols q (d.set f e))) =
          ∑ c ∈ Finset.range ((cols.getD q []).getD g 0), v.get [c, d.getD g 0] * u.get [e, d.getD f 0] *
            target.get (t.set axis (stateIndex cols q ((d.set g c).set f e))) := by
        intro e he
        have hde := inShape_setFrag hd f e hf (Finset.mem_range.mp he)
        rw [(x3' _ (inShape_set_state cols ht axis q _ hax hN hs hde)).1 _ hde (hat _), Finset.mul_sum]
        apply Finset.sum_congr rfl
        intro c _
        rw [List.set_set]
        have : (d.set f e).getD g 0 = d.getD g 0 := by
          simp [List.getD_eq_getElem?_getD, List.getElem?_set_ne hfg]
        rw [this, List.set_comm _ _ hfg]; ring
      rw [Finset.sum_congr rfl e1, Finset.sum_congr rfl e2, Finset.sum_comm]
    · rw [(y3' t ht).2 q d hql hqr hd hk, (x3' t ht).1 d hd hk]
      apply Finset.sum_congr rfl
      intro c hc
      have hdc := inShape_setFrag hd g c hg (Finset.mem_range.mp hc)
      rw [(x3 _ (inShape_set_state cols ht axis q _ hax hN hs hdc)).2 q _ hql hqr hdc (hat _)]
  · rw [(y3 t ht).2 q d hql hqs hd hk]
    by_cases hqr : q = r
    · subst hqr
      rw [(y3' t ht).1 d hd hk, (x3 t ht).1 d hd hk]
      apply Finset.sum_congr rfl
      intro c hc
      have hdc := inShape_setFrag hd f c hf (Finset.mem_range.mp hc)
      rw [(x3' _ (inShape_set_state cols ht axis q _ hax hN hr hdc)).2 q _ hql hqs hdc (hat _)]
    · rw [(y3' t ht).2 q d hql hqr hd hk, (x3 t ht).2 q d hql hqr hd hk, (x3' t ht).2 q d hql hqs hd hk]

/-- Different fragments of the same rootspace: hypotheses of `C12_commute`. -/
example : UmatArgs [[2, 3], [1, 2]] (⟨[8, 2], fun _ => 1⟩ : Nd Int) ⟨[3, 3], fun _ => 2⟩ 1 0 0 ∧
    UmatArgs [[2, 3], [1, 2]] (⟨[8, 2], fun _ => 1⟩ : Nd Int) ⟨[2, 2], fun _ => 2⟩ 0 0 0 ∧ (0 ≠ 0 ∨ 1 ≠ 0) := by
  simp [UmatArgs]

end Verif.Props
