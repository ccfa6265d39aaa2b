import Verif.Lemmas.Bigdim
/-!
# C14: transposition of arrays with arbitrarily many dimensions
-/
namespace Verif.Props
open Verif.Spec Verif.Np Verif.Radix

variable {R : Type}

/-- C14, row-major. For any number of dimensions: the entry of the flat result whose position is that of the
permuted multi-index in the permuted shape is the entry of the flat input at the position of the multi-index. -/
theorem C14_transpose_C (a : Nd R) (shape axes : List Nat) (hsize : a.shape.prod = shape.prod)
    (hpos : 0 < shape.prod) (hperm : axes.Perm (List.range shape.length)) :
    ∃ out, Bigdim.transpose a shape axes false = some out ∧ out.shape = [shape.prod] ∧
      ∀ t, InShape t shape →
        out.get [posC (axes.map (fun i => shape.getD i 0)) (axes.map (fun i => t.getD i 0))] =
          a.flattenC.get [posC shape t] := by
  have hsz : a.flattenC.shape.prod = shape.prod := by simp [Nd.flattenC, hsize]
  obtain ⟨a', p, sh', e1, e2, e3⟩ := Bigdim.loop_all a.flattenC axes shape hperm hsz hpos
  refine ⟨a'.flattenC, ?_, ?_, ?_⟩
  · unfold Bigdim.transpose
    have hl : axes.length = shape.length := by simpa using hperm.length_eq
    have hnd : axes.Nodup := hperm.nodup_iff.mpr List.nodup_range
    simp only [Bool.false_eq_true, if_false, Nd.size, hsz, ne_eq, not_true_eq_false, hl,
      List.dedup_eq_self.mpr hnd, e1, Option.map_some]
  · simp [Nd.flattenC, e2]
  · intro t ht
    rw [Bigdim.flattenC_get, e3 t ht, Bigdim.flattenC_get,
      Bigdim.flattenC_flat _ _ (by rw [hsize]; exact posC_lt ht)]

theorem axesF (axes shape : List Nat) (hperm : axes.Perm (List.range shape.length)) :
    (axes.reverse.map (fun i => shape.length - 1 - i)).Perm (List.range shape.reverse.length) ∧
    ∀ t : List Nat, t.length = shape.length →
      (axes.reverse.map (fun i => shape.length - 1 - i)).map (fun i => t.reverse.getD i 0) =
        (axes.map (fun i => t.getD i 0)).reverse := by
  have hlt : ∀ i ∈ axes, i < shape.length := fun i hi => List.mem_range.mp (hperm.mem_iff.mp hi)
  constructor
  · rw [List.length_reverse]
    refine ((List.reverse_perm axes).map _).trans ((hperm.map _).trans ?_)
    have : (List.range shape.length).map (fun i => shape.length - 1 - i) = (List.range shape.length).reverse := by
      apply List.ext_getElem
      · simp
      · intro i h1 h2
        simp
    rw [this]
    exact List.reverse_perm _
  · intro t ht
    rw [← List.map_reverse, List.map_map]
    apply List.map_congr_left
    intro i hi
    have := hlt i (by simpa using hi)
    simp only [Function.comp]
    rw [List.getD_reverse _ (by omega)]
    congr 1
    omega

/-- C14, column-major (`order='F'`): same statement with column-major positions throughout. -/
theorem C14_transpose_F (a : Nd R) (shape axes : List Nat) (hsize : a.shape.prod = shape.prod)
    (hpos : 0 < shape.prod) (hperm : axes.Perm (List.range shape.length)) :
    ∃ out, Bigdim.transpose a shape axes true = some out ∧ out.shape = [shape.prod] ∧
      ∀ t, InShape t shape →
        out.get [posF (axes.map (fun i => shape.getD i 0)) (axes.map (fun i => t.getD i 0))] =
          a.flattenF.get [posF shape t] := by
  have hsz : a.flattenF.shape.prod = shape.reverse.prod := by
    simp [Nd.flattenF, hsize, List.prod_reverse]
  have hsz' : a.flattenF.shape.prod = shape.prod := by simp [Nd.flattenF, hsize]
  obtain ⟨hperm', hmap⟩ := axesF axes shape hperm
  obtain ⟨a', p, sh', e1, e2, e3⟩ := Bigdim.loop_all a.flattenF _ shape.reverse hperm' hsz (by rw [← hsz, hsz']; exact hpos)
  refine ⟨a'.flattenC, ?_, ?_, ?_⟩
  · unfold Bigdim.transpose
    have hl : axes.length = shape.length := by simpa using hperm.length_eq
    have hnd : axes.Nodup := hperm.nodup_iff.mpr List.nodup_range
    simp only [if_true, Nd.size, hsz', ne_eq, not_true_eq_false, if_false, hl,
      List.dedup_eq_self.mpr hnd, e1, Option.map_some]
  · simp [Nd.flattenC, e2, List.prod_reverse]
  · intro t ht
    have h := e3 t.reverse (inShape_reverse ht)
    rw [hmap t (inShape_length ht), hmap shape rfl,
      ← posF_eq_posC_reverse _ _ (by simp), ← posF_eq_posC_reverse _ _ (inShape_length ht)] at h
    rw [Bigdim.flattenC_get, h, Bigdim.flattenF_flat _ _ (by rw [hsize]; exact posF_lt ht)]

/-- A shape with three axes and a cyclic permutation meet the hypotheses. -/
example : ((⟨[2, 3, 4], fun t => posC [2, 3, 4] t⟩ : Nd Nat)).shape.prod = [2, 3, 4].prod ∧
    0 < [2, 3, 4].prod ∧ [2, 0, 1].Perm (List.range [2, 3, 4].length) := by decide

theorem inShape_axes {t shape : List Nat} (h : InShape t shape) (axes : List Nat)
    (hlt : ∀ i ∈ axes, i < shape.length) :
    InShape (axes.map (fun i => t.getD i 0)) (axes.map (fun i => shape.getD i 0)) := by
  induction axes with
  | nil => exact List.Forall₂.nil
  | cons i axes ih =>
    refine List.Forall₂.cons ?_ (ih (fun j hj => hlt j (by simp [hj])))
    exact ((inShape_iff t shape).mp h).2 i (hlt i (by simp))

theorem map_inv (axes inv t : List Nat) (n : Nat) (ht : t.length = n) (hl : inv.length = n)
    (hlt : ∀ i ∈ inv, i < axes.length) (hinv : ∀ k, k < n → axes.getD (inv.getD k 0) 0 = k) :
    inv.map (fun i => (axes.map (fun j => t.getD j 0)).getD i 0) = t := by
  apply List.ext_getElem
  · simp [hl, ht]
  · intro k h1 h2
    have hk : k < inv.length := by simpa using h1
    have hik : inv[k] < axes.length := hlt _ (List.getElem_mem _)
    have := hinv k (by omega)
    rw [List.getD_eq_getElem _ _ hk, List.getD_eq_getElem _ _ hik] at this
    simp only [List.getElem_map]
    rw [List.getD_eq_getElem _ _ (by simpa using hik)]
    simp only [List.getElem_map, this]
    rw [List.getD_eq_getElem _ _ h2]

/-- C14, inverse. Transposing the result back with the permuted shape and the inverse permutation returns the
flattened input, in both orders. -/
theorem C14_inverse (fOrder : Bool) (a : Nd R) (shape axes inv : List Nat) (hsize : a.shape.prod = shape.prod)
    (hpos : 0 < shape.prod) (hperm : axes.Perm (List.range shape.length))
    (hpinv : inv.Perm (List.range shape.length))
    (hinv : ∀ k, k < shape.length → axes.getD (inv.getD k 0) 0 = k) :
    ∃ out back, Bigdim.transpose a shape axes fOrder = some out ∧
      Bigdim.transpose out (axes.map (fun i => shape.getD i 0)) inv fOrder = some back ∧
      back.Same (if fOrder then a.flattenF else a.flattenC) := by
  have hl : axes.length = shape.length := by simpa using hperm.length_eq
  have hl' : inv.length = shape.length := by simpa using hpinv.length_eq
  have hlt : ∀ i ∈ axes, i < shape.length := fun i hi => List.mem_range.mp (hperm.mem_iff.mp hi)
  have hlt' : ∀ i ∈ inv, i < axes.length := fun i hi => by
    rw [hl]; exact List.mem_range.mp (hpinv.mem_iff.mp hi)
  have hpp := Bigdim.prod_perm axes shape hperm
  have hsh := map_inv axes inv shape shape.length rfl hl' hlt' hinv
  cases fOrder
  · obtain ⟨out, h1, h2, h3⟩ := C14_transpose_C a shape axes hsize hpos hperm
    obtain ⟨back, g1, g2, g3⟩ := C14_transpose_C out (axes.map (fun i => shape.getD i 0)) inv
      (by rw [h2, hpp]; simp) (by rw [hpp]; exact hpos) (by simpa [hl] using hpinv)
    refine ⟨out, back, h1, g1, ?_, ?_⟩
    · rw [g2, hpp]; simp [Nd.flattenC, hsize]
    · intro u hu
      rw [g2, hpp] at hu
      obtain ⟨k, rfl⟩ : ∃ k, u = [k] := by
        cases hu with
        | cons h h' => cases h'; exact ⟨_, rfl⟩
      have hk : k < shape.prod := by cases hu with | cons h h' => exact h
      obtain ⟨t, ht, rfl⟩ := posC_surj shape k hk
      have := g3 _ (inShape_axes ht axes hlt)
      rw [hsh, map_inv axes inv t shape.length (inShape_length ht) hl' hlt' hinv] at this
      rw [this]
      simp only [Bool.false_eq_true, if_false]
      rw [← h3 t ht]
      have hlt2 := posC_lt (inShape_axes ht axes hlt)
      rw [hpp] at hlt2
      rw [Bigdim.flattenC_get]
      have h2' : InShape [posC (axes.map (fun i => shape.getD i 0)) (axes.map (fun i => t.getD i 0))] out.shape := by
        rw [h2]; exact List.Forall₂.cons hlt2 List.Forall₂.nil
      have := out.flat_posC h2'
      rw [h2] at this
      simpa [posC] using this
  · obtain ⟨out, h1, h2, h3⟩ := C14_transpose_F a shape axes hsize hpos hperm
    obtain ⟨back, g1, g2, g3⟩ := C14_transpose_F out (axes.map (fun i => shape.getD i 0)) inv
      (by rw [h2, hpp]; simp) (by rw [hpp]; exact hpos) (by simpa [hl] using hpinv)
    refine ⟨out, back, h1, g1, ?_, ?_⟩
    · rw [g2, hpp]; simp [Nd.flattenF, hsize]
    · intro u hu
      rw [g2, hpp] at hu
      obtain ⟨k, rfl⟩ : ∃ k, u = [k] := by
        cases hu with
        | cons h h' => cases h'; exact ⟨_, rfl⟩
      have hk : k < shape.prod := by cases hu with | cons h h' => exact h
      obtain ⟨t, ht, rfl⟩ := posF_surj shape k hk
      have := g3 _ (inShape_axes ht axes hlt)
      rw [hsh, map_inv axes inv t shape.length (inShape_length ht) hl' hlt' hinv] at this
      rw [this]
      simp only [if_true]
      rw [← h3 t ht]
      have hlt2 := posF_lt (inShape_axes ht axes hlt)
      rw [hpp] at hlt2
      simp only [Nd.flattenF, h2, unravelF, List.getD_cons_zero]
      rw [Nat.mod_eq_of_lt hlt2]

/-- The hypotheses of `C14_inverse` are met by a cyclic permutation of three axes and its inverse. -/
example : [2, 0, 1].Perm (List.range [2, 3, 4].length) ∧ [1, 2, 0].Perm (List.range [2, 3, 4].length) ∧
    ∀ k, k < [2, 3, 4].length → [2, 0, 1].getD ([1, 2, 0].getD k 0) 0 = k := by decide

/-- C14: a call with the wrong number of elements, the wrong number of axes or a repeated axis is refused. -/
theorem C14_rejects (a out : Nd R) (shape axes : List Nat) (fOrder : Bool)
    (h : Bigdim.transpose a shape axes fOrder = some out) :
    a.shape.prod = shape.prod ∧ axes.length = shape.length ∧ axes.Nodup := by
  have hd : axes.dedup.length = shape.length → axes.length = shape.length → axes.Nodup := fun h3 h2 =>
    List.dedup_eq_self.mp ((List.dedup_sublist axes).eq_of_length (by rw [h3, h2]))
  unfold Bigdim.transpose at h
  cases fOrder <;> simp only [if_true, Bool.false_eq_true, if_false] at h <;> split_ifs at h with h1 h2 h3 <;>
    simp only [not_not] at h1 h2 h3
  · exact ⟨by simpa [Nd.size, Nd.flattenC] using h1, h2, hd h3 h2⟩
  · exact ⟨by simpa [Nd.size, Nd.flattenF] using h1, h2, hd h3 h2⟩

/-- There are refused calls and accepted ones. -/
example : Bigdim.transpose (⟨[6], fun _ => (0 : Int)⟩ : Nd Int) [2, 3] [1, 1] false = none ∧
    (Bigdim.transpose (⟨[6], fun _ => (0 : Int)⟩ : Nd Int) [2, 3] [1, 0] false).isSome := by
  constructor <;> rfl

/-! ### the SI-vector wrappers -/

theorem slowAxes_perm (nfrags : Nat) (inv : List Nat) (hnd : inv.Nodup) (hlt : ∀ i ∈ inv, i < nfrags) :
    (Bigdim.slowAxes nfrags inv).Perm (List.range (nfrags + 1)) := by
  rw [List.range_succ]
  unfold Bigdim.slowAxes
  refine List.Perm.append_right _ ?_
  rw [List.perm_ext_iff_of_nodup]
  · intro a
    simp only [List.mem_append, List.mem_filter, List.mem_range, decide_eq_true_eq]
    constructor
    · rintro (⟨h, _⟩ | h)
      · exact h
      · exact hlt a h
    · intro h
      by_cases ha : a ∈ inv
      · exact Or.inr ha
      · exact Or.inl ⟨h, ha⟩
  · refine List.Nodup.append (List.nodup_range.filter _) hnd ?_
    intro a h1 h2
    simp only [List.mem_filter, decide_eq_true_eq] at h1
    exact h1.2 h2
  · exact List.nodup_range

theorem slow_map (lroots inv t : List Nat) (x : Nat) (hlt : ∀ i ∈ inv, i < lroots.length)
    (ht : t.length = lroots.length) :
    (Bigdim.slowAxes lroots.length inv).map (fun i => (t ++ [x]).getD i 0) =
      ((List.range lroots.length).filter (fun i => decide (i ∉ inv))).map (fun i => t.getD i 0) ++
        inv.map (fun i => t.getD i 0) ++ [x] := by
  unfold Bigdim.slowAxes
  rw [List.map_append, List.map_append]
  congr 1
  · congr 1
    · apply List.map_congr_left
      intro i hi
      have : i < t.length := by
        have := (List.mem_filter.mp hi).1
        rw [ht]; exact List.mem_range.mp this
      exact List.getD_append _ _ _ _ this
    · apply List.map_congr_left
      intro i hi
      exact List.getD_append _ _ _ _ (by rw [ht]; exact hlt i hi)
  · simp [← ht]

theorem slow_prod (lroots inv : List Nat) (hnd : inv.Nodup) (hlt : ∀ i ∈ inv, i < lroots.length) :
    (((List.range lroots.length).filter (fun i => decide (i ∉ inv))).map (fun i => lroots.getD i 0)).prod *
      (inv.map (fun i => lroots.getD i 0)).prod = lroots.prod := by
  have h := slowAxes_perm lroots.length inv hnd hlt
  have := Bigdim.prod_perm (Bigdim.slowAxes lroots.length inv) (lroots ++ [1]) (by simpa using h)
  rw [slow_map lroots inv lroots 1 hlt rfl] at this
  simpa using this

/-- C14, SI vectors, forward: for every rootspace, every set of involved fragments (in any order) and every
number of SI roots, element `(s, r, c)` of the result is the element of SI root `s` for the product state whose
involved-fragment states have column-major position `r` and whose spectator states have position `c`. -/
theorem C14_make_fragments_slow (vec : Nd R) (lroots inv : List Nat) (nsi : Nat)
    (hv : vec.shape = [lroots.prod, nsi]) (hpos : 0 < lroots.prod) (hsi : 0 < nsi) (hnd : inv.Nodup)
    (hlt : ∀ i ∈ inv, i < lroots.length) :
    ∃ out, Bigdim.makeFragmentsSlow vec lroots inv = some out ∧
      out.shape = [nsi, (inv.map (fun i => lroots.getD i 0)).prod,
        (((List.range lroots.length).filter (fun i => decide (i ∉ inv))).map (fun i => lroots.getD i 0)).prod] ∧
      ∀ t s, InShape t lroots → s < nsi →
        out.get [s, posF (inv.map (fun i => lroots.getD i 0)) (inv.map (fun i => t.getD i 0)),
          posF (((List.range lroots.length).filter (fun i => decide (i ∉ inv))).map (fun i => lroots.getD i 0))
            (((List.range lroots.length).filter (fun i => decide (i ∉ inv))).map (fun i => t.getD i 0))] =
        vec.get [posF lroots t, s] := by
  have hsz : vec.shape.prod = (lroots ++ [nsi]).prod := by rw [hv]; simp
  obtain ⟨v, h1, h2, h3⟩ := C14_transpose_F vec (lroots ++ [nsi]) (Bigdim.slowAxes lroots.length inv) hsz
    (by simp; exact ⟨hpos, hsi⟩) (by simpa using slowAxes_perm lroots.length inv hnd hlt)
  have hprod := slow_prod lroots inv hnd hlt
  set spec := (List.range lroots.length).filter (fun i => decide (i ∉ inv)) with hspec
  have hnrow : 0 < (inv.map (fun i => lroots.getD i 0)).prod := by
    rw [← hprod] at hpos; exact Nat.pos_of_mul_pos_left hpos
  have hncol : lroots.prod / (inv.map (fun i => lroots.getD i 0)).prod = (spec.map (fun i => lroots.getD i 0)).prod := by
    rw [← hprod, Nat.mul_div_cancel _ hnrow]
  have hsize : vec.size = lroots.prod * nsi := by simp [Nd.size, hv]
  have hdims : [(spec.map (fun i => lroots.getD i 0)).prod, (inv.map (fun i => lroots.getD i 0)).prod, nsi].prod =
      v.shape.prod := by
    rw [h2]; simp only [List.prod_cons, List.prod_nil, List.prod_append]; rw [← hprod]; ring
  have hsome : Bigdim.makeFragmentsSlow vec lroots inv = some (Nd.T
      ⟨[(spec.map (fun i => lroots.getD i 0)).prod, (inv.map (fun i => lroots.getD i 0)).prod, nsi],
        fun t => v.get (unravelF v.shape (posF [(spec.map (fun i => lroots.getD i 0)).prod,
          (inv.map (fun i => lroots.getD i 0)).prod, nsi] t))⟩) := by
    simp only [Bigdim.makeFragmentsSlow, hsize]
    rw [if_neg (by omega), Nat.mul_mod_right, Nat.mul_div_cancel_left _ hpos, if_neg (by simp), h1]
    simp only [Option.bind_some, hncol]
    unfold Nd.reshapeF
    rw [if_pos hdims]
    rfl
  refine ⟨_, hsome, rfl, ?_⟩
  · intro t s ht hs
    have htl := inShape_length ht
    simp only [Nd.T, List.reverse_cons, List.reverse_nil, List.nil_append, List.cons_append]
    have ht' : InShape (t ++ [s]) (lroots ++ [nsi]) := inShape_append ht (List.Forall₂.cons hs List.Forall₂.nil)
    have := h3 (t ++ [s]) ht'
    rw [slow_map lroots inv t s hlt htl, slow_map lroots inv lroots nsi hlt rfl] at this
    have hp : posF (spec.map (fun i => lroots.getD i 0) ++ inv.map (fun i => lroots.getD i 0) ++ [nsi])
        (spec.map (fun i => t.getD i 0) ++ inv.map (fun i => t.getD i 0) ++ [s]) =
        posF [(spec.map (fun i => lroots.getD i 0)).prod, (inv.map (fun i => lroots.getD i 0)).prod, nsi]
          [posF (spec.map (fun i => lroots.getD i 0)) (spec.map (fun i => t.getD i 0)),
           posF (inv.map (fun i => lroots.getD i 0)) (inv.map (fun i => t.getD i 0)), s] := by
      rw [posF_append _ _ _ _ (by simp), posF_append _ _ _ _ (by simp)]
      simp only [posF, List.prod_append]
      ring
    have hin : InShape (spec.map (fun i => t.getD i 0) ++ inv.map (fun i => t.getD i 0) ++ [s])
        (spec.map (fun i => lroots.getD i 0) ++ inv.map (fun i => lroots.getD i 0) ++ [nsi]) := by
      refine inShape_append (inShape_append (inShape_axes ht _ ?_) (inShape_axes ht _ hlt))
        (List.Forall₂.cons hs List.Forall₂.nil)
      intro i hi
      exact List.mem_range.mp (List.mem_filter.mp hi).1
    have hltN := posF_lt hin
    rw [hp] at hltN this
    rw [h2]
    simp only [unravelF]
    rw [Nat.mod_eq_of_lt, this]
    · simp only [Nd.flattenF, hv, List.getD_cons_zero, unravelF]
      rw [posF_append _ _ _ _ htl]
      have hq := posF_lt ht
      simp only [posF, Nat.mul_zero, Nat.add_zero]
      rw [Nat.add_mul_mod_self_left, Nat.mod_eq_of_lt hq, Nat.add_mul_div_left _ _ hpos, Nat.div_eq_of_lt hq,
        Nat.zero_add, Nat.mod_eq_of_lt hs]
    · simp only [List.prod_append] at hltN ⊢
      rw [← hprod]; exact hltN

/-- C14, SI vectors, round trip: `transpose_sivec_with_slow_fragments` applied to the (column-major) output of
`transpose_sivec_make_fragments_slow` gives back the SI vectors. -/
theorem C14_slow_fragments_roundtrip (vec : Nd R) (lroots inv : List Nat) (nsi : Nat)
    (hv : vec.shape = [lroots.prod, nsi]) (hpos : 0 < lroots.prod) (hsi : 0 < nsi) (hnd : inv.Nodup)
    (hlt : ∀ i ∈ inv, i < lroots.length) :
    ∃ out back, Bigdim.makeFragmentsSlow vec lroots inv = some out ∧
      Bigdim.withSlowFragments out.T lroots inv = some back ∧ back.T.Same vec := by
  obtain ⟨out, e1, e2, e3⟩ := C14_make_fragments_slow vec lroots inv nsi hv hpos hsi hnd hlt
  have hprod := slow_prod lroots inv hnd hlt
  set spec := (List.range lroots.length).filter (fun i => decide (i ∉ inv)) with hspec
  have hperm := slowAxes_perm lroots.length inv hnd hlt
  have hlen : (Bigdim.slowAxes lroots.length inv).length = lroots.length + 1 := by simpa using hperm.length_eq
  have hmapl := slow_map lroots inv lroots nsi hlt rfl
  have hshape : (Bigdim.slowAxes lroots.length inv).dropLast.map (fun i => lroots.getD i 0) ++ [nsi] =
      (Bigdim.slowAxes lroots.length inv).map (fun i => (lroots ++ [nsi]).getD i 0) := by
    rw [hmapl]
    unfold Bigdim.slowAxes
    rw [List.dropLast_concat, List.map_append]
  have hTs : out.T.shape.prod = ((Bigdim.slowAxes lroots.length inv).map (fun i => (lroots ++ [nsi]).getD i 0)).prod := by
    rw [hmapl]
    simp only [Nd.T, e2, List.reverse_cons, List.reverse_nil, List.nil_append, List.cons_append, List.prod_cons,
      List.prod_nil, List.prod_append]
    ring
  have hsz : out.T.size = lroots.prod * nsi := by
    rw [Nd.size, hTs, hmapl]; simp only [List.prod_append, List.prod_singleton]; rw [hprod]
  have hpinv := argsort_perm (Bigdim.slowAxes lroots.length inv)
  have hlen' : (argsort (Bigdim.slowAxes lroots.length inv)).length = lroots.length + 1 := by
    rw [← hlen]; simpa using hpinv.length_eq
  obtain ⟨v, h1, h2, h3⟩ := C14_transpose_F out.T
    ((Bigdim.slowAxes lroots.length inv).map (fun i => (lroots ++ [nsi]).getD i 0))
    (argsort (Bigdim.slowAxes lroots.length inv)) hTs
    (by rw [← hTs]; have := hsz; rw [Nd.size] at this; rw [this]; positivity)
    (by simpa using hpinv)
  have hN : ((Bigdim.slowAxes lroots.length inv).map (fun i => (lroots ++ [nsi]).getD i 0)).prod = lroots.prod * nsi := by
    rw [← hTs]; exact hsz
  have hsome : Bigdim.withSlowFragments out.T lroots inv = some (Nd.T
      ⟨[lroots.prod, nsi], fun t => v.get (unravelF v.shape (posF [lroots.prod, nsi] t))⟩) := by
    unfold Bigdim.withSlowFragments
    simp only [hsz]
    rw [if_neg (by omega), Nat.mul_mod_right, Nat.mul_div_cancel_left _ hpos, if_neg (by simp), hshape, h1]
    simp only [Option.bind_some]
    unfold Nd.reshapeF
    rw [if_pos (by rw [h2, hN]; simp)]
    rfl
  refine ⟨out, _, e1, hsome, ?_, ?_⟩
  · simp [Nd.T, hv]
  · intro u hu
    have hu' : InShape u [lroots.prod, nsi] := by simpa [Nd.T] using hu
    obtain ⟨k, s, rfl⟩ : ∃ k s, u = [k, s] := by
      cases hu' with
      | cons h h' => cases h' with
        | cons h h' => cases h'; exact ⟨_, _, rfl⟩
    have hk : k < lroots.prod := by cases hu' with | cons h h' => exact h
    have hs : s < nsi := by cases hu' with | cons h h' => cases h' with | cons h h' => exact h
    obtain ⟨t, ht, rfl⟩ := posF_surj lroots k hk
    have htl := inShape_length ht
    have ht' : InShape (t ++ [s]) (lroots ++ [nsi]) := inShape_append ht (List.Forall₂.cons hs List.Forall₂.nil)
    have hax : ∀ i ∈ Bigdim.slowAxes lroots.length inv, i < (lroots ++ [nsi]).length := by
      intro i hi
      have := List.mem_range.mp (hperm.mem_iff.mp hi)
      simpa using this
    have hinv : ∀ x : List Nat, x.length = lroots.length + 1 →
        (argsort (Bigdim.slowAxes lroots.length inv)).map
          (fun i => ((Bigdim.slowAxes lroots.length inv).map (fun j => x.getD j 0)).getD i 0) = x := by
      intro x hx
      refine map_inv _ _ x (lroots.length + 1) hx hlen' ?_ ?_
      · intro i hi
        have := List.mem_range.mp (hpinv.mem_iff.mp hi)
        exact this
      · intro k hk
        exact argsort_inv _ (by rw [hlen]; exact hperm) k (by omega)
    have := h3 _ (inShape_axes ht' _ hax)
    rw [hinv _ (by simp), hinv _ (by simp [htl])] at this
    simp only [Nd.T, List.reverse_reverse] at this ⊢
    rw [h2]
    simp only [unravelF]
    have hq := posF_lt ht
    have e : posF [lroots.prod, nsi] [posF lroots t, s] = posF (lroots ++ [nsi]) (t ++ [s]) := by
      rw [posF_append _ _ _ _ htl]; simp [posF]
    rw [e, Nat.mod_eq_of_lt (by rw [hN]; simpa using posF_lt ht'), this, ← e3 t s ht hs]
    rw [slow_map lroots inv t s hlt htl, hmapl, ← hspec]
    simp only [Nd.flattenF, List.getD_cons_zero, e2, List.reverse_cons, List.reverse_nil, List.nil_append,
      List.cons_append]
    have hpq : posF (spec.map (fun i => lroots.getD i 0) ++ inv.map (fun i => lroots.getD i 0) ++ [nsi])
        (spec.map (fun i => t.getD i 0) ++ inv.map (fun i => t.getD i 0) ++ [s]) =
        posF [(spec.map (fun i => lroots.getD i 0)).prod, (inv.map (fun i => lroots.getD i 0)).prod, nsi]
          [posF (spec.map (fun i => lroots.getD i 0)) (spec.map (fun i => t.getD i 0)),
           posF (inv.map (fun i => lroots.getD i 0)) (inv.map (fun i => t.getD i 0)), s] := by
      rw [posF_append _ _ _ _ (by simp), posF_append _ _ _ _ (by simp)]
      simp only [posF, List.prod_append]
      ring
    have hspt := inShape_axes ht spec (fun i hi => List.mem_range.mp (List.mem_filter.mp hi).1)
    have hint := inShape_axes ht inv hlt
    rw [hpq, unravelF_posF]
    · rfl
    · exact List.Forall₂.cons (posF_lt hspt) (List.Forall₂.cons (posF_lt hint) (List.Forall₂.cons hs List.Forall₂.nil))

/-- Three fragments with involved fragments 2 and 0 (in that order) and two SI roots meet the hypotheses. -/
example : (⟨[24, 2], fun _ => 0⟩ : Nd Nat).shape = [[2, 3, 4].prod, 2] ∧ 0 < [2, 3, 4].prod ∧ 0 < 2 ∧
    [2, 0].Nodup ∧ ∀ i ∈ [2, 0], i < [2, 3, 4].length := by decide

end Verif.Props
