import Verif.Model.Umat
import Verif.Lemmas.Np
import Verif.Lemmas.Addr
import Verif.Lemmas.Bigdim
import Verif.Spec.States
import Mathlib.Algebra.BigOperators.Ring.Finset
import Mathlib.Algebra.BigOperators.Group.Finset.Sigma
namespace Verif.Umat
open Verif.Spec Verif.Np Verif.Addr Verif.Radix

theorem off_eq (cols : List (List Nat)) (r : Nat) : off cols r = rootStart cols r := rfl

theorem list_split (l : List Nat) (i : Nat) (h : i < l.length) :
    l = l.take i ++ l.getD i 0 :: l.drop (i + 1) := (Bigdim.set_split l i 0 h).1

theorem posF_set (l d : List Nat) (i c n : Nat) (hi : i < l.length) (hd : d.length = l.length) :
    posF (l.set i n) (d.set i c) =
      posF (l.take i) (d.take i) + (l.take i).prod * (c + n * posF (l.drop (i + 1)) (d.drop (i + 1))) := by
  rw [(Bigdim.set_split l i n hi).2, (Bigdim.set_split d i c (by omega)).2,
    posF_append _ _ _ _ (by simp [hd])]
  rfl

theorem set_getD_self (l : List Nat) (i : Nat) (h : i < l.length) : l.set i (l.getD i 0) = l := by
  rw [List.getD_eq_getElem _ _ h, List.set_getElem_self]

variable {R : Type} [CommRing R]

theorem action1 (target umat : Nd R) (l rest : List Nat) (i n2 : Nat) (hi : i < l.length)
    (hn : 0 < l.getD i 0) (ht : target.shape = l.prod :: rest) (hu : umat.shape = [l.getD i 0, n2]) :
    ∃ out, umatDot1frag' target umat l i = some out ∧ out.shape = (l.set i n2).prod :: rest ∧
      ∀ d u, InShape d (l.set i n2) → InShape u rest →
        out.get (posF (l.set i n2) d :: u) =
          ∑ c ∈ Finset.range (l.getD i 0), umat.get [c, d.getD i 0] * target.get (posF l (d.set i c) :: u) := by
  have hlp : l.prod = (l.take i).prod * (l.getD i 0 * (l.drop (i + 1)).prod) := prod_split l i hi
  have hsetp : (l.set i n2).prod = (l.take i).prod * (n2 * (l.drop (i + 1)).prod) := by
    rw [(Bigdim.set_split l i n2 hi).2, List.prod_append, List.prod_cons]
  have hnrow : (l.reverse.take (l.length - i - 1)).prod = (l.drop (i + 1)).prod := by
    rw [List.take_reverse, List.prod_reverse]; congr 2; omega
  have hstk : (l.reverse.drop (l.length - i - 1)).prod = (l.take i).prod * l.getD i 0 := by
    rw [List.drop_reverse, List.prod_reverse, show l.length - (l.length - i - 1) = i + 1 by omega,
      List.take_succ_eq_append_getElem hi, List.prod_append, List.prod_singleton, List.getD_eq_getElem _ _ hi]
  set A := (l.take i).prod with hA
  set B := (l.drop (i + 1)).prod with hB
  set n := l.getD i 0 with hnn
  set Q := rest.prod with hQ
  have hnst : A * n * Q / n = A * Q := by
    rw [show A * n * Q = A * Q * n by ring, Nat.mul_div_cancel _ hn]
  have hresh : [B, n, A * Q].prod = target.shape.prod := by
    rw [ht]; simp only [List.prod_cons, List.prod_nil]; rw [hlp]; ring
  obtain ⟨t1, ht1⟩ := target.reshape_some _ hresh
  obtain ⟨h11, -, h13⟩ := Nd.reshape_flat ht1
  have hold : l.prod * n2 / n = (l.set i n2).prod := by
    rw [hlp, hsetp, show A * (n * B) * n2 = A * (n2 * B) * n by ring, Nat.mul_div_cancel _ hn]
  -- the contraction
  set t2 : Nd R := ⟨[n2, B, A * Q], fun t => ∑ k ∈ Finset.range n,
    (umat.transpose [1, 0]).get [t.getD 0 0, k] * (t1.transpose [1, 0, 2]).get (k :: t.drop 1)⟩ with ht2d
  have ht2 : tensordot1 (umat.transpose [1, 0]) (t1.transpose [1, 0, 2]) = some t2 := by
    unfold tensordot1
    simp only [Nd.transpose, hu, h11, List.map_cons, List.map_nil, List.getD_cons_succ, List.getD_cons_zero,
      List.drop_succ_cons, List.drop_zero, if_true, ht2d]
  have h3s : (t2.transpose [1, 0, 2]).shape = [B, n2, A * Q] := by simp [Nd.transpose, ht2d]
  have hresh2 : ((l.set i n2).prod :: rest).prod = (t2.transpose [1, 0, 2]).shape.prod := by
    rw [h3s, List.prod_cons, hsetp]; simp only [List.prod_cons, List.prod_nil]; ring
  obtain ⟨out, hout⟩ := (t2.transpose [1, 0, 2]).reshape_some _ hresh2
  obtain ⟨ho1, -, ho3⟩ := Nd.reshape_flat hout
  refine ⟨out, ?_, ho1, ?_⟩
  · unfold umatDot1frag'
    simp only [hu, ht, hnrow, hstk, List.drop_succ_cons, List.drop_zero, List.getD_cons_zero,
      List.getD_cons_succ, ← hnn, ← hQ, hnst, hold, ne_eq, not_true_eq_false, if_false]
    rw [if_neg (by omega), ht1]
    simp only [Option.bind_eq_bind, Option.bind_some, ht2]
    exact hout
  · intro d u hd hu'
    have hdl : d.length = l.length := by simpa using inShape_length hd
    have hdi : d.getD i 0 < n2 := by
      have := ((inShape_iff d _).mp hd).2 i (by simpa using hi)
      simpa [hi] using this
    have hdA : InShape (d.take i) (l.take i) := by
      have := List.forall₂_take i hd
      rwa [List.take_set_of_le (Nat.le_refl i)] at this
    have hdB : InShape (d.drop (i + 1)) (l.drop (i + 1)) := by
      have := List.forall₂_drop (i + 1) hd
      rwa [List.drop_set_of_lt (by omega)] at this
    have hpA := posF_lt hdA
    have hpB := posF_lt hdB
    have hpu := posC_lt hu'
    rw [← hA] at hpA
    rw [← hB] at hpB
    rw [← hQ] at hpu
    set a := posF (l.take i) (d.take i)
    set b := posF (l.drop (i + 1)) (d.drop (i + 1))
    set v := posC rest u
    have hin : InShape (posF (l.set i n2) d :: u) out.shape := by
      rw [ho1]; exact List.Forall₂.cons (posF_lt hd) hu'
    have hst : a * Q + v < A * Q := by
      have : (a + 1) * Q ≤ A * Q := Nat.mul_le_mul_right _ hpA
      rw [Nat.add_mul] at this; omega
    have hposd : posF (l.set i n2) d = a + A * (d.getD i 0 + n2 * b) := by
      have := posF_set l d i (d.getD i 0) n2 hi hdl
      rwa [set_getD_self d i (by omega)] at this
    have hin3 : InShape [b, d.getD i 0, a * Q + v] [B, n2, A * Q] :=
      List.Forall₂.cons hpB (List.Forall₂.cons hdi (List.Forall₂.cons hst List.Forall₂.nil))
    have hflat : posC out.shape (posF (l.set i n2) d :: u) = posC [B, n2, A * Q] [b, d.getD i 0, a * Q + v] := by
      rw [ho1]
      have : posC ((l.set i n2).prod :: rest) (posF (l.set i n2) d :: u) = posF (l.set i n2) d * Q + v := rfl
      rw [this, hposd]
      simp only [posC, List.prod_cons, List.prod_nil]
      ring
    rw [← out.flat_posC hin, hflat, ho3 _ (by rw [h3s]; exact posC_lt hin3), ← h3s,
      Nd.flat_posC _ (by rw [h3s]; exact hin3)]
    simp only [Nd.transpose, ht2d]
    simp only [List.length_cons, List.length_nil, hu, h11]
    have e3 : (List.range (0 + 1 + 1 + 1)).map (fun j => [b, d.getD i 0, a * Q + v].getD (List.idxOf j [1, 0, 2]) 0) =
        [d.getD i 0, b, a * Q + v] := rfl
    rw [e3]
    apply Finset.sum_congr rfl
    intro c hc
    have hc' : c < n := Finset.mem_range.mp hc
    have e4 : (List.range (0 + 1 + 1)).map (fun j => [[d.getD i 0, b, a * Q + v].getD 0 0, c].getD (List.idxOf j [1, 0]) 0) =
        [c, d.getD i 0] := rfl
    have e5 : (List.range (0 + 1 + 1 + 1)).map
        (fun j => (c :: List.drop 1 [d.getD i 0, b, a * Q + v]).getD (List.idxOf j [1, 0, 2]) 0) =
        [b, c, a * Q + v] := rfl
    rw [e4, e5]
    congr 1
    have hin1 : InShape [b, c, a * Q + v] t1.shape := by
      rw [h11]
      exact List.Forall₂.cons hpB (List.Forall₂.cons hc' (List.Forall₂.cons hst List.Forall₂.nil))
    have hdc : InShape (d.set i c) l := by
      have := Bigdim.inShape_set hd i c n hc'
      rwa [List.set_set, set_getD_self l i hi] at this
    have hin0 : InShape (posF l (d.set i c) :: u) target.shape := by
      rw [ht]; exact List.Forall₂.cons (posF_lt hdc) hu'
    have hposl : posF l (d.set i c) = a + A * (c + n * b) := by
      have := posF_set l d i c n hi hdl
      rwa [set_getD_self l i hi] at this
    have e6 : posC target.shape (posF l (d.set i c) :: u) = posC t1.shape [b, c, a * Q + v] := by
      rw [ht, h11]
      have : posC (l.prod :: rest) (posF l (d.set i c) :: u) = posF l (d.set i c) * Q + v := rfl
      rw [this, hposl]
      simp only [posC, List.prod_cons, List.prod_nil]
      ring
    rw [← t1.flat_posC hin1, ← target.flat_posC hin0, e6]
    apply h13
    rw [← hresh, ← h11]
    exact posC_lt hin1

/-! ### moving the target axis to the front and back -/

theorem transpose_get (a : Nd R) (p t : List Nat) (hp : p.Perm (List.range a.shape.length))
    (ht : t.length = a.shape.length) :
    (a.transpose p).get (p.map (fun i => t.getD i 0)) = a.get t := by
  simp only [Nd.transpose]
  congr 1
  apply List.ext_getElem
  · simp [ht]
  · intro i h1 h2
    have hi : i < a.shape.length := by simpa using h1
    have hmem : i ∈ p := hp.mem_iff.mpr (List.mem_range.mpr hi)
    have hidx := List.idxOf_lt_length_of_mem hmem
    simp only [List.getElem_map, List.getElem_range]
    rw [List.getD_eq_getElem _ _ (by simpa using hidx)]
    simp only [List.getElem_map, List.getElem_idxOf]
    rw [List.getD_eq_getElem _ _ h2]

theorem argsort_idxOf (p : List Nat) (hp : p.Perm (List.range p.length)) (i : Nat) (hi : i < p.length) :
    (argsort p).idxOf i = p.getD i 0 := by
  have hnd : (argsort p).Nodup := (argsort_perm p).nodup_iff.mpr List.nodup_range
  have hlen : (argsort p).length = p.length := by simpa using (argsort_perm p).length_eq
  have hmem : i ∈ argsort p := (argsort_perm p).mem_iff.mpr (List.mem_range.mpr hi)
  have hidx := List.idxOf_lt_length_of_mem hmem
  have := argsort_inv p hp ((argsort p).idxOf i) (by omega)
  rw [List.getD_eq_getElem _ _ hidx, List.getElem_idxOf] at this
  exact this.symm

theorem transpose_back (b : Nd R) (p t : List Nat) (hp : p.Perm (List.range p.length))
    (hb : b.shape.length = p.length) :
    (b.transpose (argsort p)).get t = b.get (p.map (fun i => t.getD i 0)) := by
  simp only [Nd.transpose]
  congr 1
  apply List.ext_getElem
  · simp [hb]
  · intro i h1 h2
    have hi : i < p.length := by simpa using h2
    simp only [List.getElem_map, List.getElem_range]
    rw [argsort_idxOf p hp i hi, List.getD_eq_getElem _ _ hi]

theorem transpose_back_shape (b : Nd R) (p s : List Nat) (hp : p.Perm (List.range p.length))
    (hs : s.length = p.length) (hb : b.shape = p.map (fun i => s.getD i 0)) :
    (b.transpose (argsort p)).shape = s := by
  simp only [Nd.transpose, hb]
  have hlen : (argsort p).length = p.length := by simpa using (argsort_perm p).length_eq
  apply List.ext_getElem
  · simp [hlen, hs]
  · intro i h1 h2
    simp only [List.getElem_map]
    have hi : i < (argsort p).length := by simpa using h1
    have hlt : (argsort p)[i] < p.length :=
      List.mem_range.mp ((argsort_perm p).mem_iff.mp (List.getElem_mem hi))
    have := argsort_inv p hp i (by omega)
    rw [List.getD_eq_getElem _ _ hi, List.getD_eq_getElem _ _ hlt] at this
    rw [List.getD_eq_getElem _ _ (by simpa using hlt)]
    simp only [List.getElem_map, this]
    rw [List.getD_eq_getElem _ _ h2]

/-- the axis order used by the code -/
def newaxes (n axis : Nat) : List Nat := [axis] ++ List.range axis ++ (List.range n).drop (axis + 1)

theorem newaxes_map (n axis : Nat) (t : List Nat) (h : axis < n) (ht : t.length = n) :
    (newaxes n axis).map (fun i => t.getD i 0) = t.getD axis 0 :: t.eraseIdx axis := by
  unfold newaxes
  simp only [List.cons_append, List.nil_append, List.map_cons, List.map_append]
  congr 1
  rw [List.eraseIdx_eq_take_drop_succ]
  congr 1
  · apply List.ext_getElem
    · simp; omega
    · intro i h1 h2
      have : i < t.length := by simp at h1; omega
      simp [this]
  · apply List.ext_getElem
    · simp [ht]
    · intro i h1 h2
      have : axis + 1 + i < t.length := by simp at h2; omega
      simp [this]

theorem newaxes_perm (n axis : Nat) (h : axis < n) : (newaxes n axis).Perm (List.range n) := by
  have e : List.range n = List.range axis ++ axis :: (List.range n).drop (axis + 1) := by
    apply List.ext_getElem
    · simp; omega
    · intro i h1 h2
      rw [List.getElem_append]
      split
      · simp
      · rename_i hge
        simp only [List.length_range] at hge
        rw [List.getElem_cons]
        split
        · simp; simp at *; omega
        · rename_i hne
          simp only [List.length_range] at hne
          simp only [List.getElem_drop, List.getElem_range, List.length_range]
          omega
  conv_rhs => rw [e]
  unfold newaxes
  simp only [List.cons_append, List.nil_append]
  exact List.perm_middle.symm

theorem newaxes_length (n axis : Nat) (h : axis < n) : (newaxes n axis).length = n := by
  simpa using (newaxes_perm n axis h).length_eq

end Verif.Umat
