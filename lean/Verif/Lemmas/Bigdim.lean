import Verif.Model.Bigdim
import Verif.Lemmas.Np
import Mathlib.Algebra.BigOperators.Group.List.Lemmas
import Mathlib.Data.List.NodupEquivFin
namespace Verif.Bigdim
open Verif.Spec Verif.Np Verif.Radix

variable {R : Type}

theorem transpose0213 (a : Nd R) (p q r s x y z w : Nat) (hs : a.shape = [p, q, r, s])
    (hx : x < p) (hy : y < q) (hz : z < r) (hw : w < s) :
    (a.transpose [0, 2, 1, 3]).shape = [p, r, q, s] ∧
    (a.transpose [0, 2, 1, 3]).flat (((x * r + z) * q + y) * s + w) = a.flat (((x * q + y) * r + z) * s + w) := by
  have hsh : (a.transpose [0, 2, 1, 3]).shape = [p, r, q, s] := by simp [Nd.transpose, hs]
  refine ⟨hsh, ?_⟩
  have e1 : ((x * r + z) * q + y) * s + w = posC [p, r, q, s] [x, z, y, w] := by
    simp [posC]; ring
  have e2 : ((x * q + y) * r + z) * s + w = posC [p, q, r, s] [x, y, z, w] := by
    simp [posC]; ring
  have i1 : InShape [x, z, y, w] [p, r, q, s] := by simp [InShape, hx, hy, hz, hw]
  have i2 : InShape [x, y, z, w] [p, q, r, s] := by simp [InShape, hx, hy, hz, hw]
  rw [e1, e2, ← hsh, Nd.flat_posC _ (by rw [hsh]; exact i1), ← hs, Nd.flat_posC _ (by rw [hs]; exact i2)]
  simp only [Nd.transpose, hs]
  rfl

/-- overwrite the positions in `D` -/
def mask (d : Nat) (D l : List Nat) : List Nat := D.foldl (fun l i => l.set i d) l

theorem mask_length (d : Nat) (D l : List Nat) : (mask d D l).length = l.length := by
  induction D generalizing l with
  | nil => rfl
  | cons i D ih => simp only [mask, List.foldl_cons]; rw [← mask, ih]; simp

theorem set_split (l : List Nat) (i d : Nat) (h : i < l.length) :
    l = l.take i ++ l.getD i 0 :: l.drop (i + 1) ∧ l.set i d = l.take i ++ d :: l.drop (i + 1) := by
  constructor
  · rw [List.getD_eq_getElem _ _ h, List.cons_getElem_drop_succ, List.take_append_drop]
  · rw [List.set_eq_take_append_cons_drop, if_pos h]

theorem inShape_set {t sh : List Nat} (h : InShape t sh) (i d e : Nat) (hd : d < e) :
    InShape (t.set i d) (sh.set i e) := by
  induction h generalizing i with
  | nil => simp [InShape]
  | cons h1 h2 ih =>
    cases i with
    | zero => exact List.Forall₂.cons hd h2
    | succ i => exact List.Forall₂.cons h1 (ih i)

theorem map_set_of_notMem (rest l : List Nat) (i d : Nat) (h : i ∉ rest) :
    rest.map (fun j => (l.set i d).getD j 0) = rest.map (fun j => l.getD j 0) := by
  apply List.map_congr_left
  intro j hj
  have : i ≠ j := by rintro rfl; exact h hj
  simp [List.getD_eq_getElem?_getD, List.getElem?_set_ne this]

theorem loop (rest : List Nat) : ∀ (a : Nd R) (ds sh : List Nat), rest.Nodup → (∀ i ∈ rest, i < sh.length) →
    a.shape.prod = ds.prod * sh.prod → 0 < ds.prod → 0 < sh.prod →
    ∃ a', rest.foldl step (some (a, ds.prod, sh)) =
        some (a', (ds ++ rest.map (fun j => sh.getD j 0)).prod, mask 1 rest sh) ∧
      a'.shape.prod = a.shape.prod ∧
      (ds ++ rest.map (fun j => sh.getD j 0)).prod * (mask 1 rest sh).prod = ds.prod * sh.prod ∧
      ∀ es t, InShape es ds → InShape t sh →
        InShape (es ++ rest.map (fun j => t.getD j 0) ++ mask 0 rest t)
          (ds ++ rest.map (fun j => sh.getD j 0) ++ mask 1 rest sh) ∧
        a'.flat (posC (ds ++ rest.map (fun j => sh.getD j 0) ++ mask 1 rest sh)
            (es ++ rest.map (fun j => t.getD j 0) ++ mask 0 rest t)) = a.flat (posC (ds ++ sh) (es ++ t)) := by
  induction rest with
  | nil =>
    intro a ds sh _ _ hp h1 h2
    refine ⟨a, by simp [mask], rfl, by simp [mask], ?_⟩
    intro es t he ht
    simp only [List.map_nil, List.append_nil, mask, List.foldl_nil]
    exact ⟨inShape_append he ht, trivial⟩
  | cons i rest ih =>
    intro a ds sh hnd hlt hp h1 h2
    rw [List.nodup_cons] at hnd
    have hi : i < sh.length := hlt i (by simp)
    have ⟨hsp, hset⟩ := set_split sh i 1 hi
    set L := sh.take i with hL
    set r := sh.getD i 0 with hr
    set Rr := sh.drop (i + 1) with hR
    have hLlen : L.length = i := by rw [hL, List.length_take]; omega
    have hshp : sh.prod = L.prod * (r * Rr.prod) := by
      conv_lhs => rw [hsp]
      rw [List.prod_append, List.prod_cons]
    have hLp : 0 < L.prod := by
      rw [hshp] at h2; exact Nat.pos_of_mul_pos_right h2
    have hrR : 0 < r * Rr.prod := by
      rw [hshp] at h2; exact Nat.pos_of_mul_pos_left h2
    have hrp : 0 < r := Nat.pos_of_mul_pos_right hrR
    have hRp : 0 < Rr.prod := Nat.pos_of_mul_pos_left hrR
    have hq : (sh.take (i + 1)).prod / r = L.prod := by
      have : sh.take (i + 1) = L ++ [r] := by
        rw [List.take_succ_eq_append_getElem hi, hr, List.getD_eq_getElem _ _ hi]
      rw [this, List.prod_append, List.prod_singleton, Nat.mul_div_cancel _ hrp]
    have hpqr : ds.prod * L.prod * r ≠ 0 := by positivity
    have hsz : a.size / (ds.prod * L.prod * r) = Rr.prod := by
      rw [Nd.size, hp, hshp, show ds.prod * (L.prod * (r * Rr.prod)) = ds.prod * L.prod * r * Rr.prod by ring,
        Nat.mul_div_cancel_left _ (by positivity)]
    have hrs : ([ds.prod, L.prod, r, Rr.prod] : List Nat).prod = a.shape.prod := by
      rw [hp, hshp]; simp only [List.prod_cons, List.prod_nil]; ring
    obtain ⟨b, hb⟩ := a.reshape_some _ hrs
    obtain ⟨hb1, -, hb3⟩ := Nd.reshape_flat hb
    have hstep : step (some (a, ds.prod, sh)) i = some (b.transpose [0, 2, 1, 3], ds.prod * r, sh.set i 1) := by
      unfold step
      simp only [Option.bind_some, ← hr, hq, hsz]
      rw [if_neg hpqr, hb]
      rfl
    have htr := fun x y z w => transpose0213 b ds.prod L.prod r Rr.prod x y z w hb1
    have hbs : (b.transpose [0, 2, 1, 3]).shape = [ds.prod, r, L.prod, Rr.prod] := (htr 0 0 0 0 h1 hLp hrp hRp).1
    have hsetp : (sh.set i 1).prod = L.prod * Rr.prod := by
      rw [hset, List.prod_append, List.prod_cons, Nat.one_mul]
    obtain ⟨a', e1, e2, e3, e4⟩ := ih (b.transpose [0, 2, 1, 3]) (ds ++ [r]) (sh.set i 1) hnd.2
      (fun j hj => by rw [List.length_set]; exact hlt j (by simp [hj]))
      (by rw [hbs, hsetp]; simp only [List.prod_cons, List.prod_nil, List.prod_append]; ring)
      (by rw [List.prod_append, List.prod_singleton]; positivity)
      (by rw [hsetp]; positivity)
    have hmapsh : rest.map (fun j => (sh.set i 1).getD j 0) = rest.map (fun j => sh.getD j 0) :=
      map_set_of_notMem rest sh i 1 hnd.1
    rw [hmapsh] at e1 e3 e4
    have hmk : ∀ d l, mask d (i :: rest) l = mask d rest (l.set i d) := fun _ _ => rfl
    have hassoc : ∀ (u v : List Nat) (x : Nat), u ++ [x] ++ v = u ++ x :: v := by simp
    refine ⟨a', ?_, ?_, ?_, ?_⟩
    · rw [List.foldl_cons, hstep, hmk, List.map_cons, ← hassoc, ← e1, List.prod_append, List.prod_singleton]
    · rw [e2, hbs, hp, hshp]; simp only [List.prod_cons, List.prod_nil]; ring
    · rw [hmk, List.map_cons, ← hassoc, e3, hsetp, hshp, List.prod_append, List.prod_singleton]; ring
    · intro es t he ht
      have htl : t.length = sh.length := inShape_length ht
      have hit : i < t.length := by omega
      have ⟨htsp, htset⟩ := set_split t i 0 hit
      have hxi : t.getD i 0 < r := ((inShape_iff t sh).mp ht).2 i hi
      have he' : InShape (es ++ [t.getD i 0]) (ds ++ [r]) :=
        inShape_append he (List.Forall₂.cons hxi List.Forall₂.nil)
      have := e4 (es ++ [t.getD i 0]) (t.set i 0) he' (inShape_set ht i 0 1 (by omega))
      rw [map_set_of_notMem rest t i 0 hnd.1] at this
      rw [hmk, hmk, List.map_cons, List.map_cons, ← hassoc es _ (t.getD i 0), ← hassoc ds _ (sh.getD i 0)]
      refine ⟨this.1, ?_⟩
      rw [this.2]
      -- the positions
      have hlen := inShape_length he
      have htake : InShape (t.take i) L := List.forall₂_take i ht
      have hdrop : InShape (t.drop (i + 1)) Rr := List.forall₂_drop (i + 1) ht
      have hl2 := inShape_length htake
      have p1 : posC (ds ++ [r] ++ sh.set i 1) (es ++ [t.getD i 0] ++ t.set i 0) =
          ((posC ds es * r + t.getD i 0) * L.prod + posC L (t.take i)) * Rr.prod + posC Rr (t.drop (i + 1)) := by
        rw [hset, htset, posC_append _ _ _ _ (by simp [hlen]), posC_append ds _ es _ hlen,
          posC_append L _ _ _ hl2]
        simp only [posC, List.prod_cons, List.prod_append, List.prod_nil]
        ring
      have p2 : posC (ds ++ sh) (es ++ t) =
          ((posC ds es * L.prod + posC L (t.take i)) * r + t.getD i 0) * Rr.prod + posC Rr (t.drop (i + 1)) := by
        conv_lhs => rw [hsp, htsp]
        rw [posC_append ds _ es _ hlen, posC_append L _ _ _ hl2]
        simp only [posC, List.prod_cons, List.prod_append]
        ring
      rw [p1, p2, (htr _ _ _ _ (posC_lt he) (posC_lt htake) hxi (posC_lt hdrop)).2, ← p2]
      apply hb3
      rw [hp]
      have := posC_lt (inShape_append he ht)
      rw [List.prod_append] at this
      exact this

theorem flattenC_get (a : Nd R) (k : Nat) : a.flattenC.get [k] = a.flat k := rfl

theorem flattenC_flat (a : Nd R) (k : Nat) (h : k < a.shape.prod) : a.flattenC.flat k = a.flat k := by
  have h2 : InShape [k] a.flattenC.shape := by simp [InShape, Nd.flattenC, h]
  have := Nd.flat_posC a.flattenC h2
  simp only [Nd.flattenC, posC, List.prod_nil, Nat.mul_one, Nat.add_zero] at this
  exact this

theorem flattenF_flat (a : Nd R) (k : Nat) (h : k < a.shape.prod) :
    a.flattenF.flat k = a.flattenF.get [k] := by
  have h2 : InShape [k] a.flattenF.shape := by simp [InShape, Nd.flattenF, h]
  have := Nd.flat_posC a.flattenF h2
  simp only [Nd.flattenF, posC, List.prod_nil, Nat.mul_one, Nat.add_zero] at this
  exact this

theorem prod_perm (axes sh : List Nat) (h : axes.Perm (List.range sh.length)) :
    (axes.map (fun j => sh.getD j 0)).prod = sh.prod := by
  rw [(h.map _).prod_eq]
  congr 1
  apply List.ext_getElem
  · simp
  · intro i h1 h2
    simp [h2]

/-- the loop on a permutation of all axes -/
theorem loop_all (a : Nd R) (axes sh : List Nat) (h : axes.Perm (List.range sh.length))
    (hp : a.shape.prod = sh.prod) (hpos : 0 < sh.prod) :
    ∃ a' p sh', axes.foldl step (some (a, 1, sh)) = some (a', p, sh') ∧ a'.shape.prod = sh.prod ∧
      ∀ t, InShape t sh →
        a'.flat (posC (axes.map (fun j => sh.getD j 0)) (axes.map (fun j => t.getD j 0))) = a.flat (posC sh t) := by
  have hnd : axes.Nodup := h.nodup_iff.mpr List.nodup_range
  have hlt : ∀ i ∈ axes, i < sh.length := fun i hi => List.mem_range.mp (h.mem_iff.mp hi)
  obtain ⟨a', e1, e2, e3, e4⟩ := loop axes a [] sh hnd hlt (by simp [hp]) (by simp) hpos
  simp only [List.nil_append, List.prod_nil, Nat.one_mul] at e1 e3
  refine ⟨a', _, _, e1, by rw [e2, hp], ?_⟩
  intro t ht
  obtain ⟨i1, i2⟩ := e4 [] t (by simp [InShape]) ht
  simp only [List.nil_append] at i1 i2
  rw [← i2]
  congr 1
  have hmp : (mask 1 axes sh).prod = 1 := by
    rw [prod_perm axes sh h] at e3
    exact Nat.eq_of_mul_eq_mul_left hpos (by rw [e3, Nat.mul_one])
  rw [posC_append _ _ _ _ (by simp), hmp, Nat.mul_one]
  have hz : posC (mask 1 axes sh) (mask 0 axes t) = 0 := by
    have hin : InShape (mask 0 axes t) (mask 1 axes sh) := by
      have : ∀ (D : List Nat) (t sh : List Nat), InShape t sh → InShape (mask 0 D t) (mask 1 D sh) := by
        intro D
        induction D with
        | nil => intro t sh h; exact h
        | cons i D ih => intro t sh h; exact ih _ _ (inShape_set h i 0 1 (by omega))
      exact this axes t sh ht
    have := posC_lt hin
    omega
  rw [hz, Nat.add_zero]

end Verif.Bigdim
