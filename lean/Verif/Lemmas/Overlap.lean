import Verif.Model.Overlap
import Verif.Lemmas.KernFin
import Verif.Lemmas.Rotate
/-!
# The overlap matrix
-/
namespace Verif.Lstdm
open Verif.Spec Verif.Addr Verif.Exc Verif.Signs Verif.Spec.Tdm Verif.Spec.Lstdm Verif.Radix Verif.Tdm Verif.Np Verif.Umat Verif.Spec.Rotate
open Verif.Props (stateIndex_lt)

namespace Kern

/-! ### Pairs with equal numbers of electrons -/

theorem nop_cons (a : Int × Int) (h : List (Int × Int)) : nop (a :: h) = a.1.natAbs + a.2.natAbs + nop h := by
  unfold nop nsop
  simp only [List.map_cons, List.sum_cons]
  omega

theorem nop_hopping (a b : List (Int × Int)) (h : a.length = b.length) : nop (hopping a b) = 0 ↔ a = b := by
  induction a generalizing b with
  | nil => cases b <;> simp [hopping, nop, nsop] at *
  | cons x a ih =>
    cases b with
    | nil => simp at h
    | cons y b =>
      have : hopping (x :: a) (y :: b) = (x.1 - y.1, x.2 - y.2) :: hopping a b := rfl
      rw [this, nop_cons, List.cons.injEq, ← ih b (by simpa using h), Prod.ext_iff]
      dsimp only
      omega

theorem isCoupled_self (a : List (Int × Int)) : SC.isCoupled a a = true := by
  unfold SC.isCoupled
  rw [SC.acc_eq]
  have h : ∀ p ∈ a.zip a, p.1 = p.2 := by
    intro p hp
    obtain ⟨i, hi, rfl⟩ := List.getElem_of_mem hp
    simp
  have h1 : (a.zip a).map (fun p => p.1.1 - p.2.1) = (a.zip a).map (fun _ => (0 : Int)) := List.map_congr_left fun p hp => by rw [h p hp]; simp
  have h2 : (a.zip a).map (fun p => p.1.2 - p.2.2) = (a.zip a).map (fun _ => (0 : Int)) := List.map_congr_left fun p hp => by rw [h p hp]; simp
  have h3 : (a.zip a).map (fun p => (p.1.1 - p.2.1).natAbs + (p.1.2 - p.2.2).natAbs) = (a.zip a).map (fun _ => (0 : Nat)) :=
    List.map_congr_left fun p hp => by rw [h p hp]; simp
  rw [h1, h2, h3]
  simp

variable {K : Type} {k : Kern K}

theorem nelecI_inj (r r' : Nat) : k.nelecI.getD r [] = k.nelecI.getD r' [] ↔ k.nelec.getD r [] = k.nelec.getD r' [] := by
  have : ∀ r, k.nelecI.getD r [] = (k.nelec.getD r []).map (fun p => ((p.1 : Int), (p.2 : Int))) := by
    intro r
    unfold nelecI
    rw [List.getD_eq_getElem?_getD, List.getElem?_map, List.getD_eq_getElem?_getD]
    cases k.nelec[r]? <;> simp
  rw [this, this]
  constructor
  · intro h
    exact List.map_injective_iff.mpr (fun a b h => by simpa [Prod.ext_iff] using h) h
  · intro h; rw [h]

theorem mem_excNull (hK : Consistent k) (p : Nat × Nat) : p ∈ k.excNull ↔ p.1 < k.cols.length ∧ p.2 < k.cols.length ∧ p.2 ≤ p.1 ∧
    k.nelec.getD p.1 [] = k.nelec.getD p.2 [] ∧ k.allowed p = true := by
  have hlen : ∀ r < k.cols.length, (k.nelecI.getD r []).length = k.nlas.length := fun r hr => by rw [nelecI_len, hK.nelec_len r hr]
  unfold excNull table
  rw [← nelecI_inj, List.mem_map]
  constructor
  · rintro ⟨y, hy, rfl⟩
    obtain ⟨q, hq, hm⟩ := List.mem_flatMap.mp hy
    obtain ⟨x, hx, rfl⟩ := List.mem_map.mp hm
    obtain ⟨h1, h2, h3, h4⟩ := (mem_scai q).mp hq
    refine ⟨h1, h2, h3, ?_, h4⟩
    unfold rowNull at hx
    split at hx
    · rename_i h
      exact (nop_hopping _ _ ((hlen _ h1).trans (hlen _ h2).symm)).mp (by simpa using h)
    · simp at hx
  · rintro ⟨h1, h2, h3, h4, h5⟩
    refine ⟨(p, .null), List.mem_flatMap.mpr ⟨p, (mem_scai p).mpr ⟨h1, h2, h3, h5⟩, List.mem_map.mpr ⟨.null, ?_, rfl⟩⟩, rfl⟩
    · unfold rowNull
      rw [if_pos (by simpa using (nop_hopping _ _ ((hlen _ h1).trans (hlen _ h2).symm)).mpr h4)]
      simp

/-! ### Offsets -/

theorem blockAt_eq (cols : List (List Nat)) (i : Nat) (hi : i < cols.length) : blockAt cols i = (off cols i, off cols i + (cols.getD i []).prod) := by
  have h1 : (npCumsum (cols.map List.prod)).getD i 0 = off cols i + (cols.getD i []).prod := by
    rw [npCumsum_getD _ _ (by simpa using hi), ← List.map_take]
    exact off_succ cols i hi
  have h2 : (cols.map List.prod).getD i 0 = (cols.getD i []).prod := by
    rw [List.getD_eq_getElem _ _ (by simpa using hi), List.getElem_map, List.getD_eq_getElem _ _ hi]
  unfold blockAt
  rw [h1, h2, Nat.add_sub_cancel]

theorem block_unique (cols : List (List Nat)) (i j x : Nat) (hi : i < cols.length) (hj : j < cols.length)
    (h1 : off cols i ≤ x) (h2 : x < off cols i + (cols.getD i []).prod) (h3 : off cols j ≤ x) (h4 : x < off cols j + (cols.getD j []).prod) : i = j := by
  rw [← off_succ cols i hi] at h2
  rw [← off_succ cols j hj] at h4
  rcases Nat.lt_trichotomy i j with h | h | h
  · have := off_mono cols (show i + 1 ≤ j by omega) (by omega); omega
  · exact h
  · have := off_mono cols (show j + 1 ≤ i by omega) (by omega); omega

/-- The rootspace at a position of the selection. -/
def sel (rootidx : Option (List Nat)) (i : Nat) : Nat :=
  match rootidx with
  | none => i
  | some l => l.getD i 0

/-- A selection of different rootspaces. -/
def SelOk (k : Kern K) : Option (List Nat) → Prop
  | none => True
  | some l => l.Nodup ∧ ∀ r ∈ l, r < k.cols.length

theorem selCols_getD (ri : Option (List Nat)) (i : Nat) (hi : i < (k.selCols ri).length) :
    (k.selCols ri).getD i [] = k.cols.getD (sel ri i) [] := by
  cases ri with
  | none => rfl
  | some l =>
    have hi : i < l.length := by simpa [selCols] using hi
    unfold selCols sel
    dsimp only
    rw [List.getD_eq_getElem _ _ (by simpa using hi), List.getElem_map, List.getD_eq_getElem l _ hi]

theorem sel_lt (ri : Option (List Nat)) (hs : k.SelOk ri) (i : Nat) (hi : i < (k.selCols ri).length) : sel ri i < k.cols.length := by
  cases ri with
  | none => exact hi
  | some l =>
    have hi : i < l.length := by simpa [selCols] using hi
    unfold sel
    dsimp only
    rw [List.getD_eq_getElem _ _ hi]
    exact hs.2 _ (List.getElem_mem _)

theorem sel_inj (ri : Option (List Nat)) (hs : k.SelOk ri) (i j : Nat) (hi : i < (k.selCols ri).length) (hj : j < (k.selCols ri).length)
    (h : sel ri i = sel ri j) : i = j := by
  cases ri with
  | none => exact h
  | some l =>
    have hi : i < l.length := by simpa [selCols] using hi
    have hj : j < l.length := by simpa [selCols] using hj
    unfold sel at h
    dsimp only at h
    rw [List.getD_eq_getElem _ _ hi, List.getD_eq_getElem _ _ hj] at h
    exact (hs.1.getElem_inj_iff).mp h

theorem foldl_last (l : List Nat) (hn : l.Nodup) (b : Nat → Nat × Nat) (i : Nat) (hi : i < l.length) (n : Nat) (hn' : n ≤ l.length) (o : Nat × Nat) :
    (List.range n).foldl (fun o j => if l.getD j 0 = l.getD i 0 then b j else o) o = if i < n then b i else o := by
  induction n with
  | zero => simp
  | succ n ih =>
    rw [List.range_succ, List.foldl_append, ih (by omega), List.foldl_cons, List.foldl_nil]
    by_cases h : n = i
    · subst h; simp
    · rw [if_neg]
      · by_cases h2 : i < n
        · rw [if_pos h2, if_pos (by omega)]
        · rw [if_neg h2, if_neg (by omega)]
      · rw [List.getD_eq_getElem _ _ (show n < l.length by omega), List.getD_eq_getElem _ _ hi]
        exact fun e => h ((hn.getElem_inj_iff).mp e)

theorem selOffs_eq (ri : Option (List Nat)) (hs : k.SelOk ri) (i : Nat) (hi : i < (k.selCols ri).length) :
    k.selOffs ri (sel ri i) = (off (k.selCols ri) i, off (k.selCols ri) i + ((k.selCols ri).getD i []).prod) := by
  rw [← blockAt_eq _ _ hi]
  cases ri with
  | none => rfl
  | some l =>
    have hi' : i < l.length := by simpa [selCols] using hi
    unfold selOffs sel
    dsimp only
    rw [foldl_last l hs.1 _ i hi' _ (Nat.le_refl _), if_pos hi']

theorem mem_selNull (hK : Consistent k) (ri : Option (List Nat)) (hs : k.SelOk ri) (p : Nat × Nat) :
    p ∈ k.selNull ri ↔ (∃ i < (k.selCols ri).length, p.1 = sel ri i) ∧ (∃ j < (k.selCols ri).length, p.2 = sel ri j) ∧ p.2 ≤ p.1 ∧
      k.nelec.getD p.1 [] = k.nelec.getD p.2 [] ∧ k.allowed p = true := by
  cases ri with
  | none =>
    rw [show k.selNull none = k.excNull from rfl, mem_excNull hK]
    constructor
    · rintro ⟨h1, h2, h3⟩; exact ⟨⟨_, h1, rfl⟩, ⟨_, h2, rfl⟩, h3⟩
    · rintro ⟨⟨i, h1, e1⟩, ⟨j, h2, e2⟩, h3⟩
      exact ⟨e1 ▸ h1, e2 ▸ h2, h3⟩
  | some l =>
    have hm : ∀ r, r ∈ l ↔ ∃ i < (k.selCols (some l)).length, r = sel (some l) i := by
      intro r
      unfold selCols sel
      simp only [List.length_map]
      constructor
      · intro h
        obtain ⟨i, hi, rfl⟩ := List.getElem_of_mem h
        exact ⟨i, hi, by rw [List.getD_eq_getElem _ _ hi]⟩
      · rintro ⟨i, hi, rfl⟩
        rw [List.getD_eq_getElem _ _ hi]; exact List.getElem_mem _
    rw [show k.selNull (some l) = k.excNull.filter (fun p => l.contains p.1 && l.contains p.2) from rfl, List.mem_filter, mem_excNull hK,
      ← hm, ← hm]
    simp only [Bool.and_eq_true, List.contains_iff_mem]
    constructor
    · rintro ⟨⟨_, _, h3⟩, h4, h5⟩; exact ⟨h4, h5, h3⟩
    · rintro ⟨h4, h5, h3⟩; exact ⟨⟨hs.2 _ h4, hs.2 _ h5, h3⟩, h4, h5⟩

/-! ### One block -/

theorem digits_append (c c' : List Nat) (x : Nat) : digits (c ++ c') x = digits c x ++ digits c' (x / c.prod) := by
  induction c generalizing x with
  | nil => simp [digits]
  | cons n c ih => simp [digits, ih, Nat.div_div_eq_div_mul]

variable [Field K]

theorem crunch_fold (X Y : Nat) (S : List Nat) (o : Nat × Nat × (Nat → Nat → K)) :
    (S.reverse.foldl (fun o f => kron1 o (k.ovlpMat f X Y)) o).1 = o.1 * (k.colOf S X).prod ∧
    (S.reverse.foldl (fun o f => kron1 o (k.ovlpMat f X Y)) o).2.1 = o.2.1 * (k.colOf S Y).prod ∧
    ∀ x y, (S.reverse.foldl (fun o f => kron1 o (k.ovlpMat f X Y)) o).2.2 x y =
      o.2.2 (x / (k.colOf S X).prod) (y / (k.colOf S Y).prod) *
        ∏ i ∈ Finset.range S.length, k.ovf X Y (S.getD i 0) ((digits (k.colOf S X) x).getD i 0) ((digits (k.colOf S Y) y).getD i 0) := by
  induction S with
  | nil => simp [colOf]
  | cons f S ih =>
    obtain ⟨i1, i2, i3⟩ := ih
    rw [List.reverse_cons, List.foldl_append, List.foldl_cons, List.foldl_nil]
    rw [show ∀ a b : Nat × Nat × (Nat → Nat → K), kron1 a b = (a.1 * b.1, a.2.1 * b.2.1, fun x y =>
      a.2.2 (x / b.1) (y / b.2.1) * b.2.2 (x % b.1) (y % b.2.1)) from fun a b => rfl]
    have hc : ∀ r, k.colOf (f :: S) r = k.lr r f :: k.colOf S r := fun r => rfl
    have hM : k.ovlpMat f X Y = (k.lr X f, k.lr Y f, fun a b => k.ovf X Y f a b) := rfl
    rw [hM]
    dsimp only
    rw [i1, i2, hc, hc, List.prod_cons, List.prod_cons]
    refine ⟨by ring, by ring, fun x y => ?_⟩
    rw [i3, List.length_cons, Finset.prod_range_succ']
    simp only [digits, List.getD_cons_succ, List.getD_cons_zero, Nat.div_div_eq_div_mul]
    ring

theorem range_getD' (n i : Nat) (h : i < n) : (List.range n).getD i 0 = i := by simp [h]

theorem crunchOvlp_eq (hK : Consistent k) (h0 : k.nlas.length ≠ 0) (X Y : Nat) (hX : X < k.cols.length) (hY : Y < k.cols.length)
    (hn : k.nelec.getD X [] = k.nelec.getD Y []) :
    ∃ o, k.crunchOvlp X Y = some o ∧ o.1 = (k.cols.getD X []).prod ∧ o.2.1 = (k.cols.getD Y []).prod ∧
      ∀ d d', InShape d (k.cols.getD X []) → InShape d' (k.cols.getD Y []) →
        o.2.2 (posF (k.cols.getD X []) d) (posF (k.cols.getD Y []) d') =
          (∏ f ∈ Finset.range k.nlas.length, k.ovf X Y f (d.getD f 0) (d'.getD f 0)) / (1 + if X = Y then 1 else 0) := by
  have hC := cols_of hK
  obtain ⟨m, hm⟩ : ∃ m, k.nlas.length = m + 1 := ⟨k.nlas.length - 1, by omega⟩
  have hcol : ∀ r < k.cols.length, k.cols.getD r [] = k.colOf (List.range m) r ++ [k.lr r m] := by
    intro r hr
    apply List.ext_getElem
    · rw [hC.len r hr]; simp [colOf, hm]
    · intro i h1 h2
      rw [hC.len r hr, hm] at h1
      by_cases hi : i < m
      · rw [List.getElem_append_left (by simpa [colOf] using hi)]
        simp only [colOf, List.getElem_map, List.getElem_range]
        unfold lr
        exact (List.getD_eq_getElem _ _ (by rw [hC.len r hr]; omega)).symm
      · obtain rfl : i = m := by omega
        rw [List.getElem_append_right (by simp [colOf])]
        simp only [List.getElem_singleton]
        unfold lr
        exact (List.getD_eq_getElem _ _ (by rw [hC.len r hr]; omega)).symm
  obtain ⟨e, he, hes⟩ := spinShuffle_sg (K := K) ((k.nelec.getD X []).map Prod.fst) ((k.nelec.getD X []).map Prod.snd) (by simp)
  have he1 : (e : K) * e = 1 := by rw [hes, ← sg_add, ← two_mul, show (2 : ZMod 2) = 0 from by decide, zero_mul]; simp [sg]
  obtain ⟨q1, q2, q3⟩ := crunch_fold (k := k) X Y (List.range m)
    ((k.ovlpMat m X Y).1, (k.ovlpMat m X Y).2.1, fun x y => (k.ovlpMat m X Y).2.2 x y / (1 + if X = Y then 1 else 0))
  refine ⟨_, by unfold crunchOvlp; rw [if_neg h0, hm, Nat.add_sub_cancel]; dsimp only; rw [← hn, he]; rfl, ?_, ?_, ?_⟩
  · dsimp only
    rw [q1, hcol X hX, List.prod_append, Nat.mul_comm, List.prod_singleton]
    rfl
  · dsimp only
    rw [q2, hcol Y hY, List.prod_append, Nat.mul_comm, List.prod_singleton]
    rfl
  · intro d d' hd hd'
    dsimp only
    have key : ∀ r d, r < k.cols.length → InShape d (k.cols.getD r []) →
        posF (k.cols.getD r []) d / (k.colOf (List.range m) r).prod = d.getD m 0 ∧
        ∀ i < m, (digits (k.colOf (List.range m) r) (posF (k.cols.getD r []) d)).getD i 0 = d.getD i 0 := by
      intro r d hr hd
      have hdd := digits_posF hd
      have hlt := posF_lt hd
      generalize posF (k.cols.getD r []) d = x at hdd hlt ⊢
      rw [hcol r hr] at hdd hlt
      rw [List.prod_append, List.prod_singleton] at hlt
      rw [digits_append] at hdd
      have hl : (digits (k.colOf (List.range m) r) x).length = m := by rw [digits_length]; simp [colOf]
      constructor
      · rw [← hdd, List.getD_append_right _ _ _ _ (by omega), hl, Nat.sub_self]
        simp only [digits, List.getD_cons_zero]
        rw [Nat.mod_eq_of_lt (Nat.div_lt_of_lt_mul hlt)]
      · intro i hi
        rw [← hdd, List.getD_append _ _ _ _ (by omega)]
    obtain ⟨a1, a2⟩ := key X d hX hd
    obtain ⟨b1, b2⟩ := key Y d' hY hd'
    rw [q3, hm, Finset.prod_range_succ, a1, b1, mul_assoc, he1, mul_one, List.length_range]
    rw [Finset.prod_congr rfl (g := fun f => k.ovf X Y f (d.getD f 0) (d'.getD f 0))]
    · change k.ovf X Y m (d.getD m 0) (d'.getD m 0) / _ * _ = _
      ring
    · intro i hi
      have hi : i < m := by simpa using hi
      rw [a2 i hi, b2 i hi, range_getD' _ _ hi]

/-! ### All blocks -/

theorem blocks_fold (ri : Option (List Nat)) (L : List (Nat × Nat)) (O : Nat × Nat → Nat × Nat × (Nat → Nat → K))
    (hO : ∀ p ∈ L, k.crunchOvlp p.1 p.2 = some (O p))
    (hsh : ∀ p ∈ L, (O p).1 = (k.selOffs ri p.1).2 - (k.selOffs ri p.1).1 ∧ (O p).2.1 = (k.selOffs ri p.2).2 - (k.selOffs ri p.2).1)
    (acc : Nat → Nat → K) :
    ∃ out, L.foldlM (fun acc p => (k.crunchOvlp p.1 p.2).bind (fun o =>
        setBlock acc (k.selOffs ri p.1) (k.selOffs ri p.2) o)) acc = some out ∧
      ∀ X Y x y, (∀ p ∈ L, ((k.selOffs ri p.1).1 ≤ x ∧ x < (k.selOffs ri p.1).2 ↔ p.1 = X) ∧
          ((k.selOffs ri p.2).1 ≤ y ∧ y < (k.selOffs ri p.2).2 ↔ p.2 = Y)) →
        ((X, Y) ∈ L → out x y = (O (X, Y)).2.2 (x - (k.selOffs ri X).1) (y - (k.selOffs ri Y).1)) ∧
        ((X, Y) ∉ L → out x y = acc x y) := by
  induction L generalizing acc with
  | nil => exact ⟨acc, rfl, fun X Y x y _ => ⟨fun h => by simp at h, fun _ => rfl⟩⟩
  | cons p L ih =>
    obtain ⟨out, h1, h2⟩ := ih (fun q hq => hO q (by simp [hq])) (fun q hq => hsh q (by simp [hq]))
      (fun x y => if ((k.selOffs ri p.1).1 ≤ x ∧ x < (k.selOffs ri p.1).2) ∧ ((k.selOffs ri p.2).1 ≤ y ∧ y < (k.selOffs ri p.2).2)
        then (O p).2.2 (x - (k.selOffs ri p.1).1) (y - (k.selOffs ri p.2).1) else acc x y)
    refine ⟨out, ?_, fun X Y x y hxy => ?_⟩
    · rw [List.foldlM_cons, hO p (by simp), Option.bind_some]
      unfold setBlock
      rw [if_pos (hsh p (by simp))]
      exact h1
    · obtain ⟨g1, g2⟩ := h2 X Y x y (fun q hq => hxy q (by simp [hq]))
      obtain ⟨u1, u2⟩ := hxy p (by simp)
      by_cases hm : (X, Y) ∈ L
      · exact ⟨fun _ => g1 hm, fun h => absurd (List.mem_cons_of_mem _ hm) h⟩
      · have g := g2 hm
        simp only [u1, u2] at g
        refine ⟨fun h => ?_, fun h => ?_⟩
        · rcases List.mem_cons.mp h with h | h
          · rw [← h] at g
            simpa using g
          · exact absurd h hm
        · rw [if_neg] at g
          · exact g
          · rintro ⟨e1, e2⟩
            exact h (by rw [← e1, ← e2]; simp)

theorem ovlpBlocks_eq (hK : Consistent k) (h2 : (2 : K) ≠ 0) (h0 : k.nlas.length ≠ 0) (ri : Option (List Nat)) (hs : k.SelOk ri)
    (hsc : ∀ X < k.cols.length, ∀ Y < k.cols.length, k.nelec.getD X [] = k.nelec.getD Y [] → k.allowed (X, Y) = false →
      ∀ d d', InShape d (k.cols.getD X []) → InShape d' (k.cols.getD Y []) →
      ∏ f ∈ Finset.range k.nlas.length, k.ovf X Y f (d.getD f 0) (d'.getD f 0) = 0)
    (hsym2 : ∀ X < k.cols.length, ∀ Y < k.cols.length, k.nelec.getD X [] = k.nelec.getD Y [] → ∀ f < k.nlas.length, ∀ a < k.lr X f, ∀ b < k.lr Y f,
      k.ovf X Y f a b = k.ovf Y X f b a) :
    ∃ M, k.ovlpBlocks ri = some M ∧ ∀ i j d d', i < (k.selCols ri).length → j < (k.selCols ri).length →
      InShape d ((k.selCols ri).getD i []) → InShape d' ((k.selCols ri).getD j []) →
      M (stateIndex (k.selCols ri) i d) (stateIndex (k.selCols ri) j d') =
        if k.nelec.getD (sel ri i) [] = k.nelec.getD (sel ri j) [] then
          ∏ f ∈ Finset.range k.nlas.length, k.ovf (sel ri i) (sel ri j) f (d.getD f 0) (d'.getD f 0) else 0 := by
  have hC := cols_of hK
  have hex : ∀ p : Nat × Nat, ∃ o : Nat × Nat × (Nat → Nat → K), p ∈ k.selNull ri → k.crunchOvlp p.1 p.2 = some o ∧ o.1 = (k.cols.getD p.1 []).prod ∧ o.2.1 = (k.cols.getD p.2 []).prod ∧
      ∀ d d', InShape d (k.cols.getD p.1 []) → InShape d' (k.cols.getD p.2 []) →
        o.2.2 (posF (k.cols.getD p.1 []) d) (posF (k.cols.getD p.2 []) d') =
          (∏ f ∈ Finset.range k.nlas.length, k.ovf p.1 p.2 f (d.getD f 0) (d'.getD f 0)) / (1 + if p.1 = p.2 then 1 else 0) := by
    intro p
    by_cases hp : p ∈ k.selNull ri
    · obtain ⟨⟨i, hi, e1⟩, ⟨j, hj, e2⟩, _, hn, _⟩ := (mem_selNull hK ri hs p).mp hp
      obtain ⟨o, ho⟩ := crunchOvlp_eq hK h0 p.1 p.2 (e1 ▸ sel_lt ri hs i hi) (e2 ▸ sel_lt ri hs j hj) hn
      exact ⟨o, fun _ => ho⟩
    · exact ⟨(0, 0, fun _ _ => 0), fun h => absurd h hp⟩
  choose O hO using hex
  obtain ⟨out, e1, e2⟩ := blocks_fold ri (k.selNull ri) O (fun p hp => (hO p hp).1) (fun p hp => by
    obtain ⟨⟨i, hi, q1⟩, ⟨j, hj, q2⟩, _, _⟩ := (mem_selNull hK ri hs p).mp hp
    rw [(hO p hp).2.1, (hO p hp).2.2.1, q1, q2, selOffs_eq ri hs i hi, selOffs_eq ri hs j hj, selCols_getD ri i hi, selCols_getD ri j hj]
    simp) (fun _ _ => 0)
  have val : ∀ i j d d', i < (k.selCols ri).length → j < (k.selCols ri).length →
      InShape d ((k.selCols ri).getD i []) → InShape d' ((k.selCols ri).getD j []) →
      out (stateIndex (k.selCols ri) i d) (stateIndex (k.selCols ri) j d') =
        if sel ri j ≤ sel ri i ∧ k.nelec.getD (sel ri i) [] = k.nelec.getD (sel ri j) [] then
          (∏ f ∈ Finset.range k.nlas.length, k.ovf (sel ri i) (sel ri j) f (d.getD f 0) (d'.getD f 0)) / (1 + if sel ri i = sel ri j then 1 else 0)
        else 0 := by
    intro i j d d' hi hj hd hd'
    have hone : ∀ i d, i < (k.selCols ri).length → InShape d ((k.selCols ri).getD i []) → ∀ r, (∃ i' < (k.selCols ri).length, r = sel ri i') →
        ((k.selOffs ri r).1 ≤ stateIndex (k.selCols ri) i d ∧ stateIndex (k.selCols ri) i d < (k.selOffs ri r).2 ↔ r = sel ri i) := by
      rintro i d hi hd r ⟨i', hi', rfl⟩
      rw [selOffs_eq ri hs i' hi']
      have hlt := posF_lt hd
      have hst : stateIndex (k.selCols ri) i d = off (k.selCols ri) i + posF ((k.selCols ri).getD i []) d := rfl
      dsimp only
      constructor
      · rintro ⟨g1, g2⟩
        rw [block_unique (k.selCols ri) i' i _ hi' hi g1 g2 (by omega) (by omega)]
      · intro e
        have := sel_inj ri hs i' i hi' hi e
        subst this
        omega
    obtain ⟨u1, u2⟩ := e2 (sel ri i) (sel ri j) _ _ (fun p hp => by
      obtain ⟨q1, q2, _, _⟩ := (mem_selNull hK ri hs p).mp hp
      exact ⟨hone i d hi hd p.1 q1, hone j d' hj hd' p.2 q2⟩)
    have hmem := mem_selNull hK ri hs (sel ri i, sel ri j)
    dsimp only at hmem
    by_cases hc : sel ri j ≤ sel ri i ∧ k.nelec.getD (sel ri i) [] = k.nelec.getD (sel ri j) []
    · by_cases hal : k.allowed (sel ri i, sel ri j) = true
      swap
      · rw [if_pos hc, u2 (fun h => hal (hmem.mp h).2.2.2.2)]
        rw [selCols_getD ri i hi] at hd
        rw [selCols_getD ri j hj] at hd'
        rw [hsc _ (sel_lt ri hs i hi) _ (sel_lt ri hs j hj) hc.2 (by simpa using hal) d d' hd hd']
        simp
      have hm := hmem.mpr ⟨⟨i, hi, rfl⟩, ⟨j, hj, rfl⟩, hc.1, hc.2, hal⟩
      rw [if_pos hc, u1 hm]
      have hst : ∀ i d, stateIndex (k.selCols ri) i d - off (k.selCols ri) i = posF ((k.selCols ri).getD i []) d := by
        intro i d
        unfold stateIndex
        rw [← off_eq]; omega
      rw [selOffs_eq ri hs i hi, selOffs_eq ri hs j hj]
      dsimp only
      rw [hst, hst]
      rw [selCols_getD ri i hi] at hd ⊢
      rw [selCols_getD ri j hj] at hd' ⊢
      exact (hO _ hm).2.2.2 d d' hd hd'
    · rw [if_neg hc, u2 (fun h => hc ⟨(hmem.mp h).2.2.1, (hmem.mp h).2.2.2.1⟩)]
  refine ⟨_, by unfold ovlpBlocks; rw [e1]; rfl, fun i j d d' hi hj hd hd' => ?_⟩
  dsimp only
  rw [val i j d d' hi hj hd hd', val j i d' d hj hi hd' hd]
  have li := sel_lt ri hs i hi
  have lj := sel_lt ri hs j hj
  by_cases hn : k.nelec.getD (sel ri i) [] = k.nelec.getD (sel ri j) []
  · have hsw : ∏ f ∈ Finset.range k.nlas.length, k.ovf (sel ri j) (sel ri i) f (d'.getD f 0) (d.getD f 0) =
        ∏ f ∈ Finset.range k.nlas.length, k.ovf (sel ri i) (sel ri j) f (d.getD f 0) (d'.getD f 0) := by
      refine Finset.prod_congr rfl fun f hf => ?_
      have hf : f < k.nlas.length := by simpa using hf
      rw [selCols_getD ri i hi] at hd
      rw [selCols_getD ri j hj] at hd'
      exact (hsym2 _ li _ lj hn f hf _ (((inShape_iff _ _).mp hd).2 f (by rw [hC.len _ li]; exact hf)) _
        (((inShape_iff _ _).mp hd').2 f (by rw [hC.len _ lj]; exact hf))).symm
    rw [hsw, if_pos hn]
    rcases Nat.lt_trichotomy (sel ri i) (sel ri j) with h | h | h
    · rw [if_neg (by omega), if_pos ⟨by omega, hn.symm⟩, if_neg (by omega)]; simp
    · rw [if_pos (⟨by omega, hn⟩ : sel ri j ≤ sel ri i ∧ _), if_pos (⟨by omega, hn.symm⟩ : sel ri i ≤ sel ri j ∧ _), if_pos h, if_pos h.symm, show (1 : K) + 1 = 2 by norm_num]
      field_simp
      ring
    · rw [if_pos ⟨by omega, hn⟩, if_neg (by omega), if_neg (by omega)]; simp
  · rw [if_neg hn, if_neg (fun h => hn h.2), if_neg (fun h => hn h.2.symm), add_zero]

/-! ### The selected matrices -/

omit [Field K]

theorem lookup_mem {β : Type} (l : List (Nat × β)) (a : Nat) (b : β) (h : l.lookup a = some b) : (a, b) ∈ l := by
  induction l with
  | nil => simp at h
  | cons x l ih =>
    obtain ⟨a', b'⟩ := x
    rw [List.lookup_cons] at h
    by_cases e : a = a'
    · subst e
      simp only [beq_self_eq_true] at h
      simp only [Option.some.injEq] at h
      simp [h]
    · rw [beq_eq_false_iff_ne.mpr e] at h
      exact List.mem_cons_of_mem _ (ih h)

theorem lookup_none {β : Type} (l : List (Nat × β)) (a : Nat) (h : l.lookup a = none) : a ∉ l.map Prod.fst := by
  induction l with
  | nil => simp
  | cons x l ih =>
    obtain ⟨a', b'⟩ := x
    rw [List.lookup_cons] at h
    by_cases e : a = a'
    · subst e
      simp at h
    · rw [beq_eq_false_iff_ne.mpr e] at h
      rw [List.map_cons, List.mem_cons, not_or]
      exact ⟨e, ih h⟩

theorem mem_selUmats (l : List Nat) (us : List (Nat × Nd K)) (x : Nat × Nd K) :
    x ∈ selUmats (some l) us ↔ x.1 < l.length ∧ us.lookup (l.getD x.1 0) = some x.2 := by
  unfold selUmats
  rw [List.mem_filterMap]
  constructor
  · rintro ⟨i, hi, h⟩
    obtain ⟨U, hU, rfl⟩ := Option.map_eq_some_iff.mp h
    exact ⟨by simpa using hi, hU⟩
  · rintro ⟨h1, h2⟩
    exact ⟨x.1, by simpa using h1, by rw [h2]; rfl⟩

theorem nodup_selUmats (l : List Nat) (us : List (Nat × Nd K)) : ((selUmats (some l) us).map Prod.fst).Nodup := by
  unfold selUmats
  dsimp only
  have : ((List.range l.length).filterMap (fun i => (us.lookup (l.getD i 0)).map (fun U => (i, U)))).map Prod.fst =
      (List.range l.length).filter (fun i => (us.lookup (l.getD i 0)).isSome) := by
    rw [List.map_filterMap, ← List.filterMap_eq_filter]
    congr 1
    funext i
    cases h : us.lookup (l.getD i 0) <;> simp only [Option.map_none, Option.map_some, Option.guard, h, Option.isSome_none, Option.isSome_some, if_true, Bool.false_eq_true, if_false]
  rw [this]
  exact List.nodup_range.filter _

theorem selUmats_ok [CommRing K] (ri : Option (List Nat)) (hs : k.SelOk ri) (nf : Nat) (umats : Nat → List (Nat × Nd K))
    (hU : Matrices k.cols nf umats) (v x : Nat → Nat → Nat → Vec K) (hx : RotatedBy k.cols nf umats v x) :
    Matrices (k.selCols ri) nf (fun f => selUmats ri (umats f)) ∧
    RotatedBy (k.selCols ri) nf (fun f => selUmats ri (umats f)) (fun f i a => v f (sel ri i) a) (fun f i a => x f (sel ri i) a) := by
  cases ri with
  | none => exact ⟨hU, hx⟩
  | some l =>
    have hlen : (k.selCols (some l)).length = l.length := by simp [selCols]
    refine ⟨⟨fun f _ => nodup_selUmats l _, fun f hf y hy => ?_, fun f hf y hy => ?_⟩, ⟨fun f hf r U hm a ha => ?_, fun f hf r hrl hr a => ?_⟩⟩
    · rw [hlen]; exact ((mem_selUmats l _ y).mp hy).1
    · obtain ⟨h1, h2⟩ := (mem_selUmats l _ y).mp hy
      rw [selCols_getD _ _ (by rw [hlen]; exact h1)]
      exact hU.shape f hf _ (lookup_mem _ _ _ h2)
    · obtain ⟨h1, h2⟩ := (mem_selUmats l _ _).mp hm
      rw [selCols_getD _ _ (by rw [hlen]; exact h1)] at ha ⊢
      exact hx.rot f hf _ U (lookup_mem _ _ _ h2) a ha
    · rw [hlen] at hrl
      refine hx.same f hf _ (sel_lt (k := k) (some l) hs r (by rw [hlen]; exact hrl)) ?_ a
      cases h : (umats f).lookup (l.getD r 0) with
      | none => exact lookup_none _ _ h
      | some U =>
        exfalso
        apply hr
        exact List.mem_map.mpr ⟨(r, U), (mem_selUmats l _ _).mpr ⟨hrl, h⟩, rfl⟩

end Kern
end Verif.Lstdm
