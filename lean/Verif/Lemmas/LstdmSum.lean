import Verif.Lemmas.LstdmRows3
import Verif.Props.ExcTables
import Mathlib.Algebra.BigOperators.Intervals
/-!
# Lemmas: the rows of a pair of states cover every nonzero element exactly once
-/
namespace Verif.Lstdm
open Verif.Spec Verif.Spec.Tdm Verif.Spec.Lstdm Verif.Spec.Fockspace Verif.Tdm Verif.Signs Verif.Exc

/-! ### Counting -/

/-- Indicator of a point. -/
def ei {α : Type} [DecidableEq α] (a x : α) : ℤ := if x = a then 1 else 0

section
variable {α : Type} [DecidableEq α]

theorem ei_self (a : α) : ei a a = 1 := by simp [ei]
theorem ei_nonneg (a x : α) : 0 ≤ ei a x := by unfold ei; split_ifs <;> omega
theorem ei_ne {a x : α} (h : x ≠ a) : ei a x = 0 := by simp [ei, h]

theorem one_one {a b : α} (h : ∀ x, ei a x = ei b x) : a = b := by
  by_contra hn
  have := h a
  rw [ei_self, ei_ne hn] at this
  omega

theorem two_two {a b c d : α} (h : ∀ x, ei a x + ei b x = ei c x + ei d x) : (a = c ∧ b = d) ∨ (a = d ∧ b = c) := by
  by_cases h1 : a = c
  · subst h1
    exact Or.inl ⟨rfl, one_one fun x => by have := h x; omega⟩
  · have h2 : a = d := by
      by_contra h2
      have := h a
      rw [ei_self, ei_ne h1, ei_ne h2] at this
      have := ei_nonneg b a
      omega
    subst h2
    exact Or.inr ⟨rfl, one_one fun x => by have := h x; omega⟩

/-- One hop, one pair of operators. -/
theorem hop1_one {a c z w : α} (hzw : z ≠ w) (h : ∀ x, ei a x + ei z x = ei c x + ei w x) : a = w ∧ c = z := by
  rcases two_two h with ⟨_, h2⟩ | ⟨h1, h2⟩
  · exact absurd h2 hzw
  · exact ⟨h1, h2.symm⟩

/-- One hop, two pairs of operators. -/
theorem hop1_two {a b c d z w : α} (hzw : z ≠ w) (h : ∀ x, ei a x + ei b x + ei z x = ei c x + ei d x + ei w x) :
    (a = w ∧ c = z ∧ b = d) ∨ (a = w ∧ d = z ∧ b = c) ∨ (b = w ∧ c = z ∧ a = d) ∨ (b = w ∧ d = z ∧ a = c) := by
  have hz : z = c ∨ z = d := by
    by_contra hn
    rw [not_or] at hn
    have := h z
    rw [ei_self, ei_ne hn.1, ei_ne hn.2, ei_ne hzw] at this
    have := ei_nonneg a z
    have := ei_nonneg b z
    omega
  rcases hz with rfl | rfl
  · rcases two_two (a := a) (b := b) (c := d) (d := w) (fun x => by have := h x; omega) with ⟨h1, h2⟩ | ⟨h1, h2⟩
    · exact Or.inr (Or.inr (Or.inl ⟨h2, rfl, h1⟩))
    · exact Or.inl ⟨h1, rfl, h2⟩
  · rcases two_two (a := a) (b := b) (c := c) (d := w) (fun x => by have := h x; omega) with ⟨h1, h2⟩ | ⟨h1, h2⟩
    · exact Or.inr (Or.inr (Or.inr ⟨h2, rfl, h1⟩))
    · exact Or.inr (Or.inl ⟨h1, rfl, h2⟩)

/-- Two hops, two pairs of operators. -/
theorem hop2_two {a b c d z1 z2 w1 w2 : α} (h11 : z1 ≠ w1) (h12 : z1 ≠ w2) (h21 : z2 ≠ w1) (h22 : z2 ≠ w2)
    (h : ∀ x, ei a x + ei b x + ei z1 x + ei z2 x = ei c x + ei d x + ei w1 x + ei w2 x) :
    ((a = w1 ∧ b = w2) ∨ (a = w2 ∧ b = w1)) ∧ ((c = z1 ∧ d = z2) ∨ (c = z2 ∧ d = z1)) := by
  have key : ∀ {c d : α}, z1 = c → (∀ x, ei a x + ei b x + ei z1 x + ei z2 x = ei c x + ei d x + ei w1 x + ei w2 x) →
      ((a = w1 ∧ b = w2) ∨ (a = w2 ∧ b = w1)) ∧ d = z2 := by
    intro c d hc h
    subst hc
    have hz : z2 = d := by
      by_contra hn
      have := h z2
      rw [ei_self z2, ei_ne hn, ei_ne h21, ei_ne h22] at this
      have := ei_nonneg a z2
      have := ei_nonneg b z2
      omega
    subst hz
    exact ⟨two_two fun x => by have := h x; omega, rfl⟩
  have hz : z1 = c ∨ z1 = d := by
    by_contra hn
    rw [not_or] at hn
    have := h z1
    rw [ei_self, ei_ne hn.1, ei_ne hn.2, ei_ne h11, ei_ne h12] at this
    have := ei_nonneg a z1
    have := ei_nonneg b z1
    have := ei_nonneg z2 z1
    omega
  rcases hz with hz | hz
  · obtain ⟨h1, h2⟩ := key hz h
    exact ⟨h1, Or.inl ⟨hz.symm, h2⟩⟩
  · obtain ⟨h1, h2⟩ := key (c := d) (d := c) hz (fun x => by have := h x; omega)
    exact ⟨h1, Or.inr ⟨h2, hz.symm⟩⟩

/-- Two hops, one pair of operators. -/
theorem hop2_one {a c z1 z2 w1 w2 : α} (h11 : z1 ≠ w1) (h12 : z1 ≠ w2) (h21 : z2 ≠ w1) (h22 : z2 ≠ w2)
    (h : ∀ x, ei a x + ei z1 x + ei z2 x = ei c x + ei w1 x + ei w2 x) : False := by
  have hz : z1 = c := by
    by_contra hn
    have := h z1
    rw [ei_self, ei_ne hn, ei_ne h11, ei_ne h12] at this
    have := ei_nonneg a z1
    have := ei_nonneg z2 z1
    omega
  subst hz
  have := h z2
  rw [ei_self z2, ei_ne h21, ei_ne h22] at this
  have := ei_nonneg a z2
  omega

end

/-! ### Sums over rows -/

theorem sum_unique {α R : Type} [AddCommMonoid R] (l : List α) (hn : l.Nodup) (P : α → Prop) [DecidablePred P] (X : R) (a : α)
    (ha : a ∈ l) (hP : P a) (hu : ∀ b ∈ l, P b → b = a) : (l.map fun b => if P b then X else 0).sum = X := by
  induction l with
  | nil => simp at ha
  | cons b l ih =>
    rw [List.map_cons, List.sum_cons]
    rw [List.nodup_cons] at hn
    by_cases hb : P b
    · have hba := hu b (by simp) hb
      subst hba
      rw [if_pos hb]
      have : ∀ x ∈ l, (if P x then X else 0) = 0 := by
        intro x hx
        rw [if_neg]
        intro hPx
        exact hn.1 (hu x (by simp [hx]) hPx ▸ hx)
      rw [List.map_congr_left this]
      simp
    · rw [if_neg hb, zero_add]
      rcases List.mem_cons.mp ha with h | h
      · subst h; exact absurd hP hb
      · exact ih hn.2 h (fun x hx => hu x (by simp [hx]))

theorem sum_none {α R : Type} [AddCommMonoid R] (l : List α) (P : α → Prop) [DecidablePred P] (X : R) (hX : X = 0) :
    (l.map fun b => if P b then X else 0).sum = 0 := by
  induction l with
  | nil => rfl
  | cons b l ih => simp [hX]

variable {K : Type} [CommRing K] [DecidableEq K]

/-- The one-body blocks of a row. -/
def rp1 : Lstdm.Row → Bool → Nat → Nat → Prop
  | .d1 i => fun _ a b => a = i ∧ b = i
  | .c1 i j n => fun s a b => s = (n != 0) ∧ a = i ∧ b = j
  | _ => fun _ _ _ => False

/-- The two-body blocks of a row. -/
def rp2 : Lstdm.Row → Bool → Bool → Nat → Nat → Nat → Nat → Prop
  | .d1 i => fun _ _ a b c e => a = i ∧ b = i ∧ c = i ∧ e = i
  | .d2 i j => fun s t a b c e => (a = i ∧ b = i ∧ c = j ∧ e = j) ∨ (a = j ∧ b = j ∧ c = i ∧ e = i) ∨
        (s = t ∧ ((a = i ∧ b = j ∧ c = j ∧ e = i) ∨ (a = j ∧ b = i ∧ c = i ∧ e = j)))
  | .c1 i j n => fun s t a b c e => pat1c (n != 0) i j j s t a b c e ∨ pat1c (n != 0) i j i s t a b c e
  | .c1d1 i j k n => pat1c (n != 0) i j k
  | .s1 i j => fun s t a b c e => (s = false ∧ t = true ∧ a = i ∧ b = j ∧ c = j ∧ e = i) ∨
        (s = true ∧ t = false ∧ a = j ∧ b = i ∧ c = i ∧ e = j)
  | .s1c1 i j k n => fun s t a b c e => (s = (n != 0) ∧ t = !(n != 0) ∧ a = i ∧ b = k ∧ c = k ∧ e = j) ∨
        (t = (n != 0) ∧ s = !(n != 0) ∧ a = k ∧ b = j ∧ c = i ∧ e = k)
  | .c2 i j k l n => pat2c (n == 2) (n != 0) i j k l

open Classical in
/-- All rows processed: sums of the contributions. -/
theorem foldlM_put {L : Lstdm K} {v : Nat → Nat → Vec K} (bra ket : Nat) (rows : List Lstdm.Row)
    (h : ∀ r ∈ rows, RowOk L v bra ket r (rp1 r) (rp2 r)) (acc : D1 K × D2 K) :
    ∃ d1 d2, rows.foldlM (L.put bra ket) acc = some (d1, d2) ∧
      (∀ s fp fq p q, p < L.nlas.getD fp 0 → q < L.nlas.getD fq 0 →
        d1 (ix s) (fragStart L.nlas fp + p) (fragStart L.nlas fq + q) =
          acc.1 (ix s) (fragStart L.nlas fp + p) (fragStart L.nlas fq + q) +
          (rows.map fun r => if rp1 r s fp fq then
            tdm1 L.nlas.sum (state L v bra) (state L v ket) s (fragStart L.nlas fp + p) (fragStart L.nlas fq + q) else 0).sum) ∧
      (∀ s t fp fq fr fu p q r u, p < L.nlas.getD fp 0 → q < L.nlas.getD fq 0 → r < L.nlas.getD fr 0 → u < L.nlas.getD fu 0 →
        d2 (ix2 s t) (fragStart L.nlas fp + p) (fragStart L.nlas fq + q) (fragStart L.nlas fr + r) (fragStart L.nlas fu + u) =
          acc.2 (ix2 s t) (fragStart L.nlas fp + p) (fragStart L.nlas fq + q) (fragStart L.nlas fr + r) (fragStart L.nlas fu + u) +
          (rows.map fun x => if rp2 x s t fp fq fr fu then
            tdm2 L.nlas.sum (state L v bra) (state L v ket) s t (fragStart L.nlas fp + p) (fragStart L.nlas fq + q)
              (fragStart L.nlas fr + r) (fragStart L.nlas fu + u) else 0).sum) := by
  induction rows generalizing acc with
  | nil => exact ⟨acc.1, acc.2, rfl, by simp, by simp⟩
  | cons x rows ih =>
    obtain ⟨e1, e2, W, hc, hw, g1, g2⟩ := h x (by simp)
    have hput : L.put bra ket acc x = some (fun s a b => acc.1 s a b + e1 s a b * W,
        fun s a b c e => acc.2 s a b c e + e2 s a b c e * W) := by
      unfold Lstdm.put
      rw [hc]
      simp only [Option.bind_eq_bind, Option.bind_some, Option.pure_def, hw]
    obtain ⟨d1, d2, hf, k1, k2⟩ := ih (fun r hr => h r (by simp [hr])) (fun s a b => acc.1 s a b + e1 s a b * W,
        fun s a b c e => acc.2 s a b c e + e2 s a b c e * W)
    refine ⟨d1, d2, ?_, ?_, ?_⟩
    · rw [List.foldlM_cons, hput]; exact hf
    · intro s fp fq p q hp hq
      rw [k1 s fp fq p q hp hq, List.map_cons, List.sum_cons]
      dsimp only
      rw [g1 s fp fq p q hp hq, add_assoc]
    · intro s t fp fq fr fu p q r u hp hq hr hu
      rw [k2 s t fp fq fr fu p q r u hp hq hr hu, List.map_cons, List.sum_cons]
      dsimp only
      rw [g2 s t fp fq fr fu p q r u hp hq hr hu, add_assoc]

/-- The rows that belong to a classified interaction. -/
def expand (m : Nat) : Inter → List Lstdm.Row
  | .null => (List.range m).map .d1 ++ (trilIndices m).map (fun x => .d2 x.1 x.2)
  | .c1 i j s => .c1 i j s :: ((List.range m).filter (fun k => !(i == k || j == k))).map (fun k => .c1d1 i j k s)
  | .s1 i j => [.s1 i j]
  | .s1c1 i j k s => [.s1c1 i j k s]
  | .c2 i j k l s => [.c2 i j k l s]

omit [CommRing K] [DecidableEq K] in
theorem rows_uncoupled (L : Lstdm K) (bra ket : Nat) (h : ¬ SC.isCoupled (L.nelecI bra) (L.nelecI ket) = true) :
    L.rows bra ket = [] := by
  unfold Lstdm.rows
  simp only [h]
  simp [table, table1d, table2d, table1c1d]

theorem fst_lt (h : List (Int × Int)) (k : Nat) (hh : 0 < h.length) : fst h k < h.length := by
  unfold fst
  by_cases hk : k < (findf h).length
  · rw [List.getD_eq_getElem _ _ hk]
    exact (mem_findf h _).mp (List.getElem_mem _)
  · rw [List.getD_eq_getElem?_getD, List.getElem?_eq_none (by omega)]; exact hh

theorem lst_lt (h : List (Int × Int)) (k : Nat) (hh : 0 < h.length) : lst h k < h.length :=
  fst_lt h (h.length - 1 - k) hh

/-- The fragments of a row are fragments. -/
def InB (m : Nat) : Inter → Prop
  | .null => True
  | .c1 i j _ => i < m ∧ j < m
  | .s1 i j => i < m ∧ j < m
  | .s1c1 i j k _ => i < m ∧ j < m ∧ k < m
  | .c2 i j k l _ => i < m ∧ j < m ∧ k < m ∧ l < m

theorem rowAll_inB (h : List (Int × Int)) (x : Inter) (hx : x ∈ rowAll h) : InB h.length x := by
  have F := fst_lt h
  have G := lst_lt h
  simp only [rowAll, rowNull, row1c, row1s, row1s1c, row1s1cT, rowPair, rowSplit, rowCoalesce, rowScatter, List.mem_append,
    List.mem_ite_nil_right, List.mem_singleton, Bool.and_eq_true, decide_eq_true_eq] at hx
  rcases hx with h1 | h1 | h1 | (h1 | h1) | (h1 | h1 | h1) | h1 <;> obtain ⟨hc, rfl⟩ := h1 <;> simp only [InB]
  all_goals first
    | trivial
    | (have hp : 0 < h.length := by omega
       simp only [F _ hp, G _ hp, and_self])

theorem table_one (r : List (Int × Int) → List Inter) (a b : List (Int × Int)) :
    table r [a, b] [(0, 1)] = (r (hopping a b)).map (fun x => ((0, 1), x)) := by
  simp [table]

omit [CommRing K] [DecidableEq K] in
theorem rows_coupled (L : Lstdm K) (bra ket : Nat) (hc : SC.isCoupled (L.nelecI bra) (L.nelecI ket) = true) (x : Inter)
    (hx : rowAll (hopping (L.nelecI bra) (L.nelecI ket)) = [x]) (hn : x.Normal) (hb : InB L.nlas.length x) :
    L.rows bra ket = expand L.nlas.length x := by
  have e : expand L.nlas.length x = (rowAll (hopping (L.nelecI bra) (L.nelecI ket))).flatMap (expand L.nlas.length) := by
    rw [hx]; simp
  have hall : ∀ y ∈ rowAll (hopping (L.nelecI bra) (L.nelecI ket)), y.Normal ∧ InB L.nlas.length y := by
    rw [hx]; simp [hn, hb]
  rw [e]
  clear e hx hn hb
  unfold Lstdm.rows
  simp only [hc, if_true, table_one]
  generalize hopping (L.nelecI bra) (L.nelecI ket) = h at *
  generalize L.nlas.length = m at *
  unfold rowAll at *
  simp only [List.flatMap_append, List.filterMap_append]
  have hNull : ((table1d m (((rowNull h).map (fun x => (((0, 1) : Nat × Nat), x))).map Prod.fst)).map
        (fun x => Lstdm.Row.d1 x.2) ++
      (table2d m (((rowNull h).map (fun x => (((0, 1) : Nat × Nat), x))).map Prod.fst)).map (fun x => Lstdm.Row.d2 x.2.1 x.2.2)) =
      (rowNull h).flatMap (expand m) := by
    unfold rowNull
    split
    · by_cases hm : m > 1
      · simp [table1d, table2d, expand, hm]
        rfl
      · have : trilIndices m = [] := by
          have : m = 0 ∨ m = 1 := by omega
          rcases this with rfl | rfl <;> rfl
        simp [table1d, table2d, expand, hm, this]
    · simp [table1d, table2d]
  have h1c : ∀ c1 : List ((Nat × Nat) × (Nat × Nat × Nat)),
      c1 = ((row1c h).map (fun x => (((0, 1) : Nat × Nat), x))).filterMap
        Lstdm.as1c →
      c1.map (fun x => Lstdm.Row.c1 x.2.1 x.2.2.1 x.2.2.2) ++
        (table1c1d m c1).map (fun x => Lstdm.Row.c1d1 x.2.1 x.2.2.1 x.2.2.2.1 x.2.2.2.2) = (row1c h).flatMap (expand m) := by
    intro c1 hc1
    subst hc1
    have hy : ∀ y ∈ row1c h, y.Normal ∧ InB m y := fun y hy => hall y (by simp [hy])
    revert hy
    unfold row1c
    split
    · intro hy
      have hy := hy _ (List.mem_singleton.mpr rfl)
      obtain ⟨⟨hij, _⟩, hi, hj⟩ := hy
      by_cases hm : m > 2
      · simp [table1c1d, expand, hm, List.filter_map, Lstdm.as1c]
        rfl
      · have : (List.range m).filter (fun k => !(lst h 0 == k || fst h 0 == k)) = [] := by
          rw [List.filter_eq_nil_iff]
          intro a ha
          rw [List.mem_range] at ha
          simp
          omega
        simp only [table1c1d, expand, if_neg hm, this]
        simp [Lstdm.as1c]
        simp only [expand, this, List.map_nil]
    · intro _; simp [table1c1d]
  have h1s : ((row1s h).map (fun x => (((0, 1) : Nat × Nat), x))).filterMap
      Lstdm.as1s = (row1s h).flatMap (expand m) := by
    unfold row1s; split <;> simp [expand, Lstdm.as1s, Lstdm.as1s1c, Lstdm.as2c]
  have h1s1c : ((row1s1c h).map (fun x => (((0, 1) : Nat × Nat), x))).filterMap
      Lstdm.as1s1c = (row1s1c h).flatMap (expand m) := by
    unfold row1s1c; split <;> simp [expand, Lstdm.as1s, Lstdm.as1s1c, Lstdm.as2c]
  have h1s1cT : ((row1s1cT h).map (fun x => (((0, 1) : Nat × Nat), x))).filterMap
      Lstdm.as1s1c = (row1s1cT h).flatMap (expand m) := by
    unfold row1s1cT; split <;> simp [expand, Lstdm.as1s, Lstdm.as1s1c, Lstdm.as2c]
  have hP : ((rowPair h).map (fun x => (((0, 1) : Nat × Nat), x))).filterMap
      Lstdm.as2c = (rowPair h).flatMap (expand m) := by
    unfold rowPair; split <;> simp [expand, Lstdm.as1s, Lstdm.as1s1c, Lstdm.as2c]
  have hS : ((rowSplit h).map (fun x => (((0, 1) : Nat × Nat), x))).filterMap
      Lstdm.as2c = (rowSplit h).flatMap (expand m) := by
    unfold rowSplit; split <;> simp [expand, Lstdm.as1s, Lstdm.as1s1c, Lstdm.as2c]
  have hC : ((rowCoalesce h).map (fun x => (((0, 1) : Nat × Nat), x))).filterMap
      Lstdm.as2c = (rowCoalesce h).flatMap (expand m) := by
    unfold rowCoalesce; split <;> simp [expand, Lstdm.as1s, Lstdm.as1s1c, Lstdm.as2c]
  have hX : ((rowScatter h).map (fun x => (((0, 1) : Nat × Nat), x))).filterMap
      Lstdm.as2c = (rowScatter h).flatMap (expand m) := by
    unfold rowScatter; split <;> simp [expand, Lstdm.as1s, Lstdm.as1s1c, Lstdm.as2c]
  rw [hNull, h1s, h1s1c, h1s1cT, hP, hS, hC, hX, List.append_assoc ((rowNull h).flatMap (expand m)), h1c _ rfl]
  simp only [List.append_assoc]

/-! ### Coverage -/

/-- The occupations of the fragments as points. -/
theorem counts_pt {m : Nat} {cb ck : Nat → Bool → ℤ} {s t : Bool} {fp fq fr fu : Nat} (hfp : fp < m) (hfq : fq < m) (hfr : fr < m)
    (hfu : fu < m) (h : ∀ g < m, decF t fr (decF s fp cb) g = decF t fu (decF s fq ck) g) (x : Nat × Bool) (D : ℤ)
    (hD : x.1 < m → cb x.1 x.2 - ck x.1 x.2 = D) (hD0 : ¬ x.1 < m → D = 0) :
    D = ei (fp, s) x + ei (fr, t) x - ei (fq, s) x - ei (fu, t) x := by
  have e : ∀ f (s : Bool), ei (f, s) x = if x.1 = f ∧ x.2 = s then 1 else 0 := by
    intro f s; unfold ei; congr 1; rw [Prod.ext_iff]
  by_cases hx : x.1 < m
  · have := congrFun (h x.1 hx) x.2
    unfold decF at this
    rw [e, e, e, e, ← hD hx]
    omega
  · rw [hD0 hx, e, e, e, e, if_neg (by omega), if_neg (by omega), if_neg (by omega), if_neg (by omega)]
    rfl

theorem counts_pt1 {m : Nat} {cb ck : Nat → Bool → ℤ} {s : Bool} {fp fq : Nat} (hfp : fp < m) (hfq : fq < m)
    (h : ∀ g < m, decF s fp cb g = decF s fq ck g) (x : Nat × Bool) (D : ℤ)
    (hD : x.1 < m → cb x.1 x.2 - ck x.1 x.2 = D) (hD0 : ¬ x.1 < m → D = 0) :
    D = ei (fp, s) x - ei (fq, s) x := by
  have e : ∀ f (s : Bool), ei (f, s) x = if x.1 = f ∧ x.2 = s then 1 else 0 := by
    intro f s; unfold ei; congr 1; rw [Prod.ext_iff]
  by_cases hx : x.1 < m
  · have := congrFun (h x.1 hx) x.2
    unfold decF at this
    rw [e, e, ← hD hx]
    omega
  · rw [hD0 hx, e, e, if_neg (by omega), if_neg (by omega)]
    rfl

/-- The moves of an interaction as points. -/
def mvs (x : Inter) : List ((Nat × Bool) × (Nat × Bool)) := x.moves.map (fun m => ((m.dst, !m.up), (m.src, !m.up)))

theorem change_pt (x : Inter) (f : Nat) (σ : Bool) :
    change x.moves (!σ) f = ((mvs x).map (fun p => ei p.1 (f, σ) - ei p.2 (f, σ))).sum := by
  unfold change mvs
  rw [List.map_map]
  congr 1
  refine List.map_congr_left fun m _ => ?_
  unfold ei
  simp only [Function.comp, Prod.mk.injEq]
  have e : (m.up = !σ) = (σ = !m.up) := by cases σ <;> cases m.up <;> simp
  simp only [e, eq_comm (a := f), and_comm]

end Verif.Lstdm
