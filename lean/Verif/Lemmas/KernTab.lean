import Verif.Model.LstdmKernel
import Verif.Lemmas.LstdmCover
/-!
# The excitation tables of all pairs of rootspaces
-/
namespace Verif.Lstdm
open Verif.Spec Verif.Exc Verif.Addr

/-- Two lists of fragments have the same elements. -/
def SameSet (l l' : List Nat) : Prop := ∀ g, g ∈ l ↔ g ∈ l'

theorem trilIndices_lt (n : Nat) (a b : Nat) (h : (a, b) ∈ trilIndices n) : b < a := ((mem_tril n a b).mp h).2

/-- The fragments of a row determine the row among those of an interaction. -/
theorem expand_inv_inj (m : Nat) (x : Inter) (r r' : Lstdm.Row) (hr : r ∈ expand m x) (hr' : r' ∈ expand m x)
    (h : SameSet r.inv r'.inv) : r = r' := by
  cases x with
  | null =>
    simp only [expand, List.mem_append, List.mem_map, List.mem_range, Prod.exists] at hr hr'
    rcases hr with ⟨a, ha, rfl⟩ | ⟨a, b, hab, rfl⟩ <;> rcases hr' with ⟨a', ha', rfl⟩ | ⟨a', b', hab', rfl⟩
    · have := h a; simp [Lstdm.Row.inv] at this; rw [this]
    · have h1 := h a'; have h2 := h b'; simp [Lstdm.Row.inv] at h1 h2
      have := trilIndices_lt _ _ _ hab'; omega
    · have h1 := h a; have h2 := h b; simp [Lstdm.Row.inv] at h1 h2
      have := trilIndices_lt _ _ _ hab; omega
    · have h1 := h a; have h2 := h b; have h3 := h a'; have h4 := h b'; simp [Lstdm.Row.inv] at h1 h2 h3 h4
      have := trilIndices_lt _ _ _ hab; have := trilIndices_lt _ _ _ hab'
      have e1 : a = a' := by omega
      have e2 : b = b' := by omega
      rw [e1, e2]
  | c1 i j s =>
    simp only [expand, List.mem_cons, List.mem_map, List.mem_filter, List.mem_range] at hr hr'
    rcases hr with rfl | ⟨a, ⟨ha, hab⟩, rfl⟩ <;> rcases hr' with rfl | ⟨a', ⟨ha', hab'⟩, rfl⟩
    · rfl
    · have := h a'; simp [Lstdm.Row.inv] at this hab'; omega
    · have := h a; simp [Lstdm.Row.inv] at this hab; omega
    · have := h a; simp [Lstdm.Row.inv] at this hab
      have e : a = a' := by omega
      rw [e]
  | s1 i j => simp only [expand, List.mem_singleton] at hr hr'; rw [hr, hr']
  | s1c1 i j k s => simp only [expand, List.mem_singleton] at hr hr'; rw [hr, hr']
  | c2 i j k l s => simp only [expand, List.mem_singleton] at hr hr'; rw [hr, hr']

theorem rp1_set (r : Lstdm.Row) (s : Bool) (fp fq : Nat) (h : rp1 r s fp fq) : SameSet r.inv [fp, fq] := by
  intro g
  cases r <;> simp [rp1, Lstdm.Row.inv] at h ⊢ <;> omega

theorem rp2_set (r : Lstdm.Row) (s t : Bool) (fp fq fr fu : Nat) (h : rp2 r s t fp fq fr fu) : SameSet r.inv [fp, fq, fr, fu] := by
  intro g
  cases r with
  | d1 i => simp [rp2, Lstdm.Row.inv] at h ⊢; omega
  | d2 i j => simp only [rp2] at h; simp [Lstdm.Row.inv]; omega
  | c1 i j n => simp only [rp2, pat1c] at h; simp [Lstdm.Row.inv]; omega
  | c1d1 i j k n => simp only [rp2, pat1c] at h; simp [Lstdm.Row.inv]; omega
  | s1 i j => simp only [rp2] at h; simp [Lstdm.Row.inv]; omega
  | s1c1 i j k n => simp only [rp2] at h; simp [Lstdm.Row.inv]; omega
  | c2 i j k l n => simp only [rp2, pat2c] at h; simp [Lstdm.Row.inv]; omega

/-- Moves do not touch other fragments. -/
theorem mvs_spec (m : Nat) (x : Inter) (r : Lstdm.Row) (hr : r ∈ expand m x) (f : Nat) (σ : Bool) (hf : f ∉ r.inv) :
    ((mvs x).map (fun p => ei p.1 (f, σ) - ei p.2 (f, σ))).sum = 0 := by
  have h0 : ∀ g (s : Bool), f ≠ g → ei (g, s) (f, σ) = 0 := by
    intro g s hg
    exact ei_ne (by simp [hg])
  cases x with
  | null => simp [mvs, Inter.moves]
  | c1 i j s =>
    simp only [expand, List.mem_cons, List.mem_map, List.mem_filter, List.mem_range] at hr
    have : f ≠ i ∧ f ≠ j := by
      rcases hr with rfl | ⟨a, _, rfl⟩ <;> simp [Lstdm.Row.inv] at hf <;> omega
    simp [mvs, Inter.moves, h0, this]
  | s1 i j =>
    simp only [expand, List.mem_singleton] at hr
    subst hr; simp [Lstdm.Row.inv] at hf
    simp [mvs, Inter.moves, h0, hf]
  | s1c1 i j k s =>
    simp only [expand, List.mem_singleton] at hr
    subst hr; simp [Lstdm.Row.inv] at hf
    simp [mvs, Inter.moves, h0, hf]
  | c2 i j k l s =>
    simp only [expand, List.mem_singleton] at hr
    subst hr; simp [Lstdm.Row.inv] at hf
    simp [mvs, Inter.moves, h0, hf]

/-- The fragments of a row are fragments. -/
theorem expand_lt (m : Nat) (x : Inter) (hb : InB m x) (r : Lstdm.Row) (hr : r ∈ expand m x) : ∀ f ∈ r.inv, f < m := by
  cases x with
  | null =>
    simp only [expand, List.mem_append, List.mem_map, List.mem_range, Prod.exists] at hr
    rcases hr with ⟨a, ha, rfl⟩ | ⟨a, b, hab, rfl⟩
    · simpa [Lstdm.Row.inv] using ha
    · rw [mem_tril] at hab
      simp [Lstdm.Row.inv]; omega
  | c1 i j s =>
    simp only [expand, List.mem_cons, List.mem_map, List.mem_filter, List.mem_range] at hr
    simp only [InB] at hb
    rcases hr with rfl | ⟨a, ⟨ha, _⟩, rfl⟩
    · simpa [Lstdm.Row.inv] using hb
    · simpa [Lstdm.Row.inv, ha] using hb
  | s1 i j =>
    simp only [expand, List.mem_singleton] at hr
    subst hr; simpa [Lstdm.Row.inv, InB] using hb
  | s1c1 i j k s =>
    simp only [expand, List.mem_singleton] at hr
    subst hr; simpa [Lstdm.Row.inv, InB] using hb
  | c2 i j k l s =>
    simp only [expand, List.mem_singleton] at hr
    subst hr; simpa [Lstdm.Row.inv, InB] using hb

/-- Number of the table of a row. -/
def kind : Lstdm.Row → Nat
  | .d1 _ => 0
  | .d2 _ _ => 1
  | .c1 _ _ _ => 2
  | .c1d1 _ _ _ _ => 3
  | .s1 _ _ => 4
  | .s1c1 _ _ _ _ => 5
  | .c2 _ _ _ _ _ => 6

theorem inv_length (r r' : Lstdm.Row) (h : kind r = kind r') : r.inv.length = r'.inv.length := by
  cases r <;> cases r' <;> simp [kind, Lstdm.Row.inv] at h ⊢

namespace Kern
variable {K : Type} (k : Kern K)

/-- The tables for a given list of interactions. -/
def tablesOf (nel : List (List (Int × Int))) (m : Nat) (scai : List (Nat × Nat)) : List (List ExcRow) :=
  [ (table1d m ((table rowNull nel scai).map Prod.fst)).map (fun x => (x.1, .d1 x.2)),
    (table2d m ((table rowNull nel scai).map Prod.fst)).map (fun x => (x.1, .d2 x.2.1 x.2.2)),
    ((table row1c nel scai).filterMap Lstdm.as1c).map (fun x => (x.1, .c1 x.2.1 x.2.2.1 x.2.2.2)),
    (table1c1d m ((table row1c nel scai).filterMap Lstdm.as1c)).map (fun x => (x.1, .c1d1 x.2.1 x.2.2.1 x.2.2.2.1 x.2.2.2.2)),
    (table row1s nel scai).filterMap row1sOf,
    (table row1s1c nel scai ++ table row1s1cT nel scai).filterMap row1s1cOf,
    (table rowPair nel scai ++ (table rowSplit nel scai ++ table rowCoalesce nel scai) ++ table rowScatter nel scai).filterMap row2cOf ]

theorem tables_eq : k.tables = tablesOf k.nelecI k.nlas.length k.scai := rfl

theorem tables_kind (nel : List (List (Int × Int))) (m : Nat) (scai : List (Nat × Nat)) (i : Nat) (x : ExcRow)
    (hx : x ∈ (tablesOf nel m scai).getD i []) : kind x.2 = i := by
  have h1 : ∀ y : (Nat × Nat) × Inter, row1sOf y = some x → kind x.2 = 4 := by
    rintro ⟨p, y⟩ h; cases y <;> simp [row1sOf] at h; subst h; rfl
  have h2 : ∀ y : (Nat × Nat) × Inter, row1s1cOf y = some x → kind x.2 = 5 := by
    rintro ⟨p, y⟩ h; cases y <;> simp [row1s1cOf] at h; subst h; rfl
  have h3 : ∀ y : (Nat × Nat) × Inter, row2cOf y = some x → kind x.2 = 6 := by
    rintro ⟨p, y⟩ h; cases y <;> simp [row2cOf] at h; subst h; rfl
  rcases i with _ | _ | _ | _ | _ | _ | _ | i <;> simp only [tablesOf, List.getD_cons_zero, List.getD_cons_succ, List.getD_nil] at hx
  · obtain ⟨y, _, rfl⟩ := List.mem_map.mp hx; rfl
  · obtain ⟨y, _, rfl⟩ := List.mem_map.mp hx; rfl
  · obtain ⟨y, _, rfl⟩ := List.mem_map.mp hx; rfl
  · obtain ⟨y, _, rfl⟩ := List.mem_map.mp hx; rfl
  · obtain ⟨y, _, h⟩ := List.mem_filterMap.mp hx; exact h1 y h
  · obtain ⟨y, _, h⟩ := List.mem_filterMap.mp hx; exact h2 y h
  · obtain ⟨y, _, h⟩ := List.mem_filterMap.mp hx; exact h3 y h
  · simp at hx

/-- A row is in one table only. -/
theorem tab_unique (nel : List (List (Int × Int))) (m : Nat) (scai : List (Nat × Nat)) (t t' : List ExcRow)
    (ht : t ∈ tablesOf nel m scai) (ht' : t' ∈ tablesOf nel m scai) (x : ExcRow) (hx : x ∈ t) (hx' : x ∈ t') : t = t' := by
  obtain ⟨i, hi, rfl⟩ := List.getElem_of_mem ht
  obtain ⟨j, hj, rfl⟩ := List.getElem_of_mem ht'
  have e1 := tables_kind nel m scai i x (by rw [List.getD_eq_getElem _ _ hi]; exact hx)
  have e2 := tables_kind nel m scai j x (by rw [List.getD_eq_getElem _ _ hj]; exact hx')
  have : i = j := by omega
  subst this; rfl

theorem tab_kind (nel : List (List (Int × Int))) (m : Nat) (scai : List (Nat × Nat)) (t : List ExcRow) (ht : t ∈ tablesOf nel m scai)
    (x y : ExcRow) (hx : x ∈ t) (hy : y ∈ t) : x.2.inv.length = y.2.inv.length := by
  obtain ⟨i, hi, rfl⟩ := List.getElem_of_mem ht
  have e1 := tables_kind nel m scai i x (by rw [List.getD_eq_getElem _ _ hi]; exact hx)
  have e2 := tables_kind nel m scai i y (by rw [List.getD_eq_getElem _ _ hi]; exact hy)
  exact inv_length _ _ (e1.trans e2.symm)

theorem table_cons (r : List (Int × Int) → List Inter) (nel : List (List (Int × Int))) (p : Nat × Nat) (scai : List (Nat × Nat)) :
    table r nel (p :: scai) = table r nel [p] ++ table r nel scai := by simp [table]

theorem table1d_append (m : Nat) (a b : List (Nat × Nat)) : table1d m (a ++ b) = table1d m a ++ table1d m b := by simp [table1d]
theorem table2d_append (m : Nat) (a b : List (Nat × Nat)) : table2d m (a ++ b) = table2d m a ++ table2d m b := by
  unfold table2d; split <;> simp
theorem table1c1d_append (m : Nat) (a b : List ((Nat × Nat) × (Nat × Nat × Nat))) :
    table1c1d m (a ++ b) = table1c1d m a ++ table1c1d m b := by
  unfold table1c1d; split <;> simp

theorem tables_cons (nel : List (List (Int × Int))) (m : Nat) (p : Nat × Nat) (scai : List (Nat × Nat)) :
    (tablesOf nel m (p :: scai)).flatten.Perm ((tablesOf nel m [p]).flatten ++ (tablesOf nel m scai).flatten) := by
  rw [List.perm_iff_count]
  intro x
  unfold tablesOf
  simp only [table_cons _ nel p scai, List.map_append, List.filterMap_append, table1d_append, table2d_append, table1c1d_append,
    List.flatten_cons, List.flatten_nil, List.count_append, List.append_nil]
  omega

theorem tables_flat (nel : List (List (Int × Int))) (m : Nat) (scai : List (Nat × Nat)) :
    (tablesOf nel m scai).flatten.Perm (scai.flatMap (fun p => (tablesOf nel m [p]).flatten)) := by
  induction scai with
  | nil => simp [tablesOf, table, table1d, table2d, table1c1d]
  | cons p scai ih => rw [List.flatMap_cons]; exact (tables_cons nel m p scai).trans (ih.append_left _)

theorem table_single (r : List (Int × Int) → List Inter) (nel : List (List (Int × Int))) (p : Nat × Nat) :
    table r nel [p] = (r (hopping (nel.getD p.1 []) (nel.getD p.2 []))).map (fun x => (p, x)) := by simp [table]

/-- The rows of one pair. -/
theorem tables_one (nel : List (List (Int × Int))) (m : Nat) (p : Nat × Nat) (x : Inter)
    (hx : rowAll (hopping (nel.getD p.1 []) (nel.getD p.2 [])) = [x]) (hn : x.Normal) (hb : InB m x) :
    (tablesOf nel m [p]).flatten = (expand m x).map (fun r => (p, r)) := by
  have e : (expand m x).map (fun r => (p, r)) =
      (rowAll (hopping (nel.getD p.1 []) (nel.getD p.2 []))).flatMap (fun x => (expand m x).map (fun r => (p, r))) := by
    rw [hx]; simp
  have hall : ∀ y ∈ rowAll (hopping (nel.getD p.1 []) (nel.getD p.2 [])), y.Normal ∧ InB m y := by
    rw [hx]; simp [hn, hb]
  rw [e]
  clear e hx hn hb
  unfold tablesOf
  simp only [table_single]
  generalize hopping (nel.getD p.1 []) (nel.getD p.2 []) = h at *
  unfold rowAll at *
  simp only [List.flatMap_append, List.filterMap_append]
  have hNull : ((table1d m (((rowNull h).map (fun x => (p, x))).map Prod.fst)).map
        (fun x => ((x.1, Lstdm.Row.d1 x.2) : ExcRow)) ++
      (table2d m (((rowNull h).map (fun x => (p, x))).map Prod.fst)).map (fun x => ((x.1, Lstdm.Row.d2 x.2.1 x.2.2) : ExcRow))) =
      (rowNull h).flatMap (fun x => (expand m x).map (fun r => (p, r))) := by
    unfold rowNull
    split
    · by_cases hm : m > 1
      · simp [table1d, table2d, expand, hm]
        rfl
      · have : trilIndices m = [] := by
          have : m = 0 ∨ m = 1 := by omega
          rcases this with rfl | rfl <;> rfl
        simp [table1d, table2d, expand, hm, this]
    · simp [table1d, table2d]
  have h1c : ∀ c1 : List ((Nat × Nat) × (Nat × Nat × Nat)),
      c1 = ((row1c h).map (fun x => (p, x))).filterMap Lstdm.as1c →
      c1.map (fun x => ((x.1, Lstdm.Row.c1 x.2.1 x.2.2.1 x.2.2.2) : ExcRow)) ++
        (table1c1d m c1).map (fun x => ((x.1, Lstdm.Row.c1d1 x.2.1 x.2.2.1 x.2.2.2.1 x.2.2.2.2) : ExcRow)) =
        (row1c h).flatMap (fun x => (expand m x).map (fun r => (p, r))) := by
    intro c1 hc1
    subst hc1
    have hy : ∀ y ∈ row1c h, y.Normal ∧ InB m y := fun y hy => hall y (by simp [hy])
    revert hy
    unfold row1c
    split
    · intro hy
      have hy := hy _ (List.mem_singleton.mpr rfl)
      obtain ⟨⟨hij, _⟩, hi, hj⟩ := hy
      by_cases hm : m > 2
      · simp [table1c1d, expand, hm, List.filter_map, Lstdm.as1c]
        rfl
      · have : (List.range m).filter (fun k => !(lst h 0 == k || fst h 0 == k)) = [] := by
          rw [List.filter_eq_nil_iff]
          intro a ha
          rw [List.mem_range] at ha
          simp
          omega
        simp only [table1c1d, expand, if_neg hm, this]
        simp [Lstdm.as1c, expand, this]
        intro a ha h1; omega
    · intro _; simp [table1c1d]
  have h1s : ((row1s h).map (fun x => (p, x))).filterMap row1sOf = (row1s h).flatMap (fun x => (expand m x).map (fun r => (p, r))) := by
    unfold row1s; split <;> simp [expand, row1sOf]
  have h1s1c : ((row1s1c h).map (fun x => (p, x))).filterMap row1s1cOf =
      (row1s1c h).flatMap (fun x => (expand m x).map (fun r => (p, r))) := by
    unfold row1s1c; split <;> simp [expand, row1s1cOf]
  have h1s1cT : ((row1s1cT h).map (fun x => (p, x))).filterMap row1s1cOf =
      (row1s1cT h).flatMap (fun x => (expand m x).map (fun r => (p, r))) := by
    unfold row1s1cT; split <;> simp [expand, row1s1cOf]
  have hP : ((rowPair h).map (fun x => (p, x))).filterMap row2cOf = (rowPair h).flatMap (fun x => (expand m x).map (fun r => (p, r))) := by
    unfold rowPair; split <;> simp [expand, row2cOf]
  have hS : ((rowSplit h).map (fun x => (p, x))).filterMap row2cOf = (rowSplit h).flatMap (fun x => (expand m x).map (fun r => (p, r))) := by
    unfold rowSplit; split <;> simp [expand, row2cOf]
  have hC : ((rowCoalesce h).map (fun x => (p, x))).filterMap row2cOf =
      (rowCoalesce h).flatMap (fun x => (expand m x).map (fun r => (p, r))) := by
    unfold rowCoalesce; split <;> simp [expand, row2cOf]
  have hX : ((rowScatter h).map (fun x => (p, x))).filterMap row2cOf =
      (rowScatter h).flatMap (fun x => (expand m x).map (fun r => (p, r))) := by
    unfold rowScatter; split <;> simp [expand, row2cOf]
  simp only [List.flatten_cons, List.flatten_nil, List.append_nil]
  rw [h1s, h1s1c, h1s1cT, hP, hS, hC, hX, ← List.append_assoc _ _ (_ ++ _), hNull, ← List.append_assoc (List.map _ (List.filterMap _ _)), h1c _ rfl]

end Kern
end Verif.Lstdm
