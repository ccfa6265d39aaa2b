import Verif.Lemmas.KernCrunch
import Verif.Lemmas.KernTab
/-!
# Equivalent interactions, and the sum over all tables
-/
namespace Verif.Lstdm
open Verif.Spec Verif.Addr Verif.Exc Verif.Signs Verif.Spec.Tdm Verif.Spec.Lstdm

/-- Sum over groups. -/
theorem sum_group {α β R : Type} [DecidableEq β] [AddCommMonoid R] (tab : List α) (H : α → β) (ks : List β) (hk : ks.Nodup)
    (hmem : ∀ x ∈ tab, H x ∈ ks) (T : β → α → R) :
    (ks.map (fun h => ((tab.filter (fun x => H x == h)).map (T h)).sum)).sum = (tab.map (fun x => T (H x) x)).sum := by
  induction tab with
  | nil => simp
  | cons a tab ih =>
    rw [List.map_cons, List.sum_cons, ← ih (fun x hx => hmem x (by simp [hx]))]
    have ha : H a ∈ ks := hmem a (by simp)
    have : ks.map (fun h => (((a :: tab).filter (fun x => H x == h)).map (T h)).sum) =
        ks.map (fun h => (if h = H a then T h a else 0) + ((tab.filter (fun x => H x == h)).map (T h)).sum) := by
      apply List.map_congr_left
      intro h _
      by_cases e : H a = h
      · simp [e]
      · have e' : ¬ h = H a := fun q => e q.symm
        simp [e, e']
    rw [this, List.sum_map_add]
    congr 1
    rw [← List.sum_toFinset _ hk]
    simp [ha]

theorem sum_filterMap {α β R : Type} [AddCommMonoid R] (l : List α) (F : α → Option β) (S : β → R) :
    ((l.filterMap F).map S).sum = (l.map (fun h => ((F h).map S).getD 0)).sum := by
  induction l with
  | nil => rfl
  | cons a l ih =>
    rw [List.filterMap_cons, List.map_cons, List.sum_cons, ← ih]
    cases F a <;> simp

namespace Kern
variable {K : Type} {k : Kern K}

/-- The unique row that stands for `x`. -/
def rep (k : Kern K) (tab : List ExcRow) (x : ExcRow) : ExcRow := (tab.find? (fun y => k.fprintLT y == k.fprintLT x)).getD x

theorem rep_spec (tab : List ExcRow) (x : ExcRow) (hx : x ∈ tab) : k.rep tab x ∈ tab ∧ k.fprintLT (k.rep tab x) = k.fprintLT x ∧
    tab.find? (fun y => k.fprintLT y == k.fprintLT x) = some (k.rep tab x) := by
  unfold rep
  cases h : tab.find? (fun y => k.fprintLT y == k.fprintLT x) with
  | none =>
    rw [List.find?_eq_none] at h
    have := h x hx
    simp at this
  | some y =>
    refine ⟨List.mem_of_find?_eq_some h, ?_, rfl⟩
    have := List.find?_some h
    simpa using this

theorem mem_unique (tab : List ExcRow) (u : ExcRow) (hu : u ∈ k.findUniqueExc tab) : u ∈ tab ∧ k.rep tab u = u := by
  unfold findUniqueExc at hu
  rw [List.mem_filterMap] at hu
  obtain ⟨h, _, h2⟩ := hu
  have h3 := List.find?_some h2
  have h3 : k.fprintLT u = h := by simpa using h3
  refine ⟨List.mem_of_find?_eq_some h2, ?_⟩
  unfold rep
  rw [h3, h2]; rfl

/-- Bra and ket of an image. -/
def flp (k : Kern K) (u x : ExcRow) : Nat × Nat := if k.fprint x != k.fprint u then (x.1.2, x.1.1) else x.1

/-- Sum over unique rows and their images. -/
theorem sum_unique_images {R : Type} [AddCommMonoid R] (tab : List ExcRow) (G : ExcRow → Nat × Nat → R) :
    ((k.findUniqueExc tab).map (fun u => ((k.images tab u).map (G u)).sum)).sum =
      (tab.map (fun x => G (k.rep tab x) (k.flp (k.rep tab x) x))).sum := by
  unfold findUniqueExc
  rw [sum_filterMap]
  have hp := List.mergeSort_perm (tab.map k.fprintLT).dedup (fun a b => decide (a ≤ b))
  rw [(hp.map _).sum_eq]
  refine Eq.trans ?_ (sum_group tab k.fprintLT (tab.map k.fprintLT).dedup (List.nodup_dedup _) (by
    intro x hx; rw [List.mem_dedup]; exact List.mem_map_of_mem hx)
    (fun h x => G ((tab.find? (fun y => k.fprintLT y == h)).getD x) (k.flp ((tab.find? (fun y => k.fprintLT y == h)).getD x) x)))
  congr 1
  apply List.map_congr_left
  intro h hh
  rw [List.mem_dedup, List.mem_map] at hh
  obtain ⟨x, hx, rfl⟩ := hh
  obtain ⟨h1, h2, h3⟩ := rep_spec (k := k) tab x hx
  rw [h3, Option.map_some, Option.getD_some]
  unfold images
  rw [List.map_map, h2]
  rfl

variable [Field K] [DecidableEq K]

/-- The dictionary holds the images of the unique rows. -/
theorem lookup_eq (hkey : ∀ t ∈ k.tables, ∀ t' ∈ k.tables, ∀ u ∈ t, ∀ u' ∈ t', u.1 = u'.1 → u.2.inv = u'.2.inv → t = t' ∧ u = u')
    (t : List ExcRow) (ht : t ∈ k.tables) (u : ExcRow) (hu : u ∈ k.findUniqueExc t) :
    k.lookup (u.1, u.2.inv) = some (k.images t u) := by
  unfold lookup
  have hex : ∃ e ∈ k.nonuniqExc.reverse, (e.1 == (u.1, u.2.inv)) = true := by
    refine ⟨((u.1, u.2.inv), k.images t u), ?_, by simp⟩
    rw [List.mem_reverse]
    unfold nonuniqExc
    exact List.mem_flatMap.mpr ⟨t, ht, List.mem_map.mpr ⟨u, hu, rfl⟩⟩
  cases h : k.nonuniqExc.reverse.find? (fun e => e.1 == (u.1, u.2.inv)) with
  | none =>
    rw [List.find?_eq_none] at h
    obtain ⟨e, he, h2⟩ := hex
    exact absurd h2 (h e he)
  | some e =>
    have h1 := List.find?_some h
    have h2 := List.mem_of_find?_eq_some h
    rw [List.mem_reverse] at h2
    unfold nonuniqExc at h2
    obtain ⟨t', ht', h3⟩ := List.mem_flatMap.mp h2
    obtain ⟨u', hu', rfl⟩ := List.mem_map.mp h3
    have h1 : (u'.1, u'.2.inv) = (u.1, u.2.inv) := by simpa using h1
    rw [Prod.mk.injEq] at h1
    obtain ⟨rfl, rfl⟩ := hkey t' ht' t ht u' (mem_unique t' u' hu').1 u (mem_unique t u hu).1 h1.1 h1.2
    rfl

omit [DecidableEq K] in
theorem foldlM_coP {α : Type} (l : List α) (P : Nat → Nat → Prop) (F : Arr K → α → Option (Arr K)) (G : α → Nat → Nat → Ix → K)
    (h : ∀ a ∈ l, ∀ acc, ∃ acc', F acc a = some acc' ∧ ∀ b c, P b c → ∀ x, co (acc' b c) x = co (acc b c) x + G a b c x) (acc : Arr K) :
    ∃ acc', l.foldlM F acc = some acc' ∧
      ∀ b c, P b c → ∀ x, co (acc' b c) x = co (acc b c) x + (l.map (fun a => G a b c x)).sum := by
  induction l generalizing acc with
  | nil => exact ⟨acc, rfl, by simp⟩
  | cons a l ih =>
    obtain ⟨a1, h1, h2⟩ := h a (by simp) acc
    obtain ⟨a2, h3, h4⟩ := ih (fun a ha => h a (by simp [ha])) a1
    refine ⟨a2, by rw [List.foldlM_cons, h1]; exact h3, fun b c hp x => ?_⟩
    rw [h4 b c hp, h2 b c hp, List.map_cons, List.sum_cons, add_assoc]

end Kern
end Verif.Lstdm
