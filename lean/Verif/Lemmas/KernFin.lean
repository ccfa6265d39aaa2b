import Verif.Lemmas.KernSum
import Verif.Spec.LstdmKernel
import Verif.Lemmas.SCList
import Verif.Lemmas.SCSpin
/-!
# All rows of all tables
-/
namespace Verif.Lstdm
open Verif.Spec Verif.Addr Verif.Exc Verif.Signs Verif.Spec.Tdm Verif.Spec.Lstdm

namespace Kern
variable {K : Type} {k : Kern K}

/-- Number of electrons of spin `σ` of fragment `f` in rootspace `r`. -/
def cr (k : Kern K) (r f : Nat) (σ : Bool) : ℤ :=
  if σ then (((k.nelec.getD r []).getD f (0, 0)).2 : ℤ) else (((k.nelec.getD r []).getD f (0, 0)).1 : ℤ)

theorem nelecI_cr (r f : Nat) : (k.nelecI.getD r []).getD f (0, 0) = (k.cr r f false, k.cr r f true) := by
  unfold nelecI cr
  have : (k.nelec.map (fun l => l.map (fun p => ((p.1 : Int), (p.2 : Int))))).getD r [] =
      (k.nelec.getD r []).map (fun p => ((p.1 : Int), (p.2 : Int))) := by
    rw [List.getD_eq_getElem?_getD, List.getElem?_map, List.getD_eq_getElem?_getD]
    cases k.nelec[r]? <;> simp
  rw [this]
  generalize k.nelec.getD r [] = l
  rw [List.getD_eq_getElem?_getD, List.getElem?_map, List.getD_eq_getElem?_getD]
  cases l[f]? <;> simp

theorem nelecI_len (r : Nat) : (k.nelecI.getD r []).length = (k.nelec.getD r []).length := by
  unfold nelecI
  rw [List.getD_eq_getElem?_getD, List.getElem?_map, List.getD_eq_getElem?_getD]
  cases k.nelec[r]? <;> simp

theorem cz_root [CommRing K] (st f : Nat) (σ : Bool) : cz k.toLstdm st f σ = k.cr (k.rootOf st) f σ := by
  unfold cz cnt cr toLstdm
  cases σ <;> rfl

/-- Difference of two rootspaces is the interaction `x`. -/
def Diff (k : Kern K) (X Y : Nat) (x : Inter) : Prop :=
  ∀ f < k.nlas.length, ∀ σ, k.cr X f σ - k.cr Y f σ = ((mvs x).map (fun p => ei p.1 (f, σ) - ei p.2 (f, σ))).sum

theorem allowed_coupled (p : Nat × Nat) (h : k.allowed p = true) : SC.isCoupled (k.nelecI.getD p.1 []) (k.nelecI.getD p.2 []) = true := by
  unfold allowed at h
  split at h
  · exact h
  · unfold SC.cplSpin at h
    rename_i sm _
    apply SC.isCoupledS_le _ _ (sm.getD p.1 []) (sm.getD p.2 [])
    revert h
    generalize SC.isCoupledS _ _ _ _ = o
    cases o <;> simp

theorem allowed_symm (i j : Nat) : k.allowed (i, j) = k.allowed (j, i) := by
  unfold allowed
  split
  · exact SC.isCoupled_symm _ _
  · unfold SC.cplSpin
    rw [SC.isCoupledS_symm]

theorem mem_scai (p : Nat × Nat) : p ∈ k.scai ↔ p.1 < k.cols.length ∧ p.2 < k.cols.length ∧ p.2 ≤ p.1 ∧ k.allowed p = true := by
  obtain ⟨i, j⟩ := p
  unfold scai tril
  simp only [if_true, List.mem_filter, List.mem_flatMap, List.mem_map, List.mem_range, Prod.mk.injEq, decide_eq_true_eq]
  constructor
  · rintro ⟨⟨⟨a, ha, b, hb, rfl, rfl⟩, h2⟩, h3⟩
    exact ⟨ha, hb, h3, h2⟩
  · rintro ⟨h1, h2, h3, h4⟩
    exact ⟨⟨⟨i, h1, j, h2, rfl, rfl⟩, h4⟩, h3⟩

theorem nodup_scai : k.scai.Nodup := by
  unfold scai tril
  simp only [if_true]
  refine List.Nodup.filter _ (List.Nodup.filter _ ?_)
  rw [List.nodup_flatMap]
  refine ⟨fun i _ => List.nodup_range.map (fun a b h => by simpa using h), ?_⟩
  refine List.nodup_range.imp ?_
  intro a b hab
  simp only [Function.onFun, List.disjoint_left, List.mem_map, List.mem_range]
  rintro _ ⟨x, _, rfl⟩ ⟨y, _, h⟩
  simp only [Prod.mk.injEq] at h
  exact hab h.1.symm

section
variable (hK : Consistent k)
include hK

theorem cols_of : k.Cols := by
  refine ⟨fun r hr => ?_, fun r hr f hf => ?_⟩
  · rw [List.getD_eq_getElem _ _ hr]; exact hK.lroots_len _ (List.getElem_mem _)
  · unfold lr
    have hl := hK.lroots_len _ (List.getElem_mem hr)
    rw [List.getD_eq_getElem _ _ hr, List.getD_eq_getElem _ _ (by rw [hl]; exact hf)]
    exact hK.lroots_pos _ (List.getElem_mem hr) _ (List.getElem_mem _)

theorem same_of : k.Same := ⟨hK.same_lroots, hK.same_nelec⟩

theorem cls_ex (p : Nat × Nat) (hp : p ∈ k.scai) : ∃ x : Inter, rowAll (hopping (k.nelecI.getD p.1 []) (k.nelecI.getD p.2 [])) = [x] ∧
    x.Normal ∧ InB k.nlas.length x ∧ k.Diff p.1 p.2 x := by
  rw [mem_scai] at hp
  obtain ⟨h1, h2, _, h4⟩ := hp
  have l1 : (k.nelecI.getD p.1 []).length = k.nlas.length := by rw [nelecI_len, hK.nelec_len _ h1]
  have l2 : (k.nelecI.getD p.2 []).length = k.nlas.length := by rw [nelecI_len, hK.nelec_len _ h2]
  obtain ⟨x, e1, e2, e3⟩ := Verif.Props.classify_screened _ _ (l1.trans l2.symm) (allowed_coupled _ h4)
  refine ⟨x, e1, e2, ?_, ?_⟩
  · have := rowAll_inB _ x (by rw [e1]; simp)
    rwa [show (hopping (k.nelecI.getD p.1 []) (k.nelecI.getD p.2 [])).length = k.nlas.length by
      unfold hopping; rw [List.length_map, List.length_zip, l1, l2, Nat.min_self]] at this
  · intro f hf σ
    rw [← change_pt]
    have := e3 f (by rw [l1]; exact hf)
    rw [nelecI_cr, nelecI_cr] at this
    cases σ
    · exact this.1.symm
    · exact this.2.symm

/-- The rows of all tables. -/
theorem tables_all : ∃ cls : Nat × Nat → Inter, (∀ p ∈ k.scai, (cls p).Normal ∧ InB k.nlas.length (cls p) ∧ k.Diff p.1 p.2 (cls p)) ∧
    k.tables.flatten.Perm (k.scai.flatMap (fun p => (expand k.nlas.length (cls p)).map (fun r => ((p, r) : ExcRow)))) := by
  haveI : Nonempty Inter := ⟨.null⟩
  choose! cls h1 h2 h3 h4 using cls_ex hK
  refine ⟨cls, fun p hp => ⟨h2 p hp, h3 p hp, h4 p hp⟩, ?_⟩
  rw [tables_eq]
  refine (tables_flat _ _ _).trans (List.Perm.of_eq ?_)
  rw [List.flatMap_congr]
  intro p hp
  exact tables_one _ _ p (cls p) (h1 p hp) (h2 p hp) (h3 p hp)

end

/-- Equivalent rows. -/
theorem rep_words (hH : NoCollision k) (tab : List ExcRow) (ht : tab ∈ k.tables) (x : ExcRow) (hx : x ∈ tab) :
    SameSet x.2.inv (k.rep tab x).2.inv ∧ (k.flp (k.rep tab x) x = x.1 ∨ k.flp (k.rep tab x) x = (x.1.2, x.1.1)) ∧
      ∀ f ∈ (k.rep tab x).2.inv, k.uroot f (k.flp (k.rep tab x) x).1 = k.uroot f (k.rep tab x).1.1 ∧
        k.uroot f (k.flp (k.rep tab x) x).2 = k.uroot f (k.rep tab x).1.2 := by
  obtain ⟨h1, h2, _⟩ := rep_spec (k := k) tab x hx
  generalize k.rep tab x = u at *
  obtain ⟨c1, c2⟩ := hH tab ht x hx u h1
  have hlen : (x.2.inv.map (fun f : Nat => (f : Int))).length = (u.2.inv.map (fun f : Nat => (f : Int))).length := by
    rw [List.length_map, List.length_map]
    rw [tables_eq] at ht
    exact tab_kind _ _ _ tab ht x u hx h1
  obtain ⟨hp, hor⟩ := SC.fprintRows_LT_inj _ _ _ _ _ _ _ hlen (c2 h2.symm)
  have hset : SameSet x.2.inv u.2.inv := by
    intro g
    have := hp.mem_iff (a := (g : Int))
    simpa using this
  refine ⟨hset, by unfold flp; split <;> simp, fun f hf => ?_⟩
  have hfx : ((f : Int)) ∈ x.2.inv.map (fun f : Nat => (f : Int)) := List.mem_map_of_mem ((hset f).mpr hf)
  unfold flp
  by_cases he : k.fprint x = k.fprint u
  · rw [if_neg (by simp [he])]
    have := (SC.fprintRows_inj _ _ _ _ _ _ _ hlen (c1 he)).2 _ hfx
    simpa using this
  · rw [if_pos (by simpa using he)]
    rcases hor with h | h
    · exfalso
      apply he
      unfold fprint
      congr 2
      unfold words
      rw [SC.fprintRows_perm _ _ _ _ _ hp]
      unfold SC.fprintRows
      dsimp only
      congr 1
      · congr 1
        apply List.map_congr_left
        intro y hy
        exact (h y (hp.mem_iff.mpr ((SC.bubblesort_spec _).1.mem_iff.mp hy))).1
      · apply List.map_congr_left
        intro y hy
        exact (h y (hp.mem_iff.mpr ((SC.bubblesort_spec _).1.mem_iff.mp hy))).2
    · have := h _ hfx
      simp only [Int.toNat_natCast, Nat.cast_inj] at this
      exact ⟨this.2, this.1⟩

end Kern
end Verif.Lstdm
