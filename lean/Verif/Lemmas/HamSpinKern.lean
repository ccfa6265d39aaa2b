import Verif.Lemmas.HamSpinDisp
import Verif.Lemmas.HamSim
import Verif.Spec.HamSpin
/-!
# Lemmas: the rows that share an operator
-/
namespace Verif.HamSpin
open Verif.Lstdm Verif.FciRdm Verif.FragTables Verif.FragSpin Verif.RdmSmult Verif.SpinReduce Verif.Exc Verif.Addr Verif.Spec
open Verif.Spec.Tdm Verif.Spec.RdmSmult Verif.Spec.Spin Verif.Spec.FragSpin Verif.Spec.FragTables Verif.Spec.FciRdm Verif.Spec.Lstdm
open Verif.Spec.HamSpin

section
variable {F : SFrag} (hM : Multiplicities F) (hF : Coherent F.toFrag) (hN : Manifolds F)
include hM hF hN

/-- Two pairs of rootspaces with the same table entry. -/
theorem inter_like {u w u' w' : Nat} (hu : u < F.nuroots) (hw : w < F.nuroots) (hu' : u' < F.nuroots) (hw' : w' < F.nuroots)
    (h : interMap F u' w' = interMap F u w) :
    ((F.nelec (F.addr u')).1 + (F.nelec (F.addr u')).2 = (F.nelec (F.addr u)).1 + (F.nelec (F.addr u)).2 ∧
      F.lroots (F.addr u') = F.lroots (F.addr u)) ∧
    ((F.nelec (F.addr w')).1 + (F.nelec (F.addr w')).2 = (F.nelec (F.addr w)).1 + (F.nelec (F.addr w)).2 ∧
      F.lroots (F.addr w') = F.lroots (F.addr w)) ∧ dif F (F.addr u') (F.addr w') = dif F (F.addr u) (F.addr w) := by
  obtain ⟨l1, l2, e1, e2⟩ := stands_like hM hF hN hu hw (interMap_stands F hu hw)
  have hs := interMap_stands F hu' hw'
  rw [h] at hs
  obtain ⟨l1', l2', e1', e2'⟩ := stands_like hM hF hN hu' hw' hs
  refine ⟨⟨l1'.tot.symm.trans l1.tot, l1'.lroots.symm.trans l1.lroots⟩, ⟨l2'.tot.symm.trans l2.tot, l2'.lroots.symm.trans l2.lroots⟩, ?_⟩
  unfold dif
  rw [← e1, ← e2, ← e1', ← e2']

end

variable {k : SpinKern}

theorem cols_getD (r : Nat) (hr : r < k.nroots) :
    k.toKern.cols.getD r [] = (List.range k.nlas.length).map fun f => (k.frag f).lroots r := by
  unfold SpinKern.toKern
  simp [List.getD_eq_getElem?_getD, List.getElem?_map, List.getElem?_range hr]

theorem nelec_getD (r : Nat) (hr : r < k.nroots) :
    k.toKern.nelec.getD r [] = (List.range k.nlas.length).map fun f => (k.frag f).nelec r := by
  unfold SpinKern.toKern
  simp [List.getD_eq_getElem?_getD, List.getElem?_map, List.getElem?_range hr]

theorem lr_eq (r f : Nat) (hr : r < k.nroots) (hf : f < k.nlas.length) : k.toKern.lr r f = (k.frag f).lroots r := by
  unfold Kern.lr
  rw [cols_getD r hr]
  simp [List.getD_eq_getElem?_getD, List.getElem?_map, List.getElem?_range hf]

theorem ne_eq (r f : Nat) (hr : r < k.nroots) (hf : f < k.nlas.length) : (k.toKern.nelec.getD r []).getD f (0, 0) = (k.frag f).nelec r := by
  rw [nelec_getD r hr]
  simp [List.getD_eq_getElem?_getD, List.getElem?_map, List.getElem?_range hf]

theorem cols_length : k.toKern.cols.length = k.nroots := by unfold SpinKern.toKern; simp

variable (hG : Ready k)
include hG

theorem rep_of (f r r' : Nat) (hf : f < k.nlas.length) (hr : r < k.nroots) (hr' : r' < k.nroots)
    (h : (k.frag f).urootIdx r = (k.frag f).urootIdx r') : (k.frag f).rep r = (k.frag f).rep r' := by
  have hF := hG.coherent f hf
  have hn := hG.nroots f hf
  rw [← addr_idx hF (i := r) (by omega), ← addr_idx hF (i := r') (by omega), h]

theorem consistent : Consistent k.toKern := by
  refine ⟨?_, ?_, ?_, ?_, ?_⟩
  · intro c hc
    unfold SpinKern.toKern at hc
    simp only [List.mem_map, List.mem_range] at hc
    obtain ⟨r, _, rfl⟩ := hc
    simp [SpinKern.toKern]
  · intro c hc n hn
    unfold SpinKern.toKern at hc
    simp only [List.mem_map, List.mem_range] at hc
    obtain ⟨r, hr, rfl⟩ := hc
    obtain ⟨f, hf, rfl⟩ := List.mem_map.1 hn
    exact (hG.lroots f (List.mem_range.1 hf) r hr).1
  · intro r hr
    rw [cols_length] at hr
    rw [nelec_getD r hr]
    simp [SpinKern.toKern]
  · intro f hf r hr r' hr' h
    rw [cols_length] at hr hr'
    have := rep_of hG f r r' hf hr hr' h
    have h1 := lr_eq r f hr hf
    have h2 := lr_eq r' f hr' hf
    unfold Kern.lr at h1 h2
    rw [h1, h2, ← (hG.lroots f hf r hr).2, ← (hG.lroots f hf r' hr').2, this]
  · intro f hf r hr r' hr' h
    rw [cols_length] at hr hr'
    have := rep_of hG f r r' hf hr hr' h
    have hn := hG.nroots f hf
    rw [ne_eq r f hr hf, ne_eq r' f hr' hf, ← (hG.coherent f hf).nelec r (by omega), ← (hG.coherent f hf).nelec r' (by omega), this]

/-- The class of a row. -/
theorem row_class (tab : List Kern.ExcRow) (ht : tab ∈ k.toKern.tables) (x : Kern.ExcRow) (hx : x ∈ tab) :
    x.1.1 < k.nroots ∧ x.1.2 < k.nroots ∧
    ∃ X : Inter, rowAll (hopping (k.toKern.nelecI.getD x.1.1 []) (k.toKern.nelecI.getD x.1.2 [])) = [X] ∧ X.Normal ∧
      InB k.nlas.length X ∧ k.toKern.Diff x.1.1 x.1.2 X ∧ x.2 ∈ expand k.nlas.length X := by
  have hK := consistent hG
  have hm : x ∈ (Kern.tablesOf k.toKern.nelecI k.toKern.nlas.length k.toKern.scai).flatten := by
    rw [← Kern.tables_eq]; exact List.mem_flatten.2 ⟨tab, ht, hx⟩
  have := (Kern.tables_flat _ _ _).mem_iff.1 hm
  obtain ⟨p, hp, h⟩ := List.mem_flatMap.1 this
  obtain ⟨X, e, hN, hB, hD⟩ := Kern.cls_ex hK p hp
  rw [Kern.tables_one _ _ p X e hN hB] at h
  obtain ⟨r, hr, rfl⟩ := List.mem_map.1 h
  have hs := (Kern.mem_scai p).1 hp
  rw [cols_length] at hs
  exact ⟨hs.1, hs.2.1, X, e, hN, hB, hD, hr⟩

theorem cr_eq (r f : Nat) (hr : r < k.nroots) (hf : f < k.nlas.length) :
    k.toKern.cr r f false = ((k.frag f).nelec r).1 ∧ k.toKern.cr r f true = ((k.frag f).nelec r).2 := by
  have h := Kern.nelecI_cr (k := k.toKern) r f
  have e : (k.toKern.nelecI.getD r []).getD f (0, 0) = ((((k.frag f).nelec r).1 : ℤ), (((k.frag f).nelec r).2 : ℤ)) := by
    unfold Kern.nelecI
    have h1 := nelec_getD (k := k) r hr
    rw [List.getD_eq_getElem?_getD] at h1
    have hl : r < k.toKern.nelec.length := by unfold SpinKern.toKern; simpa using hr
    rw [List.getElem?_eq_getElem hl, Option.getD_some] at h1
    rw [List.getD_eq_getElem?_getD (l := List.map _ _), List.getElem?_map, List.getElem?_eq_getElem hl, Option.map_some, Option.getD_some,
      h1]
    simp [List.getD_eq_getElem?_getD, List.getElem?_map, List.getElem?_range hf]
  rw [e] at h
  simp only [Prod.mk.injEq] at h
  exact ⟨h.1.symm, h.2.symm⟩

/-- What two rows with the same words have in common. -/
structure Alike (k : SpinKern) (g x : Kern.ExcRow) : Prop where
  row : g.2 = x.2
  inter : ∀ f ∈ x.2.inv, interMap (k.frag f) ((k.frag f).urootIdx g.1.1) ((k.frag f).urootIdx g.1.2) =
    interMap (k.frag f) ((k.frag f).urootIdx x.1.1) ((k.frag f).urootIdx x.1.2)
  lb : ∀ f ∈ x.2.inv, k.toKern.lr g.1.1 f = k.toKern.lr x.1.1 f
  lk : ∀ f ∈ x.2.inv, k.toKern.lr g.1.2 f = k.toKern.lr x.1.2 f
  eb : ∀ f ∈ x.2.inv, ((k.frag f).nelec g.1.1).1 + ((k.frag f).nelec g.1.1).2 = ((k.frag f).nelec x.1.1).1 + ((k.frag f).nelec x.1.1).2
  ek : ∀ f ∈ x.2.inv, ((k.frag f).nelec g.1.2).1 + ((k.frag f).nelec g.1.2).2 = ((k.frag f).nelec x.1.2).1 + ((k.frag f).nelec x.1.2).2

theorem alike (tab : List Kern.ExcRow) (ht : tab ∈ k.toKern.tables) (g x : Kern.ExcRow) (hg : g ∈ tab) (hx : x ∈ tab)
    (h : k.spmanWords g = k.spmanWords x) : Alike k g x := by
  obtain ⟨g1, g2, G, eG, nG, bG, dG, rG⟩ := row_class hG tab ht g hg
  obtain ⟨x1, x2, X, eX, nX, bX, dX, rX⟩ := row_class hG tab ht x hx
  have hlen := Kern.tab_kind _ _ _ tab (by rw [← Kern.tables_eq]; exact ht) g x hg hx
  have hinvg := expand_lt _ _ bG _ rG
  have hinvx := expand_lt _ _ bX _ rX
  unfold SpinKern.spmanWords at h
  dsimp only at h
  rw [List.append_assoc, List.append_assoc] at h
  obtain ⟨h1, h2⟩ := List.append_inj h (by rw [List.length_mergeSort, List.length_mergeSort, hlen])
  rw [h1] at h2
  obtain ⟨h3, h4⟩ := List.append_inj h2 (by simp)
  rw [List.map_map, List.map_map, List.map_inj_left] at h3 h4
  have hmem : ∀ f, f ∈ x.2.inv.mergeSort (fun a b => decide (a ≤ b)) ↔ f ∈ x.2.inv := fun f => List.mem_mergeSort
  have hset : SameSet g.2.inv x.2.inv := by
    intro f
    rw [← hmem, ← h1, List.mem_mergeSort]
  have hint : ∀ f ∈ x.2.inv, interMap (k.frag f) ((k.frag f).urootIdx g.1.1) ((k.frag f).urootIdx g.1.2) =
      interMap (k.frag f) ((k.frag f).urootIdx x.1.1) ((k.frag f).urootIdx x.1.2) := fun f hf =>
    Prod.ext (h3 f ((hmem f).2 hf)) (h4 f ((hmem f).2 hf))
  have hlike : ∀ f ∈ x.2.inv, (((((k.frag f).nelec g.1.1).1 + ((k.frag f).nelec g.1.1).2 = ((k.frag f).nelec x.1.1).1 + ((k.frag f).nelec x.1.1).2) ∧
      (k.frag f).lroots g.1.1 = (k.frag f).lroots x.1.1) ∧
      ((((k.frag f).nelec g.1.2).1 + ((k.frag f).nelec g.1.2).2 = ((k.frag f).nelec x.1.2).1 + ((k.frag f).nelec x.1.2).2) ∧
      (k.frag f).lroots g.1.2 = (k.frag f).lroots x.1.2)) ∧ dif (k.frag f) g.1.1 g.1.2 = dif (k.frag f) x.1.1 x.1.2 := by
    intro f hf
    have hfm := hinvx f hf
    have hF := hG.coherent f hfm
    have hn := hG.nroots f hfm
    have I : ∀ r < k.nroots, (k.frag f).urootIdx r < (k.frag f).nuroots := fun r hr => idx_lt hF (by omega)
    obtain ⟨a, b, c⟩ := inter_like (hG.mult f hfm) hF (hG.man f hfm) (I _ x1) (I _ x2) (I _ g1) (I _ g2) (hint f hf)
    have A : ∀ r < k.nroots, (k.frag f).nelec ((k.frag f).addr ((k.frag f).urootIdx r)) = (k.frag f).nelec r ∧
        (k.frag f).lroots ((k.frag f).addr ((k.frag f).urootIdx r)) = (k.frag f).lroots r := fun r hr => by
      rw [addr_idx hF (by omega)]; exact ⟨hF.nelec r (by omega), (hG.lroots f hfm r hr).2⟩
    unfold dif at c ⊢
    rw [(A _ g1).1, (A _ x1).1, (A _ g1).2, (A _ x1).2] at a
    rw [(A _ g2).1, (A _ x2).1, (A _ g2).2, (A _ x2).2] at b
    rw [(A _ g1).1, (A _ x1).1, (A _ g2).1, (A _ x2).1] at c
    exact ⟨⟨a, b⟩, c⟩
  have hD : ∀ f < k.nlas.length, dif (k.frag f) g.1.1 g.1.2 = dif (k.frag f) x.1.1 x.1.2 := by
    intro f hf
    by_cases hm : f ∈ x.2.inv
    · exact (hlike f hm).2
    · have a := fun σ => (dG f hf σ).trans (mvs_spec _ _ _ rG f σ (fun h => hm ((hset f).1 h)))
      have b := fun σ => (dX f hf σ).trans (mvs_spec _ _ _ rX f σ hm)
      have a0 := a false; have a1 := a true; have b0 := b false; have b1 := b true
      rw [(cr_eq hG _ f g1 hf).1, (cr_eq hG _ f g2 hf).1] at a0
      rw [(cr_eq hG _ f g1 hf).2, (cr_eq hG _ f g2 hf).2] at a1
      rw [(cr_eq hG _ f x1 hf).1, (cr_eq hG _ f x2 hf).1] at b0
      rw [(cr_eq hG _ f x1 hf).2, (cr_eq hG _ f x2 hf).2] at b1
      unfold dif
      rw [a0, a1, b0, b1]
  have hK := consistent hG
  have hhop : hopping (k.toKern.nelecI.getD g.1.1 []) (k.toKern.nelecI.getD g.1.2 []) =
      hopping (k.toKern.nelecI.getD x.1.1 []) (k.toKern.nelecI.getD x.1.2 []) := by
    have hl : ∀ r < k.nroots, k.toKern.nelecI.getD r [] =
        (List.range k.nlas.length).map fun f => ((((k.frag f).nelec r).1 : ℤ), (((k.frag f).nelec r).2 : ℤ)) := by
      intro r hr
      unfold Kern.nelecI
      have h1 := nelec_getD (k := k) r hr
      rw [List.getD_eq_getElem?_getD] at h1
      have hl : r < k.toKern.nelec.length := by unfold SpinKern.toKern; simpa using hr
      rw [List.getElem?_eq_getElem hl, Option.getD_some] at h1
      rw [List.getD_eq_getElem?_getD (l := List.map _ _), List.getElem?_map, List.getElem?_eq_getElem hl, Option.map_some,
        Option.getD_some, h1, List.map_map]
      rfl
    have hh : ∀ r < k.nroots, ∀ r' < k.nroots, hopping (k.toKern.nelecI.getD r []) (k.toKern.nelecI.getD r' []) =
        (List.range k.nlas.length).map fun f => dif (k.frag f) r r' := by
      intro r hr r' hr'
      unfold hopping
      rw [hl r hr, hl r' hr', List.zip_map', List.map_map]
      rfl
    rw [hh _ g1 _ g2, hh _ x1 _ x2]
    exact List.map_congr_left fun f hf => hD f (List.mem_range.1 hf)
  have hGX : G = X := by
    rw [hhop, eX] at eG
    simpa using eG.symm
  subst hGX
  refine ⟨expand_inv_inj _ _ _ _ rG rX hset, hint, fun f hf => ?_, fun f hf => ?_, fun f hf => (hlike f hf).1.1.1, fun f hf => (hlike f hf).1.2.1⟩
  · rw [lr_eq _ f g1 (hinvx f hf), lr_eq _ f x1 (hinvx f hf)]; exact (hlike f hf).1.1.2
  · rw [lr_eq _ f g2 (hinvx f hf), lr_eq _ f x2 (hinvx f hf)]; exact (hlike f hf).1.2.2

end Verif.HamSpin
