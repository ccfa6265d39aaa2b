import Verif.Lemmas.HsiRow
/-!
# Lemmas: the groups and the whole product
-/
namespace Verif.Lstdm
open Verif.Spec Verif.Spec.Tdm Verif.Spec.Lstdm Verif.Signs Verif.Exc Verif.Addr Verif.Radix Verif.Props Verif.Np

/-- The slow fragments of a vector moved back to their places. -/
theorem withSlow_ok {R : Type} (g : List Nat → R) (lroots inv : List Nat) (hpos : 0 < lroots.prod) (hnd : inv.Nodup) (hlt : ∀ i ∈ inv, i < lroots.length) :
    ∃ w, Bigdim.withSlowFragments ⟨[lroots.prod], g⟩ lroots inv = some w ∧ ∀ t, InShape t lroots →
      w.get [0, posF lroots t] = g [posF (((List.range lroots.length).filter (fun i => decide (i ∉ inv))).map (fun i => lroots.getD i 0))
        (((List.range lroots.length).filter (fun i => decide (i ∉ inv))).map (fun i => t.getD i 0)) +
        (((List.range lroots.length).filter (fun i => decide (i ∉ inv))).map (fun i => lroots.getD i 0)).prod *
          posF (inv.map (fun i => lroots.getD i 0)) (inv.map (fun i => t.getD i 0))] := by
  have hprod := slow_prod lroots inv hnd hlt
  set spec := (List.range lroots.length).filter (fun i => decide (i ∉ inv)) with hspec
  have hperm := slowAxes_perm lroots.length inv hnd hlt
  have hlen : (Bigdim.slowAxes lroots.length inv).length = lroots.length + 1 := by simpa using hperm.length_eq
  have hmapl := slow_map lroots inv lroots 1 hlt rfl
  have hshape : (Bigdim.slowAxes lroots.length inv).dropLast.map (fun i => lroots.getD i 0) ++ [1] =
      (Bigdim.slowAxes lroots.length inv).map (fun i => (lroots ++ [1]).getD i 0) := by
    rw [hmapl]
    unfold Bigdim.slowAxes
    rw [List.dropLast_concat, List.map_append]
  have hTs : (⟨[lroots.prod], g⟩ : Nd R).shape.prod = ((Bigdim.slowAxes lroots.length inv).map (fun i => (lroots ++ [1]).getD i 0)).prod := by
    rw [hmapl]
    simp only [List.prod_cons, List.prod_nil, List.prod_append]
    rw [← hprod]
    ring
  have hsz : (⟨[lroots.prod], g⟩ : Nd R).size = lroots.prod := by
    rw [Nd.size]; simp
  have hpinv := argsort_perm (Bigdim.slowAxes lroots.length inv)
  have hlen' : (argsort (Bigdim.slowAxes lroots.length inv)).length = lroots.length + 1 := by
    rw [← hlen]; simpa using hpinv.length_eq
  obtain ⟨v, h1, h2, h3⟩ := C14_transpose_F (⟨[lroots.prod], g⟩ : Nd R)
    ((Bigdim.slowAxes lroots.length inv).map (fun i => (lroots ++ [1]).getD i 0))
    (argsort (Bigdim.slowAxes lroots.length inv)) hTs
    (by rw [← hTs]; simpa using hpos)
    (by simpa using hpinv)
  have hN : ((Bigdim.slowAxes lroots.length inv).map (fun i => (lroots ++ [1]).getD i 0)).prod = lroots.prod := by
    rw [← hTs]; simp
  refine ⟨Nd.T ⟨[lroots.prod, 1], fun t => v.get (unravelF v.shape (posF [lroots.prod, 1] t))⟩, ?_, ?_⟩
  · unfold Bigdim.withSlowFragments
    simp only [hsz]
    rw [if_neg (by omega), Nat.mod_self, Nat.div_self hpos, if_neg (by simp), hshape, h1]
    simp only [Option.bind_some]
    unfold Nd.reshapeF
    rw [if_pos (by rw [h2, hN]; simp)]
    rfl
  · intro t ht
    have htl := inShape_length ht
    have ht' : InShape (t ++ [0]) (lroots ++ [1]) := inShape_append ht (List.Forall₂.cons Nat.one_pos List.Forall₂.nil)
    have hax : ∀ i ∈ Bigdim.slowAxes lroots.length inv, i < (lroots ++ [1]).length := by
      intro i hi
      have := List.mem_range.mp (hperm.mem_iff.mp hi)
      simpa using this
    have hinv : ∀ x : List Nat, x.length = lroots.length + 1 →
        (argsort (Bigdim.slowAxes lroots.length inv)).map
          (fun i => ((Bigdim.slowAxes lroots.length inv).map (fun j => x.getD j 0)).getD i 0) = x := by
      intro x hx
      refine map_inv _ _ x (lroots.length + 1) hx hlen' ?_ ?_
      · intro i hi
        have := List.mem_range.mp (hpinv.mem_iff.mp hi)
        exact this
      · intro k hk
        exact argsort_inv _ (by rw [hlen]; exact hperm) k (by omega)
    have := h3 _ (inShape_axes ht' _ hax)
    rw [hinv _ (by simp), hinv _ (by simp [htl])] at this
    have hlt' := posF_lt (inShape_axes ht' _ hax)
    rw [hN] at hlt'
    rw [slow_map lroots inv t 0 hlt htl, hmapl, ← hspec] at this
    rw [slow_map lroots inv t 0 hlt htl, hmapl, ← hspec] at hlt'
    simp only [Nd.T, List.reverse_cons, List.reverse_nil, List.nil_append, List.cons_append]
    rw [h2]
    simp only [unravelF]
    have e : posF [lroots.prod, 1] [posF lroots t, 0] = posF (lroots ++ [1]) (t ++ [0]) := by
      rw [posF_append _ _ _ _ htl]; simp [posF]
    rw [e, Nat.mod_eq_of_lt (by rw [hN]; simpa using posF_lt ht'), this]
    simp only [Nd.flattenF, List.getD_cons_zero, unravelF]
    rw [Nat.mod_eq_of_lt hlt']
    rw [List.append_assoc, List.append_assoc, posF_append _ _ _ _ (by simp), posF_append _ _ _ _ (by simp)]
    simp [posF]

variable {K : Type} [Field K] [DecidableEq K]
namespace Kern
variable {k : Kern K}

/-- The result of a group goes to its place. -/
theorem putOx_ok (hK : Consistent k) {I : List Nat} (hI : aT I k.nlas.length = I) (ox1 o : Nat → K) :
    ∃ o', (List.range k.cols.length).foldlM (k.putOx I ox1) o = some o' ∧ ∀ β < k.nstates, o' β = o β + ox1 (k.offs0 (k.rootOf β) + k.twl I β) := by
  have hC := cols_of hK
  obtain ⟨o', e1, e2⟩ := foldlM_add (List.range k.cols.length) (k.putOx I ox1)
    (fun r β => if k.rootOf β = r then ox1 (k.offs0 (k.rootOf β) + k.twl I β) else 0) id k.nstates (by
      intro r hr ox
      rw [List.mem_range] at hr
      have hlen := hC.len r hr
      have hpos : 0 < (k.cols.getD r []).prod := prod_pos' _ fun a ha => by
        obtain ⟨f, hf, rfl⟩ := List.getElem_of_mem ha
        have := hC.pos r hr f (by rw [← hlen]; exact hf)
        unfold lr at this
        rwa [List.getD_eq_getElem _ _ hf] at this
      obtain ⟨w, h1, h2⟩ := withSlow_ok (fun t => ox1 (k.offs0 r + t.getD 0 0)) (k.cols.getD r []) I hpos (I_nodup hI)
        (fun f hf => by rw [hlen]; exact I_lt hI f hf)
      refine ⟨_, by unfold putOx; dsimp only; rw [h1]; rfl, fun β hβ => ?_⟩
      obtain ⟨hr', eβ, hadr⟩ := adr_of hC β hβ
      simp only [id]
      by_cases h : k.rootOf β = r
      · rw [h] at eβ hadr
        rw [if_pos h, h]
        have hin := inShape_of hC r hr _ eβ
        have hlt := posF_lt hin
        rw [adr_eq hC r hr] at hadr
        rw [offs0_eq hC r hr]
        rw [offs0_eq hC r hr] at h2
        have hsub : β - off k.cols r = posF (k.cols.getD r []) ((List.range k.nlas.length).map fun f => k.envOf f β) := by omega
        rw [if_pos ⟨by omega, by omega⟩, hsub, h2 _ hin]
        congr 2
        simp only [List.getD_cons_zero]
        congr 1
        have g : ∀ J : List Nat, (∀ f ∈ J, f < k.nlas.length) →
            J.map (fun i => ((List.range k.nlas.length).map (fun f => k.envOf f β)).getD i 0) = J.map (fun f => k.envOf f β) :=
          fun J hJ => List.map_congr_left fun f hf => getD_range_map _ _ _ (hJ f hf)
        rw [hlen, g _ (fun f hf => List.mem_range.mp (List.mem_filter.mp hf).1), g I (I_lt hI)]
        unfold twl pJ
        rw [h, Nat.mul_comm, Nat.add_comm]
        rfl
      · rw [if_neg h, add_zero, if_neg]
        rintro ⟨a1, a2⟩
        rw [offs0_eq hC r hr] at a1 a2
        have q2 := rootOf_off hC r (β - off k.cols r) hr (by omega)
        rw [show off k.cols r + (β - off k.cols r) = β by omega] at q2
        exact h q2) o
  refine ⟨o', e1, fun β hβ => ?_⟩
  have := e2 β hβ
  simp only [id] at this
  rw [this, sum_nodup_ite _ List.nodup_range, if_pos (List.mem_range.mpr (adr_of hC β hβ).1)]

/-! ## Groups -/

omit [Field K] [DecidableEq K] in
theorem addGroup_ne {α : Type} (gs : List (List Nat × List α)) (key : List Nat) (a : α) (h : ∀ g ∈ gs, g.2 ≠ []) :
    ∀ g ∈ addGroup gs key a, g.2 ≠ [] := by
  induction gs with
  | nil => intro g hg; simp only [addGroup, List.mem_singleton] at hg; subst hg; simp
  | cons x gs ih =>
    unfold addGroup
    split
    · intro g hg
      rw [List.mem_cons] at hg
      rcases hg with rfl | hg
      · simp
      · exact h g (by simp [hg])
    · intro g hg
      rw [List.mem_cons] at hg
      rcases hg with rfl | hg
      · exact h _ (by simp)
      · exact ih (fun y hy => h y (by simp [hy])) g hg

omit [DecidableEq K] in
theorem addGroup_spec {α : Type} (gs : List (List Nat × List α)) (key : List Nat) (a : α) (P : List Nat → α → Prop) (hP : P key a)
    (h : ∀ g ∈ gs, ∀ b ∈ g.2, P g.1 b) : (∀ g ∈ addGroup gs key a, ∀ b ∈ g.2, P g.1 b) ∧
    ∀ G : α → K, ((addGroup gs key a).map (fun g => (g.2.map G).sum)).sum = (gs.map (fun g => (g.2.map G).sum)).sum + G a := by
  induction gs with
  | nil =>
    refine ⟨?_, fun G => by simp [addGroup]⟩
    intro g hg b hb
    simp only [addGroup, List.mem_singleton] at hg
    subst hg
    simp only [List.mem_singleton] at hb
    subst hb; exact hP
  | cons g gs ih =>
    obtain ⟨i1, i2⟩ := ih (fun x hx => h x (by simp [hx]))
    unfold addGroup
    by_cases hk : g.1 = key
    · rw [if_pos hk]
      refine ⟨?_, fun G => ?_⟩
      · intro x hx b hb
        rw [List.mem_cons] at hx
        rcases hx with rfl | hx
        · rw [List.mem_append, List.mem_singleton] at hb
          rcases hb with hb | rfl
          · exact h g (by simp) b hb
          · dsimp only; rw [hk]; exact hP
        · exact h x (by simp [hx]) b hb
      · simp only [List.map_cons, List.sum_cons, List.map_append, List.sum_append, List.map_nil, List.sum_nil]
        ring
    · rw [if_neg hk]
      refine ⟨?_, fun G => ?_⟩
      · intro x hx b hb
        rw [List.mem_cons] at hx
        rcases hx with rfl | hx
        · exact h x (by simp) b hb
        · exact i1 x hx b hb
      · rw [List.map_cons, List.sum_cons, i2, List.map_cons, List.sum_cons, add_assoc]

/-- The groups hold every row once. -/
theorem groups_ok (mk : ExcRow → Option (Term K)) (rows : List ExcRow) (Q : ExcRow → Term K → Prop)
    (h : ∀ u ∈ rows, ∃ op, mk u = some op ∧ Q u op) :
    ∃ gs, optermGroups mk rows = some gs ∧ (∀ g ∈ gs, g.2 ≠ []) ∧ (∀ g ∈ gs, ∀ b ∈ g.2, (b.1 ∈ rows ∧ PySet.listSet b.1.2.inv = g.1) ∧ Q b.1 b.2) ∧
      ∀ G : ExcRow → K, (gs.map (fun g => (g.2.map (fun b => G b.1)).sum)).sum = (rows.map G).sum := by
  have key : ∀ rs : List ExcRow, (∀ u ∈ rs, u ∈ rows) → ∀ gs0 : List (List Nat × List (ExcRow × Term K)), (∀ g ∈ gs0, g.2 ≠ []) →
      (∀ g ∈ gs0, ∀ b ∈ g.2, (b.1 ∈ rows ∧ PySet.listSet b.1.2.inv = g.1) ∧ Q b.1 b.2) →
      ∃ gs, rs.foldlM (fun gs u => (mk u).map (fun op => addGroup gs (PySet.listSet u.2.inv) (u, op))) gs0 = some gs ∧ (∀ g ∈ gs, g.2 ≠ []) ∧
        (∀ g ∈ gs, ∀ b ∈ g.2, (b.1 ∈ rows ∧ PySet.listSet b.1.2.inv = g.1) ∧ Q b.1 b.2) ∧
        ∀ G : ExcRow → K, (gs.map (fun g => (g.2.map (fun b => G b.1)).sum)).sum =
          (gs0.map (fun g => (g.2.map (fun b => G b.1)).sum)).sum + (rs.map G).sum := by
    intro rs
    induction rs with
    | nil => intro _ gs0 hn h0; exact ⟨gs0, rfl, hn, h0, fun G => by simp⟩
    | cons u rs ih =>
      intro hm gs0 hn h0
      obtain ⟨op, e1, e2⟩ := h u (hm u (by simp))
      obtain ⟨a1, a2⟩ := addGroup_spec (K := K) gs0 (PySet.listSet u.2.inv) (u, op)
        (fun I b => (b.1 ∈ rows ∧ PySet.listSet b.1.2.inv = I) ∧ Q b.1 b.2) ⟨⟨hm u (by simp), rfl⟩, e2⟩ h0
      obtain ⟨gs, b1, b0, b2, b3⟩ := ih (fun x hx => hm x (by simp [hx])) _ (addGroup_ne gs0 _ _ hn) a1
      refine ⟨gs, ?_, b0, b2, fun G => ?_⟩
      · rw [List.foldlM_cons, e1]; exact b1
      · rw [b3, a2 (fun b => G b.1), List.map_cons, List.sum_cons, add_assoc]
  obtain ⟨gs, e1, e0, e2, e3⟩ := key rows (fun u hu => hu) [] (by simp) (by simp)
  exact ⟨gs, e1, e0, e2, fun G => by rw [e3]; simp⟩

/-- The links of a group have different hashes. -/
def HashOk (k : Kern K) (hash : Nat × List Nat → Int) (I : List Nat) (us : List ExcRow) : Prop :=
  ∀ L, k.allLinks I us = some L → ∀ e ∈ L, ∀ e' ∈ L, hash e = hash e' → e = e'

section
variable (hK : Consistent k) (hH : NoCollision k)
variable {v : Nat → Nat → Vec K} {H : Ham K} {Λ : D1 K × D2 K → K} {val : Nat → Nat → Lstdm.Row → Option K}
    (hO : Obs k H Λ val) (hD : Describes k.toLstdm v) (hHs : H.Sym) (h2 : (2 : K) ≠ 0) (h8 : k.nlas.length ≤ 8)

/-- The operator of a row is its matrix. -/
def OpOk (k : Kern K) (val : Nat → Nat → Lstdm.Row → Option K) (u : ExcRow) (op : Term K) : Prop :=
  let I := PySet.listSet u.2.inv
  TermOk (k.colOf I u.1.1).prod (k.colOf I u.1.2).prod (fun P q =>
      (val (k.adr u.1.1 (k.dig I u.1.1 P)) (k.adr u.1.2 (k.dig I u.1.2 q)) u.2).getD 0) op ∧
  TermOk (k.colOf I u.1.2).prod (k.colOf I u.1.1).prod (fun P q =>
      (val (k.adr u.1.1 (k.dig I u.1.1 q)) (k.adr u.1.2 (k.dig I u.1.2 P)) u.2).getD 0) op.conjT

include hK hH hO hD hHs h2 h8 in
theorem group_ok (hs : k.smult = none) (hash : Nat × List Nat → Int) (x : Nat → K) (g : List Nat × List (ExcRow × Term K))
    (hg : ∀ b ∈ g.2, ((∃ tab, k.Uniq tab b.1) ∧ PySet.listSet b.1.2.inv = g.1) ∧ k.OpOk val b.1 b.2) (hne : g.2 ≠ [])
    (hh : k.HashOk hash g.1 (g.2.map Prod.fst)) (o : Nat → K) :
    ∃ o', k.opuniqGroup hash x o g = some o' ∧ ∀ β < k.nstates, o' β = o β +
      (g.2.map (fun b => ∑ γ ∈ Finset.range k.nstates, k.tco val b.1 (k.imgsOf b.1) β γ * x γ)).sum := by
  have hgrp : k.Grp g.1 (g.2.map Prod.fst) := by
    intro u hu
    obtain ⟨b, hb, rfl⟩ := List.mem_map.mp hu
    exact ⟨(hg b hb).1.2, (hg b hb).1.1⟩
  obtain ⟨L, l1, l2, l3⟩ := ovlpLink_ok hK g.1 _ hgrp
  obtain ⟨link, e1, hl⟩ := l3 hash (hh L l1)
  have hL := linkOk hK hH h8 hgrp hl
  have hI : aT g.1 k.nlas.length = g.1 := by
    obtain ⟨b, hb⟩ := List.exists_mem_of_ne_nil _ hne
    obtain ⟨⟨⟨tab, hu⟩, hI⟩, _⟩ := hg b hb
    have hinv := inv_lt hK hH hu
    rw [← hI, listSet_small _ k.nlas.length (fun v hv => by have := hinv v hv; omega) hinv]
    unfold aT
    refine List.filter_congr fun f hf => ?_
    rw [List.mem_range] at hf
    simp [List.mem_filter, hf]
  obtain ⟨vs, e2, hst⟩ := groupVecs_ok hL hK (k.facOf g.1) x (fun r hr => hsiFac_fac hK hD g.1 r hr)
  obtain ⟨ox1, e3, p3⟩ := foldlM_add g.2 (k.opuniqX vs)
    (fun b β => ∑ γ ∈ Finset.range k.nstates, k.tco val b.1 (k.imgsOf b.1) β γ * x γ)
    (fun β => k.offs0 (k.rootOf β) + k.twl g.1 β) k.nstates (by
      intro b hb ox
      obtain ⟨⟨_, hI'⟩, hop⟩ := hg b hb
      unfold OpOk at hop
      rw [hI'] at hop
      exact opuniqX_ok hK hH hO hD hHs h2 h8 hs hgrp hl x vs hst (List.mem_map.mpr ⟨b, hb, rfl⟩) b.2 hop.1 hop.2 ox) (fun _ => 0)
  obtain ⟨o', e4, p4⟩ := putOx_ok hK hI ox1 o
  refine ⟨o', ?_, fun β hβ => ?_⟩
  · unfold opuniqGroup
    dsimp only [Option.bind_eq_bind]
    rw [e1]
    dsimp only [Option.bind_some]
    rw [e2]
    dsimp only [Option.bind_some]
    rw [e3]
    exact e4
  · rw [p4 β hβ, p3 β hβ, zero_add]

end
end Kern
end Verif.Lstdm
