import Verif.Lemmas.SpinLookup
import Verif.Props.FragTables
/-!
# C107: the tables of fragment matrix elements when spin multiplicities are given

One entry of a table serves all pairs of rootspaces that belong to the same two spin multiplets and have the same difference of spin
projections: the entry is computed with vectors that are rotated to high projections, and rotated back when it is looked up.
-/
namespace Verif.Props
open Verif.FragSpin Verif.FragTables Verif.FciRdm Verif.RdmSmult Verif.Spec.FciRdm Verif.Spec.Tdm Verif.Spec.Lstdm Verif.Spec.FragTables
open Verif.Spec.FragSpin Verif.Spec.RdmSmult Verif.Spec.Spin

/-- **C107**. The rootspaces that are put into one manifold when the tables are made are states of the same multiplets with
different projections. -/
theorem C107_manifolds {F : SFrag} (hM : Multiplicities F) (hN : Normalized F) : Manifolds { F with spman := manifolds F } :=
  manifolds_spec hM hN

namespace FragSpin

/-- Looking up. -/
theorem lookup {F : SFrag} (hF : Coherent F.toFrag) (hM : Multiplicities F) (hN : Manifolds F) {M : Mats ℝ} (hT : FilledS F M)
    (hst : ∀ st, F.rootaddr st < F.nroots ∧ F.fragaddr st < F.lroots (F.rep (F.rootaddr st))) :
    Exact (toFragIntS F M) F.norb (fun st => civ F.toFrag (F.rep (F.rootaddr st)) (F.fragaddr st))
      (fun st σ => if σ then (F.nelec (F.rootaddr st)).2 else (F.nelec (F.rootaddr st)).1) := by
  have hr : ∀ st, F.rep (F.rootaddr st) < F.nroots ∧ F.unique (F.rep (F.rootaddr st)) = true := fun st => hF.rep _ (hst st).1
  have hne : ∀ st, F.nelec (F.rep (F.rootaddr st)) = F.nelec (F.rootaddr st) := fun st => hF.nelec _ (hst st).1
  have hsm : ∀ st, F.smult (F.rootaddr st) = F.smult (F.rep (F.rootaddr st)) := fun st => (hM.rep _ (hst st).1).symm
  have hsp : ∀ st, F.spin (F.rootaddr st) = F.spin (F.rep (F.rootaddr st)) := fun st => by unfold SFrag.spin; rw [hne]
  have hu : ∀ st, F.urootIdx (F.rootaddr st) < F.nuroots := fun st => idx_lt hF (hst st).1
  have had : ∀ st, F.addr (F.urootIdx (F.rootaddr st)) = F.rep (F.rootaddr st) := fun st => addr_idx hF (hst st).1
  have hL : ∀ (k : Kind), k ≠ .ovlp → ∀ i j, ((F.nelec (F.rep (F.rootaddr i))).1 : ℤ) = (F.nelec (F.rep (F.rootaddr j))).1 + (dn k).1 →
      ((F.nelec (F.rep (F.rootaddr i))).2 : ℤ) = (F.nelec (F.rep (F.rootaddr j))).2 + (dn k).2 →
      (k = .dm → (interMap F (F.urootIdx (F.rootaddr i)) (F.urootIdx (F.rootaddr j))).2 ≤
        (interMap F (F.urootIdx (F.rootaddr i)) (F.urootIdx (F.rootaddr j))).1) →
      Look F M k (interMap F (F.urootIdx (F.rootaddr i)) (F.urootIdx (F.rootaddr j))).1
        (interMap F (F.urootIdx (F.rootaddr i)) (F.urootIdx (F.rootaddr j))).2 (F.rep (F.rootaddr i)) (F.rep (F.rootaddr j)) := by
    intro k hk i j h1 h2 hle
    have := look hM hF hN hT hk (hu i) (hu j) (by rw [had, had]; exact h1) (by rw [had, had]; exact h2) hle
    rw [had, had] at this
    exact this
  have hup : ∀ i j, (toFragIntS F M).upper i j = true → interMap F (F.urootIdx (F.rootaddr j)) (F.urootIdx (F.rootaddr i)) =
      ((interMap F (F.urootIdx (F.rootaddr i)) (F.urootIdx (F.rootaddr j))).2,
        (interMap F (F.urootIdx (F.rootaddr i)) (F.urootIdx (F.rootaddr j))).1) := by
    intro i j h
    have h : (interMap F (F.urootIdx (F.rootaddr i)) (F.urootIdx (F.rootaddr j))).2 >
        (interMap F (F.urootIdx (F.rootaddr i)) (F.urootIdx (F.rootaddr j))).1 := of_decide_eq_true h
    refine interMap_swap F fun e => ?_
    rw [e, interMap_diag hM hF hN (hu j)] at h
    omega
  have hd1 : ∀ i j (s : Bool) (x y : Nat), F.nelec (F.rep (F.rootaddr i)) = F.nelec (F.rep (F.rootaddr j)) → x < F.norb → y < F.norb →
      (interMap F (F.urootIdx (F.rootaddr i)) (F.urootIdx (F.rootaddr j))).2 ≤
        (interMap F (F.urootIdx (F.rootaddr i)) (F.urootIdx (F.rootaddr j))).1 →
      (toFragIntS F M).dm1 i j (ix s) x y = tdm1 F.norb (civ F.toFrag (F.rep (F.rootaddr i)) (F.fragaddr i))
        (civ F.toFrag (F.rep (F.rootaddr j)) (F.fragaddr j)) s x y := by
    intro i j s x y he hx hy hle
    obtain ⟨d, g1, g2⟩ := look_dm1 hM (hr i) (hr j) (hst i).2 (hst j).2 (hL .dm (by simp) i j (by rw [he]; simp [dn, dnelecDm])
      (by rw [he]; simp [dn, dnelecDm]) fun _ => hle) he s hx hy
    unfold toFragIntS
    dsimp only
    rw [g1, hsm i, hsm j, hsp j]
    exact g2
  have hd2 : ∀ i j (s t : Bool) (x y z w : Nat), F.nelec (F.rep (F.rootaddr i)) = F.nelec (F.rep (F.rootaddr j)) → x < F.norb →
      y < F.norb → z < F.norb → w < F.norb → (interMap F (F.urootIdx (F.rootaddr i)) (F.urootIdx (F.rootaddr j))).2 ≤
        (interMap F (F.urootIdx (F.rootaddr i)) (F.urootIdx (F.rootaddr j))).1 →
      (toFragIntS F M).dm2 i j (2 * ix s + ix t) x y z w = tdm2 F.norb (civ F.toFrag (F.rep (F.rootaddr i)) (F.fragaddr i))
        (civ F.toFrag (F.rep (F.rootaddr j)) (F.fragaddr j)) s t x y z w := by
    intro i j s t x y z w he hx hy hz hw hle
    obtain ⟨d, g1, g2⟩ := look_dm2 hM (hr i) (hr j) (hst i).2 (hst j).2 (hL .dm (by simp) i j (by rw [he]; simp [dn, dnelecDm])
      (by rw [he]; simp [dn, dnelecDm]) fun _ => hle) he s t hx hy hz hw
    unfold toFragIntS
    dsimp only
    rw [g1, hsm i, hsm j, hsp j]
    exact g2
  constructor
  · intro i j hc
    have a := hc true; have b := hc false
    simp only [if_true, Bool.false_eq_true, if_false] at a b
    have hs := interMap_stands F (hu i) (hu j)
    obtain ⟨l1, l2, e1, e2⟩ := stands_like hM hF hN (hu i) (hu j) hs
    rw [had, had, hne, hne] at e1 e2
    have he : F.nelec (F.rep (F.rootaddr i)) = F.nelec (F.rep (F.rootaddr j)) := by rw [hne, hne]; exact Prod.ext b a
    have hc' : Conn F.toFrag (F.addr (interMap F (F.urootIdx (F.rootaddr i)) (F.urootIdx (F.rootaddr j))).1)
        (F.addr (interMap F (F.urootIdx (F.rootaddr i)) (F.urootIdx (F.rootaddr j))).2) .ovlp := Prod.ext (by omega) (by omega)
    obtain ⟨d, g1, g2⟩ := hT .ovlp _ _ hs.hp hs.hq hs.uniq hc'
    unfold toFragIntS
    dsimp only
    rw [g1, Option.map_some, Option.getD_some]
    rw [had] at l1 l2
    rw [g2 _ (by rw [l1.lroots]; exact (hst i).2) _ (by rw [l2.lroots]; exact (hst j).2)]
    generalize (interMap F (F.urootIdx (F.rootaddr i)) (F.urootIdx (F.rootaddr j))).1 = p at *
    generalize (interMap F (F.urootIdx (F.rootaddr i)) (F.urootIdx (F.rootaddr j))).2 = q at *
    have hn : (F.smult (F.rep (F.rootaddr i)) = none ∨ F.smult (F.rep (F.rootaddr j)) = none) → p = F.urootIdx (F.rootaddr i) ∧ q = F.urootIdx (F.rootaddr j) := by
      intro hn
      have ha : F.allSmult = false := by
        unfold SFrag.allSmult
        rw [List.all_eq_false]
        rcases hn with hn | hn
        · exact ⟨_, List.mem_range.2 (hr i).1, by rw [hn]; simp⟩
        · exact ⟨_, List.mem_range.2 (hr j).1, by rw [hn]; simp⟩
      exact ⟨hN.given ha p hs.hp _ (hu i) hs.sp, hN.given ha q hs.hq _ (hu j) hs.sq⟩
    cases eb : F.smult (F.rep (F.rootaddr i)) with
    | none => obtain ⟨rfl, rfl⟩ := hn (Or.inl eb); rw [had, had]
    | some sb =>
      cases ek : F.smult (F.rep (F.rootaddr j)) with
      | none => obtain ⟨rfl, rfl⟩ := hn (Or.inr ek); rw [had, had]
      | some sk =>
        have eb' := l1.smult.trans eb
        have ek' := l2.smult.trans ek
        have hp := addr_mem hs.hp
        have hq := addr_mem hs.hq
        have s1 := hM.state _ hp.1 hp.2 sb eb' (F.fragaddr i) (by rw [l1.lroots]; exact (hst i).2)
        have s2 := hM.state _ hq.1 hq.2 sk ek' (F.fragaddr j) (by rw [l2.lroots]; exact (hst j).2)
        have s3 := hM.state _ (hr i).1 (hr i).2 sb eb _ (hst i).2
        have s4 := hM.state _ (hr j).1 (hr j).2 sk ek _ (hst j).2
        have hc1 : F.nelec (F.addr p) = F.nelec (F.addr q) := hc'
        have t1 := l1.top sb eb' (F.fragaddr i) (by rw [l1.lroots]; exact (hst i).2)
        have t2 := l2.top sk ek' (F.fragaddr j) (by rw [l2.lroots]; exact (hst j).2)
        rw [← hc1] at s2 t2
        rw [← he] at s4 t2
        have := ovl_rotated s1 s2 s3 s4 l1.tot.symm t1 t2
        exact (agree_ovl (agree_vecS F _ _).symm (agree_vecS F _ _).symm).trans (this.trans
          (agree_ovl (agree_vecS F _ _) (agree_vecS F _ _)))
  · intro s i j x hc hx
    have a := hc true; have b := hc false
    simp only [if_true, Bool.false_eq_true, if_false] at a b
    have c1 : ((F.nelec (F.rep (F.rootaddr i))).1 : ℤ) = (F.nelec (F.rep (F.rootaddr j))).1 + (dn (.half s)).1 := by
      rw [hne, hne]; cases s <;> simp [one] at a b <;> simp [dn, dnelecH] <;> omega
    have c2 : ((F.nelec (F.rep (F.rootaddr i))).2 : ℤ) = (F.nelec (F.rep (F.rootaddr j))).2 + (dn (.half s)).2 := by
      rw [hne, hne]; cases s <;> simp [one] at a b <;> simp [dn, dnelecH] <;> omega
    obtain ⟨d, g1, g2⟩ := look_h hM (hr i) (hr j) (hst i).2 (hst j).2 (hL (.half s) (by simp) i j c1 c2 (by simp)) c1 c2 hx
    unfold toFragIntS
    dsimp only
    rw [g1, hsm i, hsm j, hsp j]
    exact g2
  · intro s t i j x y hc hst' hx hy
    have a := hc true; have b := hc false
    simp only [if_true, Bool.false_eq_true, if_false] at a b
    have c1 : ((F.nelec (F.rep (F.rootaddr i))).1 : ℤ) = (F.nelec (F.rep (F.rootaddr j))).1 + (dn (.pair s t hst')).1 := by
      rw [hne, hne]
      cases s <;> cases t <;> first | (simp at hst'; done) | skip
      all_goals simp [one] at a b <;> simp [dn, dnelecHh, ix] <;> omega
    have c2 : ((F.nelec (F.rep (F.rootaddr i))).2 : ℤ) = (F.nelec (F.rep (F.rootaddr j))).2 + (dn (.pair s t hst')).2 := by
      rw [hne, hne]
      cases s <;> cases t <;> first | (simp at hst'; done) | skip
      all_goals simp [one] at a b <;> simp [dn, dnelecHh, ix] <;> omega
    obtain ⟨d, g1, g2⟩ := look_hh hM (hr i) (hr j) (hst i).2 (hst j).2 hst' (hL (.pair s t hst') (by simp) i j c1 c2 (by simp)) c1 c2 hx hy
    unfold toFragIntS
    dsimp only
    rw [g1, hsm i, hsm j, hsp j]
    exact g2
  · intro s t i j r x y hc hrn hx hy
    have a := hc true; have b := hc false
    simp only [if_true, Bool.false_eq_true, if_false] at a b
    have c1 : ((F.nelec (F.rep (F.rootaddr i))).1 : ℤ) = (F.nelec (F.rep (F.rootaddr j))).1 + (dn (.half s)).1 := by
      rw [hne, hne]; cases s <;> simp [one] at a b <;> simp [dn, dnelecH] <;> omega
    have c2 : ((F.nelec (F.rep (F.rootaddr i))).2 : ℤ) = (F.nelec (F.rep (F.rootaddr j))).2 + (dn (.half s)).2 := by
      rw [hne, hne]; cases s <;> simp [one] at a b <;> simp [dn, dnelecH] <;> omega
    obtain ⟨d, g1, g2⟩ := look_phh hM (hr i) (hr j) (hst i).2 (hst j).2 (hL (.half s) (by simp) i j c1 c2 (by simp)) c1 c2 t hrn hx hy
    unfold toFragIntS
    dsimp only
    rw [g1, hsm i, hsm j, hsp j]
    exact g2
  · intro i j x y hc hx hy
    have a := hc true; have b := hc false
    simp only [if_true, Bool.false_eq_true, if_false] at a b
    have c1 : ((F.nelec (F.rep (F.rootaddr i))).1 : ℤ) = (F.nelec (F.rep (F.rootaddr j))).1 + (dn .flip).1 := by
      rw [hne, hne]; simp [one] at a b; simp [dn, dnelecSm]; omega
    have c2 : ((F.nelec (F.rep (F.rootaddr i))).2 : ℤ) = (F.nelec (F.rep (F.rootaddr j))).2 + (dn .flip).2 := by
      rw [hne, hne]; simp [one] at a b; simp [dn, dnelecSm]; omega
    obtain ⟨d, g1, g2⟩ := look_sm hM (hr i) (hr j) (hst i).2 (hst j).2 (hL .flip (by simp) i j c1 c2 (by simp)) c1 c2 hx hy
    unfold toFragIntS
    dsimp only
    rw [g1, hsm i, hsm j, hsp j]
    exact g2
  · intro i j s x y hc hx hy
    have a := hc true; have b := hc false
    simp only [if_true, Bool.false_eq_true, if_false] at a b
    have he : F.nelec (F.rep (F.rootaddr i)) = F.nelec (F.rep (F.rootaddr j)) := by rw [hne, hne]; exact Prod.ext b a
    constructor
    · intro h
      have h : ¬ (interMap F (F.urootIdx (F.rootaddr i)) (F.urootIdx (F.rootaddr j))).2 >
        (interMap F (F.urootIdx (F.rootaddr i)) (F.urootIdx (F.rootaddr j))).1 := of_decide_eq_false h
      exact hd1 i j s x y he hx hy (by omega)
    · intro h
      have e := hup i j h
      have h : (interMap F (F.urootIdx (F.rootaddr i)) (F.urootIdx (F.rootaddr j))).2 >
        (interMap F (F.urootIdx (F.rootaddr i)) (F.urootIdx (F.rootaddr j))).1 := of_decide_eq_true h
      exact hd1 j i s y x he.symm hy hx (by rw [e]; dsimp only; omega)
  · intro i j s t x y z w hc hx hy hz hw
    have a := hc true; have b := hc false
    simp only [if_true, Bool.false_eq_true, if_false] at a b
    have he : F.nelec (F.rep (F.rootaddr i)) = F.nelec (F.rep (F.rootaddr j)) := by rw [hne, hne]; exact Prod.ext b a
    constructor
    · intro h
      have h : ¬ (interMap F (F.urootIdx (F.rootaddr i)) (F.urootIdx (F.rootaddr j))).2 >
        (interMap F (F.urootIdx (F.rootaddr i)) (F.urootIdx (F.rootaddr j))).1 := of_decide_eq_false h
      exact hd2 i j s t x y z w he hx hy hz hw (by omega)
    · intro h
      have e := hup i j h
      have h : (interMap F (F.urootIdx (F.rootaddr i)) (F.urootIdx (F.rootaddr j))).2 >
        (interMap F (F.urootIdx (F.rootaddr i)) (F.urootIdx (F.rootaddr j))).1 := of_decide_eq_true h
      exact hd2 j i s t y x w z he.symm hy hx hw hz (by rw [e]; dsimp only; omega)

/-- Replacement of the vectors of some rootspaces. -/
def put1 (G : SFrag) (x : Nat × (Nat × (Nat → Arr ℝ))) : SFrag :=
  { G with lroots := Function.update G.lroots x.1 x.2.1, ci := Function.update G.ci x.1 x.2.2 }

/-- Everything but the vectors is the same. -/
def SameBut (G F : SFrag) : Prop := ∃ lr ci, G = { F with lroots := lr, ci := ci }

theorem replace_spec (L : List (Nat × (Nat × (Nat → Arr ℝ)))) (F G : SFrag)
    (h : L.foldlM (fun (G : SFrag) x => if G.unique x.1 then some (put1 G x) else none) F = some G) :
    SameBut G F ∧ ∀ i, (∀ x ∈ L, x.1 ≠ i) → G.lroots i = F.lroots i ∧ G.ci i = F.ci i := by
  induction L generalizing F with
  | nil => cases h; exact ⟨⟨G.lroots, G.ci, rfl⟩, fun _ _ => ⟨rfl, rfl⟩⟩
  | cons x L ih =>
    rw [List.foldlM_cons] at h
    split at h
    · obtain ⟨⟨lr, ci, e⟩, h2⟩ := ih (put1 F x) h
      refine ⟨⟨lr, ci, e⟩, fun i hi => ?_⟩
      have hx : i ≠ x.1 := fun h => hi x (List.mem_cons_self ..) h.symm
      obtain ⟨a, b⟩ := h2 i fun y hy => hi y (List.mem_cons_of_mem _ hy)
      rw [a, b]
      exact ⟨Function.update_of_ne hx _ _, Function.update_of_ne hx _ _⟩
    · simp at h

theorem replace_total (L : List (Nat × (Nat × (Nat → Arr ℝ)))) (F : SFrag) (hu : ∀ x ∈ L, F.unique x.1 = true) :
    ∃ G, L.foldlM (fun (G : SFrag) x => if G.unique x.1 then some (put1 G x) else none) F = some G ∧
      ((L.map Prod.fst).Nodup → ∀ x ∈ L, G.lroots x.1 = x.2.1 ∧ G.ci x.1 = x.2.2) := by
  induction L generalizing F with
  | nil => exact ⟨F, rfl, fun _ _ hx => absurd hx (by simp)⟩
  | cons x L ih =>
    obtain ⟨G, h1, h4⟩ := ih (put1 F x) fun y hy => hu y (List.mem_cons_of_mem _ hy)
    refine ⟨G, by rw [List.foldlM_cons, if_pos (hu x (List.mem_cons_self ..))]; exact h1, ?_⟩
    intro hnd y hy
    rw [List.map_cons, List.nodup_cons] at hnd
    rcases List.mem_cons.1 hy with rfl | hy
    · obtain ⟨a, b⟩ := (replace_spec L _ G h1).2 y.1 fun z hz h => hnd.1 (List.mem_map.2 ⟨z, hz, h⟩)
      rw [a, b]
      exact ⟨Function.update_self .., Function.update_self ..⟩
    · exact h4 hnd.2 y hy

theorem sameBut_coherent {G F : SFrag} (h : SameBut G F) (hF : Coherent F.toFrag) : Coherent G.toFrag := by
  obtain ⟨lr, ci, rfl⟩ := h
  exact ⟨hF.rep, hF.self, hF.nelec, hF.fits⟩

theorem duo_congr {G F : SFrag} (h : SameBut G F) {i j : Nat} (hi : G.lroots i = F.lroots i ∧ G.ci i = F.ci i)
    (hj : G.lroots j = F.lroots j ∧ G.ci j = F.ci j) (d : ℤ × ℤ) : duo G d i j = duo F d i j := by
  obtain ⟨lr, ci, rfl⟩ := h
  have e : ∀ a b, highm { F with lroots := lr, ci := ci } d i j a b = highm F d i j a b := by
    intro a b
    unfold highm SFrag.vecS
    rw [hi.2, hj.2]
  have hi' : lr i = F.lroots i := hi.1
  have hj' : lr j = F.lroots j := hj.1
  unfold duo highmBra highmKet
  simp only [e, hi', hj']

theorem atS_congr {G F : SFrag} (h : SameBut G F) {M : Mats ℝ} {u w : Nat} {k : Kind}
    (hu : G.lroots (F.addr u) = F.lroots (F.addr u) ∧ G.ci (F.addr u) = F.ci (F.addr u))
    (hw : G.lroots (F.addr w) = F.lroots (F.addr w) ∧ G.ci (F.addr w) = F.ci (F.addr w)) (h' : AtS F M u w k) : AtS G M u w k := by
  have had : ∀ u, G.addr u = F.addr u := by obtain ⟨lr, ci, rfl⟩ := h; exact fun _ => rfl
  have hd := duo_congr h hu hw
  cases k with
  | ovlp =>
    show At G.toFrag M u w (G.addr u) (G.addr w) .ovlp
    rw [had, had]
    refine FragTables.at_congr ?_ ?_ hu hw h'
    · obtain ⟨lr, ci, rfl⟩ := h; rfl
    · obtain ⟨lr, ci, rfl⟩ := h; rfl
  | _ =>
    unfold AtS at h' ⊢
    dsimp only at h' ⊢
    rw [had, had, hd]
    exact h'

theorem filled_none {P : Ext ℝ} (hP : Right12 P) {F : SFrag} (hF : Coherent F.toFrag) (hM : Multiplicities F) (M : Mats ℝ) :
    ∃ M', makeDmsS P F none M = some M' ∧ FilledS F M' := by
  obtain ⟨M', h1, h2⟩ := makeDmsS_spec hP hM hF none M
  exact ⟨M', h1, fun k u w hu hw hq hc => h2 k u w hu hw hq hc (Or.inl rfl)⟩

theorem init_spec {P : Ext ℝ} (hP : Right12 P) {F : SFrag} (hF : Coherent F.toFrag) (hM : Multiplicities F) :
    ∃ M, initCrunch P F = some ({ F with spman := manifolds F }, M) ∧ FilledS { F with spman := manifolds F } M := by
  have hM' : Multiplicities { F with spman := manifolds F } := ⟨hM.rep, hM.ok, hM.room, hM.state⟩
  obtain ⟨M, h1, h2⟩ := filled_none hP (F := { F with spman := manifolds F }) hF hM' (Mats.empty ℝ)
  refine ⟨M, ?_, h2⟩
  unfold initCrunch
  dsimp only
  rw [h1]
  rfl

theorem update_spec {P : Ext ℝ} (hP : Right12 P) {F G : SFrag} (hF : Coherent F.toFrag) {M : Mats ℝ} (hT : FilledS F M)
    {iroot : List Nat} {new : List (Nat × (Nat → Arr ℝ))}
    (h : (iroot.zip new).foldlM (fun (G : SFrag) x => if G.unique x.1 then some (put1 G x) else none) F = some G)
    (hM : Multiplicities G) : ∃ M', updateCiS P F M iroot new = some (G, M') ∧ Coherent G.toFrag ∧ FilledS G M' := by
  obtain ⟨hs, hsame⟩ := replace_spec _ _ _ h
  have hG := sameBut_coherent hs hF
  obtain ⟨M', m1, m2⟩ := makeDmsS_spec hP hM hG (some iroot) M
  refine ⟨M', ?_, hG, ?_⟩
  · unfold updateCiS
    dsimp only
    rw [show (iroot.zip new).foldlM (fun (G : SFrag) x => if G.unique x.1 then
      some { G with lroots := Function.update G.lroots x.1 x.2.1, ci := Function.update G.ci x.1 x.2.2 } else none) F = some G from h,
      Option.bind_some, m1]
    rfl
  · intro k u w hu hw hq hc
    refine m2 k u w hu hw hq hc ?_
    by_cases hsc : unmasked (some iroot) (G.addr u) (G.addr w) = true
    · exact Or.inl hsc
    · refine Or.inr ?_
      simp only [unmasked, Bool.or_eq_true, List.contains_iff_mem, not_or] at hsc
      have had : ∀ u, G.addr u = F.addr u := by obtain ⟨lr, ci, rfl⟩ := hs; exact fun _ => rfl
      have hn : ∀ i, i ∉ iroot → G.lroots i = F.lroots i ∧ G.ci i = F.ci i :=
        fun i hn => hsame i (fun x hx h => hn (h ▸ (List.of_mem_zip (a := x.1) (b := x.2) hx).1))
      rw [had, had] at hsc
      refine atS_congr hs (hn _ hsc.1) (hn _ hsc.2) (hT k u w ?_ ?_ ?_ ?_)
      · obtain ⟨lr, ci, rfl⟩ := hs; exact hu
      · obtain ⟨lr, ci, rfl⟩ := hs; exact hw
      · obtain ⟨lr, ci, rfl⟩ := hs; exact hq
      · rw [had, had] at hc
        obtain ⟨lr, ci, rfl⟩ := hs
        cases k <;> exact hc

theorem reached_spec {P : Ext ℝ} (hP : Right12 P) {F : SFrag} (hF : Coherent F.toFrag) (hM : Multiplicities F) {G : SFrag} {M : Mats ℝ}
    (h : Reached P F G M) : Coherent G.toFrag ∧ Multiplicities G ∧ FilledS G M := by
  induction h with
  | made h =>
    obtain ⟨M, h1, h2⟩ := init_spec hP hF hM
    rw [h] at h1
    cases h1
    exact ⟨hF, ⟨hM.rep, hM.ok, hM.room, hM.state⟩, h2⟩
  | @updated G G' M M' iroot new _ h hM' ih =>
    have h0 : ∃ G1, (iroot.zip new).foldlM (fun (G : SFrag) x => if G.unique x.1 then some (put1 G x) else none) G = some G1 := by
      unfold updateCiS at h
      dsimp only at h
      change (((iroot.zip new).foldlM (fun (G : SFrag) x => if G.unique x.1 then some (put1 G x) else none) G).bind _) = _ at h
      cases e : (iroot.zip new).foldlM (fun (G : SFrag) x => if G.unique x.1 then some (put1 G x) else none) G with
      | none => rw [e] at h; simp at h
      | some G1 => exact ⟨G1, rfl⟩
    obtain ⟨G1, e⟩ := h0
    have hG1 : G1 = G' := by
      unfold updateCiS at h
      dsimp only at h
      change (((iroot.zip new).foldlM (fun (G : SFrag) x => if G.unique x.1 then some (put1 G x) else none) G).bind _) = _ at h
      rw [e, Option.bind_some] at h
      cases e2 : makeDmsS P G1 (some iroot) M with
      | none => rw [e2] at h; simp at h
      | some M1 => rw [e2] at h; simp only [Option.map_some, Option.some.injEq, Prod.mk.injEq] at h; exact h.1
    subst hG1
    obtain ⟨M2, u1, u2, u3⟩ := update_spec hP ih.1 ih.2.2 e hM'
    rw [h] at u1
    cases u1
    exact ⟨u2, hM', u3⟩

end FragSpin

open FragSpin

/-- **C107**. Making the tables succeeds, and looked up by model state they have the entries that the factorized algorithm relies on:
those of the vectors of the rootspaces that represent the rootspaces of the states. -/
theorem C107_build {P : Ext ℝ} (hP : Right12 P) {F : SFrag} (hF : Coherent F.toFrag) (hM : Multiplicities F) (hN : Normalized F)
    (hst : ∀ st, F.rootaddr st < F.nroots ∧ F.fragaddr st < F.lroots (F.rep (F.rootaddr st))) :
    ∃ G M, initCrunch P F = some (G, M) ∧ G.toFrag = F.toFrag ∧ G.smult = F.smult ∧
      Exact (toFragIntS G M) F.norb (fun st => civ F.toFrag (F.rep (F.rootaddr st)) (F.fragaddr st))
        (fun st σ => if σ then (F.nelec (F.rootaddr st)).2 else (F.nelec (F.rootaddr st)).1) := by
  obtain ⟨M, h1, h2⟩ := init_spec hP hF hM
  exact ⟨_, M, h1, rfl, rfl, lookup (F := { F with spman := manifolds F }) hF ⟨hM.rep, hM.ok, hM.room, hM.state⟩ (manifolds_spec hM hN) h2 hst⟩

/-- **C107**. Replacing the vectors of some unique rootspaces by vectors of the same multiplicities succeeds. -/
theorem C107_update {P : Ext ℝ} (hP : Right12 P) {F G : SFrag} (hF : Coherent F.toFrag) (hM : Multiplicities F) {M : Mats ℝ}
    (h : Reached P F G M) (iroot : List Nat) (new : List (Nat × (Nat → Arr ℝ))) (hi : ∀ i ∈ iroot, G.unique i = true) :
    ∃ G', (∃ lr ci, G' = { G with lroots := lr, ci := ci }) ∧
      (∀ i, i ∉ iroot → G'.lroots i = G.lroots i ∧ G'.ci i = G.ci i) ∧
      (iroot.Nodup → ∀ x ∈ iroot.zip new, G'.lroots x.1 = x.2.1 ∧ G'.ci x.1 = x.2.2) ∧
      (Multiplicities G' → ∃ M', updateCiS P G M iroot new = some (G', M') ∧ Reached P F G' M') := by
  obtain ⟨G', h1, h2⟩ := replace_total (iroot.zip new) G fun x hx => hi x.1 (List.of_mem_zip (a := x.1) (b := x.2) hx).1
  obtain ⟨h3, h4⟩ := replace_spec _ _ _ h1
  obtain ⟨c1, -, c3⟩ := reached_spec hP hF hM h
  refine ⟨G', h3, fun i hn => h4 i (fun x hx h => hn (h ▸ (List.of_mem_zip (a := x.1) (b := x.2) hx).1)),
    fun hnd => h2 (hnd.sublist (FragTables.fst_zip_sublist iroot new)), fun hM' => ?_⟩
  obtain ⟨M', u1, -, -⟩ := update_spec hP c1 c3 h1 hM'
  exact ⟨M', u1, .updated iroot new h u1 hM'⟩

/-- **C107** (partial: the manifolds are not computed again; for vectors that no longer fit them see `C107_history_violated`). After
any sequence of updates the tables are right for the current vectors, if rootspaces of one manifold are still states of the same
multiplets. -/
theorem C107_history_partial {P : Ext ℝ} (hP : Right12 P) {F : SFrag} (hF : Coherent F.toFrag) (hM : Multiplicities F) {G : SFrag}
    {M : Mats ℝ} (h : Reached P F G M) (hN : Manifolds G)
    (hst : ∀ st, G.rootaddr st < G.nroots ∧ G.fragaddr st < G.lroots (G.rep (G.rootaddr st))) :
    Exact (toFragIntS G M) G.norb (fun st => civ G.toFrag (G.rep (G.rootaddr st)) (G.fragaddr st))
      (fun st σ => if σ then (G.nelec (G.rootaddr st)).2 else (G.nelec (G.rootaddr st)).1) := by
  obtain ⟨c1, c2, c3⟩ := reached_spec hP hF hM h
  exact lookup c1 c2 hN c3 hst

/-- **C107**. An object made of such tables for every fragment describes the product states of these vectors: the hypothesis of the
theorems about the factorized density matrices, Hamiltonians and overlaps (C98 to C103). -/
theorem C107_describes {P : Ext ℝ} (hP : Right12 P) (L : Verif.Lstdm.Lstdm ℝ) (F₀ F : Nat → SFrag) (M : Nat → Mats ℝ)
    (h₀ : ∀ f < L.nlas.length, Coherent (F₀ f).toFrag ∧ Multiplicities (F₀ f))
    (hF : ∀ f < L.nlas.length, Reached P (F₀ f) (F f) (M f) ∧ Manifolds (F f) ∧ (F f).norb = L.nlas.getD f 0 ∧ 0 < L.nlas.getD f 0 ∧
      L.ints f = toFragIntS (F f) (M f))
    (hst : ∀ f < L.nlas.length, ∀ st, (F f).rootaddr st < (F f).nroots ∧
      (F f).fragaddr st < (F f).lroots ((F f).rep ((F f).rootaddr st)))
    (hne : ∀ st, (L.nelec st).length = L.nlas.length ∧ ∀ f < L.nlas.length, (L.nelec st).getD f (0, 0) = (F f).nelec ((F f).rootaddr st)) :
    Describes L (fun f st => civ (F f).toFrag ((F f).rep ((F f).rootaddr st)) ((F f).fragaddr st)) := by
  refine ⟨fun f hf => (hF f hf).2.2.2.1, fun st => (hne st).1, ?_, ?_⟩
  · intro f hf st A B h
    obtain ⟨h1, -, h3, -, -⟩ := hF f hf
    obtain ⟨c1, -, -⟩ := reached_spec hP (h₀ f hf).1 (h₀ f hf).2 h1
    unfold civ vec at h
    by_cases hm : A ∈ Verif.Fockspace.strs (F f).norb ((F f).nelec ((F f).rep ((F f).rootaddr st))).1 ∧
        B ∈ Verif.Fockspace.strs (F f).norb ((F f).nelec ((F f).rep ((F f).rootaddr st))).2
    · rw [Verif.Fockspace.mem_strs, Verif.Fockspace.mem_strs, c1.nelec _ (hst f hf st).1, h3] at hm
      unfold cnt
      rw [(hne st).2 f hf]
      exact ⟨hm.1.2, hm.2.2⟩
    · exact absurd (if_neg hm) h
  · intro f hf
    obtain ⟨h1, h2, h3, -, h5⟩ := hF f hf
    rw [h5, ← h3]
    have : cnt L f = fun st σ => if σ then ((F f).nelec ((F f).rootaddr st)).2 else ((F f).nelec ((F f).rootaddr st)).1 := by
      funext st σ
      unfold cnt
      rw [(hne st).2 f hf]
    rw [this]
    exact C107_history_partial hP (h₀ f hf).1 (h₀ f hf).2 h1 h2 (hst f hf)

namespace FragSpin

theorem toSets_ofSets {n : Nat} {e : Nat × Nat} {v : SpinOp.Vec} (h : InSpace n e.1 e.2 v) : toSets n e (ofSets n e v) = v := by
  funext a b
  unfold toSets ofSets
  by_cases hm : mask a ∈ Verif.Fockspace.strs n e.1 ∧ mask b ∈ Verif.Fockspace.strs n e.2
  · have h1 := ((Verif.Fockspace.mem_strs ..).1 hm.1).1
    have h2 := ((Verif.Fockspace.mem_strs ..).1 hm.2).1
    rw [if_pos hm, List.getD_eq_getElem _ _ (List.idxOf_lt_length_of_mem hm.1), List.getElem_idxOf,
      List.getD_eq_getElem _ _ (List.idxOf_lt_length_of_mem hm.2), List.getElem_idxOf, orbs_bits, orbs_bits, bits_mask h1, bits_mask h2]
  · rw [if_neg hm, h a b]
    rwa [mask_strs, mask_strs] at hm

/-- One electron in two orbitals: `c` times a vector with spin up and the vector with spin down of the same doublet. -/
noncomputable def demo (c : ℝ) : SFrag where
  norb := 2
  nroots := 2
  nelec i := if i = 0 then (1, 0) else (0, 1)
  lroots _ := 1
  ci i _ := if i = 0 then ofSets 2 (1, 0) (fun a b => c * doublet a b) else ofSets 2 (0, 1) (Verif.SpinOp.mdown 2 0 1 2 doublet)
  unique _ := true
  rep i := i
  rootaddr st := if st = 0 then 0 else 1
  fragaddr _ := 0
  smult _ := some 2
  disc _ := 0
  spman u := u

theorem demo_coherent (c : ℝ) : Coherent (demo c).toFrag := by
  refine ⟨fun i hi => ⟨hi, rfl⟩, fun _ _ _ => rfl, fun _ _ => rfl, fun i _ => ?_⟩
  by_cases h : i = 0 <;> simp [demo, h]

theorem scaled_state (c : ℝ) : State 2 1 0 2 (fun a b => c * doublet a b) := by
  refine ⟨doublet_state.ok, fun a b h => by rw [doublet_state.inSpace a b h, mul_zero], fun a b => ?_⟩
  have h1 := doublet_state.pure a b
  have e : raise (fun a b => c * doublet a b) = fun a b => c * raise doublet a b := by
    funext a b
    unfold raise
    rw [mul_left_comm]
    congr 1
    rw [Finset.mul_sum]
    exact Finset.sum_congr rfl fun _ _ => by ring
  have e' : ∀ w : SpinOp.Vec, lower (fun a b => c * w a b) a b = c * lower w a b := by
    intro w
    unfold lower
    rw [mul_left_comm]
    congr 1
    rw [Finset.mul_sum]
    exact Finset.sum_congr rfl fun _ _ => by ring
  rw [e, e', h1]
  ring

theorem demo_vec0 (c : ℝ) (a : Nat) : (demo c).vecS 0 a = fun a b => c * doublet a b :=
  toSets_ofSets (n := 2) (e := (1, 0)) (scaled_state c).inSpace

theorem demo_vec1 (c : ℝ) (a : Nat) : (demo c).vecS 1 a = Verif.SpinOp.mdown 2 0 1 2 doublet :=
  toSets_ofSets (n := 2) (e := (0, 1)) doublet0_state.inSpace

theorem demo_mult (c : ℝ) : Multiplicities (demo c) := by
  have two : ∀ i < 2, i = 0 ∨ i = 1 := fun i hi => by omega
  refine ⟨fun _ _ => rfl, fun i hi s hs => ?_, fun i hi s hs => ?_, fun i hi _ s hs a _ => ?_⟩
  · obtain rfl : 2 = s := Option.some.inj hs
    rcases two i hi with rfl | rfl
    · exact doublet_state.ok
    · exact doublet0_state.ok
  · obtain rfl : 2 = s := Option.some.inj hs
    rcases two i hi with rfl | rfl <;> simp [demo]
  · obtain rfl : 2 = s := Option.some.inj hs
    rcases two i hi with rfl | rfl
    · rw [demo_vec0]; exact scaled_state c
    · rw [demo_vec1]; exact doublet0_state

theorem doublet_norm : normSq 2 1 0 doublet = 1 := by
  unfold normSq
  rw [show SpinOp.strings 2 1 = {{0}, {1}} from by decide, show SpinOp.strings 2 0 = {∅} from by decide]
  rw [Finset.sum_pair (by decide), Finset.sum_singleton, Finset.sum_singleton]
  unfold doublet
  rw [if_pos ⟨rfl, rfl⟩, if_neg (by decide)]
  norm_num

theorem civ_norm {n : Nat} {F : SFrag} {i a : Nat} (hn : F.norb = n) {v : SpinOp.Vec} (h : F.vecS i a = v)
    (hv : InSpace n (F.nelec i).1 (F.nelec i).2 v) : ovl n (civ F.toFrag i a) (civ F.toFrag i a) = normSq n (F.nelec i).1 (F.nelec i).2 v := by
  subst hn
  rw [← dotS_normSq hv, agree_dotS, ← h]
  exact agree_ovl (agree_toSets _ _ _).symm (agree_toSets _ _ _).symm

theorem demo_norm0 (c : ℝ) (a : Nat) : ovl 2 (civ (demo c).toFrag 0 a) (civ (demo c).toFrag 0 a) = c ^ 2 := by
  refine (civ_norm (n := 2) (F := demo c) rfl (demo_vec0 c a) (scaled_state c).inSpace).trans ?_
  have h : normSq 2 1 0 (fun a b => c * doublet a b) = c ^ 2 * normSq 2 1 0 doublet := by
    unfold normSq
    simp only [Finset.mul_sum, mul_pow]
  exact h.trans (by rw [doublet_norm, mul_one])

theorem demo_norm1 (c : ℝ) (a : Nat) : ovl 2 (civ (demo c).toFrag 1 a) (civ (demo c).toFrag 1 a) = 1 := by
  refine (civ_norm (n := 2) (F := demo c) rfl (demo_vec1 c a) doublet0_state.inSpace).trans ?_
  exact (C32_mdown (na0 := 1) (nb0 := 0) doublet0_state.ok rfl (by norm_num) doublet_state.inSpace doublet_state.pure).2.2.1.trans doublet_norm

theorem demo_normalized : Normalized (demo 1) := by
  intro i hi _ a _
  have two : ∀ i < 2, i = 0 ∨ i = 1 := fun i hi => by omega
  rcases two i hi with rfl | rfl
  · exact (demo_norm0 1 a).trans (by norm_num)
  · exact demo_norm1 1 a

theorem demo_states (c : ℝ) (st : Nat) : (demo c).rootaddr st < (demo c).nroots ∧ (demo c).fragaddr st < (demo c).lroots ((demo c).rep ((demo c).rootaddr st)) := by
  refine ⟨?_, Nat.zero_lt_one⟩
  show (if st = 0 then 0 else 1) < 2
  split <;> omega

/-- The two rootspaces form one manifold. -/
theorem demo_manifold : manifolds (demo 1) 0 = 0 ∧ manifolds (demo 1) 1 = 0 := by
  have h0 : ∀ l, highest (demo 1) 0 l = doublet := by
    intro l
    have e : (demo 1).vecS 0 l = doublet := (demo_vec0 1 l).trans (by funext a b; rw [one_mul])
    show SpinOp.mup 2 1 0 2 ((demo 1).vecS 0 l) = doublet
    rw [e]
    rfl
  have h1 : ∀ l, highest (demo 1) 1 l = doublet := by
    intro l
    show SpinOp.mup 2 0 1 2 ((demo 1).vecS 1 l) = doublet
    rw [demo_vec1]
    exact (C32_mdown (na0 := 1) (nb0 := 0) doublet0_state.ok rfl (by norm_num) doublet_state.inSpace doublet_state.pure).2.2.2
  have hA : (demo 1).allSmult = true := rfl
  have hm : manifolds (demo 1) = (manStep (demo 1) ⟨fun _ => true, fun u => u, exclude0 (demo 1)⟩ (0, 1)).root := by
    unfold manifolds
    rw [if_pos hA]
    rfl
  rw [hm]
  have hx : exclude0 (demo 1) 0 1 = false := by
    refine exclude0_of (by norm_num) ?_
    refine ⟨rfl, rfl, rfl, rfl, ?_⟩
    show (1 : ℤ) - 0 ≠ 0 - 1
    norm_num
  unfold manStep
  dsimp only
  rw [if_neg (by rw [hx]; simp), if_neg (by simp), if_neg (by simp), if_pos]
  · exact ⟨rfl, rfl⟩
  · intro l _
    rw [h0, h1]
    exact (dotS_normSq doublet_state.inSpace).trans doublet_norm

/-- After the update. -/
noncomputable def demo2 : SFrag := { demo 2 with spman := manifolds (demo 1) }

theorem demo2_rep : interRep demo2 0 0 = (1, 1) := by
  have hk : interKey demo2 (1, 1) = interKey demo2 (0, 0) := by
    show (manifolds (demo 1) 1, manifolds (demo 1) 1, (_ : ℤ)) = (manifolds (demo 1) 0, manifolds (demo 1) 0, (_ : ℤ))
    rw [demo_manifold.1, demo_manifold.2, sub_self, sub_self]
  have hp : product2 demo2.nuroots = [(0, 0), (0, 1), (1, 0)] ++ [(1, 1)] := rfl
  unfold interRep inter
  rw [hp, List.foldl_append, List.foldl_cons, List.foldl_nil, hk, Function.update_self]
  rfl

end FragSpin

/-- Non-vacuity of `C107_manifolds`, `C107_build`, `C107_update`: an object with a manifold of two rootspaces. -/
example : Right12 (exactExt : Ext ℝ) ∧ Coherent (demo 1).toFrag ∧ Multiplicities (demo 1) ∧ Normalized (demo 1) ∧ manifolds (demo 1) 1 = 0 ∧
    (∀ st, (demo 1).rootaddr st < (demo 1).nroots ∧ (demo 1).fragaddr st < (demo 1).lroots ((demo 1).rep ((demo 1).rootaddr st))) :=
  ⟨exactExt_right, demo_coherent 1, demo_mult 1, demo_normalized, demo_manifold.2, demo_states 1⟩

/-- **C107 is violated by updates that take the vectors of a manifold apart.** Replacing the vector of one of the two rootspaces of a
doublet by twice that vector succeeds, but the overlap of the model state with itself stays that of the old vector: the manifolds are
not computed again, and the entry that is looked up belongs to the other rootspace. -/
theorem C107_history_violated : ∃ (F G : SFrag) (M : Mats ℝ), Coherent F.toFrag ∧ Multiplicities F ∧ Normalized F ∧
    Reached exactExt F G M ∧ (∀ st, G.rootaddr st < G.nroots ∧ G.fragaddr st < G.lroots (G.rep (G.rootaddr st))) ∧
    (toFragIntS G M).ovlp 0 0 = 1 ∧ ovl G.norb (civ G.toFrag (G.rep (G.rootaddr 0)) (G.fragaddr 0)) (civ G.toFrag (G.rep (G.rootaddr 0)) (G.fragaddr 0)) = 4 := by
  obtain ⟨M, h1, h2⟩ := init_spec exactExt_right (demo_coherent 1) (demo_mult 1)
  have hr : Reached exactExt (demo 1) _ _ := .made h1
  let new : List (Nat × (Nat → Arr ℝ)) := [(1, fun a => (demo 2).ci 0 a)]
  have hG : put1 { demo 1 with spman := manifolds (demo 1) } (0, (1, (demo 2).ci 0)) = demo2 := by
    have e1 : Function.update (demo 1).lroots 0 1 = (demo 2).lroots := by
      funext i; by_cases h : i = 0 <;> simp [demo, h]
    have e2 : Function.update (demo 1).ci 0 ((demo 2).ci 0) = (demo 2).ci := by
      funext i; by_cases h : i = 0 <;> simp [demo, h]
    unfold put1
    dsimp only
    rw [e1, e2]
    rfl
  have hM2 : Multiplicities demo2 :=
    ⟨(demo_mult 2).rep, (demo_mult 2).ok, (demo_mult 2).room, (demo_mult 2).state⟩
  obtain ⟨M', u1, u2, u3⟩ := update_spec exactExt_right (F := { demo 1 with spman := manifolds (demo 1) })
    (G := demo2) (demo_coherent 1) h2 (iroot := [0]) (new := new)
    (by rw [← hG]; rfl) hM2
  refine ⟨demo 1, demo2, M', demo_coherent 1, demo_mult 1, demo_normalized,
    .updated _ _ hr u1 hM2, demo_states 2, ?_, ?_⟩
  · have hrep := demo2_rep
    have hu : interUniq demo2 1 1 = true := by
      unfold interUniq
      rw [List.any_eq_true]
      refine ⟨(0, 0), mem_product2.2 ⟨by decide, by decide⟩, ?_⟩
      dsimp only
      rw [hrep]
      rfl
    obtain ⟨d, d1, d2⟩ := u3 .ovlp 1 1 (by decide) (by decide) hu rfl
    have hmap : interMap demo2 0 0 = (1, 1) := by
      unfold interMap
      rw [if_neg (lt_irrefl 0), hrep]
    show ((M'.ovlp (interMap _ 0 0).1 (interMap _ 0 0).2).map fun d => d 0 0).getD 0 = 1
    rw [hmap, d1]
    exact (d2 0 Nat.zero_lt_one 0 Nat.zero_lt_one).trans (demo_norm1 2 0)
  · exact (demo_norm0 2 0).trans (by norm_num)

end Verif.Props
