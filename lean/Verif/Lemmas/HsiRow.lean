import Verif.Lemmas.HsiCoef
import Verif.Lemmas.HsiTerm
import Verif.Lemmas.HsiStage
import Verif.Props.Bigdim
/-!
# Lemmas: the product of the operator of one row with the vectors
-/
namespace Verif.Lstdm
open Verif.Spec Verif.Spec.Tdm Verif.Spec.Lstdm Verif.Signs Verif.Exc Verif.Addr Verif.Radix Verif.Props

variable {K : Type} [Field K] [DecidableEq K]

omit [DecidableEq K] in
/-- A loop that adds to a vector. -/
theorem foldlM_add {α : Type} (l : List α) (F : (Nat → K) → α → Option (Nat → K)) (G : α → Nat → K) (τ : Nat → Nat) (n : Nat)
    (h : ∀ a ∈ l, ∀ o, ∃ o', F o a = some o' ∧ ∀ β < n, o' (τ β) = o (τ β) + G a β) (o : Nat → K) :
    ∃ o', l.foldlM F o = some o' ∧ ∀ β < n, o' (τ β) = o (τ β) + (l.map (fun a => G a β)).sum := by
  induction l generalizing o with
  | nil => exact ⟨o, rfl, fun β _ => by simp⟩
  | cons a l ih =>
    obtain ⟨o1, e1, p1⟩ := h a (by simp) o
    obtain ⟨o2, e2, p2⟩ := ih (fun x hx => h x (by simp [hx])) o1
    refine ⟨o2, ?_, fun β hβ => ?_⟩
    · rw [List.foldlM_cons, e1]; exact e2
    · rw [p2 β hβ, p1 β hβ, List.map_cons, List.sum_cons, add_assoc]

omit [DecidableEq K] in
theorem sum_nodup_ite (l : List Nat) (hl : l.Nodup) (b : Nat) (X : K) : (l.map (fun a => if b = a then X else 0)).sum = if b ∈ l then X else 0 := by
  induction l with
  | nil => simp
  | cons a l ih =>
    rw [List.map_cons, List.sum_cons, ih hl.of_cons]
    have ha := (List.nodup_cons.mp hl).1
    by_cases h : b = a
    · subst h; rw [if_pos rfl, if_neg ha, if_pos (by simp), add_zero]
    · rw [if_neg h, zero_add]
      by_cases h2 : b ∈ l
      · rw [if_pos h2, if_pos (by simp [h2])]
      · rw [if_neg h2, if_neg (by simp [h2, h])]

namespace Kern
variable {k : Kern K}

/-- Position of a state among the states of the fragments `J`. -/
def pJ (k : Kern K) (J : List Nat) (r st : Nat) : Nat := posF (k.colOf J r) (J.map (fun f => k.envOf f st))

/-- Position of a state within its rootspace when the fragments `I` are slow. -/
def twl (k : Kern K) (I : List Nat) (st : Nat) : Nat :=
  k.pJ I (k.rootOf st) st * (k.colOf (sT I k.nlas.length) (k.rootOf st)).prod + k.pJ (sT I k.nlas.length) (k.rootOf st) st

section
variable (hK : Consistent k) {I : List Nat} (hI : aT I k.nlas.length = I)
include hK

theorem pJ_lt (J : List Nat) (r st : Nat) (h : ∀ f ∈ J, k.envOf f st < k.lr r f) : k.pJ J r st < (k.colOf J r).prod :=
  posF_lt (inShape_map J _ _ h)

theorem pJ_dig (J : List Nat) (hJ : J.Nodup) (r st : Nat) (h : ∀ f ∈ J, k.envOf f st < k.lr r f) (f : Nat) (hf : f ∈ J) :
    k.dig J r (k.pJ J r st) f = k.envOf f st := by
  obtain ⟨i, hi, hd⟩ := dig_ex J hJ r (fun f => k.envOf f st) h
  have := dig_pos J hJ r i hi _ hd
  unfold pJ
  rw [← this]; exact hd f hf

theorem lr_same (f r r' : Nat) (hf : f < k.nlas.length) (hr : r < k.cols.length) (hr' : r' < k.cols.length) (h : k.uroot f r = k.uroot f r') :
    k.lr r f = k.lr r' f := hK.same_lroots f hf r hr r' hr' h

omit hK in
include hI in
theorem I_lt (f : Nat) (hf : f ∈ I) : f < k.nlas.length := by
  rw [← hI] at hf; exact (mem_aT _ _ _ hf).1

omit hK in
include hI in
theorem I_nodup : I.Nodup := by
  rw [← hI]; exact List.nodup_range.filter _

include hI in
theorem cols_prod (r : Nat) (hr : r < k.cols.length) : (k.colOf I r).prod * (k.colOf (sT I k.nlas.length) r).prod = (k.cols.getD r []).prod := by
  have hlen := (cols_of hK).len r hr
  have h := slow_prod (k.cols.getD r []) I (I_nodup hI) (fun f hf => by rw [hlen]; exact I_lt hI f hf)
  rw [hlen] at h
  rw [Nat.mul_comm]
  exact h

include hI in
theorem twl_lt (st : Nat) (hst : st < k.nstates) : k.twl I st < (k.cols.getD (k.rootOf st) []).prod := by
  obtain ⟨hr, he, _⟩ := adr_of (cols_of hK) st hst
  have h1 := pJ_lt hK I (k.rootOf st) st (fun f hf => he f (I_lt hI f hf))
  have h2 := pJ_lt hK (sT I k.nlas.length) (k.rootOf st) st (fun f hf => he f ((mem_sT _ _ _).mp hf).1)
  rw [← cols_prod hK hI _ hr]
  unfold twl
  have := Nat.mul_le_mul_right (k.colOf (sT I k.nlas.length) (k.rootOf st)).prod (Nat.succ_le_of_lt h1)
  rw [Nat.succ_mul] at this
  omega

open Classical in
include hI in
/-- An operator applied to the vector of a key. -/
theorem dot_sum {link : List (Nat × List Nat)} (hL : k.LinkOk I link) (fac x : Nat → K) (vs : Vecs K)
    (hst : k.Stage I link fac x k.nlas.length vs) (A B b : Nat) (hA : A < k.cols.length) (hB : B < k.cols.length) (hb : b < k.cols.length)
    (op : Term K) (VAL : Nat → Nat → K) (hT : TermOk (k.colOf I A).prod (k.colOf I B).prod VAL op)
    (hub : ∀ f ∈ I, k.uroot f b = k.uroot f A) (e : Nat × List Nat) (he : e ∈ link) (hes : e.2 = k.oxStr b B I) :
    ∃ v w, vs (k.oxStr b B I) = some v ∧ op.dot v = some w ∧ w.1 = (k.cols.getD b []).prod ∧ ∀ β < k.nstates, k.rootOf β = b →
      w.2 (k.twl I β) = ∑ γ ∈ Finset.range k.nstates, if k.Pt I link k.nlas.length (k.oxStr b B I) (k.rootOf γ) then
        VAL (k.pJ I A β) (k.pJ I B γ) * (((sT I k.nlas.length).map (fun f => k.ovf b (k.rootOf γ) f (k.envOf f β) (k.envOf f γ))).prod *
          (fac (k.rootOf γ) * x γ)) else 0 := by
  have hC := cols_of hK
  set n := k.nlas.length with hn
  obtain ⟨v, h1, h2, h3, h4⟩ := hst e he
  rw [stK_full _ (hL.len e he), hes] at h1 h2 h3 h4
  set s := k.oxStr b B I with hs
  have hord : ordT I n n = I ++ sT I n := by
    unfold ordT rT
    rw [hI]; simp
  have dI : ∀ f ∈ I, k.dm s f = k.lr B f := fun f hf => by
    unfold dm
    rw [hs, oxStr_getD _ _ _ (I_lt hI f hf), if_pos hf, lrU_eq hK f B (I_lt hI f hf) hB]
  have dS : ∀ f ∈ sT I n, k.dm s f = k.lr b f := fun f hf => by
    obtain ⟨hf1, hf2⟩ := (mem_sT _ _ _).mp hf
    unfold dm
    rw [hs, oxStr_getD _ _ _ hf1, if_neg hf2, lrU_eq hK f b hf1 hb]
  have mI : I.map (k.dm s) = k.colOf I B := List.map_congr_left dI
  have mS : (sT I n).map (k.dm s) = k.colOf (sT I n) b := List.map_congr_left dS
  rw [hI, mI] at h2
  rw [hord, List.map_append, mI, mS, List.prod_append] at h3
  have hnk : 0 < (k.colOf I B).prod := prod_pos' _ fun a ha => by
    obtain ⟨f, hf, rfl⟩ := List.mem_map.mp ha
    exact hC.pos B hB f (I_lt hI f hf)
  have cA : k.colOf I A = k.colOf I b := List.map_congr_left fun f hf => lr_same hK f A b (I_lt hI f hf) hA hb (hub f hf).symm
  obtain ⟨w, hw, hval⟩ := hT v (k.colOf (sT I n) b).prod h2 hnk (by rw [h3, Nat.mul_comm])
  refine ⟨v, _, h1, hw, ?_, fun β hβ hroot => ?_⟩
  · dsimp only
    rw [cA, cols_prod hK hI b hb]
  obtain ⟨_, eβ, _⟩ := adr_of hC β hβ
  rw [hroot] at eβ
  have pA : k.pJ I A β = k.pJ I b β := by unfold pJ; rw [cA]
  have hP : k.pJ I A β < (k.colOf I A).prod := by rw [pA, cA]; exact pJ_lt hK I b β (fun f hf => eβ f (I_lt hI f hf))
  have hz : k.pJ (sT I n) b β < (k.colOf (sT I n) b).prod := pJ_lt hK _ b β (fun f hf => eβ f ((mem_sT _ _ _).mp hf).1)
  have htw : k.twl I β = k.pJ I A β * (k.colOf (sT I n) b).prod + k.pJ (sT I n) b β := by
    unfold twl; rw [hroot, pA]
  dsimp only
  rw [htw, hval _ hP _ hz]
  have hdat : ∀ q < (k.colOf I B).prod, v.dat (k.pJ (sT I n) b β * (k.colOf I B).prod + q) =
      k.Vt I link fac x n s (fun f => if f ∈ I then k.dig I B q f else k.envOf f β) := by
    intro q hq
    rw [← h4 (fun f => if f ∈ I then k.dig I B q f else k.envOf f β) ?_]
    · congr 1
      rw [hord, List.map_append, List.map_append, mI, mS, posF_append _ _ _ _ (by simp [colOf])]
      have e1 : I.map (fun f => if f ∈ I then k.dig I B q f else k.envOf f β) = I.map (k.dig I B q) :=
        List.map_congr_left fun f hf => by rw [if_pos hf]
      have e2 : (sT I n).map (fun f => if f ∈ I then k.dig I B q f else k.envOf f β) = (sT I n).map (fun f => k.envOf f β) :=
        List.map_congr_left fun f hf => by rw [if_neg ((mem_sT _ _ _).mp hf).2]
      rw [e1, e2, ← dig_pos I (I_nodup hI) B q hq _ (fun f _ => rfl)]
      unfold pJ
      ring
    · intro f hf
      by_cases hfI : f ∈ I
      · simp only [if_pos hfI]
        rw [dI f hfI]; exact dig_lt I B q f hq hfI
      · simp only [if_neg hfI]
        rw [dS f ((mem_sT _ _ _).mpr ⟨hf, hfI⟩)]; exact eβ f hf
  rw [Finset.sum_congr rfl fun q hq => by rw [hdat q (Finset.mem_range.mp hq)]]
  unfold Vt
  simp only [Finset.mul_sum]
  rw [Finset.sum_comm]
  refine Finset.sum_congr rfl fun γ hγ => ?_
  by_cases hPt : k.Pt I link n s (k.rootOf γ)
  · rw [if_pos hPt]
    obtain ⟨p1, _, p3, _⟩ := Pt_props hL hK n (le_refl _) s _ hPt
    obtain ⟨_, eγ, _⟩ := adr_of hC γ (Finset.mem_range.mp hγ)
    have eB : ∀ f ∈ I, k.envOf f γ < k.lr B f := fun f hf => by
      have := p3 f (I_lt hI f hf) (.inr hf)
      rw [hs, oxStr_getD _ _ _ (I_lt hI f hf), if_pos hf] at this
      rw [lr_same hK f B _ (I_lt hI f hf) hB p1 this]; exact eγ f (I_lt hI f hf)
    have hq := pJ_lt hK I B γ eB
    rw [Finset.sum_eq_single (k.pJ I B γ)]
    · rw [if_pos]
      · congr 2
        refine congrArg List.prod (List.map_congr_left fun f hf => ?_)
        obtain ⟨hf1, hf2⟩ := (mem_sT _ _ _).mp hf
        rw [hs, oxStr_getD _ _ _ hf1, if_neg hf2]
        simp only [if_neg hf2]
        rfl
      · refine ⟨hPt, fun f hf hor => ?_⟩
        have hfI : f ∈ I := hor.resolve_right (by omega)
        rw [if_pos hfI, pJ_dig hK I (I_nodup hI) B γ eB f hfI]
    · intro q hq' hne
      rw [if_neg, mul_zero]
      rintro ⟨_, hall⟩
      refine hne (dig_inj I (I_nodup hI) B q _ (Finset.mem_range.mp hq') hq fun f hf => ?_)
      have := hall f (I_lt hI f hf) (.inl hf)
      rw [if_pos hf] at this
      rw [← this, pJ_dig hK I (I_nodup hI) B γ eB f hf]
    · intro h; exact absurd (Finset.mem_range.mpr hq) h
  · rw [if_neg hPt]
    refine Finset.sum_eq_zero fun q _ => ?_
    rw [if_neg (fun h => hPt h.1), mul_zero]

include hI in
/-- Adding a vector to a rootspace. -/
theorem putOx1_ok (fac : Nat → K) (b : Nat) (hb : b < k.cols.length) (hfac : k.hsiFac b I = some (fac b)) (w : Nat × (Nat → K))
    (hw : w.1 = (k.cols.getD b []).prod) (o : Nat → K) : ∃ o', k.putOx1 o w b I = some o' ∧
    ∀ β < k.nstates, o' (k.offs0 (k.rootOf β) + k.twl I β) = o (k.offs0 (k.rootOf β) + k.twl I β) +
      if k.rootOf β = b then fac b * w.2 (k.twl I β) else 0 := by
  have hC := cols_of hK
  refine ⟨_, by unfold putOx1; rw [hfac]; dsimp only [Option.bind_eq_bind, Option.bind_some]; rw [if_neg (not_not.mpr hw)]; rfl, fun β hβ => ?_⟩
  obtain ⟨hr, _, _⟩ := adr_of hC β hβ
  have htw := twl_lt hK hI β hβ
  by_cases h : k.rootOf β = b
  · rw [if_pos h]
    rw [h] at htw ⊢
    rw [if_pos ⟨by omega, by omega⟩, Nat.add_sub_cancel_left]
  · rw [if_neg h, add_zero, if_neg]
    rintro ⟨a1, a2⟩
    rw [offs0_eq hC _ hr, offs0_eq hC _ hb] at a1 a2
    have q1 := rootOf_off hC _ _ hr htw
    have q2 := rootOf_off hC b (off k.cols (k.rootOf β) + k.twl I β - off k.cols b) hb (by omega)
    rw [show off k.cols b + (off k.cols (k.rootOf β) + k.twl I β - off k.cols b) = off k.cols (k.rootOf β) + k.twl I β by omega] at q2
    exact h (q1.symm.trans q2)

end

section
variable (hK : Consistent k) (hH : NoCollision k) {tab : List ExcRow} {u : ExcRow} (hu : k.Uniq tab u)
variable {v : Nat → Nat → Vec K} {H : Ham K} {Λ : D1 K × D2 K → K} {val : Nat → Nat → Lstdm.Row → Option K}
    (hO : Obs k H Λ val) (hD : Describes k.toLstdm v) (hHs : H.Sym) (h2 : (2 : K) ≠ 0) (h8 : k.nlas.length ≤ 8)

include hK hD in
theorem hsiFac_ok (I : List Nat) (r : Nat) (hr : r < k.cols.length) : ∃ s, k.toLstdm.spinShuffle (k.offs0 r) = some s ∧
    k.hsiFac r I = some ((s * fermionFragShuffle (k.toLstdm.nelecF (k.offs0 r)) I : Int) : K) := by
  obtain ⟨s, h1, _⟩ := spinShuffle_eq hD (k.offs0 r)
  refine ⟨s, h1, ?_⟩
  have e : k.toLstdm.nelec (k.offs0 r) = k.nelec.getD r [] := by
    show k.nelec.getD (k.rootOf (k.offs0 r)) [] = _
    rw [rootOf_offs0 (cols_of hK) r hr]
  unfold hsiFac
  unfold Lstdm.spinShuffle at h1
  unfold Lstdm.nelecF
  rw [e] at h1 ⊢
  dsimp only
  rw [h1]
  rfl

/-- The sign of a rootspace. -/
def facOf (k : Kern K) (I : List Nat) (r : Nat) : K := (k.hsiFac r I).getD 0

include hK hD in
theorem hsiFac_fac (I : List Nat) (r : Nat) (hr : r < k.cols.length) : k.hsiFac r I = some (k.facOf I r) := by
  obtain ⟨s, _, h⟩ := hsiFac_ok hK hD I r hr
  unfold facOf
  rw [h]; rfl

include hK hD h8 in
theorem wgt_fac (inv : List Nat) (hinv : ∀ f ∈ inv, f < k.nlas.length) (β γ : Nat) (hβ : k.rootOf β < k.cols.length) (hγ : k.rootOf γ < k.cols.length) :
    k.wgt β γ inv = k.facOf (PySet.listSet inv) (k.rootOf β) * k.facOf (PySet.listSet inv) (k.rootOf γ) *
      ((sT (PySet.listSet inv) k.nlas.length).map (fun f => k.ovf (k.rootOf β) (k.rootOf γ) f (k.envOf f β) (k.envOf f γ))).prod := by
  have hC := cols_of hK
  obtain ⟨s, a1, a2⟩ := hsiFac_ok hK hD (PySet.listSet inv) _ hβ
  obtain ⟨t, b1, b2⟩ := hsiFac_ok hK hD (PySet.listSet inv) _ hγ
  have r1 := rootOf_offs0 hC _ hβ
  have r2 := rootOf_offs0 hC _ hγ
  have n1 := nelecF_congr (k := k) _ _ r1
  have n2 := nelecF_congr (k := k) _ _ r2
  have s1 : k.toLstdm.spinShuffle β = some s := by
    rw [← a1]
    unfold Lstdm.spinShuffle
    have : k.toLstdm.nelec β = k.toLstdm.nelec (k.offs0 (k.rootOf β)) := by
      show k.nelec.getD (k.rootOf β) [] = k.nelec.getD (k.rootOf (k.offs0 _)) []
      rw [r1]
    rw [this]
  have s2 : k.toLstdm.spinShuffle γ = some t := by
    rw [← b1]
    unfold Lstdm.spinShuffle
    have : k.toLstdm.nelec γ = k.toLstdm.nelec (k.offs0 (k.rootOf γ)) := by
      show k.nelec.getD (k.rootOf γ) [] = k.nelec.getD (k.rootOf (k.offs0 _)) []
      rw [r2]
    rw [this]
  unfold wgt facOf
  rw [ovlpFac_some h8 β γ inv hinv s t s1 s2, a2, b2, n1, n2]
  simp only [Option.getD_some]
  push_cast
  unfold specOf sT
  ring

include hD in
/-- Overlaps of states with equal numbers of electrons are symmetric. -/
theorem ovf_symm (β γ f : Nat) (hf : f < k.nlas.length) (h : ∀ σ, k.cr (k.rootOf β) f σ = k.cr (k.rootOf γ) f σ) :
    k.ovf (k.rootOf β) (k.rootOf γ) f (k.envOf f β) (k.envOf f γ) = k.ovf (k.rootOf γ) (k.rootOf β) f (k.envOf f γ) (k.envOf f β) := by
  have hE := (hD.tables f hf).ovlp
  have hc : ∀ σ, cnt k.toLstdm f β σ = cnt k.toLstdm f γ σ := by
    intro σ
    have := h σ
    rw [← cz_root, ← cz_root] at this
    unfold cz at this
    exact_mod_cast this
  have e1 := hE β γ hc
  have e2 := hE γ β (fun σ => (hc σ).symm)
  rw [Verif.Tdm.ovl_comm, ← e2] at e1
  exact e1

variable {I : List Nat} {us : List ExcRow} {link : List (Nat × List Nat)}

include hK hH hO hD hHs h2 h8 in
/-- The contribution of one row. -/
theorem opuniqX_ok (hs : k.smult = none) (hg : k.Grp I us) (hl : ∀ e, e ∈ link ↔ k.IsLink I us e) (x : Nat → K) (vs : Vecs K)
    (hst : k.Stage I link (k.facOf I) x k.nlas.length vs) (huu : u ∈ us) (op : Term K)
    (hT : TermOk (k.colOf I u.1.1).prod (k.colOf I u.1.2).prod (fun P q =>
      (val (k.adr u.1.1 (k.dig I u.1.1 P)) (k.adr u.1.2 (k.dig I u.1.2 q)) u.2).getD 0) op)
    (hT' : TermOk (k.colOf I u.1.2).prod (k.colOf I u.1.1).prod (fun P q =>
      (val (k.adr u.1.1 (k.dig I u.1.1 q)) (k.adr u.1.2 (k.dig I u.1.2 P)) u.2).getD 0) op.conjT) (o : Nat → K) :
    ∃ o', k.opuniqX vs o (u, op) = some o' ∧ ∀ β < k.nstates, o' (k.offs0 (k.rootOf β) + k.twl I β) =
      o (k.offs0 (k.rootOf β) + k.twl I β) + ∑ γ ∈ Finset.range k.nstates, k.tco val u (k.imgsOf u) β γ * x γ := by
  classical
  obtain ⟨hIu, tab, hu⟩ := hg u huu
  have hC := cols_of hK
  have hL := linkOk hK hH h8 hg hl
  have hmI := mem_I hK hH h8 hg u huu
  have hinv := inv_lt hK hH hu
  have hImg : k.imgsOf u = k.images tab u := by unfold imgsOf; rw [lookup_ok hK tab u hu]; rfl
  have hIa : aT I k.nlas.length = I := by
    rw [← hIu, listSet_small _ k.nlas.length (fun v hv => by have := hinv v hv; omega) hinv]
    unfold aT
    refine List.filter_congr fun f hf => ?_
    rw [List.mem_range] at hf
    simp [List.mem_filter, hf]
  have hIlt := I_lt hIa
  have hIn := I_nodup hIa
  have hself := fit_self hK hH hu
  -- value of the operator
  have envI : ∀ b < k.cols.length, ∀ A < k.cols.length, (∀ f ∈ u.2.inv, k.uroot f b = k.uroot f A) → ∀ β < k.nstates, k.rootOf β = b →
      ∀ f ∈ u.2.inv, k.rootOf (k.adr A (k.dig I A (k.pJ I A β))) = A ∧ k.envOf f (k.adr A (k.dig I A (k.pJ I A β))) = k.envOf f β := by
    intro b hb A hA hbA β hβ hr f hf
    obtain ⟨_, eβ, _⟩ := adr_of hC β hβ
    rw [hr] at eβ
    have eA : ∀ f ∈ I, k.envOf f β < k.lr A f := fun f hf => by
      rw [← lr_same hK f b A (hIlt f hf) hb hA (hbA f ((hmI f).mp hf))]; exact eβ f (hIlt f hf)
    have hp := pJ_lt hK I A β eA
    have hd := fun f hf => hdig_all hC I A _ hA hp f hf
    refine ⟨rootOf_adr hC A hA _ hd, ?_⟩
    rw [envOf_adr hC A hA _ hd f (hinv f hf), pJ_dig hK I hIn A β eA f ((hmI f).mpr hf)]
  have hVAL : ∀ β < k.nstates, ∀ γ < k.nstates, k.Fit u (k.rootOf β) (k.rootOf γ) →
      (val (k.adr u.1.1 (k.dig I u.1.1 (k.pJ I u.1.1 β))) (k.adr u.1.2 (k.dig I u.1.2 (k.pJ I u.1.2 γ))) u.2).getD 0 = (val β γ u.2).getD 0 := by
    intro β hβ γ hγ hF
    have e1 := envI _ hF.lb _ hself.lb hF.ub β hβ rfl
    have e2 := envI _ hF.lg _ hself.lg hF.ug γ hγ rfl
    have r1 : k.rootOf (k.adr u.1.1 (k.dig I u.1.1 (k.pJ I u.1.1 β))) = u.1.1 := by
      obtain ⟨_, eβ, _⟩ := adr_of hC β hβ
      exact rootOf_adr hC _ hself.lb _ (fun f hf => hdig_all hC I _ _ hself.lb (pJ_lt hK I _ β fun f hf => by
        rw [← lr_same hK f _ _ (hIlt f hf) hF.lb hself.lb (hF.ub f ((hmI f).mp hf))]; exact eβ f (hIlt f hf)) f hf)
    have r2 : k.rootOf (k.adr u.1.2 (k.dig I u.1.2 (k.pJ I u.1.2 γ))) = u.1.2 := by
      obtain ⟨_, eγ, _⟩ := adr_of hC γ hγ
      exact rootOf_adr hC _ hself.lg _ (fun f hf => hdig_all hC I _ _ hself.lg (pJ_lt hK I _ γ fun f hf => by
        rw [← lr_same hK f _ _ (hIlt f hf) hF.lg hself.lg (hF.ug f ((hmI f).mp hf))]; exact eγ f (hIlt f hf)) f hf)
    exact fit_congr hK hH hu hO hD hHs h2 h8 _ _ hF β γ _ _ rfl rfl r1 r2 (fun f hf => (e1 f hf).2) (fun f hf => (e2 f hf).2)
  have hwgt : ∀ β γ, k.rootOf β < k.cols.length → k.rootOf γ < k.cols.length → k.wgt β γ u.2.inv = k.facOf I (k.rootOf β) * k.facOf I (k.rootOf γ) *
      ((sT I k.nlas.length).map (fun f => k.ovf (k.rootOf β) (k.rootOf γ) f (k.envOf f β) (k.envOf f γ))).prod := by
    intro β γ hβ hγ
    rw [wgt_fac hK hD h8 u.2.inv hinv β γ hβ hγ, hIu]
  -- the two loops
  set imgs := k.images tab u with himgs
  set bras := (imgs.map Prod.fst).dedup with hbras
  set braHs := (((imgs.filter (fun p => decide (p.1 ≠ p.2))).map Prod.snd).dedup).filter (fun r => decide (r ∉ bras)) with hbraHs
  obtain ⟨o1, q1, p1⟩ := foldlM_add bras (fun ox1 bra => (vs (k.oxStr bra u.1.2 I)).bind fun v => (op.dot v).bind fun w => k.putOx1 ox1 w bra I)
    (fun b β => if k.rootOf β = b then ∑ γ ∈ Finset.range k.nstates,
      (if k.Fit u (k.rootOf β) (k.rootOf γ) then k.gel val β γ u.2 else 0) * x γ else 0)
    (fun β => k.offs0 (k.rootOf β) + k.twl I β) k.nstates (by
      intro b hb ox
      rw [hbras, List.mem_dedup, List.mem_map] at hb
      obtain ⟨⟨b', κ⟩, hm, rfl⟩ := hb
      have hF := fit_image hK hH hu _ hm
      dsimp only at hF ⊢
      have he : (κ, k.oxStr b' κ I) ∈ link := (hl _).mpr ⟨u, huu, tab, hu, b', .inl hm, rfl⟩
      obtain ⟨v, w, e1, e2, e3, e4⟩ := dot_sum hK hIa hL (k.facOf I) x vs hst u.1.1 u.1.2 b' hself.lb hself.lg hF.lb op _ hT
        (fun f hf => hF.ub f ((hmI f).mp hf)) _ he (oxStr_congr _ _ _ fun f hf => hF.ug f ((hmI f).mp hf))
      obtain ⟨o', e5, e6⟩ := putOx1_ok hK hIa (k.facOf I) b' hF.lb (hsiFac_fac hK hD I b' hF.lb) w e3 ox
      refine ⟨o', by rw [e1]; dsimp only [Option.bind_some]; rw [e2]; exact e5, fun β hβ => ?_⟩
      rw [e6 β hβ]
      by_cases hr : k.rootOf β = b'
      · rw [if_pos hr, if_pos hr, e4 β hβ hr, Finset.mul_sum]
        congr 1
        refine Finset.sum_congr rfl fun γ hγ => ?_
        rw [hr]
        have hpt := Pt_fit hK hH h8 hg hl u huu tab hu b' hF.lb hF.ub (k.rootOf γ) hs
        by_cases hfit : k.Fit u b' (k.rootOf γ)
        · rw [if_pos hfit, if_pos (hpt.mpr hfit), hVAL β hβ γ (Finset.mem_range.mp hγ) (by rw [hr]; exact hfit)]
          unfold gel
          rw [hwgt β γ (by rw [hr]; exact hF.lb) hfit.lg, hr]
          ring
        · rw [if_neg hfit, if_neg (fun h => hfit (hpt.mp h)), mul_zero, zero_mul]
      · rw [if_neg hr, if_neg hr]) o
  obtain ⟨o2, q2, p2⟩ := foldlM_add braHs (fun ox1 bra => (vs (k.oxStr bra u.1.1 I)).bind fun v => (op.conjT.dot v).bind fun w => k.putOx1 ox1 w bra I)
    (fun b β => if k.rootOf β = b then ∑ γ ∈ Finset.range k.nstates,
      (if k.Fit u (k.rootOf γ) (k.rootOf β) then k.gel val γ β u.2 else 0) * x γ else 0)
    (fun β => k.offs0 (k.rootOf β) + k.twl I β) k.nstates (by
      intro b hb ox
      rw [hbraHs, List.mem_filter, List.mem_dedup, List.mem_map] at hb
      obtain ⟨⟨⟨κ, b'⟩, hm, rfl⟩, _⟩ := hb
      have hm := (List.mem_filter.mp hm).1
      have hF := fit_image hK hH hu _ hm
      dsimp only at hF ⊢
      have he : (κ, k.oxStr b' κ I) ∈ link := (hl _).mpr ⟨u, huu, tab, hu, b', .inr hm, rfl⟩
      obtain ⟨v, w, e1, e2, e3, e4⟩ := dot_sum hK hIa hL (k.facOf I) x vs hst u.1.2 u.1.1 b' hself.lg hself.lb hF.lg op.conjT _ hT'
        (fun f hf => hF.ug f ((hmI f).mp hf)) _ he (oxStr_congr _ _ _ fun f hf => hF.ub f ((hmI f).mp hf))
      obtain ⟨o', e5, e6⟩ := putOx1_ok hK hIa (k.facOf I) b' hF.lg (hsiFac_fac hK hD I b' hF.lg) w e3 ox
      refine ⟨o', by rw [e1]; dsimp only [Option.bind_some]; rw [e2]; exact e5, fun β hβ => ?_⟩
      rw [e6 β hβ]
      by_cases hr : k.rootOf β = b'
      · rw [if_pos hr, if_pos hr, e4 β hβ hr, Finset.mul_sum]
        congr 1
        refine Finset.sum_congr rfl fun γ hγ => ?_
        rw [hr]
        have hpt := Pt_fit' hK hH h8 hg hl u huu tab hu b' hF.lg hF.ug (k.rootOf γ) hs
        by_cases hfit : k.Fit u (k.rootOf γ) b'
        · rw [if_pos hfit, if_pos (hpt.mpr hfit), hVAL γ (Finset.mem_range.mp hγ) β hβ (by rw [hr]; exact hfit)]
          unfold gel
          rw [hwgt γ β hfit.lb (by rw [hr]; exact hF.lg)]
          have hpr : (sT I k.nlas.length).map (fun f => k.ovf (k.rootOf γ) (k.rootOf β) f (k.envOf f γ) (k.envOf f β)) =
              (sT I k.nlas.length).map (fun f => k.ovf b' (k.rootOf γ) f (k.envOf f β) (k.envOf f γ)) :=
            List.map_congr_left fun f hf => by
              obtain ⟨hf1, hf2⟩ := (mem_sT _ _ _).mp hf
              rw [← hr]
              exact ovf_symm hD γ β f hf1 (fun σ => by rw [hr]; exact hfit.sp f hf1 (fun h => hf2 ((hmI f).mpr h)) σ)
          rw [hpr, hr]
          ring
        · rw [if_neg hfit, if_neg (fun h => hfit (hpt.mp h)), mul_zero, zero_mul]
      · rw [if_neg hr, if_neg hr]) o1
  refine ⟨o2, ?_, fun β hβ => ?_⟩
  · unfold opuniqX
    dsimp only
    rw [lookup_ok hK tab u hu, hIu]
    dsimp only [Option.bind_eq_bind, Option.bind_some]
    rw [← himgs, ← hbras, ← hbraHs]
    refine Eq.trans ?_ q2
    rw [q1]
    rfl
  · rw [p2 β hβ, p1 β hβ, add_assoc]
    congr 1
    rw [sum_nodup_ite _ (List.nodup_dedup _), sum_nodup_ite _ ((List.nodup_dedup _).filter _)]
    unfold tco
    rw [hImg]
    by_cases hb : k.rootOf β ∈ imgs.map Prod.fst
    · have hb' : k.rootOf β ∈ bras := by rw [hbras, List.mem_dedup]; exact hb
      rw [if_pos hb', if_neg (fun h => by have := (List.mem_filter.mp h).2; simp at this; exact this hb'), add_zero]
      simp only [if_pos hb]
    · have hb' : k.rootOf β ∉ bras := by rw [hbras, List.mem_dedup]; exact hb
      rw [if_neg hb', zero_add]
      simp only [if_neg hb]
      by_cases hh : k.rootOf β ∈ braHs
      · rw [if_pos hh]
      · rw [if_neg hh]
        symm
        refine Finset.sum_eq_zero fun γ _ => ?_
        rw [if_neg, zero_mul]
        intro hfit
        have hno : ∀ c, (k.rootOf β, c) ∉ imgs := fun c hc => hb (List.mem_map.mpr ⟨_, hc, rfl⟩)
        rcases fit_images hK hH hu hs _ _ hfit with h | h
        · refine hh ?_
          rw [hbraHs, List.mem_filter, List.mem_dedup, List.mem_map]
          refine ⟨⟨_, List.mem_filter.mpr ⟨h, ?_⟩, rfl⟩, by simpa using hb'⟩
          have : k.rootOf γ ≠ k.rootOf β := fun e => hno (k.rootOf β) (by rw [e] at h; exact h)
          simpa using this
        · exact hno _ h.1
end
end Kern
end Verif.Lstdm
