import Verif.Lemmas.KernMain
import Verif.Props.Lstdm
/-!
# Screening of pairs of rootspaces by multiplicities
-/
namespace Verif.Lstdm
open Verif.Spec Verif.Addr Verif.Spec.Tdm Verif.Spec.Lstdm Verif.Tdm

namespace Kern
variable {K : Type} [CommRing K] {k : Kern K} {v : Nat → Nat → Vec K} {w : Nat → Nat → Nat → Vec K}

/-- The screened-out pairs have no elements, for states given by their addresses. -/
def Scr (k : Kern K) (v : Nat → Nat → Vec K) : Prop :=
  ∀ sm, k.smult = some sm → ∀ b c, b < k.nstates → c < k.nstates → SC.cplSpin k.nelecI sm (k.rootOf b, k.rootOf c) = false →
    ovl k.nlas.sum (state k.toLstdm v b) (state k.toLstdm v c) = 0 ∧
    (∀ s p q, p < k.nlas.sum → q < k.nlas.sum → tdm1 k.nlas.sum (state k.toLstdm v b) (state k.toLstdm v c) s p q = 0) ∧
    (∀ s t p q x u, p < k.nlas.sum → q < k.nlas.sum → x < k.nlas.sum → u < k.nlas.sum →
      tdm2 k.nlas.sum (state k.toLstdm v b) (state k.toLstdm v c) s t p q x u = 0)

omit [CommRing K] in
theorem nelecI_states (st : Nat) [CommRing K] : k.nelecI.getD (k.rootOf st) [] = k.toLstdm.nelecI st := by
  unfold Kern.nelecI Lstdm.nelecI Kern.toLstdm
  dsimp only
  rw [List.getD_eq_getElem?_getD, List.getElem?_map, List.getD_eq_getElem?_getD]
  cases k.nelec[k.rootOf st]? <;> simp

theorem Scr.allowed (hS : k.Scr v) {b c : Nat} (hb : b < k.nstates) (hc : c < k.nstates)
    (hV : ¬ (ovl k.nlas.sum (state k.toLstdm v b) (state k.toLstdm v c) = 0 ∧
      (∀ s p q, p < k.nlas.sum → q < k.nlas.sum → tdm1 k.nlas.sum (state k.toLstdm v b) (state k.toLstdm v c) s p q = 0) ∧
      (∀ s t p q x u, p < k.nlas.sum → q < k.nlas.sum → x < k.nlas.sum → u < k.nlas.sum →
        tdm2 k.nlas.sum (state k.toLstdm v b) (state k.toLstdm v c) s t p q x u = 0)))
    (h : SC.isCoupled (k.toLstdm.nelecI b) (k.toLstdm.nelecI c) = true) : k.allowed (k.rootOf b, k.rootOf c) = true := by
  unfold Kern.allowed
  split
  · unfold SC.cplCharge
    dsimp only
    rw [nelecI_states, nelecI_states]; exact h
  · rename_i sm hsm
    by_contra hn
    exact hV (hS sm hsm b c hb hc (by simpa using hn))

theorem Scr.allowed0 (hS : k.Scr v) {b c : Nat} (hb : b < k.nstates) (hc : c < k.nstates)
    (hV : ovl k.nlas.sum (state k.toLstdm v b) (state k.toLstdm v c) ≠ 0)
    (h : SC.isCoupled (k.toLstdm.nelecI b) (k.toLstdm.nelecI c) = true) : k.allowed (k.rootOf b, k.rootOf c) = true :=
  hS.allowed hb hc (fun x => hV x.1) h

theorem Scr.allowed1 (hS : k.Scr v) {b c : Nat} (hb : b < k.nstates) (hc : c < k.nstates) (s : Bool) (p q : Nat)
    (hp : p < k.nlas.sum) (hq : q < k.nlas.sum)
    (hV : tdm1 k.nlas.sum (state k.toLstdm v b) (state k.toLstdm v c) s p q ≠ 0)
    (h : SC.isCoupled (k.toLstdm.nelecI b) (k.toLstdm.nelecI c) = true) : k.allowed (k.rootOf b, k.rootOf c) = true :=
  hS.allowed hb hc (fun x => hV (x.2.1 s p q hp hq)) h

theorem Scr.allowed2 (hS : k.Scr v) {b c : Nat} (hb : b < k.nstates) (hc : c < k.nstates) (s t : Bool) (p q x u : Nat)
    (hp : p < k.nlas.sum) (hq : q < k.nlas.sum) (hx : x < k.nlas.sum) (hu : u < k.nlas.sum)
    (hV : tdm2 k.nlas.sum (state k.toLstdm v b) (state k.toLstdm v c) s t p q x u ≠ 0)
    (h : SC.isCoupled (k.toLstdm.nelecI b) (k.toLstdm.nelecI c) = true) : k.allowed (k.rootOf b, k.rootOf c) = true :=
  hS.allowed hb hc (fun y => hV (y.2.2 s t p q x u hp hq hx hu)) h

theorem state_adr (hK : Consistent k) (r : Nat) (e : Nat → Nat) (hr : r < k.cols.length) (he : ∀ f < k.nlas.length, e f < lroots k r f) :
    address k r e < k.nstates ∧ state k.toLstdm (fun f st => w f (k.uroot f (k.rootOf st)) (k.envOf f st)) (address k r e) =
      prodVec k.nlas (fun f => w f (k.uroot f r) (e f)) := by
  have hC := Kern.cols_of hK
  refine ⟨Kern.adr_lt hC r hr e he, ?_⟩
  unfold state prodVec
  funext A B
  apply Finset.prod_congr rfl
  intro f hf
  have hf : f < k.nlas.length := Finset.mem_range.mp hf
  change w f (k.uroot f (k.rootOf (k.adr r e))) (k.envOf f (k.adr r e)) _ _ = _
  rw [Kern.rootOf_adr hC r hr e he, Kern.envOf_adr hC r hr e he f hf]
  rfl

theorem scr_of_screens (hK : Consistent k) (hS : Screens k w) : k.Scr (fun f st => w f (k.uroot f (k.rootOf st)) (k.envOf f st)) := by
  intro sm hsm b c hb hc h
  have hC := Kern.cols_of hK
  obtain ⟨b1, b2, b3⟩ := adr_of hC b hb
  obtain ⟨c1, c2, c3⟩ := adr_of hC c hc
  exact hS sm hsm (k.rootOf b) (k.rootOf c) (fun f => k.envOf f b) (fun f => k.envOf f c) b1 c1 b2 c2 h

end Kern
end Verif.Lstdm
