import Verif.Spec.Screening
import Verif.Lemmas.SpinSelect
import Verif.Lemmas.SpinBridge
import Verif.Lemmas.TdmProd
import Verif.Lemmas.KernFin
import Verif.Props.SlaterCondon
/-!
# Nonzero elements between products of states of definite spin obey the selection rules of the screening
-/
namespace Verif.ScreenSpin
open Verif.Spec Verif.Spec.Tdm Verif.Spec.Lstdm Verif.Tdm Verif.Lstdm Verif.Spec.RdmSmult Verif.SpinAmp Verif.Spec.Fockspace

theorem hasNumbers_onStrings {n na nb : ℕ} {v : Verif.SpinOp.Vec} (h : Verif.Spec.Spin.InSpace n na nb v) :
    HasNumbers n (onStrings n v) na nb := by
  intro A B hv
  by_contra hn
  apply hv
  refine h _ _ (fun hm => hn ?_)
  exact ⟨FragSpin.bits_strings.mp hm.1, FragSpin.bits_strings.mp hm.2⟩

/-- Numbers of electrons of the fragments as a function. -/
def ct (e : ℕ → ℕ × ℕ) : ℕ → Bool → ℤ := fun g σ => if σ then ((e g).2 : ℤ) else (e g).1

variable {ns : List ℕ} {e e' : ℕ → ℕ × ℕ} {sm sm' : ℕ → ℤ} {V V' : ℕ → Verif.SpinOp.Vec}

/-- One operator pair of spin `s` at `(fp,p)`, on fragment `g`. -/
def wd (g : ℕ) (s : Bool) (f p : ℕ) : Word := if g = f then [(s, p)] else []

theorem anns_wd (ns : List ℕ) (v : ℕ → Vec ℝ) (s : Bool) (f p g : ℕ) : app ns s f p v g = anns (ns.getD g 0) (wd g s f p) (v g) := by
  unfold app wd
  by_cases h : g = f
  · subst h; simp [anns]
  · simp [h, anns]

theorem anns_append (N : ℕ) (a b : Word) (ψ : Vec ℝ) : anns N (a ++ b) ψ = anns N a (anns N b ψ) := by
  induction a with
  | nil => rfl
  | cons x a ih => simp [anns, ih]

theorem spn_append (a b : Word) : spn (a ++ b) = spn a + spn b := by
  induction a with
  | nil => simp [spn]
  | cons x a ih => simp only [List.cons_append, spn, ih]; omega

theorem ok_wd {ns : List ℕ} {s : Bool} {f p : ℕ} (hp : p < ns.getD f 0) (g : ℕ) : Ok (ns.getD g 0) (wd g s f p) := by
  unfold wd
  split
  · rename_i h; subst h
    intro x hx
    rw [List.mem_singleton.mp hx]; exact hp
  · intro x hx; simp at hx

theorem ok_append {N : ℕ} {a b : Word} (ha : Ok N a) (hb : Ok N b) : Ok N (a ++ b) := by
  intro x hx
  rcases List.mem_append.mp hx with h | h
  · exact ha x h
  · exact hb x h

theorem spn_wd (g : ℕ) (s : Bool) (f p : ℕ) : spn (wd g s f p) = if g = f then (if s then -1 else 1) else 0 := by
  unfold wd; split <;> simp [spn]

theorem len_wd (g : ℕ) (s : Bool) (f p : ℕ) : (wd g s f p).length = if g = f then 1 else 0 := by
  unfold wd; split <;> simp

theorem nums_states (hV : ∀ f < ns.length, State (ns.getD f 0) (e f).1 (e f).2 (sm f) (V f)) :
    Nums ns (fun f => onStrings (ns.getD f 0) (V f)) (ct e) := fun g hg => HasNumbers.num (hasNumbers_onStrings (hV g hg).inSpace)

/-- One if the operator `(s,f)` acts on spin `σ` of fragment `g`. -/
def ind (s : Bool) (f g : ℕ) (σ : Bool) : ℤ := if g = f ∧ σ = s then 1 else 0

theorem decF_ct (s : Bool) (f : ℕ) (c : ℕ → Bool → ℤ) (g : ℕ) (σ : Bool) : decF s f c g σ = c g σ - ind s f g σ := by
  unfold decF ind; rfl

theorem spn_ind (g : ℕ) (s : Bool) (f p : ℕ) : spn (wd g s f p) = ind s f g false - ind s f g true := by
  rw [spn_wd]; unfold ind; cases s <;> by_cases h : g = f <;> simp [h]

theorem net_cons (c s : Bool) (f : ℕ) (l : List Elem) (u : Bool) (g : ℕ) :
    net (⟨c, !s, f⟩ :: l) u g = (if c then ind s f g (!u) else -ind s f g (!u)) + net l u g := by
  unfold net ind
  rw [List.map_cons, List.sum_cons]
  congr 1
  cases s <;> cases u <;> cases c <;> by_cases h : f = g <;> simp [h, eq_comm (a := g)]

theorem net_four (s t : Bool) (fp fq fr fu : ℕ) (u : Bool) (g : ℕ) : net [⟨true, !s, fp⟩, ⟨false, !s, fq⟩, ⟨true, !t, fr⟩, ⟨false, !t, fu⟩] u g =
    ind s fp g (!u) - ind s fq g (!u) + ind t fr g (!u) - ind t fu g (!u) := by
  rw [net_cons, net_cons, net_cons, net_cons]
  simp only [if_true, Bool.false_eq_true, if_false, net, List.map_nil, List.sum_nil]
  omega

theorem ops_cons (c s : Bool) (f : ℕ) (l : List Elem) (g : ℕ) : opsOn (⟨c, s, f⟩ :: l) g = (if g = f then 1 else 0) + opsOn l g := by
  unfold opsOn
  rw [List.filter_cons]
  by_cases h : f = g
  · simp [h]; omega
  · simp [h, eq_comm (a := g)]

theorem ops_four (s t : Bool) (fp fq fr fu g : ℕ) : opsOn [⟨true, !s, fp⟩, ⟨false, !s, fq⟩, ⟨true, !t, fr⟩, ⟨false, !t, fu⟩] g =
    (if g = fp then 1 else 0) + (if g = fq then 1 else 0) + (if g = fr then 1 else 0) + (if g = fu then 1 else 0) := by
  rw [ops_cons, ops_cons, ops_cons, ops_cons]
  simp only [opsOn, List.filter_nil, List.length_nil]
  omega

section
variable (hV : ∀ f < ns.length, State (ns.getD f 0) (e f).1 (e f).2 (sm f) (V f))
  (hV' : ∀ f < ns.length, State (ns.getD f 0) (e' f).1 (e' f).2 (sm' f) (V' f))
include hV hV'

theorem allowed0 (hne : ovl ns.sum (prodVec ns (fun f => onStrings (ns.getD f 0) (V f))) (prodVec ns (fun f => onStrings (ns.getD f 0) (V' f))) ≠ 0) :
    TwoBodyAllowed (fun f => ((e f).1 : ℤ)) (fun f => ((e f).2 : ℤ)) sm (fun f => ((e' f).1 : ℤ)) (fun f => ((e' f).2 : ℤ)) sm' ns.length := by
  rw [ovl_prodVec] at hne
  refine ⟨[], by simp, by simp, by simp [netSpin], by simp [netSpin], fun g hg => ?_⟩
  have hg0 := Finset.prod_ne_zero_iff.mp hne g (Finset.mem_range.mpr hg)
  have hc : ct e g = ct e' g := by
    by_contra hc
    exact hg0 (ovl_eq_zero (nums_states hV g hg) (nums_states hV' g hg) hc)
  have c1 := congrFun hc false
  have c2 := congrFun hc true
  simp only [ct, if_true, Bool.false_eq_true, if_false] at c1 c2
  have := SpinFam.state_sel (hV g hg) (hV' g hg) (l := []) (r := []) (by intro x hx; simp at hx) (by intro x hx; simp at hx) (by simp only [spn]; omega) hg0
  simp at this
  refine ⟨by simp [net]; omega, by simp [net]; omega, by simp [opsOn]; omega⟩

theorem allowed1 (s : Bool) (fp fq p q : ℕ) (hfp : fp < ns.length) (hfq : fq < ns.length) (hp : p < ns.getD fp 0) (hq : q < ns.getD fq 0)
    (hne : tdm1 ns.sum (prodVec ns (fun f => onStrings (ns.getD f 0) (V f))) (prodVec ns (fun f => onStrings (ns.getD f 0) (V' f))) s
      (fragStart ns fp + p) (fragStart ns fq + q) ≠ 0) :
    TwoBodyAllowed (fun f => ((e f).1 : ℤ)) (fun f => ((e f).2 : ℤ)) sm (fun f => ((e' f).1 : ℤ)) (fun f => ((e' f).2 : ℤ)) sm' ns.length := by
  have hc := tdm1_counts ns _ _ _ _ (nums_states hV) (nums_states hV') s fp fq p q hfp hfq hp hq hne
  rw [tdm1_prod ns _ _ _ _ (nums_states hV) (nums_states hV') s fp fq p q hfp hfq hp hq] at hne
  refine ⟨[⟨true, !s, fp⟩, ⟨false, !s, fq⟩], by simp, by simp [hfp, hfq], by cases s <;> simp [netSpin], by cases s <;> simp [netSpin], fun g hg => ?_⟩
  have hg0 := Finset.prod_ne_zero_iff.mp (right_ne_zero_of_mul hne) g (Finset.mem_range.mpr hg)
  have c1 := congrFun (hc g hg) false
  have c2 := congrFun (hc g hg) true
  simp only [ct, decF, if_true, Bool.false_eq_true, if_false] at c1 c2
  rw [anns_wd, anns_wd] at hg0
  have := SpinFam.state_sel (hV g hg) (hV' g hg) (ok_wd hp g) (ok_wd hq g) (by
    rw [spn_wd, spn_wd]
    cases s <;> simp at c1 c2 ⊢ <;> split_ifs at c1 c2 ⊢ <;> omega) hg0
  rw [len_wd, len_wd] at this
  refine ⟨?_, ?_, ?_⟩
  · cases s <;> simp [net, eq_comm (a := fp), eq_comm (a := fq)] at c1 c2 ⊢ <;> split_ifs at c1 c2 ⊢ <;> omega
  · cases s <;> simp [net, eq_comm (a := fp), eq_comm (a := fq)] at c1 c2 ⊢ <;> split_ifs at c1 c2 ⊢ <;> omega
  · refine this.trans ?_
    simp only [opsOn, List.filter_cons, eq_comm (a := fp), eq_comm (a := fq), List.filter_nil, decide_eq_true_eq]
    split_ifs <;> simp

theorem allowed2 (s t : Bool) (fp fq fr fu p q r u : ℕ) (hfp : fp < ns.length) (hfq : fq < ns.length) (hfr : fr < ns.length) (hfu : fu < ns.length)
    (hp : p < ns.getD fp 0) (hq : q < ns.getD fq 0) (hr : r < ns.getD fr 0) (hu : u < ns.getD fu 0)
    (hne : tdm2 ns.sum (prodVec ns (fun f => onStrings (ns.getD f 0) (V f))) (prodVec ns (fun f => onStrings (ns.getD f 0) (V' f))) s t
      (fragStart ns fp + p) (fragStart ns fq + q) (fragStart ns fr + r) (fragStart ns fu + u) ≠ 0) :
    TwoBodyAllowed (fun f => ((e f).1 : ℤ)) (fun f => ((e f).2 : ℤ)) sm (fun f => ((e' f).1 : ℤ)) (fun f => ((e' f).2 : ℤ)) sm' ns.length := by
  have hc := tdm2_counts ns _ _ _ _ (nums_states hV) (nums_states hV') s t fp fq fr fu p q r u hfp hfq hfr hfu hp hq hr hu hne
  rw [tdm2_prod ns _ _ _ _ (nums_states hV) (nums_states hV') s t fp fq fr fu p q r u hfp hfq hfr hfu hp hq hr hu] at hne
  refine ⟨[⟨true, !s, fp⟩, ⟨false, !s, fq⟩, ⟨true, !t, fr⟩, ⟨false, !t, fu⟩], by simp, by simp [hfp, hfq, hfr, hfu],
    by cases s <;> cases t <;> simp [netSpin], by cases s <;> cases t <;> simp [netSpin], fun g hg => ?_⟩
  have hg0 := Finset.prod_ne_zero_iff.mp (right_ne_zero_of_mul hne) g (Finset.mem_range.mpr hg)
  have c1 := congrFun (hc g hg) false
  have c2 := congrFun (hc g hg) true
  rw [anns_wd, anns_wd, anns_wd, anns_wd, ← anns_append, ← anns_append] at hg0
  simp only [decF_ct] at c1 c2
  have hm : ((e g).1 : ℤ) - (e g).2 - spn (wd g t fr r ++ wd g s fp p) = ((e' g).1 : ℤ) - (e' g).2 - spn (wd g t fu u ++ wd g s fq q) := by
    simp only [spn_append, spn_ind]
    simp only [ct, if_true, Bool.false_eq_true, if_false] at c1 c2
    omega
  have := SpinFam.state_sel (hV g hg) (hV' g hg) (ok_append (ok_wd hr g) (ok_wd hp g)) (ok_append (ok_wd hu g) (ok_wd hq g)) hm hg0
  rw [List.length_append, List.length_append, len_wd, len_wd, len_wd, len_wd] at this
  simp only [ct, if_true, Bool.false_eq_true, if_false] at c1 c2
  refine ⟨?_, ?_, ?_⟩
  · rw [net_four]; simp only [Bool.not_true]; omega
  · rw [net_four]; simp only [Bool.not_false]; omega
  · refine this.trans (le_of_eq ?_)
    rw [ops_four]; omega

end
end Verif.ScreenSpin
