import Verif.Lemmas.HamSpinMain
import Verif.Props.FragSpin
import Verif.Props.Screening
import Verif.Props.HamS2
/-!
# Lemmas: the tables of the fragment objects describe the model states of all rootspaces
-/
namespace Verif.HamSpin
open Verif.Lstdm Verif.FciRdm Verif.FragTables Verif.FragSpin Verif.RdmSmult Verif.SpinReduce Verif.Exc Verif.Addr Verif.Spec
open Verif.Spec.Tdm Verif.Spec.RdmSmult Verif.Spec.Spin Verif.Spec.FragSpin Verif.Spec.FragTables Verif.Spec.FciRdm Verif.Spec.Lstdm
open Verif.Spec.HamSpin

theorem flat_length (cols : List (List Nat)) (g : Nat → List Nat) (hg : ∀ r, r < cols.length → (g r).length = (cols.getD r []).prod) :
    ((List.range cols.length).flatMap g).length = (cols.map List.prod).sum := by
  rw [List.length_flatMap]
  congr 1
  apply List.ext_getElem
  · simp
  · intro i h1 h2
    have hi : i < cols.length := by simpa using h2
    simp only [List.getElem_map, List.getElem_range]
    rw [hg i hi, List.getD_eq_getElem _ _ hi]

/-- Numbers that are no addresses of model states count as address 0. -/
theorem out_of_range {K : Type} {k : Kern K} (hC : k.Cols) (st : Nat) (h : k.nstates ≤ st) :
    k.rootOf st = 0 ∧ ∀ f < k.nlas.length, k.envOf f st = 0 := by
  have e := addr_closed _ _ (Kern.cols_len hC)
  constructor
  · unfold Kern.rootOf
    rw [e]
    dsimp only [Option.getD_some]
    rw [List.getD_eq_default]
    rw [flat_length _ _ (by simp)]
    exact h
  · intro f hf
    unfold Kern.envOf
    rw [e]
    dsimp only [Option.getD_some]
    rw [List.getD_eq_getElem (l := (List.range k.nlas.length).map _) _ (by simpa using hf)]
    simp only [List.getElem_map, List.getElem_range]
    rw [List.getD_eq_default]
    rw [flat_length _ _ (by intro r hr; exact addrsOf_length _ _ (by rw [hC.len r hr]; exact hf))]
    exact h

theorem vec_numbers (n : Nat) (e : Nat × Nat) (c : Arr ℝ) : HasNumbers n (vec n e c) e.1 e.2 := by
  intro A B h
  unfold vec at h
  split at h
  · rename_i hAB
    exact ⟨(Verif.Fockspace.mem_strs.1 hAB.1).2, (Verif.Fockspace.mem_strs.1 hAB.2).2⟩
  · exact absurd rfl h

variable {k : SpinKern}

/-- The vector of local root `a` of the unique rootspace `u`. -/
noncomputable def wv (k : SpinKern) (f u a : Nat) : Vec ℝ := civ (k.frag f).toFrag ((k.frag f).addr u) a

variable (hG : Ready k)
include hG

theorem in_range (st : Nat) : k.toKern.rootOf st < k.nroots ∧ ∀ f < k.nlas.length, k.toKern.envOf f st < k.toKern.lr (k.toKern.rootOf st) f := by
  have hC := Kern.cols_of (consistent hG)
  have hl := cols_length (k := k)
  have h0 := hG.rootspaces
  rcases Nat.lt_or_ge st k.toKern.nstates with h | h
  · obtain ⟨a, b, -⟩ := Kern.adr_of hC st h
    exact ⟨by omega, b⟩
  · obtain ⟨a, b⟩ := out_of_range hC st h
    rw [a]
    exact ⟨h0, fun f hf => by rw [b f hf]; exact hC.pos 0 (by omega) f hf⟩

theorem wv_uroot (f r a : Nat) (hf : f < k.nlas.length) (hr : r < k.nroots) :
    wv k f (k.toKern.uroot f r) a = civ (k.frag f).toFrag ((k.frag f).rep r) a := by
  have hn := hG.nroots f hf
  show civ _ ((k.frag f).addr ((k.frag f).urootIdx r)) a = _
  rw [addr_idx (hG.coherent f hf) (by omega)]

theorem describes (hT : ∀ f < k.nlas.length, FilledS (k.frag f) (k.mats f)) :
    Describes k.toKern.toLstdm (fun f st => wv k f (k.toKern.uroot f (k.toKern.rootOf st)) (k.toKern.envOf f st)) := by
  have hst := in_range hG
  have hcnt : ∀ f < k.nlas.length, ∀ st, ((k.toKern.toLstdm.nelec st).getD f (0, 0)) = (k.frag f).nelec (k.toKern.rootOf st) :=
    fun f hf st => ne_eq _ f (hst st).1 hf
  refine ⟨fun f hf => (hG.orbitals f hf).1, fun st => ?_, fun f hf st => ?_, fun f hf => ?_⟩
  · have := (consistent hG).nelec_len (k.toKern.rootOf st) (by rw [cols_length]; exact (hst st).1)
    exact this
  · have hn := hG.nroots f hf
    have hr := (hst st).1
    have := vec_numbers (k.frag f).norb ((k.frag f).nelec ((k.frag f).rep (k.toKern.rootOf st))) ((k.frag f).ci ((k.frag f).rep (k.toKern.rootOf st)) (k.toKern.envOf f st))
    rw [wv_uroot hG f _ _ hf hr]
    unfold civ
    rw [(hG.coherent f hf).nelec _ (by omega)] at this
    rw [(hG.coherent f hf).nelec _ (by omega)]
    have e : k.toKern.toLstdm.nlas.getD f 0 = (k.frag f).norb := (hG.orbitals f hf).2.symm
    rw [e]
    unfold cnt
    rw [hcnt f hf st]
    exact this
  · have hF := hG.coherent f hf
    have hn := hG.nroots f hf
    have hi : ∀ st, k.toKern.rootOf st < (k.frag f).nroots := fun st => by have := (hst st).1; omega
    let F : SFrag := { k.frag f with rootaddr := fun st => (k.frag f).addr ((k.frag f).urootIdx (k.toKern.rootOf st)), fragaddr := k.toKern.envOf f }
    have hra : ∀ st, F.rootaddr st = (k.frag f).rep (k.toKern.rootOf st) := fun st => addr_idx hF (hi st)
    have hrr : ∀ st, (k.frag f).rep ((k.frag f).rep (k.toKern.rootOf st)) = (k.frag f).rep (k.toKern.rootOf st) := fun st =>
      hF.self _ (hF.rep _ (hi st)).1 (hF.rep _ (hi st)).2
    have key := Verif.Props.FragSpin.lookup (F := F) (M := k.mats f) ⟨hF.rep, hF.self, hF.nelec, hF.fits⟩
      ⟨(hG.mult f hf).rep, (hG.mult f hf).ok, (hG.mult f hf).room, (hG.mult f hf).state⟩
      ⟨(hG.man f hf).given, fun u hu w hw h1 h2 => by
        obtain ⟨a, b, c, d, e⟩ := (hG.man f hf).same u hu w hw h1 h2
        exact ⟨a, b, c, d, e⟩⟩ (hT f hf) (fun st => by
        rw [hra st]
        refine ⟨(hF.rep _ (hi st)).1, ?_⟩
        show k.toKern.envOf f st < (k.frag f).lroots ((k.frag f).rep ((k.frag f).rep (k.toKern.rootOf st)))
        rw [hrr, (hG.lroots f hf _ (hst st).1).2, ← lr_eq _ f (hst st).1 hf]
        exact (hst st).2 f hf)
    have e1 : k.toKern.toLstdm.ints f = toFragIntS F (k.mats f) := by
      show (toFragIntS (SpinKern.byPos (k.frag f)) (k.mats f)).reindex (k.toKern.loc f) = _
      unfold FragInt.reindex toFragIntS SpinKern.byPos Kern.loc
      simp only [Nat.unpair_pair]
      rfl
    have e2 : (fun st => civ F.toFrag (F.rep (F.rootaddr st)) (F.fragaddr st)) =
        fun st => wv k f (k.toKern.uroot f (k.toKern.rootOf st)) (k.toKern.envOf f st) := by
      funext st
      rw [wv_uroot hG f _ _ hf (hst st).1, hra st]
      show civ (k.frag f).toFrag ((k.frag f).rep ((k.frag f).rep (k.toKern.rootOf st))) (k.toKern.envOf f st) = _
      rw [hrr]
    have e3 : (fun st σ => if σ then (F.nelec (F.rootaddr st)).2 else (F.nelec (F.rootaddr st)).1) = cnt k.toKern.toLstdm f := by
      funext st σ
      rw [hra st]
      unfold cnt
      rw [hcnt f hf st]
      show (if σ then ((k.frag f).nelec ((k.frag f).rep (k.toKern.rootOf st))).2 else ((k.frag f).nelec ((k.frag f).rep (k.toKern.rootOf st))).1) = _
      rw [hF.nelec _ (hi st)]
    rw [e2, e3] at key
    rw [e1]
    have e : k.toKern.toLstdm.nlas.getD f 0 = (k.frag f).norb := (hG.orbitals f hf).2.symm
    rw [e]
    exact key

theorem screens : Screens k.toKern (wv k) := by
  have hsm : k.toKern.smult = some ((List.range k.nroots).map fun r => (List.range k.nlas.length).map fun f => ((k.frag f).smult r).getD 0) := by
    unfold SpinKern.toKern
    dsimp only
    rw [if_pos]
    rw [List.all_eq_true]
    intro f hf
    rw [List.mem_range] at hf
    unfold SFrag.allSmult
    rw [List.all_eq_true]
    intro r hr
    rw [List.mem_range, hG.nroots f hf] at hr
    exact hG.given f hf r hr
  have gd : ∀ r < k.nroots, ((List.range k.nroots).map fun r => (List.range k.nlas.length).map fun f => ((k.frag f).smult r).getD 0).getD r [] =
      (List.range k.nlas.length).map fun f => ((k.frag f).smult r).getD 0 := by
    intro r hr
    simp [List.getD_eq_getElem?_getD, List.getElem?_map, List.getElem?_range hr]
  refine (Verif.Props.C108_no_coupling_lost k.toKern (consistent hG) _ hsm (wv k) ⟨fun r hr => ?_, fun f hf r hr a ha => ?_⟩).2
  · rw [cols_length] at hr
    rw [gd r hr]
    simp [SpinKern.toKern]
  · rw [cols_length] at hr
    have hf : f < k.nlas.length := hf
    have hF := hG.coherent f hf
    have hn := hG.nroots f hf
    obtain ⟨s, hs⟩ := Option.isSome_iff_exists.1 (hG.given f hf r hr)
    have hra := hF.rep r (by omega)
    have ha : a < (k.frag f).lroots ((k.frag f).rep r) := by
      rw [(hG.lroots f hf r hr).2, ← lr_eq r f hr hf]
      exact ha
    have hst := (hG.mult f hf).state _ hra.1 hra.2 s (by rw [(hG.mult f hf).rep r (by omega)]; exact hs) a ha
    have e : k.toKern.nlas.getD f 0 = (k.frag f).norb := (hG.orbitals f hf).2.symm
    refine ⟨(k.frag f).vecS ((k.frag f).rep r) a, ?_, fun A hA B hB => ?_⟩
    · rw [ne_eq r f hr hf, gd r hr, e]
      have : ((List.range k.nlas.length).map fun f => ((k.frag f).smult r).getD 0).getD f 0 = s := by
        simp [List.getD_eq_getElem?_getD, List.getElem?_map, List.getElem?_range hf, hs]
      rw [this]
      rw [hF.nelec r (by omega)] at hst
      exact hst
    · rw [wv_uroot hG f r a hf hr]
      rw [e] at hA hB ⊢
      exact (agree_vecS (k.frag f) _ a A hA B hB).symm

/-- Both matrices, with spin multiplicities. -/
theorem exact (hT : ∀ f < k.nlas.length, FilledS (k.frag f) (k.mats f)) (h8 : k.nlas.length ≤ 8) (hN : NoHashCollision k)
    (hH : NoCollision k.toKern) {H : Ham ℝ} (h1 : H.h1 1 = H.h1 0) (hone : ∀ s p q, H.h1 s p q = H.h1 s q p)
    (htwo : ∀ p q r u, H.h2 p q r u = H.h2 q p u r) (hswap : ∀ p q r u, H.h2 p q r u = H.h2 r u p q) :
    ∃ M, k.hamKernelS H = some M ∧ ∀ r r' e e', r < k.nroots → r' < k.nroots →
      (∀ f < k.nlas.length, e f < (k.frag f).lroots r) → (∀ f < k.nlas.length, e' f < (k.frag f).lroots r') →
      M.1 (address k.toKern r e) (address k.toKern r' e') = hamEl k.nlas.sum (fun s => H.h1 (ix s)) H.h2
        (prodVec k.nlas (fun f => wv k f ((k.frag f).urootIdx r) (e f))) (prodVec k.nlas (fun f => wv k f ((k.frag f).urootIdx r') (e' f))) ∧
      M.2 (address k.toKern r e) (address k.toKern r' e') = s2El k.nlas.sum
        (prodVec k.nlas (fun f => wv k f ((k.frag f).urootIdx r) (e f))) (prodVec k.nlas (fun f => wv k f ((k.frag f).urootIdx r') (e' f))) := by
  rw [kernel_eq hG hT h8 hN h1 fun p q r s => (hswap p q r s).symm]
  obtain ⟨M, m1, m2⟩ := Verif.Props.C100_ham_s2_exact_partial (by norm_num) k.toKern H hone htwo hswap (wv k) (describes hG hT) h8 (consistent hG) hH (screens hG)
  refine ⟨M, m1, fun r r' e e' hr hr' he he' => ?_⟩
  exact m2 r r' e e' (by rw [cols_length]; exact hr) (by rw [cols_length]; exact hr')
    (fun f hf => by have := he f hf; rw [← lr_eq r f hr hf] at this; exact this)
    (fun f hf => by have := he' f hf; rw [← lr_eq r' f hr' hf] at this; exact this)

end Verif.HamSpin
