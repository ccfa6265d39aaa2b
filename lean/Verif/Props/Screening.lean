import Verif.Lemmas.ScreenSpin
import Verif.Props.Overlap
import Verif.Props.RdmSmult
/-!
# Property C108: screening of pairs of rootspaces by local spin multiplicities
-/
namespace Verif.Props
open Verif Verif.Spec Verif.Spec.Tdm Verif.Spec.Lstdm Verif.Lstdm Verif.Tdm Verif.Spec.RdmSmult Verif.Spec.Rotate Verif.Np Verif.Spec.Fockspace
open Verif.Spec.Spin

section
variable {k : Kern ℝ} {sm : List (List Int)} {w : Nat → Nat → Nat → Vec ℝ}

theorem parity_row (hK : Consistent k) (h : HasMultiplicities k sm w) (r : Nat) (hr : r < k.cols.length) (f : Nat) (hf : f < k.nlas.length) :
    ((sm.getD r []).getD f 0 - (((k.nelecI.getD r []).getD f (0, 0)).1 + ((k.nelecI.getD r []).getD f (0, 0)).2 + 1)) % 2 = 0 := by
  have hl : k.cols.getD r [] ∈ k.cols := by rw [List.getD_eq_getElem _ _ hr]; exact List.getElem_mem _
  obtain ⟨v, hv, _⟩ := h.state f hf r hr 0 ((Kern.cols_of hK).pos r hr f hf)
  have := hv.ok.parity
  rw [Kern.nelecI_cr]
  unfold Kern.cr
  simp only [if_true, Bool.false_eq_true, if_false]
  omega

/-- For vectors of the given multiplicities no assertion of the C code fails, and a pair of rootspaces is kept exactly if some string
of at most four operators with enough of them on every fragment connects the two. -/
theorem allowed_iff (hK : Consistent k) (h : HasMultiplicities k sm w) (r r' : Nat) (hr : r < k.cols.length) (hr' : r' < k.cols.length) :
    ∃ x, SC.isCoupledS (k.nelecI.getD r []) (k.nelecI.getD r' []) (sm.getD r []) (sm.getD r' []) = some x ∧ (x = true ↔
      TwoBodyAllowed (fun f => ((k.nelecI.getD r []).getD f (0, 0)).1) (fun f => ((k.nelecI.getD r []).getD f (0, 0)).2)
        (fun f => (sm.getD r []).getD f 0) (fun f => ((k.nelecI.getD r' []).getD f (0, 0)).1)
        (fun f => ((k.nelecI.getD r' []).getD f (0, 0)).2) (fun f => (sm.getD r' []).getD f 0) k.nlas.length) :=
  C06_spin_screening_iff _ _ _ _ k.nlas.length (by rw [Kern.nelecI_len, hK.nelec_len r hr]) (by rw [Kern.nelecI_len, hK.nelec_len r' hr'])
    (h.len r hr) (h.len r' hr') (parity_row hK h r hr) (parity_row hK h r' hr')

end

/-- **C108.** Fragment vectors with the numbers of electrons and the spin multiplicities given for their rootspaces, for any number of
fragments, rootspaces, local roots and projections: no assertion of the screening fails, and every pair of rootspaces that it leaves
out has, for all local roots, a zero overlap and zero one- and two-body transition density matrices (so that the matrix element of
every one- and two-body operator vanishes, whatever its dependence on spin). -/
theorem C108_no_coupling_lost (k : Kern ℝ) (hK : Consistent k) (sm : List (List Int)) (hsm : k.smult = some sm)
    (w : Nat → Nat → Nat → Vec ℝ) (h : HasMultiplicities k sm w) :
    (∀ r r', r < k.cols.length → r' < k.cols.length →
      (SC.isCoupledS (k.nelecI.getD r []) (k.nelecI.getD r' []) (sm.getD r []) (sm.getD r' [])).isSome) ∧ Screens k w := by
  refine ⟨fun r r' hr hr' => ?_, fun sm' hsm' r r' e e' hr hr' he he' hout => ?_⟩
  · obtain ⟨x, hx, _⟩ := allowed_iff hK h r r' hr hr'
    rw [hx]; rfl
  · have hs : sm' = sm := by rw [hsm] at hsm'; exact (Option.some.inj hsm').symm
    subst hs
    obtain ⟨x, hx, hiff⟩ := allowed_iff hK h r r' hr hr'
    have hnot : ¬ TwoBodyAllowed (fun f => ((((k.nelec.getD r []).getD f (0, 0)).1 : ℕ) : ℤ)) (fun f => (((k.nelec.getD r []).getD f (0, 0)).2 : ℤ))
        (fun f => (sm'.getD r []).getD f 0) (fun f => ((((k.nelec.getD r' []).getD f (0, 0)).1 : ℕ) : ℤ))
        (fun f => (((k.nelec.getD r' []).getD f (0, 0)).2 : ℤ)) (fun f => (sm'.getD r' []).getD f 0) k.nlas.length := by
      intro hA
      have hx1 : x = true := by
        rw [hiff]
        simpa only [Kern.nelecI_cr, Kern.cr, if_true, Bool.false_eq_true, if_false] using hA
      unfold SC.cplSpin at hout
      dsimp only at hout
      rw [hx, hx1] at hout
      simp at hout
    have hex : ∀ (r : Nat) (e : Nat → Nat), r < k.cols.length → (∀ f < k.nlas.length, e f < lroots k r f) → ∃ V : Nat → Verif.SpinOp.Vec,
        (∀ f < k.nlas.length, State (k.nlas.getD f 0) ((k.nelec.getD r []).getD f (0, 0)).1 ((k.nelec.getD r []).getD f (0, 0)).2
          ((sm'.getD r []).getD f 0) (V f)) ∧
        prodVec k.nlas (fun f => w f (k.uroot f r) (e f)) = prodVec k.nlas (fun f => onStrings (k.nlas.getD f 0) (V f)) := by
      intro r e hr he
      have : ∀ f, ∃ v : Verif.SpinOp.Vec, f < k.nlas.length → State (k.nlas.getD f 0) ((k.nelec.getD r []).getD f (0, 0)).1
          ((k.nelec.getD r []).getD f (0, 0)).2 ((sm'.getD r []).getD f 0) v ∧
          ∀ A < 2 ^ k.nlas.getD f 0, ∀ B < 2 ^ k.nlas.getD f 0, w f (k.uroot f r) (e f) A B = onStrings (k.nlas.getD f 0) v A B := by
        intro f
        by_cases hf : f < k.nlas.length
        · obtain ⟨v, hv⟩ := h.state f hf r hr (e f) (he f hf)
          exact ⟨v, fun _ => hv⟩
        · exact ⟨fun _ _ => 0, fun h => absurd h hf⟩
      choose V hV using this
      refine ⟨V, fun f hf => (hV f hf).1, ?_⟩
      funext A B
      unfold prodVec
      refine Finset.prod_congr rfl fun f hf => ?_
      exact (hV f (Finset.mem_range.mp hf)).2 _ (fragStr_lt _ _ _) _ (fragStr_lt _ _ _)
    obtain ⟨V, hV, e1⟩ := hex r e hr he
    obtain ⟨V', hV', e2⟩ := hex r' e' hr' he'
    dsimp only
    rw [e1, e2]
    refine ⟨?_, fun s P Q hP hQ => ?_, fun s t P Q R U hP hQ hR hU => ?_⟩
    · by_contra hne
      exact hnot (ScreenSpin.allowed0 hV hV' hne)
    · obtain ⟨fp, p, hfp, hp, rfl⟩ := frag_of _ P hP
      obtain ⟨fq, q, hfq, hq, rfl⟩ := frag_of _ Q hQ
      by_contra hne
      exact hnot (ScreenSpin.allowed1 hV hV' s fp fq p q hfp hfq hp hq hne)
    · obtain ⟨fp, p, hfp, hp, rfl⟩ := frag_of _ P hP
      obtain ⟨fq, q, hfq, hq, rfl⟩ := frag_of _ Q hQ
      obtain ⟨fr, r, hfr, hr, rfl⟩ := frag_of _ R hR
      obtain ⟨fu, u, hfu, hu, rfl⟩ := frag_of _ U hU
      by_contra hne
      exact hnot (ScreenSpin.allowed2 hV hV' s t fp fq fr fu p q r u hfp hfq hfr hfu hp hq hr hu hne)

/-- **C108.** As C101, with multiplicities: the overlap matrix is complete although pairs of rootspaces are left out. -/
theorem C108_overlap (k : Kern ℝ) (hK : Consistent k) (h0 : k.nlas ≠ []) (sm : List (List Int)) (hsm : k.smult = some sm)
    (w x : Nat → Nat → Nat → Vec ℝ) (h : HasMultiplicities k sm w) (hT : OvlpTables k w) (umats : Nat → List (Nat × Nd ℝ))
    (hU : Matrices k.cols k.nlas.length umats)
    (hx : RotatedBy k.cols k.nlas.length umats (fun f r a => w f (k.uroot f r) a) x) (rootidx : Option (List Nat))
    (hne : selection k rootidx ≠ []) (hnd : (selection k rootidx).Nodup) (hr : ∀ r ∈ selection k rootidx, r < k.cols.length) :
    ∃ T, k.getOvlp umats rootidx = some T ∧ ∀ i j d d', i < (selection k rootidx).length → j < (selection k rootidx).length →
        InShape d ((selectedCols k rootidx).getD i []) → InShape d' ((selectedCols k rootidx).getD j []) →
        T.get [stateIndex (selectedCols k rootidx) i d, stateIndex (selectedCols k rootidx) j d'] =
          ovl k.nlas.sum (prodVec k.nlas (fun f => x f ((selection k rootidx).getD i 0) (d.getD f 0)))
            (prodVec k.nlas (fun f => x f ((selection k rootidx).getD j 0) (d'.getD f 0))) := by
  obtain ⟨T, h1, _, h3⟩ := C101_overlap two_ne_zero k hK h0 w x hT (C108_no_coupling_lost k hK sm hsm w h).2 umats hU hx rootidx hne hnd hr
  exact ⟨T, h1, h3⟩

/-- Both electrons in the lower of two orbitals. -/
noncomputable def closed : Verif.SpinOp.Vec := fun a b => if a = {0} ∧ b = {0} then 1 else 0

theorem closed_state : State 2 1 1 1 closed := by
  refine ⟨⟨by norm_num, by norm_num, by norm_num, by norm_num⟩, ?_, ?_⟩
  · intro a b h
    unfold closed
    rw [if_neg]
    rintro ⟨rfl, rfl⟩
    exact h ⟨by decide, by decide⟩
  · have h : raise closed = fun _ _ => 0 := by
      funext a b
      unfold raise closed
      rw [Finset.sum_eq_zero, mul_zero]
      intro i hi
      rw [if_neg, mul_zero]
      rintro ⟨h1, h2⟩
      have h3 : i = 0 := by
        have : i ∈ insert i b := Finset.mem_insert_self _ _
        rw [h2] at this
        simpa using this
      subst h3
      have : (0 : ℕ) ∈ a.erase 0 := by rw [h1]; simp
      simp at this
    intro a b
    rw [h]; unfold lower; simp

/-- The vectors of an example of three fragments with two orbitals and two electrons each: a singlet and a triplet. -/
noncomputable def scW : Nat → Nat → Nat → Vec ℝ := fun _ u _ =>
  onStrings 2 (if u = 0 then closed else Verif.SpinOp.mdown 2 1 1 3 triplet)

/-- Its rootspaces: all singlets; two triplets; three triplets. -/
noncomputable def scK : Kern ℝ := { kernOf [2, 2, 2] [[1, 1, 1], [1, 1, 1], [1, 1, 1]]
  [[(1, 1), (1, 1), (1, 1)], [(1, 1), (1, 1), (1, 1)], [(1, 1), (1, 1), (1, 1)]]
  (fun f r => if r = 0 then 0 else if r = 1 ∧ f = 2 then 0 else 1) scW with smult := some [[1, 1, 1], [3, 3, 1], [3, 3, 3]] }

theorem scK_consistent : Consistent scK := ⟨by decide, by decide, by decide, by decide, by decide⟩

theorem scK_multiplicities : HasMultiplicities scK [[1, 1, 1], [3, 3, 1], [3, 3, 3]] scW := by
  refine ⟨by decide, fun f hf r hr a _ => ?_⟩
  have hf : f < 3 := hf
  have hr : r < 3 := hr
  refine ⟨if scK.uroot f r = 0 then closed else Verif.SpinOp.mdown 2 1 1 3 triplet, ?_, fun A hA B hB => ?_⟩
  · interval_cases f <;> interval_cases r <;> first
      | exact closed_state
      | exact triplet0_state
  · interval_cases f <;> rfl

theorem scK_ovlpTables : OvlpTables scK scW := by
  refine ⟨fun f hf r hr a ha => ?_, fun f _ r _ r' _ _ a _ b _ => ?_⟩
  · have hf' : f < 3 := hf
    have hr' : r < 3 := hr
    have key := ScreenSpin.hasNumbers_onStrings closed_state.inSpace
    have key' := ScreenSpin.hasNumbers_onStrings triplet0_state.inSpace
    interval_cases f <;> interval_cases r <;> first
      | exact key
      | exact key'
  · simp [scK, kernOf, tablesOf]

/-- Non-vacuity of C108: three singlets are coupled to two triplets and a singlet, but not to three triplets, and the pair is left
out although the numbers of electrons of all fragments are the same. -/
example : Consistent scK ∧ scK.nlas ≠ [] ∧ scK.smult = some [[1, 1, 1], [3, 3, 1], [3, 3, 3]] ∧ HasMultiplicities scK [[1, 1, 1], [3, 3, 1], [3, 3, 3]] scW ∧
    SC.cplSpin scK.nelecI [[1, 1, 1], [3, 3, 1], [3, 3, 3]] (1, 0) = true ∧ SC.cplSpin scK.nelecI [[1, 1, 1], [3, 3, 1], [3, 3, 3]] (2, 0) = false ∧
    SC.cplCharge scK.nelecI (2, 0) = true ∧
    OvlpTables scK scW ∧ Matrices scK.cols scK.nlas.length (fun _ => ([] : List (Nat × Nd ℝ))) ∧
    RotatedBy scK.cols scK.nlas.length (fun _ => ([] : List (Nat × Nd ℝ))) (fun f r a => scW f (scK.uroot f r) a) (fun f r a => scW f (scK.uroot f r) a) ∧
    (selection scK (some [2, 0])).Nodup := by
  refine ⟨scK_consistent, by decide, rfl, scK_multiplicities, by decide, by decide, by decide, scK_ovlpTables, ?_, ?_, by decide⟩
  · exact ⟨fun f hf => by simp, fun f hf => by simp, fun f hf => by simp⟩
  · exact ⟨fun f hf r U hU => by simp at hU, fun f hf r hr hn a => rfl⟩

end Verif.Props
