import Verif.Lemmas.Overlap
import Verif.Spec.Overlap
import Verif.Model.HamRot
import Verif.Props.HamS2
/-!
# Properties C101, C102: overlap matrix of the model states, and linearly equivalent rootspaces
-/
namespace Verif.Props
open Verif Verif.Spec Verif.Spec.Tdm Verif.Spec.Lstdm Verif.Lstdm Verif.Spec.Rotate Verif.Np Verif.Umat Verif.Tdm

/-- **C102.** The loop over linearly equivalent rootspaces, for every array with two axes of model states (and any further axes) that
holds a quantity linear in bra and ket (`Bilinear`), computed with the vectors `v` of the representatives: if every dictionary has
matrices of the right size and the vectors `x` of the caller are the vectors `v` rotated by them (unchanged where there is none), the
loop ends without exception and the array holds the same quantity for the vectors `x`. -/
theorem C102_linequiv_loop {K : Type} [CommRing K] (ns : List Nat) (cols : List (List Nat)) (rest : List Nat)
    (hlen : ∀ c ∈ cols, c.length = ns.length) (hpos : ∀ c ∈ cols, ∀ n ∈ c, 0 < n) (umats : Nat → List (Nat × Nd K))
    (hU : Matrices cols ns.length umats) (v x : Nat → Nat → Nat → Vec K) (hx : RotatedBy cols ns.length umats v x)
    (B : List Nat → Vec K → Vec K → K) (hB : ∀ t, Bilinear (B t)) (T : Nd K) (hT : Holds ns cols rest T B v v) :
    ∃ out, linequivLoop cols ns.length umats T = some out ∧ Holds ns cols rest out B x x := by
  have hl : ∀ r < cols.length, (cols.getD r []).length = ns.length := fun r hr => by
    rw [List.getD_eq_getElem _ _ hr]; exact hlen _ (List.getElem_mem _)
  refine Rotate.linequivLoop_holds hl (fun r hr f hf => ?_) hB hU hx hT
  have := hl r hr
  rw [List.getD_eq_getElem _ _ (by omega)]
  exact hpos _ (by rw [List.getD_eq_getElem _ _ hr]; exact List.getElem_mem _) _ (List.getElem_mem _)

section
variable {K : Type} [Field K] {k : Kern K}

theorem ovf_tab {w : Nat → Nat → Nat → Vec K} (hT : OvlpTables k w) (X Y : Nat) (hX : X < k.cols.length) (hY : Y < k.cols.length)
    (f : Nat) (hf : f < k.nlas.length) (hn : (k.nelec.getD X []).getD f (0, 0) = (k.nelec.getD Y []).getD f (0, 0)) (a b : Nat)
    (ha : a < lroots k X f) (hb : b < lroots k Y f) :
    k.ovf X Y f a b = ovl (k.nlas.getD f 0) (w f (k.uroot f X) a) (w f (k.uroot f Y) b) := hT.tab f hf X hX Y hY hn a ha b hb

theorem ovl_diff {w : Nat → Nat → Nat → Vec K} (hK : Consistent k) (hT : OvlpTables k w) (X Y : Nat) (hX : X < k.cols.length) (hY : Y < k.cols.length)
    (hn : k.nelec.getD X [] ≠ k.nelec.getD Y []) (e e' : Nat → Nat) (he : ∀ f < k.nlas.length, e f < lroots k X f)
    (he' : ∀ f < k.nlas.length, e' f < lroots k Y f) :
    ∏ f ∈ Finset.range k.nlas.length, ovl (k.nlas.getD f 0) (w f (k.uroot f X) (e f)) (w f (k.uroot f Y) (e' f)) = 0 := by
  have hl1 := hK.nelec_len X hX
  have hl2 := hK.nelec_len Y hY
  obtain ⟨f, hf, hne⟩ : ∃ f < k.nlas.length, (k.nelec.getD X []).getD f (0, 0) ≠ (k.nelec.getD Y []).getD f (0, 0) := by
    by_contra h
    push Not at h
    apply hn
    apply List.ext_getElem (hl1.trans hl2.symm)
    intro i h1 h2
    have := h i (by omega)
    rwa [List.getD_eq_getElem _ _ h1, List.getD_eq_getElem _ _ h2] at this
  refine Finset.prod_eq_zero (Finset.mem_range.mpr hf) ?_
  have n1 := HasNumbers.num (hT.num f hf X hX _ (he f hf))
  have n2 := HasNumbers.num (hT.num f hf Y hY _ (he' f hf))
  refine ovl_eq_zero n1 n2 (fun h => hne ?_)
  have h1 := congrFun h false
  have h2 := congrFun h true
  simp at h1 h2
  exact Prod.ext h1 h2

theorem selCols_selection (ri : Option (List Nat)) : k.selCols ri = selectedCols k ri := by
  unfold Kern.selCols selectedCols selection
  cases ri with
  | none =>
    apply List.ext_getElem
    · simp
    · intro i h1 h2
      simp at h2
      simp [h2]
  | some l => rfl

theorem sel_selection (ri : Option (List Nat)) (i : Nat) (hi : i < (selection k ri).length) : Kern.sel ri i = (selection k ri).getD i 0 := by
  unfold Kern.sel selection
  cases ri with
  | none =>
    unfold selection at hi
    simp at hi
    simp [hi]
  | some l => rfl

theorem selOk_selection (ri : Option (List Nat)) (hn : (selection k ri).Nodup) (hr : ∀ r ∈ selection k ri, r < k.cols.length) : k.SelOk ri := by
  cases ri with
  | none => trivial
  | some l => exact ⟨hn, hr⟩

theorem cumsum_last (cols : List (List Nat)) (h : cols ≠ []) : (Verif.Addr.npCumsum (cols.map List.prod)).getLast? = some (cols.map List.prod).sum := by
  have hl : 0 < cols.length := List.length_pos_iff.mpr h
  rw [List.getLast?_eq_getElem?]
  have hlen : (Verif.Addr.npCumsum (cols.map List.prod)).length = cols.length := by simp [Verif.Addr.npCumsum]
  have hg := Verif.Addr.npCumsum_getD (cols.map List.prod) (cols.length - 1) (by simp; omega)
  rw [List.getD_eq_getElem _ _ (by omega)] at hg
  rw [hlen, List.getElem?_eq_getElem (by omega), hg, List.take_of_length_le (by simp; omega)]

theorem getOvlp_holds (h2 : (2 : K) ≠ 0) (hK : Consistent k) (h0 : k.nlas ≠ []) {w x : Nat → Nat → Nat → Vec K} (hT : OvlpTables k w) (hS : Screens k w)
    {umats : Nat → List (Nat × Nd K)} (hU : Matrices k.cols k.nlas.length umats)
    (hx : RotatedBy k.cols k.nlas.length umats (fun f r a => w f (k.uroot f r) a) x) (ri : Option (List Nat)) (hs : k.SelOk ri) (hne : k.selCols ri ≠ []) :
    ∃ T, k.getOvlp umats ri = some T ∧ Holds k.nlas (k.selCols ri) [] T (fun _ => ovl k.nlas.sum) (fun f i a => x f (Kern.sel ri i) a)
      (fun f i a => x f (Kern.sel ri i) a) := by
  have hC := Kern.cols_of hK
  have hf0 : k.nlas.length ≠ 0 := fun h => h0 (List.length_eq_zero_iff.mp h)
  obtain ⟨M, e1, e2⟩ := Kern.ovlpBlocks_eq hK h2 hf0 ri hs (fun X hX Y hY hn hal d d' hd hd' => by
    have hin : ∀ r d, r < k.cols.length → InShape d (k.cols.getD r []) → ∀ f < k.nlas.length, d.getD f 0 < lroots k r f := by
      intro r d hr hd f hf
      exact ((Verif.Radix.inShape_iff _ _).mp hd).2 f (by rw [hC.len _ hr]; exact hf)
    rw [Finset.prod_congr rfl fun f hf => ovf_tab hT X Y hX hY f (by simpa using hf) (by rw [hn]) _ _
      (hin X d hX hd f (by simpa using hf)) (hin Y d' hY hd' f (by simpa using hf)), ← ovl_prodVec]
    unfold Kern.allowed at hal
    split at hal
    · unfold Verif.SC.cplCharge at hal
      dsimp only at hal
      rw [(Kern.nelecI_inj X Y).mpr hn, Verif.Lstdm.Kern.isCoupled_self] at hal
      simp at hal
    · rename_i sm hsm
      exact (hS sm hsm X Y (fun f => d.getD f 0) (fun f => d'.getD f 0) hX hY (hin X d hX hd) (hin Y d' hY hd') hal).1) (fun X hX Y hY hn f hf a ha b hb => by
    rw [ovf_tab hT X Y hX hY f hf (by rw [hn]) a b ha hb, ovf_tab hT Y X hY hX f hf (by rw [hn]) b a hb ha, ovl_comm])
  have hl : ∀ r < (k.selCols ri).length, ((k.selCols ri).getD r []).length = k.nlas.length := fun r hr => by
    rw [Kern.selCols_getD ri r hr]; exact hC.len _ (Kern.sel_lt ri hs r hr)
  obtain ⟨u1, u2⟩ := Kern.selUmats_ok ri hs k.nlas.length umats hU _ x hx
  have hold : Holds k.nlas (k.selCols ri) [] ⟨[((k.selCols ri).map List.prod).sum, ((k.selCols ri).map List.prod).sum], fun t => M (t.getD 0 0) (t.getD 1 0)⟩
      (fun _ => ovl k.nlas.sum) (fun f i a => w f (k.uroot f (Kern.sel ri i)) a) (fun f i a => w f (k.uroot f (Kern.sel ri i)) a) := by
    refine ⟨rfl, fun r r' d d' t hr hr' hd hd' _ => ?_⟩
    change M (stateIndex (k.selCols ri) r d) (stateIndex (k.selCols ri) r' d') = _
    have lX := Kern.sel_lt ri hs r hr
    have lY := Kern.sel_lt ri hs r' hr'
    have hin : ∀ r d, r < (k.selCols ri).length → InShape d ((k.selCols ri).getD r []) → ∀ f < k.nlas.length, d.getD f 0 < lroots k (Kern.sel ri r) f := by
      intro r d hr hd f hf
      rw [Kern.selCols_getD ri r hr] at hd
      exact ((Verif.Radix.inShape_iff _ _).mp hd).2 f (by rw [hC.len _ (Kern.sel_lt ri hs r hr)]; exact hf)
    rw [e2 r r' d d' hr hr' hd hd', ovl_prodVec]
    split
    · rename_i hn
      refine Finset.prod_congr rfl fun f hf => ?_
      have hf : f < k.nlas.length := by simpa using hf
      exact ovf_tab hT _ _ lX lY f hf (by rw [hn]) _ _ (hin r d hr hd f hf) (hin r' d' hr' hd' f hf)
    · rename_i hn
      exact (ovl_diff hK hT _ _ lX lY hn (fun f => d.getD f 0) (fun f => d'.getD f 0) (hin r d hr hd) (hin r' d' hr' hd')).symm
  obtain ⟨out, g1, g2⟩ := Rotate.linequivLoop_holds hl (fun r hr f hf => by
    rw [Kern.selCols_getD ri r hr]; exact hC.pos _ (Kern.sel_lt ri hs r hr) f hf) (fun _ => Rotate.bil_ovl k.nlas.sum Rotate.lin_id Rotate.lin_id) u1 u2 hold
  refine ⟨out, ?_, g2⟩
  unfold Kern.getOvlp
  rw [cumsum_last _ hne, e1]
  exact g1

end

/-- **C101.** For every selection of different rootspaces (all of them, or a list in any order), any number of fragments and local
roots, and any rotations: if the overlap tables hold the overlaps of the vectors `w` of the representatives and the vectors `x` of the
caller are these vectors rotated by the matrices, `get_ovlp` ends without exception and its element for two model states, given by the
positions of their rootspaces in the selection and by their local roots, is the overlap of the two products of fragment vectors. -/
theorem C101_overlap {K : Type} [Field K] (h2 : (2 : K) ≠ 0) (k : Kern K) (hK : Consistent k) (h0 : k.nlas ≠ [])
    (w x : Nat → Nat → Nat → Vec K) (hT : OvlpTables k w) (hS : Screens k w) (umats : Nat → List (Nat × Nd K)) (hU : Matrices k.cols k.nlas.length umats)
    (hx : RotatedBy k.cols k.nlas.length umats (fun f r a => w f (k.uroot f r) a) x) (rootidx : Option (List Nat))
    (hne : selection k rootidx ≠ []) (hnd : (selection k rootidx).Nodup) (hr : ∀ r ∈ selection k rootidx, r < k.cols.length) :
    ∃ T, k.getOvlp umats rootidx = some T ∧
      T.shape = [((selectedCols k rootidx).map List.prod).sum, ((selectedCols k rootidx).map List.prod).sum] ∧
      ∀ i j d d', i < (selection k rootidx).length → j < (selection k rootidx).length →
        InShape d ((selectedCols k rootidx).getD i []) → InShape d' ((selectedCols k rootidx).getD j []) →
        T.get [stateIndex (selectedCols k rootidx) i d, stateIndex (selectedCols k rootidx) j d'] =
          ovl k.nlas.sum (prodVec k.nlas (fun f => x f ((selection k rootidx).getD i 0) (d.getD f 0)))
            (prodVec k.nlas (fun f => x f ((selection k rootidx).getD j 0) (d'.getD f 0))) := by
  have hc := selCols_selection (k := k) rootidx
  have hlen : (selectedCols k rootidx).length = (selection k rootidx).length := by simp [selectedCols]
  obtain ⟨T, h1, h3, h4⟩ := getOvlp_holds h2 hK h0 hT hS hU hx rootidx (selOk_selection rootidx hnd hr) (by
    rw [hc]; unfold selectedCols; simpa using hne)
  rw [hc] at h3 h4
  refine ⟨T, h1, h3, fun i j d d' hi hj hd hd' => ?_⟩
  rw [← sel_selection rootidx i hi, ← sel_selection rootidx j hj]
  exact h4 i j d d' [] (by omega) (by omega) hd hd' .nil

section
variable {K : Type} [Field K] [DecidableEq K] {k : Kern K}

theorem address_state (hK : Consistent k) (r : Nat) (hr : r < k.cols.length) (d : List Nat) (hd : InShape d (k.cols.getD r [])) :
    address k r (fun f => d.getD f 0) = stateIndex k.cols r d := by
  have hC := Kern.cols_of hK
  rw [show address k r (fun f => d.getD f 0) = k.adr r (fun f => d.getD f 0) from rfl, Kern.adr_eq hC r hr]
  unfold stateIndex
  have hd' : (List.range k.nlas.length).map (fun f => d.getD f 0) = d := by
    apply List.ext_getElem
    · rw [Verif.Radix.inShape_length hd, hC.len r hr]; simp
    · intro i h1 h2
      simp only [List.getElem_map, List.getElem_range]
      rw [List.getD_eq_getElem _ _ h2]
  rw [hd']
  rfl

theorem digit_lt (hK : Consistent k) (r : Nat) (hr : r < k.cols.length) (d : List Nat) (hd : InShape d (k.cols.getD r [])) :
    ∀ f < k.nlas.length, d.getD f 0 < lroots k r f := fun f hf =>
  ((Verif.Radix.inShape_iff _ _).mp hd).2 f (by rw [(Kern.cols_of hK).len r hr]; exact hf)

theorem address_list (hK : Consistent k) (r : Nat) (hr : r < k.cols.length) (e : Nat → Nat) (he : ∀ f < k.nlas.length, e f < lroots k r f) :
    address k r e = stateIndex k.cols r ((List.range k.nlas.length).map e) ∧ InShape ((List.range k.nlas.length).map e) (k.cols.getD r []) := by
  have hC := Kern.cols_of hK
  have hin := Kern.inShape_of hC r hr e he
  refine ⟨?_, hin⟩
  rw [show address k r e = k.adr r e from rfl, Kern.adr_eq hC r hr]
  rfl

theorem prodVec_list {K : Type} [CommRing K] (ns : List Nat) (x : Nat → Nat → Vec K) (e : Nat → Nat) :
    prodVec ns (fun f => x f (((List.range ns.length).map e).getD f 0)) = prodVec ns (fun f => x f (e f)) := by
  unfold prodVec
  funext A B
  refine Finset.prod_congr rfl fun f hf => ?_
  have hf : f < ns.length := by simpa using hf
  dsimp only
  rw [List.getD_eq_getElem _ _ (by simpa using hf)]
  simp

theorem holds_address (hK : Consistent k) {rest : List Nat} {T : Nd K} {B : List Nat → Vec K → Vec K → K} {x : Nat → Nat → Nat → Vec K}
    (h : Holds k.nlas k.cols rest T B x x) (r r' : Nat) (e e' : Nat → Nat) (t : List Nat) (hr : r < k.cols.length) (hr' : r' < k.cols.length)
    (he : ∀ f < k.nlas.length, e f < lroots k r f) (he' : ∀ f < k.nlas.length, e' f < lroots k r' f) (ht : InShape t rest) :
    T.get (address k r e :: address k r' e' :: t) = B t (prodVec k.nlas (fun f => x f r (e f))) (prodVec k.nlas (fun f => x f r' (e' f))) := by
  obtain ⟨a1, a2⟩ := address_list hK r hr e he
  obtain ⟨b1, b2⟩ := address_list hK r' hr' e' he'
  rw [a1, b1, h.get r r' _ _ t hr hr' a2 b2 ht, prodVec_list k.nlas (fun f => x f r) e, prodVec_list k.nlas (fun f => x f r') e']

theorem numStates_eq (h : k.cols ≠ []) : k.numStates = (k.cols.map List.prod).sum := by
  unfold Kern.numStates
  rw [List.getLastD_eq_getLast?, cumsum_last _ h]
  rfl

theorem kern_pos (hK : Consistent k) : ∀ c ∈ k.cols, ∀ n ∈ c, 0 < n := hK.lroots_pos

end

/-- **C99 with rotations (partial).** As `C99_kernel_exact_partial`, for rootspaces of which some are rotations of earlier ones: the
arrays returned after the loop over linearly equivalent rootspaces are the transition density matrices of the products of the vectors
`x` of the caller. Missing: nine or more fragments and rows whose fingerprints collide. -/
theorem C99_rotated_partial {K : Type} [Field K] [DecidableEq K] (h2 : (2 : K) ≠ 0) (k : Kern K) (h0 : k.cols ≠ [])
    (w x : Nat → Nat → Nat → Vec K)
    (hD : Describes k.toLstdm (fun f st => w f (k.uroot f (k.rootOf st)) (k.envOf f st)))
    (umats : Nat → List (Nat × Nd K)) (hU : Matrices k.cols k.nlas.length umats)
    (hx : RotatedBy k.cols k.nlas.length umats (fun f r a => w f (k.uroot f r) a) x)
    (h8 : k.nlas.length ≤ 8) (hK : Consistent k) (hH : NoCollision k) (hS : Screens k w) :
    ∃ T1 T2, k.kernelRot umats = some (T1, T2) ∧ ∀ r r' e e', r < k.cols.length → r' < k.cols.length →
      (∀ f < k.nlas.length, e f < lroots k r f) → (∀ f < k.nlas.length, e' f < lroots k r' f) →
      (∀ s p q, p < k.nlas.sum → q < k.nlas.sum →
        T1.get [address k r e, address k r' e', ix s, p, q] =
          tdm1 k.nlas.sum (prodVec k.nlas (fun f => x f r (e f))) (prodVec k.nlas (fun f => x f r' (e' f))) s p q) ∧
      (∀ s t p q y u, p < k.nlas.sum → q < k.nlas.sum → y < k.nlas.sum → u < k.nlas.sum →
        T2.get [address k r e, address k r' e', 2 * ix s + ix t, p, q, y, u] =
          tdm2 k.nlas.sum (prodVec k.nlas (fun f => x f r (e f))) (prodVec k.nlas (fun f => x f r' (e' f))) s t p q y u) := by
  obtain ⟨T, e1, e2⟩ := C99_kernel_exact_partial h2 k w hD h8 hK hH hS
  have hsp : ∀ s, s < 2 → s = ix (s != 0) := by decide
  have hsp2 : ∀ s, s < 4 → s = 2 * ix (s / 2 != 0) + ix (s % 2 != 0) := by decide
  have hold1 : Holds k.nlas k.cols [2, k.nlas.sum, k.nlas.sum] ⟨[k.numStates, k.numStates, 2, k.nlas.sum, k.nlas.sum],
      fun t => (T (t.getD 0 0) (t.getD 1 0)).1 (t.getD 2 0) (t.getD 3 0) (t.getD 4 0)⟩
      (fun t φ χ => tdm1 k.nlas.sum φ χ (t.getD 0 0 != 0) (t.getD 1 0) (t.getD 2 0))
      (fun f r a => w f (k.uroot f r) a) (fun f r a => w f (k.uroot f r) a) := by
    refine ⟨by rw [numStates_eq h0], fun r r' d d' t hr hr' hd hd' ht => ?_⟩
    obtain ⟨s, p, q, rfl, l1, l2, l3⟩ : ∃ s p q, t = [s, p, q] ∧ s < 2 ∧ p < k.nlas.sum ∧ q < k.nlas.sum := by
      cases ht with
      | cons a1 ht =>
        cases ht with
        | cons a2 ht =>
          cases ht with
          | cons a3 ht => cases ht; exact ⟨_, _, _, rfl, a1, a2, a3⟩
    have := (e2 r r' (fun f => d.getD f 0) (fun f => d'.getD f 0) hr hr' (digit_lt hK r hr d hd) (digit_lt hK r' hr' d' hd')).1
      (s != 0) p q l2 l3
    rw [address_state hK r hr d hd, address_state hK r' hr' d' hd', ← hsp s l1] at this
    exact this
  have hold2 : Holds k.nlas k.cols [4, k.nlas.sum, k.nlas.sum, k.nlas.sum, k.nlas.sum] ⟨[k.numStates, k.numStates, 4, k.nlas.sum, k.nlas.sum, k.nlas.sum, k.nlas.sum],
      fun t => (T (t.getD 0 0) (t.getD 1 0)).2 (t.getD 2 0) (t.getD 3 0) (t.getD 4 0) (t.getD 5 0) (t.getD 6 0)⟩
      (fun t φ χ => tdm2 k.nlas.sum φ χ (t.getD 0 0 / 2 != 0) (t.getD 0 0 % 2 != 0) (t.getD 1 0) (t.getD 2 0) (t.getD 3 0) (t.getD 4 0))
      (fun f r a => w f (k.uroot f r) a) (fun f r a => w f (k.uroot f r) a) := by
    refine ⟨by rw [numStates_eq h0], fun r r' d d' t hr hr' hd hd' ht => ?_⟩
    obtain ⟨s, p, q, y, u, rfl, l1, l2, l3, l4, l5⟩ : ∃ s p q y u, t = [s, p, q, y, u] ∧ s < 4 ∧ p < k.nlas.sum ∧ q < k.nlas.sum ∧
        y < k.nlas.sum ∧ u < k.nlas.sum := by
      cases ht with
      | cons a1 ht =>
        cases ht with
        | cons a2 ht =>
          cases ht with
          | cons a3 ht =>
            cases ht with
            | cons a4 ht =>
              cases ht with
              | cons a5 ht => cases ht; exact ⟨_, _, _, _, _, rfl, a1, a2, a3, a4, a5⟩
    have := (e2 r r' (fun f => d.getD f 0) (fun f => d'.getD f 0) hr hr' (digit_lt hK r hr d hd) (digit_lt hK r' hr' d' hd')).2
      (s / 2 != 0) (s % 2 != 0) p q y u l2 l3 l4 l5
    rw [address_state hK r hr d hd, address_state hK r' hr' d' hd', ← hsp2 s l1] at this
    exact this
  obtain ⟨T1, a1, a2⟩ := C102_linequiv_loop k.nlas k.cols _ hK.lroots_len hK.lroots_pos umats hU _ x hx _ (fun t => Rotate.bil_tdm1 _ _ _ _) _ hold1
  obtain ⟨T2, b1, b2⟩ := C102_linequiv_loop k.nlas k.cols _ hK.lroots_len hK.lroots_pos umats hU _ x hx _ (fun t => Rotate.bil_tdm2 _ _ _ _ _ _ _) _ hold2
  refine ⟨T1, T2, ?_, fun r r' e e' hr hr' he he' => ⟨fun s p q hp hq => ?_, fun s t p q y u hp hq hy hu => ?_⟩⟩
  · unfold Kern.kernelRot
    rw [e1]
    dsimp only [Option.bind_eq_bind, Option.bind_some]
    rw [a1, Option.bind_some, b1]
    rfl
  · rw [holds_address hK a2 r r' e e' [ix s, p, q] hr hr' he he' (.cons (by unfold ix; split <;> omega) (.cons hp (.cons hq .nil)))]
    cases s <;> rfl
  · rw [holds_address hK b2 r r' e e' [2 * ix s + ix t, p, q, y, u] hr hr' he he'
      (.cons (by unfold ix; split <;> split <;> omega) (.cons hp (.cons hq (.cons hy (.cons hu .nil)))))]
    have q1 : ∀ s t : Bool, ((2 * ix s + ix t) / 2 != 0) = s ∧ ((2 * ix s + ix t) % 2 != 0) = t := by decide
    change tdm2 _ _ _ ((2 * ix s + ix t) / 2 != 0) ((2 * ix s + ix t) % 2 != 0) p q y u = _
    rw [(q1 s t).1, (q1 s t).2]

/-- **C100 with rotations (partial).** As `C100_ham_s2_exact_partial`, for rootspaces of which some are rotations of earlier ones, and
with the overlap matrix: the three matrices returned by `kernel` hold `⟨bra|H|ket⟩`, `⟨bra|S²|ket⟩` and `⟨bra|ket⟩` of the products of
the vectors `x` of the caller. Missing: as for C99, and spin multiplicities. -/
theorem C100_rotated_partial {K : Type} [Field K] [DecidableEq K] (h2 : (2 : K) ≠ 0) (k : Kern K) (h0 : k.cols ≠ []) (h1 : k.nlas ≠ []) (H : Ham K)
    (hone : ∀ s p q, H.h1 s p q = H.h1 s q p) (htwo : ∀ p q r u, H.h2 p q r u = H.h2 q p u r)
    (hswap : ∀ p q r u, H.h2 p q r u = H.h2 r u p q) (w x : Nat → Nat → Nat → Vec K)
    (hD : Describes k.toLstdm (fun f st => w f (k.uroot f (k.rootOf st)) (k.envOf f st))) (hO : OvlpTables k w)
    (umats : Nat → List (Nat × Nd K)) (hU : Matrices k.cols k.nlas.length umats)
    (hx : RotatedBy k.cols k.nlas.length umats (fun f r a => w f (k.uroot f r) a) x)
    (h8 : k.nlas.length ≤ 8) (hK : Consistent k) (hH : NoCollision k) (hS : Screens k w) :
    ∃ ham s2 ovlp, k.hamKernelRot H umats = some (ham, s2, ovlp) ∧ ∀ r r' e e', r < k.cols.length → r' < k.cols.length →
      (∀ f < k.nlas.length, e f < lroots k r f) → (∀ f < k.nlas.length, e' f < lroots k r' f) →
      ham.get [address k r e, address k r' e'] = hamEl k.nlas.sum (fun s => H.h1 (ix s)) H.h2
        (prodVec k.nlas (fun f => x f r (e f))) (prodVec k.nlas (fun f => x f r' (e' f))) ∧
      s2.get [address k r e, address k r' e'] = s2El k.nlas.sum
        (prodVec k.nlas (fun f => x f r (e f))) (prodVec k.nlas (fun f => x f r' (e' f))) ∧
      ovlp.get [address k r e, address k r' e'] = ovl k.nlas.sum
        (prodVec k.nlas (fun f => x f r (e f))) (prodVec k.nlas (fun f => x f r' (e' f))) := by
  obtain ⟨M, e1, e2⟩ := C100_ham_s2_exact_partial h2 k H hone htwo hswap w hD h8 hK hH hS
  have hold1 : Holds k.nlas k.cols [] ⟨[k.numStates, k.numStates], fun t => M.1 (t.getD 0 0) (t.getD 1 0)⟩
      (fun _ => hamEl k.nlas.sum (fun s => H.h1 (ix s)) H.h2) (fun f r a => w f (k.uroot f r) a) (fun f r a => w f (k.uroot f r) a) := by
    refine ⟨by rw [numStates_eq h0], fun r r' d d' t hr hr' hd hd' ht => ?_⟩
    have := (e2 r r' (fun f => d.getD f 0) (fun f => d'.getD f 0) hr hr' (digit_lt hK r hr d hd) (digit_lt hK r' hr' d' hd')).1
    rw [address_state hK r hr d hd, address_state hK r' hr' d' hd'] at this
    exact this
  have hold2 : Holds k.nlas k.cols [] ⟨[k.numStates, k.numStates], fun t => M.2 (t.getD 0 0) (t.getD 1 0)⟩
      (fun _ => s2El k.nlas.sum) (fun f r a => w f (k.uroot f r) a) (fun f r a => w f (k.uroot f r) a) := by
    refine ⟨by rw [numStates_eq h0], fun r r' d d' t hr hr' hd hd' ht => ?_⟩
    have := (e2 r r' (fun f => d.getD f 0) (fun f => d'.getD f 0) hr hr' (digit_lt hK r hr d hd) (digit_lt hK r' hr' d' hd')).2
    rw [address_state hK r hr d hd, address_state hK r' hr' d' hd'] at this
    exact this
  obtain ⟨T1, a1, a2⟩ := C102_linequiv_loop k.nlas k.cols _ hK.lroots_len hK.lroots_pos umats hU _ x hx _ (fun t => Rotate.bil_hamEl _ _ _) _ hold1
  obtain ⟨T2, b1, b2⟩ := C102_linequiv_loop k.nlas k.cols _ hK.lroots_len hK.lroots_pos umats hU _ x hx _ (fun t => Rotate.bil_s2El _) _ hold2
  obtain ⟨T3, c1, c2⟩ := getOvlp_holds h2 hK h1 hO hS hU hx none trivial h0
  refine ⟨T1, T2, T3, ?_, fun r r' e e' hr hr' he he' => ⟨?_, ?_, ?_⟩⟩
  · unfold Kern.hamKernelRot
    rw [e1]
    dsimp only [Option.bind_eq_bind, Option.bind_some]
    rw [c1, Option.bind_some, a1, Option.bind_some, b1]
    rfl
  · exact holds_address hK a2 r r' e e' [] hr hr' he he' .nil
  · exact holds_address hK b2 r r' e e' [] hr hr' he he' .nil
  · exact holds_address hK c2 r r' e e' [] hr hr' he he' .nil

/-- The dictionaries of a two-fragment example: one matrix, for the first fragment of the first rootspace. -/
def exU : Nat → List (Nat × Nd ℚ) := fun f => if f = 0 then [(0, ⟨[2, 2], fun t => (3 * t.getD 0 0 + t.getD 1 0 + 1 : ℕ)⟩)] else []

/-- The rotated vectors of the example. -/
def exX : Nat → Nat → Nat → Vec ℚ := fun f r a =>
  if f = 0 ∧ r = 0 then fun X Y => ∑ c ∈ Finset.range 2, ((3 * c + a + 1 : ℕ) : ℚ) * exW 0 0 c X Y else exW f r a

theorem exU_matrices : Matrices exK.cols exK.nlas.length exU := by
  have e : exK.nlas.length = 2 := rfl
  refine ⟨fun f hf => ?_, fun f hf => ?_, fun f hf => ?_⟩ <;> rw [e] at hf <;> interval_cases f <;> simp [exU] <;> decide

theorem exX_rotated : RotatedBy exK.cols exK.nlas.length exU (fun f r a => exW f (exK.uroot f r) a) exX := by
  have e : exK.nlas.length = 2 := rfl
  refine ⟨fun f hf r U hU a ha => ?_, fun f hf r hr hn a => ?_⟩
  · rw [e] at hf
    interval_cases f
    · obtain ⟨rfl, rfl⟩ := Prod.mk.inj (List.mem_singleton.mp hU)
      rfl
    · simp [exU] at hU
  · rw [e] at hf
    interval_cases f
    · simp [exU] at hn
      simp only [exX, hn]
      rfl
    · rfl

theorem exW_numbers (f : Nat) (hf : f < 2) (r : Nat) (hr : r < 3) (a : Nat) :
    HasNumbers (exK.nlas.getD f 0) (exW f r a) ((exK.nelec.getD r []).getD f (0, 0)).1 ((exK.nelec.getD r []).getD f (0, 0)).2 := by
  interval_cases f <;> interval_cases r <;> simp [exW]
  · by_cases ha : a = 0 <;> simp only [ha] <;> exact hasNumbers_det _ _ _ _ _ (by decide) (by decide)
  all_goals exact hasNumbers_det _ _ _ _ _ (by decide) (by decide)

theorem exK_ovlpTables : OvlpTables exK exW := by
  refine ⟨fun f hf r hr a _ => exW_numbers f hf r hr a, fun f _ r _ r' _ _ a _ b _ => ?_⟩
  simp [exK, kernOf, tablesOf]

/-- Non-vacuity of C101, C99 and C100 with rotations: a matrix that is not orthogonal, a selection in another order, and nonzero
elements. -/
example : Consistent exK ∧ NoCollision exK ∧ Screens exK exW ∧ exK.nlas ≠ [] ∧ exK.cols ≠ [] ∧ OvlpTables exK exW ∧ Matrices exK.cols exK.nlas.length exU ∧
    RotatedBy exK.cols exK.nlas.length exU (fun f r a => exW f (exK.uroot f r) a) exX ∧
    (selection exK (some [2, 0])).Nodup ∧ selection exK none = [0, 1, 2] ∧ InShape [1, 0] ((selectedCols exK (some [2, 0])).getD 1 []) ∧
    stateIndex (selectedCols exK (some [2, 0])) 1 [1, 0] = 2 ∧
    ovl 3 (prodVec [2, 1] (fun f => exX f 0 0)) (prodVec [2, 1] (fun f => exX f 0 (if f = 0 then 1 else 0))) = 22 ∧
    tdm1 3 (prodVec [2, 1] (fun f => exX f 1 0)) (prodVec [2, 1] (fun f => exX f 0 (if f = 0 then 1 else 0))) true 0 2 ≠ 0 := by
  refine ⟨exK_consistent, exK_noCollision, exK_screens, by decide, by decide, exK_ovlpTables, exU_matrices, exX_rotated, by decide, by decide,
    .cons (by decide) (.cons (by decide) .nil), by decide, by decide +kernel, by decide +kernel⟩

/-- Non-vacuity of C102: the overlap is linear in both vectors, and the hypotheses on the matrices are met. -/
example : (∀ c ∈ exK.cols, c.length = exK.nlas.length) ∧ (∀ c ∈ exK.cols, ∀ n ∈ c, 0 < n) ∧ Matrices exK.cols exK.nlas.length exU ∧
    Bilinear (ovl (K := ℚ) 3) ∧ (fun f r a => exW f (exK.uroot f r) a) ≠ exX := by
  refine ⟨by decide, by decide, exU_matrices, Rotate.bil_ovl 3 Rotate.lin_id Rotate.lin_id, fun h => ?_⟩
  have := congrFun (congrFun (congrFun (congrFun (congrFun h 0) 0) 0) 2) 0
  revert this
  decide +kernel

end Verif.Props
