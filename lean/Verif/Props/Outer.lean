import Verif.Lemmas.OuterDot
/-!
# C93, C94: products of fragment CI vectors, and overlaps with them
-/
namespace Verif.Outer
open Verif.Np Verif.Fockspace Verif.Spec Verif.Spec.Outer Verif.Spec.Fsucc Verif.Spec.Fockspace Verif.Radix
open scoped BigOperators

variable {K : Type} [CommRing K]

theorem keptL_eq (skip : Nat → Bool) (n : Nat) (fs : List (Frag K)) :
    keptL skip n fs = ((fs.zipIdx n).filter fun x => !skip x.2).map fun x => x.1.lroots := by
  induction fs generalizing n with
  | nil => rfl
  | cons f fs ih => rw [keptL, ih, List.zipIdx_cons, List.filter_cons]; cases skip n <;> simp

theorem keptT_eq (skip : Nat → Bool) (t : Nat → Nat) (n : Nat) (fs : List (Frag K)) :
    keptT skip t n fs = ((fs.zipIdx n).filter fun x => !skip x.2).map fun x => t x.2 := by
  induction fs generalizing n with
  | nil => rfl
  | cons f fs ih => rw [keptT, ih, List.zipIdx_cons, List.filter_cons]; cases skip n <;> simp

theorem skShape_eq (skip : Nat → Bool) (n : Nat) (fs : List (Frag K)) :
    skShape skip n fs = ((fs.zipIdx n).filter fun x => skip x.2).reverse.flatMap fun x => [x.1.dA, x.1.dB] := by
  induction fs generalizing n with
  | nil => rfl
  | cons f fs ih => rw [skShape, ih, List.zipIdx_cons, List.filter_cons]; cases skip n <;> simp

theorem skCoord_eq (skip : Nat → Bool) (u w : Nat → Nat) (n : Nat) (fs : List (Frag K)) :
    skCoord skip u w n fs = ((fs.zipIdx n).filter fun x => skip x.2).reverse.flatMap fun x => [u x.2, w x.2] := by
  induction fs generalizing n with
  | nil => rfl
  | cons f fs ih => rw [skCoord, ih, List.zipIdx_cons, List.filter_cons]; cases skip n <;> simp

theorem prodStrs_toFinset {ns ks : List Nat} (hl : ks.length = ns.length) :
    (prodStrs ns ks).toFinset = (Finset.range (2 ^ ns.sum)).filter fun D => fragOcc ns D = ks := by
  ext D
  rw [List.mem_toFinset, mem_prodStrs hl, Finset.mem_filter, Finset.mem_range]

/-- What `ciOuterProduct` returns. -/
theorem product_ok {fs : List (Frag K)} (hne : fs ≠ []) (hok : ∀ f ∈ fs, f.OK) : ∃ P, ciOuterProduct fs = some P ∧
    P.nprods = (fs.map Frag.lroots).prod ∧ P.nelec = ((fs.map Frag.na).sum, (fs.map Frag.nb).sum) ∧
    P.addrsA = (prodStrs (fs.map Frag.norb) (fs.map Frag.na)).map (addrOf (fs.map Frag.norb).sum) ∧
    P.addrsB = (prodStrs (fs.map Frag.norb) (fs.map Frag.nb)).map (addrOf (fs.map Frag.norb).sum) ∧
    P.dp.shape = [(fs.map Frag.lroots).prod, (fs.map Frag.dA).prod, (fs.map Frag.dB).prod] ∧
    P.addrsA.length = (fs.map Frag.dA).prod ∧ P.addrsB.length = (fs.map Frag.dB).prod ∧
    ∀ (t u w : Nat → Nat) i j, InShape (roots t 0 fs.length) (fs.map Frag.lroots) →
        i < (fs.map Frag.dA).prod → j < (fs.map Frag.dB).prod →
        P.dp.get [posF (fs.map Frag.lroots) (roots t 0 fs.length), i, j] = wt (fun _ => false) t u w 0 fs i j := by
  obtain ⟨dp, hdp, hds, hdv⟩ := ciDp_ok hne hok
  refine ⟨_, by rw [ciOuterProduct, hdp]; rfl, rfl, rfl, addrOuter_eq (le_A hok), addrOuter_eq (le_B hok), hds, ?_, ?_,
    fun t u w i j => hdv t u w 0 i j⟩
  · simp only
    rw [addrOuter_eq (le_A hok), List.length_map, prodStrs_length _ _ (by simp), (dims_eq fs).1]
  · simp only
    rw [addrOuter_eq (le_B hok), List.length_map, prodStrs_length _ _ (by simp), (dims_eq fs).2]

theorem roots_getD {t : List Nat} {n : Nat} (h : t.length = n) : roots (fun i => t.getD i 0) 0 n = t := by
  subst h
  apply List.ext_getElem
  · simp [roots]
  · intro i h1 h2
    simp [roots, List.getD_eq_getElem?_getD, h2]

end Verif.Outer

namespace Verif.Props
open Verif.Np Verif.Fockspace Verif.Spec Verif.Spec.Outer Verif.Spec.Fsucc Verif.Spec.Fockspace Verif.Radix Verif.Outer
open scoped BigOperators

variable {K : Type} [CommRing K]

/-- `ci_outer_product`, for any number of fragments of any size and any number of vectors each: there are as many product
vectors as choices of one vector per fragment; the one at position `posF lroots t` (first fragment fastest) is the product of
vectors `t`, that is, its coefficient on the determinant with spin-up string `A` and spin-down string `B` is the product of the
fragments' coefficients on their parts of `A` and `B` if those have the right numbers of electrons, and 0 otherwise. -/
theorem C93_coefficients (fs : List (Frag K)) (hne : fs ≠ []) (hok : ∀ f ∈ fs, f.OK) :
    ∃ P, ciOuterProduct fs = some P ∧ P.nprods = (fs.map Frag.lroots).prod ∧
      P.nelec = ((fs.map Frag.na).sum, (fs.map Frag.nb).sum) ∧
      ∀ t, InShape t (fs.map Frag.lroots) → ∃ v, P.gen (posF (fs.map Frag.lroots) t) = some v ∧
        ∀ A B, A < 2 ^ (fs.map Frag.norb).sum → B < 2 ^ (fs.map Frag.norb).sum →
          nOcc 0 (fs.map Frag.norb).sum A = (fs.map Frag.na).sum → nOcc 0 (fs.map Frag.norb).sum B = (fs.map Frag.nb).sum →
          v (addrOf (fs.map Frag.norb).sum A) (addrOf (fs.map Frag.norb).sum B) =
            if fragOcc (fs.map Frag.norb) A = fs.map Frag.na ∧ fragOcc (fs.map Frag.norb) B = fs.map Frag.nb then
              ∏ f : Fin fs.length, (fs.get f).coeff (t.getD f 0) (addrOf (fs.get f).norb (fragStr (fs.map Frag.norb) f A))
                (addrOf (fs.get f).norb (fragStr (fs.map Frag.norb) f B))
            else 0 := by
  obtain ⟨P, hP, h1, h2, hA, hB, hs, lA, lB, hv⟩ := product_ok hne hok
  refine ⟨P, hP, h1, h2, ?_⟩
  intro t ht
  have htl : t.length = fs.length := by simpa using inShape_length ht
  refine ⟨_, by rw [Product.gen, if_pos (by rw [hs, lA, lB]; rfl)], ?_⟩
  intro A B hA1 hB1 hA2 hB2
  have sA : A ∈ strs (fs.map Frag.norb).sum (fs.map Frag.na).sum := mem_strs.2 ⟨hA1, hA2⟩
  have sB : B ∈ strs (fs.map Frag.norb).sum (fs.map Frag.nb).sum := mem_strs.2 ⟨hB1, hB2⟩
  rw [hA, hB]
  by_cases h : fragOcc (fs.map Frag.norb) A = fs.map Frag.na ∧ fragOcc (fs.map Frag.norb) B = fs.map Frag.nb
  · have pA := (mem_prodStrs (ns := fs.map Frag.norb) (ks := fs.map Frag.na) (by simp)).2 ⟨hA1, h.1⟩
    have pB := (mem_prodStrs (ns := fs.map Frag.norb) (ks := fs.map Frag.nb) (by simp)).2 ⟨hB1, h.2⟩
    rw [if_pos ⟨(mem_addrs (by simp) sA).2 pA, (mem_addrs (by simp) sB).2 pB⟩, if_pos h]
    rw [idxOf_addrs (by simp) pA, idxOf_addrs (by simp) pB, (dims_eq fs).1, (dims_eq fs).2]
    have iA := posF_lt (idxOf_prodStrs (by simp) pA).1
    have iB := posF_lt (idxOf_prodStrs (by simp) pB).1
    rw [(dims_eq fs).1] at iA
    rw [(dims_eq fs).2] at iB
    have := hv (fun i => t.getD i 0) 0 0 _ _ (by rw [roots_getD htl]; exact ht) iA iB
    rw [roots_getD htl] at this
    rw [this, wt_part _ _ _ _ _ _ pA pB]
    simp
  · rw [if_neg, if_neg h]
    rintro ⟨h1, h2⟩
    rw [mem_addrs (by simp) sA, mem_prodStrs (by simp)] at h1
    rw [mem_addrs (by simp) sB, mem_prodStrs (by simp)] at h2
    exact h ⟨h1.2, h2.2⟩

/-- `dotter` with nothing skipped: entry `p` is the scalar product of product vector `p` with the given CAS CI vector; all
entries are 0 if the vector belongs to another number of electrons. -/
theorem C94_overlap (fs : List (Frag K)) (hne : fs ≠ []) (hok : ∀ f ∈ fs, f.OK) (c1 : Nat → Nat → K) (nelec1 : Nat × Nat) :
    ∃ P r, ciOuterProduct fs = some P ∧ P.dotter fs c1 nelec1 none = some r ∧ r.shape = [P.nprods] ∧
      ∀ p < P.nprods, ∃ v, P.gen p = some v ∧
        r.get [p] = if nelec1 = P.nelec then
            ∑ x ∈ Finset.range ((fs.map Frag.norb).sum.choose P.nelec.1), ∑ y ∈ Finset.range ((fs.map Frag.norb).sum.choose P.nelec.2),
              v x y * c1 x y
          else 0 := by
  obtain ⟨P, hP, h1, h2, hA, hB, hs, lA, lB, hv⟩ := product_ok hne hok
  have hgen : ∀ p, P.gen p = some fun x y =>
      if x ∈ P.addrsA ∧ y ∈ P.addrsB then P.dp.get [p, P.addrsA.idxOf x, P.addrsB.idxOf y] else 0 := by
    intro p; rw [Product.gen, if_pos (by rw [hs, lA, lB]; rfl)]
  by_cases hn : nelec1 = P.nelec
  · obtain ⟨m, hm⟩ := Nd.reshape_some P.dp [P.nprods, (P.gather c1).shape.prod] (by simp [hs, h1, Product.gather, lA, lB])
    refine ⟨P, _, hP, by rw [Product.dotter, if_neg (by simpa using hn), Product.dotFlat, hm]; rfl, rfl, ?_⟩
    intro p hp
    refine ⟨_, hgen p, ?_⟩
    rw [if_pos hn]
    simp only [List.getD_cons_zero]
    -- the left side as a sum over positions
    have hl : ∑ k ∈ Finset.range (P.gather c1).shape.prod, m.get [p, k] * (P.gather c1).flat k =
        ∑ i ∈ Finset.range (fs.map Frag.dA).prod, ∑ j ∈ Finset.range (fs.map Frag.dB).prod,
          P.dp.get [p, i, j] * c1 (P.addrsA.getD i 0) (P.addrsB.getD j 0) := by
      have : (P.gather c1).shape.prod = (fs.map Frag.dA).prod * (fs.map Frag.dB).prod := by simp [Product.gather, lA, lB]
      rw [this, sum_blocks]
      apply Finset.sum_congr rfl
      intro i hi
      apply Finset.sum_congr rfl
      intro j hj
      have hi := Finset.mem_range.1 hi
      have hj := Finset.mem_range.1 hj
      congr 1
      · apply get_posC hm
        · rw [hs, ← h1]
          exact List.Forall₂.cons hp (List.Forall₂.cons hi (List.Forall₂.cons hj List.Forall₂.nil))
        · rw [hs, this]; simp [posC]
      · have e : i * (fs.map Frag.dB).prod + j = posC (P.gather c1).shape [i, j] := by simp [Product.gather, lB, posC]
        rw [e, Nd.flat_posC]
        · rfl
        · simp only [Product.gather, lA, lB]
          exact List.Forall₂.cons hi (List.Forall₂.cons hj List.Forall₂.nil)
    rw [hl, h2, sum_strs]
    have hsubA : (prodStrs (fs.map Frag.norb) (fs.map Frag.na)).toFinset ⊆ (strs (fs.map Frag.norb).sum (fs.map Frag.na).sum).toFinset := by
      intro D hD
      rw [List.mem_toFinset] at hD ⊢
      exact prodStrs_sub (by simp) hD
    have hsubB : (prodStrs (fs.map Frag.norb) (fs.map Frag.nb)).toFinset ⊆ (strs (fs.map Frag.norb).sum (fs.map Frag.nb).sum).toFinset := by
      intro D hD
      rw [List.mem_toFinset] at hD ⊢
      exact prodStrs_sub (by simp) hD
    rw [hA, ← (dims_eq fs).1, sum_prodStrs (by simp) (fun i a => ∑ j ∈ Finset.range (fs.map Frag.dB).prod,
      P.dp.get [p, i, j] * c1 a (P.addrsB.getD j 0))]
    rw [← Finset.sum_subset hsubA]
    · apply Finset.sum_congr rfl
      intro A hA'
      have hA' := List.mem_toFinset.1 hA'
      rw [hB, ← (dims_eq fs).2, sum_prodStrs (by simp) (fun j b =>
        P.dp.get [p, posF (List.zipWith Nat.choose (fs.map Frag.norb) (fs.map Frag.na)) (partAddrs (fs.map Frag.norb) A), j] *
          c1 (addrOf (fs.map Frag.norb).sum A) b)]
      rw [sum_strs, ← Finset.sum_subset hsubB]
      · apply Finset.sum_congr rfl
        intro B hB'
        have hB' := List.mem_toFinset.1 hB'
        rw [if_pos ⟨(mem_addrs (by simp) (prodStrs_sub (by simp) hA')).2 hA', (mem_addrs (by simp) (prodStrs_sub (by simp) hB')).2 hB'⟩,
          idxOf_addrs (by simp) hA', idxOf_addrs (by simp) hB']
      · intro B hB1 hB2
        rw [List.mem_toFinset] at hB1 hB2
        rw [if_neg (fun h => hB2 ((mem_addrs (by simp) hB1).1 h.2)), zero_mul]
    · intro A hA1 hA2
      rw [List.mem_toFinset] at hA1 hA2
      apply Finset.sum_eq_zero
      intro y _
      rw [if_neg (fun h => hA2 ((mem_addrs (by simp) hA1).1 h.1)), zero_mul]
  · refine ⟨P, _, hP, by rw [Product.dotter, if_pos hn], rfl, fun p _ => ⟨_, hgen p, ?_⟩⟩
    rw [if_neg hn]

/-- `dotter` with `skip`: the result has one axis for the product index of the fragments that are contracted (first of them
fastest), then the spin-up and spin-down address axes of the skipped fragments, last skipped fragment first. Its entries are the
sums over all determinants whose skipped parts have the given addresses, of the product of the other fragments' coefficients and
of the given CAS CI vector. `t f` is the vector chosen for fragment `f`, `u f` and `w f` the addresses for skipped fragment `f`. -/
theorem C94_skip (fs : List (Frag K)) (hne : fs ≠ []) (hok : ∀ f ∈ fs, f.OK) (c1 : Nat → Nat → K) (skip : Nat → Bool) :
    ∃ P r, ciOuterProduct fs = some P ∧ P.dotter fs c1 P.nelec (some skip) = some r ∧
      let kept := fs.zipIdx.filter fun x => !skip x.2
      let skipped := fs.zipIdx.filter fun x => skip x.2
      r.shape = (kept.map fun x => x.1.lroots).prod ::
        skipped.reverse.flatMap (fun x => [x.1.norb.choose x.1.na, x.1.norb.choose x.1.nb]) ∧
      ∀ t u w : Nat → Nat, InShape (kept.map fun x => t x.2) (kept.map fun x => x.1.lroots) →
        (∀ x ∈ skipped, u x.2 < x.1.norb.choose x.1.na ∧ w x.2 < x.1.norb.choose x.1.nb) →
        r.get (posF (kept.map fun x => x.1.lroots) (kept.map fun x => t x.2) :: skipped.reverse.flatMap (fun x => [u x.2, w x.2])) =
          ∑ A ∈ (Finset.range (2 ^ (fs.map Frag.norb).sum)).filter (fun A => fragOcc (fs.map Frag.norb) A = fs.map Frag.na),
          ∑ B ∈ (Finset.range (2 ^ (fs.map Frag.norb).sum)).filter (fun B => fragOcc (fs.map Frag.norb) B = fs.map Frag.nb),
            (∏ f : Fin fs.length,
              (if skip f then
                (if addrOf (fs.get f).norb (fragStr (fs.map Frag.norb) f A) = u f ∧
                    addrOf (fs.get f).norb (fragStr (fs.map Frag.norb) f B) = w f then 1 else 0)
               else (fs.get f).coeff (t f) (addrOf (fs.get f).norb (fragStr (fs.map Frag.norb) f A))
                (addrOf (fs.get f).norb (fragStr (fs.map Frag.norb) f B)))) *
            c1 (addrOf (fs.map Frag.norb).sum A) (addrOf (fs.map Frag.norb).sum B) := by
  obtain ⟨P, hP, h1, h2, hA, hB, hs, lA, lB, hv⟩ := product_ok hne hok
  obtain ⟨r, hr, hrs, hrv⟩ := dot_loop skip 0 fs hok (c := ⟨1 :: (P.gather c1).shape, fun t => (P.gather c1).get (t.drop 1)⟩) (h0 := 1)
    (hs := []) (by simp [Product.gather, lA, lB]) (s := 1) rfl
  rw [List.append_nil] at hr hrs
  have etake : r.shape.take ((skShape skip 0 fs).length + 1) = (keptL skip 0 fs).prod :: skShape skip 0 fs := by
    rw [hrs]; simp
  obtain ⟨q, hq⟩ := Nd.reshape_some r (r.shape.take ((skShape skip 0 fs).length + 1)) (by rw [etake, hrs]; simp)
  refine ⟨P, q, hP, ?_, ?_, ?_⟩
  · rw [Product.dotter, if_neg (by simp)]
    simp only [hr, Option.bind_eq_bind, Option.bind_some, hq]
  · rw [(Nd.reshape_flat hq).1, etake, keptL_eq, skShape_eq]; rfl
  · intro t u w ht hu
    have ht' : InShape (keptT skip t 0 fs) (keptL skip 0 fs) := by rw [keptL_eq, keptT_eq]; exact ht
    have hu' : ∀ i (h : i < fs.length), skip (0 + i) → u (0 + i) < fs[i].dA ∧ w (0 + i) < fs[i].dB := by
      intro i hi hsk
      rw [Nat.zero_add] at hsk ⊢
      exact hu (fs[i], i) (List.mem_filter.2 ⟨List.mem_zipIdx_iff_getElem?.2 (by simp [hi]), hsk⟩)
    have e := hrv t u w 0 [] (by omega) List.Forall₂.nil ht' hu'
    have hsk : InShape (skCoord skip u w 0 fs) (skShape skip 0 fs) := by
      have key : ∀ n (gs : List (Frag K)), (∀ i (h : i < gs.length), skip (n + i) → u (n + i) < gs[i].dA ∧ w (n + i) < gs[i].dB) →
          InShape (skCoord skip u w n gs) (skShape skip n gs) := by
        intro n gs
        induction gs generalizing n with
        | nil => intro _; exact List.Forall₂.nil
        | cons g gs ih =>
          intro h
          rw [skCoord, skShape]
          apply Outer.inShape_append
          · apply ih
            intro i hi hsi
            have := h (i + 1) (by simpa using hi)
            rw [show n + 1 + i = n + (i + 1) by omega] at hsi ⊢
            simpa using this hsi
          · split_ifs with hsn
            · have := h 0 (by simp) (by simpa using hsn)
              exact List.Forall₂.cons (by simpa using this.1) (List.Forall₂.cons (by simpa using this.2) List.Forall₂.nil)
            · exact List.Forall₂.nil
      exact key 0 fs hu'
    rw [← keptL_eq, ← keptT_eq, ← skCoord_eq]
    rw [get_posC hq (s := (posF (keptL skip 0 fs) (keptT skip t 0 fs) * 1 + 0) :: ((skCoord skip u w 0 fs ++ []) ++ [0, 0]))]
    · rw [e, skVal_sum _ _ _ _ _ _ hok hu']
      simp only [Product.gather, List.drop_succ_cons, List.drop_zero, List.nil_append, List.getD_cons_zero, List.getD_cons_succ]
      rw [hA, ← (dims_eq fs).1, sum_prodStrs (by simp) (fun i a => ∑ j ∈ Finset.range (fs.map Frag.dB).prod,
        wt skip t u w 0 fs i j * c1 a (P.addrsB.getD j 0)), prodStrs_toFinset (by simp)]
      apply Finset.sum_congr rfl
      intro A hA'
      rw [hB, ← (dims_eq fs).2, sum_prodStrs (by simp) (fun j b => wt skip t u w 0 fs
        (posF (List.zipWith Nat.choose (fs.map Frag.norb) (fs.map Frag.na)) (partAddrs (fs.map Frag.norb) A)) j *
          c1 (addrOf (fs.map Frag.norb).sum A) b), prodStrs_toFinset (by simp)]
      apply Finset.sum_congr rfl
      intro B hB'
      rw [Finset.mem_filter, Finset.mem_range] at hA' hB'
      rw [(dims_eq fs).1, (dims_eq fs).2, wt_part _ _ _ _ _ _ ((mem_prodStrs (by simp)).2 hA') ((mem_prodStrs (by simp)).2 hB')]
      simp
    · rw [hrs, List.append_nil]
      refine List.Forall₂.cons ?_ (Outer.inShape_append hsk ?_)
      · have := posF_lt ht'; omega
      · exact List.Forall₂.cons (by omega) (List.Forall₂.cons (by omega) List.Forall₂.nil)
    · rw [etake, hrs, List.append_nil, ← List.cons_append, ← List.cons_append, Outer.posC_append (by simp [inShape_length hsk])]
      simp [posC]

/-- Two fragments of two orbitals: one spin-up electron, two vectors, and a fragment with one spin-up and one spin-down
electron given as a single matrix. -/
def exFrags : List (Frag ℤ) :=
  [⟨2, 1, 0, ⟨[2, 2, 1], fun t => (t.getD 0 0 : ℤ) + 2 * (t.getD 1 0 : ℤ) + 1⟩⟩, ⟨2, 1, 1, ⟨[2, 2], fun t => 3 * (t.getD 0 0 : ℤ) - (t.getD 1 0 : ℤ) + 1⟩⟩]

/-- The hypotheses of `C93_coefficients`, `C94_overlap`, `C94_skip` are met, and product states are not trivial. -/
example : exFrags ≠ [] ∧ (∀ f ∈ exFrags, f.OK) ∧ InShape [1, 0] (exFrags.map Frag.lroots) ∧ fragOcc [2, 2] 9 = [1, 1] ∧
    ((ciOuterProduct exFrags).bind fun P => (P.gen 1).map fun v => v (addrOf 4 9) (addrOf 4 4)) = some 8 := by
  refine ⟨by simp [exFrags], ?_, ?_, by decide, by decide⟩
  · intro f hf
    simp only [exFrags, List.mem_cons, List.not_mem_nil, or_false] at hf
    rcases hf with rfl | rfl
    · exact ⟨by decide, by decide, Or.inr ⟨2, by decide⟩⟩
    · exact ⟨by decide, by decide, Or.inl (by decide)⟩
  · exact List.Forall₂.cons (by decide) (List.Forall₂.cons (by decide) List.Forall₂.nil)

end Verif.Props
