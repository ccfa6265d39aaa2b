import Verif.Lemmas.HsiOvlp
import Verif.Lemmas.HsiRot
import Verif.Spec.Hsi
import Verif.Props.HamS2
import Verif.Props.Overlap
import Mathlib.Logic.Encodable.Basic
import Mathlib.Logic.Equiv.List
/-!
# Property C110: products of the Hamiltonian, spin-squared and overlap matrices with vectors, without the matrices
-/
namespace Verif.Props
open Verif Verif.Spec Verif.Spec.Tdm Verif.Spec.Lstdm Verif.Lstdm Verif.Spec.Fockspace Verif.Tdm Verif.Np Verif.Umat Verif.Spec.Rotate

section
variable {K : Type} [Field K] [DecidableEq K] {k : Kern K}

theorem linksOk_of (hK : Consistent k) (hH : NoCollision k) (h8 : k.nlas.length ≤ 8) {hash : Nat × List Nat → Int}
    (hh : NoLinkCollision k hash) (mk : Kern.ExcRow → Option (Term K)) (rows : List Kern.ExcRow)
    (hrows : ∀ u ∈ rows, (∃ tab, k.Uniq tab u) ∧ ∃ op, mk u = some op) : k.LinksOk hash mk rows := by
  intro gs hgs g hg L hL e he e' he' hash_eq
  obtain ⟨gs', a1, _, a2, _⟩ := Kern.groups_ok mk rows (fun _ _ => True) (fun u hu => by
    obtain ⟨op, h⟩ := (hrows u hu).2
    exact ⟨op, h, trivial⟩)
  rw [hgs] at a1
  obtain rfl := Option.some.inj a1
  have hgrp : k.Grp g.1 (g.2.map Prod.fst) := by
    intro u hu
    obtain ⟨b, hb, rfl⟩ := List.mem_map.mp hu
    obtain ⟨⟨m1, m2⟩, _⟩ := a2 g hg b hb
    exact ⟨m2, (hrows _ m1).1⟩
  obtain ⟨L', b1, b2, _⟩ := Kern.ovlpLink_ok hK g.1 _ hgrp
  rw [hL] at b1
  obtain rfl := Option.some.inj b1
  have hl := Kern.linkOk hK hH h8 hgrp b2
  have hstr : ∀ e ∈ L, IsString k e.2 := fun e he => ⟨hl.len e he, fun f hf => by
    obtain ⟨r, hr, h, _⟩ := hl.spec e he f hf
    exact ⟨r, hr, h⟩⟩
  obtain ⟨c1, c2⟩ := hh e.1 (hl.lt e he) e'.1 (hl.lt e' he') e.2 e'.2 (hstr e he) (hstr e' he') hash_eq
  exact Prod.ext c1 c2

end

/-- **C110 (partial).** Under the conditions of `C100_ham_s2_exact_partial`, and if no two pairs of a rootspace and a list of unique
rootspaces of the fragments have the same fingerprint, the products of the Hamiltonian and of the spin-squared operator with any vector
are computed without exception, and they are the products of that vector with the matrices that the other algorithm computes, whose
elements are `⟨bra|H|ket⟩` and `⟨bra|S²|ket⟩`.
Missing: as for C99 (fingerprint collisions; nine or more fragments), spin multiplicities and spin manifolds. Rootspaces that are
rotations of other rootspaces are the subject of `C110_rotated_partial`. -/
theorem C110_matvec_partial {K : Type} [Field K] [DecidableEq K] (h2 : (2 : K) ≠ 0) (k : Kern K) (H : Ham K)
    (hone : ∀ s p q, H.h1 s p q = H.h1 s q p) (htwo : ∀ p q r u, H.h2 p q r u = H.h2 q p u r)
    (hswap : ∀ p q r u, H.h2 p q r u = H.h2 r u p q) (w : Nat → Nat → Nat → Vec K)
    (hD : Describes k.toLstdm (fun f st => w f (k.uroot f (k.rootOf st)) (k.envOf f st)))
    (h8 : k.nlas.length ≤ 8) (hK : Consistent k) (hH : NoCollision k) (hs : k.smult = none)
    (hash : Nat × List Nat → Int) (hh : NoLinkCollision k hash) (x : Nat → K) :
    ∃ M y z, k.hamKernel H = some M ∧ k.hamOp hash H x = some y ∧ k.s2Op hash H x = some z ∧
      (∀ β < (k.cols.map List.prod).sum, y β = ∑ γ ∈ Finset.range (k.cols.map List.prod).sum, M.1 β γ * x γ ∧
        z β = ∑ γ ∈ Finset.range (k.cols.map List.prod).sum, M.2 β γ * x γ) ∧
      ∀ r r' e e', r < k.cols.length → r' < k.cols.length →
        (∀ f < k.nlas.length, e f < lroots k r f) → (∀ f < k.nlas.length, e' f < lroots k r' f) →
        M.1 (address k r e) (address k r' e') = hamEl k.nlas.sum (fun s => H.h1 (ix s)) H.h2
          (prodVec k.nlas (fun f => w f (k.uroot f r) (e f))) (prodVec k.nlas (fun f => w f (k.uroot f r') (e' f))) ∧
        M.2 (address k r e) (address k r' e') = s2El k.nlas.sum
          (prodVec k.nlas (fun f => w f (k.uroot f r) (e f))) (prodVec k.nlas (fun f => w f (k.uroot f r') (e' f))) := by
  have hHs : H.Sym := ⟨hone, htwo, hswap⟩
  obtain ⟨M, m1, m2⟩ := C100_ham_s2_exact_partial h2 k H hone htwo hswap w hD h8 hK hH (fun sm h => by rw [hs] at h; cases h)
  obtain ⟨M1, y, a1, a2, a3⟩ := Kern.hamOp_ok hK hH hD hHs h2 h8 hs hash x (linksOk_of hK hH h8 hh _ _ (fun u hu => by
    obtain ⟨tab, ht⟩ := Kern.hsiRows_mem u hu
    obtain ⟨op, ho, _⟩ := Kern.hTerm_ok hK hH ht hD hHs h2 h8
    exact ⟨⟨tab, ht⟩, op, ho⟩))
  obtain ⟨M2, z, b1, b2, b3⟩ := Kern.s2Op_ok hK hH hD hHs h2 h8 hs hash x (linksOk_of hK hH h8 hh _ _ (fun u hu => by
    obtain ⟨hu1, hu2⟩ := List.mem_filter.mp hu
    obtain ⟨tab, ht⟩ := Kern.hsiRows_mem u hu1
    obtain ⟨op, ho, _⟩ := Kern.sTerm_ok (H := H) hK hH ht h8 hu2
    exact ⟨⟨tab, ht⟩, op, ho⟩))
  rw [m1] at a1 b1
  obtain rfl := Option.some.inj a1
  obtain rfl := Option.some.inj b1
  exact ⟨M, y, z, m1, a2, b2, fun β hβ => ⟨a3 β hβ, b3 β hβ⟩, m2⟩

/-- **C110, overlap.** The product of the overlap matrix of all model states with any vector is computed without exception; it is the
product with the matrix that the other algorithm computes, whose elements are the overlaps of the products of fragment vectors. -/
theorem C110_overlap_matvec {K : Type} [Field K] (h2 : (2 : K) ≠ 0) (k : Kern K) (hK : Consistent k) (h0 : k.nlas ≠ []) (hc : k.cols ≠ [])
    (w : Nat → Nat → Nat → Vec K) (hT : OvlpTables k w) (hS : Screens k w) (x : Nat → K) :
    ∃ T y, k.getOvlp (fun _ => []) none = some T ∧ k.ovlpOp x = some y ∧
      (∀ β < (k.cols.map List.prod).sum, y β = ∑ γ ∈ Finset.range (k.cols.map List.prod).sum, T.get [β, γ] * x γ) ∧
      ∀ r r' d d', r < k.cols.length → r' < k.cols.length → InShape d (k.cols.getD r []) → InShape d' (k.cols.getD r' []) →
        T.get [stateIndex k.cols r d, stateIndex k.cols r' d'] =
          ovl k.nlas.sum (prodVec k.nlas (fun f => w f (k.uroot f r) (d.getD f 0))) (prodVec k.nlas (fun f => w f (k.uroot f r') (d'.getD f 0))) := by
  have hlen : 0 < k.cols.length := List.length_pos_iff.mpr hc
  have hsc : selectedCols k none = k.cols := by
    unfold selectedCols selection
    apply List.ext_getElem (by simp)
    intro i h1 h2
    simp [List.getElem?_eq_getElem h2]
  obtain ⟨T, t1, _, t3⟩ := C101_overlap h2 k hK h0 w (fun f r a => w f (k.uroot f r) a) hT hS (fun _ => []) 
    ⟨fun _ _ => by simp, fun _ _ p hp => by simp at hp, fun _ _ p hp => by simp at hp⟩ ⟨fun _ _ r U h => by simp at h, fun _ _ _ _ _ _ => rfl⟩ none (by simp [selection]; exact hc) List.nodup_range (by simp [selection])
  obtain ⟨M, y, m1, m2, m3⟩ := Kern.ovlpOp_ok hK (fun h => h0 (List.length_eq_zero_iff.mp h)) x
  refine ⟨T, y, t1, m2, fun β hβ => ?_, fun r r' d d' hr hr' hd hd' => ?_⟩
  · rw [← Verif.Addr.off_all] at hβ ⊢
    rw [m3 β hβ]
    refine Finset.sum_congr rfl fun γ _ => ?_
    have hT' : T.get [β, γ] = M β γ := by
      unfold Kern.getOvlp at t1
      rw [m1] at t1
      obtain ⟨n, _, h⟩ := Option.bind_eq_some_iff.mp t1
      have e : opsOf k.nlas.length (fun f => Kern.selUmats none ((fun _ => [] : Nat → List (Nat × Nd K)) f)) = [] := by
        unfold opsOf
        simp [Kern.selUmats]
      dsimp only [Option.bind_eq_bind, Option.bind_some] at h
      unfold linequivLoop at h
      rw [e] at h
      rw [← Option.some.inj h]
      rfl
    rw [hT']
  · have := t3 r r' d d' (by simpa [selection] using hr) (by simpa [selection] using hr') (by rwa [hsc]) (by rwa [hsc])
    rw [hsc] at this
    rw [this]
    simp [selection, hr, hr']

/-- **C110 with rotations (partial).** As `C110_matvec_partial` and `C110_overlap_matvec`, for rootspaces of which some are rotations of
earlier ones: the input vector is transformed, multiplied and transformed back, and the results are the products of the input vector
with the three matrices that the other algorithm computes, whose elements are those of the products of the rotated vectors `v`. -/
theorem C110_rotated_partial {K : Type} [Field K] [DecidableEq K] (h2 : (2 : K) ≠ 0) (k : Kern K) (h0 : k.cols ≠ []) (h1 : k.nlas ≠ []) (H : Ham K)
    (hone : ∀ s p q, H.h1 s p q = H.h1 s q p) (htwo : ∀ p q r u, H.h2 p q r u = H.h2 q p u r)
    (hswap : ∀ p q r u, H.h2 p q r u = H.h2 r u p q) (w v : Nat → Nat → Nat → Vec K)
    (hD : Describes k.toLstdm (fun f st => w f (k.uroot f (k.rootOf st)) (k.envOf f st))) (hO : OvlpTables k w)
    (umats : Nat → List (Nat × Nd K)) (hU : Matrices k.cols k.nlas.length umats)
    (hv : RotatedBy k.cols k.nlas.length umats (fun f r a => w f (k.uroot f r) a) v)
    (h8 : k.nlas.length ≤ 8) (hK : Consistent k) (hH : NoCollision k) (hs : k.smult = none)
    (hash : Nat × List Nat → Int) (hh : NoLinkCollision k hash) (x : Nd K) (hx : x.shape = [(k.cols.map List.prod).sum]) :
    ∃ ham s2 ovlp y z u, k.hamKernelRot H umats = some (ham, s2, ovlp) ∧
      k.hamOpRot hash H umats x = some y ∧ k.s2OpRot hash H umats x = some z ∧ k.ovlpOpRot umats x = some u ∧
      y.shape = x.shape ∧ z.shape = x.shape ∧ u.shape = x.shape ∧
      (∀ β < (k.cols.map List.prod).sum,
        y.get [β] = ∑ γ ∈ Finset.range (k.cols.map List.prod).sum, ham.get [β, γ] * x.get [γ] ∧
        z.get [β] = ∑ γ ∈ Finset.range (k.cols.map List.prod).sum, s2.get [β, γ] * x.get [γ] ∧
        u.get [β] = ∑ γ ∈ Finset.range (k.cols.map List.prod).sum, ovlp.get [β, γ] * x.get [γ]) ∧
      ∀ r r' e e', r < k.cols.length → r' < k.cols.length →
        (∀ f < k.nlas.length, e f < lroots k r f) → (∀ f < k.nlas.length, e' f < lroots k r' f) →
        ham.get [address k r e, address k r' e'] = hamEl k.nlas.sum (fun s => H.h1 (ix s)) H.h2
          (prodVec k.nlas (fun f => v f r (e f))) (prodVec k.nlas (fun f => v f r' (e' f))) ∧
        s2.get [address k r e, address k r' e'] = s2El k.nlas.sum
          (prodVec k.nlas (fun f => v f r (e f))) (prodVec k.nlas (fun f => v f r' (e' f))) ∧
        ovlp.get [address k r e, address k r' e'] = ovl k.nlas.sum
          (prodVec k.nlas (fun f => v f r (e f))) (prodVec k.nlas (fun f => v f r' (e' f))) := by
  have hS : Screens k w := fun sm h => by rw [hs] at h; cases h
  obtain ⟨ham, s2, ovlp, a1, a2⟩ := C100_rotated_partial h2 k h0 h1 H hone htwo hswap w v hD hO umats hU hv h8 hK hH hS
  have hl : ∀ r < k.cols.length, (k.cols.getD r []).length = k.nlas.length := (Kern.cols_of hK).len
  have hp : ∀ r < k.cols.length, ∀ f < k.nlas.length, 0 < (k.cols.getD r []).getD f 0 := (Kern.cols_of hK).pos
  obtain ⟨M, _, _, m1, _, _, _, m2⟩ := C110_matvec_partial h2 k H hone htwo hswap w hD h8 hK hH hs hash hh (fun _ => 0)
  obtain ⟨T, _, t1, _, _, t2⟩ := C110_overlap_matvec h2 k hK h1 h0 w hO hS (fun _ => 0)
  have addr := fun r hr d hd => address_state hK r hr d hd
  obtain ⟨y, y1, y2, y3⟩ := Rotate.rotated_ok hl hp rfl rfl hU hv (Rotate.bil_hamEl k.nlas.sum (fun s => H.h1 (ix s)) H.h2) (M := M.1) (T := ham)
    (fun r r' d d' hr hr' hd hd' => by
      rw [← addr r hr d hd, ← addr r' hr' d' hd']
      exact (m2 r r' _ _ hr hr' (digit_lt hK r hr d hd) (digit_lt hK r' hr' d' hd')).1)
    (fun r r' d d' hr hr' hd hd' => by
      rw [← addr r hr d hd, ← addr r' hr' d' hd']
      exact (a2 r r' _ _ hr hr' (digit_lt hK r hr d hd) (digit_lt hK r' hr' d' hd')).1)
    (k.hamOp hash H) (fun s => by
      obtain ⟨M', y, _, b1, b2, _, b3, _⟩ := C110_matvec_partial h2 k H hone htwo hswap w hD h8 hK hH hs hash hh s
      rw [m1] at b1
      obtain rfl := Option.some.inj b1
      exact ⟨y, b2, fun β hβ => (b3 β hβ).1⟩) x hx
  obtain ⟨z, z1, z2, z3⟩ := Rotate.rotated_ok hl hp rfl rfl hU hv (Rotate.bil_s2El k.nlas.sum) (M := M.2) (T := s2)
    (fun r r' d d' hr hr' hd hd' => by
      rw [← addr r hr d hd, ← addr r' hr' d' hd']
      exact (m2 r r' _ _ hr hr' (digit_lt hK r hr d hd) (digit_lt hK r' hr' d' hd')).2)
    (fun r r' d d' hr hr' hd hd' => by
      rw [← addr r hr d hd, ← addr r' hr' d' hd']
      exact (a2 r r' _ _ hr hr' (digit_lt hK r hr d hd) (digit_lt hK r' hr' d' hd')).2.1)
    (k.s2Op hash H) (fun s => by
      obtain ⟨M', _, z, b1, _, b2, b3, _⟩ := C110_matvec_partial h2 k H hone htwo hswap w hD h8 hK hH hs hash hh s
      rw [m1] at b1
      obtain rfl := Option.some.inj b1
      exact ⟨z, b2, fun β hβ => (b3 β hβ).2⟩) x hx
  obtain ⟨u, u1, u2, u3⟩ := Rotate.rotated_ok hl hp rfl rfl hU hv (Rotate.bil_ovl k.nlas.sum Rotate.lin_id Rotate.lin_id)
    (M := fun β γ => T.get [β, γ]) (T := ovlp)
    (fun r r' d d' hr hr' hd hd' => t2 r r' d d' hr hr' hd hd')
    (fun r r' d d' hr hr' hd hd' => by
      rw [← addr r hr d hd, ← addr r' hr' d' hd']
      exact (a2 r r' _ _ hr hr' (digit_lt hK r hr d hd) (digit_lt hK r' hr' d' hd')).2.2)
    k.ovlpOp (fun s => by
      obtain ⟨T', y, b1, b2, b3, _⟩ := C110_overlap_matvec h2 k hK h1 h0 w hO hS s
      rw [t1] at b1
      obtain rfl := Option.some.inj b1
      exact ⟨y, b2, b3⟩) x hx
  exact ⟨ham, s2, ovlp, y, z, u, a1, y1, z1, u1, y2.trans hx.symm, z2.trans hx.symm, u2.trans hx.symm,
    fun β hβ => ⟨y3 β hβ, z3 β hβ, u3 β hβ⟩, a2⟩

/-- An injective fingerprint. -/
def exHash : Nat × List Nat → Int := fun e => (Encodable.encode e : Nat)

/-- Non-vacuity of C110: the object of C99, C100 and C101, with a rotation, and a fingerprint without collisions. -/
example : (∀ s p q, exH.h1 s p q = exH.h1 s q p) ∧ (∀ p q r u, exH.h2 p q r u = exH.h2 q p u r) ∧
    (∀ p q r u, exH.h2 p q r u = exH.h2 r u p q) ∧ Consistent exK ∧ NoCollision exK ∧ exK.smult = none ∧ NoLinkCollision exK exHash ∧
    OvlpTables exK exW ∧ Screens exK exW ∧ exK.cols ≠ [] ∧ exK.nlas ≠ [] ∧ Matrices exK.cols exK.nlas.length exU ∧
    RotatedBy exK.cols exK.nlas.length exU (fun f r a => exW f (exK.uroot f r) a) exX ∧
    Describes exK.toLstdm (fun f st => exW f (exK.uroot f (exK.rootOf st)) (exK.envOf f st)) := by
  refine ⟨?_, ?_, ?_, exK_consistent, exK_noCollision, rfl, ?_, exK_ovlpTables, exK_screens, by decide, by decide, exU_matrices, exX_rotated,
    describes_kernOf _ _ _ _ _ (by decide) (by decide) (by decide) (by decide) ?_⟩
  · intro s p q; unfold exH; simp only [eq_comm]
  · intro p q r u; unfold exH; dsimp only; simp only [eq_comm]
  · intro p q r u; unfold exH; dsimp only; simp only [and_comm]
  · intro r _ r' _ s s' _ _ h
    unfold exHash at h
    exact Prod.mk.inj (Encodable.encode_injective (Int.ofNat_inj.mp h))
  · exact fun f hf r hr a => exW_numbers f hf r hr a

end Verif.Props
