import Verif.Lemmas.LrrdmMix
import Verif.Lemmas.Np
import Verif.Lemmas.KernRow
import Verif.Props.Bigdim
/-!
# Lemmas: the density matrices of the interacting fragments
-/
namespace Verif.Lstdm
open Verif.Spec Verif.Addr Verif.Exc Verif.Signs Verif.Radix Verif.Np Verif.Spec.Tdm Verif.Spec.Lstdm

namespace Kern
variable {K : Type} {k : Kern K}

/-- Local roots of a state with given local roots of the fragments `I`. -/
def mixE (k : Kern K) (I S : List Nat) (e : Nat → Nat) (X x f : Nat) : Nat := if f ∈ I then e f else k.dig S X x f

theorem mixE_lt (hC : k.Cols) (I S : List Nat) (e : Nat → Nat) (X x : Nat) (hX : X < k.cols.length) (hx : x < (k.colOf S X).prod)
    (he : ∀ f ∈ I, e f < k.lr X f) (f : Nat) (hf : f < k.nlas.length) : k.mixE I S e X x f < k.lr X f := by
  unfold mixE
  by_cases h : f ∈ I
  · rw [if_pos h]; exact he f h
  · rw [if_neg h]
    by_cases h' : f ∈ S
    · exact dig_lt _ X x f hx h'
    · rw [dig_out _ X x f h']; exact hC.pos X hX f hf

section slow
variable (hC : k.Cols)
include hC

theorem offs1_eq (r : Nat) (hr : r < k.cols.length) : k.offs1 r = off k.cols r + (k.cols.getD r []).prod ∧ k.offs1 r ≤ k.nstates := by
  have h1 : k.offs1 r = off k.cols (r + 1) := by
    unfold offs1
    rw [npCumsum_getD _ _ (by simpa using hr), ← List.map_take]
    rfl
  refine ⟨by rw [h1, off_succ _ _ hr], ?_⟩
  rw [h1]
  unfold nstates off
  conv_rhs => rw [← List.take_append_drop (r + 1) k.cols, List.map_append, List.sum_append]
  exact Nat.le_add_right _ _

/-- The spectators of a list of fragments. -/
theorem slowSi_eq (si : Nd K) (nsi : Nat) (hsi : si.shape = [k.nstates, nsi]) (h0 : 0 < nsi) (X : Nat) (hX : X < k.cols.length) (J S : List Nat)
    (hJ : J.Nodup) (hJm : ∀ f ∈ J, f < k.nlas.length) (hS : S = (List.range k.nlas.length).filter (fun f => decide (f ∉ J))) :
    ∃ out, k.slowSi si X J = some out ∧ out.shape = [nsi, (k.colOf J X).prod, (k.colOf S X).prod] ∧
      ∀ s < nsi, ∀ e : Nat → Nat, (∀ f ∈ J, e f < k.lr X f) → ∀ x < (k.colOf S X).prod,
        out.get [s, posF (k.colOf J X) (J.map e), x] = si.get [k.adr X (k.mixE J S e X x), s] := by
  have hlen := hC.len X hX
  obtain ⟨o1, o2⟩ := offs1_eq hC X hX
  have o0 := offs0_eq hC X hX
  have hpos : 0 < (k.cols.getD X []).prod := by
    apply Nat.pos_of_ne_zero
    intro h
    rw [List.prod_eq_zero_iff] at h
    obtain ⟨f, hf, he⟩ := List.getElem_of_mem h
    have := hC.pos X hX f (by rw [← hlen]; exact hf)
    unfold lr at this
    rw [List.getD_eq_getElem _ _ hf, he] at this
    exact absurd this (by simp)
  obtain ⟨out, h1, h2, h3⟩ := Verif.Props.C14_make_fragments_slow (si.slice0 (k.offs0 X) (k.offs1 X)) (k.cols.getD X []) J nsi (by
    unfold Nd.slice0
    rw [hsi]
    simp only [List.getD_cons_zero, List.drop_succ_cons, List.drop_zero]
    rw [Nat.min_eq_left o2, o1, o0, Nat.add_sub_cancel_left]) hpos h0 hJ (by rw [hlen]; exact hJm)
  rw [hlen, ← hS] at h2 h3
  refine ⟨out, h1, h2, fun s hs e he x hx => ?_⟩
  have hin := inShape_of hC X hX (k.mixE J S e X x) (mixE_lt hC J S e X x hX hx he)
  have := h3 _ s hin hs
  have hg : ∀ f < k.nlas.length, ((List.range k.nlas.length).map (k.mixE J S e X x)).getD f 0 = k.mixE J S e X x f := by
    intro f hf
    rw [List.getD_eq_getElem _ _ (by simpa using hf)]; simp
  have hSm : ∀ f ∈ S, f < k.nlas.length ∧ f ∉ J := by
    intro f hf; rw [hS] at hf; simpa using hf
  have e1 : J.map (fun i => ((List.range k.nlas.length).map (k.mixE J S e X x)).getD i 0) = J.map e := by
    apply List.map_congr_left
    intro f hf
    rw [hg f (hJm f hf)]
    unfold mixE; rw [if_pos hf]
  have e2 : S.map (fun i => ((List.range k.nlas.length).map (k.mixE J S e X x)).getD i 0) = S.map (k.dig S X x) := by
    apply List.map_congr_left
    intro f hf
    rw [hg f (hSm f hf).1]
    unfold mixE; rw [if_neg (hSm f hf).2]
  rw [e1, e2] at this
  have hSn : S.Nodup := by rw [hS]; exact List.nodup_range.filter _
  have e3 : posF (k.colOf S X) (S.map (k.dig S X x)) = x := (dig_pos S hSn X x hx _ (fun _ _ => rfl)).symm
  change out.get [s, posF (k.colOf J X) (J.map e), posF (k.colOf S X) (S.map (k.dig S X x))] = _ at this
  rw [e3] at this
  rw [this]
  unfold Nd.slice0
  dsimp only
  rw [adr_eq hC X hX, o0]
  rfl

end slow

variable [Field K]

/-- The factor of a pair of states of the spectator fragments. -/
def spw (k : Kern K) (inv : List Nat) (ss : Nat → Int) (X Y x y : Nat) : K :=
  tri X Y x y * (((ss X * ss Y * fermionFragShuffle ((k.nelec.getD X []).map (fun p => p.1 + p.2)) (PySet.listSet inv) *
            fermionFragShuffle ((k.nelec.getD Y []).map (fun p => p.1 + p.2)) (PySet.listSet inv) : Int) : K) *
            ((k.specOf inv).map (fun f => k.ovf X Y f (k.dig (k.specOf inv) X x f) (k.dig (k.specOf inv) Y y f))).prod)

theorem pairs_sum (X Y : Nat) (inv J : List Nat) (hJ : PySet.listSet J = PySet.listSet inv) (ss : Nat → Int)
    (hb : fermionSpinShuffle ((k.nelec.getD X []).map Prod.fst) ((k.nelec.getD X []).map Prod.snd) = some (ss X))
    (hk : fermionSpinShuffle ((k.nelec.getD Y []).map Prod.fst) ((k.nelec.getD Y []).map Prod.snd) = some (ss Y)) :
    ∃ l, k.specPairs X Y J = some l ∧ ∀ F : Nat × Nat × K → K, (∀ a b, F (a, b, 0) = 0) →
      (l.map F).sum = ∑ x ∈ Finset.range (k.colOf (k.specOf inv) X).prod, ∑ y ∈ Finset.range (k.colOf (k.specOf inv) Y).prod,
        F (x, y, k.spw inv ss X Y x y) := by
  refine ⟨_, by
    unfold specPairs
    dsimp only
    rw [hb, hk, hJ]
    simp only [Option.bind_eq_bind, Option.bind_some, Option.pure_def]
    rfl, fun F hF => ?_⟩
  rw [sum_flat]
  obtain ⟨k1, k2, k3⟩ := kron_eq (k := k) X Y (((ss X * ss Y * fermionFragShuffle ((k.nelec.getD X []).map (fun p => p.1 + p.2)) (PySet.listSet inv) *
    fermionFragShuffle ((k.nelec.getD Y []).map (fun p => p.1 + p.2)) (PySet.listSet inv) : Int) : K)) (k.specOf inv) (nodup_specOf inv)
  change (List.map _ (List.range ((k.specOf inv).foldl (fun o f => kron1 (k.ovlpMat f X Y) o) (1, 1, fun _ _ => _)).1)).sum = _
  rw [k1, sum_range_map]
  apply Finset.sum_congr rfl
  intro x hx
  have hx : x < (k.colOf (k.specOf inv) X).prod := by simpa using hx
  change (List.map _ (List.range ((k.specOf inv).foldl (fun o f => kron1 (k.ovlpMat f X Y) o) (1, 1, fun _ _ => _)).2.1)).sum = _
  rw [k2, sum_range_map]
  apply Finset.sum_congr rfl
  intro y hy
  have hy : y < (k.colOf (k.specOf inv) Y).prod := by simpa using hy
  unfold spw
  rw [← k3 x y hx hy]
  unfold tri
  by_cases hXY : X = Y
  · simp only [hXY, if_true]
    rcases Nat.lt_trichotomy x y with h | h | h
    · simp [h, hF]
    · subst h
      simp only [Nat.lt_irrefl, if_false, if_true, Option.map_some, Option.getD_some]
      rw [mul_comm (1 / 2 : K)]
      rfl
    · rw [if_neg (by omega), if_neg (by omega), if_neg (by omega), if_neg (by omega), one_mul]
      rfl
  · simp only [if_neg hXY, one_mul]
    rfl

/-- The density matrix of the fragments `I` in terms of the vectors, for one image. -/
def fdm1 (k : Kern K) (inv : List Nat) (ss : Nat → Int) (sb sk : Nat → K) (e e' : Nat → Nat) (X Y : Nat) : K :=
  ∑ x ∈ Finset.range (k.colOf (k.specOf inv) X).prod, ∑ y ∈ Finset.range (k.colOf (k.specOf inv) Y).prod,
    sb (k.adr X (k.mixE (PySet.listSet inv) (k.specOf inv) e X x)) * k.spw inv ss X Y x y *
      sk (k.adr Y (k.mixE (PySet.listSet inv) (k.specOf inv) e' Y y))

theorem sumNd_eq (l : List (Nd K)) (a : Nd K) (sh : List Nat) (ha : a.shape = sh) (h : ∀ b ∈ l, b.shape = sh) :
    ∃ r, sumNd (a :: l) = some r ∧ r.shape = sh ∧ ∀ t, r.get t = ((a :: l).map (fun b => b.get t)).sum := by
  change ∃ r, l.foldlM addNd a = some r ∧ _
  induction l generalizing a with
  | nil => exact ⟨a, rfl, ha, fun t => by simp⟩
  | cons b l ih =>
    rw [List.foldlM_cons]
    have e : addNd a b = some ⟨a.shape, fun t => a.get t + b.get t⟩ := if_pos (by rw [ha, h b (by simp)])
    rw [e]
    obtain ⟨r, h1, h2, h3⟩ := ih ⟨a.shape, fun t => a.get t + b.get t⟩ ha (fun c hc => h c (by simp [hc]))
    refine ⟨r, h1, h2, fun t => ?_⟩
    rw [h3 t]
    simp [add_assoc]

/-- The order of the axes after the transposition, for up to four fragments. -/
theorem trans_axes (J : List Nat) (hJ : J.length ≤ 4) (f : Nd K) (hf : f.shape.length = 1 + 2 * J.length) (s : Nat) (e e' : Nat → Nat) :
    (f.transpose (0 :: (List.range J.length).flatMap (fun i => [i + 1, i + 1 + J.length]))).get (s :: axesOf J e e') =
      f.get (s :: ((J.map e).reverse ++ (J.map e').reverse)) := by
  unfold Nd.transpose
  dsimp only
  rw [hf]
  match J, hJ with
  | [], _ => rfl
  | [a], _ => rfl
  | [a, b], _ => rfl
  | [a, b, c], _ => rfl
  | [a, b, c, d], _ => rfl

theorem fdm_eq (h8 : k.nlas.length ≤ 8) (hC : k.Cols) (hS : k.Same) (u : Nat × Nat) (inv J : List Nat) (imgs : List (Nat × Nat)) (hne : imgs ≠ [])
    (hl : k.lookup (u, inv) = some imgs) (hinv : ∀ f ∈ inv, f < k.nlas.length)
    (hR : u.1 < k.cols.length ∧ u.2 < k.cols.length)
    (himg : ∀ im ∈ imgs, (im.1 < k.cols.length ∧ im.2 < k.cols.length) ∧
      ∀ f ∈ inv, k.uroot f im.1 = k.uroot f u.1 ∧ k.uroot f im.2 = k.uroot f u.2)
    (ss : Nat → Int)
    (hsh : ∀ r < k.cols.length, fermionSpinShuffle ((k.nelec.getD r []).map Prod.fst) ((k.nelec.getD r []).map Prod.snd) = some (ss r))
    (hJm : ∀ f, f ∈ J ↔ f ∈ inv) (hJ4 : J.eraseDups.length ≤ 4) (hJN : J.eraseDups.Nodup)
    (sib sik : Nd K) (nsi : Nat) (hsb : sib.shape = [k.nstates, nsi]) (hsk : sik.shape = [k.nstates, nsi]) (h0 : 0 < nsi) :
    ∃ D, k.fdm sib sik u.1 u.2 J inv = some D ∧ ∀ s < nsi, ∀ e e' : Nat → Nat, (∀ f ∈ inv, e f < k.lr u.1 f) → (∀ f ∈ inv, e' f < k.lr u.2 f) →
      D.get (s :: axesOf J.eraseDups e e') =
        (imgs.map (fun im => k.fdm1 inv ss (fun b => sib.get [b, s]) (fun c => sik.get [c, s]) e e' im.1 im.2)).sum := by
  obtain ⟨hNI, hmem⟩ := listSet_mem h8 inv hinv
  have hJe : ∀ f, f ∈ J.eraseDups ↔ f ∈ inv := fun f => by rw [List.mem_eraseDups, hJm]
  generalize hJ' : J.eraseDups = J' at *
  have hJ'm : ∀ f ∈ J', f < k.nlas.length := fun f hf => hinv f ((hJe f).mp hf)
  have hls : PySet.listSet J' = PySet.listSet inv := by
    rw [listSet_small _ k.nlas.length (fun v hv => by have := hinv v ((hJe v).mp hv); omega) hJ'm,
      listSet_small _ k.nlas.length (fun v hv => by have := hinv v hv; omega) hinv]
    apply List.filter_congr
    intro f _
    simp [hJe]
  have hSpec : k.specOf inv = (List.range k.nlas.length).filter (fun f => decide (f ∉ J')) := by
    unfold specOf
    apply List.filter_congr
    intro f _
    simp [hmem, hJe]
  have hmix : ∀ e X x, k.mixE J' (k.specOf inv) e X x = k.mixE (PySet.listSet inv) (k.specOf inv) e X x := by
    intro e X x
    funext f
    unfold mixE
    simp only [hmem, hJe]
  have hlr1 : ∀ im ∈ imgs, ∀ f ∈ J', k.lr im.1 f = k.lr u.1 f := fun im him f hf =>
    hS.lr f (hJ'm f hf) _ (himg im him).1.1 _ hR.1 ((himg im him).2 f ((hJe f).mp hf)).1
  have hlr2 : ∀ im ∈ imgs, ∀ f ∈ J', k.lr im.2 f = k.lr u.2 f := fun im him f hf =>
    hS.lr f (hJ'm f hf) _ (himg im him).1.2 _ hR.2 ((himg im him).2 f ((hJe f).mp hf)).2
  have hcol1 : ∀ im ∈ imgs, k.colOf J' im.1 = k.colOf J' u.1 := fun im him => List.map_congr_left (hlr1 im him)
  have hcol2 : ∀ im ∈ imgs, k.colOf J' im.2 = k.colOf J' u.2 := fun im him => List.map_congr_left (hlr2 im him)
  have h1 : ∀ im ∈ imgs, ∃ f, k.fdm1space sib sik im.1 im.2 J' = some f ∧ f.shape = [nsi, (k.colOf J' u.1).prod, (k.colOf J' u.2).prod] ∧
      ∀ s < nsi, ∀ e e' : Nat → Nat, (∀ f ∈ inv, e f < k.lr u.1 f) → (∀ f ∈ inv, e' f < k.lr u.2 f) →
        f.get [s, posF (k.colOf J' u.1) (J'.map e), posF (k.colOf J' u.2) (J'.map e')] =
          k.fdm1 inv ss (fun b => sib.get [b, s]) (fun c => sik.get [c, s]) e e' im.1 im.2 := by
    intro im him
    obtain ⟨⟨hX, hY⟩, _⟩ := himg im him
    obtain ⟨ob, b1, b2, b3⟩ := slowSi_eq hC sib nsi hsb h0 im.1 hX J' (k.specOf inv) hJN hJ'm hSpec
    obtain ⟨ok, k1, k2, k3⟩ := slowSi_eq hC sik nsi hsk h0 im.2 hY J' (k.specOf inv) hJN hJ'm hSpec
    obtain ⟨l, l1, l2⟩ := pairs_sum (k := k) im.1 im.2 inv J' hls ss (hsh _ hX) (hsh _ hY)
    refine ⟨_, by unfold fdm1space; rw [b1, k1, l1]; rfl, ?_, ?_⟩
    · rw [b2, k2, hcol1 im him, hcol2 im him]; rfl
    · intro s hs e e' he he'
      dsimp only
      change (l.map (fun p => ob.get [s, posF (k.colOf J' u.1) (J'.map e), p.1] * p.2.2 * ok.get [s, posF (k.colOf J' u.2) (J'.map e'), p.2.1])).sum = _
      rw [l2 _ (fun a b => by simp)]
      unfold fdm1
      refine Finset.sum_congr rfl fun x hx => Finset.sum_congr rfl fun y hy => ?_
      rw [Finset.mem_range] at hx hy
      rw [← hcol1 im him, ← hcol2 im him, b3 s hs e (fun f hf => by rw [hlr1 im him f hf]; exact he f ((hJe f).mp hf)) x hx,
        k3 s hs e' (fun f hf => by rw [hlr2 im him f hf]; exact he' f ((hJe f).mp hf)) y hy, hmix, hmix]
  haveI : Nonempty (Nd K) := ⟨⟨[], fun _ => 0⟩⟩
  choose! F F1 F2 F3 using h1
  have hM : imgs.mapM (fun im => k.fdm1space sib sik im.1 im.2 J') = some (imgs.map F) := by
    clear hl himg hne hlr1 hlr2 hcol1 hcol2 F2 F3
    induction imgs with
    | nil => rfl
    | cons a t ih =>
      rw [List.mapM_cons, F1 a (by simp), ih (fun im him => F1 im (by simp [him]))]
      rfl
  obtain ⟨a, t, rfl⟩ := List.exists_cons_of_ne_nil hne
  obtain ⟨r, r1, r2, r3⟩ := sumNd_eq (t.map F) (F a) _ (F2 a (by simp)) (by
    intro b hb
    obtain ⟨im, him, rfl⟩ := List.mem_map.mp hb
    exact F2 im (by simp [him]))
  have hdims : (nsi :: ((k.colOf J' u.1).reverse ++ (k.colOf J' u.2).reverse)).prod = r.shape.prod := by
    rw [r2]; simp [List.prod_reverse, List.prod_append]
  have hresh : r.reshape (sib.shape.getD 1 0 :: ((J'.map (fun f => (k.cols.getD u.1 []).getD f 0)).reverse ++
    (J'.map (fun f => (k.cols.getD u.2 []).getD f 0)).reverse)) =
      some ⟨nsi :: ((k.colOf J' u.1).reverse ++ (k.colOf J' u.2).reverse),
        fun t => r.get (unravelC r.shape (posC (nsi :: ((k.colOf J' u.1).reverse ++ (k.colOf J' u.2).reverse)) t))⟩ := by
      rw [hsb]
      exact if_pos hdims
  refine ⟨_, by
    unfold fdm
    rw [hl]
    simp only [Option.bind_eq_bind, Option.bind_some]
    rw [hJ', hM]
    simp only [Option.bind_some]
    rw [show List.map F (a :: t) = F a :: t.map F from rfl, r1]
    simp only [Option.bind_some]
    rw [hresh]
    rfl, fun s hs e e' he he' => ?_⟩
  rw [trans_axes J' hJ4 _ (by simp [colOf]; omega)]
  dsimp only
  have hin1 : InShape (J'.map e) (k.colOf J' u.1) := by
    unfold colOf InShape
    rw [List.forall₂_map_left_iff, List.forall₂_map_right_iff, List.forall₂_same]
    intro f hf; exact he f ((hJe f).mp hf)
  have hin2 : InShape (J'.map e') (k.colOf J' u.2) := by
    unfold colOf InShape
    rw [List.forall₂_map_left_iff, List.forall₂_map_right_iff, List.forall₂_same]
    intro f hf; exact he' f ((hJe f).mp hf)
  have hpos : posC (nsi :: ((k.colOf J' u.1).reverse ++ (k.colOf J' u.2).reverse)) (s :: ((J'.map e).reverse ++ (J'.map e').reverse)) =
      posC r.shape [s, posF (k.colOf J' u.1) (J'.map e), posF (k.colOf J' u.2) (J'.map e')] := by
    rw [r2]
    have e1 := posC_append [nsi] ((k.colOf J' u.1).reverse ++ (k.colOf J' u.2).reverse) [s] ((J'.map e).reverse ++ (J'.map e').reverse) rfl
    have e2 := posC_append [nsi] [(k.colOf J' u.1).prod, (k.colOf J' u.2).prod] [s] [posF (k.colOf J' u.1) (J'.map e), posF (k.colOf J' u.2) (J'.map e')] rfl
    have e3 := posC_append [(k.colOf J' u.1).prod] [(k.colOf J' u.2).prod] [posF (k.colOf J' u.1) (J'.map e)] [posF (k.colOf J' u.2) (J'.map e')] rfl
    simp only [List.singleton_append] at e1 e2 e3
    rw [e1, e2, e3, posC_append _ _ _ _ (by simp [colOf]), ← posF_eq_posC_reverse _ _ (by simp [colOf]), ← posF_eq_posC_reverse _ _ (by simp [colOf])]
    simp [posC, List.prod_reverse, List.prod_append]
  have hin : InShape [s, posF (k.colOf J' u.1) (J'.map e), posF (k.colOf J' u.2) (J'.map e')] r.shape := by
    rw [r2]
    exact List.Forall₂.cons hs (List.Forall₂.cons (posF_lt hin1) (List.Forall₂.cons (posF_lt hin2) List.Forall₂.nil))
  change r.get (unravelC r.shape (posC (nsi :: ((k.colOf J' u.1).reverse ++ (k.colOf J' u.2).reverse)) (s :: ((J'.map e).reverse ++ (J'.map e').reverse)))) = _
  rw [hpos, unravelC_posC hin, r3]
  rw [show F a :: t.map F = (a :: t).map F from rfl, List.map_map]
  congr 1
  apply List.map_congr_left
  intro im him
  exact F3 im him s hs e e' he he'

end Kern
end Verif.Lstdm
