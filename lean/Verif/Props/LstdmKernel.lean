import Verif.Lemmas.KernMain
import Verif.Lemmas.KernScr
import Verif.Props.Lstdm
/-!
# Property C99: transition density matrices of all model states by the factorized algorithm
-/
namespace Verif.Props
open Verif Verif.Spec Verif.Spec.Tdm Verif.Spec.Lstdm Verif.Lstdm Verif.Spec.Fockspace Verif.Tdm

section
variable {K : Type} [Field K] [DecidableEq K] {k : Kern K} {v : Nat → Nat → Vec K}

open Classical in
theorem elem1 (hD : Describes k.toLstdm v) (h8 : k.nlas.length ≤ 8) (b c : Nat) (i : Inter) (hn : i.Normal) (hb : InB k.nlas.length i)
    (hi : k.Diff (k.rootOf b) (k.rootOf c) i) (s : Bool) (fp fq p q : Nat) (hfp : fp < k.nlas.length) (hfq : fq < k.nlas.length)
    (hp : p < k.nlas.getD fp 0) (hq : q < k.nlas.getD fq 0) (F : List Nat) (hF : SameSet F [fp, fq]) :
    (∀ r ∈ expand k.nlas.length i, k.elem b c r (.inl (ix s, fragStart k.nlas fp + p, fragStart k.nlas fq + q)) =
      if SameSet r.inv F then tdm1 k.nlas.sum (state k.toLstdm v b) (state k.toLstdm v c) s (fragStart k.nlas fp + p)
        (fragStart k.nlas fq + q) else 0) ∧
    (tdm1 k.nlas.sum (state k.toLstdm v b) (state k.toLstdm v c) s (fragStart k.nlas fp + p) (fragStart k.nlas fq + q) ≠ 0 →
      ∃ r ∈ expand k.nlas.length i, SameSet r.inv F) := by
  have hcov := fun hX : tdm1 k.nlas.sum (state k.toLstdm v b) (state k.toLstdm v c) s (fragStart k.nlas fp + p)
      (fragStart k.nlas fq + q) ≠ 0 =>
    cover1 k.nlas.length i hn s fp fq hfp (fun y => counts_pt1 hfp hfq
      (tdm1_counts k.nlas _ _ _ _ (nums hD b) (nums hD c) s fp fq p q hfp hfq hp hq hX) y _
      (fun hy => by rw [Kern.cz_root, Kern.cz_root]; exact hi y.1 hy y.2) (fun hy => mvs_out _ i hb y hy))
  refine ⟨fun r hr => ?_, fun hX => ?_⟩
  · obtain ⟨d1, d2, W, e1, e2, g1, _⟩ := Kern.row_exact hD h8 b c i hn hb hi r hr
    have : k.elem b c r (.inl (ix s, fragStart k.nlas fp + p, fragStart k.nlas fq + q)) =
        d1 (ix s) (fragStart k.nlas fp + p) (fragStart k.nlas fq + q) * W := by
      unfold Kern.elem; rw [e1, e2]; rfl
    have g : d1 (ix s) (fragStart k.nlas fp + p) (fragStart k.nlas fq + q) * W = if rp1 r s fp fq then
        tdm1 k.nlas.sum (state k.toLstdm v b) (state k.toLstdm v c) s (fragStart k.nlas fp + p) (fragStart k.nlas fq + q) else 0 :=
      g1 s fp fq p q hp hq
    rw [this, g]
    by_cases hX : tdm1 k.nlas.sum (state k.toLstdm v b) (state k.toLstdm v c) s (fragStart k.nlas fp + p) (fragStart k.nlas fq + q) = 0
    · rw [hX]; simp
    · obtain ⟨r', hr', hp', hu⟩ := hcov hX
      by_cases h : rp1 r s fp fq
      · rw [if_pos h, if_pos (show SameSet r.inv F from fun g => (rp1_set r s fp fq h g).trans (hF g).symm)]
      · rw [if_neg h, if_neg]
        intro hs
        have : r = r' := expand_inv_inj _ _ _ _ hr hr' (fun g => ((hs g).trans (hF g)).trans (rp1_set r' s fp fq hp' g).symm)
        exact h (this ▸ hp')
  · obtain ⟨r', hr', hp', _⟩ := hcov hX
    exact ⟨r', hr', fun g => (rp1_set r' s fp fq hp' g).trans (hF g).symm⟩

open Classical in
theorem elem2 (hD : Describes k.toLstdm v) (h8 : k.nlas.length ≤ 8) (b c : Nat) (i : Inter) (hn : i.Normal) (hb : InB k.nlas.length i)
    (hi : k.Diff (k.rootOf b) (k.rootOf c) i) (s t : Bool) (fp fq fr fu p q r u : Nat) (hfp : fp < k.nlas.length)
    (hfq : fq < k.nlas.length) (hfr : fr < k.nlas.length) (hfu : fu < k.nlas.length)
    (hp : p < k.nlas.getD fp 0) (hq : q < k.nlas.getD fq 0) (hr : r < k.nlas.getD fr 0) (hu : u < k.nlas.getD fu 0) (F : List Nat)
    (hF : SameSet F [fp, fq, fr, fu]) :
    (∀ x ∈ expand k.nlas.length i, k.elem b c x (.inr (ix2 s t, fragStart k.nlas fp + p, fragStart k.nlas fq + q,
        fragStart k.nlas fr + r, fragStart k.nlas fu + u)) =
      if SameSet x.inv F then tdm2 k.nlas.sum (state k.toLstdm v b) (state k.toLstdm v c) s t (fragStart k.nlas fp + p)
        (fragStart k.nlas fq + q) (fragStart k.nlas fr + r) (fragStart k.nlas fu + u) else 0) ∧
    (tdm2 k.nlas.sum (state k.toLstdm v b) (state k.toLstdm v c) s t (fragStart k.nlas fp + p) (fragStart k.nlas fq + q)
      (fragStart k.nlas fr + r) (fragStart k.nlas fu + u) ≠ 0 → ∃ x ∈ expand k.nlas.length i, SameSet x.inv F) := by
  have hcov := fun hX : tdm2 k.nlas.sum (state k.toLstdm v b) (state k.toLstdm v c) s t (fragStart k.nlas fp + p)
      (fragStart k.nlas fq + q) (fragStart k.nlas fr + r) (fragStart k.nlas fu + u) ≠ 0 =>
    cover2 k.nlas.length i hn s t fp fq fr fu hfp hfr (fun y => counts_pt hfp hfq hfr hfu
      (tdm2_counts k.nlas _ _ _ _ (nums hD b) (nums hD c) s t fp fq fr fu p q r u hfp hfq hfr hfu hp hq hr hu hX) y _
      (fun hy => by rw [Kern.cz_root, Kern.cz_root]; exact hi y.1 hy y.2) (fun hy => mvs_out _ i hb y hy))
  refine ⟨fun x hx => ?_, fun hX => ?_⟩
  · obtain ⟨d1, d2, W, e1, e2, _, g2⟩ := Kern.row_exact hD h8 b c i hn hb hi x hx
    have : k.elem b c x (.inr (ix2 s t, fragStart k.nlas fp + p, fragStart k.nlas fq + q, fragStart k.nlas fr + r,
        fragStart k.nlas fu + u)) = d2 (ix2 s t) (fragStart k.nlas fp + p) (fragStart k.nlas fq + q) (fragStart k.nlas fr + r)
          (fragStart k.nlas fu + u) * W := by
      unfold Kern.elem; rw [e1, e2]; rfl
    have g : d2 (ix2 s t) (fragStart k.nlas fp + p) (fragStart k.nlas fq + q) (fragStart k.nlas fr + r)
          (fragStart k.nlas fu + u) * W = if rp2 x s t fp fq fr fu then tdm2 k.nlas.sum (state k.toLstdm v b) (state k.toLstdm v c) s t
            (fragStart k.nlas fp + p) (fragStart k.nlas fq + q) (fragStart k.nlas fr + r) (fragStart k.nlas fu + u) else 0 :=
      g2 s t fp fq fr fu p q r u hp hq hr hu
    rw [this, g]
    by_cases hX : tdm2 k.nlas.sum (state k.toLstdm v b) (state k.toLstdm v c) s t (fragStart k.nlas fp + p) (fragStart k.nlas fq + q)
        (fragStart k.nlas fr + r) (fragStart k.nlas fu + u) = 0
    · rw [hX]; simp
    · obtain ⟨r', hr', hp', hu⟩ := hcov hX
      by_cases h : rp2 x s t fp fq fr fu
      · rw [if_pos h, if_pos (show SameSet x.inv F from fun g => (rp2_set x s t fp fq fr fu h g).trans (hF g).symm)]
      · rw [if_neg h, if_neg]
        intro hs
        have : x = r' := expand_inv_inj _ _ _ _ hx hr'
          (fun g => ((hs g).trans (hF g)).trans (rp2_set r' s t fp fq fr fu hp' g).symm)
        exact h (this ▸ hp')
  · obtain ⟨r', hr', hp', _⟩ := hcov hX
    exact ⟨r', hr', fun g => (rp2_set r' s t fp fq fr fu hp' g).trans (hF g).symm⟩

theorem tdm1_tr (N : Nat) (φ χ : Vec K) (s : Bool) (p q : Nat) : tdm1 N φ χ s p q = tdm1 N χ φ s q p := by
  unfold tdm1; rw [ovl_comm]
theorem tdm2_tr (N : Nat) (φ χ : Vec K) (s t : Bool) (p q r u : Nat) : tdm2 N φ χ s t p q r u = tdm2 N χ φ s t q p u r := by
  unfold tdm2; rw [ovl_comm]

theorem kernel_exact (hD : Describes k.toLstdm v) (h8 : k.nlas.length ≤ 8) (hK : Consistent k) (hH : NoCollision k) (hS : k.Scr v) (h2 : (2 : K) ≠ 0) :
    ∃ T, k.kernel = some T ∧ ∀ b c, b < k.nstates → c < k.nstates →
      (∀ s p q, p < k.nlas.sum → q < k.nlas.sum →
        (T b c).1 (ix s) p q = tdm1 k.nlas.sum (state k.toLstdm v b) (state k.toLstdm v c) s p q) ∧
      (∀ s t p q r u, p < k.nlas.sum → q < k.nlas.sum → r < k.nlas.sum → u < k.nlas.sum →
        (T b c).2 (ix2 s t) p q r u = tdm2 k.nlas.sum (state k.toLstdm v b) (state k.toLstdm v c) s t p q r u) := by
  obtain ⟨T, h1, hT⟩ := Kern.kernel_elem hD h8 hK hH h2
  refine ⟨T, h1, fun b c hb hc => ⟨fun s P Q hP hQ => ?_, fun s t P Q R U hP hQ hR hU => ?_⟩⟩
  · obtain ⟨fp, p, hfp, hp, rfl⟩ := frag_of _ P hP
    obtain ⟨fq, q, hfq, hq, rfl⟩ := frag_of _ Q hQ
    have hset : SameSet [fp, fq] [fq, fp] := by intro g; simp [or_comm]
    have hrefl : SameSet [fp, fq] [fp, fq] := fun g => Iff.rfl
    refine hT (.inl (ix s, fragStart k.nlas fp + p, fragStart k.nlas fq + q)) (.inl (ix s, fragStart k.nlas fq + q, fragStart k.nlas fp + p))
      [fp, fq] (tdm1 k.nlas.sum (state k.toLstdm v b) (state k.toLstdm v c) s (fragStart k.nlas fp + p) (fragStart k.nlas fq + q))
      b c hb hc (fun acc => rfl) ?_ ?_ ?_ ?_
    · intro i hn hi hd
      exact (elem1 hD h8 b c i hn hi hd s fp fq p q hfp hfq hp hq _ hrefl).1
    · intro i hn hi hd r hr
      rw [(elem1 hD h8 c b i hn hi hd s fq fp q p hfq hfp hq hp _ hset).1 r hr, ← tdm1_tr]
    · intro hV
      have hV' := hV
      rw [tdm1_tr] at hV'
      have q1 := tdm1_counts k.nlas _ _ _ _ (nums hD b) (nums hD c) s fp fq p q hfp hfq hp hq hV
      have q2 := tdm1_counts k.nlas _ _ _ _ (nums hD c) (nums hD b) s fq fp q p hfq hfp hq hp hV'
      refine ⟨hS.allowed1 hb hc s _ _ hP hQ hV (coupled_of hD b c s s fp fq fp fp hfp hfq hfp hfp ?_), hS.allowed1 hc hb s _ _ hQ hP hV' (coupled_of hD c b s s fq fp fq fq hfq hfp hfq hfq ?_)⟩
      · intro g hg
        have := q1 g hg
        funext σ
        have := congrFun this σ
        unfold decF at this ⊢
        omega
      · intro g hg
        have := q2 g hg
        funext σ
        have := congrFun this σ
        unfold decF at this ⊢
        omega
    · intro hV i hn hi hd
      rcases hd with hd | hd
      · exact (elem1 hD h8 b c i hn hi hd s fp fq p q hfp hfq hp hq _ hrefl).2 hV
      · rw [tdm1_tr] at hV
        exact (elem1 hD h8 c b i hn hi hd s fq fp q p hfq hfp hq hp _ hset).2 hV
  · obtain ⟨fp, p, hfp, hp, rfl⟩ := frag_of _ P hP
    obtain ⟨fq, q, hfq, hq, rfl⟩ := frag_of _ Q hQ
    obtain ⟨fr, r, hfr, hr, rfl⟩ := frag_of _ R hR
    obtain ⟨fu, u, hfu, hu, rfl⟩ := frag_of _ U hU
    have hset : SameSet [fp, fq, fr, fu] [fq, fp, fu, fr] := by intro g; simp; tauto
    have hrefl : SameSet [fp, fq, fr, fu] [fp, fq, fr, fu] := fun g => Iff.rfl
    refine hT (.inr (ix2 s t, fragStart k.nlas fp + p, fragStart k.nlas fq + q, fragStart k.nlas fr + r, fragStart k.nlas fu + u))
      (.inr (ix2 s t, fragStart k.nlas fq + q, fragStart k.nlas fp + p, fragStart k.nlas fu + u, fragStart k.nlas fr + r))
      [fp, fq, fr, fu] (tdm2 k.nlas.sum (state k.toLstdm v b) (state k.toLstdm v c) s t (fragStart k.nlas fp + p)
        (fragStart k.nlas fq + q) (fragStart k.nlas fr + r) (fragStart k.nlas fu + u))
      b c hb hc (fun acc => rfl) ?_ ?_ ?_ ?_
    · intro i hn hi hd
      exact (elem2 hD h8 b c i hn hi hd s t fp fq fr fu p q r u hfp hfq hfr hfu hp hq hr hu _ hrefl).1
    · intro i hn hi hd x hx
      rw [(elem2 hD h8 c b i hn hi hd s t fq fp fu fr q p u r hfq hfp hfu hfr hq hp hu hr _ hset).1 x hx, ← tdm2_tr]
    · intro hV
      have hV' := hV
      rw [tdm2_tr] at hV'
      exact ⟨hS.allowed2 hb hc s t _ _ _ _ hP hQ hR hU hV (coupled_of hD b c s t fp fq fr fu hfp hfq hfr hfu
          (tdm2_counts k.nlas _ _ _ _ (nums hD b) (nums hD c) s t fp fq fr fu p q r u hfp hfq hfr hfu hp hq hr hu hV)),
        hS.allowed2 hc hb s t _ _ _ _ hQ hP hU hR hV' (coupled_of hD c b s t fq fp fu fr hfq hfp hfu hfr
          (tdm2_counts k.nlas _ _ _ _ (nums hD c) (nums hD b) s t fq fp fu fr q p u r hfq hfp hfu hfr hq hp hu hr hV'))⟩
    · intro hV i hn hi hd
      rcases hd with hd | hd
      · exact (elem2 hD h8 b c i hn hi hd s t fp fq fr fu p q r u hfp hfq hfr hfu hp hq hr hu _ hrefl).2 hV
      · rw [tdm2_tr] at hV
        exact (elem2 hD h8 c b i hn hi hd s t fq fp fu fr q p u r hfq hfp hfu hfr hq hp hu hr _ hset).2 hV

end

/-- **C99 (partial).** With at most eight fragments, consistent data and no two inequivalent rows with the same 64-bit fingerprint: if
the fragment tables hold the matrix elements of the vectors `w f u a` (fragment, unique rootspace, local root), then `kernel` ends
without exception, and for every two model states, given by rootspace and local roots, the arrays it returns at the addresses of the
two states are, for all spins and orbitals, the transition one- and two-body density matrices of the two products of fragment vectors.
Missing: nine or more fragments (`C98_nine_fragments_violated`), rows whose fingerprints collide (the fingerprint is not injective:
C09), and rootspaces related by rotations. The screening of pairs of rootspaces (`Screens`) asks for nothing without multiplicities;
with multiplicities it is C108. -/
theorem C99_kernel_exact_partial {K : Type} [Field K] [DecidableEq K] (h2 : (2 : K) ≠ 0) (k : Kern K) (w : Nat → Nat → Nat → Vec K)
    (hD : Describes k.toLstdm (fun f st => w f (k.uroot f (k.rootOf st)) (k.envOf f st)))
    (h8 : k.nlas.length ≤ 8) (hK : Consistent k) (hH : NoCollision k) (hS : Screens k w) :
    ∃ T, k.kernel = some T ∧ ∀ r r' e e', r < k.cols.length → r' < k.cols.length →
      (∀ f < k.nlas.length, e f < lroots k r f) → (∀ f < k.nlas.length, e' f < lroots k r' f) →
      (∀ s p q, p < k.nlas.sum → q < k.nlas.sum →
        (T (address k r e) (address k r' e')).1 (ix s) p q =
          tdm1 k.nlas.sum (prodVec k.nlas (fun f => w f (k.uroot f r) (e f))) (prodVec k.nlas (fun f => w f (k.uroot f r') (e' f))) s p q) ∧
      (∀ s t p q x u, p < k.nlas.sum → q < k.nlas.sum → x < k.nlas.sum → u < k.nlas.sum →
        (T (address k r e) (address k r' e')).2 (2 * ix s + ix t) p q x u =
          tdm2 k.nlas.sum (prodVec k.nlas (fun f => w f (k.uroot f r) (e f))) (prodVec k.nlas (fun f => w f (k.uroot f r') (e' f)))
            s t p q x u) := by
  obtain ⟨T, h1, h3⟩ := kernel_exact hD h8 hK hH (Kern.scr_of_screens hK hS) h2
  refine ⟨T, h1, fun r r' e e' hr hr' he he' => ?_⟩
  have hst := Kern.state_adr (w := w) hK
  obtain ⟨l1, s1⟩ := hst r e hr he
  obtain ⟨l2, s2⟩ := hst r' e' hr' he'
  have := h3 _ _ l1 l2
  rw [s1, s2] at this
  exact this

theorem rootOf_lt {K : Type} (k : Kern K) (hl : ∀ c ∈ k.cols, c.length = k.nlas.length) (h0 : k.cols ≠ []) (st : Nat) :
    k.rootOf st < k.cols.length := by
  unfold Kern.rootOf
  rw [Verif.Addr.addr_closed _ _ hl]
  dsimp only [Option.getD_some]
  have hpos : 0 < k.cols.length := List.length_pos_iff.mpr h0
  have key : ∀ x ∈ (List.range k.cols.length).flatMap (fun r => List.replicate (k.cols.getD r []).prod r), x < k.cols.length := by
    intro x hx
    obtain ⟨r, hr, hm⟩ := List.mem_flatMap.mp hx
    rw [List.eq_of_mem_replicate hm]
    exact List.mem_range.mp hr
  revert key
  generalize List.flatMap _ (List.range k.cols.length) = l
  intro key
  by_cases h : st < l.length
  · rw [List.getD_eq_getElem _ _ h]
    exact key _ (List.getElem_mem h)
  · rw [List.getD_eq_default _ _ (by omega)]; exact hpos

/-- The tables of the matrix elements of given vectors describe them. -/
theorem describes_kernOf {K : Type} [CommRing K] (nlas : List Nat) (cols : List (List Nat)) (nelec : List (List (Nat × Nat)))
    (uroot : Nat → Nat → Nat) (w : Nat → Nat → Nat → Vec K) (hp : ∀ f < nlas.length, 0 < nlas.getD f 0) (h0 : cols ≠ [])
    (hl : ∀ c ∈ cols, c.length = nlas.length) (hn : ∀ r < cols.length, (nelec.getD r []).length = nlas.length)
    (hw : ∀ f < nlas.length, ∀ r < cols.length, ∀ a, HasNumbers (nlas.getD f 0) (w f (uroot f r) a)
      ((nelec.getD r []).getD f (0, 0)).1 ((nelec.getD r []).getD f (0, 0)).2) :
    Describes (kernOf nlas cols nelec uroot w).toLstdm (fun f st => w f ((kernOf nlas cols nelec uroot w).uroot f
      ((kernOf nlas cols nelec uroot w).rootOf st)) ((kernOf nlas cols nelec uroot w).envOf f st)) := by
  have key := describes_ofVectors nlas (fun f st => w f ((kernOf nlas cols nelec uroot w).uroot f
      ((kernOf nlas cols nelec uroot w).rootOf st)) ((kernOf nlas cols nelec uroot w).envOf f st))
      (fun st => nelec.getD ((kernOf nlas cols nelec uroot w).rootOf st) []) hp
      (fun st => hn _ (rootOf_lt (kernOf nlas cols nelec uroot w) hl h0 st))
      (fun f hf st => hw f hf _ (rootOf_lt (kernOf nlas cols nelec uroot w) hl h0 st) _)
  have : (kernOf nlas cols nelec uroot w).toLstdm = ofVectors nlas (fun f st => w f ((kernOf nlas cols nelec uroot w).uroot f
      ((kernOf nlas cols nelec uroot w).rootOf st)) ((kernOf nlas cols nelec uroot w).envOf f st))
      (fun st => nelec.getD ((kernOf nlas cols nelec uroot w).rootOf st) []) := by
    unfold Kern.toLstdm ofVectors
    congr 1
    funext f
    unfold kernOf FragInt.reindex tablesOf Kern.loc
    simp only [Nat.unpair_pair]
  rw [this]
  exact key

/-- Fragment vectors of fragments of two and one orbitals: fragment 0 has one spin-up electron in either orbital (unique rootspace
0), or two electrons (1), or one spin-down electron (2); fragment 1 has one spin-down electron (0), none (1), or one spin-up
electron (2). -/
def exW : Nat → Nat → Nat → Vec ℚ := fun f u a =>
  if f = 0 then (if u = 0 then (if a = 0 then det 1 0 else det 2 0) else if u = 1 then det 1 1 else det 0 2)
  else if u = 0 then det 0 1 else if u = 1 then det 0 0 else det 1 0

/-- The object for these vectors with three rootspaces, the first with two states. -/
def exK : Kern ℚ := kernOf [2, 1] [[2, 1], [1, 1], [1, 1]] [[(1, 0), (0, 1)], [(1, 1), (0, 0)], [(0, 1), (1, 0)]] (fun _ r => r) exW

/-- The lists of `n` of the two fragments. -/
def exLists : Nat → List (List Nat)
  | 0 => [[]]
  | n + 1 => (exLists n).flatMap (fun l => [0 :: l, 1 :: l])
theorem mem_exLists (l : List Nat) (h : ∀ f ∈ l, f < 2) : l ∈ exLists l.length := by
  induction l with
  | nil => simp [exLists]
  | cons a l ih =>
    rw [List.length_cons, exLists, List.mem_flatMap]
    refine ⟨l, ih (fun f hf => h f (by simp [hf])), ?_⟩
    have := h a (by simp)
    interval_cases a <;> simp

theorem exK_consistent : Consistent exK := ⟨by decide, by decide, by decide, by decide, by decide⟩

set_option maxRecDepth 100000 in
theorem exK_words : ∀ n < 5, ∀ x ∈ exK.scai.flatMap (fun p => (exLists n).map (fun l => (p, l))),
    ∀ y ∈ exK.scai.flatMap (fun p => (exLists n).map (fun l => (p, l))),
    (SC.fnv1a ((SC.fprintRows (fun r f => (exK.uroot f.toNat r : Int)) x.1.1 x.1.2 (x.2.map (fun f : Nat => (f : Int)))).1.map
        (fun w => UInt64.ofNat w.toNat)) =
      SC.fnv1a ((SC.fprintRows (fun r f => (exK.uroot f.toNat r : Int)) y.1.1 y.1.2 (y.2.map (fun f : Nat => (f : Int)))).1.map
        (fun w => UInt64.ofNat w.toNat)) →
      (SC.fprintRows (fun r f => (exK.uroot f.toNat r : Int)) x.1.1 x.1.2 (x.2.map (fun f : Nat => (f : Int)))).1 =
      (SC.fprintRows (fun r f => (exK.uroot f.toNat r : Int)) y.1.1 y.1.2 (y.2.map (fun f : Nat => (f : Int)))).1) ∧
    (SC.fnv1a ((SC.fprintRows (fun r f => (exK.uroot f.toNat r : Int)) x.1.1 x.1.2 (x.2.map (fun f : Nat => (f : Int)))).2.map
        (fun w => UInt64.ofNat w.toNat)) =
      SC.fnv1a ((SC.fprintRows (fun r f => (exK.uroot f.toNat r : Int)) y.1.1 y.1.2 (y.2.map (fun f : Nat => (f : Int)))).2.map
        (fun w => UInt64.ofNat w.toNat)) →
      (SC.fprintRows (fun r f => (exK.uroot f.toNat r : Int)) x.1.1 x.1.2 (x.2.map (fun f : Nat => (f : Int)))).2 =
      (SC.fprintRows (fun r f => (exK.uroot f.toNat r : Int)) y.1.1 y.1.2 (y.2.map (fun f : Nat => (f : Int)))).2) := by
  decide +kernel

theorem exK_noCollision : NoCollision exK := by
  obtain ⟨cls, h1, hP⟩ := Kern.tables_all exK_consistent
  have key : ∀ tab ∈ exK.tables, ∀ x ∈ tab,
      (x.1, x.2.inv) ∈ exK.scai.flatMap (fun p => (exLists x.2.inv.length).map (fun l => (p, l))) := by
    intro tab ht x hx
    have := hP.mem_iff.mp (List.mem_flatten.mpr ⟨tab, ht, hx⟩)
    obtain ⟨p, hp, hm⟩ := List.mem_flatMap.mp this
    obtain ⟨r, hr, rfl⟩ := List.mem_map.mp hm
    exact List.mem_flatMap.mpr ⟨p, hp, List.mem_map.mpr ⟨_, mem_exLists _ (expand_lt _ _ (h1 p hp).2.1 r hr), rfl⟩⟩
  intro tab ht x hx y hy
  have hl := Kern.tab_kind _ _ _ tab ht x y hx hy
  have hx' := key tab ht x hx
  have hy' := key tab ht y hy
  rw [← hl] at hy'
  exact exK_words _ (by cases x.2 <;> simp [Lstdm.Row.inv]) _ hx' _ hy'

theorem exK_screens : Screens exK exW := by
  intro sm h
  simp [exK, kernOf] at h

/-- Non-vacuity: four states in three rootspaces, coupled by an electron hop and a spin exchange, and nonzero elements. -/
example : (2 : ℚ) ≠ 0 ∧ Describes exK.toLstdm (fun f st => exW f (exK.uroot f (exK.rootOf st)) (exK.envOf f st)) ∧
    exK.nlas.length ≤ 8 ∧ Consistent exK ∧ NoCollision exK ∧ Screens exK exW ∧ lroots exK 0 0 = 2 ∧
    address exK 0 (fun f => if f = 0 then 1 else 0) = 1 ∧ address exK 1 (fun _ => 0) = 2 ∧
    tdm1 3 (prodVec [2, 1] (fun f => exW f 1 0)) (prodVec [2, 1] (fun f => exW f 0 0)) true 0 2 ≠ 0 ∧
    tdm2 3 (prodVec [2, 1] (fun f => exW f 2 0)) (prodVec [2, 1] (fun f => exW f 0 1)) true false 1 2 2 1 ≠ 0 := by
  refine ⟨by norm_num, describes_kernOf _ _ _ _ _ (by decide) (by decide) (by decide) (by decide) ?_, by decide, exK_consistent, exK_noCollision, exK_screens, by decide,
    by decide, by decide, by decide +kernel, by decide +kernel⟩
  intro f hf r hr a
  have hf : f < 2 := hf
  have hr : r < 3 := hr
  interval_cases f <;> interval_cases r <;> simp [exW]
  · by_cases ha : a = 0 <;> simp only [ha] <;> exact hasNumbers_det _ _ _ _ _ (by decide) (by decide)
  all_goals exact hasNumbers_det _ _ _ _ _ (by decide) (by decide)

end Verif.Props
