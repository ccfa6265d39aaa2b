import Verif.Lemmas.KernRow
import Verif.Lemmas.Lstdm
/-!
# One row of a table in `LSTDM.kernel`, all its images
-/
namespace Verif.Lstdm
open Verif.Spec Verif.Addr Verif.Radix Verif.Signs

namespace Kern
variable {K : Type} {k : Kern K}

theorem dig_pos (S : List Nat) (hS : S.Nodup) (X x : Nat) (hx : x < (k.colOf S X).prod) (e : Nat → Nat)
    (h : ∀ f ∈ S, k.dig S X x f = e f) : x = posF (k.colOf S X) (S.map e) := by
  conv_lhs => rw [← posF_digits _ _ hx]
  congr 1
  apply List.ext_getElem
  · rw [digits_length]; simp [colOf]
  · intro j h1 h2
    have hj : j < S.length := by simpa using h2
    have := h S[j] (List.getElem_mem _)
    unfold dig at this
    rw [if_pos (List.getElem_mem _), hS.idxOf_getElem, List.getD_eq_getElem _ _ h1] at this
    rw [this]; simp

/-- Position of the spectators of a state. -/
def spx (k : Kern K) (inv : List Nat) (b : Nat) : Nat :=
  posF (k.colOf ((List.range k.nlas.length).filter (fun f => decide (f ∉ PySet.listSet inv))) (k.rootOf b))
    (((List.range k.nlas.length).filter (fun f => decide (f ∉ PySet.listSet inv))).map (fun f => k.envOf f b))

theorem desShuffle_congr (n n' inv : List Nat) (i : Nat) (h : ∀ f ∈ PySet.listSet inv, n.getD f 0 = n'.getD f 0) :
    fermionDesShuffle n inv i = fermionDesShuffle n' inv i := by
  unfold fermionDesShuffle
  split
  · congr 1
    unfold desShuffleOf
    congr 3
    apply List.map_congr_left
    intro f hf
    exact h f (by simpa using hf)
  · rfl

variable [Field K]

section congr
variable (k)
variable {b b0 c c0 f : Nat} (hb : k.loc f b0 = k.loc f b) (hc : k.loc f c0 = k.loc f c)
include hb hc

theorem c_h : (k.toLstdm.ints f).get1H b0 c0 = (k.toLstdm.ints f).get1H b c := by
  funext s x; simp [toLstdm, FragInt.get1H, FragInt.reindex, hb, hc]
theorem c_p : (k.toLstdm.ints f).get1P b0 c0 = (k.toLstdm.ints f).get1P b c := by
  funext s x; simp [toLstdm, FragInt.get1P, FragInt.reindex, hb, hc]
theorem c_hh : (k.toLstdm.ints f).get1Hh b0 c0 = (k.toLstdm.ints f).get1Hh b c := by
  funext s x y; simp [toLstdm, FragInt.get1Hh, FragInt.reindex, hb, hc]
theorem c_pp : (k.toLstdm.ints f).get1Pp b0 c0 = (k.toLstdm.ints f).get1Pp b c := by
  funext s x y; simp [toLstdm, FragInt.get1Pp, FragInt.reindex, hb, hc]
theorem c_phh : (k.toLstdm.ints f).get1Phh b0 c0 = (k.toLstdm.ints f).get1Phh b c := by
  funext s t x y z; simp [toLstdm, FragInt.get1Phh, FragInt.reindex, hb, hc]
theorem c_pph : (k.toLstdm.ints f).get1Pph b0 c0 = (k.toLstdm.ints f).get1Pph b c := by
  funext s t x y z; simp [toLstdm, FragInt.get1Pph, FragInt.reindex, hb, hc]
theorem c_sm : (k.toLstdm.ints f).get1Sm b0 c0 = (k.toLstdm.ints f).get1Sm b c := by
  funext x y; simp [toLstdm, FragInt.get1Sm, FragInt.reindex, hb, hc]
theorem c_sp : (k.toLstdm.ints f).get1Sp b0 c0 = (k.toLstdm.ints f).get1Sp b c := by
  funext x y; simp [toLstdm, FragInt.get1Sp, FragInt.reindex, hb, hc]
theorem c_dm1 : (k.toLstdm.ints f).get1Dm1 b0 c0 = (k.toLstdm.ints f).get1Dm1 b c := by
  funext s x y; simp [toLstdm, FragInt.get1Dm1, FragInt.reindex, hb, hc]
theorem c_dm2 : (k.toLstdm.ints f).get1Dm2 b0 c0 = (k.toLstdm.ints f).get1Dm2 b c := by
  funext s x y z w; simp [toLstdm, FragInt.get1Dm2, FragInt.reindex, hb, hc]

end congr

variable [DecidableEq K]

/-- The matrices of a row depend on the local roots of its fragments only. -/
theorem crunch_congr (h8 : k.nlas.length ≤ 8) (b b0 c c0 : Nat) (row : Lstdm.Row) (hinv : ∀ f ∈ row.inv, f < k.nlas.length)
    (hb : ∀ f ∈ row.inv, k.loc f b0 = k.loc f b) (hc : ∀ f ∈ row.inv, k.loc f c0 = k.loc f c)
    (nb : ∀ f ∈ row.inv, (k.toLstdm.nelecF b0).getD f 0 = (k.toLstdm.nelecF b).getD f 0)
    (nc : ∀ f ∈ row.inv, (k.toLstdm.nelecF c0).getD f 0 = (k.toLstdm.nelecF c).getD f 0) :
    k.toLstdm.crunch b0 c0 row = k.toLstdm.crunch b c row := by
  have sb : ∀ i, fermionDesShuffle (k.toLstdm.nelecF b0) row.inv i = fermionDesShuffle (k.toLstdm.nelecF b) row.inv i :=
    fun i => desShuffle_congr _ _ _ i (fun f hf => nb f (((listSet_mem h8 _ hinv).2 f).mp hf))
  have sc : ∀ i, fermionDesShuffle (k.toLstdm.nelecF c0) row.inv i = fermionDesShuffle (k.toLstdm.nelecF c) row.inv i :=
    fun i => desShuffle_congr _ _ _ i (fun f hf => nc f (((listSet_mem h8 _ hinv).2 f).mp hf))
  clear nb nc hinv
  cases row with
  | d1 i =>
    simp only [Lstdm.Row.inv, List.mem_singleton, forall_eq] at hb hc
    simp only [Lstdm.crunch, Lstdm.crunch1d, c_dm1 k hb hc, c_dm2 k hb hc]
  | d2 i j =>
    simp only [Lstdm.Row.inv, List.mem_cons, List.not_mem_nil, or_false, forall_eq_or_imp, forall_eq] at hb hc
    simp only [Lstdm.crunch, Lstdm.crunch2d, c_dm1 k hb.1 hc.1, c_dm1 k hb.2 hc.2]
  | c1 i j s =>
    simp only [Lstdm.Row.inv, List.mem_cons, List.not_mem_nil, or_false, forall_eq_or_imp, forall_eq] at hb hc sb sc
    simp only [Lstdm.crunch, Lstdm.crunch1c, sb, sc, c_p k hb.1 hc.1, c_h k hb.2 hc.2, c_pph k hb.1 hc.1, c_phh k hb.2 hc.2]
  | c1d1 i j l s =>
    simp only [Lstdm.Row.inv, List.mem_cons, List.not_mem_nil, or_false, forall_eq_or_imp, forall_eq] at hb hc sb sc
    simp only [Lstdm.crunch, Lstdm.crunch1c1d, sb, sc, c_p k hb.1 hc.1, c_h k hb.2.1 hc.2.1, c_dm1 k hb.2.2 hc.2.2]
  | s1 i j =>
    simp only [Lstdm.Row.inv, List.mem_cons, List.not_mem_nil, or_false, forall_eq_or_imp, forall_eq] at hb hc sb sc
    simp only [Lstdm.crunch, Lstdm.crunch1s, c_sp k hb.1 hc.1, c_sm k hb.2 hc.2]
  | s1c1 i j l s =>
    simp only [Lstdm.Row.inv, List.mem_cons, List.not_mem_nil, or_false, forall_eq_or_imp, forall_eq] at hb hc sb sc
    simp only [Lstdm.crunch, Lstdm.crunch1s1c, sb, sc, c_p k hb.1 hc.1, c_h k hb.2.1 hc.2.1, c_sm k hb.2.2 hc.2.2, c_sp k hb.2.2 hc.2.2]
  | c2 i j l m s =>
    simp only [Lstdm.Row.inv, List.mem_cons, List.not_mem_nil, or_false, forall_eq_or_imp, forall_eq] at hb hc sb sc
    simp only [Lstdm.crunch, Lstdm.crunch2c, Lstdm.ppOf, Lstdm.hhOf, sb, sc, c_pp k hb.1 hc.1, c_p k hb.1 hc.1, c_p k hb.2.2.1 hc.2.2.1,
      c_hh k hb.2.1 hc.2.1, c_h k hb.2.1 hc.2.1, c_h k hb.2.2.2 hc.2.2.2]

/-! ### Sums -/

omit [DecidableEq K] in
theorem co_addTo (acc : Arr K) (b c b' c' : Nat) (d : D1 K × D2 K) (w : K) (x : Ix) :
    co (addTo acc b c d w b' c') x = co (acc b' c') x + if b' = b ∧ c' = c then co d x * w else 0 := by
  unfold addTo
  split
  · rcases x with ⟨s, p, q⟩ | ⟨s, p, q, r, u⟩ <;> rfl
  · rw [add_zero]

omit [DecidableEq K] in
theorem foldl_co {α : Type} (l : List α) (F : Arr K → α → Arr K) (G : α → K) (b c : Nat) (x : Ix)
    (h : ∀ acc a, co (F acc a b c) x = co (acc b c) x + G a) (acc : Arr K) :
    co (l.foldl F acc b c) x = co (acc b c) x + (l.map G).sum := by
  induction l generalizing acc with
  | nil => simp
  | cons a l ih => rw [List.foldl_cons, ih, h, List.map_cons, List.sum_cons, add_assoc]

omit [DecidableEq K] in
theorem co_putImages (cache : List ((Nat × Nat) × List (Nat × Nat × K))) (b c : Nat) (d : D1 K × D2 K) (acc : Arr K) (b' c' : Nat)
    (x : Ix) : co (k.putImages cache b c d acc b' c') x = co (acc b' c') x + (cache.map (fun e => (e.2.map (fun y =>
      if b' = y.1 + k.dotEnv b e.1.1 ∧ c' = y.2.1 + k.dotEnv c e.1.2 then co d x * y.2.2 else 0)).sum)).sum := by
  classical
  unfold putImages
  refine foldl_co cache _ _ b' c' x (fun acc e => ?_) acc
  exact foldl_co e.2 _ (fun y => if b' = y.1 + k.dotEnv b e.1.1 ∧ c' = y.2.1 + k.dotEnv c e.1.2 then co d x * y.2.2 else 0)
    b' c' x (fun acc y => co_addTo _ _ _ _ _ _ _ _) acc

omit [DecidableEq K] in
theorem foldlM_co {α : Type} (l : List α) (F : Arr K → α → Option (Arr K)) (G : α → Nat → Nat → Ix → K)
    (h : ∀ a ∈ l, ∀ acc, ∃ acc', F acc a = some acc' ∧ ∀ b c x, co (acc' b c) x = co (acc b c) x + G a b c x) (acc : Arr K) :
    ∃ acc', l.foldlM F acc = some acc' ∧ ∀ b c x, co (acc' b c) x = co (acc b c) x + (l.map (fun a => G a b c x)).sum := by
  induction l generalizing acc with
  | nil => exact ⟨acc, rfl, by simp⟩
  | cons a l ih =>
    obtain ⟨a1, h1, h2⟩ := h a (by simp) acc
    obtain ⟨a2, h3, h4⟩ := ih (fun a ha => h a (by simp [ha])) a1
    refine ⟨a2, by rw [List.foldlM_cons, h1]; exact h3, fun b c x => ?_⟩
    rw [h4, h2, List.map_cons, List.sum_cons, add_assoc]

/-- Rootspaces with equal entries in `urootstr` agree for the fragment. -/
structure Same (k : Kern K) : Prop where
  lr : ∀ f < k.nlas.length, ∀ r < k.cols.length, ∀ r' < k.cols.length, k.uroot f r = k.uroot f r' → k.lr r f = k.lr r' f
  nelec : ∀ f < k.nlas.length, ∀ r < k.cols.length, ∀ r' < k.cols.length, k.uroot f r = k.uroot f r' →
    (k.nelec.getD r []).getD f (0, 0) = (k.nelec.getD r' []).getD f (0, 0)

/-- The contribution of a row to a pair of states. -/
def elem (k : Kern K) (b c : Nat) (row : Lstdm.Row) (x : Ix) : K :=
  match k.toLstdm.crunch b c row, k.toLstdm.ovlpFac b c row.inv with
  | some d, some w => co d x * w
  | _, _ => 0

omit [DecidableEq K] in
theorem nelecF_root (b f : Nat) : (k.toLstdm.nelecF b).getD f 0 =
    ((k.nelec.getD (k.rootOf b) []).getD f (0, 0)).1 + ((k.nelec.getD (k.rootOf b) []).getD f (0, 0)).2 := by
  unfold Lstdm.nelecF toLstdm
  dsimp only
  generalize k.nelec.getD (k.rootOf b) [] = l
  rw [List.getD_eq_getElem?_getD, List.getElem?_map, List.getD_eq_getElem?_getD]
  cases l[f]? <;> simp

omit [DecidableEq K] in
/-- The product of overlaps in the factor. -/
theorem ovlpFac_some (h8 : k.nlas.length ≤ 8) (b c : Nat) (inv : List Nat) (hinv : ∀ f ∈ inv, f < k.nlas.length) (sb sk : Int)
    (hb : k.toLstdm.spinShuffle b = some sb) (hk : k.toLstdm.spinShuffle c = some sk) :
    k.toLstdm.ovlpFac b c inv = some (((sb * sk * fermionFragShuffle (k.toLstdm.nelecF b) (PySet.listSet inv) *
      fermionFragShuffle (k.toLstdm.nelecF c) (PySet.listSet inv) : Int) : K) *
      ((k.specOf inv).map (fun f => k.ovf (k.rootOf b) (k.rootOf c) f (k.envOf f b) (k.envOf f c))).prod) := by
  unfold Lstdm.ovlpFac
  rw [hb, hk]
  simp only [Option.bind_eq_bind, Option.bind_some, Option.pure_def]
  congr 1
  have hs : (List.range k.toLstdm.nlas.length).filter (fun f => decide (f ∉ inv)) = k.specOf inv := by
    unfold specOf
    apply List.filter_congr
    intro f hf
    rw [decide_eq_decide, (listSet_mem h8 inv hinv).2 f]
  rw [hs]
  change ((k.specOf inv).map (fun f => k.ovf (k.rootOf b) (k.rootOf c) f (k.envOf f b) (k.envOf f c))).prod * _ * _ * _ = _
  push_cast
  ring

omit [Field K] [DecidableEq K] in
theorem sum_pairs {R : Type} [AddCommMonoid R] (A B : List Nat) (G : Nat × Nat → R) :
    ((A.flatMap (fun b => B.map (fun c => (b, c)))).map G).sum = (A.map (fun b => (B.map (fun c => G (b, c))).sum)).sum := by
  induction A with
  | nil => rfl
  | cons a A ih => rw [List.flatMap_cons, List.map_append, List.sum_append, ih, List.map_cons, List.sum_cons, List.map_map]; rfl

omit [Field K] [DecidableEq K] in
theorem sum_range_map {R : Type} [AddCommMonoid R] (n : Nat) (g : Nat → R) : ((List.range n).map g).sum = ∑ x ∈ Finset.range n, g x := by
  rw [← List.sum_toFinset _ List.nodup_range, List.toFinset_range]

omit [Field K] [DecidableEq K] in
theorem sum_list_comm {R α : Type} [AddCommMonoid R] (s : Finset Nat) (l : List α) (F : Nat → α → R) :
    ∑ i ∈ s, (l.map (F i)).sum = (l.map (fun a => ∑ i ∈ s, F i a)).sum := by
  induction l with
  | nil => simp
  | cons a l ih => simp only [List.map_cons, List.sum_cons, Finset.sum_add_distrib, ih]

omit [Field K] [DecidableEq K] in
/-- Sums over the bra and ket states of an image have one term. -/
theorem sum_four {R : Type} [AddCommMonoid R] (n1 n2 n3 n4 : Nat) (P Q : Nat → Nat → Prop) [∀ i x, Decidable (P i x)]
    [∀ i x, Decidable (Q i x)] (i0 x0 j0 y0 : Nat) (h1 : i0 < n1) (h2 : j0 < n2) (h3 : x0 < n3) (h4 : y0 < n4)
    (hP : ∀ i < n1, ∀ x < n3, P i x ↔ i = i0 ∧ x = x0) (hQ : ∀ j < n2, ∀ y < n4, Q j y ↔ j = j0 ∧ y = y0)
    (F : Nat → Nat → Nat → Nat → R) :
    (∑ i ∈ Finset.range n1, ∑ j ∈ Finset.range n2, ∑ x ∈ Finset.range n3, ∑ y ∈ Finset.range n4,
      if P i x ∧ Q j y then F i j x y else 0) = F i0 j0 x0 y0 := by
  rw [Finset.sum_eq_single_of_mem i0 (by simpa using h1), Finset.sum_eq_single_of_mem j0 (by simpa using h2),
    Finset.sum_eq_single_of_mem x0 (by simpa using h3), Finset.sum_eq_single_of_mem y0 (by simpa using h4), if_pos]
  · exact ⟨(hP _ h1 _ h3).mpr ⟨rfl, rfl⟩, (hQ _ h2 _ h4).mpr ⟨rfl, rfl⟩⟩
  · intro y hy hne
    rw [if_neg]
    rintro ⟨_, hq⟩
    exact hne ((hQ _ h2 _ (by simpa using hy)).mp hq).2
  · intro x hx hne
    refine Finset.sum_eq_zero fun y _ => ?_
    rw [if_neg]
    rintro ⟨hp, _⟩
    exact hne ((hP _ h1 _ (by simpa using hx)).mp hp).2
  · intro j hj hne
    refine Finset.sum_eq_zero fun x _ => Finset.sum_eq_zero fun y hy => ?_
    rw [if_neg]
    rintro ⟨_, hq⟩
    exact hne ((hQ _ (by simpa using hj) _ (by simpa using hy)).mp hq).1
  · intro i hi hne
    refine Finset.sum_eq_zero fun j _ => Finset.sum_eq_zero fun x hx => Finset.sum_eq_zero fun y _ => ?_
    rw [if_neg]
    rintro ⟨hp, _⟩
    exact hne ((hP _ (by simpa using hi) _ (by simpa using hx)).mp hp).1

/-- One row with all its images. -/
theorem crunchEnv_eq (h8 : k.nlas.length ≤ 8) (hC : k.Cols) (hS : k.Same) (u : ExcRow) (imgs : List (Nat × Nat))
    (hl : k.lookup (u.1, u.2.inv) = some imgs) (hinv : ∀ f ∈ u.2.inv, f < k.nlas.length)
    (hR : u.1.1 < k.cols.length ∧ u.1.2 < k.cols.length)
    (himg : ∀ im ∈ imgs, (im.1 < k.cols.length ∧ im.2 < k.cols.length) ∧
      ∀ f ∈ u.2.inv, k.uroot f im.1 = k.uroot f u.1.1 ∧ k.uroot f im.2 = k.uroot f u.1.2)
    (hsh : ∀ r < k.cols.length, ∃ s, fermionSpinShuffle ((k.nelec.getD r []).map Prod.fst) ((k.nelec.getD r []).map Prod.snd) = some s)
    (hok : ∀ b c, b < k.nstates → c < k.nstates → k.rootOf b = u.1.1 → k.rootOf c = u.1.2 →
      ∃ d, k.toLstdm.crunch b c u.2 = some d) (acc : Arr K) :
    ∃ acc', k.crunchEnv acc u = some acc' ∧ ∀ b c, b < k.nstates → c < k.nstates → ∀ x, co (acc' b c) x = co (acc b c) x +
      (imgs.map (fun im => if k.rootOf b = im.1 ∧ k.rootOf c = im.2 then
        tri im.1 im.2 (k.spx u.2.inv b) (k.spx u.2.inv c) * k.elem b c u.2 x else 0)).sum := by
  classical
  choose! ss hss using hsh
  obtain ⟨hN, hmem⟩ := listSet_mem h8 u.2.inv hinv
  have hIm : ∀ f ∈ PySet.listSet u.2.inv, f < k.nlas.length := fun f hf => hinv f ((hmem f).mp hf)
  have hIS : ∀ f < k.nlas.length, f ∈ k.specOf u.2.inv ↔ f ∉ PySet.listSet u.2.inv := by
    intro f hf; unfold specOf; simp [hf]
  have hspec : ∀ im ∈ imgs, ∃ l, k.specAddrOvlp im.1 im.2 u.2.inv = some l ∧ _ := fun im him =>
    spec_sum h8 hC im.1 im.2 (himg im him).1.1 (himg im him).1.2 u.2.inv _ _ (hss _ (himg im him).1.1) (hss _ (himg im him).1.2)
  choose! l hl1 hl2 using hspec
  have hcache : imgs.mapM (fun im => (k.specAddrOvlp im.1 im.2 u.2.inv).map (fun l => (im, l))) = some (imgs.map (fun im => (im, l im))) := by
    clear hl himg hl2
    induction imgs with
    | nil => rfl
    | cons a t ih =>
      rw [List.mapM_cons, hl1 a (by simp), ih (fun im him => hl1 im (by simp [him]))]
      rfl
  have hA := addrRange_eq hC u.1.1 hR.1 u.2.inv hN hIm
  have hB := addrRange_eq hC u.1.2 hR.2 u.2.inv hN hIm
  have hdl : ∀ r i, i < (k.colOf (PySet.listSet u.2.inv) r).prod → r < k.cols.length →
      ∀ f < k.nlas.length, k.dig (PySet.listSet u.2.inv) r i f < k.lr r f := by
    intro r i hi hr f hf
    by_cases h : f ∈ PySet.listSet u.2.inv
    · exact dig_lt _ r i f hi h
    · rw [dig_out _ r i f h]; exact hC.pos r hr f hf
  have hcr : ∀ i j, i < (k.colOf (PySet.listSet u.2.inv) u.1.1).prod → j < (k.colOf (PySet.listSet u.2.inv) u.1.2).prod →
      ∃ d, k.toLstdm.crunch (k.adr u.1.1 (k.dig (PySet.listSet u.2.inv) u.1.1 i))
        (k.adr u.1.2 (k.dig (PySet.listSet u.2.inv) u.1.2 j)) u.2 = some d := by
    intro i j hi hj
    exact hok _ _ (adr_lt hC _ hR.1 _ (hdl _ i hi hR.1)) (adr_lt hC _ hR.2 _ (hdl _ j hj hR.2))
      (rootOf_adr hC _ hR.1 _ (hdl _ i hi hR.1)) (rootOf_adr hC _ hR.2 _ (hdl _ j hj hR.2))
  have hP : ∀ bc ∈ ((k.addrRange u.1.1 u.2.inv).flatMap (fun b => (k.addrRange u.1.2 u.2.inv).map (fun c => (b, c)))),
      ∃ d, k.toLstdm.crunch bc.1 bc.2 u.2 = some d := by
    intro bc hbc
    rw [hA, hB] at hbc
    simp only [List.mem_flatMap, List.mem_map, List.mem_range] at hbc
    obtain ⟨_, ⟨i, hi, rfl⟩, _, ⟨j, hj, rfl⟩, rfl⟩ := hbc
    exact hcr i j hi hj
  obtain ⟨acc', h1, h2⟩ := foldlM_co ((k.addrRange u.1.1 u.2.inv).flatMap (fun b => (k.addrRange u.1.2 u.2.inv).map (fun c => (b, c))))
    (fun acc bc => (k.toLstdm.crunch bc.1 bc.2 u.2).map (fun d => k.putImages (imgs.map (fun im => (im, l im))) bc.1 bc.2 d acc))
    (fun bc b' c' x => ((imgs.map (fun im => (im, l im))).map (fun e => (e.2.map (fun y =>
      if b' = y.1 + k.dotEnv bc.1 e.1.1 ∧ c' = y.2.1 + k.dotEnv bc.2 e.1.2 then
        co ((k.toLstdm.crunch bc.1 bc.2 u.2).getD (zero1, zero2)) x * y.2.2 else 0)).sum)).sum)
    (fun bc hbc acc => by
      obtain ⟨d, hd⟩ := hP bc hbc
      refine ⟨_, by rw [hd]; rfl, fun b c x => ?_⟩
      rw [co_putImages, hd, Option.getD_some]) acc
  refine ⟨acc', ?_, fun b c hb hc x => ?_⟩
  · unfold crunchEnv
    rw [hl]
    simp only [Option.bind_eq_bind, Option.bind_some, hcache]
    exact h1
  · rw [h2, sum_pairs, hA, hB]
    simp only [List.map_map, Function.comp_def]
    rw [sum_range_map]
    simp only [sum_range_map, sum_list_comm]
    congr 2
    apply List.map_congr_left
    intro im him
    rw [← sum_list_comm]
    simp only [← sum_list_comm]
    obtain ⟨⟨hX, hY⟩, hu⟩ := himg im him
    have hlr1 : ∀ f ∈ PySet.listSet u.2.inv, k.lr u.1.1 f = k.lr im.1 f := fun f hf =>
      hS.lr f (hIm f hf) _ hR.1 _ hX (hu f ((hmem f).mp hf)).1.symm
    have hlr2 : ∀ f ∈ PySet.listSet u.2.inv, k.lr u.1.2 f = k.lr im.2 f := fun f hf =>
      hS.lr f (hIm f hf) _ hR.2 _ hY (hu f ((hmem f).mp hf)).2.symm
    have hmb := mix_iff hC (PySet.listSet u.2.inv) (k.specOf u.2.inv) hN (nodup_specOf _) hIm (specOf_lt _) hIS u.1.1 im.1 hR.1 hX hlr1 b hb
    have hmc := mix_iff hC (PySet.listSet u.2.inv) (k.specOf u.2.inv) hN (nodup_specOf _) hIm (specOf_lt _) hIS u.1.2 im.2 hR.2 hY hlr2 c hc
    have hexp : ∀ i ∈ Finset.range (k.colOf (PySet.listSet u.2.inv) u.1.1).prod, ∀ j ∈ Finset.range (k.colOf (PySet.listSet u.2.inv) u.1.2).prod,
        ((l im).map (fun y => if b = y.1 + k.dotEnv (k.adr u.1.1 (k.dig (PySet.listSet u.2.inv) u.1.1 i)) im.1 ∧
          c = y.2.1 + k.dotEnv (k.adr u.1.2 (k.dig (PySet.listSet u.2.inv) u.1.2 j)) im.2 then
          co ((k.toLstdm.crunch (k.adr u.1.1 (k.dig (PySet.listSet u.2.inv) u.1.1 i))
            (k.adr u.1.2 (k.dig (PySet.listSet u.2.inv) u.1.2 j)) u.2).getD (zero1, zero2)) x * y.2.2 else 0)).sum = _ :=
      fun i _ j _ => hl2 im him _ (by intro a b; simp)
    rw [Finset.sum_congr rfl (fun i hi => Finset.sum_congr rfl (fun j hj => hexp i hi j hj))]
    have hexp2 : ∀ i ∈ Finset.range (k.colOf (PySet.listSet u.2.inv) u.1.1).prod, ∀ j ∈ Finset.range (k.colOf (PySet.listSet u.2.inv) u.1.2).prod,
        ∀ x' ∈ Finset.range (k.colOf (k.specOf u.2.inv) im.1).prod, ∀ y ∈ Finset.range (k.colOf (k.specOf u.2.inv) im.2).prod,
        ∀ w : K, (if b = k.adr im.1 (k.dig (k.specOf u.2.inv) im.1 x') + k.dotEnv (k.adr u.1.1 (k.dig (PySet.listSet u.2.inv) u.1.1 i)) im.1 ∧
          c = k.adr im.2 (k.dig (k.specOf u.2.inv) im.2 y) + k.dotEnv (k.adr u.1.2 (k.dig (PySet.listSet u.2.inv) u.1.2 j)) im.2 then w else 0) =
        if b = k.adr im.1 (k.mix (PySet.listSet u.2.inv) (k.specOf u.2.inv) u.1.1 im.1 i x') ∧
          c = k.adr im.2 (k.mix (PySet.listSet u.2.inv) (k.specOf u.2.inv) u.1.2 im.2 j y) then w else 0 := by
      intro i hi j hj x' hx' y hy w
      rw [adr_mix hC _ _ hIS _ _ hR.1 _ _ (by simpa using hi), adr_mix hC _ _ hIS _ _ hR.2 _ _ (by simpa using hj)]
    rw [Finset.sum_congr rfl (fun i hi => Finset.sum_congr rfl (fun j hj => Finset.sum_congr rfl (fun x' hx' => Finset.sum_congr rfl
      (fun y hy => hexp2 i hi j hj x' hx' y hy _))))]
    by_cases hroot : k.rootOf b = im.1 ∧ k.rootOf c = im.2
    · rw [if_pos hroot]
      obtain ⟨i0, x0, hi0, hx0, eb, eb1, eb2⟩ := hmb.1 hroot.1
      obtain ⟨j0, y0, hj0, hy0, ec, ec1, ec2⟩ := hmc.1 hroot.2
      rw [sum_four _ _ _ _ (fun i x' => b = k.adr im.1 (k.mix (PySet.listSet u.2.inv) (k.specOf u.2.inv) u.1.1 im.1 i x'))
        (fun j y => c = k.adr im.2 (k.mix (PySet.listSet u.2.inv) (k.specOf u.2.inv) u.1.2 im.2 j y)) i0 x0 j0 y0 hi0 hj0 hx0 hy0 ?_ ?_]
      · dsimp only
        have e1 : x0 = k.spx u.2.inv b := by
          unfold spx; rw [hroot.1]
          exact dig_pos _ (nodup_specOf _) _ _ hx0 _ eb2
        have e2 : y0 = k.spx u.2.inv c := by
          unfold spx; rw [hroot.2]
          exact dig_pos _ (nodup_specOf _) _ _ hy0 _ ec2
        have hs1 : k.toLstdm.spinShuffle b = some (ss (k.rootOf b)) := hss (k.rootOf b) (by rw [hroot.1]; exact hX)
        have hs2 : k.toLstdm.spinShuffle c = some (ss (k.rootOf c)) := hss (k.rootOf c) (by rw [hroot.2]; exact hY)
        have hcc := crunch_congr h8 b (k.adr u.1.1 (k.dig (PySet.listSet u.2.inv) u.1.1 i0)) c
          (k.adr u.1.2 (k.dig (PySet.listSet u.2.inv) u.1.2 j0)) u.2 hinv
          (fun f hf => by
            unfold loc
            rw [rootOf_adr hC _ hR.1 _ (hdl _ _ hi0 hR.1), envOf_adr hC _ hR.1 _ (hdl _ _ hi0 hR.1) f (hinv f hf),
              eb1 f ((hmem f).mpr hf), hroot.1, (hu f hf).1])
          (fun f hf => by
            unfold loc
            rw [rootOf_adr hC _ hR.2 _ (hdl _ _ hj0 hR.2), envOf_adr hC _ hR.2 _ (hdl _ _ hj0 hR.2) f (hinv f hf),
              ec1 f ((hmem f).mpr hf), hroot.2, (hu f hf).2])
          (fun f hf => by
            rw [nelecF_root, nelecF_root, rootOf_adr hC _ hR.1 _ (hdl _ _ hi0 hR.1), hroot.1,
              hS.nelec f (hinv f hf) _ hR.1 _ hX (hu f hf).1.symm])
          (fun f hf => by
            rw [nelecF_root, nelecF_root, rootOf_adr hC _ hR.2 _ (hdl _ _ hj0 hR.2), hroot.2,
              hS.nelec f (hinv f hf) _ hR.2 _ hY (hu f hf).2.symm])
        obtain ⟨d, hd⟩ := hcr i0 j0 hi0 hj0
        rw [hd]
        rw [hd] at hcc
        unfold elem
        rw [← hcc, ovlpFac_some h8 b c u.2.inv hinv _ _ hs1 hs2, ← e1, ← e2]
        dsimp only [Option.getD_some]
        have hov : (k.specOf u.2.inv).map (fun f => k.ovf im.1 im.2 f (k.dig (k.specOf u.2.inv) im.1 x0 f) (k.dig (k.specOf u.2.inv) im.2 y0 f)) =
            (k.specOf u.2.inv).map (fun f => k.ovf (k.rootOf b) (k.rootOf c) f (k.envOf f b) (k.envOf f c)) := by
          apply List.map_congr_left
          intro f hf
          rw [eb2 f hf, ec2 f hf, hroot.1, hroot.2]
        rw [hov, hroot.1, hroot.2]
        have hn : ∀ st, k.toLstdm.nelecF st = (k.nelec.getD (k.rootOf st) []).map (fun p => p.1 + p.2) := fun _ => rfl
        rw [hn, hn, hroot.1, hroot.2]
        ring
      · intro i hi x' hx'
        refine ⟨fun h => ?_, fun h => by rw [h.1, h.2]; exact eb⟩
        obtain ⟨_, q1, q2⟩ := hmb.2 i x' hi hx' h
        exact ⟨dig_inj _ hN _ _ _ hi hi0 (fun f hf => by rw [q1 f hf, eb1 f hf]),
          dig_inj _ (nodup_specOf _) _ _ _ hx' hx0 (fun f hf => by rw [q2 f hf, eb2 f hf])⟩
      · intro i hi x' hx'
        refine ⟨fun h => ?_, fun h => by rw [h.1, h.2]; exact ec⟩
        obtain ⟨_, q1, q2⟩ := hmc.2 i x' hi hx' h
        exact ⟨dig_inj _ hN _ _ _ hi hj0 (fun f hf => by rw [q1 f hf, ec1 f hf]),
          dig_inj _ (nodup_specOf _) _ _ _ hx' hy0 (fun f hf => by rw [q2 f hf, ec2 f hf])⟩
    · rw [if_neg hroot]
      refine Finset.sum_eq_zero fun i hi => Finset.sum_eq_zero fun j hj => Finset.sum_eq_zero fun x' hx' => Finset.sum_eq_zero fun y hy => ?_
      rw [if_neg]
      rintro ⟨h1, h2⟩
      exact hroot ⟨(hmb.2 i x' (by simpa using hi) (by simpa using hx') h1).1, (hmc.2 j y (by simpa using hj) (by simpa using hy) h2).1⟩

end Kern
end Verif.Lstdm
