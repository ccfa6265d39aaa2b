import Verif.Lemmas.HamAcc
/-!
# Lemmas: `HamS2Ovlp.kernel` follows `LSTDM.kernel`
-/
namespace Verif.Lstdm
open Verif.Spec Verif.Spec.Tdm Verif.Spec.Lstdm Verif.Signs Verif.Exc Verif.Addr

namespace Kern
variable {K : Type} {k : Kern K}

theorem pairs_getElem? (A B : List Nat) (t : Nat) (ht : t < A.length * B.length) :
    (A.flatMap (fun b => B.map (fun c => (b, c))))[t]? = some (A.getD (t / B.length) 0, B.getD (t % B.length) 0) := by
  induction A generalizing t with
  | nil => simp at ht
  | cons a A ih =>
    have hB : 0 < B.length := Nat.pos_of_ne_zero (fun h => by rw [h] at ht; simp at ht)
    rw [List.flatMap_cons]
    by_cases h : t < B.length
    · rw [List.getElem?_append_left (by simpa using h), List.getElem?_map, List.getElem?_eq_getElem h, Nat.div_eq_of_lt h, Nat.mod_eq_of_lt h,
        List.getD_eq_getElem _ _ h]
      rfl
    · have h : B.length ≤ t := by omega
      rw [List.getElem?_append_right (by simpa using h), List.length_map, ih (t - B.length) (by
        rw [List.length_cons, Nat.add_mul] at ht; omega)]
      have e1 : t / B.length = (t - B.length) / B.length + 1 := Nat.div_eq_sub_div hB h
      have e2 : t % B.length = (t - B.length) % B.length := Nat.mod_eq_sub_mod h
      rw [e1, e2]
      rfl

theorem sim_zip {α A M : Type} (R : A → M → Prop) (F : A → α → Option A) (G : M → α × Nat → Option M) (l : List α) (n : Nat)
    (h : ∀ i x, l[i]? = some x → ∀ a m a', R a m → F a x = some a' → ∃ m', G m (x, n + i) = some m' ∧ R a' m') :
    ∀ a m a', R a m → l.foldlM F a = some a' → ∃ m', (l.zipIdx n).foldlM G m = some m' ∧ R a' m' := by
  induction l generalizing n with
  | nil =>
    intro a m a' hR hF
    obtain rfl := Option.some.inj hF
    exact ⟨m, rfl, hR⟩
  | cons x l ih =>
    intro a m a' hR hF
    rw [List.foldlM_cons] at hF
    obtain ⟨a1, h1, h2⟩ := Option.bind_eq_some_iff.mp hF
    obtain ⟨m1, g1, g2⟩ := h 0 x rfl a m a1 hR h1
    obtain ⟨m2, g3, g4⟩ := ih (n + 1) (fun i y hy a m a' hR hF => by
      have := h (i + 1) y hy a m a' hR hF
      rwa [show n + (i + 1) = n + 1 + i by omega] at this) a1 m1 a' g2 h2
    refine ⟨m2, ?_, g4⟩
    rw [List.zipIdx_cons, List.foldlM_cons, show n = n + 0 from rfl, g1]
    exact g3

theorem sim_foldlM {α A M : Type} (R : A → M → Prop) (F : A → α → Option A) (G : M → α → Option M) (l : List α)
    (h : ∀ x ∈ l, ∀ a m a', R a m → F a x = some a' → ∃ m', G m x = some m' ∧ R a' m') :
    ∀ a m a', R a m → l.foldlM F a = some a' → ∃ m', l.foldlM G m = some m' ∧ R a' m' := by
  induction l with
  | nil =>
    intro a m a' hR hF
    obtain rfl := Option.some.inj hF
    exact ⟨m, rfl, hR⟩
  | cons x l ih =>
    intro a m a' hR hF
    rw [List.foldlM_cons] at hF
    obtain ⟨a1, h1, h2⟩ := Option.bind_eq_some_iff.mp hF
    obtain ⟨m1, g1, g2⟩ := h x (by simp) a m a1 hR h1
    obtain ⟨m2, g3, g4⟩ := ih (fun y hy => h y (by simp [hy])) a1 m1 a' g2 h2
    refine ⟨m2, ?_, g4⟩
    rw [List.foldlM_cons, g1]
    exact g3

theorem nodup_eraseDups' (l : List Nat) : l.eraseDups.Nodup := by
  match l with
  | [] => simp
  | a :: t =>
    have : (t.filter (fun b => !(b == a))).length < (a :: t).length := by
      have := List.length_filter_le (fun b => !(b == a)) t
      simp only [List.length_cons]; omega
    rw [List.eraseDups_cons, List.nodup_cons]
    refine ⟨?_, nodup_eraseDups' _⟩
    rw [List.mem_eraseDups, List.mem_filter]
    simp
termination_by l.length
decreasing_by exact this

/-- The transposition sorts the fragments in descending order. -/
theorem canonical_eq (h8 : k.nlas.length ≤ 8) (r : Lstdm.Row) (hinv : ∀ f ∈ r.inv, f < k.nlas.length) :
    canonical r.axes = (PySet.listSet r.inv).reverse := by
  have hmem : ∀ f, f ∈ r.axes ↔ f ∈ r.inv := by
    intro f
    cases r <;> simp [Lstdm.Row.axes, Lstdm.Row.inv] <;> tauto
  rw [listSet_small _ k.nlas.length (fun v hv => by have := hinv v hv; omega) hinv]
  unfold canonical
  have hp := List.mergeSort_perm r.axes.eraseDups (fun a b : Nat => decide (b ≤ a))
  have hs : (r.axes.eraseDups.mergeSort (fun a b : Nat => decide (b ≤ a))).Pairwise (fun a b => decide (b ≤ a) = true) :=
    List.pairwise_mergeSort (by intro a b c; simp; omega) (by intro a b; simp; omega) _
  have hn : (r.axes.eraseDups.mergeSort (fun a b : Nat => decide (b ≤ a))).Nodup := by
    rw [hp.nodup_iff]; exact nodup_eraseDups' _
  refine List.Perm.eq_of_pairwise (le := fun a b : Nat => b ≤ a) (fun a b _ _ h1 h2 => by omega) (hs.imp (by simp)) ?_ ?_
  · rw [List.pairwise_reverse]
    exact (List.pairwise_lt_range.filter _).imp (fun h => by omega)
  · rw [List.perm_ext_iff_of_nodup hn (by
      rw [List.nodup_reverse]; exact List.nodup_range.filter _)]
    intro f
    rw [hp.mem_iff, List.mem_reverse, List.mem_filter, List.mem_range, decide_eq_true_eq, List.mem_eraseDups, hmem]
    exact ⟨fun h => ⟨hinv f h, h⟩, fun h => h.2⟩

variable [Field K]

/-- The images of a pair of states have distinct indices. -/
theorem specAddr_nodup (h8 : k.nlas.length ≤ 8) (hC : k.Cols) (hS : k.Same) (u : ExcRow) (imgs : List (Nat × Nat)) (hN : imgs.Nodup)
    (hinv : ∀ f ∈ u.2.inv, f < k.nlas.length) (hR : u.1.1 < k.cols.length ∧ u.1.2 < k.cols.length)
    (himg : ∀ im ∈ imgs, (im.1 < k.cols.length ∧ im.2 < k.cols.length) ∧
      ∀ f ∈ u.2.inv, k.uroot f im.1 = k.uroot f u.1.1 ∧ k.uroot f im.2 = k.uroot f u.1.2)
    (l : Nat × Nat → List (Nat × Nat × K)) (hl : ∀ im ∈ imgs, k.specAddrOvlp im.1 im.2 u.2.inv = some (l im))
    (i j : Nat) (hi : i < (k.colOf (PySet.listSet u.2.inv) u.1.1).prod) (hj : j < (k.colOf (PySet.listSet u.2.inv) u.1.2).prod) :
    ((k.specAddr (imgs.map (fun im => (im, l im))) (k.adr u.1.1 (k.dig (PySet.listSet u.2.inv) u.1.1 i))
      (k.adr u.1.2 (k.dig (PySet.listSet u.2.inv) u.1.2 j))).map key).Nodup := by
  obtain ⟨hNI, hmem⟩ := listSet_mem h8 u.2.inv hinv
  have hIm : ∀ f ∈ PySet.listSet u.2.inv, f < k.nlas.length := fun f hf => hinv f ((hmem f).mp hf)
  have hIS : ∀ f < k.nlas.length, f ∈ k.specOf u.2.inv ↔ f ∉ PySet.listSet u.2.inv := by
    intro f hf; unfold specOf; simp [hf]
  have hmix : ∀ r X i x, r < k.cols.length → X < k.cols.length → i < (k.colOf (PySet.listSet u.2.inv) r).prod →
      x < (k.colOf (k.specOf u.2.inv) X).prod → (∀ f ∈ PySet.listSet u.2.inv, k.lr r f = k.lr X f) →
      ∀ f < k.nlas.length, k.mix (PySet.listSet u.2.inv) (k.specOf u.2.inv) r X i x f < k.lr X f := by
    intro r X i x hr hX hi hx hlr f hf
    unfold mix
    by_cases h : f ∈ PySet.listSet u.2.inv
    · rw [if_pos h, ← hlr f h]; exact dig_lt _ r i f hi h
    · rw [if_neg h]; exact dig_lt _ X x f hx ((hIS f hf).mpr h)
  unfold specAddr
  rw [List.map_flatMap, List.nodup_flatMap]
  constructor
  · rintro e he
    obtain ⟨im, him, rfl⟩ := List.mem_map.mp he
    dsimp only
    have := (spec_keys h8 hC im.1 im.2 (himg im him).1.1 (himg im him).1.2 u.2.inv _ (hl im him)).1
    unfold List.Nodup at this ⊢
    rw [List.map_map, List.pairwise_map]
    rw [List.pairwise_map] at this
    refine this.imp ?_
    intro a b hab h
    apply hab
    unfold key at h ⊢
    simp only [Function.comp, Prod.mk.injEq] at h
    exact Prod.ext (by dsimp only; omega) (by dsimp only; omega)
  · rw [List.pairwise_map]
    refine hN.imp_of_mem ?_
    intro im im' him him' hne
    simp only [Function.onFun, List.disjoint_left, List.mem_map]
    rintro _ ⟨_, ⟨e, he, rfl⟩, rfl⟩ ⟨_, ⟨e', he', rfl⟩, h⟩
    obtain ⟨⟨hX, hY⟩, hu⟩ := himg im him
    obtain ⟨⟨hX', hY'⟩, hu'⟩ := himg im' him'
    obtain ⟨x, y, hx, hy, e1, e2⟩ := (spec_keys h8 hC im.1 im.2 hX hY u.2.inv _ (hl im him)).2 e he
    obtain ⟨x', y', hx', hy', e1', e2'⟩ := (spec_keys h8 hC im'.1 im'.2 hX' hY' u.2.inv _ (hl im' him')).2 e' he'
    unfold key at h
    simp only [Prod.mk.injEq] at h
    rw [e1, e2, e1', e2', adr_mix hC _ _ hIS _ _ hR.1 _ _ hi, adr_mix hC _ _ hIS _ _ hR.2 _ _ hj, adr_mix hC _ _ hIS _ _ hR.1 _ _ hi,
      adr_mix hC _ _ hIS _ _ hR.2 _ _ hj] at h
    have a1 := (adr_inj hC _ _ hX' hX _ _ (hmix _ _ _ _ hR.1 hX' hi hx' fun f hf => hS.lr f (hIm f hf) _ hR.1 _ hX' (hu' f ((hmem f).mp hf)).1.symm)
      (hmix _ _ _ _ hR.1 hX hi hx fun f hf => hS.lr f (hIm f hf) _ hR.1 _ hX (hu f ((hmem f).mp hf)).1.symm) h.1).1
    have a2 := (adr_inj hC _ _ hY' hY _ _ (hmix _ _ _ _ hR.2 hY' hj hy' fun f hf => hS.lr f (hIm f hf) _ hR.2 _ hY' (hu' f ((hmem f).mp hf)).2.symm)
      (hmix _ _ _ _ hR.2 hY hj hy fun f hf => hS.lr f (hIm f hf) _ hR.2 _ hY (hu f ((hmem f).mp hf)).2.symm) h.2).1
    exact hne (Prod.ext a1.symm a2.symm)

/-- The two accumulators. -/
def Sim (k : Kern K) (H : Ham K) (A : Arr K) (M : Mat K × Mat K) : Prop :=
  ∀ b c, M.1 b c = lamH k.nlas.sum H (A b c) ∧ M.2 b c = lamS k.nlas.sum (A b c)

variable [DecidableEq K]

/-- One row. -/
theorem hamEnv_sim (h8 : k.nlas.length ≤ 8) (hC : k.Cols) (hS : k.Same) (H : Ham K) (u : ExcRow) (imgs : List (Nat × Nat)) (hN : imgs.Nodup)
    (hl : k.lookup (u.1, u.2.inv) = some imgs)
    (hinv : ∀ f ∈ u.2.inv, f < k.nlas.length) (hR : u.1.1 < k.cols.length ∧ u.1.2 < k.cols.length)
    (himg : ∀ im ∈ imgs, (im.1 < k.cols.length ∧ im.2 < k.cols.length) ∧
      ∀ f ∈ u.2.inv, k.uroot f im.1 = k.uroot f u.1.1 ∧ k.uroot f im.2 = k.uroot f u.1.2)
    (hsh : ∀ r < k.cols.length, ∃ s, fermionSpinShuffle ((k.nelec.getD r []).map Prod.fst) ((k.nelec.getD r []).map Prod.snd) = some s)
    (hrow : ∀ b c, k.rootOf b = u.1.1 → k.rootOf c = u.1.2 → RowHam k.toLstdm H b c u.2)
    (A A' : Arr K) (M : Mat K × Mat K) (hAM : k.Sim H A M) (hA : k.crunchEnv A u = some A') :
    ∃ M', k.hamEnv H M u = some M' ∧ k.Sim H A' M' := by
  classical
  choose! ss hss using hsh
  obtain ⟨hNI, hmem⟩ := listSet_mem h8 u.2.inv hinv
  have hIm : ∀ f ∈ PySet.listSet u.2.inv, f < k.nlas.length := fun f hf => hinv f ((hmem f).mp hf)
  have hspec : ∀ im ∈ imgs, ∃ l, k.specAddrOvlp im.1 im.2 u.2.inv = some l := fun im him =>
    (spec_sum h8 hC im.1 im.2 (himg im him).1.1 (himg im him).1.2 u.2.inv _ _ (hss _ (himg im him).1.1) (hss _ (himg im him).1.2)).imp
      (fun l h => h.1)
  choose! l hl1 using hspec
  have hcache : imgs.mapM (fun im => (k.specAddrOvlp im.1 im.2 u.2.inv).map (fun l => (im, l))) = some (imgs.map (fun im => (im, l im))) := by
    clear hl himg hN
    induction imgs with
    | nil => rfl
    | cons a t ih =>
      rw [List.mapM_cons, hl1 a (by simp), ih (fun im him => hl1 im (by simp [him]))]
      rfl
  have hAe := addrRange_eq hC u.1.1 hR.1 u.2.inv hNI hIm
  have hBe := addrRange_eq hC u.1.2 hR.2 u.2.inv hNI hIm
  have hdl : ∀ r i, i < (k.colOf (PySet.listSet u.2.inv) r).prod → r < k.cols.length →
      ∀ f < k.nlas.length, k.dig (PySet.listSet u.2.inv) r i f < k.lr r f := by
    intro r i hi hr f hf
    by_cases h : f ∈ PySet.listSet u.2.inv
    · exact dig_lt _ r i f hi h
    · rw [dig_out _ r i f h]; exact hC.pos r hr f hf
  unfold crunchEnv at hA
  unfold hamEnv
  rw [hl] at hA ⊢
  simp only [Option.bind_eq_bind, Option.bind_some, hcache] at hA ⊢
  refine sim_zip (k.Sim H) _ _ _ 0 ?_ A M A' hAM hA
  intro t x hx a m a' hR' hF
  have hlA : (k.addrRange u.1.1 u.2.inv).length = (k.colOf (PySet.listSet u.2.inv) u.1.1).prod := by rw [hAe]; simp
  have hlB : (k.addrRange u.1.2 u.2.inv).length = (k.colOf (PySet.listSet u.2.inv) u.1.2).prod := by rw [hBe]; simp
  have ht : t < (k.addrRange u.1.1 u.2.inv).length * (k.addrRange u.1.2 u.2.inv).length := by
    obtain ⟨h, _⟩ := List.getElem?_eq_some_iff.mp hx
    simpa [List.length_flatMap] using h
  rw [pairs_getElem? _ _ _ ht] at hx
  have hx := (Option.some.inj hx).symm
  rw [Nat.zero_add]
  have hjB : 0 < (k.addrRange u.1.2 u.2.inv).length := Nat.pos_of_ne_zero (fun h => by rw [h] at ht; simp at ht)
  have hi : t / (k.addrRange u.1.2 u.2.inv).length < (k.colOf (PySet.listSet u.2.inv) u.1.1).prod := by
    rw [← hlA]; exact Nat.div_lt_of_lt_mul (by rw [Nat.mul_comm]; exact ht)
  have hj : t % (k.addrRange u.1.2 u.2.inv).length < (k.colOf (PySet.listSet u.2.inv) u.1.2).prod := by
    rw [← hlB]; exact Nat.mod_lt _ hjB
  unfold putHam
  dsimp only
  rw [canonical_eq h8 u.2 hinv, flatState_eq hC _ hR.1 _ hNI hIm _ hi, flatState_eq hC _ hR.2 _ hNI hIm _ hj]
  have hx1 : x.1 = k.adr u.1.1 (k.dig (PySet.listSet u.2.inv) u.1.1 (t / (k.addrRange u.1.2 u.2.inv).length)) := by
    rw [hx]
    dsimp only
    generalize t / (k.addrRange u.1.2 u.2.inv).length = i at *
    rw [hAe, List.getD_eq_getElem _ _ (by simpa using hi)]; simp
  have hx2 : x.2 = k.adr u.1.2 (k.dig (PySet.listSet u.2.inv) u.1.2 (t % (k.addrRange u.1.2 u.2.inv).length)) := by
    rw [hx]
    dsimp only
    generalize t % (k.addrRange u.1.2 u.2.inv).length = j at *
    rw [hBe, List.getD_eq_getElem _ _ (by simpa using hj)]; simp
  have hkeys := specAddr_nodup h8 hC hS u imgs hN hinv hR himg l hl1 _ _ hi hj
  rw [← hx1, ← hx2] at hkeys ⊢
  have hroot : k.rootOf x.1 = u.1.1 ∧ k.rootOf x.2 = u.1.2 := by
    rw [hx1, hx2]
    exact ⟨rootOf_adr hC _ hR.1 _ (hdl _ _ hi hR.1), rootOf_adr hC _ hR.2 _ (hdl _ _ hj hR.2)⟩
  obtain ⟨d, hd, hd'⟩ := Option.map_eq_some_iff.mp hF
  obtain ⟨o, h1, h2⟩ := hrow x.1 x.2 hroot.1 hroot.2 d hd
  rw [h1]
  refine ⟨_, rfl, fun b c => ?_⟩
  subst hd'
  rw [lam_putImages (lin_lamH _ H), lam_putImages (lin_lamS _)]
  obtain ⟨r1, r2⟩ := hR' b c
  rw [← r1, ← r2]
  dsimp only
  constructor
  · exact putOp_sum _ _ hkeys _ b c
  · change o.getD 0 = lamS k.nlas.sum d at h2
    rw [← h2]
    cases o with
    | none =>
      dsimp only
      rw [List.sum_eq_zero, add_zero]
      intro z hz
      obtain ⟨y, _, rfl⟩ := List.mem_map.mp hz
      simp
    | some q => exact putOp_sum _ _ hkeys _ b c

/-- The images of a unique row are distinct. -/
theorem images_nodup (hK : Consistent k) (hH : NoCollision k) (t : List ExcRow) (ht : t ∈ k.tables) (u : ExcRow) (hu : u ∈ k.findUniqueExc t) :
    (k.images t u).Nodup := by
  obtain ⟨cls, hcls, hperm⟩ := tables_all hK
  have hmem : ∀ t ∈ k.tables, ∀ y ∈ t, y.1 ∈ k.scai ∧ y.2 ∈ expand k.nlas.length (cls y.1) := by
    intro t ht y hy
    have := hperm.mem_iff.mp (List.mem_flatten.mpr ⟨t, ht, hy⟩)
    simp only [List.mem_flatMap, List.mem_map] at this
    obtain ⟨p, hp, r, hr, rfl⟩ := this
    exact ⟨hp, hr⟩
  have hnod : t.Nodup := by
    have : k.tables.flatten.Nodup := by
      rw [hperm.nodup_iff, List.nodup_flatMap]
      refine ⟨fun p _ => (nodup_expand _ _).map (fun a b h => by simpa using h), ?_⟩
      refine nodup_scai.imp ?_
      intro p q hpq
      simp only [Function.onFun, List.disjoint_left, List.mem_map]
      rintro _ ⟨r, _, rfl⟩ ⟨r', _, h⟩
      simp only [Prod.mk.injEq] at h
      exact hpq h.1.symm
    exact (List.nodup_flatten.mp this).1 t ht
  obtain ⟨hut, hrep⟩ := mem_unique t u hu
  have hru : ∀ y, k.fprintLT y = k.fprintLT u → k.rep t y = u := by
    intro y hyu
    rw [← hrep]; unfold rep; rw [hyu]
    rw [(rep_spec t u hut).2.2]; rfl
  unfold images List.Nodup
  rw [List.pairwise_map]
  refine (hnod.filter _).imp_of_mem ?_
  intro x y hx hy hne h
  rw [List.mem_filter] at hx hy
  have hxu := hru x (by simpa using hx.2)
  have hyu := hru y (by simpa using hy.2)
  obtain ⟨x0, x1, _⟩ := rep_words hH t ht x hx.1
  obtain ⟨y0, y1, _⟩ := rep_words hH t ht y hy.1
  rw [hxu] at x0 x1
  rw [hyu] at y0 y1
  change k.flp u x = k.flp u y at h
  obtain ⟨sx, rx⟩ := hmem t ht x hx.1
  obtain ⟨sy, ry⟩ := hmem t ht y hy.1
  have lx := (mem_scai _ |>.mp sx).2.2.1
  have ly := (mem_scai _ |>.mp sy).2.2.1
  have e1 : x.1 = y.1 := by
    rw [h] at x1
    generalize k.flp u y = z at *
    rw [Prod.ext_iff, Prod.ext_iff] at x1 y1
    rw [Prod.ext_iff]
    dsimp only at x1 y1
    omega
  rw [← e1] at ry
  exact hne (Prod.ext e1 (expand_inv_inj _ _ _ _ rx ry (fun g => (x0 g).trans (y0 g).symm)))

/-- All rows. -/
theorem hamKernel_sim {v : Nat → Nat → Vec K} {H : Ham K} (hD : Describes k.toLstdm v) (hHs : H.Sym) (h2 : (2 : K) ≠ 0)
    (h8 : k.nlas.length ≤ 8) (hK : Consistent k) (hH : NoCollision k) (acc : Arr K)
    (hacc : (k.tables.flatMap k.findUniqueExc).foldlM k.crunchEnv (fun _ _ => (zero1, zero2)) = some acc) :
    ∃ M, (k.tables.flatMap k.findUniqueExc).foldlM (k.hamEnv H) (fun _ _ => 0, fun _ _ => 0) = some M ∧ k.Sim H acc M := by
  obtain ⟨cls, hcls, hperm⟩ := tables_all hK
  have hC := cols_of hK
  have hmem : ∀ t ∈ k.tables, ∀ y ∈ t, y.1 ∈ k.scai ∧ y.2 ∈ expand k.nlas.length (cls y.1) := by
    intro t ht y hy
    have := hperm.mem_iff.mp (List.mem_flatten.mpr ⟨t, ht, hy⟩)
    simp only [List.mem_flatMap, List.mem_map] at this
    obtain ⟨p, hp, r, hr, rfl⟩ := this
    exact ⟨hp, hr⟩
  have hkey : ∀ t ∈ k.tables, ∀ t' ∈ k.tables, ∀ u ∈ t, ∀ u' ∈ t', u.1 = u'.1 → u.2.inv = u'.2.inv → t = t' ∧ u = u' := by
    intro t ht t' ht' u hu u' hu' e1 e2
    have h1 := hmem t ht u hu
    have h2 := hmem t' ht' u' hu'
    rw [← e1] at h2
    have e3 := expand_inv_inj _ _ _ _ h1.2 h2.2 (by rw [e2]; intro g; rfl)
    have e4 : u = u' := Prod.ext e1 e3
    subst e4
    exact ⟨tab_unique _ _ _ t t' (by rw [← tables_eq]; exact ht) (by rw [← tables_eq]; exact ht') u hu hu', rfl⟩
  have hsh : ∀ r < k.cols.length, ∃ s, fermionSpinShuffle ((k.nelec.getD r []).map Prod.fst) ((k.nelec.getD r []).map Prod.snd) = some s := by
    intro r hr
    obtain ⟨e, he, _⟩ := spinShuffle_eq hD (k.adr r (fun _ => 0))
    refine ⟨e, ?_⟩
    unfold Lstdm.spinShuffle toLstdm at he
    dsimp only at he
    rwa [rootOf_adr hC r hr _ (fun f hf => hC.pos r hr f hf)] at he
  refine sim_foldlM (k.Sim H) _ _ _ ?_ _ _ _ ?_ hacc
  · intro u hu A M A' hAM hA
    obtain ⟨t, ht, hu⟩ := List.mem_flatMap.mp hu
    obtain ⟨hut, hrep⟩ := mem_unique t u hu
    obtain ⟨hp, hr⟩ := hmem t ht u hut
    obtain ⟨c1, c2, c3⟩ := hcls _ hp
    have hs := mem_scai u.1 |>.mp hp
    refine hamEnv_sim h8 hC (same_of hK) H u (k.images t u) (images_nodup hK hH t ht u hu) (lookup_eq hkey t ht u hu)
      (expand_lt _ _ c2 _ hr) ⟨hs.1, hs.2.1⟩ (by
        intro im him
        unfold images at him
        simp only [List.mem_map, List.mem_filter] at him
        obtain ⟨y, ⟨hy, hyu⟩, rfl⟩ := him
        have hyu : k.fprintLT y = k.fprintLT u := by simpa using hyu
        have hru : k.rep t y = u := by
          rw [← hrep]; unfold rep; rw [hyu]
          rw [(rep_spec t u hut).2.2]; rfl
        obtain ⟨_, w1, w2⟩ := rep_words hH t ht y hy
        rw [hru] at w1 w2
        have hsy := mem_scai y.1 |>.mp (hmem t ht y hy).1
        refine ⟨?_, w2⟩
        change (k.flp u y).1 < _ ∧ (k.flp u y).2 < _
        rcases w1 with e | e <;> rw [e]
        · exact ⟨hsy.1, hsy.2.1⟩
        · exact ⟨hsy.2.1, hsy.1⟩) hsh ?_ A A' M hAM hA
    intro b c hb hc
    exact rows_ham hD hHs h2 b c _ c1 c2 (fun f hf σ => by rw [cz_root, cz_root, hb, hc]; exact c3 f hf σ) u.2 hr
  · intro b c
    dsimp only
    constructor
    · unfold lamH L1 L2 S2 S4
      simp [zero1, zero2]
    · unfold lamS L1 L2 S2 S4
      simp [zero1, zero2]

end Kern
end Verif.Lstdm
