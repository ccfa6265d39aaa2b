import Verif.Lemmas.HamSpinKern
/-!
# Lemmas: a row computed from the operators of another one
-/
namespace Verif.HamSpin
open Verif.Lstdm Verif.FciRdm Verif.FragTables Verif.FragSpin Verif.RdmSmult Verif.SpinReduce Verif.Exc Verif.Addr Verif.Spec
open Verif.Spec.Tdm Verif.Spec.RdmSmult Verif.Spec.Spin Verif.Spec.FragSpin Verif.Spec.FragTables Verif.Spec.FciRdm Verif.Spec.Lstdm
open Verif.Spec.HamSpin

theorem mapM_some {α β : Type} (l : List α) (f : α → Option β) (g : α → β) (h : ∀ a ∈ l, f a = some (g a)) : l.mapM f = some (l.map g) := by
  induction l with
  | nil => rfl
  | cons a l ih =>
    rw [List.mapM_cons, h a (by simp), ih fun b hb => h b (List.mem_cons_of_mem _ hb)]
    rfl

theorem foldlM_ext {α β : Type} (l : List α) (f g : β → α → Option β) (h : ∀ a ∈ l, ∀ b, f b a = g b a) (b : β) :
    l.foldlM f b = l.foldlM g b := by
  induction l generalizing b with
  | nil => rfl
  | cons a l ih =>
    rw [List.foldlM_cons, List.foldlM_cons, h a (by simp)]
    exact bind_congr fun b => ih (fun a ha b => h a (List.mem_cons_of_mem _ ha) b) b

variable {k : SpinKern}

theorem reduce_eq (o : OpTerm) (bra ket : Nat) {κ μ : Nat → ℝ} (hs : ∀ f ∈ o.ints, ∃ sb sk, (k.frag f).smult bra = some sb ∧
      (k.frag f).smult ket = some sk ∧ μ f = mu sb sk ((k.frag f).spin ket)) (hκ : ∀ f ∈ o.ints, k.factorConstant f bra ket = some (κ f)) :
    k.reduceSpin o bra ket = some (redOf κ μ o) := by
  unfold SpinKern.reduceSpin
  rw [if_neg, mapM_some o.ints _ κ hκ]
  · simp only [Option.bind_eq_bind, Option.bind_some, Option.pure_def, redOf, Option.some.injEq]
    congr 1
    cases o.comp with
    | none => rfl
    | some comp =>
      dsimp only
      congr 1
      refine List.map_congr_left fun x _ => ?_
      congr 2
      refine List.map_congr_left fun y hy => ?_
      obtain ⟨sb, sk, e1, e2, e3⟩ := hs y.1 (List.of_mem_zip (a := y.1) (b := y.2) hy).1
      rw [component_eq k y.1 bra ket y.2 e1 e2, e3]
  · simp only [List.any_eq_true, not_exists, not_and]
    intro f hf
    obtain ⟨sb, sk, e1, e2, e3⟩ := hs f hf
    rw [e2]; simp

/-- Tables addressed by model states. -/
theorem reduces_reindex {n : Nat} {A B : FragInt ℝ} {g : Nat → Nat} {b c b' c' : Nat} {d : ℤ × ℤ} {κ μ : ℝ}
    (R : Reduces n A B (g b) (g c) (g b') (g c') d κ μ) : Reduces n (A.reindex g) (B.reindex g) b c b' c' d κ μ :=
  ⟨R.h, R.p, R.phh, R.pph, R.hh, R.pp, R.hhS, R.hhA, R.ppS, R.ppA, R.sm, R.sp, R.ch, R.sn, R.dd, R.ss⟩

variable (hG : Ready k) (hT : ∀ f < k.nlas.length, FilledS (k.frag f) (k.mats f)) (h8 : k.nlas.length ≤ 8)
include hG hT h8

/-- The values of a row from the operators of an alike row. -/
theorem row_values {H : Ham ℝ} (h1 : H.h1 1 = H.h1 0) (hH : ∀ p q r s, H.h2 r s p q = H.h2 p q r s)
    (tab : List Kern.ExcRow) (ht : tab ∈ k.toKern.tables) (g x : Kern.ExcRow) (hg : g ∈ tab) (hx : x ∈ tab) (ha : Alike k g x)
    (b c b' c' : Nat) (eb : k.toKern.rootOf b = x.1.1) (ec : k.toKern.rootOf c = x.1.2) (eb' : k.toKern.rootOf b' = g.1.1)
    (ec' : k.toKern.rootOf c' = g.1.2) (ab : ∀ f ∈ x.2.inv, k.toKern.envOf f b = k.toKern.envOf f b' ∧ k.toKern.envOf f b < k.toKern.lr x.1.1 f)
    (ac : ∀ f ∈ x.2.inv, k.toKern.envOf f c = k.toKern.envOf f c' ∧ k.toKern.envOf f c < k.toKern.lr x.1.2 f) :
    ∃ κ μ : Nat → ℝ, (opRow k.high H b' c' x.2).map (redPair κ μ) = k.toKern.toLstdm.hamRow H b c x.2 ∧
      ∀ o : OpTerm, (∀ f ∈ o.ints, f ∈ x.2.inv) → k.reduceSpin o x.1.1 x.1.2 = some (redOf κ μ o) := by
  obtain ⟨x1, x2, X, eX, nX, bX, dX, rX⟩ := row_class hG tab ht x hx
  obtain ⟨g1, g2, -⟩ := row_class hG tab ht g hg
  have hinv := expand_lt _ _ bX _ rX
  let D : Nat → ℤ × ℤ := fun f => dif (k.frag f) x.1.1 x.1.2
  let s : Nat → Nat → ℤ := fun f r => ((k.frag f).smult r).getD 0
  have hsm : ∀ f < k.nlas.length, ∀ r < k.nroots, (k.frag f).smult r = some (s f r) := by
    intro f hf r hr
    obtain ⟨y, hy⟩ := Option.isSome_iff_exists.1 (hG.given f hf r hr)
    simp only [s, hy, Option.getD_some]
  let κ : Nat → ℝ := fun f => (kap (D f) (s f x.1.1) (s f x.1.2) ((k.frag f).spin x.1.1) ((k.frag f).spin x.1.2)).getD 0
  let μ : Nat → ℝ := fun f => mu (s f x.1.1) (s f x.1.2) ((k.frag f).spin x.1.2)
  have hRD : RowD D x.2 := by
    refine rowD X nX bX (fun f hf => ?_) (fun f hf => ?_) x.2 rX
    · rw [← dX f hf false, (cr_eq hG _ f x1 hf).1, (cr_eq hG _ f x2 hf).1]; rfl
    · rw [← dX f hf true, (cr_eq hG _ f x1 hf).2, (cr_eq hG _ f x2 hf).2]; rfl
  have hκ : ∀ f ∈ x.2.inv, kap (D f) (s f x.1.1) (s f x.1.2) ((k.frag f).spin x.1.1) ((k.frag f).spin x.1.2) = some (κ f) := by
    intro f hf
    obtain ⟨y, hy⟩ := rowD_kap x.2 hRD f hf (s f x.1.1) (s f x.1.2) ((k.frag f).spin x.1.1) ((k.frag f).spin x.1.2)
    show _ = some (Option.getD _ 0)
    rw [hy]; rfl
  refine ⟨κ, μ, ?_, ?_⟩
  · have hne : ∀ st r, k.toKern.rootOf st = r → r < k.nroots → ∀ f < k.nlas.length,
        (k.toKern.toLstdm.nelecF st).getD f 0 = ((k.frag f).nelec r).1 + ((k.frag f).nelec r).2 := by
      intro st r e hr f hf
      unfold Lstdm.nelecF Kern.toLstdm
      dsimp only
      rw [e, nelec_getD r hr]
      simp [List.getD_eq_getElem?_getD, List.getElem?_map, List.getElem?_range hf]
    refine row_all (lo := k.toKern.toLstdm) (hi := k.high) (D := D) rfl h1 hH x.2 hRD ?_ ?_ ?_ ?_
    · intro f hf
      exact ((Kern.listSet_mem (k := k.toKern) h8 x.2.inv hinv).2 f).1 hf
    · intro f hf
      have hfm := hinv f hf
      have hF := hG.coherent f hfm
      have hM := hG.mult f hfm
      have hn := hG.nroots f hfm
      have I : ∀ r < k.nroots, (k.frag f).urootIdx r < (k.frag f).nuroots := fun r hr => idx_lt hF (by omega)
      have N : ∀ r < k.nroots, (k.frag f).nelec ((k.frag f).addr ((k.frag f).urootIdx r)) = (k.frag f).nelec r := fun r hr => by
        rw [addr_idx hF (by omega)]; exact hF.nelec r (by omega)
      have S : ∀ r < k.nroots, (k.frag f).smult ((k.frag f).addr ((k.frag f).urootIdx r)) = some (s f r) := fun r hr => by
        rw [addr_idx hF (by omega), hM.rep r (by omega)]; exact hsm f hfm r hr
      have P : ∀ r < k.nroots, (k.frag f).spin ((k.frag f).addr ((k.frag f).urootIdx r)) = (k.frag f).spin r := fun r hr => by
        unfold SFrag.spin; rw [N r hr]
      have L : ∀ r < k.nroots, (k.frag f).lroots ((k.frag f).addr ((k.frag f).urootIdx r)) = k.toKern.lr r f := fun r hr => by
        rw [addr_idx hF (by omega), (hG.lroots f hfm r hr).2, lr_eq r f hr hfm]
      have hd : dif (k.frag f) ((k.frag f).addr ((k.frag f).urootIdx x.1.1)) ((k.frag f).addr ((k.frag f).urootIdx x.1.2)) = D f := by
        show _ = dif _ _ _
        unfold dif; rw [N _ x1, N _ x2]
      have key := reduces (a := k.toKern.envOf f b) (b := k.toKern.envOf f c) hM hF (hG.man f hfm) (hT f hfm) (I _ x1) (I _ x2)
        (by rw [L _ x1]; exact (ab f hf).2) (by rw [L _ x2]; exact (ac f hf).2) (I _ g1) (I _ g2) (S _ x1) (S _ x2)
        (lo_eq hF (I _ x1) (I _ x2) (S _ x1) (S _ x2)) (lo_eq hF (I _ x2) (I _ x1) (S _ x2) (S _ x1))
        (hi_eq hF (I _ g1) (I _ g2)) (hi_eq hF (I _ g2) (I _ g1)) (ha.inter f hf) (κ := κ f)
        (by rw [hd, P _ x1, P _ x2]; exact hκ f hf)
      rw [hd, P _ x2, (hG.orbitals f hfm).2] at key
      have l1 : k.toKern.loc f b = Nat.pair ((k.frag f).urootIdx x.1.1) (k.toKern.envOf f b) := by unfold Kern.loc; rw [eb]; rfl
      have l2 : k.toKern.loc f c = Nat.pair ((k.frag f).urootIdx x.1.2) (k.toKern.envOf f c) := by unfold Kern.loc; rw [ec]; rfl
      have l3 : k.toKern.loc f b' = Nat.pair ((k.frag f).urootIdx g.1.1) (k.toKern.envOf f b) := by unfold Kern.loc; rw [eb', (ab f hf).1]; rfl
      have l4 : k.toKern.loc f c' = Nat.pair ((k.frag f).urootIdx g.1.2) (k.toKern.envOf f c) := by unfold Kern.loc; rw [ec', (ac f hf).1]; rfl
      rw [← l1, ← l2, ← l3, ← l4] at key
      exact reduces_reindex key
    · intro f hf
      rw [hne b _ eb x1 f (hinv f hf), ← ha.eb f hf]
      exact hne b' _ eb' g1 f (hinv f hf)
    · intro f hf
      rw [hne c _ ec x2 f (hinv f hf), ← ha.ek f hf]
      exact hne c' _ ec' g2 f (hinv f hf)
  · intro o ho
    refine reduce_eq o _ _ (fun f hf => ?_) fun f hf => ?_
    · exact ⟨_, _, hsm f (hinv f (ho f hf)) _ x1, hsm f (hinv f (ho f hf)) _ x2, rfl⟩
    · rw [factor_eq k f _ _ (hsm f (hinv f (ho f hf)) _ x1) (hsm f (hinv f (ho f hf)) _ x2)]
      exact hκ f (ho f hf)

/-- One member of a group of rows. -/
theorem hamCase_eq {H : Ham ℝ} (h1 : H.h1 1 = H.h1 0) (hH : ∀ p q r s, H.h2 r s p q = H.h2 p q r s)
    (tab : List Kern.ExcRow) (ht : tab ∈ k.toKern.tables) (g x : Kern.ExcRow) (hg : g ∈ tab) (hx : x ∈ tab)
    (hw : k.spmanWords g = k.spmanWords x) (acc : Kern.Mat ℝ × Kern.Mat ℝ) :
    k.hamCase H g acc x.1 = k.toKern.hamEnv H acc x := by
  have ha := alike hG tab ht g x hg hx hw
  obtain ⟨x1, x2, X, eX, nX, bX, dX, rX⟩ := row_class hG tab ht x hx
  obtain ⟨g1, g2, -⟩ := row_class hG tab ht g hg
  have hinv := expand_lt _ _ bX _ rX
  have hC := Kern.cols_of (consistent hG)
  have hmem : ∀ f, f ∈ PySet.listSet x.2.inv ↔ f ∈ x.2.inv := (Kern.listSet_mem (k := k.toKern) h8 x.2.inv hinv).2
  have hnd : (PySet.listSet x.2.inv).Nodup := (Kern.listSet_mem (k := k.toKern) h8 x.2.inv hinv).1
  have hm : ∀ f ∈ PySet.listSet x.2.inv, f < k.toKern.nlas.length := fun f hf => hinv f ((hmem f).1 hf)
  have cl := cols_length (k := k)
  have colb : k.toKern.colOf (PySet.listSet x.2.inv) g.1.1 = k.toKern.colOf (PySet.listSet x.2.inv) x.1.1 :=
    List.map_congr_left fun f hf => ha.lb f ((hmem f).1 hf)
  have colk : k.toKern.colOf (PySet.listSet x.2.inv) g.1.2 = k.toKern.colOf (PySet.listSet x.2.inv) x.1.2 :=
    List.map_congr_left fun f hf => ha.lk f ((hmem f).1 hf)
  have R : ∀ r < k.nroots, k.toKern.addrRange r x.2.inv = (List.range (k.toKern.colOf (PySet.listSet x.2.inv) r).prod).map
      (fun i => k.toKern.adr r (k.toKern.dig (PySet.listSet x.2.inv) r i)) := fun r hr =>
    Kern.addrRange_eq hC r (by omega) x.2.inv hnd hm
  have nk : (k.toKern.addrRange g.1.2 x.2.inv).length = (k.toKern.addrRange x.1.2 x.2.inv).length := by
    rw [R _ g2, R _ x2, colk]; simp
  unfold SpinKern.hamCase Kern.hamEnv
  rw [ha.row]
  refine bind_congr fun imgs => bind_congr fun cache => ?_
  dsimp only
  rw [nk]
  refine foldlM_ext _ _ _ (fun y hy acc => ?_) _
  obtain ⟨⟨by1, by2⟩, t⟩ := y
  have hy' := List.mk_mem_zipIdx_iff_getElem?.1 hy
  have hyl : t < (k.toKern.addrRange x.1.1 x.2.inv).length * (k.toKern.addrRange x.1.2 x.2.inv).length := by
    have := (List.getElem?_eq_some_iff.1 hy').1
    simpa [List.length_flatMap] using this
  set nb := (k.toKern.addrRange x.1.1 x.2.inv).length with hnb
  set nc := (k.toKern.addrRange x.1.2 x.2.inv).length with hnc
  have hnc0 : 0 < nc := by
    rcases Nat.eq_zero_or_pos nc with h | h
    · rw [h] at hyl; omega
    · exact h
  have ti : t / nc < (k.toKern.colOf (PySet.listSet x.2.inv) x.1.1).prod := by
    have : nb = (k.toKern.colOf (PySet.listSet x.2.inv) x.1.1).prod := by rw [hnb, R _ x1]; simp
    rw [← this]; exact Nat.div_lt_of_lt_mul (by rw [mul_comm]; exact hyl)
  have tj : t % nc < (k.toKern.colOf (PySet.listSet x.2.inv) x.1.2).prod := by
    have : nc = (k.toKern.colOf (PySet.listSet x.2.inv) x.1.2).prod := by rw [hnc, R _ x2]; simp
    rw [← this]; exact Nat.mod_lt _ hnc0
  have dl : ∀ r < k.nroots, ∀ i < (k.toKern.colOf (PySet.listSet x.2.inv) r).prod, ∀ f < k.toKern.nlas.length,
      k.toKern.dig (PySet.listSet x.2.inv) r i f < k.toKern.lr r f := by
    intro r hr i hi f hf
    by_cases hfi : f ∈ PySet.listSet x.2.inv
    · exact Kern.dig_lt _ r i f hi hfi
    · rw [Kern.dig_out _ r i f hfi]; exact hC.pos r (by omega) f hf
  have dg : ∀ r r' i, k.toKern.colOf (PySet.listSet x.2.inv) r = k.toKern.colOf (PySet.listSet x.2.inv) r' →
      k.toKern.dig (PySet.listSet x.2.inv) r i = k.toKern.dig (PySet.listSet x.2.inv) r' i := by
    intro r r' i h
    funext f
    unfold Kern.dig
    rw [h]
  have tig := ti
  rw [← colb] at tig
  have tjg := tj
  rw [← colk] at tjg
  have fs : ∀ r < k.nroots, ∀ i < (k.toKern.colOf (PySet.listSet x.2.inv) r).prod,
      k.toKern.flatState r (Kern.canonical x.2.axes) i = k.toKern.adr r (k.toKern.dig (PySet.listSet x.2.inv) r i) := by
    intro r hr i hi
    rw [Kern.canonical_eq (k := k.toKern) h8 x.2 hinv]
    exact Kern.flatState_eq hC r (by omega) _ hnd hm i hi
  obtain ⟨κ, μ, e1, e2⟩ := row_values hG hT h8 h1 hH tab ht g x hg hx ha
    (k.toKern.adr x.1.1 (k.toKern.dig (PySet.listSet x.2.inv) x.1.1 (t / nc)))
    (k.toKern.adr x.1.2 (k.toKern.dig (PySet.listSet x.2.inv) x.1.2 (t % nc)))
    (k.toKern.adr g.1.1 (k.toKern.dig (PySet.listSet x.2.inv) g.1.1 (t / nc)))
    (k.toKern.adr g.1.2 (k.toKern.dig (PySet.listSet x.2.inv) g.1.2 (t % nc)))
    (Kern.rootOf_adr hC _ (by omega) _ (dl _ x1 _ ti)) (Kern.rootOf_adr hC _ (by omega) _ (dl _ x2 _ tj))
    (Kern.rootOf_adr hC _ (by omega) _ (dl _ g1 _ tig)) (Kern.rootOf_adr hC _ (by omega) _ (dl _ g2 _ tjg))
    (by
      intro f hf
      rw [Kern.envOf_adr hC _ (by omega) _ (dl _ x1 _ ti) f (hinv f hf), Kern.envOf_adr hC _ (by omega) _ (dl _ g1 _ tig) f (hinv f hf)]
      exact ⟨congrFun (dg _ _ _ colb.symm) f, dl _ x1 _ ti f (hinv f hf)⟩)
    (by
      intro f hf
      rw [Kern.envOf_adr hC _ (by omega) _ (dl _ x2 _ tj) f (hinv f hf), Kern.envOf_adr hC _ (by omega) _ (dl _ g2 _ tjg) f (hinv f hf)]
      exact ⟨congrFun (dg _ _ _ colk.symm) f, dl _ x2 _ tj f (hinv f hf)⟩)
  unfold SpinKern.putHamS Kern.putHam
  rw [ha.row]
  dsimp only
  rw [fs _ x1 _ ti, fs _ x2 _ tj, fs _ g1 _ tig, fs _ g2 _ tjg, ← e1]
  cases ev : opRow k.high H (k.toKern.adr g.1.1 (k.toKern.dig (PySet.listSet x.2.inv) g.1.1 (t / nc)))
      (k.toKern.adr g.1.2 (k.toKern.dig (PySet.listSet x.2.inv) g.1.2 (t % nc))) x.2 with
  | none => rfl
  | some v =>
    obtain ⟨i1, i2⟩ := opRow_ints x.2 v ev
    obtain ⟨v1, v2⟩ := v
    simp only [Option.bind_eq_bind, Option.bind_some, Option.map_some, redPair]
    rw [e2 v1 i1, Option.bind_some]
    cases v2 with
    | none => rfl
    | some o =>
      dsimp only
      rw [e2 o (i2 o rfl)]
      rfl

end Verif.HamSpin
