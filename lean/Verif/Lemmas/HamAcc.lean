import Verif.Lemmas.HamDisp
/-!
# Lemmas: accumulation of the matrices of `HamS2Ovlp`
-/
namespace Verif.Lstdm
open Verif.Spec Verif.Spec.Tdm Verif.Spec.Lstdm Verif.Signs Verif.Exc Verif.Addr

variable {K : Type} [Field K]

/-- Linear functionals of pairs of density matrices. -/
def Lin (Λ : D1 K × D2 K → K) : Prop :=
  ∀ (a d : D1 K × D2 K) (w : K), Λ (fun s p q => a.1 s p q + d.1 s p q * w, fun s p q r u => a.2 s p q r u + d.2 s p q r u * w) =
    Λ a + Λ d * w

theorem L1_lin (N : Nat) (g : D1 K) (a d : D1 K) (w : K) : L1 N g (fun s p q => a s p q + d s p q * w) = L1 N g a + L1 N g d * w := by
  unfold L1 S2
  rw [Finset.sum_mul, ← Finset.sum_add_distrib]
  refine Finset.sum_congr rfl fun s _ => ?_
  rw [Finset.sum_mul, ← Finset.sum_add_distrib]
  refine Finset.sum_congr rfl fun p _ => ?_
  rw [Finset.sum_mul, ← Finset.sum_add_distrib]
  refine Finset.sum_congr rfl fun q _ => ?_
  ring

theorem L2_lin (N : Nat) (g : D2 K) (a d : D2 K) (w : K) :
    L2 N g (fun s p q r u => a s p q r u + d s p q r u * w) = L2 N g a + L2 N g d * w := by
  unfold L2 S4
  rw [Finset.sum_mul, ← Finset.sum_add_distrib]
  refine Finset.sum_congr rfl fun s _ => ?_
  rw [Finset.sum_mul, ← Finset.sum_add_distrib]
  refine Finset.sum_congr rfl fun p _ => ?_
  rw [Finset.sum_mul, ← Finset.sum_add_distrib]
  refine Finset.sum_congr rfl fun q _ => ?_
  rw [Finset.sum_mul, ← Finset.sum_add_distrib]
  refine Finset.sum_congr rfl fun r _ => ?_
  rw [Finset.sum_mul, ← Finset.sum_add_distrib]
  refine Finset.sum_congr rfl fun u _ => ?_
  ring

theorem lin_lamH (N : Nat) (H : Ham K) : Lin (lamH N H) := by
  intro a d w
  unfold lamH
  dsimp only
  rw [L1_lin, L2_lin]
  ring

theorem lin_lamS (N : Nat) : Lin (lamS (K := K) N) := by
  intro a d w
  unfold lamS
  dsimp only
  rw [L1_lin, L2_lin]
  ring

namespace Kern
variable {k : Kern K}

theorem lam_foldl {α : Type} {Λ : D1 K × D2 K → K} (l : List α) (F : Arr K → α → Arr K) (G : α → K) (b c : Nat)
    (h : ∀ acc a, Λ (F acc a b c) = Λ (acc b c) + G a) (acc : Arr K) : Λ (l.foldl F acc b c) = Λ (acc b c) + (l.map G).sum := by
  induction l generalizing acc with
  | nil => simp
  | cons a l ih => rw [List.foldl_cons, ih, h, List.map_cons, List.sum_cons, add_assoc]

theorem lam_addTo {Λ : D1 K × D2 K → K} (hΛ : Lin Λ) (acc : Arr K) (b c b' c' : Nat) (d : D1 K × D2 K) (w : K) :
    Λ (addTo acc b c d w b' c') = Λ (acc b' c') + if b' = b ∧ c' = c then Λ d * w else 0 := by
  unfold addTo
  by_cases h : b' = b ∧ c' = c
  · rw [if_pos h, if_pos h]; exact hΛ _ _ _
  · rw [if_neg h, if_neg h, add_zero]

theorem lam_putImages {Λ : D1 K × D2 K → K} (hΛ : Lin Λ) (cache : List ((Nat × Nat) × List (Nat × Nat × K))) (b c : Nat)
    (d : D1 K × D2 K) (acc : Arr K) (b' c' : Nat) : Λ (k.putImages cache b c d acc b' c') = Λ (acc b' c') +
      ((k.specAddr cache b c).map (fun y => if b' = y.1 ∧ c' = y.2.1 then Λ d * y.2.2 else 0)).sum := by
  unfold putImages
  rw [lam_foldl (Λ := Λ) cache _ (fun e => (e.2.map (fun y => if b' = y.1 + k.dotEnv b e.1.1 ∧ c' = y.2.1 + k.dotEnv c e.1.2 then Λ d * y.2.2 else 0)).sum)
    b' c' (fun acc e => lam_foldl e.2 _ (fun y => if b' = y.1 + k.dotEnv b e.1.1 ∧ c' = y.2.1 + k.dotEnv c e.1.2 then Λ d * y.2.2 else 0) b' c'
      (fun acc y => lam_addTo hΛ acc (y.1 + k.dotEnv b e.1.1) (y.2.1 + k.dotEnv c e.1.2) b' c' d y.2.2) acc) acc]
  congr 1
  unfold specAddr
  rw [List.map_flatMap, List.flatMap_def, List.sum_flatten, List.map_map]
  congr 1
  apply List.map_congr_left
  intro e _
  rw [Function.comp, List.map_map]
  rfl

/-- The indices of an entry. -/
def key (y : Nat × Nat × K) : Nat × Nat := (y.1, y.2.1)

theorem putOp_sum (op : Mat K) (idx : List (Nat × Nat × K)) (hN : (idx.map key).Nodup) (val : K) (b c : Nat) :
    putOp op idx val b c = op b c + (idx.map (fun y => if b = y.1 ∧ c = y.2.1 then val * y.2.2 else 0)).sum := by
  unfold putOp
  cases h : idx.reverse.find? (fun x => x.1 == b && x.2.1 == c) with
  | none =>
    rw [List.find?_eq_none] at h
    dsimp only
    rw [List.sum_eq_zero, add_zero]
    intro z hz
    obtain ⟨y, hy, rfl⟩ := List.mem_map.mp hz
    have := h y (by simpa using hy)
    rw [if_neg]
    rintro ⟨rfl, rfl⟩
    simp at this
  | some x =>
    have h1 := List.find?_some h
    have h2 := List.mem_of_find?_eq_some h
    rw [List.mem_reverse] at h2
    obtain ⟨l1, l2, rfl⟩ := List.append_of_mem h2
    simp only [Bool.and_eq_true, beq_iff_eq] at h1
    rw [List.map_append, List.map_cons, List.nodup_append] at hN
    obtain ⟨_, n2, n3⟩ := hN
    rw [List.nodup_cons] at n2
    dsimp only
    rw [List.map_append, List.map_cons, List.sum_append, List.sum_cons, if_pos ⟨h1.1.symm, h1.2.symm⟩, List.sum_eq_zero, List.sum_eq_zero]
    · ring
    · intro z hz
      obtain ⟨y, hy, rfl⟩ := List.mem_map.mp hz
      rw [if_neg]
      rintro ⟨e1, e2⟩
      exact n2.1 (List.mem_map.mpr ⟨y, hy, Prod.ext (e1.symm.trans h1.1.symm) (e2.symm.trans h1.2.symm)⟩)
    · intro z hz
      obtain ⟨y, hy, rfl⟩ := List.mem_map.mp hz
      rw [if_neg]
      rintro ⟨e1, e2⟩
      exact n3 (key y) (List.mem_map.mpr ⟨y, hy, rfl⟩) (key x) (by simp) (Prod.ext (e1.symm.trans h1.1.symm) (e2.symm.trans h1.2.symm))

theorem nodup_grid (n m : Nat) (g : Nat → Nat → Option (Nat × Nat × K)) (A B : Nat → Nat)
    (hg : ∀ x < n, ∀ y < m, ∀ e, g x y = some e → e.1 = A x ∧ e.2.1 = B y)
    (hA : ∀ x < n, ∀ x' < n, A x = A x' → x = x') (hB : ∀ y < m, ∀ y' < m, B y = B y' → y = y') :
    (((List.range n).flatMap (fun x => (List.range m).filterMap (fun y => g x y))).map key).Nodup := by
  rw [List.map_flatMap, List.nodup_flatMap]
  constructor
  · intro x hx
    rw [List.mem_range] at hx
    unfold List.Nodup
    rw [List.pairwise_map, List.pairwise_filterMap]
    refine List.nodup_range.imp_of_mem ?_
    intro y y' hy hy' hne e he e' he' h
    rw [List.mem_range] at hy hy'
    have q := (hg x hx y hy e he).2
    have q' := (hg x hx y' hy' e' he').2
    have : e.2.1 = e'.2.1 := congrArg Prod.snd h
    exact hne (hB y hy y' hy' (by rw [← q, ← q', this]))
  · refine List.nodup_range.imp_of_mem ?_
    intro x x' hx hx' hne
    rw [List.mem_range] at hx hx'
    simp only [Function.onFun, List.disjoint_left, List.mem_map, List.mem_filterMap, List.mem_range]
    rintro _ ⟨e, ⟨y, hy, he⟩, rfl⟩ ⟨e', ⟨y', hy', he'⟩, h⟩
    have q := (hg x hx y hy e he).1
    have q' := (hg x' hx' y' hy' e' he').1
    have : (key e').1 = (key e).1 := by rw [h]
    change e'.1 = e.1 at this
    exact hne (hA x hx x' hx' (by rw [← q, ← q', this]))

/-- The entries of the spectators of an image have distinct indices. -/
theorem spec_keys (h8 : k.nlas.length ≤ 8) (hC : k.Cols) (X Y : Nat) (hX : X < k.cols.length) (hY : Y < k.cols.length) (inv : List Nat)
    (l : List (Nat × Nat × K)) (hl : k.specAddrOvlp X Y inv = some l) :
    (l.map key).Nodup ∧ ∀ e ∈ l, ∃ x y, x < (k.colOf (k.specOf inv) X).prod ∧ y < (k.colOf (k.specOf inv) Y).prod ∧
      e.1 = k.adr X (k.dig (k.specOf inv) X x) ∧ e.2.1 = k.adr Y (k.dig (k.specOf inv) Y y) := by
  unfold specAddrOvlp at hl
  dsimp only at hl
  cases hb : fermionSpinShuffle ((k.nelec.getD X []).map Prod.fst) ((k.nelec.getD X []).map Prod.snd) with
  | none => rw [hb] at hl; simp at hl
  | some sb =>
  cases hc : fermionSpinShuffle ((k.nelec.getD Y []).map Prod.fst) ((k.nelec.getD Y []).map Prod.snd) with
  | none => rw [hb, hc] at hl; simp at hl
  | some sk =>
  rw [hb, hc] at hl
  simp only [Option.bind_eq_bind, Option.bind_some, Option.pure_def] at hl
  have hl := (Option.some.inj hl).symm
  obtain ⟨k1, k2, _⟩ := kron_eq (k := k) X Y (((sb * sk * fermionFragShuffle ((k.nelec.getD X []).map (fun p => p.1 + p.2)) (PySet.listSet inv) *
    fermionFragShuffle ((k.nelec.getD Y []).map (fun p => p.1 + p.2)) (PySet.listSet inv) : Int) : K)) (k.specOf inv) (nodup_specOf inv)
  have hX' := addrRange_eq hC X hX (k.specOf inv) (by rw [listSet_specOf h8]; exact nodup_specOf inv)
    (by rw [listSet_specOf h8]; exact specOf_lt inv)
  have hY' := addrRange_eq hC Y hY (k.specOf inv) (by rw [listSet_specOf h8]; exact nodup_specOf inv)
    (by rw [listSet_specOf h8]; exact specOf_lt inv)
  rw [listSet_specOf h8] at hX' hY'
  change l = (List.range ((k.specOf inv).foldl (fun o f => kron1 (k.ovlpMat f X Y) o) (1, 1, fun _ _ => _)).1).flatMap (fun x =>
    (List.range ((k.specOf inv).foldl (fun o f => kron1 (k.ovlpMat f X Y) o) (1, 1, fun _ _ => _)).2.1).filterMap _) at hl
  rw [k1, k2] at hl
  have hxa : ∀ x < (k.colOf (k.specOf inv) X).prod, (k.addrRange X (k.specOf inv)).getD x 0 = k.adr X (k.dig (k.specOf inv) X x) := by
    intro x hx
    rw [hX', List.getD_eq_getElem _ _ (by simpa using hx)]; simp
  have hya : ∀ y < (k.colOf (k.specOf inv) Y).prod, (k.addrRange Y (k.specOf inv)).getD y 0 = k.adr Y (k.dig (k.specOf inv) Y y) := by
    intro y hy
    rw [hY', List.getD_eq_getElem _ _ (by simpa using hy)]; simp
  have hdl : ∀ r < k.cols.length, ∀ i < (k.colOf (k.specOf inv) r).prod, ∀ f < k.nlas.length, k.dig (k.specOf inv) r i f < k.lr r f := by
    intro r hr i hi f hf
    by_cases h : f ∈ k.specOf inv
    · exact dig_lt _ r i f hi h
    · rw [dig_out _ r i f h]; exact hC.pos r hr f hf
  have hinj : ∀ r < k.cols.length, ∀ x < (k.colOf (k.specOf inv) r).prod, ∀ x' < (k.colOf (k.specOf inv) r).prod,
      k.adr r (k.dig (k.specOf inv) r x) = k.adr r (k.dig (k.specOf inv) r x') → x = x' := by
    intro r hr x hx x' hx' h
    have := (adr_inj hC r r hr hr _ _ (hdl r hr x hx) (hdl r hr x' hx') h).2
    exact dig_inj _ (nodup_specOf inv) r x x' hx hx' (fun f hf => this f (specOf_lt inv f hf))
  have hg : ∀ (F : K → K) (G : Nat → Nat → K), ∀ x < (k.colOf (k.specOf inv) X).prod, ∀ y < (k.colOf (k.specOf inv) Y).prod, ∀ e,
      (if X = Y then
        if x < y then none
        else some ((k.addrRange X (k.specOf inv)).getD x 0, (k.addrRange Y (k.specOf inv)).getD y 0, if x = y then F (G x y) else G x y)
      else some ((k.addrRange X (k.specOf inv)).getD x 0, (k.addrRange Y (k.specOf inv)).getD y 0, G x y)) = some e →
      e.1 = k.adr X (k.dig (k.specOf inv) X x) ∧ e.2.1 = k.adr Y (k.dig (k.specOf inv) Y y) := by
    intro F G x hx y hy e he
    rw [← hxa x hx, ← hya y hy]
    by_cases h : X = Y
    · rw [if_pos h] at he
      by_cases h' : x < y
      · rw [if_pos h'] at he; simp at he
      · rw [if_neg h'] at he
        obtain rfl := Option.some.inj he
        exact ⟨rfl, rfl⟩
    · rw [if_neg h] at he
      obtain rfl := Option.some.inj he
      exact ⟨rfl, rfl⟩
  refine ⟨?_, ?_⟩
  · rw [hl]
    exact nodup_grid _ _ _ _ _ (hg (fun z => z * (1 / 2)) _) (hinj X hX) (hinj Y hY)
  · intro e he
    rw [hl, List.mem_flatMap] at he
    obtain ⟨x, hx, he⟩ := he
    rw [List.mem_filterMap] at he
    obtain ⟨y, hy, he⟩ := he
    rw [List.mem_range] at hx hy
    exact ⟨x, y, hx, hy, hg (fun z => z * (1 / 2)) _ x hx y hy e he⟩

/-- The model states at the positions of the flattened axes. -/
theorem flatState_eq (hC : k.Cols) (r : Nat) (hr : r < k.cols.length) (J : List Nat) (hJ : J.Nodup) (hm : ∀ f ∈ J, f < k.nlas.length) (t : Nat)
    (ht : t < (k.colOf J r).prod) : k.flatState r J.reverse t = k.adr r (k.dig J r t) := by
  induction J using List.reverseRecOn generalizing t with
  | nil =>
    unfold flatState adr
    rw [offs0_eq hC r hr]
    simp [dig]
  | append_singleton J f ih =>
    obtain ⟨hJ1, hJ2⟩ := List.nodup_append.mp hJ
    have hf : f ∉ J := fun h => hJ2.2 f h f (by simp) rfl
    rw [List.reverse_append]
    change k.flatState r (f :: J.reverse) t = _
    unfold flatState
    dsimp only
    have hp : (J.reverse.map (fun g => (k.cols.getD r []).getD g 0)).prod = (k.colOf J r).prod := by
      rw [List.map_reverse, List.prod_reverse]
      rfl
    rw [hp]
    rw [colOf_snoc, List.prod_append, List.prod_singleton] at ht
    have hpos : 0 < (k.colOf J r).prod := Nat.pos_of_ne_zero (fun h => by rw [h] at ht; omega)
    rw [ih hJ1 (fun g hg => hm g (by simp [hg])) _ (Nat.mod_lt _ hpos)]
    unfold adr
    rw [Nat.add_assoc]
    congr 1
    have hs : k.stride r f * (t / (k.colOf J r).prod) = ∑ g ∈ Finset.range k.nlas.length, if g = f then (t / (k.colOf J r).prod) * k.stride r g else 0 := by
      rw [Finset.sum_ite_eq' (Finset.range k.nlas.length) f, if_pos (Finset.mem_range.mpr (hm f (by simp))), Nat.mul_comm]
    rw [hs, ← Finset.sum_add_distrib]
    refine Finset.sum_congr rfl fun g _ => ?_
    by_cases hg : g = f
    · subst hg
      rw [if_pos rfl, dig_out J r _ g hf, dig_snoc_self J g r t hf ht]
      ring
    · rw [if_neg hg, Nat.add_zero]
      congr 1
      by_cases hgJ : g ∈ J
      · rw [dig_snoc_mem J f r t g hgJ ht]
      · rw [dig_out J _ _ _ hgJ, dig_out _ _ _ _ (by simp [hgJ, hg])]

end Kern
end Verif.Lstdm
