import Verif.Lemmas.KernAddr
import Mathlib.Algebra.BigOperators.Field
import Mathlib.Algebra.BigOperators.Ring.List
import Mathlib.Tactic.Ring
/-!
# The contribution of one row of a table in `LSTDM.kernel`
-/
namespace Verif.Lstdm
open Verif.Spec Verif.Addr Verif.Radix Verif.Signs

/-- An element of the one- or two-body matrix. -/
abbrev Ix := (Nat × Nat × Nat) ⊕ (Nat × Nat × Nat × Nat × Nat)

/-- The element of a pair of matrices. -/
def co {K : Type} (d : D1 K × D2 K) : Ix → K
  | .inl (s, p, q) => d.1 s p q
  | .inr (s, p, q, r, u) => d.2 s p q r u

namespace Kern
variable {K : Type}

theorem digits_snoc (c : List Nat) (n x : Nat) (hx : x < c.prod * n) : digits (c ++ [n]) x = digits c (x % c.prod) ++ [x / c.prod] := by
  have hpos : 0 < c.prod := by
    rcases Nat.eq_zero_or_pos c.prod with h | h
    · rw [h] at hx; omega
    · exact h
  have hm : x % c.prod < c.prod := Nat.mod_lt _ hpos
  have hd : x / c.prod < n := Nat.div_lt_of_lt_mul hx
  have hin : InShape (digits c (x % c.prod) ++ [x / c.prod]) (c ++ [n]) :=
    inShape_append (digits_inShape _ _ hm) (List.Forall₂.cons hd List.Forall₂.nil)
  have hp : posF (c ++ [n]) (digits c (x % c.prod) ++ [x / c.prod]) = x := by
    rw [posF_append _ _ _ _ (digits_length _ _), posF_digits _ _ hm]
    simp only [posF]
    rw [Nat.mul_zero, Nat.add_zero]
    exact Nat.mod_add_div x c.prod
  conv_lhs => rw [← hp]
  exact digits_posF hin

variable {k : Kern K}

theorem colOf_snoc (S : List Nat) (f r : Nat) : k.colOf (S ++ [f]) r = k.colOf S r ++ [k.lr r f] := by simp [colOf]

theorem dig_snoc_mem (S : List Nat) (f r x g : Nat) (hg : g ∈ S) (hx : x < (k.colOf S r).prod * k.lr r f) :
    k.dig (S ++ [f]) r x g = k.dig S r (x % (k.colOf S r).prod) g := by
  unfold dig
  rw [if_pos (by simp [hg]), if_pos hg, colOf_snoc, digits_snoc _ _ _ hx, List.idxOf_append_of_mem hg]
  rw [List.getD_append _ _ _ _ (by rw [digits_length]; simpa [colOf] using List.idxOf_lt_length_iff.mpr hg)]

theorem dig_snoc_self (S : List Nat) (f r x : Nat) (hf : f ∉ S) (hx : x < (k.colOf S r).prod * k.lr r f) :
    k.dig (S ++ [f]) r x f = x / (k.colOf S r).prod := by
  unfold dig
  rw [if_pos (by simp), colOf_snoc, digits_snoc _ _ _ hx, List.idxOf_append_of_notMem hf]
  rw [List.getD_append_right _ _ _ _ (by rw [digits_length]; simp [colOf]), digits_length]
  simp [colOf]

variable [Field K]

/-- Overlap of fragment `f` between the local roots `a` and `b` of two rootspaces. -/
def ovf (k : Kern K) (X Y f a b : Nat) : K := (k.tabs f).get1Ovlp (Nat.pair (k.uroot f X) a) (Nat.pair (k.uroot f Y) b)

theorem kron_eq (X Y : Nat) (fac : K) (S : List Nat) (hS : S.Nodup) :
    (S.foldl (fun o f => kron1 (k.ovlpMat f X Y) o) (1, 1, fun _ _ => fac)).1 = (k.colOf S X).prod ∧
    (S.foldl (fun o f => kron1 (k.ovlpMat f X Y) o) (1, 1, fun _ _ => fac)).2.1 = (k.colOf S Y).prod ∧
    ∀ x y, x < (k.colOf S X).prod → y < (k.colOf S Y).prod →
      (S.foldl (fun o f => kron1 (k.ovlpMat f X Y) o) (1, 1, fun _ _ => fac)).2.2 x y =
        fac * (S.map (fun f => k.ovf X Y f (k.dig S X x f) (k.dig S Y y f))).prod := by
  induction S using List.reverseRecOn with
  | nil => simp [colOf]
  | append_singleton S f ih =>
    obtain ⟨hS1, hS2⟩ := List.nodup_append.mp hS
    have hf : f ∉ S := fun h => hS2.2 f h f (by simp) rfl
    obtain ⟨i1, i2, i3⟩ := ih hS1
    rw [List.foldl_append, List.foldl_cons, List.foldl_nil]
    rw [show ∀ a b : Nat × Nat × (Nat → Nat → K), kron1 a b = (a.1 * b.1, a.2.1 * b.2.1, fun x y =>
      a.2.2 (x / b.1) (y / b.2.1) * b.2.2 (x % b.1) (y % b.2.1)) from fun a b => rfl]
    dsimp only
    rw [i1, i2, colOf_snoc, colOf_snoc, List.prod_append, List.prod_append]
    simp only [List.prod_cons, List.prod_nil, Nat.mul_one]
    change (k.lr X f * _ = _ ∧ k.lr Y f * _ = _ ∧ ∀ x y, _ → _ → k.ovf X Y f _ _ * _ = _)
    refine ⟨Nat.mul_comm _ _, Nat.mul_comm _ _, fun x y hx hy => ?_⟩
    have px : 0 < (k.colOf S X).prod := Nat.pos_of_ne_zero (fun h => by rw [h] at hx; omega)
    have py : 0 < (k.colOf S Y).prod := Nat.pos_of_ne_zero (fun h => by rw [h] at hy; omega)
    rw [i3 _ _ (Nat.mod_lt _ px) (Nat.mod_lt _ py), List.map_append, List.prod_append]
    simp only [List.map_cons, List.map_nil, List.prod_cons, List.prod_nil, mul_one]
    rw [dig_snoc_self S f X x hf hx, dig_snoc_self S f Y y hf hy]
    have : S.map (fun g => k.ovf X Y g (k.dig (S ++ [f]) X x g) (k.dig (S ++ [f]) Y y g)) =
        S.map (fun g => k.ovf X Y g (k.dig S X (x % (k.colOf S X).prod) g) (k.dig S Y (y % (k.colOf S Y).prod) g)) := by
      apply List.map_congr_left
      intro g hg
      rw [dig_snoc_mem S f X x g hg hx, dig_snoc_mem S f Y y g hg hy]
    rw [this]
    ring

/-- Factor for the lower triangle of a diagonal block. -/
def tri (X Y x y : Nat) : K := if X = Y then (if x < y then 0 else if x = y then 1 / 2 else 1) else 1

/-- The fragments that are not in the list. -/
def specOf (k : Kern K) (inv : List Nat) : List Nat := (List.range k.nlas.length).filter (fun f => decide (f ∉ PySet.listSet inv))

theorem sum_flat {R α β : Type} [AddCommMonoid R] (n m : List α) (g : α → α → Option β) (F : β → R) :
    ((n.flatMap (fun x => m.filterMap (fun y => g x y))).map F).sum =
      (n.map (fun x => (m.map (fun y => ((g x y).map F).getD 0)).sum)).sum := by
  induction n with
  | nil => rfl
  | cons a n ih =>
    rw [List.flatMap_cons, List.map_append, List.sum_append, ih, List.map_cons, List.sum_cons]
    congr 1
    clear ih
    induction m with
    | nil => rfl
    | cons b m ih =>
      rw [List.filterMap_cons, List.map_cons, List.sum_cons, ← ih]
      cases g a b <;> simp

theorem nodup_specOf (inv : List Nat) : (k.specOf inv).Nodup := List.nodup_range.filter _
theorem specOf_lt (inv : List Nat) : ∀ f ∈ k.specOf inv, f < k.nlas.length := by
  intro f hf; unfold specOf at hf; simp at hf; exact hf.1

variable (h8 : k.nlas.length ≤ 8)
include h8

theorem listSet_specOf (inv : List Nat) : PySet.listSet (k.specOf inv) = k.specOf inv := by
  have hlt := specOf_lt (k := k) inv
  rw [listSet_small _ k.nlas.length (fun v hv => by have := hlt v hv; omega) hlt]
  unfold specOf
  apply List.filter_congr
  intro f hf
  have : f < k.nlas.length := by simpa using hf
  simp [this]

theorem listSet_mem (inv : List Nat) (hinv : ∀ f ∈ inv, f < k.nlas.length) :
    (PySet.listSet inv).Nodup ∧ ∀ f, f ∈ PySet.listSet inv ↔ f ∈ inv := by
  rw [listSet_small _ k.nlas.length (fun v hv => by have := hinv v hv; omega) hinv]
  refine ⟨List.nodup_range.filter _, fun f => ?_⟩
  simp only [List.mem_filter, List.mem_range, decide_eq_true_eq]
  exact ⟨fun h => h.2, fun h => ⟨hinv f h, h⟩⟩

/-- The states and factors of the spectators: sums over them. -/
theorem spec_sum (hC : k.Cols) (X Y : Nat) (hX : X < k.cols.length) (hY : Y < k.cols.length) (inv : List Nat) (sb sk : Int)
    (hb : fermionSpinShuffle ((k.nelec.getD X []).map Prod.fst) ((k.nelec.getD X []).map Prod.snd) = some sb)
    (hk : fermionSpinShuffle ((k.nelec.getD Y []).map Prod.fst) ((k.nelec.getD Y []).map Prod.snd) = some sk) :
    ∃ l, k.specAddrOvlp X Y inv = some l ∧ ∀ F : Nat × Nat × K → K, (∀ a b, F (a, b, 0) = 0) →
      (l.map F).sum = ∑ x ∈ Finset.range (k.colOf (k.specOf inv) X).prod, ∑ y ∈ Finset.range (k.colOf (k.specOf inv) Y).prod,
        F (k.adr X (k.dig (k.specOf inv) X x), k.adr Y (k.dig (k.specOf inv) Y y),
          tri X Y x y * (((sb * sk * fermionFragShuffle ((k.nelec.getD X []).map (fun p => p.1 + p.2)) (PySet.listSet inv) *
            fermionFragShuffle ((k.nelec.getD Y []).map (fun p => p.1 + p.2)) (PySet.listSet inv) : Int) : K) *
            ((k.specOf inv).map (fun f => k.ovf X Y f (k.dig (k.specOf inv) X x f) (k.dig (k.specOf inv) Y y f))).prod)) := by
  refine ⟨_, by
    unfold specAddrOvlp
    dsimp only
    rw [hb, hk]
    simp only [Option.bind_eq_bind, Option.bind_some, Option.pure_def]
    rfl, fun F hF => ?_⟩
  rw [sum_flat]
  obtain ⟨k1, k2, k3⟩ := kron_eq (k := k) X Y (((sb * sk * fermionFragShuffle ((k.nelec.getD X []).map (fun p => p.1 + p.2)) (PySet.listSet inv) *
    fermionFragShuffle ((k.nelec.getD Y []).map (fun p => p.1 + p.2)) (PySet.listSet inv) : Int) : K)) (k.specOf inv) (nodup_specOf inv)
  have hX' := addrRange_eq hC X hX (k.specOf inv) (by rw [listSet_specOf h8]; exact nodup_specOf inv)
    (by rw [listSet_specOf h8]; exact specOf_lt inv)
  have hY' := addrRange_eq hC Y hY (k.specOf inv) (by rw [listSet_specOf h8]; exact nodup_specOf inv)
    (by rw [listSet_specOf h8]; exact specOf_lt inv)
  rw [listSet_specOf h8] at hX' hY'
  have hsum : ∀ (n : Nat) (g : Nat → K), ((List.range n).map g).sum = ∑ x ∈ Finset.range n, g x := by
    intro n g
    rw [← List.sum_toFinset _ List.nodup_range, List.toFinset_range]
  change (List.map _ (List.range ((k.specOf inv).foldl (fun o f => kron1 (k.ovlpMat f X Y) o) (1, 1, fun _ _ => _)).1)).sum = _
  rw [k1, hsum]
  apply Finset.sum_congr rfl
  intro x hx
  have hx : x < (k.colOf (k.specOf inv) X).prod := by simpa using hx
  change (List.map _ (List.range ((k.specOf inv).foldl (fun o f => kron1 (k.ovlpMat f X Y) o) (1, 1, fun _ _ => _)).2.1)).sum = _
  rw [k2, hsum]
  apply Finset.sum_congr rfl
  intro y hy
  have hy : y < (k.colOf (k.specOf inv) Y).prod := by simpa using hy
  rw [← k3 x y hx hy]
  have hxa : (k.addrRange X (k.specOf inv)).getD x 0 = k.adr X (k.dig (k.specOf inv) X x) := by
    rw [hX', List.getD_eq_getElem _ _ (by simpa using hx)]; simp
  have hya : (k.addrRange Y (k.specOf inv)).getD y 0 = k.adr Y (k.dig (k.specOf inv) Y y) := by
    rw [hY', List.getD_eq_getElem _ _ (by simpa using hy)]; simp
  rw [← hxa, ← hya]
  unfold tri
  by_cases hXY : X = Y
  · simp only [hXY, if_true]
    rcases Nat.lt_trichotomy x y with h | h | h
    · simp [h, hF]
    · subst h
      simp only [Nat.lt_irrefl, if_false, if_true, Option.map_some, Option.getD_some]
      rw [mul_comm (1 / 2 : K)]
      rfl
    · rw [if_neg (by omega), if_neg (by omega), if_neg (by omega), if_neg (by omega), one_mul]
      rfl
  · simp only [if_neg hXY, one_mul]
    rfl

end Kern
end Verif.Lstdm
