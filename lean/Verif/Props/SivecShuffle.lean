import Verif.Model.SivecShuffle
import Verif.Props.Signs
import Verif.Props.Addr
import Mathlib.Algebra.Ring.Int.Defs
import Mathlib.Algebra.BigOperators.Group.Finset.Basic
import Mathlib.Data.List.GetD
import Mathlib.Tactic.Ring
import Mathlib.Data.ZMod.Basic
import Mathlib.Algebra.BigOperators.Ring.Finset
import Mathlib.Algebra.BigOperators.Intervals
/-!
# C40: sign conventions of SI vectors
-/
namespace Verif.Props
open Verif.SivecShuffle Verif.Signs Verif.Addr Verif.Spec

theorem scaleRoot_getElem? {K : Type} [Mul K] (ra : List Nat) (iroot : Nat) (s : K) (si : List K)
    (hl : ra.length = si.length) (k : Nat) :
    (scaleRoot ra iroot s si)[k]? = (si[k]?).map fun x => if ra.getD k 0 = iroot then x * s else x := by
  unfold scaleRoot
  rw [List.getElem?_zipWith]
  by_cases h : k < si.length
  · rw [List.getElem?_eq_getElem h, List.getElem?_eq_getElem (show k < ra.length by omega),
      List.getD_eq_getElem _ _ (show k < ra.length by omega)]
    rfl
  · rw [List.getElem?_eq_none (show si.length ≤ k by omega), List.getElem?_eq_none (show ra.length ≤ k by omega)]
    rfl

theorem scaleRoot_length {K : Type} [Mul K] (ra : List Nat) (iroot : Nat) (s : K) (si : List K)
    (hl : ra.length = si.length) : (scaleRoot ra iroot s si).length = si.length := by
  unfold scaleRoot; rw [List.length_zipWith, hl, Nat.min_self]

theorem spinLoop_spec {K : Type} [Ring K] (ra : List Nat) (l : List (List (Nat × Nat))) (i0 : Nat) (si : List K)
    (hl : ra.length = si.length) :
    ∃ si1, spinLoop ra l i0 si = some si1 ∧ si1.length = si.length ∧ ∀ k : Nat,
      si1[k]? = (si[k]?).map fun x =>
        if i0 ≤ ra.getD k 0 ∧ ra.getD k 0 < i0 + l.length then
          x * ((sgnOf (spinShufflePerms ((l.getD (ra.getD k 0 - i0) []).map Prod.fst)
            ((l.getD (ra.getD k 0 - i0) []).map Prod.snd)) : Int) : K)
        else x := by
  induction l generalizing i0 si with
  | nil =>
    refine ⟨si, rfl, rfl, ?_⟩
    intro k
    cases si[k]? with
    | none => rfl
    | some x =>
      simp only [Option.map_some, List.length_nil, Nat.add_zero]
      rw [if_neg (by omega)]
  | cons n l ih =>
    rw [spinLoop, fermionSpinShuffle, if_pos (by simp)]
    obtain ⟨si1, h1, h2, h3⟩ := ih (i0 + 1) (scaleRoot ra i0
      ((sgnOf (spinShufflePerms (n.map Prod.fst) (n.map Prod.snd)) : Int) : K) si)
      (by rw [scaleRoot_length _ _ _ _ hl]; exact hl)
    refine ⟨si1, h1, by rw [h2, scaleRoot_length _ _ _ _ hl], ?_⟩
    intro k
    rw [h3, scaleRoot_getElem? _ _ _ _ hl]
    cases si[k]? with
    | none => rfl
    | some x =>
      simp only [Option.map_some, List.length_cons]
      congr 1
      by_cases e : ra.getD k 0 = i0
      · rw [if_neg (by omega), if_pos e, if_pos (by omega), e]; simp
      · rw [if_neg e]
        by_cases h : i0 + 1 ≤ ra.getD k 0 ∧ ra.getD k 0 < i0 + 1 + l.length
        · rw [if_pos h, if_pos (by omega)]
          obtain ⟨m, hm⟩ : ∃ m, ra.getD k 0 = i0 + 1 + m := ⟨ra.getD k 0 - (i0 + 1), by omega⟩
          rw [hm, show i0 + 1 + m - i0 = m + 1 by omega, show i0 + 1 + m - (i0 + 1) = m by omega]
          simp
        · rw [if_neg h, if_neg (by omega)]

theorem vacLoop_spec {K : Type} [Ring K] (ra : List Nat) (nf : Nat) (vac : List Nat) (l : List (List Nat)) (i0 : Nat)
    (si : List K) (hl : ra.length = si.length) :
    (vacLoop ra nf vac l i0 si).length = si.length ∧ ∀ k : Nat,
      (vacLoop ra nf vac l i0 si)[k]? = (si[k]?).map fun x =>
        if i0 ≤ ra.getD k 0 ∧ ra.getD k 0 < i0 + l.length then
          x * ((sgnOf (vacPerms nf vac (l.getD (ra.getD k 0 - i0) [])) : Int) : K)
        else x := by
  induction l generalizing i0 si with
  | nil =>
    refine ⟨rfl, ?_⟩
    intro k
    cases h : si[k]? with
    | none => rw [vacLoop, h]; rfl
    | some x =>
      rw [vacLoop, h]
      simp only [Option.map_some, List.length_nil, Nat.add_zero]
      rw [if_neg (by omega)]
  | cons n l ih =>
    rw [vacLoop]
    obtain ⟨h2, h3⟩ := ih (i0 + 1) (scaleRoot ra i0 ((sgnOf (vacPerms nf vac n) : Int) : K) si)
      (by rw [scaleRoot_length _ _ _ _ hl]; exact hl)
    refine ⟨by rw [h2, scaleRoot_length _ _ _ _ hl], ?_⟩
    intro k
    rw [h3, scaleRoot_getElem? _ _ _ _ hl]
    cases si[k]? with
    | none => rfl
    | some x =>
      simp only [Option.map_some, List.length_cons]
      congr 1
      by_cases e : ra.getD k 0 = i0
      · rw [if_neg (by omega), if_pos e, if_pos (by omega), e]; simp
      · rw [if_neg e]
        by_cases h : i0 + 1 ≤ ra.getD k 0 ∧ ra.getD k 0 < i0 + 1 + l.length
        · rw [if_pos h, if_pos (by omega)]
          obtain ⟨m, hm⟩ : ∃ m, ra.getD k 0 = i0 + 1 + m := ⟨ra.getD k 0 - (i0 + 1), by omega⟩
          rw [hm, show i0 + 1 + m - i0 = m + 1 by omega, show i0 + 1 + m - (i0 + 1) = m by omega]
          simp
        · rw [if_neg h, if_neg (by omega)]

/-- C40. `sivec_fermion_spin_shuffle` multiplies the coefficient of every product state by the sign of reordering the
creation operators of its rootspace between fragment-major and spin-major order. `rootaddr` is the rootspace of each
product state, as returned by `get_rootaddr_fragaddr` (C11). -/
theorem C40_spin {K : Type} [Ring K] {nfrags : Nat} {lroots : List (List Nat)} {nelec : List (List (Nat × Nat))}
    (hc : ∀ c ∈ lroots, c.length = nfrags) (hn : nelec.length = lroots.length) (si0 : List K)
    (hs : si0.length = (lroots.map List.prod).sum) :
    ∃ rootaddr fragaddr si1, getRootaddrFragaddr nfrags lroots = some (rootaddr, fragaddr) ∧
      sivecSpinShuffle si0 nelec nfrags lroots = some si1 ∧ si1.length = si0.length ∧
      ∀ k < si0.length, ∃ sgn : Int,
        IsReorderSign
          (interleavedWord ((nelec.getD (rootaddr.getD k 0) []).map Prod.fst)
            ((nelec.getD (rootaddr.getD k 0) []).map Prod.snd))
          (spinSeparatedWord ((nelec.getD (rootaddr.getD k 0) []).map Prod.fst)
            ((nelec.getD (rootaddr.getD k 0) []).map Prod.snd)) sgn ∧
        si1[k]? = (si0[k]?).map (· * (sgn : K)) := by
  obtain ⟨ra, fa, h1, h2, _, _, h5, _⟩ := C11_bijection nfrags lroots hc
  obtain ⟨si1, e1, e2, e3⟩ := spinLoop_spec ra nelec 0 si0 (by rw [h2, hs])
  refine ⟨ra, fa, si1, h1, by rw [sivecSpinShuffle, h1]; exact e1, e2, ?_⟩
  intro k hk
  obtain ⟨sgn, f1, f2⟩ := C01_spin_shuffle_sign ((nelec.getD (ra.getD k 0) []).map Prod.fst)
    ((nelec.getD (ra.getD k 0) []).map Prod.snd) (by simp)
  refine ⟨sgn, f2, ?_⟩
  rw [fermionSpinShuffle, if_pos (by simp), Option.some.injEq] at f1
  rw [e3 k, ← f1]
  cases si0[k]? with
  | none => rfl
  | some x =>
    simp only [Option.map_some]
    rw [if_pos ⟨Nat.zero_le _, by rw [hn, Nat.zero_add]; exact (h5 k (by omega)).1⟩, Nat.sub_zero]

/-! The vacuum shuffle -/

theorem list_sum_getD (l : List Nat) : l.sum = ∑ g ∈ Finset.range l.length, l.getD g 0 := by
  induction l with
  | nil => rfl
  | cons x l ih => rw [List.sum_cons, List.length_cons, Finset.sum_range_succ', ih]; simp [Nat.add_comm]

theorem drop_sum_getD (l : List Nat) (k : Nat) (hk : k ≤ l.length) :
    (l.drop k).sum = ∑ g ∈ Finset.Ico k l.length, l.getD g 0 := by
  rw [list_sum_getD, Finset.sum_Ico_eq_sum_range, List.length_drop]
  apply Finset.sum_congr rfl
  intro g _
  simp [List.getD_eq_getElem?_getD]

theorem permsF_sum (a b : Nat → Nat) (n : Nat) :
    (permsF a b n : ZMod 2) = ∑ f ∈ Finset.range n, ∑ g ∈ Finset.Ico (f + 1) n, (a f : ZMod 2) * (b g : ZMod 2) := by
  induction n with
  | zero => simp [permsF]
  | succ n ih =>
    rw [permsF, Nat.cast_add, ih, Finset.sum_range_succ]
    have h1 : ∑ f ∈ Finset.range n, ∑ g ∈ Finset.Ico (f + 1) (n + 1), (a f : ZMod 2) * (b g : ZMod 2) =
        ∑ f ∈ Finset.range n, (∑ g ∈ Finset.Ico (f + 1) n, (a f : ZMod 2) * (b g : ZMod 2) + a f * b n) := by
      apply Finset.sum_congr rfl
      intro f hf
      rw [Finset.mem_range] at hf
      rw [Finset.sum_Ico_succ_top (by omega)]
    rw [h1, Finset.sum_add_distrib, ← Finset.sum_mul]
    have h2 : ∀ m, (((List.range m).map a).sum : ZMod 2) = ∑ f ∈ Finset.range m, (a f : ZMod 2) := by
      intro m
      induction m with
      | zero => simp
      | succ m ih => rw [List.range_succ, List.map_append, List.sum_append, Finset.sum_range_succ, ← ih]; simp
    rw [Nat.cast_mul, h2]
    simp [mul_comm]

theorem foldl_skip (S : Nat → Nat) (m : Nat) (hS : S m = 0) (L : List Nat) (c : Nat) :
    L.foldl (fun n f => if f = m then n else n + S f) c = c + (L.map S).sum := by
  induction L generalizing c with
  | nil => simp
  | cons f L ih =>
    rw [List.foldl_cons, ih, List.map_cons, List.sum_cons]
    by_cases h : f = m
    · rw [if_pos h, h, hS]; omega
    · rw [if_neg h]; omega

theorem filter_range_sum (m : Nat) (p : Nat → Bool) (S : Nat → Nat) :
    (((List.range m).filter p).map S).sum = ∑ f ∈ Finset.range m, if p f then S f else 0 := by
  induction m with
  | zero => rfl
  | succ m ih =>
    rw [List.range_succ, List.filter_append, List.map_append, List.sum_append, ih, Finset.sum_range_succ]
    congr 1
    by_cases h : p m <;> simp [h]

theorem vacPerms_parity (nf : Nat) (vac n e : List Nat) (hv : vac.length = nf) (hn : n.length = nf) (he : e.length = nf)
    (hp : ∀ f < nf, (e.getD f 0 : Int) % 2 = ((n.getD f 0 : Int) - (vac.getD f 0 : Int)) % 2) :
    vacPerms nf vac n % 2 = spinShufflePerms e vac % 2 := by
  apply (ZMod.natCast_eq_natCast_iff' _ _ 2).mp
  rw [spinShufflePerms_eq e vac (by omega), he, permsF_sum]
  unfold vacPerms
  simp only
  rw [foldl_skip (fun f => ((vac.map (· % 2)).drop (f + 1)).sum) (nf - 1)
    (by rw [List.drop_eq_nil_of_le (by rw [List.length_map]; omega)]; rfl), Nat.zero_add,
    ← List.sum_reverse, ← List.map_reverse, List.reverse_reverse, filter_range_sum]
  rw [List.length_zipWith, hn, hv, Nat.min_self, Nat.cast_sum]
  apply Finset.sum_congr rfl
  intro f hf
  rw [Finset.mem_range] at hf
  have hz : (List.zipWith (fun n v : Nat => ((n : Int) - (v : Int)) % 2) n vac).getD f 0 =
      ((n.getD f 0 : Int) - (vac.getD f 0 : Int)) % 2 := by
    rw [List.getD_eq_getElem _ _ (by rw [List.length_zipWith]; omega), List.getElem_zipWith,
      List.getD_eq_getElem _ _ (by omega), List.getD_eq_getElem _ _ (by omega)]
  rw [hz, ← hp f hf]
  rw [drop_sum_getD _ _ (by rw [List.length_map]; omega), List.length_map, hv, ← Finset.mul_sum]
  have hd : (((∑ g ∈ Finset.Ico (f + 1) nf, (vac.map (· % 2)).getD g 0 : Nat)) : ZMod 2) =
      ∑ g ∈ Finset.Ico (f + 1) nf, ((vac.getD g 0 : Nat) : ZMod 2) := by
    rw [Nat.cast_sum]
    apply Finset.sum_congr rfl
    intro g hg
    rw [Finset.mem_Ico] at hg
    rw [List.getD_eq_getElem _ _ (by rw [List.length_map]; omega), List.getElem_map,
      List.getD_eq_getElem _ _ (by omega)]
    exact ZMod.natCast_mod _ 2
  rcases Nat.mod_two_eq_zero_or_one (e.getD f 0) with h0 | h0
  · have hz0 : ((e.getD f 0 : Nat) : Int) % 2 = 0 := by omega
    rw [hz0, if_neg (by simp)]
    have : ((e.getD f 0 : Nat) : ZMod 2) = 0 := by rw [ZMod.natCast_eq_zero_iff]; omega
    rw [this]; simp
  · have hz0 : ((e.getD f 0 : Nat) : Int) % 2 = 1 := by omega
    rw [hz0, if_pos (by simp), hd]
    have : ((e.getD f 0 : Nat) : ZMod 2) = ((1 : Nat) : ZMod 2) := (ZMod.natCast_eq_natCast_iff' _ _ 2).mpr (by omega)
    rw [this]; simp

theorem sgnOf_congr {a b : Nat} (h : a % 2 = b % 2) : sgnOf a = sgnOf b := by
  unfold sgnOf; rw [h]

/-- C40. `sivec_vacuum_shuffle` multiplies the coefficient of every product state by the sign of the spin shuffle (C40)
times the sign of moving the operators `e_f` that distinguish fragment `f` from the new vacuum (any numbers of them with
the parities of the electron-number differences) to the left of the vacuum's operators: from
`... e1 v1 e0 v0 |vac>` to `... e1 e0 ... v1 v0 |vac>`. -/
theorem C40_vacuum {K : Type} [Ring K] {nfrags : Nat} {lroots : List (List Nat)} {nelec : List (List (Nat × Nat))}
    (hc : ∀ c ∈ lroots, c.length = nfrags) (hn : nelec.length = lroots.length) (hnf : ∀ row ∈ nelec, row.length = nfrags)
    (si0 : List K) (hs : si0.length = (lroots.map List.prod).sum)
    (nelecVac : Option (List Nat)) (state : Option Nat) (vac : List Nat) (hvl : vac.length = nfrags)
    (hv : nelecVac = some vac ∨ nelecVac = none ∧ ∃ r, state = some r ∧
      (nelec[r]?).map (fun row => row.map fun p => p.1 + p.2) = some vac) :
    ∃ rootaddr fragaddr si1 si2, getRootaddrFragaddr nfrags lroots = some (rootaddr, fragaddr) ∧
      sivecSpinShuffle si0 nelec nfrags lroots = some si1 ∧
      sivecVacuumShuffle si0 nelec nfrags lroots nelecVac state = some si2 ∧ si2.length = si0.length ∧
      ∀ k < si0.length, ∃ sgn : Int, si2[k]? = (si1[k]?).map (· * (sgn : K)) ∧
        ∀ e : List Nat, e.length = nfrags → (∀ f < nfrags, (e.getD f 0 : Int) % 2 =
            ((((nelec.getD (rootaddr.getD k 0) []).getD f (0, 0)).1 : Int) +
              ((nelec.getD (rootaddr.getD k 0) []).getD f (0, 0)).2 - (vac.getD f 0 : Int)) % 2) →
          IsReorderSign (interleavedWord e vac) (spinSeparatedWord e vac) sgn := by
  obtain ⟨ra, fa, h1, h2, _, _, h5, _⟩ := C11_bijection nfrags lroots hc
  obtain ⟨si1, e1, e2, e3⟩ := spinLoop_spec ra nelec 0 si0 (by rw [h2, hs])
  have hsp : sivecSpinShuffle si0 nelec nfrags lroots = some si1 := by rw [sivecSpinShuffle, h1]; exact e1
  obtain ⟨l2, g2⟩ := vacLoop_spec ra nfrags vac (nelec.map (fun row => row.map (fun p => p.1 + p.2))) 0 si1
    (by rw [h2, e2, hs])
  refine ⟨ra, fa, si1, _, h1, hsp, ?_, by rw [l2, e2], ?_⟩
  · rcases hv with rfl | ⟨rfl, r, rfl, hr⟩
    · cases state <;> simp [sivecVacuumShuffle, hsp, h1]
    · simp only [sivecVacuumShuffle, hsp, h1, Option.getD_some]
      rw [List.getElem?_map, hr]
  · intro k hk
    refine ⟨sgnOf (vacPerms nfrags vac ((nelec.map (fun row => row.map (fun p => p.1 + p.2))).getD (ra.getD k 0) [])),
      ?_, ?_⟩
    · rw [g2 k]
      cases si1[k]? with
      | none => rfl
      | some x =>
        simp only [Option.map_some]
        rw [if_pos ⟨Nat.zero_le _, by rw [List.length_map, hn, Nat.zero_add]; exact (h5 k (by omega)).1⟩, Nat.sub_zero]
    · intro e he hp
      have hr : ra.getD k 0 < nelec.length := by rw [hn]; exact (h5 k (by omega)).1
      have hrow : (nelec.getD (ra.getD k 0) []).length = nfrags := by
        rw [List.getD_eq_getElem _ _ hr]; exact hnf _ (List.getElem_mem _)
      have hrow' : ((nelec.map (fun row => row.map (fun p => p.1 + p.2))).getD (ra.getD k 0) []) =
          (nelec.getD (ra.getD k 0) []).map fun p => p.1 + p.2 := by
        rw [List.getD_eq_getElem _ _ (by rw [List.length_map]; exact hr), List.getElem_map,
          List.getD_eq_getElem _ _ hr]
      have hpar := vacPerms_parity nfrags vac ((nelec.map (fun row => row.map (fun p => p.1 + p.2))).getD
        (ra.getD k 0) []) e hvl (by rw [hrow', List.length_map, hrow]) he (by
          intro f hf
          rw [hp f hf, hrow', List.getD_eq_getElem (List.map _ _) _ (by rw [List.length_map, hrow]; exact hf),
            List.getElem_map, List.getD_eq_getElem (nelec.getD (ra.getD k 0) []) _ (by rw [hrow]; exact hf)]
          push_cast
          rfl)
      rw [sgnOf_congr hpar]
      obtain ⟨sgn, f1, f2⟩ := C01_spin_shuffle_sign e vac (by omega)
      rw [fermionSpinShuffle, if_pos (by omega), Option.some.injEq] at f1
      rw [f1]
      exact f2

theorem sgnOf_sq (a : Nat) : sgnOf a * sgnOf a = 1 := by
  unfold sgnOf; split <;> rfl

theorem sign_sq {α : Type} {w w' : List α} {s : Int} (h : IsReorderSign w w' s) : s * s = 1 := by
  obtain ⟨⟨n, hn⟩, h2⟩ := h
  rw [h2 n hn, ← pow_add, ← two_mul, pow_mul]; simp

/-- C40. Applying the spin shuffle twice gives back the SI vector. -/
theorem C40_spin_involution {K : Type} [Ring K] {nfrags : Nat} {lroots : List (List Nat)}
    {nelec : List (List (Nat × Nat))} (hc : ∀ c ∈ lroots, c.length = nfrags) (hn : nelec.length = lroots.length)
    (si0 : List K) (hs : si0.length = (lroots.map List.prod).sum) :
    (sivecSpinShuffle si0 nelec nfrags lroots).bind (fun si1 => sivecSpinShuffle si1 nelec nfrags lroots) = some si0 := by
  obtain ⟨ra, fa, si1, h1, h2, h3, h4⟩ := C40_spin hc hn si0 hs
  obtain ⟨ra', fa', si2, h1', h2', h3', h4'⟩ := C40_spin hc hn si1 (by rw [h3, hs])
  rw [h1] at h1'
  injection h1' with h1'
  injection h1' with hra hfa
  subst hra
  rw [h2, Option.bind_some, h2']
  congr 1
  apply List.ext_getElem?
  intro k
  by_cases hk : k < si0.length
  · obtain ⟨s, g1, g2⟩ := h4 k hk
    obtain ⟨s', g1', g2'⟩ := h4' k (by omega)
    have : s = s' := by
      obtain ⟨n, hn⟩ := g1.1
      rw [g1.2 n hn, g1'.2 n hn]
    subst this
    rw [g2', g2]
    cases si0[k]? with
    | none => rfl
    | some x =>
      simp only [Option.map_some]
      rw [mul_assoc, ← Int.cast_mul, sign_sq g1, Int.cast_one, mul_one]
  · rw [List.getElem?_eq_none (by omega), List.getElem?_eq_none (by omega)]

theorem vacLoop_twice {K : Type} [Ring K] (ra : List Nat) (nf : Nat) (vac : List Nat) (l : List (List Nat)) (si : List K)
    (hl : ra.length = si.length) : vacLoop ra nf vac l 0 (vacLoop ra nf vac l 0 si) = si := by
  obtain ⟨l1, g1⟩ := vacLoop_spec ra nf vac l 0 si hl
  obtain ⟨l2, g2⟩ := vacLoop_spec ra nf vac l 0 (vacLoop ra nf vac l 0 si) (by rw [l1, hl])
  apply List.ext_getElem?
  intro k
  rw [g2, g1]
  cases si[k]? with
  | none => rfl
  | some x =>
    simp only [Option.map_some]
    congr 1
    split
    · rw [mul_assoc, ← Int.cast_mul, sgnOf_sq, Int.cast_one, mul_one]
    · rfl

/-- C40. Applying the vacuum shuffle twice gives back the SI vector. -/
theorem C40_vacuum_involution {K : Type} [Ring K] {nfrags : Nat} {lroots : List (List Nat)}
    {nelec : List (List (Nat × Nat))} (hc : ∀ c ∈ lroots, c.length = nfrags) (hn : nelec.length = lroots.length)
    (si0 : List K) (hs : si0.length = (lroots.map List.prod).sum) (vac : List Nat) :
    (sivecVacuumShuffle si0 nelec nfrags lroots (some vac) none).bind
      (fun si1 => sivecVacuumShuffle si1 nelec nfrags lroots (some vac) none) = some si0 := by
  obtain ⟨ra, fa, h1, h2, _⟩ := C11_bijection nfrags lroots hc
  -- both loops only multiply by signs that depend on the rootspace
  obtain ⟨si1, e1, e2, e3⟩ := spinLoop_spec ra nelec 0 si0 (by rw [h2, hs])
  obtain ⟨l2, g2⟩ := vacLoop_spec ra nfrags vac (nelec.map (fun row => row.map (fun p => p.1 + p.2))) 0 si1
    (by rw [h2, e2, hs])
  obtain ⟨si3, e1', e2', e3'⟩ := spinLoop_spec ra nelec 0
    (vacLoop ra nfrags vac (nelec.map (fun row => row.map (fun p => p.1 + p.2))) 0 si1) (by rw [l2, e2, h2, hs])
  obtain ⟨l4, g4⟩ := vacLoop_spec ra nfrags vac (nelec.map (fun row => row.map (fun p => p.1 + p.2))) 0 si3
    (by rw [e2', l2, e2, h2, hs])
  have step : sivecVacuumShuffle si0 nelec nfrags lroots (some vac) none =
      some (vacLoop ra nfrags vac (nelec.map (fun row => row.map (fun p => p.1 + p.2))) 0 si1) := by
    simp [sivecVacuumShuffle, sivecSpinShuffle, h1, e1]
  rw [step, Option.bind_some]
  simp only [sivecVacuumShuffle, sivecSpinShuffle, h1, e1']
  congr 1
  apply List.ext_getElem?
  intro k
  rw [g4, e3', g2, e3]
  cases si0[k]? with
  | none => rfl
  | some x =>
    simp only [Option.map_some]
    congr 1
    have hm : ∀ s : Int, s * s = 1 → ∀ y : K, y * (s : K) * (s : K) = y := by
      intro s hs y
      rw [mul_assoc, ← Int.cast_mul, hs, Int.cast_one, mul_one]
    have hcomm : ∀ s t : Int, ∀ y : K, y * (s : K) * (t : K) = y * (t : K) * (s : K) := by
      intro s t y
      rw [mul_assoc, mul_assoc, ← Int.cast_mul, ← Int.cast_mul, Int.mul_comm]
    rw [List.length_map]
    split
    · rw [hcomm, hcomm _ _ (x * _), hm _ (sgnOf_sq _), hm _ (sgnOf_sq _)]
    · rfl

example : sivecSpinShuffle (K := Int) [5, 6, 7] [[(1, 0), (0, 1)], [(0, 1), (1, 0)]] 2 [[1, 2], [1, 1]] =
    some [-5, -6, 7] ∧
    sivecVacuumShuffle (K := Int) [5, 6, 7] [[(1, 0), (0, 1)], [(1, 1), (0, 0)]] 2 [[1, 2], [1, 1]] none (some 0) =
    some [-5, -6, -7] := by decide

end Verif.Props
