import Verif.Lemmas.SiteDmMain
import Verif.Spec.States
import Mathlib.Algebra.BigOperators.Field
import Mathlib.Algebra.Star.Basic
import Mathlib.Analysis.Real.Sqrt
import Mathlib.Tactic.FieldSimp
import Mathlib.Tactic.IntervalCases
/-!
# C113: density matrices of the sites of a LASSI state are exact partial traces
-/
namespace Verif.Props
open Verif.Spec Verif.Np Verif.Radix Verif.SiteDm Verif.Addr Verif.Umat

/-- The norm of a real vector. -/
noncomputable def realNorm (v : List ℝ) : ℝ := Real.sqrt (v.map fun x => x * x).sum

theorem realNorm_isNorm : IsNorm (RingHom.id ℝ) realNorm := by
  have hnn : ∀ v : List ℝ, 0 ≤ (v.map fun x => x * x).sum := fun v =>
    List.sum_nonneg (by intro y hy; obtain ⟨x, _, rfl⟩ := List.mem_map.1 hy; exact mul_self_nonneg x)
  refine ⟨fun v => Real.mul_self_sqrt (hnn v), fun v => rfl, fun v h x hx => ?_⟩
  have h0 : (v.map fun x => x * x).sum = 0 := (Real.sqrt_eq_zero (hnn v)).1 h
  have := List.all_zero_of_le_zero_le_of_sum_eq_zero (l := v.map fun x => x * x)
    (by intro y hy; obtain ⟨x, _, rfl⟩ := List.mem_map.1 hy; exact mul_self_nonneg x) h0 (List.mem_map.2 ⟨x, hx, rfl⟩)
  exact mul_self_eq_zero.1 this

variable {K : Type}

/-- Sum over the rows of a block as a sum over configurations. -/
theorem sum_posF [AddCommMonoid K] (l : List Nat) (G : Nat → K) :
    ∑ k ∈ Finset.range l.prod, G k = ∑ x ∈ (configs l).toFinset, G (posF l x) := by
  refine Finset.sum_bij' (fun k _ => digits l k) (fun x _ => posF l x) ?_ ?_ ?_ ?_ ?_
  · intro k hk
    rw [List.mem_toFinset, mem_configs]
    exact digits_inShape l k (Finset.mem_range.1 hk)
  · intro x hx
    rw [List.mem_toFinset, mem_configs] at hx
    exact Finset.mem_range.2 (posF_lt hx)
  · intro k hk; exact posF_digits l k (Finset.mem_range.1 hk)
  · intro x hx
    rw [List.mem_toFinset, mem_configs] at hx
    exact digits_posF hx
  · intro k hk; rw [posF_digits l k (Finset.mem_range.1 hk)]

section
variable [Field K] [DecidableEq K]

theorem decompose_row (nrm : List K → K) (si : Nd K) (cols : List (List Nat)) (nr r : Nat)
    (hs : si.shape = [rootStart cols cols.length, nr]) (hr : r < cols.length) :
    (decompose nrm si cols)[r]? =
      some (let v := fun c => (List.range (cols.getD r []).prod).map fun a => si.get [rootStart cols r + a, c]
        (fun c => nrm (v c) ^ 2, ⟨[(cols.getD r []).prod, nr], fun t =>
          if nrm (v (t.getD 1 0)) ≠ 0 then si.get ((rootStart cols r + t.getD 0 0) :: t.drop 1) / nrm (v (t.getD 1 0))
          else si.get ((rootStart cols r + t.getD 0 0) :: t.drop 1)⟩)) := by
  have h1 : (0 :: npCumsum (cols.map List.prod)).getD r 0 = rootStart cols r := by
    cases r with
    | zero => simp [rootStart]
    | succ r =>
      rw [List.getD_cons_succ, npCumsum_getD _ _ (by simp; omega), rootStart, List.map_take]
  have h2 : (0 :: npCumsum (cols.map List.prod)).getD (r + 1) 0 = rootStart cols (r + 1) := by
    rw [List.getD_cons_succ, npCumsum_getD _ _ (by simpa using hr), rootStart, List.map_take]
  have h3 : rootStart cols (r + 1) = rootStart cols r + (cols.getD r []).prod := off_succ cols r hr
  have h4 : rootStart cols (r + 1) ≤ rootStart cols cols.length := off_mono cols (by omega) le_rfl
  have h5 : min (rootStart cols (r + 1)) (rootStart cols cols.length) - rootStart cols r = (cols.getD r []).prod := by omega
  simp only [decompose, atLeast2d, hs, List.length_cons, List.length_nil]
  rw [if_neg (by omega), List.getElem?_map, List.getElem?_range hr]
  simp only [Option.map_some, h1, h2, Nd.slice0, hs, List.getD_cons_zero, List.drop_succ_cons, List.drop_zero, h5]

/-- C113, weights. The code splits a LASSI vector into rootspaces: the weight of a rootspace is the sum of the squared moduli
of its coefficients, the coefficients are a common factor times the normalized ones, and the squared norm of the vector is
the sum of the weights. -/
theorem C113_decompose (conj : K →+* K) (nrm : List K → K) (hN : IsNorm conj nrm) (si : Nd K) (cols : List (List Nat))
    (nr c : Nat) (hs : si.shape = [rootStart cols cols.length, nr]) (hc : c < nr) :
    (decompose nrm si cols).length = cols.length ∧
    (∀ r w s, (decompose nrm si cols)[r]? = some (w, s) →
      w c = ∑ x ∈ (configs (cols.getD r [])).toFinset, conj (si.get [stateIndex cols r x, c]) * si.get [stateIndex cols r x, c] ∧
      s.shape = [(cols.getD r []).prod, nr] ∧
      (∃ b, b * b = w c ∧ ∀ x, InShape x (cols.getD r []) →
        si.get [stateIndex cols r x, c] = b * s.get [posF (cols.getD r []) x, c]) ∧
      (w c ≠ 0 → ∑ x ∈ (configs (cols.getD r [])).toFinset,
        conj (s.get [posF (cols.getD r []) x, c]) * s.get [posF (cols.getD r []) x, c] = 1)) ∧
    ((decompose nrm si cols).map fun ws => ws.1 c).sum =
      ∑ k ∈ Finset.range (rootStart cols cols.length), conj (si.get [k, c]) * si.get [k, c] := by
  have hlen : (decompose nrm si cols).length = cols.length := by simp [decompose]
  have hw : ∀ r, r < cols.length → ∀ c, nrm ((List.range (cols.getD r []).prod).map fun a => si.get [rootStart cols r + a, c]) ^ 2 =
      ∑ a ∈ Finset.range (cols.getD r []).prod, conj (si.get [rootStart cols r + a, c]) * si.get [rootStart cols r + a, c] := by
    intro r _ c
    rw [pow_two, hN.sq, List.map_map]
    rfl
  refine ⟨hlen, fun r w s h => ?_, ?_⟩
  · have hr : r < cols.length := by
      by_contra hcon
      rw [List.getElem?_eq_none (by rw [hlen]; omega)] at h
      exact absurd h (by simp)
    rw [decompose_row nrm si cols nr r hs hr] at h
    simp only [Option.some.injEq, Prod.mk.injEq] at h
    obtain ⟨rfl, rfl⟩ := h
    set v := (List.range (cols.getD r []).prod).map fun a => si.get [rootStart cols r + a, c] with hv
    have e1 := hw r hr c
    rw [← hv] at e1
    rw [sum_posF (cols.getD r []) fun a => conj (si.get [rootStart cols r + a, c]) * si.get [rootStart cols r + a, c]] at e1
    refine ⟨e1, rfl, ⟨nrm v, (pow_two _).symm, fun x hx => ?_⟩, fun h0 => ?_⟩
    · simp only [List.getD_cons_zero, List.getD_cons_succ, List.drop_succ_cons, List.drop_zero]
      rw [← hv]
      by_cases hz : nrm v = 0
      · rw [hz, zero_mul]
        exact hN.zero v hz _ (List.mem_map.2 ⟨posF (cols.getD r []) x, List.mem_range.2 (posF_lt hx), rfl⟩)
      · rw [if_pos hz, mul_div_cancel₀ _ hz]
        rfl
    · have hz : nrm v ≠ 0 := fun h => h0 (by simp only; rw [← hv, h]; simp)
      simp only [List.getD_cons_zero, List.getD_cons_succ, List.drop_succ_cons, List.drop_zero]
      rw [← hv]
      simp only [if_pos hz, map_div₀, hN.real]
      have : ∀ x, conj (si.get [rootStart cols r + posF (cols.getD r []) x, c]) / nrm v *
          (si.get [rootStart cols r + posF (cols.getD r []) x, c] / nrm v) =
          (conj (si.get [rootStart cols r + posF (cols.getD r []) x, c]) *
            si.get [rootStart cols r + posF (cols.getD r []) x, c]) / nrm v ^ 2 := by
        intro x; field_simp
      simp only [this, ← Finset.sum_div, ← e1]
      exact div_self (pow_ne_zero 2 hz)
  · have key : ∀ m, m ≤ cols.length → (((decompose nrm si cols).take m).map fun ws => ws.1 c).sum =
        ∑ k ∈ Finset.range (rootStart cols m), conj (si.get [k, c]) * si.get [k, c] := by
      intro m hm
      induction m with
      | zero => simp [rootStart]
      | succ m ih =>
        rw [List.take_add_one, decompose_row nrm si cols nr m hs (by omega), List.map_append, List.sum_append, ih (by omega)]
        have h3 : rootStart cols (m + 1) = rootStart cols m + (cols.getD m []).prod := off_succ cols m (by omega)
        rw [h3, Finset.sum_range_add, ← hw m (by omega) c]
        simp
    have := key cols.length le_rfl
    rwa [← hlen, List.take_length, hlen] at this

/-- C113, one site. `make_sdm1` of a LASSI vector, for every rootspace, fragment and root, is the partial trace over all
other fragments of the part of the vector in that rootspace. -/
theorem C113_sdm1 (conj : K →+* K) (nrm : List K → K) (hN : IsNorm conj nrm) (si : Nd K) (cols : List (List Nat)) (nr r f : Nat)
    (hs : si.shape = [rootStart cols cols.length, nr]) (hr : r < cols.length) (hf : f < (cols.getD r []).length)
    (hpos : 0 < (cols.getD r []).prod) (hnr : 0 < nr) :
    ∃ d, SiteDm.makeSdm1 conj nrm si cols r f = some d ∧
      d.shape = [nr, (cols.getD r []).getD f 0, (cols.getD r []).getD f 0] ∧
      ∀ i p q, i < nr → p < (cols.getD r []).getD f 0 → q < (cols.getD r []).getD f 0 →
        d.get [i, p, q] = siteDm conj (cols.getD r []) f (fun x => si.get [stateIndex cols r x, i]) p q := by
  obtain ⟨w, s, h⟩ : ∃ w s, (decompose nrm si cols)[r]? = some (w, s) := ⟨_, _, decompose_row nrm si cols nr r hs hr⟩
  have hsh : s.shape = [(cols.getD r []).prod, nr] := ((C113_decompose conj nrm hN si cols nr 0 hs hnr).2.1 r w s h).2.1
  obtain ⟨d, h1, h2, h3⟩ := sdm1Core conj s (cols.getD r []) nr f hsh hf hpos hnr
  refine ⟨⟨d.shape, fun t => d.get t * w (t.getD 0 0)⟩, ?_, h2, fun i p q hi hp hq => ?_⟩
  · simp only [SiteDm.makeSdm1, h, Option.bind_eq_bind, Option.bind_some, h1]
  · have hD := C113_decompose conj nrm hN si cols nr i hs hi
    obtain ⟨hw, -, -, -⟩ := hD.2.1 r w s h
    simp only [List.getD_cons_zero]
    rw [h3 i p q hi hp hq, siteDm, siteDm, Finset.sum_mul]
    -- the explicit factor
    rw [decompose_row nrm si cols nr r hs hr] at h
    simp only [Option.some.injEq, Prod.mk.injEq] at h
    obtain ⟨rfl, rfl⟩ := h
    set v := (List.range (cols.getD r []).prod).map fun a => si.get [rootStart cols r + a, i] with hv
    have hval : ∀ x, InShape x (cols.getD r []) → si.get [stateIndex cols r x, i] = nrm v *
        (if nrm v ≠ 0 then si.get [rootStart cols r + posF (cols.getD r []) x, i] / nrm v
          else si.get [rootStart cols r + posF (cols.getD r []) x, i]) := by
      intro x hx
      by_cases hz : nrm v = 0
      · rw [hz, zero_mul]
        exact hN.zero v hz _ (List.mem_map.2 ⟨posF (cols.getD r []) x, List.mem_range.2 (posF_lt hx), rfl⟩)
      · rw [if_pos hz, mul_div_cancel₀ _ hz]
        rfl
    refine Finset.sum_congr rfl fun x hx => ?_
    have hx' : InShape x (cols.getD r []) := by
      have := (Finset.mem_filter.1 hx).1
      rwa [List.mem_toFinset, mem_configs] at this
    have hy' : InShape (x.set f q) (cols.getD r []) := by
      rw [inShape_iff]
      refine ⟨by simpa using inShape_length hx', fun g hg => ?_⟩
      by_cases h : g = f
      · subst h; rw [getD_set_self _ _ _ (by rw [inShape_length hx']; exact hg)]; exact hq
      · rw [getD_set_other _ _ _ _ h]; exact inShape_getD hx' g hg
    rw [hval x hx', hval _ hy', map_mul, hN.real]
    simp only [List.getD_cons_zero, List.getD_cons_succ, List.drop_succ_cons, List.drop_zero]
    rw [← hv]
    ring

end

/-- C113, the function `_make_sdm1` by itself. -/
theorem C113_core [CommRing K] (conj : K → K) (s : Nd K) (l : List Nat) (nr f : Nat) (hs : s.shape = [l.prod, nr])
    (hf : f < l.length) (hpos : 0 < l.prod) (hnr : 0 < nr) :
    ∃ d, makeSdm1Core conj s l f = some d ∧ d.shape = [nr, l.getD f 0, l.getD f 0] ∧
      (∀ i p q, i < nr → p < l.getD f 0 → q < l.getD f 0 →
        d.get [i, p, q] = siteDm conj l f (fun x => s.get [posF l x, i]) p q) ∧
      ∀ i, i < nr → ∑ p ∈ Finset.range (l.getD f 0), d.get [i, p, p] =
        ∑ k ∈ Finset.range l.prod, conj (s.get [k, i]) * s.get [k, i] := by
  obtain ⟨d, h1, h2, h3⟩ := sdm1Core conj s l nr f hs hf hpos hnr
  refine ⟨d, h1, h2, h3, fun i hi => ?_⟩
  rw [sum_posF l fun k => conj (s.get [k, i]) * s.get [k, i]]
  have hmaps : ∀ x ∈ (configs l).toFinset, x.getD f 0 ∈ Finset.range (l.getD f 0) := by
    intro x hx
    rw [List.mem_toFinset, mem_configs] at hx
    exact Finset.mem_range.2 (inShape_getD hx f hf)
  rw [← Finset.sum_fiberwise_of_maps_to hmaps]
  refine Finset.sum_congr rfl fun p hp => ?_
  have hp' := Finset.mem_range.1 hp
  rw [h3 i p p hi hp' hp', siteDm]
  refine Finset.sum_congr rfl fun x hx => ?_
  obtain ⟨hx1, hx2⟩ := Finset.mem_filter.1 hx
  rw [List.mem_toFinset, mem_configs] at hx1
  have : x.set f p = x := by
    rw [← hx2]
    exact set_getD_self x f (by rw [inShape_length hx1]; exact hf)
  rw [this]

/-- C113, two sites: every entry of `_make_sdm2` is the partial trace over all other sites. The pair of states of the first
site comes first. -/
theorem C113_sdm2_partial [CommRing K] (conj : K → K) (s : Nd K) (l : List Nat) (nr a b : Nat) (hs : s.shape = [l.prod, nr])
    (ha : a < l.length) (hb : b < l.length) (hab : a ≠ b) (hpos : 0 < l.prod) (hnr : 0 < nr) :
    ∃ d, makeSdm2Core conj s l a b = some d ∧
      d.shape = [nr, l.getD a 0, l.getD a 0, l.getD b 0, l.getD b 0] ∧
      ∀ i p r q t, i < nr → p < l.getD a 0 → r < l.getD a 0 → q < l.getD b 0 → t < l.getD b 0 →
        d.get [i, p, r, q, t] = siteDm2 conj l a b (fun x => s.get [posF l x, i]) p r q t :=
  sdm2Core conj s l nr a b hs ha hb hab hpos hnr

/-- C113, two sites, VIOLATED part: the documentation promises the shape (nroots, site1, site2, site1, site2); whenever the
two sites have different numbers of states the result does not have it. -/
theorem C113_sdm2_axes_violated [CommRing K] (conj : K → K) (s : Nd K) (l : List Nat) (nr a b : Nat)
    (hs : s.shape = [l.prod, nr]) (ha : a < l.length) (hb : b < l.length) (hpos : 0 < l.prod) (hnr : 0 < nr)
    (hne : l.getD a 0 ≠ l.getD b 0) :
    ∃ d, makeSdm2Core conj s l a b = some d ∧ d.shape ≠ [nr, l.getD a 0, l.getD b 0, l.getD a 0, l.getD b 0] := by
  obtain ⟨d, h1, h2, -⟩ := sdm2Core conj s l nr a b hs ha hb (fun h => hne (by rw [h])) hpos hnr
  refine ⟨d, h1, fun h => ?_⟩
  rw [h2] at h
  injection h with _ h
  injection h with _ h
  injection h with h _
  exact hne h

/-- C113, two rootspaces: `_trans_sdm1` is the matrix element of `|p⟩⟨q|` on the site between the two wave functions, the
local states of the other sites having the given overlaps. -/
theorem C113_trans_sdm1_partial [CommRing K] (conj : K → K) (bra ket : Nd K) (lbra lket : List Nat) (ovlp : List (Nd K))
    (nr site : Nat) (hb : bra.shape = [lbra.prod, nr]) (hk : ket.shape = [lket.prod, nr])
    (hlb : lbra.length = lket.length) (hbp : ∀ f, f < lket.length → 0 < lbra.getD f 0)
    (hkp : ∀ f, f < lket.length → 0 < lket.getD f 0) (hs : site < lket.length) (hnr : 0 < nr)
    (hol : ovlp.length = lket.length)
    (hsh : ∀ f, f < ovlp.length → (ovlp.getD f ⟨[], fun _ => 0⟩).shape = [lbra.getD f 0, lket.getD f 0]) :
    ∃ d l', transSdm1 conj bra lbra ket lket ovlp site = some (d, l') ∧
      d.shape = [nr, lbra.getD site 0, lket.getD site 0] ∧
      ∀ i p q, i < nr → p < lbra.getD site 0 → q < lket.getD site 0 →
        d.get [i, p, q] = transSiteDm conj lbra lket (fun f n m => (ovlp.getD f ⟨[], fun _ => 0⟩).get [n, m]) site
          (fun x => bra.get [posF lbra x, i]) (fun y => ket.get [posF lket y, i]) p q := by
  obtain ⟨d, h1, h2, h3⟩ := transCore conj bra ket lbra lket ovlp nr site
    (fun f n m => (ovlp.getD f ⟨[], fun _ => 0⟩).get [n, m]) hb hk hlb hbp hkp hs hnr hol fun f hf => ⟨hsh f hf, fun _ _ => rfl⟩
  exact ⟨d, _, h1, h2, h3⟩

/-- C113, two rootspaces, VIOLATED part: the array of the numbers of local states of the ket, an argument, is overwritten
with those of the bra. Whenever another site has different numbers of states, the array is different after the call. -/
theorem C113_lroots_overwritten_violated [CommRing K] (conj : K → K) (bra ket : Nd K) (lbra lket : List Nat)
    (ovlp : List (Nd K)) (nr site g : Nat) (hb : bra.shape = [lbra.prod, nr]) (hk : ket.shape = [lket.prod, nr])
    (hlb : lbra.length = lket.length) (hbp : ∀ f, f < lket.length → 0 < lbra.getD f 0)
    (hkp : ∀ f, f < lket.length → 0 < lket.getD f 0) (hs : site < lket.length) (hnr : 0 < nr)
    (hol : ovlp.length = lket.length)
    (hsh : ∀ f, f < ovlp.length → (ovlp.getD f ⟨[], fun _ => 0⟩).shape = [lbra.getD f 0, lket.getD f 0])
    (hg : g ≠ site) (hne : lbra.getD g 0 ≠ lket.getD g 0) :
    ∃ d l', transSdm1 conj bra lbra ket lket ovlp site = some (d, l') ∧ l' ≠ lket := by
  obtain ⟨d, h1, -, -⟩ := transCore conj bra ket lbra lket ovlp nr site
    (fun f n m => (ovlp.getD f ⟨[], fun _ => 0⟩).get [n, m]) hb hk hlb hbp hkp hs hnr hol fun f hf => ⟨hsh f hf, fun _ _ => rfl⟩
  refine ⟨d, _, h1, fun h => hne ?_⟩
  rw [← h, getD_set_other _ _ _ _ hg]

/-- A bra with one state on the first of two sites. -/
def demoBra : Nd Int := ⟨[2, 1], fun t => 1 + t.getD 0 0⟩
/-- A ket with two states on each of two sites. -/
def demoKet : Nd Int := ⟨[4, 1], fun t => 5 + t.getD 0 0⟩
/-- Overlaps of the local states. -/
def demoOvlp : List (Nd Int) := [⟨[1, 2], fun t => 1 + 2 * t.getD 1 0⟩, ⟨[2, 2], fun t => if t.getD 0 0 = t.getD 1 0 then 1 else 0⟩]

/-- C113, two rootspaces, VIOLATED part: the same call a second time, with the array the first call left behind, raises the
code's assertion error. -/
theorem C113_second_call_violated :
    ∃ d l', transSdm1 id demoBra [1, 2] demoKet [2, 2] demoOvlp 1 = some (d, l') ∧
      transSdm1 id demoBra [1, 2] demoKet l' demoOvlp 1 = none := by
  obtain ⟨d, h1, -, -⟩ := transCore id demoBra demoKet [1, 2] [2, 2] demoOvlp 1 1
    (fun f n m => (demoOvlp.getD f ⟨[], fun _ => 0⟩).get [n, m]) rfl rfl rfl
    (fun f hf => by simp at hf; interval_cases f <;> simp) (fun f hf => by simp at hf; interval_cases f <;> simp)
    (by simp) (by simp) rfl (fun f hf => ⟨by simp [demoOvlp] at hf; interval_cases f <;> rfl, fun _ _ => rfl⟩)
  exact ⟨d, _, h1, rfl⟩

-- concrete cases: a real vector over two rootspaces of two fragments, and the two-rootspace case above
example : ∃ d, SiteDm.makeSdm1 (RingHom.id ℝ) realNorm ⟨[rootStart [[2, 2], [1, 3]] 2, 2], fun t => t.getD 0 0 + 1⟩
    [[2, 2], [1, 3]] 1 1 = some d ∧ d.shape = [2, 3, 3] := by
  obtain ⟨d, h1, h2, -⟩ := C113_sdm1 (RingHom.id ℝ) realNorm realNorm_isNorm
    ⟨[rootStart [[2, 2], [1, 3]] 2, 2], fun t => t.getD 0 0 + 1⟩ [[2, 2], [1, 3]] 2 1 1 rfl (by simp) (by simp) (by simp) (by simp)
  exact ⟨d, h1, h2⟩

example : ∃ d, makeSdm1Core id (⟨[6, 1], fun t => t.getD 0 0⟩ : Nd Int) [2, 3] 1 = some d ∧ d.get [0, 1, 2] = 2 * 4 + 3 * 5 := by
  obtain ⟨d, h1, -, h3, -⟩ := C113_core id (⟨[6, 1], fun t => t.getD 0 0⟩ : Nd Int) [2, 3] 1 1 rfl (by simp) (by simp) (by simp)
  refine ⟨d, h1, ?_⟩
  rw [h3 0 1 2 (by simp) (by simp) (by simp)]
  decide

example : ∃ d l', transSdm1 id demoBra [1, 2] demoKet [2, 2] demoOvlp 1 = some (d, l') ∧
    d.get [0, 0, 1] = 1 * (7 + 3 * 8) := by
  obtain ⟨d, l', h1, -, h3⟩ := C113_trans_sdm1_partial id demoBra demoKet [1, 2] [2, 2] demoOvlp 1 1 rfl rfl rfl
    (fun f hf => by simp at hf; interval_cases f <;> simp) (fun f hf => by simp at hf; interval_cases f <;> simp)
    (by simp) (by simp) rfl (fun f hf => by simp [demoOvlp] at hf; interval_cases f <;> rfl)
  refine ⟨d, l', h1, ?_⟩
  rw [h3 0 0 1 (by simp) (by simp) (by simp)]
  decide

example : ∃ d, makeSdm2Core id (⟨[12, 1], fun t => t.getD 0 0⟩ : Nd Int) [2, 3, 2] 2 0 = some d ∧
    d.get [0, 1, 0, 0, 1] = 6 * 1 + 8 * 3 + 10 * 5 := by
  obtain ⟨d, h1, -, h3⟩ := C113_sdm2_partial id (⟨[12, 1], fun t => t.getD 0 0⟩ : Nd Int) [2, 3, 2] 1 2 0 rfl (by simp) (by simp)
    (by simp) (by simp) (by simp)
  refine ⟨d, h1, ?_⟩
  rw [h3 0 1 0 0 1 (by simp) (by simp) (by simp) (by simp) (by simp)]
  decide

end Verif.Props
