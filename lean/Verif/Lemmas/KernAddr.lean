import Verif.Model.LstdmKernel
import Verif.Lemmas.Addr
import Verif.Lemmas.Signs
import Mathlib.Algebra.BigOperators.Ring.Finset
import Mathlib.Algebra.BigOperators.Intervals
/-!
# Addresses of model states in `LSTDM.kernel`
-/
namespace Verif.Lstdm
open Verif.Spec Verif.Addr Verif.Radix

/-- Position as a sum over the dimensions. -/
theorem posF_sum (dims t : List Nat) (h : t.length = dims.length) :
    posF dims t = ∑ f ∈ Finset.range dims.length, t.getD f 0 * (dims.take f).prod := by
  induction dims generalizing t with
  | nil => cases t <;> simp [posF]
  | cons b bs ih =>
    cases t with
    | nil => simp at h
    | cons d ds =>
      rw [posF, ih ds (by simpa using h), List.length_cons, Finset.sum_range_succ', Finset.mul_sum, Nat.add_comm]
      congr 1
      · apply Finset.sum_congr rfl
        intro f _
        simp only [List.getD_cons_succ, List.take_succ_cons, List.prod_cons]
        ring
      · simp

namespace Kern
variable {K : Type} (k : Kern K)

/-- Number of local roots. -/
def lr (r f : Nat) : Nat := (k.cols.getD r []).getD f 0

/-- The numbers of local roots: one column per rootspace, one positive number per fragment. -/
structure Cols : Prop where
  len : ∀ r < k.cols.length, (k.cols.getD r []).length = k.nlas.length
  pos : ∀ r < k.cols.length, ∀ f < k.nlas.length, 0 < k.lr r f

/-- The number of model states. -/
def nstates : Nat := (k.cols.map List.prod).sum

/-- The address of the state of rootspace `r` with local roots `e`. -/
def adr (r : Nat) (e : Nat → Nat) : Nat := off k.cols r + ∑ f ∈ Finset.range k.nlas.length, e f * k.stride r f

variable {k} (hC : k.Cols)
include hC

theorem cols_len : ∀ c ∈ k.cols, c.length = k.nlas.length := by
  intro c hc
  obtain ⟨r, hr, rfl⟩ := List.getElem_of_mem hc
  have := hC.len r hr
  rwa [List.getD_eq_getElem _ _ hr] at this

theorem rootOf_off (r k' : Nat) (hr : r < k.cols.length) (hk : k' < (k.cols.getD r []).prod) : k.rootOf (off k.cols r + k') = r := by
  unfold rootOf
  rw [addr_closed _ _ (cols_len hC)]
  dsimp only [Option.getD_some]
  rw [flatMap_getD k.cols _ (by simp) _ (Nat.le_refl _) r k' hr hk, List.getD_replicate _ hk]

theorem envOf_off (f r k' : Nat) (hf : f < k.nlas.length) (hr : r < k.cols.length) (hk : k' < (k.cols.getD r []).prod) :
    k.envOf f (off k.cols r + k') = (digits (k.cols.getD r []) k').getD f 0 := by
  unfold envOf
  rw [addr_closed _ _ (cols_len hC)]
  dsimp only [Option.getD_some]
  have hrow : ((List.range k.nlas.length).map (fun i => (List.range k.cols.length).flatMap (fun r => addrsOf (k.cols.getD r []) i))).getD f []
      = (List.range k.cols.length).flatMap (fun r => addrsOf (k.cols.getD r []) f) := by
    rw [List.getD_eq_getElem _ _ (by simpa using hf)]
    simp
  rw [hrow, flatMap_getD k.cols _ (by
    intro r hr; exact addrsOf_length _ _ (by rw [hC.len r hr]; exact hf)) _ (Nat.le_refl _) r k' hr hk]
  exact addrsOf_getD _ _ _ (by rw [hC.len r hr]; exact hf) hk

/-- The local roots as a list. -/
theorem inShape_of (r : Nat) (hr : r < k.cols.length) (e : Nat → Nat) (he : ∀ f < k.nlas.length, e f < k.lr r f) :
    InShape ((List.range k.nlas.length).map e) (k.cols.getD r []) := by
  rw [inShape_iff]
  refine ⟨by rw [hC.len r hr]; simp, fun i hi => ?_⟩
  rw [hC.len r hr] at hi
  have := he i hi
  simpa [hi, lr] using this

theorem adr_eq (r : Nat) (hr : r < k.cols.length) (e : Nat → Nat) :
    k.adr r e = off k.cols r + posF (k.cols.getD r []) ((List.range k.nlas.length).map e) := by
  unfold adr
  rw [posF_sum _ _ (by rw [hC.len r hr]; simp), hC.len r hr]
  congr 1
  apply Finset.sum_congr rfl
  intro f hf
  have hf : f < k.nlas.length := by simpa using hf
  simp [hf, stride]

theorem rootOf_adr (r : Nat) (hr : r < k.cols.length) (e : Nat → Nat) (he : ∀ f < k.nlas.length, e f < k.lr r f) :
    k.rootOf (k.adr r e) = r := by
  rw [adr_eq hC r hr]
  exact rootOf_off hC r _ hr (posF_lt (inShape_of hC r hr e he))

theorem envOf_adr (r : Nat) (hr : r < k.cols.length) (e : Nat → Nat) (he : ∀ f < k.nlas.length, e f < k.lr r f) (f : Nat)
    (hf : f < k.nlas.length) : k.envOf f (k.adr r e) = e f := by
  rw [adr_eq hC r hr, envOf_off hC f r _ hf hr (posF_lt (inShape_of hC r hr e he)), digits_posF (inShape_of hC r hr e he)]
  simp [hf]

theorem adr_of (st : Nat) (hst : st < k.nstates) : k.rootOf st < k.cols.length ∧
    (∀ f < k.nlas.length, k.envOf f st < k.lr (k.rootOf st) f) ∧ st = k.adr (k.rootOf st) (fun f => k.envOf f st) := by
  unfold nstates at hst
  rw [← off_all] at hst
  obtain ⟨r, k', hr, hk, rfl⟩ := off_find k.cols st _ (Nat.le_refl _) hst
  have hroot := rootOf_off hC r k' hr hk
  have henv := fun f hf => envOf_off hC f r k' hf hr hk
  rw [hroot]
  have hin := (inShape_iff _ _).mp (digits_inShape _ _ hk)
  refine ⟨hr, fun f hf => ?_, ?_⟩
  · rw [henv f hf]
    exact hin.2 f (by rw [hC.len r hr]; exact hf)
  · rw [adr_eq hC r hr]
    congr 1
    conv_lhs => rw [← posF_digits _ _ hk]
    congr 1
    apply List.ext_getElem
    · rw [digits_length, hC.len r hr]; simp
    · intro f h1 h2
      have hf : f < k.nlas.length := by simpa using h2
      simp only [List.getElem_map, List.getElem_range]
      rw [henv f hf, List.getD_eq_getElem _ _ h1]

/-- Equal addresses. -/
theorem adr_inj (r r' : Nat) (hr : r < k.cols.length) (hr' : r' < k.cols.length) (e e' : Nat → Nat)
    (he : ∀ f < k.nlas.length, e f < k.lr r f) (he' : ∀ f < k.nlas.length, e' f < k.lr r' f) (h : k.adr r e = k.adr r' e') :
    r = r' ∧ ∀ f < k.nlas.length, e f = e' f := by
  refine ⟨?_, fun f hf => ?_⟩
  · rw [← rootOf_adr hC r hr e he, h, rootOf_adr hC r' hr' e' he']
  · rw [← envOf_adr hC r hr e he f hf, h, envOf_adr hC r' hr' e' he' f hf]

theorem adr_lt (r : Nat) (hr : r < k.cols.length) (e : Nat → Nat) (he : ∀ f < k.nlas.length, e f < k.lr r f) :
    k.adr r e < k.nstates := by
  rw [adr_eq hC r hr]
  have := posF_lt (inShape_of hC r hr e he)
  have h2 := off_succ k.cols r hr
  have h3 := off_mono k.cols (show r + 1 ≤ k.cols.length by omega) (Nat.le_refl _)
  unfold nstates
  rw [← off_all]
  omega

omit hC

/-- The numbers of local roots of a list of fragments. -/
def colOf (k : Kern K) (J : List Nat) (r : Nat) : List Nat := J.map (fun f => k.lr r f)

/-- Local root of fragment `f` in the `i`-th state of a list of fragments; other fragments are in the zero state. -/
def dig (k : Kern K) (J : List Nat) (r i f : Nat) : Nat := if f ∈ J then (digits (k.colOf J r) i).getD (J.idxOf f) 0 else 0

theorem dig_lt (J : List Nat) (r i f : Nat) (hi : i < (k.colOf J r).prod) (hf : f ∈ J) : k.dig J r i f < k.lr r f := by
  unfold dig
  rw [if_pos hf]
  have := ((inShape_iff _ _).mp (digits_inShape _ _ hi)).2 (J.idxOf f) (by simpa [colOf] using List.idxOf_lt_length_iff.mpr hf)
  refine lt_of_lt_of_eq this ?_
  unfold colOf
  rw [List.getD_eq_getElem _ _ (by simpa using List.idxOf_lt_length_iff.mpr hf)]
  simp

theorem dig_out (J : List Nat) (r i f : Nat) (hf : f ∉ J) : k.dig J r i f = 0 := by
  unfold dig; rw [if_neg hf]

/-- The states of a list of fragments are all combinations of local roots, each once. -/
theorem dig_ex (J : List Nat) (hJ : J.Nodup) (r : Nat) (e : Nat → Nat) (he : ∀ f ∈ J, e f < k.lr r f) :
    ∃ i, i < (k.colOf J r).prod ∧ ∀ f ∈ J, k.dig J r i f = e f := by
  have hin : InShape (J.map e) (k.colOf J r) := by
    rw [inShape_iff]
    refine ⟨by simp [colOf], fun i hi => ?_⟩
    have hi : i < J.length := by simpa [colOf] using hi
    have := he J[i] (List.getElem_mem _)
    simpa [colOf, hi] using this
  refine ⟨posF (k.colOf J r) (J.map e), posF_lt hin, fun f hf => ?_⟩
  unfold dig
  rw [if_pos hf, digits_posF hin, List.getD_eq_getElem _ _ (by simpa using List.idxOf_lt_length_iff.mpr hf)]
  simp

theorem dig_inj (J : List Nat) (hJ : J.Nodup) (r i i' : Nat) (hi : i < (k.colOf J r).prod) (hi' : i' < (k.colOf J r).prod)
    (h : ∀ f ∈ J, k.dig J r i f = k.dig J r i' f) : i = i' := by
  rw [← posF_digits _ _ hi, ← posF_digits _ _ hi']
  congr 1
  apply List.ext_getElem
  · rw [digits_length, digits_length]
  · intro j h1 h2
    have hj : j < J.length := by rw [digits_length] at h1; simpa [colOf] using h1
    have := h J[j] (List.getElem_mem _)
    unfold dig at this
    rw [if_pos (List.getElem_mem _), if_pos (List.getElem_mem _), hJ.idxOf_getElem, List.getD_eq_getElem _ _ h1,
      List.getD_eq_getElem _ _ h2] at this
    exact this

theorem sum_zipIdx (J : List Nat) (hJ : J.Nodup) (g : Nat → Nat → Nat) :
    (J.zipIdx.map (fun x => g x.1 x.2)).sum = (J.map (fun f => g f (J.idxOf f))).sum := by
  congr 1
  apply List.ext_getElem
  · simp
  · intro i h1 h2
    have hi : i < J.length := by simpa using h2
    simp [hJ.idxOf_getElem]

theorem list_sum_range (J : List Nat) (hJ : J.Nodup) (m : Nat) (hm : ∀ f ∈ J, f < m) (g : Nat → Nat) :
    (J.map g).sum = ∑ f ∈ Finset.range m, if f ∈ J then g f else 0 := by
  rw [← Finset.sum_filter]
  rw [← List.sum_toFinset _ hJ]
  apply Finset.sum_congr _ (fun _ _ => rfl)
  ext f
  simp only [List.mem_toFinset, Finset.mem_filter, Finset.mem_range]
  exact ⟨fun h => ⟨hm f h, h⟩, fun h => h.2⟩

include hC in
theorem offs0_eq (r : Nat) (hr : r < k.cols.length) : k.offs0 r = off k.cols r := by
  unfold offs0
  rw [npCumsum_getD _ _ (by simpa using hr), ← List.map_take]
  have : (List.map List.prod (List.take (r + 1) k.cols)).sum = off k.cols (r + 1) := rfl
  have h2 : (k.cols.map List.prod).getD r 0 = (k.cols.getD r []).prod := by simp [hr]
  rw [this, off_succ k.cols r hr, h2, Nat.add_sub_cancel]

include hC in
/-- The addresses returned for a list of fragments. -/
theorem addrRange_eq (r : Nat) (hr : r < k.cols.length) (inv : List Nat) (hN : (PySet.listSet inv).Nodup)
    (hm : ∀ f ∈ PySet.listSet inv, f < k.nlas.length) :
    k.addrRange r inv = (List.range (k.colOf (PySet.listSet inv) r).prod).map (fun i => k.adr r (k.dig (PySet.listSet inv) r i)) := by
  unfold addrRange
  dsimp only
  change List.map _ (List.range (k.colOf (PySet.listSet inv) r).prod) = _
  apply List.map_congr_left
  intro i hi
  have hi : i < (k.colOf (PySet.listSet inv) r).prod := by simpa using hi
  unfold adr
  rw [offs0_eq hC r hr]
  congr 1
  rw [sum_zipIdx _ hN (fun f j => k.stride r f * (addrsOf ((PySet.listSet inv).map (fun f => (k.cols.getD r []).getD f 0)) j).getD i 0),
    list_sum_range _ hN _ hm]
  apply Finset.sum_congr rfl
  intro f _
  by_cases hf : f ∈ PySet.listSet inv
  · rw [if_pos hf, Nat.mul_comm]
    congr 1
    unfold dig
    rw [if_pos hf]
    exact addrsOf_getD _ _ _ (by simpa using List.idxOf_lt_length_iff.mpr hf) hi
  · rw [if_neg hf, dig_out _ _ _ _ hf, Nat.zero_mul]

/-- The local roots of the combination of a state of `I` with a state of the other fragments. -/
def mix (k : Kern K) (I S : List Nat) (r X i x f : Nat) : Nat := if f ∈ I then k.dig I r i f else k.dig S X x f

include hC in
/-- The addresses computed for the images. -/
theorem adr_mix (I S : List Nat) (hIS : ∀ f < k.nlas.length, f ∈ S ↔ f ∉ I) (r X : Nat) (hr : r < k.cols.length)
    (i x : Nat) (hi : i < (k.colOf I r).prod) :
    k.adr X (k.dig S X x) + k.dotEnv (k.adr r (k.dig I r i)) X = k.adr X (k.mix I S r X i x) := by
  have he : ∀ f < k.nlas.length, k.dig I r i f < k.lr r f := by
    intro f hf
    by_cases h : f ∈ I
    · exact dig_lt I r i f hi h
    · rw [dig_out _ _ _ _ h]; exact hC.pos r hr f hf
  have hdot : k.dotEnv (k.adr r (k.dig I r i)) X = ∑ f ∈ Finset.range k.nlas.length, k.dig I r i f * k.stride X f := by
    unfold dotEnv
    rw [list_sum_range _ List.nodup_range k.nlas.length (by simp)]
    apply Finset.sum_congr rfl
    intro f hf
    have hf' : f < k.nlas.length := by simpa using hf
    rw [if_pos (by simpa using hf'), envOf_adr hC r hr _ he f hf']
  rw [hdot]
  unfold adr
  rw [Nat.add_assoc, ← Finset.sum_add_distrib]
  congr 1
  apply Finset.sum_congr rfl
  intro f hf
  have hf : f < k.nlas.length := by simpa using hf
  unfold mix
  by_cases h : f ∈ I
  · rw [if_pos h, dig_out S _ _ _ (fun h' => (hIS f hf).mp h' h), Nat.zero_mul, Nat.zero_add]
  · rw [if_neg h, dig_out I _ _ _ h, Nat.zero_mul, Nat.add_zero]

include hC in
/-- Every state of rootspace `X` is met exactly once, no other state is met. -/
theorem mix_iff (I S : List Nat) (hI : I.Nodup) (hS : S.Nodup) (hIm : ∀ f ∈ I, f < k.nlas.length)
    (hSm : ∀ f ∈ S, f < k.nlas.length) (hIS : ∀ f < k.nlas.length, f ∈ S ↔ f ∉ I) (r X : Nat) (hr : r < k.cols.length)
    (hX : X < k.cols.length) (hl : ∀ f ∈ I, k.lr r f = k.lr X f) (b : Nat) (hb : b < k.nstates) :
    (k.rootOf b = X → ∃ i x, i < (k.colOf I r).prod ∧ x < (k.colOf S X).prod ∧ b = k.adr X (k.mix I S r X i x) ∧
      (∀ f ∈ I, k.dig I r i f = k.envOf f b) ∧ (∀ f ∈ S, k.dig S X x f = k.envOf f b)) ∧
    (∀ i x, i < (k.colOf I r).prod → x < (k.colOf S X).prod → b = k.adr X (k.mix I S r X i x) → k.rootOf b = X ∧
      (∀ f ∈ I, k.dig I r i f = k.envOf f b) ∧ (∀ f ∈ S, k.dig S X x f = k.envOf f b)) := by
  have hsh : ∀ i x, i < (k.colOf I r).prod → x < (k.colOf S X).prod → ∀ f < k.nlas.length, k.mix I S r X i x f < k.lr X f := by
    intro i x hi hx f hf
    unfold mix
    by_cases h : f ∈ I
    · rw [if_pos h, ← hl f h]; exact dig_lt I r i f hi h
    · rw [if_neg h]; exact dig_lt S X x f hx ((hIS f hf).mpr h)
  constructor
  · rintro rfl
    obtain ⟨h1, h2, h3⟩ := adr_of hC b hb
    obtain ⟨i, hi, hi'⟩ := dig_ex (k := k) I hI r (fun f => k.envOf f b) (fun f hf => by rw [hl f hf]; exact h2 f (hIm f hf))
    obtain ⟨x, hx, hx'⟩ := dig_ex (k := k) S hS (k.rootOf b) (fun f => k.envOf f b) (fun f hf => h2 f (hSm f hf))
    refine ⟨i, x, hi, hx, ?_, hi', hx'⟩
    conv_lhs => rw [h3]
    unfold adr
    congr 1
    apply Finset.sum_congr rfl
    intro f hf
    have hf : f < k.nlas.length := by simpa using hf
    congr 1
    unfold mix
    by_cases h : f ∈ I
    · rw [if_pos h, hi' f h]
    · rw [if_neg h, hx' f ((hIS f hf).mpr h)]
  · rintro i x hi hx rfl
    have hr := rootOf_adr hC X hX _ (hsh i x hi hx)
    refine ⟨hr, fun f hf => ?_, fun f hf => ?_⟩
    · rw [envOf_adr hC X hX _ (hsh i x hi hx) f (hIm f hf)]
      unfold mix; rw [if_pos hf]
    · rw [envOf_adr hC X hX _ (hsh i x hi hx) f (hSm f hf)]
      unfold mix; rw [if_neg ((hIS f (hSm f hf)).mp hf)]

end Kern
end Verif.Lstdm
