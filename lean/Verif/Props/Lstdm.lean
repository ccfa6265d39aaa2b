import Verif.Lemmas.LstdmCover
import Mathlib.Tactic.IntervalCases
/-!
# Property C98: transition density matrices of a pair of product states by the factorized algorithm
-/
namespace Verif.Props
open Verif.Spec.Tdm Verif.Spec.Lstdm Verif.Lstdm Verif.Spec.Fockspace

/-- Every list of fragment vectors with definite numbers of electrons is described by an object. -/
theorem describes_ofVectors {K : Type} [CommRing K] (nlas : List Nat) (v : Nat → Nat → Vec K) (nelec : Nat → List (Nat × Nat))
    (hp : ∀ f < nlas.length, 0 < nlas.getD f 0) (hl : ∀ st, (nelec st).length = nlas.length)
    (hn : ∀ f < nlas.length, ∀ st, HasNumbers (nlas.getD f 0) (v f st) ((nelec st).getD f (0, 0)).1 ((nelec st).getD f (0, 0)).2) :
    Describes (ofVectors nlas v nelec) v where
  pos := hp
  len := hl
  num f hf st := hn f hf st
  tables f hf :=
    { ovlp := fun i j _ => rfl
      h := by intro s i j x _ _; cases s <;> rfl
      hh := by
        intro s t i j x y _ hst _ _
        revert hst
        cases s <;> cases t <;> simp <;> rfl
      phh := by intro s t i j r p q _ _ _ _; cases s <;> cases t <;> rfl
      sm := fun i j x y _ _ _ => rfl
      dm1 := by intro i j s a b _ _ _; cases s <;> exact ⟨fun _ => rfl, fun _ => rfl⟩
      dm2 := by intro i j s t a b d e _ _ _ _ _; cases s <;> cases t <;> exact ⟨fun _ => rfl, fun _ => rfl⟩ }

/-- **C98 (partial).** With at most eight fragments: if the fragment tables hold the matrix elements of fragment CI vectors with
definite numbers of electrons, then for every bra and ket the rows of the excitation tables are processed without exception and
the sum of their contributions is, for all spins and orbitals, the transition one-body matrix `⟨bra|p' q|ket⟩` and the two-body
matrix `⟨bra|p' r' u q|ket⟩` of the products of the fragment vectors. Missing: nine or more fragments
(`C98_nine_fragments_violated`). -/
theorem C98_pair_exact_partial {K : Type} [CommRing K] [DecidableEq K] (L : Lstdm K) (v : Nat → Nat → Vec K) (hD : Describes L v)
    (h8 : L.nlas.length ≤ 8) (bra ket : Nat) :
    ∃ d1 d2, L.tdms bra ket = some (d1, d2) ∧
      (∀ s p q, p < L.nlas.sum → q < L.nlas.sum →
        d1 (ix s) p q = tdm1 L.nlas.sum (state L v bra) (state L v ket) s p q) ∧
      (∀ s t p q r u, p < L.nlas.sum → q < L.nlas.sum → r < L.nlas.sum → u < L.nlas.sum →
        d2 (2 * ix s + ix t) p q r u = tdm2 L.nlas.sum (state L v bra) (state L v ket) s t p q r u) :=
  tdms_exact hD h8 bra ket

/-- Vectors of three one-orbital fragments: state 0 has occupations up, down, up; state 1 has up-down, empty, up. -/
def exV : Nat → Nat → Vec ℤ := fun f st =>
  if f = 0 then (if st = 0 then det 1 0 else det 1 1) else if f = 1 then (if st = 0 then det 0 1 else det 0 0) else det 1 0
@[inherit_doc exV]
def exN : Nat → List (Nat × Nat) := fun st => if st = 0 then [(1, 0), (0, 1), (1, 0)] else [(1, 1), (0, 0), (1, 0)]

theorem hasNumbers_det {K : Type} [CommRing K] (n A B na nb : Nat) (hA : Verif.Spec.Fsucc.nOcc 0 n A = na)
    (hB : Verif.Spec.Fsucc.nOcc 0 n B = nb) : HasNumbers n (det A B : Vec K) na nb := by
  intro A' B' h
  unfold det at h
  by_cases hh : A' = A ∧ B' = B
  · rw [hh.1, hh.2]; exact ⟨hA, hB⟩
  · rw [if_neg hh] at h; exact absurd rfl h

/-- Non-vacuity: these vectors, an electron hop between fragments 0 and 1, and a nonzero element of the two-body matrix. -/
example : Describes (ofVectors [1, 1, 1] exV exN) exV ∧
    tdm2 3 (state (ofVectors [1, 1, 1] exV exN) exV 1) (state (ofVectors [1, 1, 1] exV exN) exV 0) true false 0 1 2 2 ≠ 0 := by
  refine ⟨describes_ofVectors _ _ _ (by decide) ?_ ?_, by decide +kernel⟩
  · intro st; unfold exN; split <;> rfl
  · intro f hf st
    have hf : f = 0 ∨ f = 1 ∨ f = 2 := by simp at hf; omega
    unfold exV exN
    by_cases hst : st = 0 <;> rcases hf with rfl | rfl | rfl <;> simp only [hst] <;> exact hasNumbers_det _ _ _ _ _ (by decide) (by decide)

/-- Nine one-orbital fragments with one spin-up electron in fragment 4 and one in fragment 1 (state 0) or 8 (state 1). -/
def nineV : Nat → Nat → Vec ℤ := fun f st =>
  if f = 4 ∨ (f = 1 ∧ st = 0) ∨ (f = 8 ∧ st ≠ 0) then det 1 0 else det 0 0
@[inherit_doc nineV]
def nineN : Nat → List (Nat × Nat) := fun st =>
  if st = 0 then [(0, 0), (1, 0), (0, 0), (0, 0), (1, 0), (0, 0), (0, 0), (0, 0), (0, 0)]
  else [(0, 0), (0, 0), (0, 0), (0, 0), (1, 0), (0, 0), (0, 0), (0, 0), (1, 0)]

theorem nine_describes : Describes (ofVectors (List.replicate 9 1) nineV nineN) nineV := by
  refine describes_ofVectors _ _ _ (by decide) ?_ ?_
  · intro st; unfold nineN; split <;> rfl
  · intro f hf st
    have hf : f < 9 := by simpa using hf
    unfold nineV nineN
    by_cases hst : st = 0
    · simp only [hst]
      interval_cases f <;> simp <;> exact hasNumbers_det _ _ _ _ _ (by decide) (by decide)
    · simp only [hst]
      interval_cases f <;> simp [hst] <;> exact hasNumbers_det _ _ _ _ _ (by decide) (by decide)

/-- **C98 is violated with nine fragments.** A set of fragment numbers is put in order by `list (set (...))`, which lists 8 before
1: for the electron hopping from fragment 1 to fragment 8 over the electron of fragment 4, the sign is wrong. -/
theorem C98_nine_fragments_violated : ∃ (L : Lstdm ℤ) (v : Nat → Nat → Vec ℤ), Describes L v ∧ L.nlas.length = 9 ∧
    ∃ d1 d2, L.tdms 1 0 = some (d1, d2) ∧ d1 0 8 1 = 1 ∧
      tdm1 L.nlas.sum (state L v 1) (state L v 0) false 8 1 = -1 := by
  let L := ofVectors (List.replicate 9 1) nineV nineN
  have hD : Describes L nineV := nine_describes
  have hl : ∀ st, (L.nelecI st).length = 9 := by
    intro st; unfold Lstdm.nelecI; rw [List.length_map]; exact hD.len st
  have hc : Verif.SC.isCoupled (L.nelecI 1) (L.nelecI 0) = true := by decide +kernel
  have ht : tdm1 L.nlas.sum (state L nineV 1) (state L nineV 0) false 8 1 = -1 := by
    have := Verif.Tdm.tdm1_prod L.nlas _ _ _ _ (nums hD 1) (nums hD 0) false 8 1 0 0 (by decide) (by decide) (by decide) (by decide)
    refine Eq.trans this ?_
    decide +kernel
  obtain ⟨x, hx, hn, hch⟩ := classify_screened (L.nelecI 1) (L.nelecI 0) ((hl 1).trans (hl 0).symm) hc
  have hlen : (Verif.Exc.hopping (L.nelecI 1) (L.nelecI 0)).length = 9 := by simp [Verif.Exc.hopping, hl]
  have hb : InB 9 x := by
    have := rowAll_inB _ x (by rw [hx]; simp)
    rwa [hlen] at this
  have hx' : ∀ f < 9, ∀ σ, cz L 1 f σ - cz L 0 f σ = ((mvs x).map (fun p => ei p.1 (f, σ) - ei p.2 (f, σ))).sum := by
    intro f hf σ
    rw [← change_pt]
    have := hch f (by rw [hl]; exact hf)
    rw [nelecI_getD, nelecI_getD] at this
    cases σ
    · exact this.1.symm
    · exact this.2.symm
  obtain ⟨r, hr, hrp, -⟩ := cover1 9 x hn false 8 1 (by decide) (by
    intro y
    by_cases hy : y.1 < 9
    · have := hx' y.1 hy y.2
      rw [← this]
      clear this
      obtain ⟨f, σ⟩ := y
      have hall : ∀ f < 9, ∀ σ : Bool, cz L 1 f σ - cz L 0 f σ = ei (8, false) (f, σ) - ei (1, false) (f, σ) := by decide +kernel
      exact hall f hy σ
    · rw [mvs_out _ x hb y (by omega)]
      unfold ei
      rw [if_neg, if_neg]
      · rfl
      · rintro rfl; exact hy (by decide)
      · rintro rfl; exact hy (by decide))
  have hx1 : x = .c1 8 1 0 := by
    cases x <;> simp only [expand] at hr
    · simp at hr
      rcases hr with ⟨a, -, rfl⟩ | ⟨a, b, -, rfl⟩
      · simp [rp1] at hrp; omega
      · simp [rp1] at hrp
    · simp at hr
      rcases hr with rfl | ⟨a, -, rfl⟩
      · simp [rp1] at hrp
        obtain ⟨rfl, rfl, rfl⟩ := hrp
        rfl
      · simp [rp1] at hrp
    all_goals
      simp at hr
      subst hr
      simp [rp1] at hrp
  have hrows : L.rows 1 0 = expand 9 (.c1 8 1 0) := by
    subst hx1
    exact rows_coupled L 1 0 hc _ hx hn hb
  refine ⟨L, nineV, hD, by decide, ?_⟩
  have hv : (L.tdms 1 0).map (fun d => d.1 0 8 1) = some 1 := by
    unfold Lstdm.tdms
    rw [hrows]
    decide +kernel
  cases he : L.tdms 1 0 with
  | none => rw [he] at hv; simp at hv
  | some d =>
    rw [he] at hv
    exact ⟨d.1, d.2, rfl, by simpa using hv, ht⟩

end Verif.Props
