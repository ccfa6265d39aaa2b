import Verif.Lemmas.CplxRdm4
import Verif.Props.CplxCi
/-!
# Properties of the density matrices of complex CI vectors
-/
namespace Verif.Props
open Verif.CplxRdm Verif.CplxCi Verif.FciRdm Verif.HalfOp Verif.Spec.CplxCi Verif.Spec.CplxRdm Verif.Spec.HalfOp Verif.Spec.Tdm Verif.Spec.FciRdm Verif.Fockspace

section
variable {thr : ℝ} {n : Nat} {e : Nat × Nat} {la lb : Tab} (hla : LinkTable n e.1 la) (hlb : LinkTable n e.2 lb) {c : Arr ℂ}
include hla hlb

/-- **C117.** `make_rdm1s` gives `⟨c|q'p|c⟩` for spin up and for spin down, for every number of orbitals and electrons, every complex vector and every
order of the entries in the link tables. -/
theorem C117_rdm1s : Eq2 n (makeRdm1s c n (strs n e.1).length (strs n e.2).length la lb).1 (dm1 n (vec n e c) false) ∧
    Eq2 n (makeRdm1s c n (strs n e.1).length (strs n e.2).length la lb).2 (dm1 n (vec n e c) true) := by
  constructor <;> intro p hp q hq <;> unfold makeRdm1s makeRdm1Spin1 conjT of2 <;> dsimp only
  · rw [if_neg Bool.false_ne_true, rdm1a_val hla c hq hp]
    exact dm1_conj false hp hq _
  · rw [if_pos rfl, rdm1b_val hlb c hq hp]
    exact dm1_conj true hp hq _

/-- **C117.** `make_rdm1` gives their sum. -/
theorem C117_rdm1 : Eq2 n (makeRdm1 c n (strs n e.1).length (strs n e.2).length la lb) (fun p q => ∑ s : Bool, dm1 n (vec n e c) s p q) := by
  intro p hp q hq
  unfold makeRdm1 conjT
  dsimp only
  rw [(C117_rdm1s hla hlb).1 q hq p hp, (C117_rdm1s hla hlb).2 q hq p hp, star_add, Fintype.sum_bool, dm1_conj false hp hq, dm1_conj true hp hq, add_comm]

section
variable (hc : Seen thr (strs n e.1).length (strs n e.2).length c) {S : Kern → Sched} (hS : ∀ κ, Allowed (fun _ => 0) (strs n e.1).length (S κ))
include hc hS

/-- **C117.** `make_rdm12s` gives `dm1[p,q] = ⟨c|q'p|c⟩` and `dm2[p,q,r,u] = ⟨c|p'r'u q|c⟩` for the spins up-up, up-down and down-down, for every
schedule of the threads; each nonzero coefficient must be large enough to be seen by the test for empty rows. -/
theorem C117_rdm12s :
    Eq2 n (makeRdm12s thr c n (strs n e.1).length (strs n e.2).length la lb S true).1.1 (dm1 n (vec n e c) false) ∧
    Eq2 n (makeRdm12s thr c n (strs n e.1).length (strs n e.2).length la lb S true).1.2 (dm1 n (vec n e c) true) ∧
    Eq4 n (makeRdm12s thr c n (strs n e.1).length (strs n e.2).length la lb S true).2.1 (dm2 n (vec n e c) false false) ∧
    Eq4 n (makeRdm12s thr c n (strs n e.1).length (strs n e.2).length la lb S true).2.2.1 (dm2 n (vec n e c) false true) ∧
    Eq4 n (makeRdm12s thr c n (strs n e.1).length (strs n e.2).length la lb S true).2.2.2 (dm2 n (vec n e c) true true) := by
  have ha := spin1_dot hla hlb hc false (hS .a)
  have hb := spin1_dot hla hlb hc true (hS .b)
  refine ⟨fun p hp q hq => ha.1 q hq p hp, fun p hp q hq => hb.1 q hq p hp, fun p hp q hq r hr u hu => ?_, fun p hp q hq r hr u hu => ?_,
    fun p hp q hq r hr u hu => ?_⟩
  · unfold makeRdm12s
    dsimp only
    rw [if_pos rfl, reorder_val]
    refine (congrArg₂ (· - ·) (ha.2 p hp q hq r hr u hu) (y' := if q = r then dot n (vec n e c) (exc n false p u (vec n e c)) else 0) ?_).trans ?_
    · by_cases h : q = r
      · rw [if_pos h, if_pos ⟨h, hq⟩]
        refine (congrArg star (ha.1 u hu p hp)).trans (dm1_herm false hp hu _)
      · rw [if_neg h, if_neg (fun k => h k.1)]
    · rw [raw_dm2 false false hq hr hu]
      simp
  · refine (ab_dot hla hlb hc (hS .ab) hp hq hr hu).trans ?_
    rw [raw_dm2 false true hq hr hu]
    simp
  · unfold makeRdm12s
    dsimp only
    rw [if_pos rfl, reorder_val]
    refine (congrArg₂ (· - ·) (hb.2 p hp q hq r hr u hu) (y' := if q = r then dot n (vec n e c) (exc n true p u (vec n e c)) else 0) ?_).trans ?_
    · by_cases h : q = r
      · rw [if_pos h, if_pos ⟨h, hq⟩]
        refine (congrArg star (hb.1 u hu p hp)).trans (dm1_herm true hp hu _)
      · rw [if_neg h, if_neg (fun k => h k.1)]
    · rw [raw_dm2 true true hq hr hu]
      simp

/-- **C117.** With `reorder=False` the two-body matrices are `⟨c|p'q r'u|c⟩`. -/
theorem C117_rdm12s_raw :
    Eq2 n (makeRdm12s thr c n (strs n e.1).length (strs n e.2).length la lb S false).1.1 (dm1 n (vec n e c) false) ∧
    Eq2 n (makeRdm12s thr c n (strs n e.1).length (strs n e.2).length la lb S false).1.2 (dm1 n (vec n e c) true) ∧
    Eq4 n (makeRdm12s thr c n (strs n e.1).length (strs n e.2).length la lb S false).2.1 (dm2raw n (vec n e c) false false) ∧
    Eq4 n (makeRdm12s thr c n (strs n e.1).length (strs n e.2).length la lb S false).2.2.1 (dm2raw n (vec n e c) false true) ∧
    Eq4 n (makeRdm12s thr c n (strs n e.1).length (strs n e.2).length la lb S false).2.2.2 (dm2raw n (vec n e c) true true) := by
  have ha := spin1_dot hla hlb hc false (hS .a)
  have hb := spin1_dot hla hlb hc true (hS .b)
  exact ⟨fun p hp q hq => ha.1 q hq p hp, fun p hp q hq => hb.1 q hq p hp, ha.2, fun p hp q hq r hr u hu => ab_dot hla hlb hc (hS .ab) hp hq hr hu, hb.2⟩

/-- **C117.** `make_rdm12` gives the sums over the spins. -/
theorem C117_rdm12 :
    Eq2 n (makeRdm12 thr c n (strs n e.1).length (strs n e.2).length la lb S true).1 (fun p q => ∑ s : Bool, dm1 n (vec n e c) s p q) ∧
    Eq4 n (makeRdm12 thr c n (strs n e.1).length (strs n e.2).length la lb S true).2 (fun p q r u => ∑ s : Bool, ∑ t : Bool, dm2 n (vec n e c) s t p q r u) := by
  obtain ⟨h1, h2, h3, h4, h5⟩ := C117_rdm12s hla hlb hc hS
  refine ⟨fun p hp q hq => ?_, fun p hp q hq r hr u hu => ?_⟩
  · unfold makeRdm12 conjT
    dsimp only
    rw [h1 q hq p hp, h2 q hq p hp, star_add, Fintype.sum_bool, dm1_conj false hp hq, dm1_conj true hp hq, add_comm]
  · unfold makeRdm12
    dsimp only
    rw [h3 p hp q hq r hr u hu, h4 p hp q hq r hr u hu, h5 p hp q hq r hr u hu, h4 r hr u hu p hp q hq, dm2_swap false true hr hu hp hq]
    simp only [Fintype.sum_bool]
    ring

/-- **C117.** The energy computed from these matrices is the expectation value of the Hamiltonian: for every complex `h1` and every `eri`,
`Σ h1[p,q] dm1[q,p] + ½ Σ eri[p,q,r,u] dm2[p,q,r,u] = ⟨c|H|c⟩`. -/
theorem C117_energy (h1 : M2 ℂ) (eri : M4 ℂ) :
    (∑ p ∈ Finset.range n, ∑ q ∈ Finset.range n, h1 p q * (makeRdm12 thr c n (strs n e.1).length (strs n e.2).length la lb S true).1 q p) +
      1 / 2 * (∑ p ∈ Finset.range n, ∑ q ∈ Finset.range n, ∑ r ∈ Finset.range n, ∑ u ∈ Finset.range n, eri p q r u *
        (makeRdm12 thr c n (strs n e.1).length (strs n e.2).length la lb S true).2 p q r u) =
      dot n (vec n e c) (hamOp n (fun _ => h1) eri (vec n e c)) := by
  obtain ⟨g1, g2⟩ := C117_rdm12 hla hlb hc hS
  rw [dot_ham]
  congr 1
  · refine Finset.sum_congr rfl fun p hp => Finset.sum_congr rfl fun q hq => ?_
    rw [g1 q (Finset.mem_range.1 hq) p (Finset.mem_range.1 hp)]
  · congr 1
    refine Finset.sum_congr rfl fun p hp => Finset.sum_congr rfl fun q hq => Finset.sum_congr rfl fun r hr => Finset.sum_congr rfl fun u hu => ?_
    rw [g2 p (Finset.mem_range.1 hp) q (Finset.mem_range.1 hq) r (Finset.mem_range.1 hr) u (Finset.mem_range.1 hu)]

/-- **C117.** `make_rdm1` and the first result of `make_rdm12`, which come from different C routines, are the same, whether or not the operators are
put in order. -/
theorem C117_consistent (ro : Bool) : Eq2 n (makeRdm12 thr c n (strs n e.1).length (strs n e.2).length la lb S ro).1
    (makeRdm1 c n (strs n e.1).length (strs n e.2).length la lb) := by
  intro p hp q hq
  rw [C117_rdm1 hla hlb p hp q hq, ← (C117_rdm12 hla hlb hc hS).1 p hp q hq]
  rfl
end

/-- **C117.** The python versions `make_rdm1s_py` and `make_rdm1_py` give the same. -/
theorem C117_rdm1_py : Eq2 n (makeRdm1sPy c (strs n e.1).length (strs n e.2).length la lb).1 (dm1 n (vec n e c) false) ∧
    Eq2 n (makeRdm1sPy c (strs n e.1).length (strs n e.2).length la lb).2 (dm1 n (vec n e c) true) ∧
    Eq2 n (makeRdm1Py c (strs n e.1).length (strs n e.2).length la lb) (fun p q => ∑ s : Bool, dm1 n (vec n e c) s p q) := by
  refine ⟨fun p hp q hq => rdm1sPy_a hla c hp hq, fun p hp q hq => rdm1sPy_b hlb c hp hq, fun p hp q hq => ?_⟩
  unfold makeRdm1Py conjT
  dsimp only
  rw [rdm1sPy_a hla c hq hp, rdm1sPy_b hlb c hq hp, star_add, Fintype.sum_bool, dm1_conj false hp hq, dm1_conj true hp hq, add_comm]

/-- **C117, in part.** The python version `make_rdm12s_py` gives the density matrices of the vector divided by `nrm`, its norm, and leaves the caller
with this vector. What is missing: the matrices of the vector that was given, and a vector that is left as it is. -/
theorem C117_rdm12s_py_partial (nrm : ℂ) :
    (makeRdm12sPy nrm c n (strs n e.1).length (strs n e.2).length la lb true).1 = (fun i j => c i j / nrm) ∧
    Eq2 n (makeRdm12sPy nrm c n (strs n e.1).length (strs n e.2).length la lb true).2.1.1 (dm1 n (vec n e fun i j => c i j / nrm) false) ∧
    Eq2 n (makeRdm12sPy nrm c n (strs n e.1).length (strs n e.2).length la lb true).2.1.2 (dm1 n (vec n e fun i j => c i j / nrm) true) ∧
    Eq4 n (makeRdm12sPy nrm c n (strs n e.1).length (strs n e.2).length la lb true).2.2.1 (dm2 n (vec n e fun i j => c i j / nrm) false false) ∧
    Eq4 n (makeRdm12sPy nrm c n (strs n e.1).length (strs n e.2).length la lb true).2.2.2.1 (dm2 n (vec n e fun i j => c i j / nrm) false true) ∧
    Eq4 n (makeRdm12sPy nrm c n (strs n e.1).length (strs n e.2).length la lb true).2.2.2.2 (dm2 n (vec n e fun i j => c i j / nrm) true true) := by
  refine ⟨rfl, fun p hp q hq => py1_a hla nrm c true hp hq, fun p hp q hq => py1_b hlb nrm c true hp hq,
    fun p hp q hq r hr u hu => (py2_aa hla hlb nrm c true hp hq hr hu).trans (if_pos rfl), fun p hp q hq r hr u hu => ?_,
    fun p hp q hq r hr u hu => (py2_bb hla hlb nrm c true hp hq hr hu).trans (if_pos rfl)⟩
  refine (pyab hla hlb nrm c true hp hq hr hu).trans ?_
  rw [raw_dm2 false true hq hr hu]
  simp

/-- **C117.** For a vector of norm one the python version and the C version give the same density matrices, in either order of the operators. -/
theorem C117_rdm12_py_agrees (hc : Seen thr (strs n e.1).length (strs n e.2).length c) {S : Kern → Sched}
    (hS : ∀ κ, Allowed (fun _ => 0) (strs n e.1).length (S κ)) (ro : Bool) :
    Eq2 n (makeRdm12Py 1 c n (strs n e.1).length (strs n e.2).length la lb ro).1 (makeRdm12 thr c n (strs n e.1).length (strs n e.2).length la lb S ro).1 ∧
    Eq4 n (makeRdm12Py 1 c n (strs n e.1).length (strs n e.2).length la lb ro).2 (makeRdm12 thr c n (strs n e.1).length (strs n e.2).length la lb S ro).2 := by
  have e1 : (fun i j => c i j / 1 : Arr ℂ) = c := by funext i j; rw [div_one]
  have key : Eq2 n (makeRdm12s thr c n (strs n e.1).length (strs n e.2).length la lb S ro).1.1 (dm1 n (vec n e c) false) ∧
      Eq2 n (makeRdm12s thr c n (strs n e.1).length (strs n e.2).length la lb S ro).1.2 (dm1 n (vec n e c) true) ∧
      Eq4 n (makeRdm12s thr c n (strs n e.1).length (strs n e.2).length la lb S ro).2.1 (fun p q r u => if ro then dm2 n (vec n e c) false false p q r u else dm2raw n (vec n e c) false false p q r u) ∧
      Eq4 n (makeRdm12s thr c n (strs n e.1).length (strs n e.2).length la lb S ro).2.2.1 (dm2raw n (vec n e c) false true) ∧
      Eq4 n (makeRdm12s thr c n (strs n e.1).length (strs n e.2).length la lb S ro).2.2.2 (fun p q r u => if ro then dm2 n (vec n e c) true true p q r u else dm2raw n (vec n e c) true true p q r u) := by
    cases ro
    · exact C117_rdm12s_raw hla hlb hc hS
    · obtain ⟨h1, h2, h3, h4, h5⟩ := C117_rdm12s hla hlb hc hS
      refine ⟨h1, h2, h3, fun p hp q hq r hr u hu => ?_, h5⟩
      rw [h4 p hp q hq r hr u hu, raw_dm2 false true hq hr hu]
      simp
  obtain ⟨h1, h2, h3, h4, h5⟩ := key
  refine ⟨fun p hp q hq => ?_, fun p hp q hq r hr u hu => ?_⟩
  · unfold makeRdm12Py makeRdm12 conjT
    dsimp only
    rw [h1 q hq p hp, h2 q hq p hp, py1_a hla 1 c ro hq hp, py1_b hlb 1 c ro hq hp, e1]
  · unfold makeRdm12Py makeRdm12
    dsimp only
    rw [h3 p hp q hq r hr u hu, h4 p hp q hq r hr u hu, h5 p hp q hq r hr u hu, h4 r hr u hu p hp q hq, py2_aa hla hlb 1 c ro hp hq hr hu,
      py2_bb hla hlb 1 c ro hp hq hr hu, pyab hla hlb 1 c ro hp hq hr hu, pyab hla hlb 1 c ro hr hu hp hq, e1]
end

/-- Four orbitals, two spin-up and one spin-down electron, complex coefficients, two threads. -/
example (h1 : M2 ℂ) (eri : M4 ℂ) :
    (∑ p ∈ Finset.range 4, ∑ q ∈ Finset.range 4, h1 p q * (makeRdm12 (1 / 10 ^ 28) (fun i j => ⟨i + 1, if j = 2 then 0 else -1⟩) 4 6 4 (links 4 2) (links 4 1)
        (fun _ => zigzag (fun _ => 0) 6) true).1 q p) +
      1 / 2 * (∑ p ∈ Finset.range 4, ∑ q ∈ Finset.range 4, ∑ r ∈ Finset.range 4, ∑ u ∈ Finset.range 4, eri p q r u *
        (makeRdm12 (1 / 10 ^ 28) (fun i j => ⟨i + 1, if j = 2 then 0 else -1⟩) 4 6 4 (links 4 2) (links 4 1) (fun _ => zigzag (fun _ => 0) 6) true).2 p q r u) =
      dot 4 (vec 4 (2, 1) fun i j => ⟨i + 1, if j = 2 then 0 else -1⟩) (hamOp 4 (fun _ => h1) eri (vec 4 (2, 1) fun i j => ⟨i + 1, if j = 2 then 0 else -1⟩)) := by
  have l2 : (strs 4 2).length = 6 := by rw [strs_length]; decide
  have l1 : (strs 4 1).length = 4 := by rw [strs_length]; decide
  have := C117_energy (thr := 1 / 10 ^ 28) (n := 4) (e := (2, 1)) (linkTable_links 4 2) (linkTable_links 4 1) (c := fun i j => ⟨i + 1, if j = 2 then 0 else -1⟩)
    (S := fun _ => zigzag (fun _ => 0) 6) (by
      intro i _ j _
      refine Or.inr ?_
      rw [Complex.normSq_mk]
      have h0 : (0 : ℝ) ≤ i := Nat.cast_nonneg i
      have h1 : (0 : ℝ) ≤ (if j = 2 then (0 : ℝ) else -1) * (if j = 2 then 0 else -1) := mul_self_nonneg _
      have h2 : (1 / 10 ^ 28 : ℝ) < 1 := by norm_num
      nlinarith) (fun _ => by rw [l2]; exact zigzag_allowed _ 6) h1 eri
  rw [l2, l1] at this
  exact this

/-- **C117, violated.** `make_rdm12s_py` divides the caller's vector by its norm in place, and its matrices are not those of the vector: for one electron
in one orbital with the coefficient 2, the vector becomes 1 and the density matrix is 1 instead of 4. -/
theorem C117_rdm12s_py_violated {la lb : Tab} (hla : LinkTable 1 1 la) (hlb : LinkTable 1 0 lb) :
    (makeRdm12sPy 2 (fun _ _ => 2) 1 (strs 1 1).length (strs 1 0).length la lb true).1 0 0 = 1 ∧
    (makeRdm12sPy 2 (fun _ _ => 2) 1 (strs 1 1).length (strs 1 0).length la lb true).2.1.1 0 0 = 1 ∧
    dm1 1 (vec 1 (1, 0) fun _ _ => 2) false 0 0 = 4 ∧ dot 1 (vec 1 (1, 0) fun _ _ => 2) (vec 1 (1, 0) fun _ _ => 2) = 2 ^ 2 := by
  have h := C117_rdm12s_py_partial (n := 1) (e := (1, 0)) hla hlb (c := fun _ _ => 2) 2
  have m1 : (1 : Nat) ∈ strs 1 1 := by decide
  have m2 : (0 : Nat) ∉ strs 1 1 := by decide
  have m3 : (0 : Nat) ∈ strs 1 0 := by decide
  have m4 : (1 : Nat) ∉ strs 1 0 := by decide
  have n1 : Verif.Spec.Fsucc.nAbove 1 1 0 = 0 := by decide
  have n0 : Verif.Spec.Fsucc.nAbove 1 0 0 = 0 := by decide
  have s2 : (starRingEnd ℂ) 2 = 2 := map_ofNat _ 2
  refine ⟨?_, ?_, ?_, ?_⟩
  · rw [h.1]; norm_num
  · rw [h.2.1 0 Nat.zero_lt_one 0 Nat.zero_lt_one]
    simp [dm1, dot, ovl, Finset.sum_range_succ, exc_up, okx, sgnx, vec, m1, m2, m3, m4, n1, n0]
  · simp [dm1, dot, ovl, Finset.sum_range_succ, exc_up, okx, sgnx, vec, m1, m2, m3, m4, n1, n0, s2]
    norm_num
  · simp [dot, ovl, Finset.sum_range_succ, vec, m1, m2, m3, m4, s2]
    norm_num

/-- **C117, violated.** A row whose coefficients are all small is taken for zero: for one electron in one orbital with a coefficient `x` whose square
is at most the threshold, `make_rdm12s` gives zero although the density matrix is `x²`. -/
theorem C117_small_violated {thr : ℝ} {la lb : Tab} (hla : LinkTable 1 1 la) {x : ℝ} (hx0 : x ≠ 0)
    (hx : x * x ≤ thr) {S : Kern → Sched} (hS : ∀ κ, Allowed (fun _ => 0) (strs 1 1).length (S κ)) :
    (makeRdm12s thr (fun _ _ => (x : ℂ)) 1 (strs 1 1).length (strs 1 0).length la lb S true).1.1 0 0 = 0 ∧
    dm1 1 (vec 1 (1, 0) fun _ _ => (x : ℂ)) false 0 0 = (x * x : ℝ) ∧ (x * x : ℝ) ≠ 0 := by
  have l1 : (strs 1 1).length = 1 := by rw [strs_length]; decide
  have l0 : (strs 1 0).length = 1 := by rw [strs_length]; decide
  have ea : la 0 = [⟨0, 0, 0, 1⟩] := by
    have := hla 0 (by rw [l1]; exact Nat.zero_lt_one)
    have e : links 1 1 0 = [⟨0, 0, 0, 1⟩] := by decide
    rw [e] at this
    exact List.perm_singleton.1 this
  have m1 : (1 : Nat) ∈ strs 1 1 := by decide
  have m2 : (0 : Nat) ∉ strs 1 1 := by decide
  have m3 : (0 : Nat) ∈ strs 1 0 := by decide
  have m4 : (1 : Nat) ∉ strs 1 0 := by decide
  have n1 : Verif.Spec.Fsucc.nAbove 1 1 0 = 0 := by decide
  have n0 : Verif.Spec.Fsucc.nAbove 1 0 0 = 0 := by decide
  refine ⟨?_, ?_, mul_ne_zero hx0 hx0⟩
  · unfold makeRdm12s makeRdm12Spin1 conjT of2
    dsimp only
    obtain ⟨dm, h1, h2, h3⟩ := drv_val thr .a true (toFlat (strs 1 0).length fun _ _ => (x : ℂ)) (toFlat (strs 1 0).length fun _ _ => (x : ℂ)) 1
      (strs 1 1).length (strs 1 0).length la lb (hS .a)
    rw [h3, if_pos rfl]
    dsimp only
    rw [fillHerm_val 1 dm.1 Nat.zero_lt_one Nat.zero_lt_one, if_pos le_rfl, h1 _ (by decide), l1, l0]
    have hb : blocks 1 96 = [0] := by decide
    have ht : (t1ciA (toFlat 1 fun _ _ => (x : ℂ)) (min 96 (1 - 0)) 0 0 1 1 la).2 = x * x := by
      unfold t1ciA toFlat
      rw [ea]
      simp
    unfold tot1
    rw [hb]
    simp only [Finset.sum_range_one, List.map_cons, List.map_nil, List.sum_cons, List.sum_nil, add_zero]
    unfold CplxRdm.kern
    dsimp only
    rw [ht, if_neg (not_lt.2 hx), star_zero]
  · simp [dm1, dot, ovl, Finset.sum_range_succ, exc_up, okx, sgnx, vec, m1, m2, m3, m4, n1, n0]

end Verif.Props
