import Verif.Lemmas.CplxCi4
/-!
# Properties of the contraction of complex CI vectors
-/
namespace Verif.Props
open Verif.CplxCi Verif.FciRdm Verif.HalfOp Verif.Spec.CplxCi Verif.Spec.HalfOp Verif.Spec.Tdm Verif.Spec.FciRdm Verif.Fockspace

/-- Link tables and schedules exist: the links in any order, and one thread that takes the rows in ascending order. -/
theorem linkTable_links (n k : Nat) : LinkTable n k (links n k) := fun _ _ => List.Perm.refl _
def serial (lo : Nat → Nat) (na : Nat) : Sched := ⟨1, fun ib => List.range' (lo ib) (na - lo ib), fun _ _ => 0, fun _ => [0]⟩
theorem serial_allowed (lo : Nat → Nat) (na : Nat) : Allowed lo na (serial lo na) :=
  ⟨fun _ => List.Perm.refl _, fun _ _ => Nat.zero_lt_one, fun _ => List.Perm.refl _⟩
/-- Two threads that take the rows in turn, from the last row to the first, and write back in the opposite order. -/
def zigzag (lo : Nat → Nat) (na : Nat) : Sched := ⟨2, fun ib => (List.range' (lo ib) (na - lo ib)).reverse, fun _ s => s % 2, fun _ => [1, 0]⟩
theorem zigzag_allowed (lo : Nat → Nat) (na : Nat) : Allowed lo na (zigzag lo na) :=
  ⟨fun _ => List.reverse_perm _, fun _ s => Nat.mod_lt s Nat.zero_lt_two, fun _ => List.Perm.swap 0 1 []⟩

/-- **C116.** The C routine for complex vectors gives `Σ eri[r,u,p,q] E_pq E_ru |c⟩`, for every number of orbitals and electrons, every order of
the entries in the link tables, every block size (also one that is not positive or larger than the vector) and every schedule of the threads;
each nonzero coefficient must be large enough to be seen by the test for empty tiles. -/
theorem C116_contract {thr : ℝ} {n : Nat} {e : Nat × Nat} {la lb : Tab} (hla : LinkTable n e.1 la) (hlb : LinkTable n e.2 lb) (eri : M4 ℂ)
    {c : Arr ℂ} (hc : Resolved thr (strs n e.1).length (strs n e.2).length c) (blksize : Int) {S : Sched}
    (hS : Allowed (fun _ => 0) (strs n e.1).length S) :
    Holds n e (ofFlat (strs n e.2).length (contract2es1 thr eri (toFlat (strs n e.2).length c) n (strs n e.1).length (strs n e.2).length la lb blksize S))
      (twoE n (fun _ _ p q r u => eri r u p q) (vec n e c)) :=
  fun _ hA _ hB => contract2es1_val hla hlb eri hc blksize hS hA hB

/-- **C116.** So does the python routine that chooses the block size. -/
theorem C116_contract_opt {thr : ℝ} {n : Nat} {e : Nat × Nat} {la lb : Tab} (hla : LinkTable n e.1 la) (hlb : LinkTable n e.2 lb) (eri : M4 ℂ)
    {c : Arr ℂ} (hc : Resolved thr (strs n e.1).length (strs n e.2).length c) {S : Sched} (hS : Allowed (fun _ => 0) (strs n e.1).length S) :
    Holds n e (contract2e thr eri c n (strs n e.1).length (strs n e.2).length la lb S) (twoE n (fun _ _ p q r u => eri r u p q) (vec n e c)) :=
  fun _ hA _ hB => contract2es1_val hla hlb eri hc _ hS hA hB

/-- **C116.** The block size that the python routines choose is positive, at most 1000 and at most the number of strings. -/
theorem C116_blksize {nb : Nat} (h : 0 < nb) : 0 < pyBlk nb ∧ pyBlk nb ≤ 1000 ∧ pyBlk nb ≤ nb := by
  unfold pyBlk
  split
  · omega
  · next h1 =>
    dsimp only
    have hx : 0 < (nb + 999) / 1000 := by omega
    set x := (nb + 999) / 1000 with hxd
    have h2 : nb ≤ 1000 * x := by omega
    refine ⟨Nat.div_pos (by omega) hx, ?_, ?_⟩
    · rw [← Nat.lt_succ_iff, Nat.div_lt_iff_lt_mul hx]
      omega
    · rw [← Nat.lt_succ_iff, Nat.div_lt_iff_lt_mul hx]
      have : nb * 1 ≤ nb * x := Nat.mul_le_mul_left _ hx
      rw [Nat.succ_mul]
      omega

/-- Four orbitals, two spin-up and one spin-down electron, complex coefficients, two threads, blocks of three strings. -/
example (eri : M4 ℂ) : Holds 4 (2, 1) (ofFlat 4 (contract2es1 (1 / 10 ^ 28) eri (toFlat 4 fun i j => ⟨i + 1, if j = 2 then 0 else -1⟩) 4 6 4
    (links 4 2) (links 4 1) 3 (zigzag (fun _ => 0) 6))) (twoE 4 (fun _ _ p q r u => eri r u p q) (vec 4 (2, 1) fun i j => ⟨i + 1, if j = 2 then 0 else -1⟩)) := by
  have l2 : (strs 4 2).length = 6 := by rw [strs_length]; decide
  have l1 : (strs 4 1).length = 4 := by rw [strs_length]; decide
  have := C116_contract (thr := 1 / 10 ^ 28) (n := 4) (e := (2, 1)) (linkTable_links 4 2) (linkTable_links 4 1) eri
    (c := fun i j => ⟨i + 1, if j = 2 then 0 else -1⟩) (by
      intro i _ j _
      refine Or.inr (Or.inl ?_)
      show (1 / 10 ^ 28 : ℝ) < ((i : ℝ) + 1) ^ 2
      have h : (0 : ℝ) ≤ (i : ℝ) := Nat.cast_nonneg i
      have : (1 : ℝ) ≤ ((i : ℝ) + 1) ^ 2 := by nlinarith
      have h3 : (1 / 10 ^ 28 : ℝ) < 1 := by norm_num
      linarith) 3 (S := zigzag (fun _ => 0) 6) (by rw [l2]; exact zigzag_allowed _ _)
  dsimp only at this
  rw [l2, l1] at this
  exact this

/-- **C116.** The routines that use four real contractions are exact as well, if PySCF's real routines are. -/
theorem C116_four {P : RealOps} (hP : RealContracts P) (eri : M4 ℂ) (c : Arr ℂ) (n : Nat) (e : Nat × Nat) :
    Holds n e (contract2eCplx P eri c n e) (twoE n (fun _ _ p q r u => eri r u p q) (vec n e c)) := by
  intro A hA B hB
  rw [twoE_re n (fun p q r u => eri r u p q), vec_re, vec_im]
  unfold contract2eCplx
  rw [hP.c2 _ _ n e A hA B hB, hP.c2 _ _ n e A hA B hB, hP.c2 _ _ n e A hA B hB, hP.c2 _ _ n e A hA B hB]

theorem C116_one {P : RealOps} (hP : RealContracts P) (h1e : M2 ℂ) (c : Arr ℂ) (n : Nat) (e : Nat × Nat) :
    Holds n e (contract1eCplx P h1e c n e) (oneE n (fun _ => h1e) (vec n e c)) := by
  intro A hA B hB
  rw [oneE_re n h1e, vec_re, vec_im]
  unfold contract1eCplx
  rw [hP.c1 _ _ n e A hA B hB, hP.c1 _ _ n e A hA B hB, hP.c1 _ _ n e A hA B hB, hP.c1 _ _ n e A hA B hB]

example : RealContracts exactReal := exactReal_contracts

/-- **C116.** With the integrals of `absorb_h1e`, both routines apply the Hamiltonian
`Σ h1[p,q] p'_s q_s + ½ Σ eri[p,q,r,u] p'_s r'_t u_t q_s`, for integrals that do not change when the two electrons are exchanged. -/
theorem C116_hamiltonian {thr : ℝ} {n : Nat} {e : Nat × Nat} (he : e.1 + e.2 ≠ 0) {la lb : Tab} (hla : LinkTable n e.1 la) (hlb : LinkTable n e.2 lb)
    (h1e : M2 ℂ) {eri : M4 ℂ} (hg : PairSym eri) {c : Arr ℂ} (hc : Resolved thr (strs n e.1).length (strs n e.2).length c) {S : Sched}
    (hS : Allowed (fun _ => 0) (strs n e.1).length S) :
    Holds n e (contract2e thr (absorb h1e eri n (e.1 + e.2) (1 / 2)) c n (strs n e.1).length (strs n e.2).length la lb S)
      (hamOp n (fun _ => h1e) eri (vec n e c)) := by
  intro A hA B hB
  rw [C116_contract_opt hla hlb _ hc hS A hA B hB, absorb_ham he h1e hg c hA hB]

theorem C116_hamiltonian_four {P : RealOps} (hP : RealContracts P) {n : Nat} {e : Nat × Nat} (he : e.1 + e.2 ≠ 0) (h1e : M2 ℂ) {eri : M4 ℂ}
    (hg : PairSym eri) (c : Arr ℂ) :
    Holds n e (contract2eCplx P (absorb h1e eri n (e.1 + e.2) (1 / 2)) c n e) (hamOp n (fun _ => h1e) eri (vec n e c)) := by
  intro A hA B hB
  rw [C116_four hP _ c n e A hA B hB, absorb_ham he h1e hg c hA hB]

/-- **C116.** `energy` is `⟨c| H |c⟩`. -/
theorem C116_energy {P : RealOps} (hP : RealContracts P) {n : Nat} {e : Nat × Nat} (he : e.1 + e.2 ≠ 0) (h1e : M2 ℂ) {eri : M4 ℂ}
    (hg : PairSym eri) (c : Arr ℂ) :
    energy (fun g v => contract2eCplx P g v n e) h1e eri c n e (strs n e.1).length (strs n e.2).length =
      dot n (vec n e c) (hamOp n (fun _ => h1e) eri (vec n e c)) :=
  energy_val (C116_hamiltonian_four hP he h1e hg c)

theorem C116_energy_opt {thr : ℝ} {n : Nat} {e : Nat × Nat} (he : e.1 + e.2 ≠ 0) {la lb : Tab} (hla : LinkTable n e.1 la) (hlb : LinkTable n e.2 lb)
    (h1e : M2 ℂ) {eri : M4 ℂ} (hg : PairSym eri) {c : Arr ℂ} (hc : Resolved thr (strs n e.1).length (strs n e.2).length c) {S : Sched}
    (hS : Allowed (fun _ => 0) (strs n e.1).length S) :
    energy (fun g v => contract2e thr g v n (strs n e.1).length (strs n e.2).length la lb S) h1e eri c n e (strs n e.1).length (strs n e.2).length =
      dot n (vec n e c) (hamOp n (fun _ => h1e) eri (vec n e c)) :=
  energy_val (C116_hamiltonian he hla hlb h1e hg hc hS)

/-- Complex integrals with this symmetry that are neither real nor symmetric under exchange within a pair. -/
example : PairSym (fun p q r u => ⟨p + r, q * u + (if p < q then 1 else 0) + (if r < u then 1 else 0)⟩) := by
  intro p q r u
  apply Complex.ext
  · exact add_comm _ _
  · show (q : ℝ) * u + _ + _ = u * q + _ + _
    ring

/-- **C116.** For a vector that is symmetric in the two spins, the routine that computes one triangle and adds the transpose is exact, for
every schedule of the threads. -/
theorem C116_spin0_partial {thr : ℝ} {n k nlink : Nat} {la : Tab} (hla : LinkTable n k la) (eri : M4 ℂ) {c : Arr ℂ}
    (hc : Resolved thr (strs n k).length (strs n k).length c) (hs : SpinSym n k c) {S : Sched} (hS : Allowed id (strs n k).length S) :
    ∃ out, contract2eSpin0 thr eri c n (strs n k).length (strs n k).length nlink nlink la S = some out ∧
      Holds n (k, k) out (twoE n (fun _ _ p q r u => eri r u p q) (vec n (k, k) c)) := by
  refine ⟨_, if_pos ⟨rfl, rfl⟩, fun A hA B hB => ?_⟩
  exact spin0_val hla eri hc hs _ hS hA hB

/-- Four orbitals, two electrons of each spin, a symmetric complex vector. -/
example (eri : M4 ℂ) : ∃ out, contract2eSpin0 (1 / 10 ^ 28) eri (fun i j => ⟨i + j + 1, -1⟩) 4 (strs 4 2).length (strs 4 2).length 6 6 (links 4 2)
      (zigzag id (strs 4 2).length) = some out ∧
    Holds 4 (2, 2) out (twoE 4 (fun _ _ p q r u => eri r u p q) (vec 4 (2, 2) fun i j => ⟨i + j + 1, -1⟩)) :=
  C116_spin0_partial (linkTable_links 4 2) eri (fun i _ j _ => Or.inr (Or.inr (by show (1 / 10 ^ 28 : ℝ) < (-1) ^ 2; norm_num)))
    (fun i _ j _ => by apply Complex.ext <;> simp [add_comm]) (zigzag_allowed id _)

/-- **C116.** Whatever the vector, what this routine returns is symmetric in the two spins. -/
theorem C116_spin0_sym {thr : ℝ} {eri : M4 ℂ} {c : Arr ℂ} {n na nb la lb : Nat} {t : Tab} {S : Sched} {out : Arr ℂ}
    (h : contract2eSpin0 thr eri c n na nb la lb t S = some out) (i j : Nat) : out i j = out j i := by
  unfold contract2eSpin0 at h
  split at h
  · rw [← Option.some.inj h]
    exact add_comm _ _
  · cases h

/-- **C116.** Its test of the sizes of the link tables refuses unequal numbers of spin-up and spin-down electrons, and only these. A table for
`k` electrons has `n choose k` rows of `k + k (n - k)` links. -/
theorem C116_spin0_check {thr : ℝ} {eri : M4 ℂ} {c : Arr ℂ} {n k k' : Nat} (hk : k ≤ n) (hk' : k' ≤ n) {t : Tab} {S : Sched} :
    (contract2eSpin0 thr eri c n (n.choose k) (n.choose k') (k + k * (n - k)) (k' + k' * (n - k')) t S).isSome ↔ k = k' := by
  unfold contract2eSpin0
  constructor
  · intro h
    have h : n.choose k = n.choose k' ∧ k + k * (n - k) = k' + k' * (n - k') := by
      by_contra hn
      rw [if_neg hn] at h
      cases h
    · obtain ⟨h1, h2⟩ := h
      obtain ⟨m, rfl⟩ := Nat.exists_eq_add_of_le hk
      obtain ⟨m', hm'⟩ := Nat.exists_eq_add_of_le hk'
      rw [Nat.add_sub_cancel_left, show k + m - k' = m' by omega] at h2
      -- the products agree when the two numbers are equal or add up to the number of orbitals and one
      have h3 : k = k' ∨ k = m' + 1 := by
        have e : (k : ℤ) + m = k' + m' := by exact_mod_cast hm'
        have e2 : (k : ℤ) + k * m = k' + k' * m' := by exact_mod_cast h2
        have : ((k : ℤ) - k') * (k - (m' + 1)) = 0 := by
          have hm : (m : ℤ) = k' + m' - k := by omega
          rw [hm] at e2
          linear_combination -e2
        rcases mul_eq_zero.1 this with h | h
        · left; omega
        · right; omega
      rcases h3 with h3 | h3
      · exact h3
      · have hk1 : k' = m + 1 := by omega
        subst h3
        have h4 : (m' + 1 + m).choose k' = (m' + 1 + m).choose m' := by
          rw [← Nat.choose_symm (n := m' + 1 + m) (k := m') (by omega)]
          congr 1
          omega
        rw [h4] at h1
        have h5 := Nat.choose_succ_right_eq (m' + 1 + m) m'
        rw [h1, show m' + 1 + m - m' = m + 1 by omega] at h5
        have h6 : 0 < (m' + 1 + m).choose m' := Nat.choose_pos (by omega)
        have := Nat.eq_of_mul_eq_mul_left h6 h5
        omega
  · rintro rfl
    rw [if_pos ⟨rfl, rfl⟩]
    rfl

example : (2 : Nat) ≤ 4 ∧ (1 : Nat) ≤ 4 := by decide

/-- **C116, violated.** The vectors are not tested for this symmetry (`TODO: Symmetry check`): for the antisymmetric vector of two electrons in
two orbitals and integrals of which only `(00|00)` is not zero, the result is wrong, for every schedule and link table. -/
theorem C116_spin0_violated {nlink : Nat} {la : Tab} {thr : ℝ} {S : Sched} :
    ∃ (eri : M4 ℂ) (c : Arr ℂ), ∀ out, contract2eSpin0 thr eri c 2 (strs 2 1).length (strs 2 1).length nlink nlink la S = some out →
      ¬Holds 2 (1, 1) out (twoE 2 (fun _ _ p q r u => eri r u p q) (vec 2 (1, 1) c)) := by
  refine ⟨fun p q r u => if p = 0 ∧ q = 0 ∧ r = 0 ∧ u = 0 then 1 else 0, fun i j => (i : ℂ) - j, fun out h hh => ?_⟩
  have h1 := hh 1 (by decide) 2 (by decide)
  have h2 := hh 2 (by decide) 1 (by decide)
  have i1 : (strs 2 (1, 1).1).idxOf 1 = 0 := by decide
  have i2 : (strs 2 (1, 1).1).idxOf 2 = 1 := by decide
  have j1 : (strs 2 (1, 1).2).idxOf 1 = 0 := by decide
  have j2 : (strs 2 (1, 1).2).idxOf 2 = 1 := by decide
  rw [i1, j2, C116_spin0_sym h 0 1] at h1
  rw [i2, j1, h1] at h2
  have m1 : (1 : Nat) ∈ strs 2 1 := by decide
  have m2 : (2 : Nat) ∈ strs 2 1 := by decide
  have k1 : (strs 2 1).idxOf 1 = 0 := by decide
  have k2 : (strs 2 1).idxOf 2 = 1 := by decide
  have n1 : Verif.Spec.Fsucc.nAbove 2 1 0 = 0 := by decide
  have n0 : Verif.Spec.Fsucc.nAbove 2 0 0 = 0 := by decide
  simp [twoE, Finset.sum_range_succ, exc_up, exc_down, okx, sgnx, vec, m1, m2, k1, k2, n1, n0] at h2
  norm_num at h2

/-- **C116, violated.** A vector whose coefficients are all small is taken for zero: with one electron in one orbital, the vector with the
coefficient `x` is contracted to zero whenever `x²` is at most the threshold `10⁻²⁸`, whatever the integrals. -/
theorem C116_small_violated {thr : ℝ} (ht : 0 < thr) {la lb : Tab} (hla : LinkTable 1 1 la) (hlb : LinkTable 1 0 lb) {S : Sched}
    (hS : Allowed (fun _ => 0) (strs 1 1).length S) :
    ∃ (eri : M4 ℂ) (c : Arr ℂ), contract2e thr eri c 1 (strs 1 1).length (strs 1 0).length la lb S 0 0 = 0 ∧
      ¬Holds 1 (1, 0) (contract2e thr eri c 1 (strs 1 1).length (strs 1 0).length la lb S)
        (twoE 1 (fun _ _ p q r u => eri r u p q) (vec 1 (1, 0) c)) := by
  obtain ⟨x, hx, hx2⟩ : ∃ x : ℝ, x ≠ 0 ∧ x * x ≤ thr := by
    refine ⟨min 1 thr, ?_, ?_⟩
    · exact (lt_min one_pos ht).ne'
    · have h1 : min 1 thr ≤ 1 := min_le_left _ _
      have h2 : min 1 thr ≤ thr := min_le_right _ _
      have h3 : 0 < min 1 thr := lt_min one_pos ht
      nlinarith
  have l1 : (strs 1 1).length = 1 := by rw [strs_length]; decide
  have l0 : (strs 1 0).length = 1 := by rw [strs_length]; decide
  have ea : la 0 = [⟨0, 0, 0, 1⟩] := by
    have := hla 0 (by rw [l1]; exact Nat.zero_lt_one)
    have e : links 1 1 0 = [⟨0, 0, 0, 1⟩] := by decide
    rw [e] at this
    exact List.perm_singleton.1 this
  have eb : lb 0 = [] := by
    have := hlb 0 (by rw [l0]; exact Nat.zero_lt_one)
    have e : links 1 0 0 = [] := by decide
    rw [e] at this
    exact List.perm_nil.1 this
  have z : contract2e thr (fun _ _ _ _ => 1) (fun _ _ => (x : ℂ)) 1 (strs 1 1).length (strs 1 0).length la lb S 0 0 = 0 := by
    unfold contract2e ofFlat contract2es1
    dsimp only
    rw [foldl_blocks _ _ _ (fun ci1 ib y => block_val thr _ _ _ 1 _ _ la lb S _ hS _ _ _ ci1 ib y), l1, l0]
    have b1 : blkSize (pyBlk 1 : Nat) 1 = 1 := by decide
    have b2 : blocks 1 1 = [0] := by decide
    rw [b1, b2]
    have s1 : ¬((t1ciSf (fun y => (toFlat 1 (fun _ _ => (x : ℂ)) y).re) 1 0 0 1 1 la lb).2 > thr ∨
        (t1ciSf (fun y => (toFlat 1 (fun _ _ => (x : ℂ)) y).im) 1 0 0 1 1 la lb).2 > thr) := by
      unfold t1ciSf
      simp [ea, eb, toFlat]
      exact ⟨hx2, ht.le⟩
    simp [kB, kA, s1]
  refine ⟨fun _ _ _ _ => 1, fun _ _ => (x : ℂ), z, fun h => ?_⟩
  have h1 := h 1 (by decide) 0 (by decide)
  have i1 : (strs 1 (1, 0).1).idxOf 1 = 0 := by decide
  have i0 : (strs 1 (1, 0).2).idxOf 0 = 0 := by decide
  rw [i1, i0, z] at h1
  have m1 : (1 : Nat) ∈ strs 1 1 := by decide
  have m0 : (0 : Nat) ∈ strs 1 0 := by decide
  have n1 : Verif.Spec.Fsucc.nAbove 1 1 0 = 0 := by decide
  have n0 : Verif.Spec.Fsucc.nAbove 1 0 0 = 0 := by decide
  simp [twoE, exc_up, exc_down, okx, sgnx, vec, m1, m0, n1, n0] at h1
  exact hx (Complex.ofReal_eq_zero.1 h1.symm)

end Verif.Props
