import Verif.Lemmas.KptCas
import Mathlib.Data.ZMod.Basic
import Mathlib.Tactic.Abel
import Mathlib.Tactic.IntervalCases
/-!
# Properties of active spaces of k-point calculations
-/
namespace Verif.Props
open Verif.KptCas Verif.HalfOp Verif.Spec.KptCas

section
variable {nk nao ncore ncas : Nat} {phase : M2 ℂ} {S C : Mos} (hp : UnitaryPhase nk phase)
include hp

/-- **C118.** The effective one-electron Hamiltonian does not couple different k-points, and its block for one k-point is `C† (h + v) C` for the active
orbitals, with `v` the potential of the core density; for every number of k-points, atomic, core and active orbitals. -/
theorem C118_h1 (h : Mos) (enuc : ℂ) (veff : Mos → Mos) {k k' : Nat} (hk : k < nk) (hk' : k' < nk) {m m' : Nat} (hm : m < ncas) (hm' : m' < ncas) :
    (h1ForCas nk nao ncore ncas phase C h enuc veff).1 (k * ncas + m) (k' * ncas + m') =
      if k = k' then inMo nao (fun k i j => h k i j + veff (coreDm ncore C) k i j) C k (ncore + m) (ncore + m') else 0 :=
  h1_val hp h enuc veff hk hk' hm hm'

omit hp in
/-- **C118.** The core energy is that of the nuclei of all cells plus `tr D (h + v / 2)`, with `D` two electrons in each core orbital and `v` its potential. -/
theorem C118_core (h : Mos) (enuc : ℂ) (veff : Mos → Mos) :
    (h1ForCas nk nao ncore ncas phase C h enuc veff).2 = nk * enuc +
      trace nk nao (fun k i j => 2 * ∑ p ∈ Finset.range ncore, C k i p * star (C k j p))
        (fun k i j => h k i j + veff (fun k i j => 2 * ∑ p ∈ Finset.range ncore, C k i p * star (C k j p)) k i j / 2) := by
  unfold h1ForCas trace coreDm
  rw [mul_comm (nk : ℂ)]
  refine congrArg (enuc * (nk : ℂ) + ·) (Finset.sum_congr rfl fun k _ => Finset.sum_congr rfl fun i _ => Finset.sum_congr rfl fun j _ => ?_)
  rw [one_div_mul_eq_div]

variable (hC : Orthonormal nk nao (ncore + ncas) S C)
include hC

omit hp in
theorem act_orthonormal : Orthonormal nk nao ncas S (act ncore C) := by
  intro k hk p hp q hq
  have := hC k hk (ncore + p) (by omega) (ncore + q) (by omega)
  simp only [Nat.add_left_cancel_iff] at this
  exact this

/-- **C118.** The two-electron integrals vanish unless the crystal momentum is conserved, and are the integrals of the active orbitals divided by the number of
k-points otherwise. -/
theorem C118_h2 (eriK : Nat → Nat → Nat → M4 ℂ) {kcons : Nat → Nat → Nat → Nat} (hlt : ∀ a < nk, ∀ b < nk, ∀ c < nk, kcons a b c < nk)
    {a b c d u v w t : Nat} (ha : a < nk) (hb : b < nk) (hc : c < nk) (hd : d < nk) (hu : u < ncas) (hv : v < ncas) (hw : w < ncas) (ht : t < ncas) :
    getH2eff nk nao ncore ncas phase S C eriK kcons (a * ncas + u) (b * ncas + v) (c * ncas + w) (d * ncas + t) =
      if kcons a b c = d then 1 / nk * eriK a b c u v w t else 0 :=
  h2_val hp (act_orthonormal hC) eriK hlt ha hb hc hd hu hv hw ht

/-- **C118.** They have the symmetries that the solver relies on: exchange of the electrons, and conjugation when the orbitals of each electron are exchanged. -/
theorem C118_h2_symm {G : Type} [AddCommGroup G] {κ : Nat → G} {kcons : Nat → Nat → Nat → Nat} (hk : Conserving nk κ kcons) {eriK : Nat → Nat → Nat → M4 ℂ}
    (he : EriSym nk ncas kcons eriK) {p q r s : Nat} (h1 : p < nk * ncas) (h2 : q < nk * ncas) (h3 : r < nk * ncas) (h4 : s < nk * ncas) :
    getH2eff nk nao ncore ncas phase S C eriK kcons p q r s = getH2eff nk nao ncore ncas phase S C eriK kcons r s p q ∧
    getH2eff nk nao ncore ncas phase S C eriK kcons p q r s = star (getH2eff nk nao ncore ncas phase S C eriK kcons q p s r) := by
  have split : ∀ x, x < nk * ncas → ∃ a u, a < nk ∧ u < ncas ∧ x = a * ncas + u := by
    intro x hx
    have h0 : 0 < ncas := Nat.pos_of_ne_zero (by rintro rfl; simp at hx)
    exact ⟨x / ncas, x % ncas, Nat.div_lt_of_lt_mul (by rwa [Nat.mul_comm] at hx), Nat.mod_lt _ h0, (Nat.div_add_mod' x ncas).symm⟩
  obtain ⟨a, u, ha, hu, rfl⟩ := split p h1
  obtain ⟨b, v, hb, hv, rfl⟩ := split q h2
  obtain ⟨c, w, hc, hw, rfl⟩ := split r h3
  obtain ⟨d, t, hd, ht, rfl⟩ := split s h4
  have iff1 : ∀ a b c d, a < nk → b < nk → c < nk → d < nk → (kcons a b c = d ↔ κ a - κ b + κ c = κ d) := by
    intro a b c d ha hb hc hd
    rw [← hk.val a ha b hb c hc]
    exact ⟨fun h => h ▸ rfl, hk.inj _ (hk.lt a ha b hb c hc) d hd⟩
  have g1 : (kcons a b c = d) ↔ (kcons c d a = b) := by
    rw [iff1 a b c d ha hb hc hd, iff1 c d a b hc hd ha hb]
    constructor
    · intro h; rw [← h]; abel
    · intro h; rw [← h]; abel
  have g2 : (kcons a b c = d) ↔ (kcons b a d = c) := by
    rw [iff1 a b c d ha hb hc hd, iff1 b a d c hb ha hd hc]
    constructor
    · intro h; rw [← h]; abel
    · intro h; rw [← h]; abel
  constructor
  · rw [C118_h2 hp hC eriK hk.lt ha hb hc hd hu hv hw ht, C118_h2 hp hC eriK hk.lt hc hd ha hb hw ht hu hv]
    by_cases h : kcons a b c = d
    · rw [if_pos h, if_pos (g1.1 h), he.swap a ha b hb c hc u hu v hv w hw t ht, h]
    · rw [if_neg h, if_neg (fun x => h (g1.2 x))]
  · rw [C118_h2 hp hC eriK hk.lt ha hb hc hd hu hv hw ht, C118_h2 hp hC eriK hk.lt hb ha hd hc hv hu ht hw]
    by_cases h : kcons a b c = d
    · rw [if_pos h, if_pos (g2.1 h), star_mul', he.herm b hb a ha d hd v hv u hu t ht w hw, g2.1 h]
      simp
    · rw [if_neg h, if_neg (fun x => h (g2.2 x)), star_zero]

/-- **C118.** The density matrices in the atomic orbitals are those of the core plus `C D C†`, with `D` the block of the k-point on the diagonal of the
density matrix of the active space. -/
theorem C118_rdm1s (Da Db : M2 ℂ) {k : Nat} (hk : k < nk) (i j : Nat) :
    (makeRdm1s nk nao ncore ncas phase S C Da Db).1 k i j = (∑ p ∈ Finset.range ncore, C k i p * star (C k j p)) +
      ∑ m ∈ Finset.range ncas, ∑ m' ∈ Finset.range ncas, C k i (ncore + m) * Da (k * ncas + m) (k * ncas + m') * star (C k j (ncore + m')) ∧
    (makeRdm1s nk nao ncore ncas phase S C Da Db).2 k i j = (∑ p ∈ Finset.range ncore, C k i p * star (C k j p)) +
      ∑ m ∈ Finset.range ncas, ∑ m' ∈ Finset.range ncas, C k i (ncore + m) * Db (k * ncas + m) (k * ncas + m') * star (C k j (ncore + m')) :=
  ⟨congrArg (_ + ·) (casPart_val hp (act_orthonormal hC) Da hk i j), congrArg (_ + ·) (casPart_val hp (act_orthonormal hC) Db hk i j)⟩

/-- **C118.** The density matrix summed over spins is the sum of the two, and the density from which the Fock matrix is built is the same. -/
theorem C118_rdm1 (Da Db : M2 ℂ) {k : Nat} (hk : k < nk) (i j : Nat) :
    makeRdm1 nk nao ncore ncas phase S C (fun x y => Da x y + Db x y) k i j =
      (makeRdm1s nk nao ncore ncas phase S C Da Db).1 k i j + (makeRdm1s nk nao ncore ncas phase S C Da Db).2 k i j ∧
    fockDm nk nao ncore ncas phase S C (fun x y => Da x y + Db x y) k i j = makeRdm1 nk nao ncore ncas phase S C (fun x y => Da x y + Db x y) k i j := by
  constructor
  · rw [(C118_rdm1s hp hC Da Db hk i j).1, (C118_rdm1s hp hC Da Db hk i j).2]
    unfold makeRdm1
    rw [casPart_val hp (act_orthonormal hC) _ hk i j]
    simp only [mul_add, add_mul, Finset.sum_add_distrib]
    unfold act
    ring
  · unfold fockDm makeRdm1 casPart coreDm
    rw [mul_comm (2 : ℂ)]
    congr 1
    refine Finset.sum_congr rfl fun y _ => ?_
    unfold umat
    rw [star_sum]
    congr 1
    refine Finset.sum_congr rfl fun m _ => ?_
    rw [star_mul', mul_comm]

/-- **C118.** The trace of a one-electron operator with the density matrix is its trace with the core density plus that of its active block with the density
matrix of the active space. -/
theorem C118_trace (h : Mos) (D : M2 ℂ) :
    trace nk nao (makeRdm1 nk nao ncore ncas phase S C D) h = trace nk nao (coreDm ncore C) h +
      ∑ x ∈ Finset.range (nk * ncas), ∑ y ∈ Finset.range (nk * ncas), (h1ForCas nk nao ncore ncas phase C h 0 fun _ _ _ _ => 0).1 x y * D y x := by
  have e1 : (∑ x ∈ Finset.range (nk * ncas), ∑ y ∈ Finset.range (nk * ncas), (h1ForCas nk nao ncore ncas phase C h 0 fun _ _ _ _ => 0).1 x y * D y x) =
      ∑ k ∈ Finset.range nk, ∑ m ∈ Finset.range ncas, ∑ m' ∈ Finset.range ncas, inMo nao h (act ncore C) k m m' * D (k * ncas + m') (k * ncas + m) := by
    rw [sum_rc]
    refine Finset.sum_congr rfl fun k hk => Finset.sum_congr rfl fun m hm => ?_
    rw [sum_rc]
    have : ∀ k' ∈ Finset.range nk, (∑ m' ∈ Finset.range ncas, (h1ForCas nk nao ncore ncas phase C h 0 fun _ _ _ _ => 0).1 (k * ncas + m) (k' * ncas + m') *
        D (k' * ncas + m') (k * ncas + m)) = if k' = k then (∑ m' ∈ Finset.range ncas, inMo nao h (act ncore C) k m m' * D (k' * ncas + m') (k * ncas + m)) else 0 := by
      intro k' hk'
      rw [Finset.sum_congr rfl fun m' hm' => by rw [h1_val hp h 0 _ (Finset.mem_range.1 hk) (Finset.mem_range.1 hk') (Finset.mem_range.1 hm) (Finset.mem_range.1 hm')]]
      by_cases hkk : k = k'
      · simp [hkk]
      · have h2 : ¬k' = k := fun x => hkk x.symm
        simp [hkk, h2]
    rw [Finset.sum_congr rfl this, sum_one nk (Finset.mem_range.1 hk)]
  rw [e1]
  unfold trace
  rw [← Finset.sum_add_distrib]
  refine Finset.sum_congr rfl fun k hk => ?_
  have e2 : ∀ i ∈ Finset.range nao, ∀ j ∈ Finset.range nao, makeRdm1 nk nao ncore ncas phase S C D k i j * h k j i = coreDm ncore C k i j * h k j i +
      ∑ m ∈ Finset.range ncas, ∑ m' ∈ Finset.range ncas, (star (act ncore C k j m') * h k j i * act ncore C k i m) * D (k * ncas + m) (k * ncas + m') := by
    intro i _ j _
    unfold makeRdm1
    rw [casPart_val hp (act_orthonormal hC) D (Finset.mem_range.1 hk) i j, add_mul, Finset.sum_mul (Finset.range ncas)]
    have ec : (∑ p ∈ Finset.range ncore, C k i p * star (C k j p)) * 2 * h k j i = coreDm ncore C k i j * h k j i := by
      unfold coreDm
      ring
    refine congrArg₂ (· + ·) ?_ (Finset.sum_congr rfl fun m _ => ?_)
    · rw [← ec, Finset.sum_mul]
    rw [Finset.sum_mul]
    refine Finset.sum_congr rfl fun m' _ => ?_
    ring
  rw [Finset.sum_congr rfl fun i hi => Finset.sum_congr rfl fun j hj => e2 i hi j hj]
  simp only [Finset.sum_add_distrib]
  congr 1
  have e3 : (∑ m ∈ Finset.range ncas, ∑ m' ∈ Finset.range ncas, inMo nao h (act ncore C) k m m' * D (k * ncas + m') (k * ncas + m)) =
      ∑ m ∈ Finset.range ncas, ∑ m' ∈ Finset.range ncas, inMo nao h (act ncore C) k m' m * D (k * ncas + m) (k * ncas + m') := Finset.sum_comm
  rw [e3]
  unfold inMo
  simp only [Finset.sum_mul]
  have s1 : ∀ F : Nat → Nat → Nat → Nat → ℂ, (∑ i ∈ Finset.range nao, ∑ j ∈ Finset.range nao, ∑ m ∈ Finset.range ncas, ∑ m' ∈ Finset.range ncas, F i j m m') =
      ∑ m ∈ Finset.range ncas, ∑ m' ∈ Finset.range ncas, ∑ j ∈ Finset.range nao, ∑ i ∈ Finset.range nao, F i j m m' := by
    intro F
    have t0 : ∀ G : Nat → Nat → ℂ, (∑ i ∈ Finset.range nao, ∑ j ∈ Finset.range nao, G i j) = ∑ j ∈ Finset.range nao, ∑ i ∈ Finset.range nao, G i j :=
      fun G => Finset.sum_comm
    rw [t0]
    have t1 : ∀ G : Nat → Nat → ℂ, (∑ i ∈ Finset.range nao, ∑ m ∈ Finset.range ncas, G i m) = ∑ m ∈ Finset.range ncas, ∑ i ∈ Finset.range nao, G i m :=
      fun G => Finset.sum_comm
    simp only [t1]
  exact s1 _

/-- **C118.** The density matrices contain all electrons: two for each core orbital of each k-point and those of the active space. -/
theorem C118_electrons (D : M2 ℂ) :
    trace nk nao (makeRdm1 nk nao ncore ncas phase S C D) S = 2 * ncore * nk + ∑ x ∈ Finset.range (nk * ncas), D x x := by
  rw [C118_trace hp hC S D]
  congr 1
  · unfold trace
    have : ∀ k ∈ Finset.range nk, (∑ i ∈ Finset.range nao, ∑ j ∈ Finset.range nao, coreDm ncore C k i j * S k j i) = 2 * ncore := by
      intro k hk
      have e : ∀ p ∈ Finset.range ncore, (∑ j ∈ Finset.range nao, ∑ i ∈ Finset.range nao, star (C k j p) * S k j i * C k i p) = 1 := by
        intro p hp'
        have hp' := Finset.mem_range.1 hp'
        rw [hC k (Finset.mem_range.1 hk) p (by omega) p (by omega), if_pos rfl]
      have e2 : (2 * ncore : ℂ) = 2 * ∑ p ∈ Finset.range ncore, ∑ j ∈ Finset.range nao, ∑ i ∈ Finset.range nao, star (C k j p) * S k j i * C k i p := by
        rw [Finset.sum_congr rfl e]; simp
      rw [e2]
      unfold coreDm
      simp only [Finset.mul_sum, Finset.sum_mul]
      rw [Finset.sum_comm]
      rw [Finset.sum_comm (s := Finset.range ncore)]
      refine Finset.sum_congr rfl fun j _ => ?_
      rw [Finset.sum_comm (s := Finset.range ncore)]
      refine Finset.sum_congr rfl fun i _ => Finset.sum_congr rfl fun p _ => ?_
      ring
    rw [Finset.sum_congr rfl this]
    simp
    ring
  · rw [sum_rc, sum_rc]
    refine Finset.sum_congr rfl fun k hk => Finset.sum_congr rfl fun m hm => ?_
    have hk := Finset.mem_range.1 hk
    have hm := Finset.mem_range.1 hm
    rw [sum_rc]
    have : ∀ k' ∈ Finset.range nk, (∑ m' ∈ Finset.range ncas, (h1ForCas nk nao ncore ncas phase C S 0 fun _ _ _ _ => 0).1 (k * ncas + m) (k' * ncas + m') *
        D (k' * ncas + m') (k * ncas + m)) = if k' = k then D (k' * ncas + m) (k * ncas + m) else 0 := by
      intro k' hk'
      have hk' := Finset.mem_range.1 hk'
      by_cases hkk : k' = k
      · subst hkk
        rw [if_pos rfl]
        have e : ∀ m' ∈ Finset.range ncas, (h1ForCas nk nao ncore ncas phase C S 0 fun _ _ _ _ => 0).1 (k' * ncas + m) (k' * ncas + m') *
            D (k' * ncas + m') (k' * ncas + m) = if m' = m then D (k' * ncas + m') (k' * ncas + m) else 0 := by
          intro m' hm'
          have hm' := Finset.mem_range.1 hm'
          rw [h1_val hp S 0 _ hk hk hm hm', if_pos rfl]
          simp only [add_zero]
          have := act_orthonormal hC k' hk m hm m' hm'
          unfold inMo
          rw [this]
          by_cases hmm : m = m'
          · rw [if_pos hmm, if_pos hmm.symm, one_mul]
          · rw [if_neg hmm, if_neg (fun x => hmm x.symm), zero_mul]
        rw [Finset.sum_congr rfl e, sum_one ncas hm]
      · rw [if_neg hkk]
        refine Finset.sum_eq_zero fun m' hm' => ?_
        rw [h1_val hp S 0 _ hk hk' hm (Finset.mem_range.1 hm'), if_neg (fun x => hkk x.symm), zero_mul]
    rw [Finset.sum_congr rfl this, sum_one nk hk]
end

/-- Two k-points with a unitary matrix of phases that is not diagonal, one core and one active orbital, complex at the first k-point; `κ` counts modulo 2. -/
theorem twoK : UnitaryPhase 2 (fun R k => if R = k then (if k = 0 then 3 / 5 else -3 / 5) else 4 / 5) ∧ Orthonormal 2 2 (1 + 1) (fun _ u v => if u = v then 1 else 0)
    (fun k u p => if k = 0 then (if u = p then Complex.I else 0) else (if u = p then 0 else 1)) ∧
    Conserving 2 (fun k => (k : ZMod 2)) (fun a b c => (a + b + c) % 2) ∧ EriSym 2 1 (fun a b c => (a + b + c) % 2) (fun a b c _ _ _ _ => ((a + b) * (c + (a + b + c) % 2) : ℕ)) := by
  refine ⟨?_, ?_, ⟨?_, ?_, ?_⟩, ⟨?_, ?_⟩⟩
  · intro k hk k' hk'
    interval_cases k <;> interval_cases k' <;> simp [Finset.sum_range_succ, map_ofNat] <;> norm_num
  · intro k hk p hp q hq
    interval_cases k <;> interval_cases p <;> interval_cases q <;> simp [Finset.sum_range_succ]
  · intro a ha b hb
    interval_cases a <;> interval_cases b <;> decide
  · intro a _ b _ c _
    exact Nat.mod_lt _ Nat.zero_lt_two
  · intro a ha b hb c hc
    interval_cases a <;> interval_cases b <;> interval_cases c <;> decide
  · intro a ha b hb c hc u _ v _ w _ t _
    interval_cases a <;> interval_cases b <;> interval_cases c <;> simp
  · intro a ha b hb c hc u _ v _ w _ t _
    interval_cases a <;> interval_cases b <;> interval_cases c <;> simp

example (D : M2 ℂ) : trace 2 2 (makeRdm1 2 2 1 1 (fun R k => if R = k then (if k = 0 then 3 / 5 else -3 / 5) else 4 / 5) (fun _ u v => if u = v then 1 else 0)
    (fun k u p => if k = 0 then (if u = p then Complex.I else 0) else (if u = p then 0 else 1)) D) (fun _ u v => if u = v then 1 else 0) =
    2 * (1 : ℕ) * (2 : ℕ) + ∑ x ∈ Finset.range (2 * 1), D x x :=
  C118_electrons (ncore := 1) (ncas := 1) twoK.1 twoK.2.1 D

end Verif.Props
