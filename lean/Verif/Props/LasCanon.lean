import Verif.Lemmas.LasCanon
import Mathlib.Analysis.Matrix.Spectrum
import Mathlib.Data.Fin.Tuple.Sort
import Mathlib.Tactic.NormNum
import Mathlib.Tactic.IntervalCases
/-!
# C124: canonical orbitals of LASSCF wave functions
-/
namespace Verif.Props
open Verif.LasCanon Verif.Spec.LasCanon

variable {K Ci : Type} [Field K] [LinearOrder K]

/-- C124: the returned orbitals are the old ones, rotated by an orthogonal matrix which mixes only inactive orbitals, only virtual orbitals
and only active orbitals of the same fragment (or all active orbitals, if and only if the density matrix connects fragments). The Fock matrix
is diagonal among inactive and among virtual orbitals, with the returned energies, in ascending order; the density matrix is diagonal in
each fragment, with the returned occupations, in descending order. The CI vectors are rotated like the orbitals of their fragments, or `None`
if fragments are mixed; a density matrix which is rotated with the orbitals of its space remains the same over atomic orbitals. -/
theorem C124_canonical [IsStrictOrderedRing K] (I : Input K Ci) (X : Ext K Ci) (tol : K) (ht : 0 < tol) (hX : EigContract X.eig)
    (hs : SortContract X.argsort) (hF : ∀ μ ν, I.fock μ ν = I.fock ν μ) (hD : ∀ p q, I.natorb p q = I.natorb q p)
    (hle : I.ncore + I.sub.sum ≤ I.nmo) :
    ∃ U parts,
      (Uncoupled I.sub tol I.natorb → parts = I.sub) ∧ (¬ Uncoupled I.sub tol I.natorb → parts = [I.sub.sum]) ∧
      Rotated I.nmo I.mo (I.moOut X tol) U ∧ KeepsSpaces I.ncore I.nmo parts U ∧
      (∀ p < I.nmo, ∀ q < I.nmo, (p < I.ncore ∧ q < I.ncore) ∨ (I.ncore + I.sub.sum ≤ p ∧ I.ncore + I.sub.sum ≤ q) →
        Spec.LasEnergy.mo1 I.nao (I.moOut X tol) I.fock p q = (if p = q then I.moEne X tol p else 0) ∧
        (p ≤ q → I.moEne X tol p ≤ I.moEne X tol q)) ∧
      (∀ a n, IsPart parts 0 a n → ∀ p q, a ≤ p → p < a + n → a ≤ q → q < a + n →
        rot I.sub.sum (fun u v => U (I.ncore + u) (I.ncore + v)) I.natorb p q =
          (if p = q then I.moOcc X tol (I.ncore + p) else 0) ∧
        (p ≤ q → I.moOcc X tol (I.ncore + q) ≤ I.moOcc X tol (I.ncore + p))) ∧
      (∀ p, (p < I.ncore → I.moOcc X tol p = 2) ∧ (I.ncore + I.sub.sum ≤ p → I.moOcc X tol p = 0) ∧
        (I.ncore ≤ p → p < I.ncore + I.sub.sum → I.moEne X tol p = 0)) ∧
      (∀ f, (¬ Uncoupled I.sub tol I.natorb → I.ciOut X tol f = none) ∧ (Uncoupled I.sub tol I.natorb → I.ciOut X tol f =
        some (X.rotate f (I.ci f) fun a b => U (I.ncore + (I.sub.take f).sum + a) (I.ncore + (I.sub.take f).sum + b)))) ∧
      (∀ o n, IsSpace I.ncore I.nmo parts o n → ∀ (d : Nat → Nat → K) μ ν,
        ∑ a ∈ Finset.range n, ∑ b ∈ Finset.range n,
          I.moOut X tol μ (o + a) * rot n (fun a b => U (o + a) (o + b)) d a b * I.moOut X tol ν (o + b) =
        ∑ a ∈ Finset.range n, ∑ b ∈ Finset.range n, I.mo μ (o + a) * d a b * I.mo ν (o + b)) := by
  have hF' := fockMo_symm I hF
  have hrot : Rotated I.nmo I.mo (I.moOut X tol) (I.umat X tol) := fun μ p => rfl
  have hiff : isBlockDiag tol I.sub I.natorb = true ↔ Uncoupled I.sub tol I.natorb := isBlockDiag_iff tol ht I.sub I.natorb
  refine ⟨I.umat X tol, parts I tol, fun h => ?_, fun h => ?_, hrot, keeps I X tol hX hs hF' hD hle, ?_, ?_, fun p => ⟨fun h => ?_, fun h => ?_, fun h h' => ?_⟩, fun f => ⟨fun h => ?_, fun h => ?_⟩,
    fun o n h d μ ν => ?_⟩
  · unfold parts; rw [if_pos (hiff.2 h)]
  · unfold parts; rw [if_neg fun h' => h (hiff.1 h')]; rfl
  · intro p hp q hq hpq
    have e0 : Spec.LasEnergy.mo1 I.nao I.mo I.fock = I.fockMo := by funext p q; rw [fockMo_eq]
    rw [mo1_rot I.nao I.nmo I.mo _ _ _ hrot, e0]
    rcases hpq with ⟨h1, h2⟩ | ⟨h1, h2⟩
    · have B := core_blk I X tol hX hs hF'
      have hv : ∀ x < I.ncore, I.moEne X tol x = (eigIV X I.ncore I.nocc I.nmo I.fockMo).1
          (X.argsort I.ncore (eigIV X I.ncore I.nocc I.nmo I.fockMo).1 x) := by
        intro x hx
        rw [moEne_rot I X tol (by omega), B.diag (N := I.nmo) (by omega) (by omega) (by omega) (by omega) (by omega), if_pos rfl]
        have hlt := (hs I.ncore (eigIV X I.ncore I.nocc I.nmo I.fockMo).1).1 x hx
        rw [Nat.sub_zero]
        generalize X.argsort I.ncore (eigIV X I.ncore I.nocc I.nmo I.fockMo).1 x = s at hlt
        simp only [eigIV]
        rw [if_neg (by unfold Input.nocc; omega), if_pos hlt]
      refine ⟨?_, fun hpq => ?_⟩
      · rw [moEne_rot I X tol (by omega), B.diag (by omega) (by omega) (by omega) (by omega) (by omega),
          B.diag (by omega) (by omega) (by omega) (by omega) (by omega)]
        simp
      · rw [hv p h1, hv q h2]
        exact (hs _ _).2.2 p q hpq h2
    · have hn : I.nocc = I.ncore + I.sub.sum := rfl
      have B := virt_blk I X tol hX hs hF'
      have hv : ∀ x, I.nocc ≤ x → x < I.nmo → I.moEne X tol x = (eigIV X I.ncore I.nocc I.nmo I.fockMo).1 (I.nocc +
          X.argsort (I.nmo - I.nocc) (fun k => (eigIV X I.ncore I.nocc I.nmo I.fockMo).1 (I.nocc + k)) (x - I.nocc)) := by
        intro x hx hx'
        rw [moEne_rot I X tol (by omega), B.diag (N := I.nmo) (by omega) (by omega) (by omega) (by omega) (by omega), if_pos rfl]
        generalize X.argsort (I.nmo - I.nocc) (fun k => (eigIV X I.ncore I.nocc I.nmo I.fockMo).1 (I.nocc + k)) (x - I.nocc) = s
        simp only [eigIV]
        rw [if_pos (by omega), Nat.add_sub_cancel_left]
      refine ⟨?_, fun hpq => ?_⟩
      · rw [moEne_rot I X tol (by omega), B.diag (by omega) (by omega) (by omega) (by omega) (by omega),
          B.diag (by omega) (by omega) (by omega) (by omega) (by omega)]
        simp
      · rw [hv p (by omega) hp, hv q (by omega) hq]
        exact (hs (I.nmo - I.nocc) (fun k => (eigIV X I.ncore I.nocc I.nmo I.fockMo).1 (I.nocc + k))).2.2 (p - I.nocc)
          (q - I.nocc) (by omega) (by omega)
  · intro a n hpart p q h1 h2 h3 h4
    have hb := part_bounds _ _ _ _ hpart
    rw [parts_sum] at hb
    have B : Blk (I.ucas X tol) a n I.natorb _ _ _ := ucas_blk (part_blk I X tol hX hs hD hpart)
    have hn : I.ncas = I.sub.sum := rfl
    have hv : ∀ x, a ≤ x → x < a + n → I.moOcc X tol (I.ncore + x) = (X.eig n fun x y => I.natorb (a + x) (a + y)).1
        (X.argsort n (X.eig n fun x y => I.natorb (a + x) (a + y)).1 (n - 1 - (x - a))) := by
      intro x hx hx'
      rw [moOcc_rot I X tol (by omega), B.diag (by omega) hx hx' hx hx', if_pos rfl]
    refine ⟨?_, fun hpq => ?_⟩
    · have := B.diag (N := I.ncas) (by omega) h1 h2 h3 h4
      rw [hv p h1 h2]
      exact this
    · rw [hv p h1 h2, hv q h3 h4]
      exact (hs _ _).2.2 _ _ (by omega) (by omega)
  · unfold Input.moOcc; rw [if_pos h]
  · have hn : I.nocc = I.ncore + I.sub.sum := rfl
    unfold Input.moOcc; rw [if_neg (by omega), if_neg (by omega)]
  · have hn : I.nocc = I.ncore + I.sub.sum := rfl
    unfold Input.moEne; rw [if_pos (by omega)]
  · unfold Input.ciOut; rw [if_neg fun h' => h (hiff.1 h')]
  · unfold Input.ciOut PsEnergy.lo; rw [if_pos (hiff.2 h)]
  · obtain ⟨M, e, c, π, B⟩ := space_blk I X tol hX hs hF' hD h
    have hon : o + n ≤ I.nmo := space_le (by rw [parts_sum]; exact hle) h
    rw [← density_same n (fun a b => I.umat X tol (o + a) (o + b)) (fun μ k => I.mo μ (o + k)) (fun μ k => I.mo μ (o + k)) d
      (fun r hr t ht => B.rows hr ht) μ ν]
    refine Finset.sum_congr rfl fun a ha => Finset.sum_congr rfl fun b hb => ?_
    rw [moOut_space I X tol B hon μ (Finset.mem_range.1 ha), moOut_space I X tol B hon ν (Finset.mem_range.1 hb)]

/-- C124: the returned integrals are those over the returned orbitals. -/
theorem C124_h2eff (I : Input K Ci) (X : Ext K Ci) (tol : K) (hX : EigContract X.eig) (hs : SortContract X.argsort)
    (hD : ∀ p q, I.natorb p q = I.natorb q p) (hle : I.ncore + I.sub.sum ≤ I.nmo) (g : Nat → Nat → Nat → Nat → K)
    (hg : Spec.LasEnergy.EightFold g)
    (h2 : Spec.LasEnergy.Packed I.nmo I.ncore I.sub.sum I.h2 (Spec.LasEnergy.mo2 I.nao I.mo g)) :
    Spec.LasEnergy.Packed I.nmo I.ncore I.sub.sum (I.h2Out X tol) (Spec.LasEnergy.mo2 I.nao (I.moOut X tol) g) := by
  intro p u v w hp hu hv hw
  have hncas : I.ncas = I.sub.sum := rfl
  replace hu : u < I.ncas := hu
  have hk : v * (v + 1) / 2 + w < I.ncas * (I.ncas + 1) / 2 := by
    have := DfInts.pair_lt (n := I.ncas) hv (lt_of_le_of_lt hw hv)
    unfold DfInts.pair at this
    rw [if_pos hw] at this
    exact this
  have hG : ∀ C : Nat → Nat → K, ∀ p q r s, Spec.LasEnergy.mo2 I.nao C g p q r s =
      t4 I.nao (fun μ => C μ p) (fun μ => C μ q) (fun μ => C μ r) (fun μ => C μ s) g := fun _ _ _ _ _ => rfl
  have hsym : ∀ p q r s, Spec.LasEnergy.mo2 I.nao I.mo g p q r s = Spec.LasEnergy.mo2 I.nao I.mo g p q s r := by
    intro p q r s
    rw [hG, hG, t4_cd]
    have : (fun μ ν l k => g μ ν k l) = g := by funext μ ν l k; rw [hg.ket]
    rw [this]
  have h0 : ∀ x < I.nmo, ∀ q < I.ncas, ∀ r < I.ncas, ∀ s < I.ncas,
      LasEnergy.Las.unpackTril (fun k => I.h2 ((x * I.ncas + q) * (I.ncas * (I.ncas + 1) / 2) + k)) r s =
      Spec.LasEnergy.mo2 I.nao I.mo g x (I.ncore + q) (I.ncore + r) (I.ncore + s) := by
    intro x hx q hq r hr s hs'
    unfold LasEnergy.Las.unpackTril
    split
    · exact h2 x q r s hx hq hr (by assumption)
    · rw [hsym]; exact h2 x q s r hx hq hs' (by omega)
  unfold Input.h2Out
  simp only
  rw [← hncas, Nat.mul_comm (p * I.ncas + u), Nat.mul_add_div (by omega), Nat.mul_add_mod, Nat.div_eq_of_lt hk, Nat.mod_eq_of_lt hk,
    Nat.add_zero, Nat.mul_comm p, Nat.mul_add_div (by omega), Nat.mul_add_mod, Nat.div_eq_of_lt (by omega), Nat.mod_eq_of_lt hu,
    Nat.add_zero, DfInts.packTril_eq _ hw, hG]
  have hw' : w < I.ncas := lt_of_le_of_lt hw hv
  have c1 : (fun μ => I.moOut X tol μ (I.ncore + u)) = fun μ => ∑ x ∈ Finset.range I.ncas, I.mo μ (I.ncore + x) * I.ucas X tol x u := by
    funext μ; exact moOut_cas I X tol hX hs hD hle μ hu
  have c2 : (fun μ => I.moOut X tol μ (I.ncore + v)) = fun μ => ∑ x ∈ Finset.range I.ncas, I.mo μ (I.ncore + x) * I.ucas X tol x v := by
    funext μ; exact moOut_cas I X tol hX hs hD hle μ hv
  have c3 : (fun μ => I.moOut X tol μ (I.ncore + w)) = fun μ => ∑ x ∈ Finset.range I.ncas, I.mo μ (I.ncore + x) * I.ucas X tol x w := by
    funext μ; exact moOut_cas I X tol hX hs hD hle μ hw'
  have c0 : (fun μ => I.moOut X tol μ p) = fun μ => ∑ x ∈ Finset.range I.nmo, I.mo μ x * I.umat X tol x p := rfl
  rw [c0, c1, c2, c3, t4_lin_d I.nao I.ncas (fun μ x => I.mo μ (I.ncore + x))]
  refine Finset.sum_congr rfl fun s hs' => ?_
  rw [t4_lin_c I.nao I.ncas (fun μ x => I.mo μ (I.ncore + x))]
  congr 1
  refine Finset.sum_congr rfl fun r hr => ?_
  rw [t4_lin_b I.nao I.ncas (fun μ x => I.mo μ (I.ncore + x))]
  congr 1
  refine Finset.sum_congr rfl fun q hq => ?_
  rw [t4_lin_a I.nao I.nmo (fun μ x => I.mo μ x)]
  congr 1
  refine Finset.sum_congr rfl fun x hx => ?_
  rw [h0 x (Finset.mem_range.1 hx) q (Finset.mem_range.1 hq) r (Finset.mem_range.1 hr) s (Finset.mem_range.1 hs')]
  rfl

/-- A diagonalization with the promised properties exists. -/
theorem lasCanon_eig_exists : ∃ eig : Nat → (Nat → Nat → ℝ) → (Nat → ℝ) × (Nat → Nat → ℝ), EigContract eig := by
  classical
  have key : ∀ (n : Nat) (f : Nat → Nat → ℝ), ∃ e : (Nat → ℝ) × (Nat → Nat → ℝ), (∀ a < n, ∀ b < n, f a b = f b a) → IsEig n f e := by
    intro n f
    by_cases hf : ∀ a < n, ∀ b < n, f a b = f b a
    · let A : Matrix (Fin n) (Fin n) ℝ := fun a b => f a b
      have hA : A.IsHermitian := by
        ext a b
        exact hf b b.2 a a.2
      let U : Matrix (Fin n) (Fin n) ℝ := hA.eigenvectorUnitary
      have u1 : star U * U = 1 := Unitary.coe_star_mul_self hA.eigenvectorUnitary
      have u2 : U * star U = 1 := Unitary.coe_mul_star_self hA.eigenvectorUnitary
      let u : Nat → Nat → ℝ := fun a b => if h : a < n ∧ b < n then U ⟨a, h.1⟩ ⟨b, h.2⟩ else 0
      let w : Nat → ℝ := fun a => if h : a < n then hA.eigenvalues ⟨a, h⟩ else 0
      have hu : ∀ a b : Fin n, u a b = U a b := fun a b => dif_pos ⟨a.2, b.2⟩
      refine ⟨(w, u), fun _ => ⟨fun a ha b hb => ?_, fun a ha b hb => ?_, fun a ha b hb => ?_⟩⟩
      · have := congrFun (congrFun u1 ⟨a, ha⟩) ⟨b, hb⟩
        rw [Matrix.mul_apply, Matrix.one_apply] at this
        rw [Finset.sum_range]
        refine Eq.trans (Finset.sum_congr rfl fun c _ => ?_) (this.trans (if_congr Fin.mk_eq_mk rfl rfl))
        exact congrArg₂ (fun x y : ℝ => x * y) (hu c ⟨a, ha⟩) (hu c ⟨b, hb⟩)
      · have := congrFun (congrFun u2 ⟨a, ha⟩) ⟨b, hb⟩
        rw [Matrix.mul_apply, Matrix.one_apply] at this
        rw [Finset.sum_range]
        refine Eq.trans (Finset.sum_congr rfl fun c _ => ?_) (this.trans (if_congr Fin.mk_eq_mk rfl rfl))
        exact congrArg₂ (fun x y : ℝ => x * y) (hu ⟨a, ha⟩ c) (hu ⟨b, hb⟩ c)
      · have := congrFun (hA.mulVec_eigenvectorBasis ⟨b, hb⟩) ⟨a, ha⟩
        have hw : w b = hA.eigenvalues ⟨b, hb⟩ := dif_pos hb
        rw [Finset.sum_range]
        refine Eq.trans (Finset.sum_congr rfl fun c _ => ?_) (this.trans (Eq.trans ?_ (congrArg₂ (fun x y : ℝ => x * y) (hu ⟨a, ha⟩ ⟨b, hb⟩).symm hw.symm)))
        · exact congrArg (fun x : ℝ => f a c * x) (hu c ⟨b, hb⟩)
        · exact mul_comm ((hA.eigenvalues ⟨b, hb⟩ : ℝ)) (U ⟨a, ha⟩ ⟨b, hb⟩)
    · exact ⟨(0, 0), fun h => absurd h hf⟩
  choose e he using key
  exact ⟨e, he⟩

/-- So does a sorting routine. -/
theorem lasCanon_sort_exists : ∃ argsort : Nat → (Nat → ℝ) → Nat → Nat, SortContract argsort := by
  refine ⟨fun n w a => if h : a < n then (Tuple.sort (fun i : Fin n => w i) ⟨a, h⟩ : Nat) else a, fun n w => ⟨fun a ha => ?_, fun a ha b hb h => ?_,
    fun a b hab hb => ?_⟩⟩
  · simp only [dif_pos ha]; exact Fin.isLt _
  · simp only [dif_pos ha, dif_pos hb] at h
    have := (Tuple.sort (fun i : Fin n => w i)).injective (Fin.ext h)
    exact Fin.mk_eq_mk.1 this
  · have ha : a < n := by omega
    simp only [dif_pos ha, dif_pos hb]
    exact Tuple.monotone_sort (fun i : Fin n => w i) (show (⟨a, ha⟩ : Fin n) ≤ ⟨b, hb⟩ from hab)

/-- One inactive orbital, two fragments of two orbitals and two virtual orbitals; the density matrix connects orbitals of the same fragment,
the Fock matrix all orbitals. -/
def lasCanonCase : Input ℝ Unit where
  nao := 7
  nmo := 7
  ncore := 1
  sub := [2, 2]
  mo := fun μ p => if μ = p then 1 else 0
  fock := fun μ ν => μ * ν
  natorb := fun p q => if p / 2 = q / 2 then p + q + 1 else 0
  h2 := fun _ => 1
  ci := fun _ => ()

example : ∃ X : Ext ℝ Unit, EigContract X.eig ∧ SortContract X.argsort ∧ (0 : ℝ) < 1e-8 ∧
    (∀ μ ν, lasCanonCase.fock μ ν = lasCanonCase.fock ν μ) ∧ (∀ p q, lasCanonCase.natorb p q = lasCanonCase.natorb q p) ∧
    lasCanonCase.ncore + lasCanonCase.sub.sum ≤ lasCanonCase.nmo ∧ Uncoupled lasCanonCase.sub 1e-8 lasCanonCase.natorb ∧
    ¬ Uncoupled [1, 3] 1e-8 lasCanonCase.natorb := by
  obtain ⟨eig, he⟩ := lasCanon_eig_exists
  obtain ⟨as, ha⟩ := lasCanon_sort_exists
  refine ⟨⟨eig, as, fun _ c _ => c⟩, he, ha, by norm_num, fun μ ν => mul_comm _ _, fun p q => ?_, by decide, ?_, fun h => ?_⟩
  · unfold lasCanonCase
    simp only [eq_comm (a := p / 2)]
    split
    · ring
    · rfl
  · intro p hp q hq h
    have h1 := h 0 2 (Or.inl ⟨rfl, rfl⟩)
    have h2 := h 2 2 (Or.inr (Or.inl ⟨rfl, rfl⟩))
    have hp : p < 4 := hp
    have hq : q < 4 := hq
    unfold lasCanonCase
    simp only
    rw [if_neg (by omega)]
    norm_num
  · have := h 0 (by decide) 1 (by decide) (by
      intro a n hp
      rcases hp with ⟨rfl, rfl⟩ | ⟨rfl, rfl⟩ | hp
      · omega
      · omega
      · exact absurd hp (by simp [IsPart]))
    unfold lasCanonCase at this
    norm_num at this

/-- The integrals `(pu|vw) = 1` for these orbitals, packed, meet the hypotheses of `C124_h2eff`. -/
example : Spec.LasEnergy.EightFold (fun _ _ _ _ : Nat => (1 : ℝ)) ∧
    Spec.LasEnergy.Packed lasCanonCase.nmo lasCanonCase.ncore lasCanonCase.sub.sum lasCanonCase.h2
      (Spec.LasEnergy.mo2 lasCanonCase.nao lasCanonCase.mo fun _ _ _ _ => 1) := by
  refine ⟨⟨fun _ _ _ _ => rfl, fun _ _ _ _ => rfl, fun _ _ _ _ => rfl⟩, fun p u v w hp hu hv hw => ?_⟩
  have hp : p < 7 := hp
  have hu : u < 4 := hu
  have hv : v < 4 := hv
  have e : ∀ x, x < 7 → ∑ μ ∈ Finset.range 7, (if μ = x then (1 : ℝ) else 0) = 1 := by
    intro x hx
    rw [Finset.sum_ite_eq' (Finset.range 7) x, if_pos (Finset.mem_range.2 hx)]
  unfold Spec.LasEnergy.mo2 lasCanonCase
  simp only [mul_one, ← Finset.mul_sum, ← Finset.sum_mul]
  rw [e _ hp, e _ (by omega), e _ (by omega), e _ (by omega)]
  norm_num

end Verif.Props
