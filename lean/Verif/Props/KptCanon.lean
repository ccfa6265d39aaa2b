import Verif.Lemmas.KptCanon
import Mathlib.Analysis.Matrix.Spectrum
/-!
# Properties of the canonical orbitals of k-point calculations
-/
namespace Verif.Props
open Verif.HalfOp Verif.KptCas Verif.KptCanon Verif.Spec.KptCas Verif.Spec.KptCanon

/-- What one block does to the orbitals and energies of one k-point. -/
structure BlockStep (nao : Nat) (F : M2 ℂ) (idx : List Nat) (C : M2 ℂ) (E : Nat → ℂ) (C' : M2 ℂ) (E' : Nat → ℂ) : Prop where
  other : ∀ p ∉ idx, ∀ i, C' i p = C i p
  energy : ∀ p ∉ idx, E' p = E p
  ortho : ∀ (S : M2 ℂ) (n : Nat), (∀ p ∈ idx, p < n) → (∀ p < n, ∀ q < n, form nao S C p q = if p = q then 1 else 0) →
    ∀ p < n, ∀ q < n, form nao S C' p q = if p = q then 1 else 0
  fock : (∀ p ∈ idx, E p = form nao F C p p) → ∀ p ∈ idx, ∀ q ∈ idx, form nao F C' p q = if p = q then E' p else 0
  dens : ∀ n, (∀ p ∈ idx, p < n) → ∀ i j, ∑ p ∈ Finset.range n, C' i p * star (C' j p) = ∑ p ∈ Finset.range n, C i p * star (C j p)

section
variable {nk nao nmo ncore ncas next : Nat} {sort : Bool} {eig : Nat → M2 ℂ → (Nat → ℂ) × M2 ℂ} {argsort : Nat → (Nat → ℂ) → Nat → Nat} {F : Mos}
  {frozen : List Nat} {mo : Ref} {H : Heap}

theorem diagSub_step (he : EigContract eig) (hs : SortContract argsort) (hF : HermFock nk nao F) {r : Ref}
    (hr : ∀ a < nk, ∀ b < nk, r.addr a = r.addr b → a = b) {idx : List Nat} (hn : idx.Nodup) (H : Heap) (E : Nat → Nat → ℂ) {k : Nat} (hk : k < nk) :
    BlockStep nao (F k) idx (H (r.addr k)) (E k) ((diagSub nk nao sort eig argsort F r idx (H, E)).1 (r.addr k))
      ((diagSub nk nao sort eig argsort F r idx (H, E)).2 k) := by
  by_cases hl : 1 < idx.length
  · obtain ⟨h1, h2⟩ := (diagSub_val (nao := nao) (sort := sort) (eig := eig) (argsort := argsort) (F := F) hr hl H E).1 k hk
    rw [h1, h2]
    have hu : IsEig idx.length (subFock nao (F k) (H (r.addr k)) idx) (solve sort eig argsort idx.length (subFock nao (F k) (H (r.addr k)) idx)) :=
      solve_eig he hs sort fun a _ b _ => by
        rw [subFock_eq, subFock_eq]
        exact form_herm (hF k hk) _ _ _
    refine ⟨fun p hp i => rotate_not _ _ i hp, fun p hp => if_neg hp, fun S n hi hC p hp q hq => ortho_rotate hn hi hu hC hp hq,
      fun _ p hp q hq => ?_, fun n hi i j => dens_rotate hn hu hi i j⟩
    obtain ⟨a, ha, rfl⟩ := exists_getD hp
    obtain ⟨b, hb, rfl⟩ := exists_getD hq
    refine (fock_rotate hn hu ha hb).trans ?_
    refine if_congr (getD_inj hn ha hb).symm ?_ rfl
    unfold putEnergy
    have e : idx.getD a 0 = idx[a] := by simp [List.getD, ha]
    rw [if_pos (getD_mem ha), e, hn.idxOf_getElem a ha]
    rfl
  · have e : diagSub nk nao sort eig argsort F r idx (H, E) = (H, E) := by unfold diagSub; rw [if_neg hl]
    rw [e]
    refine ⟨fun p hp i => rfl, fun p hp => rfl, fun S n hi hC => hC, fun hE p hp q hq => ?_, fun n hi i j => rfl⟩
    obtain ⟨a, ha, rfl⟩ := exists_getD hp
    obtain ⟨b, hb, rfl⟩ := exists_getD hq
    have : a = b := by omega
    subst this
    rw [if_pos rfl]
    exact (hE _ hp).symm

variable (he : EigContract eig) (hs : SortContract argsort) (hF : HermFock nk nao F)
  (hmo : ∀ a < nk, ∀ b < nk, mo.addr a = mo.addr b → a = b) (hnew : ∀ k < nk, mo.addr k < next)
include hmo hnew

omit hnew in
theorem copy_inj : ∀ a < nk, ∀ b < nk, (copy nk next mo H).1.addr a = (copy nk next mo H).1.addr b → a = b := by
  intro a ha b hb h
  unfold copy at h
  by_cases hm : mo.isArray
  · rw [if_pos hm] at h
    exact Nat.add_left_cancel h
  · rw [if_neg hm] at h
    exact hmo a ha b hb h

omit hmo hnew in
theorem copy_read {k : Nat} (hk : k < nk) : (copy nk next mo H).2 ((copy nk next mo H).1.addr k) = mo.read H k := by
  unfold copy
  by_cases hm : mo.isArray
  · rw [if_pos hm]
    dsimp only
    rw [if_pos ⟨Nat.le_add_right _ _, by omega⟩, Nat.add_sub_cancel_left]
    rfl
  · rw [if_neg hm]
    rfl

include he hs hF

omit hnew in
/-- Both blocks. -/
theorem canon_steps {k : Nat} (hk : k < nk) : ∃ C1 E1,
    let out := canonicalize nk nao nmo ncore ncas next sort eig argsort F frozen mo H
    BlockStep nao (F k) (freeIdx frozen 0 ncore) (mo.read H k) (fun p => form nao (F k) (mo.read H k) p p) C1 E1 ∧
    BlockStep nao (F k) (freeIdx frozen (ncore + ncas) nmo) C1 E1 (out.1.read out.2.1 k) (out.2.2 k) := by
  have s1 := diagSub_step (nao := nao) (sort := sort) he hs hF (copy_inj (next := next) (H := H) hmo) (freeIdx_nodup frozen 0 ncore)
    (copy nk next mo H).2 (diagFock nao ((copy nk next mo H).1.read (copy nk next mo H).2) F) hk
  have s2 := diagSub_step (nao := nao) (sort := sort) he hs hF (copy_inj (next := next) (H := H) hmo) (freeIdx_nodup frozen (ncore + ncas) nmo)
    (diagSub nk nao sort eig argsort F (copy nk next mo H).1 (freeIdx frozen 0 ncore)
      ((copy nk next mo H).2, diagFock nao ((copy nk next mo H).1.read (copy nk next mo H).2) F)).1
    (diagSub nk nao sort eig argsort F (copy nk next mo H).1 (freeIdx frozen 0 ncore)
      ((copy nk next mo H).2, diagFock nao ((copy nk next mo H).1.read (copy nk next mo H).2) F)).2 hk
  rw [copy_read hk] at s1
  have e : diagFock nao ((copy nk next mo H).1.read (copy nk next mo H).2) F k = fun p => form nao (F k) (mo.read H k) p p := by
    funext p
    rw [diagFock_eq]
    unfold Ref.read
    rw [copy_read hk]
    rfl
  rw [e] at s1
  exact ⟨_, _, s1, s2⟩

variable (hmn : ncore + ncas ≤ nmo)
include hmn

omit hnew in
/-- **C119.** Canonicalization changes only orbitals that are neither active nor frozen. -/
theorem C119_fixed {k : Nat} (hk : k < nk) {p : Nat} (hp : ¬Free ncore ncas nmo frozen p) (i : Nat) :
    let out := canonicalize nk nao nmo ncore ncas next sort eig argsort F frozen mo H
    out.1.read out.2.1 k i p = mo.read H k i p := by
  obtain ⟨C1, E1, s1, s2⟩ := canon_steps (nmo := nmo) (ncore := ncore) (ncas := ncas) (next := next) (sort := sort) (frozen := frozen) (H := H) he hs hF hmo hk
  intro out
  rw [s2.other p (fun h => ?_), s1.other p (fun h => ?_)]
  · have := mem_freeIdx.1 h
    exact hp ⟨this.2.2, by omega, Or.inl this.2.1⟩
  · have := mem_freeIdx.1 h
    exact hp ⟨this.2.2, this.2.1, Or.inr this.1⟩

omit hnew in
/-- **C119.** The new orbitals are orthonormal if the old ones were. -/
theorem C119_orthonormal {S : Mos} (hC : Orthonormal nk nao nmo S (mo.read H)) :
    let out := canonicalize nk nao nmo ncore ncas next sort eig argsort F frozen mo H
    Orthonormal nk nao nmo S (out.1.read out.2.1) := by
  intro out k hk
  obtain ⟨C1, E1, s1, s2⟩ := canon_steps (nmo := nmo) (ncore := ncore) (ncas := ncas) (next := next) (sort := sort) (frozen := frozen) (H := H) he hs hF hmo hk
  exact s2.ortho (S k) nmo (fun p hp => (mem_freeIdx.1 hp).2.1) (s1.ortho (S k) nmo (fun p hp => by have := (mem_freeIdx.1 hp).2.1; omega) (hC k hk))

omit hnew in
/-- **C119.** The Fock matrix in the new orbitals is diagonal among the core orbitals and among the virtual orbitals that are not frozen, and the energies
are its diagonal, also for the active and frozen orbitals. -/
theorem C119_fock {k : Nat} (hk : k < nk) :
    let out := canonicalize nk nao nmo ncore ncas next sort eig argsort F frozen mo H
    (∀ p < nmo, out.2.2 k p = inMo nao F (out.1.read out.2.1) k p p) ∧
    (∀ p ∉ frozen, ∀ q ∉ frozen, p ≠ q → (p < ncore ∧ q < ncore) ∨ (ncore + ncas ≤ p ∧ ncore + ncas ≤ q ∧ p < nmo ∧ q < nmo) →
      inMo nao F (out.1.read out.2.1) k p q = 0) := by
  obtain ⟨C1, E1, s1, s2⟩ := canon_steps (nmo := nmo) (ncore := ncore) (ncas := ncas) (next := next) (sort := sort) (frozen := frozen) (H := H) he hs hF hmo hk
  intro out
  have f1 := s1.fock (fun p hp => rfl)
  have disj : ∀ p, p < ncore → p ∉ freeIdx frozen (ncore + ncas) nmo := fun p hp h => by
    have := (mem_freeIdx.1 h).1
    omega
  have disj2 : ∀ p, ncore + ncas ≤ p → p ∉ freeIdx frozen 0 ncore := fun p hp h => by
    have := (mem_freeIdx.1 h).2.1
    omega
  have congr1 : ∀ {C C' : M2 ℂ} {p q : Nat}, (∀ i, C' i p = C i p) → (∀ i, C' i q = C i q) → form nao (F k) C' p q = form nao (F k) C p q := by
    intro C C' p q h1 h2
    unfold form
    exact Finset.sum_congr rfl fun i _ => Finset.sum_congr rfl fun j _ => by rw [h1, h2]
  have f2 := s2.fock (fun p hp => by
    have h := disj2 p (mem_freeIdx.1 hp).1
    rw [s1.energy p h]
    exact (congr1 (s1.other p h) (s1.other p h)).symm)
  have fin : ∀ p q, form nao (F k) (out.1.read out.2.1 k) p q = inMo nao F (out.1.read out.2.1) k p q := fun _ _ => rfl
  constructor
  · intro p hp
    rw [← fin]
    by_cases h2 : p ∈ freeIdx frozen (ncore + ncas) nmo
    · have := f2 p h2 p h2
      rw [if_pos rfl] at this
      exact this.symm
    · have e1 := congr1 (s2.other p h2) (s2.other p h2)
      refine (s2.energy p h2).trans (Eq.trans ?_ e1.symm)
      by_cases h1 : p ∈ freeIdx frozen 0 ncore
      · have := f1 p h1 p h1
        rw [if_pos rfl] at this
        exact this.symm
      · rw [s1.energy p h1]
        exact (congr1 (s1.other p h1) (s1.other p h1)).symm
  · intro p hpf q hqf hpq hc
    rw [← fin]
    rcases hc with ⟨h1, h2⟩ | ⟨h1, h2, h3, h4⟩
    · refine (congr1 (s2.other p (disj p h1)) (s2.other q (disj q h2))).trans ?_
      rw [f1 p (mem_freeIdx.2 ⟨Nat.zero_le _, h1, hpf⟩) q (mem_freeIdx.2 ⟨Nat.zero_le _, h2, hqf⟩), if_neg hpq]
    · refine (f2 p (mem_freeIdx.2 ⟨h1, h3, hpf⟩) q (mem_freeIdx.2 ⟨h2, h4, hqf⟩)).trans (if_neg hpq)

omit hnew in
/-- **C119.** Canonicalization does not change the energy or the Hamiltonian of the active space: the core density, and with it the core energy and the
effective one-electron Hamiltonian, are the same, as are the active orbitals. -/
theorem C119_hamiltonian (h : Mos) (enuc : ℂ) (veff : Mos → Mos) (phase : M2 ℂ)
    (hv : ∀ D D' : Mos, (∀ k < nk, D k = D' k) → ∀ k < nk, veff D k = veff D' k) :
    let out := canonicalize nk nao nmo ncore ncas next sort eig argsort F frozen mo H
    (∀ k < nk, coreDm ncore (out.1.read out.2.1) k = coreDm ncore (mo.read H) k) ∧
    ∀ i < nk * ncas, ∀ j < nk * ncas, (h1ForCas nk nao ncore ncas phase (out.1.read out.2.1) h enuc veff).1 i j =
        (h1ForCas nk nao ncore ncas phase (mo.read H) h enuc veff).1 i j ∧
      (h1ForCas nk nao ncore ncas phase (out.1.read out.2.1) h enuc veff).2 = (h1ForCas nk nao ncore ncas phase (mo.read H) h enuc veff).2 := by
  intro out
  have hd : ∀ k < nk, coreDm ncore (out.1.read out.2.1) k = coreDm ncore (mo.read H) k := by
    intro k hk
    obtain ⟨C1, E1, s1, s2⟩ := canon_steps (nmo := nmo) (ncore := ncore) (ncas := ncas) (next := next) (sort := sort) (frozen := frozen) (H := H) he hs hF hmo hk
    funext i j
    unfold coreDm
    rw [← s1.dens ncore (fun p hp => (mem_freeIdx.1 hp).2.1) i j]
    refine congrArg (2 * ·) (Finset.sum_congr rfl fun p hp => ?_)
    have hp := Finset.mem_range.1 hp
    have : p ∉ freeIdx frozen (ncore + ncas) nmo := fun h => by
      have := (mem_freeIdx.1 h).1
      omega
    have e1 := s2.other p this i
    have e2 := s2.other p this j
    exact congrArg₂ (fun a b => a * star b) e1 e2
  have hvv := hv _ _ hd
  refine ⟨hd, fun i hi j hj => ⟨?_, ?_⟩⟩
  · have hc : ∀ k < nk, ∀ u m, m < ncas → act ncore (out.1.read out.2.1) k u m = act ncore (mo.read H) k u m := by
      intro k hk u m hm
      refine C119_fixed he hs hF hmo hmn hk (fun h => ?_) u
      rcases h.2.2 with h | h <;> omega
    have hm : ∀ x i, i < nk * ncas → moCoeffR nk nao ncore ncas phase (out.1.read out.2.1) x i = moCoeffR nk nao ncore ncas phase (mo.read H) x i := by
      intro x i hi
      unfold moCoeffR
      refine Finset.sum_congr rfl fun k hk => ?_
      have h0 : 0 < ncas := Nat.pos_of_ne_zero (by rintro rfl; simp at hi)
      rw [hc k (Finset.mem_range.1 hk) _ _ (Nat.mod_lt _ h0)]
    unfold h1ForCas
    dsimp only
    refine Finset.sum_congr rfl fun y _ => ?_
    rw [hm y j hj]
    congr 1
    refine Finset.sum_congr rfl fun x _ => ?_
    rw [hm x i hi]
    congr 1
    refine Finset.sum_congr rfl fun k hk => ?_
    rw [hvv k (Finset.mem_range.1 hk)]
  · unfold h1ForCas
    dsimp only
    refine congrArg (_ + ·) (Finset.sum_congr rfl fun k hk => Finset.sum_congr rfl fun a _ => Finset.sum_congr rfl fun b _ => ?_)
    rw [hvv k (Finset.mem_range.1 hk), hd k (Finset.mem_range.1 hk)]

omit he hs hF hmn
/-- **C119**, partial. Orbitals given as one array are not changed, nor is any other array that existed before the call. -/
theorem C119_caller_partial (ha : mo.isArray = true) {x : Nat} (hx : x < next) :
    (canonicalize nk nao nmo ncore ncas next sort eig argsort F frozen mo H).2.1 x = H x := by
  have hne : ∀ k < nk, x ≠ (copy nk next mo H).1.addr k := by
    intro k _
    unfold copy
    rw [if_pos ha]
    dsimp only
    omega
  have hstep : ∀ idx st, (diagSub nk nao sort eig argsort F (copy nk next mo H).1 idx st).1 x = st.1 x := by
    intro idx st
    by_cases hl : 1 < idx.length
    · exact (diagSub_val (copy_inj (next := next) (H := H) hmo) hl st.1 st.2).2 x hne
    · unfold diagSub
      rw [if_neg hl]
  unfold canonicalize
  dsimp only
  rw [hstep, hstep]
  dsimp only
  unfold copy
  rw [if_pos ha]
  dsimp only
  rw [if_neg (by omega)]
end

/-- **C119**, violated. Orbitals given as a list of arrays, as the mean-field calculation keeps them, are overwritten: after the call the caller's orbitals are
the canonical ones. With three orbitals, two of them core orbitals that the Fock matrix couples, the orbitals of the mean-field calculation have changed,
whatever the eigenvectors. -/
theorem C119_caller_violated :
    (∀ nk nao nmo ncore ncas next sort eig argsort F frozen (mo : Ref) H, mo.isArray = false →
      let out := canonicalize nk nao nmo ncore ncas next sort eig argsort F frozen mo H
      mo.read out.2.1 = out.1.read out.2.1) ∧
    ∀ eig argsort, EigContract eig → SortContract argsort →
      let H : Heap := fun _ i p => if i = p then 1 else 0
      let F : Mos := fun _ i j => if i + j = 1 then 1 else 0
      let mo : Ref := ⟨fun k => k, false⟩
      mo.read (canonicalize 1 3 3 2 1 1 false eig argsort F [] mo H).2.1 0 ≠ mo.read H 0 := by
  classical
  have h1 : ∀ nk nao nmo ncore ncas next sort eig argsort F frozen (mo : Ref) H, mo.isArray = false →
      let out := canonicalize nk nao nmo ncore ncas next sort eig argsort F frozen mo H
      mo.read out.2.1 = out.1.read out.2.1 := by
    intro nk nao nmo ncore ncas next sort eig argsort F frozen mo H hm out
    have : out.1 = mo := by
      show (copy nk next mo H).1 = mo
      unfold copy
      rw [hm]
      rfl
    rw [this]
  refine ⟨h1, fun eig argsort he hs => ?_⟩
  intro H F mo hx
  have hF : HermFock 1 3 F := by
    intro k _ i _ j _
    show star (if i + j = 1 then (1 : ℂ) else 0) = if j + i = 1 then 1 else 0
    rw [Nat.add_comm j i]
    split
    · exact star_one _
    · exact star_zero _
  have h2 := (C119_fock (nmo := 3) (ncore := 2) (ncas := 1) (next := 1) (sort := false) (frozen := []) (mo := mo) (H := H) he hs hF (fun a _ b _ h => h) (by omega)
    (k := 0) (by omega)).2 0 (by simp) 1 (by simp) (by omega) (Or.inl ⟨by omega, by omega⟩)
  have h3 := h1 1 3 3 2 1 1 false eig argsort F [] mo H rfl
  dsimp only at h3
  rw [← h3] at h2
  unfold inMo at h2
  rw [hx] at h2
  simp [Ref.read, H, F, Finset.sum_range_succ] at h2

/-- Such a solver exists: the spectral theorem. -/
theorem eig_exists : ∃ eig, EigContract eig := by
  classical
  have key : ∀ (n : Nat) (f : M2 ℂ), ∃ e : (Nat → ℂ) × M2 ℂ, (∀ a < n, ∀ b < n, star (f a b) = f b a) → IsEig n f e := by
    intro n f
    by_cases hf : ∀ a < n, ∀ b < n, star (f a b) = f b a
    · let A : Matrix (Fin n) (Fin n) ℂ := fun a b => f a b
      have hA : A.IsHermitian := by
        ext a b
        exact hf b b.2 a a.2
      let U : Matrix (Fin n) (Fin n) ℂ := hA.eigenvectorUnitary
      have u1 : star U * U = 1 := Unitary.coe_star_mul_self hA.eigenvectorUnitary
      have u2 : U * star U = 1 := Unitary.coe_mul_star_self hA.eigenvectorUnitary
      let u : M2 ℂ := fun a b => if h : a < n ∧ b < n then U ⟨a, h.1⟩ ⟨b, h.2⟩ else 0
      let w : Nat → ℂ := fun a => if h : a < n then hA.eigenvalues ⟨a, h⟩ else 0
      have hu : ∀ a b : Fin n, u a b = U a b := fun a b => dif_pos ⟨a.2, b.2⟩
      refine ⟨(w, u), fun _ => ⟨fun a ha b hb => ?_, fun a ha b hb => ?_, fun a ha b hb => ?_⟩⟩
      · have := congrFun (congrFun u1 ⟨a, ha⟩) ⟨b, hb⟩
        rw [Matrix.mul_apply, Matrix.one_apply] at this
        rw [Finset.sum_range]
        refine Eq.trans (Finset.sum_congr rfl fun c _ => ?_) (this.trans (if_congr Fin.mk_eq_mk rfl rfl))
        exact congrArg₂ (fun x y : ℂ => star x * y) (hu c ⟨a, ha⟩) (hu c ⟨b, hb⟩)
      · have := congrFun (congrFun u2 ⟨a, ha⟩) ⟨b, hb⟩
        rw [Matrix.mul_apply, Matrix.one_apply] at this
        rw [Finset.sum_range]
        refine Eq.trans (Finset.sum_congr rfl fun c _ => ?_) (this.trans (if_congr Fin.mk_eq_mk rfl rfl))
        exact congrArg₂ (fun x y : ℂ => x * star y) (hu ⟨a, ha⟩ c) (hu ⟨b, hb⟩ c)
      · have := congrFun (hA.mulVec_eigenvectorBasis ⟨b, hb⟩) ⟨a, ha⟩
        have hw : w b = hA.eigenvalues ⟨b, hb⟩ := dif_pos hb
        rw [Finset.sum_range]
        refine Eq.trans (Finset.sum_congr rfl fun c _ => ?_) (this.trans (Eq.trans ?_ (congrArg₂ (fun x y : ℂ => x * y) (hu ⟨a, ha⟩ ⟨b, hb⟩).symm hw.symm)))
        · exact congrArg (fun x : ℂ => f a c * x) (hu c ⟨b, hb⟩)
        · exact mul_comm ((hA.eigenvalues ⟨b, hb⟩ : ℂ)) (U ⟨a, ha⟩ ⟨b, hb⟩)
    · exact ⟨(0, 0), fun h => absurd h hf⟩
  choose e he using key
  exact ⟨e, he⟩

/-- The properties hold for two k-points, with a Fock matrix that couples the core orbitals. -/
example : ∃ eig, let H : Heap := fun _ i p => if i = p then 1 else 0
    let F : Mos := fun k i j => if i + j = 1 then k + 1 else 0
    let out := canonicalize 2 3 3 2 1 2 true eig (fun n _ a => n - 1 - a) F [] ⟨fun k => k, true⟩ H
    inMo 3 F (out.1.read out.2.1) 1 0 1 = 0 ∧ out.2.1 1 = H 1 := by
  obtain ⟨eig, he⟩ := eig_exists
  refine ⟨eig, ?_⟩
  intro H F out
  have hF : HermFock 2 3 F := by
    intro k _ i _ j _
    show star (if i + j = 1 then (k + 1 : ℂ) else 0) = if j + i = 1 then (k + 1 : ℂ) else 0
    rw [Nat.add_comm j i]
    split
    · simp
    · exact star_zero _
  have hs : SortContract (fun n _ a => n - 1 - a) := fun n _ => ⟨fun a ha => by show n - 1 - a < n; omega, fun a ha b hb h => by dsimp only at h; omega⟩
  exact ⟨(C119_fock (mo := ⟨fun k => k, true⟩) he hs hF (fun a _ b _ h => h) (by omega) (by omega)).2 0 (by simp) 1 (by simp) (by omega) (Or.inl ⟨by omega, by omega⟩),
    C119_caller_partial (mo := ⟨fun k => k, true⟩) (fun a _ b _ h => h) (fun k hk => hk) rfl (by omega)⟩

end Verif.Props
