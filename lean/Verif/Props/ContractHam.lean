import Verif.Props.Spinless
/-!
# C97: the Hamiltonian projected on partially uncontracted product states
-/
namespace Verif.Spinless
open Verif.Np Verif.Outer

theorem filter_zipIdx {α : Type} (l : List α) (i : Nat) (h : i < l.length) :
    (l.zipIdx.filter fun x => x.2 == i) = [(l[i], i)] ∧
    ((l.zipIdx.filter fun x => !(x.2 == i)).map Prod.fst) = l.take i ++ l.drop (i + 1) := by
  have hl : l = l.take i ++ l[i] :: l.drop (i + 1) := by simp
  have hlen : (l.take i).length = i := by simp; omega
  generalize hx : l[i] = x at hl ⊢
  generalize l.take i = a at hl hlen ⊢
  generalize l.drop (i + 1) = b at hl ⊢
  rw [hl, List.zipIdx_append, List.zipIdx_cons, hlen]
  have h1 : ∀ y ∈ a.zipIdx, ¬ (y.2 == i) = true := by
    intro y hy
    have := List.snd_lt_of_mem_zipIdx hy
    simp; omega
  have h2 : ∀ y ∈ b.zipIdx (0 + i + 1), ¬ (y.2 == i) = true := by
    intro y hy
    have := List.le_snd_of_mem_zipIdx hy
    simp; omega
  constructor
  · rw [List.filter_append, List.filter_cons, List.filter_eq_nil_iff.2 h1, List.filter_eq_nil_iff.2 h2]
    simp
  · rw [List.filter_append, List.filter_cons, List.filter_eq_self.2 (fun y hy => by simpa using h1 y hy),
      List.filter_eq_self.2 (fun y hy => by simpa using h2 y hy)]
    simp

end Verif.Spinless

namespace Verif.Props
open Verif.Np Verif.Fockspace Verif.Spec Verif.Spec.Outer Verif.Radix Verif.Outer Verif.Spinless

variable {K : Type} [CommRing K]

/-- Without spin-orbit coupling, or without a constant term, the vector that is projected is `(H + h0) c`. Missing: both. -/
theorem C97_constant_partial (hre him : (Nat → K) → Nat → K) (i h0 : K) (soc : Bool) (c : Nat → K) (x : Nat)
    (h : soc = false ∨ h0 = 0) :
    contractH hre him i h0 soc c x = (hre c x + if soc then i * him c x else 0) + h0 * c x := by
  unfold contractH
  rcases h with rfl | rfl
  · simp
  · cases soc <;> simp

/-- With spin-orbit coupling the constant is added twice: the vector is `(H + 2 h0) c`, for every Hamiltonian and vector. -/
theorem C97_constant_violated :
    (∀ (hre him : (Nat → K) → Nat → K) (i h0 : K) (c : Nat → K) (x : Nat),
      contractH hre him i h0 true c x = (hre c x + i * him c x) + 2 * h0 * c x) ∧
    ∃ (hre him : (Nat → ℤ) → Nat → ℤ) (i h0 : ℤ) (c : Nat → ℤ) (x : Nat),
      contractH hre him i h0 true c x ≠ (hre c x + i * him c x) + h0 * c x := by
  refine ⟨?_, ?_⟩
  · intro hre him i h0 c x
    simp only [contractH, if_true]
    ring
  · exact ⟨fun c => c, fun c => c, 0, 1, fun _ => 1, 0, by decide⟩

/-- The bra's conversion from the spinless representation succeeds in every spin sector of the bra, if each of them is a spin
sector of the ket. Missing: spin sectors that only the bra has. -/
theorem C97_bra_sectors_partial (norb : Nat) (ket bra : List (Nat × Nat)) (hne : ket ≠ [])
    (htot : ∀ x ∈ ket, ∀ y ∈ ket, x.1 + x.2 = y.1 + y.2) (hsub : ∀ ne ∈ bra, ne ∈ ket) (v : Nat → K) :
    ∃ T, socTables norb ket bra = some T ∧ ∀ ne ∈ bra, ∃ c, spinless2ss T.2 v ne = some c := by
  obtain ⟨T, hT⟩ := (C96_sectors_covered (K := K) norb ket).1.2 ⟨hne, htot⟩
  refine ⟨(T, T), by simp [socTables, hT], ?_⟩
  intro ne hm
  exact (((C96_sectors_covered (K := K) norb ket).2 T hT ne (fun _ _ => 0) v).2).2 (hsub ne hm)

/-- A spin sector that only the bra has is a KeyError, for every number of orbitals and every bra and ket, although all states
have the same number of electrons. -/
theorem C97_bra_sectors_violated :
    (∀ (norb : Nat) (ket bra : List (Nat × Nat)) T, socTables norb ket bra = some T → ∀ ne ∈ bra, ne ∉ ket → ∀ v : Nat → K,
      spinless2ss T.2 v ne = none) ∧
    ∃ (ket bra : List (Nat × Nat)) (T : _), socTables 2 ket bra = some T ∧ (∀ x ∈ ket ++ bra, x.1 + x.2 = 2) ∧ ∃ ne ∈ bra, ne ∉ ket := by
  constructor
  · intro norb ket bra T hT ne hm hn v
    unfold socTables at hT
    cases h : tables norb ket with
    | none => simp [h] at hT
    | some k =>
      simp only [h, Option.bind_eq_bind, Option.bind_some] at hT
      cases hT
      unfold spinless2ss
      rw [if_neg (fun hk => hn ((tables_ok h).2.1 ne |>.1 hk))]
  · exact ⟨[(1, 1)], [(2, 0)], _, rfl, by decide, (2, 0), by decide, by decide⟩

/-- The block of a rootspace with the ket's numbers of electrons, with fragment `f` left uncontracted, has the documented shape
`(ndim/lroots, ndeta, ndetb)`. Missing: the other rootspaces. -/
theorem C97_block_shape_partial {V : Type} (fs : List (Frag K)) (hok : ∀ f ∈ fs, f.OK) (prods : List (List (Frag K) × Product K))
    (conv : V → Nat × Nat → Nat → Nat → K) (ket : V) (f : Nat) (hf : f < fs.length) :
    ∃ P r m, ciOuterProduct fs = some P ∧ dotOneSkip prods conv false ket P.nelec none (fun g => g == f) (fs, P) = some r ∧
      r.shape = [m, fs[f].norb.choose fs[f].na, fs[f].norb.choose fs[f].nb] ∧ m * fs[f].lroots = (fs.map Frag.lroots).prod := by
  have hne : fs ≠ [] := by rintro rfl; simp at hf
  obtain ⟨P, _, hP, _⟩ := C94_skip fs hne hok (fun _ _ => (0 : K)) (fun g => g == f)
  obtain ⟨P', r, hP', hr, hs, _⟩ := C94_skip fs hne hok (conv ket P.nelec) (fun g => g == f)
  rw [hP] at hP'
  cases hP'
  obtain ⟨e1, e2⟩ := filter_zipIdx fs f hf
  have e3 : ((fs.zipIdx.filter fun x => !(x.2 == f)).map fun x => x.1.lroots) =
      ((fs.take f).map Frag.lroots) ++ ((fs.drop (f + 1)).map Frag.lroots) := by
    rw [← List.map_append, ← e2, List.map_map]; rfl
  refine ⟨P, r, ((fs.take f).map Frag.lroots ++ (fs.drop (f + 1)).map Frag.lroots).prod, hP, ?_, ?_, ?_⟩
  · rw [dotOneSkip, if_neg (by simp [dropped])]
    exact hr
  · rw [hs, e1, e3]
    simp
  · have hl : fs.map Frag.lroots = (fs.take f).map Frag.lroots ++ fs[f].lroots :: (fs.drop (f + 1)).map Frag.lroots := by
      rw [← List.map_cons, ← List.map_append]; simp
    rw [hl, List.prod_append, List.prod_append, List.prod_cons]
    ring

/-- The block of every rootspace with other numbers of electrons than the ket is one-dimensional, whatever the fragments. The
documented shape is three-dimensional, and `np.stack` of the two kinds of blocks is an error. -/
theorem C97_block_shape_violated {V : Type} (fs : List (Frag K)) (P : Product K) (prods : List (List (Frag K) × Product K))
    (conv : V → Nat × Nat → Nat → Nat → K) (ket : V) (nelecKet : Nat × Nat) (hn : P.nelec ≠ nelecKet) (f : Nat) :
    ∃ r, dotOneSkip prods conv false ket nelecKet none (fun g => g == f) (fs, P) = some r ∧ r.shape.length = 1 := by
  refine ⟨⟨[P.nprods], fun _ => 0⟩, ?_, rfl⟩
  rw [dotOneSkip, if_pos (by simp [dropped, hn])]

/-- Without spin-orbit coupling, the memory check accounts for two real vectors of the largest spin sector. Missing: with
spin-orbit coupling, two complex vectors in the spinless representation. -/
theorem C97_memory_partial (ncas : Nat) (nelecs : List (Nat × Nat)) (sizes : Nat) :
    ∀ n ∈ nelecs, 2 * (8 * (ncas.choose n.1 * ncas.choose n.2)) + sizes ≤ memcheckBytes ncas nelecs false sizes := by
  intro n hn
  have key : ∀ (l : List Nat) (b : Nat), b ≤ l.foldl max b ∧ ∀ x ∈ l, x ≤ l.foldl max b := by
    intro l
    induction l with
    | nil => intro b; simp
    | cons y l ih =>
      intro b
      obtain ⟨h1, h2⟩ := ih (max b y)
      simp only [List.foldl_cons, List.mem_cons, forall_eq_or_imp]
      exact ⟨by omega, by omega, h2⟩
  have := (key (nelecs.map fun n => ncas.choose n.1 * ncas.choose n.2) 0).2 _ (List.mem_map_of_mem hn)
  simp only [memcheckBytes]
  simp only [Bool.false_eq_true, if_false]
  omega

/-- With spin-orbit coupling the memory check accepts less than one of the two complex vectors it has to hold. -/
theorem C97_memory_violated :
    ∃ (ncas : Nat) (nelecs : List (Nat × Nat)), ∃ n ∈ nelecs,
      memcheckBytes ncas nelecs true 0 < 16 * (2 * ncas).choose (n.1 + n.2) :=
  ⟨2, [(1, 1)], (1, 1), by decide, by decide⟩

/-- The hypotheses of the theorems of C97 are met: a triplet, and two fragments. -/
example : (∃ T, socTables 2 [(1, 1), (2, 0)] [(2, 0)] = some T) ∧ (∀ f ∈ exFrags, f.OK) ∧ 1 < exFrags.length ∧
    ((ciOuterProduct exFrags).map fun P => decide (P.nelec ≠ (1, 2))) = some true := by
  refine ⟨⟨_, rfl⟩, ?_, by decide, by decide⟩
  intro f hf
  simp only [exFrags, List.mem_cons, List.not_mem_nil, or_false] at hf
  rcases hf with rfl | rfl
  · exact ⟨by decide, by decide, Or.inr ⟨2, by decide⟩⟩
  · exact ⟨by decide, by decide, Or.inl (by decide)⟩

end Verif.Props
