import Verif.Lemmas.SpinOp
/-!
# C32: spin rotation
-/
namespace Verif.Props
open Finset Verif.SpinOp Verif.Spec.Spin

/-- C32 (keys). The dictionary of rotated vectors of a fragment has one entry for each projection
`-s, -s+2, ..., s` and no other. -/
theorem C32_keys {norb na nb : ℕ} {smult : ℤ} {v : Vec} (h : SpinOK smult na nb) (hv : InSpace norb na nb v)
    (hp : SpinPure na nb smult v) :
    ((getCiSzrot norb smult na nb v).map Prod.fst).Nodup ∧
    ∀ k : ℤ, k ∈ (getCiSzrot norb smult na nb v).map Prod.fst ↔
      -(smult - 1) ≤ k ∧ k ≤ smult - 1 ∧ (2 : ℤ) ∣ smult - 1 - k := by
  obtain ⟨l, u, e, p⟩ := h
  have d1 : rangeLen (-((na : ℤ) - nb - 2)) (1 + smult) 2 = ((smult - 1 + ((na : ℤ) - nb)) / 2).toNat := by
    unfold rangeLen; omega
  have d2 : rangeLen ((na : ℤ) - nb + 2) (1 + smult) 2 = ((smult - 1 - ((na : ℤ) - nb)) / 2).toNat := by
    unfold rangeLen; omega
  obtain ⟨k1, -⟩ := szrotDown_spec (norb := norb) (smult := smult) ((smult - 1 + ((na : ℤ) - nb)) / 2).toNat
    ((na : ℤ) - nb - 2) na nb v rfl e (by omega) u hv hp
  obtain ⟨k2, -⟩ := szrotUp_spec (norb := norb) (smult := smult) ((smult - 1 - ((na : ℤ) - nb)) / 2).toNat
    ((na : ℤ) - nb + 2) na nb v rfl e l (by omega) hv hp
  unfold getCiSzrot
  dsimp only
  rw [d1, d2, List.map_cons, List.map_append, k1, k2]
  constructor
  · rw [List.nodup_cons, List.nodup_append]
    refine ⟨?_, ?_, ?_, ?_⟩
    · simp only [List.mem_append, List.mem_map, List.mem_range]
      rintro (⟨k, _, h⟩ | ⟨k, _, h⟩) <;> omega
    · exact List.Nodup.map (fun x y hxy => by omega) List.nodup_range
    · exact List.Nodup.map (fun x y hxy => by omega) List.nodup_range
    · intro x hx y hy
      simp only [List.mem_map, List.mem_range] at hx hy
      obtain ⟨k, _, hx⟩ := hx
      obtain ⟨k', _, hy⟩ := hy
      omega
  · intro k
    simp only [List.mem_cons, List.mem_append, List.mem_map, List.mem_range]
    constructor
    · rintro (rfl | ⟨k, hk, h⟩ | ⟨k, hk, h⟩) <;> omega
    · rintro ⟨h1, h2, h3⟩
      rcases lt_trichotomy k ((na : ℤ) - nb) with hlt | heq | hgt
      · exact .inr (.inl ⟨(((na : ℤ) - nb - 2 - k) / 2).toNat, by omega, by omega⟩)
      · exact .inl heq
      · exact .inr (.inr ⟨((k - ((na : ℤ) - nb + 2)) / 2).toNat, by omega, by omega⟩)

/-- C32 (entries). Each entry has the same number of electrons as the fragment and the projection of its key, has the
same spin, and has the same length as the input vector. -/
theorem C32_entries {norb na nb : ℕ} {smult : ℤ} {v : Vec} (h : SpinOK smult na nb) (hv : InSpace norb na nb v)
    (hp : SpinPure na nb smult v) :
    ∀ kw ∈ getCiSzrot norb smult na nb v, ∃ na' nb' : ℕ, na' + nb' = na + nb ∧ (na' : ℤ) - nb' = kw.1 ∧
      InSpace norb na' nb' kw.2 ∧ SpinPure na' nb' smult kw.2 ∧ normSq norb na' nb' kw.2 = normSq norb na nb v := by
  obtain ⟨l, u, e, p⟩ := h
  have d1 : rangeLen (-((na : ℤ) - nb - 2)) (1 + smult) 2 = ((smult - 1 + ((na : ℤ) - nb)) / 2).toNat := by
    unfold rangeLen; omega
  have d2 : rangeLen ((na : ℤ) - nb + 2) (1 + smult) 2 = ((smult - 1 - ((na : ℤ) - nb)) / 2).toNat := by
    unfold rangeLen; omega
  obtain ⟨-, k1⟩ := szrotDown_spec (norb := norb) (smult := smult) ((smult - 1 + ((na : ℤ) - nb)) / 2).toNat
    ((na : ℤ) - nb - 2) na nb v rfl e (by omega) u hv hp
  obtain ⟨-, k2⟩ := szrotUp_spec (norb := norb) (smult := smult) ((smult - 1 - ((na : ℤ) - nb)) / 2).toNat
    ((na : ℤ) - nb + 2) na nb v rfl e l (by omega) hv hp
  intro kw hkw
  unfold getCiSzrot at hkw
  dsimp only at hkw
  rw [d1, d2, List.mem_cons, List.mem_append] at hkw
  rcases hkw with rfl | hkw | hkw
  · exact ⟨na, nb, rfl, rfl, hv, hp, rfl⟩
  · exact k1 kw hkw
  · exact k2 kw hkw

/-- C32 (normalization). The factor used when leaving a projection downwards (upwards) is positive at every projection
of the multiplet except the lowest (highest), and lowering and raising across the same step use the same factor. -/
theorem C32_norms (smult : ℤ) (na nb : ℕ) :
    (-(smult - 1) < (na : ℤ) - nb → (na : ℤ) - nb ≤ smult - 1 → 0 < normSdown smult na nb) ∧
    (-(smult - 1) ≤ (na : ℤ) - nb → (na : ℤ) - nb < smult - 1 → 0 < normSup smult na nb) ∧
    normSup smult na (nb + 1) = normSdown smult (na + 1) nb := by
  refine ⟨fun h1 h2 => (normSdown_sq h1 h2).1, fun h1 h2 => (normSup_sq h1 h2).1, ?_⟩
  have := sup_eq_sdown smult (na := na + 1) (nb := nb) (by omega)
  simpa using this

/-- C32 (mdown). Rotating a high-spin vector to the projection `na - nb` gives a vector of that projection with the
same spin and length, and `mup` undoes it. `(na0, nb0)` are the electrons of the high-spin vector. -/
theorem C32_mdown {norb na nb na0 nb0 : ℕ} {smult : ℤ} {v : Vec} (h : SpinOK smult na nb)
    (hN : na0 + nb0 = na + nb) (hM : (na0 : ℤ) - nb0 = smult - 1)
    (hv : InSpace norb na0 nb0 v) (hp : SpinPure na0 nb0 smult v) :
    InSpace norb na nb (mdown norb na nb smult v) ∧ SpinPure na nb smult (mdown norb na nb smult v) ∧
    normSq norb na nb (mdown norb na nb smult v) = normSq norb na0 nb0 v ∧
    mup norb na nb smult (mdown norb na nb smult v) = v := by
  obtain ⟨l, u, e, p⟩ := h
  have hK : ((smult - 1 - ((na : ℤ) - nb)) / 2).toNat ≤ nb := by omega
  have e1 : na0 = na + ((smult - 1 - ((na : ℤ) - nb)) / 2).toNat := by omega
  have e2 : nb0 = nb - ((smult - 1 - ((na : ℤ) - nb)) / 2).toNat := by omega
  rw [e1, e2] at hv hp ⊢
  exact mdown_core _ v hK l (by omega) hv hp

/-- C32 (mup). Rotating a spin-pure vector to the highest projection keeps its spin and length, and `mdown` undoes
it. -/
theorem C32_mup {norb na nb na0 nb0 : ℕ} {smult : ℤ} {v : Vec} (h : SpinOK smult na nb)
    (hN : na0 + nb0 = na + nb) (hM : (na0 : ℤ) - nb0 = smult - 1)
    (hv : InSpace norb na nb v) (hp : SpinPure na nb smult v) :
    InSpace norb na0 nb0 (mup norb na nb smult v) ∧ SpinPure na0 nb0 smult (mup norb na nb smult v) ∧
    normSq norb na0 nb0 (mup norb na nb smult v) = normSq norb na nb v ∧
    mdown norb na nb smult (mup norb na nb smult v) = v := by
  obtain ⟨l, u, e, p⟩ := h
  have hK : ((smult - 1 - ((na : ℤ) - nb)) / 2).toNat ≤ nb := by omega
  have e1 : na0 = na + ((smult - 1 - ((na : ℤ) - nb)) / 2).toNat := by omega
  have e2 : nb0 = nb - ((smult - 1 - ((na : ℤ) - nb)) / 2).toNat := by omega
  rw [e1, e2]
  exact mup_core _ v hK l (by omega) hv hp

/-- C32 (ladder). The array loops compute the lowering and raising operators, whose commutator is twice the
projection. -/
theorem C32_ladder {norb na nb : ℕ} {v : Vec} (hv : InSpace norb na nb v) :
    contractSdown norb na nb v = lower v ∧ contractSup norb na nb v = raise v ∧
    ∀ a b, raise (lower v) a b = lower (raise v) a b + ((na : ℝ) - nb) * v a b :=
  ⟨contractSdown_eq hv, contractSup_eq hv, fun a b => by rw [commutator, card_diff hv]⟩

/-- The triplet of two electrons in two orbitals, both electrons up. -/
noncomputable def triplet : Vec := fun a b => if a = {0, 1} ∧ b = ∅ then 1 else 0

theorem triplet_inSpace : InSpace 2 2 0 triplet := by
  intro a b h
  unfold triplet
  rw [if_neg]
  rintro ⟨rfl, rfl⟩
  exact h ⟨by decide, by decide⟩

theorem triplet_pure : SpinPure 2 0 3 triplet := by
  have h : raise triplet = fun _ _ => 0 := by
    funext a b; unfold raise triplet; simp [Finset.insert_ne_empty]
  intro a b
  rw [h]; unfold lower; simp

example : SpinOK 3 2 0 ∧ InSpace 2 2 0 triplet ∧ SpinPure 2 0 3 triplet ∧ normSq 2 2 0 triplet = 1 := by
  refine ⟨⟨by norm_num, by norm_num, by norm_num, by norm_num⟩, triplet_inSpace, triplet_pure, ?_⟩
  unfold normSq triplet
  have h1 : strings 2 2 = {{0, 1}} := by decide
  have h2 : strings 2 0 = {∅} := by decide
  rw [h1, h2, Finset.sum_singleton, Finset.sum_singleton]; simp

/-- The hypotheses of `C32_mdown` for the projection 0, and those of `C32_mup` for its result. -/
example : SpinOK 3 1 1 ∧ InSpace 2 1 1 (mdown 2 1 1 3 triplet) ∧ SpinPure 1 1 3 (mdown 2 1 1 3 triplet) ∧
    normSq 2 1 1 (mdown 2 1 1 3 triplet) = normSq 2 2 0 triplet := by
  have h : SpinOK 3 1 1 := ⟨by norm_num, by norm_num, by norm_num, by norm_num⟩
  obtain ⟨a, b, c, -⟩ := C32_mdown (na0 := 2) (nb0 := 0) h rfl (by norm_num) triplet_inSpace triplet_pure
  exact ⟨h, a, b, c⟩

end Verif.Props
