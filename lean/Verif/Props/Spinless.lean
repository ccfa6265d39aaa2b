import Verif.Model.Spinless
import Verif.Props.OuterGen
import Verif.Lemmas.Swaps
import Mathlib.Tactic.LinearCombination
/-!
# C96, C97: the spinless representation of CI vectors, and the Hamiltonian projected on uncontracted fragments
-/
namespace Verif.Spinless
open Verif.Np Verif.Fockspace Verif.Spec Verif.Spec.Outer Verif.Spec.Fsucc Verif.Spec.Fockspace Verif.Radix Verif.Outer
open scoped BigOperators

variable {K : Type} [CommRing K]

/-- the determinant of two strings -/
theorem join_mem {norb na nb A B : Nat} (hA : A ∈ strs norb na) (hB : B ∈ strs norb nb) :
    A + B * 2 ^ norb ∈ strs (2 * norb) (na + nb) := by
  obtain ⟨h1, h2⟩ := mem_strs.1 hA
  obtain ⟨h3, h4⟩ := mem_strs.1 hB
  have hp : 0 < 2 ^ norb := Nat.two_pow_pos _
  rw [mem_strs, show 2 * norb = norb + norb by omega, nOcc_add, pow_add]
  have e1 : (A + B * 2 ^ norb) / 2 ^ norb = B := by
    rw [Nat.add_mul_div_right _ _ hp, Nat.div_eq_of_lt h1, Nat.zero_add]
  have e2 : (A + B * 2 ^ norb) % 2 ^ norb = A := by rw [Nat.add_mul_mod_self_right, Nat.mod_eq_of_lt h1]
  refine ⟨?_, ?_⟩
  · have : (B + 1) * 2 ^ norb ≤ 2 ^ norb * 2 ^ norb := Nat.mul_le_mul_right _ h3
    rw [Nat.add_mul] at this; omega
  · rw [e1, h4, ← nOcc_mod, e2, h2]

theorem spAddr_eq {norb na nb ia ib : Nat} (ha : ia < norb.choose na) (hb : ib < norb.choose nb) :
    spAddr norb (na + nb) na nb ia ib = addrOf (2 * norb) ((strs norb na).getD ia 0 + (strs norb nb).getD ib 0 * 2 ^ norb) := by
  rw [← strs_length] at ha hb
  unfold spAddr
  apply idxOf_strs
  rw [List.getD_eq_getElem _ _ ha, List.getD_eq_getElem _ _ hb]
  exact join_mem (List.getElem_mem ha) (List.getElem_mem hb)

theorem spAddr_inj {norb na nb na' nb' ia ib ia' ib' : Nat} (hs : na + nb = na' + nb') (ha : ia < norb.choose na) (hb : ib < norb.choose nb)
    (ha' : ia' < norb.choose na') (hb' : ib' < norb.choose nb')
    (h : spAddr norb (na + nb) na nb ia ib = spAddr norb (na' + nb') na' nb' ia' ib') :
    na = na' ∧ nb = nb' ∧ ia = ia' ∧ ib = ib' := by
  rw [spAddr_eq ha hb, spAddr_eq ha' hb'] at h
  rw [← strs_length] at ha hb ha' hb'
  rw [List.getD_eq_getElem _ _ ha, List.getD_eq_getElem _ _ hb, List.getD_eq_getElem _ _ ha', List.getD_eq_getElem _ _ hb'] at h
  have mA := List.getElem_mem ha
  have mB := List.getElem_mem hb
  have mA' := List.getElem_mem ha'
  have mB' := List.getElem_mem hb'
  have e := addrOf_inj (join_mem mA mB) (by rw [hs]; exact join_mem mA' mB') h
  have hp : 0 < 2 ^ norb := Nat.two_pow_pos _
  have eA : (strs norb na)[ia] = (strs norb na')[ia'] := by
    have := congrArg (· % 2 ^ norb) e
    simpa [Nat.add_mul_mod_self_right, Nat.mod_eq_of_lt (mem_strs.1 mA).1, Nat.mod_eq_of_lt (mem_strs.1 mA').1] using this
  have eB : (strs norb nb)[ib] = (strs norb nb')[ib'] := by
    have := congrArg (· / 2 ^ norb) e
    simpa [Nat.add_mul_div_right _ _ hp, Nat.div_eq_of_lt (mem_strs.1 mA).1, Nat.div_eq_of_lt (mem_strs.1 mA').1] using this
  have n1 : na = na' := by rw [← (mem_strs.1 mA).2, eA, (mem_strs.1 mA').2]
  subst n1
  have n2 : nb = nb' := by omega
  subst n2
  refine ⟨rfl, rfl, ?_, ?_⟩
  · exact (List.Nodup.getElem_inj_iff (strs_nodup norb na)).1 eA
  · exact (List.Nodup.getElem_inj_iff (strs_nodup norb nb)).1 eB

theorem addrsNe_get {norb nelec : Nat} {ne : Nat × Nat} {ia ib : Nat} (ha : ia < norb.choose ne.1) (hb : ib < norb.choose ne.2) :
    ia * norb.choose ne.2 + ib < (addrsNe norb nelec ne).length ∧
    (addrsNe norb nelec ne).getD (ia * norb.choose ne.2 + ib) 0 = spAddr norb nelec ne.1 ne.2 ia ib := by
  have hl : (addrsNe norb nelec ne).length = norb.choose ne.1 * norb.choose ne.2 := by simp [addrsNe, strs_length]
  have hlt := lt_mul ha hb
  refine ⟨by rw [hl]; exact hlt, ?_⟩
  rw [List.getD_eq_getElem _ _ (by rw [hl]; exact hlt)]
  simp only [addrsNe, List.getElem_map, List.getElem_range, strs_length]
  rw [Nat.mul_comm ia, Nat.mul_add_div (by omega), Nat.div_eq_of_lt hb, Nat.mul_add_mod, Nat.mod_eq_of_lt hb, Nat.add_zero]

theorem addrsNe_nodup {norb nelec : Nat} {ne : Nat × Nat} (hs : ne.1 + ne.2 = nelec) : (addrsNe norb nelec ne).Nodup := by
  subst hs
  unfold addrsNe
  rw [List.nodup_map_iff_inj_on List.nodup_range]
  intro x hx y hy h
  rw [List.mem_range, strs_length, strs_length] at hx hy
  rw [strs_length] at h
  have hb : 0 < norb.choose ne.2 := Nat.pos_of_ne_zero (fun e => by rw [e] at hx; simp at hx)
  have := spAddr_inj (by omega) (by rw [Nat.div_lt_iff_lt_mul hb]; exact hx) (Nat.mod_lt _ hb)
    (by rw [Nat.div_lt_iff_lt_mul hb]; exact hy) (Nat.mod_lt _ hb) h
  rw [← Nat.div_add_mod x (norb.choose ne.2), ← Nat.div_add_mod y (norb.choose ne.2), this.2.2.1, this.2.2.2]

theorem addrsNe_idx {norb nelec : Nat} {ne : Nat × Nat} (hs : ne.1 + ne.2 = nelec) {ia ib : Nat} (ha : ia < norb.choose ne.1)
    (hb : ib < norb.choose ne.2) :
    spAddr norb nelec ne.1 ne.2 ia ib ∈ addrsNe norb nelec ne ∧
    (addrsNe norb nelec ne).idxOf (spAddr norb nelec ne.1 ne.2 ia ib) = ia * norb.choose ne.2 + ib := by
  obtain ⟨h1, h2⟩ := addrsNe_get (nelec := nelec) ha hb
  rw [List.getD_eq_getElem _ _ h1] at h2
  rw [← h2]
  exact ⟨List.getElem_mem h1, List.Nodup.idxOf_getElem (addrsNe_nodup hs) _ h1⟩

theorem tables_ok {norb : Nat} {nelecR : List (Nat × Nat)} {T : Tables} (h : tables norb nelecR = some T) :
    T.norb = norb ∧ (∀ ne, ne ∈ T.keys ↔ ne ∈ nelecR) ∧ ∀ ne ∈ T.keys, ne.1 + ne.2 = T.nelec := by
  unfold tables at h
  split at h
  · cases h
  · split_ifs at h with hall
    cases h
    refine ⟨rfl, fun ne => Iff.rfl, ?_⟩
    intro x hx
    rcases List.mem_cons.1 hx with rfl | hx
    · rfl
    · have := List.all_eq_true.1 hall x hx
      simpa using this

/-- the sign of one sector -/
def sg (ne : Nat × Nat) : ℤ := if (ne.1 * ne.2) % 2 = 0 then 1 else -1

theorem sg_sq (ne : Nat × Nat) : ((sg ne : ℤ) : K) * ((sg ne : ℤ) : K) = 1 := by
  unfold sg
  split_ifs <;> simp

theorem ss_val {T : Tables} {ne : Nat × Nat} (hk : ne ∈ T.keys) (hs : ne.1 + ne.2 = T.nelec) (c : Nat → Nat → K) :
    ∃ v, ss2spinless T c ne = some v ∧
      (∀ ia ib, ia < T.norb.choose ne.1 → ib < T.norb.choose ne.2 →
        v (spAddr T.norb T.nelec ne.1 ne.2 ia ib) = ((sg ne : ℤ) : K) * c ia ib) ∧
      (∀ x, x ∉ addrsNe T.norb T.nelec ne → v x = 0) := by
  unfold ss2spinless
  rw [if_pos hk]
  refine ⟨_, rfl, ?_, ?_⟩
  · intro ia ib ha hb
    obtain ⟨h1, h2⟩ := addrsNe_idx hs ha hb
    have e : ∀ (g : K), (if spAddr T.norb T.nelec ne.1 ne.2 ia ib ∈ addrsNe T.norb T.nelec ne then
        c ((addrsNe T.norb T.nelec ne).idxOf (spAddr T.norb T.nelec ne.1 ne.2 ia ib) / (strs T.norb ne.2).length)
          ((addrsNe T.norb T.nelec ne).idxOf (spAddr T.norb T.nelec ne.1 ne.2 ia ib) % (strs T.norb ne.2).length) else g) = c ia ib := by
      intro g
      rw [if_pos h1, h2, strs_length, Nat.mul_comm ia, Nat.mul_add_div (by omega), Nat.div_eq_of_lt hb, Nat.mul_add_mod, Nat.mod_eq_of_lt hb,
        Nat.add_zero]
    unfold sg
    by_cases hp : ne.1 * ne.2 % 2 = 0
    · rw [if_neg (by simpa using hp), if_pos hp, e]; simp
    · rw [if_pos hp, if_neg hp]
      simp only [e]
      push_cast; ring
  · intro x hx
    by_cases hp : ne.1 * ne.2 % 2 = 0
    · rw [if_neg (by simpa using hp), if_neg hx]
    · rw [if_pos hp]
      simp only [if_neg hx, zero_mul]

theorem sp_val {T : Tables} {ne : Nat × Nat} (hk : ne ∈ T.keys) (v : Nat → K) :
    ∃ c, spinless2ss T v ne = some c ∧ ∀ ia ib, ia < T.norb.choose ne.1 → ib < T.norb.choose ne.2 →
      c ia ib = ((sg ne : ℤ) : K) * v (spAddr T.norb T.nelec ne.1 ne.2 ia ib) := by
  unfold spinless2ss
  rw [if_pos hk]
  refine ⟨_, rfl, ?_⟩
  intro ia ib ha hb
  have e : v ((addrsNe T.norb T.nelec ne).getD (ia * (strs T.norb ne.2).length + ib) 0) =
      v (spAddr T.norb T.nelec ne.1 ne.2 ia ib) := by rw [strs_length, (addrsNe_get ha hb).2]
  unfold sg
  by_cases hp : ne.1 * ne.2 % 2 = 0
  · rw [if_neg (by simpa using hp), if_pos hp, e]; simp
  · rw [if_pos hp, if_neg hp]
    simp only [e]
    push_cast; ring

end Verif.Spinless

namespace Verif.Props
open Verif.Np Verif.Fockspace Verif.Spec Verif.Spec.Outer Verif.Spec.Fsucc Verif.Spec.Fockspace Verif.Radix Verif.Outer Verif.Spinless
open scoped BigOperators

variable {K : Type} [CommRing K]

/-- The conversion exists exactly when there is at least one state and all states have the same number of electrons; it then covers
exactly the spin sectors of the given states, and asking for another sector is an error. -/
theorem C96_sectors_covered (norb : Nat) (nelecR : List (Nat × Nat)) :
    ((∃ T, tables norb nelecR = some T) ↔ nelecR ≠ [] ∧ ∀ x ∈ nelecR, ∀ y ∈ nelecR, x.1 + x.2 = y.1 + y.2) ∧
    ∀ T, tables norb nelecR = some T → ∀ ne (c : Nat → Nat → K) (v : Nat → K),
      ((∃ w, ss2spinless T c ne = some w) ↔ ne ∈ nelecR) ∧ ((∃ w, spinless2ss T v ne = some w) ↔ ne ∈ nelecR) := by
  constructor
  · constructor
    · rintro ⟨T, hT⟩
      obtain ⟨_, h2, h3⟩ := tables_ok hT
      refine ⟨?_, ?_⟩
      · rintro rfl; simp [tables] at hT
      · intro x hx y hy
        rw [h3 x ((h2 x).2 hx), h3 y ((h2 y).2 hy)]
    · rintro ⟨hne, h⟩
      cases nelecR with
      | nil => exact absurd rfl hne
      | cons ne rest =>
        refine ⟨⟨norb, ne.1 + ne.2, ne :: rest⟩, ?_⟩
        unfold tables
        simp only
        rw [if_pos]
        rw [List.all_eq_true]
        intro x hx
        simpa using h x (by simp [hx]) ne (by simp)
  · intro T hT ne c v
    obtain ⟨_, h2, _⟩ := tables_ok hT
    rw [← h2]
    constructor
    · unfold ss2spinless
      by_cases hk : ne ∈ T.keys
      · rw [if_pos hk]; exact ⟨fun _ => hk, fun _ => ⟨_, rfl⟩⟩
      · rw [if_neg hk]; exact ⟨fun ⟨_, h⟩ => (by cases h), fun h => absurd h hk⟩
    · unfold spinless2ss
      by_cases hk : ne ∈ T.keys
      · rw [if_pos hk]; exact ⟨fun _ => hk, fun _ => ⟨_, rfl⟩⟩
      · rw [if_neg hk]; exact ⟨fun ⟨_, h⟩ => (by cases h), fun h => absurd h hk⟩

/-- The spinless vector has, on each determinant `D` of `2*norb` spin-orbitals (spin-down above spin-up), the coefficient of the
original vector on the two halves of `D`, times the sign of bringing the spin-up creation operators to the right of the spin-down
ones; it vanishes on the determinants of the other spin sectors. -/
theorem C96_coefficients {norb : Nat} {nelecR : List (Nat × Nat)} {T : Tables} (hT : tables norb nelecR = some T)
    (c : Nat → Nat → K) (ne : Nat × Nat) (hk : ne ∈ nelecR) :
    ∃ v, ss2spinless T c ne = some v ∧ ∀ D, D < 2 ^ (2 * norb) → nOcc 0 (2 * norb) D = ne.1 + ne.2 →
      ∃ sgn : ℤ, IsReorderSign (occDesc 0 norb D ++ occDesc norb (2 * norb) D) (occDesc 0 (2 * norb) D) sgn ∧
        v (addrOf (2 * norb) D) = if nOcc 0 norb D = ne.1 then
            (sgn : K) * c (addrOf norb (D % 2 ^ norb)) (addrOf norb (D / 2 ^ norb)) else 0 := by
  obtain ⟨h1, h2, h3⟩ := tables_ok hT
  have hk' := (h2 ne).2 hk
  have hs := h3 ne hk'
  obtain ⟨v, hv, hin, hout⟩ := ss_val hk' hs c
  refine ⟨v, hv, ?_⟩
  intro D hD hocc
  have hp : 0 < 2 ^ norb := Nat.two_pow_pos _
  rw [h1] at hin hout
  have hsplit : nOcc 0 (2 * norb) D = nOcc 0 norb (D % 2 ^ norb) + nOcc 0 norb (D / 2 ^ norb) := by
    rw [show 2 * norb = norb + norb by omega, nOcc_add, nOcc_mod]
  have hsw := swaps_block (occDesc 0 norb D) (occDesc norb (2 * norb) D)
  rw [occDesc_length _ _ _ (by omega), occDesc_length _ _ _ (by omega)] at hsw
  have hword : occDesc 0 (2 * norb) D = occDesc norb (2 * norb) D ++ occDesc 0 norb D := occDesc_append D (by omega) (by omega)
  have hnd : (occDesc 0 norb D ++ occDesc norb (2 * norb) D).Nodup := by
    have := occDesc_nodup 0 (2 * norb) D
    rw [hword] at this
    exact (List.nodup_append_comm).1 this
  refine ⟨_, by rw [hword]; exact IsReorderSign.of_path hnd hsw, ?_⟩
  have hhi : nOcc norb (2 * norb) D = nOcc 0 norb (D / 2 ^ norb) := by
    rw [nOcc_shift, show norb + norb = 2 * norb by omega]
  have hltD : D / 2 ^ norb < 2 ^ norb := by
    rw [Nat.div_lt_iff_lt_mul hp, ← pow_add]; rwa [show norb + norb = 2 * norb by omega]
  by_cases hc : nOcc 0 norb D = ne.1
  · rw [if_pos hc]
    have mA : D % 2 ^ norb ∈ strs norb ne.1 := mem_strs.2 ⟨Nat.mod_lt _ hp, by rw [nOcc_mod, hc]⟩
    have mB : D / 2 ^ norb ∈ strs norb ne.2 := mem_strs.2 ⟨hltD, by
      rw [hsplit, nOcc_mod, hc] at hocc; omega⟩
    have := hin _ _ (addrOf_lt mA) (addrOf_lt mB)
    rw [← hs, spAddr_eq (addrOf_lt mA) (addrOf_lt mB)] at this
    have gA : (strs norb ne.1).getD (addrOf norb (D % 2 ^ norb)) 0 = D % 2 ^ norb := by
      rw [← idxOf_strs mA, List.getD_eq_getElem _ _ (List.idxOf_lt_length_of_mem mA), List.getElem_idxOf]
    have gB : (strs norb ne.2).getD (addrOf norb (D / 2 ^ norb)) 0 = D / 2 ^ norb := by
      rw [← idxOf_strs mB, List.getD_eq_getElem _ _ (List.idxOf_lt_length_of_mem mB), List.getElem_idxOf]
    rw [gA, gB, Nat.mod_add_div'] at this
    rw [this]
    congr 2
    rw [sg, hc, hhi, (mem_strs.1 mB).2]
  · rw [if_neg hc]
    apply hout
    intro hmem
    unfold addrsNe at hmem
    rw [List.mem_map] at hmem
    obtain ⟨k, hk, e⟩ := hmem
    rw [List.mem_range, strs_length, strs_length] at hk
    rw [strs_length] at e
    have hb : 0 < norb.choose ne.2 := Nat.pos_of_ne_zero (fun e => by rw [e] at hk; simp at hk)
    have ha' : k / norb.choose ne.2 < norb.choose ne.1 := by rw [Nat.div_lt_iff_lt_mul hb]; exact hk
    have hb' := Nat.mod_lt k hb
    rw [← hs, spAddr_eq ha' hb'] at e
    replace ha' : k / norb.choose ne.2 < (strs norb ne.1).length := by rw [strs_length]; exact ha'
    have hb'' : k % norb.choose ne.2 < (strs norb ne.2).length := by rw [strs_length]; exact hb'
    rw [List.getD_eq_getElem _ _ ha', List.getD_eq_getElem _ _ hb''] at e
    have mA := List.getElem_mem ha'
    have mB := List.getElem_mem hb''
    have := addrOf_inj (join_mem mA mB) (mem_strs.2 ⟨hD, hocc⟩) e
    apply hc
    rw [← this, ← nOcc_mod, Nat.add_mul_mod_self_right, Nat.mod_eq_of_lt (mem_strs.1 mA).1, (mem_strs.1 mA).2]

/-- Converting to the spinless representation and back returns the vector; converting back to another spin sector returns zeros. -/
theorem C96_roundtrip {norb : Nat} {nelecR : List (Nat × Nat)} {T : Tables} (hT : tables norb nelecR = some T)
    (c : Nat → Nat → K) (ne ne' : Nat × Nat) (hk : ne ∈ nelecR) (hk' : ne' ∈ nelecR) :
    ∃ v c', ss2spinless T c ne = some v ∧ spinless2ss T v ne' = some c' ∧
      ∀ ia ib, ia < norb.choose ne'.1 → ib < norb.choose ne'.2 → c' ia ib = if ne' = ne then c ia ib else 0 := by
  obtain ⟨h1, h2, h3⟩ := tables_ok hT
  have hs := h3 ne ((h2 ne).2 hk)
  have hs' := h3 ne' ((h2 ne').2 hk')
  obtain ⟨v, hv, hin, hout⟩ := ss_val ((h2 ne).2 hk) hs c
  obtain ⟨c', hc', hcv⟩ := sp_val ((h2 ne').2 hk') v
  refine ⟨v, c', hv, hc', ?_⟩
  rw [h1] at hin hout hcv
  intro ia ib ha hb
  rw [hcv ia ib ha hb]
  by_cases he : ne' = ne
  · subst he
    rw [if_pos rfl, hin ia ib ha hb, ← mul_assoc, sg_sq, one_mul]
  · rw [if_neg he, hout, mul_zero]
    intro hmem
    unfold addrsNe at hmem
    rw [List.mem_map] at hmem
    obtain ⟨k, hk, e⟩ := hmem
    rw [List.mem_range, strs_length, strs_length] at hk
    rw [strs_length] at e
    have hb0 : 0 < norb.choose ne.2 := Nat.pos_of_ne_zero (fun e => by rw [e] at hk; simp at hk)
    have := spAddr_inj (na := ne.1) (nb := ne.2) (na' := ne'.1) (nb' := ne'.2) (by omega)
      (by rw [Nat.div_lt_iff_lt_mul hb0]; exact hk) (Nat.mod_lt k hb0) ha hb (by rw [hs, hs']; exact e)
    exact he (Prod.ext this.1.symm this.2.1.symm)

/-- Scalar products are those of the original vectors, and 0 between different spin sectors. -/
theorem C96_scalar_product {norb : Nat} {nelecR : List (Nat × Nat)} {T : Tables} (hT : tables norb nelecR = some T)
    (c d : Nat → Nat → K) (ne ne' : Nat × Nat) (hk : ne ∈ nelecR) (hk' : ne' ∈ nelecR) :
    ∃ v w, ss2spinless T c ne = some v ∧ ss2spinless T d ne' = some w ∧
      ∑ x ∈ Finset.range ((2 * norb).choose (ne.1 + ne.2)), v x * w x =
        if ne' = ne then ∑ ia ∈ Finset.range (norb.choose ne.1), ∑ ib ∈ Finset.range (norb.choose ne.2), c ia ib * d ia ib else 0 := by
  obtain ⟨h1, h2, h3⟩ := tables_ok hT
  have hs := h3 ne ((h2 ne).2 hk)
  have hs' := h3 ne' ((h2 ne').2 hk')
  obtain ⟨v, hv, hin, hout⟩ := ss_val ((h2 ne).2 hk) hs c
  obtain ⟨w, hw, hin', hout'⟩ := ss_val ((h2 ne').2 hk') hs' d
  refine ⟨v, w, hv, hw, ?_⟩
  rw [h1] at hin hout hin' hout'
  have hsub : (addrsNe norb T.nelec ne).toFinset ⊆ Finset.range ((2 * norb).choose (ne.1 + ne.2)) := by
    intro x hx
    rw [List.mem_toFinset, addrsNe, List.mem_map] at hx
    obtain ⟨k, hk, rfl⟩ := hx
    rw [List.mem_range, strs_length, strs_length] at hk
    have hb0 : 0 < norb.choose ne.2 := Nat.pos_of_ne_zero (fun e => by rw [e] at hk; simp at hk)
    have ha : k / norb.choose ne.2 < (strs norb ne.1).length := by rw [strs_length, Nat.div_lt_iff_lt_mul hb0]; exact hk
    have hb : k % norb.choose ne.2 < (strs norb ne.2).length := by rw [strs_length]; exact Nat.mod_lt k hb0
    rw [Finset.mem_range, strs_length, ← hs, spAddr_eq (by rw [strs_length] at ha; exact ha) (by rw [strs_length] at hb; exact hb)]
    apply addrOf_lt
    rw [List.getD_eq_getElem _ _ ha, List.getD_eq_getElem _ _ hb]
    exact join_mem (List.getElem_mem ha) (List.getElem_mem hb)
  rw [← Finset.sum_subset hsub (fun x _ hx => by rw [hout x (by rwa [List.mem_toFinset] at hx), zero_mul])]
  rw [List.sum_toFinset _ (addrsNe_nodup hs)]
  have hlist : ((addrsNe norb T.nelec ne).map fun x => v x * w x).sum =
      ∑ ia ∈ Finset.range (norb.choose ne.1), ∑ ib ∈ Finset.range (norb.choose ne.2),
        v (spAddr norb T.nelec ne.1 ne.2 ia ib) * w (spAddr norb T.nelec ne.1 ne.2 ia ib) := by
    rw [addrsNe, List.map_map, strs_length, strs_length, ← List.sum_toFinset _ List.nodup_range, List.toFinset_range, sum_blocks]
    apply Finset.sum_congr rfl
    intro ia _
    apply Finset.sum_congr rfl
    intro ib hb
    have hb := Finset.mem_range.1 hb
    simp only [Function.comp]
    rw [Nat.mul_comm ia, Nat.mul_add_div (by omega), Nat.div_eq_of_lt hb, Nat.mul_add_mod, Nat.mod_eq_of_lt hb, Nat.add_zero]
  rw [hlist]
  by_cases he : ne' = ne
  · subst he
    rw [if_pos rfl]
    apply Finset.sum_congr rfl
    intro ia ha
    apply Finset.sum_congr rfl
    intro ib hb
    rw [hin ia ib (Finset.mem_range.1 ha) (Finset.mem_range.1 hb), hin' ia ib (Finset.mem_range.1 ha) (Finset.mem_range.1 hb)]
    linear_combination (c ia ib * d ia ib) * sg_sq (K := K) ne'
  · rw [if_neg he]
    apply Finset.sum_eq_zero
    intro ia ha
    apply Finset.sum_eq_zero
    intro ib hb
    rw [hout', mul_zero]
    intro hmem
    unfold addrsNe at hmem
    rw [List.mem_map] at hmem
    obtain ⟨k, hk, e⟩ := hmem
    rw [List.mem_range, strs_length, strs_length] at hk
    rw [strs_length] at e
    have hb0 : 0 < norb.choose ne'.2 := Nat.pos_of_ne_zero (fun e => by rw [e] at hk; simp at hk)
    have := spAddr_inj (na := ne'.1) (nb := ne'.2) (na' := ne.1) (nb' := ne.2) (by omega)
      (by rw [Nat.div_lt_iff_lt_mul hb0]; exact hk) (Nat.mod_lt k hb0) (Finset.mem_range.1 ha) (Finset.mem_range.1 hb) (by rw [hs, hs']; exact e)
    exact he (Prod.ext this.1 this.2.1)

/-- The hypotheses of the theorems on the spinless representation are met by a triplet with two spin projections, and the sign
is not trivial. -/
example : (∃ T, tables 2 [(1, 1), (2, 0)] = some T) ∧
    ((tables 2 [(1, 1), (2, 0)]).bind fun T => (ss2spinless T (fun a b => (3 * a + b + 1 : ℤ)) (1, 1)).map fun v => v (addrOf 4 6)) = some (-4) ∧
    tables 2 [(1, 1), (2, 1)] = none := by
  refine ⟨⟨_, rfl⟩, by decide, by decide⟩

end Verif.Props
