import Verif.Lemmas.ProdRdm3b
import Verif.Spec.DetState
/-!
# C84, C85: three-body density matrices of all active orbitals from those of the fragments
-/
namespace Verif.ProdRdm
open scoped BigOperators
open Verif.Spec.ProdRdm
variable {R : Type*} [CommRing R]

theorem wsum_neg (F : Frags2 R) (g : Nat → R) : -F.wsum g = F.wsum fun r => -g r := by
  unfold Frags2.wsum
  rw [← Finset.sum_neg_distrib]
  exact Finset.sum_congr rfl fun r _ => by ring

theorem wsum_eq (F : Frags2 R) (hw : ∀ r < F.nroots, F.w r * F.w r = F.w r) (g : Nat → R) :
    F.wsum g = ∑ r ∈ Finset.range F.nroots, F.w r * g r := by
  unfold Frags2.wsum
  exact Finset.sum_congr rfl fun r hr => by rw [← mul_assoc, hw r (Finset.mem_range.1 hr)]

/-- Symmetric program: the blocks of `make_casdm3`, `casdm3s[0]` and `casdm3s[3]`. -/
def six3 (f g h : Nat) : List (List Nat) :=
  [[f, f, g, g, h, h], [f, f, g, h, h, g], [f, h, g, f, h, g], [f, g, g, f, h, h], [f, h, g, g, h, f], [f, g, g, h, h, f]]

theorem cover_sym (us3 : Nat × Nat × Nat → List (Upd R)) (us2 : Nat × Nat → List (Upd R))
    (h3 : ∀ i k m, ∀ b ∈ six3 i k m, ∃ u ∈ us3 (i, k, m), u.copies = .five ∧ u.blk = b)
    (h2 : ∀ i k, (∃ u ∈ us2 (i, k), u.copies = .two ∧ u.blk = [i, i, i, i, k, k]) ∧
      ∃ u ∈ us2 (i, k), u.copies = .five ∧ u.blk = [i, i, i, k, k, i])
    (f1 f2 f3 f4 f5 f6 : Nat)
    (hf : (f2 = f1 ∧ f4 = f3 ∧ f6 = f5) ∨ (f2 = f1 ∧ f4 = f5 ∧ f6 = f3) ∨ (f2 = f3 ∧ f4 = f1 ∧ f6 = f5) ∨
      (f2 = f3 ∧ f4 = f5 ∧ f6 = f1) ∨ (f2 = f5 ∧ f4 = f1 ∧ f6 = f3) ∨ (f2 = f5 ∧ f4 = f3 ∧ f6 = f1))
    (n3 : ∀ i k m, i < k → k < m → i ∈ [f1, f3, f5] → k ∈ [f1, f3, f5] → m ∈ [f1, f3, f5] → ∀ u ∈ us3 (i, k, m),
      [f1, f2, f3, f4, f5, f6] ∉ u.writes)
    (n2 : ∀ i k, i ≠ k → i ∈ [f1, f3, f5] → k ∈ [f1, f3, f5] → ∀ u ∈ us2 (i, k), [f1, f2, f3, f4, f5, f6] ∉ u.writes)
    (nd : ∀ f, [f1, f2, f3, f4, f5, f6] ≠ [f, f, f, f, f, f]) : False := by
  have k3 : ∀ i k m, i < k → k < m → i ∈ [f1, f3, f5] → k ∈ [f1, f3, f5] → m ∈ [f1, f3, f5] → ∀ b ∈ six3 i k m,
      ∀ a1 a2 a3 a4 a5 a6, b = [a1, a2, a3, a4, a5, a6] → [f1, f2, f3, f4, f5, f6] ∉
        [[a1, a2, a3, a4, a5, a6], [a1, a2, a5, a6, a3, a4], [a5, a6, a1, a2, a3, a4], [a5, a6, a3, a4, a1, a2],
        [a3, a4, a5, a6, a1, a2], [a3, a4, a1, a2, a5, a6]] := by
    intro i k m hik hkm hi hk hm b hb a1 a2 a3 a4 a5 a6 e hin
    obtain ⟨u, hu, hc, hbk⟩ := h3 i k m b hb
    refine n3 i k m hik hkm hi hk hm u hu ?_
    rw [Upd.writes, hc, hbk, e]
    exact hin
  have k2 : ∀ i k, i ≠ k → i ∈ [f1, f3, f5] → k ∈ [f1, f3, f5] → [f1, f2, f3, f4, f5, f6] ∉
      [[i, i, i, i, k, k], [i, i, k, k, i, i], [k, k, i, i, i, i], [i, i, i, k, k, i], [i, i, k, i, i, k], [k, i, i, i, i, k],
        [k, i, i, k, i, i], [i, k, k, i, i, i], [i, k, i, i, k, i]] := by
    intro i k hik hi hk hin
    obtain ⟨⟨u, hu, hc, hbk⟩, v, hv, hc', hbk'⟩ := h2 i k
    have e1 := n2 i k hik hi hk u hu
    have e2 := n2 i k hik hi hk v hv
    rw [Upd.writes, hc, hbk] at e1
    rw [Upd.writes, hc', hbk'] at e2
    simp only [List.mem_cons, List.not_mem_nil, or_false] at e1 e2 hin
    tauto
  by_cases h13 : f1 = f3
  · subst h13
    by_cases h15 : f1 = f5
    · subst h15
      refine nd f1 ?_
      simp only [List.cons.injEq, and_true, true_and]
      omega
    · refine k2 f1 f5 h15 (by simp) (by simp) ?_
      rcases hf with ⟨rfl, rfl, rfl⟩ | ⟨rfl, rfl, rfl⟩ | ⟨rfl, rfl, rfl⟩ | ⟨rfl, rfl, rfl⟩ | ⟨rfl, rfl, rfl⟩ | ⟨rfl, rfl, rfl⟩ <;> simp
  · by_cases h15 : f1 = f5
    · subst h15
      refine k2 f1 f3 h13 (by simp) (by simp) ?_
      rcases hf with ⟨rfl, rfl, rfl⟩ | ⟨rfl, rfl, rfl⟩ | ⟨rfl, rfl, rfl⟩ | ⟨rfl, rfl, rfl⟩ | ⟨rfl, rfl, rfl⟩ | ⟨rfl, rfl, rfl⟩ <;> simp
    · by_cases h35 : f3 = f5
      · subst h35
        refine k2 f3 f1 (fun e => h13 e.symm) (by simp) (by simp) ?_
        rcases hf with ⟨rfl, rfl, rfl⟩ | ⟨rfl, rfl, rfl⟩ | ⟨rfl, rfl, rfl⟩ | ⟨rfl, rfl, rfl⟩ | ⟨rfl, rfl, rfl⟩ | ⟨rfl, rfl, rfl⟩ <;> simp
      · have fin : ∀ i k m, i < k → k < m → i ∈ [f1, f3, f5] → k ∈ [f1, f3, f5] → m ∈ [f1, f3, f5] →
            ([f1, f2, f3, f4, f5, f6] ∉ (six3 i k m).flatMap fun b => match b with
              | [a1, a2, a3, a4, a5, a6] => [[a1, a2, a3, a4, a5, a6], [a1, a2, a5, a6, a3, a4], [a5, a6, a1, a2, a3, a4],
                [a5, a6, a3, a4, a1, a2], [a3, a4, a5, a6, a1, a2], [a3, a4, a1, a2, a5, a6]]
              | _ => []) := by
          intro i k m hik hkm hi hk hm hin
          obtain ⟨b, hb, hin⟩ := List.mem_flatMap.1 hin
          split at hin
          · exact k3 i k m hik hkm hi hk hm _ hb _ _ _ _ _ _ rfl hin
          · simp at hin
        rcases order3 f1 f3 f5 h13 h35 h15 with hs | hs | hs | hs | hs | hs
        · refine fin f1 f3 f5 hs.1 hs.2.2.1 (by simp) (by simp) (by simp) ?_
          rcases hf with ⟨rfl, rfl, rfl⟩ | ⟨rfl, rfl, rfl⟩ | ⟨rfl, rfl, rfl⟩ | ⟨rfl, rfl, rfl⟩ | ⟨rfl, rfl, rfl⟩ | ⟨rfl, rfl, rfl⟩ <;> simp [six3]
        · refine fin f1 f5 f3 hs.2.2.2.2.1 hs.2.2.1 (by simp) (by simp) (by simp) ?_
          rcases hf with ⟨rfl, rfl, rfl⟩ | ⟨rfl, rfl, rfl⟩ | ⟨rfl, rfl, rfl⟩ | ⟨rfl, rfl, rfl⟩ | ⟨rfl, rfl, rfl⟩ | ⟨rfl, rfl, rfl⟩ <;> simp [six3]
        · refine fin f5 f1 f3 hs.2.2.2.2.1 hs.1 (by simp) (by simp) (by simp) ?_
          rcases hf with ⟨rfl, rfl, rfl⟩ | ⟨rfl, rfl, rfl⟩ | ⟨rfl, rfl, rfl⟩ | ⟨rfl, rfl, rfl⟩ | ⟨rfl, rfl, rfl⟩ | ⟨rfl, rfl, rfl⟩ <;> simp [six3]
        · refine fin f3 f1 f5 hs.1 hs.2.2.2.2.1 (by simp) (by simp) (by simp) ?_
          rcases hf with ⟨rfl, rfl, rfl⟩ | ⟨rfl, rfl, rfl⟩ | ⟨rfl, rfl, rfl⟩ | ⟨rfl, rfl, rfl⟩ | ⟨rfl, rfl, rfl⟩ | ⟨rfl, rfl, rfl⟩ <;> simp [six3]
        · refine fin f3 f5 f1 hs.2.2.1 hs.2.2.2.2.1 (by simp) (by simp) (by simp) ?_
          rcases hf with ⟨rfl, rfl, rfl⟩ | ⟨rfl, rfl, rfl⟩ | ⟨rfl, rfl, rfl⟩ | ⟨rfl, rfl, rfl⟩ | ⟨rfl, rfl, rfl⟩ | ⟨rfl, rfl, rfl⟩ <;> simp [six3]
        · refine fin f5 f3 f1 hs.2.2.1 hs.1 (by simp) (by simp) (by simp) ?_
          rcases hf with ⟨rfl, rfl, rfl⟩ | ⟨rfl, rfl, rfl⟩ | ⟨rfl, rfl, rfl⟩ | ⟨rfl, rfl, rfl⟩ | ⟨rfl, rfl, rfl⟩ | ⟨rfl, rfl, rfl⟩ <;> simp [six3]

/-- The blocks reached from a block by exchanging pairs of indices. -/
theorem sym_distinct3 (i k m i' k' m' : Nat) (h1 : i < k) (h2 : k < m) (h1' : i' < k') (h2' : k' < m')
    (hne : ¬(i = i' ∧ k = k' ∧ m = m')) (u v : Upd R) (hu : u.copies = .five) (hub : u.blk ∈ six3 i k m) (hvb : v.blk ∈ six3 i' k' m') :
    v.blk ∉ u.writes := by
  obtain ⟨cu, nu, bu, Vu⟩ := u
  obtain ⟨cv, nv, bv, Vv⟩ := v
  dsimp only at hu hub hvb ⊢
  subst hu
  simp only [six3, List.mem_cons, List.not_mem_nil, or_false] at hub hvb
  rcases hub with rfl | rfl | rfl | rfl | rfl | rfl <;> rcases hvb with rfl | rfl | rfl | rfl | rfl | rfl <;>
    (simp only [Upd.writes, List.mem_cons, List.not_mem_nil, or_false, List.cons.injEq, and_true]; omega)

theorem sym_distinct32 (i k m i' k' : Nat) (h1 : i < k) (h2 : k < m) (h : i' ≠ k') (u v : Upd R)
    (hu : u.copies = .five) (hub : u.blk ∈ six3 i k m) (hvb : v.blk = [i', i', i', i', k', k'] ∨ v.blk = [i', i', i', k', k', i']) :
    v.blk ∉ u.writes := by
  obtain ⟨cu, nu, bu, Vu⟩ := u
  obtain ⟨cv, nv, bv, Vv⟩ := v
  dsimp only at hu hub hvb ⊢
  subst hu
  simp only [six3, List.mem_cons, List.not_mem_nil, or_false] at hub
  rcases hub with rfl | rfl | rfl | rfl | rfl | rfl <;> rcases hvb with rfl | rfl <;>
    (simp only [Upd.writes, List.mem_cons, List.not_mem_nil, or_false, List.cons.injEq, and_true]; omega)

theorem sym_distinct2 (i k i' k' : Nat) (h : i ≠ k) (h' : i' ≠ k') (u v : Upd R)
    (hu : (u.copies = .two ∧ u.blk = [i, i, i, i, k, k]) ∨ (u.copies = .five ∧ u.blk = [i, i, i, k, k, i]))
    (hv : (v.copies = .two ∧ v.blk = [i', i', i', i', k', k']) ∨ (v.copies = .five ∧ v.blk = [i', i', i', k', k', i']))
    (hne : ¬(i = i' ∧ k = k') ∨ u.copies ≠ v.copies) : v.blk ∉ u.writes := by
  obtain ⟨cu, nu, bu, Vu⟩ := u
  obtain ⟨cv, nv, bv, Vv⟩ := v
  dsimp only at hu hv hne ⊢
  rcases hu with ⟨rfl, rfl⟩ | ⟨rfl, rfl⟩ <;> rcases hv with ⟨rfl, rfl⟩ | ⟨rfl, rfl⟩ <;>
    (simp only [Upd.writes, List.mem_cons, List.not_mem_nil, or_false, List.cons.injEq, and_true, ne_eq, not_true, or_false] at hne ⊢
     omega)

theorem assembled_sym (F : Frags2 R) (dm3 : Nat → Arr R) (us3 : Nat × Nat × Nat → List (Upd R)) (us2 : Nat × Nat → List (Upd R))
    (g : Nat × Nat → Nat × Nat → Nat × Nat → Nat × Nat → Nat × Nat → Nat × Nat → R)
    (hb3 : ∀ i k m, ∀ u ∈ us3 (i, k, m), u.copies = .five ∧ u.blk ∈ six3 i k m)
    (hc3 : ∀ i k m, ∀ b ∈ six3 i k m, ∃ u ∈ us3 (i, k, m), u.copies = .five ∧ u.blk = b)
    (hb2 : ∀ i k, ∃ u v, us2 (i, k) = [u, v] ∧ (u.copies = .two ∧ u.blk = [i, i, i, i, k, k]) ∧ (v.copies = .five ∧ v.blk = [i, i, i, k, k, i]))
    (hp3 : ∀ i k m, i < k → k < m → (us3 (i, k, m)).Pairwise fun u v => v.blk ∉ u.writes)
    (hval3 : ∀ i k m, i < k → k < m → ∀ u ∈ us3 (i, k, m), ∀ as, as.length = 6 → (if u.neg then -u.V as else u.V as) = tgt g u.blk as)
    (hval2 : ∀ i k, i ≠ k → ∀ u ∈ us2 (i, k), ∀ as, as.length = 6 → (if u.neg then -u.V as else u.V as) = tgt g u.blk as)
    (hsym : PairSym (tgt g))
    (hz : ∀ p q r u v x : Nat × Nat, g p q r u v x ≠ 0 →
      (q.1 = p.1 ∧ u.1 = r.1 ∧ x.1 = v.1) ∨ (q.1 = p.1 ∧ u.1 = v.1 ∧ x.1 = r.1) ∨ (q.1 = r.1 ∧ u.1 = p.1 ∧ x.1 = v.1) ∨
      (q.1 = r.1 ∧ u.1 = v.1 ∧ x.1 = p.1) ∨ (q.1 = v.1 ∧ u.1 = p.1 ∧ x.1 = r.1) ∨ (q.1 = v.1 ∧ u.1 = r.1 ∧ x.1 = p.1))
    (hd : ∀ f a b c d e h, g (f, a) (f, b) (f, c) (f, d) (f, e) (f, h) = dm3 f [a, b, c, d, e, h])
    (p q r u v x : Nat × Nat) (hp : Spec.ProdRdm.Exists F.ncas p) (hq : Spec.ProdRdm.Exists F.ncas q)
    (hr : Spec.ProdRdm.Exists F.ncas r) (hu : Spec.ProdRdm.Exists F.ncas u) (hv : Spec.ProdRdm.Exists F.ncas v)
    (hx : Spec.ProdRdm.Exists F.ncas x) :
    ((comb3 F.ncas.length).flatMap us3 ++ (perm2 F.ncas.length).flatMap us2).foldl (Upd.apply F.ncas) (F.diag6 dm3 fun _ => 0)
      [Spec.ProdRdm.index F.ncas p, Spec.ProdRdm.index F.ncas q, Spec.ProdRdm.index F.ncas r, Spec.ProdRdm.index F.ncas u,
       Spec.ProdRdm.index F.ncas v, Spec.ProdRdm.index F.ncas x] = g p q r u v x := by
  have hm2 : ∀ i k, ∀ u ∈ us2 (i, k), (u.copies = .two ∧ u.blk = [i, i, i, i, k, k]) ∨ (u.copies = .five ∧ u.blk = [i, i, i, k, k, i]) := by
    intro i k u hu
    obtain ⟨a, b, e, ha, hb⟩ := hb2 i k
    rw [e] at hu
    simp only [List.mem_cons, List.not_mem_nil, or_false] at hu
    rcases hu with rfl | rfl
    · exact Or.inl ha
    · exact Or.inr hb
  have hblk2 : ∀ i k, ∀ u ∈ us2 (i, k), u.blk = [i, i, i, i, k, k] ∨ u.blk = [i, i, i, k, k, i] := by
    intro i k u hu
    rcases hm2 i k u hu with h | h
    · exact Or.inl h.2
    · exact Or.inr h.2
  refine assembled3 F dm3 us3 us2 g ?_ ?_ hval3 hval2 (fun _ _ _ _ => hsym) (fun _ _ _ _ => hsym) hp3 ?_ ?_ ?_ ?_ ?_ ?_ ?_ hd
    p q r u v x hp hq hr hu hv hx
  · rintro ⟨i, k, m⟩ u hu
    have := (hb3 i k m u hu).2
    simp only [six3, List.mem_cons, List.not_mem_nil, or_false] at this
    rcases this with h | h | h | h | h | h <;> rw [h] <;> rfl
  · rintro ⟨i, k⟩ u hu
    rcases hblk2 i k u hu with h | h <;> rw [h] <;> rfl
  · intro i k hik
    obtain ⟨a, b, e, ha, hb⟩ := hb2 i k
    rw [e]
    simp only [List.pairwise_cons, List.mem_cons, List.not_mem_nil, or_false, forall_eq, List.Pairwise.nil, and_true, IsEmpty.forall_iff, implies_true]
    refine sym_distinct2 i k i k hik hik a b (Or.inl ha) (Or.inr hb) (Or.inr ?_)
    rw [ha.1, hb.1]; simp
  · intro i k m i' k' m' h1 h2 h1' h2' hne u hu v hv
    exact sym_distinct3 i k m i' k' m' h1 h2 h1' h2' hne u v (hb3 i k m u hu).1 (hb3 i k m u hu).2 (hb3 i' k' m' v hv).2
  · intro i k i' k' h h' hne u hu v hv
    exact sym_distinct2 i k i' k' h h' u v (hm2 i k u hu) (hm2 i' k' v hv) (Or.inl hne)
  · intro i k m i' k' h1 h2 h u hu v hv
    exact sym_distinct32 i k m i' k' h1 h2 h u v (hb3 i k m u hu).1 (hb3 i k m u hu).2 (hblk2 i' k' v hv)
  · intro i k m h1 h2 u hu f hf
    have := (hb3 i k m u hu).2
    simp only [six3, List.mem_cons, List.not_mem_nil, or_false] at this
    rcases this with h | h | h | h | h | h <;> rw [h] at hf <;> simp only [List.cons.injEq, and_true] at hf <;> omega
  · intro i k h u hu f hf
    rcases hblk2 i k u hu with h | h <;> rw [h] at hf <;> simp only [List.cons.injEq, and_true] at hf <;> omega
  · intro f1 a1 f2 a2 f3 a3 f4 a4 f5 a5 f6 a6 n3 n2 nd
    by_contra hne
    refine cover_sym us3 us2 hc3 ?_ f1 f2 f3 f4 f5 f6 (hz _ _ _ _ _ _ hne) n3 n2 nd
    intro i k
    obtain ⟨a, b, e, ha, hb⟩ := hb2 i k
    rw [e]
    exact ⟨⟨a, by simp, ha⟩, b, by simp, hb⟩

end Verif.ProdRdm

namespace Verif.Props
open scoped BigOperators
open Verif.ProdRdm Verif.Spec.ProdRdm
variable {R : Type*} [CommRing R]

/-- C84 (part): every element of the spin-summed three-body density matrix of all active orbitals is the expectation value of
`Σ_{στυ} p†_σ r†_τ v†_υ x_υ u_τ q_σ` in the product of the fragment states. Two restrictions are needed: the weights satisfy
`w² = w` (a single rootspace), and the fragments' opposite-spin density matrix does not change if the two spins are exchanged.
What is missing: several rootspaces (`C84_weights_violated`) and fragments without that symmetry (`C84_spin_violated`). -/
theorem C84_spin_summed_partial (F : Frags2 R) (E : Nat → Nat → List Op → R) (dm3 : Nat → Arr R) (hcons : ∀ r, Conserves (E r))
    (hanti : ∀ r, Anticommutes (E r)) (hw : ∀ r < F.nroots, F.w r * F.w r = F.w r)
    (h1 : ∀ f r s a b, F.dm1 f r s a b = E r f (word1 s (f, a) (f, b)))
    (haa : ∀ f r a b k l, F.aa f r a b k l = E r f (word2 false false (f, a) (f, b) (f, k) (f, l)))
    (hab : ∀ f r a b k l, F.ab f r a b k l = E r f (word2 false true (f, a) (f, b) (f, k) (f, l)))
    (hbb : ∀ f r a b k l, F.bb f r a b k l = E r f (word2 true true (f, a) (f, b) (f, k) (f, l)))
    (h3 : ∀ f a b k l m n, dm3 f [a, b, k, l, m, n] = ∑ r ∈ Finset.range F.nroots, F.w r * sumSpin fun s => sumSpin fun t =>
      sumSpin fun y => E r f (word3 s t y (f, a) (f, b) (f, k) (f, l) (f, m) (f, n)))
    (hspin : ∀ f r a b k l, E r f (word2 false true (f, a) (f, b) (f, k) (f, l)) = E r f (word2 true false (f, a) (f, b) (f, k) (f, l)))
    (p q r u v x : Nat × Nat) (hp : Exists F.ncas p) (hq : Exists F.ncas q) (hr : Exists F.ncas r) (hu : Exists F.ncas u)
    (hv : Exists F.ncas v) (hx : Exists F.ncas x) :
    F.makeCasdm3 dm3 [index F.ncas p, index F.ncas q, index F.ncas r, index F.ncas u, index F.ncas v, index F.ncas x] =
      ∑ k ∈ Finset.range F.nroots, F.w k * sumSpin fun s => sumSpin fun t => sumSpin fun y =>
        expect (E k) (word3 s t y p q r u v x) := by
  rw [← wsum_eq F hw]
  unfold Frags2.makeCasdm3
  refine assembled_sym F dm3 F.terms3 F.terms2 (fun p q r u v x => F.wsum fun k => sumSpin fun s => sumSpin fun t => sumSpin fun y =>
    expect (E k) (word3 s t y p q r u v x)) ?_ ?_ ?_ ?_ ?_ ?_ ?_ ?_ ?_ p q r u v x hp hq hr hu hv hx
  · intro i k m u hu
    simp only [Frags2.terms3, List.mem_cons, List.not_mem_nil, or_false] at hu
    rcases hu with rfl | rfl | rfl | rfl | rfl | rfl <;> simp [six3]
  · intro i k m b hb
    simp only [six3, List.mem_cons, List.not_mem_nil, or_false] at hb
    rcases hb with rfl | rfl | rfl | rfl | rfl | rfl <;> simp [Frags2.terms3]
  · intro i k
    exact ⟨_, _, rfl, ⟨rfl, rfl⟩, rfl, rfl⟩
  · intro i k m h1 h2
    simp only [Frags2.terms3, List.pairwise_cons, List.mem_cons, List.not_mem_nil, or_false, forall_eq_or_imp, forall_eq,
      List.Pairwise.nil, Upd.writes, List.cons.injEq, and_true, IsEmpty.forall_iff, implies_true]
    omega
  · intro i k m h1' h2' w hw as has
    obtain ⟨a, b, c', d', e, f, rfl⟩ := len6 as has
    have n1 : i ≠ k := by omega
    have n2 : k ≠ m := by omega
    have n3 : i ≠ m := by omega
    simp only [Frags2.terms3, List.mem_cons, List.not_mem_nil, or_false] at hw
    rcases hw with rfl | rfl | rfl | rfl | rfl | rfl
    · simp only [tgt, arr6, expect3_A _ (hcons _) _ _ _ _ _ _ _ _ _ _ _ _ n1 n2 n3, h1, sumSpin, Bool.false_eq_true, if_false]
      congr 1; funext r; ring
    · simp only [tgt, arr6, expect3_B _ (hcons _) _ _ _ _ _ _ _ _ _ _ _ _ n1 n2 n3, h1, sumSpin, if_true, wsum_neg]
      congr 1; funext r; simp; ring
    · simp only [tgt, arr6, expect3_F _ (hcons _) _ _ _ _ _ _ _ _ _ _ _ _ n1 n2 n3, h1, sumSpin, Bool.false_eq_true, if_false]
      congr 1; funext r; simp
    · simp only [tgt, arr6, expect3_C _ (hcons _) _ _ _ _ _ _ _ _ _ _ _ _ n1 n2 n3, h1, sumSpin, if_true, wsum_neg]
      congr 1; funext r; simp; ring
    · simp only [tgt, arr6, expect3_D _ (hcons _) _ _ _ _ _ _ _ _ _ _ _ _ n1 n2 n3, h1, sumSpin, if_true, wsum_neg]
      congr 1; funext r; simp; ring
    · simp only [tgt, arr6, expect3_E _ (hcons _) _ _ _ _ _ _ _ _ _ _ _ _ n1 n2 n3, h1, sumSpin, Bool.false_eq_true, if_false]
      congr 1; funext r; simp
  · intro i k hik w hw as has
    obtain ⟨a, b, c', d', e, f, rfl⟩ := len6 as has
    simp only [Frags2.terms2, List.mem_cons, List.not_mem_nil, or_false] at hw
    rcases hw with rfl | rfl
    · simp only [tgt, arr6, expect3_G _ _ _ _ _ _ _ _ _ _ _ _ hik, h1, haa, hab, hbb, sumSpin, Bool.false_eq_true, if_false, ← hspin]
      congr 1; funext r; ring
    · simp only [tgt, arr6, expect3_H _ (hcons _) _ _ _ _ _ _ _ _ _ _ _ hik, h1, haa, hab, hbb, sumSpin, if_true, wsum_neg, ← hspin]
      congr 1; funext r; simp; ring
  · constructor
    · intro f1 f2 f3 f4 f5 f6 a1 a2 a3 a4 a5 a6
      simp only [tgt]
      congr 1; funext r
      simp only [sumSpin, expect_swap23 _ (hanti r) _ _ _ (f1, a1) (f2, a2) (f5, a5) (f6, a6)]
      ring
    · intro f1 f2 f3 f4 f5 f6 a1 a2 a3 a4 a5 a6
      simp only [tgt]
      congr 1; funext r
      simp only [sumSpin, expect_swap12 _ (hanti r) _ _ _ (f3, a3) (f4, a4) (f1, a1) (f2, a2)]
      ring
  · intro p q r u v x hne
    by_contra hno
    apply hne
    have : ∀ k s t y, expect (E k) (word3 s t y p q r u v x) = 0 := by
      intro k s t y
      by_contra h
      exact hno (expect_frags (E k) (hcons k) s t y p q r u v x h)
    simp [this, sumSpin, Frags2.wsum]
  · intro f a b k l m n
    simp only [expect3_diag]
    rw [wsum_eq F hw, h3]

/-- C85 (part): the components aaa and bbb of `make_casdm3s`, for a single rootspace. What is missing: several rootspaces
(`C84_weights_violated`). -/
theorem C85_same_spin_partial (F : Frags2 R) (E : Nat → Nat → List Op → R) (dm3 : Nat → Arr R) (s : Bool) (hcons : ∀ r, Conserves (E r))
    (hanti : ∀ r, Anticommutes (E r)) (hw : ∀ r < F.nroots, F.w r * F.w r = F.w r)
    (h1 : ∀ f r s a b, F.dm1 f r s a b = E r f (word1 s (f, a) (f, b)))
    (haa : ∀ f r a b k l, F.aa f r a b k l = E r f (word2 false false (f, a) (f, b) (f, k) (f, l)))
    (hab : ∀ f r a b k l, F.ab f r a b k l = E r f (word2 false true (f, a) (f, b) (f, k) (f, l)))
    (hbb : ∀ f r a b k l, F.bb f r a b k l = E r f (word2 true true (f, a) (f, b) (f, k) (f, l)))
    (h3 : ∀ f a b k l m n, dm3 f [a, b, k, l, m, n] = ∑ r ∈ Finset.range F.nroots, F.w r *
      E r f (word3 s s s (f, a) (f, b) (f, k) (f, l) (f, m) (f, n)))
    (p q r u v x : Nat × Nat) (hp : Exists F.ncas p) (hq : Exists F.ncas q) (hr : Exists F.ncas r) (hu : Exists F.ncas u)
    (hv : Exists F.ncas v) (hx : Exists F.ncas x) :
    F.makeCasdm3Same s dm3 [index F.ncas p, index F.ncas q, index F.ncas r, index F.ncas u, index F.ncas v, index F.ncas x] =
      ∑ k ∈ Finset.range F.nroots, F.w k * expect (E k) (word3 s s s p q r u v x) := by
  rw [← wsum_eq F hw]
  unfold Frags2.makeCasdm3Same
  refine assembled_sym F dm3 (F.terms3same s) (F.terms2same s) (fun p q r u v x => F.wsum fun k =>
    expect (E k) (word3 s s s p q r u v x)) ?_ ?_ ?_ ?_ ?_ ?_ ?_ ?_ ?_ p q r u v x hp hq hr hu hv hx
  · intro i k m u hu
    simp only [Frags2.terms3same, List.mem_cons, List.not_mem_nil, or_false] at hu
    rcases hu with rfl | rfl | rfl | rfl | rfl | rfl <;> simp [six3]
  · intro i k m b hb
    simp only [six3, List.mem_cons, List.not_mem_nil, or_false] at hb
    rcases hb with rfl | rfl | rfl | rfl | rfl | rfl <;> simp [Frags2.terms3same]
  · intro i k
    exact ⟨_, _, rfl, ⟨rfl, rfl⟩, rfl, rfl⟩
  · intro i k m h1 h2
    simp only [Frags2.terms3same, List.pairwise_cons, List.mem_cons, List.not_mem_nil, or_false, forall_eq_or_imp, forall_eq,
      List.Pairwise.nil, Upd.writes, List.cons.injEq, and_true, IsEmpty.forall_iff, implies_true]
    omega
  · intro i k m h1' h2' w hw as has
    obtain ⟨a, b, c', d', e, f, rfl⟩ := len6 as has
    have n1 : i ≠ k := by omega
    have n2 : k ≠ m := by omega
    have n3 : i ≠ m := by omega
    simp only [Frags2.terms3same, List.mem_cons, List.not_mem_nil, or_false] at hw
    rcases hw with rfl | rfl | rfl | rfl | rfl | rfl
    · simp [tgt, arr6, expect3_A _ (hcons _) _ _ _ _ _ _ _ _ _ _ _ _ n1 n2 n3, h1]
    · simp [tgt, arr6, expect3_B _ (hcons _) _ _ _ _ _ _ _ _ _ _ _ _ n1 n2 n3, h1, wsum_neg]
    · simp [tgt, arr6, expect3_C _ (hcons _) _ _ _ _ _ _ _ _ _ _ _ _ n1 n2 n3, h1, wsum_neg]
    · simp [tgt, arr6, expect3_E _ (hcons _) _ _ _ _ _ _ _ _ _ _ _ _ n1 n2 n3, h1]
    · simp [tgt, arr6, expect3_D _ (hcons _) _ _ _ _ _ _ _ _ _ _ _ _ n1 n2 n3, h1, wsum_neg]
    · simp [tgt, arr6, expect3_F _ (hcons _) _ _ _ _ _ _ _ _ _ _ _ _ n1 n2 n3, h1]
  · intro i k hik w hw as has
    obtain ⟨a, b, c', d', e, f, rfl⟩ := len6 as has
    simp only [Frags2.terms2same, List.mem_cons, List.not_mem_nil, or_false] at hw
    rcases hw with rfl | rfl
    · simp only [tgt, arr6, expect3_G _ _ _ _ _ _ _ _ _ _ _ _ hik, h1, Bool.false_eq_true, if_false]
      congr 1; funext r; cases s <;> simp [haa, hbb, mul_comm]
    · simp only [tgt, arr6, expect3_H _ (hcons _) _ _ _ _ _ _ _ _ _ _ _ hik, h1, if_true, wsum_neg]
      congr 1; funext r; cases s <;> simp [haa, hbb, mul_comm]
  · constructor
    · intro f1 f2 f3 f4 f5 f6 a1 a2 a3 a4 a5 a6
      simp only [tgt]
      congr 1; funext r
      exact expect_swap23 _ (hanti r) _ _ _ (f1, a1) (f2, a2) (f5, a5) (f6, a6) _ _
    · intro f1 f2 f3 f4 f5 f6 a1 a2 a3 a4 a5 a6
      simp only [tgt]
      congr 1; funext r
      exact expect_swap12 _ (hanti r) _ _ _ (f3, a3) (f4, a4) (f1, a1) (f2, a2) _ _
  · intro p q r u v x hne
    by_contra hno
    apply hne
    have : ∀ k, expect (E k) (word3 s s s p q r u v x) = 0 := by
      intro k
      by_contra h
      exact hno (expect_frags (E k) (hcons k) s s s p q r u v x h)
    simp [this, Frags2.wsum]
  · intro f a b k l m n
    simp only [expect3_diag]
    rw [wsum_eq F hw, h3]

/-- C85 (part): the component abb of `make_casdm3s`, for a single rootspace. What is missing: several rootspaces
(`C84_weights_violated`). -/
theorem C85_abb_partial (F : Frags2 R) (E : Nat → Nat → List Op → R) (dm3 : Nat → Arr R) (hcons : ∀ r, Conserves (E r))
    (hanti : ∀ r, Anticommutes (E r)) (hw : ∀ r < F.nroots, F.w r * F.w r = F.w r)
    (h1 : ∀ f r s a b, F.dm1 f r s a b = E r f (word1 s (f, a) (f, b)))
    (haa : ∀ f r a b k l, F.aa f r a b k l = E r f (word2 false false (f, a) (f, b) (f, k) (f, l)))
    (hab : ∀ f r a b k l, F.ab f r a b k l = E r f (word2 false true (f, a) (f, b) (f, k) (f, l)))
    (hbb : ∀ f r a b k l, F.bb f r a b k l = E r f (word2 true true (f, a) (f, b) (f, k) (f, l)))
    (h3 : ∀ f a b k l m n, dm3 f [a, b, k, l, m, n] = ∑ r ∈ Finset.range F.nroots, F.w r *
      E r f (word3 false true true (f, a) (f, b) (f, k) (f, l) (f, m) (f, n)))
    (p q r u v x : Nat × Nat) (hp : Exists F.ncas p) (hq : Exists F.ncas q) (hr : Exists F.ncas r) (hu : Exists F.ncas u)
    (hv : Exists F.ncas v) (hx : Exists F.ncas x) :
    F.makeCasdm3abb dm3 [index F.ncas p, index F.ncas q, index F.ncas r, index F.ncas u, index F.ncas v, index F.ncas x] =
      ∑ k ∈ Finset.range F.nroots, F.w k * expect (E k) (word3 false true true p q r u v x) := by
  rw [← wsum_eq F hw]
  unfold Frags2.makeCasdm3abb
  refine assembled3 F dm3 F.terms3abb F.terms2abb (fun p q r u v x => F.wsum fun k => expect (E k) (word3 false true true p q r u v x))
    ?_ ?_ ?_ ?_ ?_ ?_ ?_ ?_ ?_ ?_ ?_ ?_ ?_ ?_ ?_ p q r u v x hp hq hr hu hv hx
  · rintro ⟨i, k, m⟩ u hu
    simp only [Frags2.terms3abb, List.mem_cons, List.not_mem_nil, or_false] at hu
    rcases hu with rfl | rfl | rfl | rfl | rfl | rfl | rfl | rfl | rfl | rfl | rfl | rfl <;> rfl
  · rintro ⟨i, k⟩ u hu
    simp only [Frags2.terms2abb, List.mem_cons, List.not_mem_nil, or_false] at hu
    rcases hu with rfl | rfl | rfl | rfl | rfl <;> rfl
  · intro i k m h1' h2' w hw as has
    obtain ⟨a, b, c', d', e, f, rfl⟩ := len6 as has
    have n1 : i ≠ k := by omega
    have n2 : k ≠ m := by omega
    have n3 : i ≠ m := by omega
    simp only [Frags2.terms3abb, List.mem_cons, List.not_mem_nil, or_false] at hw
    rcases hw with rfl | rfl | rfl | rfl | rfl | rfl | rfl | rfl | rfl | rfl | rfl | rfl
    · simp only [tgt, arr6, expect3_A _ (hcons _) _ _ _ _ _ _ _ _ _ _ _ _ n1 n2 n3, h1, Bool.false_eq_true, if_false] <;>
        (congr 1; funext r; (try simp) <;> ring)
    · simp only [tgt, arr6, expect3_A _ (hcons _) _ _ _ _ _ _ _ _ _ _ _ _ n3 n2.symm n1, h1, Bool.false_eq_true, if_false] <;>
        (congr 1; funext r; (try simp) <;> ring)
    · simp only [tgt, arr6, expect3_A _ (hcons _) _ _ _ _ _ _ _ _ _ _ _ _ n3.symm n1 n2.symm, h1, Bool.false_eq_true, if_false] <;>
        (congr 1; funext r; (try simp) <;> ring)
    · simp only [tgt, arr6, expect3_A _ (hcons _) _ _ _ _ _ _ _ _ _ _ _ _ n2.symm n1.symm n3.symm, h1, Bool.false_eq_true, if_false] <;>
        (congr 1; funext r; (try simp) <;> ring)
    · simp only [tgt, arr6, expect3_A _ (hcons _) _ _ _ _ _ _ _ _ _ _ _ _ n2 n3.symm n1.symm, h1, Bool.false_eq_true, if_false] <;>
        (congr 1; funext r; (try simp) <;> ring)
    · simp only [tgt, arr6, expect3_A _ (hcons _) _ _ _ _ _ _ _ _ _ _ _ _ n1.symm n3 n2, h1, Bool.false_eq_true, if_false] <;>
        (congr 1; funext r; (try simp) <;> ring)
    · simp only [tgt, arr6, expect3_B _ (hcons _) _ _ _ _ _ _ _ _ _ _ _ _ n1 n2 n3, h1, if_true, wsum_neg] <;>
        (congr 1; funext r; (try simp) <;> ring)
    · simp only [tgt, arr6, expect3_B _ (hcons _) _ _ _ _ _ _ _ _ _ _ _ _ n3 n2.symm n1, h1, if_true, wsum_neg] <;>
        (congr 1; funext r; (try simp) <;> ring)
    · simp only [tgt, arr6, expect3_B _ (hcons _) _ _ _ _ _ _ _ _ _ _ _ _ n3.symm n1 n2.symm, h1, if_true, wsum_neg] <;>
        (congr 1; funext r; (try simp) <;> ring)
    · simp only [tgt, arr6, expect3_B _ (hcons _) _ _ _ _ _ _ _ _ _ _ _ _ n2.symm n1.symm n3.symm, h1, if_true, wsum_neg] <;>
        (congr 1; funext r; (try simp) <;> ring)
    · simp only [tgt, arr6, expect3_B _ (hcons _) _ _ _ _ _ _ _ _ _ _ _ _ n2 n3.symm n1.symm, h1, if_true, wsum_neg] <;>
        (congr 1; funext r; (try simp) <;> ring)
    · simp only [tgt, arr6, expect3_B _ (hcons _) _ _ _ _ _ _ _ _ _ _ _ _ n1.symm n3 n2, h1, if_true, wsum_neg] <;>
        (congr 1; funext r; (try simp) <;> ring)
  · intro i k hik w hw as has
    obtain ⟨a, b, c', d', e, f, rfl⟩ := len6 as has
    simp only [Frags2.terms2abb, List.mem_cons, List.not_mem_nil, or_false] at hw
    rcases hw with rfl | rfl | rfl | rfl | rfl
    · simp only [tgt, arr6, expect3_G _ _ _ _ _ _ _ _ _ _ _ _ hik, h1, haa, hab, hbb, Bool.false_eq_true, if_false] <;>
        (congr 1; funext r; (try simp) <;> ring)
    · simp only [tgt, arr6, expect3_G2 _ (hanti _) _ _ _ _ _ _ _ _ _ _ _ hik, h1, haa, hab, hbb, Bool.false_eq_true, if_false] <;>
        (congr 1; funext r; (try simp) <;> ring)
    · simp only [tgt, arr6, expect3_G3 _ (hanti _) _ _ _ _ _ _ _ _ _ _ _ hik, h1, haa, hab, hbb, Bool.false_eq_true, if_false] <;>
        (congr 1; funext r; (try simp) <;> ring)
    · simp only [tgt, arr6, expect3_H _ (hcons _) _ _ _ _ _ _ _ _ _ _ _ hik, h1, haa, hab, hbb, if_true, wsum_neg] <;>
        (congr 1; funext r; (try simp) <;> ring)
    · simp only [tgt, arr6, expect3_H2 _ (hcons _) (hanti _) _ _ _ _ _ _ _ _ _ _ _ hik, h1, haa, hab, hbb, if_true, wsum_neg] <;>
        (congr 1; funext r; (try simp) <;> ring)
  · rintro ⟨i, k, m⟩ u hu hc
    simp only [Frags2.terms3abb, List.mem_cons, List.not_mem_nil, or_false] at hu
    rcases hu with rfl | rfl | rfl | rfl | rfl | rfl | rfl | rfl | rfl | rfl | rfl | rfl <;> exact absurd rfl hc
  · rintro ⟨i, k⟩ u hu hc
    simp only [Frags2.terms2abb, List.mem_cons, List.not_mem_nil, or_false] at hu
    rcases hu with rfl | rfl | rfl | rfl | rfl <;> exact absurd rfl hc
  · intro i k m h1 h2
    simp only [Frags2.terms3abb, List.pairwise_cons, List.mem_cons, List.not_mem_nil, or_false, forall_eq_or_imp, forall_eq,
      List.Pairwise.nil, Upd.writes, List.cons.injEq, and_true, IsEmpty.forall_iff, implies_true]
    omega
  · intro i k h
    simp only [Frags2.terms2abb, List.pairwise_cons, List.mem_cons, List.not_mem_nil, or_false, forall_eq_or_imp, forall_eq,
      List.Pairwise.nil, Upd.writes, List.cons.injEq, and_true, IsEmpty.forall_iff, implies_true]
    omega
  · intro i k m i' k' m' h1 h2 h1' h2' hne u hu v hv
    simp only [Frags2.terms3abb, List.mem_cons, List.not_mem_nil, or_false] at hu hv
    rcases hu with rfl | rfl | rfl | rfl | rfl | rfl | rfl | rfl | rfl | rfl | rfl | rfl <;> rcases hv with rfl | rfl | rfl | rfl | rfl | rfl | rfl | rfl | rfl | rfl | rfl | rfl <;>
      (simp only [Upd.writes, List.mem_cons, List.not_mem_nil, or_false, List.cons.injEq, and_true]; omega)
  · intro i k i' k' h h' hne u hu v hv
    simp only [Frags2.terms2abb, List.mem_cons, List.not_mem_nil, or_false] at hu hv
    rcases hu with rfl | rfl | rfl | rfl | rfl <;> rcases hv with rfl | rfl | rfl | rfl | rfl <;>
      (simp only [Upd.writes, List.mem_cons, List.not_mem_nil, or_false, List.cons.injEq, and_true]; omega)
  · intro i k m i' k' h1 h2 h u hu v hv
    simp only [Frags2.terms3abb, List.mem_cons, List.not_mem_nil, or_false] at hu
    simp only [Frags2.terms2abb, List.mem_cons, List.not_mem_nil, or_false] at hv
    rcases hu with rfl | rfl | rfl | rfl | rfl | rfl | rfl | rfl | rfl | rfl | rfl | rfl <;> rcases hv with rfl | rfl | rfl | rfl | rfl <;>
      (simp only [Upd.writes, List.mem_cons, List.not_mem_nil, or_false, List.cons.injEq, and_true]; omega)
  · intro i k m h1 h2 u hu f
    simp only [Frags2.terms3abb, List.mem_cons, List.not_mem_nil, or_false] at hu
    rcases hu with rfl | rfl | rfl | rfl | rfl | rfl | rfl | rfl | rfl | rfl | rfl | rfl <;> (simp only [ne_eq, List.cons.injEq, and_true]; omega)
  · intro i k h u hu f
    simp only [Frags2.terms2abb, List.mem_cons, List.not_mem_nil, or_false] at hu
    rcases hu with rfl | rfl | rfl | rfl | rfl <;> (simp only [ne_eq, List.cons.injEq, and_true]; omega)
  · intro f1 a1 f2 a2 f3 a3 f4 a4 f5 a5 f6 a6 n3 n2 nd
    by_contra hne
    have hf : (f2 = f1 ∧ f4 = f3 ∧ f6 = f5) ∨ (f2 = f1 ∧ f4 = f5 ∧ f6 = f3) := by
      by_contra hno
      apply hne
      have : ∀ k, expect (E k) (word3 false true true (f1, a1) (f2, a2) (f3, a3) (f4, a4) (f5, a5) (f6, a6)) = 0 := by
        intro k
        by_contra h
        have := expect_frags_abb (E k) (hcons k) (hanti k) false _ _ _ _ _ _ h
        dsimp only at this
        tauto
      simp [this, Frags2.wsum]
    have k3 : ∀ i k m, i < k → k < m → i ∈ [f1, f3, f5] → k ∈ [f1, f3, f5] → m ∈ [f1, f3, f5] →
        [f1, f2, f3, f4, f5, f6] ∉ (F.terms3abb (i, k, m)).map Upd.blk := by
      intro i k m hik hkm hi hk hm hin
      obtain ⟨w, hw, hwb⟩ := List.mem_map.1 hin
      refine n3 i k m hik hkm hi hk hm w hw ?_
      simp only [Frags2.terms3abb, List.mem_cons, List.not_mem_nil, or_false] at hw
      rcases hw with rfl | rfl | rfl | rfl | rfl | rfl | rfl | rfl | rfl | rfl | rfl | rfl <;> (rw [← hwb]; simp [Upd.writes])
    have k2 : ∀ i k, i ≠ k → i ∈ [f1, f3, f5] → k ∈ [f1, f3, f5] → [f1, f2, f3, f4, f5, f6] ∉ (F.terms2abb (i, k)).map Upd.blk := by
      intro i k hik hi hk hin
      obtain ⟨w, hw, hwb⟩ := List.mem_map.1 hin
      refine n2 i k hik hi hk w hw ?_
      simp only [Frags2.terms2abb, List.mem_cons, List.not_mem_nil, or_false] at hw
      rcases hw with rfl | rfl | rfl | rfl | rfl <;> (rw [← hwb]; simp [Upd.writes])
    by_cases h13 : f1 = f3
    · subst h13
      by_cases h15 : f1 = f5
      · subst h15
        refine nd f1 ?_
        simp only [List.cons.injEq, and_true, true_and]
        omega
      · refine k2 f1 f5 h15 (by simp) (by simp) ?_
        rcases hf with ⟨rfl, rfl, rfl⟩ | ⟨rfl, rfl, rfl⟩ <;> simp [Frags2.terms2abb]
    · by_cases h15 : f1 = f5
      · subst h15
        refine k2 f1 f3 h13 (by simp) (by simp) ?_
        rcases hf with ⟨rfl, rfl, rfl⟩ | ⟨rfl, rfl, rfl⟩ <;> simp [Frags2.terms2abb]
      · by_cases h35 : f3 = f5
        · subst h35
          refine k2 f3 f1 (fun e => h13 e.symm) (by simp) (by simp) ?_
          rcases hf with ⟨rfl, rfl, rfl⟩ | ⟨rfl, rfl, rfl⟩ <;> simp [Frags2.terms2abb]
        · rcases order3 f1 f3 f5 h13 h35 h15 with hs | hs | hs | hs | hs | hs
          · refine k3 f1 f3 f5 hs.1 hs.2.2.1 (by simp) (by simp) (by simp) ?_
            rcases hf with ⟨rfl, rfl, rfl⟩ | ⟨rfl, rfl, rfl⟩ <;> simp [Frags2.terms3abb]
          · refine k3 f1 f5 f3 hs.2.2.2.2.1 hs.2.2.1 (by simp) (by simp) (by simp) ?_
            rcases hf with ⟨rfl, rfl, rfl⟩ | ⟨rfl, rfl, rfl⟩ <;> simp [Frags2.terms3abb]
          · refine k3 f5 f1 f3 hs.2.2.2.2.1 hs.1 (by simp) (by simp) (by simp) ?_
            rcases hf with ⟨rfl, rfl, rfl⟩ | ⟨rfl, rfl, rfl⟩ <;> simp [Frags2.terms3abb]
          · refine k3 f3 f1 f5 hs.1 hs.2.2.2.2.1 (by simp) (by simp) (by simp) ?_
            rcases hf with ⟨rfl, rfl, rfl⟩ | ⟨rfl, rfl, rfl⟩ <;> simp [Frags2.terms3abb]
          · refine k3 f3 f5 f1 hs.2.2.1 hs.2.2.2.2.1 (by simp) (by simp) (by simp) ?_
            rcases hf with ⟨rfl, rfl, rfl⟩ | ⟨rfl, rfl, rfl⟩ <;> simp [Frags2.terms3abb]
          · refine k3 f5 f3 f1 hs.2.2.1 hs.1 (by simp) (by simp) (by simp) ?_
            rcases hf with ⟨rfl, rfl, rfl⟩ | ⟨rfl, rfl, rfl⟩ <;> simp [Frags2.terms3abb]
  · intro f a b k l m n
    simp only [expect3_diag]
    rw [wsum_eq F hw, h3]

/-- The elements of component aab that come from two electrons of spin alpha exchanged between two fragments while the electron of
spin beta is in a fragment numbered between these two (lasci.py:1877-1880). -/
def MisSpinned (p q r u v x : Nat × Nat) : Prop :=
  u.1 = p.1 ∧ q.1 = r.1 ∧ x.1 = v.1 ∧ ((p.1 < v.1 ∧ v.1 < r.1) ∨ (r.1 < v.1 ∧ v.1 < p.1))
instance (p q r u v x : Nat × Nat) : Decidable (MisSpinned p q r u v x) := by unfold MisSpinned; infer_instance

/-- What the component aab holds in one rootspace. -/
def aabVal (E : Nat → List Op → R) (p q r u v x : Nat × Nat) : R :=
  if MisSpinned p q r u v x then
    if p.1 < v.1 then -(E p.1 (word1 false p u) * E v.1 (word1 false v x) * E r.1 (word1 true r q))
    else -(E r.1 (word1 false r q) * E v.1 (word1 false v x) * E p.1 (word1 true p u))
  else expect E (word3 false false true p q r u v x)
theorem aabVal_good (E : Nat → List Op → R) (p q r u v x : Nat × Nat) (h : ¬MisSpinned p q r u v x) :
    aabVal E p q r u v x = expect E (word3 false false true p q r u v x) := if_neg h
theorem aabVal_bad1 (E : Nat → List Op → R) (i k m a b c' d' e f : Nat) (h1 : i < k) (h2 : k < m) :
    aabVal E (i, a) (m, b) (m, c') (i, d') (k, e) (k, f) =
      -(E i (word1 false (i, a) (i, d')) * E k (word1 false (k, e) (k, f)) * E m (word1 true (m, c') (m, b))) := by
  unfold aabVal
  rw [if_pos ⟨rfl, rfl, rfl, Or.inl ⟨h1, h2⟩⟩, if_pos h1]
theorem aabVal_bad2 (E : Nat → List Op → R) (i k m a b c' d' e f : Nat) (h1 : i < k) (h2 : k < m) :
    aabVal E (m, a) (i, b) (i, c') (m, d') (k, e) (k, f) =
      -(E i (word1 false (i, c') (i, b)) * E k (word1 false (k, e) (k, f)) * E m (word1 true (m, a) (m, d'))) := by
  unfold aabVal
  rw [if_pos ⟨rfl, rfl, rfl, Or.inr ⟨h1, h2⟩⟩, if_neg (by dsimp only; omega)]
theorem aabVal_sym (E : Nat → List Op → R) (hc : Conserves E) (hs : ∀ f a b, E f (word1 true (f, a) (f, b)) = E f (word1 false (f, a) (f, b)))
    (p q r u v x : Nat × Nat) : aabVal E p q r u v x = expect E (word3 false false true p q r u v x) := by
  by_cases h : MisSpinned p q r u v x
  · obtain ⟨p1, p2⟩ := p
    obtain ⟨q1, q2⟩ := q
    obtain ⟨r1, r2⟩ := r
    obtain ⟨u1, u2⟩ := u
    obtain ⟨v1, v2⟩ := v
    obtain ⟨x1, x2⟩ := x
    have h' := h
    obtain ⟨e1, e2, e3, h4⟩ := h'
    dsimp only at e1 e2 e3 h4
    subst e1 e2 e3
    unfold aabVal
    rw [if_pos h, expect3_C E hc _ _ _ _ _ _ _ _ _ _ _ _ (by omega) (by omega) (by omega)]
    split
    · simp only [hs, if_true]; ring
    · simp only [hs, if_true]; ring
  · exact aabVal_good _ _ _ _ _ _ _ h

/-- C85 (part): the component aab of `make_casdm3s`, for a single rootspace. What is missing: several rootspaces
(`C84_weights_violated`), and the elements `MisSpinned` (`C85_aab_violated`), unless the fragments have equal densities of both spins. -/
theorem C85_aab_partial (F : Frags2 R) (E : Nat → Nat → List Op → R) (dm3 : Nat → Arr R) (hcons : ∀ r, Conserves (E r))
    (hanti : ∀ r, Anticommutes (E r)) (hw : ∀ r < F.nroots, F.w r * F.w r = F.w r)
    (h1 : ∀ f r s a b, F.dm1 f r s a b = E r f (word1 s (f, a) (f, b)))
    (haa : ∀ f r a b k l, F.aa f r a b k l = E r f (word2 false false (f, a) (f, b) (f, k) (f, l)))
    (hab : ∀ f r a b k l, F.ab f r a b k l = E r f (word2 false true (f, a) (f, b) (f, k) (f, l)))
    (hbb : ∀ f r a b k l, F.bb f r a b k l = E r f (word2 true true (f, a) (f, b) (f, k) (f, l)))
    (h3 : ∀ f a b k l m n, dm3 f [a, b, k, l, m, n] = ∑ r ∈ Finset.range F.nroots, F.w r *
      E r f (word3 false false true (f, a) (f, b) (f, k) (f, l) (f, m) (f, n)))
    (p q r u v x : Nat × Nat) (hp : Exists F.ncas p) (hq : Exists F.ncas q) (hr : Exists F.ncas r) (hu : Exists F.ncas u)
    (hv : Exists F.ncas v) (hx : Exists F.ncas x)
    (hok : ¬MisSpinned p q r u v x ∨ ∀ k f a b, E k f (word1 true (f, a) (f, b)) = E k f (word1 false (f, a) (f, b))) :
    F.makeCasdm3aab dm3 [index F.ncas p, index F.ncas q, index F.ncas r, index F.ncas u, index F.ncas v, index F.ncas x] =
      ∑ k ∈ Finset.range F.nroots, F.w k * expect (E k) (word3 false false true p q r u v x) := by
  rw [← wsum_eq F hw]
  have hT : ∀ k, aabVal (E k) p q r u v x = expect (E k) (word3 false false true p q r u v x) := by
    intro k
    rcases hok with h | h
    · exact aabVal_good _ _ _ _ _ _ _ h
    · exact aabVal_sym _ (hcons k) (h k) _ _ _ _ _ _
  simp only [← hT]
  unfold Frags2.makeCasdm3aab
  refine assembled3 F dm3 F.terms3aab F.terms2aab (fun p q r u v x => F.wsum fun k => aabVal (E k) p q r u v x)
    ?_ ?_ ?_ ?_ ?_ ?_ ?_ ?_ ?_ ?_ ?_ ?_ ?_ ?_ ?_ p q r u v x hp hq hr hu hv hx
  · rintro ⟨i, k, m⟩ u hu
    simp only [Frags2.terms3aab, List.mem_cons, List.not_mem_nil, or_false] at hu
    rcases hu with rfl | rfl | rfl | rfl | rfl | rfl | rfl | rfl | rfl | rfl | rfl | rfl <;> rfl
  · rintro ⟨i, k⟩ u hu
    simp only [Frags2.terms2aab, List.mem_cons, List.not_mem_nil, or_false] at hu
    rcases hu with rfl | rfl | rfl | rfl | rfl <;> rfl
  · intro i k m h1' h2' w hw as has
    obtain ⟨a, b, c', d', e, f, rfl⟩ := len6 as has
    have n1 : i ≠ k := by omega
    have n2 : k ≠ m := by omega
    have n3 : i ≠ m := by omega
    simp only [Frags2.terms3aab, List.mem_cons, List.not_mem_nil, or_false] at hw
    rcases hw with rfl | rfl | rfl | rfl | rfl | rfl | rfl | rfl | rfl | rfl | rfl | rfl
    · simp only [tgt, arr6, h1, Bool.false_eq_true, if_false]
      refine congrArg F.wsum (funext fun r => ?_)
      rw [aabVal_good _ _ _ _ _ _ _ (by unfold MisSpinned; dsimp only; omega), expect3_A _ (hcons _) _ _ _ _ _ _ _ _ _ _ _ _ n1 n2 n3]
    · simp only [tgt, arr6, h1, Bool.false_eq_true, if_false]
      refine congrArg F.wsum (funext fun r => ?_)
      rw [aabVal_good _ _ _ _ _ _ _ (by unfold MisSpinned; dsimp only; omega), expect3_A _ (hcons _) _ _ _ _ _ _ _ _ _ _ _ _ n3 n2.symm n1]
      (try simp) <;> ring
    · simp only [tgt, arr6, h1, Bool.false_eq_true, if_false]
      refine congrArg F.wsum (funext fun r => ?_)
      rw [aabVal_good _ _ _ _ _ _ _ (by unfold MisSpinned; dsimp only; omega), expect3_A _ (hcons _) _ _ _ _ _ _ _ _ _ _ _ _ n3.symm n1 n2.symm]
      (try simp) <;> ring
    · simp only [tgt, arr6, h1, Bool.false_eq_true, if_false]
      refine congrArg F.wsum (funext fun r => ?_)
      rw [aabVal_good _ _ _ _ _ _ _ (by unfold MisSpinned; dsimp only; omega), expect3_A _ (hcons _) _ _ _ _ _ _ _ _ _ _ _ _ n2.symm n1.symm n3.symm]
      (try simp) <;> ring
    · simp only [tgt, arr6, h1, Bool.false_eq_true, if_false]
      refine congrArg F.wsum (funext fun r => ?_)
      rw [aabVal_good _ _ _ _ _ _ _ (by unfold MisSpinned; dsimp only; omega), expect3_A _ (hcons _) _ _ _ _ _ _ _ _ _ _ _ _ n2 n3.symm n1.symm]
      (try simp) <;> ring
    · simp only [tgt, arr6, h1, Bool.false_eq_true, if_false]
      refine congrArg F.wsum (funext fun r => ?_)
      rw [aabVal_good _ _ _ _ _ _ _ (by unfold MisSpinned; dsimp only; omega), expect3_A _ (hcons _) _ _ _ _ _ _ _ _ _ _ _ _ n1.symm n3 n2]
      (try simp) <;> ring
    · simp only [tgt, arr6, h1, if_true, wsum_neg]
      refine congrArg F.wsum (funext fun r => ?_)
      rw [aabVal_good _ _ _ _ _ _ _ (by unfold MisSpinned; dsimp only; omega), expect3_C _ (hcons _) _ _ _ _ _ _ _ _ _ _ _ _ n2.symm n1.symm n3.symm]
      (try simp) <;> ring
    · simp only [tgt, arr6, h1, if_true, wsum_neg]
      refine congrArg F.wsum (funext fun r => ?_)
      rw [aabVal_good _ _ _ _ _ _ _ (by unfold MisSpinned; dsimp only; omega), expect3_C _ (hcons _) _ _ _ _ _ _ _ _ _ _ _ _ n2 n3.symm n1.symm]
      (try simp) <;> ring
    · simp only [tgt, arr6, h1, if_true, wsum_neg]
      refine congrArg F.wsum (funext fun r => ?_)
      rw [aabVal_good _ _ _ _ _ _ _ (by unfold MisSpinned; dsimp only; omega), expect3_C _ (hcons _) _ _ _ _ _ _ _ _ _ _ _ _ n1 n2 n3]
      (try simp) <;> ring
    · simp only [tgt, arr6, h1, if_true, wsum_neg]
      refine congrArg F.wsum (funext fun r => ?_)
      rw [aabVal_good _ _ _ _ _ _ _ (by unfold MisSpinned; dsimp only; omega), expect3_C _ (hcons _) _ _ _ _ _ _ _ _ _ _ _ _ n1.symm n3 n2]
      (try simp) <;> ring
    · simp only [tgt, arr6, h1, if_true, wsum_neg]
      refine congrArg F.wsum (funext fun r => ?_)
      rw [aabVal_bad1 _ _ _ _ _ _ _ _ _ _ h1' h2']
    · simp only [tgt, arr6, h1, if_true, wsum_neg]
      refine congrArg F.wsum (funext fun r => ?_)
      rw [aabVal_bad2 _ _ _ _ _ _ _ _ _ _ h1' h2']
  · intro i k hik w hw as has
    obtain ⟨a, b, c', d', e, f, rfl⟩ := len6 as has
    simp only [Frags2.terms2aab, List.mem_cons, List.not_mem_nil, or_false] at hw
    rcases hw with rfl | rfl | rfl | rfl | rfl
    · simp only [tgt, arr6, h1, haa, hab, hbb, Bool.false_eq_true, if_false]
      refine congrArg F.wsum (funext fun r => ?_)
      rw [aabVal_good _ _ _ _ _ _ _ (by unfold MisSpinned; dsimp only; omega), expect3_G _ _ _ _ _ _ _ _ _ _ _ _ hik]
      (try simp) <;> ring
    · simp only [tgt, arr6, h1, haa, hab, hbb, Bool.false_eq_true, if_false]
      refine congrArg F.wsum (funext fun r => ?_)
      rw [aabVal_good _ _ _ _ _ _ _ (by unfold MisSpinned; dsimp only; omega), expect3_G2 _ (hanti _) _ _ _ _ _ _ _ _ _ _ _ hik]
      (try simp) <;> ring
    · simp only [tgt, arr6, h1, haa, hab, hbb, Bool.false_eq_true, if_false]
      refine congrArg F.wsum (funext fun r => ?_)
      rw [aabVal_good _ _ _ _ _ _ _ (by unfold MisSpinned; dsimp only; omega), expect3_G3 _ (hanti _) _ _ _ _ _ _ _ _ _ _ _ hik]
      (try simp) <;> ring
    · simp only [tgt, arr6, h1, haa, hab, hbb, if_true, wsum_neg]
      refine congrArg F.wsum (funext fun r => ?_)
      rw [aabVal_good _ _ _ _ _ _ _ (by unfold MisSpinned; dsimp only; omega), expect3_H3 _ (hcons _) (hanti _) _ _ _ _ _ _ _ _ _ _ _ hik]
      (try simp) <;> ring
    · simp only [tgt, arr6, h1, haa, hab, hbb, if_true, wsum_neg]
      refine congrArg F.wsum (funext fun r => ?_)
      rw [aabVal_good _ _ _ _ _ _ _ (by unfold MisSpinned; dsimp only; omega), expect3_H4 _ (hcons _) (hanti _) _ _ _ _ _ _ _ _ _ _ _ hik]
      (try simp) <;> ring
  · rintro ⟨i, k, m⟩ u hu hc
    simp only [Frags2.terms3aab, List.mem_cons, List.not_mem_nil, or_false] at hu
    rcases hu with rfl | rfl | rfl | rfl | rfl | rfl | rfl | rfl | rfl | rfl | rfl | rfl <;> exact absurd rfl hc
  · rintro ⟨i, k⟩ u hu hc
    simp only [Frags2.terms2aab, List.mem_cons, List.not_mem_nil, or_false] at hu
    rcases hu with rfl | rfl | rfl | rfl | rfl <;> exact absurd rfl hc
  · intro i k m h1 h2
    simp only [Frags2.terms3aab, List.pairwise_cons, List.mem_cons, List.not_mem_nil, or_false, forall_eq_or_imp, forall_eq,
      List.Pairwise.nil, Upd.writes, List.cons.injEq, and_true, IsEmpty.forall_iff, implies_true]
    omega
  · intro i k h
    simp only [Frags2.terms2aab, List.pairwise_cons, List.mem_cons, List.not_mem_nil, or_false, forall_eq_or_imp, forall_eq,
      List.Pairwise.nil, Upd.writes, List.cons.injEq, and_true, IsEmpty.forall_iff, implies_true]
    omega
  · intro i k m i' k' m' h1 h2 h1' h2' hne u hu v hv
    simp only [Frags2.terms3aab, List.mem_cons, List.not_mem_nil, or_false] at hu hv
    rcases hu with rfl | rfl | rfl | rfl | rfl | rfl | rfl | rfl | rfl | rfl | rfl | rfl <;> rcases hv with rfl | rfl | rfl | rfl | rfl | rfl | rfl | rfl | rfl | rfl | rfl | rfl <;>
      (simp only [Upd.writes, List.mem_cons, List.not_mem_nil, or_false, List.cons.injEq, and_true]; omega)
  · intro i k i' k' h h' hne u hu v hv
    simp only [Frags2.terms2aab, List.mem_cons, List.not_mem_nil, or_false] at hu hv
    rcases hu with rfl | rfl | rfl | rfl | rfl <;> rcases hv with rfl | rfl | rfl | rfl | rfl <;>
      (simp only [Upd.writes, List.mem_cons, List.not_mem_nil, or_false, List.cons.injEq, and_true]; omega)
  · intro i k m i' k' h1 h2 h u hu v hv
    simp only [Frags2.terms3aab, List.mem_cons, List.not_mem_nil, or_false] at hu
    simp only [Frags2.terms2aab, List.mem_cons, List.not_mem_nil, or_false] at hv
    rcases hu with rfl | rfl | rfl | rfl | rfl | rfl | rfl | rfl | rfl | rfl | rfl | rfl <;> rcases hv with rfl | rfl | rfl | rfl | rfl <;>
      (simp only [Upd.writes, List.mem_cons, List.not_mem_nil, or_false, List.cons.injEq, and_true]; omega)
  · intro i k m h1 h2 u hu f
    simp only [Frags2.terms3aab, List.mem_cons, List.not_mem_nil, or_false] at hu
    rcases hu with rfl | rfl | rfl | rfl | rfl | rfl | rfl | rfl | rfl | rfl | rfl | rfl <;> (simp only [ne_eq, List.cons.injEq, and_true]; omega)
  · intro i k h u hu f
    simp only [Frags2.terms2aab, List.mem_cons, List.not_mem_nil, or_false] at hu
    rcases hu with rfl | rfl | rfl | rfl | rfl <;> (simp only [ne_eq, List.cons.injEq, and_true]; omega)
  · intro f1 a1 f2 a2 f3 a3 f4 a4 f5 a5 f6 a6 n3 n2 nd
    by_contra hne
    have hf : (f2 = f1 ∧ f4 = f3 ∧ f6 = f5) ∨ (f2 = f3 ∧ f4 = f1 ∧ f6 = f5) := by
      by_contra hno
      apply hne
      have : ∀ k, aabVal (E k) (f1, a1) (f2, a2) (f3, a3) (f4, a4) (f5, a5) (f6, a6) = 0 := by
        intro k
        rw [aabVal_good _ _ _ _ _ _ _ (by unfold MisSpinned; dsimp only; omega)]
        by_contra h
        have := expect_frags_aab (E k) (hcons k) false _ _ _ _ _ _ h
        dsimp only at this
        omega
      simp [this, Frags2.wsum]
    have k3 : ∀ i k m, i < k → k < m → i ∈ [f1, f3, f5] → k ∈ [f1, f3, f5] → m ∈ [f1, f3, f5] →
        [f1, f2, f3, f4, f5, f6] ∉ (F.terms3aab (i, k, m)).map Upd.blk := by
      intro i k m hik hkm hi hk hm hin
      obtain ⟨w, hw, hwb⟩ := List.mem_map.1 hin
      refine n3 i k m hik hkm hi hk hm w hw ?_
      simp only [Frags2.terms3aab, List.mem_cons, List.not_mem_nil, or_false] at hw
      rcases hw with rfl | rfl | rfl | rfl | rfl | rfl | rfl | rfl | rfl | rfl | rfl | rfl <;> (rw [← hwb]; simp [Upd.writes])
    have k2 : ∀ i k, i ≠ k → i ∈ [f1, f3, f5] → k ∈ [f1, f3, f5] → [f1, f2, f3, f4, f5, f6] ∉ (F.terms2aab (i, k)).map Upd.blk := by
      intro i k hik hi hk hin
      obtain ⟨w, hw, hwb⟩ := List.mem_map.1 hin
      refine n2 i k hik hi hk w hw ?_
      simp only [Frags2.terms2aab, List.mem_cons, List.not_mem_nil, or_false] at hw
      rcases hw with rfl | rfl | rfl | rfl | rfl <;> (rw [← hwb]; simp [Upd.writes])
    by_cases h13 : f1 = f3
    · subst h13
      by_cases h15 : f1 = f5
      · subst h15
        refine nd f1 ?_
        simp only [List.cons.injEq, and_true, true_and]
        omega
      · refine k2 f1 f5 h15 (by simp) (by simp) ?_
        rcases hf with ⟨rfl, rfl, rfl⟩ | ⟨rfl, rfl, rfl⟩ <;> simp [Frags2.terms2aab]
    · by_cases h15 : f1 = f5
      · subst h15
        refine k2 f1 f3 h13 (by simp) (by simp) ?_
        rcases hf with ⟨rfl, rfl, rfl⟩ | ⟨rfl, rfl, rfl⟩ <;> simp [Frags2.terms2aab]
      · by_cases h35 : f3 = f5
        · subst h35
          refine k2 f3 f1 (fun e => h13 e.symm) (by simp) (by simp) ?_
          rcases hf with ⟨rfl, rfl, rfl⟩ | ⟨rfl, rfl, rfl⟩ <;> simp [Frags2.terms2aab]
        · rcases order3 f1 f3 f5 h13 h35 h15 with hs | hs | hs | hs | hs | hs
          · refine k3 f1 f3 f5 hs.1 hs.2.2.1 (by simp) (by simp) (by simp) ?_
            rcases hf with ⟨rfl, rfl, rfl⟩ | ⟨rfl, rfl, rfl⟩ <;> simp [Frags2.terms3aab]
          · refine k3 f1 f5 f3 hs.2.2.2.2.1 hs.2.2.1 (by simp) (by simp) (by simp) ?_
            rcases hf with ⟨rfl, rfl, rfl⟩ | ⟨rfl, rfl, rfl⟩ <;> simp [Frags2.terms3aab]
          · refine k3 f5 f1 f3 hs.2.2.2.2.1 hs.1 (by simp) (by simp) (by simp) ?_
            rcases hf with ⟨rfl, rfl, rfl⟩ | ⟨rfl, rfl, rfl⟩ <;> simp [Frags2.terms3aab]
          · refine k3 f3 f1 f5 hs.1 hs.2.2.2.2.1 (by simp) (by simp) (by simp) ?_
            rcases hf with ⟨rfl, rfl, rfl⟩ | ⟨rfl, rfl, rfl⟩ <;> simp [Frags2.terms3aab]
          · refine k3 f3 f5 f1 hs.2.2.1 hs.2.2.2.2.1 (by simp) (by simp) (by simp) ?_
            rcases hf with ⟨rfl, rfl, rfl⟩ | ⟨rfl, rfl, rfl⟩ <;> simp [Frags2.terms3aab]
          · refine k3 f5 f3 f1 hs.2.2.1 hs.1 (by simp) (by simp) (by simp) ?_
            rcases hf with ⟨rfl, rfl, rfl⟩ | ⟨rfl, rfl, rfl⟩ <;> simp [Frags2.terms3aab]
  · intro f a b k l m n
    have : ∀ r, aabVal (E r) (f, a) (f, b) (f, k) (f, l) (f, m) (f, n) =
        E r f (word3 false false true (f, a) (f, b) (f, k) (f, l) (f, m) (f, n)) := by
      intro r
      rw [aabVal_good _ _ _ _ _ _ _ (by unfold MisSpinned; dsimp only; omega), expect3_diag]
    simp only [this]
    rw [wsum_eq F hw, h3]

/-- Fragments in single determinants `occ`, in every rootspace, with weights `w`. -/
def detFrags (ncas : List Nat) (nroots : Nat) (w : Nat → Int) (occ : Nat → List Bool) : Frags2 Int where
  ncas := ncas
  nroots := nroots
  w := w
  dm1 := fun f _ s a b => detE occ f (word1 s (f, a) (f, b))
  aa := fun f _ a b k l => detE occ f (word2 false false (f, a) (f, b) (f, k) (f, l))
  ab := fun f _ a b k l => detE occ f (word2 false true (f, a) (f, b) (f, k) (f, l))
  bb := fun f _ a b k l => detE occ f (word2 true true (f, a) (f, b) (f, k) (f, l))

/-- Three fragments of one orbital: closed shells in fragments 0 and 2, nothing in fragment 1. -/
def closedOcc (f : Nat) : List Bool := if f = 1 then [false, false] else [true, true]

/-- The hypotheses of the theorems on the three-body density matrix hold for closed-shell determinants, and elements are not all
zero. -/
example : Conserves (detE closedOcc) ∧ Anticommutes (detE closedOcc) ∧
    (∀ r < (detFrags [1, 1, 1] 1 (fun _ => 1) closedOcc).nroots, (1 : Int) * 1 = 1) ∧
    (∀ f a b k l, detE closedOcc f (word2 false true (f, a) (f, b) (f, k) (f, l)) =
      detE closedOcc f (word2 true false (f, a) (f, b) (f, k) (f, l))) ∧
    Exists [1, 1, 1] (0, 0) ∧ Exists [1, 1, 1] (2, 0) ∧
    expect (detE closedOcc) (word3 false true true (0, 0) (0, 0) (0, 0) (2, 0) (2, 0) (0, 0)) = -1 ∧
    expect (detE closedOcc) (word3 false true false (0, 0) (0, 0) (0, 0) (0, 0) (2, 0) (2, 0)) = 1 := by
  refine ⟨detE_conserves _, detE_anticommutes _, fun _ _ => rfl, ?_, by decide, by decide, by decide, by decide⟩
  intro f a b k l
  unfold detE closedOcc
  by_cases hf : f = 1 <;> rcases a with _ | a <;> rcases b with _ | b <;> rcases k with _ | k <;> rcases l with _ | l <;>
    simp [hf, run, act, word2, Spec.ProdRdm.c, Spec.ProdRdm.d, Op.so]

/-- C84 is violated: fragment 0 has an alpha electron in its orbital 0 and a beta electron in its orbital 1, fragment 1 has an alpha
electron. The element that counts electrons in these three orbitals at once is 1; it is returned as 2. -/
theorem C84_spin_violated : ∃ (F : Frags2 Int) (E : Nat → List Op → Int) (dm3 : Nat → Arr Int) (p q r u v x : Nat × Nat),
    Conserves E ∧ Anticommutes E ∧ F.nroots = 1 ∧ F.w 0 = 1 ∧
    (∀ f r s a b, F.dm1 f r s a b = E f (word1 s (f, a) (f, b))) ∧
    (∀ f r a b k l, F.aa f r a b k l = E f (word2 false false (f, a) (f, b) (f, k) (f, l))) ∧
    (∀ f r a b k l, F.ab f r a b k l = E f (word2 false true (f, a) (f, b) (f, k) (f, l))) ∧
    (∀ f r a b k l, F.bb f r a b k l = E f (word2 true true (f, a) (f, b) (f, k) (f, l))) ∧
    (∀ f a b k l m n, dm3 f [a, b, k, l, m, n] = sumSpin fun s => sumSpin fun t => sumSpin fun y =>
      E f (word3 s t y (f, a) (f, b) (f, k) (f, l) (f, m) (f, n))) ∧
    Exists F.ncas p ∧ Exists F.ncas q ∧ Exists F.ncas r ∧ Exists F.ncas u ∧ Exists F.ncas v ∧ Exists F.ncas x ∧
    F.makeCasdm3 dm3 [index F.ncas p, index F.ncas q, index F.ncas r, index F.ncas u, index F.ncas v, index F.ncas x] = 2 ∧
    (sumSpin fun s => sumSpin fun t => sumSpin fun y => expect E (word3 s t y p q r u v x)) = 1 := by
  let occ : Nat → List Bool := fun f => if f = 0 then [true, false, false, true] else [true, false]
  exact ⟨detFrags [2, 1] 1 (fun _ => 1) occ, detE occ, fun f => arr6 fun a b k l m n => sumSpin fun s => sumSpin fun t =>
      sumSpin fun y => detE occ f (word3 s t y (f, a) (f, b) (f, k) (f, l) (f, m) (f, n)),
    (0, 0), (0, 0), (0, 1), (0, 1), (1, 0), (1, 0), detE_conserves _, detE_anticommutes _, rfl, rfl, fun _ _ _ _ _ => rfl,
    fun _ _ _ _ _ _ => rfl, fun _ _ _ _ _ _ => rfl, fun _ _ _ _ _ _ => rfl, fun _ _ _ _ _ _ _ => rfl,
    by decide, by decide, by decide, by decide, by decide, by decide, by decide +kernel, by decide +kernel⟩

/-- C85 is violated for the component aab: alpha electrons in fragments 0 and 2, a beta electron in fragment 1. The element that
exchanges the two alpha electrons is -1; it is returned as 0. -/
theorem C85_aab_violated : ∃ (F : Frags2 Int) (E : Nat → List Op → Int) (dm3 : Nat → Arr Int) (p q r u v x : Nat × Nat),
    Conserves E ∧ Anticommutes E ∧ F.nroots = 1 ∧ F.w 0 = 1 ∧
    (∀ f r s a b, F.dm1 f r s a b = E f (word1 s (f, a) (f, b))) ∧
    (∀ f r a b k l, F.aa f r a b k l = E f (word2 false false (f, a) (f, b) (f, k) (f, l))) ∧
    (∀ f r a b k l, F.ab f r a b k l = E f (word2 false true (f, a) (f, b) (f, k) (f, l))) ∧
    (∀ f r a b k l, F.bb f r a b k l = E f (word2 true true (f, a) (f, b) (f, k) (f, l))) ∧
    (∀ f a b k l m n, dm3 f [a, b, k, l, m, n] = E f (word3 false false true (f, a) (f, b) (f, k) (f, l) (f, m) (f, n))) ∧
    Exists F.ncas p ∧ Exists F.ncas q ∧ Exists F.ncas r ∧ Exists F.ncas u ∧ Exists F.ncas v ∧ Exists F.ncas x ∧
    F.makeCasdm3aab dm3 [index F.ncas p, index F.ncas q, index F.ncas r, index F.ncas u, index F.ncas v, index F.ncas x] = 0 ∧
    expect E (word3 false false true p q r u v x) = -1 := by
  let occ : Nat → List Bool := fun f => if f = 1 then [false, true] else [true, false]
  exact ⟨detFrags [1, 1, 1] 1 (fun _ => 1) occ, detE occ, fun f => arr6 fun a b k l m n =>
      detE occ f (word3 false false true (f, a) (f, b) (f, k) (f, l) (f, m) (f, n)),
    (0, 0), (2, 0), (2, 0), (0, 0), (1, 0), (1, 0), detE_conserves _, detE_anticommutes _, rfl, rfl, fun _ _ _ _ _ => rfl,
    fun _ _ _ _ _ _ => rfl, fun _ _ _ _ _ _ => rfl, fun _ _ _ _ _ _ => rfl, fun _ _ _ _ _ _ _ => rfl,
    by decide, by decide, by decide, by decide, by decide, by decide, by decide +kernel, by decide +kernel⟩

/-- C84 and C85 are violated for several rootspaces: two rootspaces of weight one half with the same closed-shell state. An element
that is 2 in both of them, and so in the average, is returned as 1. -/
theorem C84_weights_violated : ∃ (F : Frags2 ℚ) (E : Nat → Nat → List Op → ℚ) (dm3 : Nat → Arr ℚ) (p q r u v x : Nat × Nat),
    (∀ k, Conserves (E k)) ∧ F.nroots = 2 ∧ (∀ k, F.w k = 1 / 2) ∧
    (∀ f r s a b, F.dm1 f r s a b = E r f (word1 s (f, a) (f, b))) ∧
    (∀ f r a b k l, F.aa f r a b k l = E r f (word2 false false (f, a) (f, b) (f, k) (f, l))) ∧
    (∀ f r a b k l, F.ab f r a b k l = E r f (word2 false true (f, a) (f, b) (f, k) (f, l))) ∧
    (∀ f r a b k l, F.bb f r a b k l = E r f (word2 true true (f, a) (f, b) (f, k) (f, l))) ∧
    (∀ f a b k l m n, dm3 f [a, b, k, l, m, n] = ∑ r ∈ Finset.range F.nroots, F.w r * sumSpin fun s => sumSpin fun t =>
      sumSpin fun y => E r f (word3 s t y (f, a) (f, b) (f, k) (f, l) (f, m) (f, n))) ∧
    Exists F.ncas p ∧ Exists F.ncas q ∧ Exists F.ncas r ∧ Exists F.ncas u ∧ Exists F.ncas v ∧ Exists F.ncas x ∧
    F.makeCasdm3 dm3 [index F.ncas p, index F.ncas q, index F.ncas r, index F.ncas u, index F.ncas v, index F.ncas x] = 1 ∧
    (∑ k ∈ Finset.range F.nroots, F.w k * sumSpin fun s => sumSpin fun t => sumSpin fun y =>
      expect (E k) (word3 s t y p q r u v x)) = 2 := by
  let occ : Nat → List Bool := fun f => if f = 0 then [true, true] else [true, false]
  let E : Nat → List Op → ℚ := fun f w => ((detE occ f w : Int) : ℚ)
  exact ⟨⟨⟨[1, 1], 2, fun _ => 1 / 2, fun f _ s a b => E f (word1 s (f, a) (f, b))⟩,
      fun f _ a b k l => E f (word2 false false (f, a) (f, b) (f, k) (f, l)),
      fun f _ a b k l => E f (word2 false true (f, a) (f, b) (f, k) (f, l)),
      fun f _ a b k l => E f (word2 true true (f, a) (f, b) (f, k) (f, l))⟩, fun _ => E,
    fun f => arr6 fun a b k l m n => ∑ r ∈ Finset.range 2, 1 / 2 * sumSpin fun s => sumSpin fun t =>
      sumSpin fun y => E f (word3 s t y (f, a) (f, b) (f, k) (f, l) (f, m) (f, n)),
    (0, 0), (0, 0), (0, 0), (0, 0), (1, 0), (1, 0), fun _ f w b h => by
      change ((detE occ f w : Int) : ℚ) = 0; rw [detE_conserves occ f w b h]; rfl, rfl, fun _ => rfl, fun _ _ _ _ _ => rfl,
    fun _ _ _ _ _ _ => rfl, fun _ _ _ _ _ _ => rfl, fun _ _ _ _ _ _ => rfl, fun _ _ _ _ _ _ _ => rfl,
    by decide, by decide, by decide, by decide, by decide, by decide, by decide +kernel, by decide +kernel⟩

end Verif.Props
