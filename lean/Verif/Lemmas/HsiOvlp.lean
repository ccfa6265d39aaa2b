import Verif.Lemmas.HsiMain
import Verif.Lemmas.Overlap
/-!
# Lemmas: the product of the overlap matrix with a vector; links from rootspaces
-/
namespace Verif.Lstdm
open Verif.Spec Verif.Spec.Tdm Verif.Spec.Lstdm Verif.Signs Verif.Exc Verif.Addr Verif.Radix Verif.Props

variable {K : Type} [Field K]

theorem sum_block (n a m : Nat) (h : a + m ≤ n) (F : Nat → K) :
    ∑ γ ∈ Finset.range n, (if a ≤ γ ∧ γ < a + m then F γ else 0) = ∑ c ∈ Finset.range m, F (a + c) := by
  rw [← Finset.sum_filter]
  have : (Finset.range n).filter (fun γ => a ≤ γ ∧ γ < a + m) = Finset.Ico a (a + m) := by
    ext γ
    simp only [Finset.mem_filter, Finset.mem_range, Finset.mem_Ico]
    omega
  rw [this, Finset.sum_Ico_eq_sum_range]
  simp

namespace Kern
variable {k : Kern K}

theorem nodup_excNull : k.excNull.Nodup := by
  have key : ∀ l : List (Nat × Nat), (table rowNull k.nelecI l).map Prod.fst = l.filter (fun p =>
      (table rowNull k.nelecI [p]).length == 1) := by
    intro l
    induction l with
    | nil => rfl
    | cons p l ih =>
      have e1 : table rowNull k.nelecI (p :: l) = table rowNull k.nelecI [p] ++ table rowNull k.nelecI l := by
        unfold table
        simp
      have e2 : (table rowNull k.nelecI [p] = [] ∧ (table rowNull k.nelecI [p]).length = 0) ∨
          ((table rowNull k.nelecI [p]).map Prod.fst = [p] ∧ (table rowNull k.nelecI [p]).length = 1) := by
        unfold table rowNull
        simp only [List.flatMap_cons, List.flatMap_nil, List.append_nil]
        split
        · right; exact ⟨rfl, rfl⟩
        · left; exact ⟨rfl, rfl⟩
      rw [e1, List.map_append, ih, List.filter_cons]
      rcases e2 with ⟨h, h'⟩ | ⟨h, h'⟩
      · rw [h]; simp
      · rw [h, h']; simp
  unfold excNull
  rw [key]
  exact List.Nodup.filter _ nodup_scai

theorem ovlpOp_ok (hK : Consistent k) (h0 : k.nlas.length ≠ 0) (x : Nat → K) :
    ∃ M y, k.ovlpBlocks none = some M ∧ k.ovlpOp x = some y ∧ ∀ β < off k.cols k.cols.length,
      y β = ∑ γ ∈ Finset.range (off k.cols k.cols.length), M β γ * x γ := by
  have hex : ∀ p : Nat × Nat, ∃ o : Nat × Nat × (Nat → Nat → K), p ∈ k.excNull → k.crunchOvlp p.1 p.2 = some o ∧
      o.1 = (k.cols.getD p.1 []).prod ∧ o.2.1 = (k.cols.getD p.2 []).prod := by
    intro p
    by_cases hp : p ∈ k.excNull
    · obtain ⟨h1, h2, _, hn, _⟩ := (mem_excNull hK p).mp hp
      obtain ⟨o, a, b, c, _⟩ := crunchOvlp_eq hK h0 p.1 p.2 h1 h2 hn
      exact ⟨o, fun _ => ⟨a, b, c⟩⟩
    · exact ⟨(0, 0, fun _ _ => 0), fun h => absurd h hp⟩
  choose O hO using hex
  set n := off k.cols k.cols.length with hn
  have hoffs : ∀ r < k.cols.length, k.selOffs none r = (off k.cols r, off k.cols r + (k.cols.getD r []).prod) := fun r hr =>
    blockAt_eq _ _ hr
  have hle : ∀ r < k.cols.length, off k.cols r + (k.cols.getD r []).prod ≤ n := fun r hr => by
    rw [← off_succ _ _ hr]; exact off_mono _ hr (le_refl _)
  have hlt : ∀ p ∈ k.excNull, p.1 < k.cols.length ∧ p.2 < k.cols.length := fun p hp =>
    ⟨((mem_excNull hK p).mp hp).1, ((mem_excNull hK p).mp hp).2.1⟩
  obtain ⟨out, e1, e2⟩ := blocks_fold none k.excNull O (fun p hp => (hO p hp).1) (fun p hp => by
    rw [hoffs _ (hlt p hp).1, hoffs _ (hlt p hp).2, (hO p hp).2.1, (hO p hp).2.2]
    simp) (fun _ _ => 0)
  -- every state lies in one block
  have hroot : ∀ x < n, ∃ r < k.cols.length, off k.cols r ≤ x ∧ x < off k.cols r + (k.cols.getD r []).prod := by
    have : ∀ m ≤ k.cols.length, ∀ x < off k.cols m, ∃ r < k.cols.length, off k.cols r ≤ x ∧ x < off k.cols r + (k.cols.getD r []).prod := by
      intro m
      induction m with
      | zero => intro _ x hx; simp [off] at hx
      | succ m ih =>
        intro hm x hx
        by_cases h : x < off k.cols m
        · exact ih (by omega) x h
        · exact ⟨m, hm, by omega, by rwa [← off_succ _ _ hm]⟩
    exact this _ (le_refl _)
  let P : Nat → Nat → Prop := fun r t => off k.cols r ≤ t ∧ t < off k.cols r + (k.cols.getD r []).prod
  -- the value of the accumulated array
  have hout : ∀ β γ, β < n → γ < n → out β γ = (k.excNull.map (fun p =>
      if P p.1 β ∧ P p.2 γ then (O p).2.2 (β - off k.cols p.1) (γ - off k.cols p.2) else 0)).sum := by
    intro β γ hβ hγ
    obtain ⟨b, hb, hb1⟩ := hroot β hβ
    obtain ⟨g, hg, hg1⟩ := hroot γ hγ
    have hu : ∀ r t s, r < k.cols.length → s < k.cols.length → P s t → (P r t ↔ r = s) := by
      intro r t s hr hs hst
      constructor
      · intro h; exact block_unique k.cols r s t hr hs h.1 h.2 hst.1 hst.2
      · rintro rfl; exact hst
    have e3 := e2 b g β γ (fun p hp => by
      rw [hoffs _ (hlt p hp).1, hoffs _ (hlt p hp).2]
      exact ⟨hu p.1 β b (hlt p hp).1 hb hb1, hu p.2 γ g (hlt p hp).2 hg hg1⟩)
    have e4 : (k.excNull.map (fun p => if P p.1 β ∧ P p.2 γ then (O p).2.2 (β - off k.cols p.1) (γ - off k.cols p.2) else 0)) =
        (k.excNull.map (fun p => if b = p.1 ∧ g = p.2 then (O p).2.2 (β - off k.cols p.1) (γ - off k.cols p.2) else 0)) := by
      refine List.map_congr_left fun p hp => ?_
      refine if_congr ?_ rfl rfl
      rw [hu p.1 β b (hlt p hp).1 hb hb1, hu p.2 γ g (hlt p hp).2 hg hg1]
      simp only [eq_comm]
    rw [e4, sum_nodup_pair _ nodup_excNull]
    by_cases hm : (b, g) ∈ k.excNull
    · rw [if_pos hm, e3.1 hm, hoffs b hb, hoffs g hg]
    · rw [if_neg hm, e3.2 hm]
  -- the product with the vector
  obtain ⟨y, f1, f2⟩ := foldlM_add k.excNull (fun ox p => (k.crunchOvlp p.1 p.2).bind (fun o =>
      let i := blockAt k.cols p.1
      let j := blockAt k.cols p.2
      if o.1 = i.2 - i.1 ∧ o.2.1 = j.2 - j.1 then
        let ox := fun t => if i.1 ≤ t ∧ t < i.2 then ox t + ∑ c ∈ Finset.range o.2.1, o.2.2 (t - i.1) c * x (j.1 + c) else ox t
        some (fun t => if j.1 ≤ t ∧ t < j.2 then ox t + ∑ b ∈ Finset.range o.1, o.2.2 b (t - j.1) * x (i.1 + b) else ox t)
      else none))
    (fun p β => ∑ γ ∈ Finset.range n, ((if P p.1 β ∧ P p.2 γ then (O p).2.2 (β - off k.cols p.1) (γ - off k.cols p.2) else 0) +
      (if P p.1 γ ∧ P p.2 β then (O p).2.2 (γ - off k.cols p.1) (β - off k.cols p.2) else 0)) * x γ) id n (by
      intro p hp o
      obtain ⟨a1, a2, a3⟩ := hO p hp
      obtain ⟨l1, l2⟩ := hlt p hp
      rw [a1, Option.bind_some, blockAt_eq _ _ l1, blockAt_eq _ _ l2]
      dsimp only
      rw [if_pos ⟨by rw [a2]; omega, by rw [a3]; omega⟩]
      refine ⟨_, rfl, fun β hβ => ?_⟩
      dsimp only [id]
      simp only [add_mul]
      rw [Finset.sum_add_distrib]
      have s1 : ∑ γ ∈ Finset.range n, (if P p.1 β ∧ P p.2 γ then (O p).2.2 (β - off k.cols p.1) (γ - off k.cols p.2) else 0) * x γ =
          if P p.1 β then ∑ c ∈ Finset.range (O p).2.1, (O p).2.2 (β - off k.cols p.1) c * x (off k.cols p.2 + c) else 0 := by
        by_cases h : P p.1 β
        · rw [if_pos h, a3, show ∑ c ∈ Finset.range (k.cols.getD p.2 []).prod, (O p).2.2 (β - off k.cols p.1) c * x (off k.cols p.2 + c) =
            ∑ c ∈ Finset.range (k.cols.getD p.2 []).prod, (fun γ => (O p).2.2 (β - off k.cols p.1) (γ - off k.cols p.2) * x γ) (off k.cols p.2 + c) from
              Finset.sum_congr rfl fun c _ => by simp, ← sum_block n _ _ (hle _ l2) (fun γ => (O p).2.2 (β - off k.cols p.1) (γ - off k.cols p.2) * x γ)]
          refine Finset.sum_congr rfl fun γ _ => ?_
          by_cases hg : P p.2 γ
          · rw [if_pos ⟨h, hg⟩, if_pos hg]
          · rw [if_neg (fun h => hg h.2), if_neg hg, zero_mul]
        · rw [if_neg h]
          exact Finset.sum_eq_zero fun γ _ => by rw [if_neg (fun h' => h h'.1), zero_mul]
      have s2 : ∑ γ ∈ Finset.range n, (if P p.1 γ ∧ P p.2 β then (O p).2.2 (γ - off k.cols p.1) (β - off k.cols p.2) else 0) * x γ =
          if P p.2 β then ∑ b ∈ Finset.range (O p).1, (O p).2.2 b (β - off k.cols p.2) * x (off k.cols p.1 + b) else 0 := by
        by_cases h : P p.2 β
        · rw [if_pos h, a2, show ∑ b ∈ Finset.range (k.cols.getD p.1 []).prod, (O p).2.2 b (β - off k.cols p.2) * x (off k.cols p.1 + b) =
            ∑ b ∈ Finset.range (k.cols.getD p.1 []).prod, (fun γ => (O p).2.2 (γ - off k.cols p.1) (β - off k.cols p.2) * x γ) (off k.cols p.1 + b) from
              Finset.sum_congr rfl fun c _ => by simp, ← sum_block n _ _ (hle _ l1) (fun γ => (O p).2.2 (γ - off k.cols p.1) (β - off k.cols p.2) * x γ)]
          refine Finset.sum_congr rfl fun γ _ => ?_
          by_cases hg : P p.1 γ
          · rw [if_pos ⟨hg, h⟩, if_pos hg]
          · rw [if_neg (fun h => hg h.1), if_neg hg, zero_mul]
        · rw [if_neg h]
          exact Finset.sum_eq_zero fun γ _ => by rw [if_neg (fun h' => h h'.2), zero_mul]
      rw [s1, s2]
      by_cases h1 : P p.1 β <;> by_cases h2 : P p.2 β <;> simp only [P] at h1 h2 ⊢ <;> simp only [h1, h2, if_true, if_false, and_self] <;> ring) (fun _ => 0)
  refine ⟨_, y, by unfold ovlpBlocks; rw [show k.selNull none = k.excNull from rfl, e1]; rfl, f1, fun β hβ => ?_⟩
  have := f2 β hβ
  simp only [id] at this
  rw [this, zero_add]
  have hsum : ∀ γ ∈ Finset.range n, (out β γ + out γ β) * x γ = (k.excNull.map (fun p => ((if P p.1 β ∧ P p.2 γ then (O p).2.2 (β - off k.cols p.1) (γ - off k.cols p.2) else 0) +
      (if P p.1 γ ∧ P p.2 β then (O p).2.2 (γ - off k.cols p.1) (β - off k.cols p.2) else 0)) * x γ)).sum := by
    intro γ hγ
    rw [hout β γ hβ (Finset.mem_range.mp hγ), hout γ β (Finset.mem_range.mp hγ) hβ, ← List.sum_map_add, ← List.sum_map_mul_right]
  rw [Finset.sum_congr rfl hsum]
  generalize k.excNull = l
  induction l with
  | nil => simp
  | cons p l ih =>
    rw [List.map_cons, List.sum_cons, ih, ← Finset.sum_add_distrib]
    exact Finset.sum_congr rfl fun γ _ => by rw [List.map_cons, List.sum_cons]

end Kern
end Verif.Lstdm
