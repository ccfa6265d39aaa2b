import Verif.Model.Lrrdm
import Verif.Lemmas.HamBlk
import Verif.Lemmas.KernCrunch
/-!
# Lemmas: the contractions of `LRRDM` are mixtures of the matrices of pairs of states
-/
namespace Verif.Lstdm
open Verif.Spec Verif.Addr Verif.Exc Verif.Signs Verif.Radix Verif.Spec.Tdm Verif.Spec.Lstdm

variable {K : Type}

section mix
variable [CommRing K] {ι : Type}

/-- `D` is the sum of `Dq q` with weights `w q`. -/
def Mix1 (S : Finset ι) (w : ι → K) (D : D1 K) (Dq : ι → D1 K) : Prop := ∀ s a b, D s a b = ∑ q ∈ S, w q * Dq q s a b
@[inherit_doc Mix1]
def Mix2 (S : Finset ι) (w : ι → K) (D : D2 K) (Dq : ι → D2 K) : Prop := ∀ s a b c e, D s a b c e = ∑ q ∈ S, w q * Dq q s a b c e

theorem mix_zero1 (S : Finset ι) (w : ι → K) : Mix1 S w zero1 (fun _ => zero1) := by intro s a b; simp [zero1]
theorem mix_zero2 (S : Finset ι) (w : ι → K) : Mix2 S w zero2 (fun _ => zero2) := by intro s a b c e; simp [zero2]

theorem mix_put2 {S : Finset ι} {w : ι → K} {D : D1 K} {Dq : ι → D1 K} {ss : List Nat} {r1 r2 : Rng} {blk : Nat → Nat → Nat → K}
    {blkq : ι → Nat → Nat → Nat → K} (h : Mix1 S w D Dq) (hb : ∀ t a b, blk t a b = ∑ q ∈ S, w q * blkq q t a b) :
    Mix1 S w (put2 D ss r1 r2 blk) (fun q => put2 (Dq q) ss r1 r2 (blkq q)) := by
  intro s a b
  unfold put2
  by_cases hc : (decide (s ∈ ss) && inRng r1 a && inRng r2 b) = true
  · simp only [if_pos hc]; exact hb _ _ _
  · simp only [if_neg hc]; exact h _ _ _

theorem mix_put4 {S : Finset ι} {w : ι → K} {D : D2 K} {Dq : ι → D2 K} {ss : List Nat} {r1 r2 r3 r4 : Rng}
    {blk : Nat → Nat → Nat → Nat → Nat → K} {blkq : ι → Nat → Nat → Nat → Nat → Nat → K} (h : Mix2 S w D Dq)
    (hb : ∀ t a b c e, blk t a b c e = ∑ q ∈ S, w q * blkq q t a b c e) :
    Mix2 S w (put4 D ss r1 r2 r3 r4 blk) (fun q => put4 (Dq q) ss r1 r2 r3 r4 (blkq q)) := by
  intro s a b c e
  unfold put4
  by_cases hc : (decide (s ∈ ss) && inRng r1 a && inRng r2 b && inRng r3 c && inRng r4 e) = true
  · simp only [if_pos hc]; exact hb _ _ _ _ _
  · simp only [if_neg hc]; exact h _ _ _ _ _

theorem neg_mix {S : Finset ι} {w g : ι → K} {a : K} (h : a = ∑ q ∈ S, w q * g q) : -a = ∑ q ∈ S, w q * -g q := by
  rw [h, ← Finset.sum_neg_distrib]
  exact Finset.sum_congr rfl fun q _ => by ring

theorem mul_mix {S : Finset ι} {w g : ι → K} {a : K} (f : K) (h : a = ∑ q ∈ S, w q * g q) : f * a = ∑ q ∈ S, w q * (f * g q) := by
  rw [h, Finset.mul_sum]
  exact Finset.sum_congr rfl fun q _ => by ring

theorem mix_1cTdm2 {S : Finset ι} {w : ι → K} {D : D2 K} {Dq : ι → D2 K} {s1 : Nat} {i j l : Rng}
    {blk : Nat → Nat → Nat → Nat → Nat → K} {blkq : ι → Nat → Nat → Nat → Nat → Nat → K} (h : Mix2 S w D Dq)
    (hb : ∀ t a b c e, blk t a b c e = ∑ q ∈ S, w q * blkq q t a b c e) :
    Mix2 S w (Lstdm.crunch1cTdm2 s1 D blk i j l) (fun q => Lstdm.crunch1cTdm2 s1 (Dq q) (blkq q) i j l) := by
  unfold Lstdm.crunch1cTdm2
  refine mix_put4 (mix_put4 (mix_put4 (mix_put4 h hb) fun t a b c e => hb _ _ _ _ _) fun t a b c e => ?_) fun t a b c e => ?_
  · exact neg_mix (hb _ _ _ _ _)
  · exact neg_mix (hb _ _ _ _ _)

end mix

section comm
variable [CommRing K]

/-- One of the four assignments applies. -/
def Tch (s1 : Nat) (i j l : Rng) (s a b c e : Nat) : Prop :=
  (decide (s ∈ [s1 * 2, s1 * 2 + 1]) && inRng i a && inRng j b && inRng l c && inRng l e) = true ∨
  (decide (s ∈ [s1, s1 + 2]) && inRng l a && inRng l b && inRng i c && inRng j e) = true ∨
  (decide (s ∈ [s1 * 3]) && inRng i a && inRng l b && inRng l c && inRng j e) = true ∨
  (decide (s ∈ [s1 * 3]) && inRng l a && inRng j b && inRng i c && inRng l e) = true

theorem tdm2_in {s1 : Nat} {i j l : Rng} {s a b c e : Nat} (h : Tch s1 i j l s a b c e) (d d' : D2 K)
    (blk : Nat → Nat → Nat → Nat → Nat → K) :
    Lstdm.crunch1cTdm2 s1 d blk i j l s a b c e = Lstdm.crunch1cTdm2 s1 d' blk i j l s a b c e := by
  unfold Lstdm.crunch1cTdm2
  unfold put4
  unfold Tch at h
  by_cases h4 : (decide (s ∈ [s1 * 3]) && inRng l a && inRng j b && inRng i c && inRng l e) = true
  · rw [if_pos h4, if_pos h4]
  rw [if_neg h4, if_neg h4]
  by_cases h3 : (decide (s ∈ [s1 * 3]) && inRng i a && inRng l b && inRng l c && inRng j e) = true
  · rw [if_pos h3, if_pos h3]
  rw [if_neg h3, if_neg h3]
  by_cases h2 : (decide (s ∈ [s1, s1 + 2]) && inRng l a && inRng l b && inRng i c && inRng j e) = true
  · rw [if_pos h2, if_pos h2]
  rw [if_neg h2, if_neg h2]
  rcases h with h | h | h | h
  · rw [if_pos h, if_pos h]
  · exact absurd h h2
  · exact absurd h h3
  · exact absurd h h4

theorem tdm2_out {s1 : Nat} {i j l : Rng} {s a b c e : Nat} (h : ¬Tch s1 i j l s a b c e) (d : D2 K)
    (blk : Nat → Nat → Nat → Nat → Nat → K) : Lstdm.crunch1cTdm2 s1 d blk i j l s a b c e = d s a b c e := by
  unfold Tch at h
  rw [not_or, not_or, not_or] at h
  unfold Lstdm.crunch1cTdm2
  unfold put4
  rw [if_neg h.2.2.2, if_neg h.2.2.1, if_neg h.2.1, if_neg h.1]

/-- The two sets of assignments of a hop touch different elements. -/
theorem tdm2_comm (s1 : Nat) (d : D2 K) (A B : Nat → Nat → Nat → Nat → Nat → K) (i j : Rng) (hij : ∀ x, inRng i x = true → inRng j x = true → False) :
    Lstdm.crunch1cTdm2 s1 (Lstdm.crunch1cTdm2 s1 d A i j i) B i j j = Lstdm.crunch1cTdm2 s1 (Lstdm.crunch1cTdm2 s1 d B i j j) A i j i := by
  funext s a b c e
  by_cases hA : Tch s1 i j i s a b c e
  · have hB : ¬Tch s1 i j j s a b c e := by
      unfold Tch at hA ⊢
      simp only [Bool.and_eq_true] at hA ⊢
      intro hB
      have ha := hij a
      have hb := hij b
      have hc := hij c
      have he := hij e
      tauto
    rw [tdm2_out hB]
    exact tdm2_in hA _ _ _
  · rw [tdm2_out hA]
    by_cases hB : Tch s1 i j j s a b c e
    · exact tdm2_in hB _ _ _
    · rw [tdm2_out hB, tdm2_out hA, tdm2_out hB]

end comm

namespace Kern
variable {k : Kern K}

/-! ### Sums over the states of a list of fragments -/

theorem sum_dig_perm {R : Type} [AddCommMonoid R] (J J' : List Nat) (hJ : J.Nodup) (hJ' : J'.Nodup) (hm : ∀ f, f ∈ J ↔ f ∈ J') (r : Nat)
    (F : (Nat → Nat) → R) :
    ∑ i ∈ Finset.range (k.colOf J r).prod, F (k.dig J r i) = ∑ i ∈ Finset.range (k.colOf J' r).prod, F (k.dig J' r i) := by
  have hex : ∀ i, i < (k.colOf J r).prod → ∃ i', i' < (k.colOf J' r).prod ∧ k.dig J' r i' = k.dig J r i := by
    intro i hi
    obtain ⟨i', h1, h2⟩ := dig_ex (k := k) J' hJ' r (k.dig J r i) (fun f hf => dig_lt J r i f hi ((hm f).mpr hf))
    refine ⟨i', h1, funext fun f => ?_⟩
    by_cases hf : f ∈ J'
    · exact h2 f hf
    · rw [dig_out J' r i' f hf, dig_out J r i f (fun h => hf ((hm f).mp h))]
  have hex' : ∀ i, i < (k.colOf J' r).prod → ∃ i', i' < (k.colOf J r).prod ∧ k.dig J r i' = k.dig J' r i := by
    intro i hi
    obtain ⟨i', h1, h2⟩ := dig_ex (k := k) J hJ r (k.dig J' r i) (fun f hf => dig_lt J' r i f hi ((hm f).mp hf))
    refine ⟨i', h1, funext fun f => ?_⟩
    by_cases hf : f ∈ J
    · exact h2 f hf
    · rw [dig_out J r i' f hf, dig_out J' r i f (fun h => hf ((hm f).mpr h))]
  choose! g g1 g2 using hex
  refine Finset.sum_bij (fun i _ => g i) (fun i hi => ?_) (fun a ha b hb h => ?_) (fun b hb => ?_) (fun i hi => ?_)
  · rw [Finset.mem_range] at hi ⊢; exact g1 i hi
  · rw [Finset.mem_range] at ha hb
    refine dig_inj J hJ r a b ha hb (fun f _ => ?_)
    rw [← g2 a ha, ← g2 b hb, h]
  · rw [Finset.mem_range] at hb
    obtain ⟨a, ha, hab⟩ := hex' b hb
    refine ⟨a, Finset.mem_range.mpr ha, ?_⟩
    refine dig_inj J' hJ' r _ _ (g1 a ha) hb (fun f _ => ?_)
    rw [g2 a ha, hab]
  · rw [Finset.mem_range] at hi
    rw [g2 i hi]

theorem colOf_cons (f : Nat) (J : List Nat) (r : Nat) : k.colOf (f :: J) r = k.lr r f :: k.colOf J r := rfl

theorem dig_cons_self (f : Nat) (J : List Nat) (r a t : Nat) (ha : a < k.lr r f) : k.dig (f :: J) r (a + k.lr r f * t) f = a := by
  unfold dig
  rw [if_pos (by simp), colOf_cons, List.idxOf_cons_self]
  change (a + k.lr r f * t) % k.lr r f = a
  rw [Nat.add_mul_mod_self_left, Nat.mod_eq_of_lt ha]

theorem dig_cons_mem (f : Nat) (J : List Nat) (hf : f ∉ J) (r a t g : Nat) (ha : a < k.lr r f) (hg : g ∈ J) :
    k.dig (f :: J) r (a + k.lr r f * t) g = k.dig J r t g := by
  have hne : f ≠ g := fun h => hf (h ▸ hg)
  unfold dig
  rw [if_pos (by simp [hg]), if_pos hg, colOf_cons, List.idxOf_cons_ne _ hne]
  change (digits (k.colOf J r) ((a + k.lr r f * t) / k.lr r f)).getD (J.idxOf g) 0 = _
  rw [Nat.add_mul_div_left _ _ (by omega), Nat.div_eq_of_lt ha, Nat.zero_add]

theorem sum_split {R : Type} [AddCommMonoid R] (n m : Nat) (F : Nat → R) :
    ∑ i ∈ Finset.range (n * m), F i = ∑ a ∈ Finset.range n, ∑ t ∈ Finset.range m, F (a + n * t) := by
  induction m with
  | zero => simp
  | succ m ih =>
    rw [Nat.mul_succ, Finset.sum_range_add, ih]
    simp only [Finset.sum_range_succ, Finset.sum_add_distrib]
    congr 1
    exact Finset.sum_congr rfl fun a _ => by rw [Nat.add_comm]

/-- Sum over the states of one more fragment; `F` is given in terms of the local roots of the fragments of the list. -/
theorem sum_dig_cons {R : Type} [AddCommMonoid R] (f : Nat) (J : List Nat) (hf : f ∉ J) (r : Nat) (F : (Nat → Nat) → R)
    (hF : ∀ e e' : Nat → Nat, (∀ g ∈ f :: J, e g = e' g) → F e = F e') :
    ∑ i ∈ Finset.range (k.colOf (f :: J) r).prod, F (k.dig (f :: J) r i) =
      ∑ a ∈ Finset.range (k.lr r f), ∑ t ∈ Finset.range (k.colOf J r).prod, F (Function.update (k.dig J r t) f a) := by
  rw [colOf_cons, List.prod_cons, sum_split]
  refine Finset.sum_congr rfl fun a ha => Finset.sum_congr rfl fun t _ => hF _ _ fun g hg => ?_
  rw [Finset.mem_range] at ha
  rcases List.mem_cons.mp hg with rfl | hg
  · rw [dig_cons_self _ _ _ _ _ ha, Function.update_self]
  · rw [dig_cons_mem _ _ hf _ _ _ _ ha hg, Function.update_of_ne (fun h : g = f => hf (h ▸ hg))]

/-- The pairs of a bra and a ket state. -/
def prs (k : Kern K) (J : List Nat) (rb rk : Nat) : Finset (Nat × Nat) :=
  Finset.range (k.colOf J rb).prod ×ˢ Finset.range (k.colOf J rk).prod

/-- The pairs of local roots of a fragment. -/
def prs1 (k : Kern K) (f rb rk : Nat) : Finset (Nat × Nat) := Finset.range (k.lr rb f) ×ˢ Finset.range (k.lr rk f)

theorem sum_prs_cons {R : Type} [AddCommMonoid R] (f : Nat) (J : List Nat) (hf : f ∉ J) (rb rk : Nat) (F : (Nat → Nat) → (Nat → Nat) → R)
    (hF : ∀ e1 e1' e2 e2' : Nat → Nat, (∀ g ∈ f :: J, e1 g = e1' g) → (∀ g ∈ f :: J, e2 g = e2' g) → F e1 e2 = F e1' e2') :
    ∑ q ∈ k.prs (f :: J) rb rk, F (k.dig (f :: J) rb q.1) (k.dig (f :: J) rk q.2) =
      ∑ p ∈ k.prs1 f rb rk, ∑ q ∈ k.prs J rb rk, F (Function.update (k.dig J rb q.1) f p.1) (Function.update (k.dig J rk q.2) f p.2) := by
  unfold prs prs1
  rw [Finset.sum_product, sum_dig_cons f J hf rb (fun e => ∑ y ∈ Finset.range (k.colOf (f :: J) rk).prod, F e (k.dig (f :: J) rk y))
    (fun e e' h => Finset.sum_congr rfl fun y _ => hF _ _ _ _ h (fun _ _ => rfl)), Finset.sum_product]
  refine Finset.sum_congr rfl fun a _ => ?_
  have : ∀ t, ∑ y ∈ Finset.range (k.colOf (f :: J) rk).prod, F (Function.update (k.dig J rb t) f a) (k.dig (f :: J) rk y) = _ := fun t =>
    sum_dig_cons f J hf rk (fun e => F (Function.update (k.dig J rb t) f a) e) (fun e e' h => hF _ _ _ _ (fun _ _ => rfl) h)
  simp only [this]
  rw [Finset.sum_comm]
  refine Finset.sum_congr rfl fun b _ => ?_
  rw [Finset.sum_product]

theorem sum_prs_nil {R : Type} [AddCommMonoid R] (rb rk : Nat) (F : Nat × Nat → R) : ∑ q ∈ k.prs [] rb rk, F q = F (0, 0) := by
  unfold prs colOf
  simp

/-- Sums over the local roots of one, two, three or four fragments. -/
theorem sum_prs1 {R : Type} [AddCommMonoid R] (i rb rk : Nat) (G : Nat → Nat → R) :
    ∑ q ∈ k.prs [i] rb rk, G (k.dig [i] rb q.1 i) (k.dig [i] rk q.2 i) = ∑ p ∈ k.prs1 i rb rk, G p.1 p.2 := by
  rw [sum_prs_cons i [] (by simp) rb rk (fun e e' => G (e i) (e' i)) (fun e1 e1' e2 e2' h1 h2 => by rw [h1 i (by simp), h2 i (by simp)])]
  refine Finset.sum_congr rfl fun p _ => ?_
  rw [sum_prs_nil]
  simp

theorem sum_prs2 {R : Type} [AddCommMonoid R] (i j rb rk : Nat) (h : [i, j].Nodup) (G : Nat → Nat → Nat → Nat → R) :
    ∑ q ∈ k.prs [i, j] rb rk, G (k.dig [i, j] rb q.1 i) (k.dig [i, j] rk q.2 i) (k.dig [i, j] rb q.1 j) (k.dig [i, j] rk q.2 j) =
      ∑ p ∈ k.prs1 i rb rk, ∑ p' ∈ k.prs1 j rb rk, G p.1 p.2 p'.1 p'.2 := by
  have hi := (List.nodup_cons.mp h).1
  have hij : j ≠ i := fun e => hi (by simp [e])
  rw [sum_prs_cons i [j] hi rb rk (fun e e' => G (e i) (e' i) (e j) (e' j))
    (fun e1 e1' e2 e2' h1 h2 => by rw [h1 i (by simp), h2 i (by simp), h1 j (by simp), h2 j (by simp)])]
  refine Finset.sum_congr rfl fun p _ => ?_
  simp only [Function.update_self, Function.update_of_ne hij]
  exact sum_prs1 j rb rk (fun a b => G p.1 p.2 a b)

theorem sum_prs3 {R : Type} [AddCommMonoid R] (i j l rb rk : Nat) (h : [i, j, l].Nodup) (G : Nat → Nat → Nat → Nat → Nat → Nat → R) :
    ∑ q ∈ k.prs [i, j, l] rb rk, G (k.dig [i, j, l] rb q.1 i) (k.dig [i, j, l] rk q.2 i) (k.dig [i, j, l] rb q.1 j) (k.dig [i, j, l] rk q.2 j)
      (k.dig [i, j, l] rb q.1 l) (k.dig [i, j, l] rk q.2 l) =
      ∑ p ∈ k.prs1 i rb rk, ∑ p' ∈ k.prs1 j rb rk, ∑ p'' ∈ k.prs1 l rb rk, G p.1 p.2 p'.1 p'.2 p''.1 p''.2 := by
  obtain ⟨hi, h2⟩ := List.nodup_cons.mp h
  have hij : j ≠ i := fun e => hi (by simp [e])
  have hil : l ≠ i := fun e => hi (by simp [e])
  rw [sum_prs_cons i [j, l] hi rb rk (fun e e' => G (e i) (e' i) (e j) (e' j) (e l) (e' l))
    (fun e1 e1' e2 e2' h1 h2 => by rw [h1 i (by simp), h2 i (by simp), h1 j (by simp), h2 j (by simp), h1 l (by simp), h2 l (by simp)])]
  refine Finset.sum_congr rfl fun p _ => ?_
  simp only [Function.update_self, Function.update_of_ne hij, Function.update_of_ne hil]
  exact sum_prs2 j l rb rk h2 (fun a b c d => G p.1 p.2 a b c d)

theorem sum_prs4 {R : Type} [AddCommMonoid R] (i j l m rb rk : Nat) (h : [i, j, l, m].Nodup)
    (G : Nat → Nat → Nat → Nat → Nat → Nat → Nat → Nat → R) :
    ∑ q ∈ k.prs [i, j, l, m] rb rk, G (k.dig [i, j, l, m] rb q.1 i) (k.dig [i, j, l, m] rk q.2 i) (k.dig [i, j, l, m] rb q.1 j)
      (k.dig [i, j, l, m] rk q.2 j) (k.dig [i, j, l, m] rb q.1 l) (k.dig [i, j, l, m] rk q.2 l) (k.dig [i, j, l, m] rb q.1 m)
      (k.dig [i, j, l, m] rk q.2 m) =
      ∑ p ∈ k.prs1 i rb rk, ∑ p' ∈ k.prs1 j rb rk, ∑ p'' ∈ k.prs1 l rb rk, ∑ p3 ∈ k.prs1 m rb rk,
        G p.1 p.2 p'.1 p'.2 p''.1 p''.2 p3.1 p3.2 := by
  obtain ⟨hi, h2⟩ := List.nodup_cons.mp h
  have hij : j ≠ i := fun e => hi (by simp [e])
  have hil : l ≠ i := fun e => hi (by simp [e])
  have him : m ≠ i := fun e => hi (by simp [e])
  rw [sum_prs_cons i [j, l, m] hi rb rk (fun e e' => G (e i) (e' i) (e j) (e' j) (e l) (e' l) (e m) (e' m))
    (fun e1 e1' e2 e2' h1 h2 => by
      rw [h1 i (by simp), h2 i (by simp), h1 j (by simp), h2 j (by simp), h1 l (by simp), h2 l (by simp), h1 m (by simp), h2 m (by simp)])]
  refine Finset.sum_congr rfl fun p _ => ?_
  simp only [Function.update_self, Function.update_of_ne hij, Function.update_of_ne hil, Function.update_of_ne him]
  exact sum_prs3 j l m rb rk h2 (fun a b c d x y => G p.1 p.2 a b c d x y)

end Kern
end Verif.Lstdm
