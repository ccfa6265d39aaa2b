import Verif.Lemmas.Lstdm
/-!
# Lemmas: block writes of `LSTDM`
-/
namespace Verif.Lstdm
open Verif.Spec.Tdm Verif.Spec.Lstdm Verif.Spec.Fockspace Verif.Tdm Verif.Signs

variable {K : Type} [CommRing K]

theorem inRng_frag (ns : List Nat) (i f x : Nat) (hx : x < ns.getD f 0) :
    inRng (getRange ns i) (fragStart ns f + x) = decide (f = i) := by
  have e : getRange ns i = (fragStart ns i, fragStart ns (i + 1)) := by rw [fragStart_succ]; rfl
  unfold inRng
  rw [e]
  have h1 := fragStart_succ ns f
  by_cases h : f = i
  · subst h
    have : fragStart ns f + x < fragStart ns (f + 1) := by omega
    simp [this]
  · rcases Nat.lt_or_gt_of_ne h with h' | h'
    · have h2 := fragStart_mono ns (show f + 1 ≤ i by omega)
      have : ¬ fragStart ns i ≤ fragStart ns f + x := by omega
      simp [h, this]
    · have h2 := fragStart_mono ns (show i + 1 ≤ f by omega)
      have : ¬ fragStart ns f + x < fragStart ns (i + 1) := by omega
      simp [h, this]

theorem sub_frag (ns : List Nat) (i x : Nat) : fragStart ns i + x - (getRange ns i).1 = x := by
  unfold getRange fragStart
  simp

/-- Two spin indices as one. -/
def ix2 (s t : Bool) : Nat := 2 * ix s + ix t

theorem ix_inj {s t : Bool} (h : ix s = ix t) : s = t := by cases s <;> cases t <;> simp [ix] at h ⊢

open Classical in
/-- In the elements of fragments `pat` the array times the factor is `X`, elsewhere it is zero. -/
def Good2 (ns : List Nat) (W : K) (X : Bool → Bool → Nat → Nat → Nat → Nat → K) (pat : Bool → Bool → Nat → Nat → Nat → Nat → Prop)
    (d : D2 K) : Prop :=
  ∀ s t fp fq fr fu p q r u, p < ns.getD fp 0 → q < ns.getD fq 0 → r < ns.getD fr 0 → u < ns.getD fu 0 →
    d (ix2 s t) (fragStart ns fp + p) (fragStart ns fq + q) (fragStart ns fr + r) (fragStart ns fu + u) * W =
      if pat s t fp fq fr fu then X s t (fragStart ns fp + p) (fragStart ns fq + q) (fragStart ns fr + r) (fragStart ns fu + u)
      else 0

open Classical in
@[inherit_doc Good2]
def Good1 (ns : List Nat) (W : K) (X : Bool → Nat → Nat → K) (pat : Bool → Nat → Nat → Prop) (d : D1 K) : Prop :=
  ∀ s fp fq p q, p < ns.getD fp 0 → q < ns.getD fq 0 →
    d (ix s) (fragStart ns fp + p) (fragStart ns fq + q) * W =
      if pat s fp fq then X s (fragStart ns fp + p) (fragStart ns fq + q) else 0

theorem good2_zero (ns : List Nat) (W : K) (X : Bool → Bool → Nat → Nat → Nat → Nat → K) :
    Good2 ns W X (fun _ _ _ _ _ _ => False) zero2 := by
  intro s t fp fq fr fu p q r u _ _ _ _
  simp [zero2]

theorem good1_zero (ns : List Nat) (W : K) (X : Bool → Nat → Nat → K) : Good1 ns W X (fun _ _ _ => False) zero1 := by
  intro s fp fq p q _ _
  simp [zero1]

theorem good2_put {ns : List Nat} {W : K} {X : Bool → Bool → Nat → Nat → Nat → Nat → K}
    {pat : Bool → Bool → Nat → Nat → Nat → Nat → Prop} {d : D2 K} (hd : Good2 ns W X pat d) (ss : List Nat) (i j k l : Nat)
    (blk : Nat → Nat → Nat → Nat → Nat → K)
    (hb : ∀ s t p q r u, ix2 s t ∈ ss → p < ns.getD i 0 → q < ns.getD j 0 → r < ns.getD k 0 → u < ns.getD l 0 →
      X s t (fragStart ns i + p) (fragStart ns j + q) (fragStart ns k + r) (fragStart ns l + u) =
        blk (ss.idxOf (ix2 s t)) p q r u * W) :
    Good2 ns W X (fun s t a b c e => (ix2 s t ∈ ss ∧ a = i ∧ b = j ∧ c = k ∧ e = l) ∨ pat s t a b c e)
      (put4 d ss (getRange ns i) (getRange ns j) (getRange ns k) (getRange ns l) blk) := by
  intro s t fp fq fr fu p q r u hp hq hr hu
  unfold put4
  rw [inRng_frag ns i fp p hp, inRng_frag ns j fq q hq, inRng_frag ns k fr r hr, inRng_frag ns l fu u hu]
  by_cases h : ix2 s t ∈ ss ∧ fp = i ∧ fq = j ∧ fr = k ∧ fu = l
  · obtain ⟨h0, rfl, rfl, rfl, rfl⟩ := h
    rw [if_pos (by simp [h0]), if_pos (Or.inl ⟨h0, rfl, rfl, rfl, rfl⟩), sub_frag, sub_frag, sub_frag, sub_frag]
    exact (hb s t p q r u h0 hp hq hr hu).symm
  · rw [if_neg (by
      simp only [Bool.and_eq_true, decide_eq_true_eq]
      rintro ⟨⟨⟨⟨h0, h1⟩, h2⟩, h3⟩, h4⟩
      exact h ⟨h0, h1, h2, h3, h4⟩), hd s t fp fq fr fu p q r u hp hq hr hu]
    by_cases hpat : pat s t fp fq fr fu
    · rw [if_pos hpat, if_pos (Or.inr hpat)]
    · rw [if_neg hpat, if_neg (by rintro (h' | h'); exact h h'; exact hpat h')]

theorem good1_put {ns : List Nat} {W : K} {X : Bool → Nat → Nat → K} {pat : Bool → Nat → Nat → Prop} {d : D1 K}
    (hd : Good1 ns W X pat d) (ss : List Nat) (i j : Nat) (blk : Nat → Nat → Nat → K)
    (hb : ∀ s p q, ix s ∈ ss → p < ns.getD i 0 → q < ns.getD j 0 →
      X s (fragStart ns i + p) (fragStart ns j + q) = blk (ss.idxOf (ix s)) p q * W) :
    Good1 ns W X (fun s a b => (ix s ∈ ss ∧ a = i ∧ b = j) ∨ pat s a b) (put2 d ss (getRange ns i) (getRange ns j) blk) := by
  intro s fp fq p q hp hq
  unfold put2
  rw [inRng_frag ns i fp p hp, inRng_frag ns j fq q hq]
  by_cases h : ix s ∈ ss ∧ fp = i ∧ fq = j
  · obtain ⟨h0, rfl, rfl⟩ := h
    rw [if_pos (by simp [h0]), if_pos (Or.inl ⟨h0, rfl, rfl⟩), sub_frag, sub_frag]
    exact (hb s p q h0 hp hq).symm
  · rw [if_neg (by
      simp only [Bool.and_eq_true, decide_eq_true_eq]
      rintro ⟨⟨h0, h1⟩, h2⟩
      exact h ⟨h0, h1, h2⟩), hd s fp fq p q hp hq]
    by_cases hpat : pat s fp fq
    · rw [if_pos hpat, if_pos (Or.inr hpat)]
    · rw [if_neg hpat, if_neg (by rintro (h' | h'); exact h h'; exact hpat h')]

theorem good2_congr {ns : List Nat} {W : K} {X : Bool → Bool → Nat → Nat → Nat → Nat → K}
    {pat pat' : Bool → Bool → Nat → Nat → Nat → Nat → Prop} {d : D2 K} (hd : Good2 ns W X pat d)
    (h : ∀ s t a b c e, pat s t a b c e ↔ pat' s t a b c e) : Good2 ns W X pat' d := by
  intro s t fp fq fr fu p q r u hp hq hr hu
  rw [hd s t fp fq fr fu p q r u hp hq hr hu]
  by_cases hpat : pat s t fp fq fr fu
  · rw [if_pos hpat, if_pos ((h _ _ _ _ _ _).mp hpat)]
  · rw [if_neg hpat, if_neg (fun h' => hpat ((h _ _ _ _ _ _).mpr h'))]

/-- Every orbital belongs to a fragment. -/
theorem frag_of (ns : List Nat) (P : Nat) (hP : P < ns.sum) :
    ∃ f x, f < ns.length ∧ x < ns.getD f 0 ∧ P = fragStart ns f + x := by
  have : ∀ k, k ≤ ns.length → P < fragStart ns k → ∃ f x, f < k ∧ x < ns.getD f 0 ∧ P = fragStart ns f + x := by
    intro k
    induction k with
    | zero => intro _ h; simp [fragStart] at h
    | succ k ih =>
      intro hk h
      by_cases h' : P < fragStart ns k
      · obtain ⟨f, x, h1, h2, h3⟩ := ih (by omega) h'
        exact ⟨f, x, by omega, h2, h3⟩
      · rw [fragStart_succ] at h
        exact ⟨k, P - fragStart ns k, by omega, by omega, by omega⟩
  exact this ns.length (le_refl _) (by rw [fragStart_length]; exact hP)

theorem frag_lt (ns : List Nat) (f x : Nat) (hx : x < ns.getD f 0) : fragStart ns f + x < ns.sum := by
  have hf : f < ns.length := by
    by_contra h
    rw [List.getD_eq_getElem?_getD, List.getElem?_eq_none (Nat.le_of_not_lt h)] at hx
    simp at hx
  have h1 := fragStart_mono ns (show f + 1 ≤ ns.length by omega)
  rw [fragStart_length, fragStart_succ] at h1
  omega

end Verif.Lstdm
