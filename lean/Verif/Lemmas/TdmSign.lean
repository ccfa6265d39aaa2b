import Verif.Lemmas.Tdm
import Verif.Lemmas.Signs
import Mathlib.Tactic.LinearCombination
/-!
# Lemmas: the sign factors of `LSTDM` as exponents modulo two
-/
namespace Verif.Tdm
open Verif.Signs Verif.Spec

/-! ### Bilinear forms -/

/-- `Σ c(g,h) u_g w_h`. -/
def bil (m : Nat) (c : Nat → Nat → Bool) (u w : Nat → ZMod 2) : ZMod 2 :=
  ∑ h ∈ Finset.range m, ∑ g ∈ Finset.range m, if c g h then u g * w h else 0

/-- Unit vector. -/
def del (f : Nat) : Nat → ZMod 2 := fun g => if g = f then 1 else 0

theorem bil_add_left (m : Nat) (c : Nat → Nat → Bool) (u u' w : Nat → ZMod 2) :
    bil m c (u + u') w = bil m c u w + bil m c u' w := by
  unfold bil
  rw [← Finset.sum_add_distrib]
  refine Finset.sum_congr rfl fun h _ => ?_
  rw [← Finset.sum_add_distrib]
  refine Finset.sum_congr rfl fun g _ => ?_
  split <;> simp [add_mul]

theorem bil_add_right (m : Nat) (c : Nat → Nat → Bool) (u w w' : Nat → ZMod 2) :
    bil m c u (w + w') = bil m c u w + bil m c u w' := by
  unfold bil
  rw [← Finset.sum_add_distrib]
  refine Finset.sum_congr rfl fun h _ => ?_
  rw [← Finset.sum_add_distrib]
  refine Finset.sum_congr rfl fun g _ => ?_
  split <;> simp [mul_add]

theorem bil_del_left (m : Nat) (c : Nat → Nat → Bool) (w : Nat → ZMod 2) (f : Nat) (hf : f < m) :
    bil m c (del f) w = ∑ h ∈ Finset.range m, if c f h then w h else 0 := by
  unfold bil del
  refine Finset.sum_congr rfl fun h _ => ?_
  rw [Finset.sum_eq_single f]
  · simp
  · intro g _ hg; simp [hg]
  · intro h; exact absurd (Finset.mem_range.mpr hf) h

theorem bil_del_right (m : Nat) (c : Nat → Nat → Bool) (u : Nat → ZMod 2) (f : Nat) (hf : f < m) :
    bil m c u (del f) = ∑ g ∈ Finset.range m, if c g f then u g else 0 := by
  unfold bil del
  rw [Finset.sum_eq_single f]
  · refine Finset.sum_congr rfl fun g _ => ?_
    simp
  · intro h _ hg; apply Finset.sum_eq_zero; intro g _; simp [hg]
  · intro h; exact absurd (Finset.mem_range.mpr hf) h

/-! ### The phase of a product state -/

/-- Exponent of `fermion_spin_shuffle`. -/
def phS (m : Nat) (a b : Nat → ZMod 2) : ZMod 2 := bil m (fun g h => decide (g < h)) a b

/-- Exponent of `fermion_frag_shuffle` for the fragments `inv`, the lowest of which is `low`. -/
def phF (m low : Nat) (inv : Nat → Bool) (N : Nat → ZMod 2) : ZMod 2 :=
  bil m (fun g h => inv h && (decide (g < h) && (!inv g && decide (low < g)))) N N

/-- Exponent of the reordering that gathers the operators of the fragments `inv`. -/
def phase (m low : Nat) (inv : Nat → Bool) (a b : Nat → ZMod 2) : ZMod 2 := phS m a b + phF m low inv (a + b)

/-- Exponent of `fermion_des_shuffle`. -/
def phD (m : Nat) (inv : Nat → Bool) (f : Nat) (N : Nat → ZMod 2) : ZMod 2 :=
  ∑ g ∈ Finset.range m, if inv g && decide (f < g) then N g else 0

/-- Electrons of the spectators above the lowest fragment of `inv`. -/
def phL (m low : Nat) (inv : Nat → Bool) (N : Nat → ZMod 2) : ZMod 2 :=
  ∑ g ∈ Finset.range m, if !inv g && decide (low < g) then N g else 0

/-- Add an electron of spin `s` in fragment `f`, modulo two: the new numbers of spin-up electrons. -/
def upA (s : Bool) (f : Nat) (a : Nat → ZMod 2) : Nat → ZMod 2 := if s then a else a + del f
/-- The new numbers of spin-down electrons. -/
def upB (s : Bool) (f : Nat) (b : Nat → ZMod 2) : Nat → ZMod 2 := if s then b + del f else b

theorem up_add (s : Bool) (f : Nat) (a b : Nat → ZMod 2) : upA s f a + upB s f b = a + b + del f := by
  cases s <;> simp only [upA, upB, if_true, Bool.false_eq_true, if_false] <;> funext g <;> simp only [Pi.add_apply] <;> ring

theorem phF_del (m low : Nat) (inv : Nat → Bool) (N : Nat → ZMod 2) (f : Nat) (hf : f < m) (hi : inv f = true) :
    phF m low inv (N + del f) = phF m low inv N +
      ∑ g ∈ Finset.range m, if decide (g < f) && (!inv g && decide (low < g)) then N g else 0 := by
  unfold phF
  rw [bil_add_left, bil_add_right, bil_del_left _ _ _ _ hf, bil_del_right _ _ _ _ hf]
  simp [hi]

/-- The sign of an annihilation operator on a spin-separated product state is the sign of gathering the fragments `inv`
before and after, times the sign of moving it past the fragments of `inv` above it and past the spectators above. -/
theorem eps_phase (m low : Nat) (inv : Nat → Bool) (a b : Nat → ZMod 2) (s : Bool) (f : Nat) (hf : f < m)
    (hi : inv f = true) (hlow : low ≤ f) :
    eps m s f a b = phase m low inv a b + phase m low inv (upA s f a) (upB s f b) + phD m inv f (a + b) +
      phL m low inv (a + b) := by
  unfold phase
  rw [up_add, phF_del m low inv _ f hf hi]
  unfold phD phL eps
  have key : ∀ (x y z : ZMod 2), x + y + (x + z + (y + 0)) = z := by decide
  have h2 : ∀ (x y : ZMod 2), x + x = 0 := by decide
  cases s
  · simp only [upA, upB, Bool.false_eq_true, if_false]
    unfold phS
    rw [bil_add_left, bil_del_left _ _ _ _ hf]
    rw [show ∀ p q r t u v : ZMod 2, p + q + (p + r + (q + t)) + u + v = r + t + u + v by decide]
    rw [← Finset.sum_add_distrib, ← Finset.sum_add_distrib, ← Finset.sum_add_distrib]
    refine Finset.sum_congr rfl fun g _ => ?_
    simp only [Pi.add_apply]
    generalize a g = x
    generalize b g = y
    rcases Nat.lt_trichotomy f g with h | h | h
    · have h1 : ¬ g < f := by omega
      have h3 : low < g := by omega
      cases hg : inv g <;> simp [h, h1, h3] <;> revert x y <;> decide
    · subst h; simp [hi]
    · have h1 : ¬ f < g := by omega
      by_cases h3 : low < g <;> cases hg : inv g <;> simp [h, h1, h3] <;> revert x y <;> decide
  · simp only [upA, upB, if_true]
    unfold phS
    rw [bil_add_right, bil_del_right _ _ _ _ hf]
    rw [show ∀ p q r t u v : ZMod 2, p + q + (p + r + (q + t)) + u + v = r + t + u + v by decide]
    rw [← Finset.sum_add_distrib, ← Finset.sum_add_distrib, ← Finset.sum_add_distrib, ← Finset.sum_add_distrib]
    refine Finset.sum_congr rfl fun g _ => ?_
    simp only [Pi.add_apply]
    generalize a g = x
    generalize b g = y
    rcases Nat.lt_trichotomy f g with h | h | h
    · have h1 : ¬ g < f := by omega
      have h3 : low < g := by omega
      have h4 : ¬ g = f := by omega
      cases hg : inv g <;> simp [h, h1, h3, h4] <;> revert x y <;> decide
    · subst h; simp [hi]
    · have h1 : ¬ f < g := by omega
      have h4 : ¬ g = f := by omega
      by_cases h3 : low < g <;> cases hg : inv g <;> simp [h, h1, h3, h4] <;> revert x y <;> decide

theorem phL_del (m low : Nat) (inv : Nat → Bool) (N : Nat → ZMod 2) (f : Nat) (hi : inv f = true) :
    phL m low inv (N + del f) = phL m low inv N := by
  unfold phL
  refine Finset.sum_congr rfl fun g _ => ?_
  by_cases h : g = f
  · subst h; simp [hi]
  · simp [del, h]

theorem phD_del (m : Nat) (inv : Nat → Bool) (N : Nat → ZMod 2) (f x : Nat) (hf : f < m) (hi : inv f = true) :
    phD m inv x (N + del f) = phD m inv x N + if x < f then 1 else 0 := by
  unfold phD
  rw [show (if x < f then (1 : ZMod 2) else 0) = ∑ g ∈ Finset.range m, if inv g && decide (x < g) then del f g else 0 by
    rw [Finset.sum_eq_single f]
    · simp [hi, del]
    · intro g _ hg; simp [del, hg]
    · intro h; exact absurd (Finset.mem_range.mpr hf) h]
  rw [← Finset.sum_add_distrib]
  refine Finset.sum_congr rfl fun g _ => ?_
  split <;> simp

theorem phL_congr (m low : Nat) (inv : Nat → Bool) (N N' : Nat → ZMod 2) (h : ∀ g < m, inv g = false → N g = N' g) :
    phL m low inv N = phL m low inv N' := by
  unfold phL
  refine Finset.sum_congr rfl fun g hg => ?_
  rw [Finset.mem_range] at hg
  cases hi : inv g
  · rw [h g hg hi]
  · simp

theorem phase_congr (m low : Nat) (inv : Nat → Bool) (a b a' b' : Nat → ZMod 2) (ha : ∀ g < m, a g = a' g)
    (hb : ∀ g < m, b g = b' g) : phase m low inv a b = phase m low inv a' b' := by
  have hbil : ∀ c (u w u' w' : Nat → ZMod 2), (∀ g < m, u g = u' g) → (∀ g < m, w g = w' g) →
      bil m c u w = bil m c u' w' := by
    intro c u w u' w' h1 h2
    unfold bil
    refine Finset.sum_congr rfl fun h hh => Finset.sum_congr rfl fun g hg => ?_
    rw [Finset.mem_range] at hh hg
    rw [h1 g hg, h2 h hh]
  unfold phase phS phF
  rw [hbil _ a b a' b' ha hb, hbil _ (a + b) (a + b) (a' + b') (a' + b')]
  · intro g hg; simp [ha g hg, hb g hg]
  · intro g hg; simp [ha g hg, hb g hg]

/-! ### The sign functions of the code -/

theorem sgnOf_sg {K : Type} [CommRing K] (n : Nat) : ((sgnOf n : Int) : K) = sg (n : ZMod 2) := by
  unfold sgnOf
  rw [sg_natCast]
  rcases Nat.mod_two_eq_zero_or_one n with h | h
  · rw [if_pos h, Even.neg_one_pow (Nat.even_iff.mpr h)]; simp
  · rw [if_neg (by omega), Odd.neg_one_pow (Nat.odd_iff.mpr h)]; simp

theorem list_sum_cast (l : List Nat) : ((l.sum : Nat) : ZMod 2) = (l.map (fun x => (x : ZMod 2))).sum := by
  induction l with
  | nil => simp
  | cons x l ih => simp [ih]

theorem range_sum_cast (n : Nat) (F : Nat → Nat) :
    ((((List.range n).map F).sum : Nat) : ZMod 2) = ∑ g ∈ Finset.range n, (F g : ZMod 2) := by
  induction n with
  | zero => simp
  | succ n ih => rw [List.range_succ, List.map_append, List.sum_append, Nat.cast_add, ih, Finset.sum_range_succ]; simp

theorem sum_lt_range (m n : Nat) (h : n ≤ m) (F : Nat → ZMod 2) :
    ∑ g ∈ Finset.range n, F g = ∑ g ∈ Finset.range m, if g < n then F g else 0 := by
  rw [← Finset.sum_filter]
  apply Finset.sum_congr _ (fun _ _ => rfl)
  ext g
  simp only [Finset.mem_range, Finset.mem_filter]
  omega

theorem permsF_cast (a b : Nat → Nat) (n : Nat) :
    (permsF a b n : ZMod 2) = phS n (fun g => a g) (fun g => b g) := by
  have h : ∀ m, n ≤ m → (permsF a b n : ZMod 2) =
      ∑ h ∈ Finset.range n, ∑ g ∈ Finset.range m, if g < h then (a g : ZMod 2) * b h else 0 := by
    induction n with
    | zero => simp [permsF]
    | succ n ih =>
      intro m hm
      rw [permsF, Nat.cast_add, ih m (by omega), Finset.sum_range_succ, Nat.cast_mul, range_sum_cast,
        sum_lt_range m n (by omega) (fun g => (a g : ZMod 2)), Finset.mul_sum]
      congr 1
      refine Finset.sum_congr rfl fun g _ => ?_
      split <;> ring
  rw [h n (le_refl n)]
  unfold phS bil
  simp

theorem spinShuffle_sg {K : Type} [CommRing K] (na nb : List Nat) (h : na.length = nb.length) :
    ∃ e, fermionSpinShuffle na nb = some e ∧
      (e : K) = sg (phS na.length (fun g => (na.getD g 0 : ZMod 2)) (fun g => (nb.getD g 0 : ZMod 2))) := by
  refine ⟨_, by rw [fermionSpinShuffle, if_pos h], ?_⟩
  rw [sgnOf_sg, spinShufflePerms_eq na nb h, permsF_cast]

theorem descending_sum (ne : List Nat) (p : Nat → Bool) (m : Nat) :
    (((((descending m).filter p).map (fun f => ne.getD f 0)).sum : Nat) : ZMod 2) =
      ∑ g ∈ Finset.range m, if p g then (ne.getD g 0 : ZMod 2) else 0 := by
  induction m with
  | zero => simp [descending]
  | succ m ih =>
    rw [descending_succ, Finset.sum_range_succ, ← ih, List.filter_cons]
    cases h : p m
    · simp
    · simp [add_comm]

theorem gperms_cast (ne : List Nat) (low : Nat) (p : Nat → Bool) (n : Nat) :
    (gperms ne low p n : ZMod 2) = phF n low p (fun g => (ne.getD g 0 : ZMod 2)) := by
  have h : ∀ m, n ≤ m → (gperms ne low p n : ZMod 2) =
      ∑ h ∈ Finset.range n, ∑ g ∈ Finset.range m, if p h && (decide (g < h) && (!p g && decide (low < g))) then
        (ne.getD g 0 : ZMod 2) * ne.getD h 0 else 0 := by
    induction n with
    | zero => simp [gperms]
    | succ n ih =>
      intro m hm
      rw [gperms, Nat.cast_add, ih m (by omega), Finset.sum_range_succ]
      congr 1
      cases hp : p n
      · simp
      · simp only [if_true, Bool.true_and]
        rw [Nat.cast_mul]
        unfold specSum
        rw [descending_sum, sum_lt_range m n (by omega) (fun g => if (!p g && decide (low < g)) then (ne.getD g 0 : ZMod 2) else 0),
          Finset.mul_sum]
        refine Finset.sum_congr rfl fun g _ => ?_
        by_cases h1 : g < n
        · cases h2 : (!p g && decide (low < g)) <;> simp [h1] <;> ring
        · simp [h1]
  rw [h n (le_refl n)]
  rfl

/-- Fragment lists whose set is iterated in ascending order. -/
def Asc (m : Nat) (frags : List Nat) : Prop :=
  PySet.listSet frags = (List.range m).filter (fun f => decide (f ∈ frags))

theorem fragShuffle_sg {K : Type} [CommRing K] (ne frags : List Nat) (low : Nat) (hasc : Asc ne.length frags)
    (hlow : low ∈ frags) (hmin : ∀ j ∈ frags, low ≤ j) (hlt : low < ne.length) :
    ((fermionFragShuffle ne frags : Int) : K) =
      sg (phF ne.length low (fun f => decide (f ∈ frags)) (fun g => (ne.getD g 0 : ZMod 2))) := by
  obtain ⟨rest, lf, nb, h1, h2, -⟩ := frag_fold ne low (fun f => decide (f ∈ frags)) ne.length
    (by intro j _ hj; exact hmin j (by simpa using hj)) (by simpa using hlow) ne.length (le_refl _) hlt
  unfold fermionFragShuffle
  rw [hasc, h1]
  unfold fragShuffleOf
  dsimp only
  rw [h2, sgnOf_sg, gperms_cast]

theorem take_idxOf_desc (m : Nat) (p : Nat → Bool) (i : Nat) (hi : p i = true) (him : i < m) (F : Nat → Nat) :
    (((((descending m).filter p).map F).take (((descending m).filter p).idxOf i)).sum : Nat) =
      (((descending m).filter (fun g => p g && decide (i < g))).map F).sum := by
  induction m with
  | zero => omega
  | succ m ih =>
    rw [descending_succ]
    by_cases h : i = m
    · subst h
      rw [List.filter_cons_of_pos hi, List.idxOf_cons_self]
      have : (i :: descending i).filter (fun g => p g && decide (i < g)) = [] := by
        rw [List.filter_eq_nil_iff]
        intro a ha
        rw [List.mem_cons] at ha
        have : ¬ i < a := by
          rcases ha with h | h
          · omega
          · simp [descending] at h; omega
        simp [this]
      rw [this]; simp
    · have hlt : i < m := by omega
      cases hp : p m
      · rw [List.filter_cons_of_neg (by simp [hp]), ih hlt, List.filter_cons_of_neg (by simp [hp])]
      · rw [List.filter_cons_of_pos hp, List.filter_cons_of_pos (by simp [hp, hlt]), List.idxOf_cons_ne _ (by omega)]
        simp [ih hlt]

theorem desShuffle_sg {K : Type} [CommRing K] (ne frags : List Nat) (i : Nat) (hasc : Asc ne.length frags)
    (hi : i ∈ frags) (hlt : i < ne.length) :
    ∃ e, fermionDesShuffle ne frags i = some e ∧
      (e : K) = sg (phD ne.length (fun f => decide (f ∈ frags)) i (fun g => (ne.getD g 0 : ZMod 2))) := by
  refine ⟨_, by rw [fermionDesShuffle, if_pos hi], ?_⟩
  unfold desShuffleOf
  rw [sgnOf_sg, hasc, ← List.filter_reverse]
  have h := take_idxOf_desc ne.length (fun f => decide (f ∈ frags)) i (by simpa using hi) hlt (fun f => ne.getD f 0)
  have h' : (List.range ne.length).reverse = descending ne.length := rfl
  rw [h', h, descending_sum]
  rfl

end Verif.Tdm
