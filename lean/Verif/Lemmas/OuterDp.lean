import Verif.Lemmas.Outer
import Mathlib.Algebra.BigOperators.Fin
import Mathlib.Algebra.BigOperators.Ring.Finset
import Mathlib.Tactic.Ring
/-!
# Lemmas on products of fragment CI vectors: the arrays
-/
namespace Verif.Outer
open Verif.Np Verif.Fockspace Verif.Spec Verif.Spec.Outer Verif.Spec.Fsucc Verif.Spec.Fockspace Verif.Radix
open scoped BigOperators

variable {K : Type} [CommRing K]

theorem Frag.OK.dA_pos {f : Frag K} (h : f.OK) : 0 < f.dA := Nat.choose_pos h.1
theorem Frag.OK.dB_pos {f : Frag K} (h : f.OK) : 0 < f.dB := Nat.choose_pos h.2.1

theorem get_posC {a b : Nd K} {dims t s : List Nat} (h : a.reshape dims = some b) (hs : InShape s a.shape)
    (e : posC dims t = posC a.shape s) : b.get t = a.get s := by
  unfold Nd.reshape at h
  split_ifs at h with hp
  cases h
  simp only
  rw [e, unravelC_posC hs]

theorem Frag.reshape_ok {f : Frag K} (h : f.OK) : ∃ c, f.ci.reshape f.shape = some c ∧ c.shape = [f.lroots, f.dA, f.dB] ∧
    ∀ k x y, k < f.lroots → x < f.dA → y < f.dB → c.get [k, x, y] = f.coeff k x y := by
  obtain ⟨_, _, hs⟩ := h
  have hlen : f.shape.prod = f.ci.shape.prod := by
    rcases hs with hs | ⟨l, hs⟩ <;> simp [Frag.shape, Frag.lroots, hs, Frag.dA, Frag.dB]
  obtain ⟨c, hc⟩ := Nd.reshape_some f.ci f.shape hlen
  refine ⟨c, hc, (Nd.reshape_flat hc).1, ?_⟩
  intro k x y hk hx hy
  rcases hs with hs | ⟨l, hs⟩
  · have hl : f.lroots = 1 := by simp [Frag.lroots, hs]
    have : k = 0 := by omega
    subst this
    rw [Frag.coeff, if_pos (by simp [hs])]
    apply get_posC hc
    · rw [hs]; exact List.Forall₂.cons hx (List.Forall₂.cons hy List.Forall₂.nil)
    · simp [Frag.shape, hs, posC, Frag.dA, Frag.dB]
  · have hl : f.lroots = l := by simp [Frag.lroots, hs]
    rw [Frag.coeff, if_neg (by simp [hs])]
    apply get_posC hc
    · rw [hs]; exact List.Forall₂.cons (hl ▸ hk) (List.Forall₂.cons hx (List.Forall₂.cons hy List.Forall₂.nil))
    · simp [Frag.shape, hs, posC, Frag.dA, Frag.dB]

theorem lt_mul {i a b j : Nat} (hi : i < a) (hj : j < b) : i * b + j < a * b := by
  have : (i + 1) * b ≤ a * b := Nat.mul_le_mul_right _ hi
  rw [Nat.add_mul] at this; omega

theorem dpStep_ok {dp : Nd K} {L A B : Nat} (hd : dp.shape = [L, A, B]) {f : Frag K} (h : f.OK) :
    ∃ r, dpStep dp f = some r ∧ r.shape = [L * f.lroots, A * f.dA, B * f.dB] ∧
      ∀ p i j k x y, p < L → i < A → j < B → k < f.lroots → x < f.dA → y < f.dB →
        r.get [p * f.lroots + k, i * f.dA + x, j * f.dB + y] = dp.get [p, i, j] * f.coeff k x y := by
  obtain ⟨c, hc, hcs, hcv⟩ := Frag.reshape_ok h
  have hts : ((outer dp c).transpose [0, 3, 1, 4, 2, 5]).shape = [L, f.lroots, A, f.dA, B, f.dB] := by
    simp [Nd.transpose, outer, hd, hcs]
  obtain ⟨r, hr⟩ := Nd.reshape_some ((outer dp c).transpose [0, 3, 1, 4, 2, 5]) [L * f.lroots, A * f.dA, B * f.dB]
    (by rw [hts]; simp; ring)
  have hr' : dpStep dp f = some r := by
    unfold dpStep
    rw [hc]
    simp only [Option.bind_eq_bind, Option.bind_some, hd, Frag.shape]
    simpa [Frag.dA, Frag.dB] using hr
  refine ⟨r, hr', (Nd.reshape_flat hr).1, ?_⟩
  intro p i j k x y hp hi hj hk hx hy
  have e := get_posC hr (t := [p * f.lroots + k, i * f.dA + x, j * f.dB + y]) (s := [p, k, i, x, j, y])
    (by
      rw [hts]
      exact List.Forall₂.cons hp (List.Forall₂.cons hk (List.Forall₂.cons hi (List.Forall₂.cons hx
        (List.Forall₂.cons hj (List.Forall₂.cons hy List.Forall₂.nil))))))
    (by rw [hts]; simp [posC]; ring)
  rw [e]
  simp only [Nd.transpose, outer, hd, hcs]
  have : (List.range ([L, A, B] ++ [f.lroots, f.dA, f.dB]).length) = [0, 1, 2, 3, 4, 5] := rfl
  rw [this]
  have e1 : List.map (fun i_1 => [p, k, i, x, j, y].getD (List.idxOf i_1 [0, 3, 1, 4, 2, 5]) 0) [0, 1, 2, 3, 4, 5] =
      [p, i, j, k, x, y] := rfl
  rw [e1]
  simp only [List.length_cons, List.length_nil, List.take_succ_cons, List.take_zero, List.drop_succ_cons, List.drop_zero]
  rw [hcv k x y hk hx hy]

theorem ciDp_cons (f : Frag K) (fs : List (Frag K)) (hne : fs ≠ []) : ciDp (f :: fs) = (ciDp fs).bind fun dp => dpStep dp f := by
  unfold ciDp
  rw [List.reverse_cons]
  cases h : fs.reverse with
  | nil => exact absurd (List.reverse_eq_nil_iff.1 h) hne
  | cons l rest =>
    rw [List.cons_append]
    simp only [List.foldlM_append, Option.bind_eq_bind]
    cases l.ci.reshape l.shape with
    | none => rfl
    | some dp =>
      simp only [Option.bind_some]
      congr 1
      funext a
      simp only [List.foldlM_cons, List.foldlM_nil, Option.bind_eq_bind]
      cases dpStep a f <;> rfl

/-- The weight with which position `(i, j)` of the product strings enters, by fragments: the coefficient for a contracted
fragment, the choice of one component for a fragment that is left uncontracted. -/
def wt (skip : Nat → Bool) (t u w : Nat → Nat) : Nat → List (Frag K) → Nat → Nat → K
  | _, [], _, _ => 1
  | n, f :: fs, i, j =>
    (if skip n then (if i % f.dA = u n ∧ j % f.dB = w n then 1 else 0) else f.coeff (t n) (i % f.dA) (j % f.dB)) *
      wt skip t u w (n + 1) fs (i / f.dA) (j / f.dB)

/-- the root indices from fragment `n` on -/
def roots (t : Nat → Nat) (n len : Nat) : List Nat := (List.range' n len).map t

theorem ciDp_ok {fs : List (Frag K)} (hne : fs ≠ []) (hok : ∀ f ∈ fs, f.OK) :
    ∃ dp, ciDp fs = some dp ∧ dp.shape = [(fs.map Frag.lroots).prod, (fs.map Frag.dA).prod, (fs.map Frag.dB).prod] ∧
      ∀ (t u w : Nat → Nat) n i j, InShape (roots t n fs.length) (fs.map Frag.lroots) →
        i < (fs.map Frag.dA).prod → j < (fs.map Frag.dB).prod →
        dp.get [posF (fs.map Frag.lroots) (roots t n fs.length), i, j] = wt (fun _ => false) t u w n fs i j := by
  induction fs with
  | nil => exact absurd rfl hne
  | cons f fs ih =>
    have hf := hok f (by simp)
    by_cases hfs : fs = []
    · subst hfs
      obtain ⟨c, hc, hcs, hcv⟩ := Frag.reshape_ok hf
      refine ⟨c, ?_, by simpa using hcs, ?_⟩
      · simp [ciDp, hc]
      · intro t u w n i j ht hi hj
        simp only [List.map_cons, List.map_nil, List.prod_cons, List.prod_nil, Nat.mul_one, roots, List.length_cons,
          List.length_nil, List.range'_succ, List.range'_zero] at *
        cases ht with
        | cons h1 h2 =>
          simp [posF, wt, Nat.mod_eq_of_lt hi, Nat.mod_eq_of_lt hj, hcv _ _ _ h1 hi hj]
    · obtain ⟨dp, hdp, hds, hdv⟩ := ih hfs (fun g hg => hok g (by simp [hg]))
      obtain ⟨r, hr, hrs, hrv⟩ := dpStep_ok hds hf
      refine ⟨r, ?_, ?_, ?_⟩
      · rw [ciDp_cons f fs hfs, hdp, Option.bind_some, hr]
      · rw [hrs]; simp [Nat.mul_comm]
      · intro t u w n i j ht hi hj
        have er : roots t n (f :: fs).length = t n :: roots t (n + 1) fs.length := by
          simp [roots, List.range'_succ]
        rw [er] at ht ⊢
        simp only [List.map_cons, List.prod_cons] at ht hi hj ⊢
        cases ht with
        | cons h1 h2 =>
          have hA := hf.dA_pos
          have hB := hf.dB_pos
          have hi' : i / f.dA < (fs.map Frag.dA).prod := by rw [Nat.div_lt_iff_lt_mul hA, Nat.mul_comm]; exact hi
          have hj' : j / f.dB < (fs.map Frag.dB).prod := by rw [Nat.div_lt_iff_lt_mul hB, Nat.mul_comm]; exact hj
          have e := hrv _ _ _ _ _ _ (posF_lt h2) hi' hj' h1 (Nat.mod_lt i hA) (Nat.mod_lt j hB)
          rw [hdv t u w (n + 1) _ _ h2 hi' hj', Nat.div_add_mod', Nat.div_add_mod'] at e
          rw [posF, wt, Nat.add_comm, Nat.mul_comm f.lroots, e, if_neg (by simp), mul_comm]

/-! ### Addresses -/

/-- the strings of the fragments determine the weight -/
theorem wt_part (skip : Nat → Bool) (t u w : Nat → Nat) (n : Nat) (fs : List (Frag K)) {A B : Nat}
    (hA : A ∈ prodStrs (fs.map Frag.norb) (fs.map Frag.na)) (hB : B ∈ prodStrs (fs.map Frag.norb) (fs.map Frag.nb)) :
    wt skip t u w n fs (posF (fs.map Frag.dA) (partAddrs (fs.map Frag.norb) A))
      (posF (fs.map Frag.dB) (partAddrs (fs.map Frag.norb) B)) =
    ∏ f : Fin fs.length,
      (if skip (n + f) then
        (if addrOf (fs.get f).norb (fragStr (fs.map Frag.norb) f A) = u (n + f) ∧
            addrOf (fs.get f).norb (fragStr (fs.map Frag.norb) f B) = w (n + f) then 1 else 0)
       else (fs.get f).coeff (t (n + f)) (addrOf (fs.get f).norb (fragStr (fs.map Frag.norb) f A))
        (addrOf (fs.get f).norb (fragStr (fs.map Frag.norb) f B))) := by
  induction fs generalizing n A B with
  | nil => simp [wt]
  | cons f fs ih =>
    rw [List.map_cons, List.map_cons, prodStrs, List.mem_flatMap] at hA hB
    obtain ⟨hiA, hhA, hA⟩ := hA
    obtain ⟨hiB, hhB, hB⟩ := hB
    rw [List.mem_map] at hA hB
    obtain ⟨loA, hlA, rfl⟩ := hA
    obtain ⟨loB, hlB, rfl⟩ := hB
    have hp : 0 < 2 ^ f.norb := Nat.two_pow_pos _
    have ltA := (mem_strs.1 hlA).1
    have ltB := (mem_strs.1 hlB).1
    have d1 : ∀ {lo hi : Nat}, lo < 2 ^ f.norb → (lo + 2 ^ f.norb * hi) / 2 ^ f.norb = hi := by
      intro lo hi h
      rw [Nat.add_mul_div_left _ _ hp, Nat.div_eq_of_lt h, Nat.zero_add]
    have d2 : ∀ {lo hi : Nat}, lo < 2 ^ f.norb → (lo + 2 ^ f.norb * hi) % 2 ^ f.norb = lo := by
      intro lo hi h
      rw [Nat.add_mul_mod_self_left, Nat.mod_eq_of_lt h]
    have aA : addrOf f.norb loA < f.dA := addrOf_lt hlA
    have aB : addrOf f.norb loB < f.dB := addrOf_lt hlB
    have pA : 0 < f.dA := by omega
    have pB : 0 < f.dB := by omega
    rw [List.map_cons, List.map_cons, List.map_cons, partAddrs_cons, partAddrs_cons, d1 ltA, d1 ltB, d2 ltA, d2 ltB, posF, posF, wt,
      Nat.add_mul_mod_self_left, Nat.add_mul_mod_self_left, Nat.mod_eq_of_lt aA, Nat.mod_eq_of_lt aB,
      Nat.add_mul_div_left _ _ pA, Nat.add_mul_div_left _ _ pB, Nat.div_eq_of_lt aA, Nat.div_eq_of_lt aB, Nat.zero_add, Nat.zero_add,
      ih (n + 1) hhA hhB]
    simp only [List.length_cons, Fin.prod_univ_succ, List.get_cons_zero, List.get_cons_succ, Fin.val_zero, Fin.val_succ,
      fragStr_zero, fragStr_succ, d1 ltA, d1 ltB, d2 ltA, d2 ltB, Nat.add_zero]
    congr 1
    apply Finset.prod_congr rfl
    intro x _
    rw [show n + 1 + (x : Nat) = n + (x + 1) by omega]
    rfl

/-- Sums over the positions of a list without duplicates. -/
theorem sum_positions {l : List Nat} (hl : l.Nodup) (g : Nat → K) :
    ∑ i ∈ Finset.range l.length, g (l.getD i 0) = ∑ D ∈ l.toFinset, g D := by
  rw [List.sum_toFinset _ hl]
  clear hl
  induction l with
  | nil => simp
  | cons x l ih => rw [List.length_cons, Finset.sum_range_succ', List.map_cons, List.sum_cons, ← ih]; simp [add_comm]

/-- Sums over a range split into blocks. -/
theorem sum_blocks (m n : Nat) (g : Nat → K) :
    ∑ i ∈ Finset.range (n * m), g i = ∑ a ∈ Finset.range n, ∑ x ∈ Finset.range m, g (a * m + x) := by
  induction n with
  | zero => simp
  | succ n ih => rw [Nat.add_mul, Nat.one_mul, Finset.sum_range_add, ih, Finset.sum_range_succ]

/-! ### `dotter` with some fragments left uncontracted -/

/-- shape of the uncontracted axes, last skipped fragment first -/
def skShape (skip : Nat → Bool) : Nat → List (Frag K) → List Nat
  | _, [] => []
  | n, f :: fs => skShape skip (n + 1) fs ++ (if skip n then [f.dA, f.dB] else [])

/-- coordinates on the uncontracted axes -/
def skCoord (skip : Nat → Bool) (u w : Nat → Nat) : Nat → List (Frag K) → List Nat
  | _, [] => []
  | n, _ :: fs => skCoord skip u w (n + 1) fs ++ (if skip n then [u n, w n] else [])

/-- numbers of vectors of the contracted fragments -/
def keptL (skip : Nat → Bool) : Nat → List (Frag K) → List Nat
  | _, [] => []
  | n, f :: fs => (if skip n then [] else [f.lroots]) ++ keptL skip (n + 1) fs

/-- vector indices of the contracted fragments -/
def keptT (skip : Nat → Bool) (t : Nat → Nat) : Nat → List (Frag K) → List Nat
  | _, [] => []
  | n, _ :: fs => (if skip n then [] else [t n]) ++ keptT skip t (n + 1) fs

/-- number of skipped fragments, twice -/
def nSkip (skip : Nat → Bool) : Nat → List (Frag K) → Nat
  | _, [] => 0
  | n, _ :: fs => (if skip n then 2 else 0) + nSkip skip (n + 1) fs

/-- What one pass makes of the array, seen as a function of the positions that are left. -/
def stepVal (skip : Nat → Bool) (t u w : Nat → Nat) (n : Nat) (f : Frag K) (X : Nat → Nat → K) : Nat → Nat → K := fun a b =>
  if skip n then X (a * f.dA + u n) (b * f.dB + w n)
  else ∑ x ∈ Finset.range f.dA, ∑ y ∈ Finset.range f.dB, f.coeff (t n) x y * X (a * f.dA + x) (b * f.dB + y)

def skVal (skip : Nat → Bool) (t u w : Nat → Nat) : Nat → List (Frag K) → (Nat → Nat → K) → K
  | _, [], X => X 0 0
  | n, f :: fs, X => skVal skip t u w (n + 1) fs (stepVal skip t u w n f X)

theorem skVal_congr (skip : Nat → Bool) (t u w : Nat → Nat) (n : Nat) (fs : List (Frag K)) (hok : ∀ f ∈ fs, f.OK)
    (hu : ∀ i (h : i < fs.length), skip (n + i) → u (n + i) < fs[i].dA ∧ w (n + i) < fs[i].dB) {X Y : Nat → Nat → K}
    (h : ∀ i j, i < (fs.map Frag.dA).prod → j < (fs.map Frag.dB).prod → X i j = Y i j) :
    skVal skip t u w n fs X = skVal skip t u w n fs Y := by
  induction fs generalizing n X Y with
  | nil => exact h 0 0 (by simp) (by simp)
  | cons f fs ih =>
    rw [skVal, skVal]
    apply ih _ (fun g hg => hok g (by simp [hg]))
    · intro i hi hs
      have := hu (i + 1) (by simpa using hi)
      rw [show n + 1 + i = n + (i + 1) by omega] at hs ⊢
      simpa using this hs
    · intro i j hi hj
      unfold stepVal
      rw [List.map_cons, List.prod_cons, List.map_cons, List.prod_cons, Nat.mul_comm f.dA, Nat.mul_comm f.dB] at h
      split_ifs with hs
      · have := hu 0 (by simp) (by simpa using hs)
        exact h _ _ (lt_mul hi (by simpa using this.1)) (lt_mul hj (by simpa using this.2))
      · apply Finset.sum_congr rfl
        intro x hx
        apply Finset.sum_congr rfl
        intro y hy
        rw [h _ _ (lt_mul hi (Finset.mem_range.1 hx)) (lt_mul hj (Finset.mem_range.1 hy))]

/-- The contraction, as one weighted sum. -/
theorem skVal_sum (skip : Nat → Bool) (t u w : Nat → Nat) (n : Nat) (fs : List (Frag K)) (hok : ∀ f ∈ fs, f.OK)
    (hu : ∀ i (h : i < fs.length), skip (n + i) → u (n + i) < fs[i].dA ∧ w (n + i) < fs[i].dB) (X : Nat → Nat → K) :
    skVal skip t u w n fs X = ∑ i ∈ Finset.range (fs.map Frag.dA).prod, ∑ j ∈ Finset.range (fs.map Frag.dB).prod,
      wt skip t u w n fs i j * X i j := by
  induction fs generalizing n X with
  | nil => simp [skVal, wt]
  | cons f fs ih =>
    have hf := hok f (by simp)
    rw [skVal, ih _ (fun g hg => hok g (by simp [hg]))]
    · rw [List.map_cons, List.prod_cons, List.map_cons, List.prod_cons, Nat.mul_comm f.dA, Nat.mul_comm f.dB, sum_blocks]
      apply Finset.sum_congr rfl
      intro a _
      have e : ∀ x ∈ Finset.range f.dA, ∑ j ∈ Finset.range ((fs.map Frag.dB).prod * f.dB),
          wt skip t u w n (f :: fs) (a * f.dA + x) j * X (a * f.dA + x) j =
          ∑ b ∈ Finset.range (fs.map Frag.dB).prod, ∑ y ∈ Finset.range f.dB,
            (if skip n then (if x = u n ∧ y = w n then 1 else 0) else f.coeff (t n) x y) *
              (wt skip t u w (n + 1) fs a b * X (a * f.dA + x) (b * f.dB + y)) := by
        intro x hx
        have hx := Finset.mem_range.1 hx
        rw [sum_blocks]
        apply Finset.sum_congr rfl
        intro b _
        apply Finset.sum_congr rfl
        intro y hy
        have hy := Finset.mem_range.1 hy
        rw [wt, Nat.mul_comm a, Nat.mul_comm b, Nat.mul_add_mod, Nat.mul_add_mod, Nat.mod_eq_of_lt hx, Nat.mod_eq_of_lt hy,
          Nat.mul_add_div hf.dA_pos, Nat.mul_add_div hf.dB_pos, Nat.div_eq_of_lt hx, Nat.div_eq_of_lt hy, mul_assoc]
        rfl
      rw [Finset.sum_congr rfl e, Finset.sum_comm]
      apply Finset.sum_congr rfl
      intro b _
      unfold stepVal
      by_cases hs : skip n
      · simp only [hs, if_true]
        have h0 := hu 0 (by simp) (by simpa using hs)
        simp only [Nat.add_zero, List.getElem_cons_zero] at h0
        rw [Finset.sum_eq_single (u n), Finset.sum_eq_single (w n)]
        · simp
        · intro y _ hy; simp [hy]
        · intro hh; exact absurd (Finset.mem_range.2 h0.2) hh
        · intro x _ hx
          apply Finset.sum_eq_zero
          intro y _; simp [hx]
        · intro hh; exact absurd (Finset.mem_range.2 h0.1) hh
      · simp only [hs, Bool.false_eq_true, if_false, Finset.mul_sum]
        apply Finset.sum_congr rfl
        intro x _
        apply Finset.sum_congr rfl
        intro y _
        ring
    · intro i hi hs
      have := hu (i + 1) (by simpa using hi)
      rw [show n + 1 + i = n + (i + 1) by omega] at hs ⊢
      simpa using this hs

end Verif.Outer
