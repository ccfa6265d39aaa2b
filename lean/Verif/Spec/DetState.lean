import Verif.Spec.ProdRdm
import Mathlib.Tactic.Ring
/-!
# Single determinants as fragment states

Used for the concrete cases beside the theorems on products of fragment states. Spin-orbital `2 a` is orbital `a` with alpha spin,
`2 a + 1` is orbital `a` with beta spin.
-/
namespace Verif.Spec.ProdRdm

/-- Number of the spin-orbital of an operator. -/
def Op.so (x : Op) : Nat := 2 * x.orb + x.beta.toNat

/-- Action of an operator on a determinant (list of occupations): sign and new determinant. -/
def act (x : Op) (occ : List Bool) : Option (Int × List Bool) :=
  if occ[x.so]? = some (!x.cre) then some ((-1) ^ ((occ.take x.so).count true), occ.set x.so x.cre) else none

/-- Action of a word, the rightmost operator first. -/
def run : List Op → List Bool → Option (Int × List Bool)
  | [], occ => some (1, occ)
  | x :: w, occ => (run w occ).bind fun y => (act x y.2).map fun z => (z.1 * y.1, z.2)

/-- Expectation value of a word in a determinant. -/
def detE (occ : Nat → List Bool) (f : Nat) (w : List Op) : Int :=
  match run w (occ f) with
  | some (s, o) => if o = occ f then s else 0
  | none => 0

/-- Number of electrons of a spin (`b` false: alpha); the first spin-orbital has alpha spin if `e` is false. -/
def nspin (b : Bool) : Bool → List Bool → Nat
  | _, [] => 0
  | e, x :: l => (x && e == b).toNat + nspin b (!e) l

theorem nspin_set (b e : Bool) (l : List Bool) (k : Nat) (v : Bool) (hk : l[k]? = some (!v)) :
    nspin b e (l.set k v) + (!v && ((e ^^ (k % 2 == 1)) == b)).toNat = nspin b e l + (v && ((e ^^ (k % 2 == 1)) == b)).toNat := by
  induction l generalizing k e with
  | nil => simp at hk
  | cons x l ih =>
    cases k with
    | zero =>
      simp only [List.getElem?_cons_zero, Option.some.injEq] at hk
      subst hk
      cases v <;> cases e <;> cases b <;> simp [nspin] <;> omega
    | succ k =>
      simp only [List.getElem?_cons_succ] at hk
      have := ih (!e) k hk
      have h2 : (e ^^ ((k + 1) % 2 == 1)) = ((!e) ^^ (k % 2 == 1)) := by
        rcases Nat.mod_two_eq_zero_or_one k with h | h
        · have : (k + 1) % 2 = 1 := by omega
          simp [h, this]
        · have : (k + 1) % 2 = 0 := by omega
          simp [h, this]
      rw [h2]
      simp only [List.set_cons_succ, nspin]
      omega

theorem act_nspin (x : Op) (occ : List Bool) (s : Int) (o : List Bool) (h : act x occ = some (s, o)) (b : Bool) :
    nspin b false o + (!x.cre && x.beta == b).toNat = nspin b false occ + (x.cre && x.beta == b).toNat := by
  unfold act at h
  split_ifs at h with hk
  simp only [Option.some.injEq, Prod.mk.injEq] at h
  obtain ⟨-, rfl⟩ := h
  have := nspin_set b false occ x.so x.cre hk
  have h2 : (false ^^ (x.so % 2 == 1)) = x.beta := by
    unfold Op.so
    cases x.beta <;> simp <;> omega
  rw [h2] at this
  exact this

theorem run_nspin (w : List Op) (occ : List Bool) (s : Int) (o : List Bool) (h : run w occ = some (s, o)) (b : Bool) :
    nspin b false o + w.countP (fun x => !x.cre && x.beta == b) = nspin b false occ + w.countP (fun x => x.cre && x.beta == b) := by
  induction w generalizing s o with
  | nil => simp only [run, Option.some.injEq, Prod.mk.injEq] at h; obtain ⟨-, rfl⟩ := h; rfl
  | cons x w ih =>
    simp only [run, Option.bind_eq_some_iff, Option.map_eq_some_iff, Prod.mk.injEq] at h
    obtain ⟨⟨s1, o1⟩, h1, ⟨s2, o2⟩, h2, -, rfl⟩ := h
    have a := ih _ _ h1
    have b' := act_nspin x o1 s2 o2 h2 b
    simp only [List.countP_cons]
    cases hx : (x.cre && x.beta == b) <;> cases hy : (!x.cre && x.beta == b) <;>
      simp only [hx, hy, Bool.toNat_false, Bool.toNat_true, if_true, Bool.false_eq_true, if_false] at b' ⊢ <;> omega

/-- A determinant has definite numbers of electrons. -/
theorem detE_conserves (occ : Nat → List Bool) : Conserves (detE occ) := by
  intro f w b hne
  unfold detE
  cases h : run w (occ f) with
  | none => rfl
  | some y =>
    obtain ⟨s, o⟩ := y
    dsimp only
    rw [if_neg]
    rintro rfl
    have := run_nspin w _ s _ h b
    omega

theorem count_take_set (l : List Bool) (i k : Nat) (v : Bool) (hi : l[i]? = some (!v)) :
    ((l.set i v).take k).count true + (if i < k ∧ v = false then 1 else 0) =
      (l.take k).count true + (if i < k ∧ v = true then 1 else 0) := by
  induction l generalizing i k with
  | nil => simp at hi
  | cons x l ih =>
    cases k with
    | zero => simp
    | succ k =>
      cases i with
      | zero =>
        simp only [List.getElem?_cons_zero, Option.some.injEq] at hi
        subst hi
        cases v <;> simp
      | succ i =>
        simp only [List.getElem?_cons_succ] at hi
        have := ih i k hi
        simp only [List.set_cons_succ, List.take_succ_cons, List.count_cons, Nat.add_lt_add_iff_right]
        omega

/-- Two operators of the same kind anticommute. -/
theorem act_act (x y : Op) (hxy : x.cre = y.cre) (occ : List Bool) :
    ((act y occ).bind fun u => (act x u.2).map fun z => (z.1 * u.1, z.2)) =
      ((act x occ).bind fun u => (act y u.2).map fun z => (-(z.1 * u.1), z.2)) := by
  by_cases hs : x.so = y.so
  · have h1 : ∀ a b : Op, a.so = b.so → a.cre = b.cre → ∀ s o, act b occ = some (s, o) → act a o = none := by
      intro a b h h' s o hb
      unfold act at hb ⊢
      split_ifs at hb with hk
      simp only [Option.some.injEq, Prod.mk.injEq] at hb
      obtain ⟨-, rfl⟩ := hb
      rw [if_neg]
      rw [h, h', List.getElem?_set]
      have : b.so < occ.length := by
        by_contra hn
        rw [List.getElem?_eq_none (by omega)] at hk
        cases hk
      simp [this]
    cases hy : act y occ with
    | none =>
      cases hx : act x occ with
      | none => rfl
      | some u => obtain ⟨s, o⟩ := u; simp [h1 y x hs.symm hxy.symm s o hx]
    | some u =>
      obtain ⟨s, o⟩ := u
      cases hx : act x occ with
      | none => simp [h1 x y hs hxy s o hy]
      | some u' => obtain ⟨s', o'⟩ := u'; simp [h1 x y hs hxy s o hy, h1 y x hs.symm hxy.symm s' o' hx]
  · have hs' : ¬ y.so = x.so := fun e => hs e.symm
    unfold act
    by_cases hx : occ[x.so]? = some (!x.cre) <;> by_cases hy : occ[y.so]? = some (!y.cre)
    · have cx := count_take_set occ x.so y.so x.cre hx
      have cy := count_take_set occ y.so x.so y.cre hy
      simp only [hx, hy, if_true, Option.bind_some, List.getElem?_set, hs, hs', if_false, Option.map_some, Option.some.injEq,
        Prod.mk.injEq]
      refine ⟨?_, List.set_comm _ _ hs'⟩
      rw [← pow_add, ← pow_add]
      generalize ((occ.set y.so y.cre).take x.so).count true = A at *
      generalize ((occ.set x.so x.cre).take y.so).count true = B at *
      generalize (occ.take x.so).count true = cx0 at *
      generalize (occ.take y.so).count true = cy0 at *
      have odd : ∀ m n : Nat, m = n + 1 ∨ n = m + 1 → (-1 : Int) ^ m = -(-1) ^ n := by
        rintro m n (rfl | rfl) <;> rw [pow_succ] <;> ring
      apply odd
      rcases Nat.lt_or_gt_of_ne hs with h | h
      · have h' : ¬ y.so < x.so := by omega
        rw [hxy] at cx
        cases hv : y.cre <;> simp [h, h', hv] at cx cy <;> omega
      · have h' : ¬ x.so < y.so := by omega
        cases hv : y.cre <;> simp [h, h', hv] at cx cy <;> omega
    · simp [hx, hy, List.getElem?_set, hs, hs']
    · simp [hx, hy, List.getElem?_set, hs, hs']
    · simp [hx, hy]

/-- Creation operators anticommute in a determinant, and so do destruction operators. -/
theorem detE_anticommutes (occ : Nat → List Bool) : Anticommutes (detE occ) := by
  intro f w x y w' hxy
  have key : ∀ w, run (w ++ x :: y :: w') (occ f) = (run (w ++ y :: x :: w') (occ f)).map fun z => (-z.1, z.2) := by
    intro w
    induction w with
    | nil =>
      simp only [List.nil_append, run]
      cases h : run w' (occ f) with
      | none => rfl
      | some u =>
        obtain ⟨s, o⟩ := u
        have := act_act x y hxy o
        simp only [Option.bind_some]
        cases hy : act y o with
        | none =>
          rw [hy] at this
          cases hx : act x o with
          | none => rfl
          | some a =>
            rw [hx] at this
            simp only [Option.bind_none, Option.bind_some] at this
            have h2 := this.symm
            rw [Option.map_eq_none_iff] at h2
            simp [h2]
        | some a =>
          rw [hy] at this
          cases hx : act x o with
          | none =>
            rw [hx] at this
            simp only [Option.bind_none, Option.bind_some] at this
            rw [Option.map_eq_none_iff] at this
            simp [this]
          | some b =>
            rw [hx] at this
            simp only [Option.bind_some] at this
            simp only [Option.map_some, Option.bind_some]
            cases ha : act x a.2 with
            | none =>
              rw [ha] at this
              have h2 := this.symm
              simp only [Option.map_none] at h2
              rw [Option.map_eq_none_iff] at h2
              simp [h2]
            | some c =>
              rw [ha] at this
              cases hb : act y b.2 with
              | none => rw [hb] at this; cases this
              | some d =>
                rw [hb] at this
                simp only [Option.map_some, Option.some.injEq, Prod.mk.injEq] at this ⊢
                refine ⟨?_, this.2⟩
                rw [← mul_assoc, this.1]
                ring
    | cons z w ih =>
      simp only [List.cons_append, run, ih]
      cases run (w ++ y :: x :: w') (occ f) with
      | none => rfl
      | some u =>
        simp only [Option.map_some, Option.bind_some, Option.map_map]
        cases act z u.2 with
        | none => rfl
        | some v => simp
  unfold detE
  rw [key w]
  cases run (w ++ y :: x :: w') (occ f) with
  | none => rfl
  | some u =>
    obtain ⟨s, o⟩ := u
    simp only [Option.map_some]
    split <;> simp

/-- The one-body density matrix of a determinant is diagonal. -/
theorem detE_offdiag (occ : Nat → List Bool) (f : Nat) (s : Bool) (p q : Nat × Nat) (h : p.2 ≠ q.2) :
    detE occ f (word1 s p q) = 0 := by
  unfold detE
  cases hr : run (word1 s p q) (occ f) with
  | none => rfl
  | some y =>
    obtain ⟨sg, o⟩ := y
    dsimp only
    rw [if_neg]
    rintro rfl
    simp only [word1, c, d, run, Option.bind_some, Option.bind_eq_some_iff, Option.map_eq_some_iff, Prod.mk.injEq] at hr
    obtain ⟨⟨s1, o1⟩, ⟨⟨s0, o0⟩, h0, -, rfl⟩, ⟨s2, o2⟩, h2, -, hh⟩ := hr
    dsimp only at h2 hh
    subst hh
    unfold act at h0 h2
    split_ifs at h0 with k0
    split_ifs at h2 with k2
    simp only [Option.some.injEq, Prod.mk.injEq] at h0 h2
    have hne : ¬ (2 * q.2 + s.toNat) = 2 * p.2 + s.toNat := by omega
    simp only [Op.so] at k0 k2 h0 h2
    rw [← h0.2, List.getElem?_set, if_neg hne] at k2
    have h3 : (occ f)[2 * p.2 + s.toNat]? = some true := by
      have hlt : 2 * p.2 + s.toNat < (occ f).length := by
        by_contra hn
        rw [List.getElem?_eq_none (by omega)] at k2
        cases k2
      have hlt' : 2 * p.2 + s.toNat < o0.length := by rw [← h0.2, List.length_set]; exact hlt
      rw [← h2.2]
      simp [List.getElem?_set, hlt']
    rw [h3] at k2
    simp at k2

theorem detE_sym (occ : Nat → List Bool) (f : Nat) (s : Bool) (a b : Nat) :
    detE occ f (word1 s (f, a) (f, b)) = detE occ f (word1 s (f, b) (f, a)) := by
  by_cases h : a = b
  · rw [h]
  · rw [detE_offdiag occ f s (f, a) (f, b) h, detE_offdiag occ f s (f, b) (f, a) (fun e => h e.symm)]

end Verif.Spec.ProdRdm
