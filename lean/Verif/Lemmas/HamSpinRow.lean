import Verif.Model.HamSpin
import Verif.Lemmas.SpinReduce
import Mathlib.Algebra.BigOperators.Ring.Finset
import Mathlib.Algebra.BigOperators.Field
import Mathlib.Tactic.Ring
import Mathlib.Tactic.LinearCombination
/-! The operators of a row for one member of a group of rows that share arrays. -/
namespace Verif.HamSpin
open Verif.Lstdm Finset

/-- Change of the numbers of electrons by an annihilator. -/
def dH (s : Nat) : ℤ × ℤ := if s = 0 then (-1, 0) else (0, -1)

/-- The entries `A` of a fragment for the states `b`, `c` are those of `B` for the states `b'`, `c'` multiplied with `κ`, and with `κ` and
`μ` where spin matters. -/
structure Reduces (n : Nat) (A B : FragInt ℝ) (b c b' c' : Nat) (d : ℤ × ℤ) (κ μ : ℝ) : Prop where
  h : ∀ s < 2, d = dH s → ∀ x, A.get1H b c s x = B.get1H b' c' s x * κ
  p : ∀ s < 2, d = -dH s → ∀ x, A.get1P b c s x = B.get1P b' c' s x * κ
  phh : ∀ s < 2, d = dH s → ∀ x y z, ∑ t ∈ range 2, A.get1Phh b c s t x y z = (∑ t ∈ range 2, B.get1Phh b' c' s t x y z) * κ
  pph : ∀ s < 2, d = -dH s → ∀ x y z, ∑ t ∈ range 2, A.get1Pph b c s t x y z = (∑ t ∈ range 2, B.get1Pph b' c' s t x y z) * κ
  hh : ∀ s, (s = 0 ∧ d = (-2, 0)) ∨ (s = 2 ∧ d = (0, -2)) → ∀ x y, A.get1Hh b c s x y = B.get1Hh b' c' s x y * κ
  pp : ∀ s, (s = 0 ∧ d = (2, 0)) ∨ (s = 2 ∧ d = (0, 2)) → ∀ x y, A.get1Pp b c s x y = B.get1Pp b' c' s x y * κ
  hhS : d = (-1, -1) → ∀ x y, A.get1Hh b c 1 x y + A.get1Hh b c 1 y x = (B.get1Hh b' c' 1 x y + B.get1Hh b' c' 1 y x) * κ
  hhA : d = (-1, -1) → ∀ x < n, ∀ y < n,
    A.get1Hh b c 1 x y - A.get1Hh b c 1 y x = (B.get1Hh b' c' 1 x y - B.get1Hh b' c' 1 y x) * κ * μ
  ppS : d = (1, 1) → ∀ x y, A.get1Pp b c 1 x y + A.get1Pp b c 1 y x = (B.get1Pp b' c' 1 x y + B.get1Pp b' c' 1 y x) * κ
  ppA : d = (1, 1) → ∀ x < n, ∀ y < n,
    A.get1Pp b c 1 x y - A.get1Pp b c 1 y x = (B.get1Pp b' c' 1 x y - B.get1Pp b' c' 1 y x) * κ * μ
  sm : d = (-1, 1) → ∀ x y, A.get1Sm b c x y = B.get1Sm b' c' x y * κ
  sp : d = (1, -1) → ∀ x y, A.get1Sp b c x y = B.get1Sp b' c' x y * κ
  ch : d = (0, 0) → ∀ x y, cs (A.get1Dm1 b c) 0 x y = cs (B.get1Dm1 b' c') 0 x y * κ
  sn : d = (0, 0) → ∀ x < n, ∀ y < n, cs (A.get1Dm1 b c) 1 x y = cs (B.get1Dm1 b' c') 1 x y * κ * μ
  dd : d = (0, 0) → ∀ x < n, ∀ y < n, ∀ z < n, ∀ w < n,
    ∑ st ∈ range 4, A.get1Dm2 b c st x y z w = (∑ st ∈ range 4, B.get1Dm2 b' c' st x y z w) * κ
  ss : d = (0, 0) → ∑ p ∈ range n, ∑ r ∈ range n,
      ((A.get1Dm2 b c 0 p p r r + A.get1Dm2 b c 3 p p r r - A.get1Dm2 b c 1 p p r r - A.get1Dm2 b c 2 p p r r) / 4 -
        (A.get1Dm2 b c 1 p r r p + A.get1Dm2 b c 2 p r r p) / 2) =
    (∑ p ∈ range n, ∑ r ∈ range n,
      ((B.get1Dm2 b' c' 0 p p r r + B.get1Dm2 b' c' 3 p p r r - B.get1Dm2 b' c' 1 p p r r - B.get1Dm2 b' c' 2 p p r r) / 4 -
        (B.get1Dm2 b' c' 1 p r r p + B.get1Dm2 b' c' 2 p r r p) / 2)) * κ

/-- `reduce_spin` with factors `κ` and `μ` of the fragments. -/
def redOf (κ μ : Nat → ℝ) (o : OpTerm) : ℝ :=
  (match o.comp with
    | none => o.arr.getD 0 0
    | some comp => ((o.arr.zip comp).map fun x => x.1 * ((o.ints.zip x.2).map fun y => if y.2 = 0 then 1 else μ y.1).prod).sum) *
  (o.ints.map κ).prod

/-- Both operators of a row. -/
def redPair (κ μ : Nat → ℝ) (v : OpTerm × Option OpTerm) : ℝ × Option ℝ := (redOf κ μ v.1, v.2.map (redOf κ μ))

theorem redOf_plain (κ μ : Nat → ℝ) (l : List Nat) (x : ℝ) : redOf κ μ (plain l x) = x * (l.map κ).prod := rfl

/-- A sum of products of two matrices. -/
def S2 (n m : Nat) (P g : Nat → Nat → ℝ) : ℝ := ∑ x ∈ range n, ∑ y ∈ range m, P x y * g x y

/-- The sums with matrices of a kind differ by a factor. -/
def Transfer (ok : (Nat → Nat → ℝ) → Prop) (n m : Nat) (P P' : Nat → Nat → ℝ) (a : ℝ) : Prop := ∀ g, ok g → S2 n m P g = S2 n m P' g * a

theorem Transfer.scale {ok} {n m : Nat} {P P' : Nat → Nat → ℝ} {a : ℝ} (h : ∀ x y, P x y = P' x y * a) : Transfer ok n m P P' a := by
  intro g _
  unfold S2
  rw [sum_mul]
  refine sum_congr rfl fun x _ => ?_
  rw [sum_mul]
  refine sum_congr rfl fun y _ => ?_
  rw [h]; ring

def IsSym (g : Nat → Nat → ℝ) : Prop := ∀ x y, g y x = g x y
def IsAnti (g : Nat → Nat → ℝ) : Prop := ∀ x y, g y x = -g x y

theorem S2_half (n : Nat) (P g : Nat → Nat → ℝ) (ε : ℝ) (hg : ∀ x y, g y x = ε * g x y) (he : ε * ε = 1) :
    S2 n n P g = ∑ x ∈ range n, ∑ y ∈ range n, (P x y + ε * P y x) / 2 * g x y := by
  have h : S2 n n P g = ∑ x ∈ range n, ∑ y ∈ range n, ε * P y x * g x y := by
    unfold S2
    rw [sum_comm]
    refine sum_congr rfl fun x _ => sum_congr rfl fun y _ => ?_
    rw [hg]; ring
  have h2 : S2 n n P g + S2 n n P g = ∑ x ∈ range n, ∑ y ∈ range n, (P x y + ε * P y x) * g x y := by
    conv_lhs => rhs; rw [h]
    unfold S2
    rw [← sum_add_distrib]
    refine sum_congr rfl fun x _ => ?_
    rw [← sum_add_distrib]
    exact sum_congr rfl fun y _ => by ring
  have h3 : ∑ x ∈ range n, ∑ y ∈ range n, (P x y + ε * P y x) / 2 * g x y =
      (∑ x ∈ range n, ∑ y ∈ range n, (P x y + ε * P y x) * g x y) / 2 := by
    rw [sum_div]
    refine sum_congr rfl fun x _ => ?_
    rw [sum_div]
    exact sum_congr rfl fun y _ => by ring
  rw [h3, ← h2]; ring

theorem Transfer.sym {n : Nat} {P P' : Nat → Nat → ℝ} {a : ℝ} (h : ∀ x < n, ∀ y < n, P x y + P y x = (P' x y + P' y x) * a) :
    Transfer IsSym n n P P' a := by
  intro g hg
  rw [S2_half n P g 1 (fun x y => by rw [hg]; ring) (by ring), S2_half n P' g 1 (fun x y => by rw [hg]; ring) (by ring), sum_mul]
  refine sum_congr rfl fun x hx => ?_
  rw [sum_mul]
  refine sum_congr rfl fun y hy => ?_
  have := h x (mem_range.1 hx) y (mem_range.1 hy)
  linear_combination (g x y / 2) * this

theorem Transfer.anti {n : Nat} {P P' : Nat → Nat → ℝ} {a : ℝ} (h : ∀ x < n, ∀ y < n, P x y - P y x = (P' x y - P' y x) * a) :
    Transfer IsAnti n n P P' a := by
  intro g hg
  rw [S2_half n P g (-1) (fun x y => by rw [hg]; ring) (by ring), S2_half n P' g (-1) (fun x y => by rw [hg]; ring) (by ring), sum_mul]
  refine sum_congr rfl fun x hx => ?_
  rw [sum_mul]
  refine sum_congr rfl fun y hy => ?_
  have := h x (mem_range.1 hx) y (mem_range.1 hy)
  linear_combination (g x y / 2) * this

/-- Both pairs of operators. -/
theorem transfer_both {ok ok' : (Nat → Nat → ℝ) → Prop} {n m n' m' : Nat} {P P' Q Q' : Nat → Nat → ℝ} {a a' : ℝ}
    (hP : Transfer ok n m P P' a) (hQ : Transfer ok' n' m' Q Q' a') (h : Nat → Nat → Nat → Nat → ℝ) (h1 : ∀ z w, ok (h z w))
    (h2 : ok' (fun z w => S2 n m P' (h z w))) :
    S2 n' m' Q (fun z w => S2 n m P (h z w)) = S2 n' m' Q' (fun z w => S2 n m P' (h z w)) * (a' * a) := by
  have e : (fun z w => S2 n m P (h z w)) = fun z w => S2 n m P' (h z w) * a := by
    funext z w; exact hP _ (h1 z w)
  rw [e]
  have e2 : S2 n' m' Q (fun z w => S2 n m P' (h z w) * a) = S2 n' m' Q (fun z w => S2 n m P' (h z w)) * a := by
    unfold S2
    rw [sum_mul]
    refine sum_congr rfl fun z _ => ?_
    rw [sum_mul]
    exact sum_congr rfl fun w _ => by ring
  rw [e2, hQ _ h2]; ring

variable {lo hi : Lstdm ℝ} {H : Ham ℝ} {b c b' c' : Nat} {κ μ : Nat → ℝ} {D : Nat → ℤ × ℤ}

/-- The fragment `f` of the row. -/
abbrev Red (lo hi : Lstdm ℝ) (b c b' c' : Nat) (κ μ : Nat → ℝ) (D : Nat → ℤ × ℤ) (f : Nat) : Prop :=
  Reduces (lo.no f) (lo.ints f) (hi.ints f) b c b' c' (D f) (κ f) (μ f)

theorem no_eq (hn : hi.nlas = lo.nlas) (f : Nat) : hi.no f = lo.no f := by unfold Lstdm.no; rw [hn]

theorem row_d1 (hn : hi.nlas = lo.nlas) (h1 : H.h1 1 = H.h1 0) {i : Nat} (hi' : Red lo hi b c b' c' κ μ D i) (hd : D i = (0, 0)) :
    (opRow hi H b' c' (.d1 i)).map (redPair κ μ) = lo.hamRow H b c (.d1 i) := by
  have eham : ∀ (L : Lstdm ℝ) (b c : Nat), L.ham1d H b c i = some
      ((∑ y ∈ range (L.no i), ∑ x ∈ range (L.no i), cs ((L.ints i).get1Dm1 b c) 0 x y * H.two L.nlas i i 0 y x) +
        (∑ p ∈ range (L.no i), ∑ q ∈ range (L.no i), ∑ r ∈ range (L.no i), ∑ s ∈ range (L.no i),
          (∑ st ∈ range 4, (L.ints i).get1Dm2 b c st q p s r) * H.four L.nlas i i i i p q r s) * (1 / 2),
       some (3 * (∑ x ∈ range (L.no i), cs ((L.ints i).get1Dm1 b c) 0 x x) / 4 + ∑ p ∈ range (L.no i), ∑ r ∈ range (L.no i),
        (((L.ints i).get1Dm2 b c 0 p p r r + (L.ints i).get1Dm2 b c 3 p p r r - (L.ints i).get1Dm2 b c 1 p p r r -
            (L.ints i).get1Dm2 b c 2 p p r r) / 4 - ((L.ints i).get1Dm2 b c 1 p r r p + (L.ints i).get1Dm2 b c 2 p r r p) / 2))) := by
    intro L b c
    unfold Lstdm.ham1d
    dsimp only
    congr 2
    · congr 1
      rw [sum_range_succ, sum_range_one, ← sum_add_distrib]
      refine sum_congr rfl fun y _ => ?_
      rw [← sum_add_distrib]
      refine sum_congr rfl fun x _ => ?_
      unfold Ham.two cs
      rw [h1]; simp; ring
    · congr 1
      rw [sum_range_succ, sum_range_one]
      simp only [sum_sub_distrib, ← sum_div, sum_add_distrib, cs]
      simp only [sum_add_distrib, if_true]
      ring
  show Option.map _ (op1d hi H b' c' i) = lo.ham1d H b c i
  unfold op1d
  rw [eham, eham, no_eq hn, hn]
  simp only [Option.map_some, redPair, redOf_plain, List.map_cons, List.map_nil, List.prod_cons, List.prod_nil, mul_one, Option.some.injEq,
    Prod.mk.injEq]
  constructor
  · rw [add_mul, sum_mul, mul_right_comm, sum_mul]
    congr 1
    · refine sum_congr rfl fun y _ => ?_
      rw [sum_mul]
      refine sum_congr rfl fun x _ => ?_
      rw [hi'.ch hd]; ring
    · congr 1
      refine sum_congr rfl fun p hp => ?_
      rw [sum_mul]
      refine sum_congr rfl fun q hq => ?_
      rw [sum_mul]
      refine sum_congr rfl fun r hr => ?_
      rw [sum_mul]
      refine sum_congr rfl fun s hs => ?_
      rw [hi'.dd hd q (mem_range.1 hq) p (mem_range.1 hp) s (mem_range.1 hs) r (mem_range.1 hr)]; ring
  · rw [hi'.ss hd, add_mul]
    congr 1
    have : ∑ x ∈ range (lo.no i), cs ((lo.ints i).get1Dm1 b c) 0 x x = (∑ x ∈ range (lo.no i), cs ((hi.ints i).get1Dm1 b' c') 0 x x) * κ i := by
      rw [sum_mul]
      exact sum_congr rfl fun x _ => hi'.ch hd x x
    rw [this]; ring

/-- Two components. -/
theorem redOf_comp (κ μ : Nat → ℝ) (l : List Nat) (x y : ℝ) (c0 c1 : List Nat) : redOf κ μ ⟨[x, y], l, some [c0, c1]⟩ =
    (x * ((l.zip c0).map fun y => if y.2 = 0 then 1 else μ y.1).prod + y * ((l.zip c1).map fun y => if y.2 = 0 then 1 else μ y.1).prod) *
      (l.map κ).prod := by
  simp [redOf]

theorem row_d2 (hn : hi.nlas = lo.nlas) {i j : Nat} (ri : Red lo hi b c b' c' κ μ D i) (rj : Red lo hi b c b' c' κ μ D j)
    (di : D i = (0, 0)) (dj : D j = (0, 0)) :
    (opRow hi H b' c' (.d2 i j)).map (redPair κ μ) = lo.hamRow H b c (.d2 i j) := by
  show Option.map _ (op2d hi H b' c' i j) = lo.ham2d H b c i j
  unfold op2d Lstdm.ham2d
  dsimp only
  rw [no_eq hn, no_eq hn, hn]
  simp only [Option.map_some, redPair, redOf_comp, List.zip_cons_cons, List.zip_nil_right, List.map_cons, List.map_nil, List.prod_cons,
    List.prod_nil, mul_one, one_ne_zero, if_true, if_false, Option.some.injEq, Prod.mk.injEq]
  have E0 : ∀ g : Nat → Nat → Nat → Nat → ℝ, ∑ x ∈ range (lo.no j), ∑ y ∈ range (lo.no j), cs ((lo.ints j).get1Dm1 b c) 0 x y *
      (∑ a ∈ range (lo.no i), ∑ e ∈ range (lo.no i), cs ((lo.ints i).get1Dm1 b c) 0 a e * g x y a e) =
      (∑ x ∈ range (lo.no j), ∑ y ∈ range (lo.no j), cs ((hi.ints j).get1Dm1 b' c') 0 x y *
      (∑ a ∈ range (lo.no i), ∑ e ∈ range (lo.no i), cs ((hi.ints i).get1Dm1 b' c') 0 a e * g x y a e)) * (κ i * κ j) := by
    intro g
    simp only [ri.ch di, rj.ch dj, mul_sum, sum_mul]
    refine sum_congr rfl fun x _ => sum_congr rfl fun y _ => sum_congr rfl fun a _ => sum_congr rfl fun e _ => ?_
    ring
  have E1 : ∀ g : Nat → Nat → Nat → Nat → ℝ, ∑ x ∈ range (lo.no j), ∑ y ∈ range (lo.no j), cs ((lo.ints j).get1Dm1 b c) 1 x y *
      (∑ a ∈ range (lo.no i), ∑ e ∈ range (lo.no i), cs ((lo.ints i).get1Dm1 b c) 1 a e * g x y a e) =
      (∑ x ∈ range (lo.no j), ∑ y ∈ range (lo.no j), cs ((hi.ints j).get1Dm1 b' c') 1 x y *
      (∑ a ∈ range (lo.no i), ∑ e ∈ range (lo.no i), cs ((hi.ints i).get1Dm1 b' c') 1 a e * g x y a e)) * (μ i * μ j * (κ i * κ j)) := by
    intro g
    simp only [mul_sum, sum_mul]
    refine sum_congr rfl fun x hx => sum_congr rfl fun y hy => sum_congr rfl fun a ha => sum_congr rfl fun e he => ?_
    rw [ri.sn di a (mem_range.1 ha) e (mem_range.1 he), rj.sn dj x (mem_range.1 hx) y (mem_range.1 hy)]
    ring
  have T : ∀ f, Red lo hi b c b' c' κ μ D f → D f = (0, 0) → ∑ a ∈ range (lo.no f), cs ((lo.ints f).get1Dm1 b c) 1 a a =
      (∑ a ∈ range (lo.no f), cs ((hi.ints f).get1Dm1 b' c') 1 a a) * (κ f * μ f) := by
    intro f rf df
    rw [sum_mul]
    refine sum_congr rfl fun a ha => ?_
    rw [rf.sn df a (mem_range.1 ha) a (mem_range.1 ha)]; ring
  constructor
  · rw [E0 (fun x y a e => H.four lo.nlas j j i i y x e a), E0 (fun x y a e => H.four lo.nlas j i i j y a e x / 2),
      E1 (fun x y a e => H.four lo.nlas j i i j y a e x / 2)]
    ring
  · rw [T i ri di, T j rj dj]
    congr 1
    ring

theorem row_c1 (hn : hi.nlas = lo.nlas) {i j s : Nat} (hs : s < 2) (ri : Red lo hi b c b' c' κ μ D i) (rj : Red lo hi b c b' c' κ μ D j)
    (di : D i = -dH s) (dj : D j = dH s) (g1 : Signs.fermionDesShuffle (hi.nelecF b') [i, j] i = Signs.fermionDesShuffle (lo.nelecF b) [i, j] i)
    (g2 : Signs.fermionDesShuffle (hi.nelecF c') [i, j] j = Signs.fermionDesShuffle (lo.nelecF c) [i, j] j) :
    (opRow hi H b' c' (.c1 i j s)).map (redPair κ μ) = lo.hamRow H b c (.c1 i j s) := by
  show Option.map _ (op1c hi H b' c' i j s) = lo.ham1c H b c i j s
  unfold op1c Lstdm.ham1c
  dsimp only
  rw [no_eq hn, no_eq hn, hn, g1, g2, Option.map_map]
  cases Signs.fermionDesShuffle (lo.nelecF b) [i, j] i with
  | none => rfl
  | some f1 =>
  cases Signs.fermionDesShuffle (lo.nelecF c) [i, j] j with
  | none => rfl
  | some f2 =>
  simp only [Option.bind_eq_bind, Option.bind_some, Option.pure_def, Option.map_some, Function.comp, redPair, redOf_plain, List.map_cons,
    List.map_nil, List.prod_cons, List.prod_nil, mul_one, Option.map_none, Option.some.injEq, Prod.mk.injEq, and_true]
  simp only [ri.p s hs di, ri.pph s hs di, rj.h s hs dj, rj.phh s hs dj]
  rw [mul_right_comm]
  congr 1
  rw [add_mul, add_mul]
  congr 1
  · congr 1
    · simp only [mul_sum, sum_mul]
      refine sum_congr rfl fun y _ => sum_congr rfl fun x _ => ?_
      ring
    · generalize hG : (fun x y z => ∑ t ∈ range 2, (hi.ints i).get1Pph b' c' s t x y z) = G
      have hG' : ∀ x y z, ∑ t ∈ range 2, (hi.ints i).get1Pph b' c' s t x y z = G x y z := fun x y z => by rw [← hG]
      simp only [hG', mul_sum, sum_mul]
      refine sum_congr rfl fun y _ => sum_congr rfl fun x _ => sum_congr rfl fun z _ => sum_congr rfl fun w _ => ?_
      ring
  · generalize hG : (fun x y z => ∑ t ∈ range 2, (hi.ints j).get1Phh b' c' s t x y z) = G
    have hG' : ∀ x y z, ∑ t ∈ range 2, (hi.ints j).get1Phh b' c' s t x y z = G x y z := fun x y z => by rw [← hG]
    simp only [hG', mul_sum, sum_mul]
    refine sum_congr rfl fun y _ => sum_congr rfl fun x _ => sum_congr rfl fun z _ => sum_congr rfl fun w _ => ?_
    ring

theorem row_c1d1 (hn : hi.nlas = lo.nlas) {i j k s : Nat} (hs : s < 2) (ri : Red lo hi b c b' c' κ μ D i)
    (rj : Red lo hi b c b' c' κ μ D j) (rk : Red lo hi b c b' c' κ μ D k) (di : D i = -dH s) (dj : D j = dH s) (dk : D k = (0, 0))
    (g1 : Signs.fermionDesShuffle (hi.nelecF b') [i, j, k] i = Signs.fermionDesShuffle (lo.nelecF b) [i, j, k] i)
    (g2 : Signs.fermionDesShuffle (hi.nelecF c') [i, j, k] j = Signs.fermionDesShuffle (lo.nelecF c) [i, j, k] j) :
    (opRow hi H b' c' (.c1d1 i j k s)).map (redPair κ μ) = lo.hamRow H b c (.c1d1 i j k s) := by
  show Option.map _ (op1c1d hi H b' c' i j k s) = lo.ham1c1d H b c i j k s
  unfold op1c1d Lstdm.ham1c1d
  dsimp only
  rw [no_eq hn, no_eq hn, no_eq hn, hn, g1, g2]
  cases Signs.fermionDesShuffle (lo.nelecF b) [i, j, k] i with
  | none => rfl
  | some f1 =>
  cases Signs.fermionDesShuffle (lo.nelecF c) [i, j, k] j with
  | none => rfl
  | some f2 =>
  simp only [Option.bind_eq_bind, Option.bind_some, Option.pure_def, Option.map_some, redPair, redOf_comp, List.zip_cons_cons,
    List.zip_nil_right, List.map_cons, List.map_nil, List.prod_cons, List.prod_nil, mul_one, one_mul, one_ne_zero, if_true, if_false,
    Option.map_none, Option.some.injEq, Prod.mk.injEq, and_true]
  have P0 : ∀ g : Nat → Nat → Nat → Nat → ℝ, ∀ z w, ∑ y ∈ range (lo.no j), (lo.ints j).get1H b c s y *
      ∑ x ∈ range (lo.no i), (lo.ints i).get1P b c s x * g z w y x =
      (∑ y ∈ range (lo.no j), (hi.ints j).get1H b' c' s y * ∑ x ∈ range (lo.no i), (hi.ints i).get1P b' c' s x * g z w y x) * (κ i * κ j) := by
    intro g z w
    simp only [ri.p s hs di, rj.h s hs dj, mul_sum, sum_mul]
    refine sum_congr rfl fun y _ => sum_congr rfl fun x _ => ?_
    ring
  simp only [P0 (fun z w y x => H.four lo.nlas k k j i z w y x), P0 (fun z w y x => H.four lo.nlas j k k i y z w x)]
  generalize (fun z w => ∑ y ∈ range (lo.no j), (hi.ints j).get1H b' c' s y * ∑ x ∈ range (lo.no i), (hi.ints i).get1P b' c' s x *
    H.four lo.nlas k k j i z w y x) = G at *
  have A0 : ∀ g : Nat → Nat → ℝ, ∑ a ∈ range (lo.no k), ∑ e ∈ range (lo.no k), cs ((lo.ints k).get1Dm1 b c) 0 a e * (g a e * (κ i * κ j)) =
      (∑ a ∈ range (lo.no k), ∑ e ∈ range (lo.no k), cs ((hi.ints k).get1Dm1 b' c') 0 a e * g a e) * (κ i * (κ j * κ k)) := by
    intro g
    simp only [rk.ch dk, sum_mul]
    refine sum_congr rfl fun y _ => sum_congr rfl fun x _ => ?_
    ring
  have A1 : ∀ g : Nat → Nat → ℝ, ∑ a ∈ range (lo.no k), ∑ e ∈ range (lo.no k), cs ((lo.ints k).get1Dm1 b c) 0 a e / 2 * (g a e * (κ i * κ j)) =
      (∑ a ∈ range (lo.no k), ∑ e ∈ range (lo.no k), cs ((hi.ints k).get1Dm1 b' c') 0 a e / 2 * g a e) * (κ i * (κ j * κ k)) := by
    intro g
    simp only [rk.ch dk, sum_mul]
    refine sum_congr rfl fun y _ => sum_congr rfl fun x _ => ?_
    ring
  have A2 : ∀ g : Nat → Nat → ℝ, ∑ a ∈ range (lo.no k), ∑ e ∈ range (lo.no k),
      cs ((lo.ints k).get1Dm1 b c) 1 a e * (-1) ^ s / 2 * (g a e * (κ i * κ j)) =
      (∑ a ∈ range (lo.no k), ∑ e ∈ range (lo.no k), cs ((hi.ints k).get1Dm1 b' c') 1 a e * (-1) ^ s / 2 * g a e) *
        (μ k * (κ i * (κ j * κ k))) := by
    intro g
    simp only [sum_mul]
    refine sum_congr rfl fun y hy => sum_congr rfl fun x hx => ?_
    rw [rk.sn dk y (mem_range.1 hy) x (mem_range.1 hx)]
    ring
  rw [A0 (fun a e => ∑ y ∈ range (lo.no j), (hi.ints j).get1H b' c' s y * ∑ x ∈ range (lo.no i), (hi.ints i).get1P b' c' s x *
    H.four lo.nlas k k j i e a y x), A1, A2]
  ring

theorem row_s1 (hn : hi.nlas = lo.nlas) {i j : Nat} (ri : Red lo hi b c b' c' κ μ D i) (rj : Red lo hi b c b' c' κ μ D j)
    (di : D i = (1, -1)) (dj : D j = (-1, 1)) :
    (opRow hi H b' c' (.s1 i j)).map (redPair κ μ) = lo.hamRow H b c (.s1 i j) := by
  show Option.map _ (op1s hi H b' c' i j) = lo.ham1s H b c i j
  unfold op1s Lstdm.ham1s
  dsimp only
  rw [no_eq hn, no_eq hn, hn]
  simp only [Option.map_some, redPair, redOf_plain, List.map_cons, List.map_nil, List.prod_cons, List.prod_nil, mul_one, Option.some.injEq,
    Prod.mk.injEq, ri.sp di, rj.sm dj]
  constructor
  · simp only [mul_sum, sum_mul]
    refine sum_congr rfl fun x _ => sum_congr rfl fun y _ => sum_congr rfl fun z _ => sum_congr rfl fun w _ => ?_
    ring
  · simp only [← sum_mul]
    ring

theorem row_s1c1 (hn : hi.nlas = lo.nlas) {i j k s : Nat} (hs : s < 2) (ri : Red lo hi b c b' c' κ μ D i)
    (rj : Red lo hi b c b' c' κ μ D j) (rk : Red lo hi b c b' c' κ μ D k) (di : D i = -dH s) (dj : D j = dH (1 - s))
    (dk : D k = if s = 0 then (-1, 1) else (1, -1))
    (g1 : Signs.fermionDesShuffle (hi.nelecF b') [i, j, k] i = Signs.fermionDesShuffle (lo.nelecF b) [i, j, k] i)
    (g2 : Signs.fermionDesShuffle (hi.nelecF c') [i, j, k] j = Signs.fermionDesShuffle (lo.nelecF c) [i, j, k] j) :
    (opRow hi H b' c' (.s1c1 i j k s)).map (redPair κ μ) = lo.hamRow H b c (.s1c1 i j k s) := by
  show Option.map _ (op1s1c hi H b' c' i j k s) = lo.ham1s1c H b c i j k s
  unfold op1s1c Lstdm.ham1s1c
  dsimp only
  rw [no_eq hn, no_eq hn, no_eq hn, hn, g1, g2, Option.map_map]
  cases Signs.fermionDesShuffle (lo.nelecF b) [i, j, k] i with
  | none => rfl
  | some f1 =>
  cases Signs.fermionDesShuffle (lo.nelecF c) [i, j, k] j with
  | none => rfl
  | some f2 =>
  simp only [Option.bind_eq_bind, Option.bind_some, Option.pure_def, Option.map_some, Function.comp, redPair, redOf_plain, List.map_cons,
    List.map_nil, List.prod_cons, List.prod_nil, mul_one, Option.map_none, Option.some.injEq, Prod.mk.injEq, and_true]
  have hk : ∀ x y, (if s = 0 then (lo.ints k).get1Sm b c else (lo.ints k).get1Sp b c) x y =
      (if s = 0 then (hi.ints k).get1Sm b' c' else (hi.ints k).get1Sp b' c') x y * κ k := by
    intro x y
    by_cases h : s = 0
    · rw [if_pos h, if_pos h]; exact rk.sm (by rw [dk, if_pos h]) x y
    · rw [if_neg h, if_neg h]; exact rk.sp (by rw [dk, if_neg h]) x y
  simp only [hk, ri.p s hs di, rj.h (1 - s) (by omega) dj]
  rw [mul_right_comm]
  congr 1
  simp only [mul_sum, sum_mul]
  refine sum_congr rfl fun x _ => sum_congr rfl fun y _ => sum_congr rfl fun z _ => sum_congr rfl fun w _ => ?_
  ring

/-- The creators of a row with two transferred electrons. -/
def PP (L : Lstdm ℝ) (b c i k n s11 s12 : Nat) : Nat → Nat → ℝ :=
  if i = k then (L.ints i).get1Pp b c n else fun x y => (L.ints i).get1P b c s11 x * (L.ints k).get1P b c s12 y

/-- The annihilators. -/
def HH (L : Lstdm ℝ) (b c j l n s11 s12 : Nat) : Nat → Nat → ℝ :=
  if j = l then (L.ints j).get1Hh b c n else fun x y => (L.ints l).get1H b c s12 x * (L.ints j).get1H b c s11 y

theorem contract_eq (L : Lstdm ℝ) (b c i j k l n s11 s12 : Nat) (h : Nat → Nat → Nat → Nat → ℝ) :
    L.contract2c b c i j k l n s11 s12 h = S2 (L.no l) (L.no j) (HH L b c j l n s11 s12)
      (fun z w => S2 (L.no i) (L.no k) (PP L b c i k n s11 s12) (h z w)) := by
  have e : ∀ z w, S2 (L.no i) (L.no k) (PP L b c i k n s11 s12) (h z w) =
      (if i = k then fun z w => ∑ x ∈ Finset.range (L.no i), ∑ y ∈ Finset.range (L.no i), (L.ints i).get1Pp b c n x y * h z w x y
    else fun z w => ∑ x ∈ Finset.range (L.no i), (L.ints i).get1P b c s11 x *
      ∑ y ∈ Finset.range (L.no k), (L.ints k).get1P b c s12 y * h z w x y) z w := by
    intro z w
    unfold S2 PP
    by_cases h : i = k
    · subst h; rw [if_pos rfl, if_pos rfl]
    · rw [if_neg h, if_neg h]
      refine sum_congr rfl fun x _ => ?_
      rw [mul_sum]
      exact sum_congr rfl fun y _ => by ring
  simp only [e]
  unfold Lstdm.contract2c S2 HH
  dsimp only
  by_cases h : j = l
  · subst h; rw [if_pos rfl, if_pos rfl]
  · rw [if_neg h, if_neg h]
    refine sum_congr rfl fun x _ => ?_
    rw [mul_sum]
    exact sum_congr rfl fun y _ => by ring

/-- The factor of a pair of fragments. -/
def κ2 (κ : Nat → ℝ) (i k : Nat) : ℝ := if i = k then κ i else κ i * κ k

theorem ints_prod (κ : Nat → ℝ) (i k : Nat) (w : Bool) (c : Nat) : ((comp2c i k w c).1.map κ).prod = κ2 κ i k := by
  unfold comp2c κ2
  split_ifs <;> simp

theorem comp_prod0 (μ : Nat → ℝ) (j l i k : Nat) :
    ((((comp2c j l true 0).1 ++ (comp2c i k true 0).1).zip ((comp2c j l true 0).2 ++ (comp2c i k true 0).2)).map
      fun y => if y.2 = 0 then (1 : ℝ) else μ y.1).prod = 1 := by
  unfold comp2c
  by_cases h : j = l <;> by_cases h' : i = k <;> simp [h, h']

theorem comp_prod1 (μ : Nat → ℝ) (j l i k : Nat) :
    ((((comp2c j l true 0).1 ++ (comp2c i k true 0).1).zip ((comp2c j l true 1).2 ++ (comp2c i k true 1).2)).map
      fun y => if y.2 = 0 then (1 : ℝ) else μ y.1).prod = (if j = l then μ j else 1) * (if i = k then μ i else 1) := by
  unfold comp2c
  by_cases h : j = l <;> by_cases h' : i = k <;> simp [h, h']

def okS (i k : Nat) (g : Nat → Nat → ℝ) : Prop := i = k → IsSym g
def okA (i k : Nat) (g : Nat → Nat → ℝ) : Prop := i = k → IsAnti g

variable {i j k l : Nat}

theorem pp_same {n s : Nat} (hn : (n = 0 ∧ s = 0) ∨ (n = 2 ∧ s = 1)) (ri : Red lo hi b c b' c' κ μ D i) (rk : Red lo hi b c b' c' κ μ D k)
    (di : i ≠ k → D i = -dH s ∧ D k = -dH s) (dd : i = k → D i = -dH s + -dH s) (ok) :
    Transfer ok (lo.no i) (lo.no k) (PP lo b c i k n s s) (PP hi b' c' i k n s s) (κ2 κ i k) := by
  apply Transfer.scale
  intro x y
  unfold PP κ2
  by_cases h : i = k
  · simp only [if_pos h]
    refine ri.pp n ?_ x y
    rw [dd h]
    rcases hn with ⟨rfl, rfl⟩ | ⟨rfl, rfl⟩
    · left; exact ⟨rfl, by decide⟩
    · right; exact ⟨rfl, by decide⟩
  · simp only [if_neg h]
    have : s < 2 := by omega
    rw [ri.p s this (di h).1, rk.p s this (di h).2]; ring

theorem hh_same {n s : Nat} (hn : (n = 0 ∧ s = 0) ∨ (n = 2 ∧ s = 1)) (rj : Red lo hi b c b' c' κ μ D j) (rl : Red lo hi b c b' c' κ μ D l)
    (dj : j ≠ l → D j = dH s ∧ D l = dH s) (dd : j = l → D j = dH s + dH s) (ok) :
    Transfer ok (lo.no l) (lo.no j) (HH lo b c j l n s s) (HH hi b' c' j l n s s) (κ2 κ j l) := by
  apply Transfer.scale
  intro x y
  unfold HH κ2
  by_cases h : j = l
  · simp only [if_pos h]
    refine rj.hh n ?_ x y
    rw [dd h]
    rcases hn with ⟨rfl, rfl⟩ | ⟨rfl, rfl⟩
    · left; exact ⟨rfl, by decide⟩
    · right; exact ⟨rfl, by decide⟩
  · simp only [if_neg h]
    have : s < 2 := by omega
    rw [rj.h s this (dj h).1, rl.h s this (dj h).2]; ring

theorem pp_mixed (h : i ≠ k) (ri : Red lo hi b c b' c' κ μ D i) (rk : Red lo hi b c b' c' κ μ D k)
    (di : i ≠ k → D i = -dH 0 ∧ D k = -dH 1) (ok) :
    Transfer ok (lo.no i) (lo.no k) (PP lo b c i k 1 0 1) (PP hi b' c' i k 1 0 1) (κ2 κ i k) := by
  apply Transfer.scale
  intro x y
  unfold PP κ2
  simp only [if_neg h]
  rw [ri.p 0 (by omega) (di h).1, rk.p 1 (by omega) (di h).2]; ring

theorem hh_mixed (h : j ≠ l) (rj : Red lo hi b c b' c' κ μ D j) (rl : Red lo hi b c b' c' κ μ D l)
    (dj : j ≠ l → D j = dH 0 ∧ D l = dH 1) (ok) :
    Transfer ok (lo.no l) (lo.no j) (HH lo b c j l 1 0 1) (HH hi b' c' j l 1 0 1) (κ2 κ j l) := by
  apply Transfer.scale
  intro x y
  unfold HH κ2
  simp only [if_neg h]
  rw [rj.h 0 (by omega) (dj h).1, rl.h 1 (by omega) (dj h).2]; ring

theorem pp_S (ri : Red lo hi b c b' c' κ μ D i) (rk : Red lo hi b c b' c' κ μ D k)
    (di : i ≠ k → D i = -dH 0 ∧ D k = -dH 1) (dd : i = k → D i = -dH 0 + -dH 1) :
    Transfer (okS i k) (lo.no i) (lo.no k) (PP lo b c i k 1 0 1) (PP hi b' c' i k 1 0 1) (κ2 κ i k) := by
  by_cases h : i = k
  · subst h
    intro g hg
    refine Transfer.sym (fun x hx y hy => ?_) g (hg rfl)
    unfold PP κ2
    simp only [if_true]
    exact ri.ppS (by rw [dd rfl]; decide) x y
  · exact pp_mixed h ri rk di _

theorem pp_A (ri : Red lo hi b c b' c' κ μ D i) (rk : Red lo hi b c b' c' κ μ D k)
    (di : i ≠ k → D i = -dH 0 ∧ D k = -dH 1) (dd : i = k → D i = -dH 0 + -dH 1) :
    Transfer (okA i k) (lo.no i) (lo.no k) (PP lo b c i k 1 0 1) (PP hi b' c' i k 1 0 1) (κ2 κ i k * if i = k then μ i else 1) := by
  by_cases h : i = k
  · subst h
    intro g hg
    refine Transfer.anti (fun x hx y hy => ?_) g (hg rfl)
    unfold PP κ2
    simp only [if_true]
    rw [← mul_assoc]
    exact ri.ppA (by rw [dd rfl]; decide) x hx y hy
  · rw [if_neg h, mul_one]; exact pp_mixed h ri rk di _

theorem hh_S (rj : Red lo hi b c b' c' κ μ D j) (rl : Red lo hi b c b' c' κ μ D l)
    (dj : j ≠ l → D j = dH 0 ∧ D l = dH 1) (dd : j = l → D j = dH 0 + dH 1) :
    Transfer (okS j l) (lo.no l) (lo.no j) (HH lo b c j l 1 0 1) (HH hi b' c' j l 1 0 1) (κ2 κ j l) := by
  by_cases h : j = l
  · subst h
    intro g hg
    refine Transfer.sym (fun x hx y hy => ?_) g (hg rfl)
    unfold HH κ2
    simp only [if_true]
    exact rj.hhS (by rw [dd rfl]; decide) x y
  · exact hh_mixed h rj rl dj _

theorem hh_A (rj : Red lo hi b c b' c' κ μ D j) (rl : Red lo hi b c b' c' κ μ D l)
    (dj : j ≠ l → D j = dH 0 ∧ D l = dH 1) (dd : j = l → D j = dH 0 + dH 1) :
    Transfer (okA j l) (lo.no l) (lo.no j) (HH lo b c j l 1 0 1) (HH hi b' c' j l 1 0 1) (κ2 κ j l * if j = l then μ j else 1) := by
  by_cases h : j = l
  · subst h
    intro g hg
    refine Transfer.anti (fun x hx y hy => ?_) g (hg rfl)
    unfold HH κ2
    simp only [if_true]
    rw [← mul_assoc]
    exact rj.hhA (by rw [dd rfl]; decide) x hx y hy
  · rw [if_neg h, mul_one]; exact hh_mixed h rj rl dj _

theorem row_c2 (hn : hi.nlas = lo.nlas) (hH : ∀ p q r s, H.h2 r s p q = H.h2 p q r s) {n s11 s12 : Nat}
    (hs : (n = 0 ∧ s11 = 0 ∧ s12 = 0) ∨ (n = 1 ∧ s11 = 0 ∧ s12 = 1) ∨ (n = 2 ∧ s11 = 1 ∧ s12 = 1)) (ri : Red lo hi b c b' c' κ μ D i)
    (rj : Red lo hi b c b' c' κ μ D j) (rk : Red lo hi b c b' c' κ μ D k) (rl : Red lo hi b c b' c' κ μ D l)
    (di : i ≠ k → D i = -dH s11 ∧ D k = -dH s12) (dik : i = k → D i = -dH s11 + -dH s12)
    (dj : j ≠ l → D j = dH s11 ∧ D l = dH s12) (djl : j = l → D j = dH s11 + dH s12)
    (g1 : hi.facHh c' i j k l = lo.facHh c i j k l) (g2 : hi.facPp b' i j k l = lo.facPp b i j k l) :
    (opRow hi H b' c' (.c2 i j k l n)).map (redPair κ μ) = lo.hamRow H b c (.c2 i j k l n) := by
  show Option.map _ (op2c hi H b' c' i j k l n) = lo.ham2c H b c i j k l n
  unfold op2c Lstdm.ham2c
  dsimp only
  have h11 : [0, 1, 3].getD n 0 / 2 = s11 := by rcases hs with ⟨rfl, rfl, rfl⟩ | ⟨rfl, rfl, rfl⟩ | ⟨rfl, rfl, rfl⟩ <;> rfl
  have h12 : [0, 1, 3].getD n 0 % 2 = s12 := by rcases hs with ⟨rfl, rfl, rfl⟩ | ⟨rfl, rfl, rfl⟩ | ⟨rfl, rfl, rfl⟩ <;> rfl
  rw [h11, h12, g1, g2, hn]
  cases lo.facHh c i j k l with
  | none => rfl
  | some f1 =>
  cases lo.facPp b i j k l with
  | none => rfl
  | some f2 =>
  simp only [Option.bind_eq_bind, Option.bind_some, Option.pure_def, contract_eq, no_eq hn]
  generalize ((if (i, j, s11) = (k, l, s12) then 1 / 2 else 1) * ((f1 * f2 : ℤ) : ℝ)) = fac
  have plainCase : ∀ g : Nat → Nat → Nat → Nat → ℝ,
      (n ≠ 1 ∨ (i ≠ k ∧ j ≠ l)) → redPair κ μ (plain ((comp2c j l true 0).1 ++ (comp2c i k true 0).1)
        (S2 (lo.no l) (lo.no j) (HH hi b' c' j l n s11 s12) (fun z w => S2 (lo.no i) (lo.no k) (PP hi b' c' i k n s11 s12) (g z w)) * fac),
          none) = (S2 (lo.no l) (lo.no j) (HH lo b c j l n s11 s12)
            (fun z w => S2 (lo.no i) (lo.no k) (PP lo b c i k n s11 s12) (g z w)) * fac, none) := by
    intro g hc
    have tP : Transfer (fun _ => True) (lo.no i) (lo.no k) (PP lo b c i k n s11 s12) (PP hi b' c' i k n s11 s12) (κ2 κ i k) := by
      rcases hs with ⟨rfl, rfl, rfl⟩ | ⟨rfl, rfl, rfl⟩ | ⟨rfl, rfl, rfl⟩
      · exact pp_same (Or.inl ⟨rfl, rfl⟩) ri rk di dik _
      · exact pp_mixed (by omega) ri rk di _
      · exact pp_same (Or.inr ⟨rfl, rfl⟩) ri rk di dik _
    have tH : Transfer (fun _ => True) (lo.no l) (lo.no j) (HH lo b c j l n s11 s12) (HH hi b' c' j l n s11 s12) (κ2 κ j l) := by
      rcases hs with ⟨rfl, rfl, rfl⟩ | ⟨rfl, rfl, rfl⟩ | ⟨rfl, rfl, rfl⟩
      · exact hh_same (Or.inl ⟨rfl, rfl⟩) rj rl dj djl _
      · exact hh_mixed (by omega) rj rl dj _
      · exact hh_same (Or.inr ⟨rfl, rfl⟩) rj rl dj djl _
    rw [transfer_both tP tH g (fun _ _ => trivial) trivial]
    simp only [redPair, redOf_plain, List.map_append, List.prod_append, ints_prod, Option.map_none]
    congr 1
    ring
  by_cases c1 : s11 ≠ s12 ∧ (i = k ∨ j = l)
  · rw [if_pos c1, if_pos c1]
    obtain ⟨rfl, rfl, rfl⟩ : n = 1 ∧ s11 = 0 ∧ s12 = 1 := by
      rcases hs with h | h | h
      · exact absurd (h.2.1.trans h.2.2.symm) c1.1
      · exact h
      · exact absurd (h.2.1.trans h.2.2.symm) c1.1
    have eS := transfer_both (pp_S ri rk di dik) (hh_S rj rl dj djl)
      (fun z w x y => H.four lo.nlas l k j i z y w x + H.four lo.nlas l i j k z x w y)
      (fun z w h x y => by subst h; exact add_comm _ _)
      (fun h z w => by
        subst h
        have e1 : ∀ x y, H.h2 ((getRange lo.nlas j).1 + w) ((getRange lo.nlas k).1 + y) ((getRange lo.nlas j).1 + z)
            ((getRange lo.nlas i).1 + x) = H.h2 ((getRange lo.nlas j).1 + z) ((getRange lo.nlas i).1 + x) ((getRange lo.nlas j).1 + w)
            ((getRange lo.nlas k).1 + y) := fun x y => hH _ _ _ _
        have e2 : ∀ x y, H.h2 ((getRange lo.nlas j).1 + w) ((getRange lo.nlas i).1 + x) ((getRange lo.nlas j).1 + z)
            ((getRange lo.nlas k).1 + y) = H.h2 ((getRange lo.nlas j).1 + z) ((getRange lo.nlas k).1 + y) ((getRange lo.nlas j).1 + w)
            ((getRange lo.nlas i).1 + x) := fun x y => hH _ _ _ _
        unfold S2 Ham.four
        refine sum_congr rfl fun x _ => sum_congr rfl fun y _ => ?_
        dsimp only
        rw [e1, e2, add_comm])
    have eA := transfer_both (pp_A ri rk di dik) (hh_A rj rl dj djl)
      (fun z w x y => H.four lo.nlas l k j i z y w x - H.four lo.nlas l i j k z x w y)
      (fun z w h x y => by subst h; exact (neg_sub _ _).symm)
      (fun h z w => by
        subst h
        have e1 : ∀ x y, H.h2 ((getRange lo.nlas j).1 + w) ((getRange lo.nlas k).1 + y) ((getRange lo.nlas j).1 + z)
            ((getRange lo.nlas i).1 + x) = H.h2 ((getRange lo.nlas j).1 + z) ((getRange lo.nlas i).1 + x) ((getRange lo.nlas j).1 + w)
            ((getRange lo.nlas k).1 + y) := fun x y => hH _ _ _ _
        have e2 : ∀ x y, H.h2 ((getRange lo.nlas j).1 + w) ((getRange lo.nlas i).1 + x) ((getRange lo.nlas j).1 + z)
            ((getRange lo.nlas k).1 + y) = H.h2 ((getRange lo.nlas j).1 + z) ((getRange lo.nlas k).1 + y) ((getRange lo.nlas j).1 + w)
            ((getRange lo.nlas i).1 + x) := fun x y => hH _ _ _ _
        unfold S2 Ham.four
        rw [← sum_neg_distrib]
        refine sum_congr rfl fun x _ => ?_
        rw [← sum_neg_distrib]
        refine sum_congr rfl fun y _ => ?_
        dsimp only
        rw [e1, e2]; ring)
    rw [eS, eA]
    simp only [Option.map_some, redPair, redOf_comp, comp_prod0, comp_prod1, List.map_append, List.prod_append, ints_prod, Option.map_none]
    congr 2
    ring
  · rw [if_neg c1, if_neg c1]
    have c1' : n ≠ 1 ∨ (i ≠ k ∧ j ≠ l) := by
      rcases hs with h | h | h
      · left; omega
      · right
        constructor
        · intro e; exact c1 ⟨by omega, Or.inl e⟩
        · intro e; exact c1 ⟨by omega, Or.inr e⟩
      · left; omega
    by_cases c2 : s11 = s12 ∧ i ≠ k ∧ j ≠ l
    · rw [if_pos c2, if_pos c2, Option.map_some, plainCase _ c1']
    · rw [if_neg c2, if_neg c2, Option.map_some, plainCase _ c1']

end Verif.HamSpin
