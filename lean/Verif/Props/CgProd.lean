import Verif.Lemmas.CgProd
import Mathlib.Algebra.BigOperators.Group.Finset.Basic
import Mathlib.Tactic.NormNum
/-!
# C127: products of Clebsch-Gordan coefficients
-/
namespace Verif.Props
open Verif.CgProd Verif.Spec.CgProd

variable {K : Type} [CommRing K]

theorem cg_take_succ (l : List Int) (k : Nat) (h : k < l.length) : (l.take (k + 1)).sum = (l.take k).sum + l.getD k 0 := by
  rw [List.take_add_one, List.sum_append]
  simp [h]

theorem cg_okM {j m : List Int} (h : List.Forall₂ Projection j m) (h0 : ∀ k < j.length, 0 ≤ j.getD k 0) : okM j m = true := by
  unfold okM
  have hl := h.length_eq
  simp only [Bool.and_eq_true, decide_eq_true_eq, List.all_eq_true, List.mem_range]
  refine ⟨hl, fun k hk => ?_⟩
  have := (List.forall₂_iff_get.1 h).2 k hk (by omega)
  obtain ⟨h1, h2⟩ := this
  have e1 : j.getD k 0 = j.get ⟨k, hk⟩ := by simp [hk]
  have e2 : m.getD k 0 = m.get ⟨k, by omega⟩ := by simp [show k < m.length by omega]
  have := h0 k hk
  rw [e1, e2] at *
  exact ⟨⟨this, h1⟩, by omega⟩

theorem cg_coupled_forall {j p : List Int} (h : IsCoupled j p) : List.Forall₂ Projection j p := by
  rw [List.forall₂_iff_get]
  refine ⟨h.length, fun k hk hk' => ?_⟩
  have e1 : j.getD k 0 = j.get ⟨k, hk⟩ := by simp [hk]
  have e2 : p.getD k 0 = p.get ⟨k, hk'⟩ := by simp [hk']
  have a1 := abs_le.1 (h.low k hk)
  have a2 := h.high k hk
  have a3 := h.parity k hk
  rw [cg_take_succ p k hk'] at a1 a2 a3
  rw [← e1, ← e2]
  exact ⟨abs_le.2 ⟨by omega, by omega⟩, by omega⟩

theorem cg_okJ {j p : List Int} (h : IsCoupled j p) : okJ j p = true := by
  unfold okJ
  rw [cg_okM (cg_coupled_forall h) h.spin]
  simp only [Bool.true_and, List.all_eq_true, List.mem_range, Bool.and_eq_true, decide_eq_true_eq]
  intro k hk
  have e := cg_take_succ p k (h.length ▸ hk)
  rw [show (p.take (k + 1)).sum - p.getD k 0 = (p.take k).sum by omega]
  exact ⟨h.low k hk, h.high k hk⟩

theorem cg_sums {j p : List Int} (h : List.Forall₂ Projection j p) : p.sum ≤ j.sum ∧ (j.sum - p.sum) % 2 = 0 := by
  induction h with
  | nil => simp
  | cons hab _ ih =>
    obtain ⟨h1, h2⟩ := hab
    rw [abs_le] at h1
    simp only [List.sum_cons]
    omega

theorem cg_prodAll (CG : Int → Int → Int → Int → Int → Int → K) (j p m : List Int) : ∀ n, prodAll CG 0 0 j p m n =
    ∏ k ∈ Finset.range n, CG (p.take k).sum (m.take k).sum (j.getD k 0) (m.getD k 0) (p.take (k + 1)).sum (m.take (k + 1)).sum
  | 0 => by simp [prodAll]
  | n + 1 => by
    rw [Finset.prod_range_succ, ← cg_prodAll CG j p m n, prodAll]
    simp only [zero_add]

/-- The strings of the loop. -/
theorem cg_loop (CG : Int → Int → Int → Int → Int → Int → K) {j p : List Int} (h : IsCoupled j p) {mtot : Int} (hm : Projection p.sum mtot) :
    (∀ w d, (w, d) ∈ loop CG mtot (j.zip p) 0 j.sum [([], 1)] ↔ IsString j mtot w ∧ d = coefFrom CG 0 0 (j.zip p) w) ∧
      loop CG mtot (j.zip p) 0 j.sum [([], 1)] ≠ [] ∧ ((loop CG mtot (j.zip p) 0 j.sum [([], 1)]).map Prod.fst).Nodup := by
  obtain ⟨s1, s2⟩ := cg_sums (cg_coupled_forall h)
  obtain ⟨m1, m2⟩ := hm
  have hrem := rem_zip h.length
  have hI : Inv (K := K) mtot (rem (j.zip p)) [([], 1)] := by
    intro x hx
    rw [List.mem_singleton] at hx
    rw [hx, hrem]
    simp only [List.sum_nil, sub_zero]
    omega
  have hmem : ∀ w d, (w, d) ∈ loop CG mtot (j.zip p) 0 j.sum [([], 1)] ↔ IsString j mtot w ∧ d = coefFrom CG 0 0 (j.zip p) w := by
    intro w d
    rw [← hrem, mem_loop CG mtot _ 0 _ hI]
    simp only [List.mem_singleton, exists_eq_left, List.nil_append, List.sum_nil, sub_zero, one_mul, good_iff j p _ _ h.length]
    constructor
    · rintro ⟨u, rfl, h1, h2⟩
      exact ⟨h1, h2⟩
    · rintro ⟨h1, h2⟩
      exact ⟨w, rfl, h1, h2⟩
  obtain ⟨u, hu⟩ := exists_good (j.zip p) mtot (fun x hx => by
      obtain ⟨hx, -⟩ := List.of_mem_zip (a := x.1) (b := x.2) hx
      obtain ⟨k, hk, e⟩ := List.getElem_of_mem hx
      have := h.spin k hk
      rw [show j.getD k 0 = j[k] by simp [hk], e] at this
      exact this) (by rw [hrem]; omega) (by rw [hrem]; omega)
  rw [good_iff j p _ _ h.length] at hu
  have hin := (hmem u _).2 ⟨hu, rfl⟩
  exact ⟨hmem, List.ne_nil_of_mem hin, nodup_loop CG mtot (j.zip p) 0 j.sum [([], 1)] (by simp)⟩

/-- C127: for doubled quantum numbers (the default), each string of projections with the given sum is returned once, its coefficient is the
product of the Clebsch-Gordan coefficients of the successive couplings, and `cg_prod` returns the same coefficient. -/
theorem C127_vector_partial (CG : Int → Int → Int → Int → Int → Int → K) (hCG : ∀ j m, Projection j m → CG 0 0 j m j m = 1) {j p : List Int}
    (h : IsCoupled j p) {mtot : Int} (hm : Projection p.sum mtot) :
    ∃ l, cgProdVec CG 2 (j.map fun n : Int => (n : Rat)) (p.map fun n : Int => (n : Rat)) mtot = some l ∧ (l.map Prod.fst).Nodup ∧
      (∀ m, m ∈ l.map Prod.fst ↔ IsString j mtot m) ∧
      ∀ x ∈ l, x.2 = ∏ k ∈ Finset.range j.length,
          CG (p.take k).sum (x.1.take k).sum (j.getD k 0) (x.1.getD k 0) (p.take (k + 1)).sum (x.1.take (k + 1)).sum ∧
        cgProd CG 2 (j.map fun n : Int => (n : Rat)) (p.map fun n : Int => (n : Rat)) (x.1.map fun n : Int => (n : Rat)) = some x.2 := by
  obtain ⟨hmem, hne, hnd⟩ := cg_loop CG h hm
  obtain ⟨m1, m2⟩ := hm
  have hres : cgProdVec CG 2 (j.map fun n : Int => (n : Rat)) (p.map fun n : Int => (n : Rat)) mtot =
      some (loop CG mtot (j.zip p) 0 j.sum [([], 1)]) := by
    unfold cgProdVec
    simp only [show (2 : Int) / 2 = 1 from rfl, scaled_int, cg_okJ h, if_true, mul_one, Int.ediv_one, List.map_id']
  refine ⟨_, hres, hnd, fun m => ?_, fun x hx => ?_⟩
  · simp only [List.mem_map, Prod.exists, exists_and_right, exists_eq_right, hmem]
  · obtain ⟨hs, hc⟩ := (hmem x.1 x.2).1 hx
    have hlen := hs.each.length_eq
    rw [coefFrom_eq CG j p x.1 0 0 h.length hlen] at hc
    refine ⟨by rw [hc, cg_prodAll], ?_⟩
    unfold cgProd
    simp only [show (2 : Int) / 2 = 1 from rfl, scaled_int, cg_okJ h, cg_okM hs.each h.spin, true_and]
    rw [if_pos (by rw [hs.total, mem_range2]; rw [abs_le] at m1; omega), hc]
    cases hj : j with
    | nil => simp [prodAll, prodFrom]
    | cons a t =>
      rw [← hj]
      have hpos : 0 < j.length := by rw [hj]; simp
      rw [show j.length = j.length - 1 + 1 by omega, prodAll_from, Nat.add_sub_cancel]
      have b1 := abs_le.1 (h.low 0 hpos)
      have b2 := h.high 0 hpos
      have b3 : (p.take 1).sum = j.getD 0 0 := by
        simp only [List.take_zero, List.sum_nil, Nat.zero_add] at b1 b2
        omega
      have b4 : (x.1.take 1).sum = x.1.getD 0 0 := by
        have := cg_take_succ x.1 0 (by omega)
        simpa using this
      rw [b3, b4]
      refine hCG _ _ ?_
      have := (List.forall₂_iff_get.1 hs.each).2 0 hpos (by omega)
      simpa [hpos, show 0 < x.1.length by omega] using this

theorem cg_scaled_two (l : List Int) : scaled 2 (l.map fun n : Int => (n : Rat)) = l.map (2 * ·) := by
  unfold scaled
  rw [List.map_map]
  refine List.map_congr_left fun n _ => ?_
  have : ((n : Rat) * ((2 : Int) : Rat)) = ((2 * n : Int) : Rat) := by push_cast; ring
  simp only [Function.comp_apply]
  rw [this, round_intCast]

theorem cg_even {j w : List Int} (h : List.Forall₂ Projection (j.map (2 * ·)) w) : (w.map (· / 2)).map (2 * ·) = w := by
  induction j generalizing w with
  | nil => cases h; rfl
  | cons a j ih =>
    match w, h with
    | b :: w, h =>
      obtain ⟨h1, h2⟩ := List.forall₂_cons.1 h
      have := ih h2
      have h3 : (2 * a - b) % 2 = 0 := h1.2
      have h4 : 2 * (b / 2) = b := by omega
      simp only [List.map_cons, List.cons.injEq]
      exact ⟨h4, this⟩

theorem cg_halve (w : List Int) : (w.map (2 * ·)).map (· / 2) = w := by
  rw [List.map_map]
  conv_rhs => rw [← List.map_id w]
  refine List.map_congr_left fun n _ => ?_
  simp only [Function.comp_apply, id]
  omega

/-- C127: for integral spins, quantum numbers that are not doubled (`fac=1`) also give each string of projections once. -/
theorem C127_integral_partial (CG : Int → Int → Int → Int → Int → Int → K) {j p : List Int} (h : IsCoupled (j.map (2 * ·)) (p.map (2 * ·)))
    {mtot : Int} (hm : |mtot| ≤ p.sum) :
    ∃ l, cgProdVec CG 1 (j.map fun n : Int => (n : Rat)) (p.map fun n : Int => (n : Rat)) mtot = some l ∧ (l.map Prod.fst).Nodup ∧
      ∀ m, m ∈ l.map Prod.fst ↔ IsString (j.map (2 * ·)) (2 * mtot) (m.map (2 * ·)) := by
  have hs : (p.map (2 * ·)).sum = 2 * p.sum := by
    clear h hm
    induction p with
    | nil => simp
    | cons a p ih => rw [List.map_cons, List.sum_cons, List.sum_cons, ih]; ring
  obtain ⟨hmem, hne, hnd⟩ := cg_loop CG (mtot := mtot * 2) h ⟨by rw [abs_le] at hm; rw [hs, abs_le]; omega, by rw [hs]; omega⟩
  have hres : cgProdVec CG 1 (j.map fun n : Int => (n : Rat)) (p.map fun n : Int => (n : Rat)) mtot =
      some ((loop CG (mtot * 2) ((j.map (2 * ·)).zip (p.map (2 * ·))) 0 (j.map (2 * ·)).sum [([], 1)]).map fun x => (x.1.map fun m => m / 2, x.2)) := by
    unfold cgProdVec
    simp only [show (2 : Int) / 1 = 2 from rfl, cg_scaled_two, cg_okJ h, if_true]
  have hfst : ∀ L : List (List Int × K), (L.map fun x => (x.1.map fun m => m / 2, x.2)).map Prod.fst = (L.map Prod.fst).map fun w => w.map (· / 2) := by
    intro L
    simp only [List.map_map, Function.comp_def]
  have hw : ∀ w, w ∈ (loop CG (mtot * 2) ((j.map (2 * ·)).zip (p.map (2 * ·))) 0 (j.map (2 * ·)).sum [([], 1)]).map Prod.fst ↔
      IsString (j.map (2 * ·)) (2 * mtot) w := by
    intro w
    rw [mul_comm 2 mtot]
    constructor
    · intro hx
      obtain ⟨x, hx', rfl⟩ := List.mem_map.1 hx
      exact ((hmem x.1 x.2).1 hx').1
    · intro hx
      exact List.mem_map.2 ⟨_, (hmem w _).2 ⟨hx, rfl⟩, rfl⟩
  refine ⟨_, hres, ?_, fun m => ?_⟩
  · rw [hfst]
    refine List.Nodup.map_on (fun a ha b hb hab => ?_) hnd
    rw [← cg_even ((hw a).1 ha).each, ← cg_even ((hw b).1 hb).each, hab]
  · rw [hfst, List.mem_map]
    constructor
    · rintro ⟨w, hx, rfl⟩
      rw [cg_even ((hw w).1 hx).each]
      exact (hw w).1 hx
    · intro hx
      exact ⟨_, (hw _).2 hx, cg_halve m⟩

/-- Two quintets coupled antiferromagnetically, the example of the module. -/
example : IsCoupled [4, 4] [4, -4] ∧ Projection ([4, -4] : List Int).sum 0 ∧ IsString [4, 4] 0 [2, -2] := by
  refine ⟨⟨rfl, ?_, ?_, ?_, ?_⟩, ⟨by decide, by decide⟩, ⟨List.Forall₂.cons ⟨by decide, by decide⟩ (List.Forall₂.cons ⟨by decide, by decide⟩ List.Forall₂.nil), rfl⟩⟩
  all_goals
    intro k hk
    have hk : k < 2 := hk
    obtain rfl | rfl : k = 0 ∨ k = 1 := by omega
    all_goals decide

/-- The same two quintets, with quantum numbers that are not doubled. -/
example : IsCoupled ([2, 2].map (2 * ·)) ([2, -2].map (2 * ·)) ∧ |(0 : Int)| ≤ ([2, -2] : List Int).sum := by
  refine ⟨⟨rfl, ?_, ?_, ?_, ?_⟩, by decide⟩
  all_goals
    intro k hk
    have hk : k < 2 := hk
    obtain rfl | rfl : k = 0 ∨ k = 1 := by omega
    all_goals decide

/-- C127: if the quantum numbers are not doubled (`fac=1`), the projections of two doublets coupled to a triplet with total projection 0
are returned as (-1, 0) and (0, -1); for a total projection that two triplets cannot have, strings with half-integral projections of
triplets are returned. -/
theorem C127_strings_violated (CG : Int → Int → Int → Int → Int → Int → K) :
    (∃ l, cgProdVec CG 1 [1 / 2, 1 / 2] [1 / 2, 1 / 2] 0 = some l ∧ l.map Prod.fst = [[-1, 0], [0, -1]]) ∧
    ∃ l, cgProdVec CG 2 [2, 2] [2, 2] 1 = some l ∧ [-1, 2] ∈ l.map Prod.fst ∧ ¬ Projection 2 (-1) := by
  have e : scaled 2 [1 / 2, 1 / 2] = [1, 1] := by
    simp [scaled]
  have e2 : scaled 1 [2, 2] = [2, 2] := scaled_int [2, 2]
  refine ⟨?_, ?_⟩
  · unfold cgProdVec
    simp only [show (2 : Int) / 1 = 2 from rfl, e]
    exact ⟨_, rfl, rfl⟩
  · unfold cgProdVec
    simp only [show (2 : Int) / 2 = 1 from rfl, e2]
    exact ⟨_, rfl, List.mem_cons_self, fun h => absurd h.2 (by decide)⟩

end Verif.Props
