import Verif.Model.CgProd
import Verif.Spec.CgProd
import Mathlib.Tactic.Ring
import Mathlib.Data.List.Nodup
import Mathlib.Algebra.Order.BigOperators.Group.List
/-! # Lemmas for C127 -/
namespace Verif.CgProd
open Verif.Spec.CgProd

variable {K : Type} [CommRing K]

theorem mem_range2 (a b x : Int) : x ∈ range2 a b ↔ a ≤ x ∧ x < b ∧ (x - a) % 2 = 0 := by
  unfold range2
  simp only [List.mem_map, List.mem_range]
  constructor
  · rintro ⟨i, hi, rfl⟩
    omega
  · rintro ⟨h1, h2, h3⟩
    exact ⟨((x - a) / 2).toNat, by omega, by omega⟩

theorem nodup_range2 (a b : Int) : (range2 a b).Nodup := by
  unfold range2
  refine List.Nodup.map (fun i j h => ?_) List.nodup_range
  omega

/-- Projections of the remaining spins that add up to `t`. -/
def Good : List (Int × Int) → Int → List Int → Prop
  | [], t, u => u = [] ∧ t = 0
  | _ :: _, _, [] => False
  | x :: r, t, m :: u => Projection x.1 m ∧ Good r (t - m) u

/-- Their coefficient. -/
def coefFrom (CG : Int → Int → Int → Int → Int → Int → K) : Int → Int → List (Int × Int) → List Int → K
  | ja, ma, x :: r, m :: u => CG ja ma x.1 m (ja + x.2) (ma + m) * coefFrom CG (ja + x.2) (ma + m) r u
  | _, _, _, _ => 1

def rem (r : List (Int × Int)) : Int := (r.map Prod.fst).sum

theorem good_bound : ∀ (r : List (Int × Int)) (t : Int) (u : List Int), Good r t u → |t| ≤ rem r ∧ (rem r - t) % 2 = 0
  | [], t, u, h => by
    obtain ⟨-, rfl⟩ := h
    simp [rem]
  | x :: r, t, m :: u, h => by
    obtain ⟨⟨h1, h2⟩, h3⟩ := h
    obtain ⟨h4, h5⟩ := good_bound r _ u h3
    have e : rem (x :: r) = x.1 + rem r := by simp [rem]
    rw [e]
    rw [abs_le] at *
    omega

theorem mem_step (CG : Int → Int → Int → Int → Int → Int → K) (ja jb jc hi lo : Int) (cur : List (List Int × K)) (y : List Int × K) :
    y ∈ step CG ja jb jc hi lo cur ↔ ∃ x ∈ cur, ∃ mb ∈ range2 (max (lo - x.1.sum) (-jb)) (min (hi - x.1.sum) jb + 1),
      y = (x.1 ++ [mb], x.2 * CG ja x.1.sum jb mb jc (x.1.sum + mb)) := by
  unfold step
  simp only [List.mem_flatMap, List.mem_map, eq_comm]

/-- What can follow. -/
def Inv (mtot mrem : Int) (cur : List (List Int × K)) : Prop := ∀ x ∈ cur, |mtot - x.1.sum| ≤ mrem ∧ (mrem - (mtot - x.1.sum)) % 2 = 0

theorem range_iff {mtot mrem jb s mb : Int} (h1 : |mtot - s| ≤ mrem) (h2 : (mrem - (mtot - s)) % 2 = 0) :
    mb ∈ range2 (max (mtot - (mrem - jb) - s) (-jb)) (min (mtot + (mrem - jb) - s) jb + 1) ↔
      Projection jb mb ∧ |mtot - s - mb| ≤ mrem - jb ∧ (mrem - jb - (mtot - s - mb)) % 2 = 0 := by
  rw [mem_range2]
  unfold Projection
  rw [abs_le] at *
  rw [abs_le]
  constructor
  · rintro ⟨a, b, c⟩
    rcases max_choice (mtot - (mrem - jb) - s) (-jb) with e | e <;> rw [e] at c <;> omega
  · rintro ⟨⟨a, b⟩, c, d⟩
    refine ⟨by omega, by omega, ?_⟩
    rcases max_choice (mtot - (mrem - jb) - s) (-jb) with e | e <;> rw [e] <;> omega

theorem mem_loop (CG : Int → Int → Int → Int → Int → Int → K) (mtot : Int) : ∀ (r : List (Int × Int)) (ja : Int) (cur : List (List Int × K)),
    Inv mtot (rem r) cur → ∀ w d, (w, d) ∈ loop CG mtot r ja (rem r) cur ↔
      ∃ x ∈ cur, ∃ u, w = x.1 ++ u ∧ Good r (mtot - x.1.sum) u ∧ d = x.2 * coefFrom CG ja x.1.sum r u
  | [], ja, cur, hI, w, d => by
    simp only [loop, Good]
    constructor
    · intro h
      have := (hI _ h).1
      simp only [rem, List.map_nil, List.sum_nil, abs_nonpos_iff] at this
      exact ⟨_, h, [], by simp, ⟨rfl, this⟩, by simp [coefFrom]⟩
    · rintro ⟨x, hx, u, rfl, ⟨rfl, -⟩, rfl⟩
      simpa [coefFrom] using hx
  | y :: r, ja, cur, hI, w, d => by
    have e : rem (y :: r) - y.1 = rem r := by simp [rem]
    have e' : rem r = rem (y :: r) - y.1 := e.symm
    rw [loop, e]
    have key : ∀ x ∈ cur, ∀ mb, mb ∈ range2 (max (mtot - rem r - x.1.sum) (-y.1)) (min (mtot + rem r - x.1.sum) y.1 + 1) ↔
        Projection y.1 mb ∧ |mtot - x.1.sum - mb| ≤ rem r ∧ (rem r - (mtot - x.1.sum - mb)) % 2 = 0 := by
      intro x hx mb
      obtain ⟨h1, h2⟩ := hI x hx
      rw [e']
      exact range_iff h1 h2
    rw [mem_loop CG mtot r (ja + y.2)]
    · constructor
      · rintro ⟨z, hz, u, rfl, hg, rfl⟩
        rw [mem_step] at hz
        obtain ⟨x, hx, mb, hmb, rfl⟩ := hz
        rw [key x hx] at hmb
        simp only [List.sum_append, List.sum_cons, List.sum_nil, add_zero] at hg
        refine ⟨x, hx, mb :: u, by simp, ⟨hmb.1, ?_⟩, ?_⟩
        · rw [sub_sub]; exact hg
        · simp only [coefFrom, List.sum_append, List.sum_cons, List.sum_nil, add_zero]
          ring
      · rintro ⟨x, hx, u, rfl, hg, rfl⟩
        match u, hg with
        | mb :: u, hg =>
          obtain ⟨g1, g2⟩ := hg
          obtain ⟨b1, b2⟩ := good_bound _ _ _ g2
          refine ⟨(x.1 ++ [mb], x.2 * CG ja x.1.sum y.1 mb (ja + y.2) (x.1.sum + mb)), ?_, u, by simp, ?_, ?_⟩
          · rw [mem_step]
            exact ⟨x, hx, mb, (key x hx mb).2 ⟨g1, b1, b2⟩, rfl⟩
          · simp only [List.sum_append, List.sum_cons, List.sum_nil, add_zero]
            rw [← sub_sub]; exact g2
          · simp only [coefFrom, List.sum_append, List.sum_cons, List.sum_nil, add_zero]
            ring
    · intro z hz
      rw [mem_step] at hz
      obtain ⟨x, hx, mb, hmb, rfl⟩ := hz
      rw [key x hx] at hmb
      simp only [List.sum_append, List.sum_cons, List.sum_nil, add_zero]
      rw [← sub_sub]
      exact hmb.2

theorem nodup_step (CG : Int → Int → Int → Int → Int → Int → K) (ja jb jc hi lo : Int) (cur : List (List Int × K)) (h : (cur.map Prod.fst).Nodup) :
    ((step CG ja jb jc hi lo cur).map Prod.fst).Nodup := by
  have e : (step CG ja jb jc hi lo cur).map Prod.fst =
      (cur.map Prod.fst).flatMap fun v => (range2 (max (lo - v.sum) (-jb)) (min (hi - v.sum) jb + 1)).map fun mb => v ++ [mb] := by
    unfold step
    rw [List.map_flatMap, List.flatMap_map]
    simp only [List.map_map, Function.comp_def]
  rw [e, List.nodup_flatMap]
  refine ⟨fun v _ => (nodup_range2 _ _).map fun a b hab => ?_, ?_⟩
  · simpa using hab
  · refine h.imp fun {v w} hvw => ?_
    intro z hz hz'
    simp only [List.mem_map] at hz hz'
    obtain ⟨a, -, rfl⟩ := hz
    obtain ⟨b, -, hb⟩ := hz'
    exact hvw (List.append_inj_left' hb rfl).symm

theorem nodup_loop (CG : Int → Int → Int → Int → Int → Int → K) (mtot : Int) : ∀ (r : List (Int × Int)) (ja mrem : Int) (cur : List (List Int × K)),
    (cur.map Prod.fst).Nodup → ((loop CG mtot r ja mrem cur).map Prod.fst).Nodup
  | [], _, _, _, h => h
  | _ :: r, _, _, _, h => nodup_loop CG mtot r _ _ _ (nodup_step CG _ _ _ _ _ _ h)

theorem good_iff : ∀ (j p : List Int) (t : Int) (u : List Int), j.length = p.length → (Good (j.zip p) t u ↔ IsString j t u)
  | [], p, t, u, _ => by
    simp only [List.zip_nil_left, Good]
    constructor
    · rintro ⟨rfl, rfl⟩
      exact ⟨List.Forall₂.nil, rfl⟩
    · rintro ⟨h, rfl⟩
      cases h
      exact ⟨rfl, rfl⟩
  | a :: j, b :: p, t, [], _ => by
    simp only [List.zip_cons_cons, Good, false_iff]
    rintro ⟨h, -⟩
    cases h
  | a :: j, b :: p, t, m :: u, h => by
    have ih := good_iff j p (t - m) u (by simpa using h)
    simp only [List.zip_cons_cons, Good, ih]
    constructor
    · rintro ⟨h1, h2, h3⟩
      exact ⟨List.Forall₂.cons h1 h2, by rw [List.sum_cons, h3]; ring⟩
    · rintro ⟨h1, h2⟩
      obtain ⟨h1, h3⟩ := List.forall₂_cons.1 h1
      exact ⟨h1, h3, by rw [← h2, List.sum_cons]; ring⟩

theorem rem_zip {j p : List Int} (h : j.length = p.length) : rem (j.zip p) = j.sum := by
  unfold rem
  rw [List.map_fst_zip h.le]

/-- There is a string. -/
theorem exists_good : ∀ (r : List (Int × Int)) (t : Int), (∀ x ∈ r, 0 ≤ x.1) → |t| ≤ rem r → (rem r - t) % 2 = 0 → ∃ u, Good r t u
  | [], t, _, h, _ => ⟨[], rfl, by simpa [rem] using h⟩
  | x :: r, t, hx, h, hp => by
    have e : rem (x :: r) = x.1 + rem r := by simp [rem]
    have h0 := hx x (by simp)
    have hr : 0 ≤ rem r := by
      unfold rem
      refine List.sum_nonneg fun a ha => ?_
      obtain ⟨y, hy, rfl⟩ := List.mem_map.1 ha
      exact hx y (by simp [hy])
    rw [e] at h hp
    rw [abs_le] at h
    have hm : |max (t - rem r) (-x.1)| ≤ x.1 ∧ (x.1 - max (t - rem r) (-x.1)) % 2 = 0 ∧
        |t - max (t - rem r) (-x.1)| ≤ rem r ∧ (rem r - (t - max (t - rem r) (-x.1))) % 2 = 0 := by
      rw [abs_le, abs_le]
      rcases max_cases (t - rem r) (-x.1) with ⟨e, h'⟩ | ⟨e, h'⟩ <;> rw [e] <;> omega
    obtain ⟨u, hu⟩ := exists_good r _ (fun y hy => hx y (by simp [hy])) hm.2.2.1 hm.2.2.2
    exact ⟨_ :: u, ⟨hm.1, hm.2.1⟩, hu⟩

/-- The factors, with the first one. -/
def prodAll (CG : Int → Int → Int → Int → Int → Int → K) (ja ma : Int) (j p m : List Int) : Nat → K
  | 0 => 1
  | n + 1 => prodAll CG ja ma j p m n * CG (ja + (p.take n).sum) (ma + (m.take n).sum) (j.getD n 0) (m.getD n 0) (ja + (p.take (n + 1)).sum) (ma + (m.take (n + 1)).sum)

theorem prodAll_cons (CG : Int → Int → Int → Int → Int → Int → K) (ja ma a b c : Int) (j p m : List Int) : ∀ n,
    prodAll CG ja ma (a :: j) (b :: p) (c :: m) (n + 1) = CG ja ma a c (ja + b) (ma + c) * prodAll CG (ja + b) (ma + c) j p m n
  | 0 => by simp [prodAll]
  | n + 1 => by
    rw [prodAll, prodAll_cons CG ja ma a b c j p m n]
    simp only [prodAll, List.take_succ_cons, List.sum_cons, List.getD_cons_succ, ← add_assoc]
    ring

theorem coefFrom_eq (CG : Int → Int → Int → Int → Int → Int → K) : ∀ (j p m : List Int) (ja ma : Int), j.length = p.length → j.length = m.length →
    coefFrom CG ja ma (j.zip p) m = prodAll CG ja ma j p m j.length
  | [], _, _, _, _, _, _ => by simp [coefFrom, prodAll]
  | a :: j, b :: p, c :: m, ja, ma, h1, h2 => by
    rw [List.length_cons, prodAll_cons, ← coefFrom_eq CG j p m _ _ (by simpa using h1) (by simpa using h2)]
    rfl

theorem prodAll_from (CG : Int → Int → Int → Int → Int → Int → K) (j p m : List Int)
    (h : CG 0 0 (j.getD 0 0) (m.getD 0 0) (p.take 1).sum (m.take 1).sum = 1) : ∀ n, prodAll CG 0 0 j p m (n + 1) = prodFrom CG j p m n
  | 0 => by simpa [prodAll, prodFrom] using h
  | n + 1 => by
    rw [prodAll, prodAll_from CG j p m h n, prodFrom]
    simp only [zero_add]

theorem scaled_int (l : List Int) : scaled 1 (l.map fun n : Int => (n : Rat)) = l := by
  unfold scaled
  rw [List.map_map]
  conv_rhs => rw [← List.map_id l]
  refine List.map_congr_left fun n _ => ?_
  simp

end Verif.CgProd
