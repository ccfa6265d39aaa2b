import Verif.Spec.KptCanon
import Mathlib.Data.List.Basic
import Mathlib.Algebra.Star.BigOperators
import Mathlib.Tactic.Ring
/-!
# Lemmas: canonical orbitals
-/
namespace Verif.KptCanon
open Verif.HalfOp Verif.KptCas Verif.Spec.KptCanon

/-- `⟨p| N |q⟩`. -/
noncomputable def form (nao : Nat) (N C : M2 ℂ) (p q : Nat) : ℂ :=
  ∑ i ∈ Finset.range nao, ∑ j ∈ Finset.range nao, star (C i p) * N i j * C j q

theorem subFock_eq (nao : Nat) (F C : M2 ℂ) (idx : List Nat) (a b : Nat) : subFock nao F C idx a b = form nao F C (idx.getD a 0) (idx.getD b 0) := by
  unfold subFock form
  rw [Finset.sum_comm]
  exact Finset.sum_congr rfl fun j _ => Finset.sum_mul ..

theorem diagFock_eq (nao : Nat) (C F : Mos) (k p : Nat) : diagFock nao C F k p = form nao (F k) (C k) p p := by
  unfold diagFock form
  refine Finset.sum_congr rfl fun i _ => ?_
  rw [Finset.mul_sum]
  exact Finset.sum_congr rfl fun j _ => (mul_assoc ..).symm

theorem form_herm {nao : Nat} {F : M2 ℂ} (hF : ∀ i < nao, ∀ j < nao, star (F i j) = F j i) (C : M2 ℂ) (p q : Nat) : star (form nao F C p q) = form nao F C q p := by
  unfold form
  rw [Finset.sum_comm, star_sum]
  refine Finset.sum_congr rfl fun i hi => ?_
  rw [star_sum]
  refine Finset.sum_congr rfl fun j hj => ?_
  rw [star_mul', star_mul', star_star, hF _ (Finset.mem_range.1 hj) _ (Finset.mem_range.1 hi)]
  ring

theorem rotate_not {idx : List Nat} (u C : M2 ℂ) (i : Nat) {p : Nat} (h : p ∉ idx) : rotate idx u C i p = C i p := if_neg h

theorem rotate_get {idx : List Nat} (hn : idx.Nodup) (u C : M2 ℂ) (i : Nat) {a : Nat} (ha : a < idx.length) :
    rotate idx u C i (idx.getD a 0) = ∑ b ∈ Finset.range idx.length, C i (idx.getD b 0) * u b a := by
  have e : idx.getD a 0 = idx[a] := by simp [List.getD, ha]
  unfold rotate
  rw [e, if_pos (List.getElem_mem ha), hn.idxOf_getElem a ha]

theorem sum_list (f : Nat → ℂ) : ∀ idx : List Nat, (idx.map f).sum = ∑ a ∈ Finset.range idx.length, f (idx.getD a 0)
  | [] => rfl
  | x :: idx => by
    rw [List.map_cons, List.sum_cons, List.length_cons, Finset.sum_range_succ', sum_list f idx, add_comm]
    rfl

theorem sum_idx {idx : List Nat} (hn : idx.Nodup) (f : Nat → ℂ) : ∑ p ∈ idx.toFinset, f p = ∑ a ∈ Finset.range idx.length, f (idx.getD a 0) := by
  rw [List.sum_toFinset f hn, sum_list]

theorem getD_inj {idx : List Nat} (hn : idx.Nodup) {a b : Nat} (ha : a < idx.length) (hb : b < idx.length) : idx.getD a 0 = idx.getD b 0 ↔ a = b := by
  have e1 : idx.getD a 0 = idx[a] := by simp [List.getD, ha]
  have e2 : idx.getD b 0 = idx[b] := by simp [List.getD, hb]
  rw [e1, e2]
  exact hn.getElem_inj_iff

theorem exists_getD {idx : List Nat} {p : Nat} (h : p ∈ idx) : ∃ a, a < idx.length ∧ idx.getD a 0 = p := by
  obtain ⟨a, ha, rfl⟩ := List.getElem_of_mem h
  exact ⟨a, ha, by simp [List.getD, ha]⟩

theorem getD_mem {idx : List Nat} {a : Nat} (ha : a < idx.length) : idx.getD a 0 ∈ idx := by
  have e1 : idx.getD a 0 = idx[a] := by simp [List.getD, ha]
  rw [e1]
  exact List.getElem_mem ha

/-- The form in the rotated orbitals. -/
theorem form_rotate {nao : Nat} {idx : List Nat} (hn : idx.Nodup) (N u C : M2 ℂ) {a b : Nat} (ha : a < idx.length) (hb : b < idx.length) :
    form nao N (rotate idx u C) (idx.getD a 0) (idx.getD b 0) =
      ∑ c ∈ Finset.range idx.length, star (u c a) * ∑ d ∈ Finset.range idx.length, form nao N C (idx.getD c 0) (idx.getD d 0) * u d b := by
  unfold form
  have e : ∀ i j, star (rotate idx u C i (idx.getD a 0)) * N i j * rotate idx u C j (idx.getD b 0) =
      ∑ c ∈ Finset.range idx.length, ∑ d ∈ Finset.range idx.length, star (u c a) * (star (C i (idx.getD c 0)) * N i j * C j (idx.getD d 0) * u d b) := by
    intro i j
    rw [rotate_get hn u C i ha, rotate_get hn u C j hb, star_sum, Finset.sum_mul, Finset.sum_mul]
    refine Finset.sum_congr rfl fun c _ => ?_
    rw [Finset.mul_sum]
    refine Finset.sum_congr rfl fun d _ => ?_
    rw [star_mul']
    ring
  rw [Finset.sum_congr rfl fun i _ => Finset.sum_congr rfl fun j _ => e i j]
  have t : ∀ (s t : Nat) (G : Nat → Nat → ℂ), (∑ i ∈ Finset.range s, ∑ j ∈ Finset.range t, G i j) = ∑ j ∈ Finset.range t, ∑ i ∈ Finset.range s, G i j :=
    fun _ _ _ => Finset.sum_comm
  simp only [Finset.mul_sum, Finset.sum_mul]
  rw [Finset.sum_congr rfl fun i _ => t nao idx.length _, t nao]
  refine Finset.sum_congr rfl fun c _ => ?_
  rw [Finset.sum_congr rfl fun i _ => t nao idx.length _, t nao]

theorem form_rotate_l {nao : Nat} {idx : List Nat} (hn : idx.Nodup) (N u C : M2 ℂ) {a q : Nat} (ha : a < idx.length) (hq : q ∉ idx) :
    form nao N (rotate idx u C) (idx.getD a 0) q = ∑ c ∈ Finset.range idx.length, star (u c a) * form nao N C (idx.getD c 0) q := by
  unfold form
  simp only [Finset.mul_sum]
  rw [Finset.sum_comm (s := Finset.range idx.length)]
  refine Finset.sum_congr rfl fun i _ => ?_
  rw [Finset.sum_comm (s := Finset.range idx.length)]
  refine Finset.sum_congr rfl fun j _ => ?_
  rw [rotate_get hn u C i ha, rotate_not u C j hq, star_sum, Finset.sum_mul, Finset.sum_mul]
  refine Finset.sum_congr rfl fun c _ => ?_
  rw [star_mul']
  ring

theorem form_rotate_r {nao : Nat} {idx : List Nat} (hn : idx.Nodup) (N u C : M2 ℂ) {p b : Nat} (hb : b < idx.length) (hp : p ∉ idx) :
    form nao N (rotate idx u C) p (idx.getD b 0) = ∑ c ∈ Finset.range idx.length, form nao N C p (idx.getD c 0) * u c b := by
  unfold form
  simp only [Finset.sum_mul]
  rw [Finset.sum_comm (s := Finset.range idx.length)]
  refine Finset.sum_congr rfl fun i _ => ?_
  rw [Finset.sum_comm (s := Finset.range idx.length)]
  refine Finset.sum_congr rfl fun j _ => ?_
  rw [rotate_get hn u C j hb, rotate_not u C i hp, Finset.mul_sum]
  exact Finset.sum_congr rfl fun c _ => by ring

theorem form_rotate_not {nao : Nat} {idx : List Nat} (N u C : M2 ℂ) {p q : Nat} (hp : p ∉ idx) (hq : q ∉ idx) :
    form nao N (rotate idx u C) p q = form nao N C p q := by
  unfold form
  exact Finset.sum_congr rfl fun i _ => Finset.sum_congr rfl fun j _ => by rw [rotate_not u C i hp, rotate_not u C j hq]

/-- Orthonormal orbitals stay orthonormal. -/
theorem ortho_rotate {nao n : Nat} {S C u f : M2 ℂ} {w : Nat → ℂ} {idx : List Nat} (hn : idx.Nodup) (hi : ∀ p ∈ idx, p < n) (hu : IsEig idx.length f (w, u))
    (hC : ∀ p < n, ∀ q < n, form nao S C p q = if p = q then 1 else 0) {p q : Nat} (hp : p < n) (hq : q < n) :
    form nao S (rotate idx u C) p q = if p = q then 1 else 0 := by
  have gl : ∀ {c}, c < idx.length → idx.getD c 0 < n := fun h => hi _ (getD_mem h)
  by_cases h1 : p ∈ idx
  · obtain ⟨a, ha, rfl⟩ := exists_getD h1
    by_cases h2 : q ∈ idx
    · obtain ⟨b, hb, rfl⟩ := exists_getD h2
      rw [form_rotate hn S u C ha hb]
      have e : ∀ c ∈ Finset.range idx.length, (∑ d ∈ Finset.range idx.length, form nao S C (idx.getD c 0) (idx.getD d 0) * u d b) = u c b := by
        intro c hc
        have hc := Finset.mem_range.1 hc
        rw [Finset.sum_eq_single_of_mem c (Finset.mem_range.2 hc) fun d hd hdc => ?_]
        · rw [hC _ (gl hc) _ (gl hc), if_pos rfl, one_mul]
        · have hd := Finset.mem_range.1 hd
          rw [hC _ (gl hc) _ (gl hd), if_neg (fun x => hdc ((getD_inj hn hc hd).1 x).symm), zero_mul]
      rw [Finset.sum_congr rfl fun c hc => by rw [e c hc], hu.cols a ha b hb]
      exact if_congr (getD_inj hn ha hb).symm rfl rfl
    · rw [form_rotate_l hn S u C ha h2, if_neg (fun x : idx.getD a 0 = q => h2 (x ▸ h1))]
      refine Finset.sum_eq_zero fun c hc => ?_
      have hc := Finset.mem_range.1 hc
      rw [hC _ (gl hc) _ hq, if_neg (fun x : idx.getD c 0 = q => h2 (x ▸ getD_mem hc)), mul_zero]
  · by_cases h2 : q ∈ idx
    · obtain ⟨b, hb, rfl⟩ := exists_getD h2
      rw [form_rotate_r hn S u C hb h1, if_neg (fun x : p = idx.getD b 0 => h1 (x ▸ h2))]
      refine Finset.sum_eq_zero fun c hc => ?_
      have hc := Finset.mem_range.1 hc
      rw [hC _ hp _ (gl hc), if_neg (fun x : p = idx.getD c 0 => h1 (x ▸ getD_mem hc)), zero_mul]
    · rw [form_rotate_not S u C h1 h2, hC p hp q hq]

/-- The Fock matrix is diagonal in the rotated orbitals. -/
theorem fock_rotate {nao : Nat} {F C u : M2 ℂ} {w : Nat → ℂ} {idx : List Nat} (hn : idx.Nodup) (hu : IsEig idx.length (subFock nao F C idx) (w, u))
    {a b : Nat} (ha : a < idx.length) (hb : b < idx.length) :
    form nao F (rotate idx u C) (idx.getD a 0) (idx.getD b 0) = if a = b then w a else 0 := by
  rw [form_rotate hn F u C ha hb]
  have e : ∀ c ∈ Finset.range idx.length, (∑ d ∈ Finset.range idx.length, form nao F C (idx.getD c 0) (idx.getD d 0) * u d b) = u c b * w b := by
    intro c hc
    rw [← hu.eig c (Finset.mem_range.1 hc) b hb]
    exact Finset.sum_congr rfl fun d _ => by rw [subFock_eq]
  rw [Finset.sum_congr rfl fun c hc => by rw [e c hc, ← mul_assoc], ← Finset.sum_mul, hu.cols a ha b hb]
  by_cases h : a = b
  · rw [if_pos h, if_pos h, one_mul, h]
  · rw [if_neg h, if_neg h, zero_mul]

/-- The density of the rotated orbitals does not change. -/
theorem dens_rotate {C u f : M2 ℂ} {w : Nat → ℂ} {idx : List Nat} (hn : idx.Nodup) (hu : IsEig idx.length f (w, u)) {n : Nat} (hi : ∀ p ∈ idx, p < n) (i j : Nat) :
    ∑ p ∈ Finset.range n, rotate idx u C i p * star (rotate idx u C j p) = ∑ p ∈ Finset.range n, C i p * star (C j p) := by
  have hsub : idx.toFinset ⊆ Finset.range n := fun p hp => Finset.mem_range.2 (hi p (List.mem_toFinset.1 hp))
  rw [← Finset.sum_sdiff hsub, ← Finset.sum_sdiff hsub]
  refine congrArg₂ (· + ·) (Finset.sum_congr rfl fun p hp => ?_) ?_
  · have := (Finset.mem_sdiff.1 hp).2
    rw [List.mem_toFinset] at this
    rw [rotate_not u C i this, rotate_not u C j this]
  · rw [sum_idx hn, sum_idx hn]
    have e : ∀ a ∈ Finset.range idx.length, rotate idx u C i (idx.getD a 0) * star (rotate idx u C j (idx.getD a 0)) =
        ∑ b ∈ Finset.range idx.length, ∑ c ∈ Finset.range idx.length, C i (idx.getD b 0) * star (C j (idx.getD c 0)) * (u b a * star (u c a)) := by
      intro a ha
      have ha := Finset.mem_range.1 ha
      rw [rotate_get hn u C i ha, rotate_get hn u C j ha, star_sum, Finset.sum_mul]
      refine Finset.sum_congr rfl fun b _ => ?_
      rw [Finset.mul_sum]
      exact Finset.sum_congr rfl fun c _ => by rw [star_mul']; ring
    rw [Finset.sum_congr rfl e, Finset.sum_comm]
    refine Finset.sum_congr rfl fun b hb => ?_
    rw [Finset.sum_comm]
    have e2 : ∀ c ∈ Finset.range idx.length, (∑ a ∈ Finset.range idx.length, C i (idx.getD b 0) * star (C j (idx.getD c 0)) * (u b a * star (u c a))) =
        if c = b then C i (idx.getD b 0) * star (C j (idx.getD c 0)) else 0 := by
      intro c hc
      rw [← Finset.mul_sum, hu.rows b (Finset.mem_range.1 hb) c (Finset.mem_range.1 hc)]
      by_cases h : b = c
      · rw [if_pos h, if_pos h.symm, mul_one]
      · rw [if_neg h, if_neg (fun x => h x.symm), mul_zero]
    rw [Finset.sum_congr rfl e2, Finset.sum_ite_eq' , if_pos hb]

/-- The sorted solution is a solution. -/
theorem solve_eig {eig : Nat → M2 ℂ → (Nat → ℂ) × M2 ℂ} {argsort : Nat → (Nat → ℂ) → Nat → Nat} (he : EigContract eig) (hs : SortContract argsort) (sort : Bool)
    {n : Nat} {f : M2 ℂ} (hf : ∀ a < n, ∀ b < n, star (f a b) = f b a) : IsEig n f (solve sort eig argsort n f) := by
  have h := he n f hf
  cases sort with
  | false => exact h
  | true =>
    obtain ⟨s1, s2⟩ := hs n (eig n f).1
    unfold solve
    refine ⟨fun a ha b hb => ?_, fun a ha b hb => ?_, fun a ha b hb => ?_⟩
    · exact (h.cols _ (s1 a ha) _ (s1 b hb)).trans (if_congr ⟨s2 a ha b hb, fun x => x ▸ rfl⟩ rfl rfl)
    · rw [← h.rows a ha b hb]
      have himg : (Finset.range n).image (argsort n (eig n f).1) = Finset.range n := by
        refine Finset.eq_of_subset_of_card_le (fun x hx => ?_) (le_of_eq ?_)
        · obtain ⟨y, hy, rfl⟩ := Finset.mem_image.1 hx
          exact Finset.mem_range.2 (s1 y (Finset.mem_range.1 hy))
        · rw [Finset.card_image_of_injOn]
          intro x hx y hy hxy
          exact s2 x (Finset.mem_range.1 hx) y (Finset.mem_range.1 hy) hxy
      have := Finset.sum_image (s := Finset.range n) (g := argsort n (eig n f).1) (f := fun c => (eig n f).2 a c * star ((eig n f).2 b c))
        (fun x hx y hy hxy => s2 x (Finset.mem_range.1 hx) y (Finset.mem_range.1 hy) hxy)
      rw [himg] at this
      exact this.symm
    · exact h.eig a ha _ (s1 b hb)

/-- One `_diag_subfock_`. -/
theorem diagSub_val {nk nao : Nat} {sort : Bool} {eig : Nat → M2 ℂ → (Nat → ℂ) × M2 ℂ} {argsort : Nat → (Nat → ℂ) → Nat → Nat} {F : Mos}
    {r : Ref} (hr : ∀ a < nk, ∀ b < nk, r.addr a = r.addr b → a = b) {idx : List Nat} (hl : 1 < idx.length) (H : Heap) (E : Nat → Nat → ℂ) :
    let e := fun k => solve sort eig argsort idx.length (subFock nao (F k) (H (r.addr k)) idx)
    (∀ k < nk, (diagSub nk nao sort eig argsort F r idx (H, E)).1 (r.addr k) = rotate idx (e k).2 (H (r.addr k)) ∧
      (diagSub nk nao sort eig argsort F r idx (H, E)).2 k = putEnergy idx (e k).1 (E k)) ∧
    (∀ x, (∀ k < nk, x ≠ r.addr k) → (diagSub nk nao sort eig argsort F r idx (H, E)).1 x = H x) := by
  intro e
  unfold diagSub
  rw [if_pos hl]
  have key : ∀ n ≤ nk, let st := (List.range n).foldl (fun st k =>
      let C := st.1 (r.addr k)
      let e := solve sort eig argsort idx.length (subFock nao (F k) C idx)
      (Function.update st.1 (r.addr k) (rotate idx e.2 C), Function.update st.2 k (putEnergy idx e.1 (st.2 k)))) (H, E)
      (∀ k < n, st.1 (r.addr k) = rotate idx (e k).2 (H (r.addr k)) ∧ st.2 k = putEnergy idx (e k).1 (E k)) ∧
      (∀ x, (∀ k < n, x ≠ r.addr k) → st.1 x = H x) ∧ (∀ k, n ≤ k → st.2 k = E k) := by
    intro n
    induction n with
    | zero => exact fun _ => ⟨fun k hk => absurd hk (Nat.not_lt_zero k), fun _ _ => rfl, fun _ _ => rfl⟩
    | succ n ih =>
      intro hn st
      obtain ⟨i1, i2, i3⟩ := ih (by omega)
      have hst : st = _ := (List.foldl_concat _ _ _ _ ▸ congrArg (List.foldl _ (H, E)) (List.range_succ (n := n)) : st = _)
      have hx : ∀ k < n, r.addr n ≠ r.addr k := fun k hk x => by
        have := hr n (by omega) k (by omega) x
        omega
      have v1 := i2 (r.addr n) hx
      have v2 := i3 n le_rfl
      rw [hst]
      dsimp only
      rw [v1, v2]
      refine ⟨fun k hk => ?_, fun x hxx => ?_, fun k hk => ?_⟩
      · by_cases hkn : k = n
        · subst hkn
          rw [Function.update_self, Function.update_self]
          exact ⟨rfl, rfl⟩
        · have hk' : k < n := by omega
          rw [Function.update_of_ne (fun x => hx k hk' x.symm), Function.update_of_ne hkn]
          exact i1 k hk'
      · rw [Function.update_of_ne (hxx n (by omega))]
        exact i2 x fun k hk => hxx k (by omega)
      · rw [Function.update_of_ne (by omega)]
        exact i3 k (by omega)
  obtain ⟨k1, k2, _⟩ := key nk le_rfl
  exact ⟨k1, k2⟩

theorem freeIdx_nodup (frozen : List Nat) (lo hi : Nat) : (freeIdx frozen lo hi).Nodup := List.Nodup.filter _ List.nodup_range'

theorem mem_freeIdx {frozen : List Nat} {lo hi p : Nat} : p ∈ freeIdx frozen lo hi ↔ lo ≤ p ∧ p < hi ∧ p ∉ frozen := by
  unfold freeIdx
  rw [List.mem_filter, List.mem_range'_1]
  simp only [Bool.not_eq_true', decide_eq_false_iff_not]
  constructor
  · rintro ⟨⟨h1, h2⟩, h3⟩
    exact ⟨h1, by omega, h3⟩
  · rintro ⟨h1, h2, h3⟩
    exact ⟨⟨h1, by omega⟩, h3⟩

end Verif.KptCanon
