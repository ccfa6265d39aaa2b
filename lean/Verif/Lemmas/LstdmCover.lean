import Verif.Lemmas.LstdmSum
/-!
# Lemmas: exact matrices of a pair of product states
-/
namespace Verif.Lstdm
open Verif.Spec Verif.Spec.Tdm Verif.Spec.Lstdm Verif.Spec.Fockspace Verif.Tdm Verif.Signs Verif.Exc

theorem mem_tril (n i j : Nat) : (i, j) ∈ trilIndices n ↔ i < n ∧ j < i := by
  simp [trilIndices]

theorem nodup_tril (n : Nat) : (trilIndices n).Nodup := by
  unfold trilIndices
  rw [List.nodup_flatMap]
  refine ⟨fun i _ => List.nodup_range.map (fun a b h => (Prod.mk.inj h).2), ?_⟩
  refine List.nodup_range.pairwise_of_forall_ne ?_
  intro a _ b _ hab
  rw [Function.onFun, List.disjoint_left]
  intro x hx hy
  obtain ⟨_, _, rfl⟩ := List.mem_map.mp hx
  obtain ⟨_, _, h⟩ := List.mem_map.mp hy
  exact hab (Prod.mk.inj h).1.symm

theorem nodup_expand (m : Nat) (x : Inter) : (expand m x).Nodup := by
  cases x with
  | null =>
    unfold expand
    rw [List.nodup_append]
    refine ⟨List.nodup_range.map (fun a b h => by simpa using h), (nodup_tril m).map (fun a b h => by
      simp only [Lstdm.Row.d2.injEq] at h; exact Prod.ext h.1 h.2), ?_⟩
    intro a ha b hb hab
    obtain ⟨_, _, rfl⟩ := List.mem_map.mp ha
    obtain ⟨_, _, rfl⟩ := List.mem_map.mp hb
    simp at hab
  | c1 i j s =>
    unfold expand
    rw [List.nodup_cons]
    refine ⟨by simp, (List.nodup_range.filter _).map (fun a b h => by
      simp only [Lstdm.Row.c1d1.injEq] at h; exact h.2.2.1)⟩
  | s1 i j => simp [expand]
  | s1c1 i j k s => simp [expand]
  | c2 i j k l s => simp [expand]

theorem mvs_out (m : Nat) (x : Inter) (hb : InB m x) (y : Nat × Bool) (hy : ¬ y.1 < m) :
    ((mvs x).map (fun p => ei p.1 y - ei p.2 y)).sum = 0 := by
  have h0 : ∀ f (s : Bool), f < m → ei (f, s) y = 0 := by
    intro f s hf
    exact ei_ne (by rintro rfl; exact hy hf)
  cases x <;> simp [mvs, Inter.moves, InB] at hb ⊢ <;> simp [h0, hb]

/-- Every nonzero element of the two-body matrix is in the blocks of exactly one row. -/
theorem cover2 (m : Nat) (x : Inter) (hn : x.Normal) (s t : Bool) (fp fq fr fu : Nat) (hfp : fp < m)
    (hfr : fr < m)
    (h : ∀ y, ((mvs x).map (fun p => ei p.1 y - ei p.2 y)).sum = ei (fp, s) y + ei (fr, t) y - ei (fq, s) y - ei (fu, t) y) :
    ∃ r ∈ expand m x, rp2 r s t fp fq fr fu ∧ ∀ r' ∈ expand m x, rp2 r' s t fp fq fr fu → r' = r := by
  cases x with
  | null =>
    have h' := two_two (a := (fp, s)) (b := (fr, t)) (c := (fq, s)) (d := (fu, t)) (fun y => by
      have := h y; simp [mvs, Inter.moves] at this; omega)
    simp only [Prod.mk.injEq] at h'
    by_cases h1 : fp = fr
    · subst h1
      refine ⟨.d1 fp, by simp [expand, hfp], ?_, ?_⟩
      · simp only [rp2]
        rcases h' with ⟨⟨h1, _⟩, h2, _⟩ | ⟨⟨h1, _⟩, h2, _⟩
        · exact ⟨trivial, h1.symm, trivial, h2.symm⟩
        · exact ⟨trivial, h2.symm, trivial, h1.symm⟩
      · intro r' hr' hp
        simp only [expand, List.mem_append, List.mem_map, List.mem_range, Prod.exists] at hr'
        rcases hr' with ⟨a, ha, rfl⟩ | ⟨a, b, hab, rfl⟩
        · simp only [rp2] at hp; simp only [Lstdm.Row.d1.injEq]; omega
        · rw [mem_tril] at hab
          simp only [rp2] at hp
          omega
    · have key : ∀ i j, i < m → j < i → ((fp = i ∧ fr = j) ∨ (fp = j ∧ fr = i)) →
          ∃ r ∈ expand m .null, rp2 r s t fp fq fr fu ∧ ∀ r' ∈ expand m .null, rp2 r' s t fp fq fr fu → r' = r := by
        intro i j hi hj hh
        refine ⟨.d2 i j, ?_, ?_, ?_⟩
        · simp only [expand, List.mem_append, List.mem_map, List.mem_range, Prod.exists]
          exact Or.inr ⟨i, j, (mem_tril m i j).mpr ⟨hi, hj⟩, rfl⟩
        · simp only [rp2]
          rcases h' with ⟨⟨h1, _⟩, h2, _⟩ | ⟨⟨h1, hs⟩, h2, _⟩
          · omega
          · refine Or.inr (Or.inr ⟨hs, ?_⟩)
            omega
        · intro r' hr' hp
          simp only [expand, List.mem_append, List.mem_map, List.mem_range, Prod.exists] at hr'
          rcases hr' with ⟨a, ha, rfl⟩ | ⟨a, b, hab, rfl⟩
          · simp only [rp2] at hp; omega
          · rw [mem_tril] at hab
            simp only [rp2] at hp
            simp only [Lstdm.Row.d2.injEq]
            omega
      by_cases h2 : fr < fp
      · exact key fp fr hfp h2 (by omega)
      · exact key fr fp hfr (by omega) (by omega)
  | c1 i j n =>
    obtain ⟨hij, hn2⟩ := hn
    have hσ : (!(n == 0)) = (n != 0) := rfl
    have h' := hop1_two (a := (fp, s)) (b := (fr, t)) (c := (fq, s)) (d := (fu, t)) (z := (j, n != 0)) (w := (i, n != 0))
      (by intro e; exact hij (Prod.mk.inj e).1.symm) (fun y => by
      have := h y; simp [mvs, Inter.moves] at this; rw [hσ] at this; omega)
    simp only [Prod.mk.injEq] at h'
    have hk : ∃ k, k < m ∧ pat1c (n != 0) i j k s t fp fq fr fu := by
      unfold pat1c
      rcases h' with h' | h' | h' | h'
      · exact ⟨fr, hfr, Or.inl ⟨h'.1.2, h'.1.1, h'.2.1.1, rfl, h'.2.2.1.symm⟩⟩
      · refine ⟨fr, hfr, Or.inr (Or.inr ⟨h'.1.2, h'.2.1.2, Or.inl ⟨h'.1.1, h'.2.2.1.symm, rfl, h'.2.1.1⟩⟩)⟩
      · refine ⟨fp, hfp, Or.inr (Or.inr ⟨h'.2.1.2, h'.1.2, Or.inr ⟨rfl, h'.2.1.1, h'.1.1, h'.2.2.1.symm⟩⟩)⟩
      · exact ⟨fp, hfp, Or.inr (Or.inl ⟨h'.1.2, rfl, h'.2.2.1.symm, h'.1.1, h'.2.1.1⟩)⟩
    obtain ⟨k, hk, hpat⟩ := hk
    have uniq : ∀ k', pat1c (n != 0) i j k' s t fp fq fr fu → k' = k := by
      intro k' h''
      unfold pat1c at hpat h''
      have e1 : fp + fq + fr + fu = i + j + 2 * k := by
        rcases hpat with ⟨_, _, _, _, _⟩ | ⟨_, _, _, _, _⟩ | ⟨_, _, ⟨_, _, _, _⟩ | ⟨_, _, _, _⟩⟩ <;> omega
      have e2 : fp + fq + fr + fu = i + j + 2 * k' := by
        rcases h'' with ⟨_, _, _, _, _⟩ | ⟨_, _, _, _, _⟩ | ⟨_, _, ⟨_, _, _, _⟩ | ⟨_, _, _, _⟩⟩ <;> omega
      omega
    by_cases hkij : k = i ∨ k = j
    · refine ⟨.c1 i j n, by simp [expand], ?_, ?_⟩
      · simp only [rp2]
        rcases hkij with rfl | rfl
        · exact Or.inr hpat
        · exact Or.inl hpat
      · intro r' hr' hp
        simp only [expand, List.mem_cons, List.mem_map, List.mem_filter, List.mem_range] at hr'
        rcases hr' with rfl | ⟨a, ⟨ha, hb⟩, rfl⟩
        · rfl
        · have := uniq a hp
          simp at hb
          omega
    · refine ⟨.c1d1 i j k n, ?_, hpat, ?_⟩
      · simp only [expand, List.mem_cons, List.mem_map, List.mem_filter, List.mem_range]
        refine Or.inr ⟨k, ⟨hk, ?_⟩, rfl⟩
        simp
        omega
      · intro r' hr' hp
        simp only [expand, List.mem_cons, List.mem_map, List.mem_filter, List.mem_range] at hr'
        rcases hr' with rfl | ⟨a, ⟨ha, hb⟩, rfl⟩
        · exfalso
          simp only [rp2] at hp
          rcases hp with hp | hp
          · have := uniq _ hp; omega
          · have := uniq _ hp; omega
        · rw [uniq a hp]
  | s1 i j =>
    have hij : i ≠ j := hn
    have h' := hop2_two (a := (fp, s)) (b := (fr, t)) (c := (fq, s)) (d := (fu, t)) (z1 := (j, false)) (w1 := (i, false))
      (z2 := (i, true)) (w2 := (j, true)) (by simp [Ne.symm hij]) (by simp) (by simp) (by simp [hij]) (fun y => by
      have := h y; simp [mvs, Inter.moves] at this; omega)
    refine ⟨.s1 i j, by simp [expand], ?_, by simp [expand]⟩
    simp only [Prod.mk.injEq] at h'
    simp only [rp2]
    cases s <;> cases t <;> simp at h' ⊢ <;> omega
  | s1c1 i j k n =>
    obtain ⟨hij, hik, hjk, hn2⟩ := hn
    have hσ : (!(n == 0)) = (n != 0) := rfl
    have h' := hop2_two (a := (fp, s)) (b := (fr, t)) (c := (fq, s)) (d := (fu, t)) (z1 := (k, n != 0)) (w1 := (i, n != 0))
      (z2 := (j, !(n != 0))) (w2 := (k, !(n != 0))) (by simp [Ne.symm hik]) (by simp) (by simp) (by simp [hjk]) (fun y => by
      have := h y; simp only [mvs, Inter.moves, List.map_cons, List.map_nil, List.sum_cons, List.sum_nil, hσ] at this; omega)
    refine ⟨.s1c1 i j k n, by simp [expand], ?_, by simp [expand]⟩
    simp only [Prod.mk.injEq] at h'
    simp only [rp2]
    generalize (n != 0) = b at *
    cases s <;> cases t <;> cases b <;> simp at h' ⊢ <;> omega
  | c2 i j k l n =>
    obtain ⟨hij, hil, hkj, hkl, hn3, _⟩ := hn
    have hσ : (!(n != 2)) = (n == 2) := by simp [bne]
    have hτ : (!(n == 0)) = (n != 0) := rfl
    have h' := hop2_two (a := (fp, s)) (b := (fr, t)) (c := (fq, s)) (d := (fu, t)) (z1 := (j, n == 2)) (w1 := (i, n == 2))
      (z2 := (l, n != 0)) (w2 := (k, n != 0)) (by simp [Ne.symm hij]) (by simp [Ne.symm hkj]) (by simp [Ne.symm hil])
      (by simp [Ne.symm hkl]) (fun y => by
      have := h y; simp only [mvs, Inter.moves, List.map_cons, List.map_nil, List.sum_cons, List.sum_nil, hσ, hτ] at this; omega)
    refine ⟨.c2 i j k l n, by simp [expand], ?_, by simp [expand]⟩
    simp only [Prod.mk.injEq] at h'
    simp only [rp2, pat2c]
    generalize (n == 2) = b at *
    generalize (n != 0) = c at *
    cases s <;> cases t <;> cases b <;> cases c <;> simp at h' ⊢ <;> omega

/-- Every nonzero element of the one-body matrix is in the blocks of exactly one row. -/
theorem cover1 (m : Nat) (x : Inter) (hn : x.Normal) (s : Bool) (fp fq : Nat) (hfp : fp < m)
    (h : ∀ y, ((mvs x).map (fun p => ei p.1 y - ei p.2 y)).sum = ei (fp, s) y - ei (fq, s) y) :
    ∃ r ∈ expand m x, rp1 r s fp fq ∧ ∀ r' ∈ expand m x, rp1 r' s fp fq → r' = r := by
  cases x with
  | null =>
    have h' := one_one (a := (fp, s)) (b := (fq, s)) (fun y => by
      have := h y; simp [mvs, Inter.moves] at this; omega)
    simp only [Prod.mk.injEq, and_true] at h'
    refine ⟨.d1 fp, by simp [expand, hfp], ⟨rfl, h'.symm⟩, ?_⟩
    intro r' hr' hp
    simp only [expand, List.mem_append, List.mem_map, List.mem_range, Prod.exists] at hr'
    rcases hr' with ⟨a, ha, rfl⟩ | ⟨a, b, hab, rfl⟩
    · simp only [rp1] at hp; rw [hp.1]
    · simp only [rp1] at hp
  | c1 i j n =>
    obtain ⟨hij, hn2⟩ := hn
    have hσ : (!(n == 0)) = (n != 0) := rfl
    have h' := hop1_one (a := (fp, s)) (c := (fq, s)) (z := (j, n != 0)) (w := (i, n != 0))
      (by intro e; exact hij (Prod.mk.inj e).1.symm) (fun y => by
      have := h y; simp [mvs, Inter.moves] at this; rw [hσ] at this; omega)
    simp only [Prod.mk.injEq] at h'
    refine ⟨.c1 i j n, by simp [expand], ⟨h'.1.2, h'.1.1, h'.2.1⟩, ?_⟩
    intro r' hr' hp
    simp only [expand, List.mem_cons, List.mem_map, List.mem_filter, List.mem_range] at hr'
    rcases hr' with rfl | ⟨a, _, rfl⟩
    · rfl
    · simp only [rp1] at hp
  | s1 i j =>
    have hij : i ≠ j := hn
    exact (hop2_one (a := (fp, s)) (c := (fq, s)) (z1 := (j, false)) (w1 := (i, false))
      (z2 := (i, true)) (w2 := (j, true)) (by simp [Ne.symm hij]) (by simp) (by simp) (by simp [hij]) (fun y => by
      have := h y; simp [mvs, Inter.moves] at this; omega)).elim
  | s1c1 i j k n =>
    obtain ⟨hij, hik, hjk, hn2⟩ := hn
    have hσ : (!(n == 0)) = (n != 0) := rfl
    exact (hop2_one (a := (fp, s)) (c := (fq, s)) (z1 := (k, n != 0)) (w1 := (i, n != 0))
      (z2 := (j, !(n != 0))) (w2 := (k, !(n != 0))) (by simp [Ne.symm hik]) (by simp) (by simp) (by simp [hjk]) (fun y => by
      have := h y; simp only [mvs, Inter.moves, List.map_cons, List.map_nil, List.sum_cons, List.sum_nil, hσ] at this; omega)).elim
  | c2 i j k l n =>
    obtain ⟨hij, hil, hkj, hkl, hn3, _⟩ := hn
    have hσ : (!(n != 2)) = (n == 2) := by simp [bne]
    have hτ : (!(n == 0)) = (n != 0) := rfl
    exact (hop2_one (a := (fp, s)) (c := (fq, s)) (z1 := (j, n == 2)) (w1 := (i, n == 2))
      (z2 := (l, n != 0)) (w2 := (k, n != 0)) (by simp [Ne.symm hij]) (by simp [Ne.symm hkj]) (by simp [Ne.symm hil])
      (by simp [Ne.symm hkl]) (fun y => by
      have := h y; simp only [mvs, Inter.moves, List.map_cons, List.map_nil, List.sum_cons, List.sum_nil, hσ, hτ] at this; omega)).elim

variable {K : Type} [CommRing K] [DecidableEq K]

/-- All rows of a classified interaction are exact. -/
theorem rows_ok {L : Lstdm K} {v : Nat → Nat → Vec K} (hD : Describes L v) (h8 : L.nlas.length ≤ 8) (bra ket : Nat) (x : Inter)
    (hn : x.Normal) (hb : InB L.nlas.length x)
    (hx : ∀ f < L.nlas.length, ∀ σ, cz L bra f σ - cz L ket f σ = ((mvs x).map (fun p => ei p.1 (f, σ) - ei p.2 (f, σ))).sum) :
    ∀ r ∈ expand L.nlas.length x, RowOk L v bra ket r (rp1 r) (rp2 r) := by
  have e : ∀ f (s : Bool) (g : Nat) (σ : Bool), ei (f, s) (g, σ) = if g = f ∧ σ = s then 1 else 0 := by
    intro f s g σ; unfold ei; simp only [Prod.mk.injEq]
  have hs : ∀ n, n < 2 → ix (n != 0) = n := by
    intro n hn
    have : n = 0 ∨ n = 1 := by omega
    rcases this with rfl | rfl <;> rfl
  cases x with
  | null =>
    have hm : ∀ g < L.nlas.length, cz L bra g = cz L ket g := by
      intro g hg; funext σ
      have := hx g hg σ
      simp [mvs, Inter.moves] at this; omega
    intro r hr
    simp only [expand, List.mem_append, List.mem_map, List.mem_range, Prod.exists] at hr
    rcases hr with ⟨a, ha, rfl⟩ | ⟨a, b, hab, rfl⟩
    · exact row_1d hD h8 bra ket a ha hm
    · rw [mem_tril] at hab
      exact row_2d hD h8 bra ket a b hab.1 (by omega) (by omega) hm
  | c1 i j n =>
    obtain ⟨hij, hn2⟩ := hn
    obtain ⟨hi, hj⟩ := hb
    have hm : ∀ g < L.nlas.length, cz L bra g = mv i j (n != 0) (cz L ket) g := by
      intro g hg; funext σ
      have := hx g hg σ
      simp only [mvs, Inter.moves, List.map_cons, List.map_nil, List.sum_cons, List.sum_nil, e] at this
      rw [show (!(n == 0)) = (n != 0) from rfl] at this
      unfold mv
      omega
    intro r hr
    simp only [expand, List.mem_cons, List.mem_map, List.mem_filter, List.mem_range] at hr
    rcases hr with rfl | ⟨a, ⟨ha, hab⟩, rfl⟩
    · have := row_c1 hD h8 bra ket i j (n != 0) hi hj hij hm
      rw [hs n hn2] at this
      exact this
    · simp at hab
      have := row_c1d1 hD h8 bra ket i j a (n != 0) hi hj ha hij (by omega) (by omega) hm
      rw [hs n hn2] at this
      exact this
  | s1 i j =>
    have hij : i ≠ j := hn
    obtain ⟨hi, hj⟩ := hb
    have hm : ∀ g < L.nlas.length, cz L bra g = mv i j false (mv j i true (cz L ket)) g := by
      intro g hg; funext σ
      have := hx g hg σ
      simp only [mvs, Inter.moves, List.map_cons, List.map_nil, List.sum_cons, List.sum_nil, e, Bool.not_true, Bool.not_false] at this
      unfold mv
      omega
    intro r hr
    simp only [expand, List.mem_singleton] at hr
    subst hr
    exact row_s1 hD h8 bra ket i j hi hj hij hm
  | s1c1 i j k n =>
    obtain ⟨hij, hik, hjk, hn2⟩ := hn
    obtain ⟨hi, hj, hk⟩ := hb
    have hm : ∀ g < L.nlas.length, cz L bra g = mv i k (n != 0) (mv k j (!(n != 0)) (cz L ket)) g := by
      intro g hg; funext σ
      have := hx g hg σ
      simp only [mvs, Inter.moves, List.map_cons, List.map_nil, List.sum_cons, List.sum_nil, e] at this
      rw [show (!(n == 0)) = (n != 0) from rfl] at this
      unfold mv
      omega
    intro r hr
    simp only [expand, List.mem_singleton] at hr
    subst hr
    have := row_s1c1 hD h8 bra ket i j k (n != 0) hi hj hk hij hik hjk hm
    rw [hs n hn2] at this
    exact this
  | c2 i j k l n =>
    obtain ⟨hij, hil, hkj, hkl, hn3, _⟩ := hn
    obtain ⟨hi, hj, hk, hl⟩ := hb
    have hm : ∀ g < L.nlas.length, cz L bra g = mv i j (n == 2) (mv k l (n != 0) (cz L ket)) g := by
      intro g hg; funext σ
      have := hx g hg σ
      simp only [mvs, Inter.moves, List.map_cons, List.map_nil, List.sum_cons, List.sum_nil, e] at this
      rw [show (!(n == 0)) = (n != 0) from rfl, show (!(n != 2)) = (n == 2) by simp [bne]] at this
      unfold mv
      omega
    intro r hr
    simp only [expand, List.mem_singleton] at hr
    subst hr
    have hnn : n = 0 ∨ n = 1 ∨ n = 2 := by omega
    have := row_c2 hD h8 bra ket i j k l (n == 2) (n != 0) (by rcases hnn with rfl | rfl | rfl <;> decide) hi hj hk hl hij hil
      hkj hkl hm
    rw [show ix (n == 2) + ix (n != 0) = n by rcases hnn with rfl | rfl | rfl <;> rfl] at this
    exact this

/-! ### The screening -/

theorem nelecI_getD (L : Lstdm K) (st f : Nat) :
    (L.nelecI st).getD f (0, 0) = (cz L st f false, cz L st f true) := by
  unfold Lstdm.nelecI cz cnt
  rw [List.getD_eq_getElem?_getD, List.getElem?_map, List.getD_eq_getElem?_getD]
  cases (L.nelec st)[f]? <;> simp

theorem zip_sum {M : Type} [AddCommMonoid M] (F : (Int × Int) × (Int × Int) → M) (a b : List (Int × Int)) (h : a.length = b.length) :
    ((a.zip b).map F).sum = ∑ f ∈ Finset.range a.length, F (a.getD f (0, 0), b.getD f (0, 0)) := by
  induction a generalizing b with
  | nil => simp
  | cons x a ih =>
    cases b with
    | nil => simp at h
    | cons y b =>
      rw [List.zip_cons_cons, List.map_cons, List.sum_cons, List.length_cons, Finset.sum_range_succ', ih b (by simpa using h)]
      simp [add_comm]

/-- Pairs of states that a one- or two-body operator connects pass the screening. -/
theorem coupled_of {L : Lstdm K} {v : Nat → Nat → Vec K} (hD : Describes L v) (bra ket : Nat) (s t : Bool) (fp fq fr fu : Nat)
    (hfp : fp < L.nlas.length) (hfq : fq < L.nlas.length) (hfr : fr < L.nlas.length) (hfu : fu < L.nlas.length)
    (h : ∀ g < L.nlas.length, decF t fr (decF s fp (cz L bra)) g = decF t fu (decF s fq (cz L ket)) g) :
    SC.isCoupled (L.nelecI bra) (L.nelecI ket) = true := by
  have hl : ∀ st, (L.nelecI st).length = L.nlas.length := by
    intro st; unfold Lstdm.nelecI; rw [List.length_map]; exact hD.len st
  have hd : ∀ σ, ∀ g ∈ Finset.range L.nlas.length, cz L bra g σ - cz L ket g σ =
      (if g = fp then (if σ = s then 1 else 0) else 0) + (if g = fr then (if σ = t then 1 else 0) else 0) -
      (if g = fq then (if σ = s then 1 else 0) else 0) - (if g = fu then (if σ = t then 1 else 0) else 0) := by
    intro σ g hg
    have := congrFun (h g (Finset.mem_range.mp hg)) σ
    unfold decF at this
    simp only [ite_and] at this
    omega
  have hz : ∀ σ, ∑ g ∈ Finset.range L.nlas.length, (cz L bra g σ - cz L ket g σ) = 0 := by
    intro σ
    rw [Finset.sum_congr rfl (hd σ)]
    simp only [Finset.sum_sub_distrib, Finset.sum_add_distrib, Finset.sum_ite_eq', Finset.mem_range, hfp, hfq, hfr, hfu, if_true]
    omega
  unfold SC.isCoupled
  rw [SC.acc_eq]
  simp only [Bool.and_eq_true, beq_iff_eq, decide_eq_true_eq]
  rw [zip_sum _ _ _ ((hl bra).trans (hl ket).symm), zip_sum _ _ _ ((hl bra).trans (hl ket).symm),
    zip_sum _ _ _ ((hl bra).trans (hl ket).symm), hl]
  simp only [nelecI_getD]
  refine ⟨⟨hz false, hz true⟩, ?_⟩
  have hle : ∀ g ∈ Finset.range L.nlas.length, (cz L bra g false - cz L ket g false).natAbs +
      (cz L bra g true - cz L ket g true).natAbs ≤ (if g = fp then 1 else 0) + (if g = fr then 1 else 0) +
        (if g = fq then 1 else 0) + (if g = fu then 1 else 0) := by
    intro g hg
    rw [hd false g hg, hd true g hg]
    cases s <;> cases t <;> simp <;> split_ifs <;> simp
  refine (Finset.sum_le_sum hle).trans ?_
  simp only [Finset.sum_add_distrib, Finset.sum_ite_eq', Finset.mem_range, hfp, hfq, hfr, hfu, if_true]
  omega

/-! ### Result -/

theorem tdms_exact {L : Lstdm K} {v : Nat → Nat → Vec K} (hD : Describes L v) (h8 : L.nlas.length ≤ 8) (bra ket : Nat) :
    ∃ d1 d2, L.tdms bra ket = some (d1, d2) ∧
      (∀ s p q, p < L.nlas.sum → q < L.nlas.sum →
        d1 (ix s) p q = tdm1 L.nlas.sum (state L v bra) (state L v ket) s p q) ∧
      (∀ s t p q r u, p < L.nlas.sum → q < L.nlas.sum → r < L.nlas.sum → u < L.nlas.sum →
        d2 (ix2 s t) p q r u = tdm2 L.nlas.sum (state L v bra) (state L v ket) s t p q r u) := by
  classical
  have hl : ∀ st, (L.nelecI st).length = L.nlas.length := by
    intro st; unfold Lstdm.nelecI; rw [List.length_map]; exact hD.len st
  by_cases hc : SC.isCoupled (L.nelecI bra) (L.nelecI ket) = true
  · obtain ⟨x, hx, hn, hch⟩ := Verif.Props.classify_screened (L.nelecI bra) (L.nelecI ket) ((hl bra).trans (hl ket).symm) hc
    have hlen : (hopping (L.nelecI bra) (L.nelecI ket)).length = L.nlas.length := by simp [hopping, hl]
    have hb : InB L.nlas.length x := by
      have := rowAll_inB _ x (by rw [hx]; simp)
      rwa [hlen] at this
    have hx' : ∀ f < L.nlas.length, ∀ σ, cz L bra f σ - cz L ket f σ =
        ((mvs x).map (fun p => ei p.1 (f, σ) - ei p.2 (f, σ))).sum := by
      intro f hf σ
      rw [← change_pt]
      have := hch f (by rw [hl]; exact hf)
      rw [nelecI_getD, nelecI_getD] at this
      cases σ
      · exact this.1.symm
      · exact this.2.symm
    obtain ⟨d1, d2, hf, k1, k2⟩ := foldlM_put bra ket (expand L.nlas.length x) (rows_ok hD h8 bra ket x hn hb hx') (zero1, zero2)
    refine ⟨d1, d2, ?_, ?_, ?_⟩
    · unfold Lstdm.tdms
      rw [rows_coupled L bra ket hc x hx hn hb]
      exact hf
    · intro s P Q hP hQ
      obtain ⟨fp, p, hfp, hp, rfl⟩ := frag_of _ P hP
      obtain ⟨fq, q, hfq, hq, rfl⟩ := frag_of _ Q hQ
      rw [k1 s fp fq p q hp hq]
      rw [show ((zero1, zero2) : D1 K × D2 K).1 (ix s) (fragStart L.nlas fp + p) (fragStart L.nlas fq + q) = 0 from rfl, zero_add]
      by_cases hX : tdm1 L.nlas.sum (state L v bra) (state L v ket) s (fragStart L.nlas fp + p) (fragStart L.nlas fq + q) = 0
      · rw [sum_none _ _ _ hX, hX]
      · obtain ⟨r, hr, hrp, hu⟩ := cover1 L.nlas.length x hn s fp fq hfp (fun y => counts_pt1 hfp hfq
          (tdm1_counts L.nlas _ _ _ _ (nums hD bra) (nums hD ket) s fp fq p q hfp hfq hp hq hX) y _
          (fun hy => hx' y.1 hy y.2) (fun hy => mvs_out _ x hb y hy))
        exact sum_unique _ (nodup_expand _ x) _ _ r hr hrp hu
    · intro s t P Q R U hP hQ hR hU
      obtain ⟨fp, p, hfp, hp, rfl⟩ := frag_of _ P hP
      obtain ⟨fq, q, hfq, hq, rfl⟩ := frag_of _ Q hQ
      obtain ⟨fr, r, hfr, hr, rfl⟩ := frag_of _ R hR
      obtain ⟨fu, u, hfu, hu, rfl⟩ := frag_of _ U hU
      rw [k2 s t fp fq fr fu p q r u hp hq hr hu]
      rw [show ((zero1, zero2) : D1 K × D2 K).2 (ix2 s t) (fragStart L.nlas fp + p) (fragStart L.nlas fq + q) (fragStart L.nlas fr + r)
        (fragStart L.nlas fu + u) = 0 from rfl, zero_add]
      by_cases hX : tdm2 L.nlas.sum (state L v bra) (state L v ket) s t (fragStart L.nlas fp + p) (fragStart L.nlas fq + q)
          (fragStart L.nlas fr + r) (fragStart L.nlas fu + u) = 0
      · rw [sum_none _ _ _ hX, hX]
      · obtain ⟨r', hr', hrp, hu'⟩ := cover2 L.nlas.length x hn s t fp fq fr fu hfp hfr (fun y => counts_pt hfp hfq hfr hfu
          (tdm2_counts L.nlas _ _ _ _ (nums hD bra) (nums hD ket) s t fp fq fr fu p q r u hfp hfq hfr hfu hp hq hr hu hX) y _
          (fun hy => hx' y.1 hy y.2) (fun hy => mvs_out _ x hb y hy))
        exact sum_unique _ (nodup_expand _ x) _ _ r' hr' hrp hu'
  · refine ⟨zero1, zero2, by unfold Lstdm.tdms; rw [rows_uncoupled L bra ket hc]; rfl, ?_, ?_⟩
    · intro s P Q hP hQ
      obtain ⟨fp, p, hfp, hp, rfl⟩ := frag_of _ P hP
      obtain ⟨fq, q, hfq, hq, rfl⟩ := frag_of _ Q hQ
      by_contra hX
      have h1 := tdm1_counts L.nlas _ _ _ _ (nums hD bra) (nums hD ket) s fp fq p q hfp hfq hp hq (fun h => hX h.symm)
      refine hc (coupled_of hD bra ket s s fp fq fp fp hfp hfq hfp hfp ?_)
      intro g hg
      have := h1 g hg
      funext σ
      have := congrFun this σ
      unfold decF at this ⊢
      omega
    · intro s t P Q R U hP hQ hR hU
      obtain ⟨fp, p, hfp, hp, rfl⟩ := frag_of _ P hP
      obtain ⟨fq, q, hfq, hq, rfl⟩ := frag_of _ Q hQ
      obtain ⟨fr, r, hfr, hr, rfl⟩ := frag_of _ R hR
      obtain ⟨fu, u, hfu, hu, rfl⟩ := frag_of _ U hU
      by_contra hX
      exact hc (coupled_of hD bra ket s t fp fq fr fu hfp hfq hfr hfu
        (tdm2_counts L.nlas _ _ _ _ (nums hD bra) (nums hD ket) s t fp fq fr fu p q r u hfp hfq hfr hfu hp hq hr hu
          (fun h => hX h.symm)))

end Verif.Lstdm
