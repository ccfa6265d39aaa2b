import Verif.Lemmas.HamSpinFrag
import Verif.Lemmas.LstdmCover
import Mathlib.Tactic.IntervalCases
/-!
# Lemmas: all rows of a pair of rootspaces, from operators that are shared between members of spin multiplets
-/
namespace Verif.HamSpin
open Verif.Lstdm Verif.Spec Verif.Spec.Tdm Verif.Spec.Lstdm Verif.Signs Verif.Exc Verif.Addr

/-- The differences of the numbers of electrons at the fragments of a row. -/
def RowD (D : Nat → ℤ × ℤ) : Lstdm.Row → Prop
  | .d1 i => D i = (0, 0)
  | .d2 i j => D i = (0, 0) ∧ D j = (0, 0)
  | .c1 i j s => s < 2 ∧ D i = -dH s ∧ D j = dH s
  | .c1d1 i j k s => s < 2 ∧ D i = -dH s ∧ D j = dH s ∧ D k = (0, 0)
  | .s1 i j => D i = (1, -1) ∧ D j = (-1, 1)
  | .s1c1 i j k s => s < 2 ∧ D i = -dH s ∧ D j = dH (1 - s) ∧ D k = if s = 0 then (-1, 1) else (1, -1)
  | .c2 i j k l n => ∃ s11 s12, ((n = 0 ∧ s11 = 0 ∧ s12 = 0) ∨ (n = 1 ∧ s11 = 0 ∧ s12 = 1) ∨ (n = 2 ∧ s11 = 1 ∧ s12 = 1)) ∧
      (i ≠ k → D i = -dH s11 ∧ D k = -dH s12) ∧ (i = k → D i = -dH s11 + -dH s12) ∧
      (j ≠ l → D j = dH s11 ∧ D l = dH s12) ∧ (j = l → D j = dH s11 + dH s12)

theorem rowD {m : Nat} {D : Nat → ℤ × ℤ} (x : Inter) (hn : x.Normal) (hb : InB m x)
    (h0 : ∀ f < m, (D f).1 = ((mvs x).map (fun p => ei p.1 (f, false) - ei p.2 (f, false))).sum)
    (h1 : ∀ f < m, (D f).2 = ((mvs x).map (fun p => ei p.1 (f, true) - ei p.2 (f, true))).sum) :
    ∀ r ∈ expand m x, RowD D r := by
  have e : ∀ f (s : Bool) (g : Nat) (σ : Bool), ei (f, s) (g, σ) = if g = f ∧ σ = s then 1 else 0 := by
    intro f s g σ; unfold ei; simp only [Prod.mk.injEq]
  cases x with
  | null =>
    have hm : ∀ g < m, D g = (0, 0) := by
      intro g hg
      have a := h0 g hg
      have b := h1 g hg
      simp [mvs, Inter.moves] at a b
      exact Prod.ext a b
    intro r hr
    simp only [expand, List.mem_append, List.mem_map, List.mem_range, Prod.exists] at hr
    rcases hr with ⟨a, ha, rfl⟩ | ⟨a, b, hab, rfl⟩
    · exact hm a ha
    · rw [mem_tril] at hab
      exact ⟨hm _ (by omega), hm _ (by omega)⟩
  | c1 i j n =>
    obtain ⟨hij, hn2⟩ := hn
    obtain ⟨hi, hj⟩ := hb
    simp only [mvs, Inter.moves, List.map_cons, List.map_nil, List.sum_cons, List.sum_nil, e] at h0 h1
    have hm : D i = -dH n ∧ D j = dH n ∧ ∀ g < m, g ≠ i → g ≠ j → D g = (0, 0) := by
      have : n = 0 ∨ n = 1 := by omega
      rcases this with rfl | rfl
      all_goals
        refine ⟨?_, ?_, fun g hg h1' h2' => ?_⟩
        · have a := h0 i hi; have b := h1 i hi
          simp [hij] at a b
          exact Prod.ext (by simp [dH, a]) (by simp [dH, b])
        · have a := h0 j hj; have b := h1 j hj
          simp [hij.symm] at a b
          exact Prod.ext (by simp [dH, a]) (by simp [dH, b])
        · have a := h0 g hg; have b := h1 g hg
          simp [h1', h2'] at a b
          exact Prod.ext a b
    intro r hr
    simp only [expand, List.mem_cons, List.mem_map, List.mem_filter, List.mem_range] at hr
    rcases hr with rfl | ⟨a, ⟨ha, hab⟩, rfl⟩
    · exact ⟨hn2, hm.1, hm.2.1⟩
    · simp at hab
      exact ⟨hn2, hm.1, hm.2.1, hm.2.2 a ha (by omega) (by omega)⟩
  | s1 i j =>
    have hij : i ≠ j := hn
    obtain ⟨hi, hj⟩ := hb
    simp only [mvs, Inter.moves, List.map_cons, List.map_nil, List.sum_cons, List.sum_nil, e] at h0 h1
    intro r hr
    simp only [expand, List.mem_singleton] at hr
    subst hr
    refine ⟨?_, ?_⟩
    · have a := h0 i hi; have b := h1 i hi
      simp [hij] at a b
      exact Prod.ext a b
    · have a := h0 j hj; have b := h1 j hj
      simp [hij.symm] at a b
      exact Prod.ext a b
  | s1c1 i j k n =>
    obtain ⟨hij, hik, hjk, hn2⟩ := hn
    obtain ⟨hi, hj, hk⟩ := hb
    simp only [mvs, Inter.moves, List.map_cons, List.map_nil, List.sum_cons, List.sum_nil, e] at h0 h1
    intro r hr
    simp only [expand, List.mem_singleton] at hr
    subst hr
    have : n = 0 ∨ n = 1 := by omega
    rcases this with rfl | rfl
    all_goals
      refine ⟨hn2, ?_, ?_, ?_⟩
      · have a := h0 i hi; have b := h1 i hi
        simp [hij, hik] at a b
        exact Prod.ext (by simp [dH, a]) (by simp [dH, b])
      · have a := h0 j hj; have b := h1 j hj
        simp [hij.symm, hjk] at a b
        exact Prod.ext (by simp [dH, a]) (by simp [dH, b])
      · have a := h0 k hk; have b := h1 k hk
        simp [hik.symm, hjk.symm] at a b
        exact Prod.ext (by simp [a]) (by simp [b])
  | c2 i j k l n =>
    obtain ⟨hij, hil, hkj, hkl, hn3, _⟩ := hn
    obtain ⟨hi, hj, hk, hl⟩ := hb
    simp only [mvs, Inter.moves, List.map_cons, List.map_nil, List.sum_cons, List.sum_nil, e] at h0 h1
    intro r hr
    simp only [expand, List.mem_singleton] at hr
    subst hr
    have hnn : n = 0 ∨ n = 1 ∨ n = 2 := by omega
    have ai := h0 i hi; have bi := h1 i hi
    have aj := h0 j hj; have bj := h1 j hj
    have ak := h0 k hk; have bk := h1 k hk
    have al := h0 l hl; have bl := h1 l hl
    clear h0 h1
    refine ⟨if n = 2 then 1 else 0, if n = 0 then 0 else 1, ?_, ?_, ?_, ?_, ?_⟩
    · rcases hnn with rfl | rfl | rfl <;> simp
    · intro h
      rcases hnn with rfl | rfl | rfl <;>
      · simp [hij, hil, h, Ne.symm h, hkj, hkl] at ai bi ak bk
        exact ⟨Prod.ext (by simp [dH, ai]) (by simp [dH, bi]), Prod.ext (by simp [dH, ak]) (by simp [dH, bk])⟩
    · rintro rfl
      rcases hnn with rfl | rfl | rfl <;>
      · simp [hij, hil] at ai bi
        exact Prod.ext (by simp [dH, ai]) (by simp [dH, bi])
    · intro h
      rcases hnn with rfl | rfl | rfl <;>
      · simp [hij.symm, hil.symm, h, Ne.symm h, hkj.symm, hkl.symm] at aj bj al bl
        exact ⟨Prod.ext (by simp [dH, aj]) (by simp [dH, bj]), Prod.ext (by simp [dH, al]) (by simp [dH, bl])⟩
    · rintro rfl
      rcases hnn with rfl | rfl | rfl <;>
      · simp [hij.symm, hkj.symm] at aj bj
        exact Prod.ext (by simp [dH, aj]) (by simp [dH, bj])

/-- The factor of a fragment of a row exists. -/
theorem rowD_kap {D : Nat → ℤ × ℤ} (r : Lstdm.Row) (h : RowD D r) : ∀ f ∈ r.inv, ∀ sb sk mb mk, ∃ κ, kap (D f) sb sk mb mk = some κ := by
  have z : ∀ sb sk mb mk, ∃ κ, kap (0, 0) sb sk mb mk = some κ := fun _ _ _ _ => by simp [kap, sc]
  have hh : ∀ s, s < 2 → ∀ sb sk mb mk, ∃ κ, kap (dH s) sb sk mb mk = some κ := fun s hs _ _ _ _ => ⟨_, kap_h hs ..⟩
  have hp : ∀ s, s < 2 → ∀ sb sk mb mk, ∃ κ, kap (-dH s) sb sk mb mk = some κ := fun s hs _ _ _ _ => ⟨_, kap_p hs ..⟩
  have h2 : ∀ s, s < 2 → ∀ t, t < 2 → ∀ sb sk mb mk, ∃ κ, kap (dH s + dH t) sb sk mb mk = some κ := by
    intro s hs t ht sb sk mb mk
    interval_cases s <;> interval_cases t <;> simp [kap, sc, dH]
  have p2 : ∀ s, s < 2 → ∀ t, t < 2 → ∀ sb sk mb mk, ∃ κ, kap (-dH s + -dH t) sb sk mb mk = some κ := by
    intro s hs t ht sb sk mb mk
    interval_cases s <;> interval_cases t <;> simp [kap, sc, dH]
  have sp : ∀ sb sk mb mk, ∃ κ, kap (1, -1) sb sk mb mk = some κ := fun _ _ _ _ => by simp [kap, sc]
  have sm : ∀ sb sk mb mk, ∃ κ, kap (-1, 1) sb sk mb mk = some κ := fun _ _ _ _ => by simp [kap, sc]
  cases r with
  | d1 i =>
    intro f hf
    simp only [Lstdm.Row.inv, List.mem_singleton] at hf
    subst hf
    rw [show D f = (0, 0) from h]; exact z
  | d2 i j =>
    obtain ⟨a, b⟩ := h
    intro f hf
    simp only [Lstdm.Row.inv, List.mem_cons, List.not_mem_nil, or_false] at hf
    rcases hf with rfl | rfl
    · rw [a]; exact z
    · rw [b]; exact z
  | c1 i j s =>
    obtain ⟨hs, a, b⟩ := h
    intro f hf
    simp only [Lstdm.Row.inv, List.mem_cons, List.not_mem_nil, or_false] at hf
    rcases hf with rfl | rfl
    · rw [a]; exact hp s hs
    · rw [b]; exact hh s hs
  | c1d1 i j k s =>
    obtain ⟨hs, a, b, c⟩ := h
    intro f hf
    simp only [Lstdm.Row.inv, List.mem_cons, List.not_mem_nil, or_false] at hf
    rcases hf with rfl | rfl | rfl
    · rw [a]; exact hp s hs
    · rw [b]; exact hh s hs
    · rw [c]; exact z
  | s1 i j =>
    obtain ⟨a, b⟩ := h
    intro f hf
    simp only [Lstdm.Row.inv, List.mem_cons, List.not_mem_nil, or_false] at hf
    rcases hf with rfl | rfl
    · rw [a]; exact sp
    · rw [b]; exact sm
  | s1c1 i j k s =>
    obtain ⟨hs, a, b, c⟩ := h
    intro f hf
    simp only [Lstdm.Row.inv, List.mem_cons, List.not_mem_nil, or_false] at hf
    rcases hf with rfl | rfl | rfl
    · rw [a]; exact hp s hs
    · rw [b]; exact hh _ (by omega)
    · rw [c]
      split_ifs
      · exact sm
      · exact sp
  | c2 i j k l n =>
    obtain ⟨s, t, hst, a, a', b, b'⟩ := h
    have hs : s < 2 := by omega
    have ht : t < 2 := by omega
    have fi : (∀ sb sk mb mk, ∃ κ, kap (D i) sb sk mb mk = some κ) ∧ (∀ sb sk mb mk, ∃ κ, kap (D k) sb sk mb mk = some κ) := by
      by_cases e : i = k
      · have := a' e
        subst e
        rw [this]; exact ⟨p2 s hs t ht, p2 s hs t ht⟩
      · rw [(a e).1, (a e).2]; exact ⟨hp s hs, hp t ht⟩
    have fj : (∀ sb sk mb mk, ∃ κ, kap (D j) sb sk mb mk = some κ) ∧ (∀ sb sk mb mk, ∃ κ, kap (D l) sb sk mb mk = some κ) := by
      by_cases e : j = l
      · have := b' e
        subst e
        rw [this]; exact ⟨h2 s hs t ht, h2 s hs t ht⟩
      · rw [(b e).1, (b e).2]; exact ⟨hh s hs, hh t ht⟩
    intro f hf
    simp only [Lstdm.Row.inv, List.mem_cons, List.not_mem_nil, or_false] at hf
    rcases hf with rfl | rfl | rfl | rfl
    · exact fi.1
    · exact fj.1
    · exact fi.2
    · exact fj.2

theorem des_congr {n n' : List Nat} {l : List Nat} (h8 : ∀ f ∈ PySet.listSet l, f ∈ l) (h : ∀ f ∈ l, n.getD f 0 = n'.getD f 0) (i : Nat) :
    fermionDesShuffle n l i = fermionDesShuffle n' l i := by
  unfold fermionDesShuffle desShuffleOf
  rw [List.map_congr_left (g := fun f => n'.getD f 0) fun f hf => h f (h8 f (List.mem_reverse.1 hf))]

theorem row_all {lo hi : Lstdm ℝ} {H : Ham ℝ} {b c b' c' : Nat} {κ μ : Nat → ℝ} {D : Nat → ℤ × ℤ} (hn : hi.nlas = lo.nlas)
    (h1 : H.h1 1 = H.h1 0) (hH : ∀ p q r s, H.h2 r s p q = H.h2 p q r s) (r : Lstdm.Row) (hr : RowD D r)
    (hset : ∀ f ∈ PySet.listSet r.inv, f ∈ r.inv)
    (hR : ∀ f ∈ r.inv, Red lo hi b c b' c' κ μ D f) (hb : ∀ f ∈ r.inv, (hi.nelecF b').getD f 0 = (lo.nelecF b).getD f 0)
    (hc : ∀ f ∈ r.inv, (hi.nelecF c').getD f 0 = (lo.nelecF c).getD f 0) :
    (opRow hi H b' c' r).map (redPair κ μ) = lo.hamRow H b c r := by
  have gb := fun i => des_congr hset hb i
  have gc := fun i => des_congr hset hc i
  cases r with
  | d1 i => exact row_d1 hn h1 (hR i (by simp [Lstdm.Row.inv])) hr
  | d2 i j => exact row_d2 hn (hR i (by simp [Lstdm.Row.inv])) (hR j (by simp [Lstdm.Row.inv])) hr.1 hr.2
  | c1 i j s =>
    exact row_c1 hn hr.1 (hR i (by simp [Lstdm.Row.inv])) (hR j (by simp [Lstdm.Row.inv])) hr.2.1 hr.2.2 (gb i) (gc j)
  | c1d1 i j k s =>
    exact row_c1d1 hn hr.1 (hR i (by simp [Lstdm.Row.inv])) (hR j (by simp [Lstdm.Row.inv])) (hR k (by simp [Lstdm.Row.inv])) hr.2.1
      hr.2.2.1 hr.2.2.2 (gb i) (gc j)
  | s1 i j => exact row_s1 hn (hR i (by simp [Lstdm.Row.inv])) (hR j (by simp [Lstdm.Row.inv])) hr.1 hr.2
  | s1c1 i j k s =>
    exact row_s1c1 hn hr.1 (hR i (by simp [Lstdm.Row.inv])) (hR j (by simp [Lstdm.Row.inv])) (hR k (by simp [Lstdm.Row.inv])) hr.2.1
      hr.2.2.1 hr.2.2.2 (gb i) (gc j)
  | c2 i j k l n =>
    obtain ⟨s, t, hst, a, a', b, b'⟩ := hr
    have gb' : ∀ x, fermionDesShuffle (hi.nelecF _) [i, j, k, l] x = fermionDesShuffle (lo.nelecF _) [i, j, k, l] x := gb
    have gc' : ∀ x, fermionDesShuffle (hi.nelecF _) [i, j, k, l] x = fermionDesShuffle (lo.nelecF _) [i, j, k, l] x := gc
    refine row_c2 hn hH hst (hR i (by simp [Lstdm.Row.inv])) (hR j (by simp [Lstdm.Row.inv])) (hR k (by simp [Lstdm.Row.inv]))
      (hR l (by simp [Lstdm.Row.inv])) a a' b b' ?_ ?_
    · unfold Lstdm.facHh; rw [gc', gc']
    · unfold Lstdm.facPp; rw [gb', gb']

/-- The operators of a row belong to fragments of the row. -/
theorem opRow_ints {L : Lstdm ℝ} {H : Ham ℝ} {b c : Nat} (r : Lstdm.Row) (v : OpTerm × Option OpTerm) (h : opRow L H b c r = some v) :
    (∀ f ∈ v.1.ints, f ∈ r.inv) ∧ ∀ o, v.2 = some o → ∀ f ∈ o.ints, f ∈ r.inv := by
  cases r with
  | d1 i =>
    simp only [opRow, op1d, Option.map_eq_some_iff] at h
    obtain ⟨w, -, rfl⟩ := h
    refine ⟨fun f hf => hf, fun o ho f hf => ?_⟩
    obtain ⟨y, -, rfl⟩ := Option.map_eq_some_iff.1 ho
    exact hf
  | d2 i j =>
    simp only [opRow, op2d, Option.some.injEq] at h
    subst h
    refine ⟨fun f hf => hf, fun o ho f hf => ?_⟩
    cases ho
    exact hf
  | c1 i j s =>
    simp only [opRow, op1c, Option.map_eq_some_iff] at h
    obtain ⟨w, -, rfl⟩ := h
    exact ⟨fun f hf => hf, fun o ho => by cases ho⟩
  | c1d1 i j k s =>
    simp only [opRow, op1c1d, Option.bind_eq_bind, Option.bind_eq_some_iff, Option.pure_def, Option.some.injEq] at h
    obtain ⟨_, -, _, -, rfl⟩ := h
    exact ⟨fun f hf => hf, fun o ho => by cases ho⟩
  | s1 i j =>
    simp only [opRow, op1s, Option.map_eq_some_iff] at h
    obtain ⟨w, -, rfl⟩ := h
    refine ⟨fun f hf => hf, fun o ho f hf => ?_⟩
    obtain ⟨y, -, rfl⟩ := Option.map_eq_some_iff.1 ho
    exact hf
  | s1c1 i j k s =>
    simp only [opRow, op1s1c, Option.map_eq_some_iff] at h
    obtain ⟨w, -, rfl⟩ := h
    exact ⟨fun f hf => hf, fun o ho => by cases ho⟩
  | c2 i j k l n =>
    have hc : ∀ i j f, f ∈ (comp2c i j true 0).1 → f = i ∨ f = j := by
      intro i j f hf
      unfold comp2c at hf
      split_ifs at hf <;> simp at hf <;> omega
    have hc2 : ∀ f ∈ (comp2c j l true 0).1 ++ (comp2c i k true 0).1, f ∈ Lstdm.Row.inv (.c2 i j k l n) := by
      intro f hf
      rw [List.mem_append] at hf
      simp only [Lstdm.Row.inv, List.mem_cons, List.not_mem_nil, or_false]
      rcases hf with hf | hf
      · rcases hc _ _ _ hf with rfl | rfl <;> simp
      · rcases hc _ _ _ hf with rfl | rfl <;> simp
    simp only [opRow, op2c, Option.bind_eq_bind, Option.bind_eq_some_iff, Option.pure_def] at h
    obtain ⟨_, -, _, -, h⟩ := h
    split_ifs at h <;>
    · cases h
      exact ⟨hc2, fun o ho => by cases ho⟩

end Verif.HamSpin
