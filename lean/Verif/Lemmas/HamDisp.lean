import Verif.Lemmas.HamRows3
import Verif.Lemmas.KernMain
/-!
# Lemmas: all rows of a pair of rootspaces, and the accumulation of `HamS2Ovlp`
-/
namespace Verif.Lstdm
open Verif.Spec Verif.Spec.Tdm Verif.Spec.Lstdm Verif.Spec.Fockspace Verif.Tdm Verif.Signs Verif.Exc Verif.Addr

variable {K : Type} [Field K] [DecidableEq K]

/-- All rows of a classified interaction. -/
theorem rows_ham {L : Lstdm K} {v : Nat → Nat → Vec K} {H : Ham K} (hD : Describes L v) (hH : H.Sym) (h2 : (2 : K) ≠ 0) (bra ket : Nat) (x : Inter)
    (hn : x.Normal) (hb : InB L.nlas.length x)
    (hx : ∀ f < L.nlas.length, ∀ σ, cz L bra f σ - cz L ket f σ = ((mvs x).map (fun p => ei p.1 (f, σ) - ei p.2 (f, σ))).sum) :
    ∀ r ∈ expand L.nlas.length x, RowHam L H bra ket r := by
  have e : ∀ f (s : Bool) (g : Nat) (σ : Bool), ei (f, s) (g, σ) = if g = f ∧ σ = s then 1 else 0 := by
    intro f s g σ; unfold ei; simp only [Prod.mk.injEq]
  have hs : ∀ n, n < 2 → ix (n != 0) = n := by
    intro n hn
    have : n = 0 ∨ n = 1 := by omega
    rcases this with rfl | rfl <;> rfl
  cases x with
  | null =>
    have hm : ∀ g < L.nlas.length, cz L bra g = cz L ket g := by
      intro g hg; funext σ
      have := hx g hg σ
      simp [mvs, Inter.moves] at this; omega
    intro r hr
    simp only [expand, List.mem_append, List.mem_map, List.mem_range, Prod.exists] at hr
    rcases hr with ⟨a, ha, rfl⟩ | ⟨a, b, hab, rfl⟩
    · exact rh_d1 L hH h2 bra ket a ha
    · rw [mem_tril] at hab
      exact rh_d2 L hH h2 bra ket a b hab.1 (by omega) (by omega)
  | c1 i j n =>
    obtain ⟨hij, hn2⟩ := hn
    obtain ⟨hi, hj⟩ := hb
    have hm : ∀ g < L.nlas.length, cz L bra g = mv i j (n != 0) (cz L ket) g := by
      intro g hg; funext σ
      have := hx g hg σ
      simp only [mvs, Inter.moves, List.map_cons, List.map_nil, List.sum_cons, List.sum_nil, e] at this
      rw [show (!(n == 0)) = (n != 0) from rfl] at this
      unfold mv
      omega
    intro r hr
    simp only [expand, List.mem_cons, List.mem_map, List.mem_filter, List.mem_range] at hr
    rcases hr with rfl | ⟨a, ⟨ha, hab⟩, rfl⟩
    · have := rh_c1 hD hH h2 bra ket i j (n != 0) hi hj hij hm
      rw [hs n hn2] at this
      exact this
    · simp at hab
      exact rh_c1d1 hH h2 bra ket i j a n hn2 hi hj ha hij (by omega) (by omega)
  | s1 i j =>
    have hij : i ≠ j := hn
    obtain ⟨hi, hj⟩ := hb
    have hm : ∀ g < L.nlas.length, cz L bra g = mv i j false (mv j i true (cz L ket)) g := by
      intro g hg; funext σ
      have := hx g hg σ
      simp only [mvs, Inter.moves, List.map_cons, List.map_nil, List.sum_cons, List.sum_nil, e, Bool.not_true, Bool.not_false] at this
      unfold mv
      omega
    intro r hr
    simp only [expand, List.mem_singleton] at hr
    subst hr
    exact rh_s1 hH h2 bra ket i j hi hj hij
  | s1c1 i j k n =>
    obtain ⟨hij, hik, hjk, hn2⟩ := hn
    obtain ⟨hi, hj, hk⟩ := hb
    have hm : ∀ g < L.nlas.length, cz L bra g = mv i k (n != 0) (mv k j (!(n != 0)) (cz L ket)) g := by
      intro g hg; funext σ
      have := hx g hg σ
      simp only [mvs, Inter.moves, List.map_cons, List.map_nil, List.sum_cons, List.sum_nil, e] at this
      rw [show (!(n == 0)) = (n != 0) from rfl] at this
      unfold mv
      omega
    intro r hr
    simp only [expand, List.mem_singleton] at hr
    subst hr
    exact rh_s1c1 hH h2 bra ket i j k n hn2 hi hj hk hij hik
  | c2 i j k l n =>
    obtain ⟨hij, hil, hkj, hkl, hn3, _⟩ := hn
    obtain ⟨hi, hj, hk, hl⟩ := hb
    have hm : ∀ g < L.nlas.length, cz L bra g = mv i j (n == 2) (mv k l (n != 0) (cz L ket)) g := by
      intro g hg; funext σ
      have := hx g hg σ
      simp only [mvs, Inter.moves, List.map_cons, List.map_nil, List.sum_cons, List.sum_nil, e] at this
      rw [show (!(n == 0)) = (n != 0) from rfl, show (!(n != 2)) = (n == 2) by simp [bne]] at this
      unfold mv
      omega
    intro r hr
    simp only [expand, List.mem_singleton] at hr
    subst hr
    have hnn : n = 0 ∨ n = 1 ∨ n = 2 := by omega
    have := rh_c2 hD hH h2 bra ket i j k l (n == 2) (n != 0) (by rcases hnn with rfl | rfl | rfl <;> decide) hi hj hk hl hij hil
      hkj hkl hm
    rw [show ix (n == 2) + ix (n != 0) = n by rcases hnn with rfl | rfl | rfl <;> rfl] at this
    exact this

end Verif.Lstdm
