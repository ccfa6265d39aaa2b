import Verif.Lemmas.HsiLink
/-!
# Lemmas: the matrix elements as sums over the unique rows
-/
namespace Verif.Lstdm
open Verif.Spec Verif.Spec.Tdm Verif.Spec.Lstdm Verif.Signs Verif.Exc Verif.Addr Verif.Radix Verif.Props

variable {K : Type} [Field K] [DecidableEq K]

theorem sum_nodup_pair {R : Type} [AddCommMonoid R] (l : List (Nat × Nat)) (hl : l.Nodup) (b g : Nat) (F : Nat × Nat → R) :
    (l.map (fun im => if b = im.1 ∧ g = im.2 then F im else 0)).sum = if (b, g) ∈ l then F (b, g) else 0 := by
  induction l with
  | nil => simp
  | cons a l ih =>
    rw [List.map_cons, List.sum_cons, ih hl.of_cons]
    have ha := (List.nodup_cons.mp hl).1
    by_cases h : b = a.1 ∧ g = a.2
    · have e : (b, g) = a := Prod.ext h.1 h.2
      subst e
      rw [if_pos ⟨rfl, rfl⟩, if_neg ha, if_pos (by simp), add_zero]
    · rw [if_neg h, zero_add]
      have hne : (b, g) ≠ a := fun e => h (by rw [← e]; exact ⟨rfl, rfl⟩)
      by_cases h2 : (b, g) ∈ l
      · rw [if_pos h2, if_pos (by simp [h2])]
      · rw [if_neg h2, if_neg (by simp [h2, hne])]

namespace Kern
variable {k : Kern K}

open Classical in
/-- The coefficient of a row in the product with a vector. -/
noncomputable def tco (k : Kern K) (val : Nat → Nat → Lstdm.Row → Option K) (u : ExcRow) (imgs : List (Nat × Nat)) (β γ : Nat) : K :=
  if k.rootOf β ∈ imgs.map Prod.fst then (if k.Fit u (k.rootOf β) (k.rootOf γ) then k.gel val β γ u.2 else 0)
  else (if k.Fit u (k.rootOf γ) (k.rootOf β) then k.gel val γ β u.2 else 0)

variable (hK : Consistent k) (hH : NoCollision k) {tab : List ExcRow} {u : ExcRow} (hu : k.Uniq tab u)
variable {v : Nat → Nat → Vec K} {H : Ham K} {Λ : D1 K × D2 K → K} {val : Nat → Nat → Lstdm.Row → Option K}
    (hO : Obs k H Λ val) (hD : Describes k.toLstdm v) (hHs : H.Sym) (h2 : (2 : K) ≠ 0) (h8 : k.nlas.length ≤ 8)

include hK hH hu hO hD hHs h2 h8 in
theorem coef (hs : k.smult = none) (β γ : Nat) :
    ((k.images tab u).map (fun im => if k.rootOf β = im.1 ∧ k.rootOf γ = im.2 then
      tri im.1 im.2 (k.spx u.2.inv β) (k.spx u.2.inv γ) * k.gel val β γ u.2 else 0)).sum +
    ((k.images tab u).map (fun im => if k.rootOf γ = im.1 ∧ k.rootOf β = im.2 then
      tri im.1 im.2 (k.spx u.2.inv γ) (k.spx u.2.inv β) * k.gel val γ β u.2 else 0)).sum = k.tco val u (k.images tab u) β γ := by
  have hN := images_nodup hK hH tab hu.1 u hu.2
  rw [sum_nodup_pair _ hN _ _ (fun im => tri im.1 im.2 (k.spx u.2.inv β) (k.spx u.2.inv γ) * k.gel val β γ u.2),
    sum_nodup_pair _ hN _ _ (fun im => tri im.1 im.2 (k.spx u.2.inv γ) (k.spx u.2.inv β) * k.gel val γ β u.2)]
  unfold tco
  generalize hb : k.rootOf β = b
  generalize hg : k.rootOf γ = g
  have one : ∀ X Y x y, X ≠ Y → (tri X Y x y : K) = 1 := fun X Y x y h => by unfold tri; rw [if_neg h]
  have hbras : ∀ c, (b, c) ∈ k.images tab u → b ∈ (k.images tab u).map Prod.fst := fun c hc => List.mem_map.mpr ⟨_, hc, rfl⟩
  dsimp only
  by_cases hbr : b ∈ (k.images tab u).map Prod.fst
  · rw [if_pos hbr]
    by_cases hAB : ∀ f ∈ u.2.inv, k.uroot f u.1.1 = k.uroot f u.1.2
    · have hle : ∀ x y, (x, y) ∈ k.images tab u → y ≤ x := fun x y h => (images_mem hK hH tab hu.1 u hu.2 _ h).2.2.2.2 hAB
      have hsw : k.Fit u g b → k.Fit u b g := fun h => ⟨h.lg, h.lb, fun f hf => by rw [h.ug f hf, hAB f hf],
        fun f hf => by rw [h.ub f hf, hAB f hf], fun f hf h' σ => (h.sp f hf h' σ).symm⟩
      by_cases hbg : b = g
      · by_cases him : (b, g) ∈ k.images tab u
        · have hF := fit_image hK hH hu _ him
          have him' : (g, b) ∈ k.images tab u := by rw [hbg] at him ⊢; exact him
          rw [if_pos him, if_pos him', if_pos hF, gel_symm hO hD h8 hK hH hHs h2 tab hu.1 u hu.2 hAB _ him β γ hb hg]
          subst hbg
          rw [← add_mul, tri_add h2, one_mul]
        · have him' : (g, b) ∉ k.images tab u := by rw [hbg] at him ⊢; exact him
          have hF : ¬ k.Fit u b g := fun h => (fit_images hK hH hu hs b g h).elim him (fun h => him' h.1)
          rw [if_neg him, if_neg him', if_neg hF, add_zero]
      · by_cases him : (b, g) ∈ k.images tab u
        · have hF := fit_image hK hH hu _ him
          have him' : (g, b) ∉ k.images tab u := fun h => hbg (by have := hle _ _ him; have := hle _ _ h; omega)
          rw [if_pos him, if_neg him', if_pos hF, one _ _ _ _ hbg, one_mul, add_zero]
        · by_cases him' : (g, b) ∈ k.images tab u
          · have hF := hsw (fit_image hK hH hu _ him')
            rw [if_neg him, if_pos him', if_pos hF, one _ _ _ _ (Ne.symm hbg), one_mul, zero_add,
              gel_symm hO hD h8 hK hH hHs h2 tab hu.1 u hu.2 hAB _ him' γ β hg hb]
          · have hF : ¬ k.Fit u b g := fun h => (fit_images hK hH hu hs b g h).elim him (fun h => him' h.1)
            rw [if_neg him, if_neg him', if_neg hF, add_zero]
    · obtain ⟨⟨x, κ⟩, hm, rfl⟩ := List.mem_map.mp hbr
      have hm' := fit_image hK hH hu _ hm
      have him' : (g, x) ∉ k.images tab u := fun h => hAB fun f hf => by
        rw [← hm'.ub f hf, ← (fit_image hK hH hu _ h).ug f hf]
      dsimp only
      rw [if_neg him', add_zero]
      by_cases him : (x, g) ∈ k.images tab u
      · have hxg : x ≠ g := fun e => him' (by rw [← e] at him ⊢; exact him)
        have hF := fit_image hK hH hu _ him
        dsimp only at hF
        rw [if_pos him, if_pos hF, one _ _ _ _ hxg, one_mul]
      · have hF : ¬ k.Fit u x g := fun h => (fit_images hK hH hu hs x g h).elim him (fun h => him' h.1)
        rw [if_neg him, if_neg hF]
  · rw [if_neg hbr, if_neg (fun h => hbr (hbras g h)), zero_add]
    by_cases him' : (g, b) ∈ k.images tab u
    · have hF := fit_image hK hH hu _ him'
      have hne : g ≠ b := fun e => hbr (hbras g (by rw [e] at him' ⊢; exact him'))
      rw [if_pos him', if_pos hF, one _ _ _ _ hne, one_mul]
    · have hF : ¬ k.Fit u g b := fun h => (fit_images hK hH hu hs g b h).elim him' (fun h => hbr (hbras g h.1))
      rw [if_neg him', if_neg hF]

/-- All unique rows. -/
def rowsU (k : Kern K) : List ExcRow := k.tables.flatMap k.findUniqueExc

/-- The images of a row. -/
def imgsOf (k : Kern K) (u : ExcRow) : List (Nat × Nat) := (k.lookup (u.1, u.2.inv)).getD []

include hK hH hO hD hHs h2 h8 in
theorem lam_sym (hs : k.smult = none) : ∃ acc, k.kernel = some (addTranspose acc) ∧ ∀ β γ, β < k.nstates → γ < k.nstates →
    Λ (acc β γ) + Λ (acc γ β) = (k.rowsU.map (fun u => k.tco val u (k.imgsOf u) β γ)).sum := by
  obtain ⟨acc, h, hacc⟩ := lam_acc hO hD hHs h2 h8 hK hH
  refine ⟨acc, h, fun β γ hβ hγ => ?_⟩
  rw [hacc β γ hβ hγ, hacc γ β hγ hβ, ← List.sum_map_add]
  unfold rowsU
  rw [List.map_flatMap, sum_flatMap']
  refine congrArg List.sum (List.map_congr_left fun tab ht => ?_)
  rw [← List.sum_map_add]
  refine congrArg List.sum (List.map_congr_left fun u hu => ?_)
  have : k.imgsOf u = k.images tab u := by unfold imgsOf; rw [lookup_ok hK tab u ⟨ht, hu⟩]; rfl
  rw [this]
  exact coef hK hH ⟨ht, hu⟩ hO hD hHs h2 h8 hs β γ

include hK hH hD hHs h2 h8 in
/-- The matrices of the Hamiltonian and of spin squared, row by row. -/
theorem ham_rows (hs : k.smult = none) : ∃ M, k.hamKernel H = some M ∧ ∀ β γ, β < k.nstates → γ < k.nstates →
    M.1 β γ = (k.rowsU.map (fun u => k.tco (fun b c r => (k.toLstdm.hamRow H b c r).map Prod.fst) u (k.imgsOf u) β γ)).sum ∧
    M.2 β γ = (k.rowsU.map (fun u => k.tco (fun b c r => (k.toLstdm.hamRow H b c r).bind Prod.snd) u (k.imgsOf u) β γ)).sum := by
  obtain ⟨acc1, h1, e1⟩ := lam_sym hK hH (obsH k hHs) hD hHs h2 h8 hs
  obtain ⟨acc2, h3, e2⟩ := lam_sym hK hH (obsS k) hD hHs h2 h8 hs
  obtain ⟨acc, hacc, h4⟩ := Option.map_eq_some_iff.mp h1
  obtain ⟨M, hM, hQ⟩ := Kern.hamKernel_sim hD hHs h2 h8 hK hH acc hacc
  refine ⟨_, by unfold hamKernel; rw [hM]; rfl, fun β γ hβ hγ => ⟨?_, ?_⟩⟩
  · rw [← e1 β γ hβ hγ, ← lamH_tr hHs, ← h4, lamH_tr hHs]
    dsimp only
    rw [(hQ β γ).1, (hQ γ β).1]
  · have h5 : addTranspose acc = addTranspose acc2 := by rw [h4]; exact Option.some.inj (h1.symm.trans h3)
    rw [← e2 β γ hβ hγ, ← lamS_tr, ← h5, lamS_tr]
    dsimp only
    rw [(hQ β γ).2, (hQ γ β).2]

end Kern
end Verif.Lstdm
