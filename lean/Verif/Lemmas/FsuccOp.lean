import Verif.Spec.FsuccOp
import Verif.Props.Fsucc
import Mathlib.Analysis.Calculus.Deriv.Comp
import Mathlib.Analysis.Calculus.Deriv.Add
import Mathlib.Analysis.Calculus.Deriv.Mul
/-!
# Lemmas on the factorized coupled-cluster operator
-/
namespace Verif.FsuccOp
open Verif.Fsucc Verif.Spec.Fsucc Verif.Spec.FsuccOp Verif.Props

/-- A valid generator. -/
structure GenOK (norb : Nat) (g : Gen) : Prop where
  la : ∀ x ∈ g.a, x < norb
  li : ∀ x ∈ g.i, x < norb
  na : g.a.Nodup
  ni : g.i.Nodup
  ne : ¬ g.a.Perm g.i

theorem gensOK_mem {norb : Nat} {gens : List Gen} (h : GensOK norb gens) {g : Gen} (hg : g ∈ gens) : GenOK norb g := by
  obtain ⟨h1, h2, h3, h4, h5⟩ := h g hg
  exact ⟨h1, h2, h3, h4, h5⟩

/-- Rotation by an angle. -/
noncomputable def rot (norb : Nat) (g : Gen) (t : ℝ) (φ : Nat → ℝ) : Nat → ℝ :=
  contract1u norb g.a g.i (Real.cos t) (Real.sin t) (List.range (iterations norb g.a g.i)) φ

theorem op1u_ff (norb : Nat) (g : Gen) (φ : Nat → ℝ) : op1u norb g false false φ = rot norb g g.amp φ := by
  simp [op1u, rot]

theorem op1u_tf (norb : Nat) (g : Gen) (φ : Nat → ℝ) : op1u norb g true false φ = rot norb g (-g.amp) φ := by
  have : (1 - 2 * 1 : ℝ) * (g.amp + 0 * Real.pi / 2) = -g.amp := by ring
  unfold op1u rot
  simp only [if_true, Bool.false_eq_true, if_false, this]

theorem op1u_ft (norb : Nat) (g : Gen) (φ : Nat → ℝ) :
    op1u norb g false true φ = rot norb g (g.amp + Real.pi / 2) φ := by
  simp [op1u, rot]

theorem op1u_tt (norb : Nat) (g : Gen) (φ : Nat → ℝ) :
    op1u norb g true true φ = rot norb g (-(g.amp + Real.pi / 2)) φ := by
  have : (1 - 2 * 1 : ℝ) * (g.amp + 1 * Real.pi / 2) = -(g.amp + Real.pi / 2) := by ring
  unfold op1u rot
  simp only [if_true, this]

section
variable {norb : Nat} {g : Gen}

theorem rot_inv (h : GenOK norb g) (t : ℝ) (φ : Nat → ℝ) : rot norb g (-t) (rot norb g t φ) = φ := by
  unfold rot
  rw [Real.cos_neg, Real.sin_neg]
  exact C37_restore_partial h.la h.li h.ne (Real.cos_sq_add_sin_sq t) φ (List.Perm.refl _) (List.Perm.refl _)

theorem rot_inv' (h : GenOK norb g) (t : ℝ) (φ : Nat → ℝ) : rot norb g t (rot norb g (-t) φ) = φ := by
  have := rot_inv h (-t) φ
  rwa [neg_neg] at this

/-- Each entry of the rotated vector is a combination of two entries. -/
theorem rot_form (h : GenOK norb g) (t : ℝ) {D : Nat} (hD : D < 2 ^ norb) :
    ∃ α β : ℝ, ∃ D' < 2 ^ norb, ∀ φ, rot norb g t φ D = α * φ D + β * φ D' := by
  obtain ⟨dA, dI, k⟩ := exists_ctx h.na h.ni h.la h.li
  have hne' := sets_ne h.na h.ni h.ne
  have H := fun φ => contract1u_cases k hne' (Real.cos t) (Real.sin t) (List.Perm.refl _) φ
  rcases det_cases k D with ⟨d, hd, rfl⟩ | ⟨d, hd, rfl⟩ | ⟨h1, h2⟩
  · refine ⟨Real.cos t, -((-1) ^ (cnt norb g.a (pairOf norb dI dA d).2 + cnt norb g.i (pairOf norb dI dA d).1) * Real.sin t),
      (pairOf norb dI dA d).2, k.lt2 hd, fun φ => ?_⟩
    · unfold rot; rw [((H φ).1 d hd).1]; ring
  · refine ⟨Real.cos t, (-1) ^ (cnt norb g.a (pairOf norb dI dA d).2 + cnt norb g.i (pairOf norb dI dA d).1) * Real.sin t,
      (pairOf norb dI dA d).1, k.lt1 hd, fun φ => ?_⟩
    · unfold rot; rw [((H φ).1 d hd).2]; ring
  · exact ⟨1, 0, D, hD, fun φ => by unfold rot; rw [(H φ).2 D h1 h2]; ring⟩

theorem rot_congr (h : GenOK norb g) (t : ℝ) {φ χ : Nat → ℝ} (e : ∀ D < 2 ^ norb, φ D = χ D) {D : Nat}
    (hD : D < 2 ^ norb) : rot norb g t φ D = rot norb g t χ D := by
  obtain ⟨α, β, D', h', hf⟩ := rot_form h t hD
  rw [hf, hf, e D hD, e D' h']

theorem rot_deriv_map (h : GenOK norb g) (t : ℝ) {f : ℝ → Nat → ℝ} {f' : Nat → ℝ} {x : ℝ}
    (hf : ∀ D < 2 ^ norb, HasDerivAt (fun x => f x D) (f' D) x) {D : Nat} (hD : D < 2 ^ norb) :
    HasDerivAt (fun x => rot norb g t (f x) D) (rot norb g t f' D) x := by
  obtain ⟨α, β, D', h', e⟩ := rot_form h t hD
  have : (fun x => rot norb g t (f x) D) = fun x => α * f x D + β * f x D' := by funext x; rw [e]
  rw [this, e]
  exact ((hf D hD).const_mul α).add ((hf D' h').const_mul β)

theorem proj_rot (h : GenOK norb g) (t : ℝ) (φ : Nat → ℝ) {D : Nat} (hD : D < 2 ^ norb) :
    rot norb g t (projaiPy norb g φ) D = projaiPy norb g (rot norb g t φ) D := by
  classical
  unfold projaiPy
  rw [C38_projects norb g.a g.i (List.Perm.refl _) _ hD]
  obtain ⟨dA, dI, k⟩ := exists_ctx h.na h.ni h.la h.li
  have hne' := sets_ne h.na h.ni h.ne
  have H := fun φ => contract1u_cases k hne' (Real.cos t) (Real.sin t) (List.Perm.refl _) φ
  unfold rot
  rcases det_cases k D with ⟨d, hd, rfl⟩ | ⟨d, hd, rfl⟩ | ⟨h1, h2⟩
  · rw [if_pos (Or.inl (k.m1 hd)), ((H _).1 d hd).1, ((H _).1 d hd).1,
      C38_projects norb g.a g.i (List.Perm.refl _) _ (k.lt1 hd), if_pos (Or.inl (k.m1 hd)),
      C38_projects norb g.a g.i (List.Perm.refl _) _ (k.lt2 hd), if_pos (Or.inr (k.m2 hd))]
  · rw [if_pos (Or.inr (k.m2 hd)), ((H _).1 d hd).2, ((H _).1 d hd).2,
      C38_projects norb g.a g.i (List.Perm.refl _) _ (k.lt1 hd), if_pos (Or.inl (k.m1 hd)),
      C38_projects norb g.a g.i (List.Perm.refl _) _ (k.lt2 hd), if_pos (Or.inr (k.m2 hd))]
  · rw [if_neg (fun h => h.elim h2 h1), (H _).2 D h1 h2, C38_projects norb g.a g.i (List.Perm.refl _) _ hD,
      if_neg (fun h => h.elim h2 h1)]

theorem rot_deriv (h : GenOK norb g) (φ : Nat → ℝ) {D : Nat} (hD : D < 2 ^ norb) (t : ℝ) :
    HasDerivAt (fun t => rot norb g t φ D) (rot norb g (t + Real.pi / 2) (projaiPy norb g φ) D) t := by
  rw [proj_rot h _ _ hD]
  exact C67_derivative_projected h.na h.ni h.la h.li h.ne φ (List.Perm.refl _) (List.Perm.refl _) hD t

theorem rot_add_pi_proj (h : GenOK norb g) (φ : Nat → ℝ) {D : Nat} (hD : D < 2 ^ norb) (t : ℝ) :
    rot norb g (t + Real.pi) (projaiPy norb g φ) D = -rot norb g t (projaiPy norb g φ) D := by
  rw [proj_rot h _ _ hD, proj_rot h _ _ hD]
  classical
  unfold projaiPy
  rw [C38_projects norb g.a g.i (List.Perm.refl _) _ hD, C38_projects norb g.a g.i (List.Perm.refl _) _ hD]
  obtain ⟨dA, dI, k⟩ := exists_ctx h.na h.ni h.la h.li
  have hne' := sets_ne h.na h.ni h.ne
  have H := fun t => contract1u_cases k hne' (Real.cos t) (Real.sin t) (List.Perm.refl _) φ
  unfold rot
  rcases det_cases k D with ⟨d, hd, rfl⟩ | ⟨d, hd, rfl⟩ | ⟨h1, h2⟩
  · rw [if_pos (Or.inl (k.m1 hd)), if_pos (Or.inl (k.m1 hd)), ((H _).1 d hd).1, ((H _).1 d hd).1, Real.cos_add_pi,
      Real.sin_add_pi]
    ring
  · rw [if_pos (Or.inr (k.m2 hd)), if_pos (Or.inr (k.m2 hd)), ((H _).1 d hd).2, ((H _).1 d hd).2, Real.cos_add_pi,
      Real.sin_add_pi]
    ring
  · rw [if_neg (fun h => h.elim h2 h1), if_neg (fun h => h.elim h2 h1), neg_zero]

theorem rot_deriv_neg (h : GenOK norb g) (φ : Nat → ℝ) {D : Nat} (hD : D < 2 ^ norb) (t : ℝ) :
    HasDerivAt (fun t => rot norb g (-t) φ D) (rot norb g (-(t + Real.pi / 2)) (projaiPy norb g φ) D) t := by
  have h1 := (rot_deriv h φ hD (-t)).comp t (hasDerivAt_neg t)
  have e : -t + Real.pi / 2 = -(t + Real.pi / 2) + Real.pi := by ring
  rw [e, rot_add_pi_proj h _ hD] at h1
  have e2 : -rot norb g (-(t + Real.pi / 2)) (projaiPy norb g φ) D * -1 =
    rot norb g (-(t + Real.pi / 2)) (projaiPy norb g φ) D := by ring
  rw [e2] at h1
  exact h1

theorem dot_eq (norb : Nat) (x y : Nat → ℝ) : dot norb x y = ∑ D ∈ Finset.range (2 ^ norb), x D * y D := by
  unfold dot
  exact sum_range_list _ _

theorem dot_congr {x y x' y' : Nat → ℝ} (h1 : ∀ D < 2 ^ norb, x D = x' D) (h2 : ∀ D < 2 ^ norb, y D = y' D) :
    dot norb x y = dot norb x' y' := by
  rw [dot_eq, dot_eq]
  apply Finset.sum_congr rfl
  intro D hD
  rw [Finset.mem_range] at hD
  rw [h1 D hD, h2 D hD]

theorem dot_comm (x y : Nat → ℝ) : dot norb x y = dot norb y x := by
  rw [dot_eq, dot_eq]; exact Finset.sum_congr rfl fun _ _ => mul_comm _ _

/-- The rotation preserves the inner product. -/
theorem rot_dot (h : GenOK norb g) (t : ℝ) (φ χ : Nat → ℝ) :
    dot norb (rot norb g t φ) (rot norb g t χ) = dot norb φ χ := by
  -- polarization
  have hn : ∀ ψ, dot norb (rot norb g t ψ) (rot norb g t ψ) = dot norb ψ ψ := by
    intro ψ
    have := C37_norm_partial h.la h.li h.ne (Real.cos_sq_add_sin_sq t) ψ (List.Perm.refl _)
    rw [dot_eq, dot_eq]
    simpa [rot, pow_two] using this
  have hadd : ∀ D < 2 ^ norb, rot norb g t (fun D => φ D + χ D) D = rot norb g t φ D + rot norb g t χ D := by
    intro D hD
    obtain ⟨α, β, D', _, e⟩ := rot_form h t hD
    rw [e, e, e]; ring
  have h1 := hn (fun D => φ D + χ D)
  have h2 : dot norb (rot norb g t (fun D => φ D + χ D)) (rot norb g t (fun D => φ D + χ D)) =
      dot norb (fun D => rot norb g t φ D + rot norb g t χ D) (fun D => rot norb g t φ D + rot norb g t χ D) :=
    dot_congr hadd hadd
  have h3 : ∀ x y : Nat → ℝ, dot norb (fun D => x D + y D) (fun D => x D + y D) =
      dot norb x x + 2 * dot norb x y + dot norb y y := by
    intro x y
    simp only [dot_eq]
    rw [Finset.mul_sum, ← Finset.sum_add_distrib, ← Finset.sum_add_distrib]
    exact Finset.sum_congr rfl fun _ _ => by ring
  rw [h2, h3, h3, hn, hn] at h1
  linarith

theorem rot_adjoint (h : GenOK norb g) (t : ℝ) (φ χ : Nat → ℝ) :
    dot norb (rot norb g t φ) χ = dot norb φ (rot norb g (-t) χ) := by
  conv_lhs => rw [← rot_inv' h t χ]
  exact rot_dot h t _ _

end

/-! ### Sequences of factors -/

/-- One factor of the product. -/
noncomputable def step (norb : Nat) (gens : List Gen) (tr : Bool) (φ : Nat → ℝ) (ix : Nat) : Nat → ℝ :=
  match gens[ix]? with
  | none => φ
  | some g => op1u norb g tr false φ

theorem call_eq (norb : Nat) (gens : List Gen) (tr : Bool) (φ : Nat → ℝ) :
    call true norb gens tr φ = (genFac gens.length tr none).foldl (step norb gens tr) φ := by
  unfold call
  apply List.foldl_ext
  intro ψ ix _
  unfold step op1uInplace
  cases gens[ix]? <;> rfl

theorem derivLoop_post (norb : Nat) (gens : List Gen) (igend : Nat) (tr full : Bool) (l : List Nat)
    (hl : ∀ x ∈ l, x < gens.length ∧ x ≠ igend) (ψ : Nat → ℝ) (up : Option (Nat → ℝ)) :
    derivLoop norb gens igend tr full l ψ up = (l.foldl (step norb gens tr) ψ, up) := by
  induction l generalizing ψ with
  | nil => rfl
  | cons x l ih =>
    obtain ⟨h1, h2⟩ := hl x (by simp)
    rw [derivLoop, List.foldl_cons]
    have hg : gens[x]? = some gens[x] := List.getElem?_eq_getElem h1
    simp only [hg, if_neg h2]
    rw [if_neg (fun h => h2 h.1), ih (fun y hy => hl y (by simp [hy]))]
    congr 2
    unfold step
    rw [hg]
    have : (x == igend) = false := by simpa using h2
    rw [this]

/-- The loop of `get_deriv1`. -/
theorem derivLoop_eq (norb : Nat) (gens : List Gen) (igend : Nat) (tr full : Bool) (l1 l2 : List Nat) (g : Gen)
    (hg : gens[igend]? = some g)
    (h1 : ∀ x ∈ l1, x < gens.length ∧ x ≠ igend) (h2 : ∀ x ∈ l2, x < gens.length ∧ x ≠ igend) (ψ : Nat → ℝ) :
    derivLoop norb gens igend tr full (l1 ++ igend :: l2) ψ none =
      ((if full then l2.foldl (step norb gens tr) (op1u norb g tr true (projaiPy norb g
          (l1.foldl (step norb gens tr) ψ)))
        else op1u norb g tr true (projaiPy norb g (l1.foldl (step norb gens tr) ψ))),
        some (l1.foldl (step norb gens tr) ψ)) := by
  induction l1 generalizing ψ with
  | nil =>
    rw [List.nil_append, derivLoop]
    simp only [hg, List.foldl_nil, if_true, BEq.rfl, true_and]
    cases full
    · simp
    · simp only [if_true]
      rw [if_neg (by simp), derivLoop_post _ _ _ _ _ _ h2]
  | cons x l ih =>
    obtain ⟨hx1, hx2⟩ := h1 x (by simp)
    rw [List.cons_append, derivLoop, List.foldl_cons]
    have hg' : gens[x]? = some gens[x] := List.getElem?_eq_getElem hx1
    simp only [hg', if_neg hx2]
    rw [if_neg (fun h => hx2 h.1), ih (fun y hy => h1 y (by simp [hy]))]
    have : (x == igend) = false := by simpa using hx2
    simp only [this, step, hg']

theorem genFac_split (n k : Nat) (hk : k < n) (tr : Bool) :
    ∃ l1 l2, genFac n tr none = l1 ++ k :: l2 ∧ (∀ x ∈ l1, x < n ∧ x ≠ k) ∧ (∀ x ∈ l2, x < n ∧ x ≠ k) := by
  have hr : List.range n = List.range k ++ k :: List.range' (k + 1) (n - (k + 1)) := by
    have h1 : List.range n = List.range' 0 k ++ List.range' (0 + k) (n - k) := by
      rw [List.range_eq_range', List.range'_append_1]; congr 1; omega
    rw [h1, List.range_eq_range', show n - k = (n - (k + 1)) + 1 by omega, Nat.zero_add, List.range'_succ]
  cases tr
  · refine ⟨List.range k, List.range' (k + 1) (n - (k + 1)), ?_, ?_, ?_⟩
    · simp only [genFac, Option.getD, Bool.false_eq_true, if_false, Nat.sub_zero]
      rw [← List.range_eq_range', hr]
    · intro x hx; rw [List.mem_range] at hx; omega
    · intro x hx; rw [List.mem_range'_1] at hx; omega
  · refine ⟨(List.range' (k + 1) (n - (k + 1))).reverse, (List.range k).reverse, ?_, ?_, ?_⟩
    · simp only [genFac, if_true]
      rw [hr]; simp
    · intro x hx; rw [List.mem_reverse, List.mem_range'_1] at hx; omega
    · intro x hx; rw [List.mem_reverse, List.mem_range] at hx; omega

theorem setAmp_getElem? (gens : List Gen) (k : Nat) (t : ℝ) (x : Nat) :
    (setAmp gens k t)[x]? = if x = k then (gens[x]?).map (fun g => { g with amp := t }) else gens[x]? := by
  unfold setAmp
  rw [List.getElem?_modify]
  by_cases h : k = x
  · subst h; simp
  · rw [if_neg (fun h' => h h'.symm)]
    cases gens[x]? <;> simp [h]

theorem step_setAmp (norb : Nat) (gens : List Gen) (tr : Bool) (k : Nat) (t : ℝ) {x : Nat} (hx : x ≠ k) (φ : Nat → ℝ) :
    step norb (setAmp gens k t) tr φ x = step norb gens tr φ x := by
  unfold step
  rw [setAmp_getElem?, if_neg hx]

theorem foldl_step_setAmp (norb : Nat) (gens : List Gen) (tr : Bool) (k : Nat) (t : ℝ) (l : List Nat)
    (hl : ∀ x ∈ l, x ≠ k) (φ : Nat → ℝ) :
    l.foldl (step norb (setAmp gens k t) tr) φ = l.foldl (step norb gens tr) φ := by
  apply List.foldl_ext
  intro ψ x hx
  exact step_setAmp _ _ _ _ _ (hl x hx) _

theorem step_deriv {norb : Nat} {gens : List Gen} (hG : GensOK norb gens) (tr : Bool) (ix : Nat)
    {f : ℝ → Nat → ℝ} {f' : Nat → ℝ} {x : ℝ}
    (hf : ∀ D < 2 ^ norb, HasDerivAt (fun x => f x D) (f' D) x) :
    ∀ D < 2 ^ norb, HasDerivAt (fun x => step norb gens tr (f x) ix D) (step norb gens tr f' ix D) x := by
  intro D hD
  unfold step
  cases h : gens[ix]? with
  | none => exact hf D hD
  | some g =>
    have hg := gensOK_mem hG (List.mem_of_getElem? h)
    cases tr
    · simp only [op1u_ff]; exact rot_deriv_map hg _ hf hD
    · simp only [op1u_tf]; exact rot_deriv_map hg _ hf hD

theorem foldl_step_deriv {norb : Nat} {gens : List Gen} (hG : GensOK norb gens) (tr : Bool) (l : List Nat)
    {f : ℝ → Nat → ℝ} {f' : Nat → ℝ} {x : ℝ}
    (hf : ∀ D < 2 ^ norb, HasDerivAt (fun x => f x D) (f' D) x) :
    ∀ D < 2 ^ norb, HasDerivAt (fun x => l.foldl (step norb gens tr) (f x) D)
      (l.foldl (step norb gens tr) f' D) x := by
  induction l generalizing f f' with
  | nil => exact hf
  | cons y l ih =>
    simp only [List.foldl_cons]
    exact ih (f := fun x => step norb gens tr (f x) y) (f' := step norb gens tr f' y) (step_deriv hG tr y hf)

/-- The derivative of the product with respect to one amplitude. -/
theorem call_deriv {norb : Nat} {gens : List Gen} (hG : GensOK norb gens) (tr : Bool) {k : Nat} {g : Gen}
    (hg : gens[k]? = some g) (φ : Nat → ℝ) {l1 l2 : List Nat} (e : genFac gens.length tr none = l1 ++ k :: l2)
    (h1 : ∀ x ∈ l1, x < gens.length ∧ x ≠ k) (h2 : ∀ x ∈ l2, x < gens.length ∧ x ≠ k) :
    ∀ D < 2 ^ norb, HasDerivAt (fun t => call true norb (setAmp gens k t) tr φ D)
      (l2.foldl (step norb gens tr) (op1u norb g tr true (projaiPy norb g (l1.foldl (step norb gens tr) φ))) D)
      g.amp := by
  have hok := gensOK_mem hG (List.mem_of_getElem? hg)
  have hlen : ∀ t, (setAmp gens k t).length = gens.length := by intro t; simp [setAmp]
  have hc : ∀ t, call true norb (setAmp gens k t) tr φ =
      l2.foldl (step norb gens tr) (op1u norb { g with amp := t } tr false (l1.foldl (step norb gens tr) φ)) := by
    intro t
    rw [call_eq, hlen, e, List.foldl_append, List.foldl_cons,
      foldl_step_setAmp _ _ _ _ _ _ (fun x hx => (h1 x hx).2), foldl_step_setAmp _ _ _ _ _ _ (fun x hx => (h2 x hx).2)]
    congr 1
    rw [step, setAmp_getElem?, if_pos rfl, hg]
    rfl
  intro D hD
  simp only [hc]
  refine foldl_step_deriv hG tr l2 (f := fun t => op1u norb { g with amp := t } tr false
    (l1.foldl (step norb gens tr) φ)) ?_ D hD
  intro E hE
  cases tr
  · simp only [op1u_ff, op1u_ft]
    exact rot_deriv hok _ hE _
  · simp only [op1u_tf, op1u_tt]
    exact rot_deriv_neg hok _ hE _

end Verif.FsuccOp
