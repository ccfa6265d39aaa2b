import Verif.Lemmas.ImpSpace
import Mathlib.Algebra.Order.Field.Rat
/-!
# C128: impurity orbital spaces
-/
namespace Verif.Props
open Verif.ImpSpace Verif.Spec.ImpSpace

variable {K : Type} [Field K] [LinearOrder K]

/-- What all steps preserve. -/
structure ImpKeep (n : Nat) (A S : List (Orb K)) (c : List (Orb K) × List (Orb K)) : Prop where
  on : Orthonormal n (c.1 ++ c.2)
  same : SameSpace n (c.1 ++ c.2) S
  pre : ∃ F, c.1 = A ++ F
  perp : ∀ w, (∀ z ∈ S, dot n w z = 0) → ∀ z ∈ c.1 ++ c.2, dot n w z = 0

theorem imp_divide {n : Nat} {A S : List (Orb K)} {c : List (Orb K) × List (Orb K)} (h : ImpKeep n A S c) {k : Nat} {a : Nat → Nat → K} {X : Svd K}
    (hX : IsSvd c.2.length k a X) (idx : Nat → Bool) : ImpKeep n A S (divide c.1 c.2 X.u idx) where
  on := on_divide idx h.on hX.cols
  same := fun v w => (same_divide idx hX.rows v w).trans (h.same v w)
  pre := by
    obtain ⟨F, hF⟩ := h.pre
    exact ⟨F ++ _, by rw [← List.append_assoc, ← hF]; rfl⟩
  perp := by
    intro w hw z hz
    have h0 := h.perp w hw
    have hr : ∀ m, dot n w (rot c.2 X.u m) = 0 := fun m => perp_rot X.u m fun y hy => h0 y (List.mem_append_right _ hy)
    unfold divide at hz
    simp only [List.mem_append, List.mem_map] at hz
    rcases hz with (hz | ⟨m, -, rfl⟩) | ⟨m, -, rfl⟩
    · exact h0 z (List.mem_append_left _ hz)
    · exact hr m
    · exact hr m

theorem imp_proj {n : Nat} {l : List (Orb K)} (h : Orthonormal n l) {c : Orb K} (hc : c ∈ l) (d : Orb K) : proj n l c d = dot n c d := by
  obtain ⟨i, hi, rfl⟩ := List.getElem_of_mem hc
  have e : l[i] = col l i := by simp [col, hi]
  rw [e, proj, list_sum_col, Finset.sum_eq_single i]
  · rw [on_col h hi hi, if_pos rfl, one_mul]
  · intro j hj hji
    rw [on_col h hi (Finset.mem_range.1 hj), if_neg hji.symm, zero_mul]
  · intro h'; exact absurd (Finset.mem_range.2 hi) h'

theorem imp_dm_right {n : Nat} {core : List (Orb K)} {a : Orb K} (h : ∀ c ∈ core, dot n c a = 0) (v : Orb K) : dmCore n core v a = 0 := by
  unfold dmCore
  rw [list_sum_col]
  exact Finset.sum_eq_zero fun j hj => by rw [h _ (col_mem (Finset.mem_range.1 hj)), mul_zero]

theorem imp_dm_comm (n : Nat) (core : List (Orb K)) (v w : Orb K) : dmCore n core v w = dmCore n core w v := by
  unfold dmCore
  congr 1
  refine List.map_congr_left fun c _ => ?_
  rw [dot_comm n v c, dot_comm n c w]
  ring

/-- Singular vectors and the orbitals of the fragment. -/
theorem imp_pair {n : Nat} {core F eo : List (Orb K)} {X : Svd K}
    (hX : IsSvd eo.length F.length (fun j b => dmCore n core (col eo j) (col F b)) X) {k b : Nat} (hk : k < eo.length) (hb : b < F.length) :
    dmCore n core (rot eo X.u k) (col F b) = if k < min eo.length F.length then X.s k * X.vh k b else 0 := by
  rw [dm_rot_left]
  have e : ∀ j ∈ Finset.range eo.length, X.u j k * dmCore n core (col eo j) (col F b) =
      ∑ p ∈ Finset.range (min eo.length F.length), X.u j k * X.u j p * (X.s p * X.vh p b) := by
    intro j hj
    have := hX.prod j (Finset.mem_range.1 hj) b hb
    rw [this, Finset.mul_sum]
    exact Finset.sum_congr rfl fun p _ => by ring
  rw [Finset.sum_congr rfl e, Finset.sum_comm]
  have e2 : ∀ p ∈ Finset.range (min eo.length F.length), ∑ j ∈ Finset.range eo.length, X.u j k * X.u j p * (X.s p * X.vh p b) =
      (if k = p then 1 else 0) * (X.s p * X.vh p b) := by
    intro p hp
    have := Finset.mem_range.1 hp
    rw [← hX.cols k hk p (by omega), Finset.sum_mul]
  rw [Finset.sum_congr rfl e2]
  split
  · next h =>
    rw [Finset.sum_eq_single k]
    · simp
    · intro p _ hp; rw [if_neg hp.symm, zero_mul]
    · intro h'; exact absurd (Finset.mem_range.2 h) h'
  · next h =>
    refine Finset.sum_eq_zero fun p hp => ?_
    rw [if_neg, zero_mul]
    rintro rfl
    exact h (Finset.mem_range.1 hp)

/-- The Schmidt decomposition disentangles. -/
theorem imp_schmidt {n : Nat} {core A F eo : List (Orb K)} {X : Svd K} {idx : Nat → Bool}
    (hcore : Orthonormal n core) (hA : ∀ c ∈ core, ∀ a ∈ A, dot n c a = 0)
    (hproj : ∀ c ∈ core, ∀ d ∈ core, proj n ((divide (A ++ F) eo X.u idx).1 ++ (divide (A ++ F) eo X.u idx).2) c d = dot n c d)
    (hX : IsSvd eo.length F.length (fun j b => dmCore n core (col eo j) (col F b)) X)
    (hidx : ∀ k < eo.length, idx k = true ↔ k < min eo.length F.length ∧ X.s k ≠ 0) :
    ∀ e ∈ (divide (A ++ F) eo X.u idx).2, ∀ f ∈ (divide (A ++ F) eo X.u idx).1, dmCore n core e f = 0 := by
  intro e he f hf
  obtain ⟨k, hk, rfl⟩ := List.mem_map.1 he
  obtain ⟨hk, hki⟩ := List.mem_filter.1 hk
  have hk := List.mem_range.1 hk
  have hkn : ¬ (k < min eo.length F.length ∧ X.s k ≠ 0) := by
    intro h
    rw [(hidx k hk).2 h] at hki
    exact absurd hki (by decide)
  have hkF : ∀ b < F.length, dmCore n core (rot eo X.u k) (col F b) = 0 := by
    intro b hb
    rw [imp_pair hX hk hb]
    split
    · next h =>
      have : X.s k = 0 := by
        by_contra h'
        exact hkn ⟨h, h'⟩
      rw [this, zero_mul]
    · rfl
  have hkA : ∀ a ∈ A, dmCore n core (rot eo X.u k) a = 0 := fun a ha => imp_dm_right (fun c hc => hA c hc a ha) _
  unfold divide at hf
  simp only [List.mem_append, List.mem_map] at hf
  rcases hf with (hf | hf) | ⟨l, hl, rfl⟩
  · exact hkA f hf
  · obtain ⟨b, hb, rfl⟩ := List.getElem_of_mem hf
    have := hkF b hb
    rwa [show col F b = F[b] by simp [col, hb]] at this
  · obtain ⟨hl, hli⟩ := List.mem_filter.1 hl
    have hl := List.mem_range.1 hl
    obtain ⟨hlm, hls⟩ := (hidx l hl).1 hli
    have key : ∀ b < F.length, ∑ m ∈ Finset.range (min eo.length F.length), dmCore n core (rot eo X.u k) (rot eo X.u m) * (X.s m * X.vh m b) = 0 := by
      intro b hb
      have h1 := dm_idem hproj hcore (rot eo X.u k) (col F b)
      rw [hkF b hb] at h1
      unfold divide at h1
      simp only [List.map_append, List.sum_append, List.map_map, Function.comp_def] at h1
      have z1 : (A.map fun z => dmCore n core (rot eo X.u k) z * dmCore n core z (col F b)).sum = 0 := by
        rw [list_sum_col]
        exact Finset.sum_eq_zero fun j hj => by rw [hkA _ (col_mem (Finset.mem_range.1 hj)), zero_mul]
      have z2 : (F.map fun z => dmCore n core (rot eo X.u k) z * dmCore n core z (col F b)).sum = 0 := by
        rw [list_sum_col]
        exact Finset.sum_eq_zero fun j hj => by rw [hkF _ (Finset.mem_range.1 hj), zero_mul]
      rw [z1, z2, zero_add, zero_add, filter_sum] at h1
      rw [h1]
      rw [← Finset.sum_subset (Finset.range_subset_range.2 (Nat.min_le_left eo.length F.length))]
      · refine Finset.sum_congr rfl fun m hm => ?_
        have := Finset.mem_range.1 hm
        rw [imp_pair hX (by omega) hb, if_pos this]
      · intro m hm hm'
        rw [imp_pair hX (Finset.mem_range.1 hm) hb, if_neg (fun h => hm' (Finset.mem_range.2 h)), mul_zero]
    have h2 : ∑ b ∈ Finset.range F.length, (∑ m ∈ Finset.range (min eo.length F.length),
        dmCore n core (rot eo X.u k) (rot eo X.u m) * (X.s m * X.vh m b)) * X.vh l b = 0 :=
      Finset.sum_eq_zero fun b hb => by rw [key b (Finset.mem_range.1 hb), zero_mul]
    simp only [Finset.sum_mul] at h2
    rw [Finset.sum_comm] at h2
    have e2 : ∀ m ∈ Finset.range (min eo.length F.length), ∑ b ∈ Finset.range F.length,
        dmCore n core (rot eo X.u k) (rot eo X.u m) * (X.s m * X.vh m b) * X.vh l b =
        dmCore n core (rot eo X.u k) (rot eo X.u m) * X.s m * (if m = l then 1 else 0) := by
      intro m hm
      rw [← hX.right m (Finset.mem_range.1 hm) l hlm, Finset.mul_sum]
      exact Finset.sum_congr rfl fun b _ => by ring
    rw [Finset.sum_congr rfl e2, Finset.sum_eq_single l] at h2
    · rw [if_pos rfl, mul_one] at h2
      exact (mul_eq_zero.1 h2).resolve_right hls
    · intro m _ hm; rw [if_neg hm, mul_zero]
    · intro h'; exact absurd (Finset.mem_range.2 hlm) h'

/-- C128: let `L` be the fragment's active orbitals, `P` and `Q` those of other fragments, `C` the inactive and `V` the external orbitals.
After the Schmidt decomposition, fragment and environment orbitals together are orthonormal and span the space of `L`, `C` and `V`; the
fragment orbitals begin with `L`; none has a component in `P` or `Q`; and the inactive density matrix does not connect fragment and
environment, if the threshold separates the singular values that are zero from the others. -/
theorem C128_schmidt_partial (n nfu : Nat) (tol thresh : K) (doGrad : Bool) {C P L Q V : List (Orb K)} (hmo : Orthonormal n (C ++ P ++ L ++ Q ++ V))
    {X1 X2 X3 : Svd K} {a1 a2 : Nat → Nat → K} {a b c : List (Orb K) × List (Orb K)}
    (ha : a = orthnormFrag tol C.length (C ++ P ++ L ++ Q).length (C ++ P).length L.length nfu (C ++ P ++ L ++ Q ++ V) X1)
    (hb : b = a2i doGrad L.length a.1 a.2 X2) (hc : c = schmidt thresh L.length b.1 b.2 X3)
    (h1 : IsSvd (C ++ V).length nfu a1 X1) (h2 : IsSvd a.2.length L.length a2 X2)
    (h3 : IsSvd b.2.length (b.1.drop L.length).length (schmidtMat n C L.length b.1 b.2) X3)
    (hs : ∀ k < min b.2.length (b.1.drop L.length).length, thresh < |X3.s k| ↔ X3.s k ≠ 0) :
    Orthonormal n (c.1 ++ c.2) ∧ SameSpace n (c.1 ++ c.2) (L ++ (C ++ V)) ∧ c.1.take L.length = L ∧
      (∀ w ∈ P ++ Q, ∀ z ∈ c.1 ++ c.2, dot n w z = 0) ∧ ∀ e ∈ c.2, ∀ f ∈ c.1, dmCore n C e f = 0 := by
  obtain ⟨o1, oV, xV⟩ := on_append.1 hmo
  obtain ⟨o2, oQ, xQ⟩ := on_append.1 o1
  obtain ⟨o3, oL, xL⟩ := on_append.1 o2
  obtain ⟨oC, oP, xP⟩ := on_append.1 o3
  simp only [List.mem_append] at xV xQ xL
  have hst : Orthonormal n (L ++ (C ++ V)) := by
    refine on_append.2 ⟨oL, on_append.2 ⟨oC, oV, fun v hv w hw => xV v (by tauto) w hw⟩, fun v hv w hw => ?_⟩
    rcases List.mem_append.1 hw with hw | hw
    · rw [dot_comm]; exact xL w (Or.inl hw) v hv
    · exact xV v (by tauto) w hw
  have k0 : ImpKeep n L (L ++ (C ++ V)) (L, C ++ V) := ⟨hst, fun _ _ => rfl, ⟨[], by simp⟩, fun w hw => hw⟩
  have eL : ((C ++ P ++ L ++ Q ++ V).drop (C ++ P).length).take L.length = L := by
    rw [show C ++ P ++ L ++ Q ++ V = (C ++ P) ++ (L ++ (Q ++ V)) by simp, List.drop_left, List.take_left]
  have eU : unactive C.length (C ++ P ++ L ++ Q).length (C ++ P ++ L ++ Q ++ V) = C ++ V := by
    unfold unactive
    rw [List.drop_left, show C ++ P ++ L ++ Q ++ V = C ++ (P ++ (L ++ (Q ++ V))) by simp, List.take_left]
  have k1 : ImpKeep n L (L ++ (C ++ V)) a := by
    rw [ha]
    unfold orthnormFrag
    simp only [eL, eU]
    split
    · exact k0
    · exact imp_divide k0 h1 _
  have k2 : ImpKeep n L (L ++ (C ++ V)) b := by
    rw [hb]
    unfold a2i
    split
    · exact k1
    · exact imp_divide k1 h2 _
  have k3 : ImpKeep n L (L ++ (C ++ V)) c := by
    rw [hc]
    unfold schmidt
    split
    · exact k2
    · exact imp_divide k2 h3 _
  refine ⟨k3.on, k3.same, ?_, fun w hw => k3.perp w fun z hz => ?_, ?_⟩
  · obtain ⟨F, hF⟩ := k3.pre
    rw [hF, List.take_left]
  · rcases List.mem_append.1 hw with hw | hw <;> rcases List.mem_append.1 hz with hz | hz
    · exact xL w (by tauto) z hz
    · rcases List.mem_append.1 hz with hz | hz
      · rw [dot_comm]; exact xP z hz w hw
      · exact xV w (by tauto) z hz
    · rw [dot_comm]; exact xQ z (by tauto) w hw
    · rcases List.mem_append.1 hz with hz | hz
      · rw [dot_comm]; exact xQ z (by tauto) w hw
      · exact xV w (by tauto) z hz
  · obtain ⟨F, hF⟩ := k2.pre
    have hd : b.1.drop L.length = F := by rw [hF, List.drop_left]
    have hCL : ∀ d ∈ C, ∀ v ∈ L, dot n d v = 0 := fun d hd v hv => xL d (by tauto) v hv
    have hcon : ∀ d ∈ C, ∀ d' ∈ C, proj n (c.1 ++ c.2) d d' = dot n d d' := by
      intro d hd d' _
      rw [k3.same]
      exact imp_proj hst (by simp [hd]) d'
    rw [hd] at h3 hs
    have hmat : schmidtMat n C L.length b.1 b.2 = fun j m => dmCore n C (col b.2 j) (col F m) := by
      unfold schmidtMat
      rw [hd]
    rw [hmat] at h3
    unfold schmidt at hc
    rw [hd] at hc
    split at hc
    · next h0 =>
      intro e he f hf
      rcases h0 with h0 | h0
      · rw [hc] at he
        rw [List.length_eq_zero_iff.1 h0] at he
        exact absurd he (by simp)
      · rw [hc] at hf
        rw [hF, List.length_eq_zero_iff.1 h0, List.append_nil] at hf
        exact imp_dm_right (fun d hd => hCL d hd f hf) e
    · rw [hF] at hc
      rw [hc] at hcon ⊢
      refine imp_schmidt oC hCL hcon h3 fun k _ => ?_
      rw [decide_eq_true_eq]
      exact and_congr_right fun h => hs k h

/-- An inactive orbital shared between the fragment's atomic orbital 0 and orbital 1, another one outside, and an active orbital. -/
example : ∃ (X1 X2 X3 : Svd Rat) (a1 a2 : Nat → Nat → Rat) (a b c : List (Orb Rat) × List (Orb Rat)),
    let C : List (Orb Rat) := [fun i => if i = 0 then 3 / 5 else if i = 1 then 4 / 5 else 0, unitOrb 2]
    let V : List (Orb Rat) := [fun i => if i = 0 then -4 / 5 else if i = 1 then 3 / 5 else 0]
    let L := [unitOrb 3]
    Orthonormal 4 (C ++ [] ++ L ++ [] ++ V) ∧
    a = orthnormFrag (1 / 10000) 2 3 2 1 1 (C ++ [] ++ L ++ [] ++ V) X1 ∧ b = a2i false 1 a.1 a.2 X2 ∧ c = schmidt (1 / 100000000) 1 b.1 b.2 X3 ∧
    IsSvd (C ++ V).length 1 a1 X1 ∧ IsSvd a.2.length 1 a2 X2 ∧ IsSvd b.2.length (b.1.drop 1).length (schmidtMat 4 C 1 b.1 b.2) X3 ∧
    (∀ k < min b.2.length (b.1.drop 1).length, 1 / 100000000 < |X3.s k| ↔ X3.s k ≠ 0) ∧ c.1.length = 3 ∧ c.2.length = 1 := by
  let u1 : Nat → Nat → Rat := fun j k => (([[3 / 5, 4 / 5, 0], [0, 0, 1], [-4 / 5, 3 / 5, 0]] : List (List Rat)).getD j []).getD k 0
  let one : Nat → Nat → Rat := fun j k => if j = k then 1 else 0
  refine ⟨⟨u1, fun _ => 1, one⟩, ⟨one, fun _ => 0, one⟩, ⟨one, fun _ => 12 / 25, one⟩, fun i _ => u1 i 0, fun _ _ => 0, _, _, _, ⟨?_, ?_⟩, rfl, rfl, rfl,
    ⟨?_, ?_, ?_, ?_⟩, ⟨?_, ?_, ?_, ?_⟩, ⟨?_, ?_, ?_, ?_⟩, ?_, ?_, ?_⟩
  · simp only [List.cons_append, List.nil_append, List.append_nil, List.pairwise_cons, List.mem_cons, List.not_mem_nil, forall_eq_or_imp, or_false, forall_eq]
    refine ⟨⟨?_, ?_, ?_⟩, ⟨?_, ?_⟩, ?_, ?_⟩ <;> first | decide +kernel | simp
  · simp only [List.cons_append, List.nil_append, List.append_nil, List.mem_cons, List.not_mem_nil, forall_eq_or_imp, or_false, forall_eq]
    refine ⟨?_, ?_, ?_, ?_⟩ <;> decide +kernel
  all_goals decide +kernel

theorem imp_on_perm {n : Nat} {l l' : List (Orb K)} (h : l.Perm l') (ho : Orthonormal n l) : Orthonormal n l' :=
  ⟨(h.pairwise_iff fun {v w} hvw => by rw [dot_comm]; exact hvw).1 ho.1, fun v hv => ho.2 v (h.mem_iff.2 hv)⟩

theorem imp_proj_perm {n : Nat} {l l' : List (Orb K)} (h : l.Perm l') : SameSpace n l l' := fun _ _ => (h.map _).sum_eq

theorem imp_on_rotAll {n : Nat} {eo : List (Orb K)} {k : Nat} {a : Nat → Nat → K} {X : Svd K} (hX : IsSvd eo.length k a X) {fo : List (Orb K)}
    (h : Orthonormal n (fo ++ eo)) : Orthonormal n (fo ++ rotAll eo X.u) ∧ SameSpace n (fo ++ rotAll eo X.u) (fo ++ eo) := by
  have e : (divide fo eo X.u fun _ => true).1 ++ (divide fo eo X.u fun _ => true).2 = fo ++ rotAll eo X.u := by
    simp [divide, rotAll]
  rw [← e]
  exact ⟨on_divide _ h hX.cols, same_divide _ hX.rows⟩

theorem imp_cols (l : List (Orb K)) : (List.range l.length).map (col l) = l := by
  refine List.ext_getElem (by simp) fun i h1 h2 => ?_
  simp [col, h2]

/-- C128: if there are no more inactive and no more external environment orbitals than fragment orbitals, adding gradient orbitals keeps
the orbitals orthonormal and the space, and puts the orbitals added after the fragment orbitals. -/
theorem C128_gradorbs_partial (n : Nat) (argsort : Nat → (Nat → K) → Nat → Nat) (hsort : ∀ m f, ((List.range m).map (argsort m f)).Perm (List.range m))
    {ncore ni ntarget : Nat} {fo eo : List (Orb K)} {X Xi Xx : Svd K} {kc : Nat} {s gi gx : Nat → Nat → K} (h : Orthonormal n (fo ++ eo))
    (hX : IsSvd eo.length kc s X) (hXi : IsSvd ((rotAll eo X.u).take ni).length fo.length gi Xi) (hXx : IsSvd ((rotAll eo X.u).drop ni).length fo.length gx Xx)
    (hi : ((rotAll eo X.u).take ni).length ≤ fo.length) (hx : ((rotAll eo X.u).drop ni).length ≤ fo.length) (ht : fo.length ≤ ntarget) :
    ∃ r, ia2x argsort ncore ni ntarget fo eo X Xi Xx = some r ∧ Orthonormal n (r.1 ++ r.2) ∧ SameSpace n (r.1 ++ r.2) (fo ++ eo) ∧
      fo <+: r.1 ∧ r.1.length ≤ ntarget := by
  unfold ia2x
  split
  · exact ⟨_, rfl, h, fun _ _ => rfl, List.prefix_refl _, ht⟩
  · rw [if_neg (by omega)]
    refine ⟨_, rfl, ?_⟩
    simp only [List.append_assoc, List.take_append_drop]
    have li : ∀ l : List (Orb K), ∀ u, (rotAll l u).length = l.length := fun l u => by simp [rotAll]
    simp only [li] at hi hx ⊢
    obtain ⟨o1, s1⟩ := imp_on_rotAll hX h
    rw [← List.take_append_drop ni (rotAll eo X.u), ← List.append_assoc] at o1
    obtain ⟨o2, s2⟩ := imp_on_rotAll hXx o1
    have p2 : (fo ++ (rotAll eo X.u).take ni ++ rotAll ((rotAll eo X.u).drop ni) Xx.u).Perm
        (fo ++ rotAll ((rotAll eo X.u).drop ni) Xx.u ++ (rotAll eo X.u).take ni) := by
      rw [List.append_assoc, List.append_assoc]
      exact (List.perm_append_comm).append_left fo
    obtain ⟨o3, s3⟩ := imp_on_rotAll hXi (imp_on_perm p2 o2)
    have p3 : (fo ++ rotAll ((rotAll eo X.u).drop ni) Xx.u ++ rotAll ((rotAll eo X.u).take ni) Xi.u).Perm
        (fo ++ (rotAll ((rotAll eo X.u).take ni) Xi.u ++ rotAll ((rotAll eo X.u).drop ni) Xx.u)) := by
      rw [List.append_assoc]
      exact (List.perm_append_comm).append_left fo
    generalize hE : rotAll ((rotAll eo X.u).take ni) Xi.u ++ rotAll ((rotAll eo X.u).drop ni) Xx.u = E at p3 ⊢
    have hlen : min ((rotAll eo X.u).take ni).length fo.length + min ((rotAll eo X.u).drop ni).length fo.length = E.length := by
      rw [← hE, List.length_append, li, li, Nat.min_eq_left (by simpa [li] using hi), Nat.min_eq_left (by simpa [li] using hx)]
    rw [hlen]
    have p4 : ∀ f, ((List.range E.length).map fun k => col E (argsort E.length f k)).Perm E := by
      intro f
      have := (hsort E.length f).map (col E)
      rw [imp_cols, List.map_map] at this
      exact this
    have p5 := fun f => p3.trans ((p4 f).symm.append_left fo)
    refine ⟨imp_on_perm (p5 _) o3, fun v w => ?_, List.prefix_append _ _, ?_⟩
    · rw [← imp_proj_perm (p5 _), s3, ← imp_proj_perm p2, s2, List.append_assoc, List.take_append_drop, s1]
    · rw [List.length_append, List.length_take]
      omega

/-- C128: with more inactive environment orbitals than fragment orbitals, the orbital that the gradient couples to the fragment is lost, and
another one is added in its place. -/
theorem C128_gradorbs_violated (argsort : Nat → (Nat → Rat) → Nat → Nat) (hsort : ∀ f : Nat → Rat, f 1 < f 0 → argsort 2 f 0 = 1 ∧ argsort 2 f 1 = 0) :
    ∃ (g : Nat → Nat → Rat) (X Xi Xx : Svd Rat),
      let fo := [unitOrb 0]
      let eo := [unitOrb 1, unitOrb 2, unitOrb 3]
      let core := [unitOrb 1, unitOrb 2]
      IsSvd 3 2 (fun j c => dot 4 (col eo j) (col core c)) X ∧
      IsSvd 2 1 (fun j b => grad 4 g (col ((rotAll eo X.u).take 2) j) (col fo b)) Xi ∧
      IsSvd 1 1 (fun j b => grad 4 g (col ((rotAll eo X.u).drop 2) j) (col fo b)) Xx ∧
      grad 4 g (unitOrb 3) (unitOrb 0) = 1 ∧
      ∃ r, ia2x argsort 2 2 2 fo eo X Xi Xx = some r ∧ r.1.length = 2 ∧ (∀ z ∈ r.1 ++ r.2, dot 4 (unitOrb 3) z = 0) ∧
        ∀ z ∈ r.1, grad 4 g z (unitOrb 0) = 0 := by
  let one : Nat → Nat → Rat := fun j k => if j = k then 1 else 0
  refine ⟨fun i j => if i = 3 ∧ j = 0 then 1 else if i = 0 ∧ j = 3 then -1 else 0, ⟨one, fun _ => 1, one⟩, ⟨one, fun _ => 0, one⟩, ⟨one, fun _ => 1, one⟩,
    ⟨?_, ?_, ?_, ?_⟩, ⟨?_, ?_, ?_, ?_⟩, ⟨?_, ?_, ?_, ?_⟩, ?_, ?_⟩
  iterate 13 decide +kernel
  obtain ⟨h0, h1⟩ := hsort (fun i => -|bothSvals 2 1 ⟨one, fun _ => 0, one⟩ ⟨one, fun _ => 1, one⟩ i|) (by decide +kernel)
  refine ⟨([unitOrb 0, rot ((rotAll [unitOrb 1, unitOrb 2, unitOrb 3] one).take 2) one 1], [rot ((rotAll [unitOrb 1, unitOrb 2, unitOrb 3] one).take 2) one 0]), ?_, rfl, ?_, ?_⟩
  · change some (_ ++ [col _ (argsort 2 (fun i => -|bothSvals 2 1 ⟨one, fun _ => 0, one⟩ ⟨one, fun _ => 1, one⟩ i|) 0)],
      [col _ (argsort 2 (fun i => -|bothSvals 2 1 ⟨one, fun _ => 0, one⟩ ⟨one, fun _ => 1, one⟩ i|) 1)]) = _
    rw [h0, h1]
    rfl
  · simp only [List.cons_append, List.nil_append, List.mem_cons, List.not_mem_nil, forall_eq_or_imp, or_false, forall_eq]
    refine ⟨?_, ?_, ?_⟩ <;> decide +kernel
  · simp only [List.mem_cons, List.not_mem_nil, forall_eq_or_imp, or_false, forall_eq]
    refine ⟨?_, ?_⟩ <;> decide +kernel

end Verif.Props
