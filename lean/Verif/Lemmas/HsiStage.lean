import Verif.Lemmas.HsiVec
/-!
# Lemmas: the loop over the fragments
-/
namespace Verif.Lstdm
open Verif.Spec Verif.Exc Verif.Addr Verif.Radix Verif.Spec.Lstdm

variable {K : Type} [Field K]

namespace Kern

/-- Nonspectators and spectators below `t`, fragments above `t`, and the order of the dimensions before fragment `t`. -/
def aT (I : List Nat) (t : Nat) : List Nat := (List.range t).filter (fun f => decide (f ∈ I))
@[inherit_doc aT] def sT (I : List Nat) (t : Nat) : List Nat := (List.range t).filter (fun f => decide (f ∉ I))
@[inherit_doc aT] def rT (n t : Nat) : List Nat := List.range' t (n - t)
@[inherit_doc aT] def ordT (I : List Nat) (n t : Nat) : List Nat := aT I t ++ rT n t ++ sT I t

theorem rT_cons (n t : Nat) (h : t < n) : rT n t = t :: rT n (t + 1) := by
  unfold rT
  rw [show n - t = (n - (t + 1)) + 1 by omega, List.range'_succ]

theorem ordT_split (I : List Nat) (n t : Nat) (h : t < n) : ordT I n t = aT I t ++ (t :: (rT n (t + 1) ++ sT I t)) := by
  unfold ordT; rw [rT_cons n t h]; simp

theorem ordT_mem (I : List Nat) (n t : Nat) (h : t < n) (hI : t ∈ I) : ordT I n (t + 1) = ordT I n t ∧ aT I (t + 1) = aT I t ++ [t] := by
  have : aT I (t + 1) = aT I t ++ [t] := by unfold aT; rw [List.range_succ, List.filter_append]; simp [hI]
  refine ⟨?_, this⟩
  rw [ordT_split I n t h]
  unfold ordT
  rw [this]
  have : sT I (t + 1) = sT I t := by unfold sT; rw [List.range_succ, List.filter_append]; simp [hI]
  rw [this]; simp

theorem ordT_spec (I : List Nat) (n t : Nat) (hI : t ∉ I) :
    ordT I n (t + 1) = aT I t ++ ((rT n (t + 1) ++ sT I t) ++ [t]) ∧ aT I (t + 1) = aT I t ∧ sT I (t + 1) = sT I t ++ [t] := by
  have h1 : aT I (t + 1) = aT I t := by unfold aT; rw [List.range_succ, List.filter_append]; simp [hI]
  have h2 : sT I (t + 1) = sT I t ++ [t] := by unfold sT; rw [List.range_succ, List.filter_append]; simp [hI]
  refine ⟨?_, h1, h2⟩
  unfold ordT
  rw [h1, h2]; simp

theorem mem_rs (I : List Nat) (n t f : Nat) (h : f ∈ rT n (t + 1) ++ sT I t) (ht : t < n) : f < n ∧ f ≠ t := by
  unfold rT sT at h
  rw [List.mem_append, List.mem_range'_1, List.mem_filter, List.mem_range] at h
  omega

theorem mem_aT (I : List Nat) (t f : Nat) (h : f ∈ aT I t) : f < t ∧ f ∈ I := by
  unfold aT at h; rw [List.mem_filter, List.mem_range] at h; exact ⟨h.1, by simpa using h.2⟩

theorem mem_sT (I : List Nat) (t f : Nat) : f ∈ sT I t ↔ f < t ∧ f ∉ I := by
  unfold sT; rw [List.mem_filter, List.mem_range]; simp

theorem prod_pos' (l : List Nat) (h : ∀ a ∈ l, 0 < a) : 0 < l.prod := by
  induction l with
  | nil => simp
  | cons a l ih =>
    rw [List.prod_cons]
    exact Nat.mul_pos (h a (by simp)) (ih (fun b hb => h b (by simp [hb])))

theorem sum_single {α R : Type} [AddCommMonoid R] (l : List α) (hl : l.Nodup) (F : α → R) (a : α) (ha : a ∈ l)
    (h : ∀ b ∈ l, b ≠ a → F b = 0) : (l.map F).sum = F a := by
  induction l with
  | nil => simp at ha
  | cons c l ih =>
    rw [List.nodup_cons] at hl
    rw [List.map_cons, List.sum_cons]
    rcases List.mem_cons.mp ha with rfl | ha'
    · rw [List.sum_eq_zero, add_zero]
      intro z hz
      obtain ⟨b, hb, rfl⟩ := List.mem_map.mp hz
      exact h b (by simp [hb]) (by rintro rfl; exact hl.1 hb)
    · rw [h c (by simp) (by rintro rfl; exact hl.1 ha'), zero_add]
      exact ih hl.2 ha' (fun b hb => h b (by simp [hb]))

theorem inShape_map (J : List Nat) (e d : Nat → Nat) (h : ∀ f ∈ J, e f < d f) : InShape (J.map e) (J.map d) := by
  unfold InShape
  induction J with
  | nil => exact List.Forall₂.nil
  | cons a J ih => exact List.Forall₂.cons (h a (by simp)) (ih (fun f hf => h f (by simp [hf])))

theorem posF_map_congr (J : List Nat) (e e' d d' : Nat → Nat) (h : ∀ f ∈ J, e f = e' f) (h' : ∀ f ∈ J, d f = d' f) :
    posF (J.map d) (J.map e) = posF (J.map d') (J.map e') := by
  rw [List.map_congr_left h, List.map_congr_left h']

/-- The position of a fragment moves to the end. -/
theorem pos_move (A B : List Nat) (t : Nat) (d d' e : Nat → Nat) (q : Nat) (hA : ∀ f ∈ A, d' f = d f) (hB : ∀ f ∈ B, d' f = d f)
    (eA : ∀ f ∈ A, e f < d f) (eB : ∀ f ∈ B, e f < d f) (et : e t < d t) (htA : t ∉ A) (htB : t ∉ B) :
    let T := posF ((A ++ (B ++ [t])).map d) ((A ++ (B ++ [t])).map e)
    let L := (A.map d).prod
    let n := (B.map d).prod
    T / (n * L) = e t ∧ (T / L % n * d' t + q) * L + T % L =
      posF ((A ++ (t :: B)).map d') ((A ++ (t :: B)).map (Function.update e t q)) := by
  intro T L n
  have hpA : posF (A.map d) (A.map e) < L := posF_lt (inShape_map A e d eA)
  have hpB : posF (B.map d) (B.map e) < n := posF_lt (inShape_map B e d eB)
  have hT : T = posF (A.map d) (A.map e) + L * (posF (B.map d) (B.map e) + n * e t) := by
    simp only [T, List.map_append, List.map_cons, List.map_nil]
    rw [posF_append _ _ _ _ (by simp), posF_append _ _ _ _ (by simp)]
    simp [posF, L, n]
  have hL : 0 < L := by omega
  have hn : 0 < n := by omega
  have e1 : T / L = posF (B.map d) (B.map e) + n * e t := by
    rw [hT, Nat.add_mul_div_left _ _ hL, Nat.div_eq_of_lt hpA, Nat.zero_add]
  have e2 : T % L = posF (A.map d) (A.map e) := by
    rw [hT, Nat.add_mul_mod_self_left, Nat.mod_eq_of_lt hpA]
  constructor
  · rw [Nat.mul_comm n L, ← Nat.div_div_eq_div_mul, e1, Nat.add_mul_div_left _ _ hn, Nat.div_eq_of_lt hpB, Nat.zero_add]
  · rw [e1, e2, Nat.add_mul_mod_self_left, Nat.mod_eq_of_lt hpB]
    rw [List.map_append, List.map_append, posF_append _ _ _ _ (by simp), List.map_cons, List.map_cons]
    have uA : ∀ f ∈ A, Function.update e t q f = e f := fun f hf => Function.update_of_ne (by rintro rfl; exact htA hf) _ _
    have uB : ∀ f ∈ B, Function.update e t q f = e f := fun f hf => Function.update_of_ne (by rintro rfl; exact htB hf) _ _
    rw [show ∀ a b c d : Nat, ∀ x y : List Nat, posF (a :: x) (b :: y) = b + a * posF x y by intros; rfl]
    · rw [posF_map_congr A _ e d' d uA hA, posF_map_congr B _ e d' d uB hB, List.map_congr_left hA, Function.update_self]
      ring
    · exact 0
    · exact 0

variable {k : Kern K} {I : List Nat} {link : List (Nat × List Nat)}

open Classical in
/-- The vectors before fragment `t`. -/
noncomputable def Vt (k : Kern K) (I : List Nat) (link : List (Nat × List Nat)) (fac : Nat → K) (x : Nat → K) (t : Nat) (s : List Nat) (e : Nat → Nat) : K :=
  ∑ γ ∈ Finset.range k.nstates, if k.Pt I link t s (k.rootOf γ) ∧ ∀ f < k.nlas.length, f ∈ I ∨ t ≤ f → k.envOf f γ = e f then
    ((sT I t).map (fun f => (k.tabs f).get1Ovlp (Nat.pair (s.getD f 0) (e f)) (k.loc f γ))).prod * (fac (k.rootOf γ) * x γ) else 0

/-- The dictionary before fragment `t`. -/
def Stage (k : Kern K) (I : List Nat) (link : List (Nat × List Nat)) (fac : Nat → K) (x : Nat → K) (t : Nat) (vs : Vecs K) : Prop :=
  ∀ e ∈ link, ∃ v, vs (k.stK e t) = some v ∧ v.lr = ((aT I t).map (k.dm (k.stK e t))).prod ∧
    v.size = ((ordT I k.nlas.length t).map (k.dm (k.stK e t))).prod ∧
    ∀ env : Nat → Nat, (∀ f < k.nlas.length, env f < k.dm (k.stK e t) f) →
      v.dat (posF ((ordT I k.nlas.length t).map (k.dm (k.stK e t))) ((ordT I k.nlas.length t).map env)) =
        k.Vt I link fac x t (k.stK e t) env

section
variable (hL : k.LinkOk I link) (hK : Consistent k)
include hL hK

theorem dm_ex (e : Nat × List Nat) (he : e ∈ link) (t f : Nat) (hf : f < k.nlas.length) : ∃ r < k.cols.length,
    (k.stK e t).getD f 0 = k.uroot f r ∧ k.dm (k.stK e t) f = k.lr r f := by
  unfold dm
  rw [stK_getD _ _ _ hf]
  by_cases h : f < t
  · rw [if_pos h]
    obtain ⟨r, hr, h1, _⟩ := hL.spec e he f hf
    exact ⟨r, hr, h1, by rw [h1, lrU_eq hK f r hf hr]⟩
  · rw [if_neg h]
    exact ⟨e.1, hL.lt e he, rfl, lrU_eq hK f _ hf (hL.lt e he)⟩

theorem dm_pos (e : Nat × List Nat) (he : e ∈ link) (t f : Nat) (hf : f < k.nlas.length) : 0 < k.dm (k.stK e t) f := by
  obtain ⟨r, hr, _, h⟩ := dm_ex hL hK e he t f hf
  rw [h]; exact (cols_of hK).pos r hr f hf

theorem stK_succ (e : Nat × List Nat) (t f : Nat) (hf : f < k.nlas.length) (hft : f ≠ t) :
    (k.stK e (t + 1)).getD f 0 = (k.stK e t).getD f 0 := by
  rw [stK_getD _ _ _ hf, stK_getD _ _ _ hf]
  by_cases hlt : f < t
  · rw [if_pos (by omega), if_pos hlt]
  · rw [if_neg (by omega), if_neg hlt]

/-- A nonspectator. -/
theorem stage_inv (fac x : Nat → K) (t : Nat) (ht : t < k.nlas.length) (hI : t ∈ I) (vs : Vecs K) (h : k.Stage I link fac x t vs) :
    k.Stage I link fac x (t + 1) (k.vecsInv t vs) := by
  intro e he
  obtain ⟨v, h1, h2, h3, h4⟩ := h e he
  have hst : k.stK e (t + 1) = k.stK e t := by
    apply list_ext_getD k.nlas.length _ _ (stK_len _ _) (stK_len _ _)
    intro f hf
    by_cases hft : f = t
    · subst hft
      rw [stK_getD _ _ _ hf, stK_getD _ _ _ hf, if_pos (by omega), if_neg (by omega)]; exact hL.inv e he f hf hI
    · exact stK_succ hL hK e t f hf hft
  obtain ⟨o1, o2⟩ := ordT_mem I k.nlas.length t ht hI
  rw [hst, o1, o2]
  unfold vecsInv
  rw [h1]
  refine ⟨_, rfl, ?_, h3, fun env henv => ?_⟩
  · dsimp only; rw [h2]; simp [dm]
  · dsimp only
    rw [h4 env henv]
    unfold Vt
    have hs : sT I (t + 1) = sT I t := by unfold sT; rw [List.range_succ, List.filter_append]; simp [hI]
    rw [hs]
    refine Finset.sum_congr rfl fun γ _ => ?_
    congr 1
    have hP : k.Pt I link (t + 1) (k.stK e t) (k.rootOf γ) = k.Pt I link t (k.stK e t) (k.rootOf γ) := by
      conv_lhs => unfold Pt
      rw [if_pos hI]
    rw [hP]
    apply propext
    refine and_congr_right fun _ => forall_congr' fun f => forall_congr' fun hf => ?_
    constructor
    · intro h hor
      apply h
      rcases hor with h | h
      · exact Or.inl h
      · right; omega
    · intro h hor
      apply h
      rcases hor with h | h
      · exact Or.inl h
      · by_cases hft : f = t
        · subst hft; exact Or.inl hI
        · right; omega

/-- Edges change one fragment. -/
theorem edge_ne (t : Nat) (p : List Nat × List Nat) (hp : p ∈ k.uniqStr link t) (f : Nat) (hf : f < k.nlas.length) (hft : f ≠ t) :
    p.2.getD f 0 = p.1.getD f 0 := by
  obtain ⟨e, _, rfl⟩ := (mem_uniqStr link t _).mp hp
  exact stK_succ hL hK e t f hf hft

theorem Vt_step (fac x : Nat → K) (t : Nat) (ht : t < k.nlas.length) (hI : t ∉ I) (s : List Nat) (env : Nat → Nat) :
    ((k.uniqStr link t).map (fun p => if p.2 = s then ∑ q ∈ Finset.range (k.dm p.1 t),
      (k.tabs t).get1Ovlp (Nat.pair (s.getD t 0) (env t)) (Nat.pair (p.1.getD t 0) q) * k.Vt I link fac x t p.1 (Function.update env t q) else 0)).sum =
    k.Vt I link fac x (t + 1) s env := by
  classical
  have hsT := (ordT_spec I k.nlas.length t hI).2.2
  have hstep : ∀ p ∈ k.uniqStr link t, (if p.2 = s then ∑ q ∈ Finset.range (k.dm p.1 t),
      (k.tabs t).get1Ovlp (Nat.pair (s.getD t 0) (env t)) (Nat.pair (p.1.getD t 0) q) * k.Vt I link fac x t p.1 (Function.update env t q) else 0) =
      ∑ γ ∈ Finset.range k.nstates, if p.2 = s ∧ k.Pt I link t p.1 (k.rootOf γ) ∧ ∀ f < k.nlas.length, f ∈ I ∨ t + 1 ≤ f → k.envOf f γ = env f then
        ((sT I (t + 1)).map (fun f => (k.tabs f).get1Ovlp (Nat.pair (s.getD f 0) (env f)) (k.loc f γ))).prod * (fac (k.rootOf γ) * x γ) else 0 := by
    intro p hp
    by_cases hps : p.2 = s
    · rw [if_pos hps]
      unfold Vt
      simp only [Finset.mul_sum]
      rw [Finset.sum_comm]
      refine Finset.sum_congr rfl fun γ hγ => ?_
      have hγ : γ < k.nstates := by simpa using hγ
      by_cases hP : k.Pt I link t p.1 (k.rootOf γ)
      · obtain ⟨hr, hlen, hlate, _⟩ := Pt_props hL hK t (by omega) _ _ hP
        have ept : p.1.getD t 0 = k.uroot t (k.rootOf γ) := hlate t ht (Or.inl (le_refl t))
        have hdm : k.dm p.1 t = k.lr (k.rootOf γ) t := by unfold dm; rw [ept, lrU_eq hK t _ ht hr]
        have hc : ∀ q, (k.Pt I link t p.1 (k.rootOf γ) ∧ ∀ f < k.nlas.length, f ∈ I ∨ t ≤ f → k.envOf f γ = Function.update env t q f) ↔
            (q = k.envOf t γ ∧ ∀ f < k.nlas.length, f ∈ I ∨ t + 1 ≤ f → k.envOf f γ = env f) := by
          intro q
          constructor
          · rintro ⟨_, h⟩
            refine ⟨by rw [h t ht (Or.inr (le_refl t)), Function.update_self], fun f hf hor => ?_⟩
            have hft : f ≠ t := by
              rintro rfl
              rcases hor with h' | h'
              · exact hI h'
              · omega
            rw [h f hf (hor.imp id (by omega)), Function.update_of_ne hft]
          · rintro ⟨rfl, h⟩
            refine ⟨hP, fun f hf hor => ?_⟩
            by_cases hft : f = t
            · subst hft; rw [Function.update_self]
            · rw [Function.update_of_ne hft]
              apply h f hf
              rcases hor with h' | h'
              · exact Or.inl h'
              · right; omega
        rw [Finset.sum_eq_single (k.envOf t γ)]
        · by_cases hE : ∀ f < k.nlas.length, f ∈ I ∨ t + 1 ≤ f → k.envOf f γ = env f
          · rw [if_pos ((hc _).mpr ⟨rfl, hE⟩), if_pos ⟨hps, hP, hE⟩, hsT, List.map_append, List.prod_append]
            have e1 : (sT I t).map (fun f => (k.tabs f).get1Ovlp (Nat.pair (p.1.getD f 0) (Function.update env t (k.envOf t γ) f)) (k.loc f γ)) =
                (sT I t).map (fun f => (k.tabs f).get1Ovlp (Nat.pair (s.getD f 0) (env f)) (k.loc f γ)) := by
              apply List.map_congr_left
              intro f hf
              have := (mem_sT I t f).mp hf
              rw [Function.update_of_ne (by omega), ← hps, edge_ne hL hK t p hp f (by omega) (by omega)]
            rw [e1]
            simp only [List.map_cons, List.map_nil, List.prod_cons, List.prod_nil, mul_one]
            rw [show k.loc t γ = Nat.pair (p.1.getD t 0) (k.envOf t γ) by unfold loc; rw [ept]]
            ring
          · rw [if_neg (fun h => hE ((hc _).mp h).2), if_neg (fun h => hE h.2.2), mul_zero]
        · intro q _ hq
          rw [if_neg (fun h => hq ((hc _).mp h).1), mul_zero]
        · intro h
          exfalso
          apply h
          rw [Finset.mem_range, hdm]
          exact (adr_of (cols_of hK) γ hγ).2.1 t ht
      · rw [if_neg (fun h => hP h.2.1)]
        apply Finset.sum_eq_zero
        intro q _
        rw [if_neg (fun h => hP h.1), mul_zero]
    · rw [if_neg hps]
      symm
      apply Finset.sum_eq_zero
      intro γ _
      rw [if_neg (fun h => hps h.1)]
  rw [List.map_congr_left hstep, ← sum_list_comm]
  unfold Vt
  refine Finset.sum_congr rfl fun γ _ => ?_
  have hP1 : k.Pt I link (t + 1) s (k.rootOf γ) ↔ ∃ s', (s', s) ∈ k.uniqStr link t ∧ k.Pt I link t s' (k.rootOf γ) := by
    conv_lhs => unfold Pt
    rw [if_neg hI]
  by_cases hP : k.Pt I link (t + 1) s (k.rootOf γ)
  · obtain ⟨s', hs', hp'⟩ := hP1.mp hP
    rw [sum_single (k.uniqStr link t) (by unfold uniqStr; exact List.nodup_dedup _) _ (s', s) hs']
    · congr 1
      simp only [hP, hp', true_and]
    · intro p hpU hp
      rw [if_neg]
      rintro ⟨h1, h2, _⟩
      apply hp
      refine Prod.ext ?_ h1
      obtain ⟨_, l1, a1, _⟩ := Pt_props hL hK t (by omega) _ _ h2
      obtain ⟨_, l2, a2, _⟩ := Pt_props hL hK t (by omega) _ _ hp'
      apply list_ext_getD _ _ _ l1 l2
      intro f hf
      by_cases hft : f = t
      · rw [a1 f hf (Or.inl (by omega)), a2 f hf (Or.inl (by omega))]
      · rw [← edge_ne hL hK t p hpU f hf hft, ← edge_ne hL hK t (s', s) hs' f hf hft, h1]
  · rw [if_neg (fun h => hP h.1), List.sum_eq_zero]
    intro z hz
    obtain ⟨p, hp, rfl⟩ := List.mem_map.mp hz
    rw [if_neg]
    rintro ⟨h1, h2, _⟩
    exact hP (hP1.mpr ⟨p.1, by rw [← h1]; exact hp, h2⟩)

/-- A spectator. -/
theorem stage_spec (fac x : Nat → K) (t : Nat) (ht : t < k.nlas.length) (hI : t ∉ I) (vs : Vecs K) (h : k.Stage I link fac x t vs) :
    ∃ vs', k.vecsOvlp link t vs = some vs' ∧ k.Stage I link fac x (t + 1) vs' := by
  classical
  obtain ⟨o1, o2, o3⟩ := ordT_spec I k.nlas.length t hI
  have o0 := ordT_split I k.nlas.length t ht
  have hA : ∀ f ∈ aT I t, f < k.nlas.length ∧ f ≠ t := fun f hf => by have := (mem_aT I t f hf).1; omega
  have hB : ∀ f ∈ rT k.nlas.length (t + 1) ++ sT I t, f < k.nlas.length ∧ f ≠ t := fun f hf => mem_rs I _ t f hf ht
  generalize hBd : rT k.nlas.length (t + 1) ++ sT I t = B at *
  have hv : ∀ p ∈ k.uniqStr link t, ∃ v, vs p.1 = some v ∧ v.lr = ((aT I t).map (k.dm p.2)).prod ∧
      k.ovlpOne t p.1 p.2 v = some ⟨((ordT I k.nlas.length (t + 1)).map (k.dm p.2)).prod, ((aT I (t + 1)).map (k.dm p.2)).prod,
        fun T => ∑ q ∈ Finset.range (k.dm p.1 t), (k.tabs t).get1Ovlp (Nat.pair (p.2.getD t 0) (T / ((B.map (k.dm p.2)).prod * v.lr)))
          (Nat.pair (p.1.getD t 0) q) * v.dat ((T / v.lr % (B.map (k.dm p.2)).prod * k.dm p.1 t + q) * v.lr + T % v.lr)⟩ ∧
      ∀ env : Nat → Nat, (∀ f < k.nlas.length, env f < k.dm p.1 f) →
        v.dat (posF ((ordT I k.nlas.length t).map (k.dm p.1)) ((ordT I k.nlas.length t).map env)) = k.Vt I link fac x t p.1 env := by
    intro p hp
    have hne := edge_ne hL hK t p hp
    obtain ⟨e, he, hpe⟩ := (mem_uniqStr link t _).mp hp
    obtain ⟨v, h1, h2, h3, h4⟩ := h e he
    have hd := dm_pos hL hK e he t
    rw [show k.stK e t = p.1 by rw [hpe]] at h1 h2 h3 h4 hd
    have hdm : ∀ f < k.nlas.length, f ≠ t → k.dm p.1 f = k.dm p.2 f := by
      intro f hf hft; unfold dm; rw [hne f hf hft]
    have eA : (aT I t).map (k.dm p.1) = (aT I t).map (k.dm p.2) := List.map_congr_left fun f hf => hdm f (hA f hf).1 (hA f hf).2
    have eB : B.map (k.dm p.1) = B.map (k.dm p.2) := List.map_congr_left fun f hf => hdm f (hB f hf).1 (hB f hf).2
    refine ⟨v, h1, by rw [h2, eA], ?_, h4⟩
    have hlr : 0 < v.lr := by
      rw [h2]
      exact prod_pos' _ (fun a ha => by obtain ⟨f, hf, rfl⟩ := List.mem_map.mp ha; exact hd f (hA f hf).1)
    have hpos : 0 < k.dm p.1 t * v.lr := Nat.mul_pos (hd t ht) hlr
    have hsize : v.size = (k.dm p.1 t * v.lr) * (B.map (k.dm p.2)).prod := by
      rw [h3, o0, h2, List.map_append, List.prod_append, List.map_cons, List.prod_cons, eB]; ring
    unfold ovlpOne
    dsimp only
    rw [show k.lrU t (p.1.getD t 0) = k.dm p.1 t from rfl, show k.lrU t (p.2.getD t 0) = k.dm p.2 t from rfl]
    rw [if_neg (by
      rw [hsize, Nat.mul_mod_right]; omega)]
    rw [hsize, Nat.mul_div_cancel_left _ hpos]
    congr 2
    · rw [o1, h2, eA]; simp only [List.map_append, List.prod_append, List.map_cons, List.map_nil, List.prod_cons, List.prod_nil]; ring
    · rw [o2, h2, eA]
  haveI : Nonempty (Buf K) := ⟨⟨0, 0, fun _ => 0⟩⟩
  choose! V hv1 hv2 hv3 hv4 using hv
  obtain ⟨vs', f1, f2, f3, f4⟩ := foldAdd (k.uniqStr link t) Prod.snd (fun p => (vs p.1).bind (fun v => k.ovlpOne t p.1 p.2 v))
    (fun p => ⟨((ordT I k.nlas.length (t + 1)).map (k.dm p.2)).prod, ((aT I (t + 1)).map (k.dm p.2)).prod,
        fun T => ∑ q ∈ Finset.range (k.dm p.1 t), (k.tabs t).get1Ovlp (Nat.pair (p.2.getD t 0) (T / ((B.map (k.dm p.2)).prod * (V p).lr)))
          (Nat.pair (p.1.getD t 0) q) * (V p).dat ((T / (V p).lr % (B.map (k.dm p.2)).prod * k.dm p.1 t + q) * (V p).lr + T % (V p).lr)⟩)
    (fun p hp => by rw [hv1 p hp, Option.bind_some, hv3 p hp])
    (fun s => ((ordT I k.nlas.length (t + 1)).map (k.dm s)).prod) (fun s => ((aT I (t + 1)).map (k.dm s)).prod) (fun p hp => ⟨rfl, rfl⟩)
    (fun _ => none) (fun s v hv => by simp at hv)
  refine ⟨vs', ?_, fun e he => ?_⟩
  · rw [← f1]
    unfold vecsOvlp
    congr 1
    funext ov p
    rw [Option.bind_assoc]
  · have hmem : (k.stK e t, k.stK e (t + 1)) ∈ k.uniqStr link t := (mem_uniqStr link t _).mpr ⟨e, he, rfl⟩
    have hsome : (vs' (k.stK e (t + 1))).isSome = true := by
      rw [f3, Bool.or_eq_true]
      right
      rw [List.any_eq_true]
      exact ⟨_, hmem, by simp⟩
    obtain ⟨v, hvs⟩ := Option.isSome_iff_exists.mp hsome
    obtain ⟨g1, g2⟩ := f2 _ _ hvs
    refine ⟨v, hvs, g2, g1, fun env henv => ?_⟩
    rw [f4 _ _ hvs]
    simp only [Option.map_none, Option.getD_none, zero_add]
    rw [← Vt_step hL hK fac x t ht hI]
    congr 1
    apply List.map_congr_left
    intro p hp
    by_cases hps : p.2 = k.stK e (t + 1)
    · rw [if_pos hps, if_pos hps]
      refine Finset.sum_congr rfl fun q hq => ?_
      have hne := edge_ne hL hK t p hp
      have hdm : ∀ f < k.nlas.length, f ≠ t → k.dm p.1 f = k.dm p.2 f := by
        intro f hf hft; unfold dm; rw [hne f hf hft]
      rw [← hps] at henv ⊢
      rw [o1]
      obtain ⟨m1, m2⟩ := pos_move (aT I t) B t (k.dm p.2) (k.dm p.1) env q (fun f hf => hdm f (hA f hf).1 (hA f hf).2)
        (fun f hf => hdm f (hB f hf).1 (hB f hf).2) (fun f hf => henv f (hA f hf).1) (fun f hf => henv f (hB f hf).1) (henv t ht)
        (fun hf => (hA t hf).2 rfl) (fun hf => (hB t hf).2 rfl)
      rw [hv2 p hp, m1, m2, ← o0, hv4 p hp]
      intro f hf
      by_cases hft : f = t
      · subst hft; rw [Function.update_self]; simpa using hq
      · rw [Function.update_of_ne hft, hdm f hf hft]; exact henv f hf
    · rw [if_neg hps, if_neg hps]

theorem ustr_dm (r : Nat) (hr : r < k.cols.length) : (List.range k.nlas.length).map (k.dm (k.ustr r)) = k.cols.getD r [] := by
  apply list_ext_getD k.nlas.length _ _ (by simp) ((cols_of hK).len r hr)
  intro f hf
  rw [getD_range_map _ _ _ hf]
  unfold dm ustr
  rw [getD_range_map _ _ _ hf, lrU_eq hK f r hf hr]
  rfl

/-- The start. -/
theorem stage_zero (fac x : Nat → K) (hfac : ∀ r < k.cols.length, k.hsiFac r I = some (fac r)) :
    ∃ vs, k.vecs0 x I link = some vs ∧ k.Stage I link fac x 0 vs := by
  classical
  have hC := cols_of hK
  have hmem : ∀ r ∈ (link.map Prod.fst).dedup, r < k.cols.length := by
    intro r hr
    obtain ⟨e, he, rfl⟩ := List.mem_map.mp (List.mem_dedup.mp hr)
    exact hL.lt e he
  have ho : ordT I k.nlas.length 0 = List.range k.nlas.length := by
    unfold ordT aT sT rT; simp [List.range_eq_range']
  obtain ⟨vs, f1, f2, f3, f4⟩ := foldAdd (link.map Prod.fst).dedup k.ustr (fun r => k.xVec x r I)
    (fun r => ⟨(k.cols.getD r []).prod, 1, fun t => fac r * x (k.offs0 r + t)⟩)
    (fun r hr => by unfold xVec; rw [hfac r (hmem r hr)]; rfl)
    (fun s => ((List.range k.nlas.length).map (k.dm s)).prod) (fun _ => 1)
    (fun r hr => ⟨by dsimp only; rw [ustr_dm hL hK r (hmem r hr)], rfl⟩) (fun _ => none) (fun s v hv => by simp at hv)
  refine ⟨vs, f1, fun e he => ?_⟩
  have hst : k.stK e 0 = k.ustr e.1 := by unfold stK ustr; simp
  rw [hst, ho]
  have hsome : (vs (k.ustr e.1)).isSome = true := by
    rw [f3, Bool.or_eq_true]
    right
    rw [List.any_eq_true]
    exact ⟨e.1, List.mem_dedup.mpr (List.mem_map_of_mem he), by simp⟩
  obtain ⟨v, hvs⟩ := Option.isSome_iff_exists.mp hsome
  obtain ⟨g1, g2⟩ := f2 _ _ hvs
  refine ⟨v, hvs, by rw [g2]; simp [aT], g1, fun env henv => ?_⟩
  rw [f4 _ _ hvs]
  simp only [Option.map_none, Option.getD_none, zero_add]
  have hrew : ∀ r ∈ (link.map Prod.fst).dedup, (if k.ustr r = k.ustr e.1 then
      fac r * x (k.offs0 r + posF ((List.range k.nlas.length).map (k.dm (k.ustr e.1))) ((List.range k.nlas.length).map env)) else 0) =
      ∑ γ ∈ Finset.range k.nstates, if k.rootOf γ = r ∧ k.ustr e.1 = k.ustr r ∧ ∀ f < k.nlas.length, k.envOf f γ = env f then
        fac (k.rootOf γ) * x γ else 0 := by
    intro r hr
    have hr' := hmem r hr
    by_cases hu : k.ustr r = k.ustr e.1
    · rw [if_pos hu, ← hu, ustr_dm hL hK r hr', offs0_eq hC r hr', ← adr_eq hC r hr']
      have henv' : ∀ f < k.nlas.length, env f < k.lr r f := by
        intro f hf
        have := henv f hf
        rw [← hu] at this
        unfold dm ustr at this
        rwa [getD_range_map _ _ _ hf, lrU_eq hK f r hf hr'] at this
      rw [Finset.sum_eq_single (k.adr r env)]
      · have hro := rootOf_adr hC r hr' env henv'
        rw [if_pos ⟨hro, rfl, fun f hf => envOf_adr hC r hr' env henv' f hf⟩, hro]
      · intro γ hγ hne
        rw [if_neg]
        rintro ⟨h1, _, h2⟩
        apply hne
        obtain ⟨_, _, h3⟩ := adr_of hC γ (by simpa using hγ)
        rw [h3, h1]
        unfold adr
        congr 1
        refine Finset.sum_congr rfl fun f hf => ?_
        show k.envOf f γ * _ = _
        rw [h2 f (by simpa using hf)]
      · intro h
        exact absurd (Finset.mem_range.mpr (adr_lt hC r hr' env henv')) h
    · rw [if_neg hu]
      symm
      apply Finset.sum_eq_zero
      intro γ _
      rw [if_neg (fun h => hu h.2.1.symm)]
  rw [List.map_congr_left hrew, ← sum_list_comm]
  unfold Vt
  refine Finset.sum_congr rfl fun γ _ => ?_
  have hs0 : sT I 0 = [] := rfl
  rw [hs0]
  simp only [List.map_nil, List.prod_nil, one_mul, Nat.zero_le, or_true, true_implies]
  by_cases hP : k.Pt I link 0 (k.ustr e.1) (k.rootOf γ)
  · obtain ⟨h1, h2⟩ := hP
    rw [sum_single _ (List.nodup_dedup _) _ (k.rootOf γ) (List.mem_dedup.mpr h1)]
    · congr 1
      simp only [h2, true_and, Pt, h1]
    · intro r _ hr
      rw [if_neg (fun h => hr h.1.symm)]
  · rw [if_neg (fun h => hP h.1), List.sum_eq_zero]
    intro z hz
    obtain ⟨r, hr, rfl⟩ := List.mem_map.mp hz
    rw [if_neg]
    rintro ⟨h1, h2, _⟩
    apply hP
    rw [h1]
    exact ⟨List.mem_dedup.mp hr, h2⟩

/-- The vectors of a group. -/
theorem groupVecs_ok (fac x : Nat → K) (hfac : ∀ r < k.cols.length, k.hsiFac r I = some (fac r)) :
    ∃ vs, k.groupVecs x I link = some vs ∧ k.Stage I link fac x k.nlas.length vs := by
  obtain ⟨vs0, h0, h1⟩ := stage_zero hL hK fac x hfac
  unfold groupVecs
  rw [h0]
  simp only [Option.bind_eq_bind, Option.bind_some]
  suffices h : ∀ t ≤ k.nlas.length, ∃ vs, (List.range t).foldlM
      (fun vs f => if f ∈ I then some (k.vecsInv f vs) else k.vecsOvlp link f vs) vs0 = some vs ∧ k.Stage I link fac x t vs from
    h _ (le_refl _)
  intro t
  induction t with
  | zero => intro _; exact ⟨vs0, rfl, h1⟩
  | succ t ih =>
    intro ht
    obtain ⟨vs, h2, h3⟩ := ih (by omega)
    rw [List.range_succ, List.foldlM_append, h2]
    simp only [Option.bind_eq_bind, Option.bind_some, List.foldlM_cons, List.foldlM_nil]
    by_cases hI : t ∈ I
    · rw [if_pos hI]
      exact ⟨_, rfl, stage_inv hL hK fac x t (by omega) hI vs h3⟩
    · rw [if_neg hI]
      obtain ⟨vs', h4, h5⟩ := stage_spec hL hK fac x t (by omega) hI vs h3
      exact ⟨vs', by rw [h4]; rfl, h5⟩

end
end Kern
end Verif.Lstdm
