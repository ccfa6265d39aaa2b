import Verif.Lemmas.HsiReach
import Verif.Model.Hsi
/-!
# Lemmas: the vectors of a group
-/
namespace Verif.Lstdm
open Verif.Spec Verif.Exc Verif.Addr Verif.Radix Verif.Spec.Lstdm

variable {K : Type} [Field K]

namespace Kern

/-- Additions to a dictionary. -/
theorem foldAdd {α : Type} (l : List α) (key : α → List Nat) (mk : α → Option (Buf K)) (B : α → Buf K) (hmk : ∀ a ∈ l, mk a = some (B a))
    (sz lrf : List Nat → Nat) (hsz : ∀ a ∈ l, (B a).size = sz (key a) ∧ (B a).lr = lrf (key a)) (vs0 : Vecs K)
    (h0 : ∀ s v, vs0 s = some v → v.size = sz s ∧ v.lr = lrf s) :
    ∃ vs, l.foldlM (fun vs a => (mk a).bind (addVec vs (key a))) vs0 = some vs ∧
      (∀ s v, vs s = some v → v.size = sz s ∧ v.lr = lrf s) ∧
      (∀ s, (vs s).isSome = ((vs0 s).isSome || l.any (fun a => key a == s))) ∧
      ∀ s v, vs s = some v → ∀ t, v.dat t = ((vs0 s).map (fun v => v.dat t)).getD 0 + (l.map (fun a => if key a = s then (B a).dat t else 0)).sum := by
  induction l generalizing vs0 with
  | nil => exact ⟨vs0, rfl, h0, by simp, fun s v h t => by simp [h]⟩
  | cons a l ih =>
    have step : ∃ vs1, addVec vs0 (key a) (B a) = some vs1 ∧ (∀ s v, vs1 s = some v → v.size = sz s ∧ v.lr = lrf s) ∧
        (∀ s, (vs1 s).isSome = ((vs0 s).isSome || (key a == s))) ∧
        ∀ s t, ((vs1 s).map (fun v => v.dat t)).getD 0 = ((vs0 s).map (fun v => v.dat t)).getD 0 + if key a = s then (B a).dat t else 0 := by
      obtain ⟨ha1, ha2⟩ := hsz a (by simp)
      unfold addVec
      cases h : vs0 (key a) with
      | none =>
        refine ⟨_, rfl, ?_, ?_, ?_⟩
        · intro s v hv
          by_cases hs : s = key a
          · rw [if_pos hs] at hv; obtain rfl := Option.some.inj hv; rw [hs]; exact ⟨ha1, ha2⟩
          · rw [if_neg hs] at hv; exact h0 s v hv
        · intro s
          by_cases hs : s = key a
          · rw [if_pos hs, hs]; simp
          · rw [if_neg hs]; simp [Ne.symm hs]
        · intro s t
          by_cases hs : s = key a
          · rw [if_pos hs, if_pos hs.symm, hs, h]; simp
          · rw [if_neg hs, if_neg (Ne.symm hs), add_zero]
      | some w =>
        obtain ⟨hw1, hw2⟩ := h0 _ _ h
        dsimp only
        rw [if_pos ⟨by rw [hw1, ha1], by rw [hw2, ha2]⟩]
        refine ⟨_, rfl, ?_, ?_, ?_⟩
        · intro s v hv
          by_cases hs : s = key a
          · rw [if_pos hs] at hv; obtain rfl := Option.some.inj hv; rw [hs]; exact ⟨ha1, ha2⟩
          · rw [if_neg hs] at hv; exact h0 s v hv
        · intro s
          by_cases hs : s = key a
          · rw [if_pos hs, hs]; simp
          · rw [if_neg hs]; simp [Ne.symm hs]
        · intro s t
          by_cases hs : s = key a
          · rw [if_pos hs, if_pos hs.symm, hs, h]; simp
          · rw [if_neg hs, if_neg (Ne.symm hs), add_zero]
    obtain ⟨vs1, e1, e2, e3, e4⟩ := step
    obtain ⟨vs, f1, f2, f3, f4⟩ := ih (fun b hb => hmk b (by simp [hb])) (fun b hb => hsz b (by simp [hb])) vs1 e2
    refine ⟨vs, ?_, f2, ?_, ?_⟩
    · rw [List.foldlM_cons, hmk a (by simp), Option.bind_some, e1]; exact f1
    · intro s; rw [f3, e3, List.any_cons, Bool.or_assoc]
    · intro s v hv t
      rw [f4 s v hv t, e4, List.map_cons, List.sum_cons, add_assoc]

variable (k : Kern K)

/-- The key of a link before fragment `t`. -/
def stK (e : Nat × List Nat) (t : Nat) : List Nat :=
  (List.range k.nlas.length).map (fun g => if g < t then e.2.getD g 0 else k.uroot g e.1)

/-- The unique rootspaces of a rootspace. -/
def ustr (r : Nat) : List Nat := (List.range k.nlas.length).map (fun f => k.uroot f r)

/-- The dimensions of a key. -/
def dm (s : List Nat) (f : Nat) : Nat := k.lrU f (s.getD f 0)

theorem getD_range_map (n : Nat) (g : Nat → Nat) (f : Nat) (hf : f < n) : ((List.range n).map g).getD f 0 = g f := by
  rw [List.getD_eq_getElem _ _ (by simpa using hf)]; simp

theorem list_ext_getD (n : Nat) (a b : List Nat) (ha : a.length = n) (hb : b.length = n) (h : ∀ f < n, a.getD f 0 = b.getD f 0) : a = b := by
  apply List.ext_getElem (ha.trans hb.symm)
  intro i h1 h2
  have := h i (by omega)
  rwa [List.getD_eq_getElem _ _ h1, List.getD_eq_getElem _ _ h2] at this

/-- What the links are. -/
structure LinkOk (I : List Nat) (link : List (Nat × List Nat)) : Prop where
  lt : ∀ e ∈ link, e.1 < k.cols.length
  len : ∀ e ∈ link, e.2.length = k.nlas.length
  inv : ∀ e ∈ link, ∀ f < k.nlas.length, f ∈ I → e.2.getD f 0 = k.uroot f e.1
  spec : ∀ e ∈ link, ∀ f < k.nlas.length, ∃ r < k.cols.length, e.2.getD f 0 = k.uroot f r ∧ ∀ σ, k.cr r f σ = k.cr e.1 f σ

/-- Rootspace `r` contributes to the vector of key `s` before fragment `t`. -/
def Pt (I : List Nat) (link : List (Nat × List Nat)) : Nat → List Nat → Nat → Prop
  | 0, s, r => r ∈ link.map Prod.fst ∧ s = k.ustr r
  | t + 1, s, r => if t ∈ I then Pt I link t s r else ∃ s', (s', s) ∈ k.uniqStr link t ∧ Pt I link t s' r

variable {k}

theorem mem_uniqStr (link : List (Nat × List Nat)) (t : Nat) (p : List Nat × List Nat) :
    p ∈ k.uniqStr link t ↔ ∃ e ∈ link, p = (k.stK e t, k.stK e (t + 1)) := by
  unfold uniqStr
  rw [List.mem_dedup, List.mem_map]
  constructor
  · rintro ⟨e, he, rfl⟩; exact ⟨e, he, rfl⟩
  · rintro ⟨e, he, rfl⟩; exact ⟨e, he, rfl⟩

theorem stK_getD (e : Nat × List Nat) (t g : Nat) (hg : g < k.nlas.length) :
    (k.stK e t).getD g 0 = if g < t then e.2.getD g 0 else k.uroot g e.1 := by
  unfold stK; rw [getD_range_map _ _ _ hg]

theorem stK_len (e : Nat × List Nat) (t : Nat) : (k.stK e t).length = k.nlas.length := by simp [stK]

theorem lrU_eq (hK : Consistent k) (f r : Nat) (hf : f < k.nlas.length) (hr : r < k.cols.length) : k.lrU f (k.uroot f r) = k.lr r f := by
  unfold lrU
  cases h : (List.range k.cols.length).find? (fun r' => k.uroot f r' == k.uroot f r) with
  | none =>
    rw [List.find?_eq_none] at h
    have := h r (by simpa using hr)
    simp at this
  | some r' =>
    have h1 := List.mem_of_find?_eq_some h
    have h2 := List.find?_some h
    exact hK.same_lroots f hf r' (by simpa using h1) r hr (by simpa using h2)

section
variable {I : List Nat} {link : List (Nat × List Nat)} (hL : k.LinkOk I link) (hK : Consistent k)
include hL hK

/-- Properties of contributions. -/
theorem Pt_props (t : Nat) (ht : t ≤ k.nlas.length) (s : List Nat) (r : Nat) (h : k.Pt I link t s r) : r < k.cols.length ∧ s.length = k.nlas.length ∧
    (∀ f < k.nlas.length, t ≤ f ∨ f ∈ I → s.getD f 0 = k.uroot f r) ∧
    ∀ f < k.nlas.length, ∃ r' < k.cols.length, s.getD f 0 = k.uroot f r' ∧ ∀ σ, k.cr r' f σ = k.cr r f σ := by
  induction t generalizing s with
  | zero =>
    obtain ⟨h1, rfl⟩ := h
    obtain ⟨e, he, rfl⟩ := List.mem_map.mp h1
    have hr := hL.lt e he
    unfold ustr
    refine ⟨hr, by simp, fun f hf _ => getD_range_map _ _ _ hf, fun f hf => ⟨e.1, hr, getD_range_map _ _ _ hf, fun _ => rfl⟩⟩
  | succ t ih =>
    unfold Pt at h
    split at h
    · rename_i htI
      obtain ⟨h1, h2, h3, h4⟩ := ih (by omega) s h
      refine ⟨h1, h2, fun f hf hor => h3 f hf ?_, h4⟩
      rcases hor with h | h
      · left; omega
      · right; exact h
    · rename_i htI
      obtain ⟨s', hs', hp⟩ := h
      obtain ⟨e, he, hpe⟩ := (mem_uniqStr link t _).mp hs'
      obtain ⟨rfl, rfl⟩ := Prod.mk.inj hpe
      obtain ⟨h1, h2, h3, h4⟩ := ih (by omega) _ hp
      have hne : ∀ f < k.nlas.length, f ≠ t → (k.stK e (t + 1)).getD f 0 = (k.stK e t).getD f 0 := by
        intro f hf hft
        rw [stK_getD _ _ _ hf, stK_getD _ _ _ hf]
        by_cases hlt : f < t
        · rw [if_pos (by omega), if_pos hlt]
        · rw [if_neg (by omega), if_neg hlt]
      refine ⟨h1, stK_len _ _, fun f hf hor => ?_, fun f hf => ?_⟩
      · have hft : f ≠ t := by
          rintro rfl
          rcases hor with h | h
          · omega
          · exact htI h
        rw [hne f hf hft]
        apply h3 f hf
        rcases hor with h | h
        · left; omega
        · right; exact h
      · by_cases hft : f = t
        · subst hft
          have e1 := h3 f hf (Or.inl (le_refl f))
          rw [stK_getD _ _ _ hf, if_neg (by omega)] at e1
          obtain ⟨r', hr', e2, e3⟩ := hL.spec e he f hf
          refine ⟨r', hr', ?_, fun σ => ?_⟩
          · rw [stK_getD _ _ _ hf, if_pos (by omega)]; exact e2
          · rw [e3 σ]
            unfold cr
            rw [hK.same_nelec f hf e.1 (hL.lt e he) r h1 e1]
        · rw [hne f hf hft]; exact h4 f hf

theorem Pt_link (e : Nat × List Nat) (he : e ∈ link) (t : Nat) (ht : t ≤ k.nlas.length) : k.Pt I link t (k.stK e t) e.1 := by
  induction t with
  | zero =>
    refine ⟨List.mem_map_of_mem he, ?_⟩
    unfold stK ustr
    simp
  | succ t ih =>
    unfold Pt
    split
    · rename_i htI
      have : k.stK e (t + 1) = k.stK e t := by
        apply list_ext_getD k.nlas.length _ _ (stK_len _ _) (stK_len _ _)
        intro f hf
        rw [stK_getD _ _ _ hf, stK_getD _ _ _ hf]
        by_cases hft : f = t
        · subst hft; rw [if_pos (by omega), if_neg (by omega)]; exact hL.inv e he f hf htI
        · by_cases hlt : f < t
          · rw [if_pos (by omega), if_pos hlt]
          · rw [if_neg (by omega), if_neg hlt]
      rw [this]; exact ih (by omega)
    · exact ⟨_, (mem_uniqStr link t _).mpr ⟨e, he, rfl⟩, ih (by omega)⟩

end
end Kern
end Verif.Lstdm
