import Verif.Lemmas.HsiDense
/-!
# Lemmas: which vectors a unique row couples
-/
namespace Verif.Lstdm
open Verif.Spec Verif.Spec.Tdm Verif.Spec.Lstdm Verif.Signs Verif.Exc Verif.Addr Verif.Radix Verif.Props

variable {K : Type} [Field K] [DecidableEq K]

omit [Field K] [DecidableEq K] in
theorem keepNew_mem' {α : Type} (hash : α → Int) (L : List α) (hL : ∀ e ∈ L, ∀ e' ∈ L, hash e = hash e' → e = e') (seen : List Int) (e : α) :
    e ∈ keepNew hash seen L ↔ e ∈ L ∧ hash e ∉ seen := by
  induction L generalizing seen with
  | nil => simp [keepNew]
  | cons a L ih =>
    have ih := ih (fun x hx y hy => hL x (by simp [hx]) y (by simp [hy]))
    unfold keepNew
    by_cases ha : hash a ∈ seen
    · rw [if_pos ha, ih, List.mem_cons]
      constructor
      · exact fun h => ⟨.inr h.1, h.2⟩
      · rintro ⟨rfl | h, h2⟩
        · exact absurd ha h2
        · exact ⟨h, h2⟩
    · rw [if_neg ha, List.mem_cons, ih, List.mem_cons, List.mem_cons]
      constructor
      · rintro (rfl | ⟨h, h2⟩)
        · exact ⟨.inl rfl, ha⟩
        · exact ⟨.inr h, fun h3 => h2 (.inr h3)⟩
      · rintro ⟨rfl | h, h2⟩
        · exact .inl rfl
        · by_cases he : hash e = hash a
          · exact .inl (hL e (by simp [h]) a (by simp) he)
          · exact .inr ⟨h, fun h3 => h3.elim he h2⟩

omit [Field K] [DecidableEq K] in
theorem mapM_some' {α β : Type} (l : List α) (f : α → Option β) (g : α → β) (h : ∀ a ∈ l, f a = some (g a)) : l.mapM f = some (l.map g) := by
  induction l with
  | nil => rfl
  | cons a l ih =>
    rw [List.mapM_cons, h a (by simp), ih (fun x hx => h x (by simp [hx]))]
    rfl

namespace Kern
variable {k : Kern K}

/-- A unique row. -/
def Uniq (k : Kern K) (tab : List ExcRow) (u : ExcRow) : Prop := tab ∈ k.tables ∧ u ∈ k.findUniqueExc tab

theorem lookup_ok (hK : Consistent k) (tab : List ExcRow) (u : ExcRow) (hu : k.Uniq tab u) : k.lookup (u.1, u.2.inv) = some (k.images tab u) := by
  obtain ⟨cls, hcls, hperm⟩ := tables_all hK
  have hmem : ∀ t ∈ k.tables, ∀ y ∈ t, y.1 ∈ k.scai ∧ y.2 ∈ expand k.nlas.length (cls y.1) := by
    intro t ht y hy
    have := hperm.mem_iff.mp (List.mem_flatten.mpr ⟨t, ht, hy⟩)
    simp only [List.mem_flatMap, List.mem_map] at this
    obtain ⟨p, hp, r, hr, rfl⟩ := this
    exact ⟨hp, hr⟩
  refine lookup_eq ?_ tab hu.1 u hu.2
  intro t ht t' ht' u hu u' hu' e1 e2
  have h1 := hmem t ht u hu
  have h2 := hmem t' ht' u' hu'
  rw [← e1] at h2
  have e3 := expand_inv_inj _ _ _ _ h1.2 h2.2 (by rw [e2]; intro g; rfl)
  have e4 : u = u' := Prod.ext e1 e3
  subst e4
  exact ⟨tab_unique _ _ _ t t' (by rw [← tables_eq]; exact ht) (by rw [← tables_eq]; exact ht') u hu hu', rfl⟩

/-- A row applies to a pair of rootspaces. -/
structure Fit (k : Kern K) (u : ExcRow) (b g : Nat) : Prop where
  lb : b < k.cols.length
  lg : g < k.cols.length
  ub : ∀ f ∈ u.2.inv, k.uroot f b = k.uroot f u.1.1
  ug : ∀ f ∈ u.2.inv, k.uroot f g = k.uroot f u.1.2
  sp : ∀ f < k.nlas.length, f ∉ u.2.inv → ∀ σ, k.cr b f σ = k.cr g f σ

variable (hK : Consistent k) (hH : NoCollision k) {tab : List ExcRow} {u : ExcRow} (hu : k.Uniq tab u)
include hK hH hu

theorem fit_image (im : Nat × Nat) (him : im ∈ k.images tab u) : k.Fit u im.1 im.2 := by
  obtain ⟨a1, a2, a3, a4, _⟩ := images_mem hK hH tab hu.1 u hu.2 im him
  exact ⟨a1, a2, fun f hf => (a3 f hf).1, fun f hf => (a3 f hf).2, a4⟩

theorem fit_self : k.Fit u u.1.1 u.1.2 := fit_image hK hH hu u.1 (self_image tab u hu.2)

theorem inv_lt : ∀ f ∈ u.2.inv, f < k.nlas.length := by
  obtain ⟨_, _, _, _, _, h⟩ := img_diff hK hH tab hu.1 u hu.2 u.1 (self_image tab u hu.2)
  exact h

theorem fit_diff (b g : Nat) (h : k.Fit u b g) : ∃ x : Inter, x.Normal ∧ InB k.nlas.length x ∧ k.Diff b g x ∧ u.2 ∈ expand k.nlas.length x := by
  obtain ⟨x, hn, hb, hd, he, hinv⟩ := img_diff hK hH tab hu.1 u hu.2 u.1 (self_image tab u hu.2)
  have hs := fit_self hK hH hu
  refine ⟨x, hn, hb, fun f hf σ => ?_, he⟩
  rw [← hd f hf σ]
  by_cases h' : f ∈ u.2.inv
  · rw [cr_same hK f _ _ hf h.lb hs.lb (h.ub f h'), cr_same hK f _ _ hf h.lg hs.lg (h.ug f h')]
  · rw [h.sp f hf h', hs.sp f hf h']; omega

theorem fit_images (hs : k.smult = none) (b g : Nat) (h : k.Fit u b g) :
    (b, g) ∈ k.images tab u ∨ ((g, b) ∈ k.images tab u ∧ ∀ f ∈ u.2.inv, k.uroot f u.1.1 = k.uroot f u.1.2) :=
  images_all hK hs hH tab hu.1 u hu.2 b g h.lb h.lg h.ub h.ug h.sp

variable {v : Nat → Nat → Vec K} {H : Ham K} {Λ : D1 K × D2 K → K} {val : Nat → Nat → Lstdm.Row → Option K}
    (hO : Obs k H Λ val) (hD : Describes k.toLstdm v) (hHs : H.Sym) (h2 : (2 : K) ≠ 0) (h8 : k.nlas.length ≤ 8)
include hO hD hHs h2 h8

theorem fit_val (b g : Nat) (h : k.Fit u b g) (β γ : Nat) (hb : k.rootOf β = b) (hg : k.rootOf γ = g) :
    ∃ d, k.toLstdm.crunch β γ u.2 = some d ∧ (val β γ u.2).getD 0 = Λ d ∧ ∃ o, k.toLstdm.hamRow H β γ u.2 = some (lamH k.nlas.sum H d, o) := by
  obtain ⟨x, hn, hbb, hd, he⟩ := fit_diff hK hH hu b g h
  have hd' : k.Diff (k.rootOf β) (k.rootOf γ) x := by rw [hb, hg]; exact hd
  obtain ⟨d1, d2, W, e1, _⟩ := row_exact hD h8 β γ x hn hbb hd' u.2 he
  have hR := rows_ham hD hHs h2 β γ x hn hbb (fun f hf σ => by rw [cz_root, cz_root]; exact hd' f hf σ) u.2 he
  obtain ⟨o, ho, _⟩ := hR _ e1
  exact ⟨_, e1, hO.row β γ u.2 hR _ e1, o, ho⟩

/-- The value of a row depends on the nonspectator fragments. -/
theorem fit_congr (b g : Nat) (h : k.Fit u b g) (β γ β0 γ0 : Nat) (hb : k.rootOf β = b) (hg : k.rootOf γ = g) (hb0 : k.rootOf β0 = u.1.1)
    (hg0 : k.rootOf γ0 = u.1.2) (eb : ∀ f ∈ u.2.inv, k.envOf f β0 = k.envOf f β) (eg : ∀ f ∈ u.2.inv, k.envOf f γ0 = k.envOf f γ) :
    (val β0 γ0 u.2).getD 0 = (val β γ u.2).getD 0 := by
  have hs := fit_self hK hH hu
  have hinv := inv_lt hK hH hu
  obtain ⟨d, e1, e2, _⟩ := fit_val hK hH hu hO hD hHs h2 h8 b g h β γ hb hg
  obtain ⟨d0, e3, e4, _⟩ := fit_val hK hH hu hO hD hHs h2 h8 _ _ hs β0 γ0 hb0 hg0
  have : k.toLstdm.crunch β0 γ0 u.2 = k.toLstdm.crunch β γ u.2 := by
    refine crunch_congr h8 _ _ _ _ _ hinv ?_ ?_ ?_ ?_
    · intro f hf; unfold loc; rw [hb0, hb, h.ub f hf, eb f hf]
    · intro f hf; unfold loc; rw [hg0, hg, h.ug f hf, eg f hf]
    · intro f hf; rw [nelecF_root, nelecF_root, hb0, hb, hK.same_nelec f (hinv f hf) _ hs.lb _ h.lb (h.ub f hf).symm]
    · intro f hf; rw [nelecF_root, nelecF_root, hg0, hg, hK.same_nelec f (hinv f hf) _ hs.lg _ h.lg (h.ug f hf).symm]
  rw [e2, e4]
  rw [this, e1] at e3
  rw [Option.some.inj e3]

end Kern

namespace Kern
variable {k : Kern K}

/-- The rows of a group. -/
def Grp (k : Kern K) (I : List Nat) (us : List ExcRow) : Prop := ∀ u ∈ us, PySet.listSet u.2.inv = I ∧ ∃ tab, k.Uniq tab u

/-- A link of a group. -/
def IsLink (k : Kern K) (I : List Nat) (us : List ExcRow) (e : Nat × List Nat) : Prop :=
  ∃ u ∈ us, ∃ tab, k.Uniq tab u ∧ ∃ b, ((b, e.1) ∈ k.images tab u ∨ (e.1, b) ∈ k.images tab u) ∧ e.2 = k.oxStr b e.1 I

theorem ovlpLink_ok (hK : Consistent k) (I : List Nat) (us : List ExcRow) (hg : k.Grp I us) : ∃ L, k.allLinks I us = some L ∧
    (∀ e, e ∈ L ↔ k.IsLink I us e) ∧ ∀ hash : Nat × List Nat → Int, (∀ e ∈ L, ∀ e' ∈ L, hash e = hash e' → e = e') →
      ∃ l, k.ovlpLink hash I us = some l ∧ ∀ e, e ∈ l ↔ k.IsLink I us e := by
  choose! T hT using fun u hu => (hg u hu).2
  have h1 : us.mapM (fun u => k.lookup (u.1, u.2.inv)) = some (us.map (fun u => k.images (T u) u)) :=
    mapM_some' _ _ _ fun u hu => lookup_ok hK _ u (hT u hu)
  have hmem : ∀ e, e ∈ (us.map (fun u => k.images (T u) u)).flatMap (fun tab => tab.flatMap (fun p =>
      (p.2, k.oxStr p.1 p.2 I) :: if p.1 ≠ p.2 then [(p.1, k.oxStr p.2 p.1 I)] else [])) ↔ k.IsLink I us e := by
    intro e
    simp only [List.mem_flatMap, List.mem_map]
    constructor
    · rintro ⟨_, ⟨u, hu, rfl⟩, p, hp, he⟩
      refine ⟨u, hu, T u, hT u hu, ?_⟩
      rw [List.mem_cons] at he
      rcases he with rfl | he
      · exact ⟨p.1, .inl hp, rfl⟩
      · split at he
        · rw [List.mem_singleton] at he
          subst he
          exact ⟨p.2, .inr hp, rfl⟩
        · simp at he
    · rintro ⟨u, hu, tab, ht, b, hb, he⟩
      have himg : k.images (T u) u = k.images tab u :=
        Option.some.inj ((lookup_ok hK _ u (hT u hu)).symm.trans (lookup_ok hK _ u ht))
      refine ⟨_, ⟨u, hu, rfl⟩, ?_⟩
      rw [himg]
      rcases hb with hb | hb
      · exact ⟨_, hb, by rw [List.mem_cons]; left; exact Prod.ext rfl he⟩
      · by_cases hne : e.1 = b
        · refine ⟨_, hb, ?_⟩
          rw [List.mem_cons]
          left
          refine Prod.ext hne ?_
          rw [he, ← hne]
        · refine ⟨_, hb, ?_⟩
          rw [List.mem_cons]
          right
          rw [if_pos hne, List.mem_singleton]
          exact Prod.ext rfl he
  refine ⟨_, by unfold allLinks; rw [h1]; rfl, hmem, fun hash hh => ?_⟩
  refine ⟨_, by unfold ovlpLink allLinks; rw [h1]; rfl, fun e => ?_⟩
  rw [keepNew_mem' hash _ hh, hmem]
  simp

section
variable {I : List Nat} {us : List ExcRow} {link : List (Nat × List Nat)} (hK : Consistent k) (hH : NoCollision k) (h8 : k.nlas.length ≤ 8)
    (hg : k.Grp I us) (hl : ∀ e, e ∈ link ↔ k.IsLink I us e)
include hK hH h8 hg

theorem mem_I (u : ExcRow) (hu : u ∈ us) (f : Nat) : f ∈ I ↔ f ∈ u.2.inv := by
  obtain ⟨h1, tab, h2⟩ := hg u hu
  rw [← h1]
  exact (listSet_mem h8 u.2.inv (inv_lt hK hH h2)).2 f

omit hK hH h8 hg in
theorem oxStr_getD (b κ f : Nat) (hf : f < k.nlas.length) : (k.oxStr b κ I).getD f 0 = if f ∈ I then k.uroot f κ else k.uroot f b := by
  unfold oxStr
  rw [getD_range_map _ _ _ hf]

omit hK hH h8 hg in
theorem oxStr_congr (b κ κ' : Nat) (h : ∀ f ∈ I, k.uroot f κ = k.uroot f κ') : k.oxStr b κ I = k.oxStr b κ' I := by
  unfold oxStr
  refine List.map_congr_left fun f _ => ?_
  split
  · rename_i hf; exact h f hf
  · rfl

include hl

theorem linkOk : k.LinkOk I link := by
  have key : ∀ e ∈ link, e.1 < k.cols.length ∧ ∃ b < k.cols.length, e.2 = k.oxStr b e.1 I ∧
      ∀ f < k.nlas.length, f ∉ I → ∀ σ, k.cr b f σ = k.cr e.1 f σ := by
    intro e he
    obtain ⟨u, hu, tab, ht, b, hb, h2⟩ := (hl e).mp he
    have hI := mem_I hK hH h8 hg u hu
    rcases hb with hb | hb
    · have hf := fit_image hK hH ht _ hb
      exact ⟨hf.lg, b, hf.lb, h2, fun f hf' hfI σ => hf.sp f hf' (fun h => hfI ((hI f).mpr h)) σ⟩
    · have hf := fit_image hK hH ht _ hb
      exact ⟨hf.lb, b, hf.lg, h2, fun f hf' hfI σ => (hf.sp f hf' (fun h => hfI ((hI f).mpr h)) σ).symm⟩
  refine ⟨fun e he => (key e he).1, fun e he => ?_, fun e he f hf hfI => ?_, fun e he f hf => ?_⟩
  · obtain ⟨_, b, _, h, _⟩ := key e he
    rw [h]; simp [oxStr]
  · obtain ⟨_, b, _, h, _⟩ := key e he
    rw [h, oxStr_getD _ _ _ hf, if_pos hfI]
  · obtain ⟨h0, b, hb, h, hc⟩ := key e he
    rw [h, oxStr_getD _ _ _ hf]
    by_cases hfI : f ∈ I
    · rw [if_pos hfI]; exact ⟨e.1, h0, rfl, fun _ => rfl⟩
    · rw [if_neg hfI]; exact ⟨b, hb, rfl, hc f hf hfI⟩

omit hK hH h8 hg hl in
theorem stK_full (e : Nat × List Nat) (h : e.2.length = k.nlas.length) : k.stK e k.nlas.length = e.2 := by
  refine list_ext_getD k.nlas.length _ _ (stK_len _ _) h fun f hf => ?_
  rw [stK_getD _ _ _ hf, if_pos hf]

/-- The rootspaces that contribute to a vector. -/
theorem Pt_fit (u : ExcRow) (hu : u ∈ us) (tab : List ExcRow) (ht : k.Uniq tab u) (b : Nat) (hb : b < k.cols.length)
    (hub : ∀ f ∈ u.2.inv, k.uroot f b = k.uroot f u.1.1) (g : Nat) (hs : k.smult = none) :
    k.Pt I link k.nlas.length (k.oxStr b u.1.2 I) g ↔ k.Fit u b g := by
  have hL := linkOk hK hH h8 hg hl
  have hI := mem_I hK hH h8 hg u hu
  have hinv := inv_lt hK hH ht
  constructor
  · intro hP
    obtain ⟨p1, _, p3, p4⟩ := Pt_props hL hK _ (le_refl _) _ g hP
    refine ⟨hb, p1, hub, fun f hf => ?_, fun f hf hfI σ => ?_⟩
    · have := p3 f (hinv f hf) (.inr ((hI f).mpr hf))
      rw [oxStr_getD _ _ _ (hinv f hf), if_pos ((hI f).mpr hf)] at this
      exact this.symm
    · obtain ⟨r', hr', e1, e2⟩ := p4 f hf
      rw [oxStr_getD _ _ _ hf, if_neg (fun h => hfI ((hI f).mp h))] at e1
      rw [← e2, cr_same hK f _ _ hf hb hr' e1]
  · intro hF
    have hox : k.oxStr b u.1.2 I = k.oxStr b g I := oxStr_congr _ _ _ fun f hf => (hF.ug f ((hI f).mp hf)).symm
    have he : (g, k.oxStr b g I) ∈ link := by
      rw [hl]
      refine ⟨u, hu, tab, ht, b, ?_, rfl⟩
      rcases fit_images hK hH ht hs b g hF with h | h
      · exact .inl h
      · exact .inr h.1
    have := Pt_link hL hK _ he k.nlas.length (le_refl _)
    rw [stK_full _ (hL.len _ he)] at this
    rw [hox]; exact this

/-- The same for the transposed operator. -/
theorem Pt_fit' (u : ExcRow) (hu : u ∈ us) (tab : List ExcRow) (ht : k.Uniq tab u) (b : Nat) (hb : b < k.cols.length)
    (hub : ∀ f ∈ u.2.inv, k.uroot f b = k.uroot f u.1.2) (g : Nat) (hs : k.smult = none) :
    k.Pt I link k.nlas.length (k.oxStr b u.1.1 I) g ↔ k.Fit u g b := by
  have hL := linkOk hK hH h8 hg hl
  have hI := mem_I hK hH h8 hg u hu
  have hinv := inv_lt hK hH ht
  constructor
  · intro hP
    obtain ⟨p1, _, p3, p4⟩ := Pt_props hL hK _ (le_refl _) _ g hP
    refine ⟨p1, hb, fun f hf => ?_, hub, fun f hf hfI σ => ?_⟩
    · have := p3 f (hinv f hf) (.inr ((hI f).mpr hf))
      rw [oxStr_getD _ _ _ (hinv f hf), if_pos ((hI f).mpr hf)] at this
      exact this.symm
    · obtain ⟨r', hr', e1, e2⟩ := p4 f hf
      rw [oxStr_getD _ _ _ hf, if_neg (fun h => hfI ((hI f).mp h))] at e1
      rw [← e2, cr_same hK f _ _ hf hb hr' e1]
  · intro hF
    have hox : k.oxStr b u.1.1 I = k.oxStr b g I := oxStr_congr _ _ _ fun f hf => (hF.ub f ((hI f).mp hf)).symm
    have he : (g, k.oxStr b g I) ∈ link := by
      rw [hl]
      refine ⟨u, hu, tab, ht, b, ?_, rfl⟩
      rcases fit_images hK hH ht hs g b hF with h | h
      · exact .inr h
      · exact .inl h.1
    have := Pt_link hL hK _ he k.nlas.length (le_refl _)
    rw [stK_full _ (hL.len _ he)] at this
    rw [hox]; exact this

end
end Kern
end Verif.Lstdm
