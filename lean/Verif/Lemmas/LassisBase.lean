import Verif.Spec.Lassis
import Verif.Props.AnyM
import Verif.Props.Combine
import Verif.Props.SpinTables
import Mathlib.Tactic.IntervalCases
/-!
# Lemmas about the LASSIS model space: possible states, single hops
-/
namespace Verif.Lassis
open Verif.Spaces Verif.Spec Verif.Props

/-- A projection of the multiplicity `sm`. -/
def ProjIn (sm m : Int) : Prop := -(sm - 1) ≤ m ∧ m ≤ sm - 1 ∧ (sm - 1 - m) % 2 = 0

theorem fragOk_iff (sp : Space) (k : Nat) :
    FragOk sp k ↔ Room (el sp.nlas k) (el sp.nelelas k - el sp.charges k) (el sp.smults k) ∧
      ProjIn (el sp.smults k) (el sp.spins k) := by
  unfold FragOk FragOcc Realizable Room ProjIn
  constructor
  · rintro ⟨na, nb, ⟨o1, o2⟩, r⟩
    rw [abs_le] at r
    omega
  · rintro ⟨r, p⟩
    refine ⟨(el sp.nelelas k - el sp.charges k + el sp.spins k) / 2, (el sp.nelelas k - el sp.charges k - el sp.spins k) / 2, ?_, ?_⟩
    · omega
    · rw [abs_le]; omega

theorem fits_spinVec {sp ref : Space} (h : Fits sp ref) : SpinVec (sp.smults.map (· - 1)) (totalSpin sp) sp.spins := by
  refine ⟨by simp [h.shaped.2.1, h.shaped.2.2.1], ?_, rfl⟩
  intro i hi
  rw [List.length_map] at hi
  rw [el_map_sub _ _ hi]
  have := ((fragOk_iff sp i).mp (h.ok i (by rw [← h.shaped.2.2.1]; exact hi))).2
  exact this

theorem spinVec_bound {s : List Int} {M : Int} {m : List Int} (h : SpinVec s M m) : -s.sum ≤ M ∧ M ≤ s.sum ∧ (s.sum - M) % 2 = 0 := by
  induction s generalizing M m with
  | nil =>
    obtain ⟨h1, -, h3⟩ := h
    have : m = [] := by simpa using h1
    subst this
    simp at h3
    subst h3
    simp
  | cons a s ih =>
    obtain ⟨h1, h2, h3⟩ := h
    cases m with
    | nil => simp at h1
    | cons b m =>
      have := ih (M := m.sum) (m := m) ⟨by simpa using h1, fun i hi => by simpa using h2 (i + 1) (by simpa using hi), rfl⟩
      have h0 := h2 0 (by simp)
      simp at h0
      rw [List.sum_cons] at h3 ⊢
      omega

theorem exists_spinVec (s : List Int) (hs : ∀ x ∈ s, 0 ≤ x) (M : Int) (h : -s.sum ≤ M ∧ M ≤ s.sum ∧ (s.sum - M) % 2 = 0) :
    ∃ m, SpinVec s M m := by
  induction s generalizing M with
  | nil =>
    refine ⟨[], rfl, by simp, ?_⟩
    simp at h
    simp
    omega
  | cons a s ih =>
    have ha := hs a (by simp)
    have hs' : ∀ x ∈ s, 0 ≤ x := fun x hx => hs x (by simp [hx])
    rw [List.sum_cons] at h
    have h0 : 0 ≤ s.sum := List.sum_nonneg hs'
    -- choose the projection of the first
    obtain ⟨b, hb⟩ : ∃ b, (-a ≤ b ∧ b ≤ a ∧ (a - b) % 2 = 0) ∧ -s.sum ≤ M - b ∧ M - b ≤ s.sum ∧ (s.sum - (M - b)) % 2 = 0 := by
      by_cases c : a ≤ M + s.sum
      · exact ⟨a, by omega, by omega, by omega, by omega⟩
      · exact ⟨M + s.sum, by omega, by omega, by omega, by omega⟩
    obtain ⟨m, hm1, hm2, hm3⟩ := ih hs' (M - b) hb.2
    refine ⟨b :: m, by simp [hm1], ?_, by simp [hm3]⟩
    intro i hi
    cases i with
    | zero => simpa using hb.1
    | succ i => simpa using hm2 i (by simpa using hi)

theorem fits_mults {sp ref : Space} (h : Fits sp ref) : Mults sp.smults := by
  intro x hx
  obtain ⟨i, hi, rfl⟩ := List.mem_iff_getElem.mp hx
  have := ((fragOk_iff sp i).mp (h.ok i (by rw [← h.shaped.2.2.1]; exact hi))).1.1
  simpa [el, List.getD_eq_getElem?_getD, List.getElem?_eq_getElem hi] using this

theorem dsi_eq (x : ElHop) (h : x.s < 4) : dsi x.s = x.dSrc := by
  unfold dsi ElHop.dSrc
  obtain ⟨i, a, s⟩ := x
  simp only at h ⊢
  interval_cases s <;> rfl

theorem dsa_eq (x : ElHop) (h : x.s < 4) : dsa x.s = x.dDst := by
  unfold dsa ElHop.dDst
  obtain ⟨i, a, s⟩ := x
  simp only at h ⊢
  interval_cases s <;> simp

theorem dSrc_pm (x : ElHop) : x.dSrc = 1 ∨ x.dSrc = -1 := by unfold ElHop.dSrc; split <;> simp
theorem dDst_pm (x : ElHop) : x.dDst = 1 ∨ x.dDst = -1 := by unfold ElHop.dDst; split <;> simp

theorem removable_iff (sp : Space) (i : Nat) (alpha : Bool) (ds : Int) (hds : ds = 1 ∨ ds = -1) (hok : FragOk sp i) :
    Removable sp i alpha ds ↔ Room (el sp.nlas i) (el sp.nelelas i - (el sp.charges i + 1)) (el sp.smults i + ds) ∧
      ProjIn (el sp.smults i + ds) (el sp.spins i + if alpha then -1 else 1) := by
  obtain ⟨r, p⟩ := (fragOk_iff sp i).mp hok
  unfold Removable FragOcc Realizable Room ProjIn at *
  constructor
  · rintro ⟨na, nb, ⟨o1, o2⟩, q⟩
    rw [abs_le] at q
    cases alpha <;> simp only [if_true, if_false, Bool.false_eq_true] at q ⊢ <;> omega
  · intro q
    refine ⟨(el sp.nelelas i - el sp.charges i + el sp.spins i) / 2, (el sp.nelelas i - el sp.charges i - el sp.spins i) / 2, by omega, ?_⟩
    rw [abs_le]
    cases alpha <;> simp only [if_true, if_false, Bool.false_eq_true] at q ⊢ <;> omega

theorem addable_iff (sp : Space) (i : Nat) (alpha : Bool) (ds : Int) (hds : ds = 1 ∨ ds = -1) (hok : FragOk sp i) :
    Addable sp i alpha ds ↔ Room (el sp.nlas i) (el sp.nelelas i - (el sp.charges i - 1)) (el sp.smults i + ds) ∧
      ProjIn (el sp.smults i + ds) (el sp.spins i + if alpha then 1 else -1) := by
  obtain ⟨r, p⟩ := (fragOk_iff sp i).mp hok
  unfold Addable FragOcc Realizable Room ProjIn at *
  constructor
  · rintro ⟨na, nb, ⟨o1, o2⟩, q⟩
    rw [abs_le] at q
    cases alpha <;> simp only [if_true, if_false, Bool.false_eq_true] at q ⊢ <;> omega
  · intro q
    refine ⟨(el sp.nelelas i - el sp.charges i + el sp.spins i) / 2, (el sp.nelelas i - el sp.charges i - el sp.spins i) / 2, by omega, ?_⟩
    rw [abs_le]
    cases alpha <;> simp only [if_true, if_false, Bool.false_eq_true] at q ⊢ <;> omega

theorem fits_len {sp ref : Space} (h : Fits sp ref) : sp.smults.length = ref.nfrag ∧ sp.spins.length = ref.nfrag ∧
    sp.charges.length = ref.nfrag := by
  have := h.nfrag
  exact ⟨by rw [h.shaped.2.2.1, this], by rw [h.shaped.2.1, this], by rw [h.shaped.2.2.2, this]⟩

theorem touched_single (x : ElHop) : touched [x] [] = [x.src, x.dst] := rfl

/-- The multiplicities after one hop. -/
theorem single_smults {so : List Nat → List Nat} {ref t : Space} {x : ElHop} (hr : Fits ref ref) (hx : x.src < ref.nfrag)
    (hy : x.dst < ref.nfrag) (hne : x.src ≠ x.dst) (h : IsProduct so ref [x] [] t) :
    t.smults = bump (bump ref.smults x.src x.dSrc) x.dst x.dDst := by
  have hl := (fits_len hr).1
  apply ext_el
  · rw [bump_length, bump_length, (fits_len h.fits).1, hl]
  intro k hk
  rw [el_bump _ _ _ _ (by rw [bump_length, hl]; exact hy), el_bump _ _ _ _ (by rw [hl]; exact hx)]
  have h1 := (h.source x (by simp)).2
  have h2 := (h.dest x (by simp)).2
  by_cases c1 : k = x.src
  · subst c1
    rw [h1, if_neg hne, if_pos rfl, add_zero]
  · by_cases c2 : k = x.dst
    · subst c2
      rw [h2, if_pos rfl, if_neg c1, add_zero]
    · have := (h.rest k (by rw [touched_single]; simp [c1, c2])).2
      rw [this, if_neg c1, if_neg c2, add_zero, add_zero]

theorem sum_map_sub (l : List Int) : (l.map (· - 1)).sum = l.sum - l.length := by
  induction l with
  | nil => simp
  | cons a l ih =>
    simp only [List.map_cons, List.sum_cons, ih, List.length_cons]
    push_cast
    omega

theorem sum_neg' (l : List Int) : (l.map (fun x => -x)).sum = -l.sum := by
  induction l with
  | nil => simp
  | cons a l ih => simp only [List.map_cons, List.sum_cons, ih]; omega

theorem projIn_down {s m d : Int} (h : ProjIn s m) (hd : d = 1 ∨ d = -1) (h1 : 1 ≤ s + d) :
    ProjIn (s + d) (m + -1) ∨ (d = -1 ∧ m = 1 - s) := by
  unfold ProjIn at *
  rcases hd with rfl | rfl <;> omega

theorem projIn_up {s m d : Int} (h : ProjIn s m) (hd : d = 1 ∨ d = -1) (h1 : 1 ≤ s + d) :
    ProjIn (s + d) (m + 1) ∨ (d = -1 ∧ m = s - 1) := by
  unfold ProjIn at *
  rcases hd with rfl | rfl <;> omega

/-- All fragments at their lowest projection. -/
theorem total_low {ref : Space} (hr : Fits ref ref) (h : ∀ k, k < ref.nfrag → el ref.spins k = 1 - el ref.smults k) :
    totalSpin ref = -(ref.smults.sum - ref.smults.length) := by
  have rl := fits_len hr
  have hl : ref.spins = (ref.smults.map (· - 1)).map (fun z => -z) := by
    apply ext_el (by simp [rl.1, rl.2.1])
    intro k hk
    rw [rl.2.1] at hk
    rw [show el ((ref.smults.map (· - 1)).map (fun z => -z)) k = -(el ref.smults k - 1) by
      simp [el, List.getD_eq_getElem?_getD, List.getElem?_eq_getElem (show k < ref.smults.length by rw [rl.1]; exact hk)]]
    have := h k hk; omega
  unfold totalSpin
  rw [← sum_map_sub, ← sum_neg', ← hl]

/-- All fragments at their highest projection. -/
theorem total_high {ref : Space} (hr : Fits ref ref) (h : ∀ k, k < ref.nfrag → el ref.spins k = el ref.smults k - 1) :
    totalSpin ref = ref.smults.sum - ref.smults.length := by
  have rl := fits_len hr
  have hl : ref.spins = ref.smults.map (· - 1) := by
    apply ext_el (by simp [rl.1, rl.2.1])
    intro k hk
    rw [rl.2.1] at hk
    rw [el_map_sub _ _ (by rw [rl.1]; exact hk), h k hk]
  unfold totalSpin
  rw [← sum_map_sub, ← hl]

/-- A possible hop is found by `get_single_any_m`. -/
theorem hop_found (f : NCsf) (hf : CsfCounts f) (so : List Nat → List Nat) (ref : Space) (hr : Fits ref ref)
    (x : ElHop) (h4 : x.s < 4) (hx : x.src < ref.nfrag) (hy : x.dst < ref.nfrag) (hne : x.src ≠ x.dst) (t : Space)
    (ht : IsProduct so ref [x] [] t) : ∃ new, ref.getSingleAnyM f so x.src x.dst (dsi x.s) (dsa x.s) = .ok new := by
  rw [dsi_eq x h4, dsa_eq x h4]
  rw [C21_any_m_complete f hf so ref hr.shaped hr.ok x.src x.dst hx hy hne _ _ (dSrc_pm x) (dDst_pm x)]
  have rl := fits_len hr
  have oi := hr.ok _ hx
  have oa := hr.ok _ hy
  obtain ⟨s1, s2⟩ := ht.source x (by simp)
  obtain ⟨d1, d2⟩ := ht.dest x (by simp)
  have ti := (fragOk_iff t x.src).mp (ht.fits.ok _ (by rw [ht.fits.nfrag]; exact hx))
  have ta := (fragOk_iff t x.dst).mp (ht.fits.ok _ (by rw [ht.fits.nfrag]; exact hy))
  rw [s1, s2, ht.fits.orbs, ht.fits.elec] at ti
  rw [d1, d2, ht.fits.orbs, ht.fits.elec] at ta
  have ri := ti.1
  have ra := ta.1
  simp only [removable_iff ref _ _ _ (dSrc_pm x) oi, addable_iff ref _ _ _ (dDst_pm x) oa, ri, ra, true_and]
  have proj : ∀ p, p < ref.nfrag → ProjIn (el ref.smults p) (el ref.spins p) := fun p hp => ((fragOk_iff ref p).mp (hr.ok p hp)).2
  have hsum := single_smults hr hx hy hne ht
  have hb := spinVec_bound (fits_spinVec ht.fits)
  rw [ht.total, sum_map_sub, hsum, bump_length, bump_length, sum_bump _ _ _ (by rw [bump_length, rl.1]; exact hy),
    sum_bump _ _ _ (by rw [rl.1]; exact hx)] at hb
  have ui := projIn_up (proj _ hx) (dSrc_pm x) ri.1
  have di := projIn_down (proj _ hx) (dSrc_pm x) ri.1
  have ua := projIn_up (proj _ hy) (dDst_pm x) ra.1
  have da := projIn_down (proj _ hy) (dDst_pm x) ra.1
  have r1 := ri.1
  have r2 := ra.1
  simp only [Bool.exists_bool, if_true, if_false, Bool.false_eq_true]
  have LL : (x.dSrc = -1 ∧ el ref.spins x.src = 1 - el ref.smults x.src) →
      (x.dDst = -1 ∧ el ref.spins x.dst = 1 - el ref.smults x.dst) → CanLower ref x.src x.dst := by
    intro c1 c2
    by_contra hc
    have := total_low hr (fun k hk => by
      by_cases e1 : k = x.src
      · subst e1; exact c1.2
      · by_cases e2 : k = x.dst
        · subst e2; exact c2.2
        · by_contra hd
          have := proj k hk
          unfold ProjIn at this
          exact hc ⟨k, hk, e1, e2, by omega⟩)
    omega
  have HH : (x.dSrc = -1 ∧ el ref.spins x.src = el ref.smults x.src - 1) →
      (x.dDst = -1 ∧ el ref.spins x.dst = el ref.smults x.dst - 1) → CanRaise ref x.src x.dst := by
    intro c1 c2
    by_contra hc
    have := total_high hr (fun k hk => by
      by_cases e1 : k = x.src
      · subst e1; exact c1.2
      · by_cases e2 : k = x.dst
        · subst e2; exact c2.2
        · by_contra hd
          have := proj k hk
          unfold ProjIn at this
          exact hc ⟨k, hk, e1, e2, by omega⟩)
    omega
  by_cases a1 : ProjIn (el ref.smults x.src + x.dSrc) (el ref.spins x.src + -1)
  · by_cases a2 : ProjIn (el ref.smults x.dst + x.dDst) (el ref.spins x.dst + 1)
    · exact Or.inl (Or.inr ⟨a1, a2⟩)
    · have ha := ua.resolve_left a2
      have a3 := da.resolve_right (fun h => by omega)
      by_cases a4 : ProjIn (el ref.smults x.src + x.dSrc) (el ref.spins x.src + 1)
      · exact Or.inl (Or.inl ⟨a4, a3⟩)
      · exact Or.inr (Or.inl ⟨a1, a3, HH (ui.resolve_left a4) ha⟩)
  · have hi := di.resolve_left a1
    have a3 := ui.resolve_right (fun h => by omega)
    by_cases a4 : ProjIn (el ref.smults x.dst + x.dDst) (el ref.spins x.dst + -1)
    · exact Or.inl (Or.inl ⟨a3, a4⟩)
    · have ha := da.resolve_left a4
      have a5 := ua.resolve_right (fun h => by omega)
      exact Or.inr (Or.inr ⟨a3, a5, LL hi ha⟩)

end Verif.Lassis
