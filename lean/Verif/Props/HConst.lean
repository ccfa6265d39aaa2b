import Verif.Spec.HConst
import Mathlib.Algebra.Ring.Int.Defs
/-!
# C131: constant term of the Hamiltonian acting on CI vectors
-/
namespace Verif.Props
open Verif.HConst Verif.Spec.HConst

variable {K : Type} [Ring K]

theorem hc_offs_mono (S : List (Space K)) {r r' : Nat} (h : r < r') {s : Space K} (hs : S[r]? = some s) : offs S r + s.nstates ≤ offs S r' := by
  obtain ⟨d, rfl⟩ := Nat.exists_eq_add_of_lt h
  unfold offs
  obtain ⟨hr, hs'⟩ := List.getElem?_eq_some_iff.1 hs
  rw [show r + d + 1 = (r + 1) + d by omega, List.take_add, List.map_append, List.sum_append, List.take_add_one, hs]
  simp

/-- The loop over kets. -/
theorem hc_kets (h0 : K) (S : List (Space K)) (nelec : Nat × Nat) : ∀ (kk : List Nat) (i : Nat) (x : Nat → Nat → K) (i' : Nat) (x' : Nat → Nat → K),
    kk.Nodup → kets h0 S nelec kk i x = some (i', x') →
    (i' = ((kk.getLast?).map (offs S)).getD i) ∧
    (∀ r ∈ kk, ∀ s, S[r]? = some s → s.nelec = nelec → ∀ a < s.nstates, ∀ c, x' c (offs S r + a) = x c (offs S r + a) + h0 * s.ci c a) ∧
    ∀ q, (¬ ∃ r ∈ kk, ∃ s, S[r]? = some s ∧ s.nelec = nelec ∧ offs S r ≤ q ∧ q < offs S r + s.nstates) → ∀ c, x' c q = x c q
  | [], i, x, i', x', _, h => by
    simp only [kets, Option.some.injEq, Prod.mk.injEq] at h
    obtain ⟨rfl, rfl⟩ := h
    exact ⟨rfl, fun r hr => absurd hr List.not_mem_nil, fun _ _ _ => rfl⟩
  | r :: rs, i, x, i', x', hn, h => by
    obtain ⟨hr, hn'⟩ := List.nodup_cons.1 hn
    unfold kets at h
    cases hs : S[r]? with
    | none =>
      unfold addKet at h
      rw [hs] at h
      simp at h
    | some s =>
      unfold addKet at h
      rw [hs] at h
      simp only at h
      obtain ⟨e1, e2, e3⟩ := hc_kets h0 S nelec rs _ _ i' x' hn' h
      -- the array after this ket
      have inn : nelec = s.nelec → ∀ q c, offs S r ≤ q → q < offs S r + s.nstates →
          (if nelec = s.nelec then fun c q => if offs S r ≤ q ∧ q < offs S r + s.nstates then x c q + h0 * s.ci c (q - offs S r) else x c q else x) c q =
            x c q + h0 * s.ci c (q - offs S r) := by
        intro hh q c h1 h2
        rw [if_pos hh, if_pos ⟨h1, h2⟩]
      have out : ∀ q c, ¬ (s.nelec = nelec ∧ offs S r ≤ q ∧ q < offs S r + s.nstates) →
          (if nelec = s.nelec then fun c q => if offs S r ≤ q ∧ q < offs S r + s.nstates then x c q + h0 * s.ci c (q - offs S r) else x c q else x) c q = x c q := by
        intro q c hh
        by_cases h1 : nelec = s.nelec
        · rw [if_pos h1, if_neg fun h2 => hh ⟨h1.symm, h2⟩]
        · rw [if_neg h1]
      -- columns of different spaces differ
      have sep : ∀ r' s', r' ≠ r → S[r']? = some s' → ∀ a < s'.nstates, ¬ (offs S r ≤ offs S r' + a ∧ offs S r' + a < offs S r + s.nstates) := by
        intro r' s' hne hs' a ha hh
        rcases Nat.lt_or_gt_of_ne hne with hlt | hgt
        · have := hc_offs_mono S hlt hs'
          omega
        · have := hc_offs_mono S hgt hs
          omega
      refine ⟨?_, ?_, ?_⟩
      · rw [e1]
        cases rs with
        | nil => rfl
        | cons r2 rs =>
          rw [List.getLast?_cons_cons]
          have : (r2 :: rs).getLast? ≠ none := by simp
          cases hl : (r2 :: rs).getLast? with
          | none => exact absurd hl this
          | some l => rfl
      · intro r' hr' s' hs' hne a ha c
        rcases List.mem_cons.1 hr' with rfl | hr'
        · rw [hs] at hs'
          cases hs'
          rw [e3, inn hne.symm _ _ (Nat.le_add_right _ _) (by omega), Nat.add_sub_cancel_left]
          rintro ⟨r2, h2, s2, hs2, -, h3, h4⟩
          have hne2 : r2 ≠ r' := fun hc => hr (hc ▸ h2)
          rcases Nat.lt_or_gt_of_ne hne2 with hlt | hgt
          · have := hc_offs_mono S hlt hs2
            omega
          · have := hc_offs_mono S hgt hs
            omega
        · have hne2 : r' ≠ r := fun hc => hr (hc ▸ hr')
          rw [e2 r' hr' s' hs' hne a ha c, out _ _ fun hh => sep r' s' hne2 hs' a ha hh.2]
      · intro q hq c
        rw [e3 q fun ⟨r', h1, hh⟩ => hq ⟨r', List.mem_cons_of_mem _ h1, hh⟩, out]
        intro hh
        exact hq ⟨r, List.mem_cons_self, s, hs, hh⟩

/-- C131: with one bra space, and a last ket space whose states come first, the constant times the CI vectors is added. -/
theorem C131_one_space_partial (h0 : K) (S : List (Space K)) {b : Nat} {kk : List Nat} (hn : kk.Nodup) {l : Nat} (hl : kk.getLast? = some l)
    (hl0 : offs S l = 0) {s : Space K} (hb : S[b]? = some s) {hci out : Nat → Nat → Nat → K} (h : hconst h0 S [b] kk hci = some out) :
    (∃ x, IsConst h0 S kk s.nelec x ∧ ∀ c q, out 0 c q = hci 0 c q + x c q) ∧ ∀ n ≠ 0, out n = hci n := by
  unfold hconst bras at h
  rw [hb] at h
  simp only at h
  cases hk : kets h0 S s.nelec kk 0 (fun _ _ => 0) with
  | none => rw [hk] at h; simp at h
  | some p =>
    obtain ⟨i', x⟩ := p
    rw [hk] at h
    simp only [List.length_singleton] at h
    obtain ⟨e1, e2, e3⟩ := hc_kets h0 S s.nelec kk 0 _ i' x hn hk
    rw [hl] at e1
    simp only [Option.map_some, Option.getD_some, hl0] at e1
    subst e1
    simp only [bras] at h
    simp only [Nat.lt_one_iff, if_true, Option.some.injEq] at h
    subst h
    refine ⟨⟨x, ⟨fun r hr s' hs' hne a ha c => ?_, e3⟩, fun c q => by simp⟩, fun n hn0 => ?_⟩
    · rw [e2 r hr s' hs' hne a ha c, zero_add]
    · funext c q
      simp [hn0]

theorem hc_bras_other (h0 : K) (S : List (Space K)) {kk : List Nat} (hn : kk.Nodup) {l : Nat} (hl : kk.getLast? = some l) (nbra : Nat) :
    ∀ (bb : List Nat) (i : Nat) (hci out : Nat → Nat → Nat → K), bras h0 S kk nbra bb i hci = some out →
      (∀ n ≠ offs S l, out n = hci n) ∧ (bb ≠ [] → offs S l < nbra)
  | [], _, _, _, h => by
    simp only [bras, Option.some.injEq] at h
    subst h
    exact ⟨fun _ _ => rfl, fun hc => absurd rfl hc⟩
  | b :: bs, i, hci, out, h => by
    unfold bras at h
    cases hb : S[b]? with
    | none => rw [hb] at h; simp at h
    | some s =>
      rw [hb] at h
      simp only at h
      cases hk : kets h0 S s.nelec kk i (fun _ _ => 0) with
      | none => rw [hk] at h; simp at h
      | some p =>
        obtain ⟨i', x⟩ := p
        rw [hk] at h
        simp only at h
        have e1 := (hc_kets h0 S s.nelec kk i _ i' x hn hk).1
        rw [hl] at e1
        simp only [Option.map_some, Option.getD_some] at e1
        subst e1
        split at h
        · next hlt =>
          refine ⟨fun n hne => ?_, fun _ => hlt⟩
          rw [(hc_bras_other h0 S hn hl nbra bs _ _ out h).1 n hne]
          funext c q
          rw [if_neg hne]
        · exact absurd h (by simp)

/-- C131: with any number of spaces, the constant term is added to one array only, the number of which is the number of states before the last
ket space; if there are not as many bra spaces, an error is raised. With two spaces of one state, both terms go to the second array. -/
theorem C131_index_violated : (∀ (h0 : K) (S : List (Space K)) (bb kk : List Nat) (l : Nat) (hci out : Nat → Nat → Nat → K), kk.Nodup → bb ≠ [] →
      kk.getLast? = some l → hconst h0 S bb kk hci = some out → (∀ n ≠ offs S l, out n = hci n) ∧ offs S l < bb.length) ∧
    ∃ out, hconst (1 : Int) [⟨(1, 0), 1, fun _ _ => 2⟩, ⟨(0, 1), 1, fun _ _ => 3⟩] [0, 1] [0, 1] (fun _ _ _ => 0) = some out ∧
      out 0 0 0 = 0 ∧ out 1 0 0 = 2 ∧ out 1 0 1 = 3 := by
  refine ⟨fun h0 S bb kk l hci out hn hb hl h => ?_, ?_⟩
  · obtain ⟨h1, h2⟩ := hc_bras_other h0 S hn hl bb.length bb 0 hci out h
    exact ⟨h1, h2 hb⟩
  · exact ⟨_, rfl, by decide, by decide, by decide⟩

/-- One space with two states. -/
example : ∃ out, hconst (5 : Int) [⟨(1, 0), 2, fun c a => if c = a then 1 else 0⟩] [0] [0] (fun _ _ _ => 0) = some out ∧ [0].Nodup ∧
    ([0] : List Nat).getLast? = some 0 ∧ out 0 1 1 = 5 ∧ out 0 0 1 = 0 := ⟨_, rfl, by decide, rfl, by decide, by decide⟩

end Verif.Props
