import Verif.Lemmas.Fbf
import Verif.Props.Lassis
/-!
# C114: the basis of fragment wave functions of LASSIS, its overlap matrix and its density matrix
-/
namespace Verif.Props
open Verif.Spaces Verif.Spaces.Space Verif.Spec Verif.Lassis Verif.Fbf

variable {K V : Type}

/-- C114, indices. The index ranges returned by `get_fbf_idx` are those of the sets of vectors put one after the other, and
every function belongs to exactly one set. -/
theorem C114_index (len : Vec → Option Nat) (n p : Nat) (hn : n ≠ 0) :
    (∀ x ∈ fbfSets n p, (fbfIdx len n p).rng x = (firstFn len n p x, firstFn len n p x + setSize len x)) ∧
    (fbfIdx len n p).nstates = ((fbfSets n p).map (setSize len)).sum ∧
    ∀ u < (fbfIdx len n p).nstates, ∃ x ∈ fbfSets n p, ∃ a < setSize len x, u = firstFn len n p x + a ∧
      ∀ y ∈ fbfSets n p, ∀ b < setSize len y, u = firstFn len n p y + b → y = x ∧ b = a := by
  have h2 := (sets_rng len n p).2 hn
  refine ⟨fun x hx => rng_eq len n p x hx, h2, fun u hu => ?_⟩
  rw [h2] at hu
  obtain ⟨x, hx, a, ha, rfl⟩ := block_exists len n p u hu
  exact ⟨x, hx, a, ha, rfl, fun y hy b hb e => block_unique len n p y x hy hx b a hb ha e.symm⟩

theorem sector_src (i a s j b t : Nat) (hs : s < 4) (ht : t < 4) :
    sector (.hop i a s 0) = sector (.hop j b t 0) ↔ s / 2 = t / 2 := by
  simp only [sector, ElHop.dSrc, if_true]
  interval_cases s <;> interval_cases t <;> simp

theorem sector_dst (i a s j b t : Nat) (hs : s < 4) (ht : t < 4) :
    sector (.hop i a s 1) = sector (.hop j b t 1) ↔ s % 2 = t % 2 := by
  simp only [sector, ElHop.dDst, one_ne_zero, if_false]
  interval_cases s <;> interval_cases t <;> simp

theorem ovlpBlocks_sets (idx : Idx) (n p : Nat) : ∀ xy ∈ ovlpBlocks idx n p, xy.1 ∈ fbfSets n p ∧ xy.2 ∈ fbfSets n p := by
  intro xy h
  rw [mem_sets, mem_sets]
  simp only [ovlpBlocks, List.mem_append, List.mem_flatMap, List.mem_range, List.mem_singleton, or_assoc] at h
  rcases h with rfl | ⟨s, hs, h⟩ | ⟨a, ha, s, hs, h⟩ | ⟨a, ha, s, hs, h⟩
  · exact ⟨Or.inl rfl, Or.inl rfl⟩
  · split at h
    · simp at h
    · simp only [List.mem_singleton] at h
      subst h
      exact ⟨Or.inr (Or.inl ⟨s, hs, rfl⟩), Or.inr (Or.inl ⟨s, hs, rfl⟩)⟩
  · split at h
    · simp at h
    · have hx : (∃ a' < n, ∃ s' < 4, Vec.hop p a s 0 = .hop p a' s' 0) := ⟨a, ha, s, hs, rfl⟩
      simp only [List.mem_cons, List.mem_flatMap, List.mem_range] at h
      rcases h with rfl | ⟨b, hb, t, ht, h⟩
      · exact ⟨Or.inr (Or.inr (Or.inl hx)), Or.inr (Or.inr (Or.inl hx))⟩
      · split at h
        · simp at h
        · split at h
          · simp at h
          · simp only [List.mem_singleton] at h
            subst h
            exact ⟨Or.inr (Or.inr (Or.inl hx)), Or.inr (Or.inr (Or.inl ⟨b, hb, t, ht, rfl⟩))⟩
  · split at h
    · simp at h
    · have hx : (∃ j < n, ∃ s' < 4, Vec.hop a p s 1 = .hop j p s' 1) := ⟨a, ha, s, hs, rfl⟩
      simp only [List.mem_cons, List.mem_flatMap, List.mem_range] at h
      rcases h with rfl | ⟨b, hb, t, ht, h⟩
      · exact ⟨Or.inr (Or.inr (Or.inr hx)), Or.inr (Or.inr (Or.inr hx))⟩
      · split at h
        · simp at h
        · split at h
          · simp at h
          · simp only [List.mem_singleton] at h
            subst h
            exact ⟨Or.inr (Or.inr (Or.inr hx)), Or.inr (Or.inr (Or.inr ⟨b, hb, t, ht, rfl⟩))⟩

theorem mem_ovlpBlocks (len : Vec → Option Nat) (n p : Nat) (x y : Vec) (hx : x ∈ fbfSets n p) (hy : y ∈ fbfSets n p)
    (px : 0 < setSize len x) (py : 0 < setSize len y) :
    (x, y) ∈ ovlpBlocks (fbfIdx len n p) n p ↔ sector x = sector y := by
  have hne : ∀ z ∈ fbfSets n p, 0 < setSize len z → ((fbfIdx len n p).rng z).2 ≠ ((fbfIdx len n p).rng z).1 := by
    intro z hz h
    rw [rng_eq len n p z hz]
    simp only; omega
  have nx := hne x hx px
  have ny := hne y hy py
  simp only [ovlpBlocks, List.mem_append, List.mem_flatMap, List.mem_range, List.mem_singleton, or_assoc]
  constructor
  · rintro (h | ⟨s, hs, h⟩ | ⟨a, ha, s, hs, h⟩ | ⟨a, ha, s, hs, h⟩)
    · injection h with h1 h2; rw [h1, h2]
    · split at h
      · simp at h
      · simp only [List.mem_singleton] at h
        injection h with h1 h2; rw [h1, h2]
    · split at h
      · simp at h
      · simp only [List.mem_cons, List.mem_flatMap, List.mem_range] at h
        rcases h with h | ⟨b, hb, t, ht, h⟩
        · injection h with h1 h2; rw [h1, h2]
        · split at h
          · simp at h
          · split at h
            · simp at h
            · rename_i hst
              simp only [List.mem_singleton] at h
              injection h with h1 h2
              rw [h1, h2, sector_src _ _ _ _ _ _ hs ht]
              simpa using hst
    · split at h
      · simp at h
      · simp only [List.mem_cons, List.mem_flatMap, List.mem_range] at h
        rcases h with h | ⟨b, hb, t, ht, h⟩
        · injection h with h1 h2; rw [h1, h2]
        · split at h
          · simp at h
          · split at h
            · simp at h
            · rename_i hst
              simp only [List.mem_singleton] at h
              injection h with h1 h2
              rw [h1, h2, sector_dst _ _ _ _ _ _ hs ht]
              simpa using hst
  · intro he
    have h01 : ∀ i a s, (sector (.hop i a s 0)).1 = -1 := fun _ _ _ => rfl
    have h11 : ∀ i a s, (sector (.hop i a s 1)).1 = 1 := fun _ _ _ => rfl
    rcases (mem_sets n p x).1 hx with rfl | ⟨s, hs, rfl⟩ | ⟨a, ha, s, hs, rfl⟩ | ⟨a, ha, s, hs, rfl⟩ <;>
      rcases (mem_sets n p y).1 hy with rfl | ⟨t, ht, rfl⟩ | ⟨b, hb, t, ht, rfl⟩ | ⟨b, hb, t, ht, rfl⟩
    · exact Or.inl rfl
    · exfalso; interval_cases t <;> simp [sector, flipBy] at he
    · have := congrArg Prod.fst he; rw [h01] at this; simp [sector] at this
    · have := congrArg Prod.fst he; rw [h11] at this; simp [sector] at this
    · exfalso; interval_cases s <;> simp [sector, flipBy] at he
    · have : s = t := by
        interval_cases s <;> interval_cases t <;> simp [sector, flipBy] at he ⊢
      subst this
      exact Or.inr (Or.inl ⟨s, hs, by rw [if_neg nx]; simp⟩)
    · have := congrArg Prod.fst he; rw [h01] at this; simp [sector] at this
    · have := congrArg Prod.fst he; rw [h11] at this; simp [sector] at this
    · have := congrArg Prod.fst he; rw [h01] at this; simp [sector] at this
    · have := congrArg Prod.fst he; rw [h01] at this; simp [sector] at this
    · rw [sector_src _ _ _ _ _ _ hs ht] at he
      refine Or.inr (Or.inr (Or.inl ⟨a, ha, s, hs, ?_⟩))
      rw [if_neg nx]
      simp only [List.mem_cons, List.mem_flatMap, List.mem_range]
      refine Or.inr ⟨b, hb, t, ht, ?_⟩
      rw [if_neg (Ne.symm ny), if_neg (by simpa using he)]
      simp
    · have := congrArg Prod.fst he; rw [h01, h11] at this; omega
    · have := congrArg Prod.fst he; rw [h11] at this; simp [sector] at this
    · have := congrArg Prod.fst he; rw [h11] at this; simp [sector] at this
    · have := congrArg Prod.fst he; rw [h01, h11] at this; omega
    · rw [sector_dst _ _ _ _ _ _ hs ht] at he
      refine Or.inr (Or.inr (Or.inr ⟨a, ha, s, hs, ?_⟩))
      rw [if_neg nx]
      simp only [List.mem_cons, List.mem_flatMap, List.mem_range]
      refine Or.inr ⟨b, hb, t, ht, ?_⟩
      rw [if_neg (Ne.symm ny), if_neg (by simpa using he)]
      simp

/-- C114, overlaps. `get_fbf_ovlp` is the matrix of the inner products of all pairs of functions of the fragment, functions
with different electron numbers or different multiplicities being orthogonal. -/
theorem C114_overlap [Zero K] (dot : V → V → K) (len : Vec → Option Nat) (vec : Vec → Nat → V) (n p : Nat) (x y : Vec)
    (hx : x ∈ fbfSets n p) (hy : y ∈ fbfSets n p) (a b : Nat) (ha : a < setSize len x) (hb : b < setSize len y) :
    fbfOvlp dot len vec n p (firstFn len n p x + a) (firstFn len n p y + b) =
      if sector x = sector y then dot (vec x a) (vec y b) else 0 := by
  have h := foldl_set len n p (fun x y a b => dot (vec x a) (vec y b)) (ovlpBlocks (fbfIdx len n p) n p)
    (ovlpBlocks_sets _ n p) (fun _ _ => 0) x y hx hy a b ha hb
  unfold fbfOvlp
  rw [h]
  have := mem_ovlpBlocks len n p x y hx hy (by omega) (by omega)
  by_cases hs : sector x = sector y
  · rw [if_pos (this.2 hs), if_pos hs]
  · rw [if_neg (fun h => hs (this.1 h)), if_neg hs]

-- two fragments with hops: functions 9 and 4 lower the multiplicity of the fragment, function 5 raises it
example : fbfOvlp (fun a b : Int => a * b) (fun x => match x with | .hop _ _ _ _ => some 2 | _ => none)
    (fun _ a => (a : Int) + 2) 2 0 9 5 = 0 ∧
    fbfOvlp (fun a b : Int => a * b) (fun x => match x with | .hop _ _ _ _ => some 2 | _ => none)
    (fun _ a => (a : Int) + 2) 2 0 9 4 = 6 := by decide

/-! ### The density matrix -/

theorem mem_dmBlocks (len : Vec → Option Nat) (n p : Nat) (x y : Vec) : (x, y) ∈ dmBlocks len n p ↔
    (x = .ref p ∧ y = .ref p) ∨ (∃ s < 2, (len (.flip p s)).isSome ∧ x = .flip p s ∧ y = .flip p s) ∨
    (∃ s < 4, ∃ a < n, ∃ b < n, x = .hop p a s 0 ∧ y = .hop p b s 0 ∧ (len (.hop p a s 0)).isSome ∧
      (len (.hop p a s 1)).isSome ∧ (b = a ∨ (len (.hop p b s 1)).isSome)) ∨
    (∃ s < 4, ∃ i < n, ∃ j < n, x = .hop i p s 1 ∧ y = .hop j p s 1 ∧ (len (.hop i p s 0)).isSome ∧
      (len (.hop i p s 1)).isSome ∧ (j = i ∨ (len (.hop j p s 1)).isSome)) := by
  simp only [dmBlocks, List.mem_append, List.mem_flatMap, List.mem_range, List.mem_singleton, or_assoc, Prod.mk.injEq]
  refine or_congr Iff.rfl (or_congr ?_ (or_congr ?_ ?_))
  · refine exists_congr fun s => and_congr_right fun _ => ?_
    cases hl : len (.flip p s) <;> simp
  · refine exists_congr fun s => and_congr_right fun _ => exists_congr fun a => and_congr_right fun ha => ?_
    by_cases h1 : (len (.hop p a s 0)).isSome && (len (.hop p a s 1)).isSome
    · rw [if_neg (by simp [h1])]
      simp only [Bool.and_eq_true] at h1
      simp only [List.mem_cons, List.mem_flatMap, List.mem_range, Prod.mk.injEq]
      constructor
      · rintro (⟨rfl, rfl⟩ | ⟨b, hb, h⟩)
        · exact ⟨a, ha, rfl, rfl, h1.1, h1.2, Or.inl rfl⟩
        · split at h
          · simp at h
          · split at h
            · simp at h
            · rename_i _ hp
              simp only [List.mem_singleton, Prod.mk.injEq] at h
              exact ⟨b, hb, h.1, h.2, h1.1, h1.2, Or.inr (by simpa [Option.isSome_iff_ne_none] using hp)⟩
      · rintro ⟨b, hb, rfl, rfl, -, -, h⟩
        by_cases hba : b = a
        · subst hba; exact Or.inl ⟨rfl, rfl⟩
        · refine Or.inr ⟨b, hb, ?_⟩
          rw [if_neg hba, if_neg (by simpa [Option.isSome_iff_ne_none] using h.resolve_left hba)]
          simp
    · rw [if_pos (by rw [Bool.not_eq_true] at h1; rw [h1]; rfl)]
      simp only [List.not_mem_nil, false_iff]
      rintro ⟨b, -, -, -, h2, h3, -⟩
      exact h1 (by simp [h2, h3])
  · refine exists_congr fun s => and_congr_right fun _ => exists_congr fun a => and_congr_right fun ha => ?_
    by_cases h1 : (len (.hop a p s 0)).isSome && (len (.hop a p s 1)).isSome
    · rw [if_neg (by simp [h1])]
      simp only [Bool.and_eq_true] at h1
      simp only [List.mem_cons, List.mem_flatMap, List.mem_range, Prod.mk.injEq]
      constructor
      · rintro (⟨rfl, rfl⟩ | ⟨b, hb, h⟩)
        · exact ⟨a, ha, rfl, rfl, h1.1, h1.2, Or.inl rfl⟩
        · split at h
          · simp at h
          · split at h
            · simp at h
            · rename_i _ hp
              simp only [List.mem_singleton, Prod.mk.injEq] at h
              exact ⟨b, hb, h.1, h.2, h1.1, h1.2, Or.inr (by simpa [Option.isSome_iff_ne_none] using hp)⟩
      · rintro ⟨b, hb, rfl, rfl, -, -, h⟩
        by_cases hba : b = a
        · subst hba; exact Or.inl ⟨rfl, rfl⟩
        · refine Or.inr ⟨b, hb, ?_⟩
          rw [if_neg hba, if_neg (by simpa [Option.isSome_iff_ne_none] using h.resolve_left hba)]
          simp
    · rw [if_pos (by rw [Bool.not_eq_true] at h1; rw [h1]; rfl)]
      simp only [List.not_mem_nil, false_iff]
      rintro ⟨b, -, -, -, h2, h3, -⟩
      exact h1 (by simp [h2, h3])

theorem dmBlocks_sets (len : Vec → Option Nat) (n p : Nat) :
    ∀ xy ∈ dmBlocks len n p, xy.1 ∈ fbfSets n p ∧ xy.2 ∈ fbfSets n p := by
  rintro ⟨x, y⟩ h
  rw [mem_dmBlocks] at h
  simp only [mem_sets]
  rcases h with ⟨rfl, rfl⟩ | ⟨s, hs, -, rfl, rfl⟩ | ⟨s, hs, a, ha, b, hb, rfl, rfl, -⟩ | ⟨s, hs, a, ha, b, hb, rfl, rfl, -⟩
  · exact ⟨Or.inl rfl, Or.inl rfl⟩
  · exact ⟨Or.inr (Or.inl ⟨s, hs, rfl⟩), Or.inr (Or.inl ⟨s, hs, rfl⟩)⟩
  · exact ⟨Or.inr (Or.inr (Or.inl ⟨a, ha, s, hs, rfl⟩)), Or.inr (Or.inr (Or.inl ⟨b, hb, s, hs, rfl⟩))⟩
  · exact ⟨Or.inr (Or.inr (Or.inr ⟨a, ha, s, hs, rfl⟩)), Or.inr (Or.inr (Or.inr ⟨b, hb, s, hs, rfl⟩))⟩

theorem nodup_flatMap_of {α β : Type} (l : List α) (F : α → List β) (hl : l.Nodup) (hF : ∀ a ∈ l, (F a).Nodup)
    (hd : ∀ a b z, a ≠ b → z ∈ F a → z ∈ F b → False) : (l.flatMap F).Nodup := by
  rw [List.nodup_flatMap]
  exact ⟨hF, hl.imp fun {a b} hab z h1 h2 => hd a b z hab h1 h2⟩

theorem row_nodup (n a : Nat) (g : Nat → Vec) (hg : ∀ b c, g b = g c → b = c) (q : Nat → Bool) :
    ((g a, g a) :: (List.range n).flatMap fun b => if b = a then [] else if q b then [] else [(g a, g b)]).Nodup := by
  rw [List.nodup_cons]
  constructor
  · intro h
    simp only [List.mem_flatMap, List.mem_range] at h
    obtain ⟨b, -, h⟩ := h
    split at h
    · simp at h
    · split at h
      · simp at h
      · rename_i hba _
        simp only [List.mem_singleton, Prod.mk.injEq, true_and] at h
        exact hba (hg _ _ h).symm
  · refine nodup_flatMap_of _ _ List.nodup_range (fun b _ => ?_) ?_
    · split
      · simp
      · split <;> simp
    · intro b c z hbc h1 h2
      split at h1
      · simp at h1
      · split at h1
        · simp at h1
        · split at h2
          · simp at h2
          · split at h2
            · simp at h2
            · simp only [List.mem_singleton] at h1 h2
              rw [h1] at h2
              exact hbc (hg _ _ (Prod.mk.inj h2).2)

theorem dmBlocks_nodup (len : Vec → Option Nat) (n p : Nat) : (dmBlocks len n p).Nodup := by
  -- the first set of every pair of a row
  have rowmem : ∀ (g : Nat → Vec) (q : Nat → Bool) (c : Bool) (a : Nat) (z : Vec × Vec),
      z ∈ (if c then [] else (g a, g a) :: (List.range n).flatMap fun b =>
        if b = a then [] else if q b then [] else [(g a, g b)]) → z.1 = g a := by
    intro g q c a z h
    split at h
    · simp at h
    · simp only [List.mem_cons, List.mem_flatMap] at h
      rcases h with rfl | ⟨b, -, h⟩
      · rfl
      · split at h
        · simp at h
        · split at h
          · simp at h
          · simp only [List.mem_singleton] at h
            rw [h]
  have tab : ∀ (g : Nat → Nat → Vec) (q : Nat → Nat → Bool) (c : Nat → Nat → Bool),
      (∀ s a t b, g s a = g t b → s = t ∧ a = b) →
      ((List.range 4).flatMap fun s => (List.range n).flatMap fun a => if c s a then [] else
        (g s a, g s a) :: (List.range n).flatMap fun b => if b = a then [] else if q s b then [] else [(g s a, g s b)]).Nodup ∧
      ∀ z ∈ ((List.range 4).flatMap fun s => (List.range n).flatMap fun a => if c s a then [] else
        (g s a, g s a) :: (List.range n).flatMap fun b => if b = a then [] else if q s b then [] else [(g s a, g s b)]),
        ∃ s a, z.1 = g s a := by
    intro g q c hg
    have hmem : ∀ z s, z ∈ ((List.range n).flatMap fun a => if c s a then [] else
        (g s a, g s a) :: (List.range n).flatMap fun b => if b = a then [] else if q s b then [] else [(g s a, g s b)]) →
        ∃ a, z.1 = g s a := by
      intro z s h
      obtain ⟨a, -, h⟩ := List.mem_flatMap.1 h
      exact ⟨a, rowmem (g s) (q s) (c s a) a z h⟩
    refine ⟨nodup_flatMap_of _ _ List.nodup_range (fun s _ => ?_) ?_, ?_⟩
    · refine nodup_flatMap_of _ _ List.nodup_range (fun a _ => ?_) ?_
      · split
        · simp
        · exact row_nodup n a (g s) (fun b c e => (hg _ _ _ _ e).2) (q s)
      · intro a b z hab h1 h2
        have e1 := rowmem (g s) (q s) (c s a) a z h1
        have e2 := rowmem (g s) (q s) (c s b) b z h2
        exact hab (hg _ _ _ _ (e1.symm.trans e2)).2
    · intro s t z hst h1 h2
      obtain ⟨a, e1⟩ := hmem z s h1
      obtain ⟨b, e2⟩ := hmem z t h2
      exact hst (hg _ _ _ _ (e1.symm.trans e2)).1
    · intro z h
      obtain ⟨s, -, h⟩ := List.mem_flatMap.1 h
      obtain ⟨a, e⟩ := hmem z s h
      exact ⟨s, a, e⟩
  obtain ⟨n0, m0⟩ := tab (fun s a => .hop p a s 0) (fun s b => !(len (.hop p b s 1)).isSome)
    (fun s a => !((len (.hop p a s 0)).isSome && (len (.hop p a s 1)).isSome))
    (by intro s a t b e; injection e; constructor <;> assumption)
  obtain ⟨n1, m1⟩ := tab (fun s a => .hop a p s 1) (fun s b => !(len (.hop b p s 1)).isSome)
    (fun s a => !((len (.hop a p s 0)).isSome && (len (.hop a p s 1)).isSome))
    (by intro s a t b e; injection e; constructor <;> assumption)
  unfold dmBlocks
  rw [List.nodup_append, List.nodup_append, List.nodup_append]
  have fl : ∀ z ∈ ((List.range 2).flatMap fun s => if (len (.flip p s)).isNone then [] else [(Vec.flip p s, Vec.flip p s)]),
      ∃ s, z = (.flip p s, .flip p s) := by
    intro z h
    obtain ⟨s, -, h⟩ := List.mem_flatMap.1 h
    split at h
    · simp at h
    · exact ⟨s, by simpa using h⟩
  refine ⟨⟨⟨by simp, ?_, ?_⟩, n0, ?_⟩, n1, ?_⟩
  · refine nodup_flatMap_of _ _ List.nodup_range (fun s _ => by split <;> simp) ?_
    intro s t z hst h1 h2
    split at h1
    · simp at h1
    · split at h2
      · simp at h2
      · simp only [List.mem_singleton] at h1 h2
        rw [h1] at h2
        injection h2 with h2 _
        injection h2 with _ h2
        exact hst h2
  · intro z hz w hw e
    subst e
    obtain ⟨s, h⟩ := fl z hw
    simp only [List.mem_singleton] at hz
    rw [hz] at h
    simp at h
  · intro z hz w hw e
    subst e
    obtain ⟨s, a, h⟩ := m0 z hw
    rcases List.mem_append.1 hz with h' | h'
    · simp only [List.mem_singleton] at h'
      rw [h'] at h; simp at h
    · obtain ⟨t, h'⟩ := fl z h'
      rw [h'] at h; simp at h
  · intro z hz w hw e
    subst e
    obtain ⟨s, a, h⟩ := m1 z hw
    rcases List.mem_append.1 hz with h' | h'
    · rcases List.mem_append.1 h' with h' | h'
      · simp only [List.mem_singleton] at h'
        rw [h'] at h; simp at h
      · obtain ⟨t, h'⟩ := fl z h'
        rw [h'] at h; simp at h
    · obtain ⟨t, b, h'⟩ := m0 z h'
      rw [h'] at h; simp at h

theorem fbfDm1_block [AddCommMonoid K] (so : List Nat → List Nat) (len : Vec → Option Nat) (ref : Space) (roots : List Space)
    (sdm : Nat → Nat → Nat → Nat → K) (p : Nat) (x y : Vec) (hx : x ∈ fbfSets ref.nfrag p) (hy : y ∈ fbfSets ref.nfrag p)
    (a b : Nat) (ha : a < setSize len x) (hb : b < setSize len y) :
    fbfDm1 so len ref roots sdm p (firstFn len ref.nfrag p x + a) (firstFn len ref.nfrag p y + b) =
      if (x, y) ∈ dmBlocks len ref.nfrag p then ((rootsWith so ref roots x).map fun ix => ((rootsWith so ref roots y).map fun jx =>
        (if sameQn ref.nfrag (roots.getD ix ref) (roots.getD jx ref) then sdm ix jx else fun _ _ => 0) a b).sum).sum else 0 := by
  have h := foldl_add2 len ref.nfrag p
    (fun ix jx => if sameQn ref.nfrag (roots.getD ix ref) (roots.getD jx ref) then sdm ix jx else fun _ _ => 0)
    (rootsWith so ref roots) (dmBlocks len ref.nfrag p) (dmBlocks_sets len ref.nfrag p) (dmBlocks_nodup len ref.nfrag p)
    (fun _ _ => 0) x y hx hy a b ha hb
  unfold fbfDm1
  simp only at h ⊢
  rw [h, zero_add]

theorem sameQn_iff (n : Nat) (a b : Space) : sameQn n a b = true ↔ SameLocal n a b := by
  simp [sameQn, SameLocal, and_assoc]

variable {so : List Nat → List Nat} {ch : Nat → Nat → Nat → Bool} {sf : Nat → Nat → Bool} {ref : Space}
  {h : List HashItem → Int}

theorem nelec_of_same {a b : Space} {n k : Nat} (hk : k < n) (h : SameLocal n a b) (ha : FragOk a k) (hb : FragOk b k) :
    a.nelec k = b.nelec k ∧ el a.smults k = el b.smults k := by
  obtain ⟨h1, h2, h3⟩ := h k hk
  rw [fragOk_iff] at ha hb
  obtain ⟨⟨-, a1, -, -⟩, -, -, a2⟩ := ha
  obtain ⟨⟨-, b1, -, -⟩, -, -, b2⟩ := hb
  unfold neleca nelecb Space.nelec at *
  refine ⟨by omega, h3⟩

/-- The quantum numbers of a rootspace of the list. -/
theorem spaceAt_eq {out : List Root} {r : Nat} {t : Root} (ht : out[r]? = some t) :
    (out.map (·.sp)).getD r ref = t.sp := by
  rw [List.getD_eq_getElem?_getD, List.getElem?_map, ht]; rfl

/-- What a rootspace that carries a set of vectors looks like. -/
theorem carries_inv (f : NCsf) (hf : CsfCounts f) (hh : SeparatesRecords so ref h)
    (ho : PairOrder so ref.nfrag) (hin : LassisInput so ch sf ref) (out : List Root)
    (e : prepareModelStates f h so ch sf ref = .ok out) (p : Nat) (hp : p < ref.nfrag) (r : Nat) (x : Vec)
    (hc : Carries out p r x) : ∃ t hops flips, out[r]? = some t ∧ (∀ x ∈ hops, HasHop ch ref x) ∧ (∀ y ∈ flips, HasFlip sf ref y) ∧
      IsProduct so ref hops flips t.sp ∧ RightCi hops flips t.sp t.ci ∧ t.ci.getD p none = some (x, el t.sp.spins p) ∧
      t.sp.nelec p = ref.nelec p + (sector x).1 ∧ el t.sp.smults p = el ref.smults p + (sector x).2 ∧
      (x = .ref p ∨ (∃ d, x = .flip p d ∧ (p, d) ∈ flips) ∨ (∃ a s, x = .hop p a s 0 ∧ ⟨p, a, s⟩ ∈ hops) ∨
        ∃ i s, x = .hop i p s 1 ∧ ⟨i, p, s⟩ ∈ hops) := by
  obtain ⟨out', e', -, -, hs⟩ := C111_model_space_partial f hf hh ho hin
  rw [e] at e'
  cases e'
  obtain ⟨t, m, ht, hm⟩ := hc
  obtain ⟨hops, flips, hx, hy, hpr, -, hR⟩ := hs t (List.mem_of_getElem? ht)
  refine ⟨t, hops, flips, ht, hx, hy, hpr, hR, ?_⟩
  rcases frag_cases hpr hR p hp with ⟨c, h1, h2⟩ | ⟨d, hd, c, h1, h2⟩ | ⟨x', hx', he, c, h1, h2⟩ | ⟨x', hx', he, c, h1, h2⟩
  all_goals
    have hcx := c
    rw [hm] at c
    simp only [Option.some.injEq, Prod.mk.injEq] at c
    obtain ⟨rfl, -⟩ := c
  · exact ⟨hcx, h1.trans (Int.add_zero _).symm, h2.trans (Int.add_zero _).symm, Or.inl rfl⟩
  · exact ⟨hcx, h1.trans (Int.add_zero _).symm, h2, Or.inr (Or.inl ⟨d, rfl, hd⟩)⟩
  · obtain ⟨i, a, s⟩ := x'
    simp only at he
    subst he
    exact ⟨hcx, h1, h2, Or.inr (Or.inr (Or.inl ⟨a, s, rfl, hx'⟩))⟩
  · obtain ⟨i, a, s⟩ := x'
    simp only at he
    subst he
    exact ⟨hcx, h1, h2, Or.inr (Or.inr (Or.inr ⟨i, s, rfl, hx'⟩))⟩

/-- Which rootspaces the density-matrix code visits for a set of vectors. -/
theorem mem_rootsWith (f : NCsf) (hf : CsfCounts f) (hh : SeparatesRecords so ref h)
    (ho : PairOrder so ref.nfrag) (hin : LassisInput so ch sf ref) (out : List Root)
    (e : prepareModelStates f h so ch sf ref = .ok out) (hord : ∀ i a, i < ref.nfrag → a < ref.nfrag → so [i, a] = so [min i a, max i a])
    (len : Vec → Option Nat) (hlen : ∀ i a s side, (len (.hop i a s side)).isSome = ch i a s)
    (p : Nat) (hp : p < ref.nfrag) (x : Vec) (hx : x ∈ fbfSets ref.nfrag p) (h0 : 0 < setSize len x) (r : Nat) :
    r ∈ rootsWith so ref (out.map (·.sp)) x ↔ Carries out p r x := by
  have inv := fun hc => carries_inv f hf hh ho hin out e p hp r x hc
  have hop : ∀ i a s side, 0 < setSize len (.hop i a s side) → ch i a s = true := by
    intro i a s side h0
    rw [← hlen i a s side]
    cases hl : len (.hop i a s side) with
    | none => simp [setSize, hl] at h0
    | some _ => rfl
  rw [mem_sets] at hx
  rcases hx with rfl | ⟨d, hd, rfl⟩ | ⟨a, ha, s, hs, rfl⟩ | ⟨i, hi, s, hs, rfl⟩
  · rw [show rootsWith so ref (out.map (·.sp)) (.ref p) = getRefRootspaces ref (out.map (·.sp)) p from rfl, C112_ref_rootspaces f hf hh ho hin out e p hp r]
    refine ⟨fun ⟨t, h1, h2⟩ => ⟨t, _, h1, h2⟩, fun hc => ?_⟩
    obtain ⟨t, hops, flips, ht, -, -, -, -, hm, -⟩ := inv hc
    exact ⟨t, ht, hm⟩
  · rw [show rootsWith so ref (out.map (·.sp)) (.flip p d) = getSfRootspaces ref (out.map (·.sp)) p d from rfl, C112_sf_rootspaces f hf hh ho hin out e p hp d hd r]
    refine ⟨fun ⟨t, h1, h2⟩ => ⟨t, _, h1, h2⟩, fun hc => ?_⟩
    obtain ⟨t, hops, flips, ht, -, -, -, -, hm, -⟩ := inv hc
    exact ⟨t, ht, hm⟩
  · rw [show rootsWith so ref (out.map (·.sp)) (.hop p a s 0) = getChRootspaces so ref (out.map (·.sp)) p a s from rfl]
    have hne := hin.apart ⟨p, a, s⟩ ⟨hp, ha, hs, hop _ _ _ _ h0⟩
    rw [C112_ch_rootspaces_partial f hf hh ho hin out e p a s hp ha hne hs (hord p a hp ha) r]
    refine ⟨fun ⟨t, h1, h2, _⟩ => ⟨t, _, h1, h2⟩, fun hc => ?_⟩
    obtain ⟨t, hops, flips, ht, -, -, -, hR, hm, -, -, hk⟩ := inv hc
    rcases hk with hk | ⟨d, hk, -⟩ | ⟨a', s', hk, hh'⟩ | ⟨i', s', hk, hh'⟩
    · simp at hk
    · simp at hk
    · simp only [Vec.hop.injEq] at hk
      obtain ⟨-, rfl, rfl, -⟩ := hk
      exact ⟨t, ht, hR.hop _ hh'⟩
    · simp at hk
  · rw [show rootsWith so ref (out.map (·.sp)) (.hop i p s 1) = getChRootspaces so ref (out.map (·.sp)) i p s from rfl]
    have hne := hin.apart ⟨i, p, s⟩ ⟨hi, hp, hs, hop _ _ _ _ h0⟩
    rw [C112_ch_rootspaces_partial f hf hh ho hin out e i p s hi hp hne hs (hord i p hi hp) r]
    refine ⟨fun ⟨t, h1, _, h2⟩ => ⟨t, _, h1, h2⟩, fun hc => ?_⟩
    obtain ⟨t, hops, flips, ht, -, -, -, hR, hm, -, -, hk⟩ := inv hc
    rcases hk with hk | ⟨d, hk, -⟩ | ⟨a', s', hk, hh'⟩ | ⟨i', s', hk, hh'⟩
    · simp at hk
    · simp at hk
    · simp at hk
    · simp only [Vec.hop.injEq] at hk
      obtain ⟨rfl, -, rfl, -⟩ := hk
      exact ⟨t, ht, hR.hop _ hh'⟩

theorem rootsWith_filter (so : List Nat → List Nat) (ref : Space) (roots : List Space) (x : Vec) :
    ∃ q : Nat → Bool, rootsWith so ref roots x = (List.range roots.length).filter q := by
  cases x with
  | ref i => exact ⟨_, rfl⟩
  | flip i d => exact ⟨_, rfl⟩
  | hop i a s side =>
    refine ⟨fun r => (roots.getD r ref).entmap.contains (so [i, a]) &&
        ((decide ((roots.getD r ref).nelec i = ref.nelec i - 1) && decide (el (roots.getD r ref).smults i = el ref.smults i - 1 + 2 * (s / 2 : Nat))) &&
        (decide ((roots.getD r ref).nelec a = ref.nelec a + 1) && decide (el (roots.getD r ref).smults a = el ref.smults a - 1 + 2 * (s % 2 : Nat)))), ?_⟩
    unfold rootsWith getChRootspaces
    simp only
    rw [List.filter_filter]

theorem sum_filter_list [AddCommMonoid K] (l : List Nat) (q : Nat → Bool) (F : Nat → K) :
    ((l.filter q).map F).sum = (l.map fun i => if q i then F i else 0).sum := by
  induction l with
  | nil => rfl
  | cons a l ih =>
    rw [List.filter_cons]
    by_cases hq : q a <;> simp [hq, ih]

open Classical in
/-- Sum over the rootspaces that carry a set of vectors. -/
theorem sum_rootsWith [AddCommMonoid K] {roots : List Space} {x : Vec} {P : Nat → Prop}
    (hP : ∀ r, r ∈ rootsWith so ref roots x ↔ P r) (F : Nat → K) :
    ((rootsWith so ref roots x).map F).sum = ((List.range roots.length).map fun r => if P r then F r else 0).sum := by
  obtain ⟨q, hq⟩ := rootsWith_filter so ref roots x
  rw [hq, sum_filter_list]
  congr 1
  apply List.map_congr_left
  intro r hr
  have := hP r
  rw [hq, List.mem_filter] at this
  simp only [hr, true_and] at this
  by_cases hp : P r
  · rw [if_pos hp, if_pos (this.2 hp)]
  · rw [if_neg hp, if_neg (fun c => hp (this.1 c))]

/-- Two sets that rootspaces with the same local quantum numbers carry are a block of the density matrix, when hops change
multiplicities the same way. -/
theorem block_of_carries (f : NCsf) (hf : CsfCounts f) (hh : SeparatesRecords so ref h)
    (ho : PairOrder so ref.nfrag) (hin : LassisInput so ch sf ref) (out : List Root)
    (e : prepareModelStates f h so ch sf ref = .ok out)
    (len : Vec → Option Nat) (hlen : ∀ i a s side, (len (.hop i a s side)).isSome = ch i a s)
    (hlen' : ∀ i d, (len (.flip i d)).isSome = sf i d) (p : Nat) (hp : p < ref.nfrag) (ix jx : Nat) (x y : Vec)
    (hx : Carries out p ix x) (hy : Carries out p jx y)
    (hl : SameLocal ref.nfrag ((out.map (·.sp)).getD ix ref) ((out.map (·.sp)).getD jx ref))
    (hmix : ∀ i a j b s t side, x = .hop i a s side → y = .hop j b t side → s = t) :
    (x, y) ∈ dmBlocks len ref.nfrag p := by
  obtain ⟨t, xs, zs, ht, hxs, hzs, hpr, -, -, n1, m1, k1⟩ := carries_inv f hf hh ho hin out e p hp ix x hx
  obtain ⟨t', xs', zs', ht', hxs', hzs', hpr', -, -, n2, m2, k2⟩ := carries_inv f hf hh ho hin out e p hp jx y hy
  rw [spaceAt_eq ht, spaceAt_eq ht'] at hl
  obtain ⟨e1, e2⟩ := nelec_of_same hp hl (hpr.fits.ok p (by rw [hpr.fits.nfrag]; exact hp)) (hpr'.fits.ok p (by rw [hpr'.fits.nfrag]; exact hp))
  have s1 : (sector x).1 = (sector y).1 := by omega
  have s2 : (sector x).2 = (sector y).2 := by omega
  rw [mem_dmBlocks]
  have dS : ∀ z : ElHop, z.dSrc = -1 ∨ z.dSrc = 1 := by intro z; unfold ElHop.dSrc; split <;> simp
  have fB : ∀ d, flipBy d = -2 ∨ flipBy d = 2 := by intro d; unfold flipBy; split <;> simp
  rcases k1 with rfl | ⟨d, rfl, hd⟩ | ⟨a, s, rfl, hh1⟩ | ⟨i, s, rfl, hh1⟩ <;>
  rcases k2 with rfl | ⟨d', rfl, hd'⟩ | ⟨a', s', rfl, hh2⟩ | ⟨i', s', rfl, hh2⟩ <;>
  simp only [sector, ↓reduceIte, one_ne_zero, reduceCtorEq] at s1 s2
  any_goals omega
  · exact Or.inl ⟨rfl, rfl⟩
  · rcases fB d' with h | h <;> omega
  · rcases fB d with h | h <;> omega
  · have : d = d' := flipBy_inj (hzs _ hd).2.1 (hzs' _ hd').2.1 s2
    subst this
    exact Or.inr (Or.inl ⟨d, (hzs _ hd).2.1, by rw [hlen']; exact (hzs _ hd).2.2, rfl, rfl⟩)
  · have : s = s' := hmix _ _ _ _ _ _ _ rfl rfl
    subst this
    obtain ⟨-, g1, g2, g3⟩ := hxs _ hh1
    obtain ⟨-, g1', g2', g3'⟩ := hxs' _ hh2
    exact Or.inr (Or.inr (Or.inl ⟨s, g2, a, g1, a', g1', rfl, rfl, by rw [hlen]; exact g3, by rw [hlen]; exact g3,
      Or.inr (by rw [hlen]; exact g3')⟩))
  · have : s = s' := hmix _ _ _ _ _ _ _ rfl rfl
    subst this
    obtain ⟨g1, -, g2, g3⟩ := hxs _ hh1
    obtain ⟨g1', -, g2', g3'⟩ := hxs' _ hh2
    exact Or.inr (Or.inr (Or.inr ⟨s, g2, i, g1, i', g1', rfl, rfl, by rw [hlen]; exact g3, by rw [hlen]; exact g3,
      Or.inr (by rw [hlen]; exact g3')⟩))

open Classical in
/-- C114, density matrix (when a Python set of two fragments is traversed in one order, and rootspaces with the same local
quantum numbers in which a fragment is the same end of a hop have hops of the same kind): the element of two functions of the
basis is the sum, over all pairs of rootspaces that carry the two sets of vectors and agree in the local quantum numbers, of
the element of their transition density matrix. -/
theorem C114_density_partial [AddCommMonoid K] (f : NCsf) (hf : CsfCounts f) (hh : SeparatesRecords so ref h)
    (ho : PairOrder so ref.nfrag) (hin : LassisInput so ch sf ref) (out : List Root)
    (e : prepareModelStates f h so ch sf ref = .ok out) (hord : ∀ i a, i < ref.nfrag → a < ref.nfrag → so [i, a] = so [min i a, max i a])
    (len : Vec → Option Nat) (hlen : ∀ i a s side, (len (.hop i a s side)).isSome = ch i a s)
    (hlen' : ∀ i d, (len (.flip i d)).isSome = sf i d) (p : Nat) (hp : p < ref.nfrag)
    (hmix : ∀ ix jx i a j b s t side, Carries out p ix (.hop i a s side) → Carries out p jx (.hop j b t side) →
      SameLocal ref.nfrag ((out.map (·.sp)).getD ix ref) ((out.map (·.sp)).getD jx ref) → s = t)
    (sdm : Nat → Nat → Nat → Nat → K) (x y : Vec) (hx : x ∈ fbfSets ref.nfrag p) (hy : y ∈ fbfSets ref.nfrag p)
    (a b : Nat) (ha : a < setSize len x) (hb : b < setSize len y) :
    fbfDm1 so len ref (out.map (·.sp)) sdm p (firstFn len ref.nfrag p x + a) (firstFn len ref.nfrag p y + b) =
      ((List.range out.length).map fun ix => ((List.range out.length).map fun jx =>
        if Carries out p ix x ∧ Carries out p jx y ∧
          SameLocal ref.nfrag ((out.map (·.sp)).getD ix ref) ((out.map (·.sp)).getD jx ref)
        then sdm ix jx a b else 0).sum).sum := by
  rw [fbfDm1_block so len ref _ sdm p x y hx hy a b ha hb]
  have hX := mem_rootsWith f hf hh ho hin out e hord len hlen p hp x hx (by omega)
  have hY := mem_rootsWith f hf hh ho hin out e hord len hlen p hp y hy (by omega)
  split
  · rw [sum_rootsWith hX, List.length_map]
    congr 1
    apply List.map_congr_left
    intro ix hix
    by_cases hc : Carries out p ix x
    · rw [if_pos hc, sum_rootsWith hY, List.length_map]
      congr 1
      apply List.map_congr_left
      intro jx hjx
      by_cases hc' : Carries out p jx y
      · rw [if_pos hc']
        by_cases hl : SameLocal ref.nfrag ((out.map (·.sp)).getD ix ref) ((out.map (·.sp)).getD jx ref)
        · rw [if_pos ((sameQn_iff _ _ _).2 hl), if_pos ⟨hc, hc', hl⟩]
        · rw [if_neg (fun hq => hl ((sameQn_iff _ _ _).1 hq)), if_neg (fun hq => hl hq.2.2)]
      · rw [if_neg hc', if_neg (fun hq => hc' hq.2.1)]
    · rw [if_neg hc]
      simp [hc]
  · rename_i hnb
    symm
    apply List.sum_eq_zero
    intro z hz
    obtain ⟨ix, -, rfl⟩ := List.mem_map.1 hz
    apply List.sum_eq_zero
    intro z hz
    obtain ⟨jx, -, rfl⟩ := List.mem_map.1 hz
    rw [if_neg]
    rintro ⟨h1, h2, h3⟩
    exact hnb (block_of_carries f hf hh ho hin out e len hlen hlen' p hp ix jx x y h1 h2 h3
      fun i a j b s t side ex ey => hmix ix jx i a j b s t side (ex ▸ h1) (ey ▸ h2) h3)

/-- C114, density matrix: with up to three fragments every rootspace contains at most one hop, and the last condition holds. -/
theorem C114_density_few_fragments (f : NCsf) (hf : CsfCounts f) (hh : SeparatesRecords so ref h)
    (ho : PairOrder so ref.nfrag) (hin : LassisInput so ch sf ref) (out : List Root)
    (e : prepareModelStates f h so ch sf ref = .ok out) (hn : ref.nfrag ≤ 3) (p : Nat) (hp : p < ref.nfrag)
    (ix jx i a j b s t side : Nat) (hx : Carries out p ix (.hop i a s side)) (hy : Carries out p jx (.hop j b t side))
    (hl : SameLocal ref.nfrag ((out.map (·.sp)).getD ix ref) ((out.map (·.sp)).getD jx ref)) : s = t := by
  obtain ⟨r, xs, zs, hr, hxs, hzs, hpr, hR, -, n1, m1, k1⟩ := carries_inv f hf hh ho hin out e p hp ix _ hx
  obtain ⟨r', xs', zs', hr', hxs', hzs', hpr', hR', -, n2, m2, k2⟩ := carries_inv f hf hh ho hin out e p hp jx _ hy
  rw [spaceAt_eq hr, spaceAt_eq hr'] at hl
  have same := fun k hk => nelec_of_same (k := k) hk hl (hpr.fits.ok k (by rw [hpr.fits.nfrag]; exact hk))
    (hpr'.fits.ok k (by rw [hpr'.fits.nfrag]; exact hk))
  have one : ∀ (xs : List ElHop) (ys : List (Nat × Nat)), (∀ x ∈ xs, HasHop ch ref x) → (touched xs ys).Nodup →
      ∀ x ∈ xs, ∀ y ∈ xs, x = y := by
    intro xs ys hxs hnd x hx y hy
    have hb := hops_bound (ch := ch) hxs (by
      unfold touched at hnd ⊢
      rw [List.map_nil, List.append_nil]
      exact (List.nodup_append.1 hnd).1)
    have : xs.length ≤ 1 := by omega
    match xs, this, hx, hy with
    | [z], _, hx, hy => rw [List.mem_singleton.1 hx, List.mem_singleton.1 hy]
  have one' := one xs' zs' hxs' hpr'.once
  have hel := hpr.fits.elec
  rcases k1 with k | ⟨d, k, -⟩ | ⟨a₁, s₁, k, hh1⟩ | ⟨i₁, s₁, k, hh1⟩
  · simp at k
  · simp at k
  all_goals
    simp only [Vec.hop.injEq] at k
    obtain ⟨rfl, rfl, rfl, rfl⟩ := k
    rcases k2 with k | ⟨d, k, -⟩ | ⟨a₂, s₂, k, hh2⟩ | ⟨i₂, s₂, k, hh2⟩
    · simp at k
    · simp at k
  · simp only [Vec.hop.injEq] at k
    obtain ⟨rfl, rfl, rfl, -⟩ := k
    have hd := hpr.dest _ hh1
    obtain ⟨c1, c2⟩ := same a (hxs _ hh1).2.1
    have c3 : r'.sp.nelec a = ref.nelec a + 1 := by
      rw [← c1]; unfold Space.nelec; rw [hel]; simp only at hd; omega
    rcases frag_cases hpr' hR' a (hxs _ hh1).2.1 with ⟨-, h1, -⟩ | ⟨d, -, -, h1, -⟩ | ⟨x', -, -, -, h1, -⟩ | ⟨x', hx', he, -, h1, h2⟩
    · omega
    · omega
    · omega
    · have := one' _ hx' _ hh2
      subst this
      simp only at he
      subst he
      obtain ⟨c4, c5⟩ := same j hp
      have := hop_ext (x := ⟨j, b, s⟩) (y := ⟨j, b, t⟩) rfl rfl (by simp only [sector, ↓reduceIte] at m1 m2; omega)
        (by simp only at hd; omega) (hxs _ hh1).2.2.1 (hxs' _ hh2).2.2.1
      exact congrArg ElHop.s this
  · simp at k
  · simp at k
  · simp only [Vec.hop.injEq] at k
    obtain ⟨rfl, rfl, rfl, -⟩ := k
    have hd := hpr.source _ hh1
    obtain ⟨c1, c2⟩ := same i (hxs _ hh1).1
    have c3 : r'.sp.nelec i = ref.nelec i - 1 := by
      rw [← c1]; unfold Space.nelec; rw [hel]; simp only at hd; omega
    rcases frag_cases hpr' hR' i (hxs _ hh1).1 with ⟨-, h1, -⟩ | ⟨d, -, -, h1, -⟩ | ⟨x', hx', he, -, h1, h2⟩ | ⟨x', -, -, -, h1, -⟩
    · omega
    · omega
    · have := one' _ hx' _ hh2
      subst this
      simp only at he
      subst he
      obtain ⟨c4, c5⟩ := same b hp
      have := hop_ext (x := ⟨j, b, s⟩) (y := ⟨j, b, t⟩) rfl rfl (by simp only at hd; omega)
        (by simp only [sector, one_ne_zero, ↓reduceIte] at m1 m2; omega) (hxs _ hh1).2.2.1 (hxs' _ hh2).2.2.1
      exact congrArg ElHop.s this
    · omega

/-- Four doublets; the last two fragments have two orbitals. -/
def unevenDoublets : Space := ⟨[1, 1, 2, 2], [1, 1, 1, 1], [1, -1, 1, -1], [2, 2, 2, 2], [0, 0, 0, 0], 1, []⟩

/-- Hops of the first two fragments into the last two, into a singlet of the third and a triplet of the fourth. -/
def unevenCh : Nat → Nat → Nat → Bool := fun i a s =>
  decide (i = 0 ∧ a = 2 ∧ s = 0) || decide (i = 1 ∧ a = 3 ∧ s = 1) || decide (i = 0 ∧ a = 3 ∧ s = 1) ||
    decide (i = 1 ∧ a = 2 ∧ s = 0)

/-- Two vectors for each of these hops. -/
def unevenLen : Vec → Option Nat
  | .hop i a s _ => if unevenCh i a s then some 2 else none
  | _ => none

theorem unevenCh_cases {i a s : Nat} (h : unevenCh i a s = true) :
    (i = 0 ∧ a = 2 ∧ s = 0) ∨ (i = 1 ∧ a = 3 ∧ s = 1) ∨ (i = 0 ∧ a = 3 ∧ s = 1) ∨ (i = 1 ∧ a = 2 ∧ s = 0) := by
  simpa [unevenCh, or_assoc] using h

theorem uneven_low : LowSpinInput unevenCh (fun _ _ => false) unevenDoublets := by
  refine ⟨⟨⟨rfl, rfl, rfl, rfl⟩, rfl, rfl, ?_⟩, by decide, rfl, by decide, ?_, ?_⟩
  · intro k hk
    have hk : k < 4 := hk
    rw [fragOk_iff]
    unfold Room ProjIn
    interval_cases k <;> decide
  · rintro ⟨i, a, s⟩ ⟨h1, h2, h3, h4⟩
    rcases unevenCh_cases h4 with ⟨rfl, rfl, rfl⟩ | ⟨rfl, rfl, rfl⟩ | ⟨rfl, rfl, rfl⟩ | ⟨rfl, rfl, rfl⟩ <;>
    · unfold Room; decide
  · rintro ⟨i, d⟩ ⟨-, -, h3⟩
    simp at h3

/-- The product of two of these hops, all projections zero. -/
def unevenSpace (hops : List ElHop) : Space :=
  ⟨[1, 1, 2, 2], [1, 1, 1, 1], [0, 0, 0, 0], [1, 1, 1, 3], [1, 1, -1, -1], 1, hopRecord PySet.listSet hops⟩

theorem uneven_product (x y : ElHop) (h : (x, y) = (⟨0, 2, 0⟩, ⟨1, 3, 1⟩) ∨ (x, y) = (⟨0, 3, 1⟩, ⟨1, 2, 0⟩)) :
    IsProduct PySet.listSet unevenDoublets [x, y] [] (unevenSpace [x, y]) := by
  have hfit : Fits (unevenSpace [x, y]) unevenDoublets := by
    refine ⟨⟨rfl, rfl, rfl, rfl⟩, rfl, rfl, ?_⟩
    intro k hk
    have hk : k < 4 := hk
    rw [fragOk_iff]
    unfold Room ProjIn
    simp only [unevenSpace]
    interval_cases k <;> decide
  rcases h with h | h <;>
  · obtain ⟨rfl, rfl⟩ := Prod.mk.inj h
    refine ⟨hfit, by decide, ?_, ?_, by simp, ?_, by simp [totalSpin, unevenSpace, unevenDoublets], rfl⟩
    · simp only [List.forall_mem_cons, List.not_mem_nil, false_imp_iff, implies_true, and_true]
      simp only [unevenSpace]
      decide
    · simp only [List.forall_mem_cons, List.not_mem_nil, false_imp_iff, implies_true, and_true]
      simp only [unevenSpace]
      decide
    · intro k hk
      rcases k with _ | _ | _ | _ | k
      · exact absurd (by decide) hk
      · exact absurd (by decide) hk
      · exact absurd (by decide) hk
      · exact absurd (by decide) hk
      · exact ⟨rfl, rfl⟩

/-- C114 fails: with four doublets, two rootspaces of the model space have the same quantum numbers in every fragment, and
the first fragment gives its electron to the third one in the first of them and to the fourth one in the other. Whatever the
transition density matrix of the two is, the block of the density matrix of the first fragment between the two sets of
vectors is zero. -/
theorem C114_density_violated :
    ∃ (ref : Space) (ch : Nat → Nat → Nat → Bool) (len : Vec → Option Nat) (x y : Vec),
      LassisInput PySet.listSet ch (fun _ _ => false) ref ∧ (∀ i a s side, (len (.hop i a s side)).isSome = ch i a s) ∧
      (∀ i d, (len (.flip i d)).isSome = false) ∧ x ∈ fbfSets ref.nfrag 0 ∧ y ∈ fbfSets ref.nfrag 0 ∧
      0 < setSize len x ∧ 0 < setSize len y ∧
      ∀ f h, CsfCounts f → SeparatesRecords PySet.listSet ref h →
        ∃ out, prepareModelStates f h PySet.listSet ch (fun _ _ => false) ref = .ok out ∧
          (∃ ix jx, Carries out 0 ix x ∧ Carries out 0 jx y ∧
            SameLocal ref.nfrag ((out.map (·.sp)).getD ix ref) ((out.map (·.sp)).getD jx ref)) ∧
          ∀ (sdm : Nat → Nat → Nat → Nat → Int) (a b : Nat), a < setSize len x → b < setSize len y →
            fbfDm1 PySet.listSet len ref (out.map (·.sp)) sdm 0 (firstFn len ref.nfrag 0 x + a)
              (firstFn len ref.nfrag 0 y + b) = 0 := by
  have hin := C111_low_spin PySet.listSet uneven_low
  have hmx : Vec.hop 0 2 0 0 ∈ fbfSets unevenDoublets.nfrag 0 := by decide
  have hmy : Vec.hop 0 3 1 0 ∈ fbfSets unevenDoublets.nfrag 0 := by decide
  refine ⟨unevenDoublets, unevenCh, unevenLen, .hop 0 2 0 0, .hop 0 3 1 0, hin, ?_, fun _ _ => rfl, hmx, hmy,
    by decide, by decide, fun f h hf hh => ?_⟩
  · intro i a s side
    unfold unevenLen
    by_cases hc : unevenCh i a s <;> simp [hc]
  have ho := pairOrder_listSet unevenDoublets.nfrag (by decide)
  obtain ⟨out, e, -, -, hs⟩ := C111_model_space_partial f hf hh ho hin
  refine ⟨out, e, ?_, ?_⟩
  · have find : ∀ x y : ElHop, ((x, y) = (⟨0, 2, 0⟩, ⟨1, 3, 1⟩) ∨ (x, y) = (⟨0, 3, 1⟩, ⟨1, 2, 0⟩)) → ∃ (ix : Nat) (t : Root), out[ix]? = some t ∧
        SameNumbers t.sp (unevenSpace [x, y]) ∧ t.sp.nelelas = unevenDoublets.nelelas ∧
        ∃ m, t.ci.getD x.src none = some (.hop x.src x.dst x.s 0, m) := by
      intro x y hxy
      have hhas : ∀ z ∈ [x, y], HasHop unevenCh unevenDoublets z := by
        rcases hxy with hxy | hxy <;>
        · obtain ⟨rfl, rfl⟩ := Prod.mk.inj hxy
          simp only [List.forall_mem_cons, List.not_mem_nil, false_imp_iff, implies_true, and_true]
          exact ⟨⟨by decide, by decide, by decide, by decide⟩, ⟨by decide, by decide, by decide, by decide⟩⟩
      have ht := uneven_product x y hxy
      obtain ⟨r, hr, hsr⟩ := C111_hops_complete f hf hh ho hin out e _ hhas _ ht
      obtain ⟨hops, flips, hx, hy, hp, -, hR⟩ := hs r hr
      have hperm := (product_inj ho hp ht (fun x hx' => (hx x hx').ranged) (fun x hx' => (hhas x hx').ranged)
        (fun y hy' => (hy y hy').2.1) (by simp) hsr).1
      obtain ⟨ix, hix⟩ := List.mem_iff_getElem?.mp hr
      exact ⟨ix, r, hix, hsr.1, hp.fits.elec, _, (hR.hop x (hperm.mem_iff.2 (by simp))).1⟩
    obtain ⟨ix, t, h1, h2, h3, m, h4⟩ := find ⟨0, 2, 0⟩ ⟨1, 3, 1⟩ (Or.inl rfl)
    obtain ⟨jx, t', h1', h2', h3', m', h4'⟩ := find ⟨0, 3, 1⟩ ⟨1, 2, 0⟩ (Or.inr rfl)
    refine ⟨ix, jx, ⟨t, m, h1, h4⟩, ⟨t', m', h1', h4'⟩, ?_⟩
    rw [spaceAt_eq h1, spaceAt_eq h1']
    intro k hk
    have hk4 : k < 4 := hk
    obtain ⟨n1, g1⟩ := h2
    obtain ⟨n2, g2⟩ := h2'
    obtain ⟨a1, a2, a3⟩ := g1 k (by rw [n1]; exact hk4)
    obtain ⟨b1, b2, b3⟩ := g2 k (by rw [n2]; exact hk4)
    have ee : ∀ a b, el (unevenSpace a).spins k = el (unevenSpace b).spins k ∧ el (unevenSpace a).smults k = el (unevenSpace b).smults k ∧
      el (unevenSpace a).charges k = el (unevenSpace b).charges k := fun a b => ⟨rfl, rfl, rfl⟩
    obtain ⟨e1, e2, e3⟩ := ee [⟨0, 2, 0⟩, ⟨1, 3, 1⟩] [⟨0, 3, 1⟩, ⟨1, 2, 0⟩]
    unfold neleca nelecb Space.nelec
    rw [h3, h3', a1, b1, a2, b2, a3, b3, e1, e2, e3]
    exact ⟨rfl, rfl, rfl⟩
  · intro sdm a b ha hb
    rw [fbfDm1_block PySet.listSet unevenLen unevenDoublets _ sdm 0 _ _ hmx hmy a b ha hb, if_neg]
    rw [mem_dmBlocks]
    simp

/-- Two doublets and a hop between them. -/
def pairDoublets : Space := ⟨[1, 1], [1, 1], [1, -1], [2, 2], [0, 0], 1, []⟩
def pairCh : Nat → Nat → Nat → Bool := fun i a s => decide (i = 0 ∧ a = 1 ∧ s = 0)
def pairLen : Vec → Option Nat
  | .hop i a s _ => if pairCh i a s then some 2 else none
  | _ => none

open Classical in
/-- The hypotheses are met: with two doublets and the hop from the first to the second, some rootspace carries the vectors of
the hop, and the density matrix of these vectors is the sum over such rootspaces. -/
example (sdm : Nat → Nat → Nat → Nat → Int) : ∃ h : List HashItem → Int, ∃ out,
    prepareModelStates demoCsf h PySet.listSet pairCh (fun _ _ => false) pairDoublets = .ok out ∧
    (∃ ix, Carries out 0 ix (.hop 0 1 0 0)) ∧
    fbfDm1 PySet.listSet pairLen pairDoublets (out.map (·.sp)) sdm 0 (firstFn pairLen 2 0 (.hop 0 1 0 0) + 0)
        (firstFn pairLen 2 0 (.hop 0 1 0 0) + 1) =
      ((List.range out.length).map fun ix => ((List.range out.length).map fun jx =>
        if Carries out 0 ix (.hop 0 1 0 0) ∧ Carries out 0 jx (.hop 0 1 0 0) ∧
          SameLocal 2 ((out.map (·.sp)).getD ix pairDoublets) ((out.map (·.sp)).getD jx pairDoublets)
        then sdm ix jx 0 1 else 0).sum).sum := by
  obtain ⟨h, hi⟩ := exists_injective_hash
  have hlow : LowSpinInput pairCh (fun _ _ => false) pairDoublets := by
    refine ⟨⟨⟨rfl, rfl, rfl, rfl⟩, rfl, rfl, ?_⟩, by decide, rfl, by decide, ?_, ?_⟩
    · intro k hk
      have hk : k < 2 := hk
      rw [fragOk_iff]
      unfold Room ProjIn
      interval_cases k <;> decide
    · rintro ⟨i, a, s⟩ ⟨h1, h2, h3, h4⟩
      simp only [pairCh, decide_eq_true_eq] at h4
      obtain ⟨rfl, rfl, rfl⟩ := h4
      unfold Room; decide
    · rintro ⟨i, d⟩ ⟨-, -, h3⟩
      simp at h3
  have hin := C111_low_spin PySet.listSet hlow
  have hs := separates_of_injective hi PySet.listSet pairDoublets
  have ho := pairOrder_listSet pairDoublets.nfrag (by decide)
  obtain ⟨out, e, -, -, hsound⟩ := C111_model_space_partial demoCsf demoCsf_counts hs ho hin
  have hhas : HasHop pairCh pairDoublets ⟨0, 1, 0⟩ := ⟨by decide, by decide, by decide, by decide⟩
  obtain ⟨t, ht⟩ := hin.hops [⟨0, 1, 0⟩] (by simpa using hhas) (by decide)
  obtain ⟨r, hr, hsr⟩ := C111_hops_complete demoCsf demoCsf_counts hs ho hin out e _ (by simpa using hhas) t ht
  obtain ⟨hops, flips, hx, hy, hp, -, hR⟩ := hsound r hr
  have := (product_inj ho hp ht (fun x hx' => (hx x hx').ranged) (by simpa using hhas.ranged) (fun y hy' => (hy y hy').2.1)
    (by simp) hsr).1
  rw [List.perm_singleton.mp this] at hR
  obtain ⟨n, hn⟩ := List.mem_iff_getElem?.mp hr
  refine ⟨h, out, e, ⟨n, r, _, hn, (hR.hop ⟨0, 1, 0⟩ (by simp)).1⟩, ?_⟩
  refine C114_density_partial demoCsf demoCsf_counts hs ho hin out e
    (fun i a hi ha => C112_order_small 2 (by decide) i a hi ha) pairLen (fun i a s side => ?_) (fun _ _ => rfl) 0
    (by decide) (fun ix jx i a j b s t side h1 h2 h3 => C114_density_few_fragments demoCsf demoCsf_counts hs ho hin out e
      (by decide) 0 (by decide) ix jx i a j b s t side h1 h2 h3) sdm (.hop 0 1 0 0) (.hop 0 1 0 0) (by decide) (by decide) 0 1 (by decide) (by decide)
  unfold pairLen
  by_cases hc : pairCh i a s <;> simp [hc]

end Verif.Props
