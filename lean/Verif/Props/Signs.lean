import Verif.Lemmas.Signs
/-!
# Properties C01 - C04: fermion signs
-/
namespace Verif.Props
open List Verif.Spec Verif Verif.Signs

/-- **C01.** For equally long electron-count lists `fermion_spin_shuffle` returns a sign, and it is
the sign of *every* sequence of anticommutations that turns the fragment-interleaved operator product
into the spin-separated one (and such a sequence exists). -/
theorem C01_spin_shuffle_sign (na nb : List Nat) (h : na.length = nb.length) :
    ∃ sgn, fermionSpinShuffle na nb = some sgn ∧
      IsReorderSign (interleavedWord na nb) (spinSeparatedWord na nb) sgn := by
  refine ⟨_, by rw [fermionSpinShuffle, if_pos h], ?_⟩
  have := swaps_spin (fun f => na.getD f 0) (fun f => nb.getD f 0) na.length
  rw [← spinShufflePerms_eq na nb h] at this
  exact IsReorderSign.of_path (nodup_interleaved na nb) this

/-- **C01** (error branch): lists of different length are rejected. -/
theorem C01_spin_shuffle_rejects (na nb : List Nat) (h : na.length ≠ nb.length) :
    fermionSpinShuffle na nb = none := by
  rw [fermionSpinShuffle, if_neg h]

example : fermionSpinShuffle [1, 2, 3] [1, 1, 2] = some (-1) ∧
    ([1, 2, 3] : List Nat).length = [1, 1, 2].length := by decide

/-- **C02** (partial). If every listed fragment index is below 8 (so that the iteration order of the
CPython set is ascending) the result is the sign of every reordering that gathers the listed
fragments.  Missing: fragment indices of 8 and above, for which the claim is false
(`C02_frag_shuffle_violated`). -/
theorem C02_frag_shuffle_sign_partial (nelec frags : List Nat)
    (hr : ∀ f ∈ frags, f < nelec.length) (h8 : ∀ f ∈ frags, f < 8) :
    IsReorderSign (fragWord nelec (descending nelec.length))
      (fragWord nelec (gatheredFrags nelec.length (fun f => decide (f ∈ frags))))
      (fermionFragShuffle nelec frags) := by
  unfold fermionFragShuffle
  rw [listSet_small frags nelec.length h8 hr]
  exact fragShuffle_sorted nelec nelec.length (fun f => decide (f ∈ frags))

example : fermionFragShuffle [1, 1, 1, 1, 1] [4, 0, 2] = -1 ∧
    (∀ f ∈ [4, 0, 2], f < ([1, 1, 1, 1, 1] : List Nat).length) ∧ (∀ f ∈ [4, 0, 2], f < 8) := by
  decide +kernel

/-- **C02** (any number of fragments): the loop itself is right for every ascending fragment list, so
the only thing that can go wrong is the order in which the set is iterated. -/
theorem C02_frag_shuffle_sign_of_ascending (nelec frags : List Nat)
    (hset : PySet.listSet frags =
      (List.range nelec.length).filter (fun f => decide (f ∈ frags))) :
    IsReorderSign (fragWord nelec (descending nelec.length))
      (fragWord nelec (gatheredFrags nelec.length (fun f => decide (f ∈ frags))))
      (fermionFragShuffle nelec frags) := by
  unfold fermionFragShuffle
  rw [hset]
  exact fragShuffle_sorted nelec nelec.length (fun f => decide (f ∈ frags))

example : PySet.listSet [9, 10, 9] =
    (List.range ([1, 1, 1, 1, 1, 1, 1, 1, 1, 1, 2] : List Nat).length).filter
      (fun f => decide (f ∈ [9, 10, 9])) := by decide +kernel

/-- **C02** is false for nine or more fragments: the full statement (without the bound 8) fails for
fragments 1 and 8, because the set {1, 8} is iterated as 8, 1. -/
theorem C02_frag_shuffle_violated :
    ¬ ∀ (nelec frags : List Nat), (∀ f ∈ frags, f < nelec.length) →
      IsReorderSign (fragWord nelec (descending nelec.length))
        (fragWord nelec (gatheredFrags nelec.length (fun f => decide (f ∈ frags))))
        (fermionFragShuffle nelec frags) := by
  intro h
  have h1 := h [1, 1, 1, 0, 0, 0, 0, 0, 1] [1, 8] (by decide)
  have h2 := fragShuffle_sorted [1, 1, 1, 0, 0, 0, 0, 0, 1] 9 (fun f => decide (f ∈ [1, 8]))
  obtain ⟨⟨n, hn⟩, h1'⟩ := h1
  have e1 := h1' n hn
  have e2 := h2.2 n hn
  have : fermionFragShuffle [1, 1, 1, 0, 0, 0, 0, 0, 1] [1, 8] =
      fragShuffleOf [1, 1, 1, 0, 0, 0, 0, 0, 1]
        ((List.range 9).filter (fun f => decide (f ∈ [1, 8]))) := by rw [e1, e2]
  revert this
  decide +kernel

/-- Operators of the listed fragments, highest fragment first, with a destruction operator of
fragment `i` in front. -/
def desBefore (nelec : List Nat) (p : Nat → Bool) (i : Nat) : List Op :=
  ⟨false, i, true, 0⟩ :: fragWord nelec ((descending nelec.length).filter p)

/-- The same product with the destruction operator moved in front of the block of fragment `i`. -/
def desAfter (nelec : List Nat) (p : Nat → Bool) (i : Nat) : List Op :=
  fragWord nelec ((descending nelec.length).filter (fun f => p f && decide (i < f))) ++
  ⟨false, i, true, 0⟩ ::
  fragWord nelec ((descending nelec.length).filter (fun f => p f && decide (f ≤ i)))

/-- **C03** for any ascending iteration order. -/
theorem C03_des_shuffle_sign_of_ascending (nelec frags : List Nat) (i : Nat) (hi : i ∈ frags)
    (hr : ∀ f ∈ frags, f < nelec.length)
    (hset : PySet.listSet frags =
      (List.range nelec.length).filter (fun f => decide (f ∈ frags))) :
    ∃ sgn, fermionDesShuffle nelec frags i = some sgn ∧
      IsReorderSign (desBefore nelec (fun f => decide (f ∈ frags)) i)
        (desAfter nelec (fun f => decide (f ∈ frags)) i) sgn := by
  refine ⟨_, by rw [fermionDesShuffle, if_pos hi, hset], ?_⟩
  rw [← List.filter_reverse]
  change IsReorderSign _ _ (desShuffleOf nelec ((descending nelec.length).filter _) i)
  exact desShuffle_sorted nelec nelec.length (fun f => decide (f ∈ frags)) i (hr i hi)
    (by simpa using hi)

/-- **C03** (partial). If every listed fragment index is below 8, `fermion_des_shuffle` returns the
sign of every sequence of anticommutations that moves the destruction operator of fragment `i` past the
listed fragments above it.  Missing: indices of 8 and above (`C03_des_shuffle_violated`). -/
theorem C03_des_shuffle_sign_partial (nelec frags : List Nat) (i : Nat) (hi : i ∈ frags)
    (hr : ∀ f ∈ frags, f < nelec.length) (h8 : ∀ f ∈ frags, f < 8) :
    ∃ sgn, fermionDesShuffle nelec frags i = some sgn ∧
      IsReorderSign (desBefore nelec (fun f => decide (f ∈ frags)) i)
        (desAfter nelec (fun f => decide (f ∈ frags)) i) sgn :=
  C03_des_shuffle_sign_of_ascending nelec frags i hi hr (listSet_small frags nelec.length h8 hr)

example : fermionDesShuffle [2, 1, 3, 1] [3, 1, 2] 1 = some 1 ∧
    fermionDesShuffle [2, 1, 3, 2] [3, 1, 2] 1 = some (-1) ∧ 1 ∈ [3, 1, 2] := by decide +kernel

/-- **C03** (error branch): a fragment that is not listed is rejected. -/
theorem C03_des_shuffle_rejects (nelec frags : List Nat) (i : Nat) (hi : i ∉ frags) :
    fermionDesShuffle nelec frags i = none := by
  rw [fermionDesShuffle, if_neg hi]

/-- **C03** is false for nine or more fragments. -/
theorem C03_des_shuffle_violated :
    ¬ ∀ (nelec frags : List Nat) (i : Nat), i ∈ frags → (∀ f ∈ frags, f < nelec.length) →
      ∃ sgn, fermionDesShuffle nelec frags i = some sgn ∧
        IsReorderSign (desBefore nelec (fun f => decide (f ∈ frags)) i)
          (desAfter nelec (fun f => decide (f ∈ frags)) i) sgn := by
  intro h
  obtain ⟨sgn, hs, h1⟩ := h [1, 1, 1, 0, 0, 0, 0, 0, 1] [1, 8] 1 (by decide) (by decide)
  have h2 := desShuffle_sorted [1, 1, 1, 0, 0, 0, 0, 0, 1] 9 (fun f => decide (f ∈ [1, 8])) 1
    (by decide) (by decide)
  obtain ⟨⟨n, hn⟩, h1'⟩ := h1
  have e1 := h1' n hn
  have e2 := h2.2 n hn
  rw [e1, ← e2] at hs
  revert hs
  decide +kernel

/-- **C04.** Every entry of the hopping table is the difference of occupations of the two rootspaces
(so ket occupation plus hop is the bra occupation); hence the table is antisymmetric, vanishes on the
diagonal and is additive. -/
theorem C04_hopping_index (nelec : List (List (Int × Int))) (f s k l : Nat)
    (hf : f < nelec.length) (hs : s < 2) (hk : k < nelec[f].length) (hl : l < nelec[f].length) :
    let H := fun k l => (((lstHoppingIndex nelec)[f]?.bind (·[s]?)).bind (·[k]?)).bind (·[l]?)
    let occ := fun (r : Nat) => (nelec[f][r]?).map (fun (x : Int × Int) => if s = 0 then x.1 else x.2)
    (∃ h ob ok, H k l = some h ∧ occ k = some ob ∧ occ l = some ok ∧ ok + h = ob) ∧
    (∀ h, H k l = some h → H l k = some (-h)) ∧
    H k k = some 0 ∧
    (∀ m, m < nelec[f].length → ∀ h1 h2, H k l = some h1 → H l m = some h2 →
      H k m = some (h1 + h2)) := by
  intro H occ
  have hH : ∀ (a b : Nat) (ha : a < nelec[f].length) (hb : b < nelec[f].length), H a b = some
      ((if s = 0 then nelec[f][a].1 else nelec[f][a].2) -
       (if s = 0 then nelec[f][b].1 else nelec[f][b].2)) := by
    intro a b ha hb
    simp only [H, lstHoppingIndex]
    match s, hs with
    | 0, _ => simp [hf, ha, hb]
    | 1, _ => simp [hf, ha, hb]
  have hocc : ∀ (a : Nat) (ha : a < nelec[f].length), occ a = some
      (if s = 0 then nelec[f][a].1 else nelec[f][a].2) := by
    intro a ha
    simp [occ, ha]
  refine ⟨⟨_, _, _, hH k l hk hl, hocc k hk, hocc l hl, by omega⟩, ?_, ?_, ?_⟩
  · intro h hh
    rw [hH k l hk hl] at hh
    rw [hH l k hl hk]
    simp only [Option.some.injEq] at hh ⊢
    omega
  · rw [hH k k hk hk]; simp
  · intro m hm h1 h2 e1 e2
    rw [hH k l hk hl] at e1
    rw [hH l m hl hm] at e2
    rw [hH k m hk hm]
    simp only [Option.some.injEq] at e1 e2 ⊢
    omega

example : lstHoppingIndex [[(1, 0), (2, 1)], [(1, 1), (0, 0)]] =
    [[[[0, -1], [1, 0]], [[0, -1], [1, 0]]], [[[0, 1], [-1, 0]], [[0, 1], [-1, 0]]]] := by decide

end Verif.Props
