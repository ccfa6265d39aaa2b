import Verif.Lemmas.Chkfile
import Verif.Spec.Chkfile
/-!
# C41, C42: checkpoint files
-/
namespace Verif.Props
open Verif.Chkfile Verif.Spec.Chkfile
variable {V : Type}

/-- The state of the file after `n` operations of a LAS-type dump: the record is either untouched, or cannot be loaded,
or is complete. -/
theorem dumpLas_cut (len : V → Nat) (k : String) (hk : k ≠ "mol") (w : String) (kc ks kr : List String)
    (hnd : (kc ++ kr ++ w :: ks).Nodup)
    (hres : "frags_orbs" ∉ kc ++ kr ++ w :: ks ∧ "mo_coeff_orbsym" ∉ kc ++ kr ++ w :: ks ∧ "ci" ∉ kc ++ kr ++ w :: ks)
    (ow : Bool) (mol : V) (val : String → V) (fo : Option (List V)) (os : Option V) (ci : List (List V))
    (hci : ci ≠ []) (hpos : 0 < len (val w)) (hrow : ∀ r ∈ ci, r.length = len (val w))
    (hfo : ∀ l, fo = some l → l.length = ci.length) (m : Nat) (f : File V) (n : Nat) :
    ∃ f', run ((dumpLas k ow mol ⟨getSaveData kc (w :: ks) kr val, fo, os, ci⟩).take n) f = some f' ∧
      (∀ s r, s ≠ "mol" → s ≠ k → f' (.key s :: r) = f (.key s :: r)) ∧
      ((n < (dumpLas k ow mol ⟨getSaveData kc (w :: ks) kr val, fo, os, ci⟩).length ∧
          ((∀ r, f' (.key k :: r) = f (.key k :: r)) ∨ loadLas len f' k kc (w :: ks) kr ci.length m = none)) ∨
        ((dumpLas k ow mol ⟨getSaveData kc (w :: ks) kr val, fo, os, ci⟩).length ≤ n ∧
          loadLas len f' k kc (w :: ks) kr ci.length m = some (savedAttrs kc (w :: ks) kr val fo os, ci))) := by
  have hfst : (getSaveData kc (w :: ks) kr val).map Prod.fst = kc ++ kr ++ w :: ks := by
    unfold getSaveData
    rw [List.map_map]
    exact List.map_id _
  set A := opsAttrs k (getSaveData kc (w :: ks) kr val) fo os with hA
  have hdump : dumpLas k ow mol ⟨getSaveData kc (w :: ks) kr val, fo, os, ci⟩ =
      opsPre k ow mol ++ (FOp.group [.key k] :: (A ++ opsCi k ci)) := by
    unfold dumpLas
    rw [opsHead_eq]
    simp [A]
  rw [hdump]
  set L := FOp.group [.key k] :: (A ++ opsCi k ci) with hLdef
  have hI : ∀ op ∈ opsCi k ci, ∃ t rest e, op.item = some (.key k :: .key t :: rest, e) ∧ t ∈ ["ci"] :=
    fun op h => opsCi_item h
  have hL : L.Pairwise Rel := by
    refine record_pairwise k _ fo os (opsCi k ci) ["ci"] (by rw [hfst]; exact hnd) (by rw [hfst]; exact hres.1)
      (by rw [hfst]; exact hres.2.1) (opsCi_pairwise k ci) hI ?_
    intro t ht
    rw [List.mem_singleton] at ht
    subst ht
    rw [hfst]
    exact ⟨hres.2.2, by decide, by decide⟩
  have hin : ∀ op ∈ L, ∃ r e, op.item = some (.key k :: r, e) := by
    intro op hop
    rw [hLdef, List.mem_cons, List.mem_append] at hop
    rcases hop with rfl | h | h
    · exact ⟨[], .group, rfl⟩
    · obtain ⟨t, r, e, h, _⟩ := opsAttrs_item h; exact ⟨_, e, h⟩
    · obtain ⟨t, r, e, h, _⟩ := hI op h; exact ⟨_, e, h⟩
  obtain ⟨f', g1, g2, g3⟩ := record_cut k hk ow mol L hL (fun f hf => record_free k _ fo os _ _ hI f hf) hin f n
  refine ⟨f', g1, g2, ?_⟩
  rcases g3 with ⟨hn, g3⟩ | ⟨hn, g3, g4, g5⟩
  · left
    exact ⟨by rw [List.length_append]; omega, Or.inl g3⟩
  set j := n - (opsPre k ow mol).length with hj
  -- the CI group and the attributes once all attribute operations are done
  have hattr : A.length + 1 ≤ j → loadAttrs f' k kc (w :: ks) kr ci.length = some (savedAttrs kc (w :: ks) kr val fo os) := by
    intro hle
    apply attrs_of_run f' k val fo os kc (w :: ks) kr ci.length ["ci"] (opsCi k ci) (L.take j) hI
      ⟨hres.1, hres.2.1⟩ (by intro t ht; rw [List.mem_singleton] at ht; subst ht; exact ⟨by decide, by decide⟩) hfo ?_ ?_ g3 g4
    · intro op hop
      rw [hLdef]
      obtain ⟨j', hj'⟩ : ∃ j', j = j' + 1 := ⟨j - 1, by omega⟩
      rw [hj', List.take_succ_cons, List.mem_cons, List.take_append, List.mem_append, List.take_of_length_le (by omega)]
      exact Or.inr (Or.inl hop)
    · intro op hop
      have := List.mem_of_mem_take hop
      rw [hLdef, List.mem_cons, List.mem_append] at this
      exact this
  have hLlen : L.length = A.length + 1 + (opsCi k ci).length := by
    rw [hLdef, List.length_cons, List.length_append]; omega
  by_cases c1 : j ≤ A.length
  · left
    refine ⟨by rw [List.length_append, hLlen]; omega, Or.inr ?_⟩
    apply loadLas_none_of_ci
    intro m'
    have : f' [.key k, .key "ci"] = none := by
      apply g4
      intro op hop p e hi hpre
      have hmem : op = .group [.key k] ∨ op ∈ A := by
        rw [hLdef, ← List.cons_append, List.take_append, List.mem_append] at hop
        rcases hop with h | h
        · have := List.mem_of_mem_take h
          rwa [List.mem_cons] at this
        · rw [List.length_cons, Nat.sub_eq_zero_of_le (by omega)] at h
          simp at h
      rcases hmem with rfl | h
      · simp only [FOp.item, Option.some.injEq, Prod.mk.injEq] at hi
        rw [← hi.1] at hpre
        simp [List.cons_prefix_cons] at hpre
      · obtain ⟨t, rest, e', hi', hc⟩ := opsAttrs_item h
        rw [hi] at hi'
        simp only [Option.some.injEq, Prod.mk.injEq] at hi'
        rw [hi'.1] at hpre
        simp only [List.cons_prefix_cons, List.nil_prefix, and_true, true_and, Comp.key.injEq] at hpre
        rw [hfst] at hc
        subst hpre
        rcases hc with ⟨hc, _⟩ | hc | ⟨hc, _⟩
        · exact hres.2.2 hc
        · exact absurd hc (by decide)
        · exact absurd hc (by decide)
    unfold loadCi
    rw [this]
    rfl
  have hload : (f' [.key k]).isSome := by
    apply g5 (.group [.key k]) _ _ _ rfl _ (by simp) (List.prefix_refl _)
    rw [hLdef]
    obtain ⟨j', hj'⟩ : ∃ j', j = j' + 1 := ⟨j - 1, by omega⟩
    rw [hj', List.take_succ_cons]
    exact List.mem_cons_self
  obtain ⟨x, hx⟩ := Option.isSome_iff_exists.mp hload
  have heq : loadLas len f' k kc (w :: ks) kr ci.length m =
      (loadCi f' k ci.length (len (val w))).map (fun c => (savedAttrs kc (w :: ks) kr val fo os, c)) := by
    unfold loadLas
    rw [hattr (by omega), hx]
    simp only [savedAttrs, List.map_cons, Option.isNone_some, Bool.false_eq_true, if_false]
    cases hcc : loadCi f' k ci.length (len (val w)) <;> simp [hcc]
  rw [heq]
  obtain ⟨C, v, hC⟩ := opsCi_last k ci hci (len (val w)) hpos hrow
  by_cases c2 : j < L.length
  · left
    refine ⟨by rw [List.length_append]; omega, Or.inr ?_⟩
    have hsplit : L = (FOp.group [.key k] :: (A ++ C)) ++
        [FOp.put [.key k, .key "ci", .idx (ci.length - 1), .idx (len (val w) - 1)] v] := by
      rw [hLdef, hC]; simp
    have hnone : f' [.key k, .key "ci", .idx (ci.length - 1), .idx (len (val w) - 1)] = none := by
      apply g4
      intro op hop p e hi
      rw [hsplit, List.take_append_of_le_length (by
        rw [hsplit, List.length_append, List.length_singleton] at c2; omega)] at hop
      have hop' := List.mem_of_mem_take hop
      rw [hsplit, List.pairwise_append] at hL
      exact (hL.2.2 op hop' _ List.mem_cons_self p e _ _ hi rfl).1
    have : loadCi f' k ci.length (len (val w)) = none := by
      unfold loadCi
      split
      · rfl
      · apply mapM_none _ _ (ci.length - 1)
        · rw [List.mem_range]
          have := List.length_pos_iff.mpr hci
          omega
        · split
          · rfl
          · apply mapM_none _ _ (len (val w) - 1)
            · rw [List.mem_range]; omega
            · unfold getData; rw [hnone]
    rw [this]
    rfl
  · right
    refine ⟨by rw [List.length_append]; omega, ?_⟩
    rw [List.take_of_length_le (by omega)] at g3 g5
    have hmemCi : ∀ op ∈ opsCi k ci, op ∈ L := by
      intro op h; rw [hLdef, List.mem_cons, List.mem_append]; exact Or.inr (Or.inr h)
    rw [loadCi_full f' k ci (len (val w)) ?_ hrow ?_]
    · rfl
    · refine g5 _ (hmemCi _ (by rw [hC]; exact List.mem_append_right _ List.mem_cons_self)) _ _ rfl _ (by simp) ?_
      simp [List.cons_prefix_cons]
    · intro ri hri
      constructor
      · have : FOp.group [.key k, .key "ci", .idx ri.2] ∈ opsCi k ci := by
          unfold opsCi
          rw [List.mem_flatMap]
          exact ⟨ri, hri, List.mem_cons_self⟩
        rw [g3 _ (hmemCi _ this) _ _ rfl]
        rfl
      · intro vj hvj
        have : FOp.put [.key k, .key "ci", .idx ri.2, .idx vj.2] vj.1 ∈ opsCi k ci := by
          unfold opsCi
          rw [List.mem_flatMap]
          exact ⟨ri, hri, List.mem_cons_of_mem _ (List.mem_map_of_mem
            (f := fun vj : V × Nat => FOp.put [.key k, .key "ci", .idx ri.2, .idx vj.2] vj.1) hvj)⟩
        exact g3 _ (hmemCi _ this) _ _ rfl

theorem lasCalc_cut (len : V → Nat) (ow : Bool) (mol : V) (j : Job V) (nfrags : Nat) (h0 : 0 < nfrags)
    (hj : j.ok len nfrags) (m : Nat) (f : File V) (n : Nat) :
    ∃ f', run ((dumpLas "las" ow mol j.lasCalc).take n) f = some f' ∧
      (∀ s r, s ≠ "mol" → s ≠ "las" → f' (.key s :: r) = f (.key s :: r)) ∧
      ((n < (dumpLas "las" ow mol j.lasCalc).length ∧ ((∀ r, f' (.key "las" :: r) = f (.key "las" :: r)) ∨
          loadLas len f' "las" keysConfigLas keysSaLas keysResultsLas nfrags m = none)) ∨
        ((dumpLas "las" ow mol j.lasCalc).length ≤ n ∧
          loadLas len f' "las" keysConfigLas keysSaLas keysResultsLas nfrags m = some j.asLas)) := by
  obtain ⟨h1, h2, h3, h4⟩ := hj
  subst h1
  exact dumpLas_cut len "las" (by decide) "weights" keysConfigLas ["charges", "spins", "smults", "wfnsyms"] keysResultsLas
    (by decide) (by decide) ow mol j.val j.fragsOrbs j.orbsym j.ci (List.length_pos_iff.mp h0) h2 h3 h4 m f n

theorem lsiCalc_cut (len : V → Nat) (ow : Bool) (mol : V) (j : Job V) (nfrags : Nat) (h0 : 0 < nfrags)
    (hj : j.ok len nfrags) (m : Nat) (f : File V) (n : Nat) :
    ∃ f', run ((dumpLas "lsi" ow mol j.lsiCalc).take n) f = some f' ∧
      (∀ s r, s ≠ "mol" → s ≠ "lsi" → f' (.key s :: r) = f (.key s :: r)) ∧
      ((n < (dumpLas "lsi" ow mol j.lsiCalc).length ∧ ((∀ r, f' (.key "lsi" :: r) = f (.key "lsi" :: r)) ∨
          loadLas len f' "lsi" keysConfigLsi keysSaLas keysResultsLsi nfrags m = none)) ∨
        ((dumpLas "lsi" ow mol j.lsiCalc).length ≤ n ∧
          loadLas len f' "lsi" keysConfigLsi keysSaLas keysResultsLsi nfrags m = some j.asLsi)) := by
  obtain ⟨h1, h2, h3, h4⟩ := hj
  subst h1
  exact dumpLas_cut len "lsi" (by decide) "weights" keysConfigLsi ["charges", "spins", "smults", "wfnsyms"] keysResultsLsi
    (by decide) (by decide) ow mol j.val j.fragsOrbs j.orbsym j.ci (List.length_pos_iff.mp h0) h2 h3 h4 m f n

/-- **C41** (LASSCF). Whatever the file contained, a completed `dump_las` succeeds, and `load_las_` then gives back every
saved attribute, the ragged fragment orbitals, the symmetry tag and the CI vectors; records other than the geometry are
not touched. -/
theorem C41_las (len : V → Nat) (ow : Bool) (mol : V) (j : Job V) (nfrags : Nat) (h0 : 0 < nfrags)
    (hj : j.ok len nfrags) (m : Nat) (f : File V) :
    ∃ f', run (dumpLas "las" ow mol j.lasCalc) f = some f' ∧
      loadLas len f' "las" keysConfigLas keysSaLas keysResultsLas nfrags m = some j.asLas ∧
      ∀ s r, s ≠ "mol" → s ≠ "las" → f' (.key s :: r) = f (.key s :: r) := by
  obtain ⟨f', h1, h2, h3⟩ := lasCalc_cut len ow mol j nfrags h0 hj m f (dumpLas "las" ow mol j.lasCalc).length
  rw [List.take_length] at h1
  refine ⟨f', h1, ?_, h2⟩
  rcases h3 with h3 | h3
  · omega
  · exact h3.2

/-- **C41** (LASSI). The LAS and the LASSI records both round-trip. -/
theorem C41_lassi (len : V → Nat) (mol : V) (las lsi : Job V) (nfrags : Nat) (h0 : 0 < nfrags)
    (h1 : las.ok len nfrags) (h2 : lsi.ok len nfrags) (m : Nat) (f : File V) :
    ∃ f', run (dumpLsi mol las.lasCalc lsi.lsiCalc) f = some f' ∧ loadLsi len f' nfrags m = some (las.asLas, lsi.asLsi) := by
  obtain ⟨f1, a1, a2, _⟩ := C41_las len true mol las nfrags h0 h1 m f
  obtain ⟨f2, b1, b2, b3⟩ := lsiCalc_cut len true mol lsi nfrags h0 h2 m f1 (dumpLas "lsi" true mol lsi.lsiCalc).length
  rw [List.take_length] at b1
  refine ⟨f2, by rw [dumpLsi, run_append, a1, Option.bind_some, b1], ?_⟩
  have e2 : loadLas len f2 "lsi" keysConfigLsi keysSaLas keysResultsLsi nfrags m = some lsi.asLsi := by
    rcases b3 with b3 | b3
    · omega
    · exact b3.2
  have e1 : loadLas len f2 "las" keysConfigLas keysSaLas keysResultsLas nfrags m = some las.asLas := by
    rw [← a2]; exact loadLas_congr len (fun r => b2 "las" r (by decide) (by decide)) _ _ _ _ _
  unfold loadLsi
  rw [e1, e2]
  rfl

/-- **C41** (LASSIS). The LAS record, the LASSIS attributes and the spin-flip and charge-hop vectors round-trip, absent
(`None`) vectors included. -/
theorem C41_lassis (len : V → Nat) (mol : V) (las : Job V) (nfrags : Nat) (h0 : 0 < nfrags) (h1 : las.ok len nfrags)
    (val : String → V) (fo : Option (List V)) (os : Option V) (hfo : ∀ l, fo = some l → l.length = nfrags)
    (ciSf : Nat → Nat → Option V) (ciCh : Nat → Nat → Nat → Nat → Option V) (m : Nat) (f : File V) :
    ∃ f', run (dumpLsis mol las.lasCalc (getSaveData keysConfigLsi keysSaLas keysResultsLsis val) fo os nfrags ciSf ciCh) f =
        some f' ∧
      loadLsis len f' nfrags m = some (las.asLas, savedAttrs keysConfigLsi keysSaLas keysResultsLsis val fo os,
        (List.range nfrags).map (fun i => (List.range 2).map fun s => ciSf i s),
        (List.range nfrags).map fun i => (List.range nfrags).map fun a => (List.range 4).map fun s =>
          (List.range 2).map fun p => ciCh i a s p) := by
  obtain ⟨f1, a1, a2, _⟩ := C41_las len true mol las nfrags h0 h1 m f
  set A := opsAttrs "lsi" (getSaveData keysConfigLsi keysSaLas keysResultsLsis val) fo os with hA
  set T := opsLsisCi "lsi" nfrags ciSf ciCh with hT
  set L := FOp.group [.key "lsi"] :: (A ++ T) with hLdef
  have hfst : (getSaveData keysConfigLsi keysSaLas keysResultsLsis val).map Prod.fst =
      keysConfigLsi ++ keysResultsLsis ++ keysSaLas := by
    unfold getSaveData
    rw [List.map_map]
    exact List.map_id _
  have hI : ∀ op ∈ T, ∃ t rest e, op.item = some (.key "lsi" :: .key t :: rest, e) ∧ t ∈ ["ci_sf", "ci_ch"] :=
    fun op h => opsLsisCi_item h
  have hL : L.Pairwise Rel := by
    refine record_pairwise "lsi" _ fo os T ["ci_sf", "ci_ch"] (by rw [hfst]; decide) (by rw [hfst]; decide)
      (by rw [hfst]; decide) (opsLsisCi_pairwise _ _ _ _) hI ?_
    rw [hfst]
    decide
  have hin : ∀ op ∈ L, ∃ r e, op.item = some (.key "lsi" :: r, e) := by
    intro op hop
    rw [hLdef, List.mem_cons, List.mem_append] at hop
    rcases hop with rfl | h | h
    · exact ⟨[], .group, rfl⟩
    · obtain ⟨t, r, e, h, _⟩ := opsAttrs_item h; exact ⟨_, e, h⟩
    · obtain ⟨t, r, e, h, _⟩ := hI op h; exact ⟨_, e, h⟩
  obtain ⟨f', g1, g2, g3⟩ := record_cut "lsi" (by decide) true mol L hL (fun f hf => record_free "lsi" _ fo os _ _ hI f hf) hin
    f1 (opsPre "lsi" true mol ++ L).length
  rw [List.take_length] at g1
  have hrun : opsHead "lsi" true mol ++ A ++ T = opsPre "lsi" true mol ++ L := by
    rw [opsHead_eq, hLdef]; simp
  refine ⟨f', by rw [dumpLsis, run_append, a1, Option.bind_some, ← hA, ← hT, hrun, g1], ?_⟩
  rcases g3 with ⟨g3, _⟩ | ⟨_, g3, g4, g5⟩
  · rw [List.length_append] at g3; omega
  rw [List.take_of_length_le (by rw [List.length_append]; omega)] at g3 g4 g5
  have e1 : loadLas len f' "las" keysConfigLas keysSaLas keysResultsLas nfrags m = some las.asLas := by
    rw [← a2]; exact loadLas_congr len (fun r => g2 "las" r (by decide) (by decide)) _ _ _ _ _
  have hcov : ∀ op ∈ L, op = .group [.key "lsi"] ∨ op ∈ A ∨ op ∈ T := by
    intro op h; rw [hLdef, List.mem_cons, List.mem_append] at h; exact h
  have hAL : ∀ op ∈ A, op ∈ L := by
    intro op h; rw [hLdef, List.mem_cons, List.mem_append]; exact Or.inr (Or.inl h)
  have hTL : ∀ op ∈ T, op ∈ L := by
    intro op h; rw [hLdef, List.mem_cons, List.mem_append]; exact Or.inr (Or.inr h)
  have e2 : loadAttrs f' "lsi" keysConfigLsi keysSaLas keysResultsLsis nfrags =
      some (savedAttrs keysConfigLsi keysSaLas keysResultsLsis val fo os) :=
    attrs_of_run f' "lsi" val fo os keysConfigLsi keysSaLas keysResultsLsis nfrags ["ci_sf", "ci_ch"] T L hI
      (by decide) (by decide) hfo hAL hcov g3 g4
  have e3 := loadLsisCi_full f' "lsi" nfrags h0 ciSf ciCh (fun op h => g3 op (hTL op h)) (by
    intro t r ht hno
    apply g4
    intro op hop p e hi hpre
    rcases hcov op hop with rfl | h | h
    · simp only [FOp.item, Option.some.injEq, Prod.mk.injEq] at hi
      rw [← hi.1] at hpre
      simp [List.cons_prefix_cons] at hpre
    · obtain ⟨t', rest, e', hi', hc⟩ := opsAttrs_item h
      rw [hi] at hi'
      simp only [Option.some.injEq, Prod.mk.injEq] at hi'
      rw [hi'.1] at hpre
      simp only [List.cons_prefix_cons, true_and, Comp.key.injEq] at hpre
      rw [hfst] at hc
      obtain ⟨rfl, _⟩ := hpre
      rcases ht with rfl | rfl
      · rcases hc with ⟨hc, _⟩ | hc | ⟨hc, _⟩ <;> exact absurd hc (by decide)
      · rcases hc with ⟨hc, _⟩ | hc | ⟨hc, _⟩ <;> exact absurd hc (by decide)
    · exact hno op h p e hi hpre)
  have e4 : f' [.key "lsi"] = some .group := g3 (.group [.key "lsi"]) (by rw [hLdef]; exact List.mem_cons_self) _ _ rfl
  unfold loadLsis
  rw [e1, e2, e3, e4]
  rfl

/-- **C42** (LASSCF). Kill `dump_las` after any number of file operations: a later load fails, or gives what the file
held before, or gives the new calculation, and the latter only if the dump had been completed. -/
theorem C42_las (len : V → Nat) (ow : Bool) (mol : V) (j : Job V) (nfrags : Nat) (h0 : 0 < nfrags)
    (hj : j.ok len nfrags) (m : Nat) (f : File V) (n : Nat) :
    ∃ f', run ((dumpLas "las" ow mol j.lasCalc).take n) f = some f' ∧
      (loadLas len f' "las" keysConfigLas keysSaLas keysResultsLas nfrags m = none ∨
        loadLas len f' "las" keysConfigLas keysSaLas keysResultsLas nfrags m =
          loadLas len f "las" keysConfigLas keysSaLas keysResultsLas nfrags m ∨
        ((dumpLas "las" ow mol j.lasCalc).length ≤ n ∧
          loadLas len f' "las" keysConfigLas keysSaLas keysResultsLas nfrags m = some j.asLas)) := by
  obtain ⟨f', h1, _, h3⟩ := lasCalc_cut len ow mol j nfrags h0 hj m f n
  refine ⟨f', h1, ?_⟩
  rcases h3 with ⟨_, h3 | h3⟩ | h3
  · exact Or.inr (Or.inl (loadLas_congr len h3 _ _ _ _ _))
  · exact Or.inl h3
  · exact Or.inr (Or.inr h3)

/-- **C42** (LASSI), the part that holds: after any crash, each of the two records is missing or entirely one of the two
saved ones. Missing: that they belong to the same calculation, see `C42_lassi_violated`. -/
theorem C42_lassi_partial (len : V → Nat) (mol : V) (las lsi : Job V) (nfrags : Nat) (h0 : 0 < nfrags)
    (h1 : las.ok len nfrags) (h2 : lsi.ok len nfrags) (m : Nat) (f : File V) (n : Nat) (oldLas oldLsi : Attrs V × List (List V))
    (hf : loadLsi len f nfrags m = some (oldLas, oldLsi)) :
    ∃ f', run ((dumpLsi mol las.lasCalc lsi.lsiCalc).take n) f = some f' ∧
      (loadLsi len f' nfrags m = none ∨ loadLsi len f' nfrags m = some (oldLas, oldLsi) ∨
        loadLsi len f' nfrags m = some (las.asLas, oldLsi) ∨ loadLsi len f' nfrags m = some (las.asLas, lsi.asLsi)) := by
  have hf1 : loadLas len f "las" keysConfigLas keysSaLas keysResultsLas nfrags m = some oldLas ∧
      loadLas len f "lsi" keysConfigLsi keysSaLas keysResultsLsi nfrags m = some oldLsi := by
    unfold loadLsi at hf
    cases hx : loadLas len f "las" keysConfigLas keysSaLas keysResultsLas nfrags m with
    | none => rw [hx] at hf; simp at hf
    | some x =>
      cases hy : loadLas len f "lsi" keysConfigLsi keysSaLas keysResultsLsi nfrags m with
      | none => rw [hx, hy] at hf; simp at hf
      | some y => rw [hx, hy] at hf; simp at hf; rw [hf.1, hf.2]; exact ⟨rfl, rfl⟩
  have comb : ∀ (g : File V) (a b : Option (Attrs V × List (List V))),
      loadLas len g "las" keysConfigLas keysSaLas keysResultsLas nfrags m = a →
      loadLas len g "lsi" keysConfigLsi keysSaLas keysResultsLsi nfrags m = b →
      loadLsi len g nfrags m = a.bind (fun a => b.map (fun b => (a, b))) := by
    intro g a b ha hb
    unfold loadLsi
    rw [ha, hb]
    cases a <;> cases b <;> rfl
  obtain ⟨f1, a1, a2, a3⟩ := lasCalc_cut len true mol las nfrags h0 h1 m f n
  obtain ⟨f2, b1, b2, b3⟩ := lsiCalc_cut len true mol lsi nfrags h0 h2 m f1 (n - (dumpLas "las" true mol las.lasCalc).length)
  refine ⟨f2, by rw [dumpLsi, List.take_append, run_append, a1]; exact b1, ?_⟩
  have l1 : loadLas len f1 "lsi" keysConfigLsi keysSaLas keysResultsLsi nfrags m = some oldLsi := by
    rw [← hf1.2]; exact loadLas_congr len (fun r => a2 "lsi" r (by decide) (by decide)) _ _ _ _ _
  have l2 : loadLas len f2 "las" keysConfigLas keysSaLas keysResultsLas nfrags m =
      loadLas len f1 "las" keysConfigLas keysSaLas keysResultsLas nfrags m :=
    loadLas_congr len (fun r => b2 "las" r (by decide) (by decide)) _ _ _ _ _
  rcases a3 with ⟨hn, a3⟩ | ⟨hn, a3⟩
  · have hb : loadLas len f2 "lsi" keysConfigLsi keysSaLas keysResultsLsi nfrags m = some oldLsi := by
      rw [Nat.sub_eq_zero_of_le (by omega)] at b1
      rw [List.take_zero] at b1
      injection b1 with b1
      rw [← b1, l1]
    rcases a3 with a3 | a3
    · right; left
      rw [comb f2 (some oldLas) (some oldLsi) (by rw [l2, ← hf1.1]; exact loadLas_congr len a3 _ _ _ _ _) hb]
      rfl
    · left
      rw [comb f2 none (some oldLsi) (by rw [l2, a3]) hb]
      rfl
  · rw [a3] at l2
    rcases b3 with ⟨_, b3 | b3⟩ | ⟨_, b3⟩
    · right; right; left
      rw [comb f2 (some las.asLas) (some oldLsi) l2 (by rw [← l1]; exact loadLas_congr len b3 _ _ _ _ _)]
      rfl
    · left
      rw [comb f2 (some las.asLas) none l2 b3]
      rfl
    · right; right; right
      rw [comb f2 (some las.asLas) (some lsi.asLsi) l2 b3]
      rfl

/-- For any two calculations there is a crash point at which the file loads as a mixture of the two. -/
theorem lassi_mixture (len : V → Nat) (mol : V) (las lsi las' lsi' : Job V) (nfrags : Nat) (h0 : 0 < nfrags)
    (h1 : las.ok len nfrags) (h2 : lsi.ok len nfrags) (h3 : las'.ok len nfrags) (m : Nat) (f : File V) :
    ∃ n f1 f2, run (dumpLsi mol las.lasCalc lsi.lsiCalc) f = some f1 ∧
      run ((dumpLsi mol las'.lasCalc lsi'.lsiCalc).take n) f1 = some f2 ∧
      loadLsi len f2 nfrags m = some (las'.asLas, lsi.asLsi) := by
  obtain ⟨f1, a1, a2⟩ := C41_lassi len mol las lsi nfrags h0 h1 h2 m f
  obtain ⟨f2, b1, b2, b3⟩ := C41_las len true mol las' nfrags h0 h3 m f1
  refine ⟨(dumpLas "las" true mol las'.lasCalc).length, f1, f2, a1, ?_, ?_⟩
  · rw [dumpLsi, List.take_left]; exact b1
  · have hl : loadLas len f1 "lsi" keysConfigLsi keysSaLas keysResultsLsi nfrags m = some lsi.asLsi := by
      unfold loadLsi at a2
      cases hx : loadLas len f1 "las" keysConfigLas keysSaLas keysResultsLas nfrags m with
      | none => rw [hx] at a2; simp at a2
      | some x =>
        cases hy : loadLas len f1 "lsi" keysConfigLsi keysSaLas keysResultsLsi nfrags m with
        | none => rw [hx, hy] at a2; simp at a2
        | some y => rw [hx, hy] at a2; simp at a2; rw [a2.2]
    unfold loadLsi
    rw [b2, show loadLas len f2 "lsi" keysConfigLsi keysSaLas keysResultsLsi nfrags m = some lsi.asLsi from by
      rw [← hl]; exact loadLas_congr len (fun r => b3 "lsi" r (by decide) (by decide)) _ _ _ _ _]
    rfl

/-- **C42** fails for LASSI: the LAS and the LASSI record are replaced one after the other, and a crash between the two
leaves the new LAS with the old LASSI results, which load without error. -/
theorem C42_lassi_violated : ¬ ∀ (las lsi las' lsi' : Job Nat), las.ok (fun _ => 1) 1 → lsi.ok (fun _ => 1) 1 →
    las'.ok (fun _ => 1) 1 → lsi'.ok (fun _ => 1) 1 → ∀ (n : Nat) (f f1 f2 : File Nat),
      run (dumpLsi 0 las.lasCalc lsi.lsiCalc) f = some f1 →
      run ((dumpLsi 0 las'.lasCalc lsi'.lsiCalc).take n) f1 = some f2 →
      loadLsi (fun _ => 1) f2 1 1 = none ∨ loadLsi (fun _ => 1) f2 1 1 = some (las.asLas, lsi.asLsi) ∨
        loadLsi (fun _ => 1) f2 1 1 = some (las'.asLas, lsi'.asLsi) := by
  intro H
  have ok : ∀ x : Nat, Job.ok (fun _ => 1) 1 ⟨fun _ => x, none, none, [[x]]⟩ := by
    intro x; refine ⟨rfl, Nat.one_pos, ?_, by simp⟩
    intro r hr; simp at hr; subst hr; rfl
  obtain ⟨n, f1, f2, e1, e2, e3⟩ := lassi_mixture (fun _ => 1) 0 ⟨fun _ => 0, none, none, [[0]]⟩ ⟨fun _ => 0, none, none, [[0]]⟩
    ⟨fun _ => 1, none, none, [[1]]⟩ ⟨fun _ => 1, none, none, [[1]]⟩ 1 (by decide) (ok 0) (ok 0) (ok 1) 1 (fun _ => none)
  have := H _ _ _ _ (ok 0) (ok 0) (ok 1) (ok 1) n _ f1 f2 e1 e2
  rw [e3] at this
  revert this
  simp [Job.asLas, Job.asLsi]

/-- **C42** fails for LASSIS in a second way: a vector not yet written when the process was killed loads as `None`, a
legal value meaning that the excitation does not exist, without error. -/
theorem C42_lassis_violated : ¬ ∀ (las : Job Nat) (val : String → Nat) (sf : Nat → Nat → Option Nat)
    (ch : Nat → Nat → Nat → Nat → Option Nat), las.ok (fun _ => 1) 1 → ∀ (n : Nat) (f' : File Nat),
      n < (dumpLsis 0 las.lasCalc (getSaveData keysConfigLsi keysSaLas keysResultsLsis val) none none 1 sf ch).length →
      run ((dumpLsis 0 las.lasCalc (getSaveData keysConfigLsi keysSaLas keysResultsLsis val) none none 1 sf ch).take n)
        (fun _ => none) = some f' →
      loadLsis (fun _ => 1) f' 1 1 = none := by
  intro H
  have ok : Job.ok (fun _ => 1) 1 (⟨fun _ => 0, none, none, [[0]]⟩ : Job Nat) := by
    refine ⟨rfl, Nat.one_pos, ?_, by simp⟩
    intro r hr; simp at hr; subst hr; rfl
  obtain ⟨f', e1, e2⟩ := C41_lassis (fun _ => 1) 0 ⟨fun _ => 0, none, none, [[0]]⟩ 1 Nat.one_pos ok (fun _ => 0) none none
    (by simp) (fun _ _ => none) (fun _ _ s p => if s = 3 ∧ p = 1 then none else some 7) 1 (fun _ => none)
  have hlist : (dumpLsis 0 (Job.lasCalc (⟨fun _ => 0, none, none, [[0]]⟩ : Job Nat))
      (getSaveData keysConfigLsi keysSaLas keysResultsLsis (fun _ => 0)) none none 1 (fun _ _ => none)
      (fun _ _ s p => if s = 3 ∧ p = 1 then none else some 7)) =
      (dumpLsis 0 (Job.lasCalc (⟨fun _ => 0, none, none, [[0]]⟩ : Job Nat))
        (getSaveData keysConfigLsi keysSaLas keysResultsLsis (fun _ => 0)) none none 1 (fun _ _ => none)
        (fun _ _ _ _ => some 7)).take ((dumpLsis 0 (Job.lasCalc (⟨fun _ => 0, none, none, [[0]]⟩ : Job Nat))
        (getSaveData keysConfigLsi keysSaLas keysResultsLsis (fun _ => 0)) none none 1 (fun _ _ => none)
        (fun _ _ _ _ => some 7)).length - 1) := rfl
  rw [hlist] at e1
  have := H _ _ _ _ ok _ f' (Nat.sub_one_lt (by decide)) e1
  rw [e2] at this
  exact absurd this (by simp)

/-- Non-vacuity: two fragments, two roots, ragged fragment orbitals and a symmetry tag, on a file with older content. -/
example : Job.ok (fun (w : List Nat) => w.length) 2
    ⟨fun s => if s = "weights" then [1, 1] else [5], some [[0], [1, 2]], some [7], [[[1], [2]], [[3, 4], [5, 6]]]⟩ := by
  refine ⟨rfl, by decide, ?_, ?_⟩
  · intro r hr; simp at hr; rcases hr with rfl | rfl <;> rfl
  · intro l hl; simp at hl; subst hl; rfl

end Verif.Props
