import Verif.Lemmas.HsiPut
/-!
# Lemmas: the operators of the rows, and the product with a vector
-/
namespace Verif.Lstdm
open Verif.Spec Verif.Spec.Tdm Verif.Spec.Lstdm Verif.Signs Verif.Exc Verif.Addr Verif.Radix Verif.Props

variable {K : Type} [Field K] [DecidableEq K]
namespace Kern
variable {k : Kern K}

section
variable (hK : Consistent k) (hH : NoCollision k) {tab : List ExcRow} {u : ExcRow} (hu : k.Uniq tab u)
variable {v : Nat → Nat → Vec K} {H : Ham K} (hD : Describes k.toLstdm v) (hHs : H.Sym) (h2 : (2 : K) ≠ 0) (h8 : k.nlas.length ≤ 8)

include hK hH hu h8 in
theorem fullTerm_ok (val : Nat → Nat → Lstdm.Row → Option K)
    (hval : ∀ b c, k.rootOf b = u.1.1 → k.rootOf c = u.1.2 → ∃ z, val b c u.2 = some z) :
    ∃ op, k.fullTerm u (fun b c => val b c u.2) = some op ∧ k.OpOk val u op := by
  have hC := cols_of hK
  have hs := fit_self hK hH hu
  have hinv := inv_lt hK hH hu
  obtain ⟨hN, hm⟩ := listSet_mem h8 u.2.inv hinv
  have hlt : ∀ f ∈ PySet.listSet u.2.inv, f < k.nlas.length := fun f hf => hinv f ((hm f).mp hf)
  set I := PySet.listSet u.2.inv with hI
  set A := u.1.1
  set B := u.1.2
  have hc : canonical u.2.axes = I.reverse := canonical_eq h8 u.2 hinv
  have hnb : k.lrProd A I = (k.colOf I A).prod := rfl
  have hnk : k.lrProd B I = (k.colOf I B).prod := rfl
  have hpos : 0 < (k.colOf I B).prod := prod_pos' _ fun a ha => by
    obtain ⟨f, hf, rfl⟩ := List.mem_map.mp ha
    exact hC.pos B hs.lg f (hlt f hf)
  have hA : ∀ P < (k.colOf I A).prod, k.flatState A I.reverse P = k.adr A (k.dig I A P) := fun P hP => flatState_eq hC A hs.lb I hN hlt P hP
  have hB : ∀ P < (k.colOf I B).prod, k.flatState B I.reverse P = k.adr B (k.dig I B P) := fun P hP => flatState_eq hC B hs.lg I hN hlt P hP
  have hv : ∀ P < (k.colOf I A).prod, ∀ q < (k.colOf I B).prod, ∃ z, val (k.adr A (k.dig I A P)) (k.adr B (k.dig I B q)) u.2 = some z :=
    fun P hP q hq => hval _ _ (rootOf_adr hC A hs.lb _ (fun f hf => hdig_all hC I A P hs.lb hP f hf))
      (rootOf_adr hC B hs.lg _ (fun f hf => hdig_all hC I B q hs.lg hq f hf))
  set nk := (k.colOf I B).prod with hnk'
  set nb := (k.colOf I A).prod with hnb'
  set ls := (List.range (nb * nk)).map (fun t => (val (k.adr A (k.dig I A (t / nk))) (k.adr B (k.dig I B (t % nk))) u.2).getD 0) with hls
  have hmap : (List.range (nb * nk)).mapM (fun t => val (k.flatState A I.reverse (t / nk)) (k.flatState B I.reverse (t % nk)) u.2) = some ls := by
    refine mapM_some' _ _ _ fun t ht => ?_
    rw [List.mem_range] at ht
    have h1 : t / nk < nb := (Nat.div_lt_iff_lt_mul hpos).mpr ht
    have h3 : t % nk < nk := Nat.mod_lt _ hpos
    obtain ⟨z, hz⟩ := hv _ h1 _ h3
    rw [hA _ h1, hB _ h3, hz]; rfl
  have hg : ∀ P < nb, ∀ q < nk, ls.getD (P * nk + q) 0 = (val (k.adr A (k.dig I A P)) (k.adr B (k.dig I B q)) u.2).getD 0 := by
    intro P hP q hq
    have h3 : P * nk + q < nb * nk := by
      have := Nat.mul_le_mul_right nk (Nat.succ_le_of_lt hP)
      rw [Nat.succ_mul] at this
      omega
    obtain ⟨e1, e2⟩ := divMod P nk q hq
    rw [hls, List.getD_eq_getElem _ _ (by simpa using h3), List.getElem_map, List.getElem_range, e1, e2]
  refine ⟨.full nb nk ls, ?_, ?_, ?_⟩
  · unfold fullTerm
    dsimp only
    rw [hc, ← hI, hnb, hnk, hmap]
    rfl
  · exact full_ok nb nk _ ls hg
  · exact full_conj_ok nb nk _ ls hg

include hK hH hu hD hHs h2 h8 in
/-- The operators for the Hamiltonian. -/
theorem hTerm_ok : ∃ op, k.hTerm H u = some op ∧ k.OpOk (fun b c r => (k.toLstdm.hamRow H b c r).map Prod.fst) u op := by
  have hC := cols_of hK
  have hs := fit_self hK hH hu
  have hinv := inv_lt hK hH hu
  have hsome : ∀ b c, k.rootOf b = u.1.1 → k.rootOf c = u.1.2 → ∃ z, k.toLstdm.hamRow H b c u.2 = some z := by
    intro b c hb hc
    obtain ⟨d, _, _, o, ho⟩ := fit_val hK hH hu (obsH k hHs) hD hHs h2 h8 _ _ hs b c hb hc
    exact ⟨_, ho⟩
  have hfull := fullTerm_ok hK hH hu h8 (fun b c r => (k.toLstdm.hamRow H b c r).map Prod.fst) (fun b c hb hc => by
    obtain ⟨z, hz⟩ := hsome b c hb hc
    exact ⟨z.1, by rw [hz]; rfl⟩)
  unfold hTerm
  dsimp only
  cases hr : u.2 with
  | c2 i j m l s =>
    dsimp only
    by_cases hd : i = m ∨ j = l
    · rw [if_pos hd]
      rw [hr] at hfull
      exact hfull
    · rw [if_neg hd]
      rw [not_or] at hd
      obtain ⟨x, hn, _, _, he⟩ := fit_diff hK hH hu _ _ hs
      rw [hr] at he hinv hsome
      cases x with
      | c2 i' j' m' l' s' =>
        simp only [expand, List.mem_singleton] at he
        injection he with a1 a2 a3 a4 a5
        subst a1 a2 a3 a4 a5
        obtain ⟨n1, n2, n3, n4, _⟩ := hn
        obtain ⟨op, e1, e2, e3⟩ := fourTerm_ok h8 hC H u.1.1 u.1.2 hs.lb hs.lg i j m l s (by
          simp only [List.nodup_cons, List.mem_cons, List.not_mem_nil, or_false, not_or, List.nodup_nil, and_true, not_false_eq_true]
          exact ⟨⟨Ne.symm hd.2, Ne.symm n2, Ne.symm n4⟩, ⟨Ne.symm n1, Ne.symm n3⟩, hd.1⟩) hinv
          (hsome _ _ (rootOf_offs0 hC _ hs.lb) (rootOf_offs0 hC _ hs.lg))
        refine ⟨op, e1, ?_⟩
        unfold OpOk
        rw [hr]
        exact ⟨e2, e3⟩
      | null => simp [expand] at he
      | c1 => simp [expand] at he
      | s1 => simp [expand] at he
      | s1c1 => simp [expand] at he
  | _ => dsimp only; rw [hr] at hfull; exact hfull

include hK hH hu h8 in
/-- The operators for spin squared. -/
theorem sTerm_ok (h : hasS2 u.2 = true) : ∃ op, k.sTerm H u = some op ∧ k.OpOk (fun b c r => (k.toLstdm.hamRow H b c r).bind Prod.snd) u op := by
  refine fullTerm_ok hK hH hu h8 (fun b c r => (k.toLstdm.hamRow H b c r).bind Prod.snd) (fun b c _ _ => ?_)
  cases hr : u.2 with
  | d1 i => exact ⟨_, rfl⟩
  | d2 i j => exact ⟨_, rfl⟩
  | s1 i j => exact ⟨_, rfl⟩
  | _ => rw [hr] at h; simp [hasS2] at h

omit [DecidableEq K] in
theorem noS2 (r : Lstdm.Row) (h : hasS2 r = false) (b c : Nat) : (k.toLstdm.hamRow H b c r).bind Prod.snd = none := by
  have e : ∀ z, k.toLstdm.hamRow H b c r = some z → z.2 = none := by
    intro z hz
    cases r with
    | d1 => simp [hasS2] at h
    | d2 => simp [hasS2] at h
    | s1 => simp [hasS2] at h
    | c1 i j s =>
      simp only [Lstdm.hamRow, Lstdm.ham1c, Option.bind_eq_bind, Option.bind_eq_some_iff] at hz
      obtain ⟨_, _, _, _, hz⟩ := hz
      cases hz; rfl
    | c1d1 i j m s =>
      simp only [Lstdm.hamRow, Lstdm.ham1c1d, Option.bind_eq_bind, Option.bind_eq_some_iff] at hz
      obtain ⟨_, _, _, _, hz⟩ := hz
      cases hz; rfl
    | s1c1 i j m s =>
      simp only [Lstdm.hamRow, Lstdm.ham1s1c, Option.bind_eq_bind, Option.bind_eq_some_iff] at hz
      obtain ⟨_, _, _, _, hz⟩ := hz
      cases hz; rfl
    | c2 i j m l s =>
      simp only [Lstdm.hamRow, Lstdm.ham2c, Option.bind_eq_bind, Option.bind_eq_some_iff] at hz
      obtain ⟨_, _, _, _, hz⟩ := hz
      split at hz
      · cases hz; rfl
      · split at hz <;> (cases hz; rfl)
  cases hz : k.toLstdm.hamRow H b c r with
  | none => rfl
  | some z => exact e z hz

end

/-- The order of the rows. -/
theorem hsiRows_sum (G : ExcRow → K) : (k.hsiRows.map G).sum = (k.rowsU.map G).sum := by
  unfold hsiRows rowsU tables
  simp only [List.flatMap_cons, List.flatMap_nil, List.append_nil, List.map_append, List.sum_append, List.getD_cons_zero, List.getD_cons_succ]
  ring

theorem hsiRows_mem (u : ExcRow) (h : u ∈ k.hsiRows) : ∃ tab, k.Uniq tab u := by
  unfold hsiRows at h
  rw [List.mem_flatMap] at h
  obtain ⟨i, _, h⟩ := h
  by_cases hi : i < k.tables.length
  · rw [List.getD_eq_getElem _ _ hi] at h
    exact ⟨_, List.getElem_mem hi, h⟩
  · rw [List.getD_eq_getElem?_getD, List.getElem?_eq_none (by omega)] at h
    simp [findUniqueExc] at h

section
variable (hK : Consistent k) (hH : NoCollision k)
variable {v : Nat → Nat → Vec K} {H : Ham K} {Λ : D1 K × D2 K → K} {val : Nat → Nat → Lstdm.Row → Option K}
    (hO : Obs k H Λ val) (hD : Describes k.toLstdm v) (hHs : H.Sym) (h2 : (2 : K) ≠ 0) (h8 : k.nlas.length ≤ 8)

include hK hH hO hD hHs h2 h8 in
theorem op_ok (hs : k.smult = none) (hash : Nat × List Nat → Int) (x : Nat → K) (mk : ExcRow → Option (Term K)) (rows : List ExcRow)
    (hrows : ∀ u ∈ rows, (∃ tab, k.Uniq tab u) ∧ ∃ op, mk u = some op ∧ k.OpOk val u op)
    (hh : ∀ gs, optermGroups mk rows = some gs → ∀ g ∈ gs, k.HashOk hash g.1 (g.2.map Prod.fst)) :
    ∃ gs, optermGroups mk rows = some gs ∧ ∃ y, gs.foldlM (k.opuniqGroup hash x) (fun _ => 0) = some y ∧ ∀ β < k.nstates,
      y β = ∑ γ ∈ Finset.range k.nstates, (rows.map (fun u => k.tco val u (k.imgsOf u) β γ)).sum * x γ := by
  obtain ⟨gs, e1, e0, e2, e3⟩ := groups_ok mk rows (k.OpOk val) (fun u hu => (hrows u hu).2)
  obtain ⟨y, f1, f2⟩ := foldlM_add gs (k.opuniqGroup hash x)
    (fun g β => (g.2.map (fun b => ∑ γ ∈ Finset.range k.nstates, k.tco val b.1 (k.imgsOf b.1) β γ * x γ)).sum) id k.nstates (by
      intro g hg o
      refine group_ok hK hH hO hD hHs h2 h8 hs hash x g (fun b hb => ?_) (e0 g hg) (hh gs e1 g hg) o
      obtain ⟨⟨m1, m2⟩, m3⟩ := e2 g hg b hb
      exact ⟨⟨(hrows _ m1).1, m2⟩, m3⟩) (fun _ => 0)
  refine ⟨gs, e1, y, f1, fun β hβ => ?_⟩
  have := f2 β hβ
  simp only [id] at this
  rw [this, zero_add, e3 (fun u => ∑ γ ∈ Finset.range k.nstates, k.tco val u (k.imgsOf u) β γ * x γ)]
  clear hh e1 e0 e2 e3 f1 f2 this hrows
  induction rows with
  | nil => simp
  | cons u rows ih =>
    rw [List.map_cons, List.sum_cons, ih, ← Finset.sum_add_distrib]
    refine Finset.sum_congr rfl fun γ _ => ?_
    rw [List.map_cons, List.sum_cons, add_mul]

/-- The links of the groups have different hashes. -/
def LinksOk (k : Kern K) (hash : Nat × List Nat → Int) (mk : ExcRow → Option (Term K)) (rows : List ExcRow) : Prop :=
  ∀ gs, optermGroups mk rows = some gs → ∀ g ∈ gs, k.HashOk hash g.1 (g.2.map Prod.fst)

include hK hH hD hHs h2 h8 in
theorem hamOp_ok (hs : k.smult = none) (hash : Nat × List Nat → Int) (x : Nat → K) (hh : k.LinksOk hash (k.hTerm H) k.hsiRows) :
    ∃ M y, k.hamKernel H = some M ∧ k.hamOp hash H x = some y ∧
      ∀ β < k.nstates, y β = ∑ γ ∈ Finset.range k.nstates, M.1 β γ * x γ := by
  obtain ⟨M, hM, hv⟩ := ham_rows hK hH hD hHs h2 h8 hs
  obtain ⟨gs, e1, y, e2, e3⟩ := op_ok hK hH (obsH k hHs) hD hHs h2 h8 hs hash x (k.hTerm H) k.hsiRows (fun u hu => by
    obtain ⟨tab, ht⟩ := hsiRows_mem u hu
    exact ⟨⟨tab, ht⟩, hTerm_ok hK hH ht hD hHs h2 h8⟩) hh
  refine ⟨M, y, hM, by unfold hamOp; rw [e1]; exact e2, fun β hβ => ?_⟩
  rw [e3 β hβ]
  refine Finset.sum_congr rfl fun γ hγ => ?_
  rw [(hv β γ hβ (Finset.mem_range.mp hγ)).1, hsiRows_sum]

include hK hH hD hHs h2 h8 in
theorem s2Op_ok (hs : k.smult = none) (hash : Nat × List Nat → Int) (x : Nat → K)
    (hh : k.LinksOk hash (k.sTerm H) (k.hsiRows.filter (fun u => hasS2 u.2))) :
    ∃ M y, k.hamKernel H = some M ∧ k.s2Op hash H x = some y ∧
      ∀ β < k.nstates, y β = ∑ γ ∈ Finset.range k.nstates, M.2 β γ * x γ := by
  obtain ⟨M, hM, hv⟩ := ham_rows hK hH hD hHs h2 h8 hs
  obtain ⟨gs, e1, y, e2, e3⟩ := op_ok hK hH (obsS k) hD hHs h2 h8 hs hash x (k.sTerm H) _ (fun u hu => by
    obtain ⟨hu1, hu2⟩ := List.mem_filter.mp hu
    obtain ⟨tab, ht⟩ := hsiRows_mem u hu1
    exact ⟨⟨tab, ht⟩, sTerm_ok (H := H) hK hH ht h8 hu2⟩) hh
  refine ⟨M, y, hM, by unfold s2Op; rw [e1]; exact e2, fun β hβ => ?_⟩
  rw [e3 β hβ]
  refine Finset.sum_congr rfl fun γ hγ => ?_
  rw [(hv β γ hβ (Finset.mem_range.mp hγ)).2, ← hsiRows_sum]
  congr 1
  generalize k.hsiRows = rows
  induction rows with
  | nil => rfl
  | cons u rows ih =>
    rw [List.map_cons, List.sum_cons]
    by_cases hu : hasS2 u.2 = true
    · rw [List.filter_cons_of_pos (p := fun u : ExcRow => hasS2 u.2) hu, List.map_cons, List.sum_cons, ih]
    · rw [List.filter_cons_of_neg (by simpa using hu), ih]
      have : k.tco (fun b c r => (k.toLstdm.hamRow H b c r).bind Prod.snd) u (k.imgsOf u) β γ = 0 := by
        have hz : ∀ b c, k.gel (fun b c r => (k.toLstdm.hamRow H b c r).bind Prod.snd) b c u.2 = 0 := by
          intro b c
          unfold gel
          dsimp only
          rw [noS2 u.2 (by simpa using hu)]
          simp
        unfold tco
        rw [hz, hz]
        simp
      rw [this, zero_add]

end
end Kern
end Verif.Lstdm
