import Verif.Lemmas.KernFin
/-!
# Result of `LSTDM.kernel`
-/
namespace Verif.Lstdm
open Verif.Spec Verif.Addr Verif.Exc Verif.Signs Verif.Spec.Tdm Verif.Spec.Lstdm

namespace Kern
variable {K : Type} [Field K] [DecidableEq K] {k : Kern K} {v : Nat → Nat → Vec K}

omit [DecidableEq K] in
theorem tri_add (h2 : (2 : K) ≠ 0) (X x y : Nat) : (tri X X x y : K) + tri X X y x = 1 := by
  unfold tri
  simp only [if_true]
  rcases Nat.lt_trichotomy x y with h | h | h
  · rw [if_pos h, if_neg (by omega), if_neg (by omega), zero_add]
  · subst h
    simp only [Nat.lt_irrefl, if_false, if_true]
    rw [← two_mul]
    exact mul_one_div_cancel h2
  · rw [if_neg (by omega), if_neg (by omega), if_pos h, add_zero]

/-- A row is exact for the states of its images. -/
theorem row_exact (hD : Describes k.toLstdm v) (h8 : k.nlas.length ≤ 8) (b c : Nat) (x : Inter) (hn : x.Normal)
    (hb : InB k.nlas.length x) (hx : k.Diff (k.rootOf b) (k.rootOf c) x) :
    ∀ r ∈ expand k.nlas.length x, RowOk k.toLstdm v b c r (rp1 r) (rp2 r) :=
  rows_ok hD h8 b c x hn hb (fun f hf σ => by rw [cz_root, cz_root]; exact hx f hf σ)

theorem kernel_sum (hD : Describes k.toLstdm v) (h8 : k.nlas.length ≤ 8) (hK : Consistent k) (hH : NoCollision k) :
    ∃ acc, k.kernel = some (addTranspose acc) ∧ ∀ b c, b < k.nstates → c < k.nstates → ∀ x, co (acc b c) x =
      (k.tables.map (fun tab => (tab.map (fun y => if k.rootOf b = (k.flp (k.rep tab y) y).1 ∧ k.rootOf c = (k.flp (k.rep tab y) y).2 then
        tri (k.flp (k.rep tab y) y).1 (k.flp (k.rep tab y) y).2 (k.spx (k.rep tab y).2.inv b) (k.spx (k.rep tab y).2.inv c) *
          k.elem b c (k.rep tab y).2 x else 0)).sum)).sum := by
  obtain ⟨cls, hcls, hperm⟩ := tables_all hK
  have hC := cols_of hK
  have hmem : ∀ t ∈ k.tables, ∀ y ∈ t, y.1 ∈ k.scai ∧ y.2 ∈ expand k.nlas.length (cls y.1) := by
    intro t ht y hy
    have := hperm.mem_iff.mp (List.mem_flatten.mpr ⟨t, ht, hy⟩)
    simp only [List.mem_flatMap, List.mem_map] at this
    obtain ⟨p, hp, r, hr, rfl⟩ := this
    exact ⟨hp, hr⟩
  have hkey : ∀ t ∈ k.tables, ∀ t' ∈ k.tables, ∀ u ∈ t, ∀ u' ∈ t', u.1 = u'.1 → u.2.inv = u'.2.inv → t = t' ∧ u = u' := by
    intro t ht t' ht' u hu u' hu' e1 e2
    have h1 := hmem t ht u hu
    have h2 := hmem t' ht' u' hu'
    rw [← e1] at h2
    have e3 := expand_inv_inj _ _ _ _ h1.2 h2.2 (by rw [e2]; intro g; rfl)
    have e4 : u = u' := Prod.ext e1 e3
    subst e4
    exact ⟨tab_unique _ _ _ t t' (by rw [← tables_eq]; exact ht) (by rw [← tables_eq]; exact ht') u hu hu', rfl⟩
  have hsh : ∀ r < k.cols.length, ∃ s, fermionSpinShuffle ((k.nelec.getD r []).map Prod.fst) ((k.nelec.getD r []).map Prod.snd) = some s := by
    intro r hr
    obtain ⟨e, he, _⟩ := spinShuffle_eq hD (k.adr r (fun _ => 0))
    refine ⟨e, ?_⟩
    unfold Lstdm.spinShuffle toLstdm at he
    dsimp only at he
    rwa [rootOf_adr hC r hr _ (fun f hf => hC.pos r hr f hf)] at he
  have hrow : ∀ t ∈ k.tables, ∀ u ∈ k.findUniqueExc t, ∀ acc, ∃ acc', k.crunchEnv acc u = some acc' ∧
      ∀ b c, (b < k.nstates ∧ c < k.nstates) → ∀ x, co (acc' b c) x = co (acc b c) x +
      ((k.images t u).map (fun im => if k.rootOf b = im.1 ∧ k.rootOf c = im.2 then
        tri im.1 im.2 (k.spx u.2.inv b) (k.spx u.2.inv c) * k.elem b c u.2 x else 0)).sum := by
    intro t ht u hu acc
    obtain ⟨hut, hrep⟩ := mem_unique t u hu
    obtain ⟨hp, hr⟩ := hmem t ht u hut
    obtain ⟨c1, c2, c3⟩ := hcls _ hp
    have hs := mem_scai u.1 |>.mp hp
    obtain ⟨acc', h1, h2⟩ := crunchEnv_eq h8 hC (same_of hK) u (k.images t u) (lookup_eq hkey t ht u hu)
      (expand_lt _ _ c2 _ hr) ⟨hs.1, hs.2.1⟩ (by
        intro im him
        unfold images at him
        simp only [List.mem_map, List.mem_filter] at him
        obtain ⟨y, ⟨hy, hyu⟩, rfl⟩ := him
        have hyu : k.fprintLT y = k.fprintLT u := by simpa using hyu
        have hru : k.rep t y = u := by
          rw [← hrep]; unfold rep; rw [hyu]
          rw [(rep_spec t u hut).2.2]; rfl
        obtain ⟨_, w1, w2⟩ := rep_words hH t ht y hy
        rw [hru] at w1 w2
        have hsy := mem_scai y.1 |>.mp (hmem t ht y hy).1
        refine ⟨?_, w2⟩
        change (k.flp u y).1 < _ ∧ (k.flp u y).2 < _
        rcases w1 with e | e <;> rw [e]
        · exact ⟨hsy.1, hsy.2.1⟩
        · exact ⟨hsy.2.1, hsy.1⟩) hsh
      (by
        intro b c _ _ hb hc
        obtain ⟨d1, d2, W, hd, _⟩ := row_exact hD h8 b c _ c1 c2 (by rw [hb, hc]; exact c3) u.2 hr
        exact ⟨_, hd⟩) acc
    exact ⟨acc', h1, fun b c hbc x => h2 b c hbc.1 hbc.2 x⟩
  have htab : ∀ t ∈ k.tables, ∀ acc, ∃ acc', (k.findUniqueExc t).foldlM k.crunchEnv acc = some acc' ∧
      ∀ b c, (b < k.nstates ∧ c < k.nstates) → ∀ x, co (acc' b c) x = co (acc b c) x +
      (t.map (fun y => if k.rootOf b = (k.flp (k.rep t y) y).1 ∧ k.rootOf c = (k.flp (k.rep t y) y).2 then
        tri (k.flp (k.rep t y) y).1 (k.flp (k.rep t y) y).2 (k.spx (k.rep t y).2.inv b) (k.spx (k.rep t y).2.inv c) *
          k.elem b c (k.rep t y).2 x else 0)).sum := by
    intro t ht acc
    obtain ⟨acc', h1, h2⟩ := foldlM_coP (k.findUniqueExc t) (fun b c => b < k.nstates ∧ c < k.nstates) k.crunchEnv _ (hrow t ht) acc
    refine ⟨acc', h1, fun b c hbc x => ?_⟩
    rw [h2 b c hbc x, sum_unique_images t (fun u im => if k.rootOf b = im.1 ∧ k.rootOf c = im.2 then
        tri im.1 im.2 (k.spx u.2.inv b) (k.spx u.2.inv c) * k.elem b c u.2 x else 0)]
  have hflat : ∀ (ts : List (List ExcRow)) (acc : Arr K), (ts.flatMap k.findUniqueExc).foldlM k.crunchEnv acc =
      ts.foldlM (fun acc t => (k.findUniqueExc t).foldlM k.crunchEnv acc) acc := by
    intro ts
    induction ts with
    | nil => intro acc; rfl
    | cons t ts ih =>
      intro acc
      rw [List.flatMap_cons, List.foldlM_append, List.foldlM_cons]
      congr 1
      funext a
      exact ih a
  obtain ⟨acc, h1, h2⟩ := foldlM_coP k.tables (fun b c => b < k.nstates ∧ c < k.nstates)
    (fun acc t => (k.findUniqueExc t).foldlM k.crunchEnv acc) _ htab (fun _ _ => (zero1, zero2))
  refine ⟨acc, ?_, fun b c hb hc x => ?_⟩
  · unfold kernel
    rw [hflat, h1]; rfl
  · rw [h2 b c ⟨hb, hc⟩ x]
    have : co ((zero1, zero2) : D1 K × D2 K) x = 0 := by rcases x with ⟨s, p, q⟩ | ⟨s, p, q, r, u⟩ <;> rfl
    rw [this, zero_add]

open Classical in
/-- An element of the result, from its properties for single rows. -/
theorem kernel_elem (hD : Describes k.toLstdm v) (h8 : k.nlas.length ≤ 8) (hK : Consistent k) (hH : NoCollision k) (h2 : (2 : K) ≠ 0) :
    ∃ T, k.kernel = some T ∧ ∀ (x xT : Ix) (F : List Nat) (V : K) (b c : Nat), b < k.nstates → c < k.nstates →
      (∀ acc : Arr K, co (addTranspose acc b c) x = co (acc b c) x + co (acc c b) xT) →
      (∀ i : Inter, i.Normal → InB k.nlas.length i → k.Diff (k.rootOf b) (k.rootOf c) i → ∀ r ∈ expand k.nlas.length i,
        k.elem b c r x = if SameSet r.inv F then V else 0) →
      (∀ i : Inter, i.Normal → InB k.nlas.length i → k.Diff (k.rootOf c) (k.rootOf b) i → ∀ r ∈ expand k.nlas.length i,
        k.elem c b r xT = if SameSet r.inv F then V else 0) →
      (V ≠ 0 → k.allowed (k.rootOf b, k.rootOf c) = true ∧ k.allowed (k.rootOf c, k.rootOf b) = true) →
      (V ≠ 0 → ∀ i : Inter, i.Normal → InB k.nlas.length i →
        (k.Diff (k.rootOf b) (k.rootOf c) i ∨ k.Diff (k.rootOf c) (k.rootOf b) i) → ∃ r ∈ expand k.nlas.length i, SameSet r.inv F) →
      co (T b c) x = V := by
  obtain ⟨acc, h1, hs⟩ := kernel_sum hD h8 hK hH
  refine ⟨_, h1, fun x xT F V b c hb hc hT hE hET hcp hcov => ?_⟩
  obtain ⟨cls, hcls, hperm⟩ := tables_all hK
  have hmem : ∀ t ∈ k.tables, ∀ y ∈ t, y.1 ∈ k.scai ∧ y.2 ∈ expand k.nlas.length (cls y.1) := by
    intro t ht y hy
    have := hperm.mem_iff.mp (List.mem_flatten.mpr ⟨t, ht, hy⟩)
    simp only [List.mem_flatMap, List.mem_map] at this
    obtain ⟨p, hp, r, hr, rfl⟩ := this
    exact ⟨hp, hr⟩
  rw [hT, hs b c hb hc, hs c b hc hb, ← List.sum_map_add]
  simp only [← List.sum_map_add]
  have hone : ∀ t ∈ k.tables, ∀ y ∈ t,
      ((if k.rootOf b = (k.flp (k.rep t y) y).1 ∧ k.rootOf c = (k.flp (k.rep t y) y).2 then
        tri (k.flp (k.rep t y) y).1 (k.flp (k.rep t y) y).2 (k.spx (k.rep t y).2.inv b) (k.spx (k.rep t y).2.inv c) *
          k.elem b c (k.rep t y).2 x else 0) +
      (if k.rootOf c = (k.flp (k.rep t y) y).1 ∧ k.rootOf b = (k.flp (k.rep t y) y).2 then
        tri (k.flp (k.rep t y) y).1 (k.flp (k.rep t y) y).2 (k.spx (k.rep t y).2.inv c) (k.spx (k.rep t y).2.inv b) *
          k.elem c b (k.rep t y).2 xT else 0)) =
      if (y.1 = (k.rootOf b, k.rootOf c) ∨ y.1 = (k.rootOf c, k.rootOf b)) ∧ SameSet y.2.inv F then V else 0 := by
    intro t ht y hy
    obtain ⟨w0, w1, w2⟩ := rep_words hH t ht y hy
    have hr := (rep_spec (k := k) t y hy).1
    obtain ⟨q1, q2⟩ := hmem t ht y hy
    obtain ⟨r1, r2⟩ := hmem t ht _ hr
    generalize k.rep t y = u at *
    obtain ⟨c1, c2, c3⟩ := hcls _ r1
    obtain ⟨d1, d2, d3⟩ := hcls _ q1
    have su := mem_scai u.1 |>.mp r1
    have sy := mem_scai y.1 |>.mp q1
    have hlt : (k.flp u y).1 < k.cols.length ∧ (k.flp u y).2 < k.cols.length := by
      rcases w1 with e | e <;> rw [e]
      · exact ⟨sy.1, sy.2.1⟩
      · exact ⟨sy.2.1, sy.1⟩
    have hdiff : k.Diff (k.flp u y).1 (k.flp u y).2 (cls u.1) := by
      intro f hf σ
      by_cases hfu : f ∈ u.2.inv
      · rw [← c3 f hf σ]
        have e1 := hK.same_nelec f hf _ hlt.1 _ su.1 (w2 f hfu).1
        have e2 := hK.same_nelec f hf _ hlt.2 _ su.2.1 (w2 f hfu).2
        unfold cr
        rw [e1, e2]
      · rw [mvs_spec _ _ _ r2 f σ hfu]
        have := d3 f hf σ
        rw [mvs_spec _ _ _ q2 f σ (fun h => hfu ((w0 f).mp h))] at this
        rcases w1 with e | e <;> rw [e]
        · exact this
        · dsimp only; omega
    have hset : SameSet u.2.inv F ↔ SameSet y.2.inv F :=
      ⟨fun h g => (w0 g).trans (h g), fun h g => (w0 g).symm.trans (h g)⟩
    have v1 : k.rootOf b = (k.flp u y).1 → k.rootOf c = (k.flp u y).2 → k.elem b c u.2 x = if SameSet y.2.inv F then V else 0 := by
      intro e1 e2
      rw [hE (cls u.1) c1 c2 (by rw [e1, e2]; exact hdiff) u.2 r2]
      simp only [hset]
    have v2 : k.rootOf c = (k.flp u y).1 → k.rootOf b = (k.flp u y).2 → k.elem c b u.2 xT = if SameSet y.2.inv F then V else 0 := by
      intro e1 e2
      rw [hET (cls u.1) c1 c2 (by rw [e1, e2]; exact hdiff) u.2 r2]
      simp only [hset]
    have hcond : (y.1 = (k.rootOf b, k.rootOf c) ∨ y.1 = (k.rootOf c, k.rootOf b)) ↔
        ((k.rootOf b = (k.flp u y).1 ∧ k.rootOf c = (k.flp u y).2) ∨ (k.rootOf c = (k.flp u y).1 ∧ k.rootOf b = (k.flp u y).2)) := by
      rcases w1 with e | e <;> rw [e, Prod.ext_iff, Prod.ext_iff] <;> dsimp only <;> omega
    clear hset hdiff w2
    generalize k.flp u y = XY at *
    obtain ⟨X, Y⟩ := XY
    dsimp only at *
    simp only [hcond]
    by_cases hXY : X = Y
    · subst hXY
      by_cases hB : k.rootOf b = X ∧ k.rootOf c = X
      · rw [if_pos hB, if_pos ⟨hB.2, hB.1⟩, v1 hB.1 hB.2, v2 hB.2 hB.1, ← add_mul, tri_add h2, one_mul]
        simp only [hB.1, hB.2, true_and, or_self]
      · rw [if_neg hB, if_neg (fun h => hB ⟨h.2, h.1⟩), if_neg (fun h => by
          rcases h.1 with h | h
          · exact hB h
          · exact hB ⟨h.2, h.1⟩), add_zero]
    · have htri : ∀ a b, (tri X Y a b : K) = 1 := by intro a b; unfold tri; rw [if_neg hXY]
      by_cases hB : k.rootOf b = X ∧ k.rootOf c = Y
      · rw [if_pos hB, if_neg (fun h => hXY (h.1.symm.trans hB.2)), v1 hB.1 hB.2, htri, one_mul, add_zero]
        simp only [hB, and_self, true_or, true_and]
      · by_cases hB' : k.rootOf c = X ∧ k.rootOf b = Y
        · rw [if_neg hB, if_pos hB', v2 hB'.1 hB'.2, htri, one_mul, zero_add]
          simp only [hB', and_self, or_true, true_and]
        · rw [if_neg hB, if_neg hB', add_zero, if_neg (fun h => h.1.elim hB hB')]
  rw [List.map_congr_left (fun t ht => congrArg List.sum (List.map_congr_left (hone t ht)))]
  have hfl : ∀ (ts : List (List ExcRow)) (G : ExcRow → K), (ts.map (fun t => (t.map G).sum)).sum = (ts.flatten.map G).sum := by
    intro ts G
    induction ts with
    | nil => rfl
    | cons t ts ih => rw [List.map_cons, List.sum_cons, ih, List.flatten_cons, List.map_append, List.sum_append]
  rw [hfl, (hperm.map _).sum_eq]
  by_cases hV : V = 0
  · rw [sum_none _ _ _ hV, hV]
  · have hB := (adr_of (cols_of hK) b hb).1
    have hCc := (adr_of (cols_of hK) c hc).1
    obtain ⟨k1, k2⟩ := hcp hV
    obtain ⟨p0, hp0, hp0c, huniq⟩ : ∃ p0 ∈ k.scai, (p0 = (k.rootOf b, k.rootOf c) ∨ p0 = (k.rootOf c, k.rootOf b)) ∧
        ∀ p ∈ k.scai, (p = (k.rootOf b, k.rootOf c) ∨ p = (k.rootOf c, k.rootOf b)) → p = p0 := by
      rcases Nat.le_total (k.rootOf c) (k.rootOf b) with h | h
      · refine ⟨(k.rootOf b, k.rootOf c), mem_scai _ |>.mpr ⟨hB, hCc, h, k1⟩, Or.inl rfl, ?_⟩
        rintro p hp (rfl | rfl)
        · rfl
        · have := (mem_scai _ |>.mp hp).2.2.1
          dsimp only at this
          have : k.rootOf b = k.rootOf c := by omega
          rw [this]
      · refine ⟨(k.rootOf c, k.rootOf b), mem_scai _ |>.mpr ⟨hCc, hB, h, k2⟩, Or.inr rfl, ?_⟩
        rintro p hp (rfl | rfl)
        · have := (mem_scai _ |>.mp hp).2.2.1
          dsimp only at this
          have : k.rootOf b = k.rootOf c := by omega
          rw [this]
        · rfl
    obtain ⟨c1, c2, c3⟩ := hcls p0 hp0
    obtain ⟨r, hr, hrF⟩ := hcov hV (cls p0) c1 c2 (by
      rcases hp0c with e | e
      · left; rw [e] at c3; rw [e]; exact c3
      · right; rw [e] at c3; rw [e]; exact c3)
    refine sum_unique _ ?_ (fun y : ExcRow => (y.1 = (k.rootOf b, k.rootOf c) ∨ y.1 = (k.rootOf c, k.rootOf b)) ∧ SameSet y.2.inv F) V
      (p0, r) ?_ ⟨hp0c, hrF⟩ ?_
    · rw [List.nodup_flatMap]
      refine ⟨fun p _ => (nodup_expand _ _).map (fun a b h => by simpa using h), ?_⟩
      refine nodup_scai.imp ?_
      intro p q hpq
      simp only [Function.onFun, List.disjoint_left, List.mem_map]
      rintro _ ⟨r, _, rfl⟩ ⟨r', _, h⟩
      simp only [Prod.mk.injEq] at h
      exact hpq h.1.symm
    · exact List.mem_flatMap.mpr ⟨p0, hp0, List.mem_map.mpr ⟨r, hr, rfl⟩⟩
    · intro y hy hyp
      obtain ⟨p, hp, hy⟩ := List.mem_flatMap.mp hy
      obtain ⟨r', hr', rfl⟩ := List.mem_map.mp hy
      have := huniq p hp hyp.1
      subst this
      have : r' = r := expand_inv_inj _ _ _ _ hr' hr (fun g => (hyp.2 g).trans (hrF g).symm)
      rw [this]

end Kern
end Verif.Lstdm
