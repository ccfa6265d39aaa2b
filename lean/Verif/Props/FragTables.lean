import Verif.Lemmas.FragTables
/-!
# C105: the tables of fragment matrix elements

`Filled F M` (Spec/FragTables) says that the tables hold the matrix elements of all operators between all local roots of all pairs of
unique rootspaces, with the CI vectors that `F` has now.
-/
namespace Verif.Props
open Verif.FragTables Verif.FciRdm Verif.Spec.FciRdm Verif.Spec.Tdm Verif.Spec.Lstdm Verif.Spec.FragTables Verif.Fockspace

variable {K : Type} [CommRing K] [DecidableEq K]

/-- **C105**. Building the tables succeeds (no assertion fails) and fills them with the matrix elements. -/
theorem C105_build {P : Ext K} (hP : Right12 P) {F : Frag K} (hF : Coherent F) :
    ∃ M, makeDms P F none (Mats.empty K) = some M ∧ Filled F M := by
  obtain ⟨M, h1, h2⟩ := makeDms_spec hP hF none (Mats.empty K)
  exact ⟨M, h1, (filled_iff hF M).2 fun k u w hu hw hc => h2 k u w hu hw hc (Or.inl rfl)⟩

namespace FragTables

theorem fst_zip_sublist {α β : Type} (l : List α) (m : List β) : ((l.zip m).map Prod.fst).Sublist l := by
  induction l generalizing m with
  | nil => simp
  | cons x l ih =>
    cases m with
    | nil => simp
    | cons y m => exact (ih m).cons_cons x

omit [CommRing K] [DecidableEq K] in
theorem at_congr [CommRing K] {F G : Frag K} {M : Mats K} {u w i j : Nat} {k : Kind} (hn : G.norb = F.norb) (he : G.nelec = F.nelec)
    (hi : G.lroots i = F.lroots i ∧ G.ci i = F.ci i) (hj : G.lroots j = F.lroots j ∧ G.ci j = F.ci j) (h : At F M u w i j k) :
    At G M u w i j k := by
  have hci : ∀ a, civ G i a = civ F i a := fun a => by unfold civ; rw [hn, he, hi.2]
  have hcj : ∀ a, civ G j a = civ F j a := fun a => by unfold civ; rw [hn, he, hj.2]
  cases k <;> simpa only [At, hn, hci, hcj, hi.1, hj.1] using h

/-- Replacement of one CI array. -/
def put1 (G : Frag K) (x : Nat × (Nat × (Nat → Arr K))) : Frag K :=
  { G with lroots := Function.update G.lroots x.1 x.2.1, ci := Function.update G.ci x.1 x.2.2 }

omit [DecidableEq K] in
theorem replace_spec (L : List (Nat × (Nat × (Nat → Arr K)))) (F : Frag K) (hu : ∀ x ∈ L, F.unique x.1 = true) :
    ∃ G, L.foldlM (fun (G : Frag K) x => if G.unique x.1 then some (put1 G x) else none) F = some G ∧
      (G.norb = F.norb ∧ G.nroots = F.nroots ∧ G.nelec = F.nelec ∧ G.unique = F.unique ∧ G.rep = F.rep ∧ G.rootaddr = F.rootaddr ∧
        G.fragaddr = F.fragaddr) ∧
      (∀ i, (∀ x ∈ L, x.1 ≠ i) → G.lroots i = F.lroots i ∧ G.ci i = F.ci i) ∧
      ((L.map Prod.fst).Nodup → ∀ x ∈ L, G.lroots x.1 = x.2.1 ∧ G.ci x.1 = x.2.2) := by
  induction L generalizing F with
  | nil => exact ⟨F, rfl, ⟨rfl, rfl, rfl, rfl, rfl, rfl, rfl⟩, fun _ _ => ⟨rfl, rfl⟩, fun _ _ hx => absurd hx (by simp)⟩
  | cons x L ih =>
    obtain ⟨G, h1, h2, h3, h4⟩ := ih (put1 F x) (fun y hy => hu y (List.mem_cons_of_mem _ hy))
    refine ⟨G, ?_, h2, ?_, ?_⟩
    · rw [List.foldlM_cons, if_pos (hu x (List.mem_cons_self ..))]
      exact h1
    · intro i hi
      have hx : i ≠ x.1 := fun h => hi x (List.mem_cons_self ..) h.symm
      obtain ⟨a, b⟩ := h3 i (fun y hy => hi y (List.mem_cons_of_mem _ hy))
      rw [a, b]
      exact ⟨Function.update_of_ne hx _ _, Function.update_of_ne hx _ _⟩
    · intro hnd y hy
      rw [List.map_cons, List.nodup_cons] at hnd
      rcases List.mem_cons.1 hy with rfl | hy
      · obtain ⟨a, b⟩ := h3 y.1 (fun z hz h => hnd.1 (List.mem_map.2 ⟨z, hz, h⟩))
        rw [a, b]
        exact ⟨Function.update_self .., Function.update_self ..⟩
      · exact h4 hnd.2 y hy

end FragTables

open FragTables

/-- **C105**. Replacing the CI vectors of some unique rootspaces with `update_ci_` succeeds, and tables that were right for the old
vectors become right for the new ones, although only the entries of the given rootspaces are recomputed. -/
theorem C105_update {P : Ext K} (hP : Right12 P) {F : Frag K} (hF : Coherent F) {M : Mats K} (hM : Filled F M) (iroot : List Nat)
    (new : List (Nat × (Nat → Arr K))) (hi : ∀ i ∈ iroot, F.unique i = true) :
    ∃ G M', updateCi P F M iroot new = some (G, M') ∧ Coherent G ∧ Filled G M' ∧
      (G.norb = F.norb ∧ G.nroots = F.nroots ∧ G.nelec = F.nelec ∧ G.unique = F.unique ∧ G.rep = F.rep ∧ G.rootaddr = F.rootaddr ∧
        G.fragaddr = F.fragaddr) ∧
      (∀ i, i ∉ iroot → G.lroots i = F.lroots i ∧ G.ci i = F.ci i) ∧
      (iroot.Nodup → ∀ x ∈ iroot.zip new, G.lroots x.1 = x.2.1 ∧ G.ci x.1 = x.2.2) := by
  obtain ⟨G, h1, h2, h3, h4⟩ := replace_spec (iroot.zip new) F (fun x hx => hi x.1 (List.of_mem_zip (a := x.1) (b := x.2) hx).1)
  obtain ⟨e1, e2, e3, e4, e5, e6, e7⟩ := h2
  have hG : Coherent G := by
    refine ⟨?_, ?_, ?_, ?_⟩
    · rw [e2, e4, e5]; exact hF.rep
    · rw [e2, e4, e5]; exact hF.self
    · rw [e2, e3, e5]; exact hF.nelec
    · rw [e2, e3, e1]; exact hF.fits
  have hsame : ∀ i, i ∉ iroot → G.lroots i = F.lroots i ∧ G.ci i = F.ci i :=
    fun i hn => h3 i (fun x hx h => hn (h ▸ (List.of_mem_zip (a := x.1) (b := x.2) hx).1))
  obtain ⟨M', m1, m2⟩ := makeDms_spec hP hG (some iroot) M
  have hnu : G.nuroots = F.nuroots := by unfold Frag.nuroots Frag.urootAddr; rw [e2, e4]
  have had : ∀ u, G.addr u = F.addr u := fun u => by unfold Frag.addr Frag.urootAddr; rw [e2, e4]
  refine ⟨G, M', ?_, hG, ?_, ⟨e1, e2, e3, e4, e5, e6, e7⟩, hsame, ?_⟩
  · unfold updateCi
    dsimp only
    rw [show (iroot.zip new).foldlM (fun (G : Frag K) x => if G.unique x.1 then
      some { G with lroots := Function.update G.lroots x.1 x.2.1, ci := Function.update G.ci x.1 x.2.2 } else none) F = some G from h1,
      Option.bind_some, m1]
    rfl
  · rw [filled_iff hG]
    intro k u w hu hw hc
    refine m2 k u w hu hw hc ?_
    by_cases hs : unmasked (some iroot) (G.addr u) (G.addr w) = true
    · exact Or.inl hs
    · refine Or.inr ?_
      simp only [unmasked, Bool.or_eq_true, List.contains_iff_mem, not_or] at hs
      refine at_congr e1 e3 (hsame _ hs.1) (hsame _ hs.2) ?_
      have hc' : Conn F (F.addr u) (F.addr w) k := by
        rw [had, had] at hc
        cases k <;> simpa only [Conn, e3] using hc
      have := (filled_iff hF M).1 hM k u w (hnu ▸ hu) (hnu ▸ hw) hc'
      rw [had, had]
      exact this
  · intro hnd
    refine h4 ?_
    exact hnd.sublist (fst_zip_sublist iroot new)

/-- **C105**. After any sequence of such updates the tables are right for the current vectors. -/
theorem C105_history {P : Ext K} (hP : Right12 P) {F : Frag K} (hF : Coherent F) (us : List (List Nat × List (Nat × (Nat → Arr K))))
    (hu : ∀ x ∈ us, ∀ i ∈ x.1, F.unique i = true) :
    ∃ G M, ((makeDms P F none (Mats.empty K)).bind fun M =>
      us.foldlM (fun (s : Frag K × Mats K) x => updateCi P s.1 s.2 x.1 x.2) (F, M)) = some (G, M) ∧ Filled G M := by
  obtain ⟨M, h1, h2⟩ := C105_build hP hF
  rw [h1, Option.bind_some]
  clear h1
  induction us generalizing F M with
  | nil => exact ⟨F, M, rfl, h2⟩
  | cons x us ih =>
    obtain ⟨G, M', e1, e2, e3, e4, -⟩ := C105_update hP hF h2 x.1 x.2 (hu x (List.mem_cons_self ..))
    obtain ⟨G', M'', f1, f2⟩ := ih e2 (fun y hy i hi => by rw [e4.2.2.2.1]; exact hu y (List.mem_cons_of_mem _ hy) i hi) M' e3
    exact ⟨G', M'', by rw [List.foldlM_cons, e1]; exact f1, f2⟩

/-- **C105**. Looked up by model state, right tables have the entries that the factorized algorithm relies on: those of the vectors of
the rootspaces that represent the rootspaces of the states. -/
theorem C105_lookup {F : Frag K} (hF : Coherent F) {M : Mats K} (hM : Filled F M)
    (hst : ∀ st, F.rootaddr st < F.nroots ∧ F.fragaddr st < F.lroots (F.rep (F.rootaddr st))) :
    Exact (toFragInt F M) F.norb (fun st => civ F (F.rep (F.rootaddr st)) (F.fragaddr st))
      (fun st σ => if σ then (F.nelec (F.rootaddr st)).2 else (F.nelec (F.rootaddr st)).1) := by
  have hidx : ∀ i < F.nroots, F.urootIdx (F.rep i) = F.urootIdx i := by
    intro i hi
    have h := hF.rep i hi
    unfold Frag.urootIdx
    rw [hF.self _ h.1 h.2]
  have hr : ∀ st, F.rep (F.rootaddr st) < F.nroots ∧ F.unique (F.rep (F.rootaddr st)) = true := fun st => hF.rep _ (hst st).1
  have hx : ∀ st, F.urootIdx (F.rootaddr st) = F.urootIdx (F.rep (F.rootaddr st)) := fun st => (hidx _ (hst st).1).symm
  have hne : ∀ st, F.nelec (F.rep (F.rootaddr st)) = F.nelec (F.rootaddr st) := fun st => hF.nelec _ (hst st).1
  have hle : ∀ i j, ¬(F.urootIdx (F.rootaddr i) < F.urootIdx (F.rootaddr j)) → F.rep (F.rootaddr j) ≤ F.rep (F.rootaddr i) := by
    intro i j h
    rw [← addr_idx hF (hst i).1, ← addr_idx hF (hst j).1]
    by_cases he : F.urootIdx (F.rootaddr j) = F.urootIdx (F.rootaddr i)
    · rw [he]
    · exact Nat.le_of_lt (addr_lt (idx_lt hF (hst i).1) (by omega))
  constructor
  · intro i j hc
    obtain ⟨d, h1, h2⟩ := hM.ovlp _ (hr i).1 _ (hr j).1 (hr i).2 (hr j).2 (by
      rw [hne, hne]; have a := hc true; have b := hc false; exact Prod.ext (by simpa using b) (by simpa using a))
    unfold toFragInt
    dsimp only
    rw [hx i, hx j, h1]
    exact h2 _ (hst i).2 _ (hst j).2
  · intro s i j x hc hxn
    obtain ⟨d, h1, h2⟩ := hM.h s _ (hr i).1 _ (hr j).1 (hr i).2 (hr j).2 (by
      rw [hne, hne]; have a := hc true; have b := hc false
      cases s <;> exact Prod.ext (by simpa [plus, one] using b) (by simpa [plus, one] using a))
    unfold toFragInt
    dsimp only
    rw [hx i, hx j, h1]
    exact h2 _ (hst i).2 _ (hst j).2 x hxn
  · intro s t i j x y hc hst' hxn hyn
    obtain ⟨d, h1, h2⟩ := hM.hh s t hst' _ (hr i).1 _ (hr j).1 (hr i).2 (hr j).2 (by
      rw [hne, hne]; have a := hc true; have b := hc false
      cases s <;> cases t <;> exact Prod.ext (by simpa [plus, one] using b) (by simpa [plus, one] using a))
    unfold toFragInt
    dsimp only
    rw [hx i, hx j, h1]
    exact h2 _ (hst i).2 _ (hst j).2 x hxn y hyn
  · intro s t i j r p q hc hrn hp hq
    obtain ⟨d, h1, h2⟩ := hM.phh s _ (hr i).1 _ (hr j).1 (hr i).2 (hr j).2 (by
      rw [hne, hne]; have a := hc true; have b := hc false
      cases s <;> exact Prod.ext (by simpa [plus, one] using b) (by simpa [plus, one] using a))
    unfold toFragInt
    dsimp only
    rw [hx i, hx j, h1]
    exact h2 _ (hst i).2 _ (hst j).2 t r hrn p hp q hq
  · intro i j x y hc hxn hyn
    obtain ⟨d, h1, h2⟩ := hM.sm _ (hr i).1 _ (hr j).1 (hr i).2 (hr j).2 (by
      rw [hne, hne]; have a := hc true; have b := hc false
      exact Prod.ext (by simpa [plus, one] using b) (by simpa [plus, one] using a))
    unfold toFragInt
    dsimp only
    rw [hx i, hx j, h1]
    exact h2 _ (hst i).2 _ (hst j).2 x hxn y hyn
  · intro i j s a b hc ha hb
    have hc' : F.nelec (F.rep (F.rootaddr i)) = F.nelec (F.rep (F.rootaddr j)) := by
      rw [hne, hne]; have a := hc true; have b := hc false; exact Prod.ext (by simpa using b) (by simpa using a)
    constructor
    · intro hup
      have hup : ¬(F.urootIdx (F.rootaddr i) < F.urootIdx (F.rootaddr j)) := of_decide_eq_false hup
      obtain ⟨d, h1, h2⟩ := hM.dm1 _ (hr i).1 _ (hr j).1 (hr i).2 (hr j).2 hc' (hle i j hup)
      unfold toFragInt
      dsimp only
      rw [hx i, hx j, h1]
      exact h2 _ (hst i).2 _ (hst j).2 s a ha b hb
    · intro hup
      have hup : F.urootIdx (F.rootaddr i) < F.urootIdx (F.rootaddr j) := of_decide_eq_true hup
      obtain ⟨d, h1, h2⟩ := hM.dm1 _ (hr j).1 _ (hr i).1 (hr j).2 (hr i).2 hc'.symm (hle j i (by omega))
      unfold toFragInt
      dsimp only
      rw [hx i, hx j, h1]
      exact h2 _ (hst j).2 _ (hst i).2 s b hb a ha
  · intro i j s t a b d e hc ha hb hd he
    have hc' : F.nelec (F.rep (F.rootaddr i)) = F.nelec (F.rep (F.rootaddr j)) := by
      rw [hne, hne]; have a := hc true; have b := hc false; exact Prod.ext (by simpa using b) (by simpa using a)
    constructor
    · intro hup
      have hup : ¬(F.urootIdx (F.rootaddr i) < F.urootIdx (F.rootaddr j)) := of_decide_eq_false hup
      obtain ⟨x, h1, h2⟩ := hM.dm2 _ (hr i).1 _ (hr j).1 (hr i).2 (hr j).2 hc' (hle i j hup)
      unfold toFragInt
      dsimp only
      rw [hx i, hx j, h1]
      exact h2 _ (hst i).2 _ (hst j).2 s t a ha b hb d hd e he
    · intro hup
      have hup : F.urootIdx (F.rootaddr i) < F.urootIdx (F.rootaddr j) := of_decide_eq_true hup
      obtain ⟨x, h1, h2⟩ := hM.dm2 _ (hr j).1 _ (hr i).1 (hr j).2 (hr i).2 hc'.symm (hle j i (by omega))
      unfold toFragInt
      dsimp only
      rw [hx i, hx j, h1]
      exact h2 _ (hst j).2 _ (hst i).2 s t b hb a ha e he d hd

/-- **C105**. An object made of right tables for every fragment describes the product states of these vectors: the hypothesis of the
theorems about the factorized density matrices, Hamiltonians and overlaps (C98 to C103). -/
theorem C105_describes (L : Verif.Lstdm.Lstdm K) (F : Nat → Frag K) (M : Nat → Mats K)
    (hF : ∀ f < L.nlas.length, Coherent (F f) ∧ Filled (F f) (M f) ∧ (F f).norb = L.nlas.getD f 0 ∧ 0 < L.nlas.getD f 0 ∧
      L.ints f = toFragInt (F f) (M f))
    (hst : ∀ f < L.nlas.length, ∀ st, (F f).rootaddr st < (F f).nroots ∧
      (F f).fragaddr st < (F f).lroots ((F f).rep ((F f).rootaddr st)))
    (hne : ∀ st, (L.nelec st).length = L.nlas.length ∧ ∀ f < L.nlas.length, (L.nelec st).getD f (0, 0) = (F f).nelec ((F f).rootaddr st)) :
    Describes L (fun f st => civ (F f) ((F f).rep ((F f).rootaddr st)) ((F f).fragaddr st)) := by
  refine ⟨fun f hf => (hF f hf).2.2.2.1, fun st => (hne st).1, ?_, ?_⟩
  · intro f hf st A B h
    obtain ⟨h1, -, h3, -, -⟩ := hF f hf
    unfold civ vec at h
    by_cases hm : A ∈ strs (F f).norb ((F f).nelec ((F f).rep ((F f).rootaddr st))).1 ∧
        B ∈ strs (F f).norb ((F f).nelec ((F f).rep ((F f).rootaddr st))).2
    · rw [mem_strs, mem_strs, h1.nelec _ (hst f hf st).1, h3] at hm
      unfold cnt
      rw [(hne st).2 f hf]
      exact ⟨hm.1.2, hm.2.2⟩
    · exact absurd (if_neg hm) h
  · intro f hf
    obtain ⟨h1, h2, h3, -, h5⟩ := hF f hf
    rw [h5, ← h3]
    have : cnt L f = fun st σ => if σ then ((F f).nelec ((F f).rootaddr st)).2 else ((F f).nelec ((F f).rootaddr st)).1 := by
      funext st σ
      unfold cnt
      rw [(hne st).2 f hf]
    rw [this]
    exact C105_lookup h1 h2 (hst f hf)

namespace FragTables

/-- One orbital; rootspaces with 1+1, 1+0, 0+1, 1+0 (equal to the second) and 0+0 electrons. -/
def demo : Frag Int where
  norb := 1
  nroots := 5
  nelec i := [(1, 1), (1, 0), (0, 1), (1, 0), (0, 0)].getD i (0, 0)
  lroots i := [1, 2, 1, 2, 1].getD i 0
  ci i a := fun _ _ => 2 + 3 * (a : Int) + [0, 1, 2, 1, 5].getD i 0
  unique i := i != 3
  rep i := if i = 3 then 1 else i
  rootaddr st := [0, 1, 1, 2, 3, 3, 4].getD st 0
  fragaddr st := [0, 0, 1, 0, 0, 1, 0].getD st 0

end FragTables

/-- Non-vacuity: the tables of `demo`, looked up by model state, and after replacing the vectors of the second rootspace. -/
example : Right12 (exactExt : Ext Int) ∧ Coherent demo ∧
    ((makeDms exactExt demo none (Mats.empty Int)).map fun M =>
      (let T := toFragInt demo M
       (T.ovlp 1 5, T.h 1 5 0 0, T.sm 3 2 0 0, T.dm1 5 1 0 0 0, T.upper 0 3, T.hh 1 6 0 0 0))) = some (18, -12, 24, 18, true, 14) ∧
    ((makeDms exactExt demo none (Mats.empty Int)).bind fun M =>
      (updateCi exactExt demo M [1] [(2, fun a _ _ => 10 * a + 1)]).map fun x =>
      (let T := toFragInt x.1 x.2
       (T.ovlp 1 5, T.h 1 5 0 0, T.sm 3 2 0 0, T.hh 1 6 0 0 0))) = some (11, -22, 44, 14) := by
  refine ⟨exactExt_right, ⟨?_, ?_, ?_, ?_⟩, ?_, ?_⟩
  · decide
  · decide
  · decide
  · decide
  · decide +kernel
  · decide +kernel

end Verif.Props
