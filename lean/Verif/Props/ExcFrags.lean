import Verif.Spec.ExcFrags
import Verif.Props.SymBlocks
/-!
# C56: excited-fragment bookkeeping
-/
namespace Verif.Props
open Verif.ExcFrags Verif.Spec.ExcFrags Verif.SymBlocks Verif.Spec.SymBlocks SymBlocks

namespace ExcFrags

/-- The state as an association list. -/
def assoc (st : State) : List (Nat × Solver) := st.frags.zip st.solvers

structure Inv (nelecRef : Nat → Nat × Nat) (norbRef : Nat → Nat) (h : List Call) (st : State) : Prop where
  sorted : st.frags.Pairwise (· < ·)
  len : st.frags.length = st.solvers.length
  last : ∀ f s, (f, s) ∈ assoc st ↔ ∃ c, lastCall h f = some c ∧ s = mkSolver nelecRef norbRef c

theorem zip_take {α β : Type} (l : List α) (m : List β) (idx : List Nat) (hl : l.length = m.length)
    (h : ∀ i ∈ idx, i < l.length) :
    (idx.filterMap (fun i => l[i]?)).zip (idx.filterMap (fun i => m[i]?)) = idx.filterMap (fun i => (l.zip m)[i]?) := by
  induction idx with
  | nil => rfl
  | cons i idx ih =>
    have h1 := h i (by simp)
    have h2 : i < m.length := hl ▸ h1
    have h3 : i < (l.zip m).length := by rw [List.length_zip]; omega
    rw [List.filterMap_cons_some (List.getElem?_eq_getElem h1), List.filterMap_cons_some (List.getElem?_eq_getElem h2),
      List.filterMap_cons_some (List.getElem?_eq_getElem h3), List.zip_cons_cons,
      ih (fun j hj => h j (List.mem_cons_of_mem _ hj)), List.getElem_zip]

theorem lastCall_snoc (h : List Call) (c : Call) (f : Nat) :
    lastCall (h ++ [c]) f = if c.frag = f then some c else lastCall h f := by
  unfold lastCall
  rw [List.reverse_append, List.reverse_singleton, List.singleton_append, List.find?_cons]
  by_cases hc : c.frag = f
  · simp [hc]
  · rw [if_neg hc, beq_eq_false_iff_ne.2 hc]

theorem mem_zip_set {α β : Type} [DecidableEq α] (l : List α) (m : List β) (hl : l.length = m.length) (hn : l.Nodup)
    (a : α) (ha : a ∈ l) (b : β) (x : α) (y : β) :
    (x, y) ∈ l.zip (m.set (l.idxOf a) b) ↔ if x = a then y = b else (x, y) ∈ l.zip m := by
  have hi := List.idxOf_lt_length_of_mem ha
  constructor
  · intro h
    obtain ⟨i, hi1, hi2⟩ := List.mem_iff_getElem.1 h
    rw [List.getElem_zip, Prod.mk.injEq, List.getElem_set] at hi2
    rw [List.length_zip, List.length_set] at hi1
    obtain ⟨e1, e2⟩ := hi2
    by_cases hx : l.idxOf a = i
    · rw [if_pos hx] at e2
      have : x = a := by rw [← e1]; subst hx; exact List.getElem_idxOf hi
      rw [if_pos this, e2]
    · rw [if_neg hx] at e2
      have : x ≠ a := by
        rintro rfl
        apply hx
        rw [← e1, hn.idxOf_getElem]
      rw [if_neg this, List.mem_iff_getElem]
      exact ⟨i, by rw [List.length_zip]; omega, by rw [List.getElem_zip, e1, e2]⟩
  · intro h
    by_cases hx : x = a
    · rw [if_pos hx] at h
      rw [List.mem_iff_getElem]
      refine ⟨l.idxOf a, by rw [List.length_zip, List.length_set]; omega, ?_⟩
      rw [List.getElem_zip, List.getElem_set_self, List.getElem_idxOf hi, hx, h]
    · rw [if_neg hx, List.mem_iff_getElem] at h
      obtain ⟨i, hi1, hi2⟩ := h
      rw [List.getElem_zip, Prod.mk.injEq] at hi2
      rw [List.length_zip] at hi1
      rw [List.mem_iff_getElem]
      refine ⟨i, by rw [List.length_zip, List.length_set]; omega, ?_⟩
      rw [List.getElem_zip, List.getElem_set, if_neg, hi2.1, hi2.2]
      intro he
      apply hx
      rw [← hi2.1]
      subst he
      exact List.getElem_idxOf hi

theorem inv_step (argsort : List Nat → List Nat) (hs : ∀ l, IsArgsort l (argsort l)) (nelecRef : Nat → Nat × Nat)
    (norbRef : Nat → Nat) (h : List Call) (st : State) (c : Call) (hi : Inv nelecRef norbRef h st) :
    Inv nelecRef norbRef (h ++ [c]) (setExcited argsort nelecRef norbRef st c) := by
  have hn : st.frags.Nodup := hi.sorted.imp (fun h => Nat.ne_of_lt h)
  unfold setExcited
  by_cases hc : c.frag ∈ st.frags
  · simp only [if_pos hc]
    refine ⟨hi.sorted, by simpa using hi.len, fun f s => ?_⟩
    unfold assoc
    simp only
    rw [mem_zip_set _ _ hi.len hn _ hc, lastCall_snoc]
    by_cases hf : f = c.frag
    · rw [if_pos hf, if_pos hf.symm]
      simp
    · rw [if_neg hf, if_neg (Ne.symm hf)]
      exact hi.last f s
  · simp only [if_neg hc]
    set l := st.frags ++ [c.frag] with hl
    set m := st.solvers ++ [mkSolver nelecRef norbRef c] with hm
    have hlen : l.length = m.length := by simp [hl, hm, hi.len]
    have ha := hs l
    have hb : ∀ i ∈ argsort l, i < l.length := fun i h => List.mem_range.1 (ha.perm.mem_iff.1 h)
    have hp := take_perm l (argsort l) ha.perm
    have hnl : l.Nodup := by
      rw [hl, List.nodup_append]
      refine ⟨hn, by simp, fun a h1 b h2 => ?_⟩
      rw [List.mem_singleton] at h2
      rintro rfl
      exact hc (h2 ▸ h1)
    refine ⟨?_, ?_, fun f s => ?_⟩
    · have h1 := ha.sorted
      rw [← take_map_some l _ hb, List.pairwise_map] at h1
      have h2 : ((argsort l).filterMap (fun i => l[i]?)).Nodup := hp.nodup_iff.2 hnl
      refine (h1.and h2).imp ?_
      intro a b hab
      have := hab.1 a rfl b rfl
      have := hab.2
      omega
    · have hq := take_perm m (argsort l) (by rw [← hlen]; exact ha.perm)
      rw [hp.length_eq, hq.length_eq, hlen]
    · unfold assoc
      simp only
      have hz : (l.zip m).length = l.length := by rw [List.length_zip]; omega
      rw [zip_take l m _ hlen hb, (take_perm (l.zip m) (argsort l) (by rw [hz]; exact ha.perm)).mem_iff, hl, hm,
        List.zip_append hi.len, List.mem_append, lastCall_snoc]
      have := hi.last f s
      unfold assoc at this
      rw [this]
      by_cases hf : c.frag = f
      · rw [if_pos hf]
        constructor
        · rintro (h1 | h1)
          · exact absurd (this.2 h1) (fun h2 => hc (hf ▸ (List.of_mem_zip h2).1))
          · simp only [List.zip_cons_cons, List.zip_nil_right, List.mem_singleton, Prod.mk.injEq] at h1
            exact ⟨c, rfl, h1.2⟩
        · rintro ⟨c', h1, h2⟩
          cases h1
          right
          simp [hf, h2]
      · rw [if_neg hf]
        constructor
        · rintro (h1 | h1)
          · exact h1
          · simp only [List.zip_cons_cons, List.zip_nil_right, List.mem_singleton, Prod.mk.injEq] at h1
            exact absurd h1.1.symm hf
        · exact fun h1 => Or.inl h1

end ExcFrags
open ExcFrags

/-- **C56**. After any history of calls the excited fragments are strictly increasing, the two lists have the same length,
and the solver paired with a fragment is the one requested by the last call for that fragment: it has that call's electron
numbers, multiplicity and spin, the orbitals of the reference fragment, and a charge equal to the number of electrons
removed from the reference fragment. Fragments that no call named are absent. -/
theorem C56_history (argsort : List Nat → List Nat) (hs : ∀ l, IsArgsort l (argsort l)) (nelecRef : Nat → Nat × Nat)
    (norbRef : Nat → Nat) (h : List Call) :
    let st := h.foldl (setExcited argsort nelecRef norbRef) init
    st.frags.Pairwise (· < ·) ∧ st.frags.length = st.solvers.length ∧
      (∀ f, f ∈ st.frags ↔ ∃ c ∈ h, c.frag = f) ∧
      ∀ (i f : Nat) (s : Solver), st.frags[i]? = some f → st.solvers[i]? = some s →
        ∃ c, lastCall h f = some c ∧ s.nelec = c.nelec ∧ s.smult = c.smult ∧ s.norb = norbRef f ∧
          s.spin = (c.nelec.1 : Int) - c.nelec.2 ∧
          s.charge + c.nelec.1 + c.nelec.2 = (nelecRef f).1 + (nelecRef f).2 ∧
          (∀ w, s.weights = some w ↔ c.weights = some w ∧ 2 ≤ w.length) := by
  intro st
  have hi : Inv nelecRef norbRef h st := by
    have : ∀ g : List Call, Inv nelecRef norbRef g (g.foldl (setExcited argsort nelecRef norbRef) init) := by
      intro g
      induction g using List.reverseRecOn with
      | nil => exact ⟨List.Pairwise.nil, rfl, fun f s => by simp [assoc, init, lastCall]⟩
      | append_singleton g c ih => rw [List.foldl_append]; exact inv_step argsort hs nelecRef norbRef g _ c ih
    exact this h
  refine ⟨hi.sorted, hi.len, fun f => ?_, fun i f s h1 h2 => ?_⟩
  · have : (∃ c ∈ h, c.frag = f) ↔ (lastCall h f).isSome := by
      simp [lastCall, List.find?_isSome]
    rw [this]
    constructor
    · intro hf
      obtain ⟨i, h1, h2⟩ := List.mem_iff_getElem.1 hf
      have h3 : i < st.solvers.length := hi.len ▸ h1
      obtain ⟨c, hc, -⟩ := (hi.last f st.solvers[i]).1 (List.mem_iff_getElem.2
        ⟨i, by unfold assoc; rw [List.length_zip]; omega, by unfold assoc; rw [List.getElem_zip, h2]⟩)
      rw [hc]; rfl
    · intro hf
      obtain ⟨c, hc⟩ := Option.isSome_iff_exists.1 hf
      exact (List.of_mem_zip ((hi.last f _).2 ⟨c, hc, rfl⟩)).1
  · obtain ⟨a1, a2⟩ := List.getElem?_eq_some_iff.1 h1
    obtain ⟨b1, b2⟩ := List.getElem?_eq_some_iff.1 h2
    obtain ⟨c, hc, rfl⟩ := (hi.last f s).1 (List.mem_iff_getElem.2
      ⟨i, by unfold assoc; rw [List.length_zip]; omega, by unfold assoc; rw [List.getElem_zip, a2, b2]⟩)
    have hcf : c.frag = f := by
      have := List.find?_some hc
      simpa using this
    refine ⟨c, hc, rfl, rfl, by simp [mkSolver, hcf], rfl, ?_, fun w => ?_⟩
    · simp only [mkSolver, hcf]; omega
    · simp only [mkSolver]
      cases hw : c.weights with
      | none => simp
      | some v =>
        simp only [Option.bind_some, Option.some.injEq]
        by_cases hv : v.length > 1
        · rw [if_pos hv]
          constructor
          · intro e; cases e; exact ⟨rfl, hv⟩
          · rintro ⟨rfl, -⟩; rfl
        · rw [if_neg hv]
          constructor
          · intro e; cases e
          · rintro ⟨rfl, e⟩; omega

namespace ExcFrags

theorem range_blocks (norb : List Nat) : List.range norb.sum = (List.range norb.length).flatMap (fragOrbs norb) := by
  induction norb using List.reverseRecOn with
  | nil => rfl
  | append_singleton l n ih =>
    rw [List.sum_append, List.sum_singleton, List.length_append, List.length_singleton, List.range_add, List.range_succ,
      List.flatMap_append, ih]
    congr 1
    · apply List.flatMap_congr
      intro f hf
      rw [List.mem_range] at hf
      unfold fragOrbs
      rw [List.take_append_of_le_length (by omega), List.getD_append _ _ _ _ hf]
    · simp [fragOrbs, List.range_eq_range', List.map_add_range']

theorem mem_fragOrbs {norb : List Nat} {f p : Nat} :
    p ∈ fragOrbs norb f ↔ (norb.take f).sum ≤ p ∧ p < (norb.take f).sum + norb.getD f 0 := by
  unfold fragOrbs
  rw [List.mem_range'_1]

theorem mask_iff (norb : List Nat) (frags : List Nat) (f p : Nat) (hf : f < norb.length) (hp : p ∈ fragOrbs norb f) :
    orbMask norb frags p = decide (f ∈ frags) := by
  have hlt : p < norb.sum := by
    have : p ∈ List.range norb.sum := by
      rw [range_blocks, List.mem_flatMap]
      exact ⟨f, List.mem_range.2 hf, hp⟩
    exact List.mem_range.1 this
  have h1 := (spaceOf_iff norb p hlt f).1 (mem_fragOrbs.1 hp)
  unfold orbMask
  rw [Bool.eq_iff_iff, List.any_eq_true, decide_eq_true_eq]
  constructor
  · rintro ⟨g, hg, h2⟩
    have h3 := (spaceOf_iff norb p hlt g).1 (by simpa [prodOff] using h2)
    rw [← h1, h3]
    exact hg
  · intro h
    exact ⟨f, h, by simpa using mem_fragOrbs.1 hp⟩

theorem filter_blocks (norb : List Nat) (P : Nat → Bool) (Q : Nat → Bool)
    (h : ∀ f < norb.length, ∀ p ∈ fragOrbs norb f, P p = Q f) :
    (List.range norb.sum).filter P = ((List.range norb.length).filter Q).flatMap (fragOrbs norb) := by
  rw [range_blocks]
  have : ∀ l : List Nat, (∀ f ∈ l, f < norb.length) →
      (l.flatMap (fragOrbs norb)).filter P = (l.filter Q).flatMap (fragOrbs norb) := by
    intro l
    induction l with
    | nil => intro _; rfl
    | cons f l ih =>
      intro hl
      have hf := h f (hl f (by simp))
      rw [List.flatMap_cons, List.filter_append, ih (fun g hg => hl g (List.mem_cons_of_mem _ hg)), List.filter_cons]
      cases hq : Q f with
      | true =>
        rw [if_pos rfl, List.flatMap_cons, List.filter_eq_self.2 (fun p hp => by rw [hf p hp, hq])]
      | false =>
        rw [if_neg (by simp), List.filter_eq_nil_iff.2 (fun p hp => by rw [hf p hp, hq]; simp), List.nil_append]
  exact this _ (fun f hf => List.mem_range.1 hf)

theorem filter_mem_sorted (frags : List Nat) (hs : frags.Pairwise (· < ·)) (n : Nat) (hn : ∀ f ∈ frags, f < n) :
    (List.range n).filter (fun f => decide (f ∈ frags)) = frags := by
  apply List.Perm.eq_of_pairwise (le := (· < ·))
  · intro a b _ _ h1 h2; omega
  · exact List.Pairwise.filter _ List.pairwise_lt_range
  · exact hs
  · apply (List.perm_ext_iff_of_nodup (List.nodup_range.filter _) (hs.imp (fun h => Nat.ne_of_lt h))).2
    intro a
    rw [List.mem_filter, List.mem_range, decide_eq_true_eq]
    exact ⟨fun h => h.2, fun h => ⟨hn a h, h⟩⟩

end ExcFrags

/-- **C56**. After any history of calls on existing fragments, the orbital order used for the excited-fragment Hamiltonian
lists the orbitals of the excited fragments first, in the order of the solver list, and then those of the other fragments in
order; and the fragment sizes handed on are the total size of the excited block followed by the sizes of the others. -/
theorem C56_orbitals (argsort : List Nat → List Nat) (hs : ∀ l, IsArgsort l (argsort l)) (nelecRef : Nat → Nat × Nat)
    (norbRef : Nat → Nat) (h : List Call) (norb : List Nat) (hf : ∀ c ∈ h, c.frag < norb.length) :
    let st := h.foldl (setExcited argsort nelecRef norbRef) init
    let rest := (List.range norb.length).filter (fun f => !decide (f ∈ st.frags))
    orbOrder norb st.frags = st.frags.flatMap (fragOrbs norb) ++ rest.flatMap (fragOrbs norb) ∧
      normRef norb st.frags = (st.frags.map (fun f => norb.getD f 0)).sum :: rest.map (fun f => norb.getD f 0) := by
  intro st rest
  obtain ⟨h1, -, h3, -⟩ := C56_history argsort hs nelecRef norbRef h
  change st.frags.Pairwise (· < ·) at h1
  have hlt : ∀ f ∈ st.frags, f < norb.length := by
    intro f hfr
    obtain ⟨c, hc, rfl⟩ := (h3 f).1 hfr
    exact hf c hc
  have e1 : (List.range norb.sum).filter (orbMask norb st.frags) = st.frags.flatMap (fragOrbs norb) := by
    rw [filter_blocks norb _ (fun f => decide (f ∈ st.frags)) (fun f hf p hp => mask_iff norb _ f p hf hp),
      filter_mem_sorted _ h1 _ hlt]
  constructor
  · unfold orbOrder
    rw [e1, filter_blocks norb _ (fun f => !decide (f ∈ st.frags)) (fun f hf p hp => by rw [mask_iff norb _ f p hf hp])]
  · unfold normRef
    congr 1
    · rw [List.countP_eq_length_filter, e1, List.length_flatMap]
      congr 1
      apply List.map_congr_left
      intro f _
      simp [fragOrbs]
    · have : norb.zipIdx = (List.range norb.length).map (fun f => (norb.getD f 0, f)) := by
        apply List.ext_getElem?
        intro i
        by_cases hi : i < norb.length
        · simp [List.getD_eq_getElem?_getD, hi]
        · simp [hi]
      rw [this, List.filterMap_map]
      simp only [rest]
      generalize List.range norb.length = l
      induction l with
      | nil => rfl
      | cons f l ih =>
        rw [List.filterMap_cons, List.filter_cons]
        by_cases hm : f ∈ st.frags
        · simpa [hm] using ih
        · simpa [hm] using ih

/-- Non-vacuity: three calls on two of three fragments, the first fragment excited again later. Insertion sort is an argsort. -/
example : ∃ argsort : List Nat → List Nat, ∀ l, IsArgsort l (argsort l) := by
  refine ⟨fun l => (List.range l.length).mergeSort (fun i j => decide (l.getD i 0 ≤ l.getD j 0)), fun l => ⟨?_, ?_⟩⟩
  · exact List.mergeSort_perm _ _
  · have h := List.pairwise_mergeSort (le := fun i j => decide (l.getD i 0 ≤ l.getD j 0))
      (by intro a b c; simp only [decide_eq_true_eq]; omega)
      (by intro a b; simp only [Bool.or_eq_true, decide_eq_true_eq]; omega) (List.range l.length)
    rw [List.pairwise_map]
    refine h.imp ?_
    intro a b hab x hx y hy
    rw [Option.mem_def] at hx hy
    simpa [List.getD_eq_getElem?_getD, hx, hy] using hab

/-- Non-vacuity: the conclusion on a concrete history. -/
example : (lastCall [⟨2, (2, 1), 2, none⟩, ⟨0, (1, 0), 2, none⟩, ⟨2, (1, 1), 3, some [1, 1]⟩] 2).map Call.nelec = some (1, 1) ∧
    (([⟨2, (2, 1), 2, none⟩, ⟨0, (1, 0), 2, none⟩, ⟨2, (1, 1), 3, some [1, 1]⟩] : List Call).foldl
      (setExcited (fun l => if l = [2, 0] then [1, 0] else List.range l.length) (fun _ => (1, 1)) (fun f => f + 2)) init).frags
        = [0, 2] ∧
    orbOrder [2, 1, 3] [0, 2] = [0, 1, 3, 4, 5, 2] ∧ normRef [2, 1, 3] [0, 2] = [5, 1] := by decide

end Verif.Props
