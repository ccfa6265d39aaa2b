import Verif.Model.Chkfile
import Mathlib.Data.List.Basic
import Mathlib.Data.List.Infix
import Mathlib.Data.List.Nodup
import Mathlib.Tactic.Common
/-!
# Lemmas on checkpoint files
-/
namespace Verif.Chkfile
variable {V : Type}

theorem mem_parents {p q : Path} : q ∈ parents p ↔ q ≠ [] ∧ q <+: p ∧ q ≠ p := by
  unfold parents
  rw [List.mem_map]
  constructor
  · rintro ⟨n, hn, rfl⟩
    rw [List.mem_range'_1] at hn
    refine ⟨?_, List.take_prefix _ _, ?_⟩
    · intro h
      have := congrArg List.length h
      rw [List.length_take] at this
      rw [List.length_nil] at this; omega
    · intro h
      have := congrArg List.length h
      rw [List.length_take] at this; omega
  · rintro ⟨h1, h2, h3⟩
    refine ⟨q.length, ?_, (List.prefix_iff_eq_take.mp h2).symm⟩
    rw [List.mem_range'_1]
    have l1 : 0 < q.length := List.length_pos_iff.mpr h1
    have l2 := h2.length_le
    have l3 : q.length ≠ p.length := fun h => h3 (h2.eq_of_length h)
    omega

/-- The object that a creating operation creates. -/
def FOp.item : FOp V → Option (Path × Entry V)
  | .group p => some (p, .group)
  | .put p v => some (p, .data v)
  | _ => none

/-- The later of two creations does not collide with the earlier. -/
def Rel (a b : FOp V) : Prop := ∀ pa ea pb eb, a.item = some (pa, ea) → b.item = some (pb, eb) →
  ¬ pb <+: pa ∧ ((∃ v, ea = .data v) → ¬ pa <+: pb)

theorem rel_gg (p q : Path) : Rel (FOp.group p : FOp V) (.group q) ↔ ¬ q <+: p := by
  constructor
  · intro h; exact (h p _ q _ rfl rfl).1
  · intro h pa ea pb eb h1 h2
    cases h1; cases h2
    exact ⟨h, by simp⟩

theorem rel_gp (p q : Path) (w : V) : Rel (FOp.group p : FOp V) (.put q w) ↔ ¬ q <+: p := by
  constructor
  · intro h; exact (h p _ q _ rfl rfl).1
  · intro h pa ea pb eb h1 h2
    cases h1; cases h2
    exact ⟨h, by simp⟩

theorem rel_pg (p q : Path) (v : V) : Rel (FOp.put p v : FOp V) (.group q) ↔ ¬ q <+: p ∧ ¬ p <+: q := by
  constructor
  · intro h; exact ⟨(h p _ q _ rfl rfl).1, (h p _ q _ rfl rfl).2 ⟨v, rfl⟩⟩
  · intro h pa ea pb eb h1 h2
    cases h1; cases h2
    exact ⟨h.1, fun _ => h.2⟩

theorem rel_pp (p q : Path) (v w : V) : Rel (FOp.put p v : FOp V) (.put q w) ↔ ¬ q <+: p ∧ ¬ p <+: q := by
  constructor
  · intro h; exact ⟨(h p _ q _ rfl rfl).1, (h p _ q _ rfl rfl).2 ⟨v, rfl⟩⟩
  · intro h pa ea pb eb h1 h2
    cases h1; cases h2
    exact ⟨h.1, fun _ => h.2⟩

/-- The operation can be executed in `f` as far as `f` is concerned. -/
def Free (f : File V) (op : FOp V) : Prop := ∃ p e, op.item = some (p, e) ∧ p ≠ [] ∧ f p = none ∧
  ∀ q, q ≠ [] → q <+: p → ∀ v, f q ≠ some (.data v)

theorem create_free {f : File V} {p : Path} {e : Entry V} (hp : p ≠ []) (h0 : f p = none)
    (hq : ∀ q, q ≠ [] → q <+: p → ∀ v, f q ≠ some (.data v)) :
    ∃ f1, create f p e = some f1 ∧ f1 p = some e ∧ (∀ q, q ≠ p → q ≠ [] → q <+: p → f q = none → f1 q = some .group) ∧
      (∀ q x, f q = some x → f1 q = some x) ∧ (∀ q, f q = none → ¬ q <+: p → f1 q = none) := by
  unfold create
  rw [if_neg (by rw [h0]; simp), if_neg]
  · refine ⟨_, rfl, by rw [if_pos rfl], ?_, ?_, ?_⟩
    · intro q h1 h2 h3 h4
      beta_reduce
      rw [if_neg h1, if_pos ⟨mem_parents.mpr ⟨h2, h3, h1⟩, by rw [h4]; rfl⟩]
    · intro q x hx
      beta_reduce
      rw [if_neg (fun h => by rw [h, h0] at hx; exact absurd hx (by simp)), if_neg (fun h => by rw [hx] at h; simp at h)]
      exact hx
    · intro q hn hpre
      beta_reduce
      rw [if_neg (fun (h : q = p) => hpre (by rw [h])), if_neg (fun h => hpre (mem_parents.mp h.1).2.1)]
      exact hn
  · intro h
    rw [List.any_eq_true] at h
    obtain ⟨q, hm, hd⟩ := h
    obtain ⟨h1, h2, _⟩ := mem_parents.mp hm
    cases hc : f q with
    | none => rw [hc] at hd; simp at hd
    | some x =>
      cases x with
      | group => rw [hc] at hd; simp at hd
      | data v => exact hq q h1 h2 v hc

/-- A sequence of non-colliding creations. -/
theorem run_new (ops : List (FOp V)) (f : File V) (hP : ops.Pairwise Rel) (hF : ∀ op ∈ ops, Free f op) :
    ∃ f', run ops f = some f' ∧ (∀ op ∈ ops, ∀ p e, op.item = some (p, e) → f' p = some e) ∧
      (∀ q x, f q = some x → f' q = some x) ∧
      (∀ q, f q = none → (∀ op ∈ ops, ∀ p e, op.item = some (p, e) → ¬ q <+: p) → f' q = none) ∧
      (∀ op ∈ ops, ∀ p e, op.item = some (p, e) → ∀ q, q ≠ [] → q <+: p → (f' q).isSome) := by
  induction ops generalizing f with
  | nil => exact ⟨f, rfl, by simp, fun q x h => h, fun q h _ => h, by simp⟩
  | cons op l ih =>
    rw [List.pairwise_cons] at hP
    obtain ⟨p, e, hi, hp, h0, hq⟩ := hF op (by simp)
    obtain ⟨f1, hc, c1, c2, c3, c4⟩ := create_free (e := e) hp h0 hq
    have ha : apply f op = some f1 := by
      cases op with
      | delIf _ => simp [FOp.item] at hi
      | putNew _ _ => simp [FOp.item] at hi
      | group q =>
        simp only [FOp.item, Option.some.injEq, Prod.mk.injEq] at hi
        obtain ⟨rfl, rfl⟩ := hi
        exact hc
      | put q v =>
        simp only [FOp.item, Option.some.injEq, Prod.mk.injEq] at hi
        obtain ⟨rfl, rfl⟩ := hi
        exact hc
    have hF1 : ∀ op' ∈ l, Free f1 op' := by
      intro op' h'
      obtain ⟨p', e', hi', hp', h0', hq'⟩ := hF op' (by simp [h'])
      obtain ⟨r1, r2⟩ := hP.1 op' h' p e p' e' hi hi'
      refine ⟨p', e', hi', hp', c4 p' h0' r1, ?_⟩
      intro q hq0 hqp v hv
      by_cases hqe : q = p
      · subst hqe
        rw [c1] at hv
        exact r2 ⟨v, Option.some.inj hv⟩ hqp
      · cases hfq : f q with
        | some x =>
          rw [c3 q x hfq] at hv
          exact hq' q hq0 hqp v (by rw [hfq]; exact hv)
        | none =>
          by_cases hpre : q <+: p
          · rw [c2 q hqe hq0 hpre hfq] at hv; exact absurd hv (by simp)
          · rw [c4 q hfq hpre] at hv; exact absurd hv (by simp)
    obtain ⟨f', e1, e2, e3, e4, e5⟩ := ih f1 hP.2 hF1
    refine ⟨f', by rw [run, ha]; exact e1, ?_, ?_, ?_, ?_⟩
    · intro op' h' p' e' hi'
      rw [List.mem_cons] at h'
      rcases h' with rfl | h'
      · rw [hi] at hi'
        injection hi' with hi'
        injection hi' with a b
        rw [← a, ← b]
        exact e3 p e c1
      · exact e2 op' h' p' e' hi'
    · intro q x hx
      exact e3 q x (c3 q x hx)
    · intro q hn hpre
      apply e4 q (c4 q hn (hpre op (by simp) p e hi))
      intro op' h'
      exact hpre op' (by simp [h'])
    · intro op' h' p' e' hi' q hq0 hqp
      rw [List.mem_cons] at h'
      rcases h' with rfl | h'
      · rw [hi] at hi'
        injection hi' with hi'
        injection hi' with a b
        rw [← a] at hqp
        by_cases hqe : q = p
        · rw [hqe, e3 p e c1]; rfl
        · cases hfq : f q with
          | some x => rw [e3 q x (c3 q x hfq)]; rfl
          | none => rw [e3 q _ (c2 q hqe hq0 hqp hfq)]; rfl
      · exact e5 op' h' p' e' hi' q hq0 hqp

theorem run_append (l1 l2 : List (FOp V)) (f : File V) : run (l1 ++ l2) f = (run l1 f).bind (run l2) := by
  induction l1 generalizing f with
  | nil => rfl
  | cons op l ih =>
    rw [List.cons_append, run, run]
    cases apply f op with
    | none => rfl
    | some f1 => exact ih f1

theorem mapM_some_map {α β : Type} (l : List α) (g : α → Option β) (h : α → β) (hg : ∀ x ∈ l, g x = some (h x)) :
    l.mapM g = some (l.map h) := by
  induction l with
  | nil => rfl
  | cons x l ih =>
    rw [List.mapM_cons, hg x (by simp), ih (fun y hy => hg y (by simp [hy]))]; rfl

theorem mapM_none {α β : Type} (l : List α) (g : α → Option β) (x : α) (hx : x ∈ l) (hg : g x = none) :
    l.mapM g = none := by
  induction l with
  | nil => simp at hx
  | cons y l ih =>
    rw [List.mapM_cons]
    rw [List.mem_cons] at hx
    rcases hx with rfl | hx
    · rw [hg]; rfl
    · rw [ih hx]; cases g y <;> rfl

/-- The paths written by `opsAttrs`. -/
theorem opsAttrs_item {k : String} {data : List (String × V)} {fo : Option (List V)} {os : Option V} {op : FOp V}
    (h : op ∈ opsAttrs k data fo os) : ∃ t rest e, op.item = some (.key k :: .key t :: rest, e) ∧
      (t ∈ data.map Prod.fst ∧ rest = [] ∨ t = "frags_orbs" ∨ t = "mo_coeff_orbsym" ∧ rest = []) := by
  unfold opsAttrs at h
  rw [List.mem_append, List.mem_append] at h
  rcases h with (h | h) | h
  · rw [List.mem_map] at h
    obtain ⟨kv, hkv, rfl⟩ := h
    exact ⟨kv.1, [], .data kv.2, rfl, Or.inl ⟨List.mem_map_of_mem hkv, rfl⟩⟩
  · cases fo with
    | none => simp at h
    | some l =>
      simp only [List.mem_cons, List.mem_map] at h
      rcases h with rfl | ⟨vi, _, rfl⟩
      · exact ⟨_, [], .group, rfl, Or.inr (Or.inl rfl)⟩
      · exact ⟨_, [.idx vi.2], .data vi.1, rfl, Or.inr (Or.inl rfl)⟩
  · cases os with
    | none => simp at h
    | some v =>
      simp only [List.mem_singleton] at h
      subst h
      exact ⟨_, [], .data v, rfl, Or.inr (Or.inr ⟨rfl, rfl⟩)⟩

theorem zipIdx_pairwise {α : Type} (l : List α) (n : Nat) : (l.zipIdx n).Pairwise (fun a b => a.2 ≠ b.2) := by
  induction l generalizing n with
  | nil => simp
  | cons x l ih =>
    rw [List.zipIdx_cons, List.pairwise_cons]
    refine ⟨?_, ih (n + 1)⟩
    rintro ⟨y, m⟩ h
    have := List.le_snd_of_mem_zipIdx h
    simp only at this ⊢
    omega

theorem opsAttrs_pairwise (k : String) (data : List (String × V)) (fo : Option (List V)) (os : Option V)
    (hd : (data.map Prod.fst).Nodup) (h1 : "frags_orbs" ∉ data.map Prod.fst) (h2 : "mo_coeff_orbsym" ∉ data.map Prod.fst) :
    (opsAttrs k data fo os).Pairwise Rel := by
  unfold opsAttrs
  rw [List.pairwise_append, List.pairwise_append]
  refine ⟨⟨?_, ?_, ?_⟩, ?_, ?_⟩
  · rw [List.pairwise_map]
    unfold List.Nodup at hd
    rw [List.pairwise_map] at hd
    refine hd.imp ?_
    intro a b hab
    simp [rel_gg, rel_gp, rel_pg, rel_pp, List.cons_prefix_cons, hab, Ne.symm hab]
  · cases fo with
    | none => simp
    | some l =>
      rw [List.pairwise_cons]
      constructor
      · intro a h
        rw [List.mem_map] at h
        obtain ⟨_, _, rfl⟩ := h
        simp [rel_gg, rel_gp, rel_pg, rel_pp, List.cons_prefix_cons]
      · rw [List.pairwise_map]
        refine (zipIdx_pairwise l 0).imp ?_
        intro a b hab
        simp [rel_gg, rel_gp, rel_pg, rel_pp, List.cons_prefix_cons, hab, Ne.symm hab]
  · intro a ha b hb
    rw [List.mem_map] at ha
    obtain ⟨kv, hkv, rfl⟩ := ha
    have hne : kv.1 ≠ "frags_orbs" := fun h => h1 (h ▸ List.mem_map_of_mem hkv)
    cases fo with
    | none => simp at hb
    | some l =>
      simp only [List.mem_cons, List.mem_map] at hb
      rcases hb with rfl | ⟨vi, _, rfl⟩ <;> simp [rel_gg, rel_gp, rel_pg, rel_pp, List.cons_prefix_cons, hne, Ne.symm hne]
  · cases os <;> simp
  · intro a ha b hb
    cases os with
    | none => simp at hb
    | some v =>
      simp only [List.mem_singleton] at hb
      subst hb
      rw [List.mem_append, List.mem_map] at ha
      rcases ha with ⟨kv, hkv, rfl⟩ | ha
      · have hne : kv.1 ≠ "mo_coeff_orbsym" := fun h => h2 (h ▸ List.mem_map_of_mem hkv)
        simp [rel_gg, rel_gp, rel_pg, rel_pp, List.cons_prefix_cons, hne, Ne.symm hne]
      · cases fo with
        | none => simp at ha
        | some l =>
          simp only [List.mem_cons, List.mem_map] at ha
          rcases ha with rfl | ⟨vi, _, rfl⟩ <;> simp [rel_gg, rel_gp, rel_pg, rel_pp, List.cons_prefix_cons]

/-- A record: its group, its attributes and further operations `T` under the names `R`. -/
theorem record_pairwise (k : String) (data : List (String × V)) (fo : Option (List V)) (os : Option V)
    (T : List (FOp V)) (R : List String)
    (hd : (data.map Prod.fst).Nodup) (h1 : "frags_orbs" ∉ data.map Prod.fst) (h2 : "mo_coeff_orbsym" ∉ data.map Prod.fst)
    (hT : T.Pairwise Rel) (hI : ∀ op ∈ T, ∃ t rest e, op.item = some (.key k :: .key t :: rest, e) ∧ t ∈ R)
    (hR : ∀ t ∈ R, t ∉ data.map Prod.fst ∧ t ≠ "frags_orbs" ∧ t ≠ "mo_coeff_orbsym") :
    (FOp.group [.key k] :: (opsAttrs k data fo os ++ T)).Pairwise Rel := by
  rw [List.pairwise_cons, List.pairwise_append]
  refine ⟨?_, opsAttrs_pairwise k data fo os hd h1 h2, hT, ?_⟩
  · intro op hop
    rw [List.mem_append] at hop
    have : ∃ t rest e, op.item = some (.key k :: .key t :: rest, e) := by
      rcases hop with h | h
      · obtain ⟨t, r, e, h, _⟩ := opsAttrs_item h; exact ⟨t, r, e, h⟩
      · obtain ⟨t, r, e, h, _⟩ := hI op h; exact ⟨t, r, e, h⟩
    obtain ⟨t, r, e, h⟩ := this
    intro pa ea pb eb ha hb
    rw [h] at hb
    simp only [FOp.item, Option.some.injEq, Prod.mk.injEq] at ha hb
    obtain ⟨rfl, rfl⟩ := ha
    obtain ⟨rfl, rfl⟩ := hb
    simp [List.cons_prefix_cons]
  · intro a ha b hb pa ea pb eb hia hib
    obtain ⟨t, r, e, h, hc⟩ := opsAttrs_item ha
    obtain ⟨t', r', e', h', hc'⟩ := hI b hb
    obtain ⟨n1, n2, n3⟩ := hR t' hc'
    have hne : t ≠ t' := by
      rcases hc with ⟨hc, _⟩ | rfl | ⟨rfl, _⟩
      · rintro rfl; exact n1 hc
      · exact Ne.symm n2
      · exact Ne.symm n3
    rw [h] at hia
    rw [h'] at hib
    simp only [Option.some.injEq, Prod.mk.injEq] at hia hib
    obtain ⟨rfl, rfl⟩ := hia
    obtain ⟨rfl, rfl⟩ := hib
    simp [List.cons_prefix_cons, hne, Ne.symm hne]

theorem record_free (k : String) (data : List (String × V)) (fo : Option (List V)) (os : Option V)
    (T : List (FOp V)) (R : List String)
    (hI : ∀ op ∈ T, ∃ t rest e, op.item = some (.key k :: .key t :: rest, e) ∧ t ∈ R)
    (f : File V) (hf : ∀ r, f (.key k :: r) = none) :
    ∀ op ∈ FOp.group [.key k] :: (opsAttrs k data fo os ++ T), Free f op := by
  intro op hop
  have : ∃ rest e, op.item = some (.key k :: rest, e) := by
    rw [List.mem_cons, List.mem_append] at hop
    rcases hop with rfl | h | h
    · exact ⟨[], .group, rfl⟩
    · obtain ⟨t, r, e, h, _⟩ := opsAttrs_item h; exact ⟨_, e, h⟩
    · obtain ⟨t, r, e, h, _⟩ := hI op h; exact ⟨_, e, h⟩
  obtain ⟨rest, e, h⟩ := this
  refine ⟨_, e, h, by simp, hf rest, ?_⟩
  intro q hq0 hqp v hv
  cases q with
  | nil => exact hq0 rfl
  | cons c q =>
    rw [List.cons_prefix_cons] at hqp
    rw [hqp.1, hf q] at hv
    exact absurd hv (by simp)

theorem opsCi_item {k : String} {ci : List (List V)} {op : FOp V} (h : op ∈ opsCi k ci) :
    ∃ t rest e, op.item = some (.key k :: .key t :: rest, e) ∧ t ∈ ["ci"] := by
  unfold opsCi at h
  simp only [List.mem_flatMap, List.mem_cons, List.mem_map] at h
  obtain ⟨ri, _, rfl | ⟨vj, _, rfl⟩⟩ := h
  · exact ⟨"ci", _, _, rfl, by simp⟩
  · exact ⟨"ci", _, _, rfl, by simp⟩

theorem opsCi_pairwise (k : String) (ci : List (List V)) : (opsCi k ci).Pairwise Rel := by
  unfold opsCi
  rw [List.pairwise_flatMap]
  constructor
  · intro ri _
    rw [List.pairwise_cons]
    constructor
    · intro a h
      rw [List.mem_map] at h
      obtain ⟨_, _, rfl⟩ := h
      simp [rel_gg, rel_gp, rel_pg, rel_pp, List.cons_prefix_cons]
    · rw [List.pairwise_map]
      refine (zipIdx_pairwise _ 0).imp ?_
      intro a b hab
      simp [rel_gg, rel_gp, rel_pg, rel_pp, List.cons_prefix_cons, hab, Ne.symm hab]
  · refine (zipIdx_pairwise ci 0).imp ?_
    intro a b hab x hx y hy
    simp only [List.mem_cons, List.mem_map] at hx hy
    rcases hx with rfl | ⟨_, _, rfl⟩ <;> rcases hy with rfl | ⟨_, _, rfl⟩ <;>
      simp [rel_gg, rel_gp, rel_pg, rel_pp, List.cons_prefix_cons, hab, Ne.symm hab]

theorem range_pairwise_ne (n : Nat) : (List.range n).Pairwise (fun a b => a ≠ b) := List.nodup_range

theorem opsLsisCi_item {k : String} {n : Nat} {sf : Nat → Nat → Option V} {ch : Nat → Nat → Nat → Nat → Option V}
    {op : FOp V} (h : op ∈ opsLsisCi k n sf ch) :
    ∃ t rest e, op.item = some (.key k :: .key t :: rest, e) ∧ t ∈ ["ci_sf", "ci_ch"] := by
  unfold opsLsisCi at h
  simp only [List.mem_append, List.mem_cons, List.mem_flatMap, Option.mem_toList, Option.map_eq_some_iff] at h
  rcases h with (rfl | ⟨i, _, rfl | ⟨s, _, v, _, rfl⟩⟩) | rfl | ⟨i, _, rfl | ⟨a, _, rfl | ⟨s, _, rfl | ⟨p, _, v, _, rfl⟩⟩⟩⟩ <;>
    exact ⟨_, _, _, rfl, by simp⟩

theorem toList_pairwise {α β : Type} {R : β → β → Prop} (o : Option α) (g : α → β) : ((o.map g).toList).Pairwise R := by
  cases o <;> simp

theorem opsLsisCi_pairwise (k : String) (n : Nat) (sf : Nat → Nat → Option V) (ch : Nat → Nat → Nat → Nat → Option V) :
    (opsLsisCi k n sf ch).Pairwise Rel := by
  unfold opsLsisCi
  rw [List.pairwise_append]
  refine ⟨?_, ?_, ?_⟩
  · rw [List.pairwise_cons, List.pairwise_flatMap]
    refine ⟨?_, ?_, ?_⟩
    · intro op h
      simp only [List.mem_cons, List.mem_flatMap, Option.mem_toList, Option.map_eq_some_iff] at h
      rcases h with ⟨i, _, rfl | ⟨s, _, v, _, rfl⟩⟩ <;> simp [rel_gg, rel_gp, rel_pg, rel_pp, List.cons_prefix_cons]
    · intro i _
      rw [List.pairwise_cons, List.pairwise_flatMap]
      refine ⟨?_, fun s _ => toList_pairwise _ _, ?_⟩
      · intro op h
        simp only [List.mem_flatMap, Option.mem_toList, Option.map_eq_some_iff] at h
        rcases h with ⟨s, _, v, _, rfl⟩
        simp [rel_gg, rel_gp, rel_pg, rel_pp, List.cons_prefix_cons]
      · refine (range_pairwise_ne 2).imp ?_
        intro a b hab x hx y hy
        simp only [Option.mem_toList, Option.map_eq_some_iff] at hx hy
        obtain ⟨_, _, rfl⟩ := hx
        obtain ⟨_, _, rfl⟩ := hy
        simp [rel_gg, rel_gp, rel_pg, rel_pp, List.cons_prefix_cons, hab, Ne.symm hab]
    · refine (range_pairwise_ne n).imp ?_
      intro a b hab x hx y hy
      simp only [List.mem_cons, List.mem_flatMap, Option.mem_toList, Option.map_eq_some_iff] at hx hy
      rcases hx with rfl | ⟨_, _, _, _, rfl⟩ <;> rcases hy with rfl | ⟨_, _, _, _, rfl⟩ <;>
        simp [rel_gg, rel_gp, rel_pg, rel_pp, List.cons_prefix_cons, hab, Ne.symm hab]
  · rw [List.pairwise_cons, List.pairwise_flatMap]
    refine ⟨?_, ?_, ?_⟩
    · intro op h
      simp only [List.mem_cons, List.mem_flatMap, Option.mem_toList, Option.map_eq_some_iff] at h
      rcases h with ⟨i, _, rfl | ⟨a, _, rfl | ⟨s, _, rfl | ⟨p, _, v, _, rfl⟩⟩⟩⟩ <;>
        simp [rel_gg, rel_gp, rel_pg, rel_pp, List.cons_prefix_cons]
    · intro i _
      rw [List.pairwise_cons, List.pairwise_flatMap]
      refine ⟨?_, ?_, ?_⟩
      · intro op h
        simp only [List.mem_cons, List.mem_flatMap, Option.mem_toList, Option.map_eq_some_iff] at h
        rcases h with ⟨a, _, rfl | ⟨s, _, rfl | ⟨p, _, v, _, rfl⟩⟩⟩ <;>
          simp [rel_gg, rel_gp, rel_pg, rel_pp, List.cons_prefix_cons]
      · intro a _
        rw [List.pairwise_cons, List.pairwise_flatMap]
        refine ⟨?_, ?_, ?_⟩
        · intro op h
          simp only [List.mem_cons, List.mem_flatMap, Option.mem_toList, Option.map_eq_some_iff] at h
          rcases h with ⟨s, _, rfl | ⟨p, _, v, _, rfl⟩⟩ <;> simp [rel_gg, rel_gp, rel_pg, rel_pp, List.cons_prefix_cons]
        · intro s _
          rw [List.pairwise_cons, List.pairwise_flatMap]
          refine ⟨?_, fun s _ => toList_pairwise _ _, ?_⟩
          · intro op h
            simp only [List.mem_flatMap, Option.mem_toList, Option.map_eq_some_iff] at h
            rcases h with ⟨p, _, v, _, rfl⟩
            simp [rel_gg, rel_gp, rel_pg, rel_pp, List.cons_prefix_cons]
          · refine (range_pairwise_ne 2).imp ?_
            intro a b hab x hx y hy
            simp only [Option.mem_toList, Option.map_eq_some_iff] at hx hy
            obtain ⟨_, _, rfl⟩ := hx
            obtain ⟨_, _, rfl⟩ := hy
            simp [rel_gg, rel_gp, rel_pg, rel_pp, List.cons_prefix_cons, hab, Ne.symm hab]
        · refine (range_pairwise_ne 4).imp ?_
          intro a b hab x hx y hy
          simp only [List.mem_cons, List.mem_flatMap, Option.mem_toList, Option.map_eq_some_iff] at hx hy
          rcases hx with rfl | ⟨_, _, _, _, rfl⟩ <;> rcases hy with rfl | ⟨_, _, _, _, rfl⟩ <;>
            simp [rel_gg, rel_gp, rel_pg, rel_pp, List.cons_prefix_cons, hab, Ne.symm hab]
      · refine (range_pairwise_ne n).imp ?_
        intro a b hab x hx y hy
        simp only [List.mem_cons, List.mem_flatMap, Option.mem_toList, Option.map_eq_some_iff] at hx hy
        rcases hx with rfl | ⟨_, _, rfl | ⟨_, _, _, _, rfl⟩⟩ <;> rcases hy with rfl | ⟨_, _, rfl | ⟨_, _, _, _, rfl⟩⟩ <;>
          simp [rel_gg, rel_gp, rel_pg, rel_pp, List.cons_prefix_cons, hab, Ne.symm hab]
    · refine (range_pairwise_ne n).imp ?_
      intro a b hab x hx y hy
      simp only [List.mem_cons, List.mem_flatMap, Option.mem_toList, Option.map_eq_some_iff] at hx hy
      rcases hx with rfl | ⟨_, _, rfl | ⟨_, _, rfl | ⟨_, _, _, _, rfl⟩⟩⟩ <;>
        rcases hy with rfl | ⟨_, _, rfl | ⟨_, _, rfl | ⟨_, _, _, _, rfl⟩⟩⟩ <;>
        simp [rel_gg, rel_gp, rel_pg, rel_pp, List.cons_prefix_cons, hab, Ne.symm hab]
  · intro x hx y hy
    simp only [List.mem_cons, List.mem_flatMap, Option.mem_toList, Option.map_eq_some_iff] at hx hy
    rcases hx with rfl | ⟨_, _, rfl | ⟨_, _, _, _, rfl⟩⟩ <;>
      rcases hy with rfl | ⟨_, _, rfl | ⟨_, _, rfl | ⟨_, _, rfl | ⟨_, _, _, _, rfl⟩⟩⟩⟩ <;>
      simp [rel_gg, rel_gp, rel_pg, rel_pp, List.cons_prefix_cons]

/-- The part of the head that precedes the creation of the record. -/
def opsPre {V : Type} (k : String) (overwriteMol : Bool) (mol : V) : List (FOp V) :=
  (if overwriteMol then [.delIf [.key "mol"], .put [.key "mol"] mol] else [.putNew [.key "mol"] mol]) ++ [.delIf [.key k]]

theorem opsHead_eq (k : String) (ow : Bool) (mol : V) : opsHead k ow mol = opsPre k ow mol ++ [.group [.key k]] := by
  simp [opsHead, opsPre]

theorem create_top (f : File V) (s : String) (e : Entry V) (h : f [.key s] = none) :
    create f [.key s] e = some (fun q => if q = [.key s] then some e else f q) := by
  simp [create, h, parents]

/-- Any interrupted head runs and touches only the geometry record, or removes the old record altogether. -/
theorem pre_run (k : String) (hk : k ≠ "mol") (ow : Bool) (mol : V) (f : File V) (n : Nat) :
    ∃ f', run ((opsPre k ow mol).take n) f = some f' ∧
      (∀ s r, s ≠ "mol" → s ≠ k → f' (.key s :: r) = f (.key s :: r)) ∧
      ((opsPre k ow mol).length ≤ n → ∀ r, f' (.key k :: r) = none) ∧
      ((n < (opsPre k ow mol).length) → ∀ r, f' (.key k :: r) = f (.key k :: r)) := by
  have hk' := Ne.symm hk
  cases ow with
  | true =>
    have hl : opsPre k true mol = [.delIf [.key "mol"], .put [.key "mol"] mol, .delIf [.key k]] := rfl
    rw [hl]
    have hc : create (fun q : Path => if List.isPrefixOf [Comp.key "mol"] q then none else f q) [.key "mol"] (.data mol) =
        some (fun q => if q = [.key "mol"] then some (.data mol) else
          (fun q : Path => if List.isPrefixOf [Comp.key "mol"] q then none else f q) q) :=
      create_top _ _ _ (by simp [List.isPrefixOf])
    match n with
    | 0 => exact ⟨f, rfl, fun _ _ _ _ => rfl, by simp, fun _ _ => rfl⟩
    | 1 =>
      refine ⟨_, rfl, ?_, by simp, ?_⟩
      · intro s r h _; simp [List.isPrefixOf, Ne.symm h]
      · intro _ r; simp [List.isPrefixOf, hk']
    | 2 =>
      refine ⟨_, by simp only [List.take, run, apply, hc]; rfl, ?_, by simp, ?_⟩
      · intro s r h _; simp [List.isPrefixOf, h, Ne.symm h]
      · intro _ r; simp [List.isPrefixOf, hk, hk']
    | m + 3 =>
      refine ⟨_, by simp only [List.take, List.take_nil, run, apply, hc]; rfl, ?_, ?_, by intro h; simp at h; omega⟩
      · intro s r h h'; simp [List.isPrefixOf, h, Ne.symm h, Ne.symm h']
      · intro _ r; simp [List.isPrefixOf]
  | false =>
    have hl : opsPre k false mol = [.putNew [.key "mol"] mol, .delIf [.key k]] := rfl
    rw [hl]
    have hp : ∃ f1, apply f (.putNew [.key "mol"] mol) = some f1 ∧ ∀ s r, s ≠ "mol" → f1 (.key s :: r) = f (.key s :: r) := by
      unfold apply
      cases hm : f [.key "mol"] with
      | some x => exact ⟨f, by simp [hm], fun _ _ _ => rfl⟩
      | none =>
        refine ⟨_, by dsimp only; rw [if_neg (by rw [hm]; simp)]; exact create_top f _ _ hm, ?_⟩
        intro s r h; simp [h]
    obtain ⟨f1, h1, h2⟩ := hp
    match n with
    | 0 => exact ⟨f, rfl, fun _ _ _ _ => rfl, by simp, fun _ _ => rfl⟩
    | 1 =>
      refine ⟨f1, by simp only [List.take, run, h1], fun s r h _ => h2 s r h, by simp, fun _ r => h2 k r hk⟩
    | m + 2 =>
      refine ⟨fun q => if List.isPrefixOf [Comp.key k] q then none else f1 q,
        by simp only [List.take, List.take_nil, run, h1]; rfl, ?_, ?_, by intro h; simp at h; omega⟩
      · intro s r h h'; simp [List.isPrefixOf, Ne.symm h', h2 s r h]
      · intro _ r; simp [List.isPrefixOf]

/-- State of the file when the dump of a record is interrupted after `n` operations. -/
theorem record_cut (k : String) (hk : k ≠ "mol") (ow : Bool) (mol : V) (L : List (FOp V)) (hL : L.Pairwise Rel)
    (hfree : ∀ f : File V, (∀ r, f (.key k :: r) = none) → ∀ op ∈ L, Free f op)
    (hin : ∀ op ∈ L, ∃ r e, op.item = some (.key k :: r, e)) (f : File V) (n : Nat) :
    ∃ f', run ((opsPre k ow mol ++ L).take n) f = some f' ∧
      (∀ s r, s ≠ "mol" → s ≠ k → f' (.key s :: r) = f (.key s :: r)) ∧
      ((n < (opsPre k ow mol).length ∧ ∀ r, f' (.key k :: r) = f (.key k :: r)) ∨
        ((opsPre k ow mol).length ≤ n ∧
          (∀ op ∈ L.take (n - (opsPre k ow mol).length), ∀ p e, op.item = some (p, e) → f' p = some e) ∧
          (∀ r, (∀ op ∈ L.take (n - (opsPre k ow mol).length), ∀ p e, op.item = some (p, e) → ¬ (.key k :: r) <+: p) →
            f' (.key k :: r) = none) ∧
          (∀ op ∈ L.take (n - (opsPre k ow mol).length), ∀ p e, op.item = some (p, e) → ∀ q, q ≠ [] → q <+: p →
            (f' q).isSome))) := by
  obtain ⟨f0, r0, r1, r2, r3⟩ := pre_run k hk ow mol f n
  rw [List.take_append, run_append, r0]
  by_cases hn : n < (opsPre k ow mol).length
  · rw [Nat.sub_eq_zero_of_le (by omega)]
    exact ⟨f0, rfl, r1, Or.inl ⟨hn, r3 hn⟩⟩
  · have hsub : ∀ op ∈ L.take (n - (opsPre k ow mol).length), op ∈ L := fun op h => List.mem_of_mem_take h
    obtain ⟨f', e1, e2, e3, e4, e5⟩ := run_new (L.take (n - (opsPre k ow mol).length)) f0
      (hL.sublist (List.take_sublist _ _)) (fun op h => hfree f0 (r2 (by omega)) op (hsub op h))
    refine ⟨f', e1, ?_, Or.inr ⟨by omega, e2, fun r h => e4 _ (r2 (by omega) r) h, e5⟩⟩
    intro s r hs hsk
    rw [← r1 s r hs hsk]
    cases hc : f0 (.key s :: r) with
    | some x => exact e3 _ x hc
    | none =>
      apply e4 _ hc
      intro op hop p e hi hpre
      obtain ⟨r', e', hi'⟩ := hin op (hsub op hop)
      rw [hi] at hi'
      simp only [Option.some.injEq, Prod.mk.injEq] at hi'
      rw [hi'.1, List.cons_prefix_cons] at hpre
      exact hsk (by have := hpre.1; injection this)

theorem opsAttrs_mem_data {k : String} {data : List (String × V)} {fo : Option (List V)} {os : Option V} {kv : String × V}
    (h : kv ∈ data) : FOp.put [.key k, .key kv.1] kv.2 ∈ opsAttrs k data fo os := by
  unfold opsAttrs
  rw [List.mem_append, List.mem_append]
  exact Or.inl (Or.inl (List.mem_map_of_mem (f := fun kv : String × V => FOp.put [.key k, .key kv.1] kv.2) h))

theorem getData_congr {f g : File V} {p : Path} (h : f p = g p) : getData f p = getData g p := by
  unfold getData; rw [h]

/-- Loading a record depends only on the paths under it. -/
theorem loadLas_congr (len : V → Nat) {f g : File V} {k : String} (h : ∀ r, f (.key k :: r) = g (.key k :: r))
    (kc ks kr : List String) (n m : Nat) : loadLas len f k kc ks kr n m = loadLas len g k kc ks kr n m := by
  have ha : ∀ s, attr f k s = attr g k s := fun s => by unfold attr; rw [h]
  have hg : ∀ r, getData f (.key k :: r) = getData g (.key k :: r) := fun r => getData_congr (h r)
  have e1 : loadAttrs f k kc ks kr n = loadAttrs g k kc ks kr n := by
    unfold loadAttrs
    simp only [h, ha, hg, funext ha]
  have e2 : ∀ m, loadCi f k n m = loadCi g k n m := by
    intro m
    unfold loadCi
    simp only [h, hg]
  unfold loadLas
  simp only [h, e1, e2]

theorem loadLas_none_of_ci (len : V → Nat) (f : File V) (k : String) (kc ks kr : List String) (n m : Nat)
    (h : ∀ m, loadCi f k n m = none) : loadLas len f k kc ks kr n m = none := by
  unfold loadLas
  simp only [h]
  cases f [.key k] with
  | none => rfl
  | some x =>
    cases loadAttrs f k kc ks kr n <;> rfl

/-- The attributes of a completely written record. -/
theorem loadAttrs_full (f : File V) (k : String) (val : String → V) (fo : Option (List V)) (os : Option V)
    (kc ks kr : List String) (n : Nat)
    (hv : ∀ s, s ∈ kc ∨ s ∈ ks ∨ s ∈ kr → f [.key k, .key s] = some (.data (val s)))
    (hfo : fo.elim (f [.key k, .key "frags_orbs"] = none) (fun l => l.length = n ∧ (f [.key k, .key "frags_orbs"]).isSome ∧
      ∀ vi ∈ l.zipIdx, f [.key k, .key "frags_orbs", .idx vi.2] = some (.data vi.1)))
    (hos : os.elim (f [.key k, .key "mo_coeff_orbsym"] = none)
      (fun v => f [.key k, .key "mo_coeff_orbsym"] = some (.data v))) :
    loadAttrs f k kc ks kr n = some (Attrs.mk (kc.map (fun s => (s, some (val s)))) (some (ks.map val))
      (kr.map (fun s => (s, some (val s)))) fo os) := by
  have ha : ∀ s, s ∈ kc ∨ s ∈ ks ∨ s ∈ kr → attr f k s = some (val s) := by
    intro s hs; unfold attr; rw [hv s hs]
  have h1 : kc.map (fun key => (key, attr f k key)) = kc.map (fun s => (s, some (val s))) :=
    List.map_congr_left (fun s hs => by rw [ha s (Or.inl hs)])
  have h2 : kr.map (fun key => (key, attr f k key)) = kr.map (fun s => (s, some (val s))) :=
    List.map_congr_left (fun s hs => by rw [ha s (Or.inr (Or.inr hs))])
  have h3 : ks.mapM (attr f k) = some (ks.map val) := mapM_some_map _ _ _ (fun s hs => ha s (Or.inr (Or.inl hs)))
  have h4 : attr f k "mo_coeff_orbsym" = os := by
    unfold attr
    cases os with
    | none => rw [show f [.key k, .key "mo_coeff_orbsym"] = none from hos]
    | some v => rw [show f [.key k, .key "mo_coeff_orbsym"] = some (.data v) from hos]
  unfold loadAttrs
  rw [h1, h2, h3, h4]
  cases fo with
  | none =>
    rw [show f [.key k, .key "frags_orbs"] = none from hfo]
    rfl
  | some l =>
    obtain ⟨hl, hs, hd⟩ := hfo
    obtain ⟨x, hx⟩ := Option.isSome_iff_exists.mp hs
    rw [hx]
    have : (List.range n).mapM (fun i => getData f [.key k, .key "frags_orbs", .idx i]) = some l := by
      rw [← hl]
      cases hll : l with
      | nil => rfl
      | cons w l' =>
        rw [← hll]
        rw [mapM_some_map _ _ (fun i => l.getD i w)]
        · congr 1
          apply List.ext_getElem (by simp)
          intro i h1 h2
          simp [List.getD_eq_getElem?_getD, h2]
        · intro i hi
          rw [List.mem_range] at hi
          have := hd (l[i], i) (by rw [List.mk_mem_zipIdx_iff_getElem?]; simp [hi])
          unfold getData
          rw [this]
          simp [List.getD_eq_getElem?_getD, hi]
    simp only [this]
    rfl

/-- The CI vectors of a completely written record. -/
theorem loadCi_full (f : File V) (k : String) (ci : List (List V)) (m : Nat) (h0 : (f [.key k, .key "ci"]).isSome)
    (hrow : ∀ r ∈ ci, r.length = m)
    (h1 : ∀ ri ∈ ci.zipIdx, (f [.key k, .key "ci", .idx ri.2]).isSome ∧
      ∀ vj ∈ ri.1.zipIdx, f [.key k, .key "ci", .idx ri.2, .idx vj.2] = some (.data vj.1)) :
    loadCi f k ci.length m = some ci := by
  unfold loadCi
  rw [if_neg (by rw [Option.isNone_iff_eq_none]; intro h; rw [h] at h0; simp at h0)]
  rw [mapM_some_map _ _ (fun i => ci.getD i [])]
  · congr 1
    apply List.ext_getElem (by simp)
    intro i h1 h2
    simp [List.getD_eq_getElem?_getD, h2]
  · intro i hi
    rw [List.mem_range] at hi
    obtain ⟨g1, g2⟩ := h1 (ci[i], i) (by rw [List.mk_mem_zipIdx_iff_getElem?]; simp [hi])
    have hr := hrow ci[i] (List.getElem_mem hi)
    have hgd : ci.getD i [] = ci[i] := by simp [List.getD_eq_getElem?_getD, hi]
    rw [if_neg (by rw [Option.isNone_iff_eq_none]; intro h; rw [h] at g1; simp at g1), hgd]
    generalize hl : ci[i] = l at g2 hr
    rw [← hr]
    cases hll : l with
    | nil => rfl
    | cons w l' =>
      rw [← hll]
      rw [mapM_some_map _ _ (fun j => l.getD j w)]
      · congr 1
        apply List.ext_getElem (by simp)
        intro i h1 h2
        simp [List.getD_eq_getElem?_getD, h2]
      · intro j hj
        rw [List.mem_range] at hj
        have := g2 (l[j], j) (by rw [List.mk_mem_zipIdx_iff_getElem?]; simp [hj])
        unfold getData
        rw [this]
        simp [List.getD_eq_getElem?_getD, hj]

/-- The attributes read from a file where all attribute operations and no others under the record have been done. -/
theorem attrs_of_run (f : File V) (k : String) (val : String → V) (fo : Option (List V)) (os : Option V)
    (kc ks kr : List String) (n : Nat) (R : List String) (T : List (FOp V)) (A : List (FOp V))
    (hI : ∀ op ∈ T, ∃ t rest e, op.item = some (.key k :: .key t :: rest, e) ∧ t ∈ R)
    (hkeys : "frags_orbs" ∉ kc ++ kr ++ ks ∧ "mo_coeff_orbsym" ∉ kc ++ kr ++ ks)
    (hR : ∀ t ∈ R, t ≠ "frags_orbs" ∧ t ≠ "mo_coeff_orbsym")
    (hfo : ∀ l, fo = some l → l.length = n)
    (hA1 : ∀ op ∈ opsAttrs k (getSaveData kc ks kr val) fo os, op ∈ A)
    (hA2 : ∀ op ∈ A, op = .group [.key k] ∨ op ∈ opsAttrs k (getSaveData kc ks kr val) fo os ∨ op ∈ T)
    (h2 : ∀ op ∈ A, ∀ p e, op.item = some (p, e) → f p = some e)
    (h3 : ∀ r, (∀ op ∈ A, ∀ p e, op.item = some (p, e) → ¬ (.key k :: r) <+: p) → f (.key k :: r) = none) :
    loadAttrs f k kc ks kr n = some (Attrs.mk (kc.map (fun s => (s, some (val s)))) (some (ks.map val))
      (kr.map (fun s => (s, some (val s)))) fo os) := by
  have hfst : (getSaveData kc ks kr val).map Prod.fst = kc ++ kr ++ ks := by
    unfold getSaveData
    rw [List.map_map]
    exact List.map_id _
  have hno : ∀ s, s ∉ kc ++ kr ++ ks → s ∉ R →
      (s = "frags_orbs" → fo = none) → (s = "mo_coeff_orbsym" → os = none) → f [.key k, .key s] = none := by
    intro s hs hsR hsf hso
    apply h3
    intro op hop p e hi hpre
    rcases hA2 op hop with rfl | h | h
    · simp only [FOp.item, Option.some.injEq, Prod.mk.injEq] at hi
      rw [← hi.1] at hpre
      simp [List.cons_prefix_cons] at hpre
    · obtain ⟨t, rest, e', hi', hc⟩ := opsAttrs_item h
      rw [hi] at hi'
      simp only [Option.some.injEq, Prod.mk.injEq] at hi'
      rw [hi'.1] at hpre
      simp only [List.cons_prefix_cons, List.nil_prefix, and_true, true_and, Comp.key.injEq] at hpre
      rw [hfst] at hc
      rcases hc with ⟨hc, _⟩ | hc | ⟨hc, _⟩
      · exact absurd (hpre ▸ hc) hs
      · have hf := hsf (by rw [hpre, hc])
        subst hf
        exfalso
        unfold opsAttrs at h
        rw [List.mem_append, List.mem_append] at h
        rcases h with (h | h) | h
        · rw [List.mem_map] at h
          obtain ⟨kv, hkv, rfl⟩ := h
          simp only [FOp.item, Option.some.injEq, Prod.mk.injEq] at hi
          have h5 := hi.1.trans hi'.1
          simp only [List.cons.injEq, Comp.key.injEq, true_and] at h5
          apply hkeys.1
          rw [← hfst, ← hc, ← h5.1]
          exact List.mem_map_of_mem hkv
        · simp at h
        · cases os with
          | none => simp at h
          | some v =>
            simp only [List.mem_singleton] at h
            subst h
            simp only [FOp.item, Option.some.injEq, Prod.mk.injEq] at hi
            have h5 := hi.1.trans hi'.1
            simp [hc] at h5
      · have hf := hso (by rw [hpre, hc])
        subst hf
        exfalso
        unfold opsAttrs at h
        rw [List.mem_append, List.mem_append] at h
        rcases h with (h | h) | h
        · rw [List.mem_map] at h
          obtain ⟨kv, hkv, rfl⟩ := h
          simp only [FOp.item, Option.some.injEq, Prod.mk.injEq] at hi
          have h5 := hi.1.trans hi'.1
          simp only [List.cons.injEq, Comp.key.injEq, true_and] at h5
          apply hkeys.2
          rw [← hfst, ← hc, ← h5.1]
          exact List.mem_map_of_mem hkv
        · cases fo with
          | none => simp at h
          | some l =>
            simp only [List.mem_cons, List.mem_map] at h
            rcases h with rfl | ⟨vi, _, rfl⟩ <;>
            · simp only [FOp.item, Option.some.injEq, Prod.mk.injEq] at hi
              have h5 := hi.1.trans hi'.1
              simp [hc] at h5
        · simp at h
    · obtain ⟨t, rest, e', hi', hc⟩ := hI op h
      rw [hi] at hi'
      simp only [Option.some.injEq, Prod.mk.injEq] at hi'
      rw [hi'.1] at hpre
      simp only [List.cons_prefix_cons, List.nil_prefix, and_true, true_and, Comp.key.injEq] at hpre
      exact absurd (hpre ▸ hc) hsR
  apply loadAttrs_full
  · intro s hs
    apply h2 (.put [.key k, .key s] (val s)) _ _ _ rfl
    apply hA1
    apply opsAttrs_mem_data (kv := (s, val s))
    unfold getSaveData
    rw [List.mem_map]
    refine ⟨s, ?_, rfl⟩
    simp only [List.mem_append]
    tauto
  · cases fo with
    | none => exact hno _ hkeys.1 (fun h => (hR _ h).1 rfl) (fun _ => rfl) (by simp)
    | some l =>
      have hm : ∀ op, op ∈ (FOp.group [.key k, .key "frags_orbs"] ::
        l.zipIdx.map (fun vi => FOp.put [.key k, .key "frags_orbs", .idx vi.2] vi.1)) →
          op ∈ opsAttrs k (getSaveData kc ks kr val) (some l) os := by
        intro op h
        unfold opsAttrs
        rw [List.mem_append, List.mem_append]
        exact Or.inl (Or.inr h)
      refine ⟨hfo l rfl, ?_, ?_⟩
      · rw [h2 _ (hA1 _ (hm _ List.mem_cons_self)) _ _ rfl]; rfl
      · intro vi hvi
        exact h2 _ (hA1 _ (hm _ (List.mem_cons_of_mem _ (List.mem_map_of_mem
          (f := fun vi : V × Nat => FOp.put [.key k, .key "frags_orbs", .idx vi.2] vi.1) hvi)))) _ _ rfl
  · cases os with
    | none => exact hno _ hkeys.2 (fun h => (hR _ h).2 rfl) (by simp) (fun _ => rfl)
    | some v =>
      refine h2 _ (hA1 (.put [.key k, .key "mo_coeff_orbsym"] v) ?_) _ _ rfl
      unfold opsAttrs
      rw [List.mem_append]
      exact Or.inr (by simp)

theorem opsCi_last (k : String) (ci : List (List V)) (hci : ci ≠ []) (m : Nat) (hm : 0 < m) (hrow : ∀ r ∈ ci, r.length = m) :
    ∃ C v, opsCi k ci = C ++ [FOp.put [.key k, .key "ci", .idx (ci.length - 1), .idx (m - 1)] v] := by
  obtain ⟨ci', r, rfl⟩ : ∃ ci' r, ci = ci' ++ [r] := ⟨ci.dropLast, ci.getLast hci, (List.dropLast_append_getLast hci).symm⟩
  have hr : r.length = m := hrow r (by simp)
  have hr0 : r ≠ [] := by intro h; rw [h] at hr; simp at hr; omega
  obtain ⟨r', v, rfl⟩ : ∃ r' v, r = r' ++ [v] := ⟨r.dropLast, r.getLast hr0, (List.dropLast_append_getLast hr0).symm⟩
  have e1 : (ci' ++ [r' ++ [v]]).length - 1 = ci'.length := by simp
  have e2 : m - 1 = r'.length := by rw [← hr]; simp
  refine ⟨opsCi k ci' ++ FOp.group [.key k, .key "ci", .idx ci'.length] ::
    r'.zipIdx.map (fun vj => .put [.key k, .key "ci", .idx ci'.length, .idx vj.2] vj.1), v, ?_⟩
  rw [e1, e2]
  unfold opsCi
  simp [List.zipIdx_append]

/-- The spin-flip and charge-hop vectors of a completely written LASSIS record. -/
theorem loadLsisCi_full (f : File V) (k : String) (n : Nat) (hn : 0 < n) (sf : Nat → Nat → Option V)
    (ch : Nat → Nat → Nat → Nat → Option V)
    (h2 : ∀ op ∈ opsLsisCi k n sf ch, ∀ p e, op.item = some (p, e) → f p = some e)
    (h3 : ∀ t r, t = "ci_sf" ∨ t = "ci_ch" → (∀ op ∈ opsLsisCi k n sf ch, ∀ p e, op.item = some (p, e) →
      ¬ (.key k :: .key t :: r) <+: p) → f (.key k :: .key t :: r) = none) :
    loadLsisCi f k n = some ((List.range n).map (fun i => (List.range 2).map (sf i)),
      (List.range n).map fun i => (List.range n).map fun a => (List.range 4).map fun s => (List.range 2).map (ch i a s)) := by
  have m0 : FOp.group [.key k, .key "ci_sf"] ∈ opsLsisCi k n sf ch := by simp [opsLsisCi]
  have m1 : ∀ i < n, FOp.group [.key k, .key "ci_sf", .idx i] ∈ opsLsisCi k n sf ch := by
    intro i hi; simp [opsLsisCi, hi]
  have m2 : ∀ i < n, ∀ s < 2, ∀ v, sf i s = some v →
      FOp.put [.key k, .key "ci_sf", .idx i, .idx s] v ∈ opsLsisCi k n sf ch := by
    intro i hi s hs v hv
    unfold opsLsisCi
    simp only [List.mem_append, List.mem_cons, List.mem_flatMap, Option.mem_toList, Option.map_eq_some_iff, List.mem_range]
    exact Or.inl (Or.inr ⟨i, hi, Or.inr ⟨s, hs, v, hv, rfl⟩⟩)
  have m3 : FOp.group [.key k, .key "ci_ch"] ∈ opsLsisCi k n sf ch := by simp [opsLsisCi]
  have m4 : ∀ i < n, FOp.group [.key k, .key "ci_ch", .idx i] ∈ opsLsisCi k n sf ch := by
    intro i hi; simp [opsLsisCi, hi]
  have m5 : ∀ i < n, ∀ a < n, FOp.group [.key k, .key "ci_ch", .idx i, .idx a] ∈ opsLsisCi k n sf ch := by
    intro i hi a ha; simp [opsLsisCi, hi, ha]
  have m6 : ∀ i < n, ∀ a < n, ∀ s < 4, FOp.group [.key k, .key "ci_ch", .idx i, .idx a, .idx s] ∈ opsLsisCi k n sf ch := by
    intro i hi a ha s hs; simp [opsLsisCi, hi, ha, hs]
  have m7 : ∀ i < n, ∀ a < n, ∀ s < 4, ∀ p < 2, ∀ v, ch i a s p = some v →
      FOp.put [.key k, .key "ci_ch", .idx i, .idx a, .idx s, .idx p] v ∈ opsLsisCi k n sf ch := by
    intro i hi a ha s hs p hp v hv
    unfold opsLsisCi
    simp only [List.mem_append, List.mem_cons, List.mem_flatMap, Option.mem_toList, Option.map_eq_some_iff, List.mem_range]
    exact Or.inr (Or.inr ⟨i, hi, Or.inr ⟨a, ha, Or.inr ⟨s, hs, Or.inr ⟨p, hp, v, hv, rfl⟩⟩⟩⟩)
  have q1 : ∀ i < n, ∀ s < 2, getData f [.key k, .key "ci_sf", .idx i, .idx s] = sf i s := by
    intro i hi s hs
    unfold getData
    cases hv : sf i s with
    | some v => rw [h2 _ (m2 i hi s hs v hv) _ _ rfl]
    | none =>
      rw [h3 _ _ (Or.inl rfl)]
      intro op hop p e hit hpre
      unfold opsLsisCi at hop
      simp only [List.mem_append, List.mem_cons, List.mem_flatMap, Option.mem_toList, Option.map_eq_some_iff] at hop
      rcases hop with (rfl | ⟨i', _, rfl | ⟨s', _, v, hv', rfl⟩⟩) | rfl | ⟨i', _, rfl | ⟨a, _, rfl | ⟨s', _, rfl | ⟨p, _, v, _, rfl⟩⟩⟩⟩ <;>
        simp only [FOp.item, Option.some.injEq, Prod.mk.injEq] at hit <;> rw [← hit.1] at hpre <;>
        simp [List.cons_prefix_cons] at hpre
      obtain ⟨rfl, rfl⟩ := hpre
      rw [hv] at hv'
      exact absurd hv' (by simp)
  have q2 : ∀ i < n, ∀ a < n, ∀ s < 4, ∀ p < 2,
      getData f [.key k, .key "ci_ch", .idx i, .idx a, .idx s, .idx p] = ch i a s p := by
    intro i hi a ha s hs p hp
    unfold getData
    cases hv : ch i a s p with
    | some v => rw [h2 _ (m7 i hi a ha s hs p hp v hv) _ _ rfl]
    | none =>
      rw [h3 _ _ (Or.inr rfl)]
      intro op hop p' e hit hpre
      unfold opsLsisCi at hop
      simp only [List.mem_append, List.mem_cons, List.mem_flatMap, Option.mem_toList, Option.map_eq_some_iff] at hop
      rcases hop with (rfl | ⟨i', _, rfl | ⟨s', _, v, hv', rfl⟩⟩) | rfl | ⟨i', _, rfl | ⟨a', _, rfl | ⟨s', _, rfl | ⟨p'', _, v, hv', rfl⟩⟩⟩⟩ <;>
        simp only [FOp.item, Option.some.injEq, Prod.mk.injEq] at hit <;> rw [← hit.1] at hpre <;>
        simp [List.cons_prefix_cons] at hpre
      obtain ⟨rfl, rfl, rfl, rfl⟩ := hpre
      rw [hv] at hv'
      exact absurd hv' (by simp)
  unfold loadLsisCi
  rw [h2 _ m0 _ _ rfl, h2 _ m3 _ _ rfl]
  rw [mapM_some_map (List.range n) (fun i =>
    if (f [.key k, .key "ci_sf", .idx i]).isNone then none
    else some ((List.range 2).map fun s => getData f [.key k, .key "ci_sf", .idx i, .idx s]))
    (fun i => (List.range 2).map (sf i))]
  · rw [mapM_some_map (List.range n) (fun i =>
      if (f [.key k, .key "ci_ch", .idx i]).isNone then none
      else (List.range n).mapM (fun a =>
        if (f [.key k, .key "ci_ch", .idx i, .idx a]).isNone then none
        else (List.range 4).mapM (fun s =>
          if (f [.key k, .key "ci_ch", .idx i, .idx a, .idx s]).isNone then none
          else some ((List.range 2).map fun p => getData f [.key k, .key "ci_ch", .idx i, .idx a, .idx s, .idx p]))))
      (fun i => (List.range n).map fun a => (List.range 4).map fun s => (List.range 2).map (ch i a s))]
    · rfl
    · intro i hi
      rw [List.mem_range] at hi
      rw [h2 _ (m4 i hi) _ _ rfl, if_neg (by simp)]
      apply mapM_some_map
      intro a ha
      rw [List.mem_range] at ha
      rw [h2 _ (m5 i hi a ha) _ _ rfl, if_neg (by simp)]
      apply mapM_some_map
      intro s hs
      rw [List.mem_range] at hs
      rw [h2 _ (m6 i hi a ha s hs) _ _ rfl, if_neg (by simp)]
      congr 1
      apply List.map_congr_left
      intro p hp
      rw [List.mem_range] at hp
      exact q2 i hi a ha s hs p hp
  · intro i hi
    rw [List.mem_range] at hi
    rw [h2 _ (m1 i hi) _ _ rfl, if_neg (by simp)]
    congr 1
    apply List.map_congr_left
    intro s hs
    rw [List.mem_range] at hs
    exact q1 i hi s hs

end Verif.Chkfile
