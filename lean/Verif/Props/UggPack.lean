import Verif.Props.Ugg
import Mathlib.Data.List.Nodup
/-!
# C87, C88: packing and unpacking the coordinates of a LASSCF problem, identifying a coordinate
-/
namespace Verif.Props
open Verif.Ugg Verif.Spec.Ugg

/-- What is assumed of a transformation between determinants and configuration state functions. -/
structure Faithful {K : Type} (t : Trans K) : Prop where
  csf_length : ∀ v, v.length = t.ndeta * t.ndetb → (t.det2csf v).length = t.ncsf
  det_length : ∀ y, y.length = t.ncsf → (t.csf2det y).length = t.ndeta * t.ndetb
  back : ∀ y, y.length = t.ncsf → t.det2csf (t.csf2det y) = y

/-- CI vectors of the right shape: one per fragment and state, as long as there are determinants. -/
def Shaped {K : Type} (u : Gen K) (ci : List (List (List K))) : Prop :=
  List.Forall₂ (List.Forall₂ fun t c => c.length = t.ndeta * t.ndetb) u.trans ci

namespace UggL
variable {K : Type}

theorem mem_positions (n : Nat) (m : Mask) (x : Nat × Nat) : x ∈ positions n m ↔ x.1 < n ∧ x.2 < n ∧ m x.1 x.2 = true := by
  obtain ⟨p, q⟩ := x
  simp only [positions, List.mem_flatMap, List.mem_range, List.mem_map, List.mem_filter, Prod.mk.injEq]
  constructor
  · rintro ⟨a, ha, b, hb, rfl, rfl⟩; exact ⟨ha, hb.1, hb.2⟩
  · rintro ⟨h1, h2, h3⟩; exact ⟨p, h1, q, ⟨h2, h3⟩, rfl, rfl⟩

theorem positions_nodup (n : Nat) (m : Mask) : (positions n m).Nodup := by
  unfold positions
  rw [List.nodup_flatMap]
  refine ⟨fun p _ => (List.nodup_range.filter _).map fun a b h => by simpa using h, ?_⟩
  refine List.nodup_range.imp fun {a b} hab => ?_
  simp only [Function.onFun, List.Disjoint, List.mem_map]
  rintro _ ⟨x, _, rfl⟩ ⟨y, _, h⟩
  exact hab (by simp at h; exact h.1.symm)

theorem scatter_not_mem [Zero K] (ps : List (Nat × Nat)) (y : List K) (a b : Nat) (h : (a, b) ∉ ps) : scatter ps y a b = 0 := by
  induction ps generalizing y with
  | nil => cases y <;> rfl
  | cons p ps ih =>
    cases y with
    | nil => rfl
    | cons y ys =>
      simp only [List.mem_cons, not_or] at h
      simp only [scatter]
      rw [if_neg (fun e => h.1 e.symm), ih ys h.2]

theorem scatter_map [Zero K] (ps : List (Nat × Nat)) (f : Nat × Nat → K) (a b : Nat) (h : (a, b) ∈ ps) :
    scatter ps (ps.map f) a b = f (a, b) := by
  induction ps with
  | nil => simp at h
  | cons p ps ih =>
    simp only [List.map_cons, scatter]
    by_cases e : p = (a, b)
    · rw [if_pos e, e]
    · rw [if_neg e]
      exact ih ((List.mem_cons.1 h).resolve_left fun e' => e e'.symm)

theorem map_scatter [Zero K] (ps : List (Nat × Nat)) (y : List K) (hn : ps.Nodup) (hl : y.length = ps.length) :
    ps.map (fun p => scatter ps y p.1 p.2) = y := by
  induction ps generalizing y with
  | nil => simp at hl; simp [hl]
  | cons p ps ih =>
    cases y with
    | nil => simp at hl
    | cons y ys =>
      rw [List.nodup_cons] at hn
      simp only [List.map_cons, List.cons.injEq]
      refine ⟨by simp [scatter], ?_⟩
      rw [← ih ys hn.2 (by simpa using hl)]
      refine List.map_congr_left fun q hq => ?_
      rw [ih ys hn.2 (by simpa using hl)]
      simp only [scatter]
      rw [if_neg (fun e => hn.1 (by rw [e]; exact hq))]

/-- Number of coefficients of the fragments that are not frozen, from fragment number `ix` on. -/
def need (frozen : List Nat) : Nat → List (List (Trans K)) → Nat
  | _, [] => 0
  | ix, tf :: ts => (if ix ∈ frozen then 0 else (tf.map (·.ncsf)).sum) + need frozen (ix + 1) ts

theorem need_eq (frozen : List Nat) (ix : Nat) (ts : List (List (Trans K))) :
    (((((ts.zipIdx ix).filter fun x => decide (x.2 ∉ frozen)).map (·.1)).map fun l => l.map (·.ncsf)).map List.sum).sum =
      need frozen ix ts := by
  induction ts generalizing ix with
  | nil => rfl
  | cons tf ts ih =>
    rw [List.zipIdx_cons, need, ← ih (ix + 1)]
    by_cases h : ix ∈ frozen
    · rw [List.filter_cons_of_neg (by simpa using h)]; simp [h]
    · rw [List.filter_cons_of_pos (by simpa using h)]; simp [h]

theorem nvarTot_eq (u : Gen K) : u.nvarTot = u.nvarOrb + need u.frozenCi 0 u.trans := by
  unfold Gen.nvarTot Gen.ncsfSub
  rw [need_eq]

theorem frag_length (tf : List (Trans K)) (cf : List (List K)) (hf : ∀ t ∈ tf, Faithful t)
    (h : List.Forall₂ (fun t c => c.length = t.ndeta * t.ndetb) tf cf) :
    ((tf.zip cf).flatMap fun x => x.1.det2csf x.2).length = (tf.map (·.ncsf)).sum := by
  induction h with
  | nil => rfl
  | cons h _ ih =>
    simp only [List.zip_cons_cons, List.flatMap_cons, List.length_append, List.map_cons, List.sum_cons]
    rw [ih fun t ht => hf t (List.mem_cons_of_mem _ ht), (hf _ List.mem_cons_self).csf_length _ h]

theorem packCi_length (frozen : List Nat) (ix : Nat) (ts : List (List (Trans K))) (cs : List (List (List K)))
    (hf : ∀ tf ∈ ts, ∀ t ∈ tf, Faithful t)
    (h : List.Forall₂ (List.Forall₂ fun t c => c.length = t.ndeta * t.ndetb) ts cs) :
    (packCi frozen ix ts cs).length = need frozen ix ts := by
  induction h generalizing ix with
  | nil => rfl
  | cons h _ ih =>
    simp only [packCi, need, List.length_append]
    rw [ih _ fun tf ht => hf tf (List.mem_cons_of_mem _ ht)]
    split
    · simp
    · rw [frag_length _ _ (hf _ List.mem_cons_self) h]

theorem unpackFrag_frozen [Zero K] (tf : List (Trans K)) (y : List K) :
    unpackFrag true tf y = (tf.map fun t => List.replicate (t.ndeta * t.ndetb) 0, y) := by
  induction tf with
  | nil => rfl
  | cons t tf ih => simp [unpackFrag, ih]

theorem unpackFrag_free [Zero K] (tf : List (Trans K)) (y : List K) (hf : ∀ t ∈ tf, Faithful t)
    (hl : (tf.map (·.ncsf)).sum ≤ y.length) :
    (unpackFrag false tf y).2 = y.drop (tf.map (·.ncsf)).sum ∧
    List.Forall₂ (fun t c => c.length = t.ndeta * t.ndetb) tf (unpackFrag false tf y).1 ∧
    ((tf.zip (unpackFrag false tf y).1).flatMap fun x => x.1.det2csf x.2) = y.take (tf.map (·.ncsf)).sum := by
  induction tf generalizing y with
  | nil => simp [unpackFrag]
  | cons t tf ih =>
    simp only [List.map_cons, List.sum_cons] at hl
    have ht := hf t List.mem_cons_self
    obtain ⟨h1, h2, h3⟩ := ih (y.drop t.ncsf) (fun t ht => hf t (List.mem_cons_of_mem _ ht)) (by simp; omega)
    have hy : (y.take t.ncsf).length = t.ncsf := by simp; omega
    simp only [unpackFrag, Bool.false_eq_true, if_false, List.map_cons, List.sum_cons]
    refine ⟨by rw [h1, List.drop_drop], ?_, ?_⟩
    · exact List.Forall₂.cons (ht.det_length _ hy) h2
    · simp only [List.zip_cons_cons, List.flatMap_cons]
      rw [h3, ht.back _ hy, List.take_add]

theorem unpackCi_pack [Zero K] (frozen : List Nat) (ix : Nat) (ts : List (List (Trans K))) (y : List K)
    (hf : ∀ tf ∈ ts, ∀ t ∈ tf, Faithful t) (hl : y.length = need frozen ix ts) :
    packCi frozen ix ts (unpackCi frozen ix ts y) = y ∧
    List.Forall₂ (List.Forall₂ fun t c => c.length = t.ndeta * t.ndetb) ts (unpackCi frozen ix ts y) := by
  induction ts generalizing ix y with
  | nil =>
    simp only [need, List.length_eq_zero_iff] at hl
    simp [unpackCi, packCi, hl]
  | cons tf ts ih =>
    simp only [need] at hl
    have hf' : ∀ tf ∈ ts, ∀ t ∈ tf, Faithful t := fun tf ht => hf tf (List.mem_cons_of_mem _ ht)
    by_cases h : ix ∈ frozen
    · simp only [h, if_true, zero_add] at hl
      obtain ⟨h1, h2⟩ := ih (ix + 1) y hf' hl
      simp only [unpackCi, packCi, h, decide_true, unpackFrag_frozen, if_true, List.nil_append]
      refine ⟨h1, List.Forall₂.cons ?_ h2⟩
      rw [List.forall₂_map_right_iff, List.forall₂_same]
      intro t _
      simp
    · simp only [h, if_false] at hl
      obtain ⟨g1, g2, g3⟩ := unpackFrag_free tf y (hf tf List.mem_cons_self) (by omega)
      obtain ⟨h1, h2⟩ := ih (ix + 1) (y.drop (tf.map (·.ncsf)).sum) hf' (by simp; omega)
      simp only [unpackCi, packCi, h, decide_false, if_false]
      rw [g3, g1, h1, List.take_append_drop]
      exact ⟨rfl, List.Forall₂.cons g2 h2⟩

theorem unpackFrag_pack [Zero K] (tf : List (Trans K)) (cf : List (List K)) (rest : List K) (hf : ∀ t ∈ tf, Faithful t)
    (h : List.Forall₂ (fun t c => c.length = t.ndeta * t.ndetb) tf cf)
    (hc : List.Forall₂ (fun t c => t.csf2det (t.det2csf c) = c) tf cf) :
    unpackFrag false tf (((tf.zip cf).flatMap fun x => x.1.det2csf x.2) ++ rest) = (cf, rest) := by
  induction h with
  | nil => rfl
  | @cons t c tf cf h _ ih =>
    rw [List.forall₂_cons] at hc
    have hl := (hf t List.mem_cons_self).csf_length c h
    simp only [List.zip_cons_cons, List.flatMap_cons, unpackFrag, Bool.false_eq_true, if_false, List.append_assoc]
    rw [List.take_left' hl, List.drop_left' hl, ih (fun t ht => hf t (List.mem_cons_of_mem _ ht)) hc.2, hc.1]

theorem packCi_unpack [Zero K] (frozen : List Nat) (ix : Nat) (ts : List (List (Trans K))) (cs : List (List (List K)))
    (hf : ∀ tf ∈ ts, ∀ t ∈ tf, Faithful t)
    (h : List.Forall₂ (List.Forall₂ fun t c => c.length = t.ndeta * t.ndetb) ts cs)
    (hc : ∀ i tf cf, ts[i]? = some tf → cs[i]? = some cf → ∀ (j : Nat) (t : Verif.Ugg.Trans K) (c : List K), tf[j]? = some t → cf[j]? = some c →
      if ix + i ∈ frozen then c = List.replicate (t.ndeta * t.ndetb) 0 else t.csf2det (t.det2csf c) = c) :
    unpackCi frozen ix ts (packCi frozen ix ts cs) = cs := by
  induction h generalizing ix with
  | nil => rfl
  | @cons tf cf ts cs h hh ih =>
    have h0 := hc 0 tf cf rfl rfl
    have hf' : ∀ tf ∈ ts, ∀ t ∈ tf, Faithful t := fun tf ht => hf tf (List.mem_cons_of_mem _ ht)
    have ih' := ih (ix + 1) hf' fun i tf cf h1 h2 j t c h3 h4 => by
      have := hc (i + 1) tf cf (by simpa using h1) (by simpa using h2) j t c h3 h4
      rwa [show ix + (i + 1) = ix + 1 + i by omega] at this
    simp only [Nat.add_zero] at h0
    simp only [packCi, unpackCi]
    by_cases hx : ix ∈ frozen
    · simp only [hx, decide_true, unpackFrag_frozen, if_true, List.nil_append] at h0 ⊢
      rw [ih']
      refine congrArg (· :: cs) ?_
      apply List.ext_getElem?
      intro j
      rw [List.getElem?_map]
      have hl := h.length_eq
      rcases e1 : tf[j]? with _ | t
      · rw [List.getElem?_eq_none_iff] at e1
        rw [List.getElem?_eq_none (by omega)]
        rfl
      · have hj : j < tf.length := (List.getElem?_eq_some_iff.1 e1).1
        rw [List.getElem?_eq_getElem (show j < cf.length by omega)]
        have := h0 j t cf[j] e1 (List.getElem?_eq_getElem (by omega))
        rw [this]; rfl
    · simp only [hx, decide_false, if_false] at h0 ⊢
      rw [unpackFrag_pack tf cf _ (hf tf List.mem_cons_self) h, ih']
      rw [List.forall₂_iff_get]
      refine ⟨h.length_eq, fun i h1 h2 => ?_⟩
      exact h0 i _ _ (List.getElem?_eq_getElem h1) (List.getElem?_eq_getElem h2)

theorem findState_spec (i j : Nat) (ts : List (Trans K)) (addr : Nat) (hf : ∀ t ∈ ts, Faithful t)
    (ha : addr < (ts.map (·.ncsf)).sum) : ∃ j' a t, findState i j ts addr = some (.ci i (j + j') a) ∧ ts[j']? = some t ∧ a < t.ncsf ∧
      ∀ cs, List.Forall₂ (fun t c => c.length = t.ndeta * t.ndetb) ts cs →
        ((ts.zip cs).flatMap fun x => x.1.det2csf x.2)[addr]? = cs[j']?.bind fun c => (t.det2csf c)[a]? := by
  induction ts generalizing j addr with
  | nil => simp at ha
  | cons t ts ih =>
    simp only [List.map_cons, List.sum_cons] at ha
    have ht := hf t List.mem_cons_self
    simp only [findState]
    by_cases h : addr ≥ t.ncsf
    · obtain ⟨j', a, t', h1, h2, h3, h4⟩ := ih (j + 1) (addr - t.ncsf) (fun t ht => hf t (List.mem_cons_of_mem _ ht)) (by omega)
      refine ⟨j' + 1, a, t', ?_, by simpa using h2, h3, ?_⟩
      · rw [if_pos h, h1, show j + 1 + j' = j + (j' + 1) by omega]
      · intro cs hcs
        rcases hcs with _ | ⟨hc, hcs⟩
        simp only [List.zip_cons_cons, List.flatMap_cons, List.getElem?_cons_succ]
        rw [List.getElem?_append_right (by rw [ht.csf_length _ hc]; exact h), ht.csf_length _ hc, h4 _ hcs]
    · refine ⟨0, addr, t, by rw [if_neg h]; rfl, rfl, by omega, ?_⟩
      intro cs hcs
      rcases hcs with _ | ⟨hc, hcs⟩
      simp only [List.zip_cons_cons, List.flatMap_cons, List.getElem?_cons_zero, Option.bind_some]
      rw [List.getElem?_append_left (by rw [ht.csf_length _ hc]; omega)]

theorem findFrag_spec (frozen NF : List Nat) (i : Nat) (ts : List (List (Trans K))) (addr : Nat)
    (hf : ∀ tf ∈ ts, ∀ t ∈ tf, Faithful t)
    (hNF : ∀ j tf, ts[j]? = some tf → i + j ∉ frozen → NF[i + j]? = some (tf.map (·.ncsf)).sum)
    (ha : addr < need frozen i ts) : ∃ i' j a tf t, findFrag frozen NF i ts addr = some (.ci (i + i') j a) ∧ i + i' ∉ frozen ∧
      ts[i']? = some tf ∧ tf[j]? = some t ∧ a < t.ncsf ∧
      ∀ cs, List.Forall₂ (List.Forall₂ fun t c => c.length = t.ndeta * t.ndetb) ts cs →
        (packCi frozen i ts cs)[addr]? = cs[i']?.bind fun cf => cf[j]?.bind fun c => (t.det2csf c)[a]? := by
  induction ts generalizing i addr with
  | nil => simp [need] at ha
  | cons tf ts ih =>
    simp only [need] at ha
    have hf' : ∀ tf ∈ ts, ∀ t ∈ tf, Faithful t := fun tf ht => hf tf (List.mem_cons_of_mem _ ht)
    have hNF' : ∀ j tf, ts[j]? = some tf → i + 1 + j ∉ frozen → NF[i + 1 + j]? = some (tf.map (·.ncsf)).sum := by
      intro j tf h1 h2
      rw [show i + 1 + j = i + (j + 1) by omega] at h2 ⊢
      exact hNF (j + 1) tf (by simpa using h1) h2
    by_cases hx : i ∈ frozen
    · simp only [hx, if_true, zero_add] at ha
      obtain ⟨i', j, a, tf', t, h1, h2, h3, h4, h5, h6⟩ := ih (i + 1) addr hf' hNF' ha
      refine ⟨i' + 1, j, a, tf', t, ?_, by rwa [show i + (i' + 1) = i + 1 + i' by omega], by simpa using h3, h4, h5, ?_⟩
      · simp only [findFrag]
        rw [if_pos hx, h1, show i + 1 + i' = i + (i' + 1) by omega]
      · intro cs hcs
        rcases hcs with _ | ⟨hc, hcs⟩
        simp only [packCi, hx, if_true, List.nil_append, List.getElem?_cons_succ]
        exact h6 _ hcs
    · simp only [hx, if_false] at ha
      have hn := hNF 0 tf rfl (by simpa using hx)
      simp only [Nat.add_zero] at hn
      by_cases hge : addr ≥ (tf.map (·.ncsf)).sum
      · obtain ⟨i', j, a, tf', t, h1, h2, h3, h4, h5, h6⟩ := ih (i + 1) (addr - (tf.map (·.ncsf)).sum) hf' hNF' (by omega)
        refine ⟨i' + 1, j, a, tf', t, ?_, by rwa [show i + (i' + 1) = i + 1 + i' by omega], by simpa using h3, h4, h5, ?_⟩
        · simp only [findFrag]
          rw [if_neg hx, hn]
          dsimp only
          rw [if_pos hge, h1, show i + 1 + i' = i + (i' + 1) by omega]
        · intro cs hcs
          rcases hcs with _ | ⟨hc, hcs⟩
          simp only [packCi, hx, if_false, List.getElem?_cons_succ]
          rw [List.getElem?_append_right (by rw [frag_length _ _ (hf tf List.mem_cons_self) hc]; exact hge),
            frag_length _ _ (hf tf List.mem_cons_self) hc, h6 _ hcs]
      · obtain ⟨j', a, t, h1, h2, h3, h4⟩ := findState_spec i 0 tf addr (hf tf List.mem_cons_self) (by omega)
        refine ⟨0, j', a, tf, t, ?_, by simpa using hx, rfl, h2, h3, ?_⟩
        · simp only [findFrag]
          rw [if_neg hx, hn]
          dsimp only
          rw [if_neg hge, h1]
          simp
        · intro cs hcs
          rcases hcs with _ | ⟨hc, hcs⟩
          simp only [packCi, hx, if_false, List.getElem?_cons_zero, Option.bind_some]
          rw [List.getElem?_append_left (by rw [frag_length _ _ (hf tf List.mem_cons_self) hc]; omega)]
          exact h4 _ hc

theorem ncsfFrag_at (frozen : List Nat) (k : Nat) (ts : List (List (Trans K)))
    (hpre : ∀ i j, i < ts.length → k + i ∉ frozen → j < i → k + j ∉ frozen) (i : Nat) (tf : List (Trans K)) (hi : ts[i]? = some tf)
    (hfr : k + i ∉ frozen) :
    (((((ts.zipIdx k).filter fun x => decide (x.2 ∉ frozen)).map (·.1)).map fun l => l.map (·.ncsf)).map List.sum)[i]? =
      some (tf.map (·.ncsf)).sum := by
  induction ts generalizing k i with
  | nil => simp at hi
  | cons t0 ts ih =>
    have hk : k ∉ frozen := by
      rcases i with _ | i
      · simpa using hfr
      · have := hpre (i + 1) 0 (List.getElem?_eq_some_iff.1 hi).1 hfr (by omega)
        simpa using this
    rw [List.zipIdx_cons, List.filter_cons_of_pos (by simpa using hk)]
    rcases i with _ | i
    · simp only [List.getElem?_cons_zero, Option.some.injEq] at hi
      simp [hi]
    · simp only [List.map_cons, List.getElem?_cons_succ]
      refine ih (k + 1) (fun i j h1 h2 h3 => ?_) i (by simpa using hi) (by rwa [show k + 1 + i = k + (i + 1) by omega])
      have := hpre (i + 1) (j + 1) (by simpa using h1) (by rwa [show k + (i + 1) = k + 1 + i by omega]) (by omega)
      rwa [show k + (j + 1) = k + 1 + j by omega] at this

end UggL
open UggL

/-- In the masks that occur (C86) a pair of orbitals is not a coordinate in both orders. -/
theorem oneWay_of_cls (nmo ncore : Nat) (ncas : List Nat) (frozen : Option (List Nat)) (m : Mask × Mask)
    (h : initOrb nmo ncore ncas frozen = some m) (p q : Nat) (hp : p < nmo) (hq : q < nmo) (hm : m.2 p q = true) :
    m.2 q p = false := by
  have h1 := (C86_lasscf nmo ncore ncas frozen (fun _ => 0) m h p q hp hq).1.1 hm
  rw [← Bool.not_eq_true, (C86_lasscf nmo ncore ncas frozen (fun _ => 0) m h q p hq hp).1]
  omega

/-- **C87** Packing what was unpacked gives the vector back; the assertion in `pack` holds. -/
theorem C87_pack_unpack {K : Type} [AddGroup K] (u : Gen K) (hm : ∀ p q, p < u.nmo → q < u.nmo → u.uniq p q = true → u.uniq q p = false)
    (hf : ∀ tf ∈ u.trans, ∀ t ∈ tf, Faithful t) (x : List K) (hx : x.length = u.nvarTot) :
    u.pack (u.unpack x).1 (u.unpack x).2 = some x := by
  rw [nvarTot_eq] at hx
  have h2 := (unpackCi_pack u.frozenCi 0 u.trans (x.drop u.nvarOrb) hf (by simp; omega)).1
  have h1 : (positions u.nmo u.uniq).map (fun p => (u.unpack x).1 p.1 p.2) = x.take u.nvarOrb := by
    refine Eq.trans ?_ (map_scatter (positions u.nmo u.uniq) (x.take u.nvarOrb) (positions_nodup ..)
      (by simp [Gen.nvarOrb] at hx ⊢; omega))
    refine List.map_congr_left fun p hp => ?_
    have hp' := (mem_positions ..).1 hp
    simp only [Gen.unpack]
    rw [scatter_not_mem _ _ p.2 p.1 (fun h => by
      have := ((mem_positions ..).1 h).2.2
      rw [hm _ _ hp'.1 hp'.2.1 hp'.2.2] at this
      exact absurd this (by simp))]
    simp
  unfold Gen.pack
  simp only [h1]
  have : (u.unpack x).2 = unpackCi u.frozenCi 0 u.trans (x.drop u.nvarOrb) := rfl
  rw [this, h2, List.take_append_drop, if_pos (by rw [nvarTot_eq]; exact hx)]

/-- **C87** Unpacking gives an antisymmetric rotation that vanishes outside the coordinates, CI vectors of the right shape, and zero
for frozen fragments. -/
theorem C87_unpack {K : Type} [AddGroup K] (u : Gen K) (hf : ∀ tf ∈ u.trans, ∀ t ∈ tf, Faithful t) (x : List K) (hx : x.length = u.nvarTot) :
    (∀ p q, (u.unpack x).1 p q = -(u.unpack x).1 q p) ∧
    (∀ p q, ¬(p < u.nmo ∧ q < u.nmo ∧ (u.uniq p q = true ∨ u.uniq q p = true)) → (u.unpack x).1 p q = 0) ∧
    Shaped u (u.unpack x).2 ∧
    ∀ i ∈ u.frozenCi, ∀ cf, (u.unpack x).2[i]? = some cf → ∀ c ∈ cf, ∀ y ∈ c, y = 0 := by
  rw [nvarTot_eq] at hx
  refine ⟨fun p q => by simp [Gen.unpack], ?_, ?_, ?_⟩
  · intro p q h
    simp only [Gen.unpack]
    rw [scatter_not_mem _ _ p q (fun hh => h (by have := (mem_positions ..).1 hh; tauto)),
      scatter_not_mem _ _ q p (fun hh => h (by have := (mem_positions ..).1 hh; tauto)), sub_zero]
  · exact (unpackCi_pack u.frozenCi 0 u.trans (x.drop u.nvarOrb) hf (by simp; omega)).2
  · have key : ∀ (ts : List (List (Trans K))) (ix : Nat) (y : List K) (i : Nat) (cf : List (List K)), ix + i ∈ u.frozenCi →
        (unpackCi u.frozenCi ix ts y)[i]? = some cf → ∀ c ∈ cf, ∀ z ∈ c, z = 0 := by
      intro ts
      induction ts with
      | nil => intro ix y i cf _ h; simp [unpackCi] at h
      | cons tf ts ih =>
        intro ix y i cf hi h
        rcases i with _ | i
        · simp only [Nat.add_zero] at hi
          simp only [unpackCi, hi, decide_true, unpackFrag_frozen, List.getElem?_cons_zero, Option.some.injEq] at h
          subst h
          intro c hc z hz
          obtain ⟨t, _, rfl⟩ := List.mem_map.1 hc
          exact (List.mem_replicate.1 hz).2
        · simp only [unpackCi, List.getElem?_cons_succ] at h
          exact ih (ix + 1) _ i cf (by rwa [show ix + 1 + i = ix + (i + 1) by omega]) h
    intro i hi cf h
    exact key u.trans 0 (x.drop u.nvarOrb) i cf (by simpa using hi) h

/-- **C87** Unpacking what was packed gives back every rotation and every set of CI vectors that the coordinates can express. -/
theorem C87_unpack_pack {K : Type} [AddGroup K] (u : Gen K)
    (hm : ∀ p q, p < u.nmo → q < u.nmo → u.uniq p q = true → u.uniq q p = false)
    (hf : ∀ tf ∈ u.trans, ∀ t ∈ tf, Faithful t) (kappa : Nat → Nat → K) (ci : List (List (List K))) (hs : Shaped u ci)
    (ha : ∀ p q, kappa p q = -kappa q p)
    (hz : ∀ p q, ¬(p < u.nmo ∧ q < u.nmo ∧ (u.uniq p q = true ∨ u.uniq q p = true)) → kappa p q = 0)
    (hc : ∀ i tf cf, u.trans[i]? = some tf → ci[i]? = some cf → ∀ (j : Nat) (t : Verif.Ugg.Trans K) (c : List K), tf[j]? = some t → cf[j]? = some c →
      if i ∈ u.frozenCi then c = List.replicate (t.ndeta * t.ndetb) 0 else t.csf2det (t.det2csf c) = c) :
    ∃ x, u.pack kappa ci = some x ∧ x.length = u.nvarTot ∧ u.unpack x = (kappa, ci) := by
  have hl : ((positions u.nmo u.uniq).map (fun p => kappa p.1 p.2) ++ packCi u.frozenCi 0 u.trans ci).length = u.nvarTot := by
    rw [nvarTot_eq, List.length_append, List.length_map, packCi_length _ _ _ _ hf hs]
    rfl
  refine ⟨_, by unfold Gen.pack; rw [if_pos hl], hl, ?_⟩
  have hl' : ((positions u.nmo u.uniq).map (fun p => kappa p.1 p.2)).length = u.nvarOrb := by simp [Gen.nvarOrb]
  unfold Gen.unpack
  rw [List.take_left' hl', List.drop_left' hl', packCi_unpack u.frozenCi 0 u.trans ci hf hs (by simpa using hc)]
  refine Prod.ext ?_ rfl
  funext p q
  dsimp only
  by_cases h1 : (p, q) ∈ positions u.nmo u.uniq
  · have h1' := (mem_positions ..).1 h1
    rw [scatter_map _ _ _ _ h1, scatter_not_mem _ _ q p (fun h => by
      have := ((mem_positions ..).1 h).2.2
      rw [hm _ _ h1'.1 h1'.2.1 h1'.2.2] at this
      exact absurd this (by simp)), sub_zero]
  · rw [scatter_not_mem _ _ p q h1]
    by_cases h2 : (q, p) ∈ positions u.nmo u.uniq
    · rw [scatter_map _ _ _ _ h2, zero_sub, ← ha]
    · rw [scatter_not_mem _ _ q p h2, sub_zero]
      refine (hz p q fun h => ?_).symm
      rw [mem_positions] at h1 h2
      tauto

/-- The value of a coordinate: an element of the rotation, or a coefficient of a CI vector in terms of configuration state
functions. -/
def valueAt {K : Type} (u : Gen K) (kappa : Nat → Nat → K) (ci : List (List (List K))) : Id → Option K
  | .orb p q => some (kappa p q)
  | .ci i j a => u.trans[i]?.bind fun tf => tf[j]?.bind fun t => ci[i]?.bind fun cf => cf[j]?.bind fun c => (t.det2csf c)[a]?

/-- **C88** (part) The identification printed for an element of a packed vector is the coordinate that `pack` stored there. Missing:
frozen fragments that come before others (`C88_frozen_violated`). -/
theorem C88_identify_partial {K : Type} (u : Gen K) (hf : ∀ tf ∈ u.trans, ∀ t ∈ tf, Faithful t)
    (hfr : ∀ i j, i < u.trans.length → i ∉ u.frozenCi → j < i → j ∉ u.frozenCi) (addr : Nat) (ha : addr < u.nvarTot) :
    ∃ id, u.addr2id addr = some id ∧ ∀ kappa ci, Shaped u ci → ∃ x, u.pack kappa ci = some x ∧ x[addr]? = valueAt u kappa ci id ∧
      (x[addr]?).isSome := by
  rw [nvarTot_eq] at ha
  have hpk : ∀ kappa ci, Shaped u ci → u.pack kappa ci = some ((positions u.nmo u.uniq).map (fun p => kappa p.1 p.2) ++
      packCi u.frozenCi 0 u.trans ci) := by
    intro kappa ci hs
    unfold Gen.pack
    rw [if_pos]
    rw [nvarTot_eq, List.length_append, List.length_map, packCi_length _ _ _ _ hf hs]
    rfl
  have hlen : ∀ (kappa : Nat → Nat → K) ci, Shaped u ci → addr < ((positions u.nmo u.uniq).map (fun p => kappa p.1 p.2) ++
      packCi u.frozenCi 0 u.trans ci).length := by
    intro kappa ci hs
    rw [List.length_append, List.length_map, packCi_length _ _ _ _ hf hs]
    exact ha
  unfold Gen.addr2id
  by_cases h : addr < u.nvarOrb
  · rw [if_pos h]
    refine ⟨.orb (positions u.nmo u.uniq)[addr].1 (positions u.nmo u.uniq)[addr].2, ?_, ?_⟩
    · rw [List.getElem?_eq_getElem h]; rfl
    · intro kappa ci hs
      refine ⟨_, hpk kappa ci hs, ?_, ?_⟩
      · rw [List.getElem?_append_left (by rw [List.length_map]; exact h), List.getElem?_map, List.getElem?_eq_getElem h]
        rfl
      · rw [List.getElem?_eq_getElem (hlen kappa ci hs)]; rfl
  · rw [if_neg h]
    have hNF : ∀ j tf, u.trans[j]? = some tf → 0 + j ∉ u.frozenCi → (u.ncsfSub.map List.sum)[0 + j]? = some (tf.map (·.ncsf)).sum := by
      intro j tf h1 h2
      rw [Nat.zero_add] at h2 ⊢
      exact ncsfFrag_at u.frozenCi 0 u.trans (fun i j h1 h2 h3 => by
        rw [Nat.zero_add] at h2 ⊢; exact hfr i j h1 h2 h3) j tf h1 (by rwa [Nat.zero_add])
    obtain ⟨i', j, a, tf, t, h1, h2, h3, h4, h5, h6⟩ := findFrag_spec u.frozenCi (u.ncsfSub.map List.sum) 0 u.trans
      (addr - u.nvarOrb) hf hNF (by omega)
    refine ⟨_, h1, ?_⟩
    intro kappa ci hs
    have hl' : ((positions u.nmo u.uniq).map (fun p => kappa p.1 p.2)).length = u.nvarOrb := by simp [Gen.nvarOrb]
    refine ⟨_, hpk kappa ci hs, ?_, ?_⟩
    · rw [List.getElem?_append_right (by omega), hl', h6 _ hs]
      simp [valueAt, h3, h4]
    · rw [List.getElem?_eq_getElem (hlen kappa ci hs)]; rfl

/-- Two fragments of one state each, without orbital rotations. -/
def twoFrags (frozen : List Nat) : Gen Int :=
  ⟨2, fun p q => decide (q < p), [[⟨2, 2, 1, id, id⟩], [⟨3, 3, 1, id, id⟩]], frozen⟩

theorem twoFrags_faithful (frozen : List Nat) : ∀ tf ∈ (twoFrags frozen).trans, ∀ t ∈ tf, Faithful t := by
  intro tf h t ht
  simp only [twoFrags, List.mem_cons, List.not_mem_nil, or_false] at h
  rcases h with rfl | rfl <;> simp only [List.mem_cons, List.not_mem_nil, or_false] at ht <;> subst ht <;>
    exact ⟨fun v h => by simpa using h, fun v h => by simpa using h, fun v _ => rfl⟩

/-- The hypotheses of C87 and C88 hold in a concrete case; the second fragment is frozen. -/
example : (∀ p q, p < (twoFrags [1]).nmo → q < (twoFrags [1]).nmo → (twoFrags [1]).uniq p q = true → (twoFrags [1]).uniq q p = false) ∧
    (twoFrags [1]).nvarTot = 3 ∧ (twoFrags [1]).addr2id 2 = some (.ci 0 0 1) ∧
    (twoFrags [1]).pack (fun p q => (p : Int) - q) [[[5, 6]], [[0, 0, 0]]] = some [1, 5, 6] ∧
    Shaped (twoFrags [1]) [[[5, 6]], [[0, 0, 0]]] ∧
    (∀ i j, i < (twoFrags [1]).trans.length → i ∉ (twoFrags [1]).frozenCi → j < i → j ∉ (twoFrags [1]).frozenCi) := by
  refine ⟨?_, by decide, by decide, by decide, ?_, ?_⟩
  · intro p q _ _ h
    simp only [twoFrags, decide_eq_true_eq, decide_eq_false_iff_not] at h ⊢
    omega
  · exact .cons (.cons rfl .nil) (.cons (.cons rfl .nil) .nil)
  · intro i j h1 h2 h3
    simp only [twoFrags, List.length_cons, List.length_nil, List.mem_cons, List.not_mem_nil, or_false] at h1 h2 ⊢
    omega

/-- **C88** fails with frozen CI vectors: with the first fragment frozen, identifying any CI coordinate raises an IndexError. -/
theorem C88_frozen_violated : ∃ (u : Gen Int) (addr : Nat), (∀ tf ∈ u.trans, ∀ t ∈ tf, Faithful t) ∧ addr < u.nvarTot ∧
    u.addr2id addr = none :=
  ⟨twoFrags [0], 1, twoFrags_faithful _, by decide, by decide⟩

end Verif.Props
