import Verif.Lemmas.SlaterCondon
namespace Verif.SC
open Verif.Spec
open scoped BigOperators

/-- fragment data ((bra, ket), (2S+1 bra, 2S+1 ket)) -/
abbrev FData := ((Int × Int) × (Int × Int)) × (Int × Int)

def dnOf (p : FData) : Nat := (p.1.1.1 - p.1.2.1).natAbs + (p.1.1.2 - p.1.2.2).natAbs
def dsOf (p : FData) : Nat := (p.2.1 - p.2.2).natAbs

/-- evenness of the surplus multiplicity change -/
def Even1 (p : FData) : Prop := (dsOf p + dnOf p) % 2 = 0

theorem ladder_foldl (c : Bool) (l : List FData) (h : ∀ p ∈ l, Even1 p) (z : Int) :
    l.foldl (ladderStep c) (some z) = some (z - ((l.map (fun p => (dsOf p - dnOf p) / 2)).sum : Nat)) := by
  induction l generalizing z with
  | nil => simp
  | cons p l ih =>
    have hp : (dsOf p + dnOf p) % 2 = 0 := h p (by simp)
    have e : ladderStep c (some z) p = some (z - ((dsOf p - dnOf p) / 2 : Nat)) := by
      simp only [ladderStep, Option.bind_some]
      change (if dsOf p > dnOf p then
        if (c && (dsOf p - dnOf p) % 2 != 0) = true then none
        else some (z - (((dsOf p - dnOf p) / 2 : Nat) : Int)) else some z) = _
      have hm : dnOf p < dsOf p → (dsOf p - dnOf p) % 2 = 0 := by omega
      split
      · rename_i hgt
        simp [hm hgt]
      · have : dsOf p - dnOf p = 0 := by omega
        simp [this]
    rw [List.foldl_cons, e, ih (fun q hq => h q (by simp [hq]))]
    simp only [List.map_cons, List.sum_cons]
    push_cast
    congr 1
    omega

theorem sum_parity (l : List ((Int × Int) × (Int × Int))) :
    (((l.map (fun p => (p.1.1 - p.2.1).natAbs + (p.1.2 - p.2.2).natAbs)).sum : Nat) : Int) % 2 =
      ((l.map (fun p => p.1.1 - p.2.1)).sum + (l.map (fun p => p.1.2 - p.2.2)).sum) % 2 := by
  induction l with
  | nil => simp
  | cons p l ih =>
    simp only [List.map_cons, List.sum_cons]
    push_cast at ih ⊢
    omega

theorem acc_parity (bra ket : List (Int × Int)) :
    ((acc bra ket).d : Int) % 2 = ((acc bra ket).sa + (acc bra ket).sb) % 2 := by
  rw [acc_eq]; exact sum_parity _

theorem isCoupledS_closed (bra ket : List (Int × Int)) (sb sk : List Int)
    (h : ∀ p ∈ (bra.zip ket).zip (sb.zip sk), Even1 p) :
    isCoupledS bra ket sb sk = some (isCoupled bra ket && decide
      (((((bra.zip ket).zip (sb.zip sk)).map (fun p => (dsOf p - dnOf p) / 2)).sum : Nat) ≤
        sladder0 (acc bra ket).d)) := by
  unfold isCoupledS
  have hp := acc_parity bra ket
  have h3 : ((((acc bra ket).sa == 0 && (acc bra ket).sb == 0 && decide ((acc bra ket).d ≤ 4)) &&
      (acc bra ket).d == 3)) = false := by
    rw [Bool.eq_false_iff]
    simp only [ne_eq, Bool.and_eq_true, beq_iff_eq, decide_eq_true_eq, not_and]
    intro h1 h2
    omega
  simp only [h3]
  simp only [Bool.false_eq_true, if_false]
  rw [ladder_foldl _ _ h, Option.map_some, Option.some.injEq]
  unfold isCoupled
  congr 1
  rw [decide_eq_decide]
  omega

/-- without any hypothesis: acceptance implies charge acceptance -/
theorem isCoupledS_le (bra ket : List (Int × Int)) (sb sk : List Int)
    (h : isCoupledS bra ket sb sk = some true) : isCoupled bra ket = true := by
  unfold isCoupledS at h
  unfold isCoupled
  dsimp only at h ⊢
  split at h
  · simp at h
  · rw [Option.map_eq_some_iff] at h
    obtain ⟨a, _, h⟩ := h
    rw [Bool.and_eq_true] at h
    exact h.1

theorem isCoupledS_symm (bra ket : List (Int × Int)) (sb sk : List Int) :
    isCoupledS bra ket sb sk = isCoupledS ket bra sk sb := by
  unfold isCoupledS
  rw [acc_symm bra ket]
  dsimp only
  have hc : ((-(acc bra ket).sa == 0) && (-(acc bra ket).sb == 0) && decide ((acc bra ket).d ≤ 4)) =
      ((acc bra ket).sa == 0 && (acc bra ket).sb == 0 && decide ((acc bra ket).d ≤ 4)) := by
    congr 1
    rw [Bool.eq_iff_iff]; simp
  rw [hc]
  generalize ((acc bra ket).sa == 0 && (acc bra ket).sb == 0 && decide ((acc bra ket).d ≤ 4)) = c
  have hf : ∀ (z : Option Int), ((bra.zip ket).zip (sb.zip sk)).foldl (ladderStep c) z =
      ((ket.zip bra).zip (sk.zip sb)).foldl (ladderStep c) z := by
    generalize bra = b1, ket = k1, sb = s1, sk = t1
    induction b1 generalizing k1 s1 t1 with
    | nil => intro z; simp
    | cons b b1 ih =>
      intro z
      cases k1 with
      | nil => simp
      | cons k k1 =>
        cases s1 with
        | nil => simp
        | cons s s1 =>
          cases t1 with
          | nil => simp
          | cons t t1 =>
            simp only [List.zip_cons_cons, List.foldl_cons]
            rw [ih]
            congr 1
            unfold ladderStep
            have e1 : (b.1 - k.1).natAbs = (k.1 - b.1).natAbs := by omega
            have e2 : (b.2 - k.2).natAbs = (k.2 - b.2).natAbs := by omega
            have e3 : (s - t).natAbs = (t - s).natAbs := by omega
            simp only [e1, e2, e3]
  rw [hf]

/-! ### selection rules -/

theorem map_range_sum {M : Type} [AddCommMonoid M] (n : Nat) (g : Nat → M) :
    ((List.range n).map g).sum = ∑ f ∈ Finset.range n, g f := by
  induction n with
  | zero => simp
  | succ n ih => rw [List.range_succ, List.map_append, List.sum_append, ih, Finset.sum_range_succ]; simp

theorem zip_map_range {β : Type} (bra ket : List (Int × Int)) (sb sk : List Int) (n : Nat)
    (h1 : bra.length = n) (h2 : ket.length = n) (h3 : sb.length = n) (h4 : sk.length = n)
    (F : FData → β) :
    ((bra.zip ket).zip (sb.zip sk)).map F = (List.range n).map (fun f =>
      F ((bra.getD f (0,0), ket.getD f (0,0)), (sb.getD f 0, sk.getD f 0))) := by
  apply List.ext_getElem
  · simp [h1, h2, h3, h4]
  · intro i hi1 hi2
    simp at hi2
    simp [hi2, h1, h2, h3, h4]

theorem zip2_map_range {β : Type} (bra ket : List (Int × Int)) (n : Nat)
    (h1 : bra.length = n) (h2 : ket.length = n) (F : (Int × Int) × (Int × Int) → β) :
    (bra.zip ket).map F = (List.range n).map (fun f => F (bra.getD f (0,0), ket.getD f (0,0))) := by
  apply List.ext_getElem
  · simp [h1, h2]
  · intro i hi1 hi2
    simp at hi2
    simp [hi2, h1, h2]

theorem net_append (l m : List Elem) (u : Bool) (f : Nat) : net (l ++ m) u f = net l u f + net m u f := by
  simp [net]

theorem opsOn_append (l m : List Elem) (f : Nat) : opsOn (l ++ m) f = opsOn l f + opsOn m f := by
  simp [opsOn]

theorem netSpin_append (l m : List Elem) (u : Bool) : netSpin (l ++ m) u = netSpin l u + netSpin m u := by
  simp [netSpin]

theorem net_le_opsOn (ops : List Elem) (f : Nat) :
    (net ops true f).natAbs + (net ops false f).natAbs ≤ opsOn ops f := by
  induction ops with
  | nil => simp [net, opsOn]
  | cons o ops ih =>
    have e1 : ∀ u, net (o :: ops) u f = net [o] u f + net ops u f := fun u => net_append [o] ops u f
    have e2 : opsOn (o :: ops) f = opsOn [o] f + opsOn ops f := opsOn_append [o] ops f
    rw [e1, e1, e2]
    have : (net [o] true f).natAbs + (net [o] false f).natAbs ≤ opsOn [o] f := by
      rcases o with ⟨c, u, g⟩
      by_cases hg : g = f <;> cases c <;> cases u <;> simp [net, opsOn, hg]
    omega

theorem sum_opsOn (ops : List Elem) (n : Nat) (h : ∀ o ∈ ops, o.frag < n) :
    ∑ f ∈ Finset.range n, opsOn ops f = ops.length := by
  induction ops with
  | nil => simp [opsOn]
  | cons o ops ih =>
    have e2 : ∀ f, opsOn (o :: ops) f = opsOn [o] f + opsOn ops f := fun f => opsOn_append [o] ops f
    simp only [e2, Finset.sum_add_distrib]
    rw [ih (fun q hq => h q (by simp [hq]))]
    have : ∑ f ∈ Finset.range n, opsOn [o] f = 1 := by
      rw [Finset.sum_eq_single o.frag]
      · simp [opsOn]
      · intro b _ hb; simp [opsOn, hb.symm]
      · intro hn; exact absurd (Finset.mem_range.mpr (h o (by simp))) hn
    rw [this]; simp; omega

theorem sum_net (ops : List Elem) (n : Nat) (u : Bool) (h : ∀ o ∈ ops, o.frag < n) :
    ∑ f ∈ Finset.range n, net ops u f = netSpin ops u := by
  induction ops with
  | nil => simp [net, netSpin]
  | cons o ops ih =>
    have e1 : ∀ f, net (o :: ops) u f = net [o] u f + net ops u f := fun f => net_append [o] ops u f
    have e2 : netSpin (o :: ops) u = netSpin [o] u + netSpin ops u := netSpin_append [o] ops u
    simp only [e1, Finset.sum_add_distrib, e2]
    rw [ih (fun q hq => h q (by simp [hq]))]
    have : ∑ f ∈ Finset.range n, net [o] u f = netSpin [o] u := by
      rw [Finset.sum_eq_single o.frag]
      · simp [net, netSpin]
      · intro b _ hb
        have : ¬ o.frag = b := fun e => hb e.symm
        simp [net, this]
      · intro hn; exact absurd (Finset.mem_range.mpr (h o (by simp))) hn
    rw [this]

/-- the shortest operator string for one fragment -/
def fragOps (f : Nat) (x y : Int) (k : Nat) : List Elem :=
  List.replicate x.natAbs ⟨decide (0 < x), true, f⟩ ++ List.replicate y.natAbs ⟨decide (0 < y), false, f⟩ ++
  List.replicate k ⟨true, true, f⟩ ++ List.replicate k ⟨false, true, f⟩

theorem net_replicate (k : Nat) (o : Elem) (u : Bool) (f : Nat) :
    net (List.replicate k o) u f = k * (if o.up = u ∧ o.frag = f then (if o.cre then (1 : Int) else -1) else 0) := by
  induction k with
  | zero => simp [net]
  | succ k ih =>
    rw [List.replicate_succ]
    have := net_append [o] (List.replicate k o) u f
    rw [List.singleton_append] at this
    rw [this, ih]
    simp only [net, List.map_cons, List.map_nil, List.sum_cons, List.sum_nil]
    push_cast
    rw [add_mul]; omega

theorem opsOn_replicate (k : Nat) (o : Elem) (f : Nat) :
    opsOn (List.replicate k o) f = if o.frag = f then k else 0 := by
  unfold opsOn
  by_cases h : o.frag = f <;> simp [h]

theorem net_fragOps (g f : Nat) (x y : Int) (k : Nat) (u : Bool) :
    net (fragOps g x y k) u f = if g = f then (if u then x else y) else 0 := by
  unfold fragOps
  simp only [net_append, net_replicate]
  by_cases hg : g = f
  · subst hg
    by_cases hx : 0 < x <;> by_cases hy : 0 < y <;> cases u <;> simp [hx, hy] <;> omega
  · simp [hg]

theorem opsOn_fragOps (g f : Nat) (x y : Int) (k : Nat) :
    opsOn (fragOps g x y k) f = if g = f then x.natAbs + y.natAbs + 2 * k else 0 := by
  unfold fragOps
  simp only [opsOn_append, opsOn_replicate]
  by_cases hg : g = f <;> simp [hg]; omega

theorem net_flatMap (l : List Nat) (F : Nat → List Elem) (u : Bool) (f : Nat) :
    net (l.flatMap F) u f = (l.map (fun g => net (F g) u f)).sum := by
  induction l with
  | nil => simp [net]
  | cons x l ih => rw [List.flatMap_cons, net_append, ih]; simp

theorem opsOn_flatMap (l : List Nat) (F : Nat → List Elem) (f : Nat) :
    opsOn (l.flatMap F) f = (l.map (fun g => opsOn (F g) f)).sum := by
  induction l with
  | nil => simp [opsOn]
  | cons x l ih => rw [List.flatMap_cons, opsOn_append, ih]; simp

/-- budget form of the selection rules -/
theorem twoBody_iff (na nb sm na' nb' sm' : Nat → Int) (n : Nat)
    (hpar : ∀ f, f < n → ((sm f - sm' f).natAbs + ((na f - na' f).natAbs + (nb f - nb' f).natAbs)) % 2 = 0) :
    TwoBodyAllowed na nb sm na' nb' sm' n ↔
      (∑ f ∈ Finset.range n, (na f - na' f) = 0 ∧ ∑ f ∈ Finset.range n, (nb f - nb' f) = 0 ∧
       ∑ f ∈ Finset.range n, ((na f - na' f).natAbs + (nb f - nb' f).natAbs +
        2 * (((sm f - sm' f).natAbs - ((na f - na' f).natAbs + (nb f - nb' f).natAbs)) / 2)) ≤ 4) := by
  constructor
  · rintro ⟨ops, hlen, hfr, hs1, hs2, hf⟩
    refine ⟨?_, ?_, ?_⟩
    · rw [← hs1, ← sum_net ops n true hfr]
      apply Finset.sum_congr rfl
      intro f hfm
      exact (hf f (Finset.mem_range.mp hfm)).1.symm
    · rw [← hs2, ← sum_net ops n false hfr]
      apply Finset.sum_congr rfl
      intro f hfm
      exact (hf f (Finset.mem_range.mp hfm)).2.1.symm
    · refine le_trans ?_ hlen
      rw [← sum_opsOn ops n hfr]
      apply Finset.sum_le_sum
      intro f hfm
      have hfm := Finset.mem_range.mp hfm
      obtain ⟨e1, e2, e3⟩ := hf f hfm
      have := net_le_opsOn ops f
      rw [e1, e2] at this
      have := hpar f hfm
      omega
  · rintro ⟨hs1, hs2, hlen⟩
    let k : Nat → Nat := fun f => ((sm f - sm' f).natAbs - ((na f - na' f).natAbs + (nb f - nb' f).natAbs)) / 2
    let ops := (List.range n).flatMap (fun f => fragOps f (na f - na' f) (nb f - nb' f) (k f))
    have hnet : ∀ u f, f < n → net ops u f = if u then na f - na' f else nb f - nb' f := by
      intro u f hf
      simp only [ops]
      rw [net_flatMap, map_range_sum]
      simp only [net_fragOps]
      rw [Finset.sum_ite_eq' (Finset.range n) f]
      simp [hf]
    have hops : ∀ f, f < n → opsOn ops f = (na f - na' f).natAbs + (nb f - nb' f).natAbs + 2 * k f := by
      intro f hf
      simp only [ops]
      rw [opsOn_flatMap, map_range_sum]
      simp only [opsOn_fragOps]
      rw [Finset.sum_ite_eq' (Finset.range n) f]
      simp [hf]
    have hfr : ∀ o ∈ ops, o.frag < n := by
      intro o ho
      simp only [ops, List.mem_flatMap, List.mem_range] at ho
      obtain ⟨f, hf, ho⟩ := ho
      have : o.frag = f := by
        simp only [fragOps, List.mem_append, List.mem_replicate] at ho
        rcases ho with ((h | h) | h) | h <;> rw [h.2]
      omega
    refine ⟨ops, ?_, hfr, ?_, ?_, ?_⟩
    · rw [← sum_opsOn ops n hfr]
      rw [Finset.sum_congr rfl (fun f hf => hops f (Finset.mem_range.mp hf))]
      exact hlen
    · rw [← sum_net ops n true hfr, Finset.sum_congr rfl (fun f hf => hnet true f (Finset.mem_range.mp hf))]
      simpa using hs1
    · rw [← sum_net ops n false hfr, Finset.sum_congr rfl (fun f hf => hnet false f (Finset.mem_range.mp hf))]
      simpa using hs2
    · intro f hf
      refine ⟨by simpa using hnet true f hf, by simpa using hnet false f hf, ?_⟩
      rw [hops f hf]
      have := hpar f hf
      simp only [k]
      omega

theorem coupledS_iff (bra ket : List (Int × Int)) (sb sk : List Int) (n : Nat)
    (h1 : bra.length = n) (h2 : ket.length = n) (h3 : sb.length = n) (h4 : sk.length = n)
    (hb : ∀ f, f < n → (sb.getD f 0 - ((bra.getD f (0,0)).1 + (bra.getD f (0,0)).2 + 1)) % 2 = 0)
    (hk : ∀ f, f < n → (sk.getD f 0 - ((ket.getD f (0,0)).1 + (ket.getD f (0,0)).2 + 1)) % 2 = 0) :
    ∃ r, isCoupledS bra ket sb sk = some r ∧ (r = true ↔
      TwoBodyAllowed (fun f => (bra.getD f (0,0)).1) (fun f => (bra.getD f (0,0)).2) (fun f => sb.getD f 0)
        (fun f => (ket.getD f (0,0)).1) (fun f => (ket.getD f (0,0)).2) (fun f => sk.getD f 0) n) := by
  have hev : ∀ f, f < n → Even1 ((bra.getD f (0,0), ket.getD f (0,0)), (sb.getD f 0, sk.getD f 0)) := by
    intro f hf
    have e1 := hb f hf
    have e2 := hk f hf
    unfold Even1 dsOf dnOf
    dsimp only
    omega
  have hall : ∀ p ∈ (bra.zip ket).zip (sb.zip sk), Even1 p := by
    intro p hp
    have hm : p ∈ ((bra.zip ket).zip (sb.zip sk)).map id := by simpa using hp
    rw [zip_map_range bra ket sb sk n h1 h2 h3 h4, List.mem_map] at hm
    obtain ⟨f, hf, rfl⟩ := hm
    exact hev f (by simpa using hf)
  refine ⟨_, isCoupledS_closed bra ket sb sk hall, ?_⟩
  rw [twoBody_iff _ _ _ _ _ _ n (by
    intro f hf
    exact hev f hf)]
  have hpar := acc_parity bra ket
  unfold isCoupled
  rw [zip_map_range bra ket sb sk n h1 h2 h3 h4, map_range_sum]
  rw [acc_eq, zip2_map_range bra ket n h1 h2, zip2_map_range bra ket n h1 h2, zip2_map_range bra ket n h1 h2,
    map_range_sum, map_range_sum, map_range_sum] at hpar ⊢
  simp only [Bool.and_eq_true, beq_iff_eq, decide_eq_true_eq]
  rw [Finset.sum_add_distrib (s := Finset.range n)
    (g := fun f => 2 * (((sb.getD f 0 - sk.getD f 0).natAbs - _) / 2)), ← Finset.mul_sum]
  simp only [dsOf, dnOf] at *
  generalize (∑ f ∈ Finset.range n, ((bra.getD f (0, 0)).1 - (ket.getD f (0, 0)).1)) = A at *
  generalize (∑ f ∈ Finset.range n, ((bra.getD f (0, 0)).2 - (ket.getD f (0, 0)).2)) = B at *
  generalize (∑ f ∈ Finset.range n, (((bra.getD f (0, 0)).1 - (ket.getD f (0, 0)).1).natAbs +
    ((bra.getD f (0, 0)).2 - (ket.getD f (0, 0)).2).natAbs)) = D at *
  generalize (∑ f ∈ Finset.range n, ((sb.getD f 0 - sk.getD f 0).natAbs -
    (((bra.getD f (0, 0)).1 - (ket.getD f (0, 0)).1).natAbs +
    ((bra.getD f (0, 0)).2 - (ket.getD f (0, 0)).2).natAbs)) / 2) = X at *
  unfold sladder0
  constructor
  · rintro ⟨⟨⟨hA, hB⟩, hD⟩, hX⟩
    refine ⟨hA, hB, ?_⟩
    split at hX
    · omega
    · split at hX <;> omega
  · rintro ⟨hA, hB, hX⟩
    refine ⟨⟨⟨hA, hB⟩, by omega⟩, ?_⟩
    split
    · omega
    · split <;> omega

end Verif.SC
