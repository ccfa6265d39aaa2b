import Verif.Lemmas.LrrdmRow
import Verif.Lemmas.HamRows
/-!
# Lemmas: each row of `LRRDM` gives the mixture of the matrices of the row of `LSTDM`
-/
namespace Verif.Lstdm
open Verif.Spec Verif.Addr Verif.Exc Verif.Signs Verif.Radix Verif.Spec.Tdm Verif.Spec.Lstdm

namespace Kern
variable {K : Type} {k : Kern K}

/-- Position in the tables. -/
def lp (k : Kern K) (f r a : Nat) : Nat := Nat.pair (k.uroot f r) a

section con
variable [Field K]

theorem con_eq (f rb rk : Nat) (d g : Nat → Nat → K) :
    k.con f rb rk d g = ∑ p ∈ k.prs1 f rb rk, d p.1 p.2 * g (k.lp f rb p.1) (k.lp f rk p.2) := rfl

theorem con1 (i rb rk : Nat) (d : List Nat → K) (g : Nat → Nat → K) :
    k.con i rb rk (fun a b => d [a, b]) g = ∑ q ∈ k.prs [i] rb rk, d [k.dig [i] rb q.1 i, k.dig [i] rk q.2 i] *
      g (k.lp i rb (k.dig [i] rb q.1 i)) (k.lp i rk (k.dig [i] rk q.2 i)) := by
  rw [con_eq, sum_prs1 i rb rk (fun a b => d [a, b] * g (k.lp i rb a) (k.lp i rk b))]

theorem con2 (i j rb rk : Nat) (h : [i, j].Nodup) (d : List Nat → K) (g g2 : Nat → Nat → K) :
    k.con j rb rk (fun a b => k.con i rb rk (fun a' b' => d [a, b, a', b']) g) g2 = ∑ q ∈ k.prs [i, j] rb rk,
      d [k.dig [i, j] rb q.1 j, k.dig [i, j] rk q.2 j, k.dig [i, j] rb q.1 i, k.dig [i, j] rk q.2 i] *
      (g (k.lp i rb (k.dig [i, j] rb q.1 i)) (k.lp i rk (k.dig [i, j] rk q.2 i)) *
       g2 (k.lp j rb (k.dig [i, j] rb q.1 j)) (k.lp j rk (k.dig [i, j] rk q.2 j))) := by
  rw [sum_prs2 i j rb rk h (fun a b a' b' => d [a', b', a, b] * (g (k.lp i rb a) (k.lp i rk b) * g2 (k.lp j rb a') (k.lp j rk b'))),
    Finset.sum_comm, con_eq]
  refine Finset.sum_congr rfl fun p _ => ?_
  rw [con_eq, Finset.sum_mul]
  exact Finset.sum_congr rfl fun p' _ => by ring

theorem con3 (i j l rb rk : Nat) (h : [i, j, l].Nodup) (d : List Nat → K) (g g2 g3 : Nat → Nat → K) :
    k.con l rb rk (fun a b => k.con j rb rk (fun a' b' => k.con i rb rk (fun a2 b2 => d [a, b, a', b', a2, b2]) g) g2) g3 =
      ∑ q ∈ k.prs [i, j, l] rb rk,
      d [k.dig [i, j, l] rb q.1 l, k.dig [i, j, l] rk q.2 l, k.dig [i, j, l] rb q.1 j, k.dig [i, j, l] rk q.2 j,
        k.dig [i, j, l] rb q.1 i, k.dig [i, j, l] rk q.2 i] *
      (g (k.lp i rb (k.dig [i, j, l] rb q.1 i)) (k.lp i rk (k.dig [i, j, l] rk q.2 i)) *
       g2 (k.lp j rb (k.dig [i, j, l] rb q.1 j)) (k.lp j rk (k.dig [i, j, l] rk q.2 j)) *
       g3 (k.lp l rb (k.dig [i, j, l] rb q.1 l)) (k.lp l rk (k.dig [i, j, l] rk q.2 l))) := by
  rw [sum_prs3 i j l rb rk h (fun a b a' b' a2 b2 => d [a2, b2, a', b', a, b] *
    (g (k.lp i rb a) (k.lp i rk b) * g2 (k.lp j rb a') (k.lp j rk b') * g3 (k.lp l rb a2) (k.lp l rk b2))), con_eq]
  rw [Finset.sum_congr rfl fun p _ => Finset.sum_comm, Finset.sum_comm]
  refine Finset.sum_congr rfl fun p _ => ?_
  rw [Finset.sum_comm, con_eq, Finset.sum_mul]
  refine Finset.sum_congr rfl fun p' _ => ?_
  rw [con_eq, Finset.sum_mul, Finset.sum_mul]
  exact Finset.sum_congr rfl fun p2 _ => by ring

theorem con4 (i j l m rb rk : Nat) (h : [i, j, l, m].Nodup) (d : List Nat → K) (g g2 g3 g4 : Nat → Nat → K) :
    k.con m rb rk (fun a b => k.con l rb rk (fun a' b' => k.con j rb rk (fun a2 b2 =>
      k.con i rb rk (fun a3 b3 => d [a, b, a', b', a2, b2, a3, b3]) g) g2) g3) g4 =
      ∑ q ∈ k.prs [i, j, l, m] rb rk,
      d [k.dig [i, j, l, m] rb q.1 m, k.dig [i, j, l, m] rk q.2 m, k.dig [i, j, l, m] rb q.1 l, k.dig [i, j, l, m] rk q.2 l,
        k.dig [i, j, l, m] rb q.1 j, k.dig [i, j, l, m] rk q.2 j,
        k.dig [i, j, l, m] rb q.1 i, k.dig [i, j, l, m] rk q.2 i] *
      (g (k.lp i rb (k.dig [i, j, l, m] rb q.1 i)) (k.lp i rk (k.dig [i, j, l, m] rk q.2 i)) *
       g2 (k.lp j rb (k.dig [i, j, l, m] rb q.1 j)) (k.lp j rk (k.dig [i, j, l, m] rk q.2 j)) *
       g3 (k.lp l rb (k.dig [i, j, l, m] rb q.1 l)) (k.lp l rk (k.dig [i, j, l, m] rk q.2 l)) *
       g4 (k.lp m rb (k.dig [i, j, l, m] rb q.1 m)) (k.lp m rk (k.dig [i, j, l, m] rk q.2 m))) := by
  rw [sum_prs4 i j l m rb rk h (fun a b a' b' a2 b2 a3 b3 => d [a3, b3, a2, b2, a', b', a, b] *
    (g (k.lp i rb a) (k.lp i rk b) * g2 (k.lp j rb a') (k.lp j rk b') * g3 (k.lp l rb a2) (k.lp l rk b2) *
      g4 (k.lp m rb a3) (k.lp m rk b3))), con_eq]
  rw [Finset.sum_congr rfl fun p _ => Finset.sum_congr rfl fun p' _ => Finset.sum_comm, Finset.sum_congr rfl fun p _ => Finset.sum_comm,
    Finset.sum_comm]
  refine Finset.sum_congr rfl fun p _ => ?_
  rw [Finset.sum_congr rfl fun p _ => Finset.sum_comm, Finset.sum_comm, con_eq, Finset.sum_mul]
  refine Finset.sum_congr rfl fun p' _ => ?_
  rw [Finset.sum_comm, con_eq, Finset.sum_mul, Finset.sum_mul]
  refine Finset.sum_congr rfl fun p2 _ => ?_
  rw [con_eq, Finset.sum_mul, Finset.sum_mul, Finset.sum_mul]
  exact Finset.sum_congr rfl fun p3 _ => by ring

end con

/-- The axes of the density matrix of a list of fragments. -/
def axesOf (J : List Nat) (e e' : Nat → Nat) : List Nat := J.reverse.flatMap (fun f => [e f, e' f])

/-- The bra and ket states of a position. -/
def qb (k : Kern K) (J : List Nat) (r i : Nat) : Nat := k.adr r (k.dig J r i)

section states
variable (hC : k.Cols) {J : List Nat} (hJ : ∀ f ∈ J, f < k.nlas.length) {r i : Nat} (hr : r < k.cols.length) (hi : i < (k.colOf J r).prod)
include hC hJ hr hi

theorem dig_all (f : Nat) (hf : f < k.nlas.length) : k.dig J r i f < k.lr r f := by
  by_cases h : f ∈ J
  · exact dig_lt _ r i f hi h
  · rw [dig_out _ r i f h]; exact hC.pos r hr f hf

theorem rootOf_qb : k.rootOf (k.qb J r i) = r := rootOf_adr hC r hr _ (dig_all hC hJ hr hi)

theorem loc_qb (f : Nat) (hf : f < k.nlas.length) : k.loc f (k.qb J r i) = k.lp f r (k.dig J r i f) := by
  unfold loc lp
  rw [rootOf_qb hC hJ hr hi]
  unfold qb
  rw [envOf_adr hC r hr _ (dig_all hC hJ hr hi) f hf]

theorem nelec_qb : k.toLstdm.nelecF (k.qb J r i) = (k.nelec.getD r []).map (fun p => p.1 + p.2) := by
  unfold Lstdm.nelecF toLstdm
  dsimp only
  rw [rootOf_qb hC hJ hr hi]

theorem qb_lt : k.qb J r i < k.nstates := adr_lt hC r hr _ (dig_all hC hJ hr hi)

end states

variable [Field K] [DecidableEq K]

/-- The contractions of a row are the mixture of the matrices of all pairs of states of the fragments `J`. -/
def RowMix (k : Kern K) (rb rk : Nat) (J : List Nat) (row : Lstdm.Row) : Prop :=
  ∀ (d : List Nat → K) (dq : Nat × Nat → D1 K × D2 K),
    (∀ q ∈ k.prs J rb rk, k.toLstdm.crunch (k.qb J rb q.1) (k.qb J rk q.2) row = some (dq q)) →
    ∃ D, k.rdmRow rb rk d row = some D ∧
      ∀ x, co D x = ∑ q ∈ k.prs J rb rk, d (axesOf J (k.dig J rb q.1) (k.dig J rk q.2)) * co (dq q) x

omit [Field K] [DecidableEq K] in
theorem mem_prs {J : List Nat} {rb rk : Nat} {q : Nat × Nat} (h : q ∈ k.prs J rb rk) :
    q.1 < (k.colOf J rb).prod ∧ q.2 < (k.colOf J rk).prod := by
  unfold prs at h
  simpa using h

omit [DecidableEq K] in
theorem co_mix {ι : Type} {S : Finset ι} {w : ι → K} {d1 : D1 K} {d2 : D2 K} {dq : ι → D1 K × D2 K}
    (h1 : Mix1 S w d1 (fun q => (dq q).1)) (h2 : Mix2 S w d2 (fun q => (dq q).2)) (x : Ix) :
    co (d1, d2) x = ∑ q ∈ S, w q * co (dq q) x := by
  rcases x with ⟨s, p, q⟩ | ⟨s, p, q, r, u⟩
  · exact h1 s p q
  · exact h2 s p q r u

omit [DecidableEq K] in
theorem mix_congr1 {ι : Type} {S : Finset ι} {w : ι → K} {d1 : D1 K} {A B : ι → D1 K} (h : ∀ q ∈ S, B q = A q) (hm : Mix1 S w d1 A) : Mix1 S w d1 B :=
  fun s a b => (hm s a b).trans (Finset.sum_congr rfl fun q hq => by rw [h q hq])
omit [DecidableEq K] in
theorem mix_congr2 {ι : Type} {S : Finset ι} {w : ι → K} {d1 : D2 K} {A B : ι → D2 K} (h : ∀ q ∈ S, B q = A q) (hm : Mix2 S w d1 A) : Mix2 S w d1 B :=
  fun s a b c e => (hm s a b c e).trans (Finset.sum_congr rfl fun q hq => by rw [h q hq])

variable (hC : k.Cols) {rb rk : Nat} (hb : rb < k.cols.length) (hk : rk < k.cols.length)
include hC hb hk

theorem rm_d1 (i : Nat) (hi : i < k.nlas.length) : RowMix k rb rk [i] (.d1 i) := by
  have hJ : ∀ f ∈ [i], f < k.nlas.length := by simp [hi]
  intro d dq hdq
  refine ⟨_, rfl, co_mix (mix_congr1 (fun q hq => ?_) (mix_put2 (mix_zero1 _ _) fun t a b => con1 i rb rk d _))
    (mix_congr2 (fun q hq => ?_) (mix_put4 (mix_zero2 _ _) fun t a b c e => con1 i rb rk d _))⟩
  · have := hdq q hq
    unfold Lstdm.crunch Lstdm.crunch1d at this
    rw [← Option.some.inj this]
    dsimp only
    obtain ⟨h1, h2⟩ := mem_prs hq
    rw [← loc_qb hC hJ hb h1 i hi, ← loc_qb hC hJ hk h2 i hi]
    rfl
  · have := hdq q hq
    unfold Lstdm.crunch Lstdm.crunch1d at this
    rw [← Option.some.inj this]
    dsimp only
    obtain ⟨h1, h2⟩ := mem_prs hq
    rw [← loc_qb hC hJ hb h1 i hi, ← loc_qb hC hJ hk h2 i hi]
    rfl

theorem rm_d2 (i j : Nat) (hi : i < k.nlas.length) (hj : j < k.nlas.length) (hij : i ≠ j) : RowMix k rb rk [i, j] (.d2 i j) := by
  have hJ : ∀ f ∈ [i, j], f < k.nlas.length := by simp [hi, hj]
  have hN : [i, j].Nodup := by simp [hij]
  intro d dq hdq
  refine ⟨_, rfl, co_mix (mix_congr1 (fun q hq => ?_) (mix_zero1 _ _)) (mix_congr2 (fun q hq => ?_)
    (mix_put4 (mix_put4 (mix_put4 (mix_put4 (mix_put4 (mix_zero2 _ _) fun t a b c e => con2 i j rb rk hN d _ _)
      fun t a b c e => con2 i j rb rk hN d _ _) fun t a b c e => con2 i j rb rk hN d _ _) fun t a b c e => neg_mix (con2 i j rb rk hN d _ _))
      fun t a b c e => neg_mix (con2 i j rb rk hN d _ _)))⟩
  · have := hdq q hq
    unfold Lstdm.crunch Lstdm.crunch2d at this
    rw [← Option.some.inj this]
  · have := hdq q hq
    unfold Lstdm.crunch Lstdm.crunch2d at this
    rw [← Option.some.inj this]
    dsimp only
    obtain ⟨h1, h2⟩ := mem_prs hq
    rw [← loc_qb hC hJ hb h1 i hi, ← loc_qb hC hJ hk h2 i hi, ← loc_qb hC hJ hb h1 j hj, ← loc_qb hC hJ hk h2 j hj]
    rfl

theorem rm_c1 (i j s1 : Nat) (hi : i < k.nlas.length) (hj : j < k.nlas.length) (hij : i ≠ j) : RowMix k rb rk [i, j] (.c1 i j s1) := by
  have hJ : ∀ f ∈ [i, j], f < k.nlas.length := by simp [hi, hj]
  have hN : [i, j].Nodup := by simp [hij]
  have hdisj : ∀ x, inRng (getRange k.nlas i) x = true → inRng (getRange k.nlas j) x = true → False := by
    intro x h1 h2
    rw [inRng_iff] at h1 h2
    obtain ⟨a, ha, rfl⟩ := h1
    obtain ⟨b, hb, h⟩ := h2
    exact hij ((frag_inj _ _ _ _ _ ha hb).mp h).1
  intro d dq hdq
  change ∃ D, k.rdm1c rb rk i j s1 d = some D ∧ _
  unfold rdm1c fermionDesShuffle
  rw [if_pos (by simp), if_pos (by simp)]
  refine ⟨_, rfl, co_mix (mix_congr1 (fun q hq => ?_) (mix_put2 (mix_zero1 _ _) fun t a b => mul_mix _ (con2 i j rb rk hN d _ _)))
    (mix_congr2 (fun q hq => ?_) (mix_1cTdm2 (mix_1cTdm2 (mix_zero2 _ _) fun t a b c e => mul_mix _ (con2 i j rb rk hN d _ _))
      fun t a b c e => mul_mix _ (con2 i j rb rk hN d _ _)))⟩
  · have := hdq q hq
    obtain ⟨h1, h2⟩ := mem_prs hq
    change k.toLstdm.crunch1c _ _ i j s1 = some _ at this
    unfold Lstdm.crunch1c fermionDesShuffle at this
    rw [if_pos (by simp), if_pos (by simp), nelec_qb hC hJ hb h1, nelec_qb hC hJ hk h2] at this
    rw [← Option.some.inj this]
    dsimp only
    rw [← loc_qb hC hJ hb h1 i hi, ← loc_qb hC hJ hk h2 i hi, ← loc_qb hC hJ hb h1 j hj, ← loc_qb hC hJ hk h2 j hj]
    rfl
  · have := hdq q hq
    obtain ⟨h1, h2⟩ := mem_prs hq
    change k.toLstdm.crunch1c _ _ i j s1 = some _ at this
    unfold Lstdm.crunch1c fermionDesShuffle at this
    rw [if_pos (by simp), if_pos (by simp), nelec_qb hC hJ hb h1, nelec_qb hC hJ hk h2] at this
    rw [← Option.some.inj this]
    dsimp only
    rw [← loc_qb hC hJ hb h1 i hi, ← loc_qb hC hJ hk h2 i hi, ← loc_qb hC hJ hb h1 j hj, ← loc_qb hC hJ hk h2 j hj]
    exact tdm2_comm _ _ _ _ _ _ hdisj

theorem rm_c1d1 (i j l s1 : Nat) (hi : i < k.nlas.length) (hj : j < k.nlas.length) (hl : l < k.nlas.length) (hij : i ≠ j) (hil : i ≠ l) (hjl : j ≠ l) :
    RowMix k rb rk [i, j, l] (.c1d1 i j l s1) := by
  have hJ : ∀ f ∈ [i, j, l], f < k.nlas.length := by simp [hi, hj, hl]
  have hN : [i, j, l].Nodup := by simp [hij, hil, hjl]
  intro d dq hdq
  change ∃ D, k.rdm1c1d rb rk i j l s1 d = some D ∧ _
  unfold rdm1c1d fermionDesShuffle
  rw [if_pos (by simp), if_pos (by simp)]
  refine ⟨_, rfl, co_mix (mix_congr1 (fun q hq => ?_) (mix_zero1 _ _))
    (mix_congr2 (fun q hq => ?_) (mix_1cTdm2 (mix_zero2 _ _) fun t a b c e => mul_mix _ (con3 i j l rb rk hN d _ _ _)))⟩
  · have := hdq q hq
    change k.toLstdm.crunch1c1d _ _ i j l s1 = some _ at this
    unfold Lstdm.crunch1c1d fermionDesShuffle at this
    rw [if_pos (by simp), if_pos (by simp)] at this
    rw [← Option.some.inj this]
  · have := hdq q hq
    obtain ⟨h1, h2⟩ := mem_prs hq
    change k.toLstdm.crunch1c1d _ _ i j l s1 = some _ at this
    unfold Lstdm.crunch1c1d fermionDesShuffle at this
    rw [if_pos (by simp), if_pos (by simp), nelec_qb hC hJ hb h1, nelec_qb hC hJ hk h2] at this
    rw [← Option.some.inj this]
    dsimp only
    rw [← loc_qb hC hJ hb h1 i hi, ← loc_qb hC hJ hk h2 i hi, ← loc_qb hC hJ hb h1 j hj, ← loc_qb hC hJ hk h2 j hj,
      ← loc_qb hC hJ hb h1 l hl, ← loc_qb hC hJ hk h2 l hl]
    rfl

theorem rm_s1 (i j : Nat) (hi : i < k.nlas.length) (hj : j < k.nlas.length) (hij : i ≠ j) : RowMix k rb rk [i, j] (.s1 i j) := by
  have hJ : ∀ f ∈ [i, j], f < k.nlas.length := by simp [hi, hj]
  have hN : [i, j].Nodup := by simp [hij]
  intro d dq hdq
  refine ⟨_, rfl, co_mix (mix_congr1 (fun q hq => ?_) (mix_zero1 _ _)) (mix_congr2 (fun q hq => ?_)
    (mix_put4 (mix_put4 (mix_zero2 _ _) fun t a b c e => mul_mix _ (con2 i j rb rk hN d _ _))
      fun t a b c e => mul_mix _ (con2 i j rb rk hN d _ _)))⟩
  · have := hdq q hq
    unfold Lstdm.crunch Lstdm.crunch1s at this
    rw [← Option.some.inj this]
  · have := hdq q hq
    unfold Lstdm.crunch Lstdm.crunch1s at this
    rw [← Option.some.inj this]
    dsimp only
    obtain ⟨h1, h2⟩ := mem_prs hq
    rw [← loc_qb hC hJ hb h1 i hi, ← loc_qb hC hJ hk h2 i hi, ← loc_qb hC hJ hb h1 j hj, ← loc_qb hC hJ hk h2 j hj]
    simp only [neg_one_mul]
    rfl

theorem rm_s1c1 (i j l s1 : Nat) (hi : i < k.nlas.length) (hj : j < k.nlas.length) (hl : l < k.nlas.length) (hij : i ≠ j) (hil : i ≠ l) (hjl : j ≠ l) :
    RowMix k rb rk [i, j, l] (.s1c1 i j l s1) := by
  have hJ : ∀ f ∈ [i, j, l], f < k.nlas.length := by simp [hi, hj, hl]
  have hN : [i, j, l].Nodup := by simp [hij, hil, hjl]
  intro d dq hdq
  change ∃ D, k.rdm1s1c rb rk i j l s1 d = some D ∧ _
  unfold rdm1s1c fermionDesShuffle
  rw [if_pos (by simp), if_pos (by simp)]
  refine ⟨_, rfl, co_mix (mix_congr1 (fun q hq => ?_) (mix_zero1 _ _))
    (mix_congr2 (fun q hq => ?_) (mix_put4 (mix_put4 (mix_zero2 _ _) fun t a b c e => mul_mix _ (con3 i j l rb rk hN d _ _ _))
      fun t a b c e => mul_mix _ (con3 i j l rb rk hN d _ _ _)))⟩
  · have := hdq q hq
    change k.toLstdm.crunch1s1c _ _ i j l s1 = some _ at this
    unfold Lstdm.crunch1s1c fermionDesShuffle at this
    rw [if_pos (by simp), if_pos (by simp)] at this
    rw [← Option.some.inj this]
  · have := hdq q hq
    obtain ⟨h1, h2⟩ := mem_prs hq
    change k.toLstdm.crunch1s1c _ _ i j l s1 = some _ at this
    unfold Lstdm.crunch1s1c fermionDesShuffle at this
    rw [if_pos (by simp), if_pos (by simp), nelec_qb hC hJ hb h1, nelec_qb hC hJ hk h2] at this
    rw [← Option.some.inj this]
    dsimp only
    rw [← loc_qb hC hJ hb h1 i hi, ← loc_qb hC hJ hk h2 i hi, ← loc_qb hC hJ hb h1 j hj, ← loc_qb hC hJ hk h2 j hj,
      ← loc_qb hC hJ hb h1 l hl, ← loc_qb hC hJ hk h2 l hl]
    by_cases hs : s1 = 0
    · simp only [if_pos hs]; rfl
    · simp only [if_neg hs]; rfl

omit hC hb hk [DecidableEq K] in
/-- The assignments of `_crunch_2c_`. -/
def asm2c (s2lt : Nat) (pq rs tu vw : Rng) (ijkl : Nat → Nat → Nat → Nat → K) : D2 K :=
  let s2 := [0, 1, 3].getD s2lt 0
  let s2T := [0, 2, 3].getD s2lt 0
  let d2 : D2 K := put4 zero2 [s2] pq rs tu vw (fun _ => ijkl)
  let d2 := put4 d2 [s2T] tu vw pq rs (fun _ x0 x1 x2 x3 => ijkl x2 x3 x0 x1)
  if s2 = s2T then
    let d2 := put4 d2 [s2] pq vw tu rs (fun _ x0 x1 x2 x3 => -ijkl x0 x3 x2 x1)
    put4 d2 [s2] tu rs pq vw (fun _ x0 x1 x2 x3 => -ijkl x2 x1 x0 x3)
  else d2

omit hC hb hk [DecidableEq K] in
theorem mix_asm {ι : Type} {S : Finset ι} {w : ι → K} {s2lt : Nat} {pq rs tu vw : Rng} {f : Nat → Nat → Nat → Nat → K}
    {fq : ι → Nat → Nat → Nat → Nat → K} (h : ∀ a b c e, f a b c e = ∑ q ∈ S, w q * fq q a b c e) :
    Mix2 S w (asm2c s2lt pq rs tu vw f) (fun q => asm2c s2lt pq rs tu vw (fq q)) := by
  unfold asm2c
  dsimp only
  by_cases hs : [0, 1, 3].getD s2lt 0 = [0, 2, 3].getD s2lt 0
  · simp only [if_pos hs]
    exact mix_put4 (mix_put4 (mix_put4 (mix_put4 (mix_zero2 _ _) fun t a b c e => h _ _ _ _) fun t a b c e => h _ _ _ _)
      fun t a b c e => neg_mix (h _ _ _ _)) fun t a b c e => neg_mix (h _ _ _ _)
  · simp only [if_neg hs]
    exact mix_put4 (mix_put4 (mix_zero2 _ _) fun t a b c e => h _ _ _ _) fun t a b c e => h _ _ _ _

omit hC hb hk [DecidableEq K] in
theorem rdm2c_eq {i j l m s2lt : Nat} {d : List Nat → K} {ik : Nat → Nat → List Nat → K} {f : Nat → Nat → Nat → Nat → K} {fp fh : Int}
    (h1 : k.rdmPp rb rk i j l m s2lt ([0, 1, 3].getD s2lt 0 / 2) ([0, 1, 3].getD s2lt 0 % 2) d = some (ik, fp))
    (h2 : k.rdmHh rb rk i j l m s2lt ([0, 1, 3].getD s2lt 0 / 2) ([0, 1, 3].getD s2lt 0 % 2) ik = some (f, fh)) :
    k.rdm2c rb rk i j l m s2lt d = some (zero1, asm2c s2lt (getRange k.nlas i) (getRange k.nlas j) (getRange k.nlas l) (getRange k.nlas m)
      (fun x0 x1 x2 x3 => ((fp * fh : Int) : K) * f x0 x2 x3 x1)) := by
  unfold rdm2c asm2c
  dsimp only
  rw [h1]
  dsimp only [Option.bind_eq_bind, Option.bind_some]
  rw [h2]
  dsimp only [Option.bind_eq_bind, Option.bind_some]
  split <;> rfl

omit hC hb hk in
theorem crunch2c_eq {L : Lstdm K} {b c i j l m s2lt : Nat} {pp hh : Nat → Nat → K} {fp fh : Int}
    (h1 : L.ppOf b c i j l m s2lt ([0, 1, 3].getD s2lt 0 / 2) ([0, 1, 3].getD s2lt 0 % 2) = some (pp, fp))
    (h2 : L.hhOf b c i j l m s2lt ([0, 1, 3].getD s2lt 0 / 2) ([0, 1, 3].getD s2lt 0 % 2) = some (hh, fh)) :
    L.crunch2c b c i j l m s2lt = some (zero1, asm2c s2lt (getRange L.nlas i) (getRange L.nlas j) (getRange L.nlas l) (getRange L.nlas m)
      (fun x0 x1 x2 x3 => ((fp * fh : Int) : K) * (pp x0 x2 * hh x3 x1))) := by
  unfold Lstdm.crunch2c asm2c
  dsimp only
  rw [h1]
  dsimp only [Option.bind_eq_bind, Option.bind_some]
  rw [h2]
  dsimp only [Option.bind_eq_bind, Option.bind_some]
  split <;> rfl

omit hC hb hk in
theorem crunch2c_some {L : Lstdm K} {b c i j l m s2lt : Nat} {d : D1 K × D2 K} (h : L.crunch2c b c i j l m s2lt = some d) :
    (∃ x, L.ppOf b c i j l m s2lt ([0, 1, 3].getD s2lt 0 / 2) ([0, 1, 3].getD s2lt 0 % 2) = some x) ∧
    ∃ x, L.hhOf b c i j l m s2lt ([0, 1, 3].getD s2lt 0 / 2) ([0, 1, 3].getD s2lt 0 % 2) = some x := by
  unfold Lstdm.crunch2c at h
  dsimp only at h
  cases h1 : L.ppOf b c i j l m s2lt ([0, 1, 3].getD s2lt 0 / 2) ([0, 1, 3].getD s2lt 0 % 2) with
  | none => rw [h1] at h; simp at h
  | some x =>
    rw [h1] at h
    refine ⟨⟨x, rfl⟩, ?_⟩
    cases h2 : L.hhOf b c i j l m s2lt ([0, 1, 3].getD s2lt 0 / 2) ([0, 1, 3].getD s2lt 0 % 2) with
    | none => rw [h2] at h; simp at h
    | some y => exact ⟨y, rfl⟩

omit hC hb hk in
theorem ppOf_same {L : Lstdm K} {b c i j m s2lt s11 s12 : Nat} {x : (Nat → Nat → K) × Int} (h : L.ppOf b c i j i m s2lt s11 s12 = some x) :
    L.ppOf b c i j i m s2lt s11 s12 = some ((L.ints i).get1Pp b c s2lt, 1) := by
  unfold Lstdm.ppOf at h ⊢
  rw [if_pos rfl] at h ⊢
  dsimp only at h ⊢
  by_cases hs : s2lt ≠ 1
  · rw [if_pos hs] at h ⊢
    cases ha : Lstdm.assertAnti (L.nlas.getD i 0) ((L.ints i).get1Pp b c s2lt) with
    | none => rw [ha] at h; simp at h
    | some u => rfl
  · rw [if_neg hs]; rfl

omit hC hb hk in
theorem hhOf_same {L : Lstdm K} {b c i j l s2lt s11 s12 : Nat} {x : (Nat → Nat → K) × Int} (h : L.hhOf b c i j l j s2lt s11 s12 = some x) :
    L.hhOf b c i j l j s2lt s11 s12 = some ((L.ints j).get1Hh b c s2lt, 1) := by
  unfold Lstdm.hhOf at h ⊢
  rw [if_pos rfl] at h ⊢
  dsimp only at h ⊢
  by_cases hs : s2lt ≠ 1
  · rw [if_pos hs] at h ⊢
    cases ha : Lstdm.assertAnti (L.nlas.getD j 0) ((L.ints j).get1Hh b c s2lt) with
    | none => rw [ha] at h; simp at h
    | some u => rfl
  · rw [if_neg hs]; rfl

/-- Two electrons from `j` to `i`. -/
theorem rm_c2_pair (i j s : Nat) (hi : i < k.nlas.length) (hj : j < k.nlas.length) (hij : i ≠ j) : RowMix k rb rk [i, j] (.c2 i j i j s) := by
  have hJ : ∀ f ∈ [i, j], f < k.nlas.length := by simp [hi, hj]
  have hN : [i, j].Nodup := by simp [hij]
  intro d dq hdq
  have h1 : ∀ s11 s12, k.rdmPp rb rk i j i j s s11 s12 d = some _ := fun s11 s12 => by unfold rdmPp; exact if_pos rfl
  have h2 : ∀ s11 s12 x, k.rdmHh rb rk i j i j s s11 s12 x = some _ := fun s11 s12 x => by unfold rdmHh; exact if_pos rfl
  refine ⟨_, rdm2c_eq (h1 _ _) (h2 _ _ _), co_mix (mix_congr1 (fun q hq => ?_) (mix_zero1 _ _)) (mix_congr2 (fun q hq => ?_)
    (mix_asm fun a b c e => mul_mix _ (con2 i j rb rk hN d _ _)))⟩
  · obtain ⟨⟨x, hx⟩, ⟨y, hy⟩⟩ := crunch2c_some (hdq q hq)
    have := (crunch2c_eq (ppOf_same hx) (hhOf_same hy)).symm.trans (hdq q hq)
    rw [← Option.some.inj this]
  · obtain ⟨⟨x, hx⟩, ⟨y, hy⟩⟩ := crunch2c_some (hdq q hq)
    have := (crunch2c_eq (ppOf_same hx) (hhOf_same hy)).symm.trans (hdq q hq)
    rw [← Option.some.inj this]
    dsimp only
    obtain ⟨h1, h2⟩ := mem_prs hq
    rw [← loc_qb hC hJ hb h1 i hi, ← loc_qb hC hJ hk h2 i hi, ← loc_qb hC hJ hb h1 j hj, ← loc_qb hC hJ hk h2 j hj]
    rfl

/-- Two electrons from `j`, `m` to `i`. -/
theorem rm_c2_coal (i j m s : Nat) (hi : i < k.nlas.length) (hj : j < k.nlas.length) (hm : m < k.nlas.length) (hij : i ≠ j) (him : i ≠ m)
    (hjm : j ≠ m) : RowMix k rb rk [i, m, j] (.c2 i j i m s) := by
  have hJ : ∀ f ∈ [i, m, j], f < k.nlas.length := by simp [hi, hj, hm]
  have hN : [i, m, j].Nodup := by simp [hij, him, hjm.symm]
  intro d dq hdq
  have h1 : ∀ s11 s12, k.rdmPp rb rk i j i m s s11 s12 d = some _ := fun s11 s12 => by unfold rdmPp; exact if_pos rfl
  have h2 : ∀ s11 s12 x, k.rdmHh rb rk i j i m s s11 s12 x = some _ := fun s11 s12 x => by
    unfold rdmHh fermionDesShuffle
    rw [if_neg hjm, if_pos (by simp), if_pos (by simp)]
    rfl
  refine ⟨_, rdm2c_eq (h1 _ _) (h2 _ _ _), co_mix (mix_congr1 (fun q hq => ?_) (mix_zero1 _ _)) (mix_congr2 (fun q hq => ?_)
    (mix_asm fun a b c e => mul_mix _ (con3 i m j rb rk hN d _ _ _)))⟩
  · obtain ⟨⟨x, hx⟩, ⟨y, hy⟩⟩ := crunch2c_some (hdq q hq)
    have := (crunch2c_eq (ppOf_same hx) hy).symm.trans (hdq q hq)
    rw [← Option.some.inj this]
  · obtain ⟨⟨x, hx⟩, _⟩ := crunch2c_some (hdq q hq)
    obtain ⟨q1, q2⟩ := mem_prs hq
    have hy : ∀ s11 s12, k.toLstdm.hhOf (k.qb [i, m, j] rb q.1) (k.qb [i, m, j] rk q.2) i j i m s s11 s12 = some _ := fun s11 s12 => by
      unfold Lstdm.hhOf fermionDesShuffle
      rw [if_neg hjm, if_pos (by simp), if_pos (by simp), nelec_qb hC hJ hk q2]
      rfl
    have := (crunch2c_eq (ppOf_same hx) (hy _ _)).symm.trans (hdq q hq)
    rw [← Option.some.inj this]
    dsimp only
    rw [← loc_qb hC hJ hb q1 i hi, ← loc_qb hC hJ hk q2 i hi, ← loc_qb hC hJ hb q1 j hj, ← loc_qb hC hJ hk q2 j hj,
      ← loc_qb hC hJ hb q1 m hm, ← loc_qb hC hJ hk q2 m hm]
    simp only [mul_assoc]
    rfl

/-- Two electrons from `j` to `i`, `l`. -/
theorem rm_c2_split (i j l s : Nat) (hi : i < k.nlas.length) (hj : j < k.nlas.length) (hl : l < k.nlas.length) (hij : i ≠ j) (hlj : l ≠ j)
    (hil : i ≠ l) : RowMix k rb rk [i, l, j] (.c2 i j l j s) := by
  have hJ : ∀ f ∈ [i, l, j], f < k.nlas.length := by simp [hi, hj, hl]
  have hN : [i, l, j].Nodup := by simp [hij, hlj, hil]
  intro d dq hdq
  have h1 : ∀ s11 s12, k.rdmPp rb rk i j l j s s11 s12 d = some _ := fun s11 s12 => by
    unfold rdmPp fermionDesShuffle
    rw [if_neg hil, if_pos (by simp), if_pos (by simp)]
    rfl
  have h2 : ∀ s11 s12 x, k.rdmHh rb rk i j l j s s11 s12 x = some _ := fun s11 s12 x => by unfold rdmHh; exact if_pos rfl
  refine ⟨_, rdm2c_eq (h1 _ _) (h2 _ _ _), co_mix (mix_congr1 (fun q hq => ?_) (mix_zero1 _ _)) (mix_congr2 (fun q hq => ?_)
    (mix_asm fun a b c e => mul_mix _ (con3 i l j rb rk hN d _ _ _)))⟩
  · obtain ⟨⟨x, hx⟩, ⟨y, hy⟩⟩ := crunch2c_some (hdq q hq)
    have := (crunch2c_eq hx (hhOf_same hy)).symm.trans (hdq q hq)
    rw [← Option.some.inj this]
  · obtain ⟨_, ⟨y, hy⟩⟩ := crunch2c_some (hdq q hq)
    obtain ⟨q1, q2⟩ := mem_prs hq
    have hx : ∀ s11 s12, k.toLstdm.ppOf (k.qb [i, l, j] rb q.1) (k.qb [i, l, j] rk q.2) i j l j s s11 s12 = some _ := fun s11 s12 => by
      unfold Lstdm.ppOf fermionDesShuffle
      rw [if_neg hil, if_pos (by simp), if_pos (by simp), nelec_qb hC hJ hb q1]
      rfl
    have := (crunch2c_eq (hx _ _) (hhOf_same hy)).symm.trans (hdq q hq)
    rw [← Option.some.inj this]
    dsimp only
    rw [← loc_qb hC hJ hb q1 i hi, ← loc_qb hC hJ hk q2 i hi, ← loc_qb hC hJ hb q1 j hj, ← loc_qb hC hJ hk q2 j hj,
      ← loc_qb hC hJ hb q1 l hl, ← loc_qb hC hJ hk q2 l hl]
    rfl

/-- Two electrons from `j`, `m` to `i`, `l`. -/
theorem rm_c2_scat (i j l m s : Nat) (hi : i < k.nlas.length) (hj : j < k.nlas.length) (hl : l < k.nlas.length) (hm : m < k.nlas.length)
    (hij : i ≠ j) (hlj : l ≠ j) (hil : i ≠ l) (him : i ≠ m) (hlm : l ≠ m) (hjm : j ≠ m) : RowMix k rb rk [i, l, m, j] (.c2 i j l m s) := by
  have hJ : ∀ f ∈ [i, l, m, j], f < k.nlas.length := by simp [hi, hj, hl, hm]
  have hN : [i, l, m, j].Nodup := by simp [hij, hlj, hil, him, hlm, hjm.symm]
  intro d dq hdq
  have h1 : ∀ s11 s12, k.rdmPp rb rk i j l m s s11 s12 d = some _ := fun s11 s12 => by
    unfold rdmPp fermionDesShuffle
    rw [if_neg hil, if_pos (by simp), if_pos (by simp)]
    rfl
  have h2 : ∀ s11 s12 x, k.rdmHh rb rk i j l m s s11 s12 x = some _ := fun s11 s12 x => by
    unfold rdmHh fermionDesShuffle
    rw [if_neg hjm, if_pos (by simp), if_pos (by simp)]
    rfl
  refine ⟨_, rdm2c_eq (h1 _ _) (h2 _ _ _), co_mix (mix_congr1 (fun q hq => ?_) (mix_zero1 _ _)) (mix_congr2 (fun q hq => ?_)
    (mix_asm fun a b c e => mul_mix _ (con4 i l m j rb rk hN d _ _ _ _)))⟩
  · obtain ⟨⟨x, hx⟩, ⟨y, hy⟩⟩ := crunch2c_some (hdq q hq)
    have := (crunch2c_eq hx hy).symm.trans (hdq q hq)
    rw [← Option.some.inj this]
  · obtain ⟨q1, q2⟩ := mem_prs hq
    have hx : ∀ s11 s12, k.toLstdm.ppOf (k.qb [i, l, m, j] rb q.1) (k.qb [i, l, m, j] rk q.2) i j l m s s11 s12 = some _ := fun s11 s12 => by
      unfold Lstdm.ppOf fermionDesShuffle
      rw [if_neg hil, if_pos (by simp), if_pos (by simp), nelec_qb hC hJ hb q1]
      rfl
    have hy : ∀ s11 s12, k.toLstdm.hhOf (k.qb [i, l, m, j] rb q.1) (k.qb [i, l, m, j] rk q.2) i j l m s s11 s12 = some _ := fun s11 s12 => by
      unfold Lstdm.hhOf fermionDesShuffle
      rw [if_neg hjm, if_pos (by simp), if_pos (by simp), nelec_qb hC hJ hk q2]
      rfl
    have := (crunch2c_eq (hx _ _) (hy _ _)).symm.trans (hdq q hq)
    rw [← Option.some.inj this]
    dsimp only
    rw [← loc_qb hC hJ hb q1 i hi, ← loc_qb hC hJ hk q2 i hi, ← loc_qb hC hJ hb q1 j hj, ← loc_qb hC hJ hk q2 j hj,
      ← loc_qb hC hJ hb q1 l hl, ← loc_qb hC hJ hk q2 l hl, ← loc_qb hC hJ hb q1 m hm, ← loc_qb hC hJ hk q2 m hm]
    simp only [mul_assoc]
    rfl

end Kern
end Verif.Lstdm
