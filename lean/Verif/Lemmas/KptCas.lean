import Verif.Spec.KptCas
import Mathlib.Tactic.Ring
import Mathlib.Algebra.Star.BigOperators
/-!
# Lemmas: active spaces of k-point calculations
-/
namespace Verif.KptCas
open Verif.HalfOp Verif.Spec.KptCas

theorem dm1 {c b : Nat} (t : Nat) (h : c < b) : (t * b + c) / b = t := by
  rw [Nat.mul_comm, Nat.mul_add_div (by omega), Nat.div_eq_of_lt h, Nat.add_zero]
theorem dm2 {c b : Nat} (t : Nat) (h : c < b) : (t * b + c) % b = c := by
  rw [Nat.mul_comm, Nat.mul_add_mod, Nat.mod_eq_of_lt h]

theorem sum_rc (f : Nat → ℂ) (a b : Nat) : ∑ n ∈ Finset.range (a * b), f n = ∑ t ∈ Finset.range a, ∑ c ∈ Finset.range b, f (t * b + c) := by
  induction a with
  | zero => simp
  | succ a ih => rw [Nat.succ_mul, Finset.sum_range_add, Finset.sum_range_succ, ih]

theorem sum_one (n : Nat) {j : Nat} (hj : j < n) (f : Nat → ℂ) : (∑ i ∈ Finset.range n, if i = j then f i else 0) = f j := by
  rw [Finset.sum_ite_eq' (Finset.range n) j f, if_pos (Finset.mem_range.2 hj)]

section
variable {nk nao ncore ncas : Nat} {phase : M2 ℂ} {S C : Mos}

theorem moR_val {k : Nat} (hk : k < nk) (R : Nat) {u m : Nat} (hu : u < nao) (hm : m < ncas) :
    moCoeffR nk nao ncore ncas phase C (R * nao + u) (k * ncas + m) = phase R k * act ncore C k u m := by
  unfold moCoeffR
  rw [dm1 R hu, dm2 R hu, dm1 k hm, dm2 k hm]
  have : ∀ j, phase R j * (act ncore C j u m * if j = k then 1 else 0) = if j = k then phase R j * act ncore C j u m else 0 := by
    intro j; split <;> ring
  simp only [this]
  exact sum_one nk hk _

theorem moPhase_val (hp : UnitaryPhase nk phase) (hC : Orthonormal nk nao ncas S (act ncore C)) {k k' : Nat} (hk : k < nk) (hk' : k' < nk)
    {m m' : Nat} (hm : m < ncas) (hm' : m' < ncas) :
    moPhase nk nao ncore ncas phase S C k m (k' * ncas + m') = if k = k' ∧ m = m' then 1 else 0 := by
  unfold moPhase
  have e : ∀ u ∈ Finset.range nao, star (act ncore C k u m) * (∑ x ∈ Finset.range (nk * nao), skg nao phase S k u x * moCoeffR nk nao ncore ncas phase C x (k' * ncas + m')) =
      (if k = k' then 1 else 0) * ∑ v ∈ Finset.range nao, star (act ncore C k u m) * S k u v * act ncore C k' v m' := by
    intro u hu
    rw [sum_rc, ← hp k hk k' hk', Finset.mul_sum, Finset.sum_mul]
    refine Finset.sum_congr rfl fun R _ => ?_
    rw [Finset.mul_sum, Finset.mul_sum]
    refine Finset.sum_congr rfl fun v hv => ?_
    have hv := Finset.mem_range.1 hv
    unfold skg
    rw [moR_val hk' R hv hm', dm1 R hv, dm2 R hv]
    ring
  rw [Finset.sum_congr rfl e, ← Finset.mul_sum]
  by_cases h : k = k'
  · subst h
    rw [if_pos rfl, one_mul, hC k hk m hm m' hm']
    simp
  · rw [if_neg h, zero_mul, if_neg (fun x => h x.1)]

theorem umat_val (hp : UnitaryPhase nk phase) (hC : Orthonormal nk nao ncas S (act ncore C)) {k k' : Nat} (hk : k < nk) (hk' : k' < nk)
    (i : Nat) {m : Nat} (hm : m < ncas) :
    umat nk nao ncore ncas phase S C k i (k' * ncas + m) = if k' = k then act ncore C k i m else 0 := by
  unfold umat
  have : ∀ j ∈ Finset.range ncas, act ncore C k i j * moPhase nk nao ncore ncas phase S C k j (k' * ncas + m) =
      if j = m then (if k' = k then act ncore C k i j else 0) else 0 := by
    intro j hj
    rw [moPhase_val hp hC hk hk' (Finset.mem_range.1 hj) hm]
    by_cases h1 : k = k'
    · subst h1
      by_cases h2 : j = m
      · simp [h2]
      · simp [h2]
    · rw [if_neg (fun x => h1 x.1)]
      have h2 : ¬k' = k := fun x => h1 x.symm
      simp [h2]
  rw [Finset.sum_congr rfl this, sum_one ncas hm (fun j => if k' = k then act ncore C k i j else 0)]

theorem casPart_val (hp : UnitaryPhase nk phase) (hC : Orthonormal nk nao ncas S (act ncore C)) (D : M2 ℂ) {k : Nat} (hk : k < nk) (i j : Nat) :
    casPart nk nao ncore ncas phase S C D k i j = ∑ m ∈ Finset.range ncas, ∑ m' ∈ Finset.range ncas,
      act ncore C k i m * D (k * ncas + m) (k * ncas + m') * star (act ncore C k j m') := by
  unfold casPart
  have e1 : ∀ y, (∑ x ∈ Finset.range (nk * ncas), umat nk nao ncore ncas phase S C k i x * D x y) =
      ∑ m ∈ Finset.range ncas, act ncore C k i m * D (k * ncas + m) y := by
    intro y
    rw [sum_rc]
    have : ∀ t ∈ Finset.range nk, (∑ c ∈ Finset.range ncas, umat nk nao ncore ncas phase S C k i (t * ncas + c) * D (t * ncas + c) y) =
        if t = k then (∑ m ∈ Finset.range ncas, act ncore C k i m * D (t * ncas + m) y) else 0 := by
      intro t ht
      rw [Finset.sum_congr rfl fun c hc => by rw [umat_val hp hC hk (Finset.mem_range.1 ht) i (Finset.mem_range.1 hc)]]
      split
      · rfl
      · simp
    rw [Finset.sum_congr rfl this, sum_one nk hk]
  simp only [e1]
  rw [sum_rc]
  have : ∀ t ∈ Finset.range nk, (∑ c ∈ Finset.range ncas, (∑ m ∈ Finset.range ncas, act ncore C k i m * D (k * ncas + m) (t * ncas + c)) *
      star (umat nk nao ncore ncas phase S C k j (t * ncas + c))) =
      if t = k then (∑ c ∈ Finset.range ncas, (∑ m ∈ Finset.range ncas, act ncore C k i m * D (k * ncas + m) (t * ncas + c)) * star (act ncore C k j c)) else 0 := by
    intro t ht
    rw [Finset.sum_congr rfl fun c hc => by rw [umat_val hp hC hk (Finset.mem_range.1 ht) j (Finset.mem_range.1 hc)]]
    split
    · rfl
    · simp
  rw [Finset.sum_congr rfl this, sum_one nk hk, Finset.sum_comm]
  refine Finset.sum_congr rfl fun c _ => ?_
  rw [Finset.sum_mul]

theorem h1_val (hp : UnitaryPhase nk phase) (h : Mos) (enuc : ℂ) (veff : Mos → Mos) {k k' : Nat} (hk : k < nk) (hk' : k' < nk) {m m' : Nat}
    (hm : m < ncas) (hm' : m' < ncas) :
    (h1ForCas nk nao ncore ncas phase C h enuc veff).1 (k * ncas + m) (k' * ncas + m') =
      if k = k' then inMo nao (fun k i j => h k i j + veff (coreDm ncore C) k i j) (act ncore C) k m m' else 0 := by
  unfold h1ForCas
  dsimp only
  set A : Mos := fun k i j => h k i j + veff (coreDm ncore C) k i j with hA
  have e1 : ∀ R' v, v < nao → (∑ x ∈ Finset.range (nk * nao), star (moCoeffR nk nao ncore ncas phase C x (k * ncas + m)) *
      ∑ q ∈ Finset.range nk, phase (x / nao) q * A q (x % nao) ((R' * nao + v) % nao) * star (phase ((R' * nao + v) / nao) q)) =
      (∑ u ∈ Finset.range nao, star (act ncore C k u m) * A k u v) * star (phase R' k) := by
    intro R' v hv
    rw [dm1 R' hv, dm2 R' hv, sum_rc]
    have : ∀ R ∈ Finset.range nk, (∑ u ∈ Finset.range nao, star (moCoeffR nk nao ncore ncas phase C (R * nao + u) (k * ncas + m)) *
        ∑ q ∈ Finset.range nk, phase ((R * nao + u) / nao) q * A q ((R * nao + u) % nao) v * star (phase R' q)) =
        ∑ q ∈ Finset.range nk, star (phase R k) * phase R q * ((∑ u ∈ Finset.range nao, star (act ncore C k u m) * A q u v) * star (phase R' q)) := by
      intro R _
      rw [Finset.sum_congr rfl fun u hu => by rw [moR_val hk R (Finset.mem_range.1 hu) hm, dm1 R (Finset.mem_range.1 hu), dm2 R (Finset.mem_range.1 hu), Finset.mul_sum]]
      rw [Finset.sum_comm]
      refine Finset.sum_congr rfl fun q _ => ?_
      rw [Finset.sum_mul, Finset.mul_sum]
      refine Finset.sum_congr rfl fun u _ => ?_
      rw [star_mul']
      ring
    rw [Finset.sum_congr rfl this, Finset.sum_comm]
    have : ∀ q ∈ Finset.range nk, (∑ R ∈ Finset.range nk, star (phase R k) * phase R q * ((∑ u ∈ Finset.range nao, star (act ncore C k u m) * A q u v) * star (phase R' q))) =
        if q = k then ((∑ u ∈ Finset.range nao, star (act ncore C k u m) * A q u v) * star (phase R' q)) else 0 := by
      intro q hq
      rw [← Finset.sum_mul, hp k hk q (Finset.mem_range.1 hq)]
      by_cases hkq : k = q
      · rw [if_pos hkq, if_pos hkq.symm, one_mul]
      · rw [if_neg hkq, if_neg (fun x => hkq x.symm), zero_mul]
    rw [Finset.sum_congr rfl this, sum_one nk hk]
  rw [sum_rc]
  have : ∀ R' ∈ Finset.range nk, (∑ v ∈ Finset.range nao, (∑ x ∈ Finset.range (nk * nao), star (moCoeffR nk nao ncore ncas phase C x (k * ncas + m)) *
      ∑ q ∈ Finset.range nk, phase (x / nao) q * A q (x % nao) ((R' * nao + v) % nao) * star (phase ((R' * nao + v) / nao) q)) *
      moCoeffR nk nao ncore ncas phase C (R' * nao + v) (k' * ncas + m')) =
      star (phase R' k) * phase R' k' * ∑ v ∈ Finset.range nao, (∑ u ∈ Finset.range nao, star (act ncore C k u m) * A k u v) * act ncore C k' v m' := by
    intro R' _
    rw [Finset.mul_sum]
    refine Finset.sum_congr rfl fun v hv => ?_
    rw [e1 R' v (Finset.mem_range.1 hv), moR_val hk' R' (Finset.mem_range.1 hv) hm']
    ring
  rw [Finset.sum_congr rfl this, ← Finset.sum_mul, hp k hk k' hk']
  by_cases hkk : k = k'
  · subst hkk
    rw [if_pos rfl, if_pos rfl, one_mul]
    unfold inMo
    rw [Finset.sum_comm]
    refine Finset.sum_congr rfl fun v _ => ?_
    rw [Finset.sum_mul]
  · rw [if_neg hkk, if_neg hkk, zero_mul]

theorem h2_val (hp : UnitaryPhase nk phase) (hC : Orthonormal nk nao ncas S (act ncore C)) (eriK : Nat → Nat → Nat → M4 ℂ)
    {kcons : Nat → Nat → Nat → Nat} (hlt : ∀ a < nk, ∀ b < nk, ∀ c < nk, kcons a b c < nk) {a b c d u v w t : Nat} (ha : a < nk) (hb : b < nk) (hc : c < nk)
    (hd : d < nk) (hu : u < ncas) (hv : v < ncas) (hw : w < ncas) (ht : t < ncas) :
    getH2eff nk nao ncore ncas phase S C eriK kcons (a * ncas + u) (b * ncas + v) (c * ncas + w) (d * ncas + t) =
      if kcons a b c = d then 1 / nk * eriK a b c u v w t else 0 := by
  unfold getH2eff
  have key : ∀ a' ∈ Finset.range nk, ∀ b' ∈ Finset.range nk, ∀ c' ∈ Finset.range nk, (∑ u' ∈ Finset.range ncas, ∑ v' ∈ Finset.range ncas, ∑ w' ∈ Finset.range ncas, ∑ t' ∈ Finset.range ncas,
      star (moPhase nk nao ncore ncas phase S C a' u' (a * ncas + u)) * moPhase nk nao ncore ncas phase S C b' v' (b * ncas + v) * eriK a' b' c' u' v' w' t' *
      star (moPhase nk nao ncore ncas phase S C c' w' (c * ncas + w)) * moPhase nk nao ncore ncas phase S C (kcons a' b' c') t' (d * ncas + t)) =
      if c' = c then (if b' = b then (if a' = a then (if kcons a' b' c' = d then eriK a' b' c' u v w t else 0) else 0) else 0) else 0 := by
    intro a' ha' b' hb' c' hc'
    have ha' := Finset.mem_range.1 ha'
    have hb' := Finset.mem_range.1 hb'
    have hc' := Finset.mem_range.1 hc'
    have st : ∀ P : Prop, [Decidable P] → star (if P then (1 : ℂ) else 0) = if P then 1 else 0 := by intro P _; split <;> simp
    have e1 : ∀ u' ∈ Finset.range ncas, ∀ v' ∈ Finset.range ncas, ∀ w' ∈ Finset.range ncas, ∀ t' ∈ Finset.range ncas,
      star (moPhase nk nao ncore ncas phase S C a' u' (a * ncas + u)) * moPhase nk nao ncore ncas phase S C b' v' (b * ncas + v) * eriK a' b' c' u' v' w' t' *
      star (moPhase nk nao ncore ncas phase S C c' w' (c * ncas + w)) * moPhase nk nao ncore ncas phase S C (kcons a' b' c') t' (d * ncas + t) =
      if t' = t then (if w' = w then (if v' = v then (if u' = u then (if c' = c then (if b' = b then (if a' = a then (if kcons a' b' c' = d then eriK a' b' c' u' v' w' t' else 0) else 0) else 0) else 0) else 0) else 0) else 0) else 0 := by
      intro u' hu' v' hv' w' hw' t' ht'
      rw [moPhase_val hp hC ha' ha (Finset.mem_range.1 hu') hu, moPhase_val hp hC hb' hb (Finset.mem_range.1 hv') hv, moPhase_val hp hC hc' hc (Finset.mem_range.1 hw') hw,
        moPhase_val hp hC (hlt a' ha' b' hb' c' hc') hd (Finset.mem_range.1 ht') ht, st, st]
      by_cases q1 : a' = a <;> by_cases q2 : b' = b <;> by_cases q3 : c' = c <;> by_cases q4 : u' = u <;> by_cases q5 : v' = v <;> by_cases q6 : w' = w <;> by_cases q7 : t' = t <;>
        simp [q1, q2, q3, q4, q5, q6, q7]
    rw [Finset.sum_congr rfl fun u' hu' => Finset.sum_congr rfl fun v' hv' => Finset.sum_congr rfl fun w' hw' => Finset.sum_congr rfl fun t' ht' => e1 u' hu' v' hv' w' hw' t' ht']
    rw [Finset.sum_congr rfl fun u' _ => Finset.sum_congr rfl fun v' _ => Finset.sum_congr rfl fun w' _ => sum_one ncas ht _]
    rw [Finset.sum_congr rfl fun u' _ => Finset.sum_congr rfl fun v' _ => sum_one ncas hw _]
    rw [Finset.sum_congr rfl fun u' _ => sum_one ncas hv _]
    rw [sum_one ncas hu]
  rw [Finset.sum_congr rfl fun a' ha' => Finset.sum_congr rfl fun b' hb' => Finset.sum_congr rfl fun c' hc' => key a' ha' b' hb' c' hc']
  rw [Finset.sum_congr rfl fun a' _ => Finset.sum_congr rfl fun b' _ => sum_one nk hc _]
  rw [Finset.sum_congr rfl fun a' _ => sum_one nk hb _]
  rw [sum_one nk ha]
  split
  · ring
  · rw [zero_mul]
end

end Verif.KptCas
