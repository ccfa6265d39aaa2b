import Verif.Model.HsiRot
import Verif.Lemmas.Rotate
import Verif.Lemmas.Overlap
/-!
# Lemmas: products of a matrix with a vector between rotations of the vectors
-/
namespace Verif.Rotate
open Verif.Spec Verif.Spec.Tdm Verif.Spec.Rotate Verif.Np Verif.Umat Verif.Props Verif.Tdm Verif.Lstdm

variable {K : Type} [Field K] {ns : List Nat} {cols : List (List Nat)}

/-- The functional is linear. -/
def LinF (L : Vec K → K) : Prop := ∀ (n : Nat) (a : Nat → K) (φ : Nat → Vec K),
  L (fun X Y => ∑ c ∈ Finset.range n, a c * φ c X Y) = ∑ c ∈ Finset.range n, a c * L (φ c)

/-- The vector holds the values of the functional. -/
structure Holds1 (ns : List Nat) (cols : List (List Nat)) (y : Nd K) (L : Vec K → K) (v : Nat → Nat → Nat → Vec K) : Prop where
  shape : y.shape = [(cols.map List.prod).sum]
  get : ∀ r d, r < cols.length → InShape d (cols.getD r []) → y.get [stateIndex cols r d] = L (prodVec ns (fun f => v f r (d.getD f 0)))

section
variable (hl : ∀ r < cols.length, (cols.getD r []).length = ns.length) (hp : ∀ r < cols.length, ∀ f < ns.length, 0 < (cols.getD r []).getD f 0)
include hl hp

theorem vstep {T : Nd K} (hT : T.shape = [(cols.map List.prod).sum]) (op : Nat × Nat × Nd K) (ho : OpOk ns cols op) (U : Nd K)
    (hU : U.shape = [(cols.getD op.2.1 []).getD op.1 0, (cols.getD op.2.1 []).getD op.1 0]) :
    ∃ out, umatDot1frag T U cols op.1 op.2.1 0 = some out ∧ out.shape = [(cols.map List.prod).sum] ∧
      (∀ d, InShape d (cols.getD op.2.1 []) → out.get [stateIndex cols op.2.1 d] =
        ∑ c ∈ Finset.range ((cols.getD op.2.1 []).getD op.1 0), U.get [c, d.getD op.1 0] * T.get [stateIndex cols op.2.1 (d.set op.1 c)]) ∧
      ∀ r d, r < cols.length → r ≠ op.2.1 → InShape d (cols.getD r []) → out.get [stateIndex cols r d] = T.get [stateIndex cols r d] := by
  obtain ⟨out, h1, h2, h3⟩ := C12_action cols T U op.1 op.2.1 0
    ⟨by rw [hT]; simp, by rw [hT]; rfl, ho.root, by rw [hl _ ho.root]; exact ho.frag, hU, hp _ ho.root _ ho.frag⟩
  have hin : ∀ r d, r < cols.length → InShape d (cols.getD r []) → InShape [stateIndex cols r d] T.shape := by
    intro r d hr hd
    rw [hT]
    exact .cons (stateIndex_lt cols r d hr hd) .nil
  refine ⟨out, h1, h2.trans hT, fun d hd => ?_, fun r d hr hne hd => ?_⟩
  · rw [(h3 _ (hin _ d ho.root hd)).1 d hd rfl]; rfl
  · exact (h3 _ (hin _ d hr hd)).2 r d hr hne hd rfl

theorem step1d {T : Nd K} {L : Vec K → K} (hL : LinF L) {v : Nat → Nat → Nat → Vec K} (h : Holds1 ns cols T L v) (op : Nat × Nat × Nd K)
    (ho : OpOk ns cols op) :
    ∃ out, umatDot1frag T op.2.2 cols op.1 op.2.1 0 = some out ∧ Holds1 ns cols out L (rot1 cols op v) := by
  obtain ⟨out, h1, h2, ha, hb⟩ := vstep hl hp h.shape op ho op.2.2 ho.shape
  refine ⟨out, h1, h2, fun r d hr hd => ?_⟩
  by_cases hrr : r = op.2.1
  · subst hrr
    rw [ha d hd, prodVec_rot ns cols op v ho.frag d (by rw [Verif.Radix.inShape_length hd, hl _ hr]; exact ho.frag), hL]
    refine Finset.sum_congr rfl fun c hc => ?_
    rw [h.get _ _ hr (inShape_setFrag hd op.1 c (by rw [hl _ hr]; exact ho.frag) (by simpa using hc))]
  · rw [hb r d hr hrr hd, h.get _ _ hr hd]
    simp only [rot1_other cols op v _ _ _ hrr]

theorem loop1d {L : Vec K → K} (hL : LinF L) (ops : List (Nat × Nat × Nd K)) (ho : ∀ op ∈ ops, OpOk ns cols op) :
    ∀ {T : Nd K} {x : Nat → Nat → Nat → Vec K}, Holds1 ns cols T L x →
    ∃ out, ops.foldlM (linequivVec cols 1) T = some out ∧ Holds1 ns cols out L (ops.foldl (fun v op => rot1 cols op v) x) := by
  induction ops with
  | nil => intro T x h; exact ⟨T, rfl, h⟩
  | cons op ops ih =>
    intro T x h
    obtain ⟨t0, e0, g0⟩ := step1d hl hp hL h op (ho op (by simp))
    obtain ⟨out, e2, g2⟩ := ih (fun o h => ho o (by simp [h])) g0
    refine ⟨out, ?_, g2⟩
    rw [List.foldlM_cons]
    have : linequivVec cols 1 T op = some t0 := e0
    rw [this]
    exact e2

end

theorem digits_inj (r r' : Nat) (d d' : List Nat) (hr : r < cols.length) (hr' : r' < cols.length) (hd : InShape d (cols.getD r []))
    (hd' : InShape d' (cols.getD r' [])) (h : stateIndex cols r d = stateIndex cols r' d') : r = r' ∧ d = d' := by
  have h1 := Verif.Radix.posF_lt hd
  have h2 := Verif.Radix.posF_lt hd'
  have e1 : stateIndex cols r d = Verif.Addr.off cols r + posF (cols.getD r []) d := rfl
  have e2 : stateIndex cols r' d' = Verif.Addr.off cols r' + posF (cols.getD r' []) d' := rfl
  have e : r = r' := Verif.Lstdm.Kern.block_unique cols r r' (stateIndex cols r d) hr hr' (by omega) (by omega) (by omega) (by omega)
  subst e
  exact ⟨rfl, Verif.Radix.posF_inj hd hd' (by omega)⟩

/-- The sum over all states that differ from one state on one fragment. -/
theorem sum_frag (f r : Nat) (hr : r < cols.length) (hf : f < (cols.getD r []).length) (R : Nat → Nat) (D : Nat → List Nat)
    (hRD : ∀ γ < (cols.map List.prod).sum, R γ < cols.length ∧ InShape (D γ) (cols.getD (R γ) []) ∧ γ = stateIndex cols (R γ) (D γ))
    (d : List Nat) (hd : InShape d (cols.getD r [])) (G : Nat → Nat → K) :
    ∑ γ ∈ Finset.range (cols.map List.prod).sum, (if R γ = r ∧ (D γ).set f 0 = d.set f 0 then G ((D γ).getD f 0) γ else 0) =
      ∑ c ∈ Finset.range ((cols.getD r []).getD f 0), G c (stateIndex cols r (d.set f c)) := by
  have hdl : f < d.length := by rw [Verif.Radix.inShape_length hd]; exact hf
  have hin : ∀ c < (cols.getD r []).getD f 0, InShape (d.set f c) (cols.getD r []) := fun c hc => inShape_setFrag hd f c hf hc
  have hdec : ∀ r' d', r' < cols.length → InShape d' (cols.getD r' []) → R (stateIndex cols r' d') = r' ∧ D (stateIndex cols r' d') = d' := by
    intro r' d' hr' hd'
    obtain ⟨a, b, c⟩ := hRD _ (stateIndex_lt cols r' d' hr' hd')
    obtain ⟨e1, e2⟩ := digits_inj r' _ d' _ hr' a hd' b c
    exact ⟨e1.symm, e2.symm⟩
  symm
  refine Finset.sum_of_injOn (fun c => stateIndex cols r (d.set f c)) ?_ ?_ ?_ ?_
  · intro c hc c' hc' h
    have hc : c < (cols.getD r []).getD f 0 := by simpa using hc
    have hc' : c' < (cols.getD r []).getD f 0 := by simpa using hc'
    have := (digits_inj r r _ _ hr hr (hin c hc) (hin c' hc') h).2
    have h2 := congrArg (fun l => l.getD f 0) this
    rw [getD_set _ _ _ _ hdl, getD_set _ _ _ _ hdl, if_pos rfl, if_pos rfl] at h2
    exact h2
  · intro c hc
    have hc : c < (cols.getD r []).getD f 0 := by simpa using hc
    simpa using stateIndex_lt cols r _ hr (hin c hc)
  · intro γ hγ hn
    have hγ : γ < (cols.map List.prod).sum := by simpa using hγ
    rw [if_neg]
    rintro ⟨h1, h2⟩
    obtain ⟨a, b, c⟩ := hRD γ hγ
    apply hn
    rw [h1] at b c
    refine ⟨(D γ).getD f 0, by simpa using ((Verif.Radix.inShape_iff _ _).mp b).2 f hf, ?_⟩
    have := congrArg (fun l => l.set f ((D γ).getD f 0)) h2
    simp only [List.set_set] at this
    dsimp only
    rw [← this, set_getD_self _ _ (by rw [Verif.Radix.inShape_length b]; exact hf)]
    exact c.symm
  · intro c hc
    have hc : c < (cols.getD r []).getD f 0 := by simpa using hc
    obtain ⟨e1, e2⟩ := hdec r _ hr (hin c hc)
    rw [e1, e2, if_pos ⟨rfl, by rw [List.set_set]⟩, getD_set _ _ _ _ hdl, if_pos rfl]

theorem exists_vec (L : Vec K → K) (v : Nat → Nat → Nat → Vec K) : ∃ t : Nat → K, ∀ r d, r < cols.length → InShape d (cols.getD r []) →
    t (stateIndex cols r d) = L (prodVec ns (fun f => v f r (d.getD f 0))) := by
  have hdec : ∀ γ, ∃ z : K, ∀ r d, r < cols.length → InShape d (cols.getD r []) → γ = stateIndex cols r d →
      z = L (prodVec ns (fun f => v f r (d.getD f 0))) := by
    intro γ
    by_cases h : γ < (cols.map List.prod).sum
    · obtain ⟨r, d, h1, h2, h3⟩ := state_cases cols γ h
      refine ⟨L (prodVec ns (fun f => v f r (d.getD f 0))), fun r' d' h1' h2' h3' => ?_⟩
      obtain ⟨e1, e2⟩ := digits_inj r r' d d' h1 h1' h2 h2' (h3.symm.trans h3')
      rw [e1, e2]
    · exact ⟨0, fun r d hr hd e => absurd (e ▸ stateIndex_lt cols r d hr hd) h⟩
  choose t ht using hdec
  exact ⟨t, fun r d hr hd => ht _ r d hr hd rfl⟩

section
variable (hl : ∀ r < cols.length, (cols.getD r []).length = ns.length)
include hl

/-- The transformation with the transposed matrix is the adjoint. -/
theorem adjoint (op : Nat × Nat × Nd K) (ho : OpOk ns cols op) (s s' t t' : Nat → K)
    (hs : ∀ d, InShape d (cols.getD op.2.1 []) → s' (stateIndex cols op.2.1 d) =
      ∑ c ∈ Finset.range ((cols.getD op.2.1 []).getD op.1 0), op.2.2.get [d.getD op.1 0, c] * s (stateIndex cols op.2.1 (d.set op.1 c)))
    (hs2 : ∀ r d, r < cols.length → r ≠ op.2.1 → InShape d (cols.getD r []) → s' (stateIndex cols r d) = s (stateIndex cols r d))
    (ht : ∀ d, InShape d (cols.getD op.2.1 []) → t' (stateIndex cols op.2.1 d) =
      ∑ c ∈ Finset.range ((cols.getD op.2.1 []).getD op.1 0), op.2.2.get [c, d.getD op.1 0] * t (stateIndex cols op.2.1 (d.set op.1 c)))
    (ht2 : ∀ r d, r < cols.length → r ≠ op.2.1 → InShape d (cols.getD r []) → t' (stateIndex cols r d) = t (stateIndex cols r d)) :
    ∑ γ ∈ Finset.range (cols.map List.prod).sum, s' γ * t γ = ∑ γ ∈ Finset.range (cols.map List.prod).sum, s γ * t' γ := by
  obtain ⟨f, r0, U⟩ := op
  dsimp only at *
  have hf : f < (cols.getD r0 []).length := by rw [hl _ ho.root]; exact ho.frag
  set n := (cols.map List.prod).sum
  have hdec : ∀ γ, ∃ R : Nat, ∃ D : List Nat, γ < n → R < cols.length ∧ InShape D (cols.getD R []) ∧ γ = stateIndex cols R D := by
    intro γ
    by_cases h : γ < n
    · obtain ⟨r, d, h1⟩ := state_cases cols γ h
      exact ⟨r, d, fun _ => h1⟩
    · exact ⟨0, [], fun h' => absurd h' h⟩
  choose R D hRD using hdec
  let V : Nat → Nat → K := fun γ γ' => if R γ = r0 then (if R γ' = r0 ∧ (D γ').set f 0 = (D γ).set f 0 then U.get [(D γ).getD f 0, (D γ').getD f 0] else 0)
    else if γ = γ' then 1 else 0
  have h1 : ∀ γ < n, s' γ = ∑ γ' ∈ Finset.range n, V γ γ' * s γ' := by
    intro γ hγ
    obtain ⟨a, b, c⟩ := hRD γ hγ
    by_cases hr : R γ = r0
    · rw [hr] at b c
      have := sum_frag f r0 ho.root hf R D hRD (D γ) b (fun c γ' => U.get [(D γ).getD f 0, c] * s γ')
      rw [c, hs _ b, ← this, ← c]
      refine Finset.sum_congr rfl fun γ' _ => ?_
      simp only [V, hr, if_true]
      split <;> simp
    · simp only [V, hr, if_false, ite_mul, one_mul, zero_mul]
      rw [Finset.sum_ite_eq, if_pos (by simpa using hγ), c, hs2 _ _ a hr b]
  have h2 : ∀ γ < n, t' γ = ∑ γ' ∈ Finset.range n, V γ' γ * t γ' := by
    intro γ hγ
    obtain ⟨a, b, c⟩ := hRD γ hγ
    by_cases hr : R γ = r0
    · rw [hr] at b c
      have := sum_frag f r0 ho.root hf R D hRD (D γ) b (fun c γ' => U.get [c, (D γ).getD f 0] * t γ')
      rw [c, ht _ b, ← this, ← c]
      refine Finset.sum_congr rfl fun γ' _ => ?_
      simp only [V, hr, true_and]
      by_cases h : R γ' = r0
      · simp only [h, if_true, true_and, eq_comm (a := (D γ).set f 0)]
        split <;> simp
      · have hne : γ' ≠ γ := fun e => h (e ▸ hr)
        simp [h, hne]
    · have : ∀ γ' ∈ Finset.range n, V γ' γ * t γ' = if γ = γ' then t γ' else 0 := by
        intro γ' _
        simp only [V, hr, false_and, if_false]
        by_cases h : R γ' = r0
        · have hne : γ ≠ γ' := fun e => hr (e ▸ h)
          simp [h, hne]
        · simp only [h, if_false, eq_comm (a := γ')]
          split <;> simp
      rw [Finset.sum_congr rfl this, Finset.sum_ite_eq, if_pos (by simpa using hγ), c, ht2 _ _ a hr b]
  rw [Finset.sum_congr rfl fun γ hγ => by rw [h1 γ (Finset.mem_range.mp hγ), Finset.sum_mul],
    Finset.sum_congr (s₁ := Finset.range n) (f := fun γ => s γ * t' γ) rfl fun γ hγ => by rw [h2 γ (Finset.mem_range.mp hγ), Finset.mul_sum], Finset.sum_comm]
  exact Finset.sum_congr rfl fun γ _ => Finset.sum_congr rfl fun γ' _ => by ring

variable (hp : ∀ r < cols.length, ∀ f < ns.length, 0 < (cols.getD r []).getD f 0)
include hp

/-- The input vector. -/
theorem loop0 {L : Vec K → K} (hL : LinF L) (ops : List (Nat × Nat × Nd K)) (ho : ∀ op ∈ ops, OpOk ns cols op) (v : Nat → Nat → Nat → Vec K) 
    (t t' : Nat → K) (ht : ∀ r d, r < cols.length → InShape d (cols.getD r []) → t (stateIndex cols r d) = L (prodVec ns (fun f => v f r (d.getD f 0))))
    (ht' : ∀ r d, r < cols.length → InShape d (cols.getD r []) → t' (stateIndex cols r d) =
      L (prodVec ns (fun f => ops.foldr (fun op v => rot1 cols op v) v f r (d.getD f 0)))) (s : Nd K) (hs : s.shape = [(cols.map List.prod).sum]) :
    ∃ s', ops.foldlM (linequivVec cols 0) s = some s' ∧ s'.shape = [(cols.map List.prod).sum] ∧
      ∑ γ ∈ Finset.range (cols.map List.prod).sum, s'.get [γ] * t γ = ∑ γ ∈ Finset.range (cols.map List.prod).sum, s.get [γ] * t' γ := by
  induction ops generalizing s t' with
  | nil =>
    refine ⟨s, rfl, hs, Finset.sum_congr rfl fun γ hγ => ?_⟩
    obtain ⟨r, d, h1, h2, h3⟩ := state_cases cols γ (by simpa using hγ)
    rw [h3, ht r d h1 h2, ht' r d h1 h2]
    rfl
  | cons op ops ih =>
    obtain ⟨t2, ht2⟩ := exists_vec (ns := ns) (cols := cols) L (ops.foldr (fun op v => rot1 cols op v) v)
    have ho1 := ho op (by simp)
    obtain ⟨s1, a1, a2, a3, a4⟩ := vstep hl hp hs op ho1 op.2.2.T (by unfold Nd.T; rw [ho1.shape]; rfl)
    obtain ⟨s', b1, b2, b3⟩ := ih (fun o h => ho o (by simp [h])) t2 ht2 s1 a2
    refine ⟨s', ?_, b2, ?_⟩
    · rw [List.foldlM_cons]
      have : linequivVec cols 0 s op = some s1 := a1
      rw [this]
      exact b1
    · rw [b3]
      refine adjoint hl op ho1 (fun γ => s.get [γ]) (fun γ => s1.get [γ]) t2 t' (fun d hd => ?_) a4 (fun d hd => ?_) (fun r d hr hne hd => ?_)
      · rw [a3 d hd]
        rfl
      · rw [ht' _ d ho1.root hd, List.foldr_cons, prodVec_rot ns cols op _ ho1.frag d (by
          rw [Verif.Radix.inShape_length hd, hl _ ho1.root]; exact ho1.frag), hL]
        refine Finset.sum_congr rfl fun c hc => ?_
        rw [ht2 _ _ ho1.root (inShape_setFrag hd op.1 c (by rw [hl _ ho1.root]; exact ho1.frag) (by simpa using hc))]
      · rw [ht' r d hr hd, ht2 r d hr hd]
        simp only [List.foldr_cons, rot1_other cols op _ _ _ _ hne]

omit hp in
theorem fold_rotated {umats : Nat → List (Nat × Nd K)} (hU : Matrices cols ns.length umats) {v x : Nat → Nat → Nat → Vec K}
    (hx : RotatedBy cols ns.length umats v x) (ops : List (Nat × Nat × Nd K)) (hn : (ops.map (fun op => (op.1, op.2.1))).Nodup)
    (hm : ∀ op, op ∈ ops ↔ op ∈ opsOf ns.length umats) (r : Nat) (d : List Nat) (hr : r < cols.length) (hd : InShape d (cols.getD r [])) :
    prodVec ns (fun f => ops.foldl (fun v op => rot1 cols op v) v f r (d.getD f 0)) = prodVec ns (fun f => x f r (d.getD f 0)) := by
  unfold prodVec
  funext X Y
  refine Finset.prod_congr rfl fun f hf => ?_
  have hf : f < ns.length := by simpa using hf
  have hlt : d.getD f 0 < (cols.getD r []).getD f 0 := ((Verif.Radix.inShape_iff _ _).mp hd).2 f (by rw [hl _ hr]; exact hf)
  by_cases hk : r ∈ (umats f).map Prod.fst
  · obtain ⟨⟨r0, U⟩, hy, rfl⟩ := List.mem_map.mp hk
    have := fold_mem (cols := cols) ops hn (f, r0, U) ((hm _).mpr ((mem_opsOf _ _ _).mpr ⟨hf, hy⟩)) v (d.getD f 0)
    dsimp only at this ⊢
    rw [this, hx.rot f hf r0 U hy _ hlt]
  · dsimp only
    rw [fold_notMem, hx.same f hf r hr hk]
    rintro ⟨f', r', U⟩ ho ⟨e1, e2⟩
    dsimp only at e1 e2
    subst e1 e2
    exact hk (List.mem_map.mpr ⟨_, ((mem_opsOf _ _ _).mp ((hm _).mp ho)).2, rfl⟩)

/-- The product of a matrix with a vector, between the transformations of the vectors, is the product with the transformed matrix. -/
theorem rotated_ok {k : Kern K} (hns : k.nlas = ns) (hcols : k.cols = cols) {umats : Nat → List (Nat × Nd K)} (hU : Matrices cols ns.length umats)
    {v x : Nat → Nat → Nat → Vec K} (hx : RotatedBy cols ns.length umats v x) {B : Vec K → Vec K → K} (hB : Bilinear B)
    {M : Nat → Nat → K} {T : Nd K} (hM : ∀ r r' d d', r < cols.length → r' < cols.length → InShape d (cols.getD r []) → InShape d' (cols.getD r' []) →
      M (stateIndex cols r d) (stateIndex cols r' d') = B (prodVec ns (fun f => v f r (d.getD f 0))) (prodVec ns (fun f => v f r' (d'.getD f 0))))
    (hT : ∀ r r' d d', r < cols.length → r' < cols.length → InShape d (cols.getD r []) → InShape d' (cols.getD r' []) →
      T.get [stateIndex cols r d, stateIndex cols r' d'] = B (prodVec ns (fun f => x f r (d.getD f 0))) (prodVec ns (fun f => x f r' (d'.getD f 0))))
    (op : (Nat → K) → Option (Nat → K)) (hop : ∀ s, ∃ y, op s = some y ∧ ∀ β < (cols.map List.prod).sum,
      y β = ∑ γ ∈ Finset.range (cols.map List.prod).sum, M β γ * s γ) (s : Nd K) (hs : s.shape = [(cols.map List.prod).sum]) :
    ∃ y, k.rotated umats op s = some y ∧ y.shape = [(cols.map List.prod).sum] ∧ ∀ β < (cols.map List.prod).sum,
      y.get [β] = ∑ γ ∈ Finset.range (cols.map List.prod).sum, T.get [β, γ] * s.get [γ] := by
  subst hns hcols
  set n := (k.cols.map List.prod).sum with hn
  set ops := opsOf k.nlas.length umats with hops
  have ho : ∀ op ∈ ops, OpOk k.nlas k.cols op := fun op ho => by
    obtain ⟨a, b⟩ := (mem_opsOf _ _ _).mp ho
    exact ⟨a, hU.root _ a _ b, hU.shape _ a _ b⟩
  have hnd := nodup_opsOf k.nlas.length umats hU.keys
  -- for every bra, the transformed input vector gives the combination of the transformed kets
  have hin : ∃ s', ops.foldlM (linequivVec k.cols 0) s = some s' ∧ s'.shape = [n] ∧ ∀ r d, r < k.cols.length → InShape d (k.cols.getD r []) →
      ∀ t : Nat → K, (∀ r' d', r' < k.cols.length → InShape d' (k.cols.getD r' []) → t (stateIndex k.cols r' d') =
        B (prodVec k.nlas (fun f => x f r (d.getD f 0))) (prodVec k.nlas (fun f => v f r' (d'.getD f 0)))) →
      ∑ γ ∈ Finset.range n, s'.get [γ] * t γ = ∑ γ ∈ Finset.range n, T.get [stateIndex k.cols r d, γ] * s.get [γ] := by
    obtain ⟨s', a1, a2, _⟩ := loop0 hl hp (L := fun _ => (0 : K)) (fun _ _ _ => by simp) ops ho v (fun _ => 0) (fun _ => 0) (fun _ _ _ _ => rfl)
      (fun _ _ _ _ => rfl) s hs
    refine ⟨s', a1, a2, fun r d hr hd t ht => ?_⟩
    obtain ⟨s2, b1, b2, b3⟩ := loop0 hl hp (L := B (prodVec k.nlas (fun f => x f r (d.getD f 0)))) (fun n a φ => hB.right n a φ _) ops ho v t
      (fun γ => T.get [stateIndex k.cols r d, γ]) ht (fun r' d' hr' hd' => by
        rw [hT r r' d d' hr hr' hd hd']
        congr 1
        rw [← fold_rotated hl hU hx ops.reverse (by rw [List.map_reverse]; exact List.nodup_reverse.mpr hnd) (by simp [hops]) r' d' hr' hd']
        simp only [List.foldl_reverse]) s hs
    rw [a1] at b1
    obtain rfl := Option.some.inj b1
    rw [b3]
    exact Finset.sum_congr rfl fun γ _ => mul_comm _ _
  obtain ⟨s', a1, a2, a3⟩ := hin
  obtain ⟨y, y1, y2⟩ := hop (fun i => s'.get [i])
  -- the vectors of the kets
  have hdec : ∀ γ, ∃ φ : Vec K, ∀ r d, r < k.cols.length → InShape d (k.cols.getD r []) → γ = stateIndex k.cols r d → 
      φ = prodVec k.nlas (fun f => v f r (d.getD f 0)) := by
    intro γ
    by_cases h : γ < n
    · obtain ⟨r, d, h1, h2, h3⟩ := state_cases k.cols γ h
      refine ⟨prodVec k.nlas (fun f => v f r (d.getD f 0)), fun r' d' h1' h2' h3' => ?_⟩
      obtain ⟨e1, e2⟩ := digits_inj r r' d d' h1 h1' h2 h2' (h3.symm.trans h3')
      rw [e1, e2]
    · exact ⟨fun _ _ => 0, fun r d hr hd e => absurd (e ▸ stateIndex_lt k.cols r d hr hd) h⟩
  choose φ hφ using hdec
  obtain ⟨out, c1, c2⟩ := loop1d hl hp (L := fun ψ => ∑ γ ∈ Finset.range n, s'.get [γ] * B ψ (φ γ)) (by
      intro m a χ
      dsimp only
      rw [Finset.sum_congr rfl fun γ _ => by rw [hB.left, Finset.mul_sum], Finset.sum_comm]
      refine Finset.sum_congr rfl fun c _ => ?_
      rw [Finset.mul_sum]
      exact Finset.sum_congr rfl fun γ _ => by ring) ops ho (T := ⟨s'.shape, fun t => y (t.getD 0 0)⟩) (x := v) ⟨a2, fun r d hr hd => by
      show y (stateIndex k.cols r d) = _
      rw [y2 _ (stateIndex_lt k.cols r d hr hd)]
      refine Finset.sum_congr rfl fun γ hγ => ?_
      obtain ⟨r', d', h1, h2, h3⟩ := state_cases k.cols γ (by simpa using hγ)
      rw [hφ γ r' d' h1 h2 h3, mul_comm]
      congr 1
      rw [h3, hM r r' d d' hr h1 hd h2]⟩
  refine ⟨out, ?_, c2.shape, fun β hβ => ?_⟩
  · unfold Kern.rotated Kern.linequivVecLoop
    rw [← hops, a1, Option.bind_eq_bind, Option.bind_some, y1, Option.bind_eq_bind, Option.bind_some]
    exact c1
  · obtain ⟨r, d, h1, h2, h3⟩ := state_cases k.cols β hβ
    rw [h3, c2.get r d h1 h2, fold_rotated hl hU hx ops hnd (fun _ => Iff.rfl) r d h1 h2]
    exact a3 r d h1 h2 _ (fun r' d' hr' hd' => by rw [hφ _ r' d' hr' hd' rfl])

end
end Verif.Rotate
