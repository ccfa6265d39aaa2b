import Verif.Spec.Lrrdm
import Verif.Lemmas.Rotate
import Verif.Lemmas.LrrdmSim
/-!
# Lemmas: the transformation of the coefficients of linearly equivalent rootspaces
-/
namespace Verif.LrrdmRot
open Verif.Spec Verif.Spec.Tdm Verif.Spec.Rotate Verif.Spec.Lrrdm Verif.Np Verif.Umat Verif.Props Verif.Rotate Verif.Radix Verif.Addr

variable {K : Type} [Field K]

theorem inShape_ofFn {cols : List (List Nat)} {r n : Nat} (hl : (cols.getD r []).length = n) {d : Fin n → Nat} (hd : d ∈ choices cols r n) :
    InShape (List.ofFn d) (cols.getD r []) := by
  rw [inShape_iff]
  refine ⟨by rw [hl]; simp, fun i hi => ?_⟩
  unfold choices at hd
  rw [Fintype.mem_piFinset] at hd
  have := hd ⟨i, by omega⟩
  rw [Finset.mem_range] at this
  rw [List.getD_eq_getElem _ _ (by simp; omega)]
  simpa using this

theorem set_ofFn {n : Nat} (d : Fin n → Nat) (f : Fin n) (c : Nat) : (List.ofFn d).set f c = List.ofFn (Function.update d f c) := by
  apply List.ext_getElem
  · simp
  · intro i h1 h2
    rw [List.getElem_set]
    simp only [List.getElem_ofFn]
    by_cases h : (f : Nat) = i
    · subst h; simp
    · rw [if_neg h, Function.update_of_ne]
      intro e
      apply h
      rw [← e]

theorem getD_ofFn {n : Nat} (d : Fin n → Nat) (f : Fin n) : (List.ofFn d).getD f 0 = d f := by
  rw [List.getD_eq_getElem _ _ (by simp)]; simp

/-- Exchange of the local root of a fragment with a summation index. -/
theorem swap {R : Type} [AddCommMonoid R] (cols : List (List Nat)) (r n : Nat) (f : Fin n) (G : (Fin n → Nat) → Nat → R) :
    ∑ d ∈ choices cols r n, ∑ c ∈ Finset.range ((cols.getD r []).getD f 0), G d c =
      ∑ d ∈ choices cols r n, ∑ c ∈ Finset.range ((cols.getD r []).getD f 0), G (Function.update d f c) (d f) := by
  rw [← Finset.sum_product', ← Finset.sum_product']
  have hm : ∀ p ∈ choices cols r n ×ˢ Finset.range ((cols.getD r []).getD f 0),
      (Function.update p.1 f p.2, p.1 f) ∈ choices cols r n ×ˢ Finset.range ((cols.getD r []).getD f 0) := by
    rintro ⟨d, c⟩ h
    rw [Finset.mem_product] at h ⊢
    unfold choices at h ⊢
    rw [Fintype.mem_piFinset] at h ⊢
    refine ⟨fun g => ?_, h.1 f⟩
    by_cases hg : g = f
    · subst hg; simpa using h.2
    · simpa [hg] using h.1 g
  have hi : ∀ p : (Fin n → Nat) × Nat, (Function.update (Function.update p.1 f p.2) f (p.1 f), Function.update p.1 f p.2 f) = p := by
    rintro ⟨d, c⟩
    simp
  exact Finset.sum_bij' (fun p _ => (Function.update p.1 f p.2, p.1 f)) (fun p _ => (Function.update p.1 f p.2, p.1 f)) hm hm
    (fun p _ => hi p) (fun p _ => hi p) (fun p _ => by simp)

variable {ns : List Nat} {cols : List (List Nat)}

/-- The coefficients of root `s`. -/
def col (si : Nd K) (s : Nat) : Nat → K := fun b => si.get [b, s]

theorem si_step (hl : ∀ r < cols.length, (cols.getD r []).length = ns.length) (hp : ∀ r < cols.length, ∀ f < ns.length, 0 < (cols.getD r []).getD f 0)
    (si : Nd K) (nsi : Nat) (hsi : si.shape = [(cols.map List.prod).sum, nsi]) (op : Nat × Nat × Nd K) (ho : OpOk ns cols op) :
    ∃ out, Verif.Lstdm.Kern.siLinequiv cols si op = some out ∧ out.shape = [(cols.map List.prod).sum, nsi] ∧
      (∀ s < nsi, ∀ v, superpose ns cols v (col out s) = superpose ns cols (rot1 cols op v) (col si s)) ∧
      ∀ s < nsi, ∀ r < cols.length, ∀ d, InShape d (cols.getD r []) → out.get [stateIndex cols r d, s] =
        if r = op.2.1 then ∑ c ∈ Finset.range ((cols.getD r []).getD op.1 0), op.2.2.get [d.getD op.1 0, c] *
          si.get [stateIndex cols r (d.set op.1 c), s] else si.get [stateIndex cols r d, s] := by
  obtain ⟨out, h1, h2, h3⟩ := C12_action cols si op.2.2.T op.1 op.2.1 0
    ⟨by rw [hsi]; simp, by rw [hsi]; rfl, ho.root, by rw [hl _ ho.root]; exact ho.frag, by
      unfold Nd.T; dsimp only; rw [ho.shape]; rfl, hp _ ho.root _ ho.frag⟩
  have hval : ∀ s < nsi, ∀ r < cols.length, ∀ d, InShape d (cols.getD r []) → out.get [stateIndex cols r d, s] =
        if r = op.2.1 then ∑ c ∈ Finset.range ((cols.getD r []).getD op.1 0), op.2.2.get [d.getD op.1 0, c] *
          si.get [stateIndex cols r (d.set op.1 c), s] else si.get [stateIndex cols r d, s] := by
    intro s hs r hr d hd
    obtain ⟨ha, hb⟩ := h3 [stateIndex cols r d, s] (by rw [hsi]; exact .cons (stateIndex_lt cols r d hr hd) (.cons hs .nil))
    by_cases hrr : r = op.2.1
    · rw [if_pos hrr]
      subst hrr
      rw [ha d hd rfl]
      rfl
    · rw [if_neg hrr, hb r d hr hrr hd rfl]
  refine ⟨out, h1, h2.trans hsi, fun s hs v => ?_, hval⟩
  funext X Y
  unfold superpose col
  refine Finset.sum_congr rfl fun r hr => ?_
  rw [Finset.mem_range] at hr
  by_cases hrr : r = op.2.1
  · subst hrr
    have e1 : ∀ d ∈ choices cols op.2.1 ns.length, out.get [stateIndex cols op.2.1 (List.ofFn d), s] *
        prodVec ns (fun f => v f op.2.1 ((List.ofFn d).getD f 0)) X Y =
        ∑ c ∈ Finset.range ((cols.getD op.2.1 []).getD (⟨op.1, ho.frag⟩ : Fin ns.length) 0), op.2.2.get [d ⟨op.1, ho.frag⟩, c] *
          si.get [stateIndex cols op.2.1 (List.ofFn (Function.update d ⟨op.1, ho.frag⟩ c)), s] *
          prodVec ns (fun f => v f op.2.1 ((List.ofFn d).getD f 0)) X Y := by
      intro d hd
      rw [hval s hs _ hr _ (inShape_ofFn (hl _ hr) hd), if_pos rfl, Finset.sum_mul]
      refine Finset.sum_congr rfl fun c _ => ?_
      rw [← set_ofFn, ← getD_ofFn d]
    rw [Finset.sum_congr rfl e1, swap]
    refine Finset.sum_congr rfl fun d hd => ?_
    rw [prodVec_rot ns cols op v ho.frag (List.ofFn d) (by simpa using ho.frag), Finset.mul_sum]
    refine Finset.sum_congr rfl fun c _ => ?_
    rw [Function.update_idem, Function.update_eq_self, Function.update_self,
      show (List.ofFn d).set op.1 c = List.ofFn (Function.update d ⟨op.1, ho.frag⟩ c) from set_ofFn d ⟨op.1, ho.frag⟩ c,
      show (List.ofFn d).getD op.1 0 = d ⟨op.1, ho.frag⟩ from getD_ofFn d ⟨op.1, ho.frag⟩]
    ring
  · refine Finset.sum_congr rfl fun d hd => ?_
    rw [hval s hs _ hr _ (inShape_ofFn (hl _ hr) hd), if_neg hrr]
    simp only [rot1_other cols op v _ _ _ hrr]

/-- The values of two arrays are the same. -/
def SameVals (cols : List (List Nat)) (nsi : Nat) (a b : Nd K) : Prop :=
  ∀ s < nsi, ∀ r < cols.length, ∀ d, InShape d (cols.getD r []) → a.get [stateIndex cols r d, s] = b.get [stateIndex cols r d, s]

theorem si_loop (hl : ∀ r < cols.length, (cols.getD r []).length = ns.length) (hp : ∀ r < cols.length, ∀ f < ns.length, 0 < (cols.getD r []).getD f 0)
    (nsi : Nat) (ops : List (Nat × Nat × Nd K)) (ho : ∀ op ∈ ops, OpOk ns cols op) : ∀ si : Nd K, si.shape = [(cols.map List.prod).sum, nsi] →
    ∃ out, ops.foldlM (Verif.Lstdm.Kern.siLinequiv cols) si = some out ∧ out.shape = [(cols.map List.prod).sum, nsi] ∧
      ∀ s < nsi, ∀ v, superpose ns cols v (col out s) = superpose ns cols (ops.reverse.foldl (fun v op => rot1 cols op v) v) (col si s) := by
  induction ops with
  | nil => intro si hsi; exact ⟨si, rfl, hsi, fun s _ v => rfl⟩
  | cons op ops ih =>
    intro si hsi
    obtain ⟨o1, a1, a2, a3, _⟩ := si_step hl hp si nsi hsi op (ho op (by simp))
    obtain ⟨o2, b1, b2, b3⟩ := ih (fun o h => ho o (by simp [h])) o1 a2
    refine ⟨o2, by rw [List.foldlM_cons, a1]; exact b1, b2, fun s hs v => ?_⟩
    rw [b3 s hs v, a3 s hs, List.reverse_cons, List.foldl_append]
    rfl

theorem si_congr (hl : ∀ r < cols.length, (cols.getD r []).length = ns.length) (hp : ∀ r < cols.length, ∀ f < ns.length, 0 < (cols.getD r []).getD f 0)
    (nsi : Nat) (ops : List (Nat × Nat × Nd K)) (ho : ∀ op ∈ ops, OpOk ns cols op) : ∀ a b : Nd K, a.shape = [(cols.map List.prod).sum, nsi] →
    b.shape = [(cols.map List.prod).sum, nsi] → SameVals cols nsi a b → ∀ a' b', ops.foldlM (Verif.Lstdm.Kern.siLinequiv cols) a = some a' →
    ops.foldlM (Verif.Lstdm.Kern.siLinequiv cols) b = some b' → SameVals cols nsi a' b' := by
  induction ops with
  | nil =>
    intro a b _ _ h a' b' ha hb
    obtain rfl := Option.some.inj ha
    obtain rfl := Option.some.inj hb
    exact h
  | cons op ops ih =>
    intro a b ha hb h a' b' ha' hb'
    obtain ⟨a1, p1, p2, _, p4⟩ := si_step hl hp a nsi ha op (ho op (by simp))
    obtain ⟨b1, q1, q2, _, q4⟩ := si_step hl hp b nsi hb op (ho op (by simp))
    rw [List.foldlM_cons, p1] at ha'
    rw [List.foldlM_cons, q1] at hb'
    refine ih (fun o h => ho o (by simp [h])) a1 b1 p2 q2 (fun s hs r hr d hd => ?_) a' b' ha' hb'
    rw [p4 s hs r hr d hd, q4 s hs r hr d hd]
    by_cases hrr : r = op.2.1
    · rw [if_pos hrr, if_pos hrr]
      refine Finset.sum_congr rfl fun c hc => ?_
      rw [h s hs r hr _ (inShape_setFrag hd op.1 c (by rw [hl _ hr]; exact (ho op (by simp)).frag) (by simpa using hc))]
    · rw [if_neg hrr, if_neg hrr, h s hs r hr d hd]

theorem superpose_congr (hl : ∀ r < cols.length, (cols.getD r []).length = ns.length) (v x : Nat → Nat → Nat → Vec K) (c : Nat → K)
    (h : ∀ r < cols.length, ∀ f < ns.length, ∀ a < (cols.getD r []).getD f 0, v f r a = x f r a) :
    superpose ns cols v c = superpose ns cols x c := by
  funext X Y
  unfold superpose
  refine Finset.sum_congr rfl fun r hr => Finset.sum_congr rfl fun d hd => ?_
  rw [Finset.mem_range] at hr
  congr 1
  unfold prodVec
  refine Finset.prod_congr rfl fun f hf => ?_
  have hf : f < ns.length := by simpa using hf
  have := ((inShape_iff _ _).mp (inShape_ofFn (hl r hr) hd)).2 f (by rw [hl r hr]; exact hf)
  dsimp only
  rw [h r hr f hf _ this]

/-- The transformed coefficients with the vectors of the representatives describe the vectors of the caller. -/
theorem siLoop_eq (hl : ∀ r < cols.length, (cols.getD r []).length = ns.length) (hp : ∀ r < cols.length, ∀ f < ns.length, 0 < (cols.getD r []).getD f 0)
    {umats : Nat → List (Nat × Nd K)} (hU : Matrices cols ns.length umats) {v x : Nat → Nat → Nat → Vec K} (hx : RotatedBy cols ns.length umats v x)
    (si : Nd K) (nsi : Nat) (hsi : si.shape = [(cols.map List.prod).sum, nsi]) :
    ∃ out, (opsOf ns.length umats).foldlM (Verif.Lstdm.Kern.siLinequiv cols) si = some out ∧ out.shape = [(cols.map List.prod).sum, nsi] ∧
      ∀ s < nsi, superpose ns cols v (col out s) = superpose ns cols x (col si s) := by
  obtain ⟨out, h1, h2, h3⟩ := si_loop hl hp nsi (opsOf ns.length umats) (fun op ho => by
    obtain ⟨a, b⟩ := (mem_opsOf _ _ _).mp ho
    exact ⟨a, hU.root _ a _ b, hU.shape _ a _ b⟩) si hsi
  refine ⟨out, h1, h2, fun s hs => ?_⟩
  rw [h3 s hs v]
  apply superpose_congr hl
  intro r hr f hf a ha
  by_cases hk : r ∈ (umats f).map Prod.fst
  · obtain ⟨⟨r0, U⟩, hy, rfl⟩ := List.mem_map.mp hk
    have := fold_mem (cols := cols) (opsOf ns.length umats).reverse (by
      rw [List.map_reverse, List.nodup_reverse]; exact nodup_opsOf ns.length umats hU.keys) (f, r0, U)
      (List.mem_reverse.mpr ((mem_opsOf _ _ _).mpr ⟨hf, hy⟩)) v a
    dsimp only at this ⊢
    rw [this, hx.rot f hf r0 U hy _ ha]
  · rw [fold_notMem, hx.same f hf r hr hk]
    rintro ⟨f', r', U⟩ ho ⟨e1, e2⟩
    dsimp only at e1 e2
    subst e1 e2
    exact hk (List.mem_map.mpr ⟨_, ((mem_opsOf _ _ _).mp (List.mem_reverse.mp ho)).2, rfl⟩)

/-! ### Sums over the model states -/

theorem sum_posF {R : Type} [AddCommMonoid R] (cols : List (List Nat)) (r n : Nat) (hl : (cols.getD r []).length = n) (F : Nat → R) :
    ∑ i ∈ Finset.range (cols.getD r []).prod, F i = ∑ d ∈ choices cols r n, F (posF (cols.getD r []) (List.ofFn d)) := by
  subst hl
  symm
  refine Finset.sum_bij' (fun d _ => posF (cols.getD r []) (List.ofFn d)) (fun i _ => fun f => (digits (cols.getD r []) i).getD f 0)
    (fun d hd => Finset.mem_range.mpr (posF_lt (inShape_ofFn rfl hd))) ?_ ?_ ?_ (fun d _ => rfl)
  · intro i hi
    rw [Finset.mem_range] at hi
    unfold choices
    rw [Fintype.mem_piFinset]
    intro f
    rw [Finset.mem_range]
    exact ((inShape_iff _ _).mp (digits_inShape _ i hi)).2 f f.2
  · intro d hd
    funext f
    rw [digits_posF (inShape_ofFn rfl hd), getD_ofFn]
  · intro i hi
    rw [Finset.mem_range] at hi
    have this : List.ofFn (fun f : Fin (cols.getD r []).length => (digits (cols.getD r []) i).getD f 0) = digits (cols.getD r []) i := by
      apply List.ext_getElem
      · simp [digits_length]
      · intro j h1 h2
        simp only [List.getElem_ofFn]
        rw [List.getD_eq_getElem _ _ h2]
    rw [this, posF_digits _ _ hi]

theorem sum_blocks {R : Type} [AddCommMonoid R] (cols : List (List Nat)) (m : Nat) (hm : m ≤ cols.length) (F : Nat → R) :
    ∑ b ∈ Finset.range (off cols m), F b = ∑ r ∈ Finset.range m, ∑ i ∈ Finset.range (cols.getD r []).prod, F (off cols r + i) := by
  induction m with
  | zero => simp [off]
  | succ m ih =>
    rw [Finset.sum_range_succ, ← ih (by omega), off_succ cols m (by omega), Finset.sum_range_add]

theorem sum_states {R : Type} [AddCommMonoid R] (hl : ∀ r < cols.length, (cols.getD r []).length = ns.length) (F : Nat → R) :
    ∑ b ∈ Finset.range (cols.map List.prod).sum, F b =
      ∑ r ∈ Finset.range cols.length, ∑ d ∈ choices cols r ns.length, F (stateIndex cols r (List.ofFn d)) := by
  rw [← off_all, sum_blocks cols cols.length le_rfl]
  refine Finset.sum_congr rfl fun r hr => ?_
  rw [Finset.mem_range] at hr
  rw [sum_posF cols r ns.length (hl r hr) (fun i => F (off cols r + i))]
  rfl

/-! ### Bilinear quantities -/

theorem bil_left {B : Vec K → Vec K → K} (hB : Bilinear B) {ι : Type} (S : Finset ι) (a : ι → K) (φ : ι → Vec K) (χ : Vec K) :
    B (fun X Y => ∑ i ∈ S, a i * φ i X Y) χ = ∑ i ∈ S, a i * B (φ i) χ := by
  classical
  induction S using Finset.induction_on with
  | empty =>
    have := hB.left 0 (fun _ => 0) (fun _ _ _ => 0) χ
    simpa using this
  | insert j S hj ih =>
    rw [Finset.sum_insert hj, ← ih]
    have := hB.left 2 (fun c => if c = 0 then a j else 1) (fun c => if c = 0 then φ j else fun X Y => ∑ i ∈ S, a i * φ i X Y) χ
    simp only [Finset.sum_range_succ, Finset.sum_range_zero, if_true, zero_add, Nat.one_ne_zero, if_false, one_mul] at this
    rw [← this]
    congr 1
    funext X Y
    rw [Finset.sum_insert hj]

theorem bil_right {B : Vec K → Vec K → K} (hB : Bilinear B) {ι : Type} (S : Finset ι) (a : ι → K) (φ : ι → Vec K) (χ : Vec K) :
    B χ (fun X Y => ∑ i ∈ S, a i * φ i X Y) = ∑ i ∈ S, a i * B χ (φ i) := by
  have h' : Bilinear (fun φ χ => B χ φ) := ⟨fun n a φ χ => hB.right n a φ χ, fun n a φ χ => hB.left n a φ χ⟩
  exact bil_left h' S a φ χ

theorem bil_superpose_left {B : Vec K → Vec K → K} (hB : Bilinear B) (v : Nat → Nat → Nat → Vec K) (c : Nat → K) (χ : Vec K) :
    B (superpose ns cols v c) χ = ∑ r ∈ Finset.range cols.length, ∑ d ∈ choices cols r ns.length,
      c (stateIndex cols r (List.ofFn d)) * B (prodVec ns (fun f => v f r ((List.ofFn d).getD f 0))) χ := by
  have := bil_left hB (Finset.range cols.length) (fun _ => 1) (fun r => fun X Y => ∑ d ∈ choices cols r ns.length,
    c (stateIndex cols r (List.ofFn d)) * prodVec ns (fun f => v f r ((List.ofFn d).getD f 0)) X Y) χ
  simp only [one_mul] at this
  refine this.trans (Finset.sum_congr rfl fun r _ => ?_)
  exact bil_left hB _ _ (fun d => prodVec ns (fun f => v f r ((List.ofFn d).getD f 0))) χ

theorem bil_superpose {B : Vec K → Vec K → K} (hB : Bilinear B) (hl : ∀ r < cols.length, (cols.getD r []).length = ns.length)
    (v : Nat → Nat → Nat → Vec K) (c c' : Nat → K) (g : Nat → Nat → K)
    (hg : ∀ r r' d d', r < cols.length → r' < cols.length → InShape d (cols.getD r []) → InShape d' (cols.getD r' []) →
      g (stateIndex cols r d) (stateIndex cols r' d') = B (prodVec ns (fun f => v f r (d.getD f 0))) (prodVec ns (fun f => v f r' (d'.getD f 0)))) :
    ∑ b ∈ Finset.range (cols.map List.prod).sum, ∑ b' ∈ Finset.range (cols.map List.prod).sum, c b * c' b' * g b b' =
      B (superpose ns cols v c) (superpose ns cols v c') := by
  have h' : Bilinear (fun φ χ => B χ φ) := ⟨fun n a φ χ => hB.right n a φ χ, fun n a φ χ => hB.left n a φ χ⟩
  rw [sum_states hl, bil_superpose_left hB]
  refine Finset.sum_congr rfl fun r hr => Finset.sum_congr rfl fun d hd => ?_
  rw [Finset.mem_range] at hr
  rw [sum_states hl, show B _ (superpose ns cols v c') = _ from bil_superpose_left h' v c' _, Finset.mul_sum]
  refine Finset.sum_congr rfl fun r' hr' => ?_
  rw [Finset.mem_range] at hr'
  rw [Finset.mul_sum]
  refine Finset.sum_congr rfl fun d' hd' => ?_
  rw [hg r r' _ _ hr hr' (inShape_ofFn (hl r hr) hd) (inShape_ofFn (hl r' hr') hd')]
  ring

end Verif.LrrdmRot
