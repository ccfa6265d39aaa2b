import Verif.Spec.Rotate
import Verif.Model.Rotate
import Verif.Props.Umat
import Verif.Lemmas.Tdm
import Verif.Lemmas.S2El
/-!
# The loop over linearly equivalent rootspaces
-/
namespace Verif.Rotate
open Verif.Spec Verif.Spec.Tdm Verif.Spec.Rotate Verif.Np Verif.Umat Verif.Props Verif.Tdm

variable {K : Type} [CommRing K]

/-- Vectors rotated by one matrix. -/
def rot1 (cols : List (List Nat)) (op : Nat × Nat × Nd K) (v : Nat → Nat → Nat → Vec K) : Nat → Nat → Nat → Vec K := fun f r a =>
  if f = op.1 ∧ r = op.2.1 then fun X Y => ∑ c ∈ Finset.range ((cols.getD r []).getD f 0), op.2.2.get [c, a] * v f r c X Y else v f r a

theorem prodVec_lin (ns : List Nat) (v : Nat → Vec K) (f : Nat) (hf : f < ns.length) (n : Nat) (a : Nat → K) (φ : Nat → Vec K) :
    prodVec ns (Function.update v f (fun X Y => ∑ c ∈ Finset.range n, a c * φ c X Y)) =
      fun X Y => ∑ c ∈ Finset.range n, a c * prodVec ns (Function.update v f (φ c)) X Y := by
  funext X Y
  rw [prodVec_update _ _ _ hf, Finset.sum_mul]
  refine Finset.sum_congr rfl fun c _ => ?_
  rw [prodVec_update _ _ _ hf, mul_assoc]

theorem getD_set (d : List Nat) (f0 c f : Nat) (hf : f0 < d.length) : (d.set f0 c).getD f 0 = if f = f0 then c else d.getD f 0 := by
  rw [List.getD_eq_getElem?_getD, List.getElem?_set, List.getD_eq_getElem?_getD]
  by_cases h : f0 = f
  · subst h; simp [hf]
  · rw [if_neg h, if_neg (fun e => h e.symm)]

theorem prodVec_rot (ns : List Nat) (cols : List (List Nat)) (op : Nat × Nat × Nd K) (v : Nat → Nat → Nat → Vec K)
    (hf : op.1 < ns.length) (d : List Nat) (hd : op.1 < d.length) :
    prodVec ns (fun f => rot1 cols op v f op.2.1 (d.getD f 0)) = fun X Y =>
      ∑ c ∈ Finset.range ((cols.getD op.2.1 []).getD op.1 0), op.2.2.get [c, d.getD op.1 0] *
        prodVec ns (fun f => v f op.2.1 ((d.set op.1 c).getD f 0)) X Y := by
  have h1 : (fun f => rot1 cols op v f op.2.1 (d.getD f 0)) = Function.update (fun f => v f op.2.1 (d.getD f 0)) op.1
      (fun X Y => ∑ c ∈ Finset.range ((cols.getD op.2.1 []).getD op.1 0), op.2.2.get [c, d.getD op.1 0] * v op.1 op.2.1 c X Y) := by
    funext f
    by_cases h : f = op.1
    · subst h; simp [rot1]
    · simp [rot1, h]
  have h2 : ∀ c, (fun f => v f op.2.1 ((d.set op.1 c).getD f 0)) = Function.update (fun f => v f op.2.1 (d.getD f 0)) op.1 (v op.1 op.2.1 c) := by
    intro c
    funext f
    rw [getD_set _ _ _ _ hd]
    by_cases h : f = op.1
    · subst h; simp
    · simp [h]
  rw [h1, prodVec_lin _ _ _ hf]
  simp only [h2]

theorem rot1_other (cols : List (List Nat)) (op : Nat × Nat × Nd K) (v : Nat → Nat → Nat → Vec K) (f r a : Nat) (h : r ≠ op.2.1) :
    rot1 cols op v f r a = v f r a := by unfold rot1; rw [if_neg (fun e => h e.2)]

variable {ns : List Nat} {cols : List (List Nat)} {rest : List Nat} {B : List Nat → Vec K → Vec K → K}

/-- What one matrix must satisfy. -/
structure OpOk (ns : List Nat) (cols : List (List Nat)) (op : Nat × Nat × Nd K) : Prop where
  frag : op.1 < ns.length
  root : op.2.1 < cols.length
  shape : op.2.2.shape = [(cols.getD op.2.1 []).getD op.1 0, (cols.getD op.2.1 []).getD op.1 0]

theorem step0 (hl : ∀ r < cols.length, (cols.getD r []).length = ns.length) (hp : ∀ r < cols.length, ∀ f < ns.length, 0 < (cols.getD r []).getD f 0)
    (hB : ∀ t, Bilinear (B t)) {T : Nd K} {xb xk : Nat → Nat → Nat → Vec K} (h : Holds ns cols rest T B xb xk) (op : Nat × Nat × Nd K)
    (ho : OpOk ns cols op) :
    ∃ out, umatDot1frag T op.2.2 cols op.1 op.2.1 0 = some out ∧ Holds ns cols rest out B (rot1 cols op xb) xk := by
  obtain ⟨out, h1, h2, h3⟩ := C12_action cols T op.2.2 op.1 op.2.1 0
    ⟨by rw [h.shape]; simp, by rw [h.shape]; rfl, ho.root, by rw [hl _ ho.root]; exact ho.frag, ho.shape, hp _ ho.root _ ho.frag⟩
  refine ⟨out, h1, h2.trans h.shape, fun r r' d d' t hr hr' hd hd' ht => ?_⟩
  have hin : InShape (stateIndex cols r d :: stateIndex cols r' d' :: t) T.shape := by
    rw [h.shape]
    exact .cons (stateIndex_lt cols r d hr hd) (.cons (stateIndex_lt cols r' d' hr' hd') ht)
  obtain ⟨ha, hb⟩ := h3 _ hin
  by_cases hrr : r = op.2.1
  · subst hrr
    rw [ha d hd rfl, prodVec_rot ns cols op xb ho.frag d (by rw [Verif.Radix.inShape_length hd, hl _ hr]; exact ho.frag), (hB t).left]
    refine Finset.sum_congr rfl fun c hc => ?_
    rw [List.set_cons_zero, h.get _ _ _ _ _ hr hr' (inShape_setFrag hd op.1 c (by rw [hl _ hr]; exact ho.frag) (by simpa using hc)) hd' ht]
  · rw [hb r d hr hrr hd rfl, h.get _ _ _ _ _ hr hr' hd hd' ht]
    simp only [rot1_other cols op xb _ _ _ hrr]

theorem step1 (hl : ∀ r < cols.length, (cols.getD r []).length = ns.length) (hp : ∀ r < cols.length, ∀ f < ns.length, 0 < (cols.getD r []).getD f 0)
    (hB : ∀ t, Bilinear (B t)) {T : Nd K} {xb xk : Nat → Nat → Nat → Vec K} (h : Holds ns cols rest T B xb xk) (op : Nat × Nat × Nd K)
    (ho : OpOk ns cols op) :
    ∃ out, umatDot1frag T op.2.2 cols op.1 op.2.1 1 = some out ∧ Holds ns cols rest out B xb (rot1 cols op xk) := by
  obtain ⟨out, h1, h2, h3⟩ := C12_action cols T op.2.2 op.1 op.2.1 1
    ⟨by rw [h.shape]; simp, by rw [h.shape]; rfl, ho.root, by rw [hl _ ho.root]; exact ho.frag, ho.shape, hp _ ho.root _ ho.frag⟩
  refine ⟨out, h1, h2.trans h.shape, fun r r' d d' t hr hr' hd hd' ht => ?_⟩
  have hin : InShape (stateIndex cols r d :: stateIndex cols r' d' :: t) T.shape := by
    rw [h.shape]
    exact .cons (stateIndex_lt cols r d hr hd) (.cons (stateIndex_lt cols r' d' hr' hd') ht)
  obtain ⟨ha, hb⟩ := h3 _ hin
  by_cases hrr : r' = op.2.1
  · subst hrr
    rw [ha d' hd' rfl, prodVec_rot ns cols op xk ho.frag d' (by rw [Verif.Radix.inShape_length hd', hl _ hr']; exact ho.frag), (hB t).right]
    refine Finset.sum_congr rfl fun c hc => ?_
    rw [List.set_cons_succ, List.set_cons_zero, h.get _ _ _ _ _ hr hr' hd (inShape_setFrag hd' op.1 c (by rw [hl _ hr']; exact ho.frag) (by simpa using hc)) ht]
  · rw [hb r' d' hr' hrr hd' rfl, h.get _ _ _ _ _ hr hr' hd hd' ht]
    simp only [rot1_other cols op xk _ _ _ hrr]

theorem loop (hl : ∀ r < cols.length, (cols.getD r []).length = ns.length) (hp : ∀ r < cols.length, ∀ f < ns.length, 0 < (cols.getD r []).getD f 0)
    (hB : ∀ t, Bilinear (B t)) (ops : List (Nat × Nat × Nd K)) (ho : ∀ op ∈ ops, OpOk ns cols op) :
    ∀ {T : Nd K} {x : Nat → Nat → Nat → Vec K}, Holds ns cols rest T B x x →
    ∃ out, ops.foldlM (linequiv cols) T = some out ∧
      Holds ns cols rest out B (ops.foldl (fun v op => rot1 cols op v) x) (ops.foldl (fun v op => rot1 cols op v) x) := by
  induction ops with
  | nil => intro T x h; exact ⟨T, rfl, h⟩
  | cons op ops ih =>
    intro T x h
    obtain ⟨t0, e0, g0⟩ := step0 hl hp hB h op (ho op (by simp))
    obtain ⟨t1, e1, g1⟩ := step1 hl hp hB g0 op (ho op (by simp))
    obtain ⟨out, e2, g2⟩ := ih (fun o h => ho o (by simp [h])) g1
    refine ⟨out, ?_, g2⟩
    rw [List.foldlM_cons]
    have : linequiv cols T op = some t1 := by unfold linequiv; rw [e0]; exact e1
    rw [this]
    exact e2

theorem fold_notMem (ops : List (Nat × Nat × Nd K)) (f r : Nat) (h : ∀ op ∈ ops, ¬(op.1 = f ∧ op.2.1 = r)) (x : Nat → Nat → Nat → Vec K) (a : Nat) :
    ops.foldl (fun v op => rot1 cols op v) x f r a = x f r a := by
  induction ops generalizing x with
  | nil => rfl
  | cons op ops ih =>
    rw [List.foldl_cons, ih (fun o ho => h o (by simp [ho]))]
    unfold rot1
    rw [if_neg (fun e => h op (by simp) ⟨e.1.symm, e.2.symm⟩)]

theorem fold_mem (ops : List (Nat × Nat × Nd K)) (hn : (ops.map (fun op => (op.1, op.2.1))).Nodup) (op : Nat × Nat × Nd K) (hm : op ∈ ops)
    (x : Nat → Nat → Nat → Vec K) (a : Nat) :
    ops.foldl (fun v op => rot1 cols op v) x op.1 op.2.1 a =
      fun X Y => ∑ c ∈ Finset.range ((cols.getD op.2.1 []).getD op.1 0), op.2.2.get [c, a] * x op.1 op.2.1 c X Y := by
  induction ops generalizing x with
  | nil => simp at hm
  | cons o ops ih =>
    rw [List.map_cons, List.nodup_cons] at hn
    rw [List.foldl_cons]
    rcases List.mem_cons.mp hm with rfl | hm
    · rw [fold_notMem]
      · unfold rot1; rw [if_pos ⟨rfl, rfl⟩]
      · intro o' ho' e
        apply hn.1
        rw [← e.1, ← e.2]
        exact List.mem_map.mpr ⟨o', ho', rfl⟩
    · rw [ih hn.2 hm]
      have hne : ¬(op.1 = o.1 ∧ op.2.1 = o.2.1) := by
        intro e
        apply hn.1
        rw [← e.1, ← e.2]
        exact List.mem_map.mpr ⟨op, hm, rfl⟩
      simp only [rot1, if_neg hne]

theorem mem_opsOf (nf : Nat) (umats : Nat → List (Nat × Nd K)) (op : Nat × Nat × Nd K) :
    op ∈ opsOf nf umats ↔ op.1 < nf ∧ (op.2.1, op.2.2) ∈ umats op.1 := by
  unfold opsOf
  constructor
  · intro h
    obtain ⟨f, hf, hm⟩ := List.mem_flatMap.mp h
    obtain ⟨x, hx, rfl⟩ := List.mem_map.mp hm
    exact ⟨by simpa using hf, hx⟩
  · rintro ⟨h1, h2⟩
    exact List.mem_flatMap.mpr ⟨op.1, by simpa using h1, List.mem_map.mpr ⟨_, h2, rfl⟩⟩

theorem nodup_opsOf (nf : Nat) (umats : Nat → List (Nat × Nd K)) (h : ∀ f < nf, ((umats f).map Prod.fst).Nodup) :
    ((opsOf nf umats).map (fun op => (op.1, op.2.1))).Nodup := by
  induction nf with
  | zero => simp [opsOf]
  | succ n ih =>
    have : opsOf (n + 1) umats = opsOf n umats ++ (umats n).map (fun x => (n, x.1, x.2)) := by
      unfold opsOf; rw [List.range_succ, List.flatMap_append]; simp
    rw [this, List.map_append, List.nodup_append]
    refine ⟨ih (fun f hf => h f (by omega)), ?_, ?_⟩
    · rw [List.map_map]
      have hk := h n (by omega)
      have : ((fun op : Nat × Nat × Nd K => (op.1, op.2.1)) ∘ fun x : Nat × Nd K => (n, x.1, x.2)) = (fun r => (n, r)) ∘ Prod.fst := rfl
      rw [this, ← List.map_map]
      exact hk.map (fun a b e => by simpa using e)
    · intro a ha b hb e
      obtain ⟨o, ho, rfl⟩ := List.mem_map.mp ha
      obtain ⟨o', ho', rfl⟩ := List.mem_map.mp hb
      obtain ⟨y, _, rfl⟩ := List.mem_map.mp ho'
      have := (mem_opsOf n umats o).mp ho
      simp only [Prod.mk.injEq] at e
      omega

/-- The loop for any quantity. -/
theorem linequivLoop_holds (hl : ∀ r < cols.length, (cols.getD r []).length = ns.length)
    (hp : ∀ r < cols.length, ∀ f < ns.length, 0 < (cols.getD r []).getD f 0)
    (hB : ∀ t, Bilinear (B t)) {umats : Nat → List (Nat × Nd K)} (hU : Matrices cols ns.length umats) {T : Nd K}
    {v x : Nat → Nat → Nat → Vec K} (hx : RotatedBy cols ns.length umats v x) (hT : Holds ns cols rest T B v v) :
    ∃ out, linequivLoop cols ns.length umats T = some out ∧ Holds ns cols rest out B x x := by
  obtain ⟨out, h1, h2⟩ := loop hl hp hB (opsOf ns.length umats) (fun op ho => by
    obtain ⟨a, b⟩ := (mem_opsOf _ _ _).mp ho
    exact ⟨a, hU.root _ a _ b, hU.shape _ a _ b⟩) hT
  refine ⟨out, h1, h2.shape, fun r r' d d' t hr hr' hd hd' ht => ?_⟩
  have key : ∀ r d, r < cols.length → InShape d (cols.getD r []) →
      prodVec ns (fun f => (opsOf ns.length umats).foldl (fun v op => rot1 cols op v) v f r (d.getD f 0)) =
      prodVec ns (fun f => x f r (d.getD f 0)) := by
    intro r d hr hd
    unfold prodVec
    funext X Y
    refine Finset.prod_congr rfl fun f hf => ?_
    have hf : f < ns.length := by simpa using hf
    have hlt : d.getD f 0 < (cols.getD r []).getD f 0 := ((Verif.Radix.inShape_iff _ _).mp hd).2 f (by rw [hl _ hr]; exact hf)
    by_cases hk : r ∈ (umats f).map Prod.fst
    · obtain ⟨⟨r0, U⟩, hy, rfl⟩ := List.mem_map.mp hk
      have := fold_mem (cols := cols) _ (nodup_opsOf ns.length umats hU.keys) (f, r0, U) ((mem_opsOf _ _ _).mpr ⟨hf, hy⟩) v (d.getD f 0)
      dsimp only at this ⊢
      rw [this, hx.rot f hf r0 U hy _ hlt]
    · dsimp only
      rw [fold_notMem, hx.same f hf r hr hk]
      rintro ⟨f', r', U⟩ ho ⟨e1, e2⟩
      dsimp only at e1 e2
      subst e1 e2
      exact hk (List.mem_map.mpr ⟨_, ((mem_opsOf _ _ _).mp ho).2, rfl⟩)
  rw [h2.get _ _ _ _ _ hr hr' hd hd' ht, key r d hr hd, key r' d' hr' hd']

/-! ### Linear operators and bilinear quantities -/

/-- The operator is linear. -/
def Lin (L : Vec K → Vec K) : Prop := ∀ (n : Nat) (a : Nat → K) (φ : Nat → Vec K),
  L (fun X Y => ∑ c ∈ Finset.range n, a c * φ c X Y) = fun X Y => ∑ c ∈ Finset.range n, a c * L (φ c) X Y

theorem lin_id : Lin (K := K) id := fun _ _ _ => rfl

theorem Lin.comp {L M : Vec K → Vec K} (hL : Lin L) (hM : Lin M) : Lin (fun ψ => L (M ψ)) := by
  intro n a φ
  dsimp only
  rw [hM, hL]

theorem lin_ann (N : Nat) (s : Bool) (p : Nat) : Lin (K := K) (ann N s p) := by
  intro n a φ
  funext X Y
  unfold ann
  cases s
  · simp only [Bool.false_eq_true, if_false]
    split
    · simp
    · rw [Finset.mul_sum]; exact Finset.sum_congr rfl fun c _ => by ring
  · simp only [if_true]
    split
    · simp
    · rw [Finset.mul_sum]; exact Finset.sum_congr rfl fun c _ => by ring

theorem Lin.sum {ι : Type} (S : Finset ι) (b : ι → K) {L : ι → Vec K → Vec K} (hL : ∀ i, Lin (L i)) :
    Lin (fun ψ X Y => ∑ i ∈ S, b i * L i ψ X Y) := by
  intro n a φ
  funext X Y
  have : ∀ i, b i * L i (fun X Y => ∑ c ∈ Finset.range n, a c * φ c X Y) X Y = ∑ c ∈ Finset.range n, a c * (b i * L i (φ c) X Y) := by
    intro i
    rw [hL i, Finset.mul_sum]
    exact Finset.sum_congr rfl fun c _ => by ring
  simp only [this, Finset.mul_sum]
  exact Finset.sum_comm

theorem Lin.sum' {ι : Type} (S : Finset ι) {L : ι → Vec K → Vec K} (hL : ∀ i, Lin (L i)) :
    Lin (fun ψ X Y => ∑ i ∈ S, L i ψ X Y) := by
  have := Lin.sum S (fun _ => (1 : K)) hL
  simpa using this

theorem Lin.add {L M : Vec K → Vec K} (hL : Lin L) (hM : Lin M) : Lin (fun ψ X Y => L ψ X Y + M ψ X Y) := by
  intro n a φ
  funext X Y
  dsimp only
  rw [hL, hM, ← Finset.sum_add_distrib]
  exact Finset.sum_congr rfl fun c _ => by ring

theorem Lin.smul (b : K) {L : Vec K → Vec K} (hL : Lin L) : Lin (fun ψ X Y => b * L ψ X Y) := by
  intro n a φ
  funext X Y
  dsimp only
  rw [hL, Finset.mul_sum]
  exact Finset.sum_congr rfl fun c _ => by ring

theorem ovl_lin_right (N n : Nat) (a : Nat → K) (φ : Nat → Vec K) (χ : Vec K) :
    ovl N χ (fun X Y => ∑ c ∈ Finset.range n, a c * φ c X Y) = ∑ c ∈ Finset.range n, a c * ovl N χ (φ c) := by
  unfold ovl
  simp only [Finset.mul_sum]
  have : ∀ X, ∑ Y ∈ Finset.range (2 ^ N), ∑ c ∈ Finset.range n, χ X Y * (a c * φ c X Y) =
      ∑ c ∈ Finset.range n, ∑ Y ∈ Finset.range (2 ^ N), a c * (χ X Y * φ c X Y) := by
    intro X
    rw [Finset.sum_comm]
    exact Finset.sum_congr rfl fun c _ => Finset.sum_congr rfl fun Y _ => by ring
  simp only [this]
  rw [Finset.sum_comm]

theorem bil_ovl (N : Nat) {L M : Vec K → Vec K} (hL : Lin L) (hM : Lin M) : Bilinear (fun φ χ => ovl N (L φ) (M χ)) := by
  refine ⟨fun n a φ χ => ?_, fun n a φ χ => ?_⟩
  · rw [hL, ovl_comm, ovl_lin_right]
    exact Finset.sum_congr rfl fun c _ => by rw [ovl_comm]
  · rw [hM, ovl_lin_right]

theorem bil_tdm1 (N : Nat) (s : Bool) (p q : Nat) : Bilinear (K := K) (fun φ χ => tdm1 N φ χ s p q) :=
  bil_ovl N (lin_ann N s p) (lin_ann N s q)

theorem bil_tdm2 (N : Nat) (s t : Bool) (p q r u : Nat) : Bilinear (K := K) (fun φ χ => tdm2 N φ χ s t p q r u) :=
  bil_ovl N ((lin_ann N t r).comp (lin_ann N s p)) ((lin_ann N t u).comp (lin_ann N s q))

section
variable {K : Type} [Field K]

theorem lin_cre (N : Nat) (s : Bool) (p : Nat) : Lin (K := K) (cre N s p) := by
  intro n a φ
  funext X Y
  unfold cre
  cases s
  · simp only [Bool.false_eq_true, if_false]
    split
    · rw [Finset.mul_sum]; exact Finset.sum_congr rfl fun c _ => by ring
    · simp
  · simp only [if_true]
    split
    · rw [Finset.mul_sum]; exact Finset.sum_congr rfl fun c _ => by ring
    · simp

theorem lin_hamOp (N : Nat) (h1 : Bool → Nat → Nat → K) (h2 : Nat → Nat → Nat → Nat → K) : Lin (hamOp N h1 h2) := by
  unfold hamOp
  refine Lin.add ?_ (Lin.smul _ ?_)
  · exact Lin.sum' _ fun s => Lin.sum' _ fun p => Lin.sum' _ fun q => Lin.smul _ ((lin_cre N s p).comp (lin_ann N s q))
  · exact Lin.sum' _ fun s => Lin.sum' _ fun t => Lin.sum' _ fun p => Lin.sum' _ fun q => Lin.sum' _ fun r => Lin.sum' _ fun u =>
      Lin.smul _ ((lin_cre N s p).comp ((lin_cre N t r).comp ((lin_ann N t u).comp (lin_ann N s q))))

theorem lin_sPlus (N : Nat) : Lin (K := K) (sPlus N) := Lin.sum' _ fun p => (lin_cre N false p).comp (lin_ann N true p)
theorem lin_sMinus (N : Nat) : Lin (K := K) (sMinus N) := Lin.sum' _ fun p => (lin_cre N true p).comp (lin_ann N false p)
theorem lin_sZ (N : Nat) : Lin (K := K) (sZ N) := by
  intro n a φ
  funext X Y
  unfold sZ
  rw [Finset.mul_sum]
  exact Finset.sum_congr rfl fun c _ => by ring
theorem lin_s2Op (N : Nat) : Lin (K := K) (s2Op N) :=
  Lin.add (Lin.add ((lin_sMinus N).comp (lin_sPlus N)) ((lin_sZ N).comp (lin_sZ N))) (lin_sZ N)

theorem bil_hamEl (N : Nat) (h1 : Bool → Nat → Nat → K) (h2 : Nat → Nat → Nat → Nat → K) : Bilinear (hamEl N h1 h2) :=
  bil_ovl N lin_id (lin_hamOp N h1 h2)
theorem bil_s2El (N : Nat) : Bilinear (K := K) (s2El N) := bil_ovl N lin_id (lin_s2Op N)
end

end Verif.Rotate
