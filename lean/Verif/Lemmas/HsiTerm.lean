import Verif.Lemmas.HsiStage
import Mathlib.Tactic.LinearCombination
/-!
# Lemmas: products of the cached operators with vectors
-/
namespace Verif.Lstdm
open Verif.Spec Verif.Exc Verif.Addr Verif.Radix Verif.Spec.Lstdm Verif.Signs

variable {K : Type} [Field K]

/-- The product with a vector is that of the matrix `val`. -/
def TermOk (nb nk : Nat) (val : Nat → Nat → K) (op : Term K) : Prop :=
  ∀ (v : Buf K) (ncol : Nat), v.lr = nk → 0 < nk → v.size = ncol * nk → ∃ f, op.dot v = some (nb * ncol, f) ∧
    ∀ P < nb, ∀ z < ncol, f (P * ncol + z) = ∑ q ∈ Finset.range nk, val P q * v.dat (z * nk + q)

theorem divMod (P n z : Nat) (hz : z < n) : (P * n + z) / n = P ∧ (P * n + z) % n = z := by
  have hn : 0 < n := by omega
  constructor
  · rw [Nat.mul_comm, Nat.mul_add_div hn, Nat.div_eq_of_lt hz, Nat.add_zero]
  · rw [Nat.mul_comm, Nat.mul_add_mod, Nat.mod_eq_of_lt hz]

theorem full_ok (nb nk : Nat) (val : Nat → Nat → K) (a : List K) (ha : ∀ P < nb, ∀ q < nk, a.getD (P * nk + q) 0 = val P q) :
    TermOk nb nk val (.full nb nk a) := by
  intro v ncol h1 h2 h3
  have hm : v.size % nk = 0 := by rw [h3]; exact Nat.mul_mod_left _ _
  have hd : v.size / nk = ncol := by rw [h3]; exact Nat.mul_div_cancel _ h2
  refine ⟨_, by unfold Term.dot; dsimp only; rw [if_neg (by omega), hd], fun P hP z hz => ?_⟩
  obtain ⟨d1, d2⟩ := divMod P ncol z hz
  rw [d1, d2, h1]
  exact Finset.sum_congr rfl fun q hq => by rw [ha P hP q (by simpa using hq)]

theorem full_conj_ok (nb nk : Nat) (val : Nat → Nat → K) (a : List K) (ha : ∀ P < nb, ∀ q < nk, a.getD (P * nk + q) 0 = val P q) :
    TermOk nk nb (fun P q => val q P) (Term.full nb nk a).conjT := by
  unfold Term.conjT
  apply full_ok
  intro P hP q hq
  have hlt : P * nb + q < nk * nb := by
    calc P * nb + q < P * nb + nb := by omega
      _ = (P + 1) * nb := by ring
      _ ≤ nk * nb := Nat.mul_le_mul_right _ hP
  obtain ⟨d1, d2⟩ := divMod P nb q hq
  rw [List.getD_eq_getElem _ _ (by simpa using hlt), List.getElem_map, List.getElem_range, d1, d2, ha q hq P hP]

theorem sum_mul_range (n m : Nat) (F : Nat → K) :
    ∑ q ∈ Finset.range (n * m), F q = ∑ a ∈ Finset.range m, ∑ i ∈ Finset.range n, F (a * n + i) := by
  induction m with
  | zero => simp
  | succ m ih => rw [Nat.mul_succ, Finset.sum_range_add, ih, Finset.sum_range_succ, Nat.mul_comm n m]

theorem comm4 (A B C D : Finset Nat) (F : Nat → Nat → Nat → Nat → K) :
    ∑ a ∈ A, ∑ b ∈ B, ∑ c ∈ C, ∑ d ∈ D, F a b c d = ∑ c ∈ C, ∑ d ∈ D, ∑ a ∈ A, ∑ b ∈ B, F a b c d := by
  calc _ = ∑ a ∈ A, ∑ c ∈ C, ∑ b ∈ B, ∑ d ∈ D, F a b c d := Finset.sum_congr rfl fun _ _ => Finset.sum_comm
    _ = ∑ c ∈ C, ∑ a ∈ A, ∑ b ∈ B, ∑ d ∈ D, F a b c d := Finset.sum_comm
    _ = ∑ c ∈ C, ∑ a ∈ A, ∑ d ∈ D, ∑ b ∈ B, F a b c d :=
        Finset.sum_congr rfl fun _ _ => Finset.sum_congr rfl fun _ _ => Finset.sum_comm
    _ = _ := Finset.sum_congr rfl fun _ _ => Finset.sum_comm

/-- Elements of the operator of four fragments. -/
def elt4 (b0 b1 b2 k0 k1 k2 n2 n3 : Nat) (op : Nat → Nat → Nat → Nat → Nat → Nat → K) (d : Nat → Nat → Nat → Nat → K) (P q : Nat) : K :=
  ∑ s ∈ Finset.range n3, ∑ r ∈ Finset.range n2, d 3 (P / (b0 * b1 * b2)) (q / (k0 * k1 * k2)) s *
    (d 2 (P / (b0 * b1) % b2) (q / (k0 * k1) % k2) r * op r s (P / b0 % b1) (P % b0) (q / k0 % k1) (q % k0))

theorem four_ok (b0 b1 b2 b3 k0 k1 k2 k3 n0 n1 n2 n3 : Nat)
    (op : Nat → Nat → Nat → Nat → Nat → Nat → K) (d : Nat → Nat → Nat → Nat → K) :
    TermOk ([b0, b1, b2, b3].prod) ([k0, k1, k2, k3].prod) (elt4 b0 b1 b2 k0 k1 k2 n2 n3 op d)
      (.four [b0, b1, b2, b3] [k0, k1, k2, k3] [n0, n1, n2, n3] op d) := by
  intro v ncol h1 h2 h3
  have hm : v.size % [k0, k1, k2, k3].prod = 0 := by rw [h3]; exact Nat.mul_mod_left _ _
  have hd : v.size / v.lr = ncol := by rw [h3, h1]; exact Nat.mul_div_cancel _ h2
  refine ⟨_, by unfold Term.dot; dsimp only; rw [if_neg (by omega), hd], fun P hP z hz => ?_⟩
  obtain ⟨d1, d2⟩ := divMod P ncol z hz
  rw [d1, d2]
  simp only [List.getD_cons_zero, List.getD_cons_succ]
  have hk : [k0, k1, k2, k3].prod = k0 * (k1 * (k2 * k3)) := by simp
  have hpos : 0 < k0 * (k1 * (k2 * k3)) := by rw [← hk]; exact h2
  have p0 : 0 < k0 := Nat.pos_of_mul_pos_right hpos
  have q1 : 0 < k1 * (k2 * k3) := Nat.pos_of_mul_pos_left hpos
  have p1 : 0 < k1 := Nat.pos_of_mul_pos_right q1
  have q2 : 0 < k2 * k3 := Nat.pos_of_mul_pos_left q1
  have p2 : 0 < k2 := Nat.pos_of_mul_pos_right q2
  rw [hk, sum_mul_range, sum_mul_range, sum_mul_range]
  refine Finset.sum_congr rfl fun l hl => ?_
  rw [Finset.sum_congr rfl (fun s _ => Finset.mul_sum _ _ _), Finset.sum_comm]
  refine Finset.sum_congr rfl fun c hc => ?_
  simp only [Finset.mem_range] at hl hc
  have hR : ∀ j ∈ Finset.range k1, ∀ i ∈ Finset.range k0, elt4 b0 b1 b2 k0 k1 k2 n2 n3 op d P (((l * k2 + c) * k1 + j) * k0 + i) *
      v.dat (z * (k0 * (k1 * (k2 * k3))) + (((l * k2 + c) * k1 + j) * k0 + i)) =
      ∑ s ∈ Finset.range n3, ∑ r ∈ Finset.range n2, d 3 (P / (b0 * b1 * b2)) l s * (d 2 (P / (b0 * b1) % b2) c r *
        (op r s (P / b0 % b1) (P % b0) j i * v.dat ((((z * k3 + l) * k2 + c) * k1 + j) * k0 + i))) := by
    intro j hj i hi
    simp only [Finset.mem_range] at hj hi
    obtain ⟨e1, e2⟩ := divMod ((l * k2 + c) * k1 + j) k0 i hi
    obtain ⟨e3, e4⟩ := divMod (l * k2 + c) k1 j hj
    obtain ⟨e5, e6⟩ := divMod l k2 c hc
    unfold elt4
    rw [← Nat.div_div_eq_div_mul (_ + i), ← Nat.div_div_eq_div_mul (_ + i), e1, e2, e3, e4, e5, e6, Finset.sum_mul]
    refine Finset.sum_congr rfl fun s _ => ?_
    rw [Finset.sum_mul]
    refine Finset.sum_congr rfl fun r _ => ?_
    rw [show z * (k0 * (k1 * (k2 * k3))) + (((l * k2 + c) * k1 + j) * k0 + i) = (((z * k3 + l) * k2 + c) * k1 + j) * k0 + i by ring]
    ring
  rw [Finset.sum_congr rfl (fun j hj => Finset.sum_congr rfl (hR j hj)), comm4]
  refine Finset.sum_congr rfl fun s _ => ?_
  rw [Finset.mul_sum]
  refine Finset.sum_congr rfl fun r _ => ?_
  simp only [Finset.mul_sum]

theorem four_conj_ok (b0 b1 b2 b3 k0 k1 k2 k3 n0 n1 n2 n3 : Nat)
    (op : Nat → Nat → Nat → Nat → Nat → Nat → K) (d : Nat → Nat → Nat → Nat → K) :
    TermOk ([k0, k1, k2, k3].prod) ([b0, b1, b2, b3].prod) (fun P q => elt4 b0 b1 b2 k0 k1 k2 n2 n3 op d q P)
      (Term.four [b0, b1, b2, b3] [k0, k1, k2, k3] [n0, n1, n2, n3] op d).conjT :=
  four_ok k0 k1 k2 k3 b0 b1 b2 b3 n0 n1 n2 n3 (fun r s j i b a => op r s b a j i) (fun x q p r => d x p q r)

theorem TermOk.congr {nb nk : Nat} {val val' : Nat → Nat → K} {op : Term K} (h : TermOk nb nk val op)
    (hv : ∀ P < nb, ∀ q < nk, val P q = val' P q) : TermOk nb nk val' op := by
  intro v ncol h1 h2 h3
  obtain ⟨f, e1, e2⟩ := h v ncol h1 h2 h3
  refine ⟨f, e1, fun P hP z hz => ?_⟩
  rw [e2 P hP z hz]
  exact Finset.sum_congr rfl fun q hq => by rw [hv P hP q (by simpa using hq)]

/-- Sums over the orbitals of several fragments. -/
def msum (no : Nat → Nat) : List Nat → ((Nat → Nat) → K) → (Nat → Nat) → K
  | [], F, e => F e
  | f :: fs, F, e => ∑ x ∈ Finset.range (no f), msum no fs F (Function.update e f x)

theorem msum_congr_env (no : Nat → Nat) (fs : List Nat) (F : (Nat → Nat) → K) (e e' : Nat → Nat) (h : e = e') : msum no fs F e = msum no fs F e' := by
  rw [h]

theorem msum_perm (no : Nat → Nat) (fs gs : List Nat) (h : fs.Perm gs) (hn : fs.Nodup) (F : (Nat → Nat) → K) (e : Nat → Nat) :
    msum no fs F e = msum no gs F e := by
  induction h generalizing e with
  | nil => rfl
  | cons a _ ih => exact Finset.sum_congr rfl fun x _ => ih (List.nodup_cons.mp hn).2 _
  | swap a b l =>
    unfold msum
    unfold msum
    rw [Finset.sum_comm]
    refine Finset.sum_congr rfl fun x _ => Finset.sum_congr rfl fun y _ => ?_
    apply msum_congr_env
    apply Function.update_comm
    intro h
    rw [List.nodup_cons] at hn
    exact hn.1 (by simp [h])
  | trans h1 _ ih1 ih2 => rw [ih1 hn, ih2 (h1.nodup_iff.mp hn)]

namespace Kern
variable {k : Kern K}

theorem loc_adr (hC : k.Cols) (r : Nat) (hr : r < k.cols.length) (e : Nat → Nat) (he : ∀ f < k.nlas.length, e f < k.lr r f) (f : Nat)
    (hf : f < k.nlas.length) : k.loc f (k.adr r e) = Nat.pair (k.uroot f r) (e f) := by
  unfold loc
  rw [rootOf_adr hC r hr e he, envOf_adr hC r hr e he f hf]

theorem hdig_all (hC : k.Cols) (I : List Nat) (r i : Nat) (hr : r < k.cols.length) (hi : i < (k.colOf I r).prod) (f : Nat) (hf : f < k.nlas.length) :
    k.dig I r i f < k.lr r f := by
  by_cases h : f ∈ I
  · exact dig_lt I r i f hi h
  · rw [dig_out I r i f h]; exact hC.pos r hr f hf

theorem loc_flat1 (hC : k.Cols) (r : Nat) (hr : r < k.cols.length) (f : Nat) (hf : f < k.nlas.length) (p : Nat) (hp : p < k.lr r f) :
    k.loc f (k.flatState r [f] p) = Nat.pair (k.uroot f r) p := by
  have hp' : p < (k.colOf [f] r).prod := by simpa [colOf] using hp
  have := flatState_eq hC r hr [f] (by simp) (by simpa using hf) p hp'
  rw [List.reverse_singleton] at this
  rw [this, loc_adr hC r hr _ (hdig_all hC _ _ _ hr hp') f hf]
  congr 1
  unfold dig
  simp [colOf, digits, Nat.mod_eq_of_lt hp]

theorem rootOf_offs0 (hC : k.Cols) (r : Nat) (hr : r < k.cols.length) : k.rootOf (k.offs0 r) = r := by
  rw [offs0_eq hC r hr]
  have := rootOf_adr hC r hr (fun _ => 0) (fun f hf => hC.pos r hr f hf)
  unfold adr at this
  simpa using this

theorem nelecF_congr (b b' : Nat) (h : k.rootOf b = k.rootOf b') : k.toLstdm.nelecF b = k.toLstdm.nelecF b' := by
  unfold Lstdm.nelecF toLstdm
  dsimp only
  rw [h]

theorem frs_eq (h8 : k.nlas.length ≤ 8) (i j c l : Nat) (hn : [l, j, i, c].Nodup) (hinv : ∀ f ∈ [i, j, c, l], f < k.nlas.length) :
    [l, j, i, c].mergeSort (fun a b => decide (a ≤ b)) = PySet.listSet [i, j, c, l] := by
  rw [listSet_small _ k.nlas.length (fun v hv => by have := hinv v hv; omega) hinv]
  have hp := List.mergeSort_perm [l, j, i, c] (fun a b : Nat => decide (a ≤ b))
  have hs : ([l, j, i, c].mergeSort (fun a b : Nat => decide (a ≤ b))).Pairwise (fun a b => decide (a ≤ b) = true) :=
    List.pairwise_mergeSort (by intro a b c; simp; omega) (by intro a b; simp; omega) _
  refine List.Perm.eq_of_pairwise (le := fun a b : Nat => a ≤ b) (fun a b _ _ h1 h2 => by omega) (hs.imp (by simp)) ?_ ?_
  · exact (List.pairwise_lt_range.filter _).imp (fun h => by omega)
  · rw [List.perm_ext_iff_of_nodup (hp.nodup_iff.mpr hn) (List.nodup_range.filter _)]
    intro f
    rw [hp.mem_iff, List.mem_filter, List.mem_range, decide_eq_true_eq]
    constructor
    · intro h
      have : f ∈ [i, j, c, l] := by simp at h ⊢; tauto
      exact ⟨hinv f this, this⟩
    · intro h
      have := h.2
      simp at this ⊢; tauto

theorem upd4 (f0 f1 f2 f3 p q r s g : Nat) (e : Nat → Nat) (hn : [f0, f1, f2, f3].Nodup) (hg : g ∈ [f0, f1, f2, f3]) :
    [p, q, r, s].getD ([f0, f1, f2, f3].idxOf g) 0 =
      Function.update (Function.update (Function.update (Function.update e f3 s) f2 r) f0 p) f1 q g := by
  simp only [List.nodup_cons, List.mem_cons, List.not_mem_nil, or_false, not_or, List.nodup_nil, and_true, not_false_eq_true] at hn hg
  obtain ⟨⟨h1, h2, h3⟩, ⟨h4, h5⟩, h6⟩ := hn
  rcases hg with rfl | rfl | rfl | rfl <;> simp [List.idxOf_cons, Function.update, *, Ne.symm, eq_comm] <;> grind

/-- The table entry of a fragment in a row of four fragments. -/
def d4 (k : Kern K) (b c i j l s11 s12 f o : Nat) : K :=
  if f = l then (k.toLstdm.ints f).get1H b c s12 o
  else if f = j then (k.toLstdm.ints f).get1H b c s11 o
  else if f = i then (k.toLstdm.ints f).get1P b c s11 o
  else (k.toLstdm.ints f).get1P b c s12 o

theorem d4_congr (b b0 c c0 i j l s11 s12 f o : Nat) (hb : k.loc f b0 = k.loc f b) (hc : k.loc f c0 = k.loc f c) :
    k.d4 b0 c0 i j l s11 s12 f o = k.d4 b c i j l s11 s12 f o := by
  unfold d4
  rw [c_h k hb hc, c_p k hb hc]

theorem ham2c_msum (L : Lstdm K) (H : Ham K) (b c i j m l s s11 s12 : Nat) (h11 : [0, 1, 3].getD s 0 / 2 = s11) (h12 : [0, 1, 3].getD s 0 % 2 = s12) (him : i ≠ m) (hjl : j ≠ l) (f1 f2 : Int) (h1 : L.facHh c i j m l = some f1)
    (h2 : L.facPp b i j m l = some f2) (hn : [l, j, i, m].Nodup) (e : Nat → Nat) :
    L.ham2c H b c i j m l s = some (msum L.no [l, j, i, m] (fun e =>
      (L.ints l).get1H b c s12 (e l) * ((L.ints j).get1H b c s11 (e j) *
      ((L.ints i).get1P b c s11 (e i) * ((L.ints m).get1P b c s12 (e m) *
      ((H.four L.nlas l m j i (e l) (e m) (e j) (e i) - if s11 = s12 then
        H.four L.nlas l i j m (e l) (e i) (e j) (e m) else 0) *
        ((if (i, j, s11) = (m, l, s12) then 1 / 2 else 1) * ((f1 * f2 : Int) : K))))))) e, none) := by
  simp only [List.nodup_cons, List.mem_cons, List.not_mem_nil, or_false, not_or, List.nodup_nil, and_true, not_false_eq_true] at hn
  obtain ⟨⟨n1, n2, n3⟩, ⟨n4, n5⟩, n6⟩ := hn
  unfold Lstdm.ham2c
  rw [h1, h2]
  simp only [Option.bind_eq_bind, Option.bind_some, msum]
  rw [h11, h12]
  have u1 : ∀ a b c d, Function.update (Function.update (Function.update (Function.update e l a) j b) i c) m d l = a := by
    intro a b c d; simp [Function.update, *]
  have u2 : ∀ a b c d, Function.update (Function.update (Function.update (Function.update e l a) j b) i c) m d j = b := by
    intro a b c d; simp [Function.update, *]
  have u3 : ∀ a b c d, Function.update (Function.update (Function.update (Function.update e l a) j b) i c) m d i = c := by
    intro a b c d; simp [Function.update, *]
  have u4 : ∀ a b c d, Function.update (Function.update (Function.update (Function.update e l a) j b) i c) m d m = d := by
    intro a b c d; simp [Function.update]
  simp only [u1, u2, u3, u4]
  rw [if_neg (by simp [him, hjl])]
  unfold Lstdm.contract2c
  simp only [if_neg him, if_neg hjl]
  by_cases hs : s11 = s12
  · rw [if_pos ⟨hs, him, hjl⟩]
    simp only [if_pos hs, pure, Finset.mul_sum, Finset.sum_mul]
    refine congrArg (fun z : K => some (z, (none : Option K))) ?_
    refine Finset.sum_congr rfl fun _ _ => Finset.sum_congr rfl fun _ _ => Finset.sum_congr rfl fun _ _ => Finset.sum_congr rfl fun _ _ => ?_
    ring
  · rw [if_neg (fun h => hs h.1)]
    simp only [if_neg hs, pure, Finset.mul_sum, Finset.sum_mul]
    refine congrArg (fun z : K => some (z, (none : Option K))) ?_
    refine Finset.sum_congr rfl fun _ _ => Finset.sum_congr rfl fun _ _ => Finset.sum_congr rfl fun _ _ => Finset.sum_congr rfl fun _ _ => ?_
    ring

theorem dig4 (f0 f1 f2 f3 r P : Nat) (hn : [f0, f1, f2, f3].Nodup) (hP : P < (k.colOf [f0, f1, f2, f3] r).prod) :
    k.dig [f0, f1, f2, f3] r P f0 = P % k.lr r f0 ∧ k.dig [f0, f1, f2, f3] r P f1 = P / k.lr r f0 % k.lr r f1 ∧
    k.dig [f0, f1, f2, f3] r P f2 = P / (k.lr r f0 * k.lr r f1) % k.lr r f2 ∧
    k.dig [f0, f1, f2, f3] r P f3 = P / (k.lr r f0 * k.lr r f1 * k.lr r f2) := by
  simp only [List.nodup_cons, List.mem_cons, List.not_mem_nil, or_false, not_or, List.nodup_nil, and_true, not_false_eq_true] at hn
  obtain ⟨⟨h1, h2, h3⟩, ⟨h4, h5⟩, h6⟩ := hn
  have hlast : P / (k.lr r f0 * k.lr r f1 * k.lr r f2) < k.lr r f3 := by
    apply Nat.div_lt_of_lt_mul
    simp only [colOf, List.map_cons, List.map_nil, List.prod_cons, List.prod_nil, mul_one] at hP
    rw [Nat.mul_assoc, Nat.mul_assoc]
    exact hP
  rw [← Nat.div_div_eq_div_mul] at hlast ⊢
  rw [← Nat.div_div_eq_div_mul] at hlast ⊢
  unfold dig
  refine ⟨?_, ?_, ?_, ?_⟩
  · simp [colOf, digits, List.idxOf_cons]
  · simp [colOf, digits, List.idxOf_cons, h1]
  · simp [colOf, digits, List.idxOf_cons, h2, h4]
  · simp [colOf, digits, List.idxOf_cons, h3, h5, h6, Nat.mod_eq_of_lt hlast]
    rw [Nat.div_div_eq_div_mul, Nat.div_div_eq_div_mul, Nat.div_div_eq_div_mul, Nat.mul_assoc]

/-- The operator of four different fragments. -/
theorem fourTerm_ok (h8 : k.nlas.length ≤ 8) (hC : k.Cols) (H : Ham K) (A B : Nat) (hA : A < k.cols.length) (hB : B < k.cols.length)
    (i j m l s : Nat) (hn : [l, j, i, m].Nodup) (hinv : ∀ f ∈ [i, j, m, l], f < k.nlas.length)
    (hsome : ∃ v, k.toLstdm.ham2c H (k.offs0 A) (k.offs0 B) i j m l s = some v) :
    ∃ op, k.fourTerm H A B i j m l s = some op ∧
      TermOk (k.colOf (PySet.listSet [i, j, m, l]) A).prod (k.colOf (PySet.listSet [i, j, m, l]) B).prod (fun P q =>
        ((k.toLstdm.ham2c H (k.adr A (k.dig (PySet.listSet [i, j, m, l]) A P)) (k.adr B (k.dig (PySet.listSet [i, j, m, l]) B q))
          i j m l s).map Prod.fst).getD 0) op ∧
      TermOk (k.colOf (PySet.listSet [i, j, m, l]) B).prod (k.colOf (PySet.listSet [i, j, m, l]) A).prod (fun P q =>
        ((k.toLstdm.ham2c H (k.adr A (k.dig (PySet.listSet [i, j, m, l]) A q)) (k.adr B (k.dig (PySet.listSet [i, j, m, l]) B P))
          i j m l s).map Prod.fst).getD 0) op.conjT := by
  have hfrs := frs_eq h8 i j m l hn hinv
  have hp := List.mergeSort_perm [l, j, i, m] (fun a b : Nat => decide (a ≤ b))
  rw [hfrs] at hp
  obtain ⟨s11, h11⟩ : ∃ x, [0, 1, 3].getD s 0 / 2 = x := ⟨_, rfl⟩
  obtain ⟨s12, h12⟩ : ∃ x, [0, 1, 3].getD s 0 % 2 = x := ⟨_, rfl⟩
  have him : i ≠ m := by simp at hn; omega
  have hjl : j ≠ l := by simp at hn; omega
  obtain ⟨f1, f2, hf1, hf2⟩ : ∃ f1 f2, k.toLstdm.facHh (k.offs0 B) i j m l = some f1 ∧ k.toLstdm.facPp (k.offs0 A) i j m l = some f2 := by
    obtain ⟨v, hv⟩ := hsome
    unfold Lstdm.ham2c at hv
    simp only [Option.bind_eq_bind] at hv
    obtain ⟨f1, hf1, hv⟩ := Option.bind_eq_some_iff.mp hv
    obtain ⟨f2, hf2, hv⟩ := Option.bind_eq_some_iff.mp hv
    exact ⟨f1, f2, hf1, hf2⟩
  obtain ⟨a0, a1, a2, a3, hI⟩ : ∃ a0 a1 a2 a3, PySet.listSet [i, j, m, l] = [a0, a1, a2, a3] := by
    have := hp.length_eq
    generalize PySet.listSet [i, j, m, l] = I at *
    match I, this with
    | [a, b, c, d], _ => exact ⟨a, b, c, d, rfl⟩
  rw [hI] at hp ⊢
  have hna : [a0, a1, a2, a3].Nodup := hp.nodup_iff.mpr hn
  have hma : ∀ f ∈ [a0, a1, a2, a3], f < k.nlas.length := by
    intro f hf
    apply hinv
    have := hp.mem_iff.mp hf
    simp only [List.mem_cons, List.not_mem_nil, or_false] at this ⊢
    clear hf
    rcases this with h | h | h | h <;> simp [h]
  have hval : ∀ P < (k.colOf [a0, a1, a2, a3] A).prod, ∀ q < (k.colOf [a0, a1, a2, a3] B).prod,
      elt4 (k.lr A a0) (k.lr A a1) (k.lr A a2) (k.lr B a0) (k.lr B a1) (k.lr B a2) (k.toLstdm.no a2) (k.toLstdm.no a3)
        (fun r s' b a jj ii => ∑ p ∈ Finset.range (k.toLstdm.no a0), ∑ q ∈ Finset.range (k.toLstdm.no a1),
          k.d4 (k.flatState A [a0] a) (k.flatState B [a0] ii) i j l s11 s12 a0 p *
          k.d4 (k.flatState A [a1] b) (k.flatState B [a1] jj) i j l s11 s12 a1 q *
          ((H.four k.nlas l m j i ([p, q, r, s'].getD ([a0, a1, a2, a3].idxOf l) 0) ([p, q, r, s'].getD ([a0, a1, a2, a3].idxOf m) 0)
              ([p, q, r, s'].getD ([a0, a1, a2, a3].idxOf j) 0) ([p, q, r, s'].getD ([a0, a1, a2, a3].idxOf i) 0) -
            if s11 = s12 then
              H.four k.nlas l i j m ([p, q, r, s'].getD ([a0, a1, a2, a3].idxOf l) 0) ([p, q, r, s'].getD ([a0, a1, a2, a3].idxOf i) 0)
              ([p, q, r, s'].getD ([a0, a1, a2, a3].idxOf j) 0) ([p, q, r, s'].getD ([a0, a1, a2, a3].idxOf m) 0) else 0) *
            ((if (i, j, s11) = (m, l, s12) then 1 / 2 else 1) * ((f1 * f2 : Int) : K))))
        (fun x p q o => k.d4 (k.flatState A [[a0, a1, a2, a3].getD x 0] p) (k.flatState B [[a0, a1, a2, a3].getD x 0] q) i j l
          s11 s12 ([a0, a1, a2, a3].getD x 0) o) P q =
      ((k.toLstdm.ham2c H (k.adr A (k.dig [a0, a1, a2, a3] A P)) (k.adr B (k.dig [a0, a1, a2, a3] B q)) i j m l s).map Prod.fst).getD 0 := by
    intro P hP q hq
    have rA := rootOf_adr hC A hA _ (hdig_all hC _ A P hA hP)
    have rB := rootOf_adr hC B hB _ (hdig_all hC _ B q hB hq)
    have g1 : k.toLstdm.facHh (k.adr B (k.dig [a0, a1, a2, a3] B q)) i j m l = some f1 := by
      rw [← hf1]; unfold Lstdm.facHh
      rw [nelecF_congr _ (k.offs0 B) (by rw [rB, rootOf_offs0 hC B hB])]
    have g2 : k.toLstdm.facPp (k.adr A (k.dig [a0, a1, a2, a3] A P)) i j m l = some f2 := by
      rw [← hf2]; unfold Lstdm.facPp
      rw [nelecF_congr _ (k.offs0 A) (by rw [rA, rootOf_offs0 hC A hA])]
    rw [ham2c_msum _ H _ _ i j m l s s11 s12 h11 h12 him hjl f1 f2 g1 g2 hn (fun _ => 0), Option.map_some, Option.getD_some]
    have hp2 : [l, j, i, m].Perm [a3, a2, a0, a1] := hp.symm.trans (by
      have : [a0, a1, a2, a3].Perm ([a2, a3] ++ [a0, a1]) := List.perm_append_comm (l₁ := [a0, a1]) (l₂ := [a2, a3])
      exact this.trans (List.Perm.swap a3 a2 [a0, a1]))
    rw [msum_perm _ _ _ hp2 hn]
    have hd : ∀ f ∈ [a0, a1, a2, a3], ∀ o, k.d4 (k.flatState A [f] (k.dig [a0, a1, a2, a3] A P f)) (k.flatState B [f] (k.dig [a0, a1, a2, a3] B q f)) i j l
        s11 s12 f o =
        k.d4 (k.adr A (k.dig [a0, a1, a2, a3] A P)) (k.adr B (k.dig [a0, a1, a2, a3] B q)) i j l
        s11 s12 f o := by
      intro f hf o
      have hfl := hma f hf
      apply d4_congr
      · rw [loc_flat1 hC A hA f hfl _ (dig_lt _ _ _ _ hP hf), loc_adr hC A hA _ (hdig_all hC _ _ _ hA hP) f hfl]
      · rw [loc_flat1 hC B hB f hfl _ (dig_lt _ _ _ _ hq hf), loc_adr hC B hB _ (hdig_all hC _ _ _ hB hq) f hfl]
    obtain ⟨x0, x1, x2, x3⟩ := dig4 a0 a1 a2 a3 A P hna hP
    obtain ⟨y0, y1, y2, y3⟩ := dig4 a0 a1 a2 a3 B q hna hq
    have hd0 := hd a0 (by simp)
    have hd1 := hd a1 (by simp)
    have hd2 := hd a2 (by simp)
    have hd3 := hd a3 (by simp)
    rw [x0, y0] at hd0
    rw [x1, y1] at hd1
    rw [x2, y2] at hd2
    rw [x3, y3] at hd3
    unfold elt4
    simp only [List.getD_cons_zero, List.getD_cons_succ]
    simp only [hd0, hd1, hd2, hd3, msum]
    refine Finset.sum_congr rfl fun s' _ => Finset.sum_congr rfl fun r _ => ?_
    rw [Finset.mul_sum, Finset.mul_sum]
    refine Finset.sum_congr rfl fun p _ => ?_
    rw [Finset.mul_sum, Finset.mul_sum]
    refine Finset.sum_congr rfl fun q' _ => ?_
    have hu := fun g hg => upd4 a0 a1 a2 a3 p q' r s' g (fun _ => 0) hna hg
    have ml : l ∈ [a0, a1, a2, a3] := hp.mem_iff.mpr (by simp)
    have mj : j ∈ [a0, a1, a2, a3] := hp.mem_iff.mpr (by simp)
    have mi : i ∈ [a0, a1, a2, a3] := hp.mem_iff.mpr (by simp)
    have mm : m ∈ [a0, a1, a2, a3] := hp.mem_iff.mpr (by simp)
    have u0 := hu a0 (by simp)
    have u1 := hu a1 (by simp)
    have u2 := hu a2 (by simp)
    have u3 := hu a3 (by simp)
    rw [hu l ml, hu j mj, hu i mi, hu m mm]
    generalize hE : Function.update (Function.update (Function.update (Function.update (fun _ => 0) a3 s') a2 r) a0 p) a1 q' = E at *
    have hna' := hna
    simp only [List.nodup_cons, List.mem_cons, List.not_mem_nil, or_false, not_or, List.nodup_nil, and_true, not_false_eq_true] at hna'
    obtain ⟨⟨n1, n2, n3⟩, ⟨n4, n5⟩, n6⟩ := hna'
    have v0 : E a0 = p := by rw [← u0]; simp [List.idxOf_cons]
    have v1 : E a1 = q' := by rw [← u1]; simp [List.idxOf_cons, n1]
    have v2 : E a2 = r := by rw [← u2]; simp [List.idxOf_cons, n2, n4]
    have v3 : E a3 = s' := by rw [← u3]; simp [List.idxOf_cons, n3, n5, n6]
    have hprod := (hp.map (fun f => k.d4 (k.adr A (k.dig [a0, a1, a2, a3] A P)) (k.adr B (k.dig [a0, a1, a2, a3] B q)) i j l
        s11 s12 f (E f))).prod_eq
    simp only [List.map_cons, List.map_nil, List.prod_cons, List.prod_nil, mul_one] at hprod
    rw [v0, v1, v2, v3] at hprod
    have hn' := hn
    simp only [List.nodup_cons, List.mem_cons, List.not_mem_nil, or_false, not_or, List.nodup_nil, and_true, not_false_eq_true] at hn'
    obtain ⟨⟨w1, w2, w3⟩, ⟨w4, w5⟩, w6⟩ := hn'
    have z1 : ∀ b c o, k.d4 b c i j l s11 s12 l o = (k.toLstdm.ints l).get1H b c s12 o := by
      intro b c o; unfold d4; rw [if_pos rfl]
    have z2 : ∀ b c o, k.d4 b c i j l s11 s12 j o = (k.toLstdm.ints j).get1H b c s11 o := by
      intro b c o; unfold d4; rw [if_neg hjl, if_pos rfl]
    have z3 : ∀ b c o, k.d4 b c i j l s11 s12 i o = (k.toLstdm.ints i).get1P b c s11 o := by
      intro b c o; unfold d4; rw [if_neg (Ne.symm w2), if_neg (Ne.symm w4), if_pos rfl]
    have z4 : ∀ b c o, k.d4 b c i j l s11 s12 m o = (k.toLstdm.ints m).get1P b c s12 o := by
      intro b c o; unfold d4; rw [if_neg (Ne.symm w3), if_neg (Ne.symm w5), if_neg (Ne.symm him)]
    rw [z1, z2, z3, z4] at hprod
    have hno : k.toLstdm.nlas = k.nlas := rfl
    rw [hno]
    linear_combination ((H.four k.nlas l m j i (E l) (E m) (E j) (E i) - if s11 = s12 then
              H.four k.nlas l i j m (E l) (E i) (E j) (E m) else 0) *
            ((if (i, j, s11) = (m, l, s12) then 1 / 2 else 1) * ((f1 * f2 : Int) : K))) * hprod
  have hop : k.fourTerm H A B i j m l s = some (.four [k.lr A a0, k.lr A a1, k.lr A a2, k.lr A a3] [k.lr B a0, k.lr B a1, k.lr B a2, k.lr B a3]
      [k.toLstdm.no a0, k.toLstdm.no a1, k.toLstdm.no a2, k.toLstdm.no a3]
        (fun r s' b a jj ii => ∑ p ∈ Finset.range (k.toLstdm.no a0), ∑ q ∈ Finset.range (k.toLstdm.no a1),
          k.d4 (k.flatState A [a0] a) (k.flatState B [a0] ii) i j l s11 s12 a0 p *
          k.d4 (k.flatState A [a1] b) (k.flatState B [a1] jj) i j l s11 s12 a1 q *
          ((H.four k.nlas l m j i ([p, q, r, s'].getD ([a0, a1, a2, a3].idxOf l) 0) ([p, q, r, s'].getD ([a0, a1, a2, a3].idxOf m) 0)
              ([p, q, r, s'].getD ([a0, a1, a2, a3].idxOf j) 0) ([p, q, r, s'].getD ([a0, a1, a2, a3].idxOf i) 0) -
            if s11 = s12 then
              H.four k.nlas l i j m ([p, q, r, s'].getD ([a0, a1, a2, a3].idxOf l) 0) ([p, q, r, s'].getD ([a0, a1, a2, a3].idxOf i) 0)
              ([p, q, r, s'].getD ([a0, a1, a2, a3].idxOf j) 0) ([p, q, r, s'].getD ([a0, a1, a2, a3].idxOf m) 0) else 0) *
            ((if (i, j, s11) = (m, l, s12) then 1 / 2 else 1) * ((f1 * f2 : Int) : K))))
        (fun x p q o => k.d4 (k.flatState A [[a0, a1, a2, a3].getD x 0] p) (k.flatState B [[a0, a1, a2, a3].getD x 0] q) i j l
          s11 s12 ([a0, a1, a2, a3].getD x 0) o)) := by
    unfold fourTerm
    dsimp only
    rw [hf1, hf2]
    simp only [Option.bind_eq_bind, Option.bind_some]
    rw [hfrs, hI, h11, h12]
    rfl
  refine ⟨_, hop, ?_, ?_⟩
  · exact (four_ok _ _ _ _ _ _ _ _ _ _ _ _ _ _).congr hval
  · exact (four_conj_ok _ _ _ _ _ _ _ _ _ _ _ _ _ _).congr (fun P hP q hq => hval q hq P hP)

end Kern
end Verif.Lstdm
