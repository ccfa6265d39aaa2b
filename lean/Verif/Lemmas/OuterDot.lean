import Verif.Lemmas.OuterDp
/-!
# Lemmas on `dotter` with fragments left uncontracted: the loop
-/
namespace Verif.Outer
open Verif.Np Verif.Fockspace Verif.Spec Verif.Spec.Outer Verif.Spec.Fsucc Verif.Spec.Fockspace Verif.Radix
open scoped BigOperators

variable {K : Type} [CommRing K]

theorem posC_append {d1 t1 : List Nat} (h : t1.length = d1.length) (d2 t2 : List Nat) :
    posC (d1 ++ d2) (t1 ++ t2) = posC d1 t1 * d2.prod + posC d2 t2 := by
  induction d1 generalizing t1 with
  | nil =>
    cases t1 with
    | nil => simp [posC]
    | cons => simp at h
  | cons d ds ih =>
    cases t1 with
    | nil => simp at h
    | cons x t1 =>
      simp only [List.cons_append, posC]
      rw [ih (by simpa using h), List.prod_append]
      ring

theorem inShape_append {t1 d1 t2 d2 : List Nat} (h1 : InShape t1 d1) (h2 : InShape t2 d2) : InShape (t1 ++ t2) (d1 ++ d2) :=
  List.rel_append h1 h2

theorem axes_idx (s i : Nat) (h1 : 1 ≤ i) (h2 : i ≤ s) :
    ([0, s + 1, s + 3] ++ List.range' 1 s ++ [s + 2]).idxOf i = i + 2 := by
  have hm : i ∈ List.range' 1 s := by rw [List.mem_range'_1]; omega
  rw [List.append_assoc, List.idxOf_append_of_notMem (by simp; omega), List.idxOf_append_of_mem hm]
  have hlt : i - 1 < (List.range' 1 s).length := by simp; omega
  have := List.Nodup.idxOf_getElem (List.nodup_range' (s := 1) (n := s)) (i - 1) hlt
  have e : (List.range' 1 s)[i - 1] = i := by rw [List.getElem_range']; omega
  rw [e] at this
  rw [this, List.length_cons, List.length_cons, List.length_cons, List.length_nil]
  omega

theorem axes_last (s : Nat) : ([0, s + 1, s + 3] ++ List.range' 1 s ++ [s + 2]).idxOf (s + 2) = s + 3 := by
  rw [List.idxOf_append_of_notMem]
  · simp only [List.length_append, List.length_cons, List.length_nil, List.length_range', List.idxOf_cons_self]; omega
  · rw [List.mem_append, List.mem_range'_1]; simp; omega

theorem transpose_ok {c : Nd K} {h0 a b a' b' : Nat} {hs : List Nat} (hc : c.shape = h0 :: (hs ++ [a, a', b, b'])) {s : Nat}
    (hsl : s = hs.length + 1) :
    (c.transpose ([0, s + 1, s + 3] ++ List.range' 1 s ++ [s + 2])).shape = h0 :: a' :: b' :: (hs ++ [a, b]) ∧
    ∀ p0 x y i j hi, hi.length = hs.length →
      (c.transpose ([0, s + 1, s + 3] ++ List.range' 1 s ++ [s + 2])).get (p0 :: x :: y :: (hi ++ [i, j])) =
        c.get (p0 :: (hi ++ [i, x, j, y])) := by
  subst hsl
  constructor
  · simp only [Nd.transpose, hc]
    have e1 : (List.range' 1 (hs.length + 1)).map (fun i => (h0 :: (hs ++ [a, a', b, b'])).getD i 0) = hs ++ [a] := by
      apply List.ext_getElem
      · simp
      · intro k h1 h2
        rw [List.getElem_map, List.getElem_range']
        rw [List.length_append, List.length_singleton] at h2
        rw [show 1 + 1 * k = k + 1 by omega, List.getD_cons_succ]
        by_cases hk : k < hs.length
        · rw [List.getElem_append_left hk, List.getD_append _ _ _ _ hk, List.getD_eq_getElem _ _ hk]
        · have : k = hs.length := by omega
          subst this
          rw [List.getElem_append_right le_rfl, List.getD_append_right _ _ _ _ le_rfl]
          simp
    rw [List.map_append, List.map_append, e1]
    simp [List.getD_eq_getElem?_getD]
  · intro p0 x y i j hi hl
    simp only [Nd.transpose, hc]
    congr 1
    apply List.ext_getElem
    · simp [hl]
    · intro k h1 h2
      rw [List.getElem_map, List.getElem_range]
      simp only [List.length_cons, List.length_append, List.length_nil] at h2
      have hlen : hs.length = hi.length := hl.symm
      rw [hlen]
      by_cases k0 : k = 0
      · subst k0; simp
      by_cases hk : k ≤ hi.length + 1
      · rw [axes_idx _ k (by omega) hk]
        obtain ⟨k, rfl⟩ := Nat.exists_eq_succ_of_ne_zero k0
        simp only [Nat.succ_eq_add_one]
        rw [show k + 1 + 2 = k + 1 + 1 + 1 by omega, List.getD_cons_succ, List.getD_cons_succ, List.getD_cons_succ,
          List.getElem_cons_succ]
        by_cases hk' : k < hi.length
        · rw [List.getElem_append_left hk', List.getD_append _ _ _ _ hk', List.getD_eq_getElem _ _ hk']
        · have : k = hi.length := by omega
          subst this
          rw [List.getElem_append_right le_rfl, List.getD_append_right _ _ _ _ le_rfl]
          simp
      by_cases hk2 : k = hi.length + 2
      · subst hk2
        simp
      by_cases hk3 : k = hi.length + 3
      · subst hk3
        rw [axes_last, show hi.length + 1 + 3 = (hi.length + 1) + 1 + 1 + 1 by omega, List.getD_cons_succ, List.getD_cons_succ,
          List.getD_cons_succ, List.getD_append_right _ _ _ _ (by omega)]
        simp
      · have hk4 : k = hi.length + 4 := by omega
        subst hk4
        have e : ([0, hi.length + 1 + 1, hi.length + 1 + 3] ++ List.range' 1 (hi.length + 1) ++ [hi.length + 1 + 2]).idxOf
            (hi.length + 4) = 2 := by
          simp [List.idxOf_cons]
        rw [e]
        simp

theorem reshape_split {c : Nd K} {h0 a b a' b' : Nat} {hs : List Nat} (hc : c.shape = h0 :: (hs ++ [a * a', b * b'])) {s : Nat}
    (hsl : s = hs.length + 1) (ha : 0 < a') (hb : 0 < b') :
    ∃ r, c.reshape (c.shape.take s ++ splitShape (c.shape.drop s) [a', b']) = some r ∧
      r.shape = h0 :: (hs ++ [a, a', b, b']) ∧
      ∀ p0 hi i x j y, p0 < h0 → InShape hi hs → i < a → x < a' → j < b → y < b' →
        r.get (p0 :: (hi ++ [i, x, j, y])) = c.get (p0 :: (hi ++ [i * a' + x, j * b' + y])) := by
  subst hsl
  have e : c.shape.take (hs.length + 1) ++ splitShape (c.shape.drop (hs.length + 1)) [a', b'] =
      (h0 :: hs) ++ [a, a', b, b'] := by
    rw [hc]; simp [splitShape, Nat.mul_div_cancel _ ha, Nat.mul_div_cancel _ hb]
  rw [e]
  obtain ⟨r, hr⟩ := Nd.reshape_some c ((h0 :: hs) ++ [a, a', b, b'])
    (by rw [hc]; simp only [List.cons_append, List.prod_cons, List.prod_append, List.prod_nil]; ring)
  refine ⟨r, hr, by rw [(Nd.reshape_flat hr).1, List.cons_append], ?_⟩
  intro p0 hi i x j y hp hh hi' hx hj hy
  apply get_posC hr
  · rw [hc]
    refine List.Forall₂.cons hp (inShape_append hh ?_)
    exact List.Forall₂.cons (lt_mul hi' hx) (List.Forall₂.cons (lt_mul hj hy) List.Forall₂.nil)
  · rw [hc, ← List.cons_append, ← List.cons_append, ← List.cons_append, posC_append (by simp [inShape_length hh]),
      posC_append (by simp [inShape_length hh])]
    simp [posC]
    ring

theorem dotStep_skip {skip : Nat → Bool} {n : Nat} (hn : skip n) {f : Frag K} (hf : f.OK) {c : Nd K} {h0 a b : Nat} {hs : List Nat}
    (hc : c.shape = h0 :: (hs ++ [a * f.dA, b * f.dB])) {s : Nat} (hsl : s = hs.length + 1) :
    ∃ r, dotStep skip (c, s) (f, n) = some (r, s + 2) ∧ r.shape = h0 :: ((f.dA :: f.dB :: hs) ++ [a, b]) ∧
      ∀ p0 hi i x j y, p0 < h0 → InShape hi hs → i < a → x < f.dA → j < b → y < f.dB →
        r.get (p0 :: ((x :: y :: hi) ++ [i, j])) = c.get (p0 :: (hi ++ [i * f.dA + x, j * f.dB + y])) := by
  obtain ⟨r, hr, hrs, hrv⟩ := reshape_split hc hsl hf.dA_pos hf.dB_pos
  obtain ⟨ts, tv⟩ := transpose_ok hrs hsl
  refine ⟨_, ?_, ts, ?_⟩
  · unfold dotStep
    have : f.shape.drop 1 = [f.dA, f.dB] := rfl
    simp only [this, hr, Option.bind_eq_bind, Option.bind_some, hn, if_true]
    rfl
  · intro p0 hi i x j y hp hh hi' hx hj hy
    rw [show (x :: y :: hi) ++ [i, j] = x :: y :: (hi ++ [i, j]) from rfl, tv _ _ _ _ _ _ (inShape_length hh), hrv _ _ _ _ _ _ hp hh hi' hx hj hy]

theorem dotStep_keep {skip : Nat → Bool} {n : Nat} (hn : skip n = false) {f : Frag K} (hf : f.OK) {c : Nd K} {h0 a b : Nat}
    {hs : List Nat} (hc : c.shape = h0 :: (hs ++ [a * f.dA, b * f.dB])) {s : Nat} (hsl : s = hs.length + 1) :
    ∃ r, dotStep skip (c, s) (f, n) = some (r, s) ∧ r.shape = (f.lroots * h0) :: (hs ++ [a, b]) ∧
      ∀ p0 hi i k j, p0 < h0 → InShape hi hs → i < a → k < f.lroots → j < b →
        r.get ((k * h0 + p0) :: (hi ++ [i, j])) = ∑ x ∈ Finset.range f.dA, ∑ y ∈ Finset.range f.dB,
          f.coeff k x y * c.get (p0 :: (hi ++ [i * f.dA + x, j * f.dB + y])) := by
  obtain ⟨r, hr, hrs, hrv⟩ := reshape_split hc hsl hf.dA_pos hf.dB_pos
  obtain ⟨v, hv, hvs, hvv⟩ := Frag.reshape_ok hf
  have td : ∃ q, tensordot23 s v r = some q ∧ q.shape = f.lroots :: h0 :: (hs ++ [a, b]) ∧
      ∀ p0 hi i k j, hi.length = hs.length → q.get (k :: p0 :: (hi ++ [i, j])) =
        ∑ x ∈ Finset.range f.dA, ∑ y ∈ Finset.range f.dB, v.get [k, x, y] * r.get (p0 :: (hi ++ [i, x, j, y])) := by
    unfold tensordot23
    rw [if_pos]
    · refine ⟨_, rfl, ?_, ?_⟩
      · subst hsl
        simp only [hvs, hrs]
        simp only [List.take_succ_cons, List.drop_succ_cons, List.take_append, List.drop_append, List.getD_cons_zero,
          List.take_of_length_le (show hs.length ≤ hs.length + 1 by omega), List.take_of_length_le (show hs.length ≤ hs.length by omega),
          List.drop_of_length_le (show hs.length ≤ hs.length + 1 by omega), List.drop_of_length_le (show hs.length ≤ hs.length + 3 by omega)]
        simp [List.drop_of_length_le (show hs.length ≤ hs.length + 2 by omega),
          List.drop_of_length_le (show hs.length ≤ hs.length + 4 by omega)]
      · intro p0 hi i k j hl
        simp only [hvs]
        apply Finset.sum_congr rfl
        intro x _
        apply Finset.sum_congr rfl
        intro y _
        congr 2
        subst hsl
        simp [← hl, List.take_append, List.drop_append, List.drop_of_length_le (show hi.length ≤ hi.length + 2 by omega),
          List.drop_of_length_le (show hi.length ≤ hi.length + 1 by omega),
          List.take_of_length_le (show hi.length ≤ hi.length + 1 by omega)]
    · subst hsl
      rw [hvs, hrs]
      simp [List.getD_eq_getElem?_getD]
  obtain ⟨q, hq, hqs, hqv⟩ := td
  obtain ⟨z, hz⟩ := Nd.reshape_some q (q.shape.getD 0 0 * q.shape.getD 1 0 :: q.shape.drop 2)
    (by rw [hqs]; simp; ring)
  refine ⟨z, ?_, ?_, ?_⟩
  · unfold dotStep
    have : f.shape.drop 1 = [f.dA, f.dB] := rfl
    simp only [this, hr, Option.bind_eq_bind, Option.bind_some, hn, hv, hq, hz, Bool.false_eq_true, if_false]
    rfl
  · rw [(Nd.reshape_flat hz).1, hqs]; simp
  · intro p0 hi i k j hp hh hi' hk hj
    rw [get_posC hz (s := k :: p0 :: (hi ++ [i, j]))]
    · rw [hqv _ _ _ _ _ (inShape_length hh)]
      apply Finset.sum_congr rfl
      intro x hx
      apply Finset.sum_congr rfl
      intro y hy
      have hx := Finset.mem_range.1 hx
      have hy := Finset.mem_range.1 hy
      rw [hvv _ _ _ hk hx hy, hrv _ _ _ _ _ _ hp hh hi' hx hj hy]
    · rw [hqs]
      refine List.Forall₂.cons hk (List.Forall₂.cons hp (inShape_append hh ?_))
      exact List.Forall₂.cons hi' (List.Forall₂.cons hj List.Forall₂.nil)
    · rw [hqs]
      simp [posC]
      ring

theorem dot_loop (skip : Nat → Bool) (n : Nat) (fs : List (Frag K)) (hok : ∀ f ∈ fs, f.OK) {c : Nd K} {h0 : Nat} {hs : List Nat}
    (hc : c.shape = h0 :: (hs ++ [(fs.map Frag.dA).prod, (fs.map Frag.dB).prod])) {s : Nat} (hsl : s = hs.length + 1) :
    ∃ r, (fs.zipIdx n).foldlM (dotStep skip) (c, s) = some (r, (skShape skip n fs ++ hs).length + 1) ∧
      r.shape = ((keptL skip n fs).prod * h0) :: ((skShape skip n fs ++ hs) ++ [1, 1]) ∧
      ∀ (t u w : Nat → Nat) p0 hi, p0 < h0 → InShape hi hs → InShape (keptT skip t n fs) (keptL skip n fs) →
        (∀ i (h : i < fs.length), skip (n + i) → u (n + i) < fs[i].dA ∧ w (n + i) < fs[i].dB) →
        r.get ((posF (keptL skip n fs) (keptT skip t n fs) * h0 + p0) :: ((skCoord skip u w n fs ++ hi) ++ [0, 0])) =
          skVal skip t u w n fs (fun i j => c.get (p0 :: (hi ++ [i, j]))) := by
  induction fs generalizing n c h0 hs s with
  | nil =>
    refine ⟨c, ?_, ?_, ?_⟩
    · simp [skShape, hsl]
    · rw [hc]; simp [keptL, skShape]
    · intro t u w p0 hi hp hh _ _
      simp [keptL, keptT, skVal, posF, skCoord]
  | cons f fs ih =>
    have hf := hok f (by simp)
    have hok' : ∀ g ∈ fs, g.OK := fun g hg => hok g (by simp [hg])
    rw [List.map_cons, List.prod_cons, List.map_cons, List.prod_cons, Nat.mul_comm f.dA, Nat.mul_comm f.dB] at hc
    have shift : ∀ {u w : Nat → Nat}, (∀ i (h : i < (f :: fs).length), skip (n + i) → u (n + i) < (f :: fs)[i].dA ∧ w (n + i) < (f :: fs)[i].dB) →
        ∀ i (h : i < fs.length), skip (n + 1 + i) → u (n + 1 + i) < fs[i].dA ∧ w (n + 1 + i) < fs[i].dB := by
      intro u w hu i hi hs
      have := hu (i + 1) (by simpa using hi)
      rw [show n + 1 + i = n + (i + 1) by omega] at hs ⊢
      simpa using this hs
    by_cases hn : skip n
    · obtain ⟨r, hr, hrs, hrv⟩ := dotStep_skip hn hf hc hsl
      obtain ⟨q, hq, hqs, hqv⟩ := ih (n + 1) hok' hrs (s := s + 2) (by simp [hsl])
      have e : skShape skip n (f :: fs) ++ hs = skShape skip (n + 1) fs ++ (f.dA :: f.dB :: hs) := by simp [skShape, hn]
      have e2 : keptL skip n (f :: fs) = keptL skip (n + 1) fs := by simp [keptL, hn]
      refine ⟨q, ?_, ?_, ?_⟩
      · rw [List.zipIdx_cons, List.foldlM_cons, hr, Option.bind_eq_bind, Option.bind_some, hq, e]
      · rw [e, e2, hqs]
      · intro t u w p0 hi hp hh ht hu
        have e3 : keptT skip t n (f :: fs) = keptT skip t (n + 1) fs := by simp [keptT, hn]
        have e4 : skCoord skip u w n (f :: fs) ++ hi = skCoord skip u w (n + 1) fs ++ (u n :: w n :: hi) := by simp [skCoord, hn]
        rw [e2, e3] at ht ⊢
        have h0' := hu 0 (by simp) (by simpa using hn)
        simp only [Nat.add_zero, List.getElem_cons_zero] at h0'
        rw [e4, hqv t u w p0 _ hp (List.Forall₂.cons h0'.1 (List.Forall₂.cons h0'.2 hh)) ht (shift hu), skVal]
        apply skVal_congr _ _ _ _ _ _ hok' (shift hu)
        intro i j hi hj
        rw [hrv _ _ _ _ _ _ hp hh hi h0'.1 hj h0'.2]
        simp [stepVal, hn]
    · have hn' : skip n = false := by simpa using hn
      obtain ⟨r, hr, hrs, hrv⟩ := dotStep_keep hn' hf hc hsl
      obtain ⟨q, hq, hqs, hqv⟩ := ih (n + 1) hok' hrs hsl
      have e : skShape skip n (f :: fs) = skShape skip (n + 1) fs := by simp [skShape, hn]
      have e2 : keptL skip n (f :: fs) = f.lroots :: keptL skip (n + 1) fs := by simp [keptL, hn]
      refine ⟨q, ?_, ?_, ?_⟩
      · rw [List.zipIdx_cons, List.foldlM_cons, hr, Option.bind_eq_bind, Option.bind_some, hq, e]
      · rw [e, e2, hqs, List.prod_cons]; congr 1; ring
      · intro t u w p0 hi hp hh ht hu
        have e3 : keptT skip t n (f :: fs) = t n :: keptT skip t (n + 1) fs := by simp [keptT, hn]
        have e4 : skCoord skip u w n (f :: fs) = skCoord skip u w (n + 1) fs := by simp [skCoord, hn]
        rw [e2, e3] at ht
        cases ht with
        | cons h1 h2 =>
        rw [e2, e3, e4, posF, show (t n + f.lroots * posF (keptL skip (n + 1) fs) (keptT skip t (n + 1) fs)) * h0 + p0 =
          posF (keptL skip (n + 1) fs) (keptT skip t (n + 1) fs) * (f.lroots * h0) + (t n * h0 + p0) by ring,
          hqv t u w _ hi (lt_mul h1 hp) hh h2 (shift hu), skVal]
        apply skVal_congr _ _ _ _ _ _ hok' (shift hu)
        intro i j hi hj
        rw [hrv _ _ _ _ _ hp hh hi h1 hj]
        simp [stepVal, hn]

/-! ### From positions to strings -/

theorem dims_eq (fs : List (Frag K)) :
    List.zipWith Nat.choose (fs.map Frag.norb) (fs.map Frag.na) = fs.map Frag.dA ∧
    List.zipWith Nat.choose (fs.map Frag.norb) (fs.map Frag.nb) = fs.map Frag.dB := by
  constructor <;> (rw [List.zipWith_map, List.zipWith_self]; rfl)

theorem le_A {fs : List (Frag K)} (hok : ∀ f ∈ fs, f.OK) : List.Forall₂ (· ≤ ·) (fs.map Frag.na) (fs.map Frag.norb) := by
  rw [List.forall₂_map_left_iff, List.forall₂_map_right_iff, List.forall₂_same]
  exact fun f hf => (hok f hf).1

theorem le_B {fs : List (Frag K)} (hok : ∀ f ∈ fs, f.OK) : List.Forall₂ (· ≤ ·) (fs.map Frag.nb) (fs.map Frag.norb) := by
  rw [List.forall₂_map_left_iff, List.forall₂_map_right_iff, List.forall₂_same]
  exact fun f hf => (hok f hf).2.1

/-- A sum over the positions of the product strings is a sum over the product strings. -/
theorem sum_prodStrs {ns ks : List Nat} (hl : ks.length = ns.length) (g : Nat → Nat → K) :
    ∑ i ∈ Finset.range (List.zipWith Nat.choose ns ks).prod, g i (((prodStrs ns ks).map (addrOf ns.sum)).getD i 0) =
      ∑ D ∈ (prodStrs ns ks).toFinset, g (posF (List.zipWith Nat.choose ns ks) (partAddrs ns D)) (addrOf ns.sum D) := by
  have hnd : (prodStrs ns ks).Nodup := (prodStrs_sorted ns ks).imp (fun h => Nat.ne_of_lt h)
  rw [← prodStrs_length ns ks hl]
  have := sum_positions hnd (fun D => g ((prodStrs ns ks).idxOf D) (addrOf ns.sum D))
  rw [show (∑ D ∈ (prodStrs ns ks).toFinset, g (posF (List.zipWith Nat.choose ns ks) (partAddrs ns D)) (addrOf ns.sum D)) =
    ∑ D ∈ (prodStrs ns ks).toFinset, g ((prodStrs ns ks).idxOf D) (addrOf ns.sum D) from
      Finset.sum_congr rfl (fun D hD => by rw [(idxOf_prodStrs hl (List.mem_toFinset.1 hD)).2]), ← this]
  apply Finset.sum_congr rfl
  intro i hi
  have hi := Finset.mem_range.1 hi
  rw [List.getD_eq_getElem _ _ (by simpa using hi), List.getElem_map, List.getD_eq_getElem _ _ hi]
  rw [List.Nodup.idxOf_getElem hnd i hi]

/-- A sum over addresses is a sum over strings. -/
theorem sum_strs (N k : Nat) (g : Nat → K) :
    ∑ x ∈ Finset.range (N.choose k), g x = ∑ D ∈ (strs N k).toFinset, g (addrOf N D) := by
  rw [← sum_positions (strs_nodup N k), strs_length]
  apply Finset.sum_congr rfl
  intro x hx
  have hx : x < (strs N k).length := by rw [strs_length]; exact Finset.mem_range.1 hx
  rw [List.getD_eq_getElem _ _ hx, ← idxOf_strs (List.getElem_mem hx), List.Nodup.idxOf_getElem (strs_nodup N k) x hx]

theorem addrOf_inj {N k D E : Nat} (hD : D ∈ strs N k) (hE : E ∈ strs N k) (h : addrOf N D = addrOf N E) : D = E := by
  rw [← idxOf_strs hD, ← idxOf_strs hE] at h
  exact (List.idxOf_inj hD).1 h

theorem prodStrs_sub {ns ks : List Nat} (hl : ks.length = ns.length) {D : Nat} (h : D ∈ prodStrs ns ks) : D ∈ strs ns.sum ks.sum := by
  obtain ⟨h1, h2⟩ := (mem_prodStrs hl).1 h
  exact mem_strs.2 ⟨h1, by rw [← sum_fragOcc, h2]⟩

theorem mem_addrs {ns ks : List Nat} (hl : ks.length = ns.length) {D : Nat} (hD : D ∈ strs ns.sum ks.sum) :
    addrOf ns.sum D ∈ (prodStrs ns ks).map (addrOf ns.sum) ↔ D ∈ prodStrs ns ks := by
  rw [List.mem_map]
  constructor
  · rintro ⟨E, hE, e⟩
    rwa [← addrOf_inj (prodStrs_sub hl hE) hD e]
  · intro h; exact ⟨D, h, rfl⟩

theorem idxOf_addrs {ns ks : List Nat} (hl : ks.length = ns.length) {D : Nat} (hD : D ∈ prodStrs ns ks) :
    ((prodStrs ns ks).map (addrOf ns.sum)).idxOf (addrOf ns.sum D) =
      posF (List.zipWith Nat.choose ns ks) (partAddrs ns D) := by
  rw [idxOf_map_on (fun a ha b hb h => addrOf_inj (prodStrs_sub hl ha) (prodStrs_sub hl hb) h) hD, (idxOf_prodStrs hl hD).2]

end Verif.Outer
