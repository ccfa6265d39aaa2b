import Verif.Lemmas.RdmC
import Verif.Lemmas.Np
/-!
# C18, C19: accumulation of density matrices by the C kernels
-/
namespace Verif.Props
open Verif.Spec Verif.Blocks Verif.RdmC

variable {R : Type} [CommRing R]

/-! ### C19 -/

/-- C19, one-body. `orbidx` marks the orbitals of the involved fragments, `nthreads` is the number of threads, and
the loop iterations may happen in any order. With the index arrays the caller prepares, the kernel stays inside its
buffers, fails no assertion, and adds the source element of spin block `rs` and compressed orbitals
`(rank p, rank q)` to destination element `(rs, p, q)` for every pair of marked orbitals, once; all other
destination elements keep their value. Missing from the full statement: destinations of `2^31` elements or more,
for which the `int` address computation overflows. -/
theorem C19_scatter1_partial (order : Nat → List Nat) (horder : ∀ n, (order n).Perm (List.range n))
    (orbidx : List Bool) (nthreads nroots : Nat) (dest src : Buf R) (h0 : orbidx ≠ []) (ht : 0 < nthreads)
    (hdest : dest.size = nroots * 2 * (orbidx.length * orbidx.length))
    (hsrc : nroots * 2 * (orbidx.count true * orbidx.count true) ≤ src.size)
    (hfit : nroots * 2 * (orbidx.length * orbidx.length) < 2 ^ 31)
    (hr : 0 < nroots) :
    ∃ nsrc pdest dblk sblk lblk nblk out,
      orbrange orbidx nthreads = some (nsrc, pdest, dblk, sblk, lblk, nblk) ∧
      putSD1 order dest src nroots orbidx.length nsrc dblk sblk lblk nblk = some out ∧ out.size = dest.size ∧
      ∀ rs p q, rs < nroots * 2 → p < orbidx.length → q < orbidx.length →
        (Selected orbidx p ∧ Selected orbidx q →
          out.val ((rs * orbidx.length + p) * orbidx.length + q) =
            dest.val ((rs * orbidx.length + p) * orbidx.length + q) +
            src.val ((rs * orbidx.count true + rank orbidx p) * orbidx.count true + rank orbidx q)) ∧
        (¬ (Selected orbidx p ∧ Selected orbidx q) →
          out.val ((rs * orbidx.length + p) * orbidx.length + q) =
            dest.val ((rs * orbidx.length + p) * orbidx.length + q)) := by
  obtain ⟨D, S, L, ho, hC⟩ := orbrange_copies orbidx nthreads h0 ht
  have hlenL : L.length = D.length := hC.same.2
  have hlenS : L.length ≤ S.length := by
    have h1 := hC.same.1
    rw [List.length_take] at h1; omega
  have hSget : ∀ i, i < L.length → (S.take L.length).getD i 0 = S.getD i 0 := by
    intro i hi
    simp [List.getD_eq_getElem?_getD, hi]
  have hcard := copies_card hC
  rw [pairMask_length] at hcard
  have hcnt : orbidx.count true ≤ orbidx.length := List.count_le_length
  set nd := orbidx.length with hnd
  set ns := orbidx.count true with hns
  set nidx := L.length with hnidx
  have hss : ns * ns ≤ nd * nd := Nat.mul_le_mul hcnt hcnt
  have hrel : ∀ i, i < nidx → D.getD i 0 + L.getD i 0 ≤ nd * nd ∧ S.getD i 0 + L.getD i 0 ≤ ns * ns := by
    intro i hi
    have := copies_end hC i (by omega)
    rwa [pairMask_length, pairMask_count, hSget i hi] at this
  have hb1 : nroots * 2 * nidx < 2 ^ 31 :=
    Nat.lt_of_le_of_lt (Nat.mul_le_mul_left _ (by omega)) hfit
  have hb2 : nroots * 2 * (ns * ns) < 2 ^ 31 := Nat.lt_of_le_of_lt (Nat.mul_le_mul_left _ hss) hfit
  have hone : ∀ x, x ≤ nroots * 2 * x := by
    intro x
    calc x = 1 * x := (Nat.one_mul x).symm
      _ ≤ nroots * 2 * x := Nat.mul_le_mul_right _ (by omega)
  have hsizes : putSD1_sizes nroots nd ns nidx =
      some (nd * nd, ns * ns, nroots * 2 * nidx, 2 * nidx, nroots * 2 * (ns * ns), nroots * 2 * (nd * nd)) := by
    unfold putSD1_sizes
    have e1 : 2 * nidx ≤ nroots * 2 * nidx := Nat.mul_le_mul_right _ (by omega)
    rw [i32_some (Nat.lt_of_le_of_lt (hone (nd * nd)) hfit), i32_some (Nat.lt_of_le_of_lt (hone (ns * ns)) hb2),
      i32_some hb1, i32_some (show 2 * nidx < 2 ^ 31 by omega)]
    simp only [Option.bind_eq_bind, Option.bind_some]
    rw [i32_some hb2, i32_some hfit]
    rfl
  -- the iterations
  have hmem : ∀ i, i ∈ order (nroots * 2 * nidx) ↔ i < nroots * 2 * nidx := fun i => by
    rw [(horder _).mem_iff, List.mem_range]
  have hrow : ∀ i, i < nroots * 2 * nidx → 0 < nidx ∧ i / nidx < nroots * 2 ∧ i % nidx < nidx := by
    intro i hi
    have h1 : 0 < nidx := by
      rcases Nat.eq_zero_or_pos nidx with h | h
      · rw [h] at hi; omega
      · exact h
    exact ⟨h1, by rw [Nat.div_lt_iff_lt_mul h1]; exact hi, Nat.mod_lt _ h1⟩
  have hblk : ∀ a x N M : Nat, a < M → x < N → a * N + x < M * N := by
    intro a x N M ha hx
    have : (a + 1) * N ≤ M * N := Nat.mul_le_mul_right _ ha
    rw [Nat.add_mul] at this; omega
  have hblk' : ∀ a x N M : Nat, a < M → x ≤ N → a * N + x ≤ M * N := by
    intro a x N M ha hx
    have : (a + 1) * N ≤ M * N := Nat.mul_le_mul_right _ ha
    rw [Nat.add_mul] at this; omega
  obtain ⟨out, e1, e2, e3, e4⟩ := axpys src dest.size
    (putSD1_iter src nroots (nd * nd) (ns * ns) (nroots * 2 * (nd * nd)) (nroots * 2 * (ns * ns)) (2 * nidx) nidx D S L)
    (fun i => i / nidx * (nd * nd) + D.getD (i % nidx) 0) (fun i => i / nidx * (ns * ns) + S.getD (i % nidx) 0)
    (fun i => L.getD (i % nidx) 0) (fun _ => 1) (order (nroots * 2 * nidx))
    ((horder _).nodup_iff.mpr List.nodup_range)
    (by
      intro i hi b hb
      obtain ⟨hp, hrs, hx⟩ := hrow i ((hmem i).mp hi)
      obtain ⟨d1, d2⟩ := decode2 i 2 nidx hp
      have hne := hC.nonempty (i % nidx) (by omega)
      obtain ⟨g1, g2⟩ := hrel _ hx
      have k1 : i / nidx * (ns * ns) + S.getD (i % nidx) 0 < nroots * 2 * (ns * ns) := hblk _ _ _ _ hrs (by omega)
      have k2 : i / nidx * (nd * nd) + D.getD (i % nidx) 0 < nroots * 2 * (nd * nd) := hblk _ _ _ _ hrs (by omega)
      unfold putSD1_iter
      simp only [d1, d2]
      have r1 : i / (2 * nidx) < nroots := by
        have : i / (2 * nidx) = i / nidx / 2 := by rw [Nat.mul_comm, Nat.div_div_eq_div_mul]
        omega
      have r2 : i % (2 * nidx) / nidx < 2 := by
        rw [Nat.mul_comm 2 nidx, Nat.mod_mul_right_div_self]; omega
      rw [cassert_true r1, cassert_true r2, cassert_true hx, getElem?_getD S _ (by omega),
        getElem?_getD D _ (by omega), getElem?_getD L _ (by omega)]
      simp only [Option.bind_eq_bind, Option.bind_some]
      rw [i32_some (Nat.lt_trans k1 hb2), i32_some (Nat.lt_trans k2 hfit)]
      simp only [Option.bind_some]
      rw [cassert_true k1, cassert_true k2]
      rfl)
    (by
      intro i hi
      obtain ⟨hp, hrs, hx⟩ := hrow i ((hmem i).mp hi)
      have := hblk' _ _ _ _ hrs (hrel _ hx).2
      omega)
    (by
      intro i hi
      obtain ⟨hp, hrs, hx⟩ := hrow i ((hmem i).mp hi)
      have := hblk' _ _ _ _ hrs (hrel _ hx).1
      rw [hdest]
      omega)
    (by
      intro i hi j hj x h1 h2 h3 h4
      obtain ⟨hp, hrs, hx⟩ := hrow i ((hmem i).mp hi)
      obtain ⟨-, hrs', hx'⟩ := hrow j ((hmem j).mp hj)
      have g := (hrel _ hx).1
      have g' := (hrel _ hx').1
      obtain ⟨y, rfl⟩ := Nat.exists_eq_add_of_le h1
      obtain ⟨y', hy'⟩ := Nat.exists_eq_add_of_le h3
      have hrr := row_inj (N := nd * nd) (x := D.getD (i % nidx) 0 + y) (y := D.getD (j % nidx) 0 + y')
        (by omega) (by omega) (by omega : i / nidx * (nd * nd) + _ = j / nidx * (nd * nd) + _)
      have hsel := (hC.sound (i % nidx) y (by omega) (by omega)).1
      obtain ⟨m, -, hm⟩ := hC.complete _ hsel
      have q1 := hm (i % nidx) ⟨by omega, by omega, by omega⟩
      have q2 := hm (j % nidx) ⟨by omega, by omega, by omega⟩
      rw [← Nat.div_add_mod' i nidx, ← Nat.div_add_mod' j nidx, hrr.1, q1, q2])
    dest rfl
  refine ⟨_, _, _, _, _, _, out, ho, ?_, e2, ?_⟩
  · unfold putSD1
    rw [hsizes]
    simp only [Option.bind_eq_bind, Option.bind_some]
    exact e1
  · intro rs p q hrs hp hq
    have hpq : p * nd + q < nd * nd := hblk _ _ _ _ hp hq
    have hidx : (rs * nd + p) * nd + q = rs * (nd * nd) + (p * nd + q) := by ring
    rw [hidx]
    constructor
    · intro hsel
      have hs2 := (pairMask_selected orbidx p q hq).mpr hsel
      obtain ⟨m, ⟨hm1, hm2, hm3⟩, -⟩ := hC.complete _ hs2
      have hm' : m < nidx := by omega
      have hi : rs * nidx + m < nroots * 2 * nidx := hblk _ _ _ _ hrs hm'
      have hdiv : (rs * nidx + m) / nidx = rs := by
        rw [Nat.mul_comm, Nat.mul_add_div (by omega), Nat.div_eq_of_lt hm', Nat.add_zero]
      have hmod : (rs * nidx + m) % nidx = m := by
        rw [Nat.mul_comm, Nat.mul_add_mod, Nat.mod_eq_of_lt hm']
      obtain ⟨k, hk⟩ := Nat.exists_eq_add_of_le hm2
      have := e3 _ ((hmem _).mpr hi) k (by simp only [hmod]; omega)
      simp only [hdiv, hmod] at this
      have hrk := (hC.sound m k hm1 (by omega)).2
      have hpr := pairMask_rank orbidx p q hq hsel.1
      rw [← hnd, ← hns] at hpr
      rw [hSget m hm', ← hk, hpr] at hrk
      rw [Nat.add_assoc, ← hk, Nat.add_assoc, hrk, one_mul] at this
      rw [this]
      congr 2
      ring
    · intro hsel
      apply e4
      intro i hi hc
      obtain ⟨hp0, hrs', hx⟩ := hrow i ((hmem i).mp hi)
      have g := (hrel _ hx).1
      obtain ⟨y, hy⟩ := Nat.exists_eq_add_of_le hc.1
      have hrr := row_inj (N := nd * nd) (x := p * nd + q) (y := D.getD (i % nidx) 0 + y)
        hpq (by omega) (by omega : rs * (nd * nd) + _ = i / nidx * (nd * nd) + _)
      have := (hC.sound (i % nidx) y (by omega) (by omega)).1
      rw [← hrr.2, pairMask_selected orbidx p q hq] at this
      exact hsel this

/-- Three orbitals of which the first and last are marked, two threads, one SI root, iterations in reverse order. -/
example : (∀ n, ((fun n => (List.range n).reverse) n).Perm (List.range n)) ∧ [true, false, true] ≠ [] ∧ 0 < 2 ∧
    (⟨18, fun _ => 0⟩ : Buf Int).size = 1 * 2 * ([true, false, true].length * [true, false, true].length) ∧
    1 * 2 * ([true, false, true].length * [true, false, true].length) < 2 ^ 31 :=
  ⟨fun _ => List.reverse_perm _, by decide, by decide, by decide, by decide⟩

/-- C19, two-body. As `C19_scatter1_partial`, for the four-index kernel: destination element `(rs, p, q, r, t)`
receives source element `(rs, rank p, rank q, rank r, rank t)` exactly when all four orbitals are marked. Missing
from the full statement: sizes for which the kernel's `int` products overflow (see
`C19_scatter2_overflow_violated`). -/
theorem C19_scatter2_partial (order : Nat → List Nat) (horder : ∀ n, (order n).Perm (List.range n))
    (orbidx : List Bool) (nthreads nroots : Nat) (dest src : Buf R) (h0 : orbidx ≠ []) (ht : 0 < nthreads)
    (hdest : dest.size = nroots * 4 * (orbidx.length * orbidx.length * (orbidx.length * orbidx.length)))
    (hsrc : nroots * 4 * (orbidx.count true * orbidx.count true * (orbidx.count true * orbidx.count true)) ≤ src.size)
    (hfit : orbidx.length * orbidx.length * (orbidx.length * orbidx.length) < 2 ^ 31)
    (hfit' : nroots * 4 * (orbidx.count true * orbidx.count true * (orbidx.length * orbidx.length)) < 2 ^ 31)
    (hfit'' : nroots * 4 < 2 ^ 31) (hr : 0 < nroots) :
    ∃ nsrc pdest dblk sblk lblk nblk out,
      orbrange orbidx nthreads = some (nsrc, pdest, dblk, sblk, lblk, nblk) ∧
      putSD2 order dest src nroots orbidx.length nsrc pdest dblk sblk lblk nblk = some out ∧ out.size = dest.size ∧
      ∀ rs p q r t, rs < nroots * 4 → p < orbidx.length → q < orbidx.length → r < orbidx.length →
        t < orbidx.length →
        (Selected orbidx p ∧ Selected orbidx q ∧ Selected orbidx r ∧ Selected orbidx t →
          out.val ((((rs * orbidx.length + p) * orbidx.length + q) * orbidx.length + r) * orbidx.length + t) =
            dest.val ((((rs * orbidx.length + p) * orbidx.length + q) * orbidx.length + r) * orbidx.length + t) +
            src.val ((((rs * orbidx.count true + rank orbidx p) * orbidx.count true + rank orbidx q) *
              orbidx.count true + rank orbidx r) * orbidx.count true + rank orbidx t)) ∧
        (¬ (Selected orbidx p ∧ Selected orbidx q ∧ Selected orbidx r ∧ Selected orbidx t) →
          out.val ((((rs * orbidx.length + p) * orbidx.length + q) * orbidx.length + r) * orbidx.length + t) =
            dest.val ((((rs * orbidx.length + p) * orbidx.length + q) * orbidx.length + r) * orbidx.length + t)) := by
  obtain ⟨D, S, L, ho, hC⟩ := orbrange_copies orbidx nthreads h0 ht
  have hlenL : L.length = D.length := hC.same.2
  have hlenS : L.length ≤ S.length := by
    have h1 := hC.same.1
    rw [List.length_take] at h1; omega
  have hSget : ∀ i, i < L.length → (S.take L.length).getD i 0 = S.getD i 0 := by
    intro i hi
    simp [List.getD_eq_getElem?_getD, hi]
  have hcard := copies_card hC
  rw [pairMask_length] at hcard
  have hcnt : orbidx.count true ≤ orbidx.length := List.count_le_length
  have hmpos : 0 < orbidx.length * orbidx.length := by
    have : 0 < orbidx.length := List.length_pos_iff.mpr h0
    exact Nat.mul_pos this this
  have hss : orbidx.count true * orbidx.count true ≤ orbidx.length * orbidx.length := Nat.mul_le_mul hcnt hcnt
  have hml := pairMask_length orbidx
  have hmc := pairMask_count orbidx
  set nd := orbidx.length with hnd
  set ns := orbidx.count true with hns
  set nidx := L.length with hnidx
  obtain ⟨A, hA⟩ : ∃ A, A = nd * nd := ⟨_, rfl⟩
  obtain ⟨B, hB⟩ : ∃ B, B = ns * ns := ⟨_, rfl⟩
  rw [← hA] at hdest hfit hfit' hcard hmpos hss hml
  rw [← hB] at hsrc hfit' hss hmc
  have hrel : ∀ i, i < nidx → D.getD i 0 + L.getD i 0 ≤ A ∧ S.getD i 0 + L.getD i 0 ≤ B := by
    intro i hi
    have := copies_end hC i (by omega)
    rwa [hml, hmc, hSget i hi] at this
  have hblk : ∀ a x N M : Nat, a < M → x < N → a * N + x < M * N := by
    intro a x N M ha hx
    have : (a + 1) * N ≤ M * N := Nat.mul_le_mul_right _ ha
    rw [Nat.add_mul] at this; omega
  have hblk' : ∀ a x N M : Nat, a < M → x ≤ N → a * N + x ≤ M * N := by
    intro a x N M ha hx
    have : (a + 1) * N ≤ M * N := Nat.mul_le_mul_right _ ha
    rw [Nat.add_mul] at this; omega
  have hone : ∀ k x, 0 < k → x ≤ k * x := fun k x hk => Nat.le_mul_of_pos_left x hk
  have hBn : B * nidx ≤ B * A := Nat.mul_le_mul_left _ (by omega)
  have hb1 : nroots * 4 * (B * nidx) < 2 ^ 31 := Nat.lt_of_le_of_lt (Nat.mul_le_mul_left _ hBn) hfit'
  have hsizes : putSD2_sizes nroots nd ns nidx =
      some (A, B, A * A, B * B, nroots * 4 * (B * nidx), 4 * (B * nidx), B * nidx, nroots * 4 * (B * B),
        nroots * 4 * (A * A)) := by
    unfold putSD2_sizes
    have e1 : 4 * (B * nidx) ≤ nroots * 4 * (B * nidx) := Nat.mul_le_mul_right _ (by omega)
    have e2 : A ≤ A * A := hone A A hmpos
    have e3 : B * B ≤ A * A := Nat.mul_le_mul hss hss
    rw [← hA, ← hB, i32_some (show A < 2 ^ 31 by omega), i32_some (show B < 2 ^ 31 by omega)]
    simp only [Option.bind_eq_bind, Option.bind_some]
    rw [i32_some hfit, i32_some (show B * B < 2 ^ 31 by omega), Nat.mul_assoc (nroots * 4) B nidx,
      Nat.mul_assoc 4 B nidx, i32_some hb1, i32_some (show 4 * (B * nidx) < 2 ^ 31 by omega),
      i32_some (show B * nidx < 2 ^ 31 by omega), i32_some hfit'']
    rfl
  -- the pairs
  have hpd : ∀ j, j < B → ∃ x, Selected (pairMask orbidx) x ∧ rank (pairMask orbidx) x = j ∧
      (npWhere (pairMask orbidx))[j]? = some x ∧ (npWhere (pairMask orbidx)).getD j 0 = x := by
    intro j hj
    obtain ⟨x, h1, h2⟩ := exists_rank (pairMask orbidx) j (by omega)
    have h3 := whereFrom_rank (pairMask orbidx) 0 x h1
    rw [h2, Nat.zero_add] at h3
    exact ⟨x, h1, h2, h3, by rw [List.getD_eq_getElem?_getD]; unfold npWhere; rw [h3]; rfl⟩
  set P := npWhere (pairMask orbidx) with hP
  have hmem : ∀ i, i ∈ order (nroots * 4 * (B * nidx)) ↔ i < nroots * 4 * (B * nidx) := fun i => by
    rw [(horder _).mem_iff, List.mem_range]
  have hrow : ∀ i, i < nroots * 4 * (B * nidx) →
      0 < nidx ∧ 0 < B * nidx ∧ i / (B * nidx) < nroots * 4 ∧ i / nidx % B < B ∧ i % nidx < nidx := by
    intro i hi
    have h1 : 0 < B * nidx := by
      rcases Nat.eq_zero_or_pos (B * nidx) with h | h
      · rw [h] at hi; omega
      · exact h
    have h2 : 0 < B := Nat.pos_of_mul_pos_right h1
    have h3 : 0 < nidx := Nat.pos_of_mul_pos_left h1
    exact ⟨h3, h1, by rw [Nat.div_lt_iff_lt_mul h1]; exact hi, Nat.mod_lt _ h2, Nat.mod_lt _ h3⟩
  have hdec : ∀ i, i = i / (B * nidx) * (B * nidx) + (i / nidx % B * nidx + i % nidx) := by
    intro i
    have a1 := Nat.div_add_mod' i (B * nidx)
    have a2 := Nat.div_add_mod' (i % (B * nidx)) nidx
    rw [Nat.mul_comm B nidx, Nat.mod_mul_right_div_self, ← Nat.mul_comm B nidx, Nat.mod_mul_left_mod] at a2
    omega
  obtain ⟨out, e1, e2, e3, e4⟩ := axpys src dest.size
    (putSD2_iter src nroots A B (A * A) (B * B) (nroots * 4 * (A * A)) (nroots * 4 * (B * B)) (4 * (B * nidx))
      (B * nidx) nidx P D S L)
    (fun i => i / (B * nidx) * (A * A) + (P.getD (i / nidx % B) 0 * A + D.getD (i % nidx) 0))
    (fun i => i / (B * nidx) * (B * B) + (i / nidx % B * B + S.getD (i % nidx) 0))
    (fun i => L.getD (i % nidx) 0) (fun _ => 1) (order (nroots * 4 * (B * nidx)))
    ((horder _).nodup_iff.mpr List.nodup_range)
    (by
      intro i hi b hb
      obtain ⟨hn, hp, hrs, hip, hx⟩ := hrow i ((hmem i).mp hi)
      obtain ⟨d1, d2⟩ := decode2 i 4 (B * nidx) hp
      obtain ⟨x, x1, x2, x3, x4⟩ := hpd _ hip
      have hne := hC.nonempty (i % nidx) (by omega)
      have hxA : x < A := by have := selected_lt x1; omega
      obtain ⟨g1, g2⟩ := hrel _ hx
      have k1 : i / (B * nidx) * (B * B) + (i / nidx % B * B + S.getD (i % nidx) 0) < nroots * 4 * (B * B) :=
        hblk _ _ _ _ hrs (hblk _ _ _ _ hip (by omega))
      have k2 : i / (B * nidx) * (A * A) + (x * A + D.getD (i % nidx) 0) < nroots * 4 * (A * A) :=
        hblk _ _ _ _ hrs (hblk _ _ _ _ hxA (by omega))
      have m1 : i % (B * nidx) / nidx = i / nidx % B := by
        rw [Nat.mul_comm B nidx, Nat.mod_mul_right_div_self]
      have m2 : i % (B * nidx) % nidx = i % nidx := Nat.mod_mul_left_mod _ _ _
      unfold putSD2_iter
      simp only [d1, d2, m1, m2]
      have r1 : i / (4 * (B * nidx)) < nroots := by
        have : i / (4 * (B * nidx)) = i / (B * nidx) / 4 := by rw [Nat.mul_comm, Nat.div_div_eq_div_mul]
        omega
      have r2 : i % (4 * (B * nidx)) / (B * nidx) < 4 := by
        rw [Nat.mul_comm 4 _, Nat.mod_mul_right_div_self]; omega
      rw [cassert_true r1, cassert_true r2, cassert_true hip, cassert_true hx, i32_some (Nat.lt_trans hrs hfit''),
        getElem?_getD S _ (by omega), getElem?_getD D _ (by omega), getElem?_getD L _ (by omega), x3, x4]
      simp only [Option.bind_eq_bind, Option.bind_some]
      rw [cassert_true k1, cassert_true k2]
      rfl)
    (by
      intro i hi
      obtain ⟨hn, hp, hrs, hip, hx⟩ := hrow i ((hmem i).mp hi)
      have := hblk' _ _ _ _ hrs (hblk' _ _ _ _ hip (hrel _ hx).2)
      omega)
    (by
      intro i hi
      obtain ⟨hn, hp, hrs, hip, hx⟩ := hrow i ((hmem i).mp hi)
      obtain ⟨x, x1, x2, x3, x4⟩ := hpd _ hip
      have hxA : x < A := by have := selected_lt x1; omega
      have := hblk' _ _ _ _ hrs (hblk' _ _ _ _ hxA (hrel _ hx).1)
      simp only [x4]
      rw [hdest]
      omega)
    (by
      intro i hi j hj z h1 h2 h3 h4
      obtain ⟨hn, hp, hrs, hip, hx⟩ := hrow i ((hmem i).mp hi)
      obtain ⟨-, -, hrs', hip', hx'⟩ := hrow j ((hmem j).mp hj)
      obtain ⟨x, x1, x2, x3, x4⟩ := hpd _ hip
      obtain ⟨x', x1', x2', x3', x4'⟩ := hpd _ hip'
      have hxA : x < A := by have := selected_lt x1; omega
      have hxA' : x' < A := by have := selected_lt x1'; omega
      simp only [x4, x4'] at h1 h2 h3 h4
      have g := (hrel _ hx).1
      have g' := (hrel _ hx').1
      obtain ⟨y, rfl⟩ := Nat.exists_eq_add_of_le h1
      obtain ⟨y', hy'⟩ := Nat.exists_eq_add_of_le h3
      have b1 := hblk x (D.getD (i % nidx) 0 + y) A A hxA (by omega)
      have b2 := hblk x' (D.getD (j % nidx) 0 + y') A A hxA' (by omega)
      have hrr := row_inj b1 b2
        (by omega : i / (B * nidx) * (A * A) + _ = j / (B * nidx) * (A * A) + _)
      have hqq := row_inj (N := A) (by omega) (by omega) hrr.2
      have hsel := (hC.sound (i % nidx) y (by omega) (by omega)).1
      obtain ⟨m, -, hm⟩ := hC.complete _ hsel
      have q1 := hm (i % nidx) ⟨by omega, by omega, by omega⟩
      have q2 := hm (j % nidx) ⟨by omega, by omega, by omega⟩
      have hxx := hqq.1
      subst hxx
      rw [hdec i, hdec j, hrr.1, q1, q2, ← x2, ← x2'])
    dest rfl
  refine ⟨_, _, _, _, _, _, out, ho, ?_, e2, ?_⟩
  · unfold putSD2
    rw [hsizes]
    simp only [Option.bind_eq_bind, Option.bind_some]
    exact e1
  · intro rs p q r t hrs hp hq hr' ht'
    have hpq : p * nd + q < A := by rw [hA]; exact hblk _ _ _ _ hp hq
    have hrt : r * nd + t < A := by rw [hA]; exact hblk _ _ _ _ hr' ht'
    have hidx : (((rs * nd + p) * nd + q) * nd + r) * nd + t =
        rs * (A * A) + ((p * nd + q) * A + (r * nd + t)) := by rw [hA]; ring
    rw [hidx]
    constructor
    · intro hsel
      have hs1 := (pairMask_selected orbidx p q hq).mpr ⟨hsel.1, hsel.2.1⟩
      have hs2 := (pairMask_selected orbidx r t ht').mpr ⟨hsel.2.2.1, hsel.2.2.2⟩
      have hpr1 := pairMask_rank orbidx p q hq hsel.1
      have hpr2 := pairMask_rank orbidx r t ht' hsel.2.2.1
      rw [← hnd] at hs1 hs2
      rw [← hnd, ← hns] at hpr1 hpr2
      obtain ⟨m, ⟨hm1, hm2, hm3⟩, -⟩ := hC.complete _ hs2
      have hm' : m < nidx := by omega
      have hj : rank (pairMask orbidx) (p * nd + q) < B := by rw [← hmc]; exact rank_lt hs1
      obtain ⟨x, x1, x2, x3, x4⟩ := hpd _ hj
      have hxe : x = p * nd + q := by
        have a2 := whereFrom_rank (pairMask orbidx) 0 _ hs1
        rw [hP] at x3
        unfold npWhere at x3
        rw [x3] at a2
        simpa using a2
      set j := rank (pairMask orbidx) (p * nd + q) with hjdef
      have hj1 : j * nidx + m < B * nidx := hblk _ _ _ _ hj hm'
      have hi : rs * (B * nidx) + (j * nidx + m) < nroots * 4 * (B * nidx) := hblk _ _ _ _ hrs hj1
      have hdiv : (rs * (B * nidx) + (j * nidx + m)) / (B * nidx) = rs := by
        rw [Nat.mul_comm, Nat.mul_add_div (by omega), Nat.div_eq_of_lt hj1, Nat.add_zero]
      have hmod : (rs * (B * nidx) + (j * nidx + m)) % nidx = m := by
        rw [show rs * (B * nidx) + (j * nidx + m) = nidx * (rs * B + j) + m by ring, Nat.mul_add_mod,
          Nat.mod_eq_of_lt hm']
      have hmid : (rs * (B * nidx) + (j * nidx + m)) / nidx % B = j := by
        rw [show rs * (B * nidx) + (j * nidx + m) = nidx * (rs * B + j) + m by ring,
          Nat.mul_add_div (by omega), Nat.div_eq_of_lt hm', Nat.add_zero, Nat.mul_comm, Nat.mul_add_mod,
          Nat.mod_eq_of_lt hj]
      obtain ⟨k, hk⟩ := Nat.exists_eq_add_of_le hm2
      have := e3 _ ((hmem _).mpr hi) k (by simp only [hmod]; omega)
      simp only [hdiv, hmod, hmid, x4, hxe] at this
      have hrk := (hC.sound m k hm1 (by omega)).2
      rw [hSget m hm', ← hk, hpr2] at hrk
      rw [Nat.add_assoc, Nat.add_assoc, ← hk, Nat.add_assoc, Nat.add_assoc, hrk, one_mul, hpr1] at this
      rw [this]
      congr 2
      rw [hB]
      ring
    · intro hsel
      apply e4
      intro i hi hc
      obtain ⟨hn, hp0, hrs', hip, hx⟩ := hrow i ((hmem i).mp hi)
      obtain ⟨x, x1, x2, x3, x4⟩ := hpd _ hip
      have hxA : x < A := by have := selected_lt x1; omega
      simp only [x4] at hc
      have g := (hrel _ hx).1
      obtain ⟨y, hy⟩ := Nat.exists_eq_add_of_le hc.1
      have b1 := hblk (p * nd + q) (r * nd + t) A A hpq hrt
      have b2 := hblk x (D.getD (i % nidx) 0 + y) A A hxA (by omega)
      have hrr := row_inj b1 b2 (by omega : rs * (A * A) + _ = i / (B * nidx) * (A * A) + _)
      have hqq := row_inj (N := A) hrt (by omega) hrr.2
      have s2 := (hC.sound (i % nidx) y (by omega) (by omega)).1
      rw [← hqq.2, hnd, pairMask_selected orbidx r t ht'] at s2
      rw [← hqq.1, hnd, pairMask_selected orbidx p q hq] at x1
      exact hsel ⟨x1.1, x1.2, s2.1, s2.2⟩

/-- Three orbitals, two of them marked, one SI root. -/
example : [true, false, true] ≠ [] ∧ 3 * 3 * (3 * 3) < 2 ^ 31 ∧ 1 * 4 * (2 * 2 * (3 * 3)) < 2 ^ 31 ∧
    (⟨4 * 81, fun _ => 0⟩ : Buf Int).size =
      1 * 4 * ([true, false, true].length * [true, false, true].length *
        ([true, false, true].length * [true, false, true].length)) :=
  ⟨by decide, by decide, by decide, by decide⟩

/-- C19 does not hold for every size: for 216 active orbitals the two-body kernel computes `216^4 ≥ 2^31` in `int`
arithmetic before assigning it to a `long`. -/
theorem C19_scatter2_overflow_violated :
    ¬ ∀ (orbidx : List Bool) (dest src : Buf Int), orbidx ≠ [] →
      dest.size = 1 * 4 * (orbidx.length * orbidx.length * (orbidx.length * orbidx.length)) →
      src.size = 1 * 4 * (orbidx.count true * orbidx.count true * (orbidx.count true * orbidx.count true)) →
      ∃ nsrc pdest dblk sblk lblk nblk out,
        orbrange orbidx 1 = some (nsrc, pdest, dblk, sblk, lblk, nblk) ∧
        putSD2 List.range dest src 1 orbidx.length nsrc pdest dblk sblk lblk nblk = some out := by
  intro h
  obtain ⟨nsrc, pdest, dblk, sblk, lblk, nblk, out, ho, hp⟩ :=
    h (List.replicate 216 true) ⟨_, fun _ => 0⟩ ⟨_, fun _ => 0⟩ (by decide) rfl rfl
  unfold putSD2 putSD2_sizes at hp
  rw [List.length_replicate] at hp
  have hns : nsrc = 216 := by
    unfold orbrange at ho
    simp only [List.count_replicate_self, List.length_replicate, if_true] at ho
    rw [Option.map_eq_some_iff] at ho
    obtain ⟨⟨a, b⟩, -, hb⟩ := ho
    simp only [Prod.mk.injEq] at hb
    exact hb.1.symm
  rw [i32_some (show 216 * 216 < 2 ^ 31 by decide), hns, i32_some (show 216 * 216 < 2 ^ 31 by decide)] at hp
  have hov : i32 (216 * 216 * (216 * 216)) = none := by unfold i32; decide
  simp only [Option.bind_eq_bind, Option.bind_some, hov, Option.bind_none] at hp
  exact absurd hp (by simp)

/-! ### C18 -/

theorem slice_succ (n nt it : Nat) :
    (threadSlice n nt (it + 1)).1 = (threadSlice n nt it).1 + (threadSlice n nt it).2 := by
  unfold threadSlice
  simp only [Nat.mul_succ]
  split <;> omega

theorem slice_last (n nt : Nat) (hnt : 0 < nt) : (threadSlice n nt nt).1 = n := by
  unfold threadSlice
  have := Nat.mod_lt n hnt
  simp only []
  rw [Nat.min_eq_left (by omega), Nat.mul_comm]
  exact Nat.div_add_mod n nt

theorem slice_mono (n nt : Nat) {i j : Nat} (h : i ≤ j) : (threadSlice n nt i).1 ≤ (threadSlice n nt j).1 := by
  induction h with
  | refl => exact Nat.le_refl _
  | step _ ih => rw [slice_succ]; omega

theorem slice_find (n nt x k : Nat) (hx : x < (threadSlice n nt k).1) :
    ∃ it, it < k ∧ (threadSlice n nt it).1 ≤ x ∧ x < (threadSlice n nt it).1 + (threadSlice n nt it).2 := by
  induction k with
  | zero => simp [threadSlice] at hx
  | succ k ih =>
    by_cases h : x < (threadSlice n nt k).1
    · obtain ⟨it, h1, h2⟩ := ih h
      exact ⟨it, by omega, h2⟩
    · rw [slice_succ] at hx
      exact ⟨k, by omega, by omega, hx⟩

theorem slice_unique (n nt x i j : Nat)
    (hi : (threadSlice n nt i).1 ≤ x ∧ x < (threadSlice n nt i).1 + (threadSlice n nt i).2)
    (hj : (threadSlice n nt j).1 ≤ x ∧ x < (threadSlice n nt j).1 + (threadSlice n nt j).2) : i = j := by
  rw [← slice_succ] at hi hj
  rcases Nat.lt_trichotomy i j with h | h | h
  · have := slice_mono n nt (show i + 1 ≤ j from h); omega
  · exact h
  · have := slice_mono n nt (show j + 1 ≤ i from h); omega

/-- C18. The slices of the threads in the summation kernel tile `0..n-1`: every element belongs to the slice of
exactly one thread, for any number of threads, more than `n` included, and no slice reaches past the end. -/
theorem C18_slices (n nt : Nat) (hnt : 0 < nt) :
    (∀ x, x < n →
      ∃! it, it < nt ∧ (threadSlice n nt it).1 ≤ x ∧ x < (threadSlice n nt it).1 + (threadSlice n nt it).2) ∧
    ∀ it, it < nt → (threadSlice n nt it).1 + (threadSlice n nt it).2 ≤ n := by
  constructor
  · intro x hx
    obtain ⟨it, h1, h2⟩ := slice_find n nt x nt (by rw [slice_last n nt hnt]; exact hx)
    exact ⟨it, ⟨h1, h2⟩, fun j hj => slice_unique n nt x j it hj.2 h2⟩
  · intro it hit
    have := slice_mono n nt (show it + 1 ≤ nt from hit)
    rwa [slice_last n nt hnt, slice_succ] at this

/-- Seven threads on three elements. -/
example : (List.range 7).map (threadSlice 3 7) = [(0, 1), (1, 1), (2, 1), (3, 0), (3, 0), (3, 0), (3, 0)] := by decide

/-- C18. Whatever the number of threads and whatever the order in which the threads get to run their updates, the
summation kernel adds `fac r * src x` once to element `x` of the destination of SI root `r`, for every root and
element, and stays inside its buffers. -/
theorem C18_sum (n nt nroots : Nat) (hnt : 0 < nt) (order : List (Nat × Nat))
    (horder : order.Nodup ∧ ∀ p : Nat × Nat, p ∈ order ↔ p.1 < nt ∧ p.2 < nroots)
    (dest src : Buf R) (fac : Nat → R) (hdest : dest.size = nroots * n) (hsrc : n ≤ src.size) :
    ∃ out, sumSD order nt dest fac src n = some out ∧ out.size = dest.size ∧
      ∀ r x, r < nroots → x < n → out.val (r * n + x) = dest.val (r * n + x) + fac r * src.val x := by
  obtain ⟨c1, c2⟩ := C18_slices n nt hnt
  have hblk' : ∀ a x N M : Nat, a < M → x ≤ N → a * N + x ≤ M * N := by
    intro a x N M ha hx
    have : (a + 1) * N ≤ M * N := Nat.mul_le_mul_right _ ha
    rw [Nat.add_mul] at this; omega
  obtain ⟨out, e1, e2, e3, -⟩ := axpys src dest.size
    (fun dest (p : Nat × Nat) => axpy (threadSlice n nt p.1).2 (fac p.2) src (threadSlice n nt p.1).1 dest
      ((threadSlice n nt p.1).1 + p.2 * n))
    (fun p => (threadSlice n nt p.1).1 + p.2 * n) (fun p => (threadSlice n nt p.1).1)
    (fun p => (threadSlice n nt p.1).2) (fun p => fac p.2) order horder.1 (fun _ _ _ _ => rfl)
    (by
      intro p hp
      have := c2 p.1 ((horder.2 p).mp hp).1
      omega)
    (by
      intro p hp
      have h1 := c2 p.1 ((horder.2 p).mp hp).1
      have := hblk' p.2 _ n nroots ((horder.2 p).mp hp).2 h1
      rw [hdest]
      omega)
    (by
      rintro ⟨i, r⟩ hp ⟨j, r'⟩ hq x h1 h2 h3 h4
      simp only at h1 h2 h3 h4
      have k1 := c2 i ((horder.2 _).mp hp).1
      have k2 := c2 j ((horder.2 _).mp hq).1
      obtain ⟨y, rfl⟩ := Nat.exists_eq_add_of_le h1
      obtain ⟨y', hy'⟩ := Nat.exists_eq_add_of_le h3
      obtain ⟨q1, q2⟩ := row_inj (N := n) (a := r) (b := r') (x := (threadSlice n nt i).1 + y)
        (y := (threadSlice n nt j).1 + y') (by omega) (by omega) (by omega)
      have := slice_unique n nt ((threadSlice n nt i).1 + y) i j ⟨by omega, by omega⟩ ⟨by omega, by omega⟩
      rw [this, q1])
    dest rfl
  refine ⟨out, e1, e2, ?_⟩
  intro r x hr hx
  obtain ⟨it, ⟨h1, h2, h3⟩, -⟩ := c1 x hx
  obtain ⟨k, rfl⟩ := Nat.exists_eq_add_of_le h2
  have := e3 (it, r) ((horder.2 _).mpr ⟨h1, hr⟩) k (by simp only; omega)
  simp only at this
  rw [show r * n + ((threadSlice n nt it).1 + k) = (threadSlice n nt it).1 + r * n + k by omega]
  exact this

/-- Two threads and two SI roots in an interleaved order. -/
example : ([(1, 0), (0, 1), (0, 0), (1, 1)] : List (Nat × Nat)).Nodup ∧
    ∀ p : Nat × Nat, p ∈ [(1, 0), (0, 1), (0, 0), (1, 1)] ↔ p.1 < 2 ∧ p.2 < 2 := by
  refine ⟨by decide, ?_⟩
  rintro ⟨a, b⟩
  simp only [List.mem_cons, Prod.mk.injEq, List.not_mem_nil, or_false]
  omega

/-- C18. Whatever way the elements are dealt out to the threads and whatever the order in which the threads add
their share, the weight-factor kernel adds, for each SI root, the sum over all elements of the product of the two
SI coefficients and the element's weight. -/
theorem C18_weights (chunks : List (List Nat)) (nelem : Nat) (hchunks : chunks.flatten.Perm (List.range nelem))
    (fac wgt sivec : Nat → R) (nbas : Nat) (bra ket : Nat → Nat) (r : Nat) :
    getwgtfac chunks fac wgt sivec nbas bra ket r = fac r +
      ((List.range nelem).map (fun e => sivec (r * nbas + bra e) * sivec (r * nbas + ket e) * wgt e)).sum := by
  have inner : ∀ (elems : List Nat) (my : Nat → R),
      elems.foldl (fun my e => fun iroot => my iroot + sivec (iroot * nbas + bra e) * sivec (iroot * nbas + ket e) * wgt e)
        my r = my r + (elems.map (fun e => sivec (r * nbas + bra e) * sivec (r * nbas + ket e) * wgt e)).sum := by
    intro elems
    induction elems with
    | nil => intro my; simp
    | cons e es ih => intro my; rw [List.foldl_cons, ih, List.map_cons, List.sum_cons]; ring
  have outer : ∀ (chunks : List (List Nat)) (fac : Nat → R), getwgtfac chunks fac wgt sivec nbas bra ket r = fac r +
      (chunks.flatten.map (fun e => sivec (r * nbas + bra e) * sivec (r * nbas + ket e) * wgt e)).sum := by
    intro chunks
    unfold getwgtfac
    induction chunks with
    | nil => intro fac; simp
    | cons c cs ih =>
      intro fac
      rw [List.foldl_cons, ih, List.flatten_cons, List.map_append, List.sum_append]
      simp only [inner]
      ring
  rw [outer, (hchunks.map _).sum_eq]

/-- Five elements dealt to three threads. -/
example : ([[3, 4], [], [0, 1, 2]] : List (List Nat)).flatten.Perm (List.range 5) := by decide

end Verif.Props
