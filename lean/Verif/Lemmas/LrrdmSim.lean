import Verif.Lemmas.LrrdmFdm
import Verif.Lemmas.HamSim
/-!
# Lemmas: `LRRDM.kernel` follows `LSTDM.kernel`
-/
namespace Verif.Lstdm
open Verif.Spec Verif.Addr Verif.Exc Verif.Signs Verif.Radix Verif.Np Verif.Spec.Tdm Verif.Spec.Lstdm

namespace Kern
variable {K : Type} [Field K] [DecidableEq K] {k : Kern K}

/-- Properties of a row. -/
theorem rows_mix (hC : k.Cols) {rb rk : Nat} (hb : rb < k.cols.length) (hk : rk < k.cols.length) (x : Inter) (hn : x.Normal)
    (hB : InB k.nlas.length x) : ∀ r ∈ expand k.nlas.length x, RowMix k rb rk (fdmOrder r).eraseDups r ∧
      (∀ f, f ∈ fdmOrder r ↔ f ∈ r.inv) ∧ (fdmOrder r).eraseDups.length ≤ 4 := by
  have e4 : ∀ a b c d : Nat, [a, b, c, d].eraseDups.length ≤ 4 := by
    intro a b c d
    have h1 : ∀ l : List Nat, l.eraseDups.length ≤ l.length := by
      intro l
      have := (nodup_eraseDups' l).subperm (l₂ := l) (fun x hx => List.mem_eraseDups.mp hx)
      exact this.length_le
    exact h1 _
  have eN : ∀ l : List Nat, l.Nodup → l.eraseDups = l := by
    intro l hl
    induction l with
    | nil => rfl
    | cons a l ih =>
      rw [List.nodup_cons] at hl
      rw [List.eraseDups_cons, List.filter_eq_self.mpr, ih hl.2]
      intro b hb
      have : b ≠ a := fun h => hl.1 (h ▸ hb)
      simpa using this
  cases x with
  | null =>
    intro r hr
    simp only [expand, List.mem_append, List.mem_map, List.mem_range, Prod.exists] at hr
    rcases hr with ⟨a, ha, rfl⟩ | ⟨a, b, hab, rfl⟩
    · refine ⟨?_, fun f => Iff.rfl, ?_⟩
      · rw [show (fdmOrder (.d1 a)).eraseDups = [a] from eN [a] (by simp)]
        exact rm_d1 hC hb hk a ha
      · rw [show (fdmOrder (.d1 a)).eraseDups = [a] from eN [a] (by simp)]; simp
    · rw [mem_tril] at hab
      have e : (fdmOrder (.d2 a b)).eraseDups = [a, b] := eN [a, b] (by simp; omega)
      refine ⟨?_, fun f => Iff.rfl, ?_⟩
      · rw [e]; exact rm_d2 hC hb hk a b (by omega) (by omega) (by omega)
      · rw [e]; simp
  | c1 i j n =>
    obtain ⟨hij, hn2⟩ := hn
    obtain ⟨hi, hj⟩ := hB
    intro r hr
    simp only [expand, List.mem_cons, List.mem_map, List.mem_filter, List.mem_range] at hr
    rcases hr with rfl | ⟨a, ⟨ha, hab⟩, rfl⟩
    · have e : (fdmOrder (.c1 i j n)).eraseDups = [i, j] := eN [i, j] (by simpa using hij)
      refine ⟨?_, fun f => Iff.rfl, ?_⟩
      · rw [e]; exact rm_c1 hC hb hk i j n hi hj hij
      · rw [e]; simp
    · simp at hab
      have e : (fdmOrder (.c1d1 i j a n)).eraseDups = [i, j, a] := eN [i, j, a] (by simp; omega)
      refine ⟨?_, fun f => Iff.rfl, ?_⟩
      · rw [e]; exact rm_c1d1 hC hb hk i j a n hi hj ha hij (by omega) (by omega)
      · rw [e]; simp
  | s1 i j =>
    have hij : i ≠ j := hn
    obtain ⟨hi, hj⟩ := hB
    intro r hr
    simp only [expand, List.mem_singleton] at hr
    subst hr
    have e : (fdmOrder (.s1 i j)).eraseDups = [i, j] := eN [i, j] (by simpa using hij)
    refine ⟨?_, fun f => Iff.rfl, ?_⟩
    · rw [e]; exact rm_s1 hC hb hk i j hi hj hij
    · rw [e]; simp
  | s1c1 i j l n =>
    obtain ⟨hij, hil, hjl, hn2⟩ := hn
    obtain ⟨hi, hj, hl⟩ := hB
    intro r hr
    simp only [expand, List.mem_singleton] at hr
    subst hr
    have e : (fdmOrder (.s1c1 i j l n)).eraseDups = [i, j, l] := eN [i, j, l] (by simp; omega)
    refine ⟨?_, fun f => Iff.rfl, ?_⟩
    · rw [e]; exact rm_s1c1 hC hb hk i j l n hi hj hl hij hil hjl
    · rw [e]; simp
  | c2 i j l m n =>
    obtain ⟨hij, him, hlj, hlm, hn3, _⟩ := hn
    obtain ⟨hi, hj, hl, hm⟩ := hB
    intro r hr
    simp only [expand, List.mem_singleton] at hr
    subst hr
    refine ⟨?_, fun f => ?_, e4 i l m j⟩
    · by_cases h1 : i = l
      · subst h1
        by_cases h2 : j = m
        · subst h2
          have e : (fdmOrder (.c2 i j i j n)).eraseDups = [i, j] := by
            simp [fdmOrder, List.eraseDups_cons, Ne.symm hij]
          rw [e]; exact rm_c2_pair hC hb hk i j n hi hj hij
        · have e : (fdmOrder (.c2 i j i m n)).eraseDups = [i, m, j] := by
            simp [fdmOrder, List.eraseDups_cons, Ne.symm hij, Ne.symm him, h2]
          rw [e]; exact rm_c2_coal hC hb hk i j m n hi hj hm hij him h2
      · by_cases h2 : j = m
        · subst h2
          have e : (fdmOrder (.c2 i j l j n)).eraseDups = [i, l, j] := by
            simp [fdmOrder, List.eraseDups_cons, Ne.symm hij, Ne.symm hlj, Ne.symm h1]
          rw [e]; exact rm_c2_split hC hb hk i j l n hi hj hl hij hlj h1
        · have e : (fdmOrder (.c2 i j l m n)).eraseDups = [i, l, m, j] := eN [i, l, m, j] (by simp; omega)
          rw [e]; exact rm_c2_scat hC hb hk i j l m n hi hj hl hm hij hlj h1 him hlm h2
    · simp [fdmOrder, Lstdm.Row.inv]; tauto

omit [DecidableEq K] in
/-- The matrix element of two linear combinations. -/
def Phi (n : Nat) (sb sk : Nat → K) (g : Nat → Nat → K) : K := ∑ b ∈ Finset.range n, ∑ c ∈ Finset.range n, sb b * sk c * g b c

omit [DecidableEq K] in
theorem phi_add (n : Nat) (sb sk : Nat → K) (g h : Nat → Nat → K) : Phi n sb sk (fun b c => g b c + h b c) = Phi n sb sk g + Phi n sb sk h := by
  unfold Phi
  simp only [mul_add, Finset.sum_add_distrib]

omit [DecidableEq K] in
theorem phi_list {α : Type} (n : Nat) (sb sk : Nat → K) (l : List α) (F : α → Nat → Nat → K) :
    Phi n sb sk (fun b c => (l.map (fun a => F a b c)).sum) = (l.map (fun a => Phi n sb sk (F a))).sum := by
  induction l with
  | nil => simp [Phi]
  | cons a l ih =>
    simp only [List.map_cons, List.sum_cons]
    rw [phi_add, ih]

omit [DecidableEq K] in
theorem phi_delta (n : Nat) (sb sk : Nat → K) (B C : Nat) (hB : B < n) (hC : C < n) (w : K) :
    Phi n sb sk (fun b c => if b = B ∧ c = C then w else 0) = sb B * w * sk C := by
  unfold Phi
  dsimp only
  rw [Finset.sum_eq_single_of_mem B (by simpa using hB), Finset.sum_eq_single_of_mem C (by simpa using hC), if_pos ⟨rfl, rfl⟩]
  · ring
  · intro c _ hc
    rw [if_neg (fun h => hc h.2), mul_zero]
  · intro b _ hb
    refine Finset.sum_eq_zero fun c _ => ?_
    rw [if_neg (fun h => hb h.1), mul_zero]

/-- The contribution of one row to the matrix element of two linear combinations. -/
def phiRow (k : Kern K) (u : ExcRow) (imgs : List (Nat × Nat)) (ss : Nat → Int) (sb sk : Nat → K) (x : Ix) (e e' : Nat → Nat) : K :=
  (imgs.map (fun im => k.fdm1 u.2.inv ss sb sk e e' im.1 im.2)).sum *
    co ((k.toLstdm.crunch (k.adr u.1.1 e) (k.adr u.1.2 e') u.2).getD (zero1, zero2)) x

theorem phi_env (h8 : k.nlas.length ≤ 8) (hC : k.Cols) (hS : k.Same) (u : ExcRow) (imgs : List (Nat × Nat))
    (hl : k.lookup (u.1, u.2.inv) = some imgs) (hinv : ∀ f ∈ u.2.inv, f < k.nlas.length)
    (hR : u.1.1 < k.cols.length ∧ u.1.2 < k.cols.length)
    (himg : ∀ im ∈ imgs, (im.1 < k.cols.length ∧ im.2 < k.cols.length) ∧
      ∀ f ∈ u.2.inv, k.uroot f im.1 = k.uroot f u.1.1 ∧ k.uroot f im.2 = k.uroot f u.1.2)
    (ss : Nat → Int)
    (hss : ∀ r < k.cols.length, fermionSpinShuffle ((k.nelec.getD r []).map Prod.fst) ((k.nelec.getD r []).map Prod.snd) = some (ss r))
    (hok : ∀ b c, b < k.nstates → c < k.nstates → k.rootOf b = u.1.1 → k.rootOf c = u.1.2 →
      ∃ d, k.toLstdm.crunch b c u.2 = some d) (acc acc' : Arr K) (hacc : k.crunchEnv acc u = some acc') (sb sk : Nat → K) (x : Ix) :
    Phi k.nstates sb sk (fun b c => co (acc' b c) x) = Phi k.nstates sb sk (fun b c => co (acc b c) x) +
      ∑ i ∈ Finset.range (k.colOf (PySet.listSet u.2.inv) u.1.1).prod, ∑ j ∈ Finset.range (k.colOf (PySet.listSet u.2.inv) u.1.2).prod,
        k.phiRow u imgs ss sb sk x (k.dig (PySet.listSet u.2.inv) u.1.1 i) (k.dig (PySet.listSet u.2.inv) u.1.2 j) := by
  classical
  obtain ⟨hN, hmem⟩ := listSet_mem h8 u.2.inv hinv
  have hIm : ∀ f ∈ PySet.listSet u.2.inv, f < k.nlas.length := fun f hf => hinv f ((hmem f).mp hf)
  have hIS : ∀ f < k.nlas.length, f ∈ k.specOf u.2.inv ↔ f ∉ PySet.listSet u.2.inv := by
    intro f hf; unfold specOf; simp [hf]
  have hspec : ∀ im ∈ imgs, ∃ l, k.specAddrOvlp im.1 im.2 u.2.inv = some l ∧ _ := fun im him =>
    spec_sum h8 hC im.1 im.2 (himg im him).1.1 (himg im him).1.2 u.2.inv _ _ (hss _ (himg im him).1.1) (hss _ (himg im him).1.2)
  choose! l hl1 hl2 using hspec
  have hcache : imgs.mapM (fun im => (k.specAddrOvlp im.1 im.2 u.2.inv).map (fun l => (im, l))) = some (imgs.map (fun im => (im, l im))) := by
    clear hl himg hl2
    induction imgs with
    | nil => rfl
    | cons a t ih =>
      rw [List.mapM_cons, hl1 a (by simp), ih (fun im him => hl1 im (by simp [him]))]
      rfl
  have hA := addrRange_eq hC u.1.1 hR.1 u.2.inv hN hIm
  have hB := addrRange_eq hC u.1.2 hR.2 u.2.inv hN hIm
  have hdl : ∀ r i, i < (k.colOf (PySet.listSet u.2.inv) r).prod → r < k.cols.length →
      ∀ f < k.nlas.length, k.dig (PySet.listSet u.2.inv) r i f < k.lr r f := by
    intro r i hi hr f hf
    by_cases h : f ∈ PySet.listSet u.2.inv
    · exact dig_lt _ r i f hi h
    · rw [dig_out _ r i f h]; exact hC.pos r hr f hf
  have hP : ∀ bc ∈ ((k.addrRange u.1.1 u.2.inv).flatMap (fun b => (k.addrRange u.1.2 u.2.inv).map (fun c => (b, c)))),
      ∃ d, k.toLstdm.crunch bc.1 bc.2 u.2 = some d := by
    intro bc hbc
    rw [hA, hB] at hbc
    simp only [List.mem_flatMap, List.mem_map, List.mem_range] at hbc
    obtain ⟨_, ⟨i, hi, rfl⟩, _, ⟨j, hj, rfl⟩, rfl⟩ := hbc
    exact hok _ _ (adr_lt hC _ hR.1 _ (hdl _ i hi hR.1)) (adr_lt hC _ hR.2 _ (hdl _ j hj hR.2))
      (rootOf_adr hC _ hR.1 _ (hdl _ i hi hR.1)) (rootOf_adr hC _ hR.2 _ (hdl _ j hj hR.2))
  obtain ⟨acc2, h1, h2⟩ := foldlM_co ((k.addrRange u.1.1 u.2.inv).flatMap (fun b => (k.addrRange u.1.2 u.2.inv).map (fun c => (b, c))))
    (fun acc bc => (k.toLstdm.crunch bc.1 bc.2 u.2).map (fun d => k.putImages (imgs.map (fun im => (im, l im))) bc.1 bc.2 d acc))
    (fun bc b' c' x => ((imgs.map (fun im => (im, l im))).map (fun e => (e.2.map (fun y =>
      if b' = y.1 + k.dotEnv bc.1 e.1.1 ∧ c' = y.2.1 + k.dotEnv bc.2 e.1.2 then
        co ((k.toLstdm.crunch bc.1 bc.2 u.2).getD (zero1, zero2)) x * y.2.2 else 0)).sum)).sum)
    (fun bc hbc acc => by
      obtain ⟨d, hd⟩ := hP bc hbc
      refine ⟨_, by rw [hd]; rfl, fun b c x => ?_⟩
      rw [co_putImages, hd, Option.getD_some]) acc
  have hacc2 : acc' = acc2 := by
    unfold crunchEnv at hacc
    rw [hl] at hacc
    simp only [Option.bind_eq_bind, Option.bind_some, hcache] at hacc
    exact Option.some.inj (hacc.symm.trans h1)
  subst hacc2
  simp only [h2]
  rw [phi_add, phi_list]
  congr 1
  rw [sum_pairs, hA, hB]
  simp only [List.map_map, Function.comp_def]
  rw [sum_range_map]
  simp only [sum_range_map]
  refine Finset.sum_congr rfl fun i hi => Finset.sum_congr rfl fun j hj => ?_
  rw [Finset.mem_range] at hi hj
  rw [phi_list]
  unfold phiRow
  rw [← List.sum_map_mul_right]
  congr 1
  apply List.map_congr_left
  intro im him
  obtain ⟨⟨hX, hY⟩, hu⟩ := himg im him
  have hlr1 : ∀ f ∈ PySet.listSet u.2.inv, k.lr u.1.1 f = k.lr im.1 f := fun f hf =>
    hS.lr f (hIm f hf) _ hR.1 _ hX (hu f ((hmem f).mp hf)).1.symm
  have hlr2 : ∀ f ∈ PySet.listSet u.2.inv, k.lr u.1.2 f = k.lr im.2 f := fun f hf =>
    hS.lr f (hIm f hf) _ hR.2 _ hY (hu f ((hmem f).mp hf)).2.symm
  rw [phi_list, hl2 im him _ (by intro a b; simp [Phi])]
  unfold fdm1
  rw [Finset.sum_mul]
  refine Finset.sum_congr rfl fun x' hx' => ?_
  rw [Finset.sum_mul]
  refine Finset.sum_congr rfl fun y' hy' => ?_
  rw [Finset.mem_range] at hx' hy'
  dsimp only
  rw [adr_mix hC _ _ hIS u.1.1 im.1 hR.1 i x' hi, adr_mix hC _ _ hIS u.1.2 im.2 hR.2 j y' hj]
  have m1 : k.adr im.1 (k.mix (PySet.listSet u.2.inv) (k.specOf u.2.inv) u.1.1 im.1 i x') < k.nstates :=
    adr_lt hC _ hX _ (mixE_lt hC _ _ _ im.1 x' hX hx' (fun f hf => by rw [← hlr1 f hf]; exact dig_lt _ _ i f hi hf))
  have m2 : k.adr im.2 (k.mix (PySet.listSet u.2.inv) (k.specOf u.2.inv) u.1.2 im.2 j y') < k.nstates :=
    adr_lt hC _ hY _ (mixE_lt hC _ _ _ im.2 y' hY hy' (fun f hf => by rw [← hlr2 f hf]; exact dig_lt _ _ j f hj hf))
  rw [phi_delta _ _ _ _ _ m1 m2]
  unfold spw
  change sb (k.adr im.1 (k.mixE _ _ _ _ _)) * _ * sk (k.adr im.2 (k.mixE _ _ _ _ _)) = _
  ring

/-- The transposed element. -/
def txx : Ix → Ix
  | .inl (s, p, q) => .inl (s, q, p)
  | .inr (s, p, q, r, u) => .inr (s, q, p, u, r)

omit [DecidableEq K] in
theorem co_transD (d : D1 K × D2 K) (x : Ix) : co (transD d) x = co d (txx x) := by
  rcases x with ⟨s, p, q⟩ | ⟨s, p, q, r, u⟩ <;> rfl
omit [DecidableEq K] in
theorem co_addD (a b : D1 K × D2 K) (x : Ix) : co (addD a b) x = co a x + co b x := by
  rcases x with ⟨s, p, q⟩ | ⟨s, p, q, r, u⟩ <;> rfl

/-- One call of `_crunch_*_`: the contribution of a row for the vectors of bra and ket. -/
theorem rdmRow_eq (h8 : k.nlas.length ≤ 8) (hC : k.Cols) (hS : k.Same) (u : ExcRow) (imgs : List (Nat × Nat)) (hne : imgs ≠ [])
    (hl : k.lookup (u.1, u.2.inv) = some imgs) (hinv : ∀ f ∈ u.2.inv, f < k.nlas.length)
    (hR : u.1.1 < k.cols.length ∧ u.1.2 < k.cols.length)
    (himg : ∀ im ∈ imgs, (im.1 < k.cols.length ∧ im.2 < k.cols.length) ∧
      ∀ f ∈ u.2.inv, k.uroot f im.1 = k.uroot f u.1.1 ∧ k.uroot f im.2 = k.uroot f u.1.2)
    (ss : Nat → Int)
    (hss : ∀ r < k.cols.length, fermionSpinShuffle ((k.nelec.getD r []).map Prod.fst) ((k.nelec.getD r []).map Prod.snd) = some (ss r))
    (hok : ∀ b c, b < k.nstates → c < k.nstates → k.rootOf b = u.1.1 → k.rootOf c = u.1.2 →
      ∃ d, k.toLstdm.crunch b c u.2 = some d)
    (hrow : RowMix k u.1.1 u.1.2 (fdmOrder u.2).eraseDups u.2 ∧ (∀ f, f ∈ fdmOrder u.2 ↔ f ∈ u.2.inv) ∧ (fdmOrder u.2).eraseDups.length ≤ 4)
    (sib sik : Nd K) (nsi : Nat) (hsb : sib.shape = [k.nstates, nsi]) (hsk : sik.shape = [k.nstates, nsi]) (h0 : 0 < nsi) :
    ∃ d, k.fdm sib sik u.1.1 u.1.2 (fdmOrder u.2) u.2.inv = some d ∧ ∃ D : Nat → D1 K × D2 K,
      (∀ s < nsi, k.rdmRow u.1.1 u.1.2 (fun t => d.get (s :: t)) u.2 = some (D s)) ∧ ∀ s < nsi, ∀ x, co (D s) x =
      ∑ i ∈ Finset.range (k.colOf (PySet.listSet u.2.inv) u.1.1).prod, ∑ j ∈ Finset.range (k.colOf (PySet.listSet u.2.inv) u.1.2).prod,
        k.phiRow u imgs ss (fun b => sib.get [b, s]) (fun c => sik.get [c, s]) x (k.dig (PySet.listSet u.2.inv) u.1.1 i)
          (k.dig (PySet.listSet u.2.inv) u.1.2 j) := by
  obtain ⟨hmix, hm, hJ4⟩ := hrow
  have hJN := nodup_eraseDups' (fdmOrder u.2)
  obtain ⟨hNI, hmem⟩ := listSet_mem h8 u.2.inv hinv
  obtain ⟨d, d1, d2⟩ := fdm_eq h8 hC hS u.1 u.2.inv (fdmOrder u.2) imgs hne hl hinv hR himg ss hss hm hJ4 hJN sib sik nsi hsb hsk h0
  refine ⟨d, d1, ?_⟩
  have hJm : ∀ f, f ∈ (fdmOrder u.2).eraseDups ↔ f ∈ u.2.inv := fun f => by rw [List.mem_eraseDups, hm]
  generalize (fdmOrder u.2).eraseDups = J at *
  have hJl : ∀ f ∈ J, f < k.nlas.length := fun f hf => hinv f ((hJm f).mp hf)
  have hcr : ∀ q ∈ k.prs J u.1.1 u.1.2, k.toLstdm.crunch (k.qb J u.1.1 q.1) (k.qb J u.1.2 q.2) u.2 =
      some ((k.toLstdm.crunch (k.qb J u.1.1 q.1) (k.qb J u.1.2 q.2) u.2).getD (zero1, zero2)) := by
    intro q hq
    obtain ⟨h1, h2⟩ := mem_prs hq
    obtain ⟨D, hD⟩ := hok _ _ (qb_lt hC hJl hR.1 h1) (qb_lt hC hJl hR.2 h2) (rootOf_qb hC hJl hR.1 h1) (rootOf_qb hC hJl hR.2 h2)
    rw [hD]; rfl
  have hs := fun s (_ : s < nsi) => hmix (fun t => d.get (s :: t)) _ hcr
  haveI : Nonempty (D1 K × D2 K) := ⟨(zero1, zero2)⟩
  choose! D D1 D2 using hs
  refine ⟨D, D1, fun s hs x => ?_⟩
  rw [D2 s hs x]
  have e1 : ∀ q ∈ k.prs J u.1.1 u.1.2, d.get (s :: axesOf J (k.dig J u.1.1 q.1) (k.dig J u.1.2 q.2)) *
      co ((k.toLstdm.crunch (k.qb J u.1.1 q.1) (k.qb J u.1.2 q.2) u.2).getD (zero1, zero2)) x =
      k.phiRow u imgs ss (fun b => sib.get [b, s]) (fun c => sik.get [c, s]) x (k.dig J u.1.1 q.1) (k.dig J u.1.2 q.2) := by
    intro q hq
    obtain ⟨h1, h2⟩ := mem_prs hq
    rw [d2 s hs _ _ (fun f hf => dig_lt _ _ _ f h1 ((hJm f).mpr hf)) (fun f hf => dig_lt _ _ _ f h2 ((hJm f).mpr hf))]
    rfl
  rw [Finset.sum_congr rfl e1]
  unfold prs
  rw [Finset.sum_product]
  dsimp only
  have hJI : ∀ f, f ∈ J ↔ f ∈ PySet.listSet u.2.inv := fun f => by rw [hJm, hmem]
  rw [sum_dig_perm J _ hJN hNI hJI u.1.1 (fun e => ∑ j ∈ Finset.range (k.colOf J u.1.2).prod,
    k.phiRow u imgs ss (fun b => sib.get [b, s]) (fun c => sik.get [c, s]) x e (k.dig J u.1.2 j))]
  refine Finset.sum_congr rfl fun i _ => ?_
  exact sum_dig_perm J _ hJN hNI hJI u.1.2 _

omit [DecidableEq K] in
/-- The loop over the SI roots. -/
theorem mapM_roots (nsi : Nat) (F : Nat → Option (D1 K × D2 K)) (D : Nat → D1 K × D2 K) (h : ∀ s < nsi, F s = some (D s)) :
    (List.range nsi).mapM F = some ((List.range nsi).map D) := by
  have : ∀ l : List Nat, (∀ s ∈ l, s < nsi) → l.mapM F = some (l.map D) := by
    intro l hl
    induction l with
    | nil => rfl
    | cons a t ih =>
      rw [List.mapM_cons, h a (hl a (by simp)), ih (fun s hs => hl s (by simp [hs]))]
      rfl
  exact this _ (fun s hs => by simpa using hs)

/-- The two accumulators. -/
def RSim (k : Kern K) (hermi : Bool) (sib sik : Nd K) (nsi : Nat) (A : Arr K) (M : RArr K) : Prop :=
  ∀ s < nsi, ∀ x, co (M s) x = Phi k.nstates (fun b => sib.get [b, s]) (fun c => sik.get [c, s]) (fun b c => co (A b c) x) +
    if hermi then 0 else Phi k.nstates (fun b => sik.get [b, s]) (fun c => sib.get [c, s]) (fun b c => co (A b c) (txx x))

omit [DecidableEq K] in
theorem rdmPut_eq {sib sik : Nd K} {nsi : Nat} (hsb : sib.shape = [k.nstates, nsi]) (tr : Bool) (acc : RArr K) (u : ExcRow) (d : Nd K)
    (D : Nat → D1 K × D2 K)
    (hd : k.fdm (if tr then sik else sib) (if tr then sib else sik) u.1.1 u.1.2 (fdmOrder u.2) u.2.inv = some d)
    (hD : ∀ s < nsi, k.rdmRow u.1.1 u.1.2 (fun t => d.get (s :: t)) u.2 = some (D s)) :
    ∃ acc', k.rdmPut sib sik tr acc u = some acc' ∧ ∀ s < nsi, ∀ x, co (acc' s) x = co (acc s) x + co (D s) (if tr then txx x else x) := by
  refine ⟨_, by
    unfold rdmPut
    rw [hd]
    simp only [Option.bind_eq_bind, Option.bind_some]
    rw [hsb, show [k.nstates, nsi].getD 1 0 = nsi from rfl, mapM_roots nsi _ D hD]
    rfl, fun s hs x => ?_⟩
  have e : ((List.range nsi).map D).getD s (zero1, zero2) = D s := by
    rw [List.getD_eq_getElem _ _ (by simpa using hs)]; simp
  rw [co_addD, e]
  cases tr
  · rfl
  · rw [if_pos rfl, co_transD]; rfl

/-- All rows. -/
theorem rdmKernel_sim {v : Nat → Nat → Vec K} (hD : Describes k.toLstdm v)
    (h8 : k.nlas.length ≤ 8) (hK : Consistent k) (hH : NoCollision k) (hermi : Bool) (sib sik : Nd K) (nsi : Nat)
    (hsb : sib.shape = [k.nstates, nsi]) (hsk : sik.shape = [k.nstates, nsi]) (h0 : 0 < nsi) (acc : Arr K)
    (hacc : (k.tables.flatMap k.findUniqueExc).foldlM k.crunchEnv (fun _ _ => (zero1, zero2)) = some acc) :
    ∃ M, (k.tables.flatMap k.findUniqueExc).foldlM (k.rdmEnv hermi sib sik) (fun _ => (zero1, zero2)) = some M ∧
      k.RSim hermi sib sik nsi acc M := by
  obtain ⟨cls, hcls, hperm⟩ := tables_all hK
  have hC := cols_of hK
  have hmem : ∀ t ∈ k.tables, ∀ y ∈ t, y.1 ∈ k.scai ∧ y.2 ∈ expand k.nlas.length (cls y.1) := by
    intro t ht y hy
    have := hperm.mem_iff.mp (List.mem_flatten.mpr ⟨t, ht, hy⟩)
    simp only [List.mem_flatMap, List.mem_map] at this
    obtain ⟨p, hp, r, hr, rfl⟩ := this
    exact ⟨hp, hr⟩
  have hkey : ∀ t ∈ k.tables, ∀ t' ∈ k.tables, ∀ u ∈ t, ∀ u' ∈ t', u.1 = u'.1 → u.2.inv = u'.2.inv → t = t' ∧ u = u' := by
    intro t ht t' ht' u hu u' hu' e1 e2
    have h1 := hmem t ht u hu
    have h2 := hmem t' ht' u' hu'
    rw [← e1] at h2
    have e3 := expand_inv_inj _ _ _ _ h1.2 h2.2 (by rw [e2]; intro g; rfl)
    have e4 : u = u' := Prod.ext e1 e3
    subst e4
    exact ⟨tab_unique _ _ _ t t' (by rw [← tables_eq]; exact ht) (by rw [← tables_eq]; exact ht') u hu hu', rfl⟩
  have hsh : ∀ r < k.cols.length, ∃ s, fermionSpinShuffle ((k.nelec.getD r []).map Prod.fst) ((k.nelec.getD r []).map Prod.snd) = some s := by
    intro r hr
    obtain ⟨e, he, _⟩ := spinShuffle_eq hD (k.adr r (fun _ => 0))
    refine ⟨e, ?_⟩
    unfold Lstdm.spinShuffle toLstdm at he
    dsimp only at he
    rwa [rootOf_adr hC r hr _ (fun f hf => hC.pos r hr f hf)] at he
  choose! ss hss using hsh
  refine sim_foldlM (k.RSim hermi sib sik nsi) _ _ _ ?_ _ _ _ ?_ hacc
  · intro u hu A M A' hAM hA
    obtain ⟨t, ht, hu⟩ := List.mem_flatMap.mp hu
    obtain ⟨hut, hrep⟩ := mem_unique t u hu
    obtain ⟨hp, hr⟩ := hmem t ht u hut
    obtain ⟨c1, c2, c3⟩ := hcls _ hp
    have hs := mem_scai u.1 |>.mp hp
    have hR : u.1.1 < k.cols.length ∧ u.1.2 < k.cols.length := ⟨hs.1, hs.2.1⟩
    have hinv := expand_lt _ _ c2 _ hr
    have hl := lookup_eq hkey t ht u hu
    have himg : ∀ im ∈ k.images t u, (im.1 < k.cols.length ∧ im.2 < k.cols.length) ∧
        ∀ f ∈ u.2.inv, k.uroot f im.1 = k.uroot f u.1.1 ∧ k.uroot f im.2 = k.uroot f u.1.2 := by
      intro im him
      unfold images at him
      simp only [List.mem_map, List.mem_filter] at him
      obtain ⟨y, ⟨hy, hyu⟩, rfl⟩ := him
      have hyu : k.fprintLT y = k.fprintLT u := by simpa using hyu
      have hru : k.rep t y = u := by
        rw [← hrep]; unfold rep; rw [hyu]
        rw [(rep_spec t u hut).2.2]; rfl
      obtain ⟨_, w1, w2⟩ := rep_words hH t ht y hy
      rw [hru] at w1 w2
      have hsy := mem_scai y.1 |>.mp (hmem t ht y hy).1
      refine ⟨?_, w2⟩
      change (k.flp u y).1 < _ ∧ (k.flp u y).2 < _
      rcases w1 with e | e <;> rw [e]
      · exact ⟨hsy.1, hsy.2.1⟩
      · exact ⟨hsy.2.1, hsy.1⟩
    have hne : k.images t u ≠ [] := by
      intro h
      unfold images at h
      have := List.map_eq_nil_iff.mp h
      have h3 : u ∈ t.filter (fun y => decide (k.fprintLT y = k.fprintLT u)) := List.mem_filter.mpr ⟨hut, by simp⟩
      have h4 : u ∈ ([] : List ExcRow) := by
        rw [← this]
        refine List.mem_filter.mpr ⟨hut, by simp⟩
      simp at h4
    have hok : ∀ b c, b < k.nstates → c < k.nstates → k.rootOf b = u.1.1 → k.rootOf c = u.1.2 →
        ∃ d, k.toLstdm.crunch b c u.2 = some d := by
      intro b c _ _ hb hc
      obtain ⟨d1, d2, W, hd, _⟩ := row_exact hD h8 b c _ c1 c2 (by rw [hb, hc]; exact c3) u.2 hr
      exact ⟨_, hd⟩
    have hrow := rows_mix hC hR.1 hR.2 _ c1 c2 u.2 hr
    obtain ⟨d, d1, D, d2, d3⟩ := rdmRow_eq h8 hC (same_of hK) u _ hne hl hinv hR himg ss hss hok hrow sib sik nsi hsb hsk h0
    obtain ⟨M1, m1, m2⟩ := rdmPut_eq hsb false M u d D (by simpa using d1) d2
    have P := phi_env h8 hC (same_of hK) u _ hl hinv hR himg ss hss hok A A' hA
    cases hermi with
    | true =>
      refine ⟨M1, by unfold rdmEnv; rw [m1]; rfl, fun s hs x => ?_⟩
      rw [m2 s hs x, hAM s hs x, P]
      simp only [if_true, add_zero, Bool.false_eq_true, if_false]
      rw [d3 s hs x]
    | false =>
      obtain ⟨d', d1', D', d2', d3'⟩ := rdmRow_eq h8 hC (same_of hK) u _ hne hl hinv hR himg ss hss hok hrow sik sib nsi hsk hsb h0
      obtain ⟨M2, m1', m2'⟩ := rdmPut_eq hsb true M1 u d' D' (by simpa using d1') d2'
      refine ⟨M2, by unfold rdmEnv; rw [m1]; exact m1', fun s hs x => ?_⟩
      rw [m2' s hs x, m2 s hs x, hAM s hs x, P, P]
      simp only [if_true, Bool.false_eq_true, if_false]
      rw [d3 s hs x, d3' s hs (txx x)]
      ring
  · intro s _ x
    have : ∀ x, co ((zero1, zero2) : D1 K × D2 K) x = 0 := by intro x; rcases x with ⟨s, p, q⟩ | ⟨s, p, q, r, u⟩ <;> rfl
    simp [this, Phi]

/-- The result of `kernel` for the transformed vectors. -/
theorem rdmKernel_sum {v : Nat → Nat → Vec K} (hD : Describes k.toLstdm v) (h8 : k.nlas.length ≤ 8) (hK : Consistent k) (hH : NoCollision k)
    (hermi : Bool) (sib sik : Nd K) (nsi : Nat) (hsb : sib.shape = [k.nstates, nsi]) (hsk : sik.shape = [k.nstates, nsi]) (h0 : 0 < nsi)
    (hh : hermi = true → ∀ a < k.nstates, ∀ s < nsi, sib.get [a, s] = sik.get [a, s]) :
    ∃ T R, k.kernel = some T ∧ ((k.tables.flatMap k.findUniqueExc).foldlM (k.rdmEnv hermi sib sik) (fun _ => (zero1, zero2))).map (rdmAddT hermi) = some R ∧
      ∀ s < nsi, ∀ x, co (R s) x = Phi k.nstates (fun b => sib.get [b, s]) (fun c => sik.get [c, s]) (fun b c => co (T b c) x) := by
  obtain ⟨acc, h1, _⟩ := kernel_sum hD h8 hK hH
  unfold kernel at h1
  obtain ⟨acc', h1, h2⟩ := Option.map_eq_some_iff.mp h1
  obtain ⟨M, m1, m2⟩ := rdmKernel_sim hD h8 hK hH hermi sib sik nsi hsb hsk h0 acc' h1
  refine ⟨addTranspose acc', rdmAddT hermi M, by unfold kernel; rw [h1]; rfl, by rw [m1]; rfl, fun s hs x => ?_⟩
  have hT : ∀ b c, co (addTranspose acc' b c) x = co (acc' b c) x + co (acc' c b) (txx x) := by
    intro b c
    rcases x with ⟨s, p, q⟩ | ⟨s, p, q, r, u⟩ <;> rfl
  simp only [hT]
  rw [phi_add]
  have hsw : Phi k.nstates (fun b => sib.get [b, s]) (fun c => sik.get [c, s]) (fun b c => co (acc' c b) (txx x)) =
      Phi k.nstates (fun b => sik.get [b, s]) (fun c => sib.get [c, s]) (fun b c => co (acc' b c) (txx x)) := by
    unfold Phi
    rw [Finset.sum_comm]
    refine Finset.sum_congr rfl fun b _ => Finset.sum_congr rfl fun c _ => ?_
    ring
  rw [hsw]
  cases hermi with
  | false => exact m2 s hs x
  | true =>
    unfold rdmAddT
    simp only [if_true]
    rw [co_addD, co_transD, m2 s hs x, m2 s hs (txx x)]
    simp only [if_true, add_zero]
    congr 1
    unfold Phi
    refine Finset.sum_congr rfl fun b hb => Finset.sum_congr rfl fun c hc => ?_
    rw [Finset.mem_range] at hb hc
    dsimp only
    rw [hh rfl b hb s hs, hh rfl c hc s hs]

end Kern
end Verif.Lstdm
