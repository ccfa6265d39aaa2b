import Verif.Lemmas.HsiTerm
import Verif.Lemmas.HsiReach
import Verif.Props.HamS2
/-!
# Lemmas: matrix elements as sums over unique rows and their images
-/
namespace Verif.Lstdm
open Verif.Spec Verif.Spec.Tdm Verif.Spec.Lstdm Verif.Signs Verif.Exc Verif.Addr Verif.Radix Verif.Props

variable {K : Type} [Field K] [DecidableEq K]

/-- What the Hamiltonian and spin squared have in common: the functional and the value of a row. -/
structure Obs (k : Kern K) (H : Ham K) (Λ : D1 K × D2 K → K) (val : Nat → Nat → Lstdm.Row → Option K) : Prop where
  lin : Lin Λ
  tr : ∀ d d' : D1 K × D2 K, (∀ s < 2, ∀ p < k.nlas.sum, ∀ q < k.nlas.sum, d'.1 s p q = d.1 s q p) →
    (∀ st < 4, ∀ p < k.nlas.sum, ∀ q < k.nlas.sum, ∀ r < k.nlas.sum, ∀ u < k.nlas.sum, d'.2 st p q r u = d.2 st q p u r) → Λ d' = Λ d
  row : ∀ b c r, RowHam k.toLstdm H b c r → ∀ d, k.toLstdm.crunch b c r = some d → (val b c r).getD 0 = Λ d

theorem L1_range (N : Nat) (g d d' : D1 K) (h : ∀ s < 2, ∀ p < N, ∀ q < N, d' s p q = d s p q) : L1 N g d' = L1 N g d := by
  unfold L1 S2
  refine Finset.sum_congr rfl fun s hs => Finset.sum_congr rfl fun p hp => Finset.sum_congr rfl fun q hq => ?_
  dsimp only
  rw [h s (by simpa using hs) p (by simpa using hp) q (by simpa using hq)]

theorem L2_range (N : Nat) (g d d' : D2 K) (h : ∀ st < 4, ∀ p < N, ∀ q < N, ∀ r < N, ∀ u < N, d' st p q r u = d st p q r u) :
    L2 N g d' = L2 N g d := by
  unfold L2
  refine Finset.sum_congr rfl fun s hs => S4_congr fun p q r u hp hq hr hu => ?_
  rw [h s (by simpa using hs) p hp q hq r hr u hu]

theorem obsH (k : Kern K) {H : Ham K} (hH : H.Sym) : Obs k H (lamH k.nlas.sum H) (fun b c r => (k.toLstdm.hamRow H b c r).map Prod.fst) where
  lin := lin_lamH _ H
  tr d d' h1 h2 := by
    unfold lamH
    rw [L1_range _ _ (fun s p q => d.1 s q p) d'.1 h1, L2_range _ _ (fun s p q r u => d.2 s q p u r) d'.2 h2, L1_tr _ _ _ hH.one, L2_tr]
    intro s p q r u
    unfold gg GH
    rw [ite_self]
    rw [hH.two p q r u]
  row b c r hr d hd := by
    obtain ⟨o, h1, _⟩ := hr d hd
    rw [h1]; rfl

theorem obsS (k : Kern K) {H : Ham K} : Obs k H (lamS k.nlas.sum) (fun b c r => (k.toLstdm.hamRow H b c r).bind Prod.snd) where
  lin := lin_lamS _
  tr d d' h1 h2 := by
    unfold lamS
    rw [L1_range _ _ (fun s p q => d.1 s q p) d'.1 h1, L2_range _ _ (fun s p q r u => d.2 s q p u r) d'.2 h2,
      L1_tr _ _ _ (fun s p q => by rw [dl_comm]), L2_tr]
    intro s p q r u
    unfold gg
    split
    · unfold Ss; rw [dl_comm p q, dl_comm r u]
    · unfold So; rw [dl_comm p q, dl_comm r u, dl_comm p u, dl_comm q r]; ring
  row b c r hr d hd := by
    obtain ⟨o, h1, h2⟩ := hr d hd
    rw [h1]; exact h2

theorem lam_zero {Λ : D1 K × D2 K → K} (hΛ : Lin Λ) : Λ (fun _ _ _ => 0, fun _ _ _ _ _ => 0) = 0 := by
  have := hΛ (fun _ _ _ => 0, fun _ _ _ _ _ => 0) (fun _ _ _ => 0, fun _ _ _ _ _ => 0) 1
  simp only [zero_mul, add_zero, mul_one] at this
  exact left_eq_add.mp this

theorem lam_sum {Λ : D1 K × D2 K → K} (hΛ : Lin Λ) {α : Type} (l : List α) (w : α → K) (d : α → D1 K × D2 K) (D : D1 K × D2 K)
    (h : ∀ x, co D x = (l.map (fun a => co (d a) x * w a)).sum) : Λ D = (l.map (fun a => Λ (d a) * w a)).sum := by
  have hD : D = (fun s p q => (l.map (fun a => (d a).1 s p q * w a)).sum, fun s p q r u => (l.map (fun a => (d a).2 s p q r u * w a)).sum) := by
    refine Prod.ext ?_ ?_
    · funext s p q; exact h (.inl (s, p, q))
    · funext s p q r u; exact h (.inr (s, p, q, r, u))
  rw [hD]
  clear h hD
  induction l with
  | nil => simpa using lam_zero hΛ
  | cons a l ih =>
    simp only [List.map_cons, List.sum_cons]
    rw [← ih, add_comm (Λ (d a) * w a), ← hΛ]
    simp only [add_comm]

namespace Kern
variable {k : Kern K}

/-- The unique rows with their images. -/
def hprs (k : Kern K) : List (ExcRow × (Nat × Nat)) :=
  k.tables.flatMap (fun tab => (k.findUniqueExc tab).flatMap (fun u => (k.images tab u).map (fun im => (u, im))))

theorem sum_flatMap' {R α : Type} [AddCommMonoid R] (l : List α) (f : α → List R) : (l.flatMap f).sum = (l.map (fun a => (f a).sum)).sum := by
  induction l with
  | nil => rfl
  | cons a l ih => rw [List.flatMap_cons, List.sum_append, ih, List.map_cons, List.sum_cons]

theorem sum_prs {R : Type} [AddCommMonoid R] (G : ExcRow × (Nat × Nat) → R) : (k.hprs.map G).sum =
    (k.tables.map (fun tab => ((k.findUniqueExc tab).map (fun u => ((k.images tab u).map (fun im => G (u, im))).sum)).sum)).sum := by
  unfold hprs
  rw [List.map_flatMap, sum_flatMap']
  refine congrArg List.sum (List.map_congr_left fun tab _ => ?_)
  rw [List.map_flatMap, sum_flatMap']
  refine congrArg List.sum (List.map_congr_left fun u _ => ?_)
  rw [List.map_map]; rfl

theorem self_image (tab : List ExcRow) (u : ExcRow) (hu : u ∈ k.findUniqueExc tab) : u.1 ∈ k.images tab u := by
  unfold images
  rw [List.mem_map]
  exact ⟨u, List.mem_filter.mpr ⟨(mem_unique tab u hu).1, by simp⟩, by simp⟩

/-- Weight of a pair of states. -/
def wgt (k : Kern K) (b c : Nat) (inv : List Nat) : K := (k.toLstdm.ovlpFac b c inv).getD 0

theorem cr_same (hK : Consistent k) (f r r' : Nat) (hf : f < k.nlas.length) (hr : r < k.cols.length) (hr' : r' < k.cols.length)
    (h : k.uroot f r = k.uroot f r') (σ : Bool) : k.cr r f σ = k.cr r' f σ := by
  unfold cr
  rw [hK.same_nelec f hf r hr r' hr' h]

/-- A row applies to its images. -/
theorem img_diff (hK : Consistent k) (hH : NoCollision k) (tab : List ExcRow) (ht : tab ∈ k.tables) (u : ExcRow)
    (hu : u ∈ k.findUniqueExc tab) (im : Nat × Nat) (him : im ∈ k.images tab u) :
    ∃ x : Inter, x.Normal ∧ InB k.nlas.length x ∧ k.Diff im.1 im.2 x ∧ u.2 ∈ expand k.nlas.length x ∧ ∀ f ∈ u.2.inv, f < k.nlas.length := by
  obtain ⟨hs, x, _, hn, hb, hd, he⟩ := row_class hK tab ht u (mem_unique tab u hu).1
  have hinv := expand_lt _ _ hb _ he
  refine ⟨x, hn, hb, ?_, he, hinv⟩
  obtain ⟨a1, a2, a3, a4, _⟩ := images_mem hK hH tab ht u hu im him
  obtain ⟨b1, b2, _, b4, _⟩ := images_mem hK hH tab ht u hu u.1 (self_image tab u hu)
  intro f hf σ
  rw [← hd f hf σ]
  by_cases h : f ∈ u.2.inv
  · obtain ⟨e1, e2⟩ := a3 f h
    rw [cr_same hK f _ _ hf a1 b1 e1, cr_same hK f _ _ hf a2 b2 e2]
  · rw [a4 f hf h, b4 f hf h]; omega

variable {v : Nat → Nat → Vec K} {H : Ham K} {Λ : D1 K × D2 K → K} {val : Nat → Nat → Lstdm.Row → Option K}

theorem elem_eq (b c : Nat) (r : Lstdm.Row) (x : Ix) :
    k.elem b c r x = co ((k.toLstdm.crunch b c r).getD (fun _ _ _ => 0, fun _ _ _ _ _ => 0)) x * k.wgt b c r.inv := by
  unfold elem wgt
  cases h1 : k.toLstdm.crunch b c r with
  | none =>
    have : co ((none : Option (D1 K × D2 K)).getD (fun _ _ _ => 0, fun _ _ _ _ _ => 0)) x = 0 := by
      rcases x with ⟨s, p, q⟩ | ⟨s, p, q, r, u⟩ <;> rfl
    rw [this]; simp
  | some d =>
    cases h2 : k.toLstdm.ovlpFac b c r.inv with
    | none => simp
    | some w => rfl

section
variable (hO : Obs k H Λ val) (hD : Describes k.toLstdm v) (hHs : H.Sym) (h2 : (2 : K) ≠ 0)
    (h8 : k.nlas.length ≤ 8) (hK : Consistent k) (hH : NoCollision k)

include hO hD hHs h2 hK hH h8 in
/-- The value of a row for the states of an image. -/
theorem img_val (tab : List ExcRow) (ht : tab ∈ k.tables) (u : ExcRow) (hu : u ∈ k.findUniqueExc tab) (im : Nat × Nat) (him : im ∈ k.images tab u)
    (b c : Nat) (hb : k.rootOf b = im.1) (hc : k.rootOf c = im.2) :
    ∃ d, k.toLstdm.crunch b c u.2 = some d ∧ (val b c u.2).getD 0 = Λ d ∧ ∃ o, k.toLstdm.hamRow H b c u.2 = some (lamH k.nlas.sum H d, o) := by
  obtain ⟨x, hn, hbb, hd, he, _⟩ := img_diff hK hH tab ht u hu im him
  have hd' : k.Diff (k.rootOf b) (k.rootOf c) x := by rw [hb, hc]; exact hd
  obtain ⟨d1, d2, W, e1, _⟩ := row_exact hD h8 b c x hn hbb hd' u.2 he
  have hR := rows_ham hD hHs h2 b c x hn hbb (fun f hf σ => by rw [cz_root, cz_root]; exact hd' f hf σ) u.2 he
  obtain ⟨o, ho, _⟩ := hR _ e1
  exact ⟨_, e1, hO.row b c u.2 hR _ e1, o, ho⟩

/-- The matrix element of a row. -/
def gel (k : Kern K) (val : Nat → Nat → Lstdm.Row → Option K) (b c : Nat) (r : Lstdm.Row) : K := (val b c r).getD 0 * k.wgt b c r.inv

include hO hD hHs h2 h8 hK hH in
theorem lam_acc : ∃ acc, k.kernel = some (addTranspose acc) ∧ ∀ b c, b < k.nstates → c < k.nstates → Λ (acc b c) =
    (k.tables.map (fun tab => ((k.findUniqueExc tab).map (fun u => ((k.images tab u).map (fun im =>
      if k.rootOf b = im.1 ∧ k.rootOf c = im.2 then
        tri im.1 im.2 (k.spx u.2.inv b) (k.spx u.2.inv c) * k.gel val b c u.2 else 0)).sum)).sum)).sum := by
  obtain ⟨acc, h1, h3⟩ := kernel_sum hD h8 hK hH
  refine ⟨acc, h1, fun b c hb hc => ?_⟩
  rw [lam_sum hO.lin k.hprs (fun e => if k.rootOf b = e.2.1 ∧ k.rootOf c = e.2.2 then
    tri e.2.1 e.2.2 (k.spx e.1.2.inv b) (k.spx e.1.2.inv c) * k.wgt b c e.1.2.inv else 0)
    (fun e => (k.toLstdm.crunch b c e.1.2).getD (fun _ _ _ => 0, fun _ _ _ _ _ => 0)) (acc b c), sum_prs]
  · refine congrArg List.sum (List.map_congr_left fun tab ht => ?_)
    refine congrArg List.sum (List.map_congr_left fun u hu => ?_)
    refine congrArg List.sum (List.map_congr_left fun im him => ?_)
    dsimp only
    by_cases h : k.rootOf b = im.1 ∧ k.rootOf c = im.2
    · rw [if_pos h, if_pos h]
      obtain ⟨d, e1, e2, _⟩ := img_val hO hD hHs h2 h8 hK hH tab ht u hu im him b c h.1 h.2
      unfold gel
      rw [e1, e2, Option.getD_some]; ring
    · rw [if_neg h, if_neg h, mul_zero]
  · intro x
    rw [h3 b c hb hc x, sum_prs]
    refine congrArg List.sum (List.map_congr_left fun tab ht => ?_)
    rw [← sum_unique_images (k := k) tab (fun u im => if k.rootOf b = im.1 ∧ k.rootOf c = im.2 then
        tri im.1 im.2 (k.spx u.2.inv b) (k.spx u.2.inv c) * k.elem b c u.2 x else 0)]
    refine congrArg List.sum (List.map_congr_left fun u hu => ?_)
    refine congrArg List.sum (List.map_congr_left fun im him => ?_)
    dsimp only
    rw [elem_eq]
    split
    · ring
    · rw [mul_zero]

include hO hD h8 hK hH in
/-- Rows of a fragment set with equal unique rootspaces in bra and ket are symmetric. -/
theorem gel_symm (hHs : H.Sym) (h2 : (2 : K) ≠ 0) (tab : List ExcRow) (ht : tab ∈ k.tables) (u : ExcRow) (hu : u ∈ k.findUniqueExc tab)
    (hAB : ∀ f ∈ u.2.inv, k.uroot f u.1.1 = k.uroot f u.1.2) (im : Nat × Nat) (him : im ∈ k.images tab u) (b c : Nat)
    (hb : k.rootOf b = im.1) (hc : k.rootOf c = im.2) : k.gel val b c u.2 = k.gel val c b u.2 := by
  obtain ⟨x, hn, hbb, hd, he, hinv⟩ := img_diff hK hH tab ht u hu im him
  obtain ⟨a1, a2, a3, a4, _⟩ := images_mem hK hH tab ht u hu im him
  obtain ⟨b1, b2, _⟩ := images_mem hK hH tab ht u hu u.1 (self_image tab u hu)
  have hcr : ∀ f < k.nlas.length, ∀ σ, k.cr im.1 f σ = k.cr im.2 f σ := by
    intro f hf σ
    by_cases h : f ∈ u.2.inv
    · exact cr_same hK f _ _ hf a1 a2 (by rw [(a3 f h).1, (a3 f h).2, hAB f h]) σ
    · exact a4 f hf h σ
  have hd1 : k.Diff (k.rootOf b) (k.rootOf c) x := by rw [hb, hc]; exact hd
  have hd2 : k.Diff (k.rootOf c) (k.rootOf b) x := by
    rw [hb, hc]; intro f hf σ
    rw [← hd f hf σ, hcr f hf σ]
  obtain ⟨d, e1, e2, _⟩ := img_val hO hD hHs h2 h8 hK hH tab ht u hu im him b c hb hc
  have hR := rows_ham hD hHs h2 c b x hn hbb (fun f hf σ => by rw [cz_root, cz_root]; exact hd2 f hf σ) u.2 he
  obtain ⟨p1, p2, W, e3, _⟩ := row_exact hD h8 c b x hn hbb hd2 u.2 he
  have e4 := hO.row c b u.2 hR _ e3
  unfold gel
  rw [e2, e4]
  have hl : ∀ (D : D1 K × D2 K) (w : K), Λ D * w = Λ (fun s p q => D.1 s p q * w, fun s p q r u => D.2 s p q r u * w) := by
    intro D w
    rw [lam_sum hO.lin [()] (fun _ => w) (fun _ => D) (fun s p q => D.1 s p q * w, fun s p q r u => D.2 s p q r u * w)]
    · simp
    · intro x
      rcases x with ⟨s, p, q⟩ | ⟨s, p, q, r, u⟩ <;> simp [co]
  rw [hl, hl]
  refine hO.tr _ _ ?_ ?_
  · intro s hs P hP Q hQ
    obtain ⟨fp, p, hfp, hp, rfl⟩ := frag_of _ P hP
    obtain ⟨fq, q, hfq, hq, rfl⟩ := frag_of _ Q hQ
    obtain ⟨t, rfl⟩ : ∃ t, s = ix t := by
      interval_cases s
      · exact ⟨false, rfl⟩
      · exact ⟨true, rfl⟩
    have hset : SameSet [fp, fq] [fq, fp] := by intro g; simp [or_comm]
    have q1 := (elem1 hD h8 b c x hn hbb hd1 t fp fq p q hfp hfq hp hq [fp, fq] (fun g => Iff.rfl)).1 u.2 he
    have q2 := (elem1 hD h8 c b x hn hbb hd2 t fq fp q p hfq hfp hq hp [fp, fq] hset).1 u.2 he
    rw [elem_eq, e1] at q1
    rw [elem_eq, e3, ← tdm1_tr] at q2
    exact q1.trans q2.symm
  · intro st hst P hP Q hQ R hR U hU
    obtain ⟨fp, p, hfp, hp, rfl⟩ := frag_of _ P hP
    obtain ⟨fq, q, hfq, hq, rfl⟩ := frag_of _ Q hQ
    obtain ⟨fr, r, hfr, hr, rfl⟩ := frag_of _ R hR
    obtain ⟨fu, w, hfu, hw, rfl⟩ := frag_of _ U hU
    obtain ⟨s, t, rfl⟩ : ∃ s t, st = ix2 s t := by
      interval_cases st
      · exact ⟨false, false, rfl⟩
      · exact ⟨false, true, rfl⟩
      · exact ⟨true, false, rfl⟩
      · exact ⟨true, true, rfl⟩
    have hset : SameSet [fp, fq, fr, fu] [fq, fp, fu, fr] := by intro g; simp; tauto
    have q1 := (elem2 hD h8 b c x hn hbb hd1 s t fp fq fr fu p q r w hfp hfq hfr hfu hp hq hr hw [fp, fq, fr, fu] (fun g => Iff.rfl)).1 u.2 he
    have q2 := (elem2 hD h8 c b x hn hbb hd2 s t fq fp fu fr q p w r hfq hfp hfu hfr hq hp hw hr [fp, fq, fr, fu] hset).1 u.2 he
    rw [elem_eq, e1] at q1
    rw [elem_eq, e3, ← tdm2_tr] at q2
    exact q1.trans q2.symm

end
end Kern
end Verif.Lstdm
