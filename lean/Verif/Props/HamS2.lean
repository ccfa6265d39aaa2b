import Verif.Lemmas.HamSim
import Verif.Lemmas.S2El
import Verif.Props.LstdmKernel
/-!
# Property C100: Hamiltonian and spin-squared matrices of all model states by the factorized algorithm
-/
namespace Verif.Props
open Verif Verif.Spec Verif.Spec.Tdm Verif.Spec.Lstdm Verif.Lstdm Verif.Spec.Fockspace Verif.Tdm

section
variable {K : Type} [Field K]

theorem L1_tr (N : Nat) (g d : D1 K) (hg : ∀ s p q, g s p q = g s q p) : L1 N g (fun s p q => d s q p) = L1 N g d := by
  unfold L1 S2
  refine Finset.sum_congr rfl fun s _ => ?_
  rw [Finset.sum_comm]
  refine Finset.sum_congr rfl fun q _ => Finset.sum_congr rfl fun p _ => ?_
  rw [hg]

theorem L2_tr (N : Nat) (g d : D2 K) (hg : ∀ s p q r u, g s p q r u = g s q p u r) :
    L2 N g (fun s p q r u => d s q p u r) = L2 N g d := by
  unfold L2 S4
  refine Finset.sum_congr rfl fun s _ => ?_
  rw [Finset.sum_comm]
  refine Finset.sum_congr rfl fun q _ => Finset.sum_congr rfl fun p _ => ?_
  rw [Finset.sum_comm]
  refine Finset.sum_congr rfl fun u _ => Finset.sum_congr rfl fun r _ => ?_
  dsimp only
  rw [hg]

theorem lamH_tr {H : Ham K} (hH : H.Sym) (N : Nat) (acc : Kern.Arr K) (b c : Nat) :
    lamH N H (Kern.addTranspose acc b c) = lamH N H (acc b c) + lamH N H (acc c b) := by
  have h := lin_lamH N H (acc b c) (fun s p q => (acc c b).1 s q p, fun s p q r u => (acc c b).2 s q p u r) 1
  simp only [mul_one] at h
  unfold Kern.addTranspose
  rw [h]
  congr 1
  unfold lamH
  dsimp only
  rw [L1_tr _ _ _ hH.one, L2_tr]
  intro s p q r u
  unfold gg GH
  rw [ite_self]
  rw [hH.two p q r u]

theorem lamS_tr (N : Nat) (acc : Kern.Arr K) (b c : Nat) :
    lamS N (Kern.addTranspose acc b c) = lamS N (acc b c) + lamS N (acc c b) := by
  have h := lin_lamS N (acc b c) (fun s p q => (acc c b).1 s q p, fun s p q r u => (acc c b).2 s q p u r) 1
  simp only [mul_one] at h
  unfold Kern.addTranspose
  rw [h]
  congr 1
  unfold lamS
  dsimp only
  rw [L1_tr _ _ _ (fun s p q => by rw [dl_comm]), L2_tr]
  intro s p q r u
  unfold gg
  split
  · unfold Ss; rw [dl_comm p q, dl_comm r u]
  · unfold So; rw [dl_comm p q, dl_comm r u, dl_comm p u, dl_comm q r]; ring

theorem lamH_el (N : Nat) (H : Ham K) (d : D1 K × D2 K) (φ χ : Vec K)
    (h1 : ∀ s p q, p < N → q < N → d.1 (ix s) p q = tdm1 N φ χ s p q)
    (h2 : ∀ s t p q r u, p < N → q < N → r < N → u < N → d.2 (ix2 s t) p q r u = tdm2 N φ χ s t p q r u) :
    lamH N H d = hamEl N (fun s => H.h1 (ix s)) H.h2 φ χ := by
  rw [hamEl_eq]
  unfold lamH L1 L2
  congr 1
  · rw [Finset.sum_range_succ, Finset.sum_range_one, Fintype.sum_bool, add_comm]
    unfold S2
    refine congrArg₂ (· + ·) ?_ ?_ <;>
      refine Finset.sum_congr rfl fun p hp => Finset.sum_congr rfl fun q hq => ?_
    · rw [← h1 true p q (by simpa using hp) (by simpa using hq)]; rfl
    · rw [← h1 false p q (by simpa using hp) (by simpa using hq)]; rfl
  · have key : ∀ s t, S4 N N N N (fun p q r u => gg (GH H) (GH H) (ix2 s t) p q r u * d.2 (ix2 s t) p q r u) =
        1 / 2 * ∑ p ∈ Finset.range N, ∑ q ∈ Finset.range N, ∑ r ∈ Finset.range N, ∑ u ∈ Finset.range N,
          H.h2 p q r u * tdm2 N φ χ s t p q r u := by
      intro s t
      unfold S4
      simp only [Finset.mul_sum]
      refine Finset.sum_congr rfl fun p hp => Finset.sum_congr rfl fun q hq => Finset.sum_congr rfl fun r hr => Finset.sum_congr rfl fun u hu => ?_
      rw [h2 s t p q r u (by simpa using hp) (by simpa using hq) (by simpa using hr) (by simpa using hu)]
      unfold gg GH
      rw [ite_self]; ring
    have k1 := key false false
    have k2 := key false true
    have k3 := key true false
    have k4 := key true true
    simp only [ix2, ix, if_true, Bool.false_eq_true, if_false, Nat.mul_zero, Nat.mul_one, Nat.add_zero, Nat.zero_add] at k1 k2 k3 k4
    simp only [Finset.sum_range_succ, Finset.sum_range_zero, zero_add, Fintype.sum_bool] at k1 k2 k3 k4 ⊢
    rw [k1, k2, k3, k4]
    ring

theorem lamS_el (N : Nat) (hne : (2 : K) ≠ 0) (d : D1 K × D2 K) (φ χ : Vec K)
    (h1 : ∀ s p q, p < N → q < N → d.1 (ix s) p q = tdm1 N φ χ s p q)
    (h2 : ∀ s t p q r u, p < N → q < N → r < N → u < N → d.2 (ix2 s t) p q r u = tdm2 N φ χ s t p q r u) :
    lamS N d = s2El N φ χ := by
  rw [s2El_eq N hne]
  unfold lamS L1 L2
  have hdd : ∀ (X : Nat → Nat → K), S2 N N (fun p q => 3 / 4 * dl p q * X p q) = 3 / 4 * ∑ p ∈ Finset.range N, X p p := by
    intro X
    unfold S2
    rw [Finset.mul_sum]
    refine Finset.sum_congr rfl fun p hp => ?_
    rw [Finset.sum_eq_single p (fun q _ hq => by simp [dl, Ne.symm hq]) (fun h => absurd hp h)]
    simp [dl]
  have hss : ∀ (X : Nat → Nat → Nat → Nat → K), S4 N N N N (fun p q r u => Ss p q r u * X p q r u) =
      1 / 4 * ∑ p ∈ Finset.range N, ∑ r ∈ Finset.range N, X p p r r := fun X => S4_dd N N (1 / 4) X
  have hxx : ∀ (X : Nat → Nat → Nat → Nat → K), S4 N N N N (fun p q r u => dl p u * dl q r * X p q r u) =
      ∑ p ∈ Finset.range N, ∑ q ∈ Finset.range N, X p q q p := by
    intro X
    unfold S4
    refine Finset.sum_congr rfl fun p hp => Finset.sum_congr rfl fun q hq => ?_
    rw [Finset.sum_eq_single q (fun r _ hr => Finset.sum_eq_zero fun u _ => by simp [dl, Ne.symm hr]) (fun h => absurd hq h),
      Finset.sum_eq_single p (fun u _ hu => by simp [dl, Ne.symm hu]) (fun h => absurd hp h)]
    simp [dl]
  have hso : ∀ (X : Nat → Nat → Nat → Nat → K), S4 N N N N (fun p q r u => So p q r u * X p q r u) =
      -(1 / 4) * (∑ p ∈ Finset.range N, ∑ r ∈ Finset.range N, X p p r r) - 1 / 2 * ∑ p ∈ Finset.range N, ∑ q ∈ Finset.range N, X p q q p := by
    intro X
    have e1 := S4_dd N N (-(1 / 4)) X
    rw [show (∑ p ∈ Finset.range N, ∑ r ∈ Finset.range N, X p p r r) = S2 N N (fun a c => X a a c c) from rfl, ← e1, ← hxx X]
    unfold S4
    simp only [Finset.mul_sum, ← Finset.sum_sub_distrib]
    refine Finset.sum_congr rfl fun p hp => Finset.sum_congr rfl fun q hq => Finset.sum_congr rfl fun r hr => Finset.sum_congr rfl fun u hu => ?_
    unfold So; ring
  have a1 : (∑ p ∈ Finset.range N, d.1 0 p p) = ∑ p ∈ Finset.range N, tdm1 N φ χ false p p :=
    Finset.sum_congr rfl fun p hp => h1 false p p (by simpa using hp) (by simpa using hp)
  have a2 : (∑ p ∈ Finset.range N, d.1 1 p p) = ∑ p ∈ Finset.range N, tdm1 N φ χ true p p :=
    Finset.sum_congr rfl fun p hp => h1 true p p (by simpa using hp) (by simpa using hp)
  have b : ∀ s t, (∑ p ∈ Finset.range N, ∑ r ∈ Finset.range N, d.2 (ix2 s t) p p r r) =
      ∑ p ∈ Finset.range N, ∑ r ∈ Finset.range N, tdm2 N φ χ s t p p r r := fun s t =>
    Finset.sum_congr rfl fun p hp => Finset.sum_congr rfl fun r hr =>
      h2 s t p p r r (by simpa using hp) (by simpa using hp) (by simpa using hr) (by simpa using hr)
  have c : ∀ s t, (∑ p ∈ Finset.range N, ∑ q ∈ Finset.range N, d.2 (ix2 s t) p q q p) =
      ∑ p ∈ Finset.range N, ∑ q ∈ Finset.range N, tdm2 N φ χ s t p q q p := fun s t =>
    Finset.sum_congr rfl fun p hp => Finset.sum_congr rfl fun q hq =>
      h2 s t p q q p (by simpa using hp) (by simpa using hq) (by simpa using hq) (by simpa using hp)
  have b0 := b false false
  have b1 := b false true
  have b2 := b true false
  have b3 := b true true
  have c1 := c false true
  have c2 := c true false
  simp only [ix2, ix, if_true, Bool.false_eq_true, if_false, Nat.mul_zero, Nat.mul_one, Nat.add_zero, Nat.zero_add] at b0 b1 b2 b3 c1 c2
  have s4 : ∀ f : Nat → K, ∑ x ∈ Finset.range 4, f x = f 0 + f 1 + f 2 + f 3 := fun f => by simp [Finset.sum_range_succ]
  have s2 : ∀ f : Nat → K, ∑ x ∈ Finset.range 2, f x = f 0 + f 1 := fun f => by simp [Finset.sum_range_succ]
  rw [s4, s2, gg0, gg1, gg2, gg3, hdd, hdd, hss, hss, hso, hso]
  simp only [Finset.sum_add_distrib, Finset.sum_sub_distrib]
  change _ + (1 / 4 * (∑ p ∈ Finset.range N, ∑ r ∈ Finset.range N, d.2 0 p p r r) + _ + _ +
    1 / 4 * (∑ p ∈ Finset.range N, ∑ r ∈ Finset.range N, d.2 (2 + 1) p p r r)) = _
  rw [a1, a2, b0, b1, b2, b3, c1, c2]
  ring

variable [DecidableEq K]

theorem hamKernel_exact {k : Kern K} {v : Nat → Nat → Vec K} {H : Ham K} (hD : Describes k.toLstdm v) (hHs : H.Sym)
    (h8 : k.nlas.length ≤ 8) (hK : Consistent k) (hH : NoCollision k) (hS : k.Scr v) (h2 : (2 : K) ≠ 0) :
    ∃ M, k.hamKernel H = some M ∧ ∀ b c, b < k.nstates → c < k.nstates →
      M.1 b c = hamEl k.nlas.sum (fun s => H.h1 (ix s)) H.h2 (state k.toLstdm v b) (state k.toLstdm v c) ∧
      M.2 b c = s2El k.nlas.sum (state k.toLstdm v b) (state k.toLstdm v c) := by
  obtain ⟨T, h1, h3⟩ := kernel_exact hD h8 hK hH hS h2
  obtain ⟨acc, hacc, rfl⟩ := Option.map_eq_some_iff.mp h1
  obtain ⟨M, hM, hQ⟩ := Kern.hamKernel_sim hD hHs h2 h8 hK hH acc hacc
  refine ⟨_, by unfold Kern.hamKernel; rw [hM]; rfl, fun b c hb hc => ?_⟩
  dsimp only
  rw [(hQ b c).1, (hQ c b).1, (hQ b c).2, (hQ c b).2, ← lamH_tr hHs, ← lamS_tr]
  obtain ⟨e1, e2⟩ := h3 b c hb hc
  exact ⟨lamH_el _ _ _ _ _ e1 e2, lamS_el _ h2 _ _ _ e1 e2⟩

end

/-- **C100 (partial).** Under the conditions of `C99_kernel_exact_partial` and for integrals with the symmetries of real orbitals, the
function that computes the Hamiltonian and spin-squared matrices without density matrices ends without exception, and the elements of
its results at the addresses of two model states are `⟨bra|H|ket⟩` and `⟨bra|S²|ket⟩` of the two products of fragment vectors.
Missing: as for C99. Spin manifolds, of which the code evaluates one member only, are the subject of C109. -/
theorem C100_ham_s2_exact_partial {K : Type} [Field K] [DecidableEq K] (h2 : (2 : K) ≠ 0) (k : Kern K) (H : Ham K)
    (hone : ∀ s p q, H.h1 s p q = H.h1 s q p) (htwo : ∀ p q r u, H.h2 p q r u = H.h2 q p u r)
    (hswap : ∀ p q r u, H.h2 p q r u = H.h2 r u p q) (w : Nat → Nat → Nat → Vec K)
    (hD : Describes k.toLstdm (fun f st => w f (k.uroot f (k.rootOf st)) (k.envOf f st)))
    (h8 : k.nlas.length ≤ 8) (hK : Consistent k) (hH : NoCollision k) (hS : Screens k w) :
    ∃ M, k.hamKernel H = some M ∧ ∀ r r' e e', r < k.cols.length → r' < k.cols.length →
      (∀ f < k.nlas.length, e f < lroots k r f) → (∀ f < k.nlas.length, e' f < lroots k r' f) →
      M.1 (address k r e) (address k r' e') = hamEl k.nlas.sum (fun s => H.h1 (ix s)) H.h2
        (prodVec k.nlas (fun f => w f (k.uroot f r) (e f))) (prodVec k.nlas (fun f => w f (k.uroot f r') (e' f))) ∧
      M.2 (address k r e) (address k r' e') = s2El k.nlas.sum
        (prodVec k.nlas (fun f => w f (k.uroot f r) (e f))) (prodVec k.nlas (fun f => w f (k.uroot f r') (e' f))) := by
  obtain ⟨M, h1, h3⟩ := hamKernel_exact hD ⟨hone, htwo, hswap⟩ h8 hK hH (Kern.scr_of_screens hK hS) h2
  refine ⟨M, h1, fun r r' e e' hr hr' he he' => ?_⟩
  have hst := Kern.state_adr (w := w) hK
  obtain ⟨l1, s1⟩ := hst r e hr he
  obtain ⟨l2, s2⟩ := hst r' e' hr' he'
  have := h3 _ _ l1 l2
  rw [s1, s2] at this
  exact this

/-- Integrals of a three-orbital example. -/
def exH : Ham ℚ where
  h1 s p q := if p = q then s + 1 else 2
  h2 p q r u := if p = q ∧ r = u then 3 else 1

/-- Non-vacuity: the object of C99, symmetric integrals, and nonzero off-diagonal elements of both operators. -/
example : (∀ s p q, exH.h1 s p q = exH.h1 s q p) ∧ (∀ p q r u, exH.h2 p q r u = exH.h2 q p u r) ∧
    (∀ p q r u, exH.h2 p q r u = exH.h2 r u p q) ∧ Consistent exK ∧ NoCollision exK ∧ Screens exK exW ∧
    Describes exK.toLstdm (fun f st => exW f (exK.uroot f (exK.rootOf st)) (exK.envOf f st)) ∧
    hamEl 3 (fun s => exH.h1 (ix s)) exH.h2 (prodVec [2, 1] (fun f => exW f 1 0)) (prodVec [2, 1] (fun f => exW f 0 0)) ≠ 0 ∧
    s2El 3 (prodVec [2, 1] (fun f => exW f 2 0)) (prodVec [2, 1] (fun f => exW f 0 1)) ≠ 0 := by
  refine ⟨?_, ?_, ?_, exK_consistent, exK_noCollision, exK_screens,
    describes_kernOf _ _ _ _ _ (by decide) (by decide) (by decide) (by decide) ?_, by decide +kernel, by decide +kernel⟩
  · intro s p q; unfold exH; simp only [eq_comm]
  · intro p q r u; unfold exH; dsimp only; simp only [eq_comm]
  · intro p q r u; unfold exH; dsimp only; simp only [and_comm]
  · intro f hf r hr a
    have hf : f < 2 := hf
    have hr : r < 3 := hr
    interval_cases f <;> interval_cases r <;> simp [exW]
    · by_cases ha : a = 0 <;> simp only [ha] <;> exact hasNumbers_det _ _ _ _ _ (by decide) (by decide)
    all_goals exact hasNumbers_det _ _ _ _ _ (by decide) (by decide)

end Verif.Props
