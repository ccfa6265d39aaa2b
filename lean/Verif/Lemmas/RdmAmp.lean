import Verif.Lemmas.RdmSeq4
import Verif.Lemmas.SpinVan
/-!
# Lemmas: transition density matrices between the members of two spin multiplets
-/
namespace Verif.Wigner

theorem Dn.van' {S' S d : ℕ} {F G : ℕ → ℕ → ℝ} (h : Dn S' S F G) (hG : ∀ i j, i + d ≤ j → j ≤ S → G i j = 0) (i j : ℕ)
    (hij : i + d + 1 ≤ j) (hj : j ≤ S) : F i j = 0 :=
  h.swap.van (d := d) (fun a b h1 h2 => by rw [hG b a h1 h2, neg_zero]) i j hij hj

end Verif.Wigner

namespace Verif.RdmSmult
open Verif.Wigner Verif.SpinAmp Verif.Spec.Tdm

variable {N S' S : ℕ} {φ ψ : ℕ → Vec ℝ} {i j i0 j0 p q r u : ℕ} (hφ : Fam N S' φ) (hψ : Fam N S ψ)
include hφ hψ

theorem fam_h_a (x : Ix S' S 1 i j i0 j0) (hp : p < N) :
    amp N φ ψ [] [(false, p)] i0 j0 * scaleH (S' + 1) 0 (S + 1) (S - 2 * j) = amp N φ ψ [] [(false, p)] i j :=
  half_a ((amp_dn hφ hψ ok0 (ok1 hp)).eqv (fun _ _ => rfl) fun i j => by simp [dU, dL])
    (van_up hφ hψ 1 _ _ ok0 (ok1 hp) (by simp [nA, nB])) x

theorem fam_h_b (x : Ix S' S (-1) i j i0 j0) (hp : p < N) :
    amp N φ ψ [] [(true, p)] i0 j0 * scaleH (S' + 1) 1 (S + 1) (S - 2 * j) = amp N φ ψ [] [(true, p)] i j :=
  half_b ((amp_up hφ hψ ok0 (ok1 hp)).eqv (fun _ _ => rfl) fun i j => by simp [dU, dL])
    (van_dn hφ hψ 1 _ _ ok0 (ok1 hp) (by simp [nA, nB])) x

theorem fam_hh_aa (x : Ix S' S 2 i j i0 j0) (hp : p < N) (hq : q < N) :
    amp N φ ψ [] [(false, p), (false, q)] i0 j0 * scaleHh (S' + 1) 0 (S + 1) (S - 2 * j) = amp N φ ψ [] [(false, p), (false, q)] i j :=
  one_aa ((amp_dn hφ hψ ok0 (ok2 hp hq)).eqv (fun _ _ => rfl) fun i j => by simp [dU, dL])
    (van_up hφ hψ 2 _ _ ok0 (ok2 hp hq) (by simp [nA, nB])) x

theorem fam_hh_bb (x : Ix S' S (-2) i j i0 j0) (hp : p < N) (hq : q < N) :
    amp N φ ψ [] [(true, p), (true, q)] i0 j0 * scaleHh (S' + 1) 2 (S + 1) (S - 2 * j) = amp N φ ψ [] [(true, p), (true, q)] i j :=
  one_bb ((amp_up hφ hψ ok0 (ok2 hp hq)).eqv (fun _ _ => rfl) fun i j => by simp [dU, dL])
    (van_dn hφ hψ 2 _ _ ok0 (ok2 hp hq) (by simp [nA, nB])) x

theorem fam_sm (x : Ix S' S 2 i j i0 j0) (hp : p < N) (hq : q < N) :
    amp N φ ψ [(true, p)] [(false, q)] i0 j0 * scaleSm (S' + 1) (S + 1) (S - 2 * j) = amp N φ ψ [(true, p)] [(false, q)] i j :=
  one_sm ((amp_dn hφ hψ (ok1 hp) (ok1 hq)).eqv (fun _ _ => rfl) fun i j => by simp [dU, dL])
    (van_up hφ hψ 2 _ _ (ok1 hp) (ok1 hq) (by simp [nA, nB])) x

theorem fam_hh_ba {dm0 : ℕ → ℕ → ℝ} (x : Ix S' S 0 i j i0 j0) (hp : p < N) (hq : q < N)
    (e : ∀ p q, dm0 p q = amp N φ ψ [] [(true, p), (false, q)] i0 j0) :
    mdownHh dm0 (S' + 1) 1 (S + 1) (S - 2 * j) p q = amp N φ ψ [] [(true, p), (false, q)] i j := by
  have d1 := amp_dn hφ hψ ok0 (ok2 (x := (true, p)) (y := (false, q)) hp hq)
  have d2 := amp_dn hφ hψ ok0 (ok2 (x := (true, q)) (y := (false, p)) hq hp)
  have u1 := amp_up hφ hψ ok0 (ok2 (x := (true, p)) (y := (false, q)) hp hq)
  have u2 := amp_up hφ hψ ok0 (ok2 (x := (true, q)) (y := (false, p)) hq hp)
  refine one_ba (D := amp N φ ψ [] [(false, p), (false, q)]) (T := amp N φ ψ [] [(true, q), (false, p)])
    ((amp_dn hφ hψ ok0 (ok2 hp hq)).eqv (fun _ _ => rfl) fun i j => by simp [dU, dL])
    ((amp_up hφ hψ ok0 (ok2 hp hq)).eqv (fun _ _ => rfl) fun i j => ?_)
    (d1.lin d2 1 1 (fun _ _ => by ring) fun i j => ?_) (u1.lin u2 1 1 (fun _ _ => by ring) fun i j => ?_)
    (van_up hφ hψ 1 _ _ ok0 (ok2 hp hq) (by simp [nA, nB])) (van_dn hφ hψ 1 _ _ ok0 (ok2 hp hq) (by simp [nA, nB])) x (e p q) (e q p)
  · simp [dU, dL, amp_exch φ ψ [] (false, p) (true, q) [] hp hq, sub_eq_add_neg]
  · simp [dU, dL, amp_exch φ ψ [] (false, p) (false, q) [] hp hq]
  · simp [dU, dL, amp_exch φ ψ [] (true, p) (true, q) [] hp hq]

theorem fam_dm_le {dm0 : T2} {a b : ℕ} (x : Ix S' S 0 i j i0 j0) (hle : S' ≤ S) (hp : p < N) (hq : q < N)
    (e1 : dm0 0 a b = amp N φ ψ [(false, p)] [(false, q)] i0 j0) (e2 : dm0 1 a b = amp N φ ψ [(true, p)] [(true, q)] i0 j0) :
    mdownDm1 dm0 (S' + 1) (S + 1) (S - 2 * j) 0 a b = amp N φ ψ [(false, p)] [(false, q)] i j ∧
      mdownDm1 dm0 (S' + 1) (S + 1) (S - 2 * j) 1 a b = amp N φ ψ [(true, p)] [(true, q)] i j := by
  have d1 := amp_dn hφ hψ (ok1 (x := (false, p)) hp) (ok1 (x := (false, q)) hq)
  have d2 := amp_dn hφ hψ (ok1 (x := (true, p)) hp) (ok1 (x := (true, q)) hq)
  have u1 := amp_up hφ hψ (ok1 (x := (false, p)) hp) (ok1 (x := (false, q)) hq)
  have u2 := amp_up hφ hψ (ok1 (x := (true, p)) hp) (ok1 (x := (true, q)) hq)
  refine one_dm (D := amp N φ ψ [(true, p)] [(false, q)])
    ((amp_dn hφ hψ (ok1 hp) (ok1 hq)).eqv (fun _ _ => rfl) fun i j => by simp [dU, dL])
    ((amp_up hφ hψ (ok1 hp) (ok1 hq)).eqv (fun _ _ => rfl) fun i j => by simp [dU, dL])
    (d1.lin d2 1 1 (fun _ _ => by ring) fun i j => by simp [dU, dL]) (u1.lin u2 1 1 (fun _ _ => by ring) fun i j => by simp [dU, dL])
    (van_dn hφ hψ 1 _ _ (ok1 hp) (ok1 hq) (by simp [nA, nB])) (van_dn hφ hψ 1 _ _ (ok1 hp) (ok1 hq) (by simp [nA, nB])) x hle e1 e2

omit hφ hψ in
theorem mdownDm1_symm (dm0 : T2) (a b s : ℤ) : mdownDm1 dm0 a b s = mdownDm1 dm0 b a s := by
  unfold mdownDm1 scaleDm
  rw [abs_sub_comm, max_comm]
  rcases lt_trichotomy a b with h | h | h
  · rw [if_neg (by omega : ¬ a > b), if_pos (by omega : b > a)]
  · subst h; rfl
  · rw [if_pos (by omega : a > b), if_neg (by omega : ¬ b > a)]

omit hφ hψ in
theorem mdownDm2_symm (dm0 : T4) (a b s : ℤ) : mdownDm2 dm0 a b s = mdownDm2 dm0 b a s := by
  unfold mdownDm2 scaleDm
  rw [abs_sub_comm, max_comm]
  rcases lt_trichotomy a b with h | h | h
  · rw [if_neg (by omega : ¬ a > b), if_pos (by omega : b > a)]
  · subst h; rfl
  · rw [if_pos (by omega : a > b), if_neg (by omega : ¬ b > a)]

theorem fam_dm {dm0 : T2} (x : Ix S' S 0 i j i0 j0) (hp : p < N) (hq : q < N)
    (e1 : dm0 0 p q = amp N φ ψ [(false, p)] [(false, q)] i0 j0) (e2 : dm0 1 p q = amp N φ ψ [(true, p)] [(true, q)] i0 j0) :
    mdownDm1 dm0 (S' + 1) (S + 1) (S - 2 * j) 0 p q = amp N φ ψ [(false, p)] [(false, q)] i j ∧
      mdownDm1 dm0 (S' + 1) (S + 1) (S - 2 * j) 1 p q = amp N φ ψ [(true, p)] [(true, q)] i j := by
  rcases le_total S' S with h | h
  · exact fam_dm_le hφ hψ x h hp hq e1 e2
  · rw [mdownDm1_symm, show (S : ℤ) - 2 * j = S' - 2 * i by have := x.hij; omega, amp_comm, amp_comm N φ ψ [(true, p)]]
    rw [amp_comm] at e1 e2
    have x' := x.swap
    rw [neg_zero] at x'
    exact fam_dm_le hψ hφ x' h hq hp e1 e2

theorem fam_phh_a {dm0 : T3} (x : Ix S' S 1 i j i0 j0) (hp : p < N) (hq : q < N) (hr : r < N)
    (e1 : dm0 0 r p q = amp N φ ψ [(false, p)] [(false, q), (false, r)] i0 j0)
    (e2 : dm0 1 r p q = amp N φ ψ [(true, p)] [(true, q), (false, r)] i0 j0)
    (e3 : dm0 1 q p r = amp N φ ψ [(true, p)] [(true, r), (false, q)] i0 j0) :
    mdownPhh dm0 (S' + 1) 0 (S + 1) (S - 2 * j) 0 r p q = amp N φ ψ [(false, p)] [(false, q), (false, r)] i j ∧
      mdownPhh dm0 (S' + 1) 0 (S + 1) (S - 2 * j) 1 r p q = amp N φ ψ [(true, p)] [(true, q), (false, r)] i j := by
  have kp : ∀ a, Ok N [(a, p)] := fun a => ok1 hp
  have k1 : ∀ a b, Ok N [(a, q), (b, r)] := fun a b => ok2 hq hr
  have k2 : ∀ a b, Ok N [(a, r), (b, q)] := fun a b => ok2 hr hq
  have ex := fun a b c => amp_exch φ ψ [(c, p)] (a, q) (b, r) [] hq hr
  have dD := amp_dn hφ hψ (kp true) (k1 false false)
  have uD := amp_up hφ hψ (kp true) (k1 false false)
  have dA := amp_dn hφ hψ (kp false) (k1 false false)
  have uA := amp_up hφ hψ (kp false) (k1 false false)
  have dB := amp_dn hφ hψ (kp true) (k1 true false)
  have uB := amp_up hφ hψ (kp true) (k1 true false)
  have dC := amp_dn hφ hψ (kp true) (k2 true false)
  have uC := amp_up hφ hψ (kp true) (k2 true false)
  have uE := amp_up hφ hψ (kp false) (k1 false true)
  have uF := amp_up hφ hψ (kp true) (k1 true true)
  have uG := amp_up hφ hψ (kp false) (k1 true false)
  have uH := amp_up hφ hψ (kp false) (k2 true false)
  simp only [dU, dL, if_true, if_false, Bool.false_eq_true, List.map_cons, List.map_nil, List.nil_append, List.cons_append, List.append_nil,
    List.sum_cons, List.sum_nil] at dD uD dA uA dB uB dC uC uE uF uG uH
  have G1 := uE.lin uF 1 1 (H := fun i j => amp N φ ψ [(false, p)] [(false, q), (true, r)] i j + amp N φ ψ [(true, p)] [(true, q), (true, r)] i j)
    (K := fun _ _ => 0) (fun _ _ => by ring) (fun i j => by ring)
  have G2 := uG.lin uH 1 1 (H := fun i j => amp N φ ψ [(false, p)] [(true, q), (false, r)] i j + amp N φ ψ [(false, p)] [(true, r), (false, q)] i j)
    (K := fun _ _ => 0) (fun _ _ => by ring) (fun i j => by rw [ex true true]; ring)
  have F1 := uA.lin uB 1 1 (H := fun i j => amp N φ ψ [(false, p)] [(false, q), (false, r)] i j + amp N φ ψ [(true, p)] [(true, q), (false, r)] i j)
    (K := fun i j => -(amp N φ ψ [(false, p)] [(false, q), (true, r)] i j + amp N φ ψ [(true, p)] [(true, q), (true, r)] i j))
    (fun _ _ => by ring) (fun i j => by ring)
  have F2 := uB.lin uC 1 1 (H := fun i j => amp N φ ψ [(true, p)] [(true, q), (false, r)] i j + amp N φ ψ [(true, p)] [(true, r), (false, q)] i j)
    (K := fun i j => amp N φ ψ [(false, p)] [(true, q), (false, r)] i j + amp N φ ψ [(false, p)] [(true, r), (false, q)] i j)
    (fun _ _ => by ring) (fun i j => by rw [ex true true]; ring)
  refine phh_a (D := amp N φ ψ [(true, p)] [(false, q), (false, r)]) (C := amp N φ ψ [(true, p)] [(true, r), (false, q)])
    (dD.eqv (fun _ _ => rfl) fun i j => by ring) (uD.eqv (fun _ _ => rfl) fun i j => by rw [ex false true]; ring)
    (dA.lin dB 1 1 (fun _ _ => by ring) fun i j => by ring)
    (dB.lin dC 1 1 (fun _ _ => by ring) fun i j => by rw [ex false false]; ring)
    (fun i j h1 h2 => ?_) (fun i j h1 h2 => ?_)
    (van_up hφ hψ 2 _ _ (kp _) (k1 _ _) (by simp [nA, nB])) (van_up hφ hψ 2 _ _ (kp _) (k1 _ _) (by simp [nA, nB]))
    (van_dn hφ hψ 1 _ _ (kp _) (k1 _ _) (by simp [nA, nB])) (van_dn hφ hψ 1 _ _ (kp _) (k1 _ _) (by simp [nA, nB])) x e1 e2 e3
  · exact F1.van (d := 1) (fun i j h1 h2 => by rw [G1.van (d := 0) (fun _ _ _ _ => rfl) j i h1 h2, neg_zero]) j i h1 h2
  · exact F2.van (d := 1) (fun i j h1 h2 => G2.van (d := 0) (fun _ _ _ _ => rfl) j i h1 h2) j i h1 h2

theorem fam_phh_b {dm0 : T3} (x : Ix S' S (-1) i j i0 j0) (hp : p < N) (hq : q < N) (hr : r < N)
    (e1 : dm0 1 r p q = amp N φ ψ [(true, p)] [(true, q), (true, r)] i0 j0)
    (e2 : dm0 0 r p q = amp N φ ψ [(false, p)] [(false, q), (true, r)] i0 j0)
    (e3 : dm0 0 q p r = amp N φ ψ [(false, p)] [(false, r), (true, q)] i0 j0) :
    mdownPhh dm0 (S' + 1) 1 (S + 1) (S - 2 * j) 1 r p q = amp N φ ψ [(true, p)] [(true, q), (true, r)] i j ∧
      mdownPhh dm0 (S' + 1) 1 (S + 1) (S - 2 * j) 0 r p q = amp N φ ψ [(false, p)] [(false, q), (true, r)] i j := by
  have kp : ∀ a, Ok N [(a, p)] := fun a => ok1 hp
  have k1 : ∀ a b, Ok N [(a, q), (b, r)] := fun a b => ok2 hq hr
  have k2 : ∀ a b, Ok N [(a, r), (b, q)] := fun a b => ok2 hr hq
  have ex := fun a b c => amp_exch φ ψ [(c, p)] (a, q) (b, r) [] hq hr
  have dD := amp_up hφ hψ (kp false) (k1 true true)
  have uD := amp_dn hφ hψ (kp false) (k1 true true)
  have dA := amp_up hφ hψ (kp true) (k1 true true)
  have uA := amp_dn hφ hψ (kp true) (k1 true true)
  have dB := amp_up hφ hψ (kp false) (k1 false true)
  have uB := amp_dn hφ hψ (kp false) (k1 false true)
  have dC := amp_up hφ hψ (kp false) (k2 false true)
  have uC := amp_dn hφ hψ (kp false) (k2 false true)
  have uE := amp_dn hφ hψ (kp true) (k1 true false)
  have uF := amp_dn hφ hψ (kp false) (k1 false false)
  have uG := amp_dn hφ hψ (kp true) (k1 false true)
  have uH := amp_dn hφ hψ (kp true) (k2 false true)
  simp only [dU, dL, if_true, if_false, Bool.false_eq_true, List.map_cons, List.map_nil, List.nil_append, List.cons_append, List.append_nil,
    List.sum_cons, List.sum_nil] at dD uD dA uA dB uB dC uC uE uF uG uH
  have G1 := uE.lin uF 1 1 (H := fun i j => amp N φ ψ [(true, p)] [(true, q), (false, r)] i j + amp N φ ψ [(false, p)] [(false, q), (false, r)] i j)
    (K := fun _ _ => 0) (fun _ _ => by ring) (fun i j => by ring)
  have G2 := uG.lin uH 1 1 (H := fun i j => amp N φ ψ [(true, p)] [(false, q), (true, r)] i j + amp N φ ψ [(true, p)] [(false, r), (true, q)] i j)
    (K := fun _ _ => 0) (fun _ _ => by ring) (fun i j => by rw [ex false false]; ring)
  have F1 := uA.lin uB 1 1 (H := fun i j => amp N φ ψ [(true, p)] [(true, q), (true, r)] i j + amp N φ ψ [(false, p)] [(false, q), (true, r)] i j)
    (K := fun i j => -(amp N φ ψ [(true, p)] [(true, q), (false, r)] i j + amp N φ ψ [(false, p)] [(false, q), (false, r)] i j))
    (fun _ _ => by ring) (fun i j => by ring)
  have F2 := uB.lin uC 1 1 (H := fun i j => amp N φ ψ [(false, p)] [(false, q), (true, r)] i j + amp N φ ψ [(false, p)] [(false, r), (true, q)] i j)
    (K := fun i j => amp N φ ψ [(true, p)] [(false, q), (true, r)] i j + amp N φ ψ [(true, p)] [(false, r), (true, q)] i j)
    (fun _ _ => by ring) (fun i j => by rw [ex false false]; ring)
  refine phh_b (D := amp N φ ψ [(false, p)] [(true, q), (true, r)]) (C := amp N φ ψ [(false, p)] [(false, r), (true, q)])
    (dD.eqv (fun _ _ => rfl) fun i j => by ring) (uD.eqv (fun _ _ => rfl) fun i j => by rw [ex true false]; ring)
    (dA.lin dB 1 1 (fun _ _ => by ring) fun i j => by ring)
    (dB.lin dC 1 1 (fun _ _ => by ring) fun i j => by rw [ex true true]; ring)
    (fun i j h1 h2 => ?_) (fun i j h1 h2 => ?_)
    (van_dn hφ hψ 2 _ _ (kp _) (k1 _ _) (by simp [nA, nB])) (van_dn hφ hψ 2 _ _ (kp _) (k1 _ _) (by simp [nA, nB]))
    (van_up hφ hψ 1 _ _ (kp _) (k1 _ _) (by simp [nA, nB])) (van_up hφ hψ 1 _ _ (kp _) (k1 _ _) (by simp [nA, nB])) x e1 e2 e3
  · exact F1.van' (d := 1) (fun i j h1 h2 => by rw [G1.van' (d := 0) (fun _ _ _ _ => rfl) i j h1 h2, neg_zero]) i j h1 h2
  · exact F2.van' (d := 1) (fun i j h1 h2 => G2.van' (d := 0) (fun _ _ _ _ => rfl) i j h1 h2) i j h1 h2

theorem two_amp (hp : p < N) (hq : q < N) (hr : r < N) (hu : u < N) :
    Two S' S (amp N φ ψ [(false, r), (false, p)] [(false, u), (false, q)]) (amp N φ ψ [(true, r), (false, p)] [(true, u), (false, q)])
      (amp N φ ψ [(false, r), (true, p)] [(false, u), (true, q)]) (amp N φ ψ [(true, r), (true, p)] [(true, u), (true, q)])
      (fun i j => -amp N φ ψ [(true, r), (false, p)] [(false, u), (true, q)] i j)
      (fun i j => -amp N φ ψ [(false, r), (true, p)] [(true, u), (false, q)] i j) := by
  have k1 : ∀ a b, Ok N [(a, r), (b, p)] := fun a b => ok2 hr hp
  have k2 : ∀ a b, Ok N [(a, u), (b, q)] := fun a b => ok2 hu hq
  obtain ⟨M, hM⟩ : ∃ M : Bool → Bool → Bool → Bool → ℕ → ℕ → ℝ,
      ∀ a b c d, M a b c d = amp N φ ψ [(a, r), (b, p)] [(c, u), (d, q)] := ⟨_, fun _ _ _ _ => rfl⟩
  have dn := fun a b c d => amp_dn hφ hψ (k1 a b) (k2 c d)
  have up := fun a b c d => amp_up hφ hψ (k1 a b) (k2 c d)
  have dN := dn true true false false
  have uN := up true true false false
  have d1 := dn false true false false
  have u1 := up false true false false
  have d2 := dn true false false false
  have u2 := up true false false false
  have d3 := dn true true false true
  have u3 := up true true false true
  have d4 := dn true true true false
  have u4 := up true true true false
  have dAA := dn false false false false
  have uAA := up false false false false
  have dBB := dn true true true true
  have uBB := up true true true true
  have dAB := dn true false true false
  have uAB := up true false true false
  have dBA := dn false true false true
  have uBA := up false true false true
  have dX := dn true false false true
  have uX := up true false false true
  have dY := dn false true true false
  have uY := up false true true false
  simp only [dU, dL, if_true, if_false, Bool.false_eq_true, List.map_cons, List.map_nil, List.nil_append, List.cons_append, List.append_nil,
    List.sum_cons, List.sum_nil, ← hM] at dN uN d1 u1 d2 u2 d3 u3 d4 u4 dAA uAA dBB uBB dAB uAB dBA uBA dX uX dY uY
  have vv : ∀ a b c d, nA [(a, r), (b, p)] + nB [(c, u), (d, q)] ≤ 2 → ∀ i j, i + 3 ≤ j → j ≤ S → M a b c d i j = 0 := fun a b c d h => by
    rw [hM]; exact van_dn hφ hψ 2 _ _ (k1 _ _) (k2 _ _) h
  simp only [← hM]
  -- linear combinations
  have a12 := d1.lin d2 1 (-1) (H := fun i j => M false true false false i j - M true false false false i j) (K := fun _ _ => 0)
    (fun _ _ => by ring) (fun _ _ => by ring)
  have b12 := u1.lin u2 1 (-1) (H := fun i j => M false true false false i j - M true false false false i j)
    (K := fun i j => -M false true true false i j - M false true false true i j + M true false true false i j + M true false false true i j)
    (fun _ _ => by ring) (fun _ _ => by ring)
  have a34 := d3.lin d4 1 (-1) (H := fun i j => M true true false true i j - M true true true false i j) (K := fun _ _ => 0)
    (fun _ _ => by ring) (fun _ _ => by ring)
  have b34 := u3.lin u4 1 (-1) (H := fun i j => M true true false true i j - M true true true false i j)
    (K := fun i j => M true false false true i j + M false true false true i j - M true false true false i j - M false true true false i j)
    (fun _ _ => by ring) (fun _ _ => by ring)
  have sa12 := d1.lin d2 1 1 (H := fun i j => M false true false false i j + M true false false false i j)
    (K := fun i j => 2 * M true true false false i j) (fun _ _ => by ring) (fun _ _ => by ring)
  have sb12 := u1.lin u2 1 1 (H := fun i j => M false true false false i j + M true false false false i j)
    (K := fun i j => 2 * M false false false false i j - M false true true false i j - M false true false true i j - M true false true false i j -
      M true false false true i j) (fun _ _ => by ring) (fun _ _ => by ring)
  have sa34 := d3.lin d4 1 1 (H := fun i j => M true true false true i j + M true true true false i j)
    (K := fun i j => -(2 * M true true false false i j)) (fun _ _ => by ring) (fun _ _ => by ring)
  have sb34 := u3.lin u4 1 1 (H := fun i j => M true true false true i j + M true true true false i j)
    (K := fun i j => M true false false true i j + M false true false true i j + M true false true false i j + M false true true false i j -
      2 * M true true true true i j) (fun _ _ => by ring) (fun _ _ => by ring)
  have dP := dAA.lin dBB 1 1 (H := fun i j => M false false false false i j + M true true true true i j) (fun _ _ => by ring) (fun _ _ => rfl)
  have uP := uAA.lin uBB 1 1 (H := fun i j => M false false false false i j + M true true true true i j) (fun _ _ => by ring) (fun _ _ => rfl)
  have dO := dAB.lin dBA 1 1 (H := fun i j => M true false true false i j + M false true false true i j) (fun _ _ => by ring) (fun _ _ => rfl)
  have uO := uAB.lin uBA 1 1 (H := fun i j => M true false true false i j + M false true false true i j) (fun _ _ => by ring) (fun _ _ => rfl)
  have dZ := dX.lin dY 1 1 (H := fun i j => M true false false true i j + M false true true false i j) (fun _ _ => by ring) (fun _ _ => rfl)
  have uZ := uX.lin uY 1 1 (H := fun i j => M true false false true i j + M false true true false i j) (fun _ _ => by ring) (fun _ _ => rfl)
  refine ⟨⟨M true true false false, fun i j => (M false true false false i j + M true false false false i j) -
      (M true true false true i j + M true true true false i j), dN.eqv (fun _ _ => rfl) fun _ _ => by ring,
      uN.eqv (fun _ _ => rfl) fun _ _ => by ring, sb12.lin sb34 1 (-1) (fun _ _ => by ring) fun _ _ => by ring⟩,
    ⟨_, a12, b12.eqv (fun _ _ => rfl) fun _ _ => by ring⟩, ⟨_, a34, b34.eqv (fun _ _ => rfl) fun _ _ => by ring⟩,
    ⟨fun i j => (M false true false false i j + M true false false false i j) + (M true true false true i j + M true true true false i j),
      sa12.lin sa34 1 1 (fun _ _ => by ring) fun _ _ => by ring, sb12.lin sb34 1 1 (fun _ _ => by ring) fun _ _ => by ring⟩,
    dP.lin dO 1 1 (fun _ _ => by ring) fun _ _ => by ring, uP.lin uO 1 1 (fun _ _ => by ring) fun _ _ => by ring,
    dP.lin dZ 1 1 (fun _ _ => by ring) fun _ _ => by ring, uP.lin uZ 1 1 (fun _ _ => by ring) fun _ _ => by ring,
    vv _ _ _ _ (by simp [nA, nB]), vv _ _ _ _ (by simp [nA, nB]), vv _ _ _ _ (by simp [nA, nB]), vv _ _ _ _ (by simp [nA, nB])⟩

theorem fam_dm2 {dm0 : T4} (x : Ix S' S 0 i j i0 j0) (hp : p < N) (hq : q < N) (hr : r < N) (hu : u < N)
    (e : ∀ (s t : Bool) (q u : ℕ), dm0 (2 * s.toNat + t.toNat) p q r u = amp N φ ψ [(t, r), (s, p)] [(t, u), (s, q)] i0 j0) (s t : Bool) :
    mdownDm2 dm0 (S' + 1) (S + 1) (S - 2 * j) (2 * s.toNat + t.toNat) p q r u = amp N φ ψ [(t, r), (s, p)] [(t, u), (s, q)] i j := by
  have key : mdownDm2 dm0 (S' + 1) (S + 1) (S - 2 * j) 0 p q r u = amp N φ ψ [(false, r), (false, p)] [(false, u), (false, q)] i j ∧
      mdownDm2 dm0 (S' + 1) (S + 1) (S - 2 * j) 1 p q r u = amp N φ ψ [(true, r), (false, p)] [(true, u), (false, q)] i j ∧
      mdownDm2 dm0 (S' + 1) (S + 1) (S - 2 * j) 2 p q r u = amp N φ ψ [(false, r), (true, p)] [(false, u), (true, q)] i j ∧
      mdownDm2 dm0 (S' + 1) (S + 1) (S - 2 * j) 3 p q r u = amp N φ ψ [(true, r), (true, p)] [(true, u), (true, q)] i j := by
    have f0 := e false false u q
    have f1 := e false true u q
    have f2 := e true false u q
    have f3 := e true true u q
    rw [amp_exch φ ψ _ (false, q) (false, u) [] hq hu] at f0
    rw [amp_exch φ ψ _ (true, q) (false, u) [] hq hu] at f1
    rw [amp_exch φ ψ _ (false, q) (true, u) [] hq hu] at f2
    rw [amp_exch φ ψ _ (true, q) (true, u) [] hq hu] at f3
    rcases le_total S' S with h | h
    · refine two_dm (two_amp hφ hψ hp hq hr hu) x h (e false false q u) (e false true q u) (e true false q u) (e true true q u) f0 f3 ?_
      rw [show (1 : ℕ) = 2 * false.toNat + true.toNat from rfl, show (2 : ℕ) = 2 * true.toNat + false.toNat from rfl] 
      exact congrArg₂ (· + ·) f1 f2
    · have x' := x.swap
      rw [neg_zero] at x'
      have cm := fun (a b c d : Bool) => amp_comm N φ ψ [(a, r), (b, p)] [(c, u), (d, q)]
      rw [mdownDm2_symm, show (S : ℤ) - 2 * j = S' - 2 * i by have := x.hij; omega, cm, cm, cm, cm]
      refine two_dm (two_amp hψ hφ hq hp hu hr) x' h ((e false false q u).trans (cm ..)) ((e false true q u).trans (cm ..))
        ((e true false q u).trans (cm ..)) ((e true true q u).trans (cm ..)) (f0.trans (congrArg _ (cm ..))) (f3.trans (congrArg _ (cm ..))) ?_
      rw [add_comm (-amp _ _ _ _ _ _ _)]
      exact congrArg₂ (· + ·) (f1.trans (congrArg _ (cm ..))) (f2.trans (congrArg _ (cm ..)))
  cases s <;> cases t
  · exact key.1
  · exact key.2.1
  · exact key.2.2.1
  · exact key.2.2.2

end Verif.RdmSmult
