import Verif.Lemmas.RdmTop
import Verif.Props.SpinOp
/-!
# C106: transition density matrices of rotated CI vectors
-/
namespace Verif.Props
open Verif.RdmSmult Verif.Spec.RdmSmult Verif.Spec.Tdm Verif.Wigner Verif.SpinAmp Verif.Spec.Spin

/-- C106 (rotation). The two vectors that are returned have the spins and the numbers of electrons of the given ones, the returned
numbers of alpha and beta electrons are those of the ket, those of the bra differ from them by the change that the operator makes, and
one of the two vectors is at the highest projection of its spin. -/
theorem C106_rotated {norb na nb na' nb' : ℕ} {smb smk : ℤ} {bra ket : Verif.SpinOp.Vec} {d : ℤ × ℤ}
    (hb : State norb na' nb' smb bra) (hk : State norb na nb smk ket) (h1 : (na' : ℤ) = na + d.1) (h2 : (nb' : ℤ) = nb + d.2) :
    let o := getHighmCivecs bra ket norb (na, nb) d (some smb) (some smk)
    o.2.2.1 + o.2.2.2 = na + nb ∧ State norb o.2.2.1 o.2.2.2 smk o.2.1 ∧
    ∃ ma mb : ℕ, (ma : ℤ) = o.2.2.1 + d.1 ∧ (mb : ℤ) = o.2.2.2 + d.2 ∧ State norb ma mb smb o.1 ∧
      ((ma : ℤ) - mb = smb - 1 ∨ (o.2.2.1 : ℤ) - o.2.2.2 = smk - 1) := by
  obtain ⟨m, hm⟩ : ∃ m : ℤ, m = min (smk - 1) (smb - 1 - (d.1 - d.2)) := ⟨_, rfl⟩
  obtain ⟨ka, kb, k1, k2, k3, k4, ok1⟩ := rdm_num1 hb.ok hk.ok h1 h2 hm
  obtain ⟨ma, mb, k5, k6, k7, k8, ok2⟩ := rdm_num2 hb.ok hk.ok h1 h2 hm
  obtain ⟨a0, b0, z1, z2⟩ : ∃ a0 b0 : ℕ, a0 + b0 = na + nb ∧ (a0 : ℤ) - b0 = smk - 1 := by
    have := hk.ok.parity; have := hk.ok.elec; have := hk.ok.high; have := hk.ok.low
    exact ⟨((na + nb + (smk - 1)) / 2).toNat, ((na + nb - (smk - 1)) / 2).toNat, by omega, by omega⟩
  obtain ⟨a1, b1, z3, z4⟩ : ∃ a0 b0 : ℕ, a0 + b0 = na' + nb' ∧ (a0 : ℤ) - b0 = smb - 1 := by
    have := hb.ok.parity; have := hb.ok.elec; have := hb.ok.high; have := hb.ok.low
    exact ⟨((na' + nb' + (smb - 1)) / 2).toNat, ((na' + nb' - (smb - 1)) / 2).toNat, by omega, by omega⟩
  obtain ⟨u1, u2, -⟩ := C32_mup hk.ok z1 z2 hk.inSpace hk.pure
  obtain ⟨v1, v2, -⟩ := C32_mup hb.ok z3 z4 hb.inSpace hb.pure
  obtain ⟨w1, w2, -⟩ := C32_mdown ok1 (z1.trans k3.symm) z2 u1 u2
  obtain ⟨x1, x2, -⟩ := C32_mdown ok2 (z3.trans k7.symm) z4 v1 v2
  have e1 : ((na : ℤ) + d.1).toNat = na' := by omega
  have e2 : ((nb : ℤ) + d.2).toNat = nb' := by omega
  have e : getHighmCivecs bra ket norb (na, nb) d (some smb) (some smk) =
      (Verif.SpinOp.mdown norb ma mb smb (Verif.SpinOp.mup norb na' nb' smb bra),
        Verif.SpinOp.mdown norb ka kb smk (Verif.SpinOp.mup norb na nb smk ket), (ka, kb)) := by
    unfold getHighmCivecs
    dsimp only
    rw [← hm, e1, e2, Int.toNat_natCast, Int.toNat_natCast, k1, k2, k5, k6]
  have s2 : (ma : ℤ) = ka + d.1 := by omega
  have s3 : (mb : ℤ) = kb + d.2 := by omega
  have s4 : (ma : ℤ) - mb = smb - 1 ∨ (ka : ℤ) - kb = smk - 1 := by
    rw [k8, k4, hm]
    rcases min_choice (smk - 1) (smb - 1 - (d.1 - d.2)) with h | h <;> rw [h]
    · exact Or.inr rfl
    · exact Or.inl (by ring)
  intro o
  have eo : o = _ := e
  clear_value o
  subst eo
  exact ⟨k3, ⟨ok1, w1, w2⟩, ma, mb, s2, s3, ⟨ok2, x1, x2⟩, s4⟩

/-- C106 (no multiplicities). Without a multiplicity the vectors are returned as they are. -/
theorem C106_unrotated (bra ket : Verif.SpinOp.Vec) (norb : ℕ) (nelec : ℕ × ℕ) (d : ℤ × ℤ) (smb smk : Option ℤ)
    (h : smb = none ∨ smk = none) : getHighmCivecs bra ket norb nelec d smb smk = (bra, ket, nelec) := by
  unfold getHighmCivecs
  rcases h with rfl | rfl
  · rfl
  · cases smb <;> rfl

variable {norb na nb na' nb' : ℕ} {smb smk : ℤ} {bra ket : Verif.SpinOp.Vec}

/-- C106 (one annihilator). The matrix of the rotated vectors, transformed by `mdown_h`, is the matrix of the given vectors. -/
theorem C106_h (s : Bool) (hb : State norb na' nb' smb bra) (hk : State norb na nb smk ket)
    (hn : if s then na' = na ∧ nb' + 1 = nb else na' + 1 = na ∧ nb' = nb) {p : ℕ} (hp : p < norb) :
    let o := getHighmCivecs bra ket norb (na, nb) (dnelecH s.toNat) (some smb) (some smk)
    mdownH (matH norb (onStrings norb o.1) (onStrings norb o.2.1) s) smb s.toNat smk (na - nb) p =
      matH norb (onStrings norb bra) (onStrings norb ket) s p := by
  cases s
  · obtain ⟨h1, h2⟩ : na' + 1 = na ∧ nb' = nb := by simpa using hn
    obtain ⟨S', S, φ, ψ, i, j, i0, j0, rfl, rfl, hφ, hψ, x, e1, e2, e3, e4, e5⟩ :=
      rdm_top (d := (-1, 0)) hb hk (by dsimp only; omega) (by dsimp only; omega)
    change mdownH (matH norb (onStrings norb (getHighmCivecs bra ket norb (na, nb) (-1, 0) _ _).1) _ false) _ 0 _ _ p = _
    change matH norb _ (onStrings norb (getHighmCivecs bra ket norb (na, nb) (-1, 0) _ _).2.1) false p * _ = _
    rw [e1, e2, e3, e4, e5]
    exact fam_h_a hφ hψ x hp
  · obtain ⟨h1, h2⟩ : na' = na ∧ nb' + 1 = nb := by simpa using hn
    obtain ⟨S', S, φ, ψ, i, j, i0, j0, rfl, rfl, hφ, hψ, x, e1, e2, e3, e4, e5⟩ :=
      rdm_top (d := (0, -1)) hb hk (by dsimp only; omega) (by dsimp only; omega)
    change mdownH (matH norb (onStrings norb (getHighmCivecs bra ket norb (na, nb) (0, -1) _ _).1) _ true) _ 1 _ _ p = _
    change matH norb _ (onStrings norb (getHighmCivecs bra ket norb (na, nb) (0, -1) _ _).2.1) true p * _ = _
    rw [e1, e2, e3, e4, e5]
    exact fam_h_b hφ hψ x hp

/-- C106 (one creator and two annihilators). -/
theorem C106_phh (s t : Bool) (hb : State norb na' nb' smb bra) (hk : State norb na nb smk ket)
    (hn : if s then na' = na ∧ nb' + 1 = nb else na' + 1 = na ∧ nb' = nb) {r p q : ℕ} (hr : r < norb) (hp : p < norb) (hq : q < norb) :
    let o := getHighmCivecs bra ket norb (na, nb) (dnelecH s.toNat) (some smb) (some smk)
    mdownPhh (fun k => matPhh norb (onStrings norb o.1) (onStrings norb o.2.1) (k = 1) s) smb s.toNat smk (na - nb) t.toNat r p q =
      matPhh norb (onStrings norb bra) (onStrings norb ket) t s r p q := by
  cases s
  · obtain ⟨h1, h2⟩ : na' + 1 = na ∧ nb' = nb := by simpa using hn
    obtain ⟨S', S, φ, ψ, i, j, i0, j0, rfl, rfl, hφ, hψ, x, e1, e2, e3, e4, e5⟩ :=
      rdm_top (d := (-1, 0)) hb hk (by dsimp only; omega) (by dsimp only; omega)
    intro o
    rw [show onStrings norb o.1 = φ i0 from e4, show onStrings norb o.2.1 = ψ j0 from e5, e1, e2, e3]
    have k := fam_phh_a (dm0 := fun k => matPhh norb (φ i0) (ψ j0) (k = 1) false) hφ hψ x hp hq hr rfl rfl rfl
    cases t
    · exact k.1
    · exact k.2
  · obtain ⟨h1, h2⟩ : na' = na ∧ nb' + 1 = nb := by simpa using hn
    obtain ⟨S', S, φ, ψ, i, j, i0, j0, rfl, rfl, hφ, hψ, x, e1, e2, e3, e4, e5⟩ :=
      rdm_top (d := (0, -1)) hb hk (by dsimp only; omega) (by dsimp only; omega)
    intro o
    rw [show onStrings norb o.1 = φ i0 from e4, show onStrings norb o.2.1 = ψ j0 from e5, e1, e2, e3]
    have k := fam_phh_b (dm0 := fun k => matPhh norb (φ i0) (ψ j0) (k = 1) true) hφ hψ x hp hq hr rfl rfl rfl
    cases t
    · exact k.2
    · exact k.1

/-- C106 (two annihilators): both of the spin `s`. -/
theorem C106_hh_same (s : Bool) (hb : State norb na' nb' smb bra) (hk : State norb na nb smk ket)
    (hn : if s then na' = na ∧ nb' + 2 = nb else na' + 2 = na ∧ nb' = nb) {p q : ℕ} (hp : p < norb) (hq : q < norb) :
    let o := getHighmCivecs bra ket norb (na, nb) (dnelecHh (2 * s.toNat)) (some smb) (some smk)
    mdownHh (matHh norb (onStrings norb o.1) (onStrings norb o.2.1) s s) smb (2 * s.toNat) smk (na - nb) p q =
      matHh norb (onStrings norb bra) (onStrings norb ket) s s p q := by
  cases s
  · obtain ⟨h1, h2⟩ : na' + 2 = na ∧ nb' = nb := by simpa using hn
    obtain ⟨S', S, φ, ψ, i, j, i0, j0, rfl, rfl, hφ, hψ, x, e1, e2, e3, e4, e5⟩ :=
      rdm_top (d := (-2, 0)) hb hk (by dsimp only; omega) (by dsimp only; omega)
    intro o
    rw [show onStrings norb o.1 = φ i0 from e4, show onStrings norb o.2.1 = ψ j0 from e5, e1, e2, e3]
    unfold mdownHh
    rw [if_neg (by simp)]
    exact fam_hh_aa hφ hψ x hp hq
  · obtain ⟨h1, h2⟩ : na' = na ∧ nb' + 2 = nb := by simpa using hn
    obtain ⟨S', S, φ, ψ, i, j, i0, j0, rfl, rfl, hφ, hψ, x, e1, e2, e3, e4, e5⟩ :=
      rdm_top (d := (0, -2)) hb hk (by dsimp only; omega) (by dsimp only; omega)
    intro o
    rw [show onStrings norb o.1 = φ i0 from e4, show onStrings norb o.2.1 = ψ j0 from e5, e1, e2, e3]
    unfold mdownHh
    rw [if_neg (by simp)]
    exact fam_hh_bb hφ hψ x hp hq

/-- C106 (two annihilators): `⟨p_b q_a⟩`. -/
theorem C106_hh_ba (hb : State norb na' nb' smb bra) (hk : State norb na nb smk ket) (h1 : na' + 1 = na) (h2 : nb' + 1 = nb)
    {p q : ℕ} (hp : p < norb) (hq : q < norb) :
    let o := getHighmCivecs bra ket norb (na, nb) (dnelecHh 1) (some smb) (some smk)
    mdownHh (matHh norb (onStrings norb o.1) (onStrings norb o.2.1) true false) smb 1 smk (na - nb) p q =
      matHh norb (onStrings norb bra) (onStrings norb ket) true false p q := by
  obtain ⟨S', S, φ, ψ, i, j, i0, j0, rfl, rfl, hφ, hψ, x, e1, e2, e3, e4, e5⟩ :=
    rdm_top (d := (-1, -1)) hb hk (by dsimp only; omega) (by dsimp only; omega)
  intro o
  rw [show onStrings norb o.1 = φ i0 from e4, show onStrings norb o.2.1 = ψ j0 from e5, e1, e2, e3]
  exact fam_hh_ba hφ hψ x hp hq fun _ _ => rfl

/-- C106 (spin flip). -/
theorem C106_sm (hb : State norb na' nb' smb bra) (hk : State norb na nb smk ket) (h1 : na' + 1 = na) (h2 : nb' = nb + 1)
    {p q : ℕ} (hp : p < norb) (hq : q < norb) :
    let o := getHighmCivecs bra ket norb (na, nb) dnelecSm (some smb) (some smk)
    mdownSm (matSm norb (onStrings norb o.1) (onStrings norb o.2.1)) smb smk (na - nb) p q =
      matSm norb (onStrings norb bra) (onStrings norb ket) p q := by
  obtain ⟨S', S, φ, ψ, i, j, i0, j0, rfl, rfl, hφ, hψ, x, e1, e2, e3, e4, e5⟩ :=
    rdm_top (d := (-1, 1)) hb hk (by dsimp only; omega) (by dsimp only; omega)
  intro o
  rw [show onStrings norb o.1 = φ i0 from e4, show onStrings norb o.2.1 = ψ j0 from e5, e1, e2, e3]
  exact fam_sm hφ hψ x hp hq

/-- C106 (one-body density matrix). -/
theorem C106_dm1 (s : Bool) (hb : State norb na nb smb bra) (hk : State norb na nb smk ket) {p q : ℕ} (hp : p < norb) (hq : q < norb) :
    let o := getHighmCivecs bra ket norb (na, nb) dnelecDm (some smb) (some smk)
    mdownDm1 (fun k => tdm1 norb (onStrings norb o.1) (onStrings norb o.2.1) (k = 1)) smb smk (na - nb) s.toNat p q =
      tdm1 norb (onStrings norb bra) (onStrings norb ket) s p q := by
  obtain ⟨S', S, φ, ψ, i, j, i0, j0, rfl, rfl, hφ, hψ, x, e1, e2, e3, e4, e5⟩ :=
    rdm_top (d := (0, 0)) hb hk (by dsimp only; omega) (by dsimp only; omega)
  intro o
  rw [show onStrings norb o.1 = φ i0 from e4, show onStrings norb o.2.1 = ψ j0 from e5, e1, e2, e3]
  have k := fam_dm (dm0 := fun k => tdm1 norb (φ i0) (ψ j0) (k = 1)) hφ hψ x hp hq rfl rfl
  cases s
  · exact k.1
  · exact k.2

/-- C106 (two-body density matrix). -/
theorem C106_dm2 (s t : Bool) (hb : State norb na nb smb bra) (hk : State norb na nb smk ket) {p q r u : ℕ} (hp : p < norb)
    (hq : q < norb) (hr : r < norb) (hu : u < norb) :
    let o := getHighmCivecs bra ket norb (na, nb) dnelecDm (some smb) (some smk)
    mdownDm2 (fun k => tdm2 norb (onStrings norb o.1) (onStrings norb o.2.1) (k / 2 = 1) (k % 2 = 1)) smb smk (na - nb)
        (2 * s.toNat + t.toNat) p q r u =
      tdm2 norb (onStrings norb bra) (onStrings norb ket) s t p q r u := by
  obtain ⟨S', S, φ, ψ, i, j, i0, j0, rfl, rfl, hφ, hψ, x, e1, e2, e3, e4, e5⟩ :=
    rdm_top (d := (0, 0)) hb hk (by dsimp only; omega) (by dsimp only; omega)
  intro o
  rw [show onStrings norb o.1 = φ i0 from e4, show onStrings norb o.2.1 = ψ j0 from e5, e1, e2, e3]
  refine fam_dm2 hφ hψ x hp hq hr hu (fun s t q u => ?_) s t
  cases s <;> cases t <;> rfl

/-- Two electrons with parallel spins, and one of the spin-up states of one electron, both in two orbitals; the rotated triplet has a
nonzero projection on each. -/
noncomputable def doublet : Verif.SpinOp.Vec := fun a b => if a = {0} ∧ b = ∅ then 1 else 0

theorem doublet_state : State 2 1 0 2 doublet := by
  refine ⟨⟨by norm_num, by norm_num, by norm_num, by norm_num⟩, ?_, ?_⟩
  · intro a b h
    unfold doublet
    rw [if_neg]
    rintro ⟨rfl, rfl⟩
    exact h ⟨by decide, by decide⟩
  · have h : raise doublet = fun _ _ => 0 := by
      funext a b; unfold raise doublet; simp [Finset.insert_ne_empty]
    intro a b
    rw [h]; unfold lower; simp

theorem triplet_state : State 2 2 0 3 triplet := ⟨⟨by norm_num, by norm_num, by norm_num, by norm_num⟩, triplet_inSpace, triplet_pure⟩

theorem triplet0_state : State 2 1 1 3 (Verif.SpinOp.mdown 2 1 1 3 triplet) := by
  have h : SpinOK 3 1 1 := ⟨by norm_num, by norm_num, by norm_num, by norm_num⟩
  obtain ⟨a, b, -⟩ := C32_mdown (na0 := 2) (nb0 := 0) h rfl (by norm_num) triplet_inSpace triplet_pure
  exact ⟨h, a, b⟩

theorem doublet0_state : State 2 0 1 2 (Verif.SpinOp.mdown 2 0 1 2 doublet) := by
  have h : SpinOK 2 0 1 := ⟨by norm_num, by norm_num, by norm_num, by norm_num⟩
  obtain ⟨a, b, -⟩ := C32_mdown (na0 := 1) (nb0 := 0) h rfl (by norm_num) doublet_state.inSpace doublet_state.pure
  exact ⟨h, a, b⟩

/-- The hypotheses of `C106_h` and `C106_phh` for a ket and a bra that are not at their highest projections, `s = a` and `s = b`. -/
example : State 2 0 1 2 (Verif.SpinOp.mdown 2 0 1 2 doublet) ∧ State 2 1 1 3 (Verif.SpinOp.mdown 2 1 1 3 triplet) ∧ State 2 1 0 2 doublet ∧
    (0 + 1 = 1 ∧ 1 = 1) ∧ (1 = 1 ∧ 0 + 1 = 1) :=
  ⟨doublet0_state, triplet0_state, doublet_state, by norm_num, by norm_num⟩

/-- The hypotheses of `C106_dm1`, `C106_dm2` and, with the bra `S- |ket⟩`, of `C106_sm`. -/
example : State 2 1 1 3 (Verif.SpinOp.mdown 2 1 1 3 triplet) ∧ State 2 2 0 3 triplet ∧ 1 + 1 = 2 ∧ 1 = 0 + 1 :=
  ⟨triplet0_state, triplet_state, rfl, rfl⟩

/-- The hypotheses of `C106_hh_same` and `C106_hh_ba`: the bra is the vacuum. -/
example : State 2 0 0 1 (fun a b => if a = ∅ ∧ b = ∅ then 1 else 0) ∧ State 2 2 0 3 triplet ∧
    State 2 1 1 3 (Verif.SpinOp.mdown 2 1 1 3 triplet) ∧ 0 + 2 = 2 ∧ 0 + 1 = 1 := by
  refine ⟨⟨⟨by norm_num, by norm_num, by norm_num, by norm_num⟩, ?_, ?_⟩, triplet_state, triplet0_state, rfl, rfl⟩
  · intro a b h
    dsimp only
    rw [if_neg]
    rintro ⟨rfl, rfl⟩
    exact h ⟨by decide, by decide⟩
  · have h : raise (fun a b => if a = ∅ ∧ b = ∅ then 1 else 0) = fun _ _ => 0 := by
      funext a b; unfold raise; simp [Finset.insert_ne_empty]
    intro a b
    rw [h]; unfold lower; simp

end Verif.Props
