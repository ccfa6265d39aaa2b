import Verif.Lemmas.SpinMan
import Verif.Props.RdmSmult
import Verif.Lemmas.FragTables
/-!
# The tables that are filled for the pairs of rootspaces that stand for pairs of manifolds
-/
namespace Verif.FragSpin
open Verif.FciRdm Verif.FragTables Verif.RdmSmult Verif.Spec.Tdm Verif.Spec.RdmSmult Verif.Spec.Spin Verif.Spec.FragSpin
open Verif.Spec.FragTables Verif.Spec.FciRdm Verif.Spec.Lstdm

/-- Change of the numbers of electrons by the operators of a table. -/
def dn : Kind → ℤ × ℤ
  | .ovlp => (0, 0)
  | .half s => dnelecH s.toNat
  | .pair s t _ => dnelecHh (ix s + ix t)
  | .flip => dnelecSm
  | .dm => dnelecDm

theorem conn_dn {F : Frag ℝ} {i j : Nat} {k : Kind} (h : Conn F i j k) :
    ((F.nelec i).1 : ℤ) = (F.nelec j).1 + (dn k).1 ∧ ((F.nelec i).2 : ℤ) = (F.nelec j).2 + (dn k).2 := by
  cases k with
  | ovlp => unfold Conn at h; rw [h]; simp [dn]
  | half s => cases s <;> simp [Conn, plus, Prod.ext_iff] at h <;> simp [dn, dnelecH] <;> omega
  | pair s t hst =>
    cases s <;> cases t <;> first | (simp at hst; done) | skip
    all_goals simp [Conn, plus, Prod.ext_iff] at h <;> simp [dn, dnelecHh, ix] <;> omega
  | flip => simp [Conn, plus, Prod.ext_iff] at h; simp [dn, dnelecSm]; omega
  | dm => rw [h.1]; simp [dn, dnelecDm]

/-- The same without the order of the rootspaces. -/
theorem conn_of {F : Frag ℝ} {i j : Nat} {k : Kind} (h1 : ((F.nelec i).1 : ℤ) = (F.nelec j).1 + (dn k).1)
    (h2 : ((F.nelec i).2 : ℤ) = (F.nelec j).2 + (dn k).2) (hk : k = .dm → j ≤ i) : Conn F i j k := by
  cases k with
  | ovlp => simp [dn] at h1 h2; exact Prod.ext (by omega) (by omega)
  | half s => cases s <;> simp [dn, dnelecH] at h1 h2 <;> exact Prod.ext (by simp [plus]; omega) (by simp [plus]; omega)
  | pair s t hst =>
    cases s <;> cases t <;> first | (simp at hst; done) | skip
    all_goals
      simp [dn, dnelecHh, ix] at h1 h2
      exact Prod.ext (by simp [plus]; omega) (by simp [plus]; omega)
  | flip => simp [dn, dnelecSm] at h1 h2; exact Prod.ext (by simp [plus]; omega) (by simp [plus]; omega)
  | dm => simp [dn, dnelecDm] at h1 h2; exact ⟨Prod.ext (by omega) (by omega), hk rfl⟩

/-! ### The numbers of electrons of the rotated vectors -/

theorem highm_num {F : SFrag} (hM : Multiplicities F) (hF : Coherent F.toFrag) {d : ℤ × ℤ} {i j : Nat} (hi : i < F.nroots) (hj : j < F.nroots)
    (h1 : ((F.nelec i).1 : ℤ) = (F.nelec j).1 + d.1) (h2 : ((F.nelec i).2 : ℤ) = (F.nelec j).2 + d.2) :
    ((highmBra F d i j).1 : ℤ) = (highmKet F d i j).1 + d.1 ∧ ((highmBra F d i j).2 : ℤ) = (highmKet F d i j).2 + d.2 ∧
    (highmBra F d i j).1 ≤ F.norb ∧ (highmBra F d i j).2 ≤ F.norb ∧ (highmKet F d i j).1 ≤ F.norb ∧ (highmKet F d i j).2 ≤ F.norb := by
  have fi := hF.fits i hi
  have fj := hF.fits j hj
  have key : (highmKet F d i j).1 ≤ F.norb ∧ (highmKet F d i j).2 ≤ F.norb ∧
      (0 ≤ ((highmKet F d i j).1 : ℤ) + d.1 ∧ ((highmKet F d i j).1 : ℤ) + d.1 ≤ F.norb) ∧
      (0 ≤ ((highmKet F d i j).2 : ℤ) + d.2 ∧ ((highmKet F d i j).2 : ℤ) + d.2 ≤ F.norb) := by
    unfold highmKet highm
    cases hb : F.smult i with
    | none => rw [Verif.Props.C106_unrotated _ _ _ _ _ _ _ (Or.inl rfl)]; dsimp only; omega
    | some sb =>
      cases hk : F.smult j with
      | none => rw [Verif.Props.C106_unrotated _ _ _ _ _ _ _ (Or.inr rfl)]; dsimp only; omega
      | some sk =>
        have o1 := hM.ok i hi sb hb
        have o2 := hM.ok j hj sk hk
        have r1 := hM.room i hi sb hb
        have r2 := hM.room j hj sk hk
        have := o1.parity; have := o1.elec; have := o1.high; have := o1.low
        have := o2.parity; have := o2.elec; have := o2.high; have := o2.low
        unfold getHighmCivecs
        dsimp only
        generalize hsp : min (sk - 1) (sb - 1 - (d.1 - d.2)) = sp
        have hs : (sp = sk - 1 ∨ sp = sb - 1 - (d.1 - d.2)) ∧ sp ≤ sk - 1 ∧ sp ≤ sb - 1 - (d.1 - d.2) := by omega
        clear hsp
        omega
  unfold highmBra
  dsimp only
  omega

theorem duo_nuroots (F : SFrag) (d : ℤ × ℤ) (i j : Nat) : (duo F d i j).nuroots = 2 := rfl

theorem duo_addr0 (F : SFrag) (d : ℤ × ℤ) (i j : Nat) : (duo F d i j).addr 0 = 0 := rfl

theorem duo_addr1 (F : SFrag) (d : ℤ × ℤ) (i j : Nat) : (duo F d i j).addr 1 = 1 := rfl

section
variable {F : SFrag} (hM : Multiplicities F) (hF : Coherent F.toFrag)
include hM hF

theorem duo_coherent {d : ℤ × ℤ} {i j : Nat} (hi : i < F.nroots) (hj : j < F.nroots)
    (h1 : ((F.nelec i).1 : ℤ) = (F.nelec j).1 + d.1) (h2 : ((F.nelec i).2 : ℤ) = (F.nelec j).2 + d.2) : Coherent (duo F d i j) := by
  obtain ⟨-, -, a1, a2, a3, a4⟩ := highm_num hM hF hi hj h1 h2
  refine ⟨fun i hi => ⟨hi, rfl⟩, fun _ _ _ => rfl, fun _ _ => rfl, fun x _ => ?_⟩
  unfold duo
  dsimp only
  split
  · exact ⟨a1, a2⟩
  · exact ⟨a3, a4⟩

theorem duo_conn {k : Kind} {i j : Nat} (hi : i < F.nroots) (hj : j < F.nroots) (hc : Conn F.toFrag i j k) (hk : k ≠ .dm) :
    Conn (duo F (dn k) i j) 0 1 k := by
  obtain ⟨h1, h2⟩ := conn_dn hc
  obtain ⟨a1, a2, -⟩ := highm_num hM hF hi hj h1 h2
  exact conn_of a1 a2 fun h => absurd h hk

end

/-! ### Entries -/

/-- The entry at positions `u`, `w` is there and right for the rotated vectors of the two rootspaces (overlaps: the vectors
themselves). -/
def AtS (F : SFrag) (M : Mats ℝ) (u w : Nat) (k : Kind) : Prop :=
  match k with
  | .ovlp => At F.toFrag M u w (F.addr u) (F.addr w) .ovlp
  | k => At (duo F (dn k) (F.addr u) (F.addr w)) M u w 0 1 k

/-- The entries of one kind are the same. -/
def Same (M M' : Mats ℝ) (u w u' w' : Nat) : Kind → Prop
  | .ovlp => M'.ovlp u' w' = M.ovlp u w
  | .half s => M'.h (ix s) u' w' = M.h (ix s) u w ∧ M'.phh (ix s) u' w' = M.phh (ix s) u w
  | .pair s t _ => M'.hh (ix s + ix t) u' w' = M.hh (ix s + ix t) u w
  | .flip => M'.sm u' w' = M.sm u w
  | .dm => M'.dm1 u' w' = M.dm1 u w ∧ M'.dm2 u' w' = M.dm2 u w

theorem at_same {F : Frag ℝ} {M M' : Mats ℝ} {u w u' w' i j : Nat} {k : Kind} (h : Same M M' u w u' w' k) (h' : At F M u w i j k) :
    At F M' u' w' i j k := by
  cases k with
  | ovlp => simp only [Same] at h; simpa only [At, h] using h'
  | half s => simp only [Same] at h; simpa only [At, h.1, h.2] using h'
  | pair s t hst => simp only [Same] at h; simpa only [At, h] using h'
  | flip => simp only [Same] at h; simpa only [At, h] using h'
  | dm => simp only [Same] at h; simpa only [At, h.1, h.2] using h'

theorem only_same {M M' : Mats ℝ} {u w : Nat} {k : Kind} (h : Only M M' u w k) {u' w' : Nat} {k' : Kind}
    (hk : ¬(k' = k ∧ u' = u ∧ w' = w)) : Same M M' u' w' u' w' k' := by
  cases k' with
  | ovlp => show M'.ovlp u' w' = _; rw [h.ovlp]
  | half s =>
    have hn : ¬((∃ s', k = .half s' ∧ ix s = ix s') ∧ u' = u ∧ w' = w) := by
      rintro ⟨⟨s', rfl, hs⟩, h2⟩
      exact hk ⟨by rw [ix_inj hs], h2⟩
    exact ⟨h.h _ _ _ hn, h.phh _ _ _ hn⟩
  | pair s t hst =>
    have hn : ¬((∃ s' t' h', k = .pair s' t' h' ∧ ix s + ix t = ix s' + ix t') ∧ u' = u ∧ w' = w) := by
      rintro ⟨⟨s', t', h', rfl, hs⟩, h2⟩
      refine hk ⟨?_, h2⟩
      cases s <;> cases t <;> cases s' <;> cases t' <;> simp_all [ix]
    exact h.hh _ _ _ hn
  | flip => exact h.sm _ _ fun h2 => hk ⟨h2.1.symm, h2.2⟩
  | dm => exact ⟨h.dm1 _ _ fun h2 => hk ⟨h2.1.symm, h2.2⟩, h.dm2 _ _ fun h2 => hk ⟨h2.1.symm, h2.2⟩⟩

theorem atS_same {F : SFrag} {M M' : Mats ℝ} {u w : Nat} {k : Kind} (h : Same M M' u w u w k) (h' : AtS F M u w k) : AtS F M' u w k := by
  cases k <;> exact at_same h h'

/-- All right entries stay right. -/
def PresS (F : SFrag) (M M' : Mats ℝ) : Prop := ∀ k u w, AtS F M u w k → AtS F M' u w k

theorem presS {F : SFrag} {M M' : Mats ℝ} {u w : Nat} {k : Kind} (h : Only M M' u w k) (hset : AtS F M' u w k) : PresS F M M' := by
  intro k' u' w' h'
  by_cases hk : k' = k ∧ u' = u ∧ w' = w
  · obtain ⟨rfl, rfl, rfl⟩ := hk
    exact hset
  · exact atS_same (only_same h hk) h'

/-! ### One step -/

section steps
variable {P : Ext ℝ} {F : SFrag} (hP : Right12 P) (hM : Multiplicities F) (hF : Coherent F.toFrag)
include hP hM hF

theorem setHalfS_spec (M : Mats ℝ) {u w : Nat} (hu : u < F.nuroots) (hw : w < F.nuroots) (s : Bool)
    (hc : Conn F.toFrag (F.addr u) (F.addr w) (.half s)) : ∃ M', setHalfS P F M (F.addr u) (F.addr w) s = some M' ∧
      Only M M' u w (.half s) ∧ AtS F M' u w (.half s) := by
  obtain ⟨h1, h2⟩ := conn_dn hc
  have hD := duo_coherent hM hF (addr_mem hu).1 (addr_mem hw).1 h1 h2
  have hC := duo_conn hM hF (addr_mem hu).1 (addr_mem hw).1 hc (by simp)
  obtain ⟨M1, e1, -, e3⟩ := setHalf_spec hP hD (Mats.empty ℝ) (u := 0) (w := 1) (by rw [duo_nuroots]; omega) (by rw [duo_nuroots]; omega)
    s hC
  rw [duo_addr0, duo_addr1] at e1 e3
  unfold setHalf at e1
  change ((rdm13hLoop P (duo F (dnelecH s.toNat) (F.addr u) (F.addr w)) 0 1 s).bind _) = some M1 at e1
  unfold setHalfS
  cases hd : rdm13hLoop P (duo F (dnelecH s.toNat) (F.addr u) (F.addr w)) 0 1 s with
  | none => rw [hd] at e1; simp at e1
  | some d =>
    rw [hd, Option.bind_some] at e1
    rw [Option.bind_some]
    split at e1
    · next ha =>
      change antisym (F.lroots (F.addr u)) (F.lroots (F.addr w)) F.norb s.toNat d.2 = true at ha
      rw [if_pos ha, idx_addr hF hu, idx_addr hF hw]
      refine ⟨_, rfl, ⟨rfl, ?_, ?_, fun _ _ _ _ => rfl, fun _ _ _ => rfl, fun _ _ _ => rfl, fun _ _ _ => rfl⟩, ?_⟩
      · intro t a b hn
        apply putS_ne
        rintro ⟨h1, h2⟩
        exact hn ⟨⟨s, rfl, by rw [h1, ix_eq]⟩, h2⟩
      · intro t a b hn
        apply putS_ne
        rintro ⟨h1, h2⟩
        exact hn ⟨⟨s, rfl, by rw [h1, ix_eq]⟩, h2⟩
      · refine at_same ?_ e3
        cases e1
        constructor
        · rw [← ix_eq s]
          exact (putS_self M.h s.toNat u w d.1).trans (putS_self (Mats.empty ℝ).h s.toNat 0 1 d.1).symm
        · rw [← ix_eq s]
          exact (putS_self M.phh s.toNat u w d.2).trans (putS_self (Mats.empty ℝ).phh s.toNat 0 1 d.2).symm
    · simp at e1

theorem setSmS_spec (M : Mats ℝ) {u w : Nat} (hu : u < F.nuroots) (hw : w < F.nuroots)
    (hc : Conn F.toFrag (F.addr u) (F.addr w) .flip) : ∃ M', setSmS P F M (F.addr u) (F.addr w) = some M' ∧
      Only M M' u w .flip ∧ AtS F M' u w .flip := by
  obtain ⟨h1, h2⟩ := conn_dn hc
  have hD := duo_coherent hM hF (addr_mem hu).1 (addr_mem hw).1 h1 h2
  have hC := duo_conn hM hF (addr_mem hu).1 (addr_mem hw).1 hc (by simp)
  obtain ⟨M1, e1, -, e3⟩ := flip_spec hP hD (Mats.empty ℝ) (u := 0) (w := 1) (by rw [duo_nuroots]; omega) (by rw [duo_nuroots]; omega) hC
  rw [duo_addr0, duo_addr1] at e1 e3
  change Option.map _ (sfddmLoop P (duo F dnelecSm (F.addr u) (F.addr w)) 0 1) = some M1 at e1
  unfold setSmS
  cases hd : sfddmLoop P (duo F dnelecSm (F.addr u) (F.addr w)) 0 1 with
  | none => rw [hd] at e1; simp at e1
  | some d =>
    rw [hd, Option.map_some] at e1
    rw [Option.map_some, idx_addr hF hu, idx_addr hF hw]
    refine ⟨_, rfl, ⟨rfl, fun _ _ _ _ => rfl, fun _ _ _ _ => rfl, fun _ _ _ _ => rfl, ?_, fun _ _ _ => rfl, fun _ _ _ => rfl⟩, ?_⟩
    · intro a b hn
      exact put_ne _ _ fun h => hn ⟨rfl, h⟩
    · refine at_same ?_ e3
      cases e1
      exact (put_self M.sm u w d).trans (put_self (Mats.empty ℝ).sm 0 1 d).symm

theorem setHhS_spec (M : Mats ℝ) {u w : Nat} (hu : u < F.nuroots) (hw : w < F.nuroots) (s t : Bool)
    (hst : s = true → t = true) (hc : Conn F.toFrag (F.addr u) (F.addr w) (.pair s t hst)) :
    ∃ M', setHhS P F M (F.addr u) (F.addr w) (ix s + ix t) = some M' ∧
      Only M M' u w (.pair s t hst) ∧ AtS F M' u w (.pair s t hst) := by
  obtain ⟨h1, h2⟩ := conn_dn hc
  have hD := duo_coherent hM hF (addr_mem hu).1 (addr_mem hw).1 h1 h2
  have hC := duo_conn hM hF (addr_mem hu).1 (addr_mem hw).1 hc (by simp)
  obtain ⟨M1, e1, -, e3⟩ := setHh_spec hP hD (Mats.empty ℝ) (u := 0) (w := 1) (by rw [duo_nuroots]; omega) (by rw [duo_nuroots]; omega)
    s t hst hC
  rw [duo_addr0, duo_addr1] at e1 e3
  unfold setHh at e1
  change Option.map _ (hhdmLoop P (duo F (dnelecHh (ix s + ix t)) (F.addr u) (F.addr w)) 0 1 (ix s + ix t)) = some M1 at e1
  unfold setHhS
  cases hd : hhdmLoop P (duo F (dnelecHh (ix s + ix t)) (F.addr u) (F.addr w)) 0 1 (ix s + ix t) with
  | none => rw [hd] at e1; simp at e1
  | some d =>
    rw [hd, Option.map_some] at e1
    rw [Option.map_some, idx_addr hF hu, idx_addr hF hw]
    refine ⟨_, rfl, ⟨rfl, fun _ _ _ _ => rfl, fun _ _ _ _ => rfl, ?_, fun _ _ _ => rfl, fun _ _ _ => rfl, fun _ _ _ => rfl⟩, ?_⟩
    · intro x a b hn
      exact putS_ne _ _ fun h => hn ⟨⟨s, t, hst, rfl, h.1⟩, h.2⟩
    · refine at_same ?_ e3
      cases e1
      exact (putS_self M.hh _ u w d).trans (putS_self (Mats.empty ℝ).hh _ 0 1 d).symm

theorem dmS_spec (M : Mats ℝ) {u w : Nat} (hu : u < F.nuroots) (hw : w < F.nuroots)
    (hc : Conn F.toFrag (F.addr u) (F.addr w) .dm) {sc : Option (List Nat)} (hs : unmasked sc (F.addr u) (F.addr w) = true)
    (hq : interUniq F u w = true) : ∃ M', dmStepS P F sc M (u, w) = some M' ∧ Only M M' u w .dm ∧ AtS F M' u w .dm := by
  obtain ⟨h1, h2⟩ := conn_dn hc
  obtain ⟨a1, a2, -⟩ := highm_num hM hF (addr_mem hu).1 (addr_mem hw).1 h1 h2
  have he : (duo F dnelecDm (F.addr u) (F.addr w)).nelec 0 = (duo F dnelecDm (F.addr u) (F.addr w)).nelec 1 := by
    simp only [dn, dnelecDm, add_zero] at a1 a2
    exact Prod.ext (by exact_mod_cast a1) (by exact_mod_cast a2)
  obtain ⟨-, hle⟩ := hc
  unfold dmStepS
  dsimp only
  rw [hq, if_neg (by simp), hs, if_neg (by simp), if_pos hle, idx_addr hF hu, idx_addr hF hw]
  refine ⟨_, rfl, ⟨rfl, fun _ _ _ _ => rfl, fun _ _ _ _ => rfl, fun _ _ _ _ => rfl, fun _ _ _ => rfl, ?_, ?_⟩, ?_, ?_⟩
  · intro a b hn
    exact put_ne _ _ fun h => hn ⟨rfl, h⟩
  · intro a b hn
    exact put_ne _ _ fun h => hn ⟨rfl, h⟩
  · refine ⟨_, put_self .., fun a ha b hb s p hp q hq => ?_⟩
    unfold rdm12sLoop
    dsimp only
    rw [if_pos ⟨ha, hb⟩]
    refine (hP.one s F.norb _ _ _ q p hq hp).trans ?_
    rw [← he]
    unfold civ
    rw [show (duo F (dn .dm) (F.addr u) (F.addr w)).nelec 1 = (duo F dnelecDm (F.addr u) (F.addr w)).nelec 0 from he.symm]
    rfl
  · refine ⟨_, put_self .., fun a ha b hb s t p hp q hq r hr x hx => ?_⟩
    unfold rdm12sLoop
    dsimp only
    rw [if_pos ⟨ha, hb⟩]
    refine (hP.two s t F.norb _ _ _ p q r x hp hq hr hx).trans ?_
    rw [← he]
    unfold civ
    rw [show (duo F (dn .dm) (F.addr u) (F.addr w)).nelec 1 = (duo F dnelecDm (F.addr u) (F.addr w)).nelec 0 from he.symm]
    rfl

end steps

/-! ### All steps -/

/-- A step that leaves right entries right and provides the kinds `S`. -/
def DoesS (F : SFrag) (S : Kind → Prop) (sc : Option (List Nat)) (x : Nat × Nat) (M M' : Mats ℝ) : Prop :=
  PresS F M M' ∧ ∀ k, S k → interUniq F x.1 x.2 = true → Conn F.toFrag (F.addr x.1) (F.addr x.2) k →
    unmasked sc (F.addr x.1) (F.addr x.2) = true → AtS F M' x.1 x.2 k

theorem foldS_does {F : SFrag} (S : Kind → Prop) (sc : Option (List Nat)) (step : Mats ℝ → Nat × Nat → Option (Mats ℝ))
    (L : List (Nat × Nat)) (hs : ∀ M, ∀ x ∈ L, ∃ M', step M x = some M' ∧ DoesS F S sc x M M') (M : Mats ℝ)
    (hL : ∀ k u w, u < F.nuroots → w < F.nuroots → S k → Conn F.toFrag (F.addr u) (F.addr w) k → (u, w) ∈ L) :
    ∃ M', L.foldlM step M = some M' ∧ PresS F M M' ∧ ∀ k u w, u < F.nuroots → w < F.nuroots → S k → interUniq F u w = true →
      Conn F.toFrag (F.addr u) (F.addr w) k → unmasked sc (F.addr u) (F.addr w) = true → AtS F M' u w k := by
  obtain ⟨M', hM'⟩ := foldlM_total step L (fun M x hx => by obtain ⟨M', h, -⟩ := hs M x hx; exact ⟨M', h⟩) M
  have hp : ∀ x ∈ L, ∀ M M', step M x = some M' → DoesS F S sc x M M' := by
    intro x hx M M' h
    obtain ⟨M1, h1, h2⟩ := hs M x hx
    rw [h] at h1
    cases h1
    exact h2
  refine ⟨M', hM', ?_, ?_⟩
  · intro k u w h
    exact foldlM_pres step L _ (fun x hx M M' h' h2 => (hp x hx M M' h').1 k u w h2) hM' h
  · intro k u w hu hw hS hq hc hsc
    exact foldlM_set step L (fun M => AtS F M u w k) (fun x hx M M' h' h2 => (hp x hx M M' h').1 k u w h2) hM'
      ⟨(u, w), hL k u w hu hw hS hc, fun M M' h' => (hp _ (hL k u w hu hw hS hc) M M' h').2 k hS hq hc hsc⟩

section all
variable {P : Ext ℝ} {F : SFrag} (hP : Right12 P) (hM : Multiplicities F) (hF : Coherent F.toFrag)
include hP hM hF

theorem dmS_does (sc : Option (List Nat)) (M : Mats ℝ) : ∀ x ∈ spectators F.toFrag,
    ∃ M', dmStepS P F sc M x = some M' ∧ DoesS F IsDm sc x M M' := by
  rintro ⟨u, w⟩ hx
  simp only [spectators, List.mem_flatMap, List.mem_range, List.mem_map, List.mem_filter, Prod.mk.injEq, Bool.and_eq_true,
    decide_eq_true_eq, Bool.not_eq_true', decide_eq_false_iff_not] at hx
  obtain ⟨u', hu, w', ⟨hw, hh, hle⟩, rfl, rfl⟩ := hx
  have hc : Conn F.toFrag (F.addr u') (F.addr w') .dm := by
    rw [hop_eq] at hh
    refine ⟨Prod.ext (by omega) (by omega), ?_⟩
    by_cases h : w' = u'
    · rw [h]
    · exact Nat.le_of_lt (addr_lt hu (by omega))
  by_cases hq : interUniq F u' w' = true
  swap
  · refine ⟨M, ?_, fun _ _ _ h => h, fun k _ h => absurd h hq⟩
    unfold dmStepS
    dsimp only
    rw [if_pos (by simp [hq])]
  by_cases hs : unmasked sc (F.addr u') (F.addr w') = true
  · obtain ⟨M', h1, h2, h3⟩ := dmS_spec hP hM hF M hu hw hc hs hq
    refine ⟨M', h1, presS h2 h3, fun k hk _ _ _ => ?_⟩
    cases k <;> first | exact h3 | exact hk.elim
  · refine ⟨M, ?_, fun _ _ _ h => h, fun k _ _ _ h => absurd h hs⟩
    unfold dmStepS
    dsimp only
    rw [if_neg (by simp [hq]), if_pos (by simp [hs])]

theorem upS_does (sc : Option (List Nat)) (M : Mats ℝ) : ∀ x ∈ upPairs F.toFrag,
    ∃ M', upStepS P F sc M x = some M' ∧ DoesS F IsUp sc x M M' := by
  rintro ⟨u, w⟩ hx
  simp only [upPairs, List.mem_flatMap, List.mem_range, List.mem_map, List.mem_filter, Prod.mk.injEq, decide_eq_true_eq] at hx
  obtain ⟨w', ⟨hw, -⟩, u', ⟨hu, -⟩, rfl, rfl⟩ := hx
  by_cases hq : interUniq F u' w' = true
  swap
  · refine ⟨M, ?_, fun _ _ _ h => h, fun k _ h => absurd h hq⟩
    unfold upStepS
    dsimp only
    rw [if_pos (by simp [hq])]
  by_cases hs : unmasked sc (F.addr u') (F.addr w') = true
  swap
  · refine ⟨M, ?_, fun _ _ _ h => h, fun k _ _ _ h => absurd h hs⟩
    unfold upStepS
    dsimp only
    rw [if_neg (by simp [hq]), if_pos (by simp [hs])]
  unfold upStepS
  dsimp only
  rw [if_neg (by simp [hq]), if_neg (by simp [hs])]
  by_cases h1 : F.hop u' w' = (-1, 0)
  · rw [if_pos h1]
    rw [hop_eq] at h1
    obtain ⟨M', e1, e2, e3⟩ := setHalfS_spec hP hM hF M hu hw false (Prod.ext (by simp [plus]; omega) (by simp [plus]; omega))
    refine ⟨M', e1, presS e2 e3, fun k hk _ hc _ => ?_⟩
    cases k with
    | half s => cases hk; exact e3
    | pair s t hst => cases hk; cases t <;> simp [Conn, plus, Prod.ext_iff] at hc <;> omega
    | flip => simp [Conn, plus, Prod.ext_iff] at hc; omega
    | _ => exact hk.elim
  rw [if_neg h1]
  by_cases h2 : F.hop u' w' = (-1, 1)
  · rw [if_pos h2]
    rw [hop_eq] at h2
    obtain ⟨M', e1, e2, e3⟩ := setSmS_spec hP hM hF M hu hw (Prod.ext (by simp [plus]; omega) (by simp [plus]; omega))
    refine ⟨M', e1, presS e2 e3, fun k hk _ hc _ => ?_⟩
    cases k with
    | half s => cases hk; simp [Conn, plus, Prod.ext_iff] at hc; omega
    | pair s t hst => cases hk; cases t <;> simp [Conn, plus, Prod.ext_iff] at hc <;> omega
    | flip => exact e3
    | _ => exact hk.elim
  rw [if_neg h2]
  by_cases h3 : F.hop u' w' = (-1, -1)
  · rw [if_pos h3]
    rw [hop_eq] at h3
    obtain ⟨M', e1, e2, e3⟩ := setHhS_spec hP hM hF M hu hw false true (by simp) (Prod.ext (by simp [plus]; omega) (by simp [plus]; omega))
    refine ⟨M', e1, presS e2 e3, fun k hk _ hc _ => ?_⟩
    cases k with
    | half s => cases hk; simp [Conn, plus, Prod.ext_iff] at hc; omega
    | pair s t hst =>
      cases hk
      cases t
      · simp [Conn, plus, Prod.ext_iff] at hc; omega
      · exact e3
    | flip => simp [Conn, plus, Prod.ext_iff] at hc; omega
    | _ => exact hk.elim
  rw [if_neg h3]
  by_cases h4 : F.hop u' w' = (-2, 0)
  · rw [if_pos h4]
    rw [hop_eq] at h4
    obtain ⟨M', e1, e2, e3⟩ := setHhS_spec hP hM hF M hu hw false false (by simp) (Prod.ext (by simp [plus]; omega) (by simp [plus]; omega))
    refine ⟨M', e1, presS e2 e3, fun k hk _ hc _ => ?_⟩
    cases k with
    | half s => cases hk; simp [Conn, plus, Prod.ext_iff] at hc; omega
    | pair s t hst =>
      cases hk
      cases t
      · exact e3
      · simp [Conn, plus, Prod.ext_iff] at hc; omega
    | flip => simp [Conn, plus, Prod.ext_iff] at hc; omega
    | _ => exact hk.elim
  rw [if_neg h4]
  refine ⟨M, rfl, fun _ _ _ h => h, fun k hk _ hc _ => ?_⟩
  exfalso
  rw [hop_eq] at h1 h2 h3 h4
  cases k with
  | half s => cases hk; simp [Conn, plus, Prod.ext_iff] at hc; omega
  | pair s t hst => cases hk; cases t <;> simp [Conn, plus, Prod.ext_iff] at hc <;> omega
  | flip => simp [Conn, plus, Prod.ext_iff] at hc; omega
  | _ => exact hk.elim

theorem downS_does (sc : Option (List Nat)) (M : Mats ℝ) : ∀ x ∈ downPairs F.toFrag,
    ∃ M', downStepS P F sc M x = some M' ∧ DoesS F IsDown sc x M M' := by
  rintro ⟨u, w⟩ hx
  simp only [downPairs, List.mem_flatMap, List.mem_range, List.mem_map, List.mem_filter, Prod.mk.injEq, decide_eq_true_eq] at hx
  obtain ⟨w', ⟨hw, -⟩, u', ⟨hu, -⟩, rfl, rfl⟩ := hx
  by_cases hq : interUniq F u' w' = true
  swap
  · refine ⟨M, ?_, fun _ _ _ h => h, fun k _ h => absurd h hq⟩
    unfold downStepS
    dsimp only
    rw [if_pos (by simp [hq])]
  by_cases hs : unmasked sc (F.addr u') (F.addr w') = true
  swap
  · refine ⟨M, ?_, fun _ _ _ h => h, fun k _ _ _ h => absurd h hs⟩
    unfold downStepS
    dsimp only
    rw [if_neg (by simp [hq]), if_pos (by simp [hs])]
  unfold downStepS
  dsimp only
  rw [if_neg (by simp [hq]), if_neg (by simp [hs])]
  by_cases h1 : F.hop u' w' = (0, -1)
  · rw [if_pos h1]
    rw [hop_eq] at h1
    obtain ⟨M', e1, e2, e3⟩ := setHalfS_spec hP hM hF M hu hw true (Prod.ext (by simp [plus]; omega) (by simp [plus]; omega))
    refine ⟨M', e1, presS e2 e3, fun k hk _ hc _ => ?_⟩
    cases k with
    | half s => cases hk; exact e3
    | pair s t hst => cases hk; cases t <;> simp [Conn, plus, Prod.ext_iff] at hc <;> omega
    | _ => exact hk.elim
  rw [if_neg h1]
  by_cases h4 : F.hop u' w' = (0, -2)
  · rw [if_pos h4]
    rw [hop_eq] at h4
    obtain ⟨M', e1, e2, e3⟩ := setHhS_spec hP hM hF M hu hw true true (by simp) (Prod.ext (by simp [plus]; omega) (by simp [plus]; omega))
    refine ⟨M', e1, presS e2 e3, fun k hk _ hc _ => ?_⟩
    cases k with
    | half s => cases hk; simp [Conn, plus, Prod.ext_iff] at hc; omega
    | pair s t hst =>
      cases hk
      cases t
      · simp at hst
      · exact e3
    | _ => exact hk.elim
  rw [if_neg h4]
  refine ⟨M, rfl, fun _ _ _ h => h, fun k hk _ hc _ => ?_⟩
  exfalso
  rw [hop_eq] at h1 h4
  cases k with
  | half s => cases hk; simp [Conn, plus, Prod.ext_iff] at hc; omega
  | pair s t hst =>
    cases hk
    cases t
    · simp at hst
    · simp [Conn, plus, Prod.ext_iff] at hc; omega
  | _ => exact hk.elim

/-- The overlap matrices. -/
theorem ovlpS_spec (sc : Option (List Nat)) (M : Mats ℝ) {u w : Nat} (hu : u < F.nuroots) (hw : w < F.nuroots)
    (hc : F.nelec (F.addr u) = F.nelec (F.addr w))
    (hq : interUniq F u w = true)
    (h : unmasked sc (F.addr u) (F.addr w) = true ∨ At F.toFrag M u w (F.addr u) (F.addr w) .ovlp) :
    At F.toFrag { M with ovlp := makeOvlpS F sc M.ovlp } u w (F.addr u) (F.addr w) .ovlp := by
  let Q : Tab (Nat → Nat → ℝ) → Prop := fun T => ∃ d, T u w = some d ∧
    ∀ a < F.lroots (F.addr u), ∀ b < F.lroots (F.addr w), d a b = ovl F.norb (civ F.toFrag (F.addr u) a) (civ F.toFrag (F.addr w) b)
  show Q (makeOvlpS F sc M.ovlp)
  have hmem : ∀ x ∈ pairs F.urootAddr, ∃ a b, a < b ∧ b < F.nuroots ∧ x = (F.addr a, F.addr b) := by
    intro x hx
    unfold pairs at hx
    rw [List.mem_map] at hx
    obtain ⟨⟨a, b⟩, hab, rfl⟩ := hx
    rw [Verif.Props.mem_combinations2] at hab
    exact ⟨a, b, hab.1, hab.2, rfl⟩
  have hmem' : ∀ a b, a < b → b < F.nuroots → (F.addr a, F.addr b) ∈ pairs F.urootAddr := by
    intro a b h1 h2
    unfold pairs
    rw [List.mem_map]
    exact ⟨(a, b), (Verif.Props.mem_combinations2 _ _ _).2 ⟨h1, h2⟩, rfl⟩
  have hstep : ∀ a b, a < b → b < F.nuroots → ∀ T, Q (ovlpStepS F sc T (F.addr a, F.addr b)) ∨
      (ovlpStepS F sc T (F.addr a, F.addr b) u w = T u w ∧
        ((u = a ∧ w = b ∨ u = b ∧ w = a) → ¬ unmasked sc (F.addr a) (F.addr b) = true)) := by
    intro a b hab hb T
    have ha : a < F.nuroots := by omega
    unfold ovlpStepS
    dsimp only
    by_cases h1 : F.nelec (F.addr a) ≠ F.nelec (F.addr b)
    · rw [if_pos h1]
      refine Or.inr ⟨rfl, ?_⟩
      rintro (⟨rfl, rfl⟩ | ⟨rfl, rfl⟩)
      · exact absurd hc h1
      · exact absurd hc.symm h1
    rw [if_neg h1]
    by_cases h2 : unmasked sc (F.addr a) (F.addr b) = true
    swap
    · rw [if_pos (by simp [h2])]
      exact Or.inr ⟨rfl, fun _ => h2⟩
    rw [if_neg (by simp [h2]), idx_addr hF ha, idx_addr hF hb]
    by_cases h5 : (interUniq F a b || interUniq F b a) = true
    swap
    · rw [if_pos (by simp [h5])]
      refine Or.inr ⟨rfl, ?_⟩
      rintro (⟨rfl, rfl⟩ | ⟨rfl, rfl⟩)
      · exact absurd (by simp [hq]) h5
      · exact absurd (by simp [hq]) h5
    rw [if_neg (by simp [h5])]
    by_cases h3 : u = b ∧ w = a
    · obtain ⟨rfl, rfl⟩ := h3
      refine Or.inl ⟨_, put_self .., fun x hx y hy => ?_⟩
      rw [dotCi_eq F.toFrag hc.symm hy hx, Verif.Tdm.ovl_comm]
    by_cases h4 : u = a ∧ w = b
    · obtain ⟨rfl, rfl⟩ := h4
      refine Or.inl ⟨_, by rw [put_ne _ _ h3]; exact put_self .., fun x hx y hy => ?_⟩
      rw [dotCi_eq F.toFrag hc hx hy]
    · refine Or.inr ⟨by rw [put_ne _ _ h3, put_ne _ _ h4], fun h => ?_⟩
      rcases h with h | h
      · exact absurd h h4
      · exact absurd h h3
  have hdiag : ∀ a, a < F.nuroots → ∀ T, Q (ovlpDiag F.toFrag sc T (F.addr a)) ∨
      (ovlpDiag F.toFrag sc T (F.addr a) u w = T u w ∧ ((u = a ∧ w = a) → ¬ unmasked sc (F.addr a) (F.addr a) = true)) := by
    intro a ha T
    unfold ovlpDiag
    by_cases h2 : unmasked sc (F.addr a) (F.addr a) = true
    swap
    · rw [if_pos (by simp [h2])]
      exact Or.inr ⟨rfl, fun _ => h2⟩
    rw [if_neg (by simp [h2]), idx_addr hF ha]
    by_cases h4 : u = a ∧ w = a
    · obtain ⟨rfl, rfl⟩ := h4
      refine Or.inl ⟨_, put_self .., fun x hx y hy => ?_⟩
      rw [dotCi_eq F.toFrag hc hx hy]
    · exact Or.inr ⟨put_ne _ _ h4, fun h => absurd h h4⟩
  have hp1 : ∀ x ∈ pairs F.urootAddr, ∀ T, Q T → Q (ovlpStepS F sc T x) := by
    intro x hx T hT
    obtain ⟨a, b, hab, hb, rfl⟩ := hmem x hx
    rcases hstep a b hab hb T with h | h
    · exact h
    · show ∃ d, _ = some d ∧ _
      rw [h.1]
      exact hT
  have hp2 : ∀ x ∈ F.urootAddr, ∀ T, Q T → Q (ovlpDiag F.toFrag sc T x) := by
    intro x hx T hT
    obtain ⟨a, ha, rfl⟩ := List.getElem_of_mem hx
    rw [← addr_eq ha]
    rcases hdiag a ha T with h | h
    · exact h
    · show ∃ d, _ = some d ∧ _
      rw [h.1]
      exact hT
  unfold makeOvlpS
  rcases h with h | h
  · rcases Nat.lt_trichotomy u w with huw | huw | huw
    · apply foldl_pres _ _ Q hp2
      refine foldl_set _ _ Q hp1 _ ⟨_, hmem' u w huw hw, fun T => ?_⟩
      rcases hstep u w huw hw T with h' | h'
      · exact h'
      · exact absurd h (h'.2 (Or.inl ⟨rfl, rfl⟩))
    · refine foldl_set _ _ Q hp2 _ ⟨F.addr u, by rw [addr_eq hu]; exact List.getElem_mem hu, fun T => ?_⟩
      rcases hdiag u hu T with h' | h'
      · exact h'
      · rw [← huw] at h
        exact absurd h (h'.2 ⟨rfl, huw.symm⟩)
    · apply foldl_pres _ _ Q hp2
      refine foldl_set _ _ Q hp1 _ ⟨_, hmem' w u huw hu, fun T => ?_⟩
      rcases hstep w u huw hu T with h' | h'
      · exact h'
      · refine absurd ?_ (h'.2 (Or.inr ⟨rfl, rfl⟩))
        unfold unmasked at h ⊢
        cases sc with
        | none => rfl
        | some l => simpa [or_comm] using h
  · apply foldl_pres _ _ Q hp2
    apply foldl_pres _ _ Q hp1
    exact h

/-- `_make_dms_` succeeds; every entry whose rootspaces are not screened out is right, and the others stay right. -/
theorem makeDmsS_spec (sc : Option (List Nat)) (M : Mats ℝ) :
    ∃ M', makeDmsS P F sc M = some M' ∧ ∀ k u w, u < F.nuroots → w < F.nuroots → interUniq F u w = true →
      Conn F.toFrag (F.addr u) (F.addr w) k →
      (unmasked sc (F.addr u) (F.addr w) = true ∨ AtS F M u w k) → AtS F M' u w k := by
  obtain ⟨M1, e1, p1, s1⟩ := foldS_does IsDm sc (dmStepS P F sc) (spectators F.toFrag)
    (fun M x hx => dmS_does hP hM hF sc M x hx) { M with ovlp := makeOvlpS F sc M.ovlp } (by
      intro k u w hu hw hS hc
      cases k <;> first | exact hS.elim | skip
      obtain ⟨hc1, hc2⟩ := hc
      simp only [spectators, List.mem_flatMap, List.mem_range, List.mem_map, List.mem_filter, Prod.mk.injEq, Bool.and_eq_true,
        decide_eq_true_eq, Bool.not_eq_true', decide_eq_false_iff_not]
      refine ⟨u, hu, w, ⟨hw, ?_, fun h => ?_⟩, rfl, rfl⟩
      · rw [hop_eq, hc1]; omega
      · have := addr_lt hw h; omega)
  obtain ⟨M2, e2, p2, s2⟩ := foldS_does IsUp sc (upStepS P F sc) (upPairs F.toFrag)
    (fun M x hx => upS_does hP hM hF sc M x hx) M1 (by
      intro k u w hu hw hS hc
      have hneg : (F.hop u w).1 < 0 := by
        unfold Frag.hop
        cases k with
        | half s => cases hS; simp [Conn, plus, Prod.ext_iff] at hc; omega
        | pair s t hst => cases hS; cases t <;> simp [Conn, plus, Prod.ext_iff] at hc <;> omega
        | flip => simp [Conn, plus, Prod.ext_iff] at hc; omega
        | _ => exact hS.elim
      simp only [upPairs, List.mem_flatMap, List.mem_range, List.mem_map, List.mem_filter, Prod.mk.injEq, decide_eq_true_eq,
        List.any_eq_true]
      exact ⟨w, ⟨hw, u, hu, hneg⟩, u, ⟨hu, hneg⟩, rfl, rfl⟩)
  obtain ⟨M3, e3, p3, s3⟩ := foldS_does IsDown sc (downStepS P F sc) (downPairs F.toFrag)
    (fun M x hx => downS_does hP hM hF sc M x hx) M2 (by
      intro k u w hu hw hS hc
      have hneg : (F.hop u w).2 < 0 := by
        unfold Frag.hop
        cases k with
        | half s => cases hS; simp [Conn, plus, Prod.ext_iff] at hc; omega
        | pair s t hst => cases hS; cases t <;> simp [Conn, plus, Prod.ext_iff] at hc <;> omega
        | _ => exact hS.elim
      simp only [downPairs, List.mem_flatMap, List.mem_range, List.mem_map, List.mem_filter, Prod.mk.injEq, decide_eq_true_eq,
        List.any_eq_true]
      exact ⟨w, ⟨hw, u, hu, hneg⟩, u, ⟨hu, hneg⟩, rfl, rfl⟩)
  refine ⟨M3, by unfold makeDmsS; rw [e1, Option.bind_some, e2, Option.bind_some, e3], ?_⟩
  intro k u w hu hw hq hc h
  have hkeep : AtS F M u w k → k ≠ .ovlp → AtS F M3 u w k := by
    intro h' hk
    refine p3 k u w (p2 k u w (p1 k u w ?_))
    cases k <;> first | exact absurd rfl hk | exact h'
  cases k with
  | ovlp => exact p3 _ u w (p2 _ u w (p1 _ u w (ovlpS_spec hP hM hF sc M hu hw hc hq h)))
  | dm =>
    rcases h with h | h
    · exact p3 _ u w (p2 _ u w (s1 _ u w hu hw trivial hq hc h))
    · exact hkeep h (by simp)
  | flip =>
    rcases h with h | h
    · exact p3 _ u w (s2 _ u w hu hw trivial hq hc h)
    · exact hkeep h (by simp)
  | half s =>
    rcases h with h | h
    · cases s
      · exact p3 _ u w (s2 _ u w hu hw rfl hq hc h)
      · exact s3 _ u w hu hw rfl hq hc h
    · exact hkeep h (by simp)
  | pair s t hst =>
    rcases h with h | h
    · cases s
      · exact p3 _ u w (s2 _ u w hu hw rfl hq hc h)
      · exact s3 _ u w hu hw rfl hq hc h
    · exact hkeep h (by simp)


end all

end Verif.FragSpin
