import Verif.Props.Spaces
import Verif.Spec.AnyM
/-!
# C21: `get_single_any_m` finds an excitation whenever there is one
-/
namespace Verif.Props
open Verif.Spec Verif.Spaces

theorem getSingle_exists (f : NCsf) (hf : CsfCounts f) (sp : Space) (h : Shaped sp) (i a : Nat) (hi : i < sp.nfrag)
    (ha : a < sp.nfrag) (hia : i ≠ a) (alpha : Bool) (si sa : Int)
    (oi : ∃ na nb, FragOcc sp i na nb) (oa : ∃ na nb, FragOcc sp a na nb) :
    (∃ new, sp.getSingle f i a (if alpha then 0 else 1) si sa = .ok new) ↔
      Removable sp i alpha si ∧ Addable sp a alpha sa := by
  obtain ⟨na, nb, o⟩ := oi
  obtain ⟨na', nb', o'⟩ := oa
  obtain ⟨r1, r2⟩ := raw_occ sp h i a hi ha hia alpha si sa
  have q1 := occ_counts (r1 _ _ o)
  have q2 := occ_counts (r2 _ _ o')
  have s1 := (raw_el sp h i a hi ha (if alpha then 0 else 1) si sa i).2.2
  have s2 := (raw_el sp h i a hi ha (if alpha then 0 else 1) si sa a).2.2
  have hai : ¬ a = i := fun e => hia e.symm
  simp only [hia, hai, if_true, if_false, add_zero] at s1 s2
  have un : ∀ k x y x' y', FragOcc sp k x y → FragOcc sp k x' y' → x = x' ∧ y = y' := by
    intro k x y x' y' h1 h2
    unfold FragOcc at h1 h2
    omega
  constructor
  · rintro ⟨new, hn⟩
    obtain ⟨-, h1, h2⟩ := (getSingle_ok_iff f hf sp new i a _ si sa).mp hn
    rw [q1.1, q1.2, s1] at h1
    rw [q2.1, q2.2, s2] at h2
    refine ⟨⟨na, nb, o, ?_⟩, ⟨na', nb', o', ?_⟩⟩
    · cases alpha <;> simpa [sub_eq_add_neg] using h1
    · cases alpha <;> simpa using h2
  · rintro ⟨⟨x, y, ox, hx⟩, ⟨x', y', ox', hx'⟩⟩
    obtain ⟨rfl, rfl⟩ := un i _ _ _ _ ox o
    obtain ⟨rfl, rfl⟩ := un a _ _ _ _ ox' o'
    refine ⟨_, (getSingle_ok_iff f hf sp _ i a _ si sa).mpr ⟨rfl, ?_, ?_⟩⟩
    · rw [q1.1, q1.2, s1]
      cases alpha <;> simpa [sub_eq_add_neg] using hx
    · rw [q2.1, q2.2, s2]
      cases alpha <;> simpa using hx'

theorem removable_alpha (sp : Space) (i : Nat) (ds : Int) (hds : ds = 1 ∨ ds = -1) (hok : FragOk sp i) :
    (Removable sp i true ds ↔ (sp.neleca i > 0 ∧ |el sp.spins i - 1| < el sp.smults i + ds) ∧
      el sp.smults i + ds ≤ sp.nelec i) ∧
    (Removable sp i false ds ↔ (sp.nelecb i > 0 ∧ |el sp.spins i + 1| < el sp.smults i + ds) ∧
      el sp.smults i + ds ≤ sp.nelec i) := by
  obtain ⟨na, nb, o, r⟩ := hok
  obtain ⟨e1, e2⟩ := occ_counts o
  have hn : sp.nelec i = na + nb := by unfold FragOcc at o; unfold Space.nelec; omega
  have hm : el sp.spins i = na - nb := by unfold FragOcc at o; omega
  have un : ∀ x y, FragOcc sp i x y → x = na ∧ y = nb := by
    intro x y h1
    unfold FragOcc at h1 o
    omega
  rw [e1, e2, hn, hm]
  unfold Removable Realizable at *
  constructor <;> constructor
  · rintro ⟨x, y, ox, hx⟩
    obtain ⟨rfl, rfl⟩ := un x y ox
    simp only [if_true, abs_le, abs_lt] at *
    omega
  · intro hx
    refine ⟨na, nb, o, ?_⟩
    simp only [if_true, abs_le, abs_lt] at *
    omega
  · rintro ⟨x, y, ox, hx⟩
    obtain ⟨rfl, rfl⟩ := un x y ox
    simp only [Bool.false_eq_true, if_false, abs_le, abs_lt] at *
    omega
  · intro hx
    refine ⟨na, nb, o, ?_⟩
    simp only [Bool.false_eq_true, if_false, abs_le, abs_lt] at *
    omega

theorem addable_alpha (sp : Space) (i : Nat) (ds : Int) (hds : ds = 1 ∨ ds = -1) (hok : FragOk sp i) :
    (Addable sp i true ds ↔ (sp.nholea i > 0 ∧ |el sp.spins i + 1| < el sp.smults i + ds) ∧
      el sp.smults i + ds ≤ 2 * el sp.nlas i - sp.nelec i) ∧
    (Addable sp i false ds ↔ (sp.nholeb i > 0 ∧ |el sp.spins i - 1| < el sp.smults i + ds) ∧
      el sp.smults i + ds ≤ 2 * el sp.nlas i - sp.nelec i) := by
  obtain ⟨na, nb, o, r⟩ := hok
  obtain ⟨e1, e2⟩ := occ_counts o
  have hn : sp.nelec i = na + nb := by unfold FragOcc at o; unfold Space.nelec; omega
  have hm : el sp.spins i = na - nb := by unfold FragOcc at o; omega
  have un : ∀ x y, FragOcc sp i x y → x = na ∧ y = nb := by
    intro x y h1
    unfold FragOcc at h1 o
    omega
  unfold Space.nholea Space.nholeb
  rw [e1, e2, hn, hm]
  unfold Addable Realizable at *
  constructor <;> constructor
  · rintro ⟨x, y, ox, hx⟩
    obtain ⟨rfl, rfl⟩ := un x y ox
    simp only [if_true, abs_le, abs_lt] at *
    omega
  · intro hx
    refine ⟨na, nb, o, ?_⟩
    simp only [if_true, abs_le, abs_lt] at *
    omega
  · rintro ⟨x, y, ox, hx⟩
    obtain ⟨rfl, rfl⟩ := un x y ox
    simp only [Bool.false_eq_true, if_false, abs_le, abs_lt] at *
    omega
  · intro hx
    refine ⟨na, nb, o, ?_⟩
    simp only [Bool.false_eq_true, if_false, abs_le, abs_lt] at *
    omega

theorem even_sum_pos (l : List Int) (h : ∀ x ∈ l, 0 ≤ x ∧ x % 2 = 0) :
    (0 ≤ l.sum ∧ l.sum % 2 = 0) ∧ (l.sum / 2 ≠ 0 ↔ ∃ x ∈ l, 0 < x) := by
  induction l with
  | nil => simp
  | cons y l ih =>
    obtain ⟨⟨i1, i2⟩, i3⟩ := ih (fun x hx => h x (List.mem_cons_of_mem _ hx))
    obtain ⟨y1, y2⟩ := h y (List.mem_cons_self ..)
    rw [List.sum_cons]
    refine ⟨⟨by omega, by omega⟩, ?_⟩
    simp only [List.mem_cons, exists_eq_or_imp]
    rw [← i3]
    omega

theorem sumOthers_ne (n i a : Nat) (x : Nat → Int) (h : ∀ p, p < n → 0 ≤ x p ∧ x p % 2 = 0) :
    Space.sumOthers n i a x / 2 ≠ 0 ↔ ∃ p, p < n ∧ p ≠ i ∧ p ≠ a ∧ 0 < x p := by
  unfold Space.sumOthers
  rw [(even_sum_pos _ ?_).2]
  · simp only [List.mem_map, List.mem_filter, List.mem_range, Bool.and_eq_true, Bool.not_eq_true',
      beq_eq_false_iff_ne, exists_exists_and_eq_and]
    constructor
    · rintro ⟨p, ⟨h1, h2, h3⟩, h4⟩; exact ⟨p, h1, h2, h3, h4⟩
    · rintro ⟨p, h1, h2, h3, h4⟩; exact ⟨p, ⟨h1, h2, h3⟩, h4⟩
  · intro y hy
    simp only [List.mem_map, List.mem_filter, List.mem_range] at hy
    obtain ⟨p, ⟨hp, -⟩, rfl⟩ := hy
    exact h p hp

theorem firstOther_exists {n i a : Nat} {cond : Nat → Bool} (h : ∃ p, p < n ∧ p ≠ i ∧ p ≠ a ∧ cond p = true) :
    ∃ p, Space.firstOther n i a cond = .ok p := by
  unfold Space.firstOther
  obtain ⟨p, h1, h2, h3, h4⟩ := h
  have : p ∈ (List.range n).filter (fun p => (!(p == i) && !(p == a)) && cond p) := by
    simp [h1, h2, h3, h4]
  cases hl : (List.range n).filter (fun p => (!(p == i) && !(p == a)) && cond p) with
  | nil => rw [hl] at this; simp at this
  | cons q qs => exact ⟨q, rfl⟩

/-- The two steps through a third fragment `p` succeed exactly when the electron can leave `i` and enter `a`. -/
theorem two_steps (f : NCsf) (hf : CsfCounts f) (sp : Space) (h : Shaped sp)
    (hok : ∀ k, k < sp.nfrag → FragOk sp k) (i a p : Nat)
    (hi : i < sp.nfrag) (ha : a < sp.nfrag) (hp : p < sp.nfrag) (hia : i ≠ a) (hpi : p ≠ i) (hpa : p ≠ a)
    (alpha : Bool) (dsi dsa : Int)
    (hroom : if alpha then el sp.spins p < el sp.smults p - 1 else el sp.spins p > 1 - el sp.smults p) :
    (∃ mid new, sp.getSingle f i p (if alpha then 0 else 1) dsi (if sp.nholeu p > 0 then 1 else -1) = .ok mid ∧
      mid.getSingle f p a (if alpha then 1 else 0) (-(if sp.nholeu p > 0 then 1 else -1)) dsa = .ok new) ↔
    Removable sp i alpha dsi ∧ Addable sp a (!alpha) dsa := by
  have occ : ∀ (s : Space) k, FragOk s k → ∃ na nb, FragOcc s k na nb := by
    rintro s k ⟨x, y, o, -⟩; exact ⟨x, y, o⟩
  obtain ⟨na, nb, o, r⟩ := hok p hp
  obtain ⟨e1, e2⟩ := occ_counts o
  have hm : el sp.spins p = na - nb := by unfold FragOcc at o; omega
  have hu : sp.nholeu p = el sp.nlas p - (na + nb + (el sp.smults p - 1)) / 2 := by
    unfold Space.nholeu Space.nelecu Space.nelec
    have : el sp.nelelas p - el sp.charges p = na + nb := o.1.symm
    rw [this]
  set dsp : Int := if sp.nholeu p > 0 then 1 else -1 with hdsp
  have hd : (sp.nholeu p > 0 ∧ dsp = 1) ∨ (¬ sp.nholeu p > 0 ∧ dsp = -1) := by
    rw [hdsp]; split_ifs <;> simp_all
  have hadd : Addable sp p alpha dsp := by
    refine ⟨na, nb, o, ?_⟩
    unfold Realizable at *
    cases alpha
    · simp only [Bool.false_eq_true, if_false, abs_le] at *
      omega
    · simp only [if_true, abs_le] at *
      omega
  have key : ∀ mid, sp.getSingle f i p (if alpha then 0 else 1) dsi dsp = .ok mid →
      ((∃ new, mid.getSingle f p a (if alpha then 1 else 0) (-dsp) dsa = .ok new) ↔ Addable sp a (!alpha) dsa) := by
    intro mid hmid
    have A := anyM_of_one f hf sp mid h hok i p hi hp (Ne.symm hpi) alpha dsi dsp hmid
    have hn : mid.nfrag = sp.nfrag := by unfold Space.nfrag; rw [A.orbs.1]
    have G := C21_get_single f hf sp mid h i p hi hp (Ne.symm hpi) alpha dsi dsp (occ _ _ (hok i hi)) ⟨na, nb, o⟩ hmid
    have op := G.2.2.2.2.2.2.2.1 na nb o
    have hsm := G.2.2.2.2.2.2.2.2.2.1
    have hsame := G.2.2.2.2.2.1 a (Ne.symm hia) (Ne.symm hpa)
    have E := getSingle_exists f hf mid A.orbs.2.2 p a (by omega) (by omega) hpa (!alpha) (-dsp) dsa
      (occ _ _ (A.ok p hp)) (occ _ _ (A.ok a ha))
    have e : (if (!alpha) = true then (0 : Int) else 1) = if alpha then 1 else 0 := by cases alpha <;> rfl
    rw [e] at E
    rw [E]
    have hrem : Removable mid p (!alpha) (-dsp) := by
      unfold Removable
      rw [A.orbs.1, hsm]
      cases alpha
      · simp only [Bool.false_eq_true, if_false] at op hroom
        refine ⟨_, _, op, ?_⟩
        unfold Realizable at *
        simp only [Bool.not_false, if_true, abs_le] at *
        omega
      · simp only [if_true] at op hroom
        refine ⟨_, _, op, ?_⟩
        unfold Realizable at *
        simp only [Bool.not_true, Bool.false_eq_true, if_false, abs_le] at *
        omega
    have hA : Addable mid a (!alpha) dsa ↔ Addable sp a (!alpha) dsa := by
      unfold Addable FragOcc
      rw [A.orbs.1, A.orbs.2.1, hsame.1, hsame.2.1, hsame.2.2]
    rw [hA]
    exact ⟨fun x => x.2, fun x => ⟨hrem, x⟩⟩
  have E1 := getSingle_exists f hf sp h i p hi hp (Ne.symm hpi) alpha dsi dsp (occ _ _ (hok i hi)) ⟨na, nb, o⟩
  constructor
  · rintro ⟨mid, new, h1, h2⟩
    exact ⟨(E1.mp ⟨mid, h1⟩).1, (key mid h1).mp ⟨new, h2⟩⟩
  · rintro ⟨h1, h2⟩
    obtain ⟨mid, hm'⟩ := E1.mpr ⟨h1, hadd⟩
    obtain ⟨new, hn⟩ := (key mid hm').mpr h2
    exact ⟨mid, new, hm', hn⟩

theorem bind_ok {r : Except Err Space} {g : Space → Space} :
    (∃ new, (r >>= fun n0 => pure (g n0)) = .ok new) ↔ ∃ n0, r = .ok n0 := by
  cases r with
  | error e => simp [bind, Except.bind]
  | ok n => simp [bind, Except.bind, pure, Except.pure]

theorem branches {Ra Rb Aa Ab Pia Pib Paa Pab Qi Qa U D : Prop} (ra : Ra ↔ Pia ∧ Qi) (rb : Rb ↔ Pib ∧ Qi)
    (aa : Aa ↔ Paa ∧ Qa) (ab : Ab ↔ Pab ∧ Qa) :
    (Pia ∧ Paa → (Ra ∧ Aa ↔ (Rb ∧ Ab ∨ Ra ∧ Aa) ∨ (Ra ∧ Ab ∧ U) ∨ (Rb ∧ Aa ∧ D))) ∧
    (Pib ∧ Pab → (Rb ∧ Ab ↔ (Rb ∧ Ab ∨ Ra ∧ Aa) ∨ (Ra ∧ Ab ∧ U) ∨ (Rb ∧ Aa ∧ D))) ∧
    (Pia ∧ Pab → U → (Ra ∧ Ab ↔ (Rb ∧ Ab ∨ Ra ∧ Aa) ∨ (Ra ∧ Ab ∧ U) ∨ (Rb ∧ Aa ∧ D))) ∧
    (Pib ∧ Paa → D → (Rb ∧ Aa ↔ (Rb ∧ Ab ∨ Ra ∧ Aa) ∨ (Ra ∧ Ab ∧ U) ∨ (Rb ∧ Aa ∧ D))) ∧
    (¬ (Pia ∧ Paa) → ¬ (Pib ∧ Pab) → ¬ ((Pia ∧ Pab) ∧ U) → ¬ ((Pib ∧ Paa) ∧ D) →
      ¬ ((Rb ∧ Ab ∨ Ra ∧ Aa) ∨ (Ra ∧ Ab ∧ U) ∨ (Rb ∧ Aa ∧ D))) := by
  subst_vars
  rw [ra, rb, aa, ab]
  refine ⟨?_, ?_, ?_, ?_, ?_⟩ <;> by_cases Qi <;> by_cases Qa <;> simp_all <;> tauto

/-- C21, `get_single_any_m`: a rootspace is returned exactly when one electron can move from `i` to `a` with the
requested changes of multiplicity, either keeping its spin or with the change of projection taken up by a third
fragment. -/
theorem C21_any_m_complete (f : NCsf) (hf : CsfCounts f) (setOrder : List Nat → List Nat) (sp : Space) (h : Shaped sp)
    (hok : ∀ k, k < sp.nfrag → FragOk sp k) (i a : Nat) (hi : i < sp.nfrag) (ha : a < sp.nfrag) (hia : i ≠ a)
    (dsi dsa : Int) (hdi : dsi = 1 ∨ dsi = -1) (hda : dsa = 1 ∨ dsa = -1) :
    (∃ new, sp.getSingleAnyM f setOrder i a dsi dsa = .ok new) ↔
      (∃ alpha, Removable sp i alpha dsi ∧ Addable sp a alpha dsa) ∨
      (Removable sp i true dsi ∧ Addable sp a false dsa ∧ CanRaise sp i a) ∨
      (Removable sp i false dsi ∧ Addable sp a true dsa ∧ CanLower sp i a) := by
  have occ : ∀ k, k < sp.nfrag → ∃ na nb, FragOcc sp k na nb := by
    intro k hk
    obtain ⟨x, y, o, -⟩ := hok k hk
    exact ⟨x, y, o⟩
  obtain ⟨ra, rb⟩ := removable_alpha sp i dsi hdi (hok i hi)
  obtain ⟨aa, ab⟩ := addable_alpha sp a dsa hda (hok a ha)
  have num : ∀ p, p < sp.nfrag → |el sp.spins p| ≤ el sp.smults p - 1 ∧ (el sp.smults p - 1 - el sp.spins p) % 2 = 0 := by
    intro p hp
    obtain ⟨x, y, o, r⟩ := hok p hp
    unfold Realizable at r
    have : el sp.spins p = x - y := by unfold FragOcc at o; omega
    rw [this]
    exact ⟨r.2.2.2.2.1, r.2.2.2.2.2.1⟩
  have up : Space.sumOthers sp.nfrag i a (fun p => el sp.smults p - 1 - el sp.spins p) / 2 ≠ 0 ↔ CanRaise sp i a := by
    rw [sumOthers_ne]
    · unfold CanRaise
      constructor
      · rintro ⟨p, h1, h2, h3, h4⟩; exact ⟨p, h1, h2, h3, by omega⟩
      · rintro ⟨p, h1, h2, h3, h4⟩; exact ⟨p, h1, h2, h3, by omega⟩
    · intro p hp
      have := num p hp
      rw [abs_le] at this
      omega
  have dn : Space.sumOthers sp.nfrag i a (fun p => el sp.spins p + el sp.smults p - 1) / 2 ≠ 0 ↔ CanLower sp i a := by
    rw [sumOthers_ne]
    · unfold CanLower
      constructor
      · rintro ⟨p, h1, h2, h3, h4⟩; exact ⟨p, h1, h2, h3, by omega⟩
      · rintro ⟨p, h1, h2, h3, h4⟩; exact ⟨p, h1, h2, h3, by omega⟩
    · intro p hp
      have := num p hp
      rw [abs_le] at this
      omega
  have ga := getSingle_exists f hf sp h i a hi ha hia true dsi dsa (occ i hi) (occ a ha)
  have gb := getSingle_exists f hf sp h i a hi ha hia false dsi dsa (occ i hi) (occ a ha)
  simp only [if_true, Bool.false_eq_true, if_false] at ga gb
  unfold Space.getSingleAnyM
  simp only []
  simp only [Bool.and_eq_true, decide_eq_true_eq]
  simp only [Bool.exists_bool]
  have B := branches (U := CanRaise sp i a) (D := CanLower sp i a) ra rb aa ab
  split_ifs with c1 c2 c3 c4
  · rw [bind_ok, ga]; exact B.1 c1
  · rw [bind_ok, gb]; exact B.2.1 c2
  · have cr := up.mp c3.2
    obtain ⟨p, hp⟩ := firstOther_exists (n := sp.nfrag) (i := i) (a := a)
      (cond := fun p => decide (el sp.spins p < el sp.smults p - 1)) (by simpa [CanRaise] using cr)
    obtain ⟨p1, p2, p3, p4⟩ := firstOther_ok hp
    have T := two_steps f hf sp h hok i a p hi ha p1 hia p2 p3 true dsi dsa (by simpa using p4)
    simp only [if_true, Bool.not_true] at T
    have : (∃ n0, (do
        let p ← Space.firstOther sp.nfrag i a fun p => decide (el sp.spins p < el sp.smults p - 1)
        let mid ← sp.getSingle f i p 0 dsi (if sp.nholeu p > 0 then 1 else -1)
        let new ← mid.getSingle f p a 1 (-(if sp.nholeu p > 0 then 1 else -1)) dsa
        pure (new.setEntmap setOrder sp true)) = .ok n0) ↔
        Removable sp i true dsi ∧ Addable sp a false dsa := by
      rw [← T, hp]
      simp only [bind, Except.bind]
      cases hm : sp.getSingle f i p 0 dsi (if sp.nholeu p > 0 then 1 else -1) with
      | error e => simp
      | ok mid =>
        simp only [Except.ok.injEq, exists_eq_left', exists_and_left]
        exact bind_ok
    rw [this]
    exact B.2.2.1 c3.1 cr
  · have cr := dn.mp c4.2
    obtain ⟨p, hp⟩ := firstOther_exists (n := sp.nfrag) (i := i) (a := a)
      (cond := fun p => decide (el sp.spins p > 1 - el sp.smults p)) (by simpa [CanLower] using cr)
    obtain ⟨p1, p2, p3, p4⟩ := firstOther_ok hp
    have T := two_steps f hf sp h hok i a p hi ha p1 hia p2 p3 false dsi dsa (by simpa using p4)
    simp only [Bool.false_eq_true, if_false, Bool.not_false] at T
    have : (∃ n0, (do
        let p ← Space.firstOther sp.nfrag i a fun p => decide (el sp.spins p > 1 - el sp.smults p)
        let mid ← sp.getSingle f i p 1 dsi (if sp.nholeu p > 0 then 1 else -1)
        let new ← mid.getSingle f p a 0 (-(if sp.nholeu p > 0 then 1 else -1)) dsa
        pure (new.setEntmap setOrder sp true)) = .ok n0) ↔
        Removable sp i false dsi ∧ Addable sp a true dsa := by
      rw [← T, hp]
      simp only [bind, Except.bind]
      cases hm : sp.getSingle f i p 1 dsi (if sp.nholeu p > 0 then 1 else -1) with
      | error e => simp
      | ok mid =>
        simp only [Except.ok.injEq, exists_eq_left', exists_and_left]
        exact bind_ok
    rw [this]
    exact B.2.2.2.1 c4.1 cr
  · simp only [throw, throwThe, MonadExceptOf.throw]
    constructor
    · rintro ⟨n0, hn0⟩; simp at hn0
    · intro hx
      exact absurd hx (B.2.2.2.2 c1 c2 (fun x => c3 ⟨x.1, up.mpr x.2⟩) (fun x => c4 ⟨x.1, dn.mpr x.2⟩))

/-- The hypotheses hold of the example space, and the electron can move. -/
example : (∃ new, demoSpace.getSingleAnyM demoCsf id 0 1 1 1 = .ok new) ∧ Shaped demoSpace ∧
    ∀ k, k < demoSpace.nfrag → FragOk demoSpace k :=
  ⟨⟨⟨[2, 2], [2, 2], [-1, 1], [2, 2], [1, -1], 0, [[0, 1]]⟩, by decide⟩, ⟨rfl, rfl, rfl, rfl⟩, demo_ok⟩

end Verif.Props
