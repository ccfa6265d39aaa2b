import Verif.Lemmas.HamSpinRow
import Verif.Lemmas.SpinLookup
/-! The entries of a fragment for the states of one spin case from the entries that are not rotated. -/
namespace Verif.HamSpin
open Verif.Lstdm Verif.FciRdm Verif.FragTables Verif.FragSpin Verif.RdmSmult Verif.SpinReduce Finset
open Verif.Spec.Tdm Verif.Spec.RdmSmult Verif.Spec.Spin Verif.Spec.FragSpin Verif.Spec.FragTables Verif.Spec.FciRdm Verif.Spec.Lstdm

/-! ### Singlets -/

theorem singlet_fam {norb na nb : ℕ} {v : SpinOp.Vec} (h : State norb na nb 1 v) :
    Ladder.lowT norb (onStrings norb v) = (fun _ _ => 0) ∧ Ladder.raiT norb (onStrings norb v) = fun _ _ => 0 := by
  obtain ⟨D, hD, h1, -⟩ := SpinFam.family (S := 0) (by norm_num) h.ok h.inSpace h.pure
  have e : v = D 0 := h1 0 (by
    have := h.ok.low; have := h.ok.high
    simp only [Nat.cast_zero]; omega)
  constructor
  · rw [e, hD.low 0]
    funext A B
    rw [SpinFam.c_beyond (le_refl 0)]; ring
  · rw [e]; exact hD.rai0

theorem singlet_hh {norb na nb na' nb' : ℕ} {v w : SpinOp.Vec} (hv : State norb na nb 1 v) (hw : State norb na' nb' 1 w) {x y : ℕ}
    (hx : x < norb) (hy : y < norb) : ovl norb (onStrings norb v) (ann norb true x (ann norb false y (onStrings norb w))) =
      ovl norb (onStrings norb v) (ann norb true y (ann norb false x (onStrings norb w))) := by
  have h := SpinAmp.core_dn (N := norb) (l := []) (r := [(true, x), (true, y)]) (by simp [SpinAmp.Ok])
    (by intro z hz; simp at hz; rcases hz with rfl | rfl <;> assumption) (onStrings norb v) (onStrings norb w)
  rw [(singlet_fam hv).2, (singlet_fam hw).1, SpinAmp.anns_zero, SpinAmp.anns_zero, SpinAmp.ovl_zero_left] at h
  have z : ovl norb (SpinAmp.anns norb [] (onStrings norb v)) (fun _ _ => (0 : ℝ)) = 0 := by simp [ovl]
  rw [z] at h
  simp [SpinAmp.dL, SpinAmp.dU, SpinAmp.anns] at h
  have e := SpinAmp.amp_exch (N := norb) (fun _ => onStrings norb v) (fun _ => onStrings norb w) [] (false, x) (true, y) [] hx hy 0 0
  simp only [SpinAmp.amp, SpinAmp.anns] at e
  linarith

theorem singlet_dm1 {norb na nb na' nb' : ℕ} {v w : SpinOp.Vec} (hv : State norb na nb 1 v) (hw : State norb na' nb' 1 w) {x y : ℕ}
    (hx : x < norb) (hy : y < norb) : tdm1 norb (onStrings norb v) (onStrings norb w) false x y =
      tdm1 norb (onStrings norb v) (onStrings norb w) true x y := by
  have h := SpinAmp.core_dn (N := norb) (l := [(false, x)]) (r := [(true, y)]) (by simp [SpinAmp.Ok, hx]) (by simp [SpinAmp.Ok, hy])
    (onStrings norb v) (onStrings norb w)
  rw [(singlet_fam hv).2, (singlet_fam hw).1, SpinAmp.anns_zero, SpinAmp.anns_zero, SpinAmp.ovl_zero_left] at h
  have z : ∀ φ : Vec ℝ, ovl norb φ (fun _ _ => (0 : ℝ)) = 0 := by intro φ; simp [ovl]
  rw [z] at h
  simp [SpinAmp.dL, SpinAmp.dU, SpinAmp.anns] at h
  unfold tdm1
  linarith

/-! ### The factors -/

/-- `SpinKern.scaleOf` as a function of the quantum numbers. -/
noncomputable def sc (d : ℤ × ℤ) (sb sk m : ℤ) : Option ℝ :=
  if d = (-1, 0) then some (scaleH sb 0 sk m)
  else if d = (0, -1) then some (scaleH sb 1 sk m)
  else if d = (-2, 0) then some (scaleHh sb 0 sk m)
  else if d = (-1, -1) then some (scaleHh sb 1 sk m)
  else if d = (0, -2) then some (scaleHh sb 2 sk m)
  else if d = (-1, 1) then some (scaleSm sb sk m)
  else if d = (0, 0) then some (scaleDm sb sk m)
  else none

/-- `SpinKern.factorConstant`. -/
noncomputable def kap (d : ℤ × ℤ) (sb sk mb mk : ℤ) : Option ℝ :=
  if d.1 > 0 ∨ (d.1 = 0 ∧ d.2 > 0) then sc (-d) sk sb mb else sc d sb sk mk

/-- `nelec` of the bra minus `nelec` of the ket. -/
def dif (F : SFrag) (i j : Nat) : ℤ × ℤ := (((F.nelec i).1 : ℤ) - (F.nelec j).1, ((F.nelec i).2 : ℤ) - (F.nelec j).2)

theorem dif_swap (F : SFrag) (i j : Nat) : dif F j i = -dif F i j := by
  unfold dif
  ext <;> simp

theorem factor_eq (k : SpinKern) (f i j : Nat) {sb sk : ℤ} (eb : (k.frag f).smult i = some sb) (ek : (k.frag f).smult j = some sk) :
    k.factorConstant f i j = kap (dif (k.frag f) i j) sb sk ((k.frag f).spin i) ((k.frag f).spin j) := by
  have h : k.scaleOf f j i = sc (-dif (k.frag f) i j) sk sb ((k.frag f).spin i) := by
    rw [← dif_swap]
    unfold SpinKern.scaleOf sc
    dsimp only
    rw [eb, ek]; rfl
  have h' : k.scaleOf f i j = sc (dif (k.frag f) i j) sb sk ((k.frag f).spin j) := by
    unfold SpinKern.scaleOf sc
    dsimp only
    rw [eb, ek]; rfl
  unfold SpinKern.factorConstant kap
  rw [h, h']; rfl

theorem component_eq (k : SpinKern) (f i j c : Nat) {sb sk : ℤ} (eb : (k.frag f).smult i = some sb) (ek : (k.frag f).smult j = some sk) :
    k.factorComponent f i j c = if c = 0 then 1 else mu sb sk ((k.frag f).spin j) := by
  unfold SpinKern.factorComponent mu
  dsimp only
  rw [eb, ek]
  simp only [ne_eq, Option.some.injEq, Option.getD_some]
  by_cases h : c = 0
  · simp [h]
  · simp only [h, or_false, if_false]

theorem scaleDm_symm (sb sk m : ℤ) : scaleDm sk sb m = scaleDm sb sk m := by
  unfold scaleDm
  rcases lt_trichotomy sb sk with h | h | h
  · rw [if_pos h, if_neg (by omega)]
  · subst h; rfl
  · rw [if_neg (by omega), if_pos h]

theorem mu_symm (sb sk m : ℤ) : mu sk sb m = mu sb sk m := by
  unfold mu
  by_cases h : sb = sk
  · subst h; rfl
  · rw [if_pos h, if_pos (fun e => h e.symm)]

/-! ### The entries -/

variable {F : SFrag} {M : Mats ℝ} {u w a b : Nat}

theorem byPos_inter (F : SFrag) (u w : Nat) : interMap (SpinKern.byPos F) u w = interMap F u w := rfl

section
variable (hF : Coherent F.toFrag) (hu : u < F.nuroots) (hw : w < F.nuroots)
include hF hu hw

theorem inter_pos : interMap F (F.urootIdx (F.addr u)) (F.urootIdx (F.addr w)) = interMap F u w := by
  rw [idx_addr hF hu, idx_addr hF hw]

end

/-- The rotated entries. -/
structure LoEq (F : SFrag) (A : FragInt ℝ) (M : Mats ℝ) (u w a b : Nat) (sb sk : ℤ) (P Q : Nat) : Prop where
  h : ∀ s x, A.h s P Q x = ((M.h s (interMap F u w).1 (interMap F u w).2).map fun d => mdownH (d a b) sb s sk (F.spin (F.addr w)) x).getD 0
  hh : ∀ s x y, A.hh s P Q x y =
    ((M.hh s (interMap F u w).1 (interMap F u w).2).map fun d => mdownHh (d a b) sb s sk (F.spin (F.addr w)) x y).getD 0
  phh : ∀ s t x p q, A.phh s P Q t x p q =
    ((M.phh s (interMap F u w).1 (interMap F u w).2).map fun d => mdownPhh (d a b) sb s sk (F.spin (F.addr w)) t x p q).getD 0
  sm : ∀ x y, A.sm P Q x y =
    ((M.sm (interMap F u w).1 (interMap F u w).2).map fun d => mdownSm (d a b) sb sk (F.spin (F.addr w)) x y).getD 0
  dm1 : ∀ s x y, A.dm1 P Q s x y =
    ((M.dm1 (interMap F u w).1 (interMap F u w).2).map fun d => mdownDm1 (d a b) sb sk (F.spin (F.addr w)) s x y).getD 0
  dm2 : ∀ s x y z q, A.dm2 P Q s x y z q =
    ((M.dm2 (interMap F u w).1 (interMap F u w).2).map fun d => mdownDm2 (d a b) sb sk (F.spin (F.addr w)) s x y z q).getD 0
  upper : A.upper P Q = decide ((interMap F u w).2 > (interMap F u w).1)

theorem lo_eq (hF : Coherent F.toFrag) (hu : u < F.nuroots) (hw : w < F.nuroots) {sb sk : ℤ} (eb : F.smult (F.addr u) = some sb)
    (ek : F.smult (F.addr w) = some sk) :
    LoEq F (toFragIntS (SpinKern.byPos F) M) M u w a b sb sk (Nat.pair u a) (Nat.pair w b) := by
  have e1 : ∀ x y, (SpinKern.byPos F).rootaddr (Nat.pair x y) = F.addr x := by
    intro x y
    show F.addr (Nat.unpair (Nat.pair x y)).1 = _
    rw [Nat.unpair_pair]
  have e2 : ∀ x y, (SpinKern.byPos F).fragaddr (Nat.pair x y) = y := by
    intro x y
    show (Nat.unpair (Nat.pair x y)).2 = _
    rw [Nat.unpair_pair]
  have e3 : ∀ x, (SpinKern.byPos F).smult x = F.smult x := fun _ => rfl
  have e4 : ∀ x, (SpinKern.byPos F).spin x = F.spin x := fun _ => rfl
  have e5 : ∀ x, (SpinKern.byPos F).urootIdx x = F.urootIdx x := fun _ => rfl
  constructor <;> intros <;> unfold toFragIntS <;>
    simp only [e1, e2, e3, e4, e5, byPos_inter, inter_pos hF hu hw, eb, ek, rotated]

/-- The entries that are not rotated. -/
structure HiEq (F : SFrag) (B : FragInt ℝ) (M : Mats ℝ) (u w a b : Nat) (P Q : Nat) : Prop where
  h : ∀ s x, B.h s P Q x = ((M.h s (interMap F u w).1 (interMap F u w).2).map fun d => d a b x).getD 0
  hh : ∀ s x y, B.hh s P Q x y = ((M.hh s (interMap F u w).1 (interMap F u w).2).map fun d => d a b x y).getD 0
  phh : ∀ s t x p q, B.phh s P Q t x p q = ((M.phh s (interMap F u w).1 (interMap F u w).2).map fun d => d a b t x p q).getD 0
  sm : ∀ x y, B.sm P Q x y = ((M.sm (interMap F u w).1 (interMap F u w).2).map fun d => d a b x y).getD 0
  dm1 : ∀ s x y, B.dm1 P Q s x y = ((M.dm1 (interMap F u w).1 (interMap F u w).2).map fun d => d a b s x y).getD 0
  dm2 : ∀ s x y z q, B.dm2 P Q s x y z q = ((M.dm2 (interMap F u w).1 (interMap F u w).2).map fun d => d a b s x y z q).getD 0
  upper : B.upper P Q = decide ((interMap F u w).2 > (interMap F u w).1)

theorem hi_eq (hF : Coherent F.toFrag) (hu : u < F.nuroots) (hw : w < F.nuroots) :
    HiEq F (toFragIntHigh (SpinKern.byPos F) M) M u w a b (Nat.pair u a) (Nat.pair w b) := by
  have e1 : ∀ x y, (SpinKern.byPos F).rootaddr (Nat.pair x y) = F.addr x := by
    intro x y
    show F.addr (Nat.unpair (Nat.pair x y)).1 = _
    rw [Nat.unpair_pair]
  have e2 : ∀ x y, (SpinKern.byPos F).fragaddr (Nat.pair x y) = y := by
    intro x y
    show (Nat.unpair (Nat.pair x y)).2 = _
    rw [Nat.unpair_pair]
  have e5 : ∀ x, (SpinKern.byPos F).urootIdx x = F.urootIdx x := fun _ => rfl
  constructor <;> intros <;> unfold toFragIntHigh <;>
    simp only [e1, e2, e5, byPos_inter, inter_pos hF hu hw]

section
variable (hM : Multiplicities F) (hF : Coherent F.toFrag) (hN : Manifolds F)
include hM hF hN

theorem inter_swap (hu : u < F.nuroots) : interMap F w u = ((interMap F u w).2, (interMap F u w).1) := by
  by_cases h : u = w
  · subst h
    have := interMap_diag hM hF hN hu
    ext
    · exact this
    · exact this.symm
  · exact interMap_swap F h

omit hN in
theorem proj_of (hu : u < F.nuroots) {s : ℤ} (e : F.smult (F.addr u) = some s) : Proj s (F.spin (F.addr u)) := by
  have h := hM.ok _ (addr_mem hu).1 s e
  have h4 := h.parity
  refine ⟨h.low, h.high, ?_⟩
  unfold SFrag.spin
  omega

end

section
variable {A B : FragInt ℝ} {P Q P' Q' u' w' : Nat} {sb sk : ℤ} (lo : LoEq F A M u w a b sb sk P Q) (hiq : HiEq F B M u' w' a b P' Q')
  (hE : interMap F u' w' = interMap F u w)
include lo hiq hE

theorem red_h (s x : Nat) : A.h s P Q x = B.h s P' Q' x * scaleH sb s sk (F.spin (F.addr w)) := by
  rw [lo.h, hiq.h, hE]
  cases M.h s (interMap F u w).1 (interMap F u w).2 with
  | none => simp
  | some d => rfl

theorem red_phh {s : Nat} (hs : s = 0 ∨ s = 1) (hk : Proj sk (F.spin (F.addr w)))
    (hb : Proj sb (F.spin (F.addr w) + (if s = 0 then -1 else 1))) (x p q : Nat) :
    ∑ t ∈ range 2, A.phh s P Q t x p q = (∑ t ∈ range 2, B.phh s P' Q' t x p q) * scaleH sb s sk (F.spin (F.addr w)) := by
  simp only [lo.phh, hiq.phh, hE]
  cases M.phh s (interMap F u w).1 (interMap F u w).2 with
  | none => simp
  | some d => exact phh_sum (d a b) hs hk hb x p q

theorem red_hh {s : Nat} (hs : s ≠ 1) (x y : Nat) : A.hh s P Q x y = B.hh s P' Q' x y * scaleHh sb s sk (F.spin (F.addr w)) := by
  rw [lo.hh, hiq.hh, hE]
  cases M.hh s (interMap F u w).1 (interMap F u w).2 with
  | none => simp
  | some d => exact hh_other (d a b) sb hs sk _ x y

theorem red_hhS (hk : Proj sk (F.spin (F.addr w))) (x y : Nat) :
    A.hh 1 P Q x y + A.hh 1 P Q y x = (B.hh 1 P' Q' x y + B.hh 1 P' Q' y x) * scaleHh sb 1 sk (F.spin (F.addr w)) := by
  simp only [lo.hh, hiq.hh, hE]
  cases M.hh 1 (interMap F u w).1 (interMap F u w).2 with
  | none => simp
  | some d => exact hh_sym (d a b) hk x y

theorem red_hhA (hk : Proj sk (F.spin (F.addr w))) (x y : Nat) (h1 : sb = 1 → sk = 1 → A.hh 1 P Q x y = A.hh 1 P Q y x) :
    A.hh 1 P Q x y - A.hh 1 P Q y x =
      (B.hh 1 P' Q' x y - B.hh 1 P' Q' y x) * scaleHh sb 1 sk (F.spin (F.addr w)) * mu sb sk (F.spin (F.addr w)) := by
  simp only [lo.hh, hiq.hh, hE] at h1 ⊢
  cases h : M.hh 1 (interMap F u w).1 (interMap F u w).2 with
  | none => simp
  | some d =>
    rw [h] at h1
    exact hh_anti (d a b) hk x y h1

theorem red_sm (x y : Nat) : A.sm P Q x y = B.sm P' Q' x y * scaleSm sb sk (F.spin (F.addr w)) := by
  rw [lo.sm, hiq.sm, hE]
  cases M.sm (interMap F u w).1 (interMap F u w).2 with
  | none => simp
  | some d => rfl

theorem red_ch (hk : Proj sk (F.spin (F.addr w))) (x y : Nat) :
    A.dm1 P Q 0 x y + A.dm1 P Q 1 x y = (B.dm1 P' Q' 0 x y + B.dm1 P' Q' 1 x y) * scaleDm sb sk (F.spin (F.addr w)) := by
  simp only [lo.dm1, hiq.dm1, hE]
  cases M.dm1 (interMap F u w).1 (interMap F u w).2 with
  | none => simp
  | some d => exact dm1_ch (d a b) hk x y

theorem red_sn (hk : Proj sk (F.spin (F.addr w))) (x y : Nat) (h1 : sb = 1 → sk = 1 → A.dm1 P Q 0 x y = A.dm1 P Q 1 x y) :
    A.dm1 P Q 0 x y - A.dm1 P Q 1 x y =
      (B.dm1 P' Q' 0 x y - B.dm1 P' Q' 1 x y) * scaleDm sb sk (F.spin (F.addr w)) * mu sb sk (F.spin (F.addr w)) := by
  simp only [lo.dm1, hiq.dm1, hE] at h1 ⊢
  cases h : M.dm1 (interMap F u w).1 (interMap F u w).2 with
  | none => simp
  | some d =>
    rw [h] at h1
    exact dm1_sp (d a b) hk x y h1

theorem red_dd (hk : Proj sk (F.spin (F.addr w))) (hb : Proj sb (F.spin (F.addr w))) (x y z q : Nat)
    (h : ∀ st, st = 0 ∨ st = 3 → B.dm2 P' Q' st x q z y = -B.dm2 P' Q' st x y z q) :
    ∑ st ∈ range 4, A.dm2 P Q st x y z q = (∑ st ∈ range 4, B.dm2 P' Q' st x y z q) * scaleDm sb sk (F.spin (F.addr w)) := by
  simp only [lo.dm2, hiq.dm2, hE] at h ⊢
  cases hd : M.dm2 (interMap F u w).1 (interMap F u w).2 with
  | none => simp
  | some d =>
    rw [hd] at h
    exact dm2_sum (d a b) hk hb x y z q (h 0 (Or.inl rfl)) (h 3 (Or.inr rfl))

theorem red_ss (hk : Proj sk (F.spin (F.addr w))) (hb : Proj sb (F.spin (F.addr w))) (p r : Nat)
    (h : ∀ st, st = 0 ∨ st = 3 → B.dm2 P' Q' st p r r p = -B.dm2 P' Q' st p p r r) :
    (A.dm2 P Q 0 p p r r + A.dm2 P Q 3 p p r r - A.dm2 P Q 1 p p r r - A.dm2 P Q 2 p p r r) / 4 -
      (A.dm2 P Q 1 p r r p + A.dm2 P Q 2 p r r p) / 2 =
    ((B.dm2 P' Q' 0 p p r r + B.dm2 P' Q' 3 p p r r - B.dm2 P' Q' 1 p p r r - B.dm2 P' Q' 2 p p r r) / 4 -
      (B.dm2 P' Q' 1 p r r p + B.dm2 P' Q' 2 p r r p) / 2) * scaleDm sb sk (F.spin (F.addr w)) := by
  simp only [lo.dm2, hiq.dm2, hE] at h ⊢
  cases hd : M.dm2 (interMap F u w).1 (interMap F u w).2 with
  | none => simp
  | some d =>
    rw [hd] at h
    exact dm2_ss (d a b) hk hb p r (h 0 (Or.inl rfl)) (h 3 (Or.inr rfl))

end

section
variable (hM : Multiplicities F) (hF : Coherent F.toFrag) (hN : Manifolds F) (hT : FilledS F M)
  (hu : u < F.nuroots) (hw : w < F.nuroots) (ha : a < F.lroots (F.addr u)) (hb : b < F.lroots (F.addr w))
  {A B : FragInt ℝ} {P Q P' Q' u' w' : Nat} {sb sk : ℤ}
include hM hF hN hT hu hw ha hb

theorem sing_hh (eb : F.smult (F.addr u) = some sb) (ek : F.smult (F.addr w) = some sk) (lo : LoEq F A M u w a b sb sk P Q)
    (hd : dif F (F.addr u) (F.addr w) = (-1, -1)) {x y : Nat} (hx : x < F.norb) (hy : y < F.norb) (h1 : sb = 1) (h2 : sk = 1) :
    A.hh 1 P Q x y = A.hh 1 P Q y x := by
  subst h1 h2
  unfold dif at hd
  simp only [Prod.mk.injEq] at hd
  have ed : dn (.pair false true (by decide)) = (-1, -1) := rfl
  have d1 : ((F.nelec (F.addr u)).1 : ℤ) = (F.nelec (F.addr w)).1 + (dn (.pair false true (by decide))).1 := by rw [ed]; dsimp only; omega
  have d2 : ((F.nelec (F.addr u)).2 : ℤ) = (F.nelec (F.addr w)).2 + (dn (.pair false true (by decide))).2 := by rw [ed]; dsimp only; omega
  have L := look hM hF hN hT (k := .pair false true (by decide)) (by simp) hu hw d1 d2 (by simp)
  have key : ∀ x y, x < F.norb → y < F.norb → A.hh 1 P Q x y =
      ovl F.norb (onStrings F.norb (F.vecS (F.addr u) a)) (ann F.norb true x (ann F.norb false y (onStrings F.norb (F.vecS (F.addr w) b)))) := by
    intro x y hx hy
    obtain ⟨d, e1, e2⟩ := look_hh hM (addr_mem hu) (addr_mem hw) ha hb (by decide) L d1 d2 hx hy
    rw [agree_ovl (agree_vecS F (F.addr u) a) (agree_ann (agree_ann (agree_vecS F (F.addr w) b) false hy) true hx), ← e2, lo.hh]
    have e1' : M.hh 1 (interMap F u w).1 (interMap F u w).2 = some d := e1
    rw [e1', eb, ek]; rfl
  have sv := hM.state _ (addr_mem hu).1 (addr_mem hu).2 1 eb a ha
  have sw := hM.state _ (addr_mem hw).1 (addr_mem hw).2 1 ek b hb
  rw [key x y hx hy, key y x hy hx]
  exact singlet_hh sv sw hx hy

theorem sing_dm1 (eb : F.smult (F.addr u) = some sb) (ek : F.smult (F.addr w) = some sk) (lo : LoEq F A M u w a b sb sk P Q)
    (he : F.nelec (F.addr u) = F.nelec (F.addr w)) (hle : (interMap F u w).2 ≤ (interMap F u w).1) {x y : Nat} (hx : x < F.norb)
    (hy : y < F.norb) (h1 : sb = 1) (h2 : sk = 1) : A.dm1 P Q 0 x y = A.dm1 P Q 1 x y := by
  subst h1 h2
  have ed : dn .dm = (0, 0) := rfl
  have L := look hM hF hN hT (k := .dm) (by simp) hu hw (by rw [ed, he]; simp) (by rw [ed, he]; simp) (fun _ => hle)
  have key : ∀ s, A.dm1 P Q (ix s) x y =
      tdm1 F.norb (onStrings F.norb (F.vecS (F.addr u) a)) (onStrings F.norb (F.vecS (F.addr w) b)) s x y := by
    intro s
    obtain ⟨d, e1, e2⟩ := look_dm1 hM (addr_mem hu) (addr_mem hw) ha hb L he s hx hy
    rw [agree_tdm1 (agree_vecS F (F.addr u) a) (agree_vecS F (F.addr w) b) s hx hy, ← e2, lo.dm1, e1, eb, ek]; rfl
  have sv := hM.state _ (addr_mem hu).1 (addr_mem hu).2 1 eb a ha
  have sw := hM.state _ (addr_mem hw).1 (addr_mem hw).2 1 ek b hb
  exact (key false).trans ((singlet_dm1 sv sw hx hy).trans (key true).symm)

/-- Two annihilators of the same spin. -/
theorem anti_dm2 (hiq : HiEq F B M u' w' a b P' Q') (hE : interMap F u' w' = interMap F u w)
    (he : F.nelec (F.addr u) = F.nelec (F.addr w)) (hle : (interMap F u w).2 ≤ (interMap F u w).1) {x y z q : Nat} (hx : x < F.norb)
    (hy : y < F.norb) (hz : z < F.norb) (hq : q < F.norb) (st : Nat) (hst : st = 0 ∨ st = 3) :
    B.dm2 P' Q' st x q z y = -B.dm2 P' Q' st x y z q := by
  have ed : dn .dm = (0, 0) := rfl
  have L := look hM hF hN hT (k := .dm) (by simp) hu hw (by rw [ed, he]; simp) (by rw [ed, he]; simp) (fun _ => hle)
  obtain ⟨-, ⟨d, g1, g2⟩⟩ := L.val
  rw [hiq.dm2, hiq.dm2, hE, g1]
  have hv := g2 a (by rw [L.bra]; exact ha) b (by rw [L.ket]; exact hb)
  obtain ⟨s, rfl⟩ : ∃ s : Bool, st = 2 * ix s + ix s := by
    rcases hst with rfl | rfl
    · exact ⟨false, rfl⟩
    · exact ⟨true, rfl⟩
  show d a b (2 * ix s + ix s) x q z y = -d a b (2 * ix s + ix s) x y z q
  rw [hv s s x hx q hq z hz y hy, hv s s x hx y hy z hz q hq]
  exact SpinAmp.amp_exch (fun _ => civ (duo F (dn .dm) (F.addr (interMap F u w).1) (F.addr (interMap F u w).2)) 0 a)
    (fun _ => civ (duo F (dn .dm) (F.addr (interMap F u w).1) (F.addr (interMap F u w).2)) 1 b) [(s, z), (s, x)] (s, y) (s, q) [] hy hq 0 0

end

theorem kap_h {s : Nat} (hs : s < 2) (sb sk mb mk : ℤ) : kap (dH s) sb sk mb mk = some (scaleH sb s sk mk) := by
  have : s = 0 ∨ s = 1 := by omega
  rcases this with rfl | rfl <;> simp [kap, sc, dH]

theorem kap_p {s : Nat} (hs : s < 2) (sb sk mb mk : ℤ) : kap (-dH s) sb sk mb mk = some (scaleH sk s sb mb) := by
  have : s = 0 ∨ s = 1 := by omega
  rcases this with rfl | rfl <;> simp [kap, sc, dH]

theorem reduces (hM : Multiplicities F) (hF : Coherent F.toFrag) (hN : Manifolds F) (hT : FilledS F M)
    (hu : u < F.nuroots) (hw : w < F.nuroots) (ha : a < F.lroots (F.addr u)) (hb : b < F.lroots (F.addr w))
    {A B : FragInt ℝ} {P Q P' Q' u' w' : Nat} (hu' : u' < F.nuroots) (hw' : w' < F.nuroots) {sb sk : ℤ}
    (eb : F.smult (F.addr u) = some sb) (ek : F.smult (F.addr w) = some sk) (lo : LoEq F A M u w a b sb sk P Q)
    (lo' : LoEq F A M w u b a sk sb Q P) (hiq : HiEq F B M u' w' a b P' Q') (hiq' : HiEq F B M w' u' b a Q' P')
    (hE : interMap F u' w' = interMap F u w) {κ : ℝ}
    (hκ : kap (dif F (F.addr u) (F.addr w)) sb sk (F.spin (F.addr u)) (F.spin (F.addr w)) = some κ) :
    Reduces F.norb A B P Q P' Q' (dif F (F.addr u) (F.addr w)) κ (mu sb sk (F.spin (F.addr w))) := by
  have hE' : interMap F w' u' = interMap F w u := by
    rw [inter_swap hM hF hN hu', inter_swap hM hF hN hu, hE]
  have pb := proj_of hM hF hu eb
  have pk := proj_of hM hF hw ek
  have hdd : ∀ d, dif F (F.addr u) (F.addr w) = d → F.spin (F.addr u) - F.spin (F.addr w) = d.1 - d.2 := by
    rintro d rfl
    unfold dif SFrag.spin
    dsimp only; omega
  have hsw : ∀ d, dif F (F.addr u) (F.addr w) = d → dif F (F.addr w) (F.addr u) = -d := by
    rintro d rfl; exact dif_swap F _ _
  have hne : dif F (F.addr u) (F.addr w) = (0, 0) → F.nelec (F.addr u) = F.nelec (F.addr w) := by
    intro h
    unfold dif at h
    simp only [Prod.mk.injEq] at h
    ext <;> omega
  have hup : A.upper P Q = B.upper P' Q' := by rw [lo.upper, hiq.upper, hE]
  have nup : ¬ A.upper P Q = true → (interMap F u w).2 ≤ (interMap F u w).1 := by
    intro h
    rw [lo.upper] at h
    simpa using h
  have yup : A.upper P Q = true → (interMap F w u).2 ≤ (interMap F w u).1 := by
    intro h
    rw [lo.upper] at h
    rw [inter_swap hM hF hN hu]
    have : (interMap F u w).1 < (interMap F u w).2 := by simpa using h
    exact this.le
  generalize hD : dif F (F.addr u) (F.addr w) = D at hκ
  constructor
  · intro s hs e x
    subst e
    rw [kap_h hs, Option.some.injEq] at hκ
    subst hκ
    exact red_h lo hiq hE s x
  · intro s hs e x
    subst e
    rw [kap_p hs, Option.some.injEq] at hκ
    subst hκ
    exact red_h lo' hiq' hE' s x
  · intro s hs e x y z
    subst e
    rw [kap_h hs, Option.some.injEq] at hκ
    subst hκ
    refine red_phh lo hiq hE (by omega) pk ?_ z x y
    have h3 := hdd _ hD
    have : F.spin (F.addr w) + (if s = 0 then -1 else 1) = F.spin (F.addr u) := by
      unfold dH at h3
      split_ifs at h3 ⊢ <;> simp at h3 <;> omega
    rw [this]; exact pb
  · intro s hs e x y z
    subst e
    rw [kap_p hs, Option.some.injEq] at hκ
    subst hκ
    refine red_phh lo' hiq' hE' (by omega) pb ?_ x z y
    have h3 := hdd _ hD
    have : F.spin (F.addr u) + (if s = 0 then -1 else 1) = F.spin (F.addr w) := by
      unfold dH at h3
      split_ifs at h3 ⊢ <;> simp at h3 <;> omega
    rw [this]; exact pk
  · intro s e x y
    have h : s ≠ 1 ∧ κ = scaleHh sb s sk (F.spin (F.addr w)) := by
      rcases e with ⟨rfl, rfl⟩ | ⟨rfl, rfl⟩ <;> simp [kap, sc] at hκ <;> exact ⟨by decide, hκ.symm⟩
    rw [h.2]
    exact red_hh lo hiq hE h.1 x y
  · intro s e x y
    have h : s ≠ 1 ∧ κ = scaleHh sk s sb (F.spin (F.addr u)) := by
      rcases e with ⟨rfl, rfl⟩ | ⟨rfl, rfl⟩ <;> simp [kap, sc] at hκ <;> exact ⟨by decide, hκ.symm⟩
    rw [h.2]
    exact red_hh lo' hiq' hE' h.1 y x
  · intro e x y
    subst e
    simp [kap, sc] at hκ
    subst hκ
    exact red_hhS lo hiq hE pk x y
  · intro e x hx y hy
    subst e
    simp [kap, sc] at hκ
    subst hκ
    exact red_hhA lo hiq hE pk x y (sing_hh hM hF hN hT hu hw ha hb eb ek lo hD hx hy)
  · intro e x y
    subst e
    simp [kap, sc] at hκ
    subst hκ
    exact red_hhS lo' hiq' hE' pb y x
  · intro e x hx y hy
    subst e
    simp [kap, sc] at hκ
    subst hκ
    have h3 := hdd _ hD
    have : mu sb sk (F.spin (F.addr w)) = mu sk sb (F.spin (F.addr u)) := by
      rw [show F.spin (F.addr u) = F.spin (F.addr w) by simp at h3; omega, mu_symm]
    rw [this]
    exact red_hhA lo' hiq' hE' pb y x (sing_hh hM hF hN hT hw hu hb ha ek eb lo' (by rw [hsw _ hD]; rfl) hy hx)
  · intro e x y
    subst e
    simp [kap, sc] at hκ
    subst hκ
    exact red_sm lo hiq hE x y
  · intro e x y
    subst e
    simp [kap, sc] at hκ
    subst hκ
    exact red_sm lo' hiq' hE' y x
  all_goals
    intro e
    subst e
    have hnn := hne hD
    have hsp : F.spin (F.addr u) = F.spin (F.addr w) := by unfold SFrag.spin; rw [hnn]
    simp [kap, sc] at hκ
    subst hκ
    have hs1 : scaleDm sb sk (F.spin (F.addr w)) = scaleDm sk sb (F.spin (F.addr u)) := by rw [hsp, scaleDm_symm]
    have hm1 : mu sb sk (F.spin (F.addr w)) = mu sk sb (F.spin (F.addr u)) := by rw [hsp, mu_symm]
    have pb' := pb
    rw [hsp] at pb'
    have pk' := pk
    rw [← hsp] at pk'
    by_cases up : A.upper P Q = true
  · have up' := up
    rw [hup] at up'
    intro x y
    unfold cs FragInt.get1Dm1
    simp only [up, up', if_true]
    rw [hs1]
    exact red_ch lo' hiq' hE' pb y x
  · have up' := up
    rw [hup] at up'
    intro x y
    unfold cs FragInt.get1Dm1
    simp only [up, up', if_true, if_false]
    exact red_ch lo hiq hE pk x y
  · have up' := up
    rw [hup] at up'
    intro x hx y hy
    unfold cs FragInt.get1Dm1
    simp only [up, up', if_true, one_ne_zero, if_false]
    rw [hs1, hm1]
    exact red_sn lo' hiq' hE' pb y x (sing_dm1 hM hF hN hT hw hu hb ha ek eb lo' hnn.symm (yup up) hy hx)
  · have up' := up
    rw [hup] at up'
    intro x hx y hy
    unfold cs FragInt.get1Dm1
    simp only [up, up', one_ne_zero, if_false]
    exact red_sn lo hiq hE pk x y (sing_dm1 hM hF hN hT hu hw ha hb eb ek lo hnn (nup up) hx hy)
  · have up' := up
    rw [hup] at up'
    intro x hx y hy z hz q hq
    unfold FragInt.get1Dm2
    simp only [up, up', if_true]
    rw [hs1]
    exact red_dd lo' hiq' hE' pb pk' y x q z (anti_dm2 hM hF hN hT hw hu hb ha hiq' hE' hnn.symm (yup up) hy hx hq hz)
  · have up' := up
    rw [hup] at up'
    intro x hx y hy z hz q hq
    unfold FragInt.get1Dm2
    simp only [up, up', if_false]
    exact red_dd lo hiq hE pk pb' x y z q (anti_dm2 hM hF hN hT hu hw ha hb hiq hE hnn (nup up) hx hy hz hq)
  · have up' := up
    rw [hup] at up'
    unfold FragInt.get1Dm2
    simp only [up, up', if_true]
    rw [hs1]
    simp only [sum_sub_distrib]
    have c : ∀ X : FragInt ℝ, ∀ P Q, ∑ p ∈ range F.norb, ∑ r ∈ range F.norb, (X.dm2 P Q 1 r p p r + X.dm2 P Q 2 r p p r) / 2 =
        ∑ p ∈ range F.norb, ∑ r ∈ range F.norb, (X.dm2 P Q 1 p r r p + X.dm2 P Q 2 p r r p) / 2 := fun X P Q => sum_comm
    rw [c, c, ← sum_sub_distrib, ← sum_sub_distrib, sum_mul]
    refine sum_congr rfl fun p hp => ?_
    rw [← sum_sub_distrib, ← sum_sub_distrib, sum_mul]
    refine sum_congr rfl fun r hr => ?_
    rw [mem_range] at hp hr
    exact red_ss lo' hiq' hE' pb pk' p r (anti_dm2 hM hF hN hT hw hu hb ha hiq' hE' hnn.symm (yup up) hp hp hr hr)
  · have up' := up
    rw [hup] at up'
    unfold FragInt.get1Dm2
    simp only [up, up', if_false]
    rw [sum_mul]
    refine sum_congr rfl fun p hp => ?_
    rw [sum_mul]
    refine sum_congr rfl fun r hr => ?_
    rw [mem_range] at hp hr
    exact red_ss lo hiq hE pk pb' p r (anti_dm2 hM hF hN hT hu hw ha hb hiq hE hnn (nup up) hp hp hr hr)

end Verif.HamSpin
