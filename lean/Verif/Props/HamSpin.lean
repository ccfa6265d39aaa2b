import Verif.Lemmas.HamSpinLink
import Mathlib.Logic.Encodable.Basic
import Mathlib.Logic.Equiv.List
/-!
# C109: Hamiltonian and spin-squared matrices computed once per spin manifold
-/
namespace Verif.Props
open Verif.Lstdm Verif.FciRdm Verif.FragTables Verif.FragSpin Verif.HamSpin Verif.Spec Verif.Spec.Tdm Verif.Spec.Lstdm Verif.Spec.FragTables
open Verif.Spec.FragSpin Verif.Spec.HamSpin Verif.Spec.FciRdm Verif.Props.FragSpin

theorem HamSpin.prod_congr {ns : List Nat} {v w : Nat → Vec ℝ} (h : ∀ f < ns.length, v f = w f) : prodVec ns v = prodVec ns w := by
  funext A B
  unfold prodVec
  exact Finset.prod_congr rfl fun f hf => by rw [h f (Finset.mem_range.1 hf)]

/-- **C109 (partial).** The tables of every fragment were made, and updated any number of times, with spin multiplicities that are those
of the vectors. Then the function that computes, for each group of interactions that differ only in the spin projections of the
fragments, the operator of one of them and reduces it to the others with spin factors, ends without exception, and the elements of its
results at the addresses of two model states are `⟨bra|H|ket⟩` and `⟨bra|S²|ket⟩` of the two products of fragment vectors.
Missing: one-electron integrals that differ for the two spins (violated, see below), collisions of hashes and of fingerprints, and more
than eight fragments. -/
theorem C109_manifolds_exact_partial {P : Ext ℝ} (hP : Right12 P) (k : SpinKern) (hk : Ready k) (F : Nat → SFrag)
    (hF : ∀ f < k.nlas.length, Coherent (F f).toFrag ∧ Multiplicities (F f) ∧ Reached P (F f) (k.frag f) (k.mats f))
    (h8 : k.nlas.length ≤ 8) (hN : NoHashCollision k) (hC : NoCollision k.toKern) (H : Ham ℝ)
    (hspin : ∀ p q, H.h1 1 p q = H.h1 0 p q) (hone : ∀ s p q, H.h1 s p q = H.h1 s q p)
    (htwo : ∀ p q r u, H.h2 p q r u = H.h2 q p u r) (hswap : ∀ p q r u, H.h2 p q r u = H.h2 r u p q) :
    ∃ M, k.hamKernelS H = some M ∧ ∀ r r' e e', r < k.nroots → r' < k.nroots →
      (∀ f < k.nlas.length, e f < (k.frag f).lroots r) → (∀ f < k.nlas.length, e' f < (k.frag f).lroots r') →
      let bra := prodVec k.nlas (fun f => civ (k.frag f).toFrag ((k.frag f).rep r) (e f))
      let ket := prodVec k.nlas (fun f => civ (k.frag f).toFrag ((k.frag f).rep r') (e' f))
      M.1 (address k.toKern r e) (address k.toKern r' e') = hamEl k.nlas.sum (fun s => H.h1 (ix s)) H.h2 bra ket ∧
      M.2 (address k.toKern r e) (address k.toKern r' e') = s2El k.nlas.sum bra ket := by
  obtain ⟨M, m1, m2⟩ := HamSpin.exact hk (fun f hf => (reached_spec hP (hF f hf).1 (hF f hf).2.1 (hF f hf).2.2).2.2) h8 hN hC
    (by funext p q; exact hspin p q) hone htwo hswap
  refine ⟨M, m1, fun r r' e e' hr hr' he he' => ?_⟩
  have := m2 r r' e e' hr hr' he he'
  change M.1 (address k.toKern r e) (address k.toKern r' e') = hamEl _ _ _ (prodVec k.nlas fun f => wv k f (k.toKern.uroot f r) (e f))
    (prodVec k.nlas fun f => wv k f (k.toKern.uroot f r') (e' f)) ∧ M.2 (address k.toKern r e) (address k.toKern r' e') =
    s2El _ (prodVec k.nlas fun f => wv k f (k.toKern.uroot f r) (e f)) (prodVec k.nlas fun f => wv k f (k.toKern.uroot f r') (e' f)) at this
  rw [HamSpin.prod_congr fun f hf => wv_uroot hk f r (e f) hf hr, HamSpin.prod_congr fun f hf => wv_uroot hk f r' (e' f) hf hr'] at this
  exact this

/-- **C109.** The results are those of the algorithm that evaluates every interaction by itself, with the rotated tables. -/
theorem C109_as_without_manifolds {P : Ext ℝ} (hP : Right12 P) (k : SpinKern) (hk : Ready k) (F : Nat → SFrag)
    (hF : ∀ f < k.nlas.length, Coherent (F f).toFrag ∧ Multiplicities (F f) ∧ Reached P (F f) (k.frag f) (k.mats f))
    (h8 : k.nlas.length ≤ 8) (hN : NoHashCollision k) (H : Ham ℝ)
    (hspin : ∀ p q, H.h1 1 p q = H.h1 0 p q) (hswap : ∀ p q r u, H.h2 p q r u = H.h2 r u p q) :
    k.hamKernelS H = k.toKern.hamKernel H :=
  HamSpin.kernel_eq hk (fun f hf => (reached_spec hP (hF f hf).1 (hF f hf).2.1 (hF f hf).2.2).2.2) h8 hN
    (by funext p q; exact hspin p q) fun p q r s => (hswap p q r s).symm

/-! ### An example, and the violation for integrals that depend on the spin -/

namespace HamSpin

/-- `n` fragments with a doublet each, in two rootspaces: all spins up, all spins down. -/
noncomputable def demoK (n : Nat) (M : Mats ℝ) : SpinKern where
  nlas := List.replicate n 2
  nroots := 2
  frag _ := { demo 1 with spman := manifolds (demo 1) }
  mats _ := M
  hash l := (Encodable.encode l : Int)

theorem demoK_ready (n : Nat) (M : Mats ℝ) : Ready (demoK n M) := by
  have hl : (demoK n M).nlas.length = n := List.length_replicate
  refine ⟨Nat.zero_lt_two, fun f hf => ?_, fun _ _ => rfl, fun _ _ _ _ => ⟨Nat.zero_lt_one, rfl⟩, fun _ _ _ _ => rfl,
    fun _ _ => demo_coherent 1, fun _ _ => ?_, fun _ _ => C107_manifolds (demo_mult 1) demo_normalized⟩
  · have : (demoK n M).nlas.getD f 0 = 2 := List.getD_replicate _ (by omega)
    rw [this]
    exact ⟨Nat.zero_lt_two, rfl⟩
  · exact ⟨(demo_mult 1).rep, (demo_mult 1).ok, (demo_mult 1).room, (demo_mult 1).state⟩

theorem demoK_noHash (n : Nat) (M : Mats ℝ) : NoHashCollision (demoK n M) := by
  intro tab _ x _ y _ h
  have h : (Encodable.encode ((demoK n M).spmanWords x) : Int) = Encodable.encode ((demoK n M).spmanWords y) := h
  exact Encodable.encode_injective (by exact_mod_cast h)

theorem demoK_noCollision1 (M : Mats ℝ) : NoCollision (demoK 1 M).toKern := by
  have h : NoCollision (demoK 1 (Mats.empty ℝ)).toKern := by
    unfold NoCollision
    decide +kernel
  exact h

theorem demoK_noCollision2 (M : Mats ℝ) : NoCollision (demoK 2 M).toKern := by
  have h : NoCollision (demoK 2 (Mats.empty ℝ)).toKern := by
    unfold NoCollision
    decide +kernel
  exact h

end HamSpin
open HamSpin

/-- Non-vacuity: two fragments with a doublet each; the tables exist, and all conditions hold. -/
example : ∃ M, Right12 (exactExt : Ext ℝ) ∧ Ready (demoK 2 M) ∧ (∀ f < (demoK 2 M).nlas.length, Coherent (demo 1).toFrag ∧
    Multiplicities (demo 1) ∧ Reached exactExt (demo 1) ((demoK 2 M).frag f) ((demoK 2 M).mats f)) ∧ (demoK 2 M).nlas.length ≤ 8 ∧
    NoHashCollision (demoK 2 M) ∧ NoCollision (demoK 2 M).toKern := by
  obtain ⟨M, h1, h2⟩ := init_spec exactExt_right (demo_coherent 1) (demo_mult 1)
  exact ⟨M, exactExt_right, demoK_ready 2 M, fun f _ => ⟨demo_coherent 1, demo_mult 1, .made h1⟩, (by decide : 2 ≤ 8), demoK_noHash 2 M, demoK_noCollision2 M⟩

namespace HamSpin

/-- Integrals that count the electrons with spin up. -/
def upH : Ham ℝ where
  h1 s p q := if s = 0 ∧ p = q then 1 else 0
  h2 _ _ _ _ := 0

/-- Integrals that count all electrons. -/
def bothH : Ham ℝ where
  h1 _ p q := if p = q then 1 else 0
  h2 _ _ _ _ := 0

/-- The fragment of `demoK`. -/
noncomputable def demoF : SFrag := { demo 1 with spman := manifolds (demo 1) }

theorem demoF_map (r : Nat) (hr : r < 2) : interMap demoF r r = (1, 1) := by
  have hk : ∀ x ∈ product2 demoF.nuroots, x.1 = x.2 → interKey demoF x = interKey demoF (1, 1) := by
    intro x hx e
    obtain ⟨x, y⟩ := x
    obtain rfl : x = y := e
    have hx : x < 2 := (mem_product2.1 hx).1
    show (manifolds (demo 1) x, manifolds (demo 1) x, (_ : ℤ)) = (manifolds (demo 1) 1, manifolds (demo 1) 1, (_ : ℤ))
    have : manifolds (demo 1) x = manifolds (demo 1) 1 := by
      interval_cases x
      · rw [demo_manifold.1, demo_manifold.2]
      · rfl
    rw [this, sub_self, sub_self]
  have hp : product2 demoF.nuroots = [(0, 0), (0, 1), (1, 0)] ++ [(1, 1)] := rfl
  unfold interMap
  rw [if_neg (lt_irrefl r)]
  unfold interRep inter
  rw [hk (r, r) (mem_product2.2 ⟨hr, hr⟩) rfl, hp, List.foldl_append, List.foldl_cons, List.foldl_nil, Function.update_self]
  rfl

theorem demo_loc (M : Mats ℝ) (r : Nat) (hr : r < 2) : (demoK 1 M).toKern.loc 0 r = Nat.pair r 0 := by
  have h : ∀ r < 2, (demoK 1 (Mats.empty ℝ)).toKern.loc 0 r = Nat.pair r 0 := by decide +kernel
  exact h r hr

theorem demoF_top : highmKet demoF (0, 0) 1 1 = (1, 0) := by
  unfold highmKet highm RdmSmult.getHighmCivecs
  simp [demoF, demo]

theorem demoF_uniq : interUniq demoF 1 1 = true := by
  unfold interUniq
  rw [List.any_eq_true]
  refine ⟨(1, 1), mem_product2.2 ⟨by decide, by decide⟩, ?_⟩
  dsimp only
  have h := demoF_map 1 (by norm_num)
  unfold interMap at h
  rw [if_neg (lt_irrefl 1)] at h
  have h : interRep demoF 1 1 = (1, 1) := Prod.ext (congrArg Prod.snd h) (congrArg Prod.fst h)
  rw [h]
  rfl

/-- The table entry is that of the state with spin up: its density of spin-down electrons is zero. -/
theorem demo_entry {M : Mats ℝ} (hT : FilledS demoF M) : ∃ d, M.dm1 1 1 = some d ∧ ∀ x y, x < 2 → y < 2 → d 0 0 1 x y = 0 := by
  have ha : demoF.addr 1 = 1 := rfl
  have key : At (duo demoF (0, 0) (demoF.addr 1) (demoF.addr 1)) M 1 1 0 1 .dm :=
    hT .dm 1 1 (by decide) (by decide) demoF_uniq ⟨rfl, le_refl _⟩
  rw [ha] at key
  obtain ⟨⟨d, d1, d2⟩, -⟩ := key
  refine ⟨d, d1, fun x y hx hy => (d2 0 Nat.zero_lt_one 0 Nat.zero_lt_one true x hx y hy).trans ?_⟩
  have hv : ∀ c : Arr ℝ, HasNumbers 2 (vec 2 (highmKet demoF (0, 0) 1 1) c) 1 0 := by
    intro c
    rw [demoF_top]
    exact vec_numbers 2 (1, 0) c
  have hn : HasNumbers 2 (civ (duo demoF (0, 0) 1 1) 1 0) 1 0 := hv _
  generalize civ (duo demoF (0, 0) 1 1) 1 0 = χ at hn
  generalize civ (duo demoF (0, 0) 1 1) 0 0 = φ
  show tdm1 2 φ χ true x y = 0
  unfold tdm1 ovl
  refine Finset.sum_eq_zero fun A _ => Finset.sum_eq_zero fun B _ => ?_
  by_contra hne
  have h2 := (Verif.Tdm.HasNumbers.num hn).ann true y hy A B (right_ne_zero_of_mul hne)
  have := h2.2
  simp [Verif.Tdm.dec] at this

theorem high_ints (k : SpinKern) (f : Nat) :
    k.high.ints f = (toFragIntHigh (SpinKern.byPos (k.frag f)) (k.mats f)).reindex (k.toKern.loc f) := rfl

theorem get1Dm1_reindex (F : FragInt ℝ) (g : Nat → Nat) (i j s a b : Nat) :
    (F.reindex g).get1Dm1 i j s a b = F.get1Dm1 (g i) (g j) s a b := rfl

theorem demo_down {M : Mats ℝ} (hT : FilledS demoF M) (r : Nat) (hr : r < 2) (x y : Nat) (hx : x < 2) (hy : y < 2) :
    ((demoK 1 M).high.ints 0).get1Dm1 r r 1 x y = 0 := by
  have hnu : r < demoF.nuroots := by rw [show demoF.nuroots = 2 from rfl]; exact hr
  have hi := hi_eq (M := M) (a := 0) (b := 0) (F := demoF) (demo_coherent 1) hnu hnu
  obtain ⟨d, d1, d2⟩ := demo_entry hT
  have e1 : ((toFragIntHigh (SpinKern.byPos demoF) M).get1Dm1 (Nat.pair r 0) (Nat.pair r 0) 1 x y) = 0 := by
    unfold FragInt.get1Dm1
    rw [hi.upper, demoF_map r hr, if_neg (by simp), hi.dm1, demoF_map r hr, d1]
    exact d2 x y hx hy
  rw [high_ints, get1Dm1_reindex, demo_loc M r hr]
  exact e1

theorem demo_op {M : Mats ℝ} (hT : FilledS demoF M) (r : Nat) (hr : r < 2) :
    opRow (demoK 1 M).high upH r r (.d1 0) = opRow (demoK 1 M).high bothH r r (.d1 0) := by
  unfold opRow op1d Lstdm.ham1d
  dsimp only
  have hno : (demoK 1 M).high.no 0 = 2 := rfl
  rw [hno]
  suffices e : (∑ s ∈ Finset.range 2, ∑ y ∈ Finset.range 2, ∑ x ∈ Finset.range 2,
        ((demoK 1 M).high.ints 0).get1Dm1 r r s x y * upH.two (demoK 1 M).high.nlas 0 0 s y x) =
      ∑ s ∈ Finset.range 2, ∑ y ∈ Finset.range 2, ∑ x ∈ Finset.range 2,
        ((demoK 1 M).high.ints 0).get1Dm1 r r s x y * bothH.two (demoK 1 M).high.nlas 0 0 s y x by
    rw [e]
    rfl
  refine Finset.sum_congr rfl fun s hs => Finset.sum_congr rfl fun y hy => Finset.sum_congr rfl fun x hx => ?_
  have hs : s < 2 := Finset.mem_range.1 hs
  rcases (by omega : s = 0 ∨ s = 1) with rfl | rfl
  · congr 1
    unfold Ham.two upH bothH
    simp
  · rw [demo_down hT r hr x y (Finset.mem_range.1 hx) (Finset.mem_range.1 hy), zero_mul, zero_mul]

theorem demo_tables (M : Mats ℝ) : (demoK 1 M).toKern.tables = [[((0, 0), .d1 0), ((1, 1), .d1 0)], [], [], [], [], [], []] := by
  have h : (demoK 1 (Mats.empty ℝ)).toKern.tables = [[((0, 0), .d1 0), ((1, 1), .d1 0)], [], [], [], [], [], []] := by decide +kernel
  exact h

theorem demo_rng (M : Mats ℝ) (r : Nat) (hr : r < 2) : (demoK 1 M).toKern.addrRange r [0] = [r] ∧
    (demoK 1 M).toKern.flatState r (Kern.canonical (Lstdm.Row.axes (.d1 0))) 0 = r := by
  have h : ∀ r < 2, (demoK 1 (Mats.empty ℝ)).toKern.addrRange r [0] = [r] ∧ (demoK 1 (Mats.empty ℝ)).toKern.flatState r [0] 0 = r := by
    decide +kernel
  have hc : Kern.canonical (Lstdm.Row.axes (.d1 0)) = [0] := by decide +kernel
  rw [hc]
  exact h r hr

/-- Both sets of integrals give the same results. -/
theorem demo_same {M : Mats ℝ} (hT : FilledS demoF M) : (demoK 1 M).hamKernelS upH = (demoK 1 M).hamKernelS bothH := by
  have hK := consistent (demoK_ready 1 M)
  have rows : ∀ t ∈ (demoK 1 M).toKern.tables, ∀ x ∈ t, x = ((0, 0), .d1 0) ∨ x = ((1, 1), .d1 0) := by
    intro t ht x hx
    rw [demo_tables] at ht
    simp only [List.mem_cons, List.not_mem_nil, or_false, or_self] at ht
    rcases ht with rfl | rfl
    · simpa using hx
    · exact absurd hx (by simp)
  have rng := demo_rng M
  unfold SpinKern.hamKernelS
  congr 1
  refine foldlM_ext _ _ _ (fun g hg acc => ?_) _
  obtain ⟨t, ht, hg⟩ := List.mem_flatMap.1 hg
  have hgt := (Kern.mem_unique t g (mem_spman _ _ hg)).1
  unfold SpinKern.hamEnvS
  rw [spmanGet_eq hK t ht g hg]
  simp only [Option.bind_eq_bind, Option.bind_some]
  refine foldlM_ext _ _ _ (fun p hp acc => ?_) _
  obtain ⟨x, hx, rfl⟩ := List.mem_map.1 hp
  unfold groupOf at hx
  have hx' : x = ((0, 0), .d1 0) ∨ x = ((1, 1), .d1 0) := rows t ht x (Kern.mem_unique t x (List.mem_filter.1 hx).1).1
  have hg' : g = ((0, 0), .d1 0) ∨ g = ((1, 1), .d1 0) := rows t ht g hgt
  clear hp hx
  obtain ⟨i, hi, rfl⟩ : ∃ i < 2, g = ((i, i), .d1 0) := by
    rcases hg' with h | h
    · exact ⟨0, by norm_num, h⟩
    · exact ⟨1, by norm_num, h⟩
  obtain ⟨j, hj, rfl⟩ : ∃ j < 2, x = ((j, j), .d1 0) := by
    rcases hx' with h | h
    · exact ⟨0, by norm_num, h⟩
    · exact ⟨1, by norm_num, h⟩
  unfold SpinKern.hamCase
  refine bind_congr fun imgs => bind_congr fun cache => ?_
  dsimp only [Lstdm.Row.inv]
  rw [(rng j hj).1, (rng i hi).1]
  refine foldlM_ext _ _ _ (fun z hz acc => ?_) _
  have hz : z = ((j, j), 0) := by simpa using hz
  subst hz
  unfold SpinKern.putHamS
  dsimp only
  rw [Nat.zero_div, Nat.zero_mod, (rng i hi).2, demo_op hT i hi]

end HamSpin

namespace HamSpin

theorem demoK_sum (M : Mats ℝ) : (demoK 1 M).nlas.sum = 2 := rfl

/-- One spin-down electron in two orbitals, normalized. -/
def OneDown (χ : Vec ℝ) : Prop := (∀ A < 4, ∀ B < 4, χ A B ≠ 0 → A = 0 ∧ (B = 1 ∨ B = 2)) ∧ χ 0 1 ^ 2 + χ 0 2 ^ 2 = 1

theorem oneDown_zero {χ : Vec ℝ} (h : OneDown χ) (A B : Nat) (hA : A < 4) (hB : B < 4) (hne : ¬ (A = 0 ∧ (B = 1 ∨ B = 2))) : χ A B = 0 := by
  by_contra h'
  exact hne (h.1 A hA B hB h')

theorem demo_prod (M : Mats ℝ) : OneDown (prodVec (demoK 1 M).nlas (fun f => civ ((demoK 1 M).frag f).toFrag (((demoK 1 M).frag f).rep 1) 0)) := by
  have hp : ∀ A < 4, ∀ B < 4, prodVec (demoK 1 M).nlas (fun f => civ ((demoK 1 M).frag f).toFrag (((demoK 1 M).frag f).rep 1) 0) A B =
      civ (demo 1).toFrag 1 0 A B := by
    intro A hA B hB
    unfold prodVec
    have hl : (demoK 1 M).nlas.length = 1 := rfl
    rw [hl, Finset.prod_range_one]
    have hf : ∀ A < 4, Verif.Spec.Outer.fragStr (demoK 1 M).nlas 0 A = A := by
      intro A hA
      have h : ∀ A < 4, Verif.Spec.Outer.fragStr [2] 0 A = A := by decide
      exact h A hA
    rw [hf A hA, hf B hB]
    rfl
  have hz : ∀ A < 4, ∀ B < 4, civ (demo 1).toFrag 1 0 A B ≠ 0 → A = 0 ∧ (B = 1 ∨ B = 2) := by
    intro A hA B hB hne
    have h := vec_numbers 2 (0, 1) ((demo 1).ci 1 0) A B hne
    have h1 : ∀ A < 4, Verif.Spec.Fsucc.nOcc 0 2 A = 0 → A = 0 := by decide
    have h2 : ∀ A < 4, Verif.Spec.Fsucc.nOcc 0 2 A = 1 → A = 1 ∨ A = 2 := by decide
    exact ⟨h1 A hA h.1, h2 B hB h.2⟩
  refine ⟨fun A hA B hB h => hz A hA B hB (by rw [← hp A hA B hB]; exact h), ?_⟩
  rw [hp 0 (by norm_num) 1 (by norm_num), hp 0 (by norm_num) 2 (by norm_num)]
  have hn := demo_norm1 1 0
  have hz' : ∀ A B, A < 4 → B < 4 → ¬ (A = 0 ∧ (B = 1 ∨ B = 2)) → civ (demo 1).toFrag 1 0 A B = 0 := by
    intro A B hA hB h
    by_contra h'
    exact h (hz A hA B hB h')
  generalize civ (demo 1).toFrag 1 0 = χ at hn hz'
  unfold ovl at hn
  simp only [show 2 ^ 2 = 4 from rfl, Finset.sum_range_succ, Finset.sum_range_zero, zero_add] at hn
  rw [hz' 0 0 (by norm_num) (by norm_num) (by norm_num), hz' 0 3 (by norm_num) (by norm_num) (by norm_num),
    hz' 1 0 (by norm_num) (by norm_num) (by norm_num), hz' 1 1 (by norm_num) (by norm_num) (by norm_num),
    hz' 1 2 (by norm_num) (by norm_num) (by norm_num), hz' 1 3 (by norm_num) (by norm_num) (by norm_num),
    hz' 2 0 (by norm_num) (by norm_num) (by norm_num), hz' 2 1 (by norm_num) (by norm_num) (by norm_num),
    hz' 2 2 (by norm_num) (by norm_num) (by norm_num), hz' 2 3 (by norm_num) (by norm_num) (by norm_num),
    hz' 3 0 (by norm_num) (by norm_num) (by norm_num), hz' 3 1 (by norm_num) (by norm_num) (by norm_num),
    hz' 3 2 (by norm_num) (by norm_num) (by norm_num), hz' 3 3 (by norm_num) (by norm_num) (by norm_num)] at hn
  linear_combination hn

theorem demo_counts {χ : Vec ℝ} (h : OneDown χ) :
    (∑ s : Bool, ∑ p ∈ Finset.range 2, ∑ q ∈ Finset.range 2, bothH.h1 (ix s) p q * tdm1 2 χ χ s p q) +
      1 / 2 * ∑ s : Bool, ∑ t : Bool, ∑ p ∈ Finset.range 2, ∑ q ∈ Finset.range 2, ∑ r ∈ Finset.range 2, ∑ u ∈ Finset.range 2,
        bothH.h2 p q r u * tdm2 2 χ χ s t p q r u = 1 ∧
    (∑ s : Bool, ∑ p ∈ Finset.range 2, ∑ q ∈ Finset.range 2, upH.h1 (ix s) p q * tdm1 2 χ χ s p q) +
      1 / 2 * ∑ s : Bool, ∑ t : Bool, ∑ p ∈ Finset.range 2, ∑ q ∈ Finset.range 2, ∑ r ∈ Finset.range 2, ∑ u ∈ Finset.range 2,
        upH.h2 p q r u * tdm2 2 χ χ s t p q r u = 0 := by
  have z := oneDown_zero h
  have hup : ∀ p < 2, ∀ q < 2, tdm1 2 χ χ false p q = 0 := by
    intro p hp q hq
    unfold tdm1 ovl
    refine Finset.sum_eq_zero fun A hA => Finset.sum_eq_zero fun B hB => ?_
    have hA : A < 4 := Finset.mem_range.1 hA
    have hB : B < 4 := Finset.mem_range.1 hB
    have hb : ∀ A < 4, ∀ q < 2, A.testBit q = false → A ^^^ 2 ^ q < 4 ∧ A ^^^ 2 ^ q ≠ 0 := by decide
    have : ann 2 false q χ A B = 0 := by
      unfold ann
      simp only [Bool.false_eq_true, if_false]
      split
      · rfl
      · rename_i ht
        obtain ⟨h1, h2⟩ := hb A hA q hq (by simpa using ht)
        rw [z _ B h1 hB (by tauto), mul_zero]
    rw [this, mul_zero]
  have hdown : tdm1 2 χ χ true 0 0 + tdm1 2 χ χ true 1 1 = 1 := by
    have e : ∀ p < 2, tdm1 2 χ χ true p p = χ 0 (2 ^ p) ^ 2 := by
      intro p hp
      have hs : ∀ a b : ℕ, ((-1 : ℝ) ^ a * χ 0 b) * ((-1) ^ a * χ 0 b) = χ 0 b ^ 2 := by
        intro a b
        rw [mul_mul_mul_comm, ← mul_pow]
        norm_num
        ring
      have hann : ∀ A < 4, ∀ B < 4, ¬ (A = 0 ∧ B = 0) → ann 2 true p χ A B = 0 := by
        intro A hA B hB hne
        unfold ann
        simp only [if_true]
        split
        · rfl
        · rename_i ht
          have hb : ∀ B < 4, ∀ q < 2, B.testBit q = false → B ^^^ 2 ^ q < 4 ∧ (B ^^^ 2 ^ q = 1 ∨ B ^^^ 2 ^ q = 2 → B = 0) := by decide
          obtain ⟨h1, h2⟩ := hb B hB p hp (by simpa using ht)
          rw [z A _ hA h1 (by tauto), mul_zero]
      unfold tdm1 ovl
      rw [Finset.sum_eq_single 0, Finset.sum_eq_single 0]
      · unfold ann
        simp only [if_true, Nat.zero_testBit, Bool.false_eq_true, if_false, Nat.zero_xor]
        exact hs _ _
      · intro B hB h0
        rw [hann 0 (by norm_num) B (Finset.mem_range.1 hB) (by tauto), mul_zero]
      · intro h0
        exact absurd (Finset.mem_range.2 (by norm_num)) h0
      · intro A hA h0
        refine Finset.sum_eq_zero fun B hB => ?_
        rw [hann A (Finset.mem_range.1 hA) B (Finset.mem_range.1 hB) (by tauto), mul_zero]
      · intro h0
        exact absurd (Finset.mem_range.2 (by norm_num)) h0
    rw [e 0 (by norm_num), e 1 (by norm_num)]
    exact h.2
  constructor
  · simp [Finset.sum_range_succ, bothH, hup]
    exact hdown
  · simp [Finset.sum_range_succ, upH, hup, ix]

end HamSpin

/-- **C109 is violated by one-electron integrals that differ for the two spins**, which the documentation allows: for a fragment with a
doublet, the expectation value of the number of spin-up electrons in the state with spin down is computed as 1; it is 0. -/
theorem C109_spin_dependent_integrals_violated : ∃ (k : SpinKern) (F : Nat → SFrag) (H : Ham ℝ) (M : Kern.Mat ℝ × Kern.Mat ℝ), Ready k ∧
    (∀ f < k.nlas.length, Coherent (F f).toFrag ∧ Multiplicities (F f) ∧ Reached exactExt (F f) (k.frag f) (k.mats f)) ∧
    k.nlas.length = 1 ∧ NoHashCollision k ∧ NoCollision k.toKern ∧ (∀ s p q, H.h1 s p q = H.h1 s q p) ∧ (∀ p q r u, H.h2 p q r u = 0) ∧
    k.nroots = 2 ∧ k.hamKernelS H = some M ∧ M.1 (address k.toKern 1 fun _ => 0) (address k.toKern 1 fun _ => 0) = 1 ∧
    hamEl k.nlas.sum (fun s => H.h1 (ix s)) H.h2 (prodVec k.nlas (fun f => civ (k.frag f).toFrag ((k.frag f).rep 1) 0))
      (prodVec k.nlas (fun f => civ (k.frag f).toFrag ((k.frag f).rep 1) 0)) = 0 := by
  obtain ⟨T, h1, h2⟩ := init_spec exactExt_right (demo_coherent 1) (demo_mult 1)
  have hF : ∀ f < (demoK 1 T).nlas.length, Coherent (demo 1).toFrag ∧ Multiplicities (demo 1) ∧
    Reached exactExt (demo 1) ((demoK 1 T).frag f) ((demoK 1 T).mats f) := fun f _ => ⟨demo_coherent 1, demo_mult 1, .made h1⟩
  have hb : ∀ s p q, bothH.h1 s p q = bothH.h1 s q p := fun s p q => by
    show (if p = q then (1 : ℝ) else 0) = if q = p then 1 else 0
    simp only [eq_comm]
  obtain ⟨M, m1, m2⟩ := C109_manifolds_exact_partial exactExt_right (demoK 1 T) (demoK_ready 1 T) (fun _ => demo 1) hF
    (by decide : 1 ≤ 8) (demoK_noHash 1 T) (demoK_noCollision1 T) bothH (fun _ _ => rfl) hb (fun _ _ _ _ => rfl) (fun _ _ _ _ => rfl)
  refine ⟨demoK 1 T, fun _ => demo 1, upH, M, demoK_ready 1 T, hF, rfl, demoK_noHash 1 T, demoK_noCollision1 T, ?_, fun _ _ _ _ => rfl, rfl,
    (demo_same h2).trans m1, ?_, ?_⟩
  · intro s p q
    show (if s = 0 ∧ p = q then (1 : ℝ) else 0) = if s = 0 ∧ q = p then 1 else 0
    simp only [eq_comm]
  · refine (m2 1 1 (fun _ => 0) (fun _ => 0) Nat.one_lt_two Nat.one_lt_two (fun _ _ => Nat.zero_lt_one) (fun _ _ => Nat.zero_lt_one)).1.trans ?_
    rw [demoK_sum, Verif.Tdm.hamEl_eq]
    exact (demo_counts (demo_prod T)).1
  · rw [demoK_sum, Verif.Tdm.hamEl_eq]
    exact (demo_counts (demo_prod T)).2

end Verif.Props
