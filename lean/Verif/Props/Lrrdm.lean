import Verif.Lemmas.LrrdmRot
import Verif.Props.Overlap
/-!
# Property C103: density matrices of linear combinations of model states
-/
namespace Verif.Props
open Verif Verif.Spec Verif.Spec.Tdm Verif.Spec.Lstdm Verif.Lstdm Verif.Spec.Rotate Verif.Spec.Lrrdm Verif.Np Verif.Umat Verif.Tdm

section
variable {K : Type} [Field K] [DecidableEq K] {k : Kern K}

theorem rdmKernel_exact (h2 : (2 : K) ≠ 0) {w x : Nat → Nat → Nat → Vec K}
    (hD : Describes k.toLstdm (fun f st => w f (k.uroot f (k.rootOf st)) (k.envOf f st)))
    {umats : Nat → List (Nat × Nd K)} (hU : Matrices k.cols k.nlas.length umats)
    (hx : RotatedBy k.cols k.nlas.length umats (fun f r a => w f (k.uroot f r) a) x)
    (h8 : k.nlas.length ≤ 8) (hK : Consistent k) (hH : NoCollision k) (hS : Screens k w) (hermi : Bool) (sib sik : Nd K) (nsi : Nat)
    (hsb : sib.shape = [k.nstates, nsi]) (hsk : sik.shape = [k.nstates, nsi]) (h0 : 0 < nsi)
    (hh : hermi = true → ∀ a < k.nstates, ∀ s < nsi, sib.get [a, s] = sik.get [a, s]) :
    ∃ R, k.rdmKernel umats hermi sib sik = some R ∧ ∀ i < nsi,
      (∀ s p q, p < k.nlas.sum → q < k.nlas.sum → (R i).1 (ix s) p q =
        tdm1 k.nlas.sum (superpose k.nlas k.cols x (fun b => sib.get [b, i])) (superpose k.nlas k.cols x (fun b => sik.get [b, i])) s p q) ∧
      (∀ s t p q y u, p < k.nlas.sum → q < k.nlas.sum → y < k.nlas.sum → u < k.nlas.sum → (R i).2 (2 * ix s + ix t) p q y u =
        tdm2 k.nlas.sum (superpose k.nlas k.cols x (fun b => sib.get [b, i])) (superpose k.nlas k.cols x (fun b => sik.get [b, i])) s t p q y u) := by
  have hC := Kern.cols_of hK
  obtain ⟨b, b1, b2, b3⟩ := LrrdmRot.siLoop_eq (ns := k.nlas) hC.len hC.pos hU hx sib nsi hsb
  obtain ⟨c, c1, c2, c3⟩ := LrrdmRot.siLoop_eq (ns := k.nlas) hC.len hC.pos hU hx sik nsi hsk
  have hbc : hermi = true → ∀ a < k.nstates, ∀ s < nsi, b.get [a, s] = c.get [a, s] := by
    intro hhe a ha s hs
    have := LrrdmRot.si_congr (ns := k.nlas) hC.len hC.pos nsi _ (fun op ho => by
      obtain ⟨a, b⟩ := (Rotate.mem_opsOf _ _ _).mp ho
      exact ⟨a, hU.root _ a _ b, hU.shape _ a _ b⟩) sib sik hsb hsk (fun s hs r hr d hd =>
        hh hhe _ (stateIndex_lt k.cols r d hr hd) s hs) b c b1 c1
    obtain ⟨r, d, hr, hd, rfl⟩ := state_cases k.cols a ha
    exact this s hs r hr d hd
  obtain ⟨T, R, t1, t2, t3⟩ := Kern.rdmKernel_sum hD h8 hK hH hermi b c nsi b2 c2 h0 hbc
  obtain ⟨T', e1, e2⟩ := C99_kernel_exact_partial h2 k w hD h8 hK hH hS
  obtain rfl : T = T' := Option.some.inj (t1.symm.trans e1)
  refine ⟨R, ?_, fun i hi => ⟨fun s p q hp hq => ?_, fun s t p q y u hp hq hy hu => ?_⟩⟩
  · unfold Kern.rdmKernel Kern.siLoop
    rw [b1, c1]
    dsimp only [Option.bind_eq_bind, Option.bind_some]
    rw [if_pos (b2.trans c2.symm), t2]
  · rw [show (R i).1 (ix s) p q = co (R i) (.inl (ix s, p, q)) from rfl, t3 i hi,
      ← show _ = superpose k.nlas k.cols x (fun b => sik.get [b, i]) from c3 i hi, ← show _ = superpose k.nlas k.cols x (fun b => sib.get [b, i]) from b3 i hi]
    refine LrrdmRot.bil_superpose (Rotate.bil_tdm1 k.nlas.sum s p q) hC.len (fun f r a => w f (k.uroot f r) a) (LrrdmRot.col b i) (LrrdmRot.col c i)
      (fun b c => co (T b c) (.inl (ix s, p, q))) (fun r r' d d' hr hr' hd hd' => ?_)
    have := (e2 r r' (fun f => d.getD f 0) (fun f => d'.getD f 0) hr hr' (digit_lt hK r hr d hd) (digit_lt hK r' hr' d' hd')).1 s p q hp hq
    rw [address_state hK r hr d hd, address_state hK r' hr' d' hd'] at this
    exact this
  · rw [show (R i).2 (2 * ix s + ix t) p q y u = co (R i) (.inr (2 * ix s + ix t, p, q, y, u)) from rfl, t3 i hi,
      ← show _ = superpose k.nlas k.cols x (fun b => sik.get [b, i]) from c3 i hi, ← show _ = superpose k.nlas k.cols x (fun b => sib.get [b, i]) from b3 i hi]
    refine LrrdmRot.bil_superpose (Rotate.bil_tdm2 k.nlas.sum s t p q y u) hC.len (fun f r a => w f (k.uroot f r) a) (LrrdmRot.col b i) (LrrdmRot.col c i)
      (fun b c => co (T b c) (.inr (2 * ix s + ix t, p, q, y, u))) (fun r r' d d' hr hr' hd hd' => ?_)
    have := (e2 r r' (fun f => d.getD f 0) (fun f => d'.getD f 0) hr hr' (digit_lt hK r hr d hd) (digit_lt hK r' hr' d' hd')).2 s t p q y u hp hq hy hu
    rw [address_state hK r hr d hd, address_state hK r' hr' d' hd'] at this
    exact this

end

section
variable {K : Type} [Field K] [LinearOrder K] [IsStrictOrderedRing K]

/-- **C103 (partial).** For any number of rootspaces, of local roots and of columns of coefficients, any rotations between linearly
equivalent rootspaces and any coefficients: if the tables of the fragments hold the transition density matrices of the vectors `w` of
the representatives, and the vectors `x` of the caller are these vectors rotated by the matrices, `roots_trans_rdm12s` ends without
exception, and its arrays are, in the convention of PySCF, the transition density matrices of the linear combinations of products of
the vectors `x` with the coefficients of the caller. Missing: nine or more fragments, rows whose fingerprints collide (as C99), and
coefficients of bra and ket which are different but differ by less than `1e-8` everywhere (the code takes them to be the same). -/
theorem C103_roots_trans_rdm12s_partial (k : Kern K) (w x : Nat → Nat → Nat → Vec K)
    (hD : Describes k.toLstdm (fun f st => w f (k.uroot f (k.rootOf st)) (k.envOf f st)))
    (umats : Nat → List (Nat × Nd K)) (hU : Matrices k.cols k.nlas.length umats)
    (hx : RotatedBy k.cols k.nlas.length umats (fun f r a => w f (k.uroot f r) a) x)
    (h8 : k.nlas.length ≤ 8) (hK : Consistent k) (hH : NoCollision k) (hS : Screens k w) (sib sik : Nd K) (nsi : Nat) (h0 : 0 < nsi)
    (hsb : sib.shape = [(k.cols.map List.prod).sum, nsi]) (hsk : sik.shape = [(k.cols.map List.prod).sum, nsi])
    (hc : (∀ a < (k.cols.map List.prod).sum, ∀ i < nsi, sib.get [a, i] = sik.get [a, i]) ∨
      ∃ a < (k.cols.map List.prod).sum, ∃ i < nsi, 1 / 100000000 ≤ |sib.get [a, i] - sik.get [a, i]|) :
    ∃ rdm1 rdm2, k.rootsTransRdm12s umats sib sik = some (rdm1, rdm2) ∧ ∀ i < nsi,
      (∀ s p q, p < k.nlas.sum → q < k.nlas.sum → rdm1 i (ix s) p q =
        tdm1 k.nlas.sum (superpose k.nlas k.cols x (fun b => sib.get [b, i])) (superpose k.nlas k.cols x (fun b => sik.get [b, i])) s q p) ∧
      (∀ s t p q y u, p < k.nlas.sum → q < k.nlas.sum → y < k.nlas.sum → u < k.nlas.sum → rdm2 i (ix s) p q (ix t) y u =
        tdm2 k.nlas.sum (superpose k.nlas k.cols x (fun b => sib.get [b, i])) (superpose k.nlas k.cols x (fun b => sik.get [b, i])) s t p q y u) := by
  have hall : ((List.range (sib.shape.getD 0 0)).all (fun a => (List.range (sib.shape.getD 1 0)).all (fun s =>
      decide (max (sib.get [a, s] - sik.get [a, s]) (sik.get [a, s] - sib.get [a, s]) < 1 / 100000000)))) = true →
      ∀ a < k.nstates, ∀ s < nsi, sib.get [a, s] = sik.get [a, s] := by
    intro h
    rcases hc with hc | ⟨a, ha, i, hi, hd⟩
    · exact hc
    · exfalso
      rw [hsb] at h
      simp only [List.getD_cons_zero, List.getD_cons_succ, List.all_eq_true, List.mem_range, decide_eq_true_eq] at h
      have := h a ha i hi
      rw [abs_eq_max_neg, neg_sub] at hd
      exact absurd this (not_lt.mpr hd)
  obtain ⟨R, r1, r2⟩ := rdmKernel_exact two_ne_zero hD hU hx h8 hK hH hS _ sib sik nsi hsb hsk h0 hall
  refine ⟨fun r s p q => (R r).1 s q p, fun r s p q t u v => (R r).2 (2 * s + t) p q u v, ?_, fun i hi => ⟨fun s p q hp hq => (r2 i hi).1 s q p hq hp, fun s t p q y u hp hq hy hu => (r2 i hi).2 s t p q y u hp hq hy hu⟩⟩
  unfold Kern.rootsTransRdm12s
  rw [if_neg (by rw [hsb, hsk]; simp)]
  dsimp only
  rw [r1]
  rfl

/-- **C103 for one set of coefficients (partial).** `roots_make_rdm12s` returns the density matrices of the linear combinations, for all
coefficients. Missing: nine or more fragments, and rows whose fingerprints collide. -/
theorem C103_roots_make_rdm12s_partial (k : Kern K) (w x : Nat → Nat → Nat → Vec K)
    (hD : Describes k.toLstdm (fun f st => w f (k.uroot f (k.rootOf st)) (k.envOf f st)))
    (umats : Nat → List (Nat × Nd K)) (hU : Matrices k.cols k.nlas.length umats)
    (hx : RotatedBy k.cols k.nlas.length umats (fun f r a => w f (k.uroot f r) a) x)
    (h8 : k.nlas.length ≤ 8) (hK : Consistent k) (hH : NoCollision k) (hS : Screens k w) (si : Nd K) (nsi : Nat) (h0 : 0 < nsi)
    (hsi : si.shape = [(k.cols.map List.prod).sum, nsi]) :
    ∃ rdm1 rdm2, k.rootsMakeRdm12s umats si = some (rdm1, rdm2) ∧ ∀ i < nsi,
      (∀ s p q, p < k.nlas.sum → q < k.nlas.sum → rdm1 i (ix s) p q =
        tdm1 k.nlas.sum (superpose k.nlas k.cols x (fun b => si.get [b, i])) (superpose k.nlas k.cols x (fun b => si.get [b, i])) s q p) ∧
      (∀ s t p q y u, p < k.nlas.sum → q < k.nlas.sum → y < k.nlas.sum → u < k.nlas.sum → rdm2 i (ix s) p q (ix t) y u =
        tdm2 k.nlas.sum (superpose k.nlas k.cols x (fun b => si.get [b, i])) (superpose k.nlas k.cols x (fun b => si.get [b, i])) s t p q y u) :=
  C103_roots_trans_rdm12s_partial k w x hD umats hU hx h8 hK hH hS si si nsi h0 hsi hsi (.inl fun _ _ _ _ => rfl)

end

/-- Two columns of coefficients of the six model states of `exK`. -/
def exSi (y : Nat) : Nd ℚ := ⟨[(exK.cols.map List.prod).sum, 2], fun t => (t.getD 0 0 + y * t.getD 1 0 + 1 : ℕ)⟩

/-- The hypotheses are met by two fragments with three rootspaces, one of them rotated, and two columns of coefficients; the
coefficients of bra and ket are different. -/
example : Describes exK.toLstdm (fun f st => exW f (exK.uroot f (exK.rootOf st)) (exK.envOf f st)) ∧
    Matrices exK.cols exK.nlas.length exU ∧ RotatedBy exK.cols exK.nlas.length exU (fun f r a => exW f (exK.uroot f r) a) exX ∧
    exK.nlas.length ≤ 8 ∧ Consistent exK ∧ NoCollision exK ∧ Screens exK exW ∧
    (∃ a < (exK.cols.map List.prod).sum, ∃ i < 2, (1 : ℚ) / 100000000 ≤ |(exSi 3).get [a, i] - (exSi 5).get [a, i]|) := by
  refine ⟨describes_kernOf _ _ _ _ _ (by decide) (by decide) (by decide) (by decide) (fun f hf r hr a => exW_numbers f hf r hr a), exU_matrices, exX_rotated,
    by decide, exK_consistent, exK_noCollision, exK_screens, 0, by decide, 1, by decide, ?_⟩
  norm_num [exSi]

end Verif.Props
