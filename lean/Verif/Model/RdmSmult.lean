import Verif.Model.SpinOp
/-!
# Model of the spin-rotation factors of transition density matrices

/repo/my_pyscf/fci/rdm_smult.py. Floating-point numbers are real numbers. The arrays have one leading axis of pairs of vectors in
the code (`reshape`d to one axis); the functions act on every pair alike, and the model is for one pair. `round (x, 1) == round (y, 1)`
is equality: `s` and `m` are integers or half-integers, which floating-point numbers represent exactly.
-/
namespace Verif.RdmSmult
open Verif.SpinOp

/-- rdm_smult.py:12-28 `_get_highm_civecs`, one bra and one ket. `none` stands for the multiplicities being `None` (13-14). -/
noncomputable def getHighmCivecs (cibra ciket : Vec) (norb : ℕ) (nelec : ℕ × ℕ) (dnelec : ℤ × ℤ) (smultBra smultKet : Option ℤ) :
    Vec × Vec × (ℕ × ℕ) :=
  match smultBra, smultKet with
  | some sb, some sk =>
    let nelecKet : ℤ × ℤ := (nelec.1, nelec.2)
    let nelecBra : ℤ × ℤ := (nelec.1 + dnelec.1, nelec.2 + dnelec.2)
    let cibra := mup norb nelecBra.1.toNat nelecBra.2.toNat sb cibra
    let ciket := mup norb nelecKet.1.toNat nelecKet.2.toNat sk ciket
    let totBra := nelecBra.1 + nelecBra.2
    let totKet := nelecKet.1 + nelecKet.2
    let dspinOp := dnelec.1 - dnelec.2
    let spinKet := min (sk - 1) (sb - 1 - dspinOp)
    let spinBra := spinKet + dspinOp
    let nelecBra : ℤ × ℤ := ((totBra + spinBra) / 2, (totBra - spinBra) / 2)
    let nelecKet : ℤ × ℤ := ((totKet + spinKet) / 2, (totKet - spinKet) / 2)
    let cibra := mdown norb nelecBra.1.toNat nelecBra.2.toNat sb cibra
    let ciket := mdown norb nelecKet.1.toNat nelecKet.2.toNat sk ciket
    (cibra, ciket, (nelecKet.1.toNat, nelecKet.2.toNat))
  | _, _ => (cibra, ciket, nelec)

/-- rdm_smult.py:66-68: change of the numbers of electrons by one annihilation, `spin_op` 0 or 1. -/
def dnelecH (spinOp : ℕ) : ℤ × ℤ := if spinOp = 0 then (-1, 0) else (0, -1)

/-- rdm_smult.py:144-146: two annihilations, `spin_op` 0 (aa), 1 (ba) or 2 (bb). -/
def dnelecHh (spinOp : ℕ) : ℤ × ℤ := if spinOp = 0 then (-2, 0) else if spinOp = 1 then (-1, -1) else (0, -2)

/-- rdm_smult.py:221-223 -/
def dnelecSm : ℤ × ℤ := (-1, 1)

/-- rdm_smult.py:290-292 -/
def dnelecDm : ℤ × ℤ := (0, 0)

/-- rdm_smult.py:70-79 `_scale_h`. Other indices raise an exception; no caller uses them. -/
noncomputable def tabH (idx : ℤ) (spinOp : ℕ) (s m : ℝ) : ℝ :=
  if idx = 0 then
    if spinOp = 0 then (1 / 2) * √2 * √(-m + s) * √(m + s) * √(m + s - 1) / (√(s - 1) * √(2 * s - 1))
    else (1 / 2) * √(-m + s) * √(m + s) * √(-m + s - 1) / √(s - 1)
  else if idx = 1 then
    if spinOp = 0 then (1 / 2) * √(2 * m + 2 * s) / √s
    else √(-m + s)
  else if idx = 2 then
    if spinOp = 0 then √(-m + s + 1)
    else √(m + s + 1) / √(2 * s + 1)
  else
    if spinOp = 0 then (1 / 2) * √2 * √(-m + s + 1) * √(-m + s + 2) * √(m + s + 1) / √(2 * s + 1)
    else (1 / 2) * √2 * √(-m + s + 1) * √(m + s + 1) * √(m + s + 2) / √(2 * s ^ 2 + 3 * s + 1)

/-- rdm_smult.py:81-106 `scale_h`; `//` is the floor of the quotient. -/
noncomputable def scaleH (smultBra : ℤ) (spinOp : ℕ) (smultKet spinKet : ℤ) : ℝ :=
  let idx := (smultBra - smultKet + 3) / 2
  if idx < 0 ∨ idx ≥ 4 then 0 else tabH idx spinOp (((smultKet : ℝ) - 1) / 2) ((spinKet : ℝ) / 2)

/-- rdm_smult.py:148-158 `_scale_hh` -/
noncomputable def tabHh (idx : ℤ) (spinOp : ℕ) (s m : ℝ) : ℝ :=
  if idx = 0 then
    if spinOp = 0 then (1 / 2) * √2 * √((m + s - 1) / (2 * s - 1)) * √(m + s) / √s
    else if spinOp = 1 then √((-m + s) / (2 * s - 1)) * √(m + s) / (√(2 * s - 1) * √(1 / (2 * s - 1)))
    else (1 / 2) * √2 * √((-m + s - 1) / (2 * s - 1)) * √(-m + s) / √(1 / (2 * s - 1))
  else if idx = 1 then
    if spinOp = 0 then (1 / 2) * √2 * √(m + s) * √(-m + s + 1) / √s
    else if spinOp = 1 then 1
    else (1 / 2) * √2 * √(-m + s) * √(m + s + 1) / √s
  else
    if spinOp = 0 then (1 / 2) * √2 * √(-m + s + 1) * √(-m + s + 2)
    else if spinOp = 1 then
      √(-m + s + 1) * √(m + s + 1) * √(2 * s ^ 2 + 3 * s + 1) / √(4 * s ^ 3 + 8 * s ^ 2 + 5 * s + 1)
    else (1 / 2) * √2 * √(m + s + 1) * √(m + s + 2) / √(2 * s ^ 2 + 3 * s + 1)

/-- rdm_smult.py:160-185 `scale_hh` -/
noncomputable def scaleHh (smultBra : ℤ) (spinOp : ℕ) (smultKet spinKet : ℤ) : ℝ :=
  let idx := (smultBra - smultKet + 2) / 2
  if idx < 0 ∨ idx ≥ 3 then 0 else tabHh idx spinOp (((smultKet : ℝ) - 1) / 2) ((spinKet : ℝ) / 2)

/-- rdm_smult.py:225-229 `_scale_sm` -/
noncomputable def tabSm (idx : ℤ) (s m : ℝ) : ℝ :=
  if idx = 0 then (1 / 2) * √2 * √(m + s) * √(m + s - 1) / (√s * √(2 * s - 1))
  else if idx = 1 then (1 / 2) * √2 * √(m + s) * √(-m + s + 1) / √s
  else (1 / 2) * √2 * √(-m + s + 1) * √(-m + s + 2)

/-- rdm_smult.py:231-254 `scale_sm` -/
noncomputable def scaleSm (smultBra smultKet spinKet : ℤ) : ℝ :=
  let idx := (smultBra - smultKet + 2) / 2
  if idx < 0 ∨ idx ≥ 3 then 0 else tabSm idx (((smultKet : ℝ) - 1) / 2) ((spinKet : ℝ) / 2)

/-- rdm_smult.py:294-298 `_scale_dm` -/
noncomputable def tabDm (idx : ℤ) (s m : ℝ) : ℝ :=
  if idx = 0 then (1 / 2) * √(-m + s) * √(m + s) * √(-m + s - 1) * √(m + s - 1) / √(2 * s ^ 2 - 5 * s + 3)
  else if idx = 1 then √(-m + s) * √(m + s) / √(2 * s - 1)
  else 1

/-- rdm_smult.py:319-325: `scale_dm` for `smult_bra <= smult_ket`. -/
noncomputable def scaleDmLe (smultBra smultKet spinKet : ℤ) : ℝ :=
  let idx := (smultBra - smultKet + 4) / 2
  if idx < 0 ∨ idx ≥ 3 then 0 else tabDm idx (((smultKet : ℝ) - 1) / 2) ((spinKet : ℝ) / 2)

/-- rdm_smult.py:300-325 `scale_dm`: 319-320 calls itself once with the multiplicities exchanged. -/
noncomputable def scaleDm (smultBra smultKet spinKet : ℤ) : ℝ :=
  if smultBra > smultKet then scaleDmLe smultKet smultBra spinKet else scaleDmLe smultBra smultKet spinKet

/-- rdm_smult.py:327-368 `mdown_h`; the dictionary of transposes is empty. -/
noncomputable def mdownH (dm0 : ℕ → ℝ) (smultBra : ℤ) (spinOp : ℕ) (smultKet spinKet : ℤ) : ℕ → ℝ :=
  fun p => dm0 p * scaleH smultBra spinOp smultKet spinKet

/-- The array `<p'_t q_t r_s>`, indexed by the spin `t` of the first two operators and `r, p, q`. -/
abbrev T3 := ℕ → ℕ → ℕ → ℕ → ℝ

/-- `dm_0[:,t].transpose (0,3,2,1)` -/
def tr3 (dm0 : T3) : T3 := fun t r p q => dm0 t q p r

open Classical in
/-- rdm_smult.py:370-382 `_transpose_mdown_phh_0` -/
noncomputable def phh0 (d : T3) (s m : ℝ) : T3 := fun t r p q =>
  if m = s then (if t = 0 then 1 * d 0 r p q else 1 * d 1 r p q)
  else if t = 0 then
    (m + s - 1) / (2 * s - 1) * d 0 r p q + (-m + s) / (2 * s - 1) * d 1 r p q + (m - s) / (2 * s - 1) * tr3 d 1 r p q
  else
    (-m + s) / (2 * s - 1) * d 0 r p q + (m + s - 1) / (2 * s - 1) * d 1 r p q + (-m + s) / (2 * s - 1) * tr3 d 1 r p q

open Classical in
/-- rdm_smult.py:383-395 `_transpose_mdown_phh_1` -/
noncomputable def phh1 (d : T3) (s m : ℝ) : T3 := fun t r p q =>
  if m = s - 1 then (if t = 0 then 1 * d 0 r p q else 1 * d 1 r p q)
  else if t = 0 then
    (1 / 2) * (-m + s - 1) / (2 * s - 1) * d 1 r p q + (1 / 2) * (-m + s - 1) / (2 * s - 1) * tr3 d 0 r p q +
      (1 / 2) * (m + 3 * s - 1) / (2 * s - 1) * d 0 r p q
  else
    (1 / 2) * (m + 3 * s - 1) / (2 * s - 1) * d 1 r p q + (1 / 2) * (m - s + 1) / (2 * s - 1) * tr3 d 0 r p q +
      (1 / 2) * (-m + s - 1) / (2 * s - 1) * d 0 r p q

open Classical in
/-- rdm_smult.py:396-408 `_transpose_mdown_phh_2` -/
noncomputable def phh2 (d : T3) (s m : ℝ) : T3 := fun t r p q =>
  if m = s then (if t = 0 then 1 * d 0 r p q else 1 * d 1 r p q)
  else if t = 0 then
    (1 / 4) * (m - s) / s * tr3 d 1 r p q + (1 / 4) * (m + 3 * s) / s * d 0 r p q + (1 / 4) * (-m + s) / s * d 1 r p q
  else
    (1 / 4) * (-m + s) / s * tr3 d 1 r p q + (1 / 4) * (-m + s) / s * d 0 r p q + (1 / 4) * (m + 3 * s) / s * d 1 r p q

open Classical in
/-- rdm_smult.py:409-421 `_transpose_mdown_phh_3` -/
noncomputable def phh3 (d : T3) (s m : ℝ) : T3 := fun t r p q =>
  if m = s then (if t = 0 then 1 * d 0 r p q else 1 * d 1 r p q)
  else if t = 0 then
    (1 / 2) * (-m + s) / s * tr3 d 0 r p q + (1 / 2) * (m + s) / s * d 0 r p q + (1 / 2) * (-m + s) / s * d 1 r p q
  else
    (1 / 2) * (m - s) / s * tr3 d 0 r p q + (1 / 2) * (-m + s) / s * d 0 r p q + (1 / 2) * (m + s) / s * d 1 r p q

/-- rdm_smult.py:422-466 `mdown_phh` -/
noncomputable def mdownPhh (dm0 : T3) (smultBra : ℤ) (spinOp : ℕ) (smultKet spinKet : ℤ) : T3 :=
  let dm1 : T3 := fun t r p q => dm0 t r p q * scaleH smultBra spinOp smultKet spinKet
  let d2s := smultBra - smultKet
  let s : ℝ := ((smultKet : ℝ) - 1) / 2
  let m : ℝ := (spinKet : ℝ) / 2
  if d2s = -1 ∧ spinOp = 0 then phh0 dm1 s m
  else if d2s = -1 ∧ spinOp = 1 then phh1 dm1 s m
  else if d2s = 1 ∧ spinOp = 0 then phh2 dm1 s m
  else if d2s = 1 ∧ spinOp = 1 then phh3 dm1 s m
  else dm1

open Classical in
/-- rdm_smult.py:468-475 `_transpose_mdown_hh_0` -/
noncomputable def hh0 (d : ℕ → ℕ → ℝ) (s m : ℝ) : ℕ → ℕ → ℝ := fun p q =>
  if m = s then 1 * d p q else (1 / 2) * (m + s) / s * d p q + (1 / 2) * (-m + s) / s * d q p

/-- rdm_smult.py:476-517 `mdown_hh` -/
noncomputable def mdownHh (dm0 : ℕ → ℕ → ℝ) (smultBra : ℤ) (spinOp : ℕ) (smultKet spinKet : ℤ) : ℕ → ℕ → ℝ :=
  let dm1 := fun p q => dm0 p q * scaleHh smultBra spinOp smultKet spinKet
  if smultBra - smultKet = 0 ∧ spinOp = 1 then hh0 dm1 (((smultKet : ℝ) - 1) / 2) ((spinKet : ℝ) / 2) else dm1

/-- rdm_smult.py:519-558 `mdown_sm`; the dictionary of transposes is empty. -/
noncomputable def mdownSm (dm0 : ℕ → ℕ → ℝ) (smultBra smultKet spinKet : ℤ) : ℕ → ℕ → ℝ :=
  fun p q => dm0 p q * scaleSm smultBra smultKet spinKet

/-- The array `<p'_s q_s>`. -/
abbrev T2 := ℕ → ℕ → ℕ → ℝ

open Classical in
/-- rdm_smult.py:560-573 `_transpose_mdown_dm1_0` -/
noncomputable def dm10 (d : T2) (s m : ℝ) : T2 := fun t p q =>
  if m = s then (if t = 0 then 1 * d 0 p q else 1 * d 1 p q)
  else if m = -s then (if t = 0 then 1 * d 1 p q else 1 * d 0 p q)
  else if t = 0 then (1 / 2) * (m + s) / s * d 0 p q + (1 / 2) * (-m + s) / s * d 1 p q
  else (1 / 2) * (-m + s) / s * d 0 p q + (1 / 2) * (m + s) / s * d 1 p q

/-- rdm_smult.py:574-613 `mdown_dm1` -/
noncomputable def mdownDm1 (dm0 : T2) (smultBra smultKet spinKet : ℤ) : T2 :=
  let dm1 : T2 := fun t p q => dm0 t p q * scaleDm smultBra smultKet spinKet
  if -|smultBra - smultKet| = 0 then dm10 dm1 (((max smultBra smultKet : ℤ) - 1 : ℝ) / 2) ((spinKet : ℝ) / 2) else dm1

/-- The array `<p'_s r'_t u_t q_s>`, indexed by `2 s + t` and `p, q, r, u`. -/
abbrev T4 := ℕ → ℕ → ℕ → ℕ → ℕ → ℝ

/-- `dm_0[:,st].transpose (0,1,4,3,2)` -/
def tr4 (d : T4) : T4 := fun st p q r u => d st p u r q

open Classical in
/-- rdm_smult.py:615-642 `_transpose_mdown_dm2_0` -/
noncomputable def dm20 (d : T4) (s m : ℝ) : T4 := fun st p q r u =>
  let D := fun k => d k p q r u
  let T := fun k => tr4 d k p q r u
  if m = s - 1 then
    (if st = 0 then 1 * D 0 else if st = 1 then 1 * D 1 else if st = 2 then 1 * D 2 else 1 * D 3)
  else if m = 1 - s then
    (if st = 0 then (-1) * D 3
     else if st = 1 then 1 * D 3 + 1 * D 0 + 1 * D 1
     else if st = 2 then (-1) * T 3 + (-1) * T 0 + 1 * D 2
     else (-1) * D 0)
  else
    (if st = 0 then (1 / 2) * (m - s + 1) / (s - 1) * D 3 + (1 / 2) * (m + s - 1) / (s - 1) * D 0
     else if st = 1 then (1 / 2) * (-m + s - 1) / (s - 1) * D 3 + (1 / 2) * (-m + s - 1) / (s - 1) * D 0 + 1 * D 1
     else if st = 2 then -1 / 2 * (-m + s - 1) / (s - 1) * T 3 + -1 / 2 * (-m + s - 1) / (s - 1) * T 0 + 1 * D 2
     else (1 / 2) * (m + s - 1) / (s - 1) * D 3 + (1 / 2) * (m - s + 1) / (s - 1) * D 0)

open Classical in
/-- rdm_smult.py:643-680 `_transpose_mdown_dm2_1` -/
noncomputable def dm21 (d : T4) (s m : ℝ) : T4 := fun st p q r u =>
  let D := fun k => d k p q r u
  let T := fun k => tr4 d k p q r u
  if m = s then
    (if st = 0 then 1 * D 0 else if st = 1 then 1 * D 1 else if st = 2 then 1 * D 2 else 1 * D 3)
  else if m = -s then
    (if st = 0 then 1 * D 3 else if st = 1 then 1 * D 2 else if st = 2 then 1 * D 1 else 1 * D 0)
  else
    (if st = 0 then
      (1 / 2) * (-m ^ 2 + s ^ 2) / (s * (2 * s - 1)) * D 1 + (1 / 2) * (m ^ 2 - s ^ 2) / (s * (2 * s - 1)) * T 2 +
      (1 / 2) * (m ^ 2 + 2 * m * s - m + s ^ 2 - s) / (s * (2 * s - 1)) * D 0 +
      (1 / 2) * (-m ^ 2 + s ^ 2) / (s * (2 * s - 1)) * D 2 +
      (1 / 2) * (m ^ 2 - 2 * m * s + m + s ^ 2 - s) / (s * (2 * s - 1)) * D 3 +
      (1 / 2) * (m ^ 2 - s ^ 2) / (s * (2 * s - 1)) * T 1
     else if st = 1 then
      (1 / 2) * (m ^ 2 + 2 * m * s - m + s ^ 2 - s) / (s * (2 * s - 1)) * D 1 +
      (1 / 2) * (-m ^ 2 + s ^ 2) / (s * (2 * s - 1)) * T 2 + (1 / 2) * (-m ^ 2 + s ^ 2) / (s * (2 * s - 1)) * D 0 +
      (1 / 2) * (m ^ 2 - 2 * m * s + m + s ^ 2 - s) / (s * (2 * s - 1)) * D 2 +
      (1 / 2) * (-m ^ 2 + s ^ 2) / (s * (2 * s - 1)) * D 3 + (1 / 2) * (-m ^ 2 + s ^ 2) / (s * (2 * s - 1)) * T 1
     else if st = 2 then
      (1 / 2) * (m ^ 2 + 2 * m * s - m + s ^ 2 - s) / (s * (2 * s - 1)) * D 2 +
      (1 / 2) * (-m ^ 2 + s ^ 2) / (s * (2 * s - 1)) * T 1 + -1 / 2 * (-m ^ 2 + s ^ 2) / (s * (2 * s - 1)) * T 0 +
      (1 / 2) * (m ^ 2 - 2 * m * s + m + s ^ 2 - s) / (s * (2 * s - 1)) * D 1 +
      -1 / 2 * (-m ^ 2 + s ^ 2) / (s * (2 * s - 1)) * T 3 + (1 / 2) * (-m ^ 2 + s ^ 2) / (s * (2 * s - 1)) * T 2
     else
      (1 / 2) * (-m ^ 2 + s ^ 2) / (s * (2 * s - 1)) * D 1 + (1 / 2) * (m ^ 2 - s ^ 2) / (s * (2 * s - 1)) * T 2 +
      (1 / 2) * (m ^ 2 - 2 * m * s + m + s ^ 2 - s) / (s * (2 * s - 1)) * D 0 +
      (1 / 2) * (-m ^ 2 + s ^ 2) / (s * (2 * s - 1)) * D 2 +
      (1 / 2) * (m ^ 2 + 2 * m * s - m + s ^ 2 - s) / (s * (2 * s - 1)) * D 3 +
      (1 / 2) * (m ^ 2 - s ^ 2) / (s * (2 * s - 1)) * T 1)

/-- rdm_smult.py:681-721 `mdown_dm2` -/
noncomputable def mdownDm2 (dm0 : T4) (smultBra smultKet spinKet : ℤ) : T4 :=
  let dm1 : T4 := fun st p q r u => dm0 st p q r u * scaleDm smultBra smultKet spinKet
  let d2s := -|smultBra - smultKet|
  let s : ℝ := ((max smultBra smultKet : ℤ) - 1 : ℝ) / 2
  let m : ℝ := (spinKet : ℝ) / 2
  if d2s = -2 then dm20 dm1 s m else if d2s = 0 then dm21 dm1 s m else dm1

end Verif.RdmSmult
