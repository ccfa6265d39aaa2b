import Verif.Spec.Tdm
import Verif.Model.Lstdm
/-!
# Specification: what the fragment tables of `LSTDM` must contain

Vector `v i` is the CI vector of the fragment in model state `i`, with `c i σ` electrons of spin `σ` (`true` is spin down). The
tables need only be right where the numbers of electrons match; elsewhere the code does not fill them.
-/
namespace Verif.Spec.Lstdm
open Verif.Spec.Tdm Verif.Lstdm

variable {K : Type} [CommRing K]

/-- Index of a spin in the arrays: 0 for spin up, 1 for spin down. -/
def ix (s : Bool) : Nat := if s then 1 else 0

/-- One electron of spin `s`. -/
def one (s σ : Bool) : Nat := if σ = s then 1 else 0

/-- The tables hold the matrix elements of the products of annihilation and creation operators that the accessors promise
(docstrings of frag.py). -/
structure Exact (F : FragInt K) (n : Nat) (v : Nat → Vec K) (c : Nat → Bool → Nat) : Prop where
  /-- `⟨i|j⟩` -/
  ovlp : ∀ i j, (∀ σ, c i σ = c j σ) → F.ovlp i j = ovl n (v i) (v j)
  /-- `⟨i| x_s |j⟩` -/
  h : ∀ s i j x, (∀ σ, c i σ + one s σ = c j σ) → x < n → F.h (ix s) i j x = ovl n (v i) (ann n s x (v j))
  /-- `⟨i| x_t y_s |j⟩` for `st` = aa, ab, bb -/
  hh : ∀ s t i j x y, (∀ σ, c i σ + one s σ + one t σ = c j σ) → (s = true → t = true) → x < n → y < n →
    F.hh (ix s + ix t) i j x y = ovl n (v i) (ann n t x (ann n s y (v j)))
  /-- `⟨i| p'_t q_t r_s |j⟩` -/
  phh : ∀ s t i j r p q, (∀ σ, c i σ + one s σ = c j σ) → r < n → p < n → q < n →
    F.phh (ix s) i j (ix t) r p q = ovl n (ann n t p (v i)) (ann n t q (ann n s r (v j)))
  /-- `⟨i| x'_b y_a |j⟩` -/
  sm : ∀ i j x y, (∀ σ, c i σ + one false σ = c j σ + one true σ) → x < n → y < n →
    F.sm i j x y = ovl n (ann n true x (v i)) (ann n false y (v j))
  /-- `⟨i| a'_s b_s |j⟩`, in the triangle that is stored -/
  dm1 : ∀ i j s a b, (∀ σ, c i σ = c j σ) → a < n → b < n →
    (F.upper i j = false → F.dm1 i j (ix s) a b = tdm1 n (v i) (v j) s a b) ∧
    (F.upper i j = true → F.dm1 j i (ix s) b a = tdm1 n (v j) (v i) s b a)
  /-- `⟨i| a'_s c'_t e_t b_s |j⟩`, in the triangle that is stored -/
  dm2 : ∀ i j s t a b d e, (∀ σ, c i σ = c j σ) → a < n → b < n → d < n → e < n →
    (F.upper i j = false → F.dm2 i j (2 * ix s + ix t) a b d e = tdm2 n (v i) (v j) s t a b d e) ∧
    (F.upper i j = true → F.dm2 j i (2 * ix s + ix t) b a e d = tdm2 n (v j) (v i) s t b a e d)

/-- Number of electrons of spin `σ` of fragment `f` in state `st`. -/
def cnt (L : Lstdm K) (f st : Nat) (σ : Bool) : Nat :=
  if σ then ((L.nelec st).getD f (0, 0)).2 else ((L.nelec st).getD f (0, 0)).1

/-- The object describes the product states whose fragments have the CI vectors `v f st`. -/
structure Describes (L : Lstdm K) (v : Nat → Nat → Vec K) : Prop where
  /-- every fragment has an orbital -/
  pos : ∀ f < L.nlas.length, 0 < L.nlas.getD f 0
  /-- the numbers of electrons are given for every fragment -/
  len : ∀ st, (L.nelec st).length = L.nlas.length
  /-- the vectors have these numbers of electrons -/
  num : ∀ f < L.nlas.length, ∀ st, HasNumbers (L.nlas.getD f 0) (v f st) (cnt L f st false) (cnt L f st true)
  /-- the tables hold the matrix elements -/
  tables : ∀ f < L.nlas.length, Exact (L.ints f) (L.nlas.getD f 0) (v f) (cnt L f)

/-- The product state with index `st`. -/
def state (L : Lstdm K) (v : Nat → Nat → Vec K) (st : Nat) : Vec K := prodVec L.nlas (fun f => v f st)

/-- Tables filled with the matrix elements of given vectors (both triangles of `dm1`, `dm2`). -/
def tablesOf (n : Nat) (v : Nat → Vec K) : FragInt K where
  ovlp i j := ovl n (v i) (v j)
  h s i j x := ovl n (v i) (ann n (s != 0) x (v j))
  hh s i j x y := ovl n (v i) (ann n (s != 0) x (ann n (s == 2) y (v j)))
  phh s i j t r p q := ovl n (ann n (t != 0) p (v i)) (ann n (t != 0) q (ann n (s != 0) r (v j)))
  sm i j x y := ovl n (ann n true x (v i)) (ann n false y (v j))
  dm1 i j s a b := tdm1 n (v i) (v j) (s != 0) a b
  dm2 i j st a b c e := tdm2 n (v i) (v j) (st / 2 != 0) (st % 2 != 0) a b c e
  upper _ _ := false

/-- The object with these tables. -/
def ofVectors (nlas : List Nat) (v : Nat → Nat → Vec K) (nelec : Nat → List (Nat × Nat)) : Lstdm K where
  nlas := nlas
  ints f := tablesOf (nlas.getD f 0) (v f)
  nelec := nelec

end Verif.Spec.Lstdm
