import Verif.Model.SpaceLists
import Verif.Model.PySet
/-!
# Model of the LASSIS model space

/repo/my_pyscf/lassi/lassis/lassis.py:31-100 `prepare_model_states`, 251-287 `SpinFlips`, 397-433
`_spin_flip_products`, 435-493 `_spin_shuffle_ci_`, 495-518 `spin_flip_products`, 520-552 `charge_excitation_products`,
844-906 `get_ref_fbf_rootspaces`, `get_sf_fbf_rootspaces`, `get_ch_fbf_rootspaces`.

Where a CI vector comes from and what its projection is are modelled, its elements are not. Logging, the FCI solver
objects (which follow the CI vectors) and the conversion of the final list to a calculation object (`state_average`)
are omitted.
-/
namespace Verif.Lassis
open Verif.Spaces Verif.Spaces.Space

/-- The sets of fragment CI vectors LASSIS optimizes: those of the reference, `ci_spin_flips[i][d]` and
`ci_charge_hops[i][a][s][p]` (lassis.py:597-609). -/
inductive Vec where
  | ref (i : Nat)
  | flip (i d : Nat)
  | hop (i a s p : Nat)
deriving DecidableEq

/-- A CI vector array: which set, and the projection `neleca - nelecb` to which it has been rotated. The sets are
stored at the highest projection (`mup`); `mdown` to given electron numbers, and `contract_sdown`/`contract_sup`
divided by the norm, change the projection only (property C32). -/
abbrev Ci := Vec × Int

/-- A rootspace object with its `ci` attribute; `[]` is `None`. -/
structure Root where
  sp : Space
  ci : List (Option Ci) := []
deriving DecidableEq

/-- `has_ci`, spaces.py:269-271. -/
def Root.hasCi (r : Root) : Bool := !r.ci.isEmpty && r.ci.all Option.isSome

/-- One entry of a `SpinFlips` object: `spins[i]`, `smults[i]`, `ci[i]`. -/
structure Flip where
  spin : Int
  smult : Int
  ci : Ci
deriving DecidableEq

/-- lassis.py:269-279: the loop that lowers one set, `n` being the number of steps left and `(na, nb)` the electron
numbers; the entries it appends. -/
def flipLower (smult : Int) (v : Vec) : Nat → Int → Int → Int → List Flip
  | 0, _, _, _ => []
  | n + 1, m, na, nb =>
    ⟨(na - 1) - (nb + 1), smult, (v, m - 2)⟩ :: flipLower smult v n (m - 2) (na - 1) (nb + 1)

/-- lassis.py:255-279 `SpinFlips.__init__`: the given entries, then for each of them the lowered ones. -/
def spinFlipsInit (nelec : Int) (given : List Flip) : List Flip :=
  given ++ given.flatMap fun g =>
    if g.smult > 1 then
      flipLower g.smult g.ci.1 (g.smult - 1).toNat g.ci.2 ((nelec + (g.smult - 1)) / 2) ((nelec - (g.smult - 1)) / 2)
    else []

/-- lassis.py:41-56: the spin-flip object of fragment `i`. `sf i d` tells whether `ci_sf[i][d]` is not `None`. The
sets are stored at the highest projection. -/
def spinFlips (sf : Nat → Nat → Bool) (space0 : Space) (i : Nat) : List Flip :=
  let smult := el space0.smults i
  spinFlipsInit (space0.nelec i)
    ((if sf i 0 then [⟨smult - 3, smult - 2, (.flip i 0, smult - 2 - 1)⟩] else []) ++
     (if sf i 1 then [⟨smult + 1, smult + 2, (.flip i 1, smult + 2 - 1)⟩] else []))

/-- lassis.py:67-68 -/
def dsi (s : Nat) : Int := -1 + (s / 2 : Nat) * 2
/-- lassis.py:67-68 -/
def dsa (s : Nat) : Int := -1 + (s % 2 : Nat) * 2

/-- spaces.py:156-164: the CI vectors of a charge-hop rootspace. Those of the other fragments are the parent's, except
that those of the helper fragment are rotated; as rotating to the projection the vector already has does nothing, this
is written for all of them. -/
def hopCi (ref : Root) (new : Space) (i a s : Nat) : List (Option Ci) :=
  (List.range new.nfrag).map fun k =>
    if k = a then some (.hop i a s 1, el new.spins a)
    else if k = i then some (.hop i a s 0, el new.spins i)
    else (ref.ci.getD k none).map fun c => (c.1, el new.spins k)

/-- lassis.py:62-72: the loop over `(i, a, s)`, as the list of the keys for which there are vectors. `ch i a s` tells
whether both `ci_ch[i][a][s]` are not `None`. -/
def hopKeys (ch : Nat → Nat → Nat → Bool) (n : Nat) : List (Nat × Nat × Nat) :=
  ((product2 (List.range n) (List.range n)).flatMap fun ia => (List.range 4).map fun s => (ia.1, ia.2, s)).filter
    fun k => ch k.1 k.2.1 k.2.2

/-- lassis.py:62-72: the charge-hop rootspaces with their keys. -/
def hopSpaces (f : NCsf) (setOrder : List Nat → List Nat) (ref : Root) :
    List (Nat × Nat × Nat) → Except Err (List ((Nat × Nat × Nat) × Root))
  | [] => .ok []
  | k :: ks => do
    let new ← ref.sp.getSingleAnyM f setOrder k.1 k.2.1 (dsi k.2.2) (dsa k.2.2)
    let rest ← hopSpaces f setOrder ref ks
    pure ((k, ⟨new, hopCi ref new k.1 k.2.1 k.2.2⟩) :: rest)

/-- `itertools.permutations (l, r=2)` -/
def perms2 (l : List Nat) : List (Nat × Nat) := l.flatMap fun i => (l.filter (· ≠ i)).map fun a => (i, a)

/-- lassis.py:532-537: one pass of the innermost loop body; `new` are the rootspaces appended in this product order (the
set `seen` has the same elements). -/
def productStep (h : List HashItem → Int) (space0 p : Space) (new : List Space) (q : Space) :
    Except Err (List Space) := do
  assert' (orthogonalExcitations p q space0 true)
  let r ← combineOrthogonal p q space0 true
  pure (if pyIn h new r then new else new ++ [r])

/-- lassis.py:528-539: one product order. `lvl` is `spaces[i:j]`, `spacesCh i a` the charge-hop rootspaces from `i` to
`a`. -/
def productLevel (h : List HashItem → Int) (space0 : Space) (spacesCh : Nat → Nat → List Space) (lvl : List Space) :
    Except Err (List Space) :=
  lvl.foldlM (fun new p =>
    ((perms2 ((List.range space0.nfrag).filter fun k => !p.excitedFragment space0 true k)).flatMap
      fun ia => spacesCh ia.1 ia.2).foldlM (productStep h space0 p) new) []

/-- lassis.py:526-541: the loop over product orders, `k` orders left; the rootspaces appended. -/
def productLevels (h : List HashItem → Int) (space0 : Space) (spacesCh : Nat → Nat → List Space) :
    Nat → List Space → Except Err (List Space)
  | 0, _ => .ok []
  | k + 1, lvl => do
    let new ← productLevel h space0 spacesCh lvl
    let rest ← productLevels h space0 spacesCh k new
    pure (new ++ rest)

/-- lassis.py:517-546 `charge_excitation_products` for `nroots_ref = 1`. The rootspaces appended have no CI vectors
(spaces.py:573-590 with `flexible_m`). -/
def chargeProducts (h : List HashItem → Int) (spaces : List Root) (spacesCh : Nat → Nat → List Space) :
    Except Err (List Root) :=
  match spaces with
  | [] => .error .index
  | r0 :: rest => do
    let new ← productLevels h r0.sp spacesCh (r0.sp.nfrag / 2 - 1) (rest.map (·.sp))
    let all := r0 :: rest ++ new.map fun sp => ⟨sp, []⟩
    assert' (decide (all.length = (pySet h (all.map (·.sp))).length))
    pure all

/-- spaces.py:440-454 `single_fragment_spin_change` -/
def spinChange (r : Root) (i : Nat) (fl : Flip) : Root :=
  ⟨{ r.sp with smults := r.sp.smults.set i fl.smult, spins := r.sp.spins.set i fl.spin, weight := 0 },
   if r.hasCi then r.ci.set i (some fl.ci) else []⟩

/-- lassis.py:413-425: the rootspaces made by flipping the spin of fragment `i`. -/
def flipsOf (space0 : Space) (flips : List Flip) (i : Nat) (spaces : List Root) : List Root :=
  spaces.flatMap fun r =>
    if r.sp.nelec i ≠ space0.nelec i then []
    else if el r.sp.smults i ≠ el space0.smults i then []
    else flips.map (spinChange r i)

/-- lassis.py:410-425: the loop over the fragments (no fragment frozen). -/
def injectFlips (space0 : Space) (flips : Nat → List Flip) (n : Nat) (spaces : List Root) : List Root :=
  (List.range n).foldl (fun sps i => sps ++ flipsOf space0 (flips i) i sps) spaces

/-- lassis.py:431-432: the filter `not ((space in seen) or seen.add (space))`, `seen` given. -/
def dedup (h : List HashItem → Int) : List Space → List Root → List Root
  | _, [] => []
  | seen, r :: rs => if pyIn h seen r.sp then dedup h seen rs else r :: dedup h (seen ++ [r.sp]) rs

/-- lassis.py:397-433 `_spin_flip_products` for `nroots_ref = 1` and no frozen fragments. `spin_flips` is not empty, as
it has one entry per fragment. -/
def spinFlipProducts (h : List HashItem → Int) (flips : Nat → List Flip) (spaces : List Root) : Except Err (List Root) :=
  match spaces with
  | [] => .error .index
  | r0 :: _ =>
    let all := injectFlips r0.sp flips r0.sp.nfrag spaces
    let all := all.filter fun r => decide (r.sp.spins.sum = r0.sp.spins.sum)
    let all := all.filter fun r => !isOrthogonalBySmult r.sp.smults r0.sp.smults
    .ok (dedup h [] all)

/-- spaces.py:739-767 `_spin_shuffle` on objects with CI vectors: the given objects come first, the new ones have
none. -/
def shuffle (h : List HashItem → Int) (spaces : List Root) : Except Err (List Root) :=
  match spinShuffle h (spaces.map (·.sp)) false with
  | none => .error .assertion
  | some all => .ok (spaces ++ (all.drop spaces.length).map fun sp => ⟨sp, []⟩)

/-- spaces.py:297-304: the entries added by lowering, `n` of them. -/
def rotDown (v : Vec) : Nat → Int → Int → List (Int × Ci)
  | 0, _, _ => []
  | n + 1, sz, m => (sz - 2, (v, m - 2)) :: rotDown v n (sz - 2) (m - 2)

/-- spaces.py:307-314: the entries added by raising, `n` of them. -/
def rotUp (v : Vec) : Nat → Int → Int → List (Int × Ci)
  | 0, _, _ => []
  | n + 1, sz, m => (sz + 2, (v, m + 2)) :: rotUp v n (sz + 2) (m + 2)

/-- Number of values in `range (start, stop, 2)`. -/
def rangeLen2 (start stop : Int) : Nat := ((stop - start + 1) / 2).toNat

/-- spaces.py:289-315: the dictionary of one fragment in `get_ci_szrot`, for the vector `ci` of a rootspace. -/
def szrot (sp : Space) (i : Nat) (ci : Ci) : List (Int × Ci) :=
  let sz := el sp.spins i
  let smult := el sp.smults i
  (sz, ci) :: (rotDown ci.1 (rangeLen2 (-(sz - 2)) (1 + smult)) sz ci.2 ++
    rotUp ci.1 (rangeLen2 (sz + 2) (1 + smult)) sz ci.2)

/-- `d[key]`; `KeyError` is `index`. -/
def dictGet (d : List (Int × Ci)) (key : Int) : Except Err Ci :=
  match d.find? fun e => decide (e.1 = key) with
  | some e => .ok e.2
  | none => .error .index

/-- `get_ci_szrot` of fragment `i` of a rootspace object; the CI vectors must be there (`TypeError` otherwise). -/
def rootSzrot (r : Root) (i : Nat) : Except Err (List (Int × Ci)) :=
  match r.ci.getD i none with
  | some c => .ok (szrot r.sp i c)
  | none => .error .index

/-- lassis.py:459-476: the CI vectors of fragment `k` before the charge hops are filled in. -/
def baseCi (r0 : Root) (flips : Nat → List Flip) (sp : Space) (k : Nat) : Except Err (Option Ci) :=
  if !sp.excitedFragment r0.sp false k then .ok (r0.ci.getD k none)
  else if el sp.charges k ≠ el r0.sp.charges k then .ok none
  else if el sp.smults k ≠ el r0.sp.smults k then
    match (flips k).filter fun fl => decide (fl.smult = el sp.smults k) && decide (fl.spin = el sp.spins k) with
    | [fl] => .ok (some fl.ci)
    | _ => .error .assertion
  else do
    let d ← rootSzrot r0 k
    let c ← dictGet d (el sp.spins k)
    pure (some c)

/-- A charge-hop rootspace as prepared in lassis.py:449-454: the rootspace, the two fragments of its record, and the
two dictionaries of rotated vectors. -/
structure Hopped where
  sp : Space
  i : Nat
  j : Nat
  di : List (Int × Ci)
  dj : List (Int × Ci)

/-- lassis.py:446-454. Unpacking a record that does not have two entries is a `ValueError`. -/
def prepHopped : List Root → Except Err (List Hopped)
  | [] => .ok []
  | r :: rs =>
    if r.sp.entmap.length = 1 then
      match r.sp.entmap with
      | [[i, j]] => do
        let di ← rootSzrot r i
        let dj ← rootSzrot r j
        let rest ← prepHopped rs
        pure (⟨r.sp, i, j, di, dj⟩ :: rest)
      | _ => .error .index
    else prepHopped rs

/-- lassis.py:477-488: one pass of the loop over the charge-hop rootspaces. -/
def hopFill (sp : Space) (ci : List (Option Ci)) (x : Hopped) : Except Err (List (Option Ci)) :=
  if !sp.entmap.contains [x.i, x.j] then .ok ci
  else if el x.sp.charges x.i ≠ el sp.charges x.i ∨ el x.sp.charges x.j ≠ el sp.charges x.j then .ok ci
  else if el x.sp.smults x.i ≠ el sp.smults x.i ∨ el x.sp.smults x.j ≠ el sp.smults x.j then .ok ci
  else do
    assert' (ci.getD x.i none).isNone
    assert' (ci.getD x.j none).isNone
    let ci_i ← dictGet x.di (el sp.spins x.i)
    let ci_j ← dictGet x.dj (el sp.spins x.j)
    pure ((ci.set x.i (some ci_i)).set x.j (some ci_j))

/-- lassis.py:455-489: the CI vectors of one rootspace. -/
def fillCi (r0 : Root) (flips : Nat → List Flip) (hopped : List Hopped) (sp : Space) : Except Err Root := do
  let ci ← (List.range sp.nfrag).mapM (baseCi r0 flips sp)
  let ci ← hopped.foldlM (hopFill sp) ci
  assert' (Root.hasCi ⟨sp, ci⟩)
  pure ⟨sp, ci⟩

/-- lassis.py:435-493 `_spin_shuffle_ci_` for `nroots_ref = 1`. -/
def spinShuffleCi (flips : Nat → List Flip) (spaces : List Root) (nrootsRefc : Nat) : Except Err (List Root) :=
  match spaces with
  | [] => .error .index
  | r0 :: rest => do
    -- the rotated vectors of the reference are made for all fragments first
    let _ ← (List.range r0.sp.nfrag).mapM (rootSzrot r0)
    let hopped ← prepHopped (rest.take (nrootsRefc - 1))
    let out ← rest.mapM fun r => fillCi r0 flips hopped r.sp
    pure (r0 :: out)

/-- lassis.py:34-40: the reference object, its vectors rotated to its own projections (lassis.py:731-737). -/
def refRoot (ref : Space) : Root := ⟨ref, (List.range ref.nfrag).map fun i => some (.ref i, el ref.spins i)⟩

/-- lassis.py:31-100 `prepare_model_states`, up to the list of rootspaces. `ref` is the reference rootspace, `ch` and
`sf` tell which charge-hop and spin-flip vectors there are. -/
def prepareModelStates (f : NCsf) (h : List HashItem → Int) (setOrder : List Nat → List Nat)
    (ch : Nat → Nat → Nat → Bool) (sf : Nat → Nat → Bool) (ref : Space) : Except Err (List Root) := do
  let r0 := refRoot ref
  let hops ← hopSpaces f setOrder r0 (hopKeys ch ref.nfrag)
  let spaces := r0 :: hops.map (·.2)
  let spacesCh := fun i a => (hops.filter fun x => decide (x.1.1 = i) && decide (x.1.2.1 = a)).map (·.2.sp)
  let spaces ← if ref.nfrag > 3 then chargeProducts h spaces spacesCh else pure spaces
  let nspaces := spaces.length
  let spaces ← spinFlipProducts h (spinFlips sf ref) spaces
  let spaces ← shuffle h spaces
  spinShuffleCi (spinFlips sf ref) spaces nspaces

/-! ### Finding the rootspaces that use given vectors -/

/-- lassis.py:833-853 `get_ref_fbf_rootspaces`: the indices. `get_nelec_frs` and `get_smult_fr` read the same quantum
numbers as `sp`. -/
def getRefRootspaces (ref : Space) (roots : List Space) (i : Nat) : List Nat :=
  (List.range roots.length).filter fun r =>
    decide ((roots.getD r ref).nelec i = ref.nelec i) && decide (el (roots.getD r ref).smults i = el ref.smults i)

/-- lassis.py:855-876 `get_sf_fbf_rootspaces`: the indices. -/
def getSfRootspaces (ref : Space) (roots : List Space) (i spin : Nat) : List Nat :=
  (List.range roots.length).filter fun r =>
    decide ((roots.getD r ref).nelec i = ref.nelec i) &&
      decide (el (roots.getD r ref).smults i = el ref.smults i - 2 + 4 * spin)

/-- lassis.py:878-911 `get_ch_fbf_rootspaces`: the indices. The record looked for is `tuple (set ((ifrag, afrag)))`. -/
def getChRootspaces (setOrder : List Nat → List Nat) (ref : Space) (roots : List Space) (i a spin : Nat) : List Nat :=
  let idx := (List.range roots.length).filter fun r =>
    (decide ((roots.getD r ref).nelec i = ref.nelec i - 1) &&
      decide (el (roots.getD r ref).smults i = el ref.smults i - 1 + 2 * (spin / 2 : Nat))) &&
    (decide ((roots.getD r ref).nelec a = ref.nelec a + 1) &&
      decide (el (roots.getD r ref).smults a = el ref.smults a - 1 + 2 * (spin % 2 : Nat)))
  idx.filter fun r => (roots.getD r ref).entmap.contains (setOrder [i, a])

end Verif.Lassis
