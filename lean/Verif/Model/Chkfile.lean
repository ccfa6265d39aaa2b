import Mathlib.Logic.Basic
/-!
# Model of the LAS, LASSI and LASSIS checkpoint files

/repo/my_pyscf/mcscf/chkfile.py, /repo/my_pyscf/lassi/chkfile.py, /repo/my_pyscf/lassi/lassis/chkfile.py

An HDF5 file is a partial function from paths to entries. A path component is a name or the decimal string of an index
(`str(i)`, kept apart from names because it is injective). A dump is a list of file operations; a crash leaves the
effect of a prefix of that list (each h5py operation is taken to be atomic and ordered; a torn HDF5 file, which cannot
be opened at all, is not modelled). Array contents are an arbitrary type `V`.
-/
namespace Verif.Chkfile

/-- A path component. -/
inductive Comp
  | key (s : String)
  | idx (n : Nat)
deriving DecidableEq, Repr

/-- A path from the root of the file. -/
abbrev Path := List Comp

/-- An object in the file. -/
inductive Entry (V : Type)
  | group
  | data (v : V)
deriving DecidableEq, Repr

/-- The file. -/
abbrev File (V : Type) := Path → Option (Entry V)

/-- One h5py operation. -/
inductive FOp (V : Type)
  /-- `if p in fh5: del (fh5[p])` -/
  | delIf (p : Path)
  /-- `fh5.create_group (p)` -/
  | group (p : Path)
  /-- `fh5[p] = v` -/
  | put (p : Path) (v : V)
  /-- `if p not in fh5: fh5[p] = v` -/
  | putNew (p : Path) (v : V)

/-- The groups above a path (without the root). -/
def parents (p : Path) : List Path := (List.range' 1 (p.length - 1)).map p.take

/-- `create_group`/`create_dataset`: raises if the name exists or a parent is a dataset; missing parents are created. -/
def create {V : Type} (f : File V) (p : Path) (e : Entry V) : Option (File V) :=
  if (f p).isSome then none
  else if (parents p).any (fun q => match f q with | some (.data _) => true | _ => false) then none
  else some (fun q => if q = p then some e else if q ∈ parents p ∧ (f q).isNone then some .group else f q)

/-- Effect of one operation; `none` is an exception. -/
def apply {V : Type} (f : File V) : FOp V → Option (File V)
  | .delIf p => some (fun q => if p.isPrefixOf q then none else f q)
  | .group p => create f p .group
  | .put p v => create f p (.data v)
  | .putNew p v => if (f p).isSome then some f else create f p (.data v)

/-- Effect of a sequence of operations. -/
def run {V : Type} : List (FOp V) → File V → Option (File V)
  | [], f => some f
  | op :: l, f => match apply f op with
    | none => none
    | some f => run l f

/-- What `dump_las` saves: the attributes `data` (a dict, chkfile.py:94-102), the ragged `frags_orbs`, the orbital
symmetry tag and the CI vectors. -/
structure Calc (V : Type) where
  data : List (String × V)
  fragsOrbs : Option (List V)
  orbsym : Option V
  ci : List (List V)

/-- mcscf/chkfile.py:94-102 `_dump_las_get_data`: the dict to be saved; `val` is `kwargs.get (key, getattr (mc, key))`,
for the `saconstr` keys the tables of `get_space_info`. -/
def getSaveData {V : Type} (keysConfig keysSa keysResults : List String) (val : String → V) : List (String × V) :=
  (keysConfig ++ keysResults ++ keysSa).map (fun key => (key, val key))

/-- mcscf/chkfile.py:104-113 `_dump_las_get_chkdata`. -/
def opsHead {V : Type} (k : String) (overwriteMol : Bool) (mol : V) : List (FOp V) :=
  (if overwriteMol then [.delIf [.key "mol"], .put [.key "mol"] mol] else [.putNew [.key "mol"] mol]) ++
  [.delIf [.key k], .group [.key k]]

/-- mcscf/chkfile.py:115-125 `_dump_las_1_`. -/
def opsAttrs {V : Type} (k : String) (data : List (String × V)) (fragsOrbs : Option (List V)) (orbsym : Option V) :
    List (FOp V) :=
  data.map (fun kv => .put [.key k, .key kv.1] kv.2) ++
  (match fragsOrbs with
    | none => []
    | some l => .group [.key k, .key "frags_orbs"] ::
        l.zipIdx.map (fun vi => .put [.key k, .key "frags_orbs", .idx vi.2] vi.1)) ++
  (match orbsym with
    | none => []
    | some v => [.put [.key k, .key "mo_coeff_orbsym"] v])

/-- mcscf/chkfile.py:127-132 `_dump_las_ci_`. -/
def opsCi {V : Type} (k : String) (ci : List (List V)) : List (FOp V) :=
  ci.zipIdx.flatMap (fun ri => .group [.key k, .key "ci", .idx ri.2] ::
    ri.1.zipIdx.map (fun vj => .put [.key k, .key "ci", .idx ri.2, .idx vj.2] vj.1))

/-- mcscf/chkfile.py:75-92 `dump_las`. -/
def dumpLas {V : Type} (k : String) (overwriteMol : Bool) (mol : V) (c : Calc V) : List (FOp V) :=
  opsHead k overwriteMol mol ++ opsAttrs k c.data c.fragsOrbs c.orbsym ++ opsCi k c.ci

/-- lassi/chkfile.py:19-28 `dump_lsi`: the LAS record, then the LASSI record (its own open/close of the file). -/
def dumpLsi {V : Type} (mol : V) (las lsi : Calc V) : List (FOp V) :=
  dumpLas "las" true mol las ++ dumpLas "lsi" true mol lsi

/-- `data[key]` for an attribute; a missing key is `none`. -/
def attr {V : Type} (f : File V) (k key : String) : Option V :=
  match f [.key k, .key key] with
  | some (.data v) => some v
  | _ => none

/-- `d[str(i)]` of a dataset; `none` is `KeyError`. -/
def getData {V : Type} (f : File V) (p : Path) : Option V :=
  match f p with
  | some (.data v) => some v
  | _ => none

/-- The attributes read back. A key that is absent from the file leaves the object's attribute unchanged, recorded as
`none`. -/
structure Attrs (V : Type) where
  config : List (String × Option V)
  saconstr : Option (List V)
  results : List (String × Option V)
  fragsOrbs : Option (List V)
  orbsym : Option V
deriving DecidableEq

/-- mcscf/chkfile.py:25-62 `_load_las_1_`; `none` is `KeyError`. -/
def loadAttrs {V : Type} (f : File V) (k : String) (keysConfig keysSa keysResults : List String) (nfrags : Nat) :
    Option (Attrs V) := do
  let fo ← match f [.key k, .key "frags_orbs"] with
    | none => some none
    | some _ => ((List.range nfrags).mapM (fun i => getData f [.key k, .key "frags_orbs", .idx i])).map some
  pure {
    config := keysConfig.map (fun key => (key, attr f k key))
    saconstr := keysSa.mapM (attr f k)
    results := keysResults.map (fun key => (key, attr f k key))
    fragsOrbs := fo
    orbsym := attr f k "mo_coeff_orbsym" }

/-- mcscf/chkfile.py:64-73 `_load_las_ci_`; `none` is `KeyError`. -/
def loadCi {V : Type} (f : File V) (k : String) (nfrags nroots : Nat) : Option (List (List V)) :=
  if (f [.key k, .key "ci"]).isNone then none
  else (List.range nfrags).mapM (fun (i : Nat) =>
    if (f [.key k, .key "ci", .idx i]).isNone then none
    else (List.range nroots).mapM (fun j => getData f [.key k, .key "ci", .idx i, .idx j]))

/-- mcscf/chkfile.py:9-23 `load_las_` into an object with `nfrags` fragments and `nroots0` roots. `state_average_`
sets the number of roots to that of the loaded `weights` (`len`). `none` is an exception. -/
def loadLas {V : Type} (len : V → Nat) (f : File V) (k : String) (keysConfig keysSa keysResults : List String)
    (nfrags nroots0 : Nat) : Option (Attrs V × List (List V)) := do
  if (f [.key k]).isNone then none
  let a ← loadAttrs f k keysConfig keysSa keysResults nfrags
  let nroots := match a.saconstr with
    | some (w :: _) => len w
    | _ => nroots0
  let ci ← loadCi f k nfrags nroots
  pure (a, ci)

/-- mcscf/chkfile.py:5-7. -/
def keysConfigLas : List String := ["ncas", "nelecas", "ncore", "ncas_sub", "nelecas_sub"]
def keysSaLas : List String := ["weights", "charges", "spins", "smults", "wfnsyms"]
def keysResultsLas : List String := ["e_states", "states_converged", "e_tot", "mo_coeff"]

/-- lassi/chkfile.py:5-7. -/
def keysConfigLsi : List String := keysConfigLas ++ ["nfrags", "break_symmetry", "soc", "opt", "mo_coeff"]
def keysResultsLsi : List String := ["e_states", "e_roots", "si", "s2", "nelec", "wfnsym", "rootsym"]

/-- lassi/chkfile.py:9-17 `load_lsi_`. -/
def loadLsi {V : Type} (len : V → Nat) (f : File V) (nfrags nroots0 : Nat) :
    Option ((Attrs V × List (List V)) × (Attrs V × List (List V))) := do
  let a ← loadLas len f "las" keysConfigLas keysSaLas keysResultsLas nfrags nroots0
  let b ← loadLas len f "lsi" keysConfigLsi keysSaLas keysResultsLsi nfrags nroots0
  pure (a, b)

/-- lassis/chkfile.py:75-94 `_dump_lsis_ci_`: the spin-flip vectors `ciSf[i][s]` and charge-hop vectors
`ciCh[i][a][s][p]`, absent (`None`) ones not written. -/
def opsLsisCi {V : Type} (k : String) (nfrags : Nat) (ciSf : Nat → Nat → Option V)
    (ciCh : Nat → Nat → Nat → Nat → Option V) : List (FOp V) :=
  .group [.key k, .key "ci_sf"] ::
  (List.range nfrags).flatMap (fun i => .group [.key k, .key "ci_sf", .idx i] ::
    (List.range 2).flatMap (fun s => ((ciSf i s).map (FOp.put [.key k, .key "ci_sf", .idx i, .idx s])).toList)) ++
  .group [.key k, .key "ci_ch"] ::
  (List.range nfrags).flatMap (fun i => .group [.key k, .key "ci_ch", .idx i] ::
    (List.range nfrags).flatMap (fun a => .group [.key k, .key "ci_ch", .idx i, .idx a] ::
      (List.range 4).flatMap (fun s => .group [.key k, .key "ci_ch", .idx i, .idx a, .idx s] ::
        (List.range 2).flatMap (fun p =>
          ((ciCh i a s p).map (FOp.put [.key k, .key "ci_ch", .idx i, .idx a, .idx s, .idx p])).toList))))

/-- lassis/chkfile.py:28-51 `_load_lsis_ci_`; `none` is `KeyError`. -/
def loadLsisCi {V : Type} (f : File V) (k : String) (nfrags : Nat) :
    Option (List (List (Option V)) × List (List (List (List (Option V))))) := do
  if (f [.key k, .key "ci_sf"]).isNone then none
  let sf ← (List.range nfrags).mapM (fun i =>
    if (f [.key k, .key "ci_sf", .idx i]).isNone then none
    else some ((List.range 2).map fun s => getData f [.key k, .key "ci_sf", .idx i, .idx s]))
  if (f [.key k, .key "ci_ch"]).isNone then none
  let ch ← (List.range nfrags).mapM (fun i =>
    if (f [.key k, .key "ci_ch", .idx i]).isNone then none
    else (List.range nfrags).mapM (fun a =>
      if (f [.key k, .key "ci_ch", .idx i, .idx a]).isNone then none
      else (List.range 4).mapM (fun s =>
        if (f [.key k, .key "ci_ch", .idx i, .idx a, .idx s]).isNone then none
        else some ((List.range 2).map fun p => getData f [.key k, .key "ci_ch", .idx i, .idx a, .idx s, .idx p]))))
  pure (sf, ch)

/-- lassis/chkfile.py:8. -/
def keysResultsLsis : List String := keysResultsLsi ++ ["converged", "max_disc_sval"]

/-- lassis/chkfile.py:53-77 `dump_lsis`. -/
def dumpLsis {V : Type} (mol : V) (las : Calc V) (data : List (String × V)) (fragsOrbs : Option (List V))
    (orbsym : Option V) (nfrags : Nat) (ciSf : Nat → Nat → Option V) (ciCh : Nat → Nat → Nat → Nat → Option V) :
    List (FOp V) :=
  dumpLas "las" true mol las ++
  (opsHead "lsi" true mol ++ opsAttrs "lsi" data fragsOrbs orbsym ++ opsLsisCi "lsi" nfrags ciSf ciCh)

/-- lassis/chkfile.py:10-26 `load_lsis_` (without `prepare_model_states_`). -/
def loadLsis {V : Type} (len : V → Nat) (f : File V) (nfrags nroots0 : Nat) :
    Option ((Attrs V × List (List V)) × Attrs V ×
      (List (List (Option V)) × List (List (List (List (Option V)))))) := do
  let a ← loadLas len f "las" keysConfigLas keysSaLas keysResultsLas nfrags nroots0
  if (f [.key "lsi"]).isNone then none
  let b ← loadAttrs f "lsi" keysConfigLsi keysSaLas keysResultsLsis nfrags
  let ci ← loadLsisCi f "lsi" nfrags
  pure (a, b, ci)

end Verif.Chkfile
