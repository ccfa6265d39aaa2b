/-!
# Model of CPython's `set` of small non-negative integers

Only the iteration order matters: `list (set (frag_list))` is used at
/repo/my_pyscf/lassi/op_o1/utilities.py:60 and :92.  The table layout follows CPython's
Objects/setobject.c (`set_add_entry`, `set_insert_clean`, `set_table_resize`; LINEAR_PROBES = 9,
PERTURB_SHIFT = 5, PySet_MINSIZE = 8, hash(n) = n for small non-negative integers).
That CPython behaviour is part of the trusted base.
-/
namespace Verif.PySet

/-- CPython setobject.c, `set_add_entry`: the inner `do ... while (probes--)` loop. First slot among
`i, ..., i+n-1` that is unused or already holds `key`. -/
def scan (tbl : List (Option Nat)) (key i n : Nat) : Option Nat :=
  ((List.range n).map (i + ·)).find? (fun j => tbl[j]? == some none || tbl[j]? == some (some key))

/-- CPython setobject.c, `set_add_entry`: the outer probing loop. `fuel` bounds the number of
perturbation rounds (the C loop has no bound; the table is never full). -/
def slotOf (tbl : List (Option Nat)) (key : Nat) : Nat → Nat → Nat → Nat
  | 0, i, _ => i
  | fuel + 1, i, perturb =>
    let n := if i + 9 ≤ tbl.length - 1 then 10 else 1
    match scan tbl key i n with
    | some j => j
    | none => slotOf tbl key fuel ((i * 5 + 1 + perturb / 32) % tbl.length) (perturb / 32)

/-- The slot `set_add_entry` / `set_insert_clean` settles on, starting from `hash & mask`. -/
def slot (tbl : List (Option Nat)) (key : Nat) : Nat :=
  slotOf tbl key (64 + tbl.length) (key % tbl.length) key

/-- CPython setobject.c, `set_table_resize`: smallest power-of-two multiple of 8 above `minused`. -/
def newSize (minused : Nat) : Nat → Nat → Nat
  | 0, s => s
  | fuel + 1, s => if s ≤ minused then newSize minused fuel (s * 2) else s

/-- CPython setobject.c, `set_insert_clean`. -/
def insertClean (tbl : List (Option Nat)) (key : Nat) : List (Option Nat) :=
  tbl.set (slot tbl key) (some key)

/-- CPython setobject.c, `set_table_resize`: re-insert in table order. -/
def resize (tbl : List (Option Nat)) (minused : Nat) : List (Option Nat) :=
  (tbl.filterMap id).foldl insertClean (List.replicate (newSize minused 64 8) none)

/-- CPython setobject.c, `set_add_entry` (no deletions ever happen, so `fill = used`). -/
def add (tbl : List (Option Nat)) (key : Nat) : List (Option Nat) :=
  let j := slot tbl key
  if tbl[j]? = some (some key) then tbl else
    let tbl' := tbl.set j (some key)
    let used := (tbl'.filterMap id).length
    if used * 5 < (tbl.length - 1) * 3 then tbl'
    else resize tbl' (if used > 50000 then used * 2 else used * 4)

/-- `list (set (l))`: insert one by one, then read the table in slot order. -/
def listSet (l : List Nat) : List Nat :=
  (l.foldl add (List.replicate 8 none)).filterMap id

end Verif.PySet
