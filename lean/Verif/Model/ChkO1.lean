import Mathlib.Logic.Basic
/-!
# Model of the checkpoint of the op_o1 intermediates

/repo/my_pyscf/lassi/op_o1/chkfile.py and /repo/my_pyscf/lassi/op_o1/frag.py:561-621

Text is a list of characters. The storage layer `pyscf.lib.chkfile` is external; what is assumed of it is `store` below.
-/
namespace Verif.ChkO1

mutual
/-- Python values. `arr` stands for arrays and numpy scalars, `gen` for a generator object. -/
inductive Val (A : Type)
  | none
  | int (z : Int)
  | bool (b : Bool)
  | str (s : List Char)
  | bytes (s : List Char)
  | arr (a : A)
  | list (l : Vals A)
  | tuple (l : Vals A)
  | dict (d : Pairs A)
  | gen (l : Vals A)
/-- Items of a sequence. -/
inductive Vals (A : Type)
  | nil
  | cons (v : Val A) (l : Vals A)
/-- Items of a dict. -/
inductive Pairs (A : Type)
  | nil
  | cons (k v : Val A) (d : Pairs A)
end

variable {A : Type}

/-- `pat in s` -/
def contains (pat : List Char) : List Char → Bool
  | [] => pat.isPrefixOf []
  | c :: s => pat.isPrefixOf (c :: s) || contains pat s

/-- The marker strings of chkfile.py:30,32. -/
def fromNone : List Char := "__from_None__".toList
def fromInt : List Char := "__from_int__".toList

/-- `'{}'.format (z)` of an `int`. -/
def fmtInt : Int → List Char
  | .ofNat n => Nat.toDigits 10 n
  | .negSucc n => '-' :: Nat.toDigits 10 (n + 1)

/-- `int (s)`; `none` is `ValueError`. Blanks, a plus sign and digit-group underscores, which Python admits, do not occur
in the strings passed to it and are not modelled. -/
def parseInt (s : List Char) : Option Int :=
  match s with
  | '-' :: r => if r ≠ [] ∧ r.all Char.isDigit then some (- (Nat.ofDigitChars 10 r 0 : Int)) else none
  | r => if r ≠ [] ∧ r.all Char.isDigit then some (Nat.ofDigitChars 10 r 0 : Int) else none

/-- `'{}.__from_int__'.format (item)`, chkfile.py:32. -/
def markInt (s : List Char) : List Char := s ++ '.' :: fromInt

mutual
/-- chkfile.py:18-25, 28-34: `iterate_down (value, myfilter)` of `dump`. `bool` is a subclass of `int`; a parenthesised
comprehension is a generator. -/
def filterDump : Val A → Val A
  | .none => .str fromNone
  | .int z => .str (markInt (fmtInt z))
  | .bool b => .str (markInt (if b then "True".toList else "False".toList))
  | .str s => .str s
  | .bytes s => .bytes s
  | .arr a => .arr a
  | .list l => .list (filterDumps l)
  | .tuple l => .gen (filterDumps l)
  | .dict d => .dict (filterDumpPairs d)
  | .gen l => .gen l
def filterDumps : Vals A → Vals A
  | .nil => .nil
  | .cons v l => .cons (filterDump v) (filterDumps l)
def filterDumpPairs : Pairs A → Pairs A
  | .nil => .nil
  | .cons k v d => .cons (filterDump k) (filterDump v) (filterDumpPairs d)
end

/-- The text of a legal HDF5 link name. -/
def nameOk (s : List Char) : Bool := s != [] && !s.contains '/' && s != ['.']

mutual
/-- What `pyscf.lib.chkfile.load` returns after `pyscf.lib.chkfile.dump` (external, assumed): sequences and iterators come
back as lists, text as bytes, dict keys are link names, arrays are unchanged, other objects cannot be stored. -/
def store : Val A → Option (Val A)
  | .str s => some (.bytes s)
  | .bytes s => some (.bytes s)
  | .arr a => some (.arr a)
  | .list l => (stores l).map .list
  | .tuple l => (stores l).map .list
  | .gen l => (stores l).map .list
  | .dict d => (storePairs d).map .dict
  | .none => none
  | .int _ => none
  | .bool _ => none
def stores : Vals A → Option (Vals A)
  | .nil => some .nil
  | .cons v l => (store v).bind fun v => (stores l).map fun l => .cons v l
def storePairs : Pairs A → Option (Pairs A)
  | .nil => some .nil
  | .cons k v d => match k with
    | .str s => if nameOk s then (store v).bind fun v => (storePairs d).map fun d => .cons (.str s) v d else none
    | _ => none
end

/-- chkfile.py:41-45: the branch for integers; `s` is `str (item)`. -/
def unmarkInt (s : List Char) : Option Int :=
  parseInt ((if "b'".toList.isPrefixOf s then s.drop 2 else s).takeWhile (· ≠ '.'))

/-- `str (b)` of a `bytes` object of printable characters. -/
def reprBytes (s : List Char) : List Char := "b'".toList ++ s ++ "'".toList

/-- chkfile.py:38-47 `myfilter` of `load` on text; `s` is `str (item)`. -/
def filterText (s : List Char) (item : Val A) : Option (Val A) :=
  if contains fromNone s then some .none
  else if contains fromInt s then (unmarkInt s).map .int
  else some item

mutual
/-- chkfile.py:37-48: `iterate_down (…, myfilter)` of `load`; `none` is `ValueError`. -/
def filterLoad : Val A → Option (Val A)
  | .none => some .none
  | .int z => some (.int z)
  | .bool b => some (.bool b)
  | .str s => filterText s (.str s)
  | .bytes s => filterText (reprBytes s) (.bytes s)
  | .arr a => some (.arr a)
  | .list l => (filterLoads l).map .list
  | .tuple l => (filterLoads l).map .gen
  | .dict d => (filterLoadPairs d).map .dict
  | .gen l => some (.gen l)
def filterLoads : Vals A → Option (Vals A)
  | .nil => some .nil
  | .cons v l => (filterLoad v).bind fun v => (filterLoads l).map fun l => .cons v l
def filterLoadPairs : Pairs A → Option (Pairs A)
  | .nil => some .nil
  | .cons k v d => (filterLoad k).bind fun k => (filterLoad v).bind fun v => (filterLoadPairs d).map fun d => .cons k v d
end

/-- `load` after `dump`: the value that comes back, `none` for an exception. -/
def roundTrip (v : Val A) : Option (Val A) := (store (filterDump v)).bind filterLoad

/-- frag.py:561-569. -/
def chkconfig : List String :=
  ["norb", "nroots", "nelec_r", "spins_r", "smult_r", "rootaddr", "fragaddr", "discriminator", "idx_frag"]

/-- Outcome of `load_chk_`. -/
inductive Outcome (S : Type)
  | returned (b : Bool) (s : S)
  | raised (s : S)

/-- frag.py:608-612: `for key, val in loaded:` runs over the keys of the dict, which are unpacked into two variables:
`ValueError` unless the key has exactly two characters. The attributes and loaded values are then looked up and compared
by `differ`. -/
def compareLoop (differ : String → String → Bool) : List String → Option Bool
  | [] => some true
  | key :: l => match key.toList with
    | [a, b] => if differ (String.ofList [a]) (String.ofList [b]) then some false else compareLoop differ l
    | _ => none

/-- frag.py:598-621 `FragTDMInt.load_chk_` on an object in state `s`. `dtypeSame` is the outcome of line 602 (a `str`
compared with what the storage layer returns), `update` the effect of lines 615-620. -/
def loadChk {S : Type} (dtypeSame : Bool) (differ : String → String → Bool) (update : S → S) (s : S) : Outcome S :=
  if !dtypeSame then .returned false s
  else match compareLoop differ chkconfig with
    | none => .raised s
    | some false => .returned false s
    | some true => .returned true (update s)

end Verif.ChkO1
