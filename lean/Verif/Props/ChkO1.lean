import Verif.Model.ChkO1
import Mathlib.Data.List.Infix
import Mathlib.Tactic.Common
/-!
# C43, C44: checkpoint of the op_o1 intermediates
-/
namespace Verif.Props
open Verif.ChkO1
variable {A : Type}

/-- Text without the markers, usable as a link name. -/
def PlainName (s : List Char) : Prop := nameOk s = true ∧ contains fromNone s = false ∧ contains fromInt s = false

mutual
/-- Values built of `None`, integers, arrays, lists and dicts whose keys are integers, `None` or plain names. -/
def Tabular : Val A → Prop
  | .none => True
  | .int _ => True
  | .arr _ => True
  | .list l => TabularAll l
  | .dict d => TabularDict d
  | _ => False
def TabularAll : Vals A → Prop
  | .nil => True
  | .cons v l => Tabular v ∧ TabularAll l
def TabularDict : Pairs A → Prop
  | .nil => True
  | .cons k v d => ((∃ z, k = .int z) ∨ k = .none ∨ ∃ s, k = .str s ∧ PlainName s) ∧ Tabular v ∧ TabularDict d
end

theorem contains_append_right (pat a b : List Char) (h : contains pat b = true) : contains pat (a ++ b) = true := by
  induction a with
  | nil => exact h
  | cons c a ih => rw [List.cons_append, contains, ih, Bool.or_true]

theorem contains_iff (pat s : List Char) : contains pat s = true ↔ pat <:+: s := by
  induction s with
  | nil => rw [contains, List.isPrefixOf_iff_prefix, List.infix_nil, List.prefix_nil]
  | cons c s ih => rw [contains, Bool.or_eq_true, ih, List.isPrefixOf_iff_prefix, List.infix_cons_iff]

theorem fmtInt_chars (z : Int) : ∀ c ∈ fmtInt z, c = '-' ∨ c.isDigit = true := by
  intro c hc
  cases z with
  | ofNat n => exact Or.inr (Nat.isDigit_of_mem_toDigits (by decide) (by decide) hc)
  | negSucc n =>
    rw [fmtInt, List.mem_cons] at hc
    rcases hc with h | h
    · exact Or.inl h
    · exact Or.inr (Nat.isDigit_of_mem_toDigits (by decide) (by decide) h)

theorem parse_fmt (z : Int) : parseInt (fmtInt z) = some z := by
  cases z with
  | ofNat n =>
    have hne : Nat.toDigits 10 n ≠ [] := Nat.toDigits_ne_nil
    have hd : (Nat.toDigits 10 n).all Char.isDigit = true :=
      List.all_eq_true.mpr (fun c hc => Nat.isDigit_of_mem_toDigits (by decide) (by decide) hc)
    have hmin : ∀ r, Nat.toDigits 10 n ≠ '-' :: r := by
      intro r h
      have := List.all_eq_true.mp hd '-' (by rw [h]; exact List.mem_cons_self)
      exact absurd this (by decide)
    unfold parseInt fmtInt
    split
    · rename_i r h; exact absurd h (hmin r)
    · rw [if_pos ⟨hne, hd⟩, Nat.ofDigitChars_ten_toDigits]
      rfl
  | negSucc n =>
    have hne : Nat.toDigits 10 (n + 1) ≠ [] := Nat.toDigits_ne_nil
    have hd : (Nat.toDigits 10 (n + 1)).all Char.isDigit = true :=
      List.all_eq_true.mpr (fun c hc => Nat.isDigit_of_mem_toDigits (by decide) (by decide) hc)
    show (if Nat.toDigits 10 (n + 1) ≠ [] ∧ (Nat.toDigits 10 (n + 1)).all Char.isDigit then
      some (- (Nat.ofDigitChars 10 (Nat.toDigits 10 (n + 1)) 0 : Int)) else none) = _
    rw [if_pos ⟨hne, hd⟩, Nat.ofDigitChars_ten_toDigits]
    rfl

theorem takeWhile_mark (s t : List Char) (h : ∀ c ∈ s, c ≠ '.') : (s ++ '.' :: t).takeWhile (· ≠ '.') = s := by
  rw [List.takeWhile_append_of_pos (by intro c hc; simpa using h c hc)]
  simp

theorem no_none_in_mark (z : Int) (pre post : List Char) (h1 : 'N' ∉ pre) (h2 : 'N' ∉ post) :
    contains fromNone (pre ++ markInt (fmtInt z) ++ post) = false := by
  by_contra h
  rw [Bool.not_eq_false, contains_iff] at h
  have hN : 'N' ∈ pre ++ markInt (fmtInt z) ++ post := h.subset (by decide)
  rw [List.mem_append, List.mem_append] at hN
  rcases hN with (hN | hN) | hN
  · exact h1 hN
  · unfold markInt at hN
    rw [List.mem_append] at hN
    rcases hN with hN | hN
    · rcases fmtInt_chars z _ hN with h | h
      · exact absurd h (by decide)
      · exact absurd h (by decide)
    · exact absurd hN (by decide)
  · exact h2 hN

theorem load_int_bytes (z : Int) : filterText (A := A) (reprBytes (markInt (fmtInt z))) (.bytes (markInt (fmtInt z))) = some (.int z) := by
  have hdot : ∀ c ∈ fmtInt z, c ≠ '.' := by
    intro c hc h
    rcases fmtInt_chars z c hc with h' | h' <;> rw [h] at h' <;> exact absurd h' (by decide)
  have h1 : contains fromNone (reprBytes (markInt (fmtInt z))) = false := no_none_in_mark z _ _ (by decide) (by decide)
  have h2 : contains fromInt (reprBytes (markInt (fmtInt z))) = true := by
    rw [contains_iff]
    exact ⟨"b'".toList ++ fmtInt z ++ ['.'], "'".toList, by simp [reprBytes, markInt]⟩
  have h3 : unmarkInt (reprBytes (markInt (fmtInt z))) = some z := by
    have e : reprBytes (markInt (fmtInt z)) = 'b' :: '\'' :: (fmtInt z ++ '.' :: (fromInt ++ "'".toList)) := by
      simp [reprBytes, markInt]
    unfold unmarkInt
    rw [e, if_pos (by simp [List.isPrefixOf])]
    rw [List.drop_succ_cons, List.drop_succ_cons, List.drop_zero, takeWhile_mark _ _ hdot, parse_fmt]
  unfold filterText
  rw [h1, h2, h3]
  rfl

theorem load_int_str (z : Int) : filterText (A := A) (markInt (fmtInt z)) (.str (markInt (fmtInt z))) = some (.int z) := by
  have hdot : ∀ c ∈ fmtInt z, c ≠ '.' := by
    intro c hc h
    rcases fmtInt_chars z c hc with h' | h' <;> rw [h] at h' <;> exact absurd h' (by decide)
  have h1 : contains fromNone (markInt (fmtInt z)) = false := by
    have := no_none_in_mark z [] [] (by decide) (by decide)
    simpa using this
  have h2 : contains fromInt (markInt (fmtInt z)) = true := by
    rw [contains_iff]
    exact ⟨fmtInt z ++ ['.'], [], by simp [markInt]⟩
  have h3 : unmarkInt (markInt (fmtInt z)) = some z := by
    unfold unmarkInt
    rw [if_neg]
    · unfold markInt
      rw [takeWhile_mark _ _ hdot, parse_fmt]
    · intro h
      rw [List.isPrefixOf_iff_prefix] at h
      have hne : fmtInt z ≠ [] := by
        cases z with
        | ofNat n => exact Nat.toDigits_ne_nil
        | negSucc n => simp [fmtInt]
      obtain ⟨c, r, hcr⟩ := List.exists_cons_of_ne_nil hne
      unfold markInt at h
      rw [hcr] at h
      have hb : 'b' = c := by
        rw [List.cons_append, show "b'".toList = ['b', '\''] from rfl, List.cons_prefix_cons] at h
        exact h.1
      rcases fmtInt_chars z c (by rw [hcr]; exact List.mem_cons_self) with h' | h' <;> rw [← hb] at h' <;>
        exact absurd h' (by decide)
  unfold filterText
  rw [h1, h2, h3]
  rfl

theorem nameOk_mark (z : Int) : nameOk (markInt (fmtInt z)) = true := by
  have hsl : '/' ∉ markInt (fmtInt z) := by
    unfold markInt
    rw [List.mem_append]
    rintro (h | h)
    · rcases fmtInt_chars z _ h with h' | h' <;> exact absurd h' (by decide)
    · exact absurd h (by decide)
  have hlen : 2 ≤ (markInt (fmtInt z)).length := by
    unfold markInt
    rw [List.length_append]
    have : ('.' :: fromInt).length = 13 := rfl
    omega
  unfold nameOk
  rw [Bool.and_eq_true, Bool.and_eq_true, bne_iff_ne, bne_iff_ne, Bool.not_eq_true']
  refine ⟨⟨?_, ?_⟩, ?_⟩
  · intro h; rw [h] at hlen; simp at hlen
  · rw [← Bool.not_eq_true, List.contains_iff_mem]; exact hsl
  · intro h; rw [h] at hlen; simp at hlen

mutual
theorem roundTrip_val : (v : Val A) → Tabular v → (store (filterDump v)).bind filterLoad = some v
  | .none, _ => by
    rw [filterDump, store, Option.bind_some, filterLoad, filterText, if_pos (by decide)]
  | .int z, _ => by
    rw [filterDump, store, Option.bind_some, filterLoad, load_int_bytes]
  | .arr a, _ => by rw [filterDump, store, Option.bind_some, filterLoad]
  | .list l, h => by
    have := roundTrip_vals l (by simpa only [Tabular] using h)
    rw [filterDump, store]
    cases hs : stores (filterDumps l) with
    | none => rw [hs] at this; simp at this
    | some w =>
      rw [hs, Option.bind_some] at this
      rw [Option.map_some, Option.bind_some, filterLoad, this, Option.map_some]
  | .dict d, h => by
    have := roundTrip_pairs d (by simpa only [Tabular] using h)
    rw [filterDump, store]
    cases hs : storePairs (filterDumpPairs d) with
    | none => rw [hs] at this; simp at this
    | some w =>
      rw [hs, Option.bind_some] at this
      rw [Option.map_some, Option.bind_some, filterLoad, this, Option.map_some]
  | .bool _, h => by simp [Tabular] at h
  | .str _, h => by simp [Tabular] at h
  | .bytes _, h => by simp [Tabular] at h
  | .tuple _, h => by simp [Tabular] at h
  | .gen _, h => by simp [Tabular] at h
theorem roundTrip_vals : (l : Vals A) → TabularAll l → (stores (filterDumps l)).bind filterLoads = some l
  | .nil, _ => by rw [filterDumps, stores, Option.bind_some, filterLoads]
  | .cons v l, h => by
    rw [TabularAll] at h
    have h1 := roundTrip_val v h.1
    have h2 := roundTrip_vals l h.2
    rw [filterDumps, stores]
    cases hv : store (filterDump v) with
    | none => rw [hv] at h1; simp at h1
    | some v' =>
      cases hl : stores (filterDumps l) with
      | none => rw [hl] at h2; simp at h2
      | some l' =>
        rw [hv, Option.bind_some] at h1
        rw [hl, Option.bind_some] at h2
        rw [Option.bind_some, Option.map_some, Option.bind_some, filterLoads, h1, h2, Option.bind_some, Option.map_some]
theorem roundTrip_pairs : (d : Pairs A) → TabularDict d → (storePairs (filterDumpPairs d)).bind filterLoadPairs = some d
  | .nil, _ => by rw [filterDumpPairs, storePairs, Option.bind_some, filterLoadPairs]
  | .cons k v d, h => by
    rw [TabularDict] at h
    obtain ⟨hk, hv, hd⟩ := h
    have h1 := roundTrip_val v hv
    have h2 := roundTrip_pairs d hd
    have hkey : ∃ s, filterDump k = .str s ∧ nameOk s = true ∧ filterLoad (.str s : Val A) = some k := by
      rcases hk with ⟨z, rfl⟩ | rfl | ⟨s, rfl, hs⟩
      · exact ⟨_, by rw [filterDump], nameOk_mark z, by rw [filterLoad, load_int_str]⟩
      · exact ⟨_, by rw [filterDump], by decide, by rw [filterLoad, filterText, if_pos (by decide)]⟩
      · exact ⟨s, by rw [filterDump], hs.1, by
          rw [filterLoad, filterText, hs.2.1, hs.2.2]; rfl⟩
    obtain ⟨s, e1, e2, e3⟩ := hkey
    rw [filterDumpPairs, e1, storePairs, if_pos e2]
    cases hv : store (filterDump v) with
    | none => rw [hv] at h1; simp at h1
    | some v' =>
      cases hl : storePairs (filterDumpPairs d) with
      | none => rw [hl] at h2; simp at h2
      | some d' =>
        rw [hv, Option.bind_some] at h1
        rw [hl, Option.bind_some] at h2
        rw [Option.bind_some, Option.map_some, Option.bind_some, filterLoadPairs, e3, h1, h2, Option.bind_some,
          Option.bind_some, Option.map_some]
end

/-- **C43**, the part that holds: every value built of `None`, integers of either sign, arrays, lists and dicts with
integer, `None` or ordinary text keys, nested to any depth, comes back equal. Missing: tuples and booleans, see
`C43_tuple_violated`, `C43_bool_violated`. -/
theorem C43_roundtrip_partial (v : Val A) (h : Tabular v) : roundTrip v = some v := roundTrip_val v h

/-- **C43** fails for tuples: none comes back as a tuple. -/
theorem C43_tuple_violated (l : Vals A) : roundTrip (.tuple l) ≠ some (.tuple l) := by
  unfold roundTrip
  rw [filterDump, store]
  cases stores (filterDumps l) with
  | none => simp
  | some w =>
    rw [Option.map_some, Option.bind_some, filterLoad]
    cases filterLoads w with
    | none => simp
    | some x => simp

/-- **C43** fails for booleans: loading a saved one raises `ValueError`. -/
theorem C43_bool_violated (b : Bool) : roundTrip (.bool b : Val A) = none := by
  unfold roundTrip
  rw [filterDump, store, Option.bind_some, filterLoad]
  cases b
  · have h1 : contains fromNone (reprBytes (markInt "False".toList)) = false := by decide
    have h2 : contains fromInt (reprBytes (markInt "False".toList)) = true := by decide
    have h3 : unmarkInt (reprBytes (markInt "False".toList)) = none := by decide
    simp only [Bool.false_eq_true, if_false]
    rw [filterText, h1, h2, h3]; rfl
  · have h1 : contains fromNone (reprBytes (markInt "True".toList)) = false := by decide
    have h2 : contains fromInt (reprBytes (markInt "True".toList)) = true := by decide
    have h3 : unmarkInt (reprBytes (markInt "True".toList)) = none := by decide
    simp only [if_true]
    rw [filterText, h1, h2, h3]; rfl

/-- Non-vacuity: a nested table with negative numbers, `None` entries and integer keys. -/
example : Tabular (.dict (.cons (.int (-3)) (.list (.cons .none (.cons (.int 12) (.cons (.arr ()) .nil))))
    (.cons (.str "norb".toList) (.int 4) .nil)) : Val Unit) := by
  simp only [Tabular, TabularDict, TabularAll, and_true, true_and]
  exact ⟨Or.inl ⟨_, rfl⟩, Or.inr (Or.inr ⟨_, rfl, by decide, by decide, by decide⟩)⟩

/-- **C44** fails: `load_chk_` never returns `True`, whatever the file contains: it reports a mismatch of the data type or
raises, because the comparison loop unpacks the first field name `'norb'` into two variables. -/
theorem C44_load_violated {S : Type} (dtypeSame : Bool) (differ : String → String → Bool) (update : S → S) (s s' : S) :
    loadChk dtypeSame differ update s ≠ .returned true s' := by
  unfold loadChk
  cases dtypeSame with
  | false => simp
  | true =>
    have : compareLoop differ chkconfig = none := rfl
    rw [this]
    simp

/-- **C44**, the part that holds: the object is left as it was, so that the caller can recompute the tables, unless `True`
is returned. Missing: that a consistent checkpoint is accepted. -/
theorem C44_unchanged_partial {S : Type} (dtypeSame : Bool) (differ : String → String → Bool) (update : S → S) (s : S) :
    loadChk dtypeSame differ update s = .returned false s ∨ loadChk dtypeSame differ update s = .raised s := by
  unfold loadChk
  cases dtypeSame with
  | false => left; rfl
  | true =>
    have : compareLoop differ chkconfig = none := rfl
    rw [this]
    right; rfl

end Verif.Props
