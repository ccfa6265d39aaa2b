import Verif.Model.SlaterCondon
import Mathlib.Data.List.Sort
import Mathlib.Data.List.Flatten
/-!
Lemmas about the threaded listing, the fingerprint rows and the hash of
/repo/lib/lassi/slatercondon.c.
-/
namespace Verif.SC

/-! ### counting -/

theorem threadCount_eq (cpl : Nat × Nat → Bool) (nket : Nat) (its : List Nat) :
    threadCount cpl nket its = (its.filter (fun i => cpl (pairOf nket i))).length := by
  have : ∀ n, its.foldl (fun n iel => if cpl (pairOf nket iel) then n + 1 else n) n =
      n + (its.filter (fun i => cpl (pairOf nket i))).length := by
    induction its with
    | nil => simp
    | cons i its ih =>
      intro n
      rw [List.foldl_cons, ih, List.filter_cons]
      split <;> simp <;> omega
  simpa [threadCount] using this 0

theorem cntInter_eq (cpl : Nat × Nat → Bool) (nket : Nat) (threads : List (List Nat)) :
    cntInter cpl nket threads = (threads.flatten.filter (fun i => cpl (pairOf nket i))).length := by
  have : ∀ n, threads.foldl (fun n its => n + threadCount cpl nket its) n =
      n + (threads.flatten.filter (fun i => cpl (pairOf nket i))).length := by
    induction threads with
    | nil => simp
    | cons t ts ih =>
      intro n
      rw [List.foldl_cons, ih, threadCount_eq]
      simp; omega
  simpa [cntInter] using this 0

/-! ### listing -/

def flatOf (l : List (Nat × Nat)) : List Int := l.flatMap (fun p => [(p.1 : Int), (p.2 : Int)])

def coupledOf (cpl : Nat × Nat → Bool) (nket : Nat) (its : List Nat) : List (Nat × Nat) :=
  (its.map (pairOf nket)).filter cpl

theorem coupledOf_length (cpl : Nat × Nat → Bool) (nket : Nat) (its : List Nat) :
    (coupledOf cpl nket its).length = (its.filter (fun i => cpl (pairOf nket i))).length := by
  simp [coupledOf, List.filter_map, Function.comp_def]

theorem flatOf_length (l : List (Nat × Nat)) : (flatOf l).length = 2 * l.length := by
  induction l with
  | nil => rfl
  | cons a l ih =>
    have : flatOf (a :: l) = [(a.1 : Int), (a.2 : Int)] ++ flatOf l := rfl
    rw [this, List.length_append, ih]; simp; omega

theorem flatOf_append (l m : List (Nat × Nat)) : flatOf (l ++ m) = flatOf l ++ flatOf m := by
  simp [flatOf]

theorem take_set_succ (buf : List Int) (i : Nat) (v : Int) (h : i < buf.length) :
    (buf.set i v).take (i + 1) = buf.take i ++ [v] := by
  rw [List.take_succ_eq_append_getElem (by simpa using h)]
  rw [List.take_set, List.set_eq_of_length_le (by simp)]
  simp

theorem threadList_eq (cpl : Nat × Nat → Bool) (nket nexc : Nat) (its : List Nat)
    (h : (coupledOf cpl nket its).length ≤ nexc) :
    ∃ buf, threadList cpl nket nexc its = some (buf, (coupledOf cpl nket its).length) ∧
      buf.length = 2 * nexc ∧
      buf.take (2 * (coupledOf cpl nket its).length) = flatOf (coupledOf cpl nket its) := by
  have key : ∀ (buf : List Int) (my : Nat), buf.length = 2 * nexc →
      my + (coupledOf cpl nket its).length ≤ nexc →
      ∃ buf', its.foldl (fun (st : Option (List Int × Nat)) iel => st.bind fun (buf, my) =>
        if cpl (pairOf nket iel) then
          (store buf (my * 2) (pairOf nket iel).1).bind fun buf =>
          (store buf (my * 2 + 1) (pairOf nket iel).2).bind fun buf => some (buf, my + 1)
        else some (buf, my)) (some (buf, my)) = some (buf', my + (coupledOf cpl nket its).length) ∧
      buf'.length = 2 * nexc ∧
      buf'.take (2 * (my + (coupledOf cpl nket its).length)) =
        buf.take (2 * my) ++ flatOf (coupledOf cpl nket its) := by
    clear h
    induction its with
    | nil =>
      intro buf my hb hc
      exact ⟨buf, by simp [coupledOf], hb, by simp [coupledOf, flatOf]⟩
    | cons i its ih =>
      intro buf my hb hc
      rw [List.foldl_cons]
      by_cases hcp : cpl (pairOf nket i) = true
      · have hco : coupledOf cpl nket (i :: its) = pairOf nket i :: coupledOf cpl nket its := by
          simp [coupledOf, hcp]
        rw [hco] at hc ⊢
        simp only [List.length_cons] at hc ⊢
        have h1 : my * 2 < buf.length := by omega
        have h2 : my * 2 + 1 < buf.length := by omega
        simp only [Option.bind_some, hcp, if_true, store, h1, List.length_set, h2]
        obtain ⟨buf', e1, e2, e3⟩ := ih ((buf.set (my * 2) (pairOf nket i).1).set (my * 2 + 1) (pairOf nket i).2)
          (my + 1) (by simpa using hb) (by omega)
        refine ⟨buf', ?_, e2, ?_⟩
        · rw [show my + ((coupledOf cpl nket its).length + 1) = my + 1 + (coupledOf cpl nket its).length by omega]
          exact e1
        · rw [show my + ((coupledOf cpl nket its).length + 1) = my + 1 + (coupledOf cpl nket its).length by omega,
            e3, show 2 * (my + 1) = my * 2 + 1 + 1 by omega, take_set_succ _ _ _ (by simpa using h2),
            take_set_succ _ _ _ h1, show my * 2 = 2 * my by omega]
          simp [flatOf]
      · have hco : coupledOf cpl nket (i :: its) = coupledOf cpl nket its := by
          simp [coupledOf, hcp]
        rw [hco] at hc ⊢
        simp only [Option.bind_some, hcp]
        exact ih buf my hb hc
  obtain ⟨b, e1, e2, e3⟩ := key (List.replicate (2 * nexc) 0) 0 (by simp) (by omega)
  refine ⟨b, ?_, e2, ?_⟩
  · simpa [threadList] using e1
  · simpa using e3

theorem copyOut_eq (mine : List Int) (cnt iexc : Nat) (exc : List Int)
    (h : iexc + cnt ≤ exc.length) (hm : cnt ≤ mine.length) :
    ∃ e, copyOut exc iexc mine cnt = some e ∧ e.length = exc.length ∧
      e.take (iexc + cnt) = exc.take iexc ++ mine.take cnt := by
  induction cnt with
  | zero => exact ⟨exc, by simp [copyOut], rfl, by simp⟩
  | succ c ih =>
    obtain ⟨e, e1, e2, e3⟩ := ih (by omega) (by omega)
    refine ⟨e.set (iexc + c) (mine.getD c 0), ?_, by simpa using e2, ?_⟩
    · unfold copyOut at e1 ⊢
      rw [List.range_succ, List.foldl_append, e1]
      simp only [List.foldl_cons, List.foldl_nil, Option.bind_some, store]
      rw [if_pos (by omega)]
    · rw [← Nat.add_assoc, take_set_succ _ _ _ (by omega), e3,
        List.take_succ_eq_append_getElem (by omega)]
      simp [List.getD_eq_getElem?_getD, List.getElem?_eq_getElem (show c < mine.length by omega)]

theorem listInter_eq (cpl : Nat × Nat → Bool) (nket nexc : Nat) (exc0 : List Int)
    (threads : List (List Nat)) (hl : exc0.length = 2 * nexc)
    (h : (coupledOf cpl nket threads.flatten).length = nexc) :
    listInter cpl nket nexc exc0 threads =
      some (flatOf (coupledOf cpl nket threads.flatten), 2 * nexc) := by
  have key : ∀ (ts : List (List Nat)) (exc : List Int) (m : Nat), exc.length = 2 * nexc →
      m + (coupledOf cpl nket ts.flatten).length ≤ nexc →
      ∃ e, ts.foldl (fun (st : Option (List Int × Nat)) its => st.bind fun (exc, iexc) =>
        (threadList cpl nket nexc its).bind fun (mine, my) =>
          (copyOut exc iexc mine (my * 2)).bind fun exc => some (exc, iexc + my * 2))
        (some (exc, 2 * m)) = some (e, 2 * (m + (coupledOf cpl nket ts.flatten).length)) ∧
        e.length = 2 * nexc ∧ e.take (2 * (m + (coupledOf cpl nket ts.flatten).length)) =
          exc.take (2 * m) ++ flatOf (coupledOf cpl nket ts.flatten) := by
    intro ts
    induction ts with
    | nil => intro exc m hb _; exact ⟨exc, by simp [coupledOf], hb, by simp [coupledOf, flatOf]⟩
    | cons t ts ih =>
      intro exc m hb hc
      have hco : coupledOf cpl nket (t :: ts).flatten =
          coupledOf cpl nket t ++ coupledOf cpl nket ts.flatten := by simp [coupledOf]
      rw [hco] at hc ⊢
      rw [List.length_append] at hc ⊢
      obtain ⟨b, b1, b2, b3⟩ := threadList_eq cpl nket nexc t (by omega)
      obtain ⟨e, e1, e2, e3⟩ := copyOut_eq b ((coupledOf cpl nket t).length * 2) (2 * m) exc
        (by omega) (by omega)
      rw [List.foldl_cons]
      simp only [Option.bind_some, b1, e1]
      obtain ⟨e', f1, f2, f3⟩ := ih e (m + (coupledOf cpl nket t).length) (by omega) (by omega)
      refine ⟨e', ?_, f2, ?_⟩
      · rw [show 2 * m + (coupledOf cpl nket t).length * 2 = 2 * (m + (coupledOf cpl nket t).length) by omega,
          f1]
        simp only [Nat.add_assoc]
      · rw [← Nat.add_assoc, f3, show 2 * (m + (coupledOf cpl nket t).length) =
          2 * m + (coupledOf cpl nket t).length * 2 by omega, e3, Nat.mul_comm _ 2, b3, flatOf_append,
          List.append_assoc]
  obtain ⟨e, e1, e2, e3⟩ := key threads exc0 0 hl (by omega)
  have : e = flatOf (coupledOf cpl nket threads.flatten) := by
    rw [Nat.zero_add, h, ← e2, List.take_length] at e3
    simpa using e3
  rw [← this]
  unfold listInter
  simpa [h] using e1

theorem rows_flatOf (l : List (Nat × Nat)) :
    rows (flatOf l) = l.map (fun p => ((p.1 : Int), (p.2 : Int))) := by
  induction l with
  | nil => rfl
  | cons a l ih =>
    have : flatOf (a :: l) = (a.1 : Int) :: (a.2 : Int) :: flatOf l := rfl
    rw [this, rows, ih]; rfl

theorem range_pairOf (nb nk : Nat) :
    (List.range (nb * nk)).map (pairOf nk) =
      (List.range nb).flatMap (fun b => (List.range nk).map (fun k => (b, k))) := by
  induction nb with
  | zero => simp
  | succ nb ih =>
    rw [Nat.succ_mul, List.range_add, List.map_append, ih, List.range_succ, List.flatMap_append]
    congr 1
    simp only [List.map_map, List.flatMap_cons, List.flatMap_nil, List.append_nil]
    apply List.map_congr_left
    intro k hk
    have hk := List.mem_range.mp hk
    simp only [Function.comp, pairOf]
    rw [Nat.mul_comm, Nat.mul_add_div (by omega), Nat.mul_add_mod, Nat.div_eq_of_lt hk, Nat.mod_eq_of_lt hk]
    simp

theorem lexLE_trans (a b c : Int × Int) : lexLE a b = true → lexLE b c = true → lexLE a c = true := by
  simp only [lexLE, Bool.or_eq_true, Bool.and_eq_true, beq_iff_eq, decide_eq_true_eq]
  omega

theorem lexLE_total (a b : Int × Int) : (lexLE a b || lexLE b a) = true := by
  simp only [lexLE, Bool.or_eq_true, Bool.and_eq_true, beq_iff_eq, decide_eq_true_eq]
  omega

theorem lexLE_antisymm (a b : Int × Int) (h1 : lexLE a b = true) (h2 : lexLE b a = true) : a = b := by
  simp only [lexLE, Bool.or_eq_true, Bool.and_eq_true, beq_iff_eq, decide_eq_true_eq] at h1 h2
  ext <;> omega

/-- sorting a permutation of a sorted list gives that list -/
theorem mergeSort_unique (l c : List (Int × Int)) (hp : l.Perm c) (hs : c.Pairwise (fun a b => lexLE a b = true)) :
    l.mergeSort lexLE = c := by
  have h1 := List.pairwise_mergeSort (le := lexLE) lexLE_trans lexLE_total l
  have h2 : (l.mergeSort lexLE).Perm c := (List.mergeSort_perm l lexLE).trans hp
  exact List.Perm.eq_of_pairwise (fun a b _ _ => lexLE_antisymm a b) h1 hs h2

/-- the canonical table: all coupled pairs in lexicographic order -/
def canonical (cpl : Nat × Nat → Bool) (nb nk : Nat) : List (Nat × Nat) :=
  ((List.range nb).flatMap (fun b => (List.range nk).map (fun k => (b, k)))).filter cpl

theorem canonical_sorted (cpl : Nat × Nat → Bool) (nb nk : Nat) :
    ((canonical cpl nb nk).map (fun p => ((p.1 : Int), (p.2 : Int)))).Pairwise
      (fun a b => lexLE a b = true) := by
  rw [List.pairwise_map]
  apply List.Pairwise.filter
  rw [List.pairwise_flatMap]
  constructor
  · intro b _
    rw [List.pairwise_map]
    apply List.Pairwise.imp _ (List.pairwise_lt_range)
    intro x y hxy
    simp [lexLE]; omega
  · apply List.Pairwise.imp _ (List.pairwise_lt_range)
    intro b b' hb x hx y hy
    simp only [List.mem_map] at hx hy
    obtain ⟨_, _, rfl⟩ := hx
    obtain ⟨_, _, rfl⟩ := hy
    simp [lexLE]; omega

theorem scallowed_eq (cpl : Nat × Nat → Bool) (nb nk : Nat) (s1 s2 : List (List Nat))
    (h1 : s1.flatten.Perm (List.range (nb * nk))) (h2 : s2.flatten.Perm (List.range (nb * nk))) :
    cntInter cpl nk s1 = (canonical cpl nb nk).length ∧
    scallowed cpl nk s1 s2 = some ((canonical cpl nb nk).map (fun p => ((p.1 : Int), (p.2 : Int)))) := by
  have hcan : ∀ s : List (List Nat), s.flatten.Perm (List.range (nb * nk)) →
      (coupledOf cpl nk s.flatten).Perm (canonical cpl nb nk) := by
    intro s hs
    unfold coupledOf canonical
    rw [← range_pairOf]
    exact (hs.map _).filter _
  have hc : cntInter cpl nk s1 = (canonical cpl nb nk).length := by
    rw [cntInter_eq, ← coupledOf_length]; exact (hcan s1 h1).length_eq
  refine ⟨hc, ?_⟩
  unfold scallowed
  rw [hc]
  simp only
  rw [listInter_eq _ _ _ _ _ (by simp) ((hcan s2 h2).length_eq)]
  rw [Option.map_some, rows_flatOf, mergeSort_unique _ _ ((hcan s2 h2).map _) (canonical_sorted cpl nb nk)]

/-! ### bubble sort -/

theorem cmpSwap_cons (x : Int) (t : List Int) (j : Nat) : cmpSwap (x :: t) (j + 1) = x :: cmpSwap t j := by
  unfold cmpSwap
  simp only [List.getElem?_cons_succ, List.set_cons_succ]
  split
  · split <;> rfl
  · rfl

def bpass : Nat → List Int → List Int
  | m + 1, x :: y :: t => if x > y then y :: bpass m (x :: t) else x :: bpass m (y :: t)
  | _, a => a

theorem foldl_cmpSwap_cons (x : Int) (l : List Nat) (t : List Int) :
    (l.map Nat.succ).foldl cmpSwap (x :: t) = x :: l.foldl cmpSwap t := by
  induction l generalizing t with
  | nil => rfl
  | cons j l ih => simp only [List.map_cons, List.foldl_cons, Nat.succ_eq_add_one, cmpSwap_cons]; exact ih _

theorem foldl_cmpSwap_nil (l : List Nat) : l.foldl cmpSwap [] = [] := by
  induction l with
  | nil => rfl
  | cons j l ih => simpa [cmpSwap] using ih

theorem cmpSwap_single (x : Int) (j : Nat) : cmpSwap [x] j = [x] := by
  unfold cmpSwap; cases j <;> simp

theorem foldl_cmpSwap_single (x : Int) (l : List Nat) : l.foldl cmpSwap [x] = [x] := by
  induction l with
  | nil => rfl
  | cons j l ih => rw [List.foldl_cons, cmpSwap_single]; exact ih

theorem foldl_cmpSwap (m : Nat) (a : List Int) : (List.range m).foldl cmpSwap a = bpass m a := by
  induction m generalizing a with
  | zero => cases a <;> simp [bpass]
  | succ m ih =>
    match a with
    | [] => simp [bpass, foldl_cmpSwap_nil]
    | [x] => simp [bpass, foldl_cmpSwap_single]
    | x :: y :: t =>
      rw [List.range_succ_eq_map, List.foldl_cons]
      have e : cmpSwap (x :: y :: t) 0 = if x > y then y :: x :: t else x :: y :: t := by
        simp [cmpSwap]
      rw [e, bpass]
      split
      · rw [foldl_cmpSwap_cons, ih]
      · rw [foldl_cmpSwap_cons, ih]

theorem bpass_perm (m : Nat) (a : List Int) : (bpass m a).Perm a := by
  induction m generalizing a with
  | zero => cases a <;> simp [bpass]
  | succ m ih =>
    match a with
    | [] => simp [bpass]
    | [x] => simp [bpass]
    | x :: y :: t =>
      rw [bpass]
      split
      · exact ((ih _).cons y).trans (List.Perm.swap x y t)
      · exact (ih _).cons x

theorem bpass_append (p q : List Int) (hp : p ≠ []) :
    ∃ p' m, bpass (p.length - 1) (p ++ q) = p' ++ m :: q ∧ p'.length + 1 = p.length ∧
      (p' ++ [m]).Perm p ∧ ∀ x ∈ p', x ≤ m := by
  induction hn : p.length generalizing p with
  | zero => simp at hn; exact absurd hn hp
  | succ n ih =>
    match p, hn with
    | [x], _ => exact ⟨[], x, by cases q <;> simp_all [bpass], by simp_all, by simp, by simp⟩
    | x :: y :: t, hn =>
      obtain ⟨k, rfl⟩ : ∃ k, n = k + 1 := ⟨n - 1, by simp at hn; omega⟩
      rw [show k + 1 + 1 - 1 = k + 1 by omega]
      simp only [List.cons_append, bpass]
      split
      · rename_i hxy
        obtain ⟨p', m, e1, e2, e3, e4⟩ := ih (x :: t) (by simp) (by simpa using hn)
        have e1' : bpass k (x :: (t ++ q)) = p' ++ m :: q := by simpa using e1
        refine ⟨y :: p', m, by rw [e1']; rfl, by simp; omega, ?_, ?_⟩
        · exact (e3.cons y).trans (List.Perm.swap x y t)
        · intro z hz
          rcases List.mem_cons.mp hz with rfl | hz
          · have hx : x ∈ p' ++ [m] := e3.mem_iff.mpr (by simp)
            rcases List.mem_append.mp hx with h | h
            · have := e4 x h; omega
            · simp at h; omega
          · exact e4 z hz
      · rename_i hxy
        obtain ⟨p', m, e1, e2, e3, e4⟩ := ih (y :: t) (by simp) (by simpa using hn)
        have e1' : bpass k (y :: (t ++ q)) = p' ++ m :: q := by simpa using e1
        refine ⟨x :: p', m, by rw [e1']; rfl, by simp; omega, e3.cons x, ?_⟩
        intro z hz
        rcases List.mem_cons.mp hz with rfl | hz
        · have hx : y ∈ p' ++ [m] := e3.mem_iff.mpr (by simp)
          rcases List.mem_append.mp hx with h | h
          · have := e4 y h; omega
          · simp at h; omega
        · exact e4 z hz

theorem bubble_inv (a : List Int) (k : Nat) (hk : k ≤ a.length - 1) :
    ∃ p q, (List.range k).foldl (fun a i => (List.range (a.length - i - 1)).foldl cmpSwap a) a = p ++ q ∧
      q.length = k ∧ (p ++ q).Perm a ∧ q.Pairwise (· ≤ ·) ∧ ∀ x ∈ p, ∀ y ∈ q, x ≤ y := by
  induction k with
  | zero => exact ⟨a, [], by simp, rfl, by simp, by simp, by simp⟩
  | succ k ih =>
    obtain ⟨p, q, e1, e2, e3, e4, e5⟩ := ih (by omega)
    rw [List.range_succ, List.foldl_append, e1]
    simp only [List.foldl_cons, List.foldl_nil]
    have hl := e3.length_eq
    rw [List.length_append] at hl
    have hp : p ≠ [] := by intro h; subst h; simp at hl; omega
    rw [foldl_cmpSwap, List.length_append, show p.length + q.length - k - 1 = p.length - 1 by omega]
    obtain ⟨p', m, f1, f2, f3, f4⟩ := bpass_append p q hp
    have hm : m ∈ p := f3.mem_iff.mp (by simp)
    refine ⟨p', m :: q, f1, by simp [e2], ?_, ?_, ?_⟩
    · refine List.Perm.trans ?_ e3
      have := f3.append_right q
      simpa using this
    · rw [List.pairwise_cons]
      exact ⟨fun y hy => e5 m hm y hy, e4⟩
    · intro x hx y hy
      rcases List.mem_cons.mp hy with rfl | hy
      · exact f4 x hx
      · exact e5 x (f3.mem_iff.mp (by simp [hx])) y hy

theorem bubblesort_spec (a : List Int) : (bubblesort a).Perm a ∧ (bubblesort a).Pairwise (· ≤ ·) := by
  unfold bubblesort
  obtain ⟨p, q, e1, e2, e3, e4, e5⟩ := bubble_inv a (a.length - 1) (Nat.le_refl _)
  rw [e1]
  refine ⟨e3, ?_⟩
  rw [List.pairwise_append]
  refine ⟨?_, e4, e5⟩
  have := e3.length_eq
  rw [List.length_append] at this
  have : p.length ≤ 1 := by omega
  match p, this with
  | [], _ => simp
  | [x], _ => simp

theorem bubblesort_perm_eq (a b : List Int) (h : a.Perm b) : bubblesort a = bubblesort b := by
  have ha := bubblesort_spec a
  have hb := bubblesort_spec b
  exact List.Perm.eq_of_pairwise (fun x y _ _ h1 h2 => Int.le_antisymm h1 h2) ha.2 hb.2
    (ha.1.trans (h.trans hb.1.symm))

/-! ### fingerprint rows -/

def tstep (st : Bool × Bool) (p : Int × Int) : Bool × Bool :=
  (if st.2 && decide (p.1 < p.2) then true else st.1, if p.1 != p.2 then false else st.2)

theorem transFlag_def (bs ks : List Int) : transFlag bs ks = ((bs.zip ks).foldl tstep (false, true)).1 := rfl

theorem trans_frozen (l : List (Int × Int)) (t : Bool) : l.foldl tstep (t, false) = (t, false) := by
  induction l with
  | nil => rfl
  | cons p l ih => rw [List.foldl_cons]; simpa [tstep] using ih

theorem transFlag_cons (b k : Int) (bs ks : List Int) :
    transFlag (b :: bs) (k :: ks) = if b < k then true else if k < b then false else transFlag bs ks := by
  rw [transFlag_def, transFlag_def, List.zip_cons_cons, List.foldl_cons]
  by_cases h : b < k
  · have hne : b ≠ k := by omega
    have : tstep (false, true) (b, k) = (true, false) := by simp [tstep, h, hne]
    rw [this, trans_frozen, if_pos h]
  · by_cases h' : k < b
    · have hne : b ≠ k := by omega
      have : tstep (false, true) (b, k) = (false, false) := by simp [tstep, h, hne]
      rw [this, trans_frozen, if_neg h, if_pos h']
    · have hne : b = k := by omega
      subst hne
      have : tstep (false, true) (b, b) = (false, true) := by simp [tstep]
      rw [this, if_neg h, if_neg h]

theorem transFlag_swap (bs ks : List Int) (h : bs.length = ks.length) :
    (if transFlag bs ks then ks ++ bs else bs ++ ks) = (if transFlag ks bs then bs ++ ks else ks ++ bs) ∧
    (transFlag bs ks = true → transFlag ks bs = false) ∧
    (transFlag bs ks = false → transFlag ks bs = false → bs = ks) := by
  have key : (transFlag bs ks = true → transFlag ks bs = false) ∧
    (transFlag bs ks = false → transFlag ks bs = false → bs = ks) := by
    induction bs generalizing ks with
    | nil => cases ks <;> simp_all [transFlag]
    | cons b bs ih =>
      cases ks with
      | nil => simp at h
      | cons k ks =>
        rw [transFlag_cons, transFlag_cons]
        have := ih ks (by simpa using h)
        by_cases h1 : b < k
        · have : ¬ k < b := by omega
          simp [h1, this]
        · by_cases h2 : k < b
          · simp [h1, h2]
          · have : b = k := by omega
            subst this
            simp only [Int.lt_irrefl, if_false]
            exact ⟨this.1, fun a c => by rw [this.2 a c]⟩
  refine ⟨?_, key⟩
  cases e1 : transFlag bs ks <;> cases e2 : transFlag ks bs <;> simp
  · rw [key.2 e1 e2]
  · have := key.1 e1; simp [e2] at this

theorem fprintRows_swap (str : Nat → Int → Int) (b k : Nat) (frags : List Int) :
    (fprintRows str b k frags).2 = (fprintRows str k b frags).2 := by
  have := (transFlag_swap ((bubblesort frags).map (str b)) ((bubblesort frags).map (str k)) (by simp)).1
  unfold fprintRows
  dsimp only
  simp only [List.append_assoc]
  rw [show ∀ (c : Bool) (f x y : List Int), (if c = true then f ++ x else f ++ y) = f ++ (if c = true then x else y) by
    intro c f x y; cases c <;> rfl, this]
  cases transFlag ((bubblesort frags).map (str k)) ((bubblesort frags).map (str b)) <;> rfl

theorem fprintRows_perm (str : Nat → Int → Int) (b k : Nat) (f g : List Int) (h : f.Perm g) :
    fprintRows str b k f = fprintRows str b k g := by
  unfold fprintRows; rw [bubblesort_perm_eq f g h]

theorem map_eq_on (s : List Int) (u v : Int → Int) (h : s.map u = s.map v) : ∀ x ∈ s, u x = v x := by
  simpa using h

theorem append3_inj (a b c a' b' c' : List Int) (h1 : a.length = a'.length) (h2 : b.length = b'.length)
    (h : a ++ b ++ c = a' ++ b' ++ c') : a = a' ∧ b = b' ∧ c = c' := by
  rw [List.append_assoc, List.append_assoc] at h
  have e1 := List.append_inj h h1
  have e2 := List.append_inj e1.2 h2
  exact ⟨e1.1, e2.1, e2.2⟩

theorem fprintRows_inj (str : Nat → Int → Int) (b k b' k' : Nat) (f f' : List Int)
    (hl : f.length = f'.length) (h : (fprintRows str b k f).1 = (fprintRows str b' k' f').1) :
    f.Perm f' ∧ ∀ x ∈ f, str b x = str b' x ∧ str k x = str k' x := by
  have l1 : (bubblesort f).length = (bubblesort f').length := by
    rw [(bubblesort_spec f).1.length_eq, (bubblesort_spec f').1.length_eq, hl]
  obtain ⟨e1, e2, e3⟩ := append3_inj _ _ _ _ _ _ l1 (by simp [l1]) h
  refine ⟨(bubblesort_spec f).1.symm.trans (e1 ▸ (bubblesort_spec f').1), ?_⟩
  rw [← e1] at e2 e3
  intro x hx
  have hx := (bubblesort_spec f).1.mem_iff.mpr hx
  exact ⟨map_eq_on _ _ _ e2 x hx, map_eq_on _ _ _ e3 x hx⟩

theorem fprintRows_LT_inj (str : Nat → Int → Int) (b k b' k' : Nat) (f f' : List Int)
    (hl : f.length = f'.length) (h : (fprintRows str b k f).2 = (fprintRows str b' k' f').2) :
    f.Perm f' ∧ ((∀ x ∈ f, str b x = str b' x ∧ str k x = str k' x) ∨
      (∀ x ∈ f, str b x = str k' x ∧ str k x = str b' x)) := by
  have l1 : (bubblesort f).length = (bubblesort f').length := by
    rw [(bubblesort_spec f).1.length_eq, (bubblesort_spec f').1.length_eq, hl]
  have hb : ∀ (b k b' k' : Nat), bubblesort f ++ (bubblesort f).map (str b) ++ (bubblesort f).map (str k) =
      bubblesort f' ++ (bubblesort f').map (str b') ++ (bubblesort f').map (str k') →
      f.Perm f' ∧ ∀ x ∈ f, str b x = str b' x ∧ str k x = str k' x := by
    intro b k b' k' h
    exact fprintRows_inj str b k b' k' f f' hl h
  unfold fprintRows at h
  dsimp only at h
  split at h <;> split at h
  · have := hb k b k' b' h
    exact ⟨this.1, Or.inl (fun x hx => ⟨(this.2 x hx).2, (this.2 x hx).1⟩)⟩
  · have := hb k b b' k' h
    exact ⟨this.1, Or.inr (fun x hx => ⟨(this.2 x hx).2, (this.2 x hx).1⟩)⟩
  · have := hb b k k' b' h
    exact ⟨this.1, Or.inr this.2⟩
  · have := hb b k b' k' h
    exact ⟨this.1, Or.inl this.2⟩

/-! ### hash -/

def fstep (h x : UInt64) : UInt64 := (h ^^^ x) * 1099511628211

theorem mul_prime_inj (a b : UInt64) (h : a * 1099511628211 = b * 1099511628211) : a = b := by
  have e : (1099511628211 : UInt64) * 14886173955864302971 = 1 := by decide +kernel
  have : a * 1099511628211 * 14886173955864302971 = b * 1099511628211 * 14886173955864302971 := by rw [h]
  rw [UInt64.mul_assoc, UInt64.mul_assoc, e] at this
  simpa using this

theorem fstep_inj_h (x a b : UInt64) (h : fstep a x = fstep b x) : a = b :=
  UInt64.xor_left_inj _ |>.mp (mul_prime_inj _ _ h)

theorem fstep_inj_x (a x y : UInt64) (h : fstep a x = fstep a y) : x = y :=
  UInt64.xor_right_inj _ |>.mp (mul_prime_inj _ _ h)

theorem foldl_fstep_inj (l : List UInt64) (a b : UInt64) (h : l.foldl fstep a = l.foldl fstep b) : a = b := by
  induction l generalizing a b with
  | nil => exact h
  | cons x l ih => exact fstep_inj_h x a b (ih _ _ h)

theorem fnv1a_append (l m : List UInt64) : fnv1a (l ++ m) = m.foldl fstep (fnv1a l) := by
  unfold fnv1a; rw [List.foldl_append]; rfl

theorem fnv1a_one_word (l m : List UInt64) (x y : UInt64) (h : x ≠ y) :
    fnv1a (l ++ x :: m) ≠ fnv1a (l ++ y :: m) := by
  rw [fnv1a_append, fnv1a_append, List.foldl_cons, List.foldl_cons]
  intro e
  exact h (fstep_inj_x _ x y (foldl_fstep_inj m _ _ e))

theorem fnv1a_collision (x y : UInt64) (l : List UInt64) (x' : UInt64) :
    ∃ y', fnv1a (x :: y :: l) = fnv1a (x' :: y' :: l) := by
  refine ⟨fstep (fnv1a []) x' ^^^ (fstep (fnv1a []) x ^^^ y), ?_⟩
  have e := fun u v => fnv1a_append [] (u :: v :: l)
  simp only [List.nil_append, List.foldl_cons] at e
  rw [e, e]
  have : ∀ u v w : UInt64, fstep u v = fstep w (w ^^^ (u ^^^ v)) := by
    intro u v w
    unfold fstep
    rw [← UInt64.xor_assoc w w, UInt64.xor_self, UInt64.zero_xor]
  exact congrArg (List.foldl fstep · l) (this _ _ _)

end Verif.SC
