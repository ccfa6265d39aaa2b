import Verif.Lemmas.HamSpinCase
import Verif.Lemmas.KernSum
import Verif.Lemmas.HamSim
/-!
# Lemmas: the loop over groups of rows
-/
namespace Verif.HamSpin
open Verif.Lstdm Verif.FciRdm Verif.FragTables Verif.FragSpin Verif.RdmSmult Verif.SpinReduce Verif.Exc Verif.Addr Verif.Spec
open Verif.Spec.Tdm Verif.Spec.RdmSmult Verif.Spec.Spin Verif.Spec.FragSpin Verif.Spec.FragTables Verif.Spec.FciRdm Verif.Spec.Lstdm
open Verif.Spec.HamSpin

theorem foldlM_flat {α β γ : Type} (l : List α) (m : α → List β) (f : γ → β → Option γ) (b : γ) :
    (l.flatMap m).foldlM f b = l.foldlM (fun b a => (m a).foldlM f b) b := by
  induction l generalizing b with
  | nil => rfl
  | cons a l ih =>
    rw [List.flatMap_cons, List.foldlM_append, List.foldlM_cons]
    exact bind_congr fun b => ih b

/-- The order does not matter when two steps commute. -/
theorem foldlM_perm {α γ : Type} (f : γ → α → Option γ) (hc : ∀ b x y, (f b x).bind (f · y) = (f b y).bind (f · x)) {l l' : List α}
    (h : l.Perm l') (b : γ) : l.foldlM f b = l'.foldlM f b := by
  induction h generalizing b with
  | nil => rfl
  | cons a _ ih =>
    rw [List.foldlM_cons, List.foldlM_cons]
    exact bind_congr fun b => ih b
  | swap x y l =>
    simp only [List.foldlM_cons]
    have := congrArg (fun o => Option.bind o (fun b => l.foldlM f b)) (hc b y x)
    simpa only [Option.bind_assoc, Option.bind_eq_bind] using this
  | trans _ _ ih1 ih2 => rw [ih1, ih2]

/-- Groups of equal values. -/
theorem groups_perm {α β : Type} [DecidableEq α] [DecidableEq β] (tab : List α) (P : α → β) (ks : List β) (hk : ks.Nodup)
    (hmem : ∀ x ∈ tab, P x ∈ ks) : (ks.flatMap (fun h => tab.filter (fun x => P x == h))).Perm tab := by
  rw [List.perm_iff_count]
  intro a
  have key := sum_group tab P ks hk hmem (fun _ x => if x = a then 1 else 0)
  have cnt : ∀ l : List α, (l.map (fun x => if x = a then 1 else 0)).sum = l.count a := by
    intro l
    induction l with
    | nil => rfl
    | cons x l ih =>
      rw [List.map_cons, List.sum_cons, ih, List.count_cons]
      by_cases e : x = a
      · simp [e]; omega
      · simp [e]
  simp only [cnt] at key
  rw [List.count_flatMap, ← key]
  rfl

/-! ### Additivity -/

/-- Entrywise sums. -/
def add2 (a d : Kern.Mat ℝ × Kern.Mat ℝ) : Kern.Mat ℝ × Kern.Mat ℝ := (fun b c => a.1 b c + d.1 b c, fun b c => a.2 b c + d.2 b c)

def zz : Kern.Mat ℝ × Kern.Mat ℝ := (fun _ _ => 0, fun _ _ => 0)

theorem add2_assoc (a b c : Kern.Mat ℝ × Kern.Mat ℝ) : add2 (add2 a b) c = add2 a (add2 b c) := by
  unfold add2
  refine Prod.ext ?_ ?_ <;> funext i j <;> dsimp only <;> ring
theorem add2_comm (a b : Kern.Mat ℝ × Kern.Mat ℝ) : add2 a b = add2 b a := by
  unfold add2
  refine Prod.ext ?_ ?_ <;> funext i j <;> dsimp only <;> ring
theorem add2_zz (a : Kern.Mat ℝ × Kern.Mat ℝ) : add2 a zz = a := by
  unfold add2 zz
  refine Prod.ext ?_ ?_ <;> funext i j <;> dsimp only <;> ring

/-- A step that adds something which does not depend on what is there. -/
def Adds {α : Type} (f : Kern.Mat ℝ × Kern.Mat ℝ → α → Option (Kern.Mat ℝ × Kern.Mat ℝ)) : Prop :=
  ∀ acc x, f acc x = (f zz x).map (add2 acc)

theorem Adds.foldlM {α : Type} {f : Kern.Mat ℝ × Kern.Mat ℝ → α → Option (Kern.Mat ℝ × Kern.Mat ℝ)} (h : Adds f) (l : List α)
    (acc : Kern.Mat ℝ × Kern.Mat ℝ) : l.foldlM f acc = (l.foldlM f zz).map (add2 acc) := by
  induction l generalizing acc with
  | nil => simp [add2_zz]
  | cons a l ih =>
    rw [List.foldlM_cons, List.foldlM_cons, h acc a]
    cases f zz a with
    | none => rfl
    | some d =>
      simp only [Option.map_some, Option.bind_eq_bind, Option.bind_some]
      rw [ih (add2 acc d), ih d, Option.map_map]
      congr 1
      funext e
      exact add2_assoc acc d e

theorem Adds.comm {α : Type} {f : Kern.Mat ℝ × Kern.Mat ℝ → α → Option (Kern.Mat ℝ × Kern.Mat ℝ)} (h : Adds f)
    (b : Kern.Mat ℝ × Kern.Mat ℝ) (x y : α) : (f b x).bind (f · y) = (f b y).bind (f · x) := by
  rw [h b x, h b y]
  cases ex : f zz x with
  | none =>
    cases ey : f zz y with
    | none => rfl
    | some e =>
      simp only [Option.map_none, Option.map_some, Option.bind_none, Option.bind_some]
      rw [h, ex]; rfl
  | some d =>
    cases ey : f zz y with
    | none =>
      simp only [Option.map_none, Option.map_some, Option.bind_none, Option.bind_some]
      rw [h, ey]; rfl
    | some e =>
      simp only [Option.map_some, Option.bind_some]
      rw [h (add2 b d), h (add2 b e), ex, ey, Option.map_some, Option.map_some, add2_assoc, add2_assoc, add2_comm d e]

theorem putOp_add (op : Kern.Mat ℝ) (idx : List (Nat × Nat × ℝ)) (v : ℝ) (b c : Nat) :
    Kern.putOp op idx v b c = op b c + Kern.putOp (fun _ _ => 0) idx v b c := by
  unfold Kern.putOp
  cases idx.reverse.find? (fun x => x.1 == b && x.2.1 == c) <;> simp

theorem putHam_adds (k : Kern ℝ) (H : Ham ℝ) (u : Kern.ExcRow) (cache : List ((Nat × Nat) × List (Nat × Nat × ℝ))) (nket : Nat) :
    Adds (k.putHam H u cache nket) := by
  intro acc x
  unfold Kern.putHam
  dsimp only
  cases k.toLstdm.hamRow H (k.flatState u.1.1 (Kern.canonical u.2.axes) (x.2 / nket))
      (k.flatState u.1.2 (Kern.canonical u.2.axes) (x.2 % nket)) u.2 with
  | none => rfl
  | some v =>
    obtain ⟨v1, v2⟩ := v
    simp only [Option.bind_eq_bind, Option.bind_some, Option.pure_def, Option.map_some, Option.some.injEq]
    unfold add2 zz
    refine Prod.ext ?_ ?_
    · funext b c
      exact putOp_add _ _ _ b c
    · funext b c
      cases v2 with
      | none => simp
      | some m => exact putOp_add _ _ _ b c

theorem hamEnv_adds (k : Kern ℝ) (H : Ham ℝ) : Adds (k.hamEnv H) := by
  intro acc u
  unfold Kern.hamEnv
  cases k.lookup (u.1, u.2.inv) with
  | none => rfl
  | some imgs =>
    simp only [Option.bind_eq_bind, Option.bind_some]
    cases imgs.mapM (fun im => (k.specAddrOvlp im.1 im.2 u.2.inv).map (fun l => (im, l))) with
    | none => rfl
    | some cache =>
      simp only [Option.bind_some]
      exact (putHam_adds k H u cache _).foldlM _ acc

/-! ### The dictionary of groups -/

variable {k : SpinKern}

theorem mem_spman (tab : List Kern.ExcRow) (u : Kern.ExcRow) (hu : u ∈ k.spmanUnique tab) : u ∈ tab := by
  unfold SpinKern.spmanUnique at hu
  rw [List.mem_filterMap] at hu
  obtain ⟨h, _, h2⟩ := hu
  exact List.mem_of_find?_eq_some h2

theorem keys (hK : Consistent k.toKern) : ∀ t ∈ k.toKern.tables, ∀ t' ∈ k.toKern.tables, ∀ u ∈ t, ∀ u' ∈ t', u.1 = u'.1 →
    u.2.inv = u'.2.inv → t = t' ∧ u = u' := by
  obtain ⟨cls, hcls, hperm⟩ := Kern.tables_all hK
  have hmem : ∀ t ∈ k.toKern.tables, ∀ y ∈ t, y.1 ∈ k.toKern.scai ∧ y.2 ∈ expand k.toKern.nlas.length (cls y.1) := by
    intro t ht y hy
    have := hperm.mem_iff.mp (List.mem_flatten.mpr ⟨t, ht, hy⟩)
    simp only [List.mem_flatMap, List.mem_map] at this
    obtain ⟨p, hp, r, hr, rfl⟩ := this
    exact ⟨hp, hr⟩
  intro t ht t' ht' u hu u' hu' e1 e2
  have h1 := hmem t ht u hu
  have h2 := hmem t' ht' u' hu'
  rw [← e1] at h2
  have e3 := expand_inv_inj _ _ _ _ h1.2 h2.2 (by rw [e2]; intro g; rfl)
  have e4 : u = u' := Prod.ext e1 e3
  subst e4
  exact ⟨Kern.tab_unique _ _ _ t t' (by rw [← Kern.tables_eq]; exact ht) (by rw [← Kern.tables_eq]; exact ht') u hu hu', rfl⟩

/-- The rows of the group of `u`. -/
noncomputable def groupOf (k : SpinKern) (tab : List Kern.ExcRow) (u : Kern.ExcRow) : List Kern.ExcRow :=
  tab.filter (fun x => k.spmanPrint x == k.spmanPrint u)

theorem spmanGet_eq (hK : Consistent k.toKern) (t : List Kern.ExcRow) (ht : t ∈ k.toKern.tables) (u : Kern.ExcRow)
    (hu : u ∈ k.spmanUnique (k.toKern.findUniqueExc t)) :
    k.spmanGet (u.1, u.2.inv) = some ((groupOf k (k.toKern.findUniqueExc t) u).map Prod.fst) := by
  unfold SpinKern.spmanGet
  have hex : ∃ e ∈ k.spmanDict.reverse, (e.1 == (u.1, u.2.inv)) = true := by
    refine ⟨((u.1, u.2.inv), (groupOf k (k.toKern.findUniqueExc t) u).map Prod.fst), ?_, by simp⟩
    rw [List.mem_reverse]
    unfold SpinKern.spmanDict
    exact List.mem_flatMap.mpr ⟨t, ht, List.mem_map.mpr ⟨u, hu, rfl⟩⟩
  cases h : k.spmanDict.reverse.find? (fun e => e.1 == (u.1, u.2.inv)) with
  | none =>
    rw [List.find?_eq_none] at h
    obtain ⟨e, he, h2⟩ := hex
    exact absurd h2 (h e he)
  | some e =>
    have h1 := List.find?_some h
    have h2 := List.mem_of_find?_eq_some h
    rw [List.mem_reverse] at h2
    unfold SpinKern.spmanDict at h2
    obtain ⟨t', ht', h3⟩ := List.mem_flatMap.mp h2
    obtain ⟨u', hu', rfl⟩ := List.mem_map.mp h3
    have h1 : (u'.1, u'.2.inv) = (u.1, u.2.inv) := by simpa using h1
    rw [Prod.mk.injEq] at h1
    obtain ⟨rfl, rfl⟩ := keys hK t' ht' t ht u' (Kern.mem_unique t' u' (mem_spman _ _ hu')).1 u
      (Kern.mem_unique t u (mem_spman _ _ hu)).1 h1.1 h1.2
    rfl

/-- The groups of a table. -/
theorem spman_perm (tab : List Kern.ExcRow) : ((k.spmanUnique tab).flatMap (groupOf k tab)).Perm tab := by
  classical
  have hp := List.mergeSort_perm (tab.map k.spmanPrint).dedup (fun a b => decide (a ≤ b))
  have h := groups_perm tab k.spmanPrint ((tab.map k.spmanPrint).dedup.mergeSort (fun a b => decide (a ≤ b)))
    (hp.nodup_iff.2 (List.nodup_dedup _)) (fun x hx => by
      rw [hp.mem_iff, List.mem_dedup]; exact List.mem_map_of_mem hx)
  refine Eq.subst (motive := fun l => List.Perm l tab) ?_ h
  unfold SpinKern.spmanUnique
  have hin : ∀ h ∈ (tab.map k.spmanPrint).dedup.mergeSort (fun a b => decide (a ≤ b)), ∃ u, tab.find? (fun x => k.spmanPrint x == h) = some u ∧
      k.spmanPrint u = h := by
    intro h hh
    rw [hp.mem_iff, List.mem_dedup, List.mem_map] at hh
    obtain ⟨x, hx, rfl⟩ := hh
    cases e : tab.find? (fun y => k.spmanPrint y == k.spmanPrint x) with
    | none =>
      rw [List.find?_eq_none] at e
      simpa using e x hx
    | some u => exact ⟨u, rfl, by simpa using List.find?_some e⟩
  generalize (tab.map k.spmanPrint).dedup.mergeSort (fun a b => decide (a ≤ b)) = ks at hin
  clear h hp
  induction ks with
  | nil => rfl
  | cons h ks ih =>
    obtain ⟨u, e1, e2⟩ := hin h (by simp)
    rw [List.flatMap_cons, ih fun h hh => hin h (List.mem_cons_of_mem _ hh), List.filterMap_cons, e1, List.flatMap_cons]
    congr 1
    unfold groupOf
    rw [e2]

/-- The matrices computed once per group of spin-equivalent rows are those computed row by row. -/
theorem kernel_eq (hG : Ready k) (hT : ∀ f < k.nlas.length, FilledS (k.frag f) (k.mats f)) (h8 : k.nlas.length ≤ 8)
    (hN : NoHashCollision k) {H : Ham ℝ} (h1 : H.h1 1 = H.h1 0) (hH : ∀ p q r s, H.h2 r s p q = H.h2 p q r s) :
    k.hamKernelS H = k.toKern.hamKernel H := by
  have hK := consistent hG
  unfold SpinKern.hamKernelS Kern.hamKernel
  congr 1
  rw [foldlM_flat, foldlM_flat]
  refine foldlM_ext _ _ _ (fun t ht acc => ?_) _
  have step : ∀ g ∈ k.spmanUnique (k.toKern.findUniqueExc t), ∀ acc, k.hamEnvS H acc g =
      (groupOf k (k.toKern.findUniqueExc t) g).foldlM (k.toKern.hamEnv H) acc := by
    intro g hg acc
    unfold SpinKern.hamEnvS
    rw [spmanGet_eq hK t ht g hg]
    simp only [Option.bind_eq_bind, Option.bind_some]
    rw [List.foldlM_map]
    refine foldlM_ext _ _ _ (fun x hx acc => ?_) _
    unfold groupOf at hx
    rw [List.mem_filter] at hx
    have hxt := (Kern.mem_unique t x hx.1).1
    have hgt := (Kern.mem_unique t g (mem_spman _ _ hg)).1
    exact hamCase_eq hG hT h8 h1 hH t ht g x hgt hxt (hN t ht g hgt x hxt (by simpa using hx.2 : k.spmanPrint x = k.spmanPrint g).symm) acc
  rw [foldlM_ext _ _ _ step, ← foldlM_flat]
  exact foldlM_perm _ (fun b x y => (hamEnv_adds _ H).comm b x y) (spman_perm _) _

end Verif.HamSpin
