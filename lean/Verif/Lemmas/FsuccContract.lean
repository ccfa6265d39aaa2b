import Verif.Lemmas.Fsucc
/-!
# Lemmas on FSUCCcontract1
-/
namespace Verif.Fsucc
open Verif.Spec.Fsucc

variable {K : Type}

theorem matches_swap_iff {norb : Nat} {a i : List Nat} (h : ∀ p, p ∈ a ↔ p ∈ i) (D : Nat) :
    Matches norb a i D ↔ Matches norb i a D := by
  simp only [Matches]
  constructor
  · rintro ⟨h1, h2⟩
    exact ⟨h1, fun p hp => by rw [← h]; exact h2 p (hp.symm)⟩
  · rintro ⟨h1, h2⟩
    exact ⟨h1, fun p hp => by rw [h]; exact h2 p (hp.symm)⟩

/-- The effect of an operator string on a determinant. -/
theorem excite_eq [CommRing K] {norb : Nat} {a i : List Nat} (ha : a.Nodup) (hi : i.Nodup) (ψ : Nat → K) {D : Nat}
    (hD : D < 2 ^ norb) [Decidable (Matches norb a i D)] :
    excite norb a i ψ D = if Matches norb a i D then
      (-1) ^ (cnt norb a D + cnt norb i (pop i (pop a D))) * ψ (pop i (pop a D)) else 0 := by
  unfold excite
  rw [cres_eq, anns_eq]
  have key : Matches norb a i D ↔ Valid a D = true ∧ Valid i (pop i (pop a D)) = true := by
    rw [valid_iff, valid_iff]
    constructor
    · rintro ⟨_, h2⟩
      refine ⟨⟨ha, fun x hx => (h2 x (Or.inl hx)).mpr hx⟩, hi, fun x hx => ?_⟩
      rw [pop_bits hi, pop_bits ha]
      have := h2 x (Or.inr hx)
      by_cases h : x ∈ a
      · simp [hx, h, this.mpr h]
      · have : D.testBit x = false := by simpa [h] using this
        simp [hx, h, this]
    · rintro ⟨⟨_, h1⟩, _, h2⟩
      refine ⟨hD, fun p hp => ⟨fun h => ?_, h1 p⟩⟩
      by_contra hpa
      rcases hp with hp | hp
      · exact hpa hp
      · have := h2 p hp
        rw [pop_bits hi, pop_bits ha, h] at this
        simp [hp, hpa] at this
  by_cases h : Matches norb a i D
  · obtain ⟨h1, h2⟩ := key.mp h
    rw [if_pos h, if_pos h1, if_pos h2, pow_add]; ring
  · rw [if_neg h]
    by_cases h1 : Valid a D = true
    · rw [if_pos h1, if_neg (fun h2 => h (key.mpr ⟨h1, h2⟩))]; ring
    · rw [if_neg h1]

theorem excite_none_left [CommRing K] {norb : Nat} {a i : List Nat} (ha : ¬ a.Nodup) (ψ : Nat → K) (D : Nat) :
    excite norb a i ψ D = 0 := by
  unfold excite
  rw [cres_eq, if_neg]
  rw [valid_iff]; exact fun h => ha h.1

theorem excite_none_right [CommRing K] {norb : Nat} {a i : List Nat} (hi : ¬ i.Nodup) (ψ : Nat → K) (D : Nat) :
    excite norb a i ψ D = 0 := by
  unfold excite
  have : anns norb i ψ = fun _ => 0 := by
    funext D
    rw [anns_eq, if_neg]
    rw [valid_iff]; exact fun h => hi h.1
  rw [this, cres_eq]
  split <;> simp

/-! ### The pairs of determinants -/

/-- The common context: the determinants of the two operator strings. -/
structure Ctx (norb : Nat) (a i : List Nat) (dA dI : Nat) : Prop where
  ha : detOf a 0 = some dA
  hi : detOf i 0 = some dI
  la : ∀ x ∈ a, x < norb
  li : ∀ x ∈ i, x < norb

section
variable {norb : Nat} {a i : List Nat} {dA dI : Nat}

theorem Ctx.na (c : Ctx norb a i dA dI) : a.Nodup := (detOf_bits c.ha).1
theorem Ctx.ni (c : Ctx norb a i dA dI) : i.Nodup := (detOf_bits c.hi).1
theorem Ctx.bA (c : Ctx norb a i dA dI) (x : Nat) : dA.testBit x = decide (x ∈ a) := (detOf_bits c.ha).2 x
theorem Ctx.bI (c : Ctx norb a i dA dI) (x : Nat) : dI.testBit x = decide (x ∈ i) := (detOf_bits c.hi).2 x

theorem Ctx.eb (c : Ctx norb a i dA dI) (det x : Nat) (h : x ∈ a ∨ x ∈ i) :
    (expand norb (dI ||| dA) det).testBit x = false := by
  apply expand_bits
  · rcases h with h | h
    · exact c.la x h
    · exact c.li x h
  · rw [Nat.testBit_or, c.bA, c.bI]
    rcases h with h | h <;> simp [h]

theorem Ctx.b1 (c : Ctx norb a i dA dI) (det x : Nat) :
    (pairOf norb dI dA det).1.testBit x = ((expand norb (dI ||| dA) det).testBit x || decide (x ∈ i)) := by
  simp only [pairOf]
  rw [Nat.testBit_or, c.bI]

theorem Ctx.b2 (c : Ctx norb a i dA dI) (det x : Nat) :
    (pairOf norb dI dA det).2.testBit x = ((expand norb (dI ||| dA) det).testBit x || decide (x ∈ a)) := by
  simp only [pairOf]
  rw [Nat.testBit_or, c.bA]

theorem Ctx.lt1 (c : Ctx norb a i dA dI) {det : Nat} (h : det < ndet norb (dI ||| dA)) :
    (pairOf norb dI dA det).1 < 2 ^ norb := by
  rw [← expand_lt_iff, lt_two_pow_iff] at h
  rw [lt_two_pow_iff]
  intro j hj
  rw [c.b1, h j hj]
  have : j ∉ i := fun hm => by have := c.li j hm; omega
  simp [this]

theorem Ctx.lt2 (c : Ctx norb a i dA dI) {det : Nat} (h : det < ndet norb (dI ||| dA)) :
    (pairOf norb dI dA det).2 < 2 ^ norb := by
  rw [← expand_lt_iff, lt_two_pow_iff] at h
  rw [lt_two_pow_iff]
  intro j hj
  rw [c.b2, h j hj]
  have : j ∉ a := fun hm => by have := c.la j hm; omega
  simp [this]

theorem Ctx.m1 (c : Ctx norb a i dA dI) {det : Nat} (h : det < ndet norb (dI ||| dA)) :
    Matches norb i a (pairOf norb dI dA det).1 := by
  refine ⟨c.lt1 h, fun p hp => ?_⟩
  rw [c.b1, c.eb det p hp.symm]
  simp

theorem Ctx.m2 (c : Ctx norb a i dA dI) {det : Nat} (h : det < ndet norb (dI ||| dA)) :
    Matches norb a i (pairOf norb dI dA det).2 := by
  refine ⟨c.lt2 h, fun p hp => ?_⟩
  rw [c.b2, c.eb det p hp]
  simp

theorem Ctx.partner (c : Ctx norb a i dA dI) (det : Nat) :
    pop i (pop a (pairOf norb dI dA det).2) = (pairOf norb dI dA det).1 := by
  apply Nat.eq_of_testBit_eq
  intro x
  rw [pop_bits c.ni, pop_bits c.na, c.b1, c.b2]
  by_cases h : x ∈ a ∨ x ∈ i
  · rw [c.eb det x h]; by_cases h1 : x ∈ a <;> by_cases h2 : x ∈ i <;> simp [h1, h2]
  · rw [not_or] at h
    simp [h.1, h.2]

theorem Ctx.partner' (c : Ctx norb a i dA dI) (det : Nat) :
    pop a (pop i (pairOf norb dI dA det).1) = (pairOf norb dI dA det).2 := by
  apply Nat.eq_of_testBit_eq
  intro x
  rw [pop_bits c.na, pop_bits c.ni, c.b1, c.b2]
  by_cases h : x ∈ a ∨ x ∈ i
  · rw [c.eb det x h]; by_cases h1 : x ∈ a <;> by_cases h2 : x ∈ i <;> simp [h1, h2]
  · rw [not_or] at h
    simp [h.1, h.2]

theorem Ctx.inj2 (c : Ctx norb a i dA dI) {d d' : Nat} (h : (pairOf norb dI dA d).2 = (pairOf norb dI dA d').2) :
    d = d' := by
  apply expand_inj norb (dI ||| dA)
  apply Nat.eq_of_testBit_eq
  intro x
  by_cases hx : x ∈ a ∨ x ∈ i
  · rw [c.eb d x hx, c.eb d' x hx]
  · rw [not_or] at hx
    have := congrArg (fun y => y.testBit x) h
    simpa [c.b2, hx.1] using this

theorem Ctx.inj1 (c : Ctx norb a i dA dI) {d d' : Nat} (h : (pairOf norb dI dA d).1 = (pairOf norb dI dA d').1) :
    d = d' := by
  apply expand_inj norb (dI ||| dA)
  apply Nat.eq_of_testBit_eq
  intro x
  by_cases hx : x ∈ a ∨ x ∈ i
  · rw [c.eb d x hx, c.eb d' x hx]
  · rw [not_or] at hx
    have := congrArg (fun y => y.testBit x) h
    simpa [c.b1, hx.2] using this

theorem Ctx.cross (c : Ctx norb a i dA dI) {d d' : Nat} (h : (pairOf norb dI dA d).1 = (pairOf norb dI dA d').2) :
    d = d' ∧ ∀ p, p ∈ a ↔ p ∈ i := by
  have hp : ∀ p, p ∈ a ↔ p ∈ i := by
    intro p
    by_cases hx : p ∈ a ∨ p ∈ i
    · have := congrArg (fun y => y.testBit p) h
      rw [c.b1, c.b2, c.eb d p hx, c.eb d' p hx] at this
      simp at this
      exact this.symm
    · rw [not_or] at hx; simp [hx.1, hx.2]
  refine ⟨?_, hp⟩
  apply c.inj1
  rw [h]
  apply Nat.eq_of_testBit_eq
  intro x
  rw [c.b1, c.b2]
  congr 1
  simp [hp]

theorem Ctx.ex2 (c : Ctx norb a i dA dI) {D : Nat} (h : Matches norb a i D) :
    ∃ d, d < ndet norb (dI ||| dA) ∧ (pairOf norb dI dA d).2 = D := by
  obtain ⟨h1, h2⟩ := h
  have hb : ∀ x, (pop a D).testBit x = (D.testBit x ^^ decide (x ∈ a)) := fun x => pop_bits c.na D x
  have hz : ∀ x, x ∈ a ∨ x ∈ i → (pop a D).testBit x = false := by
    intro x hx
    rw [hb]
    have := h2 x hx
    by_cases ha : x ∈ a
    · simp [ha, this.mpr ha]
    · have : D.testBit x = false := by simpa [ha] using this
      simp [ha, this]
  obtain ⟨d, hd⟩ := expand_surj norb (dI ||| dA) (pop a D) (by
    intro p _ hm
    apply hz
    rw [Nat.testBit_or, c.bA, c.bI] at hm
    simpa [or_comm] using hm)
  refine ⟨d, ?_, ?_⟩
  · rw [← expand_lt_iff, hd, lt_two_pow_iff]
    rw [lt_two_pow_iff] at h1
    intro j hj
    rw [hb, h1 j hj]
    have : j ∉ a := fun hm => by have := c.la j hm; omega
    simp [this]
  · apply Nat.eq_of_testBit_eq
    intro x
    rw [c.b2, hd]
    by_cases ha : x ∈ a
    · simp [ha, (h2 x (Or.inl ha)).mpr ha]
    · rw [hb]; simp [ha]

theorem Ctx.swapPair (norb dI dA d : Nat) : pairOf norb dA dI d = ((pairOf norb dI dA d).2, (pairOf norb dI dA d).1) := by
  simp only [pairOf, Nat.or_comm dA dI]

theorem Ctx.swap (c : Ctx norb a i dA dI) : Ctx norb i a dI dA := ⟨c.hi, c.ha, c.li, c.la⟩

theorem Ctx.ex1 (c : Ctx norb a i dA dI) {D : Nat} (h : Matches norb i a D) :
    ∃ d, d < ndet norb (dI ||| dA) ∧ (pairOf norb dI dA d).1 = D := by
  obtain ⟨d, h1, h2⟩ := c.swap.ex2 h
  refine ⟨d, by rwa [Nat.or_comm] at h1, ?_⟩
  rw [Ctx.swapPair] at h2
  exact h2

theorem Ctx.iterations (c : Ctx norb a i dA dI) : iterations norb a i = ndet norb (dI ||| dA) := by
  unfold Fsucc.iterations
  rw [c.ha, c.hi]

end

/-- Existence of the context. -/
theorem exists_ctx {norb : Nat} {a i : List Nat} (ha : a.Nodup) (hi : i.Nodup) (la : ∀ x ∈ a, x < norb)
    (li : ∀ x ∈ i, x < norb) : ∃ dA dI, Ctx norb a i dA dI := by
  obtain ⟨dA, h1⟩ := detOf_isSome ha (d := 0) (by simp)
  obtain ⟨dI, h2⟩ := detOf_isSome hi (d := 0) (by simp)
  exact ⟨dA, dI, h1, h2, la, li⟩

/-! ### Accumulating loops -/

theorem foldl_accum [CommRing K] (t : Nat → Nat) (v : Nat → K) (l : List Nat) (h0 : Nat → K) (x : Nat) :
    (l.foldl (fun h d => Function.update h (t d) (h (t d) + v d)) h0) x =
      h0 x + (l.map fun d => if t d = x then v d else 0).sum := by
  induction l generalizing h0 with
  | nil => simp
  | cons d l ih =>
    rw [List.foldl_cons, ih, List.map_cons, List.sum_cons]
    by_cases h : t d = x
    · subst h; simp [add_assoc]
    · rw [Function.update_of_ne (fun h' => h h'.symm), if_neg h]; ring

theorem contract1g_eq [CommRing K] [DecidableEq K] {norb : Nat} {a i : List Nat} {dA dI : Nat}
    (c : Ctx norb a i dA dI) (g : K) (psi : Nat → K) (order : List Nat) (hpsi : Nat → K) (x : Nat) :
    contract1g norb a i g psi order hpsi x = hpsi x + (order.map fun d =>
      if (pairOf norb dI dA d).2 = x then
        (sgnOf norb a i (pairOf norb dI dA d).1 (pairOf norb dI dA d).2 : K) * g * psi (pairOf norb dI dA d).1
      else 0).sum := by
  unfold contract1g contract1
  rw [c.hi, c.ha]
  dsimp only
  rw [← foldl_accum]
  refine congrFun ?_ x
  apply List.foldl_ext
  intro h d _
  unfold iter
  dsimp only
  split
  · rename_i hz
    rw [hz.1]
    simp
  · rfl

theorem sum_single {M : Type} [AddCommMonoid M] {l : List Nat} (hl : l.Nodup) (f : Nat → M) {d : Nat} (hd : d ∈ l)
    (h : ∀ e ∈ l, e ≠ d → f e = 0) : (l.map f).sum = f d := by
  induction l with
  | nil => simp at hd
  | cons e l ih =>
    rw [List.nodup_cons] at hl
    rw [List.map_cons, List.sum_cons]
    rcases List.mem_cons.mp hd with rfl | hd'
    · have : (l.map f).sum = 0 := by
        apply List.sum_eq_zero
        intro y hy
        obtain ⟨z, hz, rfl⟩ := List.mem_map.mp hy
        exact h z (by simp [hz]) (by rintro rfl; exact hl.1 hz)
      rw [this, add_zero]
    · rw [ih hl.2 hd' (fun y hy => h y (by simp [hy])), h e (by simp) (by rintro rfl; exact hl.1 hd'), zero_add]

/-- The C loop computes the operator string. -/
theorem contract1g_spec [CommRing K] [DecidableEq K] {norb : Nat} {a i : List Nat} (la : ∀ x ∈ a, x < norb)
    (li : ∀ x ∈ i, x < norb) (g : K) (psi : Nat → K) {order : List Nat}
    (ho : order.Perm (List.range (iterations norb a i))) (hpsi : Nat → K) {D : Nat} (hD : D < 2 ^ norb) :
    contract1g norb a i g psi order hpsi D = hpsi D + g * excite norb a i psi D := by
  by_cases ha : a.Nodup
  · by_cases hi : i.Nodup
    · obtain ⟨dA, dI, c⟩ := exists_ctx ha hi la li
      rw [contract1g_eq c]
      classical
      rw [excite_eq ha hi psi hD]
      rw [c.iterations] at ho
      have hn : order.Nodup := ho.nodup_iff.mpr List.nodup_range
      congr 1
      by_cases hm : Matches norb a i D
      · obtain ⟨d, h1, h2⟩ := c.ex2 hm
        have hd : d ∈ order := ho.mem_iff.mpr (List.mem_range.mpr h1)
        rw [sum_single hn _ hd (by
          intro e _ hne
          rw [if_neg]
          intro he
          exact hne (c.inj2 (he.trans h2.symm))), if_pos h2, if_pos hm, sgnOf_eq]
        rw [← h2, c.partner]; ring
      · rw [if_neg hm, mul_zero]
        apply List.sum_eq_zero
        intro y hy
        obtain ⟨d, hd, rfl⟩ := List.mem_map.mp hy
        rw [if_neg]
        intro he
        apply hm
        rw [← he]
        exact c.m2 (List.mem_range.mp (ho.mem_iff.mp hd))
    · rw [excite_none_right hi]
      unfold contract1g contract1
      cases h : detOf i 0 with
      | none => simp
      | some e => exact absurd (detOf_bits h).1 hi
  · rw [excite_none_left ha]
    unfold contract1g contract1
    cases h : detOf i 0 with
    | none => simp
    | some e =>
      cases h' : detOf a 0 with
      | none => simp
      | some e => exact absurd (detOf_bits h').1 ha

/-! ### Disjoint in-place updates -/

theorem foldl_untouched {step : (Nat → K) → Nat → (Nat → K)} {S : Nat → Nat → Prop}
    (hS : ∀ d ψ x, ¬ S d x → step ψ d x = ψ x) (l : List Nat) (ψ : Nat → K) (x : Nat) (h : ∀ d ∈ l, ¬ S d x) :
    l.foldl step ψ x = ψ x := by
  induction l generalizing ψ with
  | nil => rfl
  | cons d l ih =>
    rw [List.foldl_cons, ih _ (fun e he => h e (by simp [he])), hS d ψ x (h d (by simp))]

/-- Steps that touch and read disjoint sets of entries: each entry is as after the one step that touches it. -/
theorem foldl_disjoint {step : (Nat → K) → Nat → (Nat → K)} {S : Nat → Nat → Prop}
    (hS : ∀ d ψ x, ¬ S d x → step ψ d x = ψ x)
    (hL : ∀ d ψ ψ' x, S d x → (∀ y, S d y → ψ y = ψ' y) → step ψ d x = step ψ' d x)
    {l : List Nat} (hl : l.Nodup) (hd : ∀ d ∈ l, ∀ e ∈ l, d ≠ e → ∀ x, S d x → ¬ S e x)
    (ψ : Nat → K) {d : Nat} (hm : d ∈ l) {x : Nat} (hx : S d x) :
    l.foldl step ψ x = step ψ d x := by
  induction l generalizing ψ with
  | nil => simp at hm
  | cons e l ih =>
    rw [List.nodup_cons] at hl
    rw [List.foldl_cons]
    rcases List.mem_cons.mp hm with rfl | hm'
    · apply foldl_untouched hS
      intro e he
      exact hd d (by simp) e (by simp [he]) (by rintro rfl; exact hl.1 he) x hx
    · rw [ih hl.2 (fun a ha b hb => hd a (by simp [ha]) b (by simp [hb])) _ hm']
      apply hL d _ _ _ hx
      intro y hy
      apply hS
      exact hd d (by simp [hm']) e (by simp) (by rintro rfl; exact hl.1 hm') y hy

section
variable [CommRing K] [DecidableEq K] {norb : Nat} {a i : List Nat} {dA dI : Nat}

theorem iteru_eq (cc ss : K) (opsi : Nat → K) (d : Nat) :
    iter (mixdetu cc ss) id norb a i dI dA opsi d =
      mixdetu cc ss (sgnOf norb a i (pairOf norb dI dA d).1 (pairOf norb dI dA d).2) (pairOf norb dI dA d).1
        (pairOf norb dI dA d).2 opsi := by
  unfold iter
  dsimp only [id]
  split
  · rename_i h
    unfold mixdetu
    dsimp only
    rw [h.1, h.2]
    funext x
    simp only [mul_zero, sub_zero, zero_add]
    by_cases h1 : x = (pairOf norb dI dA d).2
    · subst h1
      rw [Function.update_self, h.2]
      by_cases h3 : (pairOf norb dI dA d).2 = (pairOf norb dI dA d).1
      · rw [h3, Function.update_self]; simp
      · rw [Function.update_of_ne h3, h.2]; simp
    · rw [Function.update_of_ne h1]
      by_cases h3 : x = (pairOf norb dI dA d).1
      · rw [h3, Function.update_self, h.1]
      · rw [Function.update_of_ne h3]
  · rfl

theorem contract1u_fold (c : Ctx norb a i dA dI) (cc ss : K) (order : List Nat) (psi : Nat → K) :
    contract1u norb a i cc ss order psi = order.foldl (fun ψ d =>
      mixdetu cc ss (sgnOf norb a i (pairOf norb dI dA d).1 (pairOf norb dI dA d).2) (pairOf norb dI dA d).1
        (pairOf norb dI dA d).2 ψ) psi := by
  unfold contract1u contract1
  rw [c.hi, c.ha]
  dsimp only
  apply List.foldl_ext
  intro h d _
  exact iteru_eq cc ss h d

/-- The entries of iteration `d`. -/
def Touch (norb dI dA : Nat) (d x : Nat) : Prop := x = (pairOf norb dI dA d).1 ∨ x = (pairOf norb dI dA d).2

omit [DecidableEq K] in
theorem mixdetu_untouched (cc ss : K) (sg : Int) (ia ai : Nat) (ψ : Nat → K) (x : Nat) (h : ¬ (x = ia ∨ x = ai)) :
    mixdetu cc ss sg ia ai ψ x = ψ x := by
  rw [not_or] at h
  unfold mixdetu
  rw [Function.update_of_ne h.2, Function.update_of_ne h.1]

omit [DecidableEq K] in
theorem mixdetu_local (cc ss : K) (sg : Int) (ia ai : Nat) (ψ ψ' : Nat → K) (x : Nat) (h : x = ia ∨ x = ai)
    (h1 : ψ ia = ψ' ia) (h2 : ψ ai = ψ' ai) : mixdetu cc ss sg ia ai ψ x = mixdetu cc ss sg ia ai ψ' x := by
  unfold mixdetu
  by_cases hx : x = ai
  · subst hx
    rw [Function.update_self, Function.update_self, h1]
    by_cases h3 : x = ia
    · subst h3; simp [h1]
    · rw [Function.update_of_ne h3, Function.update_of_ne h3, h2]
  · have hx' : x = ia := h.resolve_right hx
    subst hx'
    rw [Function.update_of_ne hx, Function.update_of_ne hx, Function.update_self, Function.update_self, h1, h2]

theorem touch_disjoint (c : Ctx norb a i dA dI) {d e : Nat} (hne : d ≠ e) (x : Nat) (h : Touch norb dI dA d x) :
    ¬ Touch norb dI dA e x := by
  rintro (h' | h') <;> rcases h with h | h
  · exact hne (c.inj1 (h.symm.trans h'))
  · exact hne (c.cross (h'.symm.trans h)).1.symm
  · exact hne (c.cross (h.symm.trans h')).1
  · exact hne (c.inj2 (h.symm.trans h'))

theorem contract1u_touched (c : Ctx norb a i dA dI) (cc ss : K) {order : List Nat} (ho : order.Nodup) (psi : Nat → K)
    {d : Nat} (hd : d ∈ order) {x : Nat} (hx : Touch norb dI dA d x) :
    contract1u norb a i cc ss order psi x =
      mixdetu cc ss (sgnOf norb a i (pairOf norb dI dA d).1 (pairOf norb dI dA d).2) (pairOf norb dI dA d).1
        (pairOf norb dI dA d).2 psi x := by
  rw [contract1u_fold c]
  refine foldl_disjoint (S := Touch norb dI dA) ?_ ?_ ho ?_ psi hd hx
  · intro d ψ x h
    exact mixdetu_untouched _ _ _ _ _ _ _ h
  · intro d ψ ψ' x h h'
    exact mixdetu_local _ _ _ _ _ _ _ _ h (h' _ (Or.inl rfl)) (h' _ (Or.inr rfl))
  · intro d _ e _ hne x hx
    exact touch_disjoint c hne x hx

theorem contract1u_untouched (c : Ctx norb a i dA dI) (cc ss : K) {order : List Nat} (psi : Nat → K) {x : Nat}
    (hx : ∀ d ∈ order, ¬ Touch norb dI dA d x) : contract1u norb a i cc ss order psi x = psi x := by
  rw [contract1u_fold c]
  refine foldl_untouched (S := Touch norb dI dA) ?_ order psi x hx
  intro d ψ x h
  exact mixdetu_untouched _ _ _ _ _ _ _ h

omit [DecidableEq K] in
theorem mixdetu_ia {cc ss : K} {sg : Int} {ia ai : Nat} (h : ia ≠ ai) (ψ : Nat → K) :
    mixdetu cc ss sg ia ai ψ ia = cc * ψ ia - sg * ss * ψ ai := by
  unfold mixdetu
  rw [Function.update_of_ne h, Function.update_self]

omit [DecidableEq K] in
theorem mixdetu_ai {cc ss : K} {sg : Int} {ia ai : Nat} (h : ia ≠ ai) (ψ : Nat → K) :
    mixdetu cc ss sg ia ai ψ ai = sg * ss * ψ ia + cc * ψ ai := by
  unfold mixdetu
  rw [Function.update_self, Function.update_of_ne h.symm]

/-- The rotation by `FSUCCcontract1u` in terms of determinants. -/
theorem contract1u_cases (c : Ctx norb a i dA dI) (hne : ¬ ∀ p, p ∈ a ↔ p ∈ i) (cc ss : K) {order : List Nat}
    (ho : order.Perm (List.range (iterations norb a i))) (psi : Nat → K) :
    (∀ d < ndet norb (dI ||| dA),
      contract1u norb a i cc ss order psi (pairOf norb dI dA d).1 = cc * psi (pairOf norb dI dA d).1 -
        (-1) ^ (cnt norb a (pairOf norb dI dA d).2 + cnt norb i (pairOf norb dI dA d).1) * ss *
          psi (pairOf norb dI dA d).2 ∧
      contract1u norb a i cc ss order psi (pairOf norb dI dA d).2 =
        (-1) ^ (cnt norb a (pairOf norb dI dA d).2 + cnt norb i (pairOf norb dI dA d).1) * ss *
          psi (pairOf norb dI dA d).1 + cc * psi (pairOf norb dI dA d).2) ∧
    (∀ D, ¬ Matches norb a i D → ¬ Matches norb i a D → contract1u norb a i cc ss order psi D = psi D) := by
  rw [c.iterations] at ho
  have hn : order.Nodup := ho.nodup_iff.mpr List.nodup_range
  constructor
  · intro d hd
    have hdm : d ∈ order := ho.mem_iff.mpr (List.mem_range.mpr hd)
    have hne' : (pairOf norb dI dA d).1 ≠ (pairOf norb dI dA d).2 := fun h => hne (c.cross h).2
    rw [contract1u_touched c cc ss hn psi hdm (Or.inl rfl), contract1u_touched c cc ss hn psi hdm (Or.inr rfl),
      mixdetu_ia hne', mixdetu_ai hne', sgnOf_eq]
    exact ⟨rfl, rfl⟩
  · intro D h1 h2
    apply contract1u_untouched c
    intro d hd
    have hd' := List.mem_range.mp (ho.mem_iff.mp hd)
    rintro (rfl | rfl)
    · exact h2 (c.m1 hd')
    · exact h1 (c.m2 hd')

/-- The operator string at the two determinants of an iteration. -/
theorem excite_pair {K : Type} [CommRing K] (c : Ctx norb a i dA dI) (hne : ¬ ∀ p, p ∈ a ↔ p ∈ i) (ψ : Nat → K)
    {d : Nat} (hd : d < ndet norb (dI ||| dA)) :
    excite norb a i ψ (pairOf norb dI dA d).2 =
      (-1) ^ (cnt norb a (pairOf norb dI dA d).2 + cnt norb i (pairOf norb dI dA d).1) * ψ (pairOf norb dI dA d).1 ∧
    excite norb a i ψ (pairOf norb dI dA d).1 = 0 ∧
    excite norb i a ψ (pairOf norb dI dA d).1 =
      (-1) ^ (cnt norb a (pairOf norb dI dA d).2 + cnt norb i (pairOf norb dI dA d).1) * ψ (pairOf norb dI dA d).2 ∧
    excite norb i a ψ (pairOf norb dI dA d).2 = 0 := by
  classical
  have hno1 : ¬ Matches norb a i (pairOf norb dI dA d).1 := by
    intro h
    apply hne
    intro p
    by_cases hp : p ∈ a ∨ p ∈ i
    · rw [← h.2 p hp, (c.m1 hd).2 p hp.symm]
    · rw [not_or] at hp; simp [hp.1, hp.2]
  have hno2 : ¬ Matches norb i a (pairOf norb dI dA d).2 := by
    intro h
    apply hne
    intro p
    by_cases hp : p ∈ a ∨ p ∈ i
    · rw [← h.2 p hp.symm, (c.m2 hd).2 p hp]
    · rw [not_or] at hp; simp [hp.1, hp.2]
  rw [excite_eq c.na c.ni ψ (c.lt2 hd), excite_eq c.na c.ni ψ (c.lt1 hd), excite_eq c.ni c.na ψ (c.lt2 hd),
    excite_eq c.ni c.na ψ (c.lt1 hd), if_pos (c.m2 hd), if_pos (c.m1 hd), if_neg hno1, if_neg hno2, c.partner,
    c.partner']
  exact ⟨rfl, rfl, by rw [add_comm], rfl⟩

end

end Verif.Fsucc
