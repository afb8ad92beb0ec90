import Verif.Synch.Lemmas
import Verif.Adapt.Props
import Mathlib.Algebra.Order.Group.Abs
import Mathlib.Algebra.Order.Group.Int
import Mathlib.Tactic.Abel
set_option autoImplicit false
set_option linter.unusedVariables false

/-! # Properties of the data passed from layers to the elements below (C70, C71) -/

namespace Hexed.Synch

variable {V : Type} {gt : V → V → Bool} {lt : V → V → Prop} {cons : List Con}

/-! ### C70: uncertainty -/

/-- C70: the loop ends under every schedule of its parallel part, lost updates included, after at most `2 n² + 1` passes for `n` connections,
whatever the values are (NaN too) and however the elements are connected. -/
theorem synch_ends (o : Comparison gt lt) (sched : Nat → List Nat) (u : Nat → V) :
    ∃ u', synch gt cons sched 0 (2 * cons.length ^ 2 + 1) u = some u' := by
  refine synch_terminates o _ 0 u (.refl u) ?_
  have := weight_le (lt := lt) (cons := cons) u u
  have e : cons.length * (2 * cons.length) = 2 * cons.length ^ 2 := by rw [pow_two, Nat.mul_left_comm]
  omega

/-- C70: when it ends, no element has noticeably more uncertainty than the one it was extruded from; no uncertainty has been lowered; and
every uncertainty is the original one of that element or of one in the layers on top of it. -/
theorem synch_correct (o : Comparison gt lt) {sched : Nat → List Nat} (hf : Fair cons sched) {k n : Nat} {u u' : Nat → V}
    (h : synch gt cons sched k n u = some u') :
    (∀ c ∈ cons, gt (u' c.outer) (u' c.inner) = false) ∧ (∀ x, u' x = u x ∨ lt (u x) (u' x)) ∧
      (∀ x, ∃ y n, Layered cons y x n ∧ u' x = u y) ∧ ∀ x, (∀ c ∈ cons, c.inner ≠ x) → u' x = u x := by
  obtain ⟨g, e⟩ := synch_grown o hf n k u u' h
  refine ⟨e, g.grow, g.from_, ?_⟩
  intro x hx
  obtain ⟨y, m, hy, e'⟩ := g.from_ x
  cases hy with
  | here => exact e'
  | next _ hc _ => exact absurd rfl (hx _ hc)

section Numbers
variable {K : Type} [AddCommGroup K] [LinearOrder K] [IsOrderedAddMonoid K]

/-- The comparison of the code with exact arithmetic: `a > b + tol`. -/
def exceeds (tol a b : K) : Bool := decide (a > b + tol)

theorem exceeds_comparison {tol : K} (ht : 0 ≤ tol) : Comparison (exceeds tol) (fun a b : K => a < b) :=
  ⟨lt_irrefl, fun _ _ _ => lt_trans, fun a b h => by
    simp only [exceeds, gt_iff_lt, decide_eq_true_eq] at h
    exact lt_of_le_of_lt (le_add_of_nonneg_right ht) h⟩

/-- C70: every element ends up with at least the uncertainty of every element in the layers on top of it, up to the tolerance for each
layer in between, and at most with the greatest of them. -/
theorem synch_maximum {tol : K} (ht : 0 ≤ tol) {sched : Nat → List Nat} (hf : Fair cons sched) {k n : Nat} {u u' : Nat → K}
    (h : synch (exceeds tol) cons sched k n u = some u') (x : Nat) :
    (∀ y m, Layered cons y x m → u y ≤ u' x + m • tol) ∧ ∃ y m, Layered cons y x m ∧ u' x = u y := by
  obtain ⟨h1, h2, h3, -⟩ := synch_correct (exceeds_comparison ht) hf h
  refine ⟨?_, h3 x⟩
  intro y m hy
  have : u' y ≤ u' x + m • tol := by
    induction hy with
    | here => simp
    | next hl hc ho ih =>
      rename_i x m c
      have := h1 c hc
      simp only [exceeds, gt_iff_lt, decide_eq_false_iff_not, not_lt] at this
      rw [ho] at this
      calc u' y ≤ u' x + m • tol := ih
        _ ≤ (u' c.inner + tol) + m • tol := by gcongr
        _ = u' c.inner + (m + 1) • tol := by rw [succ_nsmul]; abel
  refine le_trans ?_ this
  rcases h2 y with e | e
  · exact e.ge
  · exact e.le

/-- C70: the result depends on the schedule only within the tolerance: two runs differ by no more than the tolerance times the number
of layers. -/
theorem synch_schedule {tol : K} (ht : 0 ≤ tol) {s1 s2 : Nat → List Nat} (hf1 : Fair cons s1) (hf2 : Fair cons s2) {k1 n1 k2 n2 : Nat} {u u1 u2 : Nat → K}
    (h1 : synch (exceeds tol) cons s1 k1 n1 u = some u1) (h2 : synch (exceeds tol) cons s2 k2 n2 u = some u2)
    (layers : Nat) (hl : ∀ x y m, Layered cons y x m → m ≤ layers) (x : Nat) : |u1 x - u2 x| ≤ layers • tol := by
  have key : ∀ {a b : Nat → K}, ((∀ y m, Layered cons y x m → u y ≤ a x + m • tol)) → (∃ y m, Layered cons y x m ∧ b x = u y) → b x - a x ≤ layers • tol := by
    rintro a b ha ⟨y, m, hy, e⟩
    rw [e, sub_le_iff_le_add']
    exact (ha y m hy).trans (by gcongr; exact hl x y m hy)
  obtain ⟨a1, b1⟩ := synch_maximum ht hf1 h1 x
  obtain ⟨a2, b2⟩ := synch_maximum ht hf2 h2 x
  rw [abs_le']
  exact ⟨key a2 b1, by rw [neg_sub]; exact key a1 b2⟩

end Numbers

/-! #### A case -/

/-- Two layers on top of element 0, one on top of element 1. -/
def layers : List Con := [⟨2, 0⟩, ⟨3, 2⟩, ⟨4, 1⟩]

/-- A schedule in which all iterations read before any writes. -/
def readFirst : Nat → List Nat := fun _ => [0, 1, 2, 0, 1, 2, 2, 1, 0]

example : Fair layers readFirst := by
  intro k i hi
  have : i = 0 ∨ i = 1 ∨ i = 2 := by simp [layers] at hi; omega
  rcases this with rfl | rfl | rfl <;> unfold readFirst <;> decide

example : (synch (exceeds (1 : Int)) layers readFirst 0 19 (fun x => if x = 3 then 7 else if x = 4 then 1 else 0)).map
    (fun u => [u 0, u 1, u 2, u 3, u 4]) = some [7, 0, 7, 7, 1] := by decide +kernel

example : ∀ x y m, Layered layers y x m → m ≤ 2 := by
  have h2 : ∀ x y m, Layered layers y x m → m ≤ 2 ∧ (x = 3 ∨ x = 4 → m = 0) ∧ (x = 2 → m ≤ 1) := by
    intro x y m h
    induction h with
    | here => simp
    | next _ hc ho ih =>
      simp only [layers, List.mem_cons, List.not_mem_nil, or_false] at hc
      rcases hc with rfl | rfl | rfl <;> simp only at ho <;> subst ho <;> simp_all
  exact fun x y m h => (h2 x y m h).1

/-! ### C71: refinement requests -/

/-- There is one layer: no element is at the outside of a connection and at the inside of another. -/
def OneLayer (cons : List Con) : Prop := ∀ c ∈ cons, ∀ c' ∈ cons, c.outer ≠ c'.inner

/-- The requests of the elements extruded from `x`. -/
def above (f : Nat → Flags) (cons : List Con) (x : Nat) : List Flags := (cons.filter fun c => c.inner = x).map fun c => f c.outer

/-- Requests that `update` starts from. -/
def Asking (f : Nat → Flags) : Prop := ∀ x, (f x).record = 1 ∨ (f x).record = 0 ∨ (f x).record = -1

theorem request_asking (ref unref : Bool) : request ref unref = 1 ∨ request ref unref = 0 ∨ request ref unref = -1 := by
  cases ref <;> cases unref <;> simp [request]

/-- What the loop makes of an element. -/
def outcome (own : Flags) (l : List Flags) : Flags :=
  ⟨if own.record = 1 ∨ ∃ a ∈ l, a.record = 1 then 1 else (l.getLast?.map (·.record)).getD own.record, own.locked || l.any (·.locked)⟩

theorem outcome_nil (a : Flags) : outcome a [] = a := by
  cases a with
  | mk r l =>
    simp only [outcome, List.not_mem_nil, false_and, exists_false, or_false, List.getLast?_nil, Option.map_none, Option.getD_none, List.any_nil, Bool.or_false,
      Flags.mk.injEq, and_true]
    split <;> simp_all

theorem inheritAll_eq : ∀ (cons : List Con) (f : Nat → Flags), OneLayer cons → Asking f → ∀ x, inheritAll f cons x = outcome (f x) (above f cons x) := by
  intro cons
  induction cons with
  | nil => intro f _ ha x; rw [above, List.filter_nil, List.map_nil, outcome_nil]; rfl
  | cons c cs ih =>
    intro f h1 ha x
    have hne : c.outer ≠ c.inner := h1 c (by simp) c (by simp)
    have hi : ∀ y, inherit f c y = if y = c.inner then
        ⟨if (f c.inner).record = 0 then (f c.outer).record else max (f c.inner).record (f c.outer).record, (f c.inner).locked || (f c.outer).locked⟩ else f y := by
      intro y; by_cases hy : y = c.inner
      · subst hy; simp [inherit]
      · simp [inherit, hy]
    have ha' : Asking (inherit f c) := by
      intro y
      rw [hi]
      split
      · rcases ha c.inner with h | h | h <;> rcases ha c.outer with h' | h' | h' <;> simp [h, h']
      · exact ha y
    have hout : ∀ c' ∈ cs, inherit f c c'.outer = f c'.outer := by
      intro c' hc'
      rw [hi, if_neg (h1 c' (by simp [hc']) c (by simp))]
    have := ih (inherit f c) (fun a h b h' => h1 a (by simp [h]) b (by simp [h'])) ha' x
    rw [inheritAll, List.foldl_cons]
    rw [inheritAll] at this
    rw [this]
    have e : above (inherit f c) cs x = above f cs x := by
      unfold above
      refine List.map_congr_left fun c' hc' => hout c' (List.mem_filter.1 hc').1
    rw [e, hi]
    by_cases hx : x = c.inner
    · subst hx
      rw [if_pos rfl]
      have e2 : above f (c :: cs) c.inner = f c.outer :: above f cs c.inner := by simp [above]
      rw [e2]
      generalize above f cs c.inner = l
      unfold outcome
      simp only [Flags.mk.injEq, List.any_cons, Bool.or_assoc, and_true]
      cases l with
      | nil => rcases ha c.inner with h | h | h <;> rcases ha c.outer with h' | h' | h' <;> simp [h, h']
      | cons a l =>
        simp only [List.getLast?_cons_cons, List.mem_cons, exists_eq_or_imp]
        by_cases hl : a.record = 1 ∨ ∃ b ∈ l, b.record = 1
        · simp [hl]
        · have hh : ∃ r, (a :: l).getLast? = some r := ⟨_, List.getLast?_eq_some_getLast (by simp)⟩
          obtain ⟨r, hr⟩ := hh
          simp only [hr, Option.map_some, Option.getD_some, hl, or_false]
          rcases ha c.inner with h | h | h <;> rcases ha c.outer with h' | h' | h' <;> simp [h, h']
    · rw [if_neg hx]
      have e2 : above f (c :: cs) x = above f cs x := by simp [above, Ne.symm hx]
      rw [e2]

/-- C71, the part that holds: in whatever order the threads treat the connections of one layer, an element is refined if and only if it or
an element extruded from it asks for it; it is locked if and only if it or one of those is; if all those extruded from it ask for the same it inherits
that unless it asks to be refined itself; and elements nothing is extruded from keep their own requests. Missing: if only some of them ask for
unrefinement it depends on the order whether it is inherited (`inherit_order_refuted`). -/
theorem inherit_partial {f : Nat → Flags} (hf : Asking f) (h1 : OneLayer cons) {order : List Con} (ho : order.Perm cons) (x : Nat) :
    ((inheritAll f order x).record = 1 ↔ (f x).record = 1 ∨ ∃ c ∈ cons, c.inner = x ∧ (f c.outer).record = 1) ∧
    ((inheritAll f order x).locked = true ↔ (f x).locked = true ∨ ∃ c ∈ cons, c.inner = x ∧ (f c.outer).locked = true) ∧
    (∀ r, (∃ c ∈ cons, c.inner = x) → (∀ c ∈ cons, c.inner = x → (f c.outer).record = r) → (f x).record ≠ 1 → (inheritAll f order x).record = r) ∧
    ((∀ c ∈ cons, c.inner ≠ x) → inheritAll f order x = f x) := by
  have h1' : OneLayer order := fun a h b h' => h1 a (ho.mem_iff.1 h) b (ho.mem_iff.1 h')
  have hm : ∀ a, a ∈ above f order x ↔ ∃ c ∈ cons, c.inner = x ∧ f c.outer = a := by
    intro a
    simp only [above, List.mem_map, List.mem_filter, decide_eq_true_eq, ho.mem_iff, and_assoc]
  rw [inheritAll_eq order f h1' hf x]
  have hfrom : ∀ a ∈ above f order x, a.record = 1 ∨ a.record = 0 ∨ a.record = -1 := by
    intro a ha
    obtain ⟨c, -, -, rfl⟩ := (hm a).1 ha
    exact hf c.outer
  have hex : ∀ P : Flags → Prop, (∃ a ∈ above f order x, P a) ↔ ∃ c ∈ cons, c.inner = x ∧ P (f c.outer) := by
    intro P
    constructor
    · rintro ⟨a, ha, hp⟩; obtain ⟨c, h1, h2, rfl⟩ := (hm a).1 ha; exact ⟨c, h1, h2, hp⟩
    · rintro ⟨c, h1, h2, hp⟩; exact ⟨_, (hm _).2 ⟨c, h1, h2, rfl⟩, hp⟩
  rw [← hex (fun a => a.record = 1), ← hex (fun a => a.locked = true)]
  refine ⟨?_, ?_, ?_, ?_⟩
  · simp only [outcome]
    constructor
    · intro h
      by_contra hn
      rw [if_neg hn] at h
      cases hl : (above f order x).getLast? with
      | none => rw [hl] at h; exact hn (.inl h)
      | some a => rw [hl] at h; exact hn (.inr ⟨a, List.mem_of_getLast? hl, h⟩)
    · intro h; rw [if_pos h]
  · simp [outcome]
  · rintro r ⟨c, hc, hcx⟩ hr h0
    have hall : ∀ a ∈ above f order x, a.record = r := by
      intro a ha; obtain ⟨c, h1, h2, rfl⟩ := (hm a).1 ha; exact hr c h1 h2
    have hmem : f c.outer ∈ above f order x := (hm _).2 ⟨c, hc, hcx, rfl⟩
    have hne : above f order x ≠ [] := by intro h; rw [h] at hmem; simp at hmem
    simp only [outcome]
    split
    · rename_i h
      rcases h with h | ⟨a, ha, h⟩
      · exact absurd h h0
      · rw [← h, hall a ha]
    · rw [List.getLast?_eq_some_getLast hne]
      exact hall _ (List.getLast_mem hne)
  · intro hno
    have : above f order x = [] := by
      rw [List.eq_nil_iff_forall_not_mem]
      intro a ha
      obtain ⟨c, h1, h2, -⟩ := (hm a).1 ha
      exact hno c h1 h2
    rw [this, outcome_nil]

/-- Element 0 in a corner, with two elements extruded from it. -/
def corner : List Con := [⟨1, 0⟩, ⟨2, 0⟩]

/-- One of them asks to be unrefined. -/
def cornerFlags : Nat → Flags := fun x => ⟨if x = 1 then -1 else 0, false⟩

/-- A square of which only the first quarter has an element, with the given request. -/
def cornerMesh (r : Int) : Adapt.St 2 := Adapt.mkEls 2 [.refine []] [] [⟨some [0], r, false⟩, ⟨none, -1, false⟩, ⟨none, 0, false⟩]

/-- C71 is false of the code: what an element inherits from two elements one of which asks for unrefinement depends on which of them is treated
first, and with it whether the element is merged into a coarser one. -/
theorem inherit_order_refuted : ∃ (f : Nat → Flags) (cons o1 o2 : List Con) (x : Nat) (mesh : Int → Adapt.St 2) (p : Hexed.Tree.Path) (s1 s2 : Adapt.St 2),
    Asking f ∧ OneLayer cons ∧ o1.Perm cons ∧ o2.Perm cons ∧
    (∀ r, ((mesh r).els true)[x]? = some ⟨some p, r, false⟩) ∧
    Adapt.repeatPass (fun _ => Adapt.unrefPass (fun d => ((mesh 0).els d).length)) (fun _ _ => []) 0 2 (mesh (inheritAll f o1 x).record) = some (some s1) ∧
    Adapt.repeatPass (fun _ => Adapt.unrefPass (fun d => ((mesh 0).els d).length)) (fun _ _ => []) 0 2 (mesh (inheritAll f o2 x).record) = some (some s2) ∧
    Adapt.exists_ s1 p = true ∧ Adapt.exists_ s2 p = false := by
  have e1 : (inheritAll cornerFlags corner 0).record = 0 := by decide
  have e2 : (inheritAll cornerFlags corner.reverse 0).record = -1 := by decide
  have r1 : (Adapt.repeatPass (fun _ => Adapt.unrefPass (fun d => ((cornerMesh 0).els d).length)) (fun _ _ => []) 0 2 (cornerMesh 0)).any
      (fun r => r.any fun s => Adapt.exists_ s [0]) = true := by decide +kernel
  have r2 : (Adapt.repeatPass (fun _ => Adapt.unrefPass (fun d => ((cornerMesh 0).els d).length)) (fun _ _ => []) 0 2 (cornerMesh (-1))).any
      (fun r => r.any fun s => !Adapt.exists_ s [0]) = true := by decide +kernel
  obtain ⟨_, h1, h1'⟩ := (Option.any_eq_true _ _).1 r1
  obtain ⟨s1, rfl, hx1⟩ := (Option.any_eq_true _ _).1 h1'
  obtain ⟨_, h2, h2'⟩ := (Option.any_eq_true _ _).1 r2
  obtain ⟨s2, rfl, hx2⟩ := (Option.any_eq_true _ _).1 h2'
  refine ⟨cornerFlags, corner, corner, corner.reverse, 0, cornerMesh, [0], s1, s2, ?_, ?_, .refl _, List.reverse_perm _, fun r => rfl, ?_, ?_, hx1, by simpa using hx2⟩
  · intro x; by_cases h : x = 1 <;> simp [cornerFlags, h]
  · intro c hc c' hc'
    simp only [corner, List.mem_cons, List.not_mem_nil, or_false] at hc hc'
    rcases hc with rfl | rfl <;> rcases hc' with rfl | rfl <;> simp
  · rw [e1]; exact h1
  · rw [e2]; exact h2

/-- A request and a lock that are inherited. -/
def cornerAsks : Nat → Flags := fun x => if x = 0 then ⟨-1, false⟩ else if x = 1 then ⟨1, false⟩ else ⟨0, true⟩

example : Asking cornerAsks ∧ OneLayer corner ∧ (inheritAll cornerAsks corner 0).record = 1 ∧ (inheritAll cornerAsks corner 0).locked = true ∧
    (cornerAsks 0).record = -1 := by
  refine ⟨?_, ?_, by decide, by decide, by decide⟩
  · intro x
    unfold cornerAsks
    split
    · simp
    · split <;> simp
  · intro c hc c' hc'
    simp only [corner, List.mem_cons, List.not_mem_nil, or_false] at hc hc'
    rcases hc with rfl | rfl <;> rcases hc' with rfl | rfl <;> simp

end Hexed.Synch
