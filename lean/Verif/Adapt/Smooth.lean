import Verif.Adapt.Refine

set_option autoImplicit false
set_option linter.unusedVariables false

namespace Hexed.Adapt
open Hexed.Tree (Path get modify refineNode unrefineNode setStatusNode findNeighbors findNeighbor IsDir Borders IsLeafAt Reachable RootWF)

variable {nd : Nat}

/-! ### Marking -/

/-- Is the element going to be marked? -/
def cond (st : St nd) (e : El) : Bool := e.tree.any fun p => e.record != 2 && (needsRefine st p == some true)

def mark (st : St nd) (e : El) : El := if cond st e then { e with record := 1 } else e

def markOn (st : St nd) (S : Bool × Nat → Bool) : St nd :=
  { st with els := fun d => (st.els d).mapIdx fun i e => if S (d, i) then mark st e else e }

theorem markOn_get (st : St nd) (S : Bool × Nat → Bool) (d : Bool) (i : Nat) :
    ((markOn st S).els d)[i]? = ((st.els d)[i]?).map fun e => if S (d, i) then mark st e else e := by
  simp [markOn, List.getElem?_mapIdx]

theorem mark_tree (st : St nd) (e : El) : (mark st e).tree = e.tree := by unfold mark; split <;> rfl
theorem mark_two (st : St nd) (e : El) : (mark st e).record ≠ 2 ↔ e.record ≠ 2 := by
  unfold mark; split
  · rename_i h
    simp only [cond, Option.any_eq_true] at h
    obtain ⟨p, -, h⟩ := h
    simp only [Bool.and_eq_true, bne_iff_ne, ne_eq] at h
    simp [h.1]
  · rfl

theorem markOn_ok {st : St nd} (h : Consistent st) (S : Bool × Nat → Bool) : Consistent (markOn st S) ∧
    (∀ p, Exists (markOn st S) p ↔ Exists st p) ∧ ∀ p, (∃ e ∈ (markOn st S).all, e.tree = some p) ↔ ∃ e ∈ st.all, e.tree = some p := by
  have hmap : ∀ d, ((markOn st S).els d).map (·.tree) = (st.els d).map (·.tree) := by
    intro d
    apply List.ext_getElem?
    intro i
    rw [List.getElem?_map, List.getElem?_map, markOn_get]
    cases (st.els d)[i]? with
    | none => rfl
    | some e => simp only [Option.map_some]; split <;> simp [mark_tree]
  refine ⟨h.update rfl hmap ?_, ?_, ?_⟩
  · intro d i e e' h1 h2 hne
    rw [markOn_get, h1] at h2
    simp only [Option.map_some, Option.some.injEq] at h2
    subst h2
    split at hne
    · exact (mark_two st e).1 hne
    · exact hne
  · intro p
    constructor
    · rintro ⟨d, e', he', ht, hr⟩
      obtain ⟨i, hi⟩ := List.mem_iff_getElem?.1 he'
      rw [markOn_get] at hi
      cases hi' : (st.els d)[i]? with
      | none => rw [hi'] at hi; simp at hi
      | some e =>
        rw [hi'] at hi
        simp only [Option.map_some, Option.some.injEq] at hi
        subst hi
        refine ⟨d, e, List.mem_of_getElem? hi', ?_, ?_⟩
        · split at ht
          · rw [mark_tree] at ht; exact ht
          · exact ht
        · split at hr
          · exact (mark_two st e).1 hr
          · exact hr
    · rintro ⟨d, e, he, ht, hr⟩
      obtain ⟨i, hi⟩ := List.mem_iff_getElem?.1 he
      refine ⟨d, if S (d, i) then mark st e else e, List.mem_iff_getElem?.2 ⟨i, by rw [markOn_get, hi]; rfl⟩, ?_, ?_⟩
      · split
        · rw [mark_tree]; exact ht
        · exact ht
      · split
        · exact (mark_two st e).2 hr
        · exact hr
  · intro p
    have : (∃ e ∈ (markOn st S).all, e.tree = some p) ↔ p ∈ (markOn st S).all.filterMap (·.tree) := by simp [List.mem_filterMap]
    rw [this, all_trees, hmap, hmap, ← all_trees]; simp [List.mem_filterMap]

theorem markOn_needs {st : St nd} (h : Consistent st) (S : Bool × Nat → Bool) (p : Path) : needsRefine (markOn st S) p = needsRefine st p := by
  obtain ⟨h1, h2, h3⟩ := markOn_ok h S
  exact needsRefine_congr h h1 rfl h2 h3 p

theorem needs_total {st : St nd} (h : Consistent st) {d : Bool} {e : El} {p : Path} (he : e ∈ st.els d) (ht : e.tree = some p) :
    ∃ b, needsRefine st p = some b := by
  obtain ⟨c, hc⟩ := h.valid d e he p ht
  obtain ⟨r, hr, -⟩ := needsRefine_eq h hc
  exact ⟨r, hr⟩

theorem smoothOne_markOn {st : St nd} (h : Consistent st) (S : Bool × Nat → Bool) (b : Bool) {x : Bool × Nat} {e : El}
    (hx : (st.els x.1)[x.2]? = some e) :
    smoothOne (markOn st S, b) x = some (markOn st (fun y => S y || decide (y = x)), b || cond st e) := by
  obtain ⟨d, i⟩ := x
  simp only at hx
  have hsame : cond st e = false → markOn st (fun y => S y || decide (y = (d, i))) = markOn st S := by
    intro hc
    have : ∀ d', (markOn st (fun y => S y || decide (y = (d, i)))).els d' = (markOn st S).els d' := by
      intro d'
      apply List.ext_getElem?
      intro j
      rw [markOn_get, markOn_get]
      cases hj : (st.els d')[j]? with
      | none => rfl
      | some e' =>
        simp only [Option.map_some, Option.some.injEq]
        by_cases hy : (d', j) = (d, i)
        · rw [Prod.mk.injEq] at hy
          obtain ⟨rfl, rfl⟩ := hy
          rw [hx, Option.some.injEq] at hj
          subst hj
          have : mark st e = e := by simp [mark, hc]
          simp [this]
        · simp [hy]
    unfold markOn at this ⊢
    congr 1
    funext d'
    exact this d'
  simp only [smoothOne, markOn_get, hx, Option.map_some, Option.bind_some]
  have htree : (if S (d, i) then mark st e else e).tree = e.tree := by
    split
    · exact mark_tree st e
    · rfl
  have hrec : (if S (d, i) then mark st e else e).record ≠ 2 ↔ e.record ≠ 2 := by
    split
    · exact mark_two st e
    · rfl
  rw [htree]
  cases ht : e.tree with
  | none =>
    have hc : cond st e = false := by simp [cond, ht]
    simp [hsame hc, hc]
  | some p =>
    simp only
    by_cases hr : e.record = 2
    · have hc : cond st e = false := by simp [cond, ht, hr]
      rw [if_neg (by rw [hrec]; simp [hr])]
      simp [hsame hc, hc]
    · rw [if_pos (hrec.2 hr), markOn_needs h]
      obtain ⟨nb, hnb⟩ := needs_total h (List.mem_of_getElem? hx) ht
      rw [hnb]
      simp only [Option.map_some, Option.some.injEq]
      cases nb with
      | false =>
        have hc : cond st e = false := by simp [cond, ht, hnb]
        simp [hsame hc, hc]
      | true =>
        have hc : cond st e = true := by simp [cond, ht, hnb, hr]
        simp only [if_true, hc, Bool.or_true, Prod.mk.injEq, and_true]
        have : ∀ d', (setRec (markOn st S) (d, i) 1).els d' = (markOn st (fun y => S y || decide (y = (d, i)))).els d' := by
          intro d'
          apply List.ext_getElem?
          intro j
          rw [markOn_get]
          simp only [setRec]
          split
          · rename_i hd
            subst hd
            rw [List.getElem?_modify, markOn_get]
            cases hj : (st.els d')[j]? with
            | none => rfl
            | some e' =>
              simp only [Option.map_eq_map, Option.map_some, Option.some.injEq]
              by_cases hij : i = j
              · subst hij
                rw [hx, Option.some.injEq] at hj
                subst hj
                have hm : mark st e = { e with record := 1 } := by simp [mark, hc]
                simp only [if_true, decide_true, Bool.or_true, hm]
                split <;> rfl
              · have : ¬(d', j) = (d', i) := by simp; exact fun h => hij h.symm
                simp [hij, this]
          · rename_i hd
            rw [markOn_get]
            have : ¬(d', j) = (d, i) := by simp; exact fun h => absurd h hd
            simp [this]
        unfold markOn setRec at this ⊢
        congr 1
        funext d'
        exact this d'

theorem sweep {st : St nd} (h : Consistent st) : ∀ (order : List (Bool × Nat)) (S : Bool × Nat → Bool) (b : Bool),
    (∀ x ∈ order, x.2 < (st.els x.1).length) →
    order.foldlM smoothOne (markOn st S, b) =
      some (markOn st (fun y => S y || decide (y ∈ order)), b || order.any fun x => ((st.els x.1)[x.2]?).any (cond st)) := by
  intro order
  induction order with
  | nil => intro S b _; simp
  | cons x order ih =>
    intro S b hl
    have hlt := hl x (by simp)
    have hx : (st.els x.1)[x.2]? = some (st.els x.1)[x.2] := List.getElem?_eq_getElem hlt
    rw [List.foldlM_cons, smoothOne_markOn h S b hx]
    simp only [Option.bind_eq_bind, Option.bind_some]
    rw [ih _ _ (fun y hy => hl y (by simp [hy]))]
    have h1 : (fun y => (S y || decide (y = x)) || decide (y ∈ order)) = fun y => S y || decide (y ∈ x :: order) := by
      funext y
      by_cases h1 : y = x <;> by_cases h2 : y ∈ order <;> simp [h1, h2]
    rw [h1, List.any_cons, hx, Option.any_some, Bool.or_assoc]

theorem mem_handles {st : St nd} {x : Bool × Nat} : x ∈ handles st ↔ x.2 < (st.els x.1).length := by
  obtain ⟨d, i⟩ := x
  simp only [handles, List.mem_append, List.mem_map, List.mem_range, Prod.mk.injEq]
  cases d <;> simp

/-- The whole sweep, whatever the order. -/
theorem sweep_all {st : St nd} (h : Consistent st) {order : List (Bool × Nat)} (ho : order.Perm (handles st)) :
    ∃ m, order.foldlM smoothOne (st, false) = some ({ st with els := fun d => (st.els d).map (mark st) }, m) ∧
      (m = true ↔ ∃ d, ∃ e ∈ st.els d, cond st e = true) := by
  have h0 : markOn st (fun _ => false) = st := by
    unfold markOn
    have : (fun d => (st.els d).mapIdx fun i e => if (false : Bool) = true then mark st e else e) = st.els := by
      funext d; apply List.ext_getElem?; intro i; simp [List.getElem?_mapIdx]
    rw [this]
  have hs := sweep h order (fun _ => false) false (fun x hx => mem_handles.1 (ho.mem_iff.1 hx))
  rw [h0] at hs
  refine ⟨(false || order.any fun x => ((st.els x.1)[x.2]?).any (cond st)), hs.trans ?_, ?_⟩
  · congr 2
    unfold markOn
    congr 1
    funext d
    apply List.ext_getElem?
    intro i
    rw [List.getElem?_mapIdx, List.getElem?_map]
    cases hi : (st.els d)[i]? with
    | none => rfl
    | some e =>
      have : (d, i) ∈ order := ho.mem_iff.2 (mem_handles.2 (by
        show i < (st.els d).length
        by_contra hn
        rw [List.getElem?_eq_none (by omega)] at hi
        simp at hi))
      simp [this]
  · simp only [Bool.false_or, List.any_eq_true, Option.any_eq_true]
    constructor
    · rintro ⟨x, hx, e, he, hc⟩; exact ⟨x.1, e, List.mem_of_getElem? he, hc⟩
    · rintro ⟨d, e, he, hc⟩
      obtain ⟨i, hi⟩ := List.mem_iff_getElem?.1 he
      refine ⟨(d, i), ho.mem_iff.2 (mem_handles.2 ?_), e, hi, hc⟩
      by_contra hn
      rw [List.getElem?_eq_none (by simp only at hn; omega)] at hi
      simp at hi

/-! ### One pass -/

/-- The element at `p` has a much finer neighbour. -/
def Bad (st : St nd) (p : Path) : Prop := needsRefine st p = some true

theorem cond_iff {st : St nd} {e : El} : cond st e = true ↔ ∃ p, e.tree = some p ∧ e.record ≠ 2 ∧ Bad st p := by
  simp only [cond, Option.any_eq_true, Bool.and_eq_true, bne_iff_ne, ne_eq, beq_iff_eq, Bad]

/-- What one pass does. -/
theorem smoothPass_ok {st : St nd} (h : Consistent st) (surf : Tree nd → Bool) {order : List (Bool × Nat)} (ho : order.Perm (handles st)) :
    ∃ st' m, smoothPass surf order st = some (st', m) ∧ Consistent st' ∧ (m = true ↔ ∃ p, Exists st p ∧ Bad st p) ∧
      (∀ d, st'.els d = ((st.els d).map (mark st)).map killed ++ ((st.els d).map (mark st)).flatMap (bornOf nd)) ∧
      (∀ q, Present st.root q → Present st'.root q) ∧ (Geometric surf → StatusKept surf st.root st'.root) := by
  obtain ⟨m, hm, hmi⟩ := sweep_all h ho
  set s1 : St nd := { st with els := fun d => (st.els d).map (mark st) } with hs1
  have c1 : Consistent s1 := by
    refine h.update rfl (fun d => ?_) ?_
    · simp [hs1, Function.comp_def, mark_tree]
    · intro d i e e' h1 h2 hne
      simp only [hs1, List.getElem?_map, h1, Option.map_some, Option.some.injEq] at h2
      subst h2
      exact (mark_two st e).1 hne
  obtain ⟨s2, a1, a2, a3, a4, a5, a6⟩ := refineByRecord_ok c1 surf false
  obtain ⟨s3, b1, b2, b3, b4, b5, b6⟩ := refineByRecord_ok a2 surf true
  refine ⟨s3, m, ?_, b2, ?_, ?_, fun q hq => b5 q (a5 q hq), fun hg => (a6 hg).trans (b6 hg)⟩
  · simp only [smoothPass, hm, Option.bind_some, a1, b1, Option.map_some]
  · rw [hmi]
    constructor
    · rintro ⟨d, e, he, hc⟩
      obtain ⟨p, hp, hr, hb⟩ := cond_iff.1 hc
      exact ⟨p, ⟨d, e, he, hp, hr⟩, hb⟩
    · rintro ⟨p, ⟨d, e, he, hp, hr⟩, hb⟩
      exact ⟨d, e, he, cond_iff.2 ⟨p, hp, hr, hb⟩⟩
  · intro d
    cases d
    · have : s3.els false = s2.els false := b3
      rw [this, a4]
    · have : s2.els true = s1.els true := a3
      rw [b4, this]

theorem mark_one {st : St nd} (hn : NoRequests st) {d : Bool} {e : El} (he : e ∈ st.els d) {p : Path} (hp : e.tree = some p) :
    (mark st e).record = 1 ↔ e.record ≠ 2 ∧ Bad st p := by
  unfold mark
  split
  · rename_i hc
    obtain ⟨q, hq, hr, hb⟩ := cond_iff.1 hc
    rw [hp, Option.some.injEq] at hq; subst hq
    simp [hr, hb]
  · rename_i hc
    have : e.record ≠ 1 := by rcases hn d e he (by rw [hp]; simp) with h | h <;> omega
    simp only [this, false_iff, not_and]
    intro hr hb
    exact hc (cond_iff.2 ⟨p, hp, hr, hb⟩)

theorem killed_tree (e : El) : (killed e).tree = e.tree := by unfold killed; split <;> rfl

/-- Which cells exist after a pass. -/
theorem pass_exists {st st' : St nd} (hn : NoRequests st)
    (hels : ∀ d, st'.els d = ((st.els d).map (mark st)).map killed ++ ((st.els d).map (mark st)).flatMap (bornOf nd)) (q : Path) :
    Exists st' q ↔ (Exists st q ∧ ¬Bad st q) ∨ ∃ p, Exists st p ∧ Bad st p ∧ q ∈ kids nd p := by
  constructor
  · rintro ⟨d, e', he', ht, hr⟩
    rw [hels d, List.mem_append] at he'
    rcases he' with he' | he'
    · simp only [List.map_map, List.mem_map, Function.comp] at he'
      obtain ⟨e, he, rfl⟩ := he'
      rw [killed_tree, mark_tree] at ht
      left
      have hk : ¬(mark st e).record = 1 := by
        intro h1
        unfold killed at hr
        rw [if_pos ⟨h1, by rw [mark_tree, ht]; simp⟩] at hr
        simp at hr
      have hk2 : killed (mark st e) = mark st e := by unfold killed; rw [if_neg]; tauto
      rw [hk2] at hr
      have hr2 := (mark_two st e).1 hr
      refine ⟨⟨d, e, he, ht, hr2⟩, fun hb => hk ((mark_one hn he ht).2 ⟨hr2, hb⟩)⟩
    · simp only [List.mem_flatMap, List.mem_map] at he'
      obtain ⟨_, ⟨e, he, rfl⟩, he'⟩ := he'
      unfold bornOf at he'
      split at he'
      · rename_i h1
        cases hp : e.tree with
        | none => rw [mark_tree, hp] at he'; simp at he'
        | some p =>
          rw [mark_tree, hp] at he'
          simp only [Option.elim, List.mem_map] at he'
          obtain ⟨c, hc, rfl⟩ := he'
          simp only [Option.some.injEq] at ht
          subst ht
          obtain ⟨h2, h3⟩ := (mark_one hn he hp).1 h1
          exact .inr ⟨p, ⟨d, e, he, hp, h2⟩, h3, hc⟩
      · simp at he'
  · rintro (⟨⟨d, e, he, ht, hr⟩, hb⟩ | ⟨p, ⟨d, e, he, ht, hr⟩, hb, hq⟩)
    · have h1 : ¬(mark st e).record = 1 := fun h => hb ((mark_one hn he ht).1 h).2
      have hk2 : killed (mark st e) = mark st e := by unfold killed; rw [if_neg]; tauto
      refine ⟨d, mark st e, ?_, by rw [mark_tree]; exact ht, (mark_two st e).2 hr⟩
      rw [hels d, List.mem_append]
      left
      rw [List.map_map]
      exact List.mem_map.2 ⟨e, he, hk2⟩
    · have h1 := (mark_one hn he ht).2 ⟨hr, hb⟩
      refine ⟨d, ⟨some q, 0, false⟩, ?_, rfl, by simp⟩
      rw [hels d, List.mem_append]
      right
      rw [List.mem_flatMap]
      refine ⟨mark st e, List.mem_map_of_mem he, ?_⟩
      unfold bornOf
      rw [if_pos h1, mark_tree, ht]
      simp only [Option.elim, List.mem_map]
      exact ⟨q, hq, rfl⟩

theorem pass_noRequests {st st' : St nd} (hn : NoRequests st)
    (hels : ∀ d, st'.els d = ((st.els d).map (mark st)).map killed ++ ((st.els d).map (mark st)).flatMap (bornOf nd)) : NoRequests st' := by
  intro d e' he' ht
  rw [hels d, List.mem_append] at he'
  rcases he' with he' | he'
  · simp only [List.map_map, List.mem_map, Function.comp] at he'
    obtain ⟨e, he, rfl⟩ := he'
    rw [killed_tree] at ht
    unfold killed
    split
    · exact .inr rfl
    · rename_i h
      rw [mark_tree] at ht
      unfold mark at h ⊢
      split
      · rename_i hc; rw [if_pos hc] at h; exact absurd ⟨rfl, ht⟩ h
      · exact hn d e he ht
  · simp only [List.mem_flatMap, List.mem_map] at he'
    obtain ⟨_, ⟨e, he, rfl⟩, he'⟩ := he'
    unfold bornOf at he'
    split at he'
    · cases hp : (mark st e).tree with
      | none => rw [hp] at he'; simp at he'
      | some p =>
        rw [hp] at he'
        simp only [Option.elim, List.mem_map] at he'
        obtain ⟨c, hc, rfl⟩ := he'
        exact .inl rfl
    · simp at he'

end Hexed.Adapt
