import Verif.Adapt.Deform2
import Verif.Adapt.Fill
import Verif.Adapt.Smooth2
import Verif.Tree.Flood

set_option autoImplicit false
set_option linter.unusedVariables false

/-!
# `update` and `set_surface` as a whole
-/

namespace Hexed.Adapt
open Hexed.Tree (Path get modify refineNode unrefineNode setStatusNode findNeighbors findNeighbor IsDir Borders IsLeafAt Reachable)

variable {nd : Nat}

/-! ### Loops -/

theorem repeatPass_none {pass : List (Bool × Nat) → St nd → Option (St nd × Bool)} {order : Nat → St nd → List (Bool × Nat)} :
    ∀ (n m k : Nat) (s : St nd), n ≤ m → repeatPass pass order k n s = none → repeatPass pass order k m s = none := by
  intro n
  induction n with
  | zero => intro m k s _ h; simp [repeatPass] at h
  | succ n ih =>
    intro m k s hm h
    obtain ⟨m, rfl⟩ : ∃ m', m = m' + 1 := ⟨m - 1, by omega⟩
    simp only [repeatPass] at h ⊢
    cases hp : pass (order k s) s with
    | none => rfl
    | some x =>
      simp only [hp, Option.bind_some] at h ⊢
      by_cases hx : x.2 = true
      · rw [if_pos hx] at h ⊢; exact ih m (k + 1) x.1 (by omega) h
      · rw [if_neg hx] at h; simp at h

theorem repeatPass_more {pass : List (Bool × Nat) → St nd → Option (St nd × Bool)} {order : Nat → St nd → List (Bool × Nat)} {r : St nd} :
    ∀ (n m k : Nat) (s : St nd), n ≤ m → repeatPass pass order k n s = some (some r) → repeatPass pass order k m s = some (some r) := by
  intro n
  induction n with
  | zero => intro m k s _ h; simp [repeatPass] at h
  | succ n ih =>
    intro m k s hm h
    obtain ⟨m, rfl⟩ : ∃ m', m = m' + 1 := ⟨m - 1, by omega⟩
    simp only [repeatPass] at h ⊢
    cases hp : pass (order k s) s with
    | none => simp [hp] at h
    | some x =>
      simp only [hp, Option.bind_some] at h ⊢
      by_cases hx : x.2 = true
      · rw [if_pos hx] at h ⊢; exact ih m (k + 1) x.1 (by omega) h
      · rw [if_neg hx] at h ⊢; exact h

/-- A loop that ends does not fail before. -/
theorem repeatPass_total {pass : List (Bool × Nat) → St nd → Option (St nd × Bool)} {order : Nat → St nd → List (Bool × Nat)} {s r : St nd} {n0 : Nat}
    (h : repeatPass pass order 0 n0 s = some (some r)) (n : Nat) :
    (repeatPass pass order 0 n s = some (some r)) ∨ (n < n0 ∧ repeatPass pass order 0 n s = some none) := by
  by_cases hn : n0 ≤ n
  · exact .inl (repeatPass_more n0 n 0 s hn h)
  · cases hr : repeatPass pass order 0 n s with
    | none => rw [repeatPass_none n n0 0 s (by omega) hr] at h; simp at h
    | some x => cases x with
      | none => exact .inr ⟨by omega, rfl⟩
      | some y =>
        rw [repeatPass_more n n0 0 s (by omega) hr] at h
        simp only [Option.some.injEq] at h
        subst h; exact .inl rfl

/-! ### Properties of the set of existing cells -/

structure Same (st st' : St nd) : Prop where
  root : st'.root = st.root
  cells : ∀ p, Exists st' p ↔ Exists st p

theorem Same.symm {st st' : St nd} (h : Same st st') : Same st' st := ⟨h.root.symm, fun p => (h.cells p).symm⟩

theorem Same.exposed {st st' : St nd} (h : Same st st') {a : Tree nd} {dir : Fin nd → Int} : Exposed st' a dir ↔ Exposed st a dir := by
  simp only [Exposed, h.root, h.cells]

theorem Same.allOrNone {st st' : St nd} (h : Same st st') {a : Tree nd} {dir : Fin nd → Int} : AllOrNone st' a dir ↔ AllOrNone st a dir := by
  simp only [AllOrNone, h.root, h.cells]

theorem Same.balanced {st st' : St nd} (h : Same st st') (hb : Balanced st) : Balanced st' := by
  simpa only [Balanced, h.root, h.cells] using hb

theorem Same.ready {st st' : St nd} (h : Same st st') {away : Tree nd → (Fin nd → Int) → Bool} (hr : Ready away st) : Ready away st' := by
  refine ⟨?_, ?_, ?_, ?_⟩
  · simpa only [h.root, h.cells, h.allOrNone] using hr.faces
  · simpa only [h.root, h.cells, h.allOrNone, h.exposed] using hr.edges
  · simpa only [h.root, h.cells, h.exposed] using hr.diagonals
  · simpa only [h.root, h.cells, h.exposed] using hr.facing

theorem Same.bent' {st st' : St nd} (h : Same st st') {p : Path} (hb : Bent st p) : Bent st' p := by
  induction hb with
  | surface h1 h2 h3 h4 => exact .surface ((h.cells _).2 h1) (by rw [h.root]; exact h2) h3 (h.exposed.2 h4)
  | beside h1 h2 h3 h4 h5 h6 h7 h8 h9 =>
    exact .beside ((h.cells _).2 h1) (by rw [h.root]; exact h2) h3 (h.exposed.2 h4) h5 h6 ((h.cells _).2 h7) (by rw [h.root]; exact h8) h9
  | spread h1 h2 h3 h4 h5 h6 h7 h8 h9 ih1 ih2 =>
    exact .spread ih1 (by rw [h.root]; exact h2) h3 ih2 (by rw [h.root]; exact h5) h6 ((h.cells _).2 h7) (by rw [h.root]; exact h8) h9

theorem Same.bent {st st' : St nd} (h : Same st st') {p : Path} : Bent st' p ↔ Bent st p := ⟨h.symm.bent', h.bent'⟩

theorem Balanced.sub {st st' : St nd} (hr : st'.root = st.root) (h : ∀ p, Exists st' p → Exists st p) (hb : Balanced st) : Balanced st' := by
  intro p q a b dir h1 h2 h3 h4
  rw [hr] at h3 h4
  exact hb p q a b dir (h p h1) (h q h2) h3 h4

theorem Same.full {st st' : St nd} (h : Same st st') (hf : Full st) : Full st' := by
  simpa only [Full, h.root, h.cells] using hf

theorem Full.ready {st : St nd} (h : Full st) (away : Tree nd → (Fin nd → Int) → Bool) : Ready away st := by
  have hx : ∀ a dir, ¬Exposed st a dir := by
    rintro a dir ⟨q, b, hb, hl, -, hne⟩
    exact hne (h q ⟨b, hb, hl⟩)
  have ha : ∀ a dir, AllOrNone st a dir := fun a dir => .inl fun q b hb hl _ => h q ⟨b, hb, hl⟩
  refine ⟨fun _ _ _ _ _ _ _ => ha _ _, fun _ _ _ _ _ _ _ _ _ => ha _ _, ?_, ?_⟩
  · intro p a q b dir hp ha' _ _ hd ho _
    have : ∃ d, dir d ≠ 0 := by
      by_contra hc
      push Not at hc
      have : order dir = 0 := by
        simp only [order, Finset.card_eq_zero]
        exact Finset.filter_false_of_mem (by simp [hc])
      omega
    obtain ⟨d, hd'⟩ := this
    exact ⟨d, hd', hx _ _⟩
  · intro p a dir hp ha' hd ho hall
    exfalso
    have : ∃ d, dir d ≠ 0 := by
      by_contra hc
      push Not at hc
      have : order dir = 0 := by
        simp only [order, Finset.card_eq_zero]
        exact Finset.filter_false_of_mem (by simp [hc])
      omega
    obtain ⟨d, hd'⟩ := this
    exact hx _ _ (hall d hd')

/-! ### The end of both -/

/-- `delete_bad_extrusions`, `deform` and `purge`. -/
def finish (aw : Tree nd → (Fin nd → Int) → Bool) (o : Orders nd) (fuel : Nat) (st : St nd) : Option (Option (St nd)) :=
  (deleteBad aw o.delete fuel st).bind fun r => match r with
    | none => some none
    | some st => (deform o.deform o.spread fuel st).map fun r => r.map purge

theorem finish_ok {S : Option (Surface nd)} {o : Orders nd} (ho : o.Fair) {st : St nd} (h : Consistent st) (hn : NoRequests st) (h3 : NoToggle st) (hb : Balanced st) :
    ∃ n0, ∀ fuel, (∃ s, finish (away S) o fuel st = some (some s) ∧ Fit S s ∧ s.root = st.root ∧ (∀ p, Exists s p → Exists st p) ∧ (Full st → Full s)) ∨
      (fuel < n0 ∧ finish (away S) o fuel st = some none) := by
  obtain ⟨s1, a1, a2, a3, a4⟩ := repeatPass_delete (away S) ho.delete (size st + 1) 0 st h (by omega)
  have hsub : ∀ p, Exists s1 p → Exists st p := by
    rintro p ⟨d, e, he, ht, hr⟩
    obtain ⟨i, hi⟩ := List.mem_iff_getElem?.1 he
    have hlt : i < (st.els d).length := by rw [← a3.len d]; exact (List.getElem?_eq_some_iff.1 hi).1
    rcases a3.get d i _ e (List.getElem?_eq_getElem hlt) hi with rfl | h2
    · exact ⟨d, _, List.getElem_mem hlt, ht, hr⟩
    · rw [h2] at hr; simp at hr
  have hrec : ∀ d, ∀ e ∈ s1.els d, ∃ e0 ∈ st.els d, e.tree = e0.tree ∧ (e.record = e0.record ∨ e.record = 2) := by
    intro d e he
    obtain ⟨i, hi⟩ := List.mem_iff_getElem?.1 he
    have hlt : i < (st.els d).length := by rw [← a3.len d]; exact (List.getElem?_eq_some_iff.1 hi).1
    rcases a3.get d i _ e (List.getElem?_eq_getElem hlt) hi with h2 | h2
    · exact ⟨_, List.getElem_mem hlt, by rw [h2], .inl (by rw [h2])⟩
    · exact ⟨_, List.getElem_mem hlt, by rw [h2], .inr (by rw [h2])⟩
  have hn1 : NoRequests s1 := by
    intro d e he ht
    obtain ⟨e0, he0, h1, h2 | h2⟩ := hrec d e he
    · rw [h2]; exact hn d e0 he0 (by rw [← h1]; exact ht)
    · exact .inr h2
  have h31 : NoToggle s1 := by
    intro d e he
    obtain ⟨e0, he0, h1, h2 | h2⟩ := hrec d e he
    · rw [h2]; exact h3 d e0 he0
    · rw [h2]; decide
  have hfull : Full st → Full s1 := by
    intro hf
    have hid := deletePass_id h (hf.ready (away S)) (order := o.delete 0 st) (fun x hx => mem_handles.1 ((ho.delete 0 st).mem_iff.1 hx))
    simp only [repeatPass, hid, Option.bind_some, Bool.false_eq_true, if_false, Option.some.injEq] at a1
    rw [← a1]; exact hf
  refine ⟨max (size st + 1) (s1.all.length + 1), fun fuel => ?_⟩
  rcases repeatPass_total a1 fuel with e1 | ⟨hlt, e1⟩
  · rcases deform_ok a2 hn1 h31 (fun p a dir hp ha hd => a4.faces p a dir hp ha hd.1 hd.2) ho.deform ho.spread fuel with
      ⟨s2, b1, b2, b3, b4, b5, b6, b7⟩ | ⟨hle, b1⟩
    · left
      obtain ⟨c1, c2, c3⟩ := purge_ok b2 b4
      have hsame : Same s1 (purge s2) := by
        refine ⟨b3, fun p => ?_⟩
        rw [exists_as, c2, c2, b6, b7]
        constructor
        · rintro (h' | h')
          · exact h'.exists
          · exact h'.1
        · intro h'
          by_cases hbn : Bent s1 p
          · exact .inl hbn
          · exact .inr ⟨h', hbn⟩
      refine ⟨purge s2, ?_, ⟨c1, fun d e he _ => c3 d e he, ?_, hsame.ready a4, fun p => ?_⟩, b3.trans a3.root, fun p hp => hsub p ((hsame.cells p).1 hp),
        fun hf => hsame.full (hfull hf)⟩
      · simp only [finish, deleteBad, e1, Option.bind_some, b1, Option.map_some]
      · exact hsame.balanced (hb.sub a3.root hsub)
      · rw [hsame.bent, c2, b6]
    · right
      refine ⟨by omega, ?_⟩
      simp only [finish, deleteBad, e1, Option.bind_some, b1, Option.map_some, Option.map_none]
  · right
    refine ⟨by omega, ?_⟩
    simp only [finish, deleteBad, e1, Option.bind_some]

/-! ### `update` -/

theorem Consistent.records {st st' : St nd} (h : Consistent st) (hs : ∀ d, ∀ e ∈ st.els d, e.tree ≠ none → e.record ≠ 2) (hr : st'.root = st.root)
    (hmap : ∀ d, (st'.els d).map (·.tree) = (st.els d).map (·.tree)) : Consistent st' := by
  have key : ∀ d, ∀ e' ∈ st'.els d, ∃ e ∈ st.els d, e.tree = e'.tree := by
    intro d e' he'
    have : e'.tree ∈ (st'.els d).map (·.tree) := List.mem_map.2 ⟨e', he', rfl⟩
    rw [hmap] at this
    obtain ⟨e, he, ht⟩ := List.mem_map.1 this
    exact ⟨e, he, ht⟩
  refine ⟨by rw [hr]; exact h.reach, fun d e' he' p ht => ?_, ?_, fun d e' he' p ht _ => ?_⟩
  · obtain ⟨e, he, hte⟩ := key d e' he'
    rw [hr]; exact h.valid d e he p (hte.trans ht)
  · rw [all_trees, hmap, hmap, ← all_trees]; exact h.uniq
  · obtain ⟨e, he, hte⟩ := key d e' he'
    rw [hr]; exact h.leaf d e he p (hte.trans ht) (hs d e he (by rw [hte, ht]; simp))

theorem Requests.ok {st r : St nd} (hq : Requests st r) (h : Consistent st) (hs : ∀ d, ∀ e ∈ st.els d, e.tree ≠ none → e.record = 0) :
    Consistent r ∧ NoToggle r ∧ (Full st → Full r) := by
  refine ⟨h.records (fun d e he ht => by rw [hs d e he ht]; decide) hq.root hq.trees, fun d e he => ?_, fun hf q hl => ?_⟩
  · rcases hq.records d e he with h | h | h <;> rw [h] <;> decide
  · rw [hq.root] at hl
    obtain ⟨d, e, he, ht, -⟩ := hf q hl
    have : e.tree ∈ (st.els d).map (·.tree) := List.mem_map.2 ⟨e, he, rfl⟩
    rw [← hq.trees] at this
    obtain ⟨e', he', ht'⟩ := List.mem_map.1 this
    exact ⟨d, e', he', ht'.trans ht, by rcases hq.records d e' he' with h | h | h <;> rw [h] <;> decide⟩

theorem refine_both {st : St nd} (h : Consistent st) (surf : Tree nd → Bool) :
    ∃ s1 s2, refineByRecord surf false (st.els false).length st = some s1 ∧ refineByRecord surf true (st.els true).length s1 = some s2 ∧ Consistent s2 ∧
      (∀ d, s2.els d = (st.els d).map killed ++ (st.els d).flatMap (bornOf nd)) ∧ (∀ q, Present st.root q → Present s2.root q) ∧
      (Geometric surf → StatusKept surf st.root s2.root) := by
  obtain ⟨s1, a1, a2, a3, a4, a5, a6⟩ := refineByRecord_ok h surf false
  obtain ⟨s2, b1, b2, b3, b4, b5, b6⟩ := refineByRecord_ok a2 surf true
  simp only [Bool.not_false, Bool.not_true] at a3 b3
  rw [a3] at b1 b4
  refine ⟨s1, s2, a1, b1, b2, fun d => ?_, fun q hq => b5 q (a5 q hq), fun hg => (a6 hg).trans (b6 hg)⟩
  cases d
  · rw [b3, a4]
  · exact b4

/-- The leaves of a finer tree. -/
theorem leaf_above {t t' : Tree nd} (h : Reachable t) (h' : Reachable t') (hp : ∀ q, Present t q → Present t' q) {q : Path} (hq : IsLeafAt t' q) :
    ∃ p, IsLeafAt t p ∧ p <+: q := by
  rcases present_or_leaf h h' q (IsLeafAt.present hq) with ⟨c, hc⟩ | ⟨r, hr, hrq⟩
  · by_cases hl : c.children = []
    · exact ⟨q, ⟨c, hc, hl⟩, List.prefix_refl _⟩
    · exfalso
      have : Present t (q ++ [0]) := (children_of h hc hl 0).2 (by positivity)
      have := IsLeafAt.no_ext hq (hp _ this) (List.prefix_append _ _)
      simp at this
  · exact ⟨r, hr, hrq⟩

theorem refine_full {st s2 : St nd} (h : Consistent st) (h2 : Consistent s2) (hels : ∀ d, s2.els d = (st.els d).map killed ++ (st.els d).flatMap (bornOf nd))
    (hp : ∀ q, Present st.root q → Present s2.root q) (hf : Full st) : Full s2 := by
  intro q hq
  obtain ⟨p, hpl, hpq⟩ := leaf_above h.reach h2.reach hp hq
  obtain ⟨d, e, he, ht, hr⟩ := hf p hpl
  by_cases h1 : e.record = 1
  · have hkid : ∀ i < 2 ^ nd, Exists s2 (p ++ [i]) := by
      intro i hi
      refine ⟨d, ⟨some (p ++ [i]), 0, false⟩, ?_, rfl, by simp⟩
      rw [hels, List.mem_append]
      refine .inr (List.mem_flatMap.2 ⟨e, he, ?_⟩)
      simp only [bornOf, if_pos h1, ht, Option.elim_some, List.mem_map]
      exact ⟨p ++ [i], mem_kids.2 ⟨i, hi, rfl⟩, rfl⟩
    obtain ⟨r, rfl⟩ := hpq
    cases r with
    | nil =>
      exfalso
      have := IsLeafAt.no_ext hq (IsLeafAt.present ((hkid 0 (by positivity)).leaf h2)) (by simp)
      simp at this
    | cons i r =>
      have hpi : Present s2.root (p ++ [i]) := present_prefix (IsLeafAt.present hq) (by simp)
      have hi := present_index h2.reach hpi
      have := IsLeafAt.no_ext ((hkid i hi).leaf h2) (IsLeafAt.present hq) (by simp)
      rw [this]; exact hkid i hi
  · have hx : Exists s2 p := by
      refine ⟨d, e, ?_, ht, hr⟩
      rw [hels, List.mem_append]
      exact .inl (List.mem_map.2 ⟨e, he, by simp [killed, h1]⟩)
    rw [IsLeafAt.no_ext (hx.leaf h2) (IsLeafAt.present hq) hpq]; exact hx

theorem Refines.full {st st' : St nd} (h : Consistent st) (h' : Consistent st') (hr : Refines st st') (hf : Full st) : Full st' := by
  intro q hq
  rcases present_or_leaf h.reach h'.reach q (IsLeafAt.present hq) with hp | ⟨p, hpl, hpq⟩
  · obtain ⟨p, hpl, hpq⟩ := leaf_below h.reach hp
    obtain ⟨c, hc⟩ := (hr.1 p (hf p hpl)).1
    have : p = q := IsLeafAt.no_ext hq ⟨c, hc⟩ hpq
    subst this
    exact (hr.1 p (hf p hpl)).2 p hq (List.prefix_refl _)
  · exact (hr.1 p (hf p hpl)).2 q hq hpq

theorem Rep.full {st st' : St nd} {P D : Path → Prop} (hr : Rep st st' P D) (hf : Full st) : Full st' := by
  intro q hq
  rcases (hr.leaf q).1 hq with hP | ⟨hl, hn⟩
  · obtain ⟨-, d, he⟩ := (hr.ats q _).2 (.inl ⟨hP, rfl⟩)
    exact ⟨d, _, he, rfl, by simp⟩
  · obtain ⟨d, e, he, ht, h2⟩ := hf q hl
    by_cases hD : D q
    · obtain ⟨h1, d', he'⟩ := (hr.ats q _).2 (.inr ⟨hn, .inr ⟨hD, e, ⟨ht, d, he⟩, rfl⟩⟩)
      exact ⟨d', _, he', h1, by simp⟩
    · obtain ⟨h1, d', he'⟩ := (hr.ats q _).2 (.inr ⟨hn, .inl ⟨hD, ht, d, he⟩⟩)
      exact ⟨d', _, he', h1, h2⟩

theorem drop_unflood_ok {st : St nd} (h : Consistent st) (n : Bool → Nat) : Consistent (unflood n (dropRequests st)) ∧
    (NoToggle st → NoToggle (unflood n (dropRequests st))) ∧
    ((∀ d, ∀ e ∈ st.els d, e.tree ≠ none → e.record = -1 ∨ e.record = 0 ∨ e.record = 2) → NoRequests (unflood n (dropRequests st))) := by
  have hat : ∀ (d : Bool) (i : Nat) (e' : El), ((unflood n (dropRequests st)).els d)[i]? = some e' → ∃ e : El, (st.els d)[i]? = some e ∧ e'.tree = e.tree ∧
      (e'.record = 2 ∨ (e.record = -1 ∧ e'.record = 0) ∨ (e.record ≠ -1 ∧ e'.record = e.record)) := by
    intro d i e' he'
    simp only [unflood, dropRequests, List.getElem?_mapIdx, List.getElem?_map] at he'
    cases hi : (st.els d)[i]? with
    | none => rw [hi] at he'; simp at he'
    | some e =>
      rw [hi] at he'
      simp only [Option.map_some, Option.some.injEq] at he'
      refine ⟨e, rfl, ?_⟩
      by_cases h1 : e.record = -1
      · simp only [h1, if_true] at he'
        split at he' <;> subst he' <;> simp [h1]
      · simp only [h1, if_false] at he'
        split at he' <;> subst he' <;> simp [h1]
  refine ⟨h.update rfl (fun d => ?_) ?_, ?_, ?_⟩
  · simp only [unflood, dropRequests]
    apply List.ext_getElem?
    intro i
    simp only [List.getElem?_map, List.getElem?_mapIdx]
    cases (st.els d)[i]? with
    | none => rfl
    | some e =>
      simp only [Option.map_some, Option.some.injEq]
      by_cases h1 : e.record = -1
      · simp only [h1, if_true]; split <;> rfl
      · simp only [h1, if_false]; split <;> rfl
  · intro d i e e' h1 h2 h3
    obtain ⟨x, hx, -, hr⟩ := hat d i e' h2
    rw [h1] at hx; simp only [Option.some.injEq] at hx; subst hx
    omega
  · intro h3 d e' he'
    obtain ⟨i, hi⟩ := List.mem_iff_getElem?.1 he'
    obtain ⟨e, he, -, hr⟩ := hat d i e' hi
    have := h3 d e (List.mem_of_getElem? he)
    omega
  · intro hq d e' he' ht
    obtain ⟨i, hi⟩ := List.mem_iff_getElem?.1 he'
    obtain ⟨e, he, h1, hr⟩ := hat d i e' hi
    have := hq d e (List.mem_of_getElem? he) (by rw [← h1]; exact ht)
    omega

theorem drop_unflood_full {st : St nd} (n : Bool → Nat) (hs : ∀ q c, get q st.root = some c → c.status = -1) (hf : Full st) : Full (unflood n (dropRequests st)) := by
  intro q hq
  obtain ⟨d, e, he, ht, hr⟩ := hf q hq
  obtain ⟨i, hi⟩ := List.mem_iff_getElem?.1 he
  have hk : ((get q st.root).any fun c => c.status == 0) = false := by
    cases hg : get q st.root with
    | none => rfl
    | some c =>
      have := hs q c hg
      simp [this]
  have hi' : ((unflood n (dropRequests st)).els d)[i]? = some (if e.record = -1 then { e with record := 0 } else e) := by
    simp only [unflood, dropRequests, List.getElem?_mapIdx, List.getElem?_map, hi, Option.map_some]
    by_cases h1 : e.record = -1 <;> simp [h1, ht, hk]
  refine ⟨d, _, List.mem_of_getElem? hi', ?_, ?_⟩
  · split <;> exact ht
  · split
    · simp
    · exact hr

theorem foldlM_same {α σ : Type} {f : σ → α → Option σ} {s : σ} : ∀ {l : List α}, (∀ x ∈ l, f s x = some s) → l.foldlM f s = some s
  | [], _ => rfl
  | x :: l, h => by rw [List.foldlM_cons, h x (by simp)]; exact foldlM_same fun y hy => h y (by simp [hy])

/-- Nothing is left to be filled if there are elements everywhere. -/
theorem fillPass_full {st : St nd} (h : Consistent st) (hf : Full st) (surf : Tree nd → Bool) : fillPass surf st = some (st, false) := by
  have h1 : (handles st).foldlM (syncOne surf) (st, false) = some (st, false) := by
    refine foldlM_same fun x hx => ?_
    have hi := List.getElem?_eq_getElem (mem_handles.1 hx)
    generalize (st.els x.1)[x.2]'(mem_handles.1 hx) = e at hi
    simp only [syncOne, hi, Option.bind_some]
    cases ht : e.tree with
    | none => rfl
    | some p =>
      simp only
      split
      · rename_i hr
        have hp : Exists st p := ⟨x.1, e, List.mem_of_getElem? hi, ht, hr⟩
        obtain ⟨a, ha, -⟩ := hp.leaf h
        rw [level_eq h ha, Option.bind_some]
        refine foldlM_same fun i _ => ?_
        simp only [syncFace, ha, Option.bind_some]
        cases hn : findNeighbor st.root p (direction nd i) with
        | none => rfl
        | some q =>
          obtain ⟨b, hb, hbl, -⟩ := Tree.find_neighbor_borders h.reach ha _ (isDir_direction i) hn
          simp only
          rw [if_pos ((exists_iff h q).2 (hf q ⟨b, hb, hbl⟩))]
      · rfl
  have h2 : ∀ d, (List.range (st.els d).length).foldlM (fillElem d) (st, false) = some (st, false) := by
    intro d
    refine foldlM_same fun j hj => ?_
    have hi := List.getElem?_eq_getElem (List.mem_range.1 hj)
    generalize (st.els d)[j]'(List.mem_range.1 hj) = e at hi
    simp only [fillElem, hi, Option.bind_some]
    cases ht : e.tree with
    | none => rfl
    | some p =>
      simp only
      split
      · rename_i hr
        have hp : Exists st p := ⟨d, e, List.mem_of_getElem? hi, ht, hr⟩
        obtain ⟨a, ha, -⟩ := hp.leaf h
        refine foldlM_same fun i _ => ?_
        obtain ⟨l, e1, -, e2⟩ := Tree.find_neighbors_exact h.reach ha _ (isDir_direction (nd := nd) i)
        simp only [fillFace, e1, Option.bind_some]
        refine foldlM_same fun q hq => ?_
        obtain ⟨b, hb, hbl, -⟩ := (e2 q).1 hq
        simp only [fillOne]
        rw [if_pos ((exists_iff h q).2 (hf q ⟨b, hb, hbl⟩))]
      · rfl
  simp only [fillPass, h1, Option.bind_some, h2]

theorem hits_geometric (S : Option (Surface nd)) : Geometric (hits S) := by
  cases S with
  | none => intro _ _ _ _; rfl
  | some S => exact S.geom

/-- The state after refinement and unrefinement. -/
theorem start_ok {S : Option (Surface nd)} {r : St nd} (hc : Consistent r) (h3 : NoToggle r) (hrec : ∀ d, ∀ e ∈ r.els d, e.record = -1 ∨ e.record = 0 ∨ e.record = 1) :
    ∃ s1 s2 s3 n0, refineByRecord (hits S) false (r.els false).length r = some s1 ∧ refineByRecord (hits S) true (r.els true).length s1 = some s2 ∧
      repeatPass (fun _ => unrefPass fun d => (r.els d).length) (fun _ _ => []) 0 n0 s2 = some (some s3) ∧ Consistent s3 ∧ NoToggle s3 ∧
      (∀ d, ∀ e ∈ s3.els d, e.tree ≠ none → e.record = -1 ∨ e.record = 0 ∨ e.record = 2) ∧ (Full r → Full s3) ∧
      StatusKept (hits S) r.root s3.root := by
  obtain ⟨s1, s2, a1, a2, a3, a4, a5, a6⟩ := refine_both hc (hits S)
  obtain ⟨s3, P, D, b1, b2, b3, b4, -⟩ := unref_loop (n := fun d => (r.els d).length) a3 (asks s2 + 1) 0 s2 _ _ a3 (.refl s2)
    (fun d => by rw [a4]; simp) (by omega)
  have hr2 : ∀ d, ∀ e ∈ s2.els d, e.record ≠ 3 ∧ (e.tree ≠ none → e.record = -1 ∨ e.record = 0 ∨ e.record = 2) := by
    intro d e he
    rw [a4, List.mem_append] at he
    rcases he with he | he
    · obtain ⟨x, hx, rfl⟩ := List.mem_map.1 he
      have := hrec d x hx
      simp only [killed]
      by_cases hk : x.record = 1 ∧ x.tree ≠ none
      · simp [hk]
      · rw [if_neg hk]
        refine ⟨by omega, fun ht => ?_⟩
        rcases this with g | g | g
        · exact .inl g
        · exact .inr (.inl g)
        · exact absurd ⟨g, ht⟩ hk
    · obtain ⟨x, hx, hb⟩ := List.mem_flatMap.1 he
      rw [bornOf_zero hb]; simp
  refine ⟨s1, s2, s3, _, a1, a2, b1, b2, b4.no3 fun d e he => (hr2 d e he).1, ?_, fun hf => b3.full (refine_full hc a3 a4 a5 hf), ?_⟩
  · intro d e he ht
    obtain ⟨i, hi⟩ := List.mem_iff_getElem?.1 he
    rcases b4.els d i e hi with ⟨-, h1⟩ | ⟨x, hx, h1, h2⟩
    · omega
    · rcases h1 with h1 | h1
      · exact absurd h1 ht
      · have := (hr2 d x (List.mem_of_getElem? hx)).2 (by rw [← h1]; exact ht)
        omega
  · refine (a6 (hits_geometric S)).trans fun P hP _ hk q c' hq => ?_
    obtain ⟨c, hc, hcs⟩ := statusAt_some.1 (b4.stat q c' hq)
    obtain ⟨g1, g2⟩ := cell_eq a3.reach b2.reach hc hq
    rw [← hcs]; exact hP c c' _ g1 g2 (hk q c hc)

theorem update_unfold {surf : Tree nd → Bool} {aw : Tree nd → (Fin nd → Int) → Bool} {o : Orders nd} {fuel : Nat} {r s1 s2 : St nd}
    (e1 : refineByRecord surf false (r.els false).length r = some s1) (e2 : refineByRecord surf true (r.els true).length s1 = some s2) :
    update surf aw o fuel r = (repeatPass (fun _ => unrefPass fun d => (r.els d).length) (fun _ _ => []) 0 fuel s2).bind fun x => match x with
      | none => some none
      | some s3 => (repeatPass (fun _ => fillPass surf) (fun _ _ => []) 0 fuel (unflood (fun d => (r.els d).length) (dropRequests s3))).bind fun x => match x with
        | none => some none
        | some s4 => (smooth surf o.smooth fuel s4).bind fun x => match x with
          | none => some none
          | some s5 => finish aw o fuel s5 := by
  simp only [update, adapt, e1, e2, Option.bind_some]
  cases repeatPass (fun _ => unrefPass fun d => (r.els d).length) (fun _ _ => []) 0 fuel s2 with
  | none => rfl
  | some x => cases x with
    | none => rfl
    | some s3 =>
      simp only [Option.bind_some]
      cases repeatPass (fun _ => fillPass surf) (fun _ _ => []) 0 fuel (unflood (fun d => (r.els d).length) (dropRequests s3)) with
      | none => rfl
      | some x => cases x with
        | none => rfl
        | some s4 =>
          simp only [Option.bind_some]
          cases smooth surf o.smooth fuel s4 with
          | none => rfl
          | some x => cases x with
            | none => rfl
            | some s5 => rfl

/-- Levelling and what follows. -/
theorem tail_ok {S : Option (Surface nd)} {o : Orders nd} (ho : o.Fair) {st : St nd} (h : Consistent st) (hn : NoRequests st) (h3 : NoToggle st) :
    ∃ n0, ∀ fuel, (∃ s4 s, smooth (hits S) o.smooth fuel st = some (some s4) ∧ finish (away S) o fuel s4 = some (some s) ∧ Fit S s ∧ (Full st → Full s) ∧
        StatusKept (hits S) st.root s.root) ∨
      (fuel < n0 ∧ ((smooth (hits S) o.smooth fuel st).bind fun x => match x with
          | none => some none
          | some s5 => finish (away S) o fuel s5) = some none) := by
  obtain ⟨L, hL⟩ := exists_depth st
  obtain ⟨s4, a1, a2, a3, a4, a5, -, -, -, a8, a9⟩ := repeatPass_smooth (hits S) ho.smooth L (weight st L + 1) 0 st h hn hL (by omega)
  obtain ⟨n1, hfin⟩ := finish_ok (S := S) ho a2 a3 (a8 h3) a4
  refine ⟨max (weight st L + 1) n1, fun fuel => ?_⟩
  rcases repeatPass_total a1 fuel with e1 | ⟨hlt, e1⟩
  · rcases hfin fuel with ⟨s, b1, b2, b3, -, b4⟩ | ⟨hlt, b1⟩
    · exact .inl ⟨s4, s, e1, b1, b2, fun hf => b4 (a5.full h a2 hf), by rw [b3]; exact a9 (hits_geometric S)⟩
    · refine .inr ⟨by omega, ?_⟩
      simp only [smooth, e1, Option.bind_some, b1]
  · refine .inr ⟨by omega, ?_⟩
    simp only [smooth, e1, Option.bind_some]

theorem update_ok {S : Option (Surface nd)} {o : Orders nd} (ho : o.Fair) {r : St nd} (hc : Consistent r) (h3 : NoToggle r)
    (hrec : ∀ d, ∀ e ∈ r.els d, e.record = -1 ∨ e.record = 0 ∨ e.record = 1) (fuel : Nat) :
    (∃ s, update (hits S) (away S) o fuel r = some (some s) ∧ Fit S s) ∨ update (hits S) (away S) o fuel r = some none := by
  obtain ⟨s1, s2, s3, n0, a1, a2, a3, a4, a5, a6, -⟩ := start_ok (S := S) hc h3 hrec
  rw [update_unfold a1 a2]
  rcases repeatPass_total a3 fuel with e1 | ⟨-, e1⟩
  · rw [e1]
    simp only [Option.bind_some]
    obtain ⟨b1, b2, b3⟩ := drop_unflood_ok a4 (fun d => (r.els d).length)
    obtain ⟨x, c1, c2⟩ := fill_loop (hits_geometric S) fuel 0 _ b1
    rw [c1]
    cases x with
    | none => exact .inr rfl
    | some s4 =>
      obtain ⟨c3, -⟩ := c2 s4 rfl
      obtain ⟨n1, ht⟩ := tail_ok (S := S) ho c3.cons (c3.noreq (b3 a6)) (c3.no3 (b2 a5))
      simp only [Option.bind_some]
      rcases ht fuel with ⟨s5, s, d1, d2, d3, -⟩ | ⟨-, d1⟩
      · left
        refine ⟨s, ?_, d3⟩
        rw [d1]; exact d2
      · exact .inr d1
  · rw [e1]; exact .inr rfl

theorem update_full {o : Orders nd} (ho : o.Fair) {r : St nd} (hc : Consistent r) (h3 : NoToggle r)
    (hrec : ∀ d, ∀ e ∈ r.els d, e.record = -1 ∨ e.record = 0 ∨ e.record = 1) (hf : Full r) (hk : ∀ q c, get q r.root = some c → c.status = -1) :
    ∃ n0, ∀ fuel, (∃ s, update (hits none) (away none) o fuel r = some (some s) ∧ Fit none s ∧ Full s ∧ ∀ q c, get q s.root = some c → c.status = -1) ∨
      (fuel < n0 ∧ update (hits none) (away none) o fuel r = some none) := by
  obtain ⟨s1, s2, s3, n0, a1, a2, a3, a4, a5, a6, a7, a8⟩ := start_ok (S := none) hc h3 hrec
  obtain ⟨b1, b2, b3⟩ := drop_unflood_ok a4 (fun d => (r.els d).length)
  have h1 : ∀ q c, get q s3.root = some c → c.status = -1 := a8 (fun _ n => n = -1) (fun _ _ _ _ _ => id) (fun _ => rfl) hk
  have hf4 := drop_unflood_full (fun d => (r.els d).length) h1 (a7 hf)
  obtain ⟨n1, ht⟩ := tail_ok (S := none) ho b1 (b3 a6) (b2 a5)
  refine ⟨max (max n0 n1) 1, fun fuel => ?_⟩
  rw [update_unfold a1 a2]
  rcases repeatPass_total a3 fuel with e1 | ⟨hlt, e1⟩
  · rw [e1]
    simp only [Option.bind_some]
    cases fuel with
    | zero => exact .inr ⟨by omega, rfl⟩
    | succ k =>
      have hfill : repeatPass (fun _ => fillPass (hits none)) (fun _ _ => []) 0 (k + 1) (unflood (fun d => (r.els d).length) (dropRequests s3)) =
          some (some (unflood (fun d => (r.els d).length) (dropRequests s3))) := by
        simp [repeatPass, fillPass_full b1 hf4]
      rw [hfill]
      simp only [Option.bind_some]
      rcases ht (k + 1) with ⟨s5, s, d1, d2, d3, d4, d5⟩ | ⟨hlt, d1⟩
      · left
        refine ⟨s, by rw [d1]; exact d2, d3, d4 hf4, d5 (fun _ n => n = -1) (fun _ _ _ _ _ => id) (fun _ => rfl) h1⟩
      · exact .inr ⟨by omega, d1⟩
  · rw [e1]; exact .inr ⟨by omega, rfl⟩

end Hexed.Adapt
