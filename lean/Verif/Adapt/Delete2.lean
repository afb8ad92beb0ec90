import Verif.Adapt.Ready2
import Mathlib.Data.Finset.Basic

set_option autoImplicit false
set_option linter.unusedVariables false

namespace Hexed.Adapt
open Hexed.Tree (Path get modify refineNode unrefineNode setStatusNode findNeighbors findNeighbor IsDir Borders IsLeafAt Reachable RootWF)

variable {nd : Nat}

/-! ### Nothing happens to a mesh that passes the tests -/

theorem foldlM_id {α σ : Type} (f : σ → α → Option σ) (s : σ) : ∀ l : List α, (∀ x ∈ l, f s x = some s) → l.foldlM f s = some s := by
  intro l
  induction l with
  | nil => intro _; rfl
  | cons x l ih =>
    intro h
    rw [List.foldlM_cons, h x (by simp)]
    exact ih (fun y hy => h y (by simp [hy]))

section
variable {s : St nd × Bool} (h : Consistent s.1) {p : Path} (hp : Present s.1.root p)
include h

theorem killDiag_id (rl : Nat) {l : List Path} (hl : ∀ n ∈ l, Present s.1.root n) (hq : QuietDiag s.1 rl l) : killDiag p rl s l = some s := by
  refine foldlM_id _ s l fun n hn => ?_
  by_cases hx : exists_ s.1 n = true
  · obtain ⟨c, hc⟩ := hl n hn
    have := hq n hn hx
    rw [if_pos hx, level_eq h hc, Option.map_some, if_neg (by omega)]
  · rw [if_neg hx]

include hp

theorem faceJ_id (rl i : Nat) (ex : List Bool) (js : List Nat) (hq : ∀ j ∈ js, QuietJ s.1 p rl i ex j) : faceJ p rl i ex s js = some s := by
  refine foldlM_id _ s js fun j hj => ?_
  have hd : IsDir (withFace (direction nd i) j) := isDir_withFace (isDir_direction i) j
  obtain ⟨h1, h2⟩ := N_eq h.reach hp hd
  obtain ⟨q1, q2⟩ := hq j hj
  by_cases hx : (isExp ex i || isExp ex j) = true
  · rw [if_pos hx]
    simp only [h1, Option.bind_some]
    by_cases hb : (isExp ex i && isExp ex j) = true
    · rw [if_pos hb]
      simp only [Bool.and_eq_true] at hb
      obtain ⟨q3, q4⟩ := q1 hb.1 hb.2
      rw [killDiag_id h rl h2 q3, Option.bind_some]
      refine foldlM_id _ s _ fun k hk => ?_
      by_cases hxk : isExp ex k = true
      · obtain ⟨g1, g2⟩ := N_eq h.reach hp (isDir_withFace hd k)
        rw [if_pos hxk, g1, Option.bind_some, killDiag_id h rl g2 (q4 k hk hxk)]
      · rw [if_neg hxk]
    · rw [if_neg hb]
      by_cases h3 : nd = 3
      · rw [if_pos h3]
        have hne : isExp ex i ≠ isExp ex j := by
          intro he
          rw [he] at hx hb
          simp at hx hb
          rw [hx] at hb; simp at hb
        rw [q2 hne h3]; rfl
      · rw [if_neg h3]
  · rw [if_neg hx]

theorem faces_id (rl : Nat) : ∀ k, (∀ i < k, QuietI s.1 p rl i) → (List.range k).foldlM (faceI p rl) (s, []) = some (s, expList s.1 p k) := by
  intro k
  induction k with
  | zero => intro _; rfl
  | succ k ih =>
    intro hq
    rw [List.range_succ, List.foldlM_append, ih (fun i hi => hq i (by omega))]
    obtain ⟨h1, h2⟩ := N_eq h.reach hp (isDir_direction (nd := nd) k)
    obtain ⟨q1, q2⟩ := hq k (by omega)
    have e : expList s.1 p k ++ [!(N s.1.root p (direction nd k)).all (exists_ s.1)] = expList s.1 p (k + 1) := by
      simp [expList, List.range_succ, expAt]
    simp only [Option.bind_eq_bind, Option.bind_some, List.foldlM_cons, List.foldlM_nil, faceI, h1, q1, Bool.and_false, Bool.false_eq_true, if_false]
    rw [e, faceJ_id h hp rl k (expList s.1 p (k + 1)) _ (fun j hj => q2 j (by simpa using hj))]
    rfl

end

theorem deletePass_id {away : Tree nd → (Fin nd → Int) → Bool} {st : St nd} (h : Consistent st) (hr : Ready away st) {order : List (Bool × Nat)}
    (ho : ∀ x ∈ order, x.2 < (st.els x.1).length) : deletePass away order st = some (st, false) := by
  refine foldlM_id _ _ order fun x hx => ?_
  have he : (st.els x.1)[x.2]? = some ((st.els x.1)[x.2]'(ho x hx)) := List.getElem?_eq_getElem _
  set e := (st.els x.1)[x.2]'(ho x hx)
  simp only [deleteOne, he, Option.bind_some]
  cases ht : e.tree with
  | none => rfl
  | some p =>
    simp only
    by_cases hrec : e.record = 2
    · rw [if_neg (by simp [hrec])]
    · rw [if_pos hrec]
      obtain ⟨c, hc⟩ := h.valid x.1 e (List.mem_of_getElem? he) p ht
      obtain ⟨q1, q2⟩ := (quiet_iff away h hc).2 ((ready_iff h).1 hr p c ⟨x.1, e, List.mem_of_getElem? he, ht, hrec⟩ hc)
      rw [hc, Option.bind_some, faces_id (s := (st, false)) h ⟨c, hc⟩ c.rl (2 * nd) q1, Option.map_some]
      simp only [q2, Bool.false_eq_true, if_false]

/-! ### The loop -/

open Classical in
/-- The number of existing elements. -/
noncomputable def size (st : St nd) : Nat := ((st.all.filterMap (·.tree)).toFinset.filter (Exists st)).card

theorem size_lt {st st' : St nd} (h : Evo st st') (hs : Strict st st') : size st' < size st := by
  classical
  unfold size
  have hall : st'.all.filterMap (·.tree) = st.all.filterMap (·.tree) := by rw [all_trees, h.map, h.map, ← all_trees]
  rw [hall]
  apply Finset.card_lt_card
  rw [Finset.ssubset_iff_of_subset]
  · obtain ⟨q, h1, h2⟩ := hs
    refine ⟨q, ?_, ?_⟩
    · obtain ⟨d, e, he, ht, hr⟩ := h1
      rw [Finset.mem_filter, List.mem_toFinset, List.mem_filterMap]
      exact ⟨⟨e, mem_all.2 ⟨d, he⟩, ht⟩, d, e, he, ht, hr⟩
    · rw [Finset.mem_filter]; exact fun hh => h2 hh.2
  · intro q hq
    rw [Finset.mem_filter] at hq ⊢
    exact ⟨hq.1, h.exists hq.2⟩

theorem repeatPass_delete (away : Tree nd → (Fin nd → Int) → Bool) {order : Nat → St nd → List (Bool × Nat)} (ho : Schedule order) :
    ∀ (n k : Nat) (st : St nd), Consistent st → size st < n →
    ∃ st', repeatPass (deletePass away) order k n st = some (some st') ∧ Consistent st' ∧ Evo st st' ∧ Ready away st' := by
  intro n
  induction n with
  | zero => intro k st _ h; omega
  | succ n ih =>
    intro k st h hw
    obtain ⟨s, h1, h2, h3⟩ := deletePass_evo away h (order := order k st) (fun x => (ho k st).mem_iff.trans mem_handles)
    simp only [repeatPass, h1, Option.bind_some]
    by_cases hb : s.2 = true
    · rw [if_pos hb]
      have hs : Strict st s.1 := by
        rcases h2.2 with he | ⟨-, hs⟩
        · rw [he] at hb; simp at hb
        · exact hs
      have : size s.1 < size st := size_lt h2.1 hs
      obtain ⟨st', g1, g2, g3, g4⟩ := ih (k + 1) s.1 (h2.1.cons h) (by omega)
      exact ⟨st', g1, g2, h2.1.trans g3, g4⟩
    · rw [if_neg hb]
      obtain ⟨e1, h4⟩ := h3 (by simpa using hb)
      refine ⟨s.1, rfl, h2.1.cons h, h2.1, ?_⟩
      rw [e1, ready_iff h]
      intro p a hp ha
      exact (quiet_iff away h ha).1 (h4 p a hp ha)

end Hexed.Adapt
