import Verif.Extrude.Spec
import Mathlib.Data.List.Pairwise
import Mathlib.Data.List.Nodup
import Mathlib.Data.List.GetD
import Mathlib.Algebra.BigOperators.Group.List.Basic
set_option autoImplicit false
set_option linter.unusedVariables false

/-!
# Lemmas about the search for pairs
-/

namespace Hexed.Extrude

variable {ok : Rec → Rec → Bool}

theorem firstMatch_some {l : List Rec} {i j : Nat} (h : firstMatch ok l i = some j) : i < j ∧ j < l.length ∧ ok (l.getD i default) (l.getD j default) = true := by
  have h1 := List.find?_some h
  have h2 := List.mem_of_find?_eq_some h
  simp only [Bool.and_eq_true, decide_eq_true_eq] at h1
  exact ⟨h1.1, List.mem_range.1 h2, h1.2⟩

theorem firstMatch_none {l : List Rec} {i : Nat} (h : firstMatch ok l i = none) {j : Nat} (h1 : i < j) (h2 : j < l.length) : ok (l.getD i default) (l.getD j default) = false := by
  have := List.find?_eq_none.1 h j (List.mem_range.2 h2)
  simpa [h1] using this

theorem served_cons (p : Rec × Rec) (l : List (Rec × Rec)) : served (p :: l) = p.1 :: p.2 :: served l := rfl
theorem served_append (l l' : List (Rec × Rec)) : served (l ++ l') = served l ++ served l' := List.flatMap_append

theorem erase_two {pre tl : List Rec} {r : Rec} {j : Nat} (h1 : pre.length < j) (h2 : j < (pre ++ r :: tl).length) :
    ∃ k, k < tl.length ∧ (pre ++ r :: tl).getD j default = tl.getD k default ∧ ((pre ++ r :: tl).eraseIdx j).eraseIdx pre.length = pre ++ tl.eraseIdx k := by
  obtain ⟨k, rfl⟩ : ∃ k, j = pre.length + (k + 1) := ⟨j - pre.length - 1, by omega⟩
  rw [List.length_append, List.length_cons] at h2
  refine ⟨k, by omega, ?_, ?_⟩
  · rw [List.getD_append_right _ _ _ _ (by omega), show pre.length + (k + 1) - pre.length = k + 1 by omega, List.getD_cons_succ]
  · rw [List.eraseIdx_append_of_length_le (by omega), show pre.length + (k + 1) - pre.length = k + 1 by omega, List.eraseIdx_cons_succ, List.eraseIdx_append_of_length_le le_rfl, Nat.sub_self, List.eraseIdx_cons_zero]

theorem getD_mid (pre tl : List Rec) (r : Rec) : (pre ++ r :: tl).getD pre.length default = r := by
  rw [List.getD_append_right _ _ _ _ le_rfl, Nat.sub_self, List.getD_cons_zero]

theorem getD_perm {tl : List Rec} {k : Nat} (h : k < tl.length) : (tl.getD k default :: tl.eraseIdx k).Perm tl := by
  rw [List.getD_eq_getElem _ _ h]
  exact List.getElem_cons_eraseIdx_perm h

/-- What the search for pairs at one vertex does. -/
theorem scan_spec : ∀ (fuel : Nat) (pre suf : List Rec), suf.length ≤ fuel → (∀ x ∈ pre, ∀ y ∈ suf, ok x y = false) → pre.Pairwise (fun x y => ok x y = false) →
    (scan ok fuel (pre ++ suf) pre.length).1.Pairwise (fun x y => ok x y = false) ∧
    ((scan ok fuel (pre ++ suf) pre.length).1 ++ served (scan ok fuel (pre ++ suf) pre.length).2).Perm (pre ++ suf) ∧
    ((scan ok fuel (pre ++ suf) pre.length).1).Sublist (pre ++ suf) ∧ ∀ p ∈ (scan ok fuel (pre ++ suf) pre.length).2, ok p.1 p.2 = true := by
  intro fuel
  induction fuel with
  | zero =>
    intro pre suf hf h1 h2
    have : suf = [] := List.length_eq_zero_iff.1 (by omega)
    subst this
    simp only [List.append_nil, scan]
    exact ⟨h2, by simp [served], List.Sublist.refl _, by simp⟩
  | succ fuel ih =>
    intro pre suf hf h1 h2
    cases suf with
    | nil =>
      simp only [List.append_nil, scan, lt_irrefl, if_false]
      exact ⟨h2, by simp [served], List.Sublist.refl _, by simp⟩
    | cons r tl =>
      rw [scan, if_pos (by simp)]
      cases hm : firstMatch ok (pre ++ r :: tl) pre.length with
      | none =>
        have key := ih (pre ++ [r]) tl (by simpa using hf) (fun x hx y hy => by
          rcases List.mem_append.1 hx with hx | hx
          · exact h1 x hx y (List.mem_cons_of_mem _ hy)
          · rw [List.mem_singleton.1 hx]
            obtain ⟨k, hk, rfl⟩ := List.mem_iff_getElem.1 hy
            have := firstMatch_none hm (j := pre.length + (k + 1)) (by omega) (by simp; omega)
            rw [getD_mid, List.getD_append_right _ _ _ _ (by omega), show pre.length + (k + 1) - pre.length = k + 1 by omega, List.getD_cons_succ, List.getD_eq_getElem _ _ hk] at this
            exact this) (List.pairwise_append.2 ⟨h2, List.pairwise_singleton _ _, fun x hx y hy => by rw [List.mem_singleton.1 hy]; exact h1 x hx r (by simp)⟩)
        simp only [List.append_assoc, List.singleton_append, List.length_append, List.length_singleton] at key
        exact key
      | some j =>
        obtain ⟨m1, m2, m3⟩ := firstMatch_some hm
        obtain ⟨k, hk, e1, e2⟩ := erase_two m1 m2
        simp only []
        rw [getD_mid] at m3
        rw [e1, e2, getD_mid]
        have hsub : ∀ y ∈ tl.eraseIdx k, y ∈ r :: tl := fun y hy => List.mem_cons_of_mem _ ((List.eraseIdx_sublist tl k).subset hy)
        obtain ⟨k1, k2, k3, k4⟩ := ih pre (tl.eraseIdx k) (by rw [List.length_eraseIdx_of_lt hk]; simp at hf; omega) (fun x hx y hy => h1 x hx y (hsub y hy)) h2
        refine ⟨k1, ?_, k3.trans (List.Sublist.append_left ((List.eraseIdx_sublist tl k).trans (List.sublist_cons_self _ _)) _), ?_⟩
        · rw [served_cons]
          have p1 := getD_perm hk
          refine (List.perm_append_comm.trans ?_ : (_ ++ (r :: tl.getD k default :: _)).Perm _)
          refine ((List.perm_append_comm.trans k2).cons _ |>.cons _).trans ?_
          refine List.Perm.trans (List.Perm.cons _ (List.perm_middle.symm)) ?_
          refine (List.perm_middle.symm).trans ?_
          exact (p1.cons r).append_left pre
        · intro p hp
          rcases List.mem_cons.1 hp with rfl | hp
          · rw [e1] at m3; exact m3
          · exact k4 p hp

theorem conforms_same {r s : Rec} : conforms alignedSame r s = true ↔ r.level = s.level ∧ Straight r s := by
  simp only [conforms, alignedSame, Straight, Bool.and_eq_true, beq_iff_eq, bne_iff_ne, ne_eq]
  constructor
  · rintro ⟨⟨⟨h1, h2⟩, h3⟩, h4⟩; exact ⟨h4.symm, h1, h2, h3⟩
  · rintro ⟨h4, h1, h2, h3⟩; exact ⟨⟨⟨h1, h2⟩, h3⟩, h4.symm⟩

theorem conforms_different {r s : Rec} : conforms alignedDifferent r s = true ↔ r.level = s.level ∧ Corner r s := by
  simp only [conforms, alignedDifferent, Corner, Bool.and_eq_true, beq_iff_eq]
  constructor
  · rintro ⟨⟨h1, h2⟩, h4⟩; exact ⟨h4.symm, h1, h2⟩
  · rintro ⟨h4, h1, h2⟩; exact ⟨⟨h1, h2⟩, h4.symm⟩

theorem Straight.symm {r s : Rec} (h : Straight r s) : Straight s r := ⟨h.1.symm, h.2.1.symm, h.2.2.symm⟩
theorem Corner.symm {r s : Rec} (h : Corner r s) : Corner s r := ⟨h.2, h.1⟩
theorem Mates.symm {r s : Rec} (h : Mates r s) : Mates s r := ⟨h.1.symm, h.2.elim (fun h => Or.inl h.symm) fun h => Or.inr h.symm⟩

end Hexed.Extrude
