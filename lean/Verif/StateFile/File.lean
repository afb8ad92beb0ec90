import Verif.StateFile.Spec
set_option autoImplicit false
set_option linter.unusedVariables false

/-!
# Lemmas about state files
-/

namespace Hexed.StateFile
open Hexed.Spatial
variable {α : Type}

theorem readLoop_length (f : DataSet α) (nv nq : Nat) : ∀ (i : Nat) (l : List (Row α)), (readLoop f nv nq i l).1.length = l.length
  | _, [] => rfl
  | i, row :: rest => by
    rw [readLoop]
    split
    · simp [readLoop_length f nv nq (i + 1) rest]
    · rfl

theorem readLoop_ok (f : DataSet α) (nv nq : Nat) : ∀ (i : Nat) (l : List (Row α)),
    (readLoop f nv nq i l).2 = true ↔ l = [] ∨ (i + l.length ≤ f.n_elem ∧ nv ≤ f.n_var ∧ nq ≤ f.n_qpoint)
  | _, [] => by simp [readLoop]
  | i, row :: rest => by
    have ih := readLoop_ok f nv nq (i + 1) rest
    rw [readLoop]
    by_cases h : f.contains i nv nq = true
    · rw [if_pos h]
      simp only [DataSet.contains, Bool.and_eq_true, decide_eq_true_eq] at h
      dsimp only
      rw [ih]
      cases rest with
      | nil => simp; omega
      | cons _ _ => simp; omega
    · rw [if_neg h]
      simp only [DataSet.contains, Bool.and_eq_true, decide_eq_true_eq] at h
      simp
      omega

theorem readLoop_get (f : DataSet α) (nv nq : Nat) : ∀ (i : Nat) (l : List (Row α)), (readLoop f nv nq i l).2 = true →
    ∀ (j : Nat) (row : Row α), l[j]? = some row → (readLoop f nv nq i l).1[j]? = some fun v q => if v < nv ∧ q < nq then f.cell (i + j) v q else row v q
  | _, [], _, j, row, h => by simp at h
  | i, r :: rest, hok, j, row, h => by
    rw [readLoop] at hok ⊢
    by_cases hc : f.contains i nv nq = true
    · rw [if_pos hc] at hok ⊢
      cases j with
      | zero => simp only [List.getElem?_cons_zero, Option.some.injEq] at h ⊢; subst h; rfl
      | succ j =>
        simp only [List.getElem?_cons_succ] at h ⊢
        rw [readLoop_get f nv nq (i + 1) rest hok j row h, show i + 1 + j = i + (j + 1) by omega]
    · rw [if_neg hc] at hok; cases hok

/-- Elements before the one at which reading fails have been overwritten, the others not. -/
theorem readLoop_partial (f : DataSet α) (nv nq : Nat) : ∀ (i : Nat) (l : List (Row α)) (j : Nat) (row : Row α), l[j]? = some row →
    (readLoop f nv nq i l).1[j]? = some fun v q => if (∀ k ≤ j, f.contains (i + k) nv nq = true) ∧ v < nv ∧ q < nq then f.cell (i + j) v q else row v q
  | _, [], j, row, h => by simp at h
  | i, r :: rest, j, row, h => by
    rw [readLoop]
    by_cases hc : f.contains i nv nq = true
    · rw [if_pos hc]
      cases j with
      | zero =>
        simp only [List.getElem?_cons_zero, Option.some.injEq] at h ⊢
        subst h
        funext v q
        congr 1
        simp [hc]
      | succ j =>
        simp only [List.getElem?_cons_succ] at h ⊢
        rw [readLoop_partial f nv nq (i + 1) rest j row h, show i + 1 + j = i + (j + 1) by omega]
        congr 1
        funext v q
        have e : (∀ k ≤ j, f.contains (i + 1 + k) nv nq = true) ↔ ∀ k ≤ j + 1, f.contains (i + k) nv nq = true := by
          constructor
          · intro h k hk
            cases k with
            | zero => exact hc
            | succ k => rw [show i + (k + 1) = i + 1 + k by omega]; exact h k (by omega)
          · intro h k hk
            rw [show i + 1 + k = i + (k + 1) by omega]; exact h (k + 1) (by omega)
        simp only [e]
    · rw [if_neg hc, h]
      congr 1
      funext v q
      rw [if_neg]
      rintro ⟨h, _⟩
      exact hc (h 0 (by omega))

theorem writeState_spec (fill : α) (nv nq : Nat) (elems : List (Row α)) :
    (writeState fill nv nq elems).n_elem = elems.length ∧ (writeState fill nv nq elems).n_var = nv ∧ (writeState fill nv nq elems).n_qpoint = nq ∧
    ∀ i row, elems[i]? = some row → ∀ v < nv, ∀ q < nq, (writeState fill nv nq elems).cell i v q = row v q := by
  have key : ∀ k ≤ elems.length, ∀ F, F = (List.range k).foldl (fun f i_elem => (elems[i_elem]?).elim f fun row => DataSet.put f i_elem nv nq row) ⟨elems.length, nv, nq, fun _ _ _ => fill⟩ →
      F.n_elem = elems.length ∧ F.n_var = nv ∧ F.n_qpoint = nq ∧ ∀ i < k, ∀ row, elems[i]? = some row → ∀ v < nv, ∀ q < nq, F.cell i v q = row v q := by
    intro k
    induction k with
    | zero => rintro _ F rfl; exact ⟨rfl, rfl, rfl, by simp⟩
    | succ k ih =>
      rintro hk F rfl
      obtain ⟨h1, h2, h3, h4⟩ := ih (by omega) _ rfl
      rw [List.range_succ, List.foldl_append, List.foldl_cons, List.foldl_nil]
      obtain ⟨rk, hrk⟩ : ∃ r, elems[k]? = some r := ⟨_, List.getElem?_eq_getElem (by omega)⟩
      rw [hrk]
      refine ⟨h1, h2, h3, ?_⟩
      intro i hi row hrow v hv q hq
      show (if i = k ∧ v < nv ∧ q < nq then rk v q else _) = _
      by_cases e : i = k
      · subst e
        rw [hrk] at hrow
        rw [if_pos ⟨rfl, hv, hq⟩, Option.some.inj hrow]
      · rw [if_neg (by tauto)]
        exact h4 i (by omega) row hrow v hv q hq
  obtain ⟨h1, h2, h3, h4⟩ := key elems.length le_rfl (writeState fill nv nq elems) rfl
  exact ⟨h1, h2, h3, fun i row h => h4 i (List.getElem?_eq_some_iff.1 h).1 row h⟩

end Hexed.StateFile
