import Verif.Hil.Model
set_option autoImplicit false
set_option linter.unusedVariables false

/-! The result of `eval` does not depend on the recursion bound once it is large enough. -/

namespace Hexed.Hil
open Hexed.Namespace

variable {D : Type}

/-- `a` is `out` or equal to `b`. -/
def Le {α : Type} (a b : Res D α) : Prop := a = .out ∨ b = a

theorem Le.refl {α : Type} (a : Res D α) : Le a a := Or.inr rfl

/-- Pointwise order on evaluation functions. -/
def LeF (F G : Ef D) : Prop := ∀ p v st, Le (F p v st) (G p v st)

theorem tokUn_le (env : Env D) {E E' A A' : Ef D} (he : LeF E E') (ha : LeF A A') (n : String) (p : Nat) (st : St D) :
    Le (tokUn env E A n p st) (tokUn env E' A' n p st) := by
  unfold tokUn
  rcases he 0 .empty st with h | h
  · rw [h]; left; rfl
  · rw [h]
    cases E 0 .empty st with
    | ok x st' =>
      simp only
      cases applyUn env st'.heap n x with
      | ok y => exact ha _ _ _
      | _ => exact Le.refl _
    | _ => exact Le.refl _

theorem tokSubst_le {E E' : Ef D} (he : LeF E E') (p : Nat) (v : DV D) (st : St D) :
    Le (tokSubst E p v st) (tokSubst E' p v st) := by
  unfold tokSubst
  rcases he 0 .empty st with h | h
  · rw [h]; left; rfl
  · rw [h]
    cases E 0 .empty st with
    | ok x st' =>
      cases x with
      | str t => exact he _ _ _
      | _ => exact Le.refl _
    | _ => exact Le.refl _

theorem tokVar_le (env : Env D) {E E' A A' : Ef D} (he : LeF E E') (ha : LeF A A') (n : String) (p : Nat) (st : St D) :
    Le (tokVar env E A n p st) (tokVar env E' A' n p st) := by
  unfold tokVar
  cases skip st with
  | none => exact Le.refl _
  | some s =>
    simp only
    by_cases c : s.text.head? = some '=' ∧ s.text.tail.head? ≠ some '='
    · rw [if_pos c, if_pos c]
      rcases he pAssign .empty { s with text := s.text.tail } with h | h
      · rw [h]; left; rfl
      · rw [h]
        cases E pAssign .empty { s with text := s.text.tail } with
        | ok x st' =>
          simp only
          cases assignVar env n x st' with
          | ok y st'' => exact ha _ _ _
          | _ => exact Le.refl _
        | _ => exact Le.refl _
    · rw [if_neg c, if_neg c]
      cases readVar env n s with
      | ok x st' => exact ha _ _ _
      | _ => exact Le.refl _

theorem tokName_le (env : Env D) {E E' A A' : Ef D} (he : LeF E E') (ha : LeF A A') (p : Nat) (st : St D) :
    Le (tokName env E A p st) (tokName env E' A' p st) := by
  unfold tokName
  simp only
  by_cases c : unOps.contains (String.ofList (readName st.text).1) = true
  · rw [if_pos c, if_pos c]; exact tokUn_le env he ha _ _ _
  · rw [if_neg c, if_neg c]; exact tokVar_le env he ha _ _ _

theorem tokParen_le {E E' A A' : Ef D} (he : LeF E E') (ha : LeF A A') (p : Nat) (st : St D) :
    Le (tokParen E A p st) (tokParen E' A' p st) := by
  unfold tokParen
  rcases he pParen .empty st with h | h
  · rw [h]; left; rfl
  · rw [h]
    cases E pParen .empty st with
    | ok x st' => exact ha _ _ _
    | _ => exact Le.refl _

theorem tokNum_le (env : Env D) {A A' : Ef D} (ha : LeF A A') (p : Nat) (st : St D) :
    Le (tokNum env A p st) (tokNum env A' p st) := by
  unfold tokNum
  cases numLit env st.text with
  | mk a b => cases a with
    | none => exact Le.refl _
    | some v => exact ha _ _ _

theorem tokStr_le {A A' : Ef D} (ha : LeF A A') (p : Nat) (st : St D) :
    Le (tokStr A p st) (tokStr A' p st) := by
  unfold tokStr
  cases strLit 1 false st.text with
  | none => exact Le.refl _
  | some v => exact ha _ _ _

theorem evalBody_le (env : Env D) {E E' A A' : Ef D} (he : LeF E E') (ha : LeF A A') (p : Nat) (v : DV D) (st : St D) :
    Le (evalBody env E A p v st) (evalBody env E' A' p v st) := by
  unfold evalBody
  by_cases c : st.text.length ≤ 1
  · rw [if_pos c, if_pos c]; exact Le.refl _
  · rw [if_neg c, if_neg c]
    cases skip st with
    | none => exact Le.refl _
    | some s =>
      simp only
      cases s.text with
      | nil => exact Le.refl _
      | cons c cs =>
        simp only
        cases kind p c with
        | subst => exact tokSubst_le he _ _ _
        | sep => exact ha _ _ _
        | lparen => exact tokParen_le he ha _ _
        | rparen => exact Le.refl _
        | num => exact tokNum_le env ha _ _
        | str => exact tokStr_le ha _ _
        | name => exact tokName_le env he ha _ _
        | sym => exact tokUn_le env he ha _ _ _
        | bad => exact Le.refl _

theorem afterBody_le {E E' B B' : Ef D} (he : LeF E E') (hb : LeF B B') (p : Nat) (v : DV D) (st : St D) :
    Le (afterBody E B p v st) (afterBody E' B' p v st) := by
  unfold afterBody
  cases skip st with
  | none => exact Le.refl _
  | some s =>
    simp only
    rcases hb p v s with h | h
    · rw [h]; left; rfl
    · rw [h]
      cases B p v s with
      | ok x st' =>
        simp only
        by_cases c : p < pStmt
        · rw [if_pos c, if_pos c]; exact Le.refl _
        · rw [if_neg c, if_neg c]; exact he _ _ _
      | _ => exact Le.refl _

theorem binBody_le (env : Env D) {E E' B B' : Ef D} (he : LeF E E') (hb : LeF B B') (p : Nat) (v : DV D) (st : St D) :
    Le (binBody env E B p v st) (binBody env E' B' p v st) := by
  unfold binBody
  cases matchOp st.text with
  | none => exact Le.refl _
  | some op =>
    simp only
    by_cases c : op.prec < p
    · rw [if_pos c, if_pos c]
      rcases he op.prec .empty { st with text := st.text.drop op.name.length } with h | h
      · rw [h]; left; rfl
      · rw [h]
        cases E op.prec .empty { st with text := st.text.drop op.name.length } with
        | ok x st' =>
          simp only
          cases applyBin env st'.heap op v x with
          | ok y =>
            simp only
            cases skip st' with
            | none => exact Le.refl _
            | some s => exact hb _ _ _
          | _ => exact Le.refl _
        | _ => exact Le.refl _
    · rw [if_neg c, if_neg c]; exact Le.refl _

theorem mono_step (env : Env D) (f : Nat) :
    LeF (eval env f) (eval env (f + 1)) ∧ LeF (after env f) (after env (f + 1)) ∧
    LeF (binLoop env f) (binLoop env (f + 1)) := by
  induction f with
  | zero =>
    refine ⟨?_, ?_, ?_⟩ <;> intro p v st <;> left
    · simp [eval]
    · simp [after]
    · simp [binLoop]
  | succ f ih =>
    obtain ⟨ihe, iha, ihb⟩ := ih
    refine ⟨?_, ?_, ?_⟩ <;> intro p v st
    · rw [eval, eval]; exact evalBody_le env ihe iha p v st
    · rw [after, after]; exact afterBody_le ihe ihb p v st
    · rw [binLoop, binLoop]; exact binBody_le env ihe ihb p v st

theorem eval_mono (env : Env D) (f k p : Nat) (v : DV D) (st : St D)
    (h : eval env f p v st ≠ .out) : eval env (f + k) p v st = eval env f p v st := by
  induction k with
  | zero => rfl
  | succ k ih =>
    rcases (mono_step env (f + k)).1 p v st with e | e
    · rw [ih] at e; exact absurd e h
    · rw [← ih]; exact e

/-- `g f = r` for all sufficiently large bounds `f`. -/
def Ev {α : Type} (g : Nat → α) (r : α) : Prop := ∃ N, ∀ f, N ≤ f → g f = r

theorem Ev.det {α : Type} {g : Nat → α} {r r' : α} (h : Ev g r) (h' : Ev g r') : r = r' := by
  obtain ⟨N, hN⟩ := h
  obtain ⟨M, hM⟩ := h'
  rw [← hN (max N M) (Nat.le_max_left _ _), hM (max N M) (Nat.le_max_right _ _)]

theorem Ev.of_shift {α : Type} {g g' : Nat → α} {r : α} (h : Ev g r) (e : ∀ f, g' (f + 1) = g f) : Ev g' r := by
  obtain ⟨N, hN⟩ := h
  refine ⟨N + 1, fun f hf => ?_⟩
  obtain ⟨f', rfl⟩ : ∃ f', f = f' + 1 := ⟨f - 1, by omega⟩
  rw [e]; exact hN _ (by omega)

theorem Ev.shift {α : Type} {g g' : Nat → α} {r : α} (h : Ev g' r) (e : ∀ f, g' (f + 1) = g f) : Ev g r := by
  obtain ⟨N, hN⟩ := h
  exact ⟨N, fun f hf => by rw [← e]; exact hN _ (by omega)⟩

theorem Ev.const {α : Type} (r : α) : Ev (fun _ => r) r := ⟨0, fun _ _ => rfl⟩

theorem Ev.congr {α : Type} {g g' : Nat → α} {r : α} (h : Ev g r) (e : ∀ f, g' f = g f) : Ev g' r := by
  obtain ⟨N, hN⟩ := h
  exact ⟨N, fun f hf => by rw [e]; exact hN f hf⟩

/-- Use that a sub-computation has settled. -/
theorem Ev.bind {α β : Type} {g : Nat → α} {a : α} (h : Ev g a) {k : α → Nat → β} {r : β}
    (hk : Ev (k a) r) : Ev (fun f => k (g f) f) r := by
  obtain ⟨N, hN⟩ := h
  obtain ⟨M, hM⟩ := hk
  refine ⟨max N M, fun f hf => ?_⟩
  show k (g f) f = r
  rw [hN f (by omega)]; exact hM f (by omega)

end Hexed.Hil
