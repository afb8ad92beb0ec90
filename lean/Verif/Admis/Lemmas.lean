import Verif.Admis.Spec
import Mathlib.Tactic.Linarith
import Mathlib.Tactic.SplitIfs
import Mathlib.Tactic.Ring

set_option autoImplicit false
set_option linter.unusedVariables false

/-!
# Lemmas about the repair loop
-/

namespace Hexed.Admis

variable {S : Type} {ne nv nq : ℕ}

theorem isAdmissible_none {P : Setting S ne nv nq} {m : Data S ne nv nq}
    (h : isAdmissible P m = none) : ¬ P.Finite m.sol := by
  unfold isAdmissible at h
  split_ifs at h with hc
  rintro ⟨h1, h2⟩
  rcases hc with ⟨e, he⟩ | hr
  · exact h1 e he
  · exact h2 hr

theorem isAdmissible_some {P : Setting S ne nv nq} {m m' : Data S ne nv nq} {b : Bool}
    (h : isAdmissible P m = some (b, m')) :
    P.Finite m.sol ∧ (b = true ↔ P.Adm m.sol) ∧
      m' = { m with record := fun e => decide (P.elem m.sol e = .bad) } := by
  unfold isAdmissible at h
  split_ifs at h with hc
  simp only [Option.some.injEq, Prod.mk.injEq] at h
  obtain ⟨h1, h2⟩ := h
  push Not at hc
  refine ⟨⟨hc.1, hc.2⟩, ?_, h2.symm⟩
  rw [← h1]
  simp [Setting.Adm]

theorem shareMax_zero (P : Setting S ne nv nq) (f : Fin ne → Fin nv → ℝ) (hf : ∀ e v, f e v = 0) :
    ∀ e v, shareMax P f e v = 0 := by
  have h0 : ∀ e v, vertexMax P f e v = 0 := by
    intro e v
    unfold vertexMax
    have : (fun x : Fin ne × Fin nv => f x.1 x.2) = fun _ => (0 : ℝ) := by
      funext x; exact hf _ _
    rw [this]
    exact Finset.sup'_const _ _
  intro e v
  unfold shareMax matchHanging
  split
  · exact h0 e v
  · simp [h0]

theorem elemMax_zero (f : Fin nv → ℝ) (hf : ∀ v, f v = 0) : elemMax f = 0 := by
  unfold elemMax
  have : ∀ l : List ℝ, (∀ x ∈ l, x = 0) → l.foldl max 0 = 0 := by
    intro l
    induction l with
    | nil => intro _; rfl
    | cons a t ih =>
      intro h
      have ha : a = 0 := h a (by simp)
      simp only [List.foldl_cons, ha, max_self]
      exact ih fun x hx => h x (by simp [hx])
  refine this _ ?_
  intro x hx
  obtain ⟨i, hi⟩ := (List.mem_ofFn' _ _).1 hx
  rw [← hi]
  exact hf i

theorem vertexCoefs_zero (P : Setting S ne nv nq) (r : Fin ne → Bool) (hr : ∀ e, r e = false) :
    ∀ e v, vertexCoefs P r e v = 0 := by
  intro e v
  refine shareMax_zero P _ ?_ e v
  intro e _
  refine elemMax_zero _ fun v => shareMax_zero P _ ?_ e v
  intro e v
  simp [hr]

@[simp] theorem pass_sol (P : Setting S ne nv nq) (m : Data S ne nv nq) :
    (pass P m).sol = P.smooth m.sol := rfl
@[simp] theorem pass_passes (P : Setting S ne nv nq) (m : Data S ne nv nq) :
    (pass P m).passes = m.passes + 1 := rfl
@[simp] theorem pass_bulk (P : Setting S ne nv nq) (m : Data S ne nv nq) :
    (pass P m).bulk = m.bulk := rfl
@[simp] theorem pass_fixIters (P : Setting S ne nv nq) (m : Data S ne nv nq) :
    (pass P m).fixIters = m.fixIters := rfl

theorem pass_lap_zero (P : Setting S ne nv nq) (m : Data S ne nv nq)
    (hr : ∀ e, m.record e = false) : ∀ e q, (pass P m).lap e q = 0 := by
  intro e q
  show toQpoints P (vertexCoefs P m.record e) q = 0
  unfold toQpoints
  refine Finset.sum_eq_zero fun v _ => ?_
  rw [vertexCoefs_zero P _ hr e v, mul_zero]

theorem after_succ (P : Setting S ne nv nq) (s : S) (i : ℕ) :
    P.after s (i + 1) = P.smooth (P.after s i) := Function.iterate_succ_apply' _ _ _

/-- What is known at the top of the loop. -/
def LoopInv (P : Setting S ne nv nq) (s : S) (iter : ℕ) : Option ℕ → Prop
  | none => ∀ j < iter, ¬ P.Steady s j
  | some l => ∃ k, l = 2 * k ∧ 1 ≤ k ∧ k < iter ∧ iter ≤ 2 * k ∧
      (∀ i, k ≤ i → i < iter → P.Adm (P.after s i)) ∧ ∀ j < k, ¬ P.Steady s j

/-- What each way of ending means, `iter` smoothing passes having been made so far (at least one), and
`n` being allowed. -/
def LoopPost (P : Setting S ne nv nq) (s : S) (n iter : ℕ) (m : Data S ne nv nq) :
    Outcome S ne nv nq → Prop
  | .done b m' => b = true ∧ ∃ k, P.Steady s k ∧ (∀ j < k, ¬ P.Steady s j) ∧ 2 * k ≤ n ∧
      iter ≤ 2 * k ∧
      m'.sol = P.after s (2 * k) ∧ m'.fixIters = m.fixIters + (2 * k - 1) ∧
      m'.passes = m.passes + (2 * k - iter) ∧ m'.bulk = m.bulk ∧ (∀ e q, m'.lap e q = 0) ∧
      ∀ i, iter ≤ i → i < 2 * k → P.Finite (P.after s i)
  | .failed m' => (∀ j, P.Steady s j → n < 2 * j) ∧ m'.sol = P.after s n ∧ m'.bulk = m.bulk ∧
      m'.passes = m.passes + (n - iter) ∧ m'.fixIters = m.fixIters ∧
      ∀ i, iter ≤ i → i < n → P.Finite (P.after s i)
  | .abort => ∃ i, iter ≤ i ∧ i < n ∧ ¬ P.Finite (P.after s i) ∧ (∀ j, P.Steady s j → i < 2 * j) ∧
      ∀ l, iter ≤ l → l < i → P.Finite (P.after s l)

theorem loop_zero (P : Setting S ne nv nq) (iter : ℕ) (limit : Option ℕ) (m : Data S ne nv nq) :
    loop P 0 iter limit m = if limit.any (· ≤ iter) then finish iter m else .failed m := by
  rw [loop]

theorem loop_succ (P : Setting S ne nv nq) (left iter : ℕ) (limit : Option ℕ)
    (m : Data S ne nv nq) :
    loop P (left + 1) iter limit m = if limit.any (· ≤ iter) then finish iter m else
      match isAdmissible P m with
      | none => .abort
      | some (true, m') =>
        if iter = 0 then finish 1 m'
        else loop P left (iter + 1) (some (limit.elim (2 * iter) (min (2 * iter)))) (pass P m')
      | some (false, m') => loop P left (iter + 1) none (pass P m') := by
  rw [loop]
  rfl

theorem loop_post (P : Setting S ne nv nq) (s : S) (n left : ℕ) :
    ∀ (iter : ℕ) (limit : Option ℕ) (m : Data S ne nv nq), iter + left = n → 1 ≤ iter →
      m.sol = P.after s iter → LoopInv P s iter limit →
      (limit.isSome → ∀ e q, m.lap e q = 0) →
      LoopPost P s n iter m (loop P left iter limit m) := by
  induction left with
  | zero =>
    intro iter limit m hn h1 hs hi hl
    rw [loop_zero]
    split_ifs with hc
    · obtain ⟨l, hl', hle⟩ := (Option.any_eq_true _ _).1 hc
      subst hl'
      obtain ⟨k, rfl, hk1, hk2, hk3, hk4, hk5⟩ := hi
      have hle' : 2 * k ≤ iter := by simpa using hle
      have he : iter = 2 * k := by omega
      refine ⟨by simp; omega, k, ⟨hk1, fun i a b => hk4 i a (by omega)⟩, hk5, by omega, by omega,
        by rw [← he]; exact hs, by simp [he], by simp [he], rfl, hl rfl, ?_⟩
      intro i a b; omega
    · have hni : iter = n := by omega
      refine ⟨?_, by rw [← hni]; exact hs, rfl, by simp [hni], rfl, ?_⟩
      · intro j hj
        cases limit with
        | none =>
          by_contra hh
          exact hi j (by have := hj.1; omega) hj
        | some l =>
          obtain ⟨k, rfl, hk1, hk2, hk3, hk4, hk5⟩ := hi
          have h3 : ¬ 2 * k ≤ iter := by simpa using hc
          by_contra hh
          have h2 : j < k := by omega
          exact hk5 j h2 hj
      · intro i a b; omega
  | succ left ih =>
    intro iter limit m hn h1 hs hi hl
    rw [loop_succ]
    by_cases hc : limit.any (· ≤ iter) = true
    · rw [if_pos hc]
      obtain ⟨l, hl', hle⟩ := (Option.any_eq_true _ _).1 hc
      subst hl'
      obtain ⟨k, rfl, hk1, hk2, hk3, hk4, hk5⟩ := hi
      have hle' : 2 * k ≤ iter := by simpa using hle
      have he : iter = 2 * k := by omega
      refine ⟨by simp; omega, k, ⟨hk1, fun i a b => hk4 i a (by omega)⟩, hk5, by omega, by omega,
        by rw [← he]; exact hs, by simp [he], by simp [he], rfl, hl rfl, ?_⟩
      intro i a b; omega
    · rw [if_neg hc]
      have hlim : ∀ k, limit = some (2 * k) → iter < 2 * k := by
        intro k hk
        subst hk
        simpa using hc
      -- a steady number of passes lies beyond the current one
      have hbeyond : ∀ j, P.Steady s j → iter < 2 * j := by
        intro j hj
        cases limit with
        | none => by_contra hh; exact hi j (by have := hj.1; omega) hj
        | some l =>
          obtain ⟨k, rfl, hk1, hk2, hk3, hk4, hk5⟩ := hi
          have := hlim k rfl
          by_contra hh
          exact hk5 j (by omega) hj
      -- transfer of the conclusion from the next iteration
      have step : ∀ (m' : Data S ne nv nq) (o : Outcome S ne nv nq), P.Finite (P.after s iter) →
          m'.passes = m.passes → m'.bulk = m.bulk → m'.fixIters = m.fixIters →
          LoopPost P s n (iter + 1) (pass P m') o → LoopPost P s n iter m o := by
        intro m' o hf hp hb hfi ho
        cases o with
        | done b m'' =>
          obtain ⟨a0, k, a1, a2, a3, a4, a5, a6, a7, a8, a9, a10⟩ := ho
          refine ⟨a0, k, a1, a2, a3, by omega, a5, ?_, ?_, ?_, a9, ?_⟩
          · rw [a6, pass_fixIters, hfi]
          · rw [a7, pass_passes, hp]; omega
          · rw [a8, pass_bulk, hb]
          · intro i x y
            rcases Nat.eq_or_lt_of_le x with h | h
            · rw [← h]; exact hf
            · exact a10 i h y
        | failed m'' =>
          obtain ⟨a1, a2, a3, a4, a5, a6⟩ := ho
          refine ⟨a1, a2, ?_, ?_, ?_, ?_⟩
          · rw [a3, pass_bulk, hb]
          · rw [a4, pass_passes, hp]; omega
          · rw [a5, pass_fixIters, hfi]
          · intro i x y
            rcases Nat.eq_or_lt_of_le x with h | h
            · rw [← h]; exact hf
            · exact a6 i h y
        | abort =>
          obtain ⟨i, a1, a2, a3, a4, a5⟩ := ho
          refine ⟨i, by omega, a2, a3, a4, ?_⟩
          intro l x y
          rcases Nat.eq_or_lt_of_le x with h | h
          · rw [← h]; exact hf
          · exact a5 l h y
      split
      · rename_i hadm
        have := isAdmissible_none hadm
        rw [hs] at this
        exact ⟨iter, le_refl _, by omega, this, hbeyond, fun l a b => by omega⟩
      · rename_i m' hadm
        obtain ⟨hf, ha, hm⟩ := isAdmissible_some hadm
        rw [hs] at hf ha
        have hA := ha.1 rfl
        rw [if_neg (by omega)]
        refine step m' _ hf (by rw [hm]) (by rw [hm]) (by rw [hm]) (ih (iter + 1) _ _ (by omega) (by omega) ?_ ?_ ?_)
        · rw [pass_sol, hm]; show P.smooth m.sol = _; rw [hs, after_succ]
        · cases limit with
          | none =>
            refine ⟨iter, rfl, h1, by omega, by omega, ?_, hi⟩
            intro i x y
            have : i = iter := by omega
            rw [this]; exact hA
          | some l =>
            obtain ⟨k, rfl, hk1, hk2, hk3, hk4, hk5⟩ := hi
            have := hlim k rfl
            refine ⟨k, ?_, hk1, by omega, by omega, ?_, hk5⟩
            · simp only [Option.elim]; omega
            · intro i x y
              rcases Nat.lt_succ_iff_lt_or_eq.1 y with h | h
              · exact hk4 i x h
              · rw [h]; exact hA
        · intro _ 
          refine pass_lap_zero P _ ?_
          intro e
          rw [hm]
          show decide (P.elem m.sol e = .bad) = false
          rw [hs, hA.1 e]; rfl
      · rename_i m' hadm
        obtain ⟨hf, ha, hm⟩ := isAdmissible_some hadm
        rw [hs] at hf ha
        have hA : ¬ P.Adm (P.after s iter) := fun h => by simpa using ha.2 h
        refine step m' _ hf (by rw [hm]) (by rw [hm]) (by rw [hm]) (ih (iter + 1) _ _ (by omega) (by omega) ?_ ?_ ?_)
        · rw [pass_sol, hm]; show P.smooth m.sol = _; rw [hs, after_succ]
        · intro j hj hst
          have := hbeyond j hst
          exact hA (hst.2 iter (by omega) this)
        · intro h; simp at h

theorem fix_cases (P : Setting S ne nv nq) (m : Data S ne nv nq) (h : P.enabled = true) :
    (¬ P.Finite m.sol ∧ fix P m = .abort) ∨
    (P.Adm m.sol ∧ ∃ r, fix P m = .done false { m with record := r }) ∨
    (P.Finite m.sol ∧ ¬ P.Adm m.sol ∧
      ∃ r, LoopPost P m.sol 100000 1 (pass P { m with record := r }) (fix P m)) := by
  unfold fix
  rw [if_pos h]
  rw [loop_succ, if_neg (by simp)]
  split
  · rename_i hadm
    exact Or.inl ⟨isAdmissible_none hadm, rfl⟩
  · rename_i m' hadm
    obtain ⟨hf, ha, hm⟩ := isAdmissible_some hadm
    refine Or.inr (Or.inl ⟨ha.1 rfl, fun e => decide (P.elem m.sol e = .bad), ?_⟩)
    rw [if_pos rfl, hm]
    simp only [finish]
    rfl
  · rename_i m' hadm
    obtain ⟨hf, ha, hm⟩ := isAdmissible_some hadm
    have hA : ¬ P.Adm m.sol := fun h => by simpa using ha.2 h
    refine Or.inr (Or.inr ⟨hf, hA, fun e => decide (P.elem m.sol e = .bad), ?_⟩)
    rw [← hm]
    refine loop_post P m.sol 100000 99999 1 none (pass P m') rfl le_rfl ?_ ?_ (by simp)
    · rw [pass_sol, hm]; rfl
    · intro j hj hst
      have := hst.1
      omega

theorem LoopPost.failed {P : Setting S ne nv nq} {s : S} {n : ℕ} {m m' : Data S ne nv nq}
    (hn : 1 ≤ n) (h : LoopPost P s n 1 (pass P m) (.failed m')) :
    m'.passes = m.passes + n ∧ m'.sol = P.after s n ∧ m'.bulk = m.bulk ∧
      m'.fixIters = m.fixIters := by
  obtain ⟨_, a2, a3, a4, a5, _⟩ := h
  refine ⟨?_, a2, a3, a5⟩
  rw [pass_passes] at a4
  omega

end Hexed.Admis
