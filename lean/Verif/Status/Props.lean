import Verif.Status.Lemmas
import Mathlib.Data.Fin.VecNotation
set_option autoImplicit false
set_option linter.unusedVariables false

/-!
# The table of the progress of an iteration (C102)
-/

namespace Hexed.Status

/-- A CSV parser reads the labels from the header, whatever labels and width the user chooses, up to 99 characters. -/
theorem header_csv {f : Format} (hs : f.sep = [',', ' ']) (hl : f.labels ≠ []) (hc : ∀ l ∈ f.labels, IsCell l ∧ l.length ≤ 99) (hn : f.numberWidth ≤ 99) :
    ∃ line, f.header = some line ∧ cells line = f.labels := by
  refine ⟨_, header_join hl (width_le hn fun l h => (hc l h).2), ?_⟩
  rw [hs]
  exact cells_join _ _ hl fun l h => (hc l h).1

/-- A CSV parser reads the values from the report, in the order of the default labels. -/
theorem report_csv {f : Format} (hs : f.sep = [',', ' ']) (hc : ∀ l ∈ f.labels, l.length ≤ 99) (hn : f.numberWidth ≤ 99) {d : Data} (h1 : IsInt d.iteration) (h2 : IsInt d.fixAdmisIters) :
    ∃ line, f.report d = some line ∧
      cells line = [intText d.iteration, d.mmtmRes.text, d.massRes.text, d.enerRes.text, d.advRes.text, d.diffRes.text, d.flowTime.text, d.timeStep.text, intText d.fixAdmisIters] := by
  refine ⟨_, report_join (width_le hn hc) (shown_length h1 h2), ?_⟩
  rw [hs]
  exact cells_join _ _ (by simp [Data.shown]) (shown_cell d)

/-- The columns of the header and of every report are aligned if the columns have the default width or a larger one and no value is both negative and with an exponent of three digits. Missing: such values. -/
theorem aligned_partial {f : Format} (hl : f.labels.length = 9) (hc : ∀ l ∈ f.labels, ',' ∉ l ∧ l.length ≤ 99) (hn : 15 ≤ f.numberWidth ∧ f.numberWidth ≤ 99) {d : Data} (h1 : IsInt d.iteration) (h2 : IsInt d.fixAdmisIters)
    (hd : ∀ x ∈ [d.mmtmRes, d.massRes, d.enerRes, d.advRes, d.diffRes, d.flowTime, d.timeStep], x.Fits) :
    ∃ h r, f.header = some h ∧ f.report d = some r ∧ commas h = commas r := by
  have hw : f.width ≤ 99 := width_le hn.2 fun l h => (hc l h).2
  refine ⟨_, _, header_join (by intro e; simp [e] at hl) hw, report_join hw (shown_length h1 h2), ?_⟩
  rw [commas_join f.width f.labels (fun l h => ⟨(hc l h).1, (le_width _ _).2 l h⟩), commas_join f.width d.shown, hl]
  · rfl
  · intro x hx
    refine ⟨(shown_cell d x hx).comma, le_trans ?_ (le_trans hn.1 (le_width _ _).1)⟩
    simp only [Data.shown, List.mem_cons, List.not_mem_nil, or_false, forall_eq_or_imp, forall_eq] at hx hd
    obtain ⟨d1, d2, d3, d4, d5, d6, d7⟩ := hd
    have a := (int_text d.iteration).2.2 h1
    have b := (int_text d.fixAdmisIters).2.2 h2
    rcases hx with rfl | rfl | rfl | rfl | rfl | rfl | rfl | rfl | rfl <;> first | omega | exact (num_text _).2.2.2 (by assumption)

/-- With the defaults, in every report, column `k` of the header names column `k` of the report. -/
theorem default_table {d : Data} (h1 : IsInt d.iteration) (h2 : IsInt d.fixAdmisIters) :
    ∃ h r, ({} : Format).header = some h ∧ ({} : Format).report d = some r ∧
      (cells h).zip (cells r) = [("iteration".toList, intText d.iteration), ("momtm resid".toList, d.mmtmRes.text), ("mass resid".toList, d.massRes.text), ("energy resid".toList, d.enerRes.text),
        ("av adv resid".toList, d.advRes.text), ("av diff resid".toList, d.diffRes.text), ("flow time".toList, d.flowTime.text), ("time step".toList, d.timeStep.text), ("fix adm iters".toList, intText d.fixAdmisIters)] := by
  have hc : ∀ l ∈ ({} : Format).labels, IsCell l ∧ l.length ≤ 99 := by
    intro l hl
    simp only [List.mem_cons, List.not_mem_nil, or_false] at hl
    rcases hl with rfl | rfl | rfl | rfl | rfl | rfl | rfl | rfl | rfl
    all_goals exact ⟨⟨by decide, ⟨_, _, rfl, by decide⟩, ⟨List.getLast _ (by decide), List.dropLast _, (List.dropLast_append_getLast (by decide)).symm, by decide⟩⟩, by decide⟩
  obtain ⟨h, e1, e2⟩ := header_csv (f := {}) rfl (by simp) hc (by decide)
  obtain ⟨r, e3, e4⟩ := report_csv (f := {}) rfl (fun l hl => (hc l hl).2) (by decide) h1 h2
  exact ⟨h, r, e1, e3, by rw [e2, e4]; rfl⟩

/-- The text of an integer shows the integer. -/
theorem int_shown (i : Int) : readInt (intText i) = i := by
  have key : readNat (Nat.toDigits 10 i.natAbs) = i.natAbs := by
    have := Nat.ofDigitChars_toDigits (b := 10) (n := i.natAbs) (by omega) (by omega)
    rw [Nat.ofDigitChars_eq_foldl] at this
    exact this
  by_cases h : i < 0
  · have e : intText i = '-' :: Nat.toDigits 10 i.natAbs := by simp [intText, minus, h]
    rw [e, readInt, key]; omega
  · have e : intText i = Nat.toDigits 10 i.natAbs := by simp [intText, minus, h]
    rw [e]
    have hd : ∀ c ∈ Nat.toDigits 10 i.natAbs, c ≠ '-' := by
      intro c hc
      have := Nat.isDigit_of_mem_toDigits (by omega) (by omega) hc
      rintro rfl; exact absurd this (by decide)
    unfold readInt
    split
    · rename_i s hs
      exact absurd rfl (hd '-' (by rw [hs]; simp))
    · rw [key]; omega

/-- The text of a finite number shows its sign, its digits and its exponent. -/
theorem num_shown (neg : Bool) (lead : Fin 10) (frac : Fin 8 → Fin 10) (expNeg : Bool) (exp : Fin 400) :
    readSci (Num.fin neg lead frac expNeg exp).text = some (neg, (((((((lead.val * 10 + frac 0) * 10 + frac 1) * 10 + frac 2) * 10 + frac 3) * 10 + frac 4) * 10 + frac 5) * 10 + frac 6) * 10 + frac 7,
      (if expNeg then -1 else 1) * (exp.val : Int)) := by
  have dv : ∀ d < 10, d.digitChar.toNat - '0'.toNat = d := by decide
  have dm : lead.val.digitChar ≠ '-' := by revert lead; decide
  have r : (Num.fin neg lead frac expNeg exp).text = minus neg ++ lead.val.digitChar :: '.' :: (frac 0).val.digitChar :: (frac 1).val.digitChar :: (frac 2).val.digitChar :: (frac 3).val.digitChar :: (frac 4).val.digitChar ::
      (frac 5).val.digitChar :: (frac 6).val.digitChar :: (frac 7).val.digitChar :: 'e' :: (if expNeg then '-' else '+') ::
      ((if exp.val < 100 then [] else [(exp.val / 100).digitChar]) ++ [(exp.val / 10 % 10).digitChar, (exp.val % 10).digitChar]) := by
    simp [Num.text, List.ofFn_succ]
  have ex : readNat ((if exp.val < 100 then [] else [(exp.val / 100).digitChar]) ++ [(exp.val / 10 % 10).digitChar, (exp.val % 10).digitChar]) = exp.val := by
    have a := dv (exp.val / 10 % 10) (by omega)
    have b := dv (exp.val % 10) (by omega)
    have c := dv (exp.val / 100) (by omega)
    split <;> simp only [readNat, List.nil_append, List.cons_append, List.foldl_cons, List.foldl_nil, a, b, c] <;> omega
  have hd : ∀ t : List Char, readSci (minus neg ++ lead.val.digitChar :: '.' :: t) = some (neg, readNat (lead.val.digitChar :: t.take 8), (if t[9]? = some '-' then -1 else 1) * (readNat (t.drop 10) : Int)) := by
    intro t
    cases neg <;> simp [readSci, minus, dm]
  rw [r, hd]
  simp only [List.take_succ_cons, List.take_zero, List.drop_succ_cons, List.drop_zero, ex]
  congr 3
  · simp only [readNat, List.foldl_cons, List.foldl_nil, dv _ lead.isLt, dv _ (frac _).isLt]
    omega
  · cases expNeg <;> simp

/-- The number zero. -/
def zero : Num := .fin false 0 (fun _ => 0) false 0

/-- Data with a momentum residual of `-1.00000000e-100`. -/
def negTiny : Data := ⟨zero, .fin true 1 (fun _ => 0) true 100, zero, zero, zero, zero, zero, 0, 0⟩

/-- The default width is too small for a negative number with an exponent of three digits: the columns are not aligned. -/
theorem aligned_refuted : IsInt negTiny.iteration ∧ IsInt negTiny.fixAdmisIters ∧ ∃ h r, ({} : Format).header = some h ∧ ({} : Format).report negTiny = some r ∧ commas h ≠ commas r := by
  refine ⟨by unfold IsInt; decide, by unfold IsInt; decide, (({} : Format).header).get (by decide +kernel), (({} : Format).report negTiny).get (by decide +kernel), by simp, by simp, by decide +kernel⟩

/-- The line of the data in which everything is zero but the momentum residual. -/
example : (({} : Format).report ⟨zero, .fin false 1 ![2, 5, 0, 0, 0, 0, 0, 0] true 3, zero, zero, zero, zero, zero, -42, 7⟩).map String.ofList = some ("            -42,  1.25000000e-03,  0.00000000e+00,  0.00000000e+00,  " ++
    "0.00000000e+00,  0.00000000e+00,  0.00000000e+00,  0.00000000e+00,               7") := by
  decide +kernel

end Hexed.Status
