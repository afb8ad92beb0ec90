import Verif.Status.Spec
import Mathlib.Data.List.Induction
import Mathlib.Data.List.Basic
import Mathlib.Tactic.IntervalCases
set_option autoImplicit false
set_option linter.unusedVariables false

namespace Hexed.Status

theorem popBacks_append (s t : List Char) : popBacks t.length (s ++ t) = some s := by
  induction t using List.reverseRecOn with
  | nil => simp [popBacks]
  | append_singleton t c ih =>
    rw [List.length_append, List.length_singleton, popBacks, if_neg (by simp), ← List.append_assoc, List.dropLast_concat, ih]

/-- Cells that are each followed by the separator, without the last separator. -/
theorem popBacks_join (sep : List Char) (g : List Char → List Char) (l : List (List Char)) (hl : l ≠ []) :
    popBacks sep.length (l.foldl (fun h x => h ++ (g x ++ sep)) []) = some (sep.intercalate (l.map g)) := by
  have key : ∀ (l : List (List Char)) (a : List Char), l ≠ [] → l.foldl (fun h x => h ++ (g x ++ sep)) a = a ++ sep.intercalate (l.map g) ++ sep := by
    intro l
    induction l with
    | nil => intro a h; exact absurd rfl h
    | cons x l ih =>
      intro a _
      by_cases h : l = []
      · subst h; simp
      · rw [List.foldl_cons, ih _ h, List.map_cons, List.intercalate_cons_of_ne_nil (by simpa using h)]
        simp
  rw [key l [] hl, List.nil_append, popBacks_append]

theorem width_le {w : Nat} {l : List (List Char)} {b : Nat} (hw : w ≤ b) (hl : ∀ x ∈ l, x.length ≤ b) : l.foldl (fun w x => max w x.length) w ≤ b := by
  induction l generalizing w with
  | nil => exact hw
  | cons x l ih => exact ih (max_le hw (hl x (by simp))) fun y hy => hl y (by simp [hy])

theorem le_width (w : Nat) (l : List (List Char)) : w ≤ l.foldl (fun w x => max w x.length) w ∧ ∀ x ∈ l, x.length ≤ l.foldl (fun w x => max w x.length) w := by
  induction l generalizing w with
  | nil => simp
  | cons x l ih =>
    have := ih (max w x.length)
    refine ⟨le_trans (le_max_left _ _) this.1, ?_⟩
    intro y hy
    rcases List.mem_cons.1 hy with rfl | hy
    · exact le_trans (le_max_right _ _) this.1
    · exact this.2 y hy

/-- A padded text. -/
def pad (w : Nat) (s : List Char) : List Char := List.replicate (w - s.length) ' ' ++ s

theorem format_eq {f : Format} {s : List Char} (hw : f.width ≤ 99) (hs : s.length ≤ 99) : f.format s = pad f.width s ++ f.sep := by
  rw [Format.format, pad, List.take_of_length_le]
  simp; omega

theorem strip_cell {s : List Char} (h : IsCell s) (k : Nat) : strip (List.replicate k ' ' ++ s) = s := by
  obtain ⟨c, t, hc, hne⟩ := h.first
  obtain ⟨c', t', hc', hne'⟩ := h.last
  have e : (List.replicate k ' ' ++ s).dropWhile (· == ' ') = s := by
    induction k with
    | zero => rw [List.replicate_zero, List.nil_append, hc, List.dropWhile_cons_of_neg (by simpa using hne)]
    | succ k ih => rw [List.replicate_succ, List.cons_append, List.dropWhile_cons_of_pos (by rfl), ih]
  rw [strip, e, hc', List.reverse_append, List.reverse_singleton, List.singleton_append, List.dropWhile_cons_of_neg (by simpa using hne')]
  simp

theorem intercalate_space (l : List Char) (ls : List (List Char)) : [',', ' '].intercalate (l :: ls) = [','].intercalate (l :: ls.map (' ' :: ·)) := by
  induction ls generalizing l with
  | nil => simp
  | cons x ls ih =>
    rw [List.intercalate_cons_cons, ih, List.map_cons, List.intercalate_cons_cons]
    cases ls with
    | nil => simp
    | cons y ls => simp [List.intercalate_cons_cons]

theorem comma_pad {w : Nat} {s : List Char} (h : ',' ∉ s) : ',' ∉ pad w s := by
  simp [pad, h, List.mem_replicate]

/-- A CSV parser gets the cells from the line. -/
theorem cells_join (w : Nat) (l : List (List Char)) (hl : l ≠ []) (h : ∀ x ∈ l, IsCell x) : cells ([',', ' '].intercalate (l.map (pad w))) = l := by
  obtain ⟨x, l, rfl⟩ := List.exists_cons_of_ne_nil hl
  rw [List.map_cons, intercalate_space, cells, List.splitOn_intercalate ',' _ (by simp)]
  · rw [List.map_cons, pad, strip_cell (h x (by simp)), List.map_map, List.map_map]
    congr 1
    conv_rhs => rw [← List.map_id l]
    refine List.map_congr_left fun y hy => ?_
    have := strip_cell (h y (by simp [hy])) (w - y.length + 1)
    rw [List.replicate_succ, List.cons_append] at this
    exact this
  · intro y hy
    rcases List.mem_cons.1 hy with rfl | hy
    · exact comma_pad (h x (by simp)).comma
    · simp only [List.map_map, List.mem_map] at hy
      obtain ⟨z, hz, rfl⟩ := hy
      have := comma_pad (w := w) (h z (by simp [hz])).comma
      simp [this]

theorem commas_pad {w : Nat} {s : List Char} (h : ',' ∉ s) (hs : s.length ≤ w) : commas (pad w s) = List.replicate w false := by
  rw [List.eq_replicate_iff]
  constructor
  · simp [commas, pad]; omega
  · intro b hb
    obtain ⟨c, hc, rfl⟩ := List.mem_map.1 hb
    have : c ≠ ',' := fun e => comma_pad h (e ▸ hc)
    simpa using this

theorem commas_join (w : Nat) (l : List (List Char)) (h : ∀ x ∈ l, ',' ∉ x ∧ x.length ≤ w) (sep : List Char) : commas (sep.intercalate (l.map (pad w))) = (commas sep).intercalate (List.replicate l.length (List.replicate w false)) := by
  induction l with
  | nil => simp [commas]
  | cons x l ih =>
    have i := ih fun y hy => h y (by simp [hy])
    have p := commas_pad (h x (by simp)).1 (h x (by simp)).2
    cases l with
    | nil => simpa using p
    | cons y l =>
      simp only [List.map_cons, List.length_cons, List.replicate_succ] at i ⊢
      rw [List.intercalate_cons_cons, List.intercalate_cons_cons, ← i]
      simp only [commas, List.map_append] at p ⊢
      rw [p]

/-! ## Numbers -/

theorem digit_ne (d : Fin 10) : d.val.digitChar ≠ ',' ∧ d.val.digitChar ≠ ' ' := by
  revert d; decide

theorem digit_ne' (d : Nat) (h : d < 10) : d.digitChar ≠ ',' ∧ d.digitChar ≠ ' ' := digit_ne ⟨d, h⟩

theorem num_text (x : Num) : (∀ c ∈ x.text, c ≠ ',' ∧ c ≠ ' ') ∧ x.text ≠ [] ∧ x.text.length ≤ 16 ∧ (x.Fits → x.text.length ≤ 15) := by
  cases x with
  | fin neg lead frac expNeg exp =>
    refine ⟨?_, by simp [Num.text], ?_, ?_⟩
    · intro c hc
      simp only [Num.text, List.mem_append, List.mem_cons, List.mem_ofFn, List.not_mem_nil, or_false] at hc
      have h1 := digit_ne' (exp.val / 10 % 10) (by omega)
      have h2 := digit_ne' (exp.val % 10) (by omega)
      have h3 := digit_ne' (exp.val / 100) (by omega)
      rcases hc with ((((hc | hc | hc | ⟨i, hc⟩) | hc | hc) | hc) | hc | hc)
      all_goals first
        | (subst hc; first | exact digit_ne _ | exact h1 | exact h2 | (constructor <;> decide) | (cases expNeg <;> constructor <;> decide))
        | (cases neg <;> simp [minus] at hc; subst hc; constructor <;> decide)
        | (split at hc <;> simp at hc; subst hc; exact h3)
    · simp only [Num.text]; cases neg <;> by_cases h : exp.val < 100 <;> simp [minus, h]
    · intro hf
      simp only [Num.Fits] at hf
      simp only [Num.text]; cases neg <;> by_cases h : exp.val < 100 <;> simp [minus, h] at hf ⊢
  | inf neg => cases neg <;> simp [Num.text, minus]
  | nan neg => cases neg <;> simp [Num.text, minus]

theorem int_text (i : Int) : (∀ c ∈ intText i, c ≠ ',' ∧ c ≠ ' ') ∧ intText i ≠ [] ∧ (IsInt i → (intText i).length ≤ 11) := by
  refine ⟨?_, ?_, ?_⟩
  · intro c hc
    rcases List.mem_append.1 hc with hc | hc
    · unfold minus at hc; split at hc <;> simp at hc; subst hc; constructor <;> decide
    · have := Nat.isDigit_of_mem_toDigits (by omega) (by omega) hc
      constructor <;> (rintro rfl; exact absurd this (by decide))
  · simp [intText, Nat.toDigits_ne_nil]
  · intro h
    have h1 : (Nat.toDigits 10 i.natAbs).length ≤ 10 := (Nat.length_toDigits_le_iff (by omega) (by omega)).2 (by unfold IsInt at h; omega)
    have h2 : (minus (i < 0)).length ≤ 1 := by unfold minus; split <;> simp
    simp only [intText, List.length_append]; omega

theorem cell_of {s : List Char} (h : ∀ c ∈ s, c ≠ ',' ∧ c ≠ ' ') (hs : s ≠ []) : IsCell s := by
  refine ⟨fun hc => (h _ hc).1 rfl, ?_, ?_⟩
  · obtain ⟨c, t, rfl⟩ := List.exists_cons_of_ne_nil hs
    exact ⟨c, t, rfl, (h c (by simp)).2⟩
  · obtain ⟨t, c, rfl⟩ : ∃ t c, s = t ++ [c] := ⟨s.dropLast, s.getLast hs, (List.dropLast_append_getLast hs).symm⟩
    exact ⟨c, t, rfl, (h c (by simp)).2⟩

theorem shown_cell (d : Data) : ∀ x ∈ d.shown, IsCell x := by
  intro x hx
  simp only [Data.shown, List.mem_cons, List.not_mem_nil, or_false] at hx
  rcases hx with rfl | rfl | rfl | rfl | rfl | rfl | rfl | rfl | rfl <;>
    first | exact cell_of (num_text _).1 (num_text _).2.1 | exact cell_of (int_text _).1 (int_text _).2.1

theorem shown_length {d : Data} (h1 : IsInt d.iteration) (h2 : IsInt d.fixAdmisIters) : ∀ x ∈ d.shown, x.length ≤ 16 := by
  intro x hx
  simp only [Data.shown, List.mem_cons, List.not_mem_nil, or_false] at hx
  have a := (int_text d.iteration).2.2 h1
  have b := (int_text d.fixAdmisIters).2.2 h2
  rcases hx with rfl | rfl | rfl | rfl | rfl | rfl | rfl | rfl | rfl <;> first | exact (num_text _).2.2.1 | omega

theorem report_join {f : Format} {d : Data} (hw : f.width ≤ 99) (h : ∀ x ∈ d.shown, x.length ≤ 16) : f.report d = some (f.sep.intercalate (d.shown.map (pad f.width))) := by
  rw [← popBacks_join f.sep (pad f.width) d.shown (by simp [Data.shown])]
  simp only [Data.shown, List.mem_cons, List.not_mem_nil, or_false, forall_eq_or_imp, forall_eq] at h
  obtain ⟨h1, h2, h3, h4, h5, h6, h7, h8, h9⟩ := h
  simp only [Format.report, Format.valueString, Data.shown, List.foldl_cons, List.foldl_nil]
  rw [format_eq hw (by omega), format_eq hw (by omega), format_eq hw (by omega), format_eq hw (by omega), format_eq hw (by omega), format_eq hw (by omega), format_eq hw (by omega), format_eq hw (by omega), format_eq hw (by omega)]

theorem header_join {f : Format} (hl : f.labels ≠ []) (hw : f.width ≤ 99) : f.header = some (f.sep.intercalate (f.labels.map (pad f.width))) := by
  rw [← popBacks_join f.sep (pad f.width) f.labels hl, Format.header]
  congr 1
  have hlen : ∀ x ∈ f.labels, x.length ≤ 99 := fun x hx => le_trans ((le_width f.numberWidth f.labels).2 x hx) hw
  exact List.foldl_ext _ _ _ fun a x hx => by rw [format_eq hw (hlen x hx)]

end Hexed.Status
