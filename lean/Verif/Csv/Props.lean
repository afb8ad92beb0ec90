import Verif.Csv.Spec
set_option autoImplicit false
set_option linter.unusedVariables false

/-!
# Reading tables (C40)
-/

namespace Hexed.Csv
variable {K : Type}

theorem span_append {c : Char} {a b : List Char} (ha : c ∉ a) : (a ++ c :: b).span (· ≠ c) = (a, c :: b) := by
  induction a with
  | nil => rw [List.span_eq_takeWhile_dropWhile]; simp
  | cons x a ih =>
    have hx : x ≠ c := fun h => ha (by simp [h])
    have := ih (fun h => ha (List.mem_cons_of_mem _ h))
    rw [List.span_eq_takeWhile_dropWhile, Prod.mk.injEq] at this ⊢
    simp [hx, List.takeWhile_append, List.dropWhile_append] at this ⊢
    exact this

theorem span_all {c : Char} {a : List Char} (ha : c ∉ a) : a.span (· ≠ c) = (a, []) := by
  rw [List.span_eq_takeWhile_dropWhile]
  induction a with
  | nil => rfl
  | cons x a ih =>
    have hx : x ≠ c := fun h => ha (by simp [h])
    have := ih (fun h => ha (List.mem_cons_of_mem _ h))
    rw [Prod.mk.injEq] at this ⊢
    simp [hx] at this ⊢
    exact this

theorem fields_cons {a b : List Char} (ha : ',' ∉ a) : fields (a ++ ',' :: b) = a :: fields b := by
  induction a with
  | nil => simp [fields]
  | cons x a ih =>
    have hx : x ≠ ',' := fun h => ha (by simp [h])
    rw [List.cons_append, fields, if_neg hx, ih (fun h => ha (List.mem_cons_of_mem _ h))]; rfl

theorem fields_single {a : List Char} (ha : ',' ∉ a) : fields a = [a] := by
  induction a with
  | nil => rfl
  | cons x a ih =>
    have hx : x ≠ ',' := fun h => ha (by simp [h])
    rw [fields, if_neg hx, ih (fun h => ha (List.mem_cons_of_mem _ h))]; rfl

theorem fields_length (l : List Char) : (fields l).length = l.count ',' + 1 := by
  induction l with
  | nil => rfl
  | cons x l ih =>
    rw [fields]
    split
    · rename_i h; rw [List.length_cons, ih, h, List.count_cons_self]
    · rename_i h
      rw [List.length_cons, List.length_tail, ih, List.count_cons_of_ne h]; omega

theorem getline_line (l r line : List Char) (h : '\n' ∉ l) : getline ⟨l ++ '\n' :: r, true⟩ line = (⟨r, true⟩, l) := by
  simp only [getline, if_true, span_append h]

theorem getline_last (l line : List Char) (h : '\n' ∉ l) : getline ⟨l, true⟩ line = (⟨[], false⟩, l) := by
  simp only [getline, if_true, span_all h]

/-- The row loop reads the row that was printed, ignoring further columns. -/
theorem readRow_text {stod : List Char → Option K} {pr : K → List Char} (hp : Printer stod pr) (row : List K) (acc : List K) (hne : row ≠ []) (tail : List Char) (ht : tail = [] ∨ ∃ t, tail = ',' :: t) :
    readRow stod row.length (some (rowText pr row ++ tail)) acc = .ok (acc ++ row) := by
  induction row generalizing acc with
  | nil => exact absurd rfl hne
  | cons x row ih =>
    cases row with
    | nil =>
      rw [rowText, List.length_singleton, readRow]
      have : ∃ r, (pr x ++ tail).span (· ≠ ',') = (pr x, r) := by
        rcases ht with rfl | ⟨t, rfl⟩
        · exact ⟨[], by rw [List.append_nil]; exact span_all (hp.comma x)⟩
        · exact ⟨_, span_append (hp.comma x)⟩
      obtain ⟨r, hr⟩ := this
      simp only [hr, hp.reads, readRow]
    | cons y row =>
      rw [rowText, List.length_cons, readRow, List.append_assoc, List.cons_append, span_append (hp.comma x)]
      simp only [hp.reads]
      rw [ih (acc ++ [x]) (by simp)]
      simp

theorem rowText_count {stod : List Char → Option K} {pr : K → List Char} (hp : Printer stod pr) (row : List K) (hne : row ≠ []) : (rowText pr row).count ',' + 1 = row.length := by
  induction row with
  | nil => exact absurd rfl hne
  | cons x row ih =>
    cases row with
    | nil => rw [rowText, List.count_eq_zero_of_not_mem (hp.comma x)]; rfl
    | cons y row =>
      rw [rowText, List.count_append, List.count_eq_zero_of_not_mem (hp.comma x), List.count_cons_self, Nat.zero_add, ih (by simp)]; rfl

theorem rowText_newline {stod : List Char → Option K} {pr : K → List Char} (hp : Printer stod pr) (row : List K) : '\n' ∉ rowText pr row := by
  induction row with
  | nil => simp [rowText]
  | cons x row ih =>
    cases row with
    | nil => exact hp.newline x
    | cons y row =>
      rw [rowText, List.mem_append, List.mem_cons]
      rintro (h | h | h)
      · exact hp.newline x h
      · revert h; decide
      · exact ih h

theorem rowText_ne {stod : List Char → Option K} {pr : K → List Char} (hp : Printer stod pr) (row : List K) (hne : row ≠ []) : rowText pr row ≠ [] := by
  cases row with
  | nil => exact absurd rfl hne
  | cons x row =>
    cases row with
    | nil => exact hp.ne x
    | cons y row => rw [rowText]; simp

theorem loop_table {stod : List Char → Option K} {pr : K → List Char} (hp : Printer stod pr) (cols : Nat) (hc : 0 < cols) (rows : List (List K)) (hr : ∀ r ∈ rows, r.length = cols) (n : Nat) (acc : List K) (row : List K) (hrow : row.length = cols) (rest : List Char) (hrest : rest = [] ∨ ∃ t, rest = '\n' :: t) (fuel : Nat) (hf : rows.length + 2 ≤ fuel) :
    loop stod cols fuel ⟨tableText pr rows ++ rest, true⟩ (rowText pr row) n acc = some (.table (n + 1 + rows.length) cols (acc ++ row ++ rows.flatten)) := by
  have hne : ∀ r : List K, r.length = cols → r ≠ [] := by rintro r h rfl; simp at h; omega
  induction rows generalizing n acc row fuel with
  | nil =>
    obtain ⟨f, rfl⟩ : ∃ f, fuel = f + 2 := ⟨fuel - 2, by simp at hf; omega⟩
    rw [loop, if_pos (rowText_ne hp row (hne row hrow)), ← hrow]
    have := readRow_text hp row acc (hne row hrow) [] (Or.inl rfl)
    rw [List.append_nil] at this
    rw [this]
    simp only [tableText, List.map_nil, List.flatten_nil, List.nil_append, List.append_nil, List.length_nil, Nat.add_zero]
    have hg : ∃ s, getline ⟨rest, true⟩ (rowText pr row) = (s, []) := by
      rcases hrest with rfl | ⟨t, rfl⟩
      · exact ⟨_, getline_last [] _ (by simp)⟩
      · exact ⟨_, getline_line [] t _ (by simp)⟩
    obtain ⟨s, hs⟩ := hg
    rw [hs]
    simp only [loop, ne_eq, not_true_eq_false, if_false]
  | cons r rows ih =>
    obtain ⟨f, rfl⟩ : ∃ f, fuel = f + 1 := ⟨fuel - 1, by simp at hf; omega⟩
    rw [loop, if_pos (rowText_ne hp row (hne row hrow))]
    have := readRow_text hp row acc (hne row hrow) [] (Or.inl rfl)
    rw [List.append_nil, hrow] at this
    rw [this]
    have e : tableText pr (r :: rows) ++ rest = rowText pr r ++ '\n' :: (tableText pr rows ++ rest) := by simp [tableText]
    simp only [e, getline_line _ _ _ (rowText_newline hp r)]
    rw [ih (fun r' h => hr r' (List.mem_cons_of_mem _ h)) (n + 1) (acc ++ row) r (hr r (by simp)) f (by simp at hf; omega)]
    congr 2
    · simp only [List.length_cons]; omega
    · simp

/-- C40, part of it (missing, because the code does not do it: a malformed file is rejected rather than misread, see the refutations below).
Reading back a rectangular table that has been printed, one line per row, returns exactly this table: for every number of rows and
columns, and whatever way the numbers are printed as long as `stod` restores them. -/
theorem round_trip_partial (stod : List Char → Option K) (pr : K → List Char) (hp : Printer stod pr) (cols : Nat) (hc : 0 < cols) (row : List K) (rows : List (List K)) (hr : ∀ r ∈ row :: rows, r.length = cols) :
    ∃ F, ∀ fuel ≥ F, readCsv stod fuel (tableText pr (row :: rows)) = some (.table (row :: rows).length cols (row :: rows).flatten) := by
  refine ⟨rows.length + 2, fun fuel hf => ?_⟩
  have hrow := hr row (by simp)
  have hne : row ≠ [] := by rintro rfl; simp at hrow; omega
  have e : tableText pr (row :: rows) = rowText pr row ++ '\n' :: (tableText pr rows ++ []) := by simp [tableText]
  rw [readCsv, e, getline_line _ _ _ (rowText_newline hp row)]
  simp only [rowText_count hp row hne, hrow]
  rw [loop_table hp cols hc rows (fun r h => hr r (by simp [h])) 0 [] row hrow [] (Or.inl rfl) fuel hf]
  simp [Nat.add_comm]

/-! ## Soundness for every file -/

/-- The entries which `readRow` returns are the first fields of the line. -/
theorem readRow_ok {stod : List Char → Option K} (n : Nat) (line : List Char) (acc vals : List K) (hn : 0 < n) (h : readRow stod n (some line) acc = .ok vals) :
    ∃ xs : List K, vals = acc ++ xs ∧ n ≤ (fields line).length ∧ ((fields line).take n).map stod = xs.map some := by
  induction n generalizing line acc with
  | zero => omega
  | succ n ih =>
    rw [readRow] at h
    by_cases hc : ',' ∈ line
    · obtain ⟨a, b, rfl, ha⟩ := List.append_of_mem hc |> fun ⟨a, b, e⟩ => List.eq_append_cons_of_mem hc
      rw [span_append ha] at h
      have hf := fields_cons (b := b) ha
      cases hs : stod a with
      | none => simp [hs] at h
      | some x =>
        simp only [hs] at h
        rcases Nat.eq_zero_or_pos n with rfl | hp
        · rw [readRow] at h
          injection h with h
          exact ⟨[x], h.symm, by rw [hf]; simp, by rw [hf]; simp [hs]⟩
        · obtain ⟨xs, e1, e2, e3⟩ := ih b (acc ++ [x]) hp h
          exact ⟨x :: xs, by rw [e1]; simp, by rw [hf]; simp; exact e2, by rw [hf]; simp [hs, e3]⟩
    · rw [span_all hc] at h
      have hf := fields_single hc
      cases hs : stod line with
      | none => simp [hs] at h
      | some x =>
        simp only [hs] at h
        cases n with
        | zero =>
          rw [readRow] at h
          injection h with h
          exact ⟨[x], h.symm, by rw [hf]; simp, by rw [hf]; simp [hs]⟩
        | succ n => rw [readRow] at h; cases h

/-- What `getline` does to a good stream. -/
theorem getline_good (text line : List Char) : (∃ l r, text = l ++ '\n' :: r ∧ '\n' ∉ l ∧ getline ⟨text, true⟩ line = (⟨r, true⟩, l)) ∨
    ('\n' ∉ text ∧ getline ⟨text, true⟩ line = (⟨[], false⟩, text)) := by
  by_cases h : '\n' ∈ text
  · obtain ⟨a, b, rfl, ha⟩ := List.eq_append_cons_of_mem h
    exact Or.inl ⟨a, b, rfl, ha, getline_line a b line ha⟩
  · exact Or.inr ⟨h, getline_last text line h⟩

theorem loop_bad_stream {stod : List Char → Option K} (cols fuel : Nat) (rest line : List Char) (hl : line ≠ []) (n : Nat) (acc : List K) (r c : Nat) (d : List K) :
    loop stod cols fuel ⟨rest, false⟩ line n acc ≠ some (.table r c d) := by
  induction fuel generalizing n acc with
  | zero => simp [loop]
  | succ f ih =>
    rw [loop, if_pos hl]
    cases readRow stod cols (some line) acc with
    | bad e => simp
    | ub => simp
    | ok v => exact ih _ _

theorem loop_sound {stod : List Char → Option K} (cols : Nat) (hc : 0 < cols) (fuel : Nat) (text line : List Char) (n : Nat) (acc : List K) (r c : Nat) (d : List K) (hnl : '\n' ∉ line)
    (h : loop stod cols fuel ⟨text, true⟩ line n acc = some (.table r c d)) :
    ∃ (lines : List (List Char)) (rest : List Char), line ++ '\n' :: text = (lines.map fun l => l ++ ['\n']).flatten ++ rest ∧ (rest = [] ∨ ∃ t, rest = '\n' :: t) ∧
      (∀ l ∈ lines, l ≠ [] ∧ '\n' ∉ l ∧ cols ≤ (fields l).length) ∧ (∀ l ∈ lines.head?, l = line) ∧ r = n + lines.length ∧ c = cols ∧ ∃ xs : List K, d = acc ++ xs ∧
      (lines.map fun l => ((fields l).take cols).map stod).flatten = xs.map some := by
  induction fuel generalizing text line n acc with
  | zero => simp [loop] at h
  | succ f ih =>
    rw [loop] at h
    by_cases hl : line = []
    · rw [if_neg (by simpa using hl)] at h
      simp only [Option.some.injEq, Result.table.injEq] at h
      obtain ⟨rfl, rfl, rfl⟩ := h
      exact ⟨[], '\n' :: text, by simp [hl], Or.inr ⟨text, rfl⟩, by simp, by simp, rfl, rfl, [], by simp, by simp⟩
    · rw [if_pos hl] at h
      cases hr : readRow stod cols (some line) acc with
      | bad e => simp [hr] at h
      | ub => simp [hr] at h
      | ok v =>
        obtain ⟨xs, e1, e2, e3⟩ := readRow_ok cols line acc v hc hr
        simp only [hr] at h
        rcases getline_good text line with ⟨l, rest, rfl, hnl', hg⟩ | ⟨hno, hg⟩
        · rw [hg] at h
          obtain ⟨lines, rest', a1, a2, a3, a4, a5, a6, ys, a7, a8⟩ := ih rest l (n + 1) v hnl' h
          refine ⟨line :: lines, rest', ?_, a2, ?_, by simp, by rw [a5, List.length_cons]; omega, a6, xs ++ ys, by rw [a7, e1, List.append_assoc], ?_⟩
          · rw [a1]; simp
          · intro l' hl'
            rcases List.mem_cons.1 hl' with rfl | hl'
            · exact ⟨hl, hnl, e2⟩
            · exact a3 l' hl'
          · rw [List.map_cons, List.flatten_cons, a8, e3, List.map_append]
        · rw [hg] at h
          by_cases ht : text = []
          · subst ht
            cases f with
            | zero => simp [loop] at h
            | succ f =>
              simp only [loop, ne_eq, not_true_eq_false, if_false, Option.some.injEq, Result.table.injEq] at h
              obtain ⟨rfl, rfl, rfl⟩ := h
              refine ⟨[line], [], by simp, Or.inl rfl, ?_, by simp, by simp, rfl, xs, e1, by simpa using e3⟩
              intro l' hl'
              rw [List.mem_singleton.1 hl']; exact ⟨hl, hnl, e2⟩
          · exact absurd h (loop_bad_stream cols f [] text ht _ _ r c d)

/-- C40, part of it (missing: malformed files are rejected, see the refutations below). For every file whatsoever, if `read_csv` returns a table then its rows are the leading nonempty lines of the file, one each, each ended by
a newline, up to the end of the file or the first empty line; the number of columns is the number of entries of the first line; every
line has at least that many entries, and the values are `stod` of the first entries of each line, in order. -/
theorem read_sound_partial (stod : List Char → Option K) (fuel : Nat) (text : List Char) (r c : Nat) (d : List K) (h : readCsv stod fuel text = some (.table r c d)) :
    ∃ (lines : List (List Char)) (rest : List Char), text = (lines.map fun l => l ++ ['\n']).flatten ++ rest ∧ (rest = [] ∨ ∃ t, rest = '\n' :: t) ∧
      (∀ l ∈ lines, l ≠ [] ∧ '\n' ∉ l ∧ c ≤ (fields l).length) ∧ (∀ l ∈ lines.head?, c = (fields l).length) ∧ r = lines.length ∧
      (lines.map fun l => ((fields l).take c).map stod).flatten = d.map some := by
  rw [readCsv] at h
  rcases getline_good text [] with ⟨l, rest, rfl, hnl, hg⟩ | ⟨hno, hg⟩
  · rw [hg] at h
    obtain ⟨lines, rest', a1, a2, a3, a4, a5, rfl, xs, a7, a8⟩ := loop_sound _ (by omega) fuel rest l 0 [] r c d hnl h
    refine ⟨lines, rest', a1, a2, a3, fun l' hl' => by rw [a4 l' hl', fields_length], by omega, ?_⟩
    rw [a8, a7, List.nil_append]
  · rw [hg] at h
    by_cases ht : text = []
    · subst ht
      cases fuel with
      | zero => simp [loop] at h
      | succ f =>
        simp only [loop, ne_eq, not_true_eq_false, if_false, Option.some.injEq, Result.table.injEq] at h
        obtain ⟨rfl, rfl, rfl⟩ := h
        exact ⟨[], [], rfl, Or.inl rfl, by simp, by simp, rfl, rfl⟩
    · exact absurd h (loop_bad_stream _ fuel [] text ht _ _ r c d)

/-! ## Malformed files -/

/-- Refuted: a table whose last line is not ended by a newline makes `read_csv` read this line again and again without end, because
`std::getline` leaves `line` as it was once the end of the file has been reached. -/
theorem no_final_newline_hangs (stod : List Char → Option K) (pr : K → List Char) (hp : Printer stod pr) (row : List K) (hne : row ≠ []) (fuel : Nat) :
    readCsv stod fuel (rowText pr row) = none := by
  rw [readCsv, getline_last _ _ (rowText_newline hp row)]
  simp only [rowText_count hp row hne]
  have : ∀ fuel n acc, loop stod row.length fuel ⟨[], false⟩ (rowText pr row) n acc = none := by
    intro fuel
    induction fuel with
    | zero => intros; rfl
    | succ f ih =>
      intro n acc
      rw [loop, if_pos (rowText_ne hp row hne)]
      have := readRow_text hp row acc hne [] (Or.inl rfl)
      rw [List.append_nil] at this
      rw [this]
      exact ih _ _
  exact this fuel 0 []

/-- Refuted: everything behind an empty line is silently ignored. -/
theorem blank_line_truncates (stod : List Char → Option K) (pr : K → List Char) (hp : Printer stod pr) (cols : Nat) (hc : 0 < cols) (row : List K) (rows : List (List K)) (hr : ∀ r ∈ row :: rows, r.length = cols) (t : List Char) :
    ∃ F, ∀ fuel ≥ F, readCsv stod fuel (tableText pr (row :: rows) ++ '\n' :: t) = some (.table (row :: rows).length cols (row :: rows).flatten) := by
  refine ⟨rows.length + 2, fun fuel hf => ?_⟩
  have hrow := hr row (by simp)
  have hne : row ≠ [] := by rintro rfl; simp at hrow; omega
  have e : tableText pr (row :: rows) ++ '\n' :: t = rowText pr row ++ '\n' :: (tableText pr rows ++ '\n' :: t) := by simp [tableText]
  rw [readCsv, e, getline_line _ _ _ (rowText_newline hp row)]
  simp only [rowText_count hp row hne, hrow]
  rw [loop_table hp cols hc rows (fun r h => hr r (by simp [h])) 0 [] row hrow _ (Or.inr ⟨t, rfl⟩) fuel hf]
  simp [Nat.add_comm]

/-- Refuted: a later row with more entries than the first is accepted, the surplus dropped. -/
theorem surplus_ignored (stod : List Char → Option K) (pr : K → List Char) (hp : Printer stod pr) (x y z : K) :
    ∃ F, ∀ fuel ≥ F, readCsv stod fuel (tableText pr [[x], [y, z]]) = some (.table 2 1 [x, y]) := by
  refine ⟨3, fun fuel hf => ?_⟩
  obtain ⟨f, rfl⟩ : ∃ f, fuel = f + 3 := ⟨fuel - 3, by omega⟩
  have e : tableText pr [[x], [y, z]] = rowText pr [x] ++ '\n' :: (rowText pr [y, z] ++ '\n' :: []) := by simp [tableText]
  rw [readCsv, e, getline_line _ _ _ (rowText_newline hp [x])]
  simp only [rowText_count hp [x] (by simp)]
  rw [loop, if_pos (rowText_ne hp _ (by simp))]
  have h1 := readRow_text hp [x] [] (by simp) [] (Or.inl rfl)
  rw [List.append_nil] at h1
  rw [h1, getline_line _ _ _ (rowText_newline hp [y, z])]
  simp only
  rw [loop, if_pos (rowText_ne hp _ (by simp))]
  have h2 := readRow_text hp [y] ([] ++ [x]) (by simp) (',' :: rowText pr [z]) (Or.inr ⟨_, rfl⟩)
  rw [show rowText pr [y] ++ ',' :: rowText pr [z] = rowText pr [y, z] from rfl, show [y].length = [x].length from rfl] at h2
  rw [h2, getline_last [] _ (by simp)]
  simp [loop]

/-- Refuted: a later row with fewer entries than the first is not rejected: the reader runs over the end of the line. -/
theorem short_row_undefined (stod : List Char → Option K) (pr : K → List Char) (hp : Printer stod pr) (x y z : K) :
    ∃ F, ∀ fuel ≥ F, readCsv stod fuel (tableText pr [[x, y], [z]]) = some .ub := by
  refine ⟨2, fun fuel hf => ?_⟩
  obtain ⟨f, rfl⟩ : ∃ f, fuel = f + 2 := ⟨fuel - 2, by omega⟩
  have e : tableText pr [[x, y], [z]] = rowText pr [x, y] ++ '\n' :: (rowText pr [z] ++ '\n' :: []) := by simp [tableText]
  rw [readCsv, e, getline_line _ _ _ (rowText_newline hp [x, y])]
  simp only [rowText_count hp [x, y] (by simp)]
  rw [loop, if_pos (rowText_ne hp _ (by simp))]
  have h1 := readRow_text hp [x, y] [] (by simp) [] (Or.inl rfl)
  rw [List.append_nil] at h1
  rw [h1, getline_line _ _ _ (rowText_newline hp [z])]
  simp only
  rw [loop, if_pos (rowText_ne hp _ (by simp))]
  have h2 : readRow stod [x, y].length (some (rowText pr [z])) ([] ++ [x, y]) = .ub := by
    show readRow stod 2 (some (pr z)) _ = .ub
    rw [readRow, span_all (hp.comma z)]
    simp only [hp.reads, readRow]
  rw [h2]

/-! ## Non-vacuity -/

/-- Unary numbers: a printer and a reader that meet the hypotheses. -/
def unaryPr (n : Nat) : List Char := '0' :: List.replicate n '1'
/-- The reader. -/
def unaryStod (l : List Char) : Option Nat := match l with | [] => none | _ :: r => some r.length

theorem unary_printer : Printer unaryStod unaryPr where
  reads n := by simp [unaryStod, unaryPr]
  comma n := by rw [unaryPr, List.mem_cons, List.mem_replicate]; rintro (h | ⟨_, h⟩) <;> exact absurd h (by decide)
  newline n := by rw [unaryPr, List.mem_cons, List.mem_replicate]; rintro (h | ⟨_, h⟩) <;> exact absurd h (by decide)
  ne n := by simp [unaryPr]

example : ∃ F, ∀ fuel ≥ F, readCsv unaryStod fuel (tableText unaryPr [[1, 2], [3, 4], [0, 5]]) = some (.table 3 2 [1, 2, 3, 4, 0, 5]) :=
  round_trip_partial unaryStod unaryPr unary_printer 2 (by decide) [1, 2] [[3, 4], [0, 5]] (by simp)

example : ∃ r c d, readCsv unaryStod 5 (tableText unaryPr [[1, 2], [3, 4]]) = some (.table r c d) := ⟨2, 2, [1, 2, 3, 4], by rfl⟩

end Hexed.Csv
