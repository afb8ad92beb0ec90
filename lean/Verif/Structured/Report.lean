import Verif.Structured.Sub
set_option autoImplicit false
set_option linter.unusedVariables false

/-!
# The table that is printed during a simulation (C83)
-/

namespace Hexed.Structured
open Hexed.Namespace Hexed.Hil
variable {D : Type}

/-- `s` at the end of a field of `w` characters, after spaces. -/
def rightAligned (w : Nat) (s : List Char) : List Char := List.replicate (w - s.length) ' ' ++ s

/-- Columns, aligned to the right in fields as wide as the name but at least 15, separated by a comma and a space. -/
def table : List (List Char × List Char) → List Char
  | [] => []
  | [p] => rightAligned (max 15 p.1.length) p.2
  | p :: q :: ps => rightAligned (max 15 p.1.length) p.2 ++ [',', ' '] ++ table (q :: ps)

/-- The same with a comma and a space at the end, too. -/
def raw (ps : List (List Char × List Char)) : List Char := (ps.map fun p => rightAligned (max 15 p.1.length) p.2 ++ [',', ' ']).flatten

theorem raw_table : ∀ ps : List (List Char × List Char), ps ≠ [] → raw ps = table ps ++ [',', ' '] := by
  intro ps
  induction ps with
  | nil => simp
  | cons p ps ih =>
    intro _
    cases ps with
    | nil => simp [raw, table]
    | cons q ps =>
      have := ih (by simp)
      simp only [raw, List.map_cons, List.flatten_cons] at this ⊢
      rw [this]
      simp [table]

theorem erase_raw {ps : List (List Char × List Char)} (h : ps ≠ []) (st : St D) : eraseTwo (raw ps) st = .line (table ps) st := by
  rw [raw_table ps h]
  simp [eraseTwo]

/-- A column that fits in the buffer of `format_str`. -/
def Fits (p : List Char × List Char) : Prop := max (max 15 p.1.length) p.2.length ≤ 997

theorem column_fits {n s : List Char} (h : Fits (n, s)) : column n s = some (rightAligned (max 15 n.length) s ++ [',', ' ']) := by
  simp only [Fits] at h
  simp only [column, padLeft, rightAligned, List.length_append, List.length_replicate, List.length_cons, List.length_nil]
  rw [if_neg (by omega)]

/-- `header` is the list of names. -/
theorem header_exact (names : List (List Char)) (h : names ≠ []) (hf : ∀ n ∈ names, Fits (n, n)) (st : St D) :
    header names st = .line (table (names.map fun n => (n, n))) st := by
  have : (names.mapM fun n => column n n) = some (names.map fun n => rightAligned (max 15 n.length) n ++ [',', ' ']) := by
    clear h
    induction names with
    | nil => rfl
    | cons n ns ih => simp [List.mapM_cons, column_fits (hf n (by simp)), ih fun m hm => hf m (by simp [hm])]
  rw [header, this]
  have h2 := erase_raw (ps := names.map fun n => (n, n)) (by simpa using h) st
  simp only [raw, List.map_map] at h2
  exact h2

/-- No variables to print: undefined behaviour. -/
theorem header_empty_refuted (st : St D) : header [] st = .ub := rfl

theorem report_loop (env : Env D) (me : Nat) (hme : me ≠ env.me) (intText : Int → List Char) (dblText : D → List Char) {ss : List (Stmt × List Char)} {h h' : Heap D} {o o' : List String}
    {cols : List (List Char)} (hrep : Reported env me intText dblText ss h o cols h' o') :
    ∀ (exprs : List (List Char)) (acc : List Char) (st : St D), st.heap = h → st.out = o → (∀ p ∈ ss, Well p) → List.Forall₂ (fun p s => Render p.1.rhs s) ss exprs →
    Reachable env.dbl.ofInt h → me < h.length → env.me < h.length → (∀ p ∈ (ss.map target).zip cols, Fits p) →
    ∃ st', Ev (fun f => reportLoop env me intText dblText f (ss.map target) exprs acc st) (eraseTwo (acc ++ raw ((ss.map target).zip cols)) st') ∧ st'.heap = h' ∧ st'.out = o' ∧
      cols.length = ss.length ∧ (∀ id m, ((id ≠ env.me ∧ id ≠ me) ∨ m ∉ ss.map fun p => String.ofList (target p)) → cell h' id m = cell h id m) := by
  have key : ∀ {p : Stmt × List Char} {ss : List (Stmt × List Char)} {h h1 h2 h' : Heap D} {o o1 o' : List String} {cols : List (List Char)} (v : Val D) (txt : List Char),
      (∃ i, v = .int i ∧ txt = intText i) ∨ (∃ d, v = .dbl d ∧ txt = dblText d) →
      p.1.rhs.Plain env h → p.1.meaning env h = .ok (o1, h1) → cell h1 env.me (String.ofList (target p)) = some (.val v) →
      step env.dbl.ofInt h1 (.assign me (String.ofList (target p)) v) = .ok h2 →
      (∀ (exprs : List (List Char)) (acc : List Char) (st : St D), st.heap = h2 → st.out = o ++ o1 → (∀ p ∈ ss, Well p) → List.Forall₂ (fun p s => Render p.1.rhs s) ss exprs →
        Reachable env.dbl.ofInt h2 → me < h2.length → env.me < h2.length → (∀ p ∈ (ss.map target).zip cols, Fits p) →
        ∃ st', Ev (fun f => reportLoop env me intText dblText f (ss.map target) exprs acc st) (eraseTwo (acc ++ raw ((ss.map target).zip cols)) st') ∧ st'.heap = h' ∧ st'.out = o' ∧
          cols.length = ss.length ∧ (∀ id m, ((id ≠ env.me ∧ id ≠ me) ∨ m ∉ ss.map fun p => String.ofList (target p)) → cell h' id m = cell h2 id m)) →
      ∀ (exprs : List (List Char)) (acc : List Char) (st : St D), st.heap = h → st.out = o → (∀ q ∈ p :: ss, Well q) → List.Forall₂ (fun p s => Render p.1.rhs s) (p :: ss) exprs →
        Reachable env.dbl.ofInt h → me < h.length → env.me < h.length → (∀ q ∈ ((p :: ss).map target).zip (txt :: cols), Fits q) →
        ∃ st', Ev (fun f => reportLoop env me intText dblText f ((p :: ss).map target) exprs acc st) (eraseTwo (acc ++ raw (((p :: ss).map target).zip (txt :: cols))) st') ∧ st'.heap = h' ∧ st'.out = o' ∧
          (txt :: cols).length = (p :: ss).length ∧ (∀ id m, ((id ≠ env.me ∧ id ≠ me) ∨ m ∉ (p :: ss).map fun p => String.ofList (target p)) → cell h' id m = cell h id m) := by
    intro p ss h h1 h2 h' o o1 o' cols v txt hv hpl hm hcell hstep ih exprs acc st hh ho hw hf r hlt hme' hfit
    cases hf with
    | @cons _ s _ exprs hrend hf =>
      obtain ⟨n, e, hp, hn, hc⟩ := hw p (by simp)
      obtain ⟨p1, src⟩ := p
      simp only at hp
      subst hp
      simp only [show target (⟨[n], e⟩, src) = n from rfl] at *
      subst hh ho
      obtain ⟨w, hw1, hst⟩ := meaning_ok hm
      obtain ⟨r1, hl1, hfr, _⟩ := store_ok r hme' hst
      obtain ⟨N, hN⟩ := exec_spaced env st hn hc hrend hpl hm
      have ha := assign_exact r1 me (by omega) (String.ofList n) v
      obtain ⟨hl2, hfr2⟩ : h2.length = h1.length ∧ ∀ id m, ¬ (id = me ∧ m = String.ofList n) → cell h2 id m = cell h1 id m := by
        cases hsp : specAssign env.dbl.ofInt (cell h1 me (String.ofList n)) v with
        | none => rw [hsp] at ha; rw [hstep] at ha; cases ha
        | some c =>
          rw [hsp] at ha
          obtain ⟨h'', e', _, h4, _⟩ := ha
          rw [hstep] at e'
          obtain rfl := Outcome.ok.inj e'
          refine ⟨?_, h4⟩
          simp only [step] at hstep
          obtain ⟨s, s', h4, h5, h6⟩ := onSpace_ok _ _ _ _ hstep
          subst h6; simp
      have r2 : Reachable env.dbl.ofInt h2 := by
        have := reachable_exec r1 [Op.assign me (String.ofList n) v]
        simpa [Namespace.exec, hstep] using this
      have hcol := column_fits (hfit (n, txt) (by simp [target]))
      obtain ⟨st', ⟨M, hM⟩, a, b, c, d⟩ := ih exprs (acc ++ (rightAligned (max 15 n.length) txt ++ [',', ' '])) { st with text := [], heap := h2, out := st.out ++ o1 } rfl rfl (fun q hq => hw q (by simp [hq])) hf r2
        (by omega) (by omega) (fun q hq => hfit q (by simp [hq]))
      refine ⟨st', ⟨max N M, fun f hf => ?_⟩, a, b, by simp [c], ?_⟩
      · have e1 := hN f (by omega)
        have e2 := hM f (by omega)
        have hlk := lookup_local r1 hcell
        simp only [List.map_cons, reportLoop, show target (⟨[n], e⟩, src) = n from rfl]
        simp only at e1
        rw [e1]
        simp only [hlk]
        have e3 : acc ++ raw ((n :: ss.map target).zip (txt :: cols)) = acc ++ (rightAligned (max 15 n.length) txt ++ [',', ' ']) ++ raw ((ss.map target).zip cols) := by simp [raw]
        rw [e3]
        rcases hv with ⟨i, rfl, rfl⟩ | ⟨d, rfl, rfl⟩
        · simp only [specInt, hcol, hstep]; exact e2
        · simp only [specInt, specDbl, hcol, hstep]; exact e2
      · intro id m hne
        rw [d id m (hne.imp_right fun hx hy => hx (by simpa using Or.inr hy)), hfr2 id m, hfr id m]
        · rintro ⟨rfl, rfl⟩
          rcases hne with hx | hx
          · exact hx.1 rfl
          · exact hx (by simp [target])
        · rintro ⟨rfl, rfl⟩
          rcases hne with hx | hx
          · exact hx.2 rfl
          · exact hx (by simp [target])
  induction hrep with
  | done h o =>
    intro exprs acc st hh ho _ hf r _ _ _
    cases hf
    exact ⟨st, ⟨0, fun f _ => by simp [reportLoop, raw]⟩, hh, ho, rfl, fun _ _ _ => rfl⟩
  | int i h1 h2 h3 h4 _ ih => exact key (.int i) (intText i) (Or.inl ⟨i, rfl, rfl⟩) h1 h2 h3 h4 ih
  | dbl d h1 h2 h3 h4 _ ih => exact key (.dbl d) (dblText d) (Or.inr ⟨d, rfl, rfl⟩) h1 h2 h3 h4 ih

/-- `report` is the list of the values of the variables in `print_vars`: those that the statements assign, executed one after the other by a sub-interpreter. In the end the
variables of the case with these names have these values, and no other variable that existed has changed. -/
theorem report_exact (env : Env D) (hugeVal : D) (intText : Int → List Char) (dblText : D → List Char) {ss : List (Stmt × List Char)} {t : List Char} (hs : Structured ss t)
    (hne : ss ≠ []) {names exprs : List (List Char)} (hmake : make t = .ok names exprs) (st : St D) (r : Reachable env.dbl.ofInt st.heap) (hme : env.me < st.heap.length)
    {cols : List (List Char)} {h : Heap D} {o : List String}
    (hrep : Reported { env with me := st.heap.length } env.me intText dblText ss (makeSub env.dbl hugeVal st.heap env.me) st.out cols h o)
    (hf : ∀ p ∈ names.zip cols, Fits p) :
    names.length = cols.length ∧ (∃ st', Ev (fun f => report env hugeVal intText dblText f names exprs st) (.line (table (names.zip cols)) st') ∧ st'.heap = h ∧ st'.out = o) ∧
    ∀ j m, j < st.heap.length → (j ≠ env.me ∨ m ∉ names.map String.ofList) → cell h j m = cell st.heap j m := by
  obtain ⟨exprs', h1, h2⟩ := parse_exact hs
  rw [hmake] at h1
  obtain ⟨rfl, rfl⟩ := Made.ok.inj h1
  have e := makeSub_eq env.dbl hugeVal st.heap env.me hme
  have r1 : Reachable env.dbl.ofInt (makeSub env.dbl hugeVal st.heap env.me) := reachable_exec r _
  obtain ⟨st', a, b, c, d, f⟩ := report_loop { env with me := st.heap.length } env.me (by simp only; omega) intText dblText hrep exprs []
    { st with text := [], heap := makeSub env.dbl hugeVal st.heap env.me } rfl rfl (structured_well hs) h2 r1 (by rw [e]; simp; omega) (by rw [e]; simp) hf
  refine ⟨by simp [d], ⟨st', ?_, b, c⟩, fun j m hj hm => ?_⟩
  · obtain ⟨N, hN⟩ := a
    refine ⟨N, fun g hg => ?_⟩
    have := hN g hg
    simp only [List.nil_append] at this
    rw [erase_raw] at this
    · exact this
    · intro hz
      rw [List.zip_eq_nil_iff] at hz
      rcases hz with hz | hz
      · simp [hne] at hz
      · rw [hz] at d; simp at d; exact hne (List.length_eq_zero_iff.1 d.symm)
  · rw [f j m]
    · rw [e]; exact cell_old _ _ hj m
    · rcases hm with hm | hm
      · exact Or.inl ⟨by simp only; omega, hm⟩
      · exact Or.inr fun hx => hm (by simpa using hx)

theorem table_cons (p : List Char × List Char) (ps : List (List Char × List Char)) (h : ps ≠ []) : table (p :: ps) = rightAligned (max 15 p.1.length) p.2 ++ [',', ' '] ++ table ps := by
  cases ps with
  | nil => exact absurd rfl h
  | cons q ps => rfl

/-- A text as wide as its field. -/
theorem rightAligned_length {w : Nat} {s : List Char} (h : s.length ≤ w) : (rightAligned w s).length = w := by simp [rightAligned]; omega

theorem table_split : ∀ (a b : List (List Char × List Char)) (p : List Char × List Char), ∃ x y, table (a ++ p :: b) = x ++ (rightAligned (max 15 p.1.length) p.2 ++ y) ∧
    ((∀ q ∈ a, q.2.length ≤ max 15 q.1.length) → x.length = (a.map fun q => max 15 q.1.length + 2).sum) := by
  intro a
  induction a with
  | nil =>
    intro b p
    cases b with
    | nil => exact ⟨[], [], by simp [table], by simp⟩
    | cons q b => exact ⟨[], [',', ' '] ++ table (q :: b), by simp [table], by simp⟩
  | cons q a ih =>
    intro b p
    obtain ⟨x, y, h1, h2⟩ := ih b p
    refine ⟨rightAligned (max 15 q.1.length) q.2 ++ [',', ' '] ++ x, y, ?_, fun hq => ?_⟩
    · rw [List.cons_append, table_cons _ _ (by simp), h1]; simp
    · have h3 := rightAligned_length (hq q (by simp))
      simp only [List.length_append, h3, h2 fun r hr => hq r (by simp [hr]), List.map_cons, List.sum_cons, List.length_cons, List.length_nil]

/-- Each value is printed under its name: if no value is wider than its column, the value and the name end at the same place of the line. -/
theorem aligned (names cols : List (List Char)) (hl : names.length = cols.length) (hw : ∀ p ∈ names.zip cols, p.2.length ≤ max 15 p.1.length) (i : Nat) (hi : i < names.length) :
    ∃ x y x' y', table (names.map fun n => (n, n)) = x ++ (rightAligned (max 15 names[i].length) names[i] ++ y) ∧
      table (names.zip cols) = x' ++ (rightAligned (max 15 names[i].length) cols[i] ++ y') ∧ x.length = x'.length ∧
      (rightAligned (max 15 names[i].length) names[i]).length = (rightAligned (max 15 names[i].length) cols[i]).length := by
  have hz : names.zip cols = (names.zip cols).take i ++ (names[i], cols[i]) :: (names.zip cols).drop (i + 1) := by
    have := (List.take_append_drop i (names.zip cols)).symm
    rw [List.drop_eq_getElem_cons (by simp; omega)] at this
    simpa using this
  have hn : (names.map fun n => (n, n)) = (names.map fun n => (n, n)).take i ++ (names[i], names[i]) :: (names.map fun n => (n, n)).drop (i + 1) := by
    have := (List.take_append_drop i (names.map fun n => (n, n))).symm
    rw [List.drop_eq_getElem_cons (by simpa using hi)] at this
    simpa using this
  obtain ⟨x, y, h1, h2⟩ := table_split ((names.map fun n => (n, n)).take i) ((names.map fun n => (n, n)).drop (i + 1)) (names[i], names[i])
  obtain ⟨x', y', h3, h4⟩ := table_split ((names.zip cols).take i) ((names.zip cols).drop (i + 1)) (names[i], cols[i])
  rw [← hn] at h1
  rw [← hz] at h3
  refine ⟨x, y, x', y', h1, h3, ?_, ?_⟩
  · rw [h2, h4 fun q hq => hw q (List.mem_of_mem_take hq)]
    · congr 1
      have e1 : ((names.zip cols).take i).map (fun q => max 15 q.1.length + 2) = ((names.zip cols).map Prod.fst |>.take i).map fun n => max 15 n.length + 2 := by
        rw [← List.map_take, List.map_map]; rfl
      rw [e1, List.map_fst_zip (by omega), ← List.map_take, List.map_map]
      rfl
    · intro q hq
      obtain ⟨n, _, rfl⟩ := List.mem_map.1 (List.mem_of_mem_take hq)
      exact Nat.le_max_right _ _
  · rw [rightAligned_length (Nat.le_max_right _ _), rightAligned_length (hw (names[i], cols[i]) (by rw [hz]; simp))]

end Hexed.Structured
