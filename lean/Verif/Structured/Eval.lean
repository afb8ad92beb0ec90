import Verif.Structured.Parse
set_option autoImplicit false
set_option linter.unusedVariables false

/-!
# Evaluating a structured expression (C83)
-/

namespace Hexed.Structured
open Hexed.Namespace Hexed.Hil
variable {D : Type}

theorem name_not_space {c : Char} (h : isNameChar c = true) : isWhite c = false := by
  by_contra hs
  have hs : isWhite c = true := by simpa using hs
  rw [← isspace_eq] at hs
  simp only [isspace, decide_eq_true_eq] at hs
  rcases hs with rfl | rfl | rfl | rfl | rfl | rfl <;> revert h <;> decide

theorem digit_not_space {c : Char} (h : c.isDigit = true) : isWhite c = false := name_not_space (by simp [isNameChar, h])

theorem trimmed_of {s : List Char} (hne : s ≠ []) (h : ∀ c ∈ s, isWhite c = false) : Trimmed s := by
  refine ⟨s.head hne, s.getLast hne, List.head?_eq_some_head hne, List.getLast?_eq_some_getLast hne, h _ (List.head_mem hne), h _ (List.getLast_mem hne)⟩

theorem isNum_trimmed {s : List Char} (h : IsNum s) : Trimmed s := by
  have hne : s ≠ [] := by obtain ⟨c, cs, rfl, _⟩ := IsNum.head h; simp
  refine trimmed_of hne fun c hc => ?_
  obtain ⟨a, fr, ex, ha, hf, he, rfl⟩ := h
  rcases List.mem_append.1 hc with hc | hc
  · exact digit_not_space (ha c hc)
  rcases List.mem_append.1 hc with hc | hc
  · rcases hf with ⟨rfl, _⟩ | ⟨b, hb, rfl⟩
    · simp at hc
    · rcases List.mem_cons.1 hc with rfl | hc
      · decide
      · exact digit_not_space (hb c hc)
  · rcases he with rfl | ⟨e, sg, d, h1, h2, h3, h4, rfl⟩
    · simp at hc
    · rcases List.mem_cons.1 hc with rfl | hc
      · rcases h1 with rfl | rfl <;> decide
      · rcases List.mem_append.1 hc with hc | hc
        · rcases h2 with rfl | rfl | rfl
          · simp at hc
          · simp only [List.mem_singleton] at hc; subst hc; decide
          · simp only [List.mem_singleton] at hc; subst hc; decide
        · exact digit_not_space (h4 c hc)

theorem Trimmed.ne {s : List Char} (h : Trimmed s) : s ≠ [] := by
  obtain ⟨c, _, h, _⟩ := h; rintro rfl; simp at h

theorem trimmed_append {a b t : List Char} (ha : ∃ c, a.head? = some c ∧ isWhite c = false) (hb : Trimmed b) : Trimmed (a ++ (t ++ b)) := by
  obtain ⟨c, hc, hc'⟩ := ha
  obtain ⟨_, d, h1, hd, _, hd'⟩ := id hb
  have hb0 := hb.ne
  have ha0 : a ≠ [] := by rintro rfl; simp at hc
  refine ⟨c, d, by rw [head_append ha0, hc], ?_, hc', hd'⟩
  rw [List.getLast?_append_of_ne_nil _ (by simp [hb0]), List.getLast?_append_of_ne_nil _ hb0, hd]

theorem render_trimmed {e : Expr} {s : List Char} (h : Render e s) (hc : e.Canonical) : Trimmed s := by
  induction h with
  | num s => exact isNum_trimmed hc
  | @str src v h => exact ⟨'{', '}', rfl, by rw [List.getLast?_append_of_ne_nil _ (by simp)]; rfl, by decide, by decide⟩
  | var n =>
    obtain ⟨⟨c, cs, rfl, _⟩, h, _⟩ := hc
    exact trimmed_of (by simp) fun d hd => name_not_space (h d hd)
  | @un op e s i h hw ih =>
    refine trimmed_append ?_ (ih hc.2.2)
    have hop := hc.1
    revert hop
    clear hw ih hc
    intro hop
    have : ∀ o ∈ unOps, (match o.toList.head? with | some c => !isWhite c | none => false) = true := by decide
    have := this op hop
    cases hh : op.toList.head? with
    | none => rw [hh] at this; cases this
    | some c => rw [hh] at this; exact ⟨c, rfl, by simpa using this⟩
  | @bin op a b s t i j h1 h2 ih1 ih2 =>
    obtain ⟨c, _, hh, _, hs, _⟩ := ih1 hc.2.2.1
    have := trimmed_append (t := spaces i ++ (symbol op ++ spaces j)) ⟨c, hh, hs⟩ (ih2 hc.2.2.2)
    simpa [List.append_assoc] using this
  | @paren e s i j h ih =>
    exact ⟨'(', ')', rfl, by
      rw [← List.append_assoc, ← List.append_assoc, ← List.cons_append, List.getLast?_append_of_ne_nil _ (by simp)]; rfl, by decide, by decide⟩

theorem isName_trimmed {n : List Char} (h : IsName n) : Trimmed n := by
  obtain ⟨⟨c, cs, rfl, _⟩, h, _⟩ := h
  exact trimmed_of (by simp) fun d hd => name_not_space (h d hd)

theorem isName_no {n : List Char} (h : IsName n) {c : Char} (hc : isNameChar c = false) : c ∉ n := fun hm => by
  have this : isNameChar c = true := h.2.1 c hm; rw [hc] at this; cases this

theorem spaces_blank (k : Nat) : Blank (spaces k) := fun c hc => by
  rw [List.eq_of_mem_replicate hc]; decide

/-- The sides of a list of statements whose first is blank. -/
theorem sides_blank (right : Bool) {p : List Char} (hp : Blank p) (ps : List (List Char)) : sides right (p :: ps) = sides right ps := by
  simp only [sides, cutEqual_none.2 (blank_eq hp)]

theorem parse_prog {b : Bool} {ss : List (Stmt × List Char)} {t : List Char} (h : Prog b ss t) (hs : ∀ p ∈ ss, (∃ n, p.1.targets = [n]) ∧ NoSep p.2) :
    ∃ f r exprs, statements t = f :: r ∧ sides false (f :: r) = some (ss.map target) ∧ sides true (f :: r) = some exprs ∧
      List.Forall₂ (fun p s => Render p.1.rhs s) ss exprs ∧ (b = false → Blank f) := by
  induction h with
  | done b k =>
    refine ⟨spaces k, [], [], ?_, ?_, ?_, .nil, fun _ => spaces_blank k⟩
    · simpa using statements_append (noSep_spaces k) (show statements [] = [] :: [] from rfl)
    · rw [sides_blank _ (spaces_blank k)]; rfl
    · rw [sides_blank _ (spaces_blank k)]; rfl
  | @sep b k c ss t hc h ih =>
    obtain ⟨f, r, exprs, h1, h2, h3, h4, _⟩ := ih hs
    refine ⟨spaces k, f :: r, exprs, ?_, ?_, ?_, h4, fun _ => spaces_blank k⟩
    · have := statements_append (noSep_spaces k) (statements_sep hc t)
      rwa [List.append_nil, h1] at this
    · rw [sides_blank _ (spaces_blank k), h2]
    · rw [sides_blank _ (spaces_blank k), h3]
  | @stmt k s src t ss hcan hr hm hh h ih =>
    obtain ⟨f, r, exprs, h1, h2, h3, h4, h5⟩ := ih fun p hp => hs p (by simp [hp])
    have hf := h5 rfl
    obtain ⟨⟨n, hn⟩, hsep⟩ := hs (s, src) (by simp)
    obtain ⟨tg, e⟩ := s
    simp only at hn hsep
    subst hn
    cases hr with
    | @assign n ns e s i j hr =>
      cases hr with
      | expr hr =>
        have hname : IsName n := hcan.1 n (by simp)
        have hsm : NoSep (spaces k ++ (n ++ (spaces i ++ '=' :: (spaces j ++ s)))) := by
          intro c hc
          rcases List.mem_append.1 hc with hc | hc
          · exact noSep_spaces k c hc
          · exact hsep c hc
        have hst := statements_append hsm h1
        have hA : Assigns ((spaces k ++ (n ++ (spaces i ++ '=' :: (spaces j ++ s)))) ++ f) n s :=
          ⟨spaces k, spaces i, spaces j, f, by simp [List.append_assoc], isName_no hname (by decide), spaces_blank k, spaces_blank i, spaces_blank j, hf,
            isName_trimmed hname, render_trimmed hr hcan.2⟩
        obtain ⟨l, q, h6, h7, h8⟩ := assigns_iff.1 hA
        refine ⟨(spaces k ++ (n ++ (spaces i ++ '=' :: (spaces j ++ s)))) ++ f, r, s :: exprs, ?_, ?_, ?_, .cons hr h4, fun hb => by cases hb⟩
        · rw [← hst]; simp [List.append_assoc]
        · simp only [sides, h6, h7, Bool.false_eq_true, if_false, Option.bind_some]
          rw [sides_blank _ hf] at h2
          rw [h2]; rfl
        · simp only [sides, h6, h8, if_true, Option.bind_some]
          rw [sides_blank _ hf] at h3
          rw [h3]; rfl

theorem prog_canonical {b : Bool} {ss : List (Stmt × List Char)} {t : List Char} (h : Prog b ss t) : ∀ p ∈ ss, p.1.Canonical := by
  induction h with
  | done b k => intro p hp; simp at hp
  | sep b k hc h ih => exact ih
  | stmt k hcan hr _ _ h ih =>
    intro p hp
    rcases List.mem_cons.1 hp with rfl | hp
    · exact hcan
    · exact ih p hp

/-- A structured expression has the names its statements assign, in order, and for each the text of the right side. -/
theorem parse_exact {ss : List (Stmt × List Char)} {t : List Char} (h : Structured ss t) :
    ∃ exprs, make t = .ok (ss.map target) exprs ∧ List.Forall₂ (fun p s => Render p.1.rhs s) ss exprs := by
  obtain ⟨f, r, exprs, h1, h2, h3, h4, _⟩ := parse_prog h.1 h.2
  refine ⟨exprs, ?_, h4⟩
  rw [make, getSide, getSide, h1, h2, h3]
  have : ((ss.map target).any fun n => n.contains '$') = false := by
    rw [List.any_eq_false]
    intro n hn
    obtain ⟨p, hp, rfl⟩ := List.mem_map.1 hn
    obtain ⟨⟨m, hm⟩, _⟩ := h.2 p hp
    have hname : IsName m := (prog_canonical h.1 p hp).1 m (by simp [hm])
    have := isName_no hname (c := '$') (by decide)
    simpa [target, hm] using this
  simp only [this]
  rfl

theorem one_program {n : List Char} {e : Expr} {s : List Char} (hn : IsName n) (hc : e.Canonical) (hr : Render e s) : Program [(⟨[n], e⟩, n ++ '=' :: s)] (n ++ '=' :: s) := by
  have hrs : RenderStmt ⟨[n], e⟩ (n ++ (spaces 0 ++ ('=' :: (spaces 0 ++ s)))) := .assign 0 0 (.expr hr)
  obtain ⟨⟨c0, cs, rfl, hd⟩, hall, hop⟩ := hn
  have hcan : Stmt.Canonical ⟨[c0 :: cs], e⟩ := ⟨by simpa using ⟨⟨c0, cs, rfl, hd⟩, hall, hop⟩, hc⟩
  have hprog := Prog.stmt 0 hcan hrs (by rintro h; simp at h; subst h; revert hd; decide)
    (by rintro h; simp at h; subst h; revert hd; decide) (Prog.done false 0)
  refine ⟨by simpa [spaces] using hprog, fun k' e' => ?_⟩
  simp only [List.cons_append, spaces, List.replicate_succ, List.cons.injEq] at e'
  have := e'.1; subst this; revert hd; decide

/-- Executing one assignment. -/
theorem exec_one (env : Env D) (st : St D) {n : List Char} {e : Expr} {s : List Char} (hn : IsName n) (hc : e.Canonical) (hr : Render e s) (hpl : e.Plain env st.heap)
    {o : List String} {h : Heap D} (hm : Stmt.meaning env st.heap ⟨[n], e⟩ = .ok (o, h)) :
    Ev (fun f => exec env f (n ++ '=' :: s) st) (.ok { st with text := [], heap := h, out := st.out ++ o }) := by
  refine exec_program env (one_program hn hc hr) st ⟨hpl, fun _ _ _ => trivial⟩ ?_
  simp only [run, hm]

theorem exec_spaced (env : Env D) (st : St D) {n : List Char} {e : Expr} {s : List Char} (hn : IsName n) (hc : e.Canonical) (hr : Render e s) (hpl : e.Plain env st.heap)
    {o : List String} {h : Heap D} (hm : Stmt.meaning env st.heap ⟨[n], e⟩ = .ok (o, h)) :
    Ev (fun f => exec env f (n ++ [' ', '=', ' '] ++ s) st) (.ok { st with text := [], heap := h, out := st.out ++ o }) := by
  have hrs : RenderStmt ⟨[n], e⟩ (n ++ (spaces 1 ++ ('=' :: (spaces 1 ++ s)))) := .assign 1 1 (.expr hr)
  obtain ⟨⟨c0, cs, rfl, hd⟩, hall, hop⟩ := hn
  have hcan : Stmt.Canonical ⟨[c0 :: cs], e⟩ := ⟨by simpa using ⟨⟨c0, cs, rfl, hd⟩, hall, hop⟩, hc⟩
  have hprog := Prog.stmt 0 hcan hrs (by rintro h; simp at h; subst h; revert hd; decide)
    (by rintro h; simp at h; subst h; revert hd; decide) (Prog.done false 0)
  have hp : Program [(⟨[c0 :: cs], e⟩, (c0 :: cs) ++ (spaces 1 ++ ('=' :: (spaces 1 ++ s))))] ((c0 :: cs) ++ [' ', '=', ' '] ++ s) := by
    refine ⟨by simpa [spaces] using hprog, fun k' e' => ?_⟩
    simp only [List.cons_append, spaces, List.replicate_succ, List.cons.injEq] at e'
    have := e'.1; subst this; revert hd; decide
  refine exec_program env hp st ⟨hpl, fun _ _ _ => trivial⟩ ?_
  simp only [run, hm]

theorem meaning_ok {env : Env D} {h h' : Heap D} {n : List Char} {e : Expr} {o : List String} (hm : Stmt.meaning env h ⟨[n], e⟩ = .ok (o, h')) :
    ∃ v, e.meaning env h = .ok (v, o) ∧ store env (String.ofList n) v h = .ok h' := by
  simp only [Stmt.meaning, storeAll] at hm
  cases h1 : e.meaning env h with
  | ok x =>
    rw [h1] at hm
    simp only [PRes.bind] at hm
    cases h2 : store env (String.ofList n) x.1 h with
    | ok h'' =>
      rw [h2] at hm
      simp only [PRes.ok.injEq, Prod.mk.injEq] at hm
      obtain ⟨rfl, rfl⟩ := hm
      exact ⟨x.1, rfl, h2⟩
    | hil w => rw [h2] at hm; cases hm
    | cpp => rw [h2] at hm; cases hm
    | ub => rw [h2] at hm; cases hm
  | hil w => rw [h1] at hm; cases hm
  | cpp => rw [h1] at hm; cases hm
  | ub => rw [h1] at hm; cases hm

/-- What storing a value does. -/
theorem store_ok {env : Env D} {h h' : Heap D} (r : Reachable env.dbl.ofInt h) (hme : env.me < h.length) {n : String} {v : DV D} (hs : store env n v h = .ok h') :
    Reachable env.dbl.ofInt h' ∧ h'.length = h.length ∧ (∀ id m, ¬ (id = env.me ∧ m = n) → cell h' id m = cell h id m) ∧ (∀ id, supersOf h' id = supersOf h id) ∧
      (Numeric v → ∃ d, cell h' env.me n = some (.val (.dbl d)) ∨ ∃ i, cell h' env.me n = some (.val (.int i)) ∧ d = env.dbl.ofInt i) ∧
      ∀ s, v = .str s → cell h' env.me n = some (.val (.str s)) := by
  have key : ∀ w : Val D, step env.dbl.ofInt h (.assign env.me n w) = .ok h' → ∃ c, specAssign env.dbl.ofInt (cell h env.me n) w = some c ∧ cell h' env.me n = some c ∧
      Reachable env.dbl.ofInt h' ∧ h'.length = h.length ∧ (∀ id m, ¬ (id = env.me ∧ m = n) → cell h' id m = cell h id m) ∧ (∀ id, supersOf h' id = supersOf h id) := by
    intro w hw
    have ha := assign_exact r env.me hme n w
    cases hsp : specAssign env.dbl.ofInt (cell h env.me n) w with
    | none => rw [hsp] at ha; rw [hw] at ha; cases ha
    | some c =>
      rw [hsp] at ha
      obtain ⟨h'', e, h1, h2, h3⟩ := ha
      rw [hw] at e
      obtain rfl := Outcome.ok.inj e
      refine ⟨c, rfl, h1, by simpa [Namespace.exec, hw] using reachable_exec r [.assign env.me n w], ?_, h2, h3⟩
      simp only [step] at hw
      obtain ⟨s, s', h4, h5, h6⟩ := onSpace_ok _ _ _ _ hw
      subst h6; simp
  have out : ∀ w : Val D, (match step env.dbl.ofInt h (.assign env.me n w) with | .ok h' => PRes.ok h' | .throws => .cpp) = .ok h' → step env.dbl.ofInt h (.assign env.me n w) = .ok h' := by
    intro w hw
    cases hh : step env.dbl.ofInt h (.assign env.me n w) with
    | ok h2 => rw [hh] at hw; simp only [PRes.ok.injEq] at hw; rw [hw]
    | throws => rw [hh] at hw; cases hw
  cases v with
  | empty =>
    simp only [store, PRes.ok.injEq] at hs
    subst hs
    exact ⟨r, rfl, fun _ _ _ => rfl, fun _ => rfl, fun hn => (by cases hn), fun s e => (by cases e)⟩
  | int i =>
    obtain ⟨c, h1, h2, h3, h4, h5, h6⟩ := key (.int i) (out _ hs)
    refine ⟨h3, h4, h5, h6, fun _ => ?_, fun s e => (by cases e)⟩
    cases hc : cell h env.me n with
    | none => rw [hc] at h1; simp only [specAssign, Option.some.injEq] at h1; subst h1; exact ⟨_, Or.inr ⟨i, h2, rfl⟩⟩
    | some c0 =>
      rw [hc] at h1
      cases c0 with
      | heis t k => simp [specAssign] at h1
      | val w => cases w with
        | int j => simp only [specAssign, Option.some.injEq] at h1; subst h1; exact ⟨_, Or.inr ⟨i, h2, rfl⟩⟩
        | dbl d => simp only [specAssign, Option.some.injEq] at h1; subst h1; exact ⟨_, Or.inl h2⟩
        | str t => simp [specAssign] at h1
  | dbl d =>
    obtain ⟨c, h1, h2, h3, h4, h5, h6⟩ := key (.dbl d) (out _ hs)
    refine ⟨h3, h4, h5, h6, fun _ => ?_, fun s e => (by cases e)⟩
    cases hc : cell h env.me n with
    | none => rw [hc] at h1; simp only [specAssign, Option.some.injEq] at h1; subst h1; exact ⟨_, Or.inl h2⟩
    | some c0 =>
      rw [hc] at h1
      cases c0 with
      | heis t k => simp [specAssign] at h1
      | val w => cases w with
        | int j => simp [specAssign] at h1
        | dbl d => simp only [specAssign, Option.some.injEq] at h1; subst h1; exact ⟨_, Or.inl h2⟩
        | str t => simp [specAssign] at h1
  | str s =>
    obtain ⟨c, h1, h2, h3, h4, h5, h6⟩ := key (.str s) (out _ hs)
    refine ⟨h3, h4, h5, h6, fun hn => (by cases hn), fun s' e => ?_⟩
    cases e
    cases hc : cell h env.me n with
    | none => rw [hc] at h1; simp only [specAssign, Option.some.injEq] at h1; subst h1; exact h2
    | some c0 =>
      rw [hc] at h1
      cases c0 with
      | heis t k => simp [specAssign] at h1
      | val w => cases w with
        | int j => simp [specAssign] at h1
        | dbl d => simp [specAssign] at h1
        | str t => simp only [specAssign, Option.some.injEq] at h1; subst h1; exact h2

end Hexed.Structured
