import Verif.Hil.Expr
set_option autoImplicit false
set_option linter.unusedVariables false

/-! The evaluator on statement lists. -/

namespace Hexed.Hil
open Hexed.Namespace

variable {D : Type}

theorem assignVar_store (env : Env D) (n : String) (v : DV D) (st : St D) :
    assignVar env n v st = (match store env n v st.heap with
      | .ok h => .ok () { st with heap := h }
      | .hil w => .hil w st
      | .cpp => .cpp st
      | .ub => .ub) := by
  unfold assignVar store
  cases v with
  | empty => rfl
  | int i => simp only; cases step env.dbl.ofInt st.heap (.assign env.me n (.int i)) <;> rfl
  | dbl i => simp only; cases step env.dbl.ofInt st.heap (.assign env.me n (.dbl i)) <;> rfl
  | str i => simp only; cases step env.dbl.ofInt st.heap (.assign env.me n (.str i)) <;> rfl

theorem store_no_hil (env : Env D) (n : String) (v : DV D) (h : Heap D) :
    (∀ w, store env n v h ≠ .hil w) ∧ store env n v h ≠ .ub := by
  unfold store
  cases v with
  | empty => simp
  | int i => simp only; cases step env.dbl.ofInt h (.assign env.me n (.int i)) <;> simp
  | dbl i => simp only; cases step env.dbl.ofInt h (.assign env.me n (.dbl i)) <;> simp
  | str i => simp only; cases step env.dbl.ofInt h (.assign env.me n (.str i)) <;> simp

theorem storeAll_no_hil (env : Env D) (v : DV D) (ns : List (List Char)) (h : Heap D) :
    (∀ w, storeAll env v ns h ≠ .hil w) ∧ storeAll env v ns h ≠ .ub := by
  induction ns with
  | nil => simp [storeAll]
  | cons n ns ih =>
    simp only [storeAll]
    cases hs : storeAll env v ns h with
    | ok h' => simp only [PRes.bind]; exact store_no_hil env _ v h'
    | hil w => exact absurd hs (ih.1 w)
    | cpp => simp [PRes.bind]
    | ub => exact absurd hs ih.2

/-- The evaluator on a statement followed by `rest`. -/
def RunsStmt (env : Env D) (p : Nat) (val : DV D) (st : St D) (k : Nat) (src rest : List Char) (s : Stmt) : Prop :=
  match s.rhs.meaning env st.heap with
  | .ok (v, o) =>
    match storeAll env v s.targets st.heap with
    | .ok h' => ∀ r, r ≠ .out →
        Ev (fun f => after env f p v { st with text := rest, out := st.out ++ o, heap := h' }) r →
        Ev (fun f => eval env f p val { st with text := spaces k ++ (src ++ rest) }) r
    | _ => ∃ st', Ev (fun f => eval env f p val { st with text := spaces k ++ (src ++ rest) }) (.cpp st')
  | .hil w => ∃ t o, Left src rest t ∧
      Ev (fun f => eval env f p val { st with text := spaces k ++ (src ++ rest) }) (.hil w { st with text := t, out := o })
  | .cpp => ∃ st', Ev (fun f => eval env f p val { st with text := spaces k ++ (src ++ rest) }) (.cpp st')
  | .ub => Ev (fun f => eval env f p val { st with text := spaces k ++ (src ++ rest) }) .ub

/-- First character of a statement. -/
theorem RenderStmt.first {s : Stmt} {src : List Char} (h : RenderStmt s src) (hc : s.Canonical) :
    ∃ c cs, src = c :: cs ∧ c ≠ ' ' ∧ c ≠ '=' := by
  cases h with
  | expr h => exact h.first hc.2
  | @assign n ns e s i j h =>
    obtain ⟨⟨c, cs, rfl, hd⟩, _⟩ := hc.1 n (by simp)
    refine ⟨c, _, rfl, ?_, ?_⟩ <;> (rintro rfl; revert hd; decide)

theorem level_le (e : Expr) : e.level ≤ 5 := by
  cases e <;> simp [Expr.level]
  rename_i op _ _
  cases op <;> decide

/-- A statement, at statement level or as the right-hand side of an assignment. -/
theorem runs_stmt (env : Env D) {s : Stmt} {src : List Char} (h : RenderStmt s src) (hc : s.Canonical)
    (p : Nat) (hp : 5 < p) (val : DV D) (st : St D) (k : Nat) (rest : List Char)
    (hpl : s.rhs.Plain env st.heap) (hrest : SafeRest rest) (hop : matchOp (dropSpaces rest) = none) :
    RunsStmt env p val st k src rest s := by
  induction h generalizing p val k st with
  | @expr e s h =>
    have := good env h hc.2 p val st k rest hpl (Or.inr (by have := level_le e; show e.level < p; omega)) hrest (by simp [hop])
    unfold RunsStmt
    simp only [storeAll]
    cases hm : e.meaning env st.heap with
    | ok vo =>
      rw [hm] at this
      obtain ⟨v, o⟩ := vo
      exact this
    | hil w => rw [hm] at this; exact this
    | cpp => rw [hm] at this; obtain ⟨t, o, h⟩ := this; exact ⟨_, h⟩
    | ub => rw [hm] at this; exact this
  | @assign n ns e s i j h ih =>
    obtain ⟨⟨c, cs, rfl, hd⟩, hall, hnop⟩ := hc.1 n (by simp)
    have hcs : Stmt.Canonical ⟨ns, e⟩ := ⟨fun m hm => hc.1 m (by simp [hm]), hc.2⟩
    have hfirst := h.first hcs
    have ih := ih hcs pAssign (by decide) .empty st j hpl
    have hne : c ≠ ' ' := by rintro rfl; revert hd; decide
    have e0 : c :: cs ++ (spaces i ++ ('=' :: (spaces j ++ s))) ++ rest =
        c :: (cs ++ (spaces i ++ ('=' :: (spaces j ++ (s ++ rest))))) := by simp
    have htail : (spaces j ++ (s ++ rest)).head? ≠ some '=' := by
      obtain ⟨d, ds, rfl, h1, h2⟩ := hfirst
      intro hh
      rcases spaces_head hh with hh | hh
      · exact absurd hh (by decide)
      · simp at hh; exact h2 hh
    have hr := readName_append (c :: cs) (spaces i ++ ('=' :: (spaces j ++ (s ++ rest)))) hall (by
      intro d hd
      rcases spaces_head hd with rfl | hd
      · decide
      · simp at hd; subst hd; decide)
    rw [List.cons_append] at hr
    let K : Res D (DV D) → Nat → Res D (DV D) := fun a f => match a with
      | .ok v st' =>
        match assignVar env (String.ofList (c :: cs)) v st' with
        | .ok _ st'' => after env f p v st''
        | .hil w s => .hil w s | .cpp s => .cpp s | .ub => .ub | .out => .out
      | r => r
    have htok : ∀ f, eval env (f + 1) p val { st with text := spaces k ++ (c :: cs ++ (spaces i ++ ('=' :: (spaces j ++ s))) ++ rest) } =
        K (eval env f pAssign .empty { st with text := spaces j ++ (s ++ rest) }) f := by
      intro f
      rw [e0, eval_tok env f p val st k c _ hne (by simp), kind_name p c hd]
      have hsk : skip ({ st with text := spaces i ++ ('=' :: (spaces j ++ (s ++ rest))) } : St D) =
          some { st with text := '=' :: (spaces j ++ (s ++ rest)) } := by
        rw [skip]
        obtain ⟨d, ds, e⟩ : ∃ d ds, spaces i ++ ('=' :: (spaces j ++ (s ++ rest))) = d :: ds :=
          List.exists_cons_of_ne_nil (by simp)
        have := dropSpaces_nonspace_append (c := '=') (by decide) i (spaces j ++ (s ++ rest))
        simp only [e] at this ⊢
        rw [this]
      have hnop : unOps.contains (String.ofList (c :: cs)) = false := hnop
      unfold tokName
      simp only [hr, hnop, Bool.false_eq_true, if_false, tokVar, hsk]
      rw [if_pos ⟨by simp, by simpa using htail⟩]
      simp only [List.tail_cons, K]
      all_goals
        generalize eval env f pAssign .empty { st with text := spaces j ++ (s ++ rest) } = E
        cases E with
        | ok v st' =>
          simp only
          cases assignVar env (String.ofList (c :: cs)) v st' <;> rfl
        | _ => rfl
    unfold RunsStmt at ih ⊢
    simp only at ih ⊢
    cases hm : e.meaning env st.heap with
    | ok vo =>
      obtain ⟨v, o⟩ := vo
      rw [hm] at ih
      simp only [storeAll] at ih ⊢
      cases hs : storeAll env v ns st.heap with
      | ok h1 =>
        rw [hs] at ih
        simp only at ih
        have hin := ih _ (by simp) (after_low env pAssign v _ (by decide) hrest.ne' (by simp [hop]))
        have hK : ∀ r, Ev (K (.ok v { st with text := dropSpaces rest, out := st.out ++ o, heap := h1 })) r →
            Ev (fun f => eval env f p val { st with text := spaces k ++ (c :: cs ++ (spaces i ++ ('=' :: (spaces j ++ s))) ++ rest) }) r :=
          fun r hr => Ev.of_shift (Ev.bind (k := K) hin hr) htok
        simp only [PRes.bind]
        cases hst : store env (String.ofList (c :: cs)) v h1 with
        | ok h2 =>
          simp only
          intro r hr' ha
          refine hK r ?_
          simp only [K, assignVar_store, hst]
          exact after_skip env hr' hrest.ne ha
        | cpp =>
          simp only
          refine ⟨{ st with text := dropSpaces rest, out := st.out ++ o, heap := h1 }, hK (.cpp _) ?_⟩
          simp only [K, assignVar_store, hst]
          exact Ev.const _
        | hil w => exact absurd hst ((store_no_hil env _ v h1).1 w)
        | ub => exact absurd hst (store_no_hil env _ v h1).2
      | cpp =>
        rw [hs] at ih
        simp only at ih
        obtain ⟨st', hE⟩ := ih
        exact ⟨st', Ev.of_shift (Ev.bind (k := K) hE (Ev.const _)) htok⟩
      | hil w => exact absurd hs ((storeAll_no_hil env v ns _).1 w)
      | ub => exact absurd hs (storeAll_no_hil env v ns _).2
    | hil w =>
      rw [hm] at ih
      simp only at ih ⊢
      obtain ⟨t, o, ⟨s1, s2, he, hl⟩, hE⟩ := ih
      refine ⟨t, o, ⟨c :: cs ++ (spaces i ++ ('=' :: (spaces j ++ s1))), s2, by rw [he]; simp, hl⟩, ?_⟩
      exact Ev.of_shift (Ev.bind (k := K) hE (Ev.const _)) htok
    | cpp =>
      rw [hm] at ih
      simp only at ih ⊢
      obtain ⟨st', hE⟩ := ih
      exact ⟨st', Ev.of_shift (Ev.bind (k := K) hE (Ev.const _)) htok⟩
    | ub =>
      rw [hm] at ih
      simp only at ih ⊢
      exact Ev.of_shift (Ev.bind (k := K) ih (Ev.const _)) htok

/-- What the evaluator at statement level does with program text `t` (starting either at a token or after one). -/
def RunsProg (env : Env D) (g : Nat → Res D (DV D)) (ss : List (Stmt × List Char)) (st : St D) : Prop :=
  match run env ss st.heap st.out with
  | .done h o => ∃ v, Ev g (.ok v { st with text := ['\x00'], heap := h, out := o })
  | .raised w h src rest => ∃ t o u, Prog false rest u ∧ Left src (u ++ ['\x00']) t ∧
      Ev g (.hil w { st with text := t, heap := h, out := o })
  | .cpp => ∃ st', Ev g (.cpp st')
  | .ub => Ev g .ub

theorem RunsProg.lift {env : Env D} {g g' : Nat → Res D (DV D)} {ss : List (Stmt × List Char)} {st : St D}
    (h : RunsProg env g ss st) (hl : ∀ r, r ≠ .out → Ev g r → Ev g' r) : RunsProg env g' ss st := by
  unfold RunsProg at h ⊢
  revert h
  cases run env ss st.heap st.out with
  | done h o => rintro ⟨v, h⟩; exact ⟨v, hl _ (by simp) h⟩
  | raised w h src rest => rintro ⟨t, o, u, h1, h2, h⟩; exact ⟨t, o, u, h1, h2, hl _ (by simp) h⟩
  | cpp => rintro ⟨st', h⟩; exact ⟨st', hl _ (by simp) h⟩
  | ub => intro h; exact hl _ (by simp) h

theorem spaces_add (a b : Nat) (t : List Char) : spaces a ++ (spaces b ++ t) = spaces (a + b) ++ t := by
  unfold spaces
  rw [← List.append_assoc, List.replicate_append_replicate]

/-- What follows a statement is safe and not an operator. -/
theorem Prog.safe {ss : List (Stmt × List Char)} {t : List Char} (h : Prog false ss t) :
    SafeRest (t ++ ['\x00']) ∧ matchOp (dropSpaces (t ++ ['\x00'])) = none := by
  cases h with
  | done k =>
    refine ⟨SafeRest.of (by decide) (by decide) (by decide) (by intro h; exact absurd h (by decide)), ?_⟩
    rw [dropSpaces_nonspace_append (by decide)]; exact matchOp_single _
  | @sep _ k c _ t hc h =>
    have e : spaces k ++ c :: t ++ ['\x00'] = spaces k ++ c :: (t ++ ['\x00']) := by simp
    rw [e]
    rcases hc with rfl | rfl
    · refine ⟨SafeRest.of (by decide) (by decide) (by decide) (by intro h; exact absurd h (by decide)), ?_⟩
      rw [dropSpaces_nonspace_append (by decide)]; exact matchOp_none _ _ (by decide)
    · refine ⟨SafeRest.of (by decide) (by decide) (by decide) (by intro h; exact absurd h (by decide)), ?_⟩
      rw [dropSpaces_nonspace_append (by decide)]; exact matchOp_none _ _ (by decide)

/-- From the token loop to the tail of the previous token. -/
theorem after_of_eval (env : Env D) (v : DV D) (st : St D) (c : Char) (cs : List Char) (k : Nat) (hc : c ≠ ' ')
    (hm : matchOp (c :: cs) = none) (r : Res D (DV D)) (hr : r ≠ .out)
    (h : Ev (fun f => eval env f pStmt v { st with text := c :: cs }) r) :
    Ev (fun f => after env f pStmt v { st with text := spaces k ++ c :: cs }) r := by
  refine (after_out env hr (by simp)).mpr ⟨_, ?_, binLoop_none env pStmt v _ ?_, ?_⟩
  · simp
  · simp only [dropSpaces_nonspace_append hc]; exact hm
  · simp only [cont, dropSpaces_nonspace_append hc]
    have hnp : ¬ (pStmt < pStmt) := by decide
    simp only [hnp, if_false]
    exact h

theorem matchOp_bang (t : List Char) (h : t.head? ≠ some '=') : matchOp ('!' :: t) = none := by
  cases t with
  | nil => simp [matchOp, binOps, BinOp.name]
  | cons c cs =>
    have hc : ¬ ('=' = c) := by intro e; subst e; exact h rfl
    simp (decide := true) [matchOp, binOps, BinOp.name, hc]

/-- The first character of an expression that does not begin with `-` or `#` does not start an operator. -/
theorem Render.no_op {e : Expr} {s : List Char} (h : Render e s) (hc : e.Canonical)
    (h1 : s.head? ≠ some '-') (h2 : s.head? ≠ some '#') : ∀ t, matchOp (s ++ t) = none := by
  induction h with
  | num s =>
    obtain ⟨c, cs, rfl, hd⟩ := IsNum.head hc
    intro t
    refine matchOp_none c _ ?_
    cases ho : opStart c with
    | false => rfl
    | true =>
      have hm : c ∈ ['^', '#', '%', '/', '*', '-', '+', '=', '!', '>', '<', '&', '|'] := by simpa [opStart] using ho
      simp only [List.mem_cons, List.not_mem_nil, or_false] at hm
      rcases hm with rfl | rfl | rfl | rfl | rfl | rfl | rfl | rfl | rfl | rfl | rfl | rfl | rfl <;> (revert hd; decide)
  | str _ => intro t; exact matchOp_none '{' _ (by decide)
  | var n =>
    obtain ⟨⟨c, cs, rfl, hd⟩, _⟩ := hc
    intro t
    refine matchOp_none c _ ?_
    cases ho : opStart c with
    | false => rfl
    | true =>
      have hm : c ∈ ['^', '#', '%', '/', '*', '-', '+', '=', '!', '>', '<', '&', '|'] := by simpa [opStart] using ho
      simp only [List.mem_cons, List.not_mem_nil, or_false] at hm
      rcases hm with rfl | rfl | rfl | rfl | rfl | rfl | rfl | rfl | rfl | rfl | rfl | rfl | rfl <;> (revert hd; decide)
  | @un op e s i hr hw ih =>
    intro t
    have hop : op ∈ unOps := hc.1
    obtain ⟨d, ds, rfl, hd1, hd2⟩ := hr.first hc.2.2
    by_cases hb : op = "!"
    · subst hb
      have : ("!".toList ++ (spaces i ++ d :: ds)) ++ t = '!' :: (spaces i ++ (d :: (ds ++ t))) := by simp
      rw [this]
      refine matchOp_bang _ ?_
      intro hh
      rcases spaces_head hh with hh | hh
      · exact absurd hh (by decide)
      · simp at hh; exact hd2 hh
    · have hall : ∀ o ∈ unOps, o ≠ "!" → o.toList.head? ≠ some '-' → o.toList.head? ≠ some '#' →
          (match o.toList with | [] => false | c :: _ => !opStart c) = true := by decide
      have hne : op.toList ≠ [] := by
        have : ∀ o ∈ unOps, o.toList ≠ [] := by decide
        exact this op hop
      obtain ⟨c, cs, ec⟩ := List.exists_cons_of_ne_nil hne
      rw [ec] at h1 h2
      have := hall op hop hb (by rw [ec]; simpa using h1) (by rw [ec]; simpa using h2)
      rw [ec] at this ⊢
      exact matchOp_none c _ (by simpa using this)
  | @bin op a b s t i j hra _ iha ihb =>
    intro t'
    obtain ⟨c, cs, rfl, _, _⟩ := hra.first hc.2.2.1
    have := iha hc.2.2.1 (by simpa using h1) (by simpa using h2) (spaces i ++ (symbol op ++ (spaces j ++ t)) ++ t')
    simpa using this
  | paren i j _ _ => intro t; exact matchOp_none '(' _ (by decide)

theorem RenderStmt.no_op {s : Stmt} {src : List Char} (h : RenderStmt s src) (hc : s.Canonical)
    (h1 : src.head? ≠ some '-') (h2 : src.head? ≠ some '#') (t : List Char) : matchOp (src ++ t) = none := by
  cases h with
  | expr h => exact h.no_op hc.2 h1 h2 t
  | @assign n ns e s i j h =>
    have := (Render.var n).no_op (hc.1 n (by simp))
      (by
        obtain ⟨⟨c, cs, rfl, hd⟩, _⟩ := hc.1 n (by simp)
        simpa using h1)
      (by
        obtain ⟨⟨c, cs, rfl, hd⟩, _⟩ := hc.1 n (by simp)
        simpa using h2) (spaces i ++ ('=' :: (spaces j ++ s)) ++ t)
    simpa using this

/-- The statement list theorem, both from the token loop and from the tail of a token. -/
theorem runs_prog (env : Env D) {b : Bool} {ss : List (Stmt × List Char)} {t : List Char} (h : Prog b ss t) :
    ∀ (v : DV D) (st : St D), ProgPlain env ss st.heap →
      RunsProg env (fun f => after env f pStmt v { st with text := t ++ ['\x00'] }) ss st ∧
      (b = true → (∀ k, t ≠ spaces (k + 1)) →
        RunsProg env (fun f => eval env f pStmt v { st with text := t ++ ['\x00'] }) ss st) := by
  have hend : ∀ (v : DV D) (st : St D), Ev (fun f => eval env f pStmt v { st with text := ['\x00'] })
      (.ok v { st with text := ['\x00'] }) := by
    intro v st
    refine ⟨1, fun f hf => ?_⟩
    obtain ⟨f', rfl⟩ : ∃ f', f = f' + 1 := ⟨f - 1, by omega⟩
    show eval env (f' + 1) _ _ _ = _
    rw [eval, evalBody]
    simp
  induction h with
  | done b k =>
    intro v st _
    refine ⟨?_, ?_⟩
    · exact ⟨v, after_of_eval env v st '\x00' [] k (by decide) (matchOp_single _) _ (by simp) (hend v st)⟩
    · intro _ hk
      cases k with
      | zero => exact ⟨v, by simpa [spaces] using hend v st⟩
      | succ k => exact absurd rfl (hk k)
  | @sep b k c ss t hc ht ih =>
    intro v st hpl
    have e : ∀ k, spaces k ++ c :: t ++ ['\x00'] = spaces k ++ c :: (t ++ ['\x00']) := by intro k; simp
    have hcs : c ≠ ' ' := by rcases hc with rfl | rfl <;> decide
    have hm : matchOp (c :: (t ++ ['\x00'])) = none := by
      rcases hc with rfl | rfl <;> exact matchOp_none _ _ (by decide)
    have hev : ∀ k, RunsProg env (fun f => eval env f pStmt v { st with text := spaces k ++ c :: t ++ ['\x00'] }) ss st := by
      intro k
      refine (ih v st hpl).1.lift fun r hr hE => ?_
      refine Ev.of_shift hE fun f => ?_
      rw [e, eval_tok env f pStmt v st k c _ hcs (by simp), kind_sep pStmt c hc]
    refine ⟨?_, fun _ _ => hev k⟩
    refine (hev 0).lift fun r hr hE => ?_
    rw [e]
    refine after_of_eval env v st c _ k hcs hm r hr ?_
    simpa [spaces] using hE
  | @stmt k s src t ss hc hr h1 h2 ht ih =>
    intro v st hpl
    have hsafe := ht.safe
    obtain ⟨c, cs, ec, hcs, _⟩ := hr.first hc
    have e : ∀ k, spaces k ++ (src ++ t) ++ ['\x00'] = spaces k ++ (src ++ (t ++ ['\x00'])) := by intro k; simp
    have hev : ∀ k, RunsProg env (fun f => eval env f pStmt v { st with text := spaces k ++ (src ++ t) ++ ['\x00'] })
        ((s, src) :: ss) st := by
      intro k
      have hst := runs_stmt env hr hc pStmt (by decide) v st k (t ++ ['\x00']) hpl.1 hsafe.1 hsafe.2
      have hpl2 := hpl.2
      unfold RunsStmt at hst
      unfold RunsProg
      simp only [run, Stmt.meaning] at hpl2 ⊢
      rw [e]
      cases hm : s.rhs.meaning env st.heap with
      | ok vo =>
        obtain ⟨v', o⟩ := vo
        rw [hm] at hst
        simp only [hm, PRes.bind] at hst hpl2 ⊢
        cases hs : storeAll env v' s.targets st.heap with
        | ok h' =>
          rw [hs] at hst
          simp only [hs] at hst hpl2 ⊢
          have := (ih v' { st with out := st.out ++ o, heap := h' } (hpl2 o h' rfl)).1
          exact this.lift fun r hr hE => hst r hr hE
        | cpp => rw [hs] at hst; exact hst
        | hil w => exact absurd hs ((storeAll_no_hil env v' _ _).1 w)
        | ub => exact absurd hs (storeAll_no_hil env v' _ _).2
      | hil w =>
        rw [hm] at hst
        obtain ⟨t1, o, hl, hE⟩ := hst
        exact ⟨t1, o, t, ht, hl, hE⟩
      | cpp => rw [hm] at hst; exact hst
      | ub => rw [hm] at hst; exact hst
    refine ⟨?_, fun _ _ => hev k⟩
    refine (hev 0).lift fun r hr' hE => ?_
    have hm := hr.no_op hc h1 h2 (t ++ ['\x00'])
    rw [e]
    simp only [e] at hE
    rw [ec] at hE hm ⊢
    exact after_of_eval env v st c _ k hcs hm r hr' (by simpa [spaces] using hE)

/-! ### Concatenation of program texts -/

theorem Prog.append {b : Bool} {ss ss' : List (Stmt × List Char)} {t t' : List Char} (h : Prog b ss t)
    (h' : Prog false ss' t') : Prog b (ss ++ ss') (t ++ t') := by
  have weaken : ∀ k b, Prog b ss' (spaces k ++ t') := by
    intro k b
    cases h' with
    | done _ j => rw [← List.append_nil (spaces j), spaces_add, List.append_nil]; exact .done b _
    | sep _ j hc ht => rw [spaces_add]; exact .sep b _ hc ht
  induction h with
  | done b k => exact weaken k b
  | sep b k hc ht ih => simpa using Prog.sep b k hc ih
  | stmt k hc hr h1 h2 ht ih => simpa using Prog.stmt k hc hr h1 h2 ih

/-! ### Discarding the rest of a statement -/

/-- A text without separators. -/
def NoSep (s : List Char) : Prop := ∀ c ∈ s, ¬ isSep c

theorem dropStmt_append (s t : List Char) (hs : NoSep s) (ht : t ≠ []) : dropStmt (s ++ t) = dropStmt t := by
  induction s with
  | nil => rfl
  | cons c cs ih =>
    have h1 := hs c (by simp)
    have h2 := ih (fun d hd => hs d (by simp [hd]))
    rw [← h2]
    cases hcs : cs ++ t with
    | nil => simp at hcs; exact absurd hcs.2 ht
    | cons d ds =>
      rw [List.cons_append, hcs, dropStmt, if_neg (show ¬ (c = '\n' ∨ c = ';') from h1)]

theorem noSep_spaces (k : Nat) : NoSep (spaces k) := by
  intro c hc
  have : c = ' ' := by unfold spaces at hc; exact List.eq_of_mem_replicate hc
  subst this
  unfold isSep; decide

theorem dropStmt_dropSpaces (t : List Char) (h : dropSpaces t ≠ []) : dropStmt (dropSpaces t) = dropStmt t := by
  obtain ⟨k, hk⟩ := dropSpaces_decomp t
  have := dropStmt_append _ _ (noSep_spaces k) h
  rw [← hk] at this
  exact this.symm

/-- After the failing statement was discarded what is left is a program text of the remaining statements. -/
theorem dropStmt_left {src u t : List Char} {rest : List (Stmt × List Char)} (hu : Prog false rest u)
    (hn : NoSep src) (hl : Left src (u ++ ['\x00']) t) :
    ∃ u', Prog false rest u' ∧ dropStmt (dropSpaces t) = u' ++ ['\x00'] := by
  obtain ⟨s1, s2, rfl, hd⟩ := hl
  have hn2 : NoSep s2 := fun c hc => hn c (by simp [hc])
  have hsafe := hu.safe.1
  have hne : dropSpaces (s2 ++ (u ++ ['\x00'])) ≠ [] := by
    intro e
    have := dropStmt_append
    obtain ⟨k, hk⟩ := dropSpaces_decomp (s2 ++ (u ++ ['\x00']))
    rw [e, List.append_nil] at hk
    have hm : '\x00' ∈ spaces k := by rw [← hk]; simp
    have : '\x00' = ' ' := by unfold spaces at hm; exact List.eq_of_mem_replicate hm
    exact absurd this (by decide)
  rw [hd, dropStmt_dropSpaces _ hne, dropStmt_append _ _ hn2 (by simp)]
  cases hu with
  | done _ k =>
    refine ⟨[], Prog.done false 0, ?_⟩
    rw [dropStmt_append _ _ (noSep_spaces k) (by simp)]
    rfl
  | @sep _ k c _ t hc ht =>
    refine ⟨c :: t, by simpa [spaces] using Prog.sep false 0 hc ht, ?_⟩
    rw [List.append_assoc, dropStmt_append _ _ (noSep_spaces k) (by simp)]
    have hc' : c = '\n' ∨ c = ';' := hc
    cases t with
    | nil => simp [dropStmt, hc']
    | cons d ds => simp [dropStmt, hc']

end Hexed.Hil
