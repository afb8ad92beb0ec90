import Verif.Hil.IntLemmas
import Verif.Hil.StrLemmas
import Verif.Namespace.Props
set_option autoImplicit false
set_option linter.unusedVariables false

/-!
# Properties of the HIL interpreter (C11-C14)

`Ev g r` says that the interpreter, given any sufficiently large recursion bound, ends with `r`; `eval_mono` makes that
independent of the bound.
-/

namespace Hexed.Hil
open Hexed.Namespace

variable {D : Type}

/-! ## Programs -/

/-- C14/C11: executing a program text does exactly what its statements, in order, mean - whatever the spacing, the
separators and the parentheses. -/
theorem exec_program (env : Env D) {ss : List (Stmt × List Char)} {t : List Char} (hp : Program ss t) (st : St D)
    (hpl : ProgPlain env ss st.heap) {h : Heap D} {o : List String} (hr : run env ss st.heap st.out = .done h o) :
    Ev (fun f => exec env f t st) (.ok { st with text := [], heap := h, out := o }) := by
  have := (runs_prog env hp.1 .empty st hpl).2 rfl hp.2
  unfold RunsProg at this
  rw [hr] at this
  obtain ⟨v, N, hN⟩ := this
  exact ⟨N, fun f hf => by simp only [exec]; simp only at hN; rw [hN f hf]⟩

/-- C14: an exception with an empty handler reaches the caller as `Hil_unhandled_exception`; the effects of the earlier
statements persist. -/
theorem exec_unhandled (env : Env D) {ss : List (Stmt × List Char)} {t : List Char} (hp : Program ss t) (st : St D)
    (hpl : ProgPlain env ss st.heap) {w : String} {h : Heap D} {src : List Char} {rest : List (Stmt × List Char)}
    (hr : run env ss st.heap st.out = .raised w h src rest) (he : lookupStr h env.me "except" = .val "") :
    ∃ msgText st', st'.heap = h ∧ Ev (fun f => exec env f t st) (.unhandled (env.message w msgText) st') := by
  have := (runs_prog env hp.1 .empty st hpl).2 rfl hp.2
  unfold RunsProg at this
  rw [hr] at this
  obtain ⟨t1, o, u, _, _, N, hN⟩ := this
  refine ⟨t1, { st with text := t1, heap := h, out := o }, rfl, N, fun f hf => ?_⟩
  simp only [exec]; simp only at hN; rw [hN f hf]
  simp only [he, if_true]

/-- The two statements the interpreter appends to a handler. -/
def resetStmts : List (Stmt × List Char) :=
  [(⟨["exception".toList], .str []⟩, "exception = {}".toList), (⟨["except".toList], .str []⟩, "except = {}".toList)]

theorem reset_prog : Prog false resetStmts resetText := by
  have r1 : RenderStmt ⟨["exception".toList], .str []⟩ "exception = {}".toList :=
    RenderStmt.assign (n := "exception".toList) 1 1 (.expr (.str .nil))
  have r2 : RenderStmt ⟨["except".toList], .str []⟩ "except = {}".toList :=
    RenderStmt.assign (n := "except".toList) 1 1 (.expr (.str .nil))
  have n1 : IsName "exception".toList :=
    ⟨⟨'e', "xception".toList, by decide, by decide⟩, by decide, by decide⟩
  have n2 : IsName "except".toList := ⟨⟨'e', "xcept".toList, by decide, by decide⟩, by decide, by decide⟩
  have s3 : Prog true [] [] := Prog.done true 0
  have s2 : Prog false [] [';'] := Prog.sep false 0 (Or.inr rfl) s3
  have p2 := Prog.stmt 1 (s := ⟨["except".toList], .str []⟩) ⟨by simpa using n2, trivial⟩ r2 (by decide) (by decide) s2
  have s1 := Prog.sep false 0 (c := ';') (Or.inr rfl) p2
  have p1 := Prog.stmt 1 (s := ⟨["exception".toList], .str []⟩) ⟨by simpa using n1, trivial⟩ r1 (by decide) (by decide) s1
  exact Prog.sep false 0 (c := ';') (Or.inr rfl) p1

/-- C14 (partial: the failing statement contains no `;` or newline inside a string literal, and only the first exception
of a call is handled): if a statement raises an exception while `except` holds a handler, `exec` goes on as the program
`<handler>; exception = {}; except = {}; <statements after the failing one>` with `exception` set to the message.
A second exception leaves `exec` as a raw `Hil_exception`, whatever `except` is by then. -/
theorem exec_handled_partial (env : Env D) {ss : List (Stmt × List Char)} {t : List Char} (hp : Program ss t) (st : St D)
    (hpl : ProgPlain env ss st.heap) {w : String} {h : Heap D} {src : List Char} {rest : List (Stmt × List Char)}
    (hr : run env ss st.heap st.out = .raised w h src rest) (hns : NoSep src)
    {H : String} (he : lookupStr h env.me "except" = .val H) (hne : H ≠ "")
    {hs : List (Stmt × List Char)} (hH : Program hs H.toList) :
    ∃ msgText o, ∀ h1, store env "exception" (.str (env.message w msgText)) h = .ok h1 →
      ProgPlain env (hs ++ resetStmts ++ rest) h1 →
      match run env (hs ++ resetStmts ++ rest) h1 o with
      | .done h2 o2 => Ev (fun f => exec env f t st) (.ok { st with text := [], heap := h2, out := o2 })
      | .raised w' h2 _ _ => ∃ st', st'.heap = h2 ∧ Ev (fun f => exec env f t st) (.raw w' st')
      | .cpp => ∃ st', Ev (fun f => exec env f t st) (.cpp st')
      | .ub => Ev (fun f => exec env f t st) .ub := by
  have hmain := (runs_prog env hp.1 .empty st hpl).2 rfl hp.2
  unfold RunsProg at hmain
  rw [hr] at hmain
  obtain ⟨t1, o, u, hu, hl, N, hN⟩ := hmain
  refine ⟨t1, o, fun h1 hst hpl1 => ?_⟩
  obtain ⟨u', hu', hd⟩ := dropStmt_left hu hns hl
  have hprog : Program (hs ++ resetStmts ++ rest) (H.toList ++ resetText ++ u') := by
    refine ⟨(hH.1.append reset_prog).append hu', fun k e => ?_⟩
    have hm : ';' ∈ spaces (k + 1) := by
      rw [← e]
      exact List.mem_append_left _ (List.mem_append_right _ (by decide))
    have : ';' = ' ' := by unfold spaces at hm; exact List.eq_of_mem_replicate hm
    exact absurd this (by decide)
  have hexec : ∀ f, N ≤ f → exec env f t st =
      (match eval env f pStmt .empty { st with heap := h1, out := o, text := H.toList ++ resetText ++ u' ++ ['\x00'] } with
       | .ok _ s' => .ok { s' with text := [] }
       | .hil what s' => .raw what s'
       | .cpp s' => .cpp s'
       | .ub => .ub
       | .out => .out) := by
    intro f hf
    simp only [exec]
    simp only at hN
    rw [hN f hf]
    simp only [he, hne, if_false, assignVar_store, hst]
    have ht1 : t1 ≠ [] := by
      rintro rfl
      rw [dropSpaces_nil] at hd
      simp [dropStmt] at hd
    have hsk : skip ({ st with text := t1, heap := h1, out := o } : St D) =
        some { st with text := dropSpaces t1, heap := h1, out := o } := by
      rw [skip]
      obtain ⟨d, ds, e⟩ := List.exists_cons_of_ne_nil ht1
      simp only [e]
    simp only [hsk, hd]
    rw [← List.append_assoc]
    all_goals
      generalize eval env f pStmt .empty { st with heap := h1, out := o, text := H.toList ++ resetText ++ u' ++ ['\x00'] } = E
      cases E <;> rfl
  have hsecond := (runs_prog env hprog.1 .empty { st with heap := h1, out := o } hpl1).2 rfl hprog.2
  unfold RunsProg at hsecond
  revert hsecond
  cases run env (hs ++ resetStmts ++ rest) h1 o with
  | done h2 o2 =>
    rintro ⟨v, M, hM⟩
    refine ⟨max N M, fun f hf => ?_⟩
    simp only at hM ⊢
    rw [hexec f (by omega), hM f (by omega)]
  | raised w' h2 s2 r2 =>
    rintro ⟨t2, o2, u2, _, _, M, hM⟩
    refine ⟨{ st with text := t2, heap := h2, out := o2 }, rfl, max N M, fun f hf => ?_⟩
    simp only at hM ⊢
    rw [hexec f (by omega), hM f (by omega)]
  | cpp =>
    rintro ⟨st', M, hM⟩
    refine ⟨st', max N M, fun f hf => ?_⟩
    simp only at hM ⊢
    rw [hexec f (by omega), hM f (by omega)]
  | ub =>
    rintro ⟨M, hM⟩
    refine ⟨max N M, fun f hf => ?_⟩
    simp only at hM ⊢
    rw [hexec f (by omega), hM f (by omega)]

/-! ## C11: precedence and associativity -/

/-- Executing `x = <expression>` for a name `x` of the interpreter's namespace to which the value can be assigned. -/
theorem assign_program (env : Env D) (st : St D) (r : Reachable env.dbl.ofInt st.heap) (hme : env.me < st.heap.length)
    {x : List Char} (hx : IsName x) {e : Expr} {s : List Char} (hc : e.Canonical) (hr : Render e s)
    (hpl : e.Plain env st.heap) {v : Val D} {o : List String} (hm : e.meaning env st.heap = .ok (DV.ofVal v, o))
    {c : Cell D} (hs : specAssign env.dbl.ofInt (cell st.heap env.me (String.ofList x)) v = some c) (i j k : Nat) :
    ∃ h, Ev (fun f => exec env f (x ++ (spaces i ++ ('=' :: (spaces j ++ s))) ++ spaces k) st)
        (.ok { st with text := [], heap := h, out := st.out ++ o }) ∧
      Reachable env.dbl.ofInt h ∧ cell h env.me (String.ofList x) = some c ∧
      (∀ id m, ¬ (id = env.me ∧ m = String.ofList x) → cell h id m = cell st.heap id m) := by
  have ha := assign_exact r env.me hme (String.ofList x) v
  rw [hs] at ha
  obtain ⟨h, hstep, hcell, hframe, _⟩ := ha
  refine ⟨h, ?_, by simpa [Namespace.exec, hstep] using reachable_exec r [.assign env.me (String.ofList x) v], hcell, hframe⟩
  have hst : store env (String.ofList x) (DV.ofVal v) st.heap = .ok h := by
    cases v <;> simp only [store, DV.ofVal, hstep]
  have hrs : RenderStmt ⟨[x], e⟩ (x ++ (spaces i ++ ('=' :: (spaces j ++ s)))) := .assign i j (.expr hr)
  obtain ⟨⟨c0, cs, rfl, hd⟩, hall, hop⟩ := hx
  have hcan : Stmt.Canonical ⟨[c0 :: cs], e⟩ := ⟨by simpa using ⟨⟨c0, cs, rfl, hd⟩, hall, hop⟩, hc⟩
  have hprog := Prog.stmt 0 hcan hrs (by rintro h; simp at h; subst h; revert hd; decide)
    (by rintro h; simp at h; subst h; revert hd; decide) (Prog.done false k)
  have hP : Program [(⟨[c0 :: cs], e⟩, c0 :: cs ++ (spaces i ++ ('=' :: (spaces j ++ s))))]
      (c0 :: cs ++ (spaces i ++ ('=' :: (spaces j ++ s))) ++ spaces k) := by
    refine ⟨by simpa [spaces] using hprog, fun k' e' => ?_⟩
    simp only [List.cons_append, spaces, List.replicate_succ, List.cons.injEq] at e'
    have := e'.1; subst this; revert hd; decide
  refine exec_program env hP st ⟨hpl, fun _ _ _ => trivial⟩ ?_
  simp only [run, Stmt.meaning, hm, PRes.bind, storeAll, hst]

/-- C11: executing `x = <expression>`, where the expression is any text that the documented precedence table reads as
the integer tree `t` (any spacing, any redundant parentheses), stores the value of `t` in `x` and changes no other
variable. -/
theorem int_expression (env : Env D) (st : St D) (r : Reachable env.dbl.ofInt st.heap) (hme : env.me < st.heap.length)
    {x : List Char} (hx : IsName x) (hnew : cell st.heap env.me (String.ofList x) = none)
    {e : Expr} {s : List Char} (hc : e.Canonical) (hr : Render e s) {t : IExpr} (ht : e.tree = some t) (hok : t.Ok)
    {v : Int} (hv : t.value = some v) (i j k : Nat) :
    ∃ h, Ev (fun f => exec env f (x ++ (spaces i ++ ('=' :: (spaces j ++ s))) ++ spaces k) st)
        (.ok { st with text := [], heap := h }) ∧
      lookupInt h env.me (String.ofList x) = .val v ∧
      (∀ id m, ¬ (id = env.me ∧ m = String.ofList x) → cell h id m = cell st.heap id m) := by
  obtain ⟨hm, hpl⟩ := tree_meaning env st.heap e t ht hok
  rw [hv] at hm
  obtain ⟨h, h1, hre, h2, h3⟩ := assign_program env st r hme hx hc hr hpl (v := .int v) hm
    (c := .val (.int v)) (by rw [hnew]; rfl) i j k
  exact ⟨h, by simpa using h1, (lookup_local hre h2).1, h3⟩

/-- C11: and if the tree has no 32-bit value (overflow, division by zero), the C++ program has undefined behaviour. -/
theorem int_expression_ub (env : Env D) (st : St D) {x : List Char} (hx : IsName x)
    {e : Expr} {s : List Char} (hc : e.Canonical) (hr : Render e s) {t : IExpr} (ht : e.tree = some t) (hok : t.Ok)
    (hv : t.value = none) (i j : Nat) :
    Ev (fun f => exec env f (x ++ (spaces i ++ ('=' :: (spaces j ++ s)))) st) .ub := by
  obtain ⟨hm, hpl⟩ := tree_meaning env st.heap e t ht hok
  rw [hv] at hm
  have hrs : RenderStmt ⟨[x], e⟩ (x ++ (spaces i ++ ('=' :: (spaces j ++ s)))) := .assign i j (.expr hr)
  obtain ⟨⟨c0, cs, rfl, hd⟩, hall, hop⟩ := hx
  have hcan : Stmt.Canonical ⟨[c0 :: cs], e⟩ := ⟨by simpa using ⟨⟨c0, cs, rfl, hd⟩, hall, hop⟩, hc⟩
  have hprog := Prog.stmt 0 hcan hrs (by rintro h; simp at h; subst h; revert hd; decide)
    (by rintro h; simp at h; subst h; revert hd; decide) (Prog.done false 0)
  have := (runs_prog env hprog .empty st ⟨hpl, fun _ _ _ => trivial⟩).2 rfl (by
    intro k' e'
    simp only [List.cons_append, spaces, List.replicate_succ, List.replicate_zero, List.nil_append, List.cons.injEq] at e'
    have := e'.1; subst this; revert hd; decide)
  unfold RunsProg at this
  simp only [run, Stmt.meaning, hm, PRes.bind] at this
  obtain ⟨N, hN⟩ := this
  refine ⟨N, fun f hf => ?_⟩
  simp only [exec]; simp only [spaces, List.replicate_zero, List.nil_append, List.append_nil] at hN
  simp only [spaces]
  rw [hN f hf]

/-- C11: every integer tree has a text, with parentheses only where precedence requires them, which the interpreter reads
back as that tree: executing `x=<text of t>` stores the value of `t`. -/
theorem int_text (env : Env D) (st : St D) (r : Reachable env.dbl.ofInt st.heap) (hme : env.me < st.heap.length)
    {x : List Char} (hx : IsName x) (hnew : cell st.heap env.me (String.ofList x) = none)
    (t : IExpr) (hok : t.Ok) {v : Int} (hv : t.value = some v) :
    ∃ h, Ev (fun f => exec env f (x ++ '=' :: t.text) st) (.ok { st with text := [], heap := h }) ∧
      lookupInt h env.me (String.ofList x) = .val v := by
  obtain ⟨h1, h2, h3⟩ := src_spec t
  obtain ⟨h, a, b, _⟩ := int_expression env st r hme hx hnew h1 h2 h3 hok hv 0 0 0
  exact ⟨h, by simpa [spaces] using a, b⟩

/-! ## C12: string literals -/

/-- C12: executing `x = {src}` stores exactly the string that `src` denotes by the documented rules. -/
theorem string_literal (env : Env D) (st : St D) (r : Reachable env.dbl.ofInt st.heap) (hme : env.me < st.heap.length)
    {x : List Char} (hx : IsName x) (hnew : cell st.heap env.me (String.ofList x) = none)
    {src v : List Char} (hl : Lit src v) (i j k : Nat) :
    ∃ h, Ev (fun f => exec env f (x ++ (spaces i ++ ('=' :: (spaces j ++ ('{' :: src ++ ['}'])))) ++ spaces k) st)
        (.ok { st with text := [], heap := h }) ∧
      lookupStr h env.me (String.ofList x) = .val (String.ofList v) := by
  obtain ⟨h, h1, hre, h2, h3⟩ := assign_program env st r hme hx (e := .str v) trivial (.str hl) trivial
    (v := .str (String.ofList v)) (o := []) rfl (c := .val (.str (String.ofList v))) (by rw [hnew]; rfl) i j k
  exact ⟨h, by simpa using h1, (lookup_local hre h2).2.2⟩

/-- C12: every string, including those with unbalanced braces and backslashes, has a literal that evaluates to it. -/
theorem string_quotable (env : Env D) (st : St D) (r : Reachable env.dbl.ofInt st.heap) (hme : env.me < st.heap.length)
    {x : List Char} (hx : IsName x) (hnew : cell st.heap env.me (String.ofList x) = none) (v : List Char) :
    ∃ h, Ev (fun f => exec env f (x ++ ('=' :: ('{' :: quote v ++ ['}']))) st) (.ok { st with text := [], heap := h }) ∧
      lookupStr h env.me (String.ofList x) = .val (String.ofList v) := by
  obtain ⟨h, a, b⟩ := string_literal env st r hme hx hnew (quote_lit v) 0 0 0
  exact ⟨h, by simpa [spaces] using a, b⟩

/-- C12: nothing else is accepted: whenever the scanner finishes a literal, the text it consumed is `src}` for a `src`
that denotes the resulting string by the documented rules. -/
theorem string_only_documented {text v t : List Char} (h : strLit 1 false text = some (v, t)) :
    ∃ src, Lit src v ∧ text = src ++ '}' :: t := by
  obtain ⟨s, hs, e, _⟩ := strLit_complete text.length text 1 v t (Nat.le_refl _) (Nat.le_refl _) h
  generalize hn : 1 = n at hs
  cases hs with
  | one hs => exact ⟨s, hs, e⟩
  | more _ h2 =>
    exfalso
    cases h2 <;> omega

/-- C12: the documented rules are unambiguous. -/
theorem lit_unique {src v v' : List Char} (h : Lit src v) (h' : Lit src v') : v = v' := by
  have a := strLit_spec h ['x'] (by simp)
  have b := strLit_spec h' ['x'] (by simp)
  rw [a] at b
  simpa using b

/-! ## C13: operator typing -/

/-- A value is numeric. -/
def Numeric : DV D → Prop
  | .int _ | .dbl _ => True
  | _ => False

/-- A numeric value as a float. -/
def asDbl (env : Env D) : DV D → Option D
  | .int i => some (env.dbl.ofInt i)
  | .dbl d => some d
  | _ => none

/-- The operators that accept ints and floats (the table of the manual). -/
def Arith : BinOp → Prop
  | .pow | .div | .mul | .sub => True
  | _ => False
def Compare : BinOp → Prop
  | .ge | .le | .lt | .gt | .and | .or => True
  | _ => False

/-- C13: an arithmetic operator on two ints gives an int, or has undefined behaviour (overflow, division by zero);
never an exception. -/
theorem arith_int_int (env : Env D) (h : Heap D) (op : BinOp) (ho : Arith op ∨ op = .add ∨ op = .mod) (a b : Int) :
    (∃ c, applyBin env h op (.int a) (.int b) = .ok (.int c)) ∨ applyBin env h op (.int a) (.int b) = .ub := by
  rw [applyBin_int env h op (by rintro rfl; rcases ho with h | h | h <;> simp [Arith] at h)]
  cases iop op a b with
  | none => right; rfl
  | some c => left; exact ⟨c, rfl⟩

/-- What each arithmetic operator does to two floats. -/
def dblOp (env : Env D) : BinOp → Option (D → D → D)
  | .pow => some env.dbl.pow
  | .div => some env.dbl.div
  | .mul => some env.dbl.mul
  | .sub => some env.dbl.sub
  | .add => some env.dbl.add
  | _ => none

/-- What each comparison does to two floats. -/
def dblCmp (env : Env D) : BinOp → Option (D → D → Bool)
  | .eq => some env.dbl.eq
  | .ne => some fun a b => !env.dbl.eq a b
  | .ge => some fun a b => env.dbl.le b a
  | .le => some env.dbl.le
  | .gt => some fun a b => env.dbl.lt b a
  | .lt => some env.dbl.lt
  | .and => some fun a b => env.dbl.nz a && env.dbl.nz b
  | .or => some fun a b => env.dbl.nz a || env.dbl.nz b
  | _ => none

/-- C13: if at least one operand of an arithmetic operator is a float and the other is numeric, the result is the float
operation on the operands converted to float. -/
theorem arith_mixed (env : Env D) (h : Heap D) (op : BinOp) {f : D → D → D} (hf : dblOp env op = some f)
    (x y : DV D) {a b : D} (hx : asDbl env x = some a) (hy : asDbl env y = some b)
    (hne : ∀ i j, ¬ (x = .int i ∧ y = .int j)) :
    applyBin env h op x y = .ok (.dbl (f a b)) := by
  cases op <;> simp only [dblOp, Option.some.injEq, reduceCtorEq] at hf <;> subst hf <;>
    cases x <;> cases y <;> simp_all [asDbl, applyBin, opArith, opAdd, promote]

/-- C13: comparisons and logical operators on numeric operands, at least one of them float, give 0 or 1 according to the
float comparison of the converted operands. -/
theorem compare_mixed (env : Env D) (h : Heap D) (op : BinOp) {f : D → D → Bool} (hf : dblCmp env op = some f)
    (x y : DV D) {a b : D} (hx : asDbl env x = some a) (hy : asDbl env y = some b)
    (hne : ∀ i j, ¬ (x = .int i ∧ y = .int j)) :
    applyBin env h op x y = .ok (.int (if f a b then 1 else 0)) := by
  cases op <;> simp only [dblCmp, Option.some.injEq, reduceCtorEq] at hf <;> subst hf <;>
    cases x <;> cases y <;> simp_all [asDbl, applyBin, opCmp, opEq, opNe, promote, b2i] <;>
    (split <;> simp_all)

/-- C13: on two ints every comparison gives 1 or 0 according to the integer comparison, so they are mutually
consistent. -/
theorem compare_int (env : Env D) (h : Heap D) (a b : Int) :
    applyBin env h .eq (.int a) (.int b) = .ok (.int (if a = b then 1 else 0)) ∧
    applyBin env h .ne (.int a) (.int b) = .ok (.int (if a ≠ b then 1 else 0)) ∧
    applyBin env h .lt (.int a) (.int b) = .ok (.int (if a < b then 1 else 0)) ∧
    applyBin env h .le (.int a) (.int b) = .ok (.int (if a ≤ b then 1 else 0)) ∧
    applyBin env h .gt (.int a) (.int b) = .ok (.int (if b < a then 1 else 0)) ∧
    applyBin env h .ge (.int a) (.int b) = .ok (.int (if b ≤ a then 1 else 0)) ∧
    applyBin env h .and (.int a) (.int b) = .ok (.int (if a ≠ 0 ∧ b ≠ 0 then 1 else 0)) ∧
    applyBin env h .or (.int a) (.int b) = .ok (.int (if a ≠ 0 ∨ b ≠ 0 then 1 else 0)) := by
  refine ⟨?_, ?_, ?_, ?_, ?_, ?_, ?_, ?_⟩ <;> rw [applyBin_int env h _ (by decide)] <;> simp only [iop]
  by_cases hab : a = b <;> simp [hab]

/-- C13: `!=` is the negation of `==` on every pair of operands for which `==` is defined, and undefined exactly when
`==` is. -/
theorem ne_not_eq (env : Env D) (h : Heap D) (x y : DV D) :
    (∀ i, applyBin env h .eq x y = .ok (.int i) → applyBin env h .ne x y = .ok (.int (if i = 0 then 1 else 0))) ∧
    (∀ w, applyBin env h .eq x y = .hil w → applyBin env h .ne x y = .hil w) ∧
    (∀ v, applyBin env h .eq x y = .ok v → v = .int 0 ∨ v = .int 1) := by
  refine ⟨?_, ?_, ?_⟩
  · intro i hi
    simp only [applyBin] at hi
    simp only [applyBin, opNe, hi, b2i, beq_iff_eq]
  · intro w hw
    simp only [applyBin] at hw
    simp only [applyBin, opNe, hw]
  · intro v hv
    simp only [applyBin] at hv
    cases x <;> cases y <;> simp [opEq, opCmp, promote] at hv <;> subst hv <;> simp only [b2i] <;> (split <;> simp)

/-- C13: strings: `+` concatenates, `==` compares, and every other operator that is not `#` raises a HIL exception as
soon as one operand is a string; `==` between a string and a number raises too. -/
theorem string_operands (env : Env D) (h : Heap D) (s : String) (y : DV D) :
    (∀ op, (Arith op ∨ Compare op ∨ op = .mod) →
      (∃ w, applyBin env h op (.str s) y = .hil w) ∧ (∃ w, applyBin env h op y (.str s) = .hil w)) ∧
    (∀ t, applyBin env h .eq (.str s) (.str t) = .ok (.int (if s = t then 1 else 0))) ∧
    (Numeric y → (∃ w, applyBin env h .eq (.str s) y = .hil w) ∧ (∃ w, applyBin env h .eq y (.str s) = .hil w)) ∧
    (∀ t fd, lookupStr h env.me "format_double" = .val fd → applyBin env h .add (.str s) (.str t) = .ok (.str (s ++ t))) := by
  refine ⟨?_, ?_, ?_, ?_⟩
  · intro op ho
    cases op <;> simp [Arith, Compare] at ho <;> cases y <;> simp [applyBin, opArith, opCmp, opMod]
  · intro t
    simp only [applyBin, opEq, b2i, beq_iff_eq]
  · intro hn
    cases y <;> simp [Numeric] at hn <;> simp [applyBin, opEq]
  · intro t fd hfd
    simp [applyBin, opAdd, hfd, strOf]

/-- C13: `+` between a string and an int inserts the decimal representation. -/
theorem string_plus_int (env : Env D) (h : Heap D) (s : String) (i : Int) {fd : String}
    (hfd : lookupStr h env.me "format_double" = .val fd) :
    applyBin env h .add (.str s) (.int i) = .ok (.str (s ++ toString i)) ∧
    applyBin env h .add (.int i) (.str s) = .ok (.str (toString i ++ s)) := by
  constructor <;> simp [applyBin, opAdd, hfd, strOf]

/-- C13: `%` accepts only two ints; anything else raises. -/
theorem mod_types (env : Env D) (h : Heap D) (x y : DV D) (hne : ∀ i j, ¬ (x = .int i ∧ y = .int j)) :
    ∃ w, applyBin env h .mod x y = .hil w := by
  cases x <;> cases y <;> simp_all [applyBin, opMod]

/-- C13: `#` on a string and an int: the character at that position (undefined outside the string, except that the position
just after the end gives the null character); every other operand combination raises. -/
theorem index_types (env : Env D) (h : Heap D) (x y : DV D) :
    (∀ s i, x = .str s → y = .int i → 0 ≤ i → ∀ c, s.toList[i.toNat]? = some c →
      applyBin env h .idx x y = .ok (.str (String.ofList [c]))) ∧
    (∀ s i, x = .str s → y = .int i → i = s.toList.length →
      applyBin env h .idx x y = .ok (.str (String.ofList ['\x00']))) ∧
    (∀ s i, x = .str s → y = .int i → i < 0 ∨ s.toList.length < i → applyBin env h .idx x y = .ub) ∧
    ((∀ s i, ¬ (x = .str s ∧ y = .int i)) → ∃ w, applyBin env h .idx x y = .hil w) := by
  refine ⟨?_, ?_, ?_, ?_⟩
  · rintro s i rfl rfl hi c hc
    simp only [applyBin, opIdx, hc]
    rw [if_neg (by omega)]
  · rintro s i rfl rfl hi
    subst hi
    simp [applyBin, opIdx, List.getElem?_eq_none]
  · rintro s i rfl rfl hi
    simp only [applyBin, opIdx]
    by_cases h0 : i < 0
    · rw [if_pos h0]
    · rw [if_neg h0, List.getElem?_eq_none (by omega)]
      simp only
      rw [if_neg (by omega)]
  · intro hne
    cases x <;> cases y <;> simp_all [applyBin, opIdx]

/-- C13: unary operators: `-` keeps the type, `!` is 1 exactly on 0, `#` is the length; wrong types raise. -/
theorem unary_types (env : Env D) (h : Heap D) :
    (∀ i, applyUn env h "!" (.int i) = .ok (.int (if i = 0 then 1 else 0), [])) ∧
    (∀ i, i ≠ -2147483648 → inRange i → applyUn env h "-" (.int i) = .ok (.int (-i), [])) ∧
    (∀ d, applyUn env h "-" (.dbl d) = .ok (.dbl (env.dbl.neg d), [])) ∧
    (∀ s, applyUn env h "#" (.str s) = .ok (.int s.length, [])) ∧
    (∀ s, ∃ w, applyUn env h "-" (.str s) = .hil w) ∧
    (∀ x, (∀ i, x ≠ .int i) → ∃ w, applyUn env h "!" x = .hil w) ∧
    (∀ x, (∀ s, x ≠ .str s) → ∃ w, applyUn env h "#" x = .hil w) := by
  refine ⟨?_, ?_, ?_, ?_, ?_, ?_, ?_⟩
  · intro i; simp [applyUn, PRes.bind, b2i]
  · intro i hi hr
    have : inRange (i * -1) := by unfold inRange at *; omega
    simp only [applyUn, if_true, mkInt, this, PRes.bind]
    rw [show i * -1 = -i by omega]
  · intro d; simp [applyUn, PRes.bind]
  · intro s; simp [applyUn, PRes.bind, String.length_toList]
  · intro s; simp [applyUn, PRes.bind]
  · intro x hx; cases x <;> simp_all [applyUn, PRes.bind]
  · intro x hx; cases x <;> simp_all [applyUn, PRes.bind]

/-- C13 (disagreement): `abs` on a string is not a HIL exception: it is a foreign C++ exception, which no handler
catches. -/
theorem abs_string (env : Env D) (h : Heap D) (s : String) : applyUn env h "abs" (.str s) = .cpp := by
  simp [applyUn, PRes.bind]

/-! ## Macros -/

/-- C41: `$` followed by any operand (a literal, a variable, a parenthesised or unary expression) that evaluates to the
string `s`: the interpreter goes on exactly as if the text began with `s`, followed by the rest of the text without its
leading spaces. -/
theorem macro_substitution (env : Env D) {e : Expr} {src : List Char} (hr : Render e src) (hc : e.Canonical)
    (hlev : e.level = 0) (p : Nat) (val : DV D) (st : St D) (k j : Nat) (rest : List Char) (hrest : SafeRest rest)
    (hpl : e.Plain env st.heap) {s : String} {o : List String} (hm : e.meaning env st.heap = .ok (.str s, o))
    (r : Res D (DV D)) :
    Ev (fun f => eval env f p val { st with text := s.toList ++ dropSpaces rest, out := st.out ++ o }) r →
    Ev (fun f => eval env f p val { st with text := spaces k ++ '$' :: (spaces j ++ (src ++ rest)) }) r := by
  intro h
  have hg := good env hr hc 0 .empty st j rest hpl (Or.inl hlev) hrest (by intro o _; rw [hlev]; omega)
  rw [hm] at hg
  have hE := hg _ (by simp) (after_low env 0 (.str s) _ (by decide) hrest.ne' (by intro o _; omega))
  refine Ev.of_shift (g := fun f => tokSubst (eval env f) p val { st with text := spaces j ++ (src ++ rest) }) ?_ ?_
  · exact Ev.bind (k := fun a f => match a with
      | .ok (.str s) st' => eval env f p val { st' with text := s.toList ++ st'.text }
      | .ok _ st' => .hil "only a string can be substituted as code" st'
      | r => r) hE h
  · intro f
    obtain ⟨c, cs, rfl, _, _⟩ := hr.first hc
    rw [eval_tok env f p val st k '$' _ (by decide) (by simp), kind_subst]

/-! ## Concrete programs: the hypotheses are met, and disagreements with the manual -/

/-- A stand-in for `double` in the examples. -/
def demoDbl : Dbl Int where
  ofInt := id
  add := (· + ·)
  sub := (· - ·)
  mul := (· * ·)
  div := Int.tdiv
  pow := fun a b => a ^ b.toNat
  lt := fun a b => decide (a < b)
  le := fun a b => decide (a ≤ b)
  eq := fun a b => decide (a = b)
  nz := fun a => decide (a ≠ 0)
  neg := fun a => -a
  abs := fun a => a.natAbs
  fn := fun _ a => a
  lround := fun a => if inRange a then some a else none
  stod := fun _ => some 7
  fmt := fun _ _ => some "f"

def demoEnv : Env Int where
  dbl := demoDbl
  me := 0
  files := fun _ => none
  shell := fun _ => 0
  callback := fun _ _ => none
  message := fun w _ => w

/-- A freshly constructed interpreter. -/
def demoSt : St Int := ⟨[], initHeap demoDbl 100, [], []⟩

/-- How an execution ends. -/
inductive End
  | ok | unhandled | raw | cpp | ub | out
  deriving DecidableEq, Repr

def ending (r : ExecRes Int) : End × Option (Heap Int) :=
  match r with
  | .ok st => (.ok, some st.heap)
  | .unhandled _ st => (.unhandled, some st.heap)
  | .raw _ st => (.raw, some st.heap)
  | .cpp st => (.cpp, some st.heap)
  | .ub => (.ub, none)
  | .out => (.out, none)

/-- Run a program in the fresh interpreter: how it ends and the integer value of a variable afterwards. -/
def demo (prog name : String) : End × Option (Read Int) :=
  let e := ending (exec demoEnv 200 prog.toList demoSt)
  (e.1, e.2.map fun h => lookupInt h 0 name)

theorem demo_reachable : Reachable demoDbl.ofInt demoSt.heap := ⟨_, rfl⟩
theorem demo_me : demoEnv.me < demoSt.heap.length := by decide +kernel

/-- Hypotheses of `int_text` are met by `10-4-3*2^3`. -/
example : ∃ h, Ev (fun f => exec demoEnv f "x=10-4-3*2^3".toList demoSt) (.ok { demoSt with text := [], heap := h }) ∧
    lookupInt h 0 "x" = .val (-18) := by
  have := int_text demoEnv demoSt demo_reachable demo_me (x := ['x'])
    ⟨⟨'x', [], rfl, by decide⟩, by decide, by decide⟩ (by decide +kernel)
    (.bin .sub (.bin .sub (.lit 10) (.lit 4)) (.bin .mul (.lit 3) (.bin .pow (.lit 2) (.lit 3))))
    (by simp [IExpr.Ok]) (v := -18) (by decide)
  have e : ['x'] ++ '=' :: (IExpr.bin .sub (.bin .sub (.lit 10) (.lit 4)) (.bin .mul (.lit 3) (.bin .pow (.lit 2) (.lit 3)))).text
      = "x=10-4-3*2^3".toList := by
    simp (decide := true) [IExpr.text, IExpr.level, docPrec, symbol, decimal]
  rw [e] at this
  exact this

example : demo "x = 1 + 2 * 3 - 4; y = (x = x + 1) * 2" "y" = (.ok, some (.val 8)) := by decide +kernel

/-- An exception is handled and the statement after the failing one runs. -/
example : demo "except = {h = 1}; bad = undefined_name + 1; z = h + 1" "z" = (.ok, some (.val 2)) := by decide +kernel
example : demo "x = 3; bad = undefined_name + 1; x = 4" "x" = (.unhandled, some (.val 3)) := by decide +kernel

/-- C14 (disagreement): a second exception in the same `exec` escapes as a raw `Hil_exception` although `except` is set
again. -/
theorem second_exception_refuted :
    demo "except = {h = 1}; undefined_a; except = {h = 2}; undefined_b; h = 3" "h" = (.raw, some (.val 1)) := by
  decide +kernel

/-- C14 (disagreement): the rest of the failing statement is not discarded if it contains a string literal with a
semicolon: the text after the semicolon is executed. -/
theorem discard_refuted :
    demo "except = {h = 1}; x = undefined_a + {quoted; k = 7; }" "k" = (.raw, some (.val 7)) := by
  decide +kernel

/-- C14 (disagreement): changing the type of a variable is documented to produce an exception, but it is a foreign C++
exception that the handler does not see. -/
theorem retype_refuted : demo "except = {h = 1}; x = 1; x = {text}; h = 2" "h" = (.cpp, some .none) := by
  decide +kernel

/-- C14 (disagreement): a separator does not terminate a statement if the next one begins with a sign: `{a}; -1` raises
an exception although both statements are valid, and `5; -1` evaluates to 4 instead of -1. -/
theorem stmt_minus_refuted :
    demo "x = ({a}; 1)" "x" = (.ok, some (.val 1)) ∧ demo "x = ({a}; -1)" "x" = (.unhandled, some .none) ∧
    demo "x = (5; -1)" "x" = (.ok, some (.val 4)) := by
  decide +kernel

/-- A program consisting of spaces raises an exception, although the empty program and an empty line do not. -/
theorem blank_refuted : (demo "" "x").1 = .ok ∧ (demo "  \n" "x").1 = .ok ∧ (demo "  " "x").1 = .unhandled := by
  decide +kernel

/-- A missing operand is undefined behaviour (dereference of an empty optional), not an exception. -/
theorem missing_operand_refuted : (demo "x = 1 +" "x").1 = .ub ∧ (demo "x = 1 + \n 2" "x").1 = .ub := by
  decide +kernel

/-- `exit` in the middle of a statement reads from an empty text: undefined behaviour. -/
theorem exit_refuted : (demo "exit" "x").1 = .ub := by decide +kernel

end Hexed.Hil
