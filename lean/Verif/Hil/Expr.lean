import Verif.Hil.Lex
set_option autoImplicit false
set_option linter.unusedVariables false

/-! The evaluator on rendered expressions: the induction behind C11-C14. -/

namespace Hexed.Hil
open Hexed.Namespace

variable {D : Type}

/-! ### Settled results -/

theorem after_mono (env : Env D) (f k p : Nat) (v : DV D) (st : St D)
    (h : after env f p v st ≠ .out) : after env (f + k) p v st = after env f p v st := by
  induction k with
  | zero => rfl
  | succ k ih =>
    rcases (mono_step env (f + k)).2.1 p v st with e | e
    · rw [ih] at e; exact absurd e h
    · rw [← ih]; exact e

theorem binLoop_mono (env : Env D) (f k p : Nat) (v : DV D) (st : St D)
    (h : binLoop env f p v st ≠ .out) : binLoop env (f + k) p v st = binLoop env f p v st := by
  induction k with
  | zero => rfl
  | succ k ih =>
    rcases (mono_step env (f + k)).2.2 p v st with e | e
    · rw [ih] at e; exact absurd e h
    · rw [← ih]; exact e

/-- What `afterBody` does with the result of the operator loop. -/
def cont (E : Ef D) (p : Nat) (rb : Res D (DV D)) : Res D (DV D) :=
  match rb with
  | .ok v st' => if p < pStmt then .ok v st' else E p v st'
  | r => r

theorem after_succ (env : Env D) (f p : Nat) (v : DV D) (st : St D) (h : st.text ≠ []) :
    after env (f + 1) p v st =
      cont (eval env f) p (binLoop env f p v { st with text := dropSpaces st.text }) := by
  rw [after, afterBody, skip]
  obtain ⟨c, cs, e⟩ := List.exists_cons_of_ne_nil h
  rw [e]
  simp only [← e]
  unfold cont
  generalize binLoop env f p v { st with text := dropSpaces st.text } = b
  cases b <;> rfl

theorem after_out (env : Env D) {p : Nat} {v : DV D} {st : St D} {r : Res D (DV D)} (hr : r ≠ .out) (h : st.text ≠ []) :
    Ev (fun f => after env f p v st) r ↔
      ∃ rb, rb ≠ .out ∧ Ev (fun f => binLoop env f p v { st with text := dropSpaces st.text }) rb ∧
        Ev (fun f => cont (eval env f) p rb) r := by
  constructor
  · rintro ⟨N, hN⟩
    have h1 := hN (N + 1) (by omega)
    simp only at h1
    rw [after_succ env N p v st h] at h1
    refine ⟨binLoop env N p v { st with text := dropSpaces st.text }, ?_, ⟨N, fun f hf => ?_⟩, ⟨N, fun f hf => ?_⟩⟩
    · intro e; rw [e] at h1; exact hr h1.symm
    · obtain ⟨k, rfl⟩ := Nat.exists_eq_add_of_le hf
      apply binLoop_mono
      intro e; rw [e] at h1; exact hr h1.symm
    · obtain ⟨k, rfl⟩ := Nat.exists_eq_add_of_le hf
      rw [← h1]
      have hne : cont (eval env N) p (binLoop env N p v { st with text := dropSpaces st.text }) ≠ .out := by
        rw [h1]; exact hr
      revert hne
      unfold cont
      cases binLoop env N p v { st with text := dropSpaces st.text } with
      | ok v' st' =>
        simp only
        split
        · intro _; rfl
        · intro hne; exact eval_mono env N k p v' st' hne
      | _ => intro _; rfl
  · rintro ⟨rb, _, hb, hc⟩
    refine Ev.of_shift (g := fun f => cont (eval env f) p
      (binLoop env f p v { st with text := dropSpaces st.text })) ?_ (fun f => after_succ env f p v st h)
    exact Ev.bind (k := fun a f => cont (eval env f) p a) hb hc

/-- Leading spaces do not matter to the tail of the loop body. -/
theorem after_skip (env : Env D) {p : Nat} {v : DV D} {st : St D} {r : Res D (DV D)}
    (hr : r ≠ .out) (h : dropSpaces st.text ≠ []) (ha : Ev (fun f => after env f p v st) r) :
    Ev (fun f => after env f p v { st with text := dropSpaces st.text }) r := by
  have h0 : st.text ≠ [] := by rintro e; rw [e] at h; simp at h
  obtain ⟨rb, h1, h2, h3⟩ := (after_out env hr h0).mp ha
  refine (after_out env hr h).mpr ⟨rb, h1, ?_, h3⟩
  simpa only [dropSpaces_idem] using h2

theorem binLoop_none (env : Env D) (p : Nat) (v : DV D) (st : St D) (h : matchOp st.text = none) :
    Ev (fun f => binLoop env f p v st) (.ok v st) := by
  refine ⟨1, fun f hf => ?_⟩
  obtain ⟨f', rfl⟩ : ∃ f', f = f' + 1 := ⟨f - 1, by omega⟩
  show binLoop env (f' + 1) p v st = _
  rw [binLoop, binBody, h]

/-- The operator loop stops in front of an operator that does not bind tighter. -/
theorem binLoop_low (env : Env D) (p : Nat) (v : DV D) (st : St D)
    (h : ∀ op, matchOp st.text = some op → p ≤ op.prec) :
    Ev (fun f => binLoop env f p v st) (.ok v st) := by
  refine ⟨1, fun f hf => ?_⟩
  obtain ⟨f', rfl⟩ : ∃ f', f = f' + 1 := ⟨f - 1, by omega⟩
  show binLoop env (f' + 1) p v st = _
  rw [binLoop, binBody]
  cases hm : matchOp st.text with
  | none => rfl
  | some op =>
    simp only
    rw [if_neg (by have := h op hm; omega)]

/-- An operand ends in front of an operator that does not bind tighter. -/
theorem after_low (env : Env D) (p : Nat) (v : DV D) (st : St D) (hp : p < pStmt) (h0 : st.text ≠ [])
    (h : ∀ op, matchOp (dropSpaces st.text) = some op → p ≤ op.prec) :
    Ev (fun f => after env f p v st) (.ok v { st with text := dropSpaces st.text }) := by
  refine (after_out env (by simp) h0).mpr ⟨_, ?_, binLoop_low env p v _ h, ?_⟩
  · simp
  · unfold cont
    simp only [hp, if_true]
    exact Ev.const _

theorem prec_pos (op : BinOp) : 1 ≤ op.prec ∧ op.prec ≤ 5 := by cases op <;> decide

theorem dropSpaces_nonspace_append {c : Char} (hc : c ≠ ' ') (k : Nat) (t : List Char) :
    dropSpaces (spaces k ++ c :: t) = c :: t := by
  rw [dropSpaces_spaces, dropSpaces_ne c t hc]

/-- One token. -/
theorem eval_tok (env : Env D) (f p : Nat) (val : DV D) (st : St D) (k : Nat) (c : Char) (t : List Char)
    (hc : c ≠ ' ') (ht : t ≠ []) :
    eval env (f + 1) p val { st with text := spaces k ++ c :: t } =
      (let popped : St D := { st with text := t }
       let full : St D := { st with text := c :: t }
       match kind p c with
        | .subst => tokSubst (eval env f) p val popped
        | .sep => after env f p val popped
        | .lparen => tokParen (eval env f) (after env f) p popped
        | .rparen => .ok val popped
        | .num => tokNum env (after env f) p full
        | .str => tokStr (after env f) p popped
        | .name => tokName env (eval env f) (after env f) p full
        | .sym => tokUn env (eval env f) (after env f) (String.ofList [c]) p popped
        | .bad => .hil "failed to parse value" full) := by
  rw [eval, evalBody]
  have hl : ¬ ((spaces k ++ c :: t).length ≤ 1) := by
    cases t with
    | nil => exact absurd rfl ht
    | cons x xs => simp; omega
  have hs : skip ({ st with text := spaces k ++ c :: t } : St D) = some { st with text := c :: t } := by
    rw [skip]
    obtain ⟨d, ds, e⟩ : ∃ d ds, spaces k ++ c :: t = d :: ds := by
      cases h : spaces k ++ c :: t with
      | nil => simp at h
      | cons d ds => exact ⟨d, ds, rfl⟩
    have := dropSpaces_nonspace_append hc k t
    simp only [e] at this ⊢
    rw [this]
  simp only [hl, if_false, hs]
  all_goals
    cases kind p c <;> rfl

/-! ### What may follow an expression -/

/-- The text after an expression: not empty, does not continue a name or number, is not an assignment sign. -/
structure SafeRest (rest : List Char) : Prop where
  ne : dropSpaces rest ≠ []
  head : ∀ c, rest.head? = some c → isNameChar c = false ∧ c ≠ '.'
  eq : (dropSpaces rest).head? = some '=' → (dropSpaces rest).tail.head? = some '='

theorem SafeRest.ne' {rest : List Char} (h : SafeRest rest) : rest ≠ [] := by
  rintro rfl; exact h.ne (by simp)

theorem isNameChar_space : isNameChar ' ' = false := by decide

theorem spaces_head {k : Nat} {t : List Char} {c : Char} (h : (spaces k ++ t).head? = some c) :
    c = ' ' ∨ t.head? = some c := by
  cases k with
  | zero => right; simpa [spaces] using h
  | succ k => left; simpa [spaces, List.replicate_succ] using h.symm

theorem SafeRest.of {k : Nat} {c : Char} {t : List Char} (hc : c ≠ ' ') (h1 : isNameChar c = false) (h2 : c ≠ '.')
    (h3 : c = '=' → t.head? = some '=') : SafeRest (spaces k ++ c :: t) := by
  refine ⟨?_, ?_, ?_⟩
  · rw [dropSpaces_nonspace_append hc]; simp
  · intro d hd
    rcases spaces_head hd with rfl | hd
    · exact ⟨by decide, by decide⟩
    · simp at hd; subst hd; exact ⟨h1, h2⟩
  · rw [dropSpaces_nonspace_append hc]
    simpa using h3

theorem SafeRest.op (op : BinOp) (k : Nat) (t : List Char) : SafeRest (spaces k ++ (op.name ++ t)) := by
  cases op <;>
    exact SafeRest.of (by decide) (by decide) (by decide) (by first | (intro _; rfl) | (intro h; exact absurd h (by decide)))

theorem dropSpaces_op (op : BinOp) (k : Nat) (t : List Char) :
    dropSpaces (spaces k ++ (op.name ++ t)) = op.name ++ t := by
  cases op <;> exact dropSpaces_nonspace_append (by decide) k _

/-- First character of an expression. -/
theorem Render.first {e : Expr} {s : List Char} (h : Render e s) (hc : e.Canonical) :
    ∃ c cs, s = c :: cs ∧ c ≠ ' ' ∧ c ≠ '=' := by
  induction h with
  | num s =>
    obtain ⟨c, cs, rfl, hd⟩ := IsNum.head hc
    refine ⟨c, cs, rfl, ?_, ?_⟩ <;> (rintro rfl; revert hd; decide)
  | str _ => exact ⟨'{', _, rfl, by decide, by decide⟩
  | var n =>
    obtain ⟨⟨c, cs, rfl, hd⟩, _⟩ := hc
    refine ⟨c, cs, rfl, ?_, ?_⟩ <;> (rintro rfl; revert hd; decide)
  | @un op e s i _ _ ih =>
    have hop : op ∈ unOps := hc.1
    have : ∀ o ∈ unOps, ∃ c cs, o.toList = c :: cs ∧ c ≠ ' ' ∧ c ≠ '=' := by
      intro o ho
      have : ∀ o ∈ unOps, (match o.toList with | [] => false | c :: _ => c != ' ' && c != '=') = true := by decide
      have := this o ho
      cases h : o.toList with
      | nil => rw [h] at this; simp at this
      | cons c cs => rw [h] at this; exact ⟨c, cs, rfl, by simpa using this⟩
    obtain ⟨c, cs, e1, h1, h2⟩ := this op hop
    exact ⟨c, cs ++ (spaces i ++ s), by rw [e1]; rfl, h1, h2⟩
  | @bin op a b s t i j _ _ iha ihb =>
    obtain ⟨c, cs, rfl, h1, h2⟩ := iha hc.2.2.1
    exact ⟨c, _, rfl, h1, h2⟩
  | paren i j _ _ => exact ⟨'(', _, rfl, by decide, by decide⟩

/-- The text that is left when an exception is raised inside `s`, followed by `rest`. -/
def Left (s rest t : List Char) : Prop := ∃ s1 s2, s = s1 ++ s2 ∧ dropSpaces t = dropSpaces (s2 ++ rest)

/-- The evaluator, started on `s ++ rest` with precedence `p`, does what `m` says: continues after the expression with its
value, or ends with the exception. -/
def Runs (env : Env D) (p : Nat) (val : DV D) (st : St D) (k : Nat) (s rest : List Char)
    (m : PRes (DV D × List String)) : Prop :=
  match m with
  | .ok (v, o) => ∀ r, r ≠ .out →
      Ev (fun f => after env f p v { st with text := rest, out := st.out ++ o }) r →
      Ev (fun f => eval env f p val { st with text := spaces k ++ (s ++ rest) }) r
  | .hil w => ∃ t o, Left s rest t ∧
      Ev (fun f => eval env f p val { st with text := spaces k ++ (s ++ rest) }) (.hil w { st with text := t, out := o })
  | .cpp => ∃ t o,
      Ev (fun f => eval env f p val { st with text := spaces k ++ (s ++ rest) }) (.cpp { st with text := t, out := o })
  | .ub => Ev (fun f => eval env f p val { st with text := spaces k ++ (s ++ rest) }) .ub

def Good (env : Env D) (e : Expr) (s : List Char) : Prop :=
  ∀ (p : Nat) (val : DV D) (st : St D) (k : Nat) (rest : List Char),
    e.Plain env st.heap → (e.level = 0 ∨ e.level < p) → SafeRest rest →
    (∀ op, matchOp (dropSpaces rest) = some op → e.level ≤ op.prec) →
    Runs env p val st k s rest (e.meaning env st.heap)

theorem matchOp_op' (op : BinOp) (t : List Char) (ht : t ≠ []) (h : t.head? ≠ some '=') :
    matchOp (op.name ++ t) = some op := matchOp_op op t ht h

/-! ### Atoms -/

theorem good_num (env : Env D) (s : List Char) (hs : IsNum s) : Good env (.num s) s := by
  intro p val st k rest hpl hlev hrest hfol
  obtain ⟨c, cs, rfl, hd⟩ := IsNum.head hs
  have hne : c ≠ ' ' := by rintro rfl; revert hd; decide
  have htok : ∀ f, eval env (f + 1) p val { st with text := spaces k ++ (c :: cs ++ rest) } =
      tokNum env (after env f) p { st with text := c :: (cs ++ rest) } := by
    intro f
    have := eval_tok env f p val st k c (cs ++ rest) hne (by simp [hrest.ne'])
    rw [List.cons_append, this, kind_num p c hd]
  have hl := numLit_num env (c :: cs) rest hs hrest.head
  have hg : ∀ f, tokNum env (after env f) p { st with text := c :: (cs ++ rest) } =
      (match numMeaning env (c :: cs) with
       | .ok v => after env f p v { st with text := rest }
       | _ => .hil "failed to parse numeric literal" { st with text := rest }) := by
    intro f
    unfold tokNum
    rw [List.cons_append] at hl
    simp only [hl]
    cases numMeaning env (c :: cs) <;> rfl
  have hm : ∀ w, numMeaning env (c :: cs) = .hil w → w = "failed to parse numeric literal" := by
    intro w
    unfold numMeaning
    split
    · split <;> simp <;> exact fun h => h.symm
    · split <;> simp <;> exact fun h => h.symm
  have hm2 : numMeaning env (c :: cs) ≠ .cpp ∧ numMeaning env (c :: cs) ≠ .ub := by
    unfold numMeaning
    constructor <;> (split <;> split <;> simp)
  unfold Expr.meaning
  cases hn : numMeaning env (c :: cs) with
  | ok v =>
    simp only [PRes.bind, Runs]
    intro r hr ha
    refine Ev.of_shift ?_ htok
    refine ha.congr fun f => ?_
    rw [hg, hn]; simp
  | hil w =>
    simp only [PRes.bind, Runs]
    refine ⟨rest, st.out, ⟨c :: cs, [], by simp, rfl⟩, ?_⟩
    refine Ev.of_shift (g := fun _ => _) ?_ htok
    refine (Ev.const _).congr fun f => ?_
    rw [hg, hn, hm w hn]
  | cpp => exact absurd hn hm2.1
  | ub => exact absurd hn hm2.2

theorem good_str (env : Env D) {src v : List Char} (h : Lit src v) : Good env (.str v) ('{' :: src ++ ['}']) := by
  intro p val st k rest hpl hlev hrest hfol
  simp only [Expr.meaning, Runs]
  intro r hr ha
  refine Ev.of_shift ha fun f => ?_
  have := eval_tok env f p val st k '{' (src ++ '}' :: rest) (by decide) (by simp)
  have e : '{' :: src ++ ['}'] ++ rest = '{' :: (src ++ '}' :: rest) := by simp
  rw [e, this, kind_str]
  simp only [tokStr, strLit_spec h rest hrest.ne', List.append_nil]

theorem readVar_plain (env : Env D) (n : String) (st : St D)
    (h : existsRec st.heap env.me n = true → ∃ v, HasValue env st.heap n v) :
    readVar env n st = (varMeaning env st.heap n).at st := by
  unfold readVar varMeaning
  by_cases he : existsRec st.heap env.me n = true
  · simp only [he, if_true]
    obtain ⟨v, _, hv⟩ := h he
    generalize lookupInt st.heap env.me n = a at *
    generalize lookupDbl env.dbl.ofInt st.heap env.me n = b at *
    generalize lookupStr st.heap env.me n = c at *
    cases a <;> simp [cellMeaning] at hv ⊢
    · cases b <;> simp [cellMeaning] at hv ⊢
      · cases c <;> simp at hv ⊢
        rfl
      · rfl
    · rfl
  · simp [he, PRes.at]

theorem good_var (env : Env D) (n : List Char) (hn : IsName n) : Good env (.var n) n := by
  intro p val st k rest hpl hlev hrest hfol
  obtain ⟨⟨c, cs, rfl, hd⟩, hall, hop⟩ := hn
  have hne : c ≠ ' ' := by rintro rfl; revert hd; decide
  have htok : ∀ f, eval env (f + 1) p val { st with text := spaces k ++ (c :: cs ++ rest) } =
      tokName env (eval env f) (after env f) p { st with text := c :: (cs ++ rest) } := by
    intro f
    have := eval_tok env f p val st k c (cs ++ rest) hne (by simp [hrest.ne'])
    rw [List.cons_append, this, kind_name p c hd]
  have hr := readName_append (c :: cs) rest hall (fun d hd => (hrest.head d hd).1)
  rw [List.cons_append] at hr
  have hsk : skip ({ st with text := rest } : St D) = some { st with text := dropSpaces rest } := by
    rw [skip]
    obtain ⟨d, ds, e⟩ := List.exists_cons_of_ne_nil hrest.ne'
    simp only [e]
  have hg : ∀ f, tokName env (eval env f) (after env f) p { st with text := c :: (cs ++ rest) } =
      (match varMeaning env st.heap (String.ofList (c :: cs)) with
       | .ok v => after env f p v { st with text := dropSpaces rest }
       | .hil w => .hil w { st with text := dropSpaces rest }
       | .cpp => .cpp { st with text := dropSpaces rest }
       | .ub => .ub) := by
    intro f
    have hop : unOps.contains (String.ofList (c :: cs)) = false := hop
    unfold tokName
    simp only [hr, hop]
    simp only [Bool.false_eq_true, if_false, tokVar, hsk]
    rw [if_neg]
    · rw [readVar_plain env _ ({ st with text := dropSpaces rest } : St D) hpl]
      simp only [PRes.at]
      cases varMeaning env st.heap (String.ofList (c :: cs)) <;> rfl
    · rintro ⟨h1, h2⟩
      exact h2 (hrest.eq h1)
  have hleft : Left (c :: cs) rest (dropSpaces rest) := ⟨c :: cs, [], by simp, by simp [dropSpaces_idem]⟩
  unfold Expr.meaning
  cases hm : varMeaning env st.heap (String.ofList (c :: cs)) with
  | ok v =>
    simp only [PRes.bind, Runs, List.append_nil]
    intro r hr' ha
    refine Ev.of_shift ?_ htok
    refine (after_skip env hr' hrest.ne ha).congr fun f => ?_
    rw [hg, hm]
  | hil w =>
    simp only [PRes.bind, Runs]
    refine ⟨_, st.out, hleft, ?_⟩
    refine Ev.of_shift (g := fun _ => _) ?_ htok
    exact (Ev.const _).congr fun f => by rw [hg, hm]
  | cpp =>
    simp only [PRes.bind, Runs]
    refine ⟨dropSpaces rest, st.out, ?_⟩
    refine Ev.of_shift (g := fun _ => _) ?_ htok
    exact (Ev.const _).congr fun f => by rw [hg, hm]
  | ub =>
    simp only [PRes.bind, Runs]
    refine Ev.of_shift (g := fun _ => _) ?_ htok
    exact (Ev.const _).congr fun f => by rw [hg, hm]

/-! ### Parentheses -/

theorem good_paren (env : Env D) {e : Expr} {s : List Char} (i j : Nat) (h : Good env e s) :
    Good env (.paren e) ('(' :: (spaces i ++ (s ++ (spaces j ++ [')'])))) := by
  intro p val st k rest hpl hlev hrest hfol
  have hlevel : e.level < pParen := by
    cases e <;> simp [Expr.level, pParen]
    rename_i op _ _
    have := prec_pos op
    rw [docPrec_eq]; omega
  have hpar := dropSpaces_nonspace_append (c := ')') (by decide) j rest
  have hin := h pParen .empty st i (spaces j ++ ')' :: rest) hpl (Or.inr hlevel)
    (SafeRest.of (by decide) (by decide) (by decide) (by intro h; exact absurd h (by decide)))
    (by intro op hm; rw [hpar, matchOp_none ')' rest (by decide)] at hm; simp at hm)
  have e0 : '(' :: (spaces i ++ (s ++ (spaces j ++ [')']))) ++ rest =
      '(' :: (spaces i ++ (s ++ (spaces j ++ ')' :: rest))) := by simp
  have htok : ∀ f, eval env (f + 1) p val { st with text := spaces k ++ ('(' :: (spaces i ++ (s ++ (spaces j ++ [')']))) ++ rest) } =
      tokParen (eval env f) (after env f) p { st with text := spaces i ++ (s ++ (spaces j ++ ')' :: rest)) } := by
    intro f
    rw [e0, eval_tok env f p val st k '(' _ (by decide) (by simp), kind_lparen]
  simp only [Expr.meaning]
  cases hm : e.meaning env st.heap with
  | ok vo =>
    obtain ⟨v, o⟩ := vo
    rw [hm] at hin
    simp only [Runs] at hin ⊢
    intro r hr ha
    have hclose : Ev (fun f => after env f pParen v { st with text := spaces j ++ ')' :: rest, out := st.out ++ o })
        (.ok v { st with text := rest, out := st.out ++ o }) := by
      refine (after_out env (by simp) (by simp)).mpr ⟨_, ?_, binLoop_none env pParen v _ ?_, ?_⟩
      · simp
      · simp only [hpar]; exact matchOp_none ')' rest (by decide)
      · simp only [cont, hpar]
        have hnp : ¬ (pParen < pStmt) := by decide
        simp only [hnp, if_false]
        refine Ev.of_shift (g := fun _ => _) (Ev.const _) fun f => ?_
        have := eval_tok env f pParen v { st with out := st.out ++ o } 0 ')' rest (by decide) hrest.ne'
        simpa [spaces, kind_rparen] using this
    refine Ev.of_shift ?_ htok
    exact Ev.bind (k := fun a f => match a with | .ok v st' => after env f p v st' | r => r) (hin _ (by simp) hclose) ha
  | hil w =>
    rw [hm] at hin
    simp only [Runs] at hin ⊢
    obtain ⟨t, o, ⟨s1, s2, rfl, hl⟩, hE⟩ := hin
    refine ⟨t, o, ⟨'(' :: (spaces i ++ s1), s2 ++ (spaces j ++ [')']), by simp, by rw [hl]; simp⟩, ?_⟩
    refine Ev.of_shift ?_ htok
    exact Ev.bind (k := fun a f => match a with | .ok v st' => after env f p v st' | r => r) hE (Ev.const _)
  | cpp =>
    rw [hm] at hin
    simp only [Runs] at hin ⊢
    obtain ⟨t, o, hE⟩ := hin
    refine ⟨t, o, ?_⟩
    refine Ev.of_shift ?_ htok
    exact Ev.bind (k := fun a f => match a with | .ok v st' => after env f p v st' | r => r) hE (Ev.const _)
  | ub =>
    rw [hm] at hin
    simp only [Runs] at hin ⊢
    refine Ev.of_shift ?_ htok
    exact Ev.bind (k := fun a f => match a with | .ok v st' => after env f p v st' | r => r) hin (Ev.const _)

/-! ### Unary operators -/

/-- The operator token, symbol or word. -/
theorem un_tok (env : Env D) {op : String} (hop : op ∈ unOps) (p : Nat) (val : DV D) (st : St D) (k : Nat) (t : List Char)
    (ht : t ≠ []) (hw : wordOp op = true → ∀ c, t.head? = some c → isNameChar c = false) (f : Nat) :
    eval env (f + 1) p val { st with text := spaces k ++ (op.toList ++ t) } =
      tokUn env (eval env f) (after env f) op p { st with text := t } := by
  by_cases hsym : op = "-" ∨ op = "!" ∨ op = "#"
  · obtain ⟨c, hc, hcs⟩ : ∃ c : Char, op = String.ofList [c] ∧ (c = '-' ∨ c = '!' ∨ c = '#') := by
      rcases hsym with rfl | rfl | rfl
      · exact ⟨'-', by decide, by decide⟩
      · exact ⟨'!', by decide, by decide⟩
      · exact ⟨'#', by decide, by decide⟩
    subst hc
    have hne : c ≠ ' ' := by rcases hcs with rfl | rfl | rfl <;> decide
    have := eval_tok env f p val st k c t hne ht
    rw [show (String.ofList [c]).toList ++ t = c :: t by simp, this, kind_sym p c hcs]
  · have hword : ∀ o ∈ unOps, ¬ (o = "-" ∨ o = "!" ∨ o = "#") →
        wordOp o = true ∧ (o.toList.all fun c => isNameChar c) = true ∧
          (match o.toList with | [] => false | c :: _ => c.isAlpha) = true := by decide
    obtain ⟨h1, h2, h3⟩ := hword op hop hsym
    have h4 := hw h1
    cases hl : op.toList with
    | nil => rw [hl] at h3; simp at h3
    | cons c cs =>
      rw [hl] at h3 h2
      have hd : c.isAlpha = true ∨ c = '_' := Or.inl h3
      have hne : c ≠ ' ' := by rintro rfl; revert hd; decide
      have hall : ∀ d ∈ c :: cs, isNameChar d = true := by simpa using h2
      have hr := readName_append (c :: cs) t hall h4
      rw [List.cons_append] at hr ⊢
      rw [eval_tok env f p val st k c (cs ++ t) hne (by simp [ht]), kind_name p c hd]
      have hn : String.ofList (c :: cs) = op := by rw [← hl]; simp
      have hcon : unOps.contains op = true := by simpa using hop
      simp only [tokName, hr, hn, hcon, if_true]

theorem good_un (env : Env D) {op : String} {e : Expr} {s : List Char} (i : Nat) (hop : op ∈ unOps) (hlev0 : e.level = 0)
    (hs : ∃ c cs, s = c :: cs ∧ c ≠ ' ' ∧ c ≠ '=')
    (hw : wordOp op = true → ∀ c, (spaces i ++ s).head? = some c → isNameChar c = false) (h : Good env e s) :
    Good env (.un op e) (op.toList ++ (spaces i ++ s)) := by
  intro p val st k rest hpl hlev hrest hfol
  obtain ⟨c, cs, hs, hc1, hc2⟩ := hs
  have e0 : op.toList ++ (spaces i ++ s) ++ rest = op.toList ++ (spaces i ++ (s ++ rest)) := by simp
  have hhead : (spaces i ++ (s ++ rest)).head? = (spaces i ++ s).head? := by
    rw [hs]; cases i <;> simp [spaces, List.replicate_succ]
  have htok : ∀ f, eval env (f + 1) p val { st with text := spaces k ++ (op.toList ++ (spaces i ++ s) ++ rest) } =
      tokUn env (eval env f) (after env f) op p { st with text := spaces i ++ (s ++ rest) } := by
    intro f
    rw [e0]
    exact un_tok env hop p val st k _ (by simp [hs]) (fun h c hc => hw h c (by rw [← hhead]; exact hc)) f
  have hin := h 0 .empty st i rest hpl (Or.inl hlev0) hrest (by intro o _; rw [hlev0]; omega)
  let K : Res D (DV D) → Nat → Res D (DV D) := fun a f => match a with
    | .ok x st' =>
      match applyUn env st'.heap op x with
      | .ok (v, printed) => after env f p v { st' with out := st'.out ++ printed }
      | .hil w => .hil w st'
      | .cpp => .cpp st'
      | .ub => .ub
    | r => r
  have hK : ∀ f, tokUn env (eval env f) (after env f) op p { st with text := spaces i ++ (s ++ rest) } =
      K (eval env f 0 .empty { st with text := spaces i ++ (s ++ rest) }) f := fun f => rfl
  simp only [Expr.meaning]
  cases hm : e.meaning env st.heap with
  | ok vo =>
    obtain ⟨v, o⟩ := vo
    rw [hm] at hin
    simp only [Runs] at hin
    have hin := hin _ (by simp) (after_low env 0 v _ (by decide) hrest.ne' (by intro o _; omega))
    have go : ∀ r, Ev (K (.ok v { st with text := dropSpaces rest, out := st.out ++ o })) r →
        Ev (fun f => eval env f p val { st with text := spaces k ++ (op.toList ++ (spaces i ++ s) ++ rest) }) r := by
      intro r hr
      refine Ev.of_shift ?_ htok
      exact Ev.bind (k := K) hin hr
    have hleft : Left (op.toList ++ (spaces i ++ s)) rest (dropSpaces rest) :=
      ⟨op.toList ++ (spaces i ++ s), [], by simp, by simp [dropSpaces_idem]⟩
    simp only [PRes.bind]
    cases hu : applyUn env st.heap op v with
    | ok y =>
      obtain ⟨v', o'⟩ := y
      simp only [PRes.bind, Runs]
      intro r hr ha
      refine go r ?_
      simp only [K, hu]
      have := after_skip env hr hrest.ne ha
      simpa using this
    | hil w =>
      simp only [PRes.bind, Runs]
      refine ⟨_, st.out ++ o, hleft, go _ ?_⟩
      simp only [K, hu]; exact Ev.const _
    | cpp =>
      simp only [PRes.bind, Runs]
      refine ⟨dropSpaces rest, st.out ++ o, go _ ?_⟩
      simp only [K, hu]; exact Ev.const _
    | ub =>
      simp only [PRes.bind, Runs]
      refine go _ ?_
      simp only [K, hu]; exact Ev.const _
  | hil w =>
    rw [hm] at hin
    simp only [PRes.bind, Runs] at hin ⊢
    obtain ⟨t, o, ⟨s1, s2, he, hl⟩, hE⟩ := hin
    refine ⟨t, o, ⟨op.toList ++ (spaces i ++ s1), s2, by rw [he]; simp, hl⟩, ?_⟩
    refine Ev.of_shift ?_ htok
    exact Ev.bind (k := K) hE (Ev.const _)
  | cpp =>
    rw [hm] at hin
    simp only [PRes.bind, Runs] at hin ⊢
    obtain ⟨t, o, hE⟩ := hin
    refine ⟨t, o, ?_⟩
    refine Ev.of_shift ?_ htok
    exact Ev.bind (k := K) hE (Ev.const _)
  | ub =>
    rw [hm] at hin
    simp only [PRes.bind, Runs] at hin ⊢
    refine Ev.of_shift ?_ htok
    exact Ev.bind (k := K) hin (Ev.const _)

/-! ### Binary operators -/

theorem good_bin (env : Env D) {op : BinOp} {a b : Expr} {s t : List Char} (i j : Nat)
    (hla : a.level ≤ docPrec op) (hlb : b.level < docPrec op)
    (ht : ∃ c cs, t = c :: cs ∧ c ≠ ' ' ∧ c ≠ '=') (ha : Good env a s) (hb : Good env b t) :
    Good env (.bin op a b) (s ++ (spaces i ++ (op.name ++ (spaces j ++ t)))) := by
  intro p val st k rest hpl hlev hrest hfol
  obtain ⟨c, cs, hts, hc1, hc2⟩ := ht
  rw [docPrec_eq] at hla hlb
  simp only [Expr.level, docPrec_eq] at hlev hfol
  have hpp := prec_pos op
  have hlt : op.prec < p := by omega
  have htail : spaces j ++ (t ++ rest) ≠ [] := by simp [hts]
  have hhd : (spaces j ++ (t ++ rest)).head? ≠ some '=' := by
    intro h
    rcases spaces_head h with h | h
    · exact absurd h (by decide)
    · rw [hts] at h; simp at h; exact hc2 h
  have hmatch := matchOp_op op _ htail hhd
  have e0 : s ++ (spaces i ++ (op.name ++ (spaces j ++ t))) ++ rest =
      s ++ (spaces i ++ (op.name ++ (spaces j ++ (t ++ rest)))) := by simp
  have hin := ha p val st k (spaces i ++ (op.name ++ (spaces j ++ (t ++ rest)))) hpl.1 (by omega)
    (SafeRest.op op i _) (by
      intro op' hm
      rw [dropSpaces_op, hmatch] at hm
      simp at hm; subst hm; exact hla)
  unfold Expr.meaning
  cases hma : a.meaning env st.heap with
  | hil w =>
    rw [hma] at hin
    simp only [PRes.bind, Runs] at hin ⊢
    obtain ⟨t', o, ⟨s1, s2, he, hl⟩, hE⟩ := hin
    rw [e0]
    exact ⟨t', o, ⟨s1, s2 ++ (spaces i ++ (op.name ++ (spaces j ++ t))), by rw [he]; simp, by rw [hl]; simp⟩, hE⟩
  | cpp =>
    rw [hma] at hin
    simp only [PRes.bind, Runs] at hin ⊢
    rw [e0]; exact hin
  | ub =>
    rw [hma] at hin
    simp only [PRes.bind, Runs] at hin ⊢
    rw [e0]; exact hin
  | ok x =>
    obtain ⟨va, oa⟩ := x
    rw [hma] at hin
    simp only [Runs] at hin
    -- the operator loop after the first operand
    let st1 : St D := { st with out := st.out ++ oa }
    have hbin : ∀ f, binLoop env (f + 1) p va { st1 with text := op.name ++ (spaces j ++ (t ++ rest)) } =
        (match eval env f op.prec .empty { st1 with text := spaces j ++ (t ++ rest) } with
          | .ok r st' =>
            match applyBin env st'.heap op va r with
            | .ok v =>
              match skip st' with
              | none => .ub
              | some s => binLoop env f p v s
            | .hil w => .hil w st'
            | .cpp => .cpp st'
            | .ub => .ub
          | r => r) := by
      intro f
      rw [binLoop, binBody]
      simp only [hmatch, hlt, if_true]
      rw [List.drop_left]
      all_goals
        cases eval env f op.prec .empty { st1 with text := spaces j ++ (t ++ rest) } with
        | ok r st' =>
          simp only
          cases applyBin env st'.heap op va r with
          | ok v => cases skip st' <;> rfl
          | _ => rfl
        | _ => rfl
    let K : Res D (DV D) → Nat → Res D (DV D) := fun a f => match a with
      | .ok r st' =>
        match applyBin env st'.heap op va r with
        | .ok v =>
          match skip st' with
          | none => .ub
          | some s => binLoop env f p v s
        | .hil w => .hil w st'
        | .cpp => .cpp st'
        | .ub => .ub
      | r => r
    have hbin' : ∀ f, binLoop env (f + 1) p va { st1 with text := op.name ++ (spaces j ++ (t ++ rest)) } =
        K (eval env f op.prec .empty { st1 with text := spaces j ++ (t ++ rest) }) f := hbin
    have hbr := hb op.prec .empty st1 j rest hpl.2 (Or.inr hlb) hrest (by intro o ho; have := hfol o ho; omega)
    -- from a settled operator loop to the whole
    have go : ∀ rb r, r ≠ .out → rb ≠ .out →
        Ev (fun f => binLoop env f p va { st1 with text := op.name ++ (spaces j ++ (t ++ rest)) }) rb →
        Ev (fun f => cont (eval env f) p rb) r →
        Ev (fun f => eval env f p val { st with text := spaces k ++ (s ++ (spaces i ++ (op.name ++ (spaces j ++ t))) ++ rest) }) r := by
      intro rb r hr hrb h1 h2
      rw [e0]
      refine hin r hr ((after_out env hr (by cases op <;> simp [BinOp.name])).mpr ⟨rb, hrb, ?_, h2⟩)
      simpa only [dropSpaces_op] using h1
    simp only [PRes.bind]
    cases hmb : b.meaning env st.heap with
    | ok y =>
      obtain ⟨vb, ob⟩ := y
      rw [show st1.heap = st.heap from rfl, hmb] at hbr
      simp only [Runs] at hbr
      have hbr := hbr _ (by simp) (after_low env op.prec vb _ (by unfold pStmt; omega) hrest.ne'
        (by intro o ho; exact hfol o ho))
      have hfin : ∀ rb, Ev (K (.ok vb { st1 with text := dropSpaces rest, out := st1.out ++ ob })) rb →
          Ev (fun f => binLoop env f p va { st1 with text := op.name ++ (spaces j ++ (t ++ rest)) }) rb :=
        fun rb hrb => Ev.of_shift (Ev.bind (k := K) hbr hrb) hbin'
      have hleft : Left (s ++ (spaces i ++ (op.name ++ (spaces j ++ t)))) rest (dropSpaces rest) :=
        ⟨s ++ (spaces i ++ (op.name ++ (spaces j ++ t))), [], by simp, by simp [dropSpaces_idem]⟩
      simp only [PRes.bind]
      cases hu : applyBin env st.heap op va vb with
      | ok v =>
        simp only [PRes.bind, Runs]
        intro r hr hA
        obtain ⟨rb, hrb, h1, h2⟩ := (after_out env hr hrest.ne').mp hA
        refine go rb r hr hrb (hfin rb ?_) h2
        have hsk : skip ({ st1 with text := dropSpaces rest, out := st1.out ++ ob } : St D) =
            some { st1 with text := dropSpaces rest, out := st1.out ++ ob } := by
          rw [skip]
          obtain ⟨d, ds, e⟩ := List.exists_cons_of_ne_nil hrest.ne
          have := dropSpaces_idem rest
          simp only [e] at this ⊢
          rw [this]
        simp only [K, st1, hu, hsk]
        simpa [st1] using h1
      | hil w =>
        simp only [PRes.bind, Runs]
        refine ⟨_, st1.out ++ ob, hleft, go (.hil w _) _ (by simp) (by simp) (hfin _ ?_) (Ev.const _)⟩
        simp only [K, st1, hu]; exact Ev.const _
      | cpp =>
        simp only [PRes.bind, Runs]
        refine ⟨dropSpaces rest, st1.out ++ ob, go (.cpp _) _ (by simp) (by simp) (hfin _ ?_) (Ev.const _)⟩
        simp only [K, st1, hu]; exact Ev.const _
      | ub =>
        simp only [PRes.bind, Runs]
        refine go _ _ (by simp) (by simp) (hfin .ub ?_) (Ev.const _)
        simp only [K, st1, hu]; exact Ev.const _
    | hil w =>
      rw [show st1.heap = st.heap from rfl, hmb] at hbr
      simp only [PRes.bind, Runs] at hbr ⊢
      obtain ⟨t', o, ⟨s1, s2, he, hl⟩, hE⟩ := hbr
      refine ⟨t', o, ⟨s ++ (spaces i ++ (op.name ++ (spaces j ++ s1))), s2, by rw [he]; simp, hl⟩, ?_⟩
      exact go _ _ (by simp) (by simp) (Ev.of_shift (Ev.bind (k := K) hE (Ev.const _)) hbin') (Ev.const _)
    | cpp =>
      rw [show st1.heap = st.heap from rfl, hmb] at hbr
      simp only [PRes.bind, Runs] at hbr ⊢
      obtain ⟨t', o, hE⟩ := hbr
      refine ⟨t', o, ?_⟩
      exact go _ _ (by simp) (by simp) (Ev.of_shift (Ev.bind (k := K) hE (Ev.const _)) hbin') (Ev.const _)
    | ub =>
      rw [show st1.heap = st.heap from rfl, hmb] at hbr
      simp only [PRes.bind, Runs] at hbr ⊢
      exact go .ub _ (by simp) (by simp) (Ev.of_shift (Ev.bind (k := K) hbr (Ev.const _)) hbin') (Ev.const _)

theorem symbol_name (op : BinOp) : symbol op = op.name := by cases op <;> rfl

/-- Every written form of every canonical expression. -/
theorem good (env : Env D) {e : Expr} {s : List Char} (h : Render e s) (hc : e.Canonical) : Good env e s := by
  induction h with
  | num s => exact good_num env s hc
  | str h => exact good_str env h
  | var n => exact good_var env n hc
  | un i hr hw ih => exact good_un env i hc.1 hc.2.1 (hr.first hc.2.2) hw (ih hc.2.2)
  | bin i j hr1 hr2 ih1 ih2 =>
    rw [symbol_name]
    exact good_bin env i j hc.1 hc.2.1 (hr2.first hc.2.2.2) (ih1 hc.2.2.1) (ih2 hc.2.2.2)
  | paren i j _ ih => exact good_paren env i j (ih hc)

end Hexed.Hil
