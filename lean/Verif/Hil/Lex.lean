import Verif.Hil.Spec
import Verif.Hil.Mono
set_option autoImplicit false
set_option linter.unusedVariables false

/-! Lexical lemmas: spaces, names, numbers, string literals, operator matching. -/

namespace Hexed.Hil
open Hexed.Namespace

variable {D : Type}

/-! ### Spaces -/

theorem dropSpaces_ne (c : Char) (t : List Char) (h : c ≠ ' ') : dropSpaces (c :: t) = c :: t := by
  unfold dropSpaces
  split
  · rename_i x heq; simp at heq; exact absurd heq.1 h
  · rfl

@[simp] theorem dropSpaces_space (t : List Char) : dropSpaces (' ' :: t) = dropSpaces t := by
  rw [dropSpaces]

@[simp] theorem dropSpaces_nil : dropSpaces [] = [] := by rw [dropSpaces]; simp

theorem dropSpaces_spaces (k : Nat) (t : List Char) : dropSpaces (spaces k ++ t) = dropSpaces t := by
  induction k with
  | zero => rfl
  | succ k ih => simpa [spaces, List.replicate_succ] using ih

theorem dropSpaces_idem (t : List Char) : dropSpaces (dropSpaces t) = dropSpaces t := by
  induction t with
  | nil => simp
  | cons c cs ih =>
    by_cases h : c = ' '
    · subst h; simpa using ih
    · rw [dropSpaces_ne c cs h, dropSpaces_ne c cs h]

theorem dropSpaces_decomp (t : List Char) : ∃ k, t = spaces k ++ dropSpaces t := by
  induction t with
  | nil => exact ⟨0, by simp [spaces]⟩
  | cons c cs ih =>
    by_cases h : c = ' '
    · subst h
      obtain ⟨k, hk⟩ := ih
      refine ⟨k + 1, ?_⟩
      simp only [dropSpaces_space, spaces, List.replicate_succ, List.cons_append, List.cons.injEq, true_and]
      exact hk
    · exact ⟨0, by rw [dropSpaces_ne c cs h]; simp [spaces]⟩

theorem dropSpaces_cons_ne {t cs : List Char} {c : Char} (h : dropSpaces t = c :: cs) : c ≠ ' ' := by
  intro e
  subst e
  have := dropSpaces_idem t
  rw [h, dropSpaces_space] at this
  have hl : (dropSpaces cs).length ≤ cs.length := by
    obtain ⟨k, hk⟩ := dropSpaces_decomp cs
    calc (dropSpaces cs).length ≤ (spaces k ++ dropSpaces cs).length := by simp
      _ = cs.length := by rw [← hk]
  rw [this] at hl
  simp at hl
  omega

/-! ### Names -/

theorem readName_append (n t : List Char) (hn : ∀ c ∈ n, isNameChar c = true)
    (ht : ∀ c, t.head? = some c → isNameChar c = false) : readName (n ++ t) = (n, t) := by
  induction n with
  | nil =>
    cases t with
    | nil => rfl
    | cons c cs => simp [readName, ht c rfl]
  | cons c cs ih =>
    have := hn c List.mem_cons_self
    simp [readName, this, ih (fun d hd => hn d (List.mem_cons_of_mem _ hd))]

/-! ### Numbers -/

/-- Characters that the number scanner accepts regardless of context. -/
def numChar (c : Char) : Bool := c.isDigit || c == '.' || c == 'e' || c == 'E'

theorem scanNum_all (s t : List Char) (hs : ∀ c ∈ s, numChar c = true) :
    ∀ l, scanNum l (s ++ t) =
      (s ++ (scanNum (match s.getLast? with | some c => some c | none => l) t).1,
       (scanNum (match s.getLast? with | some c => some c | none => l) t).2) := by
  induction s with
  | nil => intro l; simp
  | cons c cs ih =>
    intro l
    have hc := hs c List.mem_cons_self
    unfold numChar at hc
    have : (c.isDigit || c == '.' || c == 'e' || c == 'E' ||
        ((c == '-' || c == '+') && (l == some 'e' || l == some 'E'))) = true := by
      rw [hc]; rfl
    simp only [List.cons_append, scanNum, this, if_true]
    rw [ih (fun d hd => hs d (List.mem_cons_of_mem _ hd)) (some c)]
    cases hcs : cs.getLast? with
    | none =>
      have : cs = [] := by simpa using hcs
      subst this
      simp
    | some d =>
      have : (c :: cs).getLast? = some d := by
        cases cs with
        | nil => simp at hcs
        | cons x xs => simpa [List.getLast?_cons_cons] using hcs
      simp [this]

theorem scanNum_stop (l : Option Char) (t : List Char)
    (ht : ∀ c, t.head? = some c → isNameChar c = false ∧ c ≠ '.') (hl : l ≠ some 'e' ∧ l ≠ some 'E') :
    scanNum l t = ([], t) := by
  cases t with
  | nil => rfl
  | cons c cs =>
    obtain ⟨h1, h2⟩ := ht c rfl
    have hd : c.isDigit = false := by
      cases h : c.isDigit with
      | false => rfl
      | true => simp [isNameChar, h] at h1
    have he : c ≠ 'e' := by rintro rfl; exact absurd h1 (by decide)
    have hE : c ≠ 'E' := by rintro rfl; exact absurd h1 (by decide)
    simp [scanNum, hd, he, hE, h2, hl.1, hl.2]

theorem digit_ne {c : Char} (h : c.isDigit = true) : c ≠ 'e' ∧ c ≠ 'E' ∧ c ≠ '.' ∧ c ≠ ' ' ∧ c ≠ '+' ∧ c ≠ '-' := by
  refine ⟨?_, ?_, ?_, ?_, ?_, ?_⟩ <;> (rintro rfl; revert h; decide)

theorem getLast_digits {d : List Char} (hd : Digits d) {c : Char} (h : d.getLast? = some c) : c.isDigit = true :=
  hd c (List.mem_of_getLast? h)

theorem scanNum_digits (d t : List Char) (hd : Digits d) (l : Option Char) (hl : d = [] → l ≠ some 'e' ∧ l ≠ some 'E')
    (ht : ∀ c, t.head? = some c → isNameChar c = false ∧ c ≠ '.') :
    scanNum l (d ++ t) = (d, t) := by
  rw [scanNum_all d t (fun c hc => by simp [numChar, hd c hc]) l]
  cases h : d.getLast? with
  | none =>
    have : d = [] := by simpa using h
    subst this
    simp only
    rw [scanNum_stop l t ht (hl rfl)]; simp
  | some c =>
    simp only
    have hc := digit_ne (getLast_digits hd h)
    rw [scanNum_stop (some c) t ht (by simp [hc.1, hc.2.1])]; simp

/-- The scanner reads exactly a numeric literal. -/
theorem scanNum_num (s t : List Char) (hs : IsNum s)
    (ht : ∀ c, t.head? = some c → isNameChar c = false ∧ c ≠ '.') : scanNum none (s ++ t) = (s, t) := by
  obtain ⟨a, fr, ex, ha, hf, hx, rfl⟩ := hs
  have hmant : ∀ c ∈ a ++ fr, numChar c = true := by
    intro c hc
    rcases List.mem_append.mp hc with h | h
    · simp [numChar, ha c h]
    · rcases hf with ⟨rfl, _⟩ | ⟨b, hb, rfl⟩
      · simp at h
      · rcases List.mem_cons.mp h with rfl | h
        · simp [numChar]
        · simp [numChar, hb c h]
  have hlast : ∀ c, (a ++ fr).getLast? = some c → c ≠ 'e' ∧ c ≠ 'E' := by
    intro c hc
    have hm := List.mem_of_getLast? hc
    rcases List.mem_append.mp hm with h | h
    · have := digit_ne (ha c h); exact ⟨this.1, this.2.1⟩
    · rcases hf with ⟨rfl, _⟩ | ⟨b, hb, rfl⟩
      · simp at h
      · rcases List.mem_cons.mp h with rfl | h
        · decide
        · have := digit_ne (hb c h); exact ⟨this.1, this.2.1⟩
  have hre : a ++ (fr ++ ex) ++ t = (a ++ fr) ++ (ex ++ t) := by simp
  rw [hre, scanNum_all (a ++ fr) (ex ++ t) hmant none]
  have tail : ∀ l, (l ≠ some 'e' ∧ l ≠ some 'E') → scanNum l (ex ++ t) = (ex, t) := by
    intro l hl
    rcases hx with rfl | ⟨e, sg, d, he, hsg, hd0, hd, rfl⟩
    · simpa using scanNum_stop l t ht hl
    · have h1 : scanNum l (e :: (sg ++ d) ++ t) =
          (e :: (scanNum (some e) (sg ++ d ++ t)).1, (scanNum (some e) (sg ++ d ++ t)).2) := by
        have : (e.isDigit || e == '.' || e == 'e' || e == 'E' ||
            ((e == '-' || e == '+') && (l == some 'e' || l == some 'E'))) = true := by
          rcases he with rfl | rfl <;> simp
        simp only [List.cons_append, scanNum, this, if_true]
      rw [h1]
      have h2 : scanNum (some e) (sg ++ d ++ t) = (sg ++ d, t) := by
        rcases hsg with rfl | rfl | rfl
        · simpa using scanNum_digits d t hd (some e) (fun h => absurd h hd0) ht
        · have : scanNum (some e) (['+'] ++ d ++ t) =
              ('+' :: (scanNum (some '+') (d ++ t)).1, (scanNum (some '+') (d ++ t)).2) := by
            rcases he with rfl | rfl <;> simp [scanNum]
          rw [this, scanNum_digits d t hd (some '+') (fun h => absurd h hd0) ht]
          simp
        · have : scanNum (some e) (['-'] ++ d ++ t) =
              ('-' :: (scanNum (some '-') (d ++ t)).1, (scanNum (some '-') (d ++ t)).2) := by
            rcases he with rfl | rfl <;> simp [scanNum]
          rw [this, scanNum_digits d t hd (some '-') (fun h => absurd h hd0) ht]
          simp
      rw [h2]
  cases hg : (a ++ fr).getLast? with
  | none =>
    simp only
    rw [tail none (by simp)]; simp
  | some c =>
    simp only
    have := hlast c hg
    rw [tail (some c) (by simp [this.1, this.2])]; simp

theorem digitsVal_eq (s : List Char) : ∀ acc, s.foldl (fun (acc : Nat) (c : Char) => 10 * acc + digit c) acc =
    acc * 10 ^ s.length + decVal s := by
  induction s with
  | nil => intro acc; simp [decVal]
  | cons c cs ih =>
    intro acc
    rw [List.foldl_cons, ih, List.length_cons, decVal, Nat.add_mul, Nat.pow_succ, Nat.add_assoc]
    congr 1
    rw [Nat.mul_comm 10 acc, Nat.mul_assoc, Nat.mul_comm 10]

theorem digitsVal_dec (s : List Char) : digitsVal s = decVal s := by
  rw [digitsVal, digitsVal_eq]; simp

/-- A numeric literal is read as its meaning. -/
theorem numLit_num (env : Env D) (s t : List Char) (hs : IsNum s)
    (ht : ∀ c, t.head? = some c → isNameChar c = false ∧ c ≠ '.') :
    numLit env (s ++ t) = (match numMeaning env s with | .ok v => some v | _ => none, t) := by
  unfold numLit numMeaning
  simp only [scanNum_num s t hs ht, digitsVal_dec]
  split
  · split <;> rfl
  · cases env.dbl.stod s <;> rfl

theorem IsNum.head {s : List Char} (hs : IsNum s) : ∃ c cs, s = c :: cs ∧ (c.isDigit || c == '.') = true := by
  obtain ⟨a, fr, ex, ha, hf, hx, rfl⟩ := hs
  cases a with
  | nil =>
    rcases hf with ⟨_, h⟩ | ⟨b, hb, rfl⟩
    · exact absurd rfl h
    · exact ⟨'.', b ++ ex, rfl, by simp⟩
  | cons c cs => exact ⟨c, cs ++ (fr ++ ex), rfl, by simp [ha c List.mem_cons_self]⟩

/-! ### String literals -/

theorem strLit_cons (d : Nat) (b : Bool) (c : Char) (t : List Char) (ht : t ≠ []) :
    strLit d b (c :: t) =
      (let d1 := if c == '{' && !b then d + 1 else d
       let d2 := if c == '}' && !b then d1 - 1 else d1
       let b' := if c == '\\' then !b else false
       if d2 = 0 then some ([], t)
       else (strLit d2 b' t).map fun r => (if b' then r.1 else c :: r.1, r.2)) := by
  cases t with
  | nil => exact absurd rfl ht
  | cons x xs =>
    simp only [strLit]
    generalize (if (c == '}' && !b) = true then (if (c == '{' && !b) = true then d + 1 else d) - 1
      else if (c == '{' && !b) = true then d + 1 else d) = d2
    generalize (if (c == '\\') = true then !b else false) = b'
    by_cases h : d2 = 0
    · simp [h]
    · simp only [h, if_false]
      cases strLit d2 b' (x :: xs) <;> rfl

theorem strLit_plain (d : Nat) (c : Char) (t : List Char) (ht : t ≠ []) (hd : 1 ≤ d)
    (h1 : c ≠ '{') (h2 : c ≠ '}') (h3 : c ≠ '\\') :
    strLit d false (c :: t) = (strLit d false t).map fun r => (c :: r.1, r.2) := by
  rw [strLit_cons d false c t ht]
  have e1 : (c == '{') = false := by simpa using h1
  have e2 : (c == '}') = false := by simpa using h2
  have e3 : (c == '\\') = false := by simpa using h3
  have : d ≠ 0 := by omega
  simp [e1, e2, e3, this]

theorem strLit_esc (d : Nat) (c : Char) (t : List Char) (ht : t ≠ []) (hd : 1 ≤ d) :
    strLit d false ('\\' :: c :: t) = (strLit d false t).map fun r => (c :: r.1, r.2) := by
  have hne : d ≠ 0 := by omega
  rw [strLit_cons d false '\\' (c :: t) (by simp)]
  have h1 : strLit d true (c :: t) = (strLit d false t).map fun r => (c :: r.1, r.2) := by
    rw [strLit_cons d true c t ht]
    have hb : (if c == '\\' then !true else false) = false := by split <;> rfl
    simp [hne]
  have q1 : ('\\' == '{') = false := by decide
  have q2 : ('\\' == '}') = false := by decide
  simp only [q1, q2, Bool.false_and, Bool.false_eq_true, if_false, beq_self_eq_true, if_true, Bool.not_false, hne, h1]
  cases strLit d false t <;> rfl

theorem strLit_open (d : Nat) (t : List Char) (ht : t ≠ []) :
    strLit d false ('{' :: t) = (strLit (d + 1) false t).map fun r => ('{' :: r.1, r.2) := by
  rw [strLit_cons d false '{' t ht]
  have q1 : ('{' == '}') = false := by decide
  have q2 : ('{' == '\\') = false := by decide
  simp [q1, q2]

theorem strLit_close (d : Nat) (t : List Char) (ht : t ≠ []) (hd : 1 ≤ d) :
    strLit (d + 1) false ('}' :: t) = (strLit d false t).map fun r => ('}' :: r.1, r.2) := by
  rw [strLit_cons (d + 1) false '}' t ht]
  have q1 : ('}' == '{') = false := by decide
  have q2 : ('}' == '\\') = false := by decide
  have : d ≠ 0 := by omega
  simp [q1, q2, this]

theorem strLit_end (t : List Char) (ht : t ≠ []) : strLit 1 false ('}' :: t) = some ([], t) := by
  rw [strLit_cons 1 false '}' t ht]
  have q1 : ('}' == '{') = false := by decide
  simp [q1]

theorem strLit_lit {src v : List Char} (h : Lit src v) : ∀ d t, 1 ≤ d → t ≠ [] →
    strLit d false (src ++ t) = (strLit d false t).map fun r => (v ++ r.1, r.2) := by
  induction h with
  | nil => intro d t hd ht; simp
  | @plain c src v h1 h2 h3 _ ih =>
    intro d t hd ht
    rw [List.cons_append, strLit_plain d c _ (by simp [ht]) hd h1 h2 h3, ih d t hd ht]
    cases strLit d false t <;> rfl
  | @esc c src v _ ih =>
    intro d t hd ht
    rw [List.cons_append, List.cons_append, strLit_esc d c _ (by simp [ht]) hd, ih d t hd ht]
    cases strLit d false t <;> rfl
  | @nest s1 v1 s2 v2 _ _ ih1 ih2 =>
    intro d t hd ht
    have e0 : '{' :: s1 ++ '}' :: s2 ++ t = '{' :: (s1 ++ ('}' :: (s2 ++ t))) := by simp
    rw [e0, strLit_open d _ (by simp), ih1 (d + 1) _ (by omega) (by simp),
      strLit_close d _ (by simp [ht]) hd, ih2 d t hd ht]
    cases strLit d false t <;> simp

/-- A documented string literal is read as its value. -/
theorem strLit_spec {src v : List Char} (h : Lit src v) (t : List Char) (ht : t ≠ []) :
    strLit 1 false (src ++ '}' :: t) = some (v, t) := by
  rw [strLit_lit h 1 _ (by omega) (by simp), strLit_end t ht]
  simp

/-! ### Operator matching -/

theorem docPrec_eq (op : BinOp) : docPrec op = op.prec := by cases op <;> rfl

/-- An operator followed by something that does not extend it to a longer operator is recognised. -/
theorem matchOp_op (op : BinOp) (t : List Char) (ht : t ≠ []) (h : t.head? ≠ some '=') :
    matchOp (op.name ++ t) = some op := by
  obtain ⟨c, cs, rfl⟩ : ∃ c cs, t = c :: cs := by
    cases t with
    | nil => exact absurd rfl ht
    | cons c cs => exact ⟨c, cs, rfl⟩
  have hc : c ≠ '=' := by simpa using h
  have hc' : ¬ ('=' = c) := fun e => hc (Eq.symm e)
  cases op <;> simp (decide := true) [matchOp, binOps, BinOp.name, hc']

/-- Characters that start a binary operator. -/
def opStart (c : Char) : Bool :=
  ['^', '#', '%', '/', '*', '-', '+', '=', '!', '>', '<', '&', '|'].contains c

theorem matchOp_none (c : Char) (t : List Char) (h : opStart c = false) : matchOp (c :: t) = none := by
  have : ∀ x ∈ ['^', '#', '%', '/', '*', '-', '+', '=', '!', '>', '<', '&', '|'], ¬ (x = c) := by
    intro x hx
    unfold opStart at h
    rintro rfl
    simp only [List.contains_eq_mem, decide_eq_false_iff_not] at h
    exact h hx
  simp only [List.forall_mem_cons] at this
  obtain ⟨a1, a2, a3, a4, a5, a6, a7, a8, a9, a10, a11, a12, a13, _⟩ := this
  simp [matchOp, binOps, BinOp.name, a1, a2, a3, a4, a5, a6, a7, a8, a9, a10, a11, a12, a13]

theorem matchOp_single (c : Char) : matchOp [c] = none := by
  simp [matchOp, binOps, BinOp.name]

/-- The operator found is spelled at the start of the text. -/
theorem matchOp_nil : matchOp [] = none := by simp [matchOp, binOps, BinOp.name]

/-! ### Token kinds -/

theorem kind_num (p : Nat) (c : Char) (h : (c.isDigit || c == '.') = true) : kind p c = .num := by
  have n1 : c ≠ '$' := by rintro rfl; revert h; decide
  have n2 : c ≠ '\n' := by rintro rfl; revert h; decide
  have n3 : c ≠ ';' := by rintro rfl; revert h; decide
  have n4 : c ≠ '(' := by rintro rfl; revert h; decide
  have n5 : c ≠ ')' := by rintro rfl; revert h; decide
  unfold kind
  rw [if_neg n1, if_neg (by simp [n2, n3]), if_neg n4, if_neg (by simp [n5]), if_pos h]

theorem alpha_not_digit {c : Char} (h : c.isAlpha = true) : c.isDigit = false := by
  cases hd : c.isDigit with
  | false => rfl
  | true =>
    simp only [Char.isAlpha, Char.isUpper, Char.isLower, Char.isDigit, Bool.or_eq_true, Bool.and_eq_true,
      decide_eq_true_eq, ge_iff_le, UInt32.le_iff_toNat_le] at h hd
    have e1 : ('A' : Char).val.toNat = 65 := rfl
    have e2 : ('Z' : Char).val.toNat = 90 := rfl
    have e3 : ('a' : Char).val.toNat = 97 := rfl
    have e4 : ('z' : Char).val.toNat = 122 := rfl
    have e5 : ('0' : Char).val.toNat = 48 := rfl
    have e6 : ('9' : Char).val.toNat = 57 := rfl
    simp at h hd
    omega

theorem kind_name (p : Nat) (c : Char) (h : c.isAlpha = true ∨ c = '_') : kind p c = .name := by
  have n1 : c ≠ '$' := by rintro rfl; revert h; decide
  have n2 : c ≠ '\n' := by rintro rfl; revert h; decide
  have n3 : c ≠ ';' := by rintro rfl; revert h; decide
  have n4 : c ≠ '(' := by rintro rfl; revert h; decide
  have n5 : c ≠ ')' := by rintro rfl; revert h; decide
  have n6 : c ≠ '.' := by rintro rfl; revert h; decide
  have n7 : c ≠ '{' := by rintro rfl; revert h; decide
  have n8 : c.isDigit = false := by
    rcases h with h | rfl
    · exact alpha_not_digit h
    · decide
  unfold kind
  rw [if_neg n1, if_neg (by simp [n2, n3]), if_neg n4, if_neg (by simp [n5]), if_neg (by simp [n8, n6]), if_neg n7,
    if_pos (by rcases h with h | h <;> simp [h])]

theorem kind_str (p : Nat) : kind p '{' = .str := by
  unfold kind
  rw [if_neg (by decide), if_neg (by decide), if_neg (by decide), if_neg (by simp (decide := true)), if_neg (by decide), if_pos rfl]

theorem kind_lparen (p : Nat) : kind p '(' = .lparen := by
  unfold kind
  rw [if_neg (by decide), if_neg (by decide), if_pos rfl]

theorem kind_rparen : kind pParen ')' = .rparen := by decide

theorem kind_sep (p : Nat) (c : Char) (h : c = '\n' ∨ c = ';') : kind p c = .sep := by
  unfold kind
  rw [if_neg (by rcases h with rfl | rfl <;> decide), if_pos h]

theorem kind_subst (p : Nat) : kind p '$' = .subst := by
  unfold kind
  rw [if_pos rfl]

theorem kind_sym (p : Nat) (c : Char) (h : c = '-' ∨ c = '!' ∨ c = '#') : kind p c = .sym := by
  unfold kind
  rcases h with rfl | rfl | rfl <;>
  rw [if_neg (by decide), if_neg (by decide), if_neg (by decide), if_neg (by simp (decide := true)),
    if_neg (by decide), if_neg (by decide), if_neg (by decide), if_pos (by decide)]

end Hexed.Hil
