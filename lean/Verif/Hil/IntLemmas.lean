import Verif.Hil.IntSpec
import Verif.Hil.Prog
set_option autoImplicit false
set_option linter.unusedVariables false

namespace Hexed.Hil
open Hexed.Namespace

variable {D : Type}

theorem decVal_append (a b : List Char) : decVal (a ++ b) = decVal a * 10 ^ b.length + decVal b := by
  induction a with
  | nil => simp [decVal]
  | cons c cs ih =>
    simp only [List.cons_append, decVal, ih, List.length_append, Nat.add_mul, Nat.pow_add]
    rw [Nat.mul_assoc, Nat.add_assoc]

theorem digitChar (n : Nat) (h : n < 10) : (Char.ofNat (48 + n)).isDigit = true ∧ digit (Char.ofNat (48 + n)) = n := by
  have : ∀ n : Fin 10, (Char.ofNat (48 + n.val)).isDigit = true ∧ digit (Char.ofNat (48 + n.val)) = n.val := by decide
  exact this ⟨n, h⟩

theorem decimal_spec (n : Nat) : Digits (decimal n) ∧ decimal n ≠ [] ∧ decVal (decimal n) = n := by
  induction n using Nat.strongRecOn with
  | _ n ih =>
    unfold decimal
    by_cases h : n < 10
    · rw [if_pos h]
      obtain ⟨h1, h2⟩ := digitChar n h
      refine ⟨?_, by simp, ?_⟩
      · intro c hc; simp at hc; subst hc; exact h1
      · simp [decVal, h2]
    · rw [if_neg h]
      obtain ⟨i1, i2, i3⟩ := ih (n / 10) (by omega)
      obtain ⟨h1, h2⟩ := digitChar (n % 10) (by omega)
      refine ⟨?_, by simp, ?_⟩
      · intro c hc
        rcases List.mem_append.mp hc with hc | hc
        · exact i1 c hc
        · simp at hc; subst hc; exact h1
      · rw [decVal_append, i3]
        simp [decVal, h2]
        omega

theorem digits_isNum {s : List Char} (h : Digits s) (h0 : s ≠ []) : IsNum s :=
  ⟨s, [], [], h, Or.inl ⟨rfl, h0⟩, Or.inl rfl, by simp⟩

/-- Source tree of an integer tree: parentheses where the precedence table requires them. -/
def IExpr.src : IExpr → Expr
  | .lit n => .num (decimal n)
  | .neg a => .un "-" (if a.level = 0 then a.src else .paren a.src)
  | .not a => .un "!" (if a.level = 0 then a.src else .paren a.src)
  | .bin op a b => .bin op (if a.level ≤ docPrec op then a.src else .paren a.src)
      (if b.level < docPrec op then b.src else .paren b.src)

theorem src_level (t : IExpr) : t.src.level = t.level := by cases t <;> rfl

theorem render_paren {e : Expr} {s : List Char} (h : Render e s) : Render (.paren e) ('(' :: (s ++ [')'])) := by
  simpa [spaces] using Render.paren 0 0 h

theorem src_spec (t : IExpr) :
    t.src.Canonical ∧ Render t.src t.text ∧ t.src.tree = some t := by
  have p : 1 ≤ docPrec BinOp.pow := by decide
  induction t with
  | lit n =>
    obtain ⟨h1, h2, h3⟩ := decimal_spec n
    refine ⟨digits_isNum h1 h2, Render.num _, ?_⟩
    have : (decimal n).all Char.isDigit = true := by rw [List.all_eq_true]; exact h1
    simp [IExpr.src, Expr.tree, this, h3]
  | neg a ih =>
    obtain ⟨h1, h2, h3⟩ := ih
    simp only [IExpr.src, IExpr.text]
    by_cases hl : a.level = 0
    · simp only [hl, if_true]
      refine ⟨⟨by decide, by rw [src_level]; exact hl, h1⟩, ?_, by simp [Expr.tree, h3]⟩
      exact Render.un (op := "-") 0 h2 (by intro h; exact absurd h (by decide))
    · simp only [hl, if_false]
      refine ⟨⟨by decide, rfl, h1⟩, ?_, by simp [Expr.tree, h3]⟩
      exact Render.un (op := "-") 0 (render_paren h2) (by intro h; exact absurd h (by decide))
  | not a ih =>
    obtain ⟨h1, h2, h3⟩ := ih
    simp only [IExpr.src, IExpr.text]
    by_cases hl : a.level = 0
    · simp only [hl, if_true]
      refine ⟨⟨by decide, by rw [src_level]; exact hl, h1⟩, ?_, by simp [Expr.tree, h3]⟩
      exact Render.un (op := "!") 0 h2 (by intro h; exact absurd h (by decide))
    · simp only [hl, if_false]
      refine ⟨⟨by decide, rfl, h1⟩, ?_, by simp [Expr.tree, h3]⟩
      exact Render.un (op := "!") 0 (render_paren h2) (by intro h; exact absurd h (by decide))
  | bin op a b iha ihb =>
    obtain ⟨a1, a2, a3⟩ := iha
    obtain ⟨b1, b2, b3⟩ := ihb
    have hpos : 0 < docPrec op := by cases op <;> decide
    have ha : (if a.level ≤ docPrec op then a.src else Expr.paren a.src).level ≤ docPrec op ∧
        (if a.level ≤ docPrec op then a.src else Expr.paren a.src).Canonical ∧
        Render (if a.level ≤ docPrec op then a.src else Expr.paren a.src)
          (if a.level ≤ docPrec op then a.text else '(' :: (a.text ++ [')'])) ∧
        (if a.level ≤ docPrec op then a.src else Expr.paren a.src).tree = some a := by
      by_cases hl : a.level ≤ docPrec op
      · simp only [hl, if_true]; exact ⟨by rw [src_level]; exact hl, a1, a2, a3⟩
      · simp only [hl, if_false]; exact ⟨Nat.zero_le _, a1, render_paren a2, a3⟩
    have hb : (if b.level < docPrec op then b.src else Expr.paren b.src).level < docPrec op ∧
        (if b.level < docPrec op then b.src else Expr.paren b.src).Canonical ∧
        Render (if b.level < docPrec op then b.src else Expr.paren b.src)
          (if b.level < docPrec op then b.text else '(' :: (b.text ++ [')'])) ∧
        (if b.level < docPrec op then b.src else Expr.paren b.src).tree = some b := by
      by_cases hl : b.level < docPrec op
      · simp only [hl, if_true]; exact ⟨by rw [src_level]; exact hl, b1, b2, b3⟩
      · simp only [hl, if_false]; exact ⟨hpos, b1, render_paren b2, b3⟩
    refine ⟨⟨ha.1, hb.1, ha.2.1, hb.2.1⟩, ?_, ?_⟩
    · exact Render.bin 0 0 ha.2.2.1 hb.2.2.1
    · simp [IExpr.src, Expr.tree, ha.2.2.2, hb.2.2.2]

/-! ### Integer operators of the interpreter against the integer specification -/

theorem mkInt_fits (i : Int) : (mkInt i : PRes (DV D)) = (match fits i with | some r => .ok (.int r) | none => .ub) := by
  unfold mkInt fits
  by_cases h : inRange i
  · have h' : -2147483648 ≤ i ∧ i ≤ 2147483647 := h
    rw [if_pos h, if_pos h']
  · have h' : ¬ (-2147483648 ≤ i ∧ i ≤ 2147483647) := h
    rw [if_neg h, if_neg h']

theorem powLoop_ipow (b : Int) (n : Nat) : powLoop b n = ipow b n := by
  induction n with
  | zero => rfl
  | succ n ih =>
    simp only [powLoop, ipow, ih]
    cases ipow b n with
    | none => rfl
    | some r => simp only [Option.bind, fits, inRange]; congr 1

theorem powLoopNeg_irecip (b : Int) (n : Nat) : powLoopNeg b n = irecip b n := by
  induction n with
  | zero => rfl
  | succ n ih =>
    simp only [powLoopNeg, irecip, ih]
    cases irecip b n with
    | none => rfl
    | some r => simp only [Option.bind, fits, inRange]; congr 1

theorem fits_idem {i r : Int} (h : fits i = some r) : r = i ∧ fits i = some i := by
  unfold fits at *
  split at h
  · simp at h; subst h; simp_all
  · simp at h

theorem ipow_range {b : Int} {n : Nat} {r : Int} (h : ipow b n = some r) : fits r = some r := by
  cases n with
  | zero => simp [ipow] at h; subst h; decide
  | succ n =>
    simp only [ipow, Option.bind_eq_some_iff] at h
    obtain ⟨x, _, hx⟩ := h
    obtain ⟨rfl, h2⟩ := fits_idem hx
    exact h2

theorem irecip_range {b : Int} {n : Nat} {r : Int} (h : irecip b n = some r) : fits r = some r := by
  cases n with
  | zero => simp [irecip] at h; subst h; decide
  | succ n =>
    simp only [irecip, Option.bind_eq_some_iff] at h
    obtain ⟨x, _, hx⟩ := h
    split at hx
    · simp at hx
    · obtain ⟨rfl, h2⟩ := fits_idem hx
      exact h2

/-- Binary operators on two integers. -/
theorem applyBin_int (env : Env D) (h : Heap D) (op : BinOp) (hop : op ≠ .idx) (a b : Int) :
    applyBin env h op (.int a) (.int b) =
      (match iop op a b with | some r => .ok (.int r) | none => .ub) := by
  cases op <;> try (exact absurd rfl hop)
  · -- pow
    simp only [applyBin, opArith, iop, powInt]
    by_cases h0 : 0 ≤ b
    · simp only [h0, if_true]
      rw [powLoop_ipow]
      cases hp : ipow a b.toNat with
      | none => rfl
      | some r => simp only [mkInt_fits, ipow_range hp]
    · simp only [h0, if_false]
      rw [powLoopNeg_irecip]
      cases hp : irecip a (-b).toNat with
      | none => rfl
      | some r => simp only [mkInt_fits, irecip_range hp]
  · -- mod
    simp only [applyBin, opMod, iop]
    by_cases h0 : b = 0
    · simp [h0]
    · by_cases h1 : a = -2147483648 ∧ b = -1
      · simp [h1]
      · simp [h0, h1]
  · simp only [applyBin, opArith, iop]
    by_cases h0 : b = 0
    · simp [h0]
    · simp only [h0, if_false, mkInt_fits]
  · simp only [applyBin, opArith, iop, mkInt_fits]
  · simp only [applyBin, opArith, iop, mkInt_fits]
  · simp only [applyBin, opAdd, opArith, iop, mkInt_fits]
  · simp only [applyBin, opEq, opCmp, iop, b2i, beq_iff_eq]
  · simp only [applyBin, opNe, opEq, opCmp, iop, b2i, beq_iff_eq]
    by_cases hab : a = b <;> simp [hab]
  · simp only [applyBin, opCmp, iop, b2i, decide_eq_true_eq, ge_iff_le]
  · simp only [applyBin, opCmp, iop, b2i, decide_eq_true_eq]
  · simp only [applyBin, opCmp, iop, b2i, decide_eq_true_eq]
  · simp only [applyBin, opCmp, iop, b2i, decide_eq_true_eq, gt_iff_lt]
  · simp only [applyBin, opCmp, iop, b2i, Bool.and_eq_true, bne_iff_ne, ne_eq]
  · simp only [applyBin, opCmp, iop, b2i, Bool.or_eq_true, bne_iff_ne, ne_eq]

/-- The meaning of the source of an integer tree is the tree's value. -/
theorem tree_meaning (env : Env D) (h : Heap D) : ∀ (e : Expr) (t : IExpr), e.tree = some t → t.Ok →
    e.meaning env h = (match t.value with | some v => .ok (.int v, []) | none => .ub) ∧ e.Plain env h := by
  intro e
  induction e with
  | num s =>
    intro t ht hok
    simp only [Expr.tree] at ht
    split at ht
    · rename_i hs
      simp at ht; subst ht
      have hb : decVal s ≤ 2147483647 := hok
      refine ⟨?_, trivial⟩
      simp only [Expr.meaning, numMeaning, hs, if_true, hb, PRes.bind, IExpr.value]
    · simp at ht
  | str v => intro t ht; simp [Expr.tree] at ht
  | var n => intro t ht; simp [Expr.tree] at ht
  | paren e ih => intro t ht hok; exact ih t ht hok
  | un op e ih =>
    intro t ht hok
    simp only [Expr.tree] at ht
    split at ht
    · rename_i hop; subst hop
      simp only [Option.map_eq_some_iff] at ht
      obtain ⟨a, ha, rfl⟩ := ht
      obtain ⟨h1, h2⟩ := ih a ha hok
      refine ⟨?_, h2⟩
      simp only [Expr.meaning, h1, IExpr.value]
      cases a.value with
      | none => rfl
      | some x =>
        simp only [PRes.bind, applyUn, if_true, Option.bind, mkInt_fits]
        rw [show x * -1 = -x by omega]
        cases fits (-x) <;> rfl
    · rename_i hop1
      split at ht
      · rename_i hop; subst hop
        simp only [Option.map_eq_some_iff] at ht
        obtain ⟨a, ha, rfl⟩ := ht
        obtain ⟨h1, h2⟩ := ih a ha hok
        refine ⟨?_, h2⟩
        simp only [Expr.meaning, h1, IExpr.value]
        cases a.value with
        | none => rfl
        | some x =>
          simp only [PRes.bind, applyUn, hop1, if_false, if_true, Option.map, b2i, beq_iff_eq, List.append_nil]
      · simp at ht
  | bin op a b iha ihb =>
    intro t ht hok
    simp only [Expr.tree, Option.bind_eq_some_iff, Option.some.injEq] at ht
    obtain ⟨x, hx, y, hy, rfl⟩ := ht
    obtain ⟨a1, a2⟩ := iha x hx hok.2.1
    obtain ⟨b1, b2⟩ := ihb y hy hok.2.2
    refine ⟨?_, a2, b2⟩
    simp only [Expr.meaning, a1, b1, IExpr.value]
    cases x.value with
    | none => rfl
    | some u =>
      simp only [PRes.bind, Option.bind]
      cases y.value with
      | none => rfl
      | some w =>
        simp only [PRes.bind, applyBin_int env h op hok.1]
        cases iop op u w <;> rfl

end Hexed.Hil
