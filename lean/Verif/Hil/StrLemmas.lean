import Verif.Hil.Prog
set_option autoImplicit false
set_option linter.unusedVariables false

namespace Hexed.Hil

theorem quote_lit (v : List Char) : Lit (quote v) v := by
  induction v with
  | nil => exact .nil
  | cons c cs ih =>
    simp only [quote]
    split
    · exact .esc ih
    · rename_i h
      simp only [not_or] at h
      exact .plain h.1 h.2.1 h.2.2 ih

/-- `d` nested levels are still open. -/
inductive LitD : Nat → List Char → List Char → Prop
  | one {s v : List Char} : Lit s v → LitD 1 s v
  | more {d : Nat} {s1 v1 s2 v2 : List Char} : Lit s1 v1 → LitD d s2 v2 → LitD (d + 1) (s1 ++ '}' :: s2) (v1 ++ '}' :: v2)

theorem LitD.plain {d : Nat} {s v : List Char} {c : Char} (h : LitD d s v) (h1 : c ≠ '{') (h2 : c ≠ '}') (h3 : c ≠ '\\') :
    LitD d (c :: s) (c :: v) := by
  cases h with
  | one h => exact .one (.plain h1 h2 h3 h)
  | more h h' => exact .more (s1 := c :: _) (v1 := c :: _) (.plain h1 h2 h3 h) h'

theorem LitD.esc {d : Nat} {s v : List Char} {c : Char} (h : LitD d s v) : LitD d ('\\' :: c :: s) (c :: v) := by
  cases h with
  | one h => exact .one (.esc h)
  | more h h' => exact .more (s1 := '\\' :: c :: _) (v1 := c :: _) (.esc h) h'

theorem LitD.nest {d : Nat} (hd : 1 ≤ d) {s v : List Char} (h : LitD (d + 1) s v) : LitD d ('{' :: s) ('{' :: v) := by
  generalize hn : d + 1 = n at h
  cases h with
  | one h => omega
  | @more d' s1 v1 s2 v2 h h' =>
    have : d' = d := by omega
    subst this
    cases h' with
    | one h2 => exact .one (.nest h h2)
    | @more d'' s3 v3 s4 v4 h3 h4 =>
      have := Lit.nest h h3
      have := LitD.more this h4
      simpa using this

theorem LitD.close {d : Nat} {s v : List Char} (h : LitD d s v) : LitD (d + 1) ('}' :: s) ('}' :: v) :=
  .more (s1 := []) (v1 := []) .nil h

/-- The scanner accepts only documented literals. -/
theorem strLit_complete (n : Nat) : ∀ (text : List Char) (d : Nat) (v t : List Char), text.length ≤ n → 1 ≤ d →
    strLit d false text = some (v, t) → ∃ s, LitD d s v ∧ text = s ++ '}' :: t ∧ t ≠ [] := by
  induction n using Nat.strongRecOn with
  | _ n ih =>
    intro text d v t hn hd h
    cases text with
    | nil => simp [strLit] at h
    | cons c cs =>
      by_cases hcs : cs = []
      · subst hcs; simp [strLit] at h
      have hlen : cs.length < n := by simp at hn; omega
      by_cases c1 : c = '{'
      · subst c1
        rw [strLit_open d cs hcs] at h
        simp only [Option.map_eq_some_iff] at h
        obtain ⟨⟨v', t'⟩, h1, h2⟩ := h
        simp at h2
        obtain ⟨rfl, rfl⟩ := h2
        obtain ⟨s, hs, e, ht⟩ := ih cs.length hlen cs (d + 1) v' t' (Nat.le_refl _) (by omega) h1
        exact ⟨'{' :: s, LitD.nest hd hs, by rw [e]; rfl, ht⟩
      · by_cases c2 : c = '}'
        · subst c2
          by_cases hd1 : d = 1
          · subst hd1
            rw [strLit_end cs hcs] at h
            simp at h
            obtain ⟨rfl, rfl⟩ := h
            exact ⟨[], .one .nil, rfl, hcs⟩
          · obtain ⟨d', rfl⟩ : ∃ d', d = d' + 1 := ⟨d - 1, by omega⟩
            rw [strLit_close d' cs hcs (by omega)] at h
            simp only [Option.map_eq_some_iff] at h
            obtain ⟨⟨v', t'⟩, h1, h2⟩ := h
            simp at h2
            obtain ⟨rfl, rfl⟩ := h2
            obtain ⟨s, hs, e, ht⟩ := ih cs.length hlen cs d' v' t' (Nat.le_refl _) (by omega) h1
            exact ⟨'}' :: s, LitD.close hs, by rw [e]; rfl, ht⟩
        · by_cases c3 : c = '\\'
          · subst c3
            obtain ⟨x, xs, rfl⟩ := List.exists_cons_of_ne_nil hcs
            by_cases hxs : xs = []
            · subst hxs
              rw [strLit_cons d false '\\' [x] (by simp)] at h
              have q1 : ('\\' == '{') = false := by decide
              have q2 : ('\\' == '}') = false := by decide
              have hne : d ≠ 0 := by omega
              simp [q1, q2, hne, strLit] at h
            · rw [strLit_esc d x xs hxs hd] at h
              simp only [Option.map_eq_some_iff] at h
              obtain ⟨⟨v', t'⟩, h1, h2⟩ := h
              simp at h2
              obtain ⟨rfl, rfl⟩ := h2
              have hl2 : xs.length < n := by simp at hlen; omega
              obtain ⟨s, hs, e, ht⟩ := ih xs.length hl2 xs d v' t' (Nat.le_refl _) hd h1
              exact ⟨'\\' :: x :: s, LitD.esc hs, by rw [e]; rfl, ht⟩
          · rw [strLit_plain d c cs hcs hd c1 c2 c3] at h
            simp only [Option.map_eq_some_iff] at h
            obtain ⟨⟨v', t'⟩, h1, h2⟩ := h
            simp at h2
            obtain ⟨rfl, rfl⟩ := h2
            obtain ⟨s, hs, e, ht⟩ := ih cs.length hlen cs d v' t' (Nat.le_refl _) hd h1
            exact ⟨c :: s, LitD.plain hs c1 c2 c3, by rw [e]; rfl, ht⟩

end Hexed.Hil
