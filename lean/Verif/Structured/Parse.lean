import Verif.Structured.Spec
import Mathlib.Data.List.Forall2
set_option autoImplicit false
set_option linter.unusedVariables false

/-!
# Splitting a structured expression into names and expressions (C83)
-/

namespace Hexed.Structured
open Hexed.Namespace Hexed.Hil

theorem statements_ne (s : List Char) : statements s ≠ [] := by
  cases s with
  | nil => simp [statements]
  | cons c cs =>
    unfold statements
    split
    · simp
    · split <;> simp

theorem statements_append {p t : List Char} (hp : NoSep p) {f : List Char} {r : List (List Char)} (h : statements t = f :: r) :
    statements (p ++ t) = (p ++ f) :: r := by
  induction p with
  | nil => simpa using h
  | cons c cs ih =>
    have hc : ¬ (c = ';' ∨ c = '\n') := fun e => hp c (by simp) (e.symm)
    rw [List.cons_append, statements, if_neg hc, ih fun d hd => hp d (by simp [hd])]
    rfl

theorem statements_sep {c : Char} (hc : isSep c) (t : List Char) : statements (c :: t) = [] :: statements t := by
  rw [statements, if_pos (Or.symm hc)]

theorem pieces_eq {code : List Char} {ps : List (List Char)} (h : Pieces code ps) : statements code = ps := by
  induction h with
  | @last p hp => simpa using statements_append hp (show statements [] = [] :: [] from rfl)
  | @more p code c ps hp hc h ih => rw [statements_append hp (statements_sep hc code), ih, List.append_nil]

theorem pieces (code : List Char) : Pieces code (statements code) := by
  induction code with
  | nil => exact .last (by intro c hc; simp at hc)
  | cons c cs ih =>
    by_cases hc : isSep c
    · rw [statements_sep hc]
      exact .more (p := []) (by intro c hc; simp at hc) hc ih
    · have hn : ∀ {p}, NoSep p → NoSep (c :: p) := by
        intro p hp d hd
        rcases List.mem_cons.1 hd with rfl | hd
        · exact hc
        · exact hp d hd
      rw [statements, if_neg (fun e => hc (Or.symm e))]
      generalize statements cs = l at ih
      cases ih with
      | last hp => exact .last (hn hp)
      | more hp h1 h2 => exact .more (hn hp) h1 h2

theorem cutEqual_none {s : List Char} : cutEqual s = none ↔ '=' ∉ s := by
  induction s with
  | nil => simp [cutEqual]
  | cons c cs ih =>
    rw [cutEqual]
    split
    · rename_i h; simp [h]
    · rename_i h; simp [ih, Ne.symm h, Option.map_eq_none_iff]

theorem cutEqual_some {s l r : List Char} : cutEqual s = some (l, r) ↔ s = l ++ '=' :: r ∧ '=' ∉ l := by
  induction s generalizing l with
  | nil => simp [cutEqual]
  | cons c cs ih =>
    rw [cutEqual]
    split
    · rename_i h
      subst h
      cases l with
      | nil => simp
      | cons d ds =>
        simp only [Option.some.injEq, Prod.mk.injEq, List.cons_append, List.cons.injEq, List.mem_cons, not_or]
        constructor
        · rintro ⟨h, _⟩; cases h
        · rintro ⟨⟨h, _⟩, h', _⟩; exact absurd h h'
    · rename_i h
      rw [Option.map_eq_some_iff]
      constructor
      · rintro ⟨⟨a, b⟩, h1, h2⟩
        simp only [Prod.mk.injEq] at h2
        obtain ⟨rfl, rfl⟩ := h2
        obtain ⟨rfl, h3⟩ := ih.1 h1
        exact ⟨rfl, by simp [Ne.symm h, h3]⟩
      · rintro ⟨h1, h2⟩
        cases l with
        | nil => simp only [List.nil_append, List.cons.injEq] at h1; exact absurd h1.1 h
        | cons d ds =>
          simp only [List.cons_append, List.cons.injEq] at h1
          obtain ⟨rfl, rfl⟩ := h1
          exact ⟨(ds, r), ih.2 ⟨rfl, fun hm => h2 (by simp [hm])⟩, rfl⟩

theorem isspace_eq (c : Char) : isspace c = isWhite c := by
  have key : ∀ d : Char, c = d ↔ c.toNat = d.toNat := fun d => ⟨fun h => h ▸ rfl, fun h => Char.ext (UInt32.toNat_inj.1 h)⟩
  rw [Bool.eq_iff_iff, isspace, isWhite]
  simp only [decide_eq_true_eq, key, Bool.or_eq_true, Bool.and_eq_true, beq_iff_eq]
  have e : ' '.toNat = 32 ∧ '\t'.toNat = 9 ∧ '\n'.toNat = 10 ∧ '\x0b'.toNat = 11 ∧ '\x0c'.toNat = 12 ∧ '\r'.toNat = 13 := by decide
  obtain ⟨e1, e2, e3, e4, e5, e6⟩ := e
  rw [e1, e2, e3, e4, e5, e6]
  omega

theorem trimFront_some {s t : List Char} : trimFront s = some t ↔ ∃ a, s = a ++ t ∧ Blank a ∧ ∃ c, t.head? = some c ∧ isWhite c = false := by
  induction s with
  | nil =>
    simp only [trimFront]
    constructor
    · intro h; cases h
    · rintro ⟨a, h, _, c, hc, _⟩
      have := (List.append_eq_nil_iff.1 h.symm).2
      subst this; simp at hc
  | cons c cs ih =>
    rw [trimFront, isspace_eq]
    split
    · rename_i h
      rw [ih]
      constructor
      · rintro ⟨a, rfl, hb, hc⟩
        exact ⟨c :: a, rfl, fun d hd => (List.mem_cons.1 hd).elim (fun e => e ▸ h) (hb d), hc⟩
      · rintro ⟨a, h1, hb, d, hd, hd'⟩
        cases a with
        | nil => simp only [List.nil_append] at h1; subst h1; simp only [List.head?_cons, Option.some.injEq] at hd; subst hd; rw [h] at hd'; cases hd'
        | cons e es =>
          simp only [List.cons_append, List.cons.injEq] at h1
          exact ⟨es, h1.2, fun x hx => hb x (by simp [hx]), d, hd, hd'⟩
    · rename_i h
      constructor
      · intro h1
        obtain rfl := Option.some.inj h1
        exact ⟨[], rfl, by intro x hx; simp at hx, c, rfl, by simpa using h⟩
      · rintro ⟨a, h1, hb, d, hd, hd'⟩
        cases a with
        | nil => rw [h1]; rfl
        | cons e es =>
          simp only [List.cons_append, List.cons.injEq] at h1
          exact absurd (h1.1 ▸ hb e (by simp)) h

theorem head_append {a b : List Char} (h : a ≠ []) : (a ++ b).head? = a.head? := by
  cases a with
  | nil => exact absurd rfl h
  | cons c cs => rfl

theorem blank_reverse {s : List Char} (h : Blank s) : Blank s.reverse := fun c hc => h c (by simpa using hc)

theorem trim_some {s x : List Char} : trim s = some x ↔ ∃ a b, s = a ++ (x ++ b) ∧ Blank a ∧ Blank b ∧ Trimmed x := by
  rw [trim, Option.bind_eq_some_iff]
  constructor
  · rintro ⟨t, h1, h2⟩
    obtain ⟨u, h3, rfl⟩ := Option.map_eq_some_iff.1 h2
    obtain ⟨a, rfl, ha, c, hc, hc'⟩ := trimFront_some.1 h1
    obtain ⟨b, hb, hb', d, hd, hd'⟩ := trimFront_some.1 h3
    have ht : t = u.reverse ++ b.reverse := by rw [← List.reverse_append, ← hb, List.reverse_reverse]
    subst ht
    have hu : u ≠ [] := by rintro rfl; simp at hd
    refine ⟨a, b.reverse, rfl, ha, blank_reverse hb', c, d, ?_, ?_, hc', hd'⟩
    · rwa [head_append (by simpa using hu)] at hc
    · rw [List.getLast?_reverse]; exact hd
  · rintro ⟨a, b, rfl, ha, hb, c, d, hc, hd, hc', hd'⟩
    have hx : x ≠ [] := by rintro rfl; simp at hc
    refine ⟨x ++ b, trimFront_some.2 ⟨a, rfl, ha, c, by rwa [head_append hx], hc'⟩, Option.map_eq_some_iff.2 ⟨x.reverse, ?_, by simp⟩⟩
    exact trimFront_some.2 ⟨b.reverse, by simp, blank_reverse hb, d, by rwa [List.head?_reverse], hd'⟩

theorem blank_eq {s : List Char} (h : Blank s) : '=' ∉ s := fun hm => by have := h _ hm; revert this; decide

theorem assigns_iff {p n x : List Char} : Assigns p n x ↔ ∃ l r, cutEqual p = some (l, r) ∧ trim l = some n ∧ trim r = some x := by
  constructor
  · rintro ⟨a, b, c, d, rfl, hn, ha, hb, hc, hd, tn, tx⟩
    refine ⟨_, _, cutEqual_some.2 ⟨rfl, ?_⟩, trim_some.2 ⟨a, b, rfl, ha, hb, tn⟩, trim_some.2 ⟨c, d, rfl, hc, hd, tx⟩⟩
    simp only [List.mem_append, not_or]
    exact ⟨blank_eq ha, hn, blank_eq hb⟩
  · rintro ⟨l, r, h1, h2, h3⟩
    obtain ⟨rfl, h4⟩ := cutEqual_some.1 h1
    obtain ⟨a, b, rfl, ha, hb, tn⟩ := trim_some.1 h2
    obtain ⟨c, d, rfl, hc, hd, tx⟩ := trim_some.1 h3
    exact ⟨a, b, c, d, rfl, fun h => h4 (by simp [h]), ha, hb, hc, hd, tn, tx⟩

theorem sides_exact (ps names exprs : List (List Char)) : (sides false ps = some names ∧ sides true ps = some exprs) ↔
    names.length = exprs.length ∧ List.Forall₂ (fun p q => Assigns p q.1 q.2) (ps.filter fun p => p.contains '=') (names.zip exprs) := by
  induction ps generalizing names exprs with
  | nil =>
    simp only [sides, Option.some.injEq, List.filter_nil, List.forall₂_nil_left_iff]
    constructor
    · rintro ⟨rfl, rfl⟩; simp
    · rintro ⟨h1, h2⟩
      cases names with
      | nil => exact ⟨rfl, (List.length_eq_zero_iff.1 h1.symm).symm⟩
      | cons n ns => cases exprs with
        | nil => simp at h1
        | cons e es => simp at h2
  | cons p ps ih =>
    simp only [sides]
    cases hc : cutEqual p with
    | none =>
      have : p.contains '=' = false := by simpa using cutEqual_none.1 hc
      rw [List.filter_cons_of_neg (by simp [cutEqual_none.1 hc])]
      exact ih names exprs
    | some q =>
      obtain ⟨l, r⟩ := q
      have hm : '=' ∈ p := by rw [(cutEqual_some.1 hc).1]; simp
      rw [List.filter_cons_of_pos (by simpa using hm)]
      simp only [Option.bind_eq_some_iff, Option.map_eq_some_iff, if_true, Bool.false_eq_true, if_false]
      constructor
      · rintro ⟨⟨n, hn, ns, hns, rfl⟩, ⟨x, hx, xs, hxs, rfl⟩⟩
        obtain ⟨h1, h2⟩ := (ih ns xs).1 ⟨hns, hxs⟩
        exact ⟨by simp [h1], by rw [List.zip_cons_cons]; exact .cons (assigns_iff.2 ⟨l, r, hc, hn, hx⟩) h2⟩
      · rintro ⟨h1, h2⟩
        cases names with
        | nil => simp at h2
        | cons n ns => cases exprs with
          | nil => simp at h2
          | cons x xs =>
            rw [List.zip_cons_cons] at h2
            cases h2 with
            | cons ha h2 =>
              obtain ⟨l', r', h3, h4, h5⟩ := assigns_iff.1 ha
              rw [hc] at h3
              obtain ⟨rfl, rfl⟩ := Prod.mk.inj (Option.some.inj h3)
              obtain ⟨h6, h7⟩ := (ih ns xs).2 ⟨by simpa using h1, h2⟩
              exact ⟨⟨n, h4, ns, h6, rfl⟩, ⟨x, h5, xs, h7, rfl⟩⟩

/-- Names and expressions of a structured expression are the left and right sides of its assignments, in order, without the spaces around them; there are as many of
one as of the other, and no name contains `$`. -/
theorem make_exact {code : List Char} {ps : List (List Char)} (hp : Pieces code ps) (names exprs : List (List Char)) : make code = .ok names exprs ↔
    names.length = exprs.length ∧ List.Forall₂ (fun p q => Assigns p q.1 q.2) (ps.filter fun p => p.contains '=') (names.zip exprs) ∧ ∀ n ∈ names, '$' ∉ n := by
  have h := sides_exact ps names exprs
  have hd : ∀ ns : List (List Char), (ns.any fun n => n.contains '$') = true ↔ ¬ ∀ n ∈ ns, '$' ∉ n := by
    intro ns; simp
  rw [make, getSide, getSide, pieces_eq hp, ← and_assoc, ← h]
  constructor
  · intro he
    split at he
    · rename_i a b h1 h2
      split at he
      · cases he
      · rename_i h3
        cases he
        exact ⟨⟨h1, h2⟩, not_not.1 fun hn => h3 ((hd _).2 hn)⟩
    · cases he
  · rintro ⟨⟨h1, h2⟩, h3⟩
    simp only [h1, h2]
    rw [if_neg fun h4 => (hd _).1 h4 h3]

/-- The character `$` in a name is an error. -/
theorem make_throws {code : List Char} {ps : List (List Char)} (hp : Pieces code ps) : make code = .throws ↔
    ∃ names exprs : List (List Char), names.length = exprs.length ∧ List.Forall₂ (fun p q => Assigns p q.1 q.2) (ps.filter fun p => p.contains '=') (names.zip exprs) ∧ ∃ n ∈ names, '$' ∈ n := by
  rw [make, getSide, getSide, pieces_eq hp]
  constructor
  · intro he
    split at he
    · rename_i a b h1 h2
      split at he
      · rename_i h3
        obtain ⟨h4, h5⟩ := (sides_exact ps a b).1 ⟨h1, h2⟩
        exact ⟨a, b, h4, h5, by simpa using h3⟩
      · cases he
    · cases he
  · rintro ⟨a, b, h1, h2, h3⟩
    obtain ⟨h4, h5⟩ := (sides_exact ps a b).2 ⟨h1, h2⟩
    simp only [h4, h5]
    rw [if_pos (by simpa using h3)]

/-- Undefined behavior is exactly an assignment with an empty side. -/
theorem make_ub {code : List Char} {ps : List (List Char)} (hp : Pieces code ps) : make code = .ub ↔
    ∃ p ∈ ps, ∃ l r, p = l ++ '=' :: r ∧ '=' ∉ l ∧ (Blank l ∨ Blank r) := by
  have ht : ∀ s, trim s = none ↔ Blank s := by
    intro s
    constructor
    · intro h
      by_contra hb
      have : trimFront s ≠ none := by
        intro h1
        apply hb
        clear h hb
        induction s with
        | nil => intro c hc; simp at hc
        | cons c cs ih =>
          rw [trimFront, isspace_eq] at h1
          split at h1
          · rename_i hs
            intro d hd
            rcases List.mem_cons.1 hd with rfl | hd
            · exact hs
            · exact ih h1 d hd
          · cases h1
      obtain ⟨t, h2⟩ := Option.ne_none_iff_exists'.1 this
      rw [trim, h2, Option.bind_some, Option.map_eq_none_iff] at h
      obtain ⟨a, _, _, c, hc, hc'⟩ := trimFront_some.1 h2
      cases t with
      | nil => simp at hc
      | cons d ds =>
        simp only [List.head?_cons, Option.some.injEq] at hc
        subst hc
        have : ∀ u : List Char, trimFront (u ++ [d]) ≠ none := by
          intro u
          induction u with
          | nil => simp [trimFront, isspace_eq, hc']
          | cons e es ih =>
            rw [List.cons_append, trimFront]
            split
            · exact ih
            · simp
        rw [List.reverse_cons] at h
        exact this _ h
    · intro hb
      rw [trim]
      have : trimFront s = none := by
        induction s with
        | nil => rfl
        | cons c cs ih => rw [trimFront, isspace_eq, if_pos (hb c (by simp))]; exact ih fun d hd => hb d (by simp [hd])
      rw [this]; rfl
  have hsd : ∀ (b : Bool) (ps : List (List Char)), sides b ps = none ↔ ∃ p ∈ ps, ∃ l r, p = l ++ '=' :: r ∧ '=' ∉ l ∧ Blank (if b then r else l) := by
    intro b ps
    induction ps with
    | nil => simp [sides]
    | cons p ps ih =>
      simp only [sides]
      cases hc : cutEqual p with
      | none =>
        simp only [List.mem_cons, exists_eq_or_imp]
        rw [ih]
        refine ⟨Or.inr, ?_⟩
        rintro (⟨l, r, rfl, _⟩ | h)
        · exact absurd (cutEqual_none.1 hc) (by simp)
        · exact h
      | some q =>
        obtain ⟨l, r⟩ := q
        simp only [List.mem_cons, exists_eq_or_imp]
        obtain ⟨e1, e2⟩ := cutEqual_some.1 hc
        have hx : (∃ l r, p = l ++ '=' :: r ∧ '=' ∉ l ∧ Blank (if b then r else l)) ↔ Blank (if b then r else l) := by
          constructor
          · rintro ⟨l', r', h1, h2, h3⟩
            have := cutEqual_some.2 ⟨h1, h2⟩
            rw [hc] at this
            obtain ⟨rfl, rfl⟩ := Prod.mk.inj (Option.some.inj this)
            exact h3
          · intro h; exact ⟨l, r, e1, e2, h⟩
        rw [hx, ← ht, ← ih]
        cases trim (if b then r else l) with
        | none => simp
        | some y => simp
  rw [make, getSide, getSide, pieces_eq hp]
  have hor : (∃ p ∈ ps, ∃ l r, p = l ++ '=' :: r ∧ '=' ∉ l ∧ (Blank l ∨ Blank r)) ↔ sides false ps = none ∨ sides true ps = none := by
    rw [hsd false, hsd true]
    simp only [if_true, Bool.false_eq_true, if_false]
    constructor
    · rintro ⟨p, h1, l, r, h2, h3, h4 | h4⟩
      · exact Or.inl ⟨p, h1, l, r, h2, h3, h4⟩
      · exact Or.inr ⟨p, h1, l, r, h2, h3, h4⟩
    · rintro (⟨p, h1, l, r, h2, h3, h4⟩ | ⟨p, h1, l, r, h2, h3, h4⟩)
      · exact ⟨p, h1, l, r, h2, h3, Or.inl h4⟩
      · exact ⟨p, h1, l, r, h2, h3, Or.inr h4⟩
  rw [hor]
  cases sides false ps <;> cases sides true ps <;> simp
  split <;> simp

end Hexed.Structured
