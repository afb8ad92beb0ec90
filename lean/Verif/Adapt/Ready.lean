import Verif.Adapt.Delete
import Verif.Adapt.Smooth2

set_option autoImplicit false
set_option linter.unusedVariables false

namespace Hexed.Adapt
open Hexed.Tree (Path get modify refineNode unrefineNode setStatusNode findNeighbors findNeighbor IsDir Borders IsLeafAt Reachable RootWF)

variable {nd : Nat}

/-! ### Directions by face numbers -/

theorem dir_faceNo {dir : Fin nd → Int} (h : IsDir dir) {d : Fin nd} (hd : dir d ≠ 0) : direction nd (faceNo dir d) = faceOf dir d := by
  funext x
  simp only [direction, faceOf, faceNo_div]
  by_cases hx : x = d
  · subst hx; rw [if_pos rfl, if_pos rfl, faceNo_sign h hd]
  · rw [if_neg (fun h => hx (Fin.ext h)), if_neg hx]

theorem withFace_faceNo {dir dir0 : Fin nd → Int} (h : IsDir dir) {d : Fin nd} (hd : dir d ≠ 0) :
    withFace dir0 (faceNo dir d) = fun x => if x = d then dir x else dir0 x := by
  funext x
  simp only [withFace, faceNo_div]
  by_cases hx : x = d
  · subst hx; rw [if_pos rfl, if_pos rfl, faceNo_sign h hd]
  · rw [if_neg (fun h => hx (Fin.ext h)), if_neg hx]

theorem faceNo_lt (dir : Fin nd → Int) (d : Fin nd) : faceNo dir d < 2 * nd := by
  have := faceNo_div dir d; have := d.isLt; omega

theorem faceNo_lt2 (dir : Fin nd → Int) {d e : Fin nd} (h : e < d) : faceNo dir e < 2 * (faceNo dir d / 2) := by
  have h1 := faceNo_div dir d; have h2 := faceNo_div dir e
  have : e.val < d.val := h
  omega

/-- The directions of one to three dimensions are those that the loops go through. -/
theorem dir_one {dir : Fin nd → Int} (h : IsDir dir) (ho : order dir = 1) : ∃ i < 2 * nd, dir = direction nd i ∧ ∃ d, dir d ≠ 0 ∧ ∀ x, dir x ≠ 0 → x = d := by
  obtain ⟨d, hd⟩ := Finset.card_eq_one.1 ho
  have hd0 : dir d ≠ 0 := by
    have : d ∈ Finset.univ.filter fun d => dir d ≠ 0 := by rw [hd]; simp
    simpa using this
  have hx : ∀ x, dir x ≠ 0 → x = d := by
    intro x hx
    have : x ∈ Finset.univ.filter fun d => dir d ≠ 0 := by simpa using hx
    rw [hd] at this; simpa using this
  refine ⟨faceNo dir d, faceNo_lt dir d, ?_, d, hd0, hx⟩
  rw [dir_faceNo h hd0]
  funext x
  simp only [faceOf]
  split
  · rfl
  · rename_i hne; by_contra hc; exact hne (hx x hc)

theorem dir_two {dir : Fin nd → Int} (h : IsDir dir) (ho : order dir = 2) : ∃ d e : Fin nd, e < d ∧ dir d ≠ 0 ∧ dir e ≠ 0 ∧ ∀ x, dir x ≠ 0 → x = d ∨ x = e := by
  obtain ⟨d, e, hne, hd⟩ := Finset.card_eq_two.1 ho
  have hm : ∀ x, dir x ≠ 0 ↔ x = d ∨ x = e := by
    intro x
    have : x ∈ (Finset.univ.filter fun d => dir d ≠ 0) ↔ dir x ≠ 0 := by simp
    rw [← this, hd]; simp
  rcases lt_or_gt_of_ne hne with hlt | hlt
  · exact ⟨e, d, hlt, (hm e).2 (.inr rfl), (hm d).2 (.inl rfl), fun x hx => ((hm x).1 hx).symm⟩
  · exact ⟨d, e, hlt, (hm d).2 (.inl rfl), (hm e).2 (.inr rfl), fun x hx => (hm x).1 hx⟩

theorem dir_three {dir : Fin nd → Int} (h : IsDir dir) (ho : order dir = 3) : ∃ d e f : Fin nd, f < e ∧ e < d ∧ dir d ≠ 0 ∧ dir e ≠ 0 ∧ dir f ≠ 0 ∧
    ∀ x, dir x ≠ 0 → x = d ∨ x = e ∨ x = f := by
  obtain ⟨d, e, f, h1, h2, h3, hd⟩ := Finset.card_eq_three.1 ho
  have hm : ∀ x, dir x ≠ 0 ↔ x = d ∨ x = e ∨ x = f := by
    intro x
    have : x ∈ (Finset.univ.filter fun d => dir d ≠ 0) ↔ dir x ≠ 0 := by simp
    rw [← this, hd]; simp
  have g1 := (hm d).2 (.inl rfl)
  have g2 := (hm e).2 (.inr (.inl rfl))
  have g3 := (hm f).2 (.inr (.inr rfl))
  have key : ∀ a b c : Fin nd, c < b → b < a → dir a ≠ 0 → dir b ≠ 0 → dir c ≠ 0 → (∀ x, dir x ≠ 0 → x = a ∨ x = b ∨ x = c) →
      ∃ d e f : Fin nd, f < e ∧ e < d ∧ dir d ≠ 0 ∧ dir e ≠ 0 ∧ dir f ≠ 0 ∧ ∀ x, dir x ≠ 0 → x = d ∨ x = e ∨ x = f :=
    fun a b c q1 q2 q3 q4 q5 q6 => ⟨a, b, c, q1, q2, q3, q4, q5, q6⟩
  have hx : ∀ x, dir x ≠ 0 → x = d ∨ x = e ∨ x = f := fun x hx => (hm x).1 hx
  rcases lt_or_gt_of_ne h1 with a1 | a1 <;> rcases lt_or_gt_of_ne h2 with a2 | a2 <;> rcases lt_or_gt_of_ne h3 with a3 | a3
  · exact key f e d a1 a3 g3 g2 g1 (fun x q => by have := hx x q; tauto)
  · exact key e f d a2 a3 g2 g3 g1 (fun x q => by have := hx x q; tauto)
  · exact absurd (a1.trans a3) (not_lt.2 a2.le)
  · exact key e d f a2 a1 g2 g1 g3 (fun x q => by have := hx x q; tauto)
  · exact key f d e a1 a2 g3 g1 g2 (fun x q => by have := hx x q; tauto)
  · exact absurd (a2.trans a3) (not_lt.2 a1.le)
  · exact key d f e a3 a2 g1 g3 g2 (fun x q => by have := hx x q; tauto)
  · exact key d e f a3 a1 g1 g2 g3 (fun x q => by have := hx x q; tauto)

/-- The direction with the components of `dir` in `S` only. -/
def cut (dir : Fin nd → Int) (S : Fin nd → Prop) [DecidablePred S] : Fin nd → Int := fun x => if S x then dir x else 0

/-! ### The geometric meaning of the tests -/

section
variable {st : St nd} (h : Consistent st) {p : Path} {a : Tree nd} (ha : get p st.root = some a)
include h ha

theorem N_mem {dir : Fin nd → Int} (hd : IsDir dir) (q : Path) :
    q ∈ N st.root p dir ↔ ∃ b, get q st.root = some b ∧ b.children = [] ∧ Borders a b dir := by
  obtain ⟨l, hl, -, hm⟩ := Tree.find_neighbors_exact h.reach ha dir hd
  have : N st.root p dir = l := by simp [N, hl]
  rw [this]; exact hm q

theorem partly_iff {dir : Fin nd → Int} (hd : IsDir dir) : partly st (N st.root p dir) = false ↔ AllOrNone st a dir := by
  have hp : partly st (N st.root p dir) = false ↔ (N st.root p dir).all (exists_ st) = true ∨ (N st.root p dir).any (exists_ st) = false := by
    unfold partly
    cases (N st.root p dir).all (exists_ st) <;> cases (N st.root p dir).any (exists_ st) <;> simp
  rw [hp]
  unfold AllOrNone
  refine or_congr ?_ ?_
  · rw [List.all_eq_true]
    constructor
    · intro hh q b h1 h2 h3
      exact (exists_iff h q).1 (hh q ((N_mem h ha hd q).2 ⟨b, h1, h2, h3⟩))
    · intro hh q hq
      obtain ⟨b, h1, h2, h3⟩ := (N_mem h ha hd q).1 hq
      exact (exists_iff h q).2 (hh q b h1 h2 h3)
  · rw [List.any_eq_false]
    constructor
    · intro hh q b h1 h2 h3 hx
      exact hh q ((N_mem h ha hd q).2 ⟨b, h1, h2, h3⟩) ((exists_iff h q).2 hx)
    · intro hh q hq hx
      obtain ⟨b, h1, h2, h3⟩ := (N_mem h ha hd q).1 hq
      exact hh q b h1 h2 h3 ((exists_iff h q).1 hx)

theorem expAt_iff (i : Nat) : expAt st p i = true ↔ Exposed st a (direction nd i) := by
  unfold expAt Exposed
  rw [Bool.not_eq_true', Bool.eq_false_iff, Ne, List.all_eq_true]
  push Not
  constructor
  · rintro ⟨q, hq, hx⟩
    obtain ⟨b, h1, h2, h3⟩ := (N_mem h ha (isDir_direction i) q).1 hq
    exact ⟨q, b, h1, h2, h3, fun hh => hx ((exists_iff h q).2 hh)⟩
  · rintro ⟨q, b, h1, h2, h3, h4⟩
    exact ⟨q, (N_mem h ha (isDir_direction i) q).2 ⟨b, h1, h2, h3⟩, fun hh => h4 ((exists_iff h q).1 hh)⟩

theorem isExp_iff {i m : Nat} (him : i < m) : isExp (expList st p m) i = true ↔ Exposed st a (direction nd i) := by
  rw [← expAt_iff h ha i]
  simp [isExp, expList, List.getElem?_map, List.getElem?_range him]

theorem quietDiag_iff {dir : Fin nd → Int} (hd : IsDir dir) :
    QuietDiag st a.rl (N st.root p dir) ↔ ∀ q b, get q st.root = some b → Exists st q → Borders a b dir → b.rl < a.rl := by
  constructor
  · intro hq q b h1 h2 h3
    obtain ⟨b', hb', hl⟩ := h2.leaf h
    rw [h1, Option.some.injEq] at hb'; subst hb'
    rw [rl_length h h1]
    exact hq q ((N_mem h ha hd q).2 ⟨b, h1, hl, h3⟩) ((exists_iff h q).2 h2)
  · intro hq q hm hx
    obtain ⟨b, h1, h2, h3⟩ := (N_mem h ha hd q).1 hm
    rw [← rl_length h h1]
    exact hq q b h1 ((exists_iff h q).1 hx) h3

end

/-- What the loops check at one element. -/
structure ReadyAt (away : Tree nd → (Fin nd → Int) → Bool) (st : St nd) (a : Tree nd) : Prop where
  faces : ∀ dir, IsDir dir → order dir = 1 → AllOrNone st a dir
  edges : nd = 3 → ∀ dir, IsDir dir → order dir = 2 → (∃ d, dir d ≠ 0 ∧ Exposed st a (faceOf dir d)) → AllOrNone st a dir ∨
    ∀ d, dir d ≠ 0 → Exposed st a (faceOf dir d)
  diag : ∀ dir, IsDir dir → (order dir = 2 ∨ order dir = 3) → (∀ d, dir d ≠ 0 → Exposed st a (faceOf dir d)) →
    ∀ q b, get q st.root = some b → Exists st q → Borders a b dir → b.rl < a.rl
  facing : ∀ dir, IsDir dir → (order dir = 1 ∨ order dir = 2 ∨ order dir = 3) → (∀ d, dir d ≠ 0 → Exposed st a (faceOf dir d)) → away a dir = false

theorem mem_evalDirs {ex : List Bool} {dir : Fin nd → Int} : dir ∈ evalDirs nd ex ↔
    ∃ i < 2 * nd, isExp ex i = true ∧ (dir = direction nd i ∨ ∃ j < 2 * (i / 2), isExp ex j = true ∧
      (dir = withFace (direction nd i) j ∨ ∃ k < 2 * (j / 2), isExp ex k = true ∧ dir = withFace (withFace (direction nd i) j) k)) := by
  simp only [evalDirs, List.mem_flatMap, List.mem_filter, List.mem_range, List.mem_cons, List.mem_map]
  constructor
  · rintro ⟨i, ⟨h1, h2⟩, h3⟩
    refine ⟨i, h1, h2, ?_⟩
    rcases h3 with h3 | ⟨j, ⟨h4, h5⟩, h6⟩
    · exact .inl h3
    · refine .inr ⟨j, h4, h5, ?_⟩
      rcases h6 with h6 | ⟨k, ⟨h7, h8⟩, h9⟩
      · exact .inl h6
      · exact .inr ⟨k, h7, h8, h9.symm⟩
  · rintro ⟨i, h1, h2, h3⟩
    refine ⟨i, ⟨h1, h2⟩, ?_⟩
    rcases h3 with h3 | ⟨j, h4, h5, h6⟩
    · exact .inl h3
    · refine .inr ⟨j, ⟨h4, h5⟩, ?_⟩
      rcases h6 with h6 | ⟨k, h7, h8, h9⟩
      · exact .inl h6
      · exact .inr ⟨k, ⟨h7, h8⟩, h9.symm⟩

theorem sign_ne (b : Bool) : sign b ≠ 0 := by unfold sign; split <;> decide

/-- The directions of the loops, their dimensions and their faces. -/
theorem loop_one {i : Nat} (hi : i < 2 * nd) : order (direction nd i) = 1 ∧
    ∀ d, direction nd i d ≠ 0 → d.val = i / 2 ∧ faceOf (direction nd i) d = direction nd i := by
  have hm : ∀ d : Fin nd, direction nd i d ≠ 0 ↔ d.val = i / 2 := by
    intro d; simp only [direction]; split
    · rename_i hh; simp [sign_ne, hh]
    · rename_i hh; simp [hh]
  constructor
  · unfold order
    rw [Finset.card_eq_one]
    refine ⟨⟨i / 2, by omega⟩, ?_⟩
    ext d; simp only [Finset.mem_filter, Finset.mem_univ, true_and, Finset.mem_singleton, hm, Fin.ext_iff]
  · intro d hd
    refine ⟨(hm d).1 hd, ?_⟩
    funext x
    simp only [faceOf]
    split
    · rfl
    · rename_i hne
      by_contra hc
      exact hne (Fin.ext (((hm x).1 (fun h => hc h.symm)).trans ((hm d).1 hd).symm))

theorem loop_two {i j : Nat} (hi : i < 2 * nd) (hj : j < 2 * (i / 2)) : order (withFace (direction nd i) j) = 2 ∧
    ∀ d, withFace (direction nd i) j d ≠ 0 ↔ d.val = i / 2 ∨ d.val = j / 2 := by
  have hm : ∀ d : Fin nd, withFace (direction nd i) j d ≠ 0 ↔ d.val = i / 2 ∨ d.val = j / 2 := by
    intro d; simp only [withFace, direction]
    by_cases h1 : d.val = j / 2
    · simp [h1, sign_ne]
    · by_cases h2 : d.val = i / 2
      · simp [h1, h2, sign_ne, show ¬i / 2 = j / 2 by omega]
      · simp [h1, h2]
  refine ⟨?_, hm⟩
  unfold order
  rw [Finset.card_eq_two]
  refine ⟨⟨i / 2, by omega⟩, ⟨j / 2, by omega⟩, by simp only [ne_eq, Fin.mk.injEq]; omega, ?_⟩
  ext d; simp only [Finset.mem_filter, Finset.mem_univ, true_and, Finset.mem_insert, Finset.mem_singleton, hm, Fin.ext_iff]

theorem loop_three {i j k : Nat} (hi : i < 2 * nd) (hj : j < 2 * (i / 2)) (hk : k < 2 * (j / 2)) :
    order (withFace (withFace (direction nd i) j) k) = 3 ∧
    ∀ d, withFace (withFace (direction nd i) j) k d ≠ 0 ↔ d.val = i / 2 ∨ d.val = j / 2 ∨ d.val = k / 2 := by
  have hm : ∀ d : Fin nd, withFace (withFace (direction nd i) j) k d ≠ 0 ↔ d.val = i / 2 ∨ d.val = j / 2 ∨ d.val = k / 2 := by
    intro d
    have h2 := (loop_two hi hj).2 d
    by_cases h1 : d.val = k / 2
    · simp [withFace, h1, sign_ne]
    · have : withFace (withFace (direction nd i) j) k d = withFace (direction nd i) j d := by
        show (if d.val = k / 2 then _ else _) = _
        rw [if_neg h1]
      rw [this, h2]; tauto
  refine ⟨?_, hm⟩
  unfold order
  rw [Finset.card_eq_three]
  refine ⟨⟨i / 2, by omega⟩, ⟨j / 2, by omega⟩, ⟨k / 2, by omega⟩, by simp only [ne_eq, Fin.mk.injEq]; omega, by simp only [ne_eq, Fin.mk.injEq]; omega,
    by simp only [ne_eq, Fin.mk.injEq]; omega, ?_⟩
  ext d; simp only [Finset.mem_filter, Finset.mem_univ, true_and, Finset.mem_insert, Finset.mem_singleton, hm, Fin.ext_iff]

/-- The face of a loop direction in a dimension. -/
theorem faceOf_loop {dir : Fin nd → Int} {m : Nat} {d : Fin nd} (hd : d.val = m / 2) (hv : dir d = sign (m % 2 == 1)) : faceOf dir d = direction nd m := by
  funext x
  simp only [faceOf, direction]
  by_cases hx : x = d
  · subst hx; rw [if_pos rfl, if_pos hd, hv]
  · rw [if_neg hx, if_neg (fun h => hx (Fin.ext (h.trans hd.symm)))]

theorem quiet_iff (away : Tree nd → (Fin nd → Int) → Bool) {st : St nd} (h : Consistent st) {p : Path} {a : Tree nd} (ha : get p st.root = some a) :
    Quiet away st p a ↔ ReadyAt away st a := by
  -- exposed faces of loop directions
  have E1 : ∀ i m, i < m → (isExp (expList st p m) i = true ↔ Exposed st a (direction nd i)) := fun i m him => isExp_iff h ha him
  have F2 : ∀ i j, i < 2 * nd → j < 2 * (i / 2) → ∀ d, withFace (direction nd i) j d ≠ 0 →
      (faceOf (withFace (direction nd i) j) d = direction nd i ∨ faceOf (withFace (direction nd i) j) d = direction nd j) := by
    intro i j hi hj d hd
    by_cases hdj : d.val = j / 2
    · exact .inr (faceOf_loop hdj (by simp [withFace, hdj]))
    · have hdi : d.val = i / 2 := by rcases ((loop_two hi hj).2 d).1 hd with h | h; exacts [h, absurd h hdj]
      exact .inl (faceOf_loop hdi (by simp [withFace, direction, hdi, show ¬i / 2 = j / 2 by omega]))
  have F3 : ∀ i j k, i < 2 * nd → j < 2 * (i / 2) → k < 2 * (j / 2) → ∀ d, withFace (withFace (direction nd i) j) k d ≠ 0 →
      (faceOf (withFace (withFace (direction nd i) j) k) d = direction nd i ∨ faceOf (withFace (withFace (direction nd i) j) k) d = direction nd j ∨
       faceOf (withFace (withFace (direction nd i) j) k) d = direction nd k) := by
    intro i j k hi hj hk d hd
    by_cases hdk : d.val = k / 2
    · exact .inr (.inr (faceOf_loop hdk (by simp [withFace, hdk])))
    · by_cases hdj : d.val = j / 2
      · exact .inr (.inl (faceOf_loop hdj (by simp [withFace, hdj, show ¬j / 2 = k / 2 by omega])))
      · have hdi : d.val = i / 2 := by
          rcases ((loop_three hi hj hk).2 d).1 hd with h | h | h
          exacts [h, absurd h hdj, absurd h hdk]
        exact .inl (faceOf_loop hdi (by simp [withFace, direction, hdi, show ¬i / 2 = j / 2 by omega, show ¬i / 2 = k / 2 by omega]))
  have G2 : ∀ i j, (hi : i < 2 * nd) → (hj : j < 2 * (i / 2)) → faceOf (withFace (direction nd i) j) ⟨j / 2, by omega⟩ = direction nd j ∧
      faceOf (withFace (direction nd i) j) ⟨i / 2, by omega⟩ = direction nd i := by
    intro i j hi hj
    exact ⟨faceOf_loop rfl (by simp [withFace]), faceOf_loop rfl (by simp [withFace, direction, show ¬i / 2 = j / 2 by omega])⟩
  constructor
  · intro hq
    refine ⟨?_, ?_, ?_, ?_⟩
    · intro dir hd ho
      obtain ⟨i, hi, rfl, -⟩ := dir_one hd ho
      exact (partly_iff h ha hd).1 (hq.1 i hi).1
    · rintro h3 dir hd ho ⟨d0, hd0, hexp⟩
      obtain ⟨d, e, hlt, h1, h2, hx⟩ := dir_two hd ho
      have hlt2 := faceNo_lt2 dir hlt
      have hdirE : withFace (direction nd (faceNo dir d)) (faceNo dir e) = dir := by
        rw [withFace_faceNo hd h2, dir_faceNo hd h1]
        funext x
        by_cases hxe : x = e
        · simp [hxe]
        · by_cases hxd : x = d
          · simp [hxd, faceOf]
          · simp only [hxe, if_false, faceOf, hxd]
            by_contra hc
            rcases hx x (fun h => hc h.symm) with h | h
            · exact hxd h
            · exact hxe h
      obtain ⟨-, hj⟩ := hq.1 (faceNo dir d) (faceNo_lt dir d)
      obtain ⟨-, hj⟩ := hj (faceNo dir e) hlt2
      rw [hdirE] at hj
      have e1 := E1 (faceNo dir d) (faceNo dir d + 1) (by omega)
      have e2 := E1 (faceNo dir e) (faceNo dir d + 1) (by omega)
      rw [dir_faceNo hd h1] at e1
      rw [dir_faceNo hd h2] at e2
      by_cases heq : isExp (expList st p (faceNo dir d + 1)) (faceNo dir d) = isExp (expList st p (faceNo dir d + 1)) (faceNo dir e)
      · right
        intro x hxx
        have hboth : Exposed st a (faceOf dir d) ∧ Exposed st a (faceOf dir e) := by
          rcases hx d0 hd0 with rfl | rfl
          · exact ⟨hexp, e2.1 (by rw [← heq]; exact e1.2 hexp)⟩
          · exact ⟨e1.1 (by rw [heq]; exact e2.2 hexp), hexp⟩
        rcases hx x hxx with rfl | rfl
        · exact hboth.1
        · exact hboth.2
      · exact .inl ((partly_iff h ha hd).1 (hj heq h3))
    · intro dir hd ho hexp
      rcases ho with ho | ho
      · obtain ⟨d, e, hlt, h1, h2, hx⟩ := dir_two hd ho
        have hlt2 := faceNo_lt2 dir hlt
        have hdirE : withFace (direction nd (faceNo dir d)) (faceNo dir e) = dir := by
          rw [withFace_faceNo hd h2, dir_faceNo hd h1]
          funext x
          by_cases hxe : x = e
          · simp [hxe]
          · by_cases hxd : x = d
            · simp [hxd, faceOf]
            · simp only [hxe, if_false, faceOf, hxd]
              by_contra hc
              rcases hx x (fun h => hc h.symm) with h | h
              · exact hxd h
              · exact hxe h
        obtain ⟨-, hj⟩ := hq.1 (faceNo dir d) (faceNo_lt dir d)
        obtain ⟨hj, -⟩ := hj (faceNo dir e) hlt2
        rw [hdirE] at hj
        have e1 := E1 (faceNo dir d) (faceNo dir d + 1) (by omega)
        have e2 := E1 (faceNo dir e) (faceNo dir d + 1) (by omega)
        rw [dir_faceNo hd h1] at e1
        rw [dir_faceNo hd h2] at e2
        exact (quietDiag_iff h ha hd).1 (hj (e1.2 (hexp d h1)) (e2.2 (hexp e h2))).1
      · obtain ⟨d, e, f, hlt, hlt', h1, h2, h3, hx⟩ := dir_three hd ho
        have hltA := faceNo_lt2 dir hlt'
        have hltB := faceNo_lt2 dir hlt
        have hdirE : withFace (withFace (direction nd (faceNo dir d)) (faceNo dir e)) (faceNo dir f) = dir := by
          rw [withFace_faceNo hd h3, withFace_faceNo hd h2, dir_faceNo hd h1]
          funext x
          by_cases hxf : x = f
          · simp [hxf]
          · by_cases hxe : x = e
            · simp [hxe]
            · by_cases hxd : x = d
              · simp [hxd, faceOf]
              · simp only [hxe, hxf, if_false, faceOf, hxd]
                by_contra hc
                rcases hx x (fun h => hc h.symm) with h | h | h
                · exact hxd h
                · exact hxe h
                · exact hxf h
        obtain ⟨-, hj⟩ := hq.1 (faceNo dir d) (faceNo_lt dir d)
        obtain ⟨hj, -⟩ := hj (faceNo dir e) hltA
        have e1 := E1 (faceNo dir d) (faceNo dir d + 1) (by omega)
        have e2 := E1 (faceNo dir e) (faceNo dir d + 1) (by omega)
        have e3 := E1 (faceNo dir f) (faceNo dir d + 1) (by omega)
        rw [dir_faceNo hd h1] at e1
        rw [dir_faceNo hd h2] at e2
        rw [dir_faceNo hd h3] at e3
        have := (hj (e1.2 (hexp d h1)) (e2.2 (hexp e h2))).2 (faceNo dir f) (by simpa using hltB) (e3.2 (hexp f h3))
        rw [hdirE] at this
        exact (quietDiag_iff h ha hd).1 this
    · intro dir hd ho hexp
      have hmem : dir ∈ evalDirs nd (expList st p (2 * nd)) := by
        rw [mem_evalDirs]
        rcases ho with ho | ho | ho
        · obtain ⟨i, hi, hdi, d, hd0, -⟩ := dir_one hd ho
          refine ⟨i, hi, (E1 i _ hi).2 ?_, .inl hdi⟩
          have hdd : direction nd i d ≠ 0 := by rw [← hdi]; exact hd0
          have := hexp d hd0
          rw [hdi, ((loop_one hi).2 d hdd).2] at this
          exact this
        · obtain ⟨d, e, hlt, h1, h2, hx⟩ := dir_two hd ho
          have hlt2 := faceNo_lt2 dir hlt
          refine ⟨faceNo dir d, faceNo_lt dir d, (E1 _ _ (faceNo_lt dir d)).2 (by rw [dir_faceNo hd h1]; exact hexp d h1), .inr ⟨faceNo dir e, hlt2,
            (E1 _ _ (faceNo_lt dir e)).2 (by rw [dir_faceNo hd h2]; exact hexp e h2), .inl ?_⟩⟩
          rw [withFace_faceNo hd h2, dir_faceNo hd h1]
          funext x
          by_cases hxe : x = e
          · simp [hxe]
          · by_cases hxd : x = d
            · simp [hxd, faceOf]
            · simp only [hxe, if_false, faceOf, hxd]
              by_contra hc
              rcases hx x hc with h | h
              · exact hxd h
              · exact hxe h
        · obtain ⟨d, e, f, hlt, hlt', h1, h2, h3, hx⟩ := dir_three hd ho
          have hltA := faceNo_lt2 dir hlt'
          have hltB := faceNo_lt2 dir hlt
          refine ⟨faceNo dir d, faceNo_lt dir d, (E1 _ _ (faceNo_lt dir d)).2 (by rw [dir_faceNo hd h1]; exact hexp d h1), .inr ⟨faceNo dir e, hltA,
            (E1 _ _ (faceNo_lt dir e)).2 (by rw [dir_faceNo hd h2]; exact hexp e h2), .inr ⟨faceNo dir f, hltB,
            (E1 _ _ (faceNo_lt dir f)).2 (by rw [dir_faceNo hd h3]; exact hexp f h3), ?_⟩⟩⟩
          rw [withFace_faceNo hd h3, withFace_faceNo hd h2, dir_faceNo hd h1]
          funext x
          by_cases hxf : x = f
          · simp [hxf]
          · by_cases hxe : x = e
            · simp [hxe]
            · by_cases hxd : x = d
              · simp [hxd, faceOf]
              · simp only [hxe, hxf, if_false, faceOf, hxd]
                by_contra hc
                rcases hx x hc with h | h | h
                · exact hxd h
                · exact hxe h
                · exact hxf h
      have := hq.2
      rw [List.any_eq_false] at this
      simpa using this dir hmem
  · intro hr
    refine ⟨fun i hi => ⟨?_, fun j hj => ⟨fun hei hej => ⟨?_, fun k hk hek => ?_⟩, fun hne h3 => ?_⟩⟩, ?_⟩
    · exact (partly_iff h ha (isDir_direction i)).2 (hr.faces _ (isDir_direction i) (loop_one hi).1)
    · have xi := (E1 i (i + 1) (by omega)).1 hei
      have xj := (E1 j (i + 1) (by omega)).1 hej
      refine (quietDiag_iff h ha (isDir_withFace (isDir_direction i) j)).2 (hr.diag _ (isDir_withFace (isDir_direction i) j) (.inl (loop_two hi hj).1) ?_)
      intro d hd
      rcases F2 i j hi hj d hd with h | h
      · rw [h]; exact xi
      · rw [h]; exact xj
    · have hk : k < 2 * (j / 2) := by simpa using hk
      have xi := (E1 i (i + 1) (by omega)).1 hei
      have xj := (E1 j (i + 1) (by omega)).1 hej
      have xk := (E1 k (i + 1) (by omega)).1 hek
      have hdd := isDir_withFace (isDir_withFace (isDir_direction (nd := nd) i) j) k
      refine (quietDiag_iff h ha hdd).2 (hr.diag _ hdd (.inr (loop_three hi hj hk).1) ?_)
      intro d hd
      rcases F3 i j k hi hj hk d hd with h | h | h
      · rw [h]; exact xi
      · rw [h]; exact xj
      · rw [h]; exact xk
    · have hdd := isDir_withFace (isDir_direction (nd := nd) i) j
      have e1 := E1 i (i + 1) (by omega)
      have e2 := E1 j (i + 1) (by omega)
      obtain ⟨gj, gi⟩ := G2 i j hi hj
      have nzi : withFace (direction nd i) j ⟨i / 2, by omega⟩ ≠ 0 := ((loop_two hi hj).2 _).2 (.inl rfl)
      have nzj : withFace (direction nd i) j ⟨j / 2, by omega⟩ ≠ 0 := ((loop_two hi hj).2 _).2 (.inr rfl)
      have hone : ∃ d, withFace (direction nd i) j d ≠ 0 ∧ Exposed st a (faceOf (withFace (direction nd i) j) d) := by
        by_cases hei : isExp (expList st p (i + 1)) i = true
        · exact ⟨_, nzi, by rw [gi]; exact e1.1 hei⟩
        · refine ⟨_, nzj, ?_⟩
          rw [gj]
          refine e2.1 ?_
          rw [Bool.not_eq_true] at hei
          rw [hei] at hne
          cases hh : isExp (expList st p (i + 1)) j with
          | true => rfl
          | false => rw [hh] at hne; exact absurd rfl hne
      rcases hr.edges h3 _ hdd (loop_two hi hj).1 hone with hh | hh
      · exact (partly_iff h ha hdd).2 hh
      · exfalso
        have q1 := e1.2 (by rw [← gi]; exact hh _ nzi)
        have q2 := e2.2 (by rw [← gj]; exact hh _ nzj)
        rw [q1, q2] at hne; exact hne rfl
    · rw [List.any_eq_false]
      intro dir hdir
      rw [Bool.not_eq_true]
      obtain ⟨i, hi, xi, hc⟩ := mem_evalDirs.1 hdir
      have xi := (E1 i _ hi).1 xi
      rcases hc with rfl | ⟨j, hj, xj, hc⟩
      · refine hr.facing _ (isDir_direction i) (.inl (loop_one hi).1) fun d hd => ?_
        rw [((loop_one hi).2 d hd).2]; exact xi
      · have xj := (E1 j _ (by omega)).1 xj
        rcases hc with rfl | ⟨k, hk, xk, rfl⟩
        · refine hr.facing _ (isDir_withFace (isDir_direction i) j) (.inr (.inl (loop_two hi hj).1)) fun d hd => ?_
          rcases F2 i j hi hj d hd with h | h
          · rw [h]; exact xi
          · rw [h]; exact xj
        · have xk := (E1 k _ (by omega)).1 xk
          refine hr.facing _ (isDir_withFace (isDir_withFace (isDir_direction i) j) k) (.inr (.inr (loop_three hi hj hk).1)) fun d hd => ?_
          rcases F3 i j k hi hj hk d hd with h | h | h
          · rw [h]; exact xi
          · rw [h]; exact xj
          · rw [h]; exact xk

end Hexed.Adapt
