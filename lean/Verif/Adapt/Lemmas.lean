import Verif.Adapt.Spec
import Verif.Tree.Props

set_option autoImplicit false
set_option linter.unusedVariables false

namespace Hexed.Adapt
open Hexed.Tree (Path get modify refineNode unrefineNode setStatusNode findNeighbors findNeighbor IsDir Borders IsLeafAt Reachable RootWF)

variable {nd : Nat}

theorem mem_all {st : St nd} {e : El} : e ∈ st.all ↔ ∃ d, e ∈ st.els d := by
  simp only [St.all, List.mem_append]
  constructor
  · rintro (h | h)
    · exact ⟨_, h⟩
    · exact ⟨_, h⟩
  · rintro ⟨d, h⟩; cases d
    · exact .inl h
    · exact .inr h

theorem filterMap_unique : ∀ {l : List El} {e e' : El} {p : Path}, (l.filterMap (·.tree)).Nodup → e ∈ l → e' ∈ l → e.tree = some p →
    e'.tree = some p → e = e' := by
  intro l
  induction l with
  | nil => intro e e' p _ h; simp at h
  | cons a l ih =>
    intro e e' p hn he he' ht ht'
    have hmem : ∀ x ∈ l, x.tree = some p → p ∈ l.filterMap (·.tree) := fun x hx hxt => List.mem_filterMap.2 ⟨x, hx, hxt⟩
    rw [List.filterMap_cons] at hn
    rcases List.mem_cons.1 he with g | g <;> rcases List.mem_cons.1 he' with g' | g'
    · rw [g, g']
    · rw [← g, ht] at hn; exact absurd (hmem _ g' ht') (List.nodup_cons.1 hn).1
    · rw [← g', ht'] at hn; exact absurd (hmem _ g ht) (List.nodup_cons.1 hn).1
    · split at hn
      · exact ih hn g g' ht ht'
      · exact ih (List.nodup_cons.1 hn).2 g g' ht ht'

theorem Consistent.unique {st : St nd} (h : Consistent st) {e e' : El} {p : Path} (he : e ∈ st.all) (he' : e' ∈ st.all)
    (ht : e.tree = some p) (ht' : e'.tree = some p) : e = e' := filterMap_unique h.uniq he he' ht ht'

theorem recordAt_some {st : St nd} (h : Consistent st) {e : El} {p : Path} (he : e ∈ st.all) (ht : e.tree = some p) :
    recordAt st p = some e.record := by
  unfold recordAt
  cases hf : st.all.find? (fun e => e.tree == some p) with
  | none =>
    have := List.find?_eq_none.1 hf e he
    simp [ht] at this
  | some x =>
    have h1 := List.mem_of_find?_eq_some hf
    have h2 := List.find?_some hf
    simp only [beq_iff_eq] at h2
    rw [h.unique he h1 ht h2]; rfl

theorem recordAt_none {st : St nd} {p : Path} : recordAt st p = none ↔ ∀ e ∈ st.all, e.tree ≠ some p := by
  simp [recordAt]

theorem exists_iff {st : St nd} (h : Consistent st) (p : Path) : exists_ st p = true ↔ Exists st p := by
  unfold exists_ Exists
  constructor
  · intro hx
    cases hr : recordAt st p with
    | none => rw [hr] at hx; simp at hx
    | some r =>
      rw [hr] at hx
      have : recordAt st p ≠ none := by rw [hr]; simp
      rw [Ne, recordAt_none] at this
      push Not at this
      obtain ⟨e, he, ht⟩ := this
      rw [recordAt_some h he ht] at hr
      obtain ⟨d, hd⟩ := mem_all.1 he
      refine ⟨d, e, hd, ht, ?_⟩
      simp only [Option.some.injEq] at hr
      subst hr
      simpa using hx
  · rintro ⟨d, e, he, ht, hr⟩
    rw [recordAt_some h (mem_all.2 ⟨d, he⟩) ht]
    simpa using hr

theorem hasElem_iff {st : St nd} (p : Path) : hasElem st p = true ↔ ∃ e ∈ st.all, e.tree = some p := by
  unfold hasElem
  rw [Option.isSome_iff_ne_none, Ne, recordAt_none]
  push Not; rfl

theorem Exists.leaf {st : St nd} (h : Consistent st) {p : Path} (hp : Exists st p) : IsLeafAt st.root p := by
  obtain ⟨d, e, he, ht, hr⟩ := hp
  exact h.leaf d e he p ht hr

theorem rl_length {st : St nd} (h : Consistent st) {p : Path} {c : Tree nd} (hp : get p st.root = some c) : c.rl = p.length := by
  have := Tree.rl_get h.reach.root.wf hp
  rw [h.reach.root.rl0] at this; omega

theorem level_eq {st : St nd} (h : Consistent st) {p : Path} {c : Tree nd} (hp : get p st.root = some c) : level st p = some p.length := by
  simp [level, hp, rl_length h hp]

/-! ### Directions -/

theorem isDir_direction (i : Nat) : IsDir (direction nd i) := by
  intro d; unfold direction sign; split
  · split
    · exact .inr (.inr rfl)
    · exact .inl rfl
  · exact .inr (.inl rfl)

theorem isDir_withFace {dir : Fin nd → Int} (h : IsDir dir) (j : Nat) : IsDir (withFace dir j) := by
  intro d; unfold withFace sign; split
  · split
    · exact .inr (.inr rfl)
    · exact .inl rfl
  · exact h d

theorem isDir_refineDirs {b : Bool} {dir : Fin nd → Int} (h : dir ∈ refineDirs nd b) : IsDir dir := by
  simp only [refineDirs, List.mem_flatMap, List.mem_range, List.mem_cons] at h
  obtain ⟨i, hi, rfl | h⟩ := h
  · exact isDir_direction i
  · split at h
    · simp only [List.mem_map, List.mem_range] at h
      obtain ⟨j, hj, rfl⟩ := h
      exact isDir_withFace (isDir_direction i) j
    · simp at h

/-- The face number of a component. -/
def faceNo {nd : Nat} (dir : Fin nd → Int) (d : Fin nd) : Nat := 2 * d.val + (if dir d = 1 then 1 else 0)

theorem faceNo_div (dir : Fin nd → Int) (d : Fin nd) : faceNo dir d / 2 = d.val := by unfold faceNo; split <;> omega
theorem faceNo_sign {dir : Fin nd → Int} (h : IsDir dir) {d : Fin nd} (hd : dir d ≠ 0) : sign (faceNo dir d % 2 == 1) = dir d := by
  unfold faceNo sign
  rcases h d with h | h | h
  · rw [h]; norm_num
  · exact absurd h hd
  · rw [h]; norm_num

theorem mem_refineDirs {dir : Fin nd → Int} (h : FaceOrEdge dir) : dir ∈ refineDirs nd true := by
  obtain ⟨hd, d, e, hne, hz⟩ := h
  have single : ∀ d : Fin nd, dir d ≠ 0 → (∀ x, x ≠ d → dir x = 0) → dir ∈ refineDirs nd true := by
    intro d hne hz
    simp only [refineDirs, List.mem_flatMap, List.mem_range, List.mem_cons]
    refine ⟨faceNo dir d, ?_, .inl ?_⟩
    · have := faceNo_div dir d; have := d.isLt; omega
    · funext x
      simp only [direction, faceNo_div]
      by_cases hx : x = d
      · subst hx; rw [if_pos rfl, faceNo_sign hd hne]
      · rw [if_neg (fun h => hx (Fin.ext h)), hz x hx]
  have pair : ∀ d e : Fin nd, e.val < d.val → dir d ≠ 0 → dir e ≠ 0 → (∀ x, x ≠ d → x ≠ e → dir x = 0) → dir ∈ refineDirs nd true := by
    intro d e hlt h1 h2 hz
    simp only [refineDirs, List.mem_flatMap, List.mem_range, List.mem_cons, if_true, List.mem_map]
    refine ⟨faceNo dir d, ?_, .inr ⟨faceNo dir e, ?_, ?_⟩⟩
    · have := faceNo_div dir d; have := d.isLt; omega
    · have := faceNo_div dir d; have := faceNo_div dir e; omega
    · funext x
      simp only [direction, withFace, faceNo_div]
      by_cases hx : x = e
      · subst hx; rw [if_pos rfl, faceNo_sign hd h2]
      · rw [if_neg (fun h => hx (Fin.ext h))]
        by_cases hx' : x = d
        · subst hx'; rw [if_pos rfl, faceNo_sign hd h1]
        · rw [if_neg (fun h => hx' (Fin.ext h)), hz x hx' hx]
  by_cases he : dir e = 0 ∨ e = d
  · apply single d hne
    intro x hx
    by_cases hxe : x = e
    · subst hxe
      rcases he with he | he
      · exact he
      · exact absurd he hx
    · exact hz x hx hxe
  · push Not at he
    rcases Nat.lt_or_ge e.val d.val with hlt | hge
    · exact pair d e hlt hne he.1 hz
    · exact pair e d (lt_of_le_of_ne hge (fun h => he.2 (Fin.ext h.symm))) he.1 hne (fun x h1 h2 => hz x h2 h1)

theorem faceOrEdge_of_mem {dir : Fin nd → Int} {b : Bool} (h : dir ∈ refineDirs nd b) : FaceOrEdge dir := by
  refine ⟨isDir_refineDirs h, ?_⟩
  simp only [refineDirs, List.mem_flatMap, List.mem_range, List.mem_cons] at h
  obtain ⟨i, hi, rfl | h⟩ := h
  · refine ⟨⟨i / 2, by omega⟩, ⟨i / 2, by omega⟩, ?_, ?_⟩
    · simp only [direction, if_true, sign]; split <;> decide
    · intro x hx _
      simp only [direction]
      rw [if_neg (fun h => hx (Fin.ext h))]
  · split at h
    · simp only [List.mem_map, List.mem_range] at h
      obtain ⟨j, hj, rfl⟩ := h
      refine ⟨⟨i / 2, by omega⟩, ⟨j / 2, by omega⟩, ?_, ?_⟩
      · have : ¬(i / 2 = j / 2) := by omega
        simp only [withFace, direction, if_true, this, if_false, sign]; split <;> decide
      · intro x hx hx'
        simp only [withFace, direction]
        rw [if_neg (fun h => hx' (Fin.ext h)), if_neg (fun h => hx (Fin.ext h))]
    · simp at h

/-! ### `needs_refine` -/

theorem anyTooFine_eq {st : St nd} (h : Consistent st) {p : Path} {a : Tree nd} (hp : get p st.root = some a) (rl : Nat) :
    ∀ ds : List (Fin nd → Int), (∀ dir ∈ ds, IsDir dir) → ∃ r, anyTooFine st p rl ds = some r ∧
      (r = true ↔ ∃ dir ∈ ds, ∃ q b, get q st.root = some b ∧ b.children = [] ∧ Borders a b dir ∧ Exists st q ∧ b.rl > rl + 1) := by
  intro ds
  induction ds with
  | nil => intro _; exact ⟨false, rfl, by simp⟩
  | cons dir ds ih =>
    intro hd
    obtain ⟨r, hr, hiff⟩ := ih (fun x hx => hd x (by simp [hx]))
    obtain ⟨l, hl, -, hmem⟩ := Tree.find_neighbors_exact h.reach hp dir (hd dir (by simp))
    simp only [anyTooFine, hl, Option.bind_some]
    have key : l.any (tooFine st rl) = true ↔ ∃ q b, get q st.root = some b ∧ b.children = [] ∧ Borders a b dir ∧ Exists st q ∧ b.rl > rl + 1 := by
      rw [List.any_eq_true]
      constructor
      · rintro ⟨q, hq, ht⟩
        obtain ⟨b, h1, h2, h3⟩ := (hmem q).1 hq
        simp only [tooFine, Bool.and_eq_true, level, h1, Option.map_some, Option.any_some, decide_eq_true_eq, exists_iff h] at ht
        exact ⟨q, b, h1, h2, h3, ht.1, ht.2⟩
      · rintro ⟨q, b, h1, h2, h3, h4, h5⟩
        refine ⟨q, (hmem q).2 ⟨b, h1, h2, h3⟩, ?_⟩
        simp only [tooFine, Bool.and_eq_true, level, h1, Option.map_some, Option.any_some, decide_eq_true_eq, exists_iff h]
        exact ⟨h4, h5⟩
    by_cases hk : l.any (tooFine st rl) = true
    · rw [if_pos hk]
      exact ⟨true, rfl, by simp only [true_iff]; exact ⟨dir, by simp, key.1 hk⟩⟩
    · rw [if_neg hk]
      refine ⟨r, hr, hiff.trans ?_⟩
      constructor
      · rintro ⟨x, hx, hh⟩; exact ⟨x, by simp [hx], hh⟩
      · rintro ⟨x, hx, hh⟩
        rcases List.mem_cons.1 hx with rfl | hx
        · exact absurd (key.2 hh) hk
        · exact ⟨x, hx, hh⟩

theorem needsRefine_eq {st : St nd} (h : Consistent st) {p : Path} {a : Tree nd} (hp : get p st.root = some a) :
    ∃ r, needsRefine st p = some r ∧
      (r = true ↔ ∃ dir ∈ refineDirs nd (hasElem st p), ∃ q b, get q st.root = some b ∧ b.children = [] ∧ Borders a b dir ∧ Exists st q ∧
        b.rl > a.rl + 1) := by
  obtain ⟨r, h1, h2⟩ := anyTooFine_eq h hp a.rl (refineDirs nd (hasElem st p)) (fun d hd => isDir_refineDirs hd)
  exact ⟨r, by simp [needsRefine, level, hp, h1], h2⟩

theorem needsRefine_congr {st st' : St nd} (h : Consistent st) (h' : Consistent st') (hr : st'.root = st.root)
    (he : ∀ p, Exists st' p ↔ Exists st p) (hh : ∀ p, (∃ e ∈ st'.all, e.tree = some p) ↔ ∃ e ∈ st.all, e.tree = some p) (p : Path) :
    needsRefine st' p = needsRefine st p := by
  cases hp : get p st.root with
  | none => simp [needsRefine, level, hr, hp]
  | some a =>
    obtain ⟨r, h1, h2⟩ := needsRefine_eq h hp
    obtain ⟨r', h1', h2'⟩ := needsRefine_eq h' (p := p) (a := a) (by rw [hr]; exact hp)
    have e1 : hasElem st' p = hasElem st p := by
      rw [Bool.eq_iff_iff, hasElem_iff, hasElem_iff, hh]
    rw [h1, h1']
    congr 1
    rw [Bool.eq_iff_iff, h2, h2', e1]
    simp only [hr, he]

end Hexed.Adapt
