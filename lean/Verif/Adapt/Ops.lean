import Verif.Adapt.Shape

set_option autoImplicit false
set_option linter.unusedVariables false

namespace Hexed.Adapt
open Hexed.Tree (Path get modify refineNode unrefineNode setStatusNode findNeighbors findNeighbor IsDir Borders IsLeafAt Reachable RootWF)

variable {nd : Nat}

theorem all_trees (st : St nd) : st.all.filterMap (·.tree) = ((st.els false).map (·.tree) ++ (st.els true).map (·.tree)).filterMap id := by
  simp [St.all, List.filterMap_map]

/-- Changing records. -/
theorem Consistent.update {st st' : St nd} (h : Consistent st) (hr : st'.root = st.root)
    (hmap : ∀ d, (st'.els d).map (·.tree) = (st.els d).map (·.tree))
    (hrec : ∀ (d : Bool) (i : Nat) (e e' : El), (st.els d)[i]? = some e → (st'.els d)[i]? = some e' → e'.record ≠ 2 → e.record ≠ 2) : Consistent st' := by
  have key : ∀ d, ∀ e' ∈ st'.els d, ∃ e ∈ st.els d, e.tree = e'.tree ∧ (e'.record ≠ 2 → e.record ≠ 2) := by
    intro d e' he'
    obtain ⟨i, hi⟩ := List.mem_iff_getElem?.1 he'
    have := congrArg (fun l => l[i]?) (hmap d)
    simp only [List.getElem?_map, hi, Option.map_some] at this
    cases hi' : (st.els d)[i]? with
    | none => rw [hi'] at this; simp at this
    | some e =>
      rw [hi'] at this
      simp only [Option.map_some, Option.some.injEq] at this
      exact ⟨e, List.mem_of_getElem? hi', this.symm, hrec d i e e' hi' hi⟩
  refine ⟨by rw [hr]; exact h.reach, ?_, ?_, ?_⟩
  · intro d e' he' p hp
    obtain ⟨e, h1, h2, h3⟩ := key d e' he'
    rw [hr]; exact h.valid d e h1 p (by rw [h2]; exact hp)
  · rw [all_trees, hmap, hmap, ← all_trees]; exact h.uniq
  · intro d e' he' p hp hne
    obtain ⟨e, h1, h2, h3⟩ := key d e' he'
    rw [hr]; exact h.leaf d e h1 p (by rw [h2]; exact hp) (h3 hne)

theorem setAt_map (st : St nd) (p : Path) (v : Int) (d : Bool) : ((setAt st p v).els d).map (·.tree) = (st.els d).map (·.tree) := by
  simp only [setAt, List.map_map]
  apply List.map_congr_left
  intro e _
  simp only [Function.comp]; split <;> rfl

theorem setRec_map (st : St nd) (h : Bool × Nat) (v : Int) (d : Bool) : ((setRec st h v).els d).map (·.tree) = (st.els d).map (·.tree) := by
  simp only [setRec]
  split
  · apply List.ext_getElem?
    intro i
    rw [List.getElem?_map, List.getElem?_map, List.getElem?_modify]
    cases (st.els d)[i]? with
    | none => rfl
    | some e => simp only [Option.map_eq_map, Option.map_some]; split <;> rfl
  · rfl

theorem setAt_two {st : St nd} (h : Consistent st) (p : Path) : Consistent (setAt st p 2) := by
  refine h.update rfl (setAt_map st p 2) ?_
  intro d i e e' h1 h2 hne
  simp only [setAt, List.getElem?_map, h1, Option.map_some, Option.some.injEq] at h2
  subst h2
  split at hne
  · simp at hne
  · exact hne

theorem setRec_two {st : St nd} (h : Consistent st) (x : Bool × Nat) : Consistent (setRec st x 2) := by
  refine h.update rfl (setRec_map st x 2) ?_
  intro d i e e' h1 h2 hne
  simp only [setRec] at h2
  split at h2
  · rw [List.getElem?_modify, h1] at h2
    simp only [Option.map_eq_map, Option.map_some, Option.some.injEq] at h2
    subst h2
    split at hne
    · simp at hne
    · exact hne
  · rw [h1] at h2; simp only [Option.some.injEq] at h2; subst h2; exact hne

theorem setAt_exists (st : St nd) (p q : Path) : Exists (setAt st p 2) q ↔ Exists st q ∧ q ≠ p := by
  simp only [Exists, setAt, List.mem_map]
  constructor
  · rintro ⟨d, e', ⟨e, he, rfl⟩, ht, hr⟩
    split at ht
    · rename_i hh; rw [if_pos hh] at hr; simp at hr
    · rename_i hh
      rw [if_neg hh] at hr
      exact ⟨⟨d, e, he, ht, hr⟩, by rintro rfl; simp [ht] at hh⟩
  · rintro ⟨⟨d, e, he, ht, hr⟩, hne⟩
    refine ⟨d, e, ⟨e, he, ?_⟩, ht, hr⟩
    rw [if_neg]; simp [ht, hne]

theorem killAll_ok {st : St nd} (h : Consistent st) (l : List Path) : Consistent (killAll st l) ∧ (killAll st l).root = st.root ∧
    (∀ d, ((killAll st l).els d).map (·.tree) = (st.els d).map (·.tree)) ∧ ∀ q, Exists (killAll st l) q ↔ Exists st q ∧ q ∉ l := by
  induction l generalizing st with
  | nil => exact ⟨h, rfl, fun _ => rfl, by simp [killAll]⟩
  | cons c l ih =>
    obtain ⟨h1, h2, h3, h4⟩ := ih (setAt_two h c)
    have e : killAll st (c :: l) = killAll (setAt st c 2) l := rfl
    rw [e]
    refine ⟨h1, h2, fun d => (h3 d).trans (setAt_map st c 2 d), fun q => ?_⟩
    rw [h4, setAt_exists]; simp only [List.mem_cons, not_or, and_assoc]

theorem setRec_exists {st : St nd} (h : Consistent st) {d : Bool} {i : Nat} {e : El} {p : Path} (hi : (st.els d)[i]? = some e)
    (ht : e.tree = some p) (q : Path) : Exists (setRec st (d, i) 2) q ↔ Exists st q ∧ q ≠ p := by
  constructor
  · rintro ⟨d', e', he', ht', hr'⟩
    obtain ⟨j, hj⟩ := List.mem_iff_getElem?.1 he'
    simp only [setRec] at hj
    split at hj
    · rename_i hd
      rw [List.getElem?_modify] at hj
      cases hj' : (st.els d')[j]? with
      | none => rw [hj'] at hj; simp at hj
      | some x =>
        rw [hj'] at hj
        simp only [Option.map_eq_map, Option.map_some, Option.some.injEq] at hj
        split at hj
        · subst hj; simp at hr'
        · rename_i hij
          subst hj
          refine ⟨⟨d', x, List.mem_of_getElem? hj', ht', hr'⟩, ?_⟩
          rintro rfl
          -- the tree pointers would not be unique
          have hd : d' = d := hd
          subst hd
          have hne : i ≠ j := hij
          have hu : ((st.els d').filterMap (·.tree)).Nodup := by
            have := h.uniq
            rw [St.all, List.filterMap_append] at this
            cases d'
            · exact (List.nodup_append.1 this).1
            · exact (List.nodup_append.1 this).2.1
          exact hne (filterMap_index_unique hu hi hj' ht ht')
    · rename_i hd
      refine ⟨⟨d', e', List.mem_of_getElem? hj, ht', hr'⟩, ?_⟩
      rintro rfl
      have h1 := List.mem_of_getElem? hj
      have h2 := List.mem_of_getElem? hi
      have hu := h.uniq
      rw [St.all, List.filterMap_append, List.nodup_append] at hu
      have m1 : q ∈ (st.els d').filterMap (·.tree) := List.mem_filterMap.2 ⟨e', h1, ht'⟩
      have m2 : q ∈ (st.els d).filterMap (·.tree) := List.mem_filterMap.2 ⟨e, h2, ht⟩
      cases d <;> cases d'
      · exact hd rfl
      · exact hu.2.2 q m2 q m1 rfl
      · exact hu.2.2 q m1 q m2 rfl
      · exact hd rfl
  · rintro ⟨⟨d', e', he', ht', hr'⟩, hne⟩
    obtain ⟨j, hj⟩ := List.mem_iff_getElem?.1 he'
    refine ⟨d', e', ?_, ht', hr'⟩
    simp only [setRec]
    split
    · rename_i hd
      apply List.mem_iff_getElem?.2
      refine ⟨j, ?_⟩
      rw [List.getElem?_modify, hj]
      simp only [Option.map_eq_map, Option.map_some]
      rw [if_neg]
      rintro rfl
      have hd : d' = d := hd
      subst hd
      rw [hi] at hj
      simp only [Option.some.injEq] at hj
      subst hj
      rw [ht] at ht'
      simp only [Option.some.injEq] at ht'
      exact hne ht'.symm
    · exact he'
where
  filterMap_index_unique : ∀ {l : List El} {i j : Nat} {e e' : El} {p : Path}, (l.filterMap (·.tree)).Nodup → l[i]? = some e → l[j]? = some e' →
      e.tree = some p → e'.tree = some p → i = j := by
    intro l
    induction l with
    | nil => intro i j e e' p _ h; simp at h
    | cons a l ih =>
      intro i j e e' p hn hi hj ht ht'
      have hmem : ∀ x ∈ l, x.tree = some p → p ∈ l.filterMap (·.tree) := fun x hx hxt => List.mem_filterMap.2 ⟨x, hx, hxt⟩
      rw [List.filterMap_cons] at hn
      cases i with
      | zero =>
        cases j with
        | zero => rfl
        | succ j =>
          simp only [List.getElem?_cons_zero, Option.some.injEq, List.getElem?_cons_succ] at hi hj
          rw [hi, ht] at hn
          exact absurd (hmem _ (List.mem_of_getElem? hj) ht') (List.nodup_cons.1 hn).1
      | succ i =>
        cases j with
        | zero =>
          simp only [List.getElem?_cons_zero, Option.some.injEq, List.getElem?_cons_succ] at hi hj
          rw [hj, ht'] at hn
          exact absurd (hmem _ (List.mem_of_getElem? hi) ht) (List.nodup_cons.1 hn).1
        | succ j =>
          simp only [List.getElem?_cons_succ] at hi hj
          have hn' : (l.filterMap (·.tree)).Nodup := by
            split at hn
            · exact hn
            · exact (List.nodup_cons.1 hn).2
          rw [ih hn' hi hj ht ht']

/-- Replacing the tree. -/
theorem Consistent.reroot {st : St nd} (h : Consistent st) {t : Tree nd} (ht : Reachable t) (hp : ∀ q, Present st.root q → Present t q)
    (hl : ∀ q, Exists st q → IsLeafAt t q) : Consistent { st with root := t } :=
  ⟨ht, fun d e he p hpe => hp p (h.valid d e he p hpe), h.uniq, fun d e he p hpe hr => hl p ⟨d, e, he, hpe, hr⟩⟩

theorem filterMap_clear (p : Path) (l : List El) :
    (l.map fun e => if e.tree == some p then { e with tree := none } else e).filterMap (·.tree) = (l.filterMap (·.tree)).filter (· ≠ p) := by
  induction l with
  | nil => rfl
  | cons a l ih =>
    simp only [List.map_cons, List.filterMap_cons]
    by_cases h : a.tree = some p
    · rw [if_pos (by simp [h]), h, List.filter_cons_of_neg (by simp)]; exact ih
    · have : (a.tree == some p) = false := by simpa using h
      simp only [this, Bool.false_eq_true, if_false]
      cases ht : a.tree with
      | none => simpa using ih
      | some q =>
        have : q ≠ p := by rintro rfl; exact h ht
        rw [List.filter_cons_of_pos (by simpa using this)]; simp only [ht]; rw [ih]

theorem addElem_mem {st : St nd} {d d' : Bool} {p : Path} {e : El} : e ∈ (addElem st d p).els d' ↔
    (∃ x ∈ st.els d', e = if x.tree == some p then { x with tree := none } else x) ∨ (d' = d ∧ e = ⟨some p, 0, false⟩) := by
  simp only [addElem]
  split
  · rename_i h
    simp only [List.mem_append, List.mem_map, List.mem_singleton, h, true_and]
    constructor
    · rintro (⟨x, hx, rfl⟩ | hx)
      · exact .inl ⟨x, hx, rfl⟩
      · exact .inr hx
    · rintro (⟨x, hx, rfl⟩ | hx)
      · exact .inl ⟨x, hx, rfl⟩
      · exact .inr hx
  · rename_i h
    simp only [List.mem_map, h, false_and, or_false]
    constructor
    · rintro ⟨x, hx, rfl⟩; exact ⟨x, hx, rfl⟩
    · rintro ⟨x, hx, rfl⟩; exact ⟨x, hx, rfl⟩

theorem addElem_ok {st : St nd} (h : Consistent st) (d : Bool) {p : Path} (hp : IsLeafAt st.root p) :
    Consistent (addElem st d p) ∧ ∀ q, Exists (addElem st d p) q ↔ Exists st q ∨ q = p := by
  have hcases : ∀ d' e q, e ∈ (addElem st d p).els d' → e.tree = some q → (e ∈ st.els d' ∧ q ≠ p) ∨ (q = p ∧ e.record ≠ 2) := by
    intro d' e q he ht
    rcases addElem_mem.1 he with ⟨x, hx, rfl⟩ | ⟨-, rfl⟩
    · split at ht
      · simp at ht
      · rename_i hh
        rw [if_neg hh] at *
        exact .inl ⟨hx, by rintro rfl; simp [ht] at hh⟩
    · simp only [Option.some.injEq] at ht
      exact .inr ⟨ht.symm, by simp⟩
  refine ⟨⟨h.reach, ?_, ?_, ?_⟩, ?_⟩
  · intro d' e he q ht
    rcases hcases d' e q he ht with ⟨h1, -⟩ | ⟨rfl, -⟩
    · exact h.valid d' e h1 q ht
    · exact IsLeafAt.present hp
  · have : ((addElem st d p).all.filterMap (·.tree)).Perm ((st.all.filterMap (·.tree)).filter (· ≠ p) ++ [p]) := by
      cases d
      · simp only [St.all, addElem, if_true, if_neg (show ¬(true = false) by simp), List.filterMap_append, filterMap_clear, List.filter_append,
          List.append_assoc]
        refine List.Perm.append_left _ ?_
        exact List.perm_append_comm
      · simp only [St.all, addElem, if_true, if_neg (show ¬(false = true) by simp), List.filterMap_append, filterMap_clear, List.filter_append,
          List.append_assoc]
        exact List.Perm.refl _
    rw [this.nodup_iff, List.nodup_append]
    refine ⟨h.uniq.filter _, by simp, ?_⟩
    intro a ha b hb
    simp only [List.mem_singleton] at hb
    subst hb
    simpa using (List.mem_filter.1 ha).2
  · intro d' e he q ht hr
    rcases hcases d' e q he ht with ⟨h1, -⟩ | ⟨rfl, -⟩
    · exact h.leaf d' e h1 q ht hr
    · exact hp
  · intro q
    constructor
    · rintro ⟨d', e, he, ht, hr⟩
      rcases hcases d' e q he ht with ⟨h1, -⟩ | ⟨h1, -⟩
      · exact .inl ⟨d', e, h1, ht, hr⟩
      · exact .inr h1
    · intro hq
      by_cases hqp : q = p
      · subst hqp
        exact ⟨d, ⟨some q, 0, false⟩, addElem_mem.2 (.inr ⟨rfl, rfl⟩), rfl, by simp⟩
      · rcases hq with ⟨d', e, he, ht, hr⟩ | hq
        · refine ⟨d', e, addElem_mem.2 (.inl ⟨e, he, ?_⟩), ht, hr⟩
          rw [if_neg]; simp [ht, hqp]
        · exact absurd hq hqp

/-- If no element has the cell, adding one appends it. -/
theorem addElem_fresh {st : St nd} (d : Bool) {p : Path} (hp : ∀ d', ∀ e ∈ st.els d', e.tree ≠ some p) (d' : Bool) :
    (addElem st d p).els d' = if d' = d then st.els d' ++ [⟨some p, 0, false⟩] else st.els d' := by
  simp only [addElem]
  have : (st.els d').map (fun e => if e.tree == some p then { e with tree := none } else e) = st.els d' := by
    rw [List.map_congr_left (g := id), List.map_id]
    intro e he
    rw [if_neg]; · rfl
    simpa using hp d' e he
  rw [this]

/-- Deleting the cells below `parent`. -/
theorem collapse_ok {st : St nd} (h : Consistent st) {parent : Path} (hp : Present st.root parent) (cs : List Path) (hne : ¬Exists st parent) :
    Consistent (collapse st parent cs) ∧ (∀ q, Exists (collapse st parent cs) q ↔ Exists st q ∧ q ∉ cs ∧ ¬parent <+: q) ∧
    IsLeafAt (collapse st parent cs).root parent := by
  obtain ⟨k1, k2, k3, k4⟩ := killAll_ok h cs
  have hp' : Present (killAll st cs).root parent := by rw [k2]; exact hp
  obtain ⟨u1, u2⟩ := unrefine_step k1.reach hp'
  have hcases : ∀ d e q, e ∈ (collapse st parent cs).els d → e.tree = some q → e ∈ (killAll st cs).els d ∧ (parent <+: q → parent = q) := by
    intro d e q he ht
    simp only [collapse, List.mem_map] at he
    obtain ⟨x, hx, rfl⟩ := he
    split at ht
    · simp at ht
    · rename_i hh
      rw [if_neg hh] at *
      refine ⟨hx, fun hpre => ?_⟩
      rw [ht] at hh
      simp only [Option.any_some, Bool.and_eq_true, List.isPrefixOf_iff_prefix, bne_iff_ne, not_and, not_not] at hh
      exact hh hpre
  have hroot : (collapse st parent cs).root = modify unrefineNode parent (killAll st cs).root := rfl
  refine ⟨⟨u1, ?_, ?_, ?_⟩, ?_, ?_⟩
  · intro d e he q ht
    obtain ⟨h1, h2⟩ := hcases d e q he ht
    rw [hroot]
    exact (u2 q).1.2 ⟨k1.valid d e h1 q ht, h2⟩
  · have : (collapse st parent cs).all.filterMap (·.tree) =
        ((killAll st cs).all.filterMap (·.tree)).filter (fun q => !(parent.isPrefixOf q && parent != q)) := by
      simp only [St.all, collapse, List.filterMap_append, List.filter_append]
      congr 1 <;> exact filterMap_drop parent _
    rw [this]
    exact k1.uniq.filter _
  · intro d e he q ht hr
    obtain ⟨h1, h2⟩ := hcases d e q he ht
    rw [hroot]
    refine (u2 q).2.2 ?_
    by_cases hpre : parent <+: q
    · exact .inr (h2 hpre).symm
    · exact .inl ⟨k1.leaf d e h1 q ht hr, hpre⟩
  · intro q
    constructor
    · rintro ⟨d, e, he, ht, hr⟩
      obtain ⟨h1, h2⟩ := hcases d e q he ht
      have hx := (k4 q).1 ⟨d, e, h1, ht, hr⟩
      refine ⟨hx.1, hx.2, fun hpre => ?_⟩
      rw [← h2 hpre] at hx
      exact hne hx.1
    · rintro ⟨h1, h2, h3⟩
      obtain ⟨d, e, he, ht, hr⟩ := (k4 q).2 ⟨h1, h2⟩
      refine ⟨d, e, ?_, ht, hr⟩
      simp only [collapse, List.mem_map]
      refine ⟨e, he, ?_⟩
      rw [if_neg]
      rw [ht]
      simp only [Option.any_some, Bool.and_eq_true, List.isPrefixOf_iff_prefix, bne_iff_ne, not_and, not_not]
      intro hpre; exact absurd hpre h3
  · rw [hroot]; exact (u2 parent).2.2 (.inr rfl)
where
  filterMap_drop (parent : Path) : ∀ l : List El,
      (l.map fun e => if e.tree.any (fun q => parent.isPrefixOf q && parent != q) then { e with tree := none } else e).filterMap (·.tree) =
      (l.filterMap (·.tree)).filter (fun q => !(parent.isPrefixOf q && parent != q)) := by
    intro l
    induction l with
    | nil => rfl
    | cons a l ih =>
      simp only [List.map_cons, List.filterMap_cons]
      cases ht : a.tree with
      | none => simpa [ht] using ih
      | some q =>
        simp only [Option.any_some]
        by_cases hh : (parent.isPrefixOf q && parent != q) = true
        · rw [if_pos hh, List.filter_cons_of_neg (by rw [hh]; decide)]; exact ih
        · rw [if_neg hh, List.filter_cons_of_pos (by rw [Bool.not_eq_true] at hh; rw [hh]; rfl)]; simp only [ht]; rw [ih]

end Hexed.Adapt
