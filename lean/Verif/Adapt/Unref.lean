import Verif.Adapt.Smooth2

set_option autoImplicit false
set_option linter.unusedVariables false

/-! # Lemmas on unrefinement: the elements at a cell, and one step of the loop -/

namespace Hexed.Adapt
open Hexed.Tree (Path get modify refineNode unrefineNode setStatusNode findNeighbors findNeighbor IsDir Borders IsLeafAt Reachable)

variable {nd : Nat}

theorem exists_at {st : St nd} {p : Path} : Exists st p ↔ ∃ e, At st p e ∧ e.record ≠ 2 := by
  constructor
  · rintro ⟨d, e, he, ht, hr⟩; exact ⟨e, ⟨ht, d, he⟩, hr⟩
  · rintro ⟨e, ⟨ht, d, he⟩, hr⟩; exact ⟨d, e, he, ht, hr⟩

theorem At.unique {st : St nd} (h : Consistent st) {p : Path} {e e' : El} (h1 : At st p e) (h2 : At st p e') : e = e' :=
  h.unique (mem_all.2 h1.2) (mem_all.2 h2.2) h1.1 h2.1

theorem At.index {st : St nd} (h : Consistent st) {p : Path} {e x : El} {d d' : Bool} {i j : Nat} (hi : (st.els d)[i]? = some e)
    (ht : e.tree = some p) (hj : (st.els d')[j]? = some x) (ht' : x.tree = some p) : d = d' ∧ i = j := by
  have hu := h.uniq
  rw [St.all, List.filterMap_append, List.nodup_append] at hu
  have m1 : p ∈ (st.els d).filterMap (·.tree) := List.mem_filterMap.2 ⟨e, List.mem_of_getElem? hi, ht⟩
  have m2 : p ∈ (st.els d').filterMap (·.tree) := List.mem_filterMap.2 ⟨x, List.mem_of_getElem? hj, ht'⟩
  cases d <;> cases d'
  · exact ⟨rfl, setRec_exists.filterMap_index_unique hu.1 hi hj ht ht'⟩
  · exact absurd rfl (hu.2.2 p m1 p m2)
  · exact absurd rfl (hu.2.2 p m2 p m1)
  · exact ⟨rfl, setRec_exists.filterMap_index_unique hu.2.1 hi hj ht ht'⟩

theorem setRec_get (st : St nd) (d : Bool) (i : Nat) (v : Int) (d' : Bool) (j : Nat) : ((setRec st (d, i) v).els d')[j]? =
    ((st.els d')[j]?).map fun e => if d' = d ∧ j = i then { e with record := v } else e := by
  simp only [setRec]
  by_cases hd : d' = d
  · subst hd
    rw [if_pos rfl, List.getElem?_modify]
    cases (st.els d')[j]? with
    | none => rfl
    | some e =>
      by_cases hij : i = j
      · subst hij; simp
      · simp [hij, Ne.symm hij]
  · rw [if_neg hd]
    cases (st.els d')[j]? with
    | none => rfl
    | some e => simp [hd]

theorem setRec_at {st : St nd} (h : Consistent st) {d : Bool} {i : Nat} {e : El} {p : Path} (hi : (st.els d)[i]? = some e)
    (ht : e.tree = some p) (v : Int) (q : Path) (x : El) :
    At (setRec st (d, i) v) q x ↔ (q ≠ p ∧ At st q x) ∨ (q = p ∧ x = { e with record := v }) := by
  constructor
  · rintro ⟨hx, d', hm⟩
    obtain ⟨j, hj⟩ := List.mem_iff_getElem?.1 hm
    rw [setRec_get] at hj
    cases hg : (st.els d')[j]? with
    | none => rw [hg] at hj; simp at hj
    | some y =>
      rw [hg] at hj
      simp only [Option.map_some, Option.some.injEq] at hj
      by_cases hd : d' = d ∧ j = i
      · rw [if_pos hd] at hj
        obtain ⟨rfl, rfl⟩ := hd
        rw [hi] at hg
        simp only [Option.some.injEq] at hg
        subst hg; subst hj
        refine .inr ⟨?_, rfl⟩
        have : e.tree = some q := hx
        rw [ht] at this; simpa using this.symm
      · rw [if_neg hd] at hj
        subst hj
        refine .inl ⟨?_, hx, d', List.mem_of_getElem? hg⟩
        rintro rfl
        obtain ⟨h1, h2⟩ := At.index h hi ht hg hx
        exact hd ⟨h1.symm, h2.symm⟩
  · rintro (⟨hne, hx, d', hm⟩ | ⟨rfl, rfl⟩)
    · obtain ⟨j, hj⟩ := List.mem_iff_getElem?.1 hm
      refine ⟨hx, d', List.mem_iff_getElem?.2 ⟨j, ?_⟩⟩
      rw [setRec_get, hj, Option.map_some, if_neg]
      rintro ⟨rfl, rfl⟩
      rw [hi] at hj
      simp only [Option.some.injEq] at hj
      subst hj
      rw [ht] at hx
      simp only [Option.some.injEq] at hx
      exact hne hx.symm
    · refine ⟨ht, d, List.mem_iff_getElem?.2 ⟨i, ?_⟩⟩
      rw [setRec_get, hi, Option.map_some, if_pos ⟨rfl, rfl⟩]

theorem setRec_cons {st : St nd} (h : Consistent st) {d : Bool} {i : Nat} {e : El} (hi : (st.els d)[i]? = some e) (hr : e.record ≠ 2) (v : Int) :
    Consistent (setRec st (d, i) v) := by
  refine h.update rfl (setRec_map st (d, i) v) ?_
  intro d' j x x' hx hx' hne
  rw [setRec_get, hx] at hx'
  simp only [Option.map_some, Option.some.injEq] at hx'
  by_cases hd : d' = d ∧ j = i
  · obtain ⟨rfl, rfl⟩ := hd
    rw [hi] at hx
    simp only [Option.some.injEq] at hx
    subst hx; exact hr
  · rw [if_neg hd] at hx'
    subst hx'; exact hne

theorem setAt_at {st : St nd} {p q : Path} (hq : q ≠ p) (v : Int) (x : El) : At (setAt st p v) q x ↔ At st q x := by
  constructor
  · rintro ⟨hx, d, hm⟩
    simp only [setAt, List.mem_map] at hm
    obtain ⟨y, hy, rfl⟩ := hm
    by_cases hp : (y.tree == some p) = true
    · rw [if_pos hp] at hx
      have h1 : y.tree = some q := hx
      rw [beq_iff_eq, h1] at hp
      simp only [Option.some.injEq] at hp
      exact absurd hp hq
    · rw [if_neg hp] at hx ⊢
      exact ⟨hx, d, hy⟩
  · rintro ⟨hx, d, hm⟩
    refine ⟨hx, d, ?_⟩
    simp only [setAt, List.mem_map]
    refine ⟨x, hm, ?_⟩
    rw [if_neg]
    rw [hx]; simpa using hq

theorem killAll_at {l : List Path} {q : Path} : ∀ {st : St nd}, q ∉ l → ∀ x, At (killAll st l) q x ↔ At st q x := by
  induction l with
  | nil => intro st _ x; rfl
  | cons c l ih =>
    intro st hq x
    have e : killAll st (c :: l) = killAll (setAt st c 2) l := rfl
    rw [e, ih (fun h => hq (by simp [h])), setAt_at (fun h => hq (by simp [h]))]

/-- Replace all elements below `parent` by one at `parent`. -/
theorem merge_at {st : St nd} (h : Consistent st) {parent : Path} (cs : List Path) (hcs : ∀ c ∈ cs, parent <+: c) (d : Bool) (q : Path) (x : El) :
    At (addElem (collapse st parent cs) d parent) q x ↔ (¬parent <+: q ∧ At st q x) ∨ (q = parent ∧ x = ⟨some parent, 0, false⟩) := by
  have hcol : ∀ q x, ¬parent <+: q → (At (collapse st parent cs) q x ↔ At st q x) := by
    intro q x hq
    have hk := killAll_at (st := st) (l := cs) (q := q) (fun hm => hq (hcs q hm)) x
    rw [← hk]
    constructor
    · rintro ⟨hx, d', hm⟩
      simp only [collapse, List.mem_map] at hm
      obtain ⟨y, hy, rfl⟩ := hm
      split at hx
      · simp at hx
      · rename_i hh; rw [if_neg hh]; exact ⟨hx, d', hy⟩
    · rintro ⟨hx, d', hm⟩
      refine ⟨hx, d', ?_⟩
      simp only [collapse, List.mem_map]
      refine ⟨x, hm, ?_⟩
      rw [if_neg]
      rw [hx]
      simp only [Option.any_some, Bool.and_eq_true, List.isPrefixOf_iff_prefix, not_and]
      intro hh; exact absurd hh hq
  constructor
  · rintro ⟨hx, d', hm⟩
    rcases addElem_mem.1 hm with ⟨y, hy, rfl⟩ | ⟨-, rfl⟩
    · by_cases hp : (y.tree == some parent) = true
      · rw [if_pos hp] at hx; simp at hx
      · rw [if_neg hp] at hx ⊢
        have hq : ¬parent <+: q := by
          intro hpre
          simp only [collapse, List.mem_map] at hy
          obtain ⟨z, hz, rfl⟩ := hy
          split at hx
          · simp at hx
          · rename_i hh
            rw [if_neg hh] at hp
            rw [hx] at hh hp
            simp only [Option.any_some, Bool.and_eq_true, List.isPrefixOf_iff_prefix, bne_iff_ne, not_and, not_not] at hh
            rw [hh hpre] at hp
            simp at hp
        exact .inl ⟨hq, (hcol q _ hq).1 ⟨hx, d', hy⟩⟩
    · refine .inr ⟨?_, rfl⟩
      have : some parent = some q := hx
      simpa using this.symm
  · rintro (⟨hq, ha⟩ | ⟨rfl, rfl⟩)
    · obtain ⟨hx, d', hm⟩ := (hcol q x hq).2 ha
      refine ⟨hx, d', addElem_mem.2 (.inl ⟨x, hm, ?_⟩)⟩
      rw [if_neg]
      rw [hx]
      simp only [beq_iff_eq, Option.some.injEq]
      rintro rfl; exact hq List.prefix_rfl
    · exact ⟨rfl, d, addElem_mem.2 (.inr ⟨rfl, rfl⟩)⟩

/-! ### One step -/

theorem needsRefine_ok {st : St nd} (h : Consistent st) {p : Path} (hp : Present st.root p) :
    ∃ r, needsRefine st p = some r ∧ (r = true → TooCoarse st p) := by
  obtain ⟨a, ha⟩ := hp
  obtain ⟨r, h1, h2⟩ := needsRefine_eq h ha
  refine ⟨r, h1, fun hr => ?_⟩
  obtain ⟨dir, hd, q, b, hb, -, hbord, hex, hrl⟩ := h2.1 hr
  exact ⟨dir, a, q, b, ha, faceOrEdge_of_mem hd, hex, hb, hbord, hrl⟩

theorem TooCoarse.congr {st st' : St nd} (hr : st'.root = st.root) (he : ∀ p, Exists st p → Exists st' p) {p : Path} (h : TooCoarse st p) :
    TooCoarse st' p := by
  obtain ⟨dir, a, q, b, h1, h2, h3, h4, h5, h6⟩ := h
  exact ⟨dir, a, q, b, by rw [hr]; exact h1, h2, he q h3, by rw [hr]; exact h4, h5, h6⟩

theorem hasExistentChildren_iff {st : St nd} {c : Path} : hasExistentChildren st c = true ↔ ∃ q x, At st q x ∧ c <+: q := by
  simp only [hasExistentChildren, List.any_eq_true]
  constructor
  · rintro ⟨x, hx, ha⟩
    obtain ⟨q, hq, hc⟩ := (Option.any_eq_true _ _).1 ha
    exact ⟨q, x, ⟨hq, mem_all.1 hx⟩, List.isPrefixOf_iff_prefix.1 hc⟩
  · rintro ⟨q, x, ⟨hq, hx⟩, hc⟩
    exact ⟨x, mem_all.2 hx, by rw [hq]; exact List.isPrefixOf_iff_prefix.2 hc⟩

theorem recordAt_at {st : St nd} (h : Consistent st) {c : Path} {x : El} (hx : At st c x) : recordAt st c = some x.record :=
  recordAt_some h (mem_all.2 hx.2) hx.1

theorem recordAt_none' {st : St nd} {c : Path} : recordAt st c = none ↔ ∀ x, ¬At st c x := by
  rw [recordAt_none]
  constructor
  · intro hn x hx; exact hn x (mem_all.2 hx.2) hx.1
  · intro hn e he ht; exact hn e ⟨ht, mem_all.1 he⟩

/-- What the loop over the siblings asks of one child. -/
def Willing (st : St nd) (c : Path) : Prop := (IsLeafAt st.root c ∨ ∀ q x, At st q x → ¬c <+: q) ∧ ∀ x, At st c x → x.record = 2 ∨ x.record = -1

theorem siblings_ok {st : St nd} (h : Consistent st) : ∀ (cs : List Path) (s : Bool × Bool), (∀ c ∈ cs, Present st.root c) →
    ∃ u, siblings st s cs = some u ∧ (u.1 = true ↔ s.1 = true ∧ ∀ c ∈ cs, Willing st c) := by
  intro cs
  induction cs with
  | nil => intro s _; exact ⟨s, rfl, by simp⟩
  | cons c cs ih =>
    intro s hc
    obtain ⟨n, hn⟩ := hc c (by simp)
    simp only [siblings, hn, Option.bind_some]
    have hrest : ∀ x ∈ cs, Present st.root x := fun x hx => hc x (by simp [hx])
    by_cases h1 : (!n.isLeaf && hasExistentChildren st c) = true
    · rw [if_pos h1]
      obtain ⟨u, e, hu⟩ := ih (false, s.2) hrest
      refine ⟨u, e, hu.trans ?_⟩
      simp only [Bool.false_eq_true, false_and, false_iff, not_and]
      intro _ hall
      rw [Bool.and_eq_true, hasExistentChildren_iff] at h1
      obtain ⟨hl, q, x, hx, hp⟩ := h1
      rcases (hall c (by simp)).1 with ⟨n', hn', hl'⟩ | hno
      · rw [hn] at hn'
        simp only [Option.some.injEq] at hn'
        subst hn'
        simp [Tree.isLeaf, hl'] at hl
      · exact hno q x hx hp
    · rw [if_neg h1]
      have hw1 : IsLeafAt st.root c ∨ ∀ q x, At st q x → ¬c <+: q := by
        rw [Bool.and_eq_true, not_and_or, hasExistentChildren_iff] at h1
        rcases h1 with h1 | h1
        · refine .inl ⟨n, hn, ?_⟩
          simpa [Tree.isLeaf] using h1
        · exact .inr fun q x hx hp => h1 ⟨q, x, hx, hp⟩
      have fin : ∀ s' : Bool × Bool, (s'.1 = true ↔ s.1 = true ∧ ∀ x, At st c x → x.record = 2 ∨ x.record = -1) →
          ∃ u, siblings st s' cs = some u ∧ (u.1 = true ↔ s.1 = true ∧ ∀ c' ∈ c :: cs, Willing st c') := by
        intro s' hs'
        obtain ⟨u, e, hu⟩ := ih s' hrest
        refine ⟨u, e, hu.trans ?_⟩
        rw [hs']
        constructor
        · rintro ⟨⟨g1, g2⟩, g3⟩
          refine ⟨g1, fun c' hc' => ?_⟩
          rcases List.mem_cons.1 hc' with rfl | hc'
          · exact ⟨hw1, g2⟩
          · exact g3 c' hc'
        · rintro ⟨g1, g2⟩
          exact ⟨⟨g1, (g2 c (by simp)).2⟩, fun c' hc' => g2 c' (by simp [hc'])⟩
      cases hr : recordAt st c with
      | none =>
        refine fin s ?_
        rw [recordAt_none'] at hr
        exact ⟨fun g => ⟨g, fun x hx => absurd hx (hr x)⟩, fun g => g.1⟩
      | some r =>
        have hx : ∃ x, At st c x := by
          by_contra hno
          push Not at hno
          rw [recordAt_none'.2 hno] at hr; simp at hr
        obtain ⟨x, hx⟩ := hx
        rw [recordAt_at h hx] at hr
        simp only [Option.some.injEq] at hr
        subst hr
        dsimp only
        split
        · rename_i hne
          refine fin _ ?_
          simp only [Bool.and_eq_true, beq_iff_eq]
          constructor
          · rintro ⟨g1, g2⟩
            exact ⟨g1, fun y hy => by rw [At.unique h hy hx]; exact .inr g2⟩
          · rintro ⟨g1, g2⟩
            refine ⟨g1, ?_⟩
            rcases g2 x hx with g | g
            · exact absurd g hne
            · exact g
        · rename_i hne
          refine fin _ ?_
          push Not at hne
          exact ⟨fun g => ⟨g, fun y hy => by rw [At.unique h hy hx]; exact .inl hne⟩, fun g => g.1⟩

theorem childPaths_ok {st : St nd} (h : Consistent st) {m : Path} {i : Nat} (hp : Present st.root (m ++ [i])) :
    ∃ cs, childPaths st.root m = some cs ∧ (∀ c ∈ cs, Present st.root c) ∧ (∀ c, c ∈ cs ↔ Present st.root c ∧ Child m c) := by
  obtain ⟨a, ha⟩ := present_prefix hp (List.prefix_append m [i])
  have hl : a.children ≠ [] := by
    intro hl
    have := IsLeafAt.no_ext ⟨a, ha, hl⟩ hp (List.prefix_append m [i])
    simp at this
  have hlen : a.children.length = 2 ^ nd := by
    have hw := h.reach.root.wf.get ha
    obtain ⟨l, co, s, k⟩ := a
    exact hw.len hl
  have key : ∀ c, c ∈ (List.range a.children.length).map (fun i => m ++ [i]) ↔ Present st.root c ∧ Child m c := by
    intro c
    simp only [List.mem_map, List.mem_range, hlen]
    constructor
    · rintro ⟨j, hj, rfl⟩; exact ⟨(children_of h.reach ha hl j).2 hj, j, rfl⟩
    · rintro ⟨hc, j, rfl⟩; exact ⟨j, (children_of h.reach ha hl j).1 hc, rfl⟩
  exact ⟨_, by simp [childPaths, ha], fun c hc => ((key c).1 hc).1, key⟩

theorem agreed_iff {st : St nd} (h : Consistent st) {m : Path} {cs : List Path} (hcs : ∀ c, c ∈ cs ↔ Present st.root c ∧ Child m c) :
    (∀ c ∈ cs, Willing st c) ↔ Agreed st m := by
  constructor
  · intro hw q x hx hpre hne
    obtain ⟨r, rfl⟩ := hpre
    cases r with
    | nil => simp at hne
    | cons i r =>
      have hq : Present st.root (m ++ i :: r) := by
        obtain ⟨d, he⟩ := hx.2; exact h.valid d x he _ hx.1
      have hci : (m ++ [i]) <+: m ++ i :: r := ⟨r, by simp⟩
      have hc : m ++ [i] ∈ cs := (hcs _).2 ⟨present_prefix hq hci, i, rfl⟩
      obtain ⟨h1, h2⟩ := hw _ hc
      rcases h1 with h1 | h1
      · have := IsLeafAt.no_ext h1 hq hci
        rw [this] at hx ⊢
        exact ⟨⟨i, rfl⟩, h1, h2 x hx⟩
      · exact absurd hci (h1 _ x hx)
  · intro ha c hc
    obtain ⟨hp, i, rfl⟩ := (hcs c).1 hc
    have hne : ∀ r : Path, m ++ [i] ++ r ≠ m := by intro r; simp
    refine ⟨?_, fun x hx => (ha _ x hx (List.prefix_append m [i]) (by simpa using hne [])).2.2⟩
    by_cases hno : ∀ q x, At st q x → ¬(m ++ [i]) <+: q
    · exact .inr hno
    · push Not at hno
      obtain ⟨q, x, hx, hpre⟩ := hno
      have hne' : q ≠ m := by
        rintro rfl
        have := hpre.length_le; simp at this
      obtain ⟨⟨j, rfl⟩, hl, -⟩ := ha q x hx ((List.prefix_append m [i]).trans hpre) hne'
      have : m ++ [i] = m ++ [j] := List.IsPrefix.eq_of_length hpre (by simp)
      rw [this]; exact .inl hl

/-- The number of pending requests. -/
def asks (st : St nd) : Nat := (st.els false).countP (fun e => e.record == -1) + (st.els true).countP (fun e => e.record == -1)

theorem countP_map_le (f : El → El) (hf : ∀ e, (f e).record = -1 → e.record = -1) : ∀ l : List El,
    (l.map f).countP (fun e => e.record == -1) ≤ l.countP (fun e => e.record == -1) := by
  intro l
  induction l with
  | nil => simp
  | cons a l ih =>
    simp only [List.map_cons, List.countP_cons]
    by_cases h : (f a).record = -1
    · simp only [h, hf a h, beq_self_eq_true, if_true]; omega
    · have : ((f a).record == -1) = false := by simpa using h
      simp only [this, Bool.false_eq_true, if_false]; omega

theorem countP_map_lt (f : El → El) (hf : ∀ e, (f e).record = -1 → e.record = -1) {x : El} : ∀ l : List El, x ∈ l → x.record = -1 → (f x).record ≠ -1 →
    (l.map f).countP (fun e => e.record == -1) < l.countP (fun e => e.record == -1) := by
  intro l
  induction l with
  | nil => intro h; simp at h
  | cons a l ih =>
    intro hm hx hfx
    simp only [List.map_cons, List.countP_cons]
    have hle := countP_map_le f hf l
    rcases List.mem_cons.1 hm with rfl | hm
    · have : ((f x).record == -1) = false := by simpa using hfx
      simp only [this, Bool.false_eq_true, if_false, hx, beq_self_eq_true, if_true]; omega
    · have := ih hm hx hfx
      by_cases h : (f a).record = -1
      · simp only [h, hf a h, beq_self_eq_true, if_true]; omega
      · have h' : ((f a).record == -1) = false := by simpa using h
        simp only [h', Bool.false_eq_true, if_false]; omega

theorem setAt_asks (st : St nd) (p : Path) : asks (setAt st p 2) ≤ asks st ∧ ∀ e, At st p e → e.record = -1 → asks (setAt st p 2) < asks st := by
  have hf : ∀ e : El, (if e.tree == some p then { e with record := (2 : Int) } else e).record = -1 → e.record = -1 := by
    intro e; split
    · simp
    · exact id
  have hle : ∀ d, ((setAt st p 2).els d).countP (fun e => e.record == -1) ≤ (st.els d).countP (fun e => e.record == -1) :=
    fun d => countP_map_le _ hf _
  refine ⟨Nat.add_le_add (hle _) (hle _), ?_⟩
  rintro e ⟨ht, d, he⟩ hr
  have hlt : ((setAt st p 2).els d).countP (fun e => e.record == -1) < (st.els d).countP (fun e => e.record == -1) :=
    countP_map_lt _ hf _ he hr (by simp [ht])
  have h1 := hle false
  have h2 := hle true
  unfold asks
  cases d <;> omega

theorem killAll_asks : ∀ (l : List Path) (st : St nd), asks (killAll st l) ≤ asks st ∧
    ∀ p ∈ l, ∀ e, At st p e → e.record = -1 → asks (killAll st l) < asks st := by
  intro l
  induction l with
  | nil => intro st; exact ⟨le_rfl, by simp⟩
  | cons c l ih =>
    intro st
    have e : killAll st (c :: l) = killAll (setAt st c 2) l := rfl
    rw [e]
    obtain ⟨h1, h2⟩ := ih (setAt st c 2)
    obtain ⟨g1, g2⟩ := setAt_asks st c
    refine ⟨h1.trans g1, ?_⟩
    intro p hp x hx hr
    by_cases hpc : p = c
    · subst hpc; exact lt_of_le_of_lt h1 (g2 x hx hr)
    · rcases List.mem_cons.1 hp with rfl | hp
      · exact absurd rfl hpc
      · exact lt_of_lt_of_le (h2 p hp x ((setAt_at hpc 2 x).2 hx) hr) g1

theorem merge_asks (st : St nd) (parent : Path) (cs : List Path) (d : Bool) : asks (addElem (collapse st parent cs) d parent) ≤ asks (killAll st cs) := by
  have h1 : ∀ d', ((addElem (collapse st parent cs) d parent).els d').countP (fun e => e.record == -1) ≤
      ((collapse st parent cs).els d').countP (fun e => e.record == -1) := by
    intro d'
    have := countP_map_le (fun e : El => if e.tree == some parent then { e with tree := none } else e) (by intro e; split <;> simp) ((collapse st parent cs).els d')
    simp only [addElem]
    split
    · rw [List.countP_append]; simpa using this
    · exact this
  have h2 : ∀ d', ((collapse st parent cs).els d').countP (fun e => e.record == -1) ≤ ((killAll st cs).els d').countP (fun e => e.record == -1) :=
    fun d' => countP_map_le _ (by intro e; split <;> simp) _
  have := h1 false; have := h1 true; have := h2 false; have := h2 true
  unfold asks; omega

theorem killAll_length : ∀ (l : List Path) (st : St nd) (d : Bool), ((killAll st l).els d).length = (st.els d).length := by
  intro l
  induction l with
  | nil => intro st d; rfl
  | cons c l ih =>
    intro st d
    have e : killAll st (c :: l) = killAll (setAt st c 2) l := rfl
    rw [e, ih]; simp [setAt]

theorem merge_length (st : St nd) (parent : Path) (cs : List Path) (d d' : Bool) :
    (st.els d').length ≤ ((addElem (collapse st parent cs) d parent).els d').length := by
  have : ((collapse st parent cs).els d').length = (st.els d').length := by
    simp only [collapse, List.length_map]; exact killAll_length cs st d'
  simp only [addElem]
  split <;> simp [this]

/-- What unrefining leaves of the elements before: they are not moved to other cells, nor brought back, nor asked for anything new; and the status of
the cells is left alone. -/
structure Tame (st st' : St nd) : Prop where
  len : ∀ d, (st.els d).length ≤ (st'.els d).length
  els : ∀ (d : Bool) (i : Nat) (e' : El), (st'.els d)[i]? = some e' → ((st.els d)[i]? = none ∧ (e'.record = 0 ∨ e'.record = 2)) ∨
    ∃ e : El, (st.els d)[i]? = some e ∧ (e'.tree = none ∨ e'.tree = e.tree) ∧ (e'.record = 2 ∨ (e.record ≠ 2 ∧ (e'.record = 0 ∨ e'.record = e.record)))
  stat : ∀ q c', get q st'.root = some c' → statusAt st.root q = some c'.status

theorem Tame.refl (st : St nd) : Tame st st := by
  refine ⟨fun _ => le_rfl, fun d i e h => .inr ⟨e, h, .inr rfl, ?_⟩, fun q c h => statusAt_some.2 ⟨c, h, rfl⟩⟩
  by_cases h2 : e.record = 2
  · exact .inl h2
  · exact .inr ⟨h2, .inr rfl⟩

theorem Tame.trans {a b c : St nd} (h1 : Tame a b) (h2 : Tame b c) : Tame a c := by
  refine ⟨fun d => (h1.len d).trans (h2.len d), fun d i e h => ?_, fun q x h => ?_⟩
  · rcases h2.els d i e h with ⟨hn, hr⟩ | ⟨y, hy, ht, hr⟩
    · refine .inl ⟨?_, hr⟩
      have := h1.len d
      rw [List.getElem?_eq_none_iff] at hn ⊢
      omega
    · rcases h1.els d i y hy with ⟨hn, hr'⟩ | ⟨z, hz, ht', hr'⟩
      · exact .inl ⟨hn, by omega⟩
      · refine .inr ⟨z, hz, ?_, by omega⟩
        rcases ht with ht | ht
        · exact .inl ht
        · rw [ht]; exact ht'
  · obtain ⟨y, hy, hys⟩ := statusAt_some.1 (h2.stat q x h)
    rw [h1.stat q y hy, hys]

theorem Tame.ask {st st' : St nd} (h : Tame st st') {d : Bool} {i : Nat} {e' : El} (hi : (st'.els d)[i]? = some e') (hr : e'.record = -1) :
    ∃ e : El, (st.els d)[i]? = some e ∧ e.record = -1 := by
  rcases h.els d i e' hi with ⟨-, h1⟩ | ⟨e, he, -, h1⟩
  · omega
  · exact ⟨e, he, by omega⟩

theorem Tame.no3 {st st' : St nd} (h : Tame st st') (h3 : NoToggle st) : NoToggle st' := by
  intro d e' he'
  obtain ⟨i, hi⟩ := List.mem_iff_getElem?.1 he'
  rcases h.els d i e' hi with ⟨-, h1⟩ | ⟨e, he, -, h1⟩
  · omega
  · have := h3 d e (List.mem_of_getElem? he)
    omega

theorem tame_map {st st' : St nd} (f : El → El) (hf : ∀ e, ((f e).tree = none ∨ (f e).tree = e.tree) ∧ ((f e).record = 2 ∨ (f e).record = e.record))
    (hels : ∀ d, st'.els d = (st.els d).map f) (hs : ∀ q c', get q st'.root = some c' → statusAt st.root q = some c'.status) :
    Tame st st' := by
  refine ⟨fun d => by rw [hels]; simp, fun d i e' h => ?_, hs⟩
  rw [hels, List.getElem?_map] at h
  cases hg : (st.els d)[i]? with
  | none => rw [hg] at h; simp at h
  | some e =>
    rw [hg] at h
    simp only [Option.map_some, Option.some.injEq] at h
    subst h
    have := hf e
    exact .inr ⟨e, rfl, this.1, by omega⟩

theorem killAll_tame : ∀ (l : List Path) (st : St nd), Tame st (killAll st l) := by
  intro l
  induction l with
  | nil => intro st; exact .refl st
  | cons c l ih =>
    intro st
    refine Tame.trans (tame_map (fun e => if e.tree == some c then { e with record := 2 } else e) ?_ (fun d => rfl) ?_) (ih (setAt st c 2))
    · intro e; split <;> simp
    · intro q c' h; exact statusAt_some.2 ⟨c', h, rfl⟩

theorem collapse_tame (st : St nd) (parent : Path) (cs : List Path) : Tame st (collapse st parent cs) := by
  refine (killAll_tame cs st).trans (tame_map (fun e => if e.tree.any (fun q => parent.isPrefixOf q && parent != q) then { e with tree := none } else e) ?_ (fun d => rfl) ?_)
  · intro e; split <;> simp
  · intro q c' h; exact unrefine_status h

theorem addElem_tame (st : St nd) (d : Bool) (p : Path) : Tame st (addElem st d p) := by
  refine ⟨fun d' => by simp only [addElem]; split <;> simp, fun d' i e' h => ?_, fun q c h => statusAt_some.2 ⟨c, h, rfl⟩⟩
  have hm : (((st.els d').map (fun e : El => if e.tree == some p then { e with tree := none } else e))[i]?) = some e' ∨
      ((st.els d')[i]? = none ∧ e'.record = 0) := by
    simp only [addElem] at h
    split at h
    · rw [List.getElem?_append] at h
      split at h
      · exact .inl h
      · rename_i hge
        rw [List.getElem?_singleton] at h
        split at h
        · simp only [Option.some.injEq] at h; subst h
          right
          rw [List.getElem?_eq_none_iff]
          simp only [List.length_map] at hge
          exact ⟨by omega, rfl⟩
        · simp at h
    · exact .inl h
  rcases hm with hm | ⟨h1, h2⟩
  · rw [List.getElem?_map] at hm
    cases hg : (st.els d')[i]? with
    | none => rw [hg] at hm; simp at hm
    | some e =>
      rw [hg] at hm
      simp only [Option.map_some, Option.some.injEq] at hm
      refine .inr ⟨e, rfl, ?_⟩
      subst hm
      split <;> simp <;> omega
  · exact .inl ⟨h1, .inl h2⟩

theorem merge_tame (st : St nd) (parent : Path) (cs : List Path) (d : Bool) : Tame st (addElem (collapse st parent cs) d parent) :=
  (collapse_tame st parent cs).trans (addElem_tame _ d parent)

/-- What one iteration does to the element at index `i`: nothing; drop its request; or merge it with its siblings. -/
inductive UStep (d : Bool) (i : Nat) (st st' : St nd) : Bool → Prop
  | keep (same : st' = st) (why : ∀ (e : El) (p : Path), (st.els d)[i]? = some e → e.tree = some p → e.record = -1 → p = [] ∨ TooCoarse st p.dropLast) :
      UStep d i st st' false
  | drop (m : Path) (j : Nat) (e : El) (at_ : At st (m ++ [j]) e) (asked : e.record = -1) (hi : (st.els d)[i]? = some e) (why : e.locked = true ∨ ¬Agreed st m)
      (same : st' = setRec st (d, i) 0) : UStep d i st st' false
  | merge (m : Path) (j : Nat) (e : El) (at_ : At st (m ++ [j]) e) (asked : e.record = -1) (unlocked : e.locked = false) (agreed : Agreed st m)
      (ats : ∀ q x, At st' q x ↔ (¬m <+: q ∧ At st q x) ∨ (q = m ∧ x = ⟨some m, 0, false⟩))
      (present : ∀ q, Present st'.root q ↔ Present st.root q ∧ (m <+: q → m = q))
      (leaf : ∀ q, IsLeafAt st'.root q ↔ (IsLeafAt st.root q ∧ ¬m <+: q) ∨ q = m) (fewer : asks st' < asks st) (sub : Tame st st') : UStep d i st st' true

theorem setRec_length (st : St nd) (h : Bool × Nat) (v : Int) (d : Bool) : ((setRec st h v).els d).length = (st.els d).length := by
  simp only [setRec]; split <;> simp

theorem unrefOne_ok {st : St nd} (h : Consistent st) {d : Bool} {i : Nat} (hi : i < (st.els d).length) (c : Bool) :
    ∃ st' b, unrefOne d (st, c) i = some (st', c || b) ∧ Consistent st' ∧ (∀ d', (st.els d').length ≤ (st'.els d').length) ∧ UStep d i st st' b := by
  have he : (st.els d)[i]? = some ((st.els d)[i]) := List.getElem?_eq_getElem hi
  set e := (st.els d)[i]
  have hmem : e ∈ st.els d := List.mem_of_getElem? he
  have keep : (∀ p, e.tree = some p → e.record = -1 → p = [] ∨ TooCoarse st p.dropLast) →
      ∃ st' b, some (st, c) = some (st', c || b) ∧ Consistent st' ∧ (∀ d', (st.els d').length ≤ (st'.els d').length) ∧ UStep d i st st' b := by
    intro hw
    refine ⟨st, false, by simp, h, fun _ => le_rfl, .keep rfl ?_⟩
    intro x p hx; rw [he] at hx; simp only [Option.some.injEq] at hx; subst hx; exact hw p
  simp only [unrefOne, he, Option.bind_some]
  cases ht : e.tree with
  | none => exact keep (fun p hp => by rw [ht] at hp; simp at hp)
  | some p =>
    by_cases hc : e.record = -1 ∧ p ≠ []
    · dsimp only
      rw [if_pos hc]
      obtain ⟨hr, hp0⟩ := hc
      obtain ⟨m, j, rfl⟩ : ∃ m j, p = m ++ [j] := ⟨p.dropLast, p.getLast hp0, (List.dropLast_append_getLast hp0).symm⟩
      have hpp : Present st.root (m ++ [j]) := h.valid d e hmem _ ht
      rw [List.dropLast_concat]
      obtain ⟨cs, hcs, hcp, hcm⟩ := childPaths_ok h hpp
      obtain ⟨u, hu, hu'⟩ := siblings_ok h cs (!e.locked, false) hcp
      rw [agreed_iff h hcm] at hu'
      have hat : At st (m ++ [j]) e := ⟨ht, d, hmem⟩
      simp only [hcs, hu, Option.bind_some]
      by_cases hu1 : u.1 = true
      · rw [if_pos hu1]
        obtain ⟨hlk, hag⟩ := hu'.1 hu1
        have hmp : Present st.root m := present_prefix hpp (List.prefix_append m [j])
        obtain ⟨r, hr1, hr2⟩ := needsRefine_ok h hmp
        rw [hr1, Option.map_some]
        by_cases hrt : r = true
        · rw [if_pos hrt]
          refine keep fun q hq hq' => .inr ?_
          rw [ht] at hq; simp only [Option.some.injEq] at hq; subst hq
          rw [List.dropLast_concat]; exact hr2 hrt
        · rw [if_neg hrt]
          have hne : ¬Exists st m := by
            intro hx
            have := IsLeafAt.no_ext (hx.leaf h) hpp (List.prefix_append m [j])
            simp at this
          obtain ⟨c1, c2, c3⟩ := collapse_ok h hmp cs hne
          have hroot : (addElem (collapse st m cs) u.2 m).root = modify unrefineNode m st.root := by
            show modify unrefineNode m (killAll st cs).root = _
            rw [(killAll_ok h cs).2.1]
          obtain ⟨u1, u2⟩ := unrefine_step h.reach hmp
          refine ⟨_, true, by simp, (addElem_ok c1 u.2 c3).1, fun d' => merge_length st m cs u.2 d', ?_⟩
          refine .merge m j e hat hr (by simpa using hlk) hag ?_ ?_ ?_ ?_ (merge_tame st m cs u.2)
          · intro q x
            exact merge_at h cs (fun c hc => by obtain ⟨i, rfl⟩ := ((hcm c).1 hc).2; exact List.prefix_append _ _) u.2 q x
          · intro q; rw [hroot]; exact (u2 q).1
          · intro q; rw [hroot]; exact (u2 q).2
          · exact lt_of_le_of_lt (merge_asks st m cs u.2) ((killAll_asks cs st).2 _ ((hcm _).2 ⟨hpp, j, rfl⟩) e hat hr)
      · rw [if_neg hu1]
        refine ⟨setRec st (d, i) 0, false, by simp, setRec_cons h he (by rw [hr]; decide) 0, fun d' => (setRec_length st _ 0 d').ge, ?_⟩
        refine .drop m j e hat hr he ?_ rfl
        by_contra hno
        push Not at hno
        exact hu1 (hu'.2 ⟨by simpa using hno.1, hno.2⟩)
    · dsimp only
      rw [if_neg hc]
      refine keep fun q hq hr => .inl ?_
      rw [ht] at hq; simp only [Option.some.injEq] at hq; subst hq
      by_contra h0; exact hc ⟨hr, h0⟩

end Hexed.Adapt
