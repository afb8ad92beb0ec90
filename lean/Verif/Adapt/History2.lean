import Verif.Adapt.History

set_option autoImplicit false
set_option linter.unusedVariables false

/-!
# `set_surface`, and histories
-/

namespace Hexed.Adapt
open Hexed.Tree (Path get modify refineNode unrefineNode setStatusNode findNeighbors findNeighbor IsDir Borders IsLeafAt Reachable)

variable {nd : Nat}

theorem setStatusNode_status (n : Tree nd) : setStatusNode n.status n = n := by cases n; rfl

theorem marks_ok {surf : Tree nd → Bool} (hg : Geometric surf) : ∀ (l : List Path) (t : Tree nd), Reachable t → (∀ q ∈ l, Present t q) →
    ∃ t', l.foldl (fun t p => modify (fun n => if surf n then setStatusNode 0 n else n) p t) t = t' ∧ Reachable t' ∧ Tree.Sim t t' ∧
      ∀ q c c', get q t = some c → get q t' = some c' → c'.status = if q ∈ l ∧ surf c = true then 0 else c.status := by
  intro l
  induction l with
  | nil => intro t h _; exact ⟨t, rfl, h, Tree.Sim.refl t, fun q c c' h1 h2 => by rw [h1] at h2; simp only [Option.some.injEq] at h2; subst h2; simp⟩
  | cons p l ih =>
    intro t h hl
    obtain ⟨s, hs⟩ := hl p (by simp)
    have e : modify (fun n => if surf n then setStatusNode 0 n else n) p t = modify (setStatusNode (if surf s then 0 else s.status)) p t := by
      refine modify_congr _ _ p t s hs ?_
      split
      · rfl
      · rw [setStatusNode_status]
    rw [List.foldl_cons, e]
    have hsim := Tree.sim_modify (if surf s then 0 else s.status) hs
    have h' : Reachable (modify (setStatusNode (if surf s then 0 else s.status)) p t) := .ok (.setStatus p (if surf s then 0 else s.status)) h (by simp [Tree.step, hs])
    obtain ⟨t', i1, i2, i3, i4⟩ := ih _ h' (fun q hq => (Sim.shape hsim q).1.2 (hl q (by simp [hq])))
    refine ⟨t', i1, i2, hsim.trans i3, fun q c c' h1 h2 => ?_⟩
    obtain ⟨c1, hc1, -⟩ := hsim.get h1
    have hgeo := cell_eq h h' h1 hc1
    rw [i4 q c1 c' hc1 h2, ← hg c c1 hgeo.1 hgeo.2]
    rcases setStatus_status (fun _ => if surf s then (0 : Int) else s.status) hc1 with ⟨hne, g⟩ | ⟨rfl, c0, g1, g2⟩
    · obtain ⟨c2, g1, g2⟩ := statusAt_some.1 g
      rw [h1] at g1; simp only [Option.some.injEq] at g1; subst g1
      simp [hne, g2]
    · rw [hs] at g1; simp only [Option.some.injEq] at g1; subst g1
      rw [hs] at h1; simp only [Option.some.injEq] at h1; subst h1
      simp only [List.mem_cons, true_or, true_and, g2]
      by_cases hx : surf s = true <;> simp [hx]

theorem markSurface_ok {S : Surface nd} {st : St nd} (h : Consistent st) : Reachable (markSurface S.hits st) ∧ Tree.Sim st.root (markSurface S.hits st) ∧
    ∀ q c c', get q st.root = some c → get q (markSurface S.hits st) = some c' →
      ((∃ d, ∃ e ∈ st.els d, e.tree = some q) ∧ S.hits c = true → c'.status = 0) ∧
      (¬((∃ d, ∃ e ∈ st.els d, e.tree = some q) ∧ S.hits c = true) → c'.status = c.status) := by
  have hmem : ∀ q, q ∈ st.all.filterMap (·.tree) ↔ ∃ d, ∃ e ∈ st.els d, e.tree = some q := by
    intro q
    simp only [List.mem_filterMap]
    constructor
    · rintro ⟨e, he, ht⟩
      obtain ⟨d, he⟩ := mem_all.1 he
      exact ⟨d, e, he, ht⟩
    · rintro ⟨d, e, he, ht⟩; exact ⟨e, mem_all.2 ⟨d, he⟩, ht⟩
  obtain ⟨t', e1, e2, e3, e4⟩ := marks_ok S.geom (st.all.filterMap (·.tree)) st.root h.reach (by
    intro q hq
    obtain ⟨d, e, he, ht⟩ := (hmem q).1 hq
    exact h.valid d e he q ht)
  simp only [markSurface, e1]
  refine ⟨e2, e3, fun q c c' h1 h2 => ?_⟩
  have := e4 q c c' h1 h2
  rw [← hmem]
  exact ⟨fun hh => by rw [this, if_pos hh], fun hh => by rw [this, if_neg hh]⟩

/-- What `set_surface` does before extrusion sites are checked. -/
theorem inside_ok {S : Surface nd} {st : St nd} (h : Consistent st) (hs : ∀ d, ∀ e ∈ st.els d, e.tree ≠ none → e.record = 0) {start : Path}
    (hstart : Present st.root start) : ∃ root, Tree.floodFill 1 start (markSurface S.hits st) = .ok root ∧ Tree.Sim st.root root ∧ Reachable root ∧
      Consistent (recordInside { st with root := root }) ∧ NoRequests (recordInside { st with root := root }) ∧ NoToggle (recordInside { st with root := root }) ∧
      (∀ p, Exists (recordInside { st with root := root }) p ↔ Exists st p ∧ statusAt root p = some 1) ∧
      (∀ p c, Exists st p → get p st.root = some c → S.hits c = true → statusAt root p = some 0) ∧
      (IsLeafAt st.root start → Full st → (∀ q c, get q st.root = some c → c.status = -1) → ∀ q, IsLeafAt st.root q →
        (statusAt root q = some 1 ↔ Reached S st.root start q)) := by
  obtain ⟨m1, m2, m3⟩ := markSurface_ok (S := S) h
  obtain ⟨e, he⟩ := (Sim.shape m2 start).1.2 hstart
  obtain ⟨root, f1, f2, f3, f4⟩ := Tree.floodFill_spec 1 (by decide) start _ e m1.root he
  have hsim : Tree.Sim st.root root := m2.trans f3
  have hreach : Reachable root := .ok (.floodFill start 1) m1 f1
  have hc0 : Consistent { st with root := root } := h.reroot hreach (fun q hq => (Sim.shape hsim q).1.2 hq) (fun q hq => (Sim.shape hsim q).2.2 (hq.leaf h))
  have hcell : ∀ q c, get q st.root = some c → ∃ c1 c2, get q (markSurface S.hits st) = some c1 ∧ get q root = some c2 := by
    intro q c hq
    obtain ⟨c1, h1, -⟩ := m2.get hq
    obtain ⟨c2, h2, -⟩ := f3.get h1
    exact ⟨c1, c2, h1, h2⟩
  refine ⟨root, f1, hsim, hreach, ?_, ?_, ?_, ?_, ?_, ?_⟩
  · exact hc0.records (fun d e he ht => by rw [hs d e he ht]; decide) rfl (fun d => by simp [recordInside, Function.comp_def])
  · intro d e he _
    simp only [recordInside, List.mem_map] at he
    obtain ⟨x, -, rfl⟩ := he
    simp only
    split <;> simp
  · intro d e he
    simp only [recordInside, List.mem_map] at he
    obtain ⟨x, -, rfl⟩ := he
    simp only
    split <;> decide
  · intro p
    have hst : ∀ e : El, e.tree = some p → ((e.tree.any fun p => !(get p root).any fun c => c.status == 1) = true ↔ ¬statusAt root p = some 1) := by
      intro e ht
      rw [ht]
      simp only [Option.any_some, statusAt]
      cases get p root <;> simp
    constructor
    · rintro ⟨d, e, he, ht, hr⟩
      simp only [recordInside, List.mem_map] at he
      obtain ⟨x, hx, rfl⟩ := he
      simp only at ht hr
      refine ⟨⟨d, x, hx, ht, by rw [hs d x hx (by rw [ht]; simp)]; decide⟩, ?_⟩
      by_contra hc
      rw [if_pos ((hst x ht).2 hc)] at hr
      simp at hr
    · rintro ⟨⟨d, e, he, ht, hr⟩, h1⟩
      refine ⟨d, _, List.mem_map.2 ⟨e, he, rfl⟩, ht, ?_⟩
      simp only
      rw [if_neg (fun hh => (hst e ht).1 hh h1)]
      decide
  · rintro p c ⟨d, e', he', ht, -⟩ hc hh
    obtain ⟨c1, c2, h1, h2⟩ := hcell p c hc
    have hz := (m3 p c c1 hc h1).1 ⟨⟨d, e', he', ht⟩, hh⟩
    have := (f4 p c1 c2 h1 h2).2 (by
      rintro ⟨x, -, hr⟩
      cases hr with
      | start g1 g2 => rw [h1] at g1; simp only [Option.some.injEq] at g1; subst g1; rw [hz] at g2; simp [Tree.unprocessed] at g2
      | step _ _ g1 g2 => rw [h1] at g1; simp only [Option.some.injEq] at g1; subst g1; rw [hz] at g2; simp [Tree.unprocessed] at g2)
    exact statusAt_some.2 ⟨c2, h2, by rw [this, hz]⟩
  · intro hleaf hfull hnew q hq
    have hst : Tree.floodStarts e = [[]] := by
      obtain ⟨e', g1, g2⟩ := (Sim.shape m2 start).2.2 hleaf
      rw [he] at g1; simp only [Option.some.injEq] at g1; subst g1
      cases e with
      | mk r c s k => simp only [Tree.children] at g2; subst g2; rfl
    have hun : ∀ q c c1, IsLeafAt st.root q → get q st.root = some c → get q (markSurface S.hits st) = some c1 → (c1.status = Tree.unprocessed ↔ S.hits c = false) := by
      intro q c c1 hl h1 h2
      obtain ⟨d, e', he', ht, -⟩ := hfull q hl
      cases hh : S.hits c with
      | true => rw [(m3 q c c1 h1 h2).1 ⟨⟨d, e', he', ht⟩, hh⟩]; simp [Tree.unprocessed]
      | false => rw [(m3 q c c1 h1 h2).2 (by simp [hh]), hnew q c h1]; simp [Tree.unprocessed]
    have hiff : ∀ q, Tree.FloodReach (markSurface S.hits st) start q ↔ Reached S st.root start q := by
      intro q
      constructor
      · intro hr
        induction hr with
        | start g1 g2 =>
          obtain ⟨c, hc, hcl⟩ := hleaf
          exact .start hc ((hun start c _ ⟨c, hc, hcl⟩ hc g1).1 g2)
        | @step r q s _ hadj g1 g2 ih =>
          obtain ⟨a, b, ha, hb, hbl, dd, hsh⟩ := hadj
          obtain ⟨a', ha', hca⟩ := m2.symm.get ha
          obtain ⟨b', hb', hcb⟩ := m2.symm.get hb
          refine .step ih ⟨a', b', ha', hb', hcb.leaf.1 hbl, dd, ?_⟩ hb' ((hun q b' s ⟨b', hb', hcb.leaf.1 hbl⟩ hb' g1).1 g2)
          have e1 := cell_eq m1 h.reach ha ha'
          have e2 := cell_eq m1 h.reach hb hb'
          simpa [Tree.ShareFace, Tree.lo, Tree.hi, e1.1, e1.2, e2.1, e2.2] using hsh
      · intro hr
        induction hr with
        | @start c g1 g2 =>
          obtain ⟨c1, h1, -⟩ := m2.get g1
          exact .start h1 ((hun start c c1 hleaf g1 h1).2 g2)
        | @step r q c _ hadj g1 g2 ih =>
          obtain ⟨a, b, ha, hb, hbl, dd, hsh⟩ := hadj
          obtain ⟨a', ha', hca⟩ := m2.get ha
          obtain ⟨b', hb', hcb⟩ := m2.get hb
          refine .step ih ⟨a', b', ha', hb', hcb.leaf.1 hbl, dd, ?_⟩ hb' ((hun q c b' ⟨b, hb, hbl⟩ g1 hb').2 g2)
          have e1 := cell_eq h.reach m1 ha ha'
          have e2 := cell_eq h.reach m1 hb hb'
          simpa [Tree.ShareFace, Tree.lo, Tree.hi, e1.1, e1.2, e2.1, e2.2] using hsh
    obtain ⟨c, hc, -⟩ := id hq
    obtain ⟨c1, c2, h1, h2⟩ := hcell q c hc
    have := f4 q c1 c2 h1 h2
    simp only [hst, List.mem_singleton, exists_eq_left, List.append_nil] at this
    rw [hiff q] at this
    rw [statusAt_some]
    constructor
    · rintro ⟨c3, g1, g2⟩
      rw [h2] at g1; simp only [Option.some.injEq] at g1; subst g1
      by_contra hc'
      have h3 := this.2 hc'
      obtain ⟨d, e', he', ht, -⟩ := hfull q hq
      cases hh : S.hits c with
      | true => rw [(m3 q c c1 hc h1).1 ⟨⟨d, e', he', ht⟩, hh⟩] at h3; omega
      | false => rw [(m3 q c c1 hc h1).2 (by simp [hh]), hnew q c hc] at h3; omega
    · intro hr; exact ⟨c2, h2, this.1 hr⟩

theorem setSurface_ok {S : Surface nd} {o : Orders nd} (ho : o.Fair) {st : St nd} (h : Consistent st)
    (hs : ∀ d, ∀ e ∈ st.els d, e.tree ≠ none → e.record = 0) (hb : Balanced st) {start : Path} (hstart : Present st.root start) :
    ∃ n0, ∀ fuel, (∃ s, setSurface S.hits S.away o fuel start st = some (some s) ∧ Fit (some S) s ∧
        (∀ p c, Exists s p → get p s.root = some c → S.hits c = false ∧ Exists st p ∧ c.status = 1) ∧
        (IsLeafAt st.root start → Full st → (∀ q c, get q st.root = some c → c.status = -1) → ∀ q c, get q s.root = some c → c.children = [] →
          (c.status = 1 ↔ Reached S st.root start q))) ∨
      (fuel < n0 ∧ setSurface S.hits S.away o fuel start st = some none) := by
  obtain ⟨root, a1, a2, a3, a4, a5, a6, a7, a8, a9⟩ := inside_ok (S := S) h hs hstart
  have hbal : Balanced (recordInside { st with root := root }) := by
    intro p q a b dir hp hq ha hb' hdir hbor
    obtain ⟨a', ha', -⟩ := a2.symm.get ha
    obtain ⟨b', hb1, -⟩ := a2.symm.get hb'
    have e1 := cell_eq a3 h.reach ha ha'
    have e2 := cell_eq a3 h.reach hb' hb1
    have := hb p q a' b' dir ((a7 p).1 hp).1 ((a7 q).1 hq).1 ha' hb1 hdir ((borders_congr e1 e2 dir).1 hbor)
    rw [e1.1, e2.1]; exact this
  obtain ⟨n0, hfin⟩ := finish_ok (S := some S) ho a4 a5 a6 hbal
  refine ⟨n0, fun fuel => ?_⟩
  have hun : setSurface S.hits S.away o fuel start st = finish S.away o fuel (recordInside { st with root := root }) := by
    simp only [setSurface, a1]; rfl
  rw [hun]
  rcases hfin fuel with ⟨s, b1, b2, b3, b4, -⟩ | ⟨hlt, b1⟩
  · left
    have hroot : s.root = root := b3
    refine ⟨s, b1, b2, fun p c hp hc => ?_, fun hl hf hn q c hq hcl => ?_⟩
    · obtain ⟨g1, g2⟩ := (a7 p).1 (b4 p hp)
      rw [hroot] at hc
      obtain ⟨c', hc', -⟩ := a2.symm.get hc
      have e1 := cell_eq a3 h.reach hc hc'
      obtain ⟨c2, hc2, hst⟩ := statusAt_some.1 g2
      rw [hc] at hc2; simp only [Option.some.injEq] at hc2; subst hc2
      refine ⟨?_, g1, hst⟩
      cases hh : S.hits c with
      | false => rfl
      | true =>
        have := a8 p c' g1 hc' (by rw [← S.geom c c' e1.1 e1.2]; exact hh)
        rw [this] at g2; simp at g2
    · rw [hroot] at hq
      rw [← a9 hl hf hn q ((Sim.shape a2 q).2.1 ⟨c, hq, hcl⟩), statusAt_some]
      constructor
      · intro hh; exact ⟨c, hq, hh⟩
      · rintro ⟨c2, hc2, hst⟩
        rw [hq] at hc2; simp only [Option.some.injEq] at hc2; subst hc2; exact hst
  · exact .inr ⟨hlt, b1⟩

/-! ### Histories -/

theorem Rest.refl (st : St nd) : Rest st st := ⟨rfl, fun _ => rfl⟩

theorem Rest.mem {st st' : St nd} (h : Rest st st') {d : Bool} {e : El} (ht : e.tree ≠ none) : e ∈ st'.els d ↔ e ∈ st.els d := by
  have hs : e.tree.isSome = true := by cases hh : e.tree with
    | none => exact absurd hh ht
    | some p => rfl
  have := congrArg (fun l => e ∈ l) (h.els d)
  simpa [hs] using this

theorem filterMap_isSome (l : List El) : (l.filter fun e => e.tree.isSome).filterMap (·.tree) = l.filterMap (·.tree) := by
  induction l with
  | nil => rfl
  | cons e l ih =>
    cases h : e.tree with
    | none => simp [h, ih]
    | some p => simp [h, ih]

theorem Rest.existsAs {st st' : St nd} (h : Rest st st') (d : Bool) (p : Path) : ExistsAs st' d p ↔ ExistsAs st d p := by
  constructor
  · rintro ⟨e, he, ht, hr⟩; exact ⟨e, (h.mem (by rw [ht]; simp)).1 he, ht, hr⟩
  · rintro ⟨e, he, ht, hr⟩; exact ⟨e, (h.mem (by rw [ht]; simp)).2 he, ht, hr⟩

theorem Rest.same {st st' : St nd} (h : Rest st st') : Same st st' := ⟨h.root, fun p => by rw [exists_as, exists_as, h.existsAs, h.existsAs]⟩

theorem Rest.consistent {st st' : St nd} (h : Rest st st') (hc : Consistent st) : Consistent st' := by
  refine ⟨by rw [h.root]; exact hc.reach, fun d e he p ht => ?_, ?_, fun d e he p ht hr => ?_⟩
  · rw [h.root]; exact hc.valid d e ((h.mem (by rw [ht]; simp)).1 he) p ht
  · have := hc.uniq
    simp only [St.all, List.filterMap_append] at this ⊢
    rw [← filterMap_isSome, h.els, filterMap_isSome, ← filterMap_isSome (st'.els true), h.els, filterMap_isSome]
    exact this
  · rw [h.root]; exact hc.leaf d e ((h.mem (by rw [ht]; simp)).1 he) p ht hr

theorem Rest.fit {S : Option (Surface nd)} {st st' : St nd} (h : Rest st st') (hf : Fit S st) : Fit S st' :=
  ⟨h.consistent hf.consistent, fun d e he ht => hf.stay d e ((h.mem ht).1 he) ht, h.same.balanced hf.balanced, h.same.ready hf.ready,
    fun p => by rw [h.existsAs, h.same.bent]; exact hf.kinds p⟩

theorem newMesh_full : Full (newMesh nd) := by
  rintro q ⟨c, hc, -⟩
  have : q = [] := by
    cases q with
    | nil => rfl
    | cons i q => simp [newMesh, Tree.new, Tree.get, Tree.children] at hc
  subst this
  exact ⟨false, ⟨some [], 0, false⟩, by simp [newMesh], rfl, by decide⟩

theorem newMesh_new (q : Path) (c : Tree nd) (h : get q (newMesh nd).root = some c) : c.status = -1 := by
  cases q with
  | nil => simp only [newMesh, Tree.new, Tree.get, Option.some.injEq] at h; subst h; rfl
  | cons i q => simp [newMesh, Tree.new, Tree.get, Tree.children] at h

theorem newMesh_consistent : Consistent (newMesh nd) := by
  have hone : ∀ d, ∀ e ∈ (newMesh nd).els d, ∀ p, e.tree = some p → p = [] := by
    intro d e he p ht
    cases d with
    | true => simp [newMesh] at he
    | false => simp only [newMesh, Bool.false_eq_true, if_false, List.mem_singleton] at he; subst he; simpa using ht.symm
  refine ⟨.new, fun d e he p ht => ?_, by simp [newMesh, St.all], fun d e he p ht _ => ?_⟩
  · rw [hone d e he p ht]; exact ⟨_, rfl⟩
  · rw [hone d e he p ht]; exact ⟨_, rfl, rfl⟩

theorem Full.not_bent {st : St nd} (h : Full st) (p : Path) : ¬Bent st p := by
  have hx : ∀ a dir, ¬Exposed st a dir := by
    rintro a dir ⟨q, b, hb, hl, -, hne⟩
    exact hne (h q ⟨b, hb, hl⟩)
  intro hb
  induction hb with
  | surface _ _ _ h4 => exact hx _ _ h4
  | beside _ _ _ h4 _ _ _ _ _ => exact hx _ _ h4
  | spread _ _ _ _ _ _ _ _ _ ih _ => exact ih

theorem newMesh_fit : Fit none (newMesh nd) := by
  refine ⟨newMesh_consistent, fun d e he _ => ?_, ?_, newMesh_full.ready _, fun p => ?_⟩
  · cases d with
    | true => simp [newMesh] at he
    | false => simp only [newMesh, Bool.false_eq_true, if_false, List.mem_singleton] at he; subst he; rfl
  · intro p q a b dir hp hq ha hb _ _
    have hone : ∀ p, Exists (newMesh nd) p → p = [] := by
      rintro p ⟨d, e, he, ht, -⟩
      cases d with
      | true => simp [newMesh] at he
      | false => simp only [newMesh, Bool.false_eq_true, if_false, List.mem_singleton] at he; subst he; simpa using ht.symm
    rw [hone p hp] at ha; rw [hone q hq] at hb
    rw [ha] at hb; simp only [Option.some.injEq] at hb; subst hb; omega
  · refine ⟨?_, fun hb => absurd hb (newMesh_full.not_bent p)⟩
    rintro ⟨e, he, -⟩
    simp [newMesh] at he

theorem mesh_ok {S : Option (Surface nd)} {st : St nd} (h : Mesh S st) : Fit S st ∧ (S = none → Full st ∧ ∀ q c, get q st.root = some c → c.status = -1) := by
  induction h with
  | new => exact ⟨newMesh_fit, fun _ => ⟨newMesh_full, newMesh_new⟩⟩
  | @update S st r s s' o fuel hm hq ho he hrest ih =>
    obtain ⟨hf, hfull⟩ := ih
    obtain ⟨q1, q2, q3⟩ := hq.ok hf.consistent hf.stay
    refine ⟨?_, ?_⟩
    · rcases update_ok (S := S) ho q1 q2 hq.records fuel with ⟨x, e1, e2⟩ | e1
      · rw [he] at e1; simp only [Option.some.injEq] at e1; subst e1; exact hrest.fit e2
      · rw [he] at e1; simp at e1
    · rintro rfl
      obtain ⟨g1, g2⟩ := hfull rfl
      obtain ⟨n0, hall⟩ := update_full ho q1 q2 hq.records (q3 g1) (by rw [hq.root]; exact g2)
      rcases hall fuel with ⟨x, e1, -, e3, e4⟩ | ⟨-, e1⟩
      · rw [he] at e1; simp only [Option.some.injEq] at e1; subst e1
        exact ⟨hrest.same.full e3, by rw [hrest.root]; exact e4⟩
      · rw [he] at e1; simp at e1
  | @setSurface S0 S st s s' o fuel start hm hstart ho he hrest ih =>
    obtain ⟨hf, -⟩ := ih
    refine ⟨?_, by simp⟩
    obtain ⟨n0, hall⟩ := setSurface_ok (S := S) ho hf.consistent hf.stay hf.balanced hstart
    rcases hall fuel with ⟨x, e1, e2, -⟩ | ⟨-, e1⟩
    · rw [he] at e1; simp only [Option.some.injEq] at e1; subst e1; exact hrest.fit e2
    · rw [he] at e1; simp at e1

end Hexed.Adapt
