import Verif.Adapt.Status
import Verif.Adapt.Unref2
import Verif.Adapt.Ready2
import Verif.Tree.Props

set_option autoImplicit false
set_option linter.unusedVariables false

/-! # Lemmas on the incremental flood fill -/

namespace Hexed.Adapt
open Hexed.Tree (Path get modify refineNode unrefineNode setStatusNode findNeighbors findNeighbor IsDir Borders IsLeafAt Reachable)

variable {nd : Nat}

/-- What every part of the flood fill guarantees. -/
structure FStep (surf : Tree nd → Bool) (st st' : St nd) : Prop where
  cons : Consistent st'
  len : ∀ d, (st.els d).length ≤ (st'.els d).length
  known : SurfKnown surf st.root → SurfKnown surf st'.root
  noreq : NoRequests st → NoRequests st'
  no3 : NoToggle st → NoToggle st'
  new : ∀ q, Exists st' q → (Exists st q ∧ statusAt st'.root q = statusAt st.root q) ∨ statusAt st'.root q = some 1

theorem FStep.refl {surf : Tree nd → Bool} {st : St nd} (h : Consistent st) : FStep surf st st :=
  ⟨h, fun _ => le_rfl, id, id, id, fun q hq => .inl ⟨hq, rfl⟩⟩

theorem FStep.trans {surf : Tree nd → Bool} {a b c : St nd} (h1 : FStep surf a b) (h2 : FStep surf b c) : FStep surf a c := by
  refine ⟨h2.cons, fun d => (h1.len d).trans (h2.len d), h2.known ∘ h1.known, h2.noreq ∘ h1.noreq, h2.no3 ∘ h1.no3, ?_⟩
  intro q hq
  rcases h2.new q hq with ⟨h3, h4⟩ | h3
  · rcases h1.new q h3 with ⟨h5, h6⟩ | h5
    · exact .inl ⟨h5, h4.trans h6⟩
    · exact .inr (h4.trans h5)
  · exact .inr h3

/-- Refining a cell without element. -/
theorem refine_fstep {surf : Tree nd → Bool} (hg : Geometric surf) {st : St nd} (h : Consistent st) {q : Path} (hq : IsLeafAt st.root q)
    (hne : ¬Exists st q) : ∃ t', refineSetStatus surf st.root q = some t' ∧ FStep surf st { st with root := t' } ∧
      ∀ x, Exists { st with root := t' } x ↔ Exists st x := by
  obtain ⟨t', e, r, sh⟩ := refineSetStatus_ok h.reach hq surf
  have hc : Consistent { st with root := t' } := h.reroot r (fun x hx => ((sh x).1).2 (.inl hx)) (fun x hx =>
    ((sh x).2).2 (.inl ⟨hx.leaf h, by rintro rfl; exact hne hx⟩))
  refine ⟨t', e, ⟨hc, fun _ => le_rfl, ?_, id, id, ?_⟩, fun x => Iff.rfl⟩
  · intro hk
    refine hk.of_eq hg h.reach r ?_
    intro x c' hx
    rcases refineSetStatus_status hg h.reach hq e hx with ⟨-, g⟩ | ⟨-, g⟩
    · exact .inl g
    · right; rw [g]; split <;> simp_all
  · intro x hx
    have hx' : Exists st x := hx
    refine .inl ⟨hx', ?_⟩
    obtain ⟨c', hc'⟩ : Present t' x := ((sh x).1).2 (.inl (IsLeafAt.present (hx'.leaf h)))
    rcases refineSetStatus_status hg h.reach hq e hc' with ⟨-, g⟩ | ⟨g, -⟩
    · rw [g]; simp [statusAt, hc']
    · obtain ⟨i, hi, rfl⟩ := mem_kids.1 g
      exact absurd (IsLeafAt.present (hx'.leaf h)) (by
        intro hp
        have := IsLeafAt.no_ext hq hp (List.prefix_append _ _)
        simp at this)

theorem collapse_length (st : St nd) (parent : Path) (cs : List Path) (d : Bool) : ((collapse st parent cs).els d).length = (st.els d).length := by
  simp only [collapse, List.length_map]; exact killAll_length cs st d

/-- Deleting cells. -/
theorem collapse_fstep {surf : Tree nd → Bool} (hg : Geometric surf) {st : St nd} (h : Consistent st) {parent : Path} (hp : Present st.root parent)
    (cs : List Path) (hne : ¬Exists st parent) : FStep surf st (collapse st parent cs) := by
  obtain ⟨c1, c2, c3⟩ := collapse_ok h hp cs hne
  have hroot : (collapse st parent cs).root = modify unrefineNode parent st.root := by
    show modify unrefineNode parent (killAll st cs).root = _
    rw [(killAll_evo st cs).root]
  refine ⟨c1, fun d => (collapse_length st parent cs d).ge, ?_, ?_, (collapse_tame st parent cs).no3, ?_⟩
  · intro hk
    refine hk.of_eq hg h.reach c1.reach ?_
    intro q c' hq
    rw [hroot] at hq
    exact .inl (unrefine_status hq)
  · intro hn d e he ht
    simp only [collapse, List.mem_map] at he
    obtain ⟨x, hx, rfl⟩ := he
    split at ht
    · simp at ht
    · rename_i hh
      rw [if_neg hh]
      obtain ⟨i, hi⟩ := List.mem_iff_getElem?.1 hx
      obtain ⟨y, hy⟩ := (killAll_evo st cs).at hi
      rcases (killAll_evo st cs).get d i y x hy hi with rfl | rfl
      · exact hn d x (List.mem_of_getElem? hy) ht
      · simp
  · intro q hq
    obtain ⟨c', hc'⟩ : Present (collapse st parent cs).root q := IsLeafAt.present (hq.leaf c1)
    refine .inl ⟨((c2 q).1 hq).1, ?_⟩
    have := hc'
    rw [hroot] at this
    rw [unrefine_status this]; simp [statusAt, hc']

/-- Adding an element. -/
theorem fill_fstep {surf : Tree nd → Bool} (hg : Geometric surf) {st : St nd} (h : Consistent st) {q : Path} {c : Tree nd} (hq : get q st.root = some c)
    (hl : c.children = []) (hs : c.status ≠ 0) (d : Bool) : FStep surf st { addElem st d q with root := modify (setStatusNode 1) q (addElem st d q).root } ∧
      Tree.Sim st.root (modify (setStatusNode 1) q st.root) ∧
      ∀ x, Exists { addElem st d q with root := modify (setStatusNode 1) q (addElem st d q).root } x ↔ Exists st x ∨ x = q := by
  obtain ⟨a1, a2⟩ := addElem_ok h d ⟨c, hq, hl⟩
  have hroot : (addElem st d q).root = st.root := rfl
  obtain ⟨r1, s1⟩ := setStatuses_sim (fun _ => (1 : Int)) [q] st.root h.reach (fun x hx => by simp at hx; subst hx; exact ⟨c, hq⟩)
  simp only [List.foldl_cons, List.foldl_nil] at r1 s1
  have hc : Consistent { addElem st d q with root := modify (setStatusNode 1) q (addElem st d q).root } :=
    a1.reroot r1 (fun x hx => (Sim.shape s1 x).1.2 hx) (fun x hx => (Sim.shape s1 x).2.2 (hx.leaf a1))
  refine ⟨⟨hc, ?_, ?_, ?_, (addElem_tame st d q).no3, ?_⟩, s1, a2⟩
  · intro d'
    simp only [addElem]
    split <;> simp
  · intro hk
    refine hk.of_eq hg h.reach r1 ?_
    intro x c' hx
    rcases setStatus_status (fun _ => (1 : Int)) hx with ⟨-, g⟩ | ⟨rfl, c0, g1, g2⟩
    · exact .inl g
    · right
      rw [hroot, hq] at g1; simp only [Option.some.injEq] at g1; subst g1
      obtain ⟨e1, e2⟩ := cell_eq h.reach r1 hq hx
      rw [g2, ← hg c c' e1 e2, ← hk x c hq]
      simp [hs]
  · intro hn d' e he ht
    rcases addElem_mem.1 he with ⟨x, hx, rfl⟩ | ⟨-, rfl⟩
    · split at ht
      · simp at ht
      · rename_i hh
        rw [if_neg hh]; exact hn d' x hx ht
    · simp
  · intro x hx
    have hx' := (a2 x).1 hx
    obtain ⟨c', hc'⟩ : Present (modify (setStatusNode 1) q st.root) x := IsLeafAt.present (hx.leaf hc)
    rcases setStatus_status (fun _ => (1 : Int)) hc' with ⟨g0, g⟩ | ⟨rfl, c0, g1, g2⟩
    · rcases hx' with hx' | rfl
      · refine .inl ⟨hx', ?_⟩
        show statusAt (modify (setStatusNode 1) q st.root) x = _
        rw [g]; simp [statusAt, hc']
      · exact absurd rfl g0
    · right
      show statusAt (modify (setStatusNode 1) x st.root) x = _
      simp [statusAt, hc', g2]

/-! ### Synchronization of levels -/

/-- Nothing to do for a face. -/
def SyncQuiet (st : St nd) (p : Path) (i : Nat) : Prop := ∀ q, findNeighbor st.root p (direction nd i) = some q → Exists st q ∨ p.length ≤ q.length + 1

theorem not_prefix_of_borders {st : St nd} {p m : Path} (hp : IsLeafAt st.root p) (hm : Present st.root m) (hlen : p.length ≤ m.length) (hne : m ≠ p) : ¬m <+: p := by
  intro hpre
  have := hpre.length_le
  exact hne (hpre.eq_of_length (by omega))

theorem syncFace_ok {surf : Tree nd → Bool} (hg : Geometric surf) {s : St nd × Bool} (h : Consistent s.1) {p : Path} (hp : Exists s.1 p) (i : Nat) :
    ∃ s', syncFace surf p p.length s i = some s' ∧ Exists s'.1 p ∧ FStep surf s.1 s'.1 ∧ ((s' = s ∧ SyncQuiet s.1 p i) ∨ s'.2 = true) := by
  obtain ⟨a, ha, hal⟩ := hp.leaf h
  simp only [syncFace, ha, Option.bind_some]
  cases hn : findNeighbor s.1.root p (direction nd i) with
  | none => exact ⟨s, rfl, hp, .refl h, .inl ⟨rfl, by intro q hq; rw [hn] at hq; simp at hq⟩⟩
  | some q =>
    obtain ⟨b, hb, hbl, hbor⟩ := Tree.find_neighbor_borders h.reach ha _ (isDir_direction i) hn
    have hquiet : ∀ {P : Prop}, (Exists s.1 q ∨ p.length ≤ q.length + 1) → SyncQuiet s.1 p i := by
      intro _ hh q' hq'; rw [hn] at hq'; simp only [Option.some.injEq] at hq'; subst hq'; exact hh
    simp only
    by_cases hex : exists_ s.1 q = true
    · rw [if_pos hex]; exact ⟨s, rfl, hp, .refl h, .inl ⟨rfl, hquiet (P := True) (.inl ((exists_iff h q).1 hex))⟩⟩
    · rw [if_neg hex]
      have hne : ¬Exists s.1 q := fun hh => hex ((exists_iff h q).2 hh)
      have hqp : q ≠ p := by rintro rfl; exact hne hp
      rw [level_eq h hb]
      simp only [Option.bind_some]
      by_cases h1 : q.length > p.length
      · rw [if_pos h1]
        have hq0 : q ≠ [] := by rintro rfl; simp at h1
        obtain ⟨m, j, rfl⟩ : ∃ m j, q = m ++ [j] := ⟨q.dropLast, q.getLast hq0, (List.dropLast_append_getLast hq0).symm⟩
        obtain ⟨cs, e1, e2, e3⟩ := childPaths_ok h (m := m) (i := j) ⟨b, hb⟩
        rw [List.dropLast_concat, e1]
        simp only [Option.bind_some]
        have hm : Present s.1.root m := present_prefix ⟨b, hb⟩ (List.prefix_append _ _)
        have hmex : ¬Exists s.1 m := by
          intro hh
          have := IsLeafAt.no_ext (hh.leaf h) ⟨b, hb⟩ (List.prefix_append _ _)
          simp at this
        have hmp : m ≠ p := by rintro rfl; exact hmex hp
        have hmp' : ¬m <+: p := not_prefix_of_borders (hp.leaf h) hm (by simp at h1; omega) hmp
        split
        · obtain ⟨r, e4, -⟩ := needsRefine_ok h hm
          rw [e4]
          simp only [Option.map_some]
          by_cases hr : r = true
          · subst hr; rw [if_pos rfl]; exact ⟨s, rfl, hp, .refl h, .inl ⟨rfl, hquiet (P := True) (.inr (by omega))⟩⟩
          · rw [if_neg hr]
            refine ⟨_, rfl, ?_, collapse_fstep hg h hm cs hmex, .inr rfl⟩
            refine ((collapse_ok h hm cs hmex).2.1 p).2 ⟨hp, ?_, hmp'⟩
            intro hpc
            obtain ⟨k, rfl⟩ := ((e3 p).1 hpc).2
            exact hmp' (List.prefix_append _ _)
        · exact ⟨s, rfl, hp, .refl h, .inl ⟨rfl, hquiet (P := True) (.inr (by omega))⟩⟩
      · rw [if_neg h1]
        obtain ⟨t', e, f, hx⟩ := refine_fstep hg h ⟨b, hb, hbl⟩ hne
        by_cases h2 : q.length + 1 < p.length
        · rw [if_pos h2, e]
          exact ⟨_, rfl, (hx p).2 hp, f, .inr rfl⟩
        · rw [if_neg h2]
          by_cases h3 : q.length < p.length
          · rw [if_pos h3]
            split
            · rw [e]; exact ⟨_, rfl, (hx p).2 hp, f, .inr rfl⟩
            · exact ⟨s, rfl, hp, .refl h, .inl ⟨rfl, hquiet (P := True) (.inr (by omega))⟩⟩
          · rw [if_neg h3]; exact ⟨s, rfl, hp, .refl h, .inl ⟨rfl, hquiet (P := True) (.inr (by omega))⟩⟩

/-- Loops. -/
theorem foldlM_fill {α : Type} (surf : Tree nd → Bool) (f : St nd × Bool → α → Option (St nd × Bool)) (I : St nd → Prop) (Q : St nd → α → Prop) : ∀ (l : List α),
    (∀ s, Consistent s.1 → I s.1 → ∀ x ∈ l, ∃ s', f s x = some s' ∧ I s'.1 ∧ FStep surf s.1 s'.1 ∧ ((s' = s ∧ Q s.1 x) ∨ s'.2 = true)) →
    ∀ s, Consistent s.1 → I s.1 →
    ∃ s', l.foldlM f s = some s' ∧ I s'.1 ∧ FStep surf s.1 s'.1 ∧ ((s' = s ∧ ∀ x ∈ l, Q s.1 x) ∨ s'.2 = true) := by
  intro l
  induction l with
  | nil => intro _ s hc hI; exact ⟨s, rfl, hI, .refl hc, .inl ⟨rfl, by simp⟩⟩
  | cons x l ih =>
    intro hf s hc hI
    obtain ⟨s1, e1, i1, f1, q1⟩ := hf s hc hI x (by simp)
    obtain ⟨s2, e2, i2, f2, q2⟩ := ih (fun s hc hI y hy => hf s hc hI y (by simp [hy])) s1 f1.cons i1
    refine ⟨s2, by rw [List.foldlM_cons, e1]; exact e2, i2, f1.trans f2, ?_⟩
    rcases q2 with ⟨rfl, q2⟩ | q2
    · rcases q1 with ⟨rfl, q1⟩ | q1
      · refine .inl ⟨rfl, ?_⟩
        intro y hy
        rcases List.mem_cons.1 hy with rfl | hy
        · exact q1
        · exact q2 y hy
      · exact .inr q1
    · exact .inr q2

/-- Nothing to do for an element. -/
def AllQuiet (P : Path → Nat → Prop) (st : St nd) (h : Bool × Nat) : Prop := ∀ e p, (st.els h.1)[h.2]? = some e → e.tree = some p → e.record ≠ 2 → ∀ i < 2 * nd, P p i

theorem syncOne_ok {surf : Tree nd → Bool} (hg : Geometric surf) {s : St nd × Bool} (h : Consistent s.1) {x : Bool × Nat} (hx : x.2 < (s.1.els x.1).length) :
    ∃ s', syncOne surf s x = some s' ∧ FStep surf s.1 s'.1 ∧ ((s' = s ∧ AllQuiet (SyncQuiet s.1) s.1 x) ∨ s'.2 = true) := by
  have hi := List.getElem?_eq_getElem hx
  generalize (s.1.els x.1)[x.2] = e at hi
  simp only [syncOne, hi, Option.bind_some]
  cases ht : e.tree with
  | none => exact ⟨s, rfl, .refl h, .inl ⟨rfl, by intro e' p h1 h2; rw [hi] at h1; simp only [Option.some.injEq] at h1; subst h1; rw [ht] at h2; simp at h2⟩⟩
  | some p =>
    simp only
    by_cases hr : e.record ≠ 2
    · rw [if_pos hr]
      have hp : Exists s.1 p := ⟨x.1, e, List.mem_of_getElem? hi, ht, hr⟩
      obtain ⟨a, ha⟩ := IsLeafAt.present (hp.leaf h)
      rw [level_eq h ha]
      simp only [Option.bind_some]
      obtain ⟨s', e1, -, f1, q1⟩ := foldlM_fill surf (syncFace surf p p.length) (fun st => Exists st p) (fun st i => SyncQuiet st p i) (List.range (2 * nd))
        (fun s hc hI i _ => syncFace_ok hg hc hI i) s h hp
      refine ⟨s', e1, f1, ?_⟩
      rcases q1 with ⟨rfl, q1⟩ | q1
      · refine .inl ⟨rfl, ?_⟩
        intro e' p' h1 h2 _ i hlt
        rw [hi] at h1; simp only [Option.some.injEq] at h1; subst h1
        rw [ht] at h2; simp only [Option.some.injEq] at h2; subst h2
        exact q1 i (List.mem_range.2 hlt)
      · exact .inr q1
    · rw [if_neg hr]
      refine ⟨s, rfl, .refl h, .inl ⟨rfl, ?_⟩⟩
      intro e' p' h1 _ h3
      rw [hi] at h1; simp only [Option.some.injEq] at h1; subst h1
      exact absurd h3 hr

/-! ### Filling -/

/-- A cell that need not be filled. -/
def Filled (st : St nd) (q : Path) : Prop := Exists st q ∨ statusAt st.root q = some 0

def FillQuiet (st : St nd) (p : Path) (i : Nat) : Prop := ∀ l, findNeighbors st.root p (direction nd i) = some l → ∀ q ∈ l, Filled st q

theorem fillOne_ok {surf : Tree nd → Bool} (hg : Geometric surf) {s : St nd × Bool} (h : Consistent s.1) (d : Bool) {q : Path} (hq : IsLeafAt s.1.root q) :
    ∃ s', fillOne d s q = some s' ∧ (∀ x, IsLeafAt s.1.root x → IsLeafAt s'.1.root x) ∧ (∀ x, Exists s.1 x → Exists s'.1 x) ∧
      FStep surf s.1 s'.1 ∧ ((s' = s ∧ Filled s.1 q) ∨ s'.2 = true) := by
  simp only [fillOne]
  by_cases hex : exists_ s.1 q = true
  · rw [if_pos hex]; exact ⟨s, rfl, fun _ => id, fun _ => id, .refl h, .inl ⟨rfl, .inl ((exists_iff h q).1 hex)⟩⟩
  · rw [if_neg hex]
    obtain ⟨c, hc, hl⟩ := hq
    rw [hc]
    simp only [Option.map_some]
    by_cases hs : c.status = 0
    · rw [if_pos hs]; exact ⟨s, rfl, fun _ => id, fun _ => id, .refl h, .inl ⟨rfl, .inr (by simp [statusAt, hc, hs])⟩⟩
    · rw [if_neg hs]
      obtain ⟨f, sim, ex⟩ := fill_fstep hg h hc hl hs d
      exact ⟨_, rfl, fun x hx => (Sim.shape sim x).2.2 hx, fun x hx => (ex x).2 (.inl hx), f, .inr rfl⟩

theorem fillFace_ok {surf : Tree nd → Bool} (hg : Geometric surf) {s : St nd × Bool} (h : Consistent s.1) (d : Bool) {p : Path} (hp : Exists s.1 p) (i : Nat) :
    ∃ s', fillFace d p s i = some s' ∧ Exists s'.1 p ∧ FStep surf s.1 s'.1 ∧ ((s' = s ∧ FillQuiet s.1 p i) ∨ s'.2 = true) := by
  obtain ⟨a, ha, hal⟩ := hp.leaf h
  obtain ⟨l, e1, -, e2⟩ := Tree.find_neighbors_exact h.reach ha _ (isDir_direction (nd := nd) i)
  have hleaf : ∀ q ∈ l, IsLeafAt s.1.root q := fun q hq => by obtain ⟨b, h1, h2, -⟩ := (e2 q).1 hq; exact ⟨b, h1, h2⟩
  obtain ⟨s', e3, i3, f3, q3⟩ := foldlM_fill surf (fillOne d) (fun st => (∀ q ∈ l, IsLeafAt st.root q) ∧ Exists st p) (fun st q => Filled st q) l
    (fun s hc hI q hq => by
      obtain ⟨s', g1, g2, g3, g4, g5⟩ := fillOne_ok hg hc d (hI.1 q hq)
      exact ⟨s', g1, ⟨fun x hx => g2 x (hI.1 x hx), g3 p hI.2⟩, g4, g5⟩) s h ⟨hleaf, hp⟩
  refine ⟨s', by simp only [fillFace, e1, Option.bind_some]; exact e3, i3.2, f3, ?_⟩
  rcases q3 with ⟨rfl, q3⟩ | q3
  · refine .inl ⟨rfl, ?_⟩
    intro l' hl'
    rw [e1] at hl'; simp only [Option.some.injEq] at hl'; subst hl'
    exact q3
  · exact .inr q3

theorem fillElem_ok {surf : Tree nd → Bool} (hg : Geometric surf) {s : St nd × Bool} (h : Consistent s.1) (d : Bool) {j : Nat} (hj : j < (s.1.els d).length) :
    ∃ s', fillElem d s j = some s' ∧ FStep surf s.1 s'.1 ∧ ((s' = s ∧ AllQuiet (FillQuiet s.1) s.1 (d, j)) ∨ s'.2 = true) := by
  have hi := List.getElem?_eq_getElem hj
  generalize (s.1.els d)[j] = e at hi
  simp only [fillElem, hi, Option.bind_some]
  cases ht : e.tree with
  | none => exact ⟨s, rfl, .refl h, .inl ⟨rfl, by intro e' p h1 h2; simp only [hi, Option.some.injEq] at h1; subst h1; rw [ht] at h2; simp at h2⟩⟩
  | some p =>
    simp only
    by_cases hr : e.record ≠ 2
    · rw [if_pos hr]
      have hp : Exists s.1 p := ⟨d, e, List.mem_of_getElem? hi, ht, hr⟩
      obtain ⟨s', e1, -, f1, q1⟩ := foldlM_fill surf (fillFace d p) (fun st => Exists st p) (fun st i => FillQuiet st p i) (List.range (2 * nd))
        (fun s hc hI i _ => fillFace_ok hg hc d hI i) s h hp
      refine ⟨s', e1, f1, ?_⟩
      rcases q1 with ⟨rfl, q1⟩ | q1
      · refine .inl ⟨rfl, ?_⟩
        intro e' p' h1 h2 _ i hlt
        simp only [hi, Option.some.injEq] at h1; subst h1
        rw [ht] at h2; simp only [Option.some.injEq] at h2; subst h2
        exact q1 i (List.mem_range.2 hlt)
      · exact .inr q1
    · rw [if_neg hr]
      refine ⟨s, rfl, .refl h, .inl ⟨rfl, ?_⟩⟩
      intro e' p' h1 _ h3
      simp only [hi, Option.some.injEq] at h1; subst h1
      exact absurd h3 hr

theorem fillPass_ok {surf : Tree nd → Bool} (hg : Geometric surf) {st : St nd} (h : Consistent st) :
    ∃ s', fillPass surf st = some s' ∧ FStep surf st s'.1 ∧
      ((s' = (st, false) ∧ ∀ p, Exists st p → ∀ i < 2 * nd, SyncQuiet st p i ∧ FillQuiet st p i) ∨ s'.2 = true) := by
  obtain ⟨s1, e1, -, f1, q1⟩ := foldlM_fill surf (syncOne surf) (fun s => ∀ d, (st.els d).length ≤ (s.els d).length) (fun s x => AllQuiet (SyncQuiet s) s x) (handles st)
    (fun s hc hI x hx => by
      obtain ⟨s', g1, g2, g3⟩ := syncOne_ok hg hc (x := x) ((mem_handles.1 hx).trans_le (hI _))
      exact ⟨s', g1, fun d => (hI d).trans (g2.len d), g2, g3⟩) (st, false) h (fun _ => le_rfl)
  have fe : ∀ (d : Bool) (s1 : St nd × Bool), Consistent s1.1 → ∃ s2, (List.range (s1.1.els d).length).foldlM (fillElem d) s1 = some s2 ∧ FStep surf s1.1 s2.1 ∧
      ((s2 = s1 ∧ ∀ j < (s1.1.els d).length, AllQuiet (FillQuiet s1.1) s1.1 (d, j)) ∨ s2.2 = true) := by
    intro d s1 hc1
    obtain ⟨s2, e2, -, f2, q2⟩ := foldlM_fill surf (fillElem d) (fun s => ∀ d, (s1.1.els d).length ≤ (s.els d).length) (fun s j => AllQuiet (FillQuiet s) s (d, j))
      (List.range (s1.1.els d).length) (fun s hc hI j hj => by
        obtain ⟨s', g1, g2, g3⟩ := fillElem_ok hg hc d (j := j) ((List.mem_range.1 hj).trans_le (hI d))
        exact ⟨s', g1, fun d => (hI d).trans (g2.len d), g2, g3⟩) s1 hc1 (fun _ => le_rfl)
    refine ⟨s2, e2, f2, ?_⟩
    rcases q2 with ⟨q2, q3⟩ | q2
    · exact .inl ⟨q2, fun j hj => q3 j (List.mem_range.2 hj)⟩
    · exact .inr q2
  obtain ⟨s2, e2, f2, q2⟩ := fe false s1 f1.cons
  obtain ⟨s3, e3, f3, q3⟩ := fe true s2 f2.cons
  refine ⟨s3, by simp only [fillPass, e1, Option.bind_some, e2, e3], f1.trans (f2.trans f3), ?_⟩
  rcases q3 with ⟨rfl, q3⟩ | q3
  · rcases q2 with ⟨rfl, q2⟩ | q2
    · rcases q1 with ⟨rfl, q1⟩ | q1
      · refine .inl ⟨rfl, ?_⟩
        rintro p ⟨d, e, he, ht, hr⟩ i hi
        obtain ⟨j, hj⟩ := List.mem_iff_getElem?.1 he
        have hjl : j < (st.els d).length := (List.getElem?_eq_some_iff.1 hj).1
        refine ⟨q1 (d, j) (mem_handles.2 hjl) e p hj ht hr i hi, ?_⟩
        cases d
        · exact q2 j hjl e p hj ht hr i hi
        · exact q3 j hjl e p hj ht hr i hi
      · exact .inr q1
    · exact .inr q2
  · exact .inr q3

/-- The whole loop. -/
theorem fill_loop {surf : Tree nd → Bool} (hg : Geometric surf) : ∀ (n k : Nat) (st : St nd), Consistent st →
    ∃ r, repeatPass (fun _ => fillPass surf) (fun _ _ => []) k n st = some r ∧ ∀ st', r = some st' →
      FStep surf st st' ∧ ∀ p, Exists st' p → ∀ i < 2 * nd, SyncQuiet st' p i ∧ FillQuiet st' p i := by
  intro n
  induction n with
  | zero => intro k st h; exact ⟨none, rfl, by simp⟩
  | succ n ih =>
    intro k st h
    obtain ⟨s, e, f, q⟩ := fillPass_ok hg h
    simp only [repeatPass, e, Option.bind_some]
    by_cases hb : s.2 = true
    · rw [if_pos hb]
      obtain ⟨r, e', g⟩ := ih (k + 1) s.1 f.cons
      refine ⟨r, e', fun st' hr => ?_⟩
      obtain ⟨g1, g2⟩ := g st' hr
      exact ⟨f.trans g1, g2⟩
    · rw [if_neg hb]
      refine ⟨some s.1, rfl, ?_⟩
      rintro st' hr
      simp only [Option.some.injEq] at hr
      subst hr
      rcases q with ⟨rfl, q⟩ | q
      · exact ⟨f, q⟩
      · exact absurd q hb

end Hexed.Adapt
