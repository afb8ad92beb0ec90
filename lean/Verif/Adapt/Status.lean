import Verif.Adapt.Ops

set_option autoImplicit false
set_option linter.unusedVariables false

/-! # Lemmas on the flood fill status of cells -/

namespace Hexed.Adapt
open Hexed.Tree (Path get modify refineNode unrefineNode setStatusNode findNeighbors findNeighbor IsDir Borders IsLeafAt Reachable)

variable {nd : Nat}

theorem mem_kids {p q : Path} : q ∈ kids nd p ↔ ∃ i < 2 ^ nd, q = p ++ [i] := by
  simp only [kids, List.mem_map, List.mem_range]
  constructor
  · rintro ⟨i, h, rfl⟩; exact ⟨i, h, rfl⟩
  · rintro ⟨i, h, rfl⟩; exact ⟨i, h, rfl⟩

/-- No element is to be replaced by one of the other kind. -/
def NoToggle (st : St nd) : Prop := ∀ d, ∀ e ∈ st.els d, e.record ≠ 3

/-- The status of the cell at `q`. -/
def statusAt (t : Tree nd) (q : Path) : Option Int := (get q t).map (·.status)

theorem get_modify_cases (f : Tree nd → Tree nd) : ∀ (p q : Path) (t c' : Tree nd), get q (modify f p t) = some c' →
    (¬p <+: q ∧ ∃ c, get q t = some c ∧ c.status = c'.status) ∨ ∃ s r, q = p ++ r ∧ get p t = some s ∧ get r (f s) = some c'
  | [], q, t, c', h => .inr ⟨t, q, rfl, rfl, by simpa [Tree.modify] using h⟩
  | i :: p, [], .mk r c s k, c', h => by
    simp only [Tree.modify, Tree.get, Option.some.injEq] at h
    subst h
    exact .inl ⟨by simp, _, rfl, rfl⟩
  | i :: p, j :: q, .mk r c s k, c', h => by
    simp only [Tree.modify] at h
    obtain ⟨u, hu, hs⟩ := Tree.get_cons_some.1 h
    simp only [Tree.children, List.getElem?_modify] at hu
    cases hk : k[j]? with
    | none => rw [hk] at hu; simp at hu
    | some v =>
      rw [hk] at hu
      by_cases hij : i = j
      · subst hij
        simp only [if_true, Option.map_eq_map, Option.map_some, Option.some.injEq] at hu
        subst hu
        rcases get_modify_cases f p q v c' hs with ⟨h1, x, h2, h3⟩ | ⟨x, r', h1, h2, h3⟩
        · refine .inl ⟨fun hp => h1 (List.cons_prefix_cons.1 hp).2, x, Tree.get_cons_some.2 ⟨v, hk, h2⟩, h3⟩
        · subst h1
          exact .inr ⟨x, r', rfl, Tree.get_cons_some.2 ⟨v, hk, h2⟩, h3⟩
      · simp only [if_neg hij, Option.map_eq_map, Option.map_some, Option.some.injEq] at hu
        have hu : v = u := by simpa using hu
        subst hu
        exact .inl ⟨fun hp => hij (List.cons_prefix_cons.1 hp).1, c', Tree.get_cons_some.2 ⟨v, hk, hs⟩, rfl⟩

/-- Unrefining leaves the status of the remaining cells alone. -/
theorem unrefine_status {t : Tree nd} {p q : Path} {c' : Tree nd} (h : get q (modify unrefineNode p t) = some c') :
    statusAt t q = some c'.status := by
  rcases get_modify_cases _ _ _ _ _ h with ⟨-, c, h1, h2⟩ | ⟨s, r, rfl, h1, h2⟩
  · simp [statusAt, h1, h2]
  · obtain ⟨l, c, st, k⟩ := s
    cases r with
    | nil => simp only [Tree.get, Option.some.injEq, unrefineNode] at h2; subst h2; simp [statusAt, h1, Tree.status]
    | cons i r => simp [Tree.get, unrefineNode, Tree.children] at h2

/-- Setting the status of one cell. -/
theorem setStatus_status {t : Tree nd} (f : Tree nd → Int) {p q : Path} {c' : Tree nd} (h : get q (modify (fun n => setStatusNode (f n) n) p t) = some c') :
    (q ≠ p ∧ statusAt t q = some c'.status) ∨ (q = p ∧ ∃ c, get p t = some c ∧ c'.status = f c) := by
  rcases get_modify_cases _ _ _ _ _ h with ⟨h0, c, h1, h2⟩ | ⟨s, r, rfl, h1, h2⟩
  · exact .inl ⟨by rintro rfl; exact h0 (List.prefix_refl _), by simp [statusAt, h1, h2]⟩
  · obtain ⟨l, c, st, k⟩ := s
    cases r with
    | nil => simp only [Tree.get, Option.some.injEq, setStatusNode] at h2; subst h2; exact .inr ⟨by simp, _, h1, by simp [Tree.status]⟩
    | cons i r =>
      refine .inl ⟨by simp, ?_⟩
      rw [statusAt, Tree.get_append, h1]
      simp only [setStatusNode, Tree.get, Tree.children] at h2
      simp only [Option.bind_some, Tree.get, Tree.children]
      cases hk : k[i]? with
      | none => rw [hk] at h2; simp at h2
      | some v => rw [hk] at h2; simp only at h2 ⊢; rw [h2]; rfl

/-- The surface test depends only on the geometry of a cell. -/
def Geometric (surf : Tree nd → Bool) : Prop := ∀ a b : Tree nd, a.rl = b.rl → a.coords = b.coords → surf a = surf b

/-- Setting the status of several cells. -/
theorem setStatuses_status (f : Tree nd → Int) (hf : ∀ a b : Tree nd, a.rl = b.rl → a.coords = b.coords → f a = f b) : ∀ (l : List Path) (t : Tree nd), Reachable t → (∀ q ∈ l, Present t q) → ∀ {q : Path} {c' : Tree nd},
    get q (l.foldl (fun t c => modify (fun n => setStatusNode (f n) n) c t) t) = some c' →
    (q ∉ l ∧ statusAt t q = some c'.status) ∨ (q ∈ l ∧ c'.status = f c') := by
  intro l
  induction l with
  | nil => intro t ht hl q c' h; exact .inl ⟨by simp, by simp [statusAt] at h ⊢; exact ⟨_, h, rfl⟩⟩
  | cons x l ih =>
    intro t ht hl q c' h
    simp only [List.foldl_cons] at h
    obtain ⟨r1, s1⟩ := setStatuses_sim f [x] t ht (fun q hq => hl q (by simp at hq; simp [hq]))
    simp only [List.foldl_cons, List.foldl_nil] at r1 s1
    have hl' : ∀ q ∈ l, Present (modify (fun n => setStatusNode (f n) n) x t) q := fun q hq => (Sim.shape s1 q).1.2 (hl q (by simp [hq]))
    obtain ⟨r2, s2⟩ := setStatuses_sim f l _ r1 hl'
    rcases ih _ r1 hl' h with ⟨h1, h2⟩ | ⟨h1, h2⟩
    · obtain ⟨c, hc, hcs⟩ : ∃ c, get q (modify (fun n => setStatusNode (f n) n) x t) = some c ∧ c.status = c'.status := by
        simpa [statusAt] using h2
      rcases setStatus_status f hc with ⟨h3, h4⟩ | ⟨h3, c0, h4, h5⟩
      · exact .inl ⟨by simp [h1, h3], by rw [h4, hcs]⟩
      · refine .inr ⟨by simp [h3], ?_⟩
        rw [← hcs, h5]
        subst h3
        have := cell_eq ht r2 h4 h
        exact hf _ _ this.1 this.2
    · exact .inr ⟨by simp [h1], h2⟩

/-- Refining sets the status of the children only. -/
theorem refineSetStatus_status {surf : Tree nd → Bool} (hg : Geometric surf) {t t' : Tree nd} (ht : Reachable t) {p : Path} (hp : IsLeafAt t p)
    (h : refineSetStatus surf t p = some t') {q : Path} {c' : Tree nd} (hq : get q t' = some c') :
    (q ∉ kids nd p ∧ statusAt t q = some c'.status) ∨ (q ∈ kids nd p ∧ (c'.status = if surf c' then 0 else -1)) := by
  obtain ⟨s, hs, hl⟩ := hp
  have hpr := refine_step ht ⟨s, hs, hl⟩
  simp only [refineSetStatus, hs, Option.bind_some] at h
  split at h
  · simp only [Option.some.injEq] at h
    subst h
    rcases setStatuses_status (fun n => (if surf n then 1 else 0) - 1) (fun a b h1 h2 => by simp only [hg a b h1 h2]) (kids nd p) _ hpr.1
      (fun q hq => ((hpr.2 q).1).2 (.inr (mem_kids.1 hq))) hq with ⟨h1, h2⟩ | ⟨h1, h2⟩
    · refine .inl ⟨h1, ?_⟩
      obtain ⟨c, hc, hcs⟩ : ∃ c, get q (modify refineNode p t) = some c ∧ c.status = c'.status := by simpa [statusAt] using h2
      rcases get_modify_cases _ _ _ _ _ hc with ⟨-, c0, g1, g2⟩ | ⟨s0, r, rfl, g1, g2⟩
      · simp [statusAt, g1, g2, hcs]
      · rw [hs] at g1
        simp only [Option.some.injEq] at g1
        subst g1
        have := (get_refineNode s r).1.1 ⟨c, g2⟩
        rcases this with rfl | ⟨i, hi, rfl⟩
        · obtain ⟨l, cc, st, k⟩ := s
          simp only [Tree.get, refineNode, Option.some.injEq] at g2
          subst g2
          simp only [Tree.status] at hcs
          simp [statusAt, hs, Tree.status, hcs]
        · exact absurd (mem_kids.2 ⟨i, hi, rfl⟩) h1
    · refine .inr ⟨h1, ?_⟩
      rw [h2]; split <;> simp
  · simp at h

/-- The status of each cell tells whether it intersects the surface. -/
def SurfKnown (surf : Tree nd → Bool) (t : Tree nd) : Prop := ∀ p c, get p t = some c → (c.status = 0 ↔ surf c = true)

theorem statusAt_some {t : Tree nd} {q : Path} {n : Int} : statusAt t q = some n ↔ ∃ c, get q t = some c ∧ c.status = n := by simp [statusAt]

theorem SurfKnown.of_eq {surf : Tree nd → Bool} (hg : Geometric surf) {t t' : Tree nd} (ht : Reachable t) (ht' : Reachable t') (h : SurfKnown surf t)
    (hs : ∀ q c', get q t' = some c' → statusAt t q = some c'.status ∨ (c'.status = 0 ↔ surf c' = true)) : SurfKnown surf t' := by
  intro q c' hq
  rcases hs q c' hq with h1 | h1
  · obtain ⟨c, hc, hcs⟩ := statusAt_some.1 h1
    rw [← hcs, h q c hc]
    obtain ⟨g1, g2⟩ := cell_eq ht ht' hc hq
    rw [hg c c' g1 g2]
  · exact h1

/-- Cells that are added get status 0 or -1 according to whether they intersect the surface, and the others keep theirs; in terms of properties
of all cells. -/
def StatusKept (surf : Tree nd → Bool) (t t' : Tree nd) : Prop := ∀ P : Tree nd → Int → Prop, (∀ a b n, a.rl = b.rl → a.coords = b.coords → P a n → P b n) →
  (∀ c, P c (if surf c then 0 else -1)) → (∀ q c, get q t = some c → P c c.status) → ∀ q c, get q t' = some c → P c c.status

theorem StatusKept.refl {surf : Tree nd → Bool} (t : Tree nd) : StatusKept surf t t := fun _ _ _ h => h

theorem StatusKept.trans {surf : Tree nd → Bool} {a b c : Tree nd} (h1 : StatusKept surf a b) (h2 : StatusKept surf b c) : StatusKept surf a c :=
  fun P hP hn h => h2 P hP hn (h1 P hP hn h)

end Hexed.Adapt
