import Verif.Adapt.Lemmas

set_option autoImplicit false
set_option linter.unusedVariables false

namespace Hexed.Adapt
open Hexed.Tree (Path get modify refineNode unrefineNode setStatusNode findNeighbors findNeighbor IsDir Borders IsLeafAt Reachable RootWF)

variable {nd : Nat}

/-- The cell exists. -/
def Present (t : Tree nd) (p : Path) : Prop := ∃ c, get p t = some c

theorem IsLeafAt.present {t : Tree nd} {p : Path} (h : IsLeafAt t p) : Present t p := ⟨_, h.choose_spec.1⟩

theorem get_modify_ext (f : Tree nd → Tree nd) : ∀ (p : Path) (t s : Tree nd), get p t = some s → ∀ r, get (p ++ r) (modify f p t) = get r (f s)
  | [], t, s, h, r => by simp only [Tree.get, Option.some.injEq] at h; subst h; rfl
  | i :: p, .mk l c st k, s, h, r => by
    obtain ⟨u, hu, hs⟩ := Tree.get_cons_some.1 h
    simp only [Tree.children] at hu
    simp only [List.cons_append, Tree.modify, Tree.get, Tree.children, List.getElem?_modify, hu]
    simp only [Option.map_eq_map, Option.map_some, if_true]
    exact get_modify_ext f p u s hs r

theorem shape_modify (f : Tree nd → Tree nd) : ∀ (p q : Path) (t : Tree nd), ¬p <+: q →
    (Present (modify f p t) q ↔ Present t q) ∧ (IsLeafAt (modify f p t) q ↔ IsLeafAt t q)
  | [], q, t, h => absurd List.nil_prefix h
  | i :: p, [], .mk l c st k, h => by
    simp [Present, IsLeafAt, Tree.get, Tree.modify, Tree.children]
  | i :: p, j :: q, .mk l c st k, h => by
    simp only [Present, IsLeafAt, Tree.modify, Tree.get, Tree.children, List.getElem?_modify]
    by_cases hij : i = j
    · subst hij
      cases hk : k[i]? with
      | none => simp
      | some u =>
        simp only [Option.map_eq_map, Option.map_some, if_true]
        exact shape_modify f p q u (fun hh => h (by simpa using hh))
    · cases hk : k[j]? with
      | none => simp
      | some u => simp [hij]

theorem modify_congr (f g : Tree nd → Tree nd) : ∀ (p : Path) (t s : Tree nd), get p t = some s → f s = g s → modify f p t = modify g p t
  | [], t, s, h, hfg => by simp only [Tree.get, Option.some.injEq] at h; subst h; exact hfg
  | i :: p, .mk l c st k, s, h, hfg => by
    obtain ⟨u, hu, hs⟩ := Tree.get_cons_some.1 h
    simp only [Tree.children] at hu
    simp only [Tree.modify]
    congr 1
    apply List.ext_getElem?
    intro j
    rw [List.getElem?_modify, List.getElem?_modify]
    by_cases hij : i = j
    · subst hij; rw [hu]; simp [modify_congr f g p u s hs hfg]
    · simp [hij]

theorem Sim.shape {t t' : Tree nd} (h : Tree.Sim t t') (q : Path) : (Present t' q ↔ Present t q) ∧ (IsLeafAt t' q ↔ IsLeafAt t q) := by
  constructor
  · constructor
    · rintro ⟨c, hc⟩; obtain ⟨c', h1, -⟩ := h.symm.get hc; exact ⟨c', h1⟩
    · rintro ⟨c, hc⟩; obtain ⟨c', h1, -⟩ := h.get hc; exact ⟨c', h1⟩
  · constructor
    · rintro ⟨c, hc, hl⟩; obtain ⟨c', h1, h2⟩ := h.symm.get hc; exact ⟨c', h1, h2.leaf.1 hl⟩
    · rintro ⟨c, hc, hl⟩; obtain ⟨c', h1, h2⟩ := h.get hc; exact ⟨c', h1, h2.leaf.1 hl⟩

/-- The geometry of a cell depends only on its path. -/
theorem cell_of_path : ∀ (q : Path) (t t' s s' : Tree nd), Tree.WF t → Tree.WF t' → t.rl = t'.rl → t.coords = t'.coords →
    get q t = some s → get q t' = some s' → s.rl = s'.rl ∧ s.coords = s'.coords
  | [], t, t', s, s', _, _, h1, h2, g, g' => by
    simp only [Tree.get, Option.some.injEq] at g g'; subst g; subst g'; exact ⟨h1, h2⟩
  | i :: q, .mk l c st k, .mk l' c' st' k', s, s', w, w', h1, h2, g, g' => by
    obtain ⟨u, hu, hs⟩ := Tree.get_cons_some.1 g
    obtain ⟨u', hu', hs'⟩ := Tree.get_cons_some.1 g'
    simp only [Tree.children] at hu hu'
    obtain ⟨a1, a2, a3⟩ := w.child hu
    obtain ⟨b1, b2, b3⟩ := w'.child hu'
    simp only [Tree.rl, Tree.coords] at h1 h2
    exact cell_of_path q u u' s s' a3 b3 (by rw [a1, b1, h1]) (by rw [a2, b2, h2]) hs hs'

theorem cell_eq {t t' : Tree nd} (h : Reachable t) (h' : Reachable t') {q : Path} {s s' : Tree nd} (g : get q t = some s) (g' : get q t' = some s') :
    s.rl = s'.rl ∧ s.coords = s'.coords :=
  cell_of_path q t t' s s' h.root.wf h'.root.wf (by rw [h.root.rl0, h'.root.rl0]) (by rw [h.root.c0, h'.root.c0]) g g'

theorem borders_congr {a a' b b' : Tree nd} (ha : a.rl = a'.rl ∧ a.coords = a'.coords) (hb : b.rl = b'.rl ∧ b.coords = b'.coords) (dir : Fin nd → Int) :
    Borders a b dir ↔ Borders a' b' dir := by
  unfold Borders Tree.lo Tree.hi
  rw [ha.1, ha.2, hb.1, hb.2]

theorem get_refineNode (s : Tree nd) (r : Path) : (Present (refineNode s) r ↔ r = [] ∨ ∃ i < 2 ^ nd, r = [i]) ∧
    (IsLeafAt (refineNode s) r ↔ ∃ i < 2 ^ nd, r = [i]) := by
  obtain ⟨l, c, st, k⟩ := s
  have hpos : 0 < 2 ^ nd := Nat.two_pow_pos nd
  cases r with
  | nil =>
    have : (List.range (2 ^ nd)) ≠ [] := by simp
    simp [Present, IsLeafAt, Tree.get, refineNode, Tree.children]
  | cons i r =>
    simp only [Present, IsLeafAt, refineNode, Tree.get, Tree.children, List.getElem?_map]
    by_cases hi : i < 2 ^ nd
    · simp only [List.getElem?_range hi, Option.map_some]
      cases r with
      | nil => simp [Tree.get, hi, Tree.children]
      | cons j r => simp [Tree.get, Tree.children]
    · have : (List.range (2 ^ nd))[i]? = none := by simp; omega
      simp only [this, Option.map_none]
      simp
      intro h hh; omega

theorem refine_step {t : Tree nd} (h : Reachable t) {p : Path} (hp : IsLeafAt t p) :
    Reachable (modify refineNode p t) ∧ ∀ q, (Present (modify refineNode p t) q ↔ Present t q ∨ ∃ i < 2 ^ nd, q = p ++ [i]) ∧
      (IsLeafAt (modify refineNode p t) q ↔ (IsLeafAt t q ∧ q ≠ p) ∨ ∃ i < 2 ^ nd, q = p ++ [i]) := by
  obtain ⟨s, hs, hl⟩ := hp
  refine ⟨.ok (.refine p) h (by simp [Tree.step, hs, Tree.isLeaf, hl]), ?_⟩
  intro q
  by_cases hpq : p <+: q
  · obtain ⟨r, rfl⟩ := hpq
    have e := get_modify_ext refineNode p t s hs r
    have g := get_refineNode s r
    have e0 : get (p ++ r) t = get r s := by rw [Tree.get_append, hs]; rfl
    have p1 : Present (modify refineNode p t) (p ++ r) ↔ Present (refineNode s) r := by simp only [Present, e]
    have p2 : IsLeafAt (modify refineNode p t) (p ++ r) ↔ IsLeafAt (refineNode s) r := by simp only [IsLeafAt, e]
    have p3 : Present t (p ++ r) ↔ r = [] := by
      simp only [Present, e0]
      cases r with
      | nil => simp [Tree.get]
      | cons i r => simp [Tree.get_leaf_cons hl]
    have p4 : ¬(IsLeafAt t (p ++ r) ∧ p ++ r ≠ p) := by
      rintro ⟨hx, hne⟩
      have := p3.1 (IsLeafAt.present hx)
      exact hne (by simp [this])
    refine ⟨p1.trans (g.1.trans (by rw [p3]; simp)), p2.trans (g.2.trans ?_)⟩
    simp only [p4, false_or, List.append_cancel_left_eq]
  · have := shape_modify refineNode p q t hpq
    have hne : ¬∃ i < 2 ^ nd, q = p ++ [i] := by rintro ⟨i, -, rfl⟩; exact hpq (List.prefix_append _ _)
    refine ⟨this.1.trans (by simp [hne]), this.2.trans ?_⟩
    have : q ≠ p := by rintro rfl; exact hpq (List.prefix_refl _)
    simp [hne, this]

theorem setStatuses_sim (f : Tree nd → Int) : ∀ (l : List Path) (t : Tree nd), Reachable t → (∀ q ∈ l, Present t q) →
    Reachable (l.foldl (fun t c => modify (fun n => setStatusNode (f n) n) c t) t) ∧ Tree.Sim t (l.foldl (fun t c => modify (fun n => setStatusNode (f n) n) c t) t) := by
  intro l
  induction l with
  | nil => intro t h _; exact ⟨h, Tree.Sim.refl t⟩
  | cons c l ih =>
    intro t h hl
    obtain ⟨s, hs⟩ := hl c (by simp)
    rw [List.foldl_cons]
    have e : modify (fun n => setStatusNode (f n) n) c t = modify (setStatusNode (f s)) c t := modify_congr _ _ c t s hs rfl
    rw [e]
    have hsim := Tree.sim_modify (f s) hs
    have h' : Reachable (modify (setStatusNode (f s)) c t) := .ok (.setStatus c (f s)) h (by simp [Tree.step, hs])
    obtain ⟨i1, i2⟩ := ih _ h' (fun q hq => (Sim.shape hsim q).1.2 (hl q (by simp [hq])))
    exact ⟨i1, hsim.trans i2⟩

/-- `refine_set_status` on a leaf. -/
theorem refineSetStatus_ok {t : Tree nd} (h : Reachable t) {p : Path} (hp : IsLeafAt t p) (surf : Tree nd → Bool) :
    ∃ t', refineSetStatus surf t p = some t' ∧ Reachable t' ∧ ∀ q, (Present t' q ↔ Present t q ∨ q ∈ kids nd p) ∧
      (IsLeafAt t' q ↔ (IsLeafAt t q ∧ q ≠ p) ∨ q ∈ kids nd p) := by
  obtain ⟨h1, h2⟩ := refine_step h hp
  have hk : ∀ q, q ∈ kids nd p ↔ ∃ i < 2 ^ nd, q = p ++ [i] := by
    intro q; simp only [kids, List.mem_map, List.mem_range]
    constructor
    · rintro ⟨i, hi, rfl⟩; exact ⟨i, hi, rfl⟩
    · rintro ⟨i, hi, rfl⟩; exact ⟨i, hi, rfl⟩
  obtain ⟨h3, h4⟩ := setStatuses_sim (fun n => (if surf n then 1 else 0) - 1) (kids nd p) _ h1 (fun q hq => (h2 q).1.2 (.inr ((hk q).1 hq)))
  obtain ⟨s, hs, hl⟩ := hp
  refine ⟨_, by simp [refineSetStatus, hs, Tree.isLeaf, hl], h3, ?_⟩
  intro q
  rw [hk]
  exact ⟨(Sim.shape h4 q).1.trans (h2 q).1, (Sim.shape h4 q).2.trans (h2 q).2⟩

/-- `unrefine`. -/
theorem unrefine_step {t : Tree nd} (h : Reachable t) {p : Path} (hp : Present t p) :
    Reachable (modify unrefineNode p t) ∧ ∀ q, (Present (modify unrefineNode p t) q ↔ Present t q ∧ (p <+: q → p = q)) ∧
      (IsLeafAt (modify unrefineNode p t) q ↔ (IsLeafAt t q ∧ ¬p <+: q) ∨ q = p) := by
  obtain ⟨s, hs⟩ := hp
  refine ⟨.ok (.unrefine p) h (by simp [Tree.step, hs]), ?_⟩
  intro q
  by_cases hpq : p <+: q
  · obtain ⟨r, rfl⟩ := hpq
    have e := get_modify_ext unrefineNode p t s hs r
    have e0 : get (p ++ r) t = get r s := by rw [Tree.get_append, hs]; rfl
    obtain ⟨l, c, st, k⟩ := s
    cases r with
    | nil =>
      simp only [List.append_nil] at e e0 ⊢
      simp only [Present, IsLeafAt, e, Tree.get, unrefineNode, Tree.children, hs]
      simp
    | cons i r =>
      have : get (i :: r) (unrefineNode (.mk l c st k)) = none := by simp [Tree.get, unrefineNode, Tree.children]
      simp only [Present, IsLeafAt, e, this]
      simp
  · have := shape_modify unrefineNode p q t hpq
    have hne : q ≠ p := by rintro rfl; exact hpq (List.prefix_refl _)
    exact ⟨this.1.trans (by simp [hpq]), this.2.trans (by simp [hpq, hne])⟩

end Hexed.Adapt
