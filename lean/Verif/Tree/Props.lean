import Verif.Tree.Flood

set_option autoImplicit false
set_option linter.unusedVariables false

/-!
Properties C01-C07 of `hexed::Tree`. The specification vocabulary (`lo`, `hi`, `Owns`, `Borders`, `ShareFace`,
`FloodReach`, ...) is in `Spec.lean`; `Reachable` (Model.lean) means "obtained from a new tree by some history of calls".
-/

namespace Hexed.Tree
variable {nd : Nat}

/-! ### C01 -/

/-- C01: the leaves tile the root cell. Whatever tie-breaking bias is chosen, every point that belongs to the root cell
belongs to exactly one leaf (and leaves own no other points). -/
theorem leaves_tile {t : Tree nd} (h : Reachable t) (bias : Fin nd → Int) (x : Fin nd → ℚ) :
    (Owns t bias x → ∃ p s, (get p t = some s ∧ s.children = [] ∧ Owns s bias x) ∧
      ∀ q u, get q t = some u → u.children = [] → Owns u bias x → q = p) ∧
    (∀ p s, get p t = some s → Owns s bias x → Owns t bias x) := by
  have hw := h.root.wf
  refine ⟨fun ho => ?_, fun p s hp hs => owns_sub hw hp hs⟩
  have ex : ∀ (t : Tree nd), WF t → Owns t bias x → ∃ p s, get p t = some s ∧ s.children = [] ∧ Owns s bias x := by
    intro t
    induction t using induct with
    | h r c s k ih =>
      intro hw ho
      by_cases hk : k = []
      · subst hk; exact ⟨[], _, rfl, rfl, ho⟩
      · obtain ⟨i, a, h1, h2⟩ := child_cover hw hk bias x ho
        obtain ⟨p, s', g1, g2, g3⟩ := ih a (List.mem_of_getElem? h1) (hw.child h1).2.2 h2
        exact ⟨i :: p, s', get_cons_some.2 ⟨a, h1, g1⟩, g2, g3⟩
  obtain ⟨p, s, h1, h2, h3⟩ := ex t hw ho
  refine ⟨p, s, ⟨h1, h2, h3⟩, ?_⟩
  intro q u hq hu hou
  by_contra hne
  obtain ⟨d, hd⟩ := leaves_disjoint hw h1 hq h2 hu (fun h => hne h.symm)
  exact owns_disjoint h3 hou d hd

/-- C01: `find_leaf(level, coords, bias)` called on the root returns a pointer `p` iff `p` is the leaf that owns the
point, and `nullptr` iff the point does not belong to the root cell. -/
theorem find_leaf_exact {t : Tree nd} (h : Reachable t) (level : Nat) (c bias : Fin nd → Int)
    (hb : ∀ d, bias d = 0 ∨ bias d = 1) :
    (∀ p, findLeaf level c bias t = some p ↔
      ∃ s, get p t = some s ∧ s.children = [] ∧ Owns s bias (gridPoint level c)) ∧
    (findLeaf level c bias t = none ↔ ¬ Owns t bias (gridPoint level c)) := by
  have hw := h.root.wf
  refine ⟨fun p => ⟨fun hp => findLeaf_sound hb hw hp, ?_⟩, findLeaf_none_iff hb t⟩
  rintro ⟨s, h1, h2, h3⟩
  exact findLeaf_of_leaf hb hw h1 h2 h3

/-- C01, called on any element `e` of the tree instead of the root: same statement for the leaves below `e`
("only considers this element and its descendents", Tree.hpp). -/
theorem find_leaf_exact_sub {t e : Tree nd} (h : Reachable t) {pe : Path} (he : get pe t = some e) (level : Nat)
    (c bias : Fin nd → Int) (hb : ∀ d, bias d = 0 ∨ bias d = 1) :
    (∀ p, findLeaf level c bias e = some p ↔
      ∃ s, get (pe ++ p) t = some s ∧ s.children = [] ∧ Owns s bias (gridPoint level c)) ∧
    (findLeaf level c bias e = none ↔ ¬ Owns e bias (gridPoint level c)) := by
  have hw := h.root.wf.get he
  have hg : ∀ p, get (pe ++ p) t = get p e := fun p => by rw [get_append, he]; rfl
  refine ⟨fun p => ⟨fun hp => ?_, ?_⟩, findLeaf_none_iff hb e⟩
  · obtain ⟨s, h1, h2, h3⟩ := findLeaf_sound hb hw hp
    exact ⟨s, by rw [hg, h1], h2, h3⟩
  · rintro ⟨s, h1, h2, h3⟩
    exact findLeaf_of_leaf hb hw (by rw [← hg, h1]) h2 h3

/-! ### C02 -/

/-- C02: `find_leaf(position)`. For every element `e`, `nullptr` is returned iff the position is outside the closed
nominal box of `e`, and any other result is a leaf below `e` whose closed nominal box contains the position. -/
theorem find_leaf_position {K : Type} [Field K] [LinearOrder K] [IsStrictOrderedRing K] {t e : Tree nd} (h : Reachable t)
    {pe : Path} (he : get pe t = some e) (rootSz : K) (orig pos : Fin nd → K) :
    (findLeafPos rootSz orig pos e = none ↔
      ¬ ∀ d, e.nominalPosition rootSz orig d ≤ pos d ∧ pos d ≤ e.nominalPosition rootSz orig d + e.nominalSize rootSz) ∧
    (∀ p, findLeafPos rootSz orig pos e = some p → ∃ s, get (pe ++ p) t = some s ∧ s.children = [] ∧
      ∀ d, s.nominalPosition rootSz orig d ≤ pos d ∧ pos d ≤ s.nominalPosition rootSz orig d + s.nominalSize rootSz) := by
  refine ⟨findLeafPos_none_iff rootSz orig pos e, fun p hp => ?_⟩
  obtain ⟨s, h1, h2, h3⟩ := findLeafPos_sound (h.root.wf.get he) hp
  exact ⟨s, by rw [get_append, he]; exact h1, h2, h3⟩

/-- C02: the nominal box in physical coordinates is the cell of the integer description, scaled by the root size and
shifted by the origin. -/
theorem nominal_box {t : Tree nd} (rootSz : ℚ) (orig : Fin nd → ℚ) (d : Fin nd) :
    t.nominalPosition rootSz orig d = orig d + rootSz * t.lo d ∧
    t.nominalPosition rootSz orig d + t.nominalSize rootSz = orig d + rootSz * t.hi d ∧
    t.center rootSz orig d = orig d + rootSz * ((t.lo d + t.hi d) / 2) := by
  have : (2 : ℚ) ^ t.rl ≠ 0 := by positivity
  unfold center nominalPosition nominalSize lo hi
  refine ⟨?_, ?_, ?_⟩ <;> field_simp <;> ring

/-! ### C03 -/

/-- The point used to identify the neighbour: this element's corner on the requested side (lowest coordinates in the
dimensions where no side is requested). -/
def neighborPoint (a : Tree nd) (dir : Fin nd → Int) : Fin nd → ℚ := fun d => if dir d > 0 then a.hi d else a.lo d

/-- C03: `find_neighbor(direction)` on the element at `p` returns `q` iff `q` is the leaf that owns the corner of this
element on the requested side, approached from that side; `nullptr` iff there is no such leaf because the corner
(so approached) is outside the root cell. -/
theorem find_neighbor_exact {t a : Tree nd} (h : Reachable t) {p : Path} (hp : get p t = some a) (dir : Fin nd → Int) :
    (∀ q, findNeighbor t p dir = some q ↔ ∃ b, get q t = some b ∧ b.children = [] ∧
      Owns b (fun d => if dir d < 0 then 1 else 0) (neighborPoint a dir)) ∧
    (findNeighbor t p dir = none ↔ ¬ Owns t (fun d => if dir d < 0 then 1 else 0) (neighborPoint a dir)) := by
  have e : gridPoint a.rl (nbC a dir) = neighborPoint a dir := by
    funext d; unfold gridPoint nbC neighborPoint lo hi; split <;> simp
  have hfn : findNeighbor t p dir = findLeaf a.rl (nbC a dir) (nbB dir) t := by
    simp only [findNeighbor, hp]; rfl
  have := find_leaf_exact h a.rl (nbC a dir) (nbB dir) (nbB_ok dir)
  rw [e] at this
  rw [hfn]
  exact this

/-- C03: `nullptr` is returned exactly when one of the requested sides lies on the boundary of the root cell. -/
theorem find_neighbor_null {t a : Tree nd} (h : Reachable t) {p : Path} (hp : get p t = some a) (dir : Fin nd → Int)
    (hd : IsDir dir) :
    findNeighbor t p dir = none ↔ ∃ d, (dir d = 1 ∧ a.hi d = 1) ∨ (dir d = -1 ∧ a.lo d = 0) := by
  rw [(find_neighbor_exact h hp dir).2]
  have hr := h.root
  have sb := sub_box hr.wf hp
  have e1 : ∀ d, t.lo d = 0 := fun d => by simp [lo, hr.c0]
  have e2 : ∀ d, t.hi d = 1 := fun d => by simp [hi, hr.c0, hr.rl0]
  have wa := wd_pos a
  have ea := hi_eq a
  unfold Owns neighborPoint
  simp only [e1, e2] at *
  constructor
  · intro hn
    by_contra hcon
    push Not at hcon
    apply hn
    intro d
    have s := sb d
    have c := hcon d
    have ed := ea d
    rcases hd d with e | e | e
    · simp only [e]
      have : a.lo d ≠ 0 := c.2 e
      have : 0 < a.lo d := lt_of_le_of_ne s.1 (Ne.symm this)
      simp
      exact ⟨this, by linarith [s.2]⟩
    · simp only [e]; simp
      exact ⟨s.1, by linarith [s.2]⟩
    · simp only [e]
      have : a.hi d ≠ 1 := c.1 e
      have : a.hi d < 1 := lt_of_le_of_ne s.2 this
      simp
      exact ⟨by linarith [s.1], this⟩
  · rintro ⟨d, ⟨h1, h2⟩ | ⟨h1, h2⟩⟩ hn
    · have := hn d
      simp [h1, h2] at this
    · have := hn d
      simp [h1, h2] at this

/-- C03/C04: the leaf returned by `find_neighbor` borders on this element in the requested direction. -/
theorem find_neighbor_borders {t a : Tree nd} (h : Reachable t) {p q : Path} (hp : get p t = some a) (dir : Fin nd → Int)
    (hd : IsDir dir) (hq : findNeighbor t p dir = some q) :
    ∃ b, get q t = some b ∧ b.children = [] ∧ Borders a b dir := by
  obtain ⟨b, h1, h2, h3⟩ := ((find_neighbor_exact h hp dir).1 q).1 hq
  refine ⟨b, h1, h2, ?_⟩
  have e : gridPoint a.rl (nbC a dir) = neighborPoint a dir := by
    funext d; unfold gridPoint nbC neighborPoint lo hi; split <;> simp
  rcases Nat.le_total b.rl a.rl with hle | hle
  · rw [borders_iff_contains a b dir hd hle, ← owns_iff_contains a b dir hd hle, e]; exact h3
  · -- a finer cell that owns the corner is extremal in the target cell
    rw [borders_iff_extremal a b dir hd hle]
    intro d
    have hB := h3 d
    unfold neighborPoint at hB
    have e1 : nlo a dir d = (((a.coords d + dir d) * 2 ^ (b.rl - a.rl) : Int) : ℚ) / 2 ^ b.rl := by
      have e : (2 : ℚ) ^ b.rl = 2 ^ (b.rl - a.rl) * 2 ^ a.rl := by rw [← pow_add]; congr 1; omega
      rw [e]; push_cast; unfold nlo; push_cast; field_simp
    have e2 : nhi a dir d = (((a.coords d + dir d) * 2 ^ (b.rl - a.rl) + 2 ^ (b.rl - a.rl) : Int) : ℚ) / 2 ^ b.rl := by
      have e : (2 : ℚ) ^ b.rl = 2 ^ (b.rl - a.rl) * 2 ^ a.rl := by rw [← pow_add]; congr 1; omega
      rw [e]; push_cast; unfold nhi; push_cast; field_simp
    rw [lo_scale a b.rl hle, hi_scale a b.rl hle, lo_scale b b.rl le_rfl, hi_scale b b.rl le_rfl] at hB
    rw [lo_scale b b.rl le_rfl, hi_scale b b.rl le_rfl, e1, e2]
    have hS : (1 : Int) ≤ 2 ^ (b.rl - a.rl) := by have : (0:Int) < 2 ^ (b.rl - a.rl) := by positivity
                                                  omega
    simp only [Nat.sub_self, pow_zero, mul_one, add_mul] at *
    generalize (2 : Int) ^ (b.rl - a.rl) = S at *
    generalize a.coords d * S = M at *
    rcases hd d with e | e | e <;> rw [e] <;> simp (decide := true) only [e, if_true, if_false, sc_le, sc_lt, sc_eq] at hB ⊢ <;>
      refine ⟨by omega, by omega, fun h => ?_, fun h => ?_⟩ <;> first | exact h.elim | omega

/-! ### C04 -/

/-- C04: `find_neighbors(direction)` returns exactly the leaves that border on this element in that direction, each once
(and never touches a null or dangling pointer). -/
theorem find_neighbors_exact {t a : Tree nd} (h : Reachable t) {p : Path} (hp : get p t = some a) (dir : Fin nd → Int)
    (hd : IsDir dir) :
    ∃ l, findNeighbors t p dir = some l ∧ l.Nodup ∧
      ∀ q, q ∈ l ↔ ∃ b, get q t = some b ∧ b.children = [] ∧ Borders a b dir :=
  findNeighbors_spec h.root hp dir hd

/-- C04: the result is empty exactly at the boundary of the root cell. -/
theorem find_neighbors_empty {t a : Tree nd} (h : Reachable t) {p : Path} (hp : get p t = some a) (dir : Fin nd → Int)
    (hd : IsDir dir) :
    findNeighbors t p dir = some [] ↔ ∃ d, (dir d = 1 ∧ a.hi d = 1) ∨ (dir d = -1 ∧ a.lo d = 0) := by
  rw [← find_neighbor_null h hp dir hd]
  obtain ⟨l, h1, _, h3⟩ := find_neighbors_exact h hp dir hd
  constructor
  · intro he
    rw [h1] at he; simp at he; subst he
    cases hn : findNeighbor t p dir with
    | none => rfl
    | some q => exact absurd ((h3 q).2 (find_neighbor_borders h hp dir hd hn)) (by simp)
  · intro hn
    simp [findNeighbors, hp, hn]

/-- C04: face directions. The leaves returned for one face are exactly the leaves that abut on that face. -/
theorem find_neighbors_face {t a : Tree nd} (h : Reachable t) {p : Path} (hp : get p t = some a) (d : Fin nd)
    (sign : Int) (hs : sign = -1 ∨ sign = 1) :
    ∃ l, findNeighbors t p (faceDir d sign) = some l ∧ l.Nodup ∧
      ∀ q, q ∈ l ↔ ∃ b, get q t = some b ∧ b.children = [] ∧
        (if sign = 1 then a.hi d = b.lo d else b.hi d = a.lo d) ∧
        ∀ e, e ≠ d → b.lo e < a.hi e ∧ a.lo e < b.hi e := by
  obtain ⟨l, h1, h2, h3⟩ := find_neighbors_exact h hp (faceDir d sign) (isDir_faceDir d sign hs)
  refine ⟨l, h1, h2, fun q => ?_⟩
  rw [h3]
  constructor
  · rintro ⟨b, g1, g2, g3⟩
    exact ⟨b, g1, g2, (borders_faceDir h.root.wf hp g1 g2 d sign hs).1 g3⟩
  · rintro ⟨b, g1, g2, g3⟩
    exact ⟨b, g1, g2, (borders_faceDir h.root.wf hp g1 g2 d sign hs).2 g3⟩

/-- C04: being face neighbours is symmetric between leaves. -/
theorem find_neighbors_symm {t : Tree nd} (h : Reachable t) {p q : Path} (hp : IsLeafAt t p) (hq : IsLeafAt t q)
    (d : Fin nd) (sign : Int) (hs : sign = -1 ∨ sign = 1) :
    (∃ l, findNeighbors t p (faceDir d sign) = some l ∧ q ∈ l) ↔
    (∃ l, findNeighbors t q (faceDir d (-sign)) = some l ∧ p ∈ l) := by
  obtain ⟨a, ha, hal⟩ := hp
  obtain ⟨b, hb, hbl⟩ := hq
  obtain ⟨l, h1, _, h3⟩ := find_neighbors_face h ha d sign hs
  obtain ⟨m, g1, _, g3⟩ := find_neighbors_face h hb d (-sign) (by omega)
  rw [h1, g1]
  simp only [Option.some.injEq, exists_eq_left', h3, g3, ha, hb, hal, hbl, true_and]
  have : ∀ x y : ℚ, x = y ↔ y = x := fun x y => ⟨Eq.symm, Eq.symm⟩
  rcases hs with rfl | rfl
  · simp only [show ¬ ((-1 : Int) = 1) by decide, show - (-1 : Int) = 1 by decide, if_true, if_false]
    constructor <;> rintro ⟨h, k⟩ <;> exact ⟨h, fun e he => ⟨(k e he).2, (k e he).1⟩⟩
  · simp only [show ¬ ((-1 : Int) = 1) by decide, if_true, if_false]
    constructor <;> rintro ⟨h, k⟩ <;> exact ⟨h, fun e he => ⟨(k e he).2, (k e he).1⟩⟩

/-! ### C05 -/

/-- C05: `flood_fill(n)` on a leaf terminates without undefined behaviour; the tree keeps its shape; exactly the leaves
reachable through unprocessed face-adjacent leaves get status `n`, every other element keeps its status. -/
theorem flood_fill_leaf {t : Tree nd} (h : Reachable t) (n : Int) (hn : n ≠ unprocessed) {p : Path} (hp : IsLeafAt t p) :
    ∃ t', step t (.floodFill p n) = .ok t' ∧
      (∀ q, get q t = none ↔ get q t' = none) ∧
      ∀ q s s', get q t = some s → get q t' = some s' →
        (s'.rl = s.rl ∧ s'.coords = s.coords ∧ s'.children.length = s.children.length) ∧
        (FloodReach t p q → s'.status = n) ∧ (¬ FloodReach t p q → s'.status = s.status) := by
  obtain ⟨e, he, hl⟩ := hp
  obtain ⟨t', h1, h2, h3, h4⟩ := floodFill_spec n hn p t e h.root he
  refine ⟨t', h1, fun q => (h3 q).1, fun q s s' hs hs' => ?_⟩
  have hc := (h3 q).2 s s' hs hs'
  have := h4 q s s' hs hs'
  have hst : floodStarts e = [[]] := by
    cases e with
    | mk r c st k => simp at hl; subst hl; rfl
  simp only [hst, List.mem_singleton, exists_eq_left, List.append_nil] at this
  exact ⟨⟨hc.1.symm, hc.2.1.symm, hc.2.2.symm⟩, this⟩

/-- C05: elements that already have a status are never overwritten (they act as a barrier), and if the start leaf
is already processed nothing changes. -/
theorem flood_fill_barrier {t : Tree nd} (h : Reachable t) (n : Int) (hn : n ≠ unprocessed) {p : Path} (hp : IsLeafAt t p) :
    ∃ t', step t (.floodFill p n) = .ok t' ∧
      ∀ q s s', get q t = some s → get q t' = some s' →
        (s.status ≠ unprocessed → s'.status = s.status) ∧
        ((∃ e, get p t = some e ∧ e.status ≠ unprocessed) → s'.status = s.status) := by
  obtain ⟨t', h1, h2, h3⟩ := flood_fill_leaf h n hn hp
  refine ⟨t', h1, fun q s s' hs hs' => ⟨fun hne => ?_, fun hst => ?_⟩⟩
  · apply (h3 q s s' hs hs').2.2
    intro hre
    obtain ⟨s1, g1, g2⟩ := reach_unprocessed hre
    rw [hs] at g1; simp at g1; subst g1; exact hne g2
  · apply (h3 q s s' hs hs').2.2
    intro hre
    obtain ⟨e, g1, g2⟩ := hst
    have : ∀ {q}, FloodReach t p q → False := by
      intro q hq
      induction hq with
      | start k1 k2 => rw [g1] at k1; simp at k1; subst k1; exact g2 k2
      | step _ _ _ _ ih => exact ih
    exact this hre

/-- C05: asking for status `unprocessed` is rejected. -/
theorem flood_fill_rejects (t : Tree nd) (p : Path) : step t (.floodFill p unprocessed) = .throws := by
  simp [step, floodFill]

/-! ### C06 -/

/-- C06, exact behaviour on any element: the fill runs from every element on the chain of first children (from the lowest
leaf up to and including the element itself), not only from the lowest leaf. -/
theorem flood_fill_any {t e : Tree nd} (h : Reachable t) (n : Int) (hn : n ≠ unprocessed) {p : Path} (hp : get p t = some e) :
    ∃ t', step t (.floodFill p n) = .ok t' ∧
      ∀ q s s', get q t = some s → get q t' = some s' →
        ((∃ x ∈ floodStarts e, FloodReach t (p ++ x) q) → s'.status = n) ∧
        ((¬ ∃ x ∈ floodStarts e, FloodReach t (p ++ x) q) → s'.status = s.status) := by
  obtain ⟨t', h1, _, _, h4⟩ := floodFill_spec n hn p t e h.root hp
  exact ⟨t', h1, h4⟩

/-- The path from an element to its leaf descendant with the smallest coordinates (always the first child). -/
def lowestLeaf : Tree nd → Path
  | mk _ _ _ [] => []
  | mk _ _ _ (t :: _) => 0 :: lowestLeaf t

theorem lowestLeaf_mem (e : Tree nd) : lowestLeaf e ∈ floodStarts e := by
  induction e using induct with
  | h r c s k ih =>
    cases k with
    | nil => simp [lowestLeaf, floodStarts]
    | cons a k => simp only [lowestLeaf, floodStarts, List.mem_append, List.mem_map]; left; exact ⟨_, ih a (by simp), rfl⟩

/-- `lowestLeaf` really is the leaf with the smallest coordinates: its lower corner is the element's lower corner. -/
theorem lowestLeaf_spec {e : Tree nd} (h : WF e) : ∃ s, get (lowestLeaf e) e = some s ∧ s.children = [] ∧ ∀ d, s.lo d = e.lo d := by
  induction e using induct with
  | h r c s k ih =>
    cases k with
    | nil => exact ⟨_, rfl, rfl, fun d => rfl⟩
    | cons a k =>
      have hc : (a :: k)[0]? = some a := rfl
      obtain ⟨e1, e2, e3⟩ := h.child hc
      obtain ⟨s', g1, g2, g3⟩ := ih a (by simp) e3
      refine ⟨s', by simp [lowestLeaf, get, g1], g2, fun d => ?_⟩
      rw [g3 d, child_lo (s := s) (k := a :: k) e1 e2 d]; simp

/-- C06, the part that holds: on a non-leaf, everything the documentation says should be marked is marked, and if all the
non-leaf elements on the chain of first children already have a status, nothing else changes. -/
theorem flood_fill_nonleaf_partial {t e : Tree nd} (h : Reachable t) (n : Int) (hn : n ≠ unprocessed) {p : Path}
    (hp : get p t = some e) :
    ∃ t', step t (.floodFill p n) = .ok t' ∧
      ∀ q s s', get q t = some s → get q t' = some s' →
        (FloodReach t (p ++ lowestLeaf e) q → s'.status = n) ∧
        ((∀ x ∈ floodStarts e, x ≠ lowestLeaf e → ∃ u, get (p ++ x) t = some u ∧ u.status ≠ unprocessed) →
          ¬ FloodReach t (p ++ lowestLeaf e) q → s'.status = s.status) := by
  obtain ⟨t', h1, h2⟩ := flood_fill_any h n hn hp
  refine ⟨t', h1, fun q s s' hs hs' => ⟨fun hre => ?_, fun hch hre => ?_⟩⟩
  · exact (h2 q s s' hs hs').1 ⟨_, lowestLeaf_mem e, hre⟩
  · apply (h2 q s s' hs hs').2
    rintro ⟨x, hx, hxr⟩
    by_cases hxl : x = lowestLeaf e
    · subst hxl; exact hre hxr
    · obtain ⟨u, hu1, hu2⟩ := hch x hx hxl
      have : ∀ {q}, FloodReach t (p ++ x) q → False := by
        intro q hq
        induction hq with
        | start k1 k2 => rw [hu1] at k1; simp at k1; subst k1; exact hu2 k2
        | step _ _ _ _ ih => exact ih
      exact this hxr

/-- The tree of the C06 counterexample (2-D): the root is refined, its first child is refined again, and the lowest leaf
has been marked as a barrier with status 5. -/
def c06Ops : List Op := [.refine [], .refine [0], .setStatus [0, 0] 5]

/-- run a list of calls, `none` if one of them does not return normally -/
def run : List Op → Tree nd → Option (Tree nd)
  | [], t => some t
  | op :: ops, t => match step t op with
    | .ok t' => run ops t'
    | _ => none

theorem reachable_run : ∀ (ops : List Op) (t t' : Tree nd), Reachable t → run ops t = some t' → Reachable t'
  | [], t, t', h, hr => by simp [run] at hr; subst hr; exact h
  | op :: ops, t, t', h, hr => by
    simp only [run] at hr
    split at hr
    · rename_i t1 h1; exact reachable_run ops t1 t' (Reachable.ok op h h1) hr
    · simp at hr

/-- C06 is false of the code: in this tree `flood_fill` is called on the non-leaf first child; the documented start (its
lowest leaf) already has a status, so nothing should change, but the leaf at `[2]` is marked. -/
theorem flood_fill_nonleaf_refuted :
    ∃ (t e : Tree 2), Reachable t ∧ get [0] t = some e ∧ e.children ≠ [] ∧
      (∃ s, get ([0] ++ lowestLeaf e) t = some s ∧ s.status ≠ unprocessed) ∧
      ∃ t', step t (.floodFill [0] 1) = .ok t' ∧
        ∃ s s', get [2] t = some s ∧ get [2] t' = some s' ∧ s.children = [] ∧ s'.status ≠ s.status := by
  obtain ⟨t, ht⟩ : ∃ t, run c06Ops (new 2) = some t := ⟨_, rfl⟩
  have hre : Reachable t := reachable_run _ _ _ Reachable.new ht
  have ht' : t = _ := (Option.some.inj ht).symm
  obtain ⟨e, he⟩ : ∃ e, get [0] t = some e := ⟨_, by rw [ht']; rfl⟩
  have he' : e = _ := (Option.some.inj (he.symm.trans (by rw [ht']; rfl)))
  obtain ⟨t', h1, h2⟩ := flood_fill_any hre 1 (by decide) he
  refine ⟨t, e, hre, he, by rw [he']; exact List.cons_ne_nil _ _, ?_, t', h1, ?_⟩
  · refine ⟨_, by rw [ht', he']; rfl, by decide⟩
  · have hs : ∃ s, get [2] t = some s ∧ s.children = [] ∧ s.status = unprocessed ∧ s.rl = 1 ∧ s.coords 0 = 1 ∧ s.coords 1 = 0 :=
      ⟨_, by rw [ht']; rfl, rfl, rfl, rfl, rfl, rfl⟩
    obtain ⟨s, hs1, hs2, hs3, hs4, hs5, hs6⟩ := hs
    have hee : e.status = unprocessed ∧ e.rl = 1 ∧ e.coords 0 = 0 ∧ e.coords 1 = 0 ∧ [] ∈ floodStarts e := by
      rw [he']; exact ⟨rfl, rfl, rfl, rfl, by decide⟩
    obtain ⟨k1, k2, k3, k4, k5⟩ := hee
    have hreach : FloodReach t ([0] ++ []) [2] := by
      refine FloodReach.step (q := [0]) (FloodReach.start he k1) ?_ hs1 hs3
      refine ⟨e, s, he, hs1, hs2, 0, Or.inl ?_, ?_⟩
      · simp [hi, lo, k2, k3, hs4, hs5]
      · intro i hi0
        have : i = 1 := by omega
        subst this
        simp [hi, lo, k2, k4, hs4, hs6]
    have hgt : ∃ s', get [2] t' = some s' := by
      obtain ⟨t'', g1, _, g3, _⟩ := floodFill_spec 1 (by decide) [0] t e hre.root he
      have : t'' = t' := by
        have := g1.symm.trans h1; simpa using this
      subst this
      obtain ⟨s', x, _⟩ := g3.get hs1
      exact ⟨s', x⟩
    obtain ⟨s', hs'⟩ := hgt
    refine ⟨s, s', hs1, hs', hs2, ?_⟩
    rw [(h2 [2] s s' hs1 hs').1 ⟨[], k5, hreach⟩, hs3]
    decide

/-! ### C07 -/

/-- C07: `refine()` on a leaf creates exactly `2^n_dim` leaf children of the next level, with status unprocessed, whose
cells are the `2^n_dim` halves-in-every-dimension of the parent's cell; all other elements are untouched. -/
theorem refine_leaf {t a : Tree nd} (h : Reachable t) {p : Path} (hp : get p t = some a) (hl : a.children = []) :
    ∃ t', step t (.refine p) = .ok t' ∧
      (∃ a', get p t' = some a' ∧ a'.rl = a.rl ∧ a'.coords = a.coords ∧ a'.status = a.status ∧ a'.children.length = 2 ^ nd ∧
        ∀ (i : Nat) (c : Tree nd), a'.children[i]? = some c → c.children = [] ∧ c.status = unprocessed ∧ c.rl = a.rl + 1 ∧
          ∀ d, c.hi d - c.lo d = (a.hi d - a.lo d) / 2 ∧ a.lo d ≤ c.lo d ∧ c.hi d ≤ a.hi d) ∧
      (∀ q, ¬ p <+: q → (get q t = none ↔ get q t' = none)) ∧
      (∀ q s s', get q t = some s → get q t' = some s' → s'.rl = s.rl ∧ s'.coords = s.coords ∧ s'.status = s.status) := by
  have hsome : step t (.refine p) = .ok (modify refineNode p t) := by
    simp [step, hp, isLeaf, hl]
  refine ⟨_, hsome, ?_, ?_, ?_⟩
  · have hg : ∀ (p : Path) (t a : Tree nd), get p t = some a → get p (modify refineNode p t) = some (refineNode a) := by
      intro p
      induction p with
      | nil => intro t a h; simp [get] at h; subst h; rfl
      | cons i p ih =>
        intro t a h
        cases t with
        | mk r c s k =>
          obtain ⟨u, hu, hs⟩ := get_cons_some.1 h
          simp only [children_mk] at hu
          simp [modify, get, hu, ih u a hs]
    refine ⟨refineNode a, hg p t a hp, ?_⟩
    have hwa := (wf_refineNode a (h.root.wf.get hp)).1
    cases a with
    | mk r c s k =>
      refine ⟨rfl, rfl, rfl, by simp [refineNode], ?_⟩
      intro i u hu
      have hu' := hu
      simp only [refineNode, children_mk, List.getElem?_map, Option.map_eq_some_iff] at hu
      obtain ⟨j, hj, rfl⟩ := hu
      refine ⟨rfl, rfl, rfl, fun d => ?_⟩
      have sb := sub_box (p := [i]) (s := mk (r + 1) (childCoords c j) unprocessed []) hwa (by simp only [get, hu']) d
      have e1 : (refineNode (mk r c s k)).lo d = (mk r c s k : Tree nd).lo d := rfl
      have e2 : (refineNode (mk r c s k)).hi d = (mk r c s k : Tree nd).hi d := rfl
      rw [e1, e2] at sb
      refine ⟨?_, sb⟩
      rw [hi_eq, hi_eq]
      have : (mk r c s k : Tree nd).wd = 2 * (mk (r + 1) (childCoords c j) unprocessed [] : Tree nd).wd := child_wd rfl
      linarith
  · -- elements that are not below `p`
    have key : ∀ (p q : Path) (t : Tree nd), ¬ p <+: q → (get q t = none ↔ get q (modify refineNode p t) = none) := by
      intro p
      induction p with
      | nil => intro q t hq; simp at hq
      | cons i p ih =>
        intro q t hq
        cases t with
        | mk r c s k =>
          cases q with
          | nil => simp [get]
          | cons j q =>
            simp only [modify, get, children_mk, List.getElem?_modify]
            cases hkj : k[j]? with
            | none => simp
            | some u =>
              by_cases hij : i = j
              · subst hij
                simp only [Option.map_eq_map, Option.map_some, if_true]
                exact ih q u (by simpa [List.cons_prefix_cons] using hq)
              · simp [hij]
    intro q hq; exact key p q t hq
  · have key : ∀ (p q : Path) (t s s' : Tree nd), get q t = some s → get q (modify refineNode p t) = some s' →
        (∃ a, get p t = some a ∧ a.children = []) → s'.rl = s.rl ∧ s'.coords = s.coords ∧ s'.status = s.status := by
      intro p
      induction p with
      | nil =>
        intro q t s s' hs hs' ha
        cases q with
        | nil =>
          simp [get, modify] at hs hs'; subst hs; subst hs'
          cases t; exact ⟨rfl, rfl, rfl⟩
        | cons j q =>
          obtain ⟨a, ha, hl⟩ := ha
          simp [get] at ha; subst ha
          rw [get_leaf_cons hl] at hs; simp at hs
      | cons i p ih =>
        intro q t s s' hs hs' ha
        cases t with
        | mk r c st k =>
          cases q with
          | nil => simp [get, modify] at hs hs'; subst hs; subst hs'; exact ⟨rfl, rfl, rfl⟩
          | cons j q =>
            obtain ⟨a, ha, hl⟩ := ha
            obtain ⟨u, hu, hau⟩ := get_cons_some.1 ha
            obtain ⟨v, hv, hsv⟩ := get_cons_some.1 hs
            simp only [children_mk] at hu hv
            simp only [modify, get, children_mk, List.getElem?_modify, hv] at hs'
            by_cases hij : i = j
            · subst hij
              simp only [Option.map_eq_map, Option.map_some, if_true] at hs'
              rw [hu] at hv; simp at hv; subst hv
              exact ih q u s s' hsv hs' ⟨a, hau, hl⟩
            · simp [hij] at hs'
              rw [hsv] at hs'; simp at hs'; subst hs'; exact ⟨rfl, rfl, rfl⟩
    intro q s s' hs hs'
    exact key p q t s s' hs hs' ⟨a, hp, hl⟩

/-- C07: `refine()` on a non-leaf is rejected. -/
theorem refine_nonleaf_rejected {t a : Tree nd} {p : Path} (hp : get p t = some a) (hl : a.children ≠ []) :
    step t (.refine p) = .throws := by
  simp [step, hp, isLeaf, hl]

/-- C07: `unrefine()` undoes `refine()` on a leaf. -/
theorem unrefine_refine {t a : Tree nd} {p : Path} (hp : get p t = some a) (hl : a.children = []) :
    ∃ t', step t (.refine p) = .ok t' ∧ step t' (.unrefine p) = .ok t := by
  have hsome : step t (.refine p) = .ok (modify refineNode p t) := by
    simp [step, hp, isLeaf, hl]
  refine ⟨_, hsome, ?_⟩
  have key : ∀ (p : Path) (t a : Tree nd), get p t = some a → a.children = [] →
      (∃ b, get p (modify refineNode p t) = some b) ∧ modify unrefineNode p (modify refineNode p t) = t := by
    intro p
    induction p with
    | nil =>
      intro t a h hl
      simp [get] at h; subst h
      cases t with
      | mk r c s k => simp at hl; subst hl; exact ⟨⟨_, rfl⟩, rfl⟩
    | cons i p ih =>
      intro t a h hl
      cases t with
      | mk r c s k =>
        obtain ⟨u, hu, hs⟩ := get_cons_some.1 h
        simp only [children_mk] at hu
        obtain ⟨⟨b, hb⟩, h2⟩ := ih u a hs hl
        refine ⟨⟨b, by simp [modify, get, hu, hb]⟩, ?_⟩
        simp only [modify]
        congr 1
        apply List.ext_getElem?
        intro j
        simp only [List.getElem?_modify]
        by_cases hij : i = j
        · subst hij; simp [hu, h2]
        · simp [hij]
  obtain ⟨⟨b, hb⟩, h2⟩ := key p t a hp hl
  simp [step, hb, h2]

/-- C07: level = number of refinements from the root, coordinates fit the level. -/
theorem level_and_coords {t s : Tree nd} (h : Reachable t) {p : Path} (hp : get p t = some s) :
    s.rl = p.length ∧ ∀ d, 0 ≤ s.coords d ∧ s.coords d < 2 ^ s.rl := by
  have hr := h.root
  have h1 := rl_get hr.wf hp
  rw [hr.rl0] at h1
  refine ⟨by omega, fun d => ⟨nn_of_root hr hp d, ?_⟩⟩
  have sb := (sub_box hr.wf hp d).2
  have e2 : t.hi d = 1 := by simp [hi, hr.c0, hr.rl0]
  rw [e2] at sb
  unfold hi at sb
  rw [div_le_one (by positivity)] at sb
  have : ((s.coords d + 1 : Int) : ℚ) ≤ ((2 ^ s.rl : Int) : ℚ) := by push_cast; exact sb
  have := Int.cast_le.1 this
  omega

/-- All elements of the tree, as pointers. -/
def IsElem (t : Tree nd) (p : Path) : Prop := ∃ s, get p t = some s

/-- C07: `count()` is the number of elements: there is a duplicate-free list of that length of all pointers to elements. -/
theorem count_exact (t : Tree nd) : ∃ l : List Path, l.Nodup ∧ (∀ p, p ∈ l ↔ IsElem t p) ∧ t.count = l.length := by
  induction t using induct with
  | h r c s k ih =>
    have key : ∀ (k : List (Tree nd)) (n : Nat), (∀ t ∈ k, ∃ l : List Path, l.Nodup ∧ (∀ p, p ∈ l ↔ IsElem t p) ∧ t.count = l.length) →
        ∃ l : List Path, l.Nodup ∧ (∀ p, p ∈ l ↔ ∃ (i : Nat) (a : Tree nd) (q : Path), k[i]? = some a ∧ IsElem a q ∧ p = (n + i) :: q) ∧
          countList k = l.length := by
      intro k
      induction k with
      | nil => intro n _; exact ⟨[], List.nodup_nil, by simp, rfl⟩
      | cons b k ihk =>
        intro n hk
        obtain ⟨l1, a1, a2, a3⟩ := hk b (by simp)
        obtain ⟨l2, b1, b2, b3⟩ := ihk (n + 1) (fun t ht => hk t (by simp [ht]))
        refine ⟨l1.map (n :: ·) ++ l2, ?_, ?_, by simp [countList, a3, b3]⟩
        · rw [List.nodup_append]
          refine ⟨a1.map (by intro x y hxy; simpa using hxy), b1, ?_⟩
          intro x hx y hy
          obtain ⟨z, _, rfl⟩ := List.mem_map.1 hx
          obtain ⟨i, _, q, _, _, rfl⟩ := (b2 y).1 hy
          simp; omega
        · intro p
          rw [List.mem_append, List.mem_map, b2]
          constructor
          · rintro (⟨q, hq, rfl⟩ | ⟨i, a, q, h1, h2, rfl⟩)
            · exact ⟨0, b, q, rfl, (a2 q).1 hq, by simp⟩
            · exact ⟨i + 1, a, q, by simpa using h1, h2, by simp; omega⟩
          · rintro ⟨i, a, q, h1, h2, rfl⟩
            cases i with
            | zero => simp at h1; subst h1; left; exact ⟨q, (a2 q).2 h2, by simp⟩
            | succ i => right; exact ⟨i, a, q, by simpa using h1, h2, by simp; omega⟩
    obtain ⟨l, h1, h2, h3⟩ := key k 0 ih
    refine ⟨[] :: l, ?_, ?_, by simp [count, h3]; omega⟩
    · rw [List.nodup_cons]
      refine ⟨?_, h1⟩
      rw [h2]; rintro ⟨i, a, q, _, _, h⟩; simp at h
    · intro p
      rw [List.mem_cons, h2]
      constructor
      · rintro (rfl | ⟨i, a, q, g1, ⟨s', g2⟩, rfl⟩)
        · exact ⟨_, rfl⟩
        · exact ⟨s', get_cons_some.2 ⟨a, by simpa using g1, g2⟩⟩
      · rintro ⟨s', hs'⟩
        cases p with
        | nil => left; rfl
        | cons i q =>
          right
          obtain ⟨a, g1, g2⟩ := get_cons_some.1 hs'
          exact ⟨i, a, q, g1, ⟨s', g2⟩, by simp⟩

/-! ### Non-vacuity: concrete cases that meet the hypotheses -/

/-- a 2-D tree with two levels of refinement is reachable, has leaves on two levels, and the query of the header's
documentation example resolves to the expected leaf -/
def exampleTree : Option (Tree 2) := run [.refine [], .refine [1], .setStatus [3] 7] (new 2)

example : ∃ t, exampleTree = some t ∧ Reachable t ∧ IsLeafAt t [1, 2] ∧ IsLeafAt t [0] ∧ (∃ s, get [1] t = some s ∧ s.children ≠ []) := by
  refine ⟨_, rfl, reachable_run _ _ _ Reachable.new (rfl : exampleTree = some _), ⟨_, rfl, rfl⟩, ⟨_, rfl, rfl⟩, ⟨_, rfl, List.cons_ne_nil _ _⟩⟩

example : ∃ t, exampleTree = some t ∧ findLeaf 2 (fun d => if d = 0 then 1 else 2) (fun _ => 0) t = some [1, 2] ∧
    findLeaf 2 (fun d => if d = 0 then 4 else 2) (fun _ => 0) t = none ∧
    findLeaf 2 (fun d => if d = 0 then 4 else 2) (fun d => if d = 0 then 1 else 0) t = some [3] ∧
    findNeighbors t [3] (faceDir 0 (-1)) = some [[1, 2], [1, 3]] ∧ findNeighbors t [1, 2] (faceDir 0 1) = some [[3]] := by
  refine ⟨_, rfl, ?_⟩; decide

example : IsDir (faceDir (0 : Fin 2) 1) := isDir_faceDir 0 1 (Or.inr rfl)

/-- the barrier [3] blocks one way, yet [1,2] is reachable from [0] -/
example : ∃ t, exampleTree = some t ∧ ∃ t', step t (.floodFill [0] 1) = .ok t' ∧ ∃ s, get [3] t' = some s ∧ s.status = 7 := by
  refine ⟨_, rfl, ?_⟩
  have hre : Reachable _ := reachable_run _ _ _ Reachable.new (rfl : exampleTree = some _)
  obtain ⟨t', h1, h2⟩ := flood_fill_barrier hre 1 (by decide) (p := [0]) ⟨_, rfl, rfl⟩
  obtain ⟨t'', g1, g2, g3⟩ := flood_fill_leaf hre 1 (by decide) (p := [0]) ⟨_, rfl, rfl⟩
  have : t'' = t' := by have := g1.symm.trans h1; simpa using this
  subst this
  refine ⟨t'', h1, ?_⟩
  cases hs : get [3] t'' with
  | none => exact absurd ((g2 [3]).2 hs) (by simp [get]; decide)
  | some s' => exact ⟨s', rfl, ((h2 [3] _ s' rfl hs).1 (by decide)).trans rfl⟩

end Hexed.Tree
