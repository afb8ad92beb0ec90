import Verif.Extrude.Grid
set_option autoImplicit false
set_option linter.unusedVariables false

/-!
# C91: the connections of a new layer
-/

namespace Hexed.Extrude

variable {V : Type} [DecidableEq V]

/-- Every face of a new element but the inner and outer one is either requested to be connected or given the boundary condition of its parent, once. -/
theorem faces_once {nd : Nat} {x : Site V} (hd : x.dim < nd) :
    ((siteRequests nd x).map (·.2.face) ++ siteBounds nd x).Perm ((List.range (2 * nd)).filter fun f => decide (f / 2 ≠ x.dim)) ∧
    (∀ f, f ∈ siteBounds nd x ↔ f < 2 * nd ∧ f / 2 ≠ x.dim ∧ x.skip f = true) ∧
    ∀ r, r ∈ (siteRequests nd x).map (·.2) ↔ r.level = x.level ∧ r.sn = x.sn ∧ r.extr = 2 * x.dim + x.sign ∧ r.face < 2 * nd ∧ r.face / 2 ≠ x.dim ∧ x.skip r.face = false := by
  have hb : ∀ f, f ∈ siteBounds nd x ↔ f < 2 * nd ∧ f / 2 ≠ x.dim ∧ x.skip f = true := by
    intro f
    unfold siteBounds
    rw [List.mem_flatMap]
    constructor
    · rintro ⟨j, hj, h⟩
      obtain ⟨t, ht, h⟩ := List.mem_flatMap.1 h
      have hj' := (mem_otherDims hd).1 hj
      simp at ht
      split at h
      · rename_i hs
        simp at h
        subst h
        refine ⟨by omega, by omega, hs⟩
      · simp at h
    · rintro ⟨h1, h2, h3⟩
      refine ⟨f / 2, (mem_otherDims hd).2 ⟨by omega, h2⟩, List.mem_flatMap.2 ⟨f % 2, by simp; omega, ?_⟩⟩
      rw [show 2 * (f / 2) + f % 2 = f by omega, h3]
      simp
  have hr : ∀ r, r ∈ (siteRequests nd x).map (·.2) ↔ r.level = x.level ∧ r.sn = x.sn ∧ r.extr = 2 * x.dim + x.sign ∧ r.face < 2 * nd ∧ r.face / 2 ≠ x.dim ∧ x.skip r.face = false := by
    intro r
    rw [List.mem_map]
    constructor
    · rintro ⟨y, hy, rfl⟩
      obtain ⟨j, hj, t, ht, hs, rfl⟩ := mem_siteRequests.1 hy
      have hj' := (mem_otherDims hd).1 hj
      exact ⟨rfl, rfl, rfl, by dsimp only [request]; omega, by dsimp only [request]; omega, hs⟩
    · rintro ⟨h1, h2, h3, h4, h5, h6⟩
      refine ⟨request nd x (r.face / 2) (r.face % 2), mem_siteRequests.2 ⟨_, (mem_otherDims hd).2 ⟨by omega, h5⟩, _, by omega, ?_, rfl⟩, ?_⟩
      · rw [show 2 * (r.face / 2) + r.face % 2 = r.face by omega]; exact h6
      · cases r
        simp only [request, Rec.mk.injEq] at *
        exact ⟨h1.symm, h2.symm, by omega, h3.symm⟩
  refine ⟨?_, hb, hr⟩
  have n1 : ((siteRequests nd x).map (·.2.face)).Nodup := by
    have := siteRequests_nodup (x := x) hd
    have e : (siteRequests nd x).map (·.2.face) = ((siteRequests nd x).map (·.2)).map (·.face) := by simp
    rw [e]
    refine List.Nodup.map_on ?_ this
    intro a ha b hb' e
    have h1 := (hr a).1 ha
    have h2 := (hr b).1 hb'
    cases a; cases b
    simp only [Rec.mk.injEq] at *
    exact ⟨h1.1.trans h2.1.symm, h1.2.1.trans h2.2.1.symm, e, h1.2.2.1.trans h2.2.2.1.symm⟩
  have n2 : (siteBounds nd x).Nodup := by
    unfold siteBounds
    rw [List.nodup_flatMap]
    refine ⟨fun j hj => ?_, (otherDims_nodup hd).imp ?_⟩
    · simp only [List.flatMap_cons, List.flatMap_nil, List.append_nil]
      split <;> split <;> simp
    · intro a b hab y h1 h2
      simp only [List.flatMap_cons, List.flatMap_nil, List.append_nil, List.mem_append] at h1 h2
      have g : ∀ (c : Bool) (z : Nat), y ∈ (if c = true then [z] else []) → y = z := by
        intro c z h; cases c <;> simp at h; exact h
      rcases h1 with h1 | h1 <;> rcases h2 with h2 | h2 <;> have := g _ _ h1 <;> have := g _ _ h2 <;> omega
  have m1 : ∀ f, f ∈ (siteRequests nd x).map (·.2.face) ↔ f < 2 * nd ∧ f / 2 ≠ x.dim ∧ x.skip f = false := by
    intro f
    have e : (siteRequests nd x).map (·.2.face) = ((siteRequests nd x).map (·.2)).map (·.face) := by simp
    rw [e, List.mem_map]
    constructor
    · rintro ⟨r, h, rfl⟩
      exact ((hr r).1 h).2.2.2
    · intro h
      exact ⟨⟨x.level, x.sn, f, 2 * x.dim + x.sign⟩, (hr _).2 ⟨rfl, rfl, rfl, h⟩, rfl⟩
  rw [List.perm_ext_iff_of_nodup]
  · intro f
    rw [List.mem_append, m1, hb, List.mem_filter, List.mem_range, decide_eq_true_eq]
    cases x.skip f <;> simp
  · refine List.Nodup.append n1 n2 ?_
    intro f h1 h2
    have a := ((m1 f).1 h1).2.2
    rw [((hb f).1 h2).2.2] at a
    cases a
  · exact (List.nodup_range).filter _

/-- The vertex where a request is left is on the face to be connected and on the face that was extruded from, and of those it is the first. -/
theorem request_place {nd i s j t : Nat} (hi : i < nd) (hj : j < nd) (hij : i ≠ j) (hs : s < 2) (ht : t < 2) {k : Nat} (hk : k < nd) :
    requestVertex nd i s j t / 2 ^ (nd - 1 - k) % 2 = if k = i then 1 - s else if k = j then t else 0 :=
  bit_other hi hj hij ht (by omega) k hk

/-- At one vertex every request is either left or part of one pair. Pairs have the same refinement level. First those that face each other are connected, and only requests for which none that faces it is left may be connected around an edge; none of those left fit together. -/
theorem vertex_pairs (l : List Rec) : ∃ facing around,
    (conformVertex l).2 = facing ++ around ∧ ((conformVertex l).1 ++ served facing ++ served around).Perm l ∧
    (∀ p ∈ facing, p.1.level = p.2.level ∧ Straight p.1 p.2) ∧ (∀ p ∈ around, p.1.level = p.2.level ∧ Corner p.1 p.2) ∧
    ((conformVertex l).1 ++ served around).Pairwise (fun r s => ¬(r.level = s.level ∧ Straight r s)) ∧ (conformVertex l).1.Pairwise (fun r s => ¬Mates r s) := by
  obtain ⟨A, B, h1, h2, h3, h4, h5, h6, -⟩ := conformVertex_spec l
  exact ⟨A, B, h1, h2, h3, h4, h5, h6⟩

/-- Vertices that are eaten hand over their requests, all of them and no more. -/
theorem eaten_keeps {order order' : List V} (hn : order'.Nodup) {root : V → V} (hr : ∀ v ∈ order, root v ∈ order') (verts : V → List Rec) : (order'.flatMap (eaten order root verts)).Perm (order.flatMap verts) := by
  induction order with
  | nil => simp [eaten]
  | cons a tl ih =>
    have h := ih fun v hv => hr v (List.mem_cons_of_mem _ hv)
    rw [List.flatMap_cons]
    refine List.Perm.trans ?_ (h.append_left _)
    refine List.Perm.trans (flatMap_update_perm hn (hr a (by simp)) _ (l := eaten tl root verts (root a)) (x := verts a) ?_) ?_
    · simp only [eaten, List.filter_cons, beq_self_eq_true, if_true, List.flatMap_cons]
      exact List.perm_append_comm
    · refine List.perm_append_comm.trans (List.Perm.append_left _ (List.Perm.of_eq ?_))
      apply List.flatMap_congr
      intro v hv
      by_cases e : v = root a
      · subst e; simp
      · rw [Function.update_of_ne e]
        simp only [eaten, List.filter_cons]
        rw [if_neg (by simpa using fun h => e h.symm)]

/-- If the planning succeeds, every request of every element is served by exactly one connection, and no connection has a face that did not ask for it. -/
theorem served_once {nd : Nat} {vertexOf : Nat → Nat → Nat → V} {sites : List (Site V)} {order order' : List V} {merge : (V → List Rec) → V → List Rec} (hn : order.Nodup) (hn' : order'.Nodup) (hc : ∀ x ∈ requests nd sites, x.1 ∈ order)
    (hm : ∀ verts, (order'.flatMap (merge verts)).Perm (order.flatMap verts)) {p : Plan V} (h : plan nd vertexOf order merge order' (recorded nd sites) = .ok p) :
    (served p.first ++ servedHanging p.hanging ++ served p.last).Perm ((requests nd sites).map (·.2)) := by
  have hw : Within order (recorded nd sites) := by
    intro v hv
    obtain ⟨r, hr⟩ := List.exists_mem_of_ne_nil _ hv
    exact hc _ (mem_recorded.1 hr)
  unfold plan at h
  dsimp only at h
  cases hb : hangAll nd vertexOf order (conformAll order (recorded nd sites)).1 with
  | error e => rw [hb] at h; cases h
  | ok b =>
    rw [hb] at h
    simp only [Except.bind] at h
    split at h
    · rename_i hall
      cases h
      have s1 := conformAll_perm order (recorded nd sites) hn
      have hw' : Within order (conformAll order (recorded nd sites)).1 := hw.sub fun w => by
        rw [(conformAll_spec order (recorded nd sites) hn).1 w]
        split
        · obtain ⟨_, _, _, _, _, _, _, _, q⟩ := conformVertex_spec (recorded nd sites w)
          exact q
        · exact List.Sublist.refl _
      obtain ⟨s2, -, -⟩ := hangAll_spec hn order hw' hb
      have s3 := conformAll_perm order' (merge b.1) hn'
      have e : order'.flatMap (conformAll order' (merge b.1)).1 = [] := by
        rw [List.flatMap_eq_nil_iff]
        intro v hv
        exact List.isEmpty_iff.1 (List.all_eq_true.1 hall v hv)
      rw [e, List.nil_append] at s3
      refine List.Perm.trans ?_ (recorded_perm hn hc)
      refine List.Perm.trans ?_ s1
      refine List.Perm.trans ?_ (s2.append_right _)
      refine List.Perm.trans ?_ (((s3.trans (hm b.1)).append_right _).append_right _)
      simp only []
      rw [List.append_assoc]
      refine List.perm_append_comm.trans ?_
      exact (List.perm_append_comm).append_right _
    · cases h

/-- What is connected fits together: without hanging nodes, the levels are equal and the faces are placed as they should be. With hanging nodes, the fine element is one level finer, and in three dimensions the second fine element is one that left a request at the other end of the fine edge. Both sides of a connection left their requests at the same vertex. -/
theorem plan_fits {nd : Nat} {vertexOf : Nat → Nat → Nat → V} {verts : V → List Rec} {order order' : List V} {merge : (V → List Rec) → V → List Rec} (hn : order.Nodup) (hn' : order'.Nodup) (hw : ∀ v, verts v ≠ [] → v ∈ order)
    {p : Plan V} (h : plan nd vertexOf order merge order' verts = .ok p) :
    (∀ x ∈ p.first, Mates x.1 x.2 ∧ ∃ v ∈ order, x.1 ∈ verts v ∧ x.2 ∈ verts v) ∧ (∀ x ∈ p.last, Mates x.1 x.2) ∧
    ∀ x ∈ p.hanging, x.fine.level = x.coarse.level + 1 ∧ (Straight x.coarse x.fine ∨ Corner x.coarse x.fine) ∧ (∃ v ∈ order, x.coarse ∈ verts v ∧ x.fine ∈ verts v) ∧
      (nd = 3 → ∃ v r, v = vertexOf x.fine.level x.fine.sn (middleVertex nd x.fine) ∧ r ∈ verts v ∧ x.second = some (v, r)) ∧ (nd ≠ 3 → x.second = none) := by
  have mate : ∀ (l : List Rec), ∀ x ∈ (conformVertex l).2, Mates x.1 x.2 ∧ x.1 ∈ l ∧ x.2 ∈ l := by
    intro l x hx
    obtain ⟨A, B, q1, q2, q3, q4, -⟩ := conformVertex_spec l
    rw [q1] at hx
    have hmem : ∀ y, y ∈ served (A ++ B) → y ∈ l := fun y hy => q2.mem_iff.1 (by rw [List.append_assoc, ← served_append]; exact List.mem_append_right _ hy)
    refine ⟨?_, hmem _ (List.mem_flatMap.2 ⟨x, hx, by simp⟩), hmem _ (List.mem_flatMap.2 ⟨x, hx, by simp⟩)⟩
    rcases List.mem_append.1 hx with hx | hx
    · exact ⟨(q3 x hx).1, Or.inl (q3 x hx).2⟩
    · exact ⟨(q4 x hx).1, Or.inr (q4 x hx).2⟩
  unfold plan at h
  dsimp only at h
  cases hb : hangAll nd vertexOf order (conformAll order verts).1 with
  | error e => rw [hb] at h; cases h
  | ok b =>
    rw [hb] at h
    simp only [Except.bind] at h
    split at h
    · cases h
      have hs : ∀ w, ((conformAll order verts).1 w).Sublist (verts w) := fun w => by
        rw [(conformAll_spec order verts hn).1 w]
        split
        · obtain ⟨_, _, _, _, _, _, _, _, q⟩ := conformVertex_spec (verts w)
          exact q
        · exact List.Sublist.refl _
      have hw' : Within order verts := hw
      obtain ⟨-, -, s2⟩ := hangAll_spec hn order (hw'.sub hs) hb
      refine ⟨?_, ?_, ?_⟩
      · intro x hx
        simp only [(conformAll_spec order verts hn).2] at hx
        obtain ⟨v, hv, hx⟩ := List.mem_flatMap.1 hx
        obtain ⟨a, b, c⟩ := mate _ x hx
        exact ⟨a, v, hv, b, c⟩
      · intro x hx
        simp only [(conformAll_spec order' (merge b.1) hn').2] at hx
        obtain ⟨v, hv, hx⟩ := List.mem_flatMap.1 hx
        exact (mate _ x hx).1
      · intro x hx
        obtain ⟨k, k'⟩ := s2 x hx
        obtain ⟨k1, ⟨v, k2, k3⟩, k4, k5⟩ := k.mono hs
        refine ⟨k1, k', ⟨v, hw v (List.ne_nil_of_mem k2), k2, k3⟩, fun e => ?_, k5⟩
        obtain ⟨r, h1, h2⟩ := k4 e
        exact ⟨_, r, rfl, h1, h2⟩
    · cases h

/-- If at every vertex each request has exactly one other that fits, everything is connected at the first attempt, without hanging nodes, whatever the order of the vertices. -/
theorem paired_connected {nd : Nat} {vertexOf : Nat → Nat → Nat → V} {verts : V → List Rec} {order order' : List V} {merge : (V → List Rec) → V → List Rec} (hn : order.Nodup) (hn' : order'.Nodup) (hw : ∀ v, verts v ≠ [] → v ∈ order)
    (hm : ∀ b, (order'.flatMap (merge b)).Perm (order.flatMap b)) (hd : ∀ v, (verts v).Nodup) (hp : ∀ v, Paired (verts v)) :
    ∃ p, plan nd vertexOf order merge order' verts = .ok p ∧ p.hanging = [] ∧ p.last = [] ∧ (served p.first).Perm (order.flatMap verts) := by
  have e1 : ∀ v, (conformAll order verts).1 v = [] := by
    intro v
    rw [(conformAll_spec order verts hn).1 v]
    split
    · exact conformVertex_paired (hd v) (hp v)
    · rename_i h
      by_contra hne
      exact h (hw v hne)
  have e2 : ∀ v ∈ order', merge (conformAll order verts).1 v = [] := by
    have := hm (conformAll order verts).1
    have z : order.flatMap (conformAll order verts).1 = [] := List.flatMap_eq_nil_iff.2 fun v _ => e1 v
    rw [z] at this
    exact fun v hv => List.flatMap_eq_nil_iff.1 this.eq_nil v hv
  have c : ∀ v ∈ order', conformVertex (merge (conformAll order verts).1 v) = ([], []) := by
    intro v hv
    rw [e2 v hv]
    rfl
  obtain ⟨f1, f2⟩ := conformAll_spec order' (merge (conformAll order verts).1) hn'
  refine ⟨⟨(conformAll order verts).2, [], []⟩, ?_, rfl, rfl, ?_⟩
  · unfold plan
    dsimp only
    rw [hangAll_empty order e1]
    simp only [Except.bind]
    have g : (conformAll order' (merge (conformAll order verts).1)).2 = [] := by
      rw [f2]
      exact List.flatMap_eq_nil_iff.2 fun v hv => by rw [c v hv]
    rw [g, if_pos]
    rw [List.all_eq_true]
    intro v hv
    rw [f1 v, if_pos hv, c v hv]
    rfl
  · have := conformAll_perm order verts hn
    have z : order.flatMap (conformAll order verts).1 = [] := List.flatMap_eq_nil_iff.2 fun v _ => e1 v
    rw [z, List.nil_append] at this
    exact this

/-- A layer on any region of a box of grid cells in any number of dimensions, where no two elements meet at an edge only, is connected completely, whatever the order of elements and vertices: all requests are served by connections without hanging nodes, and each connection joins two elements on the same cell, on neighbors or around the same empty cell, across the faces that touch. -/
theorem grid_connected {R : Region} {nd level : Nat} {sn : Pos × Nat × Nat → Nat} {faces : List (Pos × Nat × Nat)} [DecidableEq (Pos ⊕ (Pos × Nat × Nat × Nat))]
    (hf : ∀ f, f ∈ faces ↔ R.Exposed nd f.1 f.2.1 f.2.2) (hd : (faces.map sn).Nodup) (hM : R.Manifold nd)
    {vertexOf : Nat → Nat → Nat → Pos ⊕ (Pos × Nat × Nat × Nat)} {order order' : List (Pos ⊕ (Pos × Nat × Nat × Nat))} {merge : (Pos ⊕ (Pos × Nat × Nat × Nat) → List Rec) → Pos ⊕ (Pos × Nat × Nat × Nat) → List Rec}
    (hn : order.Nodup) (hn' : order'.Nodup) (hc : ∀ x ∈ requests nd (faces.map (gridSite R nd level sn)), x.1 ∈ order) (hm : ∀ b, (order'.flatMap (merge b)).Perm (order.flatMap b)) :
    ∃ p, plan nd vertexOf order merge order' (recorded nd (faces.map (gridSite R nd level sn))) = .ok p ∧ p.hanging = [] ∧ p.last = [] ∧
      (served p.first).Perm ((requests nd (faces.map (gridSite R nd level sn))).map (·.2)) ∧
      ∀ x ∈ p.first, ∃ c i s j t c' i' s' j' t', R.Exposed nd c i s ∧ R.Exposed nd c' i' s' ∧ Meet c i s j t c' i' s' j' t' ∧
        x = (⟨level, sn (c, i, s), 2 * j + t, 2 * i + s⟩, ⟨level, sn (c', i', s'), 2 * j' + t', 2 * i' + s'⟩) ∧ shift (shift c i s) j t = shift (shift c' i' s') j' t' := by
  have hnd : ((requests nd (faces.map (gridSite R nd level sn))).map (·.2)).Nodup := by
    apply requests_nodup
    · intro x hx
      obtain ⟨f, hf', rfl⟩ := List.mem_map.1 hx
      exact ((hf f).1 hf').1
    · rw [List.pairwise_map]
      refine (List.pairwise_map.1 hd).imp ?_
      intro a b h e
      exact h (Prod.ext_iff.1 e).2
  have hw : ∀ v, recorded nd (faces.map (gridSite R nd level sn)) v ≠ [] → v ∈ order := by
    intro v hv
    obtain ⟨r, hr⟩ := List.exists_mem_of_ne_nil _ hv
    exact hc _ (mem_recorded.1 hr)
  obtain ⟨p, h1, h2, h3, h4⟩ := paired_connected (vertexOf := vertexOf) hn hn' hw hm (recorded_nodup hnd) (grid_paired hf hM)
  refine ⟨p, h1, h2, h3, h4.trans (recorded_perm hn hc), ?_⟩
  intro x hx
  obtain ⟨hmt, v, hv, a, b⟩ := (plan_fits hn hn' hw h1).1 x hx
  obtain ⟨q, c, i, s, j, t, rfl, k1, k2⟩ := (mem_grid hf).1 (mem_recorded.1 a)
  obtain ⟨q', c', i', s', j', t', e, k1', k2'⟩ := (mem_grid hf).1 (mem_recorded.1 b)
  cases e
  obtain ⟨d, i2, s2, j2, t2, g1, g2, g3, g4, g5⟩ := partner hM k1
  rw [k2, k2', mates_iff k1.1.2.1 k1.2.2.2.1 k1'.1.2.1 k1'.2.2.2.1] at hmt
  obtain ⟨rfl, rfl, rfl, rfl, rfl⟩ := g5 c' i' s' j' t' k1' hmt
  refine ⟨c, i, s, j, t, c', i', s', j', t', k1.1, k1'.1, g4, Prod.ext k2 k2', ?_⟩
  rw [← k1.2.2.2.2.2, ← k1'.2.2.2.2.2]

/-- The connections that are made name the elements and faces of the requests they serve: at their level, one without hanging nodes has the element and face of either request, and one with hanging nodes has those of the coarse request at its level and those of the fine one at the next. -/
theorem plan_names {nd : Nat} {vertexOf : Nat → Nat → Nat → V} {verts : V → List Rec} {order order' : List V} {merge : (V → List Rec) → V → List Rec} (hn : order.Nodup) (hn' : order'.Nodup) (hw : ∀ v, verts v ≠ [] → v ∈ order)
    {p : Plan V} (h : plan nd vertexOf order merge order' verts = .ok p) :
    (∀ x ∈ p.first ++ p.last, ((conPlan x).level, (conPlan x).sn.1, (conPlan x).face.1) = (x.1.level, x.1.sn, x.1.face) ∧ ((conPlan x).level, (conPlan x).sn.2, (conPlan x).face.2) = (x.2.level, x.2.sn, x.2.face)) ∧
    ∀ x ∈ p.hanging, ((refPlan x).level, (refPlan x).coarse, (refPlan x).face.1) = (x.coarse.level, x.coarse.sn, x.coarse.face) ∧
      ((refPlan x).level + 1, (refPlan x).fine.head?, (refPlan x).face.2) = (x.fine.level, some x.fine.sn, x.fine.face) ∧ (refPlan x).fine.tail = x.second.toList.map (·.2.sn) := by
  obtain ⟨h1, h2, h3⟩ := plan_fits hn hn' hw h
  refine ⟨fun x hx => ?_, fun x hx => ?_⟩
  · have hm : x.1.level = x.2.level := by
      rcases List.mem_append.1 hx with hx | hx
      · exact (h1 x hx).1.1
      · exact (h2 x hx).1
    exact ⟨rfl, by rw [← hm]; rfl⟩
  · exact ⟨rfl, by rw [(h3 x hx).1]; rfl, rfl⟩

/-- A connection with hanging nodes in three dimensions is stretched in the direction of extrusion of the fine elements: the flag set is the one of its place among the two directions in the face. -/
theorem stretched {h : Hang V} (hs : h.second.isSome = true) (h1 : h.fine.face / 2 < 3) (h2 : h.fine.extr / 2 < 3) (h3 : h.fine.face / 2 ≠ h.fine.extr / 2) :
    ((refPlan h).stretch.2 = true ↔ ∃ k < 3, k ≠ h.fine.face / 2 ∧ k < h.fine.extr / 2) ∧ (refPlan h).stretch.1 = !(refPlan h).stretch.2 := by
  generalize ha : h.fine.face / 2 = a at *
  generalize hb : h.fine.extr / 2 = b at *
  have e : (refPlan h).stretch = ((if 3 - a - b < b then 1 else 0) == 0, (if 3 - a - b < b then 1 else 0) == 1) := by
    simp [refPlan, hs, ha, hb]
  rw [e]
  constructor
  · constructor
    · intro h
      have : 3 - a - b < b := by
        by_contra hc
        simp [hc] at h
      exact ⟨3 - a - b, by omega, by omega, this⟩
    · rintro ⟨k, k1, k2, k3⟩
      have : 3 - a - b < b := by omega
      simp [this]
  · by_cases hc : 3 - a - b < b <;> simp [hc]

/-- Two requests that fit but for their refinement levels stop the extrusion if these differ by more than one, or, in three dimensions, if there is not exactly one request at the other end of the fine edge. -/
theorem hanging_throws {nd : Nat} {vertexOf : Nat → Nat → Nat → V} {verts : V → List Rec} {v : V} {r s : Rec} (hv : verts v = [r, s]) (hf : Straight r s ∨ Corner r s) :
    (r.level + 1 < s.level ∨ s.level + 1 < r.level → hangVertex nd vertexOf v verts = .error .levels) ∧
    (nd = 3 → (s.level = r.level + 1 ∧ (verts (vertexOf s.level s.sn (middleVertex nd s))).length ≠ 1) ∨ (r.level = s.level + 1 ∧ (verts (vertexOf r.level r.sn (middleVertex nd r))).length ≠ 1) → hangVertex nd vertexOf v verts = .error .middle) := by
  have fm : ∀ ok : Rec → Rec → Bool, firstMatch ok [r, s] 0 = if ok r s then some 1 else none := by
    intro ok
    cases h : ok r s <;> simp [firstMatch, List.range, List.range.loop, h]
  have fm1 : ∀ ok : Rec → Rec → Bool, firstMatch ok [r, s] 1 = none := by
    intro ok
    simp [firstMatch, List.range, List.range.loop]
  have key : r.level ≠ s.level → ∀ e, hangPair nd vertexOf verts r s = .error e → hangVertex nd vertexOf v verts = .error e := by
    intro hl e he
    have step : ∀ ok : Rec → Rec → Bool, hangScan nd vertexOf ok v 2 verts 0 = if ok r s then .error e else .ok (verts, []) := by
      intro ok
      rw [hangScan, hv]
      simp only [List.length_cons, List.length_nil, Nat.zero_add, Nat.reduceAdd, Nat.ofNat_pos, if_true, fm]
      cases ok r s
      · simp only [Bool.false_eq_true, if_false]
        rw [hangScan, hv]
        simp [fm1, hangScan]
      · simp [he, Except.bind]
    unfold hangVertex
    rw [hv]
    show (hangScan nd vertexOf _ v 2 verts 0).bind _ = _
    rw [step]
    by_cases h1 : hangs alignedSame r s = true
    · rw [if_pos h1]; rfl
    · rw [if_neg h1]
      have h2 : hangs alignedDifferent r s = true := by
        rcases hf with h | h
        · exact absurd (hangs_same.2 ⟨hl, h⟩) h1
        · exact hangs_different.2 ⟨hl, h⟩
      simp only [Except.bind]
      rw [hv]
      show Except.bind (hangScan nd vertexOf _ v 2 verts 0) _ = _
      rw [step, if_pos h2]
      rfl
  constructor
  · intro hl
    refine key (by omega) _ ?_
    unfold hangPair
    rw [if_pos (by omega)]
  · rintro h3 hl
    refine key (by omega) _ ?_
    unfold hangPair
    rw [if_neg (by omega)]
    have hx : ∀ l : List Rec, l.length ≠ 1 → ∀ (f : Rec → Except Err ((V → List Rec) × Hang V)), (match l with | [x] => f x | _ => .error .middle) = .error .middle := by
      intro l hl f
      match l, hl with
      | [], _ => rfl
      | [x], hl => exact absurd rfl hl
      | _ :: _ :: _, _ => rfl
    simp only [if_pos h3]
    apply hx
    rcases hl with ⟨h, h'⟩ | ⟨h, h'⟩
    · rw [if_pos (by omega)]; exact h'
    · rw [if_neg (by omega)]; exact h'

/-- Which face and level the second fine element has is not checked: the planning accepts one of another level. -/
theorem second_unchecked : ∃ (vertexOf : Nat → Nat → Nat → Nat) (order : List Nat) (verts : Nat → List Rec) (p : Plan Nat), plan 3 vertexOf order (fun x => x) order verts = .ok p ∧ order.Nodup ∧ (∀ v, verts v ≠ [] → v ∈ order) ∧
    ∃ h ∈ p.hanging, ∃ v r, h.second = some (v, r) ∧ r.level ≠ h.fine.level ∧ r.face ≠ h.fine.face := by
  refine ⟨fun _ _ i => i, [0, 7], fun v => if v = 0 then [⟨0, 5, 0, 2⟩, ⟨1, 6, 1, 2⟩] else if v = 7 then [⟨0, 8, 5, 3⟩] else [], ⟨[], [⟨⟨0, 5, 0, 2⟩, ⟨1, 6, 1, 2⟩, some (7, ⟨0, 8, 5, 3⟩)⟩], []⟩, ?_, by decide, ?_, ?_⟩
  · rfl
  · intro v hv
    by_cases h0 : v = 0
    · simp [h0]
    · by_cases h7 : v = 7
      · simp [h7]
      · simp [h0, h7] at hv
  · exact ⟨_, List.mem_singleton.2 rfl, 7, ⟨0, 8, 5, 3⟩, rfl, by decide, by decide⟩

end Hexed.Extrude
