import Verif.Extrude.Lemmas
set_option autoImplicit false
set_option linter.unusedVariables false

/-!
# Lemmas about the loops over vertices
-/

namespace Hexed.Extrude

variable {V : Type} [DecidableEq V]

theorem conformVertex_spec (l : List Rec) : ∃ same different,
    (conformVertex l).2 = same ++ different ∧ ((conformVertex l).1 ++ served same ++ served different).Perm l ∧
    (∀ p ∈ same, p.1.level = p.2.level ∧ Straight p.1 p.2) ∧ (∀ p ∈ different, p.1.level = p.2.level ∧ Corner p.1 p.2) ∧
    ((conformVertex l).1 ++ served different).Pairwise (fun r s => ¬(r.level = s.level ∧ Straight r s)) ∧
    (conformVertex l).1.Pairwise (fun r s => ¬Mates r s) ∧ (conformVertex l).1.Sublist l := by
  obtain ⟨a1, a2, a3, a4⟩ := scan_spec (ok := conforms alignedSame) l.length [] l le_rfl (by simp) List.Pairwise.nil
  simp only [List.nil_append, List.length_nil] at a1 a2 a3 a4
  obtain ⟨b1, b2, b3, b4⟩ := scan_spec (ok := conforms alignedDifferent) (scan (conforms alignedSame) l.length l 0).1.length [] (scan (conforms alignedSame) l.length l 0).1 le_rfl (by simp) List.Pairwise.nil
  simp only [List.nil_append, List.length_nil] at b1 b2 b3 b4
  have a1' : (scan (conforms alignedSame) l.length l 0).1.Pairwise (fun r s => ¬(r.level = s.level ∧ Straight r s)) :=
    a1.imp fun {r s} h h' => by rw [conforms_same.2 h'] at h; cases h
  refine ⟨(scan (conforms alignedSame) l.length l 0).2, (scan (conforms alignedDifferent) (scan (conforms alignedSame) l.length l 0).1.length (scan (conforms alignedSame) l.length l 0).1 0).2, rfl, ?_, fun p hp => conforms_same.1 (a4 p hp), fun p hp => conforms_different.1 (b4 p hp), ?_, ?_, ?_⟩
  · rw [List.append_assoc]
    refine (List.Perm.append_left _ List.perm_append_comm).trans ?_
    rw [← List.append_assoc]
    exact (b2.append_right _).trans a2
  · refine (List.Perm.pairwise_iff ?_ b2).2 a1'
    intro r s h h'
    exact h ⟨h'.1.symm, h'.2.symm⟩
  · have h1 := a1'.sublist b3
    refine (h1.and b1).imp ?_
    rintro r s ⟨h, h'⟩ ⟨e, m | m⟩
    · exact h ⟨e, m⟩
    · rw [conforms_different.2 ⟨e, m⟩] at h'; cases h'
  · exact b3.trans a3

theorem conformAll_spec : ∀ (order : List V) (verts : V → List Rec), order.Nodup →
    (∀ v, (conformAll order verts).1 v = if v ∈ order then (conformVertex (verts v)).1 else verts v) ∧ (conformAll order verts).2 = order.flatMap fun v => (conformVertex (verts v)).2 := by
  intro order
  induction order with
  | nil => intro verts _; exact ⟨fun v => by simp [conformAll], by simp [conformAll]⟩
  | cons a tl ih =>
    intro verts h
    obtain ⟨h1, h2⟩ := List.nodup_cons.1 h
    obtain ⟨k1, k2⟩ := ih (Function.update verts a (conformVertex (verts a)).1) h2
    refine ⟨fun v => ?_, ?_⟩
    · show (conformAll tl _).1 v = _
      rw [k1]
      by_cases hv : v = a
      · subst hv
        simp [h1]
      · simp [hv]
    · show _ ++ (conformAll tl _).2 = _
      rw [k2, List.flatMap_cons]
      congr 1
      apply List.flatMap_congr
      intro v hv
      have hne : v ≠ a := fun e => h1 (e ▸ hv)
      rw [Function.update_of_ne hne]

theorem flatMap_update_perm {order : List V} (hn : order.Nodup) {v : V} (hv : v ∈ order) (verts : V → List Rec) {l x : List Rec} (h : (verts v).Perm (l ++ x)) :
    (order.flatMap verts).Perm (order.flatMap (Function.update verts v l) ++ x) := by
  have p := List.perm_cons_erase hv
  have e : (order.erase v).flatMap (Function.update verts v l) = (order.erase v).flatMap verts := by
    apply List.flatMap_congr
    intro w hw
    rw [Function.update_of_ne]
    rintro rfl
    exact (List.Nodup.not_mem_erase hn) hw
  refine (p.flatMap_right verts).trans ?_
  refine List.Perm.trans ?_ ((p.flatMap_right _).symm.append_right x)
  rw [List.flatMap_cons, List.flatMap_cons, e, Function.update_self, List.append_assoc]
  refine (h.append_right _).trans ?_
  rw [List.append_assoc]
  exact List.Perm.append_left _ List.perm_append_comm

/-- The loop over all vertices neither loses nor duplicates a request. -/
theorem conformAll_perm (order : List V) (verts : V → List Rec) (hn : order.Nodup) :
    (order.flatMap (conformAll order verts).1 ++ served (conformAll order verts).2).Perm (order.flatMap verts) := by
  obtain ⟨h1, h2⟩ := conformAll_spec order verts hn
  rw [h2]
  have e : order.flatMap (conformAll order verts).1 = order.flatMap fun v => (conformVertex (verts v)).1 :=
    List.flatMap_congr fun v hv => by rw [h1, if_pos hv]
  rw [e]
  clear e h1 h2 hn
  induction order with
  | nil => simp [served]
  | cons a tl ih =>
    simp only [List.flatMap_cons, served_append]
    obtain ⟨A, B, q1, q2, -⟩ := conformVertex_spec (verts a)
    have q3 : ((conformVertex (verts a)).1 ++ served (conformVertex (verts a)).2).Perm (verts a) := by
      rw [q1, served_append, ← List.append_assoc]; exact q2
    refine List.Perm.trans ?_ (q3.append ih)
    rw [List.append_assoc, List.append_assoc]
    refine List.Perm.append_left _ ?_
    rw [← List.append_assoc, ← List.append_assoc]
    exact List.Perm.append_right _ List.perm_append_comm

/-- Only the listed vertices have requests. -/
def Within (order : List V) (verts : V → List Rec) : Prop := ∀ v, verts v ≠ [] → v ∈ order

/-- What a hanging connection is made of, in terms of what is recorded at the vertices. -/
def HangOk (nd : Nat) (vertexOf : Nat → Nat → Nat → V) (verts : V → List Rec) (h : Hang V) : Prop :=
  h.fine.level = h.coarse.level + 1 ∧ (∃ v, h.coarse ∈ verts v ∧ h.fine ∈ verts v) ∧
  (nd = 3 → ∃ x ∈ verts (vertexOf h.fine.level h.fine.sn (middleVertex nd h.fine)), h.second = some (vertexOf h.fine.level h.fine.sn (middleVertex nd h.fine), x)) ∧ (nd ≠ 3 → h.second = none)

theorem HangOk.mono {nd : Nat} {vertexOf : Nat → Nat → Nat → V} {verts verts' : V → List Rec} (hs : ∀ w, (verts w).Sublist (verts' w)) {h : Hang V} (k : HangOk nd vertexOf verts h) : HangOk nd vertexOf verts' h := by
  obtain ⟨k1, ⟨v, k2, k3⟩, k4, k5⟩ := k
  refine ⟨k1, ⟨v, (hs v).subset k2, (hs v).subset k3⟩, fun e => ?_, k5⟩
  obtain ⟨x, hx, e'⟩ := k4 e
  exact ⟨x, (hs _).subset hx, e'⟩

theorem Within.sub {order : List V} {verts verts' : V → List Rec} (hw : Within order verts') (hs : ∀ w, (verts w).Sublist (verts' w)) : Within order verts := by
  intro v hv
  apply hw v
  intro e
  have := hs v
  rw [e] at this
  exact hv (List.sublist_nil.1 this)

theorem hangPair_spec {nd : Nat} {vertexOf : Nat → Nat → Nat → V} {order : List V} (hn : order.Nodup) {verts : V → List Rec} (hw : Within order verts) {v : V} {r s : Rec} (hr : r ∈ verts v) (hs : s ∈ verts v) (h2 : 2 ≤ (verts v).length)
    {a : (V → List Rec) × Hang V} (h : hangPair nd vertexOf verts r s = .ok a) :
    (order.flatMap verts).Perm (order.flatMap a.1 ++ a.2.second.toList.map (·.2)) ∧ (∀ w, (a.1 w).Sublist (verts w)) ∧ a.1 v = verts v ∧ HangOk nd vertexOf verts a.2 ∧
      ((a.2.coarse = r ∧ a.2.fine = s) ∨ (a.2.coarse = s ∧ a.2.fine = r)) := by
  unfold hangPair at h
  split at h
  · cases h
  · rename_i hl
    have hl' : s.level = r.level + 1 ∨ r.level = s.level + 1 := by omega
    have key : (if r.level < s.level then s else r).level = (if r.level < s.level then r else s).level + 1 := by
      split <;> omega
    have key2 : ∃ v, (if r.level < s.level then r else s) ∈ verts v ∧ (if r.level < s.level then s else r) ∈ verts v := by
      refine ⟨v, ?_⟩
      split
      · exact ⟨hr, hs⟩
      · exact ⟨hs, hr⟩
    have key3 : ((if r.level < s.level then r else s) = r ∧ (if r.level < s.level then s else r) = s) ∨ ((if r.level < s.level then r else s) = s ∧ (if r.level < s.level then s else r) = r) := by
      split
      · exact Or.inl ⟨rfl, rfl⟩
      · exact Or.inr ⟨rfl, rfl⟩
    generalize (if r.level < s.level then s else r) = fine at *
    generalize (if r.level < s.level then r else s) = coarse at *
    simp only [] at h
    split at h
    · rename_i h3
      split at h
      · rename_i x hx
        cases h
        refine ⟨?_, ?_, ?_, ⟨key, key2, fun _ => ⟨x, by rw [hx]; simp, rfl⟩, fun hne => absurd h3 hne⟩, key3⟩
        · exact flatMap_update_perm hn (hw _ (by rw [hx]; simp)) verts (by rw [hx]; simp)
        · intro w
          by_cases e : w = vertexOf fine.level fine.sn (middleVertex nd fine)
          · subst e; simp
          · simp [Function.update_of_ne e]
        · refine Function.update_of_ne ?_ _ _
          rintro rfl
          rw [hx] at h2
          simp at h2
      · cases h
    · rename_i h3
      cases h
      exact ⟨by simp, fun w => List.Sublist.refl _, rfl, ⟨key, key2, fun h => absurd h h3, fun _ => rfl⟩, key3⟩

theorem servedHanging_cons (h : Hang V) (l : List (Hang V)) : servedHanging (h :: l) = h.coarse :: h.fine :: (h.second.toList.map (·.2) ++ servedHanging l) := rfl
theorem servedHanging_append (l l' : List (Hang V)) : servedHanging (l ++ l') = servedHanging l ++ servedHanging l' := List.flatMap_append

theorem hangScan_spec {nd : Nat} {vertexOf : Nat → Nat → Nat → V} {ok : Rec → Rec → Bool} (hsym : ∀ r s, ok r s = true → ok s r = true) {order : List V} (hn : order.Nodup) {v : V} : ∀ (fuel : Nat) (verts : V → List Rec) (i : Nat), Within order verts →
    ∀ {a : (V → List Rec) × List (Hang V)}, hangScan nd vertexOf ok v fuel verts i = .ok a →
    (order.flatMap a.1 ++ servedHanging a.2).Perm (order.flatMap verts) ∧ (∀ w, (a.1 w).Sublist (verts w)) ∧ ∀ h ∈ a.2, HangOk nd vertexOf verts h ∧ ok h.coarse h.fine = true := by
  intro fuel
  induction fuel with
  | zero =>
    intro verts i hw a h
    rw [hangScan] at h
    cases h
    exact ⟨by simp [servedHanging], fun w => List.Sublist.refl _, by simp⟩
  | succ fuel ih =>
    intro verts i hw a h
    rw [hangScan] at h
    split at h
    · rename_i hi
      cases hm : firstMatch ok (verts v) i with
      | none =>
        rw [hm] at h
        exact ih verts (i + 1) hw h
      | some j =>
        rw [hm] at h
        simp only [] at h
        obtain ⟨m1, m2, m3⟩ := firstMatch_some hm
        cases hp : hangPair nd vertexOf verts ((verts v).getD i default) ((verts v).getD j default) with
        | error e => rw [hp] at h; cases h
        | ok b =>
          rw [hp] at h
          simp only [Except.bind] at h
          have gi : (verts v).getD i default ∈ verts v := by rw [List.getD_eq_getElem _ _ hi]; exact List.getElem_mem _
          have gj : (verts v).getD j default ∈ verts v := by rw [List.getD_eq_getElem _ _ m2]; exact List.getElem_mem _
          obtain ⟨p1, p2, p3, p4, p5⟩ := hangPair_spec hn hw gi gj (by omega) hp
          rw [p3] at h
          have hsub : ∀ w, (Function.update b.1 v (((verts v).eraseIdx j).eraseIdx i) w).Sublist (verts w) := by
            intro w
            by_cases e : w = v
            · subst e
              rw [Function.update_self]
              exact (List.eraseIdx_sublist _ _).trans (List.eraseIdx_sublist _ _)
            · rw [Function.update_of_ne e]; exact p2 w
          cases hc : hangScan nd vertexOf ok v fuel (Function.update b.1 v (((verts v).eraseIdx j).eraseIdx i)) i with
          | error e => rw [hc] at h; cases h
          | ok c =>
            rw [hc] at h
            simp only [] at h
            cases h
            obtain ⟨q1, q2, q3⟩ := ih _ i (hw.sub hsub) hc
            refine ⟨?_, fun w => (q2 w).trans (hsub w), ?_⟩
            · have e1 : (b.1 v).Perm ((((verts v).eraseIdx j).eraseIdx i) ++ [(verts v).getD i default, (verts v).getD j default]) := by
                rw [p3]
                have d1 := getD_perm m2
                have hi' : i < ((verts v).eraseIdx j).length := by rw [List.length_eraseIdx_of_lt m2]; omega
                have d2 := getD_perm hi'
                have e : ((verts v).eraseIdx j).getD i default = (verts v).getD i default := by
                  rw [List.getD_eq_getElem _ _ hi', List.getD_eq_getElem _ _ hi, List.getElem_eraseIdx_of_lt _ m1]
                rw [e] at d2
                refine d1.symm.trans (((d2.symm).cons _).trans ?_)
                refine (List.Perm.swap _ _ _).trans ?_
                exact List.perm_append_comm (l₁ := [_, _])
              have e2 := flatMap_update_perm hn (hw v (by intro e; rw [e] at hi; simp at hi)) b.1 e1
              have e3 : [(verts v).getD i default, (verts v).getD j default].Perm [b.2.coarse, b.2.fine] := by
                rcases p5 with ⟨x, y⟩ | ⟨x, y⟩
                · rw [x, y]
                · rw [x, y]; exact List.Perm.swap _ _ _
              refine List.Perm.trans ?_ p1.symm
              refine List.Perm.trans ?_ ((e2.trans (e3.append_left _)).symm.append_right _)
              refine List.Perm.trans ?_ ((q1.append_right _).append_right _)
              rw [servedHanging_cons, List.append_assoc, List.append_assoc]
              refine List.Perm.append_left _ ?_
              show ([b.2.coarse, b.2.fine] ++ (_ ++ _)).Perm _
              rw [← List.append_assoc]
              exact List.perm_append_comm
            · intro h hh
              rcases List.mem_cons.1 hh with rfl | hh
              · refine ⟨p4, ?_⟩
                rcases p5 with ⟨x, y⟩ | ⟨x, y⟩
                · rw [x, y]; exact m3
                · rw [x, y]; exact hsym _ _ m3
              · exact ⟨(q3 h hh).1.mono hsub, (q3 h hh).2⟩
    · cases h
      exact ⟨by simp [servedHanging], fun w => List.Sublist.refl _, by simp⟩

theorem hangs_same {r s : Rec} : hangs alignedSame r s = true ↔ r.level ≠ s.level ∧ Straight r s := by
  simp only [hangs, alignedSame, Straight, Bool.and_eq_true, beq_iff_eq, bne_iff_ne, ne_eq]
  constructor
  · rintro ⟨⟨⟨h1, h2⟩, h3⟩, h4⟩; exact ⟨fun e => h4 e.symm, h1, h2, h3⟩
  · rintro ⟨h4, h1, h2, h3⟩; exact ⟨⟨⟨h1, h2⟩, h3⟩, fun e => h4 e.symm⟩

theorem hangs_different {r s : Rec} : hangs alignedDifferent r s = true ↔ r.level ≠ s.level ∧ Corner r s := by
  simp only [hangs, alignedDifferent, Corner, Bool.and_eq_true, beq_iff_eq, bne_iff_ne, ne_eq]
  constructor
  · rintro ⟨⟨h1, h2⟩, h4⟩; exact ⟨fun e => h4 e.symm, h1, h2⟩
  · rintro ⟨h4, h1, h2⟩; exact ⟨⟨h1, h2⟩, fun e => h4 e.symm⟩

theorem hangVertex_spec {nd : Nat} {vertexOf : Nat → Nat → Nat → V} {order : List V} (hn : order.Nodup) {v : V} {verts : V → List Rec} (hw : Within order verts)
    {a : (V → List Rec) × List (Hang V)} (h : hangVertex nd vertexOf v verts = .ok a) :
    (order.flatMap a.1 ++ servedHanging a.2).Perm (order.flatMap verts) ∧ (∀ w, (a.1 w).Sublist (verts w)) ∧ ∀ h ∈ a.2, HangOk nd vertexOf verts h ∧ (Straight h.coarse h.fine ∨ Corner h.coarse h.fine) := by
  unfold hangVertex at h
  cases hb : hangScan nd vertexOf (hangs alignedSame) v (verts v).length verts 0 with
  | error e => rw [hb] at h; cases h
  | ok b =>
    rw [hb] at h
    simp only [Except.bind] at h
    cases hc : hangScan nd vertexOf (hangs alignedDifferent) v (b.1 v).length b.1 0 with
    | error e => rw [hc] at h; cases h
    | ok c =>
      rw [hc] at h
      simp only [] at h
      cases h
      obtain ⟨b1, b2, b3⟩ := hangScan_spec (fun r s h => hangs_same.2 ⟨(hangs_same.1 h).1.symm, (hangs_same.1 h).2.symm⟩) hn _ _ _ hw hb
      obtain ⟨c1, c2, c3⟩ := hangScan_spec (fun r s h => hangs_different.2 ⟨(hangs_different.1 h).1.symm, (hangs_different.1 h).2.symm⟩) hn _ _ _ (hw.sub b2) hc
      refine ⟨?_, fun w => (c2 w).trans (b2 w), ?_⟩
      · rw [servedHanging_append]
        refine (List.Perm.append_left _ List.perm_append_comm).trans ?_
        rw [← List.append_assoc]
        exact (c1.append_right _).trans b1
      · intro h hh
        rcases List.mem_append.1 hh with hh | hh
        · exact ⟨(b3 h hh).1, Or.inl (hangs_same.1 (b3 h hh).2).2⟩
        · exact ⟨(c3 h hh).1.mono b2, Or.inr (hangs_different.1 (c3 h hh).2).2⟩

theorem hangAll_spec {nd : Nat} {vertexOf : Nat → Nat → Nat → V} {order : List V} (hn : order.Nodup) : ∀ (todo : List V) {verts : V → List Rec}, Within order verts → ∀ {a : (V → List Rec) × List (Hang V)}, hangAll nd vertexOf todo verts = .ok a →
    (order.flatMap a.1 ++ servedHanging a.2).Perm (order.flatMap verts) ∧ (∀ w, (a.1 w).Sublist (verts w)) ∧ ∀ h ∈ a.2, HangOk nd vertexOf verts h ∧ (Straight h.coarse h.fine ∨ Corner h.coarse h.fine) := by
  intro todo
  induction todo with
  | nil =>
    intro verts hw a h
    rw [hangAll] at h
    cases h
    exact ⟨by simp [servedHanging], fun w => List.Sublist.refl _, by simp⟩
  | cons v todo ih =>
    intro verts hw a h
    rw [hangAll] at h
    cases hb : hangVertex nd vertexOf v verts with
    | error e => rw [hb] at h; cases h
    | ok b =>
      rw [hb] at h
      simp only [Except.bind] at h
      cases hc : hangAll nd vertexOf todo b.1 with
      | error e => rw [hc] at h; cases h
      | ok c =>
        rw [hc] at h
        simp only [] at h
        cases h
        obtain ⟨b1, b2, b3⟩ := hangVertex_spec hn hw hb
        obtain ⟨c1, c2, c3⟩ := ih (hw.sub b2) hc
        refine ⟨?_, fun w => (c2 w).trans (b2 w), ?_⟩
        · rw [servedHanging_append]
          refine (List.Perm.append_left _ List.perm_append_comm).trans ?_
          rw [← List.append_assoc]
          exact (c1.append_right _).trans b1
        · intro h hh
          rcases List.mem_append.1 hh with hh | hh
          · exact b3 h hh
          · exact ⟨(c3 h hh).1.mono b2, (c3 h hh).2⟩

/-- Where there are no requests there is nothing to do. -/
theorem hangAll_empty {nd : Nat} {vertexOf : Nat → Nat → Nat → V} : ∀ (order : List V) {verts : V → List Rec}, (∀ v, verts v = []) → hangAll nd vertexOf order verts = .ok (verts, []) := by
  intro order
  induction order with
  | nil => intro verts h; rfl
  | cons v tl ih =>
    intro verts h
    rw [hangAll]
    have : hangVertex nd vertexOf v verts = .ok (verts, []) := by
      unfold hangVertex
      simp [h, hangScan, Except.bind]
    rw [this]
    simp only [Except.bind]
    rw [ih h]
    rfl

/-- A vertex where everyone has one partner is left empty. -/
theorem conformVertex_paired {l : List Rec} (hn : l.Nodup) (hp : Paired l) : (conformVertex l).1 = [] := by
  obtain ⟨A, B, q1, q2, q3, q4, -, q6, q7⟩ := conformVertex_spec l
  rw [List.eq_nil_iff_forall_not_mem]
  intro r hr
  have hrl := q7.subset hr
  obtain ⟨s, hs, hne, hm, hu⟩ := hp r hrl
  have hnd := (q2.nodup_iff).2 hn
  rw [List.append_assoc] at hnd
  have hdis := List.disjoint_of_nodup_append hnd
  have hmem := q2.mem_iff.2 hs
  rw [List.append_assoc] at hmem
  have hsym : ∀ p : Rec × Rec, (p ∈ A ∨ p ∈ B) → Mates p.1 p.2 ∧ p.1 ∈ served A ++ served B ∧ p.2 ∈ served A ++ served B := by
    intro p h
    refine ⟨?_, ?_, ?_⟩
    · rcases h with h | h
      · exact ⟨(q3 p h).1, Or.inl (q3 p h).2⟩
      · exact ⟨(q4 p h).1, Or.inr (q4 p h).2⟩
    · rw [← served_append]; exact List.mem_flatMap.2 ⟨p, List.mem_append.2 h, by simp⟩
    · rw [← served_append]; exact List.mem_flatMap.2 ⟨p, List.mem_append.2 h, by simp⟩
  have hin : ∀ x, x ∈ served A ++ served B → x ∈ l := fun x hx => q2.mem_iff.1 (by rw [List.append_assoc]; exact List.mem_append_right _ hx)
  rcases List.mem_append.1 hmem with h | h
  · haveI : Std.Symm fun r s : Rec => ¬Mates r s := ⟨fun a b h h' => h h'.symm⟩
    exact q6.forall hr h hne.symm hm
  · rw [← served_append] at h
    obtain ⟨p, hp1, hp2⟩ := List.mem_flatMap.1 h
    obtain ⟨g1, g2, g3⟩ := hsym p (List.mem_append.1 hp1)
    obtain ⟨u, -, -, -, hu'⟩ := hp s hs
    have er : r = u := hu' r hrl hm.symm
    simp only [List.mem_cons, List.not_mem_nil, or_false] at hp2
    rcases hp2 with rfl | rfl
    · have := hu' p.2 (hin _ g3) g1
      exact hdis hr (by rw [er, ← this]; exact g3)
    · have := hu' p.1 (hin _ g2) g1.symm
      exact hdis hr (by rw [er, ← this]; exact g2)

end Hexed.Extrude
