import Verif.Relax.Smooth
set_option autoImplicit false
set_option linter.unusedVariables false

/-! # The lists of boundary vertices, and snapping (C85) -/

namespace Hexed.Relax
variable {V K : Type} [DecidableEq V]

theorem mem_conVerts (m : Mesh V K) (c : Con V K) (v : V) :
    v ∈ conVerts m c ↔ ∃ i < 2 ^ m.nd, ((upper m.nd i c.dim = true ∧ c.sign = 1) ∨ (upper m.nd i c.dim = false ∧ c.sign = 0)) ∧ c.elem.vert i = v := by
  have key : ∀ i, (i / 2 ^ (m.nd - 1 - c.dim) % 2 = c.sign) ↔ ((upper m.nd i c.dim = true ∧ c.sign = 1) ∨ (upper m.nd i c.dim = false ∧ c.sign = 0)) := by
    intro i
    have h1 : upper m.nd i c.dim = decide (i / 2 ^ (m.nd - 1 - c.dim) % 2 = 1) := by rw [upper, Nat.testBit_eq_decide_div_mod_eq]
    rw [h1]
    have := Nat.mod_lt (i / 2 ^ (m.nd - 1 - c.dim)) (by omega : 0 < 2)
    simp only [decide_eq_true_eq, decide_eq_false_iff_not]
    omega
  simp only [conVerts, List.mem_map, List.mem_filter, List.mem_range, decide_eq_true_eq, key]
  constructor
  · rintro ⟨i, ⟨h1, h2⟩, h3⟩; exact ⟨i, h1, h2, h3⟩
  · rintro ⟨i, h1, h2, h3⟩; exact ⟨i, ⟨h1, h2⟩, h3⟩

theorem record_fold (bc : Nat) : ∀ (l : List V) (rec : V → List Nat) (v : V) (b : Nat), b ∈ (l.foldl (fun r v => upd r v (r v ++ [bc])) rec) v ↔ b ∈ rec v ∨ (b = bc ∧ v ∈ l)
  | [], rec, v, b => by simp
  | w :: l, rec, v, b => by
    rw [List.foldl_cons, record_fold bc l]
    by_cases h : v = w
    · subst h
      simp only [upd, if_true, List.mem_append, List.mem_singleton, List.mem_cons, true_or, and_true]
      tauto
    · simp [upd, h]

theorem visit_fold (m : Mesh V K) (bc : Nat) : ∀ (l : List V) (s : (V → List Nat) × List V), (∀ v ∈ s.2, bc ∈ s.1 v) →
    (∀ v b, b ∈ (l.foldl (visit m bc) s).1 v ↔ b ∈ s.1 v ∨ (b = bc ∧ v ∈ l)) ∧
    (∀ v, v ∈ (l.foldl (visit m bc) s).2 ↔ v ∈ s.2 ∨ (v ∈ l ∧ bc ∉ s.1 v ∧ needsSmooth m v = true)) ∧
    (s.2.Nodup → (l.foldl (visit m bc) s).2.Nodup)
  | [], s, h => by simp
  | w :: l, s, h => by
    rw [List.foldl_cons]
    by_cases hw : bc ∈ s.1 w
    · have e : visit m bc s w = s := if_pos hw
      rw [e]
      obtain ⟨h1, h2, h3⟩ := visit_fold m bc l s h
      refine ⟨fun v b => ?_, fun v => ?_, h3⟩
      · rw [h1, List.mem_cons]
        constructor
        · tauto
        · rintro (h | ⟨rfl, rfl | h⟩)
          · exact Or.inl h
          · exact Or.inl hw
          · exact Or.inr ⟨rfl, h⟩
      · rw [h2, List.mem_cons]
        constructor
        · tauto
        · rintro (h | ⟨rfl | h, h'⟩)
          · exact Or.inl h
          · exact absurd hw h'.1
          · exact Or.inr ⟨h, h'⟩
    · have e : visit m bc s w = (upd s.1 w (s.1 w ++ [bc]), if needsSmooth m w then s.2 ++ [w] else s.2) := if_neg hw
      have hu : ∀ v b, b ∈ upd s.1 w (s.1 w ++ [bc]) v ↔ b ∈ s.1 v ∨ (b = bc ∧ v = w) := by
        intro v b
        by_cases hv : v = w
        · subst hv; simp [upd]
        · simp [upd, hv]
      have hs : ∀ v, v ∈ (if needsSmooth m w = true then s.2 ++ [w] else s.2) ↔ v ∈ s.2 ∨ (v = w ∧ needsSmooth m w = true) := by
        intro v
        split_ifs with hn <;> simp [hn]
      rw [e]
      obtain ⟨h1, h2, h3⟩ := visit_fold m bc l (upd s.1 w (s.1 w ++ [bc]), if needsSmooth m w then s.2 ++ [w] else s.2) (by
        intro v hv
        rw [hu]
        rcases (hs v).1 hv with hv | hv
        · exact Or.inl (h v hv)
        · exact Or.inr ⟨rfl, hv.1⟩)
      refine ⟨fun v b => ?_, fun v => ?_, fun hd => h3 ?_⟩
      · rw [h1, hu, List.mem_cons]; tauto
      · rw [h2, hs, hu, List.mem_cons]
        constructor
        · rintro ((h | ⟨rfl, h⟩) | ⟨h, h', h''⟩)
          · exact Or.inl h
          · exact Or.inr ⟨Or.inl rfl, hw, h⟩
          · exact Or.inr ⟨Or.inr h, fun hh => h' (Or.inl hh), h''⟩
        · rintro (h | ⟨h, h', h''⟩)
          · exact Or.inl (Or.inl h)
          · by_cases hv : v = w
            · subst hv; exact Or.inl (Or.inr ⟨rfl, h''⟩)
            · rcases h with h | h
              · exact absurd h hv
              · exact Or.inr ⟨h, by rintro (hh | ⟨_, hh⟩); exacts [h' hh, hv hh], h''⟩
      · simp only
        split_ifs
        · refine List.nodup_append.2 ⟨hd, by simp, ?_⟩
          intro a ha b hb
          obtain rfl := List.mem_singleton.1 hb
          rintro rfl
          exact hw (h a ha)
        · exact hd

theorem idBc_fold (m : Mesh V K) : ∀ (n : Nat) (s : (V → List Nat) × (Nat → List V)), (∀ bc v, OnFace m bc v → s.1 v = []) →
    (∀ bc v, OnFace m bc v → ∀ b ∈ ((List.range n).foldl (idBc m) s).1 v, b < n) ∧
    (∀ bc, n ≤ bc → ((List.range n).foldl (idBc m) s).2 bc = s.2 bc) ∧
    ∀ bc < n, (∀ v, v ∈ ((List.range n).foldl (idBc m) s).2 bc ↔ v ∈ s.2 bc ∨ (OnFace m bc v ∧ needsSmooth m v = true)) ∧
      ((s.2 bc).Nodup → (((List.range n).foldl (idBc m) s).2 bc).Nodup)
  | 0, s, h => by
    refine ⟨fun bc v hv b hb => ?_, fun bc _ => rfl, fun bc hbc => absurd hbc (by omega)⟩
    rw [List.range_zero, List.foldl_nil, h bc v hv] at hb
    simp at hb
  | n + 1, s, h => by
    obtain ⟨h1, h2, h3⟩ := idBc_fold m n s h
    rw [List.range_succ, List.foldl_append, List.foldl_cons, List.foldl_nil]
    generalize (List.range n).foldl (idBc m) s = q at h1 h2 h3
    have hl : ∀ v, v ∈ (m.cons.filter fun c => c.bc = n).flatMap (conVerts m) ↔ OnFace m n v := by
      intro v
      simp only [List.mem_flatMap, List.mem_filter, decide_eq_true_eq, mem_conVerts, OnFace]
      constructor
      · rintro ⟨c, ⟨h1, h2⟩, h3⟩; exact ⟨c, h1, h2, h3⟩
      · rintro ⟨c, h1, h2, h3⟩; exact ⟨c, ⟨h1, h2⟩, h3⟩
    have hr := record_fold n (q.2 n) q.1
    obtain ⟨h4, h5, h6⟩ := visit_fold m n ((m.cons.filter fun c => c.bc = n).flatMap (conVerts m)) ((q.2 n).foldl (fun r v => upd r v (r v ++ [n])) q.1, q.2 n)
      fun v hv => (hr v n).2 (Or.inr ⟨rfl, hv⟩)
    refine ⟨fun bc v hv b hb => ?_, fun bc hbc => ?_, fun bc hbc => ?_⟩
    · rcases (h4 v b).1 hb with hb | ⟨rfl, _⟩
      · rcases (hr v b).1 hb with hb | ⟨rfl, _⟩
        · have := h1 bc v hv b hb; omega
        · omega
      · omega
    · have e : (idBc m q n).2 bc = q.2 bc := if_neg (by omega)
      rw [e]; exact h2 bc (by omega)
    · by_cases e : bc = n
      · subst e
        have e2 : (idBc m q bc).2 bc = (((m.cons.filter fun c => c.bc = bc).flatMap (conVerts m)).foldl (visit m bc) ((q.2 bc).foldl (fun r v => upd r v (r v ++ [bc])) q.1, q.2 bc)).2 := if_pos rfl
        rw [e2, ← h2 bc (le_refl _)]
        refine ⟨fun v => ?_, h6⟩
        rw [h5, hl]
        simp only [hr]
        constructor
        · rintro (h | ⟨h, h', h''⟩)
          · exact Or.inl h
          · exact Or.inr ⟨h, h''⟩
        · rintro (h | ⟨h, h''⟩)
          · exact Or.inl h
          · by_cases hv : v ∈ q.2 bc
            · exact Or.inl hv
            · refine Or.inr ⟨h, ?_, h''⟩
              rintro (hh | hh)
              · have := h1 bc v h bc hh; omega
              · exact hv hh.2
      · have e2 : (idBc m q n).2 bc = q.2 bc := if_neg e
        rw [e2]; exact h3 bc (by omega)

/-- C85: after `id_boundary_verts`, the list of a boundary condition contains the vertices of the faces of deformed elements to which it applies and those that were listed before, as far as
they are to be smoothed, and it contains no vertex twice. -/
theorem boundary_exact (m m' : Mesh V K) (h : idBoundary m = .ok m') (hv : ∀ bc v, OnFace m bc v → v ∈ m.verts) :
    (∀ bc < m.nBc, (∀ v, v ∈ m'.bverts bc ↔ (v ∈ m.bverts bc ∨ OnFace m bc v) ∧ Needs m v) ∧ ((m.bverts bc).Nodup → (m'.bverts bc).Nodup)) ∧
    m' = { m with record := m'.record, bverts := m'.bverts } := by
  unfold idBoundary at h
  split_ifs at h
  injection h with h
  subst h
  obtain ⟨_, _, h3⟩ := idBc_fold m m.nBc (fun v => if v ∈ m.verts then [] else m.record v, fun b => (m.bverts b).filter fun v => needsSmooth m v) fun bc v hh => if_pos (hv bc v hh)
  refine ⟨fun bc hbc => ?_, rfl⟩
  obtain ⟨h4, h5⟩ := h3 bc hbc
  refine ⟨fun v => ?_, fun hd => h5 (hd.filter _)⟩
  rw [h4, List.mem_filter, ← needsSmooth_iff]
  tauto

/-- C85: `set_all_smooth` lists for smoothing all vertices of the mesh that no element forbids to move. -/
theorem all_smooth_exact [Field K] [LinearOrder K] (m m' : Mesh V K) (h : setAllSmooth m = .ok m') (hp : ∀ v ∈ m.verts, m.ptrs v ≠ []) :
    ∀ v, v ∈ m'.smooth ↔ v ∈ m.verts ∧ Mobile m v := by
  unfold setAllSmooth at h
  rcases h1 : idSmooth { m with ptrs := fun v => (m.ptrs v).map fun q => { q with smooth := true } } with m1 | _ | _ | _
  · rw [h1] at h
    obtain ⟨h2, _, h3⟩ := smooth_exact _ _ h1
    have h4 : m'.smooth = m1.smooth := by
      simp only [Out.bind, idBoundary] at h
      split_ifs at h
      injection h with h
      rw [← h]
    intro v
    rw [h4, h2]
    simp only [Mobile, Needs, List.mem_map]
    constructor
    · rintro ⟨a, b, c⟩
      exact ⟨a, fun q hq => b { q with smooth := true } ⟨q, hq, rfl⟩⟩
    · rintro ⟨a, b⟩
      refine ⟨a, ?_, ?_⟩
      · rintro _ ⟨q, hq, rfl⟩; exact b q hq
      · obtain ⟨q, hq⟩ := List.exists_mem_of_ne_nil _ (hp v a)
        exact ⟨_, ⟨q, hq, rfl⟩, rfl⟩
  all_goals rw [h1] at h; cases h

end Hexed.Relax
