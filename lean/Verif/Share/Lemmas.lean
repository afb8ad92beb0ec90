import Verif.Share.Spec
set_option autoImplicit false
set_option linter.unusedVariables false

/-! # Lemmas: sharing of vertex data -/

namespace Hexed.Share
open Hexed.Connection

variable {K : Type} [Field K] [LinearOrder K] [IsStrictOrderedRing K]

theorem foldl_max_spec : ∀ (l : List K) (x : K), (l.foldl max x = x ∨ l.foldl max x ∈ l) ∧ x ≤ l.foldl max x ∧ ∀ y ∈ l, y ≤ l.foldl max x
  | [], x => by simp
  | a :: l, x => by
    obtain ⟨h1, h2, h3⟩ := foldl_max_spec l (max x a)
    simp only [List.foldl_cons]
    refine ⟨?_, (le_max_left _ _).trans h2, fun y hy => ?_⟩
    · rcases h1 with h | h
      · rcases max_choice x a with e | e
        · left; rw [h, e]
        · right; rw [h, e]; simp
      · right; simp [h]
    · rcases List.mem_cons.1 hy with rfl | hy
      · exact (le_max_right _ _).trans h2
      · exact h3 y hy

theorem foldl_min_spec : ∀ (l : List K) (x : K), (l.foldl min x = x ∨ l.foldl min x ∈ l) ∧ l.foldl min x ≤ x ∧ ∀ y ∈ l, l.foldl min x ≤ y
  | [], x => by simp
  | a :: l, x => by
    obtain ⟨h1, h2, h3⟩ := foldl_min_spec l (min x a)
    simp only [List.foldl_cons]
    refine ⟨?_, h2.trans (min_le_left _ _), fun y hy => ?_⟩
    · rcases h1 with h | h
      · rcases min_choice x a with e | e
        · left; rw [h, e]
        · right; rw [h, e]; simp
      · right; simp [h]
    · rcases List.mem_cons.1 hy with rfl | hy
      · exact h2.trans (min_le_right _ _)
      · exact h3 y hy

theorem vectorMax_spec {l : List K} (hl : l ≠ []) : ∃ x, vectorMax l = some x ∧ x ∈ l ∧ ∀ y ∈ l, y ≤ x := by
  obtain ⟨a, l, rfl⟩ := List.exists_cons_of_ne_nil hl
  obtain ⟨h1, h2, h3⟩ := foldl_max_spec l a
  refine ⟨_, rfl, ?_, fun y hy => ?_⟩
  · rcases h1 with h | h
    · rw [h]; simp
    · simp [h]
  · rcases List.mem_cons.1 hy with rfl | hy
    · exact h2
    · exact h3 y hy

theorem vectorMin_spec {l : List K} (hl : l ≠ []) : ∃ x, vectorMin l = some x ∧ x ∈ l ∧ ∀ y ∈ l, x ≤ y := by
  obtain ⟨a, l, rfl⟩ := List.exists_cons_of_ne_nil hl
  obtain ⟨h1, h2, h3⟩ := foldl_min_spec l a
  refine ⟨_, rfl, ?_, fun y hy => ?_⟩
  · rcases h1 with h | h
    · rw [h]; simp
    · simp [h]
  · rcases List.mem_cons.1 hy with rfl | hy
    · exact h2
    · exact h3 y hy

theorem mem_ptrs {m : Mesh} {p : Nat} {s : Nat × Nat} : s ∈ m.ptrs p ↔ s.1 < m.ne ∧ s.2 < 2 ^ m.nd ∧ m.vid s.1 s.2 = p := by
  unfold Mesh.ptrs
  simp only [List.mem_flatMap, List.mem_range, List.mem_map, List.mem_filter, decide_eq_true_eq]
  constructor
  · rintro ⟨e, he, v, ⟨hv, hp⟩, rfl⟩
    exact ⟨he, hv, hp⟩
  · rintro ⟨he, hv, hp⟩
    exact ⟨s.1, he, s.2, ⟨hv, hp⟩, rfl⟩

/-- What the reduction does, for `vector_max` and `vector_min`. -/
structure Picks (reduce : List K → Option K) : Prop where
  mem : ∀ l, l ≠ [] → ∃ x, reduce l = some x ∧ x ∈ l
  perm : ∀ l l', l.Perm l' → reduce l = reduce l'

theorem picks_max : Picks (vectorMax (K := K)) := by
  refine ⟨fun l hl => ?_, fun l l' hp => ?_⟩
  · obtain ⟨x, h1, h2, _⟩ := vectorMax_spec hl
    exact ⟨x, h1, h2⟩
  · by_cases hl : l = []
    · subst hl
      rw [List.nil_perm.1 hp]
    · have hl' : l' ≠ [] := fun h => hl (by subst h; exact List.perm_nil.1 hp)
      obtain ⟨x, h1, h2, h3⟩ := vectorMax_spec hl
      obtain ⟨y, g1, g2, g3⟩ := vectorMax_spec hl'
      rw [h1, g1]
      exact congrArg some (le_antisymm (g3 x (hp.mem_iff.1 h2)) (h3 y (hp.mem_iff.2 g2)))

theorem picks_min : Picks (vectorMin (K := K)) := by
  refine ⟨fun l hl => ?_, fun l l' hp => ?_⟩
  · obtain ⟨x, h1, h2, _⟩ := vectorMin_spec hl
    exact ⟨x, h1, h2⟩
  · by_cases hl : l = []
    · subst hl
      rw [List.nil_perm.1 hp]
    · have hl' : l' ≠ [] := fun h => hl (by subst h; exact List.perm_nil.1 hp)
      obtain ⟨x, h1, h2, h3⟩ := vectorMin_spec hl
      obtain ⟨y, g1, g2, g3⟩ := vectorMin_spec hl'
      rw [h1, g1]
      exact congrArg some (le_antisymm (h3 y (hp.mem_iff.2 g2)) (g3 x (hp.mem_iff.1 h2)))

/-- The value of a vertex after reduction. -/
noncomputable def sv (m : Mesh) (reduce : List K → Option K) (get : Nat → Nat → K) (p : Nat) : K := (reduce ((m.ptrs p).map fun s => get s.1 s.2)).getD 0

variable {m : Mesh} {order : Nat → List (Nat × Nat)} {reduce : List K → Option K} {get set : Nat → Nat → K}

theorem shared_eq (ho : m.IsOrder order) (hr : Picks reduce) {e v : Nat} (he : e < m.ne) (hv : v < 2 ^ m.nd) :
    shared m order reduce get e v = some (sv m reduce get (m.vid e v)) ∧ ∃ e' < m.ne, ∃ v' < 2 ^ m.nd, m.vid e' v' = m.vid e v ∧ sv m reduce get (m.vid e v) = get e' v' := by
  have hp : ((order (m.vid e v)).map fun s => get s.1 s.2).Perm ((m.ptrs (m.vid e v)).map fun s => get s.1 s.2) := (ho _).map _
  have hne : ((m.ptrs (m.vid e v)).map fun s => get s.1 s.2) ≠ [] := by
    intro h
    have : (e, v) ∈ m.ptrs (m.vid e v) := mem_ptrs.2 ⟨he, hv, rfl⟩
    rw [List.map_eq_nil_iff] at h
    rw [h] at this
    simp at this
  obtain ⟨x, h1, h2⟩ := hr.mem _ hne
  have hx : sv m reduce get (m.vid e v) = x := by rw [sv, h1]; rfl
  refine ⟨by rw [shared, hr.perm _ _ hp, h1, hx], ?_⟩
  obtain ⟨s, hs, rfl⟩ := List.mem_map.1 h2
  obtain ⟨a, b, c⟩ := mem_ptrs.1 hs
  exact ⟨s.1, a, s.2, b, c, hx⟩

theorem fetch_eq (ho : m.IsOrder order) (hr : Picks reduce) : ∃ val, fetch m order reduce get set = some val ∧
    (∀ e < m.ne, ∀ v < 2 ^ m.nd, val e v = sv m reduce get (m.vid e v)) ∧ ∀ e v, ¬ (e < m.ne ∧ v < 2 ^ m.nd) → val e v = set e v := by
  rw [fetch, if_pos]
  · refine ⟨_, rfl, fun e he v hv => ?_, fun e v h => if_neg h⟩
    rw [if_pos ⟨he, hv⟩, (shared_eq ho hr he hv).1]; rfl
  · intro e he v hv
    rw [(shared_eq ho hr he hv).1]; rfl

/-- The corner at which each fine element is. -/
theorem atCorner_iff {nd : Nat} (h : Matcher) (i v : Nat) : h.AtCorner nd i v ↔ ∀ k ∈ faceAxes nd h.id, partCenter nd h.id h.str i k = corner nd v k ∨ partCenter nd h.id h.str i k = 0 := by
  refine forall₂_congr fun k hk => ?_
  unfold finePos
  split
  · simp [*]
  · constructor
    · intro h; left; linarith
    · rintro (h | h)
      · rw [h]; ring
      · exact absurd h (by assumption)

/-- One call of `match`: the vertices on the face get the interpolation, nothing else changes. -/
theorem matchOn_eq {nd ne : Nat} (hnd : nd = 2 ∨ nd = 3) {h : Matcher} (hok : h.Ok nd ne) (u : Nat → K) (val : Nat → Nat → K) : ∃ val', matchOn nd u val h = some val' ∧
    (∀ i e v, h.fine[i]? = some e → v ∈ faceVerts nd h.id h.isp → ∀ el : Nat → Nat, (∀ c ∈ faceVerts nd h.id h.isp, el c < nFine nd h.str ∧ h.AtCorner nd (el c) c) →
      val' e v = ((faceVerts nd h.id h.isp).map fun c => h.weight K nd i v c * val (h.fine.getD (el c) 0) c).sum) ∧
    ∀ e v, (e ∉ h.fine ∨ v ∉ faceVerts nd h.id h.isp) → val' e v = val e v := by
  obtain ⟨el0, hel0⟩ := at_corners_exists hnd h.id hok.id h.isp h.str
  obtain ⟨val', h1, h2, h3⟩ := hanging_match_exact (two_ne_zero (α := K)) hnd h.id hok.id h.isp h.str nd le_rfl u (fun i v => val (h.fine.getD i 0) v) el0 hel0
  refine ⟨fun e v => if e ∈ h.fine then val' (h.fine.idxOf e) v else val e v, ?_, ?_, ?_⟩
  · rw [matchOn, hok.length, h1]; rfl
  · intro i e v hi hv el hel
    have hmem : e ∈ h.fine := List.mem_of_getElem? hi
    have hil : i < h.fine.length := (List.getElem?_eq_some_iff.1 hi).1
    have hie : h.fine[i] = e := (List.getElem?_eq_some_iff.1 hi).2
    have hidx : h.fine.idxOf e = i := by rw [← hie]; exact hok.distinct.idxOf_getElem i hil
    obtain ⟨val2, g1, g2, g3⟩ := hanging_match_exact (two_ne_zero (α := K)) hnd h.id hok.id h.isp h.str nd le_rfl u (fun i v => val (h.fine.getD i 0) v) el
      (fun c hc => ⟨(hel c hc).1, (atCorner_iff h _ _).1 (hel c hc).2⟩)
    rw [h1] at g1
    obtain rfl := Option.some.inj g1
    dsimp only
    rw [if_pos hmem, hidx, g2 i v (by rw [← hok.length]; exact hil) hv]
    rfl
  · intro e v hv
    dsimp only
    split
    · rename_i hmem
      have hil : h.fine.idxOf e < h.fine.length := List.idxOf_lt_length_iff.2 hmem
      rcases hv with hv | hv
      · exact absurd hmem hv
      · rw [h3 _ v (Or.inr hv)]
        have : h.fine.getD (h.fine.idxOf e) 0 = e := by
          rw [List.getD_eq_getElem?_getD, List.getElem?_eq_getElem hil, Option.getD_some]
          exact List.getElem_idxOf hil
        rw [this]
    · rfl

end Hexed.Share
