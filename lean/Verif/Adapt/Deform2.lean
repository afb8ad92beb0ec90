import Verif.Adapt.Deform

set_option autoImplicit false
set_option linter.unusedVariables false

/-!
# The choice of the deformed elements as a whole, and `purge`
-/

namespace Hexed.Adapt
open Hexed.Tree (Path get modify Reachable IsLeafAt IsDir Borders)

variable {nd : Nat}

/-- A cell has an element of record 0 only if it stays. -/
def Done (st : St nd) : Prop := ∀ d, ∀ e ∈ st.els d, e.tree ≠ none → e.record ≠ 2 → e.record = 0

theorem deform_ok {st : St nd} (h : Consistent st) (hn : NoRequests st) (h3 : NoToggle st)
    (hf : ∀ p a dir, Exists st p → get p st.root = some a → FaceDir dir → AllOrNone st a dir)
    {o1 o2 : Nat → St nd → List (Bool × Nat)} (h1 : Schedule o1) (h2 : Schedule o2) (fuel : Nat) :
    (∃ st', deform o1 o2 fuel st = some (some st') ∧ Consistent st' ∧ st'.root = st.root ∧ Done st' ∧ NoToggle st' ∧
      (∀ p, ExistsAs st' true p ↔ Bent st p) ∧ (∀ p, ExistsAs st' false p ↔ Exists st p ∧ ¬Bent st p)) ∨
    (fuel ≤ st.all.length ∧ deform o1 o2 fuel st = some none) := by
  obtain ⟨D, e1, e2⟩ := deformLoop_all h hn hf (h1 0 st)
  have hD : ∀ q, D q = true → Bent st q := by
    intro q hq
    obtain ⟨p, hp, hb⟩ := (e2 q).1 hq
    exact base_bent h hp hb
  simp only [deform, e1, Option.bind_some]
  rcases spread_loop h hf h2 fuel 0 D hD with ⟨D', g1, g2, g3, g4⟩ | ⟨g1, g2⟩
  · left
    have hB : ∀ q, D' q = true ↔ Bent st q := fun q => ⟨g3 q, fun hq => bent_sub h (fun p q hp hb => g2 q ((e2 q).2 ⟨p, hp, hb⟩)) g4 hq⟩
    rw [g1]
    simp only [Option.bind_some]
    have hrec : ∀ d, ∀ e ∈ (paint st D').els d, e.record = 3 → ∃ p, e.tree = some p ∧ Exists st p ∧ D' p ≠ d := by
      intro d e he hr
      simp only [paint, List.mem_map] at he
      obtain ⟨x, hx, rfl⟩ := he
      have hx3 := h3 d x hx
      have hx2 : x.record ≠ 2 := fun hh => by rw [tint_two.2 hh] at hr; omega
      cases ht : x.tree with
      | none => exfalso; simp only [tint, ht] at hr; exact hx3 hr
      | some p =>
        refine ⟨p, by rw [tint_tree, ht], ⟨d, x, hx, ht, hx2⟩, fun hh => ?_⟩
        rw [tint_some ht hx2] at hr
        simp [hh] at hr
    obtain ⟨s, s1, s2, s3, s4⟩ := swaps_ok (paint_consistent h D') (fun d e he hr => by
      obtain ⟨p, hp, -⟩ := hrec d e he hr
      rw [hp]; simp)
    have hone : ∀ d, ∀ e ∈ s.els d, ∀ p, e.tree = some p → e.record ≠ 2 → e.record = 0 ∧ Exists st p ∧ D' p = d := by
      intro d e he p ht hr
      rw [s4, List.mem_append] at he
      rcases he with he | he
      · obtain ⟨x, hx, rfl⟩ := List.mem_map.1 he
        simp only [gone] at ht hr ⊢
        by_cases hx3 : x.record = 3
        · rw [if_pos hx3] at ht; simp at ht
        · rw [if_neg hx3] at ht hr ⊢
          simp only [paint, List.mem_map] at hx
          obtain ⟨y, hy, rfl⟩ := hx
          rw [tint_tree] at ht
          have hy2 : y.record ≠ 2 := fun hh => hr (tint_two.2 hh)
          rw [tint_some ht hy2] at hx3 ⊢
          by_cases hd : D' p = d
          · exact ⟨by simp [hd], ⟨d, y, hy, ht, hy2⟩, hd⟩
          · simp [hd] at hx3
      · obtain ⟨x, hx, hb⟩ := List.mem_flatMap.1 he
        refine ⟨born_record hb, ?_⟩
        simp only [born] at hb
        by_cases hx3 : x.record = 3
        · obtain ⟨p', h1, h2, h3⟩ := hrec _ x hx hx3
          rw [if_pos hx3, h1] at hb
          simp only [Option.map_some, Option.toList_some, List.mem_singleton] at hb
          subst hb
          simp only [Option.some.injEq] at ht; subst ht
          refine ⟨h2, ?_⟩
          cases d <;> simpa using h3
        · simp [if_neg hx3] at hb
    have hback : ∀ p, Exists st p → ExistsAs s (D' p) p := by
      rintro p ⟨d, e, he, ht, hr⟩
      by_cases hd : D' p = d
      · refine ⟨tint D' d e, ?_, by rw [tint_tree, ht], fun hh => hr (tint_two.1 hh)⟩
        rw [hd, s4, List.mem_append]
        refine .inl (List.mem_map.2 ⟨tint D' d e, List.mem_map.2 ⟨e, he, rfl⟩, ?_⟩)
        rw [gone, if_neg]
        rw [tint_some ht hr]; simp [hd]
      · refine ⟨⟨some p, 0, false⟩, ?_, rfl, by simp⟩
        rw [s4, List.mem_append]
        refine .inr (List.mem_flatMap.2 ⟨tint D' d e, List.mem_map.2 ⟨e, ?_, ?_⟩, ?_⟩)
        · have : (!D' p) = d := by cases h : D' p <;> cases d <;> simp_all
          rw [this]; exact he
        · have : (!D' p) = d := by cases h : D' p <;> cases d <;> simp_all
          rw [this]
        · rw [born, tint_some ht hr]; simp [hd, ht]
    have hroot : s.root = st.root := s3
    have hiff : ∀ d p, ExistsAs s d p ↔ Exists st p ∧ D' p = d := by
      intro d p
      constructor
      · rintro ⟨e, he, ht, hr⟩; exact (hone d e he p ht hr).2
      · rintro ⟨hp, rfl⟩; exact hback p hp
    refine ⟨s, ?_, s2, hroot, ?_, ?_, fun p => ?_, fun p => ?_⟩
    · have : ((swap false (paint st D')).bind fun st => (swap true st).map some) = ((swap false (paint st D')).bind fun st => swap true st).map some := by
        cases swap false (paint st D') <;> rfl
      rw [this, s1]; rfl
    · intro d e he ht hr
      cases h' : e.tree with
      | none => exact absurd h' ht
      | some p => exact (hone d e he p h' hr).1
    · intro d e he hr
      rw [s4, List.mem_append] at he
      rcases he with he | he
      · obtain ⟨x, hx, rfl⟩ := List.mem_map.1 he
        simp only [gone] at hr
        split at hr
        · simp at hr
        · contradiction
      · obtain ⟨x, hx, hb⟩ := List.mem_flatMap.1 he
        rw [born_record hb] at hr; omega
    · rw [hiff, hB]; exact ⟨fun hh => hh.2, fun hh => ⟨hh.exists, hh⟩⟩
    · rw [hiff, ← hB, Bool.not_eq_true]
  · right
    refine ⟨g1.trans (List.countP_le_length), by rw [g2]; rfl⟩

/-! ### `purge` -/

theorem purge_ok {st : St nd} (h : Consistent st) (hs : Done st) : Consistent (purge st) ∧ (∀ d p, ExistsAs (purge st) d p ↔ ExistsAs st d p) ∧
    ∀ d, ∀ e ∈ (purge st).els d, e.record = 0 := by
  have hsub : ∀ d e, e ∈ (purge st).els d ↔ e ∈ st.els d ∧ e.record = 0 := by
    intro d e; simp [purge]
  refine ⟨⟨h.reach, fun d e he p ht => h.valid d e ((hsub d e).1 he).1 p ht, ?_, fun d e he p ht hr => h.leaf d e ((hsub d e).1 he).1 p ht hr⟩, fun d p => ?_,
    fun d e he => ((hsub d e).1 he).2⟩
  · refine h.uniq.sublist ?_
    refine List.Sublist.filterMap _ ?_
    simp only [St.all, purge]
    exact List.Sublist.append List.filter_sublist List.filter_sublist
  · constructor
    · rintro ⟨e, he, ht, hr⟩; exact ⟨e, ((hsub d e).1 he).1, ht, hr⟩
    · rintro ⟨e, he, ht, hr⟩
      exact ⟨e, (hsub d e).2 ⟨he, hs d e he (by rw [ht]; simp) hr⟩, ht, hr⟩

theorem exists_as {st : St nd} {p : Path} : Exists st p ↔ ExistsAs st true p ∨ ExistsAs st false p := by
  constructor
  · rintro ⟨d, e, he⟩; cases d
    · exact .inr ⟨e, he⟩
    · exact .inl ⟨e, he⟩
  · rintro (⟨e, he⟩ | ⟨e, he⟩)
    · exact ⟨true, e, he⟩
    · exact ⟨false, e, he⟩

end Hexed.Adapt
