import Verif.Contour.Spec
import Mathlib.Algebra.Order.BigOperators.Group.Finset
import Mathlib.Data.List.GetD
import Mathlib.Tactic.Ring
import Mathlib.Tactic.Linarith
set_option autoImplicit false
set_option linter.unusedVariables false

/-!
# The table of vertices
-/

open Finset

namespace Hexed.Contour

/-- The table is consistent: looking up gives the position in the list of vertices. -/
structure Ok (st : St) : Prop where
  look : ∀ v k, st.index v = some k ↔ st.verts[k]? = some v
  nodup : st.verts.Nodup
  dirs : st.dirs.length = st.verts.length

theorem init_ok : Ok init := ⟨by intro v k; simp [init], List.nodup_nil, rfl⟩

theorem addVert_ok {st : St} (h : Ok st) (v : ℤ) : Ok (addVert st v).1 ∧ (addVert st v).1.verts[(addVert st v).2]? = some v ∧ st.verts <+: (addVert st v).1.verts ∧ (addVert st v).1.faces = st.faces ∧ ∀ w ∈ (addVert st v).1.verts, w ∈ st.verts ∨ w = v := by
  unfold addVert
  split
  · rename_i k hk
    exact ⟨h, (h.look v k).1 hk, List.prefix_refl _, rfl, fun w hw => Or.inl hw⟩
  · rename_i hn
    have hv : v ∉ st.verts := by
      intro hm
      obtain ⟨k, hk⟩ := List.getElem?_of_mem hm
      rw [(h.look v k).2 hk] at hn
      cases hn
    refine ⟨⟨?_, ?_, ?_⟩, ?_, List.prefix_append _ _, rfl, ?_⟩
    · intro w k
      dsimp only
      by_cases hw : w = v
      · subst hw
        rw [Function.update_self]
        constructor
        · intro e
          cases e
          simp
        · intro e
          rw [List.getElem?_append] at e
          split at e
          · exact absurd (List.mem_of_getElem? e) hv
          · rename_i hk
            have : k - st.verts.length < 1 := by
              by_contra hc
              rw [List.getElem?_eq_none (by simp only [List.length_singleton]; omega)] at e
              cases e
            congr 1
            omega
      · rw [Function.update_of_ne hw, h.look, List.getElem?_append]
        split
        · rfl
        · rename_i hk
          rw [List.getElem?_eq_none (by omega)]
          constructor
          · intro e; cases e
          · intro e
            have := List.mem_of_getElem? e
            simp at this
            exact absurd this hw
    · dsimp only
      rw [List.nodup_append]
      exact ⟨h.nodup, by simp, by intro a ha b hb; simp at hb; subst hb; intro e; subst e; exact hv ha⟩
    · dsimp only
      simp [h.dirs]
    · dsimp only
      simp
    · intro w hw
      simpa using hw

theorem addDir_ok {st : St} (h : Ok st) (k i : ℕ) (sgn : ℤ) : Ok (addDir st k i sgn) := ⟨h.look, h.nodup, by simp [addDir, h.dirs]⟩

theorem addVerts_ok (i : ℕ) (sgn : ℤ) (l : List ℤ) : ∀ {st : St}, Ok st → Ok (addVerts i sgn l st).1 ∧ (addVerts i sgn l st).2.map (fun k => (addVerts i sgn l st).1.verts[k]?) = l.map some ∧ st.verts <+: (addVerts i sgn l st).1.verts ∧ (addVerts i sgn l st).1.faces = st.faces ∧ ∀ w ∈ (addVerts i sgn l st).1.verts, w ∈ st.verts ∨ w ∈ l := by
  induction l with
  | nil => intro st h; exact ⟨h, rfl, List.prefix_refl _, rfl, fun w hw => Or.inl hw⟩
  | cons v l ih =>
    intro st h
    obtain ⟨h1, h2, h3, h4, h5⟩ := addVert_ok h v
    obtain ⟨k1, k2, k3, k4, k5⟩ := ih (addDir_ok h1 (addVert st v).2 i sgn)
    unfold addVerts
    dsimp only
    refine ⟨k1, ?_, h3.trans k3, by rw [k4]; exact h4, ?_⟩
    · rw [List.map_cons, List.map_cons, k2]
      congr 1
      have : (addDir (addVert st v).1 (addVert st v).2 i sgn).verts[(addVert st v).2]? = some v := h2
      obtain ⟨t, ht⟩ := k3
      rw [← ht, List.getElem?_append_left]
      · exact this
      · exact (List.getElem?_eq_some_iff.1 this).1
    · intro w hw
      rcases k5 w hw with hw | hw
      · rcases h5 w hw with hw | hw
        · exact Or.inl hw
        · exact Or.inr (by simp [hw])
      · exact Or.inr (List.mem_cons_of_mem _ hw)

theorem ivert_lt {d e c : ℕ} : ivert d e c < 3 ^ (d - 1) := by
  have h2 : ∀ m : ℕ, ∑ j ∈ range m, 2 * 3 ^ (m - 1 - j) + 1 = 3 ^ m := by
    intro m
    rw [Finset.sum_range_reflect (fun j => 2 * 3 ^ j) m]
    induction m with
    | zero => rfl
    | succ m ih => rw [Finset.sum_range_succ, pow_succ]; omega
  have h1 : ivert d e c ≤ ∑ j ∈ range (d - 1), 2 * 3 ^ (d - 1 - 1 - j) := by
    unfold ivert
    refine Finset.sum_le_sum fun j hj => ?_
    rw [show d - 1 - 1 - j = d - 2 - j by omega]
    refine Nat.mul_le_mul_right _ ?_
    have := Nat.mod_lt (e / 2 ^ (d - 2 - j)) (show 0 < 2 by norm_num)
    have := Nat.mod_lt (c / 2 ^ (d - 2 - j)) (show 0 < 2 by norm_num)
    omega
  have := h2 (d - 1)
  omega

theorem flipElem_map {α β : Type} (f : α → β) : ∀ l : List α, (flipElem l).map f = flipElem (l.map f)
  | [] => rfl
  | [a] => rfl
  | a :: b :: l => by simp [flipElem, flipElem_map f l]

theorem flipElem_mem {α : Type} {x : α} : ∀ {l : List α}, x ∈ flipElem l ↔ x ∈ l
  | [] => Iff.rfl
  | [a] => Iff.rfl
  | a :: b :: l => by simp [flipElem, flipElem_mem (l := l)]; tauto

theorem flipElem_length {α : Type} : ∀ l : List α, (flipElem l).length = l.length
  | [] => rfl
  | [a] => rfl
  | a :: b :: l => by simp [flipElem, flipElem_length l]

theorem elems_map {α β : Type} [Inhabited α] [Inhabited β] {d : ℕ} {fl : Bool} {l : List α} {l' : List β} (f : α → β) (hl : l.length = 3 ^ (d - 1)) (h : l.map f = l') : (elems d fl l).map (List.map f) = elems d fl l' := by
  unfold elems
  rw [List.map_map]
  refine List.map_congr_left fun e _ => ?_
  have key : ((List.range (2 ^ (d - 1))).map fun c => l.getD (ivert d e c) default).map f = (List.range (2 ^ (d - 1))).map fun c => l'.getD (ivert d e c) default := by
    rw [List.map_map]
    refine List.map_congr_left fun c _ => ?_
    have hlt : ivert d e c < l.length := by rw [hl]; exact ivert_lt
    subst h
    simp only [Function.comp]
    rw [List.getD_eq_getElem _ _ hlt, List.getD_eq_getElem _ _ (by simpa using hlt), List.getElem_map]
  simp only [Function.comp]
  split
  · rw [flipElem_map, key]
  · exact key

variable {R : Type} [Field R] [LinearOrder R]

/-- The elements at one pair of neighbours, by the vertices themselves. -/
def facesAt (d n : ℕ) (sample : ℕ → R) (value tol : R) (e : ℕ × ℕ) : List (List ℤ) :=
  if crossing sample value tol e.2 (e.2 + strideS d n e.1) then elems d (flip sample value e.1 e.2) ((List.range (3 ^ (d - 1))).map (vert d n e.1 e.2)) else []

theorem process_ok {d n : ℕ} {sample : ℕ → R} {value tol : R} {st : St} (h : Ok st) (e : ℕ × ℕ) (hf : ∀ f ∈ st.faces, ∀ k ∈ f, k < st.verts.length) :
    Ok (process d n sample value tol st e) ∧ (process d n sample value tol st e).elements = st.elements ++ (facesAt d n sample value tol e).map (List.map some) ∧
    (∀ f ∈ (process d n sample value tol st e).faces, ∀ k ∈ f, k < (process d n sample value tol st e).verts.length) ∧
    (∀ w ∈ (process d n sample value tol st e).verts, w ∈ st.verts ∨ crossing sample value tol e.2 (e.2 + strideS d n e.1) = true ∧ ∃ v < 3 ^ (d - 1), w = vert d n e.1 e.2 v) ∧ st.verts <+: (process d n sample value tol st e).verts ∧ (crossing sample value tol e.2 (e.2 + strideS d n e.1) = true → ∀ v < 3 ^ (d - 1), vert d n e.1 e.2 v ∈ (process d n sample value tol st e).verts) := by
  unfold process facesAt
  split
  · rename_i hcr
    dsimp only
    obtain ⟨k1, k2, k3, k4, k5⟩ := addVerts_ok e.1 (1 - 2 * if sample e.2 > value then 1 else 0) ((List.range (3 ^ (d - 1))).map (vert d n e.1 e.2)) h
    generalize addVerts e.1 (1 - 2 * if sample e.2 > value then 1 else 0) ((List.range (3 ^ (d - 1))).map (vert d n e.1 e.2)) st = r at k1 k2 k3 k4 k5 ⊢
    have hlen : r.2.length = 3 ^ (d - 1) := by
      have := congrArg List.length k2
      simpa using this
    have hel := elems_map (fl := flip sample value e.1 e.2) (fun k => r.1.verts[k]?) hlen k2
    have hel2 := elems_map (d := d) (fl := flip sample value e.1 e.2) (α := ℤ) some (l := (List.range (3 ^ (d - 1))).map (vert d n e.1 e.2)) (by simp) rfl
    have hold : ∀ f ∈ st.faces, f.map (fun k => r.1.verts[k]?) = f.map fun k => st.verts[k]? := by
      intro f hm
      refine List.map_congr_left fun k hk => ?_
      obtain ⟨t, ht⟩ := k3
      rw [← ht, List.getElem?_append_left (hf f hm k hk)]
    refine ⟨⟨k1.look, k1.nodup, k1.dirs⟩, ?_, ?_, ?_, k3, ?_⟩
    · unfold St.elements
      dsimp only
      rw [List.map_append, k4, hel, hel2]
      congr 1
      exact List.map_congr_left hold
    · intro f hm k hk
      rw [k4] at hm
      rcases List.mem_append.1 hm with hm | hm
      · exact lt_of_lt_of_le (hf f hm k hk) k3.length_le
      · have : f.map (fun k => r.1.verts[k]?) ∈ elems d (flip sample value e.1 e.2) (((List.range (3 ^ (d - 1))).map (vert d n e.1 e.2)).map some) := by
          rw [← hel]; exact List.mem_map_of_mem hm
        rw [← hel2] at this
        obtain ⟨g, _, hg⟩ := List.mem_map.1 this
        have hk' : r.1.verts[k]? ∈ g.map some := by rw [hg]; exact List.mem_map_of_mem hk
        obtain ⟨x, _, hx⟩ := List.mem_map.1 hk'
        exact (List.getElem?_eq_some_iff.1 hx.symm).1
    · intro w hw
      rcases k5 w hw with hw | hw
      · exact Or.inl hw
      · obtain ⟨v, hv, rfl⟩ := List.mem_map.1 hw
        exact Or.inr ⟨hcr, v, List.mem_range.1 hv, rfl⟩
    · intro _ v hv
      have : some (vert d n e.1 e.2 v) ∈ r.2.map fun k => r.1.verts[k]? := by
        rw [k2]
        exact List.mem_map_of_mem (List.mem_map_of_mem (List.mem_range.2 hv))
      obtain ⟨k, _, hk⟩ := List.mem_map.1 this
      exact List.mem_of_getElem? hk
  · rename_i hcr
    exact ⟨h, by simp, hf, fun w hw => Or.inl hw, List.prefix_refl _, fun hc => absurd hc hcr⟩

theorem foldl_ok {d n : ℕ} {sample : ℕ → R} {value tol : R} (l : List (ℕ × ℕ)) : ∀ {st : St}, Ok st → (∀ f ∈ st.faces, ∀ k ∈ f, k < st.verts.length) →
    Ok (l.foldl (process d n sample value tol) st) ∧ (l.foldl (process d n sample value tol) st).elements = st.elements ++ (l.flatMap (facesAt d n sample value tol)).map (List.map some) ∧
    (∀ f ∈ (l.foldl (process d n sample value tol) st).faces, ∀ k ∈ f, k < (l.foldl (process d n sample value tol) st).verts.length) ∧
    (∀ w ∈ (l.foldl (process d n sample value tol) st).verts, w ∈ st.verts ∨ ∃ e ∈ l, crossing sample value tol e.2 (e.2 + strideS d n e.1) = true ∧ ∃ v < 3 ^ (d - 1), w = vert d n e.1 e.2 v) ∧ st.verts <+: (l.foldl (process d n sample value tol) st).verts ∧
    ∀ e ∈ l, crossing sample value tol e.2 (e.2 + strideS d n e.1) = true → ∀ v < 3 ^ (d - 1), vert d n e.1 e.2 v ∈ (l.foldl (process d n sample value tol) st).verts := by
  induction l with
  | nil => intro st h hf; exact ⟨h, by simp, hf, fun w hw => Or.inl hw, List.prefix_refl _, by simp⟩
  | cons e l ih =>
    intro st h hf
    obtain ⟨a1, a2, a3, a4, a5, a6⟩ := process_ok (d := d) (n := n) (sample := sample) (value := value) (tol := tol) h e hf
    obtain ⟨b1, b2, b3, b4, b5, b6⟩ := ih a1 a3
    refine ⟨b1, ?_, b3, ?_, a5.trans b5, ?_⟩
    · rw [List.foldl_cons, b2, a2, List.flatMap_cons, List.map_append, List.append_assoc]
    · intro w hw
      rcases b4 w hw with hw | ⟨e', he', hc, v, hv, hw⟩
      · rcases a4 w hw with hw | ⟨hc, v, hv, hw⟩
        · exact Or.inl hw
        · exact Or.inr ⟨e, by simp, hc, v, hv, hw⟩
      · exact Or.inr ⟨e', by simp [he'], hc, v, hv, hw⟩
    · intro e' he' hc v hv
      rcases List.mem_cons.1 he' with rfl | he'
      · exact b5.subset (a6 hc v hv)
      · exact b6 e' he' hc v hv

theorem contour_ok (d n : ℕ) (sample : ℕ → R) (value tol : R) : Ok (contour d n sample value tol) ∧ (contour d n sample value tol).elements = ((edges d n).flatMap (facesAt d n sample value tol)).map (List.map some) ∧
    (∀ f ∈ (contour d n sample value tol).faces, ∀ k ∈ f, k < (contour d n sample value tol).verts.length) ∧
    (∀ w ∈ (contour d n sample value tol).verts, ∃ e ∈ edges d n, crossing sample value tol e.2 (e.2 + strideS d n e.1) = true ∧ ∃ v < 3 ^ (d - 1), w = vert d n e.1 e.2 v) ∧
    ∀ e ∈ edges d n, crossing sample value tol e.2 (e.2 + strideS d n e.1) = true → ∀ v < 3 ^ (d - 1), vert d n e.1 e.2 v ∈ (contour d n sample value tol).verts := by
  obtain ⟨a, b, c, e, -, e6⟩ := foldl_ok (d := d) (n := n) (sample := sample) (value := value) (tol := tol) (edges d n) init_ok (by simp [init])
  refine ⟨a, b, c, fun w hw => ?_, e6⟩
  rcases e w hw with h | h
  · simp [init] at h
  · exact h

end Hexed.Contour
