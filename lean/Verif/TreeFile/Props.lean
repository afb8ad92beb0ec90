import Verif.TreeFile.Lemmas

set_option autoImplicit false
set_option linter.unusedVariables false

/-!
# C08: the tree section of the mesh file round-trips
-/

namespace Hexed.TreeFile
open Hexed Hexed.Tree
variable {nd : Nat}

/-- C08: for every tree a user can build and every association of tree elements with mesh elements, writing succeeds,
fills every row of the dataset, and reading the file into a new tree gives the same tree (shape, levels, coordinates,
statuses) and pairs exactly the same tree elements with the same mesh elements. -/
theorem round_trip {t : Tree nd} (h : Reachable t) (elem : Path → Option Nat) :
    ∃ rows : List (List Int), writeFile elem t = some (rows.map some) ∧ rows.length = t.count ∧
      ∃ pairs, (∀ fuel, t.count ≤ fuel → readFile nd (rows.map some) fuel = some (t, pairs)) ∧
        ∀ p e, (p, e) ∈ pairs ↔ (∃ s, Tree.get p t = some s) ∧ elem p = some e := by
  obtain ⟨hw, h0, hc⟩ := h.root
  obtain ⟨F, h1, h2, h3, h4⟩ := writeTree_spec (2 ^ nd) elem [] 0 (List.replicate t.count none) t (small_of_wf hw) (by simp)
  have hF : F = (layout (2 ^ nd) elem [] 0 t).map some := by
    apply List.ext_getElem?
    intro j
    by_cases hj : j < t.count
    · have := h3 j (by rw [layout_length]; exact hj)
      rw [Nat.zero_add] at this
      rw [this, List.getElem?_map]
    · rw [h4 j (by rw [layout_length]; omega)]
      rw [List.getElem?_eq_none (by simpa using by omega), List.getElem?_eq_none (by simpa [layout_length] using by omega)]
  subst hF
  refine ⟨layout (2 ^ nd) elem [] 0 t, by simp [writeFile, h1], layout_length _ _ _ _ _, assoc elem [] t, ?_, ?_⟩
  · intro fuel hf
    have := readTree_spec elem ((layout (2 ^ nd) elem [] 0 t).map some) t hw [] 0 unprocessed fuel hf
      (fun j hj => by rw [Nat.zero_add, List.getElem?_map])
    rw [h0, hc] at this
    exact this
  · intro p e
    simpa using mem_assoc elem [] t p e

/-- C08: child references never dangle and never alias: over the whole file, the child entries that are not the filler -1
are the rows 1, …, count-1, each exactly once (row 0 is the root). -/
theorem references {t : Tree nd} (h : Reachable t) (elem : Path → Option Nat) {rows : List (List Int)}
    (hw : writeFile elem t = some (rows.map some)) :
    ((rows.flatMap fun row => row.drop 2).filter (0 ≤ ·)).Perm ((List.range' 1 (t.count - 1)).map Int.ofNat) := by
  obtain ⟨hwf, h0, hc⟩ := h.root
  obtain ⟨F, h1, h2, h3, h4⟩ := writeTree_spec (2 ^ nd) elem [] 0 (List.replicate t.count none) t (small_of_wf hwf) (by simp)
  have hF : F = rows.map some := by simpa [writeFile, h1] using hw
  subst hF
  have hr : rows = layout (2 ^ nd) elem [] 0 t := by
    apply List.ext_getElem?
    intro j
    by_cases hj : j < t.count
    · have := h3 j (by rw [layout_length]; exact hj)
      rw [Nat.zero_add, List.getElem?_map] at this
      cases ha : rows[j]? <;> cases hb : (layout (2 ^ nd) elem [] 0 t)[j]? <;> simp_all
    · rw [List.getElem?_eq_none (by simpa using by simp at h2; omega), List.getElem?_eq_none (by rw [layout_length]; omega)]
  subst hr
  have := refs_layout (2 ^ nd) elem [] 0 t
  rwa [Nat.zero_add] at this

/-- The hypotheses are met by a root refined twice in one dimension, with two elements attached. -/
example : ∃ t : Tree 1, Reachable t ∧ t.count = 5 ∧
    writeFile (fun p => if p = [0, 1] then some 0 else if p = [1] then some 1 else none) t =
      some [some [-1, -1, 1, 4], some [-1, -1, 2, 3], some [-1, -1, -1, -1], some [0, -1, -1, -1], some [1, -1, -1, -1]] := by
  refine ⟨_, .ok (.refine [0]) (.ok (.refine []) .new rfl) rfl, by decide +kernel, by decide +kernel⟩

end Hexed.TreeFile
