import Verif.Tecplot.Props
set_option autoImplicit false
set_option linter.unusedVariables false

/-!
Concrete files that meet the hypotheses of the theorems.
-/

namespace Hexed.Tecplot

/-- Two blocks of 2 by 2 points in the plane with one variable. -/
def twoBlocks : List (Nat × List Nat × List Nat) :=
  [(2, [0, 0, 1, 1, 0, 1, 0, 1], [5, 6, 7, 8]), (2, [1, 1, 2, 2, 0, 1, 0, 1], [7, 8, 9, 10])]

example : ∃ f, writeBlocks twoBlocks (create 2 2 ["mach".toList] 3) = some f ∧ f.zones.length = 2 ∧
    ∀ i b z, twoBlocks[i]? = some b → f.zones[i]? = some z → ShowsBlock 2 1 2 3 i b z :=
  blocks 2 2 ["mach".toList] 3 twoBlocks (by omega) (by omega) (by decide)

/-- The values of the second block in the file: third variable, fourth node. -/
example : (writeBlocks twoBlocks (create 2 2 ["mach".toList] 3)).map (fun f => f.zones.map fun z => (z.shape, z.data 1, z.data 3, z.strand))
    = some [(.ordered 2 2 1, [0, 0, 1, 1], [5, 6, 7, 8], 1), (.ordered 2 2 1, [1, 1, 2, 2], [7, 8, 9, 10], 2)] := by
  decide +kernel

example : ∃ f, writeBlocks twoBlocks (create 2 2 ["mach".toList] 3) = some f ∧
    readNames f.names = ["position0".toList, "position1".toList, "mach".toList] := by
  obtain ⟨f, he, h⟩ := columns_partial 2 2 ["mach".toList] 3 twoBlocks (by decide +kernel) (by omega) (by omega) (by omega) (by decide)
  exact ⟨f, he, by rw [h]; decide +kernel⟩

/-- A block whose array is too short is not written. -/
example : (writeBlock (create 2 2 ["mach".toList] 3) 2 [0, 0, 1, 1, 0, 1, 0] [5, 6, 7, 8]).isNone := by decide +kernel

/-- Two triangles, one with corners on the axes. -/
example : (visualizeSimplices 0 [fun c d => if c = d then 1 else 0, fun c d => 3*c.val + d.val + 10]).map
      (fun f => f.zones.map fun z => (z.data 1, z.data 2, z.data 3, z.map))
    = some [([1, 0, 0, 10, 13, 16], [0, 1, 0, 11, 14, 17], [0, 0, 1, 12, 15, 18], [0, 1, 2, 3, 4, 5])] := by
  decide +kernel

/-- Two segments of two nodes in the plane. -/
example : (lineSegments 0 (create 2 1 [] 0) 2 2 [([0, 1, 5, 6], []), ([2, 3, 7, 8], [])]).map
      (fun f => f.zones.map fun z => (z.data 1, z.data 2, z.map))
    = some [([0, 1, 2, 3], [5, 6, 7, 8], [0, 1, 2, 3])] := by
  decide +kernel

example : ∃ f' z, lineSegments 0 (create 2 1 [] 0) 2 2 [([0, 1, 5, 6], []), ([2, 3, 7, 8], [])] = some f' ∧
    f'.zones = [z] ∧ z.Complete 2 := by
  obtain ⟨f', z, he, hz, _, _, _, hc, _⟩ := lines_partial 0 (create 2 1 [] 0) 2 [([0, 1, 5, 6], []), ([2, 3, 7, 8], [])] (by omega) (by decide)
  exact ⟨f', z, he, by rw [hz]; rfl, hc.mpr (Or.inr rfl)⟩

example : let f := create 2 2 ["momentum0".toList, "momentum1".toList, "density".toList, "energy".toList] 0
    (roleNumber f "Density".toList).bind (fun n => (readNames f.names)[n - 1]?) = some "density".toList :=
  (roles_partial 2 2 ["momentum0".toList, "momentum1".toList, "density".toList, "energy".toList] 0 (by omega) (by omega) rfl (by decide +kernel)).2.2.1

end Hexed.Tecplot
