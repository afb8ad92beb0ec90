import Verif.CaseMesh.Props
import Mathlib.Tactic.NormNum
set_option autoImplicit false
set_option linter.unusedVariables false

/-!
# Cases that meet the hypotheses of C97
-/

namespace Hexed.CaseMesh
noncomputable section

/-- The table. -/
def exTable : Table := ⟨4, 2, fun i j => if j = 0 then (if i = 1 then 1 else 0) else (if i = 2 then 1 else 0)⟩

/-- A segment. -/
def exSeg : Simplex := fun v d => (v : ℝ) + d

/-- A triangle in a table and a body in a CAD file; a third file after a gap. -/
def exFiles : Files where
  nd := 2
  geom i := if i = 0 then some "wings.v2/Wing.CSV".toList else if i = 1 then some "body.Step".toList else if i = 3 then some "tail.csv".toList else none
  present _ := true
  csv n := if n = "wings.v2/Wing.CSV".toList then some exTable else none
  cad2 n := if n = "body.Step".toList then some [exSeg] else none
  cad3 _ := none
  stl _ := none
  occt := true

def exName (i : Nat) : List Char := if i = 0 then "wings.v2/Wing.CSV".toList else "body.Step".toList

theorem ex_csv : exFiles.csv (exName 0) = some exTable := by
  show (if exName 0 = "wings.v2/Wing.CSV".toList then some exTable else none) = _
  exact if_pos (by decide)
theorem ex_csv1 : exFiles.csv (exName 1) = none := by
  show (if exName 1 = "wings.v2/Wing.CSV".toList then some exTable else none) = _
  exact if_neg (by decide)
theorem ex_cad : exFiles.cad2 (exName 1) = some [exSeg] := by
  show (if exName 1 = "body.Step".toList then some [exSeg] else none) = _
  exact if_pos (by decide)
theorem ex_cad0 : exFiles.cad2 (exName 0) = none := by
  show (if exName 0 = "body.Step".toList then some [exSeg] else none) = _
  exact if_neg (by decide)

theorem ex_names : ∀ i < 2, exFiles.geom i = some (exName i)
  | 0, _ => rfl
  | 1, _ => rfl
  | i + 2, h => absurd h (by omega)

theorem ex_mean : ∀ i < 2, (∃ g, Means exFiles (exName i) g) ∧ ∀ t, exFiles.csv (exName i) = some t → t.cols ≤ 2
  | 0, _ => ⟨⟨⟨2, segments exTable⟩, rfl, rfl, .inl ⟨⟨"wings.v2/Wing".toList, "CSV".toList, by decide, by decide, by decide⟩, rfl, exTable, ex_csv, by decide, segments_curve _⟩⟩, fun t ht => by
      rw [ex_csv] at ht; rw [← Option.some.inj ht]; exact le_rfl⟩
  | 1, _ => ⟨⟨⟨2, [exSeg]⟩, rfl, rfl, .inr (.inl ⟨⟨"body".toList, "Step".toList, by decide, by decide, by decide⟩, rfl, ex_cad⟩)⟩, fun t ht => by
      rw [ex_csv1] at ht; cases ht⟩
  | i + 2, h => absurd h (by omega)

/-- Two files are read, and the second segment of the first goes from (1, 0) to (0, 1). -/
example : ∃ l, exFiles.makeGeom 3 = some (.ok (some l)) ∧ l.length = 2 ∧ ∃ g s, l[0]? = some g ∧ g.simplices.length = 3 ∧ g.simplices[1]? = some s ∧ s 0 0 = 1 ∧ s 0 1 = 0 ∧ s 1 0 = 0 ∧ s 1 1 = 1 := by
  have hlen : ∀ i < 2, (exName i).length < 4294967295 := by
    intro i hi
    match i, hi with
    | 0, _ => decide
    | 1, _ => decide
    | i + 2, h => exact absurd h (by omega)
  obtain ⟨r, hr⟩ := geometry_read exFiles (.inl rfl) rfl 2 exName ex_names rfl hlen ex_mean 3 (by norm_num)
  obtain ⟨o, h1, h2⟩ := geometry exFiles (.inl rfl) 2 exName ex_names rfl hlen 3 (by norm_num)
  rw [hr] at h1
  rcases h2 r (Option.some.inj h1).symm with ⟨h, _⟩ | ⟨l, h3, h4, _, h5⟩
  · exact absurd h (by norm_num)
  refine ⟨l, by rw [hr, h3], h4, ?_⟩
  have h0 : l[0]? = some l[0] := List.getElem?_eq_getElem (by omega)
  obtain ⟨_, _, h⟩ := h5 0 _ h0
  rcases h with ⟨_, _, t, ht, _, hc⟩ | ⟨_, _, h⟩ | ⟨_, h, _⟩ | ⟨_, h, _⟩
  · rw [ex_csv] at ht
    have ht := Option.some.inj ht
    subst ht
    have h1 : l[0].simplices[1]? = some (l[0].simplices[1]'(by rw [hc.1]; decide)) := List.getElem?_eq_getElem _
    refine ⟨_, _, h0, hc.1, h1, ?_⟩
    have a := hc.2 1 _ h1 0 (by norm_num)
    have b := hc.2 1 _ h1 1 (by norm_num)
    rw [a.1, a.2, b.1, b.2]
    norm_num [exTable]
  · rw [ex_cad0] at h; cases h
  · exact absurd h (by decide)
  · exact absurd h (by decide)

/-- The third file does not matter. -/
example : exFiles.makeGeom 5 = { exFiles with geom := fun i => if i = 3 then none else exFiles.geom i : Files }.makeGeom 5 :=
  geometry_gap exFiles _ rfl 2 (fun i hi => by show _ = if i = 3 then none else _; rw [if_neg (by omega)]) rfl 5 (by norm_num)

/-- Three sweeps of at most five: the last one changes nothing. -/
def exParams : Params where
  initRefLevel := 2
  nSmooth := 2
  maxIters := 5
  layerSplits := 2
  splitPoints := [1 / 2, 1 / 4]
  changed tr := tr.countP (fun a => a matches .updateIf) < 2

example : (exParams.mesh true []).countP (fun a => a matches .updateIf) = 3 ∧ (exParams.mesh true []).countP (fun a => a matches .relax) = 8 ∧ (exParams.mesh true []).countP (fun a => a matches .extrude _) = 4 ∧
    Current (exParams.mesh true []) ∧ Lawful (exParams.mesh true []) := by
  refine ⟨?_, ?_, ?_, mesh_current _ _, mesh_lawful _ _⟩ <;> rfl

end
end Hexed.CaseMesh
