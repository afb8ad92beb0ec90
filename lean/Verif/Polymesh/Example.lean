import Verif.Polymesh.Props

set_option autoImplicit false
set_option linter.unusedVariables false

/-!
# Examples for C39 and the two-dimensional case
-/

namespace Hexed.Polymesh
open Hexed.MeshConn
open Hexed.Connection (Dir vertexInds strAt Legal sideInds faceVertexInds)
noncomputable section

/-- A unit cube beside four cubes of half the size; all other faces are on the boundary. -/
def exOps3 : List Op :=
  [.addElement 0 false, .addElement 1 false, .addElement 1 false, .addElement 1 false, .addElement 1 false, .connectHanging 0 0 [1, 2, 3, 4] ⟨0, 0, true, false⟩ false [false, false, false, false] (false, false),
   .connectCartesian 1 1 3 1 false false, .connectCartesian 1 2 4 1 false false, .connectCartesian 1 1 2 2 false false, .connectCartesian 1 3 4 2 false false, .connectRest 0 (fun _ _ => 7)]

/-- The mesh of `exOps3`. -/
def exMesh3 : Mesh := (run (Mesh.new 3 1) exOps3).getD (Mesh.new 3 1)

/-- Twice the coordinates of vertex `i` of element `e`. -/
def exCoord (e i : Nat) (a : Nat) : Nat :=
  let bit := i / 2 ^ (2 - a) % 2
  if e = 0 then 2 * bit else (if a = 0 then 2 else if a = 1 then (e - 1) / 2 else (e - 1) % 2) + bit

/-- The vertices are those of a grid with spacing 1/2 which are used. -/
def exVert (e i : Nat) : Nat := exCoord e i 0 * 9 + exCoord e i 1 * 3 + exCoord e i 2

def exD : Data := ⟨exMesh3, fun e => if e = 0 then 0 else 1, (List.range 36).filter fun n => (List.range 5).any fun e => (List.range 8).any fun i => exVert e i = n, exVert⟩

def exPos (n : Nat) : Vec := ![((n / 9 : Nat) : ℝ) / 2, ((n / 3 % 3 : Nat) : ℝ) / 2, ((n % 3 : Nat) : ℝ) / 2]

example : (exMesh3.elements, exD.verts.length, (views exMesh3).length, exMesh3.car.bounds.length) = ([0, 1, 2, 3, 4], 8 + 9 + 5, 8, 17) := by decide +kernel

theorem exReach : Reach 3 1 exMesh3 := by
  have : (run (Mesh.new 3 1) exOps3).isSome := by decide +kernel
  obtain ⟨m, hm⟩ := Option.isSome_iff_exists.1 this
  have : exMesh3 = m := by rw [exMesh3, hm]; rfl
  rw [this]
  refine run_reach exOps3 _ _ .new ?_ hm
  intro op hop
  simp only [exOps3, List.mem_cons, List.not_mem_nil, or_false] at hop
  rcases hop with rfl | rfl | rfl | rfl | rfl | rfl | rfl | rfl | rfl | rfl | rfl <;> simp [OpOk]

theorem exDegree : ∀ e ∈ exMesh3.elements, ∀ f < 6, exMesh3.degree e f = 1 := by decide +kernel

theorem exPos_coord : ∀ e < 5, ∀ i < 8, ∀ a : Fin 3, exPos (exVert e i) a = ((exCoord e i a.val : Nat) : ℝ) / 2 := by
  have h : ∀ e < 5, ∀ i < 8, exVert e i / 9 = exCoord e i 0 ∧ exVert e i / 3 % 3 = exCoord e i 1 ∧ exVert e i % 3 = exCoord e i 2 := by decide +kernel
  intro e he i hi a
  obtain ⟨h0, h1, h2⟩ := h e he i hi
  fin_cases a
  · simp [exPos, h0]
  · simp [exPos, h1]
  · simp [exPos, h2]

/-- The coarse element is the unit cube. -/
theorem ex_interior (ξ : Fin 3 → ℝ) : interior (exD.x exPos 0) ξ = ξ := by
  funext a
  have h : ∀ v < 8, exD.x exPos 0 v a = ((v / 2 ^ (2 - a.val) % 2 : Nat) : ℝ) := by
    intro v hv
    rw [Data.x]
    change exPos (exVert 0 v) a = _
    rw [exPos_coord 0 (by decide) v hv a]
    simp [exCoord]
  rw [interior, Finset.sum_congr rfl fun v hv => by rw [h v (Finset.mem_range.1 hv)]]
  fin_cases a <;> simp [Finset.sum_range_succ, Fin.prod_univ_three] <;> ring

/-- Twice the coordinates of `partCorner`. -/
def partN (d : Fin 3) (str : Bool × Bool) (p u : Nat) (a : Fin 3) : Nat :=
  let bit : Nat := u / 2 ^ (2 - a.val) % 2
  let split := ((Connection.faceAxes 3 d).zipIdx.filter fun q => !strAt str q.2).map Prod.fst
  if a ∈ split then p / 2 ^ (split.length - 1 - split.idxOf a) % 2 + bit else 2 * bit

theorem partN_eq (d : Fin 3) (str : Bool × Bool) (p u : Nat) (a : Fin 3) : partCorner d str p u a = ((partN d str p u a : Nat) : ℝ) / 2 := by
  simp only [partCorner, partN]
  split_ifs <;> push_cast <;> ring

theorem exFits : Fits exD exPos where
  conf := by
    have h : ∀ d : Bool, ∀ c ∈ (exMesh3.byType d).cons, Legal 3 c.dir.toDir ∧ c.el false ≠ c.el true ∧
        ((vertexInds 3 c.dir.toDir).elim true fun l => ((l.1.zip l.2).all fun p => exVert (c.el false) p.1 = exVert (c.el true) p.2) && l.1.length == l.2.length) = true := by decide +kernel
    intro d c hc
    obtain ⟨h1, h2, h3⟩ := h d c hc
    refine ⟨h1, h2, fun l hl => ?_⟩
    rw [hl] at h3
    simp only [Option.elim_some, Bool.and_eq_true, List.all_eq_true, decide_eq_true_eq, beq_iff_eq] at h3
    refine List.forall₂_iff_zip.2 ⟨h3.2, fun {a b} hab => ?_⟩
    have := h3.1 (a, b) hab
    simp only at this
    simp only [Data.x]
    change exPos (exVert _ _) = exPos (exVert _ _)
    rw [this]
  ref := by
    have h : ∀ d i, ∀ r ∈ (exMesh3.byType d).refs i, r.coarse = 0 ∧ r.fine = [1, 2, 3, 4] ∧ r.dir.toDir = ⟨0, 0, true, false⟩ ∧ r.rev = false := by decide +kernel
    have hl : vertexInds 3 ⟨0, 0, true, false⟩ = some ([4, 5, 6, 7], [0, 1, 2, 3]) := by decide +kernel
    have hn : ∀ q ∈ List.zip [1, 2, 3, 4] [0, 1, 2, 3], ∀ w ∈ List.zip [4, 5, 6, 7] [0, 1, 2, 3], ∀ a : Fin 3, exCoord q.1 w.2 a.val = partN 0 (false, false) q.2 w.1 a := by decide +kernel
    intro d i r hr
    obtain ⟨h1, h2, h3, h4⟩ := h d i r hr
    rw [h1, h2, h3, h4]
    refine ⟨by decide, fun l hl' => ?_⟩
    rw [hl, Option.some.injEq] at hl'
    subst hl'
    refine ⟨(false, false), [0, 1, 2, 3], by decide +kernel, List.forall₂_iff_zip.2 ⟨rfl, fun {e p} hep => ?_⟩⟩
    have he : e ≠ 0 ∧ e < 5 := (by decide : ∀ q ∈ List.zip [1, 2, 3, 4] [0, 1, 2, 3], q.1 ≠ 0 ∧ q.1 < 5) _ hep
    refine ⟨he.1, by simp [exD, he.1], List.forall₂_iff_zip.2 ⟨rfl, fun {u v} huv => ?_⟩⟩
    have hv : v < 8 := (by decide : ∀ q ∈ List.zip [4, 5, 6, 7] [0, 1, 2, 3], q.2 < 8) _ huv
    rw [ex_interior]
    funext a
    change exPos (exVert e v) a = _
    rw [exPos_coord e he.2 v hv a, hn _ hep _ huv a]
    exact (partN_eq 0 (false, false) p u a).symm
  bound := by
    change ∀ d, ∀ c ∈ (exMesh3.byType d).bounds, c.i_dim < 3 ∧ c.bc < exMesh3.n_bc
    decide +kernel
  verts := by
    constructor
    · decide +kernel
    · change ∀ e ∈ exMesh3.elements, ∀ i < 8, exVert e i ∈ exD.verts
      decide +kernel

/-- The example is exported to files with closed cells. -/
example : ∃ p, exportPolymesh exD = some p ∧ p.WellFormed ∧ ∀ cell i, ∑ k ∈ Finset.range p.faces.length, p.flux exPos cell k i = 0 := by
  obtain ⟨p, h, _, _, hw⟩ := polymesh_wellFormed (D := exD) exReach exFits
  exact ⟨p, h, hw, fun cell i => polymesh_closed (D := exD) exReach exFits exDegree h cell i⟩

/-- The files of the example: 8 interior faces and one patch of 17. The coarse cell owns the faces of the hanging-node connection. -/
example : (exportPolymesh exD).map (fun p => (p.faces.length, p.owner.take 8, p.neighbour, p.patches)) = some (25, [1, 2, 1, 3, 0, 0, 0, 0], [3, 4, 2, 4, 1, 2, 3, 4], [(17, 8)]) := by decide +kernel

/-- Export of a two-dimensional mesh is not defined: faces have two vertices but four are ordered and written. One element with all faces on the boundary. -/
theorem polymesh_2d_refuted : ∃ D : Data, Reach 2 1 D.mesh ∧ D.mesh.elements = [0] ∧ (∀ f < 4, D.mesh.degree 0 f = 1) ∧ D.verts = [0, 1, 2, 3] ∧ (∀ i < 4, D.vert 0 i = i) ∧ exportPolymesh D = none := by
  have h : (run (Mesh.new 2 1) [.addElement 0 false, .connectRest 0 (fun _ _ => 7)]).isSome := by decide +kernel
  obtain ⟨m, hm⟩ := Option.isSome_iff_exists.1 h
  have hm' : m = (run (Mesh.new 2 1) [.addElement 0 false, .connectRest 0 (fun _ _ => 7)]).getD (Mesh.new 2 1) := by rw [hm]; rfl
  refine ⟨⟨m, fun _ => 0, [0, 1, 2, 3], fun _ i => i⟩, run_reach _ _ _ .new ?_ hm, ?_⟩
  · intro op hop
    simp only [List.mem_cons, List.not_mem_nil, or_false] at hop
    rcases hop with rfl | rfl <;> simp [OpOk]
  · subst hm'
    refine ⟨by decide +kernel, by decide +kernel, rfl, fun _ _ => rfl, ?_⟩
    have : ∀ o : Option Files, o.isNone = true → o = none := by rintro (_ | _) h <;> simp at h ⊢
    exact this _ (by decide +kernel)

end
end Hexed.Polymesh
