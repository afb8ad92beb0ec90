import Verif.MeshFile.Degree
import Verif.Mesh.Props
import Mathlib.Data.Nat.Pairing
import Mathlib.Algebra.Field.Rat
import Mathlib.Algebra.CharZero.Defs
import Mathlib.Data.Rat.Cast.CharZero

set_option autoImplicit false
set_option linter.unusedVariables false

/-! # Properties of writing and reading a mesh (C66) -/

namespace Hexed.MeshFile
open Hexed.MeshConn
open Hexed.Connection (Dir vertexInds refinedVerts)
open Hexed.Polymesh (numbering numbering_eq)

variable {K A : Type}

/-- C66, elements and connections: a mesh made by any history of calls is written without access to an empty record, and reading the file gives, without exception, the same elements in
the same order with the same levels, positions and face warping, and the same connections in the same order. Every face is connected as often as before. Hanging-node connections may have
their fine elements in another order unless they are straight. Boundary connections must not be ones that `cleanup` deletes. -/
theorem roundtrip_faces [Zero K] {nd n_bc0 n_bc : Nat} (hnd : 1 ≤ nd ∧ nd ≤ 3) {D : Data K A} (h : Reach nd n_bc0 D.mesh) (hg : Good D n_bc) {covered : BCon → Bool}
    (hcov : ∀ c ∈ D.mesh.car.bounds ++ D.mesh.dfm.bounds, ∀ c', SameBound D.index c c' → covered c' = false) :
    ∃ F s, write D = some F ∧ read nd n_bc covered F = .ok s ∧ Restored D s ∧ s.mesh.n_bc = n_bc ∧ ∀ e ∈ D.mesh.elements, ∀ f, s.mesh.degree (D.index e) f = D.mesh.degree e f := by
  obtain ⟨hi, hn⟩ := reach_inv hnd h
  have ht := reach_typed hnd h
  obtain ⟨s, h1, h2⟩ := read_ok (K := K) hi ht hg hcov
  rw [hn] at h1
  exact ⟨file D, s, write_eq hi hg, h1, h2.restored, h2.n_bc, fun e he f => restored_degree hi h2.restored he f⟩

/-- C66, vertices: if vertices are shared because of connections, the corners of the elements that were read have the positions of the corners of the original elements, and
share vertices exactly if those did. `Glued` excludes hanging-node connections that are flipped or transposed, because the order in which their fine elements are written is not the one
which `read_file` expects; `flipped_refuted` shows that they are not restored. -/
theorem roundtrip_partial [Field K] [CharZero K] {nd n_bc0 n_bc : Nat} (hnd : 1 ≤ nd ∧ nd ≤ 3) {D : Data K A} (h : Reach nd n_bc0 D.mesh) (hg : Good D n_bc) (hG : Glued D) {covered : BCon → Bool}
    (hcov : ∀ c ∈ D.mesh.car.bounds ++ D.mesh.dfm.bounds, ∀ c', SameBound D.index c c' → covered c' = false) :
    ∃ F s, write D = some F ∧ read nd n_bc covered F = .ok s ∧ Restored D s ∧ SameVerts D s := by
  obtain ⟨hi, hn⟩ := reach_inv hnd h
  have ht := reach_typed hnd h
  obtain ⟨s, h1, h2⟩ := read_ok (K := K) hi ht hg hcov
  rw [hn] at h1
  exact ⟨file D, s, write_eq hi hg, h1, h2.restored, sameVerts hi ht hg hG h2⟩

/-- C66, extruded layers: a connection of the mesh that was read counts as one to an extruded layer exactly if one of the original elements had a cell of the tree and the other had
not. -/
theorem roundtrip_extruded [Zero K] {nd n_bc0 n_bc : Nat} (hnd : 1 ≤ nd ∧ nd ≤ 3) {D : Data K A} (h : Reach nd n_bc0 D.mesh) (hg : Good D n_bc) {covered : BCon → Bool}
    (hcov : ∀ c ∈ D.mesh.car.bounds ++ D.mesh.dfm.bounds, ∀ c', SameBound D.index c c' → covered c' = false) :
    ∃ F s, write D = some F ∧ read nd n_bc covered F = .ok s ∧ ∀ c ∈ s.mesh.dfm.cons,
      c.id ∈ s.extruded ↔ ∃ e ∈ D.mesh.elements, ∃ f ∈ D.mesh.elements, c.el false = D.index e ∧ c.el true = D.index f ∧ D.tree e ≠ D.tree f := by
  obtain ⟨hi, hn⟩ := reach_inv hnd h
  have ht := reach_typed hnd h
  obtain ⟨s, h1, h2⟩ := read_ok (K := K) hi ht hg hcov
  rw [hn] at h1
  exact ⟨file D, s, write_eq hi hg, h1, h2.extruded⟩

/-- Vertices which were merged by connections, one pair of corners after another, are shared because of connections. -/
theorem glued_api [Field K] [CharZero K] {D : Data K A} (hv : ∀ e i, D.vert e i = Nat.pair ((D.joins.foldl Glue.eat (⟨fun c => c, fun _ _ => 0, fun _ => 1⟩ : Glue K)).vert (e, i)).1
      ((D.joins.foldl Glue.eat (⟨fun c => c, fun _ _ => 0, fun _ => 1⟩ : Glue K)).vert (e, i)).2)
    (hf : ∀ v (i : Fin 3), D.mesh.nd ≤ i.val → D.pos v i = 0) : Glued D := by
  have key := eat_all (K := K) (p := fun _ _ => 0) (S := fun _ => True) D.joins [] _ (glue_start _ _) (fun x _ => ⟨trivial, trivial, rfl⟩)
  rw [List.nil_append] at key
  refine ⟨?_, hf⟩
  intro e he f hf i hi j hj
  rw [← key.vert, hv, hv, Nat.pair_eq_pair]
  exact ⟨fun h => Prod.ext h.1 h.2, fun h => by rw [h]; exact ⟨rfl, rfl⟩⟩

/-! ## Cleaning up after writing -/

/-- Writing leaves the number of each element in its `record`, and `cleanup` takes that for a mark for deletion: of the mesh only the first element remains. -/
theorem write_then_cleanup {nd n_bc : Nat} (hnd : 1 ≤ nd ∧ nd ≤ 3) {D : Data K A} (h : Reach nd n_bc D.mesh) (covered : BCon → Bool) :
    ∃ m, writeCleanup D covered = .ok m ∧ m.elements = D.mesh.elements.take 1 := by
  have hi := (reach_inv hnd h).1
  obtain ⟨m, R, h1, -, -, h2, -⟩ := purge_ok hi (fun e => numbering D.mesh.elements e != some 0) covered
  refine ⟨m, h1, ?_⟩
  rw [h2]
  have hn := hi.nodup
  have hnum : ∀ e ∈ D.mesh.elements, numbering D.mesh.elements e = some (D.mesh.elements.idxOf e) := fun e he => numbering_eq hn he
  generalize D.mesh.elements = l at hn hnum
  cases l with
  | nil => rfl
  | cons a l =>
    rw [List.filter_cons, hnum a (by simp)]
    have h0 : l.filter (fun e => !(numbering (a :: l) e != some 0)) = [] := by
      rw [List.filter_eq_nil_iff]
      intro e he
      rw [hnum e (by simp [he])]
      have hne : e ≠ a := fun h => (List.nodup_cons.1 hn).1 (h ▸ he)
      simp [List.idxOf_cons, beq_eq_false_iff_ne.2 hne.symm]
    simp [h0]

/-! ## Examples -/

/-- The conditions of `Good`, computed. -/
def goodCheck (D : Data K A) (n_bc : Nat) : Bool :=
  decide (∀ c ∈ D.mesh.car.cons ++ D.mesh.dfm.cons, c.dir.toDir.i0.val < D.mesh.nd ∧ c.dir.toDir.i1.val < D.mesh.nd) &&
  decide (∀ r ∈ allRefs D.mesh.car, ∃ e ∈ r.coarse :: r.fine, e ∈ D.mesh.car.elems.elements) &&
  decide (∀ r ∈ allRefs D.mesh.car, D.str r.id = (false, false)) &&
  decide (∀ r ∈ allRefs D.mesh.dfm, r.fine.length = Connection.nFine D.mesh.nd (D.str r.id) ∧ ((D.str r.id).1 = true → 2 ≤ D.mesh.nd) ∧ ((D.str r.id).2 = true → 3 ≤ D.mesh.nd)) &&
  decide (∀ c ∈ D.mesh.car.bounds ++ D.mesh.dfm.bounds, c.bc < n_bc) &&
  decide (D.verts.Nodup ∧ ∀ e ∈ D.mesh.elements, ∀ i < 2 ^ D.mesh.nd, D.vert e i ∈ D.verts)

theorem good_of_check {D : Data K A} {n_bc : Nat} (h : goodCheck D n_bc = true) : Good D n_bc := by
  simp only [goodCheck, Bool.and_eq_true, decide_eq_true_eq] at h
  obtain ⟨⟨⟨⟨⟨h1, h2⟩, h3⟩, h4⟩, h5⟩, h6⟩ := h
  exact ⟨h1, h2, h3, h4, h5, h6⟩

/-- A mesh with vertices merged by its connections, at some positions. -/
def glueData (m : Mesh) : Data ℚ Nat :=
  let D0 : Data ℚ Nat := ⟨m, fun e => e, fun e => [e], fun _ _ => 0, fun e => e, fun e => decide (e = 0), [], fun _ _ => 0, fun _ => (false, false), []⟩
  let g : Glue ℚ := D0.joins.foldl Glue.eat ⟨fun c => c, fun _ _ => 0, fun _ => 1⟩
  let vert := fun e i => Nat.pair (g.vert (e, i)).1 (g.vert (e, i)).2
  { D0 with vert := vert, verts := (m.elements.flatMap fun e => (List.range (2 ^ m.nd)).map (vert e)).dedup, pos := fun v i => if i.val < m.nd then (v : ℚ) else 0 }

/-- `roundtrip_partial` applies to the mesh of `exOps`, with a hanging-node connection, a conformal one and boundary connections. -/
example : ∃ m, exMesh = some m ∧ Reach 2 1 m ∧ Good (glueData m) 1 ∧ Glued (glueData m) ∧ m.elements.length = 3 ∧ m.car.bounds.length = 7 ∧ (glueData m).verts.length = 8 := by
  have h : (exMesh.any fun m => goodCheck (glueData m) 1 && (m.elements.length == 3 && m.car.bounds.length == 7 && (glueData m).verts.length == 8)) = true := by decide +kernel
  obtain ⟨m, hm, h⟩ := Option.any_eq_true _ _ |>.1 h
  simp only [Bool.and_eq_true, beq_iff_eq] at h
  refine ⟨m, hm, run_reach exOps _ _ .new ?_ hm, good_of_check h.1, glued_api (D := glueData m) (fun e i => rfl) ?_, h.2.1.1, h.2.1.2, h.2.2⟩
  · intro op hop
    simp only [exOps, List.mem_cons, List.not_mem_nil, or_false] at hop
    rcases hop with rfl | rfl | rfl | rfl | rfl | rfl <;> simp [OpOk]
  · intro v i hi
    exact if_neg (not_lt.2 hi)

/-! ## What is not restored -/

/-- A coarse and two fine deformed elements in 2D, connected by faces of different dimensions. -/
def flipOps : List Op :=
  [.addElement 0 true, .addElement 1 true, .addElement 1 true, .connectHanging 0 0 [1, 2] ⟨0, 1, true, false⟩ true [true, true] (false, false)]

/-- The mesh of `flipOps` with the vertices which `connect_hanging` merges: vertex 2 of the coarse element with vertex 2 of the second fine element, and vertex 3 with vertex 0 of the
first. Each vertex has a position of its own. -/
def flipData (m : Mesh) : Data ℚ Nat :=
  ⟨m, fun e => e, fun e => [e], fun e i => if e = 2 ∧ i = 2 then 2 else if e = 1 ∧ i = 0 then 3 else 4 * e + i, fun e => e, fun _ => false, [0, 1, 2, 3, 5, 6, 7, 8, 9, 11],
    fun v i => if i.val < 2 then (v : ℚ) else 0, fun _ => (false, false), []⟩

/-- C66 fails for a flipped hanging-node connection. `connect_hanging` joins the coarse element 0 to the fine elements 1 and 2 given in this order. After writing and reading the
connection has its fine elements in the other order, and the vertices of the coarse element which the connection joins have moved. -/
theorem flipped_refuted : ∃ (D : Data ℚ Nat) (r : RefConn), Reach 2 0 D.mesh ∧ Good D 0 ∧ D.mesh.dfm.refs 1 = [r] ∧ r.coarse = 0 ∧ ¬Straight r ∧
    (∀ x ∈ refJoins 2 (false, false) { r with fine := [1, 2] }, D.vert x.1.1 x.1.2 = D.vert x.2.1 x.2.2) ∧
    ∃ F s r', write D = some F ∧ read 2 0 (fun _ => false) F = .ok s ∧ s.mesh.dfm.refs 1 = [r'] ∧ r'.fine ≠ r.fine.map D.index ∧
      s.glue.pos (s.glue.vert (D.index 0, 2)) 0 ≠ D.pos (D.vert 0 2) 0 ∧ s.glue.pos (s.glue.vert (D.index 0, 3)) 0 ≠ D.pos (D.vert 0 3) 0 := by
  have h : ((run (Mesh.new 2 0) flipOps).any fun m => goodCheck (flipData m) 0 && (match m.dfm.refs 1 with
      | [r] => decide (r.coarse = 0) && (r.dir.toDir.flipTangential || r.dir.toDir.transpose) &&
        decide (∀ x ∈ refJoins 2 (false, false) { r with fine := [1, 2] }, (flipData m).vert x.1.1 x.1.2 = (flipData m).vert x.2.1 x.2.2) &&
        (match write (flipData m) with
        | some F => (match read 2 0 (fun _ => false) F with
          | .ok s => (match s.mesh.dfm.refs 1 with
            | [r'] => decide (r'.fine ≠ r.fine.map (flipData m).index) && decide (s.glue.pos (s.glue.vert ((flipData m).index 0, 2)) 0 ≠ (flipData m).pos ((flipData m).vert 0 2) 0) &&
                decide (s.glue.pos (s.glue.vert ((flipData m).index 0, 3)) 0 ≠ (flipData m).pos ((flipData m).vert 0 3) 0)
            | _ => false)
          | _ => false)
        | none => false)
      | _ => false)) = true := by decide +kernel
  obtain ⟨m, hm, h⟩ := Option.any_eq_true _ _ |>.1 h
  rw [Bool.and_eq_true] at h
  obtain ⟨hg, h⟩ := h
  split at h
  · next r hr =>
    simp only [Bool.and_eq_true, decide_eq_true_eq] at h
    obtain ⟨⟨⟨h1, h2⟩, h3⟩, h⟩ := h
    split at h
    · next F hF =>
      split at h
      · next s hs =>
        split at h
        · next r' hr' =>
          simp only [Bool.and_eq_true, decide_eq_true_eq] at h
          refine ⟨flipData m, r, run_reach flipOps _ _ .new ?_ hm, good_of_check hg, hr, h1, ?_, h3, F, s, r', hF, hs, hr', h.1.1, h.1.2, h.2⟩
          · intro op hop
            simp only [flipOps, List.mem_cons, List.not_mem_nil, or_false] at hop
            rcases hop with rfl | rfl | rfl | rfl <;> simp [OpOk]
          · rintro ⟨k1, k2⟩
            rw [k1, k2] at h2
            simp at h2
        · simp at h
      · simp at h
    · simp at h
  · simp at h

/-- C66 fails for extruded layers: a connection between elements which have no cell, as in a mesh without tree or between two extruded layers, is not in the list of connections to
extruded layers after reading. -/
theorem extruded_lost [Zero K] {nd n_bc0 n_bc : Nat} (hnd : 1 ≤ nd ∧ nd ≤ 3) {D : Data K A} (h : Reach nd n_bc0 D.mesh) (hg : Good D n_bc) (htree : ∀ e, D.tree e = false) :
    ∃ F s, write D = some F ∧ read nd n_bc (fun _ => false) F = .ok s ∧ ∀ c ∈ s.mesh.dfm.cons, c.id ∉ s.extruded := by
  obtain ⟨F, s, h1, h2, h3⟩ := roundtrip_extruded (K := K) hnd h hg (covered := fun _ => false) (fun _ _ _ _ => rfl)
  refine ⟨F, s, h1, h2, fun c hc hx => ?_⟩
  obtain ⟨e, -, f, -, -, -, hne⟩ := (h3 c hc).1 hx
  rw [htree, htree] at hne
  exact hne rfl

/-- In 2D `stretch[1]` "is ignored" when a hanging-node connection is made, but not when it is read: the file cannot be read. -/
def stretchData (m : Mesh) : Data ℚ Nat :=
  ⟨m, fun e => e, fun e => [e], fun e i => if e = 1 ∧ i = 0 then 2 else if e = 2 ∧ i = 1 then 3 else 4 * e + i, fun e => e, fun _ => false, [0, 1, 2, 3, 5, 6, 7, 8, 10, 11],
    fun v i => if i.val < 2 then (v : ℚ) else 0, fun _ => (false, true), []⟩

/-- See `stretchData`. -/
def stretchOps : List Op :=
  [.addElement 0 true, .addElement 1 true, .addElement 1 true, .connectHanging 0 0 [1, 2] ⟨0, 0, true, false⟩ true [true, true] (false, true)]

/-- C66 fails for a hanging-node connection in 2D with `stretch[1]`. -/
theorem stretch_refuted : ∃ (D : Data ℚ Nat) (r : RefConn), Reach 2 0 D.mesh ∧ D.mesh.dfm.refs 1 = [r] ∧ Straight r ∧ D.str r.id = (false, true) ∧
    ∃ F, write D = some F ∧ read 2 0 (fun _ => false) F = .throws := by
  have h : ((run (Mesh.new 2 0) stretchOps).any fun m => (match m.dfm.refs 1 with
      | [r] => decide (r.dir.toDir.flipTangential = false ∧ r.dir.toDir.transpose = false) &&
        (match write (stretchData m) with
        | some F => (match read 2 0 (fun _ => false) F with
          | .throws => true
          | _ => false)
        | none => false)
      | _ => false)) = true := by decide +kernel
  obtain ⟨m, hm, h⟩ := Option.any_eq_true _ _ |>.1 h
  split at h
  · next r hr =>
    simp only [Bool.and_eq_true, decide_eq_true_eq] at h
    obtain ⟨h1, h⟩ := h
    split at h
    · next F hF =>
      refine ⟨stretchData m, r, run_reach stretchOps _ _ .new ?_ hm, hr, h1, rfl, F, hF, ?_⟩
      · intro op hop
        simp only [stretchOps, List.mem_cons, List.not_mem_nil, or_false] at hop
        rcases hop with rfl | rfl | rfl | rfl <;> simp [OpOk]
      · split at h
        · next hs => exact hs
        · simp at h
    · simp at h
  · simp at h

/-- `write_then_cleanup` applies to a mesh with 3 elements, of which 1 remains. -/
example : ∃ m, exMesh = some m ∧ ∃ m', writeCleanup (glueData m) (fun _ => false) = .ok m' ∧ m.elements = [0, 1, 2] ∧ m'.elements = [0] := by
  have h : (exMesh.any fun m => match writeCleanup (glueData m) (fun _ => false) with
    | .ok m' => decide (m.elements = [0, 1, 2] ∧ m'.elements = [0])
    | _ => false) = true := by decide +kernel
  obtain ⟨m, hm, h⟩ := Option.any_eq_true _ _ |>.1 h
  split at h
  · next m' hm' => exact ⟨m, hm, m', hm', by simpa using h⟩
  · simp at h

end Hexed.MeshFile
