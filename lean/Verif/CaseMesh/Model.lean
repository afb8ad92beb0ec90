import Mathlib.Data.Real.Basic
set_option autoImplicit false
set_option linter.unusedVariables false

/-!
# Model of the meshing of a case

`Case::_make_geom` and the variables `init_refinement`, `add_geom`, `refine` and `split_layers` (src/Case.cpp), the macro `mesh`
(include/Case.hil) and `segments` (src/Simplex_geom.cpp).
-/

namespace Hexed.CaseMesh
noncomputable section

/-! ## Geometry files -/

/-- What can go wrong when a geometry is read. -/
inductive Err where
  /-- "file name must contain extension to infer format" -/
  | extension
  /-- "geometry file ... not found" -/
  | notFound
  /-- "3D geometry in CSV format is not supported" -/
  | csvDim
  /-- an exception of `read_csv` -/
  | csvRead
  /-- "CSV geometry file must have at least n_dim columns" -/
  | columns
  /-- an exception of the CAD library -/
  | cad
  /-- "STL format is only supported for 3D" -/
  | stlDim
  /-- "file extension ... not recognized" -/
  | format
deriving DecidableEq

/-- The end of a computation. `assertion`: a precondition of the matrix library is violated, which aborts the program unless its assertions are
switched off. -/
inductive Outcome (α : Type) where
  | ok (a : α)
  | error (e : Err)
  | assertion

/-- A table of numbers in a file, by row and column. -/
structure Table where
  rows : Nat
  cols : Nat
  entry : Nat → Nat → ℝ

/-- A segment or triangle, by vertex and coordinate. -/
abbrev Simplex := Nat → Nat → ℝ

/-- A `Simplex_geom`. -/
structure Geom where
  nd : Nat
  simplices : List Simplex

/-- What `_make_geom` looks at. The CAD library is not modelled: `cad2`, `cad3` and `stl` are what it makes of a file, `none` is an exception.
`csv` is `read_csv` (see `Verif/Csv`). `occt` is `HEXED_USE_OCCT`. -/
structure Files where
  nd : Nat
  geom : Nat → Option (List Char)
  present : List Char → Bool
  csv : List Char → Option Table
  cad2 : List Char → Option (List Simplex)
  cad3 : List Char → Option (List Simplex)
  stl : List Char → Option (List Simplex)
  occt : Bool

/-- `rfind('.')` assigned to an `unsigned`, Case.cpp:104. -/
def rdot (name : List Char) : Nat := if '.' ∈ name then name.length - 1 - name.reverse.idxOf '.' else 4294967295

/-- `tolower`, Case.cpp:109. -/
def lower (c : Char) : Char := if 65 ≤ c.toNat ∧ c.toNat ≤ 90 then Char.ofNat (c.toNat + 32) else c

/-- `segments`, Simplex_geom.cpp:48-58, of the transposed table, Case.cpp:114. The bound of the loop is a signed number. -/
def segments (t : Table) : List Simplex := (List.range (t.rows - 1)).map fun i => fun v d => t.entry (i + v) d

/-- One geometry file, Case.cpp:104-134. `none` = nothing is added. -/
def Files.read (x : Files) (name : List Char) : Outcome (Option Geom) :=
  let dot := rdot name
  if name.length ≤ dot then .error .extension
  else if x.present name = false then .error .notFound
  else
    let ext := (name.drop (dot + 1)).map lower
    if ext = ['c', 's', 'v'] then
      if x.nd ≠ 2 then .error .csvDim
      else (x.csv name).elim (.error .csvRead) fun t =>
        if t.cols < x.nd then .error .columns else if t.cols ≠ 2 ∧ 1 < t.rows then .assertion else .ok (some ⟨2, segments t⟩)
    else if x.occt = true ∧ (ext = ['i', 'g', 's'] ∨ ext = ['i', 'g', 'e', 's'] ∨ ext = ['s', 't', 'p'] ∨ ext = ['s', 't', 'e', 'p']) then
      if x.nd = 2 then (x.cad2 name).elim (.error .cad) fun s => .ok (some ⟨2, s⟩)
      else if x.nd = 3 then (x.cad3 name).elim (.error .cad) fun s => .ok (some ⟨3, s⟩)
      else .ok none
    else if x.occt = true ∧ ext = ['s', 't', 'l'] then
      if x.nd ≠ 3 then .error .stlDim else (x.stl name).elim (.error .cad) fun s => .ok (some ⟨3, s⟩)
    else .error .format

/-- The loop of `_make_geom`, Case.cpp:101-136, from number `i` on. `none` = more than `fuel` files. -/
def Files.loop (x : Files) : Nat → Nat → List Geom → Option (Outcome (List Geom))
  | 0, _, _ => none
  | fuel + 1, i, geoms => (x.geom i).elim (some (.ok geoms)) fun name =>
    match x.read name with
    | .ok g => x.loop fuel (i + 1) (geoms ++ g.toList)
    | .error e => some (.error e)
    | .assertion => some .assertion

/-- `_make_geom`, Case.cpp:98-138. The inner `none` is the null pointer. -/
def Files.makeGeom (x : Files) (fuel : Nat) : Option (Outcome (Option (List Geom))) :=
  (x.loop fuel 0 []).map fun o =>
    match o with
    | .ok l => .ok (if l.isEmpty then none else some l)
    | .error e => .error e
    | .assertion => .assertion

/-! ## Meshing -/

/-- What is done with the mesh. -/
inductive Act where
  /-- `update()`: refine everywhere -/
  | update
  /-- `set_surface` -/
  | setSurface
  /-- `relax(0.5)` -/
  | relax
  /-- `set_uncertainty` -/
  | uncertainty
  /-- `set_unref_locks(if_extruded)` -/
  | locks
  /-- `update(refine_if, unrefine_if)` -/
  | updateIf
  /-- `calc_jacobian` -/
  | jacobian
  /-- `disconnect_boundary` of the surface -/
  | disconnect
  /-- `extrude(true, ratio, true)` -/
  | extrude (ratio : ℝ)
  /-- `connect_rest` with the surface -/
  | connectRest

/-- The parameters of the meshing. `changed` is what `update(refine_if, unrefine_if)` returns after what has been done with the mesh before:
any function, since the criteria are the user's. -/
structure Params where
  initRefLevel : Int
  nSmooth : Int
  maxIters : Int
  layerSplits : Int
  splitPoints : List ℝ
  changed : List Act → Bool

/-- `init_refinement`, Case.cpp:251-255. -/
def Params.initRefinement (p : Params) (tr : List Act) : List Act := tr ++ List.replicate p.initRefLevel.toNat .update ++ [.jacobian]

/-- The smoothing, Case.cpp:262, 287. -/
def Params.smooth (p : Params) : List Act := List.replicate p.nSmooth.toNat .relax

/-- `add_geom`, Case.cpp:257-266. -/
def Params.addGeom (p : Params) (hasGeom : Bool) (tr : List Act) : List Act := if hasGeom then tr ++ [.setSurface] ++ p.smooth ++ [.jacobian] else tr

/-- `refine`, Case.cpp:268-290: what has been done with the mesh, and the value. -/
def Params.refine (p : Params) (tr : List Act) : List Act × Bool :=
  let tr1 := tr ++ [.uncertainty, .locks]
  (tr1 ++ [.updateIf] ++ p.smooth ++ [.jacobian], p.changed tr1)

/-- The ratios in the loop of `split_layers`, Case.cpp:296-300. -/
def ratios : List ℝ → ℝ → List Act
  | [], _ => []
  | split :: points, prev_split => .extrude (split / prev_split) :: ratios points split

/-- `split_layers`, Case.cpp:292-304. -/
def Params.splitLayers (p : Params) (tr : List Act) : List Act := tr ++ [.disconnect] ++ ratios p.splitPoints 1 ++ [.connectRest, .jacobian]

/-- The refinement loop of `mesh`, Case.hil:321-329: `i` and `keep` are `i_refinement` and `keep_refining`, `fuel` a bound for the number of
iterations. -/
def Params.sweeps (p : Params) : Nat → Int → Bool → List Act → List Act
  | 0, _, _, tr => tr
  | fuel + 1, i, keep, tr => if keep = true ∧ i < p.maxIters then p.sweeps fuel (i + 1) (keep && (p.refine tr).2) (p.refine tr).1 else tr

/-- The splitting loop of `mesh`, Case.hil:330-333. -/
def Params.splits (p : Params) : Nat → Int → List Act → List Act
  | 0, _, tr => tr
  | fuel + 1, i, tr => if i < p.layerSplits then p.splits fuel (i + 1) (p.splitLayers tr) else tr

/-- `mesh`, Case.hil:317-335. The bounds of the loops are shown to be enough in `Props.lean`. -/
def Params.mesh (p : Params) (hasGeom : Bool) (tr : List Act) : List Act :=
  p.splits (p.layerSplits.toNat + 1) 0 (p.sweeps (p.maxIters.toNat + 1) 0 true (p.addGeom hasGeom (p.initRefinement tr)))

end
end Hexed.CaseMesh
