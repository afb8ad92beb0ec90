import Verif.CaseMesh.Model
set_option autoImplicit false
set_option linter.unusedVariables false

/-!
# What the geometry and the meshing of a case should be
-/

namespace Hexed.CaseMesh
noncomputable section

/-- Formats. -/
inductive Format where
  | csv
  | cad
  | stl

/-- The extensions of a format, in small letters. -/
def Format.extensions : Format → List String
  | .csv => ["csv"]
  | .cad => ["igs", "iges", "stp", "step"]
  | .stl => ["stl"]

/-- A name consists of a stem, a dot and an extension without dots that is one of the format, in small or large letters. -/
def HasFormat (name : List Char) (f : Format) : Prop :=
  ∃ stem ext : List Char, name = stem ++ '.' :: ext ∧ '.' ∉ ext ∧ String.ofList (ext.map Char.toLower) ∈ f.extensions

/-- The polygonal curve through the points of a table: segment `i` goes from point `i` to point `i + 1`. -/
def IsCurve (t : Table) (l : List Simplex) : Prop :=
  l.length = t.rows - 1 ∧ ∀ i s, l[i]? = some s → ∀ d < 2, s 0 d = t.entry i d ∧ s 1 d = t.entry (i + 1) d

/-- What a file stands for. -/
def Means (x : Files) (name : List Char) (g : Geom) : Prop :=
  x.present name = true ∧ g.nd = x.nd ∧
    ((HasFormat name .csv ∧ x.nd = 2 ∧ ∃ t, x.csv name = some t ∧ 2 ≤ t.cols ∧ IsCurve t g.simplices) ∨
     (HasFormat name .cad ∧ x.nd = 2 ∧ x.cad2 name = some g.simplices) ∨
     (HasFormat name .cad ∧ x.nd = 3 ∧ x.cad3 name = some g.simplices) ∨
     (HasFormat name .stl ∧ x.nd = 3 ∧ x.stl name = some g.simplices))

/-- What is to be done with the mesh before the adaptation: uniform refinement and insertion of the geometry, if there is one. -/
def Params.start (p : Params) (hasGeom : Bool) : List Act :=
  List.replicate p.initRefLevel.toNat .update ++ [.jacobian] ++ (if hasGeom then [.setSurface] ++ List.replicate p.nSmooth.toNat .relax ++ [.jacobian] else [])

/-- What is to be done in one sweep of the adaptation. -/
def Params.sweep (p : Params) : List Act := [.uncertainty, .locks, .updateIf] ++ List.replicate p.nSmooth.toNat .relax ++ [.jacobian]

/-- Whether sweep `k` changes the mesh. -/
def Params.changes (p : Params) (tr : List Act) (k : Nat) : Bool := p.changed (tr ++ (List.replicate k p.sweep).flatten ++ [.uncertainty, .locks])

/-- What is to be done to split the layers at the points: each ratio is that of a point to the one before, starting with 1. -/
def Params.split (p : Params) : List Act := [.disconnect] ++ List.zipWith (fun a b => .extrude (a / b)) p.splitPoints (1 :: p.splitPoints) ++ [.connectRest, .jacobian]

/-- Acts that move vertices or change elements or connections. -/
def Act.alters : Act → Bool
  | .update | .setSurface | .relax | .updateIf | .disconnect | .extrude _ | .connectRest => true
  | _ => false

/-- The Jacobian is that of the present mesh. -/
def Current (tr : List Act) : Prop := ∃ a b : List Act, tr = a ++ .jacobian :: b ∧ ∀ c ∈ b, c.alters = false

/-- Where one is in the meshing: nothing pending, uncertainties computed, locks set, surface disconnected. -/
inductive Phase where
  | idle
  | estimated
  | locked
  | opened
deriving DecidableEq

/-- What may be done when: the mesh is only adapted directly after computing uncertainties and setting locks; layers are only split while the
surface is disconnected, and nothing else is done meanwhile. -/
def Phase.next : Phase → Act → Option Phase
  | .idle, .update | .idle, .setSurface | .idle, .relax | .idle, .jacobian => some .idle
  | .idle, .uncertainty => some .estimated
  | .estimated, .locks => some .locked
  | .locked, .updateIf => some .idle
  | .idle, .disconnect => some .opened
  | .opened, .extrude _ => some .opened
  | .opened, .connectRest => some .idle
  | _, _ => none

/-- The order of a list of acts. -/
def Lawful (tr : List Act) : Prop := tr.foldlM Phase.next .idle = some .idle

end
end Hexed.CaseMesh
