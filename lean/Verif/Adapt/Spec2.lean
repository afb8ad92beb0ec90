import Verif.Adapt.Spec
import Verif.Adapt.Model2

set_option autoImplicit false
set_option linter.unusedVariables false

/-!
# What mesh adaptation is meant to achieve, continued

Which elements are deformed, and what a user can do to a mesh.
-/

namespace Hexed.Adapt
open Hexed.Tree (Path get IsDir Borders IsLeafAt Reachable)

variable {nd : Nat}

/-- Cell `p` has a deformed (`d = true`) or Cartesian (`d = false`) element that is going to stay. -/
def ExistsAs (st : St nd) (d : Bool) (p : Path) : Prop := ∃ e ∈ st.els d, e.tree = some p ∧ e.record ≠ 2

/-- `dir` points to a face. -/
def FaceDir (dir : Fin nd → Int) : Prop := IsDir dir ∧ order dir = 1

/-- The existing cells whose elements have to be deformed: those with an exposed face; their neighbours through a face in another dimension
than an exposed one; and if some of the neighbours of a deformed element through one face are deformed, all of them. -/
inductive Bent (st : St nd) : Path → Prop
  | surface {p : Path} {a : Tree nd} {dir : Fin nd → Int} : Exists st p → get p st.root = some a → FaceDir dir → Exposed st a dir → Bent st p
  | beside {p q : Path} {a b : Tree nd} {dir dir' : Fin nd → Int} : Exists st p → get p st.root = some a → FaceDir dir → Exposed st a dir →
      FaceDir dir' → (∀ d, dir d = 0 ∨ dir' d = 0) → Exists st q → get q st.root = some b → Borders a b dir' → Bent st q
  | spread {p q r : Path} {a b c : Tree nd} {dir : Fin nd → Int} : Bent st p → get p st.root = some a → FaceDir dir →
      Bent st q → get q st.root = some b → Borders a b dir → Exists st r → get r st.root = some c → Borders a c dir → Bent st r

/-! ### Histories -/

/-- A surface geometry: which cells it comes close to, and seen from which cells it is not behind the face, edge or corner in some direction.
The first only depends on the position and size of the cell. -/
structure Surface (nd : Nat) where
  hits : Tree nd → Bool
  away : Tree nd → (Fin nd → Int) → Bool
  geom : ∀ a b : Tree nd, a.rl = b.rl → a.coords = b.coords → hits a = hits b

/-- Which cells the surface comes close to; none before the first call of `set_surface`. -/
def hits : Option (Surface nd) → Tree nd → Bool
  | none => fun _ => false
  | some S => S.hits

def away : Option (Surface nd) → Tree nd → (Fin nd → Int) → Bool
  | none => fun _ _ => false
  | some S => S.away

/-- `add_tree`, Accessible_mesh.cpp:660-683: one Cartesian element. -/
def newMesh (nd : Nat) : St nd := ⟨Tree.new nd, fun d => if d then [] else [⟨some [], 0, false⟩]⟩

/-- The criteria given to `update` have been evaluated, and elements may have been locked: a request to refine (1), to unrefine (-1) or none (0) for
every element, possibly passed on from an extruded one (Accessible_mesh.cpp:1143-1160, 733-740). -/
structure Requests (st st' : St nd) : Prop where
  root : st'.root = st.root
  trees : ∀ d, (st'.els d).map (·.tree) = (st.els d).map (·.tree)
  records : ∀ d, ∀ e ∈ st'.els d, e.record = -1 ∨ e.record = 0 ∨ e.record = 1

/-- The rest of `update` and `set_surface` adds and deletes elements without tree cell. -/
structure Rest (st st' : St nd) : Prop where
  root : st'.root = st.root
  els : ∀ d, (st'.els d).filter (fun e => e.tree.isSome) = (st.els d).filter fun e => e.tree.isSome

/-- All loops treat every element once per pass. -/
structure Orders.Fair (o : Orders nd) : Prop where
  smooth : Schedule o.smooth
  delete : Schedule o.delete
  deform : Schedule o.deform
  spread : Schedule o.spread

/-- The meshes a user can arrive at, and the surface in force. -/
inductive Mesh : Option (Surface nd) → St nd → Prop
  | new : Mesh none (newMesh nd)
  | update {S : Option (Surface nd)} {st r s s' : St nd} {o : Orders nd} {fuel : Nat} : Mesh S st → Requests st r → o.Fair →
      Adapt.update (hits S) (away S) o fuel r = some (some s) → Rest s s' → Mesh S s'
  | setSurface {S0 : Option (Surface nd)} {S : Surface nd} {st s s' : St nd} {o : Orders nd} {fuel : Nat} {start : Path} : Mesh S0 st → (∃ c, get start st.root = some c) → o.Fair →
      Adapt.setSurface S.hits S.away o fuel start st = some (some s) → Rest s s' → Mesh (some S) s'

/-- A mesh fit to be computed on: elements are at leaves of the tree, no two at the same; all stay; neighbours differ by at most one level;
layers can be extruded; and the elements that have to be deformed are. -/
structure Fit (S : Option (Surface nd)) (st : St nd) : Prop where
  consistent : Consistent st
  stay : ∀ d, ∀ e ∈ st.els d, e.tree ≠ none → e.record = 0
  balanced : Balanced st
  ready : Ready (away S) st
  kinds : ∀ p, ExistsAs st true p ↔ Bent st p

/-- The elements cover the whole domain. -/
def Full (st : St nd) : Prop := ∀ q, IsLeafAt st.root q → Exists st q

/-- `q` can be reached from `p` through leaves of the tree that share faces and are not close to the surface. -/
inductive Reached (S : Surface nd) (t : Tree nd) (p : Path) : Path → Prop
  | start {c : Tree nd} : get p t = some c → S.hits c = false → Reached S t p p
  | step {q r : Path} {c : Tree nd} : Reached S t p q → Tree.FaceAdjacent t q r → get r t = some c → S.hits c = false → Reached S t p r

end Hexed.Adapt
