import Verif.Adapt.Spec2
import Verif.Adapt.Connect

set_option autoImplicit false
set_option linter.unusedVariables false

/-!
# What it means for tree elements to be connected correctly
-/

namespace Hexed.Adapt
open Hexed.Tree (Path get IsDir Borders IsLeafAt Reachable findNeighbor)

variable {nd : Nat}

/-- The face on the other side: faces `2*k` and `2*k + 1` are those at the lower and upper end in dimension `k`. -/
def opp (i : Nat) : Nat := 2 * (i / 2) + (1 - i % 2)

/-- The cell at `q` borders on the cell at `p` through face `i` of the latter, and is `up` levels finer. -/
def Meets (st : St nd) (p q : Path) (i up : Nat) : Prop :=
  ∃ a b, get p st.root = some a ∧ get q st.root = some b ∧ Borders a b (direction nd i) ∧ b.rl = a.rl + up

/-- A connection is right if it is between the elements that border on each other: it is conformal if they are of the same level; it has
hanging nodes if one borders on finer ones, which are then all that border on it, as many as there are quarters (halves in 2D) of its face,
and in the natural order; it is a boundary connection, with the condition for that side, at the end of the domain; and it is with an extruded
element if the cell on the other side has no element. It is of the deformed kind exactly if all its elements are deformed. -/
def Link.Right (st : St nd) : Link → Prop
  | .conf d (p, i) (q, j) => i < 2 * nd ∧ j = opp i ∧ (d = false → i % 2 = 1) ∧ Meets st p q i 0 ∧ Exists st p ∧ Exists st q ∧
      (d = true ↔ ExistsAs st true p ∧ ExistsAs st true q)
  | .hang d (p, i) fine => i < 2 * nd ∧ Exists st p ∧ fine.length = 2 ^ (nd - 1) ∧
      (∀ f ∈ fine, f.2 = opp i ∧ Meets st p f.1 i 1 ∧ Exists st f.1) ∧
      (∀ q b a, get p st.root = some a → get q st.root = some b → b.children = [] → Borders a b (direction nd i) → (q, opp i) ∈ fine) ∧
      (∀ a k f b, get p st.root = some a → fine[k]? = some f → get f.1 st.root = some b → ∀ e : Fin nd, e.val ≠ i / 2 →
        b.coords e = 2 * a.coords e + ((k / 2 ^ (if e.val < i / 2 then nd - 2 - e.val else nd - 1 - e.val) % 2 : Nat) : Int)) ∧
      (d = true ↔ ExistsAs st true p ∧ ∀ f ∈ fine, ExistsAs st true f.1)
  | .bound d (p, i) bc => i < 2 * nd ∧ bc = i ∧ ExistsAs st d p ∧
      ∀ a, get p st.root = some a → ∀ k : Fin nd, k.val = i / 2 → if i % 2 = 1 then a.hi k = 1 else a.lo k = 0
  | .extr (p, i) => i < 2 * nd ∧ ExistsAs st true p ∧ ∀ a, get p st.root = some a → Exposed st a (direction nd i)

/-- All connections are right and no face has two. -/
structure Sound (st : St nd) (links : List Link) : Prop where
  right : ∀ l ∈ links, l.Right st
  once : (links.flatMap Link.faces).Nodup

/-- Every face of every element with a cell is connected. -/
def Complete (st : St nd) (links : List Link) : Prop := ∀ p i, Exists st p → i < 2 * nd → ∃ l ∈ links, (p, i) ∈ l.faces

/-- The connections left by `purge` are among those whose elements have not been deleted (Accessible_mesh.cpp:1107-1109). -/
structure Survive (st st' : St nd) (links links' : List Link) : Prop where
  sub : links'.Sublist links
  elems : ∀ l ∈ links', ∀ f ∈ l.faces, ∃ d, ExistsAs st d f.1 ∧ ExistsAs st' d f.1

/-- Extruded elements have been deleted where a new element has appeared behind the face they were extruded from (1301-1311). -/
def Uncovered (st' : St nd) (links' : List Link) : Prop :=
  ∀ p i, .extr (p, i) ∈ links' → ∀ q, findNeighbor st'.root p (direction nd i) = some q → ¬Exists st' q

/-- No element has lost its cell. (`update` can do that, see `update_orphan_refuted`; connections to such an element are not deleted, and this is not
modelled.) -/
def Kept (st st' : St nd) : Prop := ∀ d, (st'.els d).countP (·.tree.isNone) ≤ (st.els d).countP (·.tree.isNone)

/-- The meshes a user can arrive at together with the connections of the elements with a cell, as long as no element loses its cell. -/
inductive Wired : Option (Surface nd) → St nd → List Link → Prop
  | new : Wired none (newMesh nd) (newLinks nd)
  | update {S : Option (Surface nd)} {st r s s' : St nd} {o : Orders nd} {fuel : Nat} {links left links' : List Link} : Wired S st links →
      Requests st r → o.Fair → Adapt.update (hits S) (away S) o fuel r = some (some s) → Kept r s → Survive st s links left → Uncovered s left →
      connectAll s left = some links' → Rest s s' → Wired S s' links'
  | setSurface {S0 : Option (Surface nd)} {S : Surface nd} {st s s' : St nd} {o : Orders nd} {fuel : Nat} {start : Path} {links left links' : List Link} :
      Wired S0 st links → (∃ c, get start st.root = some c) → o.Fair → Adapt.setSurface S.hits S.away o fuel start st = some (some s) →
      Survive st s links left → connectAll s left = some links' → Rest s s' → Wired (some S) s' links'

end Hexed.Adapt
