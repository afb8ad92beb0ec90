import Verif.Share.Model
set_option autoImplicit false
set_option linter.unusedVariables false

/-! # Specification: sharing of vertex data -/

namespace Hexed.Share
open Hexed.Connection

/-- `order` lists, for each vertex, the pointers to it. -/
def Mesh.IsOrder (m : Mesh) (order : Nat → List (Nat × Nat)) : Prop := ∀ p, (order p).Perm (m.ptrs p)

/-- Vertex `v` of fine element number `i` is at corner `v` of the coarse face. -/
def Matcher.AtCorner (h : Matcher) (nd i v : Nat) : Prop := ∀ k ∈ faceAxes nd h.id, finePos nd h.id h.str i v k = 2 * corner nd v k

/-- Vertex `v` of fine element number `i` is in the coarse face, but not at one of its corners. -/
def Matcher.Hanging (h : Matcher) (nd i v : Nat) : Prop := i < nFine nd h.str ∧ v ∈ faceVerts nd h.id h.isp ∧ ¬ h.AtCorner nd i v

/-- The fine elements exist, are distinct and as many as there should be. -/
structure Matcher.Ok (h : Matcher) (nd ne : Nat) : Prop where
  id : h.id.val < nd
  length : h.fine.length = nFine nd h.str
  exist : ∀ e ∈ h.fine, e < ne
  distinct : h.fine.Nodup

/-- Corner `c` of the coarse face is the vertex `p`. -/
def Mesh.IsCorner (m : Mesh) (h : Matcher) (c p : Nat) : Prop :=
  c ∈ faceVerts m.nd h.id h.isp ∧ ∃ i e, h.fine[i]? = some e ∧ h.AtCorner m.nd i c ∧ m.vid e c = p

/-- The weight of corner `c` in the multilinear interpolation to vertex `v` of fine element number `i`. -/
def Matcher.weight (K : Type) [Field K] (h : Matcher) (nd i v c : Nat) : K := ((faceAxes nd h.id).map fun k => ((2 + corner nd c k * finePos nd h.id h.str i v k : ℤ) : K) / 4).prod

/-- `x` is the multilinear interpolation at vertex `v` of fine element number `i` of the values `g` at the vertices at the corners of the coarse face. -/
def Mesh.IsInterp {K : Type} [Field K] (m : Mesh) (h : Matcher) (i v : Nat) (g : Nat → K) (x : K) : Prop :=
  ∃ p : Nat → Nat, (∀ c ∈ faceVerts m.nd h.id h.isp, m.IsCorner h c (p c)) ∧ x = ((faceVerts m.nd h.id h.isp).map fun c => h.weight K m.nd i v c * g (p c)).sum

/-- Meshes in which hanging vertices are treated consistently: if a vertex is hanging for some element, then it is hanging for every element that has it, the places in
the coarse faces agree, and the corners of coarse faces are not hanging themselves. -/
structure Consistent (K : Type) [Field K] (m : Mesh) : Prop where
  dim : m.nd = 2 ∨ m.nd = 3
  ok : ∀ h ∈ m.matchers, h.Ok m.nd m.ne
  covered : ∀ h ∈ m.matchers, ∀ i e v, h.fine[i]? = some e → h.Hanging m.nd i v → ∀ e' < m.ne, ∀ v' < 2 ^ m.nd, m.vid e' v' = m.vid e v →
    ∃ h' ∈ m.matchers, ∃ i', h'.fine[i']? = some e' ∧ h'.Hanging m.nd i' v'
  same : ∀ h ∈ m.matchers, ∀ h' ∈ m.matchers, ∀ i e v i' e' v', h.fine[i]? = some e → h.Hanging m.nd i v → h'.fine[i']? = some e' → h'.Hanging m.nd i' v' → m.vid e v = m.vid e' v' →
    ∀ (g : Nat → K) x x', m.IsInterp h i v g x → m.IsInterp h' i' v' g x' → x = x'
  corners : ∀ h ∈ m.matchers, ∀ c p, m.IsCorner h c p → ∀ h' ∈ m.matchers, ∀ i e v, h'.fine[i]? = some e → h'.Hanging m.nd i v → m.vid e v ≠ p

/-- Element `e` has vertex `v` hanging in some coarse face. -/
def Mesh.HangingAt (m : Mesh) (e v : Nat) : Prop := ∃ h ∈ m.matchers, ∃ i, h.fine[i]? = some e ∧ h.Hanging m.nd i v

/-- `x` is the largest of the values that elements have for vertex `p`. -/
def Mesh.IsMax {K : Type} [LinearOrder K] (m : Mesh) (get : Nat → Nat → K) (p : Nat) (x : K) : Prop :=
  (∃ e < m.ne, ∃ v < 2 ^ m.nd, m.vid e v = p ∧ x = get e v) ∧ ∀ e < m.ne, ∀ v < 2 ^ m.nd, m.vid e v = p → get e v ≤ x

/-- `x` is the smallest of the values that elements have for vertex `p`. -/
def Mesh.IsMin {K : Type} [LinearOrder K] (m : Mesh) (get : Nat → Nat → K) (p : Nat) (x : K) : Prop :=
  (∃ e < m.ne, ∃ v < 2 ^ m.nd, m.vid e v = p ∧ x = get e v) ∧ ∀ e < m.ne, ∀ v < 2 ^ m.nd, m.vid e v = p → x ≤ get e v

/-- The multilinear interpolation of the values at the vertices of an element, at the point with coordinates `ξ` in the unit cube. -/
def field {K : Type} [Field K] (nd : Nat) (val : Nat → K) (ξ : Nat → K) : K :=
  ∑ v ∈ Finset.range (2 ^ nd), val v * ∏ d ∈ Finset.range nd, if v / 2 ^ (nd - 1 - d) % 2 = 1 then ξ d else 1 - ξ d

end Hexed.Share
