import Mathlib.LinearAlgebra.Matrix.Determinant.Basic
import Verif.Connection.Model
set_option autoImplicit false
set_option linter.unusedVariables false

/-!
# What it means for two faces to be matched correctly

Both elements have their own axes. Side 0's face is the one where coordinate `i0` is at its lower (`s0 = false`) or upper end, and
likewise for side 1. The two frames are related by a rotation.
-/

namespace Hexed.Connection
open Matrix

/-- A face needs another face: an element cannot be continued by its own mirror image. -/
def Legal (nd : Nat) (d : Dir) : Prop := d.i0.val < nd ∧ d.i1.val < nd ∧ (d.i0 ≠ d.i1 ∨ d.s0 ≠ d.s1)

instance (nd : Nat) (d : Dir) : Decidable (Legal nd d) := by unfold Legal; infer_instance

/-- Unit vector along axis `k`. -/
def unit (k : Fin 3) : Fin 3 → ℤ := Pi.single k 1
/-- Outward unit normal of the face at the lower/upper end of axis `k`. -/
def outward (k : Fin 3) (s : Bool) : Fin 3 → ℤ := if s then unit k else -unit k

/-- `R` translates vectors from side 0's axes into side 1's axes: it is a rotation (not a mirror image), what leaves side 0 enters
side 1, the two face dimensions are exchanged and other axes are the same. -/
structure IsFrame (d : Dir) (R : Matrix (Fin 3) (Fin 3) ℤ) : Prop where
  normal : R *ᵥ outward d.i0 d.s0 = -outward d.i1 d.s1
  swap : d.i0 ≠ d.i1 → R *ᵥ unit d.i1 = unit d.i0 ∨ R *ᵥ unit d.i1 = -unit d.i0
  other : ∀ k, k ≠ d.i0 → k ≠ d.i1 → R *ᵥ unit k = unit k
  det : R.det = 1

/-- Two face points correspond if their positions relative to the face centres (in side 0's and side 1's axes) are related by `R`,
in the directions along the face. -/
def Corresponds (nd : Nat) (d : Dir) (R : Matrix (Fin 3) (Fin 3) ℤ) (c0 c1 : Fin 3 → ℤ) : Prop :=
  ∀ k : Fin 3, k.val < nd → k ≠ d.i1 → c1 k = (R *ᵥ c0) k

/-- Coordinate `k` (0 or 1) of vertex `v` of an `nd`-dimensional element: the last axis varies fastest. -/
def coord (nd v : Nat) (k : Fin 3) : Nat := (v / 2 ^ (nd - 1 - k.val)) % 2

/-- Twice the position of vertex `v` relative to the centre of the element (0 for axes that do not exist). -/
def corner (nd v : Nat) (k : Fin 3) : ℤ := if k.val < nd then 2 * (coord nd v k : ℤ) - 1 else 0

/-- Where face point `x` (with `n` points in each direction) is in the face data: row-major order of the axes other than `d`. -/
def faceIdx (nd n : Nat) (d : Fin 3) (x : Fin 3 → Nat) : Nat :=
  ((List.finRange 3).filter fun k => k.val < nd ∧ k ≠ d).foldl (fun a k => a * n + x k) 0

/-- Twice the position of point `x` relative to the centre, for `n` points symmetric about the centre. -/
def point (nd n : Nat) (x : Fin 3 → Nat) (k : Fin 3) : ℤ := if k.val < nd then 2 * (x k : ℤ) - (n - 1) else 0

/-- The axes along the face normal to axis `d`, in order. -/
def faceAxes (nd : Nat) (d : Fin 3) : List (Fin 3) := (List.finRange 3).filter fun k => k.val < nd ∧ k ≠ d

/-- A face is divided in half along the axes that are not stretched; the parts are numbered in row-major order. Position of the
centre of part `i` relative to the face centre along axis `k`, in quarters of the face. -/
def partCenter (nd : Nat) (d : Fin 3) (str : Bool × Bool) (i : Nat) (k : Fin 3) : ℤ :=
  let axes := faceAxes nd d
  let split := ((axes.zipIdx).filter fun p => !strAt str p.2).map Prod.fst
  if k ∈ split then 2 * (((i / 2 ^ (split.length - 1 - split.idxOf k)) % 2 : Nat) : ℤ) - 1 else 0

end Hexed.Connection
