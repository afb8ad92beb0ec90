import Mathlib.Data.Real.Basic
import Mathlib.Data.Fintype.Prod
import Mathlib.Data.Fintype.BigOperators
import Mathlib.Data.Finset.Lattice.Fold
import Mathlib.Algebra.BigOperators.Group.Finset.Basic

set_option autoImplicit false
set_option linter.unusedVariables false

/-!
# Model of the repair of thermodynamically inadmissible states

`Solver::is_admissible` and `Solver::fix_admissibility` (src/Solver.cpp).

The flow solution (values at the quadrature points, on the faces and on the mortar faces of
hanging-node connections) is an element of an arbitrary type `S`.  What one smoothing pass does to it
(two steps of a diffusion equation whose diffusivity is constant, include/pde.hpp 438-488) is an
arbitrary function.  The loop, the bookkeeping, the marking of elements, the spreading of the marks
through shared vertices and the shuffling of the artificial viscosity coefficients are modelled.
Not modelled: printing, visualization, timing and the local time step.
-/

noncomputable section

namespace Hexed.Admis

/-- What one evaluation of `thermo::admissible` on the data of an element (or face) does: answers, or
aborts because a value is not finite (`HEXED_ASSERT` inside a parallel loop).
src/thermo.cpp `admissible`. -/
inductive Check
  | good
  | bad
  | abort
  deriving DecidableEq, Repr

/-- The parts of the mesh and the solver that `fix_admissibility` uses.

* `ne` elements, `nv` vertices per element, `nq` quadrature points per element;
* `vertexOf e v`: the vertex object that vertex `v` of element `e` refers to;
* `hanging`: for each hanging vertex the non-hanging ones it is interpolated from, with weights
  (`Hanging_vertex_matcher::match`);
* `weight q v`: entry of the interpolation from vertices to quadrature points
  (src/Solver.cpp 1022-1024, 1032);
* `elem s e`, `refined s`: outcome of the checks of element `e` and of all the mortar faces
  (src/Solver.cpp 933-956);
* `smooth`: effect of the two diffusion steps on the solution (src/Solver.cpp 1064-1074);
* `enabled`: `Solver::fix_admis`. -/
structure Setting (S : Type) (ne nv nq : ℕ) where
  Vert : Type
  decVert : DecidableEq Vert
  vertexOf : Fin ne → Fin nv → Vert
  hanging : List ((Fin ne × Fin nv) × List (ℝ × (Fin ne × Fin nv)))
  weight : Fin nq → Fin nv → ℝ
  elem : S → Fin ne → Check
  refined : S → Check
  smooth : S → S
  enabled : Bool

/-- The data `fix_admissibility` works on.  `record` is `Element::record`, `fixCoef` is
`Vertex::fix_admis_coef` seen from each element, `lap` is `laplacian_av_coef`, `bulk` is
`bulk_av_coef` (include/Element.hpp 86-87, 109), `fixIters` is the reported count
(`Iteration_status::fix_admis_iters` and the variable `fix_iters`, which get the same increment).
`passes` is not in the code: it counts the smoothing passes so that the report can be compared. -/
structure Data (S : Type) (ne nv nq : ℕ) where
  sol : S
  record : Fin ne → Bool
  fixCoef : Fin ne → Fin nv → ℝ
  lap : Fin ne → Fin nq → ℝ
  bulk : Fin ne → Fin nq → ℝ
  fixIters : ℕ
  passes : ℕ

/-- How a call ends: `done b m` returns `b`; `failed m` throws the exception of src/Solver.cpp 974;
`abort` is a failed finiteness assertion. -/
inductive Outcome (S : Type) (ne nv nq : ℕ)
  | done (repaired : Bool) (m : Data S ne nv nq)
  | failed (m : Data S ne nv nq)
  | abort

variable {S : Type} {ne nv nq : ℕ}

/-- `Solver::is_admissible`, src/Solver.cpp 921-959: every element is given a mark (`record`), and the
answer is the conjunction over elements and mortar faces.  `none`: some check aborts.
The checks within one element are combined beforehand, in `Setting.elem`. -/
def isAdmissible (P : Setting S ne nv nq) (m : Data S ne nv nq) : Option (Bool × Data S ne nv nq) :=
  if (∃ e, P.elem m.sol e = .abort) ∨ P.refined m.sol = .abort then none
  else
    some (decide ((∀ e, P.elem m.sol e = .good) ∧ P.refined m.sol = .good),
      { m with record := fun e => decide (P.elem m.sol e = .bad) })

/-- What every vertex gets from `Solver::share_vertex_data` with `Vertex::vector_max`,
src/Solver.cpp 42-50, src/Vertex.cpp 6-9, 83-91: the largest of the values the elements pushed to it. -/
def vertexMax (P : Setting S ne nv nq) (f : Fin ne → Fin nv → ℝ) (e : Fin ne) (v : Fin nv) : ℝ :=
  haveI := P.decVert
  (Finset.univ.filter (fun x : Fin ne × Fin nv => P.vertexOf x.1 x.2 = P.vertexOf e v)).sup'
    ⟨(e, v), by simp⟩ (fun x => f x.1 x.2)

/-- Interpolation of the hanging vertices from the others, src/Solver.cpp 51-53. -/
def matchHanging (h : List ((Fin ne × Fin nv) × List (ℝ × (Fin ne × Fin nv))))
    (f : Fin ne → Fin nv → ℝ) (e : Fin ne) (v : Fin nv) : ℝ :=
  match h.reverse.find? (fun x => x.1 = (e, v)) with
  | none => f e v
  | some x => (x.2.map (fun y => y.1 * f y.2.1 y.2.2)).sum

/-- `Solver::share_vertex_data` with `Vertex::vector_max`, src/Solver.cpp 40-54. -/
def shareMax (P : Setting S ne nv nq) (f : Fin ne → Fin nv → ℝ) : Fin ne → Fin nv → ℝ :=
  matchHanging P.hanging (vertexMax P f)

/-- Largest of zero and the values at the vertices of one element, src/Solver.cpp 1013-1016. -/
def elemMax (f : Fin nv → ℝ) : ℝ := (List.ofFn f).foldl max 0

/-- The coefficients at the vertices, src/Solver.cpp 1001-1021. -/
def vertexCoefs (P : Setting S ne nv nq) (record : Fin ne → Bool) : Fin ne → Fin nv → ℝ :=
  let a := shareMax P (fun e _ => if record e then 1 else 0)
  shareMax P (fun e _ => elemMax (a e))

/-- `math::hypercube_matvec(interp, vert_fac)`, src/Solver.cpp 1025-1033. -/
def toQpoints (P : Setting S ne nv nq) (f : Fin nv → ℝ) : Fin nq → ℝ :=
  fun q => ∑ v, P.weight q v * f v

/-- Writing the coefficients, src/Solver.cpp 1000-1033. -/
def writeCoefs (P : Setting S ne nv nq) (m : Data S ne nv nq) : Data S ne nv nq :=
  let c := vertexCoefs P m.record
  { m with fixCoef := c, lap := fun e => toQpoints P (c e) }

/-- Exchange of the two artificial viscosity coefficients, src/Solver.cpp 1045-1050 and 1079-1084. -/
def swapCoefs (m : Data S ne nv nq) : Data S ne nv nq :=
  { m with lap := m.bulk, bulk := m.lap }

/-- The diffusion steps, src/Solver.cpp 1051-1074. -/
def diffuse (P : Setting S ne nv nq) (m : Data S ne nv nq) : Data S ne nv nq :=
  { m with sol := P.smooth m.sol, passes := m.passes + 1 }

/-- The part of one iteration that follows the check, src/Solver.cpp 1000-1084. -/
def pass (P : Setting S ne nv nq) (m : Data S ne nv nq) : Data S ne nv nq :=
  swapCoefs (diffuse P (swapCoefs (writeCoefs P m)))

/-- What follows the loop, src/Solver.cpp 1086-1092, `iter` being the value before `--iter`. -/
def finish (iter : ℕ) (m : Data S ne nv nq) : Outcome S ne nv nq :=
  .done (decide (iter - 1 ≠ 0)) { m with fixIters := m.fixIters + (iter - 1) }

/-- The loop, src/Solver.cpp 972-1085.  `left` is `1e5 - iter`; `limit` is `n_iters`, with `none` for
the largest `int`. -/
def loop (P : Setting S ne nv nq) : ℕ → ℕ → Option ℕ → Data S ne nv nq → Outcome S ne nv nq
  | left, iter, limit, m =>
    if limit.any (· ≤ iter) then finish iter m
    else
      match left with
      | 0 => .failed m
      | left + 1 =>
        match isAdmissible P m with
        | none => .abort
        | some (true, m') =>
          if iter = 0 then finish 1 m'
          else loop P left (iter + 1) (some (limit.elim (2 * iter) (min (2 * iter)))) (pass P m')
        | some (false, m') => loop P left (iter + 1) none (pass P m')

/-- `Solver::fix_admissibility`, src/Solver.cpp 961-1093. -/
def fix (P : Setting S ne nv nq) (m : Data S ne nv nq) : Outcome S ne nv nq :=
  if P.enabled then loop P 100000 0 none m else .done false m

end Hexed.Admis

end
