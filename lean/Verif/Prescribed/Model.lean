import Mathlib.Data.Real.Basic
set_option autoImplicit false
set_option linter.unusedVariables false

/-!
# Model of boundary conditions that prescribe the value of a function

`Function_bc`, `Cache_bc` and `Copy` (src/Boundary_condition.cpp), and the operations of a `Solver` that call them or change what they see
(src/Solver.cpp). Real numbers stand for `double`.
-/

namespace Hexed.Prescribed
noncomputable section

/-- A `Surface_func`, include/Surface_func.hpp:11-19: position, time, state, normal to values. -/
abbrev Func := List ℝ → ℝ → List ℝ → List ℝ → List ℝ

/-- The data of a `Boundary_face`, include/Boundary_face.hpp:15-30, include/connection.hpp:344-384: `nd = n_dim`, `nv = n_var`,
`nq = n_qpoint()/row_size`, and arrays in the order [i_var][i_qpoint]. -/
structure Face where
  nd : Nat
  nv : Nat
  nq : Nat
  sign : Bool
  inState : Nat → ℝ
  inFlux : Nat → ℝ
  ghState : Nat → ℝ
  ghFlux : Nat → ℝ
  cache : Nat → ℝ
  nrml : Nat → ℝ
  pos : Nat → ℝ

/-- `a[i] = x`. -/
def set (a : Nat → ℝ) (i : Nat) (x : ℝ) : Nat → ℝ := fun j => if j = i then x else a j

/-- The loop that copies the first `m` numbers, e.g. Boundary_condition.cpp:18-20. -/
def copyTo (m : Nat) (src dst : Nat → ℝ) : Nat → ℝ := (List.range m).foldl (fun a i => set a i (src i)) dst

/-- `copy_state`, Boundary_condition.cpp:12-22. `n_dof()/row_size` is `nv*nq`. -/
def copyState (bf : Face) : Face :=
  { bf with
    ghState := copyTo (bf.nv * bf.nq) bf.inState bf.ghState
    ghFlux := copyTo (bf.nv * bf.nq) bf.inFlux bf.ghFlux }

/-- The loops that fetch the data of a point, Boundary_condition.cpp:239-246. -/
def fetch (a : Nat → ℝ) (nq m q : Nat) : List ℝ := (List.range m).map fun i => a (i * nq + q)

/-- The loop that writes the result, Boundary_condition.cpp:250-252. `none`: an index is out of range. -/
def writePoint (nq nv : Nat) (r : List ℝ) (q : Nat) (dst : Nat → ℝ) : Option (Nat → ℝ) :=
  (List.range nv).foldlM (fun a i => (r[i]?).map (set a (i * nq + q))) dst

/-- The loop over the points, Boundary_condition.cpp:237-253 and 279-295. -/
def evalTo (f : Func) (bf : Face) (dst : Nat → ℝ) : Option (Nat → ℝ) :=
  (List.range bf.nq).foldlM (fun a q =>
    writePoint bf.nq bf.nv (f (fetch bf.pos bf.nq bf.nd q) 0 (fetch bf.inState bf.nq bf.nv q) (fetch bf.nrml bf.nq bf.nd q)) q a) dst

/-- The boundary conditions: `Function_bc`, `Cache_bc`, `Copy`, include/Boundary_condition.hpp:102-128, 208-214. -/
inductive Bc where
  | function (f : Func)
  | cache (f : Func)
  | copy

/-- `apply_state`, Boundary_condition.cpp:227-254, 256-267, 449-452. -/
def Bc.applyState : Bc → Face → Option Face
  | .function f, bf => (evalTo f bf bf.ghState).map fun g => { bf with ghState := g }
  | .cache _, bf => some { bf with
      ghState := copyTo (bf.nv * bf.nq) bf.cache bf.ghState
      ghFlux := copyTo (bf.nv * bf.nq) bf.inFlux bf.ghFlux }
  | .copy, bf => some (copyState bf)

/-- `apply_flux`, Boundary_condition.cpp:298-300, 454-457. -/
def Bc.applyFlux (_ : Bc) (bf : Face) : Face := copyState bf

/-- An iteration of `apply_flux_bcs`, Solver.cpp:73-79: the flux is recorded in `flux_cache()`, which is the second half of the same array as
`state_cache()` (connection.hpp:351, 376-377), before the condition is applied. -/
def Bc.fluxStep (b : Bc) (bf : Face) : Face :=
  b.applyFlux { bf with cache := (List.range (bf.nv * bf.nq)).foldl (fun a i => set a (bf.nv * bf.nq + i) (bf.inFlux i)) bf.cache }

/-- `init_cache`, Boundary_condition.cpp:269-296; the default does nothing, include/Boundary_condition.hpp:29-30. -/
def Bc.initCache : Bc → Face → Option Face
  | .cache f, bf => (evalTo f bf bf.cache).map fun g => { bf with cache := g }
  | _, bf => some bf

/-- A boundary connection: a name for it, the serial number of its condition and its data. -/
structure Conn where
  id : Nat
  sn : Nat
  face : Face

/-- What of a solver matters here: the boundary connections and `status.flow_time`. -/
structure Sim where
  cons : List Conn
  time : ℝ

/-- A loop over the boundary connections. Its iterations touch different connections, so that their order does not matter. -/
def overCons (act : Bc → Face → Option Face) (bcs : Nat → Bc) (cons : List Conn) : Option (List Conn) :=
  cons.mapM fun c => (act (bcs c.sn) c.face).map fun bf => { c with face := bf }

/-- What can happen to the boundary of a solver.
`stateBcs`, `fluxBcs`: `apply_state_bcs` and `apply_flux_bcs`. `kernels`: the kernels change states and fluxes of both sides to anything.
`geometry`: `calc_jacobian` changes normals and positions. `advance`: the end of a time step. `init`: `Solver::initialize`, where
`inside` is the state that `compute_write_face` extrapolates to the face. `readState`: `Solver::read_state`. `connect`: a new connection.
`disconnect`: connections are deleted. -/
inductive Op where
  | stateBcs
  | fluxBcs
  | kernels (inState inFlux ghState ghFlux : Nat → Nat → ℝ)
  | geometry (nrml pos : Nat → Nat → ℝ)
  | advance (dt : ℝ)
  | init (inside : Nat → Nat → ℝ)
  | readState
  | connect (c : Conn)
  | disconnect (gone : Nat → Bool)

/-- The effect of an operation. `apply_state_bcs` and `apply_flux_bcs`: Solver.cpp:56-81. `calc_jacobian`: Solver.cpp:354-381. The end of a
time step: Solver.cpp:873-875. `initialize`: Solver.cpp:400-407. `read_state` touches the states of elements only: Solver.cpp:232-250. The cache of a
new connection is zero: connection.hpp:357. -/
def exec (bcs : Nat → Bc) (s : Sim) : Op → Option Sim
  | .stateBcs => (overCons Bc.applyState bcs s.cons).map fun l => { s with cons := l }
  | .fluxBcs => (overCons (fun b bf => some (b.fluxStep bf)) bcs s.cons).map fun l => { s with cons := l }
  | .kernels a b c d => some { s with cons := s.cons.map fun k =>
      { k with face := { k.face with inState := a k.id, inFlux := b k.id, ghState := c k.id, ghFlux := d k.id } } }
  | .geometry n p => some { s with cons := s.cons.map fun k => { k with face := { k.face with nrml := n k.id, pos := p k.id } } }
  | .advance dt => some { s with time := s.time + dt }
  | .init a => (overCons Bc.initCache bcs (s.cons.map fun k => { k with face := { k.face with inState := a k.id } })).map fun l => { s with cons := l }
  | .readState => some s
  | .connect c => some { s with cons := s.cons ++ [{ c with face := { c.face with cache := fun _ => 0 } }] }
  | .disconnect g => some { s with cons := s.cons.filter fun k => !g k.id }

/-- A history. -/
def run (bcs : Nat → Bc) (ops : List Op) (s : Sim) : Option Sim := ops.foldlM (exec bcs) s

end
end Hexed.Prescribed
