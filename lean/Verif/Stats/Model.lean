import Verif.Tensor.Model
import Verif.Basis.Filter
import Mathlib.Analysis.SpecialFunctions.Trigonometric.Inverse
set_option autoImplicit false
set_option linter.unusedVariables false

/-!
# Model of integrals and element statistics (src/Solver.cpp, src/Element_func.cpp)

`double` is a real number. A `std::vector<double>` is a `Tensor.Vec`. Reading or writing beyond the end of a vector is the outcome
`none`. The functions to be integrated are given by their values: `f e q` is the vector returned for element `e` and quadrature point
`q`. Elements are numbers; what is used of an element is its nominal size and its Jacobian determinants at the quadrature points.
-/

namespace Hexed.Stats
open Hexed.Tensor Hexed.Basis

/-- What is used of an `Element`: `nominal_size()` and `jacobian_determinant(i_qpoint)` (Element.cpp). -/
structure Elem where
  size : ℝ
  det : Nat → ℝ

/-- What is used of a boundary connection: `bound_cond_serial_n()`, `element().nominal_size()`, `normal()`. -/
structure BoundCon where
  bc : Nat
  size : ℝ
  normal : Nat → ℝ

/-- `vec[i]`. -/
def get (v : Vec ℝ) (i : Nat) : Option ℝ := if i < v.size then some (v.val i) else none

/-- `vec[i] += x`. -/
noncomputable def addTo (v : Vec ℝ) (i : Nat) (x : ℝ) : Option (Vec ℝ) :=
  if i < v.size then some ⟨v.size, Function.update v.val i (v.val i + x)⟩ else none

/-- `math::pow_outer(basis.node_weights(), n_dim)`; `u` is what new vectors contain before they are written. -/
noncomputable def weights (b : Nodes ℝ) (u : Nat → ℝ) (nd : Nat) : Option (Vec ℝ) := powOuter u (nd + 1) ⟨b.n, b.weight⟩ nd

/-- `Solver::integral_field`, Solver.cpp:1113-1131. -/
noncomputable def integralField (b : Nodes ℝ) (u : Nat → ℝ) (nd nv : Nat) (elems : List Nat) (elem : Nat → Elem) (f : Nat → Nat → Vec ℝ) : Option (Vec ℝ) :=
  (weights b u nd).bind fun wt =>
    elems.foldlM (fun (integral : Vec ℝ) e =>
      let volume := MathFn.pow (elem e).size nd
      forLoop (MathFn.pow (K := Nat) b.n nd) (fun q (integral : Vec ℝ) =>
        let val := f e q
        forLoop val.size (fun i (integral : Vec ℝ) =>
          (get wt q).bind fun w => addTo integral i (w * volume * val.val i * (elem e).det q)) integral) integral) ⟨nv, fun _ => 0⟩

/-- `Solver::integral_surface`, Solver.cpp:1133-1169. The integrand is evaluated on the faces after `compute_write_face`, whose effect
is not part of this model: `f c q` are the values that the integrand then returns at connection `c`. -/
noncomputable def integralSurface (b : Nodes ℝ) (u : Nat → ℝ) (nd nv : Nat) (cons : List Nat) (con : Nat → BoundCon) (f : Nat → Nat → Vec ℝ) (bc : Nat) :
    Option (Vec ℝ) :=
  if b.n = 0 then none
  else
    let nfq := MathFn.pow (K := Nat) b.n nd / b.n
    (weights b u (nd - 1)).bind fun wt =>
      cons.foldlM (fun (integral : Vec ℝ) c =>
        let area := MathFn.pow (con c).size ((nd : Int) - 1)
        if (con c).bc = bc then
          forLoop nfq (fun q (integral : Vec ℝ) =>
            let mag := √((List.range nd).foldl (fun a i => a + MathFn.pow ((con c).normal (i * nfq + q)) 2) 0)
            let val := f c q
            forLoop nv (fun i (integral : Vec ℝ) =>
              (get val i).bind fun x => (get wt q).bind fun w => addTo integral i (x * w * area * mag)) integral) integral
        else some integral) ⟨nv, fun _ => 0⟩

/-- `avg`, Element_func.cpp:36-53. Division by zero is the outcome `none`. -/
noncomputable def avg (b : Nodes ℝ) (u : Nat → ℝ) (nd nv : Nat) (el : Elem) (f : Nat → Vec ℝ) (pow : Int) : Option (Vec ℝ) :=
  (weights b u nd).bind fun wt =>
    (forLoop (MathFn.pow (K := Nat) b.n nd) (fun q (s : Vec ℝ × ℝ) =>
      (get wt q).bind fun w0 =>
        let w := w0 * el.det q
        (forLoop nv (fun i (result : Vec ℝ) => (get (f q) i).bind fun x => addTo result i (MathFn.pow x pow * w)) s.1).bind fun result =>
          some (result, s.2 + w)) (⟨nv, fun _ => 0⟩, 0)).bind fun s =>
      if s.2 = 0 then none else some ⟨s.1.size, fun i => s.1.val i / s.2⟩

/-- `Elem_average`, Element_func.cpp:55-58. -/
noncomputable def elemAverage (b : Nodes ℝ) (u : Nat → ℝ) (nd nv : Nat) (el : Elem) (f : Nat → Vec ℝ) : Option (Vec ℝ) := avg b u nd nv el f 1

/-- `Elem_l2`, Element_func.cpp:60-65. -/
noncomputable def elemL2 (b : Nodes ℝ) (u : Nat → ℝ) (nd nv : Nat) (el : Elem) (f : Nat → Vec ℝ) : Option (Vec ℝ) :=
  (avg b u nd nv el f 2).bind fun r => some ⟨r.size, fun i => √(r.val i)⟩

/-- `proj.dot(proj.cwiseProduct(weights))`: all sizes must agree. -/
noncomputable def weightedDot (proj wt : Vec ℝ) : Option ℝ :=
  if proj.size = wt.size then some (∑ k ∈ Finset.range proj.size, proj.val k * (proj.val k * wt.val k)) else none

/-- `Elem_nonsmooth`, Element_func.cpp:67-93, for one variable (the loop over variables treats each on its own) with the values `vals`
at the quadrature points. `dimension_matvec` receives a matrix with one row. -/
noncomputable def elemNonsmooth (b : Nodes ℝ) (u : Nat → ℝ) (nd : Nat) (vals : Nat → ℝ) : Option ℝ :=
  (weights b u (nd - 1)).bind fun wt =>
    (forLoop nd (fun i_dim (s : ℝ) =>
      (dimension ⟨1, b.n, fun _ k => ortho b (b.n - 1) k * b.weight k⟩ u ⟨MathFn.pow (K := Nat) b.n nd, vals⟩ i_dim).bind fun proj =>
        (weightedDot proj wt).bind fun d => some (s + d)) 0).bind fun s =>
      if nd = 0 then none else some (√(s / nd))

/-- `Normalized_nonsmooth`, Element_func.cpp:95-102, for one variable. Division by zero is the outcome `none`. -/
noncomputable def normalizedNonsmooth (b : Nodes ℝ) (u : Nat → ℝ) (nd : Nat) (el : Elem) (vals : Nat → ℝ) : Option ℝ :=
  (elemNonsmooth b u nd vals).bind fun n =>
    (elemL2 b u nd 1 el fun q => ⟨1, fun _ => vals q⟩).bind fun l =>
      if l.val 0 = 0 then none else some (n / l.val 0)

/-- `filter_limit`, filter_limit.cpp:8-29. `std::pow(decay_rate, total)` is the power (`pow(0, 0)` is 1). -/
noncomputable def filterLimit (b : Nodes ℝ) (u : Nat → ℝ) (nd : Nat) (data : Nat → ℝ) (decay : ℝ) : Option (Vec ℝ) :=
  let nq := MathFn.pow (K := Nat) b.n nd
  (hypercube ⟨b.n, b.n, fun i j => ortho b i j * b.weight j⟩ u (nd + 1) ⟨nq, data⟩).bind fun modes =>
    let norm := √(∑ k ∈ Finset.range modes.size, modes.val k ^ 2)
    (forLoop nq (fun i (modes : Vec ℝ) =>
      let total := (List.range nd).foldl (fun (t d : Nat) => t + i / MathFn.pow (K := Nat) b.n ((nd : Int) - 1 - (d : Int)) % b.n) 0
      let threshold := norm * decay ^ total
      (get modes i).bind fun x =>
        if |x| > threshold then some (⟨modes.size, Function.update modes.val i (x * (threshold / |x|))⟩ : Vec ℝ) else some modes) modes).bind fun modes =>
      hypercube ⟨b.n, b.n, fun i j => ortho b j i⟩ u (nd + 1) modes

/-- `Record`, Element_func.cpp:147: `double(bool(elem.record))`. -/
def recordFunc (record : Int) : Int := if record ≠ 0 then 1 else 0

/-- `v.normalized()` of Eigen: the vector itself if its norm is zero. -/
noncomputable def normalized (nd : Nat) (v : Nat → ℝ) : Nat → ℝ :=
  let z := ∑ i ∈ Finset.range nd, v i ^ 2
  if z > 0 then fun i => v i / √z else v

/-- `Equiangle_skewness`, Element_func.cpp:104-143, from the Jacobian matrices at the vertices: `jac v i j` is entry (i, j) at vertex
`v`. The extrapolation to the vertices is `hypercube_matvec` (C20) with the `boundary` matrix (C45). -/
noncomputable def skewness (nd : Nat) (jac : Nat → Nat → Nat → ℝ) : ℝ :=
  (List.range (2 ^ nd)).foldl (fun mx v =>
    (List.range nd).foldl (fun mx i =>
      (List.range' (i + 1) (nd - (i + 1))).foldl (fun mx j =>
        let angle := Real.arccos (∑ k ∈ Finset.range nd, normalized nd (fun k => jac v k i) k * normalized nd (fun k => jac v k j) k)
        max mx |2 * angle / Real.pi - 1|) mx) mx) 0

end Hexed.Stats
