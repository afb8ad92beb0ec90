import Verif.Stats.Model
import Verif.RowIndex.Model
import Verif.Share.Model
import Mathlib.Analysis.SpecialFunctions.Log.Basic
set_option autoImplicit false
set_option linter.unusedVariables false

/-!
# Model of artificial viscosity set element by element (src/stabilizing_art_visc.cpp, src/Solver.cpp)

`double` is a real number or NaN. Rounding and overflow are not modelled; an infinite density is not modelled. Reading beyond the end of an array is the outcome `none`.
-/

namespace Hexed.Visc
open Hexed.Tensor Hexed.Basis Hexed.Stats
open Hexed.RowIndex (RowIndex rows)

/-- `std::log(x)/std::log(10)`: logarithms of negative numbers are NaN, the logarithm of zero is -infinity. -/
inductive Lg
  | nan
  | negInf
  | fin (x : ℝ)

/-- `std::log(x)/std::log(10)`, stabilizing_art_visc.cpp:51; `none` is NaN. -/
noncomputable def log10 (x : Option ℝ) : Lg :=
  x.elim .nan fun x => if x < 0 then .nan else if x = 0 then .negInf else .fin (Real.log x / Real.log 10)

/-- `_ramp_center`, stabilizing_art_visc.cpp:23, for row sizes of at least 2. -/
noncomputable def rampCenter (row_size : Nat) : ℝ := -4.25 * Real.log ((row_size : ℝ) - 1) / Real.log 10

/-- The ramp, stabilizing_art_visc.cpp:52-54. Comparisons with NaN are false. -/
noncomputable def ramp (center half_width : ℝ) : Lg → ℝ
  | .nan => 1
  | .negInf => 0
  | .fin x => if x ≤ center - half_width then 0 else if x < center + half_width then 0.5 * (1 + Real.sin (Real.pi * (x - center) / 2 / half_width)) else 1

/-- `norm_sq += indicator_var[i_qpoint]*indicator_var[i_qpoint]*_qpoint_weights(i_qpoint)`, stabilizing_art_visc.cpp:39-42. -/
noncomputable def normStep (var : Nat → ℝ) (qw : Vec ℝ) (q : Nat) (s : ℝ) : Option ℝ := (get qw q).bind fun w => some (s + var q * var q * w)

/-- `nonsmooth += math::pow(row.dot(_proj), 2)*_face_weights(ind.i_face_qpoint())`, stabilizing_art_visc.cpp:27, 47-48. -/
noncomputable def rowStep (b : Nodes ℝ) (var : Nat → ℝ) (fw : Vec ℝ) (s : ℝ) (ind : RowIndex) : Option ℝ :=
  (get fw ind.i_face_qpoint).bind fun w => some (s + MathFn.pow (∑ k ∈ Finset.range b.n, var (ind.i_qpoint k) * (ortho b (b.n - 1) k * b.weight k)) 2 * w)

/-- The nonsmoothness indicator of one element, stabilizing_art_visc.cpp:19-50. `rho q` is `state[n_dim*n_qpoint + q]`, with `none` for NaN; `some none` is the result NaN. NaN propagates through all operations and
every entry takes part in `norm_sq`; with a density of zero `norm_sq` is infinite, and so is each sum over a row that has it, or NaN: the quotient is NaN. If `norm_sq` is zero then the quotient is NaN or infinite, which
makes no difference to what follows. -/
noncomputable def nonsmooth (b : Nodes ℝ) (u : Nat → ℝ) (nd : Nat) (rho : Nat → Option ℝ) : Option (Option ℝ) :=
  (weights b u nd).bind fun qw => (weights b u (nd - 1)).bind fun fw =>
    open Classical in
    if ∀ q < MathFn.pow (K := Nat) b.n nd, rho q ≠ none ∧ rho q ≠ some 0 then
      let var := fun q => 1 / (rho q).getD 0
      (forLoop (MathFn.pow (K := Nat) b.n nd) (normStep var qw) 0).bind fun norm_sq =>
        ((List.range nd).foldlM (fun s i_dim => (rows (RowIndex.new nd b.n i_dim)).foldlM (rowStep b var fw) s) 0).bind fun s =>
          some (if norm_sq * nd = 0 then none else some (s / (norm_sq * nd)))
    else some none

/-- The kernel `Stab_art_visc` for one element, stabilizing_art_visc.cpp:31-58: the new `uncert()`. -/
noncomputable def stabilizing (b : Nodes ℝ) (u : Nat → ℝ) (nd : Nat) (char_speed size : ℝ) (rho : Nat → Option ℝ) : Option ℝ :=
  (nonsmooth b u nd rho).bind fun x => some (((b.n : ℝ) - 1) * char_speed * size * ramp (rampCenter b.n) 0.5 (log10 x))

/-- `Gauss_lobatto(2)`: the nodes are the ends of the unit interval. -/
noncomputable def lobatto2 : Nodes ℝ := ⟨2, fun i => i, fun _ => 1 / 2⟩

/-- `math::hypercube_matvec(interp, vert_av)` with `interp = Gauss_lobatto(2).interpolate(basis.nodes())`, Solver.cpp:647-655. -/
noncomputable def toQpoints (b : Nodes ℝ) (u : Nat → ℝ) (nd : Nat) (vert : Nat → ℝ) : Option (Vec ℝ) :=
  hypercube ⟨b.n, 2, fun i j => interpolateCpp lobatto2 (b.node i) j⟩ u (nd + 1) ⟨2 ^ nd, vert⟩

/-- Sharing of a value per element and interpolation to the quadrature points, Solver.cpp:643-655 and 620-632: the new `laplacian_av_coef()` of each element. -/
noncomputable def shareToQpoints (b : Nodes ℝ) (u : Nat → ℝ) (m : Share.Mesh) (order : Nat → List (Nat × Nat)) (uncert : Nat → ℝ) (old : Nat → Nat → ℝ) : Option (Nat → Option (Vec ℝ)) :=
  (Share.shareVertexData m order u Share.vectorMax (fun e _ => uncert e) old).bind fun val => some fun e => toQpoints b u m.nd (val e)

/-- `Solver::set_art_visc_admis`, Solver.cpp:636-658. `speed`, `sound` are `freestream_speed` and `freestream_sound_speed`; `size e` is the nominal size of element `e`, `rho e` its density, `old` what `vertex_elwise_av` contained. -/
noncomputable def setArtViscAdmis (b : Nodes ℝ) (u : Nat → ℝ) (m : Share.Mesh) (order : Nat → List (Nat × Nat)) (speed sound : ℝ) (size : Nat → ℝ) (rho : Nat → Nat → Option ℝ) (old : Nat → Nat → ℝ) :
    Option (Nat → Option (Vec ℝ)) :=
  open Classical in
  if ∀ e < m.ne, (stabilizing b u m.nd (speed + sound) (size e) (rho e)).isSome then
    shareToQpoints b u m order (fun e => (stabilizing b u m.nd (speed + sound) (size e) (rho e)).getD 0) old
  else none

/-- The ramp of `update_art_visc_elwise`, Solver.cpp:593-601: here NaN gives zero. -/
noncomputable def elwiseRamp (center half_width : ℝ) : Lg → ℝ
  | .nan => 0
  | .negInf => 0
  | .fin x => if ¬ (x > center - half_width) then 0 else if x ≥ center + half_width then 1 else 0.5 * (1 + Real.sin (Real.pi * (x - center) / 2 / half_width))

/-- `2*std::log(u)/std::log(10)`, Solver.cpp:594. -/
noncomputable def twice : Lg → Lg
  | .nan => .nan
  | .negInf => .negInf
  | .fin x => .fin (2 * x)

/-- `ramp_center` of `update_art_visc_elwise`, Solver.cpp:595. -/
noncomputable def elwiseCenter (row_size : Nat) : ℝ := -4 - 4.25 * Real.log ((row_size : ℝ) - 1) / Real.log 10

/-- The uncertainty of one element in `update_art_visc_elwise`, Solver.cpp:590-601, from the indicator `ind` that `set_uncertainty` computed (`none` is NaN). -/
noncomputable def elwise (row_size : Nat) (width speed sound : ℝ) (ind : Option ℝ) : ℝ :=
  elwiseRamp (elwiseCenter row_size) 0.5 (twice (log10 ind)) * (width / ((row_size : ℝ) - 1) * (speed + sound))

/-- `Solver::update_art_visc_elwise` with `pde_based = false`, Solver.cpp:587-633. -/
noncomputable def updateArtViscElwise (b : Nodes ℝ) (u : Nat → ℝ) (m : Share.Mesh) (order : Nat → List (Nat × Nat)) (width speed sound : ℝ) (ind : Nat → Option ℝ) (old : Nat → Nat → ℝ) : Option (Nat → Option (Vec ℝ)) :=
  shareToQpoints b u m order (fun e => elwise b.n width speed sound (ind e)) old

/-- `double scale = sqrt(2*state[nd*nq + i_qpoint]*state[(nd + 1)*nq + i_qpoint])`, Solver.cpp:473 and 570; the square root of a negative number is NaN (`none`). -/
noncomputable def momentumScale (mass energy : ℝ) : Option ℝ := if 2 * mass * energy < 0 then none else some (√(2 * mass * energy))

/-- `state[i_dim*nq + i_qpoint] /= scale`, Solver.cpp:472-476: a quotient by zero is NaN or infinite (`none`). -/
noncomputable def scaleMomentum (mass energy x : ℝ) : Option ℝ := (momentumScale mass energy).bind fun s => if s = 0 then none else some (x / s)

/-- `state[i_dim*nq + i_qpoint] *= scale`, Solver.cpp:569-573. What is done in between does not write `state()`. -/
noncomputable def restoreMomentum (mass energy x : ℝ) : Option ℝ := (momentumScale mass energy).bind fun s => some (x * s)

/-- `new_av`, Solver.cpp:564-565: from the smoothed forcing `f`, with `mult = av_visc_mult*advect_length`. A quotient by zero is infinite or NaN (`none`). -/
noncomputable def newAv (us_max mult f : ℝ) : Option ℝ := if us_max + mult * f = 0 then none else some (us_max * (mult * f) / (us_max + mult * f))

end Hexed.Visc
