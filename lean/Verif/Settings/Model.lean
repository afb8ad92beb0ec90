import Verif.Namespace.Model

set_option autoImplicit false
set_option linter.unusedVariables false

/-!
Model of the settings that the constructor of `Solver` puts in the namespace it is given (Solver.cpp:152-175), in
terms of the model of `Namespace`. Not modelled: the other members that the constructor initializes.
-/

namespace Hexed.Settings

open Hexed.Namespace

variable {D : Type}

/-- The arguments of `assign_default` (Solver.cpp:152-170), in order. `lit` is the value of a decimal literal,
`huge` the constant of that name (constants.hpp), `sqrtDim` is `std::sqrt(params.n_dim)`, `mul` the product of two
`double`s. -/
def defaults (lit : Rat → D) (mul : D → D → D) (huge sqrtDim : D) (localTime : Bool) : List (String × Val D) :=
  [("max_safety", .dbl (lit (7 / 10))),
   ("max_time_step", .dbl huge),
   ("fix_admis_max_safety", .dbl (lit (7 / 10))),
   ("av_diff_ratio", .dbl (lit (3 / 10))),
   ("av_visc_mult", .dbl (lit 100)),
   ("av_unscaled_max", .dbl (lit 5)),
   ("av_advect_max_safety", .dbl (lit (7 / 10))),
   ("av_diff_max_safety", .dbl (lit (7 / 10))),
   ("buffer_dist", .dbl (mul (lit (8 / 10)) sqrtDim)),
   ("n_cheby_flow", .int 1),
   ("n_cheby_av", .int 1),
   ("av_advect_iters", .int 1),
   ("av_diff_iters", .int 1),
   ("flow_iters", .int 1),
   ("use_filter", .int 0),
   ("local_time", .int (if localTime then 1 else 0)),
   ("elementwise_art_visc", .int 0),
   ("elementwise_art_visc_diff_ratio", .dbl (lit 5)),
   ("working_dir", .str ".")]

/-- The arguments of `assign` (Solver.cpp:171-175), in order. -/
def progress (lit : Rat → D) : List (String × Val D) :=
  [("fix_iters", .int 0),
   ("iteration", .int 0),
   ("flow_time", .dbl (lit 0)),
   ("art_visc_residual", .dbl (lit 0)),
   ("wall_time", .dbl (lit 0))]

/-- Statements in a row: the first exception ends them (and the constructor). -/
def runAll (ofInt : Int → D) (h : Heap D) : List (Op D) → Outcome D
  | [] => .ok h
  | op :: ops =>
    match step ofInt h op with
    | .ok h' => runAll ofInt h' ops
    | .throws => .throws

/-- `Solver::Solver` (Solver.cpp:152-175) on the namespace `id`. -/
def construct (ofInt : Int → D) (lit : Rat → D) (mul : D → D → D) (huge sqrtDim : D) (localTime : Bool) (h : Heap D)
    (id : Nat) : Outcome D :=
  runAll ofInt h
    ((defaults lit mul huge sqrtDim localTime).map (fun p => .assignDefault id p.1 p.2)
      ++ (progress lit).map (fun p => .assign id p.1 p.2))

end Hexed.Settings
