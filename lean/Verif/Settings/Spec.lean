import Verif.Namespace.Spec

set_option autoImplicit false
set_option linter.unusedVariables false

/-! What the settings of a `Solver` are to be, without reference to the constructor. -/

namespace Hexed.Settings

open Hexed.Namespace

variable {D : Type}

/-- The user has given a value to the setting: in the namespace itself or in all of those it inherits from (and there
are such). -/
def Given (h : Heap D) (id : Nat) (n : String) : Prop :=
  (cell h id n).isSome ∨ (supersOf h id ≠ [] ∧ ∀ j ∈ supersOf h id, (cell h j n).isSome)

/-- The names of the settings that have a default. -/
def settingNames : List String :=
  ["max_safety", "max_time_step", "fix_admis_max_safety", "av_diff_ratio", "av_visc_mult", "av_unscaled_max",
   "av_advect_max_safety", "av_diff_max_safety", "buffer_dist", "n_cheby_flow", "n_cheby_av", "av_advect_iters",
   "av_diff_iters", "flow_iters", "use_filter", "local_time", "elementwise_art_visc",
   "elementwise_art_visc_diff_ratio", "working_dir"]

/-- The integer variables and the real variables that count the progress of the simulation. -/
def countNames : List String := ["fix_iters", "iteration"]
def realNames : List String := ["flow_time", "art_visc_residual", "wall_time"]

/-- The variable can be set to an integer / a real number: it does not exist, or is a stored value of a suitable
type. -/
def TakesInt (c : Option (Cell D)) : Prop :=
  c = none ∨ (∃ i, c = some (.val (.int i))) ∨ (∃ d, c = some (.val (.dbl d)))
def TakesReal (c : Option (Cell D)) : Prop := c = none ∨ (∃ d, c = some (.val (.dbl d)))

end Hexed.Settings
