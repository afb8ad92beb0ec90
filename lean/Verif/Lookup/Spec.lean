import Verif.Lookup.Model
set_option autoImplicit false
set_option linter.unusedVariables false

namespace Hexed.Lookup

/-- The dimensions and row sizes that are documented (kernel_factory.hpp:106-109). -/
def Supported (M : Nat) (n s : Int) : Prop := (n = 1 ∨ n = 2 ∨ n = 3) ∧ 1 < s ∧ s ≤ M

end Hexed.Lookup
