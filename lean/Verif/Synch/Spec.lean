import Verif.Synch.Model
set_option autoImplicit false
set_option linter.unusedVariables false

/-! # What the data passed to the inside is meant to be -/

namespace Hexed.Synch

/-- `x` is reached from `y` by going through `n` connections from the outside to the inside: `y` is in the `n`-th layer on top of `x`. -/
inductive Layered (cons : List Con) (y : Nat) : Nat → Nat → Prop
  | here : Layered cons y y 0
  | next {x n} {c : Con} : Layered cons y x n → c ∈ cons → c.outer = x → Layered cons y c.inner (n + 1)

/-- Every pass executes every iteration to its end: two reads and, maybe, a write. -/
def Fair (cons : List Con) (sched : Nat → List Nat) : Prop := ∀ k i, i < cons.length → 3 ≤ (sched k).count i

/-- What has to be known about comparisons: they are made with an order that is irreflexive and transitive. NaN is greater and less than
nothing. -/
structure Comparison {V : Type} (gt : V → V → Bool) (lt : V → V → Prop) : Prop where
  irrefl : ∀ a, ¬ lt a a
  trans : ∀ a b c, lt a b → lt b c → lt a c
  gt_lt : ∀ a b, gt a b = true → lt b a

end Hexed.Synch
