import Mathlib.Analysis.SpecialFunctions.Pow.Real
set_option autoImplicit false
set_option linter.unusedVariables false

/-!
# Model of History_monitor (src/History_monitor.cpp)

Numbers are real; `huge` is a number. A `while` loop takes a bound on its number of turns; it gives `none` if that is not enough, so a loop
that does not end gives `none` for every bound. Division of an integer by zero (`max_samples` = 0) also gives `none`.
-/

namespace Hexed.History
noncomputable section

/-- The data members, History_monitor.hpp:18-26. -/
structure Monitor where
  samples : Nat
  start : Nat
  sz : Int
  iterations : Nat → Int
  values : Nat → ℝ
  win_sz : ℝ
  add_threshold : ℝ
  min : ℝ
  max : ℝ

/-- The constructor, History_monitor.cpp:7-11. -/
def Monitor.new (huge window_size : ℝ) (max_samples : Nat) : Monitor :=
  ⟨max_samples, 0, 0, fun _ => 0, fun _ => 0, window_size, 1, -huge, huge⟩

/-- The loop that forgets old samples, History_monitor.cpp:20-23. -/
def forget : Nat → Int → Monitor → Option Monitor
  | 0, _, _ => none
  | fuel + 1, iteration, m =>
    if m.sz > m.samples ∨ (m.iterations m.start : ℝ) < iteration * (1 - m.win_sz) then
      forget fuel iteration { m with start := (m.start + 1) % m.samples, sz := m.sz - 1 }
    else some m

/-- The loop that computes the bounds, History_monitor.cpp:24-30. -/
def bounds (huge : ℝ) (m : Monitor) : Monitor :=
  (List.range m.sz.toNat).foldl (fun m offset =>
    let ind := (m.start + offset) % m.samples
    { m with min := Min.min m.min (m.values ind), max := Max.max m.max (m.values ind) }) { m with min := huge, max := -huge }

/-- The loop that raises the threshold, History_monitor.cpp:31. -/
def raise : Nat → Int → Monitor → Option Monitor
  | 0, _, _ => none
  | fuel + 1, iteration, m =>
    if m.add_threshold ≤ iteration then
      raise fuel iteration { m with add_threshold := m.add_threshold * (1 / (1 - m.win_sz)) ^ (1 / (m.samples : ℝ)) }
    else some m

/-- `add_sample`, History_monitor.cpp:13-32. -/
def addSample (huge : ℝ) (fuel : Nat) (m : Monitor) (iteration : Int) (value : ℝ) : Option Monitor :=
  if m.sz ≠ 0 ∧ (iteration : ℝ) < m.add_threshold then some m
  else if m.samples = 0 then none
  else
    let fin := (m.start + m.sz.toNat) % m.samples
    let m := { m with iterations := fun i => if i = fin then iteration else m.iterations i
                      values := fun i => if i = fin then value else m.values i
                      sz := m.sz + 1 }
    (forget fuel iteration m).bind fun m => raise fuel iteration (bounds huge m)

/-- A sequence of calls of `add_sample` on a new monitor. -/
def run (huge : ℝ) (fuel : Nat) (window_size : ℝ) (max_samples : Nat) (h : List (Int × ℝ)) : Option Monitor :=
  h.foldlM (fun m s => addSample huge fuel m s.1 s.2) (Monitor.new huge window_size max_samples)

end
end Hexed.History
