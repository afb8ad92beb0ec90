import Verif.Lookup.Spec
set_option autoImplicit false
set_option linter.unusedVariables false

/-!
C101: kernels of the requested dimension and row size.
-/

namespace Hexed.Lookup

/-- The chain finds every pair that is in it. -/
theorem get_found (M d r : Nat) (n s : Int) (hM : 2 ≤ M) (hd : 1 ≤ d) (hr : r ≤ M)
    (hn : 1 ≤ n) (hs : 2 ≤ s) (hsM : s ≤ M) (h : (n < d) ∨ (n = d ∧ s ≤ r)) :
    (((get M d r n s).1 : Nat) : Int) = n ∧ (((get M d r n s).2 : Nat) : Int) = s := by
  fun_induction get M d r n s with
  | case1 d r h1 h2 => omega
  | case2 d r h1 h2 h3 => omega
  | case3 d r h1 h2 h3 ih => exact ih (by omega) (by omega) (by omega)
  | case4 d r h1 h2 => exact ⟨h2.1.symm, h2.2.symm⟩
  | case5 d r h1 h2 ih => exact ih (by omega) (by omega) (by omega)

/-- The demand of a kernel gives exactly the instance of the requested dimension and row size, for every supported pair, however many row sizes are configured. -/
theorem kernel_exact (M : Nat) (n s : Int) (dim row : Nat) :
    kernelFactory M n s = .kernel dim row ↔ Supported M n s ∧ (dim : Int) = n ∧ (row : Int) = s := by
  unfold kernelFactory Supported
  split
  · rename_i h
    constructor
    · intro h'; cases h'
    · rintro ⟨⟨h1, h2, h3⟩, _⟩; omega
  · rename_i h
    have hg := get_found M 3 M n s (by omega) (by omega) (Nat.le_refl _) (by omega) (by omega) (by omega) (by omega)
    constructor
    · intro h'
      cases h'
      exact ⟨⟨by omega, by omega, by omega⟩, hg⟩
    · rintro ⟨_, h1, h2⟩
      have e1 : (get M 3 M n s).1 = dim := by omega
      have e2 : (get M 3 M n s).2 = row := by omega
      rw [e1, e2]

/-- Every other demand raises the exception. -/
theorem kernel_invalid (M : Nat) (n s : Int) : kernelFactory M n s = .invalid ↔ ¬ Supported M n s := by
  constructor
  · intro h hs
    have := (kernel_exact M n s n.toNat s.toNat).mpr ⟨hs, by have := hs.1; omega, by have := hs.2; omega⟩
    rw [h] at this
    cases this
  · intro h
    cases hk : kernelFactory M n s with
    | invalid => rfl
    | kernel dim row => exact absurd ((kernel_exact M n s dim row).mp hk).1 h

/-- A case creates a solver exactly if both variables are defined and supported, and then every kernel of the solver is found, with the dimension and row size of the case. -/
theorem case_supported (M : Nat) (n s : Option Int) (dim row : Int) :
    createSolver M n s = .solver dim row ↔ n = some dim ∧ s = some row ∧ Supported M dim row ∧
      kernelFactory M dim row = .kernel dim.toNat row.toNat := by
  have key : Supported M dim row → kernelFactory M dim row = .kernel dim.toNat row.toNat := by
    intro hs
    exact (kernel_exact M dim row _ _).mpr ⟨hs, by have := hs.1; omega, by have := hs.2; omega⟩
  unfold createSolver
  constructor
  · intro h
    split at h
    · cases h
    · rename_i n'
      split at h
      · split at h
        · cases h
        · rename_i s'
          split at h
          · cases h
            rename_i hd hr
            have hs : Supported M dim row := ⟨by omega, by omega, by omega⟩
            exact ⟨rfl, rfl, hs, key hs⟩
          · cases h
      · cases h
  · rintro ⟨rfl, rfl, hs, _⟩
    have h1 := hs.1
    have h2 := hs.2
    simp only
    rw [if_pos (by omega), if_pos (by omega)]

/-- A dimension that is not defined, or a row size that is not defined although the dimension is valid, creates no solver. -/
theorem case_undefined (M : Nat) (n s : Option Int) (h : n = none ∨ s = none) (dim row : Int) :
    createSolver M n s ≠ .solver dim row := by
  intro hc
  have := (case_supported M n s dim row).mp hc
  rcases h with rfl | rfl
  · cases this.1
  · cases this.2.1

/-! Concrete cases: the kernels of a configuration with row sizes up to 8. -/

example : Supported 8 3 6 := ⟨by omega, by omega, by omega⟩
example : kernelFactory 8 3 6 = .kernel 3 6 := (kernel_exact 8 3 6 3 6).mpr ⟨⟨by omega, by omega, by omega⟩, rfl, rfl⟩
example : kernelFactory 8 1 2 = .kernel 1 2 := (kernel_exact 8 1 2 1 2).mpr ⟨⟨by omega, by omega, by omega⟩, rfl, rfl⟩
example : kernelFactory 8 2 9 = .invalid := (kernel_invalid 8 2 9).mpr (by rintro ⟨_, _, h⟩; omega)
example : createSolver 8 (some 2) (some 6) = .solver 2 6 := by decide

end Hexed.Lookup
