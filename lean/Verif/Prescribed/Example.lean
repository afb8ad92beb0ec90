import Verif.Prescribed.Props
set_option autoImplicit false
set_option linter.unusedVariables false

/-!
# Cases that meet the hypotheses of C98
-/

namespace Hexed.Prescribed
noncomputable section

/-- An upper face of a two-dimensional element with three points. -/
def exFace : Face :=
  ⟨2, 4, 3, true, fun i => if i < 6 then 0 else (i : ℝ), fun i => i, fun _ => 0, fun _ => 0, fun _ => 7, fun i => if i < 3 then 1 / 2 else 0,
    fun i => i⟩

/-- Density and energy depend on the position; the momentum is zero. -/
def exFunc : Func := fun p _ _ _ => [0, 0, 1 + p.headD 0, 10 + p.getLastD 0]

/-- The same with a part that depends on the inside state. -/
def exExtrap : Func := fun p _ s _ => [0, 0, 1 + p.headD 0, s.getLastD 0]

/-- There are normals. -/
example : ∀ q < 3, IsNormal exFace q [-1, 0] := by
  intro q hq
  refine ⟨rfl, by norm_num, 2, by norm_num, ?_⟩
  intro i hi
  have : i = 0 ∨ i = 1 := by simp only [exFace] at hi; omega
  rcases this with rfl | rfl <;> simp [exFace, hq]

/-- `function_value` and `function_partial`: the function gives four numbers at every point, and neither time nor normal matters. -/
example : ∃ bf', (Bc.function exExtrap).applyState exFace = some bf' ∧ ∀ t, AsDocumented exExtrap exFace t bf'.ghState := by
  have hs := (function_defined exExtrap exFace).mpr (by intro q _; simp [exExtrap, exFace])
  obtain ⟨bf', h⟩ := Option.isSome_iff_exists.mp hs
  exact ⟨bf', h, function_partial exExtrap (by intros; rfl) exFace bf' h⟩

/-- Two boundary conditions. -/
def exBcs : Nat → Bc := fun sn => if sn = 0 then .cache exFunc else .copy

/-- Two connections. -/
def exSim : Sim := ⟨[⟨4, 0, exFace⟩, ⟨5, 1, exFace⟩], 0⟩

/-- What happens between: two stages, an adaptation that adds a connection and deletes another one, a time step. -/
def exPost : List Op :=
  [.stateBcs, .fluxBcs, .kernels (fun _ i => i * i) (fun _ i => 3 * i) (fun _ _ => 1) (fun _ _ => 2), .connect ⟨6, 0, exFace⟩,
   .disconnect (fun i => i == 5), .stateBcs, .advance 1]

/-- `cache_value` and `cache_partial`: the history runs, and connection 4 is there at the end. -/
example : ∃ s, run exBcs (.init (fun _ i => i) :: exPost ++ [.stateBcs]) exSim = some s ∧ (∀ op ∈ exPost, KeepsRecord 4 op ∧ KeepsPlace op) ∧
    ∃ c ∈ s.cons, c.id = 4 ∧ exBcs c.sn = .cache exFunc ∧ ∀ t, AsDocumented exFunc c.face t c.face.ghState := by
  have hp : ∀ op ∈ exPost, KeepsRecord 4 op ∧ KeepsPlace op := by
    intro op ho
    simp only [exPost, List.mem_cons, List.not_mem_nil, or_false] at ho
    rcases ho with rfl | rfl | rfl | rfl | rfl | rfl | rfl <;> simp [KeepsRecord, KeepsPlace]
  have hs := (evalTo_isSome exFunc { exFace with inState := fun i => i } exFace.cache).mpr (by intro q _; simp [exFunc, exFace])
  obtain ⟨g, h⟩ := Option.isSome_iff_exists.mp hs
  have hr : ∃ s, run exBcs (.init (fun _ i => i) :: exPost ++ [.stateBcs]) exSim = some s ∧ ∃ c ∈ s.cons, c.id = 4 ∧ c.sn = 0 := by
    simp [run, exPost, exec, overCons, exSim, exBcs, Bc.initCache, Bc.applyState, Bc.fluxStep, Bc.applyFlux, copyState, h]
  obtain ⟨s, h1, c, h2, h3, h4⟩ := hr
  have hb : exBcs c.sn = .cache exFunc := by rw [h4]; rfl
  exact ⟨s, h1, hp, c, h2, h3, hb, cache_partial exBcs exFunc (by intros; rfl) _ _ 4 hp exSim s h1 c h2 h3 hb⟩

/-- `every_connection` and `flux_mirrors`: the operations run. -/
example : (exec exBcs exSim .stateBcs).isSome ∧ (exec exBcs exSim .fluxBcs).isSome := by
  constructor <;> rfl

/-- `restart_refuted` can start from an empty boundary. -/
example : (⟨[], 3⟩ : Sim).cons = [] := rfl

end
end Hexed.Prescribed
