import Verif.StateFile.Refute
set_option autoImplicit false
set_option linter.unusedVariables false

/-!
# C69: state files and restarting

A state file holds all numerical data of all elements, and reading it into a solver with the same mesh and parameters puts every value back where it was. Continuing from there is only the same as
not having stopped if the faces are recomputed from the state, which `read_state` does not do.
-/

namespace Hexed.StateFile
open Hexed.Spatial Hexed.Pde Hexed.Solver
open Hexed.Connection (Dir matchFaces restore strAt Legal)

/-! ## The file -/

/-- C69: `write_state` followed by `read_state` in a solver with as many elements and the same parameters succeeds, and every element then has all the numerical data the element with the same number
had, whatever was in its memory before. Nothing else is written. -/
theorem write_read_state {α : Type} (fill : α) (n_var n_qpoint : Nat) (elems elems' : List (Row α)) (hl : elems'.length = elems.length) :
    (readState (writeState fill n_var n_qpoint elems) n_var n_qpoint elems').2 = true ∧ (readState (writeState fill n_var n_qpoint elems) n_var n_qpoint elems').1.length = elems.length ∧
    ∀ (i : Nat) (row row' : Row α), elems[i]? = some row → elems'[i]? = some row' → ∃ r : Row α, (readState (writeState fill n_var n_qpoint elems) n_var n_qpoint elems').1[i]? = some r ∧
      (∀ v < n_var, ∀ q < n_qpoint, r v q = row v q) ∧ ∀ v q, ¬(v < n_var ∧ q < n_qpoint) → r v q = row' v q := by
  obtain ⟨s1, s2, s3, s4⟩ := writeState_spec fill n_var n_qpoint elems
  have hok : (readState (writeState fill n_var n_qpoint elems) n_var n_qpoint elems').2 = true := by
    rw [readState, readLoop_ok, s1, s2, s3]
    right; omega
  refine ⟨hok, by rw [readState, readLoop_length, hl], fun i row row' h h' => ⟨_, readLoop_get _ _ _ 0 elems' hok i row' h', ?_, ?_⟩⟩
  · intro v hv q hq
    rw [if_pos ⟨hv, hq⟩, Nat.zero_add, s4 i row h v hv q hq]
  · intro v q hvq
    rw [if_neg hvq]

/-- C69: `read_state` returns normally iff there are no elements or the file has at least as many elements, variables and quadrature points as the solver: a file of a larger mesh or of a solver with
more quadrature points is accepted without complaint, and the values are those the file has at the same indices. If it throws, no element that fits is left alone: those before the first that does
not fit have been overwritten, and the others are unchanged. -/
theorem read_outcome {α : Type} (f : DataSet α) (n_var n_qpoint : Nat) (elems : List (Row α)) :
    ((readState f n_var n_qpoint elems).2 = true ↔ elems = [] ∨ (elems.length ≤ f.n_elem ∧ n_var ≤ f.n_var ∧ n_qpoint ≤ f.n_qpoint)) ∧
    (readState f n_var n_qpoint elems).1.length = elems.length ∧
    ∀ (i : Nat) (row : Row α), elems[i]? = some row → ∃ r : Row α, (readState f n_var n_qpoint elems).1[i]? = some r ∧
      ∀ v q, r v q = if i < f.n_elem ∧ n_var ≤ f.n_var ∧ n_qpoint ≤ f.n_qpoint ∧ v < n_var ∧ q < n_qpoint then f.cell i v q else row v q := by
  refine ⟨by rw [readState, readLoop_ok, Nat.zero_add], by rw [readState, readLoop_length], fun i row h => ⟨_, readLoop_partial f n_var n_qpoint 0 elems i row h, fun v q => ?_⟩⟩
  have : (∀ k ≤ i, f.contains (0 + k) n_var n_qpoint = true) ↔ i < f.n_elem ∧ n_var ≤ f.n_var ∧ n_qpoint ≤ f.n_qpoint := by
    simp only [DataSet.contains, Bool.and_eq_true, decide_eq_true_eq]
    constructor
    · intro h
      have := h i le_rfl
      omega
    · intro h k hk
      omega
  simp only [this, and_assoc]
  rw [Nat.zero_add]

/-- Two elements with two variables at three points: the values come back in the right places. -/
example : (readState (writeState 0 2 3 [fun v q => 10 * v + q, fun v q => 100 + 10 * v + q]) 2 3 [fun _ _ => 7, fun _ _ => 7]).1.map (fun r => [r 0 2, r 1 0, r 1 2, r 2 0, r 0 3]) =
    [[2, 10, 12, 7, 7], [102, 110, 112, 7, 7]] := by decide

/-- A file with two elements read by a solver with three: it throws after overwriting two elements. -/
example : (readState (writeState 0 1 1 [fun _ _ => 1, fun _ _ => 2]) 1 1 [fun _ _ => 7, fun _ _ => 8, fun _ _ => 9]).2 = false ∧
    (readState (writeState 0 1 1 [fun _ _ => 1, fun _ _ => 2]) 1 1 [fun _ _ => 7, fun _ _ => 8, fun _ _ => 9]).1.map (fun r => r 0 0) = [1, 2, 9] := by decide

/-! ## Restarting -/

variable {bs : BasisData} {m : Mesh}

/-- The faces an initialised or advanced solver has are those its state gives. -/
theorem flow_fresh (hm : m.Ok bs) (hn : 0 < bs.n) (useLdg : Bool) (mu kappa : Transport) (sr : ℝ) (filter : Bool) (sbc fbc : World → World) : ∀ (dts : List ℝ) (x w : World),
    FEq (refresh mu kappa bs m x) x → flow useLdg mu kappa bs m sr filter sbc fbc dts x = some w → FEq (refresh mu kappa bs m w) w
  | [], x, w, h, hw => by
    cases Option.some.inj hw
    exact h
  | dt :: dts, x, w, h, hw => by
    rw [flow, List.foldlM_cons] at hw
    cases hx : flowStep useLdg mu kappa bs m sr dt filter sbc fbc x with
    | none => rw [hx] at hw; cases hw
    | some y =>
      rw [hx] at hw
      refine flow_fresh hm hn useLdg mu kappa sr filter sbc fbc dts y w ?_ hw
      simp only [flowStep] at hx
      obtain ⟨z, -, hz⟩ := Option.bind_eq_some_iff.1 hx
      exact convection_fresh hm hn mu kappa sr dt true filter _ y hz

/-- C69, as far as it holds: take a solver that has been initialised and advanced by any number of time steps (with or without viscosity), and write its state file. Take another solver with the same
mesh and parameters whose memory may hold anything, let it read the file, and recompute its faces from the state (`compute_write_face` and `compute_prolong`, as `initialize` does). If both are then
advanced by the same time steps, their data is the same.

Missing for the full claim: `read_state` does not recompute the faces; see `restart_refuted`. -/
theorem restart_partial (hm : m.Ok bs) (hn : 0 < bs.n) (useLdg : Bool) (mu kappa : Transport) (sr : ℝ) (filter : Bool) (rule : Rule) (flux_bc : World → World) (func : Nat → Nat → Nat → ℝ)
    (fill : ℝ) {off n_var : Nat} (ho : off ≤ n_var) (dts dts' : List ℝ) (mem w w0 : World)
    (hw : flow useLdg mu kappa bs m sr filter (runBc m.nd bs.n (m.nd + 2) false rule m.cons) flux_bc dts (initSolver mu kappa bs m func mem) = some w)
    (hs : SameElsewhere bs m off n_var w0 w) :
    ∃ wr, loadWorld (saveWorld fill off n_var (bs.n ^ m.nd) m w) off n_var (bs.n ^ m.nd) m w0 = some wr ∧ SameData m wr w ∧
      ∀ u, flow useLdg mu kappa bs m sr filter (runBc m.nd bs.n (m.nd + 2) false rule m.cons) flux_bc dts' w = some u →
        ∃ u', flow useLdg mu kappa bs m sr filter (runBc m.nd bs.n (m.nd + 2) false rule m.cons) flux_bc dts' (refresh mu kappa bs m wr) = some u' ∧ SameData m u' u := by
  obtain ⟨wr, hl, -⟩ := load_save hm.elems_nodup fill ho (bs.n ^ m.nd) w w0
  obtain ⟨e1, e2, e3⟩ := load_same hm.elems_nodup fill ho hs hl
  refine ⟨wr, hl, fun e _ => ⟨by rw [e1], by rw [e2]⟩, fun u hu => ?_⟩
  have hf : FEq (refresh mu kappa bs m w) w := flow_fresh hm hn useLdg mu kappa sr filter _ _ dts _ w (refresh_refresh hm hn mu kappa _) hw
  obtain ⟨r1, r2, -, -, -, r6⟩ := refresh_spec hm mu kappa wr
  have hb := refresh_congr hm hn mu kappa (w := wr) (w' := w) e1 (fun b a h => by rw [e3]; exact hs.face b false a h)
  have hbc : FEq (runBc m.nd bs.n (m.nd + 2) false rule m.cons (refresh mu kappa bs m wr)) (runBc m.nd bs.n (m.nd + 2) false rule m.cons w) :=
    bc_ghost hm hn rule (by rw [r1, e1]) (by rw [r2, e2]) (fun b a h => by rw [hb b a h, hf.buf])
  cases dts' with
  | nil =>
    cases Option.some.inj hu
    exact ⟨_, rfl, fun e _ => ⟨by rw [r1, e1], by rw [r2, e2]⟩⟩
  | cons dt dts' =>
    cases useLdg with
    | false =>
      obtain ⟨a, a', h1, h2, h3⟩ := step_feq (bs := bs) (m := m) rule mu kappa sr dt filter flux_bc hbc
      obtain ⟨b, b', k1, k2, k3⟩ := flow_feq (bs := bs) (m := m) rule mu kappa sr filter flux_bc dts' h3
      rw [flow, List.foldlM_cons, h2] at hu
      rw [flow] at k1 k2
      have : b' = u := Option.some.inj (k2.symm.trans hu)
      subst this
      refine ⟨b, ?_, fun e _ => ⟨by rw [k3.state], by rw [k3.cache]⟩⟩
      rw [flow, List.foldlM_cons, h1]; exact k1
    | true =>
      have hstep : flowStep true mu kappa bs m sr dt filter (runBc m.nd bs.n (m.nd + 2) false rule m.cons) flux_bc (refresh mu kappa bs m wr) =
          flowStep true mu kappa bs m sr dt filter (runBc m.nd bs.n (m.nd + 2) false rule m.cons) flux_bc w := by
        simp only [flowStep, if_true]
        rw [diffusion_ldg hm hn (ns m.nd true mu kappa) rfl rfl flux_bc sr dt false false filter hbc ?_]
        intro b a h
        have g : ∀ x : World, (runBc m.nd bs.n (m.nd + 2) false rule m.cons x).buf b true = x.buf b true := by
          intro x
          rw [runBc]
          generalize m.cons = l
          induction l generalizing x with
          | nil => rfl
          | cons c l ih =>
            rw [List.foldl_cons, ih]
            split
            · simp
            · rfl
        rw [g, g, r6, e3]
        exact hs.face b true a h
      refine ⟨u, ?_, fun e _ => ⟨rfl, rfl⟩⟩
      rw [flow, List.foldlM_cons] at hu ⊢
      rw [hstep]; exact hu

/-! ### Without recomputing faces -/

/-- Uniform initial state: momentum 1, mass 1, energy 3. -/
def exFunc : Nat → Nat → Nat → ℝ := fun _ v _ => if v = 2 then 3 else 1

/-- Faces as they are after `read_mesh`: the first variable holds the normal (which is 1), the others whatever was in memory. -/
noncomputable def exFaces : Nat → Nat → ℝ := fun f v => if v = 0 then 1 else if f = 0 then (if v = 1 then 5 / 6 else 13 / 5) else (if v = 1 then 5 / 7 else 11 / 5)

/-- The memory of the solver that reads the file. -/
noncomputable def exMem (w : World) : World where
  state e k := if e = 0 ∧ k.1 < 8 ∧ k.2 < 2 then 0 else w.state e k
  cache e k := if e = 0 ∧ k.1 < 4 ∧ k.2 < 2 then 0 else w.cache e k
  buf b l a := match b with
    | .elem 0 f => if f < 2 ∧ a < 3 ∧ l = false then exFaces f a else w.buf b l a
    | _ => w.buf b l a

theorem exMem_same (w : World) : SameElsewhere (ofNodes gauss2) exOne 8 12 (exMem w) w := by
  have h2 : (ofNodes gauss2).n = 2 := gauss2_two.n
  refine ⟨?_, ?_, ?_⟩
  · intro e v q h
    rw [h2] at h
    simp only [exMem]
    rw [if_neg]
    rintro ⟨rfl, h1, h3⟩
    exact h ⟨by decide, h1, h3⟩
  · intro e v q h
    rw [h2] at h
    simp only [exMem]
    rw [if_neg]
    rintro ⟨rfl, h1, h3⟩
    exact h ⟨by decide, h1, h3⟩
  · intro b ldg a h
    rw [h2] at h
    simp only [exMem]
    split
    · rename_i f
      rw [if_neg]
      rintro ⟨h1, h3, rfl⟩
      refine h ⟨?_, h3⟩
      interval_cases f <;> decide
    · rfl

theorem flux1_val (u : Nat → ℝ) : flux1 u 0 = u 0 * (u 0 / u 1) + 2 / 5 * (u 2 - u 0 * u 0 * (1 / 2 / u 1)) ∧ flux1 u 1 = u 0 ∧
    flux1 u 2 = (u 2 + 2 / 5 * (u 2 - u 0 * u 0 * (1 / 2 / u 1))) * (u 0 / u 1) := by
  simp [flux1, fluxConv, pressure, kinEner, sumN, heatRat]
  norm_num

/-- C69 fails: without the recomputation of the faces, which `read_state` leaves out although it is documented as a substitute for `initialize`, the first time step after the restart works with what
`read_mesh` left in the faces (the face normals, and memory that nothing has been written to). In an interval with a uniform flow and a copying boundary condition at both ends, which
stays as it is in the uninterrupted run, the energy changes in the first step. -/
theorem restart_refuted (mu kappa : Transport) (sr dt : ℝ) (hsr : sr ≠ 1) (hdt : dt ≠ 0) (fill : ℝ) (mem : World) (flux_bc : World → World) :
    ∃ w w0 wr u u', exOne.Ok (ofNodes gauss2) ∧ w = initSolver mu kappa (ofNodes gauss2) exOne exFunc mem ∧ SameElsewhere (ofNodes gauss2) exOne 8 12 w0 w ∧
      (∀ f < 2, w0.buf (.elem 0 f) false 0 = 1) ∧
      loadWorld (saveWorld fill 8 12 2 exOne w) 8 12 2 exOne w0 = some wr ∧ SameData exOne wr w ∧
      flow false mu kappa (ofNodes gauss2) exOne sr false (runBc 1 2 3 false copyRule exOne.cons) flux_bc [dt] w = some u ∧
      flow false mu kappa (ofNodes gauss2) exOne sr false (runBc 1 2 3 false copyRule exOne.cons) flux_bc [dt] wr = some u' ∧
      (∀ v < 3, ∀ q < 2, u.state 0 (v, q) = w.state 0 (v, q)) ∧ ∀ q < 2, u'.state 0 (2, q) ≠ u.state 0 (2, q) := by
  have g2 := gauss2_two
  have hn : (ofNodes gauss2).n = 2 := g2.n
  have hm := exOne_ok (ofNodes gauss2)
  set w := initSolver mu kappa (ofNodes gauss2) exOne exFunc mem with hw
  obtain ⟨r1, r2, r3, -, -, -⟩ := refresh_spec hm mu kappa
    { mem with state := fun e k => if e ∈ exOne.elems ∧ k.1 < exOne.nd + 2 ∧ k.2 < (ofNodes gauss2).n ^ exOne.nd then exFunc e k.1 k.2 else mem.state e k }
  have hst : ∀ v < 3, ∀ q < 2, w.state 0 (v, q) = exFunc 0 v 0 := by
    intro v hv q hq
    rw [hw, initSolver, r1]
    simp only
    rw [if_pos ⟨by decide, hv, by rw [hn]; exact hq⟩]
    rfl
  have hfa : ∀ f < 2, ∀ v < 3, w.buf (.elem 0 f) false v = exFunc 0 v 0 := by
    intro f hf v hv
    have h := r3 0 (by decide) f hf
    rw [hw, initSolver, h]
    refine even_face g2 mu kappa _ _ (fun v => exFunc 0 v 0) ?_ hf hv
    rw [← r1]
    exact hst
  obtain ⟨wr, hl, -⟩ := load_save hm.elems_nodup fill (show 8 ≤ 12 by decide) 2 w (exMem w)
  have hl' := hl
  rw [show 2 = (ofNodes gauss2).n ^ exOne.nd by rw [hn]; rfl] at hl'
  obtain ⟨e1, e2, e3⟩ := load_same hm.elems_nodup fill (by decide) (exMem_same w) hl'
  obtain ⟨u, hu, hu'⟩ := one_step g2 mu kappa sr dt flux_bc w (fun v => exFunc 0 v 0) (fun _ => 0) hst
    (fun v hv => by rw [add_zero]; exact flux1_congr (fun v hv => hfa 0 (by decide) v hv) hv) (fun v hv => by rw [sub_zero]; exact flux1_congr (fun v hv => hfa 1 (by decide) v hv) hv)
  have hx : ∀ f < 2, ∀ v < 3, wr.buf (.elem 0 f) false v = exFaces f v := by
    intro f hf v hv
    rw [e3]
    simp only [exMem]
    simp [hf, hv]
  have fu := flux1_val (fun v => exFunc 0 v 0)
  have f0 := flux1_val (exFaces 0)
  have f1 := flux1_val (exFaces 1)
  simp only [exFunc, exFaces] at fu f0 f1
  norm_num at fu f0 f1
  obtain ⟨u', hr, hr'⟩ := one_step g2 mu kappa sr dt flux_bc wr (fun v => exFunc 0 v 0) (fun v => if v = 2 then 2 / 25 else 0) (by rw [e1]; exact hst)
    (fun v hv => by
      rw [flux1_congr (u' := exFaces 0) (fun v hv => hx 0 (by decide) v hv) hv]
      interval_cases v <;> simp [exFunc, exFaces, fu, f0]
      all_goals norm_num)
    (fun v hv => by
      rw [flux1_congr (u' := exFaces 1) (fun v hv => hx 1 (by decide) v hv) hv]
      interval_cases v <;> simp [exFunc, exFaces, fu, f1]
      all_goals norm_num)
  rw [hn] at hu hr
  refine ⟨w, exMem w, wr, u, u', hm, rfl, exMem_same w, ?_, hl, fun e _ => ⟨by rw [e1], by rw [e2]⟩, ?_, ?_, ?_, ?_⟩
  · intro f hf
    simp [exMem, exFaces]
    omega
  · rw [flow, List.foldlM_cons, hu]; rfl
  · rw [flow, List.foldlM_cons, hr]; rfl
  · intro v hv q hq
    rw [hu' v hv q hq, hst v hv q hq]; simp
  · intro q hq
    rw [hu' 2 (by decide) q hq, hr' 2 (by decide) q hq]
    simp only [if_true, mul_zero, add_zero]
    intro h
    have : (1 - sr) * dt = 0 := by linarith
    rcases mul_eq_zero.1 this with h | h
    · exact hsr (by linarith)
    · exact hdt h

/-- The hypotheses of `restart_partial` are met by that example (whatever the memory of the second solver holds), so with the faces recomputed the restarted run stays as it is, too. -/
example (mu kappa : Transport) (sr dt : ℝ) (mem : World) (flux_bc : World → World) :
    let w := initSolver mu kappa (ofNodes gauss2) exOne exFunc mem
    SameElsewhere (ofNodes gauss2) exOne 8 12 (exMem w) w ∧
    flow false mu kappa (ofNodes gauss2) exOne sr false (runBc 1 2 3 false copyRule exOne.cons) flux_bc [] w = some w ∧ exMem w ≠ w := by
  intro w
  refine ⟨exMem_same w, rfl, fun h => ?_⟩
  obtain ⟨r1, -⟩ := refresh_spec (exOne_ok (ofNodes gauss2)) mu kappa
    { mem with state := fun e k => if e ∈ exOne.elems ∧ k.1 < exOne.nd + 2 ∧ k.2 < (ofNodes gauss2).n ^ exOne.nd then exFunc e k.1 k.2 else mem.state e k }
  have hst : w.state 0 (0, 0) = 1 := by
    show (initSolver mu kappa (ofNodes gauss2) exOne exFunc mem).state 0 (0, 0) = 1
    rw [initSolver, r1]
    simp only
    rw [if_pos ⟨by decide, by decide, by rw [gauss2_two.n]; decide⟩]
    simp [exFunc]
  have : (exMem w).state 0 (0, 0) = 0 := by simp [exMem]
  rw [h, hst] at this
  exact one_ne_zero this

end Hexed.StateFile
