import Verif.TimeStep.Lemmas
set_option autoImplicit false
set_option linter.unusedVariables false

/-! # Properties of the choice of the time step -/

namespace Hexed.TimeStep
open Hexed.Pde (charSpeed diffusivity fetchState Transport)
open Polynomial (eval)

variable {b : Basis} {n_dim : Nat} {pde : Terms}

/-- C67: interpolation is multilinear, and never leaves the range of the values inside the cube. -/
theorem interp_multilinear (n : Nat) (values x : Nat → ℝ) :
    interp n values x = nLinear n values x ∧
      ∀ lo hi : ℝ, (∀ i < 2 ^ n, lo ≤ values i ∧ values i ≤ hi) → (∀ k < n, 0 ≤ x k ∧ x k ≤ 1) →
        lo ≤ interp n values x ∧ interp n values x ≤ hi := by
  refine ⟨interp_eq n values x, fun lo hi h hx => ?_⟩
  rw [interp_eq]
  exact nLinear_bounds n values x lo hi (fun i hi => (h i hi).1) (fun i hi => (h i hi).2) hx

example : interp 2 (fun i => [10, 20, 30, 60].getD i 0) (fun _ => 1 / 2) = 30 := by
  rw [interp_eq]
  simp [nLinear, Finset.sum_range_succ, Finset.prod_range_succ, Nat.testBit]
  norm_num

theorem mem_maxDt {l : Bool} {sc sd : ℝ} {m : Mesh} {e : Elem} (h : e ∈ (maxDt b n_dim pde l sc sd m).1.elems) :
    ∃ e' ∈ m.elems, e = withTss b n_dim pde l sc sd e' := by
  rw [maxDt_elems, Mesh.elems, ← List.map_append] at h
  obtain ⟨e', he', rfl⟩ := List.mem_map.1 h
  exact ⟨e', he', rfl⟩

theorem maxDt_mem {l : Bool} {sc sd : ℝ} {m : Mesh} {e : Elem} (h : e ∈ m.elems) :
    withTss b n_dim pde l sc sd e ∈ (maxDt b n_dim pde l sc sd m).1.elems := by
  rw [maxDt_elems, Mesh.elems, ← List.map_append]
  exact List.mem_map_of_mem h

theorem same_flow (l : Bool) (sc sd : ℝ) (m : Mesh) :
    List.Forall₂ SameFlow m.elems (maxDt b n_dim pde l sc sd m).1.elems := by
  rw [maxDt_elems, Mesh.elems, Mesh.elems, ← List.map_append]
  generalize m.car_elems ++ m.def_elems = es
  induction es with
  | nil => exact .nil
  | cons e es ih => exact .cons ⟨rfl, rfl⟩ ih

/-- C67: with one time step for the whole mesh, the limit respects the convective and diffusive limits at every point, and
is the largest that does (or the largest number there is). -/
theorem max_dt_global (hb : b.Good) (sc sd : ℝ) (hsc : 0 < sc) (hsd : 0 < sd) (m : Mesh) (hr : Ready b n_dim pde m.elems) :
    let r := maxDt b n_dim pde false sc sd m
    List.Forall₂ SameFlow m.elems r.1.elems ∧ 0 < r.2 ∧
      (∀ e ∈ r.1.elems, ∀ q < b.row_size ^ n_dim,
        e.tss q = 1 ∧ convective b n_dim pde e q r.2 / sc + diffusive b n_dim pde e q r.2 / sd ≤ 1) ∧
      (r.2 = dblMax ∨ ∃ e ∈ r.1.elems, ∃ q < b.row_size ^ n_dim,
        convective b n_dim pde e q r.2 / sc + diffusive b n_dim pde e q r.2 / sd = 1) := by
  intro r
  have hg := maxDt_global (b := b) (n_dim := n_dim) (pde := pde) sc sd m
  refine ⟨same_flow false sc sd m, ?_, ?_, ?_⟩
  · rcases hg.2.1 with h | ⟨e, he, q, hq, h⟩
    · show 0 < (maxDt b n_dim pde false sc sd m).2
      rw [h]; unfold dblMax; norm_num
    · show 0 < (maxDt b n_dim pde false sc sd m).2
      rw [h]; exact one_div_pos.2 (scale_pos hb hr he hq hsc hsd)
  · intro e he q hq
    obtain ⟨e', he', rfl⟩ := mem_maxDt he
    refine ⟨by simp [withTss, hq], ?_⟩
    have h1 := hg.1 e' he' q hq
    have hp := scale_pos hb hr he' hq hsc hsd
    rw [le_div_iff₀ hp, scaleAt_eq hb] at h1
    have e1 : convective b n_dim pde (withTss b n_dim pde false sc sd e') q r.2 = r.2 * convective b n_dim pde e' q 1 := convective_mul _ _ _
    have e2 : diffusive b n_dim pde (withTss b n_dim pde false sc sd e') q r.2 = r.2 * diffusive b n_dim pde e' q 1 := diffusive_mul _ _ _
    rw [e1, e2, mul_div_assoc, mul_div_assoc, ← mul_add]
    exact h1
  · rcases hg.2.1 with h | ⟨e, he, q, hq, h⟩
    · exact .inl h
    · refine .inr ⟨_, maxDt_mem he, q, hq, ?_⟩
      have hp := scale_pos hb hr he hq hsc hsd
      rw [eq_div_iff hp.ne', scaleAt_eq hb] at h
      have e1 : convective b n_dim pde (withTss b n_dim pde false sc sd e) q r.2 = r.2 * convective b n_dim pde e q 1 := convective_mul _ _ _
      have e2 : diffusive b n_dim pde (withTss b n_dim pde false sc sd e) q r.2 = r.2 * diffusive b n_dim pde e q 1 := diffusive_mul _ _ _
      rw [e1, e2, mul_div_assoc, mul_div_assoc, ← mul_add]
      exact h

/-- C67: with local time steps, the scale of every point is exactly its own limit and the common factor is one. -/
theorem max_dt_local (hb : b.Good) (sc sd : ℝ) (hsc : 0 < sc) (hsd : 0 < sd) (m : Mesh) (hr : Ready b n_dim pde m.elems) :
    let r := maxDt b n_dim pde true sc sd m
    List.Forall₂ SameFlow m.elems r.1.elems ∧ r.2 = 1 ∧
      ∀ e ∈ r.1.elems, ∀ q < b.row_size ^ n_dim, 0 < e.tss q ∧
        convective b n_dim pde e q (e.tss q) / sc + diffusive b n_dim pde e q (e.tss q) / sd = 1 := by
  intro r
  refine ⟨same_flow true sc sd m, maxDt_local sc sd m, ?_⟩
  intro e he q hq
  obtain ⟨e', he', rfl⟩ := mem_maxDt he
  have hp := scale_pos hb hr he' hq hsc hsd
  have ht : (withTss b n_dim pde true sc sd e').tss q = 1 / scaleAt b n_dim pde sc sd e' q := by simp [withTss, hq]
  rw [ht]
  refine ⟨one_div_pos.2 hp, ?_⟩
  generalize hs : scaleAt b n_dim pde sc sd e' q = s at *
  have e1 : convective b n_dim pde (withTss b n_dim pde true sc sd e') q (1 / s) = 1 / s * convective b n_dim pde e' q 1 := convective_mul _ _ _
  have e2 : diffusive b n_dim pde (withTss b n_dim pde true sc sd e') q (1 / s) = 1 / s * diffusive b n_dim pde e' q 1 := diffusive_mul _ _ _
  rw [e1, e2, mul_div_assoc, mul_div_assoc, ← mul_add, ← scaleAt_eq hb, hs]
  exact one_div_mul_cancel hp.ne'

/-- C67: `n` Chebyshev steps together cover `n²` nominal steps, and multiply an error that one nominal step would multiply
by `1 - z` by the value of the Chebyshev polynomial at `1 - z`: it does not grow as long as a single nominal step is stable. -/
theorem chebyshev_stable (n : Nat) :
    (∀ i < n, 0 < chebyshevStep n i) ∧ ∑ i ∈ Finset.range n, chebyshevStep n i = n ^ 2 ∧
      ∀ z : ℝ, ∏ i ∈ Finset.range n, (1 - chebyshevStep n i * z) = eval (1 - z) (Polynomial.Chebyshev.T ℝ n) ∧
        (|1 - z| ≤ 1 → |∏ i ∈ Finset.range n, (1 - chebyshevStep n i * z)| ≤ 1) := by
  refine ⟨fun i hi => cheby_pos hi, cheby_sum n, fun z => ⟨cheby_prod n z, fun h => ?_⟩⟩
  rw [cheby_prod]
  exact Polynomial.Chebyshev.abs_eval_T_real_le_one n h

/-! ## `Solver::update` -/

/-- Time within which both limits hold with the given safety factors. -/
theorem nominal_le (hb : b.Good) (l : Bool) {sc sd ts : ℝ} (hsc : 0 < sc) (hsd : 0 < sd) (hts : 0 < ts) {m : Mesh}
    (hr : Ready b n_dim pde m.elems) {e : Elem} (he : e ∈ (maxDt b n_dim pde l sc sd m).1.elems) {q : Nat}
    (hq : q < b.row_size ^ n_dim) :
    let nominal := min (maxDt b n_dim pde l sc sd m).2 ts
    0 < nominal ∧ 0 < e.tss q ∧ 0 ≤ convective b n_dim pde e q 1 ∧ 0 ≤ diffusive b n_dim pde e q 1 ∧
      nominal * e.tss q * (convective b n_dim pde e q 1 / sc + diffusive b n_dim pde e q 1 / sd) ≤ 1 := by
  intro nominal
  obtain ⟨e', he', heq⟩ := mem_maxDt he
  have hC : 0 ≤ convective b n_dim pde e q 1 := by rw [heq]; exact ready_conv hb hr he' hq
  have hD : 0 ≤ diffusive b n_dim pde e q 1 := by rw [heq]; exact ready_diff hb hr he' hq
  have hsum : 0 ≤ convective b n_dim pde e q 1 / sc + diffusive b n_dim pde e q 1 / sd := by positivity
  cases l with
  | false =>
    obtain ⟨-, h0, h1, -⟩ := max_dt_global hb sc sd hsc hsd m hr
    obtain ⟨t, h⟩ := h1 e he q hq
    rw [convective_mul, diffusive_mul, mul_div_assoc, mul_div_assoc, ← mul_add] at h
    refine ⟨lt_min h0 hts, by rw [t]; norm_num, hC, hD, ?_⟩
    rw [t, mul_one]
    exact (mul_le_mul_of_nonneg_right (min_le_left _ _) hsum).trans h
  | true =>
    obtain ⟨-, h0, h1⟩ := max_dt_local hb sc sd hsc hsd m hr
    obtain ⟨t, h⟩ := h1 e he q hq
    rw [convective_mul, diffusive_mul, mul_div_assoc, mul_div_assoc, ← mul_add] at h
    refine ⟨lt_min (by rw [h0]; norm_num) hts, t, hC, hD, ?_⟩
    have hn : nominal ≤ 1 := (min_le_left _ _).trans h0.le
    rw [mul_assoc, h, mul_one]; exact hn

/-- The entry of the trace added by one step. -/
noncomputable def entry (b : Basis) (n_dim : Nat) (pde : Terms) (p : Params) (m : Mesh) (i : Nat) : Mesh × ℝ × ℝ :=
  let md := maxDt b n_dim pde p.local_time (p.max_safety / chebyshevStep p.n_cheby_flow (p.n_cheby_flow - 1)) p.max_safety m
  (md.1, min md.2 p.max_time_step, min md.2 p.max_time_step * chebyshevStep p.n_cheby_flow i)

theorem chebyLoop_succ (p : Params) (advance : Mesh → ℝ → Mesh × Bool) (n i : Nat) (r : Run) :
    chebyLoop b n_dim pde p advance (n + 1) i r =
      if (advance (entry b n_dim pde p r.mesh i).1 (entry b n_dim pde p r.mesh i).2.2).2 then
        ⟨(advance (entry b n_dim pde p r.mesh i).1 (entry b n_dim pde p r.mesh i).2.2).1, r.time_step, r.flow_time, r.iteration,
          r.trace ++ [entry b n_dim pde p r.mesh i]⟩
      else chebyLoop b n_dim pde p advance n (i + 1)
        ⟨(advance (entry b n_dim pde p r.mesh i).1 (entry b n_dim pde p r.mesh i).2.2).1, (entry b n_dim pde p r.mesh i).2.2,
          r.flow_time + (entry b n_dim pde p r.mesh i).2.2, r.iteration, r.trace ++ [entry b n_dim pde p r.mesh i]⟩ := rfl

/-- What every entry of the trace satisfies. -/
def EntryOk (b : Basis) (n_dim : Nat) (pde : Terms) (p : Params) (x : Mesh × ℝ × ℝ) : Prop :=
  ∃ m, ∃ i < p.n_cheby_flow, x = entry b n_dim pde p m i

theorem chebyLoop_trace (p : Params) (advance : Mesh → ℝ → Mesh × Bool) (n i : Nat) (h : n + i = p.n_cheby_flow) (r : Run)
    (hr : ∀ x ∈ r.trace, EntryOk b n_dim pde p x) :
    ∀ x ∈ (chebyLoop b n_dim pde p advance n i r).trace, EntryOk b n_dim pde p x := by
  induction n generalizing i r with
  | zero => exact hr
  | succ n ih =>
    have key : ∀ x ∈ r.trace ++ [entry b n_dim pde p r.mesh i], EntryOk b n_dim pde p x := by
      intro x hx
      rcases List.mem_append.1 hx with hx | hx
      · exact hr x hx
      · rw [List.mem_singleton] at hx
        exact ⟨r.mesh, i, by omega, hx⟩
    rw [chebyLoop_succ]
    split
    · exact key
    · exact ih (i + 1) (by omega) _ key

theorem flowLoop_trace (p : Params) (advance : Mesh → ℝ → Mesh × Bool) (n : Nat) (r : Run)
    (hr : ∀ x ∈ r.trace, EntryOk b n_dim pde p x) :
    ∀ x ∈ (flowLoop b n_dim pde p advance n r).trace, EntryOk b n_dim pde p x := by
  induction n generalizing r with
  | zero => exact hr
  | succ n ih => exact ih _ (chebyLoop_trace p advance _ 0 (by omega) r hr)

/-- C67: whatever the flow does, in every step of `update` the convective number of every point is at most `max_safety`,
and the time step is a Chebyshev multiple of a nominal time step whose diffusive number is at most `max_safety`. -/
theorem update_stable (hb : b.Good) (p : Params) (hs : 0 < p.max_safety) (ht : 0 < p.max_time_step)
    (advance : Mesh → ℝ → Mesh × Bool) (r : Run) (h0 : r.trace = []) (m : Mesh) (nominal dt : ℝ)
    (hm : (m, nominal, dt) ∈ (update b n_dim pde p advance r).trace) (hr : Ready b n_dim pde m.elems) :
    (∃ i < p.n_cheby_flow, dt = nominal * chebyshevStep p.n_cheby_flow i) ∧
      ∀ e ∈ m.elems, ∀ q < b.row_size ^ n_dim, 0 < nominal ∧ 0 < dt ∧ 0 < e.tss q ∧
        convective b n_dim pde e q (dt * e.tss q) ≤ p.max_safety ∧
        diffusive b n_dim pde e q (nominal * e.tss q) ≤ p.max_safety := by
  obtain ⟨m0, i, hi, hx⟩ := flowLoop_trace p advance p.flow_iters r (by simp [h0]) _ hm
  simp only [entry, Prod.mk.injEq] at hx
  obtain ⟨rfl, rfl, rfl⟩ := hx
  refine ⟨⟨i, hi, rfl⟩, fun e he q hq => ?_⟩
  have hr0 : Ready b n_dim pde m0.elems := by
    intro e he
    exact hr (withTss b n_dim pde p.local_time _ _ e) (maxDt_mem he)
  have hmax := cheby_pos (n := p.n_cheby_flow) (i := p.n_cheby_flow - 1) (by omega)
  have hic := cheby_pos hi
  have hle := cheby_mono (n := p.n_cheby_flow) (i := i) (j := p.n_cheby_flow - 1) (by omega) (by omega)
  obtain ⟨hn, htss, hC, hD, hb1⟩ := nominal_le hb p.local_time (div_pos hs hmax) hs ht hr0 he hq
  refine ⟨hn, mul_pos hn hic, htss, ?_, ?_⟩
  · rw [convective_mul]
    have h2 : 0 ≤ diffusive b n_dim pde e q 1 / p.max_safety := by positivity
    have h3 := (mul_le_mul_of_nonneg_left (le_add_of_nonneg_right h2) (mul_pos hn htss).le).trans hb1
    rw [div_div_eq_mul_div, ← mul_div_assoc, div_le_one hs] at h3
    refine le_trans ?_ h3
    have := mul_le_mul_of_nonneg_left hle (mul_nonneg (mul_nonneg hn.le htss.le) hC)
    linarith
  · rw [diffusive_mul]
    have h2 : 0 ≤ convective b n_dim pde e q 1 / (p.max_safety / chebyshevStep p.n_cheby_flow (p.n_cheby_flow - 1)) := by positivity
    have h3 := (mul_le_mul_of_nonneg_left (le_add_of_nonneg_left h2) (mul_pos hn htss).le).trans hb1
    rwa [← mul_div_assoc, div_le_one hs] at h3

theorem chebyLoop_time (p : Params) (advance : Mesh → ℝ → Mesh × Bool) (n i : Nat) (r : Run) :
    ∃ new, (chebyLoop b n_dim pde p advance n i r).trace = r.trace ++ new ∧
      (chebyLoop b n_dim pde p advance n i r).flow_time =
        r.flow_time + (new.map fun x => if (advance x.1 x.2.2).2 then 0 else x.2.2).sum ∧
      ((∀ m dt, (advance m dt).2 = false) → new.length = n) := by
  induction n generalizing i r with
  | zero => exact ⟨[], by simp [chebyLoop]⟩
  | succ n ih =>
    rw [chebyLoop_succ]
    generalize entry b n_dim pde p r.mesh i = E
    split
    · rename_i h
      refine ⟨[E], rfl, by simp [h], fun hf => ?_⟩
      rw [hf] at h; simp at h
    · rename_i h
      obtain ⟨new, h1, h2, h3⟩ := ih (i + 1) ⟨(advance E.1 E.2.2).1, E.2.2, r.flow_time + E.2.2, r.iteration, r.trace ++ [E]⟩
      refine ⟨E :: new, ?_, ?_, ?_⟩
      · rw [h1]; simp
      · rw [h2, List.map_cons, List.sum_cons, if_neg h]; ring
      · intro hf; simp [h3 hf]

theorem flowLoop_time (p : Params) (advance : Mesh → ℝ → Mesh × Bool) (n : Nat) (r : Run) :
    ∃ new, (flowLoop b n_dim pde p advance n r).trace = r.trace ++ new ∧
      (flowLoop b n_dim pde p advance n r).flow_time =
        r.flow_time + (new.map fun x => if (advance x.1 x.2.2).2 then 0 else x.2.2).sum ∧
      ((∀ m dt, (advance m dt).2 = false) → new.length = n * p.n_cheby_flow) := by
  induction n generalizing r with
  | zero => exact ⟨[], by simp [flowLoop]⟩
  | succ n ih =>
    obtain ⟨a, a1, a2, a3⟩ := chebyLoop_time (b := b) (n_dim := n_dim) (pde := pde) p advance p.n_cheby_flow 0 r
    obtain ⟨c, c1, c2, c3⟩ := ih (chebyLoop b n_dim pde p advance p.n_cheby_flow 0 r)
    refine ⟨a ++ c, ?_, ?_, ?_⟩
    · rw [flowLoop, c1, a1, List.append_assoc]
    · rw [flowLoop, c2, a2]; simp [add_assoc]
    · intro hf; rw [List.length_append, a3 hf, c3 hf]; ring

/-- C67: the reported flow time grows by the sum of the time steps after which the state needed no correction, and the
iteration count by one; without corrections there are `flow_iters * n_cheby_flow` steps. -/
theorem update_time (p : Params) (advance : Mesh → ℝ → Mesh × Bool) (r : Run) (h0 : r.trace = []) :
    let r' := update b n_dim pde p advance r
    r'.flow_time = r.flow_time + (r'.trace.map fun x => if (advance x.1 x.2.2).2 then 0 else x.2.2).sum ∧
      r'.iteration = r.iteration + 1 ∧
      ((∀ m dt, (advance m dt).2 = false) → r'.trace.length = p.flow_iters * p.n_cheby_flow) := by
  obtain ⟨new, h1, h2, h3⟩ := flowLoop_time (b := b) (n_dim := n_dim) (pde := pde) p advance p.flow_iters r
  rw [h0, List.nil_append] at h1
  refine ⟨?_, ?_, ?_⟩
  · show (flowLoop b n_dim pde p advance p.flow_iters r).flow_time = _ + ((flowLoop b n_dim pde p advance p.flow_iters r).trace.map _).sum
    rw [h1, h2]
  · have hi : ∀ n i r, (chebyLoop b n_dim pde p advance n i r).iteration = r.iteration := by
      intro n
      induction n with
      | zero => intro i r; rfl
      | succ n ih =>
        intro i r
        rw [chebyLoop_succ]
        split
        · rfl
        · rw [ih]
    have hf : ∀ n r, (flowLoop b n_dim pde p advance n r).iteration = r.iteration := by
      intro n
      induction n with
      | zero => intro r; rfl
      | succ n ih => intro r; rw [flowLoop, ih, hi]
    show (flowLoop b n_dim pde p advance p.flow_iters r).iteration + 1 = _
    rw [hf]
  · intro hf
    show (flowLoop b n_dim pde p advance p.flow_iters r).trace.length = _
    rw [h1, h3 hf]

/-- C67, the part of "no time step is longer than `max_time_step`" that holds: without Chebyshev steps. -/
theorem max_time_step_partial (p : Params) (hn : p.n_cheby_flow = 1) (advance : Mesh → ℝ → Mesh × Bool) (r : Run)
    (h0 : r.trace = []) (m : Mesh) (nominal dt : ℝ) (hm : (m, nominal, dt) ∈ (update b n_dim pde p advance r).trace) :
    dt ≤ p.max_time_step := by
  obtain ⟨m0, i, hi, hx⟩ := flowLoop_trace p advance p.flow_iters r (by simp [h0]) _ hm
  simp only [entry, Prod.mk.injEq] at hx
  obtain ⟨-, -, rfl⟩ := hx
  have : i = 0 := by omega
  rw [hn, this, cheby_one, mul_one]
  exact min_le_right _ _

/-- The flow `m` would be stable with time step `t`. -/
def Slow (b : Basis) (n_dim : Nat) (pde : Terms) (p : Params) (t : ℝ) (m : Mesh) : Prop :=
  ∀ e ∈ m.elems, ∀ q < b.row_size ^ n_dim,
    convective b n_dim pde e q t * chebyshevStep p.n_cheby_flow (p.n_cheby_flow - 1) + diffusive b n_dim pde e q t ≤ p.max_safety

theorem slow_maxDt {p : Params} {t : ℝ} {m : Mesh} (l : Bool) (sc sd : ℝ) (h : Slow b n_dim pde p t m) :
    Slow b n_dim pde p t (maxDt b n_dim pde l sc sd m).1 := by
  intro e he q hq
  obtain ⟨e', he', rfl⟩ := mem_maxDt he
  exact h e' he' q hq

theorem ready_maxDt {m : Mesh} (l : Bool) (sc sd : ℝ) (h : Ready b n_dim pde m.elems) :
    Ready b n_dim pde (maxDt b n_dim pde l sc sd m).1.elems := by
  intro e he
  obtain ⟨e', he', rfl⟩ := mem_maxDt he
  exact h e' he'

theorem slow_nominal (hb : b.Good) {p : Params} (hn : 0 < p.n_cheby_flow) (hs : 0 < p.max_safety) (ht : p.max_time_step ≤ dblMax) {m : Mesh}
    (hl : p.local_time = false) (hr : Ready b n_dim pde m.elems) (h : Slow b n_dim pde p p.max_time_step m) :
    min (maxDt b n_dim pde p.local_time (p.max_safety / chebyshevStep p.n_cheby_flow (p.n_cheby_flow - 1)) p.max_safety m).2
      p.max_time_step = p.max_time_step := by
  apply min_eq_right
  have hmax := cheby_pos (n := p.n_cheby_flow) (i := p.n_cheby_flow - 1) (by omega)
  rw [hl]
  rcases (maxDt_global (b := b) (n_dim := n_dim) (pde := pde) (p.max_safety / chebyshevStep p.n_cheby_flow (p.n_cheby_flow - 1))
      p.max_safety m).2.1 with h1 | ⟨e, he, q, hq, h1⟩
  · rw [h1]; exact ht
  · have hp := scale_pos hb hr he hq (div_pos hs hmax) hs
    rw [h1, le_div_iff₀ hp, scaleAt_eq hb]
    have h2 := h e he q hq
    rw [convective_mul, diffusive_mul] at h2
    rw [div_div_eq_mul_div, ← add_div, ← mul_div_assoc, div_le_one hs]
    nlinarith

theorem steady_cheby (hb : b.Good) (p : Params) (hs : 0 < p.max_safety) (ht : p.max_time_step ≤ dblMax) (hl : p.local_time = false)
    (n i : Nat) (hn : n + 1 + i = p.n_cheby_flow) (r : Run) (hr : Ready b n_dim pde r.mesh.elems)
    (h : Slow b n_dim pde p p.max_time_step r.mesh) :
    let r' := chebyLoop b n_dim pde p (fun m _ => (m, false)) (n + 1) i r
    Ready b n_dim pde r'.mesh.elems ∧ Slow b n_dim pde p p.max_time_step r'.mesh ∧
      r'.time_step = p.max_time_step * chebyshevStep p.n_cheby_flow (p.n_cheby_flow - 1) := by
  induction n generalizing i r with
  | zero =>
    have e : chebyLoop b n_dim pde p (fun m _ => (m, false)) (0 + 1) i r = ⟨(entry b n_dim pde p r.mesh i).1, (entry b n_dim pde p r.mesh i).2.2,
        r.flow_time + (entry b n_dim pde p r.mesh i).2.2, r.iteration, r.trace ++ [entry b n_dim pde p r.mesh i]⟩ := rfl
    rw [e]
    refine ⟨ready_maxDt _ _ _ hr, slow_maxDt _ _ _ h, ?_⟩
    show min _ _ * _ = _
    rw [slow_nominal hb (by omega) hs ht hl hr h, show i = p.n_cheby_flow - 1 by omega]
  | succ n ih =>
    rw [chebyLoop_succ, if_neg (by simp)]
    exact ih (i + 1) (by omega) _ (ready_maxDt _ _ _ hr) (slow_maxDt _ _ _ h)

/-- C67: with Chebyshev steps the claim "no time step is longer than `max_time_step`" is false.  If the flow is steady and
`max_time_step` is what limits the time step, the last time step of every call is longer than `max_time_step`. -/
theorem max_time_step_refuted (hb : b.Good) (p : Params) (hn : 2 ≤ p.n_cheby_flow) (hf : 0 < p.flow_iters) (hs : 0 < p.max_safety)
    (ht : 0 < p.max_time_step) (ht' : p.max_time_step ≤ dblMax) (hl : p.local_time = false) (r : Run) (hr : Ready b n_dim pde r.mesh.elems)
    (h : Slow b n_dim pde p p.max_time_step r.mesh) :
    p.max_time_step < (update b n_dim pde p (fun m _ => (m, false)) r).time_step := by
  obtain ⟨N, hN⟩ := Nat.exists_eq_add_of_le' (by omega : 1 ≤ p.n_cheby_flow)
  have key : ∀ k r, Ready b n_dim pde r.mesh.elems → Slow b n_dim pde p p.max_time_step r.mesh →
      (flowLoop b n_dim pde p (fun m _ => (m, false)) (k + 1) r).time_step =
        p.max_time_step * chebyshevStep p.n_cheby_flow (p.n_cheby_flow - 1) := by
    intro k
    induction k with
    | zero =>
      intro r hr h
      have := steady_cheby hb p hs ht' hl N 0 (by omega) r hr h
      rw [← hN] at this
      exact this.2.2
    | succ k ih =>
      intro r hr h
      have := steady_cheby hb p hs ht' hl N 0 (by omega) r hr h
      rw [← hN] at this
      exact ih _ this.1 this.2.1
  obtain ⟨k, hk⟩ := Nat.exists_eq_add_of_le' (by omega : 1 ≤ p.flow_iters)
  show _ < (flowLoop b n_dim pde p (fun m _ => (m, false)) p.flow_iters r).time_step
  rw [hk, key k r hr h]
  apply lt_mul_of_one_lt_right ht
  -- the largest factor is larger than one
  have h2 : (2 : ℝ) ≤ p.n_cheby_flow := by exact_mod_cast hn
  rw [cheby_root (by omega), show p.n_cheby_flow - 1 - (p.n_cheby_flow - 1) = 0 by omega]
  have hlt := root_lt (n := p.n_cheby_flow) (k := 0) (by omega)
  have hpos : 0 < root p.n_cheby_flow 0 := by
    apply Real.cos_pos_of_mem_Ioo
    constructor
    · have : 0 < (2 * ((0 : ℕ) : ℝ) + 1) * Real.pi / (2 * p.n_cheby_flow) := by
        have := Real.pi_pos; push_cast; positivity
      linarith [Real.pi_pos]
    · rw [div_lt_iff₀ (by positivity)]
      push_cast
      nlinarith [Real.pi_pos]
  rw [lt_div_iff₀ (by linarith)]
  linarith

/-! ## The hypotheses can be met -/

/-- A basis with two nodes. -/
noncomputable def exBasis : Basis := ⟨2, fun i => if i = 0 then 1 / 4 else 3 / 4, 1 / 10, -10⟩

theorem exBasis_good : exBasis.Good where
  size := by simp [exBasis]
  node0 i _ := by unfold exBasis; dsimp only; split <;> norm_num
  node1 i _ := by unfold exBasis; dsimp only; split <;> norm_num
  cfl := by norm_num [exBasis]
  eig := by norm_num [exBasis]

/-- Moving gas in a plane: momentum (1, 0), mass 1, energy 3. -/
noncomputable def exGas (v : Nat) : ℝ := if v = 0 then 1 else if v = 2 then 1 else if v = 3 then 3 else 0

/-- Two elements of different size. -/
noncomputable def exMesh : Mesh := ⟨[⟨fun _ => 1, fun _ => exGas, fun _ => 0⟩], [⟨fun i => 1 / (i + 1), fun _ => exGas, fun _ => 0⟩]⟩

/-- Viscosity and thermal conductivity. -/
noncomputable def exPde : Terms := navierStokes 2 true (.constant (1 / 10)) (.constant 1)

theorem exSpeed (d : Nat → ℝ) (h : d = exGas) : 0 < exPde.char_speed d := by
  subst h
  have h : exPde.char_speed exGas = charSpeed 2 (fetchState 2 exGas) := rfl
  rw [h, charSpeed]
  have e1 : fetchState 2 exGas (2 + 1) = 3 := by simp [fetchState, exGas]
  have e2 : fetchState 2 exGas 2 = 1 := by simp [fetchState, exGas]
  rw [e1, e2]
  have : 0 ≤ Pde.norm 2 (fetchState 2 exGas) := Real.sqrt_nonneg _
  have : 0 < √(Pde.heatRat * (Pde.heatRat - 1) * 3 / 1) := Real.sqrt_pos.2 (by norm_num [Pde.heatRat])
  linarith [div_one (Pde.norm 2 (fetchState 2 exGas))]

theorem exMesh_ready : Ready exBasis 2 exPde exMesh.elems := by
  have hd : ∀ d, d = exGas → 0 ≤ exPde.diffusivity d := by
    intro d h
    have h : exPde.diffusivity d = Pde.diffusivity 2 (.constant (1 / 10)) (.constant 1) (fetchState 2 d) := rfl
    rw [h, Pde.diffusivity]
    have e2 : fetchState 2 d 2 = 1 := by subst d; simp [fetchState, exGas]
    rw [e2]
    have : Transport.coefficient (.constant (1 / 10)) (Pde.sqrtTemp 2 (fetchState 2 d)) = 1 / 10 := by
      simp [Transport.coefficient, Transport.constant]
    rw [this]
    positivity
  intro e he
  simp only [exMesh, Mesh.elems, List.cons_append, List.nil_append, List.mem_cons, List.not_mem_nil, or_false] at he
  rcases he with rfl | rfl
  · exact ⟨fun i _ => by norm_num, fun q _ => ⟨fun _ => (exSpeed _ rfl).le, fun _ => hd _ rfl, .inl ⟨rfl, exSpeed _ rfl⟩⟩⟩
  · exact ⟨fun i _ => by positivity, fun q _ => ⟨fun _ => (exSpeed _ rfl).le, fun _ => hd _ rfl, .inl ⟨rfl, exSpeed _ rfl⟩⟩⟩

/-- Two Chebyshev steps, with a small `max_time_step`. -/
noncomputable def exParams (t : ℝ) : Params := ⟨1, 2, 7 / 10, t, false⟩

example : 0 < (maxDt exBasis 2 exPde false 1 1 exMesh).2 := (max_dt_global exBasis_good 1 1 one_pos one_pos exMesh exMesh_ready).2.1

example (t : ℝ) (ht : 0 < t) : ∃ m nominal dt, (m, nominal, dt) ∈ (update exBasis 2 exPde (exParams t) (fun m _ => (m, false)) ⟨exMesh, 0, 0, 0, []⟩).trace ∧
    Ready exBasis 2 exPde m.elems ∧ m.elems ≠ [] := by
  refine ⟨_, _, _, List.mem_append_left _ (List.mem_append_right _ (List.mem_singleton.2 rfl)), ready_maxDt _ _ _ exMesh_ready, ?_⟩
  rw [maxDt_elems]; simp [Mesh.elems, exMesh]

/-- The refutation applies to a moving gas. -/
example : ∃ t : ℝ, 0 < t ∧ t < (update exBasis 2 exPde (exParams t) (fun m _ => (m, false)) ⟨exMesh, 0, 0, 0, []⟩).time_step := by
  have hfin : ∃ B : ℝ, 0 < B ∧ ∀ e ∈ exMesh.elems, ∀ q < exBasis.row_size ^ 2,
      convective exBasis 2 exPde e q 1 * chebyshevStep 2 1 + diffusive exBasis 2 exPde e q 1 ≤ B := by
    obtain ⟨B, hB⟩ := (exMesh.elems.flatMap fun e => (List.range (exBasis.row_size ^ 2)).map fun q =>
      convective exBasis 2 exPde e q 1 * chebyshevStep 2 1 + diffusive exBasis 2 exPde e q 1).toFinset.bddAbove
    refine ⟨max B 1, by positivity, fun e he q hq => le_max_of_le_left (hB ?_)⟩
    simp only [List.coe_toFinset, Set.mem_setOf_eq, List.mem_flatMap, List.mem_map, List.mem_range]
    exact ⟨e, he, q, hq, rfl⟩
  obtain ⟨B, hB, h⟩ := hfin
  have hd : (1 : ℝ) ≤ dblMax := one_le_mul_of_one_le_of_one_le (by norm_num) (one_le_pow₀ (by norm_num))
  have hpos : (0 : ℝ) < min (7 / 10 / B) 1 := by positivity
  refine ⟨min (7 / 10 / B) 1, hpos, max_time_step_refuted exBasis_good (exParams _) (by simp [exParams]) (by simp [exParams])
    (by norm_num [exParams]) hpos ((min_le_right _ _).trans hd) rfl _ exMesh_ready ?_⟩
  intro e he q hq
  have h1 := h e he q hq
  rw [convective_mul, diffusive_mul]
  show min (7 / 10 / B) 1 * _ * chebyshevStep 2 1 + min (7 / 10 / B) 1 * _ ≤ 7 / 10
  have h2 := mul_le_mul_of_nonneg_left h1 hpos.le
  have h3 : min (7 / 10 / B) 1 * B ≤ 7 / 10 := by
    have := mul_le_mul_of_nonneg_right (min_le_left (7 / 10 / B) 1) hB.le
    rwa [div_mul_cancel₀ _ hB.ne'] at this
  linarith

end Hexed.TimeStep
