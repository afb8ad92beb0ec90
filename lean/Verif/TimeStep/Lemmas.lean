import Verif.TimeStep.Cheby
set_option autoImplicit false
set_option linter.unusedVariables false

/-! # Lemmas about interpolation and the maximum time step -/

namespace Hexed.TimeStep
open Hexed.Pde (charSpeed diffusivity fetchState Transport)

/-- One dimension collapsed. -/
noncomputable def half (n : Nat) (c : ℝ) (v : Nat → ℝ) (i : Nat) : ℝ := if i < n then v i + c * (v (i + n) - v i) else v i

theorem halfLoop (n : Nat) (c : ℝ) (v : Nat → ℝ) :
    (List.range n).foldl (fun v i => Function.update v i (v i + c * (v (i + n) - v i))) v = half n c v := by
  have h : ∀ k ≤ n, (List.range k).foldl (fun v i => Function.update v i (v i + c * (v (i + n) - v i))) v =
      fun i => if i < k then v i + c * (v (i + n) - v i) else v i := by
    intro k hk
    induction k with
    | zero => simp
    | succ k ih =>
      rw [List.range_succ, List.foldl_append, ih (by omega)]
      funext i
      by_cases hi : i = k
      · subst hi
        have h1 : ¬ i + n < i := by omega
        simp [h1]
      · have : i < k + 1 ↔ i < k := by omega
        simp [Function.update_of_ne hi, this]
  exact h n le_rfl

theorem interp_succ (n : Nat) (v x : Nat → ℝ) : interp (n + 1) v x = interp n (half (2 ^ n) (x 0) v) (fun k => x (k + 1)) := by
  unfold interp
  rw [List.range_succ_eq_map, List.foldl_cons, List.foldl_map]
  have : interpDim x (2 ^ (n + 1), v) 0 = (2 ^ n, half (2 ^ n) (x 0) v) := by
    unfold interpDim
    have h2 : 2 ^ (n + 1) / 2 = 2 ^ n := by rw [pow_succ]; omega
    simp only [h2, halfLoop]
  rw [this]
  rfl

theorem nLinear_succ (n : Nat) (v x : Nat → ℝ) : nLinear (n + 1) v x = nLinear n (half (2 ^ n) (x 0) v) (fun k => x (k + 1)) := by
  unfold nLinear
  rw [pow_succ, mul_two, Finset.sum_range_add, ← Finset.sum_add_distrib]
  apply Finset.sum_congr rfl
  intro i hi
  have hi := Finset.mem_range.1 hi
  rw [Finset.prod_range_succ', Finset.prod_range_succ']
  have e1 : ∀ k ∈ Finset.range n, (if i.testBit (n + 1 - 1 - (k + 1)) then x (k + 1) else 1 - x (k + 1)) =
      if i.testBit (n - 1 - k) then x (k + 1) else 1 - x (k + 1) := by
    intro k _; rw [show n + 1 - 1 - (k + 1) = n - 1 - k by omega]
  have e2 : ∀ k ∈ Finset.range n, (if (2 ^ n + i).testBit (n + 1 - 1 - (k + 1)) then x (k + 1) else 1 - x (k + 1)) =
      if i.testBit (n - 1 - k) then x (k + 1) else 1 - x (k + 1) := by
    intro k hk
    have := Finset.mem_range.1 hk
    rw [show n + 1 - 1 - (k + 1) = n - 1 - k by omega, Nat.testBit_two_pow_add_gt (by omega)]
  rw [Finset.prod_congr rfl e1, Finset.prod_congr rfl e2]
  have h1 : i.testBit n = false := Nat.testBit_lt_two_pow hi
  have h2 : (2 ^ n + i).testBit n = true := by rw [Nat.testBit_two_pow_add_eq, h1]; rfl
  simp only [Nat.add_sub_cancel, Nat.sub_zero, h1, h2, if_true, half, hi, Bool.false_eq_true, if_false, Nat.add_comm i (2 ^ n)]
  ring

/-- The interpolation function computes the multilinear interpolant. -/
theorem interp_eq (n : Nat) (v x : Nat → ℝ) : interp n v x = nLinear n v x := by
  induction n generalizing v x with
  | zero => simp [interp, nLinear]
  | succ n ih => rw [interp_succ, nLinear_succ, ih]

theorem nLinear_bounds (n : Nat) (v x : Nat → ℝ) (lo hi : ℝ) (hl : ∀ i < 2 ^ n, lo ≤ v i) (hh : ∀ i < 2 ^ n, v i ≤ hi)
    (hx : ∀ k < n, 0 ≤ x k ∧ x k ≤ 1) : lo ≤ nLinear n v x ∧ nLinear n v x ≤ hi := by
  induction n generalizing v x with
  | zero => simpa [nLinear] using ⟨hl 0 (by simp), hh 0 (by simp)⟩
  | succ n ih =>
    rw [nLinear_succ]
    have hx0 := hx 0 (by omega)
    have hp : (2 : ℕ) ^ (n + 1) = 2 ^ n + 2 ^ n := by rw [pow_succ]; omega
    apply ih
    · intro i hi
      have a := hl i (by omega)
      have b := hl (i + 2 ^ n) (by omega)
      simp only [half, hi, if_true]
      nlinarith
    · intro i hi
      have a := hh i (by omega)
      have b := hh (i + 2 ^ n) (by omega)
      simp only [half, hi, if_true]
      nlinarith
    · intro k hk; exact hx (k + 1) (by omega)

theorem nLinear_pos (n : Nat) (v x : Nat → ℝ) (h : ∀ i < 2 ^ n, 0 < v i) (hx : ∀ k < n, 0 ≤ x k ∧ x k ≤ 1) : 0 < nLinear n v x := by
  obtain ⟨i, hi, hm⟩ := Finset.exists_min_image (Finset.range (2 ^ n)) v ⟨0, by simp⟩
  exact lt_of_lt_of_le (h i (Finset.mem_range.1 hi)) (nLinear_bounds n v x (v i) (∑ j ∈ Finset.range (2 ^ n), v j)
    (fun j hj => hm j (Finset.mem_range.2 hj))
    (fun j hj => Finset.single_le_sum (f := v) (fun k hk => (h k (Finset.mem_range.1 hk)).le) (Finset.mem_range.2 hj)) hx).1

variable {b : Basis} {n_dim : Nat} {pde : Terms}

theorem spacing_pos (hb : b.Good) {e : Elem} (he : ∀ i < 2 ^ n_dim, 0 < e.vertex_spacing i) (q : Nat) : 0 < spacing b n_dim e q := by
  refine nLinear_pos _ _ _ he fun k hk => ?_
  have := Nat.mod_lt (q / b.row_size ^ (n_dim - 1 - k)) hb.size
  exact ⟨hb.node0 _ this, hb.node1 _ this⟩

theorem scaleAt_eq (hb : b.Good) (sc sd : ℝ) (e : Elem) (q : Nat) :
    scaleAt b n_dim pde sc sd e q = convective b n_dim pde e q 1 / sc + diffusive b n_dim pde e q 1 / sd := by
  have h : interp n_dim e.vertex_spacing (coords b n_dim q) = spacing b n_dim e q := interp_eq _ _ _
  have he := hb.eig.ne
  simp only [scaleAt, h, convective, diffusive]
  cases pde.has_convection <;> cases pde.has_diffusion <;> simp
  · field_simp
  · field_simp
  · field_simp

theorem convective_mul (e : Elem) (q : Nat) (t : ℝ) : convective b n_dim pde e q t = t * convective b n_dim pde e q 1 := by
  unfold convective; split <;> ring

theorem diffusive_mul (e : Elem) (q : Nat) (t : ℝ) : diffusive b n_dim pde e q t = t * diffusive b n_dim pde e q 1 := by
  unfold diffusive; split <;> ring

theorem ready_conv (hb : b.Good) {es : List Elem} (hr : Ready b n_dim pde es) {e : Elem} (he : e ∈ es) {q : Nat}
    (hq : q < b.row_size ^ n_dim) : 0 ≤ convective b n_dim pde e q 1 := by
  have h := hr e he
  have hs := spacing_pos hb h.1 q
  have hc := hb.cfl
  unfold convective; split
  · rename_i hh; have := (h.2 q hq).1 hh; positivity
  · exact le_rfl

theorem ready_diff (hb : b.Good) {es : List Elem} (hr : Ready b n_dim pde es) {e : Elem} (he : e ∈ es) {q : Nat}
    (hq : q < b.row_size ^ n_dim) : 0 ≤ diffusive b n_dim pde e q 1 := by
  have h := hr e he
  have hs := spacing_pos hb h.1 q
  have hc : 0 < -b.min_eig := by have := hb.eig; linarith
  unfold diffusive; split
  · rename_i hh; have := (h.2 q hq).2.1 hh; positivity
  · exact le_rfl

theorem scale_pos (hb : b.Good) {es : List Elem} (hr : Ready b n_dim pde es) {e : Elem} (he : e ∈ es) {q : Nat}
    (hq : q < b.row_size ^ n_dim) {sc sd : ℝ} (hsc : 0 < sc) (hsd : 0 < sd) : 0 < scaleAt b n_dim pde sc sd e q := by
  rw [scaleAt_eq hb]
  have hC := ready_conv hb hr he hq
  have hD := ready_diff hb hr he hq
  have h := hr e he
  have hs := spacing_pos hb h.1 q
  rcases (h.2 q hq).2.2 with ⟨h1, h2⟩ | ⟨h1, h2⟩
  · have : 0 < convective b n_dim pde e q 1 := by
      have hc := hb.cfl
      simp only [convective, h1, if_true]; positivity
    have := div_pos this hsc
    have := div_nonneg hD hsd.le
    linarith
  · have : 0 < diffusive b n_dim pde e q 1 := by
      have hc : 0 < -b.min_eig := by have := hb.eig; linarith
      simp only [diffusive, h1, if_true]; positivity
    have := div_pos this hsd
    have := div_nonneg hC hsc.le
    linarith

/-! ## The kernel -/

theorem points_local (sc sd : ℝ) (e : Elem) (t : Nat → ℝ) (dt : ℝ) (n : Nat) :
    (List.range n).foldl (pointStep b n_dim pde true sc sd e) (t, dt) =
      (fun q => if q < n then 1 / scaleAt b n_dim pde sc sd e q else t q, dt) := by
  induction n with
  | zero => simp
  | succ n ih =>
    rw [List.range_succ, List.foldl_append, ih]
    simp only [List.foldl_cons, List.foldl_nil, pointStep, if_true]
    congr 1
    funext q
    by_cases hq : q = n
    · subst hq; simp
    · have : q < n + 1 ↔ q < n := by omega
      simp [Function.update_of_ne hq, this]

theorem points_global (sc sd : ℝ) (e : Elem) (t : Nat → ℝ) (dt : ℝ) (n : Nat) :
    ((List.range n).foldl (pointStep b n_dim pde false sc sd e) (t, dt)).1 = (fun q => if q < n then 1 else t q) ∧
      (∀ q < n, ((List.range n).foldl (pointStep b n_dim pde false sc sd e) (t, dt)).2 ≤ 1 / scaleAt b n_dim pde sc sd e q) ∧
      ((List.range n).foldl (pointStep b n_dim pde false sc sd e) (t, dt)).2 ≤ dt ∧
      (((List.range n).foldl (pointStep b n_dim pde false sc sd e) (t, dt)).2 = dt ∨
        ∃ q < n, ((List.range n).foldl (pointStep b n_dim pde false sc sd e) (t, dt)).2 = 1 / scaleAt b n_dim pde sc sd e q) := by
  induction n with
  | zero => simp
  | succ n ih =>
    rw [List.range_succ, List.foldl_append]
    obtain ⟨h1, h2, h3, h4⟩ := ih
    generalize (List.range n).foldl (pointStep b n_dim pde false sc sd e) (t, dt) = s at *
    simp only [List.foldl_cons, List.foldl_nil, pointStep, Bool.false_eq_true, if_false]
    refine ⟨?_, ?_, ?_, ?_⟩
    · funext q
      by_cases hq : q = n
      · subst hq; simp
      · have : q < n + 1 ↔ q < n := by omega
        simp [Function.update_of_ne hq, this, h1]
    · intro q hq
      rcases Nat.lt_succ_iff_lt_or_eq.1 hq with hq | rfl
      · exact (min_le_left _ _).trans (h2 q hq)
      · exact min_le_right _ _
    · exact (min_le_left _ _).trans h3
    · rcases min_choice s.2 (1 / scaleAt b n_dim pde sc sd e n) with h | h
      · rw [h]
        rcases h4 with h4 | ⟨q, hq, h4⟩
        · exact .inl h4
        · exact .inr ⟨q, by omega, h4⟩
      · rw [h]; exact .inr ⟨n, by omega, rfl⟩

theorem loop_local (sc sd : ℝ) (es : List Elem) (dt : ℝ) :
    elemLoop b n_dim pde true sc sd es dt =
      (es.map fun e => { e with tss := fun q => if q < b.row_size ^ n_dim then 1 / scaleAt b n_dim pde sc sd e q else e.tss q }, dt) := by
  induction es generalizing dt with
  | nil => rfl
  | cons e es ih => simp only [elemLoop, elemStep, points_local, ih, List.map_cons]

theorem loop_global (sc sd : ℝ) (es : List Elem) (dt : ℝ) :
    (elemLoop b n_dim pde false sc sd es dt).1 =
        (es.map fun e => { e with tss := fun q => if q < b.row_size ^ n_dim then 1 else e.tss q }) ∧
      (∀ e ∈ es, ∀ q < b.row_size ^ n_dim, (elemLoop b n_dim pde false sc sd es dt).2 ≤ 1 / scaleAt b n_dim pde sc sd e q) ∧
      (elemLoop b n_dim pde false sc sd es dt).2 ≤ dt ∧
      ((elemLoop b n_dim pde false sc sd es dt).2 = dt ∨
        ∃ e ∈ es, ∃ q < b.row_size ^ n_dim, (elemLoop b n_dim pde false sc sd es dt).2 = 1 / scaleAt b n_dim pde sc sd e q) := by
  induction es generalizing dt with
  | nil => simp [elemLoop]
  | cons e es ih =>
    obtain ⟨p1, p2, p3, p4⟩ := points_global (b := b) (n_dim := n_dim) (pde := pde) sc sd e e.tss dt (b.row_size ^ n_dim)
    obtain ⟨h1, h2, h3, h4⟩ := ih (elemStep b n_dim pde false sc sd e dt).2
    simp only [elemLoop]
    refine ⟨?_, ?_, ?_, ?_⟩
    · rw [h1, List.map_cons]; simp only [elemStep, p1]
    · intro e' he' q hq
      rcases List.mem_cons.1 he' with rfl | he'
      · exact h3.trans (p2 q hq)
      · exact h2 e' he' q hq
    · exact h3.trans p3
    · rcases h4 with h4 | ⟨e', he', q, hq, h4⟩
      · rw [h4]
        rcases p4 with p4 | ⟨q, hq, p4⟩
        · exact .inl p4
        · exact .inr ⟨e, by simp, q, hq, p4⟩
      · exact .inr ⟨e', by simp [he'], q, hq, h4⟩

/-- Time step scale of the elements after the computation. -/
noncomputable def withTss (b : Basis) (n_dim : Nat) (pde : Terms) (l : Bool) (sc sd : ℝ) (e : Elem) : Elem :=
  { e with tss := fun q => if q < b.row_size ^ n_dim then (if l then 1 / scaleAt b n_dim pde sc sd e q else 1) else e.tss q }

theorem maxDt_elems (l : Bool) (sc sd : ℝ) (m : Mesh) :
    (maxDt b n_dim pde l sc sd m).1 = ⟨m.car_elems.map (withTss b n_dim pde l sc sd), m.def_elems.map (withTss b n_dim pde l sc sd)⟩ := by
  unfold maxDt maxDtKernel withTss
  cases l
  · simp only [(loop_global sc sd _ dblMax).1]; rfl
  · simp only [loop_local]; rfl

theorem maxDt_local (sc sd : ℝ) (m : Mesh) : (maxDt b n_dim pde true sc sd m).2 = 1 := by
  simp [maxDt, maxDtKernel]

theorem maxDt_global (sc sd : ℝ) (m : Mesh) :
    (∀ e ∈ m.elems, ∀ q < b.row_size ^ n_dim, (maxDt b n_dim pde false sc sd m).2 ≤ 1 / scaleAt b n_dim pde sc sd e q) ∧
      ((maxDt b n_dim pde false sc sd m).2 = dblMax ∨
        ∃ e ∈ m.elems, ∃ q < b.row_size ^ n_dim, (maxDt b n_dim pde false sc sd m).2 = 1 / scaleAt b n_dim pde sc sd e q) ∧
      (maxDt b n_dim pde false sc sd m).2 ≤ dblMax := by
  obtain ⟨_, c2, c3, c4⟩ := loop_global (b := b) (n_dim := n_dim) (pde := pde) sc sd m.car_elems dblMax
  obtain ⟨_, d2, d3, d4⟩ := loop_global (b := b) (n_dim := n_dim) (pde := pde) sc sd m.def_elems dblMax
  have hm : (maxDt b n_dim pde false sc sd m).2 = min (elemLoop b n_dim pde false sc sd m.car_elems dblMax).2
      (elemLoop b n_dim pde false sc sd m.def_elems dblMax).2 := rfl
  rw [hm]
  refine ⟨?_, ?_, (min_le_left _ _).trans c3⟩
  · intro e he q hq
    rcases List.mem_append.1 he with he | he
    · exact (min_le_left _ _).trans (c2 e he q hq)
    · exact (min_le_right _ _).trans (d2 e he q hq)
  · rcases min_choice (elemLoop b n_dim pde false sc sd m.car_elems dblMax).2 (elemLoop b n_dim pde false sc sd m.def_elems dblMax).2 with h | h <;> rw [h]
    · rcases c4 with c4 | ⟨e, he, q, hq, c4⟩
      · exact .inl c4
      · exact .inr ⟨e, List.mem_append_left _ he, q, hq, c4⟩
    · rcases d4 with d4 | ⟨e, he, q, hq, d4⟩
      · exact .inl d4
      · exact .inr ⟨e, List.mem_append_right _ he, q, hq, d4⟩

end Hexed.TimeStep
