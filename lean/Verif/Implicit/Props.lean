import Mathlib.Tactic.FieldSimp
import Mathlib.Tactic.Positivity
import Mathlib.Tactic.Linarith
import Mathlib.Tactic.Ring
import Mathlib.Algebra.Order.BigOperators.Group.List
import Verif.Implicit.Model
set_option autoImplicit false
set_option linter.unusedVariables false

/-! # Properties of the linearization -/

namespace Hexed.Implicit

/-- What the documentation of `matvec` promises (include/Solver.hpp 79-84), for a residual `F`: the finite difference of
the residual in direction `x`.  The sign is that of the code. -/
def IsFiniteDifference (F : Vec → Vec) (ε : ℝ) (u : Vec) (A : Vec → Vec) : Prop :=
  ∀ x i, A x i = (F (fun j => u j + ε * x j) i - F u i) / ε

/-- Vector `k` as seen by the iterative solvers. -/
def vec (s : Store) (k : Nat) : Vec := s (4 + k)

/-- The quantity whose differences are computed. -/
def Flow.residual (f : Flow) (w : Vec) : Vec := fun i => f.step w i - f.rate w i

theorem matvec_eq (f : Flow) (ε : ℝ) (hε : ε ≠ 0) (s : Store) (o k : Nat) :
    matvec f ε o k s = Function.update (Function.update (Function.update s 1 (f.rate fun j => s 0 j + ε * vec s k j)) (4 + o)
      (fun i => (f.residual (fun j => s 0 j + ε * vec s k j) i -
        if o = 1 then f.residual (fun j => s 0 j + ε * vec s k j) i else vec s 1 i) / ε)) 0 (s 3) := by
  funext t i
  have e1 : storageStart + -storageStart = 0 := by simp
  have e2 : storageStart + (-storageStart + 1) = 1 := by simp [storageStart]
  have e3 : storageStart + (-storageStart + 3) = 3 := by simp [storageStart]
  have e4 : storageStart + (o : Int) = 4 + o := rfl
  have e5 : storageStart + (k : Int) = 4 + k := rfl
  have e6 : storageStart + (1 : Int) = 5 := by simp [storageStart]
  have n0 : (4 + (o : Int)) ≠ 0 := by omega
  have n1 : (4 + (o : Int)) ≠ 1 := by omega
  have n3 : (4 + (o : Int)) ≠ 3 := by omega
  have n03 : (3 : Int) ≠ 0 := by omega
  simp only [matvec, add, scale, Flow.update, e1, e2, e3, e4, e5, e6, vec, Flow.residual]
  by_cases ht0 : t = 0
  · subst ht0
    simp [Function.update_of_ne, n3.symm, n0.symm]
  by_cases hto : t = 4 + o
  · subst hto
    simp only [Function.update_self, Function.update_of_ne n0, Function.update_of_ne n0.symm]
    by_cases ho : o = 1
    · subst ho
      simp
    · have h5 : (5 : Int) ≠ 4 + o := by omega
      simp [h5, ho]
      field_simp
      ring
  · by_cases ht1 : t = 1
    · subst ht1; simp [n1.symm]
    · simp [Function.update_of_ne, ht0, hto, ht1]

/-- C68, the part that holds: applying the operator restores the working state, keeps the linearization point and every
vector but the output and stage 1; and if the residual at the linearization point is in vector 1, and is not the output,
the result is the finite difference of the residual. -/
theorem matvec_partial (f : Flow) (ε : ℝ) (hε : ε ≠ 0) (s : Store) (h0 : s 0 = s 3) (o k : Nat) :
    (matvec f ε o k s) 0 = s 0 ∧ (matvec f ε o k s) 3 = s 3 ∧ (∀ j, j ≠ o → vec (matvec f ε o k s) j = vec s j) ∧
      (o ≠ 1 → vec s 1 = f.residual (s 3) →
        ∀ i, vec (matvec f ε o k s) o i = (f.residual (fun j => s 3 j + ε * vec s k j) i - f.residual (s 3) i) / ε) := by
  rw [matvec_eq f ε hε]
  refine ⟨?_, ?_, ?_, ?_⟩
  · simp [h0]
  · have : (3 : Int) ≠ 4 + o := by omega
    simp [this]
  · intro j hj
    have h1 : (4 + (j : Int)) ≠ 4 + o := by omega
    have h2 : (4 + (j : Int)) ≠ 0 := by omega
    have h3 : (4 + (j : Int)) ≠ 1 := by omega
    simp [vec, Function.update_of_ne, h2, h3, hj]
  · intro ho h1 i
    have h2 : (4 + (o : Int)) ≠ 0 := by omega
    rw [vec, Function.update_of_ne h2, Function.update_self, if_neg ho, h1, h0]

/-- C68: the constructor always leaves zero as the right-hand side (and zero as the guess), although it evaluates the
residual, because the result is subtracted from itself. -/
theorem right_hand_side (f : Flow) (ε : ℝ) (hε : ε ≠ 0) (s : Store) :
    let c := construct f ε s
    c 0 = s 0 ∧ c 3 = s 0 ∧ (∀ i, vec c 0 i = 0) ∧ ∀ i, vec c 1 i = 0 := by
  intro c
  have hc : c = matvec f ε (1 : Nat) (0 : Nat)
      (scale 1 (-storageStart) 0 (scale 0 (-storageStart) 0 (scale (-storageStart + 3) (-storageStart) 1 s))) := rfl
  have hs0 : (scale 1 (-storageStart) 0 (scale 0 (-storageStart) 0 (scale (-storageStart + 3) (-storageStart) 1 s))) 0 = s 0 := by
    simp [scale, storageStart]
  have hs3 : (scale 1 (-storageStart) 0 (scale 0 (-storageStart) 0 (scale (-storageStart + 3) (-storageStart) 1 s))) 3 = s 0 := by
    simp [scale, storageStart]
  obtain ⟨m0, m3, mj, -⟩ := matvec_partial f ε hε _ (hs0.trans hs3.symm) 1 0
  refine ⟨by rw [hc, m0, hs0], by rw [hc, m3, hs3], ?_, ?_⟩
  · intro i
    rw [hc, mj 0 (by simp)]
    simp [vec, scale, storageStart]
  · intro i
    rw [hc, matvec_eq f ε hε]
    simp [vec]

/-- C68: what the operator is after construction. -/
theorem operator_is (f : Flow) (ε : ℝ) (hε : ε ≠ 0) (s : Store) (t : Store) (h0 : t 0 = s 0) (h3 : t 3 = s 0)
    (h1 : vec t 1 = vec (construct f ε s) 1) (o k : Nat) (ho : o ≠ 1) (i : Nat) :
    vec (matvec f ε o k t) o i = f.residual (fun j => s 0 j + ε * vec t k j) i / ε := by
  rw [matvec_eq f ε hε]
  have h2 : (4 + (o : Int)) ≠ 0 := by omega
  rw [vec, Function.update_of_ne h2, Function.update_self, if_neg ho, h1, (right_hand_side f ε hε s).2.2.2 i, sub_zero, h0]

/-- C68: the documented operator, for no residual whatsoever.  If the flow is steady and has no convective time rate, as
uniform flow does, the operator maps zero to the state divided by the finite difference, where any finite difference gives
zero. -/
theorem operator_refuted (f : Flow) (ε : ℝ) (hε : ε ≠ 0) (s : Store) (hstep : f.step (s 0) = s 0)
    (hrate : ∀ i, f.rate (s 0) i = 0) (hu : ∃ i, s 0 i ≠ 0) (F : Vec → Vec) :
    ¬ IsFiniteDifference F ε (s 0) fun x => vec (matvec f ε 2 0 (Function.update (construct f ε s) 4 x)) 2 := by
  intro h
  obtain ⟨i, hi⟩ := hu
  have hr := right_hand_side f ε hε s
  have h := h (fun _ => 0) i
  have ho := operator_is f ε hε s (Function.update (construct f ε s) 4 fun _ => 0)
    (by rw [Function.update_of_ne (by omega)]; exact hr.1) (by rw [Function.update_of_ne (by omega)]; exact hr.2.1)
    (by simp [vec]) 2 0 (by omega) i
  have hv : vec (Function.update (construct f ε s) 4 fun _ => 0) 0 = fun _ => 0 := by simp [vec]
  rw [hv] at ho
  simp only [mul_zero, add_zero, sub_self, zero_div] at h ho
  have h' : vec (matvec f ε ((2 : Nat) : Int) ((0 : Nat) : Int) (Function.update (construct f ε s) 4 fun _ => 0)) 2 i = 0 := h
  rw [h', Flow.residual, hstep, hrate i, sub_zero, eq_comm, div_eq_zero_iff] at ho
  rcases ho with h | h
  · exact hi h
  · exact hε h

/-- The reference momentum as the name says: the length of the freestream momentum. -/
noncomputable def momentum (n_dim : Nat) (freestream : Nat → ℝ) : ℝ :=
  Real.sqrt (((List.range n_dim).map fun i => freestream i ^ 2).sum)

/-- C68: the reference state contains the freestream mass and energy, but its momentum has nothing to do with the
freestream momentum. -/
theorem ref_state_is (n_dim : Nat) (freestream : Nat → ℝ) :
    (∀ i, i < n_dim → refState n_dim freestream i = Real.sqrt n_dim * |freestream n_dim|) ∧
      ∀ i, n_dim ≤ i → refState n_dim freestream i = freestream i := by
  have hf : ∀ n : Nat, ∀ a : ℝ, (List.range n).foldl (fun m _ => m + freestream n_dim ^ 2) a = a + n * freestream n_dim ^ 2 := by
    intro n
    induction n with
    | zero => intro a; simp
    | succ n ih => intro a; rw [List.range_succ, List.foldl_append, ih]; push_cast; simp only [List.foldl_cons, List.foldl_nil]; ring
  refine ⟨fun i hi => ?_, fun i hi => ?_⟩
  · simp only [refState, hi, if_true, hf, zero_add]
    rw [Real.sqrt_mul (by positivity), Real.sqrt_sq_eq_abs]
  · simp [refState, Nat.not_lt.2 hi]

/-- C68: an example in which it differs from the momentum of the freestream. -/
theorem ref_state_refuted :
    ∃ (freestream : Nat → ℝ), refState 2 freestream 0 ≠ momentum 2 freestream := by
  refine ⟨fun i => if i = 0 then 3 else if i = 1 then 4 else 1, ?_⟩
  rw [(ref_state_is 2 _).1 0 (by omega)]
  have h5 : momentum 2 (fun i => if i = 0 then 3 else if i = 1 then 4 else 1) = 5 := by
    rw [momentum, show (((List.range 2).map fun i => (if i = 0 then (3 : ℝ) else if i = 1 then 4 else 1) ^ 2).sum) = 5 ^ 2 by
      simp [List.range_succ]; norm_num]
    exact Real.sqrt_sq (by norm_num)
  rw [h5]
  intro h
  have h2 := congrArg (· ^ 2) h
  simp only [mul_pow] at h2
  rw [Real.sq_sqrt (by positivity)] at h2
  norm_num at h2

theorem sum_nonneg' {α : Type} (l : List α) (g : α → ℝ) (h : ∀ a ∈ l, 0 ≤ g a) : 0 ≤ (l.map g).sum :=
  List.sum_nonneg (by intro x hx; obtain ⟨a, ha, rfl⟩ := List.mem_map.1 hx; exact h a ha)

theorem sum_pos' {α : Type} (l : List α) (g : α → ℝ) (h : ∀ a ∈ l, 0 ≤ g a) {a : α} (ha : a ∈ l) (hp : 0 < g a) :
    0 < (l.map g).sum := by
  induction l with
  | nil => simp at ha
  | cons b l ih =>
    rw [List.map_cons, List.sum_cons]
    have hb := h b (by simp)
    have hl := sum_nonneg' l g fun a ha => h a (by simp [ha])
    rcases List.mem_cons.1 ha with rfl | ha
    · linarith
    · have := ih (fun a ha => h a (by simp [ha])) ha; linarith

/-- C68: the product is symmetric, and positive for a vector that is not zero, if the weights of the basis and the mass and
energy of the freestream are positive. -/
theorem inner_positive (n_elem n_dim nq : Nat) (weights freestream : Nat → ℝ) (hw : ∀ i, i < nq → 0 < weights i)
    (hm : 0 < freestream n_dim) (he : 0 < freestream (n_dim + 1)) (x y : Vec) :
    inner n_elem (n_dim + 2) nq weights (refState n_dim freestream) x y = inner n_elem (n_dim + 2) nq weights (refState n_dim freestream) y x ∧
      ((∃ e v q, e < n_elem ∧ v < n_dim + 2 ∧ q < nq ∧ x (e * (n_dim + 2) * nq + (v * nq + q)) ≠ 0) →
        0 < inner n_elem (n_dim + 2) nq weights (refState n_dim freestream) x x) := by
  have hr : ∀ v, v < n_dim + 2 → 0 < refState n_dim freestream v := by
    intro v hv
    by_cases h : v < n_dim
    · rw [(ref_state_is n_dim freestream).1 v h]
      have : (0 : ℝ) < n_dim := by exact_mod_cast (by omega : 0 < n_dim)
      positivity
    · rw [(ref_state_is n_dim freestream).2 v (by omega)]
      rcases (by omega : v = n_dim ∨ v = n_dim + 1) with rfl | rfl <;> assumption
  have term : ∀ v, v < n_dim + 2 → ∀ q, q < nq → ∀ z : ℝ, z * weights q / refState n_dim freestream v * z = z ^ 2 * (weights q / refState n_dim freestream v) := by
    intro v hv q hq z; ring
  have hn : ∀ v ∈ List.range (n_dim + 2), ∀ q ∈ List.range nq, ∀ z : ℝ, 0 ≤ z * weights q / refState n_dim freestream v * z := by
    intro v hv q hq z
    have hv := List.mem_range.1 hv
    have hq := List.mem_range.1 hq
    have := hr v hv; have := hw q hq
    rw [term v hv q hq]; positivity
  constructor
  · unfold inner
    simp only [mul_div_assoc]
    congr 1; apply List.map_congr_left; intro e _
    congr 1; apply List.map_congr_left; intro v _
    congr 1; apply List.map_congr_left; intro q _
    ring
  · rintro ⟨e, v, q, he, hv, hq, hx⟩
    refine sum_pos' _ _ (fun e _ => sum_nonneg' _ _ fun v hv => sum_nonneg' _ _ fun q hq => hn v hv q hq _) (List.mem_range.2 he) ?_
    refine sum_pos' _ _ (fun v hv => sum_nonneg' _ _ fun q hq => hn v hv q hq _) (List.mem_range.2 hv) ?_
    refine sum_pos' _ _ (fun q hq => hn v (List.mem_range.2 hv) q hq _) (List.mem_range.2 hq) ?_
    have := hr v hv; have := hw q hq
    rw [term v hv q hq]
    positivity

/-- C68: the implicit update adds the solution to the linearization point, if the solver leaves that point alone. -/
theorem update_implicit_adds (f : Flow) (ε : ℝ) (hε : ε ≠ 0) (solve : Store → Store) (s : Store)
    (hk : solve (construct f ε s) 3 = construct f ε s 3) (i : Nat) :
    updateImplicit f ε solve s 0 i = s 0 i + vec (solve (construct f ε s)) 0 i := by
  have e3 : storageStart + (-storageStart + 3) = 3 := by simp [storageStart]
  simp only [updateImplicit, add, add_neg_cancel, Function.update_self, e3, hk, (right_hand_side f ε hε s).2.1, one_mul, vec]
  rfl

/-! ## The hypotheses can be met -/

/-- A flow in which every state is steady. -/
def exFlow : Flow := ⟨id, fun _ _ => 0⟩

example : ∃ F : Vec → Vec, ¬ IsFiniteDifference F (1 / 1000) (fun _ => 1)
    fun x => vec (matvec exFlow (1 / 1000) 2 0 (Function.update (construct exFlow (1 / 1000) fun _ _ => 1) 4 x)) 2 :=
  ⟨fun _ _ => 0, operator_refuted exFlow (1 / 1000) (by norm_num) (fun _ _ => 1) rfl (fun _ => rfl) ⟨0, by norm_num⟩ _⟩

/-- The storage after construction, had the constructor kept the residual. -/
example : ∃ s : Store, s 0 = s 3 ∧ vec s 1 = exFlow.residual (s 3) ∧ vec s 1 ≠ fun _ => 0 := by
  refine ⟨fun _ _ => 1, rfl, ?_, ?_⟩
  · funext i; simp [vec, exFlow, Flow.residual]
  · intro h; have := congrFun h 0; simp [vec] at this

example : 0 < inner 1 4 1 (fun _ => 1) (refState 2 fun _ => 1) (fun _ => 1) (fun _ => 1) :=
  (inner_positive 1 2 1 (fun _ => 1) (fun _ => 1) (by simp) one_pos one_pos (fun _ => 1) (fun _ => 1)).2 ⟨0, 0, 0, by omega, by omega, by omega, by norm_num⟩

end Hexed.Implicit
