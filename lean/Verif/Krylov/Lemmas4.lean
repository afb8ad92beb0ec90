import Verif.Krylov.Lemmas3
import Mathlib.Analysis.InnerProductSpace.Projection.Minimal
import Mathlib.Analysis.InnerProductSpace.PiL2

set_option autoImplicit false
set_option linter.unusedVariables false

/-!
# Complete runs of both solvers
-/

noncomputable section

open Classical RealInnerProductSpace Finset

namespace Hexed.Krylov

variable {V : Type} [NormedAddCommGroup V] [InnerProductSpace ℝ V]

/-! ## GMRES -/

theorem arnoldi_runs (A : V →ₗ[ℝ] V) (m : Mem V) (H : Hess) (c : ℕ) (hn : 3 + c < m.n) :
    ∃ m' H', forN c (arnoldiStep A) (m, H) = some (m', H') ∧ m'.n = m.n := by
  induction c with
  | zero => exact ⟨m, H, rfl, rfl⟩
  | succ c ih =>
    obtain ⟨m', H', h1, h2⟩ := ih (by omega)
    obtain ⟨m2, H2, e1, e2, _⟩ := arnoldi_frame A c m' H' (by omega)
    exact ⟨m2, H2, by rw [forN_succ, h1]; exact e1, by rw [e2, h2]⟩

theorem restart_runs (A : V →ₗ[ℝ] V) (solve : Solve) (k : ℕ) (m : Mem V) (hn : 3 + k < m.n) :
    ∃ m', restart A solve k m = some m' ∧ m'.n = m.n := by
  unfold restart
  rw [matvec_eq A m (by omega) (by omega)]
  simp only [Option.bind_some]
  rw [add_eq _ _ _ (by simp only [put_n]; omega) (by simp only [put_n]; omega)
    (by simp only [put_n]; omega)]
  simp only [Option.bind_some]
  rw [norm_eq _ (by simp only [put_n]; omega)]
  simp only [Option.bind_some]
  rw [scale_eq _ _ (by simp only [put_n]; omega) (by simp only [put_n]; omega)]
  simp only [Option.bind_some]
  generalize (add? _ _ : Option V) = y
  generalize (smul? _ _ : Option V) = z
  obtain ⟨m1, H1, e1, e2⟩ := arnoldi_runs A (((m.put 2 (Option.map A (m.v 0))).put 2 y).put 3 z)
    (fun _ _ => some 0) k (by simp only [put_n]; omega)
  rw [e1]
  simp only [Option.bind_some]
  obtain ⟨m3, f1, f2, _⟩ := correct_run m1 k (by rw [e2]; exact hn) (coefs solve k H1 _) k le_rfl
  exact ⟨m3, f1, by rw [f2, e2]; rfl⟩

theorem restart_fault (A : V →ₗ[ℝ] V) (solve : Solve) (k : ℕ) (m : Mem V) (hn : m.n = 3 + k) :
    restart A solve k m = none := by
  unfold restart
  rw [matvec_eq A m (by omega) (by omega)]
  simp only [Option.bind_some]
  rw [add_eq _ _ _ (by simp only [put_n]; omega) (by simp only [put_n]; omega)
    (by simp only [put_n]; omega)]
  simp only [Option.bind_some]
  rw [norm_eq _ (by simp only [put_n]; omega)]
  simp only [Option.bind_some]
  cases k with
  | zero =>
    unfold scale
    rw [if_neg (by simp only [put_n]; omega)]
    rfl
  | succ k =>
    rw [scale_eq _ _ (by simp only [put_n]; omega) (by simp only [put_n]; omega)]
    simp only [Option.bind_some]
    generalize (add? _ _ : Option V) = y
    generalize (smul? _ _ : Option V) = z
    obtain ⟨m1, H1, e1, e2⟩ := arnoldi_runs A (((m.put 2 (Option.map A (m.v 0))).put 2 y).put 3 z)
      (fun _ _ => some 0) k (by simp only [put_n]; omega)
    rw [forN_succ, e1]
    simp only [Option.bind_some, arnoldiStep, matvec]
    rw [if_neg (by rw [e2]; simp only [put_n]; omega)]
    rfl

theorem restarts_run (A : V →ₗ[ℝ] V) (solve : Solve) (k : ℕ) (m : Mem V) (hn : 3 + k < m.n) (c : ℕ) :
    ∃ m', forN c (fun _ m => restart A solve k m) m = some m' ∧ m'.n = m.n := by
  induction c with
  | zero => exact ⟨m, rfl, rfl⟩
  | succ c ih =>
    obtain ⟨m', h1, h2⟩ := ih
    obtain ⟨m2, e1, e2⟩ := restart_runs A solve k m' (by omega)
    exact ⟨m2, by rw [forN_succ, h1]; exact e1, by rw [e2, h2]⟩

theorem gmres_eq (A : V →ₗ[ℝ] V) (solve : Solve) (k c : ℕ) (m m' : Mem V)
    (h : gmres A solve k c m = .done m') (hc : 0 < c) :
    3 + k < m.n ∧ forN c (fun _ m => restart A solve k m) m = some m' := by
  unfold gmres at h
  split_ifs at h with hl
  by_cases he : m.n = 3 + k
  · exfalso
    obtain ⟨c, rfl⟩ : ∃ d, c = d + 1 := ⟨c - 1, by omega⟩
    have : ∀ d, forN (d + 1) (fun _ m => restart A solve k m) m = none := by
      intro d
      induction d with
      | zero => exact restart_fault A solve k m he
      | succ d ih => rw [forN_succ, ih]; rfl
    rw [this] at h
    simp [Outcome.ofOption] at h
  · refine ⟨by omega, ?_⟩
    cases hh : forN c (fun _ m => restart A solve k m) m with
    | none => rw [hh] at h; simp [Outcome.ofOption] at h
    | some m2 => rw [hh] at h; simp only [Outcome.ofOption, Outcome.done.injEq] at h; rw [h]

/-- What one restart achieves. -/
theorem restart_spec {A : V →ₗ[ℝ] V} {solve : Solve} (hs : LeastSquares solve) {k : ℕ} {m m' : Mem V}
    {x x' b : V} (hn : 3 + k < m.n) (hx : m.v 0 = some x) (hb : m.v 1 = some b)
    (hr : restart A solve k m = some m') (hx' : m'.v 0 = some x') :
    x' - x ∈ krylov A (residual A b x) k ∧
      (∀ z ∈ krylov A (residual A b x) k, ‖residual A b x'‖ ≤ ‖residual A b (x + z)‖) ∧
      LinearIndependent ℝ (krylovVec A (residual A b x) k) := by
  obtain ⟨m2, e1, e2, e3, j, ws, h, e4, e5, e6⟩ := restart_run A solve k m x b hn hx hb
  rw [hr] at e1
  have : m' = m2 := Option.some.inj e1
  subst this
  rcases e6 with ⟨hj, hv⟩ | ⟨_, _, hv⟩
  · subst hj
    rw [hx'] at hv
    have hxe := Option.some.inj hv
    have hspan := e5.span_eq j le_rfl
    rw [← e4]
    set c := solve j (fun a b => if b < j then h a b else 0) ‖residual A b x‖ with hc
    have hcoef : ∀ z ∈ krylov A (ws 0) j, ∃ t : ℕ → ℝ, z = ∑ i ∈ range j, t i • nrm (ws i) := by
      intro z hz
      rw [← hspan, Submodule.mem_span_range_iff_exists_fun] at hz
      obtain ⟨t, ht⟩ := hz
      refine ⟨fun i => if hi : i < j then t ⟨i, hi⟩ else 0, ?_⟩
      rw [← ht, Finset.sum_range]
      refine Finset.sum_congr rfl fun i _ => ?_
      simp
    have hres : ∀ t : ℕ → ℝ, ‖residual A b (x + ∑ i ∈ range j, t i • nrm (ws i))‖ ^ 2 =
        ∑ a ∈ range (j + 1), ((if a = 0 then ‖residual A b x‖ else 0) -
          ∑ i ∈ range j, (if i < j then h a i else 0) * t i) ^ 2 := by
      intro t
      have := e5.residual_sq t
      rw [e4] at this
      rw [show residual A b (x + ∑ i ∈ range j, t i • nrm (ws i)) =
        residual A b x - A (∑ i ∈ range j, t i • nrm (ws i)) by
          unfold residual; rw [map_add]; abel, this]
      refine Finset.sum_congr rfl fun a _ => ?_
      congr 2
      refine Finset.sum_congr rfl fun i hi => ?_
      rw [if_pos (mem_range.1 hi)]
    refine ⟨?_, ?_, e5.krylov_indep⟩
    · rw [hxe, add_sub_cancel_left, ← hspan]
      refine Submodule.sum_mem _ fun i hi => Submodule.smul_mem _ _ (Submodule.subset_span ?_)
      exact ⟨⟨i, mem_range.1 hi⟩, rfl⟩
    · intro z hz
      obtain ⟨t, rfl⟩ := hcoef z hz
      rw [hxe]
      refine (sq_le_sq₀ (norm_nonneg _) (norm_nonneg _)).1 ?_
      rw [hres, hres]
      exact hs j _ _ t
  · rw [hx'] at hv; simp at hv

/-- A restart keeps the solution exactly if the Krylov vectors are independent. -/
theorem restart_finite {A : V →ₗ[ℝ] V} {solve : Solve} {k : ℕ} {m m' : Mem V}
    {x b : V} (hn : 3 + k < m.n) (hx : m.v 0 = some x) (hb : m.v 1 = some b)
    (hr : restart A solve k m = some m') :
    (∃ x', m'.v 0 = some x') ↔ LinearIndependent ℝ (krylovVec A (residual A b x) k) := by
  obtain ⟨m2, e1, e2, e3, j, ws, h, e4, e5, e6⟩ := restart_run A solve k m x b hn hx hb
  rw [hr] at e1
  have : m' = m2 := Option.some.inj e1
  subst this
  rcases e6 with ⟨hj, hv⟩ | ⟨hj, hz, hv⟩
  · subst hj
    refine ⟨fun _ => ?_, fun _ => ⟨_, hv⟩⟩
    rw [← e4]
    exact e5.krylov_indep
  · refine ⟨fun ⟨x', h'⟩ => ?_, fun hi => ?_⟩
    · rw [hv] at h'; simp at h'
    · rw [← e4] at hi
      exact absurd hi (e5.krylov_dep hz hj)

theorem restart_rhs {A : V →ₗ[ℝ] V} {solve : Solve} {k : ℕ} {m m' : Mem V}
    {x b : V} (hn : 3 + k < m.n) (hx : m.v 0 = some x) (hb : m.v 1 = some b)
    (hr : restart A solve k m = some m') : m'.v 1 = some b := by
  obtain ⟨m2, e1, e2, e3, _⟩ := restart_run A solve k m x b hn hx hb
  rw [hr] at e1
  have : m' = m2 := Option.some.inj e1
  subst this
  exact e3

/-- Once lost, the solution stays lost. -/
theorem restarts_none (A : V →ₗ[ℝ] V) (solve : Solve) (k : ℕ) (m : Mem V) (hn : 3 + k < m.n)
    (c d : ℕ) (m1 m2 : Mem V) (h1 : forN c (fun _ m => restart A solve k m) m = some m1)
    (h2 : forN (c + d) (fun _ m => restart A solve k m) m = some m2) (hx : m1.v 0 = none) :
    m2.v 0 = none := by
  induction d generalizing m2 with
  | zero =>
    rw [Nat.add_zero, h1] at h2
    rw [← Option.some.inj h2]; exact hx
  | succ d ih =>
    obtain ⟨m3, e1, e2⟩ := restarts_run A solve k m hn (c + d)
    have h3 := ih m3 e1
    rw [← Nat.add_assoc, forN_succ, e1] at h2
    exact (restart_none A solve k m3 m2 h3 h2 (by omega)).1

/-- A least squares routine exists. -/
theorem exists_leastSquares : ∃ solve, LeastSquares solve := by
  have key : ∀ (k : ℕ) (h : ℕ → ℕ → ℝ) (res : ℝ), ∃ s : ℕ → ℝ, ∀ c : ℕ → ℝ,
      ∑ a ∈ range (k + 1), ((if a = 0 then res else 0) - ∑ b ∈ range k, h a b * s b) ^ 2 ≤
        ∑ a ∈ range (k + 1), ((if a = 0 then res else 0) - ∑ b ∈ range k, h a b * c b) ^ 2 := by
    intro k h res
    let L : (Fin k → ℝ) →ₗ[ℝ] EuclideanSpace ℝ (Fin (k + 1)) :=
      { toFun := fun c => WithLp.toLp 2 fun a => ∑ b : Fin k, h a b * c b
        map_add' := fun x y => by
          ext a
          simp [mul_add, Finset.sum_add_distrib]
        map_smul' := fun t x => by
          ext a
          simp [Finset.mul_sum, mul_left_comm] }
    let u : EuclideanSpace ℝ (Fin (k + 1)) := WithLp.toLp 2 fun a => if (a : ℕ) = 0 then res else 0
    have hc : IsComplete (LinearMap.range L : Set (EuclideanSpace ℝ (Fin (k + 1)))) :=
      Submodule.complete_of_finiteDimensional _
    obtain ⟨v, ⟨s, rfl⟩, hmin⟩ := Submodule.exists_norm_eq_iInf_of_complete_subspace _ hc u
    refine ⟨fun i => if hi : i < k then s ⟨i, hi⟩ else 0, fun c => ?_⟩
    have hle : ‖u - L s‖ ≤ ‖u - L (fun i => c i)‖ := by
      rw [hmin]
      refine ciInf_le ⟨0, ?_⟩ (⟨L (fun i => c i), ⟨_, rfl⟩⟩ : LinearMap.range L)
      rintro _ ⟨w, rfl⟩
      exact norm_nonneg _
    have hsq : ∀ t : ℕ → ℝ, ‖u - L (fun i => t i)‖ ^ 2 =
        ∑ a ∈ range (k + 1), ((if a = 0 then res else 0) - ∑ b ∈ range k, h a b * t b) ^ 2 := by
      intro t
      rw [EuclideanSpace.norm_sq_eq, Finset.sum_range]
      refine Finset.sum_congr rfl fun a _ => ?_
      rw [Real.norm_eq_abs, sq_abs]
      congr 1
      show (if (a : ℕ) = 0 then res else 0) - ∑ b : Fin k, h a b * t b = _
      rw [Finset.sum_range]
    have e1 := hsq fun i => if hi : i < k then s ⟨i, hi⟩ else 0
    have e2 : (fun i : Fin k => if hi : (i : ℕ) < k then s ⟨i, hi⟩ else 0) = s := by
      funext i; simp
    rw [← e1, ← hsq c]
    have : (fun i : Fin k => (fun i : ℕ => if hi : i < k then s ⟨i, hi⟩ else 0) i) = s := e2
    rw [this]
    exact (sq_le_sq₀ (norm_nonneg _) (norm_nonneg _)).2 hle
  refine ⟨fun k h res => (key k h res).choose, fun k h res c => ?_⟩
  exact (key k h res).choose_spec c

/-! ## BiCGStab -/

/-- The state after the initialization. -/
theorem bicg_init (A : V →ₗ[ℝ] V) (m : Mem V) (hn : 8 ≤ m.n) (x b : V)
    (hx : m.v 0 = some x) (hb : m.v 1 = some b) :
    ∃ m0, m0.n = m.n ∧
      (∀ c, bicgstab A c m = .ofOption (forN c (fun _ m => bicgStep A m) m0)) ∧
      Bi A b (residual A b x) 0 m0 x (residual A b x) LinearMap.id ∧
      Bi2 A (residual A b x) 0 m0 LinearMap.id (residual A b x) 1 := by
  set r := residual A b x with hr
  have hrr : add? (smul? (some (-1)) ((m.put 2 (Option.map A (m.v 0))).v 2))
      (smul? (some 1) ((m.put 2 (Option.map A (m.v 0))).v 1)) = some r := by
    rw [put_same, put_ne _ _ (by decide), hx, hb]
    simp only [add?, smul?, Option.map_some, Option.bind_some, Option.some.injEq]
    rw [hr, residual]; module
  refine ⟨((((m.put 2 (Option.map A (m.v 0))).put 2 (some r)).put 5
    (smul? (some 1) (((m.put 2 (Option.map A (m.v 0))).put 2 (some r)).v 2))).put 3
    (smul? (some 1) ((((m.put 2 (Option.map A (m.v 0))).put 2 (some r)).put 5
      (smul? (some 1) (((m.put 2 (Option.map A (m.v 0))).put 2 (some r)).v 2))).v 2))),
    rfl, fun c => ?_, ?_, ?_⟩
  · unfold bicgstab
    rw [if_neg (by omega), matvec_eq A m (by omega) (by omega)]
    simp only [Option.bind_some]
    rw [add_eq _ _ _ (by simp only [put_n]; omega) (by simp only [put_n]; omega)
      (by simp only [put_n]; omega)]
    simp only [Option.bind_some]
    rw [hrr, scale_eq _ _ (by simp only [put_n]; omega) (by simp only [put_n]; omega)]
    simp only [Option.bind_some]
    rw [scale_eq _ _ (by simp only [put_n]; omega) (by simp only [put_n]; omega)]
    simp only [Option.bind_some]
  · refine ⟨?_, ?_, ?_, ?_, rfl, fun _ => rfl, fun i hi => absurd hi (by omega),
      ⟨fun _ => 0, fun a ha => absurd ha (by omega)⟩, fun h => absurd h (by omega)⟩
    · rw [put_ne _ _ (by decide), put_ne _ _ (by decide), put_ne _ _ (by decide),
        put_ne _ _ (by decide), hx]
    · rw [put_ne _ _ (by decide), put_ne _ _ (by decide), put_ne _ _ (by decide),
        put_ne _ _ (by decide), hb]
    · rw [put_ne _ _ (by decide), put_same, put_same]
      simp [smul?]
    · rw [put_ne _ _ (by decide), put_ne _ _ (by decide), put_same]
      rfl
  · refine ⟨?_, fun i hi => absurd hi (by omega), one_ne_zero, fun v _ => ?_⟩
    · rw [put_same, put_ne _ _ (by decide), put_same]
      simp [smul?]
    · simp [lf]

theorem bicg_runs (A : V →ₗ[ℝ] V) (m : Mem V) (hn : 8 ≤ m.n) (c : ℕ) :
    ∃ m', forN c (fun _ m => bicgStep A m) m = some m' ∧ m'.n = m.n := by
  induction c with
  | zero => exact ⟨m, rfl, rfl⟩
  | succ c ih =>
    obtain ⟨m1, h1, h2⟩ := ih
    obtain ⟨m2, e1, e2, _⟩ := bicg_step A m1 (by omega)
    exact ⟨m2, by rw [forN_succ, h1]; exact e1, by rw [e2, h2]⟩

/-- The invariant after any number of iterations. -/
theorem bicg_inv (A : V →ₗ[ℝ] V) (m0 : Mem V) (hn : 8 ≤ m0.n) (x b : V) (q : V)
    (h1 : Bi A b q 0 m0 x q LinearMap.id) (h2 : Bi2 A q 0 m0 LinearMap.id q 1) (c : ℕ) (m' : Mem V)
    (hm : forN c (fun _ m => bicgStep A m) m0 = some m') :
    m'.v 0 = none ∨ ∃ x' R Q, Bi A b q c m' x' R Q ∧
      (m'.v 3 = none ∨ ∃ P l, Bi2 A q c m' Q P l) := by
  induction c generalizing m' with
  | zero =>
    have : m' = m0 := (Option.some.inj hm).symm
    subst this
    exact Or.inr ⟨x, q, LinearMap.id, h1, Or.inr ⟨q, 1, h2⟩⟩
  | succ c ih =>
    obtain ⟨m1, e1, e2⟩ := bicg_runs A m0 hn c
    rw [forN_succ, e1] at hm
    have hm' : bicgStep A m1 = some m' := hm
    obtain ⟨m2, f1, f2, f3, f4, f5, f6, f7⟩ := bicg_step A m1 (by omega)
    have : m' = m2 := Option.some.inj (hm'.symm.trans f1)
    subst this
    rcases ih m1 e1 with h0 | ⟨x', R, Q, g1, g2⟩
    · exact Or.inl (f5 h0)
    · rcases g2 with h3 | ⟨P, l, g2⟩
      · exact Or.inl (f6 h3)
      · exact g1.step g2 (by omega) hm'

end Hexed.Krylov

end
