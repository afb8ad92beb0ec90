import Verif.Krylov.Lemmas4
import Mathlib.Tactic.NormNum
import Mathlib.Analysis.InnerProductSpace.Basic
import Mathlib.Analysis.Complex.Basic

set_option autoImplicit false
set_option linter.unusedVariables false

/-!
# C62, C63: the iterative solvers for linear equations
-/

noncomputable section

open Classical RealInnerProductSpace Finset

namespace Hexed.Krylov

variable {V : Type} [NormedAddCommGroup V] [InnerProductSpace ℝ V]

/-! ## C62: GMRES -/

/-- **C62.** With storage for `n_restart + 4` vectors or more the solver stays inside it, whatever the
equation. -/
theorem gmres_storage (A : V →ₗ[ℝ] V) (solve : Solve) (k c : ℕ) (m : Mem V) (hn : k + 4 ≤ m.n) :
    ∃ m', gmres A solve k c m = .done m' ∧ m'.n = m.n := by
  obtain ⟨m', h1, h2⟩ := restarts_run A solve k m (by omega) c
  refine ⟨m', ?_, h2⟩
  unfold gmres
  rw [if_neg (by omega), h1]
  rfl

/-- **C62, refuted.** The documented requirement of `n_restart + 3` vectors (include/iterative.hpp 15),
which is also what the assertion checks, is one short: with exactly that many, every call that does
anything at all accesses a vector that does not exist. -/
theorem gmres_storage_refuted (A : V →ₗ[ℝ] V) (solve : Solve) (k c : ℕ) (m : Mem V)
    (hn : m.n = k + 3) (hc : 0 < c) : gmres A solve k c m = .fault := by
  cases h : gmres A solve k c m with
  | rejected => unfold gmres at h; rw [if_neg (by omega)] at h; cases hh : forN c (fun _ m => restart A solve k m) m <;> rw [hh] at h <;> simp [Outcome.ofOption] at h
  | fault => rfl
  | done m' =>
    have := (gmres_eq A solve k c m m' h hc).1
    omega

/-- **C62, refuted.** This is what `Solver::update_implicit` does: thirty vectors
(include/Solver.hpp 73), twenty-seven steps (src/Solver.cpp 892). -/
theorem update_implicit_overruns (A : V →ₗ[ℝ] V) (solve : Solve) (m : Mem V) (hn : m.n = 30) :
    gmres A solve 27 1 m = .fault :=
  gmres_storage_refuted A solve 27 1 m hn (by norm_num)

/-- **C62.** One round of GMRES that leaves a finite solution has made the residual as small as any
combination of the first `n_restart` Krylov vectors can make it. -/
theorem gmres_optimal (A : V →ₗ[ℝ] V) (solve : Solve) (hs : LeastSquares solve) (k : ℕ) (m m' : Mem V)
    (x x' b : V) (hx : m.v 0 = some x) (hb : m.v 1 = some b)
    (h : gmres A solve k 1 m = .done m') (hx' : m'.v 0 = some x') :
    x' - x ∈ krylov A (residual A b x) k ∧
      ∀ z ∈ krylov A (residual A b x) k, ‖residual A b x'‖ ≤ ‖residual A b (x + z)‖ := by
  obtain ⟨hn, hr⟩ := gmres_eq A solve k 1 m m' h (by norm_num)
  have hr' : restart A solve k m = some m' := hr
  obtain ⟨h1, h2, _⟩ := restart_spec hs hn hx hb hr' hx'
  exact ⟨h1, h2⟩

/-- **C62.** Exactly when one round leaves a finite solution: when the Krylov vectors are linearly
independent. -/
theorem gmres_finite_iff (A : V →ₗ[ℝ] V) (solve : Solve) (k : ℕ) (m m' : Mem V)
    (x b : V) (hx : m.v 0 = some x) (hb : m.v 1 = some b) (h : gmres A solve k 1 m = .done m') :
    (∃ x', m'.v 0 = some x') ↔ LinearIndependent ℝ (krylovVec A (residual A b x) k) := by
  obtain ⟨hn, hr⟩ := gmres_eq A solve k 1 m m' h (by norm_num)
  exact restart_finite hn hx hb hr

/-- **C62.** Any number of rounds that leave a finite solution have not made the residual larger, and
the right-hand side is as it was. -/
theorem gmres_descends (A : V →ₗ[ℝ] V) (solve : Solve) (hs : LeastSquares solve) (k c : ℕ)
    (m m' : Mem V) (x x' b : V) (hx : m.v 0 = some x) (hb : m.v 1 = some b)
    (h : gmres A solve k c m = .done m') (hx' : m'.v 0 = some x') :
    ‖residual A b x'‖ ≤ ‖residual A b x‖ ∧ m'.v 1 = some b := by
  rcases Nat.eq_zero_or_pos c with h0 | hc
  · subst h0
    unfold gmres at h
    split_ifs at h with hl
    simp only [forN, Outcome.ofOption, Outcome.done.injEq] at h
    subst h
    rw [hx] at hx'
    rw [Option.some.inj hx']
    exact ⟨le_rfl, hb⟩
  obtain ⟨hn, hr⟩ := gmres_eq A solve k c m m' h hc
  clear h hc
  induction c generalizing m' x' with
  | zero =>
    have : m' = m := (Option.some.inj hr).symm
    subst this
    rw [hx] at hx'
    rw [Option.some.inj hx']
    exact ⟨le_rfl, hb⟩
  | succ c ih =>
    obtain ⟨m1, e1, e2⟩ := restarts_run A solve k m hn c
    have hr0 := hr
    rw [forN_succ, e1] at hr
    have hr' : restart A solve k m1 = some m' := hr
    cases h1 : m1.v 0 with
    | none =>
      have := restarts_none A solve k m hn c 1 m1 m' e1 hr0 h1
      rw [hx'] at this; simp at this
    | some x1 =>
      obtain ⟨i1, i2⟩ := ih m1 x1 h1 e1
      obtain ⟨_, s2, _⟩ := restart_spec hs (by omega) h1 i2 hr' hx'
      refine ⟨le_trans ?_ i1, restart_rhs (by omega) h1 i2 hr'⟩
      have := s2 0 (Submodule.zero_mem _)
      rwa [add_zero] at this

/-- **C62.** In exact arithmetic one round with as many steps as there are unknowns solves the
equation, if the solution it leaves is finite and the operator is invertible. -/
theorem gmres_exact (A : V →ₗ[ℝ] V) [FiniteDimensional ℝ V] (hA : Function.Injective A)
    (solve : Solve) (hs : LeastSquares solve) (m m' : Mem V)
    (x x' b : V) (hx : m.v 0 = some x) (hb : m.v 1 = some b)
    (h : gmres A solve (Module.finrank ℝ V) 1 m = .done m') (hx' : m'.v 0 = some x') : A x' = b := by
  obtain ⟨hn, hr⟩ := gmres_eq A solve _ 1 m m' h (by norm_num)
  have hr' : restart A solve _ m = some m' := hr
  obtain ⟨h1, h2, h3⟩ := restart_spec hs hn hx hb hr' hx'
  have htop : krylov A (residual A b x) (Module.finrank ℝ V) = ⊤ :=
    h3.span_eq_top_of_card_eq_finrank' (by simp)
  have hsurj : Function.Surjective A := LinearMap.injective_iff_surjective.1 hA
  obtain ⟨y, hy⟩ := hsurj b
  have := h2 (y - x) (by rw [htop]; trivial)
  rw [show x + (y - x) = y by abel] at this
  have hz : residual A b y = 0 := by unfold residual; rw [hy, sub_self]
  rw [hz, norm_zero] at this
  have h0 : residual A b x' = 0 := norm_eq_zero.1 (le_antisymm this (norm_nonneg _))
  unfold residual at h0
  exact (sub_eq_zero.1 h0).symm

/-- **C62, refuted.** A guess that already solves the equation is destroyed: the residual is divided by
its length, which is zero. -/
theorem gmres_exact_guess_refuted (A : V →ₗ[ℝ] V) (solve : Solve) (k c : ℕ) (m m' : Mem V) (x b : V)
    (hx : m.v 0 = some x) (hb : m.v 1 = some b) (hsol : A x = b) (hk : 0 < k) (hc : 0 < c)
    (h : gmres A solve k c m = .done m') : m'.v 0 = none := by
  obtain ⟨hn, hr⟩ := gmres_eq A solve k c m m' h hc
  obtain ⟨m1, e1, e2⟩ := restart_runs A solve k m hn
  have hz : residual A b x = 0 := by unfold residual; rw [hsol, sub_self]
  have h1 : m1.v 0 = none := by
    cases hv : m1.v 0 with
    | none => rfl
    | some y =>
      have := (restart_finite hn hx hb e1).1 ⟨y, hv⟩
      exact absurd (this.ne_zero ⟨0, hk⟩) (by simp [krylovVec, hz])
  have hr' : forN (1 + (c - 1)) (fun _ m => restart A solve k m) m = some m' := by
    rw [show 1 + (c - 1) = c by omega]; exact hr
  exact restarts_none A solve k m hn 1 (c - 1) m1 m' e1 hr' h1

/-- **C62, refuted.** So is every guess when more steps are asked for than there are unknowns. -/
theorem gmres_too_many_refuted (A : V →ₗ[ℝ] V) [FiniteDimensional ℝ V] (solve : Solve) (k c : ℕ)
    (m m' : Mem V) (x b : V) (hx : m.v 0 = some x) (hb : m.v 1 = some b)
    (hk : Module.finrank ℝ V < k) (hc : 0 < c) (h : gmres A solve k c m = .done m') :
    m'.v 0 = none := by
  obtain ⟨hn, hr⟩ := gmres_eq A solve k c m m' h hc
  obtain ⟨m1, e1, e2⟩ := restart_runs A solve k m hn
  have h1 : m1.v 0 = none := by
    cases hv : m1.v 0 with
    | none => rfl
    | some y =>
      have := ((restart_finite hn hx hb e1).1 ⟨y, hv⟩).fintype_card_le_finrank
      simp at this
      omega
  have hr' : forN (1 + (c - 1)) (fun _ m => restart A solve k m) m = some m' := by
    rw [show 1 + (c - 1) = c by omega]; exact hr
  exact restarts_none A solve k m hn 1 (c - 1) m1 m' e1 hr' h1

/-- Storage for `n` vectors of the real line, holding a guess and a right-hand side. -/
def line (n : ℕ) (x b : ℝ) : Mem ℝ := ⟨n, fun i => if i = 0 then some x else some b⟩

/-- The hypotheses are met: one step solves `2 x = 6`. -/
example : ∃ solve m', LeastSquares solve ∧
    gmres ((2 : ℝ) • LinearMap.id) solve 1 1 (line 5 0 6) = .done m' ∧ m'.v 0 = some 3 := by
  obtain ⟨solve, hs⟩ := exists_leastSquares
  obtain ⟨m', h, _⟩ := gmres_storage ((2 : ℝ) • LinearMap.id) solve 1 1 (line 5 0 6) (by simp [line])
  refine ⟨solve, m', hs, h, ?_⟩
  have hind : LinearIndependent ℝ (krylovVec ((2 : ℝ) • LinearMap.id)
      (residual ((2 : ℝ) • LinearMap.id) (6 : ℝ) 0) 1) := by
    rw [linearIndependent_unique_iff]
    simp [krylovVec, residual]
  obtain ⟨x', hx'⟩ := (gmres_finite_iff _ solve 1 _ m' 0 6 rfl rfl h).2 hind
  have hinj : Function.Injective ((2 : ℝ) • (LinearMap.id : ℝ →ₗ[ℝ] ℝ)) := by
    intro a b hab
    have : (2 : ℝ) * a = 2 * b := by simpa using hab
    linarith
  have h' : gmres ((2 : ℝ) • LinearMap.id) solve (Module.finrank ℝ ℝ) 1 (line 5 0 6) = .done m' := by
    rw [Module.finrank_self]; exact h
  have := gmres_exact ((2 : ℝ) • LinearMap.id) hinj solve hs _ m' 0 x' 6 rfl rfl h' hx'
  have h3 : (2 : ℝ) * x' = 6 := by simpa using this
  rw [hx']
  congr 1
  linarith

/-! ## C63: BiCGStab -/

/-- **C63.** Eight vectors are enough: the solver stays inside the storage. -/
theorem bicg_storage (A : V →ₗ[ℝ] V) (c : ℕ) (m : Mem V) :
    (m.n < 8 ∧ bicgstab A c m = .rejected) ∨ (8 ≤ m.n ∧ ∃ m', bicgstab A c m = .done m' ∧ m'.n = m.n) := by
  rcases Nat.lt_or_ge m.n 8 with h | h
  · exact Or.inl ⟨h, by simp [bicgstab, h]⟩
  · refine Or.inr ⟨h, ?_⟩
    unfold bicgstab
    rw [if_neg (by omega), matvec_eq A m (by omega) (by omega)]
    simp only [Option.bind_some]
    rw [add_eq _ _ _ (by simp only [put_n]; omega) (by simp only [put_n]; omega)
      (by simp only [put_n]; omega)]
    simp only [Option.bind_some]
    rw [scale_eq _ _ (by simp only [put_n]; omega) (by simp only [put_n]; omega)]
    simp only [Option.bind_some]
    rw [scale_eq _ _ (by simp only [put_n]; omega) (by simp only [put_n]; omega)]
    simp only [Option.bind_some]
    generalize (add? _ _ : Option V) = y
    obtain ⟨m', h1, h2⟩ := bicg_runs A ((((m.put 2 (Option.map A (m.v 0))).put 2 y).put 5
      (smul? (some 1) (((m.put 2 (Option.map A (m.v 0))).put 2 y).v 2))).put 3
      (smul? (some 1) ((((m.put 2 (Option.map A (m.v 0))).put 2 y).put 5
        (smul? (some 1) (((m.put 2 (Option.map A (m.v 0))).put 2 y).v 2))).v 2)))
      (by simp only [put_n]; exact h) c
    exact ⟨m', by rw [h1]; rfl, by rw [h2]; rfl⟩

theorem bicg_room {A : V →ₗ[ℝ] V} {c : ℕ} {m m' : Mem V} (h : bicgstab A c m = .done m') : 8 ≤ m.n := by
  by_contra hl
  unfold bicgstab at h
  rw [if_pos (by omega)] at h
  simp at h

/-- **C63.** As long as the solution is finite, the vector the solver maintains as the residual is the
residual of that solution, and the right-hand side is as it was. -/
theorem bicg_residual (A : V →ₗ[ℝ] V) (c : ℕ) (m m' : Mem V) (x x' b : V)
    (hx : m.v 0 = some x) (hb : m.v 1 = some b) (h : bicgstab A c m = .done m')
    (hx' : m'.v 0 = some x') : m'.v 2 = some (residual A b x') ∧ m'.v 1 = some b := by
  have hn := bicg_room h
  obtain ⟨m0, n0, e, b1, b2⟩ := bicg_init A m hn x b hx hb
  rw [e] at h
  obtain ⟨m1, e1, e2⟩ := bicg_runs A m0 (by omega) c
  rw [e1] at h
  simp only [Outcome.ofOption, Outcome.done.injEq] at h
  subst h
  rcases bicg_inv A m0 (by omega) x b _ b1 b2 c m1 e1 with h0 | ⟨x2, R, Q, g1, _⟩
  · rw [hx'] at h0; simp at h0
  · have : x' = x2 := Option.some.inj (hx'.symm.trans g1.sol)
    subst this
    exact ⟨by rw [g1.res, g1.eqn], g1.rhs⟩

/-- **C63.** What one more iteration does.  It first moves to a point `y` whose residual is orthogonal
to the residual of the initial guess, and from there along that residual to the point where the
new residual is smallest. -/
theorem bicg_iteration (A : V →ₗ[ℝ] V) (c : ℕ) (m m1 m2 : Mem V) (x x1 x2 b : V)
    (hx : m.v 0 = some x) (hb : m.v 1 = some b)
    (h1 : bicgstab A c m = .done m1) (hx1 : m1.v 0 = some x1)
    (h2 : bicgstab A (c + 1) m = .done m2) (hx2 : m2.v 0 = some x2) :
    ∃ (y : V) (ω : ℝ), ⟪residual A b y, residual A b x⟫ = 0 ∧ x2 = y + ω • residual A b y ∧
      ∀ t : ℝ, ‖residual A b x2‖ ≤ ‖residual A b (y + t • residual A b y)‖ := by
  have hn := bicg_room h1
  obtain ⟨m0, n0, e, b1, b2⟩ := bicg_init A m hn x b hx hb
  obtain ⟨m3, e1, e2⟩ := bicg_runs A m0 (by omega) c
  rw [e, forN_succ, e1] at h2
  obtain ⟨m4, f1, f2, f3, f4, f5, f6, f7⟩ := bicg_step A m3 (by omega)
  simp only [Option.bind_some, f1, Outcome.ofOption, Outcome.done.injEq] at h2
  subst h2
  set q := residual A b x with hq
  rcases bicg_inv A m0 (by omega) x b q b1 b2 c m3 e1 with h0 | ⟨x3, R, Q, g1, g2⟩
  · rw [f5 h0] at hx2; simp at hx2
  rcases g2 with h3 | ⟨P, l, g2⟩
  · rw [f6 h3] at hx2; simp at hx2
  obtain ⟨k1, k2⟩ := f7 x3 (Q R) (Q P) q g1.sol g1.res g2.dir g1.ref
  by_cases hz : ⟪A (Q P), q⟫ = 0
  · rw [k1 (Or.inl hz)] at hx2; simp at hx2
  by_cases hAs : A (Q R - (⟪Q R, q⟫ / ⟪A (Q P), q⟫) • A (Q P)) = 0
  · rw [k1 (Or.inr hAs)] at hx2; simp at hx2
  obtain ⟨α, s, ω, hα, hs, hω, l1, l2, _⟩ := k2 hz hAs
  rw [hx2] at l1
  have hx2' := Option.some.inj l1
  have hsy : residual A b (x3 + α • Q P) = s := by
    rw [hs, g1.eqn]
    unfold residual
    rw [map_add, map_smul]; abel
  refine ⟨x3 + α • Q P, ω, ?_, by rw [hsy]; exact hx2', ?_⟩
  · rw [hsy, hs, inner_sub_left, real_inner_smul_left, hα]
    field_simp
    ring
  · intro t
    rw [hx2', hsy]
    have hres : ∀ u : ℝ, residual A b (x3 + α • Q P + u • s) = s - u • A s := by
      intro u
      rw [← hsy]
      unfold residual
      rw [map_add, map_smul]; abel
    rw [hres, hres]
    refine (sq_le_sq₀ (norm_nonneg _) (norm_nonneg _)).1 ?_
    have hne : ⟪A s, A s⟫ ≠ 0 := by
      rw [hs, hα]
      exact fun hh => hAs (inner_self_eq_zero.1 hh)
    have hexp : ∀ u : ℝ, ‖s - u • A s‖ ^ 2 = ‖s‖ ^ 2 - 2 * u * ⟪A s, s⟫ + u ^ 2 * ⟪A s, A s⟫ := by
      intro u
      rw [norm_sub_sq_real, real_inner_smul_right, norm_smul, mul_pow, Real.norm_eq_abs, sq_abs,
        ← real_inner_self_eq_norm_sq (A s), real_inner_comm s (A s)]
      ring
    rw [hexp, hexp]
    have hω' : ω * ⟪A s, A s⟫ = ⟪A s, s⟫ := by rw [hω]; field_simp
    have hpos : 0 ≤ ⟪A s, A s⟫ := real_inner_self_nonneg
    rw [← hω']
    nlinarith [mul_nonneg hpos (sq_nonneg (t - ω))]

/-- **C63, refuted.** An iteration after the equation has been solved exactly destroys the solution. -/
theorem bicg_overrun_refuted (A : V →ₗ[ℝ] V) (c : ℕ) (m m1 m2 : Mem V) (x x1 b : V)
    (hx : m.v 0 = some x) (hb : m.v 1 = some b)
    (h1 : bicgstab A c m = .done m1) (hx1 : m1.v 0 = some x1) (hsol : A x1 = b)
    (h2 : bicgstab A (c + 1) m = .done m2) : m2.v 0 = none := by
  have hn := bicg_room h1
  obtain ⟨m0, n0, e, b1, b2⟩ := bicg_init A m hn x b hx hb
  obtain ⟨m3, e1, e2⟩ := bicg_runs A m0 (by omega) c
  rw [e, e1] at h1
  simp only [Outcome.ofOption, Outcome.done.injEq] at h1
  subst h1
  rw [e, forN_succ, e1] at h2
  obtain ⟨m4, f1, f2, f3, f4, f5, f6, f7⟩ := bicg_step A m3 (by omega)
  simp only [Option.bind_some, f1, Outcome.ofOption, Outcome.done.injEq] at h2
  subst h2
  rcases bicg_inv A m0 (by omega) x b _ b1 b2 c m3 e1 with h0 | ⟨x3, R, Q, g1, g2⟩
  · exact f5 h0
  rcases g2 with h3 | ⟨P, l, g2⟩
  · exact f6 h3
  have hx3 : x1 = x3 := Option.some.inj (hx1.symm.trans g1.sol)
  subst hx3
  have hQR : Q R = 0 := by rw [g1.eqn]; unfold residual; rw [hsol, sub_self]
  obtain ⟨k1, k2⟩ := f7 x1 (Q R) (Q P) _ g1.sol g1.res g2.dir g1.ref
  exact k1 (Or.inr (by rw [hQR]; simp))

/-- **C63, refuted.** In particular a guess that already solves the equation is destroyed. -/
theorem bicg_exact_guess_refuted (A : V →ₗ[ℝ] V) (c : ℕ) (m m' : Mem V) (x b : V)
    (hx : m.v 0 = some x) (hb : m.v 1 = some b) (hsol : A x = b) (hc : 0 < c)
    (h : bicgstab A c m = .done m') : m'.v 0 = none := by
  have hn := bicg_room h
  obtain ⟨m0, n0, e, b1, b2⟩ := bicg_init A m hn x b hx hb
  induction c, hc using Nat.le_induction generalizing m' with
  | base =>
    exact bicg_overrun_refuted A 0 m m0 m' x x b hx hb (by rw [e]; rfl) b1.sol hsol h
  | succ c hc ih =>
    obtain ⟨m3, e1, e2⟩ := bicg_runs A m0 (by omega) c
    have h3 := ih m3 (by rw [e, e1]; rfl)
    rw [e, forN_succ, e1] at h
    obtain ⟨m4, f1, f2, f3, f4, f5, f6, f7⟩ := bicg_step A m3 (by omega)
    simp only [Option.bind_some, f1, Outcome.ofOption, Outcome.done.injEq] at h
    subst h
    exact f5 h3

/-- **C63, refuted.** In exact arithmetic the solver never survives as many iterations as there are
unknowns. -/
theorem bicg_too_many_refuted (A : V →ₗ[ℝ] V) [FiniteDimensional ℝ V] (c : ℕ) (m m' : Mem V) (x b : V)
    (hx : m.v 0 = some x) (hb : m.v 1 = some b) (hc : 0 < c) (hd : Module.finrank ℝ V ≤ c)
    (h : bicgstab A c m = .done m') : m'.v 0 = none := by
  have hn := bicg_room h
  obtain ⟨m0, n0, e, b1, b2⟩ := bicg_init A m hn x b hx hb
  obtain ⟨m3, e1, e2⟩ := bicg_runs A m0 (by omega) c
  rw [e, e1] at h
  simp only [Outcome.ofOption, Outcome.done.injEq] at h
  subst h
  rcases bicg_inv A m0 (by omega) x b _ b1 b2 c m3 e1 with h0 | ⟨x3, R, Q, g1, g2⟩
  · exact h0
  · obtain ⟨vs, hvs⟩ := g1.tri
    exact absurd (tri_zero rfl vs (fun a ha => hvs a (by omega)) R fun i hi => g1.orth i (by omega))
      (g1.nz hc)

/-- The hypotheses are met: one iteration for `(1 + i) z = 1` in the complex plane, a space of two
dimensions, is finite.  The equation it solves only in part. -/
example : ∃ m', bicgstab (LinearMap.mulLeft ℝ (1 + Complex.I)) 1
      ⟨8, fun i => if i = 0 then some 0 else some 1⟩ = .done m' ∧
    m'.v 0 = some (1 - (1 / 2 : ℝ) • Complex.I) := by
  obtain ⟨m0, n0, e, b1, b2⟩ := bicg_init (LinearMap.mulLeft ℝ (1 + Complex.I))
    ⟨8, fun i => if i = 0 then some 0 else some 1⟩ le_rfl 0 1 rfl rfl
  have hr : residual (LinearMap.mulLeft ℝ (1 + Complex.I)) 1 0 = 1 := by simp [residual]
  rw [hr] at b1 b2
  obtain ⟨m4, f1, f2, f3, f4, f5, f6, f7⟩ := bicg_step (LinearMap.mulLeft ℝ (1 + Complex.I)) m0
    (by rw [n0])
  obtain ⟨k1, k2⟩ := f7 0 1 1 1 b1.sol b1.res b2.dir b1.ref
  have h1 : ⟪LinearMap.mulLeft ℝ (1 + Complex.I) (1 : ℂ), 1⟫ = 1 := by simp [Complex.inner]
  have h2 : ⟪(1 : ℂ), 1⟫ = 1 := by simp [Complex.inner]
  rw [h1, h2] at k2
  have hs : (1 : ℂ) - (1 / 1 : ℝ) • (LinearMap.mulLeft ℝ (1 + Complex.I)) 1 = -Complex.I := by
    simp
  have hA : (LinearMap.mulLeft ℝ (1 + Complex.I)) (-Complex.I) = 1 - Complex.I := by
    simp only [LinearMap.mulLeft_apply]
    have := Complex.I_mul_I
    linear_combination (-1 : ℂ) * this
  rw [hs, hA] at k2
  obtain ⟨α, s, ω, hα, hss, hω, l1, _⟩ := k2 one_ne_zero (by
    intro hh
    have := congrArg Complex.re hh
    simp at this)
  refine ⟨m4, by rw [e, forN_succ]; simp [forN, f1, Outcome.ofOption], ?_⟩
  rw [hα, hs] at hss
  rw [hss, hA] at hω
  have hω' : ω = 1 / 2 := by
    rw [hω]
    simp only [Complex.inner]
    simp [-Complex.conj_mul', -Complex.ofReal_pow]
    norm_num
  rw [l1, hα, hss, hω']
  congr 1
  simp
  ring

end Hexed.Krylov

end
