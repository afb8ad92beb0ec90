import Verif.Krylov.Lemmas

set_option autoImplicit false
set_option linter.unusedVariables false

/-!
# GMRES: what the program does to its storage
-/

noncomputable section

open Classical RealInnerProductSpace Finset

namespace Hexed.Krylov

variable {V : Type} [NormedAddCommGroup V] [InnerProductSpace ℝ V]

theorem forN_succ {σ : Type} (n : ℕ) (f : ℕ → σ → Option σ) (s : σ) :
    forN (n + 1) f s = (forN n f s).bind (f n) := rfl

/-- The stored form of a vector that was divided by its length. -/
def cand (w : V) : Option V := if w = 0 then none else some (nrm w)

theorem div_norm (w : V) : smul? (div? (some 1) (some ‖w‖)) (some w) = cand w := by
  unfold div? smul? cand nrm
  by_cases h : w = 0
  · simp [h]
  · simp [h, norm_ne_zero_iff.2 h]

theorem sqrt_inner (w : V) : Real.sqrt ⟪w, w⟫ = ‖w‖ := by
  rw [real_inner_self_eq_norm_sq, Real.sqrt_sq (norm_nonneg _)]

/-- Storing a vector. -/
def Mem.put (m : Mem V) (i : ℕ) (x : Option V) : Mem V := ⟨m.n, Function.update m.v i x⟩

@[simp] theorem put_n (m : Mem V) (i : ℕ) (x : Option V) : (m.put i x).n = m.n := rfl
@[simp] theorem put_same (m : Mem V) (i : ℕ) (x : Option V) : (m.put i x).v i = x :=
  Function.update_self ..
theorem put_ne (m : Mem V) {i j : ℕ} (x : Option V) (h : j ≠ i) : (m.put i x).v j = m.v j :=
  Function.update_of_ne h ..

theorem matvec_eq (A : V →ₗ[ℝ] V) (m : Mem V) {o i : ℕ} (ho : o < m.n) (hi : i < m.n) :
    matvec A m o i = some (m.put o ((m.v i).map A)) := if_pos ⟨ho, hi⟩

theorem add_eq (m : Mem V) {o i j : ℕ} (c d : Option ℝ) (ho : o < m.n) (hi : i < m.n)
    (hj : j < m.n) :
    add m o c i d j = some (m.put o (add? (smul? c (m.v i)) (smul? d (m.v j)))) :=
  if_pos ⟨ho, hi, hj⟩

theorem scale_eq (m : Mem V) {o i : ℕ} (c : Option ℝ) (ho : o < m.n) (hi : i < m.n) :
    scale m o i c = some (m.put o (smul? c (m.v i))) := if_pos ⟨ho, hi⟩

theorem inner_eq (m : Mem V) {i j : ℕ} (hi : i < m.n) (hj : j < m.n) :
    inner m i j = some ((m.v i).bind fun x => (m.v j).map fun y => ⟪x, y⟫) := if_pos ⟨hi, hj⟩

theorem norm_eq (m : Mem V) {i : ℕ} (hi : i < m.n) :
    norm m i = some ((m.v i).map fun x => ‖x‖) := by
  unfold norm
  rw [inner_eq m hi hi]
  cases m.v i with
  | none => rfl
  | some x => simp [sqrt_inner]

/-- The loop over `col` for a finite vector and orthonormal previous ones. -/
theorem orthog_good (iter : ℕ) (m : Mem V) (H : Hess) (f : ℕ → V) (w : V)
    (hn : 3 + iter + 1 < m.n) (hf : ∀ i ≤ iter, m.v (3 + i) = some (f i))
    (ho : ∀ i j, i ≤ iter → j ≤ iter → ⟪f i, f j⟫ = if i = j then 1 else 0)
    (hw : m.v (3 + iter + 1) = some w) :
    ∀ c ≤ iter + 1, forN c (orthogStep iter) (m, H) =
      some (m.put (3 + iter + 1) (some (w - ∑ i ∈ range c, ⟪w, f i⟫ • f i)),
        fun i j => if j = iter ∧ i < c then some ⟪w, f i⟫ else H i j) := by
  intro c
  induction c with
  | zero =>
    intro _
    have : Function.update m.v (3 + iter + 1) (some w) = m.v := by
      rw [← hw, Function.update_eq_self]
    simp [forN, Mem.put, this]
  | succ c ih =>
    intro hc
    rw [forN_succ, ih (by omega)]
    have hne : 3 + c ≠ 3 + iter + 1 := by omega
    have hval : ⟪w - ∑ i ∈ range c, ⟪w, f i⟫ • f i, f c⟫ = ⟪w, f c⟫ := by
      rw [inner_sub_left, sum_inner, sum_eq_zero, sub_zero]
      intro i hi
      rw [real_inner_smul_left, ho i c (by have := mem_range.1 hi; omega) (by omega),
        if_neg (by have := mem_range.1 hi; omega), mul_zero]
    simp only [Option.bind_some, orthogStep]
    rw [inner_eq _ (by simp only [put_n]; omega) (by simp only [put_n]; omega)]
    simp only [Option.bind_some]
    rw [add_eq _ _ _ (by simp only [put_n]; omega) (by simp only [put_n]; omega)
      (by simp only [put_n]; omega)]
    simp only [Option.map_some, put_same, put_ne _ _ hne, hf c (by omega), Option.bind_some,
      Option.some.injEq, Prod.mk.injEq, hval]
    simp only [Mem.put, Mem.mk.injEq, true_and, Function.update_idem]
    refine ⟨?_, ?_⟩
    · congr 1
      simp only [add?, smul?, Option.bind_some, Option.map_some, Option.some.injEq, one_smul]
      rw [sum_range_succ, neg_smul]
      abel
    · funext i j
      simp only [Hess.set, Function.update_apply]
      by_cases hi : i = c
      · subst hi
        by_cases hj : j = iter
        · simp [hj]
        · simp [hj]
      · by_cases hj : j = iter
        · simp only [hi, hj, true_and, if_false]
          have : i < c + 1 ↔ i < c := by omega
          simp [this]
        · simp [hi, hj]

/-- The loop over `col` never faults, changes one vector and one column only, and leaves no finite
first entry if the vector is not finite. -/
theorem orthog_frame (iter : ℕ) (m : Mem V) (H : Hess) (hn : 3 + iter + 1 < m.n) :
    ∀ c ≤ iter + 1, ∃ m' H', forN c (orthogStep iter) (m, H) = some (m', H') ∧ m'.n = m.n ∧
      (∀ i, i ≠ 3 + iter + 1 → m'.v i = m.v i) ∧ (∀ a b, b ≠ iter → H' a b = H a b) ∧
      (m.v (3 + iter + 1) = none → m'.v (3 + iter + 1) = none ∧ (0 < c → H' 0 iter = none)) := by
  intro c
  induction c with
  | zero =>
    intro _
    exact ⟨m, H, rfl, rfl, fun _ _ => rfl, fun _ _ _ => rfl, fun h => ⟨h, by simp⟩⟩
  | succ c ih =>
    intro hc
    obtain ⟨m', H', h1, h2, h3, h4, h5⟩ := ih (by omega)
    rw [forN_succ, h1]
    simp only [Option.bind_some, orthogStep, inner, add]
    rw [if_pos ⟨by omega, by omega⟩]
    simp only [Option.bind_some]
    rw [if_pos ⟨by omega, by omega, by omega⟩]
    refine ⟨_, _, rfl, h2, ?_, ?_, ?_⟩
    · intro i hi
      simp only [Function.update_of_ne hi]
      exact h3 i hi
    · intro a b hb
      by_cases ha : a = c
      · simp only [Hess.set, ha, Function.update_self, Function.update_of_ne hb]
        exact h4 c b hb
      · simp only [Hess.set, Function.update_of_ne ha]
        exact h4 a b hb
    · intro hnone
      obtain ⟨h6, h7⟩ := h5 hnone
      refine ⟨by simp [h6, smul?, add?], ?_⟩
      intro _
      simp only [Hess.set, Function.update_apply]
      by_cases h0 : 0 = c
      · simp [← h0, h6]
      · simp only [h0, if_false]
        exact h7 (by omega)

/-- One step of the Arnoldi process never faults if the storage is large enough, and changes one
vector and one column only; if the vector it starts from is not finite the matrix is not either. -/
theorem arnoldi_frame (A : V →ₗ[ℝ] V) (iter : ℕ) (m : Mem V) (H : Hess) (hn : 3 + iter + 1 < m.n) :
    ∃ m' H', arnoldiStep A iter (m, H) = some (m', H') ∧ m'.n = m.n ∧
      (∀ i, i ≠ 3 + iter + 1 → m'.v i = m.v i) ∧ (∀ a b, b ≠ iter → H' a b = H a b) ∧
      (m.v (3 + iter) = none → H' 0 iter = none) := by
  unfold arnoldiStep matvec
  rw [if_pos ⟨hn, by simp only; omega⟩]
  simp only [Option.bind_some]
  set m1 : Mem V := { m with v := Function.update m.v (3 + iter + 1) ((m.v (3 + iter)).map A) } with hm1
  obtain ⟨m', H', h1, h2, h3, h4, h5⟩ := orthog_frame iter m1 H hn (iter + 1) le_rfl
  have h2' : m'.n = m.n := h2
  rw [h1]
  simp only [Option.bind_some, norm, inner, scale]
  rw [if_pos ⟨by omega, by omega⟩]
  simp only [Option.bind_some, Option.map_some]
  rw [if_pos ⟨by omega, by omega⟩]
  refine ⟨_, _, rfl, h2, ?_, ?_, ?_⟩
  · intro i hi
    simp only [Function.update_of_ne hi]
    rw [h3 i hi, hm1]
    simp only [Function.update_of_ne hi]
  · intro a b hb
    by_cases ha : a = iter + 1
    · simp only [Hess.set, ha, Function.update_self, Function.update_of_ne hb]
      exact h4 _ b hb
    · simp only [Hess.set, Function.update_of_ne ha]
      exact h4 a b hb
  · intro hnone
    have h6 := (h5 (by rw [hm1]; simp [hnone])).2 (by omega)
    simp only [Hess.set, Function.update_apply]
    rw [if_neg (by omega)]
    exact h6

/-- What the storage holds after `iter` successful steps. -/
structure Good (A : V →ₗ[ℝ] V) (m : Mem V) (H : Hess) (iter : ℕ) (ws : ℕ → V)
    (h : ℕ → ℕ → ℝ) : Prop where
  arn : Arnoldi A iter ws h
  stored : ∀ i < iter, m.v (3 + i) = some (nrm (ws i))
  last : m.v (3 + iter) = cand (ws iter)
  hess : ∀ i j, H i j = some (if j < iter then h i j else 0)

theorem Good.step {A : V →ₗ[ℝ] V} {m : Mem V} {H : Hess} {iter : ℕ} {ws : ℕ → V} {h : ℕ → ℕ → ℝ}
    (g : Good A m H iter ws h) (hn : 3 + iter + 1 < m.n) (hz : ws iter ≠ 0) :
    ∃ m' H' ws' h', arnoldiStep A iter (m, H) = some (m', H') ∧ m'.n = m.n ∧
      (∀ i, i ≠ 3 + iter + 1 → m'.v i = m.v i) ∧ Good A m' H' (iter + 1) ws' h' ∧ ws' 0 = ws 0 := by
  have hst : ∀ i ≤ iter, m.v (3 + i) = some (nrm (ws i)) := by
    intro i hi
    rcases Nat.lt_or_eq_of_le hi with hl | hl
    · exact g.stored i hl
    · rw [hl, g.last, cand, if_neg hz]
  have hnz : ∀ i ≤ iter, ws i ≠ 0 := by
    intro i hi
    rcases Nat.lt_or_eq_of_le hi with hl | hl
    · exact g.arn.nonzero i hl
    · rw [hl]; exact hz
  have ho : ∀ i j, i ≤ iter → j ≤ iter → ⟪nrm (ws i), nrm (ws j)⟫ = if i = j then 1 else 0 := by
    intro i j hi hj
    split_ifs with hij
    · rw [hij]; exact inner_nrm_self (hnz j hj)
    · exact inner_nrm (g.arn.orth' hi hj hij)
  set a : V := A (nrm (ws iter)) with ha
  set w : V := a - ∑ i ∈ range (iter + 1), ⟪a, nrm (ws i)⟫ • nrm (ws i) with hw
  have hwo : ∀ i ≤ iter, ⟪nrm (ws i), w⟫ = 0 := by
    intro i hi
    rw [hw, inner_sub_right, inner_sum, sum_eq_single i]
    · rw [real_inner_smul_right, ho i i hi hi, if_pos rfl, mul_one, real_inner_comm, sub_self]
    · intro j hj hne
      rw [real_inner_smul_right, ho i j hi (by have := mem_range.1 hj; omega), if_neg (Ne.symm hne),
        mul_zero]
    · intro hh; simp at hh; omega
  have hwo' : ∀ i ≤ iter, ⟪ws i, w⟫ = 0 := by
    intro i hi
    rw [← norm_smul_nrm (ws i), real_inner_smul_left, hwo i hi, mul_zero]
  set ws' := Function.update ws (iter + 1) w with hws'
  have hle : ∀ i ≤ iter, ws' i = ws i := by
    intro i hi
    rw [hws', Function.update_of_ne (by omega)]
  have heq : ws' (iter + 1) = w := by rw [hws', Function.update_self]
  set h' : ℕ → ℕ → ℝ := fun i j =>
    if j = iter then (if i ≤ iter then ⟪a, nrm (ws i)⟫ else if i = iter + 1 then ‖w‖ else 0)
    else h i j with hh'
  set m1 : Mem V := { m with v := Function.update m.v (3 + iter + 1) ((m.v (3 + iter)).map A) } with hm1
  have hrun := orthog_good iter m1 H (fun i => nrm (ws i)) a hn
    (by intro i hi; rw [hm1]; simp only [Function.update_of_ne (show 3 + i ≠ 3 + iter + 1 by omega)]
        exact hst i hi) ho
    (by rw [hm1]; simp only [Function.update_self, hst iter le_rfl, Option.map_some, ha])
    (iter + 1) le_rfl
  rw [← hw] at hrun
  refine ⟨{ m with v := Function.update m.v (3 + iter + 1) (cand w) },
    fun i j => if j = iter ∧ i < iter + 1 then some ⟪a, nrm (ws i)⟫
      else if j = iter ∧ i = iter + 1 then some ‖w‖ else H i j, ws', h', ?_, rfl, ?_, ?_, ?_⟩
  · unfold arnoldiStep matvec
    rw [if_pos ⟨hn, by simp only; omega⟩]
    simp only [Option.bind_some, ← hm1]
    rw [hrun]
    have hm1n : m1.n = m.n := rfl
    simp only [Option.bind_some]
    rw [norm_eq _ (by simp only [put_n]; omega)]
    simp only [Option.bind_some]
    rw [scale_eq _ _ (by simp only [put_n]; omega) (by simp only [put_n]; omega)]
    simp only [put_same, Option.map_some, div_norm, Option.some.injEq, Prod.mk.injEq]
    refine ⟨by simp [Mem.put, hm1], ?_⟩
    funext i j
    simp only [Hess.set, Function.update_apply]
    by_cases hi : i = iter + 1
    · by_cases hj : j = iter
      · simp [hi, hj]
      · simp [hi, hj]
    · simp [hi]
  · intro i hi
    simp only [Function.update_of_ne hi]
  · refine ⟨⟨?_, ?_, ?_, ?_, ?_⟩, ?_, ?_, ?_⟩
    · intro i hi
      rw [hle i (by omega)]
      exact hnz i (by omega)
    · intro i j hij hj
      rcases Nat.lt_or_eq_of_le hj with hl | hl
      · rw [hle i (by omega), hle j (by omega)]
        exact g.arn.orth i j hij (by omega)
      · rw [hl, heq, hle i (by omega)]
        exact hwo' i (by omega)
    · intro j hj
      rcases Nat.lt_or_eq_of_le (Nat.lt_succ_iff.1 hj) with hl | hl
      · rw [hle j (by omega), hle (j + 1) (by omega), g.arn.dec j hl]
        congr 1
        refine sum_congr rfl fun i hi => ?_
        have := mem_range.1 hi
        rw [hle i (by omega), hh']
        simp only
        rw [if_neg (by omega)]
      · subst hl
        rw [heq, hle j le_rfl]
        have : ∑ i ∈ range (j + 1), h' i j • nrm (ws' i) =
            ∑ i ∈ range (j + 1), ⟪a, nrm (ws i)⟫ • nrm (ws i) := by
          refine sum_congr rfl fun i hi => ?_
          have := mem_range.1 hi
          rw [hle i (by omega), hh']
          simp only
          rw [if_pos trivial, if_pos (by omega)]
        rw [this, hw, ← ha]
        abel
    · intro j hj
      rcases Nat.lt_or_eq_of_le (Nat.lt_succ_iff.1 hj) with hl | hl
      · rw [hle (j + 1) (by omega), hh']
        simp only
        rw [if_neg (by omega)]
        exact g.arn.hnorm j hl
      · subst hl
        rw [heq, hh']
        simp
    · intro i j hj hij
      rcases Nat.lt_or_eq_of_le (Nat.lt_succ_iff.1 hj) with hl | hl
      · rw [hh']
        simp only
        rw [if_neg (by omega)]
        exact g.arn.hzero i j hl hij
      · subst hl
        rw [hh']
        simp only
        rw [if_pos trivial, if_neg (by omega), if_neg (by omega)]
    · intro i hi
      simp only [Function.update_of_ne (show 3 + i ≠ 3 + iter + 1 by omega)]
      rw [hle i (by omega)]
      exact hst i (by omega)
    · simp only [← Nat.add_assoc, Function.update_self]
      rw [heq]
    · intro i j
      simp only [g.hess i j, hh']
      by_cases hj : j = iter
      · subst hj
        simp only [true_and, lt_irrefl, if_false, if_true, Nat.lt_succ_self]
        split_ifs <;> first | rfl | omega
      · simp only [hj, false_and, if_false]
        have : j < iter + 1 ↔ j < iter := by omega
        simp [this]
  · exact hle 0 (by omega)

/-- The whole Arnoldi process: it succeeds throughout, or some vector becomes zero and the matrix is
not finite. -/
theorem arnoldi_run {A : V →ₗ[ℝ] V} {m : Mem V} {w : V} (k : ℕ) (hn : 3 + k < m.n)
    (hc : m.v 3 = cand w) :
    ∀ c ≤ k, ∃ m' H' j ws h, forN c (arnoldiStep A) (m, fun _ _ => some 0) = some (m', H') ∧
      m'.n = m.n ∧ (∀ i < 3, m'.v i = m.v i) ∧ ws 0 = w ∧
      ((j = c ∧ Good A m' H' c ws h) ∨
        (j < c ∧ Arnoldi A j ws h ∧ ws j = 0 ∧ ∃ b < c, H' 0 b = none)) := by
  intro c
  induction c with
  | zero =>
    intro _
    refine ⟨m, _, 0, fun _ => w, fun _ _ => 0, rfl, rfl, fun _ _ => rfl, rfl, Or.inl ⟨rfl, ?_⟩⟩
    refine ⟨⟨?_, ?_, ?_, ?_, ?_⟩, ?_, hc, ?_⟩
    · intro i hi; omega
    · intro i j hij hj; omega
    · intro j hj; omega
    · intro j hj; omega
    · intro i j hj; omega
    · intro i hi; omega
    · intro i j; simp
  | succ c ih =>
    intro hck
    obtain ⟨m', H', j, ws, h, h1, h2, h3, h4, h5⟩ := ih (by omega)
    rw [forN_succ, h1]
    simp only [Option.bind_some]
    rcases h5 with ⟨hj, hg⟩ | ⟨hj, ha, hz, b, hb, hnone⟩
    · by_cases hz : ws c = 0
      · obtain ⟨m2, H2, e1, e2, e3, e4, e5⟩ := arnoldi_frame A c m' H' (by omega)
        refine ⟨m2, H2, c, ws, h, e1, by rw [e2, h2], ?_, h4, Or.inr ⟨by omega, hg.arn, hz, c, by omega, ?_⟩⟩
        · intro i hi
          rw [e3 i (by omega), h3 i hi]
        · exact e5 (by rw [hg.last, cand, if_pos hz])
      · obtain ⟨m2, H2, ws2, hh2, e1, e2, e3, e4, e5⟩ := hg.step (by omega) hz
        refine ⟨m2, H2, c + 1, ws2, hh2, e1, by rw [e2, h2], ?_, by rw [e5, h4], Or.inl ⟨rfl, e4⟩⟩
        intro i hi
        rw [e3 i (by omega), h3 i hi]
    · obtain ⟨m2, H2, e1, e2, e3, e4, e5⟩ := arnoldi_frame A c m' H' (by omega)
      refine ⟨m2, H2, j, ws, h, e1, by rw [e2, h2], ?_, h4, Or.inr ⟨by omega, ha, hz, b, by omega, ?_⟩⟩
      · intro i hi
        rw [e3 i (by omega), h3 i hi]
      · rw [e4 0 b (by omega), hnone]

/-- Adding up the correction. -/
theorem correct_run (m : Mem V) (k : ℕ) (hn : 3 + k < m.n) (co : ℕ → Option ℝ) :
    ∀ c ≤ k, ∃ m', forN c (fun i m => add m 0 (some 1) 0 (co i) (3 + i)) m = some m' ∧ m'.n = m.n ∧
      (∀ i, i ≠ 0 → m'.v i = m.v i) ∧ (m.v 0 = none → m'.v 0 = none) ∧
      (0 < c → co 0 = none → m'.v 0 = none) ∧
      ∀ x (t : ℕ → ℝ) (f : ℕ → V), m.v 0 = some x → (∀ i < c, co i = some (t i)) →
        (∀ i < c, m.v (3 + i) = some (f i)) → m'.v 0 = some (x + ∑ i ∈ range c, t i • f i) := by
  intro c
  induction c with
  | zero =>
    intro _
    refine ⟨m, rfl, rfl, fun _ _ => rfl, fun h => h, by simp, ?_⟩
    intro x t f hx _ _
    simpa using hx
  | succ c ih =>
    intro hc
    obtain ⟨m', h1, h2, h3, h4, h5, h6⟩ := ih (by omega)
    rw [forN_succ, h1]
    simp only [Option.bind_some, add]
    rw [if_pos ⟨by omega, by omega, by omega⟩]
    refine ⟨_, rfl, h2, ?_, ?_, ?_, ?_⟩
    · intro i hi
      simp only [Function.update_of_ne hi]
      exact h3 i hi
    · intro hx
      simp [h4 hx, smul?, add?]
    · intro _ hco
      simp only [Function.update_self]
      rcases Nat.eq_zero_or_pos c with hz | hp
      · rw [hz, hco]; 
        cases m'.v 0 <;> simp [smul?, add?]
      · simp [h5 hp hco, smul?, add?]
    · intro x t f hx ht hf
      simp only [Function.update_self]
      rw [h6 x t f hx (fun i hi => ht i (by omega)) (fun i hi => hf i (by omega)), ht c (by omega),
        h3 (3 + c) (by omega), hf c (by omega)]
      simp only [add?, smul?, Option.bind_some, Option.map_some, one_smul, sum_range_succ]
      rw [add_assoc]

/-- One restart: either the Arnoldi process succeeds and the correction is added, or the solution is
lost. -/
theorem restart_run (A : V →ₗ[ℝ] V) (solve : Solve) (k : ℕ) (m : Mem V) (x b : V)
    (hn : 3 + k < m.n) (hx : m.v 0 = some x) (hb : m.v 1 = some b) :
    ∃ m', restart A solve k m = some m' ∧ m'.n = m.n ∧ m'.v 1 = some b ∧
      ∃ j ws h, ws 0 = residual A b x ∧ Arnoldi A j ws h ∧
        ((j = k ∧ m'.v 0 = some (x + ∑ i ∈ range k,
            solve k (fun a b => if b < k then h a b else 0) ‖residual A b x‖ i • nrm (ws i))) ∨
          (j < k ∧ ws j = 0 ∧ m'.v 0 = none)) := by
  set r := residual A b x with hr
  unfold restart
  rw [matvec_eq A m (by omega) (by omega)]
  simp only [Option.bind_some]
  rw [add_eq _ _ _ (by simp only [put_n]; omega) (by simp only [put_n]; omega)
    (by simp only [put_n]; omega)]
  simp only [Option.bind_some]
  have hrr : add? (smul? (some (-1)) ((m.put 2 (Option.map A (m.v 0))).v 2))
      (smul? (some 1) ((m.put 2 (Option.map A (m.v 0))).v 1)) = some r := by
    rw [put_same, put_ne _ _ (by decide), hx, hb]
    simp only [add?, smul?, Option.map_some, Option.bind_some, Option.some.injEq]
    rw [hr, residual]; module
  rw [hrr]
  set m0 := (m.put 2 (Option.map A (m.v 0))).put 2 (some r) with hm0
  have hm0n : m0.n = m.n := rfl
  rw [norm_eq _ (by omega)]
  simp only [Option.bind_some]
  rw [scale_eq _ _ (by omega) (by omega)]
  simp only [Option.bind_some]
  have hm02 : m0.v 2 = some r := by rw [hm0, put_same]
  rw [hm02, Option.map_some, div_norm]
  set m1 := m0.put 3 (cand r) with hm1
  have hm1n : m1.n = m.n := rfl
  have hc : m1.v 3 = cand r := by rw [hm1, put_same]
  obtain ⟨m2, H2, j, ws, h, e1, e2, e3, e4, e5⟩ := arnoldi_run (A := A) k (m := m1) hn hc k le_rfl
  have hm10 : m1.v 0 = some x := by
    rw [hm1, put_ne _ _ (by decide), hm0, put_ne _ _ (by decide), put_ne _ _ (by decide), hx]
  have hm11 : m1.v 1 = some b := by
    rw [hm1, put_ne _ _ (by decide), hm0, put_ne _ _ (by decide), put_ne _ _ (by decide), hb]
  rw [e1]
  simp only [Option.bind_some]
  obtain ⟨m3, f1, f2, f3, f4, f5, f6⟩ := correct_run m2 k (by rw [e2]; exact hn)
    (coefs solve k H2 (some ‖r‖)) k le_rfl
  refine ⟨m3, f1, by rw [f2, e2, hm1n], by rw [f3 1 (by decide), e3 1 (by decide), hm11], j, ws, h, e4, ?_⟩
  rcases e5 with ⟨hj, hg⟩ | ⟨hj, ha, hz, bb, hbb, hnone⟩
  · subst hj
    refine ⟨hg.arn, Or.inl ⟨rfl, ?_⟩⟩
    refine f6 x _ (fun i => nrm (ws i)) (by rw [e3 0 (by decide), hm10]) ?_ hg.stored
    intro i hi
    unfold coefs
    rw [if_pos ⟨fun a _ b _ => by rw [hg.hess]; rfl, rfl⟩]
    simp only [hg.hess, Option.getD_some]
  · refine ⟨ha, Or.inr ⟨hj, hz, ?_⟩⟩
    refine f5 (by omega) ?_
    unfold coefs
    rw [if_neg]
    rintro ⟨hh, _⟩
    have := hh 0 (by omega) bb hbb
    rw [hnone] at this
    simp at this

/-- A lost solution stays lost. -/
theorem restart_none (A : V →ₗ[ℝ] V) (solve : Solve) (k : ℕ) (m m' : Mem V)
    (hx : m.v 0 = none) (h : restart A solve k m = some m') (hn : 3 + k < m.n) :
    m'.v 0 = none ∧ m'.n = m.n ∧ m'.v 1 = m.v 1 := by
  unfold restart at h
  rw [matvec_eq A m (by omega) (by omega)] at h
  simp only [Option.bind_some] at h
  rw [add_eq _ _ _ (by simp only [put_n]; omega) (by simp only [put_n]; omega)
    (by simp only [put_n]; omega)] at h
  simp only [Option.bind_some] at h
  rw [norm_eq _ (by simp only [put_n]; omega)] at h
  simp only [Option.bind_some] at h
  rw [scale_eq _ _ (by simp only [put_n]; omega) (by simp only [put_n]; omega)] at h
  simp only [Option.bind_some] at h
  generalize (add? _ _ : Option V) = y at h
  generalize (smul? _ _ : Option V) = z at h
  set m1 := ((m.put 2 (Option.map A (m.v 0))).put 2 y).put 3 z with hm1
  have hm10 : m1.v 0 = none := by
    rw [hm1, put_ne _ _ (by decide), put_ne _ _ (by decide), put_ne _ _ (by decide), hx]
  have hm11 : m1.v 1 = m.v 1 := by
    rw [hm1, put_ne _ _ (by decide), put_ne _ _ (by decide), put_ne _ _ (by decide)]
  have hrun : ∀ c ≤ k, ∃ m' H', forN c (arnoldiStep A) (m1, fun _ _ => some 0) = some (m', H') ∧
      m'.n = m.n ∧ ∀ i < 3, m'.v i = m1.v i := by
    intro c
    induction c with
    | zero => intro _; exact ⟨m1, _, rfl, rfl, fun _ _ => rfl⟩
    | succ c ih =>
      intro hc
      obtain ⟨m', H', h1, h2, h3⟩ := ih (by omega)
      obtain ⟨m2, H2, e1, e2, e3, _, _⟩ := arnoldi_frame A c m' H' (by omega)
      refine ⟨m2, H2, by rw [forN_succ, h1]; exact e1, by rw [e2, h2], fun i hi => ?_⟩
      rw [e3 i (by omega), h3 i hi]
  obtain ⟨m2, H2, e1, e2, e3⟩ := hrun k le_rfl
  rw [e1] at h
  simp only [Option.bind_some] at h
  obtain ⟨m3, f1, f2, f3, f4, _, _⟩ := correct_run m2 k (by rw [e2]; exact hn) _ k le_rfl
  have : m' = m3 := Option.some.inj (h.symm.trans f1)
  subst this
  refine ⟨f4 ?_, by rw [f2, e2], ?_⟩
  · rw [e3 0 (by decide), hm10]
  · rw [f3 1 (by decide), e3 1 (by decide), hm11]

end Hexed.Krylov

end
