import Verif.Krylov.Lemmas2
import Mathlib.LinearAlgebra.Matrix.Determinant.Basic
import Mathlib.LinearAlgebra.Matrix.Block
import Mathlib.LinearAlgebra.Matrix.NonsingularInverse
import Mathlib.LinearAlgebra.FiniteDimensional.Basic
import Mathlib.Tactic.FieldSimp
import Mathlib.Tactic.LinearCombination

set_option autoImplicit false
set_option linter.unusedVariables false

/-!
# BiCGStab: one step, and the biorthogonality behind it
-/

noncomputable section

open Classical RealInnerProductSpace Finset

namespace Hexed.Krylov

variable {V : Type} [NormedAddCommGroup V] [InnerProductSpace ℝ V]

/-- One step never faults, keeps the right-hand side and the reference vector, and computes what the
formulas say, or loses the solution. -/
theorem bicg_step (A : V →ₗ[ℝ] V) (m : Mem V) (hn : 8 ≤ m.n) :
    ∃ m', bicgStep A m = some m' ∧ m'.n = m.n ∧ m'.v 1 = m.v 1 ∧ m'.v 5 = m.v 5 ∧
      (m.v 0 = none → m'.v 0 = none) ∧ (m.v 3 = none → m'.v 0 = none) ∧
      ∀ x r p q, m.v 0 = some x → m.v 2 = some r → m.v 3 = some p → m.v 5 = some q →
        ((⟪A p, q⟫ = 0 ∨ A (r - (⟪r, q⟫ / ⟪A p, q⟫) • A p) = 0) → m'.v 0 = none) ∧
        (⟪A p, q⟫ ≠ 0 → A (r - (⟪r, q⟫ / ⟪A p, q⟫) • A p) ≠ 0 →
          ∃ α s ω, α = ⟪r, q⟫ / ⟪A p, q⟫ ∧ s = r - α • A p ∧ ω = ⟪A s, s⟫ / ⟪A s, A s⟫ ∧
            m'.v 0 = some (x + α • p + ω • s) ∧ m'.v 2 = some (s - ω • A s) ∧
            ((⟪r, q⟫ = 0 ∨ ω = 0) → m'.v 3 = none) ∧
            (⟪r, q⟫ ≠ 0 → ω ≠ 0 → ∃ β, β = ⟪s - ω • A s, q⟫ / ⟪r, q⟫ * α / ω ∧
              m'.v 3 = some (s - ω • A s + β • p - (β * ω) • A p))) := by
  unfold bicgStep
  rw [inner_eq m (by omega) (by omega)]
  simp only [Option.bind_some]
  generalize hrd : ((m.v 2).bind fun x => (m.v 5).map fun y => ⟪x, y⟫) = rd
  rw [matvec_eq A m (by omega) (by omega)]
  simp only [Option.bind_some]
  generalize hm1 : m.put 6 ((m.v 3).map A) = m1
  have n1 : m1.n = m.n := by rw [← hm1]; rfl
  have p1 : ∀ i, i ≠ 6 → m1.v i = m.v i := fun i hi => by rw [← hm1, put_ne _ _ hi]
  have q1 : m1.v 6 = (m.v 3).map A := by rw [← hm1, put_same]
  rw [inner_eq m1 (by omega) (by omega)]
  simp only [Option.bind_some]
  generalize hal : div? rd ((m1.v 6).bind fun x => (m1.v 5).map fun y => ⟪x, y⟫) = al
  rw [add_eq m1 _ _ (by omega) (by omega) (by omega)]
  simp only [Option.bind_some]
  generalize hs : add? (smul? (some 1) (m1.v 2)) (smul? (al.map (-·)) (m1.v 6)) = s
  generalize hm2 : m1.put 4 s = m2
  have n2 : m2.n = m.n := by rw [← hm2]; exact n1
  have p2 : ∀ i, i ≠ 4 → m2.v i = m1.v i := fun i hi => by rw [← hm2, put_ne _ _ hi]
  have q2 : m2.v 4 = s := by rw [← hm2, put_same]
  rw [matvec_eq A m2 (by omega) (by omega)]
  simp only [Option.bind_some]
  generalize hm3 : m2.put 7 ((m2.v 4).map A) = m3
  have n3 : m3.n = m.n := by rw [← hm3]; exact n2
  have p3 : ∀ i, i ≠ 7 → m3.v i = m2.v i := fun i hi => by rw [← hm3, put_ne _ _ hi]
  have q3 : m3.v 7 = (m2.v 4).map A := by rw [← hm3, put_same]
  rw [inner_eq m3 (i := 7) (j := 4) (by omega) (by omega)]
  simp only [Option.bind_some]
  rw [inner_eq m3 (i := 7) (j := 7) (by omega) (by omega)]
  simp only [Option.bind_some]
  generalize hom : div? ((m3.v 7).bind fun x => (m3.v 4).map fun y => ⟪x, y⟫)
    ((m3.v 7).bind fun x => (m3.v 7).map fun y => ⟪x, y⟫) = om
  rw [add_eq m3 _ _ (by omega) (by omega) (by omega)]
  simp only [Option.bind_some]
  generalize hx1 : add? (smul? (some 1) (m3.v 0)) (smul? al (m3.v 3)) = x1
  generalize hm4 : m3.put 0 x1 = m4
  have n4 : m4.n = m.n := by rw [← hm4]; exact n3
  have p4 : ∀ i, i ≠ 0 → m4.v i = m3.v i := fun i hi => by rw [← hm4, put_ne _ _ hi]
  have q4 : m4.v 0 = x1 := by rw [← hm4, put_same]
  rw [add_eq m4 _ _ (by omega) (by omega) (by omega)]
  simp only [Option.bind_some]
  generalize hx2 : add? (smul? (some 1) (m4.v 0)) (smul? om (m4.v 4)) = x2
  generalize hm5 : m4.put 0 x2 = m5
  have n5 : m5.n = m.n := by rw [← hm5]; exact n4
  have p5 : ∀ i, i ≠ 0 → m5.v i = m4.v i := fun i hi => by rw [← hm5, put_ne _ _ hi]
  have q5 : m5.v 0 = x2 := by rw [← hm5, put_same]
  rw [add_eq m5 _ _ (by omega) (by omega) (by omega)]
  simp only [Option.bind_some]
  generalize hr2 : add? (smul? (some 1) (m5.v 4)) (smul? (om.map (-·)) (m5.v 7)) = r2
  generalize hm6 : m5.put 2 r2 = m6
  have n6 : m6.n = m.n := by rw [← hm6]; exact n5
  have p6 : ∀ i, i ≠ 2 → m6.v i = m5.v i := fun i hi => by rw [← hm6, put_ne _ _ hi]
  have q6 : m6.v 2 = r2 := by rw [← hm6, put_same]
  rw [inner_eq m6 (by omega) (by omega)]
  simp only [Option.bind_some]
  generalize hbe : div? (mul? (div? ((m6.v 2).bind fun x => (m6.v 5).map fun y => ⟪x, y⟫) rd) al) om = be
  rw [add_eq m6 _ _ (by omega) (by omega) (by omega)]
  simp only [Option.bind_some]
  generalize hp2 : add? (smul? (some 1) (m6.v 2)) (smul? be (m6.v 3)) = p2v
  generalize hm7 : m6.put 3 p2v = m7
  have n7 : m7.n = m.n := by rw [← hm7]; exact n6
  have p7 : ∀ i, i ≠ 3 → m7.v i = m6.v i := fun i hi => by rw [← hm7, put_ne _ _ hi]
  have q7 : m7.v 3 = p2v := by rw [← hm7, put_same]
  rw [add_eq m7 _ _ (by omega) (by omega) (by omega)]
  have hc : ∀ i, i ≠ 0 → i ≠ 2 → i ≠ 3 → i ≠ 4 → i ≠ 6 → i ≠ 7 → m7.v i = m.v i := by
    intro i h0 h2 h3 h4 h6 h7
    rw [p7 i h3, p6 i h2, p5 i h0, p4 i h0, p3 i h7, p2 i h4, p1 i h6]
  refine ⟨_, rfl, n7, ?_, ?_, ?_, ?_, ?_⟩
  · rw [put_ne _ _ (by decide), hc 1 (by decide) (by decide) (by decide) (by decide) (by decide)
      (by decide)]
  · rw [put_ne _ _ (by decide), hc 5 (by decide) (by decide) (by decide) (by decide) (by decide)
      (by decide)]
  · intro h0
    rw [put_ne _ _ (by decide), p7 0 (by decide), p6 0 (by decide), q5, ← hx2, q4, ← hx1,
      p3 0 (by decide), p2 0 (by decide), p1 0 (by decide), h0]
    simp [smul?, add?]
  · intro h3
    have : al = none := by
      rw [← hal, q1, h3]
      simp [div?]
    rw [put_ne _ _ (by decide), p7 0 (by decide), p6 0 (by decide), q5, ← hx2, q4, ← hx1, this]
    cases m3.v 0 <;> simp [smul?, add?]
  · intro x r p q h0 h2 h3 h5
    have v0 : ∀ y, (m7.put 3 y).v 0 = x2 := by
      intro y
      rw [put_ne _ _ (by decide), p7 0 (by decide), p6 0 (by decide), q5]
    have hrd' : rd = some ⟪r, q⟫ := by rw [← hrd, h2, h5]; rfl
    have hv6 : m1.v 6 = some (A p) := by rw [q1, h3]; rfl
    have hal' : al = if ⟪A p, q⟫ = 0 then none else some (⟪r, q⟫ / ⟪A p, q⟫) := by
      rw [← hal, hrd', hv6, p1 5 (by decide), h5]
      simp [div?]
    have hx30 : m3.v 0 = some x := by
      rw [p3 0 (by decide), p2 0 (by decide), p1 0 (by decide), h0]
    have hx33 : m3.v 3 = some p := by
      rw [p3 3 (by decide), p2 3 (by decide), p1 3 (by decide), h3]
    have hs' : ⟪A p, q⟫ ≠ 0 → s = some (r - (⟪r, q⟫ / ⟪A p, q⟫) • A p) := by
      intro hne
      rw [← hs, hal', if_neg hne, hv6, p1 2 (by decide), h2]
      simp [smul?, add?, sub_eq_add_neg]
    have hom' : ∀ s', s = some s' → om = if A s' = 0 then none else some (⟪A s', s'⟫ / ⟪A s', A s'⟫) := by
      intro s' hs'
      rw [← hom, q3, p3 4 (by decide), q2, hs']
      simp [div?]
    refine ⟨?_, ?_⟩
    · intro hor
      rw [v0]
      by_cases hz : ⟪A p, q⟫ = 0
      · rw [← hx2, q4, ← hx1, hal', if_pos hz]
        cases m3.v 0 <;> simp [smul?, add?]
      · have hAs := hor.resolve_left hz
        rw [← hx2, hom' _ (hs' hz), if_pos hAs]
        cases m4.v 0 <;> simp [smul?, add?]
    · intro hz hAs
      have hs2 := hs' hz
      have hom2 := hom' _ hs2
      rw [if_neg hAs] at hom2
      rw [if_neg hz] at hal'
      refine ⟨⟪r, q⟫ / ⟪A p, q⟫, _, _, rfl, rfl, rfl, ?_, ?_, ?_, ?_⟩
      · rw [v0, ← hx2, q4, ← hx1, hx30, hx33, hal', hom2, p4 4 (by decide), p3 4 (by decide), q2, hs2]
        simp [smul?, add?]
      · rw [put_ne _ _ (by decide), p7 2 (by decide), q6, ← hr2, hom2, p5 4 (by decide),
          p4 4 (by decide), p3 4 (by decide), q2, p5 7 (by decide), p4 7 (by decide), q3, q2, hs2]
        simp only [smul?, add?, Option.map_some, Option.bind_some, one_smul, neg_smul,
          ← sub_eq_add_neg]
      · intro hor
        have : be = none := by
          rw [← hbe, hrd', hom2]
          rcases hor with h | h
          · rw [h]
            cases ((m6.v 2).bind fun x => (m6.v 5).map fun y => ⟪x, y⟫) <;> simp [div?, mul?]
          · rw [h]
            cases mul? (div? ((m6.v 2).bind fun x => (m6.v 5).map fun y => ⟪x, y⟫) (some ⟪r, q⟫)) al <;>
              simp [div?]
        rw [put_same, this, q7, ← hp2, this]
        cases m6.v 2 <;> simp [smul?, add?]
      · intro hr hw
        have hr2' : m6.v 2 = some (r - (⟪r, q⟫ / ⟪A p, q⟫) • A p -
            (⟪A (r - (⟪r, q⟫ / ⟪A p, q⟫) • A p), r - (⟪r, q⟫ / ⟪A p, q⟫) • A p⟫ /
              ⟪A (r - (⟪r, q⟫ / ⟪A p, q⟫) • A p), A (r - (⟪r, q⟫ / ⟪A p, q⟫) • A p)⟫) •
              A (r - (⟪r, q⟫ / ⟪A p, q⟫) • A p)) := by
          rw [q6, ← hr2, hom2, p5 4 (by decide), p4 4 (by decide), p3 4 (by decide), q2,
            p5 7 (by decide), p4 7 (by decide), q3, q2, hs2]
          simp only [smul?, add?, Option.map_some, Option.bind_some, one_smul, neg_smul,
            ← sub_eq_add_neg]
        refine ⟨_, rfl, ?_⟩
        have hbe' := hbe
        rw [hr2', p6 5 (by decide), p5 5 (by decide), p4 5 (by decide), p3 5 (by decide),
          p2 5 (by decide), p1 5 (by decide), h5, hrd', hal', hom2] at hbe'
        simp only [Option.bind_some, Option.map_some, div?, mul?, if_neg hr, if_neg hw] at hbe'
        rw [put_same, q7, ← hp2, hr2', ← hbe', hom2, p6 3 (by decide), p5 3 (by decide),
          p4 3 (by decide), hx33, p7 6 (by decide), p6 6 (by decide), p5 6 (by decide),
          p4 6 (by decide), p3 6 (by decide), p2 6 (by decide), hv6]
        simp only [smul?, add?, mul?, Option.bind_some, Option.map_some, one_smul, Option.some.injEq,
          neg_mul, neg_smul]
        rw [sub_eq_add_neg _ ((_ * _) • A p)]

/-- The functionals to which the residuals become orthogonal. -/
def lf (A : V →ₗ[ℝ] V) (q : V) (i : ℕ) (v : V) : ℝ := ⟪(A ^ i) v, q⟫

theorem lf_sub (A : V →ₗ[ℝ] V) (q : V) (i : ℕ) (v w : V) (c : ℝ) :
    lf A q i (v - c • w) = lf A q i v - c * lf A q i w := by
  simp [lf, inner_sub_left, real_inner_smul_left]

theorem lf_add (A : V →ₗ[ℝ] V) (q : V) (i : ℕ) (v w : V) (c : ℝ) :
    lf A q i (v + c • w) = lf A q i v + c * lf A q i w := by
  simp [lf, inner_add_left, real_inner_smul_left]

theorem lf_A (A : V →ₗ[ℝ] V) (q : V) (i : ℕ) (v : V) : lf A q i (A v) = lf A q (i + 1) v := by
  simp [lf, pow_succ]

/-- What holds after `j` iterations that kept the solution finite. -/
structure Bi (A : V →ₗ[ℝ] V) (b q : V) (j : ℕ) (m : Mem V) (x R : V) (Q : V →ₗ[ℝ] V) : Prop where
  sol : m.v 0 = some x
  rhs : m.v 1 = some b
  ref : m.v 5 = some q
  res : m.v 2 = some (Q R)
  eqn : Q R = residual A b x
  comm : ∀ v, A (Q v) = Q (A v)
  orth : ∀ i < j, lf A q i R = 0
  tri : ∃ vs : ℕ → V, ∀ a < j, lf A q a (vs a) ≠ 0 ∧ ∀ i < a, lf A q i (vs a) = 0
  nz : 0 < j → R ≠ 0

/-- What holds in addition if the search direction is finite. -/
structure Bi2 (A : V →ₗ[ℝ] V) (q : V) (j : ℕ) (m : Mem V) (Q : V →ₗ[ℝ] V) (P : V) (l : ℝ) : Prop where
  dir : m.v 3 = some (Q P)
  orthP : ∀ i < j, lf A q i (A P) = 0
  lne : l ≠ 0
  lead : ∀ v, (∀ i < j, lf A q i v = 0) → ⟪Q v, q⟫ = l * lf A q j v

theorem Bi.step {A : V →ₗ[ℝ] V} {b q : V} {j : ℕ} {m : Mem V} {x R P : V} {Q : V →ₗ[ℝ] V} {l : ℝ}
    (h1 : Bi A b q j m x R Q) (h2 : Bi2 A q j m Q P l) (hn : 8 ≤ m.n) {m' : Mem V}
    (hm' : bicgStep A m = some m') :
    m'.v 0 = none ∨ ∃ x' R' Q', Bi A b q (j + 1) m' x' R' Q' ∧
      (m'.v 3 = none ∨ ∃ P' l', Bi2 A q (j + 1) m' Q' P' l') := by
  obtain ⟨m2, e1, e2, e3, e4, e5, e6, e7⟩ := bicg_step A m hn
  rw [hm'] at e1
  have : m' = m2 := Option.some.inj e1
  subst this
  obtain ⟨f1, f2⟩ := e7 x (Q R) (Q P) q h1.sol h1.res h2.dir h1.ref
  by_cases hz : ⟪A (Q P), q⟫ = 0
  · exact Or.inl (f1 (Or.inl hz))
  by_cases hAs : A (Q R - (⟪Q R, q⟫ / ⟪A (Q P), q⟫) • A (Q P)) = 0
  · exact Or.inl (f1 (Or.inr hAs))
  right
  obtain ⟨α, s, ω, hα, hs, hω, g1, g2, g3, g4⟩ := f2 hz hAs
  have hleadR := h2.lead R h1.orth
  have hleadP := h2.lead (A P) h2.orthP
  rw [← h1.comm] at hleadP
  have hLP : lf A q j (A P) ≠ 0 := by
    intro hh
    rw [hleadP, hh, mul_zero] at hz
    exact hz rfl
  have hαL : α * lf A q j (A P) = lf A q j R := by
    rw [hα, hleadR, hleadP]
    have := h2.lne
    field_simp
  set R' := R - α • A P with hR'
  set Q' : V →ₗ[ℝ] V := Q ∘ₗ (LinearMap.id - ω • A) with hQ'
  have hQ'v : ∀ v, Q' v = Q v - ω • Q (A v) := by
    intro v; simp [hQ']
  have hsQ : s = Q R' := by
    rw [hs, hR', map_sub, map_smul, h1.comm]
  have hr' : s - ω • A s = Q' R' := by
    rw [hQ'v, ← h1.comm, ← hsQ]
  have hcomm : ∀ v, A (Q' v) = Q' (A v) := by
    intro v
    rw [hQ'v, hQ'v, map_sub, map_smul, h1.comm, h1.comm]
  have horth : ∀ i < j + 1, lf A q i R' = 0 := by
    intro i hi
    rw [hR', lf_sub]
    rcases Nat.lt_or_eq_of_le (Nat.lt_succ_iff.1 hi) with hl | hl
    · rw [h1.orth i hl, h2.orthP i hl]; ring
    · rw [hl, hαL]; ring
  refine ⟨x + α • Q P + ω • s, R', Q', ?_, ?_⟩
  · refine ⟨g1, by rw [e3, h1.rhs], by rw [e4, h1.ref], by rw [g2, hr'], ?_, hcomm, horth, ?_,
      fun _ h0 => hAs (by rw [← hα, ← hs, hsQ, h0, map_zero, map_zero])⟩
    · rw [← hr', hs]
      have := h1.eqn
      unfold residual at this ⊢
      rw [map_add, map_add, map_smul, map_smul]
      rw [show b - (A x + α • A (Q P) + ω • A (Q R - α • A (Q P))) =
        (b - A x) - α • A (Q P) - ω • A (Q R - α • A (Q P)) by abel, ← this]
    · obtain ⟨vs, hvs⟩ := h1.tri
      refine ⟨Function.update vs j (A P), fun a ha => ?_⟩
      rcases Nat.lt_or_eq_of_le (Nat.lt_succ_iff.1 ha) with hl | hl
      · rw [Function.update_of_ne (by omega)]
        exact hvs a hl
      · subst hl
        rw [Function.update_self]
        exact ⟨hLP, h2.orthP⟩
  · by_cases hor : ⟪Q R, q⟫ = 0 ∨ ω = 0
    · exact Or.inl (g3 hor)
    · push Not at hor
      obtain ⟨hr, hw⟩ := hor
      right
      obtain ⟨β, hβ, g5⟩ := g4 hr hw
      have hlead : ∀ v, (∀ i < j + 1, lf A q i v = 0) → ⟪Q' v, q⟫ = (-ω * l) * lf A q (j + 1) v := by
        intro v hv
        have hz2 : ∀ i < j, lf A q i (v - ω • A v) = 0 := by
          intro i hi
          rw [lf_sub, hv i (by omega), lf_A, hv (i + 1) (by omega)]; ring
        have := h2.lead _ hz2
        rw [hQ'v, ← map_smul, ← map_sub, this, lf_sub, hv j (by omega), lf_A]
        ring
      have hLR : lf A q j R ≠ 0 := by
        intro hh
        rw [hleadR, hh, mul_zero] at hr
        exact hr rfl
      refine ⟨R' + β • P, -ω * l, ?_, ?_, ?_, hlead⟩
      · rw [g5, map_add, map_smul, ← hr', hQ'v, h1.comm]
        congr 1
        module
      · intro i hi
        rw [lf_A, lf_add, ← lf_A A q i P]
        rcases Nat.lt_or_eq_of_le (Nat.lt_succ_iff.1 hi) with hl | hl
        · rw [horth (i + 1) (by omega), h2.orthP i hl]; ring
        · rw [hl, hβ, hr', hlead R' horth, hleadR]
          have := h2.lne
          field_simp
          linear_combination (-(lf A q (j + 1) R')) * hαL
      · exact mul_ne_zero (neg_ne_zero.2 hw) h2.lne

/-- Enough independent functionals determine a vector. -/
theorem tri_zero {A : V →ₗ[ℝ] V} {q : V} {n : ℕ} [FiniteDimensional ℝ V]
    (hd : Module.finrank ℝ V = n) (vs : ℕ → V)
    (ht : ∀ a < n, lf A q a (vs a) ≠ 0 ∧ ∀ i < a, lf A q i (vs a) = 0)
    (R : V) (hR : ∀ i < n, lf A q i R = 0) : R = 0 := by
  -- the vectors are independent, hence a basis
  let M : Matrix (Fin n) (Fin n) ℝ := fun i a => lf A q i (vs a)
  let Φ : V →ₗ[ℝ] (Fin n → ℝ) :=
    { toFun := fun v i => lf A q i v
      map_add' := fun v w => by funext i; simp [lf, inner_add_left]
      map_smul' := fun c v => by funext i; simp [lf, real_inner_smul_left] }
  have hdet : M.det ≠ 0 := by
    have htri : M.BlockTriangular OrderDual.toDual := by
      intro i a hia
      have : (i : ℕ) < a := by simpa using hia
      exact (ht a a.2).2 i this
    rw [Matrix.det_of_lowerTriangular M htri]
    exact Finset.prod_ne_zero_iff.2 fun i _ => (ht i i.2).1
  have hsurj : Function.Surjective Φ := by
    intro y
    refine ⟨∑ a, (M⁻¹.mulVec y) a • vs a, ?_⟩
    have hlin : Φ (∑ a, (M⁻¹.mulVec y) a • vs a) = M.mulVec (M⁻¹.mulVec y) := by
      rw [map_sum]
      funext i
      simp only [map_smul, Finset.sum_apply, Pi.smul_apply, smul_eq_mul, Matrix.mulVec, dotProduct]
      refine Finset.sum_congr rfl fun a _ => ?_
      rw [mul_comm]; rfl
    rw [hlin, Matrix.mulVec_mulVec, Matrix.mul_nonsing_inv _ (isUnit_iff_ne_zero.2 hdet),
      Matrix.one_mulVec]
  have hinj : Function.Injective Φ :=
    (LinearMap.injective_iff_surjective_of_finrank_eq_finrank (by simp [hd])).2 hsurj
  refine hinj ?_
  rw [map_zero]
  funext i
  exact hR i i.2

end Hexed.Krylov

end
