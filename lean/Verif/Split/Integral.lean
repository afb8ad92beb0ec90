import Verif.Split.Column
import Verif.Metric.Spec
set_option autoImplicit false
set_option linter.unusedVariables false

/-!
# Lemmas: Jacobian and integrals of parts of elements
-/

namespace Hexed.Split
open Hexed.Spatial Hexed.Metric
open Polynomial
noncomputable section

/-! ## Points and rows -/

theorem digits_ext {n : Nat} (hn : 0 < n) : ∀ (nd : Nat) (a a' : Nat), a < n ^ nd → a' < n ^ nd → (∀ d < nd, a / n ^ (nd - 1 - d) % n = a' / n ^ (nd - 1 - d) % n) → a = a' := by
  intro nd
  induction nd with
  | zero => intro a a' h h' _; simp at h h'; omega
  | succ nd ih =>
    intro a a' h h' hd
    have h1 : a / n = a' / n := by
      refine ih _ _ (by rw [Nat.div_lt_iff_lt_mul hn, ← pow_succ]; exact h) (by rw [Nat.div_lt_iff_lt_mul hn, ← pow_succ]; exact h') fun d hdn => ?_
      have := hd d (by omega)
      rwa [show nd + 1 - 1 - d = (nd - 1 - d) + 1 by omega, pow_succ', ← Nat.div_div_eq_div_mul, ← Nat.div_div_eq_div_mul] at this
    have h2 : a % n = a' % n := by
      have := hd nd (by omega)
      simpa using this
    rw [← Nat.div_add_mod a n, ← Nat.div_add_mod a' n, h1, h2]

/-- Moving along `j` does not change the coordinate `i`. -/
theorem digit_along {nd n i j q x : Nat} (hn : 0 < n) (hi : i < nd) (hj : j < nd) (hij : i ≠ j) (hx : x < n) :
    nodeOf nd n i (pt nd n j (rowOf nd n j q) x) = nodeOf nd n i q := by
  have e := pt_digit (k := rowOf nd n j q) hn hj hi hx hij
  have e' := pt_digit (k := rowOf nd n j q) hn hj hi (nodeOf_lt nd hn j q) hij
  rw [pt_row hn] at e'
  rw [nodeOf, nodeOf, e, e']

theorem row_along {nd n i j k x y y' : Nat} (hn : 0 < n) (hi : i < nd) (hj : j < nd) (hij : i ≠ j) (hk : k < n ^ (nd - 1)) (hx : x < n) (hy : y < n) (hy' : y' < n) :
    rowOf nd n i (pt nd n j (rowOf nd n j (pt nd n i k y)) x) = rowOf nd n i (pt nd n j (rowOf nd n j (pt nd n i k y')) x) := by
  have lt : ∀ z < n, pt nd n j (rowOf nd n j (pt nd n i k z)) x < n ^ nd := fun z hz => pt_lt hn hj (rowOf_lt hn hj (pt_lt hn hi hk hz)) hx
  set A := pt nd n j (rowOf nd n j (pt nd n i k y)) x
  set B := pt nd n j (rowOf nd n j (pt nd n i k y')) x
  have h : pt nd n i (rowOf nd n i A) 0 = pt nd n i (rowOf nd n i B) 0 := by
    refine digits_ext hn nd _ _ (pt_lt hn hi (rowOf_lt hn hi (lt y hy)) hn) (pt_lt hn hi (rowOf_lt hn hi (lt y' hy')) hn) fun d hd => ?_
    by_cases hdi : d = i
    · subst hdi; rw [pt_digit_self hn hn, pt_digit_self hn hn]
    · have e1 := digit_along (q := A) hn hd hi hdi hn
      have e2 := digit_along (q := B) hn hd hi hdi hn
      rw [nodeOf] at e1 e2
      rw [e1, e2]
      by_cases hdj : d = j
      · subst hdj
        rw [(rowOf_pt hn hx).2, (rowOf_pt hn hx).2]
      · rw [digit_along hn hd hj hdj hx, digit_along hn hd hj hdj hx, nodeOf, nodeOf, pt_digit hn hi hd hy hdi, pt_digit hn hi hd hy' hdi]
  exact (pt_inj hn hn hn h).1

/-! ## Jacobian -/

theorem line_affine {m : Mesh} {b : Basis.Nodes ℝ} {i : Nat} (hi : i < m.nd) (e k r : Nat) (ξ : ℝ) : m.line b e i k r ξ = m.line b e i k r 0 + ξ * (m.line b e i k r 1 - m.line b e i k r 0) := by
  simp only [Mesh.line, line_eq hi]; ring

theorem part_position {b : Basis.Nodes ℝ} {nvar : Nat} {m m' : Mesh} {i : Nat} {sg : Bool} {e0 e : Nat} {a c : ℝ} (hp : IsPart b nvar m m' i sg e0 e a c) (hnd' : m'.nd = m.nd)
    (hn : 0 < b.n) (hnd : 1 ≤ m.nd ∧ m.nd ≤ 3) (hi : i < m.nd) (hu : Unwarped b m.nd i (m'.adj e)) {q : Nat} (hq : q < b.n ^ m.nd) {r : Nat} (hr : r < m.nd) :
    (m'.shape e).position b m.nd q r = m.line b e0 i (rowOf m.nd b.n i q) r (atDist sg (a + (c - a) * atDist sg (b.node (nodeOf m.nd b.n i q)))) := by
  have h1 := position_line hn hnd hi hu hq (fun v => m'.pos (m'.vid e v) r)
  have h2 := hp.geometry r hr (rowOf m.nd b.n i q) (rowOf_lt hn hi hq) (atDist sg (b.node (nodeOf m.nd b.n i q)))
  rw [atDist_atDist, Mesh.line, hnd'] at h2
  rw [← h2, ← h1]
  rfl

theorem part_jac {b : Basis.Nodes ℝ} {bs : BasisData} (hof : bs.IsOf b) (hb : b.Distinct) (hn : 2 ≤ b.n) {nvar : Nat} {m m' : Mesh} {i : Nat} {sg : Bool} {e0 e : Nat} {a c : ℝ} (hp : IsPart b nvar m m' i sg e0 e a c) (hnd' : m'.nd = m.nd)
    (hnd : 1 ≤ m.nd ∧ m.nd ≤ 3) (hi : i < m.nd) (hu : Unwarped b m.nd i (m'.adj e)) {k y : Nat} (hk : k < b.n ^ (m.nd - 1)) (hy : y < b.n) {r j : Nat} (hr : r < m.nd) (hj : j < m.nd) :
    (m'.shape e).jac b bs m.nd (pt m.nd b.n i k y) r j = (if j = i then c - a else 1) * colJac m b bs e0 i k r j (atDist sg (a + (c - a) * atDist sg (b.node y))) := by
  have hn0 : 0 < b.n := by omega
  have hsz : (m'.shape e).size = m.size e0 := hp.size
  rw [ElemShape.jac, hsz, hof.n, colJac]
  by_cases hji : j = i
  · subst hji
    rw [if_pos rfl, if_pos rfl, (rowOf_pt hn0 hy).1, (rowOf_pt hn0 hy).2, ← mul_div_assoc]
    congr 1
    set L0 := m.line b e0 j k r 0
    set L1 := m.line b e0 j k r 1
    set P : ℝ[X] := C L0 + partMap sg a c * C (L1 - L0) with hP
    have hdeg : P.degree < b.n := by
      refine lt_of_le_of_lt degree_le_natDegree ?_
      have h1 : P.natDegree ≤ 1 := (natDegree_C_add (a := L0) (p := partMap sg a c * C (L1 - L0))) ▸ (natDegree_mul_C_le _ _).trans (partMap_degree sg a c)
      exact_mod_cast (show P.natDegree < b.n by omega)
    have hd := Basis.derivative_exact hb P hdeg hy
    have hder : (Polynomial.derivative P).eval (b.node y) = (c - a) * (L1 - L0) := by
      rw [hP]; cases sg <;> simp [partMap]
    rw [← hder, ← hd]
    refine Finset.sum_congr rfl fun x hx => ?_
    have hx := Finset.mem_range.1 hx
    rw [hof.mats.diff_eq hy hx, part_position hp hnd' hn0 hnd hi hu (pt_lt hn0 hi hk hx) hr, (rowOf_pt hn0 hx).1, (rowOf_pt hn0 hx).2, line_affine hi, hP, eval_add, eval_mul, eval_C, eval_C, partMap_eval]
  · rw [if_neg hji, if_neg hji, one_mul]
    congr 1
    have hnode : nodeOf m.nd b.n j (pt m.nd b.n i k y) = nodeOf m.nd b.n j (pt m.nd b.n i k 0) := by
      rw [nodeOf, nodeOf, pt_digit hn0 hi hj hy hji, pt_digit hn0 hi hj hn0 hji]
    rw [hnode]
    refine Finset.sum_congr rfl fun x hx => ?_
    have hx := Finset.mem_range.1 hx
    rw [part_position hp hnd' hn0 hnd hi hu (pt_lt hn0 hj (rowOf_lt hn0 hj (pt_lt hn0 hi hk hy)) hx) hr, digit_along hn0 hi hj (Ne.symm hji) hx, (rowOf_pt hn0 hy).2,
      row_along hn0 hi hj (Ne.symm hji) hk hx hy hn0]

theorem jacDet_scale {nd i : Nat} (hi : i < nd) (w : ℝ) (J J' : Nat → Nat → ℝ) (h : ∀ r < nd, ∀ c < nd, J r c = (if c = i then w else 1) * J' r c) : jacDet nd J = w * jacDet nd J' := by
  rw [jacDet, jacDet]
  have : (Matrix.of fun r c : Fin nd => J r.val c.val) = Matrix.of fun r c : Fin nd => (fun c : Fin nd => if c.val = i then w else 1) c * (Matrix.of fun r c : Fin nd => J' r.val c.val) r c := by
    ext r c
    simp only [Matrix.of_apply]
    exact h r.val r.isLt c.val c.isLt
  rw [this, Matrix.det_mul_row]
  congr 1
  rw [Finset.prod_eq_single (⟨i, hi⟩ : Fin nd)]
  · simp
  · intro c _ hc
    rw [if_neg (fun h => hc (Fin.ext h))]
  · intro h; exact absurd (Finset.mem_univ _) h

/-- The determinant of a part is that of the whole element at the same place, times the relative thickness of the part. -/
theorem part_det {b : Basis.Nodes ℝ} {bs : BasisData} (hof : bs.IsOf b) (hb : b.Distinct) (hn : 2 ≤ b.n) {nvar : Nat} {m m' : Mesh} {i : Nat} {sg : Bool} {e0 e : Nat} {a c : ℝ} (hp : IsPart b nvar m m' i sg e0 e a c) (hnd' : m'.nd = m.nd)
    (hnd : 1 ≤ m.nd ∧ m.nd ≤ 3) (hi : i < m.nd) (hu : Unwarped b m.nd i (m'.adj e)) {k y : Nat} (hk : k < b.n ^ (m.nd - 1)) (hy : y < b.n) :
    jacDet m.nd ((m'.shape e).jac b bs m.nd (pt m.nd b.n i k y)) = (c - a) * jacDet m.nd fun r j => colJac m b bs e0 i k r j (atDist sg (a + (c - a) * atDist sg (b.node y))) :=
  jacDet_scale hi _ _ _ fun r hr j hj => part_jac hof hb hn hp hnd' hnd hi hu hk hy hr hj

/-- The determinant along a line is a polynomial. -/
theorem colJac_poly {m : Mesh} {b : Basis.Nodes ℝ} (bs : BasisData) {i : Nat} (hi : i < m.nd) (e k : Nat) :
    ∃ P : ℝ[X], P.natDegree ≤ m.nd - 1 ∧ ∀ ξ, P.eval ξ = jacDet m.nd fun r j => colJac m b bs e i k r j ξ := by
  have ent : ∀ r j : Nat, ∃ Q : ℝ[X], Q.natDegree ≤ (if j = i then 0 else 1) ∧ ∀ ξ, Q.eval ξ = colJac m b bs e i k r j ξ := by
    intro r j
    by_cases hji : j = i
    · refine ⟨C ((m.line b e i k r 1 - m.line b e i k r 0) / m.size e), by rw [if_pos hji, natDegree_C], fun ξ => by rw [eval_C, colJac, if_pos hji]⟩
    · have : ∀ ξ, colJac m b bs e i k r j ξ = colJac m b bs e i k r j 0 + (colJac m b bs e i k r j 1 - colJac m b bs e i k r j 0) * ξ := by
        intro ξ
        simp only [colJac, if_neg hji]
        rw [← sub_div, ← Finset.sum_sub_distrib, div_mul_eq_mul_div, ← add_div, Finset.sum_mul, ← Finset.sum_add_distrib]
        congr 1
        refine Finset.sum_congr rfl fun x _ => ?_
        rw [line_affine hi]; ring
      refine ⟨C (colJac m b bs e i k r j 0) + C (colJac m b bs e i k r j 1 - colJac m b bs e i k r j 0) * X, ?_, fun ξ => ?_⟩
      · rw [if_neg hji]; compute_degree
      · conv_rhs => rw [this]
        simp
  choose Q hQ hQe using ent
  refine ⟨Matrix.det (Matrix.of fun r c : Fin m.nd => Q r.val c.val), ?_, fun ξ => ?_⟩
  · rw [Matrix.det_apply']
    refine natDegree_sum_le_of_forall_le _ _ fun σ _ => ?_
    refine natDegree_mul_le.trans ?_
    have h1 : ((Equiv.Perm.sign σ : ℤ) : ℝ[X]).natDegree = 0 := natDegree_intCast _
    rw [h1, zero_add]
    refine (natDegree_prod_le _ _).trans ?_
    calc ∑ c : Fin m.nd, (Q (σ c).val c.val).natDegree ≤ ∑ c : Fin m.nd, (if c.val = i then 0 else 1) := Finset.sum_le_sum fun c _ => hQ _ _
      _ = m.nd - 1 := by
        rw [Fin.sum_univ_eq_sum_range (fun c => if c = i then 0 else 1) m.nd, ← Finset.add_sum_erase _ _ (Finset.mem_range.2 hi), if_pos rfl, zero_add,
          Finset.sum_congr rfl fun c hc => if_neg (Finset.mem_erase.1 hc).1, Finset.sum_const, smul_eq_mul, mul_one, Finset.card_erase_of_mem (Finset.mem_range.2 hi), Finset.card_range]
  · rw [← coe_evalRingHom, RingHom.map_det, jacDet]
    congr 1
    ext r c
    simp [hQe]

/-! ## Integrals -/

theorem quad_part {b : Basis.Nodes ℝ} {deg : Nat} (hb : b.Exact deg) (P : ℝ[X]) (hP : P.natDegree ≤ deg + 1) (sg : Bool) (a c : ℝ) :
    ∑ y ∈ Finset.range b.n, b.weight y * ((c - a) * (Polynomial.derivative P).eval (a + (c - a) * atDist sg (b.node y))) = P.eval c - P.eval a := by
  set A : ℝ[X] := if sg then C a + C (c - a) * (1 - X) else C a + C (c - a) * X with hA
  have hAd : A.natDegree ≤ 1 := by
    rw [hA]; split <;> compute_degree
  have hAe : ∀ x, A.eval x = a + (c - a) * atDist sg x := by
    intro x; rw [hA]; cases sg <;> simp [atDist]
  have hAd' : Polynomial.derivative A = C ((if sg then -1 else 1) * (c - a)) := by
    rw [hA]; cases sg <;> simp
  have h := hb.integral (C (if sg then (-1 : ℝ) else 1) * P.comp A) (by
    refine (natDegree_C_mul_le _ _).trans ?_
    have := natDegree_comp_le (p := P) (q := A)
    have h2 := Nat.mul_le_mul_left P.natDegree hAd
    omega)
  have e : ∀ x, (Polynomial.derivative (C (if sg then (-1 : ℝ) else 1) * P.comp A)).eval x = (c - a) * (Polynomial.derivative P).eval (a + (c - a) * atDist sg x) := by
    intro x
    rw [derivative_C_mul, derivative_comp, hAd', eval_mul, eval_C, eval_mul, eval_C, eval_comp, hAe]
    cases sg <;> simp
    ring
  simp only [e] at h
  rw [h]
  simp only [eval_mul, eval_C, eval_comp, hAe]
  cases sg <;> simp [atDist]
  ring

/-- The integral over a part depends on its ends only, like a difference of an antiderivative. -/
theorem part_integral {b : Basis.Nodes ℝ} {bs : BasisData} {deg : Nat} (hof : bs.IsOf b) (hb : b.Exact deg) (hn : 2 ≤ b.n) {m : Mesh} (hnd : 1 ≤ m.nd ∧ m.nd ≤ 3) (hdeg : b.n + m.nd ≤ deg + 2)
    (nvar : Nat) {i : Nat} (hi : i < m.nd) (sg : Bool) (e0 : Nat) {v : Nat} (hv : v < nvar) :
    ∃ Φ : ℝ → ℝ, ∀ (m' : Mesh) (e : Nat) (a c : ℝ), IsPart b nvar m m' i sg e0 e a c → m'.nd = m.nd → Unwarped b m.nd i (m'.adj e) → m'.integral b bs v e = Φ c - Φ a := by
  have hn0 : 0 < b.n := by omega
  have hd : b.Distinct := hb.distinct
  choose D hD hDe using fun k => colJac_poly (m := m) (b := b) bs hi e0 k
  -- the state along a line
  let S : Nat → ℝ[X] := fun k => ∑ x ∈ Finset.range b.n, C (m.state e0 (v, pt m.nd b.n i k x)) * Basis.ell b x
  have hSd : ∀ k, (S k).natDegree ≤ b.n - 1 := fun k => natDegree_sum_le_of_forall_le _ _ fun x hx =>
    (natDegree_C_mul_le _ _).trans (Basis.ell_degree hd (Finset.mem_range.1 hx)).le
  have hSd' : ∀ k, (S k).degree < b.n := fun k => lt_of_le_of_lt degree_le_natDegree (by have := hSd k; exact_mod_cast (show (S k).natDegree < b.n by omega))
  have hSe : ∀ k, ∀ x < b.n, m.state e0 (v, pt m.nd b.n i k x) = (S k).eval (b.node x) := by
    intro k x hx
    simp only [S]
    rw [eval_finset_sum, Finset.sum_eq_single_of_mem x (Finset.mem_range.2 hx)]
    · rw [eval_mul, eval_C, Basis.ell_node hd hx hx, if_pos rfl, mul_one]
    · intro y hy hyx
      rw [eval_mul, Basis.ell_node hd hx (Finset.mem_range.1 hy), if_neg (Ne.symm hyx), mul_zero]
  -- the integrand as a function of the distance from the face
  let T : ℝ[X] := if sg then 1 - X else X
  have hTd : T.natDegree ≤ 1 := by simp only [T]; split <;> compute_degree
  have hTe : ∀ t, T.eval t = atDist sg t := by intro t; simp only [T]; cases sg <;> simp [atDist]
  choose P hPd hPn using fun k => Basis.exists_antideriv ((D k * S k).comp T)
  have hPdeg : ∀ k, (P k).natDegree ≤ deg + 1 := by
    intro k
    refine (hPn k).trans ?_
    have h1 : ((D k * S k).comp T).natDegree ≤ (D k * S k).natDegree * 1 := natDegree_comp_le.trans (Nat.mul_le_mul_left _ hTd)
    have h2 : (D k * S k).natDegree ≤ (D k).natDegree + (S k).natDegree := natDegree_mul_le
    have h3 := hD k
    have h4 := hSd k
    omega
  refine ⟨fun t => ∑ k ∈ Finset.range (b.n ^ (m.nd - 1)), qw b.weight b.n (m.nd - 1) k * (P k).eval t, fun m' e a c hp hnd' hu => ?_⟩
  rw [Mesh.integral, hnd', sum_rows m.nd b.n i hn0 hi, ← Finset.sum_sub_distrib]
  refine Finset.sum_congr rfl fun k hk => ?_
  have hk := Finset.mem_range.1 hk
  rw [← mul_sub, ← quad_part hb (P k) (hPdeg k) sg a c, Finset.mul_sum]
  refine Finset.sum_congr rfl fun y hy => ?_
  have hy := Finset.mem_range.1 hy
  rw [qw_pt _ hn0 hi hy, part_det hof hd hn hp hnd' hnd hi hu hk hy, ← hDe, hp.state v hv k hk (S k) (hSd' k) (hSe k) y hy, hPd, eval_comp, eval_mul, hTe]
  ring

end
end Hexed.Split
