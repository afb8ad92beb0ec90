import Verif.FaceSnap.Spec
import Verif.Split.Line
set_option autoImplicit false
set_option linter.unusedVariables false

/-!
# Lemmas: positions on faces
-/

namespace Hexed.FaceSnap
open Hexed.Spatial Hexed.Metric Hexed.Tensor Hexed.Split
open Hexed.Basis (ell)
noncomputable section

theorem idx_inj {m n : Nat} {c c' : Fin m → Fin n} (h : idx c = idx c') : c = c' := by
  funext k
  rw [Fin.ext_iff, ← idx_digit c k, ← idx_digit c' k, h]

theorem sum_idx {m n : Nat} (hn : 0 < n) (F : Nat → ℝ) : ∑ l ∈ Finset.range (n ^ m), F l = ∑ c : Fin m → Fin n, F (idx c) := by
  symm
  refine Finset.sum_bij (fun c _ => idx c) (fun c _ => Finset.mem_range.2 (idx_lt c)) (fun c _ c' _ h => idx_inj h) (fun l hl => ?_) fun _ _ => rfl
  obtain ⟨c, hc⟩ := idx_surj hn l (Finset.mem_range.1 hl)
  exact ⟨c, Finset.mem_univ _, hc⟩

theorem prod_without {nd d : Nat} (hd : d < nd) (F : Nat → ℝ) : ∏ j ∈ (Finset.range nd).erase d, F (without d j) = ∏ k : Fin (nd - 1), F k := by
  refine Finset.prod_bij' (fun j hj => (⟨without d j, by
      have := Finset.mem_erase.1 hj; have h2 := Finset.mem_range.1 this.2; unfold without; split_ifs <;> omega⟩ : Fin (nd - 1)))
    (fun k _ => if k.val < d then k.val else k.val + 1) (fun _ _ => Finset.mem_univ _) ?_ ?_ ?_ fun _ _ => rfl
  · intro k _
    rw [Finset.mem_erase, Finset.mem_range]
    have := k.isLt
    split_ifs <;> omega
  · intro j hj
    have := Finset.mem_erase.1 hj
    simp only [without]
    split_ifs <;> omega
  · intro k _
    rw [Fin.ext_iff]
    simp only [without]
    split_ifs <;> omega

theorem endPt_straight {b : Basis.Nodes ℝ} {nd d : Nat} (hd : d < nd) (σ : Nat) (vert : Nat → ℝ) (c : Fin (nd - 1) → Fin b.n) :
    endPt b nd d (idx c) vert σ = straight nd d σ vert (fun k => b.node (c k)) := by
  rw [endPt, straight, sum_idx (by norm_num)]
  refine Finset.sum_congr rfl fun l _ => congrArg _ ?_
  rw [prod_without hd fun j => if idx l / 2 ^ (nd - 2 - j) % 2 = 1 then b.node (idx c / b.n ^ (nd - 2 - j) % b.n) else 1 - b.node (idx c / b.n ^ (nd - 2 - j) % b.n)]
  refine Finset.prod_congr rfl fun k _ => ?_
  have e1 := idx_digit c k
  have e2 := idx_digit l k
  rw [show nd - 1 - 1 - (k : Nat) = nd - 2 - k by omega] at e1 e2
  rw [e1, e2]
  by_cases h : l k = 1
  · rw [if_pos h, if_pos (by rw [h]; rfl)]
  · rw [if_neg h, if_neg fun h' : (l k).val = 1 => h (Fin.ext h')]

theorem rowStart_eq {nd n d : Nat} (hnd : 1 ≤ nd ∧ nd ≤ 3) (hn : 0 < n) (hd : d < nd) {k : Nat} (hk : k < n ^ (nd - 1)) (x : Nat) : rowStart nd n d k + n ^ (nd - 1 - d) * x = pt nd n d k x := by
  obtain rfl | rfl | rfl : nd = 1 ∨ nd = 2 ∨ nd = 3 := by omega
  · obtain rfl : d = 0 := by omega
    have : k = 0 := by simpa using hk
    subst this
    simp [rowStart, pt, List.range_succ]
  · have hk' : k < n := by simpa using hk
    obtain rfl | rfl : d = 0 ∨ d = 1 := by omega
    · simp [rowStart, pt, List.range_succ, Nat.mod_eq_of_lt hk', Nat.div_eq_of_lt hk']; ring
    · simp [rowStart, pt, List.range_succ, Nat.mod_eq_of_lt hk', Nat.mod_one]
  · have hk' : k / n < n := by rw [Nat.div_lt_iff_lt_mul hn, ← pow_two]; exact hk
    have hk2 : k / n ^ 2 = 0 := Nat.div_eq_of_lt hk
    have hk3 := Nat.div_add_mod k n
    obtain rfl | rfl | rfl : d = 0 ∨ d = 1 ∨ d = 2 := by omega
    · simp [rowStart, pt, List.range_succ, Nat.mod_eq_of_lt hk', hk2, Nat.mod_eq_of_lt hk]; nlinarith
    · simp [rowStart, pt, List.range_succ, Nat.mod_eq_of_lt hk']; ring
    · simp [rowStart, pt, List.range_succ, Nat.mod_eq_of_lt hk', Nat.mod_one]; nlinarith

/-- The position of the quadrature points of a face. -/
theorem facePosition_eq {b : Basis.Nodes ℝ} (hb : b.Distinct) (hn : 2 ≤ b.n) {nd d σ : Nat} (hnd : 1 ≤ nd ∧ nd ≤ 3) (hd : d < nd) (hσ : σ < 2) {e : Elem} (hu : Unwarped b nd d e.adj) (i : Nat)
    (c : Fin (nd - 1) → Fin b.n) :
    facePosition b nd e (2 * d + σ) (idx c) i = straight nd d σ (fun v => e.vert v i) (fun k => b.node (c k)) + e.adj ((2 * d + σ) * b.n ^ (nd - 1) + idx c) *
      (straight nd d 1 (fun v => e.vert v i) (fun k => b.node (c k)) - straight nd d 0 (fun v => e.vert v i) fun k => b.node (c k)) := by
  have hn0 : 0 < b.n := by omega
  have hk := idx_lt c
  rw [facePosition, show (2 * d + σ) % 2 = σ by omega, show (2 * d + σ) / 2 = d by omega]
  set E := fun τ => endPt b nd d (idx c) (fun v => e.vert v i) τ with hE
  set a := fun τ => e.adj ((2 * d + τ) * b.n ^ (nd - 1) + idx c) with ha
  have hl : ∀ ξ, line b nd d (idx c) e.adj (fun v => e.vert v i) ξ = (E 0 + a 0 * (E 1 - E 0)) + ((1 + a 1 - a 0) * (E 1 - E 0)) * ξ := by
    intro ξ
    rw [line_eq hd]
    simp only [hE, ha, add_zero]
    ring
  have key : ∀ x ∈ Finset.range b.n, Basis.interpolate b x (σ : ℝ) * warpedPosition b nd e.adj (rowStart nd b.n d (idx c) + b.n ^ (nd - 1 - d) * x) (fun v => e.vert v i) =
      Basis.interpolate b x (σ : ℝ) * (Polynomial.C (E 0 + a 0 * (E 1 - E 0)) + Polynomial.C ((1 + a 1 - a 0) * (E 1 - E 0)) * Polynomial.X).eval (b.node x) := by
    intro x hx
    have hx := Finset.mem_range.1 hx
    rw [rowStart_eq hnd hn0 hd hk, position_line hn0 hnd hd hu (pt_lt hn0 hd hk hx), (rowOf_pt hn0 hx).1, (rowOf_pt hn0 hx).2, hl]
    simp
  rw [Finset.sum_congr rfl key, Basis.interpolate_py_exact hb _ ?_]
  · simp only [Polynomial.eval_add, Polynomial.eval_mul, Polynomial.eval_C, Polynomial.eval_X]
    rw [← endPt_straight hd, ← endPt_straight hd, ← endPt_straight hd]
    show E 0 + a 0 * (E 1 - E 0) + (1 + a 1 - a 0) * (E 1 - E 0) * (σ : ℝ) = E σ + a σ * (E 1 - E 0)
    obtain rfl | rfl : σ = 0 ∨ σ = 1 := by omega
    · simp
    · simp; ring
  · refine lt_of_le_of_lt (Polynomial.degree_add_le _ _) (max_lt ?_ ?_)
    · exact lt_of_le_of_lt Polynomial.degree_C_le (by exact_mod_cast hn0)
    · refine lt_of_le_of_lt (Polynomial.degree_C_mul_X_le _) ?_
      exact_mod_cast (show 1 < b.n by omega)

theorem straight_sep {nd d σ : Nat} (hnd : 2 ≤ nd) (vert : Nat → ℝ) : Sep (nd - 1) 2 (straight nd d σ vert) := by
  refine Sep.sum _ _ fun l _ => Sep.smul (by omega) _ ?_
  have e : (fun x : Fin (nd - 1) → ℝ => ∏ k, if l k = 1 then x k else 1 - x k) = fun x => ∏ k, (if l k = 1 then Polynomial.X else (1 : Polynomial ℝ) - Polynomial.X).eval (x k) := by
    funext x
    refine Finset.prod_congr rfl fun k _ => ?_
    split_ifs <;> simp
  rw [e]
  refine Sep.prod _ fun k => ?_
  have h2 : ((1 : Nat) : WithBot Nat) < (2 : Nat) := by exact_mod_cast Nat.one_lt_two
  split_ifs
  · rw [Polynomial.degree_X]; exact h2
  · refine lt_of_le_of_lt (Polynomial.degree_sub_le _ _) (max_lt ?_ ?_)
    · rw [Polynomial.degree_one]; exact_mod_cast (show 0 < 2 by norm_num)
    · rw [Polynomial.degree_X]; exact h2

theorem through_sep {l : Basis.Nodes ℝ} (hl : l.Distinct) {m : Nat} (hm : 0 < m) (v : Nat → ℝ) : Sep m l.n (through l (m := m) v) := by
  refine Sep.sum _ _ fun q _ => ?_
  have := Sep.smul hm (v (idx q)) (Sep.prod (fun k => ell l (q k)) fun k => Basis.ell_degree_lt hl (q k).isLt)
  simpa only [mul_comm] using this

theorem through_sample {l : Basis.Nodes ℝ} (hl : l.Distinct) {m : Nat} (v : Nat → ℝ) (q : Fin m → Fin l.n) : through l v (sample l q) = v (idx q) := by
  rw [through, Finset.sum_eq_single q]
  · rw [Finset.prod_eq_one, one_mul]
    intro k _
    rw [sample, Basis.ell_node hl (q k).isLt (q k).isLt, if_pos rfl]
  · intro r _ hr
    obtain ⟨k, hk⟩ : ∃ k, r k ≠ q k := by by_contra h; push Not at h; exact hr (funext h)
    rw [Finset.prod_eq_zero (Finset.mem_univ k), zero_mul]
    rw [sample, Basis.ell_node hl (q k).isLt (r k).isLt, if_neg]
    intro h
    exact hk (Fin.ext (by omega))
  · intro h; exact absurd (Finset.mem_univ _) h

/-- The face of an element whose adjustments on it are the values of a polynomial. -/
theorem facePoint_eq {b : Basis.Nodes ℝ} (hb : b.Distinct) (hn : 2 ≤ b.n) {nd d σ : Nat} (hnd : nd = 2 ∨ nd = 3) (hd : d < nd) (hσ : σ < 2) {e : Elem} (hu : Unwarped b nd d e.adj) (i : Nat)
    {A : (Fin (nd - 1) → ℝ) → ℝ} {N : Nat} (hA : Sep (nd - 1) N A) (hN : N + 1 ≤ b.n) (ha : ∀ c : Fin (nd - 1) → Fin b.n, e.adj ((2 * d + σ) * b.n ^ (nd - 1) + idx c) = A fun k => b.node (c k))
    (x : Fin (nd - 1) → ℝ) :
    facePoint b nd e (2 * d + σ) x i = straight nd d σ (fun v => e.vert v i) x + A x * (straight nd d 1 (fun v => e.vert v i) x - straight nd d 0 (fun v => e.vert v i) x) := by
  have hs := straight_sep (nd := nd) (d := d) (σ := σ) (by omega) fun v => e.vert v i
  have h0 := straight_sep (nd := nd) (d := d) (σ := 0) (by omega) fun v => e.vert v i
  have h1 := straight_sep (nd := nd) (d := d) (σ := 1) (by omega) fun v => e.vert v i
  have hdiff : Sep (nd - 1) 2 fun x => straight nd d 1 (fun v => e.vert v i) x - straight nd d 0 (fun v => e.vert v i) x := by
    have := h1.add (h0.smul (by omega) (-1))
    simpa only [neg_one_mul, ← sub_eq_add_neg] using this
  have hf : Sep (nd - 1) b.n fun x => straight nd d σ (fun v => e.vert v i) x + A x * (straight nd d 1 (fun v => e.vert v i) x - straight nd d 0 (fun v => e.vert v i) x) :=
    (hs.mono (by omega)).add ((hA.mul hdiff).mono (by omega))
  rw [facePoint, ← hf.exact hb x]
  refine Finset.sum_congr rfl fun c _ => ?_
  rw [facePosition_eq hb hn (by omega) hd hσ hu, ha]

theorem Sep.const {m N : Nat} (hN : 1 ≤ N) (hm : 0 < m) (c : ℝ) : Sep m N fun _ => c := by
  have := Sep.smul hm c (Sep.prod (m := m) (N := N) (fun _ => 1) fun k => by rw [Polynomial.degree_one]; exact_mod_cast hN)
  simpa using this

/-- The product of `interpolate` matrices and the values at the nodes. -/
theorem interp_through {b l : Basis.Nodes ℝ} (hc : 2 ≤ b.n) (hr : 1 ≤ l.n) (u : Nat → ℝ) {nd : Nat} (hnd : 2 ≤ nd) (v : Nat → ℝ) :
    ∃ r, hypercube (interpMat b l) u nd ⟨b.n ^ (nd - 1), v⟩ = some r ∧ r.size = l.n ^ (nd - 1) ∧ ∀ q : Fin (nd - 1) → Fin l.n, r.val (idx q) = through b v (sample l q) := by
  obtain ⟨r, h1, h2, h3⟩ := hypercube_kron (interpMat b l) u hc hr (nd - 1) (by omega) ⟨b.n ^ (nd - 1), v⟩ rfl nd (by omega)
  refine ⟨r, h1, h2, fun q => ?_⟩
  refine (h3 q).trans ?_
  rw [through]
  refine Finset.sum_congr rfl fun c _ => ?_
  congr 1
  refine Finset.prod_congr rfl fun k _ => ?_
  show Basis.interpolateCpp b (l.node (q k)) (c k) = _
  rw [Basis.interpolateCpp_eq]
  rfl

theorem mapM_some {A B : Type} (f : A → Option B) (g : A → B) : ∀ l : List A, (∀ a ∈ l, f a = some (g a)) → l.mapM f = some (l.map g)
  | [], _ => rfl
  | a :: l, h => by rw [List.mapM_cons, h a (by simp), mapM_some f g l fun a ha => h a (by simp [ha])]; rfl

/-- The positions of the sample points are those on the polynomial through the quadrature points. -/
theorem samplePos_eq {b l : Basis.Nodes ℝ} (hc : 2 ≤ b.n) (hr : 1 ≤ l.n) (u : Nat → ℝ) {nd : Nat} (hnd : 2 ≤ nd) (e : Elem) (f : Nat) :
    ∃ p, samplePos b l u nd e f = .ok p ∧ ∀ (q : Fin (nd - 1) → Fin l.n) i, p (idx q) i = if i < nd then facePoint b nd e f (sample l q) i else 0 := by
  choose r h1 h2 h3 using fun i => interp_through hc hr u hnd fun k => facePosition b nd e f k i
  refine ⟨_, by rw [samplePos, mapM_some _ r _ fun i _ => h1 i]; rfl, fun q i => ?_⟩
  simp only [List.length_map, List.length_range, List.getElem_map, List.getElem_range]
  split_ifs with h
  · rw [h3 i q]; rfl
  · rfl

end
end Hexed.FaceSnap
