import Verif.Vis.Lemmas
import Verif.Visc.Lemmas
set_option autoImplicit false
set_option linter.unusedVariables false

/-! # Helper lemmas: the functions of `Vis_data` are tensor product interpolation -/

namespace Hexed.Vis
open Hexed.Tensor Hexed.Basis Hexed.Stats

variable {b : Nodes ℝ}

theorem powi (n m : Nat) : MathFn.pow (K := Nat) n ((m : Int) + 1 - 1) = n ^ m := by
  rw [add_sub_cancel_right]; exact MathFn.pow_nat n m

theorem interior_lag (u : Nat → ℝ) {nd nv n : Nat} (hnd : 1 ≤ nd) (hb : 2 ≤ b.n) (hn : 1 ≤ n) (func : Nat → Nat → ℝ) :
    ∃ r, interior b u nd nv (vars (MathFn.pow (K := Nat) b.n nd) nv func) n = some r ∧ r.size = n ^ nd * nv ∧
      ∀ v < nv, ∀ d : Fin nd → Fin n, r.val (v * n ^ nd + idx d) = lag b (func · v) fun k => linSpaced n (d k) := by
  unfold interior
  simp only [MathFn.pow_nat]
  have H := fun v => hyper_lag u hnd hb hn ⟨b.n ^ nd, fun j => (vars (b.n ^ nd) nv func).val (v * b.n ^ nd + j)⟩ rfl (Nat.le_succ nd)
  choose g h1 h2 h3 using H
  obtain ⟨r, r1, r2, r3⟩ := perVar_ok u (nv := nv) (Nat.pow_pos hn) (hypercube (interpMat b n) u (nd + 1)) (vars (b.n ^ nd) nv func) rfl g (fun v _ => h1 v) fun v _ => h2 v
  refine ⟨r, r1, r2, fun v hv d => ?_⟩
  rw [r3 v hv _ (idx_lt d), h3]
  exact lag_congr (fun q hq => vars_val (nv := nv) func hq) _

theorem dim_lag (u : Nat → ℝ) {m : Nat} (hb : 1 ≤ b.n) (i : Fin (m + 1)) (t : ℝ) (row : Nat → ℝ) (hrow : ∀ k < b.n, row k = interpolateCpp b t k) (v : Vec ℝ) (hv : v.size = b.n ^ (m + 1)) :
    ∃ r, dimension ⟨1, b.n, fun _ k => row k⟩ u v i = some r ∧ r.size = b.n ^ m ∧
      ∀ c : Fin m → Fin b.n, r.val (idx c) = ∑ k : Fin b.n, interpolateCpp b t k * v.val (idx (i.insertNth k c : Fin (m + 1) → Fin b.n)) := by
  have hi : (i : Nat) ≤ m := by omega
  obtain ⟨r, r1, r2, r3⟩ := dimension_sum (⟨1, b.n, fun _ k => row k⟩ : Mat ℝ) u v i (b.n ^ (m - i)) hb (by
    rw [hv, ← pow_add]; congr 1; omega)
  refine ⟨r, r1, ?_, fun c => ?_⟩
  · rw [r2, Nat.mul_one, ← pow_add]; congr 1; omega
  · obtain ⟨pre, post, p1, p2, p3, -⟩ := idx_insert i (⟨0, hb⟩ : Fin b.n) c
    have e := r3 pre 0 post p1 Nat.one_pos p2
    simp only [Nat.mul_one, Nat.add_zero] at e
    rw [p3, e, Finset.sum_range]
    refine Finset.sum_congr rfl fun k _ => ?_
    rw [hrow k k.2]
    congr 2
    rw [← Visc.pt_insert hb i k c, Spatial.pt, p3, Nat.add_sub_cancel, Nat.mul_comm pre (b.n ^ (m - (i : Nat))), Nat.mul_add_div (Nat.pow_pos hb), Nat.mul_add_mod, Nat.div_eq_of_lt p2, Nat.mod_eq_of_lt p2, Nat.add_zero pre]

theorem face_lag (u : Nat → ℝ) {m nv n : Nat} (hm : 1 ≤ m) (hb : 2 ≤ b.n) (hn : 1 ≤ n) (func : Nat → Nat → ℝ) (i : Fin (m + 1)) (s : Bool) :
    ∃ r, face b u (m + 1) nv (vars (MathFn.pow (K := Nat) b.n (m + 1 : Nat)) nv func) i s n = some r ∧ r.size = n ^ m * nv ∧
      ∀ v < nv, ∀ d : Fin m → Fin n, r.val (v * n ^ m + idx d) = lag b (func · v) (i.insertNth (s.toNat : ℝ) fun k => linSpaced n (d k) : Fin (m + 1) → ℝ) := by
  unfold face
  simp only [MathFn.pow_nat]
  rw [show MathFn.pow (K := Nat) n (((m + 1 : Nat) : Int) - 1) = n ^ m by push_cast; exact powi n m]
  have H := fun v => dim_lag u (by omega : 1 ≤ b.n) i (s.toNat : ℝ) (fun k => (boundMat b).val s.toNat k) (fun k hk => boundMat_eq _ _ (by cases s <;> decide) hk)
    ⟨b.n ^ (m + 1), fun j => (vars (b.n ^ (m + 1)) nv func).val (v * b.n ^ (m + 1) + j)⟩ rfl
  choose f f1 f2 f3 using H
  have H2 := fun v => hyper_lag u hm hb hn (f v) (f2 v) (show m ≤ m + 1 + 1 by omega)
  choose g h1 h2 h3 using H2
  obtain ⟨r, r1, r2, r3⟩ := perVar_ok u (nv := nv) (Nat.pow_pos hn) (fun var => (dimension ⟨1, b.n, fun _ k => (boundMat b).val s.toNat k⟩ u var i).bind fun fq => hypercube (interpMat b n) u (m + 1 + 1) fq)
    (vars (b.n ^ (m + 1)) nv func) rfl g (fun v _ => by rw [f1]; exact h1 v) fun v _ => h2 v
  refine ⟨r, r1, r2, fun v hv d => ?_⟩
  rw [r3 v hv _ (idx_lt d), h3, lag_insert b i _ _ _ _ (f3 v)]
  exact lag_congr (fun q hq => vars_val (nv := nv) func hq) _

/-- One variable at one point. -/
theorem samplePoint_lag (u : Nat → ℝ) (hb : 1 ≤ b.n) (x : Nat → ℝ) : ∀ (nd : Nat) (v : Vec ℝ), v.size = b.n ^ nd → samplePoint b u nd v x = some (lag b v.val fun k : Fin nd => x k)
  | 0, v, hv => by
    rw [samplePoint]
    simp only [List.range_zero, List.reverse_nil, List.foldlM_nil]
    have : 0 < v.size := by rw [hv]; simp
    simp [this, lag, idx, RowIndex.tensorIdx]
  | m + 1, v, hv => by
    obtain ⟨r, r1, r2, r3⟩ := dim_lag u hb (Fin.last m) (x m) (fun k => interpolateCpp b (x m) k) (fun _ _ => rfl) v hv
    have ih := samplePoint_lag u hb x m r r2
    rw [samplePoint] at ih ⊢
    rw [List.range_succ, List.reverse_append, List.reverse_singleton, List.singleton_append, List.foldlM_cons]
    rw [show ((Fin.last m : Fin (m + 1)) : Nat) = m from rfl] at r1
    rw [r1]
    refine ih.trans ?_
    rw [lag_insert b (Fin.last m) v.val (x m) _ _ r3]
    congr 2
    funext k
    refine Fin.lastCases ?_ (fun k => ?_) k
    · simp [Fin.insertNth_apply_same]
    · rw [← Fin.succAbove_last_apply k, Fin.insertNth_apply_succAbove]; simp

theorem sample_lag (u : Nat → ℝ) {nd nv : Nat} (hb : 1 ≤ b.n) (func : Nat → Nat → ℝ) (x : Nat → ℝ) {v : Nat} (hv : v < nv) :
    sample b u nd (vars (MathFn.pow (K := Nat) b.n nd) nv func) x v = some (lag b (func · v) fun k : Fin nd => x k) := by
  unfold sample
  simp only [MathFn.pow_nat]
  have hp : 0 < b.n ^ nd := Nat.pow_pos hb
  have : b.n ^ nd = 0 ∨ v * b.n ^ nd + (b.n ^ nd - 1) * 1 < (vars (b.n ^ nd) nv func).size := by
    right
    have h1 : (v + 1) * b.n ^ nd ≤ nv * b.n ^ nd := Nat.mul_le_mul_right _ hv
    rw [show (vars (b.n ^ nd) nv func).size = nv * b.n ^ nd from Nat.mul_comm _ _]
    rw [Nat.add_mul] at h1
    omega
  rw [readSeq, if_pos this]
  refine (samplePoint_lag u hb x nd _ rfl).trans ?_
  congr 1
  refine lag_congr (fun q hq => ?_) _
  simp only [Nat.mul_one]
  exact vars_val func hq

/-! ## Edges -/

theorem forLoop_own (N : Nat) (u : Nat → Nat → ℝ) (own : Nat → Nat → Nat) (f : Nat → Nat → ℝ) (P : Nat → Nat → Prop) [∀ r c, Decidable (P r c)]
    (body : Nat → (Nat → Nat → ℝ) → Option (Nat → Nat → ℝ)) (h : ∀ i, i < N → ∀ val, body i val = some fun r c => if P r c ∧ own r c = i then f r c else val r c) :
    forLoop N body u = some fun r c => if P r c ∧ own r c < N then f r c else u r c := by
  have := forLoop_eq body (fun i => fun r c => if P r c ∧ own r c < i then f r c else u r c) N ?_
  · simpa using this
  intro i hi
  rw [h i hi]
  congr 1
  funext r c
  by_cases hp : P r c
  · simp only [hp, true_and]
    by_cases h1 : own r c = i
    · rw [if_pos h1, if_pos (by omega)]
    · rw [if_neg h1]
      by_cases h2 : own r c < i
      · rw [if_pos h2, if_pos (by omega)]
      · rw [if_neg h2, if_neg (by omega)]
  · simp [hp]

theorem slab_val {m nv : Nat} (hb : 1 ≤ b.n) (func : Nat → Nat → ℝ) (i : Fin (m + 1)) (v : Nat) (k : Fin b.n) (c : Fin m → Fin b.n) :
    (slab b (m + 1) (vars (MathFn.pow (K := Nat) b.n (m + 1 : Nat)) nv func) i v k).val (idx c) = func (idx (i.insertNth k c : Fin (m + 1) → Fin b.n)) v := by
  have hs : MathFn.pow (K := Nat) b.n (((m + 1 : Nat) : Int) - 1 - (i : Nat)) = b.n ^ (m - i) := by
    rw [show (((m + 1 : Nat) : Int) - 1 - (i : Nat)) = ((m - i : Nat) : Int) by omega]
    exact MathFn.pow_nat _ _
  unfold slab
  simp only [hs, MathFn.pow_nat]
  have e : idx (i.insertNth k c : Fin (m + 1) → Fin b.n) = (k : Nat) * b.n ^ (m - i) + idx c / b.n ^ (m - i) * b.n ^ (m - i) * b.n + idx c % b.n ^ (m - i) := by
    rw [← Visc.pt_insert hb i k c, Spatial.pt, Nat.add_sub_cancel]; ring
  rw [show v * b.n ^ (m + 1) + (k : Nat) * b.n ^ (m - i) + idx c / b.n ^ (m - i) * b.n ^ (m - i) * b.n + idx c % b.n ^ (m - i) =
    v * b.n ^ (m + 1) + idx (i.insertNth k c : Fin (m + 1) → Fin b.n) by rw [e]; ring]
  exact vars_val func (idx_lt _)

theorem edgeQpoints_lag (u : Nat → ℝ) {m nv : Nat} (hm : 1 ≤ m) (hb : 2 ≤ b.n) (func : Nat → Nat → ℝ) (i : Fin (m + 1)) (v : Nat) :
    ∃ eq, edgeQpoints b u (m + 1) (vars (MathFn.pow (K := Nat) b.n (m + 1 : Nat)) nv func) i v = some eq ∧
      ∀ k : Fin b.n, ∀ e : Fin m → Fin 2, eq k (idx e) = ∑ c : Fin m → Fin b.n, (∏ l, interpolateCpp b ((e l : Nat) : ℝ) (c l)) * func (idx (i.insertNth k c : Fin (m + 1) → Fin b.n)) v := by
  have H : ∀ k : Nat, ∃ r, hypercube (boundMat b) u (m + 1 + 1) (slab b (m + 1) (vars (MathFn.pow (K := Nat) b.n (m + 1 : Nat)) nv func) i v k) = some r ∧ r.size = 2 ^ m ∧
      ∀ e : Fin m → Fin 2, r.val (idx e) = ∑ c : Fin m → Fin b.n, (∏ l, (boundMat b).val (e l) (c l)) * (slab b (m + 1) (vars (MathFn.pow (K := Nat) b.n (m + 1 : Nat)) nv func) i v k).val (idx c) := fun k =>
    hypercube_kron (boundMat b) u hb (by simp [boundMat]) m hm _ (by
      simp only [slab, MathFn.pow_nat]
      rw [pow_succ, Nat.mul_div_cancel _ (by omega)]; rfl) _ (by omega)
  choose r r1 r2 r3 using H
  have hE : MathFn.pow (K := Nat) 2 (((m + 1 : Nat) : Int) - 1) * (m + 1) / (m + 1) = 2 ^ m := by
    rw [show MathFn.pow (K := Nat) 2 (((m + 1 : Nat) : Int) - 1) = 2 ^ m by push_cast; exact powi 2 m, Nat.mul_div_cancel _ (by omega)]
  refine ⟨_, forLoop_own b.n (fun _ _ => 0) (fun q _ => q) (fun q e => (r q).val e) (fun _ _ => True) _ ?_, ?_⟩
  · intro q hq val
    rw [r1, hE]
    simp only [Option.bind_some, r2, if_true, true_and]
    congr 1
    funext q' e
    by_cases h : q' = q
    · subst h; simp
    · simp [h]
  · intro k e
    simp only [true_and, if_pos k.2, r3]
    refine Finset.sum_congr rfl fun c _ => ?_
    rw [slab_val (by omega)]
    congr 1
    exact Finset.prod_congr rfl fun l _ => boundMat_eq _ _ (e l).2 (c l).2

theorem edgesMat_lag (u : Nat → ℝ) {m nv n : Nat} (hm : 1 ≤ m) (hb : 2 ≤ b.n) (hn : 1 ≤ n) (func : Nat → Nat → ℝ) :
    ∃ M, edgesMat b u (m + 1) nv (vars (MathFn.pow (K := Nat) b.n (m + 1 : Nat)) nv func) n = some M ∧
      ∀ v < nv, ∀ s < n, ∀ i : Fin (m + 1), ∀ e : Fin m → Fin 2, M (v * n + s) (i * 2 ^ m + idx e) = lag b (func · v) (i.insertNth (linSpaced n s) fun l => ((e l : Nat) : ℝ) : Fin (m + 1) → ℝ) := by
  have hE : MathFn.pow (K := Nat) 2 (((m + 1 : Nat) : Int) - 1) = 2 ^ m := by push_cast; exact powi 2 m
  have hP : 0 < 2 ^ m := Nat.pow_pos (by norm_num)
  have H := fun (i : Fin (m + 1)) v => edgeQpoints_lag u (nv := nv) hm hb func i v
  choose q q1 q2 using H
  have key : ∀ a c n : Nat, 0 < n → ((a * n ≤ c ∧ c < a * n + n) ↔ c / n = a) := fun a c n h => by
    rw [Nat.div_eq_iff h]; constructor <;> intro h' <;> constructor <;> omega
  have hW : ∀ i v eq res, writeEdges b (m + 1) n i v eq res = fun r c => if r / n = v ∧ c / 2 ^ m = i then ∑ k ∈ Finset.range b.n, (interpMat b n).val (r % n) k * eq k (c % 2 ^ m) else res r c := by
    intro i v eq res
    have e1 : i * (2 ^ m * (m + 1)) / (m + 1) = i * 2 ^ m := by rw [← mul_assoc, Nat.mul_div_cancel _ (by omega)]
    have e2 : 2 ^ m * (m + 1) / (m + 1) = 2 ^ m := Nat.mul_div_cancel _ (by omega)
    funext r c
    simp only [writeEdges, hE, e1, e2]
    have k1 := key v r n hn
    have k2 := key i c (2 ^ m) hP
    by_cases h : r / n = v ∧ c / 2 ^ m = i
    · rw [if_pos h, if_pos ⟨(k1.2 h.1).1, (k1.2 h.1).2, k2.2 h.2⟩]
      refine Finset.sum_congr rfl fun k _ => ?_
      have r1 : r - v * n = r % n := by rw [← h.1]; have := Nat.div_add_mod' r n; omega
      have r2 : c - i * 2 ^ m = c % 2 ^ m := by rw [← h.2]; have := Nat.div_add_mod' c (2 ^ m); omega
      rw [r1, r2]
    · rw [if_neg h, if_neg fun hc => h ⟨k1.1 ⟨hc.1, hc.2.1⟩, k2.1 ⟨hc.2.2.1, hc.2.2.2⟩⟩]
  -- what is written
  let W : Nat → Nat → ℝ := fun r c => if hi : c / 2 ^ m < m + 1 then ∑ k ∈ Finset.range b.n, (interpMat b n).val (r % n) k * q ⟨c / 2 ^ m, hi⟩ (r / n) k (c % 2 ^ m) else 0
  have inner : ∀ i (hi : i < m + 1), ∀ res : Nat → Nat → ℝ, forLoop nv (fun i_var (result : Nat → Nat → ℝ) =>
      (edgeQpoints b u (m + 1) (vars (MathFn.pow (K := Nat) b.n (m + 1 : Nat)) nv func) i i_var).bind fun eq => some (writeEdges b (m + 1) n i i_var eq result)) res =
        some fun r c => if r / n < nv ∧ c / 2 ^ m = i then W r c else res r c := by
    intro i hi res
    have := forLoop_own nv res (fun r _ => r / n) W (fun _ c => c / 2 ^ m = i) (fun i_var (result : Nat → Nat → ℝ) =>
      (edgeQpoints b u (m + 1) (vars (MathFn.pow (K := Nat) b.n (m + 1 : Nat)) nv func) i i_var).bind fun eq => some (writeEdges b (m + 1) n i i_var eq result)) (by
        intro v hv val
        have := q1 ⟨i, hi⟩ v
        dsimp only at this
        rw [this]
        change some (writeEdges b (m + 1) n i v (q ⟨i, hi⟩ v) val) = _
        rw [hW]
        congr 1
        funext r c
        by_cases h : c / 2 ^ m = i ∧ r / n = v
        · rw [if_pos h, if_pos h.symm]
          obtain ⟨h1, h2⟩ := h
          simp only [W, h1, h2, dif_pos hi]
        · rw [if_neg h, if_neg fun h' => h h'.symm])
    rw [this]
    congr 1
    funext r c
    simp only [and_comm]
  refine ⟨_, forLoop_own (m + 1) (fun _ _ => 0) (fun _ c => c / 2 ^ m) W (fun r _ => r / n < nv) _ inner, ?_⟩
  intro v hv s hs i e
  have e1 : (v * n + s) / n = v := by rw [Nat.mul_comm, Nat.mul_add_div hn, Nat.div_eq_of_lt hs, Nat.add_zero]
  have e2 : (v * n + s) % n = s := by rw [Nat.mul_comm, Nat.mul_add_mod, Nat.mod_eq_of_lt hs]
  have e3 : ((i : Nat) * 2 ^ m + idx e) / 2 ^ m = i := by rw [Nat.mul_comm, Nat.mul_add_div hP, Nat.div_eq_of_lt (idx_lt e), Nat.add_zero]
  have e4 : ((i : Nat) * 2 ^ m + idx e) % 2 ^ m = idx e := by rw [Nat.mul_comm, Nat.mul_add_mod, Nat.mod_eq_of_lt (idx_lt e)]
  rw [e1, e3, if_pos ⟨hv, i.2⟩]
  simp only [W, e1, e2, e3, e4, dif_pos i.2]
  rw [Finset.sum_range]
  simp only [Fin.eta, q2]
  unfold lag
  rw [← (Fin.insertNthEquiv (fun _ => Fin b.n) i).sum_comp, Fintype.sum_prod_type]
  refine Finset.sum_congr rfl fun k _ => ?_
  rw [Finset.mul_sum]
  refine Finset.sum_congr rfl fun c _ => ?_
  change _ = (∏ l, interpolateCpp b _ ((i.insertNth k c : Fin (m + 1) → Fin b.n) l)) * func (idx (i.insertNth k c : Fin (m + 1) → Fin b.n)) v
  rw [Fin.prod_univ_succAbove _ i]
  simp only [Fin.insertNth_apply_same, Fin.insertNth_apply_succAbove, interpMat]
  ring

theorem edges_lag (u : Nat → ℝ) {m nv n : Nat} (hm : 1 ≤ m) (hb : 2 ≤ b.n) (hn : 1 ≤ n) (func : Nat → Nat → ℝ) :
    ∃ r, edges b u (m + 1) nv (vars (MathFn.pow (K := Nat) b.n (m + 1 : Nat)) nv func) n = some r ∧ r.size = nv * n * (2 ^ m * (m + 1)) ∧
      ∀ v < nv, ∀ s < n, ∀ i : Fin (m + 1), ∀ e : Fin m → Fin 2,
        r.val (((i * 2 ^ m + idx e) * nv + v) * n + s) = lag b (func · v) (i.insertNth (linSpaced n s) fun l => ((e l : Nat) : ℝ) : Fin (m + 1) → ℝ) := by
  obtain ⟨M, h1, h2⟩ := edgesMat_lag u hm hb hn (nv := nv) func
  unfold edges
  rw [h1]
  refine ⟨_, rfl, ?_, ?_⟩
  · change nv * n * (MathFn.pow (K := Nat) 2 (((m + 1 : Nat) : Int) - 1) * (m + 1)) = _
    rw [show MathFn.pow (K := Nat) 2 (((m + 1 : Nat) : Int) - 1) = 2 ^ m by push_cast; exact powi 2 m]
  · intro v hv s hs i e
    have hlt : v * n + s < nv * n := by
      have : (v + 1) * n ≤ nv * n := Nat.mul_le_mul_right _ hv
      rw [Nat.add_mul] at this; omega
    have e0 : (((i : Nat) * 2 ^ m + idx e) * nv + v) * n + s = nv * n * (i * 2 ^ m + idx e) + (v * n + s) := by ring
    rw [← h2 v hv s hs i e]
    simp only [e0]
    rw [Nat.mul_add_mod, Nat.mod_eq_of_lt hlt, Nat.mul_add_div (by omega), Nat.div_eq_of_lt hlt, Nat.add_zero]

end Hexed.Vis
