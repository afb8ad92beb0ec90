import Verif.Visc.Spec
import Verif.Stats.ModalProps
import Verif.Spatial.Lemmas
import Verif.Share.Props
set_option autoImplicit false
set_option linter.unusedVariables false

/-! # Lemmas about artificial viscosity -/

namespace Hexed.Visc
open Hexed.Tensor Hexed.Basis Hexed.Stats
open Hexed.RowIndex (RowIndex rows)

variable {b : Nodes ℝ} {deg : Nat}

theorem foldlM_add {A : Type} (f : ℝ → A → Option ℝ) (g : A → ℝ) : ∀ (l : List A) (a : ℝ), (∀ x ∈ l, ∀ s, f s x = some (s + g x)) → l.foldlM f a = some (a + (l.map g).sum)
  | [], a, _ => by simp
  | x :: l, a, h => by
    rw [List.foldlM_cons, h x (by simp)]
    show List.foldlM f (a + g x) l = _
    rw [foldlM_add f g l _ fun y hy => h y (List.mem_cons_of_mem _ hy), List.map_cons, List.sum_cons, add_assoc]

theorem pow_nat (n nd : Nat) : MathFn.pow (K := Nat) n nd = n ^ nd := RowIndex.npow_eq n nd

theorem sum_range_list (n : Nat) (g : Nat → ℝ) : ((List.range n).map g).sum = ∑ k ∈ Finset.range n, g k := by
  induction n with
  | zero => simp
  | succ n ih => rw [List.range_succ, List.map_append, List.sum_append, ih, Finset.sum_range_succ]; simp

theorem norm_eq (hb : Rule b deg) (u : Nat → ℝ) (nd : Nat) (var : Nat → ℝ) {qw : Vec ℝ} (hq : weights b u nd = some qw) :
    forLoop (MathFn.pow (K := Nat) b.n nd) (normStep var qw) 0 = some (∑ c : Fin nd → Fin b.n, wgt b c * at' var c ^ 2) := by
  obtain ⟨wt, w1, w2, w3⟩ := weights_eq hb.some u nd
  obtain rfl := Option.some.inj (hq.symm.trans w1)
  rw [forLoop, pow_nat, foldlM_add _ (fun q => var q * var q * qw.val q)]
  · rw [zero_add, sum_range_list, sum_idx hb.some]
    congr 1
    refine Finset.sum_congr rfl fun c _ => ?_
    rw [w3 c, at', wgt]; ring
  · intro q hq' s
    rw [normStep, Stats.get, if_pos (by rw [w2]; exact List.mem_range.1 hq')]
    rfl

theorem pt_insert {n m : Nat} (hn : 0 < n) (i : Fin (m + 1)) (k : Fin n) (c : Fin m → Fin n) : Spatial.pt (m + 1) n i (idx c) k = idx (i.insertNth k c : Fin (m + 1) → Fin n) := by
  obtain ⟨pre, post, h1, h2, h3, h4⟩ := idx_insert i k c
  have hp : 0 < n ^ (m - i) := Nat.pow_pos hn
  rw [Spatial.pt, h3, h4, Nat.add_sub_cancel, Nat.mul_comm pre, Nat.mul_add_div hp, Nat.mul_add_mod, Nat.div_eq_of_lt h2, Nat.mod_eq_of_lt h2, Nat.add_zero]

theorem rows_eq (hb : Rule b deg) (u : Nat → ℝ) (m : Nat) (var : Nat → ℝ) {fw : Vec ℝ} (hf : weights b u m = some fw) (i : Fin (m + 1)) (s : ℝ) :
    (rows (RowIndex.new (m + 1) b.n i)).foldlM (rowStep b var fw) s = some (s + ∑ c : Fin m → Fin b.n, wgt b c * top b i (at' var) c ^ 2) := by
  obtain ⟨wt, w1, w2, w3⟩ := weights_eq hb.some u m
  obtain rfl := Option.some.inj (hf.symm.trans w1)
  have hi : (i : Nat) < m + 1 := i.2
  rw [Spatial.rows_new (m + 1) b.n i hb.some hi, Nat.add_sub_cancel,
    foldlM_add _ (fun ind : RowIndex => (∑ k ∈ Finset.range b.n, var (ind.i_qpoint k) * (ortho b (b.n - 1) k * b.weight k)) ^ 2 * fw.val ind.i_face_qpoint)]
  · rw [List.map_map, sum_range_list, sum_idx hb.some]
    congr 2
    refine Finset.sum_congr rfl fun c _ => ?_
    simp only [Function.comp]
    rw [(Spatial.after_fields (m + 1) b.n i hb.some hi (idx c)).2.2.2, w3 c, mul_comm]
    unfold wgt top
    congr 2
    rw [Finset.sum_range]
    refine Finset.sum_congr rfl fun k _ => ?_
    rw [Spatial.qpoint_pt (m + 1) b.n i hb.some hi, pt_insert hb.some, mul_comm]
    rfl
  · intro ind hind s
    obtain ⟨k, hk, rfl⟩ := List.mem_map.1 hind
    rw [rowStep, Stats.get, if_pos (by rw [w2, (Spatial.after_fields (m + 1) b.n i hb.some hi k).2.2.2]; exact List.mem_range.1 hk)]
    simp only [Option.bind_some]
    rw [show MathFn.pow (K := ℝ) _ (2 : Int) = _ ^ 2 from MathFn.pow_nat _ 2]


theorem sq_pos (hb : Rule b deg) {nd : Nat} {v : (Fin nd → Fin b.n) → ℝ} (hv : ∃ c, v c ≠ 0) : 0 < ∑ c : Fin nd → Fin b.n, wgt b c * v c ^ 2 := by
  obtain ⟨c, hc⟩ := hv
  have hw : ∀ c : Fin nd → Fin b.n, 0 < wgt b c := fun c => Finset.prod_pos fun k _ => hb.pos _ (c k).2
  refine Finset.sum_pos' (fun c _ => mul_nonneg (hw c).le (sq_nonneg _)) ⟨c, Finset.mem_univ _, mul_pos (hw c) ?_⟩
  exact lt_of_le_of_ne (sq_nonneg _) (Ne.symm (pow_ne_zero 2 hc))

theorem nonsmooth_num (hb : Rule b deg) (hd : 2 * b.n ≤ deg + 3) (u : Nat → ℝ) {nd : Nat} (hnd : 1 ≤ nd) (r : Nat → ℝ) {rho : Nat → Option ℝ} (hr : ∀ q < b.n ^ nd, rho q = some (r q) ∧ r q ≠ 0) :
    nonsmooth b u nd rho = some (some (topFraction b fun c : Fin nd → Fin b.n => 1 / r (idx c))) := by
  obtain ⟨m, rfl⟩ : ∃ m, nd = m + 1 := ⟨nd - 1, by omega⟩
  obtain ⟨qw, q1, -⟩ := weights_eq hb.some u (m + 1)
  obtain ⟨fw, f1, -⟩ := weights_eq hb.some u m
  have hf : (fun c : Fin (m + 1) → Fin b.n => 1 / (rho (idx c)).getD 0) = fun c => 1 / r (idx c) := by
    funext c; rw [(hr _ (idx_lt c)).1]; rfl
  have hpos := sq_pos hb (v := fun c : Fin (m + 1) → Fin b.n => 1 / r (idx c)) ⟨fun _ => ⟨0, hb.some⟩, one_div_ne_zero (hr _ (idx_lt _)).2⟩
  rw [nonsmooth, q1, Nat.add_sub_cancel, f1]
  simp only [Option.bind_some]
  rw [if_pos (by
    intro q hq
    rw [pow_nat] at hq
    rw [(hr q hq).1]
    exact ⟨by simp, by simpa using (hr q hq).2⟩), norm_eq hb u (m + 1) _ q1, Option.bind_some,
    foldlM_add _ (fun i => if h : i < m + 1 then ∑ c : Fin m → Fin b.n, wgt b c * top b ⟨i, h⟩ (at' fun q => 1 / (rho q).getD 0) c ^ 2 else 0)]
  · simp only [Option.bind_some]
    have e0 : at' (n := b.n) (nd := m + 1) (fun q => 1 / (rho q).getD 0) = fun c => 1 / r (idx c) := hf
    rw [e0, if_neg (mul_ne_zero hpos.ne' (by positivity)), zero_add, sum_range_list, Finset.sum_range]
    congr 2
    rw [topFraction, mul_comm, ← parseval hb hd]
    congr 1
    refine Finset.sum_congr rfl fun i _ => ?_
    rw [dif_pos i.2, top_sum hb hd, ← Finset.sum_filter]
    congr 1
    refine Finset.filter_congr fun d _ => ?_
    simp [last, Fin.ext_iff]
  · intro i hi s
    rw [dif_pos (List.mem_range.1 hi)]
    exact rows_eq hb u m _ f1 ⟨i, List.mem_range.1 hi⟩ s

theorem nonsmooth_nan (hb : Rule b deg) (u : Nat → ℝ) {nd : Nat} {rho : Nat → Option ℝ} (hr : ∃ q < b.n ^ nd, rho q = none ∨ rho q = some 0) : nonsmooth b u nd rho = some none := by
  obtain ⟨q, hq, h⟩ := hr
  obtain ⟨qw, q1, -⟩ := weights_eq hb.some u nd
  obtain ⟨fw, f1, -⟩ := weights_eq hb.some u (nd - 1)
  rw [nonsmooth, q1, f1]
  simp only [Option.bind_some]
  rw [if_neg]
  intro hall
  obtain ⟨a, c⟩ := hall q (by rwa [pow_nat])
  rcases h with h | h <;> contradiction

theorem topFraction_range (b : Nodes ℝ) {nd : Nat} (v : (Fin nd → Fin b.n) → ℝ) : 0 ≤ topFraction b v ∧ topFraction b v ≤ 1 := by
  have hm : 0 ≤ ∑ d : Fin nd → Fin b.n, mode b v d ^ 2 := Finset.sum_nonneg fun _ _ => sq_nonneg _
  refine ⟨div_nonneg (Finset.sum_nonneg fun _ _ => Finset.sum_nonneg fun _ _ => sq_nonneg _) (mul_nonneg (Nat.cast_nonneg _) hm), div_le_one_of_le₀ ?_ (mul_nonneg (Nat.cast_nonneg _) hm)⟩
  calc _ ≤ ∑ i : Fin nd, ∑ d : Fin nd → Fin b.n, mode b v d ^ 2 := Finset.sum_le_sum fun i _ => Finset.sum_le_univ_sum_of_nonneg fun _ => sq_nonneg _
    _ = _ := by rw [Finset.sum_const, Finset.card_univ, Fintype.card_fin, nsmul_eq_mul]

theorem topFraction_scale (b : Nodes ℝ) {nd : Nat} (v : (Fin nd → Fin b.n) → ℝ) {k : ℝ} (hk : k ≠ 0) : topFraction b (fun c => k * v c) = topFraction b v := by
  have h : ∀ d, mode b (fun c => k * v c) d = k * mode b v d := fun d => by
    simp only [mode, Finset.mul_sum]
    exact Finset.sum_congr rfl fun c _ => by ring
  simp only [topFraction, h, mul_pow, ← Finset.mul_sum]
  rw [mul_left_comm, mul_div_mul_left _ _ (pow_ne_zero 2 hk)]

/-! ## The ramp -/

/-- The ramp in closed form. -/
noncomputable def smooth (y : ℝ) : ℝ := 1 / 2 * (1 + Real.sin (max (-(Real.pi / 2)) (min (Real.pi / 2) (Real.pi * y))))

theorem smooth_continuous : Continuous smooth := by unfold smooth; fun_prop

theorem smooth_mono : Monotone smooth := by
  intro x y h
  have hp := Real.pi_pos
  have r : ∀ z, max (-(Real.pi / 2)) (min (Real.pi / 2) (Real.pi * z)) ∈ Set.Icc (-(Real.pi / 2)) (Real.pi / 2) := fun z => ⟨le_max_left _ _, max_le (by linarith) (min_le_left _ _)⟩
  have := Real.strictMonoOn_sin.monotoneOn (r x) (r y) (max_le_max le_rfl (min_le_min le_rfl (mul_le_mul_of_nonneg_left h hp.le)))
  unfold smooth
  linarith

theorem smooth_low {y : ℝ} (h : y ≤ -(1 / 2)) : smooth y = 0 := by
  have hp := Real.pi_pos
  have h1 : Real.pi * y ≤ -(Real.pi / 2) := by nlinarith
  rw [smooth, min_eq_right (by linarith), max_eq_left h1, Real.sin_neg, Real.sin_pi_div_two]; norm_num

theorem smooth_high {y : ℝ} (h : 1 / 2 ≤ y) : smooth y = 1 := by
  have hp := Real.pi_pos
  have h1 : Real.pi / 2 ≤ Real.pi * y := by nlinarith
  rw [smooth, min_eq_left h1, max_eq_right (by linarith), Real.sin_pi_div_two]; norm_num

theorem smooth_zero : smooth 0 = 1 / 2 := by
  have hp := Real.pi_pos
  rw [smooth, mul_zero, min_eq_right (by linarith), max_eq_right (by linarith), Real.sin_zero]; norm_num

theorem smooth_mid {y : ℝ} (h1 : -(1 / 2) ≤ y) (h2 : y ≤ 1 / 2) : smooth y = 1 / 2 * (1 + Real.sin (Real.pi * y)) := by
  have hp := Real.pi_pos
  rw [smooth, min_eq_right (by nlinarith), max_eq_right (by nlinarith)]

theorem ramp_fin (c x : ℝ) : ramp c 0.5 (.fin x) = smooth (x - c) := by
  rw [ramp]
  split
  · next h => rw [smooth_low (by norm_num at h ⊢; linarith)]
  · next h =>
    split
    · next h' =>
      rw [smooth_mid (by norm_num at h ⊢; linarith) (by norm_num at h' ⊢; linarith)]
      norm_num
      congr 1; ring
    · next h' => rw [smooth_high (by norm_num at h' ⊢; linarith)]

theorem elwiseRamp_fin (c x : ℝ) : elwiseRamp c 0.5 (.fin x) = smooth (x - c) := by
  rw [elwiseRamp]
  split
  · next h => rw [smooth_low (by norm_num at h ⊢; linarith)]
  · next h =>
    split
    · next h' => rw [smooth_high (by norm_num at h' ⊢; linarith)]
    · next h' =>
      rw [smooth_mid (by norm_num at h ⊢; linarith) (by norm_num at h' ⊢; linarith)]
      norm_num
      congr 1; ring

/-- A ramp in terms of the logarithm is a ramp around the threshold. -/
theorem isRamp_log {T c : ℝ} (hT : 0 < T) (hc : c = Real.log T / Real.log 10) {θ : ℝ → ℝ} (h0 : θ 0 = 0) (h : ∀ x, 0 < x → θ x = smooth (Real.log x / Real.log 10 - c)) : IsRamp T θ := by
  have hl : 0 < Real.log 10 := Real.log_pos (by norm_num)
  have hs : Real.log (√10) = Real.log 10 / 2 := by rw [Real.log_sqrt (by norm_num)]
  have hsp : 0 < √(10 : ℝ) := Real.sqrt_pos.2 (by norm_num)
  have hz : ∀ x, 0 ≤ x → x ≤ T / √10 → θ x = 0 := by
    intro x hx hle
    rcases hx.eq_or_lt with rfl | hx
    · exact h0
    rw [h x hx, smooth_low]
    have := Real.log_le_log hx hle
    rw [Real.log_div hT.ne' hsp.ne', hs] at this
    rw [hc, ← sub_div, div_le_iff₀ hl]; linarith
  refine ⟨?_, ?_, hz, ?_, ?_⟩
  · intro x hx
    rcases (show (0 : ℝ) ≤ x from hx).eq_or_lt with rfl | hx
    · have : ∀ᶠ y in nhdsWithin (0 : ℝ) (Set.Ici 0), θ y = (fun _ => (0 : ℝ)) y := by
        filter_upwards [self_mem_nhdsWithin, mem_nhdsWithin_of_mem_nhds (Iio_mem_nhds (show (0 : ℝ) < T / √10 by positivity))] with y h1 h2
        exact hz y h1 (le_of_lt h2)
      exact (continuousWithinAt_const.congr_of_eventuallyEq this (by simp [h0]))
    · have : ∀ᶠ y in nhds x, θ y = smooth (Real.log y / Real.log 10 - c) := by
        filter_upwards [Ioi_mem_nhds hx] with y hy
        exact h y hy
      refine ContinuousAt.continuousWithinAt ?_
      refine (ContinuousAt.congr_of_eventuallyEq ?_ this)
      have : ContinuousAt (fun y => Real.log y / Real.log 10 - c) x := ((Real.continuousAt_log hx.ne').div_const _).sub_const _
      exact smooth_continuous.continuousAt.comp this
  · intro x hx y hy hxy
    rcases (show (0 : ℝ) ≤ x from hx).eq_or_lt with rfl | hx
    · rw [h0]
      rcases (show (0 : ℝ) ≤ y from hy).eq_or_lt with rfl | hy
      · rw [h0]
      · rw [h y hy]
        have := smooth_mono (min_le_left (Real.log y / Real.log 10 - c) (-(1 / 2)))
        rwa [smooth_low (min_le_right _ _)] at this
    · rw [h x hx, h y (hx.trans_le hxy)]
      have := Real.log_le_log hx hxy
      exact smooth_mono (sub_le_sub_right (div_le_div_of_nonneg_right this hl.le) _)
  · rw [h T hT, hc, sub_self, smooth_zero]
  · intro x hx
    have hx0 : 0 < x := lt_of_lt_of_le (by positivity) hx
    rw [h x hx0, smooth_high]
    have := Real.log_le_log (by positivity) hx
    rw [Real.log_mul hT.ne' hsp.ne', hs] at this
    rw [hc, ← sub_div, le_div_iff₀ hl]; linarith

theorem threshold_pos {n : Nat} (hn : 2 ≤ n) : 0 < threshold n := Real.rpow_pos_of_pos (by have : (2 : ℝ) ≤ n := by exact_mod_cast hn
                                                                                           linarith) _

theorem isRamp_stab {n : Nat} (hn : 2 ≤ n) : IsRamp (threshold n) fun x => ramp (rampCenter n) 0.5 (log10 (some x)) := by
  have h1 : (0 : ℝ) < n - 1 := by
    have : (2 : ℝ) ≤ n := by exact_mod_cast hn
    linarith
  refine isRamp_log (threshold_pos hn) (c := rampCenter n) ?_ ?_ ?_
  · rw [threshold, Real.log_rpow h1, rampCenter]; norm_num
  · simp [log10, ramp]
  · intro x hx
    show ramp (rampCenter n) 0.5 (log10 (some x)) = _
    rw [log10, Option.elim_some, if_neg (not_lt.2 hx.le), if_neg hx.ne', ramp_fin]

/-- The square of the indicator is compared with a threshold 10000 times smaller. -/
theorem isRamp_elwise {n : Nat} (hn : 2 ≤ n) {θ : ℝ → ℝ} (hθ : ∀ x, 0 ≤ x → θ (x ^ 2) = elwiseRamp (elwiseCenter n) 0.5 (twice (log10 (some x)))) : IsRamp (threshold n / 10000) θ := by
  have h1 : (0 : ℝ) < n - 1 := by
    have : (2 : ℝ) ≤ n := by exact_mod_cast hn
    linarith
  have hT := threshold_pos hn
  have hl : 0 < Real.log 10 := Real.log_pos (by norm_num)
  refine isRamp_log (by positivity) (c := elwiseCenter n) ?_ ?_ ?_
  · rw [Real.log_div hT.ne' (by norm_num), threshold, Real.log_rpow h1, elwiseCenter, show (10000 : ℝ) = 10 ^ 4 by norm_num, Real.log_pow]
    field_simp
    push_cast
    ring
  · have := hθ 0 le_rfl
    rw [show (0 : ℝ) ^ 2 = 0 by norm_num] at this
    rw [this]; simp [log10, elwiseRamp, twice]
  · intro y hy
    have hx : 0 < √y := Real.sqrt_pos.2 hy
    have := hθ (√y) hx.le
    rw [Real.sq_sqrt hy.le] at this
    rw [this, log10, Option.elim_some, if_neg (not_lt.2 hx.le), if_neg hx.ne', twice, elwiseRamp_fin, Real.log_sqrt hy.le]
    congr 2
    ring

/-! ## Interpolation to the quadrature points -/

theorem field_eq {nd : Nat} (val : Nat → ℝ) (ξ : Nat → ℝ) :
    Share.field nd val ξ = ∑ c : Fin nd → Fin 2, val (idx c) * ∏ k : Fin nd, if (c k : Nat) = 1 then ξ k else 1 - ξ k := by
  rw [Share.field, sum_idx (by norm_num)]
  refine Finset.sum_congr rfl fun c _ => ?_
  rw [Finset.prod_range]
  congr 1
  refine Finset.prod_congr rfl fun k _ => ?_
  rw [idx_digit (by norm_num) c k]

theorem weight_sum {nd : Nat} (ξ : Nat → ℝ) : ∑ c : Fin nd → Fin 2, (∏ k : Fin nd, if (c k : Nat) = 1 then ξ k else 1 - ξ k) = 1 := by
  have h2 := Finset.prod_univ_sum (fun _ : Fin nd => (Finset.univ : Finset (Fin 2))) (fun k i => if (i : Nat) = 1 then ξ k else 1 - ξ k)
  rw [Fintype.piFinset_univ] at h2
  rw [← h2]
  exact Finset.prod_eq_one fun k _ => by simp [Fin.sum_univ_two]

theorem field_bounds {nd : Nat} {val ξ : Nat → ℝ} {lo hi : ℝ} (hv : ∀ v < 2 ^ nd, lo ≤ val v ∧ val v ≤ hi) (hξ : ∀ k < nd, 0 ≤ ξ k ∧ ξ k ≤ 1) : lo ≤ Share.field nd val ξ ∧ Share.field nd val ξ ≤ hi := by
  have hw : ∀ c : Fin nd → Fin 2, 0 ≤ ∏ k : Fin nd, if (c k : Nat) = 1 then ξ k else 1 - ξ k := fun c => Finset.prod_nonneg fun k _ => by
    have := hξ k k.2
    split <;> linarith
  have e : ∀ z : ℝ, z = ∑ c : Fin nd → Fin 2, z * ∏ k : Fin nd, if (c k : Nat) = 1 then ξ k else 1 - ξ k := fun z => by rw [← Finset.mul_sum, weight_sum, mul_one]
  rw [field_eq]
  refine ⟨?_, ?_⟩
  · conv_lhs => rw [e lo]
    exact Finset.sum_le_sum fun c _ => mul_le_mul_of_nonneg_right (hv _ (idx_lt c)).1 (hw c)
  · conv_rhs => rw [e hi]
    exact Finset.sum_le_sum fun c _ => mul_le_mul_of_nonneg_right (hv _ (idx_lt c)).2 (hw c)

theorem toQpoints_eq (hn : 1 ≤ b.n) (u : Nat → ℝ) {nd : Nat} (hnd : 1 ≤ nd) (vert : Nat → ℝ) :
    ∃ r, toQpoints b u nd vert = some r ∧ r.size = b.n ^ nd ∧ ∀ c : Fin nd → Fin b.n, r.val (idx c) = Share.field nd vert (at_ b c) := by
  obtain ⟨r, h1, h2, h3⟩ := hypercube_kron ⟨b.n, 2, fun i j => interpolateCpp lobatto2 (b.node i) j⟩ u le_rfl hn nd hnd ⟨2 ^ nd, vert⟩ rfl (nd + 1) (by omega)
  refine ⟨r, h1, h2, fun c => ?_⟩
  rw [h3 c, field_eq]
  refine Finset.sum_congr rfl fun d _ => ?_
  rw [mul_comm]
  congr 1
  refine Finset.prod_congr rfl fun k _ => ?_
  have hk : at_ b c k = b.node (c k) := by rw [at_, dif_pos k.2]
  rw [hk]
  have : ∀ j : Fin 2, interpolateCpp lobatto2 (b.node (c k)) j = if (j : Nat) = 1 then b.node (c k) else 1 - b.node (c k) := by
    intro j
    match j with
    | 0 => simp [interpolateCpp, lobatto2, List.range_succ]; ring
    | 1 => simp [interpolateCpp, lobatto2, List.range_succ]
  exact this (d k)

end Hexed.Visc
