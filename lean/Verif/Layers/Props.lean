import Verif.Layers.Model
import Mathlib.Tactic.FieldSimp
import Mathlib.Tactic.Linarith
import Mathlib.Algebra.BigOperators.Intervals
set_option autoImplicit false
set_option linter.unusedVariables false

/-!
# Anisotropic wall layers (C27)
-/

namespace Hexed.Layers
noncomputable section

/-- The layers that repeated splitting of a column of height `h` produces, from the outermost inwards: each offset `t` leaves the fraction
`1 - t` of the remaining height to the layer outside (Mesh.hpp:88-96). -/
def split : ℝ → List ℝ → List ℝ
  | h, [] => [h]
  | h, t :: ts => (h - t * h) :: split (t * h) ts

/-- Size of the first growth, 2^(-n_grow). -/
def grow (s : Seq) : ℝ := 2 ^ (-s.n_grow)

theorem grow_pos (s : Seq) : 0 < grow s := zpow_pos (by norm_num) _

/-- The ratio between the first growth and the wall spacing: `ws < 2^(-n_grow) ≤ 2 ws`. -/
theorem grow_bounds (ws : ℝ) (nw : Int) (h : 0 < ws) : ws < grow (Seq.new ws nw) ∧ grow (Seq.new ws nw) ≤ 2 * ws := by
  have hl : (0 : ℝ) < Real.log 2 := Real.log_pos (by norm_num)
  set n := ⌈Real.log (1 / 2 / ws) / Real.log 2⌉ with hn
  have h1 : Real.log (1 / 2 / ws) / Real.log 2 ≤ n := Int.le_ceil _
  have h2 : (n : ℝ) < Real.log (1 / 2 / ws) / Real.log 2 + 1 := Int.ceil_lt_add_one _
  rw [div_le_iff₀ hl] at h1
  have h2' : (n : ℝ) * Real.log 2 < Real.log (1 / 2 / ws) + Real.log 2 := by
    have := mul_lt_mul_of_pos_right h2 hl
    rwa [add_mul, one_mul, div_mul_cancel₀ _ hl.ne'] at this
  have hp : (0 : ℝ) < 2 ^ n := zpow_pos (by norm_num) n
  have e : (n : ℝ) * Real.log 2 = Real.log ((2 : ℝ) ^ n) := (Real.log_zpow 2 n).symm
  rw [e] at h1 h2'
  rw [Real.log_le_log_iff (by positivity) hp] at h1
  rw [← Real.log_mul (by positivity) (by norm_num), Real.log_lt_log_iff hp (by positivity)] at h2'
  have eg : grow (Seq.new ws nw) = (2 ^ n)⁻¹ := by rw [grow, zpow_neg]; rfl
  rw [eg]
  constructor
  · rw [lt_inv_comm₀ h hp]
    calc (2 : ℝ) ^ n < 1 / 2 / ws * 2 := h2'
      _ = ws⁻¹ := by field_simp
  · rw [inv_le_comm₀ hp (by positivity)]
    calc (2 * ws)⁻¹ = 1 / 2 / ws := by field_simp
      _ ≤ 2 ^ n := h1

theorem grow_nonneg (ws : ℝ) (nw : Int) (h : 0 < ws) (h1 : ws ≤ 1 / 2) : 0 ≤ (Seq.new ws nw).n_grow := by
  have hl : (0 : ℝ) < Real.log 2 := Real.log_pos (by norm_num)
  refine Int.ceil_nonneg (div_nonneg (Real.log_nonneg ?_) hl.le)
  rw [le_div_iff₀ h]; linarith

theorem cumulative_eq (s : Seq) (i : Nat) : s.cumulativeHeight i = ∑ j ∈ Finset.range i, s.spacing j := by
  rw [Seq.cumulativeHeight, Int.toNat_natCast]
  induction i with
  | zero => rfl
  | succ n ih => rw [List.range_succ, List.foldl_append, ih, Finset.sum_range_succ]; rfl

theorem geo (n : Nat) : ∑ j ∈ Finset.range n, (2 : ℝ) ^ (j : Int) = 2 ^ (n : Int) - 1 := by
  induction n with
  | zero => simp
  | succ n ih =>
    rw [Finset.sum_range_succ, ih]
    push_cast
    rw [zpow_add₀ (by norm_num : (2 : ℝ) ≠ 0)]; norm_num; ring

/-- C27: the total height is `1 + f (nw ws - f)` with `f = 2^(-n_grow)`. -/
theorem total_height (ws : ℝ) (nw : Nat) (h : 0 < ws) (h1 : ws ≤ 1 / 2) :
    (Seq.new ws nw).cumulativeHeight (Seq.new ws nw).nLayers = 1 + grow (Seq.new ws nw) * (ws * nw - grow (Seq.new ws nw)) := by
  obtain ⟨g, hg⟩ := Int.eq_ofNat_of_zero_le (grow_nonneg ws nw h h1)
  set s := Seq.new ws nw with hs
  have hnl : s.nLayers = ((nw + g : Nat) : Int) := by rw [Seq.nLayers, hg]; push_cast; rfl
  have hf : grow s = 2 ^ (-(g : Int)) := by rw [grow, hg]
  rw [hnl, cumulative_eq, Finset.sum_range_add]
  have a : ∑ j ∈ Finset.range nw, s.spacing j = ws * nw := by
    rw [Finset.sum_congr rfl (g := fun _ => ws), Finset.sum_const, Finset.card_range, nsmul_eq_mul, mul_comm]
    intro j hj
    have : ((j : Int) < s.nw) := by show (j : Int) < (nw : Int); have := Finset.mem_range.1 hj; omega
    rw [Seq.spacing, if_pos this]; rfl
  have b : ∑ j ∈ Finset.range g, s.spacing ((nw + j : Nat) : Int) = (1 - grow s) * (1 - ws * nw + grow s) := by
    have : ∀ j ∈ Finset.range g, s.spacing ((nw + j : Nat) : Int) = 2 ^ (j : Int) * (grow s * (1 - ws * nw + grow s)) := by
      intro j hj
      have h0 : ¬ (((nw + j : Nat) : Int) < s.nw) := by show ¬ (((nw + j : Nat) : Int) < (nw : Int)); push_cast; omega
      rw [Seq.spacing, if_neg h0, hnl]
      have e1 : ((nw + j : Nat) : Int) - ((nw + g : Nat) : Int) = j + -(g : Int) := by push_cast; ring
      have e2 : s.nw - ((nw + g : Nat) : Int) = -(g : Int) := by show (nw : Int) - _ = _; push_cast; ring
      have e3 : s.ws = ws := rfl
      have e4 : (s.nw : ℝ) = nw := by show ((nw : Int) : ℝ) = nw; norm_cast
      rw [e1, e2, zpow_add₀ (by norm_num : (2 : ℝ) ≠ 0), ← hf, e3, e4]; ring
    rw [Finset.sum_congr rfl this, ← Finset.sum_mul, geo]
    have e : (2 : ℝ) ^ (g : Int) * grow s = 1 := by rw [hf, ← zpow_add₀ (by norm_num : (2 : ℝ) ≠ 0)]; simp
    calc ((2 : ℝ) ^ (g : Int) - 1) * (grow s * (1 - ws * nw + grow s)) = (2 ^ (g : Int) * grow s - grow s) * (1 - ws * nw + grow s) := by ring
      _ = _ := by rw [e]
  rw [a, b]; ring

/-- Refuted: "until it reaches a total height of 1". One wall layer always gives less than 1, more than two always more than 1. -/
theorem total_height_refuted (ws : ℝ) (nw : Nat) (h : 0 < ws) (h1 : ws ≤ 1 / 2) (hn : 0 < nw) :
    (nw = 1 → (Seq.new ws nw).cumulativeHeight (Seq.new ws nw).nLayers < 1) ∧
    (2 < nw → 1 < (Seq.new ws nw).cumulativeHeight (Seq.new ws nw).nLayers) ∧
    (nw = 2 → 1 ≤ (Seq.new ws nw).cumulativeHeight (Seq.new ws nw).nLayers) := by
  obtain ⟨b1, b2⟩ := grow_bounds ws nw h
  have hp := grow_pos (Seq.new ws nw)
  rw [total_height ws nw h h1]
  refine ⟨fun e => ?_, fun e => ?_, fun e => ?_⟩
  · subst e
    have : grow (Seq.new ws (1 : Nat)) * (ws * (1 : Nat) - grow (Seq.new ws (1 : Nat))) < 0 := mul_neg_of_pos_of_neg hp (by push_cast; push_cast at b1; linarith)
    linarith
  · have h3 : (3 : ℝ) ≤ nw := by exact_mod_cast e
    have : 0 < grow (Seq.new ws nw) * (ws * nw - grow (Seq.new ws nw)) := mul_pos hp (by nlinarith)
    linarith
  · subst e
    have : 0 ≤ grow (Seq.new ws (2 : Nat)) * (ws * (2 : Nat) - grow (Seq.new ws (2 : Nat))) := mul_nonneg hp.le (by push_cast; push_cast at b2; linarith)
    linarith

/-- The growth layers exactly double; the number of layers is the least for which a doubling sequence from the wall spacing gets to 1/2. -/
theorem growth_ratio (ws : ℝ) (nw i : Int) (hi : nw ≤ i) : (Seq.new ws nw).spacing (i + 1) = 2 * (Seq.new ws nw).spacing i := by
  have h0 : ¬ (i + 1 < (Seq.new ws nw).nw) := by show ¬ (i + 1 < nw); omega
  have h1 : ¬ (i < (Seq.new ws nw).nw) := by show ¬ (i < nw); omega
  rw [Seq.spacing, Seq.spacing, if_neg h0, if_neg h1]
  have : i + 1 - (Seq.new ws nw).nLayers = (i - (Seq.new ws nw).nLayers) + 1 := by ring
  rw [this, zpow_add₀ (by norm_num : (2 : ℝ) ≠ 0)]; ring

/-- The first growth layer: its ratio to the wall layers is between `1 - nw ws + ws` and `2 (1 - nw ws + 2 ws)`: approximately between 1 and 2
if the wall layers are thin. -/
theorem first_ratio (ws : ℝ) (nw : Nat) (h : 0 < ws) (hn : ws * nw ≤ 1) :
    1 - ws * nw + ws < (Seq.new ws nw).spacing nw / ws ∧ (Seq.new ws nw).spacing nw / ws ≤ 2 * (1 - ws * nw + 2 * ws) := by
  obtain ⟨b1, b2⟩ := grow_bounds ws nw h
  have hp := grow_pos (Seq.new ws nw)
  have e : (Seq.new ws nw).spacing nw = grow (Seq.new ws nw) * (1 - ws * nw + grow (Seq.new ws nw)) := by
    have h0 : ¬ ((nw : Int) < (Seq.new ws nw).nw) := by show ¬ ((nw : Int) < nw); omega
    have e1 : (nw : Int) - (Seq.new ws nw).nLayers = -(Seq.new ws nw).n_grow := by rw [Seq.nLayers]; show (nw : Int) - ((nw : Int) + _) = _; ring
    have e2 : (Seq.new ws nw).nw - (Seq.new ws nw).nLayers = -(Seq.new ws nw).n_grow := e1
    rw [Seq.spacing, if_neg h0, e1, e2]
    show grow _ * (1 - ws * ((nw : Int) : ℝ) + grow _) = _
    norm_cast
  rw [e]
  set f := grow (Seq.new ws nw)
  constructor
  · rw [lt_div_iff₀ h]; nlinarith
  · rw [div_le_iff₀ h]; nlinarith

/-- All layers have positive height while the wall layers take less than the whole. -/
theorem spacing_pos (ws : ℝ) (nw : Nat) (h : 0 < ws) (hn : ws * nw ≤ 1) (i : Int) : 0 < (Seq.new ws nw).spacing i := by
  rw [Seq.spacing]
  split
  · exact h
  · refine mul_pos (zpow_pos (by norm_num) _) ?_
    have e4 : ((Seq.new ws nw).nw : ℝ) = nw := by show ((nw : Int) : ℝ) = nw; norm_cast
    have e3 : (Seq.new ws nw).ws = ws := rfl
    have : (0 : ℝ) < 2 ^ ((Seq.new ws nw).nw - (Seq.new ws nw).nLayers) := zpow_pos (by norm_num) _
    rw [e3, e4]; linarith

theorem extrude_split (s : Seq) (n : Nat) (H : ℝ) (hh : ∀ k ≤ n, 1 ≤ k → H - ∑ j ∈ Finset.Ico k n, s.spacing j ≠ 0) (hn : 0 < n) :
    split H (s.extrudeLoop n H).1 = ((List.range (n - 1)).map fun i => s.spacing ((n - 1 - i : Nat) : Int)) ++ [H - ∑ j ∈ Finset.Ico 1 n, s.spacing j] := by
  induction n generalizing H with
  | zero => omega
  | succ n ih =>
    rcases Nat.eq_zero_or_pos n with rfl | hp
    · simp [Seq.extrudeLoop, split]
    · have hpos : ((n : Int) > 0) := by omega
      have hH : H ≠ 0 := by have := hh (n + 1) (by omega) (by omega); simpa using this
      rw [Seq.extrudeLoop, if_pos hpos]
      simp only [split]
      rw [div_mul_cancel₀ _ hH, ih (H - s.spacing n) (fun k hk h1 => ?_) hp]
      · rw [Nat.add_sub_cancel]
        obtain ⟨m, rfl⟩ : ∃ m, n = m + 1 := ⟨n - 1, by omega⟩
        rw [List.range_succ_eq_map, List.map_cons, List.cons_append, List.map_map]
        congr 1
        · rw [Nat.sub_zero]; ring
        · congr 1
          · simp only [Nat.add_sub_cancel]
            refine List.map_congr_left fun i hi => ?_
            have := List.mem_range.1 hi
            simp only [Function.comp]
            congr 2
            omega
          · rw [Finset.sum_Ico_succ_top (by omega : 1 ≤ m + 1) (fun j : Nat => s.spacing j)]
            congr 1; ring
      · have := hh k (by omega) h1
        rw [Finset.sum_Ico_succ_top hk] at this
        intro h0; apply this; linarith

/-- C27: the layers produced in the mesh. All layers but the one at the wall have exactly the heights of the sequence; the one at the wall
gets what is left, `ws + (1 - total)`. -/
theorem extruded_layers (ws : ℝ) (nw : Nat) (h : 0 < ws) (h1 : ws ≤ 1 / 2) (hn : 0 < nw)
    (hh : ∀ k : Nat, 1 ≤ k → (k : Int) ≤ (Seq.new ws nw).nLayers → 1 - ∑ j ∈ Finset.Ico k (Seq.new ws nw).nLayers.toNat, (Seq.new ws nw).spacing j ≠ 0) :
    split 1 (Seq.new ws nw).extrude.1 = ((List.range ((Seq.new ws nw).nLayers.toNat - 1)).map fun i => (Seq.new ws nw).spacing (((Seq.new ws nw).nLayers.toNat - 1 - i : Nat) : Int)) ++
      [ws + (1 - (Seq.new ws nw).cumulativeHeight (Seq.new ws nw).nLayers)] := by
  have hg := grow_nonneg ws nw h h1
  have hnl : 0 < (Seq.new ws nw).nLayers := by show 0 < (nw : Int) + (Seq.new ws nw).n_grow; omega
  rw [Seq.extrude, extrude_split _ _ 1 (fun k hk h1 => hh k h1 (by omega)) (by omega)]
  congr 2
  obtain ⟨N, hN⟩ := Int.eq_ofNat_of_zero_le hnl.le
  rw [hN] at hnl
  rw [hN, cumulative_eq, Int.toNat_natCast, Finset.range_eq_Ico, Finset.sum_eq_sum_Ico_succ_bot (a := 0) (b := N) (by omega)]
  have h0 : (Seq.new ws nw).spacing ((0 : Nat) : Int) = ws := by
    rw [Seq.spacing, if_pos (by show ((0 : Nat) : Int) < (nw : Int); omega)]; rfl
  rw [h0]; simp only [Nat.zero_add]; ring

/-- The wall layer has positive height if the wall layers together take at most half of the height. -/
theorem wall_layer_pos (ws : ℝ) (nw : Nat) (h : 0 < ws) (h1 : ws ≤ 1 / 2) (hn : ws * nw ≤ 1 / 2) : 0 < ws + (1 - (Seq.new ws nw).cumulativeHeight (Seq.new ws nw).nLayers) := by
  obtain ⟨b1, b2⟩ := grow_bounds ws nw h
  have hp := grow_pos (Seq.new ws nw)
  rw [total_height ws nw h h1]
  nlinarith

theorem split_sum (H : ℝ) (l : List ℝ) : (split H l).sum = H := by
  induction l generalizing H with
  | nil => simp [split]
  | cons a l ih => rw [split, List.sum_cons, ih]; ring

/-- C27: if the wall layers together take at most half of the height, the mesh gets exactly the requested number of layers, all of positive height,
together of height 1, and all but the one at the wall exactly as high as the sequence says. -/
theorem mesh_layers (ws : ℝ) (nw : Nat) (h : 0 < ws) (h1 : ws ≤ 1 / 2) (hnw : 0 < nw) (hn : ws * nw ≤ 1 / 2) :
    ∃ w : ℝ, split 1 (Seq.new ws nw).extrude.1 = ((List.range ((Seq.new ws nw).nLayers.toNat - 1)).map fun i => (Seq.new ws nw).spacing (((Seq.new ws nw).nLayers.toNat - 1 - i : Nat) : Int)) ++ [w] ∧
      (split 1 (Seq.new ws nw).extrude.1).length = (Seq.new ws nw).nLayers.toNat ∧
      (∀ x ∈ split 1 (Seq.new ws nw).extrude.1, 0 < x) ∧ (split 1 (Seq.new ws nw).extrude.1).sum = 1 := by
  have hg := grow_nonneg ws nw h h1
  have hnl : 0 < (Seq.new ws nw).nLayers := by show 0 < (nw : Int) + (Seq.new ws nw).n_grow; omega
  have hw := wall_layer_pos ws nw h h1 hn
  have hsp := spacing_pos ws nw h (by linarith)
  have hh : ∀ k : Nat, 1 ≤ k → (k : Int) ≤ (Seq.new ws nw).nLayers → 1 - ∑ j ∈ Finset.Ico k (Seq.new ws nw).nLayers.toNat, (Seq.new ws nw).spacing j ≠ 0 := by
    intro k hk hk'
    obtain ⟨N, hN⟩ := Int.eq_ofNat_of_zero_le hnl.le
    rw [hN] at hnl hk'
    rw [hN, cumulative_eq, Finset.range_eq_Ico, Finset.sum_eq_sum_Ico_succ_bot (a := 0) (b := N) (by omega)] at hw
    have h0 : (Seq.new ws nw).spacing ((0 : Nat) : Int) = ws := by
      rw [Seq.spacing, if_pos (by show ((0 : Nat) : Int) < (nw : Int); omega)]; rfl
    rw [h0, Nat.zero_add] at hw
    rw [hN, Int.toNat_natCast]
    have := Finset.sum_Ico_consecutive (fun j : Nat => (Seq.new ws nw).spacing j) hk (show k ≤ N by omega)
    have hp : 0 ≤ ∑ j ∈ Finset.Ico 1 k, (Seq.new ws nw).spacing (j : Int) := Finset.sum_nonneg fun j _ => (hsp j).le
    have : 0 < 1 - ∑ j ∈ Finset.Ico k N, (Seq.new ws nw).spacing (j : Int) := by linarith
    exact this.ne'
  have he := extruded_layers ws nw h h1 hnw hh
  refine ⟨_, he, ?_, ?_, split_sum _ _⟩
  · rw [he]; simp; omega
  · rw [he]
    intro x hx
    rcases List.mem_append.1 hx with hx | hx
    · obtain ⟨i, _, rfl⟩ := List.mem_map.1 hx
      exact hsp _
    · rw [List.mem_singleton.1 hx]; exact hw

/-- Refuted: a valid request (seven wall layers of 1/8, less than the whole height) makes a wall layer of negative height. -/
theorem negative_wall_layer : ∃ (ws : ℝ) (nw : Nat), 0 < ws ∧ ws ≤ 1 / 2 ∧ ws * nw < 1 ∧ ws + (1 - (Seq.new ws nw).cumulativeHeight (Seq.new ws nw).nLayers) < 0 := by
  refine ⟨1 / 8, 7, by norm_num, by norm_num, by norm_num, ?_⟩
  have hg : grow (Seq.new (1 / 8) (7 : Nat)) = 1 / 4 := by
    have hl : (Real.log 2) ≠ 0 := (Real.log_pos (by norm_num)).ne'
    have : (Seq.new (1 / 8) (7 : Nat)).n_grow = 2 := by
      show ⌈Real.log (1 / 2 / (1 / 8)) / Real.log 2⌉ = 2
      rw [show (1 / 2 / (1 / 8) : ℝ) = 2 ^ 2 by norm_num, Real.log_pow]
      push_cast
      rw [mul_div_assoc, div_self hl]; norm_num
    rw [grow, this]; norm_num
  rw [total_height (1 / 8) 7 (by norm_num) (by norm_num), hg]
  norm_num

/-! ## Non-vacuity -/

example : (Seq.new (1 / 8) (2 : Nat)).cumulativeHeight (Seq.new (1 / 8) (2 : Nat)).nLayers = 1 + grow (Seq.new (1 / 8) (2 : Nat)) * (1 / 8 * (2 : Nat) - grow (Seq.new (1 / 8) (2 : Nat))) :=
  total_height (1 / 8) 2 (by norm_num) (by norm_num)

example : (split 1 (Seq.new (1 / 8) (2 : Nat)).extrude.1).sum = 1 := (mesh_layers (1 / 8) 2 (by norm_num) (by norm_num) (by norm_num) (by norm_num)).choose_spec.2.2.2

end
end Hexed.Layers
