import Verif.Stats.ModalLemmas
set_option autoImplicit false
set_option linter.unusedVariables false

/-! # Lemmas about `filter_limit` -/

namespace Hexed.Stats
open Hexed.Tensor Hexed.Basis

variable {b : Nodes ℝ} {deg : Nat}

/-- The limited value of a mode. -/
noncomputable def clip (threshold x : ℝ) : ℝ := if |x| > threshold then x * (threshold / |x|) else x

theorem clip_loop (T : Nat → ℝ) (body : Nat → Vec ℝ → Option (Vec ℝ)) (n : Nat) : ∀ m ≤ n, ∀ F : Nat → ℝ,
    (∀ i < n, ∀ F : Nat → ℝ, body i ⟨n, F⟩ = some ⟨n, Function.update F i (clip (T i) (F i))⟩) →
    forLoop m body ⟨n, F⟩ = some ⟨n, fun j => if j < m then clip (T j) (F j) else F j⟩ := by
  intro m
  induction m with
  | zero => intro _ F _; simp [forLoop_zero]
  | succ m ih =>
    intro hm F hb
    rw [forLoop_succ, ih (by omega) F hb]
    simp only [Option.bind_some]
    rw [hb m (by omega)]
    congr 2
    funext j
    rcases lt_trichotomy j m with hj | hj | hj
    · rw [Function.update_of_ne (by omega), if_pos hj, if_pos (by omega)]
    · subst hj; simp
    · rw [Function.update_of_ne (by omega), if_neg (by omega), if_neg (by omega)]

theorem total_eq {n nd : Nat} (hn : 0 < n) (d : Fin nd → Fin n) :
    (List.range nd).foldl (fun (t k : Nat) => t + idx d / MathFn.pow (K := Nat) n ((nd : Int) - 1 - (k : Int)) % n) 0 = total d := by
  have h : ∀ (g : Nat → Nat) (l : List Nat) (a : Nat), l.foldl (fun (t k : Nat) => t + g k) a = a + (l.map g).sum := by
    intro g l
    induction l with
    | nil => intro a; simp
    | cons k l ih => intro a; rw [List.foldl_cons, ih]; simp [Nat.add_assoc]
  rw [h, Nat.zero_add, total]
  have h2 : ((List.range nd).map fun (k : Nat) => idx d / MathFn.pow (K := Nat) n ((nd : Int) - 1 - (k : Int)) % n).sum =
      ∑ k ∈ Finset.range nd, idx d / MathFn.pow (K := Nat) n ((nd : Int) - 1 - (k : Int)) % n := rfl
  rw [h2, Finset.sum_range]
  refine Finset.sum_congr rfl fun k _ => ?_
  have hk := k.2
  rw [show (nd : Int) - 1 - ((k : Nat) : Int) = ((nd - 1 - k : Nat) : Int) by omega, MathFn.pow_nat, idx_digit hn]

/-- What `filter_limit` returns. -/
theorem filterLimit_eq (hb : Rule b deg) (hd : 2 * b.n ≤ deg + 3) (h2 : 2 ≤ b.n) (u : Nat → ℝ) {nd : Nat} (hnd : 1 ≤ nd) (data : Nat → ℝ) (decay : ℝ) :
    ∃ r, filterLimit b u nd data decay = some r ∧ r.size = b.n ^ nd ∧
      ∀ c : Fin nd → Fin b.n, at' r.val c = ∑ d, clip (norm2 b (at' (nd := nd) data) * decay ^ total d) (mode b (at' data) d) * leg b d c := by
  obtain ⟨m, m1, m2, m3⟩ := hypercube_kron (⟨b.n, b.n, fun i j => ortho b i j * b.weight j⟩ : Mat ℝ) u h2 hb.some nd hnd ⟨b.n ^ nd, data⟩ rfl (nd + 1) (by omega)
  have hm : ∀ d : Fin nd → Fin b.n, m.val (idx d) = mode b (at' data) d := fun d => by rw [← mode_pow]; exact m3 d
  have hm2 : m.size = b.n ^ nd := m2
  have hnorm : √(∑ k ∈ Finset.range m.size, m.val k ^ 2) = norm2 b (at' (nd := nd) data) := by
    rw [norm2_modes hb hd, hm2, sum_idx hb.some]
    simp only [hm]
  let T : Nat → ℝ := fun i => norm2 b (at' (nd := nd) data) *
    decay ^ (List.range nd).foldl (fun (t d : Nat) => t + i / MathFn.pow (K := Nat) b.n ((nd : Int) - 1 - (d : Int)) % b.n) 0
  have hT : ∀ d : Fin nd → Fin b.n, T (idx d) = norm2 b (at' (nd := nd) data) * decay ^ total d := fun d => by simp only [T]; rw [total_eq hb.some]
  obtain ⟨r, r1, r2, r3⟩ := hypercube_kron (⟨b.n, b.n, fun i j => ortho b j i⟩ : Mat ℝ) u h2 hb.some nd hnd
    ⟨b.n ^ nd, fun j => if j < b.n ^ nd then clip (T j) (m.val j) else m.val j⟩ rfl (nd + 1) (by omega)
  refine ⟨r, ?_, r2, fun c => ?_⟩
  · rw [filterLimit]
    dsimp only
    rw [MathFn.pow_nat, m1, Option.bind_some, hnorm]
    obtain ⟨ms, mv⟩ := m
    dsimp only at hm2
    subst hm2
    rw [clip_loop T _ (b.n ^ nd) (b.n ^ nd) le_rfl mv fun i hi F => ?_]
    · rw [Option.bind_some]; exact r1
    · rw [get, if_pos hi, Option.bind_some, clip]
      dsimp only
      split
      · rfl
      · rw [Function.update_eq_self]
  · rw [at']
    refine (r3 c).trans ?_
    refine Finset.sum_congr rfl fun d _ => ?_
    dsimp only
    rw [if_pos (idx_lt d), hT, hm, leg]; ring

theorem clip_scale {t x : ℝ} (ht : 0 ≤ t) : ∃ s, 0 ≤ s ∧ s ≤ 1 ∧ clip t x = s * x := by
  unfold clip
  split
  · next h =>
    have hx : 0 < |x| := lt_of_le_of_lt ht h
    exact ⟨t / |x|, div_nonneg ht hx.le, (div_le_one hx).2 h.le, by ring⟩
  · exact ⟨1, zero_le_one, le_refl _, by ring⟩

theorem clip_abs {t x : ℝ} (ht : 0 ≤ t) : |clip t x| = min |x| t := by
  unfold clip
  split
  · next h =>
    have hx : 0 < |x| := lt_of_le_of_lt ht h
    rw [abs_mul, abs_div, abs_abs, abs_of_nonneg ht, mul_div_cancel₀ _ hx.ne', min_eq_right h.le]
  · next h => rw [min_eq_left (not_lt.1 h)]

theorem clip_id {t x : ℝ} (h : |x| ≤ t) : clip t x = x := if_neg (not_lt.2 h)

end Hexed.Stats
