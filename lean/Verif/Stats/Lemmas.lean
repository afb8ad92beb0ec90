import Verif.Stats.Quad
import Verif.MathFn.IntProps
set_option autoImplicit false
set_option linter.unusedVariables false

/-! # Lemmas about the loops -/

namespace Hexed.Stats
open Hexed.Tensor Hexed.Basis

theorem forLoop_zero {A : Type} (body : Nat → A → Option A) (x : A) : forLoop 0 body x = some x := rfl

theorem forLoop_succ {A : Type} (n : Nat) (body : Nat → A → Option A) (x : A) : forLoop (n + 1) body x = (forLoop n body x).bind (body n) := by
  unfold forLoop
  rw [List.range_succ, List.foldlM_append]
  simp only [List.foldlM_cons, List.foldlM_nil]
  cases List.foldlM (fun a i => body i a) x (List.range n) <;> simp

theorem add_loop (nv : Nat) (X : Nat → ℝ) (body : Nat → Vec ℝ → Option (Vec ℝ)) : ∀ (m : Nat) (F : Nat → ℝ), m ≤ nv →
    (∀ i < m, ∀ a, body i a = addTo a i (X i)) → forLoop m body ⟨nv, F⟩ = some ⟨nv, fun j => F j + if j < m then X j else 0⟩ := by
  intro m
  induction m with
  | zero => intro F _ _; simp [forLoop_zero]
  | succ m ih =>
    intro F hm hb
    rw [forLoop_succ, ih F (by omega) fun i hi a => hb i (by omega) a]
    simp only [Option.bind_some]
    rw [hb m (by omega), addTo, if_pos (by simpa using hm)]
    congr 2
    funext j
    dsimp only
    rcases lt_trichotomy j m with hj | hj | hj
    · rw [Function.update_of_ne (by omega), if_pos hj, if_pos (by omega)]
    · subst hj; simp
    · rw [Function.update_of_ne (by omega), if_neg (by omega), if_neg (by omega)]

theorem acc_loop (nv : Nat) (Y : Nat → Nat → ℝ) (body : Nat → Vec ℝ → Option (Vec ℝ)) : ∀ (n : Nat),
    (∀ q < n, ∀ F, body q ⟨nv, F⟩ = some ⟨nv, fun j => F j + Y q j⟩) → ∀ F, forLoop n body ⟨nv, F⟩ = some ⟨nv, fun j => F j + ∑ q ∈ Finset.range n, Y q j⟩ := by
  intro n
  induction n with
  | zero => intro _ F; simp [forLoop_zero]
  | succ n ih =>
    intro hb F
    rw [forLoop_succ, ih (fun q hq => hb q (by omega)) F]
    simp only [Option.bind_some]
    rw [hb n (by omega)]
    congr 2
    funext j
    rw [Finset.sum_range_succ, add_assoc]

theorem acc_list (nv : Nat) (Y : Nat → Nat → ℝ) (body : Vec ℝ → Nat → Option (Vec ℝ)) : ∀ (l : List Nat),
    (∀ e ∈ l, ∀ F, body ⟨nv, F⟩ e = some ⟨nv, fun j => F j + Y e j⟩) → ∀ F, l.foldlM body ⟨nv, F⟩ = some ⟨nv, fun j => F j + (l.map fun e => Y e j).sum⟩ := by
  intro l
  induction l with
  | nil => intro _ F; simp
  | cons e l ih =>
    intro hb F
    rw [List.foldlM_cons, hb e (by simp)]
    simp only [Option.bind_eq_bind, Option.bind_some]
    rw [ih fun e' he' => hb e' (by simp [he'])]
    congr 2
    funext j
    simp [add_assoc]

theorem weights_eq {b : Nodes ℝ} (hb : 0 < b.n) (u : Nat → ℝ) (nd : Nat) :
    ∃ wt, weights b u nd = some wt ∧ wt.size = b.n ^ nd ∧ ∀ c : Fin nd → Fin b.n, wt.val (idx c) = ∏ k, b.weight (c k) :=
  pow_outer_prod u ⟨b.n, b.weight⟩ hb nd (nd + 1) (by omega)

/-- The sum computed for one element. -/
noncomputable def elemSum (b : Nodes ℝ) (nd : Nat) (g : Nat → ℝ) : ℝ := ∑ c : Fin nd → Fin b.n, (∏ k, b.weight (c k)) * g (idx c)

theorem integralField_eq {b : Nodes ℝ} (hb : 0 < b.n) (u : Nat → ℝ) (nd nv : Nat) (elems : List Nat) (elem : Nat → Elem) (f : Nat → Nat → Vec ℝ)
    (hf : ∀ e ∈ elems, ∀ q < b.n ^ nd, (f e q).size = nv) :
    ∃ r, integralField b u nd nv elems elem f = some r ∧ r.size = nv ∧
      ∀ v < nv, r.val v = (elems.map fun e => (elem e).size ^ nd * elemSum b nd fun q => (f e q).val v * (elem e).det q).sum := by
  obtain ⟨wt, h1, h2, h3⟩ := weights_eq hb u nd
  let Y : Nat → Nat → ℝ := fun e j => ∑ q ∈ Finset.range (b.n ^ nd), if j < nv then wt.val q * (elem e).size ^ nd * (f e q).val j * (elem e).det q else 0
  refine ⟨⟨nv, fun j => 0 + (elems.map fun e => Y e j).sum⟩, ?_, rfl, ?_⟩
  · rw [integralField, h1, Option.bind_some]
    refine acc_list nv Y _ elems (fun e he F => ?_) _
    rw [MathFn.pow_nat, MathFn.pow_nat]
    refine acc_loop nv _ _ _ (fun q hq F => ?_) F
    dsimp only
    rw [hf e he q hq]
    refine add_loop nv _ _ nv F le_rfl fun i hi a => ?_
    rw [get, if_pos (by rw [h2]; exact hq), Option.bind_some]
  · intro v hv
    simp only [Y, zero_add]
    congr 1
    refine List.map_congr_left fun e _ => ?_
    simp only [if_pos hv]
    rw [sum_idx hb, elemSum, Finset.mul_sum]
    refine Finset.sum_congr rfl fun c _ => ?_
    rw [h3]; ring

theorem integralSurface_eq {b : Nodes ℝ} (hb : 0 < b.n) (u : Nat → ℝ) {nd : Nat} (hnd : 1 ≤ nd) (nv : Nat) (cons : List Nat) (con : Nat → BoundCon) (f : Nat → Nat → Vec ℝ) (bc : Nat)
    (hf : ∀ c ∈ cons, ∀ q < b.n ^ (nd - 1), (f c q).size = nv) :
    ∃ r, integralSurface b u nd nv cons con f bc = some r ∧ r.size = nv ∧
      ∀ v < nv, r.val v = ((cons.filter fun c => (con c).bc = bc).map fun c => (con c).size ^ (nd - 1) *
        elemSum b (nd - 1) fun q => (f c q).val v * √(∑ i ∈ Finset.range nd, (con c).normal (i * b.n ^ (nd - 1) + q) ^ 2)).sum := by
  obtain ⟨wt, h1, h2, h3⟩ := weights_eq hb u (nd - 1)
  let mag : Nat → Nat → ℝ := fun c q => √(∑ i ∈ Finset.range nd, (con c).normal (i * b.n ^ (nd - 1) + q) ^ 2)
  let Y : Nat → Nat → ℝ := fun c j => if (con c).bc = bc then ∑ q ∈ Finset.range (b.n ^ (nd - 1)), if j < nv then (f c q).val j * wt.val q * (con c).size ^ (nd - 1) * mag c q else 0 else 0
  have hnq : MathFn.pow (K := Nat) b.n nd / b.n = b.n ^ (nd - 1) := by
    rw [MathFn.pow_nat]
    obtain ⟨k, rfl⟩ : ∃ k, nd = k + 1 := ⟨nd - 1, by omega⟩
    rw [pow_succ, Nat.mul_div_cancel _ hb]; rfl
  have hsq : ∀ c q, (List.range nd).foldl (fun a i => a + MathFn.pow ((con c).normal (i * b.n ^ (nd - 1) + q)) 2) 0 =
      ∑ i ∈ Finset.range nd, (con c).normal (i * b.n ^ (nd - 1) + q) ^ 2 := by
    intro c q
    rw [Basis.foldl_add, zero_add, range_sum]
    refine Finset.sum_congr rfl fun i _ => ?_
    exact MathFn.pow_nat _ 2
  refine ⟨⟨nv, fun j => 0 + (cons.map fun e => Y e j).sum⟩, ?_, rfl, ?_⟩
  · rw [integralSurface, if_neg (by omega)]
    dsimp only
    rw [h1, Option.bind_some, hnq]
    refine acc_list nv Y _ cons (fun c hc F => ?_) _
    simp only [Y]
    split
    · refine acc_loop nv (fun q j => if j < nv then (f c q).val j * wt.val q * (con c).size ^ (nd - 1) * mag c q else 0) _ _ (fun q hq F => ?_) F
      refine add_loop nv _ _ nv F le_rfl fun i hi a => ?_
      rw [get, if_pos (by rw [hf c hc q hq]; exact hi), Option.bind_some, get, if_pos (by rw [h2]; exact hq), Option.bind_some, hsq]
      congr 3
      rw [show ((nd : Int) - 1) = ((nd - 1 : Nat) : Int) by omega, MathFn.pow_nat]
    · simp
  · intro v hv
    simp only [Y, zero_add]
    clear hf
    induction cons with
    | nil => simp
    | cons c l ih =>
      rw [List.map_cons, List.sum_cons, ih]
      by_cases hc : (con c).bc = bc
      · rw [if_pos hc, List.filter_cons_of_pos (by simpa using hc), List.map_cons, List.sum_cons]
        congr 1
        simp only [if_pos hv]
        rw [sum_idx hb, elemSum, Finset.mul_sum]
        refine Finset.sum_congr rfl fun c _ => ?_
        rw [h3]; ring
      · rw [if_neg hc, List.filter_cons_of_neg (by simpa using hc), zero_add]

theorem avg_eq {b : Nodes ℝ} (hb : 0 < b.n) (u : Nat → ℝ) (nd nv : Nat) (el : Elem) (f : Nat → Vec ℝ) (pow : Nat)
    (hf : ∀ q < b.n ^ nd, (f q).size = nv) (hvol : elemSum b nd el.det ≠ 0) :
    ∃ r, avg b u nd nv el f pow = some r ∧ r.size = nv ∧
      ∀ v < nv, r.val v = (elemSum b nd fun q => (f q).val v ^ pow * el.det q) / elemSum b nd el.det := by
  obtain ⟨wt, h1, h2, h3⟩ := weights_eq hb u nd
  have key : ∀ n ≤ b.n ^ nd, ∀ (F : Nat → ℝ) (x : ℝ), forLoop n (fun q (s : Vec ℝ × ℝ) =>
      (get wt q).bind fun w0 =>
        let w := w0 * el.det q
        (forLoop nv (fun i (result : Vec ℝ) => (get (f q) i).bind fun x => addTo result i (MathFn.pow x (pow : Int) * w)) s.1).bind fun result =>
          some (result, s.2 + w)) (⟨nv, F⟩, x) =
      some (⟨nv, fun j => F j + ∑ q ∈ Finset.range n, if j < nv then (f q).val j ^ pow * (wt.val q * el.det q) else 0⟩, x + ∑ q ∈ Finset.range n, wt.val q * el.det q) := by
    intro n
    induction n with
    | zero => intro _ F x; simp [forLoop_zero]
    | succ n ih =>
      intro hn F x
      rw [forLoop_succ, ih (by omega) F x]
      simp only [Option.bind_some]
      rw [get, if_pos (by omega), Option.bind_some]
      rw [add_loop nv (fun i => (f n).val i ^ pow * (wt.val n * el.det n)) _ nv _ le_rfl (fun i hi a => by
        rw [get, if_pos (by rw [hf n (by omega)]; exact hi), Option.bind_some, MathFn.pow_nat])]
      simp only [Option.bind_some]
      congr 2
      · congr 1; funext j; rw [Finset.sum_range_succ, add_assoc]
      · rw [Finset.sum_range_succ, add_assoc]
  have hv : ∑ q ∈ Finset.range (b.n ^ nd), wt.val q * el.det q = elemSum b nd el.det := by
    rw [sum_idx hb, elemSum]
    exact Finset.sum_congr rfl fun c _ => by rw [h3]
  rw [avg, h1, Option.bind_some, MathFn.pow_nat, key _ le_rfl, Option.bind_some]
  simp only [zero_add]
  rw [hv, if_neg hvol]
  refine ⟨_, rfl, rfl, fun v hvn => ?_⟩
  simp only [if_pos hvn]
  congr 1
  rw [sum_idx hb, elemSum]
  refine Finset.sum_congr rfl fun c _ => ?_
  rw [h3]; ring

end Hexed.Stats
