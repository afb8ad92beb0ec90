import Verif.Tensor.Model
import Verif.RowIndex.Props
import Mathlib.Algebra.BigOperators.Fin
import Mathlib.Algebra.BigOperators.Ring.Finset
import Mathlib.Data.Fintype.BigOperators
import Mathlib.Data.Fin.Tuple.Basic
import Mathlib.Tactic.FinCases
set_option autoImplicit false
set_option linter.unusedVariables false

namespace Hexed.Tensor
open Finset Hexed.RowIndex
variable {K : Type} [CommRing K]

theorem forLoop_eq {A : Type} (body : Nat → A → Option A) (st : Nat → A) : ∀ n, (∀ i, i < n → body i (st i) = some (st (i + 1))) →
    forLoop n body (st 0) = some (st n)
  | 0, _ => rfl
  | n + 1, h => by
    have ih := forLoop_eq body st n (fun i hi => h i (by omega))
    unfold forLoop at ih ⊢
    rw [List.range_succ, List.foldlM_append, ih]
    simp [h n (by omega)]

/-- A loop whose `i`-th pass writes exactly the entries owned by `i`. -/
theorem forLoop_write (sz N : Nat) (u : Nat → K) (own : Nat → Nat) (f : Nat → Nat → K) (body : Nat → Vec K → Option (Vec K))
    (h : ∀ i, i < N → ∀ val, body i ⟨sz, val⟩ = some ⟨sz, fun j => if own j = i then f i j else val j⟩) :
    forLoop N body ⟨sz, u⟩ = some ⟨sz, fun j => if own j < N then f (own j) j else u j⟩ := by
  have := forLoop_eq body (fun i => (⟨sz, fun j => if own j < i then f (own j) j else u j⟩ : Vec K)) N ?_
  · simpa using this
  intro i hi
  rw [h i hi]
  congr 2
  funext j
  by_cases h1 : own j = i
  · subst h1; simp
  · rw [if_neg h1]
    by_cases h2 : own j < i
    · rw [if_pos h2, if_pos (by omega)]
    · rw [if_neg h2, if_neg (by omega)]

theorem prodSize_eq (rows cols : Nat) (hc : 2 ≤ cols) : ∀ (n p : Nat), prodSize rows cols (cols ^ n) p = some (p * rows ^ n)
  | 0, p => by rw [prodSize]; simp
  | n + 1, p => by
    have h1 : 1 < cols ^ (n + 1) := Nat.one_lt_pow (by omega) (by omega)
    rw [prodSize, dif_pos h1, dif_pos hc, pow_succ cols, Nat.mul_div_cancel _ (by omega), prodSize_eq rows cols hc n, pow_succ]
    congr 1; ring

/-- The position of the entry with coordinates `d`. -/
def idx {n b : Nat} (d : Fin n → Fin b) : Nat := tensorIdx b (List.ofFn fun i => (d i : Nat))

theorem idx_lt {n b : Nat} (d : Fin n → Fin b) : idx d < b ^ n := by
  have := tensorIdx_lt b (List.ofFn fun i => (d i : Nat)) (by
    intro x hx; obtain ⟨i, rfl⟩ := List.mem_ofFn.1 hx; exact (d i).2)
  simpa [idx] using this

theorem idx_cons {n b : Nat} (x : Fin b) (d : Fin n → Fin b) : idx (Fin.cons x d : Fin (n + 1) → Fin b) = x * b ^ n + idx d := by
  unfold idx
  rw [List.ofFn_succ, tensorIdx_cons]
  simp

/-- The Kronecker power: `(M ⊗ ... ⊗ M) v` at coordinates `d`. -/
def kron (m : Mat K) (v : Vec K) {n : Nat} (d : Fin n → Nat) : K :=
  ∑ c : Fin n → Fin m.cols, (∏ k, m.val (d k) (c k)) * v.val (idx c)

theorem kron_succ (m : Mat K) (v : Vec K) {n : Nat} (x : Nat) (d : Fin n → Nat) :
    kron m v (Fin.cons x d : Fin (n + 1) → Nat) =
      ∑ k ∈ range m.cols, m.val x k * kron m ⟨m.cols ^ n, fun j => v.val (k * m.cols ^ n + j)⟩ d := by
  unfold kron
  rw [← (Fin.consEquiv (fun _ : Fin (n + 1) => Fin m.cols)).sum_comp, Fintype.sum_prod_type, ← Fin.sum_univ_eq_sum_range
    (fun k => m.val x k * ∑ c : Fin n → Fin m.cols, (∏ i, m.val (d i) (c i)) * v.val (k * m.cols ^ n + idx c))]
  apply Finset.sum_congr rfl
  intro k _
  rw [Finset.mul_sum]
  apply Finset.sum_congr rfl
  intro c _
  simp only [Fin.consEquiv, Equiv.coe_fn_mk]
  rw [idx_cons, Fin.prod_univ_succ]
  simp only [Fin.cons_zero, Fin.cons_succ]
  ring

theorem div_eq_block {B i j : Nat} : (i * B ≤ j ∧ (j - i * B) % 1 = 0 ∧ (j - i * B) / 1 < B) ↔ (0 < B ∧ j / B = i) := by
  constructor
  · rintro ⟨h1, _, h3⟩
    rw [Nat.div_one] at h3
    refine ⟨by omega, ?_⟩
    apply Nat.div_eq_of_lt_le h1
    rw [Nat.succ_mul]; omega
  · rintro ⟨hB, rfl⟩
    have := Nat.div_add_mod' j B
    have := Nat.mod_lt j hB
    refine ⟨by omega, by omega, by rw [Nat.div_one]; omega⟩

theorem mod_eq_stride {S i j m : Nat} (hi : i < S) : (i ≤ j ∧ (j - i) % S = 0 ∧ (j - i) / S < m) ↔ (j % S = i ∧ j / S < m) := by
  have hS : 0 < S := by omega
  constructor
  · rintro ⟨h1, h2, h3⟩
    have e : j = i + S * ((j - i) / S) := by
      have := Nat.div_add_mod (j - i) S; omega
    have e1 : j % S = i := by rw [e, Nat.add_mul_mod_self_left, Nat.mod_eq_of_lt hi]
    have e2 : j / S = (j - i) / S := by conv => lhs; rw [e, Nat.add_mul_div_left _ _ hS, Nat.div_eq_of_lt hi, Nat.zero_add]
    exact ⟨e1, by rw [e2]; exact h3⟩
  · rintro ⟨h1, h2⟩
    have e := Nat.div_add_mod j S
    have e' : j - i = S * (j / S) := by omega
    refine ⟨by omega, by rw [e']; exact Nat.mul_mod_right _ _, by rw [e', Nat.mul_div_cancel_left _ hS]; exact h2⟩

theorem div_of_mod {S i j : Nat} (hi : j % S = i) (hS : 0 < S) : (j - i) / S = j / S := by
  have e := Nat.div_add_mod j S
  have e' : j - i = S * (j / S) := by omega
  rw [e', Nat.mul_div_cancel_left _ hS]

theorem hypercube_ok (m : Mat K) (u : Nat → K) (hc : 2 ≤ m.cols) (hr : 1 ≤ m.rows) : ∀ (n : Nat) (v : Vec K), v.size = m.cols ^ (n + 1) →
    ∀ fuel, n < fuel → ∃ r, hypercube m u fuel v = some r ∧ r.size = m.rows ^ (n + 1) ∧
      ∀ d : Fin (n + 1) → Fin m.rows, r.val (idx d) = kron m v (fun i => (d i : Nat))
  | 0, v, hv, fuel, hf => by
    obtain ⟨fuel, rfl⟩ : ∃ f, fuel = f + 1 := ⟨fuel - 1, by omega⟩
    simp only [zero_add, pow_one] at hv
    refine ⟨⟨m.rows, fun i => ∑ k ∈ range m.cols, m.val i k * v.val k⟩, ?_, by simp, ?_⟩
    · rw [hypercube, if_neg (by omega)]
      simp only [hv, Nat.div_self (show 0 < m.cols by omega), if_true, mulVec]
    · intro d
      have hd : d = Fin.cons (d 0) (fun i : Fin 0 => i.elim0) := by funext i; fin_cases i; rfl
      have hd' : (fun i => ((d i : Fin m.rows) : Nat)) = (Fin.cons (d 0 : Nat) (fun i : Fin 0 => i.elim0) : Fin 1 → Nat) := by
        funext i; fin_cases i; rfl
      rw [hd', kron_succ]
      conv => lhs; rw [hd, idx_cons]
      simp [kron, idx, tensorIdx]
  | n + 1, v, hv, fuel, hf => by
    obtain ⟨fuel, rfl⟩ : ∃ f, fuel = f + 1 := ⟨fuel - 1, by omega⟩
    have hcp : 0 < m.cols ^ (n + 1) := Nat.pow_pos (by omega)
    have hrp : 0 < m.rows ^ (n + 1) := Nat.pow_pos (by omega)
    have hvr : v.size / m.cols = m.cols ^ (n + 1) := by rw [hv, pow_succ, Nat.mul_div_cancel _ (by omega)]
    have h1 : m.cols ^ (n + 1) ≠ 1 := by have := Nat.one_lt_pow (n := n + 1) (by omega) hc; omega
    have hps : prodSize m.rows m.cols v.size 1 = some (m.rows ^ (n + 1) * m.rows) := by
      rw [hv, prodSize_eq _ _ hc, one_mul, pow_succ]
    have hrs : m.rows ^ (n + 1) * m.rows / m.rows = m.rows ^ (n + 1) := Nat.mul_div_cancel _ (by omega)
    -- the sub-vectors
    let sub : Nat → Vec K := fun k => ⟨m.cols ^ (n + 1), fun j => v.val (k * m.cols ^ (n + 1) + j * 1)⟩
    have hsub := fun k => hypercube_ok m u hc hr n (sub k) rfl fuel (by omega)
    choose r hr1 hr2 hr3 using hsub
    have hread : ∀ k, k < m.cols → readSeq v (k * m.cols ^ (n + 1)) (m.cols ^ (n + 1)) 1 = some (sub k) := by
      intro k hk
      unfold readSeq
      rw [if_pos]
      right
      rw [hv, pow_succ m.cols (n + 1)]
      have : (k + 1) * m.cols ^ (n + 1) ≤ m.cols * m.cols ^ (n + 1) := Nat.mul_le_mul_right _ hk
      rw [Nat.succ_mul] at this
      rw [mul_comm _ m.cols]; omega
    set R := m.rows ^ (n + 1) with hR
    let fact : Vec K := ⟨m.cols * R, fun j => if j / R < m.cols then (r (j / R)).val (j - j / R * R) else u j⟩
    have hfact : forLoop m.cols (fun i_row (fact : Vec K) =>
                (readSeq v (i_row * m.cols ^ (n + 1)) (m.cols ^ (n + 1)) 1).bind fun sub =>
                  (hypercube m u fuel sub).bind fun r => writeSeq fact (i_row * R) R 1 r) ⟨m.cols * R, u⟩ = some fact := by
      apply forLoop_write (m.cols * R) m.cols u (fun j => j / R) (fun i j => (r i).val (j - i * R))
      intro i hi val
      rw [hread i hi]
      simp only [Option.bind_some, hr1 i]
      unfold writeSeq
      rw [if_pos]
      · congr 2
        funext j
        have := @div_eq_block R i j
        simp only [Nat.div_one] at this ⊢
        by_cases hj : j / R = i
        · rw [if_pos (this.2 ⟨hrp, hj⟩), if_pos hj]
        · rw [if_neg (fun h => hj (this.1 h).2), if_neg hj]
      · refine ⟨hr2 i, Or.inr ?_⟩
        have : (i + 1) * R ≤ m.cols * R := Nat.mul_le_mul_right _ hi
        rw [Nat.succ_mul] at this
        show i * R + (R - 1) * 1 < m.cols * R
        omega
    let prod : Vec K := ⟨R * m.rows, fun j => if j % R < R then
        (if j / R < m.rows then ∑ k ∈ range m.cols, m.val (j / R) k * fact.val (j % R + k * R) else u j) else u j⟩
    have hprod : forLoop R (fun i_col (prod : Vec K) =>
                (readSeq fact i_col m.cols R).bind fun col =>
                  (mulVec m col).bind fun r => writeSeq prod i_col m.rows R r) ⟨R * m.rows, u⟩ = some prod := by
      have hz : (⟨R * m.rows, u⟩ : Vec K) = (fun i => (⟨R * m.rows, fun j => if j % R < i then
        (if j / R < m.rows then ∑ k ∈ range m.cols, m.val (j / R) k * fact.val (j % R + k * R) else u j) else u j⟩ : Vec K)) 0 := by
        simp
      rw [hz]
      refine forLoop_eq _ (fun i => (⟨R * m.rows, fun j => if j % R < i then
        (if j / R < m.rows then ∑ k ∈ range m.cols, m.val (j / R) k * fact.val (j % R + k * R) else u j) else u j⟩ : Vec K)) R ?_
      · intro i hi
        have hb : m.cols = 0 ∨ i + (m.cols - 1) * R < m.cols * R := by
          right
          obtain ⟨c, hc'⟩ : ∃ c, m.cols = c + 1 := ⟨m.cols - 1, by omega⟩
          rw [hc', Nat.succ_mul]; simp; omega
        simp only [readSeq]
        rw [if_pos hb]
        simp only [mulVec, Option.bind_some, if_true]
        unfold writeSeq
        rw [if_pos]
        · congr 2
          funext j
          have := @mod_eq_stride R i j m.rows hi
          dsimp only
          by_cases h2 : j % R = i
          · by_cases h3 : j / R < m.rows
            · rw [if_pos (this.2 ⟨h2, h3⟩), if_pos (by omega), if_pos h3, div_of_mod h2 hrp, h2]
            · rw [if_neg (fun h => h3 (this.1 h).2), if_neg (by omega), if_pos (by omega), if_neg h3]
          · rw [if_neg (fun h => h2 (this.1 h).1)]
            by_cases h4 : j % R < i
            · simp only [h4, show j % R < i + 1 by omega, if_true]
            · rw [if_neg h4, if_neg (by omega)]
        · refine ⟨rfl, Or.inr ?_⟩
          obtain ⟨c, hc'⟩ : ∃ c, m.rows = c + 1 := ⟨m.rows - 1, by omega⟩
          show i + (m.rows - 1) * R < R * m.rows
          rw [hc', Nat.mul_succ, mul_comm R]; simp; omega
    refine ⟨prod, ?_, by show R * m.rows = _; rw [pow_succ], ?_⟩
    · rw [hypercube, if_neg (by omega)]
      simp only [hvr, if_neg h1, hps, Option.bind_some, if_neg (show ¬ m.rows = 0 by omega), hrs]
      rw [hfact]
      exact hprod
    · intro d
      have hd : d = Fin.cons (d 0) (fun i => d i.succ) := (Fin.cons_self_tail d).symm
      have hd' : (fun i => ((d i : Fin m.rows) : Nat)) = (Fin.cons (d 0 : Nat) (fun i => (d i.succ : Nat)) : Fin (n + 2) → Nat) := by
        funext i; refine Fin.cases ?_ (fun i => ?_) i <;> rfl
      have hlt : idx (fun i => d i.succ) < R := idx_lt _
      have hix : idx d = d 0 * R + idx (fun i => d i.succ) := by
        conv => lhs; rw [hd]
        exact idx_cons (d 0) (fun i => d i.succ)
      rw [hd', kron_succ, hix]
      show (if (d 0 * R + idx (fun i => d i.succ)) % R < R then _ else _) = _
      have e1 : ((d 0 : Nat) * R + idx (fun i => d i.succ)) % R = idx (fun i => d i.succ) := by
        rw [Nat.add_comm, Nat.add_mul_mod_self_right, Nat.mod_eq_of_lt hlt]
      have e2 : ((d 0 : Nat) * R + idx (fun i => d i.succ)) / R = d 0 := by
        rw [Nat.add_comm, Nat.add_mul_div_right _ _ hrp, Nat.div_eq_of_lt hlt, Nat.zero_add]
      rw [e1, e2, if_pos hlt, if_pos (d 0).2]
      apply Finset.sum_congr rfl
      intro k hk
      congr 1
      have e3 : (idx (fun i => d i.succ) + k * R) / R = k := by
        rw [Nat.add_mul_div_right _ _ hrp, Nat.div_eq_of_lt hlt, Nat.zero_add]
      show (if (idx (fun i => d i.succ) + k * R) / R < m.cols then _ else _) = _
      rw [e3, if_pos (Finset.mem_range.1 hk), Nat.add_sub_cancel, hr3 k]
      simp only [sub, Nat.mul_one]

end Hexed.Tensor
