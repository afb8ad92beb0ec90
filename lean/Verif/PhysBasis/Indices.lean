import Verif.PhysBasis.Spec
import Mathlib.Data.List.Nodup
import Mathlib.Algebra.BigOperators.Group.List.Basic
import Mathlib.Tactic.Ring
import Mathlib.Tactic.IntervalCases
set_option autoImplicit false
set_option linter.unusedVariables false

/-!
# Lemmas about the table of indices
-/

namespace Hexed.PhysBasis

theorem next1 (rs c : Nat) : next 1 rs [c] = [c + 1] := rfl

theorem next2 (rs b c : Nat) : next 2 rs [b, c] = if rs ≤ b + c + 1 then [b + 1, 0] else [b, c + 1] := by
  simp only [next, carry, List.set, List.getD, List.sum_cons, List.sum_nil]
  by_cases h : rs ≤ b + c + 1
  · rw [if_pos (by simp; omega), if_pos h]; simp
  · rw [if_neg (by simp; omega), if_neg h]; simp

theorem next3 (rs a b c : Nat) : next 3 rs [a, b, c] = if rs ≤ a + b + c + 1 then (if rs ≤ a + b + 1 then [a + 1, 0, 0] else [a, b + 1, 0]) else [a, b, c + 1] := by
  have e : next 3 rs [a, b, c] = carry rs 2 [a, b, c + 1] := rfl
  rw [e, carry]
  by_cases h : rs ≤ a + b + c + 1
  · rw [if_pos (by simp; omega), if_pos h]
    show carry rs 1 [a, b + 1, 0] = _
    rw [carry]
    by_cases h' : rs ≤ a + b + 1
    · rw [if_pos (by simp; omega), if_pos h']; rfl
    · rw [if_neg (by simp; omega), if_neg h']; rfl
  · rw [if_neg (by simp; omega), if_neg h, carry, if_neg (by simp; omega)]
    rfl

/-- A row of indices, for any step that counts up the last one. -/
theorem row_gen {f : List Nat → List Nat} {g : Nat → List Nat} {m : Nat} (hf : ∀ c, c + 1 < m → f (g c) = g (c + 1)) : ∀ n c, c + n ≤ m → List.iterate f (g c) n = (List.range' c n).map g ∧ (c + n < m → f^[n] (g c) = g (c + n)) := by
  intro n
  induction n with
  | zero => intro c _; exact ⟨rfl, fun _ => rfl⟩
  | succ n ih =>
    intro c h
    cases n with
    | zero =>
      refine ⟨rfl, fun h' => ?_⟩
      simp only [Function.iterate_succ, Function.iterate_zero, Function.comp, id]
      exact hf c (by omega)
    | succ n =>
      have e := hf c (by omega)
      obtain ⟨k1, k2⟩ := ih (c + 1) (by omega)
      refine ⟨?_, fun h' => ?_⟩
      · rw [List.iterate, e, k1, List.range'_succ]
        rfl
      · rw [Function.iterate_succ, Function.comp, e, k2 (by omega)]
        congr 1
        omega

/-- Rows and what follows: if counting up from `g 0` ends after `m` steps in `h`. -/
theorem row_end {f : List Nat → List Nat} {g : Nat → List Nat} {m : Nat} {h : List Nat} (hm : 0 < m) (hf : ∀ c, c + 1 < m → f (g c) = g (c + 1)) (he : f (g (m - 1)) = h) :
    List.iterate f (g 0) m = (List.range m).map g ∧ f^[m] (g 0) = h := by
  refine ⟨?_, ?_⟩
  · rw [(row_gen hf m 0 (by omega)).1, List.range_eq_range']
  · obtain ⟨k, rfl⟩ : ∃ k, m = k + 1 := ⟨m - 1, by omega⟩
    rw [Function.iterate_succ_apply', (row_gen hf k 0 (by omega)).2 (by omega)]
    simpa using he

def tri : Nat → Nat
  | 0 => 0
  | m + 1 => (m + 1) + tri m

def tet : Nat → Nat
  | 0 => 0
  | m + 1 => tri (m + 1) + tet m

theorem tri_eq (m : Nat) : 2 * tri m = m * (m + 1) := by
  induction m with
  | zero => rfl
  | succ m ih => rw [tri, Nat.mul_add, ih]; ring

theorem tet_eq (m : Nat) : 6 * tet m = m * (m + 1) * (m + 2) := by
  induction m with
  | zero => rfl
  | succ m ih =>
    rw [tet, Nat.mul_add, ih, show 6 * tri (m + 1) = 3 * (2 * tri (m + 1)) by ring, tri_eq]; ring

theorem size1 (rs : Nat) : size 1 rs = rs := rfl
theorem size2 (rs : Nat) : size 2 rs = tri rs := by
  show rs * (rs + 1) / 2 = _
  rw [← tri_eq]; omega
theorem size3 (rs : Nat) : size 3 rs = tet rs := by
  show rs * (rs + 1) * (rs + 2) / 6 = _
  rw [← tet_eq]; omega

theorem mem_iterate_add {f : List Nat → List Nat} {x : List Nat} {m n : Nat} : List.iterate f x (m + n) = List.iterate f x m ++ List.iterate f (f^[m] x) n := List.iterate_add ..

/-- Two dimensions, from row `b`. -/
theorem plane2 (rs : Nat) : ∀ m b, b + m = rs → List.iterate (next 2 rs) [b, 0] (tri m) = (List.range' b m).flatMap fun i => (List.range (rs - i)).map fun k => [i, k] := by
  intro m
  induction m with
  | zero => intro b _; rfl
  | succ m ih =>
    intro b h
    obtain ⟨r1, r2⟩ := row_end (f := next 2 rs) (g := fun c => [b, c]) (m := m + 1) (h := [b + 1, 0]) (by omega) (fun c hc => by rw [next2, if_neg (by omega)]) (by rw [next2, if_pos (by omega)])
    rw [tri, mem_iterate_add, r1, r2, ih (b + 1) (by omega), List.range'_succ, List.flatMap_cons, show rs - b = m + 1 by omega]

/-- Three dimensions: the rest of plane `a` from row `b`. -/
theorem plane3 (rs a : Nat) : ∀ m b, a + b + m = rs → List.iterate (next 3 rs) [a, b, 0] (tri m) = ((List.range' b m).flatMap fun i => (List.range (rs - a - i)).map fun k => [a, i, k]) ∧ (0 < m → (next 3 rs)^[tri m] [a, b, 0] = [a + 1, 0, 0]) := by
  intro m
  induction m with
  | zero => intro b _; exact ⟨rfl, fun h => absurd h (by omega)⟩
  | succ m ih =>
    intro b h
    obtain ⟨r1, r2⟩ := row_end (f := next 3 rs) (g := fun c => [a, b, c]) (m := m + 1) (h := if rs ≤ a + b + 1 then [a + 1, 0, 0] else [a, b + 1, 0]) (by omega) (fun c hc => by rw [next3, if_neg (by omega)]) (by rw [next3, if_pos (by omega)])
    by_cases hm : m = 0
    · subst hm
      rw [if_pos (by omega)] at r2
      refine ⟨?_, fun _ => ?_⟩
      · show List.iterate (next 3 rs) [a, b, 0] 1 = _
        rw [r1]
        simp [show rs - a - b = 1 by omega]
      · exact r2
    · rw [if_neg (by omega)] at r2
      obtain ⟨k1, k2⟩ := ih (b + 1) (by omega)
      refine ⟨?_, fun _ => ?_⟩
      · rw [tri, mem_iterate_add, r1, r2, k1, List.range'_succ, List.flatMap_cons, show rs - a - b = m + 1 by omega]
      · rw [tri, Nat.add_comm, Function.iterate_add_apply, r2]
        exact k2 (by omega)

theorem space3 (rs : Nat) : ∀ m a, a + m = rs → List.iterate (next 3 rs) [a, 0, 0] (tet m) = (List.range' a m).flatMap fun j => (List.range (rs - j)).flatMap fun i => (List.range (rs - j - i)).map fun k => [j, i, k] := by
  intro m
  induction m with
  | zero => intro a _; rfl
  | succ m ih =>
    intro a h
    obtain ⟨r1, r2⟩ := plane3 rs a (m + 1) 0 (by omega)
    rw [← List.range_eq_range'] at r1
    rw [tet, mem_iterate_add, r1, r2 (by omega), ih (a + 1) (by omega), List.range'_succ, List.flatMap_cons, show rs - a = m + 1 by omega]

theorem indices1 (rs : Nat) : indices 1 rs = (List.range rs).map fun k => [k] := by
  show List.iterate (next 1 rs) [0] rs = _
  rw [(row_gen (f := next 1 rs) (g := fun c => [c]) (m := rs) (fun c _ => next1 rs c) rs 0 (by omega)).1, List.range_eq_range']

theorem indices2 (rs : Nat) : indices 2 rs = (List.range rs).flatMap fun i => (List.range (rs - i)).map fun k => [i, k] := by
  show List.iterate (next 2 rs) [0, 0] (size 2 rs) = _
  rw [size2, plane2 rs rs 0 (by omega), ← List.range_eq_range']

theorem indices3 (rs : Nat) : indices 3 rs = (List.range rs).flatMap fun j => (List.range (rs - j)).flatMap fun i => (List.range (rs - j - i)).map fun k => [j, i, k] := by
  show List.iterate (next 3 rs) [0, 0, 0] (size 3 rs) = _
  rw [size3, space3 rs rs 0 (by omega), ← List.range_eq_range']

theorem indices_length (nd rs : Nat) : (indices nd rs).length = size nd rs := List.length_iterate ..

theorem mem_indices {nd rs : Nat} (h1 : 1 ≤ nd) (h3 : nd ≤ 3) (l : List Nat) : l ∈ indices nd rs ↔ l.length = nd ∧ l.sum < rs := by
  interval_cases nd
  · rw [indices1]
    simp only [List.mem_map, List.mem_range, List.length_eq_one_iff]
    constructor
    · rintro ⟨k, h, rfl⟩; exact ⟨⟨k, rfl⟩, by simpa using h⟩
    · rintro ⟨⟨k, rfl⟩, h⟩; exact ⟨k, by simpa using h, rfl⟩
  · rw [indices2]
    simp only [List.mem_flatMap, List.mem_map, List.mem_range, List.length_eq_two]
    constructor
    · rintro ⟨i, hi, k, h, rfl⟩; exact ⟨⟨i, k, rfl⟩, by simp; omega⟩
    · rintro ⟨⟨i, k, rfl⟩, h⟩; simp at h; exact ⟨i, by omega, k, by omega, rfl⟩
  · rw [indices3]
    simp only [List.mem_flatMap, List.mem_map, List.mem_range, List.length_eq_three]
    constructor
    · rintro ⟨j, hj, i, hi, k, h, rfl⟩; exact ⟨⟨j, i, k, rfl⟩, by simp; omega⟩
    · rintro ⟨⟨j, i, k, rfl⟩, h⟩; simp at h; exact ⟨j, by omega, i, by omega, k, by omega, rfl⟩

theorem nodup_indices {nd rs : Nat} (h1 : 1 ≤ nd) (h3 : nd ≤ 3) : (indices nd rs).Nodup := by
  interval_cases nd
  · rw [indices1]
    exact List.nodup_range.map fun a b h => by simpa using h
  · rw [indices2, List.nodup_flatMap]
    refine ⟨fun i _ => List.nodup_range.map fun a b h => by simpa using h, List.nodup_range.imp ?_⟩
    intro a b hab x h1 h2
    simp only [List.mem_map] at h1 h2
    obtain ⟨k, -, rfl⟩ := h1
    obtain ⟨k', -, e⟩ := h2
    simp at e
    exact hab e.1.symm
  · rw [indices3, List.nodup_flatMap]
    refine ⟨fun j _ => ?_, List.nodup_range.imp ?_⟩
    · rw [List.nodup_flatMap]
      refine ⟨fun i _ => List.nodup_range.map fun a b h => by simpa using h, List.nodup_range.imp ?_⟩
      intro a b hab x h1 h2
      simp only [List.mem_map] at h1 h2
      obtain ⟨k, -, rfl⟩ := h1
      obtain ⟨k', -, e⟩ := h2
      simp at e
      exact hab e.1.symm
    · intro a b hab x h1 h2
      simp only [List.mem_map, List.mem_flatMap] at h1 h2
      obtain ⟨i, -, k, -, rfl⟩ := h1
      obtain ⟨i', -, k', -, e⟩ := h2
      simp at e
      exact hab e.1.symm

end Hexed.PhysBasis
