import Verif.Adapt.Shape
import Verif.Adapt.Delete
import Verif.Tree.Props

set_option autoImplicit false
set_option linter.unusedVariables false

/-!
# The neighbours of a cell through a face, in order
-/

namespace Hexed.Adapt
open Hexed.Tree (Path get IsDir Borders IsLeafAt Reachable findNeighbors findNeighbor extremalLeaves extremalLeavesList)

variable {nd : Nat}

/-- The number `j` with the binary digit `s` inserted at position `pos`. -/
def insBit (pos s j : Nat) : Nat := (2 * (j / 2 ^ pos) + s) * 2 ^ pos + j % 2 ^ pos

theorem insBit_div (pos s j : Nat) : insBit pos s j / 2 ^ pos = 2 * (j / 2 ^ pos) + s := by
  have h := Nat.two_pow_pos pos
  unfold insBit
  rw [Nat.add_comm, Nat.add_mul_div_right _ _ h, Nat.div_eq_of_lt (Nat.mod_lt _ h), Nat.zero_add]

theorem insBit_mod (pos s j : Nat) : insBit pos s j % 2 ^ pos = j % 2 ^ pos := by
  unfold insBit
  rw [Nat.add_comm, Nat.add_mul_mod_self_right, Nat.mod_mod]

theorem digit_low (x pos e : Nat) (h : e < pos) : (x / 2 ^ e) % 2 = ((x % 2 ^ pos) / 2 ^ e) % 2 := by
  obtain ⟨k, rfl⟩ : ∃ k, pos = e + 1 + k := ⟨pos - e - 1, by omega⟩
  have : 2 ^ (e + 1 + k) = 2 ^ e * (2 * 2 ^ k) := by rw [pow_add, pow_add]; ring
  conv_lhs => rw [← Nat.div_add_mod x (2 ^ (e + 1 + k))]
  rw [this, mul_assoc, Nat.mul_add_div (Nat.two_pow_pos e), mul_assoc, Nat.mul_add_mod]

theorem insBit_digit {pos s : Nat} (hs : s < 2) (j e : Nat) :
    (insBit pos s j / 2 ^ e) % 2 = if e < pos then (j / 2 ^ e) % 2 else if e = pos then s else (j / 2 ^ (e - 1)) % 2 := by
  split
  · rename_i h
    rw [digit_low _ pos e h, insBit_mod, ← digit_low _ pos e h]
  · rename_i h
    split
    · rename_i h2; subst h2
      rw [insBit_div]; omega
    · rename_i h2
      obtain ⟨k, rfl⟩ : ∃ k, e = pos + (1 + k) := ⟨e - pos - 1, by omega⟩
      rw [pow_add, ← Nat.div_div_eq_div_mul, insBit_div, pow_add, ← Nat.div_div_eq_div_mul]
      have : (2 * (j / 2 ^ pos) + s) / 2 ^ 1 = j / 2 ^ pos := by omega
      rw [this, Nat.div_div_eq_div_mul, ← pow_add]
      congr 3; omega

theorem insBit_lt {pos s n j : Nat} (hs : s < 2) (hp : pos ≤ n) (hj : j < 2 ^ n) : insBit pos s j < 2 ^ (n + 1) := by
  have h := Nat.two_pow_pos pos
  obtain ⟨k, rfl⟩ : ∃ k, n = pos + k := ⟨n - pos, by omega⟩
  have h1 : j / 2 ^ pos < 2 ^ k := by rw [Nat.div_lt_iff_lt_mul h, mul_comm, ← pow_add]; exact hj
  have h2 : insBit pos s j / 2 ^ pos < 2 ^ (k + 1) := by rw [insBit_div, pow_succ]; omega
  rw [Nat.div_lt_iff_lt_mul h, mul_comm, ← pow_add] at h2
  exact h2

theorem insBit_mono {pos s : Nat} (hs : s < 2) {i j : Nat} (h : i < j) : insBit pos s i < insBit pos s j := by
  have hp := Nat.two_pow_pos pos
  have h1 := Nat.div_add_mod i (2 ^ pos)
  have h2 := Nat.div_add_mod j (2 ^ pos)
  have h3 := Nat.mod_lt i hp
  have h4 := Nat.mod_lt j hp
  have hle : i / 2 ^ pos ≤ j / 2 ^ pos := Nat.div_le_div_right h.le
  unfold insBit
  rcases hle.eq_or_lt with he | hlt
  · rw [he] at h1 ⊢; omega
  · have : (2 * (i / 2 ^ pos) + s + 1) * 2 ^ pos ≤ (2 * (j / 2 ^ pos) + s) * 2 ^ pos := Nat.mul_le_mul_right _ (by omega)
    rw [Nat.add_mul _ 1] at this
    omega

/-- Every number is obtained by inserting one of its digits. -/
theorem insBit_surj {pos n x : Nat} (hp : pos ≤ n) (hx : x < 2 ^ (n + 1)) : ∃ j < 2 ^ n, insBit pos ((x / 2 ^ pos) % 2) j = x := by
  have h := Nat.two_pow_pos pos
  obtain ⟨k, rfl⟩ : ∃ k, n = pos + k := ⟨n - pos, by omega⟩
  have hmod := Nat.mod_lt x h
  refine ⟨(x / 2 ^ pos / 2) * 2 ^ pos + x % 2 ^ pos, ?_, ?_⟩
  · have : x / 2 ^ pos < 2 ^ (k + 1) := by rw [Nat.div_lt_iff_lt_mul h, mul_comm, ← pow_add]; exact hx
    have h2 : x / 2 ^ pos / 2 + 1 ≤ 2 ^ k := by rw [pow_succ] at this; omega
    have h3 := Nat.mul_le_mul_right (2 ^ pos) h2
    rw [Nat.add_mul, one_mul, mul_comm (2 ^ k), ← pow_add] at h3
    omega
  · have e1 : ((x / 2 ^ pos / 2) * 2 ^ pos + x % 2 ^ pos) / 2 ^ pos = x / 2 ^ pos / 2 := by
      rw [Nat.add_comm, Nat.add_mul_div_right _ _ h, Nat.div_eq_of_lt hmod, Nat.zero_add]
    have e2 : ((x / 2 ^ pos / 2) * 2 ^ pos + x % 2 ^ pos) % 2 ^ pos = x % 2 ^ pos := by
      rw [Nat.add_comm, Nat.add_mul_mod_self_right, Nat.mod_mod]
    unfold insBit
    rw [e1, e2, Nat.div_add_mod, mul_comm, Nat.div_add_mod]

theorem filter_digit {pos s n : Nat} (hs : s < 2) (hp : pos ≤ n) :
    (List.range (2 ^ (n + 1))).filter (fun x => (x / 2 ^ pos) % 2 == s) = (List.range (2 ^ n)).map (insBit pos s) := by
  have hmem : ∀ x, x ∈ (List.range (2 ^ (n + 1))).filter (fun x => (x / 2 ^ pos) % 2 == s) ↔ x ∈ (List.range (2 ^ n)).map (insBit pos s) := by
    intro x
    simp only [List.mem_filter, List.mem_range, beq_iff_eq, List.mem_map]
    constructor
    · rintro ⟨hx, rfl⟩
      obtain ⟨j, hj, e⟩ := insBit_surj hp hx
      exact ⟨j, hj, e⟩
    · rintro ⟨j, hj, rfl⟩
      refine ⟨insBit_lt hs hp hj, ?_⟩
      rw [insBit_digit hs]; simp
  have s1 : ((List.range (2 ^ (n + 1))).filter (fun x => (x / 2 ^ pos) % 2 == s)).Pairwise (· < ·) := List.pairwise_lt_range.filter _
  have s2 : ((List.range (2 ^ n)).map (insBit pos s)).Pairwise (· < ·) := List.pairwise_lt_range.map _ fun _ _ h => insBit_mono hs h
  refine List.Perm.eq_of_pairwise (le := (· < ·)) (fun a b _ _ h1 h2 => absurd h1 (lt_asymm h2)) s1 s2 ?_
  exact (List.perm_ext_iff_of_nodup (s1.imp fun h => ne_of_lt h) (s2.imp fun h => ne_of_lt h)).2 hmem

/-! ### Extremal leaves -/

/-- The bias with which `find_neighbors` picks leaves. -/
def faceBias (dir : Fin nd → Int) : Fin nd → Int := fun d => if dir d = 0 then -1 else if dir d < 0 then 1 else 0

theorem faceBias_ok (dir : Fin nd → Int) (d : Fin nd) : faceBias dir d = -1 ∨ faceBias dir d = 0 ∨ faceBias dir d = 1 := by
  unfold faceBias; split
  · simp
  · split <;> simp

theorem extremal_ne {bias : Fin nd → Int} (hb : ∀ d, bias d = -1 ∨ bias d = 0 ∨ bias d = 1) {t : Tree nd} (h : Tree.WF t) (h0 : ∀ d, 0 ≤ t.coords d) :
    ∃ q, q ∈ extremalLeaves bias t := by
  induction t using Tree.induct with
  | h r c s k ih =>
    cases k with
    | nil => exact ⟨[], by simp [extremalLeaves]⟩
    | cons t0 ts =>
      obtain ⟨i, hi, hbit⟩ := Tree.bits_surj (fun d => decide (bias d = 1))
      have hlen := h.len (by simp)
      obtain ⟨a, ha⟩ : ∃ a, (t0 :: ts)[i]? = some a := ⟨_, List.getElem?_eq_getElem (by omega)⟩
      obtain ⟨e1, e2, e3⟩ := h.child ha
      have h0' : ∀ d, 0 ≤ a.coords d := by rw [e2]; exact Tree.child_nonneg h0 i
      obtain ⟨q, hq⟩ := ih a (List.mem_of_getElem? ha) e3 h0'
      refine ⟨i :: q, ?_⟩
      simp only [extremalLeaves]
      rw [Tree.mem_extremalList]
      refine ⟨i, a, q, ha, fun d => ?_, hq, by simp⟩
      rw [e2, Tree.child_tmod (c := c) h0]
      have := hbit d
      generalize i / 2 ^ (nd - 1 - d.val) % 2 = x at this ⊢
      rcases hb d with h | h | h
      · exact .inl h
      · right; simp [h] at this ⊢; omega
      · right; simp [h] at this ⊢; omega

theorem extremalList_flat {bias : Fin nd → Int} {Q : Nat → Bool} : ∀ (k : List (Tree nd)) (n : Nat),
    (∀ j t, k[j]? = some t → ((∀ d, bias d = -1 ∨ bias d = (t.coords d).tmod 2) ↔ Q (n + j) = true)) → (∀ j t, k[j]? = some t → Q (n + j) = true → t.children = []) →
    extremalLeavesList bias k n = ((List.range' n k.length).filter Q).map fun j => [j] := by
  intro k
  induction k with
  | nil => intro n _ _; simp [extremalLeavesList]
  | cons t k ih =>
    intro n h1 h2
    have ih' := ih (n + 1) (fun j u hu => by have := h1 (j + 1) u (by simpa using hu); rwa [show n + (j + 1) = n + 1 + j by omega] at this)
      (fun j u hu hq => h2 (j + 1) u (by simpa using hu) (by rwa [show n + (j + 1) = n + 1 + j by omega]))
    simp only [extremalLeavesList, ih', List.length_cons, List.range'_succ]
    have g1 := h1 0 t (by simp)
    have g2 := h2 0 t (by simp)
    simp only [Nat.add_zero] at g1 g2
    by_cases hq : Q n = true
    · rw [if_pos (g1.2 hq), List.filter_cons_of_pos hq]
      have := g2 hq
      cases t with
      | mk r c s kk => simp only [Tree.children] at this; subst this; simp [extremalLeaves]
    · rw [if_neg (fun hh => hq (g1.1 hh)), List.filter_cons_of_neg hq]; simp

/-- If all extremal leaves in the direction of a face are children, they are the children at that face in order. -/
theorem extremal_quads {t : Tree nd} (h : Tree.WF t) (h0 : ∀ d, 0 ≤ t.coords d) (hk : t.children ≠ []) {i : Nat} (hi : i < 2 * nd)
    (hlen : ∀ q ∈ extremalLeaves (faceBias (direction nd i)) t, q.length ≤ 1) :
    extremalLeaves (faceBias (direction nd i)) t = (List.range (2 ^ (nd - 1))).map fun j => [insBit (nd - 1 - i / 2) (1 - i % 2) j] := by
  obtain ⟨n, rfl⟩ : ∃ n, nd = n + 1 := ⟨nd - 1, by omega⟩
  cases t with
  | mk r c s k =>
    simp only [Tree.children] at hk
    obtain ⟨t0, ts, rfl⟩ : ∃ t0 ts, k = t0 :: ts := by cases k with
      | nil => exact absurd rfl hk
      | cons a b => exact ⟨a, b, rfl⟩
    have hl := h.len (by simp)
    have hb := faceBias_ok (direction (n + 1) i)
    have hm : ∀ j t, (t0 :: ts)[j]? = some t → ((∀ d, faceBias (direction (n + 1) i) d = -1 ∨ faceBias (direction (n + 1) i) d = (t.coords d).tmod 2) ↔
        (j / 2 ^ (n + 1 - 1 - i / 2)) % 2 = 1 - i % 2) := by
      intro j t ht
      obtain ⟨e1, e2, e3⟩ := h.child ht
      rw [e2]
      have hbit := fun d : Fin (n + 1) => Tree.child_tmod (c := c) h0 j d
      constructor
      · intro hh
        have := hh ⟨i / 2, by omega⟩
        rw [hbit] at this
        simp only [faceBias, direction, if_true] at this
        generalize j / 2 ^ (n + 1 - 1 - i / 2) % 2 = x at this ⊢
        rcases Nat.mod_two_eq_zero_or_one i with hz | hz <;> (simp [hz, sign] at this ⊢; omega)
      · intro hj d
        by_cases hd : d.val = i / 2
        · right
          rw [hbit, hd, hj]
          simp only [faceBias, direction, hd, if_true]
          rcases Nat.mod_two_eq_zero_or_one i with hz | hz <;> simp [hz, sign]
        · left; simp [faceBias, direction, hd]
    have key := extremalList_flat (bias := faceBias (direction (n + 1) i)) (Q := fun j => (j / 2 ^ (n + 1 - 1 - i / 2)) % 2 == 1 - i % 2) (t0 :: ts) 0
      (fun j t ht => by rw [Nat.zero_add, beq_iff_eq]; exact hm j t ht) (by
        intro j t ht hq
        rw [Nat.zero_add, beq_iff_eq] at hq
        obtain ⟨e1, e2, e3⟩ := h.child ht
        have h0' : ∀ d, 0 ≤ t.coords d := by rw [e2]; exact Tree.child_nonneg h0 j
        obtain ⟨q, hq'⟩ := extremal_ne hb e3 h0'
        have hmem : (j :: q) ∈ extremalLeaves (faceBias (direction (n + 1) i)) (.mk r c s (t0 :: ts)) := by
          simp only [extremalLeaves]
          exact Tree.mem_extremalList.2 ⟨j, t, q, ht, (hm j t ht).2 hq, hq', by simp⟩
        have := hlen _ hmem
        have hnil : q = [] := by simpa using this
        subst hnil
        obtain ⟨b, g1, g2, -⟩ := (Tree.mem_extremal hb e3 h0' []).1 hq'
        simp only [Tree.get, Option.some.injEq] at g1; subst g1; exact g2)
    simp only [extremalLeaves, key, hl, ← List.range_eq_range']
    rw [filter_digit (by omega) (by omega), List.map_map]
    rfl

/-! ### Neighbours -/

theorem neighbors_cases {t a : Tree nd} (h : Reachable t) {p : Path} (hp : get p t = some a) {dir : Fin nd → Int} {l : List Path}
    (hl : findNeighbors t p dir = some l) : (l = [] ∧ findNeighbor t p dir = none) ∨
    (∃ q b, l = [q] ∧ get q t = some b ∧ b.children = [] ∧ b.rl ≤ a.rl ∧ findNeighbor t p dir = some q) ∨
    (∃ m sub, get m t = some sub ∧ sub.rl = a.rl ∧ sub.children ≠ [] ∧ l = (extremalLeaves (faceBias dir) sub).map (m ++ ·)) := by
  have hr := h.root
  have hfn : findNeighbor t p dir = Tree.findLeaf a.rl (Tree.nbC a dir) (Tree.nbB dir) t := by
    simp only [findNeighbor, hp]; rfl
  have rlq : ∀ {q} {b : Tree nd}, get q t = some b → b.rl = q.length := by
    intro q b hq; have := Tree.rl_get hr.wf hq; rw [hr.rl0] at this; omega
  simp only [findNeighbors, hp] at hl
  cases hm : findNeighbor t p dir with
  | none => rw [hm] at hl; simp at hl; exact .inl ⟨hl, rfl⟩
  | some m =>
    rw [hm] at hl
    obtain ⟨ms, hms, hmleaf, hmo⟩ := Tree.findLeaf_sound (Tree.nbB_ok dir) hr.wf (hfn ▸ hm)
    simp only [Tree.climb_eq hr a.rl m.length m ms hms le_rfl] at hl
    obtain ⟨sub, hsub⟩ := Tree.get_take hms a.rl
    simp only [hsub, Option.some.injEq] at hl
    by_cases hle : ms.rl ≤ a.rl
    · right; left
      have e : m.take a.rl = m := List.take_of_length_le (by rw [← rlq hms]; exact hle)
      rw [e] at hl hsub
      rw [hms] at hsub; simp only [Option.some.injEq] at hsub; subst hsub
      refine ⟨m, ms, ?_, hms, hmleaf, hle, rfl⟩
      rw [← hl]
      cases ms with
      | mk r c s k => simp only [Tree.children] at hmleaf; subst hmleaf; simp [extremalLeaves]
    · right; right
      refine ⟨m.take a.rl, sub, hsub, ?_, ?_, hl.symm⟩
      · rw [rlq hsub, List.length_take, ← rlq hms]; omega
      · intro hleaf
        have : m.drop a.rl ≠ [] := by
          intro hh
          have := congrArg List.length hh
          rw [List.length_drop, ← rlq hms] at this; simp at this; omega
        have h2 := hms
        rw [← List.take_append_drop a.rl m, Tree.get_append, hsub, Option.bind_some] at h2
        cases hd : m.drop a.rl with
        | nil => exact this hd
        | cons x y => rw [hd, Tree.get_leaf_cons hleaf] at h2; simp at h2

end Hexed.Adapt
