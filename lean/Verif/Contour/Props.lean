import Verif.Contour.Local3
import Mathlib.Algebra.Order.Group.MinMax
set_option autoImplicit false
set_option linter.unusedVariables false

/-!
# C94: contours
-/

open Finset

namespace Hexed.Contour

variable {R : Type} [Field R] [LinearOrder R]

/-- The loops visit exactly the pairs of neighbours. -/
theorem mem_edges {d n i s : ℕ} : (i, s) ∈ edges d n ↔ Neighbours d n i s := by
  unfold edges Neighbours
  simp only [List.mem_flatMap, List.mem_range, List.mem_map, Prod.mk.injEq]
  have hN : i < d → (n + 1) ^ d = (n + 1) ^ i * (n + 1) * strideS d n i := by
    intro hid
    unfold strideS
    rw [← pow_succ, ← pow_add]
    congr 1
    omega
  have hout : i < d → (n + 1) ^ d / strideS d n i / (n + 1) = (n + 1) ^ i := by
    intro hid
    rw [hN hid, Nat.mul_div_cancel _ (strideS_pos d n i), Nat.mul_div_cancel _ (Nat.succ_pos n)]
  constructor
  · rintro ⟨i', hid, o, ho, inn, hinn, r, hr, rfl, rfl⟩
    rw [hout hid] at ho
    refine ⟨hid, ?_, by rw [row_mk hr.le hinn]; exact hr⟩
    rw [hN hid]
    have h1 : o * (n + 1) + r + 1 ≤ (n + 1) ^ i' * (n + 1) := by nlinarith
    have h2 := Nat.mul_le_mul_right (strideS d n i') h1
    nlinarith
  · rintro ⟨hid, hs, hr⟩
    refine ⟨i, hid, s / strideS d n i / (n + 1), ?_, s % strideS d n i, Nat.mod_lt _ (strideS_pos d n i), row d n s i, hr, rfl, ?_⟩
    · exact Nat.div_lt_div_of_lt_of_dvd (by rw [hN hid, Nat.mul_div_cancel _ (strideS_pos d n i)]; exact Dvd.intro_left _ rfl) (Nat.div_lt_div_of_lt_of_dvd (by rw [hN hid]; exact Dvd.intro_left _ rfl) hs)
    · unfold row
      rw [Nat.mul_comm (s / strideS d n i / (n + 1)), Nat.div_add_mod, Nat.mul_comm, Nat.div_add_mod]

theorem crossing_iff {sample : ℕ → R} {value tol : R} {s t : ℕ} : crossing sample value tol s t = true ↔ ((sample s > value) ↔ ¬(sample t > value)) ∧ tol < |sample s - sample t| := by
  unfold crossing
  by_cases h0 : sample s > value <;> by_cases h1 : sample t > value <;> simp [h0, h1]

theorem incr_range (d v k : ℕ) : incr d v k = -1 ∨ incr d v k = 0 ∨ incr d v k = 1 := by
  unfold incr
  have := Nat.mod_lt (v / 3 ^ (d - 2 - k)) (show 0 < 3 by norm_num)
  omega

theorem clamp_range (d n s j v k : ℕ) : -lo d n s j ≤ clamp d n s j (incr d v k) ∧ clamp d n s j (incr d v k) ≤ hi d n s j := by
  have l := lo_le d n s j
  have h := hi_le d n s j
  rcases incr_range d v k with e | e | e <;> rw [e]
  · rw [clamp_neg]; constructor <;> linarith
  · rw [clamp_zero]; constructor <;> linarith
  · rw [clamp_pos]; constructor <;> linarith

theorem vert_at {d n i s : ℕ} (h : Neighbours d n i s) (v : ℕ) : vert d n i s v = at' d n s (fun j => if j = i then 1 else clamp d n s j (incr d v (kdim i j))) ∧ ∀ j < d, -lo d n s j ≤ (if j = i then 1 else clamp d n s j (incr d v (kdim i j))) ∧ (if j = i then 1 else clamp d n s j (incr d v (kdim i j))) ≤ hi d n s j := by
  constructor
  · rw [vert_eq, at', add_assoc]
    congr 1
    have : ∀ j ∈ range d, (if j = i then (1 : ℤ) else clamp d n s j (incr d v (kdim i j))) * strideB d n j = (if j = i then (strideB d n i : ℤ) else 0) + if j = i then 0 else clamp d n s j (incr d v (kdim i j)) * strideB d n j := by
      intro j _
      by_cases e : j = i
      · subst e; simp
      · simp [e]
    rw [Finset.sum_congr rfl this, Finset.sum_add_distrib, Finset.sum_ite_eq', if_pos (Finset.mem_range.2 h.1)]
  · intro j hj
    split
    · rename_i e
      subst e
      have l := lo_le d n s j
      have : hi d n s j = 1 := by unfold hi; rw [if_neg (by have := h.2.2; omega)]
      constructor <;> linarith
    · exact clamp_range d n s j v _

/-- The contour is a mesh: vertices are in the block and none is there twice; each has a direction; each element has the right number of vertices, and all of them exist. No array is accessed out of bounds. -/
theorem mesh (d n : ℕ) (sample : ℕ → R) (value tol : R) :
    (contour d n sample value tol).verts.Nodup ∧ (∀ v ∈ (contour d n sample value tol).verts, 0 ≤ v ∧ v < (2 * n + 1) ^ d) ∧
    (contour d n sample value tol).dirs.length = (contour d n sample value tol).verts.length ∧
    (∀ f ∈ (contour d n sample value tol).faces, f.length = 2 ^ (d - 1) ∧ ∀ k ∈ f, k < (contour d n sample value tol).verts.length) ∧
    ∀ i s, Neighbours d n i s → s + strideS d n i < (n + 1) ^ d ∧ ∀ v < 3 ^ (d - 1), 0 ≤ vert d n i s v ∧ vert d n i s v < (2 * n + 1) ^ d := by
  obtain ⟨h1, h2, h3, h4, h5⟩ := contour_ok d n sample value tol
  have hv : ∀ i s, Neighbours d n i s → ∀ v, 0 ≤ vert d n i s v ∧ vert d n i s v < (2 * n + 1) ^ d := by
    intro i s h v
    obtain ⟨e, hr⟩ := vert_at h v
    rw [e]
    exact (coord_at hr).2
  refine ⟨h1.nodup, ?_, h1.dirs, fun f hf => ⟨?_, h3 f hf⟩, fun i s h => ⟨?_, fun v _ => hv i s h v⟩⟩
  · intro w hw
    obtain ⟨e, he, _, v, _, rfl⟩ := h4 w hw
    exact hv e.1 e.2 (mem_edges.1 he) v
  · have : f.map (fun k => (contour d n sample value tol).verts[k]?) ∈ (contour d n sample value tol).elements := List.mem_map_of_mem hf
    rw [h2] at this
    obtain ⟨g, hg, hgf⟩ := List.mem_map.1 this
    obtain ⟨e, _, hge⟩ := List.mem_flatMap.1 hg
    have hl : g.length = 2 ^ (d - 1) := by
      unfold facesAt at hge
      split at hge
      · exact elems_length g hge
      · cases hge
    have := congrArg List.length hgf
    simpa [hl] using this.symm
  · obtain ⟨hid, hs, hr⟩ := h
    have hm := mem_edges.2 (⟨hid, hs, hr⟩ : Neighbours d n i s)
    have hN : (n + 1) ^ d = (n + 1) ^ i * (n + 1) * strideS d n i := by
      unfold strideS
      rw [← pow_succ, ← pow_add]
      congr 1
      omega
    have hq : s / strideS d n i < (n + 1) ^ i * (n + 1) := by
      rw [Nat.div_lt_iff_lt_mul (strideS_pos d n i), ← hN]; exact hs
    have hq1 : s / strideS d n i + 1 < (n + 1) ^ i * (n + 1) := by
      by_contra hc
      have e : s / strideS d n i = (n + 1) ^ i * (n + 1) - 1 := by
        generalize s / strideS d n i = q at hq hc ⊢
        generalize (n + 1) ^ i * (n + 1) = z at hq hc ⊢
        omega
      unfold row at hr
      obtain ⟨k, hk⟩ : ∃ k, (n + 1) ^ i = k + 1 := ⟨(n + 1) ^ i - 1, by have : 0 < (n + 1) ^ i := Nat.pow_pos (Nat.succ_pos n); omega⟩
      have e' : s / strideS d n i = n + k * (n + 1) := by
        rw [e, hk]
        have : (k + 1) * (n + 1) = n + k * (n + 1) + 1 := by ring
        omega
      rw [e', Nat.add_mul_mod_self_right, Nat.mod_eq_of_lt (by omega)] at hr
      omega
    have := Nat.div_add_mod s (strideS d n i)
    have hlt := Nat.mod_lt s (strideS_pos d n i)
    rw [hN]
    have h3 := Nat.mul_le_mul_right (strideS d n i) (Nat.succ_le_of_lt hq1)
    nlinarith

/-- The coordinates of vertices, before they are moved, are those of the block: inside the element. -/
theorem coord_range (d n : ℕ) (v : ℤ) (j : ℕ) : 0 ≤ coord d n v j ∧ coord d n v j ≤ 2 * n := by
  unfold coord
  have h1 := Int.emod_nonneg (v / strideB d n j) (show (2 * n + 1 : ℤ) ≠ 0 by omega)
  have h2 := Int.emod_lt_of_pos (v / strideB d n j) (show (0 : ℤ) < 2 * n + 1 by omega)
  omega

/-- Every vertex is next to a place where the samples change sides: half way between two neighbours in one direction, at most half a step from them in the others. -/
theorem near {d n : ℕ} {sample : ℕ → R} {value tol : R} {w : ℤ} (hw : w ∈ (contour d n sample value tol).verts) :
    ∃ i s, Neighbours d n i s ∧ ((sample s > value) ↔ ¬(sample (s + strideS d n i) > value)) ∧ tol < |sample s - sample (s + strideS d n i)| ∧ coord d n w i = 2 * row d n s i + 1 ∧ ∀ j < d, |coord d n w j - 2 * row d n s j| ≤ 1 := by
  obtain ⟨-, -, -, h4, -⟩ := contour_ok d n sample value tol
  obtain ⟨e, he, hc, v, hv, rfl⟩ := h4 w hw
  have hn := mem_edges.1 (show (e.1, e.2) ∈ edges d n from he)
  obtain ⟨hx, ht⟩ := crossing_iff.1 hc
  obtain ⟨ea, hr⟩ := vert_at hn v
  have hco := (coord_at hr).1
  refine ⟨e.1, e.2, hn, hx, ht, ?_, ?_⟩
  · rw [ea, hco e.1 hn.1, if_pos rfl]
  · intro j hj
    rw [ea, hco j hj]
    have h1 := hr j hj
    have l := lo_le d n e.2 j
    have h := hi_le d n e.2 j
    rw [add_sub_cancel_left, abs_le]
    constructor <;> linarith [h1.1, h1.2]

/-- Wherever samples change sides, the contour has a vertex half way between them (in one, two and three dimensions). -/
theorem passes_between {d n : ℕ} (hd : d = 1 ∨ d = 2 ∨ d = 3) {sample : ℕ → R} {value tol : R} {i s : ℕ} (h : Neighbours d n i s) (hx : (sample s > value) ↔ ¬(sample (s + strideS d n i) > value)) (ht : tol < |sample s - sample (s + strideS d n i)|) :
    ∃ w ∈ (contour d n sample value tol).verts, ∀ j < d, coord d n w j = 2 * row d n s j + if j = i then 1 else 0 := by
  obtain ⟨-, -, -, -, h5⟩ := contour_ok d n sample value tol
  have hc := crossing_iff.2 ⟨hx, ht⟩
  obtain ⟨v, hv, hz⟩ : ∃ v < 3 ^ (d - 1), ∀ j < d, j ≠ i → incr d v (kdim i j) = 0 := by
    have hk : ∀ j < d, j ≠ i → kdim i j < d - 1 := by
      intro j hj hne
      have := h.1
      unfold kdim
      split <;> omega
    rcases hd with rfl | rfl | rfl
    · exact ⟨0, by norm_num, fun j hj hne => absurd (hk j hj hne) (by omega)⟩
    · refine ⟨1, by norm_num, fun j hj hne => ?_⟩
      have := hk j hj hne
      rw [show kdim i j = 0 by omega]; rfl
    · refine ⟨4, by norm_num, fun j hj hne => ?_⟩
      have := hk j hj hne
      rcases (show kdim i j = 0 ∨ kdim i j = 1 by omega) with e | e <;> rw [e] <;> rfl
  refine ⟨vert d n i s v, h5 (i, s) (mem_edges.2 h) hc v hv, fun j hj => ?_⟩
  obtain ⟨ea, hr⟩ := vert_at h v
  rw [ea, (coord_at hr).1 j hj]
  by_cases e : j = i
  · rw [if_pos e, if_pos e]
  · rw [if_neg e, if_neg e, hz j hj e, clamp_zero]

/-- There is no contour exactly if no neighbours on different sides differ by more than the tolerance. -/
theorem empty_iff {d n : ℕ} {sample : ℕ → R} {value tol : R} : (contour d n sample value tol).faces = [] ↔ ∀ i s, Neighbours d n i s → ((sample s > value) ↔ ¬(sample (s + strideS d n i) > value)) → |sample s - sample (s + strideS d n i)| ≤ tol := by
  obtain ⟨-, h2, -, -, -⟩ := contour_ok d n sample value tol
  have e : (contour d n sample value tol).faces = [] ↔ ∀ e ∈ edges d n, facesAt d n sample value tol e = [] := by
    rw [← List.flatMap_eq_nil_iff]
    have k1 : (contour d n sample value tol).faces = [] ↔ (contour d n sample value tol).elements = [] := by unfold St.elements; rw [List.map_eq_nil_iff]
    rw [k1, h2, List.map_eq_nil_iff]
  rw [e]
  constructor
  · intro h i s hn hx
    by_contra hc
    have := h (i, s) (mem_edges.2 hn)
    unfold facesAt at this
    rw [if_pos (crossing_iff.2 ⟨hx, not_le.1 hc⟩)] at this
    have hl := congrArg List.length this
    unfold elems at hl
    simp at hl
  · intro h e he
    unfold facesAt
    rw [if_neg]
    intro hc
    obtain ⟨hx, ht⟩ := crossing_iff.1 hc
    exact absurd (h e.1 e.2 (mem_edges.1 he) hx) (not_le.2 ht)

theorem resolved_edges {d n : ℕ} {sample : ℕ → R} {value tol : R} (hr : Resolved d n sample value tol) : ∀ e ∈ edges d n, (decide (sample e.2 > value) != decide (sample (e.2 + strideS d n e.1) > value)) = true → tol < |sample e.2 - sample (e.2 + strideS d n e.1)| := by
  intro e he hx
  refine hr e.1 e.2 (mem_edges.1 he) ?_
  by_cases h0 : sample e.2 > value <;> by_cases h1 : sample (e.2 + strideS d n e.1) > value <;> simp [h0, h1] at hx ⊢

theorem count_ends (L : List (List ℤ)) (hL : ∀ f ∈ L, f.length = 2) (v : ℤ) : (L.map (bd2 fun x => if x = v then 1 else 0)).sum = (L.countP fun f => decide (f[1]? = some v)) - (L.countP fun f => decide (f[0]? = some v) : ℤ) := by
  induction L with
  | nil => rfl
  | cons f L ih =>
    rw [List.map_cons, List.sum_cons, ih fun g hg => hL g (List.mem_cons_of_mem _ hg), List.countP_cons, List.countP_cons]
    match f, hL f (by simp) with
    | [a, b], _ =>
      simp only [bd2, List.getElem?_cons_zero, List.getElem?_cons_succ, Option.some.injEq]
      by_cases h1 : b = v <;> by_cases h2 : a = v <;> simp [h1, h2] <;> ring

/-- In two dimensions the contour is a set of closed curves and of curves that end on the boundary of the element, with a direction: at every vertex inside as many segments end as start. -/
theorem closed_lines {n : ℕ} {sample : ℕ → R} {value tol : R} (hr : Resolved 2 n sample value tol) {v : ℤ} (hv : ¬OnBoundary 2 n v) : starts (contour 2 n sample value tol) v = ends (contour 2 n sample value tol) v := by
  obtain ⟨-, h2, -, -, -⟩ := contour_ok 2 n sample value tol
  have hP := P2 (n := n) (g := fun x => if x = v then 1 else 0) (fun w hw => by
    rw [if_neg]
    rintro rfl
    exact hv hw)
  have ht := total (d := 2) (F := bd2 fun x => if x = v then 1 else 0) (flip2 _) (resolved_edges hr)
  simp only [hP, mul_zero, Finset.sum_const_zero] at ht
  rw [count_ends] at ht
  · unfold starts ends
    rw [h2, List.countP_map, List.countP_map]
    have k0 : ((fun f : List (Option ℤ) => decide (f[0]? = some (some v))) ∘ List.map some) = fun f : List ℤ => decide (f[0]? = some v) := by
      funext f; simp
    have k1 : ((fun f : List (Option ℤ) => decide (f[1]? = some (some v))) ∘ List.map some) = fun f : List ℤ => decide (f[1]? = some v) := by
      funext f; simp
    rw [k0, k1]
    omega
  · intro f hf
    obtain ⟨e, _, he⟩ := List.mem_flatMap.1 hf
    unfold facesAt at he
    split at he
    · exact elems_length f he
    · cases he

theorem count_around (L : List (List ℤ)) (u v : ℤ) : (L.map (bd3 fun x y => (if x = u ∧ y = v then 1 else 0) - if x = v ∧ y = u then 1 else 0)).sum = ((L.flatMap around).count (u, v) : ℤ) - (L.flatMap around).count (v, u) := by
  induction L with
  | nil => rfl
  | cons f L ih =>
    rw [List.map_cons, List.sum_cons, ih, List.flatMap_cons, List.count_append, List.count_append]
    have : bd3 (fun x y => (if x = u ∧ y = v then 1 else 0) - if x = v ∧ y = u then 1 else 0) f = ((around f).count (u, v) : ℤ) - (around f).count (v, u) := by
      match f with
      | [a, b, c, d] =>
        simp only [bd3, around, List.count_cons, List.count_nil, beq_iff_eq, Prod.mk.injEq]
        push_cast
        ring
      | [] => simp [bd3, around]
      | [_] => simp [bd3, around]
      | [_, _] => simp [bd3, around]
      | [_, _, _] => simp [bd3, around]
      | _ :: _ :: _ :: _ :: _ :: _ => simp [bd3, around]
    rw [this]
    push_cast
    ring

/-- In three dimensions the contour is a surface without holes inside the element and with a consistent orientation: every edge that is not on the boundary is passed in one direction as often as in the other. -/
theorem closed_surface {n : ℕ} {sample : ℕ → R} {value tol : R} (hr : Resolved 3 n sample value tol) {u v : ℤ} (huv : ¬SameSide 3 n u v) : passes (contour 3 n sample value tol) u v = passes (contour 3 n sample value tol) v u := by
  obtain ⟨-, h2, -, -, -⟩ := contour_ok 3 n sample value tol
  have hg : ∀ x y : ℤ, ((if x = u ∧ y = v then (1 : ℤ) else 0) - if x = v ∧ y = u then 1 else 0) = -((if y = u ∧ x = v then (1 : ℤ) else 0) - if y = v ∧ x = u then 1 else 0) := by
    intro x y
    simp only [and_comm (a := x = u), and_comm (a := x = v)]
    ring
  have hP := P3 (n := n) (g := fun x y => (if x = u ∧ y = v then 1 else 0) - if x = v ∧ y = u then 1 else 0) hg (fun x y hxy => by
    rw [if_neg, if_neg]
    · rfl
    · rintro ⟨rfl, rfl⟩
      obtain ⟨j, hj, h1, h2⟩ := hxy
      exact huv ⟨j, hj, h1.symm, by rw [← h1]; exact h2⟩
    · rintro ⟨rfl, rfl⟩
      exact huv hxy)
  have ht := total (d := 3) (flip3 hg) (resolved_edges hr)
  simp only [hP, mul_zero, Finset.sum_const_zero] at ht
  rw [count_around] at ht
  unfold passes
  rw [h2]
  have k : ∀ L : List (List ℤ), (L.map (List.map some)).flatMap around = (L.flatMap around).map fun p => (some p.1, some p.2) := by
    intro L
    induction L with
    | nil => rfl
    | cons f L ih =>
      rw [List.map_cons, List.flatMap_cons, List.flatMap_cons, List.map_append, ih]
      congr 1
      match f with
      | [] => rfl
      | [_] => rfl
      | [_, _] => rfl
      | [_, _, _] => rfl
      | [_, _, _, _] => rfl
      | _ :: _ :: _ :: _ :: _ :: _ => rfl
  have kc : ∀ (l : List (ℤ × ℤ)) (p q : ℤ), (l.map fun p => (some p.1, some p.2)).count (some p, some q) = l.count (p, q) := by
    intro l p q
    exact List.count_map_of_injective l (fun p : ℤ × ℤ => (some p.1, some p.2)) (by rintro ⟨a, b⟩ ⟨c, e⟩ h; simpa using h) (p, q)
  rw [k, kc, kc]
  omega

/-- No tolerance: every contour is resolved. -/
theorem resolved_zero (d n : ℕ) [IsStrictOrderedRing R] (sample : ℕ → R) (value : R) : Resolved d n sample value 0 := by
  intro i s _ hx
  rw [abs_pos, sub_ne_zero]
  intro e
  rw [e] at hx
  exact iff_not_self hx

/-- A vertex is moved by at most half a step times the number of votes for its direction. -/
theorem move_bound [IsStrictOrderedRing R] {n : ℕ} (value curr dirGrad small dir : R) : |dir * moveBy n value curr dirGrad small| ≤ |dir| * ((1 / 2) / n) := by
  rw [abs_mul]
  refine mul_le_mul_of_nonneg_left ?_ (abs_nonneg _)
  unfold moveBy
  have h0 : (0 : R) ≤ (1 / 2) / n := by positivity
  rw [abs_le]
  constructor
  · rw [← neg_div]; exact le_max_left _ _
  · refine max_le ?_ (min_le_left _ _)
    rw [neg_div]; linarith

theorem moveBy_signs [IsStrictOrderedRing R] {n : ℕ} {value curr g small : R} (hg : 0 < g) (hs : 0 ≤ small) (h : curr ≤ value) :
    0 ≤ moveBy n value curr g small ∧ g * moveBy n value curr g small ≤ value - curr ∧ moveBy n curr value g small = -moveBy n value curr g small := by
  have hh : (0 : R) ≤ 1 / 2 / n := by positivity
  have hgs : 0 < g + small := by linarith
  have hx : 0 ≤ (value - curr) / (g + small) := div_nonneg (by linarith) hgs.le
  have hm : moveBy n value curr g small = min (1 / 2 / (n : R)) ((value - curr) / (g + small)) := by
    unfold moveBy
    exact max_eq_right (le_trans (show -(1 / 2) / (n : R) ≤ 0 by rw [neg_div]; linarith) (le_min hh hx))
  have hm' : moveBy n curr value g small = -min (1 / 2 / (n : R)) ((value - curr) / (g + small)) := by
    unfold moveBy
    have e : (curr - value) / (g + small) = -((value - curr) / (g + small)) := by rw [← neg_div]; congr 1; ring
    rw [e, min_eq_right (a := (1 : R) / 2 / n) (by linarith), neg_div, max_neg_neg]
  refine ⟨by rw [hm]; exact le_min hh hx, ?_, by rw [hm', hm]⟩
  rw [hm]
  calc g * min (1 / 2 / (n : R)) ((value - curr) / (g + small)) ≤ (g + small) * ((value - curr) / (g + small)) :=
        mul_le_mul (by linarith) (min_le_right _ _) (le_min hh hx) hgs.le
    _ = value - curr := mul_div_cancel₀ _ hgs.ne'

/-- Where a function is linear along the direction of a vertex, each step of the projection brings it closer to the value, from the same side; without the small term and within the limit one step is enough. -/
theorem move_linear [IsStrictOrderedRing R] {n : ℕ} {value curr g small : R} (hg : 0 < g) (hs : 0 ≤ small) :
    (curr ≤ value → curr ≤ curr + g * moveBy n value curr g small ∧ curr + g * moveBy n value curr g small ≤ value) ∧
    (value ≤ curr → value ≤ curr + g * moveBy n value curr g small ∧ curr + g * moveBy n value curr g small ≤ curr) ∧
    (curr ≠ value → n ≠ 0 → curr + g * moveBy n value curr g small ≠ curr) ∧
    (small = 0 → |value - curr| ≤ g * (1 / 2 / n) → curr + g * moveBy n value curr g small = value) := by
  refine ⟨fun h => ?_, fun h => ?_, fun h hn => ?_, fun h0 h => ?_⟩
  · obtain ⟨h1, h2, -⟩ := moveBy_signs (n := n) hg hs h
    have := mul_nonneg hg.le h1
    constructor <;> linarith
  · obtain ⟨h1, h2, h3⟩ := moveBy_signs (n := n) hg hs h
    have := mul_nonneg hg.le h1
    rw [h3, mul_neg]
    constructor <;> linarith
  · intro e
    have e' : moveBy n value curr g small = 0 := by
      have : g * moveBy n value curr g small = 0 := by linarith
      exact (mul_eq_zero.1 this).resolve_left hg.ne'
    have hh : (0 : R) < 1 / 2 / n := by
      have : (0 : R) < n := Nat.cast_pos.2 (Nat.pos_of_ne_zero hn)
      positivity
    have hgs : 0 < g + small := by linarith
    unfold moveBy at e'
    rcases lt_or_gt_of_ne h with h | h
    · have : 0 < (value - curr) / (g + small) := div_pos (by linarith) hgs
      have h3 : 0 < min (1 / 2 / (n : R)) ((value - curr) / (g + small)) := lt_min hh this
      exact absurd (le_of_le_of_eq (le_max_right _ _) e') (not_le.2 h3)
    · have : (value - curr) / (g + small) < 0 := div_neg_of_neg_of_pos (by linarith) hgs
      have h3 : min (1 / 2 / (n : R)) ((value - curr) / (g + small)) < 0 := lt_of_le_of_lt (min_le_right _ _) this
      have h4 : -(1 / 2) / (n : R) < 0 := by rw [neg_div]; linarith
      exact absurd e' (max_lt h4 h3).ne
  · subst h0
    rw [abs_le] at h
    have hx : g * ((value - curr) / (g + 0)) = value - curr := by rw [add_zero]; exact mul_div_cancel₀ _ hg.ne'
    unfold moveBy
    rw [min_eq_right (le_of_mul_le_mul_left (by rw [hx]; exact h.2) hg), max_eq_right, hx]
    · ring
    · refine le_of_mul_le_mul_left ?_ hg
      rw [hx, neg_div, mul_neg]
      exact h.1

end Hexed.Contour
