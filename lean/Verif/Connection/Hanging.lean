import Verif.Connection.Props
import Verif.Tensor.Props
import Mathlib.Data.Rat.Defs
import Mathlib.Algebra.Field.Rat
import Mathlib.Tactic.FieldSimp

set_option autoImplicit false
set_option linter.unusedVariables false

/-!
# `Hanging_vertex_matcher::match` (src/Hanging_vertex_matcher.cpp) (C43)

`double` is a field `K`. The fine elements are distinct objects; `val e v` is what the access function refers to for vertex `v` of
fine element number `e`.
-/

namespace Hexed.Connection
open Hexed.Tensor

/-! ## Model -/

section Model
variable {K : Type} [Field K]

/-- `inds[i_vert]`, Hanging_vertex_matcher.cpp:19-20. -/
def faceInd (nd id : Nat) (isp : Bool) (i : Nat) : Nat :=
  let stride := 2 ^ (nd - 1 - id)
  i / stride * stride * 2 + i % stride + isp.toNat * stride

/-- `interp_ind`, Hanging_vertex_matcher.cpp:35-36. -/
def interpInd (nd : Nat) (str : Bool × Bool) (e i : Nat) : Nat :=
  let inner := (e * (!strAt str (nd - 2)).toNat) % 2 + (i % 2) * (1 + (strAt str (nd - 2)).toNat)
  if nd = 3 then inner + ((e * (!strAt str 0).toNat) / (1 + (!strAt str 1).toNat) + i / 2 * (1 + (strAt str 0).toNat)) * 3 else inner

/-- `interp_mat`, Hanging_vertex_matcher.cpp:24-28. -/
def interpMat : Tensor.Mat K :=
  ⟨3, 2, fun i j => if i = 0 then (if j = 0 then 1 else 0) else if i = 1 then 1 / 2 else (if j = 0 then 0 else 1)⟩

/-- `access_func(*elements[e], v) = x`. -/
def write (val : Nat → Nat → K) (e v : Nat) (x : K) : Nat → Nat → K := fun e' v' => if e' = e ∧ v' = v then x else val e' v'

/-- `match`, Hanging_vertex_matcher.cpp:13-41. `nf` is the number of fine elements; `none` = access outside an array or infinite
recursion. -/
def hangingMatch (nd id : Nat) (isp : Bool) (str : Bool × Bool) (nf fuel : Nat) (u : Nat → K) (val : Nat → Nat → K) : Option (Nat → Nat → K) :=
  let n_vert := 2 ^ nd / 2
  if ∀ i ∈ List.range n_vert, stretchedInd nd i str < nf then
    (hypercube interpMat u fuel ⟨n_vert, fun i => val (stretchedInd nd i str) (faceInd nd id isp i)⟩).bind fun interpolated =>
      (List.range nf).foldlM (fun val e => (List.range n_vert).foldlM (fun val i =>
        if interpInd nd str e i < interpolated.size then some (write val e (faceInd nd id isp i) (interpolated.val (interpInd nd str e i)))
        else none) val) val
  else none

end Model

/-! ## Specification -/

/-- The vertices on the face. -/
def faceVerts (nd : Nat) (id : Fin 3) (isp : Bool) : List Nat := (List.range (2 ^ nd)).filter fun v => coord nd v id = isp.toNat

/-- Twice the position of vertex `v` of fine element `e` along axis `k`, where the coarse face extends from -1 to 1. -/
def finePos (nd : Nat) (id : Fin 3) (str : Bool × Bool) (e v : Nat) (k : Fin 3) : ℤ :=
  if partCenter nd id str e k = 0 then 2 * corner nd v k else partCenter nd id str e k + corner nd v k

/-- `el c` is the fine element at the corner `c` of the face. -/
def AtCorners (nd : Nat) (id : Fin 3) (isp : Bool) (str : Bool × Bool) (el : Nat → Nat) : Prop :=
  ∀ c ∈ faceVerts nd id isp, el c < nFine nd str ∧
    ∀ k ∈ faceAxes nd id, partCenter nd id str (el c) k = corner nd c k ∨ partCenter nd id str (el c) k = 0

/-! ## Lemmas -/

def mi (i j : Nat) : ℤ := if i = 0 then (if j = 0 then 2 else 0) else if i = 1 then 1 else (if j = 0 then 0 else 2)

theorem interpMat_val {K : Type} [Field K] (h2 : (2 : K) ≠ 0) (i j : Nat) : (interpMat : Tensor.Mat K).val i j = (mi i j : K) / 2 := by
  unfold interpMat mi
  dsimp only
  split
  · split <;> simp [h2]
  · split
    · simp
    · split <;> simp [h2]

/-- Code's coefficient of corner `j` in entry `t`, times `2^(nd-1)`. -/
def ci (nd t j : Nat) : ℤ := if nd = 2 then mi t j else mi (t / 3) (j / 2) * mi (t % 3) (j % 2)

theorem interp2 {K : Type} [Field K] (mv : Nat → Nat → K) (u : Nat → K) (fuel : Nat) (hf : 1 ≤ fuel) (w : Nat → K) :
    ∃ r, hypercube ⟨3, 2, mv⟩ u fuel ⟨2, w⟩ = some r ∧ r.size = 3 ∧
      ∀ t, t < 3 → r.val t = ∑ j ∈ Finset.range 2, mv t j * w j := by
  obtain ⟨r, h1, h3, h4⟩ := hypercube_kron ⟨3, 2, mv⟩ u (le_refl _) (by simp) 1 (le_refl _) ⟨2, w⟩ rfl fuel (by omega)
  refine ⟨r, h1, h3, ?_⟩
  intro t ht
  have h5 : r.val (Tensor.idx (fun _ : Fin 1 => (⟨t, ht⟩ : Fin 3))) = ∑ c : Fin 1 → Fin 2, (∏ k : Fin 1, mv t (c k)) * w (Tensor.idx c) :=
    h4 (fun _ : Fin 1 => (⟨t, ht⟩ : Fin 3))
  have e : Tensor.idx (fun _ : Fin 1 => (⟨t, ht⟩ : Fin 3)) = t := by simp [Tensor.idx, RowIndex.tensorIdx]
  rw [e] at h5
  rw [h5, ← (Equiv.funUnique (Fin 1) (Fin 2)).symm.sum_comp, Fin.sum_univ_two, Finset.sum_range_succ, Finset.sum_range_succ]
  simp [Tensor.idx, RowIndex.tensorIdx]

theorem interp3 {K : Type} [Field K] (mv : Nat → Nat → K) (u : Nat → K) (fuel : Nat) (hf : 2 ≤ fuel) (w : Nat → K) :
    ∃ r, hypercube ⟨3, 2, mv⟩ u fuel ⟨4, w⟩ = some r ∧ r.size = 9 ∧
      ∀ t, t < 9 → r.val t = ∑ j ∈ Finset.range 4, mv (t / 3) (j / 2) * mv (t % 3) (j % 2) * w j := by
  obtain ⟨r, h1, h3, h4⟩ := hypercube_kron ⟨3, 2, mv⟩ u (le_refl _) (by simp) 2 (by omega) ⟨4, w⟩ rfl fuel (by omega)
  refine ⟨r, h1, h3, ?_⟩
  intro t ht
  have ht1 : t / 3 < 3 := by omega
  have ht2 : t % 3 < 3 := by omega
  have h5 : r.val (Tensor.idx ![(⟨t / 3, ht1⟩ : Fin 3), ⟨t % 3, ht2⟩]) =
      ∑ c : Fin 2 → Fin 2, (∏ k : Fin 2, mv (![(⟨t / 3, ht1⟩ : Fin 3), ⟨t % 3, ht2⟩] k) (c k)) * w (Tensor.idx c) :=
    h4 ![(⟨t / 3, ht1⟩ : Fin 3), ⟨t % 3, ht2⟩]
  have e : Tensor.idx ![(⟨t / 3, ht1⟩ : Fin 3), ⟨t % 3, ht2⟩] = t := by simp [Tensor.idx, RowIndex.tensorIdx]; omega
  rw [e] at h5
  rw [h5, ← (finTwoArrowEquiv (Fin 2)).symm.sum_comp, Fintype.sum_prod_type]
  simp [Finset.sum_range_succ, Fin.sum_univ_two, Fin.prod_univ_two, finTwoArrowEquiv, Tensor.idx, RowIndex.tensorIdx]
  ring

theorem interp_eq {K : Type} [Field K] (h2 : (2 : K) ≠ 0) {nd : Nat} (hnd : nd = 2 ∨ nd = 3) (u : Nat → K) (fuel : Nat) (hf : nd ≤ fuel + 1) (w : Nat → K) :
    ∃ r, hypercube interpMat u fuel ⟨2 ^ nd / 2, w⟩ = some r ∧ r.size = 3 ^ (nd - 1) ∧
      ∀ t, t < 3 ^ (nd - 1) → r.val t = ∑ j ∈ Finset.range (2 ^ nd / 2), (ci nd t j : K) / 2 ^ (nd - 1) * w j := by
  rcases hnd with rfl | rfl
  · obtain ⟨r, h1, h3, h4⟩ := interp2 interpMat.val u fuel (by omega) w
    refine ⟨r, h1, h3, fun t ht => ?_⟩
    rw [h4 t ht]
    refine Finset.sum_congr rfl fun j _ => ?_
    simp [interpMat_val h2, ci]
  · obtain ⟨r, h1, h3, h4⟩ := interp3 interpMat.val u fuel (by omega) w
    refine ⟨r, h1, h3, fun t ht => ?_⟩
    rw [h4 t ht]
    refine Finset.sum_congr rfl fun j _ => ?_
    have h4 : (4 : K) = 2 * 2 := by norm_num
    simp [interpMat_val h2, ci]
    left
    field_simp

theorem prod_div4 {K : Type} [Field K] (g : Fin 3 → ℤ) : ∀ l : List (Fin 3),
    (l.map fun k => ((g k : ℤ) : K) / 4).prod = (((l.map g).prod : ℤ) : K) / 4 ^ l.length
  | [] => by simp
  | k :: l => by simp only [List.map_cons, List.prod_cons, List.length_cons, prod_div4 g l, Int.cast_mul, pow_succ]; rw [div_mul_div_comm, mul_comm (4 : K)]

theorem range_sum {K : Type} [Field K] (n : Nat) (f : Nat → K) : ∑ i ∈ Finset.range n, f i = ((List.range n).map f).sum := rfl

theorem write_fold {K : Type} [Field K] (size : Nat) (x : Nat → K) (e : Nat) (ind : Nat → Nat) (ti : Nat → Nat) : ∀ (l : List Nat) (val : Nat → Nat → K),
    (∀ i ∈ l, ti i < size) → (∀ i ∈ l, ∀ j ∈ l, ind i = ind j → i = j) →
    ∃ val', l.foldlM (fun val i => if ti i < size then some (write val e (ind i) (x (ti i))) else none) val = some val' ∧
      (∀ i ∈ l, val' e (ind i) = x (ti i)) ∧ ∀ e' v, (e' ≠ e ∨ ∀ i ∈ l, v ≠ ind i) → val' e' v = val e' v
  | [], val, _, _ => ⟨val, rfl, by simp, by simp⟩
  | i :: l, val, h1, h2 => by
    obtain ⟨val', g1, g2, g3⟩ := write_fold size x e ind ti l (write val e (ind i) (x (ti i))) (fun j hj => h1 j (by simp [hj]))
      (fun a ha b hb => h2 a (by simp [ha]) b (by simp [hb]))
    refine ⟨val', ?_, ?_, ?_⟩
    · simp only [List.foldlM_cons, h1 i (by simp), if_true]; exact g1
    · intro j hj
      rcases List.mem_cons.1 hj with rfl | hj
      · by_cases hjl : j ∈ l
        · exact g2 j hjl
        · rw [g3 e (ind j) (Or.inr fun a ha hja => hjl (by have := h2 j (by simp) a (by simp [ha]) hja; exact this ▸ ha))]
          simp [write]
      · exact g2 j hj
    · intro e' v hv
      rw [g3 e' v]
      · simp only [write]; rw [if_neg]; rintro ⟨rfl, rfl⟩
        rcases hv with hv | hv
        · exact hv rfl
        · exact hv i (by simp) rfl
      · rcases hv with hv | hv
        · exact Or.inl hv
        · exact Or.inr fun a ha => hv a (by simp [ha])

theorem write_fold2 {K : Type} [Field K] (size : Nat) (x : Nat → K) (ind : Nat → Nat) (ti : Nat → Nat → Nat) (l : List Nat) : ∀ (nf : Nat) (val : Nat → Nat → K),
    (∀ e < nf, ∀ i ∈ l, ti e i < size) → (∀ i ∈ l, ∀ j ∈ l, ind i = ind j → i = j) →
    ∃ val', (List.range nf).foldlM (fun val e => l.foldlM (fun val i => if ti e i < size then some (write val e (ind i) (x (ti e i))) else none) val) val = some val' ∧
      (∀ e < nf, ∀ i ∈ l, val' e (ind i) = x (ti e i)) ∧ ∀ e v, (nf ≤ e ∨ ∀ i ∈ l, v ≠ ind i) → val' e v = val e v
  | 0, val, _, _ => ⟨val, rfl, by simp, by simp⟩
  | nf + 1, val, h1, h2 => by
    obtain ⟨v1, g1, g2, g3⟩ := write_fold2 size x ind ti l nf val (fun e he => h1 e (by omega)) h2
    obtain ⟨v2, f1, f2, f3⟩ := write_fold size x nf ind (ti nf) l v1 (h1 nf (by omega)) h2
    refine ⟨v2, ?_, ?_, ?_⟩
    · rw [List.range_succ, List.foldlM_append, g1]
      simpa using f1
    · intro e he i hi
      by_cases h : e = nf
      · subst h; exact f2 i hi
      · rw [f3 e _ (Or.inl h)]; exact g2 e (by omega) i hi
    · intro e v hv
      rw [f3 e v, g3 e v]
      · rcases hv with hv | hv
        · exact Or.inl (by omega)
        · exact Or.inr hv
      · rcases hv with hv | hv
        · exact Or.inl (by omega)
        · exact Or.inr hv

/-! ## Properties -/

set_option synthInstance.maxHeartbeats 400000 in
set_option synthInstance.maxSize 1000 in
theorem hanging_table : ∀ nd ∈ [2, 3], ∀ id : Fin 3, id.val < nd → ∀ isp a b : Bool,
    (∀ i ∈ List.range (2 ^ nd / 2), stretchedInd nd i (a, b) < nFine nd (a, b)) ∧
    (∀ i ∈ List.range (2 ^ nd / 2), ∀ j ∈ List.range (2 ^ nd / 2), faceInd nd id isp i = faceInd nd id isp j → i = j) ∧
    faceVerts nd id isp = (List.range (2 ^ nd / 2)).map (faceInd nd id isp) ∧
    (∀ e ∈ List.range (nFine nd (a, b)), ∀ i ∈ List.range (2 ^ nd / 2), interpInd nd (a, b) e i < 3 ^ (nd - 1)) ∧
    (∀ i ∈ List.range (2 ^ nd / 2), ∀ e ∈ List.range (nFine nd (a, b)),
      (∀ k ∈ faceAxes nd id, partCenter nd id (a, b) e k = corner nd (faceInd nd id isp i) k ∨ partCenter nd id (a, b) e k = 0) → e = stretchedInd nd i (a, b)) ∧
    (∀ e ∈ List.range (nFine nd (a, b)), ∀ i ∈ List.range (2 ^ nd / 2), ∀ j ∈ List.range (2 ^ nd / 2),
      ci nd (interpInd nd (a, b) e i) j * 2 ^ (nd - 1) =
        ((faceAxes nd id).map fun k => 2 + corner nd (faceInd nd id isp j) k * finePos nd id (a, b) e (faceInd nd id isp i) k).prod) ∧
    (faceAxes nd id).length = nd - 1 := by
  decide +kernel

/-- After `match`, the value at every vertex of every fine element on the face is the multilinear interpolation, at that vertex's
position, of the values at the corners of the coarse face (taken from the fine element at each corner), and nothing else has changed. In 2 and
3 dimensions, for every face and every combination of stretching. -/
theorem hanging_match_exact {K : Type} [Field K] (h2 : (2 : K) ≠ 0) {nd : Nat} (hnd : nd = 2 ∨ nd = 3) (id : Fin 3) (hid : id.val < nd) (isp : Bool)
    (str : Bool × Bool) (fuel : Nat) (hf : nd ≤ fuel) (u : Nat → K) (val : Nat → Nat → K) (el : Nat → Nat) (hel : AtCorners nd id isp str el) :
    ∃ val', hangingMatch nd id isp str (nFine nd str) fuel u val = some val' ∧
      (∀ e v, e < nFine nd str → v ∈ faceVerts nd id isp → val' e v =
        ((faceVerts nd id isp).map fun c => ((faceAxes nd id).map fun k => ((2 + corner nd c k * finePos nd id str e v k : ℤ) : K) / 4).prod * val (el c) c).sum) ∧
      ∀ e v, nFine nd str ≤ e ∨ v ∉ faceVerts nd id isp → val' e v = val e v := by
  obtain ⟨a, b⟩ := str
  obtain ⟨t1, t2, t3, t4, t5, t6, t7⟩ := hanging_table nd (by simpa using hnd) id hid isp a b
  obtain ⟨r, r1, r2, r3⟩ := interp_eq h2 hnd u fuel (by omega) (fun i => val (stretchedInd nd i (a, b)) (faceInd nd id isp i))
  obtain ⟨val', w1, w2, w3⟩ := write_fold2 r.size r.val (faceInd nd id isp) (interpInd nd (a, b)) (List.range (2 ^ nd / 2)) (nFine nd (a, b)) val
    (fun e he i hi => by rw [r2]; exact t4 e (by simpa using he) i hi) t2
  refine ⟨val', ?_, ?_, ?_⟩
  · unfold hangingMatch
    dsimp only
    rw [if_pos t1, r1]
    exact w1
  · intro e v he hv
    rw [t3] at hv
    obtain ⟨i, hi, rfl⟩ := List.mem_map.1 hv
    rw [w2 e he i hi, r3 _ (t4 e (by simpa using he) i hi), t3, List.map_map, ← range_sum]
    refine Finset.sum_congr rfl fun j hj => ?_
    have hj' : j ∈ List.range (2 ^ nd / 2) := by simpa using hj
    have hlen : (faceAxes nd id).length = nd - 1 := t7
    have h4 : (4 : K) = 2 * 2 := by norm_num
    have hc := hel (faceInd nd id isp j) (by rw [t3]; exact List.mem_map.2 ⟨j, hj', rfl⟩)
    simp only [Function.comp]
    rw [prod_div4, hlen, ← t6 e (by simpa using he) i hi j hj', t5 j hj' _ (by simpa using hc.1) hc.2]
    have : (2 : K) ^ (nd - 1) ≠ 0 := pow_ne_zero _ h2
    push_cast
    rw [h4, mul_pow]
    field_simp
  · intro e v hv
    refine w3 e v (hv.imp (fun h => h) fun h i hi hvi => h ?_)
    rw [t3, hvi]; exact List.mem_map.2 ⟨i, hi, rfl⟩

set_option synthInstance.maxHeartbeats 400000 in
set_option synthInstance.maxSize 1000 in
/-- There always is a fine element at each corner, so the hypothesis of `hanging_match_exact` can be met for every face and stretching. -/
theorem at_corners_exists {nd : Nat} (hnd : nd = 2 ∨ nd = 3) (id : Fin 3) (hid : id.val < nd) (isp : Bool) (str : Bool × Bool) :
    ∃ el, AtCorners nd id isp str el := by
  obtain ⟨a, b⟩ := str
  have key : ∀ nd ∈ [2, 3], ∀ id : Fin 3, id.val < nd → ∀ isp a b : Bool, ∀ c ∈ faceVerts nd id isp, ∃ e ∈ List.range (nFine nd (a, b)),
      ∀ k ∈ faceAxes nd id, partCenter nd id (a, b) e k = corner nd c k ∨ partCenter nd id (a, b) e k = 0 := by decide +kernel
  have h := key nd (by simpa using hnd) id hid isp a b
  classical
  refine ⟨fun c => if hc : c ∈ faceVerts nd id isp then (h c hc).choose else 0, fun c hc => ?_⟩
  simp only [hc, dif_pos]
  exact ⟨by simpa using (h c hc).choose_spec.1, (h c hc).choose_spec.2⟩

/-- A concrete case: on a face of normal 1 split along one tangential direction only, with the values 0, 1, ..., the mid-edge
vertices get averages of the corner values. -/
example : ((hangingMatch 3 1 false (false, true) 2 3 (fun _ => (0 : ℚ)) (fun e v => (10 * e + v : ℚ))).map fun val =>
    (List.range 2).map fun e => [val e 0, val e 1, val e 4, val e 5]) = some [[0, 1, 7, 8], [7, 8, 14, 15]] := by
  decide +kernel

end Hexed.Connection
