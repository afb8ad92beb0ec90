import Verif.Cell.Spec
import Mathlib.Tactic.IntervalCases
import Mathlib.Tactic.Ring
import Mathlib.Tactic.NormNum
import Mathlib.Tactic.Linarith
import Mathlib.Tactic.FieldSimp
set_option autoImplicit false
set_option linter.unusedVariables false

/-!
# New elements (C103)
-/

namespace Hexed.Cell
noncomputable section

theorem iRow_side (nDim v d : Nat) (hd : d < nDim) : iRow nDim v d = if side nDim v d then 1 else 0 := by
  have e : nDim - d - 1 = nDim - 1 - d := by omega
  rw [iRow, stride, e, side, Nat.testBit_eq_decide_div_mod_eq]
  rcases Nat.mod_two_eq_zero_or_one (v / 2 ^ (nDim - 1 - d)) with h | h <;> simp [h]

instance (nDim v w : Nat) : Decidable (Joined nDim v w) := by unfold Joined; infer_instance

/-- The vertices are the corners of the cell: in each dimension the lower end of the cell, or the upper end on the upper side. Other coordinates are zero. -/
theorem corners (a : Args) (hp : a.pos.length = a.nDim) (v d : Nat) :
    a.vertexPos v d = if d < a.nDim then lower a.pos (a.meshSize / 2 ^ a.refLevel) a.origin d + (if side a.nDim v d then a.meshSize / 2 ^ a.refLevel else 0) else 0 := by
  by_cases hd : d < a.nDim
  · have h2 : d < min a.pos.length a.nDim := by omega
    simp only [Args.vertexPos, Args.firstPos, if_pos hd, if_pos h2, lower, Args.nomSz, iRow_side _ _ _ hd]
    rw [List.getD_eq_getElem?_getD]
    have : (a.pos[d]?.getD 0 : ℝ) = ((a.pos[d]?.getD 0 : ℤ) : ℝ) := rfl
    split <;> push_cast <;> ring
  · have h2 : ¬ d < min a.pos.length a.nDim := by omega
    simp [Args.vertexPos, Args.firstPos, hd, h2]

/-- The constructor makes the right number of vertices, addresses only vertices that exist, and joins exactly the vertices that an edge of the cube joins, each pair once. -/
theorem edges (nDim : Nat) (h : 1 ≤ nDim ∧ nDim ≤ 3) : ∃ es, construct nDim = some (2 ^ nDim, es) ∧ es.Nodup ∧ (∀ v w, (v, w) ∈ es → (w, v) ∉ es) ∧
    ∀ v w, (v, w) ∈ es ∨ (w, v) ∈ es ↔ v < 2 ^ nDim ∧ w < 2 ^ nDim ∧ Joined nDim v w := by
  have key : ∃ es, construct nDim = some (2 ^ nDim, es) ∧ es.Nodup ∧ (∀ p ∈ es, p.1 < 2 ^ nDim ∧ p.2 < 2 ^ nDim ∧ (p.2, p.1) ∉ es) ∧ ∀ v < 2 ^ nDim, ∀ w < 2 ^ nDim, (v, w) ∈ es ∨ (w, v) ∈ es ↔ Joined nDim v w := by
    obtain ⟨h1, h3⟩ := h
    interval_cases nDim
    · exact ⟨[(1, 0)], by decide +kernel, by decide +kernel, by decide +kernel, by decide +kernel⟩
    · exact ⟨[(1, 0), (2, 0), (3, 1), (3, 2)], by decide +kernel, by decide +kernel, by decide +kernel, by decide +kernel⟩
    · exact ⟨[(1, 0), (2, 0), (3, 1), (3, 2), (4, 0), (5, 1), (5, 4), (6, 2), (6, 4), (7, 3), (7, 5), (7, 6)], by decide +kernel, by decide +kernel, by decide +kernel, by decide +kernel⟩
  obtain ⟨es, k1, k2, k3, k4⟩ := key
  refine ⟨es, k1, k2, fun v w h => (k3 _ h).2.2, fun v w => ⟨fun h => ?_, fun h => (k4 v h.1 w h.2.1).2 h.2.2⟩⟩
  have b : v < 2 ^ nDim ∧ w < 2 ^ nDim := by
    rcases h with h | h
    · exact ⟨(k3 _ h).1, (k3 _ h).2.1⟩
    · exact ⟨(k3 _ h).2.1, (k3 _ h).1⟩
  exact ⟨b.1, b.2, (k4 v b.1 w b.2).1 h⟩

/-- Cells of the same size that are next to each other in dimension `d` share the corners of the face between them. -/
theorem neighbors_share (a b : Args) (hn : b.nDim = a.nDim) (hs : b.meshSize = a.meshSize ∧ b.refLevel = a.refLevel ∧ b.origin = a.origin) (ha : a.pos.length = a.nDim) (hb : b.pos.length = b.nDim)
    {d : Nat} (hd : d < a.nDim) (hpos : ∀ i < a.nDim, b.pos.getD i 0 = a.pos.getD i 0 + if i = d then 1 else 0)
    {v w : Nat} (hv : ∀ i < a.nDim, side a.nDim v i = if i = d then true else side a.nDim w i) (hw : side a.nDim w d = false) : a.vertexPos v = b.vertexPos w := by
  funext i
  rw [corners a ha, corners b hb, hn, hs.1, hs.2.1, hs.2.2]
  by_cases hi : i < a.nDim
  · rw [if_pos hi, if_pos hi, lower, lower, hpos i hi, hv i hi]
    by_cases h : i = d
    · subst h; rw [hw]; push_cast; simp; ring
    · simp [h]
  · rw [if_neg hi, if_neg hi]

/-- The corners of a cell of the next refinement level, on the side `c` of the cell, are the midpoints between corner `c` and the corners of the cell: the cells fill the cell and share corner `c` with it. -/
theorem refined_share (a b : Args) (hn : b.nDim = a.nDim) (hs : b.meshSize = a.meshSize ∧ b.refLevel = a.refLevel + 1 ∧ b.origin = a.origin) (ha : a.pos.length = a.nDim) (hb : b.pos.length = b.nDim)
    {c : Nat} (hpos : ∀ i < a.nDim, b.pos.getD i 0 = 2 * a.pos.getD i 0 + if side a.nDim c i then 1 else 0) (v i : Nat) : b.vertexPos v i = (a.vertexPos c i + a.vertexPos v i) / 2 := by
  rw [corners a ha, corners b hb, corners a ha, hn, hs.1, hs.2.1, hs.2.2]
  by_cases hi : i < a.nDim
  · simp only [if_pos hi, lower, hpos i hi, pow_succ]
    split <;> split <;> push_cast <;> field_simp <;> ring
  · simp [if_neg hi]

theorem foldl_add (g : Nat → ℝ) (l : List Nat) (c : ℝ) : l.foldl (fun c v => c + g v) c = c + (l.map g).sum := by
  induction l generalizing c with
  | nil => simp
  | cons x l ih => rw [List.foldl_cons, ih, List.map_cons, List.sum_cons]; ring

/-- The center that criteria get is the center of the cell. -/
theorem center_exact (a : Args) (h : 1 ≤ a.nDim ∧ a.nDim ≤ 3) (hp : a.pos.length = a.nDim) (tree : Bool) (u : ℝ) (d : Nat) :
    (a.elem tree u).center d = if d < a.nDim then lower a.pos (a.meshSize / 2 ^ a.refLevel) a.origin d + a.meshSize / 2 ^ a.refLevel / 2 else 0 := by
  show (List.range (2 ^ a.nDim)).foldl (fun c v => c + a.vertexPos v d) 0 / ((2 ^ a.nDim : ℕ) : ℝ) = _
  simp only [corners a hp]
  generalize a.nDim = n at h ⊢
  obtain ⟨h1, h3⟩ := h
  by_cases hd : d < n
  · simp only [if_pos hd]
    generalize lower a.pos _ a.origin d = l
    generalize a.meshSize / 2 ^ a.refLevel = s
    interval_cases n <;> interval_cases d <;> simp [List.range_succ, side, Nat.testBit] <;> ring
  · simp [if_neg hd, foldl_add]

/-- Wherever the vertices are, the center is in every box that contains them. -/
theorem center_between (e : Elem) (d : Nat) {lo hi : ℝ} (h : ∀ v < 2 ^ e.nDim, lo ≤ e.vertex v d ∧ e.vertex v d ≤ hi) : lo ≤ e.center d ∧ e.center d ≤ hi := by
  have key : ∀ n, (∀ v < n, lo ≤ e.vertex v d ∧ e.vertex v d ≤ hi) → n * lo ≤ ((List.range n).map fun v => e.vertex v d).sum ∧ ((List.range n).map fun v => e.vertex v d).sum ≤ n * hi := by
    intro n
    induction n with
    | zero => simp
    | succ n ih =>
      intro h
      have i := ih fun v hv => h v (by omega)
      have j := h n (by omega)
      rw [List.range_succ, List.map_append, List.sum_append]
      push_cast
      simp only [List.map_cons, List.map_nil, List.sum_cons, List.sum_nil, add_zero]
      constructor <;> nlinarith
  have k := key _ h
  have pos : (0 : ℝ) < ((2 ^ e.nDim : ℕ) : ℝ) := by positivity
  rw [Elem.center, foldl_add, zero_add, le_div_iff₀ pos, div_le_iff₀ pos]
  constructor <;> linarith [k.1, k.2]

/-- A criterion is the given function of what it says, `logical_not` is true exactly if the criterion is false, and elements in a tree are never extruded. -/
theorem criteria_exact (f : Bool → Nat → ℝ → (Nat → ℝ) → ℝ → Bool) (e : Elem) :
    (logicalNot (criterion f) e = true ↔ ¬ f (ifExtruded e) e.refLevel e.nomSz e.center e.uncertainty = true) ∧ (ifExtruded e = true ↔ e.hasTree = false) := by
  simp [logicalNot, criterion, ifExtruded]

/-! ## A concrete cell -/

/-- A square of size 1/2 in a mesh of size 2. -/
def exCell : Args := ⟨2, [3, -1], 2, 2, fun d => if d = 0 then 1 else 0⟩

example : exCell.vertexPos 1 0 = 5 / 2 ∧ exCell.vertexPos 1 1 = 0 ∧ exCell.vertexPos 2 0 = 3 ∧ exCell.vertexPos 2 1 = -1 / 2 := by
  simp only [corners exCell rfl]
  norm_num [exCell, lower, side, Nat.testBit, show (1 >>> 1 : Nat) = 0 from rfl, show (2 >>> 1 : Nat) = 1 from rfl]

/-- The neighbor to the right and a refined cell. -/
example : exCell.vertexPos 2 = (⟨2, [4, -1], 2, 2, exCell.origin⟩ : Args).vertexPos 0 ∧ (⟨2, [7, -2], 2, 3, exCell.origin⟩ : Args).vertexPos 1 0 = (exCell.vertexPos 2 0 + exCell.vertexPos 1 0) / 2 :=
  ⟨neighbors_share exCell ⟨2, [4, -1], 2, 2, exCell.origin⟩ rfl ⟨rfl, rfl, rfl⟩ rfl rfl (d := 0) (v := 2) (w := 0) (by decide) (by decide) (by decide) (by decide), refined_share exCell ⟨2, [7, -2], 2, 3, exCell.origin⟩ rfl ⟨rfl, rfl, rfl⟩ rfl rfl (c := 2) (by decide) 1 0⟩

example : (exCell.elem true 0).center 0 = 11 / 4 ∧ (exCell.elem true 0).center 2 = 0 := by
  rw [center_exact _ (by decide) rfl, center_exact _ (by decide) rfl]
  norm_num [exCell, lower]

end
end Hexed.Cell
