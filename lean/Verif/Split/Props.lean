import Verif.Split.Integral
import Verif.Metric.Example
import Verif.Layers.Props
set_option autoImplicit false
set_option linter.unusedVariables false

/-!
# Properties: splitting of wall layers (C75)
-/

namespace Hexed.Split
open Hexed.Spatial Hexed.Metric
noncomputable section

variable {b : Basis.Nodes ℝ} {bs : BasisData} {deg nvar : Nat} {m : Mesh} {faces : List Face}

/-- `extrude` with `offset` moves every exposed vertex once, towards the vertex opposite to it, and no other vertex. -/
theorem exposed_vertices_move_once (hb : b.Distinct) (hn : 0 < b.n) (nvar : Nat) {o : ℝ} (h0 : 0 < o) (h1 : o ≠ 1) (hl : Layer m faces) :
    (∀ f ∈ faces, ∀ k < 2 ^ (m.nd - 1), ∀ c < m.nd, (extrude b nvar m faces o).pos (m.vid f.elem (pt m.nd 2 f.i_dim k f.sign.toNat)) c =
      (1 - o) * m.pos (m.vid f.elem (pt m.nd 2 f.i_dim k f.sign.toNat)) c + o * m.pos (m.vid f.elem (pt m.nd 2 f.i_dim k (!f.sign).toNat)) c) ∧
    ∀ v < m.nv, ¬ Exposed m faces v → (extrude b nvar m faces o).pos v = m.pos v :=
  ⟨(extruded hb hn nvar h0 h1 hl).moved, (extruded hb hn nvar h0 h1 hl).still⟩

/-- `extrude` with `offset` cuts every element with an exposed face in two at relative distance `offset` from that face: geometry and state of the two parts are those of the
element. The exposed faces are then those of the new elements, which can be cut again. -/
theorem extrude_cuts (hb : b.Distinct) (hn : 0 < b.n) (nvar : Nat) {o : ℝ} (h0 : 0 < o) (h1 : o ≠ 1) (hl : Layer m faces) :
    (∀ j f, faces[j]? = some f → IsPart b nvar m (extrude b nvar m faces o) f.i_dim f.sign f.elem f.elem o 1 ∧ IsPart b nvar m (extrude b nvar m faces o) f.i_dim f.sign f.elem (m.ne + j) 0 o) ∧
    (extrude b nvar m faces o).ne = m.ne + faces.length ∧ Layer (extrude b nvar m faces o) (newFaces m faces) :=
  ⟨fun j f hj => ⟨(extruded hb hn nvar h0 h1 hl).old f (List.mem_of_getElem? hj), (extruded hb hn nvar h0 h1 hl).new j f hj⟩, (extruded hb hn nvar h0 h1 hl).ne, (extruded hb hn nvar h0 h1 hl).layer⟩

/-- `split_layers` cuts every element with an exposed face into layers between the successive split points, and leaves elements that do not touch the surface as they are. -/
theorem split_layers_cuts (hb : b.Distinct) (hn : 0 < b.n) (nvar : Nat) {points : List ℝ} (hp : Usable 1 points) (hl : Layer m faces) :
    (∀ j f, faces[j]? = some f → ∀ s ≤ points.length,
      IsPart b nvar m (splitLayers b nvar points 1 (m, faces)).1 f.i_dim f.sign f.elem (colElem m faces j f s) (bounds 1 points (s + 1)) (bounds 1 points s)) ∧
    ∀ e < m.ne, (∀ f ∈ faces, f.elem ≠ e) → (∀ v < 2 ^ m.nd, ¬ Exposed m faces (m.vid e v)) → ∀ i sg, IsPart b nvar m (splitLayers b nvar points 1 (m, faces)).1 i sg e e 0 1 := by
  refine ⟨fun j f hj s hs => ?_, fun e he hne hex => (splitLayers_other hb hn nvar points 1 m faces one_pos hp hl e he hne hex).1⟩
  have := (splitLayers_column hb hn nvar points 1 m faces one_pos hp hl j f hj s hs).1
  rwa [div_one, div_one] at this

/-- The lines of an element are its geometry: if the faces are warped in one direction only, the positions of the quadrature points are on the lines in that direction. So `position` in
each layer gives points of the original element. -/
theorem split_position (hb : b.Distinct) (hn : 0 < b.n) (hnd : 1 ≤ m.nd ∧ m.nd ≤ 3) (nvar : Nat) {points : List ℝ} (hp : Usable 1 points) (hl : Layer m faces) {j : Nat} {f : Face} (hj : faces[j]? = some f)
    (hu : Unwarped b m.nd f.i_dim (m.adj f.elem)) {s : Nat} (hs : s ≤ points.length) {q r : Nat} (hq : q < b.n ^ m.nd) (hr : r < m.nd) :
    (m.shape f.elem).position b m.nd q r = m.line b f.elem f.i_dim (rowOf m.nd b.n f.i_dim q) r (b.node (nodeOf m.nd b.n f.i_dim q)) ∧
    ((splitLayers b nvar points 1 (m, faces)).1.shape (colElem m faces j f s)).position b m.nd q r = m.line b f.elem f.i_dim (rowOf m.nd b.n f.i_dim q) r
      (atDist f.sign (bounds 1 points (s + 1) + (bounds 1 points s - bounds 1 points (s + 1)) * atDist f.sign (b.node (nodeOf m.nd b.n f.i_dim q)))) := by
  have hi := hl.dim f (List.mem_of_getElem? hj)
  exact ⟨position_line hn hnd hi hu hq _, part_position ((split_layers_cuts hb hn nvar hp hl).1 j f hj s hs) (splitLayers_nd hb hn nvar points 1 m faces one_pos hp hl) hn hnd hi
    ((splitLayers_column hb hn nvar points 1 m faces one_pos hp hl j f hj s hs).2 hu) hq hr⟩

/-- The Jacobian determinant of a layer is that of the original element at the same place, times the thickness of the layer. -/
theorem split_determinant (hof : bs.IsOf b) (hb : b.Distinct) (hn : 2 ≤ b.n) (hnd : 1 ≤ m.nd ∧ m.nd ≤ 3) (nvar : Nat) {points : List ℝ} (hp : Usable 1 points) (hl : Layer m faces) {j : Nat} {f : Face} (hj : faces[j]? = some f)
    (hu : Unwarped b m.nd f.i_dim (m.adj f.elem)) {s : Nat} (hs : s ≤ points.length) {k y : Nat} (hk : k < b.n ^ (m.nd - 1)) (hy : y < b.n) :
    jacDet m.nd ((m.shape f.elem).jac b bs m.nd (pt m.nd b.n f.i_dim k y)) = jacDet m.nd (fun r c => colJac m b bs f.elem f.i_dim k r c (b.node y)) ∧
    jacDet m.nd (((splitLayers b nvar points 1 (m, faces)).1.shape (colElem m faces j f s)).jac b bs m.nd (pt m.nd b.n f.i_dim k y)) =
      (bounds 1 points s - bounds 1 points (s + 1)) * jacDet m.nd fun r c => colJac m b bs f.elem f.i_dim k r c
        (atDist f.sign (bounds 1 points (s + 1) + (bounds 1 points s - bounds 1 points (s + 1)) * atDist f.sign (b.node y))) := by
  have hi := hl.dim f (List.mem_of_getElem? hj)
  constructor
  · have := part_det hof hb hn (IsPart.refl b nvar (m := m) (m' := m) (e := f.elem) f.i_dim f.sign rfl rfl rfl (fun _ _ => rfl) rfl rfl) rfl hnd hi hu hk hy
    rw [this, show (1 : ℝ) - 0 = 1 by ring, one_mul, zero_add, one_mul, atDist_atDist]
  · exact part_det hof hb hn ((split_layers_cuts hb (by omega) nvar hp hl).1 j f hj s hs) (splitLayers_nd hb (by omega) nvar points 1 m faces one_pos hp hl) hnd hi
      ((splitLayers_column hb (by omega) nvar points 1 m faces one_pos hp hl j f hj s hs).2 hu) hk hy

/-- Strictly decreasing points between 0 and 1. -/
theorem bounds_decreasing : ∀ (points : List ℝ) (prev : ℝ), 0 < prev → (prev :: points).Pairwise (· > ·) → (∀ p ∈ points, 0 < p) → Usable prev points ∧
    ∀ s ≤ points.length, bounds prev points (s + 1) < bounds prev points s ∧ 0 ≤ bounds prev points (s + 1) ∧ bounds prev points s ≤ prev := by
  intro points
  induction points with
  | nil =>
    intro prev h0 _ _
    refine ⟨trivial, fun s hs => ?_⟩
    obtain rfl : s = 0 := by simpa using hs
    simpa [bounds] using h0
  | cons p ps ih =>
    intro prev h0 hc hpos
    have hp0 : 0 < p := hpos p (by simp)
    have hlt : p < prev := (List.pairwise_cons.1 hc).1 p (by simp)
    obtain ⟨i1, i2⟩ := ih p hp0 (List.pairwise_cons.1 hc).2 fun q hq => hpos q (by simp [hq])
    refine ⟨⟨hp0, hlt.ne, i1⟩, fun s hs => ?_⟩
    rcases s with _ | s
    · exact ⟨hlt, hp0.le, le_rfl⟩
    · obtain ⟨a, c, d⟩ := i2 s (by simpa using hs)
      exact ⟨a, c, d.trans hlt.le⟩

/-- With strictly decreasing split points between 0 and 1, elements that are valid everywhere give valid layers. -/
theorem split_layers_valid (hof : bs.IsOf b) (hb : b.Distinct) (hn : 2 ≤ b.n) (hunit : ∀ y < b.n, 0 ≤ b.node y ∧ b.node y ≤ 1) (hnd : 1 ≤ m.nd ∧ m.nd ≤ 3) (nvar : Nat) {points : List ℝ}
    (hdec : ((1 : ℝ) :: points).Pairwise (· > ·)) (hpos : ∀ p ∈ points, 0 < p) (hl : Layer m faces) {j : Nat} {f : Face} (hj : faces[j]? = some f) (hu : Unwarped b m.nd f.i_dim (m.adj f.elem))
    (hval : ∀ k < b.n ^ (m.nd - 1), ∀ ξ, 0 ≤ ξ → ξ ≤ 1 → 0 < jacDet m.nd fun r c => colJac m b bs f.elem f.i_dim k r c ξ) {s : Nat} (hs : s ≤ points.length) {q : Nat} (hq : q < b.n ^ m.nd) :
    0 < jacDet m.nd (((splitLayers b nvar points 1 (m, faces)).1.shape (colElem m faces j f s)).jac b bs m.nd q) := by
  obtain ⟨hus, hbd⟩ := bounds_decreasing points 1 one_pos hdec hpos
  have hi := hl.dim f (List.mem_of_getElem? hj)
  obtain ⟨k, hk, y, hy, rfl⟩ := pt_surj (show 0 < b.n by omega) hi hq
  rw [(split_determinant hof hb hn hnd nvar hus hl hj hu hs hk hy).2]
  obtain ⟨a1, a2, a3⟩ := hbd s hs
  have h01 : ∀ t : ℝ, 0 ≤ t → t ≤ 1 → 0 ≤ atDist f.sign t ∧ atDist f.sign t ≤ 1 := by
    intro t h h'
    rw [atDist]; split <;> constructor <;> linarith
  have hd := h01 _ (hunit y hy).1 (hunit y hy).2
  have hx := h01 (bounds 1 points (s + 1) + (bounds 1 points s - bounds 1 points (s + 1)) * atDist f.sign (b.node y)) (by nlinarith) (by nlinarith)
  exact mul_pos (by linarith) (hval k hk _ hx.1 hx.2)

/-- `split_layers` conserves the integral of every variable over each column, for every list of usable split points. -/
theorem split_layers_conserves (hof : bs.IsOf b) (hb : b.Exact deg) (hn : 2 ≤ b.n) (hnd : 1 ≤ m.nd ∧ m.nd ≤ 3) (hdeg : b.n + m.nd ≤ deg + 2) {points : List ℝ} (hp : Usable 1 points) (hl : Layer m faces)
    {j : Nat} {f : Face} (hj : faces[j]? = some f) (hu : Unwarped b m.nd f.i_dim (m.adj f.elem)) {v : Nat} (hv : v < nvar) :
    ∑ s ∈ Finset.range (points.length + 1), (splitLayers b nvar points 1 (m, faces)).1.integral b bs v (colElem m faces j f s) = m.integral b bs v f.elem := by
  have hi := hl.dim f (List.mem_of_getElem? hj)
  have hd := hb.distinct
  obtain ⟨Φ, hΦ⟩ := part_integral hof hb hn hnd hdeg nvar hi f.sign f.elem hv
  rw [hΦ m f.elem 0 1 (IsPart.refl b nvar f.i_dim f.sign rfl rfl rfl (fun _ _ => rfl) rfl rfl) rfl hu]
  calc _ = ∑ s ∈ Finset.range (points.length + 1), (Φ (bounds 1 points s) - Φ (bounds 1 points (s + 1))) := by
        refine Finset.sum_congr rfl fun s hs => ?_
        have hs : s ≤ points.length := Nat.lt_succ_iff.1 (Finset.mem_range.1 hs)
        exact hΦ _ _ _ _ ((split_layers_cuts hd (by omega) nvar hp hl).1 j f hj s hs) (splitLayers_nd hd (by omega) nvar points 1 m faces one_pos hp hl)
          ((splitLayers_column hd (by omega) nvar points 1 m faces one_pos hp hl j f hj s hs).2 hu)
    _ = Φ (bounds 1 points 0) - Φ (bounds 1 points (points.length + 1)) := Finset.sum_range_sub' (fun s => Φ (bounds 1 points s)) _
    _ = Φ 1 - Φ 0 := by
        congr 2
        simp [bounds, List.getD]

/-- The documentation of `split_layers` (doc/parameters.dox:790-797) says that the split points should be strictly increasing and gives the example 1/4, 1/2, 3/4. With these points
two of the four layers of every valid element are inverted: their Jacobian determinant is negative. -/
theorem split_points_increasing_refuted (hof : bs.IsOf b) (hb : b.Distinct) (hn : 2 ≤ b.n) (hunit : ∀ y < b.n, 0 ≤ b.node y ∧ b.node y ≤ 1) (hnd : 1 ≤ m.nd ∧ m.nd ≤ 3) (nvar : Nat)
    (hl : Layer m faces) {j : Nat} {f : Face} (hj : faces[j]? = some f) (hu : Unwarped b m.nd f.i_dim (m.adj f.elem))
    (hval : ∀ k < b.n ^ (m.nd - 1), ∀ ξ, 0 ≤ ξ → ξ ≤ 1 → 0 < jacDet m.nd fun r c => colJac m b bs f.elem f.i_dim k r c ξ) {s : Nat} (hs : s = 1 ∨ s = 2) {q : Nat} (hq : q < b.n ^ m.nd) :
    jacDet m.nd (((splitLayers b nvar [1 / 4, 1 / 2, 3 / 4] 1 (m, faces)).1.shape (colElem m faces j f s)).jac b bs m.nd q) < 0 := by
  have hus : Usable 1 [1 / 4, 1 / 2, 3 / 4] := by norm_num [Usable]
  have hi := hl.dim f (List.mem_of_getElem? hj)
  obtain ⟨k, hk, y, hy, rfl⟩ := pt_surj (show 0 < b.n by omega) hi hq
  rw [(split_determinant hof hb hn hnd nvar hus hl hj hu (show s ≤ 3 by omega) hk hy).2]
  have h01 : ∀ t : ℝ, 0 ≤ t → t ≤ 1 → 0 ≤ atDist f.sign t ∧ atDist f.sign t ≤ 1 := by
    intro t h h'
    rw [atDist]; split <;> constructor <;> linarith
  have hd := h01 _ (hunit y hy).1 (hunit y hy).2
  rcases hs with rfl | rfl
  · have hx := h01 (1 / 2 + (1 / 4 - 1 / 2) * atDist f.sign (b.node y)) (by nlinarith) (by nlinarith)
    have := hval k hk _ hx.1 hx.2
    simp only [bounds, List.getD_cons_succ, List.getD_cons_zero]
    nlinarith
  · have hx := h01 (3 / 4 + (1 / 2 - 3 / 4) * atDist f.sign (b.node y)) (by nlinarith) (by nlinarith)
    have := hval k hk _ hx.1 hx.2
    simp only [bounds, List.getD_cons_succ, List.getD_cons_zero]
    nlinarith

/-- The heights at which successive offsets cut. -/
def heights : ℝ → List ℝ → List ℝ
  | _, [] => []
  | H, o :: l => H * o :: heights (H * o) l

/-- Successive extrusions, as those of `extrude(Layer_sequence)`, cut each element into layers whose thicknesses are those that C27 computes from the offsets. -/
theorem extrude_layers_cuts (hb : b.Distinct) (hn : 0 < b.n) (nvar : Nat) {offsets : List ℝ} (ho : ∀ o ∈ offsets, 0 < o ∧ o ≠ 1) (hl : Layer m faces) :
    (∀ j f, faces[j]? = some f → ∀ s ≤ offsets.length,
      IsPart b nvar m (extrudeAll b nvar offsets (m, faces)).1 f.i_dim f.sign f.elem (colElem m faces j f s) (bounds 1 (heights 1 offsets) (s + 1)) (bounds 1 (heights 1 offsets) s)) ∧
    (List.range (offsets.length + 1)).map (fun s => bounds 1 (heights 1 offsets) s - bounds 1 (heights 1 offsets) (s + 1)) = Layers.split 1 offsets := by
  have len : ∀ (l : List ℝ) (H : ℝ), (heights H l).length = l.length := by
    intro l; induction l with
    | nil => intro H; rfl
    | cons o l ih => intro H; simp [heights, ih]
  have eq : ∀ (l : List ℝ) (H : ℝ) (s : Mesh × List Face), 0 < H → (∀ o ∈ l, 0 < o ∧ o ≠ 1) → extrudeAll b nvar l s = splitLayers b nvar (heights H l) H s ∧ Usable H (heights H l) := by
    intro l
    induction l with
    | nil => intro H s _ _; exact ⟨rfl, trivial⟩
    | cons o l ih =>
      intro H s hH ho
      have h := ho o (by simp)
      have I := ih (H * o) (extrude b nvar s.1 s.2 o, newFaces s.1 s.2) (mul_pos hH h.1) fun o' ho' => ho o' (by simp [ho'])
      refine ⟨?_, mul_pos hH h.1, fun e => h.2 ?_, I.2⟩
      · rw [extrudeAll, heights, splitLayers, I.1, mul_div_cancel_left₀ _ hH.ne']
      · have : H * (o - 1) = 0 := by linarith
        rcases mul_eq_zero.1 this with h' | h'
        · exact absurd h' hH.ne'
        · linarith
  have thick : ∀ (l : List ℝ) (H : ℝ), (List.range (l.length + 1)).map (fun s => bounds H (heights H l) s - bounds H (heights H l) (s + 1)) = Layers.split H l := by
    intro l
    induction l with
    | nil => intro H; simp [bounds, heights, Layers.split]
    | cons o l ih =>
      intro H
      rw [List.length_cons, List.range_succ_eq_map, List.map_cons, List.map_map]
      have : (fun s => bounds H (heights H (o :: l)) s - bounds H (heights H (o :: l)) (s + 1)) ∘ Nat.succ = fun s => bounds (H * o) (heights (H * o) l) s - bounds (H * o) (heights (H * o) l) (s + 1) := by
        funext s; rfl
      rw [this, ih (H * o)]
      simp only [Layers.split, bounds, heights, List.getD_cons_zero, List.getD_cons_succ]
      congr 1 <;> ring_nf
  have E := eq offsets 1 (m, faces) one_pos ho
  refine ⟨fun j f hj s hs => ?_, thick offsets 1⟩
  rw [E.1]
  exact (split_layers_cuts hb hn nvar E.2 hl).1 j f hj s (by rw [len]; exact hs)

/-! ## Example: two squares side by side, both with the upper face exposed -/

/-- Squares [0, 1]² and [1, 2]×[0, 1] that share two vertices. The upper face of the first one is curved. -/
def exMesh (N : Nat) : Mesh where
  nd := 2
  ne := 2
  nv := 6
  vid := fun e v => if e = 0 then v else v + 2
  pos := fun v c => if c = 0 then ((v / 2 : Nat) : ℝ) else ((v % 2 : Nat) : ℝ)
  adj := fun e a => if e = 0 ∧ a = 3 * N then 1 / 10 else 0
  state := fun e vq => 1 + (vq.2 : ℝ)
  size := fun _ => 1
  moved := fun _ => false

def exFaces : List Face := [⟨0, 1, true⟩, ⟨1, 1, true⟩]

theorem exLayer (N : Nat) : Layer (exMesh N) exFaces := by
  refine ⟨?_, ?_, ?_, ?_, ?_, ?_, fun _ => rfl, ?_⟩
  · intro f hf
    fin_cases hf <;> simp [exMesh]
  · intro f hf
    fin_cases hf <;> simp [exMesh]
  · simp [exFaces]
  · intro e he v hv
    simp only [exMesh] at *
    split <;> omega
  · intro f hf g hg k hk l hl
    have hk : k < 2 := hk
    have hl : l < 2 := hl
    fin_cases hf <;> fin_cases hg <;> interval_cases k <;> interval_cases l <;> simp [exMesh, pt]
  · intro f hf g hg k hk l hl
    have hk : k < 2 := hk
    have hl : l < 2 := hl
    fin_cases hf <;> fin_cases hg <;> interval_cases k <;> interval_cases l <;> simp [exMesh, pt]
  · intro e he a
    have he : 2 ≤ e := he
    simp only [exMesh]
    rw [if_neg (by omega)]

theorem exUnwarped {j : Nat} {f : Face} (hj : exFaces[j]? = some f) : Unwarped gauss2 2 f.i_dim ((exMesh 2).adj f.elem) := by
  have hf : f ∈ exFaces := List.mem_of_getElem? hj
  intro i hi hij σ hσ k hk
  have hk : k < 2 := hk
  fin_cases hf
  · have : i = 0 := by simp only at hij; omega
    subst this
    simp only [exMesh]
    rw [if_neg]
    simp only [gauss2]
    omega
  · simp [exMesh]

/-- The second square is valid everywhere. -/
theorem exValid (hof : bs.IsOf gauss2) : ∀ k < gauss2.n ^ ((exMesh 2).nd - 1), ∀ ξ : ℝ, 0 ≤ ξ → ξ ≤ 1 → 0 < jacDet (exMesh 2).nd fun r c => colJac (exMesh 2) gauss2 bs 1 1 k r c ξ := by
  intro k hk ξ _ _
  have hd : gauss2.Distinct := Metric.gauss2_good.exact.distinct
  have hk : k < 2 := hk
  have her : (Finset.range 2).erase 1 = {0} := by decide
  have line1 : ∀ k r ξ, (exMesh 2).line gauss2 1 1 k r ξ = if r = 0 then 1 + gauss2.node (k % 2) else ξ := by
    intro k r ξ
    rw [Mesh.line, line_eq (show 1 < (exMesh 2).nd by simp [exMesh])]
    have hg : gauss2.n = 2 := rfl
    by_cases hr : r = 0
    · simp [exMesh, endPt, Finset.sum_range_succ, her, without, pt, hr, hg]; ring
    · simp [exMesh, endPt, Finset.sum_range_succ, her, without, pt, hr, hg]
  have d1 := Basis.derivative_exact hd (Polynomial.X) (by rw [Polynomial.degree_X]; norm_num [gauss2]) (i := k) hk
  have d0 := Basis.derivative_exact hd (Polynomial.C ξ) (lt_of_le_of_lt Polynomial.degree_C_le (by norm_num [gauss2])) (i := k) hk
  simp only [Polynomial.eval_X, Polynomial.derivative_X, Polynomial.eval_one, Polynomial.eval_C, Polynomial.derivative_C, Polynomial.eval_zero] at d1 d0
  have c11 : ∀ r, colJac (exMesh 2) gauss2 bs 1 1 k r 1 ξ = if r = 0 then 0 else 1 := by
    intro r
    rw [colJac, if_pos rfl, line1, line1]
    simp only [exMesh]
    split <;> ring
  have hrow : ∀ x < 2, rowOf 2 2 1 (pt 2 2 0 (rowOf 2 2 0 (pt 2 2 1 k 0)) x) % 2 = x ∧ nodeOf 2 2 0 (pt 2 2 1 k 0) = k := by
    intro x hx
    interval_cases k <;> interval_cases x <;> decide
  have c10 : ∀ r, colJac (exMesh 2) gauss2 bs 1 1 k r 0 ξ = if r = 0 then 1 else 0 := by
    intro r
    rw [colJac, if_neg (by norm_num), show (exMesh 2).size 1 = 1 from rfl, div_one]
    have : ∀ x ∈ Finset.range gauss2.n, bs.diff (nodeOf 2 2 0 (pt 2 2 1 k 0)) x * (exMesh 2).line gauss2 1 1 (rowOf 2 2 1 (pt 2 2 0 (rowOf 2 2 0 (pt 2 2 1 k 0)) x)) r ξ =
        Basis.derivative gauss2 k x * (if r = 0 then 1 + gauss2.node x else ξ) := by
      intro x hx
      have hx : x < 2 := Finset.mem_range.1 hx
      rw [line1, (hrow x hx).1, (hrow x hx).2, hof.mats.diff_eq (show k < gauss2.n from hk) (show x < gauss2.n from hx)]
    have d0' := Basis.derivative_exact hd (Polynomial.C 1) (lt_of_le_of_lt Polynomial.degree_C_le (by norm_num [gauss2])) (i := k) hk
    simp only [Polynomial.eval_C, Polynomial.derivative_C, Polynomial.eval_zero] at d0'
    refine (Finset.sum_congr rfl this).trans ?_
    split
    · simp only [mul_add]
      rw [Finset.sum_add_distrib, d1, d0', zero_add]
    · exact d0
  show 0 < Matrix.det (Matrix.of fun r c : Fin 2 => colJac (exMesh 2) gauss2 bs 1 1 k r.val c.val ξ)
  rw [Matrix.det_fin_two]
  simp [c10, c11]

/-- Splitting at 1/2 and 1/4 gives valid layers, the order of the documentation gives inverted ones. -/
example (hof : bs.IsOf gauss2) : 0 < jacDet 2 (((splitLayers gauss2 4 [1 / 2, 1 / 4] 1 (exMesh 2, exFaces)).1.shape (colElem (exMesh 2) exFaces 1 ⟨1, 1, true⟩ 1)).jac gauss2 bs 2 3) ∧
    jacDet 2 (((splitLayers gauss2 4 [1 / 4, 1 / 2, 3 / 4] 1 (exMesh 2, exFaces)).1.shape (colElem (exMesh 2) exFaces 1 ⟨1, 1, true⟩ 1)).jac gauss2 bs 2 3) < 0 :=
  ⟨split_layers_valid hof Metric.gauss2_good.exact.distinct le_rfl Metric.gauss2_good.unit (by simp [exMesh]) 4 (by norm_num) (by norm_num) (exLayer 2) (j := 1) rfl (exUnwarped (j := 1) rfl) (exValid hof) (by simp) (by norm_num [exMesh, gauss2]),
    split_points_increasing_refuted hof Metric.gauss2_good.exact.distinct le_rfl Metric.gauss2_good.unit (by simp [exMesh]) 4 (exLayer 2) (j := 1) rfl (exUnwarped (j := 1) rfl) (exValid hof) (Or.inl rfl) (by norm_num [exMesh, gauss2])⟩

/-- The shared vertices are moved once, to height 2/3, and the quarter-height layers of a column hold the total of the original element. -/
example (hof : bs.IsOf gauss2) (j : Nat) (f : Face) (hj : exFaces[j]? = some f) :
    ∑ s ∈ Finset.range 3, (splitLayers gauss2 4 [1 / 2, 1 / 4] 1 (exMesh 2, exFaces)).1.integral gauss2 bs 0 (colElem (exMesh 2) exFaces j f s) = (exMesh 2).integral gauss2 bs 0 f.elem :=
  split_layers_conserves (nvar := 4) hof Metric.gauss2_good.exact le_rfl (by simp [exMesh]) (by simp [exMesh, gauss2]) (by norm_num [Usable]) (exLayer 2) hj (exUnwarped hj) (by norm_num)

example : (extrude gauss2 4 (exMesh 2) exFaces (1 / 3)).pos 3 1 = 2 / 3 := by
  have h := (exposed_vertices_move_once Metric.gauss2_good.exact.distinct (by norm_num [gauss2]) 4 (o := 1 / 3) (by norm_num) (by norm_num) (exLayer 2)).1 ⟨0, 1, true⟩ (by simp [exFaces]) 1 (by simp [exMesh]) 1 (by simp [exMesh])
  simp [exMesh, pt] at h
  rw [show (extrude gauss2 4 (exMesh 2) exFaces (1 / 3)).pos 3 1 = _ from by simpa [exMesh] using h]
  norm_num

end
end Hexed.Split
