import Verif.SnapMesh.Props
import Verif.FaceSnap.Example
set_option autoImplicit false
set_option linter.unusedVariables false

/-!
# Limits of snapping all faces (C87)

In three dimensions the surface can have gaps: rows along the second tangential direction are processed last and undo what was done at the ends of rows along the first. And in the second sweep, connections
with hanging vertices do not take the average or the value of one side.
-/

namespace Hexed.SnapMesh
open Hexed.Spatial Hexed.Pde
open Hexed.FaceSnap (Elem Geometry Out snapNodeAdj interpMat straight facePoint)
open Hexed.RowIndex (RowIndex rows)
open Hexed.Tensor (idx)
open Hexed.Basis (ell)
open Polynomial (C)
noncomputable section

variable {bs : BasisData} {b : Basis.Nodes ℝ} {lob : Nat → Basis.Nodes ℝ} {s : Setup} {d d' : Data} {mu kappa : Transport} {u : Nat → ℝ}

theorem ell_sum (hb : b.Distinct) (hn : 0 < b.n) (x : ℝ) : ∑ i ∈ Finset.range b.n, (ell b i).eval x = 1 := by
  have h := Basis.interpolate_exact hb (1 : Polynomial ℝ) (by rw [Polynomial.degree_one]; exact_mod_cast hn) x
  rw [Polynomial.eval_one] at h
  rw [← h]
  refine Finset.sum_congr rfl fun i _ => ?_
  rw [Basis.interpolateCpp_eq, Polynomial.eval_one, mul_one]

theorem newRow_const {l : Basis.Nodes ℝ} (hl : l.Distinct) (hln : l.n = 2) (row : Nat → ℝ) {ends : Nat → ℝ} {x : ℝ} (h : ∀ σ < 2, ends σ = x) (i : Nat) : newRow b l row ends i = x := by
  have e : ∑ k ∈ Finset.range l.n, (interpMat l b).val i k * x = x := by
    rw [← Finset.sum_mul]
    have h1 : ∑ k ∈ Finset.range l.n, (interpMat l b).val i k = 1 := by
      rw [← ell_sum hl (by omega) (b.node i)]
      exact Finset.sum_congr rfl fun k _ => Basis.interpolateCpp_eq l _ k
    rw [h1, one_mul]
  rw [newRow]
  refine Eq.trans (Finset.sum_congr rfl fun k hk => ?_) e
  congr 1
  have hk' := Finset.mem_range.1 hk
  rw [hln] at hk' ⊢
  rcases (by omega : k = 0 ∨ k = 1) with rfl | rfl
  · beta_reduce
    rw [if_neg (by norm_num), if_pos rfl, h 0 (by norm_num)]
  · beta_reduce
    rw [if_pos rfl, h 1 (by norm_num)]

/-- The second of the two directions along a face. -/
def lastDim (dim : Nat) : Nat := if dim = 2 then 1 else 2

theorem filter3 {dim : Nat} (h : dim < 3) : ∃ j < 3, (List.range 3).filter (fun j => j ≠ dim) = [j, lastDim dim] := by
  rcases (by omega : dim = 0 ∨ dim = 1 ∨ dim = 2) with rfl | rfl | rfl
  · exact ⟨1, by norm_num, rfl⟩
  · exact ⟨0, by norm_num, rfl⟩
  · exact ⟨0, by norm_num, rfl⟩

/-- Element `c.elem` has no neighbours in the second direction along its surface `c`: there are boundary conditions. -/
def Ends (s : Setup) (c : Bound) : Prop :=
  ∀ σ < 2, ∃ c' ∈ s.bounds, c'.elem = c.elem ∧ c'.dim = lastDim c.dim ∧ c'.sign = σ ∧
    ∃ con ∈ s.mesh.cons, con.deformed = true ∧ con.side false = .elem c.elem (2 * lastDim c.dim + σ) ∧ con.side true = .ghost c'.ghost

/-- The adjustments of the face are all `v`. -/
def ConstAdj (n : Nat) (e : Elem) (c : Bound) (v : ℝ) : Prop := ∀ k < n ^ (3 - 1), e.adj ((2 * c.dim + c.sign) * n ^ (3 - 1) + k) = v

theorem sweep3 {l : Basis.Nodes ℝ} (hbs : bs.IsOf b) (hb : b.Distinct) (hn : 0 < b.n) (hl : l.Distinct) (hln : l.n = 2) (hm : s.mesh.Ok bs) (hnd : s.mesh.nd = 3) (hs : s.Ok) (hr : s.refCons = [])
    (hg : (s.bounds.map Bound.ghost).Nodup) {second : Bool} {d d' : Data} (h : sweep mu kappa b l bs s second d = some d') {c : Bound} (hc : surfaceOf s.bounds c.elem = [c]) (hd : (d.elem c.elem).deformed = true)
    (he : Ends s c) {v : ℝ} (hv : ConstAdj b.n (d.elem c.elem) c v) : ConstAdj b.n (d'.elem c.elem) c v := by
  obtain ⟨m1, m2, m3⟩ := mem_surface.1 (show c ∈ surfaceOf s.bounds c.elem by rw [hc]; simp)
  obtain ⟨d'', buf0, buf, e1, e2, e3, e4, e5, e6⟩ := sweep_spec hbs.n hn l hm mu kappa second (Or.inr hr) d
  obtain rfl : d' = d'' := Option.some.inj (h.symm.trans e1)
  have k1 := hs c m1
  simp only [hnd] at e3 e4 e5 e6 k1
  have hld : ∀ q < b.n ^ 3, s.bounds.foldl (loadOne b.n 3 d.elem) (clear b.n s.mesh d.world).state c.elem (0, q) = sgn c.sign * v := by
    intro q hq
    rw [load_fold, hc, List.foldl_cons, List.foldl_nil, (loadStep_eq hn k1.2.1 d.elem _).1 q hq hd, adjStart_eq hn (by norm_num), hv _ (rowOf_lt hn k1.2.1 hq)]
  have hlast : lastDim c.dim < 3 ∧ lastDim c.dim ≠ c.dim := by rw [lastDim]; split_ifs <;> omega
  have hx : ∀ σ < 2, ∀ k < b.n ^ (3 - 1), buf0 (.elem c.elem (2 * lastDim c.dim + σ)) k = sgn c.sign * v := by
    intro σ hσ k hk
    rw [e4 c.elem k1.1 _ hlast.1 σ hσ k hk, extrap, hbs.n]
    rw [← one_mul (sgn c.sign * v), ← ell_sum hb hn (σ : ℝ), Finset.sum_mul]
    refine Finset.sum_congr rfl fun i hi => ?_
    rw [hld _ (pt_lt hn hlast.1 hk (Finset.mem_range.1 hi)), hbs.mats.bound_eq hσ (Finset.mem_range.1 hi)]
  have hy : ∀ σ < 2, ∀ k < b.n ^ (3 - 1), buf (.elem c.elem (2 * lastDim c.dim + σ)) true k = sgn c.sign * v := by
    intro σ hσ k hk
    obtain ⟨c', i1, i2, i3, i4, con, i5, i6, i7, i8⟩ := he σ hσ
    rw [e6 con i5 i6 false _ _ i7 k hk, i7, i8, e5 hg c' i1 k hk, i2, i3, i4, hx σ hσ k hk]
    ring
  have e3' := (Prod.ext_iff.1 (e3 c.elem)).2
  rw [hc, List.foldl_cons, List.foldl_nil] at e3'
  change d'.elem c.elem = _ at e3'
  obtain ⟨j, hj, hf⟩ := filter3 k1.2.1
  intro k hk
  rw [e3', storeStep, if_pos hd]
  dsimp only
  rw [← adjStart_eq hn (by norm_num), hf, List.foldl_cons, List.foldl_cons, List.foldl_nil]
  set a1 := storeDim b l 3 (fun f => buf (.elem c.elem f) true) (s.bounds.foldl (loadOne b.n 3 d.elem) (clear b.n s.mesh d.world).state c.elem) j
  refine ((adj_fold hn k1.2.1 (adjStart b.n 3 c) (fun q => sgn c.sign * storeDim b l 3 (fun f => buf (.elem c.elem f) true) a1 (lastDim c.dim) (0, q)) (d.elem c.elem).adj).1 k hk).trans ?_
  obtain ⟨k', hk', i, hi, hp⟩ := pt_surj hn hlast.1 (pt_lt hn k1.2.1 hk hn)
  rw [hp, (storeDim_eq hn hlast.1 _ a1).1 k' hk' i hi, newRow_const hl hln _ (x := sgn c.sign * v) (fun σ hσ => hy σ hσ k' hk')]
  linear_combination v * sgn_sq c.sign

/-- With at most three points per direction in three dimensions, the displacement of an element that has no neighbours in the second direction along the surface, and that is the same at all points, is not
changed, whatever its neighbours in the first direction are. -/
theorem not_matched (hbs : bs.IsOf b) (hb : b.Distinct) (hn : 0 < b.n ∧ b.n ≤ 3) (hl : IsLobatto lob) (hm : s.mesh.Ok bs) (hnd : s.mesh.nd = 3) (hs : s.Ok) (hr : s.refCons = [])
    (hg : (s.bounds.map Bound.ghost).Nodup) {el : Nat → Elem} (hel : snapAll b lob u 3 s.bounds d.elem = .ok el) (h : snapFaces mu kappa b lob u bs s d = .ok d') {c : Bound}
    (hc : surfaceOf s.bounds c.elem = [c]) (hd : (d.elem c.elem).deformed = true) (he : Ends s c) {v : ℝ} (hv : ConstAdj b.n (el c.elem) c v) : ConstAdj b.n (d'.elem c.elem) c v := by
  obtain ⟨el', d1, h1, h2, rfl⟩ := snapFaces_ok h
  have q := (snapAll_same hn.1 lob u hm.dim.1 (Touched s) s.bounds d.elem el' (fun c hc hg => ⟨c, hc, rfl, rfl, Or.inr hg⟩) h1 c.elem).2.2.2.1
  rw [hnd] at h1 h2
  obtain rfl : el = el' := by rw [hel] at h1; cases h1; rfl
  obtain ⟨l1, l2, l3, l4⟩ := hl (max 2 (b.n - 1)) (le_max_left _ _)
  have l5 : (lob (max 2 (b.n - 1))).n = 2 := by rw [l1]; omega
  obtain ⟨d2, i1, i2⟩ := Option.bind_eq_some_iff.1 h2
  obtain ⟨d3, i3, i4⟩ := Option.bind_eq_some_iff.1 i1
  obtain rfl := Option.some.inj i3
  have j1 := sweep3 hbs hb hn.1 l2 l5 hm hnd hs hr hg i4 hc (q.trans hd) he hv
  have j2 := (sweep_same hbs.n hn.1 _ hm hs mu kappa _ _ _ i4).2 c.elem
  exact sweep3 hbs hb hn.1 l2 l5 hm hnd hs hr hg i2 hc (j2.2.2.2.2.1.trans (q.trans hd)) he j1

theorem Sep_const (hb : b.Distinct) (hn : 0 < b.n) (v : ℝ) (x : Fin (3 - 1) → ℝ) : ∑ c : Fin (3 - 1) → Fin b.n, (∏ k, (ell b (c k)).eval (x k)) * v = v :=
  FaceSnap.Sep.exact hb (f := fun _ => v) (FaceSnap.Sep.const hn (by norm_num) v) x

theorem outward_const (hb : b.Distinct) (hn : 0 < b.n) (e : Elem) (c : Bound) {v : ℝ} (hv : ConstAdj b.n e c v) (x : Fin (3 - 1) → ℝ) : outward b 3 e c.dim c.sign x = sgn c.sign * v := by
  rw [outward, sgn]
  congr 1
  have h1 := Sep_const hb hn v x
  rw [← h1]
  refine Finset.sum_congr rfl fun i _ => ?_
  rw [hv _ (Tensor.idx_lt i)]

/-- Two cubes side by side in three dimensions; their faces on side 0 of dimension 2 are on the surface, all others that are not joined have other boundary conditions. -/
def two3 : Setup where
  mesh := {
    nd := 3
    elems := [0, 1]
    elem _ := ⟨1, fun _ => 1, none⟩
    cons :=
      let bound (e f g : Nat) (d : Fin 3) : ConRec := ⟨true, ⟨d, d, decide (f % 2 = 1), decide (f % 2 = 0)⟩, fun s => if s then .ghost g else .elem e f, fun _ => 0⟩
      [⟨true, ⟨0, 0, true, false⟩, fun s => if s then .elem 1 0 else .elem 0 1, fun _ => 0⟩,
       bound 0 0 0 0, bound 0 2 1 1, bound 0 3 2 1, bound 0 4 3 2, bound 0 5 4 2, bound 1 1 5 0, bound 1 2 6 1, bound 1 3 7 1, bound 1 4 8 2, bound 1 5 9 2]
    refs := [] }
  bounds := [⟨0, 0, 0, 0, false, none⟩, ⟨0, 1, 0, 1, false, none⟩, ⟨0, 1, 1, 2, false, none⟩, ⟨0, 2, 0, 3, true, some FaceSnap.exGeom⟩, ⟨0, 2, 1, 4, false, none⟩,
    ⟨1, 0, 1, 5, false, none⟩, ⟨1, 1, 0, 6, false, none⟩, ⟨1, 1, 1, 7, false, none⟩, ⟨1, 2, 0, 8, true, some FaceSnap.exGeom⟩, ⟨1, 2, 1, 9, false, none⟩]
  refCons := []

/-- The cube with lower corner `(e, 0, 0)`, with adjustments `v` on the face on the surface. It has been snapped before. -/
def box3 (n : Nat) (e : Nat) (v : ℝ) : Elem :=
  ⟨fun k i => if i = 0 then e + (k / 4 : Nat) else if i = 1 then (k / 2 % 2 : Nat) else (k % 2 : Nat), fun k => if 4 * n ^ 2 ≤ k ∧ k < 5 * n ^ 2 then v else 0, 1, false, false, true⟩

theorem two3_ok (bs : BasisData) : two3.mesh.Ok bs := by
  refine ⟨by decide, ?_, ?_, by decide, by decide, ?_, ?_, ?_, ?_, ?_⟩
  · intro e _; norm_num [two3]
  · intro e _ q _; simp [two3, ElemRec.det]
  · intro k r hr; simp [two3] at hr
  · intro c hc
    simp only [two3, List.mem_cons, List.not_mem_nil, or_false] at hc
    rcases hc with rfl | rfl | rfl | rfl | rfl | rfl | rfl | rfl | rfl | rfl | rfl <;> exact ⟨by decide, by simp⟩
  · intro c hc
    simp only [two3, List.mem_cons, List.not_mem_nil, or_false] at hc
    rcases hc with rfl | rfl | rfl | rfl | rfl | rfl | rfl | rfl | rfl | rfl | rfl <;> rfl
  · intro c hc s hs
    simp only [two3, List.mem_cons, List.not_mem_nil, or_false] at hc
    rcases hc with rfl | rfl | rfl | rfl | rfl | rfl | rfl | rfl | rfl | rfl | rfl <;> cases s <;> first | exact ⟨_, rfl⟩ | exact absurd hs (by simp [Buf.isGhost])
  · intro c hc hs
    simp only [two3, List.mem_cons, List.not_mem_nil, or_false] at hc
    rcases hc with rfl | rfl | rfl | rfl | rfl | rfl | rfl | rfl | rfl | rfl | rfl <;> first | (cases hs; done) | simp [Mesh.bufSize, Mesh.faceOf, two3]

theorem snapAll_none {nd : Nat} {el : Nat → Elem} (he : ∀ e, (el e).needs = false) : ∀ l : List Bound, snapAll b lob u nd l el = .ok el
  | [] => rfl
  | c :: l => by
    have h1 : snapOne b lob u nd el c = .ok el := by
      rw [snapOne]
      cases c.geom with
      | none => rfl
      | some g =>
        dsimp only
        rw [FaceSnap.not_needed _ _ _ _ _ _ _ _ (Or.inr (he _))]
        refine congrArg Out.ok (funext fun j => ?_)
        rw [put]
        split_ifs with h
        · rw [h]
        · rfl
    rw [snapAll, h1]
    exact snapAll_none he l

/-- Nothing goes out of range if there are no refined connections. -/
theorem snap_defined (hr : s.refCons = []) {el : Nat → Elem} (h : snapAll b lob u s.mesh.nd s.bounds d.elem = .ok el) : ∃ d', snapFaces mu kappa b lob u bs s d = .ok d' := by
  have h1 : ∀ second (l : Basis.Nodes ℝ) d, ∃ d', sweep mu kappa b l bs s second d = some d' := by
    intro second l d
    rw [sweep, hr]
    cases second <;> exact ⟨_, rfl⟩
  have h2 : ∀ k d, ∃ d', sweeps mu kappa b (lob (max 2 (b.n - 1))) bs s k d = some d' := by
    intro k
    induction k with
    | zero => exact fun d => ⟨d, rfl⟩
    | succ k ih =>
      intro d
      obtain ⟨d1, h3⟩ := ih d
      obtain ⟨d2, h4⟩ := h1 (decide (k ≠ 0)) (lob (max 2 (b.n - 1))) d1
      exact ⟨d2, by rw [sweeps, h3]; exact h4⟩
  obtain ⟨d1, h3⟩ := h2 (s.mesh.nd - 1) ⟨backup b.n s.mesh d.world, el⟩
  exact ⟨_, by rw [snapFaces, h]; dsimp only [Out.bind]; rw [h3]⟩

theorem two3_const {n : Nat} (c : Bound) (e : Nat) (v : ℝ) (hc : c.dim = 2 ∧ c.sign = 0) : ConstAdj n (box3 n e v) c v := by
  intro k hk
  norm_num at hk
  rw [hc.1, hc.2]
  simp only [box3]
  rw [if_pos (by constructor <;> norm_num <;> omega)]

theorem straight3 (σ : Nat) (hσ : σ < 2) (n e : Nat) (v : ℝ) (x : Fin (3 - 1) → ℝ) : straight 3 2 σ (fun k => (box3 n e v).vert k 2) x = (σ : ℝ) := by
  have h : ∀ l < 4, ((box3 n e v).vert (pt 3 2 2 l σ) 2) = (σ : ℝ) := by
    intro l hl
    have : pt 3 2 2 l σ % 2 = σ := by
      rcases (by omega : σ = 0 ∨ σ = 1) with rfl | rfl <;> rcases (by omega : l = 0 ∨ l = 1 ∨ l = 2 ∨ l = 3) with rfl | rfl | rfl | rfl <;> decide
    simp only [box3]
    rw [if_neg (by norm_num), if_neg (by norm_num), this]
  rw [straight]
  have e1 : ∀ l : Fin (3 - 1) → Fin 2, (box3 n e v).vert (pt 3 2 2 (idx l) σ) 2 = (σ : ℝ) := fun l => h _ (Tensor.idx_lt l)
  simp only [e1]
  rw [← Finset.mul_sum]
  have e2 : ∑ l : Fin (3 - 1) → Fin 2, ∏ k, (if l k = 1 then x k else 1 - x k) = ∏ k, ∑ t : Fin 2, (if t = 1 then x k else 1 - x k) := by rw [Finset.prod_univ_sum, Fintype.piFinset_univ]
  rw [e2]
  simp

/-- C87 (disagreement): in three dimensions, with two or three points per direction, the surface can have a gap: two cubes whose faces on the surface have the edge from `(1, 0, 0)` to `(1, 1, 0)` in common. After
all faces have been snapped, the first has this edge at height 0 and the second at height 1/2. -/
theorem gap_refuted (hbs : bs.IsOf b) (hb : b.Distinct) (hn : 2 ≤ b.n ∧ b.n ≤ 3) (hl : IsLobatto lob) (mu kappa : Transport) (u : Nat → ℝ) (w : World) :
    ∃ d', snapFaces mu kappa b lob u bs two3 ⟨w, fun e => box3 b.n e (if e = 0 then 0 else 1 / 2)⟩ = .ok d' ∧
      ∀ y : ℝ, facePoint b 3 (d'.elem 0) 4 (fun k => if k = 0 then 1 else y) 2 = 0 ∧ facePoint b 3 (d'.elem 1) 4 (fun k => if k = 0 then 0 else y) 2 = 1 / 2 := by
  set d0 : Data := ⟨w, fun e => box3 b.n e (if e = 0 then 0 else 1 / 2)⟩ with hd0
  have h0 : snapAll b lob u 3 two3.bounds d0.elem = .ok d0.elem := snapAll_none (fun _ => rfl) _
  obtain ⟨d', h⟩ := snap_defined (mu := mu) (kappa := kappa) (bs := bs) (d := d0) (s := two3) rfl h0
  have hs : two3.Ok := by
    intro c hc
    simp only [two3, List.mem_cons, List.not_mem_nil, or_false] at hc
    rcases hc with rfl | rfl | rfl | rfl | rfl | rfl | rfl | rfl | rfl | rfl <;> simp [two3]
  have hg : (two3.bounds.map Bound.ghost).Nodup := by simp [two3]
  have key : ∀ c : Bound, c.dim = 2 ∧ c.sign = 0 → surfaceOf two3.bounds c.elem = [c] → Ends two3 c → ∀ x, facePoint b 3 (d'.elem c.elem) 4 x 2 = if c.elem = 0 then 0 else 1 / 2 := by
    intro c hc h1 h2 x
    have h3 := not_matched hbs hb ⟨by omega, hn.2⟩ hl (two3_ok bs) rfl hs rfl hg h0 h h1 rfl h2 (two3_const c c.elem (if c.elem = 0 then 0 else 1 / 2) hc)
    obtain ⟨g1, g2, g3, g4, g5⟩ := other_faces hbs (by omega) (two3_ok bs) hs h c.elem
    have hu : Split.Unwarped b 3 2 (d'.elem c.elem).adj := by
      intro j hj hjd σ hσ k hk
      refine (g5 (2 * j + σ) ?_ k hk).trans ?_
      · intro c' hc' _ hf
        simp only [two3, List.mem_cons, List.not_mem_nil, or_false] at hc'
        rcases hc' with rfl | rfl | rfl | rfl | rfl | rfl | rfl | rfl | rfl | rfl <;> simp at hf ⊢ <;> omega
      · simp only [hd0, box3]
        refine if_neg fun h => ?_
        have : two3.mesh.nd = 3 := rfl
        simp only [this] at h hk
        norm_num at hk h
        have h6 : 2 * j + σ + 1 ≤ 4 := by omega
        have := Nat.mul_le_mul_right (b.n ^ 2) h6
        nlinarith [h.1]
    have h4 := FaceSnap.facePoint_eq hb hn.1 (Or.inr rfl) (by norm_num : 2 < 3) (by norm_num : 0 < 2) hu 2 (FaceSnap.Sep.const (N := 1) (by norm_num) (by norm_num) (if c.elem = 0 then (0 : ℝ) else 1 / 2)) (by omega)
      (fun q => by have := h3 (idx q) (Tensor.idx_lt q); rw [hc.1, hc.2] at this; exact this) x
    rw [g1] at h4
    rw [show 2 * 2 + 0 = 4 from rfl] at h4
    rw [h4]
    simp only [hd0]
    rw [straight3 0 (by norm_num), straight3 1 (by norm_num)]
    norm_num
  refine ⟨d', h, fun y => ⟨?_, ?_⟩⟩
  · have := key ⟨0, 2, 0, 3, true, some FaceSnap.exGeom⟩ ⟨rfl, rfl⟩ (by simp [surfaceOf, two3]) ?_ (fun k => if k = 0 then 1 else y)
    · simpa using this
    · intro σ hσ
      rcases (by omega : σ = 0 ∨ σ = 1) with rfl | rfl
      · exact ⟨⟨0, 1, 0, 1, false, none⟩, by simp [two3], rfl, rfl, rfl, _, List.mem_cons_of_mem _ (List.mem_cons_of_mem _ List.mem_cons_self), rfl, rfl, rfl⟩
      · exact ⟨⟨0, 1, 1, 2, false, none⟩, by simp [two3], rfl, rfl, rfl, _, List.mem_cons_of_mem _ (List.mem_cons_of_mem _ (List.mem_cons_of_mem _ List.mem_cons_self)), rfl, rfl, rfl⟩
  · have := key ⟨1, 2, 0, 8, true, some FaceSnap.exGeom⟩ ⟨rfl, rfl⟩ (by simp [surfaceOf, two3]) ?_ (fun k => if k = 0 then 0 else y)
    · simpa using this
    · intro σ hσ
      rcases (by omega : σ = 0 ∨ σ = 1) with rfl | rfl
      · exact ⟨⟨1, 1, 0, 6, false, none⟩, by simp [two3], rfl, rfl, rfl, _, List.getElem_mem (l := two3.mesh.cons) (n := 7) (by simp [two3]), rfl, rfl, rfl⟩
      · exact ⟨⟨1, 1, 1, 7, false, none⟩, by simp [two3], rfl, rfl, rfl, _, List.getElem_mem (l := two3.mesh.cons) (n := 8) (by simp [two3]), rfl, rfl, rfl⟩

/-- C87 (disagreement): in the second sweep, fine connections at hanging vertices are to take the value of one side, so it is doubled before the average is taken, and that of the other side is set to zero. It is not
set to zero; another part of the storage is. So where both sides have the same displacement `x`, both get `3/2 x`. -/
theorem hanging_refuted {m : Mesh} (hm : m.Ok bs) (hn : 0 < b.n) (hnd : 1 ≤ m.nd) (w : World) (c : ConRec) (hc : c ∈ m.cons) (hd : c.deformed = true) (hne : c.side false ≠ c.side true) (x : ℝ)
    (hx : ∀ side, ∀ k < b.n ^ (m.nd - 1), w.buf (c.side side) false k = x) (side : Bool) (k : Nat) (hk : k < b.n ^ (m.nd - 1)) :
    (average b.n m { w with buf := doubleFine (b.n ^ m.nd / b.n) w.buf c }).buf (c.side side) true k = 3 / 2 * x := by
  have hk' : k < b.n ^ m.nd / b.n := by rw [FaceSnap.nfq_eq hn hnd]; exact hk
  rw [(average_spec hm b.n _).2.2 c hc hd side k (by omega)]
  simp only [doubleFine, setBuf]
  simp [hk', hne.symm, hx _ k hk]
  ring

end
end Hexed.SnapMesh
