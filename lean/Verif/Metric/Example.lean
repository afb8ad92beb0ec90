import Verif.Metric.Curved
import Verif.Solver.Freestream
set_option autoImplicit false
set_option linter.unusedVariables false

/-!
# An example: a trapezoid and, to its right, two smaller trapezoids, one of which is rotated by 90 degrees

The trapezoid has vertices (0, 0), (0, 1), (1, 0), (3/2, 1). Its slanted face is divided into two mortar faces. The small elements cover the area between that face and the line x = 2.
-/

namespace Hexed.Metric
open Hexed.Spatial Hexed.Pde Hexed.Solver
open Hexed.Connection (Dir Legal IsFrame frame_unique)
open MvPolynomial
noncomputable section

/-- Vertices of the elements. -/
def exVert (e v i : Nat) : ℝ :=
  if e = 0 then (if i = 0 then (if v = 2 then 1 else if v = 3 then 3 / 2 else 0) else (if v % 2 = 1 then 1 else 0))
  else if e = 1 then (if i = 0 then (if v = 0 then 1 else if v = 1 then 5 / 4 else 2) else (if v % 2 = 1 then 1 / 2 else 0))
  else (if i = 0 then (if v = 0 then 3 / 2 else if v = 2 then 5 / 4 else 2) else (if v / 2 = 1 then 1 / 2 else 1))

/-- The mesh. -/
def exShape : Shape where
  nd := 2
  elems := [0, 1, 2]
  elem e := ⟨if e = 0 then 1 else 1 / 2, fun q => 1 + q, fun _ => 0, true, exVert e, fun _ => 0⟩
  cons :=
    let con (d : Dir) (a b : Buf) : ConRec := ⟨true, d, fun s => if s then b else a, fun _ => 0⟩
    let bound (d : Fin 3) (s : Bool) (a : Buf) (g : Nat) : ConRec := ⟨true, ⟨d, d, s, !s⟩, fun s => if s then .ghost g else a, fun _ => 0⟩
    [con ⟨0, 0, true, false⟩ (.mortar 0 0) (.elem 1 0), con ⟨0, 1, true, false⟩ (.mortar 0 1) (.elem 2 2), con ⟨1, 0, true, true⟩ (.elem 1 3) (.elem 2 1),
     bound 0 false (.elem 0 0) 0, bound 1 false (.elem 0 2) 1, bound 1 true (.elem 0 3) 2, bound 0 true (.elem 1 1) 3, bound 1 false (.elem 1 2) 4,
     bound 0 false (.elem 2 0) 5, bound 1 true (.elem 2 3) 6]
  refs := [⟨.elem 0 1, fun i => .mortar 0 i, (false, false)⟩]
  refDef _ := true

theorem exShape_ok (bs : BasisData) : exShape.kernel.Ok bs := by
  refine ⟨by decide, ?_, ?_, by decide, by decide, ?_, ?_, ?_, ?_, ?_⟩
  · intro e _; simp only [exShape, Shape.kernel]; split <;> norm_num
  · intro e _ q _; simp [exShape, Shape.kernel, ElemRec.det]
  · intro k r hr
    match k, hr with
    | 0, hr => simp only [exShape, Shape.kernel, List.getElem?_cons_zero, Option.some.injEq] at hr; subst hr; exact ⟨⟨_, _, rfl⟩, fun _ _ => rfl⟩
    | k + 1, hr => simp [exShape, Shape.kernel] at hr
  · intro c hc
    simp only [exShape, Shape.kernel, List.mem_cons, List.not_mem_nil, or_false] at hc
    rcases hc with rfl | rfl | rfl | rfl | rfl | rfl | rfl | rfl | rfl | rfl <;> exact ⟨by decide, by simp⟩
  · intro c hc
    simp only [exShape, Shape.kernel, List.mem_cons, List.not_mem_nil, or_false] at hc
    rcases hc with rfl | rfl | rfl | rfl | rfl | rfl | rfl | rfl | rfl | rfl <;> rfl
  · intro c hc s hs
    simp only [exShape, Shape.kernel, List.mem_cons, List.not_mem_nil, or_false] at hc
    rcases hc with rfl | rfl | rfl | rfl | rfl | rfl | rfl | rfl | rfl | rfl <;> cases s <;> first | exact ⟨_, rfl⟩ | exact absurd hs (by simp [Buf.isGhost])
  · intro c hc hs
    simp only [exShape, Shape.kernel, List.mem_cons, List.not_mem_nil, or_false] at hc
    rcases hc with rfl | rfl | rfl | rfl | rfl | rfl | rfl | rfl | rfl | rfl <;> first | (cases hs; done) | simp [Mesh.bufSize, Mesh.faceOf, exShape, Shape.kernel]

theorem exShape_kinds : Kinds exShape := by
  refine ⟨?_, ?_, ?_, ?_⟩
  · intro c hc hd
    simp only [exShape, List.mem_cons, List.not_mem_nil, or_false] at hc
    rcases hc with rfl | rfl | rfl | rfl | rfl | rfl | rfl | rfl | rfl | rfl <;> cases hd
  · intro c hc sd r i hs
    simp only [exShape, List.mem_cons, List.not_mem_nil, or_false] at hc
    rcases hc with rfl | rfl | rfl | rfl | rfl | rfl | rfl | rfl | rfl | rfl <;> cases sd <;> first | (cases hs; done) | exact ⟨rfl, fun _ => rfl⟩
  · intro r rr _ h
    cases h
  · intro c hc hg
    simp only [exShape, List.mem_cons, List.not_mem_nil, or_false] at hc
    rcases hc with rfl | rfl | rfl | rfl | rfl | rfl | rfl | rfl | rfl | rfl <;> first | (cases hg; done) | exact ⟨rfl, rfl, rfl, _, _, rfl⟩

theorem eval2 (v : Nat → ℝ) (ξ : Nat → ℝ) : eval ξ (multilin 2 v) = v 0 * ((1 - ξ 0) * (1 - ξ 1)) + v 1 * ((1 - ξ 0) * ξ 1) + v 2 * (ξ 0 * (1 - ξ 1)) + v 3 * (ξ 0 * ξ 1) := by
  rw [multilin_eval]
  simp [Finset.sum_range_succ, Finset.prod_range_succ]

theorem partial_affine {f : (Nat → ℝ) → ℝ} {c : Nat} {ξ : Nat → ℝ} (A B : ℝ) (h : ∀ t, f (Function.update ξ c t) = A + B * t) : partialD c f ξ = B := by
  rw [partialD]
  have : (fun t => f (Function.update ξ c t)) = fun t => (Polynomial.C A + Polynomial.C B * Polynomial.X).eval t := by funext t; rw [h]; simp
  rw [this, Polynomial.deriv]; simp

theorem partial2 (v : Nat → ℝ) (ξ : Nat → ℝ) : partialD 0 (fun x => eval x (multilin 2 v)) ξ = (v 2 - v 0) * (1 - ξ 1) + (v 3 - v 1) * ξ 1 ∧
    partialD 1 (fun x => eval x (multilin 2 v)) ξ = (v 1 - v 0) * (1 - ξ 0) + (v 3 - v 2) * ξ 0 := by
  constructor
  · refine partial_affine (v 0 * (1 - ξ 1) + v 1 * ξ 1) _ fun t => ?_
    rw [eval2]; simp [Function.update_apply]; ring
  · refine partial_affine (v 0 * (1 - ξ 0) + v 2 * ξ 0) _ fun t => ?_
    rw [eval2]; simp [Function.update_apply]; ring

theorem exShape_volume (e : Nat) (ξ : Nat → ℝ) : volume exShape exShape.straight e ξ =
    ((exVert e 2 0 - exVert e 0 0) * (1 - ξ 1) + (exVert e 3 0 - exVert e 1 0) * ξ 1) * ((exVert e 1 1 - exVert e 0 1) * (1 - ξ 0) + (exVert e 3 1 - exVert e 2 1) * ξ 0)
    - ((exVert e 1 0 - exVert e 0 0) * (1 - ξ 0) + (exVert e 3 0 - exVert e 2 0) * ξ 0) * ((exVert e 2 1 - exVert e 0 1) * (1 - ξ 1) + (exVert e 3 1 - exVert e 1 1) * ξ 1) := by
  have : volume exShape exShape.straight e ξ = Matrix.det (Matrix.of fun r c : Fin 2 => partialD c.val (fun x => eval x (multilin 2 fun v => exVert e v r.val)) ξ) := rfl
  rw [this, Matrix.det_fin_two]
  simp only [Matrix.of_apply, Fin.val_zero, Fin.val_one]
  rw [(partial2 _ ξ).1, (partial2 _ ξ).2, (partial2 _ ξ).1, (partial2 _ ξ).2]

theorem exMortar (i : Nat) (hi : i < 2) (ξ : Nat → ℝ) : refPoint exShape (.mortar 0 i) ξ 0 = 1 ∧ refPoint exShape (.mortar 0 i) ξ 1 = i / 2 + ξ 1 / 2 := by
  have e : ∀ a, refPoint exShape (.mortar 0 i) ξ a = if a = 0 then 1 else partCoord 2 0 (false, false) i a (ξ a) := fun a => by
    simp [refPoint, Mesh.faceOf, Shape.kernel, exShape]
  rw [e, e, if_pos rfl, if_neg (by decide), partCoord_eq (by decide) (by decide) (by decide) (by decide) _ (show i < nFace 2 (false, false) from hi)]
  refine ⟨rfl, ?_⟩
  obtain rfl | rfl : i = 0 ∨ i = 1 := by omega
  · norm_num [strOrigin, strLength, without, iHalf, Connection.strAt]; try ring
  · norm_num [strOrigin, strLength, without, iHalf, Connection.strAt]; try ring

theorem exElem (e f : Nat) (ξ : Nat → ℝ) : refPoint exShape (.elem e f) ξ 0 = (if f / 2 = 0 then ((f % 2 : Nat) : ℝ) else ξ 0) ∧ refPoint exShape (.elem e f) ξ 1 = if f / 2 = 1 then ((f % 2 : Nat) : ℝ) else ξ 1 := by
  simp only [refPoint, Mesh.faceOf, Function.update_apply, eq_comm]
  simp

theorem exShape_space (b : Basis.Nodes ℝ) : InSpace exShape b 2 exShape.straight := by
  refine inSpace_straight (by decide) (fun _ _ _ _ => rfl) ?_ ?_
  · intro e he ξ hξ
    have h0 := hξ 0 (by decide)
    have h1 := hξ 1 (by decide)
    rw [exShape_volume]
    simp only [exShape, List.mem_cons, List.not_mem_nil, or_false] at he
    rcases he with rfl | rfl | rfl
    · exact ne_of_eq_of_ne (b := 1 + ξ 1 / 2) (by norm_num [exVert]; try ring) (ne_of_gt (by linarith))
    · exact ne_of_eq_of_ne (b := (1 - ξ 1 / 4) / 2) (by norm_num [exVert]; try ring) (ne_of_gt (by linarith))
    · exact ne_of_eq_of_ne (b := (1 / 2 + ξ 0 / 4) / 2) (by norm_num [exVert]; try ring) (ne_of_gt (by linarith))
  · intro c hc hg R hR ξ η hcor i hi
    rw [frame_unique hR] at hcor
    simp only [exShape, List.mem_cons, List.not_mem_nil, or_false] at hc
    have hi : i = 0 ∨ i = 1 := by have : i < 2 := hi; omega
    rcases hc with rfl | rfl | rfl | rfl | rfl | rfl | rfl | rfl | rfl | rfl <;> first | (cases hg; done) | skip
    · have h := hcor 1 (by decide) (by decide)
      rw [frame_row _ (fun l : Fin 3 => 2 * ξ l.val - 1) (by decide)] at h
      have h : η 1 = ξ 1 := by simp at h; linarith
      show eval (refPoint exShape (.mortar 0 0) ξ) (multilin 2 fun v => exVert 0 v i) = eval (refPoint exShape (.elem 1 0) η) (multilin 2 fun v => exVert 1 v i)
      rw [eval2, eval2, (exMortar 0 (by decide) ξ).1, (exMortar 0 (by decide) ξ).2, (exElem 1 0 η).1, (exElem 1 0 η).2]
      rcases hi with rfl | rfl <;> norm_num [exVert, h] <;> ring
    · have h := hcor 0 (by decide) (by decide)
      rw [frame_row _ (fun l : Fin 3 => 2 * ξ l.val - 1) (by decide)] at h
      have h : η 0 = 1 - ξ 1 := by simp [Connection.sg] at h; linarith
      show eval (refPoint exShape (.mortar 0 1) ξ) (multilin 2 fun v => exVert 0 v i) = eval (refPoint exShape (.elem 2 2) η) (multilin 2 fun v => exVert 2 v i)
      rw [eval2, eval2, (exMortar 1 (by decide) ξ).1, (exMortar 1 (by decide) ξ).2, (exElem 2 2 η).1, (exElem 2 2 η).2]
      rcases hi with rfl | rfl <;> norm_num [exVert, h] <;> ring
    · have h := hcor 1 (by decide) (by decide)
      rw [frame_row _ (fun l : Fin 3 => 2 * ξ l.val - 1) (by decide)] at h
      have h : η 1 = ξ 0 := by simp [Connection.sg] at h; linarith
      show eval (refPoint exShape (.elem 1 3) ξ) (multilin 2 fun v => exVert 1 v i) = eval (refPoint exShape (.elem 2 1) η) (multilin 2 fun v => exVert 2 v i)
      rw [eval2, eval2, (exElem 1 3 ξ).1, (exElem 1 3 ξ).2, (exElem 2 1 η).1, (exElem 2 1 η).2]
      rcases hi with rfl | rfl <;> norm_num [exVert, h] <;> ring

theorem gauss2_good : GoodNodes gauss2 3 := by
  have h3 : (1 : ℝ) / √3 ≤ 1 := by
    rw [div_le_one (by positivity)]
    exact Real.one_le_sqrt.2 (by norm_num)
  have h0 : (0 : ℝ) ≤ 1 / √3 := by positivity
  refine ⟨⟨Basis.gauss2_exact, by norm_num [gauss2], by norm_num [gauss2], fun i _ => by norm_num [gauss2], fun i _ => rfl⟩, le_rfl, ?_, ?_⟩
  · intro i hi
    simp only [gauss2]
    split_ifs <;> constructor <;> linarith
  · intro i hi
    have : i = 0 ∨ i = 1 := by have : i < 2 := hi; omega
    rcases this with rfl | rfl <;> norm_num [gauss2] <;> ring

theorem exSurface (i : Nat) (hi : i < 2) (ξ : Nat → ℝ) : surface exShape exShape.straight (.mortar 0 1) i ξ = if i = 0 then 5 / 4 + ξ 1 / 4 else 1 / 2 + ξ 1 / 2 := by
  show eval (refPoint exShape (.mortar 0 1) ξ) (multilin 2 fun v => exVert 0 v i) = _
  rw [eval2, (exMortar 1 (by decide) ξ).1, (exMortar 1 (by decide) ξ).2]
  obtain rfl | rfl : i = 0 ∨ i = 1 := by omega
  · norm_num [exVert]; try ring
  · norm_num [exVert]; try ring

/-- The normal of the slanted face: (1, -1/2). -/
theorem exNormal (j : Nat) (hj : j < 2) (ξ : Nat → ℝ) : surfaceNormal exShape exShape.straight (.mortar 0 1) j ξ = if j = 0 then 1 else -1 / 2 := by
  have hsz : exShape.kernel.bufSize (.mortar 0 1) = 1 / 2 := by simp [Mesh.bufSize, Mesh.faceOf, Shape.kernel, exShape]
  have hp : ∀ i < 2, partialD 1 (surface exShape exShape.straight (.mortar 0 1) i) ξ = if i = 0 then 1 / 4 else 1 / 2 := by
    intro i hi
    refine partial_affine (if i = 0 then 5 / 4 else 1 / 2) _ fun t => ?_
    rw [exSurface i hi]
    split_ifs <;> simp <;> ring
  have : surfaceNormal exShape exShape.straight (.mortar 0 1) j ξ = Matrix.det (Matrix.of fun r c : Fin 2 => if c.val = 0 then (if r.val = j then 1 else 0) else partialD c.val (surface exShape exShape.straight (.mortar 0 1) r.val) ξ / exShape.kernel.bufSize (.mortar 0 1)) := rfl
  rw [this, Matrix.det_fin_two, hsz]
  simp only [Matrix.of_apply, Fin.val_zero, Fin.val_one, if_true]
  rw [if_neg (show ¬(1 = 0) by decide), if_neg (show ¬(1 = 0) by decide), hp 0 (by decide), hp 1 (by decide)]
  obtain rfl | rfl : j = 0 ∨ j = 1 := by omega
  · norm_num
  · norm_num

/-- This is the normal which the connection with the rotated element uses. -/
example (w0 : World) (j : Nat) (hj : j < 2) (k : Nat) (hk : k < 2) :
    ∃ c, (exShape.calcJacobian gauss2 (ofNodes gauss2) w0).cons[1]? = some c ∧ c.side true = .elem 2 2 ∧ conNormal c.deformed c.dir 2 c.normal k j = if j = 0 then 1 else -1 / 2 := by
  refine ⟨_, rfl, rfl, ?_⟩
  have h := connection_normal_exact (s := exShape) (ofNodes_isOf gauss2) gauss2_good (m := 2) (by norm_num) le_rfl (by norm_num [exShape, gauss2]) (fun _ => by decide +kernel) (exShape_ok _) (exShape_space gauss2) exShape_kinds w0
    (c := _) (List.mem_of_getElem? (i := 1) rfl) (e := 0) (f := 1) rfl (j := j) (k := k) hj hk
  refine Eq.trans ?_ (h.symm.trans (exNormal j hj _))
  exact (one_mul _).symm

/-- Uniform flow in all elements. -/
def exUniform : World := ⟨fun _ vq => exAir vq.1, fun _ _ => 0, fun _ _ a => exAir (a / 2)⟩

/-- On this mesh uniform flow remains uniform. -/
example (w0 : World) (mu kappa : Transport) (sr : ℝ) (dts : List ℝ) (w' : World)
    (hrun : flow true mu kappa (ofNodes gauss2) (exShape.calcJacobian gauss2 (ofNodes gauss2) w0) sr true
        (runBc 2 2 4 false (fun c => (if c.dir.s0 then Far.outflow else .riemann).state 2 exAir c.dir.s0) (exShape.calcJacobian gauss2 (ofNodes gauss2) w0).cons)
        (runBc 2 2 4 true (fun c => (if c.dir.s0 then Far.outflow else .riemann).flux 2 exAir c.dir.s0) (exShape.calcJacobian gauss2 (ofNodes gauss2) w0).cons) dts exUniform = some w') :
    ∀ e ∈ [0, 1, 2], ∀ q < 4, ∀ v < 4, w'.state e (v, q) = exAir v := by
  refine freestream_deformed (s := exShape) (ofNodes_isOf gauss2) gauss2_good (m := 2) (by norm_num) le_rfl (by norm_num [exShape, gauss2]) (fun _ => by decide +kernel) (exShape_ok _) (exShape_space gauss2) exShape_kinds w0 exAir_adm
    (fun c => if c.dir.s0 then Far.outflow else .riemann) (fun _ => exAir) true mu kappa sr true dts exUniform w' (fun _ _ _ _ _ _ => rfl) ?_ hrun
  intro c hc sd hg v hv k hk
  have hk : k < 2 := hk
  show exAir ((v * 2 + k) / 2) = exAir v
  congr 1; omega

/-- The flow is defined. -/
example (w0 : World) (mu kappa : Transport) (sr : ℝ) (dt : ℝ) (w : World) : ∃ w', flow true mu kappa (ofNodes gauss2) (exShape.calcJacobian gauss2 (ofNodes gauss2) w0) sr true
        (runBc 2 2 4 false (fun c => (if c.dir.s0 then Far.outflow else .riemann).state 2 exAir c.dir.s0) (exShape.calcJacobian gauss2 (ofNodes gauss2) w0).cons)
        (runBc 2 2 4 true (fun c => (if c.dir.s0 then Far.outflow else .riemann).flux 2 exAir c.dir.s0) (exShape.calcJacobian gauss2 (ofNodes gauss2) w0).cons) [dt] w = some w' := by
  obtain ⟨w1, h1⟩ := flowStep_defined true mu kappa (ofNodes gauss2) (exShape.calcJacobian gauss2 (ofNodes gauss2) w0) sr dt true
    (runBc 2 2 4 false (fun c => (if c.dir.s0 then Far.outflow else .riemann).state 2 exAir c.dir.s0) (exShape.calcJacobian gauss2 (ofNodes gauss2) w0).cons)
    (runBc 2 2 4 true (fun c => (if c.dir.s0 then Far.outflow else .riemann).flux 2 exAir c.dir.s0) (exShape.calcJacobian gauss2 (ofNodes gauss2) w0).cons) w
  exact ⟨w1, by rw [flow, List.foldlM_cons, h1]; rfl⟩

/-- The same with the hypotheses of `freestream_straight`, which concern the corners of the faces only. -/
example (w0 : World) (mu kappa : Transport) (sr : ℝ) (dts : List ℝ) (w' : World)
    (hrun : flow true mu kappa (ofNodes gauss2) (exShape.calcJacobian gauss2 (ofNodes gauss2) w0) sr true
        (runBc 2 2 4 false (fun c => (if c.dir.s0 then Far.outflow else .riemann).state 2 exAir c.dir.s0) (exShape.calcJacobian gauss2 (ofNodes gauss2) w0).cons)
        (runBc 2 2 4 true (fun c => (if c.dir.s0 then Far.outflow else .riemann).flux 2 exAir c.dir.s0) (exShape.calcJacobian gauss2 (ofNodes gauss2) w0).cons) dts exUniform = some w') :
    ∀ e ∈ [0, 1, 2], ∀ q < 4, ∀ v < 4, w'.state e (v, q) = exAir v := by
  refine freestream_straight (s := exShape) (ofNodes_isOf gauss2) gauss2_good (by decide +kernel) (exShape_ok _) exShape_kinds (fun _ _ _ _ => rfl) (exShape_space gauss2).regular
    (fun c hc hg R hR ξ η _ => (exShape_space gauss2).meet c hc hg R hR ξ η) w0 exAir_adm (fun c => if c.dir.s0 then Far.outflow else .riemann) (fun _ => exAir) true mu kappa sr true dts exUniform w' (fun _ _ _ _ _ _ => rfl) ?_ hrun
  intro c hc sd hg v hv k hk
  have hk : k < 2 := hk
  show exAir ((v * 2 + k) / 2) = exAir v
  congr 1; omega

/-- The volume of the trapezoid and its neighbours is positive at the corners, hence everywhere. -/
example (e : Nat) (he : e ∈ [0, 1, 2]) (ξ : Nat → ℝ) (hξ : ∀ a < 2, 0 ≤ ξ a ∧ ξ a ≤ 1) : 0 < volume exShape exShape.straight e ξ := by
  refine regular_straight (s := exShape) rfl (fun ζ hζ => ?_) ξ hξ
  rw [exShape_volume]
  simp only [List.mem_cons, List.not_mem_nil, or_false] at he
  have hb : ∀ a < 2, 0 ≤ ζ a ∧ ζ a ≤ 1 := fun a ha => by rcases hζ a ha with h | h <;> rw [h] <;> norm_num
  have h0 := hb 0 (by decide)
  have h1 := hb 1 (by decide)
  rcases he with rfl | rfl | rfl
  · exact lt_of_lt_of_eq (b := 1 + ζ 1 / 2) (by linarith) (by norm_num [exVert]; try ring)
  · exact lt_of_lt_of_eq (b := (1 - ζ 1 / 4) / 2) (by linarith) (by norm_num [exVert]; try ring)
  · exact lt_of_lt_of_eq (b := (1 / 2 + ζ 0 / 4) / 2) (by linarith) (by norm_num [exVert]; try ring)

/-- The unit square with the right face bulged: x = ξ (1 + η (1 - η) / 4). -/
def bulge (j σ : Nat) : MvPolynomial ℕ ℝ := if j = 0 ∧ σ = 1 then C (1 / 4) * (X 1 * (1 - X 1)) else 0

/-- One element, all faces on boundaries. -/
def bulged (b : Basis.Nodes ℝ) : Shape where
  nd := 2
  elems := [0]
  elem _ := ⟨1, fun q => 1 + q, fun _ => 0, true, fun v i => if i = 0 then ((v / 2 : Nat) : ℝ) else ((v % 2 : Nat) : ℝ),
    fun a => if a / b.n = 1 then 1 / 4 * (b.node (a % b.n) * (1 - b.node (a % b.n))) else 0⟩
  cons :=
    let bound (d : Fin 3) (s : Bool) (a : Buf) (g : Nat) : ConRec := ⟨true, ⟨d, d, s, !s⟩, fun s => if s then .ghost g else a, fun _ => 0⟩
    [bound 0 false (.elem 0 0) 0, bound 0 true (.elem 0 1) 1, bound 1 false (.elem 0 2) 2, bound 1 true (.elem 0 3) 3]
  refs := []
  refDef _ := true

theorem bulge_degree (i : Nat) : degreeOf i (C (1 / 4) * (X 1 * (1 - X 1)) : MvPolynomial ℕ ℝ) ≤ if i = 1 then 2 else 0 := by
  refine le_trans (degreeOf_C_mul_le _ _ _) (le_trans (degreeOf_mul_le _ _ _) ?_)
  have hX : degreeOf i (X 1 : MvPolynomial ℕ ℝ) ≤ if i = 1 then 1 else 0 := by rw [degreeOf_X]
  have hX1 : degreeOf i (1 - X 1 : MvPolynomial ℕ ℝ) ≤ if i = 1 then 1 else 0 := by
    refine le_trans (degreeOf_sub_le _ _ _) (max_le ?_ hX); rw [degreeOf_one]; omega
  split_ifs at hX hX1 ⊢ <;> omega

theorem bulged_eval (b : Basis.Nodes ℝ) (ξ : Nat → ℝ) : eval ξ ((bulged b).warped (fun _ => bulge) 0 0) = ξ 0 * (1 + 1 / 4 * (ξ 1 * (1 - ξ 1))) ∧ eval ξ ((bulged b).warped (fun _ => bulge) 0 1) = ξ 1 := by
  constructor <;>
  · rw [Shape.warped, if_pos (by rfl), Metric.warped, map_add, map_sum, multilin_eval]
    simp [edge_eval, bulged, bulge, Finset.sum_range_succ, Finset.prod_range_succ]
    try ring

/-- It meets the hypotheses of `inSpace_warped` with `m = 4` for all bases. -/
example (b : Basis.Nodes ℝ) (hn : 0 < b.n) : InSpace (bulged b) b 4 ((bulged b).warped fun _ => bulge) := by
  refine inSpace_warped hn (by simp [bulged]) (by norm_num) ?_ ?_ ?_ ?_
  · intro e _ j hj σ hσ
    rw [bulge]
    have hj : j < 2 := hj
    split_ifs with h
    · refine ⟨?_, fun i hi => ?_⟩
      · rw [h.1]; exact Nat.le_zero.1 (bulge_degree 0)
      · have := bulge_degree i; split_ifs at this <;> omega
    · exact ⟨degreeOf_zero _, fun i _ => by rw [degreeOf_zero]; norm_num⟩
  · intro e _ _ j hj σ hσ k hk
    have hk : k < b.n := by simpa [bulged] using hk
    have hj : j < 2 := hj
    have ed : ((2 * j + σ) * b.n ^ (2 - 1) + k) / b.n = 2 * j + σ := by
      rw [pow_one, mul_comm, Nat.mul_add_div hn, Nat.div_eq_of_lt hk, Nat.add_zero]
    have em : ((2 * j + σ) * b.n ^ (2 - 1) + k) % b.n = k := by
      rw [pow_one, Nat.add_comm, Nat.add_mul_mod_self_right, Nat.mod_eq_of_lt hk]
    show (if ((2 * j + σ) * b.n ^ (2 - 1) + k) / b.n = 1 then 1 / 4 * (b.node (((2 * j + σ) * b.n ^ (2 - 1) + k) % b.n) * (1 - b.node (((2 * j + σ) * b.n ^ (2 - 1) + k) % b.n))) else 0) = _
    rw [ed, em, bulge]
    by_cases h : j = 0 ∧ σ = 1
    · rw [if_pos (by omega), if_pos h]
      obtain ⟨rfl, rfl⟩ := h
      simp [facePos, bulged, Nat.mod_eq_of_lt hk]
    · rw [if_neg (by omega), if_neg h, map_zero]
  · intro e he ξ hξ
    obtain rfl : e = 0 := by simpa [bulged] using he
    have h0 := hξ 0 (by simp [bulged])
    have h1 := hξ 1 (by simp [bulged])
    have : volume (bulged b) ((bulged b).warped fun _ => bulge) 0 ξ = Matrix.det (Matrix.of fun r c : Fin 2 => partialD c.val (fun x => eval x ((bulged b).warped (fun _ => bulge) 0 r.val)) ξ) := rfl
    rw [this, Matrix.det_fin_two]
    simp only [Matrix.of_apply, Fin.val_zero, Fin.val_one, (bulged_eval b _).1, (bulged_eval b _).2]
    rw [partial_affine (c := 0) 0 (1 + 1 / 4 * (ξ 1 * (1 - ξ 1))) (fun t => by simp [Function.update_apply]; ring),
      partial_affine (c := 1) (ξ := ξ) (f := fun x => x 1) 0 1 (fun t => by simp),
      partial_affine (c := 0) (ξ := ξ) (f := fun x => x 1) (ξ 1) 0 (fun t => by simp [Function.update_apply])]
    have : 0 ≤ ξ 1 * (1 - ξ 1) := mul_nonneg h1.1 (by linarith [h1.2])
    nlinarith
  · intro c hc hg
    simp only [bulged, List.mem_cons, List.not_mem_nil, or_false] at hc
    rcases hc with rfl | rfl | rfl | rfl <;> cases hg

end
end Hexed.Metric
