import Verif.SnapMesh.Frame
import Verif.FaceSnap.Limits
import Mathlib.Tactic.LinearCombination
set_option autoImplicit false
set_option linter.unusedVariables false

/-!
# Theorems about snapping all faces (C87)
-/

namespace Hexed.SnapMesh
open Hexed.Spatial Hexed.Pde
open Hexed.StateFile (runWriteFace writeFaces_spec)
open Hexed.FaceSnap (Elem Geometry Out snapNodeAdj interpMat facePoint Sep corner straight)
open Hexed.RowIndex (RowIndex rows)
open Hexed.Tensor (idx)
open Hexed.Basis (ell)
open Polynomial (C)
noncomputable section

variable {bs : BasisData} {b : Basis.Nodes ℝ} {lob : Nat → Basis.Nodes ℝ} {s : Setup} {d d' : Data} {mu kappa : Transport} {u : Nat → ℝ}

theorem snapFaces_ok (h : snapFaces mu kappa b lob u bs s d = .ok d') : ∃ el d1, snapAll b lob u s.mesh.nd s.bounds d.elem = .ok el ∧
    sweeps mu kappa b (lob (max 2 (b.n - 1))) bs s (s.mesh.nd - 1) ⟨backup b.n s.mesh d.world, el⟩ = some d1 ∧ d' = { d1 with world := restoreState b.n s.mesh d1.world } := by
  obtain ⟨el, h1, h2⟩ := out_bind h
  rcases h3 : sweeps mu kappa b (lob (max 2 (b.n - 1))) bs s (s.mesh.nd - 1) ⟨backup b.n s.mesh d.world, el⟩ with _ | d1
  · rw [h3] at h2; cases h2
  · rw [h3] at h2
    refine ⟨el, d1, h1, h3, ?_⟩
    cases h2; rfl

/-- C87: the state of the flow is what it was before, in every variable at every point of every element. The residual cache is not: it holds the state. -/
theorem state_restored (hbs : bs.IsOf b) (hn : 0 < b.n) (hm : s.mesh.Ok bs) (hs : s.Ok) (h : snapFaces mu kappa b lob u bs s d = .ok d') :
    d'.world.state = d.world.state ∧ ∀ e k, d'.world.cache e k = if e ∈ s.mesh.elems ∧ k.1 < s.mesh.nd + 2 ∧ k.2 < b.n ^ s.mesh.nd then d.world.state e k else d.world.cache e k := by
  obtain ⟨el, d1, h1, h2, rfl⟩ := snapFaces_ok h
  obtain ⟨h3, h4⟩ := sweeps_same hbs.n hn _ hm hs mu kappa _ _ _ h2
  have hc : ∀ e k, d1.world.cache e k = if e ∈ s.mesh.elems ∧ k.1 < s.mesh.nd + 2 ∧ k.2 < b.n ^ s.mesh.nd then d.world.state e k else d.world.cache e k := fun e k => by
    rw [h3]; rfl
  refine ⟨?_, hc⟩
  funext e k
  show (if e ∈ s.mesh.elems ∧ isDof b.n s.mesh.nd k then d1.world.cache e k else d1.world.state e k) = _
  by_cases hk : e ∈ s.mesh.elems ∧ isDof b.n s.mesh.nd k
  · rw [if_pos hk, hc]; exact if_pos hk
  · rw [if_neg hk, (h4 e).1 k hk]; rfl

/-- C87: vertices and all other data of elements are unchanged, and so are the adjustments of every face that is not on the surface (and whose boundary condition has no geometry). -/
theorem other_faces (hbs : bs.IsOf b) (hn : 0 < b.n) (hm : s.mesh.Ok bs) (hs : s.Ok) (h : snapFaces mu kappa b lob u bs s d = .ok d') (e : Nat) :
    (d'.elem e).vert = (d.elem e).vert ∧ (d'.elem e).size = (d.elem e).size ∧ (d'.elem e).needs = (d.elem e).needs ∧ (d'.elem e).deformed = (d.elem e).deformed ∧
    ∀ f, (∀ c ∈ s.bounds, c.elem = e → 2 * c.dim + c.sign = f → c.surface = false ∧ c.geom = none) →
      ∀ k < b.n ^ (s.mesh.nd - 1), (d'.elem e).adj (f * b.n ^ (s.mesh.nd - 1) + k) = (d.elem e).adj (f * b.n ^ (s.mesh.nd - 1) + k) := by
  obtain ⟨el, d1, h1, h2, rfl⟩ := snapFaces_ok h
  obtain ⟨h3, h4⟩ := sweeps_same hbs.n hn _ hm hs mu kappa _ _ _ h2
  have h5 := snapAll_same hn lob u hm.dim.1 (Touched s) s.bounds d.elem el (fun c hc hg => ⟨c, hc, rfl, rfl, Or.inr hg⟩) h1 e
  obtain ⟨g1, g2, g3, g4, g5⟩ := h5.trans (h4 e).2
  refine ⟨g1, g2, g3, g4, fun f hf k hk => g5 f ?_ k hk⟩
  rintro ⟨c, hc, hce, hcf, hcs⟩
  obtain ⟨i1, i2⟩ := hf c hc hce hcf.symm
  rcases hcs with hcs | hcs
  · rw [i1] at hcs; cases hcs
  · exact hcs i2

/-- The polynomial of a row after the ends have been replaced. -/
theorem newRow_poly {l : Basis.Nodes ℝ} (hl : l.Distinct) (hln : 2 ≤ l.n) (h0 : l.node 0 = 0) (h1 : l.node (l.n - 1) = 1) (row ends : Nat → ℝ) :
    ∃ P : Polynomial ℝ, P.degree < l.n ∧ (∀ i, newRow b l row ends i = P.eval (b.node i)) ∧ P.eval 0 = ends 0 ∧ P.eval 1 = ends 1 := by
  set lrow : Nat → ℝ := fun k => if k = l.n - 1 then ends 1 else if k = 0 then ends 0 else ∑ j ∈ Finset.range b.n, (interpMat b l).val k j * row j with hlr
  have hv : ∀ k < l.n, (∑ j ∈ Finset.range l.n, C (lrow j) * ell l j).eval (l.node k) = lrow k := by
    intro k hk
    rw [Polynomial.eval_finset_sum, Finset.sum_eq_single_of_mem k (Finset.mem_range.2 hk)]
    · rw [Polynomial.eval_mul, Polynomial.eval_C, Basis.ell_node hl hk hk, if_pos rfl, mul_one]
    · intro j hj hjk
      rw [Polynomial.eval_mul, Polynomial.eval_C, Basis.ell_node hl hk (Finset.mem_range.1 hj), if_neg (Ne.symm hjk), mul_zero]
  refine ⟨∑ j ∈ Finset.range l.n, C (lrow j) * ell l j, ?_, fun i => ?_, ?_, ?_⟩
  · refine (Polynomial.degree_sum_le _ _).trans_lt ((Finset.sup_lt_iff (WithBot.bot_lt_coe l.n)).2 fun j hj => ?_)
    rw [← Polynomial.smul_eq_C_mul]
    exact (Polynomial.degree_smul_le _ _).trans_lt (Basis.ell_degree_lt hl (Finset.mem_range.1 hj))
  · rw [newRow, Polynomial.eval_finset_sum]
    refine Finset.sum_congr rfl fun k _ => ?_
    rw [Polynomial.eval_mul, Polynomial.eval_C, mul_comm]
    congr 1
    exact Basis.interpolateCpp_eq l _ k
  · rw [← h0, hv 0 (by omega), hlr]
    dsimp only
    rw [if_neg (by omega), if_pos rfl]
  · rw [← h1, hv _ (by omega), hlr]
    dsimp only
    rw [if_pos rfl]

theorem pt2 {n dim j i : Nat} (hd : dim < 2) (hj : j < 2) (hjd : j ≠ dim) (hi : i < n) : pt 2 n dim i 0 = pt 2 n j 0 i := by
  rcases (by omega : (dim = 0 ∧ j = 1) ∨ (dim = 1 ∧ j = 0)) with ⟨rfl, rfl⟩ | ⟨rfl, rfl⟩
  · simp [pt, Nat.div_eq_of_lt hi, Nat.mod_eq_of_lt hi]
  · simp [pt, Nat.mod_one]

theorem sgn_sq (σ : Nat) : sgn σ * sgn σ = 1 := by rw [sgn]; split_ifs <;> norm_num

/-- The adjustments of an element's only surface after one sweep in two dimensions. -/
theorem store2 {l : Basis.Nodes ℝ} (hn : 0 < b.n) (buf : Buf → Bool → Mem) {c : Bound} (hd : c.dim < 2) {j : Nat} (hj : j < 2) (hjd : j ≠ c.dim) (a : Arr) (e : Elem) (he : e.deformed = true) {k : Nat} (hk : k < b.n) :
    (storeStep b l 2 buf c (a, e)).2.adj ((2 * c.dim + c.sign) * b.n ^ (2 - 1) + k) = sgn c.sign * newRow b l (fun i => a (0, pt 2 b.n j 0 i)) (fun σ => buf (.elem c.elem (2 * j + σ)) true 0) k := by
  have hf : (List.range 2).filter (fun j => j ≠ c.dim) = [j] := by
    rcases (by omega : (c.dim = 0 ∧ j = 1) ∨ (c.dim = 1 ∧ j = 0)) with ⟨h1, rfl⟩ | ⟨h1, rfl⟩ <;> rw [h1] <;> rfl
  rw [storeStep, if_pos he]
  dsimp only
  rw [← adjStart_eq hn (by norm_num), hf, List.foldl_cons, List.foldl_nil]
  have h := (adj_fold hn hd (adjStart b.n 2 c) (fun q => sgn c.sign * storeDim b l 2 (fun f => buf (.elem c.elem f) true) a j (0, q)) e.adj).1 k (by simpa using hk)
  refine h.trans ?_
  rw [pt2 hd hj hjd hk, (storeDim_eq hn hj _ a).1 0 (by simpa using hn) k hk]

/-- The loaded state of an element with one surface. -/
theorem load2 {n : Nat} (hn : 0 < n) {cs : List Bound} {c : Bound} (hc : surfaceOf cs c.elem = [c]) (hd : c.dim < 2) {j : Nat} (hj : j < 2) (hjd : j ≠ c.dim) (el : Nat → Elem) (st : Nat → Arr)
    (he : (el c.elem).deformed = true) {i : Nat} (hi : i < n) :
    cs.foldl (loadOne n 2 el) st c.elem (0, pt 2 n j 0 i) = sgn c.sign * (el c.elem).adj ((2 * c.dim + c.sign) * n ^ (2 - 1) + i) := by
  rw [load_fold, hc, List.foldl_cons, List.foldl_nil, ← pt2 hd hj hjd hi, (loadStep_eq hn hd el _).1 _ (pt_lt hn hd (by simpa using hi) hn) he, (rowOf_pt hn hn).1, adjStart_eq hn (by norm_num)]

theorem outward2 (e : Elem) (dim σ : Nat) (x : ℝ) : outward b 2 e dim σ (fun _ => x) = sgn σ * ∑ i ∈ Finset.range b.n, (ell b i).eval x * e.adj ((2 * dim + σ) * b.n ^ (2 - 1) + i) := by
  rw [outward, FaceSnap.sum1, Finset.sum_range]
  congr 1
  refine Finset.sum_congr rfl fun i _ => ?_
  rw [FaceSnap.idx1]
  congr 1
  exact FaceSnap.prod1 _

/-- One sweep in two dimensions: the end of a surface face at a conforming connection is moved to the average; the new displacement is a polynomial of a degree less than the number of Lobatto nodes. -/
theorem sweep2 {l : Basis.Nodes ℝ} (hbs : bs.IsOf b) (hb : b.Distinct) (hn : 2 ≤ b.n) (hl : l.Distinct) (hln : 2 ≤ l.n ∧ l.n ≤ b.n) (h0 : l.node 0 = 0) (h1 : l.node (l.n - 1) = 1)
    (hm : s.mesh.Ok bs) (hnd : s.mesh.nd = 2) (hs : s.Ok) {d d' : Data} (h : sweep mu kappa b l bs s false d = some d')
    {c1 c2 : Bound} (hc1 : surfaceOf s.bounds c1.elem = [c1]) (hc2 : surfaceOf s.bounds c2.elem = [c2]) (hd1 : (d.elem c1.elem).deformed = true) (hd2 : (d.elem c2.elem).deformed = true)
    {con : ConRec} (hcon : con ∈ s.mesh.cons) (hdef : con.deformed = true) {j1 s1 j2 s2 : Nat} (hj1 : j1 < 2 ∧ j1 ≠ c1.dim ∧ s1 < 2) (hj2 : j2 < 2 ∧ j2 ≠ c2.dim ∧ s2 < 2) {side : Bool}
    (hs1 : con.side side = .elem c1.elem (2 * j1 + s1)) (hs2 : con.side (!side) = .elem c2.elem (2 * j2 + s2)) :
    ∃ P : Polynomial ℝ, P.degree < l.n ∧ (∀ k < b.n, (d'.elem c1.elem).adj ((2 * c1.dim + c1.sign) * b.n ^ (2 - 1) + k) = sgn c1.sign * P.eval (b.node k)) ∧
      P.eval (s1 : ℝ) = 1 / 2 * (outward b 2 (d.elem c1.elem) c1.dim c1.sign (fun _ => (s1 : ℝ)) + outward b 2 (d.elem c2.elem) c2.dim c2.sign (fun _ => (s2 : ℝ))) := by
  obtain ⟨m1, m2, m3⟩ := mem_surface.1 (show c1 ∈ surfaceOf s.bounds c1.elem by rw [hc1]; simp)
  obtain ⟨n1, n2, n3⟩ := mem_surface.1 (show c2 ∈ surfaceOf s.bounds c2.elem by rw [hc2]; simp)
  obtain ⟨d'', buf0, buf, e1, e2, e3, e4, e5, e6⟩ := sweep_spec hbs.n (by omega) l hm mu kappa false (Or.inl rfl) d
  obtain rfl : d' = d'' := Option.some.inj (h.symm.trans e1)
  have k1 := hs c1 m1
  have k2 := hs c2 n1
  simp only [hnd] at e3 e4 e6 k1 k2
  have x1 : buf0 (.elem c1.elem (2 * j1 + s1)) 0 = outward b 2 (d.elem c1.elem) c1.dim c1.sign (fun _ => (s1 : ℝ)) := by
    rw [e4 _ k1.1 j1 hj1.1 s1 hj1.2.2 0 (by simp; omega), extrap, outward2, Finset.mul_sum, hbs.n]
    refine Finset.sum_congr rfl fun i hi => ?_
    rw [load2 (by omega) hc1 k1.2.1 hj1.1 hj1.2.1 _ _ hd1 (Finset.mem_range.1 hi), hbs.mats.bound_eq hj1.2.2 (Finset.mem_range.1 hi)]
    ring
  have x2 : buf0 (.elem c2.elem (2 * j2 + s2)) 0 = outward b 2 (d.elem c2.elem) c2.dim c2.sign (fun _ => (s2 : ℝ)) := by
    rw [e4 _ k2.1 j2 hj2.1 s2 hj2.2.2 0 (by simp; omega), extrap, outward2, Finset.mul_sum, hbs.n]
    refine Finset.sum_congr rfl fun i hi => ?_
    rw [load2 (by omega) hc2 k2.2.1 hj2.1 hj2.2.1 _ _ hd2 (Finset.mem_range.1 hi), hbs.mats.bound_eq hj2.2.2 (Finset.mem_range.1 hi)]
    ring
  have x3 := e6 con hcon hdef side _ _ hs1 0 (by simp; omega)
  have x4 : buf (.elem c1.elem (2 * j1 + s1)) true 0 = 1 / 2 * (outward b 2 (d.elem c1.elem) c1.dim c1.sign (fun _ => (s1 : ℝ)) + outward b 2 (d.elem c2.elem) c2.dim c2.sign (fun _ => (s2 : ℝ))) := by
    rw [x3, ← x1, ← x2, ← hs1, ← hs2]
    cases side
    · rfl
    · rw [add_comm]; rfl
  have e3' := (Prod.ext_iff.1 (e3 c1.elem)).2
  rw [hc1, List.foldl_cons, List.foldl_nil] at e3'
  change d'.elem c1.elem = _ at e3'
  obtain ⟨P, p1, p2, p3, p4⟩ := newRow_poly (b := b) hl hln.1 h0 h1 (fun i => s.bounds.foldl (loadOne b.n 2 d.elem) (clear b.n s.mesh d.world).state c1.elem (0, pt 2 b.n j1 0 i)) (fun σ => buf (.elem c1.elem (2 * j1 + σ)) true 0)
  refine ⟨P, p1, fun k hk => ?_, ?_⟩
  · rw [e3', store2 (by omega) buf k1.2.1 hj1.1 hj1.2.1 _ _ hd1 hk, p2]
  · rw [← x4]
    rcases (by omega : s1 = 0 ∨ s1 = 1) with h | h
    · rw [h, Nat.cast_zero, p3]
    · rw [h, Nat.cast_one, p4]

/-- Two elements of a two-dimensional mesh that are joined by a connection of faces of the same size, each with one face on the surface; these faces meet at the connection. `s1` and `s2` are the
coordinates of the common end point along the two faces. -/
structure Adjacent (s : Setup) (c1 c2 : Bound) (s1 s2 : Nat) : Prop where
  only1 : surfaceOf s.bounds c1.elem = [c1]
  only2 : surfaceOf s.bounds c2.elem = [c2]
  ends : s1 < 2 ∧ s2 < 2
  joined : ∃ con ∈ s.mesh.cons, con.deformed = true ∧ ∃ side, con.side side = .elem c1.elem (2 * (1 - c1.dim) + s1) ∧ con.side (!side) = .elem c2.elem (2 * (1 - c2.dim) + s2)

theorem Adjacent.symm {c1 c2 : Bound} {s1 s2 : Nat} (h : Adjacent s c1 c2 s1 s2) : Adjacent s c2 c1 s2 s1 := by
  obtain ⟨con, h1, h2, side, h3, h4⟩ := h.joined
  exact ⟨h.only2, h.only1, h.ends.symm, con, h1, h2, !side, h4, by rw [Bool.not_not]; exact h3⟩

theorem snapped2 (hbs : bs.IsOf b) (hb : b.Distinct) (hn : 2 ≤ b.n) (hl : IsLobatto lob) (hm : s.mesh.Ok bs) (hnd : s.mesh.nd = 2) (hs : s.Ok) (h : snapFaces mu kappa b lob u bs s d = .ok d')
    {c1 c2 : Bound} {s1 s2 : Nat} (ha : Adjacent s c1 c2 s1 s2) (hd1 : (d.elem c1.elem).deformed = true) (hd2 : (d.elem c2.elem).deformed = true) :
    ∃ el, snapAll b lob u 2 s.bounds d.elem = .ok el ∧ ∃ P : Polynomial ℝ, P.degree < (max 2 (b.n - 1) : Nat) ∧
      (∀ k < b.n, (d'.elem c1.elem).adj ((2 * c1.dim + c1.sign) * b.n ^ (2 - 1) + k) = sgn c1.sign * P.eval (b.node k)) ∧
      P.eval (s1 : ℝ) = 1 / 2 * (outward b 2 (el c1.elem) c1.dim c1.sign (fun _ => (s1 : ℝ)) + outward b 2 (el c2.elem) c2.dim c2.sign (fun _ => (s2 : ℝ))) := by
  obtain ⟨el, d1, h1, h2, rfl⟩ := snapFaces_ok h
  obtain ⟨m1, m2, m3⟩ := mem_surface.1 (show c1 ∈ surfaceOf s.bounds c1.elem by rw [ha.only1]; simp)
  obtain ⟨n1, n2, n3⟩ := mem_surface.1 (show c2 ∈ surfaceOf s.bounds c2.elem by rw [ha.only2]; simp)
  have k1 := (hs c1 m1).2.1
  have k2 := (hs c2 n1).2.1
  have q := fun e => (snapAll_same (by omega) lob u hm.dim.1 (Touched s) s.bounds d.elem el (fun c hc hg => ⟨c, hc, rfl, rfl, Or.inr hg⟩) h1 e).2.2.2.1
  rw [hnd] at k1 k2 h1 h2
  refine ⟨el, h1, ?_⟩
  obtain ⟨l1, l2, l3, l4⟩ := hl (max 2 (b.n - 1)) (le_max_left _ _)
  obtain ⟨con, hcon, hdef, side, hs1, hs2⟩ := ha.joined
  have h3 : sweep mu kappa b (lob (max 2 (b.n - 1))) bs s false ⟨backup b.n s.mesh d.world, el⟩ = some d1 := h2
  obtain ⟨P, p1, p2, p3⟩ := sweep2 hbs hb hn l2 (by rw [l1]; omega) l3 (by rw [l1]; exact l4) hm hnd hs h3 ha.only1 ha.only2 (by rw [← hd1]; exact q _) (by rw [← hd2]; exact q _) hcon hdef
    (j1 := 1 - c1.dim) (s1 := s1) (j2 := 1 - c2.dim) (s2 := s2) ⟨by omega, by omega, ha.ends.1⟩ ⟨by omega, by omega, ha.ends.2⟩ hs1 hs2
  rw [l1] at p1
  exact ⟨P, p1, p2, p3⟩

/-- C87, two dimensions: where two faces on the surface meet, both are moved by the same amount, the average of the amounts found for each by itself. -/
theorem same_displacement (hbs : bs.IsOf b) (hb : b.Distinct) (hn : 2 ≤ b.n) (hl : IsLobatto lob) (hm : s.mesh.Ok bs) (hnd : s.mesh.nd = 2) (hs : s.Ok) (h : snapFaces mu kappa b lob u bs s d = .ok d')
    {c1 c2 : Bound} {s1 s2 : Nat} (ha : Adjacent s c1 c2 s1 s2) (hd1 : (d.elem c1.elem).deformed = true) (hd2 : (d.elem c2.elem).deformed = true) :
    ∃ el, snapAll b lob u 2 s.bounds d.elem = .ok el ∧
      outward b 2 (d'.elem c1.elem) c1.dim c1.sign (fun _ => (s1 : ℝ)) = 1 / 2 * (outward b 2 (el c1.elem) c1.dim c1.sign (fun _ => (s1 : ℝ)) + outward b 2 (el c2.elem) c2.dim c2.sign (fun _ => (s2 : ℝ))) ∧
      outward b 2 (d'.elem c2.elem) c2.dim c2.sign (fun _ => (s2 : ℝ)) = 1 / 2 * (outward b 2 (el c1.elem) c1.dim c1.sign (fun _ => (s1 : ℝ)) + outward b 2 (el c2.elem) c2.dim c2.sign (fun _ => (s2 : ℝ))) := by
  obtain ⟨el, h1, P, p1, p2, p3⟩ := snapped2 hbs hb hn hl hm hnd hs h ha hd1 hd2
  obtain ⟨el', h1', Q, q1, q2, q3⟩ := snapped2 hbs hb hn hl hm hnd hs h ha.symm hd2 hd1
  obtain rfl : el = el' := by rw [h1] at h1'; cases h1'; rfl
  have key : ∀ (P : Polynomial ℝ), P.degree < (max 2 (b.n - 1) : Nat) → ∀ (e : Elem) (dim σ : Nat), (∀ k < b.n, e.adj ((2 * dim + σ) * b.n ^ (2 - 1) + k) = sgn σ * P.eval (b.node k)) → ∀ x : ℝ,
      outward b 2 e dim σ (fun _ => x) = P.eval x := by
    intro P hP e dim σ he x
    rw [outward2, ← Basis.interpolate_exact hb P (hP.trans_le (by exact_mod_cast (by omega : max 2 (b.n - 1) ≤ b.n))) x, Finset.mul_sum]
    refine Finset.sum_congr rfl fun k hk => ?_
    rw [he k (Finset.mem_range.1 hk), Basis.interpolateCpp_eq]
    linear_combination (ell b k).eval x * P.eval (b.node k) * sgn_sq σ
  refine ⟨el, h1, ?_, ?_⟩
  · rw [key P p1 _ _ _ p2, p3]
  · rw [key Q q1 _ _ _ q2, q3, add_comm]

/-- C87, two dimensions, at least three points per direction: the surface has no gaps. The face is the polynomial through the positions of its quadrature points; where two faces on the surface meet, the
two polynomials have the same value, if the elements have the two vertices of the connection in common and their faces at the connection are straight. -/
theorem watertight (hbs : bs.IsOf b) (hb : b.Distinct) (hn : 3 ≤ b.n) (hl : IsLobatto lob) (hm : s.mesh.Ok bs) (hnd : s.mesh.nd = 2) (hs : s.Ok) (h : snapFaces mu kappa b lob u bs s d = .ok d')
    {c1 c2 : Bound} {s1 s2 : Nat} (ha : Adjacent s c1 c2 s1 s2) (hd1 : (d.elem c1.elem).deformed = true) (hd2 : (d.elem c2.elem).deformed = true)
    (hg1 : ∀ c ∈ s.bounds, c.elem = c1.elem → c ≠ c1 → c.surface = false ∧ c.geom = none) (hg2 : ∀ c ∈ s.bounds, c.elem = c2.elem → c ≠ c2 → c.surface = false ∧ c.geom = none)
    (hu1 : Split.Unwarped b 2 c1.dim (d.elem c1.elem).adj) (hu2 : Split.Unwarped b 2 c2.dim (d.elem c2.elem).adj)
    (hout : corner 2 c1.dim c1.sign (d.elem c1.elem) (fun _ => (s1 : ℝ)) = corner 2 c2.dim c2.sign (d.elem c2.elem) (fun _ => (s2 : ℝ)))
    (hin : corner 2 c1.dim (1 - c1.sign) (d.elem c1.elem) (fun _ => (s1 : ℝ)) = corner 2 c2.dim (1 - c2.sign) (d.elem c2.elem) (fun _ => (s2 : ℝ))) (i : Nat) (hi : i < 2) :
    facePoint b 2 (d'.elem c1.elem) (2 * c1.dim + c1.sign) (fun _ => (s1 : ℝ)) i = facePoint b 2 (d'.elem c2.elem) (2 * c2.dim + c2.sign) (fun _ => (s2 : ℝ)) i := by
  have key : ∀ {c1 c2 : Bound} {s1 s2 : Nat} (ha : Adjacent s c1 c2 s1 s2) (hd1 : (d.elem c1.elem).deformed = true) (hd2 : (d.elem c2.elem).deformed = true)
      (hg1 : ∀ c ∈ s.bounds, c.elem = c1.elem → c ≠ c1 → c.surface = false ∧ c.geom = none) (hu1 : Split.Unwarped b 2 c1.dim (d.elem c1.elem).adj),
      ∃ el, snapAll b lob u 2 s.bounds d.elem = .ok el ∧ facePoint b 2 (d'.elem c1.elem) (2 * c1.dim + c1.sign) (fun _ => (s1 : ℝ)) i =
        corner 2 c1.dim c1.sign (d.elem c1.elem) (fun _ => (s1 : ℝ)) i +
          1 / 2 * (outward b 2 (el c1.elem) c1.dim c1.sign (fun _ => (s1 : ℝ)) + outward b 2 (el c2.elem) c2.dim c2.sign (fun _ => (s2 : ℝ))) *
          (corner 2 c1.dim c1.sign (d.elem c1.elem) (fun _ => (s1 : ℝ)) i - corner 2 c1.dim (1 - c1.sign) (d.elem c1.elem) (fun _ => (s1 : ℝ)) i) := by
    intro c1 c2 s1 s2 ha hd1 hd2 hg1 hu1
    obtain ⟨el, h1, P, p1, p2, p3⟩ := snapped2 hbs hb (by omega) hl hm hnd hs h ha hd1 hd2
    obtain ⟨m1, m2, m3⟩ := mem_surface.1 (show c1 ∈ surfaceOf s.bounds c1.elem by rw [ha.only1]; simp)
    obtain ⟨k1, k2, k3⟩ := hs c1 m1
    rw [hnd] at k2
    obtain ⟨g1, g2, g3, g4, g5⟩ := other_faces hbs (by omega) hm hs h c1.elem
    rw [hnd] at g5
    have hw : Split.Unwarped b 2 c1.dim (d'.elem c1.elem).adj := by
      intro j hj hjd σ hσ k hk
      rw [g5 (2 * j + σ) (fun c hc hce hcf => hg1 c hc hce (by rintro rfl; omega)) k hk]
      exact hu1 j hj hjd σ hσ k hk
    have hmax : max 2 (b.n - 1) = b.n - 1 := by omega
    rw [hmax] at p1
    refine ⟨el, h1, ?_⟩
    rw [FaceSnap.facePoint_eq hb (by omega) (Or.inl rfl) k2 k3 hw i (A := fun x => (C (sgn c1.sign) * P).eval (x 0)) (N := b.n - 1) ?_ (by omega) ?_ _, ← p3, g1]
    · rw [Polynomial.eval_mul, Polynomial.eval_C, corner, corner, if_pos hi, if_pos hi]
      rcases (by omega : c1.sign = 0 ∨ c1.sign = 1) with h | h
      · have h' : 1 - c1.sign = 1 := by omega
        rw [h', h, sgn, if_pos rfl]; ring
      · have h' : 1 - c1.sign = 0 := by omega
        rw [h', h, sgn, if_neg (by norm_num)]; ring
    · refine ⟨[fun _ => C (sgn c1.sign) * P], ?_, fun x => ?_⟩
      · intro p hp k
        rw [List.mem_singleton.1 hp, ← Polynomial.smul_eq_C_mul]
        exact (Polynomial.degree_smul_le _ _).trans_lt p1
      · rw [List.map_singleton, List.sum_singleton]
        exact (FaceSnap.prod1 fun k => Polynomial.eval (x k) (C (sgn c1.sign) * P)).symm
    · intro c
      have hc : c = fun _ => c 0 := funext fun k => congrArg c (Subsingleton.elim (α := Fin 1) _ _)
      rw [hc, FaceSnap.idx1, p2 _ (c 0).isLt, Polynomial.eval_mul, Polynomial.eval_C]
  obtain ⟨el, h1, h2⟩ := key ha hd1 hd2 hg1 hu1
  obtain ⟨el', h1', h2'⟩ := key ha.symm hd2 hd1 hg2 hu2
  obtain rfl : el = el' := by rw [h1] at h1'; cases h1'; rfl
  rw [h2, h2', hout, hin, add_comm (outward b 2 (el c1.elem) _ _ _)]

end
end Hexed.SnapMesh
