import Verif.Metric.Buffers
import Verif.Metric.UniformStep
set_option autoImplicit false
set_option linter.unusedVariables false

/-!
# The metric closes
-/

namespace Hexed.Metric
open Hexed.Spatial Hexed.Pde Hexed.Solver
open Hexed.Connection (Dir matchFaces restore strAt Legal matchFaces_eq restore_match tπ fπ tπ_tπ fπ_fπ tπ_lt fπ_lt)
open MvPolynomial
noncomputable section

variable {bs : BasisData} {b : Basis.Nodes ℝ} {deg : Nat} {s : Shape} {m : Nat} {X : Nat → Nat → MvPolynomial ℕ ℝ}

/-- The normals of a face at its quadrature points, arranged like face storage. -/
def normalOf (s : Shape) (b : Basis.Nodes ℝ) (X : Nat → Nat → MvPolynomial ℕ ℝ) (B : Buf) : Mem := fun a =>
  match s.kernel.faceOf B with
  | some (_, f) => surfaceNormal s X B (a / b.n ^ (s.nd - 1)) (facePoint b s.nd f (a % b.n ^ (s.nd - 1)))
  | none => 0

theorem normalOf_at {B : Buf} {e f : Nat} (h : s.kernel.faceOf B = some (e, f)) (j : Nat) {k : Nat} (hk : k < b.n ^ (s.nd - 1)) :
    normalOf s b X B (j * b.n ^ (s.nd - 1) + k) = surfaceNormal s X B j (facePoint b s.nd f k) := by
  simp only [normalOf, h]
  rw [mul_comm, Nat.mul_add_div (by omega), Nat.div_eq_of_lt hk, Nat.mul_add_mod, Nat.mod_eq_of_lt hk, add_zero]

theorem elem_real {e f : Nat} (he : e ∈ s.elems) (hf : f < 2 * s.nd) : Real s (.elem e f) :=
  Or.inl (List.mem_flatMap.2 ⟨e, he, List.mem_map.2 ⟨f, List.mem_range.2 hf, rfl⟩⟩)

theorem size_ne (hm : s.kernel.Ok bs) {e : Nat} (he : e ∈ s.elems) : (s.elem e).size ≠ 0 := (hm.size e he).ne'

/-- The normals inside elements. -/
theorem elemNormal_exact (hof : bs.IsOf b) (hb : b.Distinct) (hn : 0 < b.n) (hmn : m ≤ b.n) (hm : s.kernel.Ok bs) (hX : InSpace s b m X) (w : World) {e : Nat} (he : e ∈ s.elems) {q j d : Nat} (hq : q < b.n ^ s.nd) (hj : j < s.nd)
    (hd : d < s.nd) : elemNormal s.nd ((s.calcJacobian b bs w).elem e) q j d = eval (elemPos b s.nd (fun _ => 0) 1 q) (inNormal s X e d j) := by
  cases hdef : (s.elem e).deformed
  · rw [cart_normal hX he hdef (size_ne hm he) hd hj]
    simp only [elemNormal, Shape.calcJacobian, hdef]
    simp only [Bool.false_eq_true, if_false, eq_comm]
  · simp only [elemNormal, Shape.calcJacobian, hdef, if_true]
    rw [mul_comm d, Nat.mul_add_div (by omega), Nat.div_eq_of_lt hj, Nat.mul_add_mod, Nat.mod_eq_of_lt hj, add_zero, inNormal, eval_minor]
    exact minor_congr fun r hr c hc _ => jac_exact hof hb hn hmn hX he hq hr hc

/-- The divergence of the normals vanishes. -/
theorem seal_closed (hof : bs.IsOf b) (hb : GoodNodes b deg) (hm1 : 1 ≤ m) (hmn : m ≤ b.n) (hmd : (s.nd - 1) * (m - 1) + b.n ≤ deg + 2) (hmr : s.refs ≠ [] → (s.nd - 1) * (m - 1) ≤ b.n) (hm : s.kernel.Ok bs) (hX : InSpace s b m X) (w : World) {e : Nat} (he : e ∈ s.elems)
    {q j : Nat} (hq : q < b.n ^ s.nd) (hj : j < s.nd) :
    ∑ d ∈ Finset.range s.nd, deriv2 bs (fun i _ => elemNormal s.nd ((s.calcJacobian b bs w).elem e) (pt s.nd bs.n d (rowOf s.nd bs.n d q) i) j d)
      (fun σ _ => normalOf s b X (.elem e (2 * d + σ)) (j * bs.n ^ (s.nd - 1) + rowOf s.nd bs.n d q)) (nodeOf s.nd bs.n d q) 0 = 0 := by
  have h := congrArg (eval (elemPos b s.nd (fun _ => 0) 1 q)) (piola hm.dim (fun r => C (s.elem e).size⁻¹ * X e r) hj)
  rw [map_sum, map_zero] at h
  rw [← h]
  refine Finset.sum_congr rfl fun d hd => ?_
  have hd : d < s.nd := Finset.mem_range.1 hd
  have hD := inNormal_degree hm.dim hm1 hX he hd hj hd
  rw [if_pos rfl, Nat.sub_zero] at hD
  refine deriv_field (nd := s.nd) (P := inNormal s X e d j) hof hb.exact hb.pos hb.deg hd (by omega) q (fun i hi => ?_) fun σ hσ => ?_
  · rw [elemNormal_exact hof hb.exact.distinct hb.pos hmn hm hX w he ?_ hj hd]
    have := pt_lt (nd := s.nd) (id := d) hb.pos hd (rowOf_lt hb.pos hd hq) (by rw [hof.n] at hi; exact hi)
    rwa [hof.n]
  · have hk : rowOf s.nd bs.n d q < b.n ^ (s.nd - 1) := by rw [hof.n]; exact rowOf_lt hb.pos hd hq
    rw [show bs.n ^ (s.nd - 1) = b.n ^ (s.nd - 1) by rw [hof.n], normalOf_at (e := e) (f := 2 * d + σ) rfl j hk, normal_elem, facePoint_self, facePoint, show (2 * d + σ) / 2 = d by omega,
      show (2 * d + σ) % 2 = σ by omega]

theorem seal_hang (hof : bs.IsOf b) (hb : GoodNodes b deg) (hm1 : 1 ≤ m) (hmd : (s.nd - 1) * (m - 1) + b.n ≤ deg + 2) (hmr : s.refs ≠ [] → (s.nd - 1) * (m - 1) ≤ b.n) (hm : s.kernel.Ok bs) (hX : InSpace s b m X) {r : RefRec} (hr : r ∈ s.refs) {j k : Nat} (hj : j < s.nd)
    (hk : k < b.n ^ (s.nd - 1)) : ∑ i ∈ Finset.range (nFace s.nd r.str), restricted bs s.nd true r i (normalOf s b X (r.fine i)) j k = normalOf s b X r.coarse (j * b.n ^ (s.nd - 1) + k) := by
  obtain ⟨l, hl⟩ := List.mem_iff_getElem?.1 hr
  obtain ⟨⟨e, f, hco⟩, hfine⟩ := hm.fine l r hl
  obtain ⟨he, hf⟩ := coarse_elem hm hr hco
  have hd : f / 2 < s.nd := by omega
  have hrow := hb.row
  have hdeg := hb.deg
  have hfo : ∀ i, s.kernel.faceOf (.mortar l i) = some (e, f) := fun i => by simp [Mesh.faceOf, Shape.kernel, hl, hco]
  set M := max 1 ((s.nd - 1) * (m - 1)) with hM
  have hP : PolyIn s.nd M fun x => fieldOf (inNormal s X e (f / 2) j) (Function.update x (f / 2) ((f % 2 : Nat) : ℝ)) := by
    refine polyIn_face (by omega) (fun i hi hid => ?_) _
    have := inNormal_degree hm.dim hm1 hX he hd hj hi
    rw [if_neg hid] at this
    omega
  have key := restrict_str (nd := s.nd) hof hb.exact hb.pos hm.dim (m := M) (by omega) (by omega) hP hd ((f % 2 : Nat) : ℝ) (fun _ => 0) 1 (1 / stretchFac true) (strFac s.nd 2 r.str) r.str ?_ (j * b.n ^ (s.nd - 1))
    (fun i => normalOf s b X (r.fine i)) ?_ k hk
  · refine Eq.trans ?_ (key.trans ?_)
    · refine Finset.sum_congr rfl fun i hi => ?_
      rw [restricted, hof.n]
    · rw [hco, normalOf_at (e := e) (f := f) rfl j hk, normal_elem]
      rfl
  · rw [strFac, strFac, ← List.prod_map_mul]
    refine List.prod_eq_one fun x hx => ?_
    obtain ⟨l, _, rfl⟩ := List.mem_map.1 hx
    split_ifs <;> simp [stretchFac]
  · intro i hi k hk
    rw [hfine i hi, normalOf_at (hfo i) j hk, normal_mortar hm.dim X hl hco hf hi j _ ?_ (size_ne hm he)]
    · congr 1
      rw [fieldOf]
      congr 2
      funext a
      rw [Function.update_apply, gridPos]
      by_cases ha : a = f / 2
      · rw [if_pos ha, if_pos ha]
      · rw [if_neg ha, if_neg ha, if_neg ha]
        by_cases han : a < s.nd
        · rw [if_pos han, if_pos han, facePoint, facePos, if_neg ha, if_pos han]; ring
        · rw [if_neg han, if_neg han]
    · intro a ha
      rw [facePoint, facePos, if_neg (by omega), if_neg (by omega)]

theorem cart_dir {d : Dir} (h : d.i1 = d.i0 ∧ d.s0 = true ∧ d.s1 = false) (nd n k : Nat) : fπ nd n d (tπ nd n d k) = k ∧ ∀ sd, flipSign d sd = 1 := by
  obtain ⟨hi, h0, h1⟩ := h
  constructor
  · have h1 : d.flipTangential = false := by simp [Dir.flipTangential, hi]
    have h2 : d.transpose = false := by
      rw [Dir.transpose, hi]
      generalize d.i0 = i
      revert i; decide
    simp [fπ, tπ, h1, h2]
  · intro sd
    rw [flipSign_eq]
    cases sd <;> simp [Dir.flipNormal, h0, h1, Dir.faceSign]

/-- The normals of Cartesian connections. -/
theorem flat_unit (hb : GoodNodes b deg) (hm : s.kernel.Ok bs) (hX : InSpace s b m X) (hK : Kinds s) {c : ConRec} (hc : c ∈ s.cons) (hdef : c.deformed = false) {sd : Bool} (hg : (c.side sd).isGhost = false) {j k : Nat} (hj : j < s.nd)
    (hk : k < b.n ^ (s.nd - 1)) : normalOf s b X (c.side sd) (j * b.n ^ (s.nd - 1) + k) = if j = c.dir.i0.val then 1 else 0 := by
  have hleg := hm.legal c hc
  have hdir := hleg.2 hdef
  obtain ⟨hrev, hsg⟩ := cart_dir hdir s.nd b.n k
  have unit : ∀ sd e f, s.kernel.faceOf (c.side sd) = some (e, f) → (s.elem e).deformed = false → normalOf s b X (c.side sd) (j * b.n ^ (s.nd - 1) + k) = if j = c.dir.i0.val then 1 else 0 := by
    intro sd e f hfo hcart
    have hng : (c.side sd).isGhost = false := by
      cases hs : c.side sd with
      | ghost g => rw [hs] at hfo; cases hfo
      | elem e f => rfl
      | mortar r i => rfl
    obtain ⟨e', hf'⟩ := hm.face c hc sd hng
    rw [hfo] at hf'
    simp only [Option.some.injEq, Prod.mk.injEq] at hf'
    have hf2 : f / 2 = c.dir.i0.val := by
      rw [hf'.2, face_half]
      cases sd
      · rfl
      · exact congrArg Fin.val hdir.1
    rw [normalOf_at hfo j hk]
    rcases real_cases hm (side_real hm hc hng) with ⟨e1, he1, f1, hf1, hs⟩ | ⟨r, rr, e1, f1, i, hr, hco, he1, hf1, hi, hs, _⟩
    · rw [hs] at hfo ⊢
      have : e1 = e ∧ f1 = f := by simpa [Mesh.faceOf] using hfo
      obtain ⟨rfl, rfl⟩ := this
      rw [normal_elem, cart_normal hX he1 hcart (size_ne hm he1) (by omega) hj, hf2]
      simp only [eq_comm]
    · rw [hs] at hfo ⊢
      have : e1 = e ∧ f1 = f := by simpa [Mesh.faceOf, Shape.kernel, hr, hco] using hfo
      obtain ⟨rfl, rfl⟩ := this
      have hstr := hK.stretch r rr hr (by rw [← (hK.fine c hc sd r i hs).1]; exact hdef)
      rw [normal_mortar hm.dim X hr hco hf1 hi j _ (fun a ha => by rw [facePoint, facePos, if_neg (by omega), if_neg (by omega)]) (size_ne hm he1), cart_normal hX he1 hcart (size_ne hm he1) (by omega) hj, hf2, hstr]
      simp only [strFac, strAt, eq_comm]
      simp
  obtain ⟨sd', e, f, hfo, hcart⟩ := hK.flat c hc hdef
  have h' := unit sd' e f hfo hcart
  by_cases hsd : sd = sd'
  · rw [hsd]; exact h'
  · have hgt : (c.side true).isGhost = false := by
      cases sd
      · cases sd'
        · exact absurd rfl hsd
        · cases hs : c.side true with
          | ghost g => rw [hs] at hfo; cases hfo
          | elem e f => rfl
          | mortar r i => rfl
      · exact hg
    obtain ⟨e0, h0⟩ := hm.face c hc false (hm.ghost c hc)
    obtain ⟨e1, h1⟩ := hm.face c hc true hgt
    have := node_meet hb hm hX hc hgt h0 h1 (j := j) hk
    rw [hrev, hsg, hsg, one_mul, one_mul, ← normalOf_at h0 j hk, ← normalOf_at h1 j hk] at this
    cases sd <;> cases sd' <;> simp_all

theorem sideSign_flip (d : Dir) (sd : Bool) : sideSign true d sd = flipSign d sd := by
  rw [sideSign, flipSign_eq, Bool.true_and]

/-- The kernel mesh and the mesh with metric have the same connectivity. -/
theorem sides_map (l : List ConRec) (f : ConRec → Mem) : (l.map fun c => { c with normal := f c }).flatMap (fun c => [c.side false, c.side true]) = l.flatMap fun c => [c.side false, c.side true] := by
  rw [List.flatMap_map]

theorem jacDet_ne (hof : bs.IsOf b) (hb : GoodNodes b deg) (hmn : m ≤ b.n) (hm : s.kernel.Ok bs) (hX : InSpace s b m X) {e : Nat} (he : e ∈ s.elems) {q : Nat} (hq : q < b.n ^ s.nd) : jacDet s.nd ((s.elem e).jac b bs s.nd q) ≠ 0 := by
  have hr := hX.regular e he (elemPos b s.nd (fun _ => 0) 1 q) fun i hi => by
    rw [elemPos, if_pos hi, zero_add, one_mul]
    exact hb.unit _ (Nat.mod_lt _ hb.pos)
  have : jacDet s.nd ((s.elem e).jac b bs s.nd q) = (s.elem e).size⁻¹ ^ s.nd * volume s X e (elemPos b s.nd (fun _ => 0) 1 q) := by
    rw [jacDet, volume]
    have := Matrix.det_smul (Matrix.of fun r c : Fin s.nd => partialD c.val (fun x => eval x (X e r.val)) (elemPos b s.nd (fun _ => 0) 1 q)) (s.elem e).size⁻¹
    rw [Fintype.card_fin] at this
    rw [← this]
    congr 1
    ext r c
    simp only [Matrix.of_apply, Matrix.smul_apply, smul_eq_mul]
    rw [jac_exact hof hb.exact.distinct hb.pos hmn hX he hq r.2 c.2, grad_eval, div_eq_inv_mul]
    rfl
  rw [this]
  exact mul_ne_zero (pow_ne_zero _ (inv_ne_zero (size_ne hm he))) hr

theorem metric_ok (hof : bs.IsOf b) (hb : GoodNodes b deg) (hmn : m ≤ b.n) (hm : s.kernel.Ok bs) (hX : InSpace s b m X) (w : World) : (s.calcJacobian b bs w).Ok bs := by
  have hsd : (s.calcJacobian b bs w).sides = s.kernel.sides := sides_map _ _
  refine ⟨hm.dim, hm.size, ?_, ?_, ?_, hm.fine, ?_, ?_, ?_, ?_⟩
  · intro e he q hq
    simp only [ElemRec.det, Shape.calcJacobian]
    cases hdef : (s.elem e).deformed
    · simp
    · rw [if_pos rfl]
      exact jacDet_ne hof hb hmn hm hX he (by rw [← hof.n]; exact hq)
  · rw [hsd]; exact hm.nodup
  · rw [hsd]; exact hm.cover
  all_goals
    intro c' hc'
    obtain ⟨c, hc, rfl⟩ := List.mem_map.1 hc'
  · exact hm.legal c hc
  · exact hm.ghost c hc
  · exact hm.face c hc
  · exact hm.sizes c hc

/-- A face whose element has no data for its normals. -/
theorem bare_unit (hof : bs.IsOf b) (hb : GoodNodes b deg) (hm1 : 1 ≤ m) (hmd : (s.nd - 1) * (m - 1) + b.n ≤ deg + 2) (hmr : s.refs ≠ [] → (s.nd - 1) * (m - 1) ≤ b.n) (hm : s.kernel.Ok bs) (hX : InSpace s b m X) (hK : Kinds s) {e f : Nat} (he : e ∈ s.elems) (hf : f < 2 * s.nd)
    (hno : s.hasNormal (.elem e f) = false) {j k : Nat} (hj : j < s.nd) (hk : k < b.n ^ (s.nd - 1)) : normalOf s b X (.elem e f) (j * b.n ^ (s.nd - 1) + k) = if j = f / 2 then 1 else 0 := by
  have hmem : Buf.elem e f ∈ s.kernel.sides ++ s.kernel.coarseBufs := hm.cover.mem_iff.2 (List.mem_append.2 (Or.inl (List.mem_append.2 (elem_real he hf))))
  simp only [Shape.hasNormal, Bool.or_eq_false_iff, List.any_eq_false] at hno
  have onCon : ∀ B, B ∈ s.kernel.sides → ∃ c ∈ s.cons, ∃ sd, c.side sd = B := by
    intro B h
    obtain ⟨c, hc, h⟩ := List.mem_flatMap.1 h
    simp only [List.mem_cons, List.not_mem_nil, or_false] at h
    rcases h with h | h
    · exact ⟨c, hc, false, h.symm⟩
    · exact ⟨c, hc, true, h.symm⟩
  have dirOf : ∀ c ∈ s.cons, c.deformed = false → ∀ sd e f, s.kernel.faceOf (c.side sd) = some (e, f) → (c.side sd).isGhost = false → c.dir.i0.val = f / 2 := by
    intro c hc hdef sd e f hfo hng
    obtain ⟨e', hf'⟩ := hm.face c hc sd hng
    rw [hfo] at hf'
    simp only [Option.some.injEq, Prod.mk.injEq] at hf'
    rw [hf'.2, face_half]
    cases sd
    · rfl
    · exact congrArg Fin.val ((hm.legal c hc).2 hdef).1.symm
  rcases List.mem_append.1 hmem with h | h
  · obtain ⟨c, hc, sd, hs⟩ := onCon _ h
    have hdef : c.deformed = false := by
      have := hno.1 c hc
      cases sd <;> simp_all
    have := flat_unit hb hm hX hK hc hdef (sd := sd) (by rw [hs]; rfl) hj hk
    rw [hs, dirOf c hc hdef sd e f (by rw [hs]; rfl) (by rw [hs]; rfl)] at this
    exact this
  · obtain ⟨r, hr, hco⟩ := List.mem_map.1 h
    obtain ⟨l, hl⟩ := List.mem_iff_getElem?.1 hr
    have hdef : s.refDef l = false := by
      have := hno.2 (r, l) (by rw [List.mem_zipIdx_iff_getElem?]; exact hl)
      simpa [hco] using this
    have hstr := hK.stretch l r hl hdef
    obtain ⟨_, hfine⟩ := hm.fine l r hl
    have hfo : ∀ i, s.kernel.faceOf (.mortar l i) = some (e, f) := fun i => by
      have : s.kernel.refs[l]? = some r := hl
      simp [Mesh.faceOf, this, hco]
    rw [← hco, ← seal_hang hof hb hm1 hmd hmr hm hX hr hj hk]
    have hu : ∀ i < nFace s.nd r.str, ∀ k < b.n ^ (s.nd - 1), normalOf s b X (r.fine i) (j * b.n ^ (s.nd - 1) + k) = if j = f / 2 then 1 else 0 := by
      intro i hi k hk
      have hB : Buf.mortar l i ∈ s.kernel.sides := by
        have hin : Buf.mortar l i ∈ s.kernel.sides ++ s.kernel.coarseBufs := by
          refine hm.cover.mem_iff.2 (List.mem_append.2 (Or.inl (List.mem_append.2 (Or.inr ?_))))
          exact List.mem_flatMap.2 ⟨r, hr, List.mem_map.2 ⟨i, List.mem_range.2 hi, hfine i hi⟩⟩
        rcases List.mem_append.1 hin with h | h
        · exact h
        · obtain ⟨r', hr', hco'⟩ := List.mem_map.1 h
          obtain ⟨l', hl'⟩ := List.mem_iff_getElem?.1 hr'
          obtain ⟨⟨e', f', h'⟩, _⟩ := hm.fine l' r' hl'
          rw [h'] at hco'; cases hco'
      obtain ⟨c, hc, sd, hs⟩ := onCon _ hB
      have hcd : c.deformed = false := by rw [(hK.fine c hc sd l i hs).1]; exact hdef
      rw [hfine i hi, ← hs, flat_unit hb hm hX hK hc hcd (sd := sd) (by rw [hs]; rfl) hj hk, dirOf c hc hcd sd e f (by rw [hs]; exact hfo i) (by rw [hs]; rfl)]
    have hrow := hb.row
    have hdg := hb.deg
    have := restrict_str (nd := s.nd) hof hb.exact hb.pos hm.dim Nat.one_pos (by omega : 1 + b.n ≤ deg + 2) (f := fun _ => if j = f / 2 then (1 : ℝ) else 0) (polyIn_const s.nd _ fun _ => rfl) (d := 0) (by have := hm.dim; exact this.1) 0 (fun _ => 0) 1 (1 / stretchFac true) 1 r.str
      (by rw [hstr]; simp [strFac, strAt]) (j * b.n ^ (s.nd - 1)) (fun i => normalOf s b X (r.fine i)) (fun i hi k hk => by rw [hu i hi k hk, one_mul]) k hk
    rw [← this]
    refine Finset.sum_congr rfl fun i hi => ?_
    rw [restricted, hof.n]

/-- The metric which `calc_jacobian` computes closes. -/
theorem metric_sealed (hof : bs.IsOf b) (hb : GoodNodes b deg) (hm1 : 1 ≤ m) (hmn : m ≤ b.n) (hmd : (s.nd - 1) * (m - 1) + b.n ≤ deg + 2) (hmr : s.refs ≠ [] → (s.nd - 1) * (m - 1) ≤ b.n) (hm : s.kernel.Ok bs) (hX : InSpace s b m X) (hK : Kinds s) (w : World) :
    Sealed bs (s.calcJacobian b bs w) (normalOf s b X) := by
  have hbd := hb.exact.distinct
  have hn := hb.pos
  have hE := normals_exact hof hb hm1 hmn hmr hm hX hK w
  have hbuf : ∀ B, Real s B → ∀ e f, s.kernel.faceOf B = some (e, f) → ∀ j < s.nd, ∀ k < b.n ^ (s.nd - 1), (s.normals b bs w).buf B false (j * b.n ^ (s.nd - 1) + k) = normalOf s b X B (j * b.n ^ (s.nd - 1) + k) := by
    intro B hB e f hfo j hj k hk
    rw [hE B hB e f hfo j hj k hk, normalOf_at hfo j hk]
  refine ⟨?_, ?_, ?_, ?_, ?_⟩ <;> rw [hof.n]
  · intro e he g hg f hf j hj k hk
    have hdef : (s.elem e).deformed = true := by
      by_contra h
      rw [show ((s.calcJacobian b bs w).elem e).geom = none from if_neg h] at hg
      cases hg
    have hgeom : ((s.calcJacobian b bs w).elem e).geom = some _ := if_pos hdef
    simp only [faceNormals, hgeom]
    cases hh : s.hasNormal (.elem e f)
    · simp only [Bool.false_eq_true, if_false, Option.getD_none]
      refine Eq.trans ?_ (bare_unit hof hb hm1 hmd hmr hm hX hK he hf hh hj hk).symm
      show (if (j * b.n ^ (s.nd - 1) + k) / b.n ^ (s.nd - 1) = f / 2 then (1 : ℝ) else 0) = _
      have hk' : k < b.n ^ (s.nd - 1) := hk
      rw [mul_comm, Nat.mul_add_div (by omega), Nat.div_eq_of_lt hk', add_zero]
    · simp only [if_true, Option.getD_some]
      exact hbuf _ (elem_real he hf) e f rfl j hj k hk
  · intro e he q hq j hj
    have := seal_closed hof hb hm1 hmn hmd hmr hm hX w he hq hj
    rw [hof.n] at this
    exact this
  · intro c' hc' j hj k hk
    obtain ⟨c, hc, rfl⟩ := List.mem_map.1 hc'
    obtain ⟨e0, h0⟩ := hm.face c hc false (hm.ghost c hc)
    show normalOf s b X (c.side false) (j * b.n ^ (s.nd - 1) + k) = sideSign c.deformed c.dir false * conNormal c.deformed c.dir (b.n ^ (s.nd - 1)) (if c.deformed then (s.normals b bs w).buf (c.side false) false else c.normal) k j
    cases hdef : c.deformed
    · rw [flat_unit hb hm hX hK hc hdef (hm.ghost c hc) hj hk]
      simp [conNormal, sideSign]
    · rw [if_pos rfl, conNormal, if_pos rfl, hbuf _ (side_real hm hc (hm.ghost c hc)) _ _ h0 j hj k hk, sideSign_flip, ← mul_assoc, flipSign_sq, one_mul]
  · intro c' hc' hg j hj k hk
    obtain ⟨c, hc, rfl⟩ := List.mem_map.1 hc'
    have hg : (c.side true).isGhost = false := hg
    obtain ⟨e0, h0⟩ := hm.face c hc false (hm.ghost c hc)
    obtain ⟨e1, h1⟩ := hm.face c hc true hg
    show normalOf s b X (c.side true) (j * b.n ^ (s.nd - 1) + k) = sideSign c.deformed c.dir true * conNormal c.deformed c.dir (b.n ^ (s.nd - 1)) (if c.deformed then (s.normals b bs w).buf (c.side false) false else c.normal) (if c.deformed then fπ s.nd b.n c.dir (tπ s.nd b.n c.dir k) else k) j
    cases hdef : c.deformed
    · rw [flat_unit hb hm hX hK hc hdef hg hj hk]
      simp [conNormal, sideSign]
    · rw [if_pos rfl, if_pos rfl, conNormal, if_pos rfl]
      have hk1 : fπ s.nd b.n c.dir (tπ s.nd b.n c.dir k) < b.n ^ (s.nd - 1) := fπ_lt s.nd b.n hm.dim c.dir _ (tπ_lt s.nd b.n hm.dim c.dir k hk)
      have := node_meet hb hm hX hc hg h0 h1 (j := j) hk
      rw [hE _ (side_real hm hc (hm.ghost c hc)) _ _ h0 j hj _ hk1, sideSign_flip, sideSign_flip, this, ← mul_assoc, flipSign_sq, one_mul, normalOf_at h1 j hk]
  · intro r hr j hj k hk
    have := seal_hang hof hb hm1 hmd hmr hm hX hr hj hk
    exact this

/-- Normals of boundary faces are not zero. -/
theorem bound_nonzero (hof : bs.IsOf b) (hb : GoodNodes b deg) (hm1 : 1 ≤ m) (hmn : m ≤ b.n) (hmd : (s.nd - 1) * (m - 1) + b.n ≤ deg + 2) (hmr : s.refs ≠ [] → (s.nd - 1) * (m - 1) ≤ b.n) (hm : s.kernel.Ok bs) (hX : InSpace s b m X) (hK : Kinds s) (w : World) :
    ∀ c ∈ (s.calcJacobian b bs w).cons, (c.side true).isGhost = true → ∀ k < bs.n ^ (s.nd - 1), ∃ j < s.nd, c.normal (j * bs.n ^ (s.nd - 1) + k) ≠ 0 := by
  intro c' hc' hg k hk
  obtain ⟨c, hc, rfl⟩ := List.mem_map.1 hc'
  obtain ⟨hdef, _, _, e, f, hs⟩ := hK.bound c hc hg
  have hreal := side_real hm hc (hm.ghost c hc)
  have hE := normals_exact hof hb hm1 hmn hmr hm hX hK w
  rw [hof.n] at hk ⊢
  obtain ⟨he, hf⟩ : e ∈ s.elems ∧ f < 2 * s.nd := by
    rcases real_cases hm hreal with ⟨e1, he1, f1, hf1, hs1⟩ | ⟨r, rr, e1, f1, i, _, _, _, _, _, hs1, _⟩
    · rw [hs] at hs1
      obtain ⟨rfl, rfl⟩ := Buf.elem.inj hs1
      exact ⟨he1, hf1⟩
    · rw [hs] at hs1; cases hs1
  have hr := hX.regular e he (facePoint b s.nd f k) fun i hi => by
    rw [facePoint, facePos]
    split_ifs with h
    · have : f % 2 = 0 ∨ f % 2 = 1 := by omega
      rcases this with h | h <;> rw [h] <;> norm_num
    · rw [zero_add, one_mul]
      exact hb.unit _ (Nat.mod_lt _ hb.pos)
  have hdet : jacDet s.nd (fun r c => eval (facePoint b s.nd f k) (grad s X e r c)) ≠ 0 := by
    have : jacDet s.nd (fun r c => eval (facePoint b s.nd f k) (grad s X e r c)) = (s.elem e).size⁻¹ ^ s.nd * volume s X e (facePoint b s.nd f k) := by
      rw [jacDet, volume]
      have := Matrix.det_smul (Matrix.of fun r c : Fin s.nd => partialD c.val (fun x => eval x (X e r.val)) (facePoint b s.nd f k)) (s.elem e).size⁻¹
      rw [Fintype.card_fin] at this
      rw [← this]
      congr 1
      ext r c
      simp only [Matrix.of_apply, Matrix.smul_apply, smul_eq_mul]
      rw [grad_eval, div_eq_inv_mul]
      rfl
    rw [this]
    exact mul_ne_zero (pow_ne_zero _ (inv_ne_zero (size_ne hm he))) hr
  obtain ⟨j, hj, hnz⟩ := minor_nonzero (d := f / 2) (by omega) hdet
  refine ⟨j, hj, ?_⟩
  show (if c.deformed then (s.normals b bs w).buf (c.side false) false else c.normal) _ ≠ 0
  rw [if_pos hdef, hs, hE _ (elem_real he hf) e f rfl j hj k hk, normal_elem, facePoint_self, inNormal, eval_minor]
  exact hnz

end
end Hexed.Metric
