import Verif.Split.Create
import Verif.Basis.Props
set_option autoImplicit false
set_option linter.unusedVariables false

/-!
# Lemmas: `extrude` and `split_layers` cut the elements of the layer into parts
-/

namespace Hexed.Split
open Hexed.Spatial Hexed.Metric
open Hexed.RowIndex (RowIndex rows)
open Polynomial
noncomputable section

/-! ## State -/

theorem matRow_sum (n : Nat) (M : Nat → Nat → ℝ) (row : Nat → Nat → ℝ) (i v : Nat) : matRow n M row i v = ∑ j ∈ Finset.range n, M i j * row j v := by
  rw [matRow, Basis.range_sum]

/-- The coordinate at which the polynomial is evaluated. -/
theorem interp_coord (f : Face) (o x : ℝ) :
    x * width o false + ((false == f.sign).toNat : ℝ) * (1 - width o false) = atDist f.sign (o + (1 - o) * atDist f.sign x) ∧
    x * width o true + ((true == f.sign).toNat : ℝ) * (1 - width o true) = atDist f.sign (0 + (o - 0) * atDist f.sign x) := by
  rcases f with ⟨e, i, sg⟩
  cases sg <;> simp [width, atDist] <;> constructor <;> ring

theorem splitState_poly {b : Basis.Nodes ℝ} (hb : b.Distinct) (hn : 0 < b.n) {nd nvar : Nat} {f : Face} (hi : f.i_dim < nd) (o : ℝ) (s : Arr × Arr) {v k : Nat} (hv : v < nvar) (hk : k < b.n ^ (nd - 1))
    (p : ℝ[X]) (hp : p.degree < b.n) (hs : ∀ x < b.n, s.1 (v, pt nd b.n f.i_dim k x) = p.eval (b.node x)) {x : Nat} (hx : x < b.n) :
    (splitState b nd nvar f o s).1 (v, pt nd b.n f.i_dim k x) = p.eval (atDist f.sign (o + (1 - o) * atDist f.sign (b.node x))) ∧
    (splitState b nd nvar f o s).2 (v, pt nd b.n f.i_dim k x) = p.eval (atDist f.sign (0 + (o - 0) * atDist f.sign (b.node x))) := by
  have val : ∀ (ie : Bool) (d : Arr), (∀ x < b.n, d (v, pt nd b.n f.i_dim k x) = p.eval (b.node x)) →
      matRow b.n (interpMat b f o ie) (readRow d 0 (RowIndex.after nd b.n f.i_dim k)) x v = p.eval (b.node x * width o ie + ((ie == f.sign).toNat : ℝ) * (1 - width o ie)) := by
    intro ie d hd
    rw [matRow_sum, ← Basis.interpolate_exact hb p hp]
    refine Finset.sum_congr rfl fun j hj => ?_
    rw [interpMat, readRow, qpoint_pt nd b.n f.i_dim hn hi, Nat.zero_add, hd j (Finset.mem_range.1 hj)]
  constructor
  · have h := (rows_write nd b.n f.i_dim hn hi nvar 0 0 (fun d r => matRow b.n (interpMat b f o false) (readRow d 0 r)) (by
      intro k' m m' hk' hm i v' hv'
      simp only [matRow_sum]
      refine Finset.sum_congr rfl fun j hj => ?_
      simp only [readRow, qpoint_pt nd b.n f.i_dim hn hi]
      rw [hm v' hv' j (Finset.mem_range.1 hj)]) s.1).1 v hv k hk x hx
    rw [Nat.zero_add, zero_mul, zero_add, val false s.1 hs, (interp_coord f o _).1] at h
    exact h
  · have h := (rows_write nd b.n f.i_dim hn hi nvar 0 0 (fun d r => matRow b.n (interpMat b f o true) (readRow s.1 0 r)) (fun _ _ _ _ _ _ _ _ => rfl) s.2).1 v hv k hk x hx
    rw [Nat.zero_add, zero_mul, zero_add, val true s.1 hs, (interp_coord f o _).2] at h
    exact h

/-! ## Parts of parts -/

theorem atDist_atDist (sg : Bool) (t : ℝ) : atDist sg (atDist sg t) = t := by cases sg <;> simp [atDist]

/-- The affine map of coordinates as a polynomial. -/
def partMap (sg : Bool) (near far : ℝ) : ℝ[X] := if sg then 1 - (C near + C (far - near) * (1 - X)) else C near + C (far - near) * X

theorem partMap_eval (sg : Bool) (near far x : ℝ) : (partMap sg near far).eval x = atDist sg (near + (far - near) * atDist sg x) := by
  cases sg <;> simp [partMap, atDist]

theorem partMap_degree (sg : Bool) (near far : ℝ) : (partMap sg near far).natDegree ≤ 1 := by
  cases sg <;> (simp only [partMap, if_true, if_false, Bool.false_eq_true]; compute_degree)

theorem comp_degree_lt {n : Nat} {p q : ℝ[X]} (hp : p.degree < n) (hq : q.natDegree ≤ 1) : (p.comp q).degree < n := by
  by_cases h0 : p = 0
  · subst h0; simpa using hp
  · have h1 : p.natDegree < n := (natDegree_lt_iff_degree_lt h0).2 hp
    refine lt_of_le_of_lt degree_le_natDegree ?_
    have : (p.comp q).natDegree ≤ p.natDegree * 1 := natDegree_comp_le.trans (Nat.mul_le_mul_left _ hq)
    exact_mod_cast lt_of_le_of_lt this (by omega)

theorem IsPart.trans {b : Basis.Nodes ℝ} {nvar : Nat} {m m' m'' : Mesh} {i : Nat} {sg : Bool} {e0 e e' : Nat} {a c a' c' : ℝ} (hnd : m'.nd = m.nd)
    (h : IsPart b nvar m m' i sg e0 e a c) (h' : IsPart b nvar m' m'' i sg e e' a' c') : IsPart b nvar m m'' i sg e0 e' (a + (c - a) * a') (a + (c - a) * c') := by
  refine ⟨h'.size.trans h.size, fun r hr k hk t => ?_, fun v hv k hk p hp hs x hx => ?_⟩
  · rw [h'.geometry r (hnd ▸ hr) k (hnd ▸ hk), h.geometry r hr k hk]
    congr 2; ring
  · have := h'.state v hv k (hnd ▸ hk) (p.comp (partMap sg a c)) (comp_degree_lt hp (partMap_degree sg a c)) (fun y hy => by
      rw [hnd, h.state v hv k hk p hp hs y hy, eval_comp, partMap_eval]) x hx
    rw [hnd] at this
    rw [this, eval_comp, partMap_eval, atDist_atDist]
    congr 2; ring

theorem IsPart.refl (b : Basis.Nodes ℝ) (nvar : Nat) {m m' : Mesh} (i : Nat) (sg : Bool) {e : Nat} (hnd : m'.nd = m.nd) (hsize : m'.size e = m.size e) (hvid : m'.vid e = m.vid e)
    (hpos : ∀ v < 2 ^ m.nd, m'.pos (m.vid e v) = m.pos (m.vid e v)) (hadj : m'.adj e = m.adj e) (hst : m'.state e = m.state e) : IsPart b nvar m m' i sg e e 0 1 := by
  refine ⟨hsize, fun r hr k hk t => ?_, fun v hv k hk p hp hs x hx => ?_⟩
  · rw [Mesh.line, Mesh.line, hnd, hvid, hadj, show (0 : ℝ) + (1 - 0) * t = t by ring]
    simp only [line]
    congr 1
    · exact Finset.sum_congr rfl fun v hv => by rw [hpos v (Finset.mem_range.1 hv)]
    · congr 1
      exact Finset.sum_congr rfl fun v hv => by rw [hpos v (Finset.mem_range.1 hv)]
  · rw [hst, hs x hx, show (0 : ℝ) + (1 - 0) * atDist sg (b.node x) = atDist sg (b.node x) by ring, atDist_atDist]

/-! ## One extrusion -/

/-- The mesh after `extrude`. -/
structure Extruded (b : Basis.Nodes ℝ) (nvar : Nat) (o : ℝ) (m : Mesh) (faces : List Face) (m' : Mesh) : Prop where
  nd : m'.nd = m.nd
  ne : m'.ne = m.ne + faces.length
  layer : Layer m' (newFaces m faces)
  old : ∀ f ∈ faces, IsPart b nvar m m' f.i_dim f.sign f.elem f.elem o 1
  new : ∀ j f, faces[j]? = some f → IsPart b nvar m m' f.i_dim f.sign f.elem (m.ne + j) 0 o
  other : ∀ e < m.ne, (∀ f ∈ faces, f.elem ≠ e) → (∀ v < 2 ^ m.nd, ¬ Exposed m faces (m.vid e v)) → ∀ i sg, IsPart b nvar m m' i sg e e 0 1
  lowFace : ∀ e < m.ne, ∀ v < 2 ^ m.nd, ¬ Exposed m' (newFaces m faces) (m'.vid e v)
  moved : ∀ f ∈ faces, ∀ k < 2 ^ (m.nd - 1), ∀ c < m.nd, m'.pos (m.vid f.elem (pt m.nd 2 f.i_dim k f.sign.toNat)) c =
    (1 - o) * m.pos (m.vid f.elem (pt m.nd 2 f.i_dim k f.sign.toNat)) c + o * m.pos (m.vid f.elem (pt m.nd 2 f.i_dim k (!f.sign).toNat)) c
  still : ∀ v < m.nv, ¬ Exposed m faces v → m'.pos v = m.pos v
  unwarpedOld : ∀ f ∈ faces, Unwarped b m.nd f.i_dim (m.adj f.elem) → Unwarped b m.nd f.i_dim (m'.adj f.elem)
  unwarpedNew : ∀ j f, faces[j]? = some f → Unwarped b m.nd f.i_dim (m'.adj (m.ne + j))
  adjOther : ∀ e < m.ne, (∀ f ∈ faces, f.elem ≠ e) → m'.adj e = m.adj e

theorem newFaces_get {m : Mesh} {faces : List Face} {g : Face} (hg : g ∈ newFaces m faces) : ∃ j f, faces[j]? = some f ∧ g = ⟨m.ne + j, f.i_dim, f.sign⟩ := by
  obtain ⟨j, hj⟩ := List.mem_iff_getElem?.1 hg
  rw [newFaces, List.getElem?_mapIdx] at hj
  rcases h : faces[j]? with _ | f
  · rw [h] at hj; simp at hj
  · rw [h] at hj
    exact ⟨j, f, h, by simpa using hj.symm⟩

theorem extruded {b : Basis.Nodes ℝ} (hb : b.Distinct) (hn : 0 < b.n) (nvar : Nat) {o : ℝ} (h0 : 0 < o) (h1 : o ≠ 1) {m : Mesh} {faces : List Face} (hl : Layer m faces) :
    Extruded b nvar o m faces (extrude b nvar m faces o) := by
  have C := created b nvar h0 m faces hl.elem hl.one
  have h2 : 0 < 2 := by norm_num
  set m1 := faces.foldl (create b nvar o) m with hm1
  have hoff := offset_fold o faces m1 fun f hf => by rw [C.nd]; exact hl.dim f hf
  have hpairs : faces.flatMap (facePairs m1) = faces.flatMap (facePairs m) := by
    rw [List.flatMap_def, List.flatMap_def]
    congr 1
    refine List.map_congr_left fun f hf => ?_
    rw [facePairs, facePairs, C.nd, C.vidOld _ (hl.elem f hf)]
  have hmem : ∀ p, p ∈ faces.flatMap (facePairs m) ↔ ∃ f ∈ faces, ∃ k < 2 ^ (m.nd - 1), p = (m.vid f.elem (pt m.nd 2 f.i_dim k f.sign.toNat), m.vid f.elem (pt m.nd 2 f.i_dim k (!f.sign).toNat)) := by
    intro p
    simp only [List.mem_flatMap, facePairs, List.mem_map, List.mem_range]
    constructor
    · rintro ⟨f, hf, k, hk, rfl⟩; exact ⟨f, hf, k, hk, rfl⟩
    · rintro ⟨f, hf, k, hk, rfl⟩; exact ⟨f, hf, k, hk, rfl⟩
  obtain ⟨M1, M2⟩ := moves m.nd o (faces.flatMap (facePairs m)) m1.pos m1.moved
    (fun p hp p' hp' => by
      obtain ⟨f, hf, k, hk, rfl⟩ := (hmem p).1 hp
      obtain ⟨g, hg, l, hl', rfl⟩ := (hmem p').1 hp'
      exact hl.apart f hf g hg k hk l hl')
    (fun p hp p' hp' => by
      obtain ⟨f, hf, k, hk, rfl⟩ := (hmem p).1 hp
      obtain ⟨g, hg, l, hl', rfl⟩ := (hmem p').1 hp'
      exact hl.same f hf g hg k hk l hl')
  have hm' : extrude b nvar m faces o = { m1 with
      pos := ((faces.flatMap (facePairs m)).foldl (moveStep m.nd o) (m1.pos, m1.moved)).1, moved := fun _ => false } := by
    simp only [extrude]
    rw [if_pos h0, ← hm1, hoff, hpairs, C.nd]
  have sgl : ∀ s : Bool, s.toNat < 2 := fun s => Bool.toNat_lt s
  have vlt : ∀ f ∈ faces, ∀ k < 2 ^ (m.nd - 1), ∀ s : Bool, m.vid f.elem (pt m.nd 2 f.i_dim k s.toNat) < m.nv := fun f hf k hk s =>
    hl.vid _ (hl.elem f hf) _ (pt_lt h2 (hl.dim f hf) hk (sgl s))
  set m' := extrude b nvar m faces o with hme
  have pos' : m'.pos = ((faces.flatMap (facePairs m)).foldl (moveStep m.nd o) (m1.pos, m1.moved)).1 := by rw [hm']
  have vid' : m'.vid = m1.vid := by rw [hm']
  have adj' : m'.adj = m1.adj := by rw [hm']
  have state' : m'.state = m1.state := by rw [hm']
  have size' : m'.size = m1.size := by rw [hm']
  have nd' : m'.nd = m.nd := by rw [hm']; exact C.nd
  have ne' : m'.ne = m.ne + faces.length := by rw [hm']; exact C.ne
  have nv' : m'.nv = m.nv + faces.length * 2 ^ m.nd := by rw [hm']; exact C.nv
  -- positions
  have pmoved : ∀ f ∈ faces, ∀ k < 2 ^ (m.nd - 1), ∀ c < m.nd, m'.pos (m.vid f.elem (pt m.nd 2 f.i_dim k f.sign.toNat)) c =
      (1 - o) * m.pos (m.vid f.elem (pt m.nd 2 f.i_dim k f.sign.toNat)) c + o * m.pos (m.vid f.elem (pt m.nd 2 f.i_dim k (!f.sign).toNat)) c := by
    intro f hf k hk c hc
    rw [pos', M1 _ ((hmem _).2 ⟨f, hf, k, hk, rfl⟩) (by rw [C.moved]; exact hl.unmarked _)]
    dsimp only
    rw [if_pos hc, C.posOld _ (vlt f hf k hk _), C.posOld _ (vlt f hf k hk _)]
  have pstill : ∀ v < m.nv, ¬ Exposed m faces v → m'.pos v = m.pos v := by
    intro v hv hex
    rw [pos', M2 v (Or.inr fun p hp h => by
      obtain ⟨f, hf, k, hk, rfl⟩ := (hmem p).1 hp
      exact hex ⟨f, hf, k, hk, h⟩), C.posOld v hv]
  have pnew : ∀ v, m.nv ≤ v → m'.pos v = m1.pos v := by
    intro v hv
    rw [pos', M2 v (Or.inr fun p hp h => by
      obtain ⟨f, hf, k, hk, rfl⟩ := (hmem p).1 hp
      have := vlt f hf k hk f.sign
      simp only at h; omega)]
  -- vertices of new elements
  have vidSurf : ∀ j f, faces[j]? = some f → ∀ k, m'.vid (m.ne + j) (pt m.nd 2 f.i_dim k f.sign.toNat) = m.nv + j * 2 ^ m.nd + pt m.nd 2 f.i_dim k f.sign.toNat := by
    intro j f hj k
    rw [vid', C.vid j f hj, pt_digit_self h2 (sgl _), if_pos]
    cases f.sign <;> simp
  have vidIn : ∀ j f, faces[j]? = some f → ∀ k, m'.vid (m.ne + j) (pt m.nd 2 f.i_dim k (!f.sign).toNat) = m.vid f.elem (pt m.nd 2 f.i_dim k f.sign.toNat) := by
    intro j f hj k
    rw [vid', C.vid j f hj, pt_digit_self h2 (sgl _), if_neg, iCollapse_pt (sgl _)]
    cases f.sign <;> simp
  have hmemj : ∀ {j f}, faces[j]? = some f → f ∈ faces := fun h => List.mem_of_getElem? h
  have hjl : ∀ {j f}, faces[j]? = some f → j < faces.length := fun h => (List.getElem?_eq_some_iff.1 h).1
  have hdiv : 1 ≤ m.nd → b.n ^ m.nd / b.n = b.n ^ (m.nd - 1) := by
    intro h
    obtain ⟨k, hk⟩ : ∃ k, m.nd = k + 1 := ⟨m.nd - 1, by omega⟩
    rw [hk, Nat.pow_succ, Nat.mul_div_cancel _ hn, Nat.add_sub_cancel]
  have hadj0 : ∀ j f, faces[j]? = some f → m'.adj f.elem = (splitAdj (b.n ^ (m.nd - 1)) f o (m.adj f.elem, m.adj (m.ne + j))).1 ∧ m'.adj (m.ne + j) = (splitAdj (b.n ^ (m.nd - 1)) f o (m.adj f.elem, m.adj (m.ne + j))).2 := by
    intro j f hj
    have := C.adj j f hj
    rw [hdiv (by have := hl.dim f (hmemj hj); omega)] at this
    rw [adj', ← this]; exact ⟨rfl, rfl⟩
  have hst0 : ∀ j f, faces[j]? = some f → m'.state f.elem = (splitState b m.nd nvar f o (m.state f.elem, m.state (m.ne + j))).1 ∧ m'.state (m.ne + j) = (splitState b m.nd nvar f o (m.state f.elem, m.state (m.ne + j))).2 := by
    intro j f hj
    have := C.state j f hj
    rw [state', ← this]; exact ⟨rfl, rfl⟩
  have hlines : ∀ j f, faces[j]? = some f → ∀ c < m.nd, ∀ k < b.n ^ (m.nd - 1), ∀ t,
      m'.line b f.elem f.i_dim k c (atDist f.sign t) = m.line b f.elem f.i_dim k c (atDist f.sign (o + (1 - o) * t)) ∧
      m'.line b (m.ne + j) f.i_dim k c (atDist f.sign t) = m.line b f.elem f.i_dim k c (atDist f.sign (o * t)) := by
    intro j f hj c hc k hk t
    have hf := hmemj hj
    have hve : m'.vid f.elem = m.vid f.elem := by rw [vid', C.vidOld _ (hl.elem f hf)]
    have key := line_parts (b := b) f (hl.dim f hf) hk h0.ne' h1 (m.adj f.elem, m.adj (m.ne + j)) (fun v => m.pos (m.vid f.elem v) c) (fun v => m'.pos (m'.vid f.elem v) c)
      (fun v => m'.pos (m'.vid (m.ne + j) v) c)
      (fun l hl' => by
        beta_reduce
        rw [hve, pstill _ (vlt f hf l hl' _)]
        rintro ⟨g, hg, k', hk', h⟩
        exact hl.apart f hf g hg l hl' k' hk' h)
      (fun l hl' => by
        beta_reduce
        rw [hve, pmoved f hf l hl' c hc])
      (fun l hl' => by
        beta_reduce
        rw [vidIn j f hj l, pmoved f hf l hl' c hc])
      (fun l hl' => by
        beta_reduce
        have hcol := iCollapse_pt (nd := m.nd) (f := f) (k := l) (sgl f.sign)
        rw [vidSurf j f hj l, pnew _ (by omega), C.pos j f hj _ (pt_lt h2 (hl.dim f hf) hl' (sgl _)) (by rw [hcol]; exact vlt f hf l hl' _), hcol]) t
    rw [← (hadj0 j f hj).1, ← (hadj0 j f hj).2] at key
    simp only [Mesh.line, nd']
    exact key
  refine ⟨nd', ne', ?_, ?_, ?_, ?_, ?_, pmoved, pstill, ?_, ?_, ?_⟩
  · -- the next layer
    refine ⟨?_, ?_, ?_, ?_, ?_, ?_, ?_, ?_⟩
    · intro g hg
      obtain ⟨j, f, hj, rfl⟩ := newFaces_get hg
      rw [nd']; exact hl.dim f (hmemj hj)
    · intro g hg
      obtain ⟨j, f, hj, rfl⟩ := newFaces_get hg
      rw [ne']; have := hjl hj; simp only; omega
    · rw [newFaces, List.pairwise_iff_getElem]
      intro i j hi hj hij
      simp only [List.getElem_mapIdx]
      omega
    · intro e he v hv
      rw [ne'] at he
      rw [nd'] at hv
      rw [nv']
      by_cases he' : e < m.ne
      · rw [vid', C.vidOld e he']
        have := hl.vid e he' v hv
        omega
      · obtain ⟨j, rfl⟩ : ∃ j, e = m.ne + j := ⟨e - m.ne, by omega⟩
        obtain ⟨f, hj⟩ : ∃ f, faces[j]? = some f := ⟨faces[j]'(by omega), List.getElem?_eq_getElem (by omega)⟩
        have hf := hmemj hj
        have hjlt := hjl hj
        have hmul : (j + 1) * 2 ^ m.nd ≤ faces.length * 2 ^ m.nd := Nat.mul_le_mul_right _ hjlt
        rw [Nat.add_mul, Nat.one_mul] at hmul
        obtain ⟨k, hk, σ, hσ, rfl⟩ := pt_surj (id := f.i_dim) h2 (hl.dim f hf) hv
        by_cases hs : σ = f.sign.toNat
        · rw [hs] at hv ⊢
          rw [vidSurf j f hj]; omega
        · have hs' : σ = (!f.sign).toNat := by cases h : f.sign <;> rw [h] at hs <;> simp at hs ⊢ <;> omega
          rw [hs', vidIn j f hj]
          have := vlt f hf k hk f.sign
          omega
    · intro g hg g' hg' k hk l hl'
      obtain ⟨j, f, hj, rfl⟩ := newFaces_get hg
      obtain ⟨j', f', hj', rfl⟩ := newFaces_get hg'
      rw [nd'] at hk hl' ⊢
      simp only
      rw [vidIn j f hj, vidSurf j' f' hj']
      have := vlt f (hmemj hj) k hk f.sign
      omega
    · intro g hg g' hg' k hk l hl' h
      obtain ⟨j, f, hj, rfl⟩ := newFaces_get hg
      obtain ⟨j', f', hj', rfl⟩ := newFaces_get hg'
      rw [nd'] at hk hl' h ⊢
      simp only at h ⊢
      rw [vidSurf j f hj, vidSurf j' f' hj'] at h
      have p1 := pt_lt h2 (hl.dim f (hmemj hj)) hk (sgl f.sign)
      have p2 := pt_lt h2 (hl.dim f' (hmemj hj')) hl' (sgl f'.sign)
      obtain ⟨q1, q2⟩ := RowIndex.div_mod_unique p1 p2 (show j * 2 ^ m.nd + _ = j' * 2 ^ m.nd + _ by omega)
      subst q1
      rw [hj] at hj'
      obtain rfl := Option.some.inj hj'
      obtain ⟨rfl, _⟩ := pt_inj h2 (sgl _) (sgl _) q2
      rfl
    · intro v; rw [hm']
    · intro e he a
      rw [ne'] at he
      rw [adj', (C.rest e (fun f hf => by have := hl.elem f hf; omega) (fun j hj => by omega)).1]
      exact hl.fresh e (by omega) a
  · intro f hf
    obtain ⟨j, hj⟩ := List.mem_iff_getElem?.1 hf
    refine ⟨by rw [size', C.sizeOld _ (hl.elem f hf)], fun c hc k hk t => (hlines j f hj c hc k hk t).1, fun v hv k hk p hp hs x hx => ?_⟩
    rw [(hst0 j f hj).1]
    exact (splitState_poly hb hn (hl.dim f hf) o _ hv hk p hp hs hx).1
  · intro j f hj
    refine ⟨by rw [size', C.size j f hj], fun c hc k hk t => ?_, fun v hv k hk p hp hs x hx => ?_⟩
    · rw [(hlines j f hj c hc k hk t).2, show (0 : ℝ) + (o - 0) * t = o * t by ring]
    · rw [(hst0 j f hj).2]
      exact (splitState_poly hb hn (hl.dim f (hmemj hj)) o _ hv hk p hp hs hx).2
  · intro e he hne hex i sg
    have r := C.rest e hne fun j hj => by omega
    exact IsPart.refl b nvar i sg nd' (by rw [size', C.sizeOld e he]) (by rw [vid', C.vidOld e he]) (fun v hv => pstill _ (hl.vid e he v hv) (hex v hv)) (by rw [adj', r.1]) (by rw [state', r.2])
  · rintro e he v hv ⟨g, hg, k, hk, h⟩
    obtain ⟨j, f, hj, rfl⟩ := newFaces_get hg
    rw [nd'] at hk h
    simp only at h
    rw [vidSurf j f hj, vid', C.vidOld e he] at h
    have := hl.vid e he v hv
    omega
  · intro f hf hu j hj hji σ hσ k hk
    obtain ⟨x, hx⟩ := List.mem_iff_getElem?.1 hf
    rw [(hadj0 x f hx).1, (splitAdj_other o _ hji hσ hk).1]
    exact hu j hj hji σ hσ k hk
  · intro x f hx j hj hji σ hσ k hk
    rw [(hadj0 x f hx).2, (splitAdj_other o _ hji hσ hk).2]
    exact hl.fresh _ (by omega) _
  · intro e he hne
    rw [adj', (C.rest e hne fun j hj => by omega).1]

end
end Hexed.Split
