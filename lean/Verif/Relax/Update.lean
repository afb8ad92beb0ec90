import Verif.Relax.Props
set_option autoImplicit false
set_option linter.unusedVariables false

/-! # The end of `update`, meshes without a tree, surfaces without a nearest point (C85) -/

namespace Hexed.Relax
open Hexed.Connection
variable {V K : Type} [DecidableEq V] [Field K] [LinearOrder K]

theorem snapSurf_none (huge : K) (dist : (Nat → K) → (Nat → K) → K) (r : Run V K) (m : Mesh V K) (g : Geom K) (hg : ∀ x a b, g x a b = none) (min_sz : K) (p : V → Nat → K) :
    ∀ l : List V, l ≠ [] → snapSurf huge dist r m g min_sz l p = .exn
  | [], h => absurd rfl h
  | v :: l, _ => by rw [snapSurf, hg]

/-- C85: if the geometry has no point near a vertex at the surface, there is an exception, and the vertices are not snapped. -/
theorem snapped_lost (huge : K) (dist : (Nat → K) → (Nat → K) → K) (r : Run V K) (m : Mesh V K) (t : (Nat → K) × K) (ht : m.tree = some t) (g : Geom K) (hs : m.surf = some g)
    (hg : ∀ x a b, g x a b = none) (v : V) (hv : v ∈ m.bverts m.surfSn) : snap huge dist r m = .exn := by
  rw [snap, snapBoundary, ht]
  simp only [hs]
  rw [snapSurf_none huge dist r m g hg _ _ _ (List.ne_nil_of_mem ((r.ord_perm 1 _).mem_iff.2 hv))]
  rfl

/-- C85: `set_all_smooth` also lists the vertices of all boundaries. -/
theorem all_smooth_boundary (m m' : Mesh V K) (h : setAllSmooth m = .ok m') (hp : ∀ bc v, (OnFace m bc v ∨ v ∈ m.bverts bc) → v ∈ m.verts ∧ m.ptrs v ≠ []) :
    ∀ bc < m.nBc, ∀ v, v ∈ m'.bverts bc ↔ v ∈ m.bverts bc ∨ OnFace m bc v := by
  unfold setAllSmooth at h
  rcases h1 : idSmooth { m with ptrs := fun v => (m.ptrs v).map fun q => { q with smooth := true } } with m1 | _ | _ | _
  · rw [h1] at h
    obtain ⟨_, _, e⟩ := smooth_exact _ _ h1
    have hon : ∀ bc v, OnFace m1 bc v ↔ OnFace m bc v := by intro bc v; rw [e]; rfl
    obtain ⟨h2, _⟩ := boundary_exact m1 m' h (by
      intro bc v hv
      have := (hp bc v (Or.inl ((hon bc v).1 hv))).1
      rw [e]; exact this)
    intro bc hbc v
    have e1 : m1.nBc = m.nBc := by rw [e]
    have e2 : m1.bverts = m.bverts := by rw [e]
    have e3 : m1.ptrs = fun v => (m.ptrs v).map fun q => { q with smooth := true } := by rw [e]
    rw [(h2 bc (by rw [e1]; exact hbc)).1 v, e2, hon]
    constructor
    · exact fun h => h.1
    · intro h
      refine ⟨h, ?_⟩
      obtain ⟨q, hq⟩ := List.exists_mem_of_ne_nil _ (hp bc v (Or.symm h)).2
      refine ⟨{ q with smooth := true }, ?_, rfl⟩
      rw [e3]
      exact List.mem_map.2 ⟨q, hq, rfl⟩
  all_goals rw [h1] at h; cases h

theorem snap_fields (huge : K) (dist : (Nat → K) → (Nat → K) → K) (r : Run V K) (m m' : Mesh V K) (h : snap huge dist r m = .ok m') : m' = { m with pos := m'.pos } := by
  unfold snap at h
  rcases h1 : snapBoundary huge dist r m with p | _ | _ | _
  · rw [h1] at h
    simp only [Out.bind] at h
    rcases h2 : matchAll m.nd r.junk (r.ord 3 m.matchers) p with q | _ | _ | _
    · rw [h2] at h
      simp only [Out.ok.injEq] at h
      rw [← h]
    all_goals rw [h2] at h; cases h
  all_goals rw [h1] at h; cases h

/-- C85: after `update`, the vertices to be smoothed are those that some element wants smoothed and no element forbids to move, and the boundary vertices are listed. -/
theorem update_lists (huge : K) (dist : (Nat → K) → (Nat → K) → K) (r : Run V K) (m m' : Mesh V K) (h : updateEnd huge dist r m = .ok m') (hv : ∀ bc v, OnFace m bc v → v ∈ m.verts) :
    (∀ v, v ∈ m'.smooth ↔ v ∈ m.verts ∧ Mobile m v ∧ Needs m v) ∧ ∀ bc < m.nBc, ∀ v, v ∈ m'.bverts bc ↔ (v ∈ m.bverts bc ∨ OnFace m bc v) ∧ Needs m v := by
  unfold updateEnd at h
  rcases h1 : idBoundary { m with pos := snapCart m (r.ord 6 m.carts) m.pos } with m1 | _ | _ | _
  · rw [h1] at h
    simp only [Out.bind] at h
    obtain ⟨a, e1⟩ := boundary_exact { m with pos := snapCart m (r.ord 6 m.carts) m.pos } m1 h1 hv
    rcases h2 : snap huge dist r m1 with m2 | _ | _ | _
    · rw [h2] at h
      have e2 := snap_fields huge dist r m1 m2 h2
      obtain ⟨b, _, e3⟩ := smooth_exact m2 m' h
      constructor
      · intro v
        rw [b]
        have q1 : m2.verts = m.verts := by rw [e2, e1]
        have q2 : m2.ptrs = m.ptrs := by rw [e2, e1]
        simp only [Mobile, Needs, q1, q2]
      · intro bc hbc v
        have q : m'.bverts = m1.bverts := by rw [e3, e2]
        rw [q, (a bc hbc).1 v]
        rfl
    all_goals rw [h2] at h; cases h
  all_goals rw [h1] at h; cases h

/-- C85: after `update`, a vertex of a Cartesian element that is on no boundary and hangs on no face is at the corner of the cube of the element. -/
theorem update_cart (h2 : (2 : K) ≠ 0) (huge : K) (dist : (Nat → K) → (Nat → K) → K) (hd : ∀ x y, dist x y ≤ huge) (r : Run V K) (m : Mesh V K)
    (hnd : m.nd = 2 ∨ m.nd = 3) (hv : ∀ bc v, OnFace m bc v → v ∈ m.verts) (hsn : m.surfSn < m.nBc) (htb : ∀ i < 2 * m.nd, m.treeBcs i < m.nBc) (hr : m.isReset = false)
    (o : Nat → K) (s : K) (ht : m.tree = some (o, s)) (g : Geom K) (hs : m.surf = some g) (near : (Nat → K) → Nat → K) (hg : ∀ x, g x huge huge = some (near x))
    (hn : (m.bverts m.surfSn).Nodup) {c : Matcher V → Nat → V} (hf : Fit m.nd m.matchers c K)
    (hc : ∀ e ∈ m.carts, ∀ e' ∈ m.carts, ∀ i < 2 ^ m.nd, ∀ i' < 2 ^ m.nd, e.vert i = e'.vert i' → ∀ d < m.nd,
      e.size * (e.nomPos d + if upper m.nd i d = true then 1 else 0) + e.origin d = e'.size * (e'.nomPos d + if upper m.nd i' d = true then 1 else 0) + e'.origin d)
    : ∃ m', updateEnd huge dist r m = .ok m' ∧ ∀ e ∈ m.carts, ∀ i < 2 ^ m.nd, (∀ bc < m.nBc, e.vert i ∉ m.bverts bc ∧ ¬ OnFace m bc (e.vert i)) →
      (∀ t ∈ m.matchers, ∀ x, ¬ At m.nd t (e.vert i) x) → ∀ d < m.nd, m'.pos (e.vert i) d = e.size * (e.nomPos d + if upper m.nd i d = true then 1 else 0) + e.origin d := by
  have p6 : ∀ e, e ∈ r.ord 6 m.carts ↔ e ∈ m.carts := fun e => (r.ord_perm 6 _).mem_iff
  obtain ⟨c1, _, _⟩ := cart_exact m (r.ord 6 m.carts) m.pos fun e he e' he' => hc e ((p6 e).1 he) e' ((p6 e').1 he')
  have h1 : ∃ m1, idBoundary { m with pos := snapCart m (r.ord 6 m.carts) m.pos } = .ok m1 := by
    unfold idBoundary
    rw [if_neg (by simp [hr])]
    exact ⟨_, rfl⟩
  obtain ⟨m1, h1⟩ := h1
  obtain ⟨a, e1⟩ := boundary_exact { m with pos := snapCart m (r.ord 6 m.carts) m.pos } m1 h1 hv
  have q1 : m1.nd = m.nd := by rw [e1]
  have q2 : m1.tree = some (o, s) := by rw [e1]; exact ht
  have q3 : m1.surf = some g := by rw [e1]; exact hs
  have q4 : m1.matchers = m.matchers := by rw [e1]
  have q5 : m1.surfSn = m.surfSn := by rw [e1]
  have q6 : m1.isReset = false := by rw [e1]; exact hr
  have q7 : m1.treeBcs = m.treeBcs := by rw [e1]
  have q8 : m1.pos = snapCart m (r.ord 6 m.carts) m.pos := by rw [e1]
  have hf1 : Fit m1.nd (r.ord 3 m1.matchers) c K := by
    have hl := r.ord_perm 3 m1.matchers
    rw [q4] at hl ⊢
    rw [q1]
    exact ⟨fun t ht => hf.glued t (hl.mem_iff.1 ht), fun t ht => hf.corners t (hl.mem_iff.1 ht),
      fun t ht j hj t' ht' => hf.free t (hl.mem_iff.1 ht) j hj t' (hl.mem_iff.1 ht'), fun t ht t' ht' => hf.agree t (hl.mem_iff.1 ht) t' (hl.mem_iff.1 ht')⟩
  obtain ⟨p', w1, _, _, w4⟩ := watertight h2 (by rw [q1]; exact hnd) r.junk _ hf1 fun v => onPlanes m1 o s v (if v ∈ m1.bverts m1.surfSn then
    first m1.nd (near (first m1.nd (onPlanes m1 o s v (m1.pos v)) fun _ => 0)) (onPlanes m1 o s v (m1.pos v)) else onPlanes m1 o s v (m1.pos v))
  have hsp : snap huge dist r m1 = .ok { m1 with pos := p' } := by
    simp only [snap]
    rw [snapBoundary_eq huge dist hd r m1 o s q2 g q3 near hg (by rw [q5]; exact (a _ hsn).2 hn)]
    simp only [Out.bind]
    rw [w1]
  have hfin : ∃ m', idSmooth { m1 with pos := p' } = .ok m' ∧ m'.pos = p' := by
    unfold idSmooth
    rw [if_neg (by simp [q6])]
    exact ⟨_, rfl, rfl⟩
  obtain ⟨m', hfin, hpos⟩ := hfin
  refine ⟨m', by rw [updateEnd, h1]; simp only [Out.bind]; rw [hsp]; exact hfin, ?_⟩
  intro e he i hi h4 h5 d hdd
  have q9 : ∀ bc < m.nBc, e.vert i ∉ m1.bverts bc := by
    intro bc hbc hh
    rcases (((a bc hbc).1 (e.vert i)).1 hh).1 with hh | hh
    · exact (h4 bc hbc).1 hh
    · exact (h4 bc hbc).2 hh
  have hpl : ∀ x, onPlanes m1 o s (e.vert i) x = x := by
    intro x
    funext d
    unfold onPlanes
    rw [q7, q1, if_neg fun hh => q9 _ (htb _ (by omega)) hh.2, if_neg fun hh => q9 _ (htb _ (by omega)) hh.2]
  rw [hpos, w4 (e.vert i) d (Or.inr fun t htm x => ?_), if_neg (by rw [q5]; exact q9 _ hsn), hpl, hpl, q8, c1 e ((p6 e).2 he) i hi d hdd]
  rw [q1]
  rw [(r.ord_perm 3 m1.matchers).mem_iff, q4] at htm
  exact h5 t htm x

theorem snapCon_nominal (huge : K) (m : Mesh V K) (c : Con V K) (hc : m.mbc c.bc = .nominal) : ∀ (l : List V) (p : V → Nat → K),
    snapCon huge m c l p = .ok (l.foldl (fun p v => setCoord p v c.dim (((c.elem.nomPos c.dim : K) + c.sign) * c.elem.size + c.elem.origin c.dim)) p)
  | [], p => rfl
  | v :: l, p => by rw [snapCon, hc]; exact snapCon_nominal huge m c hc l _

/-- C85: in a mesh without a tree all whose boundary conditions ask for nominal positions, each vertex of a boundary face is put in the plane of the face, exactly, if the faces that share it
and have the same direction are in the same plane; all its other coordinates and all other vertices keep their values. -/
theorem nominal_exact (huge : K) (dist : (Nat → K) → (Nat → K) → K) (r : Run V K) (m : Mesh V K) (ht : m.tree = none) (hm : ∀ c ∈ m.allCons, m.mbc c.bc = .nominal)
    (hs : ∀ c ∈ m.allCons, ∀ c' ∈ m.allCons, ∀ v, FaceVert m c v → FaceVert m c' v → c.dim = c'.dim → facePlane c = facePlane c') :
    ∃ p, snapBoundary huge dist r m = .ok p ∧ (∀ c ∈ m.allCons, ∀ v, FaceVert m c v → p v c.dim = facePlane c) ∧
      ∀ v d, (∀ c ∈ m.allCons, FaceVert m c v → c.dim ≠ d) → p v d = m.pos v d := by
  have hfv : ∀ c v, FaceVert m c v ↔ v ∈ conVerts m c := fun c v => (mem_conVerts m c v).symm
  simp only [hfv, facePlane] at hs ⊢
  have key : ∀ (l : List (Con V K)) (p : V → Nat → K), (∀ c ∈ l, c ∈ m.allCons) → ∃ p', snapCons huge m l p = .ok p' ∧
      (∀ c ∈ l, ∀ v ∈ conVerts m c, p' v c.dim = ((c.elem.nomPos c.dim : K) + c.sign) * c.elem.size + c.elem.origin c.dim) ∧
      ∀ v d, (∀ c ∈ l, v ∈ conVerts m c → c.dim ≠ d) → p' v d = p v d := by
    intro l
    induction l with
    | nil => intro p _; exact ⟨p, rfl, by simp, by simp⟩
    | cons c l ih =>
      intro p hl
      obtain ⟨p', h1, h2, h3⟩ := ih ((conVerts m c).foldl (fun p v => setCoord p v c.dim (((c.elem.nomPos c.dim : K) + c.sign) * c.elem.size + c.elem.origin c.dim)) p)
        fun c hc => hl c (by simp [hc])
      refine ⟨p', ?_, fun c' hc' v hv => ?_, fun v d h => ?_⟩
      · rw [snapCons, snapCon_nominal huge m c (hm c (hl c (by simp)))]; exact h1
      · by_cases hx : ∃ c2 ∈ l, v ∈ conVerts m c2 ∧ c2.dim = c'.dim
        · obtain ⟨c2, hc2, hv2, e⟩ := hx
          exact (congrArg (p' v) e.symm).trans ((h2 c2 hc2 v hv2).trans (hs c2 (hl c2 (by simp [hc2])) c' (hl c' hc') v hv2 hv e))
        · push Not at hx
          rcases List.mem_cons.1 hc' with rfl | hc'
          · rw [h3 v _ fun c2 hc2 hv2 => hx c2 hc2 hv2, setCoord_fold, if_pos ⟨hv, rfl⟩]
          · exact absurd rfl (hx c' hc' hv)
      · rw [h3 v d fun c2 hc2 => h c2 (by simp [hc2]), setCoord_fold, if_neg]
        rintro ⟨hv, rfl⟩
        exact h c (by simp) hv rfl
  obtain ⟨p, h1, h2, h3⟩ := key (r.ord 2 m.allCons) m.pos fun c hc => (r.ord_perm 2 _).mem_iff.1 hc
  refine ⟨p, by rw [snapBoundary, ht]; exact h1, fun c hc => h2 c ((r.ord_perm 2 _).mem_iff.2 hc), fun v d h => h3 v d fun c hc => h c ((r.ord_perm 2 _).mem_iff.1 hc)⟩

end Hexed.Relax
