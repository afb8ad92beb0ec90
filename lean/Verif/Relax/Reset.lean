import Verif.Relax.Hang
set_option autoImplicit false
set_option linter.unusedVariables false

/-! # `relax` as a whole, `reset_verts` and `restore_verts` (C85) -/

namespace Hexed.Relax
open Hexed.Connection
variable {V K : Type} [DecidableEq V] [Field K] [LinearOrder K]

theorem idBoundary_pos (m m' : Mesh V K) (h : idBoundary m = .ok m') : m' = { m with record := m'.record, bverts := m'.bverts } := by
  unfold idBoundary at h
  split_ifs at h
  injection h with h
  rw [← h]

theorem snap_order (h2 : (2 : K) ≠ 0) (huge : K) (dist : (Nat → K) → (Nat → K) → K) (hd : ∀ x y, dist x y ≤ huge) (r r' : Run V K) (m : Mesh V K) (hnd : m.nd = 2 ∨ m.nd = 3)
    (o : Nat → K) (s : K) (ht : m.tree = some (o, s)) (g : Geom K) (hs : m.surf = some g) (near : (Nat → K) → Nat → K) (hg : ∀ x, g x huge huge = some (near x))
    (hn : (m.bverts m.surfSn).Nodup) {c : Matcher V → Nat → V} (hf : Fit m.nd m.matchers c K) : snap huge dist r m = snap huge dist r' m := by
  unfold snap
  rw [snapped_order huge dist hd r r' m o s ht g hs near hg hn]
  cases snapBoundary huge dist r' m with
  | ok p =>
    simp only [Out.bind]
    have hf1 : Fit m.nd (r.ord 3 m.matchers) c K := by
      have hl := r.ord_perm 3 m.matchers
      exact ⟨fun t ht => hf.glued t (hl.mem_iff.1 ht), fun t ht => hf.corners t (hl.mem_iff.1 ht),
        fun t ht j hj t' ht' => hf.free t (hl.mem_iff.1 ht) j hj t' (hl.mem_iff.1 ht'), fun t ht t' ht' => hf.agree t (hl.mem_iff.1 ht) t' (hl.mem_iff.1 ht')⟩
    rw [watertight_order h2 hnd r.junk r'.junk _ _ ((r.ord_perm 3 m.matchers).trans (r'.ord_perm 3 m.matchers).symm) hf1 p]
  | exn => rfl
  | ub => rfl
  | nan => rfl

/-- C85: `relax` gives the same mesh whatever the threads do, and whatever they see of each other's writes. -/
theorem relax_order (h2 : (2 : K) ≠ 0) (huge : K) (dist : (Nat → K) → (Nat → K) → K) (hd : ∀ x y, dist x y ≤ huge) (r r' : Run V K) (factor : K) (m : Mesh V K) (hnd : m.nd = 2 ∨ m.nd = 3)
    (hv : ∀ bc v, OnFace m bc v → v ∈ m.verts) (hsn : m.surfSn < m.nBc) (hsm : m.smooth.Nodup)
    (o : Nat → K) (s : K) (ht : m.tree = some (o, s)) (g : Geom K) (hs : m.surf = some g) (near : (Nat → K) → Nat → K) (hg : ∀ x, g x huge huge = some (near x))
    (hn : (m.bverts m.surfSn).Nodup) {c : Matcher V → Nat → V} (hf : Fit m.nd m.matchers c K) : relax huge dist r factor m = relax huge dist r' factor m := by
  unfold relax
  rcases hb : idBoundary m with m1 | _ | _ | _
  · simp only [Out.bind]
    obtain ⟨h1, e⟩ := boundary_exact m m1 hb hv
    have hsm1 : m1.smooth.Nodup := by rw [e]; exact hsm
    rw [relaxed_order r r' factor m1 hsm1]
    by_cases hne : ∀ v ∈ m1.smooth, m1.neigh v ≠ []
    · obtain ⟨m2, h3, _, _, e2⟩ := (relaxed_exact r' factor m1 hsm1).1 hne
      rw [h3]
      have q1 : m2.nd = m.nd := by rw [e2, e]
      have q2 : m2.tree = some (o, s) := by rw [e2, e]; exact ht
      have q3 : m2.surf = some g := by rw [e2, e]; exact hs
      have q4 : m2.matchers = m.matchers := by rw [e2, e]
      have q5 : m2.surfSn = m.surfSn := by rw [e2, e]
      have q6 : m2.bverts = m1.bverts := by rw [e2]
      exact snap_order h2 huge dist hd r r' m2 (by rw [q1]; exact hnd) o s q2 g q3 near hg (by rw [q5, q6]; exact (h1 _ hsn).2 hn) (by rw [q1, q4]; exact hf)
    · push Not at hne
      rw [(relaxed_exact r' factor m1 hsm1).2 hne]
  · rfl
  · rfl
  · rfl

/-- C85: a vertex that is not listed for smoothing, is on no boundary and hangs on no face stays where it is. -/
theorem relax_frame (h2 : (2 : K) ≠ 0) (huge : K) (dist : (Nat → K) → (Nat → K) → K) (hd : ∀ x y, dist x y ≤ huge) (r : Run V K) (factor : K) (m m' : Mesh V K)
    (hnd : m.nd = 2 ∨ m.nd = 3) (hv : ∀ bc v, OnFace m bc v → v ∈ m.verts) (hsn : m.surfSn < m.nBc) (htb : ∀ i, m.treeBcs i < m.nBc) (hsm : m.smooth.Nodup)
    (o : Nat → K) (s : K) (ht : m.tree = some (o, s)) (g : Geom K) (hs : m.surf = some g) (near : (Nat → K) → Nat → K) (hg : ∀ x, g x huge huge = some (near x))
    (hn : (m.bverts m.surfSn).Nodup) {c : Matcher V → Nat → V} (hf : Fit m.nd m.matchers c K) (h : relax huge dist r factor m = .ok m') (v : V)
    (h3 : v ∉ m.smooth ∨ ¬ Mobile m v) (h4 : ∀ bc < m.nBc, v ∉ m.bverts bc ∧ ¬ OnFace m bc v) (h5 : ∀ t ∈ m.matchers, ∀ x, ¬ At m.nd t v x) : m'.pos v = m.pos v := by
  unfold relax at h
  rcases hb : idBoundary m with m1 | _ | _ | _
  · rw [hb] at h
    simp only [Out.bind] at h
    obtain ⟨h1, e⟩ := boundary_exact m m1 hb hv
    have hsm1 : m1.smooth.Nodup := by rw [e]; exact hsm
    by_cases hne : ∀ v ∈ m1.smooth, m1.neigh v ≠ []
    · obtain ⟨m2, h6, _, h7, e2⟩ := (relaxed_exact r factor m1 hsm1).1 hne
      rw [h6] at h
      have q1 : m2.nd = m.nd := by rw [e2, e]
      have q2 : m2.tree = some (o, s) := by rw [e2, e]; exact ht
      have q3 : m2.surf = some g := by rw [e2, e]; exact hs
      have q4 : m2.matchers = m.matchers := by rw [e2, e]
      have q5 : m2.surfSn = m.surfSn := by rw [e2, e]
      have q6 : m2.bverts = m1.bverts := by rw [e2]
      have q7 : m2.treeBcs = m.treeBcs := by rw [e2, e]
      have q8 : m2.pos v = m.pos v := by
        have e3 : m1.pos v = m.pos v := by rw [e]
        rw [← e3]
        refine h7 v ?_
        have a1 : m1.smooth = m.smooth := by rw [e]
        have a2 : m1.ptrs = m.ptrs := by rw [e]
        unfold Mobile at h3 ⊢
        rw [a1, a2]; exact h3
      have q9 : ∀ bc < m.nBc, v ∉ m2.bverts bc := by
        intro bc hbc hh
        rw [q6] at hh
        rcases (((h1 bc hbc).1 v).1 hh).1 with hh | hh
        · exact (h4 bc hbc).1 hh
        · exact (h4 bc hbc).2 hh
      simp only [snap] at h
      rw [snapBoundary_eq huge dist hd r m2 o s q2 g q3 near hg (by rw [q5, q6]; exact (h1 _ hsn).2 hn)] at h
      simp only [Out.bind] at h
      have hf1 : Fit m2.nd (r.ord 3 m2.matchers) c K := by
        have hl := r.ord_perm 3 m2.matchers
        rw [q4] at hl ⊢
        rw [q1]
        exact ⟨fun t ht => hf.glued t (hl.mem_iff.1 ht), fun t ht => hf.corners t (hl.mem_iff.1 ht),
          fun t ht j hj t' ht' => hf.free t (hl.mem_iff.1 ht) j hj t' (hl.mem_iff.1 ht'), fun t ht t' ht' => hf.agree t (hl.mem_iff.1 ht) t' (hl.mem_iff.1 ht')⟩
      obtain ⟨p', w1, _, _, w4⟩ := watertight h2 (by rw [q1]; exact hnd) r.junk _ hf1 fun v => onPlanes m2 o s v (if v ∈ m2.bverts m2.surfSn then
        first m2.nd (near (first m2.nd (onPlanes m2 o s v (m2.pos v)) fun _ => 0)) (onPlanes m2 o s v (m2.pos v)) else onPlanes m2 o s v (m2.pos v))
      rw [w1] at h
      simp only [Out.ok.injEq] at h
      rw [← h]
      have hpl : ∀ x, onPlanes m2 o s v x = x := by
        intro x
        funext d
        unfold onPlanes
        rw [q7, if_neg fun hh => q9 _ (htb _) hh.2, if_neg fun hh => q9 _ (htb _) hh.2]
      funext d
      show p' v d = _
      rw [w4 v d (Or.inr fun t htm x => ?_), if_neg (by rw [q5]; exact q9 _ hsn), hpl, hpl, q8]
      rw [q1]
      rw [(r.ord_perm 3 m2.matchers).mem_iff, q4] at htm
      exact h5 t htm x
    · push Not at hne
      rw [(relaxed_exact r factor m1 hsm1).2 hne] at h
      cases h
  all_goals rw [hb] at h; cases h

/-- C85: while the vertices are reset, every function of the mesh that needs them throws an exception. -/
theorem reset_locked (huge : K) (dist : (Nat → K) → (Nat → K) → K) (r : Run V K) (factor : K) (m : Mesh V K) (h : m.isReset = true) :
    relax huge dist r factor m = .exn ∧ reset r m = .exn ∧ idSmooth m = .exn ∧ idBoundary m = .exn ∧ setAllSmooth m = .exn ∧ updateEnd huge dist r m = .exn := by
  have h1 : idBoundary m = .exn := if_pos h
  have h2 : idSmooth m = .exn := if_pos h
  refine ⟨by rw [relax, h1]; rfl, if_pos h, h2, h1, ?_, ?_⟩
  · rw [setAllSmooth, idSmooth, if_pos h]; rfl
  · rw [updateEnd, idBoundary, if_pos h]; rfl

/-- The nominal position of vertex `i` of an element with a tree. -/
def nominal (nd : Nat) (t : (Nat → K) × K) (i : Nat) : Nat → K := fun d => t.1 d + if d < nd ∧ upper nd i d = true then t.2 else 0

theorem nominal_eq (t : (Nat → K) × K) (nd i : Nat) : (fun d => t.1 d + if d < nd then t.2 * ((i / 2 ^ (nd - 1 - d) % 2 : Nat) : K) else 0) = nominal nd t i := by
  funext d
  unfold nominal
  congr 1
  have h1 : upper nd i d = decide (i / 2 ^ (nd - 1 - d) % 2 = 1) := by rw [upper, Nat.testBit_eq_decide_div_mod_eq]
  rw [h1]
  have h2 := Nat.mod_lt (i / 2 ^ (nd - 1 - d)) (by omega : 0 < 2)
  by_cases hd : d < nd
  · by_cases h : i / 2 ^ (nd - 1 - d) % 2 = 1
    · simp [hd, h]
    · have h0 : i / 2 ^ (nd - 1 - d) % 2 = 0 := by omega
      simp [hd, h0]
  · simp [hd]

theorem resetElems_eq : ∀ (l : List (Elem V K)) (p : V → Nat → K),
    (∀ e ∈ l, ∀ t, e.tree = some t → ∀ e' ∈ l, ∀ t', e'.tree = some t' → ∀ i < 8, ∀ i' < 8, e.vert i = e'.vert i' → nominal 3 t i = nominal 3 t' i') →
    ∃ p', resetElems 3 l p = .ok p' ∧ (∀ e ∈ l, ∀ t, e.tree = some t → ∀ i < 8, p' (e.vert i) = nominal 3 t i) ∧
      ∀ v, (∀ e ∈ l, ∀ t, e.tree = some t → ∀ i < 8, e.vert i ≠ v) → p' v = p v
  | [], p, _ => ⟨p, rfl, by simp, by simp⟩
  | e :: l, p, h => by
    rcases ht : e.tree with _ | t
    · obtain ⟨p', h1, h2, h3⟩ := resetElems_eq l p fun e he t ht e' he' => h e (by simp [he]) t ht e' (by simp [he'])
      refine ⟨p', by rw [resetElems, ht]; exact h1, fun e' he' t' ht' => ?_, fun v hv => h3 v fun e he => hv e (by simp [he])⟩
      rcases List.mem_cons.1 he' with rfl | he'
      · rw [ht] at ht'; cases ht'
      · exact h2 e' he' t' ht'
    · obtain ⟨f1, f2⟩ := upd_fold e.vert (fun i => nominal 3 t i) (List.range 8) p fun i hi i' hi' he =>
        h e (by simp) t ht e (by simp) t ht i (by simpa using hi) i' (by simpa using hi') he
      obtain ⟨p', h1, h2, h3⟩ := resetElems_eq l ((List.range 8).foldl (fun p i => upd p (e.vert i) (nominal 3 t i)) p)
        fun e he t ht e' he' => h e (by simp [he]) t ht e' (by simp [he'])
      refine ⟨p', ?_, fun e' he' t' ht' i hi => ?_, fun v hv => ?_⟩
      · rw [resetElems, ht]
        simp only [if_true]
        rw [← h1]
        congr 2
        funext p i
        rw [nominal_eq]
      · by_cases hx : ∃ e2 ∈ l, ∃ t2, e2.tree = some t2 ∧ ∃ i2 < 8, e2.vert i2 = e'.vert i
        · obtain ⟨e2, he2, t2, ht2, i2, hi2, hv⟩ := hx
          rw [← hv, h2 e2 he2 t2 ht2 i2 hi2]
          exact h e2 (by simp [he2]) t2 ht2 e' he' t' ht' i2 hi2 i hi hv
        · push Not at hx
          rw [h3 _ hx]
          rcases List.mem_cons.1 he' with rfl | he'
          · rw [ht] at ht'
            obtain rfl := Option.some.inj ht'
            exact f1 i (by simpa using hi)
          · exact absurd rfl (hx e' he' t' ht' i hi)
      · rw [h3 v fun e2 he2 => hv e2 (by simp [he2])]
        exact f2 v fun i hi => hv e (by simp) t ht i (by simpa using hi)

/-- The vertex that is on the other face of the extruded element, across from vertex `i`. -/
def across (nd : Nat) (c : Extr V) (i : Nat) : V := c.vert (i + 2 ^ (nd - 1 - c.dim) * c.sign0 - 2 ^ (nd - 1 - c.dim) * c.sign1)

/-- Vertex `i` of the extruded element is on the face that is farther from the element it has been extruded from. -/
def Outer (nd : Nat) (c : Extr V) (i : Nat) : Prop := i / 2 ^ (nd - 1 - c.dim) % 2 = c.sign1

theorem resetExtr_eq (nd : Nat) : ∀ (l : List (Extr V)) (p : V → Nat → K),
    (∀ c ∈ l, ∀ i < 2 ^ nd, Outer nd c i → ∀ c' ∈ l, ∀ i' < 2 ^ nd, Outer nd c' i' → across nd c i ≠ c'.vert i' ∧ (c.vert i = c'.vert i' → across nd c i = across nd c' i')) →
    (∀ c ∈ l, ∀ i < 2 ^ nd, Outer nd c i → resetExtr nd l p (c.vert i) = p (across nd c i)) ∧
    ∀ v, (∀ c ∈ l, ∀ i < 2 ^ nd, Outer nd c i → c.vert i ≠ v) → resetExtr nd l p v = p v := by
  intro l p h
  have key : ∀ (l' : List (Extr V)) (q : V → Nat → K), (∀ c ∈ l', c ∈ l) → resetExtr nd l' q =
      (l'.flatMap fun c => ((List.range (2 ^ nd)).filter fun i => i / 2 ^ (nd - 1 - c.dim) % 2 = c.sign1).map fun i => (c, i)).foldl
        (fun p s => upd p (s.1.vert s.2) (p (across nd s.1 s.2))) q := by
    intro l'
    induction l' with
    | nil => intro q _; rfl
    | cons c l' ih =>
      intro q hc
      have e1 : ∀ (is : List Nat) (q : V → Nat → K), is.foldl (fun p i => if i / 2 ^ (nd - 1 - c.dim) % 2 = c.sign1 then
            upd p (c.vert i) (p (c.vert ((i + 2 ^ (nd - 1 - c.dim) * c.sign0) - 2 ^ (nd - 1 - c.dim) * (i / 2 ^ (nd - 1 - c.dim) % 2)))) else p) q =
          ((is.filter fun i => i / 2 ^ (nd - 1 - c.dim) % 2 = c.sign1).map fun i => (c, i)).foldl (fun p s => upd p (s.1.vert s.2) (p (across nd s.1 s.2))) q := by
        intro is
        induction is with
        | nil => intro q; rfl
        | cons i is ih2 =>
          intro q
          by_cases hi : i / 2 ^ (nd - 1 - c.dim) % 2 = c.sign1
          · rw [List.foldl_cons, if_pos hi, ih2, List.filter_cons_of_pos (by simpa using hi), List.map_cons, List.foldl_cons]
            simp only [across, hi]
          · rw [List.foldl_cons, if_neg hi, ih2, List.filter_cons_of_neg (by simpa using hi)]
      rw [List.flatMap_cons, List.foldl_append, ← e1, ← ih _ fun c hc' => hc c (by simp [hc'])]
      rfl
  have hmem : ∀ s : Extr V × Nat, s ∈ (l.flatMap fun c => ((List.range (2 ^ nd)).filter fun i => i / 2 ^ (nd - 1 - c.dim) % 2 = c.sign1).map fun i => (c, i)) ↔
      s.1 ∈ l ∧ s.2 < 2 ^ nd ∧ Outer nd s.1 s.2 := by
    intro s
    simp only [List.mem_flatMap, List.mem_map, List.mem_filter, List.mem_range, decide_eq_true_eq]
    constructor
    · rintro ⟨c, hc, i, ⟨h1, h2⟩, rfl⟩; exact ⟨hc, h1, h2⟩
    · rintro ⟨hc, h1, h2⟩; exact ⟨s.1, hc, s.2, ⟨h1, h2⟩, rfl⟩
  rw [key l p fun c hc => hc]
  have gen : ∀ (ss : List (Extr V × Nat)) (q : V → Nat → K), (∀ s ∈ ss, s.1 ∈ l ∧ s.2 < 2 ^ nd ∧ Outer nd s.1 s.2) →
      ss.foldl (fun p s => upd p (s.1.vert s.2) (p (across nd s.1 s.2))) q = ss.foldl (fun p s => upd p (s.1.vert s.2) (q (across nd s.1 s.2))) q := by
    intro ss q hss
    have h2 : ∀ (ss : List (Extr V × Nat)) (p : V → Nat → K), (∀ s ∈ ss, s.1 ∈ l ∧ s.2 < 2 ^ nd ∧ Outer nd s.1 s.2) →
        (∀ c ∈ l, ∀ i < 2 ^ nd, Outer nd c i → p (across nd c i) = q (across nd c i)) →
        ss.foldl (fun p s => upd p (s.1.vert s.2) (p (across nd s.1 s.2))) p = ss.foldl (fun p s => upd p (s.1.vert s.2) (q (across nd s.1 s.2))) p := by
      intro ss
      induction ss with
      | nil => intro p _ _; rfl
      | cons s ss ih =>
        intro p hss hp
        obtain ⟨a, b, c⟩ := hss s (by simp)
        rw [List.foldl_cons, List.foldl_cons, hp _ a _ b c]
        refine ih _ (fun s hs => hss s (by simp [hs])) fun c' hc' i' hi' ho' => ?_
        rw [← hp c' hc' i' hi' ho']
        exact if_neg (h c' hc' i' hi' ho' s.1 a s.2 b c).1
    exact h2 ss q hss fun _ _ _ _ _ => rfl
  rw [gen _ _ fun s hs => (hmem s).1 hs]
  obtain ⟨f1, f2⟩ := upd_fold (fun s : Extr V × Nat => s.1.vert s.2) (fun s => p (across nd s.1 s.2))
    (l.flatMap fun c => ((List.range (2 ^ nd)).filter fun i => i / 2 ^ (nd - 1 - c.dim) % 2 = c.sign1).map fun i => (c, i)) p (by
      intro s hs s' hs' e
      obtain ⟨a, b, c⟩ := (hmem s).1 hs
      obtain ⟨a', b', c'⟩ := (hmem s').1 hs'
      rw [(h _ a _ b c _ a' _ b' c').2 e])
  exact ⟨fun c hc i hi ho => f1 (c, i) ((hmem _).2 ⟨hc, hi, ho⟩), fun v hv => f2 v fun s hs => by obtain ⟨a, b, c⟩ := (hmem s).1 hs; exact hv _ a _ b c⟩

/-- C85: in three dimensions, `reset_verts` puts the vertices of the elements that come from the tree at their nominal positions, and then the outer vertices of the extruded elements where the
inner ones are. -/
theorem reset_exact (r : Run V K) (m : Mesh V K) (hnd : m.nd = 3) (h0 : m.isReset = false)
    (hn : ∀ e ∈ m.elems, ∀ t, e.tree = some t → ∀ e' ∈ m.elems, ∀ t', e'.tree = some t' → ∀ i < 8, ∀ i' < 8, e.vert i = e'.vert i' → nominal 3 t i = nominal 3 t' i')
    (hx : ∀ c ∈ m.extr, ∀ i < 8, Outer 3 c i → ∀ c' ∈ m.extr, ∀ i' < 8, Outer 3 c' i' → across 3 c i ≠ c'.vert i' ∧ (c.vert i = c'.vert i' → across 3 c i = across 3 c' i'))
    (hd : ∀ e ∈ m.elems, ∀ t, e.tree = some t → ∀ i < 8, ∀ c ∈ m.extr, ∀ i' < 8, Outer 3 c i' → c.vert i' ≠ e.vert i) :
    ∃ m', reset r m = .ok m' ∧ (∀ e ∈ m.elems, ∀ t, e.tree = some t → ∀ i < 8, m'.pos (e.vert i) = nominal 3 t i) ∧
      (∀ c ∈ m.extr, ∀ i < 8, Outer 3 c i → m'.pos (c.vert i) = m'.pos (across 3 c i)) ∧
      ∀ v, (∀ e ∈ m.elems, ∀ t, e.tree = some t → ∀ i < 8, e.vert i ≠ v) → (∀ c ∈ m.extr, ∀ i < 8, Outer 3 c i → c.vert i ≠ v) → m'.pos v = m.pos v := by
  have p7 : ∀ e, e ∈ r.ord 7 m.elems ↔ e ∈ m.elems := fun e => (r.ord_perm 7 _).mem_iff
  have p8 : ∀ c, c ∈ r.ord 8 m.extr ↔ c ∈ m.extr := fun e => (r.ord_perm 8 _).mem_iff
  obtain ⟨p, h1, h2, h3⟩ := resetElems_eq (r.ord 7 m.elems) m.pos fun e he t ht e' he' => hn e ((p7 e).1 he) t ht e' ((p7 e').1 he')
  obtain ⟨h4, h5⟩ := resetExtr_eq 3 (r.ord 8 m.extr) p fun c hc i hi ho c' hc' => hx c ((p8 c).1 hc) i hi ho c' ((p8 c').1 hc')
  refine ⟨{ m with temp := fun v => if v ∈ m.verts then m.pos v else m.temp v, pos := resetExtr m.nd (r.ord 8 m.extr) p, isReset := true }, ?_, fun e he t ht i hi => ?_,
    fun c hc i hi ho => ?_, fun v hv hv' => ?_⟩
  · rw [reset, if_neg (by rw [h0]; simp), hnd, h1]; rfl
  · show resetExtr m.nd _ p _ = _
    rw [hnd, h5 _ fun c hc i' hi' ho => hd e he t ht i hi c ((p8 c).1 hc) i' hi' ho, h2 e ((p7 e).2 he) t ht i hi]
  · show resetExtr m.nd _ p _ = resetExtr m.nd _ p _
    rw [hnd, h4 c ((p8 c).2 hc) i hi ho, h5]
    exact fun c' hc' i' hi' ho' => (hx c hc i hi ho c' ((p8 c').1 hc') i' hi' ho').1.symm
  · show resetExtr m.nd _ p _ = _
    rw [hnd, h5 v fun c hc => hv' c ((p8 c).1 hc), h3 v fun e he => hv e ((p7 e).1 he)]

/-- C85: `restore_verts` after `reset_verts` puts every vertex of the mesh back exactly where it was. -/
theorem restore_exact (r : Run V K) (m m' : Mesh V K) (h : reset r m = .ok m') :
    ∃ m2, restore m' = .ok m2 ∧ (∀ v ∈ m.verts, m2.pos v = m.pos v) ∧ m2.isReset = false ∧ m.isReset = false ∧ m2 = { m with pos := m2.pos, temp := m2.temp } := by
  unfold reset at h
  split_ifs at h with h0
  rcases hp : resetElems m.nd (r.ord 7 m.elems) m.pos with p | _ | _ | _
  · rw [hp] at h
    simp only [Out.bind, Out.ok.injEq] at h
    subst h
    refine ⟨_, rfl, fun v hv => ?_, rfl, by simpa using h0, by simp only; congr; simpa using h0⟩
    simp only [if_pos hv]
  all_goals rw [hp] at h; cases h

/-- C85 is false of `reset_verts` in fewer than three dimensions: it assigns a vector with two components (or one) to one with three, which is undefined behaviour. -/
theorem reset_refuted (r : Run V K) (m : Mesh V K) (hnd : m.nd ≠ 3) (h0 : m.isReset = false) (e : Elem V K) (he : e ∈ m.elems) (t : (Nat → K) × K) (ht : e.tree = some t) : reset r m = .ub := by
  have key : ∀ (l : List (Elem V K)) (p : V → Nat → K), e ∈ l → resetElems m.nd l p = .ub := by
    intro l
    induction l with
    | nil => intro p h; simp at h
    | cons a l ih =>
      intro p h
      rcases ha : a.tree with _ | t'
      · rcases List.mem_cons.1 h with rfl | h
        · rw [ha] at ht; cases ht
        · rw [resetElems, ha]; exact ih p h
      · rw [resetElems, ha]
        exact if_neg hnd
  rw [reset, if_neg (by rw [h0]; simp), key _ _ ((r.ord_perm 7 _).mem_iff.2 he)]
  rfl

end Hexed.Relax
