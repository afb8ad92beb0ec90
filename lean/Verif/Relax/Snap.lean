import Verif.Relax.Boundary
set_option autoImplicit false
set_option linter.unusedVariables false

/-! # Snapping to the extremes and to the surface (C85) -/

namespace Hexed.Relax
variable {V K : Type} [DecidableEq V] [Field K] [LinearOrder K]

theorem setCoord_fold (d : Nat) (x : K) : ∀ (l : List V) (p : V → Nat → K) (v : V) (e : Nat),
    (l.foldl (fun p v => setCoord p v d x) p) v e = if v ∈ l ∧ e = d then x else p v e
  | [], p, v, e => by simp
  | w :: l, p, v, e => by
    rw [List.foldl_cons, setCoord_fold d x l]
    by_cases h : v ∈ l ∧ e = d
    · rw [if_pos h, if_pos ⟨List.mem_cons_of_mem _ h.1, h.2⟩]
    · rw [if_neg h, setCoord]
      by_cases h2 : v = w ∧ e = d
      · rw [if_pos h2, if_pos ⟨by simp [h2.1], h2.2⟩]
      · rw [if_neg h2, if_neg]
        rintro ⟨h3, h4⟩
        rcases List.mem_cons.1 h3 with h3 | h3
        · exact h2 ⟨h3, h4⟩
        · exact h ⟨h3, h4⟩

/-- The coordinates that belong to extreme faces are replaced; the upper face wins. -/
def onPlanes (m : Mesh V K) (o : Nat → K) (s : K) (v : V) (x : Nat → K) : Nat → K := fun d =>
  if d < m.nd ∧ v ∈ m.bverts (m.treeBcs (2 * d + 1)) then o d + s else if d < m.nd ∧ v ∈ m.bverts (m.treeBcs (2 * d)) then o d else x d

theorem snapExtremes_eq (r : Run V K) (k : Nat) (m : Mesh V K) (t : (Nat → K) × K) (p : V → Nat → K) :
    snapExtremes r k m t p = fun v => onPlanes m t.1 t.2 v (p v) := by
  have key : ∀ n, (List.range (2 * n)).foldl (fun p i =>
      (r.ord (k + i) (m.bverts (m.treeBcs i))).foldl (fun p v => setCoord p v (i / 2) (t.1 (i / 2) + (i % 2 : Nat) * t.2)) p) p = fun v d =>
      if d < n ∧ v ∈ m.bverts (m.treeBcs (2 * d + 1)) then t.1 d + t.2 else if d < n ∧ v ∈ m.bverts (m.treeBcs (2 * d)) then t.1 d else p v d := by
    intro n
    induction n with
    | zero => simp
    | succ n ih =>
      have e : List.range (2 * (n + 1)) = List.range (2 * n) ++ [2 * n, 2 * n + 1] := by
        rw [show 2 * (n + 1) = 2 * n + 1 + 1 by ring, List.range_succ, List.range_succ]; simp
      rw [e, List.foldl_append, ih]
      simp only [List.foldl_cons, List.foldl_nil]
      funext v d
      rw [setCoord_fold, setCoord_fold]
      have h1 : 2 * n / 2 = n := by omega
      have h2 : (2 * n + 1) / 2 = n := by omega
      have h3 : 2 * n % 2 = 0 := by omega
      have h4 : (2 * n + 1) % 2 = 1 := by omega
      simp only [h1, h2, h3, h4, (r.ord_perm _ _).mem_iff]
      by_cases hd : d = n
      · subst hd
        simp only [Nat.cast_one, one_mul, Nat.cast_zero, zero_mul, add_zero, and_true, lt_irrefl, false_and, if_false, Nat.lt_succ_self, true_and]
      · have hlt : d < n + 1 ↔ d < n := by omega
        simp only [hd, and_false, if_false, hlt]
  rw [snapExtremes, key]
  rfl

theorem onPlanes_spec (m : Mesh V K) (hp : Proper m) (o : Nat → K) (s : K) (v : V) (x : Nat → K) : Planes m o s v x (onPlanes m o s v x) := by
  intro d
  unfold onPlanes AtExtreme
  refine ⟨fun hd h0 => ?_, fun hd h1 => if_pos ⟨hd, h1⟩, fun h => ?_⟩
  · have := hp d hd v
    simp only [AtExtreme, add_zero] at this h0
    rw [if_neg (by tauto), if_pos ⟨hd, h0⟩]
  · simp only [add_zero] at h
    rw [if_neg, if_neg]
    · rintro ⟨h1, h2⟩; rcases h with h | h
      · omega
      · exact h.1 h2
    · rintro ⟨h1, h2⟩; rcases h with h | h
      · omega
      · exact h.2 h2

theorem planes_unique (m : Mesh V K) (o : Nat → K) (s : K) (v : V) (x y z : Nat → K) (hy : Planes m o s v x y) (hz : Planes m o s v x z) : y = z := by
  funext d
  obtain ⟨a, b, c⟩ := hy d
  obtain ⟨a', b', c'⟩ := hz d
  by_cases hd : d < m.nd
  · by_cases h0 : AtExtreme m d 0 v
    · rw [a hd h0, a' hd h0]
    · by_cases h1 : AtExtreme m d 1 v
      · rw [b hd h1, b' hd h1]
      · rw [c (Or.inr ⟨h0, h1⟩), c' (Or.inr ⟨h0, h1⟩)]
  · rw [c (Or.inl (by omega)), c' (Or.inl (by omega))]

theorem foldl_max_ge (f : Elem V K → K) : ∀ (l : List (Elem V K)) (a : K), a ≤ l.foldl (fun a e => max a (f e)) a
  | [], a => le_refl _
  | e :: l, a => le_trans (le_max_left _ _) (foldl_max_ge f l (max a (f e)))

/-- C85 is false of the search for the smallest size of an element: whatever the sizes of the elements are, and however they are distributed to the threads, the result is the largest
number. So the hint given to the geometry is never of use. -/
theorem min_size_refuted (huge : K) (chunks : List (List (Elem V K))) : minSz huge chunks = huge := by
  unfold minSz
  induction chunks with
  | nil => rfl
  | cons l ls ih =>
    rw [List.map_cons, List.foldl_cons, min_eq_left (foldl_max_ge _ l huge)]
    exact ih

theorem guess_eq (huge : K) (dist : (Nat → K) → (Nat → K) → K) (hd : ∀ x y, dist x y ≤ huge) (r : Run V K) (m : Mesh V K) (v : V) (p : Nat → K) :
    distGuess dist r m huge v p = huge := by
  unfold distGuess
  induction m.neigh v with
  | nil => rfl
  | cons n l ih => rw [List.foldl_cons, max_eq_left (hd _ _)]; exact ih

theorem snapSurf_eq (huge : K) (dist : (Nat → K) → (Nat → K) → K) (hd : ∀ x y, dist x y ≤ huge) (r : Run V K) (m : Mesh V K) (g : Geom K) (near : (Nat → K) → Nat → K)
    (hg : ∀ x, g x huge huge = some (near x)) : ∀ (l : List V) (p : V → Nat → K), l.Nodup →
    snapSurf huge dist r m g huge l p = .ok fun v => if v ∈ l then first m.nd (near (first m.nd (p v) fun _ => 0)) (p v) else p v
  | [], p, _ => by simp [snapSurf]
  | w :: l, p, hl => by
    have hn := List.nodup_cons.1 hl
    rw [snapSurf, guess_eq huge dist hd, hg]
    simp only
    rw [snapSurf_eq huge dist hd r m g near hg l _ hn.2]
    congr 1
    funext v
    by_cases h : v = w
    · subst h; simp [hn.1, upd]
    · simp [h, upd]

theorem snapBoundary_eq (huge : K) (dist : (Nat → K) → (Nat → K) → K) (hd : ∀ x y, dist x y ≤ huge) (r : Run V K) (m : Mesh V K) (o : Nat → K) (s : K) (ht : m.tree = some (o, s))
    (g : Geom K) (hs : m.surf = some g) (near : (Nat → K) → Nat → K) (hg : ∀ x, g x huge huge = some (near x)) (hn : (m.bverts m.surfSn).Nodup) :
    snapBoundary huge dist r m = .ok fun v => onPlanes m o s v (if v ∈ m.bverts m.surfSn then
      first m.nd (near (first m.nd (onPlanes m o s v (m.pos v)) fun _ => 0)) (onPlanes m o s v (m.pos v)) else onPlanes m o s v (m.pos v)) := by
  rw [snapBoundary, ht]
  simp only [hs]
  rw [min_size_refuted, snapSurf_eq huge dist hd r m g near hg _ _ ((r.ord_perm 1 _).nodup_iff.2 hn), Out.bind, snapExtremes_eq]
  congr 1
  funext v
  simp only [(r.ord_perm 1 _).mem_iff, snapExtremes_eq]

/-- C85: when the boundary vertices have been snapped, in whatever order the threads do the work, each vertex that is listed for an extreme face of the tree lies exactly in the plane of that
face. A vertex that is listed for the surface has first been moved into the planes of its extreme faces, then to the nearest point of the surface, then into the planes again; every other
vertex has only been moved into the planes. -/
theorem snapped_exact (huge : K) (dist : (Nat → K) → (Nat → K) → K) (hd : ∀ x y, dist x y ≤ huge) (r : Run V K) (m : Mesh V K) (hp : Proper m) (o : Nat → K) (s : K)
    (ht : m.tree = some (o, s)) (g : Geom K) (hs : m.surf = some g) (near : (Nat → K) → Nat → K) (hg : ∀ x, g x huge huge = some (near x)) (hn : (m.bverts m.surfSn).Nodup) :
    ∃ p, snapBoundary huge dist r m = .ok p ∧ (∀ v, v ∉ m.bverts m.surfSn → Planes m o s v (m.pos v) (p v)) ∧
      ∀ v ∈ m.bverts m.surfSn, ∃ y z, Planes m o s v (m.pos v) y ∧ (∀ d < m.nd, z d = near (fun e => if e < m.nd then y e else 0) d) ∧ (∀ d, m.nd ≤ d → z d = y d) ∧ Planes m o s v z (p v) := by
  refine ⟨_, snapBoundary_eq huge dist hd r m o s ht g hs near hg hn, fun v hv => ?_, fun v hv => ?_⟩
  · have := onPlanes_spec m hp o s v (m.pos v)
    simp only [if_neg hv]
    have e : onPlanes m o s v (onPlanes m o s v (m.pos v)) = onPlanes m o s v (m.pos v) := by
      funext d
      unfold onPlanes
      split_ifs <;> rfl
    rw [e]; exact this
  · refine ⟨onPlanes m o s v (m.pos v), first m.nd (near (first m.nd (onPlanes m o s v (m.pos v)) fun _ => 0)) (onPlanes m o s v (m.pos v)), onPlanes_spec m hp o s v _, fun d hd => if_pos hd,
      fun d hd => if_neg (by omega), ?_⟩
    simp only [if_pos hv]
    exact onPlanes_spec m hp o s v _

/-- C85: a vertex that is listed for the surface but for no extreme face has been moved to the point of the surface nearest to it. -/
theorem snapped_surface (huge : K) (dist : (Nat → K) → (Nat → K) → K) (hd : ∀ x y, dist x y ≤ huge) (r : Run V K) (m : Mesh V K) (hp : Proper m) (o : Nat → K) (s : K)
    (ht : m.tree = some (o, s)) (g : Geom K) (hs : m.surf = some g) (near : (Nat → K) → Nat → K) (hg : ∀ x, g x huge huge = some (near x)) (hn : (m.bverts m.surfSn).Nodup)
    {p : V → Nat → K} (h : snapBoundary huge dist r m = .ok p) (v : V) (hv : v ∈ m.bverts m.surfSn) (hx : ∀ d < m.nd, ∀ sign < 2, ¬ AtExtreme m d sign v) :
    ∀ d < m.nd, p v d = near (fun e => if e < m.nd then m.pos v e else 0) d := by
  obtain ⟨p', h1, _, h2⟩ := snapped_exact huge dist hd r m hp o s ht g hs near hg hn
  rw [h] at h1
  injection h1 with h1
  subst h1
  obtain ⟨y, z, a, b, c, e⟩ := h2 v hv
  intro d hd
  rw [(e d).2.2 (Or.inr ⟨hx d hd 0 (by omega), hx d hd 1 (by omega)⟩), b d hd]
  congr 2
  funext k
  split_ifs with hk
  · exact (a k).2.2 (Or.inr ⟨hx k hk 0 (by omega), hx k hk 1 (by omega)⟩)
  · rfl

/-- C85: without a surface, the vertices are only moved into the planes of their extreme faces. -/
theorem snapped_bare (huge : K) (dist : (Nat → K) → (Nat → K) → K) (r : Run V K) (m : Mesh V K) (hp : Proper m) (o : Nat → K) (s : K) (ht : m.tree = some (o, s)) (hs : m.surf = none) :
    ∃ p, snapBoundary huge dist r m = .ok p ∧ ∀ v, Planes m o s v (m.pos v) (p v) := by
  refine ⟨fun v => onPlanes m o s v (m.pos v), ?_, fun v => onPlanes_spec m hp o s v _⟩
  rw [snapBoundary, ht]
  simp only [hs, Out.bind, snapExtremes_eq]
  congr 1
  funext v d
  unfold onPlanes
  split_ifs <;> rfl

/-- C85: the result does not depend on the order in which the threads do the work, nor on what they see of each other's writes. -/
theorem snapped_order (huge : K) (dist : (Nat → K) → (Nat → K) → K) (hd : ∀ x y, dist x y ≤ huge) (r r' : Run V K) (m : Mesh V K) (o : Nat → K) (s : K) (ht : m.tree = some (o, s))
    (g : Geom K) (hs : m.surf = some g) (near : (Nat → K) → Nat → K) (hg : ∀ x, g x huge huge = some (near x)) (hn : (m.bverts m.surfSn).Nodup) :
    snapBoundary huge dist r m = snapBoundary huge dist r' m := by
  rw [snapBoundary_eq huge dist hd r m o s ht g hs near hg hn, snapBoundary_eq huge dist hd r' m o s ht g hs near hg hn]

end Hexed.Relax
