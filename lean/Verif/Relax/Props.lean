import Verif.Relax.Reset
import Mathlib.Algebra.Order.Ring.Rat
import Mathlib.Tactic.NormNum
set_option autoImplicit false
set_option linter.unusedVariables false

/-! # More about C85: Cartesian elements, and what does not hold -/

namespace Hexed.Relax
open Hexed.Connection
variable {V K : Type} [DecidableEq V] [Field K] [LinearOrder K]

/-- C85: at the end of `update`, before the boundary is snapped, every vertex of a Cartesian element is at a corner of the cube of the element, and no other vertex has been moved. -/
theorem cart_exact (m : Mesh V K) (l : List (Elem V K)) (p : V → Nat → K)
    (h : ∀ e ∈ l, ∀ e' ∈ l, ∀ i < 2 ^ m.nd, ∀ i' < 2 ^ m.nd, e.vert i = e'.vert i' → ∀ d < m.nd,
      e.size * (e.nomPos d + if upper m.nd i d = true then 1 else 0) + e.origin d = e'.size * (e'.nomPos d + if upper m.nd i' d = true then 1 else 0) + e'.origin d) :
    (∀ e ∈ l, ∀ i < 2 ^ m.nd, ∀ d < m.nd, snapCart m l p (e.vert i) d = e.size * (e.nomPos d + if upper m.nd i d = true then 1 else 0) + e.origin d) ∧
    (∀ v d, m.nd ≤ d → snapCart m l p v d = p v d) ∧ ∀ v, (∀ e ∈ l, ∀ i < 2 ^ m.nd, e.vert i ≠ v) → snapCart m l p v = p v := by
  have hc : ∀ (e : Elem V K) i d, cartPos m.nd e i d = e.size * (e.nomPos d + if upper m.nd i d = true then 1 else 0) + e.origin d := by
    intro e i d
    have h1 : upper m.nd i d = decide (i / 2 ^ (m.nd - 1 - d) % 2 = 1) := by rw [upper, Nat.testBit_eq_decide_div_mod_eq]
    rw [h1, cartPos]
    have h2 := Nat.mod_lt (i / 2 ^ (m.nd - 1 - d)) (by omega : 0 < 2)
    by_cases h : i / 2 ^ (m.nd - 1 - d) % 2 = 1
    · simp [h]
    · have h0 : i / 2 ^ (m.nd - 1 - d) % 2 = 0 := by omega
      simp [h0]
  have flat : snapCart m l p = (l.flatMap fun e => (List.range (2 ^ m.nd)).map fun i => (e, i)).foldl
      (fun p s => upd p (s.1.vert s.2) (first m.nd (cartPos m.nd s.1 s.2) (p (s.1.vert s.2)))) p := by
    unfold snapCart
    rw [List.foldl_flatMap]
    congr 1
    funext p e
    rw [List.foldl_map]
  have hmem : ∀ s : Elem V K × Nat, s ∈ (l.flatMap fun e => (List.range (2 ^ m.nd)).map fun i => (e, i)) ↔ s.1 ∈ l ∧ s.2 < 2 ^ m.nd := by
    intro s
    simp only [List.mem_flatMap, List.mem_map, List.mem_range]
    constructor
    · rintro ⟨e, he, i, hi, rfl⟩; exact ⟨he, hi⟩
    · rintro ⟨he, hi⟩; exact ⟨s.1, he, s.2, hi, rfl⟩
  have gen : ∀ (ss : List (Elem V K × Nat)) (q : V → Nat → K), (∀ s ∈ ss, s.1 ∈ l ∧ s.2 < 2 ^ m.nd) → (∀ v d, m.nd ≤ d → q v d = p v d) →
      ss.foldl (fun p s => upd p (s.1.vert s.2) (first m.nd (cartPos m.nd s.1 s.2) (p (s.1.vert s.2)))) q =
        ss.foldl (fun q s => upd q (s.1.vert s.2) (first m.nd (cartPos m.nd s.1 s.2) (p (s.1.vert s.2)))) q := by
    intro ss
    induction ss with
    | nil => intro q _ _; rfl
    | cons s ss ih =>
      intro q hss hq
      have e : first m.nd (cartPos m.nd s.1 s.2) (q (s.1.vert s.2)) = first m.nd (cartPos m.nd s.1 s.2) (p (s.1.vert s.2)) := by
        funext d
        unfold first
        split_ifs with hd
        · rfl
        · exact hq _ _ (by omega)
      rw [List.foldl_cons, List.foldl_cons, e]
      refine ih _ (fun s hs => hss s (by simp [hs])) fun v d hd => ?_
      unfold upd
      split_ifs with hv
      · rw [first, if_neg (by omega), hv]
      · exact hq v d hd
  rw [flat, gen _ _ (fun s hs => (hmem s).1 hs) fun _ _ _ => rfl]
  obtain ⟨f1, f2⟩ := upd_fold (fun s : Elem V K × Nat => s.1.vert s.2) (fun s => first m.nd (cartPos m.nd s.1 s.2) (p (s.1.vert s.2)))
    (l.flatMap fun e => (List.range (2 ^ m.nd)).map fun i => (e, i)) p (by
      intro s hs s' hs' e
      obtain ⟨a, b⟩ := (hmem s).1 hs
      obtain ⟨a', b'⟩ := (hmem s').1 hs'
      funext d
      unfold first
      split_ifs with hd
      · rw [hc, hc]; exact h _ a _ a' _ b _ b' e d hd
      · rw [show s.1.vert s.2 = s'.1.vert s'.2 from e])
  refine ⟨fun e he i hi d hd => ?_, fun v d hd => ?_, fun v hv => f2 v fun s hs => by obtain ⟨a, b⟩ := (hmem s).1 hs; exact hv _ a _ b⟩
  · rw [f1 (e, i) ((hmem _).2 ⟨he, hi⟩), first, if_pos hd, hc]
  · by_cases hv : ∃ s ∈ (l.flatMap fun e => (List.range (2 ^ m.nd)).map fun i => (e, i)), s.1.vert s.2 = v
    · obtain ⟨s, hs, rfl⟩ := hv
      rw [f1 s hs, first, if_neg (by omega)]
    · push Not at hv
      rw [f2 v hv]

/-- C85: with the factor 0, the loops of `relax` leave all vertices where they are. -/
theorem factor_zero (r : Run V K) (m m' : Mesh V K) (hn : m.smooth.Nodup) (h : relaxLoops r 0 m = .ok m') : m'.pos = m.pos := by
  by_cases hne : ∀ v ∈ m.smooth, m.neigh v ≠ []
  · obtain ⟨m2, e, h1, h2, _⟩ := (relaxed_exact r 0 m hn).1 hne
    rw [h] at e
    injection e with e
    subst e
    funext v
    by_cases hs : v ∈ m.smooth ∧ Mobile m v
    · funext d
      rw [h1 v hs.1 hs.2 d]; ring
    · exact h2 v (by tauto)
  · push Not at hne
    rw [(relaxed_exact r 0 m hn).2 hne] at h
    cases h

/-! ## Witnesses -/

/-- One thread that does everything in order. -/
def serial (V K : Type) [Zero K] : Run V K := ⟨fun _ _ l => l, fun _ _ l => List.Perm.refl _, fun l => [l], fun l => by simp, fun _ _ _ => 0, fun _ => 0⟩

/-- The line through the origin at 45 degrees, as a geometry. -/
def diagonal : Geom ℚ := fun x _ _ => some fun _ => (x 0 + x 1) / 2

/-- A mesh of two dimensions with the vertex 0, which is listed for the lower face in the first dimension and for the surface, and its neighbour 1. -/
def cornerMesh : Mesh Nat ℚ where
  nd := 2
  verts := [0, 1]
  ptrs := fun _ => [⟨true, true⟩]
  neigh := fun v => if v = 0 then [1] else [0]
  pos := fun v d => if v = 0 then (if d = 1 then 1 else 0) else 3
  temp := fun _ _ => 0
  record := fun _ => []
  isReset := false
  smooth := [0, 1]
  nBc := 5
  bverts := fun b => if b = 0 ∨ b = 4 then [0] else []
  cons := []
  allCons := []
  carts := []
  elems := []
  tree := some (fun _ => 0, 4)
  treeBcs := id
  surf := some diagonal
  surfSn := 4
  mbc := fun _ => .null
  matchers := []
  extr := []

theorem corner_snapped : ∃ p, snapBoundary 1000 (fun _ _ => 0) (serial Nat ℚ) cornerMesh = .ok p ∧ p 0 0 = 0 ∧ p 0 1 = 1 / 2 := by
  refine ⟨_, snapBoundary_eq 1000 (fun _ _ => 0) (fun _ _ => by norm_num) (serial Nat ℚ) cornerMesh (fun _ => 0) 4 rfl diagonal rfl (fun x _ => (x 0 + x 1) / 2) (fun _ => rfl)
    (by simp [cornerMesh]), ?_, ?_⟩
  · norm_num [onPlanes, cornerMesh, first]
  · norm_num [onPlanes, cornerMesh, first]

/-- C85 is false of a vertex that is listed both for the surface and for an extreme face: in the end it need not be on the surface, and snapping again moves it again. -/
theorem both_refuted : ∃ (m : Mesh Nat ℚ) (g : Geom ℚ) (p : Nat → Nat → ℚ), m.surf = some g ∧ 0 ∈ m.bverts m.surfSn ∧ Proper m ∧
    snapBoundary 1000 (fun _ _ => 0) (serial Nat ℚ) m = .ok p ∧ (∀ x y, g x 1000 1000 = some y → ∃ d < m.nd, p 0 d ≠ y d) := by
  obtain ⟨p, h1, h2, h3⟩ := corner_snapped
  refine ⟨cornerMesh, diagonal, p, rfl, by simp [cornerMesh], ?_, h1, fun x y hy => ?_⟩
  · intro d hd v
    simp only [AtExtreme, cornerMesh, id]
    rintro ⟨_, hb⟩
    have h : ¬ (2 * d + 1 = 0 ∨ 2 * d + 1 = 4) := by omega
    rw [if_neg h] at hb
    simp at hb
  · have hy' : y 0 = y 1 := by
      have := Option.some.inj hy
      rw [← this]
    by_contra hc
    push Not at hc
    have a := hc 0 (by simp [cornerMesh])
    have b := hc 1 (by simp [cornerMesh])
    rw [h2] at a
    rw [h3] at b
    rw [← a, ← b] at hy'
    norm_num at hy'

/-- C85 is false of the documentation of the factor: with 0 there can be an update, because the boundary is snapped. -/
theorem factor_doc_refuted : ∃ (m m' : Mesh Nat ℚ), relax 1000 (fun _ _ => 0) (serial Nat ℚ) 0 m = .ok m' ∧ m'.pos ≠ m.pos := by
  obtain ⟨m1, hb⟩ : ∃ m1, idBoundary cornerMesh = .ok m1 := ⟨_, rfl⟩
  obtain ⟨h1, e⟩ := boundary_exact cornerMesh m1 hb (by rintro bc v ⟨c, hc, _⟩; simp [cornerMesh] at hc)
  have hon : ∀ bc v, ¬ OnFace cornerMesh bc v := by rintro bc v ⟨c, hc, _⟩; simp [cornerMesh] at hc
  have hneed : ∀ v, Needs cornerMesh v := fun v => ⟨⟨true, true⟩, by simp [cornerMesh], rfl⟩
  have hbv : ∀ bc < 5, ∀ v, v ∈ m1.bverts bc ↔ v ∈ cornerMesh.bverts bc := fun bc hbc v => by
    rw [(h1 bc hbc).1 v]
    have := hon bc v
    have := hneed v
    tauto
  have hsm : m1.smooth.Nodup := by rw [e]; simp [cornerMesh]
  obtain ⟨m2, h3, _, _, e2⟩ := (relaxed_exact (serial Nat ℚ) 0 m1 hsm).1 (by
    intro v _
    have : m1.neigh v = cornerMesh.neigh v := by rw [e]
    rw [this]
    simp only [cornerMesh]
    split_ifs <;> simp)
  have hp2 : m2.pos = cornerMesh.pos := by rw [factor_zero _ _ _ hsm h3, e]
  have q : m2.bverts = m1.bverts := by rw [e2]
  have qn : m2.nd = 2 := by rw [e2, e]; rfl
  have qt : m2.treeBcs = id := by rw [e2, e]; rfl
  have qs : m2.surfSn = 4 := by rw [e2, e]; rfl
  refine ⟨cornerMesh, { m2 with pos := fun v => onPlanes m2 (fun _ => 0) 4 v (if v ∈ m2.bverts m2.surfSn then
      first m2.nd ((fun x _ => (x 0 + x 1) / 2) (first m2.nd (onPlanes m2 (fun _ => 0) 4 v (m2.pos v)) fun _ => 0)) (onPlanes m2 (fun _ => 0) 4 v (m2.pos v)) else
      onPlanes m2 (fun _ => 0) 4 v (m2.pos v)) }, ?_, fun h => ?_⟩
  · rw [relax, hb]
    simp only [Out.bind]
    rw [h3]
    simp only [snap]
    rw [snapBoundary_eq 1000 (fun _ _ => 0) (fun _ _ => by norm_num) (serial Nat ℚ) m2 (fun _ => 0) 4 (by rw [e2, e]; rfl) diagonal (by rw [e2, e]; rfl) (fun x _ => (x 0 + x 1) / 2)
      (fun _ => rfl) (by rw [qs, q]; exact (h1 4 (by simp [cornerMesh])).2 (by simp [cornerMesh]))]
    simp only [Out.bind, serial]
    have : m2.matchers = [] := by rw [e2, e]; rfl
    rw [this]
    rfl
  · have h' := congrFun (congrFun h 0) 1
    have b0 : 0 ∈ m2.bverts 0 := by rw [q, hbv 0 (by norm_num)]; simp [cornerMesh]
    have b4 : 0 ∈ m2.bverts 4 := by rw [q, hbv 4 (by norm_num)]; simp [cornerMesh]
    have b1 : 0 ∉ m2.bverts 1 := by rw [q, hbv 1 (by norm_num)]; simp [cornerMesh]
    have b2 : 0 ∉ m2.bverts 2 := by rw [q, hbv 2 (by norm_num)]; simp [cornerMesh]
    have b3 : 0 ∉ m2.bverts 3 := by rw [q, hbv 3 (by norm_num)]; simp [cornerMesh]
    simp only [qs, if_pos b4, onPlanes, qt, qn, first, hp2] at h'
    norm_num [b0, b1, b2, b3] at h'
    norm_num [cornerMesh] at h'

end Hexed.Relax
