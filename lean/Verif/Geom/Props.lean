import Verif.Geom.Search
import Mathlib.LinearAlgebra.Matrix.ToLin
set_option autoImplicit false
set_option linter.unusedVariables false

/-! # Nearest points and intersections of surface geometries (C28, C29) -/

namespace Hexed.Geom
open Finset Classical

variable {n : Nat}

/-! ## Nearest points (C28) -/

/-- The result of a search for the point of `S` nearest to `p`. -/
structure Res (nr : Near n) (p : V n) (S : Set (V n)) (maxDist : ℝ) : Prop where
  ref : nr.ref = p
  emp : nr.empty = true → maxDist * maxDist ≤ nr.distSq
  pnt : nr.empty = false → nr.pnt ∈ S ∧ nr.distSq = ‖nr.pnt - p‖ ^ 2 ∧ nr.distSq < maxDist * maxDist
  cover : ∀ q ∈ S, ‖q - p‖ < maxDist → nr.distSq ≤ ‖q - p‖ ^ 2

theorem Res.isNearest {nr : Near n} {p : V n} {S : Set (V n)} {m : ℝ} (h : Res nr p S m) (hm : 0 ≤ m) : IsNearest S p m nr.point := by
  rw [Near.point]
  cases he : nr.empty
  · obtain ⟨h1, h2, h3⟩ := h.pnt he
    rw [if_neg (by simp)]
    have hlt : ‖nr.pnt - p‖ < m := by
      rw [h2, ← sq] at h3
      exact lt_of_pow_lt_pow_left₀ 2 hm h3
    refine ⟨h1, hlt, fun q hq => ?_⟩
    rcases lt_or_ge ‖q - p‖ m with h' | h'
    · have := h.cover q hq h'
      rw [h2] at this
      exact le_of_sq_le_sq this (norm_nonneg _)
    · linarith
  · rw [if_pos rfl]
    intro q hq
    by_contra hlt
    push Not at hlt
    have h1 := h.cover q hq hlt
    have h2 := h.emp he
    nlinarith [norm_nonneg (q - p)]

theorem res_new (p : V n) (m : ℝ) : Res (Near.new p m) p ∅ m := ⟨rfl, fun _ => le_rfl, fun h => by simp [Near.new] at h, fun q hq => absurd hq (Set.notMem_empty _)⟩

theorem Res.le {nr : Near n} {p : V n} {S : Set (V n)} {m : ℝ} (h : Res nr p S m) : nr.empty = true ∨ nr.distSq < m * m := by
  cases he : nr.empty
  · exact Or.inr (h.pnt he).2.2
  · exact Or.inl rfl

theorem Res.merge {a b : Near n} {p : V n} {S T : Set (V n)} {m : ℝ} (ha : Res a p S m) (hb : Res b p T m) : Res (a.merge b) p (S ∪ T) m := by
  rw [Near.merge]
  split
  · rename_i hlt
    refine ⟨hb.ref, hb.emp, fun he => ⟨Or.inr (hb.pnt he).1, (hb.pnt he).2⟩, ?_⟩
    rintro q (hq | hq) hd
    · exact hlt.le.trans (ha.cover q hq hd)
    · exact hb.cover q hq hd
  · rename_i hlt
    push Not at hlt
    refine ⟨ha.ref, ha.emp, fun he => ⟨Or.inl (ha.pnt he).1, (ha.pnt he).2⟩, ?_⟩
    rintro q (hq | hq) hd
    · exact ha.cover q hq hd
    · exact hlt.trans (hb.cover q hq hd)

theorem sgeom_res (huge : ℝ) (cand : Sim n → V n → List (V n)) (hcand : CandOk cand) (g : SGeom n) (hin : g.tree.Inside g.rootSz g.orig) (hall : ∀ s, s ∈ g.tree.all ↔ s ∈ g.sims)
    (p : V n) (m : ℝ) (hm : 0 ≤ m) (hmh : m ≤ huge) : ∀ (k : Nat) (guess : ℝ) (hg : 0 < guess), ⌈m / guess⌉₊ = k → Res (g.nearestPos huge cand p m guess hg) p {x | ∃ s ∈ g.sims, x ∈ s.points} m := by
  intro k
  induction k using Nat.strong_induction_on with
  | _ k ih =>
    intro guess hg hk
    rw [SGeom.nearestPos]
    have ok0 : (Near.new p (min m guess)).Ok p {x | ∃ s ∈ g.sims, x ∈ s.points} (min m guess * min m guess) := ⟨rfl, fun _ => rfl, fun h => by simp [Near.new] at h⟩
    obtain ⟨h1, h2, h3⟩ := recNearest_ok cand hcand g.rootSz g.orig p (min m guess) {x | ∃ s ∈ g.sims, x ∈ s.points} (min m guess * min m guess) g.tree _ hin ok0
      (fun s hs x hx => ⟨s, (hall s).1 hs, hx⟩)
    generalize recNearest cand g.rootSz g.orig p (min m guess) g.tree (Near.new p (min m guess)) = nr at h1 h2 h3
    split
    · rename_i hrec
      refine ih _ ?_ (2 * guess) _ rfl
      rw [← hk]
      have : m / (2 * guess) = m / guess / 2 := by field_simp
      rw [this]
      exact halve_ceil _ ((one_lt_div hg).2 hrec.2)
    · rename_i hstop
      rw [Near.convert]
      have hL0 : 0 ≤ min m guess := le_min hm hg.le
      cases he : nr.empty
      · rw [if_neg (by simp)]
        obtain ⟨p1, p2, p3⟩ := h1.pnt he
        have hlt : ‖nr.pnt - p‖ < min m guess := by
          rw [p2, ← sq] at p3
          exact lt_of_pow_lt_pow_left₀ 2 hL0 p3
        refine ⟨h1.ref, fun h => by simp [Near.mk'] at h, fun _ => ⟨p1, by simp [Near.mk', h1.ref], ?_⟩, ?_⟩
        · simp only [Near.mk', h1.ref]
          have := lt_of_lt_of_le hlt (min_le_left _ _)
          nlinarith [norm_nonneg (nr.pnt - p)]
        · rintro q ⟨s, hs, hq⟩ hd
          simp only [Near.mk', h1.ref]
          rcases le_or_gt ‖q - p‖ (min m guess) with h' | h'
          · rw [← p2]; exact h3 s ((hall s).2 hs) q hq h'
          · exact pow_le_pow_left₀ (norm_nonneg _) (hlt.le.trans h'.le) 2
      · rw [if_pos rfl, h1.ref]
        have hge : m ≤ guess := by
          by_contra h
          exact hstop ⟨he, lt_of_not_ge h⟩
        rw [min_eq_left hge] at h3 h1
        refine ⟨rfl, fun _ => mul_self_le_mul_self hm hmh, fun h => by simp [Near.new] at h, ?_⟩
        rintro q ⟨s, hs, hq⟩ hd
        exfalso
        have := h3 s ((hall s).2 hs) q hq hd.le
        rw [h1.emp he] at this
        nlinarith [norm_nonneg (q - p)]

theorem sphere_res (c : V n) (r : ℝ) (hr : 0 ≤ r) (p : V n) (hp : p ≠ c) (m : ℝ) : Res (sphereNearest c r p m) p {x | ‖x - c‖ = r} m := by
  have hpc : 0 < ‖p - c‖ := norm_pos_iff.2 (sub_ne_zero.2 hp)
  have hx : (if 0 < ‖p - c‖ ^ 2 then ‖p - c‖⁻¹ • (p - c) else p - c) = ‖p - c‖⁻¹ • (p - c) := if_pos (by positivity)
  rw [sphereNearest, hx]
  generalize hX : c + r • ‖p - c‖⁻¹ • (p - c) = x
  have hmem : ‖x - c‖ = r := by
    rw [← hX, add_sub_cancel_left, norm_smul, norm_smul, norm_inv, norm_norm, inv_mul_cancel₀ hpc.ne', mul_one, Real.norm_of_nonneg hr]
  have hdist : ‖x - p‖ = |r - ‖p - c‖| := by
    have : x - p = (r - ‖p - c‖) • (‖p - c‖⁻¹ • (p - c)) := by
      rw [sub_smul, smul_smul ‖p - c‖, mul_inv_cancel₀ hpc.ne', one_smul, ← hX]; abel
    rw [this, norm_smul, norm_smul, norm_inv, norm_norm, inv_mul_cancel₀ hpc.ne', mul_one, Real.norm_eq_abs]
  have hbest : ∀ q, ‖q - c‖ = r → ‖x - p‖ ≤ ‖q - p‖ := by
    intro q hq
    rw [hdist, ← hq]
    have := abs_norm_sub_norm_le (q - c) (p - c)
    rwa [show q - c - (p - c) = q - p by abel] at this
  rw [Near.mergePoint, Near.merge]
  split
  · rename_i hlt
    refine ⟨rfl, fun h => by simp [Near.mk'] at h, fun _ => ⟨hmem, rfl, hlt⟩, fun q hq _ => ?_⟩
    exact pow_le_pow_left₀ (norm_nonneg _) (hbest q hq) 2
  · rename_i hlt
    refine ⟨rfl, fun _ => le_rfl, fun h => by simp [Near.new] at h, fun q hq hd => ?_⟩
    have h1 : m * m ≤ ‖x - p‖ ^ 2 := not_lt.1 hlt
    exact h1.trans (pow_le_pow_left₀ (norm_nonneg _) (hbest q hq) 2)

section
variable [NeZero n] (huge : ℝ) (cand : Sim n → V n → List (V n)) (hcand : CandOk cand) (p : V n) (m guess : ℝ) (hm : 0 ≤ m) (hmh : m ≤ huge) (hg : 0 < guess)
include hcand hm hmh hg

mutual
theorem geom_res : ∀ g : Geom n, g.Constructed huge → ¬g.IsCenter p → ∃ nr, g.nearest huge cand p m guess = some nr ∧ Res nr p g.points m
  | .sphere c r, hc, hp => by
    rw [Geom.Constructed] at hc
    rw [Geom.IsCenter] at hp
    rw [Geom.nearest, Geom.points]
    exact ⟨_, rfl, sphere_res c r hc p hp m⟩
  | .simplices g tol, hc, hp => by
    rw [Geom.Constructed] at hc
    obtain ⟨fuel, hf⟩ := hc
    obtain ⟨_, h1, h2⟩ := make_spec huge fuel g.sims g hf
    rw [Geom.nearest, Geom.points, SGeom.nearest, dif_pos hg]
    exact ⟨_, rfl, sgeom_res huge cand hcand g h1 h2 p m hm hmh _ guess hg rfl⟩
  | .compound comps, hc, hp => by
    rw [Geom.Constructed] at hc
    rw [Geom.IsCenter] at hp
    rw [Geom.nearest, Geom.points]
    obtain ⟨nr, h1, h2⟩ := geomList_res comps (Near.new p m) ∅ hc hp (res_new p m)
    rw [Set.empty_union] at h2
    exact ⟨nr, h1, h2⟩
theorem geomList_res : ∀ (gs : List (Geom n)) (nr : Near n) (S : Set (V n)), Geom.ConstructedList huge gs → ¬Geom.IsCenterList p gs → Res nr p S m →
    ∃ nr', Geom.nearestList huge cand p m guess gs nr = some nr' ∧ Res nr' p (S ∪ Geom.pointsList gs) m
  | [], nr, S, hc, hp, h => by
    rw [Geom.nearestList, Geom.pointsList, Set.union_empty]
    exact ⟨nr, rfl, h⟩
  | g :: gs, nr, S, hc, hp, h => by
    rw [Geom.ConstructedList] at hc
    rw [Geom.IsCenterList, not_or] at hp
    obtain ⟨x, hx, hr⟩ := geom_res g hc.1 hp.1
    obtain ⟨y, hy, hr'⟩ := geomList_res gs (nr.merge x) (S ∪ g.points) hc.2 hp.2 (h.merge hr)
    rw [Geom.nearestList, hx, Geom.pointsList, ← Set.union_assoc]
    exact ⟨y, hy, hr'⟩
end
end

/-- In two dimensions: the search returns, and what it returns is a nearest point of the geometry within the search radius, or nothing if there is none.
Missing because false (`center_refuted`): query points that are the center of a sphere. -/
theorem nearest_2d_partial (huge : ℝ) (g : Geom 2) (hc : g.Constructed huge) (p : V 2) (hp : ¬g.IsCenter p) (maxDist guess : ℝ) (hm : 0 ≤ maxDist) (hmh : maxDist ≤ huge) (hg : 0 < guess) :
    ∃ nr, g.nearest huge cand2 p maxDist guess = some nr ∧ IsNearest g.points p maxDist nr.point := by
  obtain ⟨nr, h1, h2⟩ := geom_res huge cand2 cand2_ok p maxDist guess hm hmh hg g hc hp
  exact ⟨nr, h1, h2.isNearest hm⟩

/-- The same in three dimensions. -/
theorem nearest_3d_partial (huge : ℝ) (g : Geom 3) (hc : g.Constructed huge) (p : V 3) (hp : ¬g.IsCenter p) (maxDist guess : ℝ) (hm : 0 ≤ maxDist) (hmh : maxDist ≤ huge) (hg : 0 < guess) :
    ∃ nr, g.nearest huge cand3 p maxDist guess = some nr ∧ IsNearest g.points p maxDist nr.point := by
  obtain ⟨nr, h1, h2⟩ := geom_res huge cand3 cand3_ok p maxDist guess hm hmh hg g hc hp
  exact ⟨nr, h1, h2.isNearest hm⟩

/-- Two right answers of a search agree on whether there is one and on the distance, whatever the order in which candidates were considered. -/
theorem nearest_unique (S : Set (V n)) (p : V n) (m : ℝ) (a b : Option (V n)) (ha : IsNearest S p m a) (hb : IsNearest S p m b) : a.map (fun x => ‖x - p‖) = b.map (fun x => ‖x - p‖) := by
  cases a <;> cases b
  · rfl
  · exact absurd hb.2.1 (not_lt.2 (ha _ hb.1))
  · exact absurd ha.2.1 (not_lt.2 (hb _ ha.1))
  · simp only [Option.map_some, Option.some.injEq]
    exact le_antisymm (ha.2.2 _ hb.1) (hb.2.2 _ ha.1)

/-- At the center of a sphere, the answer is the center itself, which is not on the sphere. -/
theorem center_refuted : ∃ (g : Geom 2) (p : V 2), g.Constructed 100 ∧ ∃ nr, g.nearest 100 cand2 p 10 10 = some nr ∧ nr.point = some p ∧ p ∉ g.points := by
  refine ⟨.sphere 0 1, 0, by rw [Geom.Constructed]; norm_num, _, by rw [Geom.nearest], ?_, ?_⟩
  · simp [sphereNearest, Near.mergePoint, Near.merge, Near.mk', Near.new, Near.point]
  · simp [Geom.points]

/-- `Nearest_point`: merging any list of points gives an object with the smallest of the distances, in any order. -/
theorem merge_order (nr : Near n) (cs cs' : List (V n)) (h : cs.Perm cs') : (cs.foldl Near.mergePoint nr).distSq = (cs'.foldl Near.mergePoint nr).distSq ∧
    (cs.foldl Near.mergePoint nr).distSq = (cs.map fun c => ‖c - nr.ref‖ ^ 2).foldl min nr.distSq := by
  have key : ∀ (cs : List (V n)) (nr : Near n), (cs.foldl Near.mergePoint nr).distSq = (cs.map fun c => ‖c - nr.ref‖ ^ 2).foldl min nr.distSq := by
    intro cs
    induction cs with
    | nil => intro nr; rfl
    | cons c cs ih =>
      intro nr
      rw [List.foldl_cons, ih, List.map_cons, List.foldl_cons]
      have h1 : (nr.mergePoint c).ref = nr.ref := by rw [Near.mergePoint, Near.merge]; split <;> rfl
      have h2 : (nr.mergePoint c).distSq = min nr.distSq (‖c - nr.ref‖ ^ 2) := by
        rw [Near.mergePoint, Near.merge]
        split
        · rename_i h; rw [min_eq_right]; · rfl
          exact h.le
        · rename_i h; rw [min_eq_left]; exact not_lt.1 h
      rw [h1, h2]
  refine ⟨?_, key cs nr⟩
  rw [key, key]
  have hp := h.map (fun c => ‖c - nr.ref‖ ^ 2)
  exact hp.foldl_eq' (fun a _ b _ z => by rw [min_assoc, min_comm a b, ← min_assoc]) _

end Hexed.Geom
