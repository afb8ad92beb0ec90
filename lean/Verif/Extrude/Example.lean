import Verif.Extrude.Props
import Mathlib.Data.List.Dedup
set_option autoImplicit false
set_option linter.unusedVariables false

/-!
# Cases that meet the hypotheses
-/

namespace Hexed.Extrude

/-! ## A single element in a box of 3 by 3 cells -/

def center : Pos := fun k => if k < 2 then 1 else 0

def single : Region := ⟨fun _ => 0, fun _ => 3, fun c => c = center⟩

theorem single_exposed (f : Pos × Nat × Nat) : f ∈ [(center, 0, 0), (center, 0, 1), (center, 1, 0), (center, 1, 1)] ↔ single.Exposed 2 f.1 f.2.1 f.2.2 := by
  obtain ⟨c, i, s⟩ := f
  constructor
  · intro h
    have hc : c = center ∧ i < 2 ∧ s < 2 := by
      simp only [List.mem_cons, Prod.mk.injEq, List.not_mem_nil, or_false] at h
      rcases h with ⟨h, rfl, rfl⟩ | ⟨h, rfl, rfl⟩ | ⟨h, rfl, rfl⟩ | ⟨h, rfl, rfl⟩ <;> exact ⟨h, by omega, by omega⟩
    obtain ⟨rfl, hi, hs⟩ := hc
    refine ⟨hi, hs, ⟨fun k hk => ?_, fun k hk => ?_⟩, rfl, ⟨fun k hk => ?_, fun k hk => ?_⟩, fun e => ?_⟩
    · simp [single, center, hk]
    · simp [center]; omega
    · simp only [single, across, shift, center, if_pos hk]
      split <;> omega
    · simp only [across, shift, center, if_neg (show ¬k < 2 by omega)]
      split <;> omega
    · have : center i + (2 * (s : Int) - 1) = center i := by
        have := congrFun e i
        simpa [across, shift] using this
      omega
  · rintro ⟨h1, h2, -, h3, -⟩
    simp only at h1 h2 h3
    have h3 : c = center := h3
    subst h3
    interval_cases i <;> interval_cases s <;> simp

theorem single_manifold : single.Manifold 2 := by
  intro c i j s t hi hj hij hs ht h1 h2
  exfalso
  have h1 : c = center := h1
  have h2 : across (across c i s) j t = center := h2
  have := congrFun h2 i
  simp only [across, shift, hij, if_true, if_false, h1] at this
  omega

open Classical in
/-- Its layer of four elements is connected into a ring. -/
example : ∃ p, plan 2 (fun _ _ _ => .inl center) ((requests 2 (([(center, 0, 0), (center, 0, 1), (center, 1, 0), (center, 1, 1)] : List (Pos × Nat × Nat)).map (gridSite single 2 5 fun f => 2 * f.2.1 + f.2.2))).map (·.1)).dedup (fun x => x)
    ((requests 2 (([(center, 0, 0), (center, 0, 1), (center, 1, 0), (center, 1, 1)] : List (Pos × Nat × Nat)).map (gridSite single 2 5 fun f => 2 * f.2.1 + f.2.2))).map (·.1)).dedup
    (recorded 2 (([(center, 0, 0), (center, 0, 1), (center, 1, 0), (center, 1, 1)] : List (Pos × Nat × Nat)).map (gridSite single 2 5 fun f => 2 * f.2.1 + f.2.2))) = .ok p ∧ p.hanging = [] ∧ p.last = [] := by
  obtain ⟨p, h1, h2, h3, -⟩ := grid_connected (R := single) (nd := 2) (level := 5) (sn := fun f => 2 * f.2.1 + f.2.2) single_exposed (by decide) single_manifold (vertexOf := fun _ _ _ => .inl center)
    (order := ((requests 2 (([(center, 0, 0), (center, 0, 1), (center, 1, 0), (center, 1, 1)] : List (Pos × Nat × Nat)).map (gridSite single 2 5 fun f => 2 * f.2.1 + f.2.2))).map (·.1)).dedup)
    (order' := ((requests 2 (([(center, 0, 0), (center, 0, 1), (center, 1, 0), (center, 1, 1)] : List (Pos × Nat × Nat)).map (gridSite single 2 5 fun f => 2 * f.2.1 + f.2.2))).map (·.1)).dedup)
    (merge := fun x => x) (List.nodup_dedup _) (List.nodup_dedup _) (fun x hx => List.mem_dedup.2 (List.mem_map_of_mem hx)) (fun b => List.Perm.refl _)
  exact ⟨p, h1, h2, h3⟩

/-! ## The same with vertices given by numbers -/

/-- The element on face `2*i + s`: its inner vertices are those of the cell, the others have numbers from 10. -/
def ringSite (i s : Nat) : Site Nat := ⟨5, 2 * i + s, i, s, fun _ => false, fun n => if n / 2 ^ (1 - i) % 2 = 1 - s then n + s * 2 ^ (1 - i) - (1 - s) * 2 ^ (1 - i) else 10 + 4 * (2 * i + s) + n⟩

def ringSites : List (Site Nat) := [ringSite 0 0, ringSite 0 1, ringSite 1 0, ringSite 1 1]

example : recorded 2 ringSites 0 = [⟨5, 0, 2, 0⟩, ⟨5, 2, 0, 2⟩] ∧ recorded 2 ringSites 3 = [⟨5, 1, 3, 1⟩, ⟨5, 3, 1, 3⟩] := by decide

def ringPlan : Plan Nat := ⟨[(⟨5, 0, 2, 0⟩, ⟨5, 2, 0, 2⟩), (⟨5, 0, 3, 0⟩, ⟨5, 3, 0, 3⟩), (⟨5, 1, 2, 1⟩, ⟨5, 2, 1, 2⟩), (⟨5, 1, 3, 1⟩, ⟨5, 3, 1, 3⟩)], [], []⟩

theorem ring_ok : plan 2 (fun _ _ i => i) [0, 1, 2, 3] (fun x => x) [0, 1, 2, 3] (recorded 2 ringSites) = .ok ringPlan := rfl

example : (served ringPlan.first ++ servedHanging ringPlan.hanging ++ served ringPlan.last).Perm ((requests 2 ringSites).map (·.2)) :=
  served_once (by decide) (by decide) (by decide) (fun _ => List.Perm.refl _) ring_ok

example := faces_once (nd := 2) (x := ringSite 1 0) (by decide)

/-! ## Hanging nodes in three dimensions, with a vertex that is eaten -/

def hangVerts (v : Nat) : List Rec := if v = 0 then [⟨0, 5, 0, 2⟩, ⟨1, 6, 1, 2⟩] else if v = 7 then [⟨1, 8, 1, 2⟩] else if v = 8 then [⟨2, 1, 0, 4⟩] else if v = 9 then [⟨2, 3, 1, 5⟩] else []

example : ∃ p, plan 3 (fun _ _ i => i) [0, 7, 8, 9] (eaten [0, 7, 8, 9] fun v => if v = 9 then 8 else v) [0, 7, 8] hangVerts = .ok p ∧ p.hanging.length = 1 ∧ p.last = [(⟨2, 1, 0, 4⟩, ⟨2, 3, 1, 5⟩)] := ⟨_, rfl, rfl, rfl⟩

example : (([0, 7, 8] : List Nat).flatMap (eaten [0, 7, 8, 9] (fun v => if v = 9 then 8 else v) hangVerts)).Perm (([0, 7, 8, 9] : List Nat).flatMap hangVerts) := eaten_keeps (by decide) (by decide) _

example : refPlan (⟨⟨0, 5, 0, 2⟩, ⟨1, 6, 1, 2⟩, some (7, ⟨1, 8, 1, 2⟩)⟩ : Hang Nat) = ⟨0, 5, [6, 8], (0, 1), (true, false)⟩ := by decide

example : hangVertex 2 (fun _ _ i => i) 0 (fun v : Nat => if v = 0 then [⟨0, 5, 0, 2⟩, ⟨2, 6, 1, 2⟩] else []) = .error .levels :=
  (hanging_throws (verts := fun v : Nat => if v = 0 then [⟨0, 5, 0, 2⟩, ⟨2, 6, 1, 2⟩] else []) (v := 0) (r := ⟨0, 5, 0, 2⟩) (s := ⟨2, 6, 1, 2⟩) rfl (Or.inl ⟨rfl, by decide, rfl⟩)).1 (Or.inl (by decide))

end Hexed.Extrude
