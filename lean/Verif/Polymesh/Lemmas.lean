import Verif.Polymesh.Geom
import Verif.Mesh.Props
import Mathlib.Data.List.Perm.Subperm
import Mathlib.Data.List.Nodup
import Mathlib.Algebra.BigOperators.Group.List.Basic

set_option autoImplicit false
set_option linter.unusedVariables false

/-!
# Lemmas about `export_polymesh`: numbering, faces and sums over connections
-/

namespace Hexed.Polymesh
open Hexed.MeshConn
open Hexed.Connection (Dir vertexInds strAt Legal sideInds faceVertexInds)
noncomputable section

theorem numbering_aux (l : List Nat) (hl : l.Nodup) : ∀ (n : Nat) (r : Nat → Option Nat) (v : Nat),
    (l.zipIdx n).foldl (fun (r : Nat → Option Nat) (x : Nat × Nat) => Function.update r x.1 (some x.2)) r v = if v ∈ l then some (n + l.idxOf v) else r v := by
  induction l with
  | nil => intro n r v; simp
  | cons a l ih =>
    intro n r v
    rw [List.nodup_cons] at hl
    rw [List.zipIdx_cons, List.foldl_cons, ih hl.2]
    by_cases ha : v = a
    · subst ha
      rw [if_neg hl.1]; simp
    · have : List.idxOf v (a :: l) = List.idxOf v l + 1 := by rw [List.idxOf_cons_ne _ (Ne.symm ha)]
      simp [ha, this, Nat.add_comm, Nat.add_left_comm]

theorem numbering_eq {l : List Nat} (hl : l.Nodup) {v : Nat} (hv : v ∈ l) : numbering l v = some (l.idxOf v) := by
  rw [numbering, numbering_aux l hl, if_pos hv, Nat.zero_add]

theorem mapM_some {α β : Type} {f : α → Option β} {g : α → β} : ∀ {l : List α}, (∀ a ∈ l, f a = some (g a)) → l.mapM f = some (l.map g) := by
  intro l
  induction l with
  | nil => intro _; rfl
  | cons a l ih =>
    intro h
    rw [List.mapM_cons, h a (by simp), ih fun b hb => h b (by simp [hb])]
    rfl

theorem idxOf_get {l : List Nat} {v : Nat} (hv : v ∈ l) : l[l.idxOf v]? = some v := by
  rw [List.getElem?_eq_getElem (List.idxOf_lt_length_iff.2 hv), List.getElem_idxOf]

/-- What a good face is: four points of the mesh with the given area vector. -/
structure GoodFace (D : Data) (pos : Nat → Vec) (f V : List Nat) (A : Vec) : Prop where
  len : f.length = 4
  lt : ∀ k ∈ f, k < D.verts.length
  verts : (f.map fun k => D.verts[k]?).Perm (V.map some)
  area : ∀ p : Files, p.points = D.verts → p.area pos f = A

theorem faceVerts_perm (D : Data) (e : Elem) (d : Fin 3) (s : Bool) : ((List.range 4).map fun k => D.vert e (nat3 d s k)).Perm (D.faceVerts e d s) := by
  have : ((List.range 4).map (nat3 d s)).Perm ([(false, false), (false, true), (true, false), (true, true)].map fun t => vtx (faceCorner d s t)) := by
    revert d s; decide +kernel
  have := this.map (D.vert e)
  rw [List.map_map, List.map_map] at this
  exact this

theorem addVerts_ok {D : Data} {pos : Nat → Vec} (hnd : D.mesh.nd = 3) (hv : D.verts.Nodup) {e : Elem} (he : ∀ i < 8, D.vert e i ∈ D.verts) (d : Fin 3) (s flip : Bool) :
    ∃ f, addVerts D e d.val s.toNat flip = some f ∧ GoodFace D pos f (D.faceVerts e d s) fun i => (if flip then -1 else 1) * outward (D.x pos e) d s i := by
  have hlt : ∀ k < 4, nat3 d s k < 8 := by
    have : ∀ (d : Fin 3) (s : Bool) (k : Fin 4), nat3 d s k.val < 8 := by decide +kernel
    exact fun k hk => this d s ⟨k, hk⟩
  have hm : ((List.range (2 ^ D.mesh.nd)).filter fun i_vert => i_vert / 2 ^ (D.mesh.nd - d.val - 1) % 2 = s.toNat).mapM (fun i_vert => numbering D.verts (D.vert e i_vert)) =
      some ((List.range 4).map fun k => D.verts.idxOf (D.vert e (nat3 d s k))) := by
    rw [hnd, filter_eq, mapM_some (g := fun i => D.verts.idxOf (D.vert e i)), List.map_map]
    · rfl
    · intro i hi
      obtain ⟨k, hk, rfl⟩ := List.mem_map.1 hi
      exact numbering_eq hv (he _ (hlt k (List.mem_range.1 hk)))
  have hl : ∀ k < 4, D.verts.idxOf (D.vert e (nat3 d s k)) < D.verts.length := fun k hk => List.idxOf_lt_length_iff.2 (he _ (hlt k hk))
  have hg : ∀ k < 4, D.verts[D.verts.idxOf (D.vert e (nat3 d s k))]? = some (D.vert e (nat3 d s k)) := fun k hk => idxOf_get (he _ (hlt k hk))
  have hs : sgn d s = if s.toNat ≠ d.val % 2 then 1 else -1 := rfl
  rw [addVerts, hm]
  simp only [List.range_succ, List.range_zero, List.nil_append, List.cons_append, List.map_cons, List.map_nil, Option.bind_some]
  by_cases hc : ((decide (s.toNat ≠ d.val % 2)) != flip) = true
  · rw [if_pos hc]
    refine ⟨_, rfl, rfl, ?_, ?_, ?_⟩
    · intro k hk
      simp only [List.set_cons_zero, List.set_cons_succ, List.mem_cons, List.not_mem_nil, or_false] at hk
      rcases hk with rfl | rfl | rfl | rfl
      · exact hl 1 (by decide)
      · exact hl 0 (by decide)
      · exact hl 2 (by decide)
      · exact hl 3 (by decide)
    · refine List.Perm.trans ?_ ((faceVerts_perm D e d s).map some)
      simp only [List.set_cons_zero, List.set_cons_succ, List.map_cons, List.map_nil, hg 0 (by decide), hg 1 (by decide), hg 2 (by decide), hg 3 (by decide), List.range_succ, List.range_zero, List.nil_append, List.cons_append]
      exact List.Perm.swap ..
    · intro p hp
      funext i
      rw [outward_nat, hs]
      simp only [Files.area, hp, List.set_cons_zero, List.set_cons_succ, List.getElem?_cons_zero, List.getElem?_cons_succ, Option.bind_some, hg 0 (by decide), hg 1 (by decide), hg 2 (by decide), hg 3 (by decide), Option.elim_some]
      have : quadArea (pos (D.vert e (nat3 d s 1))) (pos (D.vert e (nat3 d s 0))) (pos (D.vert e (nat3 d s 2))) (pos (D.vert e (nat3 d s 3))) i = quadNat (fun k => D.x pos e (nat3 d s k)) i := rfl
      rw [this]
      cases flip <;> by_cases h : s.toNat = d.val % 2 <;> simp [h] at hc ⊢
  · rw [if_neg hc]
    refine ⟨_, rfl, rfl, ?_, ?_, ?_⟩
    · intro k hk
      simp only [List.set_cons_zero, List.set_cons_succ, List.mem_cons, List.not_mem_nil, or_false] at hk
      rcases hk with rfl | rfl | rfl | rfl
      · exact hl 0 (by decide)
      · exact hl 1 (by decide)
      · exact hl 3 (by decide)
      · exact hl 2 (by decide)
    · refine List.Perm.trans ?_ ((faceVerts_perm D e d s).map some)
      simp only [List.set_cons_zero, List.set_cons_succ, List.map_cons, List.map_nil, hg 0 (by decide), hg 1 (by decide), hg 2 (by decide), hg 3 (by decide), List.range_succ, List.range_zero, List.nil_append, List.cons_append]
      exact ((List.Perm.swap ..).cons _).cons _
    · intro p hp
      funext i
      rw [outward_nat, hs]
      simp only [Files.area, hp, List.set_cons_zero, List.set_cons_succ, List.getElem?_cons_zero, List.getElem?_cons_succ, Option.bind_some, hg 0 (by decide), hg 1 (by decide), hg 2 (by decide), hg 3 (by decide), Option.elim_some]
      have : quadArea (pos (D.vert e (nat3 d s 0))) (pos (D.vert e (nat3 d s 1))) (pos (D.vert e (nat3 d s 3))) (pos (D.vert e (nat3 d s 2))) i = -quadNat (fun k => D.x pos e (nat3 d s k)) i := quadNat_neg (fun k => D.x pos e (nat3 d s k)) i
      rw [this]
      cases flip <;> by_cases h : s.toNat = d.val % 2 <;> simp [h] at hc ⊢

/-- The number of a cell. -/
def Data.cell (D : Data) (e : Elem) : Nat := D.mesh.elements.idxOf e

/-- What the face of a connection contributes to the sum of area vectors of cell `c`. -/
def share (c o n : Nat) (A : Vec) : Vec := fun i => (if o = c then A i else 0) - if n = c then A i else 0

theorem interiorFace_ok {D : Data} {pos : Nat → Vec} (hnd : D.mesh.nd = 3) (hv : D.verts.Nodup) (hve : ∀ e ∈ D.mesh.elements, ∀ i < 8, D.vert e i ∈ D.verts) (hel : D.mesh.elements.Nodup)
    {v : View} {e0 e1 : Elem} {dir : Dir} (h0 : viewElement v false = some e0) (h1 : viewElement v true = some e1) (hd : viewDir v = some dir) (m0 : e0 ∈ D.mesh.elements) (m1 : e1 ∈ D.mesh.elements) (hne : e0 ≠ e1) :
    ∃ side f, interiorFace D v = some (D.cell (if side then e1 else e0), D.cell (if side then e0 else e1), f) ∧ D.cell (if side then e1 else e0) < D.cell (if side then e0 else e1) ∧
      GoodFace D pos f (D.faceVerts (if D.level e1 > D.level e0 then e1 else e0) (dir.iDim (decide (D.level e1 > D.level e0))) (dir.faceSign (decide (D.level e1 > D.level e0)))) fun i => (if decide (D.level e1 > D.level e0) = side then 1 else -1) * outward (D.x pos (if D.level e1 > D.level e0 then e1 else e0)) (dir.iDim (decide (D.level e1 > D.level e0))) (dir.faceSign (decide (D.level e1 > D.level e0))) i := by
  have c0 : numbering D.mesh.elements e0 = some (D.cell e0) := numbering_eq hel m0
  have c1 : numbering D.mesh.elements e1 = some (D.cell e1) := numbering_eq hel m1
  have hc : D.cell e0 ≠ D.cell e1 := fun h => hne ((List.idxOf_inj m0).1 h)
  set fs := decide (D.level e1 > D.level e0) with hfs
  obtain ⟨f, hf, hg⟩ := addVerts_ok (pos := pos) hnd hv (e := if fs then e1 else e0) (hve _ (by split_ifs <;> assumption)) (dir.iDim fs) (dir.faceSign fs) (fs != decide (D.cell e1 < D.cell e0))
  refine ⟨decide (D.cell e1 < D.cell e0), f, ?_, ?_, ?_⟩
  · rw [interiorFace, h0, h1, hd]
    simp only [Option.bind_some, c0, c1]
    rw [← hfs, hf]
    simp only [Option.map_some]
    by_cases h : D.cell e1 < D.cell e0 <;> simp [h]
  · by_cases h : D.cell e1 < D.cell e0
    · simpa [h] using h
    · simp [h]; omega
  · have : (if D.level e1 > D.level e0 then e1 else e0) = if fs then e1 else e0 := by
      rw [hfs]; by_cases h : D.level e1 > D.level e0 <;> simp [h]
    rw [this]
    refine ⟨hg.len, hg.lt, hg.verts, fun p hp => (hg.area p hp).trans ?_⟩
    funext i
    congr 1
    cases fs <;> cases decide (D.cell e1 < D.cell e0) <;> rfl

end
end Hexed.Polymesh
