import Verif.MeshFile.Glue

set_option autoImplicit false
set_option linter.unusedVariables false

/-! # Each face is connected as often as before -/

namespace Hexed.MeshFile
open Hexed.MeshConn

variable {K A : Type}

/-- The corresponding face. -/
def mapFace (φ : Elem → Elem) (x : Elem × Nat) : Elem × Nat := (φ x.1, x.2)

theorem iFace_toDir (d : ConDir) (s : Bool) : d.iFace s = 2 * (d.toDir.iDim s).val + (d.toDir.faceSign s).toNat := by
  cases d with
  | cart i => cases s <;> rfl
  | dfm d => rfl

theorem same_conn_ends {φ : Elem → Elem} {c c' : Conn} (h : SameConn φ c c') : c'.ends.map (·.1) = (c.ends.map (·.1)).map (mapFace φ) := by
  have hf : ∀ s, c'.dir.iFace s = c.dir.iFace s := by intro s; rw [iFace_toDir, iFace_toDir, h.2]
  simp [Conn.ends, h.1, hf, mapFace]

theorem fineEnds_fst (id face : Nat) : ∀ (l : List Elem) (i : Nat), (fineEnds id face i l).map (·.1) = l.map fun e => (e, face) := by
  intro l
  induction l with
  | nil => intro i; rfl
  | cons a l ih => intro i; rw [fineEnds, List.map_cons, ih]; rfl

theorem same_ref_ends {D : Data K A} {s : State K A} {φ : Elem → Elem} {r r' : RefConn} (h : SameFaces φ D s r r') : (r'.ends.map (·.1)).Perm ((r.ends.map (·.1)).map (mapFace φ)) := by
  have hf : ∀ s, r'.dir.iFace s = r.dir.iFace s := by intro s; rw [iFace_toDir, iFace_toDir, h.dir]
  rw [RefConn.ends, RefConn.ends, List.map_cons, List.map_cons, List.map_cons, fineEnds_fst, fineEnds_fst, hf, hf, h.coarse, h.rev]
  refine List.Perm.cons _ ?_
  rw [List.map_map]
  have := h.fine.map fun e => (e, r.dir.iFace !r.rev)
  rwa [List.map_map] at this

theorem same_bound_ends {φ : Elem → Elem} {c c' : BCon} (h : SameBound φ c c') : c'.ends.map (·.1) = (c.ends.map (·.1)).map (mapFace φ) := by
  obtain ⟨h1, h2, h3, h4⟩ := h
  simp [BCon.ends, h1, h2, h3, mapFace]

theorem forall₂_ends {α : Type} {R : α → α → Prop} {ends : α → List End} {g : Elem × Nat → Elem × Nat} (hR : ∀ a b, R a b → ((ends b).map (·.1)).Perm (((ends a).map (·.1)).map g)) {l l' : List α}
    (h : List.Forall₂ R l l') : ((l'.flatMap ends).map (·.1)).Perm (((l.flatMap ends).map (·.1)).map g) := by
  induction h with
  | nil => exact .nil
  | cons h1 _ ih =>
    rw [List.flatMap_cons, List.flatMap_cons, List.map_append, List.map_append, List.map_append]
    exact (hR _ _ h1).append ih

theorem restored_ends {D : Data K A} {s : State K A} (h : Restored D s) : (s.mesh.ends.map (·.1)).Perm ((D.mesh.ends.map (·.1)).map (mapFace D.index)) := by
  have c1 := forall₂_ends (ends := Conn.ends) (fun a b hab => .of_eq (same_conn_ends hab)) h.car_cons
  have c2 := forall₂_ends (ends := Conn.ends) (fun a b hab => .of_eq (same_conn_ends hab)) h.dfm_cons
  have b1 := forall₂_ends (ends := BCon.ends) (fun a b hab => .of_eq (same_bound_ends hab)) h.car_bounds
  have b2 := forall₂_ends (ends := BCon.ends) (fun a b hab => .of_eq (same_bound_ends hab)) h.dfm_bounds
  have r1 := fun b => forall₂_ends (ends := RefConn.ends) (fun a b hab => same_ref_ends hab) (h.car_refs b)
  have r2 := fun b => forall₂_ends (ends := RefConn.ends) (fun a b hab => same_ref_ends hab) (h.dfm_refs b)
  have hsplit : ((D.mesh.car.cons.filter (bothDeformed D) ++ D.mesh.dfm.cons).flatMap Conn.ends ++ (D.mesh.car.cons.filter fun c => !bothDeformed D c).flatMap Conn.ends).Perm
      (D.mesh.car.cons.flatMap Conn.ends ++ D.mesh.dfm.cons.flatMap Conn.ends) := by
    rw [← List.flatMap_append, ← List.flatMap_append]
    refine List.Perm.flatMap_right _ ?_
    rw [List.append_assoc]
    refine (List.perm_append_comm.append_left _).trans ?_
    rw [← List.append_assoc]
    exact (List.filter_append_perm _ _).append_right _
  have hcons : (((s.mesh.car.cons.flatMap Conn.ends) ++ (s.mesh.dfm.cons.flatMap Conn.ends)).map (·.1)).Perm
      (((D.mesh.car.cons.flatMap Conn.ends ++ D.mesh.dfm.cons.flatMap Conn.ends).map (·.1)).map (mapFace D.index)) := by
    rw [List.map_append]
    refine (List.perm_append_comm.trans (c2.append c1)).trans ?_
    rw [← List.map_append, ← List.map_append]
    exact (hsplit.map _).map _
  simp only [Mesh.ends, ByType.ends, List.map_append] at *
  refine List.perm_iff_count.2 fun x => ?_
  have k1 := List.perm_iff_count.1 hcons x
  have k2 := List.perm_iff_count.1 b1 x
  have k3 := List.perm_iff_count.1 b2 x
  have k4 := fun b => List.perm_iff_count.1 (r1 b) x
  have k5 := fun b => List.perm_iff_count.1 (r2 b) x
  simp only [List.count_append] at *
  rw [k2, k3, k4, k4, k4, k5, k5, k5]
  omega

theorem restored_degree {D : Data K A} {s : State K A} (hi : Inv D.mesh) (h : Restored D s) {e : Elem} (he : e ∈ D.mesh.elements) (f : Nat) :
    s.mesh.degree (D.index e) f = D.mesh.degree e f := by
  rw [Mesh.degree, List.perm_iff_count.1 (restored_ends h), Mesh.degree, List.count, List.count, List.countP_map]
  refine List.countP_congr ?_
  intro x hx
  obtain ⟨y, hy, rfl⟩ := List.mem_map.1 hx
  have hm := hi.attached y hy
  simp only [Function.comp_apply, mapFace, beq_iff_eq, Prod.mk.injEq]
  constructor
  · rintro ⟨h1, h2⟩; exact Prod.ext (index_inj hm he h1) h2
  · rintro h1; rw [h1]; exact ⟨rfl, rfl⟩

end Hexed.MeshFile
