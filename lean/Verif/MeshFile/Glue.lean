import Verif.MeshFile.Read
import Mathlib.Algebra.CharZero.Defs
import Mathlib.Tactic.FieldSimp
import Mathlib.Tactic.Ring

set_option autoImplicit false
set_option linter.unusedVariables false

/-! # Merging vertices -/

namespace Hexed.MeshFile
open Hexed.MeshConn
open Hexed.Connection (Dir vertexInds refinedVerts)

variable {K A : Type}

/-- Merging corners one pair after another: corners have the same vertex exactly if they are joined by a chain of pairs, and keep their positions if the corners of each pair have the
same. -/
structure GlueOk (p : Corner → Fin 3 → K) (S : Corner → Prop) (pre : List (Corner × Corner)) (g : Glue K) : Prop where
  vert : ∀ x y, g.vert x = g.vert y ↔ Relation.EqvGen (fun a b => (a, b) ∈ pre) x y
  mass : ∀ v, 0 < g.mass v
  pos : ∀ x, S x → g.pos (g.vert x) = p x
  closed : ∀ x y, g.vert x = g.vert y → (S x ↔ S y)

theorem eat_step [Field K] [CharZero K] {p : Corner → Fin 3 → K} {S : Corner → Prop} {pre : List (Corner × Corner)} {g : Glue K} (h : GlueOk p S pre g) {a b : Corner}
    (ha : S a) (hb : S b) (hp : p a = p b) : GlueOk p S (pre ++ [(a, b)]) (g.eat (a, b)) := by
  have mono : ∀ x y, Relation.EqvGen (fun a b => (a, b) ∈ pre) x y → Relation.EqvGen (fun c d => (c, d) ∈ pre ++ [(a, b)]) x y :=
    fun x y h => Relation.EqvGen.mono (r := fun a b => (a, b) ∈ pre) (fun c d hcd => List.mem_append_left _ hcd) x y h
  have hnew : Relation.EqvGen (fun c d => (c, d) ∈ pre ++ [(a, b)]) a b := .rel _ _ (by simp)
  by_cases hab : g.vert a = g.vert b
  · have he : g.eat (a, b) = g := by simp [Glue.eat, hab]
    rw [he]
    refine ⟨fun x y => ⟨fun hxy => mono x y ((h.vert x y).1 hxy), fun hxy => ?_⟩, h.mass, h.pos, h.closed⟩
    induction hxy with
    | rel x y hxy =>
      rcases List.mem_append.1 hxy with hxy | hxy
      · exact (h.vert x y).2 (.rel _ _ hxy)
      · simp only [List.mem_singleton, Prod.mk.injEq] at hxy
        rw [hxy.1, hxy.2]; exact hab
    | refl x => rfl
    | symm x y _ ih => exact ih.symm
    | trans x y z _ _ ih1 ih2 => exact ih1.trans ih2
  · have hv : ∀ c, (g.eat (a, b)).vert c = if g.vert c = g.vert b then g.vert a else g.vert c := by intro c; simp [Glue.eat, hab]
    have hpos : (g.eat (a, b)).pos = Function.update g.pos (g.vert a) fun i => ((g.mass (g.vert a) : K) * g.pos (g.vert a) i + (g.mass (g.vert b) : K) * g.pos (g.vert b) i) /
        ((g.mass (g.vert a) : K) + g.mass (g.vert b)) := by simp [Glue.eat, hab]
    have hmass : (g.eat (a, b)).mass = Function.update g.mass (g.vert a) (g.mass (g.vert a) + g.mass (g.vert b)) := by simp [Glue.eat, hab]
    have key : ∀ x y, (g.eat (a, b)).vert x = (g.eat (a, b)).vert y → g.vert x = g.vert y ∨ (g.vert x = g.vert b ∧ g.vert a = g.vert y) ∨ (g.vert x = g.vert a ∧ g.vert b = g.vert y) := by
      intro x y hxy
      rw [hv, hv] at hxy
      by_cases hx : g.vert x = g.vert b
      · by_cases hy : g.vert y = g.vert b
        · exact .inl (hx.trans hy.symm)
        · rw [if_pos hx, if_neg hy] at hxy; exact .inr (.inl ⟨hx, hxy⟩)
      · by_cases hy : g.vert y = g.vert b
        · rw [if_neg hx, if_pos hy] at hxy; exact .inr (.inr ⟨hxy, hy.symm⟩)
        · rw [if_neg hx, if_neg hy] at hxy; exact .inl hxy
    refine ⟨?_, ?_, ?_, ?_⟩
    · intro x y
      constructor
      · intro hxy
        rcases key x y hxy with h1 | ⟨h1, h2⟩ | ⟨h1, h2⟩
        · exact mono x y ((h.vert x y).1 h1)
        · exact ((mono _ _ ((h.vert x b).1 h1)).trans _ _ _ (.symm _ _ hnew)).trans _ _ _ (mono _ _ ((h.vert a y).1 h2))
        · exact ((mono _ _ ((h.vert x a).1 h1)).trans _ _ _ hnew).trans _ _ _ (mono _ _ ((h.vert b y).1 h2))
      · intro hxy
        induction hxy with
        | rel x y hxy =>
          rcases List.mem_append.1 hxy with hxy | hxy
          · rw [hv, hv, (h.vert x y).2 (.rel _ _ hxy)]
          · simp only [List.mem_singleton, Prod.mk.injEq] at hxy
            rw [hxy.1, hxy.2, hv, hv, if_pos rfl, if_neg hab]
        | refl x => rfl
        | symm x y _ ih => exact ih.symm
        | trans x y z _ _ ih1 ih2 => exact ih1.trans ih2
    · intro v
      rw [hmass]
      by_cases hva : v = g.vert a
      · rw [hva, Function.update_self]; have := h.mass (g.vert a); omega
      · rw [Function.update_of_ne hva]; exact h.mass v
    · intro x hx
      have hA : (g.eat (a, b)).pos (g.vert a) = p a := by
        rw [hpos, Function.update_self, h.pos a ha, h.pos b hb, ← hp]
        funext i
        have h1 : ((g.mass (g.vert a) : K) + g.mass (g.vert b)) ≠ 0 := by
          rw [← Nat.cast_add]
          exact Nat.cast_ne_zero.2 (by have := h.mass (g.vert a); omega)
        rw [← add_mul, mul_div_assoc, mul_comm]
        exact div_mul_cancel₀ _ h1
      have same : ∀ y, S y → g.vert x = g.vert y → p x = p y := by
        intro y hy hxy
        rw [← h.pos x hx, hxy, h.pos y hy]
      rw [hv]
      by_cases hxb : g.vert x = g.vert b
      · rw [if_pos hxb, hA, hp]; exact (same b hb hxb).symm
      · rw [if_neg hxb]
        by_cases hxa : g.vert x = g.vert a
        · rw [hxa, hA]; exact (same a ha hxa).symm
        · rw [hpos, Function.update_of_ne hxa]; exact h.pos x hx
    · intro x y hxy
      rcases key x y hxy with h1 | ⟨h1, h2⟩ | ⟨h1, h2⟩
      · exact h.closed x y h1
      · have e1 := h.closed x b h1; have e2 := h.closed a y h2; tauto
      · have e1 := h.closed x a h1; have e2 := h.closed b y h2; tauto

theorem eat_all [Field K] [CharZero K] {p : Corner → Fin 3 → K} {S : Corner → Prop} : ∀ (l pre : List (Corner × Corner)) (g : Glue K), GlueOk p S pre g →
    (∀ x ∈ l, S x.1 ∧ S x.2 ∧ p x.1 = p x.2) → GlueOk p S (pre ++ l) (l.foldl Glue.eat g) := by
  intro l
  induction l with
  | nil => intro pre g h _; rw [List.append_nil]; exact h
  | cons x l ih =>
    intro pre g h hl
    obtain ⟨h1, h2, h3⟩ := hl x (by simp)
    have := ih (pre ++ [x]) (g.eat x) (eat_step h h1 h2 h3) fun y hy => hl y (by simp [hy])
    rwa [List.append_assoc] at this

theorem glue_start (p : Corner → Fin 3 → K) (S : Corner → Prop) : GlueOk p S [] ⟨fun c => c, p, fun _ => 1⟩ := by
  refine ⟨?_, fun _ => Nat.one_pos, fun _ _ => rfl, fun x y h => by have : x = y := h; rw [this]⟩
  intro x y
  constructor
  · intro h; have : x = y := h; rw [this]; exact .refl _
  · intro h
    show x = y
    induction h with
    | rel x y h => exact absurd h (by simp)
    | refl x => rfl
    | symm x y _ ih => exact ih.symm
    | trans x y z _ _ ih1 ih2 => exact ih1.trans ih2

/-! ## Corners joined by connections -/

theorem inds_lt {nd : Nat} (h : 1 ≤ nd ∧ nd ≤ 3) {d : Dir} (hd : d.i0.val < nd ∧ d.i1.val < nd) {vi : List Nat × List Nat} (hv : vertexInds nd d = some vi) :
    ∀ x ∈ vi.1.zip vi.2, x.1 < 2 ^ nd ∧ x.2 < 2 ^ nd := by
  have table : ∀ nd ∈ [1, 2, 3], ∀ i0 i1 : Fin 3, ∀ s0 s1 : Bool, i0.val < nd → i1.val < nd →
      ((vertexInds nd ⟨i0, i1, s0, s1⟩).all fun vi => (vi.1.zip vi.2).all fun x => x.1 < 2 ^ nd && x.2 < 2 ^ nd) = true := by
    decide +kernel
  have := table nd (by simp; omega) d.i0 d.i1 d.s0 d.s1 hd.1 hd.2
  have hv' : vertexInds nd ⟨d.i0, d.i1, d.s0, d.s1⟩ = some vi := hv
  rw [hv'] at this
  simp only [Option.all_some, List.all_eq_true, Bool.and_eq_true, decide_eq_true_eq] at this
  exact this

theorem refInds_lt {nd : Nat} (h : 1 ≤ nd ∧ nd ≤ 3) {d : Dir} (hd : d.i0.val < nd ∧ d.i1.val < nd) {rev : Bool} {str : Bool × Bool} {l : List (Nat × Nat × Nat)}
    (hv : refinedVerts nd d rev str = some l) : ∀ x ∈ l, x.1 < 2 ^ nd ∧ x.2.2 < 2 ^ nd := by
  have table : ∀ nd ∈ [1, 2, 3], ∀ i0 i1 : Fin 3, ∀ s0 s1 rev a b : Bool, i0.val < nd → i1.val < nd →
      ((refinedVerts nd ⟨i0, i1, s0, s1⟩ rev (a, b)).all fun l => l.all fun x => x.1 < 2 ^ nd && x.2.2 < 2 ^ nd) = true := by
    decide +kernel
  have := table nd (by simp; omega) d.i0 d.i1 d.s0 d.s1 rev str.1 str.2 hd.1 hd.2
  have hv' : refinedVerts nd ⟨d.i0, d.i1, d.s0, d.s1⟩ rev (str.1, str.2) = some l := hv
  rw [hv'] at this
  simp only [Option.all_some, List.all_eq_true, Bool.and_eq_true, decide_eq_true_eq] at this
  exact this

/-- A corner of an element of the mesh. -/
def IsCorner (D : Data K A) (x : Corner) : Prop := x.1 ∈ D.mesh.elements ∧ x.2 < 2 ^ D.mesh.nd

theorem mapM_mem {α β : Type} {f : α → Option β} : ∀ {l : List α} {m : List β}, l.mapM f = some m → ∀ y ∈ m, ∃ x ∈ l, f x = some y := by
  intro l
  induction l with
  | nil => intro m h; cases h; simp
  | cons a l ih =>
    intro m h
    rw [List.mapM_cons] at h
    obtain ⟨b, hb, h⟩ := Option.bind_eq_some_iff.1 h
    obtain ⟨m', hm', h⟩ := Option.bind_eq_some_iff.1 h
    cases h
    intro y hy
    rcases List.mem_cons.1 hy with rfl | hy
    · exact ⟨a, by simp, hb⟩
    · obtain ⟨x, h1, h2⟩ := ih hm' y hy
      exact ⟨x, by simp [h1], h2⟩

theorem joins_corners {D : Data K A} {n_bc : Nat} (hi : Inv D.mesh) (ht : Typed D.mesh) (hg : Good D n_bc) : ∀ x ∈ D.joins, IsCorner D x.1 ∧ IsCorner D x.2 := by
  intro x hx
  rcases List.mem_append.1 hx with hx | hx
  · obtain ⟨c, hc, hx⟩ := List.mem_flatMap.1 hx
    have hd := hg.dims c hc
    have hmem : ∀ k, c.el k ∈ D.mesh.elements := by
      intro k
      obtain ⟨x, hx, hx'⟩ := conn_ends hc k
      exact hx' ▸ hi.attached x hx
    obtain ⟨vi, hv⟩ := vertexInds_some hi.nd hd
    rw [connJoins, hv] at hx
    obtain ⟨y, hy, rfl⟩ := List.mem_map.1 hx
    obtain ⟨h1, h2⟩ := inds_lt hi.nd hd hv y hy
    exact ⟨⟨hmem false, h1⟩, ⟨hmem true, h2⟩⟩
  · obtain ⟨r, hr, hx⟩ := List.mem_flatMap.1 hx
    have hok := refOk hi ht hg hr
    obtain ⟨l, hl, hlt⟩ := verts_some hi.nd hok.dims r.rev (D.str r.id)
    have hlt' := refInds_lt hi.nd hok.dims hl
    rw [refJoins, hl, Option.bind_some] at hx
    cases hm : l.mapM fun x => (r.fine[x.2.1]?).map fun e => ((r.coarse, x.1), (e, x.2.2)) with
    | none => rw [hm] at hx; exact absurd hx (by simp)
    | some m =>
      rw [hm] at hx
      obtain ⟨y, hy, hy'⟩ := mapM_mem hm x hx
      obtain ⟨e, he, rfl⟩ := Option.map_eq_some_iff.1 hy'
      exact ⟨⟨hok.mem _ List.mem_cons_self, (hlt' y hy).1⟩, ⟨hok.mem _ (List.mem_cons_of_mem _ (List.mem_of_getElem? he)), (hlt' y hy).2⟩⟩

theorem eqv_map {D : Data K A} (hc : ∀ x ∈ D.joins, IsCorner D x.1 ∧ IsCorner D x.2) {x y : Corner} (hx : x.1 ∈ D.mesh.elements) (hy : y.1 ∈ D.mesh.elements) :
    Relation.EqvGen (fun a b => (a, b) ∈ D.joins.map (mapJoin D.index)) (D.index x.1, x.2) (D.index y.1, y.2) ↔ Relation.EqvGen (fun a b => (a, b) ∈ D.joins) x y := by
  constructor
  · intro h
    have key : ∀ u v : Corner, Relation.EqvGen (fun a b => (a, b) ∈ D.joins.map (mapJoin D.index)) u v →
        Relation.EqvGen (fun a b => (a, b) ∈ D.joins) ((D.mesh.elements[u.1]?).getD 0, u.2) ((D.mesh.elements[v.1]?).getD 0, v.2) := by
      intro u v h
      induction h with
      | rel u v h =>
        obtain ⟨j, hj, hj'⟩ := List.mem_map.1 h
        obtain ⟨h1, h2⟩ := hc j hj
        obtain ⟨rfl, rfl⟩ := Prod.mk.inj hj'
        simp only [index_get h1.1, index_get h2.1, Option.getD_some]
        exact .rel _ _ hj
      | refl u => exact .refl _
      | symm u v _ ih => exact .symm _ _ ih
      | trans u v w _ _ ih1 ih2 => exact ih1.trans _ _ _ ih2
    have := key _ _ h
    simpa only [index_get hx, index_get hy, Option.getD_some] using this
  · intro h
    have key : ∀ u v : Corner, Relation.EqvGen (fun a b => (a, b) ∈ D.joins) u v →
        Relation.EqvGen (fun a b => (a, b) ∈ D.joins.map (mapJoin D.index)) (D.index u.1, u.2) (D.index v.1, v.2) := by
      intro u v h
      induction h with
      | rel u v h => exact .rel _ _ (List.mem_map.2 ⟨(u, v), h, rfl⟩)
      | refl u => exact .refl _
      | symm u v _ ih => exact .symm _ _ ih
      | trans u v w _ _ ih1 ih2 => exact ih1.trans _ _ _ ih2
    exact key x y h

theorem sameVerts [Field K] [CharZero K] {D : Data K A} {n_bc : Nat} (hi : Inv D.mesh) (ht : Typed D.mesh) (hg : Good D n_bc) (hG : Glued D) {s : State K A} (hs : ReadBack D n_bc s) :
    SameVerts D s := by
  have hc := joins_corners hi ht hg
  have hcor : ∀ e ∈ D.mesh.elements, ∀ k < 2 ^ D.mesh.nd, s.corner (D.index e) k = D.pos (D.vert e k) := by
    intro e he k hk
    funext i
    rw [hs.corner e he k hk i]
    split_ifs with h
    · rfl
    · exact (hG.flat _ i (not_lt.1 h)).symm
  have key := eat_all (K := K) (p := fun v => s.corner v.1 v.2) (S := fun x => ∃ e ∈ D.mesh.elements, x.1 = D.index e ∧ x.2 < 2 ^ D.mesh.nd) s.merges [] _ (glue_start _ _) (by
    intro x hx
    rw [hs.merges] at hx
    obtain ⟨j, hj, rfl⟩ := List.mem_map.1 hx
    obtain ⟨⟨h1, h2⟩, ⟨h3, h4⟩⟩ := hc j hj
    refine ⟨⟨_, h1, rfl, h2⟩, ⟨_, h3, rfl, h4⟩, ?_⟩
    show s.corner (D.index j.1.1) j.1.2 = s.corner (D.index j.2.1) j.2.2
    rw [hcor _ h1 _ h2, hcor _ h3 _ h4, (hG.shared _ h1 _ h3 _ h2 _ h4).2 (.rel _ _ hj)])
  rw [List.nil_append] at key
  refine ⟨?_, ?_⟩
  · intro e he i hi'
    exact (key.pos (D.index e, i) ⟨e, he, rfl, hi'⟩).trans (hcor e he i hi')
  · intro e he f hf i hi' j hj
    rw [hG.shared e he f hf i hi' j hj, ← eqv_map hc (x := (e, i)) (y := (f, j)) he hf, ← hs.merges]
    exact key.vert _ _

end Hexed.MeshFile
