import Verif.Polymesh.Sums

set_option autoImplicit false
set_option linter.unusedVariables false

/-!
# The files as a whole
-/

namespace Hexed.Polymesh
open Hexed.MeshConn
open Hexed.Connection (Dir vertexInds strAt Legal sideInds faceVertexInds)
noncomputable section

theorem range_mapM {α β : Type} (F : α → Option β) : ∀ V : List α, (List.range V.length).mapM (fun i => (V[i]?).bind F) = V.mapM F := by
  intro V
  induction V with
  | nil => rfl
  | cons a V ih =>
    rw [List.length_cons, List.range_succ_eq_map, List.mapM_cons, List.mapM_cons, List.mapM_map]
    have : ((fun i => (a :: V)[i]?.bind F) ∘ Nat.succ) = fun i => (V[i]?).bind F := by
      funext i; simp
    rw [this, ih]
    simp

theorem mapM_append {α β : Type} {f : α → Option β} {l k : List α} {y z : List β} (hl : l.mapM f = some y) (hk : k.mapM f = some z) : (l ++ k).mapM f = some (y ++ z) := by
  rw [List.mapM_append, hl, hk]; rfl

theorem elemCon_ok {m : Mesh} (hi : Inv m) : (elemConSize m).toNat = (views m).length ∧ ∀ i : Nat, elemConGet m i = (views m)[i]? := by
  obtain ⟨c1, c2⟩ := connView_ok m.car hi.sorted.1
  obtain ⟨d1, d2⟩ := connView_ok m.dfm hi.sorted.2
  refine ⟨by rw [elemConSize, c1, d1, views, List.length_append]; omega, fun i => ?_⟩
  rw [elemConGet, c1, views]
  exact catGet_ok m.car.conns m.dfm.conns _ _ c2 d2 i

/-- The faces exported for a list of connections. -/
structure GoodList (D : Data) (pos : Nat → Vec) (V : List View) (E : List End) (ys : List (Nat × Nat × List Nat)) : Prop where
  eq : V.mapM (interiorFace D) = some ys
  good : List.Forall₂ (fun v y => ∃ e0 e1 dir, GoodInterior D pos v y e0 e1 dir) V ys
  sum : ∀ p : Files, p.points = D.verts → ∀ cell i, (ys.map fun y => share cell y.1 y.2.1 (p.area pos y.2.2) i).sum = (E.map fun x => atCell D pos cell i x.1).sum

theorem GoodList.append {D : Data} {pos : Nat → Vec} {V W : List View} {E F : List End} {ys zs : List (Nat × Nat × List Nat)} (h : GoodList D pos V E ys) (h' : GoodList D pos W F zs) : GoodList D pos (V ++ W) (E ++ F) (ys ++ zs) := by
  refine ⟨mapM_append h.eq h'.eq, List.rel_append h.good h'.good, fun p hp cell i => ?_⟩
  rw [List.map_append, List.sum_append, List.map_append, List.sum_append, h.sum p hp, h'.sum p hp]

theorem conns_ok {D : Data} {pos : Nat → Vec} (hnd : D.mesh.nd = 3) (hF : Fits D pos) (hi : Inv D.mesh) (d : Bool) : ∃ ys, GoodList D pos (D.mesh.byType d).conns
    ((D.mesh.byType d).cons.flatMap Conn.ends ++ (((D.mesh.byType d).refs 0).flatMap RefConn.ends ++ (((D.mesh.byType d).refs 1).flatMap RefConn.ends ++ ((D.mesh.byType d).refs 2).flatMap RefConn.ends))) ys := by
  have hsub : ∀ x ∈ (D.mesh.byType d).ends, x ∈ D.mesh.ends := by
    intro x hx
    cases d
    · exact List.mem_append_left _ hx
    · exact List.mem_append_right _ hx
  have hconf : ∃ ys, GoodList D pos ((D.mesh.byType d).cons.map .conf) ((D.mesh.byType d).cons.flatMap Conn.ends) ys := by
    have : ∀ l : List Conn, (∀ c ∈ l, c ∈ (D.mesh.byType d).cons) → ∃ ys, GoodList D pos (l.map .conf) (l.flatMap Conn.ends) ys := by
      intro l
      induction l with
      | nil => intro _; exact ⟨[], rfl, .nil, fun _ _ _ _ => rfl⟩
      | cons c l ih =>
        intro hl
        obtain ⟨ys, hys⟩ := ih fun c hc => hl c (by simp [hc])
        have hc := hl c (by simp)
        obtain ⟨y, e0, e1, dir, hy, hg, hs⟩ := conf_ok hnd hF hi.nodup hi.attached hc fun x hx => hsub x (List.mem_append_left _ (List.mem_flatMap.2 ⟨c, hc, hx⟩))
        refine ⟨[y] ++ ys, GoodList.append (V := [.conf c]) (E := c.ends) ⟨?_, .cons ⟨_, _, _, hg⟩ .nil, fun p hp cell i => ?_⟩ hys⟩
        · rw [List.mapM_cons, hy]; rfl
        · rw [← hs p hp cell i]; simp
    exact this _ fun _ h => h
  have href : ∀ b : Fin 3, ∃ ys, GoodList D pos (fineViews ((D.mesh.byType d).refs b)) (((D.mesh.byType d).refs b).flatMap RefConn.ends) ys := by
    intro b
    have : ∀ l : List RefConn, (∀ c ∈ l, c ∈ (D.mesh.byType d).refs b) → ∃ ys, GoodList D pos (fineViews l) (l.flatMap RefConn.ends) ys := by
      intro l
      induction l with
      | nil => intro _; exact ⟨[], rfl, .nil, fun _ _ _ _ => rfl⟩
      | cons r l ih =>
        intro hl
        obtain ⟨ys, hys⟩ := ih fun c hc => hl c (by simp [hc])
        have hr := hl r (by simp)
        have hre : ∀ x ∈ r.ends, x ∈ (D.mesh.byType d).ends := by
          intro x hx
          simp only [ByType.ends, List.mem_append, List.mem_flatMap]
          have : ∃ a ∈ (D.mesh.byType d).refs b, x ∈ a.ends := ⟨r, hr, hx⟩
          match b, this with
          | 0, h => exact Or.inr (Or.inr (Or.inl h))
          | 1, h => exact Or.inr (Or.inr (Or.inr (Or.inl h)))
          | 2, h => exact Or.inr (Or.inr (Or.inr (Or.inr h)))
        obtain ⟨zs, h1, h2, h3⟩ := ref_ok hnd hF hi.nodup hi.attached hr fun x hx => hsub x (hre x hx)
        have e1 : fineViews (r :: l) = fineViews [r] ++ fineViews l := by simp [fineViews]
        rw [e1]
        exact ⟨zs ++ ys, GoodList.append (E := r.ends) ⟨h1, h2, h3⟩ hys⟩
    exact this _ fun _ h => h
  obtain ⟨a, ha⟩ := hconf
  obtain ⟨b, hb⟩ := href 0
  obtain ⟨c, hc⟩ := href 1
  obtain ⟨e, he⟩ := href 2
  exact ⟨_, ha.append (hb.append (hc.append he))⟩

/-- What is true of the face exported for a boundary connection. -/
structure GoodBoundary (D : Data) (pos : Nat → Vec) (c : BCon) (y : Nat × List Nat) : Prop where
  mem : c.el ∈ D.mesh.elements
  cell : y.1 = D.cell c.el
  len : y.2.length = 4
  lt : ∀ k ∈ y.2, k < D.verts.length
  dim : c.i_dim < 3
  verts : (y.2.map fun k => D.verts[k]?).Perm ((D.faceVerts c.el ⟨c.i_dim, dim⟩ c.sign).map some)
  area : ∀ p : Files, p.points = D.verts → p.area pos y.2 = outF (D.x pos c.el) c.iFace

theorem boundaryFace_ok {D : Data} {pos : Nat → Vec} (hnd : D.mesh.nd = 3) (hF : Fits D pos) (hi : Inv D.mesh) {c : BCon} (hc : c ∈ D.mesh.car.bounds ++ D.mesh.dfm.bounds) :
    ∃ y, boundaryFace D c = some y ∧ GoodBoundary D pos c y := by
  have hd : c.i_dim < 3 := by
    rcases List.mem_append.1 hc with h | h
    · exact (hF.bound false c h).1
    · exact (hF.bound true c h).1
  have hend : ((c.el, 2 * c.i_dim + c.sign.toNat), (c.id, Sub.side false)) ∈ D.mesh.ends := by
    have : ∀ b : ByType, c ∈ b.bounds → ((c.el, 2 * c.i_dim + c.sign.toNat), (c.id, Sub.side false)) ∈ b.ends := fun b hb =>
      List.mem_append_right _ (List.mem_append_left _ (List.mem_flatMap.2 ⟨c, hb, List.mem_cons_self ..⟩))
    rcases List.mem_append.1 hc with h | h
    · exact List.mem_append_left _ (this _ h)
    · exact List.mem_append_right _ (this _ h)
  have me : c.el ∈ D.mesh.elements := hi.attached _ hend
  obtain ⟨f, hf, hg⟩ := addVerts_ok (pos := pos) hnd hF.verts.1 (hF.verts.2 _ me) ⟨c.i_dim, hd⟩ c.sign false
  refine ⟨(D.cell c.el, f), ?_, me, rfl, hg.len, hg.lt, hd, hg.verts, fun p hp => ?_⟩
  · have : numbering D.mesh.elements c.el = some (D.cell c.el) := numbering_eq hi.nodup me
    rw [boundaryFace, this, Option.bind_some, hf, Option.map_some]
  · rw [hg.area p hp]
    have : outF (D.x pos c.el) c.iFace = outward (D.x pos c.el) ⟨c.i_dim, hd⟩ c.sign := outF_eq _ ⟨c.i_dim, hd⟩ _
    rw [this]
    funext i
    simp

theorem patches_perm (l : List BCon) (n : Nat) (h : ∀ c ∈ l, c.bc < n) : ((List.range n).flatMap fun i => l.filter fun c => c.bc = i).Perm l := by
  classical
  rw [List.perm_iff_count]
  intro a
  rw [List.count_flatMap]
  have : ∀ m, m ≤ n → ((List.range m).map (List.count a ∘ fun i => l.filter fun c => c.bc = i)).sum = if a.bc < m then l.count a else 0 := by
    intro m
    induction m with
    | zero => intro _; simp
    | succ m ih =>
      intro hm
      rw [List.range_succ, List.map_append, List.sum_append, ih (by omega)]
      simp only [List.map_cons, List.map_nil, List.sum_cons, List.sum_nil, Function.comp, add_zero]
      by_cases hb : a.bc = m
      · rw [List.count_filter (by simpa using hb), if_neg (by omega), if_pos (by omega), zero_add]
      · have : List.count a (l.filter fun c => c.bc = m) = 0 := List.count_eq_zero.2 fun hmem => hb (by simpa using (List.mem_filter.1 hmem).2)
        rw [this, add_zero]
        by_cases h1 : a.bc < m
        · rw [if_pos h1, if_pos (by omega)]
        · rw [if_neg h1, if_neg (by omega)]
  rw [this n le_rfl]
  split_ifs with hb
  · rfl
  · exact (List.count_eq_zero.2 fun hmem => hb (h a hmem)).symm

theorem forall₂_flatten {α β γ : Type} {R : α → β → Prop} {f : γ → List α} : ∀ {l : List γ} {k : List (List β)}, List.Forall₂ (fun c ys => List.Forall₂ R (f c) ys) l k → List.Forall₂ R (l.flatMap f) k.flatten := by
  intro l k h
  induction h with
  | nil => exact .nil
  | cons h1 _ ih => rw [List.flatMap_cons, List.flatten_cons]; exact List.rel_append h1 ih

/-- The files and where their entries come from. -/
structure GoodFiles (D : Data) (pos : Nat → Vec) (p : Files) (I : List (Nat × Nat × List Nat)) (B : List (List (Nat × List Nat))) : Prop where
  points : p.points = D.verts
  nCells : p.nCells = D.mesh.elements.length
  faces : p.faces = I.map (·.2.2) ++ B.flatten.map (·.2)
  owner : p.owner = I.map (·.1) ++ B.flatten.map (·.1)
  neighbour : p.neighbour = I.map (·.2.1)
  patches : p.patches = patchStarts I.length (B.map List.length)
  interior : ∃ E, GoodList D pos (views D.mesh) E I ∧ (E ++ (D.mesh.car.bounds ++ D.mesh.dfm.bounds).flatMap BCon.ends).Perm D.mesh.ends
  boundary : List.Forall₂ (fun i ys => List.Forall₂ (GoodBoundary D pos) (patchCons D.mesh i) ys) (List.range D.mesh.n_bc) B

theorem ends_perm (m : Mesh) : ((m.car.cons.flatMap Conn.ends ++ ((m.car.refs 0).flatMap RefConn.ends ++ ((m.car.refs 1).flatMap RefConn.ends ++ (m.car.refs 2).flatMap RefConn.ends)) ++
    (m.dfm.cons.flatMap Conn.ends ++ ((m.dfm.refs 0).flatMap RefConn.ends ++ ((m.dfm.refs 1).flatMap RefConn.ends ++ (m.dfm.refs 2).flatMap RefConn.ends)))) ++ (m.car.bounds ++ m.dfm.bounds).flatMap BCon.ends).Perm m.ends := by
  classical
  rw [List.perm_iff_count]
  intro a
  simp only [Mesh.ends, ByType.ends, List.count_append, List.flatMap_append]
  omega

theorem export_ok {D : Data} {pos : Nat → Vec} (hnd : D.mesh.nd = 3) (hF : Fits D pos) (hi : Inv D.mesh) : ∃ p I B, exportPolymesh D = some p ∧ GoodFiles D pos p I B := by
  obtain ⟨a, ha⟩ := conns_ok hnd hF hi false
  obtain ⟨b, hb⟩ := conns_ok hnd hF hi true
  have hI := ha.append hb
  have hB : ∃ B, (List.range D.mesh.n_bc).mapM (patchFaces D) = some B ∧ List.Forall₂ (fun i ys => List.Forall₂ (GoodBoundary D pos) (patchCons D.mesh i) ys) (List.range D.mesh.n_bc) B :=
    mapM_exists fun i _ => mapM_exists fun c hc => boundaryFace_ok hnd hF hi (List.mem_filter.1 hc).1
  obtain ⟨B, hB, hB'⟩ := hB
  obtain ⟨hsz, hget⟩ := elemCon_ok hi
  have hBf := forall₂_flatten hB'
  have hBp : ((List.range D.mesh.n_bc).flatMap (patchCons D.mesh)).Perm (D.mesh.car.bounds ++ D.mesh.dfm.bounds) := by
    refine patches_perm _ _ fun c hc => ?_
    rcases List.mem_append.1 hc with h | h
    · exact (hF.bound false c h).2
    · exact (hF.bound true c h).2
  have hint : ((List.range (elemConSize D.mesh).toNat).mapM fun (i_con : Nat) => (elemConGet D.mesh i_con).bind (interiorFace D)) = some (a ++ b) := by
    have : (fun (i_con : Nat) => (elemConGet D.mesh i_con).bind (interiorFace D)) = fun (i : Nat) => ((views D.mesh)[i]?).bind (interiorFace D) := by
      funext i; rw [hget]
    rw [hsz, this, range_mapM]
    exact hI.eq
  have hlenI : (a ++ b).length = (views D.mesh).length := hI.good.length_eq.symm
  have hlenB : B.flatten.length = (D.mesh.car.bounds ++ D.mesh.dfm.bounds).length := by rw [← hBf.length_eq, hBp.length_eq]
  have h4I : ∀ y ∈ a ++ b, y.2.2.length = 4 := all_forall₂ (R := fun y v => ∃ e0 e1 dir, GoodInterior D pos v y e0 e1 dir) (fun y v h => by obtain ⟨_, _, _, h⟩ := h; exact h.len) (hI.good.flip)
  have h4B : ∀ y ∈ B.flatten, y.2.length = 4 := all_forall₂ (R := fun y c => GoodBoundary D pos c y) (fun y v h => h.len) hBf.flip
  have hf4 : ∀ f ∈ (a ++ b).map (·.2.2) ++ B.flatten.map (·.2), f.length = 4 := by
    intro f hf
    rcases List.mem_append.1 hf with h | h
    · obtain ⟨y, hy, rfl⟩ := List.mem_map.1 h
      exact h4I y hy
    · obtain ⟨y, hy, rfl⟩ := List.mem_map.1 h
      exact h4B y hy
  refine ⟨⟨D.verts, D.mesh.elements.length, (a ++ b).map (·.2.2) ++ B.flatten.map (·.2), (a ++ b).map (·.1) ++ B.flatten.map (·.1), (a ++ b).map (·.2.1), patchStarts (a ++ b).length (B.map List.length)⟩, a ++ b, B, ?_,
    rfl, rfl, rfl, rfl, rfl, rfl, ⟨_, hI, ends_perm D.mesh⟩, hB'⟩
  rw [exportPolymesh]
  simp only [hint, hB, Option.bind_some]
  rw [if_pos]
  · congr 2
    · have : ∀ l : List (List Nat), (∀ f ∈ l, f.length = 4) → l.map (List.take 4) = l := by
        intro l hl
        conv_rhs => rw [← List.map_id l]
        exact List.map_congr_left fun f hf => List.take_of_length_le (hl f hf).le
      exact this _ hf4
    · rw [hsz, hlenI]
  · refine ⟨?_, fun f hf => by rw [hf4 f hf]⟩
    rw [List.length_append, List.length_map, List.length_map, hlenI, hlenB, hsz]

end
end Hexed.Polymesh
