import Verif.Polymesh.Lemmas
import Mathlib.Tactic.Linarith

set_option autoImplicit false
set_option linter.unusedVariables false

/-!
# What the faces of connections contribute to the sums of area vectors of cells
-/

namespace Hexed.Polymesh
open Hexed.MeshConn
open Hexed.Connection (Dir vertexInds strAt Legal sideInds faceVertexInds)
noncomputable section

/-- The outward area vector of face number `f`. -/
def outF (x : Nat → Vec) (f : Nat) : Vec := outward x (if f / 2 = 0 then 0 else if f / 2 = 1 then 1 else 2) (f % 2 == 1)

theorem outF_eq (x : Nat → Vec) (d : Fin 3) (s : Bool) : outF x (2 * d.val + s.toNat) = outward x d s := by
  fin_cases d <;> cases s <;> rfl

theorem iFace_eq (c : ConDir) (s : Bool) : c.iFace s = 2 * (c.toDir.iDim s).val + (c.toDir.faceSign s).toNat := by
  cases c with
  | cart i => cases s <;> simp [ConDir.iFace, ConDir.toDir, Dir.iDim, Dir.faceSign]
  | dfm d => rfl

/-- The outward area vector of a connected face if it belongs to cell `c`. -/
def atCell (D : Data) (pos : Nat → Vec) (c : Nat) (i : Fin 3) (x : Elem × Nat) : ℝ := if D.cell x.1 = c then outF (D.x pos x.1) x.2 i else 0

theorem vertexInds_eq (d : Dir) : vertexInds 3 d = some ((List.range 4).map (nat3 d.i0 d.s0), (faceVertexInds 3 d).map (nat3 d.i1 d.s1)) := by
  obtain ⟨i0, i1, s0, s1⟩ := d
  revert i0 i1 s0 s1
  decide +kernel

/-- Matched faces have opposite area vectors. -/
theorem conf_area {D : Data} {pos : Nat → Vec} {d : Dir} (hd : Legal 3 d) {e0 e1 : Elem} (h : ∀ l, vertexInds 3 d = some l → List.Forall₂ (fun u v => D.x pos e0 u = D.x pos e1 v) l.1 l.2) (i : Fin 3) :
    outward (D.x pos e0) d.i0 d.s0 i = -outward (D.x pos e1) d.i1 d.s1 i := by
  have := h _ (vertexInds_eq d)
  rw [List.forall₂_map_left_iff, List.forall₂_map_right_iff] at this
  rw [outward_nat, outward_nat]
  exact matched_area d hd (fun k => D.x pos e0 (nat3 d.i0 d.s0 k)) (fun k => D.x pos e1 (nat3 d.i1 d.s1 k)) this i

/-- A fine face has the area vector of its part of the coarse face, reversed. -/
theorem part_area {D : Data} {pos : Nat → Vec} {d : Dir} (hd : Legal 3 d) {rev : Bool} {coarse e : Elem} {str : Bool × Bool} {p : Nat}
    (h : List.Forall₂ (fun u v => D.x pos e v = interior (D.x pos coarse) (partCorner (d.iDim rev) str p u)) (if rev then (faceVertexInds 3 d).map (nat3 d.i1 d.s1) else (List.range 4).map (nat3 d.i0 d.s0))
      (if rev then (List.range 4).map (nat3 d.i0 d.s0) else (faceVertexInds 3 d).map (nat3 d.i1 d.s1))) (i : Fin 3) :
    outward (D.x pos e) (d.iDim !rev) (d.faceSign !rev) i = -(sgn (d.iDim rev) (d.faceSign rev) * quadNat (fun k => interior (D.x pos coarse) (partCorner (d.iDim rev) str p (nat3 (d.iDim rev) (d.faceSign rev) k))) i) := by
  rw [outward_nat]
  cases rev with
  | false =>
    simp only [if_neg Bool.false_ne_true] at h
    rw [List.forall₂_map_left_iff, List.forall₂_map_right_iff] at h
    have := matched_area d hd (fun k => interior (D.x pos coarse) (partCorner d.i0 str p (nat3 d.i0 d.s0 k))) (fun k => D.x pos e (nat3 d.i1 d.s1 k)) (h.imp fun a b hab => hab.symm) i
    exact neg_eq_iff_eq_neg.1 this.symm
  | true =>
    simp only [if_true] at h
    rw [List.forall₂_map_left_iff, List.forall₂_map_right_iff] at h
    exact matched_area d hd (fun k => D.x pos e (nat3 d.i0 d.s0 k)) (fun k => interior (D.x pos coarse) (partCorner d.i1 str p (nat3 d.i1 d.s1 k))) h.flip i

theorem sum_forall₂ {α β : Type} {R : α → β → Prop} {g : α → ℝ} {h : β → ℝ} (hR : ∀ a b, R a b → g a = h b) : ∀ {l : List α} {k : List β}, List.Forall₂ R l k → (l.map g).sum = (k.map h).sum := by
  intro l k hl
  induction hl with
  | nil => rfl
  | cons hab _ ih => rw [List.map_cons, List.map_cons, List.sum_cons, List.sum_cons, hR _ _ hab, ih]

theorem all_forall₂ {α β : Type} {R : α → β → Prop} {P : α → Prop} (hR : ∀ a b, R a b → P a) : ∀ {l : List α} {k : List β}, List.Forall₂ R l k → ∀ a ∈ l, P a := by
  intro l k hl
  induction hl with
  | nil => intro a ha; simp at ha
  | cons hab _ ih =>
    intro a ha
    rcases List.mem_cons.1 ha with rfl | ha
    · exact hR _ _ hab
    · exact ih a ha

theorem mapM_exists {α β : Type} {f : α → Option β} {P : α → β → Prop} : ∀ {l : List α}, (∀ a ∈ l, ∃ b, f a = some b ∧ P a b) → ∃ k, l.mapM f = some k ∧ List.Forall₂ P l k := by
  intro l
  induction l with
  | nil => intro _; exact ⟨[], rfl, .nil⟩
  | cons a l ih =>
    intro h
    obtain ⟨b, hb, hab⟩ := h a (by simp)
    obtain ⟨k, hk, hlk⟩ := ih fun c hc => h c (by simp [hc])
    exact ⟨b :: k, by rw [List.mapM_cons, hb, hk]; rfl, .cons hab hlk⟩

/-- The fine faces together have the area vector of the coarse face, reversed. -/
theorem fine_area {D : Data} {pos : Nat → Vec} {r : RefConn} (hd : Legal 3 r.dir.toDir) {str : Bool × Bool} {parts : List Nat} (hp : parts.Perm (List.range (Connection.nFine 3 str)))
    (h : List.Forall₂ (fun e p => List.Forall₂ (fun u v => D.x pos e v = interior (D.x pos r.coarse) (partCorner (r.dir.toDir.iDim r.rev) str p u))
      (if r.rev then (faceVertexInds 3 r.dir.toDir).map (nat3 r.dir.toDir.i1 r.dir.toDir.s1) else (List.range 4).map (nat3 r.dir.toDir.i0 r.dir.toDir.s0))
      (if r.rev then (List.range 4).map (nat3 r.dir.toDir.i0 r.dir.toDir.s0) else (faceVertexInds 3 r.dir.toDir).map (nat3 r.dir.toDir.i1 r.dir.toDir.s1))) r.fine parts) (i : Fin 3) :
    (r.fine.map fun e => outward (D.x pos e) (r.dir.toDir.iDim !r.rev) (r.dir.toDir.faceSign !r.rev) i).sum = -outward (D.x pos r.coarse) (r.dir.toDir.iDim r.rev) (r.dir.toDir.faceSign r.rev) i := by
  rw [sum_forall₂ (g := fun e => outward (D.x pos e) (r.dir.toDir.iDim !r.rev) (r.dir.toDir.faceSign !r.rev) i) (h := fun p => -(sgn (r.dir.toDir.iDim r.rev) (r.dir.toDir.faceSign r.rev) * quadNat (fun k => interior (D.x pos r.coarse) (partCorner (r.dir.toDir.iDim r.rev) str p (nat3 (r.dir.toDir.iDim r.rev) (r.dir.toDir.faceSign r.rev) k))) i))
    (fun e p hep => part_area hd hep i) h, (hp.map _).sum_eq, outward_nat, ← parts_area _ _ _ str]
  generalize List.range (Connection.nFine 3 str) = l
  induction l with
  | nil => simp
  | cons a l ih => rw [List.map_cons, List.map_cons, List.sum_cons, List.sum_cons, ih]; ring

/-- What is true of the face exported for a connection: its owner comes first, and its area vector added to the owner's and subtracted from the neighbour's sum is that of the finer
element, whose face it is, added to that element's and subtracted from the other's. -/
structure GoodInterior (D : Data) (pos : Nat → Vec) (v : View) (y : Nat × Nat × List Nat) (e0 e1 : Elem) (dir : Dir) : Prop where
  el0 : viewElement v false = some e0
  el1 : viewElement v true = some e1
  direction : viewDir v = some dir
  mem0 : e0 ∈ D.mesh.elements
  mem1 : e1 ∈ D.mesh.elements
  order : y.1 < y.2.1
  cells : y.1 = D.cell e0 ∧ y.2.1 = D.cell e1 ∨ y.1 = D.cell e1 ∧ y.2.1 = D.cell e0
  len : y.2.2.length = 4
  lt : ∀ k ∈ y.2.2, k < D.verts.length
  verts : (y.2.2.map fun k => D.verts[k]?).Perm ((D.faceVerts (if D.level e1 > D.level e0 then e1 else e0) (dir.iDim (decide (D.level e1 > D.level e0))) (dir.faceSign (decide (D.level e1 > D.level e0)))).map some)
  share : ∀ p : Files, p.points = D.verts → ∀ c i, share c y.1 y.2.1 (p.area pos y.2.2) i =
    if D.level e1 > D.level e0 then (if D.cell e1 = c then outF (D.x pos e1) (2 * dir.i1.val + dir.s1.toNat) i else 0) - (if D.cell e0 = c then outF (D.x pos e1) (2 * dir.i1.val + dir.s1.toNat) i else 0)
    else (if D.cell e0 = c then outF (D.x pos e0) (2 * dir.i0.val + dir.s0.toNat) i else 0) - (if D.cell e1 = c then outF (D.x pos e0) (2 * dir.i0.val + dir.s0.toNat) i else 0)

theorem goodInterior {D : Data} {pos : Nat → Vec} (hnd : D.mesh.nd = 3) (hv : D.verts.Nodup) (hve : ∀ e ∈ D.mesh.elements, ∀ i < 8, D.vert e i ∈ D.verts) (hel : D.mesh.elements.Nodup)
    {v : View} {e0 e1 : Elem} {dir : Dir} (h0 : viewElement v false = some e0) (h1 : viewElement v true = some e1) (hd : viewDir v = some dir) (m0 : e0 ∈ D.mesh.elements) (m1 : e1 ∈ D.mesh.elements) (hne : e0 ≠ e1) :
    ∃ y, interiorFace D v = some y ∧ GoodInterior D pos v y e0 e1 dir := by
  obtain ⟨side, f, hf, hlt, hg⟩ := interiorFace_ok (pos := pos) hnd hv hve hel h0 h1 hd m0 m1 hne
  refine ⟨_, hf, h0, h1, hd, m0, m1, hlt, ?_, hg.len, hg.lt, hg.verts, ?_⟩
  · cases side
    · exact Or.inl ⟨rfl, rfl⟩
    · exact Or.inr ⟨rfl, rfl⟩
  · intro p hp c i
    rw [hg.area p hp]
    by_cases hl : D.level e1 > D.level e0
    · have e : outF (D.x pos e1) (2 * dir.i1.val + dir.s1.toNat) = outward (D.x pos e1) (dir.iDim true) (dir.faceSign true) := outF_eq _ _ _
      rw [if_pos hl, e]
      cases side <;> simp [share, hl]
      · by_cases a : D.cell e0 = c <;> by_cases b : D.cell e1 = c <;> simp [a, b]
    · have e : outF (D.x pos e0) (2 * dir.i0.val + dir.s0.toNat) = outward (D.x pos e0) (dir.iDim false) (dir.faceSign false) := outF_eq _ _ _
      rw [if_neg hl, e]
      cases side <;> simp [share, hl]
      · by_cases a : D.cell e0 = c <;> by_cases b : D.cell e1 = c <;> simp [a, b]

/-- The connections of an element container, with the elements they join. -/
theorem conf_ok {D : Data} {pos : Nat → Vec} (hnd : D.mesh.nd = 3) (hF : Fits D pos) (hel : D.mesh.elements.Nodup) (hat : ∀ x ∈ D.mesh.ends, x.1.1 ∈ D.mesh.elements) {d : Bool} {c : Conn} (hc : c ∈ (D.mesh.byType d).cons)
    (hends : ∀ x ∈ c.ends, x ∈ D.mesh.ends) :
    ∃ y e0 e1 dir, interiorFace D (.conf c) = some y ∧ GoodInterior D pos (.conf c) y e0 e1 dir ∧
      ∀ p : Files, p.points = D.verts → ∀ cell i, share cell y.1 y.2.1 (p.area pos y.2.2) i = (c.ends.map fun x => atCell D pos cell i x.1).sum := by
  obtain ⟨hl, hne, hm⟩ := hF.conf d c hc
  have m0 : c.el false ∈ D.mesh.elements := hat _ (hends _ (List.mem_cons_self ..))
  have m1 : c.el true ∈ D.mesh.elements := hat _ (hends _ (List.mem_cons_of_mem _ (List.mem_cons_self ..)))
  obtain ⟨y, hy, hg⟩ := goodInterior (pos := pos) hnd hF.verts.1 hF.verts.2 hel (v := .conf c) rfl rfl rfl m0 m1 hne
  refine ⟨y, _, _, _, hy, hg, fun p hp cell i => ?_⟩
  rw [hg.share p hp]
  have e : (c.ends.map fun x => atCell D pos cell i x.1).sum = (if D.cell (c.el false) = cell then outF (D.x pos (c.el false)) (2 * c.dir.toDir.i0.val + c.dir.toDir.s0.toNat) i else 0) +
      if D.cell (c.el true) = cell then outF (D.x pos (c.el true)) (2 * c.dir.toDir.i1.val + c.dir.toDir.s1.toNat) i else 0 := by
    simp only [Conn.ends, List.map_cons, List.map_nil, List.sum_cons, List.sum_nil, atCell, add_zero, iFace_eq]
    rfl
  have ha := conf_area hl hm i
  rw [e, outF_eq, outF_eq, ha]
  split_ifs <;> ring

/-- The same for a hanging-node connection; the contributions of its faces add up. -/
theorem ref_ok {D : Data} {pos : Nat → Vec} (hnd : D.mesh.nd = 3) (hF : Fits D pos) (hel : D.mesh.elements.Nodup) (hat : ∀ x ∈ D.mesh.ends, x.1.1 ∈ D.mesh.elements) {d : Bool} {b : Fin 3} {r : RefConn} (hr : r ∈ (D.mesh.byType d).refs b)
    (hends : ∀ x ∈ r.ends, x ∈ D.mesh.ends) :
    ∃ ys, (fineViews [r]).mapM (interiorFace D) = some ys ∧ List.Forall₂ (fun v y => ∃ e0 e1 dir, GoodInterior D pos v y e0 e1 dir) (fineViews [r]) ys ∧
      ∀ p : Files, p.points = D.verts → ∀ cell i, (ys.map fun y => share cell y.1 y.2.1 (p.area pos y.2.2) i).sum = (r.ends.map fun x => atCell D pos cell i x.1).sum := by
  obtain ⟨hl, hm⟩ := hF.ref d b r hr
  obtain ⟨str, parts, hperm, hfit⟩ := hm _ (vertexInds_eq _)
  have mc : r.coarse ∈ D.mesh.elements := hat _ (hends _ (List.mem_cons_self ..))
  have hfe : ∀ x ∈ r.fine, (x, r.dir.iFace !r.rev) ∈ (fineEnds r.id (r.dir.iFace !r.rev) 0 r.fine).map (·.1) := fun x hx => by rw [fineEnds_fst]; exact List.mem_map_of_mem hx
  have mf : ∀ x ∈ r.fine, x ∈ D.mesh.elements := by
    intro x hx
    obtain ⟨z, hz, hzx⟩ := List.mem_map.1 (hfe x hx)
    have := hat z (hends z (List.mem_cons_of_mem _ hz))
    rwa [hzx] at this
  have hfa := fine_area hl hperm (hfit.imp fun a p hap => hap.2.2)
  have hlev : ∀ x ∈ r.fine, x ≠ r.coarse ∧ D.level r.coarse < D.level x := all_forall₂ (fun _ _ h => ⟨h.1, h.2.1⟩) hfit
  set F := 2 * (r.dir.toDir.iDim !r.rev).val + (r.dir.toDir.faceSign !r.rev).toNat with hFd
  have key : ∀ v ∈ fineViews [r], ∃ y, interiorFace D v = some y ∧ ∃ j x, v = .fine r j ∧ r.fine[j]? = some x ∧ (∃ e0 e1 dir, GoodInterior D pos v y e0 e1 dir) ∧
      ∀ p : Files, p.points = D.verts → ∀ cell i, share cell y.1 y.2.1 (p.area pos y.2.2) i = (if D.cell x = cell then outF (D.x pos x) F i else 0) - if D.cell r.coarse = cell then outF (D.x pos x) F i else 0 := by
    intro v hv
    simp only [fineViews, List.flatMap_cons, List.flatMap_nil, List.append_nil, List.mem_map, List.mem_range] at hv
    obtain ⟨j, hj, rfl⟩ := hv
    obtain ⟨x, hx⟩ : ∃ x, r.fine[j]? = some x := ⟨_, List.getElem?_eq_getElem hj⟩
    have mx := List.mem_of_getElem? hx
    obtain ⟨hne, hlx⟩ := hlev x mx
    cases hrev : r.rev with
    | false =>
      obtain ⟨y, hy, hg⟩ := goodInterior (pos := pos) hnd hF.verts.1 hF.verts.2 hel (v := .fine r j) (e0 := r.coarse) (e1 := x) (dir := r.dir.toDir) (by simp [viewElement, RefConn.element, hx, hrev]) (by simp [viewElement, RefConn.element, hx, hrev]) rfl mc (mf x mx) hne.symm
      refine ⟨y, hy, j, x, rfl, hx, ⟨_, _, _, hg⟩, fun p hp cell i => ?_⟩
      rw [hg.share p hp, if_pos hlx, hFd, hrev]
      rfl
    | true =>
      obtain ⟨y, hy, hg⟩ := goodInterior (pos := pos) hnd hF.verts.1 hF.verts.2 hel (v := .fine r j) (e0 := x) (e1 := r.coarse) (dir := r.dir.toDir) (by simp [viewElement, RefConn.element, hx, hrev]) (by simp [viewElement, RefConn.element, hx, hrev]) rfl (mf x mx) mc hne
      refine ⟨y, hy, j, x, rfl, hx, ⟨_, _, _, hg⟩, fun p hp cell i => ?_⟩
      rw [hg.share p hp, if_neg (by omega), hFd, hrev]
      rfl
  obtain ⟨ys, hys, hall⟩ := mapM_exists key
  refine ⟨ys, hys, hall.imp fun v y h => ?_, fun p hp cell i => ?_⟩
  · obtain ⟨_, _, _, _, h, _⟩ := h
    exact h
  · have e1 : (ys.map fun y => share cell y.1 y.2.1 (p.area pos y.2.2) i).sum = (r.fine.map fun x => (if D.cell x = cell then outF (D.x pos x) F i else 0) - if D.cell r.coarse = cell then outF (D.x pos x) F i else 0).sum := by
      have hz : List.Forall₂ (fun y x => share cell y.1 y.2.1 (p.area pos y.2.2) i = (if D.cell x = cell then outF (D.x pos x) F i else 0) - if D.cell r.coarse = cell then outF (D.x pos x) F i else 0) ys r.fine := by
        have hv1 : fineViews [r] = (List.range r.fine.length).map fun j => View.fine r j := by simp [fineViews]
        rw [hv1, List.forall₂_map_left_iff] at hall
        have hlen := hall.length_eq
        rw [List.length_range] at hlen
        refine List.forall₂_iff_get.2 ⟨hlen.symm, fun j h1 h2 => ?_⟩
        have := (List.forall₂_iff_get.1 hall).2 j (by simpa using h2) h1
        obtain ⟨j', x, hjj, hx, -, hs⟩ := this
        simp at hjj
        subst hjj
        have hxe : r.fine.get ⟨j, h2⟩ = x := by
          rw [List.getElem?_eq_getElem h2] at hx
          exact Option.some.inj hx
        rw [hxe]
        exact hs p hp cell i
      exact sum_forall₂ (fun _ _ h => h) hz
    rw [e1]
    have e2 : (r.ends.map fun x => atCell D pos cell i x.1).sum = (if D.cell r.coarse = cell then outF (D.x pos r.coarse) (2 * (r.dir.toDir.iDim r.rev).val + (r.dir.toDir.faceSign r.rev).toNat) i else 0) + (r.fine.map fun x => if D.cell x = cell then outF (D.x pos x) F i else 0).sum := by
      have : (r.ends.map fun x => atCell D pos cell i x.1) = (r.ends.map (·.1)).map (atCell D pos cell i) := by rw [List.map_map]; rfl
      rw [this, RefConn.ends, List.map_cons, fineEnds_fst, List.map_cons, List.sum_cons, List.map_map, iFace_eq, iFace_eq]
      rfl
    rw [e2]
    have e3 : (r.fine.map fun x => outF (D.x pos x) F i).sum = -outF (D.x pos r.coarse) (2 * (r.dir.toDir.iDim r.rev).val + (r.dir.toDir.faceSign r.rev).toNat) i := by
      rw [outF_eq, ← hfa i]
      simp only [hFd, outF_eq]
    have e4 : ∀ l : List Elem, (l.map fun x => (if D.cell x = cell then outF (D.x pos x) F i else 0) - if D.cell r.coarse = cell then outF (D.x pos x) F i else 0).sum =
        (l.map fun x => if D.cell x = cell then outF (D.x pos x) F i else 0).sum - if D.cell r.coarse = cell then (l.map fun x => outF (D.x pos x) F i).sum else 0 := by
      intro l
      induction l with
      | nil => simp
      | cons a l ih =>
        simp only [List.map_cons, List.sum_cons, ih]
        split_ifs <;> ring
    rw [e4, e3]
    split_ifs <;> ring

end
end Hexed.Polymesh
