import Verif.Polymesh.Export

set_option autoImplicit false
set_option linter.unusedVariables false

/-!
# C39: exported polyhedral meshes
-/

namespace Hexed.Polymesh
open Hexed.MeshConn
open Hexed.Connection (Dir vertexInds strAt Legal sideInds faceVertexInds)
noncomputable section

theorem patchStarts_fst (l : List Nat) : ∀ s, (patchStarts s l).map Prod.fst = l := by
  induction l with
  | nil => intro s; rfl
  | cons n l ih => intro s; rw [patchStarts, List.map_cons, ih]

theorem patchStarts_get (l : List Nat) : ∀ (s i : Nat) (x : Nat × Nat), (patchStarts s l)[i]? = some x → l[i]? = some x.1 ∧ x.2 = s + (l.take i).sum := by
  induction l with
  | nil => intro s i x h; simp [patchStarts] at h
  | cons n l ih =>
    intro s i x h
    cases i with
    | zero => simp [patchStarts] at h; subst h; simp
    | succ i =>
      rw [patchStarts, List.getElem?_cons_succ] at h
      obtain ⟨h1, h2⟩ := ih _ _ _ h
      refine ⟨by simpa using h1, ?_⟩
      rw [h2, List.take_succ_cons, List.sum_cons, Nat.add_assoc]

theorem forall₂_get {α β : Type} {R : α → β → Prop} {l : List α} {k : List β} (h : List.Forall₂ R l k) : ∀ {i : Nat} {a : α}, l[i]? = some a → ∃ b, k[i]? = some b ∧ R a b := by
  induction h with
  | nil => intro i a h; simp at h
  | cons h1 _ ih =>
    intro i a h
    cases i with
    | zero => simp at h; subst h; exact ⟨_, rfl, h1⟩
    | succ i => simpa using ih (by simpa using h)

theorem forall₂_get' {α β : Type} {R : α → β → Prop} {l : List α} {k : List β} (h : List.Forall₂ R l k) {i : Nat} {b : β} (hb : k[i]? = some b) : ∃ a, l[i]? = some a ∧ R a b :=
  forall₂_get (R := fun b a => R a b) h.flip hb

theorem good {D : Data} {pos : Nat → Vec} {n_bc : Nat} (hr : Reach 3 n_bc D.mesh) (hF : Fits D pos) : ∃ p I B, exportPolymesh D = some p ∧ GoodFiles D pos p I B :=
  export_ok (reach_inv (by decide) hr).2 hF (reach_inv (by decide) hr).1

theorem cell_lt {D : Data} {e : Elem} (h : e ∈ D.mesh.elements) : D.cell e < D.mesh.elements.length := List.idxOf_lt_length_iff.2 h

theorem cell_get {D : Data} {e : Elem} (h : e ∈ D.mesh.elements) : D.mesh.elements[D.cell e]? = some e := idxOf_get h

theorem GoodFiles.lengths {D : Data} {pos : Nat → Vec} {p : Files} {I : List (Nat × Nat × List Nat)} {B : List (List (Nat × List Nat))} (h : GoodFiles D pos p I B) :
    I.length = (views D.mesh).length ∧ p.neighbour.length = I.length ∧ p.faces.length = I.length + B.flatten.length ∧ p.owner.length = I.length + B.flatten.length := by
  obtain ⟨E, hE, _⟩ := h.interior
  refine ⟨hE.good.length_eq.symm, by rw [h.neighbour, List.length_map], by rw [h.faces, List.length_append, List.length_map, List.length_map], by rw [h.owner, List.length_append, List.length_map, List.length_map]⟩

/-- C39. A three-dimensional mesh can be exported and the files are well formed. -/
theorem polymesh_wellFormed {D : Data} {pos : Nat → Vec} {n_bc : Nat} (hr : Reach 3 n_bc D.mesh) (hF : Fits D pos) :
    ∃ p, exportPolymesh D = some p ∧ p.points = D.verts ∧ p.nCells = D.mesh.elements.length ∧ p.WellFormed := by
  obtain ⟨p, I, B, hp, h⟩ := good hr hF
  obtain ⟨E, hE, _⟩ := h.interior
  obtain ⟨l1, l2, l3, l4⟩ := h.lengths
  have hBf := forall₂_flatten h.boundary
  have hI : ∀ y ∈ I, ∃ v e0 e1 dir, GoodInterior D pos v y e0 e1 dir := all_forall₂ (R := fun y v => ∃ e0 e1 dir, GoodInterior D pos v y e0 e1 dir) (fun y v h => ⟨v, h⟩) hE.good.flip
  have hB : ∀ y ∈ B.flatten, ∃ c, GoodBoundary D pos c y := all_forall₂ (R := fun y c => GoodBoundary D pos c y) (fun y c h => ⟨c, h⟩) hBf.flip
  have hIlt : ∀ y ∈ I, y.1 < y.2.1 ∧ y.2.1 < D.mesh.elements.length := by
    intro y hy
    obtain ⟨v, e0, e1, dir, g⟩ := hI y hy
    refine ⟨g.order, ?_⟩
    rcases g.cells with ⟨_, h⟩ | ⟨_, h⟩
    · rw [h]; exact cell_lt g.mem1
    · rw [h]; exact cell_lt g.mem0
  refine ⟨p, hp, h.points, h.nCells, ⟨⟨by omega, fun o ho => ?_⟩, ⟨by omega, fun k o n ho hn => ?_⟩, fun f hf => ?_, fun i x hx => ?_, ?_⟩⟩
  · rw [h.owner] at ho
    rw [h.nCells]
    rcases List.mem_append.1 ho with h' | h'
    · obtain ⟨y, hy, rfl⟩ := List.mem_map.1 h'
      have := hIlt y hy
      omega
    · obtain ⟨y, hy, rfl⟩ := List.mem_map.1 h'
      obtain ⟨c, g⟩ := hB y hy
      rw [g.cell]; exact cell_lt g.mem
  · rw [h.neighbour, List.getElem?_map] at hn
    rw [h.nCells]
    obtain ⟨y, hy, hyn⟩ := Option.map_eq_some_iff.1 hn
    have hk : k < I.length := (List.getElem?_eq_some_iff.1 hy).1
    rw [h.owner, List.getElem?_append_left (by simpa using hk), List.getElem?_map, hy] at ho
    have := hIlt y (List.mem_of_getElem? hy)
    simp at ho
    subst ho hyn
    exact this
  · rw [h.faces] at hf
    rw [h.points]
    rcases List.mem_append.1 hf with h' | h'
    · obtain ⟨y, hy, rfl⟩ := List.mem_map.1 h'
      obtain ⟨v, e0, e1, dir, g⟩ := hI y hy
      exact ⟨g.len, g.lt⟩
    · obtain ⟨y, hy, rfl⟩ := List.mem_map.1 h'
      obtain ⟨c, g⟩ := hB y hy
      exact ⟨g.len, g.lt⟩
  · rw [h.patches] at hx ⊢
    rw [List.map_take, patchStarts_fst, l2]
    exact (patchStarts_get _ _ _ _ hx).2
  · rw [h.patches, patchStarts_fst, l2, l3, List.length_flatten]

/-- C39. There is one interior face for each connection between elements (each fine element of a hanging-node connection counts), in the same order. The owner and the neighbour
are the elements it joins. Its vertices are those of the face of the finer one and their order is such that the area vector points out of the owner: it is the outward area vector
of the face of the finer element if that is the owner, else its negative. If the connection is conformal it is the outward area vector of the face of the owner. -/
theorem polymesh_interior {D : Data} {pos : Nat → Vec} {n_bc : Nat} (hr : Reach 3 n_bc D.mesh) (hF : Fits D pos) {p : Files} (hp : exportPolymesh D = some p) :
    p.neighbour.length = (views D.mesh).length ∧ ∀ (k : Nat) (v : View), (views D.mesh)[k]? = some v →
      ∃ (e : Bool → Elem) (dir : Dir) (o n : Nat) (f : List Nat) (side finer : Bool), (∀ s, viewElement v s = some (e s)) ∧ viewDir v = some dir ∧
        p.owner[k]? = some o ∧ p.neighbour[k]? = some n ∧ p.faces[k]? = some f ∧ o < n ∧ D.mesh.elements[o]? = some (e side) ∧ D.mesh.elements[n]? = some (e !side) ∧
        D.level (e !finer) ≤ D.level (e finer) ∧ (f.map fun l => p.points[l]?).Perm ((D.faceVerts (e finer) (dir.iDim finer) (dir.faceSign finer)).map some) ∧
        (∀ i, p.area pos f i = (if finer = side then 1 else -1) * outward (D.x pos (e finer)) (dir.iDim finer) (dir.faceSign finer) i) ∧
        (∀ c, v = .conf c → p.area pos f = outward (D.x pos (e side)) (dir.iDim side) (dir.faceSign side)) := by
  obtain ⟨q, I, B, hq, h⟩ := good hr hF
  rw [hp] at hq; cases hq
  obtain ⟨E, hE, _⟩ := h.interior
  obtain ⟨l1, l2, l3, l4⟩ := h.lengths
  refine ⟨by rw [l2, l1], fun k v hv => ?_⟩
  obtain ⟨y, hy, e0, e1, dir, g⟩ := forall₂_get hE.good hv
  have hk : k < I.length := (List.getElem?_eq_some_iff.1 hy).1
  have ho : p.owner[k]? = some y.1 := by rw [h.owner, List.getElem?_append_left (by simpa using hk), List.getElem?_map, hy]; rfl
  have hn : p.neighbour[k]? = some y.2.1 := by rw [h.neighbour, List.getElem?_map, hy]; rfl
  have hf : p.faces[k]? = some y.2.2 := by rw [h.faces, List.getElem?_append_left (by simpa using hk), List.getElem?_map, hy]; rfl
  obtain ⟨fs, hfs⟩ : ∃ fs, fs = decide (D.level e1 > D.level e0) := ⟨_, rfl⟩
  let e : Bool → Elem := fun s => if s then e1 else e0
  have hev : (if D.level e1 > D.level e0 then e1 else e0) = e fs := by rw [hfs]; by_cases hl : D.level e1 > D.level e0 <;> simp [e, hl]
  have hvert := g.verts
  rw [hev, ← hfs, ← h.points] at hvert
  have hlev : D.level (e !fs) ≤ D.level (e fs) := by
    rw [hfs]
    by_cases hl : D.level e1 > D.level e0 <;> simp [e, hl] <;> omega
  have hsh : ∀ i, p.area pos y.2.2 i = (if D.cell (e fs) = y.1 then 1 else -1) * outward (D.x pos (e fs)) (dir.iDim fs) (dir.faceSign fs) i := by
    intro i
    have := g.share p h.points y.1 i
    have hlt := g.order
    rw [share, if_pos rfl, if_neg (by omega), sub_zero] at this
    rw [this]
    have o0 : outF (D.x pos e0) (2 * dir.i0.val + dir.s0.toNat) = outward (D.x pos e0) (dir.iDim false) (dir.faceSign false) := outF_eq _ _ _
    have o1 : outF (D.x pos e1) (2 * dir.i1.val + dir.s1.toNat) = outward (D.x pos e1) (dir.iDim true) (dir.faceSign true) := outF_eq _ _ _
    rw [o0, o1, hfs]
    by_cases hl : D.level e1 > D.level e0 <;> simp only [hl, decide_true, decide_false, if_true, if_false, e, Bool.false_eq_true]
    · rcases g.cells with ⟨h1, h2⟩ | ⟨h1, h2⟩
      · rw [if_neg (by omega), if_pos h1.symm, if_neg (by omega)]; ring
      · rw [if_pos h1.symm, if_neg (by omega), if_pos h1.symm]; ring
    · rcases g.cells with ⟨h1, h2⟩ | ⟨h1, h2⟩
      · rw [if_pos h1.symm, if_neg (by omega), if_pos h1.symm]; ring
      · rw [if_neg (by omega), if_pos h1.symm, if_neg (by omega)]; ring
  have hconf : ∀ c, v = .conf c → ∀ i, outward (D.x pos e0) (dir.iDim false) (dir.faceSign false) i = -outward (D.x pos e1) (dir.iDim true) (dir.faceSign true) i := by
    rintro c rfl i
    have hc : ∃ d, c ∈ (D.mesh.byType d).cons := by
      have := List.mem_of_getElem? hv
      have key : ∀ b : ByType, View.conf c ∈ b.conns → c ∈ b.cons := by
        intro b hb
        simpa [ByType.conns, fineViews] using hb
      rcases List.mem_append.1 this with h | h
      · exact ⟨false, key _ h⟩
      · exact ⟨true, key _ h⟩
    obtain ⟨d, hc⟩ := hc
    obtain ⟨hl, hne, hm⟩ := hF.conf d c hc
    have h0 := g.el0; have h1 := g.el1; have hd := g.direction
    simp only [viewElement, viewDir, Option.some.injEq] at h0 h1 hd
    subst h0 h1 hd
    exact conf_area hl hm i
  have fin : ∀ side, y.1 = D.cell (e side) → y.2.1 = D.cell (e !side) → ∃ (e : Bool → Elem) (dir : Dir) (o n : Nat) (f : List Nat) (side finer : Bool), (∀ s, viewElement v s = some (e s)) ∧ viewDir v = some dir ∧
        p.owner[k]? = some o ∧ p.neighbour[k]? = some n ∧ p.faces[k]? = some f ∧ o < n ∧ D.mesh.elements[o]? = some (e side) ∧ D.mesh.elements[n]? = some (e !side) ∧
        D.level (e !finer) ≤ D.level (e finer) ∧ (f.map fun l => p.points[l]?).Perm ((D.faceVerts (e finer) (dir.iDim finer) (dir.faceSign finer)).map some) ∧
        (∀ i, p.area pos f i = (if finer = side then 1 else -1) * outward (D.x pos (e finer)) (dir.iDim finer) (dir.faceSign finer) i) ∧
        (∀ c, v = .conf c → p.area pos f = outward (D.x pos (e side)) (dir.iDim side) (dir.faceSign side)) := by
    intro side c1 c2
    have me : ∀ s, e s ∈ D.mesh.elements := by intro s; cases s; exacts [g.mem0, g.mem1]
    have hcell : (D.cell (e fs) = y.1) ↔ fs = side := by
      have := g.order
      constructor
      · intro hh
        by_contra hne
        have : fs = !side := by revert hne; cases fs <;> cases side <;> simp
        rw [this, ← c2] at hh
        omega
      · rintro rfl; exact c1.symm
    have har : ∀ i, p.area pos y.2.2 i = (if fs = side then 1 else -1) * outward (D.x pos (e fs)) (dir.iDim fs) (dir.faceSign fs) i := by
      intro i
      rw [hsh i]
      simp only [hcell]
    refine ⟨e, dir, y.1, y.2.1, y.2.2, side, fs, ?_, g.direction, ho, hn, hf, g.order, by rw [c1]; exact cell_get (me _), by rw [c2]; exact cell_get (me _), hlev, hvert, har, ?_⟩
    · intro s; cases s; exacts [g.el0, g.el1]
    · intro c hc
      funext i
      rw [har i]
      have := hconf c hc i
      cases fs <;> cases side <;> simp [e] at this ⊢ <;> linarith
  rcases g.cells with ⟨h1, h2⟩ | ⟨h1, h2⟩
  · exact fin false h1 h2
  · exact fin true h1 h2

/-- C39. There is a patch for each boundary condition. Its faces are those of the boundary connections with that boundary condition: the owner is their element and the area
vector points out of it. -/
theorem polymesh_boundary {D : Data} {pos : Nat → Vec} {n_bc : Nat} (hr : Reach 3 n_bc D.mesh) (hF : Fits D pos) {p : Files} (hp : exportPolymesh D = some p) :
    p.patches.length = D.mesh.n_bc ∧ ∀ i n start : Nat, p.patches[i]? = some (n, start) → n = (patchCons D.mesh i).length ∧ ∀ (j : Nat) (c : BCon), (patchCons D.mesh i)[j]? = some c →
      ∃ (o : Nat) (f : List Nat) (h : c.i_dim < 3), p.owner[start + j]? = some o ∧ p.faces[start + j]? = some f ∧ D.mesh.elements[o]? = some c.el ∧
        (f.map fun l => p.points[l]?).Perm ((D.faceVerts c.el ⟨c.i_dim, h⟩ c.sign).map some) ∧ p.area pos f = outward (D.x pos c.el) ⟨c.i_dim, h⟩ c.sign := by
  obtain ⟨q, I, B, hq, h⟩ := good hr hF
  rw [hp] at hq; cases hq
  obtain ⟨l1, l2, l3, l4⟩ := h.lengths
  have hpl : p.patches.length = B.length := by
    have := congrArg List.length (patchStarts_fst (B.map List.length) I.length)
    rw [List.length_map, List.length_map] at this
    rw [h.patches, this]
  refine ⟨by rw [hpl, ← h.boundary.length_eq, List.length_range], fun i n start hi => ?_⟩
  rw [h.patches] at hi
  obtain ⟨g1, g2⟩ := patchStarts_get _ _ _ _ hi
  rw [List.getElem?_map] at g1
  obtain ⟨ys, hys, hn⟩ := Option.map_eq_some_iff.1 g1
  obtain ⟨i', hi', hB⟩ := forall₂_get' h.boundary hys
  have : i' = i := by
    obtain ⟨a, b⟩ := List.getElem?_eq_some_iff.1 hi'
    simpa using b.symm
  subst this
  refine ⟨by rw [hB.length_eq]; exact hn.symm, fun j c hc => ?_⟩
  obtain ⟨y, hy, gb⟩ := forall₂_get hB hc
  have hj : j < ys.length := (List.getElem?_eq_some_iff.1 hy).1
  have hget : B.flatten[((B.map List.length).take i').sum + j]? = some y := by
    have hiB : i' < B.length := (List.getElem?_eq_some_iff.1 hys).1
    have e1 : B = B.take i' ++ ys :: B.drop (i' + 1) := by
      conv_lhs => rw [← List.take_append_drop i' B]
      rw [List.drop_eq_getElem_cons hiB, (List.getElem?_eq_some_iff.1 hys).2]
    have e2 : ((B.map List.length).take i').sum = (B.take i').flatten.length := by rw [List.length_flatten, List.map_take]
    have e3 : B.flatten = (B.take i').flatten ++ (ys ++ (B.drop (i' + 1)).flatten) := by
      conv_lhs => rw [e1, List.flatten_append, List.flatten_cons]
    rw [e2, e3]
    rw [List.getElem?_append_right (by omega), Nat.add_sub_cancel_left, List.getElem?_append_left hj, hy]
  simp only at g2
  have hfst : I.length ≤ start + j := by omega
  have hsub : start + j - I.length = ((B.map List.length).take i').sum + j := by omega
  refine ⟨y.1, y.2, gb.dim, ?_, ?_, by rw [gb.cell]; exact cell_get gb.mem, by rw [h.points]; exact gb.verts, ?_⟩
  · rw [h.owner, List.getElem?_append_right (by rw [List.length_map]; exact hfst), List.length_map, hsub, List.getElem?_map, hget]; rfl
  · rw [h.faces, List.getElem?_append_right (by rw [List.length_map]; exact hfst), List.length_map, hsub, List.getElem?_map, hget]; rfl
  · rw [gb.area p h.points]
    exact outF_eq _ ⟨c.i_dim, gb.dim⟩ _

theorem sum_get {α : Type} (g : α → ℝ) : ∀ l : List α, ∑ k ∈ Finset.range l.length, (l[k]?).elim 0 g = (l.map g).sum := by
  intro l
  induction l with
  | nil => simp
  | cons a l ih =>
    rw [List.length_cons, Finset.sum_range_succ', List.map_cons, List.sum_cons, ← ih, add_comm]
    simp

theorem ends_lt {D : Data} {pos : Nat → Vec} (hF : Fits D pos) : ∀ x ∈ D.mesh.ends, x.1.2 < 6 := by
  have hdir : ∀ (c : ConDir) (s : Bool), c.iFace s < 6 := by
    intro c s
    rw [iFace_eq]
    have := (c.toDir.iDim s).isLt
    have : (c.toDir.faceSign s).toNat ≤ 1 := Bool.toNat_le _
    omega
  have hfine : ∀ (id f : Nat) (l : List Elem) (i : Nat), f < 6 → ∀ x ∈ fineEnds id f i l, x.1.2 < 6 := by
    intro id f l
    induction l with
    | nil => intro i hf x hx; simp [fineEnds] at hx
    | cons e l ih =>
      intro i hf x hx
      rcases List.mem_cons.1 hx with rfl | hx
      · exact hf
      · exact ih _ hf x hx
  have href : ∀ (l : List RefConn), ∀ x ∈ l.flatMap RefConn.ends, x.1.2 < 6 := by
    intro l x hx
    obtain ⟨r, _, hx⟩ := List.mem_flatMap.1 hx
    rcases List.mem_cons.1 hx with rfl | hx
    · exact hdir _ _
    · exact hfine _ _ _ _ (hdir _ _) x hx
  have key : ∀ d, ∀ x ∈ (D.mesh.byType d).ends, x.1.2 < 6 := by
    intro d x hx
    simp only [ByType.ends, List.mem_append] at hx
    rcases hx with hx | hx | hx | hx | hx
    · obtain ⟨c, _, hx⟩ := List.mem_flatMap.1 hx
      simp only [Conn.ends, List.mem_cons, List.not_mem_nil, or_false] at hx
      rcases hx with rfl | rfl
      · exact hdir _ _
      · exact hdir _ _
    · obtain ⟨c, hc, hx⟩ := List.mem_flatMap.1 hx
      simp only [BCon.ends, List.mem_cons, List.not_mem_nil, or_false] at hx
      subst hx
      have := (hF.bound d c hc).1
      have : c.sign.toNat ≤ 1 := Bool.toNat_le _
      simp only; omega
    · exact href _ x hx
    · exact href _ x hx
    · exact href _ x hx
  intro x hx
  rcases List.mem_append.1 hx with h | h
  · exact key false x h
  · exact key true x h

theorem ends_faces {m : Mesh} (hnd : m.nd = 3) (hi : Inv m) (hlt : ∀ x ∈ m.ends, x.1.2 < 6) (hv : ∀ e ∈ m.elements, ∀ f < 6, m.degree e f = 1) : (m.ends.map (·.1)).Perm m.faces := by
  have hnodup : m.faces.Nodup := by
    rw [Mesh.faces, hnd, List.nodup_flatMap]
    refine ⟨fun e _ => List.Nodup.map (fun a b h => (Prod.mk.inj h).2) List.nodup_range, ?_⟩
    refine hi.nodup.imp fun {a b} hab => ?_
    intro x hx hx'
    obtain ⟨_, _, rfl⟩ := List.mem_map.1 hx
    obtain ⟨_, _, h⟩ := List.mem_map.1 hx'
    exact hab (Prod.mk.inj h).1.symm
  have hmem : ∀ e f, (e, f) ∈ m.faces ↔ e ∈ m.elements ∧ f < 6 := by
    intro e f
    simp only [Mesh.faces, hnd, List.mem_flatMap, List.mem_map, List.mem_range, Prod.mk.injEq]
    constructor
    · rintro ⟨a, ha, b, hb, rfl, rfl⟩; exact ⟨ha, hb⟩
    · rintro ⟨h1, h2⟩; exact ⟨e, h1, f, h2, rfl, rfl⟩
  rw [List.perm_iff_count]
  rintro ⟨e, f⟩
  by_cases hef : (e, f) ∈ m.faces
  · rw [List.count_eq_one_of_mem hnodup hef]
    exact hv e ((hmem e f).1 hef).1 f ((hmem e f).1 hef).2
  · rw [List.count_eq_zero.2 hef, List.count_eq_zero]
    intro h
    obtain ⟨x, hx, hxe⟩ := List.mem_map.1 h
    exact hef ((hmem e f).2 ⟨by have := hi.attached x hx; rwa [hxe] at this, by have := hlt x hx; rwa [hxe] at this⟩)

theorem sum_outF (x : Nat → Vec) (i : Fin 3) : ((List.range 6).map fun f => outF x f i).sum = 0 := by
  have := outward_closed x i
  rw [Fin.sum_univ_three] at this
  have e0 : outF x 0 = outward x 0 false := rfl
  have e1 : outF x 1 = outward x 0 true := rfl
  have e2 : outF x 2 = outward x 1 false := rfl
  have e3 : outF x 3 = outward x 1 true := rfl
  have e4 : outF x 4 = outward x 2 false := rfl
  have e5 : outF x 5 = outward x 2 true := rfl
  simp only [List.range_succ, List.range_zero, List.nil_append, List.cons_append, List.map_cons, List.map_nil, List.sum_cons, List.sum_nil, e0, e1, e2, e3, e4, e5]
  linarith

/-- C39. If every face of every element has exactly one connection then the cells are closed: the area vectors of the faces of a cell, pointing out of it, add up to zero. This holds
for hanging-node connections too, where the coarse cell has a face for each fine element. -/
theorem polymesh_closed {D : Data} {pos : Nat → Vec} {n_bc : Nat} (hr : Reach 3 n_bc D.mesh) (hF : Fits D pos) (hv : ∀ e ∈ D.mesh.elements, ∀ f < 6, D.mesh.degree e f = 1)
    {p : Files} (hp : exportPolymesh D = some p) (cell : Nat) (i : Fin 3) : ∑ k ∈ Finset.range p.faces.length, p.flux pos cell k i = 0 := by
  obtain ⟨q, I, B, hq, h⟩ := good hr hF
  rw [hp] at hq; cases hq
  obtain ⟨E, hE, hEp⟩ := h.interior
  obtain ⟨l1, l2, l3, l4⟩ := h.lengths
  obtain ⟨hi, hnd⟩ := reach_inv (by decide) hr
  have hBf := forall₂_flatten h.boundary
  have hBp : ((List.range D.mesh.n_bc).flatMap (patchCons D.mesh)).Perm (D.mesh.car.bounds ++ D.mesh.dfm.bounds) := by
    refine patches_perm _ _ fun c hc => ?_
    rcases List.mem_append.1 hc with h | h
    · exact (hF.bound false c h).2
    · exact (hF.bound true c h).2
  have sI : ∑ k ∈ Finset.range I.length, p.flux pos cell k i = (E.map fun x => atCell D pos cell i x.1).sum := by
    rw [← hE.sum p h.points cell i, ← sum_get]
    refine Finset.sum_congr rfl fun k hk => ?_
    have hk := Finset.mem_range.1 hk
    rw [Files.flux, h.faces, h.owner, h.neighbour, List.getElem?_append_left (by simpa using hk), List.getElem?_append_left (by simpa using hk), List.getElem?_map, List.getElem?_map, List.getElem?_map,
      List.getElem?_eq_getElem hk]
    simp [share]
  have sB : ∑ k ∈ Finset.range B.flatten.length, p.flux pos cell (I.length + k) i = (((D.mesh.car.bounds ++ D.mesh.dfm.bounds).flatMap BCon.ends).map fun x => atCell D pos cell i x.1).sum := by
    have e1 : ∑ k ∈ Finset.range B.flatten.length, p.flux pos cell (I.length + k) i = (B.flatten.map fun y => if y.1 = cell then p.area pos y.2 i else 0).sum := by
      rw [← sum_get]
      refine Finset.sum_congr rfl fun k hk => ?_
      have hk := Finset.mem_range.1 hk
      rw [Files.flux, h.faces, h.owner, h.neighbour, List.getElem?_append_right (by simp), List.getElem?_append_right (by simp), List.length_map, List.length_map, Nat.add_sub_cancel_left, List.getElem?_map, List.getElem?_map,
        List.getElem?_eq_getElem hk, List.getElem?_eq_none (l := I.map _) (by simp)]
      simp
    have e2 : (B.flatten.map fun y => if y.1 = cell then p.area pos y.2 i else 0).sum = (((List.range D.mesh.n_bc).flatMap (patchCons D.mesh)).map fun c => atCell D pos cell i (c.el, c.iFace)).sum := by
      refine (sum_forall₂ (R := GoodBoundary D pos) (fun c y g => ?_) hBf).symm
      rw [atCell, g.area p h.points, g.cell]
    have e3 : ((D.mesh.car.bounds ++ D.mesh.dfm.bounds).flatMap BCon.ends).map (fun x => atCell D pos cell i x.1) = (D.mesh.car.bounds ++ D.mesh.dfm.bounds).map fun c => atCell D pos cell i (c.el, c.iFace) := by
      rw [List.map_flatMap]
      have : ∀ l : List BCon, (l.flatMap fun a => a.ends.map fun x => atCell D pos cell i x.1) = l.map fun c => atCell D pos cell i (c.el, c.iFace) := by
        intro l
        induction l with
        | nil => rfl
        | cons a l ih => rw [List.flatMap_cons, ih]; rfl
      exact this _
    rw [e1, e2, e3]
    exact (hBp.map _).sum_eq
  rw [l3, Finset.sum_range_add, sI, sB, ← List.sum_append, ← List.map_append, (hEp.map _).sum_eq]
  have e4 : (D.mesh.ends.map fun x => atCell D pos cell i x.1) = (D.mesh.ends.map (·.1)).map (atCell D pos cell i) := by rw [List.map_map]; rfl
  rw [e4, ((ends_faces hnd hi (ends_lt hF) hv).map _).sum_eq, Mesh.faces, hnd, List.map_flatMap, List.flatMap, List.sum_flatten, List.map_map]
  refine List.sum_eq_zero fun z hz => ?_
  obtain ⟨e, _, rfl⟩ := List.mem_map.1 hz
  rw [Function.comp, List.map_map]
  by_cases hc : D.cell e = cell
  · rw [← sum_outF (D.x pos e) i]
    congr 1
    exact List.map_congr_left fun f _ => by simp [atCell, hc]
  · refine List.sum_eq_zero fun z hz => ?_
    obtain ⟨f, _, rfl⟩ := List.mem_map.1 hz
    simp [atCell, hc]

/-- The outward area vector deserves its name: at a vertex of a face its product with the edge which ends there and comes from the inside is the volume element of the hexahedron, so
it is positive if the hexahedron is not inverted. -/
theorem cornerNormal_outward (x : Nat → Vec) (d : Fin 3) (s : Bool) (t : Bool × Bool) :
    dot (cornerNormal x d s t) (fun i => (if s then 1 else -1) * edge x d (faceCorner d s t) i) = cornerVolume x (faceCorner d s t) := by
  have h2 : (2 : Fin 3) + 1 = 0 := rfl
  have h3 : (2 : Fin 3) + 2 = 1 := rfl
  have h4 : (1 : Fin 3) + 2 = 0 := rfl
  have h5 : (1 : Fin 3) + 1 = 2 := rfl
  obtain ⟨t1, t2⟩ := t
  fin_cases d <;> cases s <;>
  · simp only [dot, cornerNormal, cornerVolume, cross, Fin.sum_univ_three, Fin.zero_eta, Fin.mk_one, Fin.reduceFinMk, zero_add, h2, h3, h4, h5, if_true, if_false, Bool.false_eq_true]
    ring

end
end Hexed.Polymesh
