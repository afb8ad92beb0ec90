import Verif.Metric.Buffers
set_option autoImplicit false
set_option linter.unusedVariables false

/-!
# Normals of hanging faces

On meshes whose faces do not meet exactly, or whose normals the basis cannot represent, all fine faces of a hanging face use the normal of the coarse face.
-/

namespace Hexed.Metric
open Hexed.Spatial Hexed.Pde Hexed.Solver
open Hexed.Connection (Dir matchFaces restore strAt Legal restore_match)
noncomputable section

variable {bs : BasisData} {b : Basis.Nodes ℝ} {s : Shape}

/-- The loops that copy and share the normal, for one connection of a mortar face with a fine face. -/
theorem copy_share {nd n : Nat} (hnd : 1 ≤ nd ∧ nd ≤ 3) {c : ConRec} (hd : c.deformed = true) (h0 : isMortar (c.side false) = true) (h1 : isMortar (c.side true) = false) (st : Sides) {a : Nat} (ha : a < nd * n ^ (nd - 1)) :
    shareNormal nd n c (copyNormal nd n c st) false false a = st false false a ∧
    flipSign c.dir true * matchFaces nd n (nd + 2) c.dir (shareNormal nd n c (copyNormal nd n c st) true false) a = flipSign c.dir false * st false false a := by
  have hsign : (1 - 2 * (((c.dir.flipNormal false != c.dir.flipNormal true).toNat : ℕ) : ℝ)) = flipSign c.dir false * flipSign c.dir true := by
    rw [flipSign_eq, flipSign_eq]; cases c.dir.flipNormal false <;> cases c.dir.flipNormal true <;> norm_num
  have q0 := flipSign_sq c.dir false
  have q1 := flipSign_sq c.dir true
  have hc : (c.deformed && (isMortar (c.side false) || isMortar (c.side true))) = true := by simp [hd, h0]
  have m := (restore_match (n := n) (nvar := nd + 2) hnd c.dir fun a => if a < nd * n ^ (nd - 1) then flipSign c.dir false * flipSign c.dir true * st false false a else matchFaces nd n (nd + 2) c.dir (st true false) a).2
  have c0 : copyNormal nd n c st false false = st false false := by
    simp [copyNormal, hd, h0, h1]
  have c1 : matchFaces nd n (nd + 2) c.dir (copyNormal nd n c st true false) = fun a => if a < nd * n ^ (nd - 1) then flipSign c.dir false * flipSign c.dir true * st false false a else matchFaces nd n (nd + 2) c.dir (st true false) a := by
    rw [← m]
    simp [copyNormal, hd, h0, h1, hsign]
  generalize copyNormal nd n c st = st' at c0 c1 ⊢
  constructor
  · simp [shareNormal, hd, c0, c1, m, ha]
    linear_combination (st false false a) * q0 + (1 / 2 * flipSign c.dir false * flipSign c.dir false * st false false a) * q1
  · simp [shareNormal, hd, c0, c1, m, ha, (restore_match (n := n) (nvar := nd + 2) hnd c.dir _).2]
    linear_combination (1 / 2 * flipSign c.dir false * st false false a) * (flipSign c.dir true ^ 2 + 2) * q1

/-- The normal that a connection of a deformed hanging face gets is the normal of the coarse face, interpolated to the points of the fine face, whatever the vertices and face warpings are: also if the faces do not
meet and if the polynomial degree of the normal is too high. Both sides of the connection have that normal, and the coarse face keeps its own. -/
theorem hanging_normal (hm : s.kernel.Ok bs) (hK : Kinds s) (w : World) {c : ConRec} (hc : c ∈ s.cons) (hd : c.deformed = true) {r i : Nat} {rr : RefRec} (hr : s.refs[r]? = some rr) (hi : i < nFace s.nd rr.str)
    (hs : c.side false = .mortar r i) {a : Nat} (ha : a < s.nd * bs.n ^ (s.nd - 1)) :
    ∃ c' ∈ (s.calcJacobian b bs w).cons, c'.side = c.side ∧ c'.dir = c.dir ∧
      c'.normal a = prolongFine bs s.nd (s.nd + 2) true rr.str i ((s.writeNormals b bs w).buf rr.coarse false) ((s.writeNormals b bs w).buf (.mortar r i) false) a ∧
      flipSign c.dir true * matchFaces s.nd bs.n (s.nd + 2) c.dir ((s.normals b bs w).buf (c.side true) false) a = flipSign c.dir false * c'.normal a ∧
      (s.normals b bs w).buf rr.coarse false = (s.writeNormals b bs w).buf rr.coarse false := by
  have hmem : rr ∈ s.kernel.refs := List.mem_iff_getElem?.2 ⟨r, hr⟩
  have hfi : rr.fine i = .mortar r i := (hm.fine r rr hr).2 i hi
  obtain ⟨r1, r2⟩ := prolong_fold (ns s.nd false .inviscid .inviscid) bs s.kernel.nd true false s.kernel.refs (s.writeNormals b bs w).buf hm.refs_nodup
  have h0 : isMortar (c.side false) = true := by rw [hs]; rfl
  have h1 : isMortar (c.side true) = false := by
    cases ht : c.side true with
    | mortar r' i' => exact absurd ((hK.fine c hc true r' i' ht).2 hd) (by simp)
    | _ => rfl
  have hg : ¬ (c.side true).isGhost = true := by
    intro hg
    obtain ⟨_, _, _, e, f, hfs⟩ := hK.bound c hc hg
    rw [hs] at hfs; cases hfs
  set w2 := runProlong (ns s.nd false .inviscid .inviscid) bs s.kernel true false (s.writeNormals b bs w) with hw2
  set w3 := s.cons.foldl (onCon fun c st => copyNormal s.nd bs.n c st) w2 with hw3
  set w4 := s.cons.foldl (onCon fun c st => ghostNormal s.nd bs.n c st) w3 with hw4
  set w5 := s.cons.foldl (onCon fun c st => shareNormal s.nd bs.n c st) w4 with hw5
  have hN : s.normals b bs w = w5 := rfl
  obtain ⟨a3, n3, _⟩ := cons_fold (fun c st => copyNormal s.nd bs.n c st) s.cons w2 hm.sides_nodup
  obtain ⟨a4, n4, _⟩ := cons_fold (fun c st => ghostNormal s.nd bs.n c st) s.cons w3 hm.sides_nodup
  obtain ⟨a5, n5, _⟩ := cons_fold (fun c st => shareNormal s.nd bs.n c st) s.cons w4 hm.sides_nodup
  have e4 : (fun sd => w4.buf (c.side sd)) = copyNormal s.nd bs.n c (fun sd => w2.buf (c.side sd)) := by
    funext sd
    rw [a4 c hc sd]
    simp only [ghostNormal]
    rw [if_neg hg, a3 c hc sd]
  have e5 : ∀ sd, w5.buf (c.side sd) = shareNormal s.nd bs.n c (copyNormal s.nd bs.n c (fun sd => w2.buf (c.side sd))) sd := by
    intro sd
    rw [a5 c hc sd, e4]
  obtain ⟨k0, k1⟩ := copy_share (nd := s.nd) (n := bs.n) (hm.dim : 1 ≤ s.nd ∧ s.nd ≤ 3) hd h0 h1 (fun sd => w2.buf (c.side sd)) ha
  have p2 : w2.buf (c.side false) false = prolongFine bs s.nd (s.nd + 2) true rr.str i ((s.writeNormals b bs w).buf rr.coarse false) ((s.writeNormals b bs w).buf (.mortar r i) false) := by
    have := r1 rr hmem i hi
    rw [hfi] at this
    rw [hs]
    exact this
  refine ⟨_, List.mem_map.2 ⟨c, hc, rfl⟩, rfl, rfl, ?_, ?_, ?_⟩
  · show (if c.deformed then (s.normals b bs w).buf (c.side false) false else c.normal) a = _
    rw [if_pos hd, hN, e5 false, k0, p2]
  · show _ = flipSign c.dir false * (if c.deformed then (s.normals b bs w).buf (c.side false) false else c.normal) a
    rw [if_pos hd, hN, e5 false, e5 true, k0, k1]
  · have hnot : rr.coarse ∉ sidesOf s.cons := by
      intro h
      exact (List.nodup_append.1 hm.nodup).2.2 _ h _ (List.mem_map.2 ⟨rr, hmem, rfl⟩) rfl
    rw [hN, hw5, n5 _ hnot, hw4, n4 _ hnot, hw3, n3 _ hnot]
    refine r2 rr.coarse false (Or.inl ?_)
    intro r' hr' i' hi' e1
    obtain ⟨kr, hkr⟩ := List.mem_iff_getElem?.1 hr'
    obtain ⟨⟨e, f, hco⟩, _⟩ := hm.fine r rr hr
    rw [(hm.fine kr r' hkr).2 i' hi', hco] at e1
    cases e1

end
end Hexed.Metric
