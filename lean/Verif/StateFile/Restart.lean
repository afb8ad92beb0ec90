import Verif.StateFile.Kernels
set_option autoImplicit false
set_option linter.unusedVariables false

/-!
# Lemmas about restarting
-/

namespace Hexed.StateFile
open Hexed.Spatial Hexed.Pde Hexed.Solver
open Hexed.Connection (Dir matchFaces restore strAt Legal)
variable {bs : BasisData} {m : Mesh}

theorem mem_elemFaces {b : Buf} : b ∈ m.elemFaces ↔ ∃ e ∈ m.elems, ∃ f < 2 * m.nd, b = .elem e f := by
  simp only [Mesh.elemFaces, List.mem_flatMap, List.mem_map, List.mem_range]
  constructor
  · rintro ⟨e, he, f, hf, rfl⟩; exact ⟨e, he, f, hf, rfl⟩
  · rintro ⟨e, he, f, hf, rfl⟩; exact ⟨e, he, f, hf, rfl⟩

theorem mem_fineBufs {b : Buf} : b ∈ m.fineBufs ↔ ∃ r ∈ m.refs, ∃ i < nFace m.nd r.str, b = r.fine i := by
  simp only [Mesh.fineBufs, List.mem_flatMap, List.mem_map, List.mem_range]
  constructor
  · rintro ⟨r, hr, i, hi, rfl⟩; exact ⟨r, hr, i, hi, rfl⟩
  · rintro ⟨r, hr, i, hi, rfl⟩; exact ⟨r, hr, i, hi, rfl⟩

theorem fine_mortar (hm : m.Ok bs) {r : RefRec} (hr : r ∈ m.refs) : (∃ e f, r.coarse = .elem e f) ∧ ∀ i < nFace m.nd r.str, ∃ k, r.fine i = .mortar k i := by
  obtain ⟨k, hk⟩ := List.getElem?_of_mem hr
  exact ⟨(hm.fine k r hk).1, fun i hi => ⟨k, (hm.fine k r hk).2 i hi⟩⟩

theorem coarse_mem (hm : m.Ok bs) {r : RefRec} (hr : r ∈ m.refs) : ∃ e ∈ m.elems, ∃ f < 2 * m.nd, r.coarse = .elem e f := by
  obtain ⟨e, f, h⟩ := (fine_mortar hm hr).1
  have h1 : r.coarse ∈ m.sides ++ m.coarseBufs := List.mem_append_right _ (List.mem_map.2 ⟨r, hr, rfl⟩)
  have h2 := hm.cover.mem_iff.1 h1
  rw [List.mem_append, List.mem_append] at h2
  rcases h2 with (h2 | h2) | h2
  · exact mem_elemFaces.1 h2
  · obtain ⟨r', hr', i, hi, e'⟩ := mem_fineBufs.1 h2
    obtain ⟨k, hk⟩ := (fine_mortar hm hr').2 i hi
    rw [hk, h] at e'; cases e'
  · have := (List.mem_filter.1 h2).2
    rw [h] at this; cases this

theorem storage_sides (hm : m.Ok bs) (b : Buf) : b ∈ faceStorage m ↔ b ∈ m.sides ∨ b ∈ m.coarseBufs := by
  rw [faceStorage, ← hm.cover.mem_iff, List.mem_append]

theorem fine_side (hm : m.Ok bs) {r : RefRec} (hr : r ∈ m.refs) {i : Nat} (hi : i < nFace m.nd r.str) : r.fine i ∈ m.sides := by
  have h1 : r.fine i ∈ faceStorage m := by
    rw [faceStorage, List.mem_append, List.mem_append]; exact Or.inl (Or.inr (mem_fineBufs.2 ⟨r, hr, i, hi, rfl⟩))
  rcases (storage_sides hm _).1 h1 with h | h
  · exact h
  · obtain ⟨r', hr', e⟩ := List.mem_map.1 h
    obtain ⟨e', f', h'⟩ := (fine_mortar hm hr').1
    obtain ⟨k, hk⟩ := (fine_mortar hm hr).2 i hi
    rw [h', hk] at e; cases e

/-! ## `refresh` -/

theorem writeFaces_spec (hm : m.Ok bs) (mu kappa : Transport) (w : World) :
    (runWriteFace mu kappa bs m w).state = w.state ∧ (runWriteFace mu kappa bs m w).cache = w.cache ∧
    (∀ e ∈ m.elems, ∀ f < 2 * m.nd, (runWriteFace mu kappa bs m w).buf (.elem e f) false = writeFace (ns m.nd false mu kappa) bs m.nd (w.state e) (fun f => w.buf (.elem e f) false) f) ∧
    (∀ b, b ∉ m.elemFaces → (runWriteFace mu kappa bs m w).buf b = w.buf b) ∧ ∀ b, (runWriteFace mu kappa bs m w).buf b true = w.buf b true := by
  obtain ⟨h1, h2, h3⟩ := elems_fold m.nd (fun e state cache faces visc => ⟨state, cache, writeFace (ns m.nd false mu kappa) bs m.nd state faces, visc⟩) m.elems w hm.elems_nodup
  rw [runWriteFace]
  have h3' : ∀ b, b ∉ m.elemFaces → (m.elems.foldl (onElem m.nd fun e state cache faces visc => ⟨state, cache, writeFace (ns m.nd false mu kappa) bs m.nd state faces, visc⟩) w).buf b = w.buf b :=
    fun b hb => h3 b fun e he f hf h => hb (mem_elemFaces.2 ⟨e, he, f, hf, h⟩)
  refine ⟨?_, ?_, fun e he f hf => ((h1 e he).2.2 f hf).1, h3', ?_⟩
  · funext e
    by_cases he : e ∈ m.elems
    · exact (h1 e he).1
    · exact (h2 e he).1
  · funext e
    by_cases he : e ∈ m.elems
    · exact (h1 e he).2.1
    · exact (h2 e he).2
  · intro b
    by_cases hb : b ∈ m.elemFaces
    · obtain ⟨e, he, f, hf, rfl⟩ := mem_elemFaces.1 hb
      exact ((h1 e he).2.2 f hf).2
    · rw [h3' b hb]

theorem prolong_spec (hm : m.Ok bs) (p : Pde) (scale : Bool) (w : World) :
    (∀ r ∈ m.refs, ∀ i < nFace m.nd r.str, (runProlong p bs m scale false w).buf (r.fine i) false = prolongFine bs m.nd p.nExtrap scale r.str i (w.buf r.coarse false) (w.buf (r.fine i) false)) ∧
    (∀ b, b ∉ m.fineBufs → (runProlong p bs m scale false w).buf b = w.buf b) ∧ ∀ b, (runProlong p bs m scale false w).buf b true = w.buf b true := by
  obtain ⟨h1, h2⟩ := prolong_fold p bs m.nd scale false m.refs w.buf hm.refs_nodup
  refine ⟨h1, fun b hb => ?_, fun b => h2 b true (Or.inr (by decide))⟩
  funext l
  exact h2 b l (Or.inl fun r hr i hi e => hb (mem_fineBufs.2 ⟨r, hr, i, hi, e⟩))

theorem elem_not_fine (hm : m.Ok bs) (e f : Nat) : Buf.elem e f ∉ m.fineBufs := by
  intro h
  obtain ⟨r, hr, i, hi, e'⟩ := mem_fineBufs.1 h
  obtain ⟨k, hk⟩ := (fine_mortar hm hr).2 i hi
  rw [hk] at e'; cases e'

theorem fine_not_elem (hm : m.Ok bs) {r : RefRec} (hr : r ∈ m.refs) {i : Nat} (hi : i < nFace m.nd r.str) : r.fine i ∉ m.elemFaces := by
  intro h
  obtain ⟨e, _, f, _, e'⟩ := mem_elemFaces.1 h
  obtain ⟨k, hk⟩ := (fine_mortar hm hr).2 i hi
  rw [hk] at e'; cases e'

theorem refresh_spec (hm : m.Ok bs) (mu kappa : Transport) (w : World) :
    (refresh mu kappa bs m w).state = w.state ∧ (refresh mu kappa bs m w).cache = w.cache ∧
    (∀ e ∈ m.elems, ∀ f < 2 * m.nd, (refresh mu kappa bs m w).buf (.elem e f) false = writeFace (ns m.nd false mu kappa) bs m.nd (w.state e) (fun f => w.buf (.elem e f) false) f) ∧
    (∀ r ∈ m.refs, ∀ i < nFace m.nd r.str, (refresh mu kappa bs m w).buf (r.fine i) false = prolongFine bs m.nd (m.nd + 2) false r.str i ((refresh mu kappa bs m w).buf r.coarse false) (w.buf (r.fine i) false)) ∧
    (∀ b, b ∉ m.elemFaces → b ∉ m.fineBufs → (refresh mu kappa bs m w).buf b = w.buf b) ∧ ∀ b, (refresh mu kappa bs m w).buf b true = w.buf b true := by
  obtain ⟨a1, a2, a3, a4, a5⟩ := writeFaces_spec hm mu kappa w
  obtain ⟨b1, b2, b3⟩ := prolong_spec hm (ns m.nd false mu kappa) false (runWriteFace mu kappa bs m w)
  refine ⟨a1, a2, ?_, ?_, ?_, ?_⟩
  · intro e he f hf
    rw [refresh, b2 _ (elem_not_fine hm e f), a3 e he f hf]
  · intro r hr i hi
    obtain ⟨e, he, f, hf, hc⟩ := coarse_mem hm hr
    rw [refresh, b1 r hr i hi, a4 _ (fine_not_elem hm hr hi), hc, b2 _ (elem_not_fine hm e f)]
    rfl
  · intro b h1 h2
    rw [refresh, b2 b h2, a4 b h1]
  · intro b
    rw [refresh, b3, a5]

/-- Worlds with the same element data that agree where there is no storage: their faces are the same after `refresh`. -/
theorem refresh_congr (hm : m.Ok bs) (hn : 0 < bs.n) (mu kappa : Transport) {w w' : World} (hs : w.state = w'.state)
    (hb : ∀ b a, ¬(b ∈ faceStorage m ∧ a < (m.nd + 2) * bs.n ^ (m.nd - 1)) → w.buf b false a = w'.buf b false a) :
    ∀ b a, (b.isGhost = true → b ∈ faceStorage m → (m.nd + 2) * bs.n ^ (m.nd - 1) ≤ a) → (refresh mu kappa bs m w).buf b false a = (refresh mu kappa bs m w').buf b false a := by
  obtain ⟨a1, a2, a3, a4, a5, a6⟩ := refresh_spec hm mu kappa w
  obtain ⟨c1, c2, c3, c4, c5, c6⟩ := refresh_spec hm mu kappa w'
  have he : ∀ e ∈ m.elems, ∀ f < 2 * m.nd, (refresh mu kappa bs m w).buf (.elem e f) false = (refresh mu kappa bs m w').buf (.elem e f) false := by
    intro e he f hf
    funext a
    rw [a3 e he f hf, c3 e he f hf, hs]
    refine writeFace_congr _ bs hn m.nd _ _ _ f a ?_
    intro h
    refine hb _ _ fun h' => ?_
    rcases h with h | h
    · omega
    · exact absurd h'.2 (not_lt.2 h)
  intro b a hg
  by_cases h1 : b ∈ m.elemFaces
  · obtain ⟨e, hem, f, hf, rfl⟩ := mem_elemFaces.1 h1
    rw [he e hem f hf]
  · by_cases h2 : b ∈ m.fineBufs
    · obtain ⟨r, hr, i, hi, rfl⟩ := mem_fineBufs.1 h2
      obtain ⟨e, hem, f, hf, hc⟩ := coarse_mem hm hr
      rw [a4 r hr i hi, c4 r hr i hi, hc, he e hem f hf]
      exact prolongFine_congr bs hn m.nd _ _ _ _ _ _ _ a fun h => hb _ _ fun h' => absurd h'.2 (not_lt.2 h)
    · rw [a5 b h1 h2, c5 b h1 h2]
      refine hb b a ?_
      rintro ⟨h3, h4⟩
      have h5 := h3
      rw [faceStorage, List.mem_append, List.mem_append] at h5
      rcases h5 with (h5 | h5) | h5
      · exact h1 h5
      · exact h2 h5
      · exact absurd h4 (not_lt.2 (hg (List.mem_filter.1 h5).2 h3))

/-- Faces that have been written by `Write_face` and prolonged are not changed by doing so again. -/
theorem refresh_of_fresh (hm : m.Ok bs) (hn : 0 < bs.n) (mu kappa : Transport) (w : World) (g : Nat → Nat → Mem) (fi : Buf → Mem)
    (he : ∀ e ∈ m.elems, ∀ f < 2 * m.nd, w.buf (.elem e f) false = writeFace (ns m.nd false mu kappa) bs m.nd (w.state e) (g e) f)
    (hf : ∀ r ∈ m.refs, ∀ i < nFace m.nd r.str, w.buf (r.fine i) false = prolongFine bs m.nd (m.nd + 2) false r.str i (w.buf r.coarse false) (fi (r.fine i))) :
    FEq (refresh mu kappa bs m w) w := by
  obtain ⟨a1, a2, a3, a4, a5, a6⟩ := refresh_spec hm mu kappa w
  have h1 : ∀ e ∈ m.elems, ∀ f < 2 * m.nd, (refresh mu kappa bs m w).buf (.elem e f) false = w.buf (.elem e f) false := by
    intro e hem f hf'
    rw [a3 e hem f hf', he e hem f hf']
    funext a
    refine writeFace_congr _ bs hn m.nd _ _ _ f a fun h => ?_
    rw [he e hem f hf']
    exact writeFace_out _ bs hn m.nd _ _ f a h
  refine ⟨a1, a2, fun b => ?_⟩
  by_cases hb1 : b ∈ m.elemFaces
  · obtain ⟨e, hem, f, hf', rfl⟩ := mem_elemFaces.1 hb1
    exact h1 e hem f hf'
  · by_cases hb2 : b ∈ m.fineBufs
    · obtain ⟨r, hr, i, hi, rfl⟩ := mem_fineBufs.1 hb2
      obtain ⟨e, hem, f, hf', hc⟩ := coarse_mem hm hr
      rw [a4 r hr i hi, hf r hr i hi, hc, h1 e hem f hf']
      funext a
      refine prolongFine_congr bs hn m.nd _ _ _ _ _ _ _ a fun h => ?_
      exact (prolongFine_apply bs hn m.nd _ _ _ _ _ _).2 a h
    · rw [a5 b hb1 hb2]

theorem refresh_refresh (hm : m.Ok bs) (hn : 0 < bs.n) (mu kappa : Transport) (w : World) : FEq (refresh mu kappa bs m (refresh mu kappa bs m w)) (refresh mu kappa bs m w) := by
  obtain ⟨a1, a2, a3, a4, a5, a6⟩ := refresh_spec hm mu kappa w
  exact refresh_of_fresh hm hn mu kappa _ (fun e f => w.buf (.elem e f) false) (fun b => w.buf b false) (fun e he f hf => by rw [a3 e he f hf, a1]) a4

/-- A convective stage leaves fresh faces. -/
theorem convection_fresh (hm : m.Ok bs) (hn : 0 < bs.n) (mu kappa : Transport) (sr dt : ℝ) (stage filter : Bool) (w w' : World)
    (h : computeConvection (ns m.nd false mu kappa) bs m sr dt stage false filter w = some w') : FEq (refresh mu kappa bs m w') w' := by
  have h' : runProlong (ns m.nd false mu kappa) bs m false false (runLocal (ns m.nd false mu kappa) bs m ⟨if stage then dt * sr else dt, stage, false, filter⟩
      (runRestrict (ns m.nd false mu kappa) bs m true false (runNeighbor (ns m.nd false mu kappa) bs m w))) = w' := by
    simpa [computeConvection, ns] using h
  set y := runRestrict (ns m.nd false mu kappa) bs m true false (runNeighbor (ns m.nd false mu kappa) bs m w) with hy
  set o : Opts := ⟨if stage then dt * sr else dt, stage, false, filter⟩ with ho
  obtain ⟨l1, l2, l3⟩ := elems_fold m.nd (fun e => localKernel (ns m.nd false mu kappa) bs m.nd o (m.elem e)) m.elems y hm.elems_nodup
  set x := runLocal (ns m.nd false mu kappa) bs m o y with hx
  obtain ⟨b1, b2, b3⟩ := prolong_spec hm (ns m.nd false mu kappa) false x
  rw [h'] at b1 b2 b3
  have hst : w'.state = x.state := by rw [← h']; rfl
  refine refresh_of_fresh hm hn mu kappa w' (fun e f => y.buf (.elem e f) false) (fun b => x.buf b false) ?_ ?_
  · intro e he f hf
    rw [b2 _ (elem_not_fine hm e f), hst]
    have e1 := ((l1 e he).2.2 f hf).1
    have e2 := (l1 e he).1
    rw [show x.state e = _ from e2, show x.buf (.elem e f) false = _ from e1]
    rfl
  · intro r hr i hi
    obtain ⟨e, he, f, hf, hc⟩ := coarse_mem hm hr
    rw [b1 r hr i hi, hc, b2 _ (elem_not_fine hm e f)]
    rfl

/-! ## Boundary conditions and time steps -/

theorem bc_feq (nd n nvar : Nat) (rule : Rule) (cons : List ConRec) {w w' : World} (h : FEq w w') : FEq (runBc nd n nvar false rule cons w) (runBc nd n nvar false rule cons w') := by
  refine foldl_rel FEq _ ?_ _ _ _ h
  intro a a' c r
  by_cases hg : (c.side true).isGhost = true
  · simp only [if_pos hg]
    refine ⟨r.state, r.cache, fun b => ?_⟩
    dsimp only
    split
    · rw [r.buf, r.buf]
    · exact r.buf b
  · simp only [if_neg hg]; exact r

/-- Boundary conditions replace everything on ghost faces. -/
theorem bc_ghost (hm : m.Ok bs) (hn : 0 < bs.n) (rule : Rule) {w w' : World} (h1 : w.state = w'.state) (h2 : w.cache = w'.cache)
    (hb : ∀ b a, (b.isGhost = true → b ∈ faceStorage m → (m.nd + 2) * bs.n ^ (m.nd - 1) ≤ a) → w.buf b false a = w'.buf b false a) :
    FEq (runBc m.nd bs.n (m.nd + 2) false rule m.cons w) (runBc m.nd bs.n (m.nd + 2) false rule m.cons w') := by
  obtain ⟨g1, g2, g3⟩ := runBc_ghostOnly m.nd bs.n (m.nd + 2) false rule m.cons w
  obtain ⟨k1, k2, k3⟩ := runBc_ghostOnly m.nd bs.n (m.nd + 2) false rule m.cons w'
  refine ⟨by rw [g1, k1, h1], by rw [g2, k2, h2], fun b => ?_⟩
  by_cases hg : b.isGhost = true
  · by_cases hc : ∃ c ∈ m.cons, b = c.side true
    · obtain ⟨c, hc, rfl⟩ := hc
      rw [runBc_at hm.sides_nodup hc hg, runBc_at hm.sides_nodup hc hg]
      have e : w.buf (c.side false) false = w'.buf (c.side false) false := funext fun a => hb _ a fun h => by rw [hm.ghost c hc] at h; cases h
      rw [e]
      funext a
      simp only [faceBc]
      split
      · rfl
      · rename_i h
        exact hb _ a fun _ _ => by omega
    · push Not at hc
      rw [runBc_same _ _ _ _ _ _ _ _ _ (Or.inl hc), runBc_same _ _ _ _ _ _ _ _ _ (Or.inl hc)]
      funext a
      refine hb b a fun _ hs => ?_
      rw [faceStorage, List.mem_append, List.mem_append] at hs
      exfalso
      rcases hs with (hs | hs) | hs
      · obtain ⟨e, _, f, _, rfl⟩ := mem_elemFaces.1 hs; cases hg
      · obtain ⟨r, hr, i, hi, rfl⟩ := mem_fineBufs.1 hs
        obtain ⟨k, hk⟩ := (fine_mortar hm hr).2 i hi
        rw [hk] at hg; cases hg
      · have := (List.mem_filter.1 hs).1
        rw [Mesh.sides, List.mem_flatMap] at this
        obtain ⟨c, hcm, hc'⟩ := this
        simp only [List.mem_cons, List.not_mem_nil, or_false] at hc'
        rcases hc' with e | e
        · rw [e, hm.ghost c hcm] at hg; cases hg
        · exact hc c hcm e
  · have hg' : b.isGhost = false := by simpa using hg
    rw [g3 b hg', k3 b hg']
    funext a
    exact hb b a fun h => absurd h hg

end Hexed.StateFile
