import Verif.Split.Extrude
set_option autoImplicit false
set_option linter.unusedVariables false

/-!
# Lemmas: the columns of elements that `split_layers` makes
-/

namespace Hexed.Split
open Hexed.Spatial Hexed.Metric
noncomputable section

theorem splitLayers_nd {b : Basis.Nodes ℝ} (hb : b.Distinct) (hn : 0 < b.n) (nvar : Nat) (ps : List ℝ) : ∀ (prev : ℝ) (m : Mesh) (faces : List Face), 0 < prev → Usable prev ps → Layer m faces →
    (splitLayers b nvar ps prev (m, faces)).1.nd = m.nd := by
  induction ps with
  | nil => intros; rfl
  | cons p ps ih =>
    intro prev m faces hprev hu hl
    have E := extruded hb hn nvar (div_pos hu.1 hprev) (fun h => hu.2.1 ((div_eq_one_iff_eq hprev.ne').1 h)) hl
    rw [splitLayers, ih p _ _ hu.1 hu.2.2 E.layer, E.nd]

theorem splitLayers_other {b : Basis.Nodes ℝ} (hb : b.Distinct) (hn : 0 < b.n) (nvar : Nat) (ps : List ℝ) : ∀ (prev : ℝ) (m : Mesh) (faces : List Face), 0 < prev → Usable prev ps → Layer m faces →
    ∀ e < m.ne, (∀ f ∈ faces, f.elem ≠ e) → (∀ v < 2 ^ m.nd, ¬ Exposed m faces (m.vid e v)) →
      (∀ i sg, IsPart b nvar m (splitLayers b nvar ps prev (m, faces)).1 i sg e e 0 1) ∧ (splitLayers b nvar ps prev (m, faces)).1.adj e = m.adj e := by
  induction ps with
  | nil => intro prev m faces _ _ _ e he _ _; exact ⟨fun i sg => IsPart.refl b nvar i sg rfl rfl rfl (fun _ _ => rfl) rfl rfl, rfl⟩
  | cons p ps ih =>
    intro prev m faces hprev hu hl e he hne hex
    have E := extruded hb hn nvar (div_pos hu.1 hprev) (fun h => hu.2.1 ((div_eq_one_iff_eq hprev.ne').1 h)) hl
    have I := ih p _ _ hu.1 hu.2.2 E.layer e (by rw [E.ne]; omega) (fun g hg h => by
      obtain ⟨j, f, hj, rfl⟩ := newFaces_get hg
      simp only at h; omega) (by rw [E.nd]; exact E.lowFace e he)
    refine ⟨fun i sg => ?_, by rw [splitLayers, I.2, E.adjOther e he hne]⟩
    have := (E.other e he hne hex i sg).trans E.nd (I.1 i sg)
    rw [splitLayers]
    simpa using this

theorem splitLayers_column {b : Basis.Nodes ℝ} (hb : b.Distinct) (hn : 0 < b.n) (nvar : Nat) (ps : List ℝ) : ∀ (prev : ℝ) (m : Mesh) (faces : List Face), 0 < prev → Usable prev ps → Layer m faces →
    ∀ j f, faces[j]? = some f → ∀ s ≤ ps.length,
      IsPart b nvar m (splitLayers b nvar ps prev (m, faces)).1 f.i_dim f.sign f.elem (colElem m faces j f s) (bounds prev ps (s + 1) / prev) (bounds prev ps s / prev) ∧
      (Unwarped b m.nd f.i_dim (m.adj f.elem) → Unwarped b m.nd f.i_dim ((splitLayers b nvar ps prev (m, faces)).1.adj (colElem m faces j f s))) := by
  induction ps with
  | nil =>
    intro prev m faces hprev _ _ j f hj s hs
    obtain rfl : s = 0 := by simpa using hs
    refine ⟨?_, fun h => h⟩
    have := IsPart.refl b nvar (m := m) (m' := m) (e := f.elem) f.i_dim f.sign rfl rfl rfl (fun _ _ => rfl) rfl rfl
    simpa [bounds, colElem, splitLayers, hprev.ne'] using this
  | cons p ps ih =>
    intro prev m faces hprev hu hl j f hj s hs
    have hf : f ∈ faces := List.mem_of_getElem? hj
    have hjl : j < faces.length := (List.getElem?_eq_some_iff.1 hj).1
    have E := extruded hb hn nvar (div_pos hu.1 hprev) (fun h => hu.2.1 ((div_eq_one_iff_eq hprev.ne').1 h)) hl
    rw [splitLayers]
    dsimp only
    rcases s with _ | s
    · have O := splitLayers_other hb hn nvar ps p _ _ hu.1 hu.2.2 E.layer f.elem (by rw [E.ne]; have := hl.elem f hf; omega) (fun g hg h => by
        obtain ⟨j', f', hj', rfl⟩ := newFaces_get hg
        have := hl.elem f hf
        simp only at h; omega) (by rw [E.nd]; exact E.lowFace _ (hl.elem f hf))
      refine ⟨?_, fun h => ?_⟩
      · have := (E.old f hf).trans E.nd (O.1 f.i_dim f.sign)
        simpa [bounds, colElem, hprev.ne'] using this
      · simp only [colElem, if_true]
        rw [O.2]
        exact E.unwarpedOld f hf h
    · have hj' : (newFaces m faces)[j]? = some ⟨m.ne + j, f.i_dim, f.sign⟩ := by rw [newFaces, List.getElem?_mapIdx, hj]; rfl
      have I := ih p _ _ hu.1 hu.2.2 E.layer j _ hj' s (by simpa using hs)
      have hid : colElem (extrude b nvar m faces (p / prev)) (newFaces m faces) j ⟨m.ne + j, f.i_dim, f.sign⟩ s = colElem m faces j f (s + 1) := by
        simp only [colElem, E.ne, newFaces, List.length_mapIdx]
        rcases s with _ | s
        · simp
        · simp only [if_neg (Nat.succ_ne_zero _), Nat.add_sub_cancel]
          ring
      rw [hid, E.nd] at I
      refine ⟨?_, fun h => I.2 (E.unwarpedNew j f hj)⟩
      have := (E.new j f hj).trans E.nd I.1
      have hp : p ≠ 0 := hu.1.ne'
      have hpr : prev ≠ 0 := hprev.ne'
      have e : ∀ x : ℝ, 0 + (p / prev - 0) * (x / p) = x / prev := fun x => by field_simp; ring
      rw [e, e] at this
      have hb' : ∀ x, bounds prev (p :: ps) (x + 1) = bounds p ps x := fun x => rfl
      rw [hb', hb']
      exact this

end
end Hexed.Split
