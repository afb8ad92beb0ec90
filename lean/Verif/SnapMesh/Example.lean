import Verif.SnapMesh.Limits
set_option autoImplicit false
set_option linter.unusedVariables false

/-!
# A mesh to which the theorems about snapping all faces apply (C87)
-/

namespace Hexed.SnapMesh
open Hexed.Spatial Hexed.Pde
open Hexed.FaceSnap (Elem Geometry Out exNodes exNodes_distinct exLob facePoint corner straight2)
noncomputable section

theorem exLob_ends : IsLobatto exLob := by
  intro k hk
  obtain ⟨h1, h2⟩ := FaceSnap.exLob_is k hk
  refine ⟨h1, h2, by simp [exLob], ?_⟩
  have : (2 : ℝ) ≤ k := by exact_mod_cast hk
  simp only [exLob]
  rw [Nat.cast_sub (by omega), Nat.cast_one, div_self (by linarith)]

/-- Two squares side by side; their lower faces are on the surface. -/
def two2 : Setup where
  mesh := {
    nd := 2
    elems := [0, 1]
    elem _ := ⟨1, fun _ => 1, none⟩
    cons :=
      let bound (e f g : Nat) (d : Fin 3) : ConRec := ⟨true, ⟨d, d, decide (f % 2 = 1), decide (f % 2 = 0)⟩, fun s => if s then .ghost g else .elem e f, fun _ => 0⟩
      [⟨true, ⟨0, 0, true, false⟩, fun s => if s then .elem 1 0 else .elem 0 1, fun _ => 0⟩, bound 0 0 0 0, bound 0 2 1 1, bound 0 3 2 1, bound 1 1 3 0, bound 1 2 4 1, bound 1 3 5 1]
    refs := [] }
  bounds := [⟨0, 0, 0, 0, false, none⟩, ⟨0, 1, 0, 1, true, some FaceSnap.exGeom⟩, ⟨0, 1, 1, 2, false, none⟩, ⟨1, 0, 1, 3, false, none⟩, ⟨1, 1, 0, 4, true, some FaceSnap.exGeom⟩, ⟨1, 1, 1, 5, false, none⟩]
  refCons := []

/-- The square with lower corner `(e, 0)`, with adjustments `v` on the lower face. -/
def box2 (n : Nat) (e : Nat) (v : ℝ) : Elem :=
  ⟨fun k i => if i = 0 then e + (k / 2 : Nat) else (k % 2 : Nat), fun k => if 2 * n ≤ k ∧ k < 3 * n then v else 0, 1, false, false, true⟩

theorem two2_ok (bs : BasisData) : two2.mesh.Ok bs := by
  refine ⟨by decide, ?_, ?_, by decide, by decide, ?_, ?_, ?_, ?_, ?_⟩
  · intro e _; norm_num [two2]
  · intro e _ q _; simp [two2, ElemRec.det]
  · intro k r hr; simp [two2] at hr
  · intro c hc
    simp only [two2, List.mem_cons, List.not_mem_nil, or_false] at hc
    rcases hc with rfl | rfl | rfl | rfl | rfl | rfl | rfl <;> exact ⟨by decide, by simp⟩
  · intro c hc
    simp only [two2, List.mem_cons, List.not_mem_nil, or_false] at hc
    rcases hc with rfl | rfl | rfl | rfl | rfl | rfl | rfl <;> rfl
  · intro c hc s hs
    simp only [two2, List.mem_cons, List.not_mem_nil, or_false] at hc
    rcases hc with rfl | rfl | rfl | rfl | rfl | rfl | rfl <;> cases s <;> first | exact ⟨_, rfl⟩ | exact absurd hs (by simp [Buf.isGhost])
  · intro c hc hs
    simp only [two2, List.mem_cons, List.not_mem_nil, or_false] at hc
    rcases hc with rfl | rfl | rfl | rfl | rfl | rfl | rfl <;> first | (cases hs; done) | simp [Mesh.bufSize, Mesh.faceOf, two2]

theorem two2_setup : two2.Ok := by
  intro c hc
  simp only [two2, List.mem_cons, List.not_mem_nil, or_false] at hc
  rcases hc with rfl | rfl | rfl | rfl | rfl | rfl <;> simp [two2]

/-- The two faces on the surface meet at the end of the first and the start of the second. -/
theorem two2_adjacent : Adjacent two2 ⟨0, 1, 0, 1, true, some FaceSnap.exGeom⟩ ⟨1, 1, 0, 4, true, some FaceSnap.exGeom⟩ 1 0 :=
  ⟨by simp [surfaceOf, two2], by simp [surfaceOf, two2], by norm_num, _, List.mem_cons_self, rfl, false, rfl, rfl⟩

/-- Before, the faces are moved by `-v` and `-w`; afterwards they meet, half way. -/
example (v w : ℝ) (W : World) (mu kappa : Transport) (u : Nat → ℝ) :
    ∃ d', snapFaces mu kappa (exNodes 4) exLob u (ofNodes (exNodes 4)) two2 ⟨W, fun e => box2 4 e (if e = 0 then v else w)⟩ = .ok d' ∧
      d'.world.state = W.state ∧
      ∀ i < 2, facePoint (exNodes 4) 2 (d'.elem 0) 2 (fun _ => 1) i = facePoint (exNodes 4) 2 (d'.elem 1) 2 (fun _ => 0) i := by
  set d0 : Data := ⟨W, fun e => box2 4 e (if e = 0 then v else w)⟩ with hd0
  have h0 : snapAll (exNodes 4) exLob u 2 two2.bounds d0.elem = .ok d0.elem := snapAll_none (fun _ => rfl) _
  obtain ⟨d', h⟩ := snap_defined (mu := mu) (kappa := kappa) (bs := ofNodes (exNodes 4)) (d := d0) (s := two2) rfl h0
  refine ⟨d', h, ?_, ?_⟩
  · exact (state_restored (ofNodes_isOf _) (by norm_num [exNodes]) (two2_ok _) two2_setup h).1
  · intro i hi
    have hu : ∀ e z, Split.Unwarped (exNodes 4) 2 1 (box2 4 e z).adj := by
      intro e z j hj hjd σ hσ k hk
      obtain rfl : j = 0 := by omega
      simp only [exNodes] at hk ⊢
      simp only [box2]
      exact if_neg (by omega)
    have hg : ∀ (e : Nat) (c1 : Bound), c1 ∈ two2.bounds → c1.surface = true → c1.elem = e → ∀ c ∈ two2.bounds, c.elem = e → c ≠ c1 → c.surface = false ∧ c.geom = none := by
      intro e c1 h1 h2 h3 c hc hce hne
      simp only [two2, List.mem_cons, List.not_mem_nil, or_false] at hc h1
      rcases h1 with rfl | rfl | rfl | rfl | rfl | rfl <;> simp at h2 h3 <;> subst h3 <;>
        rcases hc with rfl | rfl | rfl | rfl | rfl | rfl <;> simp at hce hne ⊢
    have hco : ∀ σ < 2, corner 2 1 σ (d0.elem 0) (fun _ => ((1 : Nat) : ℝ)) = corner 2 1 σ (d0.elem 1) (fun _ => ((0 : Nat) : ℝ)) := by
      intro σ hσ
      funext i
      rw [corner, corner]
      split_ifs with hi
      · rw [FaceSnap.straight, FaceSnap.straight, FaceSnap.sum1, FaceSnap.sum1]
        simp only [Fin.sum_univ_two, FaceSnap.idx1, FaceSnap.prod1]
        rcases (by omega : σ = 0 ∨ σ = 1) with rfl | rfl <;> rcases (by omega : i = 0 ∨ i = 1) with rfl | rfl <;> norm_num [pt, hd0, box2]
      · rfl
    exact_mod_cast watertight (ofNodes_isOf _) (exNodes_distinct 4) (by norm_num [exNodes]) exLob_ends (two2_ok _) rfl two2_setup h two2_adjacent rfl rfl (hg 0 _ (by simp [two2]) rfl rfl) (hg 1 _ (by simp [two2]) rfl rfl) (hu _ _) (hu _ _)
      (hco 0 (by norm_num)) (hco 1 (by norm_num)) i hi

end
end Hexed.SnapMesh
