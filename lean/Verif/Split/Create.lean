import Verif.Split.Parts
set_option autoImplicit false
set_option linter.unusedVariables false

/-!
# Lemmas: the mesh after all extruded elements have been created and the exposed vertices have been moved
-/

namespace Hexed.Split
open Hexed.Spatial Hexed.Metric
open Hexed.RowIndex (RowIndex rows)
noncomputable section

theorem iCollapse_pt {nd : Nat} {f : Face} {k σ : Nat} (hσ : σ < 2) : iCollapse nd f (pt nd 2 f.i_dim k σ) = pt nd 2 f.i_dim k f.sign.toNat := by
  have h := pt_digit_self (nd := nd) (d := f.i_dim) (k := k) (n := 2) (by norm_num) hσ
  simp only [iCollapse]
  rw [h]
  simp only [pt]
  have hs : f.sign.toNat < 2 := Bool.toNat_lt _
  generalize f.sign.toNat = s at *
  generalize 2 ^ (nd - 1 - f.i_dim) = st at *
  have : (((k / st * 2 + σ) * st + k % st : Nat) : Int) + ((s : Int) - (σ : Int)) * (st : Int) = (((k / st * 2 + s) * st + k % st : Nat) : Int) := by
    push_cast; ring
  rw [this, Int.toNat_natCast]

/-- What the creation of the elements does. -/
structure Created (b : Basis.Nodes ℝ) (nvar : Nat) (o : ℝ) (m : Mesh) (faces : List Face) (m1 : Mesh) : Prop where
  nd : m1.nd = m.nd
  ne : m1.ne = m.ne + faces.length
  nv : m1.nv = m.nv + faces.length * 2 ^ m.nd
  moved : m1.moved = m.moved
  vidOld : ∀ e < m.ne, m1.vid e = m.vid e
  sizeOld : ∀ e < m.ne, m1.size e = m.size e
  posOld : ∀ v < m.nv, m1.pos v = m.pos v
  rest : ∀ e, (∀ f ∈ faces, f.elem ≠ e) → (∀ j < faces.length, e ≠ m.ne + j) → m1.adj e = m.adj e ∧ m1.state e = m.state e
  adj : ∀ j f, faces[j]? = some f → (m1.adj f.elem, m1.adj (m.ne + j)) = splitAdj (b.n ^ m.nd / b.n) f o (m.adj f.elem, m.adj (m.ne + j))
  state : ∀ j f, faces[j]? = some f → (m1.state f.elem, m1.state (m.ne + j)) = splitState b m.nd nvar f o (m.state f.elem, m.state (m.ne + j))
  size : ∀ j f, faces[j]? = some f → m1.size (m.ne + j) = m.size f.elem
  vid : ∀ j f, faces[j]? = some f → ∀ v, m1.vid (m.ne + j) v =
    if (v / 2 ^ (m.nd - 1 - f.i_dim) % 2 = 1) = (f.sign = true) then m.nv + j * 2 ^ m.nd + v else m.vid f.elem (iCollapse m.nd f v)
  pos : ∀ j f, faces[j]? = some f → ∀ v < 2 ^ m.nd, m.vid f.elem (iCollapse m.nd f v) < m.nv → m1.pos (m.nv + j * 2 ^ m.nd + v) = m.pos (m.vid f.elem (iCollapse m.nd f v))

theorem created (b : Basis.Nodes ℝ) (nvar : Nat) {o : ℝ} (ho : 0 < o) (m : Mesh) (faces : List Face) (hel : ∀ f ∈ faces, f.elem < m.ne) (hone : faces.Pairwise fun f g => f.elem ≠ g.elem) :
    Created b nvar o m faces (faces.foldl (create b nvar o) m) := by
  induction faces using List.reverseRecOn with
  | nil => exact ⟨rfl, rfl, by simp, rfl, fun _ _ => rfl, fun _ _ => rfl, fun _ _ => rfl, fun _ _ _ => ⟨rfl, rfl⟩, by simp, by simp, by simp, by simp, by simp⟩
  | append_singleton l f ih =>
    have hp := List.pairwise_append.1 hone
    have I := ih (fun g hg => hel g (List.mem_append_left _ hg)) hp.1
    have hf : f.elem < m.ne := hel f (by simp)
    have hne : ∀ g ∈ l, g.elem ≠ f.elem := fun g hg => hp.2.2 g hg f (by simp)
    have hlt : ∀ g ∈ l, g.elem < m.ne := fun g hg => hel g (List.mem_append_left _ hg)
    rw [List.foldl_append, List.foldl_cons, List.foldl_nil]
    set m0 := l.foldl (create b nvar o) m with hm0
    have hnew : m0.ne = m.ne + l.length := I.ne
    have ev : m0.vid f.elem = m.vid f.elem := I.vidOld _ hf
    have er := I.rest f.elem hne (fun j hj => by omega)
    have ern := I.rest m0.ne (fun g hg => by have := hlt g hg; omega) (fun j hj => by omega)
    have idx : ∀ j g, (l ++ [f])[j]? = some g → (j < l.length ∧ l[j]? = some g ∧ g ∈ l) ∨ (j = l.length ∧ g = f) := by
      intro j g h
      by_cases hj : j < l.length
      · rw [List.getElem?_append_left hj] at h
        exact Or.inl ⟨hj, h, List.mem_of_getElem? h⟩
      · rw [List.getElem?_append_right (by omega)] at h
        obtain ⟨h1, h2⟩ := List.getElem?_eq_some_iff.1 h
        simp only [List.length_singleton] at h1
        refine Or.inr ⟨by omega, ?_⟩
        simp only [List.getElem_singleton] at h2
        exact h2.symm
    refine ⟨I.nd, ?_, ?_, I.moved, ?_, ?_, ?_, ?_, ?_, ?_, ?_, ?_, ?_⟩
    · simp only [create, List.length_append, List.length_singleton]; omega
    · simp only [create, List.length_append, List.length_singleton]; rw [I.nv, I.nd]; ring
    · intro e he
      simp only [create]
      rw [Function.update_of_ne (by omega), I.vidOld e he]
    · intro e he
      simp only [create]
      rw [Function.update_of_ne (by omega), I.sizeOld e he]
    · intro v hv
      simp only [create]
      rw [if_neg (by have := I.nv; omega), I.posOld v hv]
    · intro e h1 h2
      simp only [create]
      have a1 : e ≠ m0.ne := by rw [hnew]; exact h2 _ (by simp)
      have a2 : e ≠ f.elem := fun h => h1 f (by simp) h.symm
      rw [Function.update_of_ne a1, Function.update_of_ne a2, Function.update_of_ne a1, Function.update_of_ne a2]
      exact I.rest e (fun g hg => h1 g (List.mem_append_left _ hg)) fun j hj => h2 j (by simp; omega)
    · intro j g hg
      rcases idx j g hg with ⟨hj, h, hmem⟩ | ⟨rfl, rfl⟩
      · have b1 : g.elem ≠ m0.ne := by have := hlt g hmem; omega
        have b2 : m.ne + j ≠ m0.ne := by omega
        have b3 : m.ne + j ≠ f.elem := by omega
        simp only [create]
        rw [Function.update_of_ne b1, Function.update_of_ne (hne g hmem), Function.update_of_ne b2, Function.update_of_ne b3]
        exact I.adj j g h
      · have b1 : g.elem ≠ m0.ne := by omega
        simp only [create]
        rw [Function.update_of_ne b1, Function.update_self, ← hnew, Function.update_self, if_pos ho, er.1, ern.1, I.nd]
    · intro j g hg
      rcases idx j g hg with ⟨hj, h, hmem⟩ | ⟨rfl, rfl⟩
      · have b1 : g.elem ≠ m0.ne := by have := hlt g hmem; omega
        have b2 : m.ne + j ≠ m0.ne := by omega
        have b3 : m.ne + j ≠ f.elem := by omega
        simp only [create]
        rw [Function.update_of_ne b1, Function.update_of_ne (hne g hmem), Function.update_of_ne b2, Function.update_of_ne b3]
        exact I.state j g h
      · have b1 : g.elem ≠ m0.ne := by omega
        simp only [create]
        rw [Function.update_of_ne b1, Function.update_self, ← hnew, Function.update_self, if_pos ho, er.2, ern.2, I.nd]
    · intro j g hg
      rcases idx j g hg with ⟨hj, h, hmem⟩ | ⟨rfl, rfl⟩
      · simp only [create]
        rw [Function.update_of_ne (by omega)]; exact I.size j g h
      · simp only [create]
        rw [← hnew, Function.update_self]; exact I.sizeOld _ hf
    · intro j g hg v
      rcases idx j g hg with ⟨hj, h, hmem⟩ | ⟨rfl, rfl⟩
      · simp only [create]
        rw [Function.update_of_ne (by omega)]; exact I.vid j g h v
      · simp only [create]
        rw [← hnew, Function.update_self, I.nd, I.nv, ev]
    · intro j g hg v hv hlt'
      rcases idx j g hg with ⟨hj, h, hmem⟩ | ⟨rfl, rfl⟩
      · simp only [create]
        rw [if_neg, I.pos j g h v hv hlt']
        rintro ⟨h1, _⟩
        rw [I.nv] at h1
        have : (j + 1) * 2 ^ m.nd ≤ l.length * 2 ^ m.nd := Nat.mul_le_mul_right _ hj
        rw [Nat.add_mul, Nat.one_mul] at this
        omega
      · simp only [create]
        rw [if_pos (by rw [I.nv, I.nd]; omega), I.nv, I.nd, ev, Nat.add_sub_cancel_left, I.posOld _ hlt']

/-! ## Moving vertices -/

/-- One pair of a vertex to move and the vertex it moves towards. -/
def moveStep (nd : Nat) (o : ℝ) (s : (Nat → Nat → ℝ) × (Nat → Bool)) (p : Nat × Nat) : (Nat → Nat → ℝ) × (Nat → Bool) :=
  if s.2 p.1 then s else (Function.update s.1 p.1 fun c => if c < nd then (1 - o) * s.1 p.1 c + o * s.1 p.2 c else s.1 p.1 c, Function.update s.2 p.1 true)

/-- The pairs of a face. -/
def facePairs (m : Mesh) (f : Face) : List (Nat × Nat) := (List.range (2 ^ (m.nd - 1))).map fun k => (m.vid f.elem (pt m.nd 2 f.i_dim k f.sign.toNat), m.vid f.elem (pt m.nd 2 f.i_dim k (!f.sign).toNat))

theorem offsetFace_eq (o : ℝ) (m : Mesh) (f : Face) (hf : f.i_dim < m.nd) :
    offsetFace o m f = { m with pos := ((facePairs m f).foldl (moveStep m.nd o) (m.pos, m.moved)).1, moved := ((facePairs m f).foldl (moveStep m.nd o) (m.pos, m.moved)).2 } := by
  rw [offsetFace, rows_new m.nd 2 f.i_dim (by norm_num) hf, List.foldl_map, facePairs, List.foldl_map]
  generalize List.range (2 ^ (m.nd - 1)) = l
  have : ∀ (l : List Nat) (m' : Mesh), m'.nd = m.nd → m'.vid = m.vid →
      l.foldl (fun (m : Mesh) k =>
        let vert := m.vid f.elem ((RowIndex.after m'.nd 2 f.i_dim k).i_qpoint f.sign.toNat)
        let off_vert := m.vid f.elem ((RowIndex.after m'.nd 2 f.i_dim k).i_qpoint (!f.sign).toNat)
        if m.moved vert then m
        else { m with
          moved := Function.update m.moved vert true
          pos := Function.update m.pos vert fun i_dim =>
            if i_dim < m.nd then (1 - o) * m.pos vert i_dim + o * m.pos off_vert i_dim else m.pos vert i_dim }) m' =
      { m' with
        pos := (l.foldl (fun s k => moveStep m.nd o s (m.vid f.elem (pt m.nd 2 f.i_dim k f.sign.toNat), m.vid f.elem (pt m.nd 2 f.i_dim k (!f.sign).toNat))) (m'.pos, m'.moved)).1
        moved := (l.foldl (fun s k => moveStep m.nd o s (m.vid f.elem (pt m.nd 2 f.i_dim k f.sign.toNat), m.vid f.elem (pt m.nd 2 f.i_dim k (!f.sign).toNat))) (m'.pos, m'.moved)).2 } := by
    intro l
    induction l with
    | nil => intro m' _ _; rfl
    | cons k l ih =>
      intro m' h1 h2
      simp only [List.foldl_cons, qpoint_pt m'.nd 2 f.i_dim (by norm_num) (h1 ▸ hf)]
      by_cases hm : m'.moved (m'.vid f.elem (pt m'.nd 2 f.i_dim k f.sign.toNat))
      · have e1 : moveStep m.nd o (m'.pos, m'.moved) (m.vid f.elem (pt m.nd 2 f.i_dim k f.sign.toNat), m.vid f.elem (pt m.nd 2 f.i_dim k (!f.sign).toNat)) = (m'.pos, m'.moved) := by
          rw [moveStep, if_pos (by rw [← h1, ← h2]; exact hm)]
        rw [if_pos hm, e1]
        have := ih m' h1 h2
        simp only [qpoint_pt m'.nd 2 f.i_dim (by norm_num) (h1 ▸ hf)] at this
        exact this
      · rw [if_neg hm, moveStep, if_neg (by rw [← h1, ← h2]; exact hm)]
        have := ih { m' with
          moved := Function.update m'.moved (m'.vid f.elem (pt m'.nd 2 f.i_dim k f.sign.toNat)) true
          pos := Function.update m'.pos (m'.vid f.elem (pt m'.nd 2 f.i_dim k f.sign.toNat)) fun i_dim =>
            if i_dim < m'.nd then (1 - o) * m'.pos (m'.vid f.elem (pt m'.nd 2 f.i_dim k f.sign.toNat)) i_dim + o * m'.pos (m'.vid f.elem (pt m'.nd 2 f.i_dim k (!f.sign).toNat)) i_dim
            else m'.pos (m'.vid f.elem (pt m'.nd 2 f.i_dim k f.sign.toNat)) i_dim } h1 h2
        simp only [qpoint_pt m'.nd 2 f.i_dim (by norm_num) (h1 ▸ hf)] at this
        rw [this]
        simp only [h1, h2]
  exact this l m rfl rfl

theorem offset_fold (o : ℝ) (faces : List Face) (m : Mesh) (hf : ∀ f ∈ faces, f.i_dim < m.nd) :
    faces.foldl (offsetFace o) m = { m with pos := ((faces.flatMap (facePairs m)).foldl (moveStep m.nd o) (m.pos, m.moved)).1, moved := ((faces.flatMap (facePairs m)).foldl (moveStep m.nd o) (m.pos, m.moved)).2 } := by
  induction faces generalizing m with
  | nil => rfl
  | cons f l ih =>
    rw [List.foldl_cons, offsetFace_eq o m f (hf f (by simp))]
    refine (ih { m with pos := ((facePairs m f).foldl (moveStep m.nd o) (m.pos, m.moved)).1, moved := ((facePairs m f).foldl (moveStep m.nd o) (m.pos, m.moved)).2 }
      fun g hg => hf g (List.mem_cons_of_mem _ hg)).trans ?_
    rw [List.flatMap_cons, List.foldl_append]
    rfl

/-- Every listed vertex moves once. -/
theorem moves (nd : Nat) (o : ℝ) (l : List (Nat × Nat)) (pos : Nat → Nat → ℝ) (moved : Nat → Bool)
    (hap : ∀ p ∈ l, ∀ p' ∈ l, p.2 ≠ p'.1) (hsame : ∀ p ∈ l, ∀ p' ∈ l, p.1 = p'.1 → p.2 = p'.2) :
    (∀ p ∈ l, moved p.1 = false → (l.foldl (moveStep nd o) (pos, moved)).1 p.1 = fun c => if c < nd then (1 - o) * pos p.1 c + o * pos p.2 c else pos p.1 c) ∧
    ∀ v, (moved v = true ∨ ∀ p ∈ l, v ≠ p.1) → (l.foldl (moveStep nd o) (pos, moved)).1 v = pos v := by
  induction l generalizing pos moved with
  | nil => simp
  | cons p l ih =>
    rw [List.foldl_cons]
    have hap' : ∀ q ∈ l, ∀ q' ∈ l, q.2 ≠ q'.1 := fun q hq q' hq' => hap q (by simp [hq]) q' (by simp [hq'])
    have hs' : ∀ q ∈ l, ∀ q' ∈ l, q.1 = q'.1 → q.2 = q'.2 := fun q hq q' hq' => hsame q (by simp [hq]) q' (by simp [hq'])
    by_cases hm : moved p.1 = true
    · rw [moveStep, if_pos (show (pos, moved).2 p.1 = true from hm)]
      obtain ⟨i1, i2⟩ := ih pos moved hap' hs'
      refine ⟨fun q hq hqm => ?_, fun v hv => ?_⟩
      · rcases List.mem_cons.1 hq with rfl | hq
        · rw [hm] at hqm; cases hqm
        · exact i1 q hq hqm
      · exact i2 v (hv.imp_right fun h q hq => h q (by simp [hq]))
    · rw [moveStep, if_neg (show ¬ (pos, moved).2 p.1 = true from hm)]
      obtain ⟨i1, i2⟩ := ih (Function.update pos p.1 fun c => if c < nd then (1 - o) * pos p.1 c + o * pos p.2 c else pos p.1 c) (Function.update moved p.1 true) hap' hs'
      refine ⟨fun q hq hqm => ?_, fun v hv => ?_⟩
      · by_cases hqp : q.1 = p.1
        · rw [i2 q.1 (Or.inl (by rw [hqp, Function.update_self])), hqp, Function.update_self, hsame q hq p (by simp) hqp]
        · rcases List.mem_cons.1 hq with rfl | hq'
          · exact absurd rfl hqp
          · rw [i1 q hq' (by rw [Function.update_of_ne hqp]; exact hqm), Function.update_of_ne hqp, Function.update_of_ne (hap q hq p (by simp))]
      · have hvp : v ≠ p.1 := by
          rcases hv with h | h
          · rintro rfl; exact hm h
          · exact h p (by simp)
        rw [i2 v (by
          rw [Function.update_of_ne hvp]
          exact hv.imp_right fun h q hq => h q (by simp [hq])), Function.update_of_ne hvp]

end
end Hexed.Split
