import Verif.Connection.Lemmas
set_option autoImplicit false
set_option linter.unusedVariables false

/-!
# Properties of connections (C23, C42)
-/

namespace Hexed.Connection
open Matrix

/-- Two legal faces determine the rotation between the two elements. -/
theorem frame_exists_unique {nd : Nat} {d : Dir} (h : Legal nd d) : ∃! R, IsFrame d R :=
  ⟨frameOf d, frameOf_isFrame h, fun R hR => frame_unique hR⟩

/-- `vertex_inds` lists the vertices of side 0's face in order, all the vertices of side 1's face, and puts at the same place
vertices that coincide in space. -/
theorem vertex_inds_exact {nd : Nat} (hnd : 1 ≤ nd ∧ nd ≤ 3) {d : Dir} (h : Legal nd d) :
    ∃ l0 l1, vertexInds nd d = some (l0, l1) ∧
      l0 = (List.range (2 ^ nd)).filter (fun v => coord nd v d.i0 = d.s0.toNat) ∧
      l1.Perm ((List.range (2 ^ nd)).filter fun v => coord nd v d.i1 = d.s1.toNat) ∧
      ∀ R, IsFrame d R → ∀ p ∈ l0.zip l1, Corresponds nd d R (corner nd p.1) (corner nd p.2) := by
  have key : ∀ nd ∈ [1, 2, 3], ∀ (i0 i1 : Fin 3) (s0 s1 : Bool), Legal nd ⟨i0, i1, s0, s1⟩ →
      ∃ l ∈ (vertexInds nd ⟨i0, i1, s0, s1⟩).toList,
        l.1 = (List.range (2 ^ nd)).filter (fun v => coord nd v i0 = s0.toNat) ∧
        l.2.Perm ((List.range (2 ^ nd)).filter fun v => coord nd v i1 = s1.toNat) ∧
        ∀ p ∈ l.1.zip l.2, ∀ k : Fin 3, k.val < nd → k ≠ i1 → corner nd p.2 k = (frameOf ⟨i0, i1, s0, s1⟩ *ᵥ corner nd p.1) k := by
    decide +kernel
  obtain ⟨l, hl, h1, h2, h3⟩ := key nd (by simp; omega) d.i0 d.i1 d.s0 d.s1 h
  refine ⟨l.1, l.2, by simpa using hl, h1, h2, ?_⟩
  intro R hR
  rw [frame_unique hR]
  exact h3

example : Legal 3 ⟨0, 2, true, false⟩ := by decide
example : vertexInds 3 ⟨0, 2, true, false⟩ = some ([4, 5, 6, 7], [4, 0, 6, 2]) := by decide

/-- Where `match_faces` takes its data from. -/
theorem matchFaces_eq {K : Type} (nd n nvar : Nat) (hnd : 1 ≤ nd ∧ nd ≤ 3) (hn : 0 < n) (d : Dir) (mem : Nat → K) (iv r : Nat) (hv : iv < nvar)
    (hr : r < n ^ (nd - 1)) :
    matchFaces nd n nvar d mem (iv * n ^ (nd - 1) + r) = mem (iv * n ^ (nd - 1) + tπ nd n d (fπ nd n d r)) := by
  have hpos : 0 < n ^ (nd - 1) := by positivity
  have lt : ∀ s, s < n ^ (nd - 1) → iv * n ^ (nd - 1) + s < nvar * n ^ (nd - 1) := by
    intro s hs
    have : (iv + 1) * n ^ (nd - 1) ≤ nvar * n ^ (nd - 1) := Nat.mul_le_mul_right _ hv
    rw [Nat.add_mul] at this; omega
  have e1 : ∀ s, s < n ^ (nd - 1) → (iv * n ^ (nd - 1) + s) / n ^ (nd - 1) = iv := by
    intro s hs; rw [Nat.add_comm, Nat.add_mul_div_right _ _ hpos, Nat.div_eq_of_lt hs]; omega
  have e2 : ∀ s, s < n ^ (nd - 1) → (iv * n ^ (nd - 1) + s) % n ^ (nd - 1) = s := by
    intro s hs; rw [Nat.add_comm, Nat.add_mul_mod_self_right, Nat.mod_eq_of_lt hs]
  have hf := fπ_lt nd n hnd d r hr
  rw [matchFaces, flipData_eq nd n nvar hnd, if_pos (lt r hr), e1 r hr, e2 r hr, transposeData_eq nd n nvar hnd, if_pos (lt _ hf), e1 _ hf, e2 _ hf]

theorem divmod_of {n a b : Nat} (hb : b < n) : (a * n + b) / n = a ∧ (a * n + b) % n = b := by
  have hn : 0 < n := by omega
  constructor
  · rw [Nat.add_comm, Nat.add_mul_div_right _ _ hn, Nat.div_eq_of_lt hb]; omega
  · rw [Nat.add_comm, Nat.add_mul_mod_self_right, Nat.mod_eq_of_lt hb]

theorem faceIdx_20 (n : Nat) (x : Fin 3 → Nat) : faceIdx 2 n 0 x = x 1 := by show 0 * n + x 1 = _; simp
theorem faceIdx_21 (n : Nat) (x : Fin 3 → Nat) : faceIdx 2 n 1 x = x 0 := by show 0 * n + x 0 = _; simp
theorem faceIdx_30 (n : Nat) (x : Fin 3 → Nat) : faceIdx 3 n 0 x = x 1 * n + x 2 := by show (0 * n + x 1) * n + x 2 = _; simp
theorem faceIdx_31 (n : Nat) (x : Fin 3 → Nat) : faceIdx 3 n 1 x = x 0 * n + x 2 := by show (0 * n + x 0) * n + x 2 = _; simp
theorem faceIdx_32 (n : Nat) (x : Fin 3 → Nat) : faceIdx 3 n 2 x = x 0 * n + x 1 := by show (0 * n + x 0) * n + x 1 = _; simp

theorem match_index {nd n : Nat} (hnd : 1 ≤ nd ∧ nd ≤ 3) {d : Dir} (h : Legal nd d) {x y : Fin 3 → Nat} (hx : ∀ k, x k < n) (hy : ∀ k, y k < n)
    (hc : Corresponds nd d (frameOf d) (point nd n x) (point nd n y)) :
    faceIdx nd n d.i0 x < n ^ (nd - 1) ∧ tπ nd n d (fπ nd n d (faceIdx nd n d.i0 x)) = faceIdx nd n d.i1 y := by
  obtain ⟨i0, i1, s0, s1⟩ := d
  have hx0 := hx 0
  have hx1 := hx 1
  have hx2 := hx 2
  have hy0 := hy 0
  have hy1 := hy 1
  have hy2 := hy 2
  have c0 := hc 0
  have c1 := hc 1
  have c2 := hc 2
  clear hc hx hy
  obtain ⟨g0, g1, g2⟩ := h
  have sq : ∀ {a b : Nat}, a < n → b < n → a * n + b < n ^ 2 := fun ha hb => by rw [pow_two]; exact lt_sq ha hb
  have hdm1 : ∀ {a b : Nat}, b < n → (a * n + b) / n = a := fun hb => (divmod_of hb).1
  have hdm2 : ∀ {a b : Nat}, b < n → (a * n + b) % n = b := fun hb => (divmod_of hb).2
  obtain ⟨h1, h3⟩ := hnd
  interval_cases nd
  · fin_cases i0 <;> fin_cases i1 <;> simp at g0 g1
    refine ⟨by show 0 < _; simp, ?_⟩
    show tπ 1 n _ (fπ 1 n _ 0) = 0
    simp [tπ, fπ]
  · fin_cases i0 <;> fin_cases i1 <;> simp at g0 g1 <;> cases s0 <;> cases s1 <;> simp at g2 <;>
      simp [faceIdx_20, faceIdx_21, tπ, fπ, Dir.flipTangential, Dir.flipNormal, Dir.faceSign, Dir.transpose, Matrix.mulVec, dotProduct,
        Fin.sum_univ_three, frameOf, frameG, sg, point] at c0 c1 c2 ⊢ <;> omega
  · have ext1 : ∀ {a b a' b' : Nat}, a = a' → b = b' → a * n + b = a' * n + b' := by rintro _ _ _ _ rfl rfl; rfl
    fin_cases i0 <;> fin_cases i1 <;> cases s0 <;> cases s1 <;> simp at g2 <;>
      simp [faceIdx_30, faceIdx_31, faceIdx_32, tπ, fπ, Dir.flipTangential, Dir.flipNormal, Dir.faceSign, Dir.transpose, Matrix.mulVec, dotProduct,
        Fin.sum_univ_three, frameOf, frameG, sg, point, hdm1 hx0, hdm1 hx1, hdm1 hx2, hdm2 hx0, hdm2 hx1, hdm2 hx2, hdm1 (rev_lt hx0), hdm1 (rev_lt hx1), hdm1 (rev_lt hx2),
        hdm2 (rev_lt hx0), hdm2 (rev_lt hx1), hdm2 (rev_lt hx2)] at c0 c1 c2 ⊢ <;>
      exact ⟨sq (by assumption) (by assumption), ext1 (by omega) (by omega)⟩

/-- `match_faces` brings the data of side 1's face into the order of side 0's face: for every row size `n`, every variable `iv` and
every pair of corresponding face points. Memory after the face data is not touched. -/
theorem match_faces_exact {K : Type} {nd n nvar : Nat} (hnd : 1 ≤ nd ∧ nd ≤ 3) {d : Dir} (h : Legal nd d) {R : Matrix (Fin 3) (Fin 3) ℤ}
    (hR : IsFrame d R) (mem : Nat → K) :
    (∀ (iv : Nat) (x y : Fin 3 → Nat), iv < nvar → (∀ k, x k < n) → (∀ k, y k < n) → Corresponds nd d R (point nd n x) (point nd n y) →
      matchFaces nd n nvar d mem (iv * n ^ (nd - 1) + faceIdx nd n d.i0 x) = mem (iv * n ^ (nd - 1) + faceIdx nd n d.i1 y)) ∧
    ∀ j, nvar * n ^ (nd - 1) ≤ j → matchFaces nd n nvar d mem j = mem j := by
  constructor
  · intro iv x y hv hx hy hc
    rw [frame_unique hR] at hc
    obtain ⟨h1, h2⟩ := match_index hnd h hx hy hc
    rw [matchFaces_eq nd n nvar hnd (Nat.zero_lt_of_lt (hx 0)) d mem iv _ hv h1, h2]
  · intro j hj
    rw [matchFaces, flipData_eq nd n nvar hnd, if_neg (by omega), transposeData_eq nd n nvar hnd, if_neg (by omega)]

/-- Every face point has a corresponding one on the other side. -/
theorem corresponding_exists {nd n : Nat} (hnd : 1 ≤ nd ∧ nd ≤ 3) {d : Dir} (h : Legal nd d) {R : Matrix (Fin 3) (Fin 3) ℤ} (hR : IsFrame d R)
    {x : Fin 3 → Nat} (hx : ∀ k, x k < n) : ∃ y : Fin 3 → Nat, (∀ k, y k < n) ∧ Corresponds nd d R (point nd n x) (point nd n y) := by
  rw [frame_unique hR]
  refine ⟨fun k => if d.i0 = d.i1 then x k else if k = d.i0 then (if d.s0 = d.s1 then x d.i1 else n - 1 - x d.i1) else if k = d.i1 then x d.i0 else x k, ?_, ?_⟩
  · intro k
    have := hx k
    have := hx d.i1
    have := hx d.i0
    dsimp only
    split
    · assumption
    · split
      · split <;> omega
      · split <;> assumption
  · intro k hk hk1
    have h1 := hx k
    have h2 := hx d.i1
    obtain ⟨i0, i1, s0, s1⟩ := d
    obtain ⟨g0, g1, g2⟩ := h
    simp only at g0 g1 g2 hk1 h2 ⊢
    by_cases hd : i0 = i1
    · subst hd
      rw [Matrix.mulVec, dotProduct, Finset.sum_eq_single k]
      · simp [point, hk, frameOf, frameG, hk1]
      · intro b _ hb; simp [frameOf, frameG, Ne.symm hb]
      · simp
    · by_cases hk0 : k = i0
      · subst hk0
        have e : (frameOf ⟨k, i1, s0, s1⟩ *ᵥ point nd n x) k = sg s0 * sg s1 * point nd n x i1 := by
          rw [Matrix.mulVec, dotProduct, Finset.sum_eq_single i1]
          · simp [frameOf, frameG, hd, Ne.symm hd]
          · intro b _ hb
            by_cases hbk : b = k
            · subst hbk; simp [frameOf, frameG, hd]
            · simp [frameOf, frameG, hd, hb, hbk, Ne.symm hbk]
          · simp
        rw [e]
        cases s0 <;> cases s1 <;> simp [point, hd, hk, g1, sg] <;> omega
      · have e : (frameOf ⟨i0, i1, s0, s1⟩ *ᵥ point nd n x) k = point nd n x k := by
          rw [Matrix.mulVec, dotProduct, Finset.sum_eq_single k]
          · simp [frameOf, frameG, hd, hk0, hk1]
          · intro b _ hb
            by_cases hb0 : b = i0
            · subst hb0; simp [frameOf, frameG, hd, hk1]
            · by_cases hb1 : b = i1
              · subst hb1; simp [frameOf, frameG, hd, hb0, hk0]
              · simp [frameOf, frameG, hd, hb0, hb1, Ne.symm hb]
          · simp
        rw [e]
        simp [point, hd, hk0, hk1]

/-- Match, then restore: nothing has changed. Restore, then match: likewise. -/
theorem restore_match {K : Type} {nd n nvar : Nat} (hnd : 1 ≤ nd ∧ nd ≤ 3) (d : Dir) (mem : Nat → K) :
    restore nd n nvar d (matchFaces nd n nvar d mem) = mem ∧ matchFaces nd n nvar d (restore nd n nvar d mem) = mem := by
  have hdm : ∀ (s r : Nat), s < n ^ (nd - 1) → (r * n ^ (nd - 1) + s) / n ^ (nd - 1) = r ∧ (r * n ^ (nd - 1) + s) % n ^ (nd - 1) = s :=
    fun s r hs => divmod_of hs
  have ft : ∀ mem : Nat → K, flipData nd n nvar d (flipData nd n nvar d mem) = mem := by
    intro mem
    funext j
    rw [flipData_eq nd n nvar hnd]
    split
    · rename_i hj
      have hpos : 0 < n ^ (nd - 1) := by by_contra h0; simp only [not_lt, Nat.le_zero] at h0; simp [h0] at hj
      have hr := Nat.mod_lt j hpos
      have hf := fπ_lt nd n hnd d _ hr
      obtain ⟨e1, e2⟩ := hdm _ (j / n ^ (nd - 1)) hf
      have hlt : j / n ^ (nd - 1) * n ^ (nd - 1) + fπ nd n d (j % n ^ (nd - 1)) < nvar * n ^ (nd - 1) := by
        have : j / n ^ (nd - 1) < nvar := Nat.div_lt_of_lt_mul (by rwa [Nat.mul_comm] at hj)
        have h2 : (j / n ^ (nd - 1) + 1) * n ^ (nd - 1) ≤ nvar * n ^ (nd - 1) := Nat.mul_le_mul_right _ this
        rw [Nat.add_mul] at h2; omega
      rw [flipData_eq nd n nvar hnd, if_pos hlt, e1, e2, fπ_fπ nd n d _ hr, Nat.div_add_mod']
    · rename_i hj
      rw [flipData_eq nd n nvar hnd, if_neg hj]
  have tt : ∀ mem : Nat → K, transposeData nd n nvar d (transposeData nd n nvar d mem) = mem := by
    intro mem
    funext j
    rw [transposeData_eq nd n nvar hnd]
    split
    · rename_i hj
      have hpos : 0 < n ^ (nd - 1) := by by_contra h0; simp only [not_lt, Nat.le_zero] at h0; simp [h0] at hj
      have hr := Nat.mod_lt j hpos
      have hf := tπ_lt nd n hnd d _ hr
      obtain ⟨e1, e2⟩ := hdm _ (j / n ^ (nd - 1)) hf
      have hlt : j / n ^ (nd - 1) * n ^ (nd - 1) + tπ nd n d (j % n ^ (nd - 1)) < nvar * n ^ (nd - 1) := by
        have : j / n ^ (nd - 1) < nvar := Nat.div_lt_of_lt_mul (by rwa [Nat.mul_comm] at hj)
        have h2 : (j / n ^ (nd - 1) + 1) * n ^ (nd - 1) ≤ nvar * n ^ (nd - 1) := Nat.mul_le_mul_right _ this
        rw [Nat.add_mul] at h2; omega
      rw [transposeData_eq nd n nvar hnd, if_pos hlt, e1, e2, tπ_tπ nd n d _ hr, Nat.div_add_mod']
    · rename_i hj
      rw [transposeData_eq nd n nvar hnd, if_neg hj]
  simp only [restore, matchFaces]
  rw [ft, tt, tt, ft]
  exact ⟨rfl, rfl⟩

/-! ## Hanging-node connections -/

/-- Every fine element is joined to exactly one mortar face and the other way round, and the two lie at the same place: in all
dimensions, directions, orders and combinations of stretching. -/
theorem refined_faces_exact {nd : Nat} (hnd : 1 ≤ nd ∧ nd ≤ 3) {d : Dir} (h : Legal nd d) (rev : Bool) (str : Bool × Bool) :
    ∃ l, refinedFaces nd d rev str = some l ∧
      (l.map Prod.fst).Perm (List.range (nFine nd str)) ∧ (l.map Prod.snd).Perm (List.range (nFine nd str)) ∧
      ∀ R, IsFrame d R → ∀ p ∈ l,
        let fine := partCenter nd (d.iDim !rev) str p.1
        let mortar := partCenter nd (d.iDim rev) (coarseStretch d str) p.2
        if rev then Corresponds nd d R fine mortar else Corresponds nd d R mortar fine := by
  have key : ∀ nd ∈ [1, 2, 3], ∀ (i0 i1 : Fin 3) (s0 s1 : Bool), Legal nd ⟨i0, i1, s0, s1⟩ → ∀ rev a b : Bool,
      ∃ l ∈ (refinedFaces nd ⟨i0, i1, s0, s1⟩ rev (a, b)).toList,
        (l.map Prod.fst).Perm (List.range (nFine nd (a, b))) ∧ (l.map Prod.snd).Perm (List.range (nFine nd (a, b))) ∧
        ∀ p ∈ l, ∀ k : Fin 3, k.val < nd → k ≠ i1 →
          let fine := partCenter nd (Dir.iDim ⟨i0, i1, s0, s1⟩ !rev) (a, b) p.1
          let mortar := partCenter nd (Dir.iDim ⟨i0, i1, s0, s1⟩ rev) (coarseStretch ⟨i0, i1, s0, s1⟩ (a, b)) p.2
          if rev then mortar k = (frameOf ⟨i0, i1, s0, s1⟩ *ᵥ fine) k else fine k = (frameOf ⟨i0, i1, s0, s1⟩ *ᵥ mortar) k := by
    decide +kernel
  obtain ⟨l, hl, h1, h2, h3⟩ := key nd (by simp; omega) d.i0 d.i1 d.s0 d.s1 h rev str.1 str.2
  refine ⟨l, by simpa using hl, h1, h2, ?_⟩
  intro R hR p hp
  rw [frame_unique hR]
  have := h3 p hp
  cases rev
  · intro fine mortar k hk hk'; exact this k hk hk'
  · intro fine mortar k hk hk'; exact this k hk hk'

set_option synthInstance.maxHeartbeats 400000 in
set_option synthInstance.maxSize 1000 in
/-- The vertices merged by a hanging-node connection coincide in space: the coarse face's corner and the matching corner of the fine
element that lies at that corner. All corners of the coarse face are merged. -/
theorem refined_verts_exact {nd : Nat} (hnd : 1 ≤ nd ∧ nd ≤ 3) {d : Dir} (h : Legal nd d) (rev : Bool) (str : Bool × Bool) :
    ∃ l, refinedVerts nd d rev str = some l ∧
      (l.map fun p => p.1).Perm ((List.range (2 ^ nd)).filter fun v => coord nd v (d.iDim rev) = (d.faceSign rev).toNat) ∧
      ∀ p ∈ l, p.2.1 < nFine nd str ∧
        coord nd p.2.2 (d.iDim !rev) = (d.faceSign !rev).toNat ∧
        (∀ k, k.val < nd → k ≠ d.iDim !rev → partCenter nd (d.iDim !rev) str p.2.1 k = corner nd p.2.2 k ∨ partCenter nd (d.iDim !rev) str p.2.1 k = 0) ∧
        ∀ R, IsFrame d R → if rev then Corresponds nd d R (corner nd p.2.2) (corner nd p.1) else Corresponds nd d R (corner nd p.1) (corner nd p.2.2) := by
  have key : ∀ nd ∈ [1, 2, 3], ∀ (i0 i1 : Fin 3) (s0 s1 : Bool), Legal nd ⟨i0, i1, s0, s1⟩ → ∀ rev a b : Bool,
      ∃ l ∈ (refinedVerts nd ⟨i0, i1, s0, s1⟩ rev (a, b)).toList,
        (l.map fun p => p.1).Perm ((List.range (2 ^ nd)).filter fun v => coord nd v (Dir.iDim ⟨i0, i1, s0, s1⟩ rev) = (Dir.faceSign ⟨i0, i1, s0, s1⟩ rev).toNat) ∧
        ∀ p ∈ l, p.2.1 < nFine nd (a, b) ∧
          coord nd p.2.2 (Dir.iDim ⟨i0, i1, s0, s1⟩ !rev) = (Dir.faceSign ⟨i0, i1, s0, s1⟩ !rev).toNat ∧
          (∀ k : Fin 3, k.val < nd → k ≠ Dir.iDim ⟨i0, i1, s0, s1⟩ !rev →
            partCenter nd (Dir.iDim ⟨i0, i1, s0, s1⟩ !rev) (a, b) p.2.1 k = corner nd p.2.2 k ∨ partCenter nd (Dir.iDim ⟨i0, i1, s0, s1⟩ !rev) (a, b) p.2.1 k = 0) ∧
          ∀ k : Fin 3, k.val < nd → k ≠ i1 →
            if rev then corner nd p.1 k = (frameOf ⟨i0, i1, s0, s1⟩ *ᵥ corner nd p.2.2) k
            else corner nd p.2.2 k = (frameOf ⟨i0, i1, s0, s1⟩ *ᵥ corner nd p.1) k := by
    decide +kernel
  obtain ⟨l, hl, h1, h2⟩ := key nd (by simp; omega) d.i0 d.i1 d.s0 d.s1 h rev str.1 str.2
  refine ⟨l, by simpa using hl, h1, ?_⟩
  intro p hp
  obtain ⟨h3, h4, h5, h6⟩ := h2 p hp
  refine ⟨h3, h4, h5, ?_⟩
  intro R hR
  rw [frame_unique hR]
  cases rev
  · intro k hk hk'; exact h6 k hk hk'
  · intro k hk hk'; exact h6 k hk hk'

example : refinedFaces 3 ⟨0, 1, true, false⟩ false (false, true) = some [(1, 0), (0, 1)] := by decide

end Hexed.Connection
