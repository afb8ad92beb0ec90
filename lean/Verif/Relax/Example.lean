import Verif.Relax.Update
set_option autoImplicit false
set_option linter.unusedVariables false

/-! # C85: the hypotheses can be met -/

namespace Hexed.Relax
open Hexed.Connection

/-- Two fine elements on a coarse face in two dimensions: they share vertex 1, which hangs. -/
def pairMatcher : Matcher Nat := ⟨0, false, (false, false), 2, fun e i => if i < 2 then e + i else 10 * e + i⟩

/-- Four fine elements on a coarse face in three dimensions, with nine vertices on it. -/
def quadMatcher : Matcher Nat := ⟨2, true, (false, false), 4, fun e i => if i % 2 = 1 then 3 * (e / 2 + i / 4) + (e % 2 + i / 2 % 2) else 10 * e + i + 10⟩

theorem pair_glued : Glued 2 pairMatcher := by
  refine ⟨by decide, by decide, ?_⟩
  have h : ∀ e ∈ List.range pairMatcher.nf, ∀ e' ∈ List.range pairMatcher.nf, ∀ i ∈ faceVerts 2 pairMatcher.dim pairMatcher.isp, ∀ i' ∈ faceVerts 2 pairMatcher.dim pairMatcher.isp,
      (pairMatcher.vert e i = pairMatcher.vert e' i' ↔ ∀ k ∈ faceAxes 2 pairMatcher.dim, finePos 2 pairMatcher.dim pairMatcher.str e i k = finePos 2 pairMatcher.dim pairMatcher.str e' i' k) := by
    decide +kernel
  exact fun e he e' he' => h e (by simpa using he) e' (by simpa using he')

theorem quad_glued : Glued 3 quadMatcher := by
  refine ⟨by decide, by decide, ?_⟩
  have h : ∀ e ∈ List.range quadMatcher.nf, ∀ e' ∈ List.range quadMatcher.nf, ∀ i ∈ faceVerts 3 quadMatcher.dim quadMatcher.isp, ∀ i' ∈ faceVerts 3 quadMatcher.dim quadMatcher.isp,
      (quadMatcher.vert e i = quadMatcher.vert e' i' ↔ ∀ k ∈ faceAxes 3 quadMatcher.dim, finePos 3 quadMatcher.dim quadMatcher.str e i k = finePos 3 quadMatcher.dim quadMatcher.str e' i' k) := by
    decide +kernel
  exact fun e he e' he' => h e (by simpa using he) e' (by simpa using he')


theorem pair_corners : Corners 2 pairMatcher fun j => 2 * j := by
  have h : ∀ j ∈ faceVerts 2 pairMatcher.dim pairMatcher.isp, ∃ e ∈ List.range pairMatcher.nf, ∃ i ∈ faceVerts 2 pairMatcher.dim pairMatcher.isp, pairMatcher.vert e i = 2 * j ∧
      ∀ k ∈ faceAxes 2 pairMatcher.dim, finePos 2 pairMatcher.dim pairMatcher.str e i k = 2 * corner 2 j k := by decide +kernel
  intro j hj
  obtain ⟨e, he, i, hi, h⟩ := h j hj
  exact ⟨e, by simpa using he, i, hi, h⟩

theorem quad_corners : Corners 3 quadMatcher fun j => 6 * (j / 4) + 2 * (j / 2 % 2) := by
  have h : ∀ j ∈ faceVerts 3 quadMatcher.dim quadMatcher.isp, ∃ e ∈ List.range quadMatcher.nf, ∃ i ∈ faceVerts 3 quadMatcher.dim quadMatcher.isp,
      quadMatcher.vert e i = 6 * (j / 4) + 2 * (j / 2 % 2) ∧ ∀ k ∈ faceAxes 3 quadMatcher.dim, finePos 3 quadMatcher.dim quadMatcher.str e i k = 2 * corner 3 j k := by decide +kernel
  intro j hj
  obtain ⟨e, he, i, hi, h⟩ := h j hj
  exact ⟨e, by simpa using he, i, hi, h⟩

/-- A single matcher that is well formed fits. -/
theorem fit_single {V K : Type} [Field K] {nd : Nat} (t : Matcher V) (ht : Glued nd t) (c : Nat → V) (hc : Corners nd t c) : Fit nd [t] (fun _ => c) K := by
  refine ⟨by simpa using ht, by simpa using hc, ?_, ?_⟩
  · intro t1 h1 j hj t2 h2 x _
    rw [List.mem_singleton] at h1 h2
    subst h1 h2
    exact ⟨j, hj, rfl⟩
  · intro t1 h1 t2 h2 v x x' hx hx' f
    rw [List.mem_singleton] at h1 h2
    subst h1 h2
    obtain ⟨e, he, i, hi, e1, hx⟩ := hx
    obtain ⟨e', he', i', hi', e2, hx'⟩ := hx'
    have := (ht.same e he e' he' i hi i' hi').1 (e1.trans e2.symm)
    unfold bilinear
    congr 1
    refine List.map_congr_left fun j _ => ?_
    congr 2
    exact List.map_congr_left fun k hk => by rw [← hx k hk, ← hx' k hk, this k hk]

example : Fit 2 [pairMatcher] (fun _ j => 2 * j) ℚ := fit_single _ pair_glued _ pair_corners
example : Fit 3 [quadMatcher] (fun _ j => 6 * (j / 4) + 2 * (j / 2 % 2)) ℚ := fit_single _ quad_glued _ quad_corners

/-- The vertex in the middle is put in the middle. -/
example (p : Nat → Nat → ℚ) : ∃ p', matchAll 2 (fun _ => 0) [pairMatcher] p = .ok p' ∧ p' 1 0 = (p 0 0 + p 2 0) / 2 ∧ p' 5 = p 5 := by
  obtain ⟨p', h1, h2, h3, h4⟩ := watertight (K := ℚ) (by norm_num) (Or.inl rfl) (fun _ => 0) [pairMatcher] (fit_single _ pair_glued _ pair_corners) p
  refine ⟨p', h1, ?_, ?_⟩
  · rw [h2 pairMatcher (by simp) 1 (fun k => finePos 2 pairMatcher.dim pairMatcher.str 0 1 k) ⟨0, by decide, 1, by decide, rfl, fun k _ => rfl⟩ 0 (by norm_num)]
    have e0 : faceVerts 2 pairMatcher.dim pairMatcher.isp = [0, 1] := by decide
    have e1 : faceAxes 2 pairMatcher.dim = [1] := by decide
    have e2 : corner 2 0 1 = -1 := by decide
    have e3 : corner 2 1 1 = 1 := by decide
    have e4 : finePos 2 pairMatcher.dim pairMatcher.str 0 1 1 = 0 := by decide
    have a := h3 pairMatcher (by simp) 0 (by decide)
    have b := h3 pairMatcher (by simp) 1 (by decide)
    simp only [Nat.mul_zero, Nat.mul_one] at a b
    rw [bilinear, e0]
    simp only [List.map_cons, List.map_nil, List.sum_cons, List.sum_nil, List.prod_cons, List.prod_nil, e1, e2, e3, e4, a, b, Nat.mul_zero, Nat.mul_one]
    norm_num
    ring
  · funext d
    refine h4 5 d (Or.inr ?_)
    intro t ht x
    rw [List.mem_singleton] at ht
    subst ht
    rintro ⟨e, he, i, hi, h, _⟩
    have : ∀ e ∈ List.range pairMatcher.nf, ∀ i ∈ faceVerts 2 pairMatcher.dim pairMatcher.isp, pairMatcher.vert e i ≠ 5 := by decide +kernel
    exact this e (by simpa using he) i hi h

/-- A cube and an element that has been extruded from it. -/
def cubeElem : Elem Nat ℚ := ⟨id, 1, fun _ => 0, fun _ => 0, some (fun _ => 0, 1)⟩
def cubeExtr : Extr Nat := ⟨fun i => i + 4, 0, 0, 1⟩
def cubeMesh : Mesh Nat ℚ := { cornerMesh with nd := 3, verts := List.range 12, elems := [cubeElem, ⟨fun i => i + 4, 1, fun _ => 0, fun _ => 0, none⟩], extr := [cubeExtr] }

/-- The vertices of the cube are reset to the corners, those of the extruded element to the face of the cube, and then all are restored. -/
example (r : Run Nat ℚ) : ∃ m' m2, reset r cubeMesh = .ok m' ∧ m'.pos 6 = nominal 3 (fun _ => 0, 1) 6 ∧ m'.pos 10 = m'.pos 6 ∧ restore m' = .ok m2 ∧ ∀ v < 12, m2.pos v = cubeMesh.pos v := by
  obtain ⟨m', h1, h2, h3, _⟩ := reset_exact r cubeMesh rfl rfl
    (by
      intro e he t ht e' he' t' ht' i hi i' hi' h
      have : ∀ e ∈ cubeMesh.elems, ∀ t, e.tree = some t → e = cubeElem ∧ t = (fun _ => 0, 1) := by
        intro e he t ht
        simp only [cubeMesh, List.mem_cons, List.not_mem_nil, or_false] at he
        rcases he with rfl | rfl
        · exact ⟨rfl, (Option.some.inj ht).symm⟩
        · cases ht
      obtain ⟨rfl, rfl⟩ := this e he t ht
      obtain ⟨rfl, rfl⟩ := this e' he' t' ht'
      have : i = i' := h
      rw [this])
    (by
      intro c hc i hi ho c' hc' i' hi' ho'
      simp only [cubeMesh, List.mem_singleton] at hc hc'
      subst hc hc'
      simp only [Outer, cubeExtr] at ho ho'
      simp only [across, cubeExtr]
      norm_num at ho ho' ⊢
      omega)
    (by
      intro e he t ht i hi c hc i' hi' ho
      simp only [cubeMesh, List.mem_cons, List.not_mem_nil, or_false] at he hc
      subst hc
      rcases he with rfl | rfl
      · simp only [Outer, cubeExtr] at ho
        norm_num at ho
        show i' + 4 ≠ i
        omega
      · cases ht)
  obtain ⟨m2, h4, h5, _⟩ := restore_exact r cubeMesh m' h1
  refine ⟨m', m2, h1, ?_, ?_, h4, fun v hv => h5 v (by simpa [cubeMesh] using hv)⟩
  · exact h2 cubeElem (by simp [cubeMesh]) _ rfl 6 (by norm_num)
  · exact h3 cubeExtr (by simp [cubeMesh]) 6 (by norm_num) (by simp [Outer, cubeExtr])

/-- Two neighbours with the factor 1/2 meet each other half way; with the factor 1 they change places. -/
example (r : Run Nat ℚ) : ∃ m', relaxLoops r 1 cornerMesh = .ok m' ∧ m'.pos 0 1 = 3 ∧ m'.pos 1 1 = 1 := by
  obtain ⟨m', h1, h2, _⟩ := (relaxed_exact r 1 cornerMesh (by simp [cornerMesh])).1 (by intro v _; simp only [cornerMesh]; split_ifs <;> simp)
  have hm : ∀ v, Mobile cornerMesh v := by intro v q hq; simp [cornerMesh] at hq; rw [hq]
  refine ⟨m', h1, ?_, ?_⟩
  · rw [h2 0 (by simp [cornerMesh]) (hm 0)]; norm_num [mean, cornerMesh]
  · rw [h2 1 (by simp [cornerMesh]) (hm 1)]; norm_num [mean, cornerMesh]

/-- The hypotheses of `relax_order` are met by `cornerMesh`. -/
example (r r' : Run Nat ℚ) (factor : ℚ) : relax 1000 (fun _ _ => 0) r factor cornerMesh = relax 1000 (fun _ _ => 0) r' factor cornerMesh :=
  relax_order (by norm_num) 1000 (fun _ _ => 0) (fun _ _ => by norm_num) r r' factor cornerMesh (Or.inl rfl) (by rintro bc v ⟨c, hc, _⟩; simp [cornerMesh] at hc) (by simp [cornerMesh])
    (by simp [cornerMesh]) (fun _ => 0) 4 rfl diagonal rfl (fun x _ => (x 0 + x 1) / 2) (fun _ => rfl) (by simp [cornerMesh]) (c := fun _ _ => 0)
    ⟨by simp [cornerMesh], by simp [cornerMesh], by simp [cornerMesh], by simp [cornerMesh]⟩

/-- A boundary connection whose vertices are listed. -/
example : ∃ m', idBoundary { cornerMesh with verts := List.range 4, cons := [⟨2, 1, 0, ⟨id, 1, fun _ => 0, fun _ => 0, none⟩⟩] } = .ok m' ∧ m'.bverts 2 = [0, 2] := ⟨_, rfl, rfl⟩

/-- The positions of a Cartesian element. -/
example (p : Nat → Nat → ℚ) : snapCart cornerMesh [⟨id, 2, fun _ => 3, fun _ => 1, none⟩] p 2 0 = 9 ∧ snapCart cornerMesh [⟨id, 2, fun _ => 3, fun _ => 1, none⟩] p 2 1 = 7 := by
  have h := (cart_exact cornerMesh [⟨id, 2, fun _ => 3, fun _ => 1, none⟩] p (by
    intro e he e' he' i hi i' hi' h d hd
    rw [List.mem_singleton] at he he'
    subst he he'
    have : i = i' := h
    rw [this])).1 ⟨id, 2, fun _ => 3, fun _ => 1, none⟩ (by simp) 2 (by simp [cornerMesh])
  have h0 := h 0 (by simp [cornerMesh])
  have h1 := h 1 (by simp [cornerMesh])
  have u0 : upper cornerMesh.nd 2 0 = true := by decide
  have u1 : upper cornerMesh.nd 2 1 = false := by decide
  rw [u0] at h0
  rw [u1] at h1
  norm_num at h0 h1
  exact ⟨h0, h1⟩

/-- A mesh without a tree: the face of an element at its upper end in the first dimension is at 9. -/
example (r : Run Nat ℚ) : ∃ p, snapBoundary 1000 (fun _ _ => 0) r { cornerMesh with tree := none, mbc := fun _ => .nominal, allCons := [⟨2, 0, 1, ⟨id, 2, fun _ => 3, fun _ => 1, none⟩⟩] } = .ok p ∧
    p 2 0 = 9 ∧ p 3 0 = 9 ∧ p 3 1 = cornerMesh.pos 3 1 := by
  obtain ⟨p, h1, h2, h3⟩ := nominal_exact 1000 (fun _ _ => 0) r { cornerMesh with tree := none, mbc := fun _ => .nominal, allCons := [⟨2, 0, 1, ⟨id, 2, fun _ => 3, fun _ => 1, none⟩⟩] } rfl
    (fun _ _ => rfl) (by
      intro c hc c' hc' v _ _ _
      rw [List.mem_singleton] at hc hc'
      rw [hc, hc'])
  refine ⟨p, h1, ?_, ?_, ?_⟩
  · rw [h2 _ (List.mem_singleton.2 rfl) 2 ⟨2, by decide, Or.inl ⟨by decide, rfl⟩, rfl⟩]; norm_num [facePlane]
  · rw [h2 _ (List.mem_singleton.2 rfl) 3 ⟨3, by decide, Or.inl ⟨by decide, rfl⟩, rfl⟩]; norm_num [facePlane]
  · refine h3 3 1 ?_
    intro c hc _
    rw [List.mem_singleton.1 hc]
    decide

/-- `cornerMesh` with a Cartesian element of which vertex 12 is not on a boundary. -/
def cartMesh : Mesh Nat ℚ := { cornerMesh with carts := [⟨fun i => i + 10, 2, fun _ => 0, fun _ => 0, none⟩] }

/-- The hypotheses of `update_cart` are met. -/
example (r : Run Nat ℚ) : ∃ m', updateEnd 1000 (fun _ _ => 0) r cartMesh = .ok m' ∧ m'.pos 12 0 = 2 := by
  have hc : ∀ e ∈ cartMesh.carts, e = ⟨fun i => i + 10, 2, fun _ => 0, fun _ => 0, none⟩ := by intro e he; simpa [cartMesh] using he
  have hfit : Fit cartMesh.nd cartMesh.matchers (fun _ _ => 0) ℚ := ⟨by simp [cartMesh, cornerMesh], by simp [cartMesh, cornerMesh], by simp [cartMesh, cornerMesh], by simp [cartMesh, cornerMesh]⟩
  have hbv : ∀ bc, 12 ∉ cartMesh.bverts bc := by intro bc; simp only [cartMesh, cornerMesh]; split_ifs <;> simp
  have hon : ∀ bc v, ¬ OnFace cartMesh bc v := by rintro bc v ⟨c, hc, _⟩; simp [cartMesh, cornerMesh] at hc
  obtain ⟨m', h, this⟩ := update_cart (by norm_num) 1000 (fun _ _ => 0) (fun _ _ => by norm_num) r cartMesh (Or.inl rfl) (fun bc v h => absurd h (hon bc v)) (by simp [cartMesh, cornerMesh])
    (by decide) rfl (fun _ => 0) 4 rfl diagonal rfl (fun x _ => (x 0 + x 1) / 2) (fun _ => rfl) (by simp [cartMesh, cornerMesh]) hfit
    (by
      intro e he e' he' i _ i' _ h d _
      rw [hc e he, hc e' he'] at h ⊢
      have : i = i' := by simpa using h
      rw [this])
  refine ⟨m', h, ?_⟩
  rw [show (12 : Nat) = 2 + 10 from rfl, this _ (List.mem_singleton.2 rfl) 2 (by decide) (fun bc _ => ⟨hbv bc, hon bc _⟩) (by simp [cartMesh, cornerMesh]) 0 (by decide)]
  have u : upper cartMesh.nd 2 0 = true := by decide
  rw [u]
  norm_num

/-- The hypotheses of `all_smooth_boundary` are met: vertex 0 stays in the list of boundary 4. -/
example : ∃ m', setAllSmooth cornerMesh = .ok m' ∧ 0 ∈ m'.bverts 4 := by
  refine ⟨_, rfl, ?_⟩
  refine (all_smooth_boundary cornerMesh _ rfl ?_ 4 (by decide) 0).2 (Or.inl (by simp [cornerMesh]))
  rintro bc v (⟨c, hc, _⟩ | hv)
  · simp [cornerMesh] at hc
  · simp only [cornerMesh] at hv ⊢
    split_ifs at hv <;> simp_all

end Hexed.Relax
