import Verif.Metric.Elements
set_option autoImplicit false
set_option linter.unusedVariables false

/-!
# The face storage after `calc_jacobian`
-/

namespace Hexed.Metric
open Hexed.Spatial Hexed.Pde Hexed.Solver
open Hexed.Connection (Dir matchFaces restore strAt Legal matchFaces_eq restore_match tπ fπ tπ_tπ fπ_fπ tπ_lt fπ_lt)
open MvPolynomial
noncomputable section

variable {bs : BasisData} {b : Basis.Nodes ℝ} {deg : Nat} {s : Shape} {m : Nat} {X : Nat → Nat → MvPolynomial ℕ ℝ}

/-- Faces of elements and mortar faces. -/
def Real (s : Shape) (B : Buf) : Prop := B ∈ s.kernel.elemFaces ∨ B ∈ s.kernel.fineBufs

/-- Face storage holds the normals of the faces. -/
def Exactly (s : Shape) (b : Basis.Nodes ℝ) (X : Nat → Nat → MvPolynomial ℕ ℝ) (w : World) : Prop :=
  ∀ B, Real s B → ∀ e f, s.kernel.faceOf B = some (e, f) → ∀ j < s.nd, ∀ k < b.n ^ (s.nd - 1), w.buf B false (j * b.n ^ (s.nd - 1) + k) = surfaceNormal s X B j (facePoint b s.nd f k)

theorem coarse_elem (hm : s.kernel.Ok bs) {r : RefRec} (hr : r ∈ s.refs) {e f : Nat} (hco : r.coarse = .elem e f) : e ∈ s.elems ∧ f < 2 * s.nd := by
  have := hm.cover.mem_iff.1 (List.mem_append.2 (Or.inr (List.mem_map.2 ⟨r, hr, rfl⟩)))
  rw [hco] at this
  rcases List.mem_append.1 this with h | h
  · rcases List.mem_append.1 h with h | h
    · obtain ⟨e', he', f', hf', e1⟩ := Mesh.elemFaces_elem h
      obtain ⟨rfl, rfl⟩ := Buf.elem.inj e1
      exact ⟨he', hf'⟩
    · obtain ⟨r', hr', h⟩ := List.mem_flatMap.1 h
      obtain ⟨i', hi', e1⟩ := List.mem_map.1 h
      obtain ⟨k', hk'⟩ := List.mem_iff_getElem?.1 hr'
      rw [(hm.fine k' r' hk').2 i' (List.mem_range.1 hi')] at e1
      exact absurd e1 (by simp)
  · have := (List.mem_filter.1 h).2
    exact absurd this (by simp [Buf.isGhost])

theorem real_cases (hm : s.kernel.Ok bs) {B : Buf} (h : Real s B) : (∃ e ∈ s.elems, ∃ f < 2 * s.nd, B = .elem e f) ∨
    ∃ r rr e f i, s.refs[r]? = some rr ∧ rr.coarse = .elem e f ∧ e ∈ s.elems ∧ f < 2 * s.nd ∧ i < nFace s.nd rr.str ∧ B = .mortar r i ∧ rr.fine i = .mortar r i := by
  rcases h with h | h
  · exact Or.inl (Mesh.elemFaces_elem h)
  · obtain ⟨rr, hr, h⟩ := List.mem_flatMap.1 h
    obtain ⟨i, hi, hB⟩ := List.mem_map.1 h
    obtain ⟨r, hrr⟩ := List.mem_iff_getElem?.1 hr
    obtain ⟨⟨e, f, hco⟩, hf⟩ := hm.fine r rr hrr
    have := coarse_elem hm hr hco
    exact Or.inr ⟨r, rr, e, f, i, hrr, hco, this.1, this.2, List.mem_range.1 hi, by rw [← hB, hf i (List.mem_range.1 hi)], hf i (List.mem_range.1 hi)⟩

theorem side_real (hm : s.kernel.Ok bs) {c : ConRec} (hc : c ∈ s.cons) {sd : Bool} (hg : (c.side sd).isGhost = false) : Real s (c.side sd) := by
  rcases List.mem_append.1 (hm.cover.mem_iff.1 (List.mem_append.2 (Or.inl (mem_sidesOf hc sd)))) with h | h
  · exact List.mem_append.1 h
  · have := (List.mem_filter.1 h).2
    rw [hg] at this; cases this

theorem real_ghost (hm : s.kernel.Ok bs) {B : Buf} (h : Real s B) : B.isGhost = false := by
  rcases real_cases hm h with ⟨e, _, f, _, rfl⟩ | ⟨r, rr, e, f, i, _, _, _, _, _, rfl, _⟩ <;> rfl

theorem face_half (d : Dir) (sd : Bool) : (2 * (d.iDim sd).val + (d.faceSign sd).toNat) / 2 = (d.iDim sd).val := by
  have := Bool.toNat_lt (d.faceSign sd); omega

/-- Corresponding quadrature points. -/
theorem node_meet (hb : GoodNodes b deg) (hm : s.kernel.Ok bs) (hX : InSpace s b m X) {c : ConRec} (hc : c ∈ s.cons) (hg : (c.side true).isGhost = false) {e0 f0 e1 f1 : Nat} (h0 : s.kernel.faceOf (c.side false) = some (e0, f0))
    (h1 : s.kernel.faceOf (c.side true) = some (e1, f1)) {j k : Nat} (hk : k < b.n ^ (s.nd - 1)) :
    flipSign c.dir false * surfaceNormal s X (c.side false) j (facePoint b s.nd f0 (fπ s.nd b.n c.dir (tπ s.nd b.n c.dir k))) = flipSign c.dir true * surfaceNormal s X (c.side true) j (facePoint b s.nd f1 k) := by
  rw [normal_meet hm hX hc hg]
  congr 1
  obtain ⟨e0', g0⟩ := hm.face c hc false (hm.ghost c hc)
  obtain ⟨e1', g1⟩ := hm.face c hc true hg
  rw [h0] at g0
  rw [h1] at g1
  simp only [Option.some.injEq, Prod.mk.injEq] at g0 g1
  refine normal_off X h1 (fun a ha => ?_) j
  have e1 : f1 / 2 = c.dir.i1.val := by rw [g1.2]; exact face_half c.dir true
  have e0 : f0 / 2 = c.dir.i0.val := by rw [g0.2]; exact face_half c.dir false
  rw [facePoint, facePoint, e0, e1]
  exact match_points hm.dim hb.pos hb.symm (hm.legal c hc).1 _ _ hk (by rwa [e1] at ha)

/-! ## The loops -/

theorem write_exact (hof : bs.IsOf b) (hb : b.Distinct) (hn : 0 < b.n) (hmn : m ≤ b.n) (hm : s.kernel.Ok bs) (hX : InSpace s b m X) (w : World) {e f : Nat} (he : e ∈ s.elems) (hf : f < 2 * s.nd) {j k : Nat} (hj : j < s.nd) (hk : k < b.n ^ (s.nd - 1)) :
    (s.writeNormals b bs w).buf (.elem e f) false (j * b.n ^ (s.nd - 1) + k) = surfaceNormal s X (.elem e f) j (facePoint b s.nd f k) := by
  obtain ⟨e1, e2⟩ := Connection.divmod_of (a := j) hk
  show (if e ∈ s.elems ∧ f < 2 * s.nd ∧ _ then _ else _) = _
  rw [hof.n, if_pos ⟨he, hf, block_lt hj hk⟩, e1, e2]
  exact faceNormal_exact hof hb hn hmn hX he (ne_of_gt (hm.size e he)) hf hk hj

theorem prolong_exact (hof : bs.IsOf b) (hb : b.Distinct) (hn : 0 < b.n) (hm1 : 1 ≤ m) (hmn : m ≤ b.n) (hmd : s.refs ≠ [] → (s.nd - 1) * (m - 1) ≤ b.n) (hm : s.kernel.Ok bs) (hX : InSpace s b m X) (w : World) :
    Exactly s b X (runProlong (ns s.nd false .inviscid .inviscid) bs s.kernel true false (s.writeNormals b bs w)) := by
  intro B hB e f hfo j hj k hk
  obtain ⟨r1, r2⟩ := prolong_fold (ns s.nd false .inviscid .inviscid) bs s.kernel.nd true false s.kernel.refs (s.writeNormals b bs w).buf hm.refs_nodup
  show s.kernel.refs.foldl (prolongRef (ns s.nd false .inviscid .inviscid) bs s.kernel.nd true false) (s.writeNormals b bs w).buf B false _ = _
  rcases real_cases hm hB with ⟨e', he', f', hf', rfl⟩ | ⟨r, rr, e', f', i, hr, hco, he', hf', hi, rfl, hfi⟩
  · simp only [Mesh.faceOf, Option.some.injEq, Prod.mk.injEq] at hfo
    obtain ⟨rfl, rfl⟩ := hfo
    rw [r2 _ false (Or.inl ?_)]
    · exact write_exact hof hb hn hmn hm hX w he' hf' hj hk
    · intro rr hr i hi e1
      obtain ⟨kr, hkr⟩ := List.mem_iff_getElem?.1 hr
      rw [(hm.fine kr rr hkr).2 i hi] at e1
      exact absurd e1 (by simp)
  · have hfo' : s.kernel.faceOf (.mortar r i) = some (e', f') := by simp [Mesh.faceOf, Shape.kernel, hr, hco]
    rw [hfo'] at hfo
    simp only [Option.some.injEq, Prod.mk.injEq] at hfo
    obtain ⟨rfl, rfl⟩ := hfo
    have hmem : rr ∈ s.kernel.refs := List.mem_iff_getElem?.2 ⟨r, hr⟩
    have h1 := r1 rr hmem i hi
    rw [hfi] at h1
    have hd : f' / 2 < s.nd := by omega
    have hmd' := hmd (List.ne_nil_of_mem hmem)
    rw [h1, ← hof.n]
    refine Eq.trans ((prolongFine_apply bs (by rw [hof.n]; exact hn) s.nd (s.nd + 2) true rr.str i _ _).1 j (by omega) k (by rw [hof.n]; exact hk)) ?_
    rw [hco]
    have h2 := prolong_str hof hb hn (m := b.n) le_rfl (f := fun x => fieldOf (inNormal s X e' (f' / 2) j) (Function.update x (f' / 2) ((f' % 2 : Nat) : ℝ))) (polyIn_face (nd := s.nd) hn (fun a ha had => by have := inNormal_degree hm.dim hm1 hX he' hd hj ha; rw [if_neg had] at this; omega) _) hd
      ((f' % 2 : Nat) : ℝ) (fun _ => 0) (fun _ => 1) (stretchFac true) rr.str i (j * bs.n ^ (s.nd - 1)) ((s.writeNormals b bs w).buf (.elem e' f') false) ?_ k hk
    · refine Eq.trans h2 ?_
      rw [normal_mortar hm.dim X hr hco hf' hi j _ ?_ (ne_of_gt (hm.size e' he'))]
      · show strFac s.nd 2 rr.str * _ = _
        congr 1
        rw [fieldOf]
        congr 2
        funext a
        rw [Function.update_apply, gridPos]
        by_cases ha : a = f' / 2
        · rw [if_pos ha, if_pos ha]
        · rw [if_neg ha, if_neg ha, if_neg ha]
          by_cases han : a < s.nd
          · rw [if_pos han, if_pos han, facePoint, facePos, if_neg ha, if_pos han]; ring
          · rw [if_neg han, if_neg han]
      · intro a ha
        rw [facePoint, facePos, if_neg (by omega), if_neg (by omega)]
    · intro k hk
      rw [hof.n, write_exact hof hb hn hmn hm hX w he' hf' hj hk, normal_elem]; rfl

theorem ext_block {f g : Mem} {nd N : Nat} (h : ∀ j < nd, ∀ k < N, f (j * N + k) = g (j * N + k)) (h2 : ∀ a, ¬ a < nd * N → f a = g a) : f = g := by
  funext a
  by_cases ha : a < nd * N
  · have hN : 0 < N := by
      rcases Nat.eq_zero_or_pos N with h0 | h0
      · subst h0; simp at ha
      · exact h0
    have := h (a / N) (Nat.div_lt_of_lt_mul (by rwa [Nat.mul_comm])) (a % N) (Nat.mod_lt _ hN)
    rwa [Nat.div_add_mod' a N] at this
  · exact h2 a ha

/-- Copying the normal of mortar faces to fine faces changes nothing. -/
theorem copy_nop (hof : bs.IsOf b) (hb : GoodNodes b deg) (hm : s.kernel.Ok bs) (hX : InSpace s b m X) (hK : Kinds s) (w : World) (hw : Exactly s b X w) {c : ConRec} (hc : c ∈ s.cons) (sd off : Bool) :
    copyNormal s.nd bs.n c (fun sd => w.buf (c.side sd)) sd off = w.buf (c.side sd) off := by
  rw [copyNormal, hof.n]
  dsimp only
  by_cases h : (c.deformed && (isMortar (c.side false) || isMortar (c.side true))) = true
  swap
  · rw [if_neg h]
  rw [if_pos h]
  rw [Bool.and_eq_true] at h
  have hrev : isMortar (c.side true) = false := by
    cases hs : c.side true with
    | mortar r i => exact absurd ((hK.fine c hc true r i hs).2 h.1) (by simp)
    | _ => rfl
  have hmor : isMortar (c.side false) = true := by rw [hrev, Bool.or_false] at h; exact h.2
  have hg : (c.side true).isGhost = false := by
    cases hs : c.side true with
    | ghost g =>
      exfalso
      obtain ⟨_, _, _, e, f, hfs⟩ := hK.bound c hc (by rw [hs]; rfl)
      rw [hfs] at hmor; cases hmor
    | _ => rfl
  rw [hrev]
  simp only [Bool.not_false]
  by_cases hso : sd = true ∧ off = false
  swap
  · rw [if_neg hso]
  rw [if_pos hso]
  obtain ⟨rfl, rfl⟩ := hso
  obtain ⟨e0, h0⟩ := hm.face c hc false (hm.ghost c hc)
  obtain ⟨e1, h1⟩ := hm.face c hc true hg
  have hsign : (1 - 2 * (((c.dir.flipNormal false != c.dir.flipNormal true).toNat : ℕ) : ℝ)) = flipSign c.dir false * flipSign c.dir true := by
    rw [flipSign_eq, flipSign_eq]; cases c.dir.flipNormal false <;> cases c.dir.flipNormal true <;> norm_num
  conv_rhs => rw [← (restore_match (n := b.n) (nvar := s.nd + 2) hm.dim c.dir (w.buf (c.side true) false)).1]
  show restore s.nd b.n (s.nd + 2) c.dir _ = restore s.nd b.n (s.nd + 2) c.dir (matchFaces s.nd b.n (s.nd + 2) c.dir _)
  congr 1
  refine ext_block (nd := s.nd) (N := b.n ^ (s.nd - 1)) ?_ ?_
  · intro j hj k hk
    rw [if_pos (block_lt hj hk), matchFaces_eq s.nd b.n (s.nd + 2) hm.dim hb.pos c.dir _ j k (by omega) hk]
    have hk1 : tπ s.nd b.n c.dir (fπ s.nd b.n c.dir k) < b.n ^ (s.nd - 1) := tπ_lt s.nd b.n hm.dim c.dir _ (fπ_lt s.nd b.n hm.dim c.dir k hk)
    have := node_meet hb hm hX hc hg h0 h1 (j := j) hk1
    rw [tπ_tπ s.nd b.n c.dir _ (fπ_lt s.nd b.n hm.dim c.dir k hk), fπ_fπ s.nd b.n c.dir k hk] at this
    rw [hw _ (side_real hm hc (hm.ghost c hc)) _ _ h0 j hj k hk, hsign]
    refine Eq.trans ?_ (hw _ (side_real hm hc hg) _ _ h1 j hj _ hk1).symm
    rw [mul_right_comm, this, mul_right_comm, flipSign_sq, one_mul]
  · intro a ha
    rw [if_neg ha]

/-- Computing the shared normal changes nothing. -/
theorem share_nop (hof : bs.IsOf b) (hb : GoodNodes b deg) (hm : s.kernel.Ok bs) (hX : InSpace s b m X) (w : World) (hw : Exactly s b X w) {c : ConRec} (hc : c ∈ s.cons) (hg : (c.side true).isGhost = false) (sd off : Bool) :
    shareNormal s.nd bs.n c (fun sd => w.buf (c.side sd)) sd off = w.buf (c.side sd) off := by
  rw [shareNormal, hof.n]
  dsimp only
  by_cases h : c.deformed = true
  swap
  · rw [if_neg h]
  rw [if_pos h]
  cases off
  swap
  · rw [if_pos rfl]
  rw [if_neg (by simp)]
  obtain ⟨e0, h0⟩ := hm.face c hc false (hm.ghost c hc)
  obtain ⟨e1, h1⟩ := hm.face c hc true hg
  have key : ∀ j < s.nd, ∀ k < b.n ^ (s.nd - 1), flipSign c.dir false * w.buf (c.side false) false (j * b.n ^ (s.nd - 1) + k) = flipSign c.dir true * matchFaces s.nd b.n (s.nd + 2) c.dir (w.buf (c.side true) false) (j * b.n ^ (s.nd - 1) + k) := by
    intro j hj k hk
    rw [matchFaces_eq s.nd b.n (s.nd + 2) hm.dim hb.pos c.dir _ j k (by omega) hk]
    have hk1 : tπ s.nd b.n c.dir (fπ s.nd b.n c.dir k) < b.n ^ (s.nd - 1) := tπ_lt s.nd b.n hm.dim c.dir _ (fπ_lt s.nd b.n hm.dim c.dir k hk)
    have := node_meet hb hm hX hc hg h0 h1 (j := j) hk1
    rw [tπ_tπ s.nd b.n c.dir _ (fπ_lt s.nd b.n hm.dim c.dir k hk), fπ_fπ s.nd b.n c.dir k hk] at this
    rw [hw _ (side_real hm hc (hm.ghost c hc)) _ _ h0 j hj k hk, hw _ (side_real hm hc hg) _ _ h1 j hj _ hk1, this]
  cases sd
  · rw [if_neg (by simp)]
    refine ext_block (nd := s.nd) (N := b.n ^ (s.nd - 1)) ?_ (fun a ha => by rw [if_neg ha])
    intro j hj k hk
    rw [if_pos (block_lt hj hk), mul_assoc (1 / 2) (flipSign c.dir true), ← key j hj k hk]
    linear_combination w.buf (c.side false) false (j * b.n ^ (s.nd - 1) + k) * flipSign_sq c.dir false
  · rw [if_pos rfl]
    conv_rhs => rw [← (restore_match (n := b.n) (nvar := s.nd + 2) hm.dim c.dir (w.buf (c.side true) false)).1]
    show restore s.nd b.n (s.nd + 2) c.dir _ = restore s.nd b.n (s.nd + 2) c.dir (matchFaces s.nd b.n (s.nd + 2) c.dir _)
    congr 1
    refine ext_block (nd := s.nd) (N := b.n ^ (s.nd - 1)) ?_ (fun a ha => by rw [if_neg ha])
    intro j hj k hk
    rw [if_pos (block_lt hj hk), mul_assoc (1 / 2) (flipSign c.dir false), key j hj k hk]
    linear_combination matchFaces s.nd b.n (s.nd + 2) c.dir (w.buf (c.side true) false) (j * b.n ^ (s.nd - 1) + k) * flipSign_sq c.dir true

/-- On a boundary, if the ghost face has the normal of the face inside. -/
theorem share_bound (hof : bs.IsOf b) (hn : 0 < b.n) (hm : s.kernel.Ok bs) (hK : Kinds s) (w : World) {c : ConRec} (hc : c ∈ s.cons) (hg : (c.side true).isGhost = true)
    (hw : ∀ a < s.nd * b.n ^ (s.nd - 1), w.buf (c.side true) false a = w.buf (c.side false) false a) :
    shareNormal s.nd bs.n c (fun sd => w.buf (c.side sd)) false false = w.buf (c.side false) false := by
  rw [shareNormal, hof.n]
  dsimp only
  by_cases h : c.deformed = true
  swap
  · rw [if_neg h]
  rw [if_pos h, if_neg (by simp), if_neg (by simp)]
  obtain ⟨_, hi, hs, _⟩ := hK.bound c hc hg
  refine ext_block (nd := s.nd) (N := b.n ^ (s.nd - 1)) ?_ (fun a ha => by rw [if_neg ha])
  intro j hj k hk
  have hid : tπ s.nd b.n c.dir (fπ s.nd b.n c.dir k) = k := by
    have h1 : c.dir.flipTangential = false := by simp [Dir.flipTangential, hi]
    have h2 : c.dir.transpose = false := by
      rw [Dir.transpose, hi]
      generalize c.dir.i0 = i
      revert i; decide
    simp [fπ, tπ, h1, h2]
  have hsg : flipSign c.dir true = flipSign c.dir false := by
    rw [flipSign_eq, flipSign_eq]
    exact (congrArg (fun b : Bool => if b then (-1 : ℝ) else 1) (flip_opposite c.dir.s0 c.dir.s1 (by rw [hs]; cases c.dir.s0 <;> simp))).symm
  rw [if_pos (block_lt hj hk), matchFaces_eq s.nd b.n (s.nd + 2) hm.dim hn c.dir _ j k (by omega) hk, hid, hw _ (block_lt hj hk), hsg]
  linear_combination w.buf (c.side false) false (j * b.n ^ (s.nd - 1) + k) * flipSign_sq c.dir false

/-- A loop over connections that does not change faces. -/
theorem loop_nop (hm : s.kernel.Ok bs) (K : ConRec → Sides → Sides) (w : World) (h : ∀ c ∈ s.cons, ∀ sd, (c.side sd).isGhost = false → K c (fun sd => w.buf (c.side sd)) sd false = w.buf (c.side sd) false) {B : Buf} (hB : B.isGhost = false) :
    (s.cons.foldl (onCon K) w).buf B false = w.buf B false := by
  obtain ⟨c1, c2, _⟩ := cons_fold K s.cons w hm.sides_nodup
  by_cases hin : B ∈ sidesOf s.cons
  · obtain ⟨c, hc, hb⟩ := List.mem_flatMap.1 hin
    have : ∃ sd, B = c.side sd := by
      simp only [List.mem_cons, List.not_mem_nil, or_false] at hb
      rcases hb with h | h
      · exact ⟨false, h⟩
      · exact ⟨true, h⟩
    obtain ⟨sd, rfl⟩ := this
    rw [c1 c hc sd, h c hc sd hB]
  · rw [c2 B hin]

/-- `calc_jacobian` leaves the normals of faces in their storage. -/
theorem normals_exact (hof : bs.IsOf b) (hb : GoodNodes b deg) (hm1 : 1 ≤ m) (hmn : m ≤ b.n) (hmd : s.refs ≠ [] → (s.nd - 1) * (m - 1) ≤ b.n) (hm : s.kernel.Ok bs) (hX : InSpace s b m X) (hK : Kinds s) (w : World) : Exactly s b X (s.normals b bs w) := by
  have hn := hb.pos
  have hbd := hb.exact.distinct
  rw [Shape.normals]
  set w2 := runProlong (ns s.nd false .inviscid .inviscid) bs s.kernel true false (s.writeNormals b bs w) with hw2
  have h2 : Exactly s b X w2 := prolong_exact hof hbd hn hm1 hmn hmd hm hX w
  set w3 := s.cons.foldl (onCon fun c st => copyNormal s.nd bs.n c st) w2 with hw3
  have e3 : ∀ B : Buf, B.isGhost = false → w3.buf B false = w2.buf B false := fun B hB => loop_nop hm _ w2 (fun c hc sd _ => copy_nop hof hb hm hX hK w2 h2 hc sd false) hB
  set w4 := s.cons.foldl (onCon fun c st => ghostNormal s.nd bs.n c st) w3 with hw4
  have g4 := (cons_fold (fun c st => ghostNormal s.nd bs.n c st) s.cons w3 hm.sides_nodup).1
  have e4 : ∀ B : Buf, B.isGhost = false → w4.buf B false = w3.buf B false := fun B hB => loop_nop hm _ w3 (fun c hc sd hg => by
    rw [ghostNormal]
    by_cases h : (c.side true).isGhost = true
    · rw [if_pos h]
      have : sd = false := by
        cases sd
        · rfl
        · rw [hg] at h; cases h
      rw [if_neg (by simp [this])]
    · rw [if_neg h]) hB
  have h4 : Exactly s b X w4 := fun B hB e f hfo j hj k hk => by rw [e4 B (real_ghost hm hB), e3 B (real_ghost hm hB)]; exact h2 B hB e f hfo j hj k hk
  intro B hB e f hfo j hj k hk
  rw [loop_nop hm _ w4 (fun c hc sd hg => ?_) (real_ghost hm hB)]
  · exact h4 B hB e f hfo j hj k hk
  · by_cases h : (c.side true).isGhost = true
    · have : sd = false := by
        cases sd
        · rfl
        · rw [hg] at h; cases h
      subst this
      refine share_bound hof hn hm hK w4 hc h fun a ha => ?_
      have a1 := g4 c hc true
      have a0 := g4 c hc false
      rw [a1, a0, ghostNormal, if_pos h]
      rw [hof.n]
      simp [ha]
    · exact share_nop hof hb hm hX w4 h4 hc (by simpa using h) sd false

end
end Hexed.Metric
