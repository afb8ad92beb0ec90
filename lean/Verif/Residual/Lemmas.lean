import Verif.Residual.Model
import Verif.Spatial.Order
import Verif.Solver.Props
set_option autoImplicit false
set_option linter.unusedVariables false

/-!
# Which data the kernels change, and which they depend on
-/

namespace Hexed.Residual
open Hexed.Spatial Hexed.Pde Hexed.Solver

/-- The worlds agree wherever kernels do not write: in face storage beyond entry `L` and in storage that does not belong to the mesh. -/
def Fr (m : Mesh) (L : Nat) (w w' : World) : Prop := ∀ b l a, (b ∈ m.sides ++ m.coarseBufs → L ≤ a) → w'.buf b l a = w.buf b l a

theorem Fr.refl (m : Mesh) (L : Nat) (w : World) : Fr m L w w := fun _ _ _ _ => rfl
theorem Fr.trans {m : Mesh} {L : Nat} {w w' w'' : World} (h : Fr m L w w') (h' : Fr m L w' w'') : Fr m L w w'' := fun b l a ha => (h' b l a ha).trans (h b l a ha)
theorem Fr.symm {m : Mesh} {L : Nat} {w w' : World} (h : Fr m L w w') : Fr m L w' w := fun b l a ha => (h b l a ha).symm

section
variable {bs : BasisData} {m : Mesh} (hm : m.Ok bs) (hn : 0 < bs.n)

theorem split_addr {nvar N a : Nat} (hN : 0 < N) (ha : a < nvar * N) : ∃ v < nvar, ∃ k < N, a = v * N + k :=
  ⟨a / N, Nat.div_lt_of_lt_mul (by rwa [Nat.mul_comm] at ha), a % N, Nat.mod_lt a hN, (Nat.div_add_mod' a N).symm⟩

include hm in
theorem elem_used {e f : Nat} (he : e ∈ m.elems) (hf : f < 2 * m.nd) : Buf.elem e f ∈ m.sides ++ m.coarseBufs :=
  hm.cover.mem_iff.2 (List.mem_append.2 (Or.inl (List.mem_append.2 (Or.inl (Mesh.elemFaces_mem he hf)))))

include hm in
theorem fine_used {r : RefRec} (hr : r ∈ m.refs) {i : Nat} (hi : i < nFace m.nd r.str) : r.fine i ∈ m.sides ++ m.coarseBufs :=
  List.mem_append.2 (Or.inl (hm.fine_side hr hi))

theorem coarse_used {r : RefRec} (hr : r ∈ m.refs) : r.coarse ∈ m.sides ++ m.coarseBufs :=
  List.mem_append.2 (Or.inr (List.mem_map.2 ⟨r, hr, rfl⟩))

include hm in
theorem coarse_elem {r : RefRec} (hr : r ∈ m.refs) : ∃ e ∈ m.elems, ∃ f < 2 * m.nd, r.coarse = .elem e f := by
  obtain ⟨k, hk⟩ := List.mem_iff_getElem?.1 hr
  obtain ⟨⟨e, f, h1⟩, _⟩ := hm.fine k r hk
  have := hm.cover.mem_iff.1 (coarse_used hr)
  rcases List.mem_append.1 this with h2 | h2
  · rcases List.mem_append.1 h2 with h3 | h3
    · exact Mesh.elemFaces_elem h3
    · obtain ⟨r', hr', h4⟩ := List.mem_flatMap.1 h3
      obtain ⟨i, hi, h5⟩ := List.mem_map.1 h4
      obtain ⟨k', hk'⟩ := List.mem_iff_getElem?.1 hr'
      rw [(hm.fine k' r' hk').2 i (List.mem_range.1 hi), h1] at h5
      exact absurd h5 (by simp)
  · have := (List.mem_filter.1 h2).2
    rw [h1] at this; simp [Buf.isGhost] at this

include hm in
theorem fine_mortar {r : RefRec} (hr : r ∈ m.refs) {i : Nat} (hi : i < nFace m.nd r.str) : ∃ k j, r.fine i = .mortar k j := by
  obtain ⟨k, hk⟩ := List.mem_iff_getElem?.1 hr
  exact ⟨_, _, (hm.fine k r hk).2 i hi⟩

/-- Storage that is neither an element face, a fine face nor a ghost face is not used. -/
theorem unused (hm : m.Ok bs) {b : Buf} (hg : b.isGhost = false) (h1 : ∀ e ∈ m.elems, ∀ f < 2 * m.nd, b ≠ .elem e f) (h2 : ∀ r ∈ m.refs, ∀ i < nFace m.nd r.str, b ≠ r.fine i) :
    b ∉ m.sides ++ m.coarseBufs := by
  intro h
  rcases List.mem_append.1 (hm.cover.mem_iff.1 h) with h3 | h3
  · rcases List.mem_append.1 h3 with h4 | h4
    · obtain ⟨e, he, f, hf, h5⟩ := Mesh.elemFaces_elem h4
      exact h1 e he f hf h5
    · obtain ⟨r, hr, h4⟩ := List.mem_flatMap.1 h4
      obtain ⟨i, hi, h5⟩ := List.mem_map.1 h4
      exact h2 r hr i (List.mem_range.1 hi) h5.symm
  · have := (List.mem_filter.1 h3).2
    rw [hg] at this; cases this

/-! ## What kernels leave alone -/

variable (p : Spatial.Pde) (hu : p.nUpdate ≤ p.nExtrap)

/-- A kernel for connections that does not write beyond `L`. -/
theorem fr_cons (k : ConRec → Sides → Sides) {L : Nat} (hk : ∀ c st s l a, L ≤ a → k c st s l a = st s l a) (w : World) (hm : m.Ok bs) :
    Fr m L w (m.cons.foldl (onCon k) w) := by
  obtain ⟨a1, a2, a3, a4⟩ := cons_fold k m.cons w hm.sides_nodup
  intro b l a ha
  by_cases hb : b ∈ sidesOf m.cons
  · obtain ⟨c, hc, s, rfl⟩ := sidesOf_mem hb
    rw [a1 c hc s, hk _ _ _ _ _ (ha (List.mem_append.2 (Or.inl hb)))]
  · rw [a2 b hb]

include hu in
theorem fr_neighbor (w : World) (hm : m.Ok bs) : Fr m (p.nExtrap * bs.n ^ (m.nd - 1)) w (runNeighbor p bs m w) := by
  refine fr_cons _ ?_ w hm
  intro c st s l a ha
  have h2 : ¬ a < p.nUpdate * bs.n ^ (m.nd - 1) := fun h => absurd (h.trans_le (Nat.mul_le_mul_right _ hu)) (by omega)
  have h1 : ¬ a < p.nExtrap * bs.n ^ (m.nd - 1) := by omega
  simp only [neighbor]
  cases l <;> simp [h1, h2]

include hu in
theorem fr_reconcileCons (w : World) (hm : m.Ok bs) : Fr m (p.nExtrap * bs.n ^ (m.nd - 1)) w (runReconcileCons p bs m w) := by
  refine fr_cons _ ?_ w hm
  intro c st s l a ha
  have h2 : ¬ a < p.nUpdate * bs.n ^ (m.nd - 1) := fun h => absurd (h.trans_le (Nat.mul_le_mul_right _ hu)) (by omega)
  simp only [neighborReconcile]
  cases l <;> simp [h2]

include hn in
theorem fr_restrict (scale off : Bool) (w : World) (hm : m.Ok bs) : Fr m (p.nExtrap * bs.n ^ (m.nd - 1)) w (runRestrict p bs m scale off w) := by
  obtain ⟨a1, a2⟩ := restrict_fold p bs hn m.nd scale off m.refs w.buf hm.refs_nodup
  intro b l a ha
  show m.refs.foldl (restrictRef p bs m.nd scale off) w.buf b l a = _
  by_cases hb : b ∈ m.refs.flatMap (refBufs m.nd) ∧ l = off
  · obtain ⟨hb, rfl⟩ := hb
    obtain ⟨r, hr, hbr⟩ := List.mem_flatMap.1 hb
    obtain ⟨s1, s2, s3⟩ := a1 r hr
    rw [refBufs, List.mem_cons, List.mem_map] at hbr
    rcases hbr with rfl | ⟨i, hi, rfl⟩
    · rw [s2 a (ha (coarse_used hr))]
    · rw [s3 i (List.mem_range.1 hi), (restrictFine_apply bs hn m.nd p.nExtrap scale r.str i _ _).2.2 a (ha (fine_used hm hr (List.mem_range.1 hi)))]
  · rw [a2 b l (by tauto)]

include hn in
theorem fr_prolong (scale off : Bool) (w : World) (hm : m.Ok bs) : Fr m (p.nExtrap * bs.n ^ (m.nd - 1)) w (runProlong p bs m scale off w) := by
  obtain ⟨a1, a2⟩ := prolong_fold p bs m.nd scale off m.refs w.buf hm.refs_nodup
  intro b l a ha
  show m.refs.foldl (prolongRef p bs m.nd scale off) w.buf b l a = _
  by_cases hb : (∃ r ∈ m.refs, ∃ i < nFace m.nd r.str, b = r.fine i) ∧ l = off
  · obtain ⟨⟨r, hr, i, hi, rfl⟩, rfl⟩ := hb
    rw [a1 r hr i hi, (prolongFine_apply bs hn m.nd p.nExtrap scale r.str i _ _).2 a (ha (fine_used hm hr hi))]
  · rw [a2 b l ?_]
    by_cases hl : l = off
    · left; rintro r hr i hi rfl; exact hb ⟨⟨r, hr, i, hi, rfl⟩, hl⟩
    · exact Or.inr hl

include hn in
theorem writeFace_frame (nd : Nat) (st : Arr) (fa : Nat → Mem) (f a : Nat) (ha : p.nExtrap * bs.n ^ (nd - 1) ≤ a) : writeFace p bs nd st fa f a = fa f a :=
  (bounds_apply nd bs.n hn p.nExtrap (fun _ r => matRow bs.n bs.bound (readRow (fun k => p.fetchExtrap (fun v => st (v, k.2)) k.1) 0 r)) fa).2 f a (Or.inr ha)

include hn in
/-- The faces written depend on the state, and on what was there before beyond the entries that are written. -/
theorem writeFace_congr (nd : Nat) (st : Arr) (fa fa' : Nat → Mem) (h : ∀ f < 2 * nd, ∀ a, p.nExtrap * bs.n ^ (nd - 1) ≤ a → fa f a = fa' f a) (f : Nat) (hf : f < 2 * nd) :
    writeFace p bs nd st fa f = writeFace p bs nd st fa' f := by
  funext a
  by_cases ha : a < p.nExtrap * bs.n ^ (nd - 1)
  · obtain ⟨v, hv, k, hk, rfl⟩ := split_addr (Nat.pow_pos hn) ha
    obtain ⟨d, s, hd, hs, rfl⟩ : ∃ d s, d < nd ∧ s < 2 ∧ f = 2 * d + s := ⟨f / 2, f % 2, by omega, by omega, by omega⟩
    have e := fun fa => (bounds_apply nd bs.n hn p.nExtrap (fun _ r => matRow bs.n bs.bound (readRow (fun k => p.fetchExtrap (fun v => st (v, k.2)) k.1) 0 r)) fa).1 v hv d hd k hk s hs
    exact (e fa).trans (e fa').symm
  · rw [writeFace_frame hn p nd st fa f a (by omega), writeFace_frame hn p nd st fa' f a (by omega), h f hf a (by omega)]

/-- A kernel for elements that does not write beyond `L`. -/
theorem fr_elems (k : Nat → Arr → Arr → (Nat → Mem) → (Nat → Mem) → LocalOut) {L : Nat}
    (hk : ∀ e st ca fa vi f a, L ≤ a → (k e st ca fa vi).faces f a = fa f a ∧ (k e st ca fa vi).visc f a = vi f a) (w : World) (hm : m.Ok bs) :
    Fr m L w (m.elems.foldl (onElem m.nd k) w) := by
  obtain ⟨a1, a2, a3⟩ := elems_fold m.nd k m.elems w hm.elems_nodup
  intro b l a ha
  by_cases hb : ∃ e ∈ m.elems, ∃ f < 2 * m.nd, b = .elem e f
  · obtain ⟨e, he, f, hf, rfl⟩ := hb
    have hL := ha (elem_used hm he hf)
    cases l
    · rw [((a1 e he).2.2 f hf).1, (hk _ _ _ _ _ _ _ hL).1]
    · rw [((a1 e he).2.2 f hf).2, (hk _ _ _ _ _ _ _ hL).2]
  · rw [a3 b fun e he f hf h' => hb ⟨e, he, f, hf, h'⟩]

include hn hu in
theorem fr_local (o : Opts) (w : World) (hm : m.Ok bs) : Fr m (p.nExtrap * bs.n ^ (m.nd - 1)) w (runLocal p bs m o w) := by
  refine fr_elems _ ?_ w hm
  intro e st ca fa vi f a ha
  have h2 : p.nUpdate * bs.n ^ (m.nd - 1) ≤ a := (Nat.mul_le_mul_right _ hu).trans ha
  constructor
  · simp only [localKernel]
    split
    · rfl
    · exact writeFace_frame hn p m.nd _ _ _ _ ha
  · simp only [localKernel, localRate]
    rw [residual_visc]
    split
    · exact (bounds_apply m.nd bs.n hn p.nUpdate _ vi).2 f a (Or.inr h2)
    · rfl

include hn in
theorem fr_reconcileElems (o : Opts) (w : World) (hm : m.Ok bs) : Fr m (p.nExtrap * bs.n ^ (m.nd - 1)) w (runReconcileElems p bs m o w) := by
  refine fr_elems _ ?_ w hm
  intro e st ca fa vi f a ha
  exact ⟨writeFace_frame hn p m.nd _ _ _ _ ha, rfl⟩

theorem fr_bc (nvar : Nat) (ldg : Bool) (rule : Rule) (w : World) (hm : m.Ok bs) : Fr m (nvar * bs.n ^ (m.nd - 1)) w (runBc m.nd bs.n nvar ldg rule m.cons w) := by
  intro b l a ha
  by_cases hb : (∃ c ∈ m.cons, b = c.side true) ∧ l = ldg
  · obtain ⟨⟨c, hc, rfl⟩, rfl⟩ := hb
    by_cases hg : (c.side true).isGhost = true
    · rw [runBc_at hm.sides_nodup hc hg, faceBc, if_neg]
      have := ha (List.mem_append.2 (Or.inl (mem_sidesOf hc true)))
      omega
    · rw [(runBc_ghostOnly _ _ _ _ _ _ w).2.2 _ (by simpa using hg)]
  · rw [runBc_same]
    by_cases hl : l = ldg
    · left; rintro c hc rfl; exact hb ⟨⟨c, hc, rfl⟩, hl⟩
    · exact Or.inr hl

/-! ## Faces are determined by the states -/

include hm hn in
/-- After element kernels that write the faces from the states `S`, and the prolongation to fine faces, the face storage of elements and
fine faces is determined by the states. -/
theorem faces_determined (k k' : Nat → Arr → Arr → (Nat → Mem) → (Nat → Mem) → LocalOut) (S : Nat → Arr) {w w' : World} (hF : Fr m (p.nExtrap * bs.n ^ (m.nd - 1)) w w')
    (hk : ∀ e ∈ m.elems, (k e (w.state e) (w.cache e) (fun f => w.buf (.elem e f) false) fun f => w.buf (.elem e f) true).faces = writeFace p bs m.nd (S e) fun f => w.buf (.elem e f) false)
    (hk' : ∀ e ∈ m.elems, (k' e (w'.state e) (w'.cache e) (fun f => w'.buf (.elem e f) false) fun f => w'.buf (.elem e f) true).faces = writeFace p bs m.nd (S e) fun f => w'.buf (.elem e f) false)
    (b : Buf) (hg : b.isGhost = false) :
    (runProlong p bs m false false (m.elems.foldl (onElem m.nd k) w)).buf b false = (runProlong p bs m false false (m.elems.foldl (onElem m.nd k') w')).buf b false := by
  obtain ⟨a1, a2, a3⟩ := elems_fold m.nd k m.elems w hm.elems_nodup
  obtain ⟨b1, b2, b3⟩ := elems_fold m.nd k' m.elems w' hm.elems_nodup
  have hel : ∀ e ∈ m.elems, ∀ f < 2 * m.nd, (m.elems.foldl (onElem m.nd k) w).buf (.elem e f) false = (m.elems.foldl (onElem m.nd k') w').buf (.elem e f) false := by
    intro e he f hf
    rw [((a1 e he).2.2 f hf).1, ((b1 e he).2.2 f hf).1, hk e he, hk' e he]
    exact writeFace_congr hn p m.nd (S e) _ _ (fun f hf a ha => (hF _ false a fun _ => ha).symm) f hf
  obtain ⟨p1, p2⟩ := prolong_fold p bs m.nd false false m.refs (m.elems.foldl (onElem m.nd k) w).buf hm.refs_nodup
  obtain ⟨q1, q2⟩ := prolong_fold p bs m.nd false false m.refs (m.elems.foldl (onElem m.nd k') w').buf hm.refs_nodup
  show m.refs.foldl (prolongRef p bs m.nd false false) _ b false = m.refs.foldl (prolongRef p bs m.nd false false) _ b false
  by_cases hb : ∃ r ∈ m.refs, ∃ i < nFace m.nd r.str, b = r.fine i
  · obtain ⟨r, hr, i, hi, rfl⟩ := hb
    rw [p1 r hr i hi, q1 r hr i hi]
    obtain ⟨e, he, f, hf, hc⟩ := coarse_elem hm hr
    rw [hc, hel e he f hf]
    obtain ⟨x, y, hxy⟩ := fine_mortar hm hr hi
    have n1 : ∀ e ∈ m.elems, ∀ f < 2 * m.nd, r.fine i ≠ .elem e f := fun e _ f _ h => by rw [hxy] at h; cases h
    rw [a3 _ n1, b3 _ n1]
    funext a
    by_cases ha : a < p.nExtrap * bs.n ^ (m.nd - 1)
    · obtain ⟨v, hv, j, hj, rfl⟩ := split_addr (Nat.pow_pos hn) ha
      rw [(prolongFine_apply bs hn m.nd p.nExtrap false r.str i _ _).1 v hv j hj, (prolongFine_apply bs hn m.nd p.nExtrap false r.str i _ _).1 v hv j hj]
    · rw [(prolongFine_apply bs hn m.nd p.nExtrap false r.str i _ _).2 a (by omega), (prolongFine_apply bs hn m.nd p.nExtrap false r.str i _ _).2 a (by omega),
        hF _ false a fun _ => by omega]
  · have hb' : ∀ r ∈ m.refs, ∀ i < nFace m.nd r.str, b ≠ r.fine i := fun r hr i hi h => hb ⟨r, hr, i, hi, h⟩
    rw [p2 b false (Or.inl hb'), q2 b false (Or.inl hb')]
    by_cases he : ∃ e ∈ m.elems, ∃ f < 2 * m.nd, b = .elem e f
    · obtain ⟨e, he, f, hf, rfl⟩ := he
      exact hel e he f hf
    · have he' : ∀ e ∈ m.elems, ∀ f < 2 * m.nd, b ≠ .elem e f := fun e h1 f h2 h => he ⟨e, h1, f, h2, h⟩
      rw [a3 b he', b3 b he']
      funext a
      exact (hF b false a fun h => absurd h (unused hm hg he' hb')).symm

end
end Hexed.Residual
