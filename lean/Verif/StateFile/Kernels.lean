import Verif.StateFile.File
import Verif.Solver.Props
import Verif.Spatial.Order
set_option autoImplicit false
set_option linter.unusedVariables false

/-!
# On which data the kernels depend
-/

namespace Hexed.StateFile
open Hexed.Spatial Hexed.Pde Hexed.Solver
open Hexed.Connection (Dir matchFaces restore strAt Legal)
open Hexed.RowIndex (RowIndex rows)

/-- Equal except possibly for LDG faces. -/
structure FEq (w w' : World) : Prop where
  state : w.state = w'.state
  cache : w.cache = w'.cache
  buf : ∀ b, w.buf b false = w'.buf b false

theorem FEq.refl (w : World) : FEq w w := ⟨rfl, rfl, fun _ => rfl⟩

theorem foldl_rel {α β : Type} (R : α → α → Prop) (f : α → β → α) (h : ∀ a a' b, R a a' → R (f a b) (f a' b)) : ∀ (l : List β) (a a' : α), R a a' → R (l.foldl f a) (l.foldl f a')
  | [], a, a', r => r
  | b :: l, a, a', r => foldl_rel R f h l _ _ (h a a' b r)

theorem neighbor_feq (p : Pde) (bs : BasisData) (m : Mesh) {w w' : World} (h : FEq w w') : FEq (runNeighbor p bs m w) (runNeighbor p bs m w') := by
  rw [runNeighbor, runNeighbor]
  refine foldl_rel FEq _ ?_ _ _ _ h
  intro a a' c r
  refine ⟨r.state, r.cache, fun b => ?_⟩
  have e : ∀ s, neighbor p m.nd bs.n c.deformed c.dir c.normal (fun s => a.buf (c.side s)) s false = neighbor p m.nd bs.n c.deformed c.dir c.normal (fun s => a'.buf (c.side s)) s false := by
    intro s
    funext x
    simp only [neighbor, r.buf]
    rfl
  simp only [onCon]
  split
  · exact e true
  · split
    · exact e false
    · exact r.buf b

theorem refs_feq (k : (Buf → Bool → Mem) → RefRec → Buf → Bool → Mem) (hk : ∀ x x' r, (∀ b, x b false = x' b false) → ∀ b, k x r b false = k x' r b false) (l : List RefRec)
    {x x' : Buf → Bool → Mem} (h : ∀ b, x b false = x' b false) (b : Buf) : l.foldl k x b false = l.foldl k x' b false :=
  foldl_rel (fun x x' : Buf → Bool → Mem => ∀ b, x b false = x' b false) k (fun x x' r h => hk x x' r h) l x x' h b

theorem setBuf_feq {x x' : Buf → Bool → Mem} (h : ∀ b, x b false = x' b false) (b : Buf) (y y' : Mem) (hy : y = y') (c : Buf) : setBuf x b false y c false = setBuf x' b false y' c false := by
  subst hy
  simp only [setBuf]
  split
  · rfl
  · exact h c

theorem restrict_feq (p : Pde) (bs : BasisData) (m : Mesh) (scale : Bool) {w w' : World} (h : FEq w w') : FEq (runRestrict p bs m scale false w) (runRestrict p bs m scale false w') := by
  refine ⟨h.state, h.cache, fun b => ?_⟩
  refine refs_feq _ ?_ m.refs h.buf b
  intro x x' r hx b
  simp only [restrictRef]
  refine foldl_rel (fun x x' : Buf → Bool → Mem => ∀ b, x b false = x' b false) _ ?_ _ _ _ ?_ b
  · intro y y' i hy c
    refine setBuf_feq (fun c => setBuf_feq hy _ _ _ ?_ c) _ _ _ ?_ c
    · rw [hy, hy]
    · rw [hy, hy]
  · intro c
    refine setBuf_feq hx _ _ _ ?_ c
    rw [hx]

theorem prolong_feq (p : Pde) (bs : BasisData) (m : Mesh) (scale : Bool) {w w' : World} (h : FEq w w') : FEq (runProlong p bs m scale false w) (runProlong p bs m scale false w') := by
  refine ⟨h.state, h.cache, fun b => ?_⟩
  refine refs_feq _ ?_ m.refs h.buf b
  intro x x' r hx b
  simp only [prolongRef]
  refine foldl_rel (fun x x' : Buf → Bool → Mem => ∀ b, x b false = x' b false) _ ?_ _ _ _ hx b
  intro y y' i hy c
  refine setBuf_feq hy _ _ _ ?_ c
  rw [hy, hy]

/-- A kernel that does not look at LDG faces. -/
theorem elem_feq (nd : Nat) (k : Nat → Arr → Arr → (Nat → Mem) → (Nat → Mem) → LocalOut)
    (hk : ∀ e s c f v v', (k e s c f v).state = (k e s c f v').state ∧ (k e s c f v).cache = (k e s c f v').cache ∧ (k e s c f v).faces = (k e s c f v').faces)
    (l : List Nat) {w w' : World} (h : FEq w w') : FEq (l.foldl (onElem nd k) w) (l.foldl (onElem nd k) w') := by
  refine foldl_rel FEq _ ?_ _ _ _ h
  intro a a' e r
  have eb : (fun f => a.buf (.elem e f) false) = fun f => a'.buf (.elem e f) false := funext fun f => r.buf _
  obtain ⟨k1, k2, k3⟩ := hk e (a.state e) (a.cache e) (fun f => a.buf (.elem e f) false) (fun f => a.buf (.elem e f) true) fun f => a'.buf (.elem e f) true
  refine ⟨?_, ?_, ?_⟩
  · funext e'
    simp only [onElem]
    rw [k1, eb, r.state, r.cache]
  · funext e'
    simp only [onElem]
    rw [k2, eb, r.state, r.cache]
  · intro b
    cases b with
    | elem e' f =>
      simp only [onElem]
      split
      · simp only [Bool.false_eq_true, if_false]
        rw [k3, eb, r.state, r.cache]
      · exact r.buf _
    | mortar _ _ => exact r.buf _
    | ghost _ => exact r.buf _

theorem residual_fst (p : Pde) (hd : p.hasDiff = false) (bs : BasisData) (flux vs vs' : Nat → Arr) (faces : Nat → Mem) (nd : Nat) (r : Arr) (v v' : Nat → Mem) :
    (overRows nd bs.n (residualRow p bs flux vs faces) (r, v)).1 = (overRows nd bs.n (residualRow p bs flux vs' faces) (r, v')).1 := by
  rw [overRows, overRows]
  have h1 : ∀ (d : Nat) (l : List RowIndex) (a a' : Arr × (Nat → Mem)), a.1 = a'.1 →
      (l.foldl (fun a r => residualRow p bs flux vs faces a d r) a).1 = (l.foldl (fun a r => residualRow p bs flux vs' faces a d r) a').1 := by
    intro d l
    induction l with
    | nil => exact fun _ _ h => h
    | cons x l ih =>
      intro a a' h
      rw [List.foldl_cons, List.foldl_cons]
      refine ih _ _ ?_
      simp only [residualRow, hd, Bool.false_eq_true, if_false]
      rw [h]
  have h2 : ∀ (l : List Nat) (a a' : Arr × (Nat → Mem)), a.1 = a'.1 →
      (l.foldl (fun a i_dim => (rows (RowIndex.new nd bs.n i_dim)).foldl (fun a r => residualRow p bs flux vs faces a i_dim r) a) a).1 =
      (l.foldl (fun a i_dim => (rows (RowIndex.new nd bs.n i_dim)).foldl (fun a r => residualRow p bs flux vs' faces a i_dim r) a) a').1 := by
    intro l
    induction l with
    | nil => exact fun _ _ h => h
    | cons d l ih =>
      intro a a' h
      rw [List.foldl_cons, List.foldl_cons]
      exact ih _ _ (h1 d _ a a' h)
  exact h2 _ _ _ rfl

theorem local_visc (p : Pde) (hd : p.hasDiff = false) (bs : BasisData) (nd : Nat) (o : Opts) (e : ElemRec) (s c : Arr) (f v v' : Nat → Mem) :
    (localKernel p bs nd o e s c f v).state = (localKernel p bs nd o e s c f v').state ∧ (localKernel p bs nd o e s c f v).cache = (localKernel p bs nd o e s c f v').cache ∧
    (localKernel p bs nd o e s c f v).faces = (localKernel p bs nd o e s c f v').faces := by
  have e1 : (localRate p bs nd o e s f v).1 = (localRate p bs nd o e s f v').1 := by
    simp only [localRate]
    rw [residual_fst p hd bs _ (diffFlux p bs nd e s v) (diffFlux p bs nd e s v') f nd _ v v']
  simp only [localKernel, e1, and_self]

theorem local_feq (p : Pde) (hd : p.hasDiff = false) (bs : BasisData) (m : Mesh) (o : Opts) {w w' : World} (h : FEq w w') : FEq (runLocal p bs m o w) (runLocal p bs m o w') :=
  elem_feq m.nd _ (fun e s c f v v' => local_visc p hd bs m.nd o (m.elem e) s c f v v') m.elems h

theorem convection_feq (p : Pde) (hd : p.hasDiff = false) (bs : BasisData) (m : Mesh) (sr dt : ℝ) (stage filter : Bool) {w w' : World} (h : FEq w w') :
    ∃ u u', computeConvection p bs m sr dt stage false filter w = some u ∧ computeConvection p bs m sr dt stage false filter w' = some u' ∧ FEq u u' := by
  refine ⟨_, _, ?_, ?_, prolong_feq p bs m false (local_feq p hd bs m ⟨if stage then dt * sr else dt, stage, false, filter⟩ (restrict_feq p bs m true (neighbor_feq p bs m h)))⟩
  · simp [computeConvection, hd]
  · simp [computeConvection, hd]

/-! ## Faces after the kernels -/

theorem writeFace_ns (nd : Nat) (visc : Bool) (mu kappa mu' kappa' : Transport) : writeFace (ns nd visc mu kappa) = writeFace (ns nd false mu' kappa') := rfl

theorem writeFace_out (p : Pde) (bs : BasisData) (hn : 0 < bs.n) (nd : Nat) (s : Arr) (f : Nat → Mem) (i a : Nat) (h : 2 * nd ≤ i ∨ p.nExtrap * bs.n ^ (nd - 1) ≤ a) :
    writeFace p bs nd s f i a = f i a := by
  rw [writeFace]
  exact (bounds_apply nd bs.n hn p.nExtrap (fun _ r => matRow bs.n bs.bound (readRow (fun k => p.fetchExtrap (fun v => s (v, k.2)) k.1) 0 r)) f).2 i a h

/-- What `Write_face` writes does not depend on what was on the faces. -/
theorem writeFace_congr (p : Pde) (bs : BasisData) (hn : 0 < bs.n) (nd : Nat) (s : Arr) (f f' : Nat → Mem) (i a : Nat) (h : 2 * nd ≤ i ∨ p.nExtrap * bs.n ^ (nd - 1) ≤ a → f i a = f' i a) :
    writeFace p bs nd s f i a = writeFace p bs nd s f' i a := by
  by_cases hr : 2 * nd ≤ i ∨ p.nExtrap * bs.n ^ (nd - 1) ≤ a
  · rw [writeFace_out p bs hn nd s f i a hr, writeFace_out p bs hn nd s f' i a hr, h hr]
  · push Not at hr
    have hN : 0 < bs.n ^ (nd - 1) := Nat.pow_pos hn
    have h1 := fun f => (bounds_apply nd bs.n hn p.nExtrap (fun _ r => matRow bs.n bs.bound (readRow (fun k => p.fetchExtrap (fun v => s (v, k.2)) k.1) 0 r)) f).1
      (a / bs.n ^ (nd - 1)) (Nat.div_lt_of_lt_mul (by rw [Nat.mul_comm]; exact hr.2)) (i / 2) (by omega) (a % bs.n ^ (nd - 1)) (Nat.mod_lt _ hN) (i % 2) (by omega)
    simp only [Nat.div_add_mod', show 2 * (i / 2) + i % 2 = i by omega] at h1
    rw [writeFace, writeFace, h1, h1]

theorem prolongFine_congr (bs : BasisData) (hn : 0 < bs.n) (nd nvar : Nat) (scale : Bool) (str : Bool × Bool) (i : Nat) (coarse fine fine' : Mem) (a : Nat)
    (h : nvar * bs.n ^ (nd - 1) ≤ a → fine a = fine' a) : prolongFine bs nd nvar scale str i coarse fine a = prolongFine bs nd nvar scale str i coarse fine' a := by
  obtain ⟨p1, p2⟩ := prolongFine_apply bs hn nd nvar scale str i coarse fine
  obtain ⟨q1, q2⟩ := prolongFine_apply bs hn nd nvar scale str i coarse fine'
  by_cases hr : nvar * bs.n ^ (nd - 1) ≤ a
  · rw [p2 a hr, q2 a hr, h hr]
  · have hN : 0 < bs.n ^ (nd - 1) := Nat.pow_pos hn
    have hv : a / bs.n ^ (nd - 1) < nvar := Nat.div_lt_of_lt_mul (by rw [Nat.mul_comm]; omega)
    have e1 := p1 _ hv _ (Nat.mod_lt a hN)
    have e2 := q1 _ hv _ (Nat.mod_lt a hN)
    simp only [Nat.div_add_mod'] at e1 e2
    rw [e1, e2]

end Hexed.StateFile
