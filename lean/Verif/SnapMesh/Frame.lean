import Verif.SnapMesh.Sweep
set_option autoImplicit false
set_option linter.unusedVariables false

/-!
# What snapping all faces leaves unchanged
-/

namespace Hexed.SnapMesh
open Hexed.Spatial Hexed.Pde
open Hexed.StateFile (runWriteFace writeFaces_spec)
open Hexed.FaceSnap (Elem Geometry Out snapNodeAdj interpMat)
open Hexed.RowIndex (RowIndex rows)
open Hexed.Basis (ell)
noncomputable section

theorem sweep_frame {bs : BasisData} {b : Basis.Nodes ℝ} (hbn : bs.n = b.n) (hn : 0 < b.n) (l : Basis.Nodes ℝ) {s : Setup} (hm : s.mesh.Ok bs) (mu kappa : Transport) (second : Bool) (d d' : Data)
    (h : sweep mu kappa b l bs s second d = some d') : d'.world.cache = d.world.cache ∧ ∃ buf : Buf → Bool → Mem,
      ∀ e, (d'.world.state e, d'.elem e) = (surfaceOf s.bounds e).foldl (fun a c => storeStep b l s.mesh.nd buf c a) (s.bounds.foldl (loadOne b.n s.mesh.nd d.elem) (clear b.n s.mesh d.world).state e, d.elem e) := by
  rw [← hbn] at hn
  set w0 : World := { clear b.n s.mesh d.world with state := s.bounds.foldl (loadOne b.n s.mesh.nd d.elem) (clear b.n s.mesh d.world).state } with hw0
  obtain ⟨f1, f2, f3⟩ := faces_of_state hm hn mu kappa w0
  set w1 := runProlong (ns s.mesh.nd false mu kappa) bs s.mesh false false (runWriteFace mu kappa bs s.mesh w0) with hw1
  obtain ⟨buf, hb, h⟩ := Option.bind_eq_some_iff.1 h
  obtain rfl := (Option.some.inj h).symm
  obtain ⟨a1, a2, a3⟩ := average_spec hm b.n { w1 with buf := buf }
  refine ⟨a2.trans f2, (runRestrict (ns s.mesh.nd false mu kappa) bs s.mesh false true (average b.n s.mesh { w1 with buf := buf })).buf, fun e => ?_⟩
  have e2 : (average b.n s.mesh { w1 with buf := buf }).state = w0.state := a1.trans f1
  have h := store_fold b l s.mesh.nd (runRestrict (ns s.mesh.nd false mu kappa) bs s.mesh false true (average b.n s.mesh { w1 with buf := buf })).buf e s.bounds ((average b.n s.mesh { w1 with buf := buf }).state, d.elem)
  refine h.trans ?_
  dsimp only
  rw [e2]

/-- What is not changed about an element. -/
def SameBut (n nd : Nat) (P : Nat → Prop) (e e' : Elem) : Prop :=
  e'.vert = e.vert ∧ e'.size = e.size ∧ e'.needs = e.needs ∧ e'.deformed = e.deformed ∧ ∀ f, ¬P f → ∀ k < n ^ (nd - 1), e'.adj (f * n ^ (nd - 1) + k) = e.adj (f * n ^ (nd - 1) + k)

theorem SameBut.refl (n nd : Nat) (P : Nat → Prop) (e : Elem) : SameBut n nd P e e := ⟨rfl, rfl, rfl, rfl, fun _ _ _ _ => rfl⟩

theorem SameBut.trans {n nd : Nat} {P : Nat → Prop} {e e' e'' : Elem} (h : SameBut n nd P e e') (h' : SameBut n nd P e' e'') : SameBut n nd P e e'' :=
  ⟨h'.1.trans h.1, h'.2.1.trans h.2.1, h'.2.2.1.trans h.2.2.1, h'.2.2.2.1.trans h.2.2.2.1, fun f hf k hk => (h'.2.2.2.2 f hf k hk).trans (h.2.2.2.2 f hf k hk)⟩

theorem adjStart_eq {n nd : Nat} (hn : 0 < n) (hnd : 1 ≤ nd) (c : Bound) : adjStart n nd c = (2 * c.dim + c.sign) * n ^ (nd - 1) := by
  rw [adjStart]
  obtain ⟨k, rfl⟩ : ∃ k, nd = k + 1 := ⟨nd - 1, by omega⟩
  rw [pow_succ, ← mul_assoc, Nat.mul_div_cancel _ hn, Nat.add_sub_cancel]

theorem face_inj {N f f' k k' : Nat} (hk : k < N) (hk' : k' < N) (h : f * N + k = f' * N + k') : f = f' ∧ k = k' := by
  have h1 : (f * N + k) / N = f := by rw [Nat.add_comm, Nat.add_mul_div_right _ _ (by omega), Nat.div_eq_of_lt hk, Nat.zero_add]
  have h2 : (f' * N + k') / N = f' := by rw [Nat.add_comm, Nat.add_mul_div_right _ _ (by omega), Nat.div_eq_of_lt hk', Nat.zero_add]
  have h3 : f = f' := by rw [← h1, ← h2, h]
  subst h3
  exact ⟨rfl, by omega⟩

theorem storeStep_frame {b l : Basis.Nodes ℝ} (hn : 0 < b.n) {nd : Nat} (buf : Buf → Bool → Mem) {c : Bound} (hd : c.dim < nd) (a : Arr × Elem) :
    (∀ k, (k.1 ≠ 0 ∨ b.n ^ nd ≤ k.2) → (storeStep b l nd buf c a).1 k = a.1 k) ∧ SameBut b.n nd (fun f => f = 2 * c.dim + c.sign) a.2 (storeStep b l nd buf c a).2 := by
  have key : ∀ (js : List Nat), (∀ j ∈ js, j < nd) → ∀ (x : Arr) k, (k.1 ≠ 0 ∨ b.n ^ nd ≤ k.2) → js.foldl (storeDim b l nd fun f => buf (.elem c.elem f) true) x k = x k := by
    intro js
    induction js with
    | nil => intro _ x k _; rfl
    | cons j js ih =>
      intro hjs x k hk
      rw [List.foldl_cons, ih (fun j hj => hjs j (List.mem_cons_of_mem _ hj)) _ k hk]
      exact (storeDim_eq hn (hjs j (List.mem_cons_self ..)) _ x).2 k hk
  rw [storeStep]
  split_ifs with hdef
  · refine ⟨fun k hk => key _ (fun j hj => List.mem_range.1 (List.mem_filter.1 hj).1) _ k hk, rfl, rfl, rfl, rfl, fun f hf k hk => ?_⟩
    dsimp only
    exact (adj_fold hn hd (adjStart b.n nd c) (fun q => sgn c.sign * (((List.range nd).filter fun j => j ≠ c.dim).foldl (storeDim b l nd fun f => buf (.elem c.elem f) true) a.1) (0, q)) a.2.adj).2 _ (by
      intro k' hk' h
      rw [adjStart_eq hn (by omega)] at h
      exact hf (face_inj hk hk' h).1)
  · exact ⟨fun _ _ => rfl, SameBut.refl _ _ _ _⟩

theorem store_frame {b l : Basis.Nodes ℝ} (hn : 0 < b.n) {nd : Nat} (buf : Buf → Bool → Mem) (P : Nat → Prop) : ∀ (cs : List Bound) (a : Arr × Elem), (∀ c ∈ cs, c.dim < nd ∧ P (2 * c.dim + c.sign)) →
    (∀ k, (k.1 ≠ 0 ∨ b.n ^ nd ≤ k.2) → (cs.foldl (fun a c => storeStep b l nd buf c a) a).1 k = a.1 k) ∧ SameBut b.n nd P a.2 (cs.foldl (fun a c => storeStep b l nd buf c a) a).2
  | [], a, _ => ⟨fun _ _ => rfl, SameBut.refl _ _ _ _⟩
  | c :: cs, a, h => by
    obtain ⟨h1, h2⟩ := storeStep_frame (l := l) hn buf (h c (List.mem_cons_self ..)).1 a
    obtain ⟨h3, h4⟩ := store_frame hn buf P cs (storeStep b l nd buf c a) fun c hc => h c (List.mem_cons_of_mem _ hc)
    refine ⟨fun k hk => (h3 k hk).trans (h1 k hk), SameBut.trans ⟨h2.1, h2.2.1, h2.2.2.1, h2.2.2.2.1, fun f hf k hk => h2.2.2.2.2 f (fun hf' => hf ?_) k hk⟩ h4⟩
    rw [hf']; exact (h c (List.mem_cons_self ..)).2

theorem load_frame {n nd : Nat} (hn : 0 < n) (el : Nat → Elem) : ∀ (cs : List Bound) (a : Arr), (∀ c ∈ cs, c.dim < nd) → ∀ k, (k.1 ≠ 0 ∨ n ^ nd ≤ k.2) → cs.foldl (fun a c => loadStep n nd el c a) a k = a k
  | [], a, _, _, _ => rfl
  | c :: cs, a, h, k, hk => by
    rw [List.foldl_cons, load_frame hn el cs _ (fun c hc => h c (List.mem_cons_of_mem _ hc)) k hk]
    exact (loadStep_eq hn (h c (List.mem_cons_self ..)) el a).2 k hk

theorem mem_surface {l : List Bound} {e : Nat} {c : Bound} : c ∈ surfaceOf l e ↔ c ∈ l ∧ c.surface = true ∧ c.elem = e := by
  rw [surfaceOf, List.mem_filter, Bool.and_eq_true, decide_eq_true_iff]

/-- The faces of element `e` that may be changed. -/
def Touched (s : Setup) (e f : Nat) : Prop := ∃ c ∈ s.bounds, c.elem = e ∧ f = 2 * c.dim + c.sign ∧ (c.surface = true ∨ c.geom ≠ none)

theorem sweep_same {bs : BasisData} {b : Basis.Nodes ℝ} (hbn : bs.n = b.n) (hn : 0 < b.n) (l : Basis.Nodes ℝ) {s : Setup} (hm : s.mesh.Ok bs) (hs : s.Ok) (mu kappa : Transport) (second : Bool) (d d' : Data)
    (h : sweep mu kappa b l bs s second d = some d') : d'.world.cache = d.world.cache ∧ ∀ e,
      (∀ k, ¬(e ∈ s.mesh.elems ∧ isDof b.n s.mesh.nd k) → d'.world.state e k = d.world.state e k) ∧ SameBut b.n s.mesh.nd (Touched s e) (d.elem e) (d'.elem e) := by
  obtain ⟨h1, buf, h2⟩ := sweep_frame hbn hn l hm mu kappa second d d' h
  refine ⟨h1, fun e => ?_⟩
  have hc : ∀ c ∈ surfaceOf s.bounds e, c.dim < s.mesh.nd ∧ Touched s e (2 * c.dim + c.sign) := by
    intro c hc
    obtain ⟨hc1, hc2, hc3⟩ := mem_surface.1 hc
    exact ⟨(hs c hc1).2.1, c, hc1, hc3, rfl, Or.inl hc2⟩
  obtain ⟨h3, h4⟩ := store_frame (l := l) hn buf (Touched s e) (surfaceOf s.bounds e) (s.bounds.foldl (loadOne b.n s.mesh.nd d.elem) (clear b.n s.mesh d.world).state e, d.elem e) hc
  rw [← h2 e] at h3 h4
  refine ⟨fun k hk => ?_, h4⟩
  have e1 : (clear b.n s.mesh d.world).state e k = d.world.state e k := by rw [clear]; exact if_neg hk
  by_cases he : e ∈ s.mesh.elems
  · have hk' : k.1 ≠ 0 ∨ b.n ^ s.mesh.nd ≤ k.2 := by
      by_contra h5
      push Not at h5
      exact hk ⟨he, by rw [isDof]; omega⟩
    refine (h3 k hk').trans ?_
    dsimp only
    rw [load_fold, load_frame hn _ _ _ (fun c hc' => (hc c hc').1) k hk', e1]
  · have h5 : surfaceOf s.bounds e = [] := by
      rw [List.eq_nil_iff_forall_not_mem]
      intro c hc'
      obtain ⟨hc1, hc2, hc3⟩ := mem_surface.1 hc'
      exact he (hc3 ▸ (hs c hc1).1)
    have h6 := h2 e
    rw [h5, load_fold, h5] at h6
    refine (congrFun (Prod.ext_iff.1 h6).1 k).trans ?_
    rw [← e1]
    rfl

theorem sweeps_same {bs : BasisData} {b : Basis.Nodes ℝ} (hbn : bs.n = b.n) (hn : 0 < b.n) (l : Basis.Nodes ℝ) {s : Setup} (hm : s.mesh.Ok bs) (hs : s.Ok) (mu kappa : Transport) : ∀ (k : Nat) (d d' : Data),
    sweeps mu kappa b l bs s k d = some d' → d'.world.cache = d.world.cache ∧ ∀ e,
      (∀ k, ¬(e ∈ s.mesh.elems ∧ isDof b.n s.mesh.nd k) → d'.world.state e k = d.world.state e k) ∧ SameBut b.n s.mesh.nd (Touched s e) (d.elem e) (d'.elem e)
  | 0, d, d', h => by
    obtain rfl := Option.some.inj h
    exact ⟨rfl, fun e => ⟨fun _ _ => rfl, SameBut.refl _ _ _ _⟩⟩
  | k + 1, d, d', h => by
    obtain ⟨d1, h1, h2⟩ := Option.bind_eq_some_iff.1 h
    obtain ⟨i1, i2⟩ := sweeps_same hbn hn l hm hs mu kappa k d d1 h1
    obtain ⟨j1, j2⟩ := sweep_same hbn hn l hm hs mu kappa _ d1 d' h2
    exact ⟨j1.trans i1, fun e => ⟨fun k hk => ((j2 e).1 k hk).trans ((i2 e).1 k hk), (i2 e).2.trans (j2 e).2⟩⟩

theorem out_bind {A B : Type} {x : Out A} {f : A → Out B} {y : B} (h : x.bind f = .ok y) : ∃ a, x = .ok a ∧ f a = .ok y := by
  rcases x with a | _ | _
  · exact ⟨a, rfl, h⟩
  · cases h
  · cases h

theorem snapAll_same {b : Basis.Nodes ℝ} (hn : 0 < b.n) (lob : Nat → Basis.Nodes ℝ) (u : Nat → ℝ) {nd : Nat} (hnd : 1 ≤ nd) (P : Nat → Nat → Prop) : ∀ (cs : List Bound) (el el' : Nat → Elem),
    (∀ c ∈ cs, c.geom ≠ none → P c.elem (2 * c.dim + c.sign)) → snapAll b lob u nd cs el = .ok el' → ∀ e, SameBut b.n nd (P e) (el e) (el' e)
  | [], el, el', _, h, e => by
    obtain rfl : el = el' := by rw [snapAll] at h; cases h; rfl
    exact SameBut.refl _ _ _ _
  | c :: cs, el, el', hP, h, e => by
    obtain ⟨el1, h1, h2⟩ := out_bind h
    refine SameBut.trans ?_ (snapAll_same hn lob u hnd P cs el1 el' (fun c hc => hP c (List.mem_cons_of_mem _ hc)) h2 e)
    rw [snapOne] at h1
    rcases hg : c.geom with _ | g
    · rw [hg] at h1; cases h1; exact SameBut.refl _ _ _ _
    · rw [hg] at h1
      obtain ⟨x, h3, h4⟩ := out_bind h1
      obtain rfl : put el c.elem x = el1 := by cases h4; rfl
      by_cases he : e = c.elem
      · rw [he, put_self]
        obtain ⟨g1, g2, g3, g4, g5⟩ := FaceSnap.snap_frame b hn lob u g nd hnd (el c.elem) x c.dim c.sign h3
        refine ⟨g1, g2, g3, g4, fun f hf k hk => g5 f ?_ k hk⟩
        rintro rfl
        exact hf (hP c (List.mem_cons_self ..) (by rw [hg]; simp))
      · rw [put_ne _ he]; exact SameBut.refl _ _ _ _

end
end Hexed.SnapMesh
