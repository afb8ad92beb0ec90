import Verif.SnapMesh.Spec
import Verif.StateFile.Restart
import Verif.FaceSnap.Props
set_option autoImplicit false
set_option linter.unusedVariables false

/-!
# Lemmas about snapping all faces
-/

namespace Hexed.SnapMesh
open Hexed.Spatial Hexed.Pde
open Hexed.StateFile (runWriteFace writeFaces_spec)
open Hexed.FaceSnap (Elem Geometry Out snapNodeAdj interpMat)
open Hexed.RowIndex (RowIndex rows)
open Hexed.Basis (ell)
noncomputable section

theorem put_self {A : Type} (f : Nat → A) (i : Nat) (x : A) : put f i x i = x := if_pos rfl
theorem put_ne {A : Type} (f : Nat → A) {i j : Nat} (h : j ≠ i) (x : A) : put f i x j = f j := if_neg h

theorem surface_cons (c : Bound) (l : List Bound) (e : Nat) : surfaceOf (c :: l) e = if c.surface = true ∧ c.elem = e then c :: surfaceOf l e else surfaceOf l e := by
  rw [surfaceOf, List.filter_cons]
  by_cases h : c.surface = true ∧ c.elem = e
  · rw [if_pos h, if_pos (by simp [h.1, h.2])]; rfl
  · rw [if_neg h, if_neg (by simpa using h)]; rfl

/-- What loading one face does to its element. -/
def loadStep (n nd : Nat) (el : Nat → Elem) (c : Bound) (a : Arr) : Arr :=
  if (el c.elem).deformed then
    (rows (RowIndex.new nd n c.dim)).foldl (fun a r => writeRow 1 (fun _ _ => sgn c.sign * (el c.elem).adj (adjStart n nd c + r.i_face_qpoint)) a 0 r 0) a
  else a

theorem loadOne_eq (n nd : Nat) (el : Nat → Elem) (st : Nat → Arr) (c : Bound) (e : Nat) :
    loadOne n nd el st c e = if c.surface = true ∧ c.elem = e then loadStep n nd el c (st e) else st e := by
  by_cases h : c.surface = true ∧ c.elem = e
  · rw [if_pos h, loadOne, loadStep, h.1, Bool.true_and]
    obtain ⟨h1, rfl⟩ := h
    by_cases h2 : (el c.elem).deformed = true
    · rw [if_pos h2, if_pos h2, put_self]
    · rw [if_neg h2, if_neg h2]
  · rw [if_neg h, loadOne]
    split_ifs with h2
    · refine put_ne _ (fun h3 => h ⟨?_, h3.symm⟩) _
      rw [Bool.and_eq_true] at h2; exact h2.1
    · rfl

theorem load_fold (n nd : Nat) (el : Nat → Elem) (e : Nat) : ∀ (l : List Bound) (st : Nat → Arr), l.foldl (loadOne n nd el) st e = (surfaceOf l e).foldl (fun a c => loadStep n nd el c a) (st e)
  | [], st => rfl
  | c :: l, st => by
    rw [List.foldl_cons, load_fold n nd el e l, loadOne_eq, surface_cons]
    split_ifs <;> rfl

/-- What storing one face does to its element. -/
def storeStep (b l : Basis.Nodes ℝ) (nd : Nat) (buf : Buf → Bool → Mem) (c : Bound) (s : Arr × Elem) : Arr × Elem :=
  if s.2.deformed then
    let a := ((List.range nd).filter fun j => j ≠ c.dim).foldl (storeDim b l nd fun f => buf (.elem c.elem f) true) s.1
    let adj := (rows (RowIndex.new nd b.n c.dim)).foldl (fun (adj : Mem) r i => if i = adjStart b.n nd c + r.i_face_qpoint then sgn c.sign * a (0, r.i_qpoint 0) else adj i) s.2.adj
    (a, { s.2 with adj := adj })
  else s

theorem storeOne_eq (b l : Basis.Nodes ℝ) (nd : Nat) (buf : Buf → Bool → Mem) (s : (Nat → Arr) × (Nat → Elem)) (c : Bound) (e : Nat) :
    ((storeOne b l nd buf s c).1 e, (storeOne b l nd buf s c).2 e) = if c.surface = true ∧ c.elem = e then storeStep b l nd buf c (s.1 e, s.2 e) else (s.1 e, s.2 e) := by
  by_cases h : c.surface = true ∧ c.elem = e
  · rw [if_pos h, storeOne, storeStep, h.1, Bool.true_and]
    obtain ⟨h1, rfl⟩ := h
    by_cases h2 : (s.2 c.elem).deformed = true
    · rw [if_pos h2, if_pos h2]
      dsimp only
      rw [put_self, put_self]
    · rw [if_neg h2, if_neg h2]
  · rw [if_neg h, storeOne]
    split_ifs with h2
    · have h3 : e ≠ c.elem := fun h3 => h ⟨by rw [Bool.and_eq_true] at h2; exact h2.1, h3.symm⟩
      dsimp only
      rw [put_ne _ h3, put_ne _ h3]
    · rfl

theorem store_fold (b l : Basis.Nodes ℝ) (nd : Nat) (buf : Buf → Bool → Mem) (e : Nat) : ∀ (cs : List Bound) (s : (Nat → Arr) × (Nat → Elem)),
    ((cs.foldl (storeOne b l nd buf) s).1 e, (cs.foldl (storeOne b l nd buf) s).2 e) = (surfaceOf cs e).foldl (fun a c => storeStep b l nd buf c a) (s.1 e, s.2 e)
  | [], s => rfl
  | c :: cs, s => by
    rw [List.foldl_cons, store_fold b l nd buf e cs, storeOne_eq, surface_cons]
    split_ifs <;> rfl

/-- The loaded state. -/
theorem loadStep_eq {n nd : Nat} (hn : 0 < n) {c : Bound} (hd : c.dim < nd) (el : Nat → Elem) (a : Arr) :
    (∀ q < n ^ nd, (el c.elem).deformed = true → loadStep n nd el c a (0, q) = sgn c.sign * (el c.elem).adj (adjStart n nd c + rowOf nd n c.dim q)) ∧
    ∀ k, (k.1 ≠ 0 ∨ n ^ nd ≤ k.2) → loadStep n nd el c a k = a k := by
  obtain ⟨h1, h2⟩ := rows_write nd n c.dim hn hd 1 0 0 (fun _ r _ _ => sgn c.sign * (el c.elem).adj (adjStart n nd c + r.i_face_qpoint)) (fun _ _ _ _ _ _ _ _ => rfl) a
  rw [loadStep]
  refine ⟨fun q hq hdef => ?_, fun k hk => ?_⟩
  · rw [if_pos hdef]
    have h3 := h1 0 (by omega) (rowOf nd n c.dim q) (rowOf_lt hn hd hq) (nodeOf nd n c.dim q) (nodeOf_lt nd hn c.dim q)
    rw [pt_row hn, Nat.zero_add, zero_mul, zero_add, (after_fields nd n c.dim hn hd _).2.2.2] at h3
    exact h3
  · split_ifs
    · refine h2 k ?_
      rintro v hv q hq rfl
      rcases hk with hk | hk
      · exact hk (by simp; omega)
      · exact absurd hq (by simpa using hk)
    · rfl

theorem loadStep_not {n nd : Nat} {c : Bound} (el : Nat → Elem) (a : Arr) (h : (el c.elem).deformed = false) : loadStep n nd el c a = a := by
  rw [loadStep, h]; rfl

/-- All rows along one dimension. -/
theorem storeDim_eq {b l : Basis.Nodes ℝ} (hn : 0 < b.n) {nd j : Nat} (hj : j < nd) (ldg : Nat → Mem) (a : Arr) :
    (∀ k < b.n ^ (nd - 1), ∀ i < b.n, storeDim b l nd ldg a j (0, pt nd b.n j k i) = newRow b l (fun i => a (0, pt nd b.n j k i)) (fun s => ldg (2 * j + s) k) i) ∧
    ∀ k, (k.1 ≠ 0 ∨ b.n ^ nd ≤ k.2) → storeDim b l nd ldg a j k = a k := by
  obtain ⟨h1, h2⟩ := rows_write nd b.n j hn hj 1 0 0 (fun a r i _ => newRow b l (fun k => readRow a 0 r k 0) (fun s => ldg (2 * j + s) r.i_face_qpoint) i) (by
    intro k m m' hk h i v hv
    rw [newRow, newRow]
    refine Finset.sum_congr rfl fun x _ => ?_
    congr 1
    beta_reduce
    split_ifs <;> try rfl
    refine Finset.sum_congr rfl fun y hy => ?_
    congr 1
    rw [readRow_after hn hj, readRow_after hn hj]
    exact h 0 (by omega) y (Finset.mem_range.1 hy)) a
  refine ⟨fun k hk i hi => ?_, fun k hk => ?_⟩
  · have h3 := h1 0 (by omega) k hk i hi
    rw [Nat.zero_add, zero_mul, zero_add, (after_fields nd b.n j hn hj _).2.2.2] at h3
    rw [storeDim, h3]
    simp only [readRow_after hn hj]
  · refine h2 k ?_
    rintro v hv q hq rfl
    rcases hk with hk | hk
    · exact hk (by simp; omega)
    · exact absurd hq (by simpa using hk)

/-- The adjustments written back. -/
theorem adj_fold {n nd : Nat} (hn : 0 < n) {d : Nat} (hd : d < nd) (A : Nat) (x : Nat → ℝ) (adj : Mem) :
    (∀ k < n ^ (nd - 1), (rows (RowIndex.new nd n d)).foldl (fun (adj : Mem) r i => if i = A + r.i_face_qpoint then x (r.i_qpoint 0) else adj i) adj (A + k) = x (pt nd n d k 0)) ∧
    ∀ i, (∀ k < n ^ (nd - 1), i ≠ A + k) → (rows (RowIndex.new nd n d)).foldl (fun (adj : Mem) r i => if i = A + r.i_face_qpoint then x (r.i_qpoint 0) else adj i) adj i = adj i := by
  rw [rows_new nd n d hn hd, List.foldl_map]
  have key : ∀ K, (∀ k < K, (List.range K).foldl (fun (adj : Mem) k i => if i = A + (RowIndex.after nd n d k).i_face_qpoint then x ((RowIndex.after nd n d k).i_qpoint 0) else adj i) adj (A + k) = x (pt nd n d k 0)) ∧
      ∀ i, (∀ k < K, i ≠ A + k) → (List.range K).foldl (fun (adj : Mem) k i => if i = A + (RowIndex.after nd n d k).i_face_qpoint then x ((RowIndex.after nd n d k).i_qpoint 0) else adj i) adj i = adj i := by
    intro K
    induction K with
    | zero => exact ⟨by omega, fun _ _ => rfl⟩
    | succ K ih =>
      obtain ⟨ih1, ih2⟩ := ih
      simp only [List.range_succ, List.foldl_append, List.foldl_cons, List.foldl_nil]
      rw [(after_fields nd n d hn hd K).2.2.2, qpoint_pt nd n d hn hd]
      refine ⟨fun k hk => ?_, fun i hi => ?_⟩
      · by_cases h : k = K
        · rw [if_pos (by rw [h]), h]
        · rw [if_neg (by omega)]; exact ih1 k (by omega)
      · rw [if_neg (hi K (by omega))]; exact ih2 i fun k hk => hi k (by omega)
  exact key _

end
end Hexed.SnapMesh
