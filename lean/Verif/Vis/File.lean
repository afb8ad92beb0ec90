import Verif.Vis.Data
import Verif.RowIndex.Props
set_option autoImplicit false
set_option linter.unusedVariables false

/-! # Helper lemmas: the arrays of the file -/

namespace Hexed.Vis
open Hexed.Tensor Hexed.Basis Hexed.Stats
open Hexed.RowIndex (RowIndex)

theorem idx_sum {n : Nat} : ∀ {nd : Nat} (d : Fin nd → Fin n), idx d = ∑ k : Fin nd, (d k : Nat) * n ^ (nd - 1 - k)
  | 0, d => rfl
  | nd + 1, d => by
    have hc : d = Fin.cons (d 0) (Fin.tail d) := (Fin.cons_self_tail d).symm
    rw [hc, idx_cons, idx_sum (Fin.tail d), Fin.sum_univ_succ]
    simp only [Fin.cons_zero, Fin.cons_succ, Fin.val_zero, Fin.val_succ, Nat.sub_zero, Nat.add_sub_cancel]
    congr 1
    refine Finset.sum_congr rfl fun k _ => ?_
    congr 2
    omega

theorem nodeInds_eq {nt : Nat} (hnt : nt = 1 ∨ nt = 2 ∨ nt = 3) {i_vert k : Nat} (hi : i_vert < 2 ^ nt) (hk : k < nt) : nodeInds nt i_vert k = vtkCorner i_vert k := by
  have : ∀ nt ∈ [1, 2, 3], ∀ i < 2 ^ nt, ∀ k < nt, nodeInds nt i k = vtkCorner i k := by decide
  exact this nt (by simpa using hnt) i_vert hi k hk

theorem foldl_add_sum (f : Nat → Nat) (a : Nat) : ∀ n, (List.range n).foldl (fun s k => s + f k) a = a + ∑ k ∈ Finset.range n, f k
  | 0 => by simp
  | n + 1 => by rw [List.range_succ, List.foldl_append, foldl_add_sum f a n, Finset.sum_range_succ]; simp [Nat.add_assoc]

theorem iNode_eq {nt n : Nat} (hnt : nt = 1 ∨ nt = 2 ∨ nt = 3) (hn : 2 ≤ n) (e : Nat) (c : Fin nt → Fin (n - 1)) {i_vert : Nat} (hi : i_vert < 2 ^ nt) (d : Fin nt → Fin n)
    (hd : ∀ k : Fin nt, (d k : Nat) = c k + vtkCorner i_vert k) : iNode nt n e (idx c) i_vert = e * n ^ nt + idx d := by
  unfold iNode
  rw [foldl_add_sum, MathFn.pow_nat, Finset.sum_range, idx_sum d]
  congr 1
  refine Finset.sum_congr rfl fun k _ => ?_
  rw [RowIndex.new_stride nt (n - 1) k k.2, RowIndex.new_stride nt n k k.2, idx_digit (by omega) c k, nodeInds_eq hnt hi k.2, hd k]

/-- Appending chunks of equal length. -/
theorem chunk_get {α : Type} {L : Nat} : ∀ (l : List (List α)), (∀ x ∈ l, x.length = L) → ∀ e (he : e < l.length), ∀ j < L, (l.flatten)[e * L + j]? = (l[e])[j]?
  | x :: l, h, 0, he, j, hj => by
    simp only [List.flatten_cons, Nat.zero_mul, Nat.zero_add, List.getElem_cons_zero]
    rw [List.getElem?_append_left (by rw [h x (by simp)]; exact hj)]
  | x :: l, h, e + 1, he, j, hj => by
    have hx := h x (by simp)
    simp only [List.flatten_cons, List.getElem_cons_succ]
    rw [List.getElem?_append_right (by rw [hx]; nlinarith), hx, show (e + 1) * L + j - L = e * L + j by rw [Nat.add_mul]; omega]
    exact chunk_get l (fun y hy => h y (by simp [hy])) e (by simpa using he) j hj

theorem chunk_len {α : Type} {L : Nat} : ∀ (l : List (List α)), (∀ x ∈ l, x.length = L) → l.flatten.length = l.length * L
  | [], _ => by simp
  | x :: l, h => by
    rw [List.flatten_cons, List.length_append, chunk_len l (fun y hy => h y (by simp [hy])), h x (by simp), List.length_cons]; ring

/-- The chunks written by one call. -/
def topoChunk (nt n e : Nat) : List Nat := (List.range (MathFn.pow (K := Nat) (n - 1) nt)).flatMap fun i_elem => (List.range (MathFn.pow (K := Nat) 2 nt)).map fun i_vert => iNode nt n e i_elem i_vert
def geomChunk (nt ng n : Nat) (pos : Nat → ℝ) : List ℝ := (List.range (MathFn.pow (K := Nat) n nt)).flatMap fun i_point => (List.range ng).map fun i_dim => pos (i_dim * MathFn.pow (K := Nat) n nt + i_point)
def attrChunk (nt n v : Nat) (vs : Nat → ℝ) : List ℝ := (List.range (MathFn.pow (K := Nat) n nt)).map fun i_point => vs (v * MathFn.pow (K := Nat) n nt + i_point)

/-- Writing one block after the other. -/
def blocks (nt ng nv n : Nat) (l : List ((Nat → ℝ) × (Nat → ℝ))) (x : Xdmf) : Xdmf := l.foldl (fun x p => writeBlock nt ng nv x n p.1 p.2) x

theorem blocks_eq (nt ng nv n : Nat) : ∀ (l : List ((Nat → ℝ) × (Nat → ℝ))) (x : Xdmf),
    (blocks nt ng nv n l x).topo = x.topo ++ ((List.range l.length).map fun e => topoChunk nt n (x.i_block + e)).flatten ∧
    (blocks nt ng nv n l x).geom = x.geom ++ (l.map fun p => geomChunk nt ng n p.1).flatten ∧
    (∀ v < nv, (blocks nt ng nv n l x).attrs v = x.attrs v ++ (l.map fun p => attrChunk nt n v p.2).flatten) ∧
    (blocks nt ng nv n l x).i_block = x.i_block + l.length
  | [], x => by simp [blocks]
  | p :: l, x => by
    obtain ⟨h1, h2, h3, h4⟩ := blocks_eq nt ng nv n l (writeBlock nt ng nv x n p.1 p.2)
    have e : blocks nt ng nv n (p :: l) x = blocks nt ng nv n l (writeBlock nt ng nv x n p.1 p.2) := rfl
    rw [e]
    refine ⟨?_, ?_, fun v hv => ?_, ?_⟩
    · rw [h1, List.length_cons, List.range_succ_eq_map]
      simp only [List.map_cons, List.flatten_cons, List.map_map, writeBlock, List.append_assoc, topoChunk, Nat.add_zero]
      congr 3
      refine List.map_congr_left fun i _ => ?_
      simp only [Function.comp, Nat.succ_eq_add_one, Nat.add_assoc, Nat.add_comm 1]
    · rw [h2]; simp [writeBlock, geomChunk]
    · rw [h3 v hv]; simp [writeBlock, attrChunk, hv]
    · rw [h4, List.length_cons]; simp only [writeBlock]; omega

theorem table_len {α : Type} (n m : Nat) (f : Nat → Nat → α) : ((List.range m).flatMap fun j => (List.range n).map fun i => f i j).length = m * n := by
  simp [List.length_flatMap]

theorem table2' {α : Type} (n m : Nat) (f : Nat → Nat → α) (i j : Nat) (hj : j < m) (hi : i < n) :
    ((List.range m).flatMap fun j => (List.range n).map fun i => f i j)[j * n + i]? = some (f i j) := by
  rw [List.flatMap_def, chunk_get (L := n) _ (by intro x hx; obtain ⟨a, -, rfl⟩ := List.mem_map.1 hx; simp) j (by simpa using hj) i hi]
  simp [hi]

/-- A file made of blocks shows them. -/
theorem blocks_shows {nt ng nv n : Nat} (hnt : nt = 1 ∨ nt = 2 ∨ nt = 3) (hn : 2 ≤ n) (l : List ((Nat → ℝ) × (Nat → ℝ))) (X V : Nat → (Fin nt → Fin n) → Nat → ℝ)
    (hX : ∀ e (he : e < l.length), ∀ d : Fin nt → Fin n, ∀ k < ng, (l[e]).1 (k * n ^ nt + idx d) = X e d k)
    (hV : ∀ e (he : e < l.length), ∀ d : Fin nt → Fin n, ∀ v < nv, (l[e]).2 (v * n ^ nt + idx d) = V e d v) :
    Shows nt ng nv n l.length X V (blocks nt ng nv n l ⟨[], [], fun _ => [], 0⟩) := by
  obtain ⟨h1, h2, h3, h4⟩ := blocks_eq nt ng nv n l ⟨[], [], fun _ => [], 0⟩
  simp only [List.nil_append, Nat.zero_add] at h1 h2 h3
  have lt : ∀ x ∈ (List.range l.length).map fun e => topoChunk nt n e, x.length = (n - 1) ^ nt * 2 ^ nt := by
    intro x hx
    obtain ⟨a, -, rfl⟩ := List.mem_map.1 hx
    rw [topoChunk, table_len, MathFn.pow_nat, MathFn.pow_nat]
  have lg : ∀ x ∈ l.map fun p => geomChunk nt ng n p.1, x.length = n ^ nt * ng := by
    intro x hx
    obtain ⟨a, -, rfl⟩ := List.mem_map.1 hx
    rw [geomChunk, table_len, MathFn.pow_nat]
  have la : ∀ v, ∀ x ∈ l.map fun p => attrChunk nt n v p.2, x.length = n ^ nt := by
    intro v x hx
    obtain ⟨a, -, rfl⟩ := List.mem_map.1 hx
    simp [attrChunk, MathFn.pow_nat]
  refine ⟨fun e he d k hk => ?_, fun e he d v hv => ?_, fun e he c i hi d hd => ?_, ?_, fun v hv => ?_, ?_⟩
  · rw [h2, show (e * n ^ nt + idx d) * ng + k = e * (n ^ nt * ng) + (idx d * ng + k) by ring]
    have hlt : idx d * ng + k < n ^ nt * ng := by
      have : (idx d + 1) * ng ≤ n ^ nt * ng := Nat.mul_le_mul_right _ (idx_lt d)
      rw [Nat.add_mul] at this; omega
    rw [chunk_get _ lg e (by simpa using he) _ hlt, List.getElem_map, geomChunk, table2' ng _ (fun i j => (l[e]).1 (i * MathFn.pow (K := Nat) n nt + j)) k (idx d) (by rw [MathFn.pow_nat]; exact idx_lt d) hk,
      MathFn.pow_nat, hX e he d k hk]
  · rw [h3 v hv, chunk_get _ (la v) e (by simpa using he) _ (idx_lt d), List.getElem_map, attrChunk, List.getElem?_map, List.getElem?_range (by rw [MathFn.pow_nat]; exact idx_lt d), Option.map_some,
      MathFn.pow_nat, hV e he d v hv]
  · rw [h1, show (e * (n - 1) ^ nt + idx c) * 2 ^ nt + i = e * ((n - 1) ^ nt * 2 ^ nt) + (idx c * 2 ^ nt + i) by ring]
    have hlt : idx c * 2 ^ nt + i < (n - 1) ^ nt * 2 ^ nt := by
      have : (idx c + 1) * 2 ^ nt ≤ (n - 1) ^ nt * 2 ^ nt := Nat.mul_le_mul_right _ (idx_lt c)
      rw [Nat.add_mul] at this; omega
    rw [chunk_get _ lt e (by simpa using he) _ hlt, List.getElem_map, List.getElem_range, topoChunk, show (2 : Nat) ^ nt = MathFn.pow (K := Nat) 2 nt from (MathFn.pow_nat 2 nt).symm,
      table2' _ _ (fun i j => iNode nt n e j i) i (idx c) (by rw [MathFn.pow_nat]; exact idx_lt c) (by rw [MathFn.pow_nat]; exact hi), iNode_eq hnt hn e c hi d hd]
  · rw [h2, chunk_len _ lg, List.length_map]; ring
  · rw [h3 v hv, chunk_len _ (la v), List.length_map]
  · rw [h1, chunk_len _ lt, List.length_map, List.length_range]; ring

end Hexed.Vis
