import Verif.SurfRep.Spec
import Verif.StateFile.Restart
import Verif.Spatial.ExactLocal
import Mathlib.Tactic.LinearCombination
set_option autoImplicit false
set_option linter.unusedVariables false

/-!
# Lemmas about the uncertainty of the surface representation
-/

namespace Hexed.SurfRep
open Hexed.Spatial Hexed.Pde
open Hexed.StateFile (runWriteFace writeFaces_spec prolong_spec elem_not_fine fine_not_elem fine_mortar coarse_mem fine_side)
open Hexed.SnapMesh (put sgn backup restoreState isDof)
open Hexed.Connection (matchFaces restore matchFaces_eq tπ fπ tπ_lt fπ_lt tπ_tπ fπ_fπ)
open Hexed.Metric (partner partner_lt)
open Hexed.RowIndex (RowIndex)
noncomputable section

variable {bs : BasisData} {m : Mesh} {bounds : List Bound} {sn : Nat} {mu kappa : Transport}

/-! ## The record -/

theorem mark_other (nd : Nat) : ∀ (l : List Bound) (r : Nat → Nat) (e : Nat), (∀ c ∈ l, c.sn = sn → c.elem ≠ e) → l.foldl (mark nd sn) r e = r e
  | [], r, e, _ => rfl
  | c :: l, r, e, h => by
    rw [List.foldl_cons, mark_other nd l _ e fun c hc => h c (List.mem_cons_of_mem _ hc), mark]
    split
    · rename_i hs
      rw [put, if_neg fun e1 => h c List.mem_cons_self hs e1.symm]
    · rfl

theorem mark_same (nd : Nat) (x : Nat) : ∀ (l : List Bound) (r : Nat → Nat) (e : Nat), (∀ c ∈ l, c.sn = sn → c.elem = e → 2 * nd + 2 * c.dim + c.sign = x) → (r e = x ∨ ∃ c ∈ l, c.sn = sn ∧ c.elem = e) →
    l.foldl (mark nd sn) r e = x
  | [], r, e, h, h1 => by
    rcases h1 with h1 | ⟨c, hc, _⟩
    · exact h1
    · cases hc
  | c :: l, r, e, h, h1 => by
    rw [List.foldl_cons]
    refine mark_same nd x l _ e (fun c hc => h c (List.mem_cons_of_mem _ hc)) ?_
    rw [mark]
    by_cases hc : c.sn = sn ∧ c.elem = e
    · left
      rw [if_pos hc.1, put, if_pos hc.2.symm]
      exact h c List.mem_cons_self hc.1 hc.2
    · rcases h1 with h1 | ⟨c', hc', h2⟩
      · left
        split
        · rename_i hs
          rw [put, if_neg fun e1 => hc ⟨hs, e1.symm⟩]
          exact h1
        · exact h1
      · rcases List.mem_cons.1 hc' with rfl | hc'
        · exact absurd h2 hc
        · exact Or.inr ⟨c', hc', h2⟩

/-- The record after the boundary elements have been identified. -/
def recordOf (m : Mesh) (bounds : List Bound) (sn : Nat) (r : Nat → Nat) : Nat → Nat := bounds.foldl (mark m.nd sn) fun e => if e ∈ m.elems then 0 else r e

theorem wallOf_some {e dim sign : Nat} (h : wallOf bounds sn e = some (dim, sign)) : ∃ c ∈ bounds, c.sn = sn ∧ c.elem = e ∧ c.dim = dim ∧ c.sign = sign := by
  obtain ⟨c, h1, h2⟩ := Option.map_eq_some_iff.1 h
  have h3 := List.find?_some h1
  simp only [Bool.and_eq_true, beq_iff_eq] at h3
  obtain ⟨rfl, rfl⟩ := Prod.mk.inj h2
  exact ⟨c, List.mem_of_find?_eq_some h1, h3.1, h3.2, rfl, rfl⟩

theorem wallOf_none {e : Nat} (h : wallOf bounds sn e = none) : ∀ c ∈ bounds, c.sn = sn → c.elem ≠ e := by
  intro c hc h1 h2
  have := List.find?_eq_none.1 (Option.map_eq_none_iff.1 h) c hc
  simp [h1, h2] at this

theorem record_wall (hB : BoundsOk m bounds sn) (r : Nat → Nat) {e dim sign : Nat} (h : wallOf bounds sn e = some (dim, sign)) :
    recordOf m bounds sn r e = 2 * m.nd + 2 * dim + sign ∧ dim < m.nd ∧ sign < 2 ∧ e ∈ m.elems := by
  obtain ⟨c, hc, h1, h2, h3, h4⟩ := wallOf_some h
  obtain ⟨i1, i2, i3, _⟩ := hB.inside c hc
  refine ⟨mark_same _ _ _ _ _ (fun c' hc' h5 h6 => ?_) (Or.inr ⟨c, hc, h1, h2⟩), h3 ▸ i2, h4 ▸ i3, h2 ▸ i1⟩
  obtain ⟨j1, j2⟩ := hB.single c' hc' c hc h5 h1 (h6.trans h2.symm)
  rw [j1, j2, h3, h4]

theorem record_none (r : Nat → Nat) {e : Nat} (he : e ∈ m.elems) (h : wallOf bounds sn e = none) : recordOf m bounds sn r e = 0 := by
  rw [recordOf, mark_other _ _ _ _ (wallOf_none h), if_pos he]

theorem on_wall {nd dim sign : Nat} (hd : dim < nd) (hs : sign < 2) : isOn nd (2 * nd + 2 * dim + sign) = true ∧ (2 * nd + 2 * dim + sign - 2 * nd) / 2 = dim ∧ (2 * nd + 2 * dim + sign) % 2 = sign := by
  refine ⟨?_, by omega, by omega⟩
  rw [isOn, show 2 * nd + 2 * dim + sign = (2 * dim + sign) + 2 * nd by ring, Nat.add_div_right _ (by omega), Nat.div_eq_of_lt (by omega)]
  rfl

theorem on_zero (nd : Nat) : isOn nd 0 = false := by simp [isOn]

/-! ## Unit normals -/

/-- Faces written from a state. -/
theorem written_at (hn : 0 < bs.n) (nd : Nat) (state : Arr) (faces : Nat → Mem) {f : Nat} (hf : f < 2 * nd) {v k : Nat} (hv : v < nd + 2) (hk : k < bs.n ^ (nd - 1)) :
    writeFace (ns nd false mu kappa) bs nd state faces f (v * bs.n ^ (nd - 1) + k) = ∑ i ∈ Finset.range bs.n, bs.bound (f % 2) i * state (v, pt nd bs.n (f / 2) k i) := by
  have h1 := (bounds_apply nd bs.n hn (ns nd false mu kappa).nExtrap (fun i_dim r => matRow bs.n bs.bound (readRow (fun k => (ns nd false mu kappa).fetchExtrap (fun v => state (v, k.2)) k.1) 0 r)) faces).1 v hv (f / 2) (by omega) k hk (f % 2) (by omega)
  rw [show 2 * (f / 2) + f % 2 = f by omega] at h1
  rw [writeFace]
  refine h1.trans ?_
  rw [matRow, Basis.range_sum]
  refine Finset.sum_congr rfl fun i hi => ?_
  rw [readRow_after hn (by omega : f / 2 < nd)]
  rfl

theorem digits {n a b : Nat} (hb : b < n) : (a * n + b) / n = a ∧ (a * n + b) % n = b := by
  have hn : 0 < n := by omega
  rw [Nat.add_comm, Nat.add_mul_div_right _ _ hn, Nat.div_eq_of_lt hb, Nat.add_mul_mod_self_right, Nat.mod_eq_of_lt hb]
  exact ⟨by simp, rfl⟩

/-- The points that enter the extrapolation to the edge. -/
theorem edge_point {nd n dim f k t i : Nat} (hnd : 1 ≤ nd ∧ nd ≤ 3) (hd : dim < nd) (hf : f < 2 * nd) (hl : f / 2 ≠ dim) (hk : k < n ^ (nd - 1)) (ht : t < n) (hi : i < n) :
    pt nd n (f / 2) (k / (n ^ (nd - 1 - (extrapDim nd dim f + 1)) * n) * (n ^ (nd - 1 - (extrapDim nd dim f + 1)) * n) + t * n ^ (nd - 1 - (extrapDim nd dim f + 1)) + k % n ^ (nd - 1 - (extrapDim nd dim f + 1))) i =
      cell nd n fun d => if d = dim then t else if d = f / 2 then i else if 3 - dim - f / 2 < dim then k / n else k % n := by
  have hn : 0 < n := by omega
  generalize hd' : f / 2 = df at *
  have hdf : df < nd := by omega
  rcases (by omega : nd = 1 ∨ nd = 2 ∨ nd = 3) with rfl | rfl | rfl
  · omega
  · have hk' : k < n := by simpa using hk
    rcases (by omega : (dim = 0 ∧ df = 1) ∨ (dim = 1 ∧ df = 0)) with ⟨rfl, rfl⟩ | ⟨rfl, rfl⟩ <;>
      simp [extrapDim, pt, cell, List.range_succ, Nat.div_eq_of_lt hk', Nat.mod_eq_of_lt hk', Nat.div_eq_of_lt ht, Nat.mod_eq_of_lt ht, Nat.mod_one]
  · have hk' : k < n * n := by simpa [pow_two] using hk
    obtain ⟨a, c, ha, hc, rfl⟩ : ∃ a c, a < n ∧ c < n ∧ k = a * n + c := ⟨k / n, k % n, Nat.div_lt_of_lt_mul hk', Nat.mod_lt _ hn, by rw [Nat.mul_comm]; exact (Nat.div_add_mod k n).symm⟩
    have h0 : (a * n + c) / (n * n) = 0 := Nat.div_eq_of_lt hk'
    have e1 : extrapDim 3 dim f = if (dim : Int) > 3 - dim - df then 1 else 0 := by
      rw [extrapDim, if_pos rfl]
      have : ((f : Int) / 2) = (df : Int) := by omega
      rw [this]
    rw [e1]
    rcases (by omega : (dim = 0 ∧ df = 1) ∨ (dim = 0 ∧ df = 2) ∨ (dim = 1 ∧ df = 0) ∨ (dim = 1 ∧ df = 2) ∨ (dim = 2 ∧ df = 0) ∨ (dim = 2 ∧ df = 1)) with
      ⟨rfl, rfl⟩ | ⟨rfl, rfl⟩ | ⟨rfl, rfl⟩ | ⟨rfl, rfl⟩ | ⟨rfl, rfl⟩ | ⟨rfl, rfl⟩ <;>
      simp [pt, cell, List.range_succ, (digits hc).1, (digits hc).2, h0, Nat.mod_one, (digits ht).1, (digits ht).2, pow_two] <;>
      first
        | done
        | (simp only [(digits (a := t) hc).1, (digits (a := t) hc).2, (digits (a := a) ht).1, (digits (a := a) ht).2, Nat.div_eq_of_lt (show t * n + c < n * n by nlinarith), Nat.mod_eq_of_lt (show t * n + c < n * n by nlinarith),
            Nat.div_eq_of_lt (show a * n + t < n * n by nlinarith), Nat.mod_eq_of_lt (show a * n + t < n * n by nlinarith)]; try ring)

theorem block_div {N j k : Nat} (hk : k < N) : (j * N + k) / N = j ∧ (j * N + k) % N = k := digits hk

theorem toWall_at {nd dim sign f : Nat} (face : Mem) {j k : Nat} (hj : j < nd) (hk : k < bs.n ^ (nd - 1)) :
    toWall bs nd dim sign f face (j * bs.n ^ (nd - 1) + k) = ∑ t ∈ Finset.range bs.n, bs.bound sign t * face (j * bs.n ^ (nd - 1) +
      (k / (bs.n ^ (nd - 1 - (extrapDim nd dim f + 1)) * bs.n) * (bs.n ^ (nd - 1 - (extrapDim nd dim f + 1)) * bs.n) + t * bs.n ^ (nd - 1 - (extrapDim nd dim f + 1)) + k % bs.n ^ (nd - 1 - (extrapDim nd dim f + 1)))) := by
  obtain ⟨h1, h2⟩ := block_div (j := j) hk
  rw [toWall]
  rw [if_pos (block_lt hj hk), h1, h2, alongDim]

/-- The index of the face points that enter the extrapolation. -/
theorem wall_point_lt {nd n e k t : Nat} (hn : 0 < n) (he : e + 1 ≤ nd - 1) (hk : k < n ^ (nd - 1)) (ht : t < n) :
    k / (n ^ (nd - 1 - (e + 1)) * n) * (n ^ (nd - 1 - (e + 1)) * n) + t * n ^ (nd - 1 - (e + 1)) + k % n ^ (nd - 1 - (e + 1)) < n ^ (nd - 1) := by
  set S := n ^ (nd - 1 - (e + 1)) with hS
  have hp : 0 < S := Nat.pow_pos hn
  have e1 : n ^ (nd - 1) = S * n * n ^ e := by rw [hS, ← pow_succ, ← pow_add]; congr 1; omega
  have h1 : k / (S * n) < n ^ e := Nat.div_lt_of_lt_mul (by rw [← e1]; exact hk)
  have h2 : t * S + k % S < S * n := by
    have := Nat.mod_lt k hp
    nlinarith
  calc _ < k / (S * n) * (S * n) + S * n := by omega
    _ = (k / (S * n) + 1) * (S * n) := by ring
    _ ≤ n ^ e * (S * n) := Nat.mul_le_mul_right _ h1
    _ = _ := by rw [e1]; ring

theorem normalized_at {nd N : Nat} (face : Mem) {j k : Nat} (hj : j < nd) (hk : k < N) :
    normalized nd N face (j * N + k) = face (j * N + k) / √(∑ i ∈ Finset.range nd, face (i * N + k) ^ 2) := by
  obtain ⟨h1, h2⟩ := block_div (j := j) hk
  have e1 : ∑ i ∈ Finset.range nd, face (i * N + k) * face (i * N + k) = ∑ i ∈ Finset.range nd, face (i * N + k) ^ 2 := Finset.sum_congr rfl fun i _ => by ring
  rw [normalized]
  rw [h2, e1]
  split
  · rfl
  · rename_i hc
    have h0 : ∑ i ∈ Finset.range nd, face (i * N + k) ^ 2 = 0 := le_antisymm (not_lt.1 fun h => hc ⟨block_lt hj hk, h⟩) (Finset.sum_nonneg fun i _ => sq_nonneg _)
    have h3 := (Finset.sum_eq_zero_iff_of_nonneg fun i _ => sq_nonneg _).1 h0 j (Finset.mem_range.2 hj)
    rw [pow_eq_zero_iff (by norm_num)] at h3
    rw [h3, zero_div]

/-- The world with unit normals on the faces that meet the surface. -/
def stage3 (mu kappa : Transport) (bs : BasisData) (m : Mesh) (record : Nat → Nat) (w : World) : World := unitNormals bs m record (runWriteFace mu kappa bs m (loadNormals bs.n m record w))

theorem stage3_normal (hn : 0 < bs.n) (hm : m.Ok bs) (hB : BoundsOk m bounds sn) (r : Nat → Nat) (w : World) {e f dim sign : Nat} {g : Geom} (h : Meets m bounds sn e f dim sign g) {j k : Nat} (hj : j < m.nd) (hk : k < bs.n ^ (m.nd - 1)) :
    (stage3 mu kappa bs m (recordOf m bounds sn r) w).buf (.elem e f) false (j * bs.n ^ (m.nd - 1) + k) = edgeUnit bs m.nd g dim sign f j k := by
  obtain ⟨hr, hd, hs, -⟩ := record_wall hB r h.wall
  obtain ⟨o1, o2, o3⟩ := on_wall hd hs
  have hex : extrapDim m.nd dim f + 1 ≤ m.nd - 1 := by
    have := hm.dim
    have := h.face
    have := h.lateral
    rw [extrapDim]
    split_ifs <;> omega
  have hv : ∀ j < m.nd, ∀ k < bs.n ^ (m.nd - 1), toWall bs m.nd dim sign f ((runWriteFace mu kappa bs m (loadNormals bs.n m (recordOf m bounds sn r) w)).buf (.elem e f) false) (j * bs.n ^ (m.nd - 1) + k) = edgeVec bs m.nd g dim sign f j k := by
    intro j hj k hk
    rw [toWall_at _ hj hk, edgeVec]
    refine Finset.sum_congr rfl fun t ht => ?_
    have ht := Finset.mem_range.1 ht
    have hk1 := wall_point_lt hn hex hk ht
    rw [(writeFaces_spec hm mu kappa _).2.2.1 e h.elem f h.face, written_at hn m.nd _ _ h.face (by omega) hk1, Finset.mul_sum]
    refine Finset.sum_congr rfl fun i hi => ?_
    have hi := Finset.mem_range.1 hi
    have hq := pt_lt hn (show f / 2 < m.nd by have := h.face; omega) hk1 hi
    rw [← edge_point hm.dim hd h.face h.lateral hk ht hi]
    rw [loadNormals]
    dsimp only
    rw [h.geom]
    dsimp only
    rw [if_pos ⟨h.elem, by rw [hr]; exact o1, hj, hq⟩, hr, o2, o3]
    ring
  rw [stage3, unitNormals]
  dsimp only
  rw [if_pos ⟨h.elem, by rw [h.geom]; rfl, by rw [hr]; exact o1, h.face, by rw [hr, o2]; exact h.lateral, rfl⟩, hr, o2, o3, normalized_at _ hj hk, hv j hj k hk, edgeUnit]
  congr 2
  exact Finset.sum_congr rfl fun i hi => by rw [hv i (Finset.mem_range.1 hi) k hk]

/-! ## The differences -/

theorem sides_filter {l : List ConRec} (q : ConRec → Bool) (h : (sidesOf l).Nodup) : (sidesOf (l.filter q)).Nodup := by
  induction l with
  | nil => simpa [sidesOf] using h
  | cons c l ih =>
    have e : sidesOf (c :: l) = c.side false :: c.side true :: sidesOf l := by simp [sidesOf]
    rw [e, List.nodup_cons, List.nodup_cons] at h
    have hsub : ∀ b ∈ sidesOf (l.filter q), b ∈ sidesOf l := by
      intro b hb
      obtain ⟨c', hc', hb⟩ := List.mem_flatMap.1 hb
      exact List.mem_flatMap.2 ⟨c', (List.mem_filter.1 hc').1, hb⟩
    rw [List.filter_cons]
    split
    · have e' : sidesOf (c :: l.filter q) = c.side false :: c.side true :: sidesOf (l.filter q) := by simp [sidesOf]
      rw [e', List.nodup_cons, List.nodup_cons]
      refine ⟨fun hh => ?_, fun hh => h.2.1 (hsub _ hh), ih h.2.2⟩
      rcases List.mem_cons.1 hh with hh | hh
      · exact h.1 (by rw [hh]; exact List.mem_cons_self)
      · exact h.1 (List.mem_cons_of_mem _ (hsub _ hh))
    · exact ih h.2.2

/-- Differences on the sides of deformed connections. -/
theorem diff_sides (hn : 0 < bs.n) (hm : m.Ok bs) (w : World) {c : ConRec} (hc : c ∈ m.cons) (hd : c.deformed = true) {j k : Nat} (hj : j < m.nd) (hk : k < bs.n ^ (m.nd - 1)) :
    (differences bs.n m w).buf (c.side true) false (j * bs.n ^ (m.nd - 1) + k) =
      w.buf (c.side false) false (j * bs.n ^ (m.nd - 1) + partner m.nd bs.n c k) - w.buf (c.side true) false (j * bs.n ^ (m.nd - 1) + k) ∧
    (differences bs.n m w).buf (c.side false) false (j * bs.n ^ (m.nd - 1) + partner m.nd bs.n c k) =
      w.buf (c.side false) false (j * bs.n ^ (m.nd - 1) + partner m.nd bs.n c k) - w.buf (c.side true) false (j * bs.n ^ (m.nd - 1) + k) := by
  obtain ⟨f1, -⟩ := cons_fold (diffCon m.nd bs.n) (m.cons.filter ConRec.deformed) w (sides_filter _ hm.sides_nodup)
  have hc' : c ∈ m.cons.filter ConRec.deformed := List.mem_filter.2 ⟨hc, hd⟩
  have hp : partner m.nd bs.n c k = fπ m.nd bs.n c.dir (tπ m.nd bs.n c.dir k) := by rw [partner, if_pos hd]
  have hpl := partner_lt hm.dim bs.n c hk
  have hmt : matchFaces m.nd bs.n (m.nd + 2) c.dir (w.buf (c.side true) false) (j * bs.n ^ (m.nd - 1) + partner m.nd bs.n c k) = w.buf (c.side true) false (j * bs.n ^ (m.nd - 1) + k) := by
    rw [matchFaces_eq m.nd bs.n _ hm.dim hn c.dir _ j _ (by omega) hpl, hp, fπ_fπ _ _ _ _ (tπ_lt _ _ hm.dim _ _ hk), tπ_tπ _ _ _ _ hk]
  constructor
  · rw [differences, f1 c hc' true, diffCon]
    dsimp only
    rw [if_neg (by decide), if_pos rfl, restore_eq m.nd bs.n _ hm.dim hn c.dir _ j k (by omega) hk, ← hp, if_pos (block_lt hj hpl), hmt]
  · rw [differences, f1 c hc' false, diffCon]
    dsimp only
    rw [if_neg (by decide), if_neg (by decide), if_pos (block_lt hj hpl), hmt]

theorem diff_other (hm : m.Ok bs) (w : World) {b : Buf} (hb : ∀ c ∈ m.cons, c.deformed = true → ∀ s, c.side s ≠ b) : (differences bs.n m w).buf b = w.buf b := by
  refine (cons_fold (diffCon m.nd bs.n) (m.cons.filter ConRec.deformed) w (sides_filter _ hm.sides_nodup)).2.1 b fun h => ?_
  obtain ⟨c, hc, h⟩ := List.mem_flatMap.1 h
  obtain ⟨h1, h2⟩ := List.mem_filter.1 hc
  simp only [List.mem_cons, List.not_mem_nil, or_false] at h
  rcases h with h | h
  · exact hb c h1 h2 _ h.symm
  · exact hb c h1 h2 _ h.symm

theorem diff_same (hm : m.Ok bs) (w : World) : (differences bs.n m w).state = w.state ∧ (differences bs.n m w).cache = w.cache :=
  (cons_fold (diffCon m.nd bs.n) (m.cons.filter ConRec.deformed) w (sides_filter _ hm.sides_nodup)).2.2

/-- A face is on at most one side of one connection. -/
theorem side_unique {l : List ConRec} (h : (sidesOf l).Nodup) {c c' : ConRec} (hc : c ∈ l) (hc' : c' ∈ l) {s s' : Bool} (e : c.side s = c'.side s') : c = c' ∧ s = s' := by
  induction l with
  | nil => cases hc
  | cons a l ih =>
    have e' : sidesOf (a :: l) = a.side false :: a.side true :: sidesOf l := by simp [sidesOf]
    rw [e', List.nodup_cons, List.nodup_cons] at h
    have hne : a.side false ≠ a.side true := fun h1 => h.1 (by rw [h1]; exact List.mem_cons_self)
    have hnm : ∀ s, a.side s ∉ sidesOf l := by
      intro s
      cases s
      · exact fun h1 => h.1 (List.mem_cons_of_mem _ h1)
      · exact h.2.1
    rcases List.mem_cons.1 hc with rfl | hc1
    · rcases List.mem_cons.1 hc' with rfl | hc'
      · refine ⟨rfl, ?_⟩
        cases s <;> cases s' <;> first | rfl | exact absurd e hne | exact absurd e.symm hne
      · exact absurd (by rw [e]; exact mem_sidesOf hc' s') (hnm s)
    · rcases List.mem_cons.1 hc' with rfl | hc'
      · exact absurd (by rw [← e]; exact mem_sidesOf hc1 s) (hnm s')
      · exact ih h.2.2 hc1 hc'

/-! ## Boundary faces -/

theorem zero_other (n nd : Nat) : ∀ (l : List Bound) (buf : Buf → Bool → Mem) (b : Buf) (ld : Bool), ((∀ c ∈ l, c.face ≠ b) ∨ ld = true) → l.foldl (zeroFace n nd) buf b ld = buf b ld
  | [], buf, b, ld, _ => rfl
  | c :: l, buf, b, ld, h => by
    rw [List.foldl_cons, zero_other n nd l _ b ld (h.imp (fun h c hc => h c (List.mem_cons_of_mem _ hc)) id), zeroFace, setBuf, if_neg]
    rintro ⟨e1, e2⟩
    rcases h with h | h
    · exact h c List.mem_cons_self e1.symm
    · rw [h] at e2; cases e2

theorem zero_at (n nd : Nat) : ∀ (l : List Bound) (buf : Buf → Bool → Mem) (b : Buf) (a : Nat), a < (nd + 2) * n ^ (nd - 1) → ((∃ c ∈ l, c.face = b) ∨ buf b false a = 0) → l.foldl (zeroFace n nd) buf b false a = 0
  | [], buf, b, a, _, h => by
    rcases h with ⟨c, hc, _⟩ | h
    · cases hc
    · exact h
  | c :: l, buf, b, a, ha, h => by
    rw [List.foldl_cons]
    refine zero_at n nd l _ b a ha ?_
    by_cases e : c.face = b
    · right
      rw [zeroFace, setBuf, if_pos ⟨e.symm, rfl⟩, if_pos ha]
    · rcases h with ⟨c', hc', h⟩ | h
      · rcases List.mem_cons.1 hc' with rfl | hc'
        · exact absurd h e
        · exact Or.inl ⟨c', hc', h⟩
      · right
        rw [zeroFace, setBuf, if_neg fun h1 => e h1.1.symm]
        exact h

/-! ## Everything before the uncertainties are read -/

def stage4 (mu kappa : Transport) (bs : BasisData) (m : Mesh) (record : Nat → Nat) (w : World) : World := runProlong (ns m.nd false mu kappa) bs m false false (stage3 mu kappa bs m record w)
def stage5 (mu kappa : Transport) (bs : BasisData) (m : Mesh) (bounds : List Bound) (record : Nat → Nat) (w : World) : World :=
  { differences bs.n m (stage4 mu kappa bs m record w) with buf := bounds.foldl (zeroFace bs.n m.nd) (differences bs.n m (stage4 mu kappa bs m record w)).buf }

theorem compare_eq (record : Nat → Nat) (w : World) : compareNormals mu kappa bs m bounds record w = runRestrict (ns m.nd false mu kappa) bs m false false (stage5 mu kappa bs m bounds record w) := rfl

theorem compare_same (hm : m.Ok bs) (record : Nat → Nat) (w : World) :
    (compareNormals mu kappa bs m bounds record w).state = (loadNormals bs.n m record w).state ∧ (compareNormals mu kappa bs m bounds record w).cache = w.cache := by
  rw [compare_eq]
  obtain ⟨a1, a2, -⟩ := writeFaces_spec hm mu kappa (loadNormals bs.n m record w)
  obtain ⟨d1, d2⟩ := diff_same hm (stage4 mu kappa bs m record w)
  exact ⟨d1.trans a1, d2.trans a2⟩

theorem stage4_elem (hm : m.Ok bs) (record : Nat → Nat) (w : World) (e f : Nat) : (stage4 mu kappa bs m record w).buf (.elem e f) = (stage3 mu kappa bs m record w).buf (.elem e f) :=
  (prolong_spec hm _ _ _).2.1 _ (elem_not_fine hm e f)

theorem compare_plain (hn : 0 < bs.n) (hm : m.Ok bs) (record : Nat → Nat) (w : World) {e f : Nat} (h : Buf.elem e f ∉ m.coarseBufs) :
    (compareNormals mu kappa bs m bounds record w).buf (.elem e f) = (stage5 mu kappa bs m bounds record w).buf (.elem e f) := by
  rw [compare_eq]
  funext ld
  exact (restrict_fold (ns m.nd false mu kappa) bs hn m.nd false false m.refs _ hm.refs_nodup).2 _ ld (Or.inl (hm.elem_not_ref h))

/-- A side of a connection is not a coarse face. -/
theorem side_not_coarse (hm : m.Ok bs) {c : ConRec} (hc : c ∈ m.cons) (s : Bool) : c.side s ∉ m.coarseBufs :=
  fun h => (List.nodup_append.1 hm.nodup).2.2 _ (mem_sidesOf hc s) _ h rfl

/-- A face that is on a boundary holds zeros. -/
theorem compare_bound (hn : 0 < bs.n) (hm : m.Ok bs) (hB : BoundsOk m bounds sn) (record : Nat → Nat) (w : World) {c : Bound} (hc : c ∈ bounds) {a : Nat} (ha : a < (m.nd + 2) * bs.n ^ (m.nd - 1)) :
    (compareNormals mu kappa bs m bounds record w).buf c.face false a = 0 := by
  obtain ⟨_, _, _, con, hcon, h1, _⟩ := hB.inside c hc
  have := side_not_coarse hm hcon false
  rw [h1] at this
  rw [Bound.face] at this ⊢
  rw [compare_plain hn hm record w this]
  exact zero_at _ _ _ _ _ _ ha (Or.inl ⟨c, hc, rfl⟩)

/-- A side of a connection between faces is not on a boundary. -/
theorem not_bound (hm : m.Ok bs) (hB : BoundsOk m bounds sn) {c : ConRec} (hc : c ∈ m.cons) (hg : (c.side true).isGhost = false) (s : Bool) : ∀ b ∈ bounds, b.face ≠ c.side s := by
  intro b hb e
  obtain ⟨_, _, _, con, hcon, h1, h2⟩ := hB.inside b hb
  obtain ⟨rfl, -⟩ := side_unique hm.sides_nodup hcon hc (h1.trans e)
  rw [hg] at h2; cases h2

theorem compare_side (hn : 0 < bs.n) (hm : m.Ok bs) (hB : BoundsOk m bounds sn) (record : Nat → Nat) (w : World) {c : ConRec} (hc : c ∈ m.cons) (hg : (c.side true).isGhost = false) {s : Bool} {e f : Nat} (h : c.side s = .elem e f) :
    (compareNormals mu kappa bs m bounds record w).buf (.elem e f) false = (differences bs.n m (stage4 mu kappa bs m record w)).buf (.elem e f) false := by
  have h1 := side_not_coarse hm hc s
  rw [h] at h1
  rw [compare_plain hn hm record w h1]
  refine zero_other _ _ _ _ _ _ (Or.inl ?_)
  rw [← h]
  exact not_bound hm hB hc hg s

/-! ## Totals -/

theorem faceNorm_eq (nd : Nat) (face : Mem) (D : Nat → Nat → ℝ) (h : ∀ j < nd, ∀ k < bs.n ^ (nd - 1), face (j * bs.n ^ (nd - 1) + k) ^ 2 = D j k ^ 2) : faceNorm bs nd face = rms bs nd D := by
  rw [faceNorm, rms]
  congr 1
  refine Finset.sum_congr rfl fun k hk => ?_
  have e1 : ∑ j ∈ Finset.range nd, face (j * bs.n ^ (nd - 1) + k) * face (j * bs.n ^ (nd - 1) + k) = ∑ j ∈ Finset.range nd, D j k ^ 2 :=
    Finset.sum_congr rfl fun j hj => by rw [← h j (Finset.mem_range.1 hj) k (Finset.mem_range.1 hk)]; ring
  have h2 : (0 : ℝ) ≤ ∑ j ∈ Finset.range nd, D j k ^ 2 := Finset.sum_nonneg fun j _ => sq_nonneg _
  beta_reduce
  rw [e1]
  linear_combination qw bs.weight bs.n (nd - 1) k * Real.mul_self_sqrt h2

theorem foldl_sum (P : Nat → Prop) [DecidablePred P] (g : Nat → ℝ) : ∀ (l : List Nat) (u : ℝ), l.foldl (fun u f => if P f then u + g f else u) u = u + ((l.filter fun f => decide (P f)).map g).sum
  | [], u => by simp
  | f :: l, u => by
    rw [List.foldl_cons, foldl_sum P g l, List.filter_cons]
    by_cases h : P f
    · rw [if_pos h, if_pos (by simpa using h), List.map_cons, List.sum_cons]; ring
    · rw [if_neg h, if_neg (by simpa using h)]

theorem totalUp_wall {nd dim sign : Nat} (hd : dim < nd) (hs : sign < 2) (faces : Nat → Mem) :
    totalUp bs nd (2 * nd + 2 * dim + sign) faces 0 = ((lateral nd dim).map fun f => faceNorm bs nd (faces f)).sum / (2 * (max (nd - 1) 1 : Nat)) := by
  obtain ⟨o1, o2, o3⟩ := on_wall hd hs
  rw [totalUp, if_pos o1, o2, foldl_sum (fun f => f / 2 ≠ dim) (fun f => faceNorm bs nd (faces f)), zero_add]
  rfl

/-- The uncertainty of an element at the surface, from what its faces hold. -/
theorem uncert_wall (hB : BoundsOk m bounds sn) (d : Data) {e dim sign : Nat} (h : wallOf bounds sn e = some (dim, sign)) :
    (setUncertSurfaceRep mu kappa bs m bounds sn d).uncert e =
      ((lateral m.nd dim).map fun f => faceNorm bs m.nd ((compareNormals mu kappa bs m bounds (recordOf m bounds sn d.record) (backup bs.n m d.world)).buf (.elem e f) false)).sum / (2 * (max (m.nd - 1) 1 : Nat)) := by
  obtain ⟨hr, hd, hs, he⟩ := record_wall hB d.record h
  show (if e ∈ m.elems then totalUp bs m.nd (recordOf m bounds sn d.record e) _ 0 else _) = _
  rw [if_pos he, hr, totalUp_wall hd hs]
  rfl

theorem mem_lateral {nd dim f : Nat} : f ∈ lateral nd dim ↔ f < 2 * nd ∧ f / 2 ≠ dim := by simp [lateral]

end
end Hexed.SurfRep
