import Verif.Share.Final
set_option autoImplicit false
set_option linter.unusedVariables false

/-! # Meshes of squares in two dimensions are consistent -/

namespace Hexed.Share
open Hexed.Connection

/-- The tangential axis of a face in two dimensions. -/
def tang (id : Fin 3) : Fin 3 := if id = 0 then 1 else 0

/-- Coordinate of vertex `v` of element `e`, which is a square with lower corner `x e` and edge length `size e`. -/
def vpos (x : Nat → Fin 3 → ℤ) (size : Nat → ℤ) (e v : Nat) (k : Fin 3) : ℤ := x e k + coord 2 v k * size e

/-- A mesh of squares in two dimensions: squares do not overlap, elements that share a vertex have it at the same place, and in each hanging-node connection two squares of half the
size lie next to each other along a face of a coarse square. -/
structure Planar (m : Mesh) (x : Nat → Fin 3 → ℤ) (size : Nat → ℤ) (coarse : Matcher → Nat) : Prop where
  dim : m.nd = 2
  ok : ∀ h ∈ m.matchers, h.Ok m.nd m.ne ∧ h.str = (false, false)
  pos : ∀ e < m.ne, 0 < size e
  disjoint : ∀ e < m.ne, ∀ e' < m.ne, e ≠ e' → x e 0 + size e ≤ x e' 0 ∨ x e' 0 + size e' ≤ x e 0 ∨ x e 1 + size e ≤ x e' 1 ∨ x e' 1 + size e' ≤ x e 1
  place : ∀ e < m.ne, ∀ v < 4, ∀ e' < m.ne, ∀ v' < 4, m.vid e v = m.vid e' v' → vpos x size e v 0 = vpos x size e' v' 0 ∧ vpos x size e v 1 = vpos x size e' v' 1
  coarse : ∀ h ∈ m.matchers, coarse h < m.ne ∧ ∀ i e : Nat, h.fine[i]? = some e → 2 * size e = size (coarse h) ∧
    x e h.id = (if h.isp then x (coarse h) h.id - size e else x (coarse h) h.id + size (coarse h)) ∧ x e (tang h.id) = x (coarse h) (tang h.id) + (i : ℤ) * size e

set_option synthInstance.maxHeartbeats 400000 in
set_option synthInstance.maxSize 1000 in
theorem hanging_table2 : ∀ id : Fin 3, id.val < 2 → ∀ isp : Bool, nFine 2 (false, false) = 2 ∧ ∀ i ∈ List.range 2, ∀ v ∈ List.range 4,
    ((i < 2 ∧ v ∈ faceVerts 2 id isp ∧ ¬ (∀ k ∈ faceAxes 2 id, finePos 2 id (false, false) i v k = 2 * corner 2 v k)) ↔ (coord 2 v id = isp.toNat ∧ coord 2 v (tang id) = 1 - i)) ∧
    ((v ∈ faceVerts 2 id isp ∧ (∀ k ∈ faceAxes 2 id, finePos 2 id (false, false) i v k = 2 * corner 2 v k)) ↔ (coord 2 v id = isp.toNat ∧ coord 2 v (tang id) = i)) := by
  decide +kernel

theorem coord_table : ∀ v ∈ List.range 4, coord 2 v 0 ≤ 1 ∧ coord 2 v 1 ≤ 1 ∧ ∀ w ∈ List.range 4, coord 2 v 0 = coord 2 w 0 → coord 2 v 1 = coord 2 w 1 → v = w := by decide +kernel

theorem vert_exists : ∀ a ∈ List.range 2, ∀ b ∈ List.range 2, ∀ id : Fin 3, id.val < 2 → ∃ v ∈ List.range 4, coord 2 v id = a ∧ coord 2 v (tang id) = b := by decide +kernel

variable {m : Mesh} {x : Nat → Fin 3 → ℤ} {size : Nat → ℤ} {coarse : Matcher → Nat}

theorem hanging_iff {h : Matcher} (hid : h.id.val < 2) (hs : h.str = (false, false)) {i v : Nat} :
    h.Hanging 2 i v ↔ i < 2 ∧ v < 4 ∧ coord 2 v h.id = h.isp.toNat ∧ coord 2 v (tang h.id) = 1 - i := by
  obtain ⟨fine, id, isp, str⟩ := h
  obtain rfl : str = (false, false) := hs
  constructor
  · rintro ⟨h1, h2, h3⟩
    have h1 : i < 2 := h1
    have h2' : v < 4 := faceVerts_lt h2
    exact ⟨h1, h2', ((hanging_table2 id hid isp).2 i (by simpa using h1) v (by simpa using h2')).1.1 ⟨h1, h2, h3⟩⟩
  · rintro ⟨h1, h2, h3⟩
    obtain ⟨a, b, c⟩ := ((hanging_table2 id hid isp).2 i (by simpa using h1) v (by simpa using h2)).1.2 h3
    exact ⟨a, b, c⟩

theorem corner_iff {h : Matcher} (hid : h.id.val < 2) (hs : h.str = (false, false)) {i v : Nat} (hi : i < 2) :
    (v ∈ faceVerts 2 h.id h.isp ∧ h.AtCorner 2 i v) ↔ v < 4 ∧ coord 2 v h.id = h.isp.toNat ∧ coord 2 v (tang h.id) = i := by
  obtain ⟨fine, id, isp, str⟩ := h
  obtain rfl : str = (false, false) := hs
  constructor
  · rintro ⟨h2, h3⟩
    have h2' : v < 4 := faceVerts_lt h2
    exact ⟨h2', ((hanging_table2 id hid isp).2 i (by simpa using hi) v (by simpa using h2')).2.1 ⟨h2, h3⟩⟩
  · rintro ⟨h2, h3⟩
    exact ((hanging_table2 id hid isp).2 i (by simpa using hi) v (by simpa using h2)).2.2 h3

theorem axes {id : Fin 3} (hid : id.val < 2) {P : Fin 3 → Prop} : (P 0 ∧ P 1) ↔ (P id ∧ P (tang id)) := by
  match id, hid with
  | 0, _ => rfl
  | 1, _ => exact And.comm
  | 2, h => exact absurd h (by decide)

theorem disjoint_axes (hp : Planar m x size coarse) {id : Fin 3} (hid : id.val < 2) {e e' : Nat} (he : e < m.ne) (he' : e' < m.ne) (hne : e ≠ e') :
    x e id + size e ≤ x e' id ∨ x e' id + size e' ≤ x e id ∨ x e (tang id) + size e ≤ x e' (tang id) ∨ x e' (tang id) + size e' ≤ x e (tang id) := by
  have := hp.disjoint e he e' he' hne
  match id, hid with
  | 0, _ => exact this
  | 1, _ => exact or_assoc.1 (Or.comm.1 (or_assoc.2 this))
  | 2, h => exact absurd h (by decide)

theorem coord_le {v : Nat} (hv : v < 4) {id : Fin 3} (hid : id.val < 2) : coord 2 v id ≤ 1 ∧ coord 2 v (tang id) ≤ 1 := by
  obtain ⟨a, b, -⟩ := coord_table v (by simpa using hv)
  exact (axes hid (P := fun k => coord 2 v k ≤ 1)).1 ⟨a, b⟩

theorem fine_some (hp : Planar m x size coarse) {h : Matcher} (hh : h ∈ m.matchers) {i : Nat} (hi : i < 2) : ∃ e, h.fine[i]? = some e ∧ e < m.ne := by
  obtain ⟨ok, hs⟩ := hp.ok h hh
  have hl : h.fine.length = 2 := by rw [ok.length, hp.dim, hs]; decide
  have : i < h.fine.length := by omega
  exact ⟨h.fine[i], List.getElem?_eq_getElem this, ok.exist _ (List.getElem_mem this)⟩

theorem fine_lt (hp : Planar m x size coarse) {h : Matcher} (hh : h ∈ m.matchers) {i e : Nat} (hi : h.fine[i]? = some e) : i < 2 ∧ e < m.ne := by
  obtain ⟨ok, hs⟩ := hp.ok h hh
  have hl : h.fine.length = 2 := by rw [ok.length, hp.dim, hs]; decide
  have := (List.getElem?_eq_some_iff.1 hi).1
  exact ⟨by omega, ok.exist _ (List.mem_of_getElem? hi)⟩

/-- The place of the vertex in the middle of the coarse face. -/
def mid (x : Nat → Fin 3 → ℤ) (size : Nat → ℤ) (coarse : Matcher → Nat) (h : Matcher) (a b : ℤ) : Prop :=
  a = (if h.isp then x (coarse h) h.id else x (coarse h) h.id + size (coarse h)) ∧ 2 * b = 2 * x (coarse h) (tang h.id) + size (coarse h)

theorem hanging_mid (hp : Planar m x size coarse) {h : Matcher} (hh : h ∈ m.matchers) {i e v : Nat} (hi : h.fine[i]? = some e) (hv : h.Hanging m.nd i v) :
    mid x size coarse h (vpos x size e v h.id) (vpos x size e v (tang h.id)) := by
  obtain ⟨ok, hs⟩ := hp.ok h hh
  have hid : h.id.val < 2 := hp.dim ▸ ok.id
  rw [hp.dim] at hv
  obtain ⟨hi2, hv4, c1, c2⟩ := (hanging_iff hid hs).1 hv
  obtain ⟨-, hc⟩ := hp.coarse h hh
  obtain ⟨a1, a2, a3⟩ := hc i e hi
  unfold mid vpos
  rw [c1, c2, a2, a3]
  constructor
  · cases h.isp <;> simp <;> omega
  · interval_cases i
    · push_cast; omega
    · push_cast; omega

/-- Every element with a vertex in the middle of a coarse face is one of the fine elements and has the vertex hanging there. -/
theorem at_mid (hp : Planar m x size coarse) {h : Matcher} (hh : h ∈ m.matchers) {e v : Nat} (he : e < m.ne) (hv : v < 4) (hm : mid x size coarse h (vpos x size e v h.id) (vpos x size e v (tang h.id))) :
    ∃ i, h.fine[i]? = some e ∧ h.Hanging m.nd i v := by
  obtain ⟨ok, hs⟩ := hp.ok h hh
  have hid : h.id.val < 2 := hp.dim ▸ ok.id
  obtain ⟨hcl, hc⟩ := hp.coarse h hh
  obtain ⟨f0, hf0, hl0⟩ := fine_some hp hh (i := 0) (by norm_num)
  obtain ⟨f1, hf1, hl1⟩ := fine_some hp hh (i := 1) (by norm_num)
  obtain ⟨a1, a2, a3⟩ := hc 0 f0 hf0
  obtain ⟨b1, b2, b3⟩ := hc 1 f1 hf1
  obtain ⟨k1, k2⟩ := coord_le hv hid
  have s0 := hp.pos f0 hl0
  have se := hp.pos e he
  have hne : e ≠ coarse h := by
    rintro rfl
    obtain ⟨m1, m2⟩ := hm
    unfold vpos at m1 m2
    interval_cases coord 2 v (tang h.id) <;> omega
  have hd := disjoint_axes hp hid he hcl hne
  have mem : e = f0 ∨ e = f1 := by
    by_contra hn
    push Not at hn
    have d0 := disjoint_axes hp hid he hl0 hn.1
    have d1 := disjoint_axes hp hid he hl1 hn.2
    obtain ⟨m1, m2⟩ := hm
    unfold vpos at m1 m2
    push_cast at a3 b3
    cases hisp : h.isp <;> rw [hisp] at a2 b2 m1 <;> simp only [Bool.false_eq_true, if_true, if_false] at a2 b2 m1 <;> interval_cases coord 2 v h.id <;> interval_cases coord 2 v (tang h.id) <;>
      push_cast at m1 m2 <;> rcases hd with hd | hd | hd | hd <;> try omega
    all_goals rcases d0 with d0 | d0 | d0 | d0 <;> omega
  obtain ⟨m1, m2⟩ := hm
  unfold vpos at m1 m2
  rw [hp.dim]
  rcases mem with rfl | rfl
  · refine ⟨0, hf0, (hanging_iff hid hs).2 ⟨by norm_num, hv, ?_, ?_⟩⟩
    · rw [a2] at m1
      cases hisp : h.isp <;> rw [hisp] at m1 <;> simp only [Bool.false_eq_true, if_true, if_false] at m1 <;> interval_cases coord 2 v h.id <;> simp at m1 ⊢ <;> omega
    · rw [a3] at m2
      interval_cases coord 2 v (tang h.id) <;> push_cast at m2 <;> omega
  · refine ⟨1, hf1, (hanging_iff hid hs).2 ⟨by norm_num, hv, ?_, ?_⟩⟩
    · rw [b2] at m1
      cases hisp : h.isp <;> rw [hisp] at m1 <;> simp only [Bool.false_eq_true, if_true, if_false] at m1 <;> interval_cases coord 2 v h.id <;> simp at m1 ⊢ <;> omega
    · rw [b3] at m2
      interval_cases coord 2 v (tang h.id) <;> push_cast at m2 <;> omega

/-- The same vertex, seen along the axes of another face. -/
theorem mid_axes {id : Fin 3} (hid : id.val < 2) {e v e' v' : Nat} (h : vpos x size e v 0 = vpos x size e' v' 0 ∧ vpos x size e v 1 = vpos x size e' v' 1) :
    vpos x size e v id = vpos x size e' v' id ∧ vpos x size e v (tang id) = vpos x size e' v' (tang id) :=
  (axes hid (P := fun k => vpos x size e v k = vpos x size e' v' k)).1 h

/-- Two connections with a vertex in the middle of both coarse faces have the same fine elements and the same face. -/
theorem mid_unique (hp : Planar m x size coarse) {h h' : Matcher} (hh : h ∈ m.matchers) (hh' : h' ∈ m.matchers) {i i' e e' v v' : Nat} (hi : h.fine[i]? = some e) (hv : h.Hanging m.nd i v)
    (hi' : h'.fine[i']? = some e') (hv' : h'.Hanging m.nd i' v') (heq : vpos x size e v 0 = vpos x size e' v' 0 ∧ vpos x size e v 1 = vpos x size e' v' 1) :
    h.id = h'.id ∧ h.isp = h'.isp ∧ h.fine = h'.fine := by
  obtain ⟨ok, hs⟩ := hp.ok h hh
  have hid : h.id.val < 2 := hp.dim ▸ ok.id
  obtain ⟨ok', hs'⟩ := hp.ok h' hh'
  have hid' : h'.id.val < 2 := hp.dim ▸ ok'.id
  -- each fine element of `h'` is one of `h`, with the vertex at the corresponding place
  have key : ∀ j < 2, ∃ f w, h'.fine[j]? = some f ∧ h'.Hanging m.nd j w ∧ ∃ k, h.fine[k]? = some f ∧ h.Hanging m.nd k w := by
    intro j hj
    obtain ⟨f, hf, hfl⟩ := fine_some hp hh' hj
    obtain ⟨w, hw, w1, w2⟩ := vert_exists h'.isp.toNat (by cases h'.isp <;> decide) (1 - j) (by interval_cases j <;> decide) h'.id hid'
    have hang : h'.Hanging m.nd j w := by rw [hp.dim]; exact (hanging_iff hid' hs').2 ⟨hj, by simpa using hw, w1, w2⟩
    have m1 := hanging_mid hp hh' hf hang
    have m2 := hanging_mid hp hh' hi' hv'
    have e1 : vpos x size f w h'.id = vpos x size e' v' h'.id ∧ vpos x size f w (tang h'.id) = vpos x size e' v' (tang h'.id) := by
      obtain ⟨p1, p2⟩ := m1
      obtain ⟨q1, q2⟩ := m2
      exact ⟨by rw [p1, q1], by omega⟩
    have e2 := (axes hid' (P := fun k => vpos x size f w k = vpos x size e' v' k)).2 e1
    have e3 : vpos x size f w 0 = vpos x size e v 0 ∧ vpos x size f w 1 = vpos x size e v 1 := ⟨e2.1.trans heq.1.symm, e2.2.trans heq.2.symm⟩
    obtain ⟨g1, g2⟩ := mid_axes hid e3
    have mm := hanging_mid hp hh hi hv
    rw [← g1, ← g2] at mm
    obtain ⟨k, hk1, hk2⟩ := at_mid hp hh hfl (by simpa using hw) mm
    exact ⟨f, w, hf, hang, k, hk1, hk2⟩
  obtain ⟨f0, w0, hf0, hg0, k0, hk0, hh0⟩ := key 0 (by norm_num)
  obtain ⟨f1, w1, hf1, hg1, k1, hk1, hh1⟩ := key 1 (by norm_num)
  rw [hp.dim] at hg0 hh0 hg1 hh1
  obtain ⟨-, c00, c01, c02⟩ := (hanging_iff hid' hs').1 hg0
  obtain ⟨l0, -, d01, d02⟩ := (hanging_iff hid hs).1 hh0
  obtain ⟨-, c10, c11, c12⟩ := (hanging_iff hid' hs').1 hg1
  obtain ⟨l1, -, d11, d12⟩ := (hanging_iff hid hs).1 hh1
  -- the fine elements are distinct and next to each other in the tangential direction
  have hne : f0 ≠ f1 := by
    intro e
    have := ok'.distinct.getElem_inj_iff (hi := (List.getElem?_eq_some_iff.1 hf0).1) (hj := (List.getElem?_eq_some_iff.1 hf1).1)
    rw [(List.getElem?_eq_some_iff.1 hf0).2, (List.getElem?_eq_some_iff.1 hf1).2] at this
    exact absurd (this.1 e) (by norm_num)
  have hkne : k0 ≠ k1 := by
    rintro rfl
    rw [hk0] at hk1
    exact hne (Option.some.inj hk1)
  have s0 := hp.pos f0 (fine_lt hp hh hk0).2
  obtain ⟨-, hc'⟩ := hp.coarse h' hh'
  obtain ⟨-, hc⟩ := hp.coarse h hh
  obtain ⟨a1, a2, a3⟩ := hc' 0 f0 hf0
  obtain ⟨b1, b2, b3⟩ := hc' 1 f1 hf1
  obtain ⟨p1, p2, p3⟩ := hc k0 f0 hk0
  obtain ⟨q1, q2, q3⟩ := hc k1 f1 hk1
  have hsz : size f0 = size f1 := by omega
  have idd : h.id = h'.id := by
    by_contra hn
    have ht : tang h.id = h'.id ∧ tang h'.id = h.id := by
      revert hn hid hid'
      generalize h.id = a
      generalize h'.id = b
      revert a b
      decide
    rw [ht.1] at p3 q3
    rw [ht.2] at a3 b3
    rw [hsz] at a2 p2 s0
    have : x f0 h'.id = x f1 h'.id := by rw [a2, b2]
    rw [p3, q3, hsz] at this
    interval_cases k0 <;> interval_cases k1 <;> push_cast at this <;> omega
  have hkk : k0 = 0 ∧ k1 = 1 := by
    rw [idd] at p3 q3
    rw [p3, hsz] at a3
    rw [q3] at b3
    interval_cases k0 <;> interval_cases k1 <;> push_cast at a3 b3 <;> omega
  obtain ⟨rfl, rfl⟩ := hkk
  refine ⟨idd, ?_, ?_⟩
  · rw [idd, c01] at d01
    revert d01
    cases h.isp <;> cases h'.isp <;> simp
  · have hl : h.fine.length = 2 := by rw [ok.length, hp.dim, hs]; decide
    have hl' : h'.fine.length = 2 := by rw [ok'.length, hp.dim, hs']; decide
    refine List.ext_getElem? fun n => ?_
    match n with
    | 0 => rw [hk0, hf0]
    | 1 => rw [hk1, hf1]
    | n + 2 => rw [List.getElem?_eq_none (by omega), List.getElem?_eq_none (by omega)]

/-- Corners of the face are determined by the elements. -/
theorem isCorner_unique {h : Matcher} (hnd : m.nd = 2) (hok : h.Ok m.nd m.ne) (hs : h.str = (false, false)) {c p q : Nat} (hp : m.IsCorner h c p) (hq : m.IsCorner h c q) : p = q := by
  have hid : h.id.val < 2 := hnd ▸ hok.id
  have hl : h.fine.length = 2 := by rw [hok.length, hnd, hs]; decide
  obtain ⟨hc, i, e, hi, ha, rfl⟩ := hp
  obtain ⟨hc', j, f, hj, hb, rfl⟩ := hq
  have li : i < 2 := hl ▸ (List.getElem?_eq_some_iff.1 hi).1
  have lj : j < 2 := hl ▸ (List.getElem?_eq_some_iff.1 hj).1
  rw [hnd] at hc ha hb
  obtain ⟨-, -, e1⟩ := (corner_iff hid hs li).1 ⟨hc, ha⟩
  obtain ⟨-, -, e2⟩ := (corner_iff hid hs lj).1 ⟨hc, hb⟩
  obtain rfl : i = j := e1.symm.trans e2
  rw [hi] at hj
  rw [Option.some.inj hj]

/-- Meshes of squares are consistent. -/
theorem planar_consistent' (K : Type) [Field K] (hp : Planar m x size coarse) : Consistent K m := by
  refine ⟨Or.inl hp.dim, fun h hh => (hp.ok h hh).1, ?_, ?_, ?_⟩
  · intro h hh i e v hi hv e' he' v' hv' hvid
    have hid : h.id.val < 2 := hp.dim ▸ (hp.ok h hh).1.id
    have hv4 : v < 4 := by have := faceVerts_lt hv.2.1; rwa [hp.dim] at this
    rw [hp.dim] at hv'
    have pl := mid_axes hid (hp.place e' he' v' hv' e (fine_lt hp hh hi).2 v hv4 hvid)
    have mm := hanging_mid hp hh hi hv
    rw [← pl.1, ← pl.2] at mm
    obtain ⟨j, hj, hang⟩ := at_mid hp hh he' hv' mm
    exact ⟨h, hh, j, hj, hang⟩
  · intro h hh h' hh' i e v i' e' v' hi hv hi' hv' hvid g y y' hy hy'
    have hv4 : v < 4 := by have := faceVerts_lt hv.2.1; rwa [hp.dim] at this
    have hv4' : v' < 4 := by have := faceVerts_lt hv'.2.1; rwa [hp.dim] at this
    have pl := hp.place e (fine_lt hp hh hi).2 v hv4 e' (fine_lt hp hh' hi').2 v' hv4' hvid
    obtain ⟨u1, u2, u3⟩ := mid_unique hp hh hh' hi hv hi' hv' pl
    obtain ⟨ok, hs⟩ := hp.ok h hh
    obtain ⟨ok', hs'⟩ := hp.ok h' hh'
    have hid : h.id.val < 2 := hp.dim ▸ ok.id
    obtain ⟨fine, id, isp, str⟩ := h
    obtain ⟨fine', id', isp', str'⟩ := h'
    obtain rfl : id = id' := u1
    obtain rfl : isp = isp' := u2
    obtain rfl : fine = fine' := u3
    obtain rfl : str = (false, false) := hs
    obtain rfl : str' = (false, false) := hs'
    obtain ⟨p, hp1, rfl⟩ := hy
    obtain ⟨q, hq1, rfl⟩ := hy'
    refine congrArg List.sum (List.map_congr_left fun c hc => ?_)
    rw [isCorner_unique hp.dim ok rfl (hp1 c hc) (hq1 c hc)]
    congr 1
    -- both places are in the middle
    have hc' := hc
    rw [hp.dim] at hv hv' hc'
    obtain ⟨a1, -, a2, a3⟩ := (hanging_iff hid rfl).1 hv
    obtain ⟨b1, -, b2, b3⟩ := (hanging_iff hid rfl).1 hv'
    have tab : ∀ id : Fin 3, id.val < 2 → ∀ k ∈ faceAxes 2 id, ∀ i ∈ List.range 2, ∀ v ∈ List.range 4, coord 2 v (tang id) = 1 - i → finePos 2 id (false, false) i v k = 0 := by decide +kernel
    rw [hp.dim]
    refine congrArg List.prod (List.map_congr_left fun k hk => ?_)
    rw [tab id hid k hk i (by simpa using a1) v (by simpa using hv4) a3, tab id hid k hk i' (by simpa using b1) v' (by simpa using hv4') b3]
  · intro h hh c p ⟨hc, i, e, hi, ha, hvid⟩ h' hh' j f w hj hang he
    obtain ⟨ok, hs⟩ := hp.ok h hh
    have hid : h.id.val < 2 := hp.dim ▸ ok.id
    obtain ⟨ok', hs'⟩ := hp.ok h' hh'
    have hid' : h'.id.val < 2 := hp.dim ▸ ok'.id
    obtain ⟨li, le⟩ := fine_lt hp hh hi
    obtain ⟨lj, lf⟩ := fine_lt hp hh' hj
    have hw4 : w < 4 := by have := faceVerts_lt hang.2.1; rwa [hp.dim] at this
    rw [hp.dim] at hc ha
    obtain ⟨c4, c1, c2⟩ := (corner_iff hid hs li).1 ⟨hc, ha⟩
    obtain ⟨hcl, hco⟩ := hp.coarse h hh
    obtain ⟨a1, a2, a3⟩ := hco i e hi
    have se := hp.pos e le
    -- the vertex of the coarse element at the corner
    obtain ⟨w', hw', d1, d2⟩ := vert_exists (!h.isp).toNat (by cases h.isp <;> decide) i (by interval_cases i <;> decide) h.id hid
    have pc : vpos x size (coarse h) w' h.id = vpos x size e c h.id ∧ vpos x size (coarse h) w' (tang h.id) = vpos x size e c (tang h.id) := by
      unfold vpos
      rw [d1, d2, c1, c2, a2, a3]
      constructor
      · cases h.isp <;> simp <;> omega
      · interval_cases i <;> push_cast <;> omega
    have pc0 := (axes hid (P := fun k => vpos x size (coarse h) w' k = vpos x size e c k)).2 pc
    have pl := hp.place f lf w hw4 e le c c4 (he.trans hvid.symm)
    have mm := hanging_mid hp hh' hj hang
    have q1 := mid_axes hid' pl
    have q2 := mid_axes hid' pc0
    have m1 := mm
    rw [q1.1, q1.2] at m1
    obtain ⟨k1, hk1, -⟩ := at_mid hp hh' le c4 m1
    rw [← q2.1, ← q2.2] at m1
    obtain ⟨k2, hk2, -⟩ := at_mid hp hh' hcl (by simpa using hw') m1
    have z1 := ((hp.coarse h' hh').2 k1 _ hk1).1
    have z2 := ((hp.coarse h' hh').2 k2 _ hk2).1
    omega

end Hexed.Share
