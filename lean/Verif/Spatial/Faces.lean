import Verif.Spatial.Refined
import Verif.Connection.Props
set_option autoImplicit false
set_option linter.unusedVariables false

/-!
# What `Neighbor` and `Neighbor_reconcile` leave on the two sides of a connection
-/

namespace Hexed.Spatial
open Hexed.Connection (Dir matchFaces restore strAt Legal tπ fπ)

theorem qw_two (w : Nat → ℝ) {n a b : Nat} (ha : a < n) (hb : b < n) : qw w n 2 (a * n + b) = w a * w b := by
  have hn : 0 < n := by omega
  have e1 : (a * n + b) / n = a := by rw [Nat.add_comm, Nat.add_mul_div_right _ _ hn, Nat.div_eq_of_lt hb]; omega
  have e2 : (a * n + b) % n = b := by rw [Nat.add_comm, Nat.add_mul_mod_self_right, Nat.mod_eq_of_lt hb]
  simp [qw, e1, e2, Nat.mod_eq_of_lt ha]

theorem qw_tπ (w : Nat → ℝ) (nd n : Nat) (d : Dir) (k : Nat) (hk : k < n ^ (nd - 1)) : qw w n (nd - 1) (tπ nd n d k) = qw w n (nd - 1) k := by
  unfold tπ
  split
  · next h =>
    rw [h.2] at hk ⊢
    simp only [Nat.add_one_sub_one, pow_two] at hk ⊢
    obtain ⟨h1, h2, h3⟩ := Connection.divmod_lt hk
    conv_rhs => rw [← Nat.div_add_mod' k n]
    rw [qw_two w h3 h2, qw_two w h2 h3, mul_comm]
  · rfl

theorem qw_fπ (w : Nat → ℝ) (nd n : Nat) (d : Dir) (k : Nat) (hk : k < n ^ (nd - 1)) (hs : ∀ i < n, w (n - 1 - i) = w i) :
    qw w n (nd - 1) (fπ nd n d k) = qw w n (nd - 1) k := by
  unfold fπ
  split
  · split
    · next h =>
      subst h
      simp only [Nat.add_one_sub_one, pow_two] at hk ⊢
      obtain ⟨h1, h2, h3⟩ := Connection.divmod_lt hk
      conv_rhs => rw [← Nat.div_add_mod' k n]
      split
      · rw [qw_two w h2 (Connection.rev_lt h3), qw_two w h2 h3, hs _ h3]
      · rw [qw_two w (Connection.rev_lt h2) h3, qw_two w h2 h3, hs _ h2]
    · split
      · next h =>
        subst h
        simp only [Nat.add_one_sub_one, pow_one] at hk
        simp [qw, Nat.mod_eq_of_lt hk, Nat.mod_eq_of_lt (Connection.rev_lt hk), hs k hk]
      · rfl
  · rfl

theorem restore_eq (nd n nvar : Nat) (hnd : 1 ≤ nd ∧ nd ≤ 3) (hn : 0 < n) (d : Dir) (mem : Mem) (v k : Nat) (hv : v < nvar) (hk : k < n ^ (nd - 1)) :
    restore nd n nvar d mem (v * n ^ (nd - 1) + k) = mem (v * n ^ (nd - 1) + fπ nd n d (tπ nd n d k)) := by
  have hp : 0 < n ^ (nd - 1) := Nat.pow_pos hn
  have hlt : ∀ k < n ^ (nd - 1), v * n ^ (nd - 1) + k < nvar * n ^ (nd - 1) := by
    intro k hk
    have : (v + 1) * n ^ (nd - 1) ≤ nvar * n ^ (nd - 1) := Nat.mul_le_mul_right _ hv
    rw [Nat.add_mul] at this; omega
  have ht := Connection.tπ_lt nd n hnd d k hk
  rw [restore, Connection.transposeData_eq nd n nvar hnd, if_pos (hlt k hk), (Connection.divmod_of hk).1, (Connection.divmod_of hk).2,
    Connection.flipData_eq nd n nvar hnd, if_pos (hlt _ ht), (Connection.divmod_of ht).1, (Connection.divmod_of ht).2]

/-- A permutation of the points that keeps the weights keeps the quadrature. -/
theorem quadF_restore (bs : BasisData) (nd nvar : Nat) (hnd : 1 ≤ nd ∧ nd ≤ 3) (hn : 0 < bs.n) (hs : ∀ i < bs.n, bs.weight (bs.n - 1 - i) = bs.weight i) (d : Dir) (mem : Mem) (v : Nat) (hv : v < nvar) :
    quadF bs nd (restore nd bs.n nvar d mem) v = quadF bs nd mem v := by
  rw [quadF, quadF]
  refine Finset.sum_nbij' (fun k => fπ nd bs.n d (tπ nd bs.n d k)) (fun k => tπ nd bs.n d (fπ nd bs.n d k)) ?_ ?_ ?_ ?_ ?_
  · intro k hk
    rw [Finset.mem_range] at hk ⊢
    exact Connection.fπ_lt _ _ hnd _ _ (Connection.tπ_lt _ _ hnd _ _ hk)
  · intro k hk
    rw [Finset.mem_range] at hk ⊢
    exact Connection.tπ_lt _ _ hnd _ _ (Connection.fπ_lt _ _ hnd _ _ hk)
  · intro k hk
    rw [Finset.mem_range] at hk
    rw [Connection.fπ_fπ _ _ _ _ (Connection.tπ_lt _ _ hnd _ _ hk), Connection.tπ_tπ _ _ _ _ hk]
  · intro k hk
    rw [Finset.mem_range] at hk
    rw [Connection.tπ_tπ _ _ _ _ (Connection.fπ_lt _ _ hnd _ _ hk), Connection.fπ_fπ _ _ _ _ hk]
  · intro k hk
    rw [Finset.mem_range] at hk
    rw [restore_eq nd bs.n nvar hnd hn d mem v k hv hk, qw_fπ bs.weight nd bs.n d _ (Connection.tπ_lt _ _ hnd _ _ hk) hs, qw_tπ bs.weight nd bs.n d _ hk]

theorem quadF_congr (bs : BasisData) (nd : Nat) (m m' : Mem) (v : Nat) (h : ∀ k < bs.n ^ (nd - 1), m (v * bs.n ^ (nd - 1) + k) = m' (v * bs.n ^ (nd - 1) + k)) :
    quadF bs nd m v = quadF bs nd m' v := by
  refine Finset.sum_congr rfl fun k hk => ?_
  rw [h k (Finset.mem_range.1 hk)]

theorem quadF_smul (bs : BasisData) (nd : Nat) (c : ℝ) (m : Mem) (v : Nat) : quadF bs nd (fun a => c * m a) v = c * quadF bs nd m v := by
  rw [quadF, quadF, Finset.mul_sum]
  refine Finset.sum_congr rfl fun k _ => by ring

theorem block_lt {nvar N v k : Nat} (hv : v < nvar) (hk : k < N) : v * N + k < nvar * N := by
  have : (v + 1) * N ≤ nvar * N := Nat.mul_le_mul_right _ hv
  rw [Nat.add_mul] at this; omega

/-- The sign with which the flux is stored on each side turns the stored flux into the flux from side 0 to side 1. -/
theorem out_side (deformed : Bool) (d : Dir) (hc : deformed = false → d.i1 = d.i0 ∧ d.s0 = true ∧ d.s1 = false) :
    outSign (d.faceSign false) * sideSign deformed d false = 1 ∧ outSign (d.faceSign true) * sideSign deformed d true = -1 := by
  obtain ⟨i0, i1, s0, s1⟩ := d
  cases deformed
  · obtain ⟨_, h0, h1⟩ := hc rfl
    simp only at h0 h1
    subst h0 h1
    simp [outSign, sideSign, Dir.faceSign]
  · cases s0 <;> cases s1 <;> simp [outSign, sideSign, Dir.faceSign, Dir.flipNormal]

/-- What side 0 is left with. -/
theorem neighbor_side0 (p : Pde) (hc : p.hasConv = true) (nd n : Nat) (c : ConRec) (st : Sides) (v k : Nat) (hv : v < p.nUpdate) (hk : k < n ^ (nd - 1)) :
    neighbor p nd n c.deformed c.dir c.normal st false false (v * n ^ (nd - 1) + k) = sideSign c.deformed c.dir false * conFlux p nd n c st v k := by
  have hlt := block_lt hv hk
  obtain ⟨e1, e2⟩ := Connection.divmod_of (a := v) hk
  simp only [neighbor, hc, hlt, decide_true, Bool.and_self, if_true, Bool.false_eq_true, if_false, e1, e2]
  rfl

/-- What side 1 is left with, before it is put back into side 1's order. -/
noncomputable def side1Flux (p : Pde) (nd n : Nat) (c : ConRec) (st : Sides) : Mem := fun a =>
  sideSign c.deformed c.dir true * conFlux p nd n c st (a / n ^ (nd - 1)) (a % n ^ (nd - 1))

theorem neighbor_side1 (p : Pde) (hc : p.hasConv = true) (hu : p.nUpdate ≤ p.nExtrap) (nd n : Nat) (hnd : 1 ≤ nd ∧ nd ≤ 3) (hn : 0 < n) (c : ConRec) (st : Sides) (v k : Nat)
    (hv : v < p.nUpdate) (hk : k < n ^ (nd - 1)) :
    neighbor p nd n c.deformed c.dir c.normal st true false (v * n ^ (nd - 1) + k) =
      if c.deformed then restore nd n p.nExtrap c.dir (side1Flux p nd n c st) (v * n ^ (nd - 1) + k) else side1Flux p nd n c st (v * n ^ (nd - 1) + k) := by
  have hlt := block_lt hv hk
  have hN : 0 < n ^ (nd - 1) := Nat.pow_pos hn
  simp only [neighbor, hc, hlt, decide_true, Bool.and_self, if_true, Bool.false_eq_true, if_false]
  cases hd : c.deformed
  · simp only [Bool.false_eq_true, if_false, side1Flux]
    simp only [hlt, if_true]
    simp only [conFlux, hd, Bool.false_eq_true, if_false]
  · simp only [if_true]
    have hπ : fπ nd n c.dir (tπ nd n c.dir k) < n ^ (nd - 1) := Connection.fπ_lt _ _ hnd _ _ (Connection.tπ_lt _ _ hnd _ _ hk)
    rw [restore_eq nd n p.nExtrap hnd hn c.dir _ v k (by omega) hk, restore_eq nd n p.nExtrap hnd hn c.dir _ v k (by omega) hk, if_pos (block_lt hv hπ)]
    simp only [side1Flux, conFlux, hd, if_true]

/-- The integral of the flux leaving side 0, and of the flux leaving side 1. -/
theorem neighbor_quad {bs : BasisData} (hb : Conservative bs) (p : Pde) (hc : p.hasConv = true) (hu : p.nUpdate ≤ p.nExtrap) (nd : Nat) (hnd : 1 ≤ nd ∧ nd ≤ 3) (c : ConRec)
    (hcart : c.deformed = false → c.dir.i1 = c.dir.i0 ∧ c.dir.s0 = true ∧ c.dir.s1 = false) (st : Sides) (v : Nat) (hv : v < p.nUpdate) :
    outSign (c.dir.faceSign false) * quadF bs nd (neighbor p nd bs.n c.deformed c.dir c.normal st false false) v =
      ∑ k ∈ Finset.range (bs.n ^ (nd - 1)), qw bs.weight bs.n (nd - 1) k * conFlux p nd bs.n c st v k ∧
    outSign (c.dir.faceSign true) * quadF bs nd (neighbor p nd bs.n c.deformed c.dir c.normal st true false) v =
      -∑ k ∈ Finset.range (bs.n ^ (nd - 1)), qw bs.weight bs.n (nd - 1) k * conFlux p nd bs.n c st v k := by
  obtain ⟨o0, o1⟩ := out_side c.deformed c.dir hcart
  have e1 : quadF bs nd (side1Flux p nd bs.n c st) v = sideSign c.deformed c.dir true * ∑ k ∈ Finset.range (bs.n ^ (nd - 1)), qw bs.weight bs.n (nd - 1) k * conFlux p nd bs.n c st v k := by
    rw [quadF, Finset.mul_sum]
    refine Finset.sum_congr rfl fun k hk => ?_
    obtain ⟨e1, e2⟩ := Connection.divmod_of (a := v) (Finset.mem_range.1 hk)
    rw [side1Flux, e1, e2]; ring
  constructor
  · have e0 : quadF bs nd (neighbor p nd bs.n c.deformed c.dir c.normal st false false) v =
        sideSign c.deformed c.dir false * ∑ k ∈ Finset.range (bs.n ^ (nd - 1)), qw bs.weight bs.n (nd - 1) k * conFlux p nd bs.n c st v k := by
      rw [quadF, Finset.mul_sum]
      refine Finset.sum_congr rfl fun k hk => ?_
      rw [neighbor_side0 p hc nd bs.n c st v k hv (Finset.mem_range.1 hk)]; ring
    rw [e0, ← mul_assoc, o0, one_mul]
  · have e2 : quadF bs nd (neighbor p nd bs.n c.deformed c.dir c.normal st true false) v = quadF bs nd (side1Flux p nd bs.n c st) v := by
      rw [quadF_congr bs nd _ (if c.deformed then restore nd bs.n p.nExtrap c.dir (side1Flux p nd bs.n c st) else side1Flux p nd bs.n c st) v (by
        intro k hk
        rw [neighbor_side1 p hc hu nd bs.n hnd hb.pos c st v k hv hk]
        split <;> rfl)]
      split
      · exact quadF_restore bs nd p.nExtrap hnd hb.pos hb.symm c.dir _ v (by omega)
      · rfl
    rw [e2, e1, ← mul_assoc, o1, neg_one_mul]

/-! ## The diffusive fluxes -/

/-- On each side the reconciliation replaces the flux by the difference between the common flux and the flux of that side. -/
theorem reconcile_quad {bs : BasisData} (hb : Conservative bs) (p : Pde) (hu : p.nUpdate ≤ p.nExtrap) (nd : Nat) (hnd : 1 ≤ nd ∧ nd ≤ 3) (c : ConRec)
    (hcart : c.deformed = false → c.dir.i1 = c.dir.i0 ∧ c.dir.s0 = true ∧ c.dir.s1 = false) (st : Sides) (v : Nat) (hv : v < p.nUpdate) :
    outSign (c.dir.faceSign false) * (quadF bs nd (neighborReconcile p nd bs.n c.deformed c.dir st false true) v + quadF bs nd (st false true) v) =
      ∑ k ∈ Finset.range (bs.n ^ (nd - 1)), qw bs.weight bs.n (nd - 1) k * conFluxDiff p nd bs.n c st v k ∧
    outSign (c.dir.faceSign true) * (quadF bs nd (neighborReconcile p nd bs.n c.deformed c.dir st true true) v + quadF bs nd (st true true) v) =
      -∑ k ∈ Finset.range (bs.n ^ (nd - 1)), qw bs.weight bs.n (nd - 1) k * conFluxDiff p nd bs.n c st v k := by
  obtain ⟨o0, o1⟩ := out_side c.deformed c.dir hcart
  let face1 : Mem := if c.deformed then matchFaces nd bs.n p.nExtrap c.dir (st true true) else st true true
  let avg : Mem := fun a => 0 + 1 / 2 * sideSign c.deformed c.dir false * st false true a + 1 / 2 * sideSign c.deformed c.dir true * face1 a
  have ha : ∀ k, avg (v * bs.n ^ (nd - 1) + k) = conFluxDiff p nd bs.n c st v k := by
    intro k
    simp only [avg, conFluxDiff, face1]; ring
  have hq : quadF bs nd avg v = ∑ k ∈ Finset.range (bs.n ^ (nd - 1)), qw bs.weight bs.n (nd - 1) k * conFluxDiff p nd bs.n c st v k :=
    Finset.sum_congr rfl fun k _ => by rw [ha]
  constructor
  · have e0 : quadF bs nd (neighborReconcile p nd bs.n c.deformed c.dir st false true) v = sideSign c.deformed c.dir false * quadF bs nd avg v - quadF bs nd (st false true) v := by
      rw [quadF, quadF, quadF, Finset.mul_sum, ← Finset.sum_sub_distrib]
      refine Finset.sum_congr rfl fun k hk => ?_
      have hlt := block_lt hv (Finset.mem_range.1 hk)
      simp only [neighborReconcile, hlt, decide_true, Bool.and_self, if_true, Bool.false_eq_true, if_false]
      simp only [avg, face1]; ring
    rw [e0, sub_add_cancel, ← mul_assoc, o0, one_mul, hq]
  · have e1 : quadF bs nd (neighborReconcile p nd bs.n c.deformed c.dir st true true) v = sideSign c.deformed c.dir true * quadF bs nd avg v - quadF bs nd (st true true) v := by
      have hm : quadF bs nd face1 v = quadF bs nd (st true true) v := by
        simp only [face1]
        split
        · conv_rhs => rw [← (Connection.restore_match (nvar := p.nExtrap) (n := bs.n) hnd c.dir (st true true)).1]
          rw [quadF_restore bs nd p.nExtrap hnd hb.pos hb.symm c.dir _ v (by omega)]
        · rfl
      rw [← hm]
      have e2 : quadF bs nd (neighborReconcile p nd bs.n c.deformed c.dir st true true) v = quadF bs nd (fun a => sideSign c.deformed c.dir true * avg a - face1 a) v := by
        rw [quadF_congr bs nd _ (if c.deformed then restore nd bs.n p.nExtrap c.dir (fun a => sideSign c.deformed c.dir true * avg a - face1 a) else fun a => sideSign c.deformed c.dir true * avg a - face1 a) v (by
          intro k hk
          have hlt := block_lt hv hk
          simp only [neighborReconcile, hlt, decide_true, Bool.and_self, if_true]
          cases hd : c.deformed
          · simp only [Bool.false_eq_true, if_false, hlt, if_true, avg, face1, hd]
          · simp only [if_true]
            have hπ : fπ nd bs.n c.dir (tπ nd bs.n c.dir k) < bs.n ^ (nd - 1) := Connection.fπ_lt _ _ hnd _ _ (Connection.tπ_lt _ _ hnd _ _ hk)
            rw [restore_eq nd bs.n p.nExtrap hnd hb.pos c.dir _ v k (by omega) hk, restore_eq nd bs.n p.nExtrap hnd hb.pos c.dir _ v k (by omega) hk, if_pos (block_lt hv hπ)]
            simp only [avg, face1, hd, if_true])]
        split
        · exact quadF_restore bs nd p.nExtrap hnd hb.pos hb.symm c.dir _ v (by omega)
        · rfl
      rw [e2, quadF, quadF, quadF, Finset.mul_sum, ← Finset.sum_sub_distrib]
      refine Finset.sum_congr rfl fun k _ => by ring
    rw [e1, sub_add_cancel, ← mul_assoc, o1, hq, neg_one_mul]

end Hexed.Spatial
