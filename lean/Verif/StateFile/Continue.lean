import Verif.StateFile.Restart
set_option autoImplicit false
set_option linter.unusedVariables false

/-!
# Continuing from restored data
-/

namespace Hexed.StateFile
open Hexed.Spatial Hexed.Pde Hexed.Solver
open Hexed.Connection (Dir matchFaces restore strAt Legal)
variable {bs : BasisData} {m : Mesh}

/-- What `read_state` makes of the data of a solver, if the file was written by `write_state`. -/
theorem load_save (hm : m.elems.Nodup) (fill : ℝ) {off n_var : Nat} (ho : off ≤ n_var) (nq : Nat) (w w0 : World) :
    ∃ wr, loadWorld (saveWorld fill off n_var nq m w) off n_var nq m w0 = some wr ∧ wr.buf = w0.buf ∧
      (∀ e v q, wr.state e (v, q) = if e ∈ m.elems ∧ v < off ∧ q < nq then w.state e (v, q) else w0.state e (v, q)) ∧
      ∀ e v q, wr.cache e (v, q) = if e ∈ m.elems ∧ v < n_var - off ∧ q < nq then w.cache e (v, q) else w0.cache e (v, q) := by
  obtain ⟨s1, s2, s3, s4⟩ := writeState_spec fill n_var nq (m.elems.map (rowOf off w))
  set F := writeState fill n_var nq (m.elems.map (rowOf off w)) with hF
  have hok : (readState F n_var nq (m.elems.map (rowOf off w0))).2 = true := by
    rw [readState, readLoop_ok]
    right
    rw [s1, s2, s3]; simp
  refine ⟨setRows off m.elems (readState F n_var nq (m.elems.map (rowOf off w0))).1 w0, if_pos hok, rfl, ?_, ?_⟩
  · intro e v q
    show (if e ∈ m.elems ∧ v < off then _ else _) = _
    by_cases he : e ∈ m.elems ∧ v < off
    · rw [if_pos he]
      have hi : m.elems.idxOf e < m.elems.length := List.idxOf_lt_length_iff.2 he.1
      have hg : m.elems[m.elems.idxOf e]? = some e := by rw [List.getElem?_eq_getElem hi, List.getElem_idxOf]
      rw [readState, readLoop_get F n_var nq 0 _ hok _ (rowOf off w0 e) (by rw [List.getElem?_map, hg]; rfl)]
      show (if v < n_var ∧ q < nq then F.cell (0 + m.elems.idxOf e) v q else rowOf off w0 e v q) = _
      by_cases hq : q < nq
      · rw [if_pos ⟨by omega, hq⟩, if_pos ⟨he.1, he.2, hq⟩, Nat.zero_add, s4 _ (rowOf off w e) (by rw [List.getElem?_map, hg]; rfl) v (by omega) q hq, rowOf, if_pos he.2]
      · rw [if_neg (by tauto), if_neg (by tauto), rowOf, if_pos he.2]
    · rw [if_neg he, if_neg (by tauto)]
  · intro e v q
    show (if e ∈ m.elems then _ else _) = _
    by_cases he : e ∈ m.elems
    · rw [if_pos he]
      have hi : m.elems.idxOf e < m.elems.length := List.idxOf_lt_length_iff.2 he
      have hg : m.elems[m.elems.idxOf e]? = some e := by rw [List.getElem?_eq_getElem hi, List.getElem_idxOf]
      rw [readState, readLoop_get F n_var nq 0 _ hok _ (rowOf off w0 e) (by rw [List.getElem?_map, hg]; rfl)]
      show (if off + v < n_var ∧ q < nq then F.cell (0 + m.elems.idxOf e) (off + v) q else rowOf off w0 e (off + v) q) = _
      have hne : ¬ off + v < off := by omega
      by_cases hq : v < n_var - off ∧ q < nq
      · rw [if_pos ⟨by omega, hq.2⟩, if_pos ⟨he, hq⟩, Nat.zero_add, s4 _ (rowOf off w e) (by rw [List.getElem?_map, hg]; rfl) (off + v) (by omega) q hq.2, rowOf, if_neg hne,
          Nat.add_sub_cancel_left]
      · rw [if_neg (by omega), if_neg (by tauto), rowOf, if_neg hne, Nat.add_sub_cancel_left]
    · rw [if_neg he, if_neg (by tauto)]

theorem load_same (hm : m.elems.Nodup) (fill : ℝ) {off n_var : Nat} (ho : off ≤ n_var) {w w0 wr : World} (hs : SameElsewhere bs m off n_var w0 w)
    (h : loadWorld (saveWorld fill off n_var (bs.n ^ m.nd) m w) off n_var (bs.n ^ m.nd) m w0 = some wr) : wr.state = w.state ∧ wr.cache = w.cache ∧ wr.buf = w0.buf := by
  obtain ⟨wr', h1, h2, h3, h4⟩ := load_save hm fill ho (bs.n ^ m.nd) w w0
  rw [h] at h1
  cases Option.some.inj h1
  refine ⟨?_, ?_, h2⟩
  · funext e ⟨v, q⟩
    rw [h3]
    split
    · rfl
    · rename_i h'; exact hs.state e v q h'
  · funext e ⟨v, q⟩
    rw [h4]
    split
    · rfl
    · rename_i h'; exact hs.cache e v q h'

/-! ## Inviscid steps -/

theorem step_feq (hu : Rule) (mu kappa : Transport) (sr dt : ℝ) (filter : Bool) (fbc : World → World) {w w' : World}
    (h : FEq (runBc m.nd bs.n (m.nd + 2) false hu m.cons w) (runBc m.nd bs.n (m.nd + 2) false hu m.cons w')) :
    ∃ u u', flowStep false mu kappa bs m sr dt filter (runBc m.nd bs.n (m.nd + 2) false hu m.cons) fbc w = some u ∧
      flowStep false mu kappa bs m sr dt filter (runBc m.nd bs.n (m.nd + 2) false hu m.cons) fbc w' = some u' ∧ FEq u u' := by
  obtain ⟨a, a', h1, h2, h3⟩ := convection_feq (ns m.nd false mu kappa) rfl bs m sr dt false filter h
  obtain ⟨b, b', k1, k2, k3⟩ := convection_feq (ns m.nd false mu kappa) rfl bs m sr dt true filter (bc_feq m.nd bs.n (m.nd + 2) hu m.cons h3)
  refine ⟨b, b', ?_, ?_, k3⟩
  · simp only [flowStep, Bool.false_eq_true, if_false]; rw [h1]; exact k1
  · simp only [flowStep, Bool.false_eq_true, if_false]; rw [h2]; exact k2

theorem flow_feq (hu : Rule) (mu kappa : Transport) (sr : ℝ) (filter : Bool) (fbc : World → World) : ∀ (dts : List ℝ) {w w' : World}, FEq w w' →
    ∃ u u', flow false mu kappa bs m sr filter (runBc m.nd bs.n (m.nd + 2) false hu m.cons) fbc dts w = some u ∧
      flow false mu kappa bs m sr filter (runBc m.nd bs.n (m.nd + 2) false hu m.cons) fbc dts w' = some u' ∧ FEq u u'
  | [], w, w', h => ⟨w, w', rfl, rfl, h⟩
  | dt :: dts, w, w', h => by
    obtain ⟨a, a', h1, h2, h3⟩ := step_feq (m := m) (bs := bs) hu mu kappa sr dt filter fbc (bc_feq m.nd bs.n (m.nd + 2) hu m.cons h)
    obtain ⟨b, b', k1, k2, k3⟩ := flow_feq hu mu kappa sr filter fbc dts h3
    refine ⟨b, b', ?_, ?_, k3⟩
    · rw [flow] at k1 ⊢; rw [List.foldlM_cons, h1]; exact k1
    · rw [flow] at k2 ⊢; rw [List.foldlM_cons, h2]; exact k2

/-! ## Viscous steps -/

/-- In a viscous stage the LDG faces are written before they are read. -/
theorem diffusion_ldg (hm : m.Ok bs) (hn : 0 < bs.n) (p : Pde) (hd : p.hasDiff = true) (hne : p.nExtrap = m.nd + 2) (fbc : World → World) (sr dt : ℝ) (stage residual filter : Bool) {w w' : World} (h : FEq w w')
    (hl : ∀ b a, ¬(b ∈ faceStorage m ∧ a < (m.nd + 2) * bs.n ^ (m.nd - 1)) → w.buf b true a = w'.buf b true a) :
    computeDiffusion p bs m fbc sr dt stage residual filter w = computeDiffusion p bs m fbc sr dt stage residual filter w' := by
  have key : runRestrict p bs m false true (runRestrict p bs m true false (runNeighbor p bs m w)) = runRestrict p bs m false true (runRestrict p bs m true false (runNeighbor p bs m w')) := by
    have f1 := neighbor_feq p bs m h
    have f2 := restrict_feq p bs m true f1
    -- LDG faces after `Neighbor`
    obtain ⟨c1, c2, -, -⟩ := cons_fold (fun c st => neighbor p m.nd bs.n c.deformed c.dir c.normal st) m.cons w hm.sides_nodup
    obtain ⟨d1, d2, -, -⟩ := cons_fold (fun c st => neighbor p m.nd bs.n c.deformed c.dir c.normal st) m.cons w' hm.sides_nodup
    have n1 : ∀ b ∈ m.sides, (runNeighbor p bs m w).buf b true = (runNeighbor p bs m w').buf b true := by
      intro b hb
      obtain ⟨c, hc, s, rfl⟩ := sidesOf_mem (l := m.cons) hb
      rw [runNeighbor, runNeighbor, c1 c hc s, d1 c hc s]
      funext a
      simp only [neighbor, h.buf, hd, Bool.true_and, if_true]
      by_cases ha : a < p.nExtrap * bs.n ^ (m.nd - 1)
      · simp only [decide_eq_true_eq, if_pos ha]
      · simp only [decide_eq_true_eq, if_neg ha]
        exact hl _ _ fun h' => ha (by rw [hne]; exact h'.2)
    have n2 : ∀ b, b ∉ m.sides → (runNeighbor p bs m w).buf b true = w.buf b true ∧ (runNeighbor p bs m w').buf b true = w'.buf b true := by
      intro b hb
      rw [runNeighbor, runNeighbor, c2 b hb, d2 b hb]
      exact ⟨rfl, rfl⟩
    -- and after restriction of the states
    have r1 : ∀ (x : World) b, (runRestrict p bs m true false x).buf b true = x.buf b true :=
      fun x b => (restrict_fold p bs hn m.nd true false m.refs x.buf hm.refs_nodup).2 b true (Or.inr (by decide))
    obtain ⟨s1, s2⟩ := restrict_fold p bs hn m.nd false true m.refs (runRestrict p bs m true false (runNeighbor p bs m w)).buf hm.refs_nodup
    obtain ⟨t1, t2⟩ := restrict_fold p bs hn m.nd false true m.refs (runRestrict p bs m true false (runNeighbor p bs m w')).buf hm.refs_nodup
    refine World.ext' f2.state f2.cache ?_
    show m.refs.foldl (restrictRef p bs m.nd false true) _ = m.refs.foldl (restrictRef p bs m.nd false true) _
    funext b l
    cases l with
    | false => rw [s2 b false (Or.inr (by decide)), t2 b false (Or.inr (by decide))]; exact f2.buf b
    | true =>
      by_cases hb : b ∈ m.refs.flatMap (refBufs m.nd)
      · obtain ⟨r, hr, hb⟩ := List.mem_flatMap.1 hb
        rw [refBufs, List.mem_cons, List.mem_map] at hb
        have hfi : ∀ i < nFace m.nd r.str, (runRestrict p bs m true false (runNeighbor p bs m w)).buf (r.fine i) true = (runRestrict p bs m true false (runNeighbor p bs m w')).buf (r.fine i) true :=
          fun i hi => by rw [r1, r1, n1 _ (hm.fine_side hr hi)]
        rcases hb with rfl | ⟨i, hi, rfl⟩
        · funext a
          by_cases ha : a < p.nExtrap * bs.n ^ (m.nd - 1)
          · have hN : 0 < bs.n ^ (m.nd - 1) := Nat.pow_pos hn
            have hv : a / bs.n ^ (m.nd - 1) < p.nExtrap := Nat.div_lt_of_lt_mul (by rwa [Nat.mul_comm] at ha)
            have e1 := (s1 r hr).1 _ hv _ (Nat.mod_lt a hN)
            have e2 := (t1 r hr).1 _ hv _ (Nat.mod_lt a hN)
            rw [Nat.div_add_mod'] at e1 e2
            rw [e1, e2]
            exact Finset.sum_congr rfl fun i hi => by rw [hfi i (Finset.mem_range.1 hi)]
          · rw [(s1 r hr).2.1 a (by omega), (t1 r hr).2.1 a (by omega), r1, r1, (n2 _ (hm.coarse_side hr)).1, (n2 _ (hm.coarse_side hr)).2]
            exact hl _ _ fun h' => ha (by rw [hne]; exact h'.2)
        · rw [(s1 r hr).2.2 i (List.mem_range.1 hi), (t1 r hr).2.2 i (List.mem_range.1 hi), hfi i (List.mem_range.1 hi)]
      · rw [s2 b true (Or.inl hb), t2 b true (Or.inl hb), r1, r1]
        by_cases hs : b ∈ m.sides
        · exact n1 b hs
        · rw [(n2 b hs).1, (n2 b hs).2]
          funext a
          refine hl b a fun h' => ?_
          rcases (storage_sides hm b).1 h'.1 with h' | h'
          · exact hs h'
          · obtain ⟨r, hr, rfl⟩ := List.mem_map.1 h'
            exact hb (List.mem_flatMap.2 ⟨r, hr, by simp [refBufs]⟩)
  simp only [computeDiffusion, key]

end Hexed.StateFile
