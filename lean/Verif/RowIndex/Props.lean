import Verif.RowIndex.Model
import Verif.MathFn.IntProps
import Mathlib.Data.List.Perm.Basic
import Mathlib.Data.List.Nodup
import Mathlib.Data.List.Range

set_option autoImplicit false
set_option linter.unusedVariables false

/-!
# C19: row traversal visits every quadrature point exactly once
-/

namespace Hexed.RowIndex

/-! ## Specification -/

/-- Position of the point with coordinates `ds` (first coordinate slowest) in the flattened array with `rs` entries per
dimension. -/
def tensorIdx (rs : Nat) (ds : List Nat) : Nat := ds.foldl (fun acc d => acc * rs + d) 0

/-- `ds` is a valid list of `n` coordinates. -/
def IsCoords (rs n : Nat) (ds : List Nat) : Prop := ds.length = n ∧ ∀ d ∈ ds, d < rs

/-- The object after `k` increments. -/
def after (nd rs id : Nat) : Nat → RowIndex
  | 0 => RowIndex.new nd rs id
  | k + 1 => (after nd rs id k).incr

/-! ## Lemmas -/

theorem npow_eq (b n : Nat) : npow b (n : Int) = b ^ n := by unfold npow; exact MathFn.pow_nat b n

theorem foldl_idx (rs : Nat) : ∀ (ds : List Nat) (a : Nat), ds.foldl (fun acc d => acc * rs + d) a = a * rs ^ ds.length + tensorIdx rs ds
  | [], a => by simp [tensorIdx]
  | d :: ds, a => by
    have h1 := foldl_idx rs ds (a * rs + d)
    have h2 := foldl_idx rs ds (0 * rs + d)
    simp only [List.foldl_cons, tensorIdx] at h1 h2 ⊢
    rw [h1, h2, List.length_cons, pow_succ]; ring

theorem tensorIdx_append (rs : Nat) (xs ys : List Nat) : tensorIdx rs (xs ++ ys) = tensorIdx rs xs * rs ^ ys.length + tensorIdx rs ys := by
  have := foldl_idx rs ys (tensorIdx rs xs)
  simp only [tensorIdx, List.foldl_append] at this ⊢
  exact this

theorem tensorIdx_cons (rs d : Nat) (ds : List Nat) : tensorIdx rs (d :: ds) = d * rs ^ ds.length + tensorIdx rs ds := by
  have := tensorIdx_append rs [d] ds
  simpa [tensorIdx] using this

theorem tensorIdx_lt (rs : Nat) : ∀ (ds : List Nat), (∀ d ∈ ds, d < rs) → tensorIdx rs ds < rs ^ ds.length
  | [], _ => by simp [tensorIdx]
  | d :: ds, h => by
    rw [tensorIdx_cons, List.length_cons, pow_succ']
    have h1 := tensorIdx_lt rs ds (fun x hx => h x (by simp [hx]))
    have h2 := h d (by simp)
    nlinarith [Nat.zero_le (rs ^ ds.length)]

theorem new_stride (nd rs id : Nat) (hid : id < nd) : (RowIndex.new nd rs id).stride = rs ^ (nd - 1 - id) := by
  have : (nd : Int) - 1 - id = ((nd - 1 - id : Nat) : Int) := by omega
  simp only [RowIndex.new, this, npow_eq]

theorem new_nfq (nd rs id : Nat) (hrs : 0 < rs) (hid : id < nd) : (RowIndex.new nd rs id).n_fqpoint = rs ^ (nd - 1) := by
  simp only [RowIndex.new, npow_eq]
  obtain ⟨n, rfl⟩ : ∃ n, nd = n + 1 := ⟨nd - 1, by omega⟩
  rw [pow_succ, Nat.mul_div_cancel _ hrs]; rfl

theorem after_state (nd rs id : Nat) (hrs : 0 < rs) (hid : id < nd) : ∀ k,
    after nd rs id k = { RowIndex.new nd rs id with
      i_outer := k / rs ^ (nd - 1 - id), i_inner := k % rs ^ (nd - 1 - id), i_fq := k }
  | 0 => by simp [after, RowIndex.new]
  | k + 1 => by
    have hs := new_stride nd rs id hid
    have hpos : 0 < rs ^ (nd - 1 - id) := Nat.pow_pos hrs
    rw [after, after_state nd rs id hrs hid k]
    simp only [RowIndex.incr, hs]
    generalize rs ^ (nd - 1 - id) = s at hpos
    have hk := Nat.div_add_mod k s
    have hm := Nat.mod_lt k hpos
    by_cases h : k % s + 1 = s
    · rw [if_pos h]
      have e : k + 1 = s * (k / s + 1) := by rw [Nat.mul_add, Nat.mul_one]; omega
      rw [e, Nat.mul_div_cancel_left _ hpos, Nat.mul_mod_right]
    · rw [if_neg h]
      have e : k + 1 = (k % s + 1) + s * (k / s) := by omega
      have e1 : (k + 1) / s = k / s := by
        conv => lhs; rw [e]
        rw [Nat.add_mul_div_left _ _ hpos, Nat.div_eq_of_lt (by omega)]; omega
      have e2 : (k + 1) % s = k % s + 1 := by
        conv => lhs; rw [e]
        rw [Nat.add_mul_mod_self_left, Nat.mod_eq_of_lt (by omega)]
      rw [e1, e2]

theorem rows_eq (nd rs id : Nat) (hrs : 0 < rs) (hid : id < nd) : ∀ (m k : Nat), k + m = rs ^ (nd - 1) →
    rows (after nd rs id k) = (List.range' k m).map (after nd rs id) := by
  intro m
  induction m with
  | zero =>
    intro k hk
    rw [rows, dif_neg]; · rfl
    rw [after_state nd rs id hrs hid]
    simp only [RowIndex.valid, new_nfq nd rs id hrs hid, decide_eq_true_eq]; omega
  | succ m ih =>
    intro k hk
    rw [rows, dif_pos]
    · rw [show (after nd rs id k).incr = after nd rs id (k + 1) from rfl, ih (k + 1) (by omega), List.range'_succ]; rfl
    · rw [after_state nd rs id hrs hid]
      simp only [RowIndex.valid, new_nfq nd rs id hrs hid, decide_eq_true_eq]; omega

theorem div_mod_unique {s a b a' b' : Nat} (hb : b < s) (hb' : b' < s) (h : a * s + b = a' * s + b') : a = a' ∧ b = b' := by
  have hs : 0 < s := by omega
  have h1 : (a * s + b) / s = a := by rw [Nat.add_comm, Nat.add_mul_div_right _ _ hs, Nat.div_eq_of_lt hb]; omega
  have h2 : (a' * s + b') / s = a' := by rw [Nat.add_comm, Nat.add_mul_div_right _ _ hs, Nat.div_eq_of_lt hb']; omega
  have : a = a' := by rw [← h1, ← h2, h]
  subst this
  exact ⟨rfl, by omega⟩

theorem qpoint_eq (nd rs id : Nat) (hrs : 0 < rs) (hid : id < nd) (k node : Nat) :
    (after nd rs id k).i_qpoint node =
      ((k / rs ^ (nd - 1 - id)) * rs + node) * rs ^ (nd - 1 - id) + k % rs ^ (nd - 1 - id) := by
  rw [after_state nd rs id hrs hid]
  simp only [RowIndex.i_qpoint, new_stride nd rs id hid]
  show _ * rs ^ (nd - 1 - id) * rs + _ + _ = _
  ring

/-! ## Properties -/

/-- Every index below `rs^n` is the position of exactly one list of `n` coordinates. (About the specification: positions and
coordinates are interchangeable.) -/
theorem coords_unique (rs : Nat) (hrs : 0 < rs) : ∀ (n i : Nat), i < rs ^ n →
    ∃ ds, IsCoords rs n ds ∧ tensorIdx rs ds = i ∧ ∀ ds', IsCoords rs n ds' → tensorIdx rs ds' = i → ds' = ds
  | 0, i, h => by
    refine ⟨[], ⟨rfl, by simp⟩, ?_, ?_⟩
    · simp at h; subst h; rfl
    · intro ds' h1 _; exact List.length_eq_zero_iff.1 h1.1
  | n + 1, i, h => by
    have hp : 0 < rs ^ n := Nat.pow_pos hrs
    obtain ⟨ds, h1, h2, h3⟩ := coords_unique rs hrs n (i % rs ^ n) (Nat.mod_lt _ hp)
    have hd : i / rs ^ n < rs := by rw [Nat.div_lt_iff_lt_mul hp, mul_comm]; rwa [pow_succ] at h
    refine ⟨i / rs ^ n :: ds, ⟨by simp [h1.1], ?_⟩, ?_, ?_⟩
    · intro d hd'
      rcases List.mem_cons.1 hd' with rfl | hd'
      · exact hd
      · exact h1.2 d hd'
    · rw [tensorIdx_cons, h1.1, h2]; exact Nat.div_add_mod' i (rs ^ n)
    · intro ds' h4 h5
      cases ds' with
      | nil => simp [IsCoords] at h4
      | cons d ds' =>
        have hl : ds'.length = n := by have := h4.1; simpa using this
        have hlt := tensorIdx_lt rs ds' (fun x hx => h4.2 x (by simp [hx]))
        rw [tensorIdx_cons, hl] at h5
        rw [hl] at hlt
        have := div_mod_unique hlt (Nat.mod_lt i hp) (h5.trans (Nat.div_add_mod' i (rs ^ n)).symm)
        obtain ⟨rfl, h6⟩ := this
        rw [h3 ds' ⟨hl, fun x hx => h4.2 x (by simp [hx])⟩ h6]

/-- C19: the traversal visits exactly `row_size^(n_dim-1)` rows, the face quadrature point index running through
`0, 1, 2, ...` in order. -/
theorem face_order (nd rs id : Nat) (hrs : 0 < rs) (hid : id < nd) :
    (rows (RowIndex.new nd rs id)).map RowIndex.i_face_qpoint = List.range (rs ^ (nd - 1)) := by
  have := rows_eq nd rs id hrs hid (rs ^ (nd - 1)) 0 (by omega)
  rw [show RowIndex.new nd rs id = after nd rs id 0 from rfl, this, ← List.range_eq_range', List.map_map]
  conv => rhs; rw [← List.map_id (List.range _)]
  apply List.map_congr_left
  intro k _
  simp [after_state nd rs id hrs hid, RowIndex.i_face_qpoint]

/-- C19: in the row whose face point has coordinates `pre ++ post` (dimension `i_dim` removed), node `i` is the quadrature
point with coordinates `pre ++ i :: post`. -/
theorem row_points (nd rs id : Nat) (hrs : 0 < rs) (hid : id < nd) (r : RowIndex) (hr : r ∈ rows (RowIndex.new nd rs id))
    (pre post : List Nat) (hpre : IsCoords rs id pre) (hpost : IsCoords rs (nd - 1 - id) post)
    (hk : r.i_face_qpoint = tensorIdx rs (pre ++ post)) (node : Nat) (hn : node < rs) :
    r.i_qpoint node = tensorIdx rs (pre ++ node :: post) ∧ r.i_node (tensorIdx rs (pre ++ node :: post)) = node := by
  have h0 := rows_eq nd rs id hrs hid (rs ^ (nd - 1)) 0 (by omega)
  rw [show RowIndex.new nd rs id = after nd rs id 0 from rfl, h0] at hr
  obtain ⟨k, _, rfl⟩ := List.mem_map.1 hr
  have hfq : (after nd rs id k).i_face_qpoint = k := by simp [after_state nd rs id hrs hid, RowIndex.i_face_qpoint]
  rw [hfq] at hk
  have hlt := tensorIdx_lt rs post hpost.2
  rw [hpost.1] at hlt
  rw [tensorIdx_append, hpost.1] at hk
  have hdm := div_mod_unique (Nat.mod_lt k (Nat.pow_pos hrs)) hlt ((Nat.div_add_mod' k (rs ^ (nd - 1 - id))).trans hk)
  have hidx : tensorIdx rs (pre ++ node :: post) = (tensorIdx rs pre * rs + node) * rs ^ (nd - 1 - id) + tensorIdx rs post := by
    rw [tensorIdx_append, tensorIdx_cons, List.length_cons, hpost.1, pow_succ]; ring
  refine ⟨by rw [qpoint_eq nd rs id hrs hid, hdm.1, hdm.2, hidx], ?_⟩
  have hst : (after nd rs id k).stride = rs ^ (nd - 1 - id) := by
    rw [after_state nd rs id hrs hid]; exact new_stride nd rs id hid
  have hrs' : (after nd rs id k).row_size = rs := by rw [after_state nd rs id hrs hid]; rfl
  simp only [RowIndex.i_node, hst, hrs', hidx]
  rw [Nat.add_comm, Nat.add_mul_div_right _ _ (Nat.pow_pos hrs), Nat.div_eq_of_lt hlt, Nat.zero_add, Nat.add_comm,
    Nat.add_mul_mod_self_right, Nat.mod_eq_of_lt hn]

/-- C19: all the points of all the rows are all the quadrature points `0 ... row_size^n_dim - 1`, each exactly once. -/
theorem visits_once (nd rs id : Nat) (hrs : 0 < rs) (hid : id < nd) :
    List.Perm ((rows (RowIndex.new nd rs id)).flatMap fun r => (List.range rs).map r.i_qpoint) (List.range (rs ^ nd)) := by
  have h0 := rows_eq nd rs id hrs hid (rs ^ (nd - 1)) 0 (by omega)
  rw [show RowIndex.new nd rs id = after nd rs id 0 from rfl, h0, ← List.range_eq_range']
  have hp : 0 < rs ^ (nd - 1 - id) := Nat.pow_pos hrs
  have hnd : rs ^ nd = rs ^ (nd - 1) * rs := by rw [← pow_succ]; congr 1; omega
  have hinj : ∀ k node k' node', node < rs → node' < rs → (after nd rs id k).i_qpoint node = (after nd rs id k').i_qpoint node' →
      k = k' ∧ node = node' := by
    intro k node k' node' hn hn' h
    rw [qpoint_eq nd rs id hrs hid, qpoint_eq nd rs id hrs hid] at h
    obtain ⟨h1, h2⟩ := div_mod_unique (Nat.mod_lt _ hp) (Nat.mod_lt _ hp) h
    obtain ⟨h3, h4⟩ := div_mod_unique hn hn' h1
    exact ⟨by rw [← Nat.div_add_mod k (rs ^ (nd - 1 - id)), ← Nat.div_add_mod k' (rs ^ (nd - 1 - id)), h2, h3], h4⟩
  refine (List.perm_ext_iff_of_nodup ?_ List.nodup_range).2 ?_
  · rw [List.nodup_flatMap]
    constructor
    · intro r hr
      obtain ⟨k, _, rfl⟩ := List.mem_map.1 hr
      refine List.Nodup.map_on ?_ List.nodup_range
      intro a ha b hb h
      exact (hinj k a k b (List.mem_range.1 ha) (List.mem_range.1 hb) h).2
    · rw [List.pairwise_map]
      refine List.nodup_range.imp ?_
      intro k k' hne x hx hx'
      obtain ⟨a, ha, rfl⟩ := List.mem_map.1 hx
      obtain ⟨b, hb, he⟩ := List.mem_map.1 hx'
      exact hne (hinj k' b k a (List.mem_range.1 hb) (List.mem_range.1 ha) he).1.symm
  · intro q
    simp only [List.mem_flatMap, List.mem_map, List.mem_range]
    constructor
    · rintro ⟨r, ⟨k, hk, rfl⟩, node, hn, rfl⟩
      rw [qpoint_eq nd rs id hrs hid]
      have h1 : k / rs ^ (nd - 1 - id) < rs ^ id := by
        rw [Nat.div_lt_iff_lt_mul hp, ← pow_add]
        rwa [show id + (nd - 1 - id) = nd - 1 by omega]
      have h2 := Nat.mod_lt k hp
      have h3 : rs ^ nd = rs ^ id * rs * rs ^ (nd - 1 - id) := by rw [← pow_succ, ← pow_add]; congr 1; omega
      rw [h3]
      have h4 : k / rs ^ (nd - 1 - id) * rs + node + 1 ≤ rs ^ id * rs := by nlinarith
      nlinarith
    · intro hq
      refine ⟨_, ⟨q / rs ^ (nd - 1 - id) / rs * rs ^ (nd - 1 - id) + q % rs ^ (nd - 1 - id), ?_, rfl⟩, q / rs ^ (nd - 1 - id) % rs,
        Nat.mod_lt _ hrs, ?_⟩
      · have h3 : rs ^ nd = rs ^ (nd - 1 - id) * rs * rs ^ id := by rw [← pow_succ, ← pow_add]; congr 1; omega
        have h1 : q / rs ^ (nd - 1 - id) / rs < rs ^ id := by
          rw [Nat.div_div_eq_div_mul, Nat.div_lt_iff_lt_mul (Nat.mul_pos hp hrs), mul_comm, ← h3]; exact hq
        have h2 := Nat.mod_lt q hp
        have h4 : rs ^ (nd - 1) = rs ^ id * rs ^ (nd - 1 - id) := by rw [← pow_add]; congr 1; omega
        rw [h4]; nlinarith
      · rw [qpoint_eq nd rs id hrs hid]
        have hm := Nat.mod_lt q hp
        generalize hs : rs ^ (nd - 1 - id) = s at *
        have e1 : (q / s / rs * s + q % s) / s = q / s / rs := by
          rw [Nat.add_comm, Nat.add_mul_div_right _ _ hp, Nat.div_eq_of_lt hm, Nat.zero_add]
        have e2 : (q / s / rs * s + q % s) % s = q % s := by
          rw [Nat.add_comm, Nat.add_mul_mod_self_right, Nat.mod_eq_of_lt hm]
        rw [e1, e2, Nat.div_add_mod', Nat.div_add_mod']

example : (rows (RowIndex.new 2 3 0)).map (fun r => [r.i_qpoint 0, r.i_qpoint 1, r.i_qpoint 2]) = [[0, 3, 6], [1, 4, 7], [2, 5, 8]] := by
  have := rows_eq 2 3 0 (by omega) (by omega) 3 0 (by omega)
  rw [show RowIndex.new 2 3 0 = after 2 3 0 0 from rfl, this]
  simp [List.range'_succ, qpoint_eq]

end Hexed.RowIndex
