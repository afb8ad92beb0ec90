import Verif.Share.Field
set_option autoImplicit false
set_option linter.unusedVariables false

/-! # Lemmas: agreement of the elements -/

namespace Hexed.Share
open Hexed.Connection

variable {K : Type} [Field K] [LinearOrder K] [IsStrictOrderedRing K] {m : Mesh} {order : Nat → List (Nat × Nat)} {reduce : List K → Option K} {get set : Nat → Nat → K}

theorem corner_vertex_unique (hnd : m.nd = 2 ∨ m.nd = 3) {h : Matcher} (hok : h.Ok m.nd m.ne) {c p q : Nat} (hp : m.IsCorner h c p) (hq : m.IsCorner h c q) : p = q := by
  obtain ⟨t1, t2, t3, t4, t5, -⟩ := hanging_table m.nd (by simpa using hnd) h.id hok.id h.isp h.str.1 h.str.2
  obtain ⟨hc, i, e, hi, ha, rfl⟩ := hp
  obtain ⟨-, j, f, hj, hb, rfl⟩ := hq
  have li : i < nFine m.nd h.str := hok.length ▸ (List.getElem?_eq_some_iff.1 hi).1
  have lj : j < nFine m.nd h.str := hok.length ▸ (List.getElem?_eq_some_iff.1 hj).1
  have hc' := hc
  rw [t3] at hc'
  obtain ⟨n, hn, rfl⟩ := List.mem_map.1 hc'
  have e1 := t5 n hn i (by simpa using li) ((atCorner_iff h i _).1 ha)
  have e2 := t5 n hn j (by simpa using lj) ((atCorner_iff h j _).1 hb)
  obtain rfl : i = j := e1.trans e2.symm
  rw [hi] at hj
  rw [Option.some.inj hj]

/-- A vertex at a corner of a coarse face is not hanging. -/
theorem corner_plain (hc : Consistent K m) {h : Matcher} (hh : h ∈ m.matchers) {c e v : Nat} (hp : m.IsCorner h c (m.vid e v)) : ¬ m.HangingAt e v := by
  rintro ⟨h', hh', i, hi, hang⟩
  exact hc.corners h hh c _ hp h' hh' i e v hi hang rfl

theorem agree (hc : Consistent K m) {s : Nat → K} {val : Nat → Nat → K} (hi : Inv m m.matchers s set val) {e v e' v' : Nat} (he : e < m.ne) (hv : v < 2 ^ m.nd) (he' : e' < m.ne) (hv' : v' < 2 ^ m.nd)
    (hvid : m.vid e v = m.vid e' v') : val e v = val e' v' := by
  by_cases hh : m.HangingAt e v
  · obtain ⟨h, hm, i, hie, hang⟩ := hh
    obtain ⟨h', hm', i', hie', hang'⟩ := hc.covered h hm i e v hie hang e' he' v' hv' hvid.symm
    obtain ⟨x, hx⟩ := isInterp_exists hc.dim (hc.ok h hm) i v s
    obtain ⟨x', hx'⟩ := isInterp_exists hc.dim (hc.ok h' hm') i' v' s
    rw [hi.hang h hm i e v hie hang x hx, hi.hang h' hm' i' e' v' hie' hang' x' hx']
    exact hc.same h hm h' hm' i e v i' e' v' hie hang hie' hang' hvid s x x' hx hx'
  · have hh' : ¬ m.HangingAt e' v' := by
      rintro ⟨h', hm', i', hie', hang'⟩
      obtain ⟨h, hm, i, hie, hang⟩ := hc.covered h' hm' i' e' v' hie' hang' e he v hv hvid
      exact hh ⟨h, hm, i, hie, hang⟩
    rw [hi.plain e he v hv hh, hi.plain e' he' v' hv' hh', hvid]

theorem from_coarse (hc : Consistent K m) {s : Nat → K} {val : Nat → Nat → K} (hi : Inv m m.matchers s set val) {h : Matcher} (hh : h ∈ m.matchers) {ce : Nat} (hce : ce < m.ne) {cv : Nat → Nat}
    (hcv : ∀ c ∈ faceVerts m.nd h.id h.isp, cv c < 2 ^ m.nd ∧ m.IsCorner h c (m.vid ce (cv c))) {i e v : Nat} (hie : h.fine[i]? = some e) (hv : v ∈ faceVerts m.nd h.id h.isp) :
    val e v = ((faceVerts m.nd h.id h.isp).map fun c => h.weight K m.nd i v c * val ce (cv c)).sum := by
  have hok := hc.ok h hh
  have hval : ∀ c ∈ faceVerts m.nd h.id h.isp, val ce (cv c) = s (m.vid ce (cv c)) := fun c hcf => hi.plain ce hce _ (hcv c hcf).1 (corner_plain hc hh (hcv c hcf).2)
  by_cases ha : h.AtCorner m.nd i v
  · have hcor : m.IsCorner h v (m.vid e v) := ⟨hv, i, e, hie, ha, rfl⟩
    have : ((faceVerts m.nd h.id h.isp).map fun c => h.weight K m.nd i v c * val ce (cv c)) = (faceVerts m.nd h.id h.isp).map fun c => if c = v then val ce (cv v) else 0 := by
      refine List.map_congr_left fun c hcf => ?_
      rw [weight_corner hc.dim hok hv hcf ha]
      split
      · rename_i e; rw [one_mul, e]
      · rw [zero_mul]
    obtain ⟨-, -, -, t4, -⟩ := weight_table m.nd (by simpa using hc.dim) h.id hok.id h.isp h.str.1 h.str.2
    rw [this, List.sum_map_ite_eq, List.count_eq_one_of_mem t4 hv, one_smul, sub_zero, List.sum_eq_zero (by simp), add_zero, hval v hv,
      hi.plain e (hok.exist e (List.mem_of_getElem? hie)) v (faceVerts_lt hv) (corner_plain hc hh hcor), corner_vertex_unique hc.dim hok hcor (hcv v hv).2]
  · refine hi.hang h hh i e v hie ⟨by rw [← hok.length]; exact (List.getElem?_eq_some_iff.1 hie).1, hv, ha⟩ _ ⟨fun c => m.vid ce (cv c), fun c hcf => (hcv c hcf).2, ?_⟩
    exact congrArg List.sum (List.map_congr_left fun c hcf => by rw [hval c hcf])

theorem sv_max {get : Nat → Nat → K} {e v : Nat} (he : e < m.ne) (hv : v < 2 ^ m.nd) : m.IsMax get (m.vid e v) (sv m vectorMax get (m.vid e v)) := by
  have hne : ((m.ptrs (m.vid e v)).map fun s => get s.1 s.2) ≠ [] := by
    intro h
    rw [List.map_eq_nil_iff] at h
    have : (e, v) ∈ m.ptrs (m.vid e v) := mem_ptrs.2 ⟨he, hv, rfl⟩
    rw [h] at this; simp at this
  obtain ⟨x, h1, h2, h3⟩ := vectorMax_spec hne
  have hx : sv m vectorMax get (m.vid e v) = x := by rw [sv, h1]; rfl
  rw [hx]
  obtain ⟨t, ht, rfl⟩ := List.mem_map.1 h2
  obtain ⟨a, b, c⟩ := mem_ptrs.1 ht
  exact ⟨⟨t.1, a, t.2, b, c, rfl⟩, fun e' he' v' hv' hvid => h3 _ (List.mem_map.2 ⟨(e', v'), mem_ptrs.2 ⟨he', hv', hvid⟩, rfl⟩)⟩

theorem sv_min {get : Nat → Nat → K} {e v : Nat} (he : e < m.ne) (hv : v < 2 ^ m.nd) : m.IsMin get (m.vid e v) (sv m vectorMin get (m.vid e v)) := by
  have hne : ((m.ptrs (m.vid e v)).map fun s => get s.1 s.2) ≠ [] := by
    intro h
    rw [List.map_eq_nil_iff] at h
    have : (e, v) ∈ m.ptrs (m.vid e v) := mem_ptrs.2 ⟨he, hv, rfl⟩
    rw [h] at this; simp at this
  obtain ⟨x, h1, h2, h3⟩ := vectorMin_spec hne
  have hx : sv m vectorMin get (m.vid e v) = x := by rw [sv, h1]; rfl
  rw [hx]
  obtain ⟨t, ht, rfl⟩ := List.mem_map.1 h2
  obtain ⟨a, b, c⟩ := mem_ptrs.1 ht
  exact ⟨⟨t.1, a, t.2, b, c, rfl⟩, fun e' he' v' hv' hvid => h3 _ (List.mem_map.2 ⟨(e', v'), mem_ptrs.2 ⟨he', hv', hvid⟩, rfl⟩)⟩

/-- Bounds are kept by each `match`, in every mesh. -/
theorem bounds_fold (hnd : m.nd = 2 ∨ m.nd = 3) (u : Nat → K) {lo hi : K} : ∀ (l : List Matcher) (val : Nat → Nat → K), (∀ h ∈ l, h.Ok m.nd m.ne) → (∀ e < m.ne, ∀ v < 2 ^ m.nd, lo ≤ val e v ∧ val e v ≤ hi) →
    ∃ val', l.foldlM (matchOn m.nd u) val = some val' ∧ ∀ e < m.ne, ∀ v < 2 ^ m.nd, lo ≤ val' e v ∧ val' e v ≤ hi
  | [], val, _, hb => ⟨val, rfl, hb⟩
  | h :: l, val, hl, hb => by
    have hok := hl h (by simp)
    obtain ⟨v1, e1, n1, o1⟩ := matchOn_eq hnd hok u val
    obtain ⟨el, hel⟩ := corners_exist hnd hok
    obtain ⟨v2, e2, b2⟩ := bounds_fold hnd u l v1 (fun h' hh' => hl h' (by simp [hh'])) (by
      intro e he v hv
      by_cases hf : e ∈ h.fine ∧ v ∈ faceVerts m.nd h.id h.isp
      · obtain ⟨i, hil, hie⟩ := List.getElem_of_mem hf.1
        have hi2 : i < nFine m.nd h.str := hok.length ▸ hil
        rw [n1 i e v (List.getElem?_eq_some_iff.2 ⟨hil, hie⟩) hf.2 el hel]
        have := average_bounds (fun c => h.weight K m.nd i v c) (fun c => val (h.fine.getD (el c) 0) c) (lo := lo) (hi := hi) (faceVerts m.nd h.id h.isp)
          (fun c hcf => weight_nonneg hnd hok hi2 hf.2 hcf)
          (fun c hcf => hb _ (hok.exist _ (List.mem_of_getElem? (getD_fine hok (hel c hcf).1))) c (faceVerts_lt hcf))
        rw [weight_sum hnd hok hi2 hf.2, one_mul, one_mul] at this
        exact this
      · rw [o1 e v (by tauto)]
        exact hb e he v hv)
    exact ⟨v2, by rw [List.foldlM_cons, e1]; exact e2, b2⟩

end Hexed.Share
