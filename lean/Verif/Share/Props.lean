import Verif.Share.Agree
import Verif.Share.Planar
import Mathlib.Algebra.Order.Ring.Rat
set_option autoImplicit false
set_option linter.unusedVariables false

/-!
# Properties: sharing of data among elements at vertices (C76)
-/

namespace Hexed.Share
open Hexed.Connection

variable {K : Type} [Field K] [LinearOrder K] [IsStrictOrderedRing K] {m : Mesh} {order : Nat → List (Nat × Nat)}

/-- `share_vertex_data` with `vector_max` never fails. All elements that have a vertex agree on its value afterwards. Where the vertex is not hanging this is the largest of the values the
elements had; vertices of fine elements on a coarse face get the multilinear interpolation of the values that the coarse element has at the corners of the face. -/
theorem share_max (hc : Consistent K m) (ho : m.IsOrder order) (u : Nat → K) (get set : Nat → Nat → K) : ∃ val, shareVertexData m order u vectorMax get set = some val ∧
    (∀ e < m.ne, ∀ v < 2 ^ m.nd, ∀ e' < m.ne, ∀ v' < 2 ^ m.nd, m.vid e v = m.vid e' v' → val e v = val e' v') ∧
    (∀ e < m.ne, ∀ v < 2 ^ m.nd, ¬ m.HangingAt e v → m.IsMax get (m.vid e v) (val e v)) ∧
    (∀ h ∈ m.matchers, ∀ ce < m.ne, ∀ cv : Nat → Nat, (∀ c ∈ faceVerts m.nd h.id h.isp, cv c < 2 ^ m.nd ∧ m.IsCorner h c (m.vid ce (cv c))) →
      ∀ i e v, h.fine[i]? = some e → v ∈ faceVerts m.nd h.id h.isp → val e v = ((faceVerts m.nd h.id h.isp).map fun c => h.weight K m.nd i v c * val ce (cv c)).sum) ∧
    ∀ e v, ¬ (e < m.ne ∧ v < 2 ^ m.nd) → val e v = set e v := by
  obtain ⟨val, h1, hi⟩ := share_inv hc ho picks_max u get set
  refine ⟨val, h1, fun e he v hv e' he' v' hv' hvid => agree hc hi he hv he' hv' hvid, fun e he v hv hh => ?_, fun h hh ce hce cv hcv i e v hie hv => from_coarse hc hi hh hce hcv hie hv, hi.out⟩
  rw [hi.plain e he v hv hh]
  exact sv_max he hv

/-- The same for `vector_min`. -/
theorem share_min (hc : Consistent K m) (ho : m.IsOrder order) (u : Nat → K) (get set : Nat → Nat → K) : ∃ val, shareVertexData m order u vectorMin get set = some val ∧
    (∀ e < m.ne, ∀ v < 2 ^ m.nd, ∀ e' < m.ne, ∀ v' < 2 ^ m.nd, m.vid e v = m.vid e' v' → val e v = val e' v') ∧
    (∀ e < m.ne, ∀ v < 2 ^ m.nd, ¬ m.HangingAt e v → m.IsMin get (m.vid e v) (val e v)) ∧
    (∀ h ∈ m.matchers, ∀ ce < m.ne, ∀ cv : Nat → Nat, (∀ c ∈ faceVerts m.nd h.id h.isp, cv c < 2 ^ m.nd ∧ m.IsCorner h c (m.vid ce (cv c))) →
      ∀ i e v, h.fine[i]? = some e → v ∈ faceVerts m.nd h.id h.isp → val e v = ((faceVerts m.nd h.id h.isp).map fun c => h.weight K m.nd i v c * val ce (cv c)).sum) ∧
    ∀ e v, ¬ (e < m.ne ∧ v < 2 ^ m.nd) → val e v = set e v := by
  obtain ⟨val, h1, hi⟩ := share_inv hc ho picks_min u get set
  refine ⟨val, h1, fun e he v hv e' he' v' hv' hvid => agree hc hi he hv he' hv' hvid, fun e he v hv hh => ?_, fun h hh ce hce cv hcv i e v hie hv => from_coarse hc hi hh hce hcv hie hv, hi.out⟩
  rw [hi.plain e he v hv hh]
  exact sv_min he hv

/-- The field obtained by multilinear interpolation of the shared values is continuous across faces of equal elements, whose vertices are shared: here the upper face of `e` in dimension
`i` and the lower face of `e'`. -/
theorem share_continuous (hc : Consistent K m) (ho : m.IsOrder order) (u : Nat → K) (get set : Nat → Nat → K) {val : Nat → Nat → K}
    (hs : shareVertexData m order u vectorMax get set = some val ∨ shareVertexData m order u vectorMin get set = some val) {e e' : Nat} (he : e < m.ne) (he' : e' < m.ne) (i : Fin 3) (hi : i.val < m.nd)
    (hf : ∀ v < 2 ^ m.nd, coord m.nd v i = 0 → m.vid e (v + 2 ^ (m.nd - 1 - i.val)) = m.vid e' v) (ξ : Nat → K) :
    field m.nd (val e) (Function.update ξ i.val 1) = field m.nd (val e') (Function.update ξ i.val 0) := by
  have hag : ∀ e < m.ne, ∀ v < 2 ^ m.nd, ∀ e' < m.ne, ∀ v' < 2 ^ m.nd, m.vid e v = m.vid e' v' → val e v = val e' v' := by
    rcases hs with hs | hs
    · obtain ⟨w, h1, h2, -⟩ := share_max hc ho u get set
      rw [hs] at h1
      obtain rfl := Option.some.inj h1
      exact h2
    · obtain ⟨w, h1, h2, -⟩ := share_min hc ho u get set
      rw [hs] at h1
      obtain rfl := Option.some.inj h1
      exact h2
  have t : ∀ nd ∈ [2, 3], ∀ i : Fin 3, i.val < nd → (faceVerts nd i true = (faceVerts nd i false).map fun v => v + 2 ^ (nd - 1 - i.val)) ∧ (∀ k ∈ faceAxes nd i, k ≠ i) ∧
      ∀ v ∈ faceVerts nd i false, v < 2 ^ nd ∧ v + 2 ^ (nd - 1 - i.val) < 2 ^ nd ∧ coord nd v i = 0 ∧ ∀ k ∈ faceAxes nd i, corner nd (v + 2 ^ (nd - 1 - i.val)) k = corner nd v k := by decide +kernel
  obtain ⟨t1, t2, t3⟩ := t m.nd (by simpa using hc.dim) i hi
  rw [field_face hc.dim i hi true _ _ (by simp), field_face hc.dim i hi false _ _ (by simp), t1, List.map_map]
  refine congrArg List.sum (List.map_congr_left fun v hv => ?_)
  obtain ⟨a, b, c, d⟩ := t3 v hv
  simp only [Function.comp]
  rw [hag e he _ b e' he' v a (hf v a c)]
  congr 2
  refine List.map_congr_left fun k hk => ?_
  have hk' : k.val ≠ i.val := fun h => t2 k hk (Fin.ext h)
  rw [d k hk, Function.update_of_ne hk', Function.update_of_ne hk']

/-- The field is continuous across a hanging-node connection: at every point of the face it is the same in the fine element and in the coarse element, whose corners are vertices of the fine ones. -/
theorem share_continuous_hanging (hc : Consistent K m) (ho : m.IsOrder order) (u : Nat → K) (get set : Nat → Nat → K) {val : Nat → Nat → K}
    (hs : shareVertexData m order u vectorMax get set = some val ∨ shareVertexData m order u vectorMin get set = some val) {h : Matcher} (hh : h ∈ m.matchers) {ce : Nat} (hce : ce < m.ne)
    (hcv : ∀ w ∈ faceVerts m.nd h.id (!h.isp), ∀ c ∈ faceVerts m.nd h.id h.isp, (∀ k ∈ faceAxes m.nd h.id, corner m.nd w k = corner m.nd c k) → m.IsCorner h c (m.vid ce w))
    {i e : Nat} (hie : h.fine[i]? = some e) (ξ η : Nat → K) (hξ : ξ h.id.val = if h.isp then 1 else 0) (hη : η h.id.val = if h.isp then 0 else 1)
    (hηξ : ∀ k ∈ faceAxes m.nd h.id, η k.val = coarseCoord (partCenter m.nd h.id h.str i k) (ξ k.val)) :
    field m.nd (val e) ξ = field m.nd (val ce) η := by
  have hok := hc.ok h hh
  have t : ∀ nd ∈ [2, 3], ∀ id : Fin 3, id.val < nd → ∀ isp : Bool, ∃ d : Bool,
      faceVerts nd id (!isp) = (faceVerts nd id isp).map (fun c => if d then c + 2 ^ (nd - 1 - id.val) else c - 2 ^ (nd - 1 - id.val)) ∧
      ∀ c ∈ faceVerts nd id isp, ∀ k ∈ faceAxes nd id, corner nd (if d then c + 2 ^ (nd - 1 - id.val) else c - 2 ^ (nd - 1 - id.val)) k = corner nd c k := by decide +kernel
  obtain ⟨d, t1, t2⟩ := t m.nd (by simpa using hc.dim) h.id hok.id h.isp
  have hmem : ∀ c ∈ faceVerts m.nd h.id h.isp, (if d then c + 2 ^ (m.nd - 1 - h.id.val) else c - 2 ^ (m.nd - 1 - h.id.val)) ∈ faceVerts m.nd h.id (!h.isp) := fun c hcf => by
    rw [t1]; exact List.mem_map.2 ⟨c, hcf, rfl⟩
  have hcoarse : ∀ v ∈ faceVerts m.nd h.id h.isp, val e v = ((faceVerts m.nd h.id h.isp).map fun c => h.weight K m.nd i v c * val ce (if d then c + 2 ^ (m.nd - 1 - h.id.val) else c - 2 ^ (m.nd - 1 - h.id.val))).sum := by
    have arg : ∀ c ∈ faceVerts m.nd h.id h.isp, (if d then c + 2 ^ (m.nd - 1 - h.id.val) else c - 2 ^ (m.nd - 1 - h.id.val)) < 2 ^ m.nd ∧
        m.IsCorner h c (m.vid ce (if d then c + 2 ^ (m.nd - 1 - h.id.val) else c - 2 ^ (m.nd - 1 - h.id.val))) := fun c hcf =>
      ⟨faceVerts_lt (hmem c hcf), hcv _ (hmem c hcf) c hcf (t2 c hcf)⟩
    intro v hv
    rcases hs with hs | hs
    · obtain ⟨w, h1, -, -, h4, -⟩ := share_max hc ho u get set
      rw [hs] at h1
      obtain rfl := Option.some.inj h1
      exact h4 h hh ce hce _ arg i e v hie hv
    · obtain ⟨w, h1, -, -, h4, -⟩ := share_min hc ho u get set
      rw [hs] at h1
      obtain rfl := Option.some.inj h1
      exact h4 h hh ce hce _ arg i e v hie hv
  have hil : i < nFine m.nd h.str := hok.length ▸ (List.getElem?_eq_some_iff.1 hie).1
  rw [fine_field two_ne_zero hc.dim hok.id hil (val e) _ ξ hξ hcoarse, field_face hc.dim h.id hok.id (!h.isp) (val ce) η (by rw [hη]; cases h.isp <;> rfl), t1, List.map_map]
  refine congrArg List.sum (List.map_congr_left fun c hcf => ?_)
  simp only [Function.comp]
  congr 2
  refine List.map_congr_left fun k hk => ?_
  rw [t2 c hcf k hk, hηξ k hk]

/-- The order in which the threads execute the matchers, and the addresses of the pointers, make no difference. -/
theorem share_order (hc : Consistent K m) (ho : m.IsOrder order) {order' : Nat → List (Nat × Nat)} (ho' : m.IsOrder order') {l : List Matcher} (hl : l.Perm m.matchers) (u u' : Nat → K) (get set : Nat → Nat → K) :
    shareVertexData { m with matchers := l } order' u' vectorMax get set = shareVertexData m order u vectorMax get set ∧
    shareVertexData { m with matchers := l } order' u' vectorMin get set = shareVertexData m order u vectorMin get set := by
  have hc' : Consistent K { m with matchers := l } := by
    have hmem : ∀ h, h ∈ l → h ∈ m.matchers := fun h => hl.mem_iff.1
    refine ⟨hc.dim, fun h hh => hc.ok h (hmem h hh), fun h hh i e v hie hang e' he' v' hv' hvid => ?_, fun h hh h' hh' => hc.same h (hmem h hh) h' (hmem h' hh'),
      fun h hh c p hp h' hh' => hc.corners h (hmem h hh) c p hp h' (hmem h' hh')⟩
    obtain ⟨h', hm', r⟩ := hc.covered h (hmem h hh) i e v hie hang e' he' v' hv' hvid
    exact ⟨h', hl.mem_iff.2 hm', r⟩
  have key : ∀ reduce : List K → Option K, Picks reduce → shareVertexData { m with matchers := l } order' u' reduce get set = shareVertexData m order u reduce get set := by
    intro reduce hr
    obtain ⟨v1, e1, i1⟩ := share_inv hc ho hr u get set
    obtain ⟨v2, e2, i2⟩ := share_inv (m := { m with matchers := l }) hc' ho' hr u' get set
    rw [e1, e2]
    congr 1
    funext e v
    by_cases hin : e < m.ne ∧ v < 2 ^ m.nd
    · by_cases hh : m.HangingAt e v
      · obtain ⟨h, hm, i, hie, hang⟩ := hh
        obtain ⟨x, hx⟩ := isInterp_exists hc.dim (hc.ok h hm) i v (sv m reduce get)
        rw [i1.hang h hm i e v hie hang x hx]
        exact i2.hang h (hl.mem_iff.2 hm) i e v hie hang x hx
      · rw [i1.plain e hin.1 v hin.2 hh]
        refine i2.plain e hin.1 v hin.2 ?_
        rintro ⟨h, hm, r⟩
        exact hh ⟨h, hl.mem_iff.1 hm, r⟩
    · rw [i1.out e v hin]
      exact i2.out e v hin
  exact ⟨key _ picks_max, key _ picks_min⟩

/-- In every mesh, consistent or not, the shared values are within the bounds of the values the elements had. -/
theorem share_bounds (hnd : m.nd = 2 ∨ m.nd = 3) (hok : ∀ h ∈ m.matchers, h.Ok m.nd m.ne) (ho : m.IsOrder order) (u : Nat → K) (get set : Nat → Nat → K) {lo hi : K}
    (hb : ∀ e < m.ne, ∀ v < 2 ^ m.nd, lo ≤ get e v ∧ get e v ≤ hi) :
    (∃ val, shareVertexData m order u vectorMax get set = some val ∧ ∀ e < m.ne, ∀ v < 2 ^ m.nd, lo ≤ val e v ∧ val e v ≤ hi) ∧
    ∃ val, shareVertexData m order u vectorMin get set = some val ∧ ∀ e < m.ne, ∀ v < 2 ^ m.nd, lo ≤ val e v ∧ val e v ≤ hi := by
  have key : ∀ reduce : List K → Option K, Picks reduce → ∃ val, shareVertexData m order u reduce get set = some val ∧ ∀ e < m.ne, ∀ v < 2 ^ m.nd, lo ≤ val e v ∧ val e v ≤ hi := by
    intro reduce hr
    obtain ⟨v0, e0, p0, -⟩ := fetch_eq (get := get) (set := set) ho hr
    obtain ⟨v1, e1, b1⟩ := bounds_fold hnd u m.matchers v0 hok (lo := lo) (hi := hi) (by
      intro e he v hv
      rw [p0 e he v hv]
      obtain ⟨-, e', he', v', hv', -, heq⟩ := shared_eq (get := get) ho hr he hv
      rw [heq]
      exact hb e' he' v' hv')
    exact ⟨v1, by rw [shareVertexData, e0]; exact e1, b1⟩
  exact ⟨key _ picks_max, key _ picks_min⟩

/-- Two-dimensional meshes of squares are consistent, whatever their levels of refinement. -/
theorem planar_consistent (K : Type) [Field K] {x : Nat → Fin 3 → ℤ} {size : Nat → ℤ} {coarse : Matcher → Nat} (hp : Planar m x size coarse) : Consistent K m := planar_consistent' K hp

/-- Conforming meshes in two and three dimensions are consistent. -/
theorem conforming_consistent (K : Type) [Field K] (hnd : m.nd = 2 ∨ m.nd = 3) (hm : m.matchers = []) : Consistent K m := by
  refine ⟨hnd, ?_, ?_, ?_, ?_⟩ <;> simp [hm]

end Hexed.Share
