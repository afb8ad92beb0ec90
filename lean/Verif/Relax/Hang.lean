import Verif.Relax.Snap
set_option autoImplicit false
set_option linter.unusedVariables false

/-! # Hanging vertices (C85) -/

namespace Hexed.Relax
open Hexed.Connection Hexed.Tensor
variable {V K : Type}

/-- A matcher of a mesh of `nd` dimensions that is well formed: it has as many fine elements as its stretching demands, and vertices of these on the face are the same vertex exactly if they are
at the same place of the coarse face. -/
structure Glued (nd : Nat) (t : Matcher V) : Prop where
  dim : t.dim.val < nd
  nf : t.nf = nFine nd t.str
  same : ∀ e < t.nf, ∀ e' < t.nf, ∀ i ∈ faceVerts nd t.dim t.isp, ∀ i' ∈ faceVerts nd t.dim t.isp,
    (t.vert e i = t.vert e' i' ↔ ∀ k ∈ faceAxes nd t.dim, finePos nd t.dim t.str e i k = finePos nd t.dim t.str e' i' k)

/-- `v` is a vertex of one of the fine elements, on the face, at place `x` (the coarse face extends from -2 to 2 along its axes). -/
def At (nd : Nat) (t : Matcher V) (v : V) (x : Fin 3 → ℤ) : Prop :=
  ∃ e < t.nf, ∃ i ∈ faceVerts nd t.dim t.isp, t.vert e i = v ∧ ∀ k ∈ faceAxes nd t.dim, finePos nd t.dim t.str e i k = x k

/-- `c` gives the vertices at the corners of the coarse face. -/
def Corners (nd : Nat) (t : Matcher V) (c : Nat → V) : Prop := ∀ j ∈ faceVerts nd t.dim t.isp, At nd t (c j) fun k => 2 * corner nd j k

/-- The multilinear function on the coarse face with the value `f j` at corner `j`, at place `x`. -/
def bilinear [Field K] (nd : Nat) (t : Matcher V) (f : Nat → K) (x : Fin 3 → ℤ) : K :=
  ((faceVerts nd t.dim t.isp).map fun j => ((faceAxes nd t.dim).map fun k => ((2 + corner nd j k * x k : ℤ) : K) / 4).prod * f j).sum

variable [DecidableEq V] [Field K]

theorem upd_fold {Q A : Type} (key : Q → V) (x : Q → A) : ∀ (l : List Q) (c : V → A), (∀ q ∈ l, ∀ q' ∈ l, key q = key q' → x q = x q') →
    (∀ q ∈ l, (l.foldl (fun c q => upd c (key q) (x q)) c) (key q) = x q) ∧ ∀ v, (∀ q ∈ l, key q ≠ v) → (l.foldl (fun c q => upd c (key q) (x q)) c) v = c v
  | [], c, h => by simp
  | a :: l, c, h => by
    obtain ⟨h1, h2⟩ := upd_fold key x l (upd c (key a) (x a)) fun q hq q' hq' => h q (by simp [hq]) q' (by simp [hq'])
    rw [List.foldl_cons]
    refine ⟨fun q hq => ?_, fun v hv => ?_⟩
    · by_cases hl : ∃ q' ∈ l, key q' = key q
      · obtain ⟨q', hq', e⟩ := hl
        rw [← e, h1 q' hq']
        exact h q' (by simp [hq']) q hq e
      · push Not at hl
        rw [h2 _ hl]
        rcases List.mem_cons.1 hq with rfl | hq
        · simp [upd]
        · exact absurd rfl (hl q hq)
    · rw [h2 v fun q hq => hv q (by simp [hq])]
      exact if_neg (hv a (by simp)).symm

theorem corner_at {nd : Nat} (hnd : nd = 2 ∨ nd = 3) (t : Matcher V) (ht : Glued nd t) {c : Nat → V} (hc : Corners nd t c) {el : Nat → Nat} (hel : AtCorners nd t.dim t.isp t.str el) :
    ∀ j ∈ faceVerts nd t.dim t.isp, t.vert (el j) j = c j := by
  intro j hj
  obtain ⟨e, he, i, hi, h1, h2⟩ := hc j hj
  obtain ⟨h3, h4⟩ := hel j hj
  rw [← h1]
  refine (ht.same _ (by rw [ht.nf]; exact h3) _ he j hj i hi).2 fun k hk => ?_
  rw [h2 k hk, finePos]
  have : corner nd j k ≠ 0 := by
    have hk' : k.val < nd := by simp only [faceAxes, List.mem_filter] at hk; simpa using (of_decide_eq_true hk.2).1
    unfold corner
    rw [if_pos hk']
    omega
  rcases h4 k hk with h | h
  · rw [if_neg (by rw [h]; exact this), h]; ring
  · rw [if_pos h]

/-- C85: `match` gives every vertex on the hanging face the position that the multilinear map of the coarse face gives it, from the positions of the corners of the coarse face; all others,
among them these corners, keep theirs. -/
theorem matched_exact (h2 : (2 : K) ≠ 0) {nd : Nat} (hnd : nd = 2 ∨ nd = 3) (junk : Nat → K) (t : Matcher V) (ht : Glued nd t) {c : Nat → V} (hc : Corners nd t c) (f : V → K) :
    ∃ f', matchCoord nd junk t f = .ok f' ∧ (∀ v x, At nd t v x → f' v = bilinear nd t (fun j => f (c j)) x) ∧ ∀ v, (∀ x, ¬ At nd t v x) → f' v = f v := by
  obtain ⟨el, hel⟩ := at_corners_exists hnd t.dim ht.dim t.isp t.str
  obtain ⟨t1, t2, t3, t4, t5, t6, t7⟩ := hanging_table nd (by simpa using hnd) t.dim ht.dim t.isp t.str.1 t.str.2
  obtain ⟨r, r1, r2, r3⟩ := interp_eq h2 hnd junk 3 (by omega) (fun i => f (t.vert (stretchedInd nd i t.str) (faceInd nd t.dim t.isp i)))
  have hval : ∀ e < t.nf, ∀ i ∈ List.range (2 ^ nd / 2), r.val (interpInd nd t.str e i) = bilinear nd t (fun j => f (c j)) (finePos nd t.dim t.str e (faceInd nd t.dim t.isp i)) := by
    intro e he i hi
    rw [ht.nf] at he
    rw [r3 _ (t4 e (by simpa using he) i hi), bilinear, t3, List.map_map, ← range_sum]
    refine Finset.sum_congr rfl fun j hj => ?_
    have hj' : j ∈ List.range (2 ^ nd / 2) := by simpa using hj
    have hjf : faceInd nd t.dim t.isp j ∈ faceVerts nd t.dim t.isp := by rw [t3]; exact List.mem_map.2 ⟨j, hj', rfl⟩
    have hce := hel _ hjf
    have h4 : (4 : K) = 2 * 2 := by norm_num
    simp only [Function.comp]
    rw [prod_div4, t7, ← t6 e (by simpa using he) i hi j hj', ← corner_at hnd t ht hc hel _ hjf, t5 j hj' _ (by simpa using hce.1) hce.2]
    have : (2 : K) ^ (nd - 1) ≠ 0 := pow_ne_zero _ h2
    push_cast
    rw [h4, mul_pow]
    field_simp
  have hmem : ∀ q : Nat × Nat, q ∈ ((List.range t.nf).flatMap fun e => (List.range (2 ^ nd / 2)).map fun i => (e, i)) ↔ q.1 < t.nf ∧ q.2 ∈ List.range (2 ^ nd / 2) := by
    intro q
    simp only [List.mem_flatMap, List.mem_range, List.mem_map]
    constructor
    · rintro ⟨e, he, i, hi, rfl⟩; exact ⟨he, hi⟩
    · rintro ⟨he, hi⟩; exact ⟨q.1, he, q.2, hi, rfl⟩
  have hface : ∀ i ∈ List.range (2 ^ nd / 2), faceInd nd t.dim t.isp i ∈ faceVerts nd t.dim t.isp := fun i hi => by rw [t3]; exact List.mem_map.2 ⟨i, hi, rfl⟩
  have hbil : ∀ x y : Fin 3 → ℤ, (∀ k ∈ faceAxes nd t.dim, x k = y k) → bilinear nd t (fun j => f (c j)) x = bilinear nd t (fun j => f (c j)) y := by
    intro x y h
    unfold bilinear
    congr 1
    refine List.map_congr_left fun j _ => ?_
    congr 2
    exact List.map_congr_left fun k hk => by rw [h k hk]
  obtain ⟨f1, f2⟩ := upd_fold (fun q : Nat × Nat => t.vert q.1 (faceInd nd t.dim t.isp q.2)) (fun q => r.val (interpInd nd t.str q.1 q.2))
    ((List.range t.nf).flatMap fun e => (List.range (2 ^ nd / 2)).map fun i => (e, i)) f (by
      intro q hq q' hq' he
      obtain ⟨a, b⟩ := (hmem q).1 hq
      obtain ⟨a', b'⟩ := (hmem q').1 hq'
      rw [hval _ a _ b, hval _ a' _ b']
      exact hbil _ _ ((ht.same _ a _ a' _ (hface _ b) _ (hface _ b')).1 he))
  refine ⟨((List.range t.nf).flatMap fun e => (List.range (2 ^ nd / 2)).map fun i => (e, i)).foldl
    (fun c q => upd c (t.vert q.1 (faceInd nd t.dim t.isp q.2)) (r.val (interpInd nd t.str q.1 q.2))) f, ?_, fun v x hv => ?_, fun v hv => ?_⟩
  · unfold matchCoord
    dsimp only
    rw [if_pos (by rw [ht.nf]; exact t1), r1]
    dsimp only
    rw [if_pos]
    intro q hq
    obtain ⟨a, b⟩ := (hmem q).1 hq
    rw [r2]
    exact t4 q.1 (by rw [← ht.nf]; simpa using a) q.2 b
  · obtain ⟨e, he, i, hi, rfl, hx⟩ := hv
    rw [t3] at hi
    obtain ⟨i, hi2, rfl⟩ := List.mem_map.1 hi
    have := f1 (e, i) ((hmem _).2 ⟨he, hi2⟩)
    dsimp only at this
    rw [this, hval e he i hi2]
    exact hbil _ _ hx
  · refine f2 v fun q hq he => ?_
    obtain ⟨a, b⟩ := (hmem q).1 hq
    exact hv _ ⟨q.1, a, _, hface _ b, he, fun k _ => rfl⟩

set_option synthInstance.maxHeartbeats 400000 in
set_option synthInstance.maxSize 1000 in
theorem weight_table : ∀ nd ∈ [2, 3], ∀ id : Fin 3, id.val < nd → ∀ isp a b : Bool,
    (∀ j ∈ faceVerts nd id isp, ∀ j' ∈ faceVerts nd id isp, ((faceAxes nd id).map fun k => 2 + corner nd j' k * (2 * corner nd j k)).prod = if j' = j then 4 ^ (faceAxes nd id).length else 0) ∧
    (∀ e ∈ List.range (nFine nd (a, b)), ∀ i ∈ faceVerts nd id isp,
      ((faceVerts nd id isp).map fun j => ((faceAxes nd id).map fun k => 2 + corner nd j k * finePos nd id (a, b) e i k).prod).sum = 4 ^ (faceAxes nd id).length ∧
      ∀ j ∈ faceVerts nd id isp, 0 ≤ ((faceAxes nd id).map fun k => 2 + corner nd j k * finePos nd id (a, b) e i k).prod) ∧ (faceVerts nd id isp).Nodup := by
  decide +kernel

theorem sum_delta (f : Nat → K) (j : Nat) : ∀ l : List Nat, l.Nodup → (l.map fun i => (if i = j then 1 else 0) * f i).sum = if j ∈ l then f j else 0
  | [], _ => by simp
  | a :: l, h => by
    have hn := List.nodup_cons.1 h
    rw [List.map_cons, List.sum_cons, sum_delta f j l hn.2]
    by_cases e : a = j
    · subst e; simp [hn.1]
    · have : j ≠ a := fun h => e h.symm
      simp [e, this]

/-- The multilinear function has the given values at the corners. -/
theorem bilinear_corner (h2 : (2 : K) ≠ 0) {nd : Nat} (hnd : nd = 2 ∨ nd = 3) (t : Matcher V) (ht : t.dim.val < nd) (f : Nat → K) (j : Nat) (hj : j ∈ faceVerts nd t.dim t.isp) :
    bilinear nd t f (fun k => 2 * corner nd j k) = f j := by
  obtain ⟨h1, _, h3⟩ := weight_table nd (by simpa using hnd) t.dim ht t.isp false false
  have h4 : (4 : K) ≠ 0 := by rw [show (4 : K) = 2 * 2 by norm_num]; exact mul_ne_zero h2 h2
  rw [bilinear]
  have : ∀ i ∈ faceVerts nd t.dim t.isp, ((faceAxes nd t.dim).map fun k => ((2 + corner nd i k * (2 * corner nd j k) : ℤ) : K) / 4).prod * f i = (if i = j then 1 else 0) * f i := by
    intro i hi
    rw [prod_div4, h1 j hj i hi]
    by_cases e : i = j
    · subst e; simp [h4]
    · simp [e]
  rw [List.map_congr_left this, sum_delta f j _ h3, if_pos hj]

/-- A matcher does not move the corners of the coarse face. -/
theorem corner_fixed (h2 : (2 : K) ≠ 0) {nd : Nat} (hnd : nd = 2 ∨ nd = 3) (junk : Nat → K) (t : Matcher V) (ht : Glued nd t) {c : Nat → V} (hc : Corners nd t c) (f f' : V → K)
    (h : matchCoord nd junk t f = .ok f') (j : Nat) (hj : j ∈ faceVerts nd t.dim t.isp) : f' (c j) = f (c j) := by
  obtain ⟨f2, h1, h3, _⟩ := matched_exact h2 hnd junk t ht hc f
  rw [h] at h1
  injection h1 with h1
  subst h1
  rw [h3 _ _ (hc j hj), bilinear_corner h2 hnd t ht.dim _ j hj]

theorem matchPos_eq (h2 : (2 : K) ≠ 0) {nd : Nat} (hnd : nd = 2 ∨ nd = 3) (junk : Nat → K) (t : Matcher V) (ht : Glued nd t) {c : Nat → V} (hc : Corners nd t c) :
    ∀ (l : List Nat) (p : V → Nat → K), l.Nodup → ∃ p', matchPos nd junk t l p = .ok p' ∧
      (∀ v x, At nd t v x → ∀ d ∈ l, p' v d = bilinear nd t (fun j => p (c j) d) x) ∧ ∀ v d, d ∉ l ∨ (∀ x, ¬ At nd t v x) → p' v d = p v d
  | [], p, _ => ⟨p, rfl, by simp, by simp⟩
  | d :: l, p, hl => by
    have hn := List.nodup_cons.1 hl
    obtain ⟨f', h1, h3, h4⟩ := matched_exact h2 hnd junk t ht hc fun v => p v d
    obtain ⟨p', h5, h6, h7⟩ := matchPos_eq h2 hnd junk t ht hc l (fun v e => if e = d then f' v else p v e) hn.2
    refine ⟨p', by rw [matchPos, h1]; exact h5, fun v x hv e he => ?_, fun v e he => ?_⟩
    · by_cases e1 : e = d
      · subst e1
        rw [h7 v e (Or.inl hn.1), if_pos rfl, h3 v x hv]
      · have he' : e ∈ l := (List.mem_cons.1 he).resolve_left e1
        rw [h6 v x hv e he']
        simp only [if_neg e1]
    · by_cases e1 : e = d
      · subst e1
        rcases he with he | he
        · exact absurd (List.mem_cons_self) he
        · rw [h7 v e (Or.inr he), if_pos rfl, h4 v he]
      · rw [h7 v e (he.imp_left fun h h' => h (List.mem_cons_of_mem _ h')), if_neg e1]

/-- The matchers `l` of a mesh fit together: each is well formed, a corner of a coarse face does not hang on another coarse face, and if a vertex hangs on two coarse faces (at their common
edge), it has the same place on both. `c t` are the corners of `t`. -/
structure Fit (nd : Nat) (l : List (Matcher V)) (c : Matcher V → Nat → V) (K : Type) [Field K] : Prop where
  glued : ∀ t ∈ l, Glued nd t
  corners : ∀ t ∈ l, Corners nd t (c t)
  free : ∀ t ∈ l, ∀ j ∈ faceVerts nd t.dim t.isp, ∀ t' ∈ l, ∀ x, At nd t' (c t j) x → ∃ j' ∈ faceVerts nd t'.dim t'.isp, c t j = c t' j'
  agree : ∀ t ∈ l, ∀ t' ∈ l, ∀ v x x', At nd t v x → At nd t' v x' → ∀ f : V → K, bilinear nd t (fun j => f (c t j)) x = bilinear nd t' (fun j => f (c t' j)) x'

theorem Fit.tail {nd : Nat} {t : Matcher V} {l : List (Matcher V)} {c : Matcher V → Nat → V} (h : Fit nd (t :: l) c K) : Fit nd l c K :=
  ⟨fun t ht => h.glued t (by simp [ht]), fun t ht => h.corners t (by simp [ht]), fun t ht j hj t' ht' => h.free t (by simp [ht]) j hj t' (by simp [ht']),
    fun t ht t' ht' => h.agree t (by simp [ht]) t' (by simp [ht'])⟩

/-- C85: in whatever order the matchers are processed, in the end every vertex on a hanging face is where the multilinear map of the coarse face puts it, given where the corners of the coarse face
are in the end; so there are no gaps. The vertices that are on no such face, and the corners of the coarse faces, have not moved. -/
theorem watertight (h2 : (2 : K) ≠ 0) {nd : Nat} (hnd : nd = 2 ∨ nd = 3) (junk : Nat → K) {c : Matcher V → Nat → V} : ∀ (l : List (Matcher V)), Fit nd l c K → ∀ p : V → Nat → K,
    ∃ p', matchAll nd junk l p = .ok p' ∧ (∀ t ∈ l, ∀ v x, At nd t v x → ∀ d < 3, p' v d = bilinear nd t (fun j => p' (c t j) d) x) ∧
      (∀ t ∈ l, ∀ j ∈ faceVerts nd t.dim t.isp, p' (c t j) = p (c t j)) ∧ ∀ v d, 3 ≤ d ∨ (∀ t ∈ l, ∀ x, ¬ At nd t v x) → p' v d = p v d
  | [], _, p => ⟨p, rfl, by simp, by simp, by simp⟩
  | t :: l, hf, p => by
    have htl : t ∈ t :: l := by simp
    obtain ⟨p1, h1, h3, h4⟩ := matchPos_eq h2 hnd junk t (hf.glued t htl) (hf.corners t htl) [0, 1, 2] p (by decide)
    obtain ⟨p', h5, h6, h7, h8⟩ := watertight h2 hnd junk l hf.tail p1
    have hb : ∀ t' : Matcher V, t' ∈ t :: l → ∀ f g : Nat → K, (∀ j ∈ faceVerts nd t'.dim t'.isp, f j = g j) → ∀ x, bilinear nd t' f x = bilinear nd t' g x := by
      intro t' _ f g h x
      unfold bilinear
      congr 1
      exact List.map_congr_left fun j hj => by rw [h j hj]
    have hc1 : ∀ j ∈ faceVerts nd t.dim t.isp, p1 (c t j) = p (c t j) := by
      intro j hj
      funext d
      by_cases hd : d ∈ [0, 1, 2]
      · rw [h3 _ _ (hf.corners t htl j hj) d hd, bilinear_corner h2 hnd t (hf.glued t htl).dim _ j hj]
      · exact h4 _ d (Or.inl hd)
    have hc : ∀ t' ∈ t :: l, ∀ j ∈ faceVerts nd t'.dim t'.isp, p1 (c t' j) = p (c t' j) := by
      intro t' ht' j hj
      by_cases hx : ∃ x, At nd t (c t' j) x
      · obtain ⟨x, hx⟩ := hx
        obtain ⟨j', hj', e⟩ := hf.free t' ht' j hj t htl x hx
        rw [e]; exact hc1 j' hj'
      · push Not at hx
        funext d
        exact h4 _ d (Or.inr hx)
    have hc' : ∀ t' ∈ t :: l, ∀ j ∈ faceVerts nd t'.dim t'.isp, p' (c t' j) = p1 (c t' j) := by
      intro t' ht' j hj
      by_cases hx : ∃ t2 ∈ l, ∃ x, At nd t2 (c t' j) x
      · obtain ⟨t2, ht2, x, hx⟩ := hx
        obtain ⟨j', hj', e⟩ := hf.free t' ht' j hj t2 (by simp [ht2]) x hx
        rw [e]; exact h7 t2 ht2 j' hj'
      · push Not at hx
        funext d
        exact h8 _ d (Or.inr hx)
    refine ⟨p', by rw [matchAll, h1]; exact h5, fun t' ht' v x hv d hd => ?_, fun t' ht' j hj => by rw [hc' t' ht' j hj, hc t' ht' j hj], fun v d hv => ?_⟩
    · rcases List.mem_cons.1 ht' with rfl | hl
      · by_cases hx : ∃ t2 ∈ l, ∃ x, At nd t2 v x
        · obtain ⟨t2, ht2, x2, hx2⟩ := hx
          rw [h6 t2 ht2 v x2 hx2 d hd]
          exact hf.agree t2 (by simp [ht2]) t' ht' v x2 x hx2 hv fun v => p' v d
        · push Not at hx
          rw [h8 v d (Or.inr hx), h3 v x hv d (by simp; omega)]
          exact hb t' ht' _ _ (fun j hj => by rw [hc' t' ht' j hj, hc t' ht' j hj]) x
      · exact h6 t' hl v x hv d hd
    · rcases hv with hv | hv
      · rw [h8 v d (Or.inl hv), h4 v d (Or.inl (by simp; omega))]
      · rw [h8 v d (Or.inr fun t' ht' => hv t' (by simp [ht'])), h4 v d (Or.inr (hv t htl))]

/-- C85: the result does not depend on the order in which the matchers are processed. -/
theorem watertight_order (h2 : (2 : K) ≠ 0) {nd : Nat} (hnd : nd = 2 ∨ nd = 3) (junk junk' : Nat → K) {c : Matcher V → Nat → V} (l l' : List (Matcher V)) (hl : l.Perm l') (hf : Fit nd l c K)
    (p : V → Nat → K) : matchAll nd junk l p = matchAll nd junk' l' p := by
  have hf' : Fit nd l' c K := ⟨fun t ht => hf.glued t (hl.mem_iff.2 ht), fun t ht => hf.corners t (hl.mem_iff.2 ht),
    fun t ht j hj t' ht' => hf.free t (hl.mem_iff.2 ht) j hj t' (hl.mem_iff.2 ht'), fun t ht t' ht' => hf.agree t (hl.mem_iff.2 ht) t' (hl.mem_iff.2 ht')⟩
  obtain ⟨p1, h1, a1, b1, c1⟩ := watertight h2 hnd junk l hf p
  obtain ⟨p2, h3, a2, b2, c2⟩ := watertight h2 hnd junk' l' hf' p
  rw [h1, h3]
  congr 1
  funext v d
  by_cases hd : d < 3
  · by_cases hx : ∃ t ∈ l, ∃ x, At nd t v x
    · obtain ⟨t, ht, x, hx⟩ := hx
      rw [a1 t ht v x hx d hd, a2 t (hl.mem_iff.1 ht) v x hx d hd]
      unfold bilinear
      congr 1
      exact List.map_congr_left fun j hj => by dsimp only; rw [b1 t ht j hj, b2 t (hl.mem_iff.1 ht) j hj]
    · push Not at hx
      rw [c1 v d (Or.inr hx), c2 v d (Or.inr fun t ht => hx t (hl.mem_iff.2 ht))]
  · rw [c1 v d (Or.inl (by omega)), c2 v d (Or.inl (by omega))]

section Order
variable [LinearOrder K] [IsStrictOrderedRing K]

theorem weighted_bounds (w f : Nat → K) (a b : K) : ∀ l : List Nat, (∀ j ∈ l, 0 ≤ w j) → (∀ j ∈ l, a ≤ f j ∧ f j ≤ b) →
    a * (l.map w).sum ≤ (l.map fun j => w j * f j).sum ∧ (l.map fun j => w j * f j).sum ≤ b * (l.map w).sum
  | [], _, _ => by simp
  | j :: l, hw, h => by
    obtain ⟨h1, h2⟩ := weighted_bounds w f a b l (fun k hk => hw k (by simp [hk])) fun k hk => h k (by simp [hk])
    have h3 := mul_le_mul_of_nonneg_left (h j (by simp)).1 (hw j (by simp))
    have h4 := mul_le_mul_of_nonneg_left (h j (by simp)).2 (hw j (by simp))
    simp only [List.map_cons, List.sum_cons]
    constructor <;> linarith

/-- C85: a hanging vertex is put between the corners of the coarse face, in each coordinate. So if these are in the plane of an extreme face, it is, too. -/
theorem hanging_bounds {nd : Nat} (hnd : nd = 2 ∨ nd = 3) (t : Matcher V) (ht : Glued nd t) (f : Nat → K) (a b : K) (hf : ∀ j ∈ faceVerts nd t.dim t.isp, a ≤ f j ∧ f j ≤ b)
    (v : V) (x : Fin 3 → ℤ) (hv : At nd t v x) : a ≤ bilinear nd t f x ∧ bilinear nd t f x ≤ b := by
  obtain ⟨e, he, i, hi, _, hx⟩ := hv
  obtain ⟨_, h1, _⟩ := weight_table nd (by simpa using hnd) t.dim ht.dim t.isp t.str.1 t.str.2
  obtain ⟨h1, h3⟩ := h1 e (by rw [← ht.nf]; simpa using he) i hi
  have h4 : (0 : K) < 4 ^ (faceAxes nd t.dim).length := by positivity
  have hw : ∀ j, ((faceAxes nd t.dim).map fun k => ((2 + corner nd j k * x k : ℤ) : K) / 4).prod =
      ((((faceAxes nd t.dim).map fun k => 2 + corner nd j k * finePos nd t.dim t.str e i k).prod : ℤ) : K) / 4 ^ (faceAxes nd t.dim).length := by
    intro j
    rw [← prod_div4]
    congr 1
    exact List.map_congr_left fun k hk => by rw [hx k hk]
  have hs : ((faceVerts nd t.dim t.isp).map fun j => ((faceAxes nd t.dim).map fun k => ((2 + corner nd j k * x k : ℤ) : K) / 4).prod).sum = 1 := by
    have e1 : ∀ l : List Nat, (l.map fun j => ((faceAxes nd t.dim).map fun k => ((2 + corner nd j k * x k : ℤ) : K) / 4).prod).sum =
        (((l.map fun j => ((faceAxes nd t.dim).map fun k => 2 + corner nd j k * finePos nd t.dim t.str e i k).prod).sum : ℤ) : K) / 4 ^ (faceAxes nd t.dim).length := by
      intro l
      induction l with
      | nil => simp
      | cons j l ih => rw [List.map_cons, List.sum_cons, ih, hw, List.map_cons, List.sum_cons, Int.cast_add, add_div]
    rw [e1, h1]
    push_cast
    exact div_self h4.ne'
  have := weighted_bounds (fun j => ((faceAxes nd t.dim).map fun k => ((2 + corner nd j k * x k : ℤ) : K) / 4).prod) f a b (faceVerts nd t.dim t.isp)
    (fun j hj => by rw [hw]; exact div_nonneg (by exact_mod_cast h3 j hj) h4.le) hf
  rw [hs, mul_one, mul_one] at this
  exact this

end Order

end Hexed.Relax
