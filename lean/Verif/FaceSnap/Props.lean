import Verif.FaceSnap.Lemmas
set_option autoImplicit false
set_option linter.unusedVariables false

/-!
# C86: the faces of elements at a surface are snapped to it
-/

namespace Hexed.FaceSnap
open Hexed.Spatial Hexed.Metric Hexed.Tensor Hexed.Split
open Hexed.Basis (ell)
noncomputable section

theorem nfq_eq {n nd : Nat} (hn : 0 < n) (hnd : 1 ≤ nd) : n ^ nd / n = n ^ (nd - 1) := by
  obtain ⟨k, rfl⟩ : ∃ k, nd = k + 1 := ⟨nd - 1, by omega⟩
  rw [Nat.pow_succ, Nat.mul_div_cancel _ hn, Nat.add_sub_cancel]

theorem setFace_self {N f : Nat} (adj : Mem) (a : Nat → ℝ) {k : Nat} (hk : k < N) : setFace N f adj a (f * N + k) = a k := by
  rw [setFace, if_pos ⟨by omega, by rw [add_mul, one_mul]; omega⟩, Nat.add_sub_cancel_left]

theorem setFace_other {N f f' : Nat} (hf : f' ≠ f) (adj : Mem) (a : Nat → ℝ) {k : Nat} (hk : k < N) : setFace N f adj a (f' * N + k) = adj (f' * N + k) := by
  rw [setFace, if_neg]
  rintro ⟨h1, h2⟩
  rcases Nat.lt_or_gt_of_ne hf with h | h
  · have : (f' + 1) * N ≤ f * N := Nat.mul_le_mul_right _ h
    rw [add_mul, one_mul] at this
    omega
  · have : (f + 1) * N ≤ f' * N := Nat.mul_le_mul_right _ h
    omega

/-- What the loop over the intersections finds: the nearest one, if it is nearer than 1. -/
theorem bestAdj_spec (sign : Nat) (sects : List ℝ) :
    ((bestAdj sign sects).2 = 1 ∧ (bestAdj sign sects).1 = 0 ∧ ∀ t ∈ sects, 1 ≤ |t - (sign : ℝ)|) ∨
    ((bestAdj sign sects).2 < 1 ∧ ∃ t ∈ sects, (bestAdj sign sects).1 = t - sign ∧ (bestAdj sign sects).2 = |t - (sign : ℝ)| ∧ ∀ t' ∈ sects, |t - (sign : ℝ)| ≤ |t' - (sign : ℝ)|) := by
  induction sects using List.reverseRecOn with
  | nil => left; simp [bestAdj]
  | append_singleton l t ih =>
    have e : bestAdj sign (l ++ [t]) = if |t - (sign : ℝ)| < (bestAdj sign l).2 then (t - (sign : ℝ), |t - (sign : ℝ)|) else bestAdj sign l := by
      rw [bestAdj, List.foldl_append]; rfl
    rw [e]
    rcases ih with ⟨h1, h2, h3⟩ | ⟨h1, s, hs, h2, h3, h4⟩
    · split_ifs with h
      · right
        rw [h1] at h
        refine ⟨h, t, by simp, rfl, rfl, ?_⟩
        intro t' ht'
        rcases List.mem_append.1 ht' with ht' | ht'
        · exact le_trans (le_of_lt h) (h3 t' ht')
        · rw [List.mem_singleton.1 ht']
      · left
        refine ⟨h1, h2, ?_⟩
        intro t' ht'
        rcases List.mem_append.1 ht' with ht' | ht'
        · exact h3 t' ht'
        · rw [List.mem_singleton.1 ht']; rw [h1] at h; exact not_lt.1 h
    · right
      split_ifs with h
      · refine ⟨lt_trans h h1, t, by simp, rfl, rfl, ?_⟩
        intro t' ht'
        rcases List.mem_append.1 ht' with ht' | ht'
        · rw [h3] at h; exact le_trans (le_of_lt h) (h4 t' ht')
        · rw [List.mem_singleton.1 ht']
      · refine ⟨h1, s, by simp [hs], h2, h3, ?_⟩
        intro t' ht'
        rcases List.mem_append.1 ht' with ht' | ht'
        · exact h4 t' ht'
        · rw [List.mem_singleton.1 ht', ← h3]; exact not_lt.1 h

section
variable {b : Basis.Nodes ℝ} (hb : b.Distinct) {lob : Nat → Basis.Nodes ℝ} (hl : IsLobatto lob) (u : Nat → ℝ) (g : Geometry) {nd : Nat} (hnd : nd = 2 ∨ nd = 3) {d : Nat} (hd : d < nd)
  {sign : Nat} (hs : sign < 2) (e : Elem) (he : e.deformed = true ∧ e.needs = true) (hw : OnlyWarped b.n nd (2 * d + sign) e.adj)

/-- Element `e` with adjustments `a` on face `f` of `N` points. -/
def warpFace (N f : Nat) (e : Elem) (a : Nat → ℝ) (p : Bool) : Elem := { e with adj := setFace N f e.adj a, problem := p }

theorem warp_adj (N f : Nat) (a : Nat → ℝ) (p : Bool) : (warpFace N f e a p).adj = setFace N f e.adj a := rfl

include hw in
theorem warp_unwarped (hs : sign < 2) (a : Nat → ℝ) (p : Bool) : Unwarped b nd d (warpFace (b.n ^ (nd - 1)) (2 * d + sign) e a p).adj := by
  intro j hj hjd σ hσ k hk
  rw [warp_adj, setFace_other (by omega) _ _ hk]
  exact hw _ (by omega) (by omega) k hk

include hb hnd hd hs hw in
/-- The face with the adjustments that interpolate the values `v` at the sample points. -/
theorem warp_point (hn : 2 ≤ b.n) {l : Basis.Nodes ℝ} (hll : l.Distinct) (hln : l.n + 1 ≤ b.n) (v : Nat → ℝ) (a : Nat → ℝ) (ha : ∀ c : Fin (nd - 1) → Fin b.n, a (idx c) = through l v (sample b c)) (p : Bool)
    (q : Fin (nd - 1) → Fin l.n) (i : Nat) :
    facePoint b nd (warpFace (b.n ^ (nd - 1)) (2 * d + sign) e a p) (2 * d + sign) (sample l q) i =
      straight nd d sign (fun v => e.vert v i) (sample l q) + v (idx q) * (straight nd d 1 (fun v => e.vert v i) (sample l q) - straight nd d 0 (fun v => e.vert v i) (sample l q)) := by
  rw [facePoint_eq hb hn hnd hd hs (warp_unwarped e hw hs a p) i (through_sep hll (by omega) v) hln, through_sample hll]
  · rfl
  · intro c
    rw [warp_adj, setFace_self _ _ (idx_lt c), ha]; rfl

include hb hnd hd hs hw in
/-- The sample points of the straight faces. -/
theorem sample_points (hn : 2 ≤ b.n) {l : Basis.Nodes ℝ} (hln : 1 ≤ l.n) (p : Bool) (σ : Nat) (hσ : σ < 2) :
    ∃ P, samplePos b l u nd (warpFace (b.n ^ (nd - 1)) (2 * d + sign) e (fun _ => 0) p) (2 * d + σ) = .ok P ∧ ∀ q : Fin (nd - 1) → Fin l.n, P (idx q) = corner nd d σ e (sample l q) := by
  obtain ⟨P, h1, h2⟩ := samplePos_eq hn hln u (by omega : 2 ≤ nd) (warpFace (b.n ^ (nd - 1)) (2 * d + sign) e (fun _ => 0) p) (2 * d + σ)
  refine ⟨P, h1, fun q => ?_⟩
  funext i
  rw [h2, corner]
  split_ifs with hi
  · rw [facePoint_eq hb hn hnd hd hσ (warp_unwarped e hw hs _ p) i (Sep.const (N := 1) (by omega) (by omega) 0) (by omega), zero_mul, add_zero]
    · rfl
    · intro c
      by_cases h : σ = sign
      · rw [h, warp_adj, setFace_self _ _ (idx_lt c)]
      · rw [warp_adj, setFace_other (by omega) _ _ (idx_lt c)]
        exact hw _ (by omega) (by omega) _ (idx_lt c)
  · rfl

end

section
variable (b : Basis.Nodes ℝ) (lob : Nat → Basis.Nodes ℝ) (u : Nat → ℝ) (g : Geometry) (nd : Nat) (e : Elem) (d sign : Nat)

/-- The steepness test. -/
def tooSteep (ds : List (Vec ℝ)) : Bool := ds.any fun v => (List.range v.size).any fun j => decide (1 < |v.val j|)

theorem snap_unfold (hn : 0 < b.n) (hnd : 1 ≤ nd) (he : e.deformed = true ∧ e.needs = true) : snapNodeAdj b lob u g nd e d sign =
    (mainAdj b (lob (max 2 (b.n - 1))) u g nd (warpFace (b.n ^ (nd - 1)) (2 * d + sign) e (fun _ => 0) false) d sign).bind fun r =>
      (ofTensor (derivatives b u nd r.1)).bind fun ds =>
        if (r.2 || tooSteep ds) = false then .ok (warpFace (b.n ^ (nd - 1)) (2 * d + sign) e r.1.val false)
        else if 3 < b.n then (fallback b (lob 3) u g nd (warpFace (b.n ^ (nd - 1)) (2 * d + sign) e (fun _ => 0) false) d sign).bind fun a => .ok (warpFace (b.n ^ (nd - 1)) (2 * d + sign) e a.val true)
        else .ok (warpFace (b.n ^ (nd - 1)) (2 * d + sign) e (fun _ => 0) true) := by
  rw [snapNodeAdj, if_neg (by rw [he.1, he.2]; simp), nfq_eq hn hnd]
  rfl

/-- The three ways in which the function can end. -/
theorem snap_cases (hn : 0 < b.n) (hnd : 1 ≤ nd) (he : e.deformed = true ∧ e.needs = true) {e' : Elem} (h : snapNodeAdj b lob u g nd e d sign = .ok e') :
    ∃ r, mainAdj b (lob (max 2 (b.n - 1))) u g nd (warpFace (b.n ^ (nd - 1)) (2 * d + sign) e (fun _ => 0) false) d sign = .ok r ∧ ∃ ds, derivatives b u nd r.1 = some ds ∧
      (((r.2 || tooSteep ds) = false ∧ e' = warpFace (b.n ^ (nd - 1)) (2 * d + sign) e r.1.val false) ∨
       ((r.2 || tooSteep ds) = true ∧ 3 < b.n ∧ ∃ a, fallback b (lob 3) u g nd (warpFace (b.n ^ (nd - 1)) (2 * d + sign) e (fun _ => 0) false) d sign = .ok a ∧ e' = warpFace (b.n ^ (nd - 1)) (2 * d + sign) e a.val true) ∨
       ((r.2 || tooSteep ds) = true ∧ b.n ≤ 3 ∧ e' = warpFace (b.n ^ (nd - 1)) (2 * d + sign) e (fun _ => 0) true)) := by
  rw [snap_unfold b lob u g nd e d sign hn hnd he] at h
  rcases h1 : mainAdj b (lob (max 2 (b.n - 1))) u g nd (warpFace (b.n ^ (nd - 1)) (2 * d + sign) e (fun _ => 0) false) d sign with r | _ | _
  · rw [h1] at h
    simp only [Out.bind] at h
    rcases h2 : derivatives b u nd r.1 with _ | ds
    · rw [h2] at h; cases h
    · rw [h2] at h
      simp only [ofTensor] at h
      refine ⟨r, rfl, ds, h2, ?_⟩
      split_ifs at h with h3 h4
      · left; injection h with h; exact ⟨h3, h.symm⟩
      · right; left
        rcases h5 : fallback b (lob 3) u g nd (warpFace (b.n ^ (nd - 1)) (2 * d + sign) e (fun _ => 0) false) d sign with a | _ | _
        · rw [h5] at h; injection h with h; exact ⟨(Bool.not_eq_false _).mp h3, h4, a, rfl, h.symm⟩
        all_goals rw [h5] at h; cases h
      · right; right; injection h with h; exact ⟨(Bool.not_eq_false _).mp h3, by omega, h.symm⟩
  all_goals rw [h1] at h; cases h

end

section
variable {b : Basis.Nodes ℝ} (hb : b.Distinct) (hn : 2 ≤ b.n) (u : Nat → ℝ) (g : Geometry) {nd : Nat} (hnd : nd = 2 ∨ nd = 3) {d : Nat} (hd : d < nd)
  {sign : Nat} (hs : sign < 2) (e : Elem) (hw : OnlyWarped b.n nd (2 * d + sign) e.adj)

include hn hnd in
/-- The result of the main part, from the sample points of the two faces. -/
theorem mainAdj_of {l : Basis.Nodes ℝ} (hl : 2 ≤ l.n) {e : Elem} {P0 P1 : Nat → Nat → ℝ} (h1 : samplePos b l u nd e (2 * d) = .ok P0) (h3 : samplePos b l u nd e (2 * d + 1) = .ok P1) :
    ∃ a f, mainAdj b l u g nd e d sign = .ok (a, f) ∧ a.size = b.n ^ (nd - 1) ∧ ∃ v : Nat → ℝ,
    (∀ q, v q = (bestAdj sign (g.intersections (P0 q) (P1 q))).1) ∧
    (∀ c : Fin (nd - 1) → Fin b.n, a.val (idx c) = through l v (sample b c)) ∧
    (f = true ↔ ∃ q : Fin (nd - 1) → Fin l.n, 999 / 1000 < (bestAdj sign (g.intersections (P0 (idx q)) (P1 (idx q)))).2) := by
  obtain ⟨a, h5, h6, h7⟩ := interp_through (b := l) (l := b) hl (by omega) u (by omega : 2 ≤ nd) fun q => (bestAdj sign (g.intersections (P0 q) (P1 q))).1
  refine ⟨a, (List.range (l.n ^ (nd - 1))).any fun q => decide (999 / 1000 < (bestAdj sign (g.intersections (P0 q) (P1 q))).2), ?_, h6,
    fun q => (bestAdj sign (g.intersections (P0 q) (P1 q))).1, fun q => rfl, h7, ?_⟩
  · rw [mainAdj, h1]; simp only [Out.bind]; rw [h3]; simp only [Out.bind]; rw [h5]; rfl
  · rw [List.any_eq_true]
    constructor
    · rintro ⟨q, hq, h⟩
      obtain ⟨c, rfl⟩ := idx_surj (by omega : 0 < l.n) q (List.mem_range.1 hq)
      rw [decide_eq_true_eq] at h
      exact ⟨c, h⟩
    · rintro ⟨c, h⟩
      exact ⟨idx c, List.mem_range.2 (idx_lt c), decide_eq_true h⟩

include hb hn hnd hd hs hw in
/-- The result of the main part. -/
theorem mainAdj_eq {l : Basis.Nodes ℝ} (hl : 2 ≤ l.n) (p : Bool) : ∃ a f, mainAdj b l u g nd (warpFace (b.n ^ (nd - 1)) (2 * d + sign) e (fun _ => 0) p) d sign = .ok (a, f) ∧ a.size = b.n ^ (nd - 1) ∧ ∃ v : Nat → ℝ,
    (∀ q : Fin (nd - 1) → Fin l.n, v (idx q) = (bestAdj sign (g.intersections (corner nd d 0 e (sample l q)) (corner nd d 1 e (sample l q)))).1) ∧
    (∀ c : Fin (nd - 1) → Fin b.n, a.val (idx c) = through l v (sample b c)) ∧
    (f = true ↔ ∃ q : Fin (nd - 1) → Fin l.n, 999 / 1000 < (bestAdj sign (g.intersections (corner nd d 0 e (sample l q)) (corner nd d 1 e (sample l q)))).2) := by
  obtain ⟨P0, h1, h2⟩ := sample_points hb u hnd hd hs e hw hn (by omega : 1 ≤ l.n) p 0 (by norm_num)
  obtain ⟨P1, h3, h4⟩ := sample_points hb u hnd hd hs e hw hn (by omega : 1 ≤ l.n) p 1 (by norm_num)
  rw [add_zero] at h1
  obtain ⟨a, f, k1, k2, v, k3, k4, k5⟩ := mainAdj_of hn u g hnd (sign := sign) hl h1 h3
  refine ⟨a, f, k1, k2, v, fun q => by rw [k3, h2, h4], k4, k5.trans ⟨?_, ?_⟩⟩
  · rintro ⟨q, h⟩; rw [h2, h4] at h; exact ⟨q, h⟩
  · rintro ⟨q, h⟩; refine ⟨q, ?_⟩; rw [h2, h4]; exact h

end

/-- C86: the face that the boundary condition applies to is face `2*d + sign`. An element that has no adjustments or does not need snapping is not changed. -/
theorem not_needed (b : Basis.Nodes ℝ) (lob : Nat → Basis.Nodes ℝ) (u : Nat → ℝ) (g : Geometry) (nd : Nat) (e : Elem) (d sign : Nat) (h : e.deformed = false ∨ e.needs = false) :
    snapNodeAdj b lob u g nd e d sign = .ok e := by rw [snapNodeAdj, if_pos h]

/-- C86: only the adjustments of this face and the flag are written. -/
theorem snap_frame (b : Basis.Nodes ℝ) (hn : 0 < b.n) (lob : Nat → Basis.Nodes ℝ) (u : Nat → ℝ) (g : Geometry) (nd : Nat) (hnd : 1 ≤ nd) (e e' : Elem) (d sign : Nat) (h : snapNodeAdj b lob u g nd e d sign = .ok e') :
    e'.vert = e.vert ∧ e'.size = e.size ∧ e'.needs = e.needs ∧ e'.deformed = e.deformed ∧ ∀ f ≠ 2 * d + sign, ∀ k < b.n ^ (nd - 1), e'.adj (f * b.n ^ (nd - 1) + k) = e.adj (f * b.n ^ (nd - 1) + k) := by
  have key : ∀ a p, ∀ e'' : Elem, e'' = warpFace (b.n ^ (nd - 1)) (2 * d + sign) e a p →
      e''.vert = e.vert ∧ e''.size = e.size ∧ e''.needs = e.needs ∧ e''.deformed = e.deformed ∧ ∀ f ≠ 2 * d + sign, ∀ k < b.n ^ (nd - 1), e''.adj (f * b.n ^ (nd - 1) + k) = e.adj (f * b.n ^ (nd - 1) + k) := by
    rintro a p e'' rfl
    exact ⟨rfl, rfl, rfl, rfl, fun f hf k hk => setFace_other hf _ _ hk⟩
  by_cases hc : e.deformed = false ∨ e.needs = false
  · rw [not_needed _ _ _ _ _ _ _ _ hc] at h
    injection h with h
    rw [← h]
    exact ⟨rfl, rfl, rfl, rfl, fun _ _ _ _ => rfl⟩
  · obtain ⟨r, _, ds, _, h⟩ := snap_cases b lob u g nd e d sign hn hnd (by simpa using hc) h
    rcases h with ⟨_, h⟩ | ⟨_, _, a, _, h⟩ | ⟨_, _, h⟩
    · exact key _ _ _ h
    · exact key _ _ _ h
    · exact key _ _ _ h

section
variable {b : Basis.Nodes ℝ} (hb : b.Distinct) {lob : Nat → Basis.Nodes ℝ} (hl : IsLobatto lob) (u : Nat → ℝ) (g : Geometry) {nd : Nat} (hnd : nd = 2 ∨ nd = 3) {d : Nat} (hd : d < nd)
  {sign : Nat} (hs : sign < 2) (e : Elem) (he : e.deformed = true ∧ e.needs = true) (hw : OnlyWarped b.n nd (2 * d + sign) e.adj)

include hb hl hnd hd hs he hw in
/-- C86: with at least three nodes per row, if no problem is reported then every sample point of the snapped face is exactly on the surface: at the intersection of the surface with the line
through the corresponding points of the two straight faces that is nearest to the face, and that is at a distance of less than the length of the element. -/
theorem snapped_exact (hn : 3 ≤ b.n) {e' : Elem} (h : snapNodeAdj b lob u g nd e d sign = .ok e') (hp : e'.problem = false) (q : Fin (nd - 1) → Fin (lob (b.n - 1)).n) :
    ∃ t ∈ g.intersections (corner nd d 0 e (sample _ q)) (corner nd d 1 e (sample _ q)), |t - (sign : ℝ)| ≤ 999 / 1000 ∧
      (∀ t' ∈ g.intersections (corner nd d 0 e (sample _ q)) (corner nd d 1 e (sample _ q)), |t - (sign : ℝ)| ≤ |t' - (sign : ℝ)|) ∧
      ∀ i < nd, facePoint b nd e' (2 * d + sign) (sample _ q) i = (1 - t) * corner nd d 0 e (sample _ q) i + t * corner nd d 1 e (sample _ q) i := by
  have hmax : max 2 (b.n - 1) = b.n - 1 := by omega
  obtain ⟨hl1, hl2⟩ := hl (b.n - 1) (by omega)
  obtain ⟨r, h1, ds, h2, h3⟩ := snap_cases b lob u g nd e d sign (by omega) (by omega) he h
  rw [hmax] at h1
  obtain ⟨a, f, h4, _, v, h5, h6, h7⟩ := mainAdj_eq hb (by omega) u g hnd hd hs e hw (l := lob (b.n - 1)) (by omega) false
  rw [h4] at h1
  injection h1 with h1
  subst h1
  rcases h3 with ⟨h8, rfl⟩ | ⟨_, _, a, _, rfl⟩ | ⟨_, _, rfl⟩
  · have hf : ¬ (f = true) := by intro hf; rw [hf] at h8; simp at h8
    rw [h7] at hf
    push Not at hf
    have hq := hf q
    have hv := h5 q
    rcases bestAdj_spec sign (g.intersections (corner nd d 0 e (sample _ q)) (corner nd d 1 e (sample _ q))) with ⟨k1, _, _⟩ | ⟨k1, t, ht, k2, k3, k4⟩
    · rw [k1] at hq; norm_num at hq
    · refine ⟨t, ht, by rw [← k3]; exact hq, k4, fun i hi => ?_⟩
      rw [warp_point hb hnd hd hs e hw (by omega) hl2 (by omega) v a.val h6, hv, k2, corner, corner, if_pos hi]
      simp only [if_pos hi]
      obtain rfl | rfl : sign = 0 ∨ sign = 1 := by omega
      · push_cast; ring
      · push_cast; ring
  · cases hp
  · cases hp

include hb hl hnd hd hs he hw in
theorem projected_aux {e' : Elem} (h : snapNodeAdj b lob u g nd e d sign = .ok e') (hp : e'.problem = true) (hn : 3 < b.n) (q : Fin (nd - 1) → Fin (lob 3).n) :
    ∃ y, g.nearest (corner nd d sign e (sample _ q)) e.size = some y ∧ ∃ t : ℝ,
      (∀ i < nd, facePoint b nd e' (2 * d + sign) (sample _ q) i = corner nd d sign e (sample _ q) i + t * (corner nd d 1 e (sample _ q) i - corner nd d 0 e (sample _ q) i)) ∧
      t = dot nd (fun i => y i - corner nd d sign e (sample _ q) i) (fun i => corner nd d 1 e (sample _ q) i - corner nd d 0 e (sample _ q) i) /
        (dot nd (fun i => corner nd d 1 e (sample _ q) i - corner nd d 0 e (sample _ q) i) (fun i => corner nd d 1 e (sample _ q) i - corner nd d 0 e (sample _ q) i) + 1e-12 * e.size) := by
  obtain ⟨hl1, hl2⟩ := hl 3 (by omega)
  obtain ⟨r, h1, ds, h2, h3⟩ := snap_cases b lob u g nd e d sign (by omega) (by omega) he h
  rcases h3 with ⟨_, rfl⟩ | ⟨_, _, a, h4, rfl⟩ | ⟨_, h5, _⟩
  · cases hp
  · obtain ⟨P0, k1, k2⟩ := sample_points hb u hnd hd hs e hw (by omega) (l := lob 3) (by omega) false 0 (by norm_num)
    obtain ⟨P1, k3, k4⟩ := sample_points hb u hnd hd hs e hw (by omega) (l := lob 3) (by omega) false 1 (by norm_num)
    rw [add_zero] at k1
    rw [fallback, k1] at h4
    simp only [Out.bind] at h4
    rw [k3] at h4
    simp only at h4
    have key : ∀ N v, projections g nd sign e.size P0 P1 N = .ok v → ∀ q < N, ∃ y, g.nearest (if sign = 0 then P0 q else P1 q) e.size = some y ∧
        v q = dot nd (fun i => y i - (if sign = 0 then P0 q else P1 q) i) (fun i => P1 q i - P0 q i) / (dot nd (fun i => P1 q i - P0 q i) (fun i => P1 q i - P0 q i) + 1e-12 * e.size) := by
      intro N
      induction N with
      | zero => intro v _ q hq; omega
      | succ N ih =>
        intro v hv q hq
        rw [projections] at hv
        rcases hN : projections g nd sign e.size P0 P1 N with w | _ | _
        · rw [hN] at hv
          simp only [Out.bind] at hv
          rcases hy : g.nearest (if sign = 0 then P0 N else P1 N) e.size with _ | y
          · rw [hy] at hv; cases hv
          · rw [hy] at hv
            injection hv with hv
            subst hv
            by_cases hqN : q = N
            · subst hqN
              exact ⟨y, hy, by beta_reduce; rw [if_pos rfl]⟩
            · beta_reduce; rw [if_neg hqN]
              exact ih w hN q (by omega)
        all_goals rw [hN] at hv; cases hv
    have hsz : (warpFace (b.n ^ (nd - 1)) (2 * d + sign) e (fun _ => 0) false).size = e.size := rfl
    rw [hsz] at h4
    rcases h5 : projections g nd sign e.size P0 P1 ((lob 3).n ^ (nd - 1)) with v | _ | _
    · rw [h5] at h4
      simp only at h4
      obtain ⟨a', m1, _, m3⟩ := interp_through (b := lob 3) (l := b) (by omega) (by omega) u (by omega : 2 ≤ nd) v
      rw [m1] at h4
      injection h4 with h4
      subst h4
      obtain ⟨y, hy, hv⟩ := key _ v h5 (idx q) (idx_lt q)
      have hc : (if sign = 0 then P0 (idx q) else P1 (idx q)) = corner nd d sign e (sample _ q) := by
        obtain rfl | rfl : sign = 0 ∨ sign = 1 := by omega
        · rw [if_pos rfl, k2]
        · rw [if_neg (by norm_num), k4]
      rw [hc] at hy hv
      rw [k2, k4] at hv
      refine ⟨y, hy, v (idx q), fun i hi => ?_, hv⟩
      rw [warp_point hb hnd hd hs e hw (by omega) hl2 (by omega) v a'.val m3]
      simp only [corner, if_pos hi]
    all_goals rw [h5] at h4; cases h4
  · omega

include hb hl hnd hd hs he hw in
/-- C86: if a problem is reported and there are more than three nodes per row, each of the three sample points per direction is moved along the line through the corresponding points of the two
straight faces, so that the direction to the nearest point of the surface is perpendicular to this line, up to the regularisation `1e-12*nominal_size`. -/
theorem projected_exact {e' : Elem} (h : snapNodeAdj b lob u g nd e d sign = .ok e') (hp : e'.problem = true) (hn : 3 < b.n) (q : Fin (nd - 1) → Fin (lob 3).n) :
    ∃ y, g.nearest (corner nd d sign e (sample _ q)) e.size = some y ∧ ∃ t : ℝ,
      (∀ i < nd, facePoint b nd e' (2 * d + sign) (sample _ q) i = corner nd d sign e (sample _ q) i + t * (corner nd d 1 e (sample _ q) i - corner nd d 0 e (sample _ q) i)) ∧
      t = (∑ i ∈ Finset.range nd, (y i - corner nd d sign e (sample _ q) i) * (corner nd d 1 e (sample _ q) i - corner nd d 0 e (sample _ q) i)) /
        (∑ i ∈ Finset.range nd, (corner nd d 1 e (sample _ q) i - corner nd d 0 e (sample _ q) i) * (corner nd d 1 e (sample _ q) i - corner nd d 0 e (sample _ q) i) + 1e-12 * e.size) := projected_aux hb hl u g hnd hd hs e he hw h hp hn q

end
end
end Hexed.FaceSnap
