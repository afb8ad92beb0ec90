import Verif.Relax.Spec
import Mathlib.Tactic.Ring
import Mathlib.Tactic.Linarith
import Mathlib.Tactic.LinearCombination
import Mathlib.Tactic.FieldSimp
import Mathlib.Algebra.Order.BigOperators.Group.List
import Mathlib.Algebra.BigOperators.GroupWithZero.Action
set_option autoImplicit false
set_option linter.unusedVariables false

/-! # The loops of `relax` (C85) -/

namespace Hexed.Relax
variable {V K : Type} [DecidableEq V]

theorem isMobile_iff (m : Mesh V K) (v : V) : isMobile m v = true ↔ Mobile m v := by simp [isMobile, Mobile]

theorem needsSmooth_iff (m : Mesh V K) (v : V) : needsSmooth m v = true ↔ Needs m v := by simp [needsSmooth, Needs]

/-- C85: the vertices to be smoothed are those that some element wants smoothed and no element forbids to move. -/
theorem smooth_exact (m m' : Mesh V K) (h : idSmooth m = .ok m') : (∀ v, v ∈ m'.smooth ↔ v ∈ m.verts ∧ Mobile m v ∧ Needs m v) ∧ (m.verts.Nodup → m'.smooth.Nodup) ∧
    m' = { m with smooth := m'.smooth } := by
  unfold idSmooth at h
  split_ifs at h
  injection h with h
  subst h
  exact ⟨fun v => by simp [isMobile_iff, needsSmooth_iff], fun h => h.filter _, rfl⟩

variable [Field K] [LinearOrder K]

theorem averages_eq (m : Mesh V K) : ∀ (l : List V) (temp : V → Nat → K),
    ((∀ v ∈ l, m.neigh v ≠ []) → averages m l temp = .ok fun v => if v ∈ l then mean m v else temp v) ∧ ((∃ v ∈ l, m.neigh v = []) → averages m l temp = .nan)
  | [], temp => ⟨fun _ => by simp [averages], fun h => by simp at h⟩
  | v :: l, temp => by
    obtain ⟨h1, h2⟩ := averages_eq m l (upd temp v (mean m v))
    refine ⟨fun h => ?_, fun h => ?_⟩
    · rw [averages, if_neg (h v (by simp))]
      refine (h1 fun w hw => h w (by simp [hw])).trans ?_
      congr 1
      funext w
      by_cases hw : w ∈ l
      · simp [hw]
      · by_cases hv : w = v
        · simp [hv, upd]
        · simp [hw, hv, upd]
    · rw [averages]
      split_ifs with h0
      · rfl
      · refine h2 ?_
        obtain ⟨w, hw, e⟩ := h
        rcases List.mem_cons.1 hw with rfl | hw
        · exact absurd e h0
        · exact ⟨w, hw, e⟩

theorem moves_eq (m : Mesh V K) (factor : K) (l : List V) (hl : l.Nodup) :
    moves m factor l = fun v => if v ∈ l ∧ isMobile m v = true then fun d => factor * m.temp v d + (1 - factor) * m.pos v d else m.pos v := by
  unfold moves
  generalize m.pos = p
  induction l generalizing p with
  | nil => simp
  | cons v l ih =>
    have hn := List.nodup_cons.1 hl
    rw [List.foldl_cons, ih hn.2]
    funext w
    by_cases hv : w = v
    · subst hv
      by_cases hm : isMobile m w = true
      · simp [hn.1, hm, upd]
      · simp [hm]
    · by_cases hm : isMobile m v = true
      · simp [hv, hm, upd]
      · simp [hv, hm]

/-- C85: in the loops of `relax`, whatever the order in which the threads do the work, each vertex that is to be smoothed and is mobile moves to the weighted mean of where it was and where
its neighbours were before the call, on average; all others stay where they are. If a vertex that is to be smoothed has no neighbours, its position becomes NaN. -/
theorem relaxed_exact (r : Run V K) (factor : K) (m : Mesh V K) (hn : m.smooth.Nodup) :
    ((∀ v ∈ m.smooth, m.neigh v ≠ []) → ∃ m', relaxLoops r factor m = .ok m' ∧
      (∀ v ∈ m.smooth, Mobile m v → ∀ d, m'.pos v d = factor * mean m v d + (1 - factor) * m.pos v d) ∧
      (∀ v, v ∉ m.smooth ∨ ¬ Mobile m v → m'.pos v = m.pos v) ∧ m' = { m with pos := m'.pos, temp := m'.temp }) ∧
    ((∃ v ∈ m.smooth, m.neigh v = []) → relaxLoops r factor m = .nan) := by
  have hp4 : ∀ v, v ∈ r.ord 4 m.smooth ↔ v ∈ m.smooth := fun v => (r.ord_perm 4 m.smooth).mem_iff
  have hp5 : ∀ v, v ∈ r.ord 5 m.smooth ↔ v ∈ m.smooth := fun v => (r.ord_perm 5 m.smooth).mem_iff
  refine ⟨fun h => ?_, fun h => ?_⟩
  · have h1 := (averages_eq m (r.ord 4 m.smooth) m.temp).1 fun v hv => h v ((hp4 v).1 hv)
    refine ⟨_, by rw [relaxLoops, h1]; rfl, ?_, ?_, rfl⟩
    · intro v hv hm d
      simp only
      rw [moves_eq _ _ _ ((r.ord_perm 5 m.smooth).nodup_iff.2 hn)]
      simp only [hp4, hp5, hv, true_and, if_true]
      rw [if_pos (by exact (isMobile_iff m v).2 hm)]
    · intro v hv
      simp only
      rw [moves_eq _ _ _ ((r.ord_perm 5 m.smooth).nodup_iff.2 hn)]
      refine if_neg ?_
      rw [hp5]
      rintro ⟨h1, h2⟩
      rcases hv with hv | hv
      · exact hv h1
      · exact hv ((isMobile_iff m v).1 h2)
  · obtain ⟨v, hv, e⟩ := h
    rw [relaxLoops, (averages_eq m (r.ord 4 m.smooth) m.temp).2 ⟨v, (hp4 v).2 hv, e⟩]
    rfl

/-- C85: the loops of `relax` give the same result in every order. -/
theorem relaxed_order (r r' : Run V K) (factor : K) (m : Mesh V K) (hn : m.smooth.Nodup) : relaxLoops r factor m = relaxLoops r' factor m := by
  by_cases h : ∀ v ∈ m.smooth, m.neigh v ≠ []
  · have h1 : ∀ r : Run V K, relaxLoops r factor m = .ok { m with
        temp := fun v => if v ∈ m.smooth then mean m v else m.temp v
        pos := fun v => if v ∈ m.smooth ∧ isMobile m v = true then fun d => factor * (if v ∈ m.smooth then mean m v else m.temp v) d + (1 - factor) * m.pos v d else m.pos v } := by
      intro r
      have hp4 : ∀ v, v ∈ r.ord 4 m.smooth ↔ v ∈ m.smooth := fun v => (r.ord_perm 4 m.smooth).mem_iff
      have hp5 : ∀ v, v ∈ r.ord 5 m.smooth ↔ v ∈ m.smooth := fun v => (r.ord_perm 5 m.smooth).mem_iff
      rw [relaxLoops, (averages_eq m (r.ord 4 m.smooth) m.temp).1 fun v hv => h v ((hp4 v).1 hv), Out.bind]
      dsimp only
      rw [moves_eq _ _ _ ((r.ord_perm 5 m.smooth).nodup_iff.2 hn)]
      simp only [hp4, hp5, isMobile]
      congr!
    rw [h1, h1]
  · push Not at h
    rw [(relaxed_exact r factor m hn).2 h, (relaxed_exact r' factor m hn).2 h]

variable [IsStrictOrderedRing K]

theorem sum_bounds (f : V → K) (a b : K) : ∀ l : List V, (∀ n ∈ l, a ≤ f n ∧ f n ≤ b) → a * (l.length : K) ≤ (l.map f).sum ∧ (l.map f).sum ≤ b * (l.length : K)
  | [], _ => by simp
  | n :: l, h => by
    have := sum_bounds f a b l fun k hk => h k (by simp [hk])
    have h0 := h n (by simp)
    simp only [List.map_cons, List.sum_cons, List.length_cons]
    push_cast
    constructor <;> linarith

theorem mean_bounds (m : Mesh V K) (v : V) (d : Nat) (a b : K) (hn : m.neigh v ≠ []) (h : ∀ n ∈ m.neigh v, a ≤ m.pos n d ∧ m.pos n d ≤ b) : a ≤ mean m v d ∧ mean m v d ≤ b := by
  have hl : (0 : K) < ((m.neigh v).length : K) := by exact_mod_cast List.length_pos_of_ne_nil hn
  obtain ⟨h1, h2⟩ := sum_bounds (fun n => m.pos n d) a b (m.neigh v) h
  exact ⟨(le_div_iff₀ hl).2 h1, (div_le_iff₀ hl).2 h2⟩

/-- C85: with a factor between 0 and 1, relaxation does not take a vertex out of any box that contains it and its neighbours. -/
theorem relaxed_bounds (r : Run V K) (factor : K) (m m' : Mesh V K) (hn : m.smooth.Nodup) (h : relaxLoops r factor m = .ok m') (hf0 : 0 ≤ factor) (hf1 : factor ≤ 1)
    (v : V) (d : Nat) (a b : K) (hv : a ≤ m.pos v d ∧ m.pos v d ≤ b) (hb : ∀ n ∈ m.neigh v, a ≤ m.pos n d ∧ m.pos n d ≤ b) : a ≤ m'.pos v d ∧ m'.pos v d ≤ b := by
  by_cases hne : ∀ v ∈ m.smooth, m.neigh v ≠ []
  · obtain ⟨m2, e, h1, h2, _⟩ := (relaxed_exact r factor m hn).1 hne
    rw [h] at e
    injection e with e
    subst e
    by_cases hs : v ∈ m.smooth ∧ Mobile m v
    · rw [h1 v hs.1 hs.2 d]
      obtain ⟨h3, h4⟩ := mean_bounds m v d a b (hne v hs.1) hb
      have := mul_le_mul_of_nonneg_left h3 hf0
      have := mul_le_mul_of_nonneg_left h4 hf0
      have hf2 : 0 ≤ 1 - factor := by linarith
      have := mul_le_mul_of_nonneg_left hv.1 hf2
      have := mul_le_mul_of_nonneg_left hv.2 hf2
      constructor <;> linarith
    · rw [h2 v (by tauto)]
      exact hv
  · push Not at hne
    rw [(relaxed_exact r factor m hn).2 hne] at h
    cases h

/-- C85: relaxation leaves the mesh as it is exactly if every vertex that it may move is in the middle of its neighbours. -/
theorem relaxed_rest (r : Run V K) (factor : K) (m m' : Mesh V K) (hn : m.smooth.Nodup) (h : relaxLoops r factor m = .ok m') (hf : factor ≠ 0) :
    m'.pos = m.pos ↔ ∀ v ∈ m.smooth, Mobile m v → m.pos v = mean m v := by
  by_cases hne : ∀ v ∈ m.smooth, m.neigh v ≠ []
  · obtain ⟨m2, e, h1, h2, _⟩ := (relaxed_exact r factor m hn).1 hne
    rw [h] at e
    injection e with e
    subst e
    constructor
    · intro he v hv hm
      funext d
      have := h1 v hv hm d
      rw [he] at this
      have h3 : factor * (m.pos v d - mean m v d) = 0 := by linear_combination this
      rcases mul_eq_zero.1 h3 with h3 | h3
      · exact absurd h3 hf
      · exact sub_eq_zero.1 h3
    · intro he
      funext v
      by_cases hs : v ∈ m.smooth ∧ Mobile m v
      · funext d
        rw [h1 v hs.1 hs.2 d, ← he v hs.1 hs.2]
        ring
      · exact h2 v (by tauto)
  · push Not at hne
    rw [(relaxed_exact r factor m hn).2 hne] at h
    cases h

theorem mean_map (m : Mesh V K) (L : (Nat → K) →ₗ[K] (Nat → K)) (b : Nat → K) (v : V) (hn : m.neigh v ≠ []) :
    mean { m with pos := fun v d => L (m.pos v) d + b d } v = fun d => L (mean m v) d + b d := by
  have hl : ((m.neigh v).length : K) ≠ 0 := by exact_mod_cast (List.length_pos_of_ne_nil hn).ne'
  have h1 : ∀ l : List V, ∀ d, (l.map fun n => L (m.pos n) d + b d).sum = L (fun d => (l.map fun n => m.pos n d).sum) d + (l.length : K) * b d := by
    intro l d
    induction l with
    | nil =>
      have : (fun d => (([] : List V).map fun n => m.pos n d).sum) = (0 : Nat → K) := by funext d; simp
      rw [this]; simp
    | cons n l ih =>
      have : (fun d => ((n :: l).map fun n => m.pos n d).sum) = m.pos n + fun d => (l.map fun n => m.pos n d).sum := by funext d; simp
      rw [this, map_add, List.map_cons, List.sum_cons, ih, Pi.add_apply, List.length_cons]
      push_cast
      ring
  funext d
  have h2 : mean m v = ((m.neigh v).length : K)⁻¹ • fun d => ((m.neigh v).map fun n => m.pos n d).sum := by
    funext d
    simp [mean, div_eq_inv_mul]
  rw [h2, map_smul]
  simp only [mean, h1, Pi.smul_apply, smul_eq_mul]
  field_simp

/-- C85: relaxation does not depend on the coordinate system: a mesh that is moved, rotated, scaled or sheared is relaxed to the relaxed mesh, moved, rotated, scaled or sheared. -/
theorem relaxed_affine (r : Run V K) (factor : K) (m m' : Mesh V K) (hn : m.smooth.Nodup) (h : relaxLoops r factor m = .ok m') (L : (Nat → K) →ₗ[K] (Nat → K)) (b : Nat → K) :
    ∃ m2, relaxLoops r factor { m with pos := fun v d => L (m.pos v) d + b d } = .ok m2 ∧ m2.pos = fun v d => L (m'.pos v) d + b d := by
  by_cases hne : ∀ v ∈ m.smooth, m.neigh v ≠ []
  · obtain ⟨m3, e, h1, h2, _⟩ := (relaxed_exact r factor m hn).1 hne
    rw [h] at e
    injection e with e
    subst e
    obtain ⟨m2, e, h3, h4, _⟩ := (relaxed_exact r factor { m with pos := fun v d => L (m.pos v) d + b d } hn).1 hne
    refine ⟨m2, e, ?_⟩
    funext v
    by_cases hs : v ∈ m.smooth ∧ Mobile m v
    · funext d
      rw [h3 v hs.1 hs.2 d, mean_map m L b v (hne v hs.1)]
      have : m'.pos v = factor • mean m v + (1 - factor) • m.pos v := by funext d; rw [h1 v hs.1 hs.2 d]; rfl
      rw [this, map_add, map_smul, map_smul]
      simp only [Pi.add_apply, Pi.smul_apply, smul_eq_mul]
      ring
    · have e1 := h4 v (by simp only [Mobile] at hs ⊢; tauto)
      rw [e1, h2 v (by tauto)]
  · push Not at hne
    rw [(relaxed_exact r factor m hn).2 hne] at h
    cases h

end Hexed.Relax
