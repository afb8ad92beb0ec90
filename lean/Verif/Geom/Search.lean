import Verif.Geom.Lemmas
set_option autoImplicit false
set_option linter.unusedVariables false

/-! # The tree of simplices and the searches in it -/

namespace Hexed.Geom
open Finset Classical

variable {n : Nat}

mutual
/-- All simplices in a cell and below. -/
def Cell.all : Cell n → List (Sim n)
  | .mk _ _ sims kids => sims ++ Cell.allList kids
def Cell.allList : List (Cell n) → List (Sim n)
  | [] => []
  | k :: ks => k.all ++ Cell.allList ks
end

/-- All vertices of the simplex are in the (closed) cell. -/
def InBox (rootSz : ℝ) (orig : Fin n → ℝ) (rl : Nat) (c : Fin n → Int) (s : Sim n) : Prop :=
  ∀ i d, cellPos rootSz orig rl c d ≤ s i d ∧ s i d ≤ cellPos rootSz orig rl c d + cellSize rootSz rl

mutual
/-- Every cell contains the simplices below it. -/
def Cell.Inside (rootSz : ℝ) (orig : Fin n → ℝ) : Cell n → Prop
  | .mk rl c sims kids => (∀ s ∈ (Cell.mk rl c sims kids).all, InBox rootSz orig rl c s) ∧ Cell.InsideList rootSz orig kids
def Cell.InsideList (rootSz : ℝ) (orig : Fin n → ℝ) : List (Cell n) → Prop
  | [] => True
  | k :: ks => k.Inside rootSz orig ∧ Cell.InsideList rootSz orig ks
end

theorem mem_allList (ks : List (Cell n)) (s : Sim n) : s ∈ Cell.allList ks ↔ ∃ k ∈ ks, s ∈ k.all := by
  induction ks with
  | nil => simp [Cell.allList]
  | cons k ks ih => simp [Cell.allList, ih]

theorem insideList_iff (rootSz : ℝ) (orig : Fin n → ℝ) (ks : List (Cell n)) : Cell.InsideList rootSz orig ks ↔ ∀ k ∈ ks, k.Inside rootSz orig := by
  induction ks with
  | nil => simp [Cell.InsideList]
  | cons k ks ih => simp [Cell.InsideList, ih]

theorem distribute_spec (rootSz : ℝ) (orig : Fin n → ℝ) (rl : Nat) : ∀ (cs : List (Fin n → Int)) (sims : List (Sim n)),
    (∀ k ∈ (distribute rootSz orig rl cs sims).1, ∀ s ∈ k.2, inCell rootSz orig rl k.1 s ∧ s ∈ sims) ∧
    ∀ s, s ∈ sims ↔ s ∈ (distribute rootSz orig rl cs sims).2 ∨ ∃ k ∈ (distribute rootSz orig rl cs sims).1, s ∈ k.2
  | [], sims => by simp [distribute]
  | c :: cs, sims => by
    obtain ⟨h1, h2⟩ := distribute_spec rootSz orig rl cs (sims.filter fun s => decide (¬inCell rootSz orig rl c s))
    constructor
    · intro k hk s hs
      rw [distribute] at hk
      rcases List.mem_cons.1 hk with rfl | hk
      · have := List.mem_filter.1 hs
        exact ⟨by simpa using this.2, this.1⟩
      · have := h1 k hk s hs
        exact ⟨this.1, (List.mem_filter.1 this.2).1⟩
    · intro s
      rw [distribute]
      simp only [List.mem_cons, exists_eq_or_imp]
      have h := h2 s
      simp only [List.mem_filter] at h ⊢
      by_cases hc : inCell rootSz orig rl c s
      · simp only [hc, not_true_eq_false, decide_false, Bool.false_eq_true, and_false, false_iff, not_or] at h
        simp only [hc, decide_true, and_true]
        constructor
        · intro hs; exact Or.inr (Or.inl hs)
        · rintro (h' | h' | h')
          · exact absurd h' h.1
          · exact h'
          · exact absurd h' h.2
      · simp only [hc, not_false_eq_true, decide_true, and_true] at h
        simp only [hc, decide_false, Bool.false_eq_true, and_false, false_or]
        exact h

theorem inCell_box (rootSz : ℝ) (orig : Fin n → ℝ) (rl : Nat) (c : Fin n → Int) (s : Sim n) (h : inCell rootSz orig rl c s) : InBox rootSz orig rl c s :=
  fun i d => ⟨by have := (h i d).1; linarith, by have := (h i d).2; linarith⟩

theorem mapM_some {α β : Type} (f : α → Option β) : ∀ (l : List α) (ys : List β), l.mapM f = some ys → List.Forall₂ (fun x y => f x = some y) l ys
  | [], ys, h => by
    simp at h; subst h; exact .nil
  | x :: l, ys, h => by
    rw [List.mapM_cons] at h
    cases hx : f x with
    | none => rw [hx] at h; simp at h
    | some y =>
      cases hl : l.mapM f with
      | none => rw [hx, hl] at h; simp at h
      | some zs =>
        rw [hx, hl] at h
        simp at h
        subst h
        exact .cons hx (mapM_some f l zs hl)

/-- Sorting keeps all simplices and puts them inside their cells. -/
theorem sort_spec (rootSz : ℝ) (orig : Fin n → ℝ) : ∀ (fuel rl : Nat) (c : Fin n → Int) (sims : List (Sim n)) (t : Cell n), sortSimplices rootSz orig fuel rl c sims = some t →
    (∀ s ∈ sims, InBox rootSz orig rl c s) → t.Inside rootSz orig ∧ ∀ s, s ∈ t.all ↔ s ∈ sims
  | 0, rl, c, sims, t, h, _ => by simp [sortSimplices] at h
  | fuel + 1, rl, c, sims, t, h, hb => by
    rw [sortSimplices] at h
    simp only [Option.map_eq_some_iff] at h
    obtain ⟨kids, hk, rfl⟩ := h
    generalize hr : distribute rootSz orig (rl + 1) ((List.range (2 ^ n)).map fun i => Hexed.Tree.childCoords c i) sims = r at hk ⊢
    obtain ⟨h1, h2⟩ := distribute_spec rootSz orig (rl + 1) ((List.range (2 ^ n)).map fun i => Hexed.Tree.childCoords c i) sims
    rw [hr] at h1 h2
    have hf := mapM_some _ _ _ hk
    have key : ∀ (l : List ((Fin n → Int) × List (Sim n))) (ks : List (Cell n)), (∀ k ∈ l, k ∈ r.1) →
        List.Forall₂ (fun x y => (if x.2.length > 100 then sortSimplices rootSz orig fuel (rl + 1) x.1 x.2 else some (Cell.mk (rl + 1) x.1 x.2 [])) = some y) l ks →
        (∀ k ∈ ks, k.Inside rootSz orig) ∧ ∀ s, (∃ k ∈ ks, s ∈ k.all) ↔ ∃ k ∈ l, s ∈ k.2 := by
      intro l ks hsub hf
      induction hf with
      | nil => simp
      | @cons x y l ks hx hf ih =>
        obtain ⟨i1, i2⟩ := ih (fun k hk => hsub k (List.mem_cons_of_mem _ hk))
        have hxb : ∀ s ∈ x.2, InBox rootSz orig (rl + 1) x.1 s := fun s hs => inCell_box _ _ _ _ _ (h1 x (hsub x List.mem_cons_self) s hs).1
        have hy : y.Inside rootSz orig ∧ ∀ s, s ∈ y.all ↔ s ∈ x.2 := by
          split at hx
          · exact sort_spec rootSz orig fuel (rl + 1) x.1 x.2 y hx hxb
          · cases hx
            simp only [Cell.Inside, Cell.all, Cell.allList, Cell.InsideList, List.append_nil, and_true]
            exact ⟨hxb, fun _ => trivial⟩
        constructor
        · intro k hk
          rcases List.mem_cons.1 hk with rfl | hk
          · exact hy.1
          · exact i1 k hk
        · intro s
          simp only [List.mem_cons, exists_eq_or_imp, hy.2, i2]
    obtain ⟨k1, k2⟩ := key r.1 kids (fun _ h => h) hf
    have hall : ∀ s, s ∈ (Cell.mk rl c r.2 kids).all ↔ s ∈ sims := by
      intro s
      rw [Cell.all, List.mem_append, mem_allList, k2, h2]
    refine ⟨?_, hall⟩
    rw [Cell.Inside]
    exact ⟨fun s hs => hb s ((hall s).1 hs), (insideList_iff _ _ _).2 k1⟩

theorem foldl_min_le (l : List ℝ) : ∀ b, l.foldl min b ≤ b ∧ ∀ x ∈ l, l.foldl min b ≤ x := by
  induction l with
  | nil => intro b; simp
  | cons y l ih =>
    intro b
    rw [List.foldl_cons]
    obtain ⟨h1, h2⟩ := ih (min b y)
    refine ⟨h1.trans (min_le_left _ _), fun x hx => ?_⟩
    rcases List.mem_cons.1 hx with rfl | hx
    · exact h1.trans (min_le_right _ _)
    · exact h2 x hx

theorem le_foldl_max (l : List ℝ) : ∀ b, b ≤ l.foldl max b ∧ ∀ x ∈ l, x ≤ l.foldl max b := by
  induction l with
  | nil => intro b; simp
  | cons y l ih =>
    intro b
    rw [List.foldl_cons]
    obtain ⟨h1, h2⟩ := ih (max b y)
    refine ⟨(le_max_left _ _).trans h1, fun x hx => ?_⟩
    rcases List.mem_cons.1 hx with rfl | hx
    · exact (le_max_right _ _).trans h1
    · exact h2 x hx

theorem boxLo_le (huge : ℝ) (sims : List (Sim n)) (d : Fin n) : ∀ s ∈ sims, ∀ i, boxLo huge sims d ≤ s i d := by
  have key : ∀ (sims : List (Sim n)) (b : ℝ), sims.foldl (fun b s => (List.ofFn fun i => s i d).foldl min b) b ≤ b ∧
      ∀ s ∈ sims, ∀ i, sims.foldl (fun b s => (List.ofFn fun i => s i d).foldl min b) b ≤ s i d := by
    intro sims
    induction sims with
    | nil => intro b; simp
    | cons s sims ih =>
      intro b
      rw [List.foldl_cons]
      obtain ⟨h1, h2⟩ := ih ((List.ofFn fun i => s i d).foldl min b)
      obtain ⟨g1, g2⟩ := foldl_min_le (List.ofFn fun i => s i d) b
      refine ⟨h1.trans g1, fun s' hs' i => ?_⟩
      rcases List.mem_cons.1 hs' with rfl | hs'
      · exact h1.trans (g2 _ (List.mem_ofFn.2 ⟨i, rfl⟩))
      · exact h2 s' hs' i
  exact (key sims huge).2

theorem le_boxHi (huge : ℝ) (sims : List (Sim n)) (d : Fin n) : ∀ s ∈ sims, ∀ i, s i d ≤ boxHi huge sims d := by
  have key : ∀ (sims : List (Sim n)) (b : ℝ), b ≤ sims.foldl (fun b s => (List.ofFn fun i => s i d).foldl max b) b ∧
      ∀ s ∈ sims, ∀ i, s i d ≤ sims.foldl (fun b s => (List.ofFn fun i => s i d).foldl max b) b := by
    intro sims
    induction sims with
    | nil => intro b; simp
    | cons s sims ih =>
      intro b
      rw [List.foldl_cons]
      obtain ⟨h1, h2⟩ := ih ((List.ofFn fun i => s i d).foldl max b)
      obtain ⟨g1, g2⟩ := le_foldl_max (List.ofFn fun i => s i d) b
      refine ⟨g1.trans h1, fun s' hs' i => ?_⟩
      rcases List.mem_cons.1 hs' with rfl | hs'
      · exact (g2 _ (List.mem_ofFn.2 ⟨i, rfl⟩)).trans h1
      · exact h2 s' hs' i
  exact (key sims (-huge)).2

theorem box_root [NeZero n] (huge : ℝ) (sims : List (Sim n)) (s : Sim n) (hs : s ∈ sims) : InBox (boxSize huge sims) (boxLo huge sims) 0 (fun _ => 0) s := by
  intro i d
  have h1 := boxLo_le huge sims d s hs i
  have h2 := le_boxHi huge sims d s hs i
  have h3 : boxHi huge sims d - boxLo huge sims d ≤ boxSize huge sims := (le_foldl_max _ _).2 _ (List.mem_ofFn.2 ⟨d, rfl⟩)
  simp only [cellPos, cellSize, pow_zero, div_one, Int.cast_zero, mul_zero, zero_add]
  exact ⟨h1, by linarith⟩

theorem make_spec [NeZero n] (huge : ℝ) (fuel : Nat) (sims : List (Sim n)) (g : SGeom n) (h : SGeom.make huge fuel sims = some g) :
    g.sims = sims ∧ g.tree.Inside g.rootSz g.orig ∧ ∀ s, s ∈ g.tree.all ↔ s ∈ sims := by
  rw [SGeom.make, Option.map_eq_some_iff] at h
  obtain ⟨t, ht, rfl⟩ := h
  exact ⟨rfl, sort_spec _ _ fuel 0 _ sims t ht (box_root huge sims)⟩

/-! ## Bounding balls -/

theorem points_ball (s : Sim n) (c : V n) (r : ℝ) (h : ∀ i, ‖s i - c‖ ≤ r) (q : V n) (hq : q ∈ s.points) : ‖q - c‖ ≤ r := by
  have : s.points ⊆ Metric.closedBall c r := by
    refine convexHull_min ?_ (convex_closedBall c r)
    rintro _ ⟨i, rfl⟩
    rw [mem_closedBall_iff_norm]; exact h i
  exact mem_closedBall_iff_norm.1 (this hq)

theorem radius_nonneg (s : Sim n) : 0 ≤ ballRadiusSq s := (le_foldl_max _ _).1

theorem ball_contains (s : Sim n) (q : V n) (hq : q ∈ s.points) : ‖q - ballCenter s‖ ≤ √(ballRadiusSq s) := by
  refine points_ball s _ _ (fun i => ?_) q hq
  rw [Real.le_sqrt (norm_nonneg _) (radius_nonneg s)]
  exact (le_foldl_max _ _).2 _ (List.mem_ofFn.2 ⟨i, rfl⟩)

theorem cell_contains (rootSz : ℝ) (orig : Fin n → ℝ) (rl : Nat) (c : Fin n → Int) (s : Sim n) (h : InBox rootSz orig rl c s) (q : V n) (hq : q ∈ s.points) :
    ‖q - cellCenter rootSz orig rl c‖ ≤ cellSize rootSz rl * √(n : ℝ) / 2 ∧ ‖q - cellCenter rootSz orig rl c‖ ^ 2 ≤ cellSize rootSz rl ^ 2 * n / 4 := by
  have hn : 0 < n := by
    rcases Nat.eq_zero_or_pos n with rfl | h
    · rw [Sim.points, Set.range_eq_empty, convexHull_empty] at hq; exact absurd hq (Set.notMem_empty _)
    · exact h
  have h0 : 0 ≤ cellSize rootSz rl := by
    have := h ⟨0, hn⟩ ⟨0, hn⟩; linarith
  have key : ‖q - cellCenter rootSz orig rl c‖ ≤ cellSize rootSz rl * √(n : ℝ) / 2 := by
    refine points_ball s _ _ (fun i => ?_) q hq
    rw [EuclideanSpace.norm_eq, show cellSize rootSz rl * √(n : ℝ) / 2 = √((cellSize rootSz rl / 2) ^ 2 * n) by
      rw [Real.sqrt_mul (sq_nonneg _), Real.sqrt_sq (by linarith)]; ring]
    refine Real.sqrt_le_sqrt ?_
    have : ∀ d ∈ (univ : Finset (Fin n)), ‖(s i - cellCenter rootSz orig rl c) d‖ ^ 2 ≤ (cellSize rootSz rl / 2) ^ 2 := by
      intro d _
      have := h i d
      rw [Real.norm_eq_abs, sq_abs]
      have e : (s i - cellCenter rootSz orig rl c) d = s i d - (cellPos rootSz orig rl c d + 1 / 2 * cellSize rootSz rl) := rfl
      rw [e]
      apply sq_le_sq'
      · linarith
      · linarith
    refine (sum_le_sum this).trans (le_of_eq ?_)
    simp [mul_comm]
  refine ⟨key, ?_⟩
  have := pow_le_pow_left₀ (norm_nonneg _) key 2
  refine this.trans (le_of_eq ?_)
  rw [div_pow, mul_pow, Real.sq_sqrt (Nat.cast_nonneg n)]; norm_num

/-! ## Nearest points -/

/-- The state of a search: the reference is right, and a point found is one of `All` at the stated distance, below `D`; before that, the distance is `D`. -/
structure Near.Ok (nr : Near n) (p : V n) (All : Set (V n)) (D : ℝ) : Prop where
  ref : nr.ref = p
  emp : nr.empty = true → nr.distSq = D
  pnt : nr.empty = false → nr.pnt ∈ All ∧ nr.distSq = ‖nr.pnt - p‖ ^ 2 ∧ nr.distSq < D

theorem Near.Ok.le {nr : Near n} {p : V n} {All : Set (V n)} {D : ℝ} (h : nr.Ok p All D) : nr.distSq ≤ D := by
  cases he : nr.empty
  · exact (h.pnt he).2.2.le
  · exact (h.emp he).le

theorem mergePoint_ok (nr : Near n) (p : V n) (All : Set (V n)) (D : ℝ) (h : nr.Ok p All D) (c : V n) (hc : c ∈ All) :
    (nr.mergePoint c).Ok p All D ∧ (nr.mergePoint c).distSq ≤ nr.distSq ∧ (nr.mergePoint c).distSq ≤ ‖c - p‖ ^ 2 := by
  rw [Near.mergePoint, Near.merge]
  split
  · rename_i hlt
    refine ⟨⟨h.ref, fun he => by simp [Near.mk'] at he, fun _ => ⟨hc, by simp [Near.mk', h.ref], lt_of_lt_of_le hlt h.le⟩⟩, hlt.le, ?_⟩
    simp [Near.mk', h.ref]
  · rename_i hlt
    refine ⟨h, le_rfl, ?_⟩
    have : ¬‖c - nr.ref‖ ^ 2 < nr.distSq := hlt
    rw [h.ref] at this
    linarith

theorem mergePoints_ok (p : V n) (All : Set (V n)) (D : ℝ) : ∀ (cs : List (V n)) (nr : Near n), nr.Ok p All D → (∀ c ∈ cs, c ∈ All) →
    (cs.foldl Near.mergePoint nr).Ok p All D ∧ (cs.foldl Near.mergePoint nr).distSq ≤ nr.distSq ∧ ∀ c ∈ cs, (cs.foldl Near.mergePoint nr).distSq ≤ ‖c - p‖ ^ 2
  | [], nr, h, _ => ⟨h, le_rfl, by simp⟩
  | c :: cs, nr, h, hc => by
    obtain ⟨h1, h2, h3⟩ := mergePoint_ok nr p All D h c (hc c List.mem_cons_self)
    obtain ⟨g1, g2, g3⟩ := mergePoints_ok p All D cs _ h1 (fun x hx => hc x (List.mem_cons_of_mem _ hx))
    refine ⟨g1, g2.trans h2, fun x hx => ?_⟩
    rcases List.mem_cons.1 hx with rfl | hx
    · exact g2.trans h3
    · exact g3 x hx

section
variable (cand : Sim n → V n → List (V n)) (hcand : CandOk cand) (rootSz : ℝ) (orig : Fin n → ℝ) (p : V n) (limit : ℝ) (All : Set (V n)) (D : ℝ)
include hcand

theorem nearestSims_ok : ∀ (sims : List (Sim n)) (nr : Near n), nr.Ok p All D → (∀ s ∈ sims, s.points ⊆ All) →
    (nearestSims cand p limit sims nr).Ok p All D ∧ (nearestSims cand p limit sims nr).distSq ≤ nr.distSq ∧
    ∀ s ∈ sims, ∀ q ∈ s.points, ‖q - p‖ ≤ limit → (nearestSims cand p limit sims nr).distSq ≤ ‖q - p‖ ^ 2
  | [], nr, h, _ => ⟨h, le_rfl, by simp⟩
  | s :: ss, nr, h, ha => by
    rw [nearestSims]
    have step : ∃ nr', nr' = (if ‖ballCenter s - p‖ - √(ballRadiusSq s) ≤ limit then (cand s p).foldl Near.mergePoint nr else nr) ∧
        nr'.Ok p All D ∧ nr'.distSq ≤ nr.distSq ∧ ∀ q ∈ s.points, ‖q - p‖ ≤ limit → nr'.distSq ≤ ‖q - p‖ ^ 2 := by
      refine ⟨_, rfl, ?_⟩
      split
      · obtain ⟨h1, h2, h3⟩ := mergePoints_ok p All D (cand s p) nr h (fun c hc => ha s List.mem_cons_self (hcand.mem s p c hc))
        refine ⟨h1, h2, fun q hq _ => ?_⟩
        obtain ⟨c, hc, hle⟩ := hcand.best s p q hq
        exact (h3 c hc).trans (pow_le_pow_left₀ (norm_nonneg _) hle 2)
      · rename_i hcull
        refine ⟨h, le_rfl, fun q hq hl => absurd ?_ hcull⟩
        have h1 := ball_contains s q hq
        have h2 : ‖ballCenter s - p‖ ≤ ‖q - ballCenter s‖ + ‖q - p‖ := by
          have := norm_sub_le (q - p) (q - ballCenter s)
          rw [show q - p - (q - ballCenter s) = ballCenter s - p by abel] at this
          linarith
        linarith
    obtain ⟨nr', he, h1, h2, h3⟩ := step
    rw [← he]
    obtain ⟨g1, g2, g3⟩ := nearestSims_ok ss nr' h1 (fun x hx => ha x (List.mem_cons_of_mem _ hx))
    refine ⟨g1, g2.trans h2, fun x hx q hq hl => ?_⟩
    rcases List.mem_cons.1 hx with rfl | hx
    · exact g2.trans (h3 q hq hl)
    · exact g3 x hx q hq hl

mutual
theorem recNearest_ok : ∀ (t : Cell n) (nr : Near n), t.Inside rootSz orig → nr.Ok p All D → (∀ s ∈ t.all, s.points ⊆ All) →
    (recNearest cand rootSz orig p limit t nr).Ok p All D ∧ (recNearest cand rootSz orig p limit t nr).distSq ≤ nr.distSq ∧
    ∀ s ∈ t.all, ∀ q ∈ s.points, ‖q - p‖ ≤ limit → (recNearest cand rootSz orig p limit t nr).distSq ≤ ‖q - p‖ ^ 2
  | .mk rl c sims kids, nr, hin, h, ha => by
    rw [recNearest]
    rw [Cell.Inside] at hin
    split
    · rename_i hcull
      refine ⟨h, le_rfl, fun s hs q hq hl => absurd hcull ?_⟩
      have h1 := (cell_contains rootSz orig rl c s (hin.1 s hs) q hq).1
      have h2 : ‖p - cellCenter rootSz orig rl c‖ ≤ ‖q - cellCenter rootSz orig rl c‖ + ‖q - p‖ := by
        have := norm_sub_le (q - cellCenter rootSz orig rl c) (q - p)
        rw [show q - cellCenter rootSz orig rl c - (q - p) = p - cellCenter rootSz orig rl c by abel] at this
        linarith
      linarith
    · rw [Cell.all] at ha
      obtain ⟨h1, h2, h3⟩ := nearestSims_ok cand hcand p limit All D sims nr h (fun s hs => ha s (List.mem_append_left _ hs))
      obtain ⟨g1, g2, g3⟩ := recNearestList_ok kids _ hin.2 h1 (fun s hs => ha s (List.mem_append_right _ hs))
      refine ⟨g1, g2.trans h2, fun s hs q hq hl => ?_⟩
      rw [Cell.all] at hs
      rcases List.mem_append.1 hs with hs | hs
      · exact g2.trans (h3 s hs q hq hl)
      · exact g3 s hs q hq hl
theorem recNearestList_ok : ∀ (ts : List (Cell n)) (nr : Near n), Cell.InsideList rootSz orig ts → nr.Ok p All D → (∀ s ∈ Cell.allList ts, s.points ⊆ All) →
    (recNearestList cand rootSz orig p limit ts nr).Ok p All D ∧ (recNearestList cand rootSz orig p limit ts nr).distSq ≤ nr.distSq ∧
    ∀ s ∈ Cell.allList ts, ∀ q ∈ s.points, ‖q - p‖ ≤ limit → (recNearestList cand rootSz orig p limit ts nr).distSq ≤ ‖q - p‖ ^ 2
  | [], nr, _, h, _ => by
    rw [recNearestList]
    exact ⟨h, le_rfl, by simp [Cell.allList]⟩
  | t :: ts, nr, hin, h, ha => by
    rw [recNearestList]
    rw [Cell.InsideList] at hin
    rw [Cell.allList] at ha
    obtain ⟨h1, h2, h3⟩ := recNearest_ok t nr hin.1 h (fun s hs => ha s (List.mem_append_left _ hs))
    obtain ⟨g1, g2, g3⟩ := recNearestList_ok ts _ hin.2 h1 (fun s hs => ha s (List.mem_append_right _ hs))
    refine ⟨g1, g2.trans h2, fun s hs q hq hl => ?_⟩
    rw [Cell.allList] at hs
    rcases List.mem_append.1 hs with hs | hs
    · exact g2.trans (h3 s hs q hq hl)
    · exact g3 s hs q hq hl
end
end

end Hexed.Geom
