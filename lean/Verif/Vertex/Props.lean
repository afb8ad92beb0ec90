import Verif.Vertex.Lemmas2
import Mathlib.Algebra.BigOperators.Group.Finset.Basic
import Mathlib.Algebra.BigOperators.Ring.Finset
import Mathlib.Algebra.CharZero.Defs
import Mathlib.Data.Rat.Defs
import Mathlib.Algebra.Field.Rat
import Mathlib.Logic.Relation
import Mathlib.Tactic.Linarith
set_option autoImplicit false
set_option linter.unusedVariables false

/-!
# Properties of vertices (C16)

`Reach m`: the memory `m` is brought about by some history of legal calls, starting with no objects at all.
-/

namespace Hexed.Vertex
variable {K : Type} [Field K]

/-- No legal call is undefined behaviour, whatever the history. -/
theorem calls_defined {m : M K} (h : Reach m) (op : Op K) (hl : Legal m op) : ∃ m', step m op = some m' ∧ Reach m' := by
  obtain ⟨m', h1, _⟩ := step_inv (reach_inv h) op hl
  exact ⟨m', h1, .step h hl h1⟩

/-- Being neighbours is symmetric and irreflexive, and neighbours are alive. -/
theorem neighbors_symmetric {m : M K} (h : Reach m) (a b : Nat) :
    (areNeighbors m a b = some true ↔ areNeighbors m b a = some true) ∧ areNeighbors m a a ≠ some true := by
  have key : ∀ a b, areNeighbors m a b = some true → a ≠ b ∧ areNeighbors m b a = some true := by
    intro a b hab
    simp only [areNeighbors, Option.map_eq_some_iff, decide_eq_true_eq] at hab ⊢
    obtain ⟨v, hv, hb⟩ := hab
    obtain ⟨h1, w, h2, h3⟩ := (reach_inv h).nb a v b hv hb
    exact ⟨Ne.symm h1, w, h2, h3⟩
  exact ⟨⟨fun h => (key a b h).2, fun h => (key b a h).2⟩, fun h => (key a a h).1 rfl⟩

/-- Pointers never dangle, a vertex is alive exactly as long as a `Transferable_ptr` points to it, its mass is the number of those
pointers, and it knows exactly the pointers that point to it. -/
theorem pointers_exact {m : M K} (h : Reach m) (a : Nat) :
    (m.verts a ≠ none ↔ ∃ p, m.tp p = some a) ∧
    (∀ n, m.np n = some (some a) → m.verts a ≠ none) ∧
    ∀ v, m.verts a = some v →
      (∀ p, p ∈ v.trbl ↔ m.tp p = some a) ∧ (∀ n, n ∈ v.nont ↔ m.np n = some (some a)) ∧ mass m a = some v.trbl.card := by
  have hi := reach_inv h
  refine ⟨⟨fun ha => ?_, ?_⟩, ?_, ?_⟩
  · obtain ⟨v, hv⟩ := Option.ne_none_iff_exists'.1 ha
    obtain ⟨p, hp⟩ := hi.own a v hv
    exact ⟨p, hi.tr a v p hv hp⟩
  · rintro ⟨p, hp⟩
    obtain ⟨v, hv, _⟩ := hi.tp p a hp
    simp [hv]
  · intro n hn
    obtain ⟨v, hv, _⟩ := hi.np n a hn
    simp [hv]
  · intro v hv
    refine ⟨fun p => ⟨hi.tr a v p hv, fun hp => ?_⟩, fun n => ⟨hi.nt a v n hv, fun hn => ?_⟩, by simp [mass, hv]⟩
    · obtain ⟨v', h1, h2⟩ := hi.tp p a hp
      rw [hv] at h1; cases h1; exact h2
    · obtain ⟨v', h1, h2⟩ := hi.np n a hn
      rw [hv] at h1; cases h1; exact h2

/-- What `eat` does: `a` eats `b`. -/
theorem eat_exact {m m' : M K} (h : Reach m) {a b : Nat} (hab : a ≠ b) {va vb : Vert K} (ha : m.verts a = some va) (hb : m.verts b = some vb)
    (he : eat m a b = some m') :
    -- `b` is gone
    m'.verts b = none ∧
    -- no owner is lost: pointers to `b` point to `a`, all others are unchanged; `Non_transferable_ptr`s to `b` are null
    (∀ p, m.tp p = some b → m'.tp p = some a) ∧ (∀ p, m.tp p ≠ some b → m'.tp p = m.tp p) ∧
    (∀ n, m.np n = some (some b) → m'.np n = some none) ∧ (∀ n, m.np n ≠ some (some b) → m'.np n = m.np n) ∧
    -- the merged vertex
    (∃ v, m'.verts a = some v ∧
      mass m' a = some (va.trbl.card + vb.trbl.card) ∧
      (∀ i, v.pos i = (va.trbl.card * va.pos i + vb.trbl.card * vb.pos i) / (va.trbl.card + vb.trbl.card)) ∧
      v.record = va.record ++ vb.record ∧
      (∀ x, x ∈ v.neigh ↔ (x ∈ va.neigh ∨ x ∈ vb.neigh) ∧ x ≠ a ∧ x ≠ b)) ∧
    -- the other vertices: `b` is replaced by `a` among the neighbours
    (∀ c, c ≠ a → c ≠ b → m.verts c = none → m'.verts c = none) ∧
    (∀ c w, c ≠ a → c ≠ b → m.verts c = some w → ∃ w', m'.verts c = some w' ∧ w'.pos = w.pos ∧ w'.record = w.record ∧ w'.trbl = w.trbl ∧
      ∀ x, x ∈ w'.neigh ↔ (x ∈ w.neigh ∧ x ≠ b) ∨ (x = a ∧ b ∈ w.neigh)) := by
  have hi := reach_inv h
  have h1 := (eat_eq hi hab ha hb).1
  rw [he] at h1
  obtain rfl := Option.some.inj h1
  have hdisj : Disjoint va.trbl vb.trbl := by
    rw [Finset.disjoint_left]
    intro p hp hq
    have h2 := hi.tr a va p ha hp
    rw [hi.tr b vb p hb hq] at h2
    exact hab (Option.some.inj h2).symm
  refine ⟨by simp [eaten], ?_, ?_, ?_, ?_, ?_, ?_, ?_⟩
  · intro p hp; simp [eaten, hp]
  · intro p hp; simp [eaten, hp]
  · intro n hn; simp [eaten, hn]
  · intro n hn; simp [eaten, hn]
  · refine ⟨_, by simp only [eaten, hab, if_false, if_true]; rfl, ?_, fun i => rfl, rfl, ?_⟩
    · simp [mass, eaten, hab, Finset.card_union_of_disjoint hdisj]
    · intro x
      simp only [Finset.mem_erase, Finset.mem_union]; tauto
  · intro c hca hcb hc; simp [eaten, hca, hcb, hc]
  · intro c w hca hcb hc
    refine ⟨{ w with neigh := (if b ∈ w.neigh then insert a w.neigh else w.neigh).erase b },
      by simp only [eaten, hca, hcb, if_false, hc, Option.map_some], rfl, rfl, rfl, ?_⟩
    intro x
    by_cases hbw : b ∈ w.neigh
    · simp only [hbw, if_true, Finset.mem_erase, Finset.mem_insert, and_true]
      constructor
      · rintro ⟨h1, h2 | h2⟩
        · exact Or.inr h2
        · exact Or.inl ⟨h2, h1⟩
      · rintro (⟨h1, h2⟩ | h1)
        · exact ⟨h2, Or.inr h1⟩
        · exact ⟨h1 ▸ hab, Or.inl h1⟩
    · simp only [hbw, if_false, Finset.mem_erase, and_false, or_false]; tauto

/-- Connecting adds exactly one edge, and nothing if the two are the same vertex. -/
theorem connect_exact {m m' : M K} {a b : Nat} {va vb : Vert K} (ha : m.verts a = some va) (hb : m.verts b = some vb)
    (hc : connect m a b = some m') (x y : Nat) :
    areNeighbors m' x y = some true ↔ areNeighbors m x y = some true ∨ (a ≠ b ∧ ((x = a ∧ y = b) ∨ (x = b ∧ y = a))) := by
  rw [connect_eq ha hb] at hc
  obtain rfl := Option.some.inj hc
  simp only [areNeighbors, S, Option.map_eq_some_iff, decide_eq_true_eq]
  by_cases hxa : x = a
  · subst hxa
    simp only [ha, if_true, Option.some.injEq]
    constructor
    · rintro ⟨v, ⟨u, rfl, rfl⟩, h⟩
      simp only [Finset.mem_union, Finset.mem_erase, List.mem_toFinset, List.mem_singleton] at h
      rcases h with h | ⟨h, rfl⟩
      · exact Or.inl ⟨_, rfl, h⟩
      · exact Or.inr ⟨Ne.symm h, Or.inl ⟨trivial, rfl⟩⟩
    · rintro (⟨v, rfl, h⟩ | ⟨h, h1 | h1⟩)
      · exact ⟨_, ⟨_, rfl, rfl⟩, by simp [h]⟩
      · exact ⟨_, ⟨_, rfl, rfl⟩, by simp [h1, Ne.symm h]⟩
      · exact absurd h1.1 h
  · simp only [hxa, if_false, List.mem_singleton, false_and, false_or]
    by_cases hxb : x = b
    · subst hxb
      simp only [hb, if_true, Option.some.injEq]
      constructor
      · rintro ⟨v, ⟨u, rfl, rfl⟩, h⟩
        simp only [Finset.mem_insert] at h
        rcases h with h | h
        · exact Or.inr ⟨Ne.symm hxa, trivial, h⟩
        · exact Or.inl ⟨_, rfl, h⟩
      · rintro (⟨v, rfl, h⟩ | ⟨_, _, rfl⟩)
        · exact ⟨_, ⟨_, rfl, rfl⟩, by simp [h]⟩
        · exact ⟨_, ⟨_, rfl, rfl⟩, by simp⟩
    · simp only [hxb, if_false, false_and, and_false, or_false]
      constructor
      · rintro ⟨v, ⟨u, h1, rfl⟩, h⟩; exact ⟨u, h1, h⟩
      · rintro ⟨u, h1, h⟩; exact ⟨_, ⟨u, h1, rfl⟩, h⟩

/-! ## Histories of merges -/

/-- A history of legal calls. -/
inductive Run : M K → List (Op K) → M K → Prop
  | nil (m : M K) : Run m [] m
  | cons {m m1 m2 : M K} {op : Op K} {ops : List (Op K)} : Legal m op → step m op = some m1 → Run m1 ops m2 → Run m (op :: ops) m2

/-- The calls that connect and merge vertices, and those that concern `Non_transferable_ptr`s. -/
def Merging : Op K → Prop
  | .newT _ _ _ => False
  | .copyT _ _ => False
  | .destroyT _ => False
  | .assignT _ _ => False
  | _ => True

/-- Where the vertex that `p` points to is. -/
def posOf (m : M K) (p : Nat) : Option (Fin 3 → K) := (m.tp p).bind fun a => (m.verts a).map (·.pos)

/-- What one merging call does to the pointers and positions. -/
theorem merging_step {m m1 : M K} (h : Inv m) {op : Op K} (hl : Legal m op) (hs : step m op = some m1) (hm : Merging op) :
    (m1.tp = m.tp ∧ ∀ a, (m1.verts a).map (fun v => (v.pos, v.trbl)) = (m.verts a).map (fun v => (v.pos, v.trbl))) ∧ (∀ p q, op = .eat p q → m.tp p = m.tp q) ∨
    ∃ p q a b va vb, op = .eat p q ∧ m.tp p = some a ∧ m.tp q = some b ∧ a ≠ b ∧ m.verts a = some va ∧ m.verts b = some vb ∧ m1 = eaten m a b va vb := by
  have alive : ∀ p, m.tp p ≠ none → ∃ a v, m.tp p = some a ∧ m.verts a = some v := by
    intro p hp
    obtain ⟨a, ha⟩ := Option.ne_none_iff_exists'.1 hp
    obtain ⟨v, hv, _⟩ := h.tp p a ha
    exact ⟨a, v, ha, hv⟩
  have hset : ∀ n t (m : M K), ((setN m n t).tp = m.tp ∧ ∀ a, ((setN m n t).verts a).map (fun v => (v.pos, v.trbl)) = (m.verts a).map (fun v => (v.pos, v.trbl))) := by
    intro n t m
    refine ⟨rfl, fun a => ?_⟩
    simp only [setN, Option.map_map]; rfl
  cases op with
  | newT p a pos => exact hm.elim
  | copyT p q => exact hm.elim
  | destroyT p => exact hm.elim
  | assignT p q => exact hm.elim
  | connect p q =>
    left
    obtain ⟨a, v, ha, hv⟩ := alive p hl.1
    obtain ⟨b, w, hb, hw⟩ := alive q hl.2
    simp only [step, ha, hb, Option.bind_some, connect_eq hv hw, Option.some.injEq] at hs
    subst hs
    refine ⟨⟨rfl, fun a => ?_⟩, by simp⟩
    simp only [S, Option.map_map]; rfl
  | eat p q =>
    obtain ⟨a, v, ha, hv⟩ := alive p hl.1
    obtain ⟨b, w, hb, hw⟩ := alive q hl.2
    by_cases hab : a = b
    · subst hab
      simp only [step, ha, hb, Option.bind_some, eat_self, Option.some.injEq] at hs
      subst hs
      refine Or.inl ⟨⟨rfl, fun _ => rfl⟩, ?_⟩
      rintro p' q' h; cases h; rw [ha, hb]
    · simp only [step, ha, hb, Option.bind_some, (eat_eq h hab hv hw).1, Option.some.injEq] at hs
      exact Or.inr ⟨p, q, a, b, v, w, rfl, ha, hb, hab, hv, hw, hs.symm⟩
  | newN n q =>
    left
    obtain ⟨a, v, ha, hv⟩ := alive q hl.2
    simp only [step, ha, Option.bind_some, newN_eq h (Or.inl hl.1) hv, Option.some.injEq] at hs
    subst hs
    exact ⟨hset _ _ _, by simp⟩
  | copyN n k =>
    left
    obtain ⟨p, hp⟩ := Option.ne_none_iff_exists'.1 hl.2
    cases p with
    | none =>
      simp only [step, copyN, hp, Option.bind_some, Option.some.injEq] at hs
      subst hs
      exact ⟨⟨rfl, fun _ => rfl⟩, by simp⟩
    | some a =>
      obtain ⟨v, hv, _⟩ := h.np k a hp
      simp only [step, copyN, hp, Option.bind_some, newN_eq h (Or.inl hl.1) hv, Option.some.injEq] at hs
      subst hs
      exact ⟨hset _ _ _, by simp⟩
  | destroyN n =>
    left
    simp only [step, destroyN, nullify_eq h hl, Option.map_some, Option.some.injEq] at hs
    subst hs
    exact ⟨⟨rfl, (hset n (some none) m).2⟩, by simp⟩
  | assignN n k =>
    left
    have h1 := setN_inv h n (some none) (by simp)
    have hk1 : (setN m n (some none)).np k ≠ none := by
      simp only [setN, upd]; split
      · simp
      · exact hl.2
    obtain ⟨p, hp⟩ := Option.ne_none_iff_exists'.1 hk1
    simp only [step, assignN, nullify_eq h hl.1, Option.bind_some, hp] at hs
    cases p with
    | none =>
      simp only [Option.some.injEq] at hs
      subst hs
      exact ⟨⟨rfl, (hset n (some none) m).2⟩, by simp⟩
    | some a =>
      obtain ⟨v, hv, _⟩ := h1.np k a hp
      have := newN_eq h1 (Or.inr (by simp [setN, upd])) hv (n := n)
      simp only [newN] at this
      simp only [this, Option.some.injEq] at hs
      subst hs
      refine ⟨⟨rfl, fun a => ?_⟩, by simp⟩
      rw [(hset _ _ _).2, (hset _ _ _).2]

theorem run_inv {m m' : M K} {ops : List (Op K)} (h : Inv m) (hr : Run m ops m') : Inv m' := by
  induction hr with
  | nil => exact h
  | cons hl hs _ ih =>
    obtain ⟨m1, h1, h2⟩ := step_inv h _ hl
    rw [hs] at h1; cases h1; exact ih h2

/-- However vertices are merged, and in whatever order: a vertex's mass times its position is the sum, over the pointers to it, of the
positions these pointers had before the merges. -/
theorem merge_mean [CharZero K] {m0 m : M K} (h : Reach m0) {ops : List (Op K)} (hr : Run m0 ops m) (hm : ∀ op ∈ ops, Merging op)
    (a : Nat) (v : Vert K) (hv : m.verts a = some v) (i : Fin 3) :
    (v.trbl.card : K) * v.pos i = ∑ p ∈ v.trbl, ((posOf m0 p).getD 0) i := by
  have gen : ∀ (m0 m : M K) ops, Run m0 ops m → Inv m0 → (∀ op ∈ ops, Merging op) → ∀ (o : Nat → K),
      (∀ a v, m0.verts a = some v → (v.trbl.card : K) * v.pos i = ∑ p ∈ v.trbl, o p) →
      ∀ a v, m.verts a = some v → (v.trbl.card : K) * v.pos i = ∑ p ∈ v.trbl, o p := by
    intro m0 m ops hr
    induction hr with
    | nil m => intro _ _ o h; exact h
    | @cons m m1 m2 op ops hl hs _ ih =>
      intro hi hm o ho
      have hi1 : Inv m1 := by
        obtain ⟨m1', h1, h2⟩ := step_inv hi _ hl
        rw [hs] at h1; cases h1; exact h2
      refine ih hi1 (fun op h => hm op (by simp [h])) o ?_
      rcases merging_step hi hl hs (hm op (by simp)) with ⟨⟨_, h2⟩, _⟩ | ⟨p, q, a, b, va, vb, _, hpa, hqb, hab, ha, hb, rfl⟩
      · intro c w hw
        have h3 := h2 c
        rw [hw] at h3
        obtain ⟨w', h4, h5⟩ := Option.map_eq_some_iff.1 h3.symm
        have h6 := ho c w' h4
        simp only [Prod.mk.injEq] at h5
        rw [h5.1, h5.2] at h6; exact h6
      · intro c w hw
        by_cases hcb : c = b
        · simp [eaten, hcb] at hw
        · by_cases hca : c = a
          · subst hca
            simp only [eaten, hcb, if_false, if_true, Option.some.injEq] at hw
            subst hw
            have hdisj : Disjoint va.trbl vb.trbl := by
              rw [Finset.disjoint_left]
              intro p hp hq
              have h2 := hi.tr c va p ha hp
              rw [hi.tr b vb p hb hq] at h2
              exact hab (Option.some.inj h2).symm
            have hpos := Finset.card_pos.2 (hi.own c va ha)
            have hne : ((va.trbl.card : K) + vb.trbl.card) ≠ 0 := by
              rw [← Nat.cast_add, Nat.cast_ne_zero]; omega
            simp only [Finset.sum_union hdisj, Finset.card_union_of_disjoint hdisj, ← ho c va ha, ← ho b vb hb, Nat.cast_add]
            field_simp
          · simp only [eaten, hcb, hca, if_false] at hw
            obtain ⟨w', h4, h5⟩ := Option.map_eq_some_iff.1 hw
            subst h5
            exact ho c w' h4
  refine gen m0 m ops hr (reach_inv h) hm _ ?_ a v hv
  intro c w hw
  have hi := reach_inv h
  rw [Finset.sum_congr rfl (g := fun _ => w.pos i)]
  · simp
  · intro p hp
    simp [posOf, hi.tr c w p hw hp, hw]

/-- After any history of merges, two pointers point to the same vertex exactly if they are linked by merges. -/
theorem merge_classes {m0 m : M K} (h : Reach m0) {ops : List (Op K)} (hr : Run m0 ops m) (hm : ∀ op ∈ ops, Merging op) (p q : Nat) :
    m.tp p = m.tp q ↔ Relation.EqvGen (fun x y => m0.tp x = m0.tp y ∨ Op.eat x y ∈ ops) p q := by
  have hi := reach_inv h
  clear h
  induction hr generalizing p q with
  | nil m =>
    constructor
    · intro h; exact .rel _ _ (Or.inl h)
    · intro h
      induction h with
      | rel x y h => simpa using h
      | refl => rfl
      | symm _ _ _ ih => exact ih.symm
      | trans _ _ _ _ _ h1 h2 => exact h1.trans h2
  | @cons m m1 m2 op ops hl hs _ ih =>
    have hi1 : Inv m1 := by
      obtain ⟨m1', h1, h2⟩ := step_inv hi _ hl
      rw [hs] at h1; cases h1; exact h2
    have ih' := ih (fun op h => hm op (by simp [h])) p q hi1
    refine Iff.trans ih' ?_
    clear ih'
    have mono : ∀ (r s : Nat → Nat → Prop), (∀ x y, r x y → Relation.EqvGen s x y) → Relation.EqvGen r p q → Relation.EqvGen s p q := by
      intro r s hrs h
      induction h with
      | rel x y h => exact hrs x y h
      | refl => exact .refl _
      | symm _ _ _ ih => exact .symm _ _ ih
      | trans _ _ _ _ _ h1 h2 => exact .trans _ _ _ h1 h2
    rcases merging_step hi hl hs (hm op (by simp)) with ⟨⟨h2, _⟩, h3⟩ | ⟨p', q', a, b, va, vb, hop, hpa, hqb, hab, ha, hb, rfl⟩
    · rw [h2]
      constructor <;> apply mono
      · rintro x y (h | h)
        · exact .rel _ _ (Or.inl h)
        · exact .rel _ _ (Or.inr (by simp [h]))
      · rintro x y (h | h)
        · exact .rel _ _ (Or.inl h)
        · rcases List.mem_cons.1 h with h | h
          · exact .rel _ _ (Or.inl (h3 x y h.symm))
          · exact .rel _ _ (Or.inr h)
    · have htp : ∀ x, (eaten m a b va vb).tp x = if m.tp x = some b then some a else m.tp x := fun x => rfl
      constructor <;> apply mono
      · rintro x y (h | h)
        · have link : Relation.EqvGen (fun x y => m.tp x = m.tp y ∨ Op.eat x y ∈ op :: ops) p' q' := .rel _ _ (Or.inr (by simp [hop]))
          simp only [htp] at h
          by_cases hx : m.tp x = some b
          · by_cases hy : m.tp y = some b
            · exact .rel _ _ (Or.inl (hx.trans hy.symm))
            · simp only [hx, hy, if_true, if_false] at h
              exact .trans _ q' _ (.rel _ _ (Or.inl (hx.trans hqb.symm))) (.trans _ p' _ (.symm _ _ link) (.rel _ _ (Or.inl (hpa.trans h))))
          · by_cases hy : m.tp y = some b
            · simp only [hx, hy, if_true, if_false] at h
              exact .trans _ p' _ (.rel _ _ (Or.inl (h.trans hpa.symm))) (.trans _ q' _ link (.rel _ _ (Or.inl (hqb.trans hy.symm))))
            · simp only [hx, hy, if_false] at h
              exact .rel _ _ (Or.inl h)
        · exact .rel _ _ (Or.inr (by simp [h]))
      · rintro x y (h | h)
        · refine .rel _ _ (Or.inl ?_)
          simp only [htp, h]
        · rcases List.mem_cons.1 h with h | h
          · rw [hop] at h; cases h
            refine .rel _ _ (Or.inl ?_)
            simp only [htp, hpa, hqb, if_true]
            split <;> rfl
          · exact .rel _ _ (Or.inr h)

/-- The order of merges does not matter: two histories with the same merges give every pointer a vertex with the same owners (hence the
same mass) at the same position. -/
theorem merge_order [CharZero K] {m0 m m' : M K} (h : Reach m0) {ops ops' : List (Op K)} (hr : Run m0 ops m) (hr' : Run m0 ops' m')
    (hm : ∀ op ∈ ops, Merging op) (hm' : ∀ op ∈ ops', Merging op) (hsame : ∀ p q, Op.eat p q ∈ ops ↔ Op.eat p q ∈ ops')
    (p a a' : Nat) (v v' : Vert K) (hp : m.tp p = some a) (hp' : m'.tp p = some a') (hv : m.verts a = some v) (hv' : m'.verts a' = some v') :
    v'.trbl = v.trbl ∧ v'.pos = v.pos := by
  have hi := run_inv (reach_inv h) hr
  have hi' := run_inv (reach_inv h) hr'
  have mem : ∀ {m : M K} (hi : Inv m) {a : Nat} {v : Vert K} (hv : m.verts a = some v) (q : Nat), q ∈ v.trbl ↔ m.tp q = some a := by
    intro m hi a v hv q
    refine ⟨hi.tr a v q hv, fun hq => ?_⟩
    obtain ⟨v', h1, h2⟩ := hi.tp q a hq
    rw [hv] at h1; cases h1; exact h2
  have ht : v'.trbl = v.trbl := by
    ext q
    rw [mem hi' hv', mem hi hv, ← hp, ← hp', merge_classes h hr hm, merge_classes h hr' hm']
    simp only [hsame]
  refine ⟨ht, funext fun i => ?_⟩
  have h1 := merge_mean h hr hm a v hv i
  have h2 := merge_mean h hr' hm' a' v' hv' i
  rw [ht, ← h1] at h2
  have hpos := Finset.card_pos.2 (hi.own a v hv)
  exact mul_left_cancel₀ (Nat.cast_ne_zero.2 (by omega)) h2

/-! ## Non-vacuity: three vertices in a row, the last merged into the first -/

/-- Three vertices at 0, 1 and 2 on the x axis, connected in a row, and a `Non_transferable_ptr` to the third. -/
def demo : List (Op ℚ) :=
  [.newT 0 10 (fun i => if i = 0 then 0 else 0), .newT 1 11 (fun i => if i = 0 then 1 else 0), .newT 2 12 (fun i => if i = 0 then 2 else 0),
    .connect 0 1, .connect 1 2, .newN 0 2]

theorem run_reach {m0 m : M K} {ops : List (Op K)} (h : Reach m0) (hr : Run m0 ops m) : Reach m := by
  induction hr with
  | nil => exact h
  | cons hl hs _ ih => exact ih (.step h hl hs)

theorem run_snoc {m0 m m' : M K} {ops : List (Op K)} {op : Op K} (hr : Run m0 ops m) (hl : Legal m op) (hs : step m op = some m') :
    Run m0 (ops ++ [op]) m' := by
  induction hr with
  | nil => exact .cons hl hs (.nil _)
  | cons h1 h2 _ ih => exact .cons h1 h2 (ih hl hs)

example : ∃ m m' : M ℚ, Run M.empty demo m ∧ Reach m ∧ Run m [.eat 0 2] m' ∧ (∀ op ∈ [Op.eat (K := ℚ) 0 2], Merging op) ∧
    m.np 0 = some (some 12) ∧ areNeighbors m 11 12 = some true ∧ m.tp 0 = some 10 ∧ m.tp 2 = some 12 := by
  let m3 : M ℚ := newT (newT (newT M.empty 0 10 (fun i => if i = 0 then 0 else 0)) 1 11 (fun i => if i = 0 then 1 else 0)) 2 12
    (fun i => if i = 0 then 2 else 0)
  let m4 := S m3 10 [11]
  let m5 := S m4 11 [12]
  let m6 : M ℚ := setN m5 0 (some (some 12))
  have s4 : step m3 (.connect 0 1) = some m4 := connect_eq (m := m3) (a := 10) (b := 11) (v := _) (w := _) rfl rfl
  have s5 : step m4 (.connect 1 2) = some m5 := connect_eq (m := m4) (a := 11) (b := 12) (v := _) (w := _) rfl rfl
  have r5 : Run M.empty [.newT 0 10 (fun i => if i = 0 then 0 else 0), .newT 1 11 (fun i => if i = 0 then 1 else 0),
      .newT 2 12 (fun i => if i = 0 then 2 else 0), .connect 0 1, .connect 1 2] m5 :=
    .cons ⟨rfl, rfl⟩ rfl (.cons ⟨rfl, rfl⟩ rfl (.cons ⟨rfl, rfl⟩ rfl (.cons ⟨nofun, nofun⟩ s4 (.cons ⟨nofun, nofun⟩ s5 (.nil _)))))
  have s6 : step m5 (.newN 0 2) = some m6 := newN_eq (m := m5) (n := 0) (a := 12) (v := _) (reach_inv (run_reach .init r5)) (Or.inl rfl) rfl
  have r6 : Run M.empty demo m6 := run_snoc r5 ⟨rfl, nofun⟩ s6
  obtain ⟨m', hs, _⟩ := calls_defined (run_reach .init r6) (.eat 0 2) ⟨nofun, nofun⟩
  exact ⟨m6, m', r6, run_reach .init r6, .cons ⟨nofun, nofun⟩ hs (.nil _), by simp [Merging], rfl, rfl, rfl, rfl⟩

end Hexed.Vertex
