import Verif.Extrude.Search
import Mathlib.Tactic.IntervalCases
import Mathlib.Tactic.Ring
set_option autoImplicit false
set_option linter.unusedVariables false

/-!
# Lemmas about layers on cells of a grid
-/

namespace Hexed.Extrude

/-! ## The other directions -/

theorem dimLoop_low {nd i : Nat} (hi : i < nd) : ∀ (fuel j : Nat), j ≤ i → i - j < fuel → dimLoop nd i fuel j = List.range' j (i - j) := by
  intro fuel
  induction fuel with
  | zero => intro j h1 h2; omega
  | succ fuel ih =>
    intro j h1 h2
    rw [dimLoop, Nat.mod_eq_of_lt (by omega)]
    by_cases e : j = i
    · subst e; simp
    · rw [if_pos e, ih (j + 1) (by omega) (by omega), show i - j = (i - (j + 1)) + 1 by omega, List.range'_succ]

theorem dimLoop_high {nd i : Nat} (hi : i < nd) : ∀ (fuel j : Nat), i < j → j ≤ nd → nd - j + i < fuel → dimLoop nd i fuel j = List.range' j (nd - j) ++ List.range' 0 i := by
  intro fuel
  induction fuel with
  | zero => intro j h1 h2 h3; omega
  | succ fuel ih =>
    intro j h1 h2 h3
    by_cases e : j = nd
    · subst e
      have := dimLoop_low hi (fuel + 1) 0 (by omega) (by omega)
      rw [dimLoop] at this ⊢
      rw [Nat.mod_self]
      rw [Nat.zero_mod] at this
      rw [this]
      simp
    · rw [dimLoop, Nat.mod_eq_of_lt (by omega), if_pos (by omega), ih (j + 1) (by omega) (by omega) (by omega), show nd - j = (nd - (j + 1)) + 1 by omega, List.range'_succ]
      rfl

theorem otherDims_eq {nd i : Nat} (hi : i < nd) : otherDims nd i = List.range' (i + 1) (nd - (i + 1)) ++ List.range' 0 i :=
  dimLoop_high hi _ _ (by omega) (by omega) (by omega)

theorem mem_otherDims {nd i j : Nat} (hi : i < nd) : j ∈ otherDims nd i ↔ j < nd ∧ j ≠ i := by
  rw [otherDims_eq hi, List.mem_append, List.mem_range'_1, List.mem_range'_1]
  omega

theorem otherDims_nodup {nd i : Nat} (hi : i < nd) : (otherDims nd i).Nodup := by
  rw [otherDims_eq hi]
  refine List.Nodup.append List.nodup_range' List.nodup_range' ?_
  intro x h1 h2
  rw [List.mem_range'_1] at h1 h2
  omega

/-! ## Numbers of vertices -/

theorem bit_other {nd i j a b : Nat} (hi : i < nd) (hj : j < nd) (hne : i ≠ j) (ha : a < 2) (hb : b < 2) (k : Nat) (hk : k < nd) :
    (a * 2 ^ (nd - 1 - j) + b * 2 ^ (nd - 1 - i)) / 2 ^ (nd - 1 - k) % 2 = if k = i then b else if k = j then a else 0 := by
  have key : ∀ p q r x y : Nat, p ≠ q → x < 2 → y < 2 → (x * 2 ^ p + y * 2 ^ q) / 2 ^ r % 2 = if r = q then y else if r = p then x else 0 := by
    intro p q r x y hpq hx hy
    have t : (x * 2 ^ p + y * 2 ^ q).testBit r = (if r = q then y == 1 else if r = p then x == 1 else false) := by
      have h1 : ∀ p q r : Nat, p ≠ q → (2 ^ p + 2 ^ q).testBit r = (decide (r = q) || decide (r = p)) := by
        intro p q r h
        rcases Nat.lt_or_gt_of_ne h with h | h
        · rw [Nat.add_comm]
          by_cases e : r = q
          · subst e; rw [Nat.testBit_two_pow_add_eq]; simp [Nat.testBit_two_pow_of_ne (by omega : p ≠ r)]
          · rcases Nat.lt_or_gt_of_ne e with e' | e'
            · rw [Nat.testBit_two_pow_add_gt e']
              simp [Nat.testBit_two_pow, e, eq_comm]
            · rw [Nat.testBit_lt_two_pow]
              · simp [e]; omega
              · calc 2 ^ q + 2 ^ p < 2 ^ q + 2 ^ q := by
                      have := Nat.pow_lt_pow_right (a := 2) (by omega) h
                      omega
                  _ = 2 ^ (q + 1) := by rw [pow_succ]; omega
                  _ ≤ 2 ^ r := Nat.pow_le_pow_right (by omega) (by omega)
        · by_cases e : r = p
          · subst e; rw [Nat.testBit_two_pow_add_eq]; simp [Nat.testBit_two_pow_of_ne (by omega : q ≠ r)]
          · rcases Nat.lt_or_gt_of_ne e with e' | e'
            · rw [Nat.testBit_two_pow_add_gt e']
              simp [Nat.testBit_two_pow, e, eq_comm]
            · rw [Nat.testBit_lt_two_pow]
              · simp [e]; omega
              · calc 2 ^ p + 2 ^ q < 2 ^ p + 2 ^ p := by
                      have := Nat.pow_lt_pow_right (a := 2) (by omega) h
                      omega
                  _ = 2 ^ (p + 1) := by rw [pow_succ]; omega
                  _ ≤ 2 ^ r := Nat.pow_le_pow_right (by omega) (by omega)
      interval_cases x <;> interval_cases y
      · simp
      · simp [Nat.testBit_two_pow, eq_comm]
      · have : (2 ^ p).testBit r = decide (p = r) := Nat.testBit_two_pow
        simp only [Nat.one_mul, Nat.zero_mul, Nat.add_zero, this]
        by_cases e1 : r = q
        · have e2 : p ≠ r := by omega
          simp [e1, show p ≠ q by omega]
        · by_cases e2 : p = r
          · subst e2; simp [e1]
          · simp [e1, e2, Ne.symm e2]
      · simp only [Nat.one_mul]
        rw [h1 p q r hpq]
        by_cases e1 : r = q <;> by_cases e2 : r = p <;> simp [e1, e2]
    have e := Nat.testBit_eq_decide_div_mod_eq (x := x * 2 ^ p + y * 2 ^ q) (i := r)
    rw [t] at e
    have m := Nat.mod_two_eq_zero_or_one ((x * 2 ^ p + y * 2 ^ q) / 2 ^ r)
    by_cases e1 : r = q
    · simp only [e1, if_true] at e m ⊢
      interval_cases y <;> simp at e ⊢ <;> omega
    · by_cases e2 : r = p
      · simp only [e1, e2, if_true, if_false] at e m ⊢
        subst e2
        rw [if_neg e1] at e ⊢
        interval_cases x <;> simp at e ⊢ <;> omega
      · rw [if_neg e1, if_neg e2] at e ⊢
        simp at e ⊢
        omega
  rw [key _ _ _ _ _ (by omega) ha hb]
  by_cases e1 : k = i
  · rw [if_pos (by omega), if_pos e1]
  · by_cases e2 : k = j
    · rw [if_neg (by omega), if_pos (by omega), if_neg e1, if_pos e2]
    · rw [if_neg (by omega), if_neg (by omega), if_neg e1, if_neg e2]

/-! ## The four cells around an edge -/

/-- One of the cells around the edge at `v` across directions `i` and `j`. -/
def quad (v : Pos) (i j a b : Nat) : Pos := fun k => if k = i then v k - 1 + a else if k = j then v k - 1 + b else v k

theorem quad_swap {v : Pos} {i j : Nat} (h : i ≠ j) (a b : Nat) : quad v j i a b = quad v i j b a := by
  funext k
  unfold quad
  by_cases e1 : k = i
  · by_cases e2 : k = j
    · omega
    · rw [if_neg e2, if_pos e1, if_pos e1]
  · by_cases e2 : k = j
    · rw [if_pos e2, if_neg e1, if_pos e2]
    · rw [if_neg e2, if_neg e1, if_neg e1, if_neg e2]

/-- The request for face `2*j + t` of the element on face `2*i + s` of `c` is made, at vertex `v`. -/
def Asked (R : Region) (nd : Nat) (v c : Pos) (i s j t : Nat) : Prop :=
  R.Exposed nd c i s ∧ j < nd ∧ j ≠ i ∧ t < 2 ∧ R.inBox nd (across c j t) ∧ v = shift (shift c i s) j t

theorem asked_iff {R : Region} {nd : Nat} {v c : Pos} {i s j t : Nat} : Asked R nd v c i s j t ↔
    i < nd ∧ j < nd ∧ i ≠ j ∧ s < 2 ∧ t < 2 ∧ c = quad v i j (1 - s) (1 - t) ∧ (∀ a < 2, ∀ b < 2, R.inBox nd (quad v i j a b)) ∧ R.occ (quad v i j (1 - s) (1 - t)) ∧ ¬R.occ (quad v i j s (1 - t)) := by
  have hq : ∀ (i j s t : Nat) (c : Pos), i ≠ j → s < 2 → t < 2 → (v = shift (shift c i s) j t ↔ c = quad v i j (1 - s) (1 - t)) := by
    intro i j s t c hij hs ht
    constructor
    · rintro rfl
      funext k
      unfold quad shift
      by_cases e1 : k = i
      · subst e1; simp [hij]; omega
      · by_cases e2 : k = j
        · subst e2; simp [e1]; omega
        · simp [e1, e2]
    · intro e
      funext k
      have := congrFun e k
      unfold quad at this
      unfold shift
      by_cases e1 : k = i
      · subst e1; simp [hij] at this ⊢; omega
      · by_cases e2 : k = j
        · subst e2; simp [e1] at this ⊢; omega
        · simp [e1, e2] at this ⊢; omega
  have ha : ∀ (i j s t : Nat), i ≠ j → s < 2 → t < 2 → across (quad v i j (1 - s) (1 - t)) i s = quad v i j s (1 - t) ∧ across (quad v i j (1 - s) (1 - t)) j t = quad v i j (1 - s) t := by
    intro i j s t hij hs ht
    constructor
    · funext k
      unfold across shift quad
      by_cases e1 : k = i
      · subst e1; simp; omega
      · simp [e1]
    · funext k
      unfold across shift quad
      by_cases e1 : k = j
      · subst e1; simp [Ne.symm hij]; omega
      · simp [e1]
  constructor
  · rintro ⟨⟨h1, h2, h3, h4, h5, h6⟩, h7, h8, h9, h10, h11⟩
    have hc := (hq i j s t c (Ne.symm h8) h2 h9).1 h11
    obtain ⟨a1, a2⟩ := ha i j s t (Ne.symm h8) h2 h9
    rw [hc] at h3 h4 h5 h6 h10
    rw [a1] at h5 h6
    rw [a2] at h10
    refine ⟨h1, h7, Ne.symm h8, h2, h9, hc, ?_, h4, h6⟩
    have hpt : ∀ a < 2, ∀ b < 2, ∀ k, quad v i j a b k = quad v i j (1 - s) (1 - t) k ∨ quad v i j a b k = quad v i j s (1 - t) k ∨ quad v i j a b k = quad v i j (1 - s) t k := by
      intro a ha b hb k
      unfold quad
      by_cases e1 : k = i
      · simp only [e1, if_true]; omega
      · by_cases e2 : k = j
        · subst e2; simp only [e1, if_true, if_false]; omega
        · simp [e1, e2]
    intro a ha b hb
    refine ⟨fun k hk => ?_, fun k hk => ?_⟩
    · rcases hpt a ha b hb k with e | e | e <;> rw [e]
      · exact h3.1 k hk
      · exact h5.1 k hk
      · exact h10.1 k hk
    · rcases hpt a ha b hb k with e | e | e <;> rw [e]
      · exact h3.2 k hk
      · exact h5.2 k hk
      · exact h10.2 k hk
  · rintro ⟨h1, h7, h8, h2, h9, hc, h3, h4, h6⟩
    obtain ⟨a1, a2⟩ := ha i j s t h8 h2 h9
    refine ⟨⟨h1, h2, ?_, ?_, ?_, ?_⟩, h7, Ne.symm h8, h9, ?_, (hq i j s t c h8 h2 h9).2 hc⟩
    · rw [hc]; exact h3 _ (by omega) _ (by omega)
    · rw [hc]; exact h4
    · rw [hc, a1]; exact h3 _ h2 _ (by omega)
    · rw [hc, a1]; exact h6
    · rw [hc, a2]; exact h3 _ (by omega) _ h9

/-- Two requests fit together. -/
def Fits (i s j t i' s' j' t' : Nat) : Prop := (j = j' ∧ t ≠ t' ∧ i = i') ∨ (j = i' ∧ j' = i)

theorem manifold_quad {R : Region} {nd : Nat} (hm : R.Manifold nd) {v : Pos} {i j : Nat} (hi : i < nd) (hj : j < nd) (hij : i ≠ j) (hB : ∀ a < 2, ∀ b < 2, R.inBox nd (quad v i j a b)) {a b : Nat} (ha : a < 2) (hb : b < 2)
    (h1 : R.occ (quad v i j a b)) (h2 : R.occ (quad v i j (1 - a) (1 - b))) : R.occ (quad v i j (1 - a) b) ∨ R.occ (quad v i j a (1 - b)) := by
  have e1 : across (quad v i j a b) i (1 - a) = quad v i j (1 - a) b := by
    funext k; unfold across shift quad
    by_cases e : k = i
    · subst e; simp; omega
    · simp [e]
  have e2 : across (quad v i j a b) j (1 - b) = quad v i j a (1 - b) := by
    funext k; unfold across shift quad
    by_cases e : k = j
    · subst e; simp [Ne.symm hij]; omega
    · simp [e]
  have e3 : across (quad v i j (1 - a) b) j (1 - b) = quad v i j (1 - a) (1 - b) := by
    funext k; unfold across shift quad
    by_cases e : k = j
    · subst e; simp [Ne.symm hij]; omega
    · simp [e]
  have := hm (quad v i j a b) i j (1 - a) (1 - b) hi hj hij (by omega) (by omega) h1 (by rw [e1, e3]; exact h2) (hB a ha b hb) (by rw [e1, e3]; exact hB _ (by omega) _ (by omega))
  rw [e1, e2] at this
  exact this

/-- Each request has exactly one that fits. -/
theorem partner {R : Region} {nd : Nat} (hm : R.Manifold nd) {v c : Pos} {i s j t : Nat} (h : Asked R nd v c i s j t) :
    ∃ c' i' s' j' t', Asked R nd v c' i' s' j' t' ∧ (j' ≠ j ∨ t' ≠ t) ∧ Fits i s j t i' s' j' t' ∧ Meet c i s j t c' i' s' j' t' ∧
      ∀ d a b e f, Asked R nd v d a b e f → Fits i s j t a b e f → d = c' ∧ a = i' ∧ b = s' ∧ e = j' ∧ f = t' := by
  obtain ⟨hi, hj, hij, hs, ht, hc, hB, ho, hn⟩ := asked_iff.1 h
  have man := fun {a b : Nat} (ha : a < 2) (hb : b < 2) => manifold_quad hm hi hj hij hB ha hb
  have hB' : ∀ a < 2, ∀ b < 2, R.inBox nd (quad v j i a b) := fun a ha b hb => by rw [quad_swap hij]; exact hB b hb a ha
  -- all requests that fit, as conditions on the four cells
  have cand : ∀ d a b e f, Asked R nd v d a b e f → Fits i s j t a b e f →
      (a = i ∧ e = j ∧ b < 2 ∧ f = 1 - t ∧ d = quad v i j (1 - b) t ∧ R.occ (quad v i j (1 - b) t) ∧ ¬R.occ (quad v i j b t)) ∨
      (a = j ∧ e = i ∧ b < 2 ∧ f < 2 ∧ d = quad v i j (1 - f) (1 - b) ∧ R.occ (quad v i j (1 - f) (1 - b)) ∧ ¬R.occ (quad v i j (1 - f) b)) := by
    intro d a b e f k1 k2
    obtain ⟨g1, g2, g3, g4, g5, g6, g7, g8, g9⟩ := asked_iff.1 k1
    rcases k2 with ⟨rfl, k3, rfl⟩ | ⟨rfl, rfl⟩
    · left
      have : f = 1 - t := by omega
      subst this
      have e : 1 - (1 - t) = t := by omega
      rw [e] at g6 g8 g9
      exact ⟨rfl, rfl, g4, rfl, g6, g8, g9⟩
    · right
      rw [quad_swap hij] at g6 g8 g9
      exact ⟨rfl, rfl, g4, g5, g6, g8, g9⟩
  have st : 1 - (1 - s) = s ∧ 1 - (1 - t) = t := by omega
  have acr : across (quad v i j (1 - s) (1 - t)) i s = quad v i j s (1 - t) ∧ across (quad v i j (1 - s) (1 - t)) j t = quad v i j (1 - s) t ∧ across (quad v i j s t) j (1 - t) = quad v i j s (1 - t) := by
    refine ⟨?_, ?_, ?_⟩ <;> funext k <;> unfold across shift quad
    · by_cases e : k = i
      · subst e; simp; omega
      · simp [e]
    · by_cases e : k = j
      · subst e; simp [Ne.symm hij]; omega
      · simp [e]
    · by_cases e : k = j
      · subst e; simp [Ne.symm hij]; omega
      · simp [e]
  by_cases hx : R.occ (quad v i j (1 - s) t)
  · by_cases hy : R.occ (quad v i j s t)
    · refine ⟨quad v i j s t, j, 1 - t, i, 1 - s, asked_iff.2 ⟨hj, hi, hij.symm, by omega, by omega, ?_, hB', ?_, ?_⟩, Or.inl hij, Or.inr ⟨rfl, rfl⟩, Or.inr (Or.inr ⟨?_, rfl, rfl⟩), ?_⟩
      · rw [quad_swap hij, st.1, st.2]
      · rw [quad_swap hij, st.1, st.2]; exact hy
      · rw [quad_swap hij, st.1]; exact hn
      · rw [hc, acr.1, acr.2.2]
      · intro d a b e f k1 k2
        rcases cand d a b e f k1 k2 with ⟨q1, q2, q3, q4, q5, q6, q7⟩ | ⟨q1, q2, q3, q4, q5, q6, q7⟩
        · exfalso
          have : b = s ∨ b = 1 - s := by omega
          rcases this with rfl | rfl
          · exact q7 hy
          · exact q7 hx
        · have h1 : f = s ∨ f = 1 - s := by omega
          have h2 : b = t ∨ b = 1 - t := by omega
          rcases h1 with rfl | rfl <;> rcases h2 with rfl | rfl
          · exact absurd hx q7
          · rw [st.2] at q6; exact absurd ho q7
          · rw [st.1] at q6; exact absurd q6 hn
          · rw [st.1, st.2] at q5; exact ⟨q5, q1, rfl, q2, rfl⟩
    · refine ⟨quad v i j (1 - s) t, i, s, j, 1 - t, asked_iff.2 ⟨hi, hj, hij, hs, by omega, ?_, hB, ?_, ?_⟩, Or.inr (by omega), Or.inl ⟨rfl, by omega, rfl⟩, Or.inr (Or.inl ⟨?_, rfl, rfl, rfl, rfl⟩), ?_⟩
      · rw [st.2]
      · rw [st.2]; exact hx
      · rw [st.2]; exact hy
      · rw [hc, acr.2.1]
      · intro d a b e f k1 k2
        rcases cand d a b e f k1 k2 with ⟨q1, q2, q3, q4, q5, q6, q7⟩ | ⟨q1, q2, q3, q4, q5, q6, q7⟩
        · have : b = s ∨ b = 1 - s := by omega
          rcases this with rfl | rfl
          · exact ⟨q5, q1, rfl, q2, q4⟩
          · rw [st.1] at q6; exact absurd q6 hy
        · exfalso
          have h1 : f = s ∨ f = 1 - s := by omega
          have h2 : b = t ∨ b = 1 - t := by omega
          rcases h1 with rfl | rfl <;> rcases h2 with rfl | rfl
          · exact q7 hx
          · exact q7 ho
          · rw [st.1] at q6; exact hn q6
          · rw [st.1, st.2] at q6; exact hy q6
  · have hy : ¬R.occ (quad v i j s t) := by
      intro hy
      have := man (a := 1 - s) (b := 1 - t) (by omega) (by omega) ho (by rw [st.1, st.2]; exact hy)
      rw [st.1, st.2] at this
      exact this.elim hn hx
    refine ⟨c, j, t, i, s, asked_iff.2 ⟨hj, hi, hij.symm, ht, hs, ?_, hB', ?_, ?_⟩, Or.inl hij, Or.inr ⟨rfl, rfl⟩, Or.inl ⟨rfl, rfl, rfl, rfl, rfl⟩, ?_⟩
    · rw [quad_swap hij]; exact hc
    · rw [quad_swap hij]; exact ho
    · rw [quad_swap hij]; exact hx
    · intro d a b e f k1 k2
      rcases cand d a b e f k1 k2 with ⟨q1, q2, q3, q4, q5, q6, q7⟩ | ⟨q1, q2, q3, q4, q5, q6, q7⟩
      · exfalso
        have : b = s ∨ b = 1 - s := by omega
        rcases this with rfl | rfl
        · exact hx q6
        · rw [st.1] at q6; exact hy q6
      · have h1 : f = s ∨ f = 1 - s := by omega
        have h2 : b = t ∨ b = 1 - t := by omega
        rcases h1 with rfl | rfl <;> rcases h2 with rfl | rfl
        · exact ⟨q5.trans hc.symm, q1, rfl, q2, rfl⟩
        · rw [st.2] at q6; exact absurd q6 hx
        · rw [st.1] at q6; exact absurd q6 hn
        · rw [st.1, st.2] at q6; exact absurd q6 hy

/-! ## What is recorded -/

theorem mem_siteRequests {V : Type} {nd : Nat} {x : Site V} {y : V × Rec} : y ∈ siteRequests nd x ↔ ∃ j ∈ otherDims nd x.dim, ∃ t < 2, x.skip (2 * j + t) = false ∧ y = request nd x j t := by
  unfold siteRequests
  rw [List.mem_flatMap]
  constructor
  · rintro ⟨j, hj, h⟩
    obtain ⟨t, ht, h⟩ := List.mem_flatMap.1 h
    refine ⟨j, hj, t, by simp at ht; omega, ?_⟩
    split at h
    · simp at h
    · rename_i hs; exact ⟨by simpa using hs, by simpa using h⟩
  · rintro ⟨j, hj, t, ht, hs, rfl⟩
    refine ⟨j, hj, List.mem_flatMap.2 ⟨t, by simp; omega, ?_⟩⟩
    rw [hs]
    simp

theorem request_vertex {nd i s j t : Nat} (hi : i < nd) (hj : j < nd) (hij : i ≠ j) (hs : s < 2) (ht : t < 2) (c : Pos) : siteVertex nd c i s (requestVertex nd i s j t) = .inl (shift (shift c i s) j t) := by
  unfold siteVertex requestVertex
  have hb := fun k hk => bit_other hi hj hij ht (show 1 - s < 2 by omega) k hk
  rw [hb i hi, if_pos rfl, if_pos rfl]
  congr 1
  funext k
  unfold shift corner
  by_cases hk : k < nd
  · simp only [if_pos hk, hb k hk]
    by_cases e1 : k = i
    · subst e1; simp [hij]; omega
    · by_cases e2 : k = j
      · subst e2; simp [e1]
      · simp [e1, e2]
  · have e1 : k ≠ i := by omega
    have e2 : k ≠ j := by omega
    simp [e1, e2, hk]

theorem siteRequests_nodup {V : Type} {nd : Nat} {x : Site V} (hd : x.dim < nd) : ((siteRequests nd x).map (·.2)).Nodup := by
  have e : ((siteRequests nd x).map (·.2)) = ((otherDims nd x.dim).flatMap fun j => [0, 1].flatMap fun t => if x.skip (2 * j + t) then [] else [2 * j + t]).map fun f => (⟨x.level, x.sn, f, 2 * x.dim + x.sign⟩ : Rec) := by
    unfold siteRequests
    rw [List.map_flatMap, List.map_flatMap]
    apply List.flatMap_congr
    intro j hj
    rw [List.map_flatMap, List.map_flatMap]
    apply List.flatMap_congr
    intro t ht
    split <;> rfl
  rw [e]
  refine List.Nodup.map (fun a b h => by simpa using h) ?_
  rw [List.nodup_flatMap]
  refine ⟨fun j hj => ?_, (otherDims_nodup hd).imp ?_⟩
  · simp only [List.flatMap_cons, List.flatMap_nil, List.append_nil]
    split <;> split <;> simp
  · intro a b hab
    intro x h1 h2
    simp only [List.flatMap_cons, List.flatMap_nil, List.append_nil, List.mem_append] at h1 h2
    have g : ∀ (c : Bool) (y : Nat), x ∈ (if c = true then [] else [y]) → x = y := by
      intro c y h; cases c <;> simp at h; exact h
    rcases h1 with h1 | h1 <;> rcases h2 with h2 | h2 <;> have := g _ _ h1 <;> have := g _ _ h2 <;> omega

theorem requests_nodup {V : Type} {nd : Nat} {sites : List (Site V)} (hd : ∀ x ∈ sites, x.dim < nd) (hsn : sites.Pairwise fun x y => (x.level, x.sn) ≠ (y.level, y.sn)) : ((requests nd sites).map (·.2)).Nodup := by
  unfold requests
  rw [List.map_flatMap, List.nodup_flatMap]
  refine ⟨fun x hx => siteRequests_nodup (hd x hx), hsn.imp ?_⟩
  intro x y h r h1 h2
  obtain ⟨a, ha, rfl⟩ := List.mem_map.1 h1
  obtain ⟨b, hb, e⟩ := List.mem_map.1 h2
  obtain ⟨j, -, t, -, -, rfl⟩ := mem_siteRequests.1 ha
  obtain ⟨j', -, t', -, -, rfl⟩ := mem_siteRequests.1 hb
  simp only [request, Rec.mk.injEq] at e
  exact h (by rw [e.1, e.2.1])

theorem recorded_nodup {V : Type} [DecidableEq V] {nd : Nat} {sites : List (Site V)} (h : ((requests nd sites).map (·.2)).Nodup) (v : V) : (recorded nd sites v).Nodup :=
  h.sublist (List.filter_sublist.map _)

theorem mem_recorded {V : Type} [DecidableEq V] {nd : Nat} {sites : List (Site V)} {v : V} {r : Rec} : r ∈ recorded nd sites v ↔ (v, r) ∈ requests nd sites := by
  unfold recorded
  rw [List.mem_map]
  constructor
  · rintro ⟨a, h, rfl⟩
    rw [List.mem_filter, beq_iff_eq] at h
    rw [← h.2]
    exact h.1
  · intro h
    exact ⟨(v, r), List.mem_filter.2 ⟨h, by simp⟩, rfl⟩

theorem recorded_perm {V : Type} [DecidableEq V] {nd : Nat} {sites : List (Site V)} {order : List V} (hn : order.Nodup) (hc : ∀ x ∈ requests nd sites, x.1 ∈ order) :
    (order.flatMap (recorded nd sites)).Perm ((requests nd sites).map (·.2)) := by
  unfold recorded
  generalize requests nd sites = l at hc ⊢
  induction l with
  | nil => simp
  | cons x l ih =>
    have h := ih fun y hy => hc y (List.mem_cons_of_mem _ hy)
    rw [List.map_cons]
    refine List.Perm.trans ?_ (h.cons _)
    have hx := hc x (by simp)
    refine List.Perm.trans (flatMap_update_perm hn hx _ (l := ((l.filter fun y => y.1 == x.1).map (·.2))) (x := [x.2]) ?_) ?_
    · simp only [List.filter_cons, beq_self_eq_true, if_true, List.map_cons]
      exact List.perm_append_comm (l₁ := [_])
    · refine List.perm_append_comm.trans ?_
      refine List.Perm.cons _ ?_
      apply List.Perm.of_eq
      apply List.flatMap_congr
      intro v hv
      by_cases e : v = x.1
      · subst e; simp
      · rw [Function.update_of_ne e, List.filter_cons, if_neg (by simpa using fun h => e h.symm)]

theorem mem_grid {R : Region} {nd level : Nat} {sn : Pos × Nat × Nat → Nat} {faces : List (Pos × Nat × Nat)} (hf : ∀ f, f ∈ faces ↔ R.Exposed nd f.1 f.2.1 f.2.2) {v : Pos ⊕ (Pos × Nat × Nat × Nat)} {r : Rec} :
    (v, r) ∈ requests nd (faces.map (gridSite R nd level sn)) ↔ ∃ p c i s j t, v = .inl p ∧ Asked R nd p c i s j t ∧ r = ⟨level, sn (c, i, s), 2 * j + t, 2 * i + s⟩ := by
  unfold requests
  rw [List.mem_flatMap]
  have d : ∀ j t : Nat, t < 2 → (2 * j + t) / 2 = j ∧ (2 * j + t) % 2 = t := fun j t h => by omega
  constructor
  · rintro ⟨x, hx, h⟩
    obtain ⟨⟨c, i, s⟩, hc, rfl⟩ := List.mem_map.1 hx
    have he := (hf _).1 hc
    obtain ⟨j, hj, t, ht, hs, e⟩ := mem_siteRequests.1 h
    have hj' := (mem_otherDims he.1).1 hj
    simp only [gridSite, (d j t ht).1, (d j t ht).2, decide_eq_false_iff_not, not_not] at hs
    have hv := request_vertex he.1 hj'.1 (Ne.symm hj'.2) he.2.1 ht c
    simp only [request, gridSite, hv, Prod.mk.injEq] at e
    exact ⟨_, c, i, s, j, t, e.1, ⟨he, hj'.1, hj'.2, ht, hs, rfl⟩, e.2⟩
  · rintro ⟨p, c, i, s, j, t, rfl, ⟨he, h1, h2, h3, h4, rfl⟩, rfl⟩
    refine ⟨_, List.mem_map.2 ⟨(c, i, s), (hf _).2 he, rfl⟩, mem_siteRequests.2 ⟨j, (mem_otherDims he.1).2 ⟨h1, h2⟩, t, h3, ?_, ?_⟩⟩
    · simp only [gridSite, (d j t h3).1, (d j t h3).2, decide_eq_false_iff_not, not_not]
      exact h4
    · have hv := request_vertex he.1 h1 (Ne.symm h2) he.2.1 h3 c
      simp only [request, gridSite, hv]

theorem mates_iff {l i s j t i' s' j' t' n n' : Nat} (hs : s < 2) (ht : t < 2) (hs' : s' < 2) (ht' : t' < 2) :
    Mates ⟨l, n, 2 * j + t, 2 * i + s⟩ ⟨l, n', 2 * j' + t', 2 * i' + s'⟩ ↔ Fits i s j t i' s' j' t' := by
  unfold Mates Straight Corner Fits
  have d : ∀ j t : Nat, t < 2 → (2 * j + t) / 2 = j ∧ (2 * j + t) % 2 = t := fun j t h => by omega
  simp only [d j t ht, d i s hs, d j' t' ht', d i' s' hs', true_and]

/-- Around a layer on cells of a grid, each request has one partner. -/
theorem grid_paired {R : Region} {nd level : Nat} {sn : Pos × Nat × Nat → Nat} {faces : List (Pos × Nat × Nat)} [DecidableEq (Pos ⊕ (Pos × Nat × Nat × Nat))] (hf : ∀ f, f ∈ faces ↔ R.Exposed nd f.1 f.2.1 f.2.2) (hm : R.Manifold nd)
    (v : Pos ⊕ (Pos × Nat × Nat × Nat)) : Paired (recorded nd (faces.map (gridSite R nd level sn)) v) := by
  intro r hr
  obtain ⟨p, c, i, s, j, t, rfl, h, rfl⟩ := (mem_grid hf).1 (mem_recorded.1 hr)
  obtain ⟨c', i', s', j', t', k1, k2, k3, -, k4⟩ := partner hm h
  have lt : ∀ {c i s j t}, Asked R nd p c i s j t → s < 2 ∧ t < 2 := fun h => ⟨h.1.2.1, h.2.2.2.1⟩
  refine ⟨⟨level, sn (c', i', s'), 2 * j' + t', 2 * i' + s'⟩, mem_recorded.2 ((mem_grid hf).2 ⟨p, c', i', s', j', t', rfl, k1, rfl⟩), ?_, (mates_iff (lt h).1 (lt h).2 (lt k1).1 (lt k1).2).2 k3, ?_⟩
  · intro e
    simp only [Rec.mk.injEq] at e
    have := lt h; have := lt k1
    omega
  · intro x hx hmx
    obtain ⟨q, d, a, b, e, f, hq, g, rfl⟩ := (mem_grid hf).1 (mem_recorded.1 hx)
    cases hq
    obtain ⟨rfl, rfl, rfl, rfl, rfl⟩ := k4 d a b e f g ((mates_iff (lt h).1 (lt h).2 (lt g).1 (lt g).2).1 hmx)
    rfl

end Hexed.Extrude
