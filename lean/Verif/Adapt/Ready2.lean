import Verif.Adapt.Ready
import Verif.Tree.Flood

set_option autoImplicit false
set_option linter.unusedVariables false

namespace Hexed.Adapt
open Hexed.Tree (Path get modify refineNode unrefineNode setStatusNode findNeighbors findNeighbor IsDir Borders IsLeafAt Reachable RootWF)

variable {nd : Nat}

theorem isDir_cut {dir : Fin nd → Int} (h : IsDir dir) (S : Fin nd → Prop) [DecidablePred S] : IsDir (cut dir S) := by
  intro d; unfold cut; split
  · exact h d
  · exact .inr (.inl rfl)

theorem isDir_neg {dir : Fin nd → Int} (h : IsDir dir) : IsDir (fun d => -dir d) := by
  intro d
  rcases h d with h | h | h
  · exact .inr (.inr (by show -dir d = 1; rw [h]; rfl))
  · exact .inr (.inl (by show -dir d = 0; rw [h]; rfl))
  · exact .inl (by show -dir d = -1; rw [h])

theorem faceOf_cut {dir : Fin nd → Int} (S : Fin nd → Prop) [DecidablePred S] {d : Fin nd} (hd : cut dir S d ≠ 0) : faceOf (cut dir S) d = faceOf dir d := by
  funext x
  simp only [faceOf]
  split
  · rename_i hx; subst hx
    simp only [cut] at hd ⊢
    split
    · rfl
    · rename_i hn; rw [if_neg hn] at hd; exact absurd rfl hd
  · rfl

theorem order_neg (dir : Fin nd → Int) : order (fun d => -dir d) = order dir := by
  unfold order; congr 1; ext d; simp

theorem order_cut_lt {dir : Fin nd → Int} (S : Fin nd → Prop) [DecidablePred S] {d : Fin nd} (hd : dir d ≠ 0) (hS : ¬S d) : order (cut dir S) < order dir := by
  unfold order
  apply Finset.card_lt_card
  rw [Finset.ssubset_iff_of_subset]
  · exact ⟨d, by simpa using hd, by simp [cut, hS]⟩
  · intro x hx
    have hx : cut dir S x ≠ 0 := (Finset.mem_filter.1 hx).2
    refine Finset.mem_filter.2 ⟨Finset.mem_univ x, ?_⟩
    unfold cut at hx
    split at hx
    · exact hx
    · exact absurd rfl hx

theorem order_pos {dir : Fin nd → Int} {d : Fin nd} (hd : dir d ≠ 0) : 0 < order dir := by
  unfold order; rw [Finset.card_pos]; exact ⟨d, by simpa using hd⟩

/-- Two leaves that touch with all of their boundary planes in the direction of `dir`: the leaf at the edge in between, on the side of `a` in
dimension `k` and on the side of `b` in the others. -/
theorem corner_leaf {t a b : Tree nd} (h : Reachable t) {p q : Path} (ha : get p t = some a) (hb : get q t = some b) {dir : Fin nd → Int}
    (hab : Borders a b dir) (hc : ∀ d, dir d ≠ 0 → if dir d > 0 then a.hi d = b.lo d else b.hi d = a.lo d) {k : Fin nd} (hk : dir k ≠ 0) :
    ∃ f c, get f t = some c ∧ c.children = [] ∧ Borders a c (cut dir (· ≠ k)) ∧ Borders b c (faceOf (fun d => -dir d) k) := by
  have key : ∀ d : Fin nd, ∃ (β : Int) (x : ℚ), (if β = 0 then t.lo d ≤ x ∧ x < t.hi d else t.lo d < x ∧ x ≤ t.hi d) ∧
      ∀ c : Tree nd, (if β = 0 then c.lo d ≤ x ∧ x < c.hi d else c.lo d < x ∧ x ≤ c.hi d) →
        (if cut dir (· ≠ k) d = 0 then c.lo d < a.hi d ∧ a.lo d < c.hi d
          else if cut dir (· ≠ k) d > 0 then c.lo d ≤ a.hi d ∧ a.hi d < c.hi d else c.lo d < a.lo d ∧ a.lo d ≤ c.hi d) ∧
        (if faceOf (fun d => -dir d) k d = 0 then c.lo d < b.hi d ∧ b.lo d < c.hi d
          else if faceOf (fun d => -dir d) k d > 0 then c.lo d ≤ b.hi d ∧ b.hi d < c.hi d else c.lo d < b.lo d ∧ b.lo d ≤ c.hi d) := by
    intro d
    have hA : a.lo d < a.hi d := by rw [Tree.hi_eq]; linarith [Tree.wd_pos a]
    have hB : b.lo d < b.hi d := by rw [Tree.hi_eq]; linarith [Tree.wd_pos b]
    have sa := Tree.sub_box h.root.wf ha d
    have sb := Tree.sub_box h.root.wf hb d
    have hd := hab d
    by_cases h0 : dir d = 0
    · have hdk : d ≠ k := by rintro rfl; exact hk h0
      rw [if_pos h0] at hd
      refine ⟨0, max (a.lo d) (b.lo d), ?_, fun c hc => ?_⟩
      · simp only [if_true]
        exact ⟨le_trans sa.1 (le_max_left _ _), max_lt (by linarith) (by linarith)⟩
      · simp only [if_true] at hc
        simp only [cut, faceOf, hdk, h0, ne_eq, not_false_eq_true, if_true, if_false]
        exact ⟨⟨lt_of_le_of_lt hc.1 (max_lt hA hd.1), lt_of_le_of_lt (le_max_left _ _) hc.2⟩,
          ⟨lt_of_le_of_lt hc.1 (max_lt hd.2 hB), lt_of_le_of_lt (le_max_right _ _) hc.2⟩⟩
    · have hcd := hc d h0
      by_cases h1 : dir d > 0
      · rw [if_pos h1] at hcd
        have n1 : ¬-dir d > 0 := by omega
        have n2 : ¬-dir d = 0 := by omega
        by_cases hdk : d = k
        · subst hdk
          refine ⟨1, a.hi d, ?_, fun c hc => ?_⟩
          · simp only [one_ne_zero, if_false]; constructor <;> linarith
          · simp only [one_ne_zero, if_false] at hc
            simp only [cut, faceOf, ne_eq, not_true_eq_false, if_true, if_false, n1, n2]
            constructor <;> constructor <;> linarith
        · refine ⟨0, a.hi d, ?_, fun c hc => ?_⟩
          · simp only [if_true]; constructor <;> linarith
          · simp only [if_true] at hc
            simp only [cut, faceOf, hdk, ne_eq, not_false_eq_true, if_true, if_false, h0, h1]
            constructor <;> constructor <;> linarith
      · rw [if_neg h1] at hcd
        have n1 : -dir d > 0 := by omega
        have n2 : ¬-dir d = 0 := by omega
        by_cases hdk : d = k
        · subst hdk
          refine ⟨0, a.lo d, ?_, fun c hc => ?_⟩
          · simp only [if_true]; constructor <;> linarith
          · simp only [if_true] at hc
            simp only [cut, faceOf, ne_eq, not_true_eq_false, if_true, if_false, n1, n2]
            constructor <;> constructor <;> linarith
        · refine ⟨1, a.lo d, ?_, fun c hc => ?_⟩
          · simp only [one_ne_zero, if_false]; constructor <;> linarith
          · simp only [one_ne_zero, if_false] at hc
            simp only [cut, faceOf, hdk, ne_eq, not_false_eq_true, if_true, if_false, h0, h1]
            constructor <;> constructor <;> linarith
  choose β x h1 h2 using key
  obtain ⟨f, c, g1, g2, g3⟩ := owns_leaf β x t h.root.wf h1
  exact ⟨f, c, g1, g2, fun d => (h2 d c (g3 d)).1, fun d => (h2 d c (g3 d)).2⟩

/-- With the tests passed everywhere, nothing existing is behind the edge or corner of exposed faces. -/
theorem no_diagonal {away : Tree nd → (Fin nd → Int) → Bool} {st : St nd} (h : Consistent st)
    (hr : ∀ p a, Exists st p → get p st.root = some a → ReadyAt away st a) : ∀ m, m ≤ 3 → ∀ p a q b dir, Exists st p → get p st.root = some a →
    Exists st q → get q st.root = some b → IsDir dir → order dir = m → 0 < m → Borders a b dir →
    (∀ d, dir d ≠ 0 → Exposed st a (faceOf dir d)) → False := by
  intro m
  induction m using Nat.strong_induction_on with
  | _ m ih =>
    intro hm p a q b dir hp ha hq hb hd ho hpos hab hexp
    obtain ⟨b', hb', hbl⟩ := hq.leaf h
    rw [hb, Option.some.injEq] at hb'; subst hb'
    obtain ⟨a', ha', hal⟩ := hp.leaf h
    rw [ha, Option.some.injEq] at ha'; subst ha'
    by_cases hm1 : m = 1
    · subst hm1
      obtain ⟨i, hi, hdi, d, hd0, -⟩ := dir_one hd ho
      have hf : faceOf dir d = dir := by
        have hdd : direction nd i d ≠ 0 := by rw [← hdi]; exact hd0
        rw [hdi]; exact ((loop_one hi).2 d hdd).2
      have hx := hexp d hd0
      rw [hf] at hx
      obtain ⟨q', c, c1, c2, c3, c4⟩ := hx
      rcases (hr p a hp ha).faces dir hd ho with hh | hh
      · exact c4 (hh q' c c1 c2 c3)
      · exact hh q b hb hbl hab hq
    · by_cases hc : ∀ d, dir d ≠ 0 → if dir d > 0 then a.hi d = b.lo d else b.hi d = a.lo d
      · have ho' : order dir = 2 ∨ order dir = 3 := by omega
        have hlt := (hr p a hp ha).diag dir hd ho' hexp q b hb hq hab
        have hexpb : ∀ d, -dir d ≠ 0 → Exposed st b (faceOf (fun d => -dir d) d) := by
          intro k hk
          have hk0 : dir k ≠ 0 := fun h0 => hk (by rw [h0]; rfl)
          obtain ⟨f, c, f1, f2, f3, f4⟩ := corner_leaf h.reach ha hb hab hc hk0
          refine ⟨f, c, f1, f2, f4, fun hx => ?_⟩
          have hlt' := order_cut_lt (dir := dir) (· ≠ k) hk0 (by simp)
          have hpos' : 0 < order (cut dir (· ≠ k)) := by
            by_contra hz
            have hz0 : ∀ d, d ≠ k → dir d = 0 := by
              intro d hdk
              by_contra hd0
              exact hz (order_pos (d := d) (by simp [cut, hdk, hd0]))
            have : order dir ≤ 1 := by
              unfold order
              rw [Finset.card_le_one]
              intro x hx y hy
              simp only [Finset.mem_filter, Finset.mem_univ, true_and] at hx hy
              have e1 : x = k := by by_contra hne; exact hx (hz0 x hne)
              have e2 : y = k := by by_contra hne; exact hy (hz0 y hne)
              rw [e1, e2]
            omega
          refine ih _ (by omega) (by omega) p a f c (cut dir (· ≠ k)) hp ha hx f1 (isDir_cut hd _) rfl hpos' f3 ?_
          intro d hdc
          rw [faceOf_cut (· ≠ k) hdc]
          refine hexp d ?_
          simp only [cut] at hdc
          split at hdc
          · exact hdc
          · exact absurd rfl hdc
        have hba : Borders b a (fun d => -dir d) := by
          intro d
          have hA : a.lo d < a.hi d := by rw [Tree.hi_eq]; linarith [Tree.wd_pos a]
          have hB : b.lo d < b.hi d := by rw [Tree.hi_eq]; linarith [Tree.wd_pos b]
          have hd' := hab d
          by_cases h0 : dir d = 0
          · rw [if_pos h0] at hd'
            rw [if_pos (by show -dir d = 0; rw [h0]; rfl)]
            exact ⟨hd'.2, hd'.1⟩
          · have hcd := hc d h0
            rw [if_neg (by show ¬-dir d = 0; omega)]
            by_cases h1 : dir d > 0
            · rw [if_pos h1] at hcd
              rw [if_neg (by show ¬-dir d > 0; omega)]
              constructor <;> linarith
            · rw [if_neg h1] at hcd
              rw [if_pos (by show -dir d > 0; omega)]
              constructor <;> linarith
        have hlt2 := (hr q b hq hb).diag (fun d => -dir d) (isDir_neg hd) (by rw [order_neg]; exact ho') hexpb p a ha hp hba
        omega
      · push Not at hc
        obtain ⟨k, hk0, hk⟩ := hc
        classical
        set S : Fin nd → Prop := fun d => if dir d > 0 then a.hi d = b.lo d else b.hi d = a.lo d with hS
        have hlt' := order_cut_lt (dir := dir) S hk0 hk
        have hab' : Borders a b (cut dir S) := by
          intro d
          have hA : a.lo d < a.hi d := by rw [Tree.hi_eq]; linarith [Tree.wd_pos a]
          have hB : b.lo d < b.hi d := by rw [Tree.hi_eq]; linarith [Tree.wd_pos b]
          have hd' := hab d
          by_cases hSd : S d
          · have : cut dir S d = dir d := by simp [cut, hSd]
            rw [this]; exact hd'
          · have : cut dir S d = 0 := by simp [cut, hSd]
            rw [if_pos this]
            by_cases h0 : dir d = 0
            · rw [if_pos h0] at hd'; exact hd'
            · rw [if_neg h0] at hd'
              by_cases h1 : dir d > 0
              · rw [if_pos h1] at hd'
                have hne : ¬a.hi d = b.lo d := by simpa [hS, h1] using hSd
                have : b.lo d < a.hi d := lt_of_le_of_ne hd'.1 (fun h => hne h.symm)
                constructor <;> linarith
              · rw [if_neg h1] at hd'
                have hne : ¬b.hi d = a.lo d := by simpa [hS, h1] using hSd
                have : a.lo d < b.hi d := lt_of_le_of_ne hd'.2 (fun h => hne h.symm)
                constructor <;> linarith
        have hpos' : 0 < order (cut dir S) := by
          by_contra hz
          have hall : ∀ d, cut dir S d = 0 := by
            intro d
            by_contra hd0
            exact hz (order_pos hd0)
          have hpq : p = q := by
            by_contra hne
            obtain ⟨d, hdis⟩ := Tree.leaves_disjoint h.reach.root.wf ha hb hal hbl hne
            have := hab' d
            rw [if_pos (hall d)] at this
            rcases hdis with h | h <;> linarith [this.1, this.2]
          subst hpq
          rw [ha, Option.some.injEq] at hb
          subst hb
          have := hab k
          rw [if_neg hk0] at this
          split at this <;> linarith [this.1, this.2]
        refine ih _ (by omega) (by omega) p a q b (cut dir S) hp ha hq hb (isDir_cut hd _) rfl hpos' hab' ?_
        intro d hdc
        rw [faceOf_cut S hdc]
        refine hexp d ?_
        simp only [cut] at hdc
        split at hdc
        · exact hdc
        · exact absurd rfl hdc

theorem ready_iff {away : Tree nd → (Fin nd → Int) → Bool} {st : St nd} (h : Consistent st) :
    Ready away st ↔ ∀ p a, Exists st p → get p st.root = some a → ReadyAt away st a := by
  constructor
  · intro hr p a hp ha
    refine ⟨fun dir => hr.faces p a dir hp ha, fun h3 dir hd ho hx => .inl (hr.edges h3 p a dir hp ha hd ho hx), ?_, fun dir => hr.facing p a dir hp ha⟩
    intro dir hd ho hexp q b hb hq hab
    obtain ⟨d, hd0, hn⟩ := hr.diagonals p a q b dir hp ha hq hb hd ho hab
    exact absurd (hexp d hd0) hn
  · intro hr
    refine ⟨fun p a dir hp ha => (hr p a hp ha).faces dir, ?_, ?_, fun p a dir hp ha => (hr p a hp ha).facing dir⟩
    · intro h3 p a dir hp ha hd ho hx
      rcases (hr p a hp ha).edges h3 dir hd ho hx with hh | hh
      · exact hh
      · right
        intro q b hb hbl hab hq
        exact no_diagonal h hr 2 (by omega) p a q b dir hp ha hq hb hd ho (by omega) hab hh
    · intro p a q b dir hp ha hq hb hd ho hab
      by_contra hn
      push Not at hn
      exact no_diagonal h hr (order dir) (by omega) p a q b dir hp ha hq hb hd rfl (by omega) hab hn

end Hexed.Adapt
