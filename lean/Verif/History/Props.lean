import Verif.History.Lemmas
set_option autoImplicit false
set_option linter.unusedVariables false

/-!
# A history monitor reports the bounds of the recent history (C26)
-/

namespace Hexed.History
noncomputable section

theorem listMin_spec (huge : ℝ) (l : List (Int × ℝ)) : (∀ s ∈ l, listMin huge l ≤ s.2) ∧ (listMin huge l = huge ∨ ∃ s ∈ l, listMin huge l = s.2) ∧ listMin huge l ≤ huge := by
  induction l using List.reverseRecOn with
  | nil => exact ⟨by simp, Or.inl rfl, le_refl _⟩
  | append_singleton l a ih =>
    have e : listMin huge (l ++ [a]) = min (listMin huge l) a.2 := by rw [listMin, List.foldl_append]; rfl
    rw [e]
    refine ⟨fun s hs => ?_, ?_, le_trans (min_le_left _ _) ih.2.2⟩
    · rcases List.mem_append.1 hs with hs | hs
      · exact le_trans (min_le_left _ _) (ih.1 s hs)
      · rw [List.mem_singleton.1 hs]; exact min_le_right _ _
    · rcases min_choice (listMin huge l) a.2 with h | h
      · rw [h]
        rcases ih.2.1 with h' | ⟨s, hs, h'⟩
        · exact Or.inl h'
        · exact Or.inr ⟨s, List.mem_append_left _ hs, h'⟩
      · rw [h]; exact Or.inr ⟨a, by simp, rfl⟩

theorem listMax_eq (huge : ℝ) (l : List (Int × ℝ)) : listMax huge l = -listMin huge (l.map fun s => (s.1, -s.2)) := by
  induction l using List.reverseRecOn with
  | nil => rfl
  | append_singleton l a ih =>
    rw [listMax, List.foldl_append, List.map_append, listMin, List.foldl_append]
    show max (listMax huge l) a.2 = -min (listMin huge _) (-a.2)
    rw [ih, ← max_neg_neg, neg_neg]

/-- C26: whatever samples have been supplied, `add_sample` always returns, and `min()` and `max()` are exactly the least and the greatest value
among the retained samples: the recorded ones inside the window, at most `max_samples` of them (the latest). The last recorded sample is
always among them. -/
theorem bounds_exact (huge win : ℝ) (N : Nat) (h0 : 0 < win) (h1 : win < 1) (hN : 0 < N) (h : List (Int × ℝ)) (hne : h ≠ []) (hh : ∀ s ∈ h, 0 ≤ s.1) (hv : ∀ s ∈ h, abs s.2 ≤ huge) :
    ∃ m F, (∀ fuel ≥ F, run huge fuel win N h = some m) ∧
      IsLeast {v | ∃ i, (i, v) ∈ lastN N (inWindow win (recorded (ratio win N) h))} m.min ∧
      IsGreatest {v | ∃ i, (i, v) ∈ lastN N (inWindow win (recorded (ratio win N) h))} m.max := by
  obtain ⟨m, F, hrun, hi⟩ := inv_step (huge := huge) h0 h1 hN h hh
  have hsub : ∀ h : List (Int × ℝ), ∀ s ∈ recorded (ratio win N) h, s ∈ h := by
    intro h
    induction h using List.reverseRecOn with
    | nil => simp [recorded]
    | append_singleton h s ih =>
      intro x hx
      rw [recorded, List.foldl_append] at hx
      simp only [List.foldl_cons, List.foldl_nil] at hx
      split at hx
      · exact List.mem_append_left _ (ih x hx)
      · rcases List.mem_append.1 hx with hx | hx
        · exact List.mem_append_left _ (ih x hx)
        · exact List.mem_append_right _ hx
  have hrne : ∀ h : List (Int × ℝ), h ≠ [] → recorded (ratio win N) h ≠ [] := by
    intro h
    induction h using List.reverseRecOn with
    | nil => intro h; exact absurd rfl h
    | append_singleton h s ih =>
      intro _
      rw [recorded, List.foldl_append]
      simp only [List.foldl_cons, List.foldl_nil]
      split
      · rename_i hc
        intro he
        obtain ⟨l, hl, _⟩ := hc
        rw [he] at hl; simp at hl
      · simp
  have hr := hrne h hne
  obtain ⟨b1, b2⟩ := hi.bounds hr
  set L := lastN N (inWindow win (recorded (ratio win N) h)) with hL
  have hLne : L ≠ [] := by
    have hl : (recorded (ratio win N) h).getLast hr ∈ (recorded (ratio win N) h).getLast? := by rw [List.getLast?_eq_some_getLast hr]; rfl
    have hmem : (recorded (ratio win N) h).getLast hr ∈ inWindow win (recorded (ratio win N) h) := by
      rw [inWindow, List.mem_filter]
      refine ⟨List.mem_of_mem_getLast? hl, ?_⟩
      simp only [decide_eq_true_eq]
      intro l' hl'
      have : l' = (recorded (ratio win N) h).getLast hr := by rw [Option.mem_def] at hl hl'; rw [hl] at hl'; exact (Option.some.inj hl').symm
      rw [this]; exact window_last h0 hi.nonneg hl
    have hpos := List.length_pos_of_mem hmem
    intro he
    have : L.length = 0 := by rw [he]; rfl
    rw [hL, lastN, List.length_drop] at this; omega
  have hLv : ∀ s ∈ L, abs s.2 ≤ huge := fun s hs => hv s (hsub h s (List.mem_of_mem_filter (List.mem_of_mem_drop hs)))
  obtain ⟨a, ha⟩ := List.exists_mem_of_ne_nil L hLne
  refine ⟨m, F, hrun, ⟨?_, ?_⟩, ⟨?_, ?_⟩⟩
  · obtain ⟨c1, c2, c3⟩ := listMin_spec huge L
    rw [b1]
    rcases c2 with c2 | ⟨s, hs, c2⟩
    · refine ⟨a.1, ?_⟩
      have : a.2 = listMin huge L := le_antisymm (by rw [c2]; exact (abs_le.1 (hLv a ha)).2) (c1 a ha)
      rw [← this]; exact ha
    · exact ⟨s.1, by rw [c2]; exact hs⟩
  · rintro v ⟨i, hiv⟩
    rw [b1]; exact (listMin_spec huge L).1 _ hiv
  · obtain ⟨c1, c2, c3⟩ := listMin_spec huge (L.map fun s => (s.1, -s.2))
    rw [b2, listMax_eq]
    rcases c2 with c2 | ⟨s, hs, c2⟩
    · refine ⟨a.1, ?_⟩
      have h1 := c1 (a.1, -a.2) (List.mem_map.2 ⟨a, ha, rfl⟩)
      have : a.2 = -listMin huge (L.map fun s => (s.1, -s.2)) := by
        have := (abs_le.1 (hLv a ha)).1
        simp only at h1
        linarith
      rw [← this]; exact ha
    · obtain ⟨t, ht, rfl⟩ := List.mem_map.1 hs
      refine ⟨t.1, ?_⟩
      rw [c2]; simp only [neg_neg]; exact ht
  · rintro v ⟨i, hiv⟩
    have := (listMin_spec huge (L.map fun s => (s.1, -s.2))).1 (i, -v) (List.mem_map.2 ⟨_, hiv, rfl⟩)
    rw [b2, listMax_eq]; simp only at this; linarith

/-- The last recorded sample is retained. -/
theorem last_retained (huge win : ℝ) (N : Nat) (h0 : 0 < win) (h1 : win < 1) (hN : 0 < N) (h : List (Int × ℝ)) (hh : ∀ s ∈ h, 0 ≤ s.1) (l : Int × ℝ) (hl : l ∈ (recorded (ratio win N) h).getLast?) :
    l ∈ lastN N (inWindow win (recorded (ratio win N) h)) := by
  obtain ⟨m, F, hrun, hi⟩ := inv_step (huge := huge) h0 h1 hN h hh
  set rec := recorded (ratio win N) h
  obtain ⟨ys, hys⟩ := List.getLast?_eq_some_iff.1 hl
  have e : inWindow win rec = (rec.dropLast.filter fun s => open Classical in decide (∀ l ∈ rec.getLast?, (l.1 : ℝ) * (1 - win) ≤ s.1)) ++ [l] := by
    rw [inWindow]
    conv_lhs => rw [hys]
    rw [List.filter_append, hys, List.dropLast_concat]
    congr 1
    rw [List.filter_cons_of_pos]
    · rfl
    · simp only [decide_eq_true_eq]
      intro l' hl'
      have : l' = l := by rw [List.getLast?_concat] at hl'; exact (Option.some.inj hl').symm
      rw [this]; exact window_last h0 hi.nonneg hl
  rw [e, lastN, List.drop_append_of_le_length]
  · simp
  · simp; omega

/-- C26: the samples recorded are dense: a supplied sample that is not recorded is at an iteration less than the factor `ratio` times that of
a recorded one (or at iteration 0). `ratio` to the power `max_samples` is the ratio of the two ends of the window. -/
theorem recorded_dense (win : ℝ) (N : Nat) (h0 : 0 < win) (h1 : win < 1) (hN : 0 < N) (h : List (Int × ℝ)) (hh : ∀ s ∈ h, 0 ≤ s.1) (s : Int × ℝ) (hs : s ∈ h) :
    s ∈ recorded (ratio win N) h ∨ s.1 = 0 ∨ ∃ l ∈ recorded (ratio win N) h, (s.1 : ℝ) < ratio win N * l.1 := by
  have hr := ratio_gt h0 h1 hN
  induction h using List.reverseRecOn with
  | nil => cases hs
  | append_singleton h x ih =>
    have hmono : ∀ y ∈ recorded (ratio win N) h, y ∈ recorded (ratio win N) (h ++ [x]) := by
      intro y hy
      rw [recorded, List.foldl_append]
      simp only [List.foldl_cons, List.foldl_nil]
      split
      · exact hy
      · exact List.mem_append_left _ hy
    rcases List.mem_append.1 hs with hs | hs
    · rcases ih (fun y hy => hh y (List.mem_append_left _ hy)) hs with h | h | ⟨l, hl, h⟩
      · exact Or.inl (hmono s h)
      · exact Or.inr (Or.inl h)
      · exact Or.inr (Or.inr ⟨l, hmono l hl, h⟩)
    · obtain rfl := List.mem_singleton.1 hs
      by_cases hc : ∃ l ∈ (recorded (ratio win N) h).getLast?, ¬ ∃ k : Nat, (l.1 : ℝ) < ratio win N ^ k ∧ ratio win N ^ k ≤ s.1
      · obtain ⟨l, hl, hno⟩ := hc
        by_cases hz : s.1 = 0
        · exact Or.inr (Or.inl hz)
        · have hs0 := hh s (by simp)
          have hs1 : (1 : ℝ) ≤ s.1 := by exact_mod_cast (by omega : (1 : Int) ≤ s.1)
          refine Or.inr (Or.inr ⟨l, hmono l (List.mem_of_mem_getLast? hl), ?_⟩)
          by_contra hcon
          rw [not_lt] at hcon
          -- the least power greater than l is at most ratio * l or 1
          obtain ⟨i, hi⟩ := pow_unbounded_of_one_lt (l.1 : ℝ) hr
          classical
          have hex : ∃ i : Nat, (l.1 : ℝ) < ratio win N ^ i := ⟨i, hi⟩
          refine hno ⟨Nat.find hex, Nat.find_spec hex, ?_⟩
          rcases Nat.eq_zero_or_pos (Nat.find hex) with hz | hp
          · rw [hz, pow_zero]; exact hs1
          · have := not_lt.1 (Nat.find_min hex (show Nat.find hex - 1 < Nat.find hex by omega))
            refine le_trans ?_ hcon
            calc ratio win N ^ Nat.find hex = ratio win N * ratio win N ^ (Nat.find hex - 1) := by rw [← pow_succ']; congr 1; omega
              _ ≤ ratio win N * l.1 := by nlinarith
      · left
        have erec : recorded (ratio win N) (h ++ [s]) = recorded (ratio win N) h ++ [s] := by rw [recorded, List.foldl_append]; exact if_neg hc
        rw [erec]; simp

/-- C26: at most one recorded sample in the window is forgotten for lack of space. -/
theorem at_most_one_missing (huge win : ℝ) (N : Nat) (h0 : 0 < win) (h1 : win < 1) (hN : 0 < N) (h : List (Int × ℝ)) (hh : ∀ s ∈ h, 0 ≤ s.1) :
    (inWindow win (recorded (ratio win N) h)).length ≤ (lastN N (inWindow win (recorded (ratio win N) h))).length + 1 := by
  have hr := ratio_gt h0 h1 hN
  have hpow := ratio_pow h1 hN
  set r := ratio win N
  -- consecutive recorded samples are separated by powers
  have sep : ∀ h : List (Int × ℝ), (∀ s ∈ h, 0 ≤ s.1) → ∃ ks : List Nat, ks.length = (recorded r h).length ∧ ks.Pairwise (· < ·) ∧
      ∀ i (hi : i < ks.length) (hi' : i < (recorded r h).length), (((recorded r h)[i].1 : ℝ) < r ^ ks[i]) ∧ (ks[i] = 0 ∨ r ^ (ks[i] - 1) ≤ ((recorded r h)[i].1 : ℝ)) := by
    intro h hh
    induction h using List.reverseRecOn with
    | nil => exact ⟨[], rfl, List.Pairwise.nil, fun i hi => by simp at hi⟩
    | append_singleton h s ih =>
      obtain ⟨ks, k1, k2, k3⟩ := ih fun x hx => hh x (List.mem_append_left _ hx)
      by_cases hc : ∃ l ∈ (recorded r h).getLast?, ¬ ∃ k : Nat, (l.1 : ℝ) < r ^ k ∧ r ^ k ≤ s.1
      · have erec : recorded r (h ++ [s]) = recorded r h := by rw [recorded, List.foldl_append]; exact if_pos hc
        rw [erec]; exact ⟨ks, k1, k2, k3⟩
      · have erec : recorded r (h ++ [s]) = recorded r h ++ [s] := by rw [recorded, List.foldl_append]; exact if_neg hc
        rw [erec]
        obtain ⟨i, hi⟩ := pow_unbounded_of_one_lt (s.1 : ℝ) hr
        classical
        have hex : ∃ i : Nat, (s.1 : ℝ) < r ^ i := ⟨i, hi⟩
        have hf1 := Nat.find_spec hex
        have hf2 : Nat.find hex = 0 ∨ r ^ (Nat.find hex - 1) ≤ (s.1 : ℝ) := by
          rcases Nat.eq_zero_or_pos (Nat.find hex) with hz | hp
          · exact Or.inl hz
          · exact Or.inr (not_lt.1 (Nat.find_min hex (show Nat.find hex - 1 < Nat.find hex by omega)))
        refine ⟨ks ++ [Nat.find hex], by simp [k1], ?_, ?_⟩
        · rw [List.pairwise_append]
          refine ⟨k2, List.pairwise_singleton _ _, fun a ha b hb => ?_⟩
          rw [List.mem_singleton.1 hb]
          -- a is at most the last of ks, which is below
          obtain ⟨j, hj, rfl⟩ := List.mem_iff_getElem.1 ha
          have hne : recorded r h ≠ [] := by intro he; rw [he] at k1; simp at k1; rw [k1] at hj; simp at hj
          have hlast : (recorded r h).getLast hne ∈ (recorded r h).getLast? := by rw [List.getLast?_eq_some_getLast hne]; rfl
          push Not at hc
          obtain ⟨k, c1, c2⟩ := hc _ hlast
          have hlen : (recorded r h).length - 1 < (recorded r h).length := by have := List.length_pos_iff.2 hne; omega
          obtain ⟨u1, u2⟩ := k3 ((recorded r h).length - 1) (by omega) hlen
          have e : (recorded r h).getLast hne = (recorded r h)[(recorded r h).length - 1] := List.getLast_eq_getElem hne
          rw [e] at c1
          have hle : ks[(recorded r h).length - 1] ≤ k := by
            rcases u2 with u2 | u2
            · omega
            · have := (pow_lt_pow_iff_right₀ hr).1 (lt_of_le_of_lt u2 c1); omega
          have hlt : k < Nat.find hex := (pow_lt_pow_iff_right₀ hr).1 (lt_of_le_of_lt c2 hf1)
          rcases Nat.lt_or_eq_of_le (show j ≤ (recorded r h).length - 1 by omega) with hj' | hj'
          · have := List.pairwise_iff_getElem.1 k2 j ((recorded r h).length - 1) hj (by omega) hj'; omega
          · subst hj'; omega
        · intro j hj hj'
          rcases Nat.lt_or_ge j ks.length with hlt | hge
          · rw [List.getElem_append_left hlt, List.getElem_append_left (by omega)]; exact k3 j hlt (by omega)
          · obtain rfl : j = ks.length := by simp at hj; omega
            have e1 : (ks ++ [Nat.find hex])[ks.length] = Nat.find hex := by simp
            have e2 : (recorded r h ++ [s])[ks.length]'hj' = s := by simp only [k1]; simp
            rw [e1, e2]; exact ⟨hf1, hf2⟩
  obtain ⟨m, F, hrun, hinv⟩ := inv_step (huge := huge) h0 h1 hN h hh
  obtain ⟨ks, k1, k2, k3⟩ := sep h hh
  set rec := recorded r h with hrec
  by_cases hne : rec = []
  · rw [hne]; simp [inWindow]
  have hlast : rec.getLast hne ∈ rec.getLast? := by rw [List.getLast?_eq_some_getLast hne]; rfl
  -- the window is a suffix
  classical
  set p : Int × ℝ → Bool := fun s => decide (∀ l ∈ rec.getLast?, (l.1 : ℝ) * (1 - win) ≤ s.1) with hp
  have hup : rec.Pairwise fun a b => p a = true → p b = true := by
    refine hinv.sorted.imp fun {a b} hab hpa => ?_
    simp only [hp, decide_eq_true_eq] at hpa ⊢
    intro l hl
    have : (a.1 : ℝ) < b.1 := by exact_mod_cast hab
    exact le_trans (hpa l hl) this.le
  have hsuf := filter_up p hup 0
  rw [List.drop_zero, Nat.zero_max] at hsuf
  have hw : inWindow win rec = rec.drop (cut p rec) := by rw [← hsuf]; rfl
  rw [lastN, List.length_drop]
  suffices hl : (inWindow win rec).length ≤ N + 1 by omega
  by_contra hcon
  rw [not_le] at hcon
  have hlen : (inWindow win rec).length = rec.length - cut p rec := by rw [hw, List.length_drop]
  set c := cut p rec
  have hc : c < rec.length := by omega
  have hmem : rec[c] ∈ inWindow win rec := by rw [hw, List.drop_eq_getElem_cons hc]; exact List.mem_cons_self
  have hin : (rec.getLast hne).1 * (1 - win) ≤ (rec[c].1 : ℝ) := by
    have := (List.mem_filter.1 hmem).2
    simp only [decide_eq_true_eq] at this
    exact this _ hlast
  have e : rec.getLast hne = rec[rec.length - 1] := List.getLast_eq_getElem hne
  rw [e] at hin
  obtain ⟨u1, u2⟩ := k3 c (by omega) hc
  obtain ⟨v1, v2⟩ := k3 (rec.length - 1) (by omega) (by omega)
  -- indices grow by at least one each
  have hgrow : ∀ d, (hd : c + d < ks.length) → ks[c]'(by omega) + d ≤ ks[c + d] := by
    intro d
    induction d with
    | zero => intro hd; simp
    | succ d ih =>
      intro hd
      have h1 := ih (by omega)
      have h2 := List.pairwise_iff_getElem.1 k2 (c + d) (c + (d + 1)) (by omega) hd (by omega)
      omega
  have hg := hgrow (rec.length - 1 - c) (by omega)
  have hidx : c + (rec.length - 1 - c) = rec.length - 1 := by omega
  simp only [hidx] at hg
  have hv2 : r ^ (ks[rec.length - 1] - 1) ≤ (rec[rec.length - 1].1 : ℝ) := by
    rcases v2 with v2 | v2
    · omega
    · exact v2
  have hbig : r ^ (ks[c] + N) ≤ (rec[rec.length - 1].1 : ℝ) := le_trans (pow_le_pow_right₀ hr.le (by omega)) hv2
  rw [pow_add] at hbig
  have h1w : 0 < 1 - win := by linarith
  have hlt : r ^ ks[c] ≤ (rec[rec.length - 1].1 : ℝ) * (1 - win) := by
    calc r ^ ks[c] = r ^ ks[c] * (r ^ N * (1 - win)) := by rw [hpow, mul_one]
      _ = r ^ ks[c] * r ^ N * (1 - win) := by ring
      _ ≤ _ := mul_le_mul_of_nonneg_right hbig h1w.le
  linarith

/-- Refuted: the bounds are not always over all recorded samples of the window, with one sample too few: window 1/2, one sample, values 5 and 7
at iterations 1 and 2. The window is iterations 1 to 2, both are recorded, but the minimum reported is 7. -/
theorem window_refuted (huge : ℝ) (hH : 7 ≤ huge) : ∃ m, (∃ F, ∀ fuel ≥ F, run huge fuel (1 / 2) 1 [(1, 5), (2, 7)] = some m) ∧ m.min = 7 ∧
    (1, 5) ∈ inWindow (1 / 2) (recorded (ratio (1 / 2) 1) [(1, 5), (2, 7)]) := by
  have hr : ratio (1 / 2) 1 = 2 := by rw [ratio]; norm_num
  have hrec : recorded (ratio (1 / 2) 1) [(1, 5), (2, 7)] = [(1, 5), (2, 7)] := by
    rw [hr, recorded]
    simp only [List.foldl_cons, List.foldl_nil]
    have e1 : ¬ ∃ l ∈ ([] : List (Int × ℝ)).getLast?, ¬ ∃ k : Nat, (l.1 : ℝ) < 2 ^ k ∧ (2 : ℝ) ^ k ≤ ((1 : Int) : ℝ) := by simp
    rw [if_neg e1]
    have e2 : ¬ ∃ l ∈ (([] : List (Int × ℝ)) ++ [(1, 5)]).getLast?, ¬ ∃ k : Nat, (l.1 : ℝ) < 2 ^ k ∧ (2 : ℝ) ^ k ≤ ((2 : Int) : ℝ) := by
      rintro ⟨l, hl, hno⟩
      simp only [List.nil_append, List.getLast?_singleton, Option.mem_def, Option.some.injEq] at hl
      subst hl
      exact hno ⟨1, by norm_num, by norm_num⟩
    rw [if_neg e2]; simp
  have hwin : inWindow (1 / 2) [((1 : Int), (5 : ℝ)), (2, 7)] = [(1, 5), (2, 7)] := by
    rw [inWindow, List.filter_eq_self]
    intro a ha
    simp only [List.mem_cons, List.not_mem_nil, or_false] at ha
    rcases ha with rfl | rfl <;> simp <;> norm_num
  obtain ⟨m, F, h1, h2, h3⟩ := bounds_exact huge (1 / 2) 1 (by norm_num) (by norm_num) (by norm_num) [(1, 5), (2, 7)] (by simp) (by simp) (by
    intro s hs
    simp only [List.mem_cons, List.not_mem_nil, or_false] at hs
    rcases hs with rfl | rfl
    · rw [abs_of_pos (by norm_num)]; simp only; linarith
    · rw [abs_of_pos (by norm_num)]; exact hH)
  rw [hrec, hwin] at h2
  refine ⟨m, ⟨F, h1⟩, ?_, by rw [hrec, hwin]; simp⟩
  obtain ⟨i, hi⟩ := h2.1
  simp [lastN] at hi
  exact hi.2

/-- Refuted: with a window of size 0 `add_sample` does not return for any positive iteration. -/
theorem zero_window_hangs (huge : ℝ) (N : Nat) (hN : 0 < N) (it : Int) (hit : 1 ≤ it) (v : ℝ) (fuel : Nat) : run huge fuel 0 N [(it, v)] = none := by
  have hraise : ∀ fuel (m : Monitor), m.win_sz = 0 → m.add_threshold = 1 → raise fuel it m = none := by
    intro fuel
    induction fuel with
    | zero => intros; rfl
    | succ f ih =>
      intro m h1 h2
      have : (1 : ℝ) ≤ it := by exact_mod_cast hit
      rw [raise, if_pos (by rw [h2]; exact this)]
      apply ih
      · exact h1
      · show m.add_threshold * _ = 1
        rw [h1, h2]; simp
  have hforget : ∀ fuel (m m' : Monitor), forget fuel it m = some m' → m'.win_sz = m.win_sz ∧ m'.add_threshold = m.add_threshold := by
    intro fuel
    induction fuel with
    | zero => intro m m' h; cases h
    | succ f ih =>
      intro m m' h
      rw [forget] at h
      split at h
      · have := ih _ _ h; exact ⟨this.1, this.2⟩
      · cases h; exact ⟨rfl, rfl⟩
  simp only [run, List.foldlM_cons, List.foldlM_nil, addSample]
  rw [if_neg (by simp [Monitor.new]), if_neg (by show ¬ N = 0; omega)]
  cases hf : forget fuel it _ with
  | none => rfl
  | some m' =>
    obtain ⟨a, b⟩ := hforget _ _ _ hf
    obtain ⟨_, _, _, _, _, c1, c2⟩ := bounds_fields huge m'
    have := hraise fuel (bounds huge m') (by rw [c1, a]; rfl) (by rw [c2, b]; rfl)
    simp [this]

/-! ## Non-vacuity -/

example : ∃ m F, (∀ fuel ≥ F, run 1000 fuel (3 / 10) 10 [(0, 1), (5, 2), (7, -3)] = some m) ∧
    IsLeast {v | ∃ i, (i, v) ∈ lastN 10 (inWindow (3 / 10) (recorded (ratio (3 / 10) 10) [(0, 1), (5, 2), (7, -3)]))} m.min ∧
    IsGreatest {v | ∃ i, (i, v) ∈ lastN 10 (inWindow (3 / 10) (recorded (ratio (3 / 10) 10) [(0, 1), (5, 2), (7, -3)]))} m.max :=
  bounds_exact 1000 (3 / 10) 10 (by norm_num) (by norm_num) (by norm_num) _ (by simp) (by simp) (by
    intro s hs
    simp only [List.mem_cons, List.not_mem_nil, or_false] at hs
    rcases hs with rfl | rfl | rfl <;> norm_num [abs_le])

end
end Hexed.History
