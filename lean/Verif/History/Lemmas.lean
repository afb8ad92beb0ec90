import Verif.History.Spec
import Mathlib.Tactic.Linarith
import Mathlib.Algebra.Order.Archimedean.Basic
set_option autoImplicit false
set_option linter.unusedVariables false

namespace Hexed.History
noncomputable section

/-! ## Suffixes of sorted lists -/

/-- The number of entries before the first one satisfying `p`. -/
def cut {α : Type} (p : α → Bool) : List α → Nat
  | [] => 0
  | a :: l => if p a then 0 else cut p l + 1

theorem drop_cut {α : Type} (p : α → Bool) (l : List α) : l.drop (cut p l) = l.dropWhile (fun a => !p a) := by
  induction l with
  | nil => rfl
  | cons a l ih => cases h : p a <;> simp [cut, h, ih, List.dropWhile]

theorem filter_up {α : Type} (p : α → Bool) {l : List α} (h : l.Pairwise fun a b => p a = true → p b = true) (k : Nat) :
    (l.drop k).filter p = l.drop (max k (cut p l)) := by
  induction l generalizing k with
  | nil => simp
  | cons a l ih =>
    rw [List.pairwise_cons] at h
    cases hp : p a with
    | true =>
      have hall : ∀ b ∈ (a :: l).drop k, p b = true := by
        intro b hb
        rcases List.mem_cons.1 (List.mem_of_mem_drop hb) with rfl | hb
        · exact hp
        · exact h.1 b hb hp
      rw [List.filter_eq_self.2 hall, cut, if_pos hp, Nat.max_zero]
    | false =>
      have e : cut p (a :: l) = cut p l + 1 := by rw [cut]; simp [hp]
      cases k with
      | zero =>
        have := ih h.2 0
        rw [List.drop_zero] at this
        rw [e, List.drop_zero, List.filter_cons_of_neg (by simp [hp]), this, Nat.zero_max, Nat.zero_max, List.drop_succ_cons]
      | succ k => rw [e, List.drop_succ_cons, ih h.2 k, Nat.add_max_add_right, List.drop_succ_cons]

theorem lastN_filter {α : Type} (p : α → Bool) {l : List α} (h : l.Pairwise fun a b => p a = true → p b = true) (N : Nat) :
    (lastN N l).filter p = lastN N (l.filter p) := by
  have e := filter_up p h 0
  rw [List.drop_zero, Nat.zero_max] at e
  rw [lastN, filter_up p h, e, lastN, List.length_drop, List.drop_drop]
  congr 1; omega

theorem lastN_append_lastN {α : Type} (N : Nat) (l : List α) (a : α) : lastN N (lastN N l ++ [a]) = lastN N (l ++ [a]) := by
  simp only [lastN, List.length_append, List.length_drop, List.length_singleton]
  rcases Nat.lt_or_ge N l.length |>.symm with h | h
  · rw [show l.length - N = 0 by omega, List.drop_zero, Nat.sub_zero]
  · rw [show l.length - (l.length - N) + 1 - N = 1 by omega, List.drop_append, List.drop_append, List.drop_drop, List.length_drop]
    congr 1
    · congr 1; omega
    · congr 1; omega

/-! ## The ring buffer -/

/-- The entries of the ring buffer from the oldest. -/
def entries (m : Monitor) (k : Nat) : List (Int × ℝ) :=
  (List.range k).map fun o => (m.iterations ((m.start + o) % m.samples), m.values ((m.start + o) % m.samples))

theorem entries_cons (m : Monitor) (k : Nat) : entries m (k + 1) = (m.iterations (m.start % m.samples), m.values (m.start % m.samples)) ::
    entries { m with start := (m.start + 1) % m.samples, sz := m.sz - 1 } k := by
  rw [entries, List.range_succ_eq_map, List.map_cons, List.map_map, entries]
  congr 1
  refine List.map_congr_left fun o _ => ?_
  simp only [Function.comp, Nat.succ_eq_add_one]
  rw [Nat.mod_add_mod, show m.start + 1 + o = m.start + (o + 1) by omega]

theorem forget_spec (it : Int) (k : Nat) : ∀ (m : Monitor) (fuel : Nat), m.sz = (k : Int) → k ≤ m.samples → m.start < m.samples → k < fuel →
    (∃ s ∈ entries m k, ¬ ((s.1 : ℝ) < it * (1 - m.win_sz))) →
    ∃ (m' : Monitor) (k' : Nat), forget fuel it m = some m' ∧ m'.sz = (k' : Int) ∧ k' ≤ k ∧ 0 < k' ∧ m'.start < m'.samples ∧
      entries m' k' = (entries m k).drop (cut (fun s => open Classical in decide ((it : ℝ) * (1 - m.win_sz) ≤ s.1)) (entries m k)) ∧
      m'.samples = m.samples ∧ m'.win_sz = m.win_sz ∧ m'.add_threshold = m.add_threshold := by
  induction k with
  | zero => intro m fuel _ _ _ _ ⟨s, hs, _⟩; simp [entries] at hs
  | succ k ih =>
    intro m fuel hsz hk hst hf hex
    obtain ⟨f, rfl⟩ : ∃ f, fuel = f + 1 := ⟨fuel - 1, by omega⟩
    have hm : m.start % m.samples = m.start := Nat.mod_eq_of_lt hst
    have he := entries_cons m k
    rw [hm] at he
    by_cases hlt : (m.iterations m.start : ℝ) < it * (1 - m.win_sz)
    · obtain ⟨m', k', a, b, c, d, e, f', g1, g2, g3⟩ := ih { m with start := (m.start + 1) % m.samples, sz := m.sz - 1 } f
        (by show m.sz - 1 = _; rw [hsz]; push_cast; ring) (by show k ≤ m.samples; omega) (Nat.mod_lt _ (by omega)) (by omega) (by
          obtain ⟨s, hs, h⟩ := hex
          rw [he] at hs
          rcases List.mem_cons.1 hs with rfl | hs
          · exact absurd hlt h
          · exact ⟨s, hs, h⟩)
      refine ⟨m', k', ?_, b, by omega, d, e, ?_, g1, g2, g3⟩
      · rw [forget, if_pos (Or.inr hlt)]; exact a
      · rw [f', he, cut, if_neg (by simpa using hlt), List.drop_succ_cons]
    · refine ⟨m, k + 1, ?_, hsz, le_refl _, by omega, hst, ?_, rfl, rfl, rfl⟩
      · rw [forget, if_neg]
        rintro (h | h)
        · rw [hsz] at h; push_cast at h; omega
        · exact hlt h
      · rw [he, cut, if_pos (by simpa using hlt), List.drop_zero]

theorem forget_mono {f f' : Nat} (h : f ≤ f') {it : Int} {m m' : Monitor} (hm : forget f it m = some m') : forget f' it m = some m' := by
  induction f generalizing f' m with
  | zero => cases hm
  | succ f ih =>
    obtain ⟨g, rfl⟩ : ∃ g, f' = g + 1 := ⟨f' - 1, by omega⟩
    rw [forget] at hm ⊢
    split
    · rw [if_pos (by assumption)] at hm; exact ih (by omega) hm
    · rw [if_neg (by assumption)] at hm; exact hm

theorem bounds_fields (huge : ℝ) (m : Monitor) : (bounds huge m).samples = m.samples ∧ (bounds huge m).start = m.start ∧ (bounds huge m).sz = m.sz ∧
    (bounds huge m).iterations = m.iterations ∧ (bounds huge m).values = m.values ∧ (bounds huge m).win_sz = m.win_sz ∧ (bounds huge m).add_threshold = m.add_threshold := by
  rw [bounds]
  generalize m.sz.toNat = n
  induction n with
  | zero => exact ⟨rfl, rfl, rfl, rfl, rfl, rfl, rfl⟩
  | succ n ih => rw [List.range_succ, List.foldl_append]; exact ih

/-- The least value of a list, or `huge`. -/
def listMin (huge : ℝ) (l : List (Int × ℝ)) : ℝ := l.foldl (fun a s => min a s.2) huge
def listMax (huge : ℝ) (l : List (Int × ℝ)) : ℝ := l.foldl (fun a s => max a s.2) (-huge)

theorem bounds_minmax (huge : ℝ) (m : Monitor) : (bounds huge m).min = listMin huge (entries m m.sz.toNat) ∧ (bounds huge m).max = listMax huge (entries m m.sz.toNat) := by
  rw [bounds]
  generalize m.sz.toNat = n
  have fields : ∀ n, let b := (List.range n).foldl (fun m offset =>
      let ind := (m.start + offset) % m.samples
      { m with min := Min.min m.min (m.values ind), max := Max.max m.max (m.values ind) }) { m with min := huge, max := -huge }
      b.start = m.start ∧ b.samples = m.samples ∧ b.values = m.values := by
    intro n
    induction n with
    | zero => exact ⟨rfl, rfl, rfl⟩
    | succ n ih => rw [List.range_succ, List.foldl_append]; exact ih
  induction n with
  | zero => exact ⟨rfl, rfl⟩
  | succ n ih =>
    obtain ⟨f1, f2, f3⟩ := fields n
    have he : entries m (n + 1) = entries m n ++ [(m.iterations ((m.start + n) % m.samples), m.values ((m.start + n) % m.samples))] := by
      rw [entries, List.range_succ, List.map_append]; rfl
    rw [List.range_succ, List.foldl_append, he, listMin, listMax, List.foldl_append, List.foldl_append]
    constructor
    · show min _ _ = min _ _
      rw [ih.1, f1, f2, f3]; rfl
    · show max _ _ = max _ _
      rw [ih.2, f1, f2, f3]; rfl

theorem raise_spec (r : ℝ) (hr : 1 < r) (it : Int) (k : Nat) : ∀ (m : Monitor) (fuel : Nat), (1 / (1 - m.win_sz)) ^ (1 / (m.samples : ℝ)) = r → (∀ j < k, m.add_threshold * r ^ j ≤ it) →
    (it : ℝ) < m.add_threshold * r ^ k → k < fuel → raise fuel it m = some { m with add_threshold := m.add_threshold * r ^ k } := by
  induction k with
  | zero =>
    intro m fuel hm _ h hf
    obtain ⟨f, rfl⟩ : ∃ f, fuel = f + 1 := ⟨fuel - 1, by omega⟩
    rw [pow_zero, mul_one] at h
    rw [raise, if_neg (not_le.2 h), pow_zero, mul_one]
  | succ k ih =>
    intro m fuel hm hj h hf
    obtain ⟨f, rfl⟩ : ∃ f, fuel = f + 1 := ⟨fuel - 1, by omega⟩
    have h0 := hj 0 (by omega)
    rw [pow_zero, mul_one] at h0
    rw [raise, if_pos h0, hm, ih { m with add_threshold := m.add_threshold * r } f hm]
    · simp only [pow_succ', mul_assoc]
    · intro j hjk
      have := hj (j + 1) (by omega)
      rw [pow_succ', ← mul_assoc] at this; exact this
    · rw [pow_succ', ← mul_assoc] at h; exact h
    · omega

theorem ratio_gt {win : ℝ} {N : Nat} (h0 : 0 < win) (h1 : win < 1) (hN : 0 < N) : 1 < ratio win N := by
  refine Real.one_lt_rpow ?_ (by positivity)
  rw [lt_div_iff₀ (by linarith)]; linarith

theorem ratio_pow {win : ℝ} {N : Nat} (h1 : win < 1) (hN : 0 < N) : ratio win N ^ N * (1 - win) = 1 := by
  have : 0 < 1 - win := by linarith
  rw [ratio, ← Real.rpow_natCast, ← Real.rpow_mul (by positivity), one_div_mul_cancel (by positivity), Real.rpow_one]
  field_simp

/-! ## The invariant -/

structure Inv (huge win : ℝ) (N : Nat) (m : Monitor) (rec : List (Int × ℝ)) : Prop where
  samples : m.samples = N
  win_sz : m.win_sz = win
  start : m.start < N
  sz : m.sz = ((lastN N (inWindow win rec)).length : Int)
  entries : entries m (lastN N (inWindow win rec)).length = lastN N (inWindow win rec)
  nonneg : ∀ s ∈ rec, 0 ≤ s.1
  sorted : rec.Pairwise fun a b => a.1 < b.1
  thr : ∃ k : Nat, m.add_threshold = ratio win N ^ k ∧ (rec = [] → k = 0) ∧ ∀ l ∈ rec.getLast?, (l.1 : ℝ) < ratio win N ^ k ∧ (k = 0 ∨ ratio win N ^ (k - 1) ≤ l.1)
  bounds : rec ≠ [] → m.min = listMin huge (lastN N (inWindow win rec)) ∧ m.max = listMax huge (lastN N (inWindow win rec))

theorem lastN_length {α : Type} (N : Nat) (l : List α) : (lastN N l).length ≤ N := by rw [lastN, List.length_drop]; omega

theorem window_last {win : ℝ} (h0 : 0 < win) {rec : List (Int × ℝ)} (hn : ∀ s ∈ rec, 0 ≤ s.1) {l : Int × ℝ} (hl : l ∈ rec.getLast?) : (l.1 : ℝ) * (1 - win) ≤ l.1 := by
  have : (0 : ℝ) ≤ l.1 := by exact_mod_cast hn l (List.mem_of_mem_getLast? hl)
  nlinarith

/-- Recording one more sample. -/
theorem inv_record {huge win : ℝ} {N : Nat} (h0 : 0 < win) (h1 : win < 1) (hN : 0 < N) {m : Monitor} {rec : List (Int × ℝ)} (hi : Inv huge win N m rec) (it : Int) (v : ℝ) (hit : 0 ≤ it)
    (hacc : rec = [] ∨ m.add_threshold ≤ it) :
    ∃ m' F, (∀ fuel ≥ F, addSample huge fuel m it v = some m') ∧ Inv huge win N m' (rec ++ [(it, v)]) := by
  have hr := ratio_gt h0 h1 hN
  set L := lastN N (inWindow win rec) with hL
  have hlast : ∀ l ∈ rec.getLast?, l.1 < it := by
    intro l hl
    obtain ⟨k, e1, _, e2⟩ := hi.thr
    have h := (e2 l hl).1
    rcases hacc with rfl | hacc
    · simp at hl
    · rw [e1] at hacc; exact_mod_cast lt_of_lt_of_le h hacc
  have hall : ∀ s ∈ rec, s.1 < it := by
    intro s hs
    have hne : rec ≠ [] := fun h => by rw [h] at hs; cases hs
    have hl := hlast (rec.getLast hne) (by rw [List.getLast?_eq_some_getLast hne]; rfl)
    rcases List.mem_iff_append.1 hs with ⟨a, b, e⟩
    cases b with
    | nil => have : rec.getLast hne = s := by simp [e]
             rw [← this]; exact hl
    | cons c b =>
      have hm : rec.getLast hne ∈ c :: b := by
        have : rec.getLast hne = (c :: b).getLast (by simp) := by simp [e]
        rw [this]; exact List.getLast_mem _
      have hp := hi.sorted
      rw [e, List.pairwise_append, List.pairwise_cons] at hp
      exact lt_trans (hp.2.1.1 _ hm) hl
  have hsorted : (rec ++ [(it, v)]).Pairwise fun a b => a.1 < b.1 := by
    rw [List.pairwise_append]
    exact ⟨hi.sorted, List.pairwise_singleton _ _, fun a ha b hb => by rw [List.mem_singleton.1 hb]; exact hall a ha⟩
  have hnonneg : ∀ s ∈ rec ++ [(it, v)], 0 ≤ s.1 := by
    intro s hs
    rcases List.mem_append.1 hs with hs | hs
    · exact hi.nonneg s hs
    · rw [List.mem_singleton.1 hs]; exact hit
  -- the entries after writing
  set fin := (m.start + m.sz.toNat) % m.samples with hfin
  set m1 : Monitor := { m with iterations := fun i => if i = fin then it else m.iterations i, values := fun i => if i = fin then v else m.values i, sz := m.sz + 1 } with hm1
  have hLN : L.length ≤ N := lastN_length N _
  have hsz : m.sz.toNat = L.length := by rw [hi.sz, Int.toNat_natCast]
  have hmod : ∀ o < N, (m.start + o) % N = (m.start + L.length) % N → o = L.length % N := by
    intro o ho he
    have : o % N = L.length % N := Nat.ModEq.add_left_cancel' m.start he
    rwa [Nat.mod_eq_of_lt ho] at this
  have hit1 : ∀ i, i ≠ fin → m1.iterations i = m.iterations i ∧ m1.values i = m.values i := by intro i hi; simp [hm1, hi]
  have hit2 : m1.iterations fin = it ∧ m1.values fin = v := by simp [hm1]
  have hst1 : m1.start = m.start := rfl
  have hsa1 : m1.samples = N := hi.samples
  have hsa : m.samples = N := hi.samples
  have hfin' : fin = (m.start + L.length) % N := by rw [hfin, hsa, hsz]
  -- after one removal if the buffer was full
  have hC : ∃ m2 : Monitor, ∃ k : Nat, m2.sz = (k : Int) ∧ k ≤ N ∧ 0 < k ∧ m2.start < N ∧ entries m2 k = lastN N (L ++ [(it, v)]) ∧ m2.samples = N ∧ m2.win_sz = win ∧
      m2.add_threshold = m.add_threshold ∧ ∃ d, ∀ fuel, forget (fuel + d) it m1 = forget fuel it m2 := by
    rcases Nat.lt_or_eq_of_le hLN with hlt | heq
    · refine ⟨m1, L.length + 1, ?_, by omega, by omega, hi.start, ?_, hsa1, hi.win_sz, rfl, 0, fun _ => rfl⟩
      · show m.sz + 1 = _; rw [hi.sz]; push_cast; rfl
      · have e : entries m1 (L.length + 1) = entries m L.length ++ [(it, v)] := by
          rw [entries, List.range_succ, List.map_append, entries]
          congr 1
          · refine List.map_congr_left fun o ho => ?_
            have ho := List.mem_range.1 ho
            have hne : (m.start + o) % N ≠ fin := by
              rw [hfin']; intro h
              have := hmod o (by omega) h
              rw [Nat.mod_eq_of_lt hlt] at this; omega
            rw [hst1, hsa1, (hit1 _ hne).1, (hit1 _ hne).2]
          · rw [List.map_singleton, hst1, hsa1, ← hfin', hit2.1, hit2.2]
        rw [e, hi.entries, ← hL, lastN, List.length_append, List.length_singleton, show L.length + 1 - N = 0 by omega, List.drop_zero]
    · obtain ⟨n, rfl⟩ : ∃ n, N = n + 1 := ⟨N - 1, by omega⟩
      have hfull : m1.sz > m1.samples := by
        show m.sz + 1 > (m.samples : Int); rw [hi.sz, hsa, ← hL, heq]; push_cast; omega
      refine ⟨{ m1 with start := (m1.start + 1) % m1.samples, sz := m1.sz - 1 }, n + 1, ?_, le_refl _, by omega, ?_, ?_, hsa1, hi.win_sz, rfl, 1, fun fuel => ?_⟩
      · show m.sz + 1 - 1 = _; rw [hi.sz, ← hL, heq]; push_cast; ring
      · show (m.start + 1) % m.samples < n + 1; rw [hsa]; exact Nat.mod_lt _ (by omega)
      · have e := entries_cons m n
        have hLe : entries m (n + 1) = L := by rw [← heq]; exact hi.entries
        rw [hLe] at e
        have e2 : entries { m1 with start := (m1.start + 1) % m1.samples, sz := m1.sz - 1 } (n + 1) = entries { m with start := (m.start + 1) % m.samples, sz := m.sz - 1 } n ++ [(it, v)] := by
          rw [entries, List.range_succ, List.map_append, entries]
          congr 1
          · refine List.map_congr_left fun o ho => ?_
            have ho := List.mem_range.1 ho
            have hne : ((m.start + 1) % m.samples + o) % m.samples ≠ fin := by
              rw [hfin', hsa, Nat.mod_add_mod, show m.start + 1 + o = m.start + (o + 1) by omega]; intro h
              have := hmod (o + 1) (by omega) h
              rw [heq, Nat.mod_self] at this; omega
            show (m1.iterations (((m.start + 1) % m.samples + o) % m.samples), m1.values (((m.start + 1) % m.samples + o) % m.samples)) = _
            rw [(hit1 _ hne).1, (hit1 _ hne).2]
          · have hidx : ((m.start + 1) % m.samples + n) % m.samples = fin := by
              rw [hfin', heq, hsa, Nat.mod_add_mod, show m.start + 1 + n = m.start + (n + 1) by omega]
            rw [List.map_singleton]
            show [(m1.iterations (((m.start + 1) % m.samples + n) % m.samples), m1.values (((m.start + 1) % m.samples + n) % m.samples))] = _
            rw [hidx, hit2.1, hit2.2]
        rw [e2, lastN, List.length_append, heq, List.length_singleton, show n + 1 + 1 - (n + 1) = 1 by omega, e]
        rfl
      · rw [forget, if_pos (Or.inl hfull)]
  obtain ⟨m2, k, c1, c2, c3, c4, c5, c6, c7, c8, d, c9⟩ := hC
  have hlen : k = (lastN N (L ++ [(it, v)])).length := by rw [← c5]; simp [entries]
  classical
  set p : Int × ℝ → Bool := fun s => decide ((it : ℝ) * (1 - win) ≤ s.1) with hp
  have hself : p (it, v) = true := by
    have : (0 : ℝ) ≤ it := by exact_mod_cast hit
    simp only [hp, decide_eq_true_eq]; nlinarith
  have hmem : (it, v) ∈ lastN N (L ++ [(it, v)]) := by
    rw [lastN, List.length_append, List.length_singleton]
    rw [List.drop_append_of_le_length (by omega)]
    exact List.mem_append_right _ (List.mem_singleton.2 rfl)
  obtain ⟨m3, k3, f1, f2, f3, f4, f5, f6, f7, f8, f9⟩ := forget_spec it k m2 (k + 1) c1 (by omega) (by omega) (by omega)
    ⟨(it, v), by rw [c5]; exact hmem, by rw [c7]; simpa [hp] using hself⟩
  have hforget : ∀ fuel ≥ k + 1 + d, forget fuel it m1 = some m3 := by
    intro fuel hf
    obtain ⟨m3', k3', g1, g2, g3, g4, g5, g6, g7, g8, g9⟩ := forget_spec it k m2 (fuel - d) c1 (by omega) (by omega) (by omega)
      ⟨(it, v), by rw [c5]; exact hmem, by rw [c7]; simpa [hp] using hself⟩
    rw [show fuel = (fuel - d) + d by omega, c9]
    exact forget_mono (by omega : k + 1 ≤ fuel - d) f1
  rw [c7, c5] at f6
  have upw : ∀ l : List (Int × ℝ), (l.Pairwise fun a b => a.1 < b.1) → l.Pairwise fun a b => p a = true → p b = true := by
    intro l hl
    refine hl.imp fun {a b} h hpa => ?_
    simp only [hp, decide_eq_true_eq] at hpa ⊢
    have : (a.1 : ℝ) < b.1 := by exact_mod_cast h
    linarith
  have hsubL : (L ++ [(it, v)]).Sublist (rec ++ [(it, v)]) := by
    refine List.Sublist.append_right ?_ _
    exact (List.drop_sublist _ _).trans List.filter_sublist
  have hpwL := upw _ (hsorted.sublist hsubL)
  have hres : entries m3 k3 = lastN N (inWindow win (rec ++ [(it, v)])) := by
    have e := filter_up p (hpwL.sublist (List.drop_sublist ((L ++ [(it, v)]).length - N) _)) 0
    rw [List.drop_zero, Nat.zero_max] at e
    rw [f6]
    have e' : (lastN N (L ++ [(it, v)])).drop (cut p (lastN N (L ++ [(it, v)]))) = (lastN N (L ++ [(it, v)])).filter p := e.symm
    rw [e', hL, lastN_append_lastN, lastN_filter p (l := inWindow win rec ++ [(it, v)]) (upw _ (hsorted.sublist (List.Sublist.append_right List.filter_sublist _)))]
    congr 1
    rw [inWindow, inWindow, List.getLast?_append, List.getLast?_singleton, List.filter_append, List.filter_append]
    have hb : ∀ s : Int × ℝ, (∀ l ∈ (some (it, v)).or rec.getLast?, (l.1 : ℝ) * (1 - win) ≤ s.1) ↔ p s = true := by
      intro s; simp [hp]
    have hb' : (fun s : Int × ℝ => decide (∀ l ∈ (some (it, v)).or rec.getLast?, (l.1 : ℝ) * (1 - win) ≤ s.1)) = p := by
      funext s; rw [Bool.eq_iff_iff, decide_eq_true_iff]; exact hb s
    rw [hb', List.filter_filter]
    congr 1
    refine List.filter_congr fun s hs => ?_
    cases hps : p s with
    | false => simp
    | true =>
      simp only [Bool.true_and, decide_eq_true_eq]
      intro l hl
      have h2 : (l.1 : ℝ) < it := by exact_mod_cast hlast l hl
      have h3 : (it : ℝ) * (1 - win) ≤ s.1 := by simpa [hp] using hps
      nlinarith
  have hlen3 : k3 = (lastN N (inWindow win (rec ++ [(it, v)]))).length := by rw [← hres]; simp [entries]
  -- the threshold
  obtain ⟨j, t1, t2, t3⟩ := hi.thr
  have hex : ∃ i : Nat, (it : ℝ) < ratio win N ^ j * ratio win N ^ i := by
    obtain ⟨i, hi'⟩ := pow_unbounded_of_one_lt (it : ℝ) hr
    refine ⟨i, lt_of_lt_of_le hi' ?_⟩
    have : 1 ≤ ratio win N ^ j := one_le_pow₀ hr.le
    have : 0 < ratio win N ^ i := pow_pos (by linarith) _
    nlinarith
  set i := Nat.find hex with hidef
  have i1 : (it : ℝ) < ratio win N ^ j * ratio win N ^ i := Nat.find_spec hex
  have i2 : ∀ a < i, ratio win N ^ j * ratio win N ^ a ≤ it := fun a ha => not_lt.1 (Nat.find_min hex ha)
  obtain ⟨b1, b2, b3, b4, b5, b6, b7⟩ := bounds_fields huge m3
  obtain ⟨bm1, bm2⟩ := bounds_minmax huge m3
  have hthr : (bounds huge m3).add_threshold = ratio win N ^ j := by rw [b7, f9, c8, t1]
  have hrw : (1 / (1 - (bounds huge m3).win_sz)) ^ (1 / ((bounds huge m3).samples : ℝ)) = ratio win N := by rw [b6, b1, f8, f7, c7, c6]; rfl
  refine ⟨{ bounds huge m3 with add_threshold := ratio win N ^ j * ratio win N ^ i }, k + 1 + d + i + 1, fun fuel hf => ?_, ?_⟩
  · have hgo : ¬ (m.sz ≠ 0 ∧ (it : ℝ) < m.add_threshold) := by
      rintro ⟨g1, g2⟩
      rcases hacc with rfl | hacc
      · apply g1; rw [hi.sz]; simp [inWindow, lastN]
      · linarith
    rw [addSample, if_neg hgo, if_neg (by rw [hsa]; omega)]
    show (forget fuel it m1).bind _ = _
    rw [hforget fuel (by omega), Option.bind_some, raise_spec (ratio win N) hr it i _ fuel hrw (by rw [hthr]; exact i2) (by rw [hthr]; exact i1) (by omega), hthr]
  · refine ⟨?_, ?_, ?_, ?_, ?_, hnonneg, hsorted, ⟨j + i, ?_, ?_, ?_⟩, fun _ => ?_⟩
    · show (bounds huge m3).samples = N; rw [b1, f7, c6]
    · show (bounds huge m3).win_sz = win; rw [b6, f8, c7]
    · show (bounds huge m3).start < N; rw [b2]; rw [f7, c6] at f5; exact f5
    · show (bounds huge m3).sz = _; rw [b3, f2, hlen3]
    · rw [← hlen3]
      have : entries { bounds huge m3 with add_threshold := ratio win N ^ j * ratio win N ^ i } k3 = entries m3 k3 := by
        simp only [entries, b1, b2, b4, b5]
      rw [this, hres]
    · rw [pow_add]
    · intro h; simp at h
    · intro l hl
      rw [List.getLast?_append, List.getLast?_singleton] at hl
      obtain rfl : (it, v) = l := by simpa using hl
      refine ⟨by rw [pow_add]; exact i1, ?_⟩
      by_cases h : i = 0
      · rw [h, Nat.add_zero]
        rcases hacc with rfl | hacc
        · exact Or.inl (t2 rfl)
        · rw [t1] at hacc; rw [h, pow_zero, mul_one] at i1; linarith
      · right
        rw [show j + i - 1 = j + (i - 1) by omega, pow_add]; exact i2 (i - 1) (by omega)
    · have hz : m3.sz.toNat = k3 := by rw [f2, Int.toNat_natCast]
      rw [hz, hres] at bm1 bm2
      exact ⟨bm1, bm2⟩

theorem inv_step {huge win : ℝ} {N : Nat} (h0 : 0 < win) (h1 : win < 1) (hN : 0 < N) (h : List (Int × ℝ)) (hh : ∀ s ∈ h, 0 ≤ s.1) :
    ∃ m F, (∀ fuel ≥ F, run huge fuel win N h = some m) ∧ Inv huge win N m (recorded (ratio win N) h) := by
  induction h using List.reverseRecOn with
  | nil =>
    refine ⟨_, 0, fun _ _ => rfl, rfl, rfl, hN, by simp [Monitor.new, recorded, inWindow, lastN], by simp [entries, recorded, inWindow, lastN], fun s hs => absurd hs (by simp [recorded]), by simp [recorded], ⟨0, by simp [Monitor.new], fun _ => rfl, by simp [recorded]⟩, fun h => absurd rfl h⟩
  | append_singleton h s ih =>
    obtain ⟨m, F, hrun, hi⟩ := ih fun x hx => hh x (List.mem_append_left _ hx)
    have hs := hh s (by simp)
    have hr := ratio_gt h0 h1 hN
    have e : ∀ fuel ≥ F, run huge fuel win N (h ++ [s]) = addSample huge fuel m s.1 s.2 := by
      intro fuel hf
      have := hrun fuel hf
      rw [run] at this
      rw [run, List.foldlM_append, this]
      show (List.foldlM (fun m s => addSample huge fuel m s.1 s.2) m [s]) = _
      simp
    obtain ⟨k, t1, t2, t3⟩ := hi.thr
    by_cases hc : ∃ l ∈ (recorded (ratio win N) h).getLast?, ¬ ∃ k : Nat, (l.1 : ℝ) < ratio win N ^ k ∧ ratio win N ^ k ≤ s.1
    · have erec : recorded (ratio win N) (h ++ [s]) = recorded (ratio win N) h := by
        rw [recorded, List.foldl_append]; exact if_pos hc
      obtain ⟨l, hl, hno⟩ := hc
      have hne : recorded (ratio win N) h ≠ [] := fun h => by rw [h] at hl; simp at hl
      refine ⟨m, F, fun fuel hf => ?_, by rw [erec]; exact hi⟩
      rw [e fuel hf, addSample, if_pos]
      refine ⟨?_, ?_⟩
      · have hmem : l ∈ inWindow win (recorded (ratio win N) h) := by
          rw [inWindow, List.mem_filter]
          refine ⟨List.mem_of_mem_getLast? hl, ?_⟩
          simp only [decide_eq_true_eq]
          intro l' hl'
          have : l' = l := by rw [Option.mem_def] at hl hl'; rw [hl] at hl'; exact (Option.some.inj hl').symm
          rw [this]; exact window_last h0 hi.nonneg hl
        have hpos := List.length_pos_of_mem hmem
        rw [hi.sz, lastN, List.length_drop]; push_cast; omega
      · rw [t1]
        by_contra hcon
        exact hno ⟨k, (t3 l hl).1, not_lt.1 hcon⟩
    · have erec : recorded (ratio win N) (h ++ [s]) = recorded (ratio win N) h ++ [s] := by
        rw [recorded, List.foldl_append]; exact if_neg hc
      obtain ⟨m', F', hrun', hi'⟩ := inv_record h0 h1 hN hi s.1 s.2 hs (by
        by_cases hne : recorded (ratio win N) h = []
        · exact Or.inl hne
        · right
          push Not at hc
          have hl : (recorded (ratio win N) h).getLast hne ∈ (recorded (ratio win N) h).getLast? := by rw [List.getLast?_eq_some_getLast hne]; rfl
          obtain ⟨k', hk1, hk2⟩ := hc _ hl
          obtain ⟨u1, u2⟩ := t3 _ hl
          rw [t1]
          refine le_trans ?_ hk2
          rcases u2 with rfl | u2
          · rw [pow_zero]; exact one_le_pow₀ hr.le
          · have := (pow_lt_pow_iff_right₀ hr).1 (lt_of_le_of_lt u2 hk1)
            exact pow_le_pow_right₀ hr.le (by omega))
      exact ⟨m', max F F', fun fuel hf => by rw [e fuel (le_trans (le_max_left _ _) hf)]; exact hrun' fuel (le_trans (le_max_right _ _) hf), by rw [erec]; exact hi'⟩

end
end Hexed.History
