import Verif.Output.Vis
set_option autoImplicit false
set_option linter.unusedVariables false

/-!
# C93: output files
-/

namespace Hexed.Output

variable {α : Type}

/-! ## Names -/

/-- Different iterations have different suffixes, whatever the widths. -/
theorem suffix_injective {w w' : Int} {n m : Nat} {s : Str} (h1 : suffix w n = some s) (h2 : suffix w' m = some s) : n = m := by
  unfold suffix at h1 h2
  dsimp only at h1 h2
  split at h1
  · split at h2
    · have e := (Option.some.inj h1).trans (Option.some.inj h2).symm
      have := congrArg value (List.append_cancel_left e)
      rwa [value_decimal, value_decimal] at this
    · cases h2
  · cases h1

/-- The suffix has at least as many digits as asked for; there is one if the width and the number of digits are less than 96. -/
theorem suffix_width {w : Int} {n : Nat} : (∀ s, suffix w n = some s → ∃ d, s = "iter".toList ++ d ∧ w ≤ d.length ∧ value d = n) ∧ (w < 96 → n < 10 ^ 95 → (suffix w n).isSome = true) := by
  have hlen : (decimal w n).length = max (if w < 0 then 1 else w.toNat) (Nat.digits 10 n).length := by
    unfold decimal
    simp only [List.length_append, List.length_replicate, List.length_map, List.length_reverse]
    omega
  constructor
  · intro s h
    unfold suffix at h
    dsimp only at h
    split at h
    · refine ⟨decimal w n, (Option.some.inj h).symm, ?_, value_decimal w n⟩
      rw [hlen]
      by_cases h0 : w < 0 <;> simp only [h0, if_true, if_false] <;> omega
    · cases h
  · intro hw hn
    unfold suffix
    dsimp only
    have hd : (Nat.digits 10 n).length ≤ 95 := (Nat.digits_length_le_iff (by norm_num) n).2 hn
    rw [if_pos]
    · rfl
    · rw [List.length_append, hlen]
      have : ("iter".toList).length = 4 := rfl
      by_cases h0 : w < 0 <;> simp only [h0, if_true, if_false] <;> omega

theorem suffix_head {w : Int} {n : Nat} {s : Str} (h : suffix w n = some s) : ∃ r, s = 'i' :: r := by
  obtain ⟨d, e, _⟩ := suffix_width.1 s h
  exact ⟨"ter".toList ++ d, e⟩

/-- After `start` the working directory ends with a slash, and it is the one given. -/
theorem workingDir_slash {wd wd' : Str} (h : workingDir wd = some wd') : wd'.getLast? = some '/' ∧ (wd' = wd ∨ wd' = wd ++ ['/']) := by
  unfold workingDir at h
  split at h
  · cases h
  · have e := Option.some.inj h
    split at e
    · rw [← e]; exact ⟨by simp, Or.inr rfl⟩
    · rename_i hh
      rw [← e]; exact ⟨not_not.1 hh, Or.inl rfl⟩

/-! ## Mesh and state files -/

section write

variable {wd : Str} (hwd : wd.getLast? = some '/') {fs : FS α} (hT : Tidy wd fs) {ext : Str} (he : ext = mesh ∨ ext = state)

include he in
theorem ext_head : ∃ r, ext = '.' :: r ∧ '/' ∉ r := by
  rcases he with rfl | rfl
  · exact ⟨_, rfl, by decide⟩
  · exact ⟨_, rfl, by decide⟩

include hwd hT he in
theorem read_latest {s : Str} {c : Content α} (hl : fs (wd ++ "latest".toList ++ ext) = some (.link ('i' :: s))) (hc : fs (wd ++ 'i' :: s) = some (.file c)) : read fs (wd ++ "latest".toList ++ ext) = some c := by
  obtain ⟨r, rfl, hr⟩ := ext_head he
  have hd : dirOf (wd ++ "latest".toList ++ '.' :: r) = wd := by
    rw [List.append_assoc]
    exact dirOf_append hwd (by simp [hr])
  exact read_link hl (by simp) (by rw [hd]; exact hc)

include hwd hT he in
/-- `write_mesh` and `write_state`: the file of the iteration and `latest` both lead to what was just written; no other path is changed; and the directory stays tidy. -/
theorem write_latest {r : Str} (c : α) : ∃ fs', run (write ext wd ('i' :: r) c) fs = (fs', true) ∧ read fs' (wd ++ 'i' :: r ++ ext) = some (.data c) ∧ read fs' (wd ++ "latest".toList ++ ext) = some (.data c) ∧
    (∀ p, p ≠ wd ++ 'i' :: r ++ ext → p ≠ wd ++ "latest".toList ++ ext → fs' p = fs p) ∧ Tidy wd fs' ∧
    fs' (wd ++ 'i' :: r ++ ext) = some (.file (.data c)) ∧ fs' (wd ++ "latest".toList ++ ext) = some (.link ('i' :: r ++ ext)) := by
  have hlat : wd ++ "latest".toList ++ ext ≠ wd ++ 'i' :: r ++ ext := by simp
  have hpl : ∀ t, fs (wd ++ 'i' :: r ++ ext) ≠ some (.link t) := fun t => by
    have := (hT.1 (r ++ ext) t).1
    simpa using this
  unfold write
  rw [run_append_ok (run_save hpl c)]
  set fs1 := set fs (wd ++ 'i' :: r ++ ext) (some (.file (.data c))) with h1
  have hl1 : fs1 (wd ++ "latest".toList ++ ext) = fs (wd ++ "latest".toList ++ ext) := set_other _ hlat _
  -- the old link is removed
  have hrm : step fs1 (.removeIf (wd ++ "latest".toList ++ ext)) = some (set fs1 (wd ++ "latest".toList ++ ext) none) := by
    rw [step]
    cases hc : fs1 (wd ++ "latest".toList ++ ext) with
    | none =>
      rw [read_none hc]
      simp only [Option.isSome_none, Bool.false_eq_true, ite_false, Option.some.injEq]
      funext q
      by_cases hq : q = wd ++ "latest".toList ++ ext
      · rw [hq, set_same, hc]
      · rw [set_other _ hq]
    | some en =>
      have : (read fs1 (wd ++ "latest".toList ++ ext)).isSome = true := by
        cases en with
        | file c' => rw [read_plain hc]; rfl
        | link t =>
          obtain ⟨s, c', rfl, hf⟩ := hT.2 ext he t (by rw [← hl1, hc])
          obtain ⟨x, hx, hxs⟩ := ext_head he
          have hd : dirOf (wd ++ "latest".toList ++ ext) = wd := by
            rw [hx, List.append_assoc]
            exact dirOf_append hwd (by simp [hxs])
          by_cases hq : wd ++ 'i' :: s = wd ++ 'i' :: r ++ ext
          · rw [read_link hc (by simp) (c := .data c) (by rw [hd, hq]; exact set_same _ _ _)]; rfl
          · rw [read_link hc (by simp) (c := c') (by rw [hd, h1, set_other _ hq, hf])]; rfl
      rw [this]; rfl
  unfold forceSymlink
  rw [run, hrm]
  dsimp only
  rw [run, step, set_same, Option.isSome_none, if_neg (by simp)]
  dsimp only
  rw [run]
  have hfin : ∀ p, p ≠ wd ++ 'i' :: r ++ ext → p ≠ wd ++ "latest".toList ++ ext → set (set fs1 (wd ++ "latest".toList ++ ext) none) (wd ++ "latest".toList ++ ext) (some (.link ('i' :: r ++ ext))) p = fs p := by
    intro p hp hp'
    rw [set_other _ hp', set_other _ hp', h1, set_other _ hp]
  have hfile : set (set fs1 (wd ++ "latest".toList ++ ext) none) (wd ++ "latest".toList ++ ext) (some (.link ('i' :: r ++ ext))) (wd ++ 'i' :: r ++ ext) = some (.file (.data c)) := by
    rw [set_other _ (Ne.symm hlat), set_other _ (Ne.symm hlat), h1, set_same]
  have htidy : Tidy wd (set (set fs1 (wd ++ "latest".toList ++ ext) none) (wd ++ "latest".toList ++ ext) (some (.link ('i' :: r ++ ext)))) := by
    constructor
    · intro x t
      refine ⟨?_, ?_, ?_⟩
      · by_cases hq : wd ++ 'i' :: x = wd ++ 'i' :: r ++ ext
        · rw [hq, hfile]; intro e; cases e
        · rw [hfin _ hq (by simp)]; exact (hT.1 x t).1
      · rw [hfin _ (by simp) (by simp)]; exact (hT.1 x t).2.1
      · rw [hfin _ (by simp) (by simp)]; exact (hT.1 x t).2.2
    · intro ext' he' t ht
      by_cases hq : wd ++ "latest".toList ++ ext' = wd ++ "latest".toList ++ ext
      · rw [hq, set_same] at ht
        cases ht
        exact ⟨r ++ ext, .data c, rfl, by rw [← hfile]; simp⟩
      · rw [hfin _ (by simp) hq] at ht
        obtain ⟨s, c', rfl, hf⟩ := hT.2 ext' he' t ht
        by_cases hq' : wd ++ 'i' :: s = wd ++ 'i' :: r ++ ext
        · exact ⟨s, .data c, rfl, by rw [hq', hfile]⟩
        · exact ⟨s, c', rfl, by rw [hfin _ hq' (by simp), hf]⟩
  refine ⟨_, rfl, read_plain hfile, ?_, hfin, htidy, hfile, by rw [set_same]⟩
  exact read_latest hwd htidy he (s := r ++ ext) (by rw [set_same]; rfl) (by rw [← hfile]; simp)

end write

/-! ## Visualization -/

theorem tidy_plain {wd : Str} {fs : FS α} (hT : Tidy wd fs) : Plain (VisPath wd) fs := by
  rintro p ⟨r, rfl | rfl⟩ t
  · exact (hT.1 r t).2.1
  · exact (hT.1 r t).2.2

theorem visualize_writes (wd suff : Str) (f : Flags) (content : Picture → α) : ∀ a ∈ visualize wd suff f content, Writes (VisPath wd) a := by
  intro a ha
  obtain ⟨x, _, hx⟩ := List.mem_flatMap.1 ha
  split at hx
  · exact (visBody_writes _ _ _ _ _ _ _ a hx).mono fun _ => touched_vis
  · cases hx

/-- Visualizing changes no other files than those whose names start with `s` or `f`, even if it throws or is killed; the directory stays tidy. -/
theorem vis_frame {wd suff : Str} {f : Flags} {content : Picture → α} {fs : FS α} (hT : Tidy wd fs) (k : Nat) :
    (∀ p, (∀ r, p ≠ wd ++ 's' :: r ∧ p ≠ wd ++ 'f' :: r) → (run ((visualize wd suff f content).take k) fs).1 p = fs p) ∧ Tidy wd (run ((visualize wd suff f content).take k) fs).1 := by
  have h := run_frame (V := VisPath wd) (T := VisPath wd) (l := (visualize wd suff f content).take k) (fun a ha => visualize_writes wd suff f content a (List.mem_of_mem_take ha)) (fun _ h => h) (tidy_plain hT)
  have hf : ∀ p, (∀ r, p ≠ wd ++ 's' :: r ∧ p ≠ wd ++ 'f' :: r) → (run ((visualize wd suff f content).take k) fs).1 p = fs p := by
    intro p hp
    refine h.2 p ?_
    rintro ⟨r, hr | hr⟩
    · exact (hp r).1 hr
    · exact (hp r).2 hr
  refine ⟨hf, ?_, ?_⟩
  · intro r t
    refine ⟨?_, h.1 _ ⟨r, Or.inl rfl⟩ t, h.1 _ ⟨r, Or.inr rfl⟩ t⟩
    rw [hf _ (by intro x; simp)]
    exact (hT.1 r t).1
  · intro ext he t ht
    rw [hf _ (by intro x; simp)] at ht
    obtain ⟨s, c, rfl, hc⟩ := hT.2 ext he t ht
    exact ⟨s, c, rfl, by rw [hf _ (by intro x; simp)]; exact hc⟩


/-- The paths of one pass are not written to by another, except for pictures of the skewness. -/
theorem not_touched {wd s : Str} {v t e v' t' e' : Bool} (hne : (v', t', e') ≠ (v, t, e)) {x : Str}
    (hx : (t = true ∧ x = '_' :: 'i' :: s ++ ".szplt".toList) ∨ (t = false ∧ (x = '_' :: 'i' :: s ++ ".h5".toList ∨ x = '_' :: 'i' :: s ++ ".xmf".toList ∨ x = "_latest1.xmf".toList ∨ x = "_latest0.xmf".toList))) :
    ¬Touched wd ('i' :: s) v' t' e' (wd ++ visName v e ++ x) := by
  cases v <;> cases t <;> cases e <;> cases v' <;> cases t' <;> cases e' <;> first | exact absurd rfl hne | skip
  all_goals
    simp only [true_and, false_and, Bool.false_eq_true, reduceCtorEq, or_false, false_or] at hx
    first
    | (rcases hx with rfl | rfl | rfl | rfl <;> simp [Touched, visName])
    | (subst hx; simp [Touched, visName])

/-- All passes over the loops succeed. -/
theorem passes_ok {wd s : Str} {f : Flags} (hnd : 2 ≤ f.n_dim) (content : Picture → α) (l : List (Bool × Bool × Bool)) {fs : FS α} (hV : Plain (VisPath wd) fs) :
    ∃ fs', run (l.flatMap fun x => if wanted f x.1 x.2.1 x.2.2 then visBody wd ('i' :: s) f content x.1 x.2.1 x.2.2 else []) fs = (fs', true) ∧ Plain (VisPath wd) fs' ∧
      ∀ q, (∀ x ∈ l, wanted f x.1 x.2.1 x.2.2 = true → ¬Touched wd ('i' :: s) x.1 x.2.1 x.2.2 q) → fs' q = fs q := by
  induction l generalizing fs with
  | nil => exact ⟨fs, rfl, hV, fun _ _ => rfl⟩
  | cons x l ih =>
    rw [List.flatMap_cons]
    by_cases hw : wanted f x.1 x.2.1 x.2.2 = true
    · rw [if_pos hw]
      obtain ⟨fs1, h1, _⟩ := visBody_ok hnd content x.1 x.2.1 x.2.2 (s := s) hV
      have hf := run_frame (visBody_writes wd ('i' :: s) f content x.1 x.2.1 x.2.2) (V := VisPath wd) (fun _ => touched_vis) hV
      rw [h1] at hf
      obtain ⟨fs2, h2, hV2, hq⟩ := ih hf.1
      refine ⟨fs2, by rw [run_append_ok h1, h2], hV2, fun q hn => ?_⟩
      rw [hq q fun y hy => hn y (List.mem_cons_of_mem _ hy), hf.2 q (hn x (List.mem_cons_self ..) hw)]
    · rw [if_neg hw, List.nil_append]
      obtain ⟨fs2, h2, hV2, hq⟩ := ih hV
      exact ⟨fs2, h2, hV2, fun q hn => hq q fun y hy => hn y (List.mem_cons_of_mem _ hy)⟩

/-- In two and three dimensions visualizing succeeds. Afterwards every picture that was asked for is in the file of its name and iteration; `latest1` describes it, and `latest0` is what `latest1` was before. -/
theorem vis_current {wd s : Str} {f : Flags} (hnd : 2 ≤ f.n_dim) (content : Picture → α) {fs : FS α} (hT : Tidy wd fs) :
    ∃ fs', run (visualize wd ('i' :: s) f content) fs = (fs', true) ∧ ∀ v t e, wanted f v t e = true →
      (t = true → read fs' (wd ++ visName v e ++ '_' :: 'i' :: s ++ ".szplt".toList) = some (.data (content ⟨if v then .field else .surface, true, e, 0⟩))) ∧
      (t = false → read fs' (wd ++ visName v e ++ '_' :: 'i' :: s ++ ".h5".toList) = some (.data (content ⟨if v then .field else .surface, false, e, 0⟩))) ∧
      (t = false → read fs' (wd ++ visName v e ++ '_' :: 'i' :: s ++ ".xmf".toList) = some (.data (content ⟨if v then .field else .surface, false, e, 1⟩))) ∧
      (t = false → read fs' (wd ++ visName v e ++ "_latest1.xmf".toList) = some (.data (content ⟨if v then .field else .surface, false, e, 1⟩))) ∧
      (t = false → ∀ c, fs (wd ++ visName v e ++ "_latest1.xmf".toList) = some (.file c) → read fs' (wd ++ visName v e ++ "_latest0.xmf".toList) = some c) := by
  obtain ⟨fs', hrun, -⟩ := passes_ok hnd content visOrder (s := s) (tidy_plain hT)
  refine ⟨fs', hrun, fun v t e hw => ?_⟩
  have hmem : (v, t, e) ∈ visOrder := by cases v <;> cases t <;> cases e <;> decide
  have hnd' : visOrder.Nodup := by decide
  obtain ⟨l1, l2, hl⟩ := List.append_of_mem hmem
  rw [hl] at hrun hnd'
  have hn1 : ∀ x ∈ l1, x ≠ (v, t, e) := by
    intro x hx e
    rw [List.nodup_append] at hnd'
    exact hnd'.2.2 x hx (v, t, _) (List.mem_cons_self ..) e
  have hn2 : ∀ x ∈ l2, x ≠ (v, t, e) := by
    intro x hx e
    rw [List.nodup_append] at hnd'
    exact (List.nodup_cons.1 hnd'.2.1).1 (e ▸ hx)
  rw [List.flatMap_append, List.flatMap_cons, if_pos hw] at hrun
  obtain ⟨fs1, h1, hV1, hq1⟩ := passes_ok hnd content l1 (s := s) (tidy_plain hT)
  rw [run_append_ok h1] at hrun
  obtain ⟨fs2, h2, a1, -, a3, a4, a5, a6, -⟩ := visBody_ok hnd content v t e (s := s) hV1
  have hV2 := (run_frame (visBody_writes wd ('i' :: s) f content v t e) (V := VisPath wd) (fun _ => touched_vis) hV1).1
  rw [h2] at hV2
  dsimp only at hV2
  rw [run_append_ok h2] at hrun
  obtain ⟨fs3, h3, hV3, hq3⟩ := passes_ok hnd content l2 (s := s) hV2
  rw [h3] at hrun
  cases hrun
  refine ⟨fun ht => read_plain ?_, fun ht => read_plain ?_, fun ht => read_plain ?_, fun ht => read_plain ?_, fun ht c hc => read_plain ?_⟩
  · rw [hq3, a1 ht]
    intro x hx _
    rw [List.append_assoc _ _ ".szplt".toList]
    exact not_touched (hn2 x hx) (Or.inl ⟨ht, rfl⟩)
  · rw [hq3, a3 ht]
    intro x hx _
    rw [List.append_assoc _ _ ".h5".toList]
    exact not_touched (hn2 x hx) (Or.inr ⟨ht, Or.inl rfl⟩)
  · rw [hq3, a4 ht]
    intro x hx _
    rw [List.append_assoc _ _ ".xmf".toList]
    exact not_touched (hn2 x hx) (Or.inr ⟨ht, Or.inr (Or.inl rfl)⟩)
  · rw [hq3, a5 ht]
    exact fun x hx _ => not_touched (hn2 x hx) (Or.inr ⟨ht, Or.inr (Or.inr (Or.inl rfl))⟩)
  · have hold : fs1 (wd ++ visName v e ++ "_latest1.xmf".toList) = some (.file c) := by
      rw [hq1, hc]
      exact fun x hx _ => not_touched (hn1 x hx) (Or.inr ⟨ht, Or.inr (Or.inr (Or.inl rfl))⟩)
    rw [hq3, a6 ht, hold]
    · rfl
    · exact fun x hx _ => not_touched (hn2 x hx) (Or.inr ⟨ht, Or.inr (Or.inr (Or.inr rfl))⟩)

end Hexed.Output
