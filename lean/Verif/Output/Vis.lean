import Verif.Output.Lemmas
set_option autoImplicit false
set_option linter.unusedVariables false

/-!
# Lemmas about visualization files
-/

namespace Hexed.Output

variable {α : Type}

/-- An action that only writes to paths in `T`. -/
def Writes (T : Str → Prop) : Act α → Prop
  | .trunc p => T p
  | .fill p _ => T p
  | .copy _ p => T p
  | .copyIf _ p => T p
  | .fail => True
  | .removeIf _ => False
  | .symlink _ _ => False

def Plain (V : Str → Prop) (fs : FS α) : Prop := ∀ p, V p → ∀ t, fs p ≠ some (.link t)

theorem Writes.mono {T T' : Str → Prop} (h : ∀ p, T p → T' p) {a : Act α} (ha : Writes T a) : Writes T' a := by
  cases a <;> simp only [Writes] at ha ⊢ <;> exact h _ ha

theorem put_frame {V T : Str → Prop} {fs fs' : FS α} (hTV : ∀ p, T p → V p) (hV : Plain V fs) {p : Str} (hp : T p) {c : Content α} (h : put fs p c = some fs') : Plain V fs' ∧ ∀ q, ¬T q → fs' q = fs q := by
  rw [put_plain (hV p (hTV p hp))] at h
  cases h
  refine ⟨fun q hq t => ?_, fun q hq => set_other _ (fun e => hq (by rw [e]; exact hp)) _⟩
  by_cases e : q = p
  · rw [e, set_same]; intro e; cases e
  · rw [set_other _ e]; exact hV q hq t

theorem step_frame {V T : Str → Prop} {fs fs' : FS α} (hTV : ∀ p, T p → V p) (hV : Plain V fs) {a : Act α} (ha : Writes T a) (h : step fs a = some fs') : Plain V fs' ∧ ∀ q, ¬T q → fs' q = fs q := by
  have hcopy : ∀ src dst, T dst → copyFile fs src dst = some fs' → Plain V fs' ∧ ∀ q, ¬T q → fs' q = fs q := by
    intro src dst hd h
    unfold copyFile at h
    cases hr : read fs src with
    | none => rw [hr] at h; cases h
    | some c =>
      rw [hr] at h
      simp only [Option.bind_some] at h
      split at h
      · cases h
      · exact put_frame hTV hV hd h
  cases a with
  | trunc p => exact put_frame hTV hV ha h
  | fill p c => exact put_frame hTV hV ha h
  | removeIf p => exact absurd ha (by simp [Writes])
  | symlink t p => exact absurd ha (by simp [Writes])
  | copy a b => exact hcopy a b ha h
  | copyIf a b =>
    rw [step] at h
    split at h
    · exact hcopy a b ha h
    · cases h; exact ⟨hV, fun _ _ => rfl⟩
  | fail => cases h

theorem run_frame {V T : Str → Prop} {l : List (Act α)} (hl : ∀ a ∈ l, Writes T a) (hTV : ∀ p, T p → V p) {fs : FS α} (hV : Plain V fs) : Plain V (run l fs).1 ∧ ∀ q, ¬T q → (run l fs).1 q = fs q := by
  induction l generalizing fs with
  | nil => exact ⟨hV, fun _ _ => rfl⟩
  | cons a l ih =>
    rw [run]
    cases hs : step fs a with
    | none => exact ⟨hV, fun _ _ => rfl⟩
    | some fs' =>
      have h1 := step_frame hTV hV (hl a (List.mem_cons_self ..)) hs
      have h2 := ih (fun b hb => hl b (List.mem_cons_of_mem _ hb)) h1.1
      exact ⟨h2.1, fun q hq => (h2.2 q hq).trans (h1.2 q hq)⟩

/-- Paths of visualization files. -/
def VisPath (wd : Str) (p : Str) : Prop := ∃ r, p = wd ++ 's' :: r ∨ p = wd ++ 'f' :: r

/-- The paths that one pass through the loops writes to. -/
def Touched (wd suff : Str) (isField tecplot edges : Bool) (p : Str) : Prop :=
  (if tecplot then p = wd ++ visName isField edges ++ ('_' :: suff) ++ ".szplt".toList ∨ (isField = true ∧ p = wd ++ "skew".toList ++ ('_' :: suff) ++ ".szplt".toList)
  else p = wd ++ visName isField edges ++ ('_' :: suff) ++ ".h5".toList ∨ p = wd ++ visName isField edges ++ ('_' :: suff) ++ ".xmf".toList ∨
    (isField = true ∧ p = wd ++ "skew".toList ++ ('_' :: suff) ++ ".h5".toList) ∨ (isField = true ∧ p = wd ++ "skew".toList ++ ('_' :: suff) ++ ".xmf".toList) ∨
    p = wd ++ visName isField edges ++ "_latest1.xmf".toList ∨ p = wd ++ visName isField edges ++ "_latest0.xmf".toList)

theorem touched_vis {wd suff : Str} {v t e : Bool} {p : Str} (h : Touched wd suff v t e p) : VisPath wd p := by
  unfold Touched at h
  have hn : ∃ c r, visName v e = c :: r ∧ (c = 's' ∨ c = 'f') := by
    cases v
    · exact ⟨'s', _, rfl, Or.inl rfl⟩
    · exact ⟨'f', _, rfl, Or.inr rfl⟩
  obtain ⟨c, r, hn, hc⟩ := hn
  have key : ∀ x y, p = wd ++ visName v e ++ x ++ y → VisPath wd p := by
    intro x y hp
    rw [hn] at hp
    rcases hc with rfl | rfl
    · exact ⟨r ++ x ++ y, Or.inl (by rw [hp]; simp)⟩
    · exact ⟨r ++ x ++ y, Or.inr (by rw [hp]; simp)⟩
  have skew : ∀ x, p = wd ++ "skew".toList ++ ('_' :: suff) ++ x → VisPath wd p := fun x hp => ⟨"kew".toList ++ ('_' :: suff) ++ x, Or.inl (by rw [hp]; simp)⟩
  have key' : ∀ x, p = wd ++ visName v e ++ x → VisPath wd p := fun x hp => key x [] (by rw [hp]; simp)
  split at h
  · rcases h with h | ⟨_, h⟩
    · exact key _ _ h
    · exact skew _ h
  · rcases h with h | h | ⟨_, h⟩ | ⟨_, h⟩ | h | h
    · exact key _ _ h
    · exact key _ _ h
    · exact skew _ h
    · exact skew _ h
    · exact key' _ h
    · exact key' _ h

theorem visualizer_writes {T : Str → Prop} {nd : Nat} {what : What} {t e : Bool} {name : Str} {content : Picture → α} (h : if t then T (name ++ ".szplt".toList) else T (name ++ ".h5".toList) ∧ T (name ++ ".xmf".toList)) : ∀ a ∈ visualizer nd what t e name content, Writes T a := by
  intro a ha
  unfold visualizer save at ha
  split at ha
  · rw [List.mem_singleton.1 ha]; trivial
  · cases t
    · simp only [Bool.false_eq_true, ite_false] at ha h
      simp only [List.cons_append, List.nil_append, List.mem_cons, List.not_mem_nil, or_false] at ha
      rcases ha with rfl | rfl | rfl | rfl
      · exact h.1
      · exact h.1
      · exact h.2
      · exact h.2
    · simp only [if_true, List.mem_cons, List.not_mem_nil, or_false] at ha h
      rcases ha with rfl | rfl <;> exact h

theorem visBody_writes (wd suff : Str) (f : Flags) (content : Picture → α) (v t e : Bool) : ∀ a ∈ visBody wd suff f content v t e, Writes (Touched wd suff v t e) a := by
  intro a ha
  unfold visBody at ha
  dsimp only at ha
  rcases List.mem_append.1 ha with ha | ha
  · rcases List.mem_append.1 ha with ha | ha
    · refine visualizer_writes ?_ a ha
      cases t
      · simp [Touched]
      · simp [Touched]
    · split at ha
      · rename_i hs
        rw [Bool.and_eq_true] at hs
        refine visualizer_writes ?_ a ha
        cases t
        · simp [Touched, hs.1]
        · simp [Touched, hs.1]
      · cases ha
  · cases t
    · simp only [Bool.false_eq_true, ite_false, List.mem_cons, List.not_mem_nil, or_false] at ha
      rcases ha with rfl | rfl
      · simp [Writes, Touched]
      · simp [Writes, Touched]
    · simp at ha

theorem visualizer_ok {nd : Nat} (hnd : 2 ≤ nd) {what : What} {t e : Bool} {name : Str} {content : Picture → α} {fs : FS α} (h : if t then ∀ x, fs (name ++ ".szplt".toList) ≠ some (.link x) else ∀ x, fs (name ++ ".h5".toList) ≠ some (.link x) ∧ fs (name ++ ".xmf".toList) ≠ some (.link x)) :
    run (visualizer nd what t e name content) fs = (if t then set fs (name ++ ".szplt".toList) (some (.file (.data (content ⟨what, true, e, 0⟩))))
      else set (set fs (name ++ ".h5".toList) (some (.file (.data (content ⟨what, false, e, 0⟩))))) (name ++ ".xmf".toList) (some (.file (.data (content ⟨what, false, e, 1⟩)))), true) := by
  unfold visualizer
  rw [if_neg (by omega)]
  cases t
  · simp only [Bool.false_eq_true, ite_false] at h ⊢
    rw [run_append_ok (run_save (fun x => (h x).1) _), run_save]
    intro x
    rw [set_other _ (by simp)]
    exact (h x).2
  · simp only [if_true] at h ⊢
    exact run_save h _

theorem copyFile_ok {fs : FS α} {a b : Str} {c : Content α} (ha : fs a = some (.file c)) (hb : ∀ t, fs b ≠ some (.link t)) (hne : a ≠ b) : copyFile fs a b = some (set fs b (some (.file c))) := by
  unfold copyFile
  rw [read_plain ha, Option.bind_some, follow_plain (k := 39) (by intro t; rw [ha]; intro e; cases e), follow_plain (k := 39) hb, if_neg (by intro e; exact hne (Option.some.inj e)), put_plain hb]

/-- One pass through the loops succeeds and writes what it should. -/
theorem visBody_ok {wd s : Str} {f : Flags} (hnd : 2 ≤ f.n_dim) (content : Picture → α) (v t e : Bool) {fs : FS α} (hV : Plain (VisPath wd) fs) :
    ∃ fs', run (visBody wd ('i' :: s) f content v t e) fs = (fs', true) ∧
      (t = true → fs' (wd ++ visName v e ++ '_' :: 'i' :: s ++ ".szplt".toList) = some (.file (.data (content ⟨if v then .field else .surface, true, e, 0⟩)))) ∧
      (t = true → (v && f.skew) = true → fs' (wd ++ "skew".toList ++ '_' :: 'i' :: s ++ ".szplt".toList) = some (.file (.data (content ⟨.skew, true, e, 0⟩)))) ∧
      (t = false → fs' (wd ++ visName v e ++ '_' :: 'i' :: s ++ ".h5".toList) = some (.file (.data (content ⟨if v then .field else .surface, false, e, 0⟩)))) ∧
      (t = false → fs' (wd ++ visName v e ++ '_' :: 'i' :: s ++ ".xmf".toList) = some (.file (.data (content ⟨if v then .field else .surface, false, e, 1⟩)))) ∧
      (t = false → fs' (wd ++ visName v e ++ "_latest1.xmf".toList) = some (.file (.data (content ⟨if v then .field else .surface, false, e, 1⟩)))) ∧
      (t = false → fs' (wd ++ visName v e ++ "_latest0.xmf".toList) = if (fs (wd ++ visName v e ++ "_latest1.xmf".toList)).isSome then fs (wd ++ visName v e ++ "_latest1.xmf".toList) else fs (wd ++ visName v e ++ "_latest0.xmf".toList)) ∧
      (t = false → (v && f.skew) = true → fs' (wd ++ "skew".toList ++ '_' :: 'i' :: s ++ ".h5".toList) = some (.file (.data (content ⟨.skew, false, e, 0⟩)))) ∧
      (t = false → (v && f.skew) = true → fs' (wd ++ "skew".toList ++ '_' :: 'i' :: s ++ ".xmf".toList) = some (.file (.data (content ⟨.skew, false, e, 1⟩)))) := by
  have hvis : ∀ {v t e p}, Touched wd ('i' :: s) v t e p → ∀ x, fs p ≠ some (.link x) := fun h => hV _ (touched_vis h)
  have hd : ∃ c r, visName v e = c :: r ∧ (c = 's' ∧ r.head? = some 'u' ∨ c = 'f') := by
    cases v
    · exact ⟨'s', _, rfl, Or.inl ⟨rfl, rfl⟩⟩
    · exact ⟨'f', _, rfl, Or.inr rfl⟩
  have hns : ∀ x y, visName v e ++ x ≠ "skew".toList ++ y := by
    obtain ⟨c, r, hn, hc⟩ := hd
    intro x y
    rw [hn]
    rcases hc with ⟨rfl, hr⟩ | rfl
    · cases r with
      | nil => cases hr
      | cons d r => cases hr; simp
    · simp
  unfold visBody
  dsimp only
  cases t
  · -- XDMF
    have h1 := visualizer_ok hnd (what := if v then .field else .surface) (t := false) (e := e) (name := wd ++ visName v e ++ '_' :: 'i' :: s) (content := content) (fs := fs) (by
      simp only [Bool.false_eq_true, ite_false]
      exact fun x => ⟨hvis (v := v) (t := false) (e := e) (by simp [Touched]) x, hvis (v := v) (t := false) (e := e) (by simp [Touched]) x⟩)
    simp only [Bool.false_eq_true, ite_false] at h1 ⊢
    rw [List.append_assoc, run_append_ok h1]
    set fs1 := set (set fs (wd ++ visName v e ++ '_' :: 'i' :: s ++ ".h5".toList) (some (.file (.data (content ⟨if v then .field else .surface, false, e, 0⟩))))) (wd ++ visName v e ++ '_' :: 'i' :: s ++ ".xmf".toList) (some (.file (.data (content ⟨if v then .field else .surface, false, e, 1⟩)))) with hfs1
    have a1 : fs1 (wd ++ visName v e ++ '_' :: 'i' :: s ++ ".h5".toList) = some (.file (.data (content ⟨if v then .field else .surface, false, e, 0⟩))) := by rw [hfs1, set_other _ (by simp), set_same]
    have a2 : fs1 (wd ++ visName v e ++ '_' :: 'i' :: s ++ ".xmf".toList) = some (.file (.data (content ⟨if v then .field else .surface, false, e, 1⟩))) := by rw [hfs1, set_same]
    have a3 : fs1 (wd ++ visName v e ++ "_latest1.xmf".toList) = fs (wd ++ visName v e ++ "_latest1.xmf".toList) := by rw [hfs1, set_other _ (by simp), set_other _ (by simp)]
    have a4 : fs1 (wd ++ visName v e ++ "_latest0.xmf".toList) = fs (wd ++ visName v e ++ "_latest0.xmf".toList) := by rw [hfs1, set_other _ (by simp), set_other _ (by simp)]
    have a5 : ∀ x, fs1 (wd ++ "skew".toList ++ x) = fs (wd ++ "skew".toList ++ x) := by
      intro x
      rw [hfs1, set_other, set_other]
      · intro h; rw [List.append_assoc, List.append_assoc, List.append_assoc] at h; exact hns _ _ (List.append_cancel_left h).symm
      · intro h; rw [List.append_assoc, List.append_assoc, List.append_assoc] at h; exact hns _ _ (List.append_cancel_left h).symm
    -- the optional picture of the skewness
    obtain ⟨fs2, h2, b1, b2, b3, b4, b5, b6⟩ : ∃ fs2, run (if (v && f.skew) = true then visualizer f.n_dim .skew false e (wd ++ "skew".toList ++ '_' :: 'i' :: s) content else []) fs1 = (fs2, true) ∧
        fs2 (wd ++ visName v e ++ '_' :: 'i' :: s ++ ".h5".toList) = some (.file (.data (content ⟨if v then .field else .surface, false, e, 0⟩))) ∧
        fs2 (wd ++ visName v e ++ '_' :: 'i' :: s ++ ".xmf".toList) = some (.file (.data (content ⟨if v then .field else .surface, false, e, 1⟩))) ∧
        fs2 (wd ++ visName v e ++ "_latest1.xmf".toList) = fs (wd ++ visName v e ++ "_latest1.xmf".toList) ∧
        fs2 (wd ++ visName v e ++ "_latest0.xmf".toList) = fs (wd ++ visName v e ++ "_latest0.xmf".toList) ∧
        ((v && f.skew) = true → fs2 (wd ++ "skew".toList ++ '_' :: 'i' :: s ++ ".h5".toList) = some (.file (.data (content ⟨.skew, false, e, 0⟩)))) ∧
        ((v && f.skew) = true → fs2 (wd ++ "skew".toList ++ '_' :: 'i' :: s ++ ".xmf".toList) = some (.file (.data (content ⟨.skew, false, e, 1⟩)))) := by
      by_cases hs : (v && f.skew) = true
      · rw [if_pos hs]
        have hv : v = true := (Bool.and_eq_true _ _ ▸ hs).1
        have h2 := visualizer_ok hnd (what := .skew) (t := false) (e := e) (name := wd ++ "skew".toList ++ '_' :: 'i' :: s) (content := content) (fs := fs1) (by
          simp only [Bool.false_eq_true, ite_false]
          intro x
          refine ⟨?_, ?_⟩
          · rw [List.append_assoc _ _ ".h5".toList, a5, ← List.append_assoc]
            exact hvis (v := v) (t := false) (e := e) (by simp [Touched, hv]) x
          · rw [List.append_assoc _ _ ".xmf".toList, a5, ← List.append_assoc]
            exact hvis (v := v) (t := false) (e := e) (by simp [Touched, hv]) x)
        simp only [Bool.false_eq_true, ite_false] at h2
        have k : ∀ x e1 e2, set (set fs1 (wd ++ "skew".toList ++ '_' :: 'i' :: s ++ ".h5".toList) e1) (wd ++ "skew".toList ++ '_' :: 'i' :: s ++ ".xmf".toList) e2 (wd ++ visName v e ++ x) = fs1 (wd ++ visName v e ++ x) := by
          intro x e1 e2
          rw [set_other, set_other]
          · intro h; rw [List.append_assoc, List.append_assoc, List.append_assoc] at h; exact hns _ _ (List.append_cancel_left h)
          · intro h; rw [List.append_assoc, List.append_assoc, List.append_assoc] at h; exact hns _ _ (List.append_cancel_left h)
        refine ⟨_, h2, ?_, ?_, ?_, ?_, fun _ => ?_, fun _ => ?_⟩
        · rw [List.append_assoc (wd ++ visName v e) ('_' :: 'i' :: s) ".h5".toList, k, ← List.append_assoc, a1]
        · rw [List.append_assoc (wd ++ visName v e) ('_' :: 'i' :: s) ".xmf".toList, k, ← List.append_assoc, a2]
        · rw [k, a3]
        · rw [k, a4]
        · rw [set_other _ (by simp), set_same]
        · rw [set_same]
      · rw [if_neg hs]
        exact ⟨fs1, rfl, a1, a2, a3, a4, fun h => absurd h hs, fun h => absurd h hs⟩
    rw [run_append_ok h2]
    -- the copies
    have hl0 : ∀ x, fs2 (wd ++ visName v e ++ "_latest0.xmf".toList) ≠ some (.link x) := by
      intro x; rw [b4]; exact hvis (v := v) (t := false) (e := e) (by simp [Touched]) x
    have hl1 : ∀ x, fs2 (wd ++ visName v e ++ "_latest1.xmf".toList) ≠ some (.link x) := by
      intro x; rw [b3]; exact hvis (v := v) (t := false) (e := e) (by simp [Touched]) x
    obtain ⟨fs3, h3, d1, d2, d3, d4, d5, d6, d7⟩ : ∃ fs3, step fs2 (.copyIf (wd ++ visName v e ++ "_latest1.xmf".toList) (wd ++ visName v e ++ "_latest0.xmf".toList)) = some fs3 ∧
        fs3 (wd ++ visName v e ++ '_' :: 'i' :: s ++ ".h5".toList) = fs2 (wd ++ visName v e ++ '_' :: 'i' :: s ++ ".h5".toList) ∧
        fs3 (wd ++ visName v e ++ '_' :: 'i' :: s ++ ".xmf".toList) = fs2 (wd ++ visName v e ++ '_' :: 'i' :: s ++ ".xmf".toList) ∧
        fs3 (wd ++ visName v e ++ "_latest1.xmf".toList) = fs2 (wd ++ visName v e ++ "_latest1.xmf".toList) ∧
        (fs3 (wd ++ visName v e ++ "_latest0.xmf".toList) = if (fs2 (wd ++ visName v e ++ "_latest1.xmf".toList)).isSome then fs2 (wd ++ visName v e ++ "_latest1.xmf".toList) else fs2 (wd ++ visName v e ++ "_latest0.xmf".toList)) ∧
        (∀ x, fs3 (wd ++ "skew".toList ++ x) = fs2 (wd ++ "skew".toList ++ x)) ∧ True ∧ True := by
      rw [step]
      cases hc : fs2 (wd ++ visName v e ++ "_latest1.xmf".toList) with
      | none => rw [read_none hc]; exact ⟨fs2, rfl, rfl, rfl, hc, by simp, fun _ => rfl, trivial, trivial⟩
      | some en =>
        cases en with
        | link x => exact absurd hc (hl1 x)
        | file c =>
          rw [read_plain hc, Option.isSome_some, if_pos rfl, copyFile_ok hc hl0 (by simp)]
          refine ⟨_, rfl, set_other _ (by simp) _, set_other _ (by simp) _, ?_, ?_, ?_, trivial, trivial⟩
          · rw [set_other _ (by simp), hc]
          · rw [set_same]; rfl
          · intro x
            refine set_other _ ?_ _
            intro h; rw [List.append_assoc, List.append_assoc] at h; exact hns _ _ (List.append_cancel_left h).symm
    rw [run, h3]
    dsimp only
    have h4 : step fs3 (.copy (wd ++ visName v e ++ '_' :: 'i' :: s ++ ".xmf".toList) (wd ++ visName v e ++ "_latest1.xmf".toList)) = some (set fs3 (wd ++ visName v e ++ "_latest1.xmf".toList) (some (.file (.data (content ⟨if v then .field else .surface, false, e, 1⟩))))) := by
      rw [step]
      exact copyFile_ok (by rw [d2, b2]) (by intro x; rw [d3]; exact hl1 x) (by simp)
    rw [run, h4]
    dsimp only
    rw [run]
    refine ⟨_, rfl, fun h => (by simp at h), fun h => (by simp at h), fun _ => ?_, fun _ => ?_, fun _ => ?_, fun _ => ?_, fun _ hs => ?_, fun _ hs => ?_⟩
    · rw [set_other _ (by simp), d1, b1]
    · rw [set_other _ (by simp), d2, b2]
    · rw [set_same]
    · rw [set_other _ (by simp), d4, b3, b4]
    · rw [set_other, List.append_assoc _ _ ".h5".toList, d5, ← List.append_assoc, b5 hs]
      intro h; rw [List.append_assoc, List.append_assoc, List.append_assoc] at h; exact hns _ _ (List.append_cancel_left h).symm
    · rw [set_other, List.append_assoc _ _ ".xmf".toList, d5, ← List.append_assoc, b6 hs]
      intro h; rw [List.append_assoc, List.append_assoc, List.append_assoc] at h; exact hns _ _ (List.append_cancel_left h).symm
  · -- Tecplot
    have h1 := visualizer_ok hnd (what := if v then .field else .surface) (t := true) (e := e) (name := wd ++ visName v e ++ '_' :: 'i' :: s) (content := content) (fs := fs) (by
      simp only [if_true]
      exact fun x => hvis (v := v) (t := true) (e := e) (by simp [Touched]) x)
    simp only [if_true] at h1 ⊢
    rw [List.append_nil, run_append_ok h1]
    by_cases hs : (v && f.skew) = true
    · have hv : v = true := (Bool.and_eq_true _ _ ▸ hs).1
      have hne : wd ++ "skew".toList ++ '_' :: 'i' :: s ++ ".szplt".toList ≠ wd ++ visName v e ++ '_' :: 'i' :: s ++ ".szplt".toList := by
        intro h; rw [List.append_assoc, List.append_assoc, List.append_assoc, List.append_assoc] at h; exact hns _ _ (List.append_cancel_left h).symm
      rw [if_pos hs, visualizer_ok hnd (what := .skew) (t := true)]
      · refine ⟨_, rfl, fun _ => ?_, fun _ _ => ?_, fun h => (by simp at h), fun h => (by simp at h), fun h => (by simp at h), fun h => (by simp at h), fun h => (by simp at h), fun h => (by simp at h)⟩
        · rw [if_pos rfl, set_other _ (Ne.symm hne), set_same]
        · rw [if_pos rfl, set_same]
      · simp only [if_true]
        intro x
        rw [set_other _ hne]
        exact hvis (v := v) (t := true) (e := e) (by simp [Touched, hv]) x
    · rw [if_neg hs]
      exact ⟨_, rfl, fun _ => set_same _ _ _, fun _ h => absurd h hs, fun h => (by simp at h), fun h => (by simp at h), fun h => (by simp at h), fun h => (by simp at h), fun h => (by simp at h), fun h => (by simp at h)⟩

end Hexed.Output
