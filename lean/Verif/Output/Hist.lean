import Verif.Output.Props
set_option autoImplicit false
set_option linter.unusedVariables false

/-!
# C93: histories, crashes, and where the program falls short
-/

namespace Hexed.Output

variable {α : Type}

theorem ext_ne (s s' : Str) : s ++ mesh ≠ s' ++ state := by
  intro h
  have e1 : s ++ mesh = (s ++ ['.', 'm', 'e', 's']) ++ ['h', '.', 'h', '5'] := by rw [List.append_assoc]; rfl
  have e2 : s' ++ state = (s' ++ ['.', 's', 't', 'a', 't']) ++ ['e', '.', 'h', '5'] := by rw [List.append_assoc]; rfl
  rw [e1, e2] at h
  have := (List.append_inj' h rfl).2
  revert this
  decide

theorem Current.frame {wd : Str} {w : Int} {ext : Str} {l : List (Nat × α)} {fs fs' : FS α} (h : Current wd w ext l fs) (hf : ∀ n s, suffix w n = some s → fs' (wd ++ s ++ ext) = fs (wd ++ s ++ ext)) (hl : fs' (wd ++ "latest".toList ++ ext) = fs (wd ++ "latest".toList ++ ext)) : Current wd w ext l fs' := by
  refine ⟨fun n c hn => ?_, fun n c hn => ?_⟩
  · obtain ⟨s, hs, h1, h2⟩ := h.1 n c hn
    exact ⟨s, hs, by rw [hf n s hs, h1], by rw [hl, h2]⟩
  · obtain ⟨s, hs, h1⟩ := h.2 n c hn
    exact ⟨s, hs, by rw [hf n s hs, h1]⟩

theorem Current.write {wd : Str} {w : Int} {ext : Str} {l : List (Nat × α)} {fs fs' : FS α} (h : Current wd w ext l fs) {n : Nat} {c : α} {s : Str} (hs : suffix w n = some s)
    (hf : ∀ p, p ≠ wd ++ s ++ ext → p ≠ wd ++ "latest".toList ++ ext → fs' p = fs p) (h1 : fs' (wd ++ s ++ ext) = some (.file (.data c))) (h2 : fs' (wd ++ "latest".toList ++ ext) = some (.link (s ++ ext))) : Current wd w ext (l ++ [(n, c)]) fs' := by
  refine ⟨fun n' c' hn => ?_, fun n' c' hn => ?_⟩
  · rw [List.getLast?_append] at hn
    simp at hn
    obtain ⟨rfl, rfl⟩ := hn
    exact ⟨s, hs, h1, h2⟩
  · by_cases e : n = n'
    · subst e
      simp [List.filter_append] at hn
      subst hn
      exact ⟨s, hs, h1⟩
    · rw [List.filter_append] at hn
      simp only [List.filter_cons, e, decide_false, Bool.false_eq_true, ite_false, List.filter_nil, List.append_nil] at hn
      obtain ⟨s', hs', h3⟩ := h.2 n' c' hn
      refine ⟨s', hs', ?_⟩
      rw [hf, h3]
      · intro heq
        rw [List.append_assoc, List.append_assoc] at heq
        have := List.append_cancel_right (List.append_cancel_left heq)
        rw [this] at hs'
        exact e (suffix_injective hs hs')
      · obtain ⟨r, rfl⟩ := suffix_head hs'
        simp

/-- Every history of commands succeeds. At its end the file of each iteration holds what was written last for it, `latest` leads to the mesh and the state written last, and the directory is tidy. -/
theorem history_current {wd : Str} (hwd : wd.getLast? = some '/') {fs : FS α} (hT : Tidy wd fs) (w : Int) (ops : List (Op α))
    (hops : ∀ op ∈ ops, match op with | .mesh n _ => (suffix w n).isSome = true | .state n _ => (suffix w n).isSome = true | .vis n f _ => (suffix w n).isSome = true ∧ 2 ≤ f.n_dim) :
    ∃ fs', run (history wd w ops) fs = (fs', true) ∧ Tidy wd fs' ∧ Current wd w mesh (meshes ops) fs' ∧ Current wd w state (states ops) fs' := by
  induction ops using List.reverseRecOn with
  | nil =>
    refine ⟨fs, rfl, hT, ⟨?_, ?_⟩, ⟨?_, ?_⟩⟩ <;> intro n c h <;> cases h
  | append_singleton ops op ih =>
    obtain ⟨fs1, h1, hT1, hm, hs⟩ := ih fun op' h => hops op' (List.mem_append_left _ h)
    have hop := hops op (List.mem_append_right _ (List.mem_singleton.2 rfl))
    have hh : history wd w (ops ++ [op]) = history wd w ops ++ op.acts wd w := by unfold history; rw [List.flatMap_append]; simp
    rw [hh, run_append_ok h1]
    cases op with
    | mesh n c =>
      obtain ⟨s, hsuf⟩ := Option.isSome_iff_exists.1 hop
      obtain ⟨r, rfl⟩ := suffix_head hsuf
      obtain ⟨fs2, h2, -, -, hf, hT2, hf1, hf2⟩ := write_latest hwd hT1 (Or.inl rfl) (r := r) c
      have e1 : (Op.mesh n c).acts wd w = write mesh wd ('i' :: r) c := by simp [Op.acts, hsuf]
      have e2 : meshes (ops ++ [Op.mesh n c]) = meshes ops ++ [(n, c)] := by simp [meshes]
      have e3 : states (ops ++ [Op.mesh n c]) = states ops := by simp [states]
      rw [e1, e2, e3]
      refine ⟨fs2, h2, hT2, hm.write hsuf hf hf1 hf2, hs.frame ?_ ?_⟩
      · intro n' s' hs'
        obtain ⟨r', rfl⟩ := suffix_head hs'
        refine hf _ ?_ (by simp)
        intro h; rw [List.append_assoc, List.append_assoc] at h; exact ext_ne _ _ (List.append_cancel_left h).symm
      · refine hf _ (by simp) ?_
        intro h; exact ext_ne _ _ h.symm
    | state n c =>
      obtain ⟨s, hsuf⟩ := Option.isSome_iff_exists.1 hop
      obtain ⟨r, rfl⟩ := suffix_head hsuf
      obtain ⟨fs2, h2, -, -, hf, hT2, hf1, hf2⟩ := write_latest hwd hT1 (Or.inr rfl) (r := r) c
      have e1 : (Op.state n c).acts wd w = write state wd ('i' :: r) c := by simp [Op.acts, hsuf]
      have e2 : meshes (ops ++ [Op.state n c]) = meshes ops := by simp [meshes]
      have e3 : states (ops ++ [Op.state n c]) = states ops ++ [(n, c)] := by simp [states]
      rw [e1, e2, e3]
      refine ⟨fs2, h2, hT2, hm.frame ?_ ?_, hs.write hsuf hf hf1 hf2⟩
      · intro n' s' hs'
        obtain ⟨r', rfl⟩ := suffix_head hs'
        refine hf _ ?_ (by simp)
        intro h; rw [List.append_assoc, List.append_assoc] at h; exact ext_ne _ _ (List.append_cancel_left h)
      · refine hf _ (by simp) ?_
        intro h; exact ext_ne _ _ h
    | vis n f content =>
      obtain ⟨s, hsuf⟩ := Option.isSome_iff_exists.1 hop.1
      obtain ⟨r, rfl⟩ := suffix_head hsuf
      obtain ⟨fs2, h2, -⟩ := vis_current hop.2 content (s := r) hT1
      have hfr := vis_frame (suff := 'i' :: r) (f := f) (content := content) hT1 (visualize wd ('i' :: r) f content).length
      rw [List.take_length, h2] at hfr
      have e1 : (Op.vis n f content).acts wd w = visualize wd ('i' :: r) f content := by simp [Op.acts, hsuf]
      have e2 : meshes (ops ++ [Op.vis n f content]) = meshes ops := by simp [meshes]
      have e3 : states (ops ++ [Op.vis n f content]) = states ops := by simp [states]
      rw [e1, e2, e3]
      have k1 : ∀ ext n' s', suffix w n' = some s' → fs2 (wd ++ s' ++ ext) = fs1 (wd ++ s' ++ ext) := by
        intro ext n' s' hs'
        obtain ⟨r', rfl⟩ := suffix_head hs'
        exact hfr.1 _ (by intro x; simp)
      have k2 : ∀ ext, fs2 (wd ++ "latest".toList ++ ext) = fs1 (wd ++ "latest".toList ++ ext) := fun ext => hfr.1 _ (by intro x; simp)
      exact ⟨fs2, h2, hfr.2, hm.frame (k1 mesh) (k2 mesh), hs.frame (k1 state) (k2 state)⟩

/-- Restarting from `latest`: what `input_data = {auto}` reads after any history is the mesh and the state that were written last. -/
theorem restart_reads_last {wd : Str} (hwd : wd.getLast? = some '/') {w : Int} {fs : FS α} (hT : Tidy wd fs) {ext : Str} (he : ext = mesh ∨ ext = state) {l : List (Nat × α)} (hc : Current wd w ext l fs) {n : Nat} {c : α} (hl : l.getLast? = some (n, c)) : read fs (wd ++ "latest".toList ++ ext) = some (.data c) := by
  obtain ⟨s, hs, h1, h2⟩ := hc.1 n c hl
  obtain ⟨r, rfl⟩ := suffix_head hs
  exact read_latest hwd hT he (s := r ++ ext) (by rw [h2]; rfl) (by rw [← h1]; simp)

/-- After `write_iter` or `write_final` both links lead to files of this iteration. -/
theorem both_latest {wd : Str} (hwd : wd.getLast? = some '/') {fs : FS α} (hT : Tidy wd fs) {r : Str} (m s : α) : ∃ fs', run (writeBoth wd ('i' :: r) m s) fs = (fs', true) ∧ read fs' (wd ++ "latest".toList ++ mesh) = some (.data m) ∧ read fs' (wd ++ "latest".toList ++ state) = some (.data s) := by
  obtain ⟨fs1, h1, -, -, -, hT1, hf1, hl1⟩ := write_latest hwd hT (Or.inl rfl) (r := r) m
  obtain ⟨fs2, h2, -, hr2, hf, hT2, -, -⟩ := write_latest hwd hT1 (Or.inr rfl) (r := r) s
  refine ⟨fs2, by unfold writeBoth; rw [run_append_ok h1, h2], ?_, hr2⟩
  refine read_latest hwd hT2 (Or.inl rfl) (s := r ++ mesh) ?_ ?_
  · rw [hf _ (by simp) fun h => ext_ne _ _ h, hl1]; rfl
  · rw [← hf1, ← hf (wd ++ 'i' :: r ++ mesh) ?_ (by simp)]
    · simp
    · intro h; rw [List.append_assoc, List.append_assoc] at h; exact ext_ne _ _ (List.append_cancel_left h)

/-- A picture whose switch is off is not touched. -/
theorem switched_off {wd s : Str} {f : Flags} {content : Picture → α} {fs : FS α} (hT : Tidy wd fs) (k : Nat) {v t e : Bool}
    (off : (v = false ∧ f.surface = false) ∨ (v = true ∧ f.field = false) ∨ (t = false ∧ f.xdmf = false) ∨ (t = true ∧ f.tecplot = false) ∨ (e = true ∧ (f.edges = false ∨ f.n_dim + (if v then 1 else 0) ≤ 2))) {x : Str}
    (hx : (t = true ∧ x = '_' :: 'i' :: s ++ ".szplt".toList) ∨ (t = false ∧ (x = '_' :: 'i' :: s ++ ".h5".toList ∨ x = '_' :: 'i' :: s ++ ".xmf".toList ∨ x = "_latest1.xmf".toList ∨ x = "_latest0.xmf".toList))) :
    (run ((visualize wd ('i' :: s) f content).take k) fs).1 (wd ++ visName v e ++ x) = fs (wd ++ visName v e ++ x) := by
  have hw : wanted f v t e = false := by
    unfold wanted
    rcases off with ⟨rfl, h⟩ | ⟨rfl, h⟩ | ⟨rfl, h⟩ | ⟨rfl, h⟩ | ⟨rfl, h | h⟩
    · simp [h]
    · simp [h]
    · simp [h]
    · simp [h]
    · simp [h]
    · have : ¬(f.n_dim + (if v then 1 else 0) > 2) := by omega
      simp [this]
  refine (run_frame (V := VisPath wd) (T := fun p => ∃ y : Bool × Bool × Bool, wanted f y.1 y.2.1 y.2.2 = true ∧ Touched wd ('i' :: s) y.1 y.2.1 y.2.2 p) (l := (visualize wd ('i' :: s) f content).take k) ?_ ?_ (tidy_plain hT)).2 _ ?_
  · intro a ha
    obtain ⟨y, _, hy⟩ := List.mem_flatMap.1 (List.mem_of_mem_take ha)
    split at hy
    · rename_i hwy
      exact (visBody_writes _ _ _ _ _ _ _ a hy).mono fun p hp => ⟨y, hwy, hp⟩
    · cases hy
  · rintro p ⟨y, _, hp⟩
    exact touched_vis hp
  · rintro ⟨⟨v', t', e'⟩, hwy, hp⟩
    refine not_touched (v := v) (t := t) (e := e) ?_ hx hp
    intro h
    cases h
    rw [hw] at hwy
    cases hwy

/-! ## Crashes -/

/-- What is left if the program is killed after `k` of the four actions of a write command: only the two paths are concerned. `latest` is as before until the link is removed, unless it led to the very file that is overwritten; then there is none; then it is the new one. The full property would be that `latest` can be read at every moment (missing: `crash_refuted`, `rewrite_refuted`). -/
theorem crash_partial {wd : Str} (hwd : wd.getLast? = some '/') {fs : FS α} (hT : Tidy wd fs) {ext : Str} (he : ext = mesh ∨ ext = state) {r : Str} (c : α) :
    (∀ k p, p ≠ wd ++ 'i' :: r ++ ext → p ≠ wd ++ "latest".toList ++ ext → (run ((write ext wd ('i' :: r) c).take k) fs).1 p = fs p) ∧
    (∀ k ≤ 2, (run ((write ext wd ('i' :: r) c).take k) fs).1 (wd ++ "latest".toList ++ ext) = fs (wd ++ "latest".toList ++ ext)) ∧
    (run ((write ext wd ('i' :: r) c).take 1) fs).1 (wd ++ 'i' :: r ++ ext) = some (.file .broken) ∧
    (∀ k, 2 ≤ k → (run ((write ext wd ('i' :: r) c).take k) fs).1 (wd ++ 'i' :: r ++ ext) = some (.file (.data c))) ∧
    (run ((write ext wd ('i' :: r) c).take 3) fs).1 (wd ++ "latest".toList ++ ext) = none := by
  have hlat : wd ++ "latest".toList ++ ext ≠ wd ++ 'i' :: r ++ ext := by simp
  have hpl : ∀ t, fs (wd ++ 'i' :: r ++ ext) ≠ some (.link t) := fun t => by
    have := (hT.1 (r ++ ext) t).1
    simpa using this
  obtain ⟨fs4, h4, -, -, hf4, -, h4f, h4l⟩ := write_latest hwd hT he (r := r) c
  have hw : write ext wd ('i' :: r) c = [.trunc (wd ++ 'i' :: r ++ ext), .fill (wd ++ 'i' :: r ++ ext) c, .removeIf (wd ++ "latest".toList ++ ext), .symlink ('i' :: r ++ ext) (wd ++ "latest".toList ++ ext)] := rfl
  have t1 : run ((write ext wd ('i' :: r) c).take 1) fs = (set fs (wd ++ 'i' :: r ++ ext) (some (.file .broken)), true) := by
    rw [hw, List.take_succ_cons, List.take_zero, run, step, put_plain hpl]
    rfl
  have t2 : run ((write ext wd ('i' :: r) c).take 2) fs = (set fs (wd ++ 'i' :: r ++ ext) (some (.file (.data c))), true) := run_save hpl c
  have t3 : (run ((write ext wd ('i' :: r) c).take 3) fs).1 = set (set fs (wd ++ 'i' :: r ++ ext) (some (.file (.data c)))) (wd ++ "latest".toList ++ ext) none := by
    have hs : (write ext wd ('i' :: r) c).take 3 = (write ext wd ('i' :: r) c).take 2 ++ [.removeIf (wd ++ "latest".toList ++ ext)] := rfl
    have h4' : run ((write ext wd ('i' :: r) c).take 2 ++ [.removeIf (wd ++ "latest".toList ++ ext), .symlink ('i' :: r ++ ext) (wd ++ "latest".toList ++ ext)]) fs = (fs4, true) := h4
    rw [run_append_ok t2] at h4'
    rw [hs, run_append_ok t2]
    generalize set fs (wd ++ 'i' :: r ++ ext) (some (.file (.data c))) = fs1 at h4' ⊢
    have e1 : run [.removeIf (wd ++ "latest".toList ++ ext)] fs1 = (if (read fs1 (wd ++ "latest".toList ++ ext)).isSome then set fs1 (wd ++ "latest".toList ++ ext) none else fs1, true) := rfl
    rw [e1]
    dsimp only
    by_cases hr : (read fs1 (wd ++ "latest".toList ++ ext)).isSome = true
    · rw [if_pos hr]
    · rw [if_neg hr]
      have e2 : run [.removeIf (wd ++ "latest".toList ++ ext), .symlink ('i' :: r ++ ext) (wd ++ "latest".toList ++ ext)] fs1 = run [.symlink ('i' :: r ++ ext) (wd ++ "latest".toList ++ ext)] fs1 := by
        rw [run, step, if_neg hr]
      rw [e2] at h4'
      have hx : ¬(fs1 (wd ++ "latest".toList ++ ext)).isSome = true := by
        intro hx
        rw [run, step, if_pos hx] at h4'
        cases h4'
      funext q
      by_cases hq : q = wd ++ "latest".toList ++ ext
      · rw [hq, set_same]; simpa using hx
      · rw [set_other _ hq]
  have t4 : ∀ k, 4 ≤ k → run ((write ext wd ('i' :: r) c).take k) fs = (fs4, true) := by
    intro k hk
    rw [List.take_of_length_le (by rw [hw]; simpa using hk), h4]
  have cases4 : ∀ k, k = 0 ∨ k = 1 ∨ k = 2 ∨ k = 3 ∨ 4 ≤ k := by omega
  refine ⟨fun k p hp hp' => ?_, fun k hk => ?_, ?_, fun k hk => ?_, ?_⟩
  · rcases cases4 k with rfl | rfl | rfl | rfl | hk
    · rfl
    · rw [t1]; exact set_other _ hp _
    · rw [t2]; exact set_other _ hp _
    · rw [t3, set_other _ hp', set_other _ hp]
    · rw [t4 k hk]; exact hf4 p hp hp'
  · rcases cases4 k with rfl | rfl | rfl | rfl | hk'
    · rfl
    · rw [t1]; exact set_other _ hlat _
    · rw [t2]; exact set_other _ hlat _
    · omega
    · omega
  · rw [t1]; exact set_same ..
  · rcases cases4 k with rfl | rfl | rfl | rfl | hk'
    · omega
    · omega
    · rw [t2]; exact set_same ..
    · rw [t3, set_other _ (Ne.symm hlat), set_same]
    · rw [t4 k hk']; exact h4f
  · rw [t3, set_same]

/-- Killed at the wrong moment, the program leaves no `latest` although there was one before. -/
theorem crash_refuted {wd : Str} (hwd : wd.getLast? = some '/') {fs : FS α} (hT : Tidy wd fs) {ext : Str} (he : ext = mesh ∨ ext = state) {r : Str} (c : α) :
    ∃ k, read (run ((write ext wd ('i' :: r) c).take k) fs).1 (wd ++ "latest".toList ++ ext) = none :=
  ⟨3, read_none (crash_partial hwd hT he c).2.2.2.2⟩

/-- Writing the same iteration again (as `write_final` does after `write_iter`) makes `latest` unreadable for a while. -/
theorem rewrite_refuted {wd : Str} (hwd : wd.getLast? = some '/') {fs : FS α} (hT : Tidy wd fs) {ext : Str} (he : ext = mesh ∨ ext = state) {r : Str} (c c' : α) :
    ∃ k, read (run (write ext wd ('i' :: r) c ++ (write ext wd ('i' :: r) c').take k) fs).1 (wd ++ "latest".toList ++ ext) = some .broken := by
  obtain ⟨fs1, h1, -, -, -, hT1, hf, hl⟩ := write_latest hwd hT he (r := r) c
  refine ⟨1, ?_⟩
  rw [run_append_ok h1]
  have hc := crash_partial hwd hT1 he (r := r) c'
  obtain ⟨x, hx, hxs⟩ := ext_head he
  have hd : dirOf (wd ++ "latest".toList ++ ext) = wd := by
    rw [hx, List.append_assoc]
    exact dirOf_append hwd (by simp [hxs])
  exact read_link (t := 'i' :: r ++ ext) (by rw [hc.2.1 1 (by omega), hl]) (by simp) (by rw [hd, ← hc.2.2.1]; simp)

/-! ## Where the program falls short -/

/-- If the file that `latest` leads to has been deleted, writing throws: `exists` is false of the link, and it cannot be created again. -/
theorem dangling_refuted {wd : Str} {fs : FS α} (hT : ∀ t r, fs (wd ++ 'i' :: r) ≠ some (.link t)) {ext r s : Str} (c : α) (hl : fs (wd ++ "latest".toList ++ ext) = some (.link ('i' :: s))) (hd : dirOf (wd ++ "latest".toList ++ ext) = wd)
    (hgone : fs (wd ++ 'i' :: s) = none) (hne : 'i' :: s ≠ 'i' :: r ++ ext) : (run (write ext wd ('i' :: r) c) fs).2 = false := by
  have hlat : wd ++ "latest".toList ++ ext ≠ wd ++ 'i' :: r ++ ext := by simp
  unfold write
  rw [run_append_ok (run_save (fun t => by have := hT t (r ++ ext); simpa using this) c)]
  set fs1 := set fs (wd ++ 'i' :: r ++ ext) (some (.file (.data c))) with h1
  have hl1 : fs1 (wd ++ "latest".toList ++ ext) = some (.link ('i' :: s)) := by rw [h1, set_other _ hlat, hl]
  have hg : fs1 (wd ++ 'i' :: s) = none := by
    rw [h1, set_other, hgone]
    intro h; rw [List.append_assoc] at h; exact hne (List.append_cancel_left h)
  have hr : read fs1 (wd ++ "latest".toList ++ ext) = none := by
    unfold read
    rw [show (40 : Nat) = 39 + 1 from rfl, follow, hl1]
    dsimp only
    rw [if_neg (by simp), hd, follow_plain (k := 38) (by intro t; rw [hg]; intro e; cases e)]
    simp [hg]
  unfold forceSymlink
  rw [run, step, hr]
  dsimp only
  rw [Option.isSome_none, if_neg (by simp), run, step, hl1]
  rfl

/-- A new run in the same directory writes its initial mesh (`write_init`) and no state: `latest` then leads to the new mesh and to the state of the old one. -/
theorem pair_refuted {wd : Str} (hwd : wd.getLast? = some '/') {fs : FS α} (hT : Tidy wd fs) (m s m' : α) : ∃ fs', run (history wd 10 [.mesh 5 m, .state 5 s, .mesh 0 m']) fs = (fs', true) ∧ read fs' (wd ++ "latest".toList ++ mesh) = some (.data m') ∧ read fs' (wd ++ "latest".toList ++ state) = some (.data s) := by
  obtain ⟨fs', h, hT', hm, hs⟩ := history_current hwd hT 10 [.mesh 5 m, .state 5 s, .mesh 0 m'] (by
    intro op hop
    simp only [List.mem_cons, List.not_mem_nil, or_false] at hop
    rcases hop with rfl | rfl | rfl
    · exact suffix_width.2 (by norm_num) (by norm_num)
    · exact suffix_width.2 (by norm_num) (by norm_num)
    · exact suffix_width.2 (by norm_num) (by norm_num))
  exact ⟨fs', h, restart_reads_last hwd hT' (Or.inl rfl) hm (n := 0) rfl, restart_reads_last hwd hT' (Or.inr rfl) hs (n := 5) rfl⟩

/-- The picture of the skewness is overwritten by a wireframe if edges are drawn (the default). -/
theorem skew_refuted {wd s : Str} {f : Flags} (hnd : 2 ≤ f.n_dim) (hf : f.field = true) (hx : f.xdmf = true) (hk : f.skew = true) (he : f.edges = true) (content : Picture → α) {fs : FS α} (hT : Tidy wd fs) :
    ∃ fs', run (visualize wd ('i' :: s) f content) fs = (fs', true) ∧ read fs' (wd ++ "skew".toList ++ '_' :: 'i' :: s ++ ".h5".toList) = some (.data (content ⟨.skew, false, true, 0⟩)) := by
  obtain ⟨fs', hrun, -⟩ := vis_current hnd content (s := s) hT
  refine ⟨fs', hrun, ?_⟩
  unfold visualize at hrun
  have hl : visOrder = [(false, false, false), (false, false, true), (false, true, false), (false, true, true), (true, false, false)] ++ (true, false, true) :: [(true, true, false), (true, true, true)] := by decide
  have hw : wanted f true false true = true := by
    simp only [wanted, hf, hx, he, if_true, Bool.false_eq_true, if_false]
    simp
    omega
  rw [hl, List.flatMap_append, List.flatMap_cons (x := (true, false, true)), if_pos hw] at hrun
  obtain ⟨fs1, h1, hV1, -⟩ := passes_ok hnd content [(false, false, false), (false, false, true), (false, true, false), (false, true, true), (true, false, false)] (s := s) (tidy_plain hT)
  rw [run_append_ok h1] at hrun
  obtain ⟨fs2, h2, -, -, -, -, -, -, a7, -⟩ := visBody_ok hnd content true false true (s := s) hV1
  have hV2 := (run_frame (visBody_writes wd ('i' :: s) f content true false true) (V := VisPath wd) (fun _ => touched_vis) hV1).1
  rw [h2] at hV2
  dsimp only at hV2
  rw [run_append_ok h2] at hrun
  obtain ⟨fs3, h3, hV3, hq3⟩ := passes_ok hnd content [(true, true, false), (true, true, true)] (s := s) hV2
  rw [h3] at hrun
  cases hrun
  refine read_plain ?_
  rw [hq3, a7 rfl (by simp [hk])]
  intro x hx _
  simp only [List.mem_cons, List.not_mem_nil, or_false] at hx
  rcases hx with rfl | rfl
  · simp [Touched, visName]
  · simp [Touched, visName]

/-- `vis_lts_constraints` has no effect. -/
theorem lts_refuted (wd s : Str) (f : Flags) (b : Bool) (content : Picture → α) : visualize wd s { f with lts_constraints := b } content = visualize wd s f content := rfl

/-- In one dimension visualizing throws before it writes anything, unless only the field is to be written for Tecplot. -/
theorem vis_line {wd s : Str} {f : Flags} (hnd : f.n_dim ≤ 1) (h : ((f.surface && (f.xdmf || f.tecplot)) || (f.field && f.xdmf)) = true) (content : Picture → α) (fs : FS α) : run (visualize wd s f content) fs = (fs, false) := by
  obtain ⟨nd, fsurf, ffield, fx, ft, fsk, fe, fl⟩ := f
  have hbody : ∀ v t, (v = false ∨ t = false) → ∀ l, run (visBody wd s ⟨nd, fsurf, ffield, fx, ft, fsk, fe, fl⟩ content v t false ++ l) fs = (fs, false) := by
    intro v t hvt l
    have : ∃ l', visBody wd s ⟨nd, fsurf, ffield, fx, ft, fsk, fe, fl⟩ content v t false ++ l = .fail :: l' := by
      unfold visBody visualizer
      dsimp only at hnd ⊢
      rw [if_pos]
      · exact ⟨_, rfl⟩
      · refine ⟨hnd, ?_⟩
        rcases hvt with rfl | rfl
        · exact Or.inl (by simp)
        · exact Or.inr rfl
    obtain ⟨l', e⟩ := this
    rw [e]; rfl
  have hl : visOrder = [(false, false, false), (false, false, true), (false, true, false), (false, true, true), (true, false, false), (true, false, true), (true, true, false), (true, true, true)] := by decide
  have hw1 : ∀ v t, wanted ⟨nd, fsurf, ffield, fx, ft, fsk, fe, fl⟩ v t true = false := by
    intro v t
    dsimp only at hnd
    have : ¬(nd + (if v = true then 1 else 0) > 2) := by split <;> omega
    simp [wanted, this]
  unfold visualize
  rw [hl]
  simp only [List.flatMap_cons, hw1, Bool.false_eq_true, if_false, List.nil_append, List.flatMap_nil]
  by_cases w1 : wanted ⟨nd, fsurf, ffield, fx, ft, fsk, fe, fl⟩ false false false = true
  · rw [if_pos w1]; exact hbody _ _ (by simp) _
  rw [if_neg w1, List.nil_append]
  by_cases w2 : wanted ⟨nd, fsurf, ffield, fx, ft, fsk, fe, fl⟩ false true false = true
  · rw [if_pos w2]; exact hbody _ _ (by simp) _
  rw [if_neg w2, List.nil_append]
  by_cases w3 : wanted ⟨nd, fsurf, ffield, fx, ft, fsk, fe, fl⟩ true false false = true
  · rw [if_pos w3]; exact hbody _ _ (by simp) _
  exfalso
  revert h w1 w2 w3
  unfold wanted
  cases fsurf <;> cases ffield <;> cases fx <;> cases ft <;> simp

end Hexed.Output
