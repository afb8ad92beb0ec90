import Verif.Adapt.Smooth2
import Verif.Adapt.Delete2
import Verif.Adapt.Unref2
import Verif.Tree.Props

set_option autoImplicit false
set_option linter.unusedVariables false

/-!
# Properties of mesh adaptation

C31 (refinement level smoothing) and C32 (removal of bad extrusion sites).
-/

namespace Hexed.Adapt
open Hexed.Tree (Path get IsDir Borders IsLeafAt Reachable)

variable {nd : Nat}

/-! ### Concrete states -/

/-- A state given by a history of the tree and the Cartesian and the deformed elements. -/
def mkEls (nd : Nat) (ops : List Tree.Op) (cs ds : List El) : St nd :=
  { root := (Tree.run ops (Tree.new nd)).getD (Tree.new nd), els := fun d => if d then ds else cs }

theorem mkEls_consistent (ops : List Tree.Op) (cs ds : List El) (hn : ((cs ++ ds).filterMap (·.tree)).Nodup)
    (hl : ((cs ++ ds).all fun e => e.tree.all fun p => (get p (mkEls nd ops cs ds).root).any fun c => e.record == 2 || c.isLeaf) = true) :
    Consistent (mkEls nd ops cs ds) := by
  have hr : Reachable (mkEls nd ops cs ds).root := by
    unfold mkEls
    cases h : Tree.run ops (Tree.new nd) with
    | none => exact .new
    | some t => exact Tree.reachable_run _ _ _ .new h
  have hlf : ∀ d, ∀ e ∈ (mkEls nd ops cs ds).els d, ∀ p, e.tree = some p →
      ∃ c, get p (mkEls nd ops cs ds).root = some c ∧ (e.record ≠ 2 → c.children = []) := by
    intro d e he p hp
    have he' : e ∈ cs ++ ds := by cases d <;> simp [mkEls] at he <;> simp [he]
    have := List.all_eq_true.1 hl e he'
    rw [hp, Option.all_some] at this
    obtain ⟨c, hc, hl⟩ := (Option.any_eq_true _ _).1 this
    refine ⟨c, hc, fun hne => ?_⟩
    simpa [Tree.isLeaf, hne] using hl
  refine ⟨hr, fun d e he p hp => ?_, hn, fun d e he p hp hne => ?_⟩
  · obtain ⟨c, hc, -⟩ := hlf d e he p hp; exact ⟨c, hc⟩
  · obtain ⟨c, hc, g⟩ := hlf d e he p hp; exact ⟨c, hc, g hne⟩

/-- A state given by a history of the tree and the cells of the Cartesian and the deformed elements. -/
def mkSt (nd : Nat) (ops : List Tree.Op) (cs ds : List Path) : St nd :=
  { root := (Tree.run ops (Tree.new nd)).getD (Tree.new nd)
    els := fun d => (if d then ds else cs).map fun p => ⟨some p, 0, false⟩ }

theorem mkSt_consistent (ops : List Tree.Op) (cs ds : List Path) (hn : (cs ++ ds).Nodup)
    (hl : ((cs ++ ds).all fun p => (get p (mkSt nd ops cs ds).root).any (·.isLeaf)) = true) : Consistent (mkSt nd ops cs ds) := by
  have hr : Reachable (mkSt nd ops cs ds).root := by
    unfold mkSt
    cases h : Tree.run ops (Tree.new nd) with
    | none => exact .new
    | some t => exact Tree.reachable_run _ _ _ .new h
  have hlf : ∀ d, ∀ e ∈ (mkSt nd ops cs ds).els d, ∀ p, e.tree = some p → IsLeafAt (mkSt nd ops cs ds).root p := by
    intro d e he p hp
    simp only [mkSt, List.mem_map] at he
    obtain ⟨q, hq, rfl⟩ := he
    simp only [Option.some.injEq] at hp
    subst hp
    have hq' : q ∈ cs ++ ds := by cases d <;> simp at hq <;> simp [hq]
    have := List.all_eq_true.1 hl q hq'
    obtain ⟨c, hc, hl⟩ := Option.any_eq_true _ _ |>.1 this
    exact ⟨c, hc, by simpa [Tree.isLeaf] using hl⟩
  refine ⟨hr, fun d e he p hp => ?_, ?_, fun d e he p hp _ => hlf d e he p hp⟩
  · obtain ⟨c, hc, -⟩ := hlf d e he p hp; exact ⟨c, hc⟩
  · have hm : ∀ l : List Path, (l.map fun p => (⟨some p, 0, false⟩ : El)).filterMap (·.tree) = l := by
      intro l; induction l with
      | nil => rfl
      | cons a l ih => simp [ih]
    have : (mkSt nd ops cs ds).all.filterMap (·.tree) = cs ++ ds := by
      simp only [St.all, mkSt, List.filterMap_append, hm, if_true, Bool.false_eq_true, if_false]
    rw [this]; exact hn

theorem mkSt_noRequests (ops : List Tree.Op) (cs ds : List Path) : NoRequests (mkSt nd ops cs ds) := by
  intro d e he _
  simp only [mkSt, List.mem_map] at he
  obtain ⟨q, hq, rfl⟩ := he
  simp

/-- More passes do not change the result of a loop that has ended. -/
theorem repeatPass_mono {pass : List (Bool × Nat) → St nd → Option (St nd × Bool)} {order : Nat → St nd → List (Bool × Nat)} {r : St nd} :
    ∀ (n m k : Nat) (s : St nd), n ≤ m → repeatPass pass order k n s = some (some r) → repeatPass pass order k m s = some (some r) := by
  intro n
  induction n with
  | zero => intro m k s _ h; simp [repeatPass] at h
  | succ n ih =>
    intro m k s hm h
    obtain ⟨m, rfl⟩ : ∃ m', m = m' + 1 := ⟨m - 1, by omega⟩
    simp only [repeatPass] at h ⊢
    cases hp : pass (order k s) s with
    | none => simp [hp] at h
    | some x =>
      simp only [hp, Option.bind_some] at h ⊢
      by_cases hx : x.2 = true
      · rw [if_pos hx] at h ⊢; exact ih m _ _ (by omega) h
      · rw [if_neg hx] at h ⊢; exact h

/-! ### C31: refinement level smoothing -/

/-- C31: whatever the order in which the threads treat the elements, refinement level smoothing ends without error after a number of passes
that depends only on the mesh. In the result no element borders on the face or edge of one more than one level coarser, there are no
elements finer than the finest one before, the cells are those before or cells into which they have been divided, and no more of them have
been divided than necessary: every balanced division of the mesh before is a division of the result. -/
theorem smooth_correct (surf : Tree nd → Bool) {st : St nd} (h : Consistent st) (hn : NoRequests st) :
    ∃ n0, ∀ order, Schedule order → ∀ n ≥ n0, ∃ st', smooth surf order n st = some (some st') ∧ Consistent st' ∧ NoRequests st' ∧
      Balanced st' ∧ Refines st st' ∧ (∀ L, (∀ p, Exists st p → p.length ≤ L) → ∀ q, Exists st' q → q.length ≤ L) ∧
      ∀ st2, Consistent st2 → Balanced st2 → Refines st st2 → Refines st' st2 := by
  obtain ⟨L, hL⟩ := exists_depth st
  refine ⟨weight st L + 1, fun order ho n hge => ?_⟩
  obtain ⟨st', r1, r2, r3, r4, r5, r6, r7, -⟩ := repeatPass_smooth surf ho L n 0 st h hn hL (by omega)
  refine ⟨st', r1, r2, r3, r4, r5, fun L' hL' q hq => ?_, r7⟩
  -- the result does not depend on the bound used for termination
  by_cases hle : L ≤ L'
  · exact (r6 q hq).trans hle
  · obtain ⟨st'', s1, -, -, -, -, s6, -⟩ := repeatPass_smooth surf ho L' (max n (weight st L' + 1)) 0 st h hn hL' (by omega)
    have : st'' = st' := by
      have := repeatPass_mono n _ 0 st (le_max_left _ (weight st L' + 1)) r1
      rw [this] at s1
      simpa using s1.symm
    subst this
    exact s6 q hq

/-- C31: which cells have elements after smoothing does not depend on the order of the loops. -/
theorem smooth_deterministic (surf : Tree nd → Bool) {st : St nd} (h : Consistent st) (hn : NoRequests st)
    {o1 o2 : Nat → St nd → List (Bool × Nat)} (h1 : Schedule o1) (h2 : Schedule o2) {n m : Nat} {s1 s2 : St nd}
    (e1 : smooth surf o1 n st = some (some s1)) (e2 : smooth surf o2 m st = some (some s2)) (q : Path) : Exists s1 q ↔ Exists s2 q := by
  obtain ⟨n0, hall⟩ := smooth_correct surf h hn
  obtain ⟨a, a1, a2, -, a4, a5, -, a7⟩ := hall o1 h1 (max n n0) (le_max_right _ _)
  obtain ⟨b, b1, b2, -, b4, b5, -, b7⟩ := hall o2 h2 (max m n0) (le_max_right _ _)
  have ea := repeatPass_mono n (max n n0) 0 st (le_max_left _ _) e1
  have eb := repeatPass_mono m (max m n0) 0 st (le_max_left _ _) e2
  unfold smooth at a1 b1
  rw [ea] at a1; rw [eb] at b1
  simp only [Option.some.injEq] at a1 b1
  subst a1; subst b1
  exact Refines.antisymm a2 b2 (a7 _ b2 b4 b5) (b7 _ a2 a4 a5) q

/-- C31: a mesh that is already balanced keeps its elements. -/
theorem smooth_balanced (surf : Tree nd → Bool) {st : St nd} (h : Consistent st) (hn : NoRequests st) (hb : Balanced st) :
    ∃ n0, ∀ order, Schedule order → ∀ n ≥ n0, ∃ st', smooth surf order n st = some (some st') ∧ ∀ q, Exists st' q ↔ Exists st q := by
  obtain ⟨n0, hall⟩ := smooth_correct surf h hn
  refine ⟨n0, fun order ho n hge => ?_⟩
  obtain ⟨st', r1, r2, -, -, r5, -, r7⟩ := hall order ho n hge
  exact ⟨st', r1, fun q => Refines.antisymm r2 h (r7 st h hb (.refl h)) r5 q⟩

/-- A quarter of the square is divided twice, towards the opposite corner. -/
def unbalanced : St 2 := mkSt 2 [.refine [], .refine [0], .refine [0, 3]] [[1], [2], [0, 0], [0, 1], [0, 2], [0, 3, 0], [0, 3, 1], [0, 3, 2], [0, 3, 3]] [[3]]

theorem schedule_handles : Schedule (fun _ (st : St nd) => handles st) := fun _ _ => .refl _

theorem unbalanced_consistent : Consistent unbalanced := mkSt_consistent _ _ _ (by decide) (by decide +kernel)

/-- Its three other quarters border on cells two levels finer, and are divided. -/
example : (∃ n0, ∀ order, Schedule order → ∀ n ≥ n0, ∃ st', smooth (fun _ => false) order n unbalanced = some (some st') ∧ Balanced st') ∧
    (smooth (fun _ => false) (fun _ st => handles st) 3 unbalanced).any (fun r => r.any fun st' =>
      [[1, 0], [1, 3], [2, 2], [3, 0], [3, 3], [0, 0], [0, 3, 3]].all (exists_ st') && !exists_ st' [1] && !exists_ st' [3]) = true := by
  refine ⟨?_, by decide +kernel⟩
  obtain ⟨n0, h⟩ := smooth_correct (fun _ => false) unbalanced_consistent (mkSt_noRequests _ _ _)
  exact ⟨n0, fun o ho n hn => let ⟨s, a, _, _, b, _⟩ := h o ho n hn; ⟨s, a, b⟩⟩

/-! ### C32: removal of bad extrusion sites -/

/-- C32, the part that holds: whatever the order in which the threads treat the elements, `delete_bad_extrusions` ends without error after
a number of passes that depends only on the mesh; it does nothing but mark elements for deletion; and layers can be extruded from the
elements that remain. Missing: which elements remain depends on the order (`delete_order_refuted`). -/
theorem delete_correct_partial (away : Tree nd → (Fin nd → Int) → Bool) {st : St nd} (h : Consistent st) :
    ∃ n0, ∀ order, Schedule order → ∀ n ≥ n0, ∃ st', deleteBad away order n st = some (some st') ∧ Consistent st' ∧ Ready away st' ∧
      st'.root = st.root ∧ (∀ d, (st'.els d).length = (st.els d).length) ∧
      (∀ (d : Bool) (i : Nat) (e e' : El), (st.els d)[i]? = some e → (st'.els d)[i]? = some e' → e' = e ∨ e' = { e with record := 2 }) := by
  refine ⟨size st + 1, fun order ho n hn => ?_⟩
  obtain ⟨st', r1, r2, r3, r4⟩ := repeatPass_delete away ho n 0 st h (by omega)
  exact ⟨st', r1, r2, r4, r3.root, r3.len, r3.get⟩

/-- C32: a mesh from which layers can be extruded is left as it is. -/
theorem delete_ready (away : Tree nd → (Fin nd → Int) → Bool) {st : St nd} (h : Consistent st) (hr : Ready away st)
    {order : Nat → St nd → List (Bool × Nat)} (ho : Schedule order) (n : Nat) : deleteBad away order (n + 1) st = some (some st) := by
  have hid := deletePass_id h hr (order := order 0 st) (by
    intro x hx
    have := (ho 0 st).mem_iff.1 hx
    exact mem_handles.1 this)
  simp [deleteBad, repeatPass, hid]

/-- Three elements on the diagonal of a square of 16 cells, touching only at their corners. -/
def diagonal : St 2 := mkSt 2 [.refine [], .refine [0], .refine [1], .refine [2], .refine [3]] [[0, 0], [0, 3], [3, 0]] []

theorem diagonal_consistent : Consistent diagonal := mkSt_consistent _ _ _ (by decide) (by decide +kernel)

/-- C32 is false of the code: of three elements touching only at corners, all are deleted if the middle one is treated first, but
if the first one is treated first only it and the middle one are deleted. -/
theorem delete_order_refuted : ∃ (st : St 2) (o1 o2 : Nat → St 2 → List (Bool × Nat)) (s1 s2 : St 2) (q : Path), Consistent st ∧ Schedule o1 ∧
    Schedule o2 ∧ deleteBad (fun _ _ => false) o1 2 st = some (some s1) ∧ deleteBad (fun _ _ => false) o2 2 st = some (some s2) ∧
    Exists s1 q ∧ ¬Exists s2 q := by
  have ho2 : Schedule (fun _ (st : St 2) => (handles st).rotate 1) := fun _ st => List.rotate_perm _ _
  have key : ∀ o, Schedule o → ∀ s, deleteBad (fun _ _ => false) o 2 diagonal = some (some s) → Consistent s := by
    intro o ho s hs
    obtain ⟨s', r1, r2, -⟩ := repeatPass_delete (fun _ _ => false) ho (max 2 (size diagonal + 1)) 0 diagonal diagonal_consistent (by omega)
    rw [repeatPass_mono 2 _ 0 diagonal (le_max_left _ _) hs] at r1
    simp only [Option.some.injEq] at r1
    rw [r1]; exact r2
  have run1 : (deleteBad (fun _ _ => false) (fun _ st => handles st) 2 diagonal).any (fun r => r.any fun s => exists_ s [3, 0]) = true := by
    decide +kernel
  have run2 : (deleteBad (fun _ _ => false) (fun _ st => (handles st).rotate 1) 2 diagonal).any (fun r => r.any fun s => !exists_ s [3, 0]) = true := by
    decide +kernel
  obtain ⟨_, h1, h1'⟩ := (Option.any_eq_true _ _).1 run1
  obtain ⟨s1, rfl, hx1⟩ := (Option.any_eq_true _ _).1 h1'
  obtain ⟨_, h2, h2'⟩ := (Option.any_eq_true _ _).1 run2
  obtain ⟨s2, rfl, hx2⟩ := (Option.any_eq_true _ _).1 h2'
  refine ⟨diagonal, _, _, s1, s2, [3, 0], diagonal_consistent, schedule_handles, ho2, h1, h2, (exists_iff (key _ schedule_handles _ h1) _).1 hx1, ?_⟩
  intro hx
  rw [(exists_iff (key _ ho2 _ h2) _).2 hx] at hx2
  simp at hx2

/-! ### C58: unrefinement -/

/-- C58, the part that holds: the unrefinement loop of `update` ends without error, after a number of passes that depends only on the mesh.
The elements that are new are at cells all of whose elements were at its children and asked to be merged, at least one of them being
unlocked; all others stay, except those at the children of the new ones; and all cells with children that all ask and are not
locked have been merged, unless an existing element more than one level finer borders on them. Missing: locked elements are not safe
from being merged (`unref_lock_refuted`). -/
theorem unref_correct_partial {st : St nd} (h : Consistent st) {n : Bool → Nat} (hn : ∀ d, n d ≤ (st.els d).length)
    (hask : ∀ (d : Bool) (i : Nat) (e : El), (st.els d)[i]? = some e → e.record = -1 → i < n d) :
    ∃ k0, ∀ k ≥ k0, ∃ st', repeatPass (fun _ => unrefPass n) (fun _ _ => []) 0 k st = some (some st') ∧ Consistent st' ∧
      (∀ q, Exists st' q → Exists st q ∨ Mergeable st q) ∧
      (∀ q, Exists st q → Exists st' q ∨ ∃ m i, q = m ++ [i] ∧ Mergeable st m ∧ Exists st' m) ∧
      (∀ m, Mergeable st m → (∀ i e, At st (m ++ [i]) e → e.record = -1 → e.locked = false) → Exists st' m ∨ TooCoarse st' m) := by
  refine ⟨asks st + 1, fun k hk => ?_⟩
  obtain ⟨st', P, D, e, c, r, a, l, s⟩ := unref_loop h k 0 st _ _ h (.refl st) hn (by omega)
  refine ⟨st', e, c, ?_, ?_, ?_⟩
  · intro q hq
    obtain ⟨x, hx, hxr⟩ := exists_at.1 hq
    rcases (r.ats q x).1 hx with ⟨hP, -⟩ | ⟨-, ⟨-, h1⟩ | ⟨hD, x0, h1, rfl⟩⟩
    · exact .inr (r.merged q hP)
    · exact .inl (exists_at.2 ⟨x, h1, hxr⟩)
    · obtain ⟨m, i, e, -, h2, h3, -⟩ := r.dropped q hD
      exact .inl (exists_at.2 ⟨e, h2, by rw [h3]; decide⟩)
  · intro q hq
    obtain ⟨x, hx, hxr⟩ := exists_at.1 hq
    by_cases hP : ∃ m, P m ∧ m <+: q
    · obtain ⟨m, hm, hpre⟩ := hP
      have hm' : Exists st' m := exists_at.2 ⟨_, (r.ats m _).2 (.inl ⟨hm, rfl⟩), by simp⟩
      by_cases hqm : q = m
      · subst hqm; exact .inl hm'
      · obtain ⟨i, hi⟩ := ((r.merged m hm).1 q x hx hpre hqm).1
        exact .inr ⟨m, i, hi, r.merged m hm, hm'⟩
    · push Not at hP
      by_cases hD : D q
      · exact .inl (exists_at.2 ⟨_, (r.ats q _).2 (.inr ⟨hP, .inr ⟨hD, x, hx, rfl⟩⟩), by simp⟩)
      · exact .inl (exists_at.2 ⟨x, (r.ats q _).2 (.inr ⟨hP, .inl ⟨hD, hx⟩⟩), hxr⟩)
  · intro m hm hlock
    by_cases hPm : P m
    · exact .inl (exists_at.2 ⟨_, (r.ats m _).2 (.inl ⟨hPm, rfl⟩), by simp⟩)
    · right
      obtain ⟨hag, i, x, hx, hxr, -⟩ := hm
      have hno : ∀ m', P m' → ¬m' <+: m ++ [i] := by
        intro m' hm' hpre
        obtain ⟨j, x', hx', hxr', -⟩ := (r.merged m' hm').2
        rcases List.prefix_concat_iff.1 hpre with rfl | hpre
        · -- a merged cell cannot be a child of `m`
          have := (hag _ x' hx' ((List.prefix_append m [i]).trans (List.prefix_append _ _)) (by simp)).1
          exact not_child (List.prefix_append m [i]) (by simp) this
        · have hne : m ≠ m' := by rintro rfl; exact hPm hm'
          have := ((r.merged m' hm').1 _ x hx (hpre.trans (List.prefix_append _ _)) (by
            intro h; have := hpre.length_le; have h2 := congrArg List.length h; simp at h2; omega)).1
          exact not_child hpre hne this
      have hD : ¬D (m ++ [i]) := by
        intro hD
        obtain ⟨m', j, e', heq, -, -, hop⟩ := r.dropped _ hD
        have hmm : m = m' := by simpa using congrArg List.dropLast heq
        subst hmm
        rcases hop with g | ⟨j, y, hy, g1, g2⟩
        · exact g hag
        · rw [hlock j y hy g1] at g2; simp at g2
      obtain ⟨ht, d, hmem⟩ : At st' (m ++ [i]) x := (r.ats _ _).2 (.inr ⟨hno, .inl ⟨hD, hx⟩⟩)
      obtain ⟨j, hj⟩ := List.mem_iff_getElem?.1 hmem
      obtain ⟨y, hy, hyr⟩ := a.ask hj hxr
      rcases s d j (hask d j y hy hyr) x _ hj ht hxr with g | g
      · simp at g
      · rwa [List.dropLast_concat] at g

/-- A square whose four quarters all ask to be merged; the last one is locked. -/
def quarters (lock : Bool) : St 2 := mkEls 2 [.refine []] [⟨some [0], -1, false⟩, ⟨some [1], -1, false⟩, ⟨some [2], -1, false⟩, ⟨some [3], -1, lock⟩] []

theorem quarters_consistent (lock : Bool) : Consistent (quarters lock) := by cases lock <;> exact mkEls_consistent _ _ _ (by decide +kernel) (by decide +kernel)

/-- They are merged if none is locked. -/
example : (repeatPass (fun _ => unrefPass (fun d => ((quarters false).els d).length)) (fun _ _ => []) 0 2 (quarters false)).any
    (fun r => r.any fun st' => exists_ st' [] && !exists_ st' [0]) = true := by decide +kernel

/-- C58 is false of the code: a locked element is merged into a coarser one if a sibling that is not locked is treated before it. -/
theorem unref_lock_refuted : ∃ (st st' : St 2) (p : Path) (e : El), Consistent st ∧ At st p e ∧ e.record = -1 ∧ e.locked = true ∧
    repeatPass (fun _ => unrefPass (fun d => (st.els d).length)) (fun _ _ => []) 0 2 st = some (some st') ∧ ¬Exists st' p := by
  have run : (repeatPass (fun _ => unrefPass (fun d => ((quarters true).els d).length)) (fun _ _ => []) 0 2 (quarters true)).any
      (fun r => r.any fun st' => !exists_ st' [3]) = true := by decide +kernel
  obtain ⟨_, h1, h1'⟩ := (Option.any_eq_true _ _).1 run
  obtain ⟨st', rfl, hx⟩ := (Option.any_eq_true _ _).1 h1'
  refine ⟨quarters true, st', [3], ⟨some [3], -1, true⟩, quarters_consistent true, ⟨rfl, false, by simp [quarters, mkEls]⟩, rfl, rfl, h1, ?_⟩
  obtain ⟨s, P, D, e, c, -⟩ := unref_loop (n := fun d => ((quarters true).els d).length) (quarters_consistent true) (max 2 (asks (quarters true) + 1)) 0 (quarters true) _ _ (quarters_consistent true) (.refl _)
    (fun _ => le_rfl) (by omega)
  rw [repeatPass_mono 2 _ 0 _ (le_max_left _ _) h1] at e
  simp only [Option.some.injEq] at e
  subst e
  intro hex
  rw [(exists_iff c _).2 hex] at hx
  simp at hx

end Hexed.Adapt
