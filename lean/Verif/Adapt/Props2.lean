import Verif.Adapt.History2
import Verif.Adapt.Props

set_option autoImplicit false
set_option linter.unusedVariables false

/-!
# Properties of whole meshing histories

C59 (every mesh a user can arrive at is fit), C60 (`set_surface` clears the surroundings of the surface and keeps the right side of it) and
C61 (the choice of deformed elements).
-/

namespace Hexed.Adapt
open Hexed.Tree (Path get modify IsDir Borders IsLeafAt Reachable)

variable {nd : Nat}

/-! ### C59: every mesh is fit -/

/-- C59: whatever a user does with a mesh and in whatever order the threads treat the elements, after every call of `update` and
`set_surface` that ends, elements are at leaves of the tree, no two at the same; none is left marked for deletion; neighbours differ by at
most one level; layers can be extruded from all exposed faces; and exactly the elements that have to be deformed are. Missing: that `update`
always ends once a surface is set, and that every element is still at a cell, which is false (`update_orphan_refuted`). -/
theorem mesh_fit_partial {S : Option (Surface nd)} {st : St nd} (h : Mesh S st) : Fit S st := (mesh_ok h).1

/-- C59: no assertion of `update` fails and no null or dangling pointer is dereferenced, whatever the requests, locks and order. -/
theorem update_safe {S : Option (Surface nd)} {st r : St nd} (h : Mesh S st) (hr : Requests st r) {o : Orders nd} (ho : o.Fair) (fuel : Nat) :
    update (hits S) (away S) o fuel r ≠ none := by
  obtain ⟨hf, -⟩ := mesh_ok h
  obtain ⟨q1, q2, -⟩ := hr.ok hf.consistent hf.stay
  rcases update_ok (S := S) ho q1 q2 hr.records fuel with ⟨x, e, -⟩ | e <;> simp [e]

/-- C59: before a surface is set `update` ends, after a number of passes that does not depend on more than the mesh, the requests and the order, and the elements cover the
whole domain. -/
theorem update_ends {st r : St nd} (h : Mesh none st) (hr : Requests st r) {o : Orders nd} (ho : o.Fair) :
    ∃ n0, ∀ fuel ≥ n0, ∃ s, update (hits none) (away none) o fuel r = some (some s) ∧ Full s := by
  obtain ⟨hf, hfull⟩ := mesh_ok h
  obtain ⟨g1, g2⟩ := hfull rfl
  obtain ⟨q1, q2, q3⟩ := hr.ok hf.consistent hf.stay
  obtain ⟨n0, hall⟩ := update_full ho q1 q2 hr.records (q3 g1) (by rw [hr.root]; exact g2)
  refine ⟨n0, fun fuel hge => ?_⟩
  rcases hall fuel with ⟨x, e1, -, e3, -⟩ | ⟨hlt, -⟩
  · exact ⟨x, e1, e3⟩
  · omega

/-- C59: before a surface is set the elements cover the whole domain. -/
theorem mesh_full {st : St nd} (h : Mesh none st) : Full st := ((mesh_ok h).2 rfl).1

/-- C59: `set_surface` ends without error. -/
theorem set_surface_ends {S0 : Option (Surface nd)} {st : St nd} (h : Mesh S0 st) (S : Surface nd) {o : Orders nd} (ho : o.Fair) {start : Path}
    (hs : ∃ c, get start st.root = some c) : ∃ n0, ∀ fuel ≥ n0, ∃ s, setSurface S.hits S.away o fuel start st = some (some s) := by
  obtain ⟨hf, -⟩ := mesh_ok h
  obtain ⟨n0, hall⟩ := setSurface_ok (S := S) ho hf.consistent hf.stay hf.balanced hs
  refine ⟨n0, fun fuel hge => ?_⟩
  rcases hall fuel with ⟨x, e1, -⟩ | ⟨hlt, -⟩
  · exact ⟨x, e1⟩
  · omega

/-! ### C60: `set_surface` -/

/-- C60: after `set_surface` no element is close to the surface, whatever has happened before, and no element is new. -/
theorem set_surface_clear {S0 : Option (Surface nd)} {S : Surface nd} {st s : St nd} (h : Mesh S0 st) {o : Orders nd} (ho : o.Fair) {start : Path}
    (hs : ∃ c, get start st.root = some c) {fuel : Nat} (he : setSurface S.hits S.away o fuel start st = some (some s)) {p : Path} (hp : Exists s p) :
    Exists st p ∧ ∀ c, get p s.root = some c → S.hits c = false := by
  obtain ⟨hf, -⟩ := mesh_ok h
  obtain ⟨n0, hall⟩ := setSurface_ok (S := S) ho hf.consistent hf.stay hf.balanced hs
  rcases hall fuel with ⟨x, e1, e2, e3, -⟩ | ⟨-, e1⟩
  · rw [he] at e1; simp only [Option.some.injEq] at e1; subst e1
    obtain ⟨d, e, g1, g2, -⟩ := id hp
    obtain ⟨c, hc⟩ := e2.consistent.valid d e g1 p g2
    exact ⟨(e3 p c hp hc).2.1, fun c hc => (e3 p c hp hc).1⟩
  · rw [he] at e1; simp at e1

/-- C60: the first `set_surface`, with the starting point in a leaf, keeps only elements that can be reached from there without coming close to the surface, and
marks (status 1) exactly the leaves that can. -/
theorem set_surface_region {S : Surface nd} {st s : St nd} (h : Mesh none st) {o : Orders nd} (ho : o.Fair) {start : Path} (hs : IsLeafAt st.root start)
    {fuel : Nat} (he : setSurface S.hits S.away o fuel start st = some (some s)) :
    (∀ p, Exists s p → Reached S st.root start p) ∧ ∀ q c, get q s.root = some c → c.children = [] → (c.status = 1 ↔ Reached S st.root start q) := by
  obtain ⟨hf, hfull⟩ := mesh_ok h
  obtain ⟨g1, g2⟩ := hfull rfl
  obtain ⟨c0, hc0, -⟩ := id hs
  obtain ⟨n0, hall⟩ := setSurface_ok (S := S) ho hf.consistent hf.stay hf.balanced ⟨c0, hc0⟩
  rcases hall fuel with ⟨x, e1, e2, e3, e4⟩ | ⟨-, e1⟩
  · rw [he] at e1; simp only [Option.some.injEq] at e1; subst e1
    refine ⟨fun p hp => ?_, e4 hs g1 g2⟩
    obtain ⟨d, e, k1, k2, k3⟩ := id hp
    obtain ⟨c, hc, hcl⟩ := e2.consistent.leaf d e k1 p k2 k3
    exact (e4 hs g1 g2 p c hc hcl).1 (e3 p c hp hc).2.2
  · rw [he] at e1; simp at e1

/-! ### C61: deformed elements -/

/-- C61: in every mesh, the deformed elements with a cell are exactly those that have to be deformed. -/
theorem mesh_deformed {S : Option (Surface nd)} {st : St nd} (h : Mesh S st) (p : Path) :
    (ExistsAs st true p ↔ Bent st p) ∧ (ExistsAs st false p ↔ Exists st p ∧ ¬Bent st p) := by
  have hf := (mesh_ok h).1
  refine ⟨hf.kinds p, ?_⟩
  rw [← hf.kinds p, exists_as]
  constructor
  · intro h0
    refine ⟨.inr h0, ?_⟩
    rintro ⟨e2, k2, t2, -⟩
    obtain ⟨e1, k1, t1, -⟩ := h0
    have := hf.consistent.uniq
    simp only [St.all, List.filterMap_append, List.nodup_append] at this
    exact this.2.2 p (List.mem_filterMap.2 ⟨e1, k1, t1⟩) p (List.mem_filterMap.2 ⟨e2, k2, t2⟩) rfl
  · rintro ⟨h1 | h0, h2⟩
    · exact absurd h1 h2
    · exact h0

/-- C61: whatever the order in which the threads treat the elements, `deform` ends without error after at most one pass more than there are
elements. It changes which elements are deformed and nothing else, and afterwards those that have to be deformed are, and no others. -/
theorem deform_correct {st : St nd} (h : Consistent st) (hn : NoRequests st) (h3 : ∀ d, ∀ e ∈ st.els d, e.record ≠ 3)
    (hf : ∀ p a dir, Exists st p → get p st.root = some a → FaceDir dir → AllOrNone st a dir)
    {o1 o2 : Nat → St nd → List (Bool × Nat)} (h1 : Schedule o1) (h2 : Schedule o2) {fuel : Nat} (hfuel : st.all.length < fuel) :
    ∃ st', deform o1 o2 fuel st = some (some st') ∧ Consistent st' ∧ st'.root = st.root ∧ (∀ p, Exists st' p ↔ Exists st p) ∧
      (∀ p, ExistsAs st' true p ↔ Bent st p) := by
  rcases deform_ok h hn h3 hf h1 h2 fuel with ⟨x, e1, e2, e3, -, -, e4, e5⟩ | ⟨hle, -⟩
  · refine ⟨x, e1, e2, e3, fun p => ?_, e4⟩
    rw [exists_as, e4, e5]
    constructor
    · rintro (hb | ⟨h, -⟩)
      · exact hb.exists
      · exact h
    · intro hp
      by_cases hb : Bent st p
      · exact .inl hb
      · exact .inr ⟨hp, hb⟩
  · omega

/-! ### A concrete history -/

/-- `floodLoop` for at most `k` steps; `none` = not ended. -/
def floodFuel (n : Int) : Nat → Tree nd → List Path → Option (Option (Tree nd))
  | 0, _, _ => none
  | _ + 1, t, [] => some (some t)
  | k + 1, t, p :: q => match get p t with
    | none => some none
    | some s =>
      if s.status = Tree.unprocessed then
        match Tree.pushDirs (modify (Tree.setStatusNode n) p t) p (Tree.allFaceDirs nd) with
        | none => some none
        | some l => floodFuel n k (modify (Tree.setStatusNode n) p t) (q ++ l)
      else floodFuel n k t q

theorem floodFuel_eq (n : Int) (hn : n ≠ Tree.unprocessed) : ∀ (k : Nat) (t : Tree nd) (q : List Path) (r : Option (Tree nd)),
    floodFuel n k t q = some r → Tree.floodLoop n hn t q = r := by
  intro k
  induction k with
  | zero => intro t q r h; simp [floodFuel] at h
  | succ k ih =>
    intro t q r h
    cases q with
    | nil => simp only [floodFuel, Option.some.injEq] at h; rw [Tree.floodLoop.eq_def]; exact h
    | cons p q =>
      rw [Tree.floodLoop.eq_def]
      simp only [floodFuel] at h
      dsimp only
      split
      · rename_i hg; rw [hg] at h; simpa using h
      · rename_i s hg
        rw [hg] at h
        simp only at h
        split
        · rename_i hs
          rw [if_pos hs] at h
          split
          · rename_i hp; rw [hp] at h; simpa using h
          · rename_i l hp; rw [hp] at h; exact ih _ _ _ h
        · rename_i hs
          rw [if_neg hs] at h
          exact ih _ _ _ h

/-- `floodFill` from a leaf. -/
theorem floodFill_fuel {t : Tree nd} {p : Path} {s t' : Tree nd} (hp : get p t = some s) (hs : Tree.floodStarts s = [[]]) (k : Nat)
    (h : floodFuel 1 k t [p] = some (some t')) : Tree.floodFill 1 p t = .ok t' := by
  have := floodFuel_eq 1 (by decide) k t [p] _ h
  simp [Tree.floodFill, Tree.unprocessed, hp, hs, Tree.floodSeq, this]

/-- `setSurface` with the flood fill limited to `k` steps. -/
def setSurfaceFuel (k : Nat) (surf : Tree nd → Bool) (away : Tree nd → (Fin nd → Int) → Bool) (o : Orders nd) (fuel : Nat) (start : Path) (st : St nd) :
    Option (Option (St nd)) :=
  if (get start (markSurface surf st)).any Tree.isLeaf then
    match floodFuel 1 k (markSurface surf st) [start] with
    | some (some root) =>
      (deleteBad away o.delete fuel (recordInside { st with root := root })).bind fun r => match r with
        | none => some none
        | some st => (deform o.deform o.spread fuel st).map fun r => r.map purge
    | _ => none
  else none

theorem setSurface_fuel {k : Nat} {surf : Tree nd → Bool} {away : Tree nd → (Fin nd → Int) → Bool} {o : Orders nd} {fuel : Nat} {start : Path} {st : St nd}
    {s : St nd} (h : setSurfaceFuel k surf away o fuel start st = some (some s)) : setSurface surf away o fuel start st = some (some s) := by
  unfold setSurfaceFuel at h
  split at h
  · rename_i hl
    obtain ⟨c, hc, hcl⟩ := (Option.any_eq_true _ _).1 hl
    split at h
    · rename_i root hroot
      have : Tree.floodStarts c = [[]] := by
        cases c with
        | mk r x n k => simp only [Tree.isLeaf, Tree.children, List.isEmpty_iff] at hcl; subst hcl; rfl
      unfold setSurface
      rw [floodFill_fuel hc this k hroot]
      exact h
    · simp at h
  · simp at h

/-- The elements are treated in the order in which they are stored. -/
def inOrder : Orders nd := ⟨fun _ st => handles st, fun _ st => handles st, fun _ st => handles st, fun _ st => handles st⟩

theorem inOrder_fair : (inOrder : Orders nd).Fair := ⟨schedule_handles, schedule_handles, schedule_handles, schedule_handles⟩

/-- Requests given by the cells. -/
def request (f : Path → Int) (st : St nd) : St nd :=
  { st with els := fun d => (st.els d).map fun e => { e with record := ((e.tree.map f).getD 0) } }

theorem request_ok {f : Path → Int} (hf : ∀ p, f p = -1 ∨ f p = 0 ∨ f p = 1) (st : St nd) : Requests st (request f st) := by
  refine ⟨rfl, fun d => by simp [request, Function.comp_def], fun d e he => ?_⟩
  simp only [request, List.mem_map] at he
  obtain ⟨x, -, rfl⟩ := he
  cases x.tree with
  | none => simp
  | some p => simpa using hf p

/-- A cell overlaps a rectangle in a square of side 16. -/
def overlaps (lo hi : Fin 2 → Int) (c : Tree 2) : Bool :=
  (List.finRange 2).all fun d => decide (c.coords d * 16 < hi d * 2 ^ c.rl) && decide (lo d * 2 ^ c.rl < (c.coords d + 1) * 16)

/-- A slim body standing in the lower half of the domain. -/
def blade : Surface 2 := ⟨overlaps (fun d => if d = 0 then 9 else 1) (fun d => if d = 0 then 10 else 7), fun _ _ => false, by
  intro a b h1 h2; simp only [overlaps, h1, h2]⟩

/-- A surface far away. -/
def farSurface : Surface 2 := ⟨fun _ => false, fun _ _ => false, fun _ _ _ _ => rfl⟩

/-- A mesh with the cells `[0], [1], [2, i], [3, i]`. -/
def hist2 : Option (Option (St 2)) :=
  (update (hits none) (away none) inOrder 9 (request (fun _ => 1) (newMesh 2))).bind fun r => r.bind fun s =>
    update (hits none) (away none) inOrder 9 (request (fun p => if p = [2] ∨ p = [3] then 1 else 0) s)

/-- ... with the surface set. -/
def hist3 : Option (Option (St 2)) := hist2.bind fun r => r.bind fun s => setSurfaceFuel 99 blade.hits blade.away inOrder 9 [0] s

/-- ... and two more elements refined. -/
def hist4 : Option (Option (St 2)) := hist3.bind fun r => r.bind fun s =>
  update (hits (some blade)) (away (some blade)) inOrder 9 (request (fun p => if p = [2, 2] ∨ p = [2, 3] then 1 else 0) s)

theorem hist2_mesh {s : St 2} (h : hist2 = some (some s)) : Mesh none s := by
  unfold hist2 at h
  obtain ⟨r, h1, h2⟩ := Option.bind_eq_some_iff.1 h
  obtain ⟨s1, rfl, h2⟩ := Option.bind_eq_some_iff.1 h2
  exact .update (.update .new (request_ok (fun _ => by simp) _) inOrder_fair h1 (.refl _)) (request_ok (fun p => by split <;> simp) _) inOrder_fair h2 (.refl _)

theorem hist3_mesh {s : St 2} (h : hist3 = some (some s)) : Mesh (some blade) s := by
  unfold hist3 at h
  obtain ⟨r, h1, h2⟩ := Option.bind_eq_some_iff.1 h
  obtain ⟨s1, rfl, h2⟩ := Option.bind_eq_some_iff.1 h2
  refine .setSurface (hist2_mesh h1) ?_ inOrder_fair (setSurface_fuel h2) (.refl _)
  have : hist2.any (fun r => r.any fun s => (get [0] s.root).isSome) = true := by decide +kernel
  rw [h1] at this
  simpa [Option.isSome_iff_exists] using this

theorem hist4_mesh {s : St 2} (h : hist4 = some (some s)) : Mesh (some blade) s := by
  unfold hist4 at h
  obtain ⟨r, h1, h2⟩ := Option.bind_eq_some_iff.1 h
  obtain ⟨s1, rfl, h2⟩ := Option.bind_eq_some_iff.1 h2
  exact .update (hist3_mesh h1) (request_ok (fun p => by split <;> simp) _) inOrder_fair h2 (.refl _)

theorem any_any {α : Type} {r : Option (Option α)} {P : α → Bool} (h : r.any (fun r => r.any P) = true) : ∃ s, r = some (some s) ∧ P s = true := by
  obtain ⟨x, rfl, hx⟩ := (Option.any_eq_true _ _).1 h
  obtain ⟨s, rfl, hs⟩ := (Option.any_eq_true _ _).1 hx
  exact ⟨s, rfl, hs⟩

/-- The surface removes the elements it comes close to; all others except the one in the far corner are deformed. -/
example : ∃ s, Mesh (some blade) s ∧ Exists s [0] ∧ ¬Exists s [2, 0] ∧ ExistsAs s false [3, 3] ∧ Bent s [0] ∧ ¬Bent s [3, 3] := by
  have run : hist3.any (fun r => r.any fun s => exists_ s [0] && !exists_ s [2, 0] && ((s.els false).any fun e => e.tree == some [3, 3] && e.record == 0) &&
      ((s.els true).any fun e => e.tree == some [0] && e.record == 0)) = true := by decide +kernel
  obtain ⟨s, hs, hp⟩ := any_any run
  have hm := hist3_mesh hs
  have hc := (mesh_ok hm).1.consistent
  simp only [Bool.and_eq_true, Bool.not_eq_true', List.any_eq_true, beq_iff_eq] at hp
  obtain ⟨⟨⟨h1, h2⟩, e1, k1, t1, r1⟩, e2, k2, t2, r2⟩ := hp
  have x1 : ExistsAs s false [3, 3] := ⟨e1, k1, t1, by rw [r1]; decide⟩
  have x2 : ExistsAs s true [0] := ⟨e2, k2, t2, by rw [r2]; decide⟩
  refine ⟨s, hm, (exists_iff hc _).1 h1, fun hh => ?_, x1, (mesh_deformed hm _).1.1 x2, ((mesh_deformed hm _).2.1 x1).2⟩
  rw [(exists_iff hc _).2 hh] at h2; simp at h2

/-- The hypotheses of `deform_correct` are met by this mesh, on which it keeps the deformed elements. -/
example : ∃ s, hist3 = some (some s) ∧ ∃ st', deform (fun _ st => handles st) (fun _ st => handles st) 99 s = some (some st') ∧ (∀ p, ExistsAs st' true p ↔ Bent s p) ∧
    Bent s [0] := by
  have run : hist3.any (fun r => r.any fun s => (s.all.all fun e => e.tree.isSome) && decide (s.all.length < 99) && ((s.els true).any fun e => e.tree == some [0] && e.record == 0)) = true := by
    decide +kernel
  obtain ⟨s, hs, hp⟩ := any_any run
  simp only [Bool.and_eq_true, decide_eq_true_eq, List.any_eq_true, beq_iff_eq, List.all_eq_true] at hp
  obtain ⟨⟨h1, h2⟩, e2, k2, t2, r2⟩ := hp
  have hm := hist3_mesh hs
  have hf := (mesh_ok hm).1
  have h0 : ∀ d, ∀ e ∈ s.els d, e.record = 0 := fun d e he => hf.stay d e he (by
    have := h1 e (mem_all.2 ⟨d, he⟩)
    intro hn; rw [hn] at this; simp at this)
  obtain ⟨st', g1, -, -, -, g2⟩ := deform_correct hf.consistent (fun d e he _ => .inl (h0 d e he)) (fun d e he => by rw [h0 d e he]; decide)
    (fun p a dir hp ha hd => hf.ready.faces p a dir hp ha hd.1 hd.2) schedule_handles schedule_handles h2
  exact ⟨s, hs, st', g1, g2, (mesh_deformed hm _).1.1 ⟨e2, k2, t2, by rw [r2]; decide⟩⟩

/-- `set_surface_region` applies to this history: the element at `[3, 3]` can be reached from `[0]`. -/
example : ∃ s2 s, Mesh none s2 ∧ setSurface blade.hits blade.away inOrder 9 [0] s2 = some (some s) ∧ IsLeafAt s2.root [0] ∧ Reached blade s2.root [0] [3, 3] := by
  have run : hist2.any (fun r => r.any fun s2 => (get [0] s2.root).any Tree.isLeaf && (setSurfaceFuel 99 blade.hits blade.away inOrder 9 [0] s2).any fun r => r.any fun s =>
      (s.els false).any fun e => e.tree == some [3, 3] && e.record == 0) = true := by decide +kernel
  obtain ⟨s2, hs2, hp⟩ := any_any run
  simp only [Bool.and_eq_true] at hp
  obtain ⟨hl, hp⟩ := hp
  obtain ⟨s, hs, hp⟩ := any_any hp
  simp only [List.any_eq_true, Bool.and_eq_true, beq_iff_eq] at hp
  obtain ⟨e, k, t, r⟩ := hp
  obtain ⟨c, hc, hcl⟩ := (Option.any_eq_true _ _).1 hl
  have hleaf : IsLeafAt s2.root [0] := ⟨c, hc, by simpa [Tree.isLeaf] using hcl⟩
  have hm := hist2_mesh hs2
  exact ⟨s2, s, hm, setSurface_fuel hs, hleaf, (set_surface_region hm inOrder_fair hleaf (setSurface_fuel hs)).1 _ ⟨false, e, k, t, by rw [r]; decide⟩⟩

/-- C59 is false of the code: `update` can leave behind elements without a cell. The flood fill coarsens a cell next to the surface whose children
have no elements but whose grandchildren have. (All elements of the mesh before have cells: none has been extruded.) -/
theorem update_orphan_refuted : ∃ (S : Surface 2) (st r s : St 2) (o : Orders 2) (fuel : Nat), Mesh (some S) st ∧ Requests st r ∧ o.Fair ∧
    (∀ d, ∀ e ∈ st.els d, e.tree ≠ none) ∧ update S.hits S.away o fuel r = some (some s) ∧ ∃ d, ∃ e ∈ s.els d, e.tree = none ∧ e.record = 0 := by
  have run : hist4.any (fun r => r.any fun s => (s.els true).any fun e => e.tree == none && e.record == 0) = true := by decide +kernel
  have run3 : hist3.any (fun r => r.any fun s => s.all.all fun e => e.tree.isSome) = true := by decide +kernel
  obtain ⟨s, hs, hp⟩ := any_any run
  obtain ⟨s3, hs3, hp3⟩ := any_any run3
  unfold hist4 at hs
  rw [hs3] at hs
  simp only [List.any_eq_true, Bool.and_eq_true, beq_iff_eq] at hp
  obtain ⟨e, k, t, rr⟩ := hp
  refine ⟨blade, s3, _, s, inOrder, 9, hist3_mesh hs3, request_ok (f := fun p => if p = [2, 2] ∨ p = [2, 3] then 1 else 0) (fun p => by split <;> simp) _, inOrder_fair, ?_, hs, true, e, k, t, rr⟩
  intro d e he ht
  have := List.all_eq_true.1 hp3 e (mem_all.2 ⟨d, he⟩)
  rw [ht] at this; simp at this

/-- C60 does not extend to `update`: it can create an element through which the surface passes. -/
theorem update_surface_refuted : ∃ (S : Surface 2) (st : St 2) (p : Path) (c : Tree 2), Mesh (some S) st ∧ Exists st p ∧ get p st.root = some c ∧ S.hits c = true := by
  have run : hist4.any (fun r => r.any fun s => exists_ s [2] && (get [2] s.root).any blade.hits) = true := by decide +kernel
  obtain ⟨s, hs, hp⟩ := any_any run
  have hm := hist4_mesh hs
  simp only [Bool.and_eq_true] at hp
  obtain ⟨c, hc, hh⟩ := (Option.any_eq_true _ _).1 hp.2
  exact ⟨blade, s, [2], c, hm, (exists_iff (mesh_ok hm).1.consistent _).1 hp.1, hc, hh⟩

/-- C60 is false for the second surface, although the first is documented to be forgotten (Mesh.hpp:147): after setting a surface that is not close to any cell, and
another `update`, a leaf next to the starting point still has no element. -/
theorem set_surface_again_refuted : ∃ (S S' : Surface 2) (st s s' s'' : St 2) (o : Orders 2) (fuel : Nat) (start q : Path), Mesh (some S) st ∧ o.Fair ∧
    setSurface S'.hits S'.away o fuel start st = some (some s) ∧ Requests s s' ∧ update S'.hits S'.away o fuel s' = some (some s'') ∧
    Reached S' s''.root start q ∧ ¬Exists s'' q := by
  have run : hist3.any (fun r => r.any fun s0 => (setSurfaceFuel 99 farSurface.hits farSurface.away inOrder 9 [0] s0).any fun r => r.any fun s =>
      (update (hits (some farSurface)) (away (some farSurface)) inOrder 9 (request (fun _ => 0) s)).any fun r => r.any fun s'' =>
        (get [0] s''.root).any fun a => (get [2, 0] s''.root).any fun b => b.isLeaf && !exists_ s'' [2, 0] &&
          (a.rl == 1 && b.rl == 2 && a.coords 0 == 0 && a.coords 1 == 0 && b.coords 0 == 2 && b.coords 1 == 0)) = true := by decide +kernel
  obtain ⟨s0, hs0, hp⟩ := any_any run
  obtain ⟨s, hs, hp⟩ := any_any hp
  obtain ⟨s'', hs'', hp⟩ := any_any hp
  obtain ⟨a, ha, hp⟩ := (Option.any_eq_true _ _).1 hp
  obtain ⟨b, hb, hp⟩ := (Option.any_eq_true _ _).1 hp
  simp only [Bool.and_eq_true, Bool.not_eq_true', beq_iff_eq] at hp
  obtain ⟨⟨h1, h2⟩, ⟨⟨⟨⟨h3, h4⟩, h5⟩, h6⟩, h7⟩, h8⟩ := hp
  have hm0 := hist3_mesh hs0
  have hstart : ∃ c, get [0] s0.root = some c := by
    have : hist3.any (fun r => r.any fun s => (get [0] s.root).isSome) = true := by decide +kernel
    rw [hs0] at this
    simpa [Option.isSome_iff_exists] using this
  have hm := Mesh.setSurface hm0 hstart inOrder_fair (setSurface_fuel hs) (.refl s)
  have hm2 := Mesh.update hm (request_ok (f := fun _ => 0) (fun _ => by simp) s) inOrder_fair hs'' (.refl _)
  refine ⟨blade, farSurface, s0, s, _, s'', inOrder, 9, [0], [2, 0], hm0, inOrder_fair, setSurface_fuel hs, request_ok (f := fun _ => 0) (fun _ => by simp) s, hs'', ?_, fun hh => ?_⟩
  · refine .step (.start ha rfl) ⟨a, b, ha, hb, by simpa [Tree.isLeaf] using h1, 0, ?_⟩ hb rfl
    refine ⟨.inl ?_, fun e he => ?_⟩
    · simp only [Tree.hi, Tree.lo, h3, h4, h5, h7]; norm_num
    · have : e = 1 := by omega
      subst this
      simp only [Tree.hi, Tree.lo, h3, h4, h6, h8]; norm_num
  · rw [(exists_iff (mesh_ok hm2).1.consistent _).2 hh] at h2; simp at h2

end Hexed.Adapt
