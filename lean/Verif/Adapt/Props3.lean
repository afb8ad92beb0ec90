import Verif.Adapt.ConnectLemmas3
import Verif.Adapt.Props2

set_option autoImplicit false
set_option linter.unusedVariables false

/-!
# Properties of the connections of tree elements

C57: in every mesh a user can arrive at, every face of every element of the tree is connected exactly once, and to the right elements.
-/

namespace Hexed.Adapt
open Hexed.Tree (Path get IsDir Borders IsLeafAt Reachable findNeighbors findNeighbor)

variable {nd : Nat}

/-- C57: in 2D and 3D, whatever the history, all connections are right (between elements that border on each other through those faces, of the same level or one to all of
the finer ones in the natural order, of the deformed kind exactly if all elements are deformed; at the end of the domain with the boundary condition of that side; or with an
extruded element where there is no other), no face has two, and every face of every element with a cell has one. Missing: histories in which `update` leaves elements without
a cell (`Kept`). -/
theorem wired_partial (hnd : 2 ≤ nd) {S : Option (Surface nd)} {st : St nd} {links : List Link} (h : Wired S st links) : Sound st links ∧ Complete st links := wired_ok hnd h

/-- C57: in other words, every face of every element with a cell is an end of exactly one connection. -/
theorem wired_face (hnd : 2 ≤ nd) {S : Option (Surface nd)} {st : St nd} {links : List Link} (h : Wired S st links) {p : Path} (hp : Exists st p) {i : Nat} (hi : i < 2 * nd) :
    (links.flatMap Link.faces).count (p, i) = 1 := by
  obtain ⟨h1, h2⟩ := wired_ok hnd h
  obtain ⟨l, hl, hm⟩ := h2 p i hp hi
  exact List.count_eq_one_of_mem h1.once (List.mem_flatMap.2 ⟨l, hl, hm⟩)

/-- C57: no assertion of `connect_new` fails in `update`, whichever connections have been left by `purge`. -/
theorem connect_update_safe (hnd : 2 ≤ nd) {S : Option (Surface nd)} {st r s : St nd} {links left : List Link} (h : Wired S st links) (hr : Requests st r) {o : Orders nd} (ho : o.Fair)
    {fuel : Nat} (he : update (hits S) (away S) o fuel r = some (some s)) (hsv : Survive st s links left) (hu : Uncovered s left) : connectAll s left ≠ none := by
  have hf := (mesh_ok h.mesh).1
  have hf' := update_fit h.mesh hr ho he
  have hleft := hsv.sound hf.consistent hf'.tidy (wired_ok hnd h).1 (hsv.extr_update hf.consistent hf'.consistent (wired_ok hnd h).1 hu)
  obtain ⟨x, k1, -⟩ := connectAll_ok hnd hf'.tidy (fun p hp => (hf'.kinds p).2 hp) hleft
  simp [k1]

/-- C57: nor in `set_surface`. -/
theorem connect_surface_safe (hnd : 2 ≤ nd) {S0 : Option (Surface nd)} {S : Surface nd} {st s : St nd} {links left : List Link} (h : Wired S0 st links) {start : Path}
    (hs : ∃ c, get start st.root = some c) {o : Orders nd} (ho : o.Fair) {fuel : Nat} (he : setSurface S.hits S.away o fuel start st = some (some s)) (hsv : Survive st s links left) :
    connectAll s left ≠ none := by
  have hf := (mesh_ok h.mesh).1
  obtain ⟨hf', hold⟩ := setSurface_fit h.mesh hs ho he
  have hleft := hsv.sound hf.consistent hf'.tidy (wired_ok hnd h).1 (hsv.extr_surface hf.tidy hf'.consistent (wired_ok hnd h).1 hold)
  obtain ⟨x, k1, -⟩ := connectAll_ok hnd hf'.tidy (fun p hp => (hf'.kinds p).2 hp) hleft
  simp [k1]

/-! ### A concrete history -/

/-- The connections whose elements are still there, except those with an extruded element in front of which a new element has appeared. -/
def leftOver (st s : St nd) (links : List Link) : List Link := links.filter fun l =>
  (l.faces.all fun f => [true, false].any fun d => [st, s].all fun x => (x.els d).any fun e => e.tree == some f.1 && e.record != 2) &&
  match l with
  | .extr (p, i) => (findNeighbor s.root p (direction nd i)).all fun q => !s.all.any fun e => e.tree == some q
  | _ => true

theorem leftOver_survive (st s : St nd) (links : List Link) : Survive st s links (leftOver st s links) := by
  refine ⟨List.filter_sublist, fun l hl f hf => ?_⟩
  simp only [leftOver, List.mem_filter, Bool.and_eq_true, List.all_eq_true, List.any_eq_true] at hl
  obtain ⟨d, -, hd⟩ := hl.2.1 f hf
  have key : ∀ x ∈ [st, s], ExistsAs x d f.1 := by
    intro x hx
    obtain ⟨e, he, k1, k2⟩ := hd x hx
    exact ⟨e, he, by simpa using k1, by simpa using k2⟩
  exact ⟨d, key st (by simp), key s (by simp)⟩

theorem leftOver_uncovered (st s : St nd) (links : List Link) : Uncovered s (leftOver st s links) := by
  rintro p i hl q hq ⟨d, e, he, ht, -⟩
  simp only [leftOver, List.mem_filter, Bool.and_eq_true] at hl
  have := hl.2.2
  rw [hq] at this
  simp only [Option.all_some, Bool.not_eq_true', List.any_eq_false, beq_iff_eq] at this
  exact this e (mem_all.2 ⟨d, he⟩) ht

/-- The mesh after a call together with its connections. -/
def wire (r : Option (Option (St nd))) (x : St nd × List Link) : Option (St nd × List Link) :=
  r.bind fun r => r.bind fun s => (connectAll s (leftOver x.1 s x.2)).map fun l => (s, l)

theorem wire_some {r : Option (Option (St nd))} {x y : St nd × List Link} (h : wire r x = some y) :
    r = some (some y.1) ∧ connectAll y.1 (leftOver x.1 y.1 x.2) = some y.2 := by
  unfold wire at h
  obtain ⟨a, h1, h2⟩ := Option.bind_eq_some_iff.1 h
  obtain ⟨s, rfl, h2⟩ := Option.bind_eq_some_iff.1 h2
  obtain ⟨l, h3, rfl⟩ := Option.map_eq_some_iff.1 h2
  exact ⟨h1, h3⟩

/-- `update` with requests given by the cells. -/
def wireUpdate (S : Option (Surface nd)) (f : Path → Int) (x : St nd × List Link) : Option (St nd × List Link) :=
  (wire (update (hits S) (away S) inOrder 9 (request f x.1)) x).filter fun y =>
    [true, false].all fun d => decide ((y.1.els d).countP (·.tree.isNone) ≤ ((request f x.1).els d).countP (·.tree.isNone))

theorem wireUpdate_ok {S : Option (Surface nd)} {f : Path → Int} (hf : ∀ p, f p = -1 ∨ f p = 0 ∨ f p = 1) {x y : St nd × List Link} (h : wireUpdate S f x = some y)
    (hw : Wired S x.1 x.2) : Wired S y.1 y.2 := by
  unfold wireUpdate at h
  obtain ⟨h1, h2⟩ := Option.filter_eq_some_iff.1 h
  obtain ⟨h3, h4⟩ := wire_some h1
  refine .update hw (request_ok hf _) inOrder_fair h3 ?_ (leftOver_survive _ _ _) (leftOver_uncovered _ _ _) h4 (.refl _)
  intro d
  have := List.all_eq_true.1 h2 d (by cases d <;> simp)
  simpa using this

def wired2 : Option (St 2 × List Link) := (wireUpdate none (fun _ => 1) (newMesh 2, newLinks 2)).bind fun x =>
  wireUpdate none (fun p => if p = [2] ∨ p = [3] then 1 else 0) x

/-- A mesh with the cells `[0], [1], [2, i], [3, i]`, then the surface `blade` set. -/
def wired3 : Option (St 2 × List Link) := wired2.bind fun x =>
  if (get [0] x.1.root).isSome then wire (setSurfaceFuel 99 blade.hits blade.away inOrder 9 [0] x.1) x else none

theorem wired2_ok {x : St 2 × List Link} (h : wired2 = some x) : Wired none x.1 x.2 := by
  obtain ⟨y, h1, h2⟩ := Option.bind_eq_some_iff.1 h
  exact wireUpdate_ok (fun p => by split <;> simp) h2 (wireUpdate_ok (fun p => by simp) h1 .new)

theorem wired3_ok {x : St 2 × List Link} (h : wired3 = some x) : Wired (some blade) x.1 x.2 := by
  obtain ⟨y, h1, h2⟩ := Option.bind_eq_some_iff.1 h
  split at h2
  · rename_i hg
    obtain ⟨h3, h4⟩ := wire_some h2
    exact .setSurface (wired2_ok h1) (Option.isSome_iff_exists.1 hg) inOrder_fair (setSurface_fuel h3) (leftOver_survive _ _ _) h4 (.refl _)
  · simp at h2

def Link.isHang : Link → Bool
  | .hang _ _ f => f.length == 2
  | _ => false

def Link.isExtr : Link → Bool
  | .extr _ => true
  | _ => false

def Link.isConf (d : Bool) : Link → Bool
  | .conf d' _ _ => d == d'
  | _ => false

/-- The theorems apply to a mesh with all kinds of connections: conformal Cartesian and deformed ones, ones with hanging nodes, and extruded elements. -/
example : ∃ st links, Wired (some blade) st links ∧ (∃ l ∈ links, l.isHang = true) ∧ (∃ l ∈ links, l.isExtr = true) ∧ (∃ l ∈ links, l.isConf true = true) ∧
    (∃ l ∈ links, l.isConf false = true) ∧ Sound st links := by
  have run : wired3.any (fun x => x.2.any Link.isHang && x.2.any Link.isExtr && x.2.any (Link.isConf true) && x.2.any (Link.isConf false)) = true := by decide +kernel
  obtain ⟨x, hx, hp⟩ := (Option.any_eq_true _ _).1 run
  have hw := wired3_ok hx
  simp only [Bool.and_eq_true, List.any_eq_true] at hp
  obtain ⟨⟨⟨h1, h2⟩, h3⟩, h4⟩ := hp
  exact ⟨x.1, x.2, hw, h1, h2, h3, h4, (wired_partial (by decide) hw).1⟩

/-- C57 is false in 1D: an element whose neighbour is finer is connected as if the neighbour were the coarser one, because there is only one neighbour. -/
theorem wired_line_refuted : ∃ (st : St 1) (links : List Link), Wired none st links ∧ ¬Sound st links := by
  have run : ((wireUpdate (nd := 1) none (fun _ => 1) (newMesh 1, newLinks 1)).bind fun x => wireUpdate none (fun p => if p = [1] then 1 else 0) x).any (fun x =>
      x.2.any fun l => match l with
        | .hang _ c [f] => (level x.1 c.1).any fun n => (level x.1 f.1).any fun m => m < n
        | _ => false) = true := by decide +kernel
  obtain ⟨x, hx, hp⟩ := (Option.any_eq_true _ _).1 run
  obtain ⟨y, h1, h2⟩ := Option.bind_eq_some_iff.1 hx
  have hw : Wired none x.1 x.2 := wireUpdate_ok (fun p => by split <;> simp) h2 (wireUpdate_ok (fun p => by simp) h1 .new)
  refine ⟨x.1, x.2, hw, fun hs => ?_⟩
  obtain ⟨l, hl, hp⟩ := List.any_eq_true.1 hp
  have hr := hs.right l hl
  split at hp
  · rename_i d c f
    obtain ⟨n, hn, hp⟩ := (Option.any_eq_true _ _).1 hp
    obtain ⟨m, hm, hp⟩ := (Option.any_eq_true _ _).1 hp
    obtain ⟨-, -, -, hfine, -⟩ := hr
    obtain ⟨-, ⟨a, b, ha, hb, -, hrl⟩, -⟩ := hfine f (by simp)
    simp only [level, ha, hb, Option.map_some, Option.some.injEq] at hn hm
    simp only [decide_eq_true_eq] at hp
    omega
  · simp at hp

end Hexed.Adapt
