import Mathlib.Algebra.Order.Field.Basic
import Mathlib.Data.Rat.Cast.Order
import Mathlib.Algebra.Order.Field.Rat

set_option autoImplicit false
set_option linter.unusedVariables false

/-!
Model of `hexed::Tree` (/repo/include/Tree.hpp, /repo/src/Tree.cpp).

* A C++ `Tree*` is modelled by the *path* of child indices that leads from the root to the element.
  Paths that do not exist are dangling pointers; every API function below says what it does with them.
* `origin`/`root_sz` are the same for all elements of one tree (Tree.cpp:60 passes them on), so they are
  parameters of the geometric functions instead of node fields.
* `elem`, `def_elem`, `misc_data` (Tree.hpp:65-67) are user data that no function of `Tree` reads: not modelled here.
* `int` is modelled by `Nat`/`Int` (overflow of `math::pow(2, level)` at level >= 31 is not modelled).
-/

namespace Hexed

/-- One element of the tree: Tree.hpp:38-45 (`ref_level`, `coords`, `status`, `children_storage`).
`coords` has exactly `n_dim` entries (Tree.cpp:20). -/
inductive Tree (nd : Nat) : Type where
  | mk (rl : Nat) (coords : Fin nd → Int) (status : Int) (children : List (Tree nd)) : Tree nd

namespace Tree

variable {nd : Nat}

/-- A pointer to an element of a tree: the child indices to follow from the root. -/
abbrev Path := List Nat

/-- `refinement_level()`, Tree.cpp:31 -/
def rl : Tree nd → Nat | mk r _ _ _ => r
/-- `coordinates()`, Tree.cpp:32 -/
def coords : Tree nd → Fin nd → Int | mk _ c _ _ => c
/-- `get_status()`, Tree.cpp:148-151 -/
def status : Tree nd → Int | mk _ _ s _ => s
/-- `children()`, Tree.cpp:39-44 -/
def children : Tree nd → List (Tree nd) | mk _ _ _ k => k
/-- `is_leaf()`, Tree.cpp:54 -/
def isLeaf (t : Tree nd) : Bool := t.children.isEmpty

/-- `Tree::unprocessed`, Tree.hpp:171 -/
def unprocessed : Int := -1

/-- The constructor, Tree.cpp:19-28 (level 0, zero coordinates, status `unprocessed`, no children).
The assertion on the size of `origin` is a precondition of the caller. -/
def new (nd : Nat) : Tree nd := mk 0 (fun _ => 0) unprocessed []

/-- Dereference a pointer; `none` = dangling. -/
def get : Path → Tree nd → Option (Tree nd)
  | [], t => some t
  | i :: p, t => match t.children[i]? with
    | none => none
    | some c => get p c

/-- Mutate the element a pointer refers to (children are owned by the parent, Tree.hpp:43). -/
def modify (f : Tree nd → Tree nd) : Path → Tree nd → Tree nd
  | [], t => f t
  | i :: p, mk r c s k => mk r c s (k.modify i (modify f p))

/-- Coordinates of child number `i_child`: Tree.cpp:64-67. -/
def childCoords (c : Fin nd → Int) (i_child : Nat) : Fin nd → Int :=
  fun d => 2 * c d + ((i_child / 2 ^ (nd - 1 - d.val)) % 2 : Nat)

/-- The effect of `refine()` on a leaf: the loop of Tree.cpp:59-68. -/
def refineNode : Tree nd → Tree nd
  | mk r c s _ => mk r c s ((List.range (2 ^ nd)).map fun i => mk (r + 1) (childCoords c i) unprocessed [])

/-- `unrefine()`, Tree.cpp:71 -/
def unrefineNode : Tree nd → Tree nd
  | mk r c s _ => mk r c s []

/-- `set_status()`, Tree.cpp:153-156 -/
def setStatusNode (n : Int) : Tree nd → Tree nd
  | mk r c _ k => mk r c n k

mutual
/-- `clear_status()`, Tree.cpp:187-191 -/
def clearStatusNode : Tree nd → Tree nd
  | mk r c _ k => mk r c unprocessed (clearStatusList k)
/-- loop over the children in `clear_status()`, Tree.cpp:190 -/
def clearStatusList : List (Tree nd) → List (Tree nd)
  | [] => []
  | t :: ts => clearStatusNode t :: clearStatusList ts
end

mutual
/-- `count()`, Tree.cpp:141-146 -/
def count : Tree nd → Nat
  | mk _ _ _ k => 1 + countList k
/-- loop over the children in `count()`, Tree.cpp:144 -/
def countList : List (Tree nd) → Nat
  | [] => 0
  | t :: ts => count t + countList ts
end

/-- `relative_coords` in `find_leaf`, Tree.cpp:79-81:
`c*2^(max_level - rl) - bias - coords*cell_size` with `cell_size = 2^(max_level - ref_level)`. -/
def relCoord (refLevel : Nat) (coord : Int) (rl : Nat) (c bias : Int) : Int :=
  c * 2 ^ (max refLevel rl - rl) - bias - coord * 2 ^ (max refLevel rl - refLevel)

/-- the negation of the early `return nullptr` in `find_leaf`, Tree.cpp:83-85 -/
def inCell (refLevel : Nat) (coord : Fin nd → Int) (rl : Nat) (c bias : Fin nd → Int) : Bool :=
  decide (∀ d, 0 ≤ relCoord refLevel (coord d) rl (c d) (bias d) ∧
    relCoord refLevel (coord d) rl (c d) (bias d) < 2 ^ (max refLevel rl - refLevel))

mutual
/-- `find_leaf(int rl, VectorXi c, VectorXi bias)`, Tree.cpp:73-93. The result is a path relative to this
element; `none` = `nullptr`. (The size assertions of lines 75-76 hold by typing.) -/
def findLeaf (rl : Nat) (c bias : Fin nd → Int) : Tree nd → Option Path
  | mk r co _ k =>
    if inCell r co rl c bias then
      match findLeafList rl c bias k 0 with
      | some p => some p
      | none => some []
    else none
/-- the loop over the children, Tree.cpp:87-90; `i` is the index of the head of the list -/
def findLeafList (rl : Nat) (c bias : Fin nd → Int) : List (Tree nd) → Nat → Option Path
  | [], _ => none
  | t :: ts, i => match findLeaf rl c bias t with
    | some p => some (i :: p)
    | none => findLeafList rl c bias ts (i + 1)
end

section geometry
variable {K : Type} [Field K] [LinearOrder K]

/-- `nominal_size()`, Tree.cpp:33 (exact arithmetic) -/
def nominalSize (rootSz : K) (t : Tree nd) : K := rootSz / 2 ^ t.rl
/-- `nominal_position()`, Tree.cpp:34 -/
def nominalPosition (rootSz : K) (orig : Fin nd → K) (t : Tree nd) : Fin nd → K :=
  fun d => t.nominalSize rootSz * (t.coords d : K) + orig d
/-- `center()`, Tree.cpp:35 -/
def center (rootSz : K) (orig : Fin nd → K) (t : Tree nd) : Fin nd → K :=
  fun d => t.nominalPosition rootSz orig d + t.nominalSize rootSz / 2

mutual
/-- `find_leaf(Mat<> nom_pos)`, Tree.cpp:95-108 -/
def findLeafPos (rootSz : K) (orig pos : Fin nd → K) : Tree nd → Option Path
  | mk r co s k =>
    let np := nominalPosition rootSz orig (mk r co s k)
    let ns := nominalSize rootSz (mk r co s k)
    if ∀ d, ¬ (pos d < np d ∨ pos d > np d + ns) then
      match findLeafPosList rootSz orig pos k 0 with
      | some p => some p
      | none => some []
    else none
/-- the loop over the children, Tree.cpp:103-106 -/
def findLeafPosList (rootSz : K) (orig pos : Fin nd → K) : List (Tree nd) → Nat → Option Path
  | [], _ => none
  | t :: ts, i => match findLeafPos rootSz orig pos t with
    | some p => some (i :: p)
    | none => findLeafPosList rootSz orig pos ts (i + 1)
end
end geometry

/-- `find_neighbor(direction)` called on the element at `p` of the tree with root `t`, Tree.cpp:110-122.
A dangling `p` gives `none`. -/
def findNeighbor (t : Tree nd) (p : Path) (dir : Fin nd → Int) : Option Path :=
  match get p t with
  | none => none
  | some s => findLeaf s.rl (fun d => s.coords d + if dir d > 0 then 1 else 0) (fun d => if dir d < 0 then 1 else 0) t

mutual
/-- `add_extremal_leves(add_to, bias)`, Tree.cpp:7-17, as the list of leaves appended (relative paths, in order).
C++ `%` truncates toward zero: `Int.tmod`. -/
def extremalLeaves (bias : Fin nd → Int) : Tree nd → List Path
  | mk _ _ _ [] => [[]]
  | mk _ _ _ (t :: ts) => extremalLeavesList bias (t :: ts) 0
/-- the loop over the children, Tree.cpp:10-16 -/
def extremalLeavesList (bias : Fin nd → Int) : List (Tree nd) → Nat → List Path
  | [], _ => []
  | t :: ts, i =>
    (if ∀ d, bias d = -1 ∨ bias d = (t.coords d).tmod 2
      then (extremalLeaves bias t).map (i :: ·) else []) ++ extremalLeavesList bias ts (i + 1)
end

/-- `while (main_neighbor->refinement_level() > refinement_level()) main_neighbor = main_neighbor->parent();`
Tree.cpp:132. The parent of a path is the path without its last index. `none` = the loop dereferences a
null or dangling pointer (it never does, see `Lemmas`). `fuel` bounds the walk by the length of the path. -/
def climb (t : Tree nd) (level : Nat) : Nat → Path → Option Path
  | 0, p => match get p t with
    | none => none
    | some m => if m.rl > level then none else some p
  | fuel + 1, p => match get p t with
    | none => none
    | some m => if m.rl > level then climb t level fuel p.dropLast else some p

/-- `find_neighbors(direction)` called on the element at `p` of the tree with root `t`, Tree.cpp:124-139.
`none` = a null or dangling pointer was dereferenced. -/
def findNeighbors (t : Tree nd) (p : Path) (dir : Fin nd → Int) : Option (List Path) :=
  match get p t with
  | none => none
  | some s =>
    match findNeighbor t p dir with
    | none => some []
    | some m =>
      match climb t s.rl m.length m with
      | none => none
      | some m' =>
        match get m' t with
        | none => none
        | some sub => some ((extremalLeaves (fun d => if dir d = 0 then -1 else if dir d < 0 then 1 else 0) sub).map (m' ++ ·))

/-- the direction vector built in `flood_fill`, Tree.cpp:175-177 -/
def faceDir (d : Fin nd) (sign : Int) : Fin nd → Int := fun e => if e = d then sign else 0

/-- Outcome of a call: normal return, a failed `HEXED_ASSERT` (throws), or undefined behaviour. -/
inductive Outcome (α : Type) where
  | ok (a : α)
  | throws
  | ub

/-- The elements pushed on the queue after processing the element at `p`: Tree.cpp:173-182, for the
directions still to be done. `none` = `find_neighbors` hit undefined behaviour. -/
def pushDirs (t : Tree nd) (p : Path) : List (Fin nd → Int) → Option (List Path)
  | [] => some []
  | dir :: ds => match findNeighbors t p dir, pushDirs t p ds with
    | some l, some m => some (l ++ m)
    | _, _ => none

/-- the order in which `flood_fill` tries directions, Tree.cpp:173-174 -/
def allFaceDirs (nd : Nat) : List (Fin nd → Int) :=
  (List.finRange nd).flatMap fun d => [faceDir d (-1), faceDir d 1]

mutual
/-- number of elements with status `unprocessed` (only used to show that the loop terminates) -/
def unproc : Tree nd → Nat
  | mk _ _ s k => (if s = unprocessed then 1 else 0) + unprocList k
/-- see `unproc` -/
def unprocList : List (Tree nd) → Nat
  | [] => 0
  | t :: ts => unproc t + unprocList ts
end

theorem unproc_modify_lt (n : Int) (hn : n ≠ unprocessed) : ∀ (p : Path) (t s : Tree nd),
    get p t = some s → s.status = unprocessed → unproc (modify (setStatusNode n) p t) < unproc t
  | [], mk r c st k, s, h, hs => by
    simp only [get, Option.some.injEq] at h; subst h
    simp only [status] at hs
    simp [modify, setStatusNode, unproc, hs, hn]
  | i :: p, mk r c st k, s, h, hs => by
    simp only [modify, unproc]
    have key : ∀ (k : List (Tree nd)) (i : Nat) (c : Tree nd), k[i]? = some c →
        unproc (modify (setStatusNode n) p c) < unproc c →
        unprocList (k.modify i (modify (setStatusNode n) p)) < unprocList k := by
      intro k
      induction k with
      | nil => intro i c h; simp at h
      | cons a k ih =>
        intro i c h hlt
        cases i with
        | zero =>
          simp at h; subst h
          simp only [List.modify_zero_cons, unprocList]; omega
        | succ i =>
          simp at h
          have := ih i c h hlt
          simp only [List.modify_succ_cons, unprocList]; omega
    simp only [get, children] at h
    split at h
    · simp at h
    · rename_i c' hc
      have := key k i c' hc (unproc_modify_lt n hn p c' s h hs)
      omega

/-- The queue loop of `flood_fill`, Tree.cpp:164-184. `none` = undefined behaviour (dangling pointer).
The recursion is justified by (number of unprocessed elements, queue length). -/
def floodLoop (n : Int) (hn : n ≠ unprocessed) (t : Tree nd) (queue : List Path) : Option (Tree nd) :=
  match queue with
  | [] => some t
  | p :: q =>
    match h : get p t with
    | none => none
    | some s =>
      if hs : s.status = unprocessed then
        let t' := modify (setStatusNode n) p t
        match pushDirs t' p (allFaceDirs nd) with
        | none => none
        | some l => floodLoop n hn t' (q ++ l)
      else floodLoop n hn t q
termination_by (unproc t, queue.length)
decreasing_by
  · exact Prod.Lex.left _ _ (unproc_modify_lt n hn p t s h hs)
  · exact Prod.Lex.right _ (by simp)

/-- The elements whose queue loops a call of `flood_fill` runs, in order (relative paths): the recursive call on
`children_storage[0]` of Tree.cpp:161 first, then this element itself (line 163). The queue loop only changes statuses,
so the recursion can be laid out in advance. -/
def floodStarts : Tree nd → List Path
  | mk _ _ _ [] => [[]]
  | mk _ _ _ (t :: _) => (floodStarts t).map (0 :: ·) ++ [[]]

/-- run the queue loop for every start in turn -/
def floodSeq (n : Int) (hn : n ≠ unprocessed) : List Path → Tree nd → Option (Tree nd)
  | [], t => some t
  | p :: ps, t => match floodLoop n hn t [p] with
    | none => none
    | some t' => floodSeq n hn ps t'

/-- `flood_fill(new_status)` called on the element at `p`, Tree.cpp:158-185. -/
def floodFill (n : Int) (p : Path) (t : Tree nd) : Outcome (Tree nd) :=
  if hn : n = unprocessed then .throws
  else match get p t with
    | none => .ub
    | some s => match floodSeq n hn ((floodStarts s).map (p ++ ·)) t with
      | none => .ub
      | some t' => .ok t'

/-- Calls a user can make to change a tree. -/
inductive Op where
  | refine (p : Path)
  | unrefine (p : Path)
  | setStatus (p : Path) (n : Int)
  | clearStatus (p : Path)
  | floodFill (p : Path) (n : Int)

/-- One call on the element at path `p` of the tree with root `t`. `refine` throws on a non-leaf (Tree.cpp:58). -/
def step (t : Tree nd) : Op → Outcome (Tree nd)
  | .refine p => match get p t with
    | none => .ub
    | some s => if s.isLeaf then .ok (modify refineNode p t) else .throws
  | .unrefine p => match get p t with
    | none => .ub
    | some _ => .ok (modify unrefineNode p t)
  | .setStatus p n => match get p t with
    | none => .ub
    | some _ => .ok (modify (setStatusNode n) p t)
  | .clearStatus p => match get p t with
    | none => .ub
    | some _ => .ok (modify clearStatusNode p t)
  | .floodFill p n => floodFill n p t

/-- Trees obtainable from a new tree by any history of calls. A call that throws leaves the tree as it was
(all assertions come before any mutation); a history that runs into undefined behaviour ends there. -/
inductive Reachable : Tree nd → Prop
  | new : Reachable (new nd)
  | ok {t t' : Tree nd} (op : Op) : Reachable t → step t op = .ok t' → Reachable t'

end Tree
end Hexed
