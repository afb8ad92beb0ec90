import Mathlib.Data.Finset.Sort
import Mathlib.Data.Finset.Max
import Mathlib.Algebra.Order.Field.Basic
set_option autoImplicit false
set_option linter.unusedVariables false

/-!
# Model of `hexed::Vertex` and its pointer classes (include/Vertex.hpp, src/Vertex.cpp)

Objects live at addresses (natural numbers). `none` is undefined behaviour: use of an object that is not alive. `std::set`s of
pointers are finite sets iterated in increasing address order. `shared_ptr<Vertex>` is modelled with its use count, kept beside
the vertex. `double` is a field `K`. The members `temp_vector`, `lock` and the values stored in a `Transferable_ptr`
(`shareable_value`, `mobile`, `needs_smooth`, `fix_admis_coef`) are not modelled.
-/

namespace Hexed.Vertex
variable {K : Type} [Field K]

/-- The data members of `Vertex` (Vertex.hpp:28, 30, 64-66) and the use count of the shared pointers to it. -/
structure Vert (K : Type) where
  pos : Fin 3 → K
  record : List Int
  trbl : Finset Nat
  nont : Finset Nat
  neigh : Finset Nat
  uc : Nat

/-- Memory: vertices, `Transferable_ptr` objects (with the vertex each points to), `Non_transferable_ptr` objects. -/
structure M (K : Type) where
  verts : Nat → Option (Vert K)
  tp : Nat → Option Nat
  np : Nat → Option (Option Nat)

def upd {A : Type} (f : Nat → A) (k : Nat) (v : A) : Nat → A := fun i => if i = k then v else f i

/-- Write to a vertex; undefined if it is not alive. -/
def modV (m : M K) (a : Nat) (f : Vert K → Vert K) : Option (M K) :=
  (m.verts a).map fun v => { m with verts := upd m.verts a (some (f v)) }

/-- `*set.begin()`; undefined for an empty set. -/
def begin_ (s : Finset Nat) : Option Nat := if h : s.Nonempty then some (s.min' h) else none

/-- `Non_transferable_ptr::nullify`, Vertex.cpp:178-184. -/
def nullify (m : M K) (n : Nat) : Option (M K) :=
  (m.np n).bind fun p => match p with
    | none => some m
    | some a => (modV m a fun v => { v with nont := v.nont.erase n }).map fun m => { m with np := upd m.np n (some none) }

/-- First loop of `~Vertex`, Vertex.cpp:22-25. -/
def nullifyLoop (a : Nat) : Nat → M K → Option (M K)
  | 0, m => some m
  | k + 1, m => (m.verts a).bind fun v => (begin_ v.nont).bind fun n => (nullify m n).bind fun m => nullifyLoop a k m

/-- Second loop of `~Vertex`, Vertex.cpp:26-28, over the neighbours `l`. Erasing from the set that is iterated is undefined. -/
def forgetLoop (a : Nat) : List Nat → M K → Option (M K)
  | [], m => some m
  | b :: l, m => if b = a then none else (modV m b fun v => { v with neigh := v.neigh.erase a }).bind fun m => forgetLoop a l m

/-- `~Vertex`, Vertex.cpp:20-29, and deallocation. -/
def destroyVertex (m : M K) (a : Nat) : Option (M K) :=
  (m.verts a).bind fun v => (nullifyLoop a v.nont.card m).bind fun m =>
    (forgetLoop a (v.neigh.sort (· ≤ ·)) m).map fun m => { m with verts := upd m.verts a none }

/-- A `shared_ptr` to vertex `a` lets go. -/
def release (m : M K) (a : Nat) : Option (M K) :=
  (m.verts a).bind fun v =>
    if v.uc = 0 then none
    else if v.uc = 1 then destroyVertex m a
    else modV m a fun v => { v with uc := v.uc - 1 }

/-- `Transferable_ptr(Mat<3> pos, bool)`, Vertex.cpp:93-97: a new vertex at the free address `a`, a pointer to it at `p`. -/
def newT (m : M K) (p a : Nat) (pos : Fin 3 → K) : M K :=
  { m with verts := upd m.verts a (some ⟨pos, [], {p}, ∅, ∅, 1⟩), tp := upd m.tp p (some a) }

/-- `Transferable_ptr(const Transferable_ptr&)`, Vertex.cpp:99-103: copy of `q` at the free address `p`. -/
def copyT (m : M K) (p q : Nat) : Option (M K) :=
  (m.tp q).bind fun a => (modV m a fun v => { v with trbl := insert p v.trbl, uc := v.uc + 1 }).map fun m =>
    { m with tp := upd m.tp p (some a) }

/-- `~Transferable_ptr`, Vertex.cpp:105-108; the member `ptr` is destroyed after the body. -/
def destroyT (m : M K) (p : Nat) : Option (M K) :=
  (m.tp p).bind fun a => (modV m a fun v => { v with trbl := v.trbl.erase p }).bind fun m =>
    release { m with tp := upd m.tp p none } a

/-- `Transferable_ptr::operator=`, Vertex.cpp:110-116. Assigning a `shared_ptr` first takes the new vertex, then releases the
old one. -/
def assignT (m : M K) (p q : Nat) : Option (M K) :=
  (m.tp p).bind fun a => (modV m a fun v => { v with trbl := v.trbl.erase p }).bind fun m =>
    (m.tp q).bind fun b =>
      (if a = b then some m
       else (modV m b fun v => { v with uc := v.uc + 1 }).bind fun m => release { m with tp := upd m.tp p (some b) } a).bind fun m =>
        modV m b fun v => { v with trbl := insert p v.trbl }

/-- `Vertex::connect`, Vertex.cpp:70-76. -/
def connect (m : M K) (a b : Nat) : Option (M K) :=
  if a ≠ b then
    (modV m a fun v => { v with neigh := insert b v.neigh }).bind fun m => modV m b fun v => { v with neigh := insert a v.neigh }
  else some m

/-- `Vertex::are_neighbors`, Vertex.cpp:78-81. -/
def areNeighbors (m : M K) (a b : Nat) : Option Bool := (m.verts a).map fun v => decide (b ∈ v.neigh)

/-- `Vertex::mass`, Vertex.cpp:55-58. -/
def mass (m : M K) (a : Nat) : Option Nat := (m.verts a).map fun v => v.trbl.card

/-- The loop of `eat` that steals neighbours, Vertex.cpp:40-42. -/
def stealLoop (a : Nat) : List Nat → M K → Option (M K)
  | [], m => some m
  | n :: l, m => (connect m a n).bind fun m => stealLoop a l m

/-- The loop of `eat` that steals `Transferable_ptr`s, Vertex.cpp:48-51. -/
def moveLoop (b this_ptr : Nat) : Nat → M K → Option (M K)
  | 0, m => some m
  | k + 1, m => (m.verts b).bind fun v => (begin_ v.trbl).bind fun q => (assignT m q this_ptr).bind fun m => moveLoop b this_ptr k m

/-- `Vertex::eat`, Vertex.cpp:31-53: `a` eats `b`. -/
def eat (m : M K) (a b : Nat) : Option (M K) :=
  if a ≠ b then
    (m.verts a).bind fun va => (m.verts b).bind fun vb =>
      let ms : K := va.trbl.card
      let om : K := vb.trbl.card
      (modV m a fun v => { v with pos := fun i => (ms * v.pos i + om * vb.pos i) / (ms + om) }).bind fun m =>
        (stealLoop a (vb.neigh.sort (· ≤ ·)) m).bind fun m =>
          (modV m a fun v => { v with record := v.record ++ vb.record }).bind fun m =>
            (m.verts a).bind fun va => (begin_ va.trbl).bind fun this_ptr =>
              (m.verts b).bind fun vb => moveLoop b this_ptr vb.trbl.card m
  else some m

/-- `Non_transferable_ptr(Vertex&)`, Vertex.cpp:138-142, at the free address `n`. -/
def newN (m : M K) (n a : Nat) : Option (M K) :=
  (modV m a fun v => { v with nont := insert n v.nont }).map fun m => { m with np := upd m.np n (some (some a)) }

/-- `Non_transferable_ptr(const Non_transferable_ptr&)`, Vertex.cpp:144-148. -/
def copyN (m : M K) (n k : Nat) : Option (M K) :=
  (m.np k).bind fun p => match p with
    | none => some { m with np := upd m.np n (some none) }
    | some a => newN m n a

/-- `~Non_transferable_ptr`, Vertex.cpp:150-153. -/
def destroyN (m : M K) (n : Nat) : Option (M K) := (nullify m n).map fun m => { m with np := upd m.np n none }

/-- `Non_transferable_ptr::operator=`, Vertex.cpp:155-161. -/
def assignN (m : M K) (n k : Nat) : Option (M K) :=
  (nullify m n).bind fun m => (m.np k).bind fun p => match p with
    | none => some { m with np := upd m.np n (some none) }
    | some a => (modV m a fun v => { v with nont := insert n v.nont }).map fun m => { m with np := upd m.np n (some (some a)) }

/-- The calls a program can make. -/
inductive Op (K : Type)
  | newT (p a : Nat) (pos : Fin 3 → K)
  | copyT (p q : Nat)
  | destroyT (p : Nat)
  | assignT (p q : Nat)
  | connect (p q : Nat)
  | eat (p q : Nat)
  | newN (n q : Nat)
  | copyN (n k : Nat)
  | destroyN (n : Nat)
  | assignN (n k : Nat)

/-- Perform a call. Vertices are accessed through `Transferable_ptr`s (`operator*`). -/
def step (m : M K) : Op K → Option (M K)
  | .newT p a pos => some (newT m p a pos)
  | .copyT p q => copyT m p q
  | .destroyT p => destroyT m p
  | .assignT p q => assignT m p q
  | .connect p q => (m.tp p).bind fun a => (m.tp q).bind fun b => connect m a b
  | .eat p q => (m.tp p).bind fun a => (m.tp q).bind fun b => eat m a b
  | .newN n q => (m.tp q).bind fun a => newN m n a
  | .copyN n k => copyN m n k
  | .destroyN n => destroyN m n
  | .assignN n k => assignN m n k

/-- What C++ requires of a call: new objects at free addresses, arguments alive. -/
def Legal (m : M K) : Op K → Prop
  | .newT p a _ => m.tp p = none ∧ m.verts a = none
  | .copyT p q => m.tp p = none ∧ m.tp q ≠ none
  | .destroyT p => m.tp p ≠ none
  | .assignT p q => m.tp p ≠ none ∧ m.tp q ≠ none
  | .connect p q => m.tp p ≠ none ∧ m.tp q ≠ none
  | .eat p q => m.tp p ≠ none ∧ m.tp q ≠ none
  | .newN n q => m.np n = none ∧ m.tp q ≠ none
  | .copyN n k => m.np n = none ∧ m.np k ≠ none
  | .destroyN n => m.np n ≠ none
  | .assignN n k => m.np n ≠ none ∧ m.np k ≠ none

/-- Memory without any object. -/
def M.empty : M K := ⟨fun _ => none, fun _ => none, fun _ => none⟩

/-- The memories a program can bring about. -/
inductive Reach : M K → Prop
  | init : Reach M.empty
  | step {m m' : M K} {op : Op K} : Reach m → Legal m op → step m op = some m' → Reach m'

end Hexed.Vertex
