import Verif.Structured.Props
set_option autoImplicit false
set_option linter.unusedVariables false

/-!
# Evaluation in a sub-interpreter (C83)
-/

namespace Hexed.Structured
open Hexed.Namespace Hexed.Hil
variable {D : Type}

theorem onSpace_last (h : Heap D) (s : Space D) (f : Space D → Option (Space D)) :
    onSpace (h ++ [s]) h.length f = match f s with | none => .throws | some s' => .ok (h ++ [s']) := by
  simp only [onSpace, List.getElem?_concat_length]
  cases f s with
  | none => rfl
  | some s' => simp

/-- The namespace of a new sub-interpreter. -/
def subSpace (hugeVal : D) (me : Nat) : Space D where
  ints := fun _ => none
  dbls := fun m => if m = "huge" then some (.value hugeVal) else if m = "steady_time" then some (.heis 4) else if m = "system_time" then some (.heis 3) else none
  strs := fun m => if m = "format_double" then some (.value "%g") else if m = "except" then some (.value "") else if m = "exception" then some (.value "")
    else if m = "throw" then some (.heis tokThrow) else if m = "exit" then some (.heis tokExit) else if m = "ask" then some (.heis tokAsk) else none
  supers := [me]

theorem makeSub_eq (dbl : Dbl D) (hugeVal : D) (h : Heap D) (me : Nat) (hme : me < h.length) : makeSub dbl hugeVal h me = h ++ [subSpace hugeVal me] := by
  have hme' : me < h.length + 1 := by omega
  simp [makeSub, Namespace.exec, step, onSpace_last, Space.createHeis, Space.exists, Space.putHeis, Space.assign, Space.create, Space.put, Space.empty, upd, hme', subSpace]
  constructor <;> (funext m; simp only [upd])

/-- The namespace of the sub-interpreter when position and time have been assigned. -/
def pointSpace (hugeVal : D) (me : Nat) (x y z time : D) : Space D :=
  { subSpace hugeVal me with
    dbls := fun m => if m = "time" then some (.value time) else if m = "pos2" then some (.value z) else if m = "pos1" then some (.value y) else if m = "pos0" then some (.value x)
      else (subSpace hugeVal me).dbls m }

theorem spacetime_heap (ofInt : Int → D) (hugeVal zero : D) (h : Heap D) (me : Nat) (pos : List D) (hp : pos.length ≤ 3) (time : D) :
    Namespace.exec ofInt (h ++ [subSpace hugeVal me]) (spacetimeOps zero h.length pos time) =
      h ++ [pointSpace hugeVal me (pos.getD 0 zero) (pos.getD 1 zero) (pos.getD 2 zero) time] := by
  have t0 : "pos" ++ toString 0 = "pos0" := by decide +kernel
  have t1 : "pos" ++ toString 1 = "pos1" := by decide +kernel
  have t2 : "pos" ++ toString 2 = "pos2" := by decide +kernel
  match pos, hp with
  | [], _ =>
    simp only [spacetimeOps, List.zipIdx_nil, List.map_nil, List.length_nil, List.range', List.map_cons, List.nil_append, List.cons_append, t0, t1, t2, Nat.zero_add, Nat.reduceAdd, Nat.sub_zero]
    simp [Namespace.exec, step, onSpace_last, Space.exists, Space.assign, Space.create, Space.put, upd, subSpace, pointSpace]
    try (funext m; simp only [upd])
  | [a], _ =>
    simp only [spacetimeOps, List.zipIdx_cons, List.zipIdx_nil, List.map_nil, List.length_nil, List.length_cons, List.range', List.map_cons, List.nil_append, List.cons_append, t0, t1, t2, Nat.zero_add, Nat.reduceAdd, Nat.reduceSub]
    simp [Namespace.exec, step, onSpace_last, Space.exists, Space.assign, Space.create, Space.put, upd, subSpace, pointSpace]
    try (funext m; simp only [upd])
  | [a, b], _ =>
    simp only [spacetimeOps, List.zipIdx_cons, List.zipIdx_nil, List.map_nil, List.length_nil, List.length_cons, List.range', List.map_cons, List.nil_append, List.cons_append, t0, t1, t2, Nat.zero_add, Nat.reduceAdd, Nat.reduceSub]
    simp [Namespace.exec, step, onSpace_last, Space.exists, Space.assign, Space.create, Space.put, upd, subSpace, pointSpace]
    try (funext m; simp only [upd])
  | [a, b, c], _ =>
    simp only [spacetimeOps, List.zipIdx_cons, List.zipIdx_nil, List.map_nil, List.length_nil, List.length_cons, List.range', List.map_cons, List.nil_append, List.cons_append, t0, t1, t2, Nat.zero_add, Nat.reduceAdd, Nat.reduceSub]
    simp [Namespace.exec, step, onSpace_last, Space.exists, Space.assign, Space.create, Space.put, upd, subSpace, pointSpace]
    try (funext m; simp only [upd])

theorem cell_old (h : Heap D) (s : Space D) {j : Nat} (hj : j < h.length) (m : String) : cell (h ++ [s]) j m = cell h j m := by
  simp only [cell, List.getElem?_append_left hj]

theorem supers_old (h : Heap D) (s : Space D) {j : Nat} (hj : j < h.length) : supersOf (h ++ [s]) j = supersOf h j := by
  simp only [supersOf, List.getElem?_append_left hj]

/-- Names that every interpreter has of its own. -/
def ownNames : List String := ["huge", "steady_time", "system_time", "format_double", "except", "exception", "throw", "exit", "ask"]
/-- Names that are assigned for the evaluation at a point. -/
def pointNames : List String := ["pos0", "pos1", "pos2", "time"]

theorem point_cells (hugeVal : D) (me : Nat) (x y z time : D) (h : Heap D) :
    cell (h ++ [pointSpace hugeVal me x y z time]) h.length "pos0" = some (.val (.dbl x)) ∧ cell (h ++ [pointSpace hugeVal me x y z time]) h.length "pos1" = some (.val (.dbl y)) ∧
    cell (h ++ [pointSpace hugeVal me x y z time]) h.length "pos2" = some (.val (.dbl z)) ∧ cell (h ++ [pointSpace hugeVal me x y z time]) h.length "time" = some (.val (.dbl time)) ∧
    cell (h ++ [pointSpace hugeVal me x y z time]) h.length "format_double" = some (.val (.str "%g")) ∧
    (∀ m, m ∉ ownNames ++ pointNames → cell (h ++ [pointSpace hugeVal me x y z time]) h.length m = none) := by
  simp only [cell, List.getElem?_concat_length]
  refine ⟨by simp [pointSpace, subSpace, cellOf], by simp [pointSpace, subSpace, cellOf], by simp [pointSpace, subSpace, cellOf], by simp [pointSpace, subSpace, cellOf],
    by simp [pointSpace, subSpace, cellOf], fun m hm => ?_⟩
  simp only [ownNames, pointNames, List.cons_append, List.nil_append, List.mem_cons, List.not_mem_nil, or_false, not_or] at hm
  obtain ⟨h1, h2, h3, h4, h5, h6, h7, h8, h9, h10, h11, h12, h13⟩ := hm
  simp [pointSpace, subSpace, *]

/-- The variables in which the expressions of a function of space and time are evaluated. -/
def pointHeap (env : Env D) (hugeVal zero : D) (h : Heap D) (pos : List D) (time : D) : Heap D :=
  Namespace.exec env.dbl.ofInt (makeSub env.dbl hugeVal h env.me) (spacetimeOps zero h.length pos time)

/-- Before the expressions of a function of space and time are evaluated at a point, the variables `pos0`, `pos1`, `pos2` are the coordinates of the point, 0 where it has
none, and `time` is the time. All variables that existed before are as they were, and can be read if the sub-interpreter has none of that name. -/
theorem point_exact (env : Env D) (hugeVal zero : D) {h : Heap D} (r : Reachable env.dbl.ofInt h) (hme : env.me < h.length) (pos : List D) (hp : pos.length ≤ 3) (time : D) :
    let h' := pointHeap env hugeVal zero h pos time
    let me' := h.length
    Reachable env.dbl.ofInt h' ∧ h'.length = h.length + 1 ∧
    (∀ i (hi : i < pos.length), lookupDbl env.dbl.ofInt h' me' ("pos" ++ toString i) = .val pos[i]) ∧
    (∀ i, pos.length ≤ i → i < 3 → lookupDbl env.dbl.ofInt h' me' ("pos" ++ toString i) = .val zero) ∧
    lookupDbl env.dbl.ofInt h' me' "time" = .val time ∧
    (∀ j m, j < h.length → cell h' j m = cell h j m) ∧
    (∀ m, m ∉ ownNames ++ pointNames → supersOf h env.me = [] →
      match cell h env.me m with
      | some c => lookupInt h' me' m = specInt c ∧ lookupDbl env.dbl.ofInt h' me' m = specDbl env.dbl.ofInt c ∧ lookupStr h' me' m = specStr c
      | none => lookupInt h' me' m = .none ∧ lookupDbl env.dbl.ofInt h' me' m = .none ∧ lookupStr h' me' m = .none) := by
  intro h' me'
  have r1 : Reachable env.dbl.ofInt h' := reachable_exec (reachable_exec r _) _
  have e : h' = h ++ [pointSpace hugeVal env.me (pos.getD 0 zero) (pos.getD 1 zero) (pos.getD 2 zero) time] := by
    simp only [h', pointHeap]
    rw [makeSub_eq env.dbl hugeVal h env.me hme, spacetime_heap env.dbl.ofInt hugeVal zero h env.me pos hp time]
  obtain ⟨c0, c1, c2, ct, _, cn⟩ := point_cells hugeVal env.me (pos.getD 0 zero) (pos.getD 1 zero) (pos.getD 2 zero) time h
  rw [← e] at c0 c1 c2 ct cn
  have t0 : "pos" ++ toString 0 = "pos0" := by decide +kernel
  have t1 : "pos" ++ toString 1 = "pos1" := by decide +kernel
  have t2 : "pos" ++ toString 2 = "pos2" := by decide +kernel
  have all : ∀ i, i < 3 → lookupDbl env.dbl.ofInt h' me' ("pos" ++ toString i) = .val (pos.getD i zero) := by
    intro i hi
    match i, hi with
    | 0, _ => rw [t0]; exact (lookup_local r1 c0).2.1
    | 1, _ => rw [t1]; exact (lookup_local r1 c1).2.1
    | 2, _ => rw [t2]; exact (lookup_local r1 c2).2.1
  refine ⟨r1, by simp [e], fun i hi => ?_, fun i hi h3 => ?_, (lookup_local r1 ct).2.1, fun j m hj => by rw [e]; exact cell_old h _ hj m, fun m hm hflat => ?_⟩
  · rw [all i (by omega)]; simp [List.getD, hi]
  · rw [all i h3]; simp [List.getD, hi]
  · have hs : supersOf h' me' = [env.me] := by simp [e, supersOf, me', pointSpace, subSpace]
    have := lookup_inherits_partial r1 (id := me') (by simp [e, me']) (cn m hm) (by
      intro j hj
      rw [hs, List.mem_singleton] at hj
      subst hj
      rw [e, supers_old h _ hme, hflat])
    rw [hs] at this
    simp only [firstDefining] at this
    rw [show cell h' env.me m = cell h env.me m by rw [e]; exact cell_old h _ hme m] at this
    cases hc : cell h env.me m with
    | none => simpa [hc] using this
    | some c => simpa [hc] using this

/-- A function of space and time given by a structured expression: its components are the values of the statements, executed one after the other where `pos0` and so on
have the values at the point, and evaluating it changes no variable of any interpreter that existed before. -/
theorem spacetime_exact (env : Env D) (hugeVal zero : D) {ss : List (Stmt × List Char)} {t : List Char} (hs : Structured ss t) {names exprs : List (List Char)}
    (hmake : make t = .ok names exprs) (st : St D) (r : Reachable env.dbl.ofInt st.heap) (hme : env.me < st.heap.length) (pos : List D) (hp : pos.length ≤ 3) (time : D)
    (hpl : ProgPlain { env with me := st.heap.length } ss (pointHeap env hugeVal zero st.heap pos time))
    (hnum : Numbers { env with me := st.heap.length } ss (pointHeap env hugeVal zero st.heap pos time))
    {h : Heap D} {o : List String} (hr : run { env with me := st.heap.length } ss (pointHeap env hugeVal zero st.heap pos time) st.out = .done h o) :
    (∃ vals st', Ev (fun f => spacetimeExpr env hugeVal zero f names exprs pos time st) (.ok vals st') ∧ st'.heap = h ∧ st'.out = o ∧
      Values { env with me := st.heap.length } ss (pointHeap env hugeVal zero st.heap pos time) st.out vals) ∧
    ∀ j m, j < st.heap.length → cell h j m = cell st.heap j m := by
  obtain ⟨r1, hl, _, _, _, hold, _⟩ := point_exact env hugeVal zero r hme pos hp time
  obtain ⟨_, ⟨vals, st', a, b, c, d⟩, _, hfr⟩ := eval_exact { env with me := st.heap.length } hs hmake { st with text := [], heap := pointHeap env hugeVal zero st.heap pos time } r1
    (by simp only; omega) hpl hnum hr
  refine ⟨⟨vals, st', a, b, c, d⟩, fun j m hj => ?_⟩
  rw [hfr j m (Or.inl (by simp only; omega)), hold j m hj]

/-- What the sub-interpreter does not take over: the user's choice of the format of numbers. -/
theorem point_format (env : Env D) (hugeVal zero : D) {h : Heap D} (r : Reachable env.dbl.ofInt h) (hme : env.me < h.length) (pos : List D) (hp : pos.length ≤ 3) (time : D) :
    lookupStr (pointHeap env hugeVal zero h pos time) h.length "format_double" = .val "%g" := by
  have r1 : Reachable env.dbl.ofInt (pointHeap env hugeVal zero h pos time) := reachable_exec (reachable_exec r _) _
  have e : pointHeap env hugeVal zero h pos time = h ++ [pointSpace hugeVal env.me (pos.getD 0 zero) (pos.getD 1 zero) (pos.getD 2 zero) time] := by
    simp only [pointHeap]
    rw [makeSub_eq env.dbl hugeVal h env.me hme, spacetime_heap env.dbl.ofInt hugeVal zero h env.me pos hp time]
  obtain ⟨_, _, _, _, cf, _⟩ := point_cells hugeVal env.me (pos.getD 0 zero) (pos.getD 1 zero) (pos.getD 2 zero) time h
  rw [← e] at cf
  exact (lookup_local r1 cf).2.2

end Hexed.Structured
