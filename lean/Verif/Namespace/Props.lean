import Verif.Namespace.Lemmas
set_option autoImplicit false
set_option linter.unusedVariables false

/-!
# Properties C09 and C10: HIL variables and namespace inheritance

All statements are about `cell h id n`, the variable called `n` in namespace object `id`
(`Spec.lean`), and about the results of the three `lookup` instantiations.
-/

namespace Hexed.Namespace

variable {D : Type}

/-! ## C09 -/

/-- C09: in every reachable state a name has at most one type: it is in at most one of the three maps. -/
theorem one_type {ofInt : Int → D} {h : Heap D} (r : Reachable ofInt h) {id : Nat} {s : Space D}
    (hs : h[id]? = some s) (n : String) :
    (s.ints n).isSome.toNat + (s.dbls n).isSome.toNat + (s.strs n).isSome.toNat ≤ 1 := by
  have w := (reachable_hwf r id s hs).1 n
  cases hi : s.ints n <;> cases hd : s.dbls n <;> cases ht : s.strs n <;> simp_all

/-- C09: what `assign` does, exactly: it is rejected (exception) precisely when the specification rejects it;
otherwise it binds the name to the specified (possibly promoted) value and changes no other variable of any
namespace, nor any inheritance link. -/
theorem assign_exact {ofInt : Int → D} {h : Heap D} (r : Reachable ofInt h) (id : Nat) (lt : id < h.length)
    (n : String) (v : Val D) :
    match specAssign ofInt (cell h id n) v with
    | none => step ofInt h (.assign id n v) = .throws
    | some c => ∃ h', step ofInt h (.assign id n v) = .ok h' ∧ cell h' id n = some c ∧
        (∀ id' m, ¬(id' = id ∧ m = n) → cell h' id' m = cell h id' m) ∧
        (∀ id', supersOf h' id' = supersOf h id') := by
  have a := assign_lift ofInt h (reachable_hwf r) id n v lt
  cases hc : specAssign ofInt (cell h id n) v with
  | none => rw [hc] at a; exact a
  | some c =>
    rw [hc] at a
    obtain ⟨h', e, _, _, b, c, d⟩ := a
    exact ⟨h', e, b, c, d⟩

/-- C09: `create` succeeds exactly on names that do not exist in this namespace, and affects only that name. -/
theorem create_exact {ofInt : Int → D} {h : Heap D} (r : Reachable ofInt h) (id : Nat) (lt : id < h.length)
    (n : String) (v : Val D) :
    match cell h id n with
    | some _ => step ofInt h (.create id n v) = .throws
    | none => ∃ h', step ofInt h (.create id n v) = .ok h' ∧ cell h' id n = some (.val v) ∧
        (∀ id' m, ¬(id' = id ∧ m = n) → cell h' id' m = cell h id' m) ∧
        (∀ id', supersOf h' id' = supersOf h id') := by
  have hs : h[id]? = some h[id] := List.getElem?_eq_getElem lt
  have wf := reachable_hwf r
  rw [cell_self h id _ n hs]
  cases hc : h[id].cell n with
  | some c => simp [step, onSpace, hs, Space.create, exists_iff, hc]
  | none =>
    have p := put_spec h[id] (wf id _ hs).1 n v hc
    obtain ⟨h', e, _, _, b, c, d⟩ := onSpace_lift h wf id _ (h[id].put n v) n (.val v)
      (fun s => s.create n v) hs (by simp [Space.create, exists_iff, hc]) p.1 p.2.1 p.2.2.1 p.2.2.2
    exact ⟨h', e, b, c, d⟩

/-- C09: the same for Heisenberg variables. -/
theorem createHeis_exact {ofInt : Int → D} {h : Heap D} (r : Reachable ofInt h) (id : Nat) (lt : id < h.length)
    (n : String) (t : Ty) (tok : Nat) :
    match cell h id n with
    | some _ => step ofInt h (.createHeis id n t tok) = .throws
    | none => ∃ h', step ofInt h (.createHeis id n t tok) = .ok h' ∧ cell h' id n = some (.heis t tok) ∧
        (∀ id' m, ¬(id' = id ∧ m = n) → cell h' id' m = cell h id' m) ∧
        (∀ id', supersOf h' id' = supersOf h id') := by
  have hs : h[id]? = some h[id] := List.getElem?_eq_getElem lt
  have wf := reachable_hwf r
  rw [cell_self h id _ n hs]
  cases hc : h[id].cell n with
  | some c => simp [step, onSpace, hs, Space.createHeis, exists_iff, hc]
  | none =>
    have p := putHeis_spec h[id] (wf id _ hs).1 n t tok hc
    obtain ⟨h', e, _, _, b, c, d⟩ := onSpace_lift h wf id _ (h[id].putHeis n tok t) n (.heis t tok)
      (fun s => s.createHeis n tok t) hs (by simp [Space.createHeis, exists_iff, hc]) p.1 p.2.1 p.2.2.1 p.2.2.2
    exact ⟨h', e, b, c, d⟩

/-- C09: `assign_default` never changes an existing variable of this namespace, and creates a missing one
exactly when `exists_recursive` is false. -/
theorem assignDefault_exact {ofInt : Int → D} {h : Heap D} (r : Reachable ofInt h) (id : Nat) (lt : id < h.length)
    (n : String) (v : Val D) :
    if existsRec h id n then step ofInt h (.assignDefault id n v) = .ok h
    else cell h id n = none ∧ ∃ h', step ofInt h (.assignDefault id n v) = .ok h' ∧ cell h' id n = some (.val v) ∧
      (∀ id' m, ¬(id' = id ∧ m = n) → cell h' id' m = cell h id' m) := by
  split
  · rename_i e; simp [step, e]
  · rename_i e
    have hs : h[id]? = some h[id] := List.getElem?_eq_getElem lt
    have hx : cell h id n = none := by
      rw [cell_self h id _ n hs]
      simp only [existsRec, hs, exists_iff] at e
      cases hc : h[id].cell n with
      | none => rfl
      | some c => simp [hc] at e
    refine ⟨hx, ?_⟩
    have a := assign_lift ofInt h (reachable_hwf r) id n v lt
    rw [hx] at a
    have : specAssign ofInt (none : Option (Cell D)) v = some (.val v) := by cases v <;> rfl
    rw [this] at a
    obtain ⟨h', e', _, _, b, c, d⟩ := a
    exact ⟨h', by simpa [step, e] using e', b, c⟩

/-- An operation that writes variable `n` of namespace `id`. -/
def Writes (id : Nat) (n : String) : Op D → Prop
  | .create i m _ => i = id ∧ m = n
  | .createHeis i m _ _ => i = id ∧ m = n
  | .assign i m _ => i = id ∧ m = n
  | .assignDefault i m _ => i = id ∧ m = n
  | _ => False

theorem step_out_of_range {ofInt : Int → D} {h h' : Heap D} {op : Op D} {i : Nat} (f : Space D → Option (Space D))
    (e : onSpace h i f = .ok h') : i < h.length := by
  obtain ⟨s, _, hs, _⟩ := onSpace_ok _ _ _ _ e
  exact (List.getElem?_eq_some_iff.mp hs).1

/-- C09: only operations that name a variable change it. -/
theorem step_frame {ofInt : Int → D} {h h' : Heap D} (r : Reachable ofInt h) {op : Op D}
    (e : step ofInt h op = .ok h') {id : Nat} (lt : id < h.length) {n : String} (nw : ¬ Writes id n op) :
    cell h' id n = cell h id n := by
  cases op with
  | new =>
    simp only [step, Outcome.ok.injEq] at e; subst e
    rw [cell_eq, cell_eq, List.getElem?_append_left lt]
  | addSuper i sup =>
    simp only [step] at e
    split at e
    · obtain ⟨s, s', hs, e1, e2⟩ := onSpace_ok _ _ _ _ e
      simp only [Option.some.injEq] at e1
      subst e1 e2
      by_cases hi : id = i
      · subst hi
        rw [cell_set_self h _ s _ n hs, cell_self h _ s n hs]; rfl
      · exact cell_set_ne h i id _ n hi
    · simp at e
  | create i m v =>
    have li := step_out_of_range (ofInt := ofInt) (op := .create i m v) _ (by simpa [step] using e)
    have a := create_exact r i li m v
    cases hc : cell h i m with
    | some c => rw [hc] at a; rw [a] at e; simp at e
    | none =>
      rw [hc] at a
      obtain ⟨h1, e1, _, f, _⟩ := a
      rw [e1] at e; simp only [Outcome.ok.injEq] at e; subst e
      exact f id n (fun hh => nw ⟨hh.1.symm, hh.2.symm⟩)
  | createHeis i m t tok =>
    have li := step_out_of_range (ofInt := ofInt) (op := .createHeis i m t tok) _ (by simpa [step] using e)
    have a := createHeis_exact r i li m t tok
    cases hc : cell h i m with
    | some c => rw [hc] at a; rw [a] at e; simp at e
    | none =>
      rw [hc] at a
      obtain ⟨h1, e1, _, f, _⟩ := a
      rw [e1] at e; simp only [Outcome.ok.injEq] at e; subst e
      exact f id n (fun hh => nw ⟨hh.1.symm, hh.2.symm⟩)
  | assign i m v =>
    have li := step_out_of_range (ofInt := ofInt) (op := .assign i m v) _ (by simpa [step] using e)
    have a := assign_exact r i li m v
    cases hc : specAssign ofInt (cell h i m) v with
    | none => rw [hc] at a; rw [a] at e; simp at e
    | some c =>
      rw [hc] at a
      obtain ⟨h1, e1, _, f, _⟩ := a
      rw [e1] at e; simp only [Outcome.ok.injEq] at e; subst e
      exact f id n (fun hh => nw ⟨hh.1.symm, hh.2.symm⟩)
  | assignDefault i m v =>
    by_cases hx : existsRec h i m
    · simp only [step, hx, if_true, Outcome.ok.injEq] at e; subst e; rfl
    · have li := step_out_of_range (ofInt := ofInt) (op := .assignDefault i m v) _ (by simpa [step, hx] using e)
      have a := assignDefault_exact r i li m v
      simp only [hx] at a
      obtain ⟨_, h1, e1, _, f⟩ := a
      rw [e1] at e; simp only [Outcome.ok.injEq] at e; subst e
      exact f id n (fun hh => nw ⟨hh.1.symm, hh.2.symm⟩)

theorem cell_some_lt {h : Heap D} {id : Nat} {n : String} {c : Cell D} (e : cell h id n = some c) :
    id < h.length := by
  rw [cell_eq] at e
  cases hs : h[id]? with
  | none => rw [hs] at e; simp at e
  | some s => exact (List.getElem?_eq_some_iff.mp hs).1

theorem specAssign_ty {ofInt : Int → D} {c c' : Cell D} {v : Val D}
    (e : specAssign ofInt (some c) v = some c') : c'.ty = c.ty := by
  cases c with
  | heis t k => simp [specAssign] at e
  | val w => cases w <;> cases v <;> simp [specAssign] at e <;> subst e <;> rfl

/-- C09: a variable keeps its type for life, whatever calls follow. -/
theorem type_for_life {ofInt : Int → D} {h : Heap D} (r : Reachable ofInt h) {id : Nat} {n : String} {c : Cell D}
    (hc : cell h id n = some c) (ops : List (Op D)) :
    ∃ c', cell (exec ofInt h ops) id n = some c' ∧ c'.ty = c.ty := by
  induction ops generalizing h c with
  | nil => exact ⟨c, hc, rfl⟩
  | cons op ops ih =>
    unfold exec
    cases e : step ofInt h op with
    | throws => exact ih r hc
    | ok h' =>
      have r' : Reachable ofInt h' := by
        have := reachable_exec r [op]
        simpa [exec, e] using this
      by_cases w : Writes id n op
      · have lt := cell_some_lt hc
        cases op with
        | new => exact absurd w (by simp [Writes])
        | addSuper a b => exact absurd w (by simp [Writes])
        | create i m v =>
          obtain ⟨rfl, rfl⟩ := w
          have a := create_exact r _ lt m v
          rw [hc] at a; rw [a] at e; simp at e
        | createHeis i m t tok =>
          obtain ⟨rfl, rfl⟩ := w
          have a := createHeis_exact r _ lt m t tok
          rw [hc] at a; rw [a] at e; simp at e
        | assign i m v =>
          obtain ⟨rfl, rfl⟩ := w
          have a := assign_exact r _ lt m v
          rw [hc] at a
          cases hs : specAssign ofInt (some c) v with
          | none => rw [hs] at a; rw [a] at e; simp at e
          | some c1 =>
            rw [hs] at a
            obtain ⟨h1, e1, f, _⟩ := a
            rw [e1] at e; simp only [Outcome.ok.injEq] at e; subst e
            obtain ⟨c2, p, q⟩ := ih r' f
            exact ⟨c2, p, q.trans (specAssign_ty hs)⟩
        | assignDefault i m v =>
          obtain ⟨rfl, rfl⟩ := w
          have a := assignDefault_exact r _ lt m v
          split at a
          · rw [a] at e; simp only [Outcome.ok.injEq] at e; subst e
            exact ih r hc
          · rw [a.1] at hc; simp at hc
      · exact ih r' (by rw [step_frame r e (cell_some_lt hc) w]; exact hc)

/-- C09/C10: a variable that exists in the namespace itself is what all three lookups read. -/
theorem lookup_local {ofInt : Int → D} {h : Heap D} (r : Reachable ofInt h) {id : Nat} {n : String} {c : Cell D}
    (hc : cell h id n = some c) :
    lookupInt h id n = specInt c ∧ lookupDbl ofInt h id n = specDbl ofInt c ∧ lookupStr h id n = specStr c := by
  have lt := cell_some_lt hc
  have hs : h[id]? = some h[id] := List.getElem?_eq_getElem lt
  have w := (reachable_hwf r id _ hs).1 n
  rw [cell_self h id _ n hs] at hc
  have hx : h[id].exists n = true := by rw [exists_iff, hc]; rfl
  unfold lookupInt lookupDbl lookupStr lookupVal
  rw [lookup_of_exists _ h id n _ hs hx, lookup_of_exists _ h id n _ hs hx, lookup_of_exists _ h id n _ hs hx]
  unfold Space.cell at hc
  cases hi : h[id].ints n with
  | some o =>
    have ⟨hd, ht⟩ := w.1 (by simp [hi])
    simp only [hi, Option.some.injEq] at hc
    subst hc
    cases o <;> simp [Space.localInt, Space.localDbl, Space.localStr, hi, hd, ht, specInt, specDbl, specStr,
      cellOf, Var.read]
  | none =>
    cases hd : h[id].dbls n with
    | some o =>
      have ⟨_, ht⟩ := w.2.1 (by simp [hd])
      simp only [hi, hd, Option.some.injEq] at hc
      subst hc
      cases o <;> simp [Space.localInt, Space.localDbl, Space.localStr, hi, hd, ht, specInt, specDbl, specStr,
        cellOf, Var.read]
    | none =>
      cases ht : h[id].strs n with
      | some o =>
        simp only [hi, hd, ht, Option.some.injEq] at hc
        subst hc
        cases o <;> simp [Space.localInt, Space.localDbl, Space.localStr, hi, hd, ht, specInt, specDbl, specStr,
          cellOf, Var.read]
      | none => simp [hi, hd, ht] at hc

/-- C09: lookup returns the latest assigned value: after an accepted assignment and any further calls none of
which writes that variable, the variable still holds what the specification of that assignment says. -/
theorem lookup_latest {ofInt : Int → D} {h h' : Heap D} (r : Reachable ofInt h) {id : Nat} {n : String} {v : Val D}
    (e : step ofInt h (.assign id n v) = .ok h') (ops : List (Op D)) (nw : ∀ op ∈ ops, ¬ Writes id n op) :
    ∃ c, specAssign ofInt (cell h id n) v = some c ∧
      lookupInt (exec ofInt h' ops) id n = specInt c ∧
      lookupDbl ofInt (exec ofInt h' ops) id n = specDbl ofInt c ∧
      lookupStr (exec ofInt h' ops) id n = specStr c := by
  have li := step_out_of_range (ofInt := ofInt) (op := .assign id n v) _ (by simpa [step] using e)
  have a := assign_exact r id li n v
  cases hs : specAssign ofInt (cell h id n) v with
  | none => rw [hs] at a; rw [a] at e; simp at e
  | some c =>
    rw [hs] at a
    obtain ⟨h1, e1, f, _⟩ := a
    rw [e1] at e; simp only [Outcome.ok.injEq] at e; subst e
    have r' : Reachable ofInt h1 := by
      have := reachable_exec r [.assign id n v]
      simpa [exec, e1] using this
    refine ⟨c, rfl, ?_⟩
    have keep : ∀ (ops : List (Op D)) (g : Heap D), Reachable ofInt g → cell g id n = some c →
        (∀ op ∈ ops, ¬ Writes id n op) → cell (exec ofInt g ops) id n = some c := by
      intro ops
      induction ops with
      | nil => intro g _ hg _; exact hg
      | cons op ops ih =>
        intro g rg hg hw
        unfold exec
        cases e2 : step ofInt g op with
        | throws => exact ih g rg hg (fun o ho => hw o (List.mem_cons_of_mem _ ho))
        | ok g' =>
          refine ih g' (by simpa [exec, e2] using reachable_exec rg [op]) ?_
            (fun o ho => hw o (List.mem_cons_of_mem _ ho))
          rw [step_frame rg e2 (cell_some_lt hg) (hw op List.mem_cons_self)]
          exact hg
    exact lookup_local (reachable_exec r' ops) (keep ops h1 r' f nw)

/-- An `int` assigned to a float variable is read back as the converted float, and never as an int or string. -/
theorem promotion {ofInt : Int → D} {h : Heap D} (r : Reachable ofInt h) {id : Nat} {n : String} {d : D} {i : Int}
    (hc : cell h id n = some (.val (.dbl d))) :
    ∃ h', step ofInt h (.assign id n (.int i)) = .ok h' ∧ lookupDbl ofInt h' id n = .val (ofInt i) ∧
      lookupInt h' id n = .none ∧ lookupStr h' id n = .none := by
  have a := assign_exact r id (cell_some_lt hc) n (.int i)
  rw [hc] at a
  simp only [specAssign] at a
  obtain ⟨h', e, f, _⟩ := a
  have r' : Reachable ofInt h' := by
    have := reachable_exec r [.assign id n (.int i)]
    simpa [exec, e] using this
  have l := lookup_local r' f
  exact ⟨h', e, by simpa [specDbl] using l.2.1, by simpa [specInt] using l.1, by simpa [specStr] using l.2.2⟩

/-! ## C10 -/

/-- The namespace an operation works on. -/
def Op.target : Op D → Option Nat
  | .new => none
  | .addSuper i _ => some i
  | .create i _ _ => some i
  | .createHeis i _ _ _ => some i
  | .assign i _ _ => some i
  | .assignDefault i _ _ => some i

/-- C10: no history of calls on other namespaces (for instance any number of sub-namespaces inheriting from it)
changes any variable of a namespace. -/
theorem supers_untouched {ofInt : Int → D} {h : Heap D} (r : Reachable ofInt h) {id : Nat} (lt : id < h.length)
    (ops : List (Op D)) (ho : ∀ op ∈ ops, op.target ≠ some id) (n : String) :
    cell (exec ofInt h ops) id n = cell h id n := by
  induction ops generalizing h with
  | nil => rfl
  | cons op ops ih =>
    unfold exec
    have ho' : ∀ o ∈ ops, o.target ≠ some id := fun o hm => ho o (List.mem_cons_of_mem _ hm)
    cases e : step ofInt h op with
    | throws => exact ih r lt ho'
    | ok h' =>
      have r' : Reachable ofInt h' := by simpa [exec, e] using reachable_exec r [op]
      have l' := (step_hwf ofInt h h' (reachable_hwf r) op e).2
      rw [ih r' (by omega) ho']
      apply step_frame r e lt
      intro w
      have t := ho op List.mem_cons_self
      cases op <;> simp [Writes, Op.target] at w t <;> exact t w.1

/-- C10: lookup always terminates, with at most three levels of recursion, for every inheritance graph - even a
cyclic one: any recursion bound of three or more gives the same answer. -/
theorem lookup_terminates {ofInt : Int → D} (h : Heap D) (id : Nat) (n : String) (fuel : Nat) :
    lookup Space.localInt h (fuel + 3) id n = some (lookupInt h id n) ∧
    lookup (Space.localDbl ofInt) h (fuel + 3) id n = some (lookupDbl ofInt h id n) ∧
    lookup Space.localStr h (fuel + 3) id n = some (lookupStr h id n) := by
  have some3 : ∀ {α : Type} (loc : Space D → String → Option (Read α)), LocOK loc →
      lookup loc h (fuel + 3) id n = some (lookupVal loc h id n) := by
    intro α loc lok
    rw [lookup_fuel loc lok]
    unfold lookupVal
    have : (lookup loc h 3 id n).isSome = true := by
      cases hs : h[id]? with
      | none => simp [lookup, hs]
      | some s =>
        cases hx : s.exists n with
        | true => rw [lookup_of_exists loc h id n s hs hx 2]; rfl
        | false =>
          rw [lookup_skip loc h id n s hs hx (lok s n hx) 2]
          cases hf : s.supers.find? (fun j => existsRec h j n) with
          | none => rfl
          | some j =>
            have hj := List.find?_some hf
            simp only
            cases hsj : h[j]? with
            | none => simp [lookup, hsj]
            | some sj =>
              cases hxj : sj.exists n with
              | true => rw [lookup_of_exists loc h j n sj hsj hxj 1]; rfl
              | false =>
                rw [lookup_skip loc h j n sj hsj hxj (lok sj n hxj) 1]
                simp only [existsRec, hsj, hxj, Bool.false_eq_true, if_false] at hj
                split at hj
                · rw [List.all_eq_true] at hj
                  cases hf2 : sj.supers.find? (fun j => existsRec h j n) with
                  | none => rfl
                  | some k =>
                    have hk := hj k (List.mem_of_find?_eq_some hf2)
                    simp only
                    unfold existsAt at hk
                    cases hsk : h[k]? with
                    | none => rw [hsk] at hk; simp at hk
                    | some sk =>
                      rw [hsk] at hk
                      rw [lookup_of_exists loc h k n sk hsk hk 0]; rfl
                · simp at hj
    cases hl : lookup loc h 3 id n with
    | none => rw [hl] at this; simp at this
    | some x => rfl
  exact ⟨some3 _ localInt_ok, some3 _ (localDbl_ok ofInt), some3 _ localStr_ok⟩

/-- The first namespace of a list that defines `n` itself. -/
def firstDefining (h : Heap D) (n : String) : List Nat → Option (Cell D)
  | [] => none
  | j :: js => match cell h j n with
    | some c => some c
    | none => firstDefining h n js

/-- C10 (partial: only when the namespaces inherited from do not themselves inherit): a name that is not defined
locally reads as the variable of the first super-namespace that defines it, and as nothing if none does.
The full statement, for every inheritance depth, is false: see `inherit_deep_refuted`. -/
theorem lookup_inherits_partial {ofInt : Int → D} {h : Heap D} (r : Reachable ofInt h) {id : Nat}
    (lt : id < h.length) {n : String} (hc : cell h id n = none)
    (flat : ∀ j ∈ supersOf h id, supersOf h j = []) :
    match firstDefining h n (supersOf h id) with
    | some c => lookupInt h id n = specInt c ∧ lookupDbl ofInt h id n = specDbl ofInt c ∧
        lookupStr h id n = specStr c
    | none => lookupInt h id n = .none ∧ lookupDbl ofInt h id n = .none ∧ lookupStr h id n = .none := by
  have hs : h[id]? = some h[id] := List.getElem?_eq_getElem lt
  have hx : h[id].exists n = false := by
    rw [exists_iff, ← cell_self h id _ n hs, hc]; rfl
  have er : ∀ j ∈ supersOf h id, existsRec h j n = (cell h j n).isSome := by
    intro j hj
    have fl := flat j hj
    unfold supersOf at fl
    unfold existsRec
    rw [cell_eq]
    cases hsj : h[j]? with
    | none => rfl
    | some sj =>
      rw [hsj] at fl
      simp only at fl
      simp [fl, exists_iff]
  have ff : ∀ l : List Nat, (∀ j ∈ l, existsRec h j n = (cell h j n).isSome) →
      (l.find? (fun j => existsRec h j n) = none ∧ firstDefining h n l = none) ∨
      (∃ j c, l.find? (fun j => existsRec h j n) = some j ∧ cell h j n = some c ∧
        firstDefining h n l = some c) := by
    intro l
    induction l with
    | nil => intro _; left; exact ⟨rfl, rfl⟩
    | cons j js ih =>
      intro hl
      have hj := hl j List.mem_cons_self
      cases hcj : cell h j n with
      | some c =>
        right
        refine ⟨j, c, ?_, hcj, ?_⟩
        · simp [List.find?, hj, hcj]
        · simp [firstDefining, hcj]
      | none =>
        rcases ih (fun k hk => hl k (List.mem_cons_of_mem _ hk)) with ⟨a, b⟩ | ⟨k, c, a, b, d⟩
        · left; simp [List.find?, hj, hcj, firstDefining, a, b]
        · right; refine ⟨k, c, ?_, b, ?_⟩
          · simp [List.find?, hj, hcj, a]
          · simp [firstDefining, hcj, d]
  have sup : supersOf h id = h[id].supers := supers_self h id _ hs
  have step1 : ∀ {α : Type} (loc : Space D → String → Option (Read α)), LocOK loc →
      lookup loc h 3 id n = match (supersOf h id).find? (fun j => existsRec h j n) with
        | some j => lookup loc h 2 j n
        | none => some .none := by
    intro α loc lok
    rw [lookup_skip loc h id n _ hs hx (lok _ n hx) 2, sup]
    cases h[id].supers.find? (fun j => existsRec h j n) <;> rfl
  have bump : ∀ {α : Type} (loc : Space D → String → Option (Read α)) (j : Nat) (c : Cell D),
      cell h j n = some c → lookup loc h 2 j n = lookup loc h 3 j n := by
    intro α loc j c hj
    have hsj : h[j]? = some (h[j]'(cell_some_lt hj)) := List.getElem?_eq_getElem _
    have hxj : (h[j]'(cell_some_lt hj)).exists n = true := by
      rw [exists_iff, ← cell_self h j _ n hsj, hj]; rfl
    rw [lookup_of_exists loc h j n _ hsj hxj 1, lookup_of_exists loc h j n _ hsj hxj 2]
  rcases ff (supersOf h id) er with ⟨a, b⟩ | ⟨j, c, a, b, d⟩
  · rw [b]
    unfold lookupInt lookupDbl lookupStr lookupVal
    rw [step1 _ localInt_ok, step1 _ (localDbl_ok ofInt), step1 _ localStr_ok, a]
    exact ⟨rfl, rfl, rfl⟩
  · rw [d]
    have l := lookup_local r b
    unfold lookupInt lookupDbl lookupStr lookupVal at l ⊢
    rw [step1 _ localInt_ok, step1 _ (localDbl_ok ofInt), step1 _ localStr_ok, a]
    simp only
    rw [bump _ j c b, bump _ j c b, bump _ j c b]
    exact l

/-- Ancestors of a namespace at any depth. -/
inductive Ancestor (h : Heap D) : Nat → Nat → Prop
  | direct {a b : Nat} : b ∈ supersOf h a → Ancestor h a b
  | trans {a b c : Nat} : b ∈ supersOf h a → Ancestor h b c → Ancestor h a c

/-- The history used by the refutations: a chain 3 → 2 → 1 → 0 with `x` defined in namespace 0 only. -/
def deepOps : List (Op Int) :=
  [.new, .new, .new, .new, .addSuper 1 0, .addSuper 2 1, .addSuper 3 2, .assign 0 "x" (.int 7)]

/-- C10, refutation of the full statement: variables are not inherited through an arbitrary number of levels.
There is a reachable state in which an ancestor defines `x`, nothing nearer does, and yet the lookup finds
nothing. -/
theorem inherit_deep_refuted : ∃ h : Heap Int, Reachable id h ∧ Ancestor h 3 0 ∧
    cell h 0 "x" = some (.val (.int 7)) ∧ cell h 1 "x" = none ∧ cell h 2 "x" = none ∧ cell h 3 "x" = none ∧
    lookupInt h 3 "x" = .none := by
  refine ⟨exec id [] deepOps, ⟨deepOps, rfl⟩, ?_, by decide, by decide, by decide, by decide, by decide⟩
  exact .trans (b := 2) (by decide) (.trans (b := 1) (by decide) (.direct (by decide)))

/-- C10, second disagreement: `exists_recursive` and `lookup` disagree.  With two levels of inheritance the lookup
succeeds, but `exists_recursive` (which HIL uses to report undefined variables, Interpreter.cpp:125) is false. -/
theorem exists_recursive_two_levels_refuted : ∃ h : Heap Int, Reachable id h ∧
    lookupInt h 2 "x" = .val 7 ∧ existsRec h 2 "x" = false := by
  exact ⟨exec id [] deepOps, ⟨deepOps, rfl⟩, by decide, by decide⟩

/-- C10, third disagreement: with two super-namespaces only one of which defines `x`, the lookup succeeds but
`exists_recursive` is false (it demands that *all* super-namespaces define it), so `assign_default` shadows it. -/
theorem exists_recursive_all_of_refuted : ∃ h h' : Heap Int, Reachable id h ∧ lookupInt h 2 "x" = .val 7 ∧
    existsRec h 2 "x" = false ∧ step id h (.assignDefault 2 "x" (.int 1)) = .ok h' ∧
    lookupInt h' 2 "x" = .val 1 := by
  refine ⟨exec id [] [.new, .new, .new, .addSuper 2 0, .addSuper 2 1, .assign 0 "x" (.int 7)], _, ⟨_, rfl⟩,
    by decide, by decide, rfl, by decide⟩

/-! ## Non-vacuity -/

/-- A reachable heap with two namespaces, one inheriting from the other, and three typed variables. -/
def demoOps : List (Op Int) :=
  [.new, .new, .addSuper 1 0, .assign 0 "x" (.int 3), .assign 0 "y" (.dbl 5), .create 1 "s" (.str "hi"),
   .createHeis 0 "h" .str 4]

example : Reachable id (exec id [] demoOps) := ⟨_, rfl⟩
example : cell (exec id [] demoOps) 0 "x" = some (.val (.int 3)) := by decide
example : cell (exec id [] demoOps) 1 "x" = none ∧ supersOf (exec id [] demoOps) 1 = [0] ∧
    (∀ j ∈ supersOf (exec id [] demoOps) 1, supersOf (exec id [] demoOps) j = []) ∧
    lookupInt (exec id [] demoOps) 1 "x" = .val 3 := by decide
-- re-typing is rejected, promotion accepted, Heisenberg assignment rejected
example : let h := exec id (exec id [] demoOps) [.assign 0 "x" (.str "no"), .assign 0 "y" (.int 9), .assign 0 "h" (.str "z")]
    cell h 0 "x" = some (.val (.int 3)) ∧ cell h 0 "y" = some (.val (.dbl 9)) ∧
    cell h 0 "h" = some (.heis .str 4) := by decide

end Hexed.Namespace
