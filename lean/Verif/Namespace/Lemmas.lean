import Verif.Namespace.Spec
set_option autoImplicit false
set_option linter.unusedVariables false

/-! Helper lemmas for the namespace properties. -/

namespace Hexed.Namespace

variable {D : Type}

/-- A name is in at most one of the three maps. -/
def Space.WF (s : Space D) : Prop :=
  ∀ n, ((s.ints n).isSome = true → s.dbls n = none ∧ s.strs n = none) ∧
       ((s.dbls n).isSome = true → s.ints n = none ∧ s.strs n = none) ∧
       ((s.strs n).isSome = true → s.ints n = none ∧ s.dbls n = none)

/-- The cell of a space. -/
def Space.cell (s : Space D) (n : String) : Option (Cell D) :=
  match s.ints n, s.dbls n, s.strs n with
  | some v, _, _ => some (cellOf .int .int v)
  | _, some v, _ => some (cellOf .dbl .dbl v)
  | _, _, some v => some (cellOf .str .str v)
  | _, _, _ => none

theorem cell_eq (h : Heap D) (id : Nat) (n : String) :
    cell h id n = (h[id]?).bind (fun s => s.cell n) := by
  unfold cell Space.cell
  cases h[id]? <;> rfl

theorem exists_iff (s : Space D) (n : String) : s.exists n = (s.cell n).isSome := by
  unfold Space.exists Space.cell
  cases s.ints n <;> cases s.dbls n <;> cases s.strs n <;> rfl

theorem existsAt_iff (h : Heap D) (id : Nat) (n : String) : existsAt h id n = (cell h id n).isSome := by
  rw [cell_eq]; unfold existsAt
  cases h[id]? with
  | none => rfl
  | some s => simp [exists_iff]

theorem empty_wf : (Space.empty : Space D).WF := by
  intro n; simp [Space.empty]

@[simp] theorem upd_self {α : Type} (f : String → Option α) (n : String) (a : α) : upd f n a n = some a := by
  simp [upd]
theorem upd_ne {α : Type} (f : String → Option α) {n m : String} (a : α) (h : m ≠ n) : upd f n a m = f m := by
  simp [upd, h]

theorem assign_spec (ofInt : Int → D) (s : Space D) (wf : s.WF) (n : String) (v : Val D) :
    match specAssign ofInt (s.cell n) v with
    | none => s.assign ofInt n v = none
    | some c => ∃ s', s.assign ofInt n v = some s' ∧ s'.WF ∧ s'.cell n = some c ∧
        (∀ m, m ≠ n → s'.cell m = s.cell m) ∧ s'.supers = s.supers := by
  have w := wf n
  have key : ∀ s' : Space D, (∀ m, m ≠ n → s'.ints m = s.ints m ∧ s'.dbls m = s.dbls m ∧ s'.strs m = s.strs m) →
      (((s'.ints n).isSome = true → s'.dbls n = none ∧ s'.strs n = none) ∧
       ((s'.dbls n).isSome = true → s'.ints n = none ∧ s'.strs n = none) ∧
       ((s'.strs n).isSome = true → s'.ints n = none ∧ s'.dbls n = none)) →
      s'.WF ∧ (∀ m, m ≠ n → s'.cell m = s.cell m) := by
    intro s' hm hn
    constructor
    · intro m
      by_cases e : m = n
      · subst e; exact hn
      · obtain ⟨a, b, c⟩ := hm m e
        rw [a, b, c]; exact wf m
    · intro m e
      obtain ⟨a, b, c⟩ := hm m e
      unfold Space.cell; rw [a, b, c]
  cases hi : s.ints n with
  | some o =>
    have ⟨hd, hs⟩ := w.1 (by simp [hi])
    have hc : s.cell n = some (cellOf .int .int o) := by simp [Space.cell, hi]
    rw [hc]
    cases v with
    | int i =>
      cases o with
      | value a =>
        simp only [cellOf, specAssign, Space.assign, hi, setVar, Option.map]
        refine ⟨_, rfl, ?_⟩
        have k := key { s with ints := upd s.ints n (.value i) }
          (by intro m e; simp [upd_ne _ _ e]) (by simp [hd, hs])
        exact ⟨k.1, by simp [Space.cell, cellOf], k.2, rfl⟩
      | heis t => simp [cellOf, specAssign, Space.assign, hi, setVar]
    | dbl d =>
      cases o <;> simp [cellOf, specAssign, Space.assign, hd, Space.create, exists_iff, hc]
    | str t =>
      cases o <;> simp [cellOf, specAssign, Space.assign, hs, Space.create, exists_iff, hc]
  | none =>
    cases hd : s.dbls n with
    | some o =>
      have ⟨_, hs⟩ := w.2.1 (by simp [hd])
      have hc : s.cell n = some (cellOf .dbl .dbl o) := by simp [Space.cell, hi, hd]
      rw [hc]
      cases v with
      | int i =>
        cases o with
        | value a =>
          simp only [cellOf, specAssign, Space.assign, hi, hd, setVar, Option.map]
          refine ⟨_, rfl, ?_⟩
          have k := key { s with dbls := upd s.dbls n (.value (ofInt i)) }
            (by intro m e; simp [upd_ne _ _ e]) (by simp [hi, hs])
          exact ⟨k.1, by simp [Space.cell, cellOf, hi], k.2, rfl⟩
        | heis t => simp [cellOf, specAssign, Space.assign, hi, hd, setVar]
      | dbl d =>
        cases o with
        | value a =>
          simp only [cellOf, specAssign, Space.assign, hd, setVar, Option.map]
          refine ⟨_, rfl, ?_⟩
          have k := key { s with dbls := upd s.dbls n (.value d) }
            (by intro m e; simp [upd_ne _ _ e]) (by simp [hi, hs])
          exact ⟨k.1, by simp [Space.cell, cellOf, hi], k.2, rfl⟩
        | heis t => simp [cellOf, specAssign, Space.assign, hd, setVar]
      | str t =>
        cases o <;> simp [cellOf, specAssign, Space.assign, hs, Space.create, exists_iff, hc]
    | none =>
      cases hs : s.strs n with
      | some o =>
        have hc : s.cell n = some (cellOf .str .str o) := by simp [Space.cell, hi, hd, hs]
        rw [hc]
        cases v with
        | int i => cases o <;> simp [cellOf, specAssign, Space.assign, hi, hd, Space.create, exists_iff, hc]
        | dbl d => cases o <;> simp [cellOf, specAssign, Space.assign, hd, Space.create, exists_iff, hc]
        | str t =>
          cases o with
          | value a =>
            simp only [cellOf, specAssign, Space.assign, hs, setVar, Option.map]
            refine ⟨_, rfl, ?_⟩
            have k := key { s with strs := upd s.strs n (.value t) }
              (by intro m e; simp [upd_ne _ _ e]) (by simp [hi, hd])
            exact ⟨k.1, by simp [Space.cell, cellOf, hi, hd], k.2, rfl⟩
          | heis t => simp [cellOf, specAssign, Space.assign, hs, setVar]
      | none =>
        have hc : s.cell n = none := by simp [Space.cell, hi, hd, hs]
        rw [hc]
        cases v with
        | int i =>
          simp only [specAssign, Space.assign, hi, hd, Space.create, exists_iff, hc, Space.put]
          refine ⟨_, rfl, ?_⟩
          have k := key { s with ints := upd s.ints n (.value i) }
            (by intro m e; simp [upd_ne _ _ e]) (by simp [hd, hs])
          exact ⟨k.1, by simp [Space.cell, cellOf], k.2, rfl⟩
        | dbl d =>
          simp only [specAssign, Space.assign, hd, Space.create, exists_iff, hc, Space.put]
          refine ⟨_, rfl, ?_⟩
          have k := key { s with dbls := upd s.dbls n (.value d) }
            (by intro m e; simp [upd_ne _ _ e]) (by simp [hi, hs])
          exact ⟨k.1, by simp [Space.cell, cellOf, hi], k.2, rfl⟩
        | str t =>
          simp only [specAssign, Space.assign, hs, Space.create, exists_iff, hc, Space.put]
          refine ⟨_, rfl, ?_⟩
          have k := key { s with strs := upd s.strs n (.value t) }
            (by intro m e; simp [upd_ne _ _ e]) (by simp [hi, hd])
          exact ⟨k.1, by simp [Space.cell, cellOf, hi, hd], k.2, rfl⟩

theorem cell_none (s : Space D) (n : String) (h : s.cell n = none) :
    s.ints n = none ∧ s.dbls n = none ∧ s.strs n = none := by
  unfold Space.cell at h
  cases hi : s.ints n <;> cases hd : s.dbls n <;> cases hs : s.strs n <;> simp_all

theorem put_spec (s : Space D) (wf : s.WF) (n : String) (v : Val D) (h : s.cell n = none) :
    (s.put n v).WF ∧ (s.put n v).cell n = some (.val v) ∧
      (∀ m, m ≠ n → (s.put n v).cell m = s.cell m) ∧ (s.put n v).supers = s.supers := by
  obtain ⟨hi, hd, hs⟩ := cell_none s n h
  cases v <;>
  · refine ⟨?_, ?_, ?_, rfl⟩
    · intro m
      by_cases e : m = n
      · subst e; simp [Space.put, hi, hd, hs]
      · simpa [Space.put, upd_ne _ _ e] using wf m
    · simp [Space.put, Space.cell, hi, hd, cellOf]
    · intro m e; simp [Space.put, Space.cell, upd_ne _ _ e]

theorem putHeis_spec (s : Space D) (wf : s.WF) (n : String) (t : Ty) (tok : Nat) (h : s.cell n = none) :
    (s.putHeis n tok t).WF ∧ (s.putHeis n tok t).cell n = some (.heis t tok) ∧
      (∀ m, m ≠ n → (s.putHeis n tok t).cell m = s.cell m) ∧ (s.putHeis n tok t).supers = s.supers := by
  obtain ⟨hi, hd, hs⟩ := cell_none s n h
  cases t <;>
  · refine ⟨?_, ?_, ?_, rfl⟩
    · intro m
      by_cases e : m = n
      · subst e; simp [Space.putHeis, hi, hd, hs]
      · simpa [Space.putHeis, upd_ne _ _ e] using wf m
    · simp [Space.putHeis, Space.cell, hi, hd, cellOf]
    · intro m e; simp [Space.putHeis, Space.cell, upd_ne _ _ e]

/-- Heap invariant: every space is well formed and supers point into the heap. -/
def HWF (h : Heap D) : Prop := ∀ (i : Nat) (s : Space D), h[i]? = some s → s.WF ∧ ∀ j ∈ s.supers, j < h.length

/-- The effect of a successful step in terms of cells. -/
theorem onSpace_ok (h h' : Heap D) (id : Nat) (f : Space D → Option (Space D)) (e : onSpace h id f = .ok h') :
    ∃ s s', h[id]? = some s ∧ f s = some s' ∧ h' = h.set id s' := by
  unfold onSpace at e
  split at e
  · simp at e
  · rename_i s hs
    split at e
    · simp at e
    · rename_i s' hs'
      simp only [Outcome.ok.injEq] at e
      exact ⟨s, s', hs, hs', e.symm⟩

theorem set_hwf (h : Heap D) (wf : HWF h) (id : Nat) (s' : Space D) (w : s'.WF)
    (sup : ∀ j ∈ s'.supers, j < h.length) : HWF (h.set id s') := by
  intro i s e
  rw [List.length_set]
  by_cases hi : i = id
  · subst hi
    rw [List.getElem?_set] at e
    simp only [if_true] at e
    split at e
    · simp only [Option.some.injEq] at e; subst e; exact ⟨w, sup⟩
    · simp at e
  · rw [List.getElem?_set_ne (Ne.symm hi)] at e
    exact wf i s e

theorem cell_set_ne (h : Heap D) (id id' : Nat) (s' : Space D) (n : String) (e : id' ≠ id) :
    cell (h.set id s') id' n = cell h id' n := by
  rw [cell_eq, cell_eq, List.getElem?_set_ne (Ne.symm e)]

theorem cell_set_self (h : Heap D) (id : Nat) (s s' : Space D) (n : String) (e : h[id]? = some s) :
    cell (h.set id s') id n = s'.cell n := by
  rw [cell_eq, List.getElem?_set_self (List.getElem?_eq_some_iff.mp e).1]; rfl

theorem cell_self (h : Heap D) (id : Nat) (s : Space D) (n : String) (e : h[id]? = some s) :
    cell h id n = s.cell n := by rw [cell_eq, e]; rfl

theorem supers_set_ne (h : Heap D) (id id' : Nat) (s' : Space D) (e : id' ≠ id) :
    supersOf (h.set id s') id' = supersOf h id' := by
  unfold supersOf; rw [List.getElem?_set_ne (Ne.symm e)]

theorem supers_set_self (h : Heap D) (id : Nat) (s s' : Space D) (e : h[id]? = some s) :
    supersOf (h.set id s') id = s'.supers := by
  unfold supersOf; rw [List.getElem?_set_self (List.getElem?_eq_some_iff.mp e).1]

theorem supers_self (h : Heap D) (id : Nat) (s : Space D) (e : h[id]? = some s) :
    supersOf h id = s.supers := by unfold supersOf; rw [e]

/-- Lift a space-level change of one variable to the heap. -/
theorem onSpace_lift (h : Heap D) (wf : HWF h) (id : Nat) (s s' : Space D) (n : String) (c : Cell D)
    (f : Space D → Option (Space D)) (hs : h[id]? = some s) (e : f s = some s') (w : s'.WF)
    (hc : s'.cell n = some c) (ho : ∀ m, m ≠ n → s'.cell m = s.cell m) (hsup : s'.supers = s.supers) :
    ∃ h', onSpace h id f = .ok h' ∧ HWF h' ∧ h'.length = h.length ∧ cell h' id n = some c ∧
      (∀ id' m, ¬(id' = id ∧ m = n) → cell h' id' m = cell h id' m) ∧ (∀ id', supersOf h' id' = supersOf h id') := by
  refine ⟨h.set id s', ?_, ?_, by simp, ?_, ?_, ?_⟩
  · simp [onSpace, hs, e]
  · exact set_hwf h wf id s' w (by rw [hsup]; exact (wf id s hs).2)
  · rw [cell_set_self h id s s' n hs, hc]
  · intro id' m hne
    by_cases e' : id' = id
    · subst e'
      rw [cell_set_self h _ s s' m hs, cell_self h _ s m hs]
      exact ho m (fun hm => hne ⟨rfl, hm⟩)
    · exact cell_set_ne h id id' s' m e'
  · intro id'
    by_cases e' : id' = id
    · subst e'
      rw [supers_set_self h _ s s' hs, supers_self h _ s hs, hsup]
    · exact supers_set_ne h id id' s' e'

theorem assign_lift (ofInt : Int → D) (h : Heap D) (wf : HWF h) (id : Nat) (n : String) (v : Val D)
    (lt : id < h.length) :
    match specAssign ofInt (cell h id n) v with
    | none => onSpace h id (fun s => s.assign ofInt n v) = .throws
    | some c => ∃ h', onSpace h id (fun s => s.assign ofInt n v) = .ok h' ∧ HWF h' ∧ h'.length = h.length ∧
        cell h' id n = some c ∧
        (∀ id' m, ¬(id' = id ∧ m = n) → cell h' id' m = cell h id' m) ∧
        (∀ id', supersOf h' id' = supersOf h id') := by
  have hs : h[id]? = some h[id] := List.getElem?_eq_getElem lt
  have a := assign_spec ofInt h[id] (wf id _ hs).1 n v
  rw [cell_self h id _ n hs]
  cases hc : specAssign ofInt (h[id].cell n) v with
  | none => rw [hc] at a; simp [onSpace, hs, a]
  | some c =>
    rw [hc] at a
    obtain ⟨s', e, w, c1, c2, c3⟩ := a
    exact onSpace_lift h wf id _ s' n c _ hs e w c1 c2 c3

theorem step_hwf (ofInt : Int → D) (h h' : Heap D) (wf : HWF h) (op : Op D) (e : step ofInt h op = .ok h') :
    HWF h' ∧ h.length ≤ h'.length := by
  cases op with
  | new =>
    simp only [step, Outcome.ok.injEq] at e
    subst e
    refine ⟨?_, by simp⟩
    intro i s hs
    rcases Nat.lt_trichotomy i h.length with hl | hl | hl
    · rw [List.getElem?_append_left hl] at hs
      have := wf i s hs
      exact ⟨this.1, fun j hj => by have := this.2 j hj; simp; omega⟩
    · subst hl
      simp at hs
      subst hs
      exact ⟨empty_wf, by simp [Space.empty]⟩
    · rw [List.getElem?_eq_none (by simp; omega)] at hs
      simp at hs
  | addSuper id sup =>
    simp only [step] at e
    split at e
    · rename_i hl
      obtain ⟨s, s', hs, e1, e2⟩ := onSpace_ok _ _ _ _ e
      simp only [Option.some.injEq] at e1
      subst e1 e2
      refine ⟨?_, by simp⟩
      apply set_hwf h wf
      · exact (wf id s hs).1
      · intro j hj
        simp only [List.mem_append, List.mem_singleton] at hj
        rcases hj with hj | hj
        · exact (wf id s hs).2 j hj
        · omega
    · simp at e
  | create id n v =>
    simp only [step] at e
    obtain ⟨s, s', hs, e1, e2⟩ := onSpace_ok _ _ _ _ e
    unfold Space.create at e1
    split at e1
    · simp at e1
    · rename_i hx
      simp only [Option.some.injEq] at e1
      have p := put_spec s (wf id s hs).1 n v (by rw [exists_iff] at hx; simpa using hx)
      rw [← e1] at e2; subst e2
      exact ⟨set_hwf h wf id _ p.1 (by rw [p.2.2.2]; exact (wf id s hs).2), by simp⟩
  | createHeis id n t tok =>
    simp only [step] at e
    obtain ⟨s, s', hs, e1, e2⟩ := onSpace_ok _ _ _ _ e
    unfold Space.createHeis at e1
    split at e1
    · simp at e1
    · rename_i hx
      simp only [Option.some.injEq] at e1
      have p := putHeis_spec s (wf id s hs).1 n t tok (by rw [exists_iff] at hx; simpa using hx)
      rw [← e1] at e2; subst e2
      exact ⟨set_hwf h wf id _ p.1 (by rw [p.2.2.2]; exact (wf id s hs).2), by simp⟩
  | assign id n v =>
    simp only [step] at e
    obtain ⟨s, s', hs, e1, e2⟩ := onSpace_ok _ _ _ _ e
    have lt := (List.getElem?_eq_some_iff.mp hs).1
    have a := assign_lift ofInt h wf id n v lt
    cases hc : specAssign ofInt (cell h id n) v with
    | none => rw [hc] at a; rw [a] at e; simp at e
    | some c =>
      rw [hc] at a
      obtain ⟨h1, b1, b2, b3, _⟩ := a
      rw [b1] at e
      simp only [Outcome.ok.injEq] at e
      subst e
      exact ⟨b2, by omega⟩
  | assignDefault id n v =>
    simp only [step] at e
    split at e
    · simp only [Outcome.ok.injEq] at e; subst e; exact ⟨wf, Nat.le_refl _⟩
    · obtain ⟨s, s', hs, e1, e2⟩ := onSpace_ok _ _ _ _ e
      have lt := (List.getElem?_eq_some_iff.mp hs).1
      have a := assign_lift ofInt h wf id n v lt
      cases hc : specAssign ofInt (cell h id n) v with
      | none => rw [hc] at a; rw [a] at e; simp at e
      | some c =>
        rw [hc] at a
        obtain ⟨h1, b1, b2, b3, _⟩ := a
        rw [b1] at e
        simp only [Outcome.ok.injEq] at e
        subst e
        exact ⟨b2, by omega⟩

theorem exec_hwf (ofInt : Int → D) (ops : List (Op D)) : ∀ h : Heap D, HWF h → HWF (exec ofInt h ops) := by
  induction ops with
  | nil => intro h w; exact w
  | cons op ops ih =>
    intro h w
    unfold exec
    cases e : step ofInt h op with
    | ok h' => exact ih h' (step_hwf ofInt h h' w op e).1
    | throws => exact ih h w

theorem nil_hwf : HWF ([] : Heap D) := by intro i s e; simp at e

theorem reachable_hwf {ofInt : Int → D} {h : Heap D} (r : Reachable ofInt h) : HWF h := by
  obtain ⟨ops, rfl⟩ := r
  exact exec_hwf ofInt ops [] nil_hwf

theorem exec_append (ofInt : Int → D) (a b : List (Op D)) : ∀ h : Heap D,
    exec ofInt h (a ++ b) = exec ofInt (exec ofInt h a) b := by
  induction a with
  | nil => intro h; rfl
  | cons op ops ih =>
    intro h
    simp only [List.cons_append, exec]
    cases step ofInt h op <;> exact ih _

theorem reachable_exec {ofInt : Int → D} {h : Heap D} (r : Reachable ofInt h) (ops : List (Op D)) :
    Reachable ofInt (exec ofInt h ops) := by
  obtain ⟨o, rfl⟩ := r
  exact ⟨o ++ ops, exec_append ofInt o ops []⟩

/-- A local lookup answers before anything else. -/
theorem lookup_of_loc {α : Type} (loc : Space D → String → Option (Read α)) (h : Heap D) (id : Nat) (n : String)
    (s : Space D) (r : Read α) (hs : h[id]? = some s) (hl : loc s n = some r) (fuel : Nat) :
    lookup loc h (fuel + 1) id n = some r := by simp [lookup, hs, hl]

theorem lookup_of_exists {α : Type} (loc : Space D → String → Option (Read α)) (h : Heap D) (id : Nat) (n : String)
    (s : Space D) (hs : h[id]? = some s) (hx : s.exists n = true) (fuel : Nat) :
    lookup loc h (fuel + 1) id n = some ((loc s n).getD .none) := by
  simp only [lookup, hs]
  cases loc s n <;> simp [hx]

theorem lookup_skip {α : Type} (loc : Space D → String → Option (Read α)) (h : Heap D) (id : Nat) (n : String)
    (s : Space D) (hs : h[id]? = some s) (hx : s.exists n = false) (hl : loc s n = none) (fuel : Nat) :
    lookup loc h (fuel + 1) id n =
      match s.supers.find? (fun j => existsRec h j n) with
      | some j => lookup loc h fuel j n
      | none => some .none := by
  simp only [lookup, hs, hl, hx, Bool.not_false, if_true]
  cases s.supers.find? (fun j => existsRec h j n) <;> rfl

/-- A type-specific local lookup only answers for names that exist. -/
def LocOK {α : Type} (loc : Space D → String → Option (Read α)) : Prop :=
  ∀ s n, s.exists n = false → loc s n = none

theorem localInt_ok : LocOK (Space.localInt : Space D → String → Option (Read Int)) := by
  intro s n h; simp [Space.exists] at h; simp [Space.localInt, h]
theorem localDbl_ok (ofInt : Int → D) : LocOK (Space.localDbl ofInt) := by
  intro s n h; simp [Space.exists] at h; simp [Space.localDbl, h]
theorem localStr_ok : LocOK (Space.localStr : Space D → String → Option (Read String)) := by
  intro s n h; simp [Space.exists] at h; simp [Space.localStr, h]

/-- Where `lookup` ends up when the name is not local: inside the chosen super, one further level at most. -/
theorem lookup_fuel {α : Type} (loc : Space D → String → Option (Read α)) (lok : LocOK loc) (h : Heap D)
    (id : Nat) (n : String) (fuel : Nat) : lookup loc h (fuel + 3) id n = lookup loc h 3 id n := by
  cases hs : h[id]? with
  | none => simp [lookup, hs]
  | some s =>
    cases hx : s.exists n with
    | true => rw [lookup_of_exists loc h id n s hs hx (fuel + 2), lookup_of_exists loc h id n s hs hx 2]
    | false =>
      rw [lookup_skip loc h id n s hs hx (lok s n hx) (fuel + 2), lookup_skip loc h id n s hs hx (lok s n hx) 2]
      cases hf : s.supers.find? (fun j => existsRec h j n) with
      | none => rfl
      | some j =>
        have hj := List.find?_some hf
        simp only
        cases hsj : h[j]? with
        | none => simp [lookup, hsj]
        | some sj =>
          cases hxj : sj.exists n with
          | true => rw [lookup_of_exists loc h j n sj hsj hxj (fuel + 1), lookup_of_exists loc h j n sj hsj hxj 1]
          | false =>
            rw [lookup_skip loc h j n sj hsj hxj (lok sj n hxj) (fuel + 1),
              lookup_skip loc h j n sj hsj hxj (lok sj n hxj) 1]
            simp only [existsRec, hsj, hxj] at hj
            simp only [Bool.false_eq_true, if_false] at hj
            split at hj
            · rw [List.all_eq_true] at hj
              cases hf2 : sj.supers.find? (fun j => existsRec h j n) with
              | none => rfl
              | some k =>
                have hk := hj k (List.mem_of_find?_eq_some hf2)
                simp only
                unfold existsAt at hk
                cases hsk : h[k]? with
                | none => rw [hsk] at hk; simp at hk
                | some sk =>
                  rw [hsk] at hk
                  rw [lookup_of_exists loc h k n sk hsk hk fuel, lookup_of_exists loc h k n sk hsk hk 0]
            · simp at hj

end Hexed.Namespace
