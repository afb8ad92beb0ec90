import Verif.Synch.Spec
import Mathlib.Algebra.BigOperators.Group.List.Basic
import Mathlib.Algebra.Order.BigOperators.Group.List
set_option autoImplicit false
set_option linter.unusedVariables false

/-! # Lemmas on passing uncertainty inwards -/

namespace Hexed.Synch

variable {V : Type} {gt : V → V → Bool} {lt : V → V → Prop} {cons : List Con}

theorem Layered.trans {y x z : Nat} {n m : Nat} (h1 : Layered cons y x n) (h2 : Layered cons x z m) : Layered cons y z (n + m) := by
  induction h2 with
  | here => exact h1
  | next _ hc ho ih => exact .next ih hc ho

/-- A layer or more on top of something: at the outside of a connection. -/
theorem Layered.first {y x n : Nat} (h : Layered cons y x n) : x = y ∨ ∃ c ∈ cons, c.outer = y := by
  induction h with
  | here => exact .inl rfl
  | next h hc ho ih =>
    rcases ih with rfl | ih
    · exact .inr ⟨_, hc, ho⟩
    · exact .inr ih

/-- What one thread may know, as a function of the state at the beginning of the pass. -/
def PcOk (lt : V → V → Prop) (gt : V → V → Bool) (cons : List Con) (u0 : Nat → V) (changed : Bool) (c : Con) : Pc V → Prop
  | .start => True
  | .one a => (∃ y n, Layered cons y c.outer n ∧ a = u0 y) ∧ (changed = false → a = u0 c.outer)
  | .two a b => (∃ y n, Layered cons y c.outer n ∧ a = u0 y) ∧ (b = u0 c.inner ∨ lt (u0 c.inner) b) ∧
      (changed = false → a = u0 c.outer ∧ b = u0 c.inner)
  | .done => changed = false → gt (u0 c.outer) (u0 c.inner) = false

theorem PcOk.changed {u0 : Nat → V} {b : Bool} {c : Con} {p : Pc V} (h : PcOk lt gt cons u0 b c p) : PcOk lt gt cons u0 true c p := by
  cases p with
  | start => trivial
  | one a => exact ⟨h.1, by simp⟩
  | two a b => exact ⟨h.1, h.2.1, by simp⟩
  | done => intro hh; simp at hh

/-- The invariant of a pass. -/
structure Inv (lt : V → V → Prop) (gt : V → V → Bool) (cons : List Con) (u0 : Nat → V) (s : St V) : Prop where
  grow : ∀ x, s.u x = u0 x ∨ lt (u0 x) (s.u x)
  from_ : ∀ x, ∃ y n, Layered cons y x n ∧ s.u x = u0 y
  pcs : ∀ i c, cons[i]? = some c → PcOk lt gt cons u0 s.changed c (s.pc i)
  same : s.changed = false → s.u = u0
  raised : s.changed = true → ∃ c ∈ cons, lt (u0 c.inner) (s.u c.inner)

theorem Inv.init (u0 : Nat → V) : Inv lt gt cons u0 ⟨u0, fun _ => .start, false⟩ :=
  ⟨fun _ => .inl rfl, fun x => ⟨x, 0, .here, rfl⟩, fun _ _ _ => trivial, fun _ => rfl, by simp⟩

theorem pcs_update {u0 : Nat → V} {s : St V} (h : Inv lt gt cons u0 s) {i : Nat} {c : Con} (hc : cons[i]? = some c) {p : Pc V} {b : Bool}
    (hb : s.changed = true → b = true) (hp : PcOk lt gt cons u0 b c p) : ∀ j c', cons[j]? = some c' → PcOk lt gt cons u0 b c' (Function.update s.pc i p j) := by
  intro j c' hj
  by_cases hij : j = i
  · subst hij
    rw [hc] at hj; simp only [Option.some.injEq] at hj; subst hj
    simpa using hp
  · rw [Function.update_of_ne hij]
    have := h.pcs j c' hj
    cases b with
    | true => exact this.changed
    | false =>
      cases hs : s.changed with
      | true => exact absurd (hb hs) (by simp)
      | false => rwa [hs] at this

theorem Inv.step (o : Comparison gt lt) {u0 : Nat → V} {s : St V} (h : Inv lt gt cons u0 s) (i : Nat) : Inv lt gt cons u0 (step gt cons s i) := by
  unfold Synch.step
  cases hc : cons[i]? with
  | none => exact h
  | some c =>
    have hmem : c ∈ cons := List.mem_of_getElem? hc
    have hp := h.pcs i c hc
    simp only
    cases hpc : s.pc i with
    | start =>
      refine ⟨h.grow, h.from_, pcs_update h hc id ⟨h.from_ c.outer, fun hh => by rw [h.same hh]⟩, h.same, h.raised⟩
    | one a =>
      rw [hpc] at hp
      refine ⟨h.grow, h.from_, pcs_update h hc id ⟨hp.1, h.grow c.inner, fun hh => ⟨hp.2 hh, by rw [h.same hh]⟩⟩, h.same, h.raised⟩
    | two a b =>
      rw [hpc] at hp
      obtain ⟨⟨y, n, hy, ha⟩, hb, hs⟩ := hp
      simp only
      by_cases hg : gt a b = true
      · rw [if_pos hg]
        have hba := o.gt_lt a b hg
        have hu : lt (u0 c.inner) a := by
          rcases hb with rfl | hb
          · exact hba
          · exact o.trans _ _ _ hb hba
        refine ⟨?_, ?_, ?_, by simp, fun _ => ⟨c, hmem, by simpa using hu⟩⟩
        · intro x
          by_cases hx : x = c.inner
          · subst hx; right; simpa using hu
          · simp only [Function.update_of_ne hx]; exact h.grow x
        · intro x
          by_cases hx : x = c.inner
          · subst hx; exact ⟨y, n + 1, .next hy hmem rfl, by simpa using ha⟩
          · simp only [Function.update_of_ne hx]; exact h.from_ x
        · exact pcs_update (b := true) h hc (fun _ => rfl) (by intro hh; simp at hh)
      · rw [if_neg hg]
        refine ⟨h.grow, h.from_, pcs_update h hc id ?_, h.same, h.raised⟩
        intro hh
        obtain ⟨e1, e2⟩ := hs hh
        rw [← e1, ← e2]; simpa using hg
    | done => exact h

theorem Inv.run (o : Comparison gt lt) {u0 : Nat → V} (l : List Nat) : ∀ {s : St V}, Inv lt gt cons u0 s → Inv lt gt cons u0 (l.foldl (Synch.step gt cons) s) := by
  induction l with
  | nil => intro s h; exact h
  | cons i l ih => intro s h; exact ih (h.step o i)

/-! ### Every iteration gets to its end -/

/-- Actions still to be done. -/
def todo : Pc V → Nat
  | .start => 3
  | .one _ => 2
  | .two _ _ => 1
  | .done => 0

theorem step_todo (gt : V → V → Bool) (s : St V) (i j : Nat) (hj : j < cons.length) :
    todo ((step gt cons s i).pc j) = todo (s.pc j) - (if i = j then 1 else 0) := by
  by_cases hij : i = j
  · subst hij
    rw [if_pos rfl]
    unfold step
    rw [List.getElem?_eq_getElem hj]
    simp only
    cases hpc : s.pc i with
    | start => simp [todo]
    | one a => simp [todo]
    | two a b => simp only; split <;> simp [todo]
    | done => simp [todo, hpc]
  · rw [if_neg hij, Nat.sub_zero]
    have hji : j ≠ i := fun h => hij h.symm
    unfold step
    cases cons[i]? with
    | none => rfl
    | some c =>
      simp only
      cases hpc : s.pc i with
      | start => simp [Function.update_of_ne hji]
      | one a => simp [Function.update_of_ne hji]
      | two a b => simp only; split <;> simp [Function.update_of_ne hji]
      | done => rfl

theorem run_todo (gt : V → V → Bool) (l : List Nat) : ∀ (s : St V) (j : Nat), j < cons.length →
    todo ((l.foldl (step gt cons) s).pc j) = todo (s.pc j) - l.count j := by
  induction l with
  | nil => intro s j hj; simp
  | cons i l ih =>
    intro s j hj
    rw [List.foldl_cons, ih _ j hj, step_todo gt s i j hj, List.count_cons]
    by_cases h : i = j <;> simp [h] <;> omega

theorem todo_eq_zero {p : Pc V} (h : todo p = 0) : p = .done := by cases p <;> simp_all [todo]

/-! ### Whole passes -/

theorem pass_inv (o : Comparison gt lt) (u : Nat → V) (l : List Nat) : Inv lt gt cons u (pass gt cons u l) := Inv.run o l (Inv.init u)

theorem pass_end (o : Comparison gt lt) (u : Nat → V) {l : List Nat} (hl : ∀ i, i < cons.length → 3 ≤ l.count i)
    (h : (pass gt cons u l).changed = false) : (pass gt cons u l).u = u ∧ ∀ c ∈ cons, gt (u c.outer) (u c.inner) = false := by
  have inv := pass_inv (cons := cons) o u l
  refine ⟨inv.same h, ?_⟩
  intro c hc
  obtain ⟨i, hi⟩ := List.mem_iff_getElem?.1 hc
  have hlt : i < cons.length := (List.getElem?_eq_some_iff.1 hi).1
  have hd : (pass gt cons u l).pc i = .done := todo_eq_zero (by
    rw [pass, run_todo gt l _ i hlt]
    have := hl i hlt
    simp only [todo]; omega)
  have := inv.pcs i c hi
  rw [hd, h] at this
  exact this rfl

/-- What a number of passes guarantees. -/
structure Grown (lt : V → V → Prop) (cons : List Con) (u u' : Nat → V) : Prop where
  grow : ∀ x, u' x = u x ∨ lt (u x) (u' x)
  from_ : ∀ x, ∃ y n, Layered cons y x n ∧ u' x = u y

theorem Grown.trans (o : Comparison gt lt) {a b c : Nat → V} (h1 : Grown lt cons a b) (h2 : Grown lt cons b c) : Grown lt cons a c := by
  constructor
  · intro x
    rcases h2.grow x with e | l2
    · rw [e]; exact h1.grow x
    · rcases h1.grow x with e | l1
      · rw [e] at l2; exact .inr l2
      · exact .inr (o.trans _ _ _ l1 l2)
  · intro x
    obtain ⟨y, n, hy, e⟩ := h2.from_ x
    obtain ⟨z, m, hz, e'⟩ := h1.from_ y
    exact ⟨z, m + n, hz.trans hy, e.trans e'⟩

theorem Grown.refl (u : Nat → V) : Grown lt cons u u := ⟨fun _ => .inl rfl, fun x => ⟨x, 0, .here, rfl⟩⟩

theorem pass_grown (o : Comparison gt lt) (u : Nat → V) (l : List Nat) : Grown lt cons u (pass gt cons u l).u :=
  ⟨(pass_inv o u l).grow, (pass_inv o u l).from_⟩

/-! ### The measure -/

/-- All elements at connections. -/
def ends (cons : List Con) : List Nat := cons.map (·.outer) ++ cons.map (·.inner)

open Classical in
/-- How many of the original values are greater. -/
noncomputable def rank (lt : V → V → Prop) (cons : List Con) (u0 : Nat → V) (a : V) : Nat := ((ends cons).filter fun y => lt a (u0 y)).length

noncomputable def weight (lt : V → V → Prop) (cons : List Con) (u0 u : Nat → V) : Nat := (cons.map fun c => rank lt cons u0 (u c.inner)).sum

theorem rank_le (u0 : Nat → V) (a : V) : rank lt cons u0 a ≤ 2 * cons.length := by
  refine (List.length_filter_le _ _).trans ?_
  simp [ends]; omega

theorem filter_lt {α : Type} (p q : α → Bool) (l : List α) (h : ∀ a ∈ l, q a = true → p a = true) {a : α} (ha : a ∈ l) (hp : p a = true) (hq : q a = false) :
    (l.filter q).length < (l.filter p).length := by
  have hle : ∀ l : List α, (∀ a ∈ l, q a = true → p a = true) → (l.filter q).length ≤ (l.filter p).length := by
    intro l
    induction l with
    | nil => simp
    | cons b l ih =>
      intro h
      have := ih fun a ha => h a (by simp [ha])
      have hb := h b (by simp)
      by_cases h1 : q b = true
      · simp [h1, hb h1, this]
      · by_cases h2 : p b = true
        · simp [h1, h2]; omega
        · simp [h1, h2, this]
  induction l with
  | nil => simp at ha
  | cons b l ih =>
    rcases List.mem_cons.1 ha with rfl | ha
    · have := hle l fun a ha => h a (by simp [ha])
      simp [hp, hq]; omega
    · have := ih (fun a ha => h a (by simp [ha])) ha
      have hb := h b (by simp)
      by_cases h1 : q b = true
      · simp [h1, hb h1, this]
      · by_cases h2 : p b = true
        · simp [h1, h2]; omega
        · simp [h1, h2, this]

theorem rank_mono (o : Comparison gt lt) {u0 : Nat → V} {a b : V} (h : b = a ∨ lt a b) : rank lt cons u0 b ≤ rank lt cons u0 a := by
  rcases h with rfl | h
  · exact le_rfl
  · refine List.Sublist.length_le (List.monotone_filter_right _ ?_)
    intro y hy
    simp only [decide_eq_true_eq] at hy ⊢
    exact o.trans _ _ _ h hy

theorem rank_lt (o : Comparison gt lt) {u0 : Nat → V} {a b : V} (h : lt a b) (hb : ∃ y ∈ ends cons, b = u0 y) : rank lt cons u0 b < rank lt cons u0 a := by
  obtain ⟨y, hy, rfl⟩ := hb
  refine filter_lt _ _ _ ?_ hy (by simpa using h) (by simpa using o.irrefl _)
  intro z _ hz
  simp only [decide_eq_true_eq] at hz ⊢
  exact o.trans _ _ _ h hz

theorem sum_lt {α : Type} (f g : α → Nat) (l : List α) (h : ∀ a ∈ l, f a ≤ g a) {a : α} (ha : a ∈ l) (hlt : f a < g a) : (l.map f).sum < (l.map g).sum := by
  have hle : ∀ l : List α, (∀ a ∈ l, f a ≤ g a) → (l.map f).sum ≤ (l.map g).sum := by
    intro l
    induction l with
    | nil => simp
    | cons b l ih =>
      intro h
      have := ih fun a ha => h a (by simp [ha])
      have := h b (by simp)
      simp; omega
  induction l with
  | nil => simp at ha
  | cons b l ih =>
    have hb := h b (by simp)
    rcases List.mem_cons.1 ha with rfl | ha
    · have := hle l fun a ha => h a (by simp [ha])
      simp; omega
    · have := ih (fun a ha => h a (by simp [ha])) ha
      simp; omega

theorem weight_lt (o : Comparison gt lt) {u0 u : Nat → V} (hg : Grown lt cons u0 u) (l : List Nat) (h : (pass gt cons u l).changed = true) :
    weight lt cons u0 (pass gt cons u l).u < weight lt cons u0 u := by
  have inv := pass_inv (cons := cons) o u l
  have hg' := hg.trans o (pass_grown o u l)
  obtain ⟨c, hc, hlt⟩ := inv.raised h
  refine sum_lt _ _ _ (fun c' _ => rank_mono o (inv.grow _)) hc ?_
  refine rank_lt o hlt ?_
  obtain ⟨y, n, hy, e⟩ := hg'.from_ c.inner
  refine ⟨y, ?_, e⟩
  rcases hy.first with rfl | ⟨c', hc', rfl⟩
  · simp only [ends, List.mem_append, List.mem_map]; exact .inr ⟨c, hc, rfl⟩
  · simp only [ends, List.mem_append, List.mem_map]; exact .inl ⟨c', hc', rfl⟩

theorem weight_le (u0 u : Nat → V) : weight lt cons u0 u ≤ cons.length * (2 * cons.length) := by
  unfold weight
  have : ∀ l : List Con, (l.map fun c => rank lt cons u0 (u c.inner)).sum ≤ l.length * (2 * cons.length) := by
    intro l
    induction l with
    | nil => simp
    | cons c l ih =>
      have := rank_le (lt := lt) (cons := cons) u0 (u c.inner)
      simp only [List.map_cons, List.sum_cons, List.length_cons]
      rw [Nat.add_mul, Nat.one_mul]
      omega
  exact this cons

/-! ### The loop -/

theorem synch_grown (o : Comparison gt lt) {sched : Nat → List Nat} (hf : Fair cons sched) : ∀ (n k : Nat) (u u' : Nat → V),
    synch gt cons sched k n u = some u' → Grown lt cons u u' ∧ ∀ c ∈ cons, gt (u' c.outer) (u' c.inner) = false := by
  intro n
  induction n with
  | zero => intro k u u' h; simp [synch] at h
  | succ n ih =>
    intro k u u' h
    rw [synch] at h
    split at h
    · obtain ⟨h1, h2⟩ := ih _ _ _ h
      exact ⟨(pass_grown o u (sched k)).trans o h1, h2⟩
    · rename_i hc
      simp only [Option.some.injEq] at h
      obtain ⟨e1, e2⟩ := pass_end o u (hf k) (by simpa using hc)
      rw [← h, e1]
      exact ⟨.refl u, e2⟩

theorem synch_terminates (o : Comparison gt lt) {sched : Nat → List Nat} {u0 : Nat → V} : ∀ (n k : Nat) (u : Nat → V),
    Grown lt cons u0 u → weight lt cons u0 u < n → ∃ u', synch gt cons sched k n u = some u' := by
  intro n
  induction n with
  | zero => intro k u _ h; omega
  | succ n ih =>
    intro k u hg h
    rw [synch]
    split
    · rename_i hc
      exact ih _ _ (hg.trans o (pass_grown o u (sched k))) (by have := weight_lt o hg (sched k) hc; omega)
    · exact ⟨_, rfl⟩

end Hexed.Synch
