import Verif.Adapt.Spec2
import Verif.Adapt.Unref2
import Verif.Adapt.Delete2

set_option autoImplicit false
set_option linter.unusedVariables false

/-! # Lemmas on the choice of deformed elements -/

namespace Hexed.Adapt
open Hexed.Tree (Path get modify refineNode unrefineNode setStatusNode findNeighbors findNeighbor IsDir Borders IsLeafAt Reachable)

variable {nd : Nat}

/-! ### States of the loops -/

/-- An element of container `d` if the cells to be deformed are `D`. -/
def tint (D : Path → Bool) (d : Bool) (e : El) : El := match e.tree with
  | none => e
  | some p => if e.record = 2 then e else { e with record := if D p = d then 0 else 3 }

def paint (st : St nd) (D : Path → Bool) : St nd := { st with els := fun d => (st.els d).map (tint D d) }

theorem tint_tree (D : Path → Bool) (d : Bool) (e : El) : (tint D d e).tree = e.tree := by
  unfold tint; split
  · rfl
  · split <;> rfl

theorem tint_two {D : Path → Bool} {d : Bool} {e : El} : (tint D d e).record = 2 ↔ e.record = 2 := by
  unfold tint; split
  · rfl
  · split
    · rfl
    · rename_i h; simp only [h, iff_false]; split <;> decide

theorem tint_some {D : Path → Bool} {d : Bool} {e : El} {p : Path} (ht : e.tree = some p) (hr : e.record ≠ 2) :
    tint D d e = { e with record := if D p = d then 0 else 3 } := by
  unfold tint; rw [ht]; simp only [if_neg hr]

section
variable {st : St nd}

theorem paint_consistent (h : Consistent st) (D : Path → Bool) : Consistent (paint st D) := by
  refine h.update rfl (fun d => ?_) ?_
  · simp [paint, Function.comp_def, tint_tree]
  · intro d i e e' h1 h2 hne
    simp only [paint, List.getElem?_map, h1, Option.map_some, Option.some.injEq] at h2
    subst h2
    exact fun hh => hne (tint_two.2 hh)

theorem paint_exists (D : Path → Bool) (q : Path) : Exists (paint st D) q ↔ Exists st q := by
  simp only [Exists, paint, List.mem_map]
  constructor
  · rintro ⟨d, _, ⟨e, he, rfl⟩, ht, hr⟩
    exact ⟨d, e, he, by rwa [tint_tree] at ht, fun hh => hr (tint_two.2 hh)⟩
  · rintro ⟨d, e, he, ht, hr⟩
    exact ⟨d, _, ⟨e, he, rfl⟩, by rwa [tint_tree], fun hh => hr (tint_two.1 hh)⟩

theorem paint_exists_ (h : Consistent st) (D : Path → Bool) (q : Path) : exists_ (paint st D) q = exists_ st q := by
  rw [Bool.eq_iff_iff, exists_iff (paint_consistent h D), exists_iff h, paint_exists]

theorem paint_hasElem (D : Path → Bool) (q : Path) : hasElem (paint st D) q = hasElem st q := by
  rw [Bool.eq_iff_iff, hasElem_iff, hasElem_iff]
  simp only [mem_all, paint, List.mem_map]
  constructor
  · rintro ⟨_, ⟨d, e, he, rfl⟩, ht⟩; exact ⟨e, ⟨d, he⟩, by rwa [tint_tree] at ht⟩
  · rintro ⟨e, ⟨d, he⟩, ht⟩; exact ⟨_, ⟨d, e, he, rfl⟩, by rwa [tint_tree]⟩

theorem tint_isDef {D : Path → Bool} {d : Bool} {e : El} {p : Path} (ht : e.tree = some p) : isDef d (tint D d e) = true ↔ e.record ≠ 2 ∧ D p = true := by
  by_cases hr : e.record = 2
  · have : (tint D d e).record = 2 := tint_two.2 hr
    unfold isDef; rw [this]; simp [hr]
  · rw [tint_some ht hr]
    unfold isDef
    cases d <;> cases D p <;> simp [hr]

theorem paint_defAt (D : Path → Bool) (q : Path) : defAt (paint st D) q = true ↔ Exists st q ∧ D q = true := by
  simp only [defAt, List.any_eq_true, List.mem_cons, List.not_mem_nil, or_false, paint, List.mem_map, Bool.and_eq_true, beq_iff_eq]
  constructor
  · rintro ⟨d, -, _, ⟨e, he, rfl⟩, ht, hd⟩
    rw [tint_tree] at ht
    rw [tint_isDef ht] at hd
    exact ⟨⟨d, e, he, ht, hd.1⟩, hd.2⟩
  · rintro ⟨⟨d, e, he, ht, hr⟩, hD⟩
    exact ⟨d, by cases d <;> simp, _, ⟨e, he, rfl⟩, by rwa [tint_tree], (tint_isDef ht).2 ⟨hr, hD⟩⟩

theorem toDef_tint {D : Path → Bool} {d : Bool} {e : El} {p : Path} (ht : e.tree = some p) (hr : e.record ≠ 2) (D' : Path → Bool) (hD : D' p = true) :
    toDef d (tint D d e) = tint D' d e := by
  rw [tint_some ht hr, tint_some ht hr, hD]
  unfold toDef
  cases d <;> simp

theorem tint_congr {D D' : Path → Bool} {d : Bool} {e : El} (h : ∀ p, e.tree = some p → D p = D' p) : tint D d e = tint D' d e := by
  unfold tint; split
  · rfl
  · rename_i p hp; rw [h p hp]

theorem paint_setDefAt (h : Consistent st) (D : Path → Bool) {q : Path} (hq : Exists st q) :
    setDefAt (paint st D) q = paint st (fun x => D x || x == q) := by
  obtain ⟨d0, e0, he0, ht0, hr0⟩ := hq
  simp only [setDefAt, paint, St.mk.injEq, true_and, List.map_map]
  funext d
  apply List.map_congr_left
  intro e he
  simp only [Function.comp, tint_tree]
  by_cases hte : e.tree = some q
  · have : e = e0 := h.unique (mem_all.2 ⟨d, he⟩) (mem_all.2 ⟨d0, he0⟩) hte ht0
    subst this
    rw [if_pos (by simp [hte])]
    exact toDef_tint hte hr0 _ (by simp)
  · rw [if_neg (by simpa using hte)]
    apply tint_congr
    intro p hp
    have : p ≠ q := by rintro rfl; exact hte hp
    simp [this]

theorem paint_setDef (h : Consistent st) (D : Path → Bool) {d : Bool} {i : Nat} {e : El} {p : Path} (hi : (st.els d)[i]? = some e) (ht : e.tree = some p)
    (hr : e.record ≠ 2) : setDef (paint st D) (d, i) = paint st (fun x => D x || x == p) := by
  simp only [setDef, paint, St.mk.injEq, true_and]
  funext d'
  apply List.ext_getElem?
  intro j
  have other : ∀ x : El, (st.els d')[j]? = some x → ¬(d' = d ∧ i = j) → tint D d' x = tint (fun x => D x || x == p) d' x := by
    intro x hj hne
    apply tint_congr
    intro q hq
    have : q ≠ p := by
      rintro rfl
      obtain ⟨h1, h2⟩ := At.index h hi ht hj hq
      exact hne ⟨h1.symm, h2⟩
    simp [this]
  by_cases hd : d' = d
  · subst hd
    rw [if_pos rfl, List.getElem?_modify, List.getElem?_map, List.getElem?_map]
    cases hj : (st.els d')[j]? with
    | none => simp
    | some x =>
      by_cases hij : i = j
      · subst hij
        rw [hi] at hj; simp only [Option.some.injEq] at hj; subst hj
        simp only [if_true, Option.map_eq_map, Option.map_some, Option.some.injEq]
        exact toDef_tint ht hr _ (by simp)
      · simp only [if_neg hij, Option.map_eq_map, Option.map_some, Option.some.injEq, id]
        exact other x hj (fun hh => hij hh.2)
  · rw [if_neg hd, List.getElem?_map, List.getElem?_map]
    cases hj : (st.els d')[j]? with
    | none => simp
    | some x =>
      simp only [Option.map_some, Option.some.injEq]
      exact other x hj (fun hh => hd hh.1)

theorem paint_ext {D D' : Path → Bool} (h : ∀ x, D x = D' x) : paint st D = paint st D' := by
  have : D = D' := funext h
  rw [this]

theorem paint_deformNeighbors (h : Consistent st) : ∀ (l : List Path) (D : Path → Bool),
    deformNeighbors (paint st D) l = paint st (fun x => D x || (l.contains x && exists_ st x)) := by
  intro l
  induction l with
  | nil => intro D; exact paint_ext (by simp)
  | cons q l ih =>
    intro D
    simp only [deformNeighbors, List.foldl_cons, paint_exists_ h]
    by_cases hq : exists_ st q = true
    · rw [if_pos hq, paint_setDefAt h D ((exists_iff h q).1 hq)]
      refine (ih _).trans (paint_ext fun x => ?_)
      simp only [List.contains_cons]
      by_cases hx : x = q
      · subst hx; simp [hq]
      · have : (x == q) = false := by simp [hx]
        simp [this]
    · rw [if_neg hq]
      refine (ih _).trans (paint_ext fun x => ?_)
      simp only [List.contains_cons]
      by_cases hx : x = q
      · subst hx; simp [hq]
      · have : (x == q) = false := by simp [hx]
        simp [this]

theorem paint_setAll (h : Consistent st) : ∀ (l : List Path) (D : Path → Bool), (∀ q ∈ l, Exists st q) →
    l.foldl setDefAt (paint st D) = paint st (fun x => D x || l.contains x) := by
  intro l
  induction l with
  | nil => intro D _; exact paint_ext (by simp)
  | cons q l ih =>
    intro D hl
    rw [List.foldl_cons, paint_setDefAt h D (hl q (by simp))]
    refine (ih _ (fun x hx => hl x (by simp [hx]))).trans (paint_ext fun x => ?_)
    simp only [List.contains_cons, Bool.or_assoc]

theorem paint_start (hn : NoRequests st) : deformStart st = paint st (fun _ => false) := by
  simp only [deformStart, paint, St.mk.injEq, true_and]
  funext d
  apply List.map_congr_left
  intro e he
  unfold tint
  cases ht : e.tree with
  | none => simp
  | some p =>
    have := hn d e he (by simp [ht])
    obtain ⟨t, r, l⟩ := e
    simp only at this ht
    rcases this with rfl | rfl <;> cases d <;> simp [ht]

end

/-! ### The first loop -/

theorem mapM_some {α β : Type} {f : α → Option β} {g : α → β} : ∀ {l : List α}, (∀ x ∈ l, f x = some (g x)) → l.mapM f = some (l.map g)
  | [], _ => rfl
  | x :: l, h => by
    rw [List.mapM_cons, h x (by simp), mapM_some (fun y hy => h y (by simp [hy]))]
    rfl

/-- What the first loop does for the element at `p`. -/
def Base (st : St nd) (p q : Path) : Prop := ∃ i < 2 * nd, expAt st p i = true ∧ (q = p ∨ ∃ j < 2 * nd, j / 2 ≠ i / 2 ∧ q ∈ N st.root p (direction nd j) ∧ Exists st q)

theorem surfaceFace_eq {st : St nd} (h : Consistent st) {p : Path} {a : Tree nd} (ha : get p st.root = some a) (hf : ∀ dir, FaceDir dir → AllOrNone st a dir)
    {i : Nat} (hi : i < 2 * nd) (D : Path → Bool) : surfaceFace (paint st D) (N st.root p (direction nd i)) = expAt st p i := by
  have hp := (partly_iff h ha (isDir_direction (nd := nd) i)).2 (hf _ ⟨isDir_direction i, (loop_one hi).1⟩)
  unfold surfaceFace expAt
  unfold partly at hp
  simp only [paint_exists_ h]
  generalize N st.root p (direction nd i) = l at hp ⊢
  cases l with
  | nil => simp
  | cons q l =>
    simp only [List.head?_cons, Option.any_some]
    simp only [List.any_cons, List.all_cons] at hp
    simp only [List.all_cons]
    cases hq : exists_ st q <;> simp_all

theorem deformOne_ok {st : St nd} (h : Consistent st) (hf : ∀ p a dir, Exists st p → get p st.root = some a → FaceDir dir → AllOrNone st a dir)
    (D : Path → Bool) {d : Bool} {i : Nat} {e : El} (hi : (st.els d)[i]? = some e) :
    ∃ D', deformOne (paint st D) (d, i) = some (paint st D') ∧
      ∀ q, D' q = true ↔ D q = true ∨ ∃ p, e.tree = some p ∧ e.record ≠ 2 ∧ Base st p q := by
  have hi' : ((paint st D).els d)[i]? = some (tint D d e) := by simp [paint, hi]
  simp only [deformOne, hi', Option.bind_some, tint_tree]
  cases ht : e.tree with
  | none => exact ⟨D, rfl, by simp⟩
  | some p =>
    simp only
    by_cases hr : e.record = 2
    · rw [if_neg (by simpa using tint_two.2 hr)]
      exact ⟨D, rfl, by simp [hr]⟩
    · rw [if_pos (fun hh => hr (tint_two.1 hh))]
      have hp : Exists st p := ⟨d, e, List.mem_of_getElem? hi, ht, hr⟩
      obtain ⟨a, ha, hal⟩ := hp.leaf h
      have hls : (List.range (2 * nd)).mapM (fun i => findNeighbors (paint st D).root p (direction nd i)) =
          some ((List.range (2 * nd)).map fun i => N st.root p (direction nd i)) :=
        mapM_some (fun i _ => (N_eq h.reach ⟨a, ha⟩ (isDir_direction i)).1)
      rw [hls]
      simp only [Option.map_some, Option.some.injEq, List.map_map]
      have hs : (List.range (2 * nd)).map (surfaceFace (paint st D) ∘ fun i => N st.root p (direction nd i)) = (List.range (2 * nd)).map (expAt st p) := by
        apply List.map_congr_left
        intro j hj
        exact surfaceFace_eq h ha (fun dir hd => hf p a dir hp ha hd) (List.mem_range.1 hj) D
      rw [hs]
      have hexp : ∀ j, isExp ((List.range (2 * nd)).map (expAt st p)) j = true ↔ j < 2 * nd ∧ expAt st p j = true := by
        intro j
        unfold isExp
        rw [List.getElem?_map]
        by_cases hj : j < 2 * nd
        · simp [List.getElem?_range hj, hj]
        · rw [List.getElem?_eq_none (by simp; omega)]; simp [hj]
      by_cases hb : ((List.range (2 * nd)).map (expAt st p)).any id = true
      · rw [if_pos hb]
        simp only [List.any_eq_true, List.mem_map, List.mem_range, id, exists_exists_and_eq_and] at hb
        obtain ⟨j0, hj0, hx0⟩ := hb
        set c : Nat → Bool := fun i => (List.range (2 * nd)).any fun j => j / 2 != i / 2 && isExp ((List.range (2 * nd)).map (expAt st p)) j with hc
        have hloop : ∀ (l : List Nat) (E : Path → Bool), (∀ i ∈ l, i < 2 * nd) →
            ∃ E', l.foldl (fun s i => if c i = true then deformNeighbors s (((List.range (2 * nd)).map fun i => N st.root p (direction nd i))[i]?.getD []) else s) (paint st E) =
              paint st E' ∧ ∀ q, E' q = true ↔ E q = true ∨ ∃ i ∈ l, c i = true ∧ q ∈ N st.root p (direction nd i) ∧ Exists st q := by
          intro l
          induction l with
          | nil => intro E _; exact ⟨E, rfl, by simp⟩
          | cons i l ih =>
            intro E hl
            have hil : i < 2 * nd := hl i (by simp)
            rw [List.foldl_cons]
            by_cases hci : c i = true
            · rw [if_pos hci, List.getElem?_map, List.getElem?_range hil]
              simp only [Option.map_some, Option.getD_some, paint_deformNeighbors h]
              obtain ⟨E', e1, e2⟩ := ih (fun x => E x || ((N st.root p (direction nd i)).contains x && exists_ st x)) (fun x hx => hl x (by simp [hx]))
              refine ⟨E', e1, fun q => ?_⟩
              rw [e2]
              simp only [Bool.or_eq_true, Bool.and_eq_true, List.contains_iff_mem, exists_iff h, List.mem_cons, exists_eq_or_imp, hci, true_and]
              tauto
            · rw [if_neg hci]
              obtain ⟨E', e1, e2⟩ := ih E (fun x hx => hl x (by simp [hx]))
              refine ⟨E', e1, fun q => ?_⟩
              rw [e2]
              simp only [List.mem_cons, exists_eq_or_imp, hci, false_and, false_or, Bool.false_eq_true]
        rw [paint_setDef h D hi ht hr]
        obtain ⟨E', e1, e2⟩ := hloop (List.range (2 * nd)) (fun x => D x || x == p) (fun i hi => List.mem_range.1 hi)
        refine ⟨E', by rw [e1], fun q => ?_⟩
        rw [e2]
        simp only [Bool.or_eq_true, beq_iff_eq, List.mem_range, or_assoc, Option.some.injEq, exists_eq_left', hr, ne_eq, not_false_eq_true, true_and]
        refine or_congr Iff.rfl ?_
        unfold Base
        constructor
        · rintro (rfl | ⟨k, hk, hck, hq, hx⟩)
          · exact ⟨j0, hj0, hx0, .inl rfl⟩
          · simp only [hc, List.any_eq_true, List.mem_range, Bool.and_eq_true, bne_iff_ne, ne_eq, hexp] at hck
            obtain ⟨j, hj, hne, -, hx'⟩ := hck
            exact ⟨j, hj, hx', .inr ⟨k, hk, fun hh => hne hh.symm, hq, hx⟩⟩
        · rintro ⟨j, hj, hx, rfl | ⟨k, hk, hne, hq, hxq⟩⟩
          · exact .inl rfl
          · refine .inr ⟨k, hk, ?_, hq, hxq⟩
            simp only [hc, List.any_eq_true, List.mem_range, Bool.and_eq_true, bne_iff_ne, ne_eq, hexp]
            exact ⟨j, hj, fun hh => hne hh.symm, hj, hx⟩
      · rw [if_neg hb]
        refine ⟨D, rfl, fun q => ?_⟩
        simp only [Option.some.injEq, exists_eq_left']
        constructor
        · exact .inl
        · rintro (hh | ⟨-, j, hj, hx, -⟩)
          · exact hh
          · exfalso; apply hb
            simp only [List.any_eq_true, List.mem_map, List.mem_range, id, exists_exists_and_eq_and]
            exact ⟨j, hj, hx⟩

theorem deformLoop_ok {st : St nd} (h : Consistent st) (hf : ∀ p a dir, Exists st p → get p st.root = some a → FaceDir dir → AllOrNone st a dir) :
    ∀ (order : List (Bool × Nat)) (D : Path → Bool), (∀ x ∈ order, x.2 < (st.els x.1).length) →
    ∃ D', order.foldlM deformOne (paint st D) = some (paint st D') ∧
      ∀ q, D' q = true ↔ D q = true ∨ ∃ x ∈ order, ∃ (e : El) (p : Path), (st.els x.1)[x.2]? = some e ∧ e.tree = some p ∧ e.record ≠ 2 ∧ Base st p q := by
  intro order
  induction order with
  | nil => intro D _; exact ⟨D, rfl, by simp⟩
  | cons x l ih =>
    intro D hx
    have hi := List.getElem?_eq_getElem (hx x (by simp))
    generalize (st.els x.1)[x.2]'(hx x (by simp)) = e at hi
    obtain ⟨D1, e1, e2⟩ := deformOne_ok h hf D hi
    obtain ⟨D2, e3, e4⟩ := ih D1 (fun y hy => hx y (by simp [hy]))
    refine ⟨D2, by rw [List.foldlM_cons, e1]; exact e3, fun q => ?_⟩
    rw [e4, e2]
    simp only [List.mem_cons, exists_eq_or_imp, hi, Option.some.injEq, exists_eq_left', or_assoc]
    refine or_congr Iff.rfl (or_congr ?_ Iff.rfl)
    constructor
    · rintro ⟨p, h1, h2, h3⟩; exact ⟨e, p, rfl, h1, h2, h3⟩
    · rintro ⟨e', p, rfl, h1, h2, h3⟩; exact ⟨p, h1, h2, h3⟩

theorem deformLoop_all {st : St nd} (h : Consistent st) (hn : NoRequests st) (hf : ∀ p a dir, Exists st p → get p st.root = some a → FaceDir dir → AllOrNone st a dir)
    {order : List (Bool × Nat)} (ho : order.Perm (handles st)) :
    ∃ D', order.foldlM deformOne (deformStart st) = some (paint st D') ∧ ∀ q, D' q = true ↔ ∃ p, Exists st p ∧ Base st p q := by
  obtain ⟨D, e1, e2⟩ := deformLoop_ok h hf order (fun _ => false) (fun x hx => mem_handles.1 (ho.mem_iff.1 hx))
  refine ⟨D, by rw [paint_start hn]; exact e1, fun q => ?_⟩
  rw [e2]
  simp only [Bool.false_eq_true, false_or]
  constructor
  · rintro ⟨x, -, e, p, h1, h2, h3, h4⟩; exact ⟨p, ⟨x.1, e, List.mem_of_getElem? h1, h2, h3⟩, h4⟩
  · rintro ⟨p, ⟨d, e, he, ht, hr⟩, hb⟩
    obtain ⟨i, hi⟩ := List.mem_iff_getElem?.1 he
    exact ⟨(d, i), ho.mem_iff.2 (mem_handles.2 (List.getElem?_eq_some_iff.1 hi).1), e, p, hi, ht, hr, hb⟩

/-! ### The second loop -/

theorem Bent.exists {st : St nd} {p : Path} (h : Bent st p) : Exists st p := by
  cases h with
  | surface h _ _ _ => exact h
  | beside _ _ _ _ _ _ h _ _ => exact h
  | spread _ _ _ _ _ _ h _ _ => exact h

theorem direction_ne {i : Nat} {d : Fin nd} : direction nd i d ≠ 0 ↔ d.val = i / 2 := by
  simp only [direction]; split
  · rename_i hh; simp [sign_ne, hh]
  · rename_i hh; simp [hh]

theorem faceDir_direction {i : Nat} (hi : i < 2 * nd) : FaceDir (direction nd i) := ⟨isDir_direction i, (loop_one hi).1⟩

theorem base_bent {st : St nd} (h : Consistent st) {p q : Path} (hp : Exists st p) (hb : Base st p q) : Bent st q := by
  obtain ⟨a, ha, -⟩ := hp.leaf h
  obtain ⟨i, hi, hx, rfl | ⟨j, hj, hne, hq, hxq⟩⟩ := hb
  · exact .surface hp ha (faceDir_direction hi) ((expAt_iff h ha i).1 hx)
  · obtain ⟨b, hb, -, hbor⟩ := (N_mem h ha (isDir_direction j) q).1 hq
    refine .beside hp ha (faceDir_direction hi) ((expAt_iff h ha i).1 hx) (faceDir_direction hj) (fun d => ?_) hxq hb hbor
    by_contra hc
    push Not at hc
    have h1 := direction_ne.1 hc.1
    have h2 := direction_ne.1 hc.2
    exact hne (by omega)

theorem bent_sub {st : St nd} (h : Consistent st) {D : Path → Bool} (hbase : ∀ p q, Exists st p → Base st p q → D q = true)
    (hcl : ∀ p, Exists st p → D p = true → ∀ i < 2 * nd, ∀ q ∈ N st.root p (direction nd i), D q = true → ∀ r ∈ N st.root p (direction nd i), Exists st r → D r = true)
    {p : Path} (hp : Bent st p) : D p = true := by
  induction hp with
  | @surface p a dir hp ha hd hx =>
    obtain ⟨i, hi, rfl, -⟩ := dir_one hd.1 hd.2
    exact hbase p p hp ⟨i, hi, (expAt_iff h ha i).2 hx, .inl rfl⟩
  | @beside p q a b dir dir' hp ha hd hx hd' hne hq hb hbor =>
    obtain ⟨i, hi, rfl, -⟩ := dir_one hd.1 hd.2
    obtain ⟨j, hj, rfl, -⟩ := dir_one hd'.1 hd'.2
    obtain ⟨b', hb', hbl⟩ := hq.leaf h
    rw [hb] at hb'; simp only [Option.some.injEq] at hb'; subst hb'
    refine hbase p q hp ⟨i, hi, (expAt_iff h ha i).2 hx, .inr ⟨j, hj, ?_, (N_mem h ha (isDir_direction j) q).2 ⟨b, hb, hbl, hbor⟩, hq⟩⟩
    intro hij
    have hlt : i / 2 < nd := by omega
    rcases hne ⟨i / 2, hlt⟩ with g | g
    · exact direction_ne.2 rfl g
    · exact direction_ne.2 hij.symm g
  | @spread p q r a b c dir hp ha hd hq hb hbor hr hc hcor ihp ihq =>
    obtain ⟨i, hi, rfl, -⟩ := dir_one hd.1 hd.2
    obtain ⟨b', hb', hbl⟩ := hq.exists.leaf h
    rw [hb] at hb'; simp only [Option.some.injEq] at hb'; subst hb'
    obtain ⟨c', hc', hcl'⟩ := hr.leaf h
    rw [hc] at hc'; simp only [Option.some.injEq] at hc'; subst hc'
    exact hcl p hp.exists ihp i hi q ((N_mem h ha (isDir_direction i) q).2 ⟨b, hb, hbl, hbor⟩) ihq r ((N_mem h ha (isDir_direction i) r).2 ⟨c, hc, hcl', hcor⟩) hr

/-- The number of elements not to be deformed. -/
def flat (st : St nd) (D : Path → Bool) : Nat := st.all.countP fun e => e.tree.any fun p => !D p

theorem countP_lt {α : Type} {f g : α → Bool} : ∀ {l : List α}, (∀ x, f x = true → g x = true) → (∃ x ∈ l, g x = true ∧ f x = false) → l.countP f < l.countP g
  | [], _, h => by simp at h
  | y :: l, hle, h => by
    have hle' : l.countP f ≤ l.countP g := List.countP_mono_left fun x _ => hle x
    rw [List.countP_cons, List.countP_cons]
    obtain ⟨x, hx, h1, h2⟩ := h
    rcases List.mem_cons.1 hx with rfl | hx
    · rw [h1, h2]; simp; omega
    · have := countP_lt (l := l) hle ⟨x, hx, h1, h2⟩
      by_cases hy : f y = true
      · rw [hy, hle y hy]; simp; omega
      · simp only [hy]; simp; omega

theorem flat_lt {st : St nd} {D D' : Path → Bool} (hle : ∀ q, D q = true → D' q = true) {q : Path} (hq : Exists st q) (h1 : D q = false) (h2 : D' q = true) :
    flat st D' < flat st D := by
  obtain ⟨d, e, he, ht, -⟩ := hq
  refine countP_lt (fun x hx => ?_) ⟨e, mem_all.2 ⟨d, he⟩, by simp [ht, h1], by simp [ht, h2]⟩
  obtain ⟨p, hp, hp'⟩ := (Option.any_eq_true _ _).1 hx
  refine (Option.any_eq_true _ _).2 ⟨p, hp, ?_⟩
  cases hD : D p with
  | true => rw [hle p hD] at hp'; simp at hp'
  | false => rfl

/-- What parts of the second loop do. -/
structure Spread (st : St nd) (D : Path → Bool) (c : Bool) (D' : Path → Bool) (c' : Bool) (quiet : Prop) : Prop where
  mono : ∀ q, D q = true → D' q = true
  sound : (∀ q, D q = true → Bent st q) → ∀ q, D' q = true → Bent st q
  step : (D' = D ∧ c' = c ∧ quiet) ∨ (c' = true ∧ flat st D' < flat st D)

theorem Spread.trans {st : St nd} {D D1 D2 : Path → Bool} {c c1 c2 : Bool} {Q Q' : Prop} {R : Prop} (h1 : Spread st D c D1 c1 Q)
    (h2 : Spread st D1 c1 D2 c2 Q') (hR : D1 = D → Q → Q' → R) : Spread st D c D2 c2 R := by
  refine ⟨fun q hq => h2.mono q (h1.mono q hq), fun hs => h2.sound (h1.sound hs), ?_⟩
  rcases h1.step with ⟨rfl, rfl, hq⟩ | ⟨rfl, hlt⟩
  · rcases h2.step with ⟨rfl, rfl, hq'⟩ | ⟨g1, g2⟩
    · exact .inl ⟨rfl, rfl, hR rfl hq hq'⟩
    · exact .inr ⟨g1, g2⟩
  · rcases h2.step with ⟨rfl, rfl, -⟩ | ⟨g1, g2⟩
    · exact .inr ⟨rfl, hlt⟩
    · exact .inr ⟨g1, g2.trans hlt⟩

theorem spread_fold {α : Type} {st : St nd} {f : St nd × Bool → α → Option (St nd × Bool)} {P : (Path → Bool) → Prop} {Q : (Path → Bool) → α → Prop}
    (hP : ∀ D D' : Path → Bool, (∀ q, D q = true → D' q = true) → ((∀ q, D q = true → Bent st q) → ∀ q, D' q = true → Bent st q) → P D → P D') : ∀ (l : List α),
    (∀ x ∈ l, ∀ D c, P D → ∃ D' c', f (paint st D, c) x = some (paint st D', c') ∧ Spread st D c D' c' (Q D x)) → ∀ D c, P D →
    ∃ D' c', l.foldlM f (paint st D, c) = some (paint st D', c') ∧ Spread st D c D' c' (∀ x ∈ l, Q D x) := by
  intro l
  induction l with
  | nil => intro _ D c _; exact ⟨D, c, rfl, fun _ => id, id, .inl ⟨rfl, rfl, by simp⟩⟩
  | cons x l ih =>
    intro hf D c hD
    obtain ⟨D1, c1, e1, s1⟩ := hf x (by simp) D c hD
    obtain ⟨D2, c2, e2, s2⟩ := ih (fun y hy => hf y (by simp [hy])) D1 c1 (hP D D1 s1.mono s1.sound hD)
    refine ⟨D2, c2, by rw [List.foldlM_cons, e1]; exact e2, s1.trans s2 ?_⟩
    rintro rfl q1 q2 y hy
    rcases List.mem_cons.1 hy with rfl | hy
    · exact q1
    · exact q2 y hy

def QuietFace (st : St nd) (D : Path → Bool) (p : Path) (i : Nat) : Prop :=
  ∀ q ∈ N st.root p (direction nd i), D q = true → ∀ r ∈ N st.root p (direction nd i), Exists st r → D r = true

theorem spreadFace_ok {st : St nd} (h : Consistent st) (hf : ∀ p a dir, Exists st p → get p st.root = some a → FaceDir dir → AllOrNone st a dir)
    {p : Path} (hp : Exists st p) {i : Nat} (hi : i < 2 * nd) (D : Path → Bool) (c : Bool) (hD : ∀ q, D q = true → Exists st q) (hDp : D p = true) :
    ∃ D' c', spreadFace p (paint st D, c) i = some (paint st D', c') ∧ Spread st D c D' c' (QuietFace st D p i) := by
  obtain ⟨a, ha, -⟩ := hp.leaf h
  have hN := (N_eq h.reach ⟨a, ha⟩ (isDir_direction (nd := nd) i)).1
  have hmem := N_mem h ha (isDir_direction (nd := nd) i)
  have hall := hf p a _ hp ha (faceDir_direction hi)
  simp only [spreadFace]
  rw [show (paint st D).root = st.root from rfl, hN]
  simp only [Option.map_some]
  simp only [QuietFace]
  generalize hl : N st.root p (direction nd i) = l at hmem ⊢
  by_cases hany : ∃ q ∈ l, D q = true
  · obtain ⟨q, hq, hDq⟩ := hany
    have hex : ∀ r ∈ l, Exists st r := by
      obtain ⟨b, hb1, hb2, hb3⟩ := (hmem q).1 hq
      rcases hall with hh | hh
      · intro r hr
        obtain ⟨b', g1, g2, g3⟩ := (hmem r).1 hr
        exact hh r b' g1 g2 g3
      · exact absurd (hD q hDq) (hh q b hb1 hb2 hb3)
    have hfil : l.filter (hasElem (paint st D)) = l := by
      rw [List.filter_eq_self]
      intro r hr
      rw [paint_hasElem, hasElem_iff]
      obtain ⟨d, e, he, ht, -⟩ := hex r hr
      exact ⟨e, mem_all.2 ⟨d, he⟩, ht⟩
    rw [hfil]
    by_cases hc : (l.any (defAt (paint st D)) && !l.all (defAt (paint st D))) = true
    · rw [if_pos hc, paint_setAll h l D hex]
      refine ⟨_, true, rfl, fun q hq => by simp [hq], fun hs r hr => ?_, .inr ⟨rfl, ?_⟩⟩
      · simp only [Bool.or_eq_true, List.contains_iff_mem] at hr
        rcases hr with hr | hr
        · exact hs r hr
        · obtain ⟨b, hb1, hb2, hb3⟩ := (hmem q).1 hq
          obtain ⟨b', g1, g2, g3⟩ := (hmem r).1 hr
          exact .spread (hs p hDp) ha (faceDir_direction hi) (hs q hDq) hb1 hb3 (hex r hr) g1 g3
      · simp only [Bool.and_eq_true, Bool.not_eq_true'] at hc
        have h2 := hc.2
        rw [List.all_eq_false] at h2
        obtain ⟨r, hr, hr'⟩ := h2
        refine flat_lt (fun q hq => by simp [hq]) (hex r hr) ?_ (by simp [hr])
        cases hDr : D r with
        | false => rfl
        | true => exact absurd ((paint_defAt D r).2 ⟨hex r hr, hDr⟩) hr'
    · rw [if_neg hc]
      refine ⟨D, c, rfl, fun _ => id, id, .inl ⟨rfl, rfl, ?_⟩⟩
      intro q' hq' hDq' r hr hxr
      have h1 : l.any (defAt (paint st D)) = true := List.any_eq_true.2 ⟨q, hq, (paint_defAt D q).2 ⟨hex q hq, hDq⟩⟩
      rw [h1] at hc
      simp only [Bool.true_and, Bool.not_eq_true', Bool.not_eq_false] at hc
      exact ((paint_defAt D r).1 (List.all_eq_true.1 hc r hr)).2
  · have h1 : (l.filter (hasElem (paint st D))).any (defAt (paint st D)) = false := by
      rw [List.any_eq_false]
      intro r hr hdr
      exact hany ⟨r, (List.mem_filter.1 hr).1, ((paint_defAt D r).1 hdr).2⟩
    rw [h1]
    refine ⟨D, c, by simp, fun _ => id, id, .inl ⟨rfl, rfl, ?_⟩⟩
    intro q hq hDq
    exact absurd ⟨q, hq, hDq⟩ hany

theorem spreadOne_ok {st : St nd} (h : Consistent st) (hf : ∀ p a dir, Exists st p → get p st.root = some a → FaceDir dir → AllOrNone st a dir)
    {x : Bool × Nat} (hx : x.2 < (st.els x.1).length) (D : Path → Bool) (c : Bool) (hD : ∀ q, D q = true → Bent st q) :
    ∃ D' c', spreadOne (paint st D, c) x = some (paint st D', c') ∧ Spread st D c D' c' (∀ (e : El) p, (st.els x.1)[x.2]? = some e → e.tree = some p →
      e.record ≠ 2 → D p = true → ∀ i < 2 * nd, QuietFace st D p i) := by
  have hi := List.getElem?_eq_getElem hx
  generalize (st.els x.1)[x.2] = e at hi
  have hi' : ((paint st D).els x.1)[x.2]? = some (tint D x.1 e) := by simp [paint, hi]
  simp only [spreadOne, hi', Option.bind_some, tint_tree]
  cases ht : e.tree with
  | none =>
    refine ⟨D, c, rfl, fun _ => id, id, .inl ⟨rfl, rfl, ?_⟩⟩
    intro e' p h1 h2
    rw [hi] at h1; simp only [Option.some.injEq] at h1; subst h1; rw [ht] at h2; simp at h2
  | some p =>
    simp only
    by_cases hd : isDef x.1 (tint D x.1 e) = true
    · rw [if_pos hd]
      obtain ⟨hr, hDp⟩ := (tint_isDef ht).1 hd
      have hp : Exists st p := ⟨x.1, e, List.mem_of_getElem? hi, ht, hr⟩
      obtain ⟨D', c', e1, s1⟩ := spread_fold (st := st) (f := spreadFace p) (P := fun D => D p = true ∧ ∀ q, D q = true → Bent st q) (Q := fun D i => QuietFace st D p i)
        (fun D D' hle hs hD => ⟨hle p hD.1, hs hD.2⟩) (List.range (2 * nd)) (fun i hi D c hD =>
          spreadFace_ok h hf hp (List.mem_range.1 hi) D c (fun q hq => (hD.2 q hq).exists) hD.1) D c ⟨hDp, hD⟩
      refine ⟨D', c', e1, s1.mono, s1.sound, ?_⟩
      rcases s1.step with ⟨g1, g2, g3⟩ | g
      · refine .inl ⟨g1, g2, ?_⟩
        intro e' p' h1 h2 _ _ i hlt
        rw [hi] at h1; simp only [Option.some.injEq] at h1; subst h1
        rw [ht] at h2; simp only [Option.some.injEq] at h2; subst h2
        exact g3 i (List.mem_range.2 hlt)
      · exact .inr g
    · rw [if_neg hd]
      refine ⟨D, c, rfl, fun _ => id, id, .inl ⟨rfl, rfl, ?_⟩⟩
      intro e' p' h1 h2 h3 h4
      rw [hi] at h1; simp only [Option.some.injEq] at h1; subst h1
      rw [ht] at h2; simp only [Option.some.injEq] at h2; subst h2
      exact absurd ((tint_isDef ht).2 ⟨h3, h4⟩) hd

def Closed (st : St nd) (D : Path → Bool) : Prop := ∀ p, Exists st p → D p = true → ∀ i < 2 * nd, QuietFace st D p i

theorem spreadPass_ok {st : St nd} (h : Consistent st) (hf : ∀ p a dir, Exists st p → get p st.root = some a → FaceDir dir → AllOrNone st a dir)
    {order : List (Bool × Nat)} (ho : order.Perm (handles st)) (D : Path → Bool) (hD : ∀ q, D q = true → Bent st q) :
    ∃ D' c', spreadPass order (paint st D) = some (paint st D', c') ∧ Spread st D false D' c' (Closed st D) := by
  obtain ⟨D', c', e1, s1⟩ := spread_fold (st := st) (f := spreadOne) (P := fun D => ∀ q, D q = true → Bent st q)
    (Q := fun D x => ∀ (e : El) p, (st.els x.1)[x.2]? = some e → e.tree = some p → e.record ≠ 2 → D p = true → ∀ i < 2 * nd, QuietFace st D p i)
    (fun D D' _ hs hD => hs hD) order (fun x hx D c hD => spreadOne_ok h hf (mem_handles.1 (ho.mem_iff.1 hx)) D c hD) D false hD
  refine ⟨D', c', e1, s1.mono, s1.sound, ?_⟩
  rcases s1.step with ⟨g1, g2, g3⟩ | g
  · refine .inl ⟨g1, g2, ?_⟩
    rintro p ⟨d, e, he, ht, hr⟩ hDp
    obtain ⟨i, hi⟩ := List.mem_iff_getElem?.1 he
    exact g3 (d, i) (ho.mem_iff.2 (mem_handles.2 (List.getElem?_eq_some_iff.1 hi).1)) e p hi ht hr hDp
  · exact .inr g

theorem handles_paint (st : St nd) (D : Path → Bool) : handles (paint st D) = handles st := by
  simp [handles, paint]

theorem spread_loop {st : St nd} (h : Consistent st) (hf : ∀ p a dir, Exists st p → get p st.root = some a → FaceDir dir → AllOrNone st a dir)
    {order : Nat → St nd → List (Bool × Nat)} (ho : ∀ k s, (order k s).Perm (handles s)) : ∀ n k (D : Path → Bool), (∀ q, D q = true → Bent st q) →
    (∃ D', repeatPass spreadPass order k n (paint st D) = some (some (paint st D')) ∧ (∀ q, D q = true → D' q = true) ∧
      (∀ q, D' q = true → Bent st q) ∧ Closed st D') ∨ (n ≤ flat st D ∧ repeatPass spreadPass order k n (paint st D) = some none) := by
  intro n
  induction n with
  | zero => intro k D _; exact .inr ⟨Nat.zero_le _, rfl⟩
  | succ n ih =>
    intro k D hD
    have ho' := ho k (paint st D)
    rw [handles_paint] at ho'
    obtain ⟨D1, c1, e1, s1⟩ := spreadPass_ok h hf ho' D hD
    simp only [repeatPass, e1, Option.bind_some]
    rcases s1.step with ⟨rfl, rfl, hq⟩ | ⟨rfl, hlt⟩
    · exact .inl ⟨D1, by simp, fun _ => id, hD, hq⟩
    · rcases ih (k + 1) D1 (s1.sound hD) with ⟨D', g1, g2, g3, g4⟩ | ⟨g1, g2⟩
      · exact .inl ⟨D', by simpa using g1, fun q hq => g2 q (s1.mono q hq), g3, g4⟩
      · exact .inr ⟨by omega, by simpa using g2⟩

/-! ### Exchange of elements -/

/-- The element of cell `p` loses it and is going to be deleted. -/
def unpair (st : St nd) (p : Path) : St nd :=
  { st with els := fun d => (st.els d).map fun e => if e.tree == some p then { e with tree := none, record := 2 } else e }

theorem filterMap_unpair (p : Path) (l : List El) :
    (l.map fun e => if e.tree == some p then { e with tree := none, record := 2 } else e).filterMap (·.tree) = (l.filterMap (·.tree)).filter (· ≠ p) := by
  rw [← filterMap_clear]
  simp only [List.filterMap_map]
  congr 1
  funext e
  simp only [Function.comp]
  split <;> rfl

theorem unpair_cases {st : St nd} {p : Path} {d : Bool} {e : El} (he : e ∈ (unpair st p).els d) : (e ∈ st.els d ∧ e.tree ≠ some p) ∨ e.tree = none := by
  simp only [unpair, List.mem_map] at he
  obtain ⟨x, hx, rfl⟩ := he
  split
  · exact .inr rfl
  · rename_i hh; exact .inl ⟨hx, by simpa using hh⟩

theorem unpair_ok {st : St nd} (h : Consistent st) (p : Path) : Consistent (unpair st p) := by
  refine ⟨h.reach, fun d e he q ht => ?_, ?_, fun d e he q ht hr => ?_⟩
  · rcases unpair_cases he with ⟨g, -⟩ | g
    · exact h.valid d e g q ht
    · rw [g] at ht; simp at ht
  · have := h.uniq
    simp only [St.all, List.filterMap_append] at this ⊢
    simp only [unpair, filterMap_unpair, ← List.filter_append]
    exact this.filter _
  · rcases unpair_cases he with ⟨g, -⟩ | g
    · exact h.leaf d e g q ht hr
    · rw [g] at ht; simp at ht

theorem unpair_els {st : St nd} (h : Consistent st) {d : Bool} {i : Nat} {e : El} {p : Path} (hi : (st.els d)[i]? = some e) (ht : e.tree = some p) (d' : Bool) :
    (unpair st p).els d' = if d' = d then (st.els d).modify i (fun e => { e with tree := none, record := 2 }) else st.els d' := by
  apply List.ext_getElem?
  intro k
  simp only [unpair, List.getElem?_map]
  cases hk : (st.els d')[k]? with
  | none =>
    split
    · rename_i hd; subst hd; simp [List.getElem?_modify, hk]
    · simp [hk]
  | some x =>
    by_cases hx : x.tree = some p
    · obtain ⟨rfl, rfl⟩ := At.index h hk hx hi ht
      simp [List.getElem?_modify, hk, hx]
    · split
      · rename_i hd; subst hd
        rw [List.getElem?_modify]
        by_cases hki : i = k
        · subst hki; rw [hi] at hk; simp only [Option.some.injEq] at hk; subst hk; exact absurd ht hx
        · simp [hki, hk, hx]
      · simp [hk, hx]

theorem swapOne_eq {st : St nd} (h : Consistent st) {d : Bool} {i : Nat} {e : El} {p : Path} (hi : (st.els d)[i]? = some e) (ht : e.tree = some p) (hr : e.record = 3) :
    swapOne d st i = some (addElem (unpair st p) (!d) p) := by
  simp only [swapOne, hi, Option.bind_some, if_pos hr, ht, Option.map_some, Option.some.injEq]
  simp only [addElem, St.mk.injEq]
  refine ⟨rfl, ?_⟩
  funext d'
  rw [unpair_els h hi ht]
  apply List.ext_getElem?
  intro k
  by_cases hd : d' = d
  · subst hd
    have : ¬(d' = !d') := by cases d' <;> simp
    simp only [if_true, if_neg this, List.getElem?_modify, List.getElem?_map]
    by_cases hk : i = k
    · subst hk; simp [hi]; split <;> rfl
    · simp [hk]
  · simp only [if_neg hd]

theorem swapOne_skip {st : St nd} {d : Bool} {i : Nat} {e : El} (hi : (st.els d)[i]? = some e) (hr : e.record ≠ 3) : swapOne d st i = some st := by
  simp [swapOne, hi, hr]

/-- What is left of an element when it has been exchanged. -/
def gone (e : El) : El := if e.record = 3 then { e with tree := none, record := 2 } else e

/-- The element by which it is replaced. -/
def born (e : El) : List El := if e.record = 3 then (e.tree.map fun p => (⟨some p, 0, false⟩ : El)).toList else []

theorem modify_at {α : Type} {f : α → α} {a : List α} (b : List α) {x : α} {k : Nat} (hk : k = a.length) : (a ++ x :: b).modify k f = a ++ f x :: b := by
  subst hk
  induction a with
  | nil => rfl
  | cons y a ih => simpa using ih

theorem swap_take {st : St nd} (h : Consistent st) (d : Bool) (h3 : ∀ e ∈ st.els d, e.record = 3 → e.tree ≠ none) : ∀ k ≤ (st.els d).length,
    ∃ st', (List.range k).foldlM (swapOne d) st = some st' ∧ Consistent st' ∧ st'.root = st.root ∧
      st'.els d = ((st.els d).take k).map gone ++ (st.els d).drop k ∧ st'.els (!d) = st.els (!d) ++ ((st.els d).take k).flatMap born := by
  intro k
  induction k with
  | zero => intro _; exact ⟨st, rfl, h, rfl, by simp, by simp⟩
  | succ k ih =>
    intro hk
    obtain ⟨s, e1, hc, hroot, e2, e3⟩ := ih (by omega)
    have hi := List.getElem?_eq_getElem (show k < (st.els d).length by omega)
    generalize hx : (st.els d)[k] = e at hi
    have hlen : (((st.els d).take k).map gone).length = k := by simp; omega
    have hi' : (s.els d)[k]? = some e := by
      rw [e2, List.getElem?_append_right (by omega), hlen]
      simp [hi]
    have htake : (st.els d).take (k + 1) = (st.els d).take k ++ [e] := by rw [List.take_add_one, hi]; rfl
    have hdrop : (st.els d).drop k = e :: (st.els d).drop (k + 1) := by rw [← hx]; exact List.drop_eq_getElem_cons (by omega)
    rw [List.range_succ, List.foldlM_append, e1]
    by_cases hr : e.record = 3
    · obtain ⟨p, ht⟩ : ∃ p, e.tree = some p := by
        cases ht : e.tree with
        | none => exact absurd ht (h3 e (List.mem_of_getElem? hi) hr)
        | some p => exact ⟨p, rfl⟩
      have hl : IsLeafAt s.root p := hc.leaf d e (List.mem_of_getElem? hi') p ht (by omega)
      have hu := unpair_ok hc p
      have hfresh : ∀ d', ∀ e ∈ (unpair s p).els d', e.tree ≠ some p := by
        intro d' x hx'
        rcases unpair_cases hx' with ⟨-, g⟩ | g
        · exact g
        · rw [g]; simp
      refine ⟨addElem (unpair s p) (!d) p, ?_, (addElem_ok hu (!d) hl).1, hroot, ?_, ?_⟩
      · have := swapOne_eq hc hi' ht hr
        simpa using this
      · rw [addElem_fresh _ hfresh, if_neg (by cases d <;> simp), unpair_els hc hi' ht, if_pos rfl, e2, htake, hdrop]
        rw [modify_at _ hlen.symm]; simp [gone, hr]
      · rw [addElem_fresh _ hfresh, if_pos rfl, unpair_els hc hi' ht, if_neg (by cases d <;> simp), e3, htake]
        simp [born, hr, ht]
    · refine ⟨s, ?_, hc, hroot, ?_, ?_⟩
      · have := swapOne_skip hi' hr
        simpa using this
      · rw [e2, htake, hdrop]; simp [gone, hr]
      · rw [e3, htake]; simp [born, hr]

theorem swap_ok {st : St nd} (h : Consistent st) (d : Bool) (h3 : ∀ e ∈ st.els d, e.record = 3 → e.tree ≠ none) :
    ∃ st', swap d st = some st' ∧ Consistent st' ∧ st'.root = st.root ∧
      st'.els d = (st.els d).map gone ∧ st'.els (!d) = st.els (!d) ++ (st.els d).flatMap born := by
  obtain ⟨s, e1, e2, e3, e4, e5⟩ := swap_take h d h3 _ le_rfl
  exact ⟨s, e1, e2, e3, by simpa using e4, by simpa using e5⟩

theorem born_record {e b : El} (h : b ∈ born e) : b.record = 0 := by
  simp only [born] at h
  split at h
  · simp only [Option.mem_toList, Option.map_eq_some_iff] at h
    obtain ⟨p, -, rfl⟩ := h; rfl
  · simp at h

theorem swaps_ok {st : St nd} (h : Consistent st) (h3 : ∀ d, ∀ e ∈ st.els d, e.record = 3 → e.tree ≠ none) :
    ∃ st', ((swap false st).bind fun st => swap true st) = some st' ∧ Consistent st' ∧ st'.root = st.root ∧
      ∀ d, st'.els d = (st.els d).map gone ++ (st.els (!d)).flatMap born := by
  obtain ⟨s1, a1, a2, a3, a4, a5⟩ := swap_ok h false (h3 false)
  obtain ⟨s2, b1, b2, b3, b4, b5⟩ := swap_ok a2 true (by
    intro e he hr
    rw [show true = !false from rfl, a5, List.mem_append] at he
    rcases he with he | he
    · exact h3 true e he hr
    · obtain ⟨x, -, hx⟩ := List.mem_flatMap.1 he
      rw [born_record hx] at hr; omega)
  have g1 : ∀ l : List El, (l.flatMap born).map gone = l.flatMap born := by
    intro l
    rw [List.map_congr_left (g := id), List.map_id]
    intro x hx
    obtain ⟨y, -, hy⟩ := List.mem_flatMap.1 hx
    simp [gone, born_record hy]
  have g2 : ∀ l : List El, (l.flatMap born).flatMap born = [] := by
    intro l
    rw [List.flatMap_eq_nil_iff]
    intro x hx
    obtain ⟨y, -, hy⟩ := List.mem_flatMap.1 hx
    simp [born, born_record hy]
  refine ⟨s2, by rw [a1]; exact b1, b2, b3.trans a3, fun d => ?_⟩
  simp only [Bool.not_false, Bool.not_true] at a5 b5
  cases d with
  | true => rw [b4, a5, List.map_append, g1, Bool.not_true]
  | false => rw [b5, a4, a5, List.flatMap_append, g2, List.append_nil, Bool.not_false]

end Hexed.Adapt
