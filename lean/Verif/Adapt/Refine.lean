import Verif.Adapt.Status

set_option autoImplicit false
set_option linter.unusedVariables false

namespace Hexed.Adapt
open Hexed.Tree (Path get modify refineNode unrefineNode setStatusNode findNeighbors findNeighbor IsDir Borders IsLeafAt Reachable RootWF)

variable {nd : Nat}

/-- An element after it has been refined if so requested. -/
def killed (e : El) : El := if e.record = 1 ∧ e.tree ≠ none then { e with record := 2 } else e

/-- The elements that replace it. -/
def bornOf (nd : Nat) (e : El) : List El := if e.record = 1 then (e.tree.elim [] fun p => (kids nd p).map fun c => ⟨some c, 0, false⟩) else []

theorem bornOf_zero {e x : El} (h : x ∈ bornOf nd e) : x.record = 0 := by
  simp only [bornOf] at h
  split at h
  · cases ht : e.tree with
    | none => rw [ht] at h; simp at h
    | some p =>
      rw [ht] at h
      simp only [Option.elim, List.mem_map] at h
      obtain ⟨_, _, rfl⟩ := h
      rfl
  · simp at h

theorem bornOf_record {e x : El} (h : x ∈ bornOf nd e) : x.record ≠ 3 := by rw [bornOf_zero h]; decide

theorem kids_nodup (p : Path) : (kids nd p).Nodup := by
  refine List.Nodup.map ?_ List.nodup_range
  intro a b h; simpa using h

/-- A leaf has no cells below it. -/
theorem IsLeafAt.no_ext {t : Tree nd} {p : Path} (h : IsLeafAt t p) {q : Path} (hq : Present t q) (hpq : p <+: q) : q = p := by
  obtain ⟨c, hc, hl⟩ := h
  obtain ⟨b, hb⟩ := hq
  obtain ⟨r, rfl⟩ := hpq
  cases r with
  | nil => simp
  | cons i r =>
    rw [Tree.get_append] at hb
    rw [hc] at hb
    obtain ⟨u, hu, -⟩ := Tree.get_cons_some.1 (by simpa using hb)
    rw [hl] at hu; simp at hu

theorem addKids {st : St nd} (h : Consistent st) (d : Bool) : ∀ cs : List Path, cs.Nodup → (∀ c ∈ cs, IsLeafAt st.root c) →
    (∀ c ∈ cs, ∀ d', ∀ e ∈ st.els d', e.tree ≠ some c) →
    Consistent (cs.foldl (fun st c => addElem st d c) st) ∧ (cs.foldl (fun st c => addElem st d c) st).root = st.root ∧
    ∀ d', (cs.foldl (fun st c => addElem st d c) st).els d' = if d' = d then st.els d' ++ cs.map (fun c => ⟨some c, 0, false⟩) else st.els d' := by
  intro cs
  induction cs generalizing st with
  | nil => intro _ _ _; exact ⟨h, rfl, fun d' => by simp⟩
  | cons c cs ih =>
    intro hn hl hf
    have hfresh := addElem_fresh (st := st) d (p := c) (hf c (by simp))
    obtain ⟨i1, i2, i3⟩ := ih (addElem_ok h d (hl c (by simp))).1 (List.nodup_cons.1 hn).2 (fun x hx => hl x (by simp [hx])) (by
      intro x hx d' e he
      rw [hfresh] at he
      split at he
      · rcases List.mem_append.1 he with he | he
        · exact hf x (by simp [hx]) d' e he
        · simp only [List.mem_singleton] at he
          subst he
          simp only [ne_eq, Option.some.injEq]
          rintro rfl
          exact (List.nodup_cons.1 hn).1 hx
      · exact hf x (by simp [hx]) d' e he)
    refine ⟨i1, i2, fun d' => ?_⟩
    rw [List.foldl_cons, i3, hfresh]
    split
    · simp
    · rfl

theorem refineOne_ok {st : St nd} (h : Consistent st) (surf : Tree nd → Bool) (d : Bool) {i : Nat} {e : El} (hi : (st.els d)[i]? = some e) :
    ∃ st', refineOne surf d st i = some st' ∧ Consistent st' ∧ st'.els (!d) = st.els (!d) ∧
      st'.els d = (st.els d).modify i killed ++ bornOf nd e ∧ (∀ q, Present st.root q → Present st'.root q) ∧
      (Geometric surf → StatusKept surf st.root st'.root) := by
  have hmod : killed e = e → (st.els d).modify i killed = st.els d := by
    intro hk
    apply List.ext_getElem?
    intro j
    rw [List.getElem?_modify]
    split
    · rename_i hj; subst hj; rw [hi]; simp [hk]
    · simp
  have trivial_case : refineOne surf d st i = some st → bornOf nd e = [] → killed e = e →
      ∃ st', refineOne surf d st i = some st' ∧ Consistent st' ∧ st'.els (!d) = st.els (!d) ∧
      st'.els d = (st.els d).modify i killed ++ bornOf nd e ∧ (∀ q, Present st.root q → Present st'.root q) ∧
      (Geometric surf → StatusKept surf st.root st'.root) :=
    fun h1 h2 h3 => ⟨st, h1, h, rfl, by rw [h2, hmod h3]; simp, fun _ hq => hq, fun _ => .refl _⟩
  cases ht : e.tree with
  | none => exact trivial_case (by simp [refineOne, hi, ht]) (by simp [bornOf, ht]) (by simp [killed, ht])
  | some p =>
    by_cases hr : e.record = 1
    · have hleaf : IsLeafAt st.root p := h.leaf d e (List.mem_of_getElem? hi) p ht (by rw [hr]; decide)
      obtain ⟨t', r1, r2, r3⟩ := refineSetStatus_ok h.reach hleaf surf
      have hx : Exists st p := ⟨d, e, List.mem_of_getElem? hi, ht, by rw [hr]; decide⟩
      have c1 : Consistent { setRec st (d, i) 2 with root := t' } := by
        refine (setRec_two h (d, i)).reroot r2 (fun q hq => (r3 q).1.2 (.inl hq)) ?_
        intro q hq
        obtain ⟨hq1, hq2⟩ := (setRec_exists h hi ht q).1 hq
        exact (r3 q).2.2 (.inl ⟨hq1.leaf h, hq2⟩)
      have hfresh : ∀ c ∈ kids nd p, ∀ d', ∀ e' ∈ ({ setRec st (d, i) 2 with root := t' } : St nd).els d', e'.tree ≠ some c := by
        intro c hc d' e' he' hte
        have hpres : Present st.root c := (setRec_two h (d, i)).valid d' e' he' c hte
        obtain ⟨k, -, rfl⟩ := mem_kids.1 hc
        have := IsLeafAt.no_ext hleaf hpres (List.prefix_append p [k])
        simp at this
      obtain ⟨a1, a2, a3⟩ := addKids c1 d (kids nd p) (kids_nodup p) (fun c hc => (r3 c).2.2 (.inr hc)) hfresh
      refine ⟨_, by simp [refineOne, hi, ht, hr, r1], a1, ?_, ?_, ?_, ?_⟩
      · rw [a3]; cases d <;> simp [setRec]
      · rw [a3, if_pos rfl]
        simp only [setRec, if_true, bornOf, hr, ht, Option.elim]
        congr 1
        apply List.ext_getElem?
        intro j
        rw [List.getElem?_modify, List.getElem?_modify]
        split
        · rename_i hj
          subst hj
          rw [hi]
          simp [killed, hr, ht]
        · rfl
      · intro q hq; rw [a2]; exact (r3 q).1.2 (.inl hq)
      · intro hg P hP hnew hk q c' hq
        rw [a2] at hq
        rcases refineSetStatus_status hg h.reach hleaf r1 hq with ⟨-, g⟩ | ⟨-, g⟩
        · obtain ⟨c, hc, hcs⟩ := statusAt_some.1 g
          obtain ⟨g1, g2⟩ := cell_eq h.reach r2 hc hq
          rw [← hcs]; exact hP c c' _ g1 g2 (hk q c hc)
        · rw [g]; exact hnew c'
    · exact trivial_case (by simp [refineOne, hi, ht, hr]) (by simp [bornOf, hr]) (by simp [killed, hr])

theorem modify_mid {α : Type} (f : α → α) : ∀ (A : List α) (x : α) (B : List α) (k : Nat), A.length = k → (A ++ x :: B).modify k f = A ++ f x :: B
  | [], x, B, k, h => by simp only [List.length_nil] at h; subst h; rfl
  | a :: A, x, B, k, h => by
    obtain _ | k := k
    · simp at h
    · have := modify_mid f A x B k (by simpa using h)
      simpa [List.modify_succ_cons] using this

theorem refineByRecord_take {st : St nd} (h : Consistent st) (surf : Tree nd → Bool) (d : Bool) : ∀ k ≤ (st.els d).length,
    ∃ st', refineByRecord surf d k st = some st' ∧ Consistent st' ∧ st'.els (!d) = st.els (!d) ∧
      st'.els d = ((st.els d).take k).map killed ++ (st.els d).drop k ++ ((st.els d).take k).flatMap (bornOf nd) ∧
      (∀ q, Present st.root q → Present st'.root q) ∧ (Geometric surf → StatusKept surf st.root st'.root) := by
  intro k
  induction k with
  | zero => intro _; exact ⟨st, rfl, h, rfl, by simp, fun _ hq => hq, fun _ => .refl _⟩
  | succ k ih =>
    intro hk
    obtain ⟨s1, h1, h2, h3, h4, h5, h6⟩ := ih (by omega)
    have hget : (s1.els d)[k]? = some (st.els d)[k] := by
      rw [h4, List.append_assoc, List.getElem?_append_right (by simp), List.getElem?_append_left (by simp; omega)]
      rw [List.getElem?_drop]
      simp only [List.length_map, List.length_take]
      rw [List.getElem?_eq_getElem (by omega)]
      congr 1
      congr 1
      omega
    obtain ⟨s2, r1, r2, r3, r4, r5, r6⟩ := refineOne_ok h2 surf d hget
    refine ⟨s2, ?_, r2, r3.trans h3, ?_, fun q hq => r5 q (h5 q hq), fun hg => (h6 hg).trans (r6 hg)⟩
    · simp only [refineByRecord, List.range_succ, List.foldlM_append] at h1 ⊢
      rw [h1]; simp [r1]
    · rw [r4, h4, List.take_succ_eq_append_getElem (by omega), List.drop_eq_getElem_cons (by omega)]
      have e1 : ((st.els d).take k).map killed ++ ((st.els d)[k] :: (st.els d).drop (k + 1)) ++ ((st.els d).take k).flatMap (bornOf nd) =
          ((st.els d).take k).map killed ++ (st.els d)[k] :: ((st.els d).drop (k + 1) ++ ((st.els d).take k).flatMap (bornOf nd)) := by
        simp only [List.append_assoc, List.cons_append]
      rw [e1, modify_mid killed _ _ _ k (by simp; omega)]
      simp only [List.map_append, List.map_cons, List.map_nil, List.flatMap_append, List.flatMap_cons, List.flatMap_nil, List.append_assoc,
        List.cons_append, List.nil_append, List.append_nil]

theorem refineByRecord_ok {st : St nd} (h : Consistent st) (surf : Tree nd → Bool) (d : Bool) :
    ∃ st', refineByRecord surf d (st.els d).length st = some st' ∧ Consistent st' ∧ st'.els (!d) = st.els (!d) ∧
      st'.els d = (st.els d).map killed ++ (st.els d).flatMap (bornOf nd) ∧ (∀ q, Present st.root q → Present st'.root q) ∧
      (Geometric surf → StatusKept surf st.root st'.root) := by
  simpa using refineByRecord_take h surf d _ le_rfl

end Hexed.Adapt
