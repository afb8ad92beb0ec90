import Verif.Adapt.Unref

set_option autoImplicit false
set_option linter.unusedVariables false

/-! # Lemmas on unrefinement: the loop -/

namespace Hexed.Adapt
open Hexed.Tree (Path get modify refineNode unrefineNode setStatusNode findNeighbors findNeighbor IsDir Borders IsLeafAt Reachable)

variable {nd : Nat}

/-- Some element below `m` does not want the cells to be merged. -/
def Opposed (st : St nd) (m : Path) : Prop := ¬Agreed st m ∨ ∃ i e, At st (m ++ [i]) e ∧ e.record = -1 ∧ e.locked = true

/-- The state during unrefinement of `st0`: the cells in `P` have been merged and the requests of the elements in `D` dropped. -/
structure Rep (st0 st : St nd) (P D : Path → Prop) : Prop where
  ats : ∀ q x, At st q x ↔ (P q ∧ x = ⟨some q, 0, false⟩) ∨
    ((∀ m, P m → ¬m <+: q) ∧ ((¬D q ∧ At st0 q x) ∨ (D q ∧ ∃ x0, At st0 q x0 ∧ x = { x0 with record := 0 })))
  merged : ∀ m, P m → Mergeable st0 m
  dropped : ∀ q, D q → ∃ m i e, q = m ++ [i] ∧ At st0 q e ∧ e.record = -1 ∧ Opposed st0 m
  present : ∀ q, Present st.root q ↔ Present st0.root q ∧ ∀ m, P m → m <+: q → m = q
  leaf : ∀ q, IsLeafAt st.root q ↔ P q ∨ (IsLeafAt st0.root q ∧ ∀ m, P m → ¬m <+: q)

theorem Rep.refl (st : St nd) : Rep st st (fun _ => False) (fun _ => False) := by
  refine ⟨?_, ?_, ?_, ?_, ?_⟩ <;> simp

theorem not_child {m m' : Path} {i : Nat} (h : m <+: m') (hne : m' ≠ m) : ¬Child m (m' ++ [i]) := by
  rintro ⟨j, hj⟩
  obtain ⟨r, rfl⟩ := h
  rw [List.append_assoc] at hj
  have := List.append_cancel_left hj
  cases r with
  | nil => simp at hne
  | cons a r => simp at this

/-- Opposition seen during the loop was there from the start. -/
theorem Rep.opposed {st0 st : St nd} {P D : Path → Prop} (hr : Rep st0 st P D) (h0 : Consistent st0) {m : Path} (hna : ¬Agreed st m)
    (hm : ∀ m', P m' → ¬m' <+: m) : Opposed st0 m := by
  unfold Agreed at hna
  push Not at hna
  obtain ⟨q, x, hx, hpre, hne, hbad⟩ := hna
  rcases (hr.ats q x).1 hx with ⟨hP, rfl⟩ | ⟨hno, h1⟩
  · -- a merged cell below `m`
    left
    intro ha
    obtain ⟨i, e, he, -⟩ := (hr.merged q hP).2
    have := (ha _ e he (hpre.trans (List.prefix_append q [i])) (by
      intro h; have := hpre.length_le; have h2 := congrArg List.length h; simp at h2; omega)).1
    exact not_child hpre hne this
  · rcases h1 with ⟨hD, h1⟩ | ⟨hD, x0, h1, rfl⟩
    · left
      intro ha
      obtain ⟨g1, g2, g3⟩ := ha q x h1 hpre hne
      have hl : IsLeafAt st.root q := (hr.leaf q).2 (.inr ⟨g2, hno⟩)
      rcases g3 with g3 | g3
      · exact (hbad g1 hl).1 g3
      · exact (hbad g1 hl).2 g3
    · obtain ⟨m', i, e, rfl, he, her, hop⟩ := hr.dropped q hD
      by_cases hmm : m' = m
      · rw [← hmm]; exact hop
      · left
        intro ha
        obtain ⟨j, hj⟩ := (ha _ e he hpre hne).1
        exact hmm (by simpa using congrArg List.dropLast hj)

theorem Rep.not_above {st0 st : St nd} {P D : Path → Prop} (hr : Rep st0 st P D) {q : Path} {x : El} (hx : At st q x) (hrec : x.record = -1) :
    (∀ m, P m → ¬m <+: q) ∧ ¬D q ∧ At st0 q x := by
  rcases (hr.ats q x).1 hx with ⟨-, rfl⟩ | ⟨hno, ⟨hD, h1⟩ | ⟨-, x0, -, rfl⟩⟩
  · simp at hrec
  · exact ⟨hno, hD, h1⟩
  · simp at hrec

theorem Rep.drop {st0 st : St nd} {P D : Path → Prop} (hr : Rep st0 st P D) (h0 : Consistent st0) (h : Consistent st) {d : Bool} {i : Nat} {m : Path}
    {j : Nat} {e : El} (hat : At st (m ++ [j]) e) (hrec : e.record = -1) (hi : (st.els d)[i]? = some e) (hwhy : e.locked = true ∨ ¬Agreed st m) :
    Rep st0 (setRec st (d, i) 0) P (fun q => D q ∨ q = m ++ [j]) := by
  obtain ⟨hno, hD, hat0⟩ := hr.not_above hat hrec
  have hop : Opposed st0 m := by
    rcases hwhy with hl | hna
    · exact .inr ⟨j, e, hat0, hrec, hl⟩
    · exact hr.opposed h0 hna fun m' hm' hpre => hno m' hm' (hpre.trans (List.prefix_append m [j]))
  refine ⟨?_, hr.merged, ?_, hr.present, hr.leaf⟩
  · intro q x
    rw [setRec_at h hi hat.1 0 q x, hr.ats]
    constructor
    · rintro (⟨hne, h1⟩ | ⟨rfl, rfl⟩)
      · rcases h1 with h1 | ⟨h1, ⟨h2, h3⟩ | ⟨h2, h3⟩⟩
        · exact .inl h1
        · exact .inr ⟨h1, .inl ⟨by rintro (g | g); exacts [h2 g, hne g], h3⟩⟩
        · exact .inr ⟨h1, .inr ⟨.inl h2, h3⟩⟩
      · exact .inr ⟨hno, .inr ⟨.inr rfl, e, hat0, rfl⟩⟩
    · rintro (⟨h1, rfl⟩ | ⟨h1, ⟨h2, h3⟩ | ⟨h2, x0, h3, rfl⟩⟩)
      · exact .inl ⟨by rintro rfl; exact hno _ h1 List.prefix_rfl, .inl ⟨h1, rfl⟩⟩
      · push Not at h2
        exact .inl ⟨h2.2, .inr ⟨h1, .inl ⟨h2.1, h3⟩⟩⟩
      · by_cases hq : q = m ++ [j]
        · subst hq
          rw [At.unique h0 h3 hat0]
          exact .inr ⟨rfl, rfl⟩
        · rcases h2 with h2 | h2
          · exact .inl ⟨hq, .inr ⟨h1, .inr ⟨h2, x0, h3, rfl⟩⟩⟩
          · exact absurd h2 hq
  · rintro q (hq | rfl)
    · exact hr.dropped q hq
    · exact ⟨m, j, e, rfl, hat0, hrec, hop⟩

theorem Rep.merge {st0 st st' : St nd} {P D : Path → Prop} (hr : Rep st0 st P D) (h0 : Consistent st0) (h : Consistent st) {m : Path}
    {j : Nat} {e : El} (hat : At st (m ++ [j]) e) (hrec : e.record = -1) (hunl : e.locked = false) (hag : Agreed st m)
    (ats : ∀ q x, At st' q x ↔ (¬m <+: q ∧ At st q x) ∨ (q = m ∧ x = ⟨some m, 0, false⟩))
    (present : ∀ q, Present st'.root q ↔ Present st.root q ∧ (m <+: q → m = q))
    (leaf : ∀ q, IsLeafAt st'.root q ↔ (IsLeafAt st.root q ∧ ¬m <+: q) ∨ q = m) :
    Rep st0 st' (fun q => P q ∨ q = m) D := by
  obtain ⟨hno, hD, hat0⟩ := hr.not_above hat hrec
  -- no merged cell above or below `m`
  have hPm : ∀ m', P m' → ¬m <+: m' := by
    intro m' hP hpre
    by_cases hmm : m' = m
    · subst hmm; exact hno _ hP (List.prefix_append _ _)
    · have := (hag m' _ ((hr.ats m' _).2 (.inl ⟨hP, rfl⟩)) hpre hmm).2.2
      simp at this
  have hmP : ∀ m', P m' → ¬m' <+: m := fun m' hP hpre => hno m' hP (hpre.trans (List.prefix_append _ _))
  have hmerge : Mergeable st0 m := by
    refine ⟨?_, j, e, hat0, hrec, hunl⟩
    intro q x0 hx0 hpre hne
    have hnoq : ∀ m', P m' → ¬m' <+: q := by
      intro m' hP hp
      rcases List.prefix_or_prefix_of_prefix hp hpre with g | g
      · exact hmP m' hP g
      · exact hPm m' hP g
    by_cases hDq : D q
    · have := (hag q _ ((hr.ats q _).2 (.inr ⟨hnoq, .inr ⟨hDq, x0, hx0, rfl⟩⟩)) hpre hne).2.2
      simp at this
    · obtain ⟨g1, g2, g3⟩ := hag q x0 ((hr.ats q _).2 (.inr ⟨hnoq, .inl ⟨hDq, hx0⟩⟩)) hpre hne
      refine ⟨g1, ?_, g3⟩
      rcases (hr.leaf q).1 g2 with g | g
      · exact absurd List.prefix_rfl (hnoq q g)
      · exact g.1
  refine ⟨?_, ?_, hr.dropped, ?_, ?_⟩
  · intro q x
    rw [ats, hr.ats]
    constructor
    · rintro (⟨hq, h1⟩ | ⟨rfl, rfl⟩)
      · rcases h1 with ⟨h1, rfl⟩ | ⟨h1, h2⟩
        · exact .inl ⟨.inl h1, rfl⟩
        · refine .inr ⟨?_, h2⟩
          rintro m' (hm' | rfl)
          · exact h1 m' hm'
          · exact hq
      · exact .inl ⟨.inr rfl, rfl⟩
    · rintro (⟨h1 | rfl, rfl⟩ | ⟨h1, h2⟩)
      · exact .inl ⟨hPm q h1, .inl ⟨h1, rfl⟩⟩
      · exact .inr ⟨rfl, rfl⟩
      · exact .inl ⟨h1 m (.inr rfl), .inr ⟨fun m' hm' => h1 m' (.inl hm'), h2⟩⟩
  · rintro m' (hm' | rfl)
    · exact hr.merged m' hm'
    · exact hmerge
  · intro q
    rw [present, hr.present]
    constructor
    · rintro ⟨⟨h1, h2⟩, h3⟩
      refine ⟨h1, ?_⟩
      rintro m' (hm' | rfl)
      · exact h2 m' hm'
      · exact h3
    · rintro ⟨h1, h2⟩
      exact ⟨⟨h1, fun m' hm' => h2 m' (.inl hm')⟩, h2 m (.inr rfl)⟩
  · intro q
    rw [leaf, hr.leaf]
    constructor
    · rintro (⟨h1 | ⟨h1, h2⟩, h3⟩ | rfl)
      · exact .inl (.inl h1)
      · refine .inr ⟨h1, ?_⟩
        rintro m' (hm' | rfl)
        · exact h2 m' hm'
        · exact h3
      · exact .inl (.inr rfl)
    · rintro ((h1 | rfl) | ⟨h1, h2⟩)
      · exact .inl ⟨.inl h1, hPm q h1⟩
      · exact .inr rfl
      · exact .inl ⟨.inr ⟨h1, fun m' hm' => h2 m' (.inl hm')⟩, h2 m (.inr rfl)⟩

/-- The element at index `i` has no request that could be granted. -/
def Settled (st : St nd) (d : Bool) (i : Nat) : Prop := ∀ (e : El) (p : Path), (st.els d)[i]? = some e → e.tree = some p → e.record = -1 →
  p = [] ∨ TooCoarse st p.dropLast

/-- Only requests were dropped. -/
structure Dropped (st st' : St nd) : Prop where
  root : st'.root = st.root
  get : ∀ (d : Bool) (i : Nat) (e' : El), (st'.els d)[i]? = some e' → ∃ e : El, (st.els d)[i]? = some e ∧ (e' = e ∨ (e.record = -1 ∧ e' = { e with record := 0 }))
  ex : ∀ q, Exists st q → Exists st' q

theorem Dropped.refl (st : St nd) : Dropped st st := ⟨rfl, fun d i e' h => ⟨e', h, .inl rfl⟩, fun _ h => h⟩

theorem Dropped.trans {a b c : St nd} (h1 : Dropped a b) (h2 : Dropped b c) : Dropped a c := by
  refine ⟨h2.root.trans h1.root, fun d i e' h => ?_, fun q h => h2.ex q (h1.ex q h)⟩
  obtain ⟨e, he, g⟩ := h2.get d i e' h
  obtain ⟨x, hx, g'⟩ := h1.get d i e he
  refine ⟨x, hx, ?_⟩
  rcases g with rfl | ⟨g, rfl⟩
  · exact g'
  · rcases g' with rfl | ⟨g', rfl⟩
    · exact .inr ⟨g, rfl⟩
    · simp at g

theorem Dropped.settled {st st' : St nd} (h : Dropped st st') {d : Bool} {i : Nat} (hs : Settled st d i) : Settled st' d i := by
  intro e' p he' ht hr
  obtain ⟨e, he, g⟩ := h.get d i e' he'
  rcases g with rfl | ⟨g, rfl⟩
  · exact (hs e' p he ht hr).imp id fun g => g.congr h.root h.ex
  · simp at hr

theorem Dropped.tame {st st' : St nd} (h : Dropped st st') (hl : ∀ d, (st.els d).length ≤ (st'.els d).length) : Tame st st' := by
  refine ⟨hl, fun d i e' he' => ?_, fun q c hq => statusAt_some.2 ⟨c, by rw [← h.root]; exact hq, rfl⟩⟩
  obtain ⟨e, he, g⟩ := h.get d i e' he'
  refine .inr ⟨e, he, ?_⟩
  rcases g with rfl | ⟨g, rfl⟩
  · refine ⟨.inr rfl, ?_⟩
    by_cases h2 : e'.record = 2
    · exact .inl h2
    · exact .inr ⟨h2, .inr rfl⟩
  · refine ⟨.inr rfl, .inr ⟨by rw [g]; decide, .inl rfl⟩⟩

theorem setRec_dropped {st : St nd} (h : Consistent st) {d : Bool} {i : Nat} {e : El} {p : Path} (hi : (st.els d)[i]? = some e) (ht : e.tree = some p)
    (hr : e.record = -1) : Dropped st (setRec st (d, i) 0) := by
  refine ⟨rfl, fun d' j e' h' => ?_, fun q hq => ?_⟩
  · rw [setRec_get] at h'
    cases hg : (st.els d')[j]? with
    | none => rw [hg] at h'; simp at h'
    | some x =>
      rw [hg] at h'
      simp only [Option.map_some, Option.some.injEq] at h'
      refine ⟨x, rfl, ?_⟩
      by_cases hd : d' = d ∧ j = i
      · obtain ⟨rfl, rfl⟩ := hd
        rw [hi] at hg; simp only [Option.some.injEq] at hg; subst hg
        rw [if_pos ⟨rfl, rfl⟩] at h'
        exact .inr ⟨hr, h'.symm⟩
      · rw [if_neg hd] at h'; exact .inl h'.symm
  · obtain ⟨x, hx, hxr⟩ := exists_at.1 hq
    by_cases hqp : q = p
    · exact exists_at.2 ⟨_, (setRec_at h hi ht 0 q _).2 (.inr ⟨hqp, rfl⟩), by simp⟩
    · exact exists_at.2 ⟨x, (setRec_at h hi ht 0 q _).2 (.inl ⟨hqp, hx⟩), hxr⟩

theorem setRec_asks {st : St nd} {d : Bool} {i : Nat} {e : El} (hi : (st.els d)[i]? = some e) : asks (setRec st (d, i) 0) ≤ asks st := by
  have : ∀ (l : List El) (i : Nat), (l.modify i fun e => { e with record := 0 }).countP (fun e => e.record == -1) ≤ l.countP (fun e => e.record == -1) := by
    intro l
    induction l with
    | nil => intro i; simp
    | cons a l ih =>
      intro i
      cases i with
      | zero => simp [List.countP_cons]
      | succ i => simp only [List.modify_succ_cons, List.countP_cons]; have := ih i; omega
  have hd : ∀ d', ((setRec st (d, i) 0).els d').countP (fun e => e.record == -1) ≤ (st.els d').countP (fun e => e.record == -1) := by
    intro d'; simp only [setRec]; split
    · exact this _ _
    · exact le_rfl
  exact Nat.add_le_add (hd _) (hd _)

/-- A part of a pass. -/
theorem unrefs_ok {st0 : St nd} (h0 : Consistent st0) (d : Bool) : ∀ (L : List Nat) (st : St nd) (c : Bool) (P D : Path → Prop), Consistent st →
    Rep st0 st P D → (∀ i ∈ L, i < (st.els d).length) → ∃ st' b P' D', L.foldlM (unrefOne d) (st, c) = some (st', c || b) ∧ Consistent st' ∧
      Rep st0 st' P' D' ∧ (∀ d', (st.els d').length ≤ (st'.els d').length) ∧ asks st' ≤ asks st ∧ Tame st st' ∧ (b = true → asks st' < asks st) ∧
      (b = false → Dropped st st' ∧ ∀ i ∈ L, Settled st' d i) := by
  intro L
  induction L with
  | nil =>
    intro st c P D h hr _
    exact ⟨st, false, P, D, by simp [pure], h, hr, fun _ => le_rfl, le_rfl, .refl st, by simp, fun _ => ⟨.refl st, by simp⟩⟩
  | cons i L ih =>
    intro st c P D h hr hL
    obtain ⟨s, b, e1, hc, hlen, hstep⟩ := unrefOne_ok h (hL i (by simp)) c
    have key : ∃ P' D', Rep st0 s P' D' ∧ asks s ≤ asks st ∧ Tame st s ∧ (b = true → asks s < asks st) ∧ (b = false → Dropped st s ∧ Settled s d i) := by
      cases hstep with
      | keep same why =>
        subst same
        exact ⟨P, D, hr, le_rfl, .refl _, by simp, fun _ => ⟨.refl _, why⟩⟩
      | drop m j e hat hrec hi hwhy same =>
        subst same
        refine ⟨_, _, hr.drop h0 h hat hrec hi hwhy, setRec_asks hi, (setRec_dropped h hi hat.1 hrec).tame (fun d => (setRec_length _ _ _ d).ge), by simp, fun _ => ⟨setRec_dropped h hi hat.1 hrec, ?_⟩⟩
        intro x p hx ht hr'
        rw [setRec_get, hi] at hx
        simp only [and_self, if_true, Option.map_some, Option.some.injEq] at hx
        subst hx; simp at hr'
      | merge m j e hat hrec hunl hag hats hpres hleaf hfew hsub =>
        exact ⟨_, _, hr.merge h0 h hat hrec hunl hag hats hpres hleaf, hfew.le, hsub, fun _ => hfew, by simp⟩
    obtain ⟨P1, D1, hr1, a1, a4, a2, a3⟩ := key
    obtain ⟨st', b', P', D', e2, hc', hr', hlen', b1, b4, b2, b3⟩ := ih s (c || b) P1 D1 hc hr1 (fun x hx => (hL x (by simp [hx])).trans_le (hlen d))
    refine ⟨st', b || b', P', D', ?_, hc', hr', fun d' => (hlen d').trans (hlen' d'), b1.trans a1, a4.trans b4, ?_, ?_⟩
    · rw [List.foldlM_cons, e1]
      simp only [Option.bind_eq_bind, Option.bind_some, e2, Bool.or_assoc]
    · intro hb
      cases b with
      | true => exact lt_of_le_of_lt b1 (a2 rfl)
      | false => exact lt_of_lt_of_le (b2 (by simpa using hb)) a1
    · intro hb
      have hb1 : b = false := by cases b <;> simp_all
      have hb2 : b' = false := by cases b' <;> simp_all
      obtain ⟨g1, g2⟩ := a3 hb1
      obtain ⟨g3, g4⟩ := b3 hb2
      refine ⟨g1.trans g3, fun x hx => ?_⟩
      rcases List.mem_cons.1 hx with rfl | hx
      · exact g3.settled g2
      · exact g4 x hx

theorem unrefPass_ok {st0 : St nd} (h0 : Consistent st0) {n : Bool → Nat} {st : St nd} {P D : Path → Prop} (h : Consistent st) (hr : Rep st0 st P D)
    (hn : ∀ d, n d ≤ (st.els d).length) : ∃ st' b P' D', unrefPass n st = some (st', b) ∧ Consistent st' ∧ Rep st0 st' P' D' ∧
      (∀ d', n d' ≤ (st'.els d').length) ∧ asks st' ≤ asks st ∧ Tame st st' ∧ (b = true → asks st' < asks st) ∧ (b = false → ∀ d, ∀ i < n d, Settled st' d i) := by
  obtain ⟨s, b, P1, D1, e1, c1, r1, l1, a1, a4, a2, a3⟩ := unrefs_ok h0 false (List.range (n false)) st false P D h hr
    (fun i hi => (List.mem_range.1 hi).trans_le (hn false))
  obtain ⟨s', b', P2, D2, e2, c2, r2, l2, b1, b4, b2, b3⟩ := unrefs_ok h0 true (List.range (n true)) s b P1 D1 c1 r1
    (fun i hi => (List.mem_range.1 hi).trans_le ((hn true).trans (l1 true)))
  refine ⟨s', b || b', P2, D2, ?_, c2, r2, fun d => (hn d).trans ((l1 d).trans (l2 d)), b1.trans a1, a4.trans b4, ?_, ?_⟩
  · simp only [unrefPass, e1, Bool.false_or, Option.bind_some, e2]
  · intro hb
    cases b with
    | true => exact lt_of_le_of_lt b1 (a2 rfl)
    | false => exact lt_of_lt_of_le (b2 (by simpa using hb)) a1
  · intro hb d i hi
    have hb1 : b = false := by cases b <;> simp_all
    have hb2 : b' = false := by cases b' <;> simp_all
    cases d with
    | false => exact (b3 hb2).1.settled ((a3 hb1).2 i (List.mem_range.2 hi))
    | true => exact (b3 hb2).2 i (List.mem_range.2 hi)

theorem unref_loop {st0 : St nd} (h0 : Consistent st0) {n : Bool → Nat} : ∀ (k j : Nat) (st : St nd) (P D : Path → Prop), Consistent st → Rep st0 st P D →
    (∀ d, n d ≤ (st.els d).length) → asks st < k → ∃ st' P' D', repeatPass (fun _ => unrefPass n) (fun _ _ => []) j k st = some (some st') ∧ Consistent st' ∧
      Rep st0 st' P' D' ∧ Tame st st' ∧ (∀ d', n d' ≤ (st'.els d').length) ∧ ∀ d, ∀ i < n d, Settled st' d i := by
  intro k
  induction k with
  | zero => intro j st P D _ _ _ h; omega
  | succ k ih =>
    intro j st P D h hr hn ha
    obtain ⟨s, b, P', D', e, c, r, l, a1, a4, a2, a3⟩ := unrefPass_ok h0 h hr hn
    simp only [repeatPass, e, Option.bind_some]
    cases b with
    | true => 
      rw [if_pos rfl]
      obtain ⟨t, P2, D2, g1, g2, g3, g4, g5, g6⟩ := ih (j + 1) s P' D' c r l (by have := a2 rfl; omega)
      exact ⟨t, P2, D2, g1, g2, g3, a4.trans g4, g5, g6⟩
    | false => rw [if_neg (by simp)]; exact ⟨s, P', D', rfl, c, r, a4, l, a3 rfl⟩

end Hexed.Adapt
