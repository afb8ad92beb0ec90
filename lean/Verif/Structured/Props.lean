import Verif.Structured.Eval
set_option autoImplicit false
set_option linter.unusedVariables false

/-!
# Properties of structured expressions (C83)
-/

namespace Hexed.Structured
open Hexed.Namespace Hexed.Hil
variable {D : Type}

/-- One statement of a structured expression, with the text of its right side. -/
def Well (p : Stmt × List Char) : Prop := ∃ n e, p.1 = ⟨[n], e⟩ ∧ IsName n ∧ e.Canonical

theorem structured_well {ss : List (Stmt × List Char)} {t : List Char} (h : Structured ss t) : ∀ p ∈ ss, Well p := by
  intro p hp
  obtain ⟨⟨n, hn⟩, _⟩ := h.2 p hp
  have hc := prog_canonical h.1 p hp
  obtain ⟨⟨tg, e⟩, src⟩ := p
  simp only at hn
  subst hn
  exact ⟨n, e, rfl, hc.1 n (by simp), hc.2⟩

/-- What is true of the values after evaluating the statements `ss` one after the other. -/
def Values (env : Env D) (ss : List (Stmt × List Char)) (h0 : Heap D) (o0 : List String) (vals : List D) : Prop :=
  vals.length = ss.length ∧ ∀ i (hi : i < ss.length), ∃ h o d, run env (ss.take (i + 1)) h0 o0 = .done h o ∧ vals[i]? = some d ∧ (∃ c, cell h env.me (String.ofList (target ss[i])) = some c) ∧
    lookupDbl env.dbl.ofInt h env.me (String.ofList (target ss[i])) = .val d

theorem eval_run (env : Env D) : ∀ (ss : List (Stmt × List Char)) (exprs : List (List Char)) (st : St D) (h : Heap D) (o : List String), (∀ p ∈ ss, Well p) →
    List.Forall₂ (fun p s => Render p.1.rhs s) ss exprs → Reachable env.dbl.ofInt st.heap → env.me < st.heap.length → ProgPlain env ss st.heap → Numbers env ss st.heap →
    run env ss st.heap st.out = .done h o →
    ∃ vals st', Ev (fun f => eval env f (ss.map target) exprs st) (.ok vals st') ∧ st'.heap = h ∧ st'.out = o ∧ st'.stdin = st.stdin ∧ Values env ss st.heap st.out vals ∧
      Reachable env.dbl.ofInt h ∧ h.length = st.heap.length ∧ (∀ id m, (id ≠ env.me ∨ m ∉ ss.map fun p => String.ofList (target p)) → cell h id m = cell st.heap id m) := by
  intro ss
  induction ss with
  | nil =>
    intro exprs st h o _ hf r hme _ _ hr
    simp only [run, ProgRes.done.injEq] at hr
    obtain ⟨rfl, rfl⟩ := hr
    refine ⟨[], st, ?_, rfl, rfl, rfl, ⟨rfl, fun i hi => by simp at hi⟩, r, rfl, fun _ _ _ => rfl⟩
    exact ⟨0, fun f _ => by cases exprs <;> rfl⟩
  | cons p ss ih =>
    intro exprs st h o hw hf r hme hpl hnum hr
    cases hf with
    | @cons _ s _ exprs hrend hf =>
      obtain ⟨n, e, hp, hn, hc⟩ := hw p (by simp)
      obtain ⟨p1, src⟩ := p
      simp only at hp
      subst hp
      simp only at hrend
      simp only [run] at hr
      cases hm : Stmt.meaning env st.heap ⟨[n], e⟩ with
      | hil w => rw [hm] at hr; cases hr
      | cpp => rw [hm] at hr; cases hr
      | ub => rw [hm] at hr; cases hr
      | ok x =>
        obtain ⟨o1, h1⟩ := x
        rw [hm] at hr
        simp only at hr
        obtain ⟨v, hv, hst⟩ := meaning_ok hm
        obtain ⟨r1, hl1, hfr, hsup, hnumc, _⟩ := store_ok r hme hst
        obtain ⟨N, hN⟩ := exec_one env st hn hc hrend hpl.1 hm
        have hlook : ∃ d, (∃ c, cell h1 env.me (String.ofList n) = some c) ∧ lookupDbl env.dbl.ofInt h1 env.me (String.ofList n) = .val d := by
          obtain ⟨d, h2 | ⟨i, h2, rfl⟩⟩ := hnumc (hnum.1 v o1 hv)
          · exact ⟨d, ⟨_, h2⟩, (lookup_local r1 h2).2.1⟩
          · exact ⟨_, ⟨_, h2⟩, (lookup_local r1 h2).2.1⟩
        obtain ⟨d, hcell, hd⟩ := hlook
        obtain ⟨vals, st', ⟨M, hM⟩, hh, ho, hin, ⟨hlen, hvals⟩, hre, hl, hframe⟩ := ih exprs { st with text := [], heap := h1, out := st.out ++ o1 } h o
          (fun q hq => hw q (by simp [hq])) hf r1 (by simpa [hl1] using hme) (hpl.2 o1 h1 hm) (hnum.2 o1 h1 hm) hr
        refine ⟨d :: vals, st', ⟨max N M, fun f hf => ?_⟩, hh, ho, hin, ⟨by simp [hlen], ?_⟩, hre, by simpa [hl1] using hl, ?_⟩
        · have e1 := hN f (by omega)
          have e2 := hM f (by omega)
          simp only at e1 e2
          simp only [List.map_cons, eval, show target (⟨[n], e⟩, src) = n from rfl, e1, hd, e2]
        · intro i hi
          cases i with
          | zero => exact ⟨h1, st.out ++ o1, d, by simp [run, hm], rfl, by simpa [target] using hcell, by simpa [target] using hd⟩
          | succ i =>
            obtain ⟨hi', oi', di, a, b, c, c'⟩ := hvals i (by simpa using hi)
            refine ⟨hi', oi', di, ?_, by simpa using b, by simpa using c, by simpa using c'⟩
            simp only [List.take_succ_cons, run, hm]
            exact a
        · intro id m hne
          rw [hframe id m (hne.imp_right fun hmem hin => hmem (by simpa using Or.inr hin))]
          refine hfr id m fun hc => ?_
          rcases hne with h2 | h2
          · exact h2 hc.1
          · exact h2 (by simp [hc.2, target])

/-- Evaluating a structured expression does what executing its text does, to the variables and to what is printed. It returns one value for each name: the value of the
variable of that name just after the statement that assigns it. It changes no other variable, and no variable of another namespace. -/
theorem eval_exact (env : Env D) {ss : List (Stmt × List Char)} {t : List Char} (hs : Structured ss t) {names exprs : List (List Char)} (hmake : make t = .ok names exprs)
    (st : St D) (r : Reachable env.dbl.ofInt st.heap) (hme : env.me < st.heap.length) (hpl : ProgPlain env ss st.heap) (hnum : Numbers env ss st.heap)
    {h : Heap D} {o : List String} (hr : run env ss st.heap st.out = .done h o) :
    names = ss.map target ∧
    (∃ vals st', Ev (fun f => eval env f names exprs st) (.ok vals st') ∧ st'.heap = h ∧ st'.out = o ∧ Values env ss st.heap st.out vals) ∧
    ((∀ k, t ≠ spaces (k + 1)) → Ev (fun f => exec env f t st) (.ok { st with text := [], heap := h, out := o })) ∧
    ∀ id m, (id ≠ env.me ∨ m ∉ names.map String.ofList) → cell h id m = cell st.heap id m := by
  obtain ⟨exprs', h1, h2⟩ := parse_exact hs
  rw [hmake] at h1
  obtain ⟨rfl, rfl⟩ := Made.ok.inj h1
  obtain ⟨vals, st', a, b, c, _, d, _, _, e⟩ := eval_run env ss exprs st h o (structured_well hs) h2 r hme hpl hnum hr
  refine ⟨rfl, ⟨vals, st', a, b, c, d⟩, fun hk => exec_program env ⟨hs.1, hk⟩ st hpl hr, fun id m hm => e id m (hm.imp_right fun hn hx => hn ?_)⟩
  simpa using hx

theorem run_append (env : Env D) : ∀ (a b : List (Stmt × List Char)) (h0 : Heap D) (o0 : List String) {h : Heap D} {o : List String}, run env (a ++ b) h0 o0 = .done h o →
    ∃ h1 o1, run env a h0 o0 = .done h1 o1 ∧ run env b h1 o1 = .done h o := by
  intro a
  induction a with
  | nil => intro b h0 o0 h o hr; exact ⟨h0, o0, rfl, hr⟩
  | cons s a ih =>
    intro b h0 o0 h o hr
    simp only [List.cons_append, run] at hr ⊢
    cases hm : s.1.meaning env h0 with
    | ok x => rw [hm] at hr; exact ih b _ _ hr
    | hil w => rw [hm] at hr; cases hr
    | cpp => rw [hm] at hr; cases hr
    | ub => rw [hm] at hr; cases hr

theorem run_frame (env : Env D) : ∀ (ss : List (Stmt × List Char)) (h0 : Heap D) (o0 : List String) {h : Heap D} {o : List String}, (∀ p ∈ ss, Well p) → Reachable env.dbl.ofInt h0 →
    env.me < h0.length → run env ss h0 o0 = .done h o → Reachable env.dbl.ofInt h ∧ h.length = h0.length ∧
      ∀ m, m ∉ (ss.map fun p => String.ofList (target p)) → cell h env.me m = cell h0 env.me m := by
  intro ss
  induction ss with
  | nil =>
    intro h0 o0 h o _ r _ hr
    simp only [run, ProgRes.done.injEq] at hr
    obtain ⟨rfl, rfl⟩ := hr
    exact ⟨r, rfl, fun _ _ => rfl⟩
  | cons p ss ih =>
    intro h0 o0 h o hw r hme hr
    obtain ⟨n, e, hp, hn, hc⟩ := hw p (by simp)
    obtain ⟨p1, src⟩ := p
    simp only at hp
    subst hp
    simp only [run] at hr
    cases hm : Stmt.meaning env h0 ⟨[n], e⟩ with
    | hil w => rw [hm] at hr; cases hr
    | cpp => rw [hm] at hr; cases hr
    | ub => rw [hm] at hr; cases hr
    | ok x =>
      obtain ⟨o1, h1⟩ := x
      rw [hm] at hr
      obtain ⟨v, hv, hst⟩ := meaning_ok hm
      obtain ⟨r1, hl1, hfr, _⟩ := store_ok r hme hst
      obtain ⟨a, b, c⟩ := ih h1 _ (fun q hq => hw q (by simp [hq])) r1 (by simpa [hl1] using hme) hr
      refine ⟨a, b.trans hl1, fun m hmem => ?_⟩
      rw [c m fun hx => hmem (by simpa using Or.inr hx), hfr env.me m fun hx => hmem (by simp [hx.2, target])]

/-- Unless a name is assigned twice, the values are those that the variables have in the end: the same as executing the text and reading the variables. -/
theorem eval_final (env : Env D) {ss : List (Stmt × List Char)} {t : List Char} (hs : Structured ss t) {names exprs : List (List Char)} (hmake : make t = .ok names exprs)
    (st : St D) (r : Reachable env.dbl.ofInt st.heap) (hme : env.me < st.heap.length) (hpl : ProgPlain env ss st.heap) (hnum : Numbers env ss st.heap)
    {h : Heap D} {o : List String} (hr : run env ss st.heap st.out = .done h o) (hnd : (names.map String.ofList).Nodup) :
    ∃ vals st', Ev (fun f => eval env f names exprs st) (.ok vals st') ∧ st'.heap = h ∧ vals.map Read.val = names.map fun n => lookupDbl env.dbl.ofInt h env.me (String.ofList n) := by
  obtain ⟨rfl, ⟨vals, st', h1, h2, _, h3, h4⟩, _⟩ := eval_exact env hs hmake st r hme hpl hnum hr
  refine ⟨vals, st', h1, h2, ?_⟩
  refine List.ext_getElem (by simp [h3]) fun i hi1 hi2 => ?_
  have hi : i < ss.length := by simpa [h3] using hi1
  obtain ⟨hi', oi, d, a, b, ⟨cc, hcc⟩, c⟩ := h4 i hi
  rw [← List.take_append_drop (i + 1) ss] at hr
  obtain ⟨h5, o5, e1, e2⟩ := run_append env _ _ _ _ hr
  rw [a] at e1
  obtain ⟨rfl, rfl⟩ := ProgRes.done.inj e1
  have hw := structured_well hs
  obtain ⟨ra, la, _⟩ := run_frame env _ _ _ (fun p hp => hw p (List.mem_of_mem_take hp)) r hme a
  obtain ⟨rb, lb, fb⟩ := run_frame env _ _ _ (fun p hp => hw p (List.mem_of_mem_drop hp)) ra (by simpa [la] using hme) e2
  have hnot : String.ofList (target ss[i]) ∉ (ss.drop (i + 1)).map fun p => String.ofList (target p) := by
    intro hx
    obtain ⟨q, hq, hqe⟩ := List.mem_map.1 hx
    obtain ⟨j, hj, rfl⟩ := List.getElem_of_mem hq
    simp only [List.length_drop] at hj
    simp only [List.getElem_drop] at hqe
    have hnd' : (ss.map fun p => String.ofList (target p)).Nodup := by rw [List.map_map] at hnd; exact hnd
    exact List.pairwise_iff_getElem.1 hnd' i (i + 1 + j) (by simpa using hi) (by simp; omega) (by omega) (by simpa using hqe.symm)
  have hcell := fb _ hnot
  have hv : vals[i] = d := by
    have := List.getElem?_eq_getElem (l := vals) (by simpa using hi1)
    rw [b] at this
    exact (Option.some.inj this).symm
  simp only [List.getElem_map, hv]
  rw [(lookup_local rb (hcell.trans hcc)).2.1, ← c, (lookup_local ra hcc).2.1]

/-- Evaluating statements after statements that could be evaluated. -/
theorem eval_append (env : Env D) : ∀ (n1 e1 n2 e2 : List (List Char)) (st st' : St D) (vals : List D) (r : EvalRes D) {f : Nat}, n1.length = e1.length → eval env f n1 e1 st = .ok vals st' →
    (∀ vs s, r ≠ .ok vs s) → eval env f n2 e2 st' = r → eval env f (n1 ++ n2) (e1 ++ e2) st = r := by
  intro n1
  induction n1 with
  | nil =>
    intro e1 n2 e2 st st' vals r f hl h hr h2
    obtain rfl := List.length_eq_zero_iff.1 hl.symm
    simp only [eval, EvalRes.ok.injEq] at h
    obtain ⟨_, rfl⟩ := h
    exact h2
  | cons n ns ih =>
    intro e1 n2 e2 st st' vals r f hl h hr h2
    cases e1 with
    | nil => simp at hl
    | cons e es =>
      simp only [List.cons_append, eval] at h ⊢
      cases hx : exec env f (n ++ '=' :: e) st with
      | ok s1 =>
        rw [hx] at h
        simp only at h ⊢
        cases hd : lookupDbl env.dbl.ofInt s1.heap env.me (String.ofList n) with
        | val d =>
          rw [hd] at h
          simp only at h ⊢
          cases he : eval env f ns es s1 with
          | ok ds s2 =>
            rw [he] at h
            simp only [EvalRes.ok.injEq] at h
            obtain ⟨_, rfl⟩ := h
            rw [ih es n2 e2 s1 s2 ds r (by simpa using hl) he hr h2]
            cases r with
            | ok vs s => exact absurd rfl (hr vs s)
            | failed x => rfl
            | missing x y => rfl
            | callback => rfl
          | failed x => rw [he] at h; cases h
          | missing x y => rw [he] at h; cases h
          | callback => rw [he] at h; cases h
        | none => rw [hd] at h; cases h
        | fetch t => rw [hd] at h; cases h
        | fetchInt t => rw [hd] at h; cases h
      | unhandled m s => rw [hx] at h; cases h
      | raw m s => rw [hx] at h; cases h
      | cpp s => rw [hx] at h; cases h
      | ub => rw [hx] at h; cases h
      | out => rw [hx] at h; cases h

theorem forall_split {α β : Type} {R : α → β → Prop} {b : List α} : ∀ (a : List α) {l : List β}, List.Forall₂ R (a ++ b) l →
    ∃ l1 l2, List.Forall₂ R a l1 ∧ List.Forall₂ R b l2 ∧ l = l1 ++ l2 := by
  intro a
  induction a with
  | nil => intro l h; exact ⟨[], l, .nil, h, rfl⟩
  | cons x a ih =>
    intro l h
    cases h with
    | cons h1 h2 =>
      obtain ⟨l1, l2, h3, h4, rfl⟩ := ih h2
      exact ⟨_ :: l1, l2, .cons h1 h3, h4, rfl⟩

/-- A statement that evaluates to text is an error that names its variable. -/
theorem eval_text (env : Env D) {ss1 ss2 : List (Stmt × List Char)} {p : Stmt × List Char} {t : List Char} (hs : Structured (ss1 ++ p :: ss2) t) {names exprs : List (List Char)}
    (hmake : make t = .ok names exprs) (st : St D) (r : Reachable env.dbl.ofInt st.heap) (hme : env.me < st.heap.length) (hpl : ProgPlain env (ss1 ++ p :: ss2) st.heap)
    (hnum : Numbers env ss1 st.heap) {h h' : Heap D} {o o' : List String} {s : String} (hr : run env ss1 st.heap st.out = .done h o)
    (hv : p.1.rhs.meaning env h = .ok (.str s, o')) (hst : store env (String.ofList (target p)) (.str s) h = .ok h') :
    ∃ st', Ev (fun f => eval env f names exprs st) (.missing (target p) st') ∧ st'.heap = h' := by
  obtain ⟨exprs', h1, h2⟩ := parse_exact hs
  rw [hmake] at h1
  obtain ⟨rfl, rfl⟩ := Made.ok.inj h1
  have hw := structured_well hs
  obtain ⟨e1, e2, ha, hb, rfl⟩ : ∃ e1 e2, List.Forall₂ (fun p s => Render p.1.rhs s) ss1 e1 ∧ List.Forall₂ (fun p s => Render p.1.rhs s) (p :: ss2) e2 ∧ exprs = e1 ++ e2 := by
    exact forall_split ss1 h2
  have hplain : ∀ (a b : List (Stmt × List Char)) (h0 : Heap D) (o0 : List String) {h1 : Heap D} {o1 : List String}, ProgPlain env (a ++ b) h0 → ProgPlain env a h0 ∧
      (run env a h0 o0 = .done h1 o1 → ProgPlain env b h1) := by
    intro a
    induction a with
    | nil =>
      intro b h0 o0 h1 o1 hp
      exact ⟨trivial, fun e => by simp only [run, ProgRes.done.injEq] at e; exact e.1 ▸ hp⟩
    | cons q a ih =>
      intro b h0 o0 h1 o1 hp
      refine ⟨⟨hp.1, fun o2 h2 hm => (ih b h2 o2 (h1 := h1) (o1 := o1) (hp.2 o2 h2 hm)).1⟩, fun e => ?_⟩
      simp only [run] at e
      cases hm : q.1.meaning env h0 with
      | ok x => rw [hm] at e; exact (ih b x.2 _ (hp.2 x.1 x.2 hm)).2 e
      | hil w => rw [hm] at e; cases e
      | cpp => rw [hm] at e; cases e
      | ub => rw [hm] at e; cases e
  obtain ⟨hpa, hpb⟩ := hplain ss1 (p :: ss2) st.heap st.out (h1 := h) (o1 := o) hpl
  obtain ⟨vals, st', ⟨N, hN⟩, hh, ho, _, _, hre, hl, _⟩ := eval_run env ss1 e1 st h o (fun q hq => hw q (by simp [hq])) ha r hme hpa hnum hr
  obtain ⟨n, e, hp, hn, hc⟩ := hw p (by simp)
  obtain ⟨p1, src⟩ := p
  simp only at hp
  subst hp
  cases hb with
  | @cons _ x _ e2 hx hb =>
    have hmean : Stmt.meaning env h ⟨[n], e⟩ = .ok (o', h') := by
      simp only [Stmt.meaning, storeAll]
      simp only at hv
      rw [hv]
      simp only [PRes.bind]
      rw [show store env (String.ofList n) (.str s) h = .ok h' from hst]
    subst hh
    obtain ⟨M, hM⟩ := exec_one env st' hn hc hx (hpb hr).1 hmean
    obtain ⟨r1, _, _, _, _, hcell⟩ := store_ok hre (by rw [hl]; exact hme) hst
    have hlk := (lookup_local r1 (hcell s rfl)).2.1
    refine ⟨{ st' with text := [], heap := h', out := st'.out ++ o' }, ⟨max N M, fun f hf => ?_⟩, rfl⟩
    have a1 := hN f (by omega)
    have a2 := hM f (by omega)
    simp only at a1 a2
    simp only [List.map_append]
    refine eval_append env _ e1 _ _ st st' vals _ (by simpa using ha.length_eq) a1 (fun _ _ hx => by cases hx) ?_
    simp only [List.map_cons, eval, show target (⟨[n], e⟩, src) = n from rfl, a2]
    rw [show lookupDbl env.dbl.ofInt h' env.me (String.ofList n) = .none from hlk]

end Hexed.Structured
