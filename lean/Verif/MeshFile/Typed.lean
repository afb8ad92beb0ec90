import Verif.Mesh.Props

set_option autoImplicit false
set_option linter.unusedVariables false

/-! # Which connections join which kinds of elements, over all histories -/

namespace Hexed.MeshFile
open Hexed.MeshConn
open Hexed.Connection (Dir)
open Hexed.Container (Cont At Rep)

/-- Deformed connections join deformed elements only; boundary connections are listed with elements of their
kind; hanging-node connections have the dimensions of the mesh. -/
structure Typed (m : Mesh) : Prop where
  car_cons : ∀ c ∈ m.car.cons, ∃ i, c.dir = .cart i
  dfm_cons : ∀ c ∈ m.dfm.cons, (∃ d, c.dir = .dfm d) ∧ ∀ s, c.el s ∈ m.dfm.elems.elements
  car_refs : ∀ b, ∀ r ∈ m.car.refs b, b.val = m.nd - 1 ∧ ∃ i : Fin 3, r.dir = .cart i ∧ i.val < m.nd
  dfm_refs : ∀ b, ∀ r ∈ m.dfm.refs b, (∃ d : Dir, r.dir = .dfm d ∧ d.i0.val < m.nd ∧ d.i1.val < m.nd) ∧ r.rev = false ∧
    ∀ e ∈ r.coarse :: r.fine, e ∈ m.dfm.elems.elements
  car_bounds : ∀ c ∈ m.car.bounds, c.el ∈ m.car.elems.elements
  dfm_bounds : ∀ c ∈ m.dfm.bounds, c.el ∈ m.dfm.elems.elements

theorem typed_new (nd n_bc : Nat) : Typed (Mesh.new nd n_bc) := by
  constructor <;> intros <;> simp [Mesh.new] at *

theorem typed_congr {m m' : Mesh} (h : Typed m) (hn : m'.nd = m.nd) (hc : m'.car = m.car) (hd : m'.dfm = m.dfm) : Typed m' := by
  obtain ⟨a, b, c, d, e, f⟩ := h
  constructor
  all_goals (first | rw [hc] | rw [hd] | skip); (try rw [hn]); assumption

theorem mem_type {m : Mesh} (hm : Inv m) {l s : Nat} {d : Bool} {e : Elem} (h : (m.byType d).elems.at l s = .ok e) : e ∈ (m.byType d).elems.elements := by
  have key : ∀ (c : Cont Elem), (∃ n L, Rep c n L) → c.at l s = .ok e → e ∈ c.elements := by
    rintro c ⟨n, L, hL⟩ h
    by_cases hex : ∃ a, (s, l, a) ∈ L
    · obtain ⟨a, ha⟩ := hex
      have := (Container.at_rep hL l s).1 a ha
      rw [h] at this
      simp only [At.ok.injEq] at this
      subst this
      rw [Cont.elements, hL.vec, List.map_map]
      exact List.mem_map.2 ⟨_, ha, rfl⟩
    · push Not at hex
      have := (Container.at_rep hL l s).2 hex
      rw [h] at this
      simp at this
  cases d
  · exact key _ hm.repc h
  · exact key _ hm.repd h

theorem typed_addElement {m m' : Mesh} (h : Typed m) {l : Nat} {d : Bool} (hs : addElement m l d = .ok m') : Typed m' := by
  simp only [addElement, Out.ok.injEq] at hs
  subst hs
  have hel : ∀ c : Cont Elem, ∀ x ∈ c.elements, x ∈ (c.emplace l m.next_el).1.elements := by
    intro c x hx; simp [Cont.emplace, Cont.elements] at hx ⊢; exact .inl hx
  obtain ⟨h1, h2, h3, h4, h5, h6⟩ := h
  cases d
  · exact ⟨h1, h2, h3, h4, fun c hc => hel _ _ (h5 c hc), h6⟩
  · exact ⟨h1, fun c hc => ⟨(h2 c hc).1, fun s => hel _ _ ((h2 c hc).2 s)⟩, h3, fun b r hr => ⟨(h4 b r hr).1, (h4 b r hr).2.1, fun e he => hel _ _ ((h4 b r hr).2.2 e he)⟩, h5,
      fun c hc => hel _ _ (h6 c hc)⟩

theorem typed_addCar {m : Mesh} (h : Typed m) (e0 e1 : Elem) (i : Fin 3) : Typed (addConn m false e0 e1 (.cart i)) := by
  obtain ⟨h1, h2, h3, h4, h5, h6⟩ := h
  refine ⟨?_, h2, h3, h4, h5, h6⟩
  intro c hc
  rcases List.mem_append.1 hc with hc | hc
  · exact h1 c hc
  · rw [List.mem_singleton] at hc; subst hc; exact ⟨i, rfl⟩

theorem typed_addDfm {m : Mesh} (h : Typed m) {e0 e1 : Elem} (h0 : e0 ∈ m.dfm.elems.elements) (h1 : e1 ∈ m.dfm.elems.elements) (d : Dir) :
    Typed (addConn m true e0 e1 (.dfm d)) := by
  obtain ⟨a1, h2, h3, h4, h5, h6⟩ := h
  refine ⟨a1, ?_, h3, h4, h5, h6⟩
  intro c hc
  rcases List.mem_append.1 hc with hc | hc
  · exact h2 c hc
  · rw [List.mem_singleton] at hc; subst hc; exact ⟨⟨d, rfl⟩, fun s => by cases s <;> assumption⟩

theorem typed_addBound {m : Mesh} (h : Typed m) {d : Bool} {e : Elem} (he : e ∈ (m.byType d).elems.elements) (i : Nat) (s : Bool) (bc : Nat) :
    Typed (addBound m d e i s bc) := by
  obtain ⟨h1, h2, h3, h4, h5, h6⟩ := h
  cases d
  · refine ⟨h1, h2, h3, h4, ?_, h6⟩
    intro c hc
    rcases List.mem_append.1 hc with hc | hc
    · exact h5 c hc
    · rw [List.mem_singleton] at hc; subst hc; exact he
  · refine ⟨h1, h2, h3, h4, h5, ?_⟩
    intro c hc
    rcases List.mem_append.1 hc with hc | hc
    · exact h6 c hc
    · rw [List.mem_singleton] at hc; subst hc; exact he

theorem addBounds_elems (d : Bool) (bc : Nat) (L : List (Elem × Nat × Bool)) (m : Mesh) (k : Bool) :
    ((addBounds m d bc L).byType k).elems = (m.byType k).elems := by
  obtain ⟨N, h, -⟩ := addBounds_adds d bc L m
  cases k
  · exact h.car
  · exact h.dfm

theorem typed_addBounds {d : Bool} (bc : Nat) : ∀ (L : List (Elem × Nat × Bool)) {m : Mesh}, Typed m → (∀ x ∈ L, x.1 ∈ (m.byType d).elems.elements) → Typed (addBounds m d bc L) := by
  intro L
  induction L with
  | nil => intro m h _; exact h
  | cons x L ih =>
    intro m h hL
    refine ih (typed_addBound h (hL x (by simp)) _ _ _) ?_
    intro y hy
    have := addBounds_elems d bc [x] m d
    change ((addBound m d x.1 x.2.1 x.2.2 bc).byType d).elems = _ at this
    rw [this]
    exact hL y (by simp [hy])

theorem emptyFaces_mem {nd : Nat} {r : Rec} {els : List Elem} : ∀ x ∈ emptyFaces nd r els, x.1 ∈ els := by
  intro x hx
  simp only [emptyFaces, List.mem_flatMap] at hx
  obtain ⟨e, he, i, -, s, -, hx⟩ := hx
  split at hx
  · rw [List.mem_singleton] at hx; subst hx; exact he
  · simp at hx

theorem typed_connectRest {m m' : Mesh} (h : Typed m) {bc : Nat} {r : Rec} (hs : connectRest m bc r = .ok m') : Typed m' := by
  simp only [connectRest] at hs
  split at hs
  · simp at hs
  · simp only [Out.ok.injEq] at hs
    subst hs
    rw [connectEmpty_eq, connectEmpty_eq]
    exact typed_addBounds bc _ (typed_addBounds bc _ h emptyFaces_mem) emptyFaces_mem

/-- What a successful call of the constructor of a hanging-node connection makes. -/
theorem addRef_shape {m m' : Mesh} {d : Bool} {bucket : Nat} {coarse : Elem} {fine : List Elem} {dir : ConDir} {rev : Bool} {str : Bool × Bool}
    (h : addRef m d bucket coarse fine dir rev str = .ok m') : ∃ (hb : bucket < 3) (order : List Elem) (p : Ptrs),
      ((Connection.refinedFaces m.nd dir.toDir rev str).bind fun l => l.mapM fun x => fine[x.1]?) = some order ∧ fine.length = Connection.nFine m.nd str ∧
      m' = { m.setType d { m.byType d with refs := Function.update (m.byType d).refs ⟨bucket, hb⟩ ((m.byType d).refs ⟨bucket, hb⟩ ++ [⟨m.next_id, coarse, order, dir, rev⟩]) } with
          ptr := p, next_id := m.next_id + 1 } := by
  simp only [addRef] at h
  split at h
  · simp at h
  · rename_i hl
    split at h
    · simp at h
    · rename_i order ho
      split at h
      · rename_i hb
        simp only [Out.ok.injEq] at h
        exact ⟨hb, order, _, ho, by omega, h.symm⟩
      · simp at h

theorem mem_update {f : Fin 3 → List RefConn} {i j : Fin 3} {x r : RefConn} (h : r ∈ Function.update f i (f i ++ [x]) j) : r ∈ f j ∨ (j = i ∧ r = x) := by
  by_cases hj : j = i
  · subst hj
    rw [Function.update_self, List.mem_append, List.mem_singleton] at h
    rcases h with h | h
    · exact .inl h
    · exact .inr ⟨rfl, h⟩
  · rw [Function.update_of_ne hj] at h; exact .inl h

theorem typed_carRef {m m' : Mesh} (h : Typed m) (hnd : 1 ≤ m.nd ∧ m.nd ≤ 3) {coarse : Elem} {fine : List Elem} {i : Fin 3} {rev : Bool} (hi : i.val < m.nd)
    (hs : addRef m false (m.nd - 1) coarse fine (.cart i) rev (false, false) = .ok m') : Typed m' := by
  obtain ⟨hb, order, p, ho, hl, rfl⟩ := addRef_shape hs
  obtain ⟨h1, h2, h3, h4, h5, h6⟩ := h
  refine ⟨h1, h2, ?_, h4, h5, h6⟩
  intro b r hr
  rcases mem_update hr with hr | ⟨rfl, rfl⟩
  · exact h3 b r hr
  · exact ⟨rfl, i, rfl, hi⟩

theorem typed_dfmRef {m m' : Mesh} (h : Typed m) (hnd : 1 ≤ m.nd ∧ m.nd ≤ 3) {bucket : Nat} {coarse : Elem} {fine : List Elem} {d : Dir} {str : Bool × Bool}
    (hd : d.i0.val < m.nd ∧ d.i1.val < m.nd) (hc : ∀ e ∈ coarse :: fine, e ∈ m.dfm.elems.elements) (hs : addRef m true bucket coarse fine (.dfm d) false str = .ok m') : Typed m' := by
  obtain ⟨hb, order, p, ho, hl, rfl⟩ := addRef_shape hs
  obtain ⟨pairs, hp, ho⟩ := Option.bind_eq_some_iff.1 ho
  have hperm := order_perm hnd (d := d) hd hl hp ho
  obtain ⟨h1, h2, h3, h4, h5, h6⟩ := h
  refine ⟨h1, h2, h3, ?_, h5, h6⟩
  intro b r hr
  rcases mem_update hr with hr | ⟨rfl, rfl⟩
  · exact h4 b r hr
  · refine ⟨⟨d, rfl, hd⟩, rfl, ?_⟩
    intro e he
    exact hc e ((hperm.cons coarse).mem_iff.1 he)

theorem withElem_ok {m m' : Mesh} (hm : Inv m) {l s : Nat} {d : Bool} {k : Elem → Out} (h : withElem m l d s k = .ok m') :
    ∃ e ∈ (m.byType d).elems.elements, k e = .ok m' := by
  unfold withElem at h
  split at h
  · rename_i e he; exact ⟨e, mem_type hm he, h⟩
  · simp at h
  · simp at h

theorem withElems_ok {m m' : Mesh} (hm : Inv m) {l : Nat} : ∀ {q : List (Bool × Nat)} {k : List Elem → Out}, withElems m l q k = .ok m' →
    ∃ es, List.Forall₂ (fun x e => e ∈ (m.byType x.1).elems.elements) q es ∧ k es = .ok m' := by
  intro q
  induction q with
  | nil => intro k h; exact ⟨[], .nil, h⟩
  | cons x q ih =>
    intro k h
    obtain ⟨d, s⟩ := x
    obtain ⟨e, he, h⟩ := withElem_ok hm h
    obtain ⟨es, h1, h2⟩ := ih h
    exact ⟨e :: es, .cons he h1, h2⟩

theorem typed_hanging {m m' : Mesh} (hm : Inv m) (h : Typed m) {l c : Nat} {f : List Nat} {d : Dir} {cd : Bool} {fd : List Bool} {str : Bool × Bool}
    (hop : OpOk m.nd (.connectHanging l c f d cd fd str)) (hs : connectHanging m l c f d cd fd str = .ok m') : Typed m' := by
  obtain ⟨hd0, hd1, h4, hcar⟩ := hop
  unfold connectHanging at hs
  simp only at hs
  split at hs
  · rename_i hic
    have hic' := (is_car_iff _ _).1 hic
    obtain ⟨hf1, hf2⟩ := hcar (by simpa using hic')
    obtain ⟨coarse, hc, hs⟩ := withElem_ok hm hs
    have e1 : firstN fd (2 ^ m.nd / 2) = some (fd.take (2 ^ m.nd / 2)) := if_pos hf1
    have e2 : firstN f (2 ^ m.nd / 2) = some (f.take (2 ^ m.nd / 2)) := if_pos hf2
    simp only [e1, e2] at hs
    obtain ⟨fine, hfine, hs⟩ := withElems_ok hm hs
    split at hs
    · simp at hs
    · exact typed_carRef h hm.nd hd0 hs
  · obtain ⟨coarse, hc, hs⟩ := withElem_ok hm hs
    obtain ⟨fine, hfine, hs⟩ := withElems_ok hm hs
    obtain ⟨b, hb1, hb2, hb3, hb4⟩ := log_small h4
    simp only [hb1] at hs
    rw [if_neg (by omega)] at hs
    refine typed_dfmRef h hm.nd ⟨hd0, hd1⟩ ?_ hs
    intro e he
    rcases List.mem_cons.1 he with rfl | he
    · exact hc
    · have key : ∀ (q : List Nat) (es : List Elem), List.Forall₂ (fun (x : Bool × Nat) e => e ∈ (m.byType x.1).elems.elements) (q.map fun s => (true, s)) es → ∀ e ∈ es, e ∈ m.dfm.elems.elements := by
        intro q
        induction q with
        | nil => intro es hes; cases hes; simp
        | cons a q ih =>
          intro es hes e he
          cases hes with
          | cons h1 h2 =>
            rcases List.mem_cons.1 he with rfl | he
            · exact h1
            · exact ih _ h2 e he
      exact key f fine hfine e he

theorem purge_types {m m' : Mesh} (hm : Inv m) {p : Elem → Bool} {cov : BCon → Bool} (hs : purge m p cov = .ok m') :
    m'.nd = m.nd ∧ m'.car.elems.elements = m.car.elems.elements.filter (fun e => !p e) ∧ m'.dfm.elems.elements = m.dfm.elems.elements.filter (fun e => !p e) := by
  obtain ⟨ce, k0, c1, c2, c3⟩ := purge_container hm.repc p
  obtain ⟨de, k1, d1, d2, d3⟩ := purge_container hm.repd p
  have hc : (purgeConnections m.ptr m.car p cov).2.elems = m.car.elems := rfl
  have hd : (purgeConnections (purgeConnections m.ptr m.car p cov).1 m.dfm p cov).2.elems = m.dfm.elems := rfl
  simp only [purge, hc, hd, c1, d1, Out.ok.injEq] at hs
  subst hs
  exact ⟨rfl, c3, d3⟩

theorem typed_purge {m m' : Mesh} (hm : Inv m) (h : Typed m) {p : Elem → Bool} {cov : BCon → Bool} (hs : purge m p cov = .ok m') : Typed m' := by
  obtain ⟨h1, h2, h3⟩ := purge_types hm hs
  obtain ⟨m'', R, hs', -, -, -, k1, k2, k3, k4, k5, k6⟩ := purge_ok hm p cov
  rw [hs, Out.ok.injEq] at hs'
  subst hs'
  refine ⟨?_, ?_, ?_, ?_, ?_, ?_⟩
  · intro c hc; rw [k1] at hc; exact h.car_cons c (List.mem_of_mem_filter hc)
  · intro c hc
    rw [k2, List.mem_filter] at hc
    obtain ⟨hc, hp⟩ := hc
    simp only [Bool.not_or, Bool.and_eq_true] at hp
    refine ⟨(h.dfm_cons c hc).1, fun s => ?_⟩
    rw [h3, List.mem_filter]
    exact ⟨(h.dfm_cons c hc).2 s, by cases s; exacts [hp.1, hp.2]⟩
  · intro b r hr; rw [k3] at hr; rw [h1]; exact h.car_refs b r (List.mem_of_mem_filter hr)
  · intro b r hr
    rw [k4, List.mem_filter] at hr
    obtain ⟨hr, hp⟩ := hr
    obtain ⟨a1, a2, a3⟩ := h.dfm_refs b r hr
    rw [h1]
    refine ⟨a1, a2, ?_⟩
    intro e he
    rw [h3, List.mem_filter]
    refine ⟨a3 e he, ?_⟩
    simp only [Bool.not_or, Bool.and_eq_true, Bool.not_eq_true', List.any_eq_false] at hp
    rcases List.mem_cons.1 he with rfl | he
    · simp [hp.1]
    · simpa using hp.2 e he
  · intro c hc
    rw [k5, List.mem_filter] at hc
    rw [h2, List.mem_filter]
    exact ⟨h.car_bounds c hc.1, by have := hc.2; simp only [Bool.not_or, Bool.and_eq_true] at this; exact this.2⟩
  · intro c hc
    rw [k6, List.mem_filter] at hc
    rw [h3, List.mem_filter]
    exact ⟨h.dfm_bounds c hc.1, by have := hc.2; simp only [Bool.not_or, Bool.and_eq_true] at this; exact this.2⟩

theorem typed_step {m m' : Mesh} (hm : Inv m) (h : Typed m) {op : Op} (hop : OpOk m.nd op) (hs : step m op = .ok m') : Typed m' := by
  cases op with
  | addElement l d => exact typed_addElement h hs
  | connectCartesian l s0 s1 i d0 d1 =>
    obtain ⟨e0, h0, hs⟩ := withElem_ok hm hs
    obtain ⟨e1, h1, hs⟩ := withElem_ok hm hs
    simp only [Out.ok.injEq] at hs
    subst hs
    exact typed_addCar h e0 e1 i
  | connectDeformed l s0 s1 d =>
    simp only [step, connectDeformed] at hs
    split at hs
    · simp at hs
    · obtain ⟨e0, h0, hs⟩ := withElem_ok hm hs
      obtain ⟨e1, h1, hs⟩ := withElem_ok hm hs
      simp only [Out.ok.injEq] at hs
      subst hs
      exact typed_addDfm h h0 h1 d
  | connectHanging l c f d cd fd str => exact typed_hanging hm h hop hs
  | connectBoundary l d sn i s bc =>
    simp only [step, connectBoundary] at hs
    split at hs
    · obtain ⟨e, he, hs⟩ := withElem_ok hm hs
      simp only [Out.ok.injEq] at hs
      subst hs
      exact typed_addBound h he i s bc
    · simp at hs
  | disconnectBoundary bc =>
    simp only [step, disconnectBoundary, eraseIf, Out.ok.injEq] at hs
    subst hs
    obtain ⟨h1, h2, h3, h4, h5, h6⟩ := h
    exact ⟨h1, h2, h3, h4, fun c hc => h5 c (List.mem_of_mem_filter hc), fun c hc => h6 c (List.mem_of_mem_filter hc)⟩
  | purge p c => exact typed_purge hm h hs
  | connectRest bc r => exact typed_connectRest h hs

/-- After any history. -/
theorem reach_typed {nd n_bc : Nat} (hnd : 1 ≤ nd ∧ nd ≤ 3) {m : Mesh} (h : Reach nd n_bc m) : Typed m := by
  induction h with
  | new => exact typed_new nd n_bc
  | @ok m m' op hr hop hs ih =>
    obtain ⟨hi, hn⟩ := reach_inv hnd hr
    exact typed_step hi ih (by rw [hn]; exact hop) hs
  | @throws m m' op hr hop hs ih =>
    obtain ⟨hi, hn⟩ := reach_inv hnd hr
    have := step_ok hi op (by rw [hn]; exact hop)
    rw [hs] at this
    exact typed_congr ih this.nd this.car this.dfm

end Hexed.MeshFile
