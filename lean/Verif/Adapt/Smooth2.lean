import Verif.Adapt.Smooth
import Mathlib.Algebra.BigOperators.Group.List.Basic
import Mathlib.Algebra.Order.BigOperators.Group.List
import Mathlib.Tactic.Linarith
import Mathlib.Tactic.Ring

set_option autoImplicit false
set_option linter.unusedVariables false

namespace Hexed.Adapt
open Hexed.Tree (Path get modify refineNode unrefineNode setStatusNode findNeighbors findNeighbor IsDir Borders IsLeafAt Reachable RootWF)

variable {nd : Nat}

/-! ### Trees -/

theorem present_prefix {t : Tree nd} {p q : Path} (h : Present t q) (hp : p <+: q) : Present t p := by
  obtain ⟨r, rfl⟩ := hp
  obtain ⟨c, hc⟩ := h
  rw [Tree.get_append] at hc
  cases hg : get p t with
  | none => rw [hg] at hc; simp at hc
  | some b => exact ⟨b, hg⟩

theorem children_of {t c : Tree nd} (h : Reachable t) {p : Path} (hc : get p t = some c) (hl : c.children ≠ []) (i : Nat) :
    Present t (p ++ [i]) ↔ i < 2 ^ nd := by
  have hw := h.root.wf.get hc
  obtain ⟨l, co, s, k⟩ := c
  have hlen := hw.len hl
  unfold Present
  rw [Tree.get_append, hc]
  simp only [Option.bind_some]
  constructor
  · rintro ⟨b, hb⟩
    obtain ⟨u, hu, -⟩ := Tree.get_cons_some.1 hb
    simp only [Tree.children] at hu
    by_contra hn
    rw [List.getElem?_eq_none (by omega)] at hu
    simp at hu
  · intro hi
    refine ⟨k[i]'(by omega), Tree.get_cons_some.2 ⟨_, List.getElem?_eq_getElem (by show i < k.length; omega), rfl⟩⟩

theorem present_index {t : Tree nd} (h : Reachable t) {p : Path} {i : Nat} (hp : Present t (p ++ [i])) : i < 2 ^ nd := by
  obtain ⟨c, hc⟩ := present_prefix hp (List.prefix_append p [i])
  by_cases hl : c.children = []
  · have := IsLeafAt.no_ext ⟨c, hc, hl⟩ hp (List.prefix_append p [i])
    simp at this
  · exact (children_of h hc hl i).1 hp

theorem present_or_leaf {t t' : Tree nd} (h : Reachable t) (h' : Reachable t') (q : Path) (hq : Present t' q) :
    Present t q ∨ ∃ r, IsLeafAt t r ∧ r <+: q := by
  induction q using List.reverseRecOn with
  | nil => exact .inl ⟨t, rfl⟩
  | append_singleton q i ih =>
    rcases ih (present_prefix hq (List.prefix_append q [i])) with ⟨c, hc⟩ | ⟨r, hr, hrq⟩
    · by_cases hl : c.children = []
      · exact .inr ⟨q, ⟨c, hc, hl⟩, List.prefix_append q [i]⟩
      · exact .inl ((children_of h hc hl i).2 (present_index h' hq))
    · exact .inr ⟨r, hr, hrq.trans (List.prefix_append q [i])⟩

theorem owns_leaf (bias : Fin nd → Int) (x : Fin nd → ℚ) : ∀ (t : Tree nd), Tree.WF t → Tree.Owns t bias x →
    ∃ p s, get p t = some s ∧ s.children = [] ∧ Tree.Owns s bias x := by
  intro t
  induction t using Tree.induct with
  | h r c s k ih =>
    intro hw ho
    by_cases hk : k = []
    · subst hk; exact ⟨[], _, rfl, rfl, ho⟩
    · obtain ⟨i, a, h1, h2⟩ := Tree.child_cover hw hk bias x ho
      obtain ⟨p, s', g1, g2, g3⟩ := ih a (List.mem_of_getElem? h1) (hw.child h1).2.2 h2
      exact ⟨i :: p, s', Tree.get_cons_some.2 ⟨a, h1, g1⟩, g2, g3⟩

/-- The part of a divided cell that borders on `a`. -/
theorem borders_leaf {t a b : Tree nd} (h : Reachable t) {q : Path} (hb : get q t = some b) {dir : Fin nd → Int} (hab : Borders a b dir) :
    ∃ f c, get f t = some c ∧ c.children = [] ∧ q <+: f ∧ Borders a c dir := by
  have key : ∀ d : Fin nd, ∃ (β : Int) (x : ℚ), (if β = 0 then b.lo d ≤ x ∧ x < b.hi d else b.lo d < x ∧ x ≤ b.hi d) ∧
      ∀ c : Tree nd, (if β = 0 then c.lo d ≤ x ∧ x < c.hi d else c.lo d < x ∧ x ≤ c.hi d) →
        if dir d = 0 then c.lo d < a.hi d ∧ a.lo d < c.hi d
        else if dir d > 0 then c.lo d ≤ a.hi d ∧ a.hi d < c.hi d else c.lo d < a.lo d ∧ a.lo d ≤ c.hi d := by
    intro d
    have hd := hab d
    have ha : a.lo d < a.hi d := by rw [Tree.hi_eq]; linarith [Tree.wd_pos a]
    have hbb : b.lo d < b.hi d := by rw [Tree.hi_eq]; linarith [Tree.wd_pos b]
    by_cases h0 : dir d = 0
    · rw [if_pos h0] at hd
      refine ⟨0, max (a.lo d) (b.lo d), ?_, ?_⟩
      · simp only [if_true]; exact ⟨le_max_right _ _, max_lt hd.2 hbb⟩
      · intro c hc
        simp only [if_true] at hc
        rw [if_pos h0]
        exact ⟨lt_of_le_of_lt hc.1 (max_lt ha hd.1), lt_of_le_of_lt (le_max_left _ _) hc.2⟩
    · rw [if_neg h0] at hd
      by_cases h1 : dir d > 0
      · rw [if_pos h1] at hd
        refine ⟨0, a.hi d, by simpa using hd, fun c hc => ?_⟩
        rw [if_neg h0, if_pos h1]; simpa using hc
      · rw [if_neg h1] at hd
        refine ⟨1, a.lo d, by simpa using hd, fun c hc => ?_⟩
        rw [if_neg h0, if_neg h1]; simpa using hc
  choose β x h1 h2 using key
  obtain ⟨r, c, g1, g2, g3⟩ := owns_leaf β x b (h.root.wf.get hb) h1
  refine ⟨q ++ r, c, ?_, g2, List.prefix_append q r, fun d => h2 d c (g3 d)⟩
  rw [Tree.get_append, hb]; exact g1

theorem leaf_below {t : Tree nd} (h : Reachable t) {p : Path} (hp : Present t p) : ∃ q, IsLeafAt t q ∧ p <+: q := by
  obtain ⟨b, hb⟩ := hp
  have : Tree.Owns b (fun _ => 0) (fun d => b.lo d) := by
    intro d
    simp only [if_true, le_refl, true_and]
    rw [Tree.hi_eq]; linarith [Tree.wd_pos b]
  obtain ⟨r, c, g1, g2, -⟩ := owns_leaf _ _ b (h.root.wf.get hb) this
  exact ⟨p ++ r, ⟨c, by rw [Tree.get_append, hb]; exact g1, g2⟩, List.prefix_append p r⟩

/-! ### Refinement of states -/

theorem Refines.refl {st : St nd} (h : Consistent st) : Refines st st := by
  refine ⟨fun p hp => ⟨IsLeafAt.present (hp.leaf h), fun q hq hpq => ?_⟩, fun q hq => ⟨q, hq, List.prefix_refl q⟩⟩
  rw [IsLeafAt.no_ext (hp.leaf h) (IsLeafAt.present hq) hpq]; exact hp

theorem Refines.trans {a b c : St nd} (ha : Consistent a) (hb : Consistent b) (hc : Consistent c) (h1 : Refines a b) (h2 : Refines b c) : Refines a c := by
  refine ⟨fun p hp => ?_, fun q hq => ?_⟩
  · obtain ⟨g1, g2⟩ := h1.1 p hp
    constructor
    · obtain ⟨q, hq, hpq⟩ := leaf_below hb.reach g1
      exact present_prefix (h2.1 q (g2 q hq hpq)).1 hpq
    · intro q hq hpq
      rcases present_or_leaf hb.reach hc.reach q (IsLeafAt.present hq) with hpres | ⟨r, hr, hrq⟩
      · obtain ⟨r, hr, hqr⟩ := leaf_below hb.reach hpres
        have hx := g2 r hr (hpq.trans hqr)
        have := IsLeafAt.no_ext hq (h2.1 r hx).1 hqr
        subst this
        exact (h2.1 r hx).2 r hq (List.prefix_refl r)
      · have hpr : p <+: r := by
          rcases List.prefix_or_prefix_of_prefix hpq hrq with h | h
          · exact h
          · rw [IsLeafAt.no_ext hr g1 h]
        exact (h2.1 r (g2 r hr hpr)).2 q hq hrq
  · obtain ⟨r, hr, hrq⟩ := h2.2 q hq
    obtain ⟨p, hp, hpr⟩ := h1.2 r hr
    exact ⟨p, hp, hpr.trans hrq⟩

theorem Refines.antisymm {a b : St nd} (ha : Consistent a) (hb : Consistent b) (h1 : Refines a b) (h2 : Refines b a) (q : Path) :
    Exists a q ↔ Exists b q := by
  have key : ∀ {a b : St nd}, Consistent b → Refines a b → Refines b a → ∀ q, Exists b q → Exists a q := by
    intro a b hb h1 h2 q hq
    obtain ⟨p, hp, hpq⟩ := h1.2 q hq
    obtain ⟨r, hr, hrp⟩ := h2.2 p hp
    have : q = r := IsLeafAt.no_ext (hr.leaf hb) (IsLeafAt.present (hq.leaf hb)) (hrp.trans hpq)
    have hl := hrp.length_le
    have hl2 := hpq.length_le
    rw [this] at hl2 hpq
    have := hpq.eq_of_length (by omega)
    rw [‹q = r›, ← this]; exact hp
  exact ⟨key ha h2 h1 q, key hb h1 h2 q⟩

theorem bad_iff {st : St nd} (h : Consistent st) {p : Path} {a : Tree nd} (hx : Exists st p) (ha : get p st.root = some a) :
    Bad st p ↔ ∃ dir q b, FaceOrEdge dir ∧ get q st.root = some b ∧ Exists st q ∧ Borders a b dir ∧ b.rl > a.rl + 1 := by
  obtain ⟨r, h1, h2⟩ := needsRefine_eq h ha
  have hh : hasElem st p = true := by
    rw [hasElem_iff]
    obtain ⟨d, e, he, ht, -⟩ := hx
    exact ⟨e, mem_all.2 ⟨d, he⟩, ht⟩
  rw [hh] at h2
  unfold Bad
  rw [h1, Option.some.injEq, h2]
  constructor
  · rintro ⟨dir, hdir, q, b, g1, g2, g3, g4, g5⟩
    exact ⟨dir, q, b, faceOrEdge_of_mem hdir, g1, g4, g3, g5⟩
  · rintro ⟨dir, q, b, g1, g2, g3, g4, g5⟩
    obtain ⟨b', hb', hl⟩ := g3.leaf h
    rw [g2, Option.some.injEq] at hb'
    subst hb'
    exact ⟨dir, mem_refineDirs g1, q, b, g2, hl, g4, g3, g5⟩

theorem balanced_iff {st : St nd} (h : Consistent st) : Balanced st ↔ ∀ p, Exists st p → ¬Bad st p := by
  constructor
  · intro hb p hp hbad
    obtain ⟨a, ha, -⟩ := hp.leaf h
    obtain ⟨dir, q, b, g1, g2, g3, g4, g5⟩ := (bad_iff h hp ha).1 hbad
    have := hb p q a b dir hp g3 ha g2 g1 g4
    omega
  · intro hb p q a b dir hp hq ha hbq hdir hbord
    by_contra hn
    exact hb p hp ((bad_iff h hp ha).2 ⟨dir, q, b, hdir, hbq, hq, hbord, by omega⟩)

/-- What a pass makes of the existing cells. -/
structure Step (st st' : St nd) : Prop where
  ex : ∀ q, Exists st' q ↔ (Exists st q ∧ ¬Bad st q) ∨ ∃ p, Exists st p ∧ Bad st p ∧ q ∈ kids nd p
  pres : ∀ q, Present st.root q → Present st'.root q

theorem Step.refines {st st' : St nd} (h : Consistent st) (h' : Consistent st') (hs : Step st st') : Refines st st' := by
  refine ⟨fun p hp => ⟨hs.pres p (IsLeafAt.present (hp.leaf h)), fun q hq hpq => ?_⟩, fun q hq => ?_⟩
  · by_cases hb : Bad st p
    · have hkid : ∀ i < 2 ^ nd, Exists st' (p ++ [i]) := fun i hi => (hs.ex _).2 (.inr ⟨p, hp, hb, mem_kids.2 ⟨i, hi, rfl⟩⟩)
      obtain ⟨r, rfl⟩ := hpq
      cases r with
      | nil =>
        rw [List.append_nil] at hq
        have := IsLeafAt.no_ext hq (IsLeafAt.present ((hkid 0 (Nat.two_pow_pos nd)).leaf h')) (List.prefix_append p [0])
        simp at this
      | cons i r =>
        have e : p ++ i :: r = (p ++ [i]) ++ r := by simp
        have hi : i < 2 ^ nd := present_index h'.reach (p := p) (present_prefix (IsLeafAt.present hq) (by rw [e]; exact List.prefix_append _ r))
        have := IsLeafAt.no_ext ((hkid i hi).leaf h') (IsLeafAt.present hq) (by rw [e]; exact List.prefix_append _ r)
        rw [this]; exact hkid i hi
    · have hx : Exists st' p := (hs.ex p).2 (.inl ⟨hp, hb⟩)
      rw [IsLeafAt.no_ext (hx.leaf h') (IsLeafAt.present hq) hpq]; exact hx
  · rcases (hs.ex q).1 hq with ⟨hq, -⟩ | ⟨p, hp, -, hk⟩
    · exact ⟨q, hq, List.prefix_refl q⟩
    · obtain ⟨i, -, rfl⟩ := mem_kids.1 hk
      exact ⟨p, hp, List.prefix_append p [i]⟩

/-- Only cells that no balanced refinement can keep are divided. -/
theorem Step.minimal {st st' st2 : St nd} (h : Consistent st) (h' : Consistent st') (h2 : Consistent st2) (hs : Step st st')
    (hr : Refines st st2) (hb2 : Balanced st2) : Refines st' st2 := by
  have key : ∀ p, Exists st p → Bad st p → ∃ c, get p st2.root = some c ∧ c.children ≠ [] := by
    intro p hp hb
    obtain ⟨c, hc⟩ := (hr.1 p hp).1
    refine ⟨c, hc, fun hl => ?_⟩
    have hx : Exists st2 p := (hr.1 p hp).2 p ⟨c, hc, hl⟩ (List.prefix_refl p)
    obtain ⟨a, ha, -⟩ := hp.leaf h
    obtain ⟨dir, q, b, g1, g2, g3, g4, g5⟩ := (bad_iff h hp ha).1 hb
    obtain ⟨b', hb'⟩ := (hr.1 q g3).1
    have e1 := cell_eq h.reach h2.reach ha hc
    have e2 := cell_eq h.reach h2.reach g2 hb'
    obtain ⟨f, d, f1, f2, f3, f4⟩ := borders_leaf h2.reach hb' ((borders_congr e1 e2 dir).1 g4)
    have := hb2 p f c d dir hx ((hr.1 q g3).2 f ⟨d, f1, f2⟩ f3) hc f1 g1 f4
    rw [rl_length h2 f1, rl_length h2 hc] at this
    rw [rl_length h g2, rl_length h ha] at g5
    have := f3.length_le
    omega
  refine ⟨fun p' hp' => ?_, fun f hf => ?_⟩
  · rcases (hs.ex p').1 hp' with ⟨hp, -⟩ | ⟨p, hp, hb, hk⟩
    · exact hr.1 p' hp
    · obtain ⟨c, hc, hl⟩ := key p hp hb
      obtain ⟨i, hi, rfl⟩ := mem_kids.1 hk
      exact ⟨(children_of h2.reach hc hl i).2 hi, fun q hq hpq => (hr.1 p hp).2 q hq ((List.prefix_append p [i]).trans hpq)⟩
  · obtain ⟨p, hp, hpf⟩ := hr.2 f hf
    by_cases hb : Bad st p
    · obtain ⟨c, hc, hl⟩ := key p hp hb
      obtain ⟨r, rfl⟩ := hpf
      cases r with
      | nil =>
        rw [List.append_nil] at hf
        obtain ⟨c', hc', hl'⟩ := hf.leaf h2
        rw [hc, Option.some.injEq] at hc'; subst hc'
        exact absurd hl' hl
      | cons i r =>
        have e : p ++ i :: r = (p ++ [i]) ++ r := by simp
        have hi : i < 2 ^ nd := present_index h2.reach (p := p) (present_prefix (IsLeafAt.present (hf.leaf h2)) (by rw [e]; exact List.prefix_append _ r))
        exact ⟨p ++ [i], (hs.ex _).2 (.inr ⟨p, hp, hb, mem_kids.2 ⟨i, hi, rfl⟩⟩), by rw [e]; exact List.prefix_append _ r⟩
    · exact ⟨p, (hs.ex p).2 (.inl ⟨hp, hb⟩), hpf⟩

/-! ### Termination -/

def weightOf (nd L : Nat) (e : El) : Nat := if e.record ≠ 2 then e.tree.elim 0 fun p => (2 ^ nd + 1) ^ (L - p.length) else 0

def weight (st : St nd) (L : Nat) : Nat := ((st.els false).map (weightOf nd L)).sum + ((st.els true).map (weightOf nd L)).sum

theorem weight_bad {st : St nd} (h : Consistent st) {L : Nat} (hL : ∀ p, Exists st p → p.length ≤ L) {p : Path} (hp : Exists st p) (hb : Bad st p) :
    p.length + 2 ≤ L := by
  obtain ⟨a, ha, -⟩ := hp.leaf h
  obtain ⟨dir, q, b, g1, g2, g3, g4, g5⟩ := (bad_iff h hp ha).1 hb
  have := hL q g3
  rw [rl_length h g2, rl_length h ha] at g5
  omega

theorem NoRequests.ne {st : St nd} (hn : NoRequests st) {d : Bool} {e : El} (he : e ∈ st.els d) (ht : e.tree ≠ none) : e.record ≠ 1 := by
  rcases hn d e he ht with h | h <;> omega

theorem weight_el {st : St nd} (h : Consistent st) (hn : NoRequests st) {L : Nat} (hL : ∀ p, Exists st p → p.length ≤ L) {d : Bool} {e : El}
    (he : e ∈ st.els d) : weightOf nd L (killed (mark st e)) + ((bornOf nd (mark st e)).map (weightOf nd L)).sum + (if cond st e then 1 else 0) ≤ weightOf nd L e := by
  by_cases hc : cond st e = true
  · obtain ⟨p, hp, hr, hb⟩ := cond_iff.1 hc
    have hlen := weight_bad h hL ⟨d, e, he, hp, hr⟩ hb
    have hm : mark st e = { e with record := 1 } := by simp [mark, hc]
    have hk : killed { e with record := 1 } = { e with record := 2 } := by simp [killed, hp]
    have hbn : bornOf nd { e with record := 1 } = (kids nd p).map fun c => ⟨some c, 0, false⟩ := by simp [bornOf, hp]
    rw [hm, hk, hbn, if_pos hc]
    have h1 : weightOf nd L { e with record := 2 } = 0 := by simp [weightOf]
    have h2 : weightOf nd L e = (2 ^ nd + 1) ^ (L - p.length) := by simp [weightOf, hp, hr]
    have h3 : (((kids nd p).map fun c => (⟨some c, 0, false⟩ : El)).map (weightOf nd L)).sum = 2 ^ nd * (2 ^ nd + 1) ^ (L - p.length - 1) := by
      rw [List.map_map]
      have : (kids nd p).map (weightOf nd L ∘ fun c => (⟨some c, 0, false⟩ : El)) = List.replicate (2 ^ nd) ((2 ^ nd + 1) ^ (L - p.length - 1)) := by
        rw [List.eq_replicate_iff]
        refine ⟨by simp [kids], ?_⟩
        intro b hb
        simp only [List.mem_map] at hb
        obtain ⟨c, hc, rfl⟩ := hb
        obtain ⟨i, -, rfl⟩ := mem_kids.1 hc
        simp [weightOf, Nat.sub_sub]
      rw [this]; simp
    rw [h1, h2, h3]
    have h4 : L - p.length = (L - p.length - 1) + 1 := by omega
    have h5 : (2 ^ nd + 1) ^ (L - p.length) = (2 ^ nd + 1) ^ (L - p.length - 1) * (2 ^ nd + 1) := by
      conv_lhs => rw [h4]
      rw [pow_succ]
    rw [h5]
    have h6 : 0 < (2 ^ nd + 1) ^ (L - p.length - 1) := by positivity
    nlinarith
  · have hm : mark st e = e := by simp [mark, hc]
    rw [hm, if_neg hc]
    have hk : killed e = e := by
      unfold killed
      rw [if_neg]
      rintro ⟨h1, h2⟩
      exact NoRequests.ne hn he h2 h1
    have hbn : bornOf nd e = [] := by
      unfold bornOf
      cases ht : e.tree with
      | none => simp
      | some p => rw [if_neg (NoRequests.ne hn he (by rw [ht]; simp))]
    rw [hk, hbn]; simp

theorem weight_list {st : St nd} (h : Consistent st) (hn : NoRequests st) {L : Nat} (hL : ∀ p, Exists st p → p.length ≤ L) (d : Bool) :
    ∀ l : List El, (∀ e ∈ l, e ∈ st.els d) →
    (((l.map (mark st)).map killed ++ (l.map (mark st)).flatMap (bornOf nd)).map (weightOf nd L)).sum + (if l.any (cond st) then 1 else 0) ≤
      (l.map (weightOf nd L)).sum := by
  intro l
  induction l with
  | nil => intro _; simp
  | cons e l ih =>
    intro hl
    have h1 := weight_el h hn hL (hl e (by simp))
    have h2 := ih (fun x hx => hl x (by simp [hx]))
    simp only [List.map_append, List.sum_append, List.map_cons, List.flatMap_cons, List.sum_cons, List.any_cons] at h2 ⊢
    by_cases hc : cond st e = true <;> by_cases ha : l.any (cond st) = true <;> simp only [hc, ha, Bool.or_self, Bool.or_true, Bool.true_or, Bool.or_false, Bool.false_eq_true, if_true, if_false] at h1 h2 ⊢ <;> omega

theorem weight_pass {st st' : St nd} (h : Consistent st) (hn : NoRequests st) {L : Nat} (hL : ∀ p, Exists st p → p.length ≤ L)
    (hels : ∀ d, st'.els d = ((st.els d).map (mark st)).map killed ++ ((st.els d).map (mark st)).flatMap (bornOf nd))
    (hb : ∃ p, Exists st p ∧ Bad st p) : weight st' L < weight st L := by
  have h1 := weight_list h hn hL false (st.els false) (fun _ h => h)
  have h2 := weight_list h hn hL true (st.els true) (fun _ h => h)
  obtain ⟨p, ⟨d, e, he, hp, hr⟩, hb⟩ := hb
  have hc : (st.els d).any (cond st) = true := List.any_eq_true.2 ⟨e, he, cond_iff.2 ⟨p, hp, hr, hb⟩⟩
  unfold weight
  rw [hels, hels]
  cases d
  · rw [if_pos hc] at h1; split at h2 <;> omega
  · rw [if_pos hc] at h2; split at h1 <;> omega

theorem repeatPass_smooth (surf : Tree nd → Bool) {order : Nat → St nd → List (Bool × Nat)} (ho : Schedule order) (L : Nat) :
    ∀ (n k : Nat) (st : St nd), Consistent st → NoRequests st → (∀ p, Exists st p → p.length ≤ L) → weight st L < n →
    ∃ st', repeatPass (smoothPass surf) order k n st = some (some st') ∧ Consistent st' ∧ NoRequests st' ∧ Balanced st' ∧ Refines st st' ∧
      (∀ q, Exists st' q → q.length ≤ L) ∧ (∀ st2, Consistent st2 → Balanced st2 → Refines st st2 → Refines st' st2) ∧
      (∀ d, (st.els d).length ≤ (st'.els d).length) ∧ ((∀ d, ∀ e ∈ st.els d, e.record ≠ 3) → ∀ d, ∀ e ∈ st'.els d, e.record ≠ 3) ∧
      (Geometric surf → StatusKept surf st.root st'.root) := by
  intro n
  induction n with
  | zero => intro k st _ _ _ h; omega
  | succ n ih =>
    intro k st h hn hL hw
    obtain ⟨s, m, p1, p2, p3, p4, p5, p6⟩ := smoothPass_ok h surf (ho k st)
    have hstep : Step st s := ⟨pass_exists hn p4, p5⟩
    have hn' : NoRequests s := pass_noRequests hn p4
    have hlen : ∀ d, (st.els d).length ≤ (s.els d).length := by intro d; rw [p4]; simp
    have hno3 : (∀ d, ∀ e ∈ st.els d, e.record ≠ 3) → ∀ d, ∀ e ∈ s.els d, e.record ≠ 3 := by
      intro h3 d e he
      rw [p4, List.mem_append] at he
      rcases he with he | he
      · simp only [List.mem_map] at he
        obtain ⟨_, ⟨x, hx, rfl⟩, rfl⟩ := he
        have := h3 d x hx
        unfold killed mark
        split <;> split <;> simp_all
      · simp only [List.mem_flatMap, List.mem_map] at he
        obtain ⟨_, ⟨x, hx, rfl⟩, he⟩ := he
        exact bornOf_record he
    simp only [repeatPass, p1, Option.bind_some]
    cases m with
    | true =>
      simp only [if_true]
      have hL' : ∀ q, Exists s q → q.length ≤ L := by
        intro q hq
        rcases (hstep.ex q).1 hq with ⟨hq, -⟩ | ⟨p, hp, hb, hk⟩
        · exact hL q hq
        · have := weight_bad h hL hp hb
          obtain ⟨i, -, rfl⟩ := mem_kids.1 hk
          simp only [List.length_append, List.length_singleton]; omega
      have hw' := weight_pass h hn hL p4 (p3.1 rfl)
      obtain ⟨st', r1, r2, r3, r4, r5, r6, r7, r8, r9, r10⟩ := ih (k + 1) s p2 hn' hL' (by omega)
      refine ⟨st', r1, r2, r3, r4, (hstep.refines h p2).trans h p2 r2 r5, r6, fun st2 c1 c2 c3 => r7 st2 c1 c2 (hstep.minimal h p2 c1 c3 c2), fun d => (hlen d).trans (r8 d), fun h3 => r9 (hno3 h3), fun hg => (p6 hg).trans (r10 hg)⟩
    | false =>
      have hno : ∀ p, Exists st p → ¬Bad st p := by
        intro p hp hb
        have := p3.2 ⟨p, hp, hb⟩
        simp at this
      have hex : ∀ q, Exists s q ↔ Exists st q := by
        intro q
        rw [hstep.ex]
        constructor
        · rintro (⟨h1, -⟩ | ⟨p, h1, h2, -⟩)
          · exact h1
          · exact absurd h2 (hno p h1)
        · intro h1; exact .inl ⟨h1, hno q h1⟩
      refine ⟨s, by simp, p2, hn', ?_, hstep.refines h p2, fun q hq => hL q ((hex q).1 hq), fun st2 c1 c2 c3 => hstep.minimal h p2 c1 c3 c2, hlen, hno3, p6⟩
      have hbal := (balanced_iff h).2 hno
      intro p q a b dir hp hq ha hb hdir hbord
      obtain ⟨a', ha', -⟩ := ((hex p).1 hp).leaf h
      obtain ⟨b', hb', -⟩ := ((hex q).1 hq).leaf h
      have e1 := cell_eq p2.reach h.reach ha ha'
      have e2 := cell_eq p2.reach h.reach hb hb'
      have := hbal p q a' b' dir ((hex p).1 hp) ((hex q).1 hq) ha' hb' hdir ((borders_congr e1 e2 dir).1 hbord)
      rw [e1.1, e2.1]; exact this

/-- The elements of a state are at a bounded depth. -/
theorem exists_depth (st : St nd) : ∃ L, ∀ p, Exists st p → p.length ≤ L := by
  have key : ∀ l : List El, ∃ L, ∀ e ∈ l, ∀ p, e.tree = some p → p.length ≤ L := by
    intro l
    induction l with
    | nil => exact ⟨0, by simp⟩
    | cons e l ih =>
      obtain ⟨L, hL⟩ := ih
      refine ⟨max L ((e.tree.map List.length).getD 0), ?_⟩
      intro x hx p hp
      rcases List.mem_cons.1 hx with rfl | hx
      · rw [hp]; exact le_max_right _ _
      · exact (hL x hx p hp).trans (le_max_left _ _)
  obtain ⟨L, hL⟩ := key st.all
  exact ⟨L, fun p ⟨d, e, he, hp, _⟩ => hL e (mem_all.2 ⟨d, he⟩) p hp⟩

end Hexed.Adapt
