import Verif.Adapt.Quads
import Verif.Adapt.SpecConnect
import Verif.Adapt.Ready
import Verif.Adapt.Deform2

set_option autoImplicit false
set_option linter.unusedVariables false

/-!
# Lemmas about the connection of tree elements: the neighbours of one face
-/

namespace Hexed.Adapt
open Hexed.Tree (Path get IsDir Borders IsLeafAt Reachable findNeighbors findNeighbor extremalLeaves faceDir)

variable {nd : Nat}

theorem opp_opp (i : Nat) : opp (opp i) = i := by unfold opp; omega
theorem opp_ne (i : Nat) : opp i ≠ i := by unfold opp; omega
theorem opp_lt {i : Nat} (h : i < 2 * nd) : opp i < 2 * nd := by unfold opp; omega
theorem opp_div (i : Nat) : opp i / 2 = i / 2 := by unfold opp; omega
theorem opp_mod (i : Nat) : opp i % 2 = 1 - i % 2 := by unfold opp; omega
theorem opp_eq (i : Nat) : 2 * (i / 2) + (1 - i % 2) = opp i := rfl
theorem opp_inj {i j : Nat} (h : opp i = opp j) : i = j := by rw [← opp_opp i, h, opp_opp]

theorem dir_face {i : Nat} (hi : i < 2 * nd) : direction nd i = faceDir ⟨i / 2, by omega⟩ (sign (i % 2 == 1)) := by
  funext d; simp only [direction, faceDir, Fin.ext_iff]

theorem sign_cases (b : Bool) : sign b = -1 ∨ sign b = 1 := by cases b <;> simp [sign]

theorem sign_opp (i : Nat) : sign (opp i % 2 == 1) = -sign (i % 2 == 1) := by
  rw [opp_mod]
  rcases Nat.mod_two_eq_zero_or_one i with h | h <;> simp [h, sign]

theorem dir_opp (nd i : Nat) : (fun e => -direction nd i e) = direction nd (opp i) := by
  funext d
  simp only [direction, opp_div, sign_opp]
  split <;> simp

theorem dir_opp_face {i : Nat} (hi : i < 2 * nd) : direction nd (opp i) = faceDir ⟨i / 2, by omega⟩ (-sign (i % 2 == 1)) := by
  rw [dir_face (opp_lt hi), sign_opp]
  congr 1
  exact Fin.ext (opp_div i)

theorem borders_symm {t : Tree nd} (h : Reachable t) {p q : Path} {a b : Tree nd} (hp : get p t = some a) (hpl : a.children = [])
    (hq : get q t = some b) (hql : b.children = []) {i : Nat} (hi : i < 2 * nd) (hb : Borders a b (direction nd i)) : Borders b a (direction nd (opp i)) := by
  obtain ⟨l, h1, -, h3⟩ := Tree.find_neighbors_exact h hp _ (isDir_direction i)
  obtain ⟨m, g1, -, g3⟩ := Tree.find_neighbors_exact h hq _ (isDir_direction (opp i))
  have := (Tree.find_neighbors_symm h ⟨a, hp, hpl⟩ ⟨b, hq, hql⟩ ⟨i / 2, by omega⟩ (sign (i % 2 == 1)) (sign_cases _)).1 (by
    rw [← dir_face hi]; exact ⟨l, h1, (h3 q).2 ⟨b, hq, hql, hb⟩⟩)
  rw [← dir_opp_face hi, g1] at this
  obtain ⟨_, e, hm⟩ := this
  simp only [Option.some.injEq] at e; subst e
  obtain ⟨a', ha', -, hh⟩ := (g3 p).1 hm
  rw [hp] at ha'; simp only [Option.some.injEq] at ha'; subst ha'; exact hh

/-- A neighbour that is not finer is the only one. -/
theorem coarse_unique {t : Tree nd} (h : Reachable t) {p q r : Path} {a b c : Tree nd} (hp : get p t = some a) (hq : get q t = some b) (hql : b.children = [])
    (hr : get r t = some c) (hrl : c.children = []) {dir : Fin nd → Int} (hd : IsDir dir) (hb : Borders a b dir) (hc : Borders a c dir) (hle : b.rl ≤ a.rl) : r = q := by
  obtain ⟨l, h1, -, h3⟩ := Tree.find_neighbors_exact h hp _ hd
  have hql' := (h3 q).2 ⟨b, hq, hql, hb⟩
  have hrl' := (h3 r).2 ⟨c, hr, hrl, hc⟩
  rcases neighbors_cases h hp h1 with ⟨rfl, -⟩ | ⟨x, y, rfl, -⟩ | ⟨m, sub, hm, hs, hk, rfl⟩
  · simp at hql'
  · simp only [List.mem_singleton] at hql' hrl'; rw [hql', hrl']
  · exfalso
    obtain ⟨z, hz, rfl⟩ := List.mem_map.1 hql'
    rw [Tree.get_append, hm, Option.bind_some] at hq
    have hw := Tree.WF.get h.root.wf hm
    have := Tree.rl_get hw hq
    have hz0 : z = [] := by
      have : z.length = 0 := by omega
      exact List.length_eq_zero_iff.1 this
    subst hz0
    simp only [Tree.get, Option.some.injEq] at hq; subst hq
    exact hk hql

/-- The transverse position of a neighbour that is one level finer. -/
theorem finer_coords {a b : Tree nd} {i : Nat} (hb : Borders a b (direction nd i)) (hl : b.rl = a.rl + 1) (e : Fin nd) (he : e.val ≠ i / 2) :
    b.coords e = 2 * a.coords e ∨ b.coords e = 2 * a.coords e + 1 := by
  have h := hb e
  simp only [direction, if_neg he, if_true, Tree.lo, Tree.hi, hl, pow_succ] at h
  have hp : (0 : ℚ) < 2 ^ a.rl := by positivity
  obtain ⟨h1, h2⟩ := h
  rw [div_lt_div_iff₀ (by positivity) (by positivity)] at h1 h2
  have g1 : (b.coords e : ℚ) < 2 * (a.coords e + 1) := by
    by_contra hc; push Not at hc
    have := mul_le_mul_of_nonneg_right hc hp.le
    nlinarith
  have g2 : (2 * a.coords e : ℚ) < b.coords e + 1 := by
    by_contra hc; push Not at hc
    have := mul_le_mul_of_nonneg_right hc hp.le
    nlinarith
  have g1' : b.coords e < 2 * (a.coords e + 1) := by exact_mod_cast g1
  have g2' : 2 * a.coords e < b.coords e + 1 := by exact_mod_cast g2
  omega

theorem faceOrEdge_direction {i : Nat} (hi : i < 2 * nd) : FaceOrEdge (direction nd i) := by
  refine ⟨isDir_direction i, ⟨i / 2, by omega⟩, ⟨i / 2, by omega⟩, ?_, ?_⟩
  · simp [direction, sign_ne]
  · intro x hx _
    simp only [direction]
    rw [if_neg (fun hh => hx (Fin.ext hh))]

/-- What holds when elements are connected. -/
structure Tidy (st : St nd) : Prop where
  cons : Consistent st
  stay : ∀ d, ∀ e ∈ st.els d, e.tree ≠ none → e.record = 0
  bal : Balanced st
  faces : ∀ p a dir, Exists st p → get p st.root = some a → IsDir dir → order dir = 1 → AllOrNone st a dir

theorem Tidy.hasElem {st : St nd} (h : Tidy st) (p : Path) : hasElem st p = true ↔ Exists st p := by
  rw [hasElem_iff]
  constructor
  · rintro ⟨e, he, ht⟩
    have : ∃ d, e ∈ st.els d := by
      simp only [St.all, List.mem_append] at he
      rcases he with he | he
      · exact ⟨_, he⟩
      · exact ⟨_, he⟩
    obtain ⟨d, hd⟩ := this
    exact ⟨d, e, hd, ht, by rw [h.stay d e hd (by rw [ht]; simp)]; decide⟩
  · rintro ⟨d, e, he, ht, -⟩
    refine ⟨e, ?_, ht⟩
    simp only [St.all, List.mem_append]
    cases d
    · first | exact .inl he | exact .inr he
    · first | exact .inr he | exact .inl he

theorem Tidy.isDef {st : St nd} (h : Tidy st) (p : Path) : isDefAt st p = true ↔ ExistsAs st true p := by
  simp only [isDefAt, List.any_eq_true, beq_iff_eq, ExistsAs]
  constructor
  · rintro ⟨e, he, ht⟩; exact ⟨e, he, ht, by rw [h.stay _ e he (by rw [ht]; simp)]; decide⟩
  · rintro ⟨e, he, ht, -⟩; exact ⟨e, he, ht⟩

/-- The neighbours of the element at `p` through face `i` are all one level finer, complete and in the natural order. -/
structure Quarters (st : St nd) (p : Path) (i : Nat) (l : List Path) : Prop where
  len : l.length = 2 ^ (nd - 1)
  ex : ∀ q ∈ l, Exists st q
  mem : ∀ q ∈ l, Meets st p q i 1
  all : ∀ q b a, get p st.root = some a → get q st.root = some b → b.children = [] → Borders a b (direction nd i) → q ∈ l
  nodup : l.Nodup
  ord : ∀ a k q b, get p st.root = some a → l[k]? = some q → get q st.root = some b → ∀ e : Fin nd, e.val ≠ i / 2 →
        b.coords e = 2 * a.coords e + ((k / 2 ^ (if e.val < i / 2 then nd - 2 - e.val else nd - 1 - e.val) % 2 : Nat) : Int)

theorem Tidy.quarters {st : St nd} (h : Tidy st) {p q : Path} {a b : Tree nd} (hp : get p st.root = some a) (hpe : Exists st p)
    (hq : get q st.root = some b) (hqe : Exists st q) {i : Nat} (hi : i < 2 * nd) (hb : Borders a b (direction nd i)) (hlt : a.rl < b.rl) :
    ∃ l, findNeighbors st.root p (direction nd i) = some l ∧ Quarters st p i l := by
  obtain ⟨l, h1, hnd, h3⟩ := Tree.find_neighbors_exact h.cons.reach hp _ (isDir_direction i)
  have hqc : b.children = [] := by
    obtain ⟨b', g1, g2⟩ := hqe.leaf h.cons
    rw [hq] at g1; simp only [Option.some.injEq] at g1; subst g1; exact g2
  have hql := (h3 q).2 ⟨b, hq, hqc, hb⟩
  have hall : ∀ r c, get r st.root = some c → c.children = [] → Borders a c (direction nd i) → Exists st r := by
    rcases h.faces p a _ hpe hp (isDir_direction i) (loop_one hi).1 with hh | hh
    · exact hh
    · exact absurd hqe (hh q b hq hqc hb)
  refine ⟨l, h1, ?_⟩
  rcases neighbors_cases h.cons.reach hp h1 with ⟨rfl, -⟩ | ⟨x, y, rfl, hx, -, hle, -⟩ | ⟨m, sub, hm, hs, hk, rfl⟩
  · simp at hql
  · simp only [List.mem_singleton] at hql; subst hql
    rw [hq] at hx; simp only [Option.some.injEq] at hx; subst hx; omega
  · have hw := Tree.WF.get h.cons.reach.root.wf hm
    have h0 := Tree.coords_nonneg_get h.cons.reach.root.wf (by rw [h.cons.reach.root.c0]; intro d; simp) hm
    have hlen : ∀ q ∈ extremalLeaves (faceBias (direction nd i)) sub, q.length ≤ 1 := by
      intro z hz
      obtain ⟨c, g1, g2, g3⟩ := (h3 (m ++ z)).1 (List.mem_map.2 ⟨z, hz, rfl⟩)
      have e1 := hall _ c g1 g2 g3
      have := h.bal p _ a c _ hpe e1 hp g1 (faceOrEdge_direction hi) g3
      rw [Tree.get_append, hm, Option.bind_some] at g1
      have := Tree.rl_get hw g1
      omega
    have heq := extremal_quads hw h0 hk hi hlen
    have hmem : ∀ z ∈ (extremalLeaves (faceBias (direction nd i)) sub).map (m ++ ·), Meets st p z i 1 := by
      intro z hz
      obtain ⟨c, g1, g2, g3⟩ := (h3 z).1 hz
      refine ⟨a, c, hp, g1, g3, ?_⟩
      obtain ⟨y, hy, rfl⟩ := List.mem_map.1 hz
      have := hlen y hy
      rw [Tree.get_append, hm, Option.bind_some] at g1
      have g4 := Tree.rl_get hw g1
      rw [heq] at hy
      obtain ⟨j, -, rfl⟩ := List.mem_map.1 hy
      simp only [List.length_singleton] at g4
      omega
    refine ⟨?_, ?_, hmem, ?_, hnd, ?_⟩
    · rw [heq]; simp
    · intro z hz
      obtain ⟨c, g1, g2, g3⟩ := (h3 z).1 hz
      exact hall z c g1 g2 g3
    · intro z c a' ha' hz hzl hbz
      rw [hp] at ha'; simp only [Option.some.injEq] at ha'; subst ha'
      exact (h3 z).2 ⟨c, hz, hzl, hbz⟩
    · intro a' k z c ha' hk' hz e he
      rw [hp] at ha'; simp only [Option.some.injEq] at ha'; subst ha'
      obtain ⟨a'', c', ga, gc, g3, g4⟩ := hmem z (List.mem_of_getElem? hk')
      rw [hp] at ga; simp only [Option.some.injEq] at ga; subst ga
      rw [hz] at gc; simp only [Option.some.injEq] at gc; subst gc
      have g5 := finer_coords g3 g4 e he
      rw [heq] at hk'
      simp only [List.map_map, List.getElem?_map, Option.map_eq_some_iff] at hk'
      obtain ⟨j, hj, rfl⟩ := hk'
      have : j = k := by
        rw [List.getElem?_eq_some_iff] at hj
        obtain ⟨_, hj⟩ := hj; simpa using hj.symm
      subst this
      simp only [Function.comp] at hz
      rw [Tree.get_append, hm, Option.bind_some] at hz
      obtain ⟨c', hc', hz'⟩ := Tree.get_cons_some.1 hz
      simp only [Tree.get, Option.some.injEq] at hz'; subst hz'
      cases sub with
      | mk r co s ks =>
        obtain ⟨-, e2, -⟩ := hw.child (by exact hc')
        rw [e2] at g5 ⊢
        simp only [Tree.childCoords] at g5 ⊢
        have hd := insBit_digit (pos := nd - 1 - i / 2) (s := 1 - i % 2) (by omega) j (nd - 1 - e.val)
        rw [hd] at g5 ⊢
        have hen := e.isLt
        by_cases hlt : e.val < i / 2
        · rw [if_neg (by omega), if_neg (by omega), show nd - 1 - e.val - 1 = nd - 2 - e.val by omega] at g5 ⊢
          rw [if_pos hlt]
          have : j / 2 ^ (nd - 2 - e.val) % 2 < 2 := by omega
          generalize j / 2 ^ (nd - 2 - e.val) % 2 = x at *
          omega
        · rw [if_pos (by omega)] at g5 ⊢
          rw [if_neg hlt]
          have : j / 2 ^ (nd - 1 - e.val) % 2 < 2 := by omega
          generalize j / 2 ^ (nd - 1 - e.val) % 2 = x at *
          omega

end Hexed.Adapt
