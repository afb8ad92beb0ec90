import Verif.Tree.Lemmas

set_option autoImplicit false
set_option linter.unusedVariables false

/-! Helper lemmas: neighbours, well-formedness under modification. -/

namespace Hexed.Tree
variable {nd : Nat}

/-! ### scaling to integers -/

theorem lo_scale (t : Tree nd) (L : Nat) (h : t.rl ≤ L) (d) :
    t.lo d = ((t.coords d * 2 ^ (L - t.rl) : Int) : ℚ) / 2 ^ L := by
  have e : (2 : ℚ) ^ L = 2 ^ (L - t.rl) * 2 ^ t.rl := by rw [← pow_add]; congr 1; omega
  rw [e]; push_cast; unfold lo; field_simp

theorem hi_scale (t : Tree nd) (L : Nat) (h : t.rl ≤ L) (d) :
    t.hi d = ((t.coords d * 2 ^ (L - t.rl) + 2 ^ (L - t.rl) : Int) : ℚ) / 2 ^ L := by
  have e : (2 : ℚ) ^ L = 2 ^ (L - t.rl) * 2 ^ t.rl := by rw [← pow_add]; congr 1; omega
  rw [e]; push_cast; unfold hi; field_simp

theorem sc_le (a b : Int) (L : Nat) : (a : ℚ) / 2 ^ L ≤ (b : ℚ) / 2 ^ L ↔ a ≤ b := by
  rw [div_le_div_iff_of_pos_right (by positivity)]; exact Int.cast_le

theorem sc_lt (a b : Int) (L : Nat) : (a : ℚ) / 2 ^ L < (b : ℚ) / 2 ^ L ↔ a < b := by
  rw [div_lt_div_iff_of_pos_right (by positivity)]; exact Int.cast_lt

theorem sc_eq (a b : Int) (L : Nat) : (a : ℚ) / 2 ^ L = (b : ℚ) / 2 ^ L ↔ a = b := by
  rw [div_left_inj' (by positivity)]; exact Int.cast_inj

/-- the cell of the same size as `a` next to it in direction `dir` -/
def nlo (a : Tree nd) (dir : Fin nd → Int) (d : Fin nd) : ℚ := ((a.coords d + dir d : Int) : ℚ) / 2 ^ a.rl
/-- see `nlo` -/
def nhi (a : Tree nd) (dir : Fin nd → Int) (d : Fin nd) : ℚ := ((a.coords d + dir d + 1 : Int) : ℚ) / 2 ^ a.rl

/-- cell coordinates passed to `find_leaf` by `find_neighbor` -/
def nbC (a : Tree nd) (dir : Fin nd → Int) : Fin nd → Int := fun d => a.coords d + if dir d > 0 then 1 else 0
/-- bias passed to `find_leaf` by `find_neighbor` -/
def nbB (dir : Fin nd → Int) : Fin nd → Int := fun d => if dir d < 0 then 1 else 0

theorem nbB_ok (dir : Fin nd → Int) (d) : nbB dir d = 0 ∨ nbB dir d = 1 := by
  unfold nbB; split <;> simp

/-- coarser or equal cell: owning the query point = containing the target cell -/
theorem owns_iff_contains (a m : Tree nd) (dir : Fin nd → Int) (hd : IsDir dir) (h : m.rl ≤ a.rl) :
    Owns m (nbB dir) (gridPoint a.rl (nbC a dir)) ↔ ∀ d, m.lo d ≤ nlo a dir d ∧ nhi a dir d ≤ m.hi d := by
  unfold Owns
  apply forall_congr'
  intro d
  rw [lo_scale m a.rl h, hi_scale m a.rl h]
  unfold gridPoint nlo nhi
  simp only [sc_le, sc_lt]
  have hS : (1 : Int) ≤ 2 ^ (a.rl - m.rl) := by have : (0:Int) < 2 ^ (a.rl - m.rl) := by positivity
                                                omega
  generalize (2 : Int) ^ (a.rl - m.rl) = S at *
  generalize m.coords d * S = M
  unfold nbC nbB
  rcases hd d with e | e | e <;> rw [e] <;> simp <;> omega

/-- coarser or equal cell: bordering = containing the target cell -/
theorem borders_iff_contains (a m : Tree nd) (dir : Fin nd → Int) (hd : IsDir dir) (h : m.rl ≤ a.rl) :
    Borders a m dir ↔ ∀ d, m.lo d ≤ nlo a dir d ∧ nhi a dir d ≤ m.hi d := by
  unfold Borders
  apply forall_congr'
  intro d
  rw [lo_scale m a.rl h, hi_scale m a.rl h, lo_scale a a.rl le_rfl, hi_scale a a.rl le_rfl]
  unfold nlo nhi
  simp only [sc_le, sc_lt]
  have hS : (1 : Int) ≤ 2 ^ (a.rl - m.rl) := by have : (0:Int) < 2 ^ (a.rl - m.rl) := by positivity
                                                omega
  generalize (2 : Int) ^ (a.rl - m.rl) = S at *
  generalize m.coords d * S = M
  simp only [Nat.sub_self, pow_zero, mul_one]
  rcases hd d with e | e | e <;> rw [e] <;> simp <;> omega

/-- finer or equal cell: bordering = being an extremal part of the target cell -/
theorem borders_iff_extremal (a b : Tree nd) (dir : Fin nd → Int) (hd : IsDir dir) (h : a.rl ≤ b.rl) :
    Borders a b dir ↔ ∀ d, nlo a dir d ≤ b.lo d ∧ b.hi d ≤ nhi a dir d ∧
      (dir d > 0 → b.lo d = nlo a dir d) ∧ (dir d < 0 → b.hi d = nhi a dir d) := by
  unfold Borders
  apply forall_congr'
  intro d
  have e1 : nlo a dir d = (((a.coords d + dir d) * 2 ^ (b.rl - a.rl) : Int) : ℚ) / 2 ^ b.rl := by
    have e : (2 : ℚ) ^ b.rl = 2 ^ (b.rl - a.rl) * 2 ^ a.rl := by rw [← pow_add]; congr 1; omega
    rw [e]; push_cast; unfold nlo; push_cast; field_simp
  have e2 : nhi a dir d = (((a.coords d + dir d) * 2 ^ (b.rl - a.rl) + 2 ^ (b.rl - a.rl) : Int) : ℚ) / 2 ^ b.rl := by
    have e : (2 : ℚ) ^ b.rl = 2 ^ (b.rl - a.rl) * 2 ^ a.rl := by rw [← pow_add]; congr 1; omega
    rw [e]; push_cast; unfold nhi; push_cast; field_simp
  rw [lo_scale a b.rl h, hi_scale a b.rl h, lo_scale b b.rl le_rfl, hi_scale b b.rl le_rfl, e1, e2]
  simp only [sc_le, sc_lt, sc_eq]
  have hS : (1 : Int) ≤ 2 ^ (b.rl - a.rl) := by have : (0:Int) < 2 ^ (b.rl - a.rl) := by positivity
                                                omega
  simp only [Nat.sub_self, pow_zero, mul_one, add_mul]
  generalize (2 : Int) ^ (b.rl - a.rl) = S at *
  generalize a.coords d * S = M
  rcases hd d with e | e | e <;> rw [e] <;> simp <;> omega

/-! ### climbing -/

theorem get_take {p} {t s : Tree nd} (hp : Tree.get p t = some s) (n : Nat) : ∃ m, Tree.get (p.take n) t = some m := by
  rw [← List.take_append_drop n p, get_append] at hp
  cases h : Tree.get (p.take n) t with
  | none => rw [h] at hp; simp at hp
  | some m => exact ⟨m, rfl⟩

theorem climb_eq {t : Tree nd} (hr : RootWF t) (L : Nat) : ∀ (fuel : Nat) (p : Path) (s : Tree nd),
    Tree.get p t = some s → p.length ≤ fuel → climb t L fuel p = some (p.take L) := by
  intro fuel
  induction fuel with
  | zero =>
    intro p s hp hf
    have : p = [] := by simpa using hf
    subst this
    simp [Tree.get] at hp; subst hp
    simp [climb, Tree.get, hr.rl0]
  | succ f ih =>
    intro p s hp hf
    have hrl := rl_get hr.wf hp
    rw [hr.rl0] at hrl
    simp only [climb, hp]
    split
    · rename_i hgt
      have e : p.dropLast = p.take (p.length - 1) := by rw [List.dropLast_eq_take]
      obtain ⟨m, hm⟩ := get_take hp (p.length - 1)
      rw [e, ih _ m hm (by simp; omega), List.take_take]
      congr 2; omega
    · rename_i hle
      rw [List.take_of_length_le (by omega)]

/-! ### extremal leaves -/

theorem child_tmod {c : Fin nd → Int} (hc : ∀ d, 0 ≤ c d) (i : Nat) (d : Fin nd) :
    (childCoords c i d).tmod 2 = ((i / 2 ^ (nd - 1 - d.val)) % 2 : Nat) := by
  have := bit_lt_two i (nd - 1 - d.val)
  have := hc d
  unfold childCoords
  generalize (i / 2 ^ (nd - 1 - d.val)) % 2 = b at *
  rw [Int.tmod_eq_emod_of_nonneg (by omega)]
  omega

theorem child_nonneg {c : Fin nd → Int} (hc : ∀ d, 0 ≤ c d) (i : Nat) (d : Fin nd) : 0 ≤ childCoords c i d := by
  have := hc d
  unfold childCoords; omega

theorem coords_nonneg_get {p} {t s : Tree nd} (h : WF t) (h0 : ∀ d, 0 ≤ t.coords d) (hp : Tree.get p t = some s) :
    ∀ d, 0 ≤ s.coords d := by
  induction p generalizing t with
  | nil => simp [Tree.get] at hp; subst hp; exact h0
  | cons i p ih =>
    obtain ⟨c, hc, hs⟩ := get_cons_some.1 hp
    cases t with
    | mk r co st k =>
    obtain ⟨h1, h2, h3⟩ := h.child hc
    refine ih h3 ?_ hs
    rw [h2]; exact child_nonneg h0 i

theorem mem_extremalList {bias : Fin nd → Int} {k : List (Tree nd)} {n : Nat} {q : Path} :
    q ∈ extremalLeavesList bias k n ↔ ∃ (i : Nat) (a : Tree nd) (r : Path), k[i]? = some a ∧
      (∀ d, bias d = -1 ∨ bias d = (a.coords d).tmod 2) ∧ r ∈ extremalLeaves bias a ∧ q = (n + i) :: r := by
  induction k generalizing n with
  | nil => simp [extremalLeavesList]
  | cons b k ih =>
    simp only [extremalLeavesList, List.mem_append, ih]
    constructor
    · rintro (h | ⟨i, a, r, h1, h2, h3, h4⟩)
      · split at h
        · rename_i hb
          obtain ⟨r, hr, rfl⟩ := List.mem_map.1 h
          exact ⟨0, b, r, by simp, hb, hr, by simp⟩
        · simp at h
      · exact ⟨i + 1, a, r, by simpa using h1, h2, h3, by rw [h4]; simp; omega⟩
    · rintro ⟨i, a, r, h1, h2, h3, h4⟩
      cases i with
      | zero =>
        simp at h1; subst h1
        left; rw [if_pos h2]
        exact List.mem_map.2 ⟨r, h3, by simp [h4]⟩
      | succ i => right; exact ⟨i, a, r, by simpa using h1, h2, h3, by rw [h4]; simp; omega⟩

theorem mem_extremal {bias : Fin nd → Int} (hb : ∀ d, bias d = -1 ∨ bias d = 0 ∨ bias d = 1) {t : Tree nd}
    (h : WF t) (h0 : ∀ d, 0 ≤ t.coords d) (q : Path) :
    q ∈ extremalLeaves bias t ↔ ∃ b, Tree.get q t = some b ∧ b.children = [] ∧
      ∀ d, (bias d = 0 → b.lo d = t.lo d) ∧ (bias d = 1 → b.hi d = t.hi d) := by
  induction t using induct generalizing q with
  | h r c s k ih =>
    cases k with
    | nil =>
      simp only [extremalLeaves, List.mem_singleton]
      constructor
      · rintro rfl; exact ⟨_, rfl, rfl, by simp⟩
      · rintro ⟨b, h1, h2, h3⟩
        cases q with
        | nil => rfl
        | cons i q => simp [Tree.get] at h1
    | cons t0 ts =>
      simp only [extremalLeaves]
      rw [mem_extremalList]
      constructor
      · rintro ⟨i, a, r', h1, h2, h3, rfl⟩
        obtain ⟨e1, e2, e3⟩ := h.child h1
        have h0' : ∀ d, 0 ≤ a.coords d := by rw [e2]; exact child_nonneg h0 i
        obtain ⟨b, g1, g2, g3⟩ := (ih a (List.mem_of_getElem? h1) e3 h0' r').1 h3
        refine ⟨b, ?_, g2, ?_⟩
        · rw [get_cons_some]; exact ⟨a, by simpa using h1, g1⟩
        · intro d
          have l := child_lo (s := s) (k := t0 :: ts) e1 e2 d
          have w := child_wd (s := s) (k := t0 :: ts) (c := c) e1
          have t' := h2 d
          rw [e2, child_tmod (c := c) h0] at t'
          have hl := bit_lt_two i (nd - 1 - d.val)
          generalize (i / 2 ^ (nd - 1 - d.val)) % 2 = bit at *
          have g := g3 d
          constructor
          · intro hb0
            have : bit = 0 := by omega
            subst this
            rw [g.1 hb0, l]; simp
          · intro hb1
            have : bit = 1 := by omega
            subst this
            rw [g.2 hb1, hi_eq, hi_eq, l, w]; push_cast; ring
      · rintro ⟨b, g1, g2, g3⟩
        cases q with
        | nil => simp [Tree.get] at g1; subst g1; simp at g2
        | cons i q =>
          obtain ⟨a, ha, hs⟩ := get_cons_some.1 g1
          simp only [children_mk] at ha
          obtain ⟨e1, e2, e3⟩ := h.child ha
          have h0' : ∀ d, 0 ≤ a.coords d := by rw [e2]; exact child_nonneg h0 i
          have key : ∀ d, (bias d = -1 ∨ bias d = (a.coords d).tmod 2) ∧
              (bias d = 0 → b.lo d = a.lo d) ∧ (bias d = 1 → b.hi d = a.hi d) := by
            intro d
            have l := child_lo (s := s) (k := t0 :: ts) e1 e2 d
            have w := child_wd (s := s) (k := t0 :: ts) (c := c) e1
            have wp := wd_pos a
            have sb := sub_box e3 hs d
            have g := g3 d
            rw [e2, child_tmod (c := c) h0]
            have hl := bit_lt_two i (nd - 1 - d.val)
            generalize (i / 2 ^ (nd - 1 - d.val)) % 2 = bit at *
            simp only [hi_eq] at *
            rcases hb d with hb' | hb' | hb' <;> simp only [hb'] at g ⊢
            · simp
            · have g' := g.1 trivial
              rcases (by omega : bit = 0 ∨ bit = 1) with rfl | rfl
              · push_cast at l; simp; linarith
              · push_cast at l; exfalso; linarith [sb.1]
            · have g' := g.2 trivial
              rcases (by omega : bit = 0 ∨ bit = 1) with rfl | rfl
              · push_cast at l; exfalso; linarith [sb.2]
              · push_cast at l; simp; linarith
          refine ⟨i, a, q, ha, fun d => (key d).1, ?_, by simp⟩
          exact (ih a (List.mem_of_getElem? ha) e3 h0' q).2 ⟨b, hs, g2, fun d => (key d).2⟩

theorem nodup_extremal (bias : Fin nd → Int) (t : Tree nd) : (extremalLeaves bias t).Nodup := by
  induction t using induct with
  | h r c s k ih =>
    have key : ∀ (k : List (Tree nd)) (n : Nat), (∀ t ∈ k, (extremalLeaves bias t).Nodup) →
        (extremalLeavesList bias k n).Nodup := by
      intro k
      induction k with
      | nil => intro n _; simp [extremalLeavesList]
      | cons a k ihk =>
        intro n hk
        simp only [extremalLeavesList]
        rw [List.nodup_append]
        refine ⟨?_, ihk _ (fun t ht => hk t (by simp [ht])), ?_⟩
        · split
          · exact (hk a (by simp)).map (by intro x y hxy; simpa using hxy)
          · simp
        · intro x hx y hy
          obtain ⟨i, _, r', _, _, _, rfl⟩ := mem_extremalList.1 hy
          split at hx
          · obtain ⟨z, _, rfl⟩ := List.mem_map.1 hx
            simp; omega
          · simp at hx
    cases k with
    | nil => simp [extremalLeaves]
    | cons t0 ts => simp only [extremalLeaves]; exact key _ _ ih

/-! ### find_neighbors -/

theorem nn_of_root {t : Tree nd} (hr : RootWF t) {p} {s : Tree nd} (hp : Tree.get p t = some s) : ∀ d, 0 ≤ s.coords d :=
  coords_nonneg_get hr.wf (by rw [hr.c0]; simp) hp

/-- the complete description of `find_neighbors` -/
theorem findNeighbors_spec {t : Tree nd} (hr : RootWF t) {p} {a : Tree nd} (hp : Tree.get p t = some a)
    (dir : Fin nd → Int) (hd : IsDir dir) :
    ∃ l, findNeighbors t p dir = some l ∧ l.Nodup ∧
      ∀ q, q ∈ l ↔ ∃ b, Tree.get q t = some b ∧ b.children = [] ∧ Borders a b dir := by
  have hnb : ∀ d, nbB dir d = 0 ∨ nbB dir d = 1 := nbB_ok dir
  have hfn : findNeighbor t p dir = findLeaf a.rl (nbC a dir) (nbB dir) t := by
    simp only [findNeighbor, hp]; rfl
  have rlq : ∀ {q} {b : Tree nd}, Tree.get q t = some b → b.rl = q.length := by
    intro q b hq; have := rl_get hr.wf hq; rw [hr.rl0] at this; omega
  simp only [findNeighbors, hp, hfn]
  cases hm : findLeaf a.rl (nbC a dir) (nbB dir) t with
  | none =>
    refine ⟨[], rfl, List.nodup_nil, ?_⟩
    intro q
    simp only [List.not_mem_nil, false_iff]
    rintro ⟨b, hq, hb, hbo⟩
    rw [findLeaf_none_iff hnb] at hm
    apply hm
    have hrt : t.rl ≤ a.rl := by rw [hr.rl0]; omega
    rw [owns_iff_contains a t dir hd hrt]
    have sb := sub_box hr.wf hq
    rcases Nat.le_total b.rl a.rl with hle | hle
    · have := (borders_iff_contains a b dir hd hle).1 hbo
      intro d
      exact ⟨le_trans (sb d).1 (this d).1, le_trans (this d).2 (sb d).2⟩
    · have := (borders_iff_extremal a b dir hd hle).1 hbo
      -- the root has size 1: a finer cell inside the target cell and inside the root, both dyadic
      intro d
      have h1 := (this d).1
      have h2 := (this d).2.1
      have s1 := (sb d).1
      have s2 := (sb d).2
      have wb := wd_pos b
      have hbh := hi_eq b d
      have e1 : t.lo d = ((0 : Int) : ℚ) / 2 ^ a.rl := by simp [lo, hr.c0]
      have e2 : t.hi d = ((2 ^ a.rl : Int) : ℚ) / 2 ^ a.rl := by
        simp [hi, hr.c0, hr.rl0]
      have k1 : nlo a dir d < t.hi d := by linarith
      have k2 : t.lo d < nhi a dir d := by linarith
      rw [e2] at k1 ⊢; rw [e1] at k2 ⊢
      unfold nlo at k1 ⊢; unfold nhi at k2 ⊢
      rw [sc_lt] at k1 k2; rw [sc_le, sc_le]
      omega
  | some m =>
    obtain ⟨ms, hms, hmleaf, hmo⟩ := findLeaf_sound hnb hr.wf hm
    have hcl := climb_eq hr a.rl m.length m ms hms le_rfl
    simp only [hcl]
    obtain ⟨sub, hsub⟩ := get_take hms a.rl
    simp only [hsub]
    refine ⟨_, rfl, ?_, ?_⟩
    · exact (nodup_extremal _ _).map (by intro x y hxy; simpa using hxy)
    · intro q
      have hms' : Tree.get (m.drop a.rl) sub = some ms := by
        have := hms
        rw [← List.take_append_drop a.rl m, get_append, hsub] at this
        simpa using this
      have hsubwf := hr.wf.get hsub
      have hsubrl : sub.rl ≤ a.rl := by rw [rlq hsub]; simp
      have hsubN := (owns_iff_contains a sub dir hd hsubrl).1 (owns_sub hsubwf hms' hmo)
      have hbias : ∀ d, (if dir d = 0 then (-1 : Int) else if dir d < 0 then 1 else 0) = -1 ∨
          (if dir d = 0 then (-1 : Int) else if dir d < 0 then 1 else 0) = 0 ∨
          (if dir d = 0 then (-1 : Int) else if dir d < 0 then 1 else 0) = 1 := by
        intro d; split <;> [simp; (split <;> simp)]
      have hE := mem_extremal hbias hsubwf (nn_of_root hr hsub)
      -- the target cell, if the climbed element is on the level of `a`
      have hN : sub.rl = a.rl → ∀ d, sub.lo d = nlo a dir d ∧ sub.hi d = nhi a dir d := by
        intro he d
        have := hsubN d
        rw [lo_scale sub a.rl hsubrl, hi_scale sub a.rl hsubrl] at this ⊢
        unfold nlo nhi at *
        simp only [sc_le, sc_eq, he, Nat.sub_self, pow_zero, mul_one] at this ⊢
        omega
      -- otherwise it is the leaf itself
      have hL : sub.rl ≠ a.rl → m.take a.rl = m ∧ sub = ms := by
        intro hne
        have h1 := rlq hsub
        simp only [List.length_take] at h1
        have h2 : m.take a.rl = m := List.take_of_length_le (by omega)
        refine ⟨h2, ?_⟩
        rw [h2, hms] at hsub; simpa using hsub.symm
      constructor
      · intro hq
        obtain ⟨r, hr', rfl⟩ := List.mem_map.1 hq
        obtain ⟨b, g1, g2, g3⟩ := (hE r).1 hr'
        refine ⟨b, by rw [get_append, hsub]; simpa using g1, g2, ?_⟩
        by_cases he : sub.rl = a.rl
        · have hge : a.rl ≤ b.rl := by rw [rl_get hsubwf g1]; omega
          rw [borders_iff_extremal a b dir hd hge]
          intro d
          have sb := sub_box hsubwf g1 d
          have := hN he d
          have g := g3 d
          rw [this.1, this.2] at sb g
          refine ⟨sb.1, sb.2, fun hpos => g.1 ?_, fun hneg => g.2 ?_⟩
          · rw [if_neg (by omega), if_neg (by omega)]
          · rw [if_neg (by omega), if_pos hneg]
        · obtain ⟨hm1, hm2⟩ := hL he
          have : b = sub := by
            cases r with
            | nil => simpa [Tree.get] using g1.symm
            | cons i r => rw [hm2, get_leaf_cons hmleaf] at g1; simp at g1
          rw [this, borders_iff_contains a sub dir hd hsubrl]
          exact hsubN
      · rintro ⟨b, hq, hb, hbo⟩
        rcases Nat.lt_or_ge a.rl b.rl with hgt | hle
        · have hex := (borders_iff_extremal a b dir hd hgt.le).1 hbo
          have hov : ∀ d, b.lo d < sub.hi d ∧ sub.lo d < b.hi d := by
            intro d
            have h1 := hex d
            have h2 := hsubN d
            have := wd_pos b
            have := hi_eq b d
            constructor <;> linarith [h1.1, h1.2.1, h2.1, h2.2]
          have hpre : m.take a.rl <+: q := by
            rcases prefix_of_overlap hr.wf hsub hq hov with h | h
            · exact h
            · have := h.length_le
              have := rlq hq
              simp at *; omega
          by_cases he : sub.rl = a.rl
          · obtain ⟨r, rfl⟩ := hpre
            rw [get_append, hsub] at hq
            apply List.mem_map.2
            refine ⟨r, ?_, rfl⟩
            rw [hE]
            refine ⟨b, by simpa using hq, hb, ?_⟩
            intro d
            rw [(hN he d).1, (hN he d).2]
            constructor
            · intro h
              split at h
              · simp at h
              · split at h
                · simp at h
                · exact (hex d).2.2.1 (by omega)
            · intro h
              split at h
              · simp at h
              · split at h
                · exact (hex d).2.2.2 (by omega)
                · simp at h
          · exfalso
            obtain ⟨hm1, hm2⟩ := hL he
            rw [hm1] at hpre
            have := leaf_prefix hms hmleaf hq hpre
            subst this
            rw [hms] at hq
            simp at hq; subst hq
            rw [hm2] at hsubrl; omega
        · have hc := (borders_iff_contains a b dir hd hle).1 hbo
          have ho := (owns_iff_contains a b dir hd hle).2 hc
          have := findLeaf_of_leaf hnb hr.wf hq hb ho
          rw [hm] at this
          simp at this; subst this
          have hl := rlq hq
          have h2 : m.take a.rl = m := List.take_of_length_le (by omega)
          rw [h2] at hsub ⊢
          rw [hq] at hsub; simp at hsub; subst hsub
          apply List.mem_map.2
          refine ⟨[], ?_, by simp⟩
          rw [hE]
          exact ⟨b, rfl, hb, by simp⟩

/-! ### modification keeps trees well formed -/

theorem modify_wf (f : Tree nd → Tree nd) (hf : ∀ s, WF s → WF (f s) ∧ (f s).rl = s.rl ∧ (f s).coords = s.coords) :
    ∀ (p : Path) (t : Tree nd), WF t → WF (modify f p t) ∧ (modify f p t).rl = t.rl ∧ (modify f p t).coords = t.coords
  | [], t, h => by simpa [modify] using hf t h
  | i :: p, mk r c s k, h => by
    refine ⟨?_, rfl, rfl⟩
    simp only [modify]
    by_cases hk : k = []
    · subst hk; simp; exact WF.leaf r c s
    · apply WF.node
      · simp [h.len hk]
      · intro j t hj
        rw [List.getElem?_modify] at hj
        cases hkj : k[j]? with
        | none => rw [hkj] at hj; simp at hj
        | some u =>
          obtain ⟨e1, e2, e3⟩ := h.child hkj
          rw [hkj] at hj
          simp only [Option.map_eq_map, Option.map_some, Option.some.injEq] at hj
          split at hj
          · have := modify_wf f hf p u e3
            rw [← hj, this.2.1, this.2.2, e1, e2]; simp
          · rw [← hj]; exact ⟨e1, e2⟩
      · intro j t hj
        rw [List.getElem?_modify] at hj
        cases hkj : k[j]? with
        | none => rw [hkj] at hj; simp at hj
        | some u =>
          obtain ⟨e1, e2, e3⟩ := h.child hkj
          rw [hkj] at hj
          simp only [Option.map_eq_map, Option.map_some, Option.some.injEq] at hj
          split at hj
          · rw [← hj]; exact (modify_wf f hf p u e3).1
          · rw [← hj]; exact e3

theorem wf_refineNode (s : Tree nd) (h : WF s) : WF (refineNode s) ∧ (refineNode s).rl = s.rl ∧ (refineNode s).coords = s.coords := by
  cases s with
  | mk r c st k =>
    refine ⟨?_, rfl, rfl⟩
    simp only [refineNode]
    apply WF.node
    · simp
    · intro i t hi
      simp only [List.getElem?_map, Option.map_eq_some_iff] at hi
      obtain ⟨j, hj, rfl⟩ := hi
      obtain ⟨_, rfl⟩ := List.getElem?_eq_some_iff.1 hj
      simp
    · intro i t hi
      simp only [List.getElem?_map, Option.map_eq_some_iff] at hi
      obtain ⟨j, hj, rfl⟩ := hi
      exact WF.leaf _ _ _

theorem wf_unrefineNode (s : Tree nd) (h : WF s) : WF (unrefineNode s) ∧ (unrefineNode s).rl = s.rl ∧ (unrefineNode s).coords = s.coords := by
  cases s; exact ⟨WF.leaf _ _ _, rfl, rfl⟩

theorem wf_setStatusNode (n : Int) (s : Tree nd) (h : WF s) :
    WF (setStatusNode n s) ∧ (setStatusNode n s).rl = s.rl ∧ (setStatusNode n s).coords = s.coords := by
  cases s with
  | mk r c st k =>
    refine ⟨?_, rfl, rfl⟩
    cases h with
    | leaf => exact WF.leaf _ _ _
    | node _ _ _ _ hlen hk hw => exact WF.node _ _ _ _ hlen hk hw

theorem clearStatusList_eq (k : List (Tree nd)) : clearStatusList k = k.map clearStatusNode := by
  induction k with
  | nil => rfl
  | cons a k ih => simp [clearStatusList, ih]

theorem wf_clearStatusNode (s : Tree nd) (h : WF s) :
    WF (clearStatusNode s) ∧ (clearStatusNode s).rl = s.rl ∧ (clearStatusNode s).coords = s.coords := by
  induction s using induct with
  | h r c st k ih =>
    refine ⟨?_, rfl, rfl⟩
    simp only [clearStatusNode, clearStatusList_eq]
    cases h with
    | leaf => simp; exact WF.leaf _ _ _
    | node _ _ _ _ hlen hk hw =>
      apply WF.node
      · simpa using hlen
      · intro i t hi
        simp only [List.getElem?_map, Option.map_eq_some_iff] at hi
        obtain ⟨u, hu, rfl⟩ := hi
        have := ih u (List.mem_of_getElem? hu) (hw i u hu)
        rw [this.2.1, this.2.2]; exact hk i u hu
      · intro i t hi
        simp only [List.getElem?_map, Option.map_eq_some_iff] at hi
        obtain ⟨u, hu, rfl⟩ := hi
        exact (ih u (List.mem_of_getElem? hu) (hw i u hu)).1

theorem RootWF.modify {t : Tree nd} (h : RootWF t) (f : Tree nd → Tree nd)
    (hf : ∀ s, WF s → WF (f s) ∧ (f s).rl = s.rl ∧ (f s).coords = s.coords) (p : Path) : RootWF (Tree.modify f p t) := by
  have := modify_wf f hf p t h.wf
  exact ⟨this.1, by rw [this.2.1, h.rl0], by rw [this.2.2, h.c0]⟩

end Hexed.Tree
