import Verif.Tree.Spec
import Mathlib.Tactic.Ring
import Mathlib.Tactic.Linarith
import Mathlib.Tactic.FieldSimp
import Mathlib.Tactic.Positivity
import Mathlib.Tactic.NormNum
import Mathlib.Tactic.Push

set_option autoImplicit false
set_option linter.unusedVariables false

/-! Helper lemmas for the tree properties. -/

namespace Hexed.Tree
variable {nd : Nat}

@[simp] theorem rl_mk (r c s k) : (mk r c s k : Tree nd).rl = r := rfl
@[simp] theorem coords_mk (r c s k) : (mk r c s k : Tree nd).coords = c := rfl
@[simp] theorem status_mk (r c s k) : (mk r c s k : Tree nd).status = s := rfl
@[simp] theorem children_mk (r c s k) : (mk r c s k : Tree nd).children = k := rfl

/-- Induction over the subtrees of a tree. -/
theorem induct {P : Tree nd → Prop}
    (h : ∀ r c s k, (∀ t ∈ k, P t) → P (mk r c s k)) (t : Tree nd) : P t := by
  apply Tree.rec (motive_1 := P) (motive_2 := fun k => ∀ t ∈ k, P t)
  · intro r c s k ih; exact h r c s k ih
  · intro t ht; simp at ht
  · intro a k ha hk t ht
    rcases List.mem_cons.1 ht with rfl | ht
    · exact ha
    · exact hk t ht

/-- Consistency of levels, coordinates and number of children. -/
inductive WF : Tree nd → Prop
  | leaf (r c s) : WF (mk r c s [])
  | node (r c s k) (hlen : k.length = 2 ^ nd)
      (hk : ∀ (i : Nat) (t : Tree nd), k[i]? = some t → t.rl = r + 1 ∧ t.coords = childCoords c i)
      (hw : ∀ (i : Nat) (t : Tree nd), k[i]? = some t → WF t) : WF (mk r c s k)

theorem WF.child {r c s k} (h : WF (mk r c s k : Tree nd)) {i : Nat} {t : Tree nd} (hi : k[i]? = some t) :
    t.rl = r + 1 ∧ t.coords = childCoords c i ∧ WF t := by
  cases h with
  | leaf => simp at hi
  | node _ _ _ _ hlen hk hw => exact ⟨(hk i t hi).1, (hk i t hi).2, hw i t hi⟩

theorem WF.len {r c s k} (h : WF (mk r c s k : Tree nd)) (hk : k ≠ []) : k.length = 2 ^ nd := by
  cases h with
  | leaf => simp at hk
  | node _ _ _ _ hlen _ _ => exact hlen

/-- root element: level 0 at coordinates 0 -/
structure RootWF (t : Tree nd) : Prop where
  wf : WF t
  rl0 : t.rl = 0
  c0 : t.coords = fun _ => 0

/-! ### paths -/

theorem get_nil (t : Tree nd) : get [] t = some t := rfl
theorem get_cons (i p) (t : Tree nd) : get (i :: p) t = match t.children[i]? with
    | none => none | some c => get p c := rfl

theorem get_cons_some {i p} {t s : Tree nd} :
    get (i :: p) t = some s ↔ ∃ c, t.children[i]? = some c ∧ get p c = some s := by
  rw [get_cons]; cases h : t.children[i]? <;> simp

theorem get_append (p q) (t : Tree nd) : get (p ++ q) t = (get p t).bind (get q) := by
  induction p generalizing t with
  | nil => simp [get]
  | cons i p ih =>
    simp only [List.cons_append, get]
    cases t.children[i]? with
    | none => simp
    | some c => simp [ih]

theorem WF.get {p} {t s : Tree nd} (h : WF t) (hp : Tree.get p t = some s) : WF s := by
  induction p generalizing t with
  | nil => simp [Tree.get] at hp; subst hp; exact h
  | cons i p ih =>
    obtain ⟨c, hc, hs⟩ := get_cons_some.1 hp
    cases t; exact ih (h.child hc).2.2 hs

theorem rl_get {p} {t s : Tree nd} (h : WF t) (hp : Tree.get p t = some s) : s.rl = t.rl + p.length := by
  induction p generalizing t with
  | nil => simp [Tree.get] at hp; subst hp; rfl
  | cons i p ih =>
    obtain ⟨c, hc, hs⟩ := get_cons_some.1 hp
    cases t
    have := h.child hc
    rw [ih this.2.2 hs, this.1]; simp; omega

/-! ### bits of the child number -/

theorem bit_lt_two (i k : Nat) : (i / 2 ^ k) % 2 < 2 := Nat.mod_lt _ (by decide)

theorem bits_ext {nd i j : Nat} (hi : i < 2 ^ nd) (hj : j < 2 ^ nd)
    (h : ∀ d : Fin nd, (i / 2 ^ (nd - 1 - d.val)) % 2 = (j / 2 ^ (nd - 1 - d.val)) % 2) : i = j := by
  apply Nat.eq_of_testBit_eq
  intro k
  by_cases hk : k < nd
  · have := h ⟨nd - 1 - k, by omega⟩
    have e : nd - 1 - (nd - 1 - k) = k := by omega
    simp only [e] at this
    rw [Nat.testBit_eq_decide_div_mod_eq, Nat.testBit_eq_decide_div_mod_eq, this]
  · have hk' : 2 ^ nd ≤ 2 ^ k := Nat.pow_le_pow_right (by decide) (by omega)
    rw [Nat.testBit_lt_two_pow (by omega), Nat.testBit_lt_two_pow (by omega)]

theorem bits_surj {nd : Nat} (b : Fin nd → Bool) :
    ∃ i, i < 2 ^ nd ∧ ∀ d : Fin nd, (i / 2 ^ (nd - 1 - d.val)) % 2 = if b d then 1 else 0 := by
  refine ⟨Nat.ofBits (fun k : Fin nd => b ⟨nd - 1 - k.val, by omega⟩), Nat.ofBits_lt_two_pow _, ?_⟩
  intro d
  have h := Nat.testBit_ofBits_lt (fun k : Fin nd => b ⟨nd - 1 - k.val, by omega⟩) (nd - 1 - d.val) (by omega)
  have e : nd - 1 - (nd - 1 - d.val) = d.val := by omega
  simp only [e] at h
  rw [Nat.testBit_eq_decide_div_mod_eq] at h
  cases hb : b d
  · simp [hb] at h; simp; omega
  · simp [hb] at h; simpa using h

theorem bits_surj_prop {nd : Nat} (P : Fin nd → Prop) :
    ∃ i, i < 2 ^ nd ∧ ∀ d : Fin nd, (P d → (i / 2 ^ (nd - 1 - d.val)) % 2 = 1) ∧
      (¬ P d → (i / 2 ^ (nd - 1 - d.val)) % 2 = 0) := by
  classical
  obtain ⟨i, hi, h⟩ := bits_surj (fun d => decide (P d))
  refine ⟨i, hi, fun d => ⟨fun hp => ?_, fun hp => ?_⟩⟩ <;> rw [h d] <;> simp [hp]

/-! ### cells -/

/-- width of a cell -/
def wd (t : Tree nd) : ℚ := 1 / 2 ^ t.rl

theorem wd_pos (t : Tree nd) : 0 < t.wd := by unfold wd; positivity

theorem hi_eq (t : Tree nd) (d) : t.hi d = t.lo d + t.wd := by unfold hi lo wd; ring

theorem child_lo {r s k} {c : Fin nd → Int} {t : Tree nd} {i : Nat} (h1 : t.rl = r + 1) (h2 : t.coords = childCoords c i) (d) :
    t.lo d = (mk r c s k : Tree nd).lo d + ((i / 2 ^ (nd - 1 - d.val)) % 2 : Nat) * t.wd := by
  have : (2 : ℚ) ^ r ≠ 0 := by positivity
  simp only [lo, wd, h1, h2, childCoords, rl_mk, coords_mk, pow_succ]
  generalize (i / 2 ^ (nd - 1 - d.val)) % 2 = b
  push_cast
  field_simp

theorem child_wd {r s k} {c : Fin nd → Int} {t : Tree nd} (h1 : t.rl = r + 1) :
    (mk r c s k : Tree nd).wd = 2 * t.wd := by
  have : (2 : ℚ) ^ r ≠ 0 := by positivity
  simp only [wd, h1, rl_mk, pow_succ]
  field_simp

/-- A descendant's cell is inside. -/
theorem sub_box {p} {t s : Tree nd} (h : WF t) (hp : Tree.get p t = some s) (d) :
    t.lo d ≤ s.lo d ∧ s.hi d ≤ t.hi d := by
  induction p generalizing t with
  | nil => simp [Tree.get] at hp; subst hp; simp
  | cons i p ih =>
    obtain ⟨c, hc, hs⟩ := get_cons_some.1 hp
    cases t with
    | mk r co st k =>
    obtain ⟨h1, h2, h3⟩ := h.child hc
    have := ih h3 hs
    have e1 := child_lo (s := st) (k := k) h1 h2 d
    have e2 := child_wd (s := st) (k := k) (c := co) h1
    have w := wd_pos c
    have hb := bit_lt_two i (nd - 1 - d.val)
    simp only [hi_eq] at *
    rcases (by omega : (i / 2 ^ (nd - 1 - d.val)) % 2 = 0 ∨ (i / 2 ^ (nd - 1 - d.val)) % 2 = 1) with hb | hb <;>
      rw [hb] at e1 <;> push_cast at e1 <;> constructor <;> linarith

/-- Distinct children have disjoint cells. -/
theorem child_disjoint {r c s k} (h : WF (mk r c s k : Tree nd)) {i j : Nat} {a b : Tree nd}
    (ha : k[i]? = some a) (hb : k[j]? = some b) (hij : i ≠ j) :
    ∃ d, a.hi d ≤ b.lo d ∨ b.hi d ≤ a.lo d := by
  have hk : k ≠ [] := by rintro rfl; simp at ha
  have hl := h.len hk
  have hi' : i < 2 ^ nd := by rw [← hl]; exact (List.getElem?_eq_some_iff.1 ha).1
  have hj' : j < 2 ^ nd := by rw [← hl]; exact (List.getElem?_eq_some_iff.1 hb).1
  obtain ⟨a1, a2, a3⟩ := h.child ha
  obtain ⟨b1, b2, b3⟩ := h.child hb
  by_contra hcon
  push Not at hcon
  apply hij
  apply bits_ext hi' hj'
  intro d
  have := hcon d
  have e1 := child_lo (s := s) (k := k) a1 a2 d
  have e2 := child_lo (s := s) (k := k) b1 b2 d
  have e3 := child_wd (s := s) (k := k) (c := c) a1
  have e4 := child_wd (s := s) (k := k) (c := c) b1
  have w := wd_pos a
  simp only [hi_eq] at this
  have hba := bit_lt_two i (nd - 1 - d.val)
  have hbb := bit_lt_two j (nd - 1 - d.val)
  rcases (by omega : (i / 2 ^ (nd - 1 - d.val)) % 2 = 0 ∨ (i / 2 ^ (nd - 1 - d.val)) % 2 = 1) with hi | hi <;>
  rcases (by omega : (j / 2 ^ (nd - 1 - d.val)) % 2 = 0 ∨ (j / 2 ^ (nd - 1 - d.val)) % 2 = 1) with hj | hj <;>
    rw [hi] at e1 ⊢ <;> rw [hj] at e2 ⊢ <;> push_cast at e1 e2 <;> exfalso <;> linarith [this.1, this.2]

/-- overlapping cells (open) belong to elements one of which is an ancestor of the other -/
theorem prefix_of_overlap {p q} {t a b : Tree nd} (h : WF t) (hp : Tree.get p t = some a) (hq : Tree.get q t = some b)
    (ho : ∀ d, b.lo d < a.hi d ∧ a.lo d < b.hi d) : p <+: q ∨ q <+: p := by
  induction p generalizing t q with
  | nil => left; simp
  | cons i p ih =>
    cases q with
    | nil => right; simp
    | cons j q =>
      obtain ⟨c, hc, hs⟩ := get_cons_some.1 hp
      obtain ⟨c', hc', hs'⟩ := get_cons_some.1 hq
      cases t with
      | mk r co st k =>
      by_cases hij : i = j
      · subst hij
        have : c = c' := by simpa using hc.symm.trans hc'
        subst this
        simpa [List.cons_prefix_cons] using ih (h.child hc).2.2 hs hs'
      · exfalso
        obtain ⟨d, hd⟩ := child_disjoint h hc hc' hij
        have h1 := sub_box (h.child hc).2.2 hs d
        have h2 := sub_box (h.child hc').2.2 hs' d
        have := ho d
        rcases hd with hd | hd <;> linarith [this.1, this.2, h1.1, h1.2, h2.1, h2.2]

theorem get_leaf_cons {i p} {s : Tree nd} (h : s.children = []) : get (i :: p) s = none := by
  simp [get, h]

/-- a leaf has no proper descendants -/
theorem leaf_prefix {p q} {t a b : Tree nd} (hp : Tree.get p t = some a) (ha : a.children = [])
    (hq : Tree.get q t = some b) (hpre : p <+: q) : p = q := by
  obtain ⟨l, rfl⟩ := hpre
  rw [get_append, hp] at hq
  cases l with
  | nil => simp
  | cons i l => simp [get_leaf_cons ha] at hq

/-! ### find_leaf -/

theorem owns_iff (r : Nat) (co : Int) (rl : Nat) (c bias : Int) (hb : bias = 0 ∨ bias = 1) :
    (0 ≤ relCoord r co rl c bias ∧ relCoord r co rl c bias < 2 ^ (max r rl - r)) ↔
    (if bias = 0 then (co : ℚ) / 2 ^ r ≤ (c : ℚ) / 2 ^ rl ∧ (c : ℚ) / 2 ^ rl < ((co : ℚ) + 1) / 2 ^ r
      else (co : ℚ) / 2 ^ r < (c : ℚ) / 2 ^ rl ∧ (c : ℚ) / 2 ^ rl ≤ ((co : ℚ) + 1) / 2 ^ r) := by
  have e1 : (2 : ℚ) ^ (max r rl) = 2 ^ (max r rl - r) * 2 ^ r := by rw [← pow_add]; congr 1; omega
  have e2 : (2 : ℚ) ^ (max r rl) = 2 ^ (max r rl - rl) * 2 ^ rl := by rw [← pow_add]; congr 1; omega
  have p0 : (0 : ℚ) < 2 ^ (max r rl) := by positivity
  have f1 : ∀ x : ℚ, x / 2 ^ r = x * 2 ^ (max r rl - r) / 2 ^ (max r rl) := by
    intro x; rw [e1]; field_simp
  have f2 : ∀ x : ℚ, x / 2 ^ rl = x * 2 ^ (max r rl - rl) / 2 ^ (max r rl) := by
    intro x; rw [e2]; field_simp
  rw [f1, f1, f2, div_le_div_iff_of_pos_right p0, div_le_div_iff_of_pos_right p0,
    div_lt_div_iff_of_pos_right p0, div_lt_div_iff_of_pos_right p0]
  unfold relCoord
  generalize max r rl - r = m
  generalize max r rl - rl = n
  have g1 : ((co : ℚ) * 2 ^ m) = ((co * 2 ^ m : Int) : ℚ) := by push_cast; ring
  have g2 : ((c : ℚ) * 2 ^ n) = ((c * 2 ^ n : Int) : ℚ) := by push_cast; ring
  have g3 : (((co : ℚ) + 1) * 2 ^ m) = ((co * 2 ^ m + 2 ^ m : Int) : ℚ) := by push_cast; ring
  rw [g1, g2, g3]
  simp only [Int.cast_le, Int.cast_lt]
  rcases hb with rfl | rfl <;> simp <;> omega

theorem inCell_iff (t : Tree nd) (rl : Nat) (c bias : Fin nd → Int) (hb : ∀ d, bias d = 0 ∨ bias d = 1) :
    inCell t.rl t.coords rl c bias = true ↔ Owns t bias (gridPoint rl c) := by
  unfold inCell Owns
  rw [decide_eq_true_iff]
  apply forall_congr'
  intro d
  exact owns_iff t.rl (t.coords d) rl (c d) (bias d) (hb d)

/-- A cell that contains a point has a child that does. -/
theorem child_cover {r c s k} (h : WF (mk r c s k : Tree nd)) (hk : k ≠ []) (bias : Fin nd → Int) (x : Fin nd → ℚ)
    (hx : Owns (mk r c s k) bias x) : ∃ (i : Nat) (a : Tree nd), k[i]? = some a ∧ Owns a bias x := by
  obtain ⟨i, hi, hbit⟩ := bits_surj_prop (fun d =>
    if bias d = 0 then (mk r c s k : Tree nd).lo d + 1 / 2 ^ (r + 1) ≤ x d
    else (mk r c s k : Tree nd).lo d + 1 / 2 ^ (r + 1) < x d)
  have hl := h.len hk
  obtain ⟨a, hi2⟩ : ∃ a, k[i]? = some a := ⟨_, List.getElem?_eq_getElem (by omega)⟩
  refine ⟨i, a, hi2, ?_⟩
  obtain ⟨h1, h2, h3⟩ := h.child hi2
  intro d
  have e1 := child_lo (s := s) (k := k) h1 h2 d
  have e2 := child_wd (s := s) (k := k) (c := c) h1
  have e3 : (1 : ℚ) / 2 ^ (r + 1) = a.wd := by simp only [wd, h1]
  have hd := hx d
  obtain ⟨b1, b2⟩ := hbit d
  simp only [hi_eq] at *
  rw [e3] at b1 b2
  by_cases hb : bias d = 0 <;> simp only [hb, if_true, if_false] at hd b1 b2 ⊢
  · by_cases hc : (mk r c s k : Tree nd).lo d + a.wd ≤ x d
    · rw [b1 hc] at e1; push_cast at e1
      constructor <;> linarith [hd.1, hd.2]
    · rw [b2 hc] at e1; push_cast at e1
      constructor <;> linarith [hd.1, hd.2]
  · by_cases hc : (mk r c s k : Tree nd).lo d + a.wd < x d
    · rw [b1 hc] at e1; push_cast at e1
      constructor <;> linarith [hd.1, hd.2]
    · rw [b2 hc] at e1; push_cast at e1
      constructor <;> linarith [hd.1, hd.2]

theorem owns_sub {p} {t s : Tree nd} (h : WF t) (hp : Tree.get p t = some s) {bias x} (ho : Owns s bias x) : Owns t bias x := by
  intro d
  have h1 := sub_box h hp d
  have := ho d
  split at this <;> simp_all <;> constructor <;> linarith [this.1, this.2, h1.1, h1.2]

theorem owns_disjoint {a b : Tree nd} {bias x} (ha : Owns a bias x) (hb : Owns b bias x) (d) :
    ¬ (a.hi d ≤ b.lo d ∨ b.hi d ≤ a.lo d) := by
  have h1 := ha d
  have h2 := hb d
  rintro (h | h) <;> split at h1 <;> simp_all <;> linarith [h1.1, h1.2, h2.1, h2.2]

theorem findLeafList_none {rl} {c bias : Fin nd → Int} {k : List (Tree nd)} {n}
    (h : ∀ t ∈ k, findLeaf rl c bias t = none) : findLeafList rl c bias k n = none := by
  induction k generalizing n with
  | nil => rfl
  | cons a k ih =>
    simp only [findLeafList, h a (by simp)]
    exact ih (fun t ht => h t (by simp [ht]))

theorem findLeafList_some {rl} {c bias : Fin nd → Int} {k : List (Tree nd)} {n i : Nat} {a p}
    (hi : k[i]? = some a) (ha : findLeaf rl c bias a = some p)
    (hn : ∀ j b, j < i → k[j]? = some b → findLeaf rl c bias b = none) :
    findLeafList rl c bias k n = some ((n + i) :: p) := by
  induction k generalizing n i with
  | nil => simp at hi
  | cons b k ih =>
    cases i with
    | zero => simp at hi; subst hi; simp [findLeafList, ha]
    | succ i =>
      simp only [findLeafList, hn 0 b (by omega) (by simp)]
      rw [ih (by simpa using hi) (fun j b' hj hb => hn (j+1) b' (by omega) (by simpa using hb))]
      simp; omega

theorem findLeaf_none_iff {rl} {c bias : Fin nd → Int} (hb : ∀ d, bias d = 0 ∨ bias d = 1) (t : Tree nd) :
    findLeaf rl c bias t = none ↔ ¬ Owns t bias (gridPoint rl c) := by
  rw [← inCell_iff t rl c bias hb]
  cases t with
  | mk r co s k =>
    simp only [findLeaf, rl_mk, coords_mk]
    split
    · rename_i h; simp only [h, not_true_eq_false, iff_false]
      split <;> simp
    · rename_i h; simp [h]

theorem findLeaf_of_leaf {rl} {c bias : Fin nd → Int} (hb : ∀ d, bias d = 0 ∨ bias d = 1) {p} {t s : Tree nd}
    (h : WF t) (hp : Tree.get p t = some s) (hs : s.children = []) (ho : Owns s bias (gridPoint rl c)) :
    findLeaf rl c bias t = some p := by
  induction p generalizing t with
  | nil =>
    simp [Tree.get] at hp; subst hp
    cases t with
    | mk r co st k =>
      simp at hs; subst hs
      have := (inCell_iff (mk r co st []) rl c bias hb).2 ho
      simp only [rl_mk, coords_mk] at this
      simp [findLeaf, this, findLeafList]
  | cons i p ih =>
    obtain ⟨a, ha, hs'⟩ := get_cons_some.1 hp
    cases t with
    | mk r co st k =>
      have hroot := owns_sub h hp ho
      have := (inCell_iff _ rl c bias hb).2 hroot
      simp only [rl_mk, coords_mk] at this
      simp only [findLeaf, this, if_true]
      have := ih (h.child ha).2.2 hs'
      simp only [children_mk] at ha
      rw [findLeafList_some (i := i) ha this]
      · simp
      · intro j b hj hjb
        rw [findLeaf_none_iff hb]
        intro hob
        have hoa := owns_sub (h.child ha).2.2 hs' ho
        obtain ⟨d, hd⟩ := child_disjoint h hjb ha (by omega)
        exact owns_disjoint hob hoa d hd

theorem findLeafList_exists {rl} {c bias : Fin nd → Int} {k : List (Tree nd)} {n p}
    (h : findLeafList rl c bias k n = some p) : ∃ i a q, k[i]? = some a ∧ findLeaf rl c bias a = some q ∧ p = (n + i) :: q := by
  induction k generalizing n with
  | nil => simp [findLeafList] at h
  | cons b k ih =>
    simp only [findLeafList] at h
    split at h
    · rename_i q hq
      simp at h
      exact ⟨0, b, q, by simp, hq, by simp [h]⟩
    · obtain ⟨i, a, q, h1, h2, h3⟩ := ih h
      exact ⟨i + 1, a, q, by simpa using h1, h2, by rw [h3]; simp; omega⟩

theorem findLeaf_sound {rl} {c bias : Fin nd → Int} (hb : ∀ d, bias d = 0 ∨ bias d = 1) {t : Tree nd}
    (h : WF t) {p} (hp : findLeaf rl c bias t = some p) :
    ∃ s, Tree.get p t = some s ∧ s.children = [] ∧ Owns s bias (gridPoint rl c) := by
  induction t using induct generalizing p with
  | h r co st k ih =>
    simp only [findLeaf] at hp
    split at hp
    · rename_i hin
      have ho := (inCell_iff (mk r co st k) rl c bias hb).1 hin
      split at hp
      · rename_i q hq
        simp at hp; subst hp
        obtain ⟨i, a, q', h1, h2, h3⟩ := findLeafList_exists hq
        obtain ⟨s, g1, g2, g3⟩ := ih a (List.mem_of_getElem? h1) (h.child h1).2.2 h2
        refine ⟨s, ?_, g2, g3⟩
        rw [h3, get_cons_some]
        exact ⟨a, by simpa using h1, g1⟩
      · rename_i hnone
        simp at hp; subst hp
        by_cases hk : k = []
        · subst hk; exact ⟨_, rfl, rfl, ho⟩
        · exfalso
          obtain ⟨i, a, h1, h2⟩ := child_cover h hk bias _ ho
          have hne : findLeaf rl c bias a ≠ none := by
            rw [Ne, findLeaf_none_iff hb]; simpa using h2
          -- the loop would have found something
          have : ∀ (k : List (Tree nd)) n, a ∈ k → findLeafList rl c bias k n ≠ none := by
            intro k
            induction k with
            | nil => intro n hmem; simp at hmem
            | cons b k ihk =>
              intro n hmem
              simp only [findLeafList]
              split
              · simp
              · rename_i hnb
                apply ihk
                rcases List.mem_cons.1 hmem with rfl | h
                · exact absurd hnb hne
                · exact h
          exact this k 0 (List.mem_of_getElem? h1) hnone
    · simp at hp

end Hexed.Tree
