import Verif.Container.Model

set_option autoImplicit false
set_option linter.unusedVariables false

/-!
# C17: element containers never confuse serial numbers; C18: sequence views index like concatenation
-/

namespace Hexed.Container
variable {α : Type}

/-! ## Specification -/

/-- What a history leaves: how many elements were ever created and the survivors (serial, level, element), oldest first.
The n-th element created gets serial number n. -/
def history : List (Op α) → Nat × List (Nat × Nat × α) → Nat × List (Nat × Nat × α)
  | [], s => s
  | .emplace l a :: ops, (n, L) => history ops (n + 1, L ++ [(n, l, a)])
  | .purge p :: ops, (n, L) => history ops (n, L.filter fun x => !p (x.2.1, x.2.2))

/-- The elements alive after a history that starts with an empty container. -/
def survivors (ops : List (Op α)) : List (Nat × Nat × α) := (history ops (0, [])).2
/-- The number of elements created in a history. -/
def created : List (Op α) → Nat
  | [] => 0
  | .emplace _ _ :: ops => created ops + 1
  | .purge _ :: ops => created ops

/-! ## Lemmas -/

theorem lowerBound_ok (a : List Nat) (x : Nat) (hs : a.Pairwise (· < ·)) : ∀ (n len first : Nat), len ≤ n → first + len ≤ a.length →
    (∀ i y, i < first → a[i]? = some y → y < x) → (∀ i y, first + len ≤ i → a[i]? = some y → x ≤ y) →
    ∃ r, lowerBound a x first len = some r ∧ r ≤ a.length ∧ (∀ i y, i < r → a[i]? = some y → y < x) ∧
      (∀ i y, r ≤ i → a[i]? = some y → x ≤ y) := by
  intro n
  induction n with
  | zero =>
    intro len first hn hl h1 h2
    have : len = 0 := by omega
    subst this
    refine ⟨first, ?_, by omega, h1, fun i y hi => h2 i y (by omega)⟩
    rw [lowerBound]; simp
  | succ n ih =>
    intro len first hn hl h1 h2
    by_cases h0 : len = 0
    · subst h0
      exact ⟨first, by rw [lowerBound]; simp, by omega, h1, fun i y hi => h2 i y (by omega)⟩
    · have hm : first + len / 2 < a.length := by omega
      rw [lowerBound]
      simp only [h0, dite_false, List.getElem?_eq_getElem hm]
      have hp := List.pairwise_iff_getElem.1 hs
      split
      · rename_i hy
        refine ih _ _ (by omega) (by omega) ?_ (fun i y hi => h2 i y (by omega))
        intro i y hi e
        by_cases hi' : i = first + len / 2
        · subst hi'; rw [List.getElem?_eq_getElem hm] at e; simp at e; subst e; exact hy
        · obtain ⟨hia, rfl⟩ := List.getElem?_eq_some_iff.1 e
          have := hp i (first + len / 2) hia hm (by omega)
          omega
      · rename_i hy
        refine ih _ _ (by omega) (by omega) h1 ?_
        intro i y hi e
        by_cases hi' : i = first + len / 2
        · subst hi'; rw [List.getElem?_eq_getElem hm] at e; simp at e; subst e; omega
        · obtain ⟨hia, rfl⟩ := List.getElem?_eq_some_iff.1 e
          have := hp (first + len / 2) i hm hia (by omega)
          omega

theorem upperBound_ok (a : List Nat) (x : Nat) (hs : a.Pairwise (· < ·)) : ∀ (n len first : Nat), len ≤ n → first + len ≤ a.length →
    (∀ i y, i < first → a[i]? = some y → y ≤ x) → (∀ i y, first + len ≤ i → a[i]? = some y → x < y) →
    ∃ r, upperBound a x first len = some r ∧ r ≤ a.length ∧ (∀ i y, i < r → a[i]? = some y → y ≤ x) ∧
      (∀ i y, r ≤ i → a[i]? = some y → x < y) := by
  intro n
  induction n with
  | zero =>
    intro len first hn hl h1 h2
    have : len = 0 := by omega
    subst this
    refine ⟨first, ?_, by omega, h1, fun i y hi => h2 i y (by omega)⟩
    rw [upperBound]; simp
  | succ n ih =>
    intro len first hn hl h1 h2
    by_cases h0 : len = 0
    · subst h0
      exact ⟨first, by rw [upperBound]; simp, by omega, h1, fun i y hi => h2 i y (by omega)⟩
    · have hm : first + len / 2 < a.length := by omega
      rw [upperBound]
      simp only [h0, dite_false, List.getElem?_eq_getElem hm]
      have hp := List.pairwise_iff_getElem.1 hs
      split
      · rename_i hy
        refine ih _ _ (by omega) (by omega) h1 ?_
        intro i y hi e
        by_cases hi' : i = first + len / 2
        · subst hi'; rw [List.getElem?_eq_getElem hm] at e; simp at e; subst e; omega
        · obtain ⟨hia, rfl⟩ := List.getElem?_eq_some_iff.1 e
          have := hp (first + len / 2) i hm hia (by omega)
          omega
      · rename_i hy
        refine ih _ _ (by omega) (by omega) ?_ (fun i y hi => h2 i y (by omega))
        intro i y hi e
        by_cases hi' : i = first + len / 2
        · subst hi'; rw [List.getElem?_eq_getElem hm] at e; simp at e; subst e; omega
        · obtain ⟨hia, rfl⟩ := List.getElem?_eq_some_iff.1 e
          have := hp i (first + len / 2) hia hm (by omega)
          omega

/-- The container represents the survivors `L` after `n` creations. -/
structure Rep (c : Cont α) (n : Nat) (L : List (Nat × Nat × α)) : Prop where
  next : c.next_sn = n
  vec : c.vec = L.map (·.2)
  sns : c.serial_ns = L.map (·.1)
  lt : ∀ x ∈ L, x.1 < n
  sorted : (L.map (·.1)).Pairwise (· < ·)

theorem purgeLoop_ok (p : Nat × α → Bool) (L0 : List (Nat × Nat × α)) : ∀ (L : List (Nat × Nat × α)) (pre : List (Nat × Nat × α)),
    L0 = pre ++ L → ∀ (nv : List (Nat × α)) (ns : List Nat),
    purgeLoop p (L0.map (·.1)) pre.length (L.map (·.2)) nv ns =
      some (nv ++ (L.filter fun x => !p (x.2.1, x.2.2)).map (·.2), ns ++ (L.filter fun x => !p (x.2.1, x.2.2)).map (·.1))
  | [], pre, h, nv, ns => by simp [purgeLoop]
  | (s, l, a) :: L, pre, h, nv, ns => by
    have ih := purgeLoop_ok p L0 L (pre ++ [(s, l, a)]) (by simp [h])
    simp only [List.length_append, List.length_cons, List.length_nil, Nat.zero_add] at ih
    have hg : (L0.map (·.1))[pre.length]? = some s := by simp [h]
    simp only [List.map_cons, purgeLoop]
    cases hp : p (l, a) with
    | true => simp [hp, ih]
    | false => simp [hp, hg, ih]

theorem Rep.emplace {c : Cont α} {n : Nat} {L : List (Nat × Nat × α)} (h : Rep c n L) (l : Nat) (a : α) :
    Rep (c.emplace l a).1 (n + 1) (L ++ [(n, l, a)]) := by
  refine ⟨by simp [Cont.emplace, h.next], by simp [Cont.emplace, h.vec], by simp [Cont.emplace, h.sns, h.next], ?_, ?_⟩
  · intro x hx
    rcases List.mem_append.1 hx with hx | hx
    · have := h.lt x hx; omega
    · simp at hx; subst hx; simp
  · rw [List.map_append, List.pairwise_append]
    refine ⟨h.sorted, by simp, ?_⟩
    intro a ha b hb
    simp at hb; subst hb
    obtain ⟨x, hx, rfl⟩ := List.mem_map.1 ha
    exact h.lt x hx

theorem Rep.purge {c : Cont α} {n : Nat} {L : List (Nat × Nat × α)} (h : Rep c n L) (p : Nat × α → Bool) :
    ∃ c', c.purge p = some (c', L.length - (L.filter fun x => !p (x.2.1, x.2.2)).length) ∧
      Rep c' n (L.filter fun x => !p (x.2.1, x.2.2)) := by
  have := purgeLoop_ok p L L [] rfl [] []
  simp only [List.length_nil, List.nil_append] at this
  refine ⟨⟨c.next_sn, (L.filter fun x => !p (x.2.1, x.2.2)).map (·.2), (L.filter fun x => !p (x.2.1, x.2.2)).map (·.1)⟩,
    by simp only [Cont.purge, h.vec, h.sns, this]; simp, h.next, rfl, rfl, ?_, ?_⟩
  · intro x hx; exact h.lt x (List.mem_filter.1 hx).1
  · exact h.sorted.sublist (List.filter_sublist.map _)

theorem exec_rep (ops : List (Op α)) : ∀ {c : Cont α} {n : Nat} {L : List (Nat × Nat × α)}, Rep c n L →
    ∃ c', exec c ops = some c' ∧ Rep c' (history ops (n, L)).1 (history ops (n, L)).2 := by
  induction ops with
  | nil => intro c n L h; exact ⟨c, rfl, h⟩
  | cons op ops ih =>
    intro c n L h
    cases op with
    | emplace l a => exact ih (h.emplace l a)
    | purge p =>
      obtain ⟨c', h1, h2⟩ := h.purge p
      obtain ⟨c'', h3, h4⟩ := ih h2
      exact ⟨c'', by simp [exec, h1, h3], h4⟩

theorem new_rep : Rep (Cont.new : Cont α) 0 [] := ⟨rfl, rfl, rfl, by simp, by simp⟩

theorem history_created (ops : List (Op α)) : ∀ (n : Nat) (L : List (Nat × Nat × α)), (history ops (n, L)).1 = n + created ops := by
  induction ops with
  | nil => intro n L; rfl
  | cons op ops ih =>
    intro n L
    cases op with
    | emplace l a => simp only [history, ih, created]; omega
    | purge p => simp only [history, ih, created]

theorem at_rep {c : Cont α} {n : Nat} {L : List (Nat × Nat × α)} (h : Rep c n L) (level s : Nat) :
    (∀ a, (s, level, a) ∈ L → c.at level s = .ok a) ∧ ((∀ a, (s, level, a) ∉ L) → c.at level s = .throws) := by
  have hs : c.serial_ns.Pairwise (· < ·) := by rw [h.sns]; exact h.sorted
  obtain ⟨lo, a1, a2, a3, a4⟩ := lowerBound_ok c.serial_ns s hs _ c.serial_ns.length 0 (Nat.le_refl _) (by omega) (by omega)
    (fun i y hi e => by rw [List.getElem?_eq_none (by omega)] at e; simp at e)
  obtain ⟨hi, b1, b2, b3, b4⟩ := upperBound_ok c.serial_ns s hs _ c.serial_ns.length 0 (Nat.le_refl _) (by omega) (by omega)
    (fun i y hi e => by rw [List.getElem?_eq_none (by omega)] at e; simp at e)
  have hlen : c.vec.length = c.serial_ns.length := by rw [h.vec, h.sns]; simp
  have hp := List.pairwise_iff_getElem.1 hs
  have hfind : ∀ i, c.serial_ns[i]? = some s → lo = i ∧ hi = i + 1 := by
    intro i e
    obtain ⟨hil, he⟩ := List.getElem?_eq_some_iff.1 e
    have h1 : lo ≤ i := by
      refine Nat.le_of_not_lt fun hlt => ?_
      have := a3 i s hlt e; omega
    have h2 : i < hi := by
      refine Nat.lt_of_not_le fun hlt => ?_
      have := b4 i s hlt e; omega
    have h3 : lo = i := by
      refine Nat.le_antisymm h1 (Nat.le_of_not_lt fun hlt => ?_)
      have e1 : c.serial_ns[lo]? = some c.serial_ns[lo] := List.getElem?_eq_getElem (by omega)
      have := a4 lo _ (Nat.le_refl _) e1
      have := hp lo i (by omega) hil hlt
      omega
    refine ⟨h3, Nat.le_antisymm (Nat.le_of_not_lt fun hlt => ?_) h2⟩
    have e1 : c.serial_ns[i + 1]? = some c.serial_ns[i + 1] := List.getElem?_eq_getElem (by omega)
    have := b3 (i + 1) _ hlt e1
    have := hp i (i + 1) hil (by omega) (by omega)
    omega
  have huniq : ∀ x ∈ L, ∀ y ∈ L, x.1 = y.1 → x = y := by
    intro x hx y hy e
    obtain ⟨i, hi', rfl⟩ := List.mem_iff_getElem.1 hx
    obtain ⟨j, hj', rfl⟩ := List.mem_iff_getElem.1 hy
    have hq := List.pairwise_iff_getElem.1 h.sorted
    by_cases hij : i = j
    · subst hij; rfl
    · rcases Nat.lt_or_gt_of_ne hij with hlt | hlt
      · have := hq i j (by simpa using hi') (by simpa using hj') hlt; simp at this; omega
      · have := hq j i (by simpa using hj') (by simpa using hi') hlt; simp at this; omega
  constructor
  · intro a ha
    obtain ⟨i, hi', hx⟩ := List.mem_iff_getElem.1 ha
    obtain ⟨h1, h2⟩ := hfind i (by rw [h.sns]; simp [hi', hx])
    have : c.vec[lo]? = some (level, a) := by rw [h1, h.vec]; simp [hi', hx]
    simp only [Cont.at, a1, b1, this]
    rw [if_pos (by omega)]; simp
  · intro hno
    simp only [Cont.at, a1, b1]
    split
    · rename_i hd
      have hlo : lo < c.serial_ns.length := by omega
      have e1 : c.serial_ns[lo]? = some c.serial_ns[lo] := List.getElem?_eq_getElem hlo
      have u1 := a4 lo _ (Nat.le_refl _) e1
      have u2 := b3 lo _ (by omega) e1
      have hsn : c.serial_ns[lo] = s := by omega
      have hL : lo < L.length := by rw [h.sns] at hlo; simpa using hlo
      have hv : c.vec[lo]? = some (L[lo].2.1, L[lo].2.2) := by rw [h.vec]; simp [hL]
      rw [hv]
      simp only
      split
      · rename_i hl
        exfalso
        apply hno L[lo].2.2
        have : L[lo].1 = s := by rw [← hsn]; simp [h.sns]
        rw [← this, ← hl]
        exact List.getElem_mem hL
      · rfl
    · rfl

/-! ## Properties -/

/-- C17: after any history no access is undefined; `elements()` lists the survivors in creation order and `elem_handles()`
their (level, serial number). -/
theorem elements_exact (ops : List (Op α)) :
    ∃ c, exec Cont.new ops = some c ∧ c.elements = (survivors ops).map (·.2.2) ∧
      c.handles = (survivors ops).map (fun x => (x.2.1, x.1)) := by
  obtain ⟨c, h1, h2⟩ := exec_rep ops new_rep
  refine ⟨c, h1, by simp [Cont.elements, h2.vec, survivors], ?_⟩
  simp only [Cont.handles, h2.vec, h2.sns, survivors]
  generalize (history ops (0, [])).2 = L
  induction L with
  | nil => rfl
  | cons x L ih => simp_all

/-- C17: `at(level, serial)` returns the element created with that serial number and level if it has survived, and otherwise
throws. -/
theorem at_exact (ops : List (Op α)) {c : Cont α} (h : exec Cont.new ops = some c) (level s : Nat) :
    (∀ a, (s, level, a) ∈ survivors ops → c.at level s = .ok a) ∧
    ((∀ a, (s, level, a) ∉ survivors ops) → c.at level s = .throws) := by
  obtain ⟨c', h1, h2⟩ := exec_rep ops (new_rep (α := α))
  rw [h] at h1; simp at h1; subst h1
  exact at_rep h2 level s

/-- C17: the serial number returned by `emplace` is the number of elements created before, so serial numbers are never
reused; no two survivors share one. -/
theorem serial_fresh (ops : List (Op α)) {c : Cont α} (h : exec Cont.new ops = some c) (l : Nat) (a : α) :
    (c.emplace l a).2 = created ops ∧ (∀ x ∈ survivors ops, x.1 < created ops) ∧ ((survivors ops).map (·.1)).Nodup := by
  obtain ⟨c', h1, h2⟩ := exec_rep ops (new_rep (α := α))
  rw [h] at h1; simp at h1; subst h1
  have hn := history_created ops 0 []
  rw [Nat.zero_add] at hn
  refine ⟨by simp [Cont.emplace, h2.next, hn], fun x hx => by have := h2.lt x hx; rwa [hn] at this, ?_⟩
  exact h2.sorted.imp (fun hab => by omega)

/-- C17: `purge` returns the number of elements it removed and removes exactly those satisfying the predicate. -/
theorem purge_exact (ops : List (Op α)) {c : Cont α} (h : exec Cont.new ops = some c) (p : Nat × α → Bool) :
    ∃ c' k, c.purge p = some (c', k) ∧ c'.elements = ((survivors ops).filter fun x => !p (x.2.1, x.2.2)).map (·.2.2) ∧
      k + c'.elements.length = c.elements.length := by
  obtain ⟨c', h1, h2⟩ := exec_rep ops (new_rep (α := α))
  rw [h] at h1; simp at h1; subst h1
  obtain ⟨c', h3, h4⟩ := h2.purge p
  refine ⟨c', _, h3, by simp [Cont.elements, h4.vec, survivors], ?_⟩
  have := List.length_filter_le (fun x => !p (x.2.1, x.2.2)) (history ops (0, [])).2
  simp only [Cont.elements, h4.vec, h2.vec, List.length_map]
  omega

example : ∃ c : Cont String, exec Cont.new [.emplace 3 "a", .emplace 3 "b", .purge (fun x => x.2 == "a"), .emplace 2 "c"] = some c ∧
    c.at 3 1 = .ok "b" ∧ c.at 3 0 = .throws ∧ c.at 2 2 = .ok "c" ∧ c.at 2 1 = .throws ∧ c.elements = ["b", "c"] := by
  refine ⟨_, rfl, ?_, ?_, ?_, ?_, rfl⟩ <;> decide +kernel

/-! ## Sequences -/

/-- The list a sequence stands for; `none` if an `Index` refers outside its sequence. -/
def Seq.list {T : Type} : Seq T → Option (List T)
  | .vec l => some l
  | .cat s0 s1 => s0.list.bind fun l0 => s1.list.map fun l1 => l0 ++ l1
  | .index s inds => s.list.bind fun l => inds.mapM fun i => if 0 ≤ i then l[i.toNat]? else none

theorem mapM_getElem? {A B : Type} (f : A → Option B) : ∀ (l : List A) (m : List B), l.mapM f = some m →
    m.length = l.length ∧ ∀ i : Nat, m[i]? = (l[i]?).bind f
  | [], m, h => by simp at h; subst h; simp
  | a :: l, m, h => by
    simp only [List.mapM_cons, Option.bind_eq_bind, Option.bind_eq_some_iff, Option.pure_def, Option.some.injEq] at h
    obtain ⟨b, hb, m', hm, rfl⟩ := h
    obtain ⟨h1, h2⟩ := mapM_getElem? f l m' hm
    refine ⟨by simp [h1], ?_⟩
    intro i
    cases i with
    | zero => simp [hb]
    | succ i => simp [h2]

/-- C18: a sequence built by any nesting of views has the size of the list it stands for, and `operator[]` gives exactly the
element of that list at every index within it; every other index is outside some vector. -/
theorem seq_exact {T : Type} (s : Seq T) : ∀ {l : List T}, s.list = some l →
    s.size = l.length ∧ ∀ i : Int, s.get i = if 0 ≤ i then l[i.toNat]? else none := by
  induction s with
  | vec l =>
    intro l' h
    simp only [Seq.list, Option.some.injEq] at h; subst h
    refine ⟨rfl, fun i => ?_⟩
    simp only [Seq.get, vecAt]
    by_cases hi : 0 ≤ i
    · rw [if_pos hi, if_neg (by omega)]
    · rw [if_neg hi, if_pos (by omega)]
  | cat s0 s1 ih0 ih1 =>
    intro l h
    simp only [Seq.list, Option.bind_eq_some_iff, Option.map_eq_some_iff] at h
    obtain ⟨l0, h0, l1, h1, rfl⟩ := h
    obtain ⟨z0, g0⟩ := ih0 h0
    obtain ⟨z1, g1⟩ := ih1 h1
    refine ⟨by simp [Seq.size, z0, z1], fun i => ?_⟩
    simp only [Seq.get, z0]
    split
    · rename_i hi
      rw [g0]
      split
      · rw [List.getElem?_append_left (by omega)]
      · rfl
    · rename_i hi
      rw [g1, if_pos (by omega), if_pos (by omega), List.getElem?_append_right (by omega)]
      congr 1; omega
  | index s inds ih =>
    intro l h
    simp only [Seq.list, Option.bind_eq_some_iff] at h
    obtain ⟨l0, h0, h1⟩ := h
    obtain ⟨z, g⟩ := ih h0
    obtain ⟨a, b⟩ := mapM_getElem? _ inds l h1
    refine ⟨by simp [Seq.size, a], fun i => ?_⟩
    simp only [Seq.get, vecAt]
    by_cases hi : 0 ≤ i
    · rw [if_neg (by omega), if_pos hi, b]
      cases inds[i.toNat]? with
      | none => rfl
      | some j => simp only [Option.bind_some]; rw [g]
    · rw [if_pos (by omega), if_neg hi]

/-- C18 for the concatenation of any two sequences. -/
theorem concat_exact {T : Type} (s0 s1 : Seq T) {l0 l1 : List T} (h0 : s0.list = some l0) (h1 : s1.list = some l1) :
    (Seq.cat s0 s1).size = l0.length + l1.length ∧
    ∀ i : Nat, i < l0.length + l1.length → (Seq.cat s0 s1).get i = (l0 ++ l1)[i]? := by
  obtain ⟨a, b⟩ := seq_exact (.cat s0 s1) (l := l0 ++ l1) (by simp [Seq.list, h0, h1])
  refine ⟨by rw [a]; simp, fun i _ => ?_⟩
  rw [b]; simp

example : (Seq.cat (.cat (.vec [1, 2]) (.vec [])) (.index (.vec [7, 8, 9]) [2, 0])).list = some [1, 2, 9, 7] ∧
    (Seq.cat (.cat (.vec [1, 2]) (.vec [])) (.index (.vec [7, 8, 9]) [2, 0])).get 3 = some 7 := by
  constructor <;> rfl

end Hexed.Container
