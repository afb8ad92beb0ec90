import Verif.MutualPtr.Model

set_option autoImplicit false
set_option linter.unusedVariables false

/-!
# C15: two-sided pointers are always mutually consistent
-/

namespace Hexed.MutualPtr

/-! ## Specification: a partial matching -/

/-- Who is paired with whom, as seen from outside (`partner()`). -/
def partner (m : Mem) (i : Nat) : Option Nat := (m i).bind (·.partner)

/-- The data an object is associated with (`mine()`). -/
def mine (m : Mem) (i : Nat) : Option Nat := (m i).map (·.mine)

/-- Remove object `i` from a matching. -/
def unlink (f : Nat → Option Nat) (i : Nat) : Nat → Option Nat :=
  fun k => if k = i ∨ f k = some i then none else f k

/-- Match `i` with `j`, after removing both. -/
def link (f : Nat → Option Nat) (i j : Nat) : Nat → Option Nat :=
  fun k => if k = i then some j else if k = j then some i else unlink (unlink f i) j k

/-- Every pointer is answered: the partner is alive and points back. -/
def Consistent (m : Mem) : Prop := ∀ i j, partner m i = some j → (m i).isSome ∧ (m j).isSome ∧ partner m j = some i

/-! ## Lemmas -/

theorem setPartner_ok {m : Mem} {i : Nat} (h : (m i).isSome) (p : Option Nat) :
    ∃ m', setPartner m i p = some m' ∧ (∀ k, partner m' k = if k = i then p else partner m k) ∧
      (∀ k, (m' k).isSome = (m k).isSome) ∧ ∀ k, mine m' k = mine m k := by
  obtain ⟨o, ho⟩ := Option.isSome_iff_exists.1 h
  refine ⟨fun k => if k = i then some { o with partner := p } else m k, by simp [setPartner, ho], ?_, ?_, ?_⟩ <;> intro k <;> by_cases hk : k = i <;>
    simp [partner, mine, hk, ho]

theorem setMine_ok {m : Mem} {i : Nat} (h : (m i).isSome) (d : Nat) :
    ∃ m', setMine m i d = some m' ∧ (∀ k, partner m' k = partner m k) ∧
      (∀ k, (m' k).isSome = (m k).isSome) ∧ ∀ k, mine m' k = if k = i then some d else mine m k := by
  obtain ⟨o, ho⟩ := Option.isSome_iff_exists.1 h
  refine ⟨fun k => if k = i then some { o with mine := d } else m k, by simp [setMine, ho], ?_, ?_, ?_⟩ <;> intro k <;> by_cases hk : k = i <;>
    simp [partner, mine, hk, ho]

theorem unpair_ok {m : Mem} (hc : Consistent m) {i : Nat} (h : (m i).isSome) :
    ∃ m', unpair m i = some m' ∧ (∀ k, partner m' k = unlink (partner m) i k) ∧
      (∀ k, (m' k).isSome = (m k).isSome) ∧ ∀ k, mine m' k = mine m k := by
  obtain ⟨o, ho⟩ := Option.isSome_iff_exists.1 h
  cases hp : o.partner with
  | none =>
    have hpi : partner m i = none := by simp [partner, ho, hp]
    refine ⟨m, by simp [unpair, ho, hp], ?_, fun _ => rfl, fun _ => rfl⟩
    intro k
    unfold unlink
    split
    · rename_i hk
      rcases hk with rfl | hk
      · exact hpi
      · have := (hc k i hk).2.2
        rw [hpi] at this; simp at this
    · rfl
  | some j =>
    have hpi : partner m i = some j := by simp [partner, ho, hp]
    obtain ⟨_, hj, hji⟩ := hc i j hpi
    obtain ⟨m1, a1, a2, a3, a4⟩ := setPartner_ok hj none
    obtain ⟨m2, b1, b2, b3, b4⟩ := setPartner_ok (m := m1) (i := i) (by rw [a3]; exact h) none
    refine ⟨m2, by simp [unpair, ho, hp, a1, b1], ?_, fun k => by rw [b3, a3], fun k => by rw [b4, a4]⟩
    intro k
    rw [b2, a2]
    unfold unlink
    by_cases hk : k = i
    · simp [hk]
    · by_cases hkj : k = j
      · subst hkj; simp [hji]
      · simp only [hk, hkj, if_false, false_or]
        split
        · rename_i hki
          have := (hc k i hki).2.2
          rw [hpi] at this
          simp at this; exact absurd this.symm hkj
        · rfl

theorem consistent_unlink {f : Nat → Option Nat} {i : Nat} (h : ∀ a b, f a = some b → f b = some a) :
    ∀ a b, unlink f i a = some b → f a = some b ∧ unlink f i b = some a := by
  intro a b hab
  unfold unlink at *
  split at hab
  · simp at hab
  · rename_i hn
    simp only [not_or] at hn
    refine ⟨hab, ?_⟩
    have hba := h a b hab
    rw [if_neg, hba]
    rintro (rfl | hb)
    · exact hn.2 hab
    · rw [hba] at hb; simp at hb; exact hn.1 hb

theorem Consistent.of_unlink {m m' : Mem} (hc : Consistent m) {i : Nat} (h1 : ∀ k, partner m' k = unlink (partner m) i k)
    (h2 : ∀ k, (m' k).isSome = (m k).isSome) : Consistent m' := by
  intro a b hab
  rw [h1] at hab
  obtain ⟨x, y⟩ := consistent_unlink (fun a b h => (hc a b h).2.2) a b hab
  exact ⟨by rw [h2]; exact (hc a b x).1, by rw [h2]; exact (hc a b x).2.1, by rw [h1]; exact y⟩

theorem pair_ok {m : Mem} (hc : Consistent m) {i j : Nat} (hi : (m i).isSome) (hj : (m j).isSome) :
    ∃ m', pair m i j = some m' ∧ (∀ k, partner m' k = link (partner m) i j k) ∧
      (∀ k, (m' k).isSome = (m k).isSome) ∧ (∀ k, mine m' k = mine m k) ∧ Consistent m' := by
  obtain ⟨m1, a1, a2, a3, a4⟩ := unpair_ok hc hi
  have c1 := hc.of_unlink a2 a3
  obtain ⟨m2, b1, b2, b3, b4⟩ := unpair_ok c1 (i := j) (by rw [a3]; exact hj)
  have c2 := c1.of_unlink b2 b3
  obtain ⟨m3, d1, d2, d3, d4⟩ := setPartner_ok (m := m2) (i := i) (by rw [b3, a3]; exact hi) (some j)
  obtain ⟨m4, e1, e2, e3, e4⟩ := setPartner_ok (m := m3) (i := j) (by rw [d3, b3, a3]; exact hj) (some i)
  have hl : ∀ k, (m4 k).isSome = (m k).isSome := fun k => by rw [e3, d3, b3, a3]
  have hp : ∀ k, partner m4 k = link (partner m) i j k := by
    intro k
    rw [e2, d2, b2]
    unfold link
    have : (partner m1) = unlink (partner m) i := funext a2
    rw [this]
    by_cases hki : k = i <;> by_cases hkj : k = j <;> simp_all
  refine ⟨m4, by simp [pair, a1, b1, d1, e1], hp, hl, fun k => by rw [e4, d4, b4, a4], ?_⟩
  intro a b hab
  rw [e2, d2] at hab
  split at hab
  · rename_i h; subst h; simp at hab; subst hab
    refine ⟨by rw [hl]; exact hj, by rw [hl]; exact hi, ?_⟩
    rw [e2, d2]; by_cases hij : i = a <;> simp [hij]
  · rename_i haj
    split at hab
    · rename_i h; subst h; simp at hab; subst hab
      refine ⟨by rw [hl]; exact hi, by rw [hl]; exact hj, ?_⟩
      rw [e2]; simp
    · rename_i hai
      obtain ⟨x, y, z⟩ := c2 a b hab
      refine ⟨by rw [hl]; rw [b3, a3] at x; exact x, by rw [hl]; rw [b3, a3] at y; exact y, ?_⟩
      rw [e2, d2]
      have hbj : b ≠ j := by
        rintro rfl
        rw [b2] at z
        simp [unlink] at z
      have hbi : b ≠ i := by
        rintro rfl
        have : partner m1 b = none := by rw [a2]; simp [unlink]
        rw [b2] at z
        simp [unlink, this] at z
      simp [hbj, hbi, z]

theorem moveAssign_ok {m : Mem} (hc : Consistent m) {i j : Nat} (hi : (m i).isSome) (hj : (m j).isSome) :
    ∃ m', moveAssign m i j = some m' ∧
      (∀ k, partner m' k = match unlink (partner m) i j with
        | none => unlink (partner m) i k
        | some p => link (unlink (partner m) i) i p k) ∧
      (∀ k, (m' k).isSome = (m k).isSome) ∧ (∀ k, mine m' k = if k = i then mine m j else mine m k) ∧ Consistent m' := by
  obtain ⟨m1, a1, a2, a3, a4⟩ := unpair_ok hc hi
  have c1 := hc.of_unlink a2 a3
  obtain ⟨o, ho⟩ := Option.isSome_iff_exists.1 (show (m1 j).isSome by rw [a3]; exact hj)
  obtain ⟨m2, b1, b2, b3, b4⟩ := setMine_ok (m := m1) (i := i) (by rw [a3]; exact hi) o.mine
  have c2 : Consistent m2 := by
    intro a b hab
    rw [b2] at hab
    obtain ⟨x, y, z⟩ := c1 a b hab
    exact ⟨by rw [b3]; exact x, by rw [b3]; exact y, by rw [b2]; exact z⟩
  have hmine : some o.mine = mine m j := by rw [← a4]; simp [mine, ho]
  obtain ⟨o', ho'⟩ := Option.isSome_iff_exists.1 (show (m2 j).isSome by rw [b3, a3]; exact hj)
  have hpo : o'.partner = unlink (partner m) i j := by
    rw [← a2, ← b2]; simp [partner, ho']
  have hf : partner m2 = unlink (partner m) i := funext fun k => by rw [b2, a2]
  cases hp : o'.partner with
  | none =>
    refine ⟨m2, by simp [moveAssign, a1, ho, b1, ho', hp], ?_, fun k => by rw [b3, a3], ?_, c2⟩
    · intro k
      rw [← hpo, hp, hf]
    · intro k; rw [b4, a4, hmine]
  | some p =>
    have : partner m2 j = some p := by simp [partner, ho', hp]
    obtain ⟨m3, d1, d2, d3, d4, d5⟩ := pair_ok c2 (i := i) (j := p) (by rw [b3, a3]; exact hi) (c2 j p this).2.1
    refine ⟨m3, by simp [moveAssign, a1, ho, b1, ho', hp, d1], ?_, fun k => by rw [d3, b3, a3], ?_, d5⟩
    · intro k
      rw [← hpo, hp]
      simp only
      rw [d2, hf]
    · intro k; rw [d4, b4, a4, hmine]

theorem construct_ok {m : Mem} (hc : Consistent m) {i : Nat} (h : m i = none) (d : Nat) :
    (∀ k, partner (construct m i d) k = partner m k) ∧ (∀ k, (construct m i d k).isSome = (decide (k = i) || (m k).isSome)) ∧
      Consistent (construct m i d) := by
  have h1 : ∀ k, partner (construct m i d) k = partner m k := by
    intro k; by_cases hk : k = i <;> simp [partner, construct, hk, h]
  have h2 : ∀ k, (construct m i d k).isSome = (decide (k = i) || (m k).isSome) := by
    intro k; by_cases hk : k = i <;> simp [construct, hk]
  refine ⟨h1, h2, ?_⟩
  intro a b hab
  rw [h1] at hab
  obtain ⟨x, y, z⟩ := hc a b hab
  exact ⟨by rw [h2]; simp [x], by rw [h2]; simp [y], by rw [h1]; exact z⟩

theorem destroy_ok {m : Mem} (hc : Consistent m) {i : Nat} (h : (m i).isSome) :
    ∃ m', destroy m i = some m' ∧ (∀ k, partner m' k = unlink (partner m) i k) ∧
      (∀ k, (m' k).isSome = (decide (k ≠ i) && (m k).isSome)) ∧ (∀ k, k ≠ i → mine m' k = mine m k) ∧ Consistent m' := by
  obtain ⟨m1, a1, a2, a3, a4⟩ := unpair_ok hc h
  have c1 := hc.of_unlink a2 a3
  have h1 : ∀ k, partner (fun k => if k = i then none else m1 k) k = unlink (partner m) i k := by
    intro k
    rw [← a2]
    by_cases hk : k = i
    · subst hk
      have : partner m1 k = none := by rw [a2]; simp [unlink]
      rw [this]; simp [partner]
    · simp [partner, hk]
  have h2 : ∀ k, ((fun k => if k = i then none else m1 k) k : Option Obj).isSome = (decide (k ≠ i) && (m k).isSome) := by
    intro k; by_cases hk : k = i
    · simp [hk]
    · simp [hk, a3]
  refine ⟨_, by simp only [destroy, a1], h1, h2, ?_, ?_⟩
  · intro k hk; rw [← a4]; simp [mine, hk]
  · intro a b hab
    rw [h1] at hab
    rw [← a2] at hab
    obtain ⟨x, y, z⟩ := c1 a b hab
    have ha : a ≠ i := by rintro rfl; rw [a2] at hab; simp [unlink] at hab
    have hb : b ≠ i := by rintro rfl; rw [a2] at z; simp [unlink] at z
    refine ⟨by simpa [ha] using x, by simpa [hb] using y, ?_⟩
    rw [h1, ← a2]; exact z

theorem step_ok {m : Mem} (hc : Consistent m) (op : Op) (hl : Legal m op) : ∃ m', step m op = some m' ∧ Consistent m' := by
  cases op with
  | construct i d => exact ⟨_, rfl, (construct_ok hc hl d).2.2⟩
  | destroy i => obtain ⟨m', a, _, _, _, c⟩ := destroy_ok hc hl; exact ⟨m', a, c⟩
  | pair i j => obtain ⟨m', a, _, _, _, c⟩ := pair_ok hc hl.1 hl.2; exact ⟨m', a, c⟩
  | unpair i => obtain ⟨m', a, b, c, _⟩ := unpair_ok hc hl; exact ⟨m', a, hc.of_unlink b c⟩
  | moveAssign i j => obtain ⟨m', a, _, _, _, c⟩ := moveAssign_ok hc hl.1 hl.2; exact ⟨m', a, c⟩
  | moveConstruct i j =>
    obtain ⟨_, h2, h3⟩ := construct_ok hc hl.1 0
    obtain ⟨m', a, _, _, _, c⟩ := moveAssign_ok h3 (i := i) (j := j) (by rw [h2]; simp) (by rw [h2]; simp [hl.2])
    exact ⟨m', a, c⟩

/-! ## Properties -/

/-- C15: after every history, whoever is paired has a live partner that points back; in particular two objects never share a
partner. -/
theorem mutual_consistent {m : Mem} (h : Reachable m) :
    Consistent m ∧ ∀ i j k, partner m i = some k → partner m j = some k → i = j := by
  have hc : Consistent m := by
    induction h with
    | empty => intro i j hij; simp [partner] at hij
    | step op _ hl hs ih =>
      obtain ⟨m', a, c⟩ := step_ok ih op hl
      rw [hs] at a; simp at a; subst a; exact c
  refine ⟨hc, fun i j k hi hj => ?_⟩
  have a := (hc i k hi).2.2
  have b := (hc j k hj).2.2
  rw [a] at b; simpa using b

/-- C15: no legal operation ever touches a dead object. -/
theorem never_dangling {m : Mem} (h : Reachable m) (op : Op) (hl : Legal m op) : ∃ m', step m op = some m' ∧ Reachable m' := by
  obtain ⟨m', a, _⟩ := step_ok (mutual_consistent h).1 op hl
  exact ⟨m', a, .step op h hl a⟩

/-- C15: `get` is never undefined, and returns the partner's data exactly if there is a partner. -/
theorem get_exact {m : Mem} (h : Reachable m) {i : Nat} (hi : (m i).isSome) :
    get m i = some ((partner m i).bind (mine m)) := by
  obtain ⟨o, ho⟩ := Option.isSome_iff_exists.1 hi
  cases hp : o.partner with
  | none => simp [get, ho, hp, partner]
  | some j =>
    have hpi : partner m i = some j := by simp [partner, ho, hp]
    obtain ⟨o', ho'⟩ := Option.isSome_iff_exists.1 ((mutual_consistent h).1 i j hpi).2.1
    simp [get, ho, hp, ho', partner, mine]

/-- C15, exact effect of `i.pair(j)`: `i` and `j` are matched with each other, their former partners are free, and every
other pair is as before. -/
theorem pair_exact {m m' : Mem} (h : Reachable m) {i j : Nat} (hl : Legal m (.pair i j)) (hs : step m (.pair i j) = some m') :
    partner m' i = some j ∧ partner m' j = some i ∧
    (∀ k, k ≠ i → k ≠ j → (partner m k = some i ∨ partner m k = some j) → partner m' k = none) ∧
    (∀ k, k ≠ i → k ≠ j → partner m k ≠ some i → partner m k ≠ some j → partner m' k = partner m k) ∧
    (∀ k, mine m' k = mine m k) := by
  obtain ⟨m1, a, b, _, c, _⟩ := pair_ok (mutual_consistent h).1 hl.1 hl.2
  simp only [step] at hs
  rw [hs] at a; simp at a; subst a
  refine ⟨?_, ?_, ?_, ?_, c⟩
  · rw [b]; simp [link]
  · rw [b]; by_cases hij : j = i <;> simp [link, hij]
  · intro k h1 h2 h3
    rw [b]
    rcases h3 with h3 | h3 <;> simp [link, unlink, h1, h2, h3]
  · intro k h1 h2 h3 h4
    rw [b]; simp [link, unlink, h1, h2, h3, h4]

/-- C15, exact effect of `i.unpair()` (and of destroying `i`): `i` and its partner become free, every other pair is as
before. -/
theorem unpair_exact {m m' : Mem} (h : Reachable m) {i : Nat} (hl : (m i).isSome)
    (hs : step m (.unpair i) = some m' ∨ step m (.destroy i) = some m') :
    partner m' i = none ∧ (∀ k, partner m k = some i → partner m' k = none) ∧
    ∀ k, k ≠ i → partner m k ≠ some i → partner m' k = partner m k := by
  have key : ∀ k, partner m' k = unlink (partner m) i k := by
    rcases hs with hs | hs
    · obtain ⟨m1, a, b, _⟩ := unpair_ok (mutual_consistent h).1 hl
      simp only [step] at hs; rw [hs] at a; simp at a; subst a; exact b
    · obtain ⟨m1, a, b, _⟩ := destroy_ok (mutual_consistent h).1 hl
      simp only [step] at hs; rw [hs] at a; simp at a; subst a; exact b
  refine ⟨by rw [key]; simp [unlink], fun k hk => by rw [key]; simp [unlink, hk], fun k h1 h2 => by rw [key]; simp [unlink, h1, h2]⟩

/-- C15, exact effect of `i = std::move(j)` for different objects that are not each other's partner: `i` takes over `j`'s
data and partner, `j` is left unpaired, `i`'s former partner is free, every other pair is as before. -/
theorem move_exact {m m' : Mem} (h : Reachable m) {i j : Nat} (hl : Legal m (.moveAssign i j)) (hij : i ≠ j)
    (hp : partner m j ≠ some i) (hjj : partner m j ≠ some j) (hs : step m (.moveAssign i j) = some m') :
    mine m' i = mine m j ∧ partner m' i = partner m j ∧ partner m' j = none ∧
    (∀ p, partner m j = some p → partner m' p = some i) ∧
    (∀ k, k ≠ i → partner m k = some i → partner m' k = none) ∧
    (∀ k, k ≠ i → k ≠ j → partner m k ≠ some i → partner m k ≠ some j → partner m' k = partner m k) := by
  have hc := (mutual_consistent h).1
  obtain ⟨m1, a, b, _, c, _⟩ := moveAssign_ok hc hl.1 hl.2
  simp only [step] at hs
  rw [hs] at a; simp at a; subst a
  have hji : ¬ j = i := fun e => hij e.symm
  have hu : unlink (partner m) i j = partner m j := by simp [unlink, hji, hp]
  rw [hu] at b
  refine ⟨by rw [c]; simp, ?_⟩
  cases hpj : partner m j with
  | none =>
    simp only [hpj] at b
    refine ⟨by rw [b]; simp [unlink], by rw [b]; simp [unlink, hpj], by simp, ?_, ?_⟩
    · intro k _ hk; rw [b]; simp [unlink, hk]
    · intro k h1 h2 h3 h4; rw [b]; simp [unlink, h1, h3]
  | some p =>
    simp only [hpj] at b
    have hpi : p ≠ i := by rintro rfl; exact hp hpj
    have hpj' : p ≠ j := by rintro rfl; exact hjj hpj
    have hback := (hc j p hpj).2.2
    refine ⟨by rw [b]; simp [link], ?_, ?_, ?_, ?_⟩
    · rw [b]; simp [link, hji, hpj'.symm, unlink, hpj, hpi]
    · intro p' hp'; simp at hp'; subst hp'; rw [b]; simp [link, hpi]
    · intro k h1 h2
      have hkp : k ≠ p := by rintro rfl; rw [hback] at h2; simp at h2; exact hji h2
      rw [b]; simp [link, unlink, h1, hkp, h2]
    · intro k h1 h2 h3 h4
      have hkp : k ≠ p := by rintro rfl; exact h4 hback
      have hkp' : partner m k ≠ some p := by
        intro e
        have := (mutual_consistent h).2 k j p e hpj
        exact h2 this
      rw [b]; simp [link, unlink, h1, hkp, h3, hkp']

/-- Self move-assignment is safe but drops the pairing. -/
theorem self_move {m m' : Mem} (h : Reachable m) {i : Nat} (hl : (m i).isSome) (hs : step m (.moveAssign i i) = some m') :
    partner m' i = none := by
  obtain ⟨m1, a, b, _⟩ := moveAssign_ok (mutual_consistent h).1 hl hl
  simp only [step] at hs
  rw [hs] at a; simp at a; subst a
  rw [b]; simp [unlink]

/-- A history that re-pairs, moves and destroys: 0-1 paired, 2-1 paired (0 free), 3 takes over 2's pairing, 1 destroyed. -/
example : ∃ m, Reachable m ∧ partner m 3 = none ∧ mine m 3 = some 12 ∧ m 1 = none ∧ (m 0).isSome := by
  refine ⟨_, .step (.destroy 1) (.step (.moveConstruct 3 2) (.step (.pair 2 1) (.step (.pair 0 1)
    (.step (.construct 2 12) (.step (.construct 1 11) (.step (.construct 0 10) .empty rfl rfl) rfl rfl) rfl rfl)
    ⟨rfl, rfl⟩ rfl) ⟨rfl, rfl⟩ rfl) ⟨rfl, rfl⟩ rfl) rfl rfl, rfl, rfl, rfl, rfl⟩

end Hexed.MutualPtr
