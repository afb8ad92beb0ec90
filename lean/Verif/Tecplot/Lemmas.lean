import Mathlib.Tactic.Ring
import Mathlib.Tactic.Linarith
import Verif.Tecplot.Spec
set_option autoImplicit false
set_option linter.unusedVariables false

namespace Hexed.Tecplot

variable {α : Type}

theorem slice_of_le {a : List α} {s n : Nat} (h : s + n ≤ a.length) : slice a s n = some ((a.drop s).take n) := by
  simp [slice, h]

theorem take_drop_length {a : List α} {s n : Nat} (h : s + n ≤ a.length) : ((a.drop s).take n).length = n := by
  simp; omega

theorem take_drop_get {a : List α} {s n i : Nat} (h : i < n) : ((a.drop s).take n)[i]? = a[s + i]? := by
  rw [List.getElem?_take_of_lt h, List.getElem?_drop]

theorem mul_step {k m n : Nat} (h : k < m) : k*n + n ≤ m*n := by
  have := Nat.mul_le_mul_right n (show k + 1 ≤ m from h)
  linarith [Nat.succ_mul k n]

theorem writeVars_eq (n first : Nat) (a : List α) (z : Zone α) : ∀ k, k*n ≤ a.length →
    writeVars n first a k z = some {z with data := fun w =>
      if first < w ∧ w ≤ first + k then z.data w ++ (a.drop ((w - first - 1)*n)).take n else z.data w} := by
  intro k
  induction k with
  | zero =>
    intro _
    have : (fun w => if first < w ∧ w ≤ first + 0 then z.data w ++ (a.drop ((w - first - 1)*n)).take n else z.data w) = z.data := by
      funext w
      rw [if_neg (by omega)]
    rw [this]
    rfl
  | succ k ih =>
    intro h
    have hk : k*n + n ≤ a.length := le_trans (mul_step (Nat.lt_succ_self k)) h
    simp only [writeVars, ih (by omega), slice_of_le hk, Option.bind_eq_bind, Option.bind_some, Zone.append]
    congr 2
    funext w
    by_cases hw : w = first + k + 1
    · subst hw
      have e : first + k + 1 - first - 1 = k := by omega
      rw [if_pos rfl, if_neg (by omega), if_pos (by omega), e]
    · rw [if_neg hw]
      by_cases h2 : first < w ∧ w ≤ first + k
      · rw [if_pos h2, if_pos (by omega)]
      · rw [if_neg h2, if_neg (by omega)]

/-- What one call of `write` adds to a variable. -/
def added (nDim nVar n : Nat) (pos vars : List α) (w : Nat) : List α :=
  if 0 < w ∧ w ≤ nDim then (pos.drop ((w - 1)*n)).take n
  else if nDim < w ∧ w ≤ nDim + nVar then (vars.drop ((w - nDim - 1)*n)).take n
  else []

theorem writeZone_eq (f : File α) (n : Nat) (pos vars : List α) (z : Zone α)
    (hp : f.nDim*n ≤ pos.length) (hv : f.nVar*n ≤ vars.length) :
    writeZone f n pos vars z = some {z with data := fun w => z.data w ++ added f.nDim f.nVar n pos vars w} := by
  simp only [writeZone, writeVars_eq n 0 pos z f.nDim hp, Option.bind_eq_bind, Option.bind_some,
    writeVars_eq n f.nDim vars _ f.nVar hv]
  congr 2
  funext w
  simp only [added, Nat.sub_zero, Nat.zero_add]
  by_cases h1 : 0 < w ∧ w ≤ f.nDim
  · rw [if_neg (by omega), if_pos h1, if_pos h1]
  · rw [if_neg h1, if_neg h1]
    by_cases h2 : f.nDim < w ∧ w ≤ f.nDim + f.nVar
    · rw [if_pos h2, if_pos h2]
    · rw [if_neg h2, if_neg h2, List.append_nil]

theorem added_coord {nDim nVar n : Nat} {pos vars : List α} {d : Nat} (h : d < nDim) :
    added nDim nVar n pos vars (d + 1) = (pos.drop (d*n)).take n := by
  simp only [added]
  rw [if_pos (by omega), Nat.add_sub_cancel]

theorem added_var {nDim nVar n : Nat} {pos vars : List α} {v : Nat} (h : v < nVar) :
    added nDim nVar n pos vars (nDim + v + 1) = (vars.drop (v*n)).take n := by
  simp only [added]
  rw [if_neg (by omega), if_pos (by omega)]
  have : nDim + v + 1 - nDim - 1 = v := by omega
  rw [this]

theorem added_length {nDim nVar n : Nat} {pos vars : List α} (hp : nDim*n ≤ pos.length) (hv : nVar*n ≤ vars.length)
    {w : Nat} (h1 : 1 ≤ w) (h2 : w ≤ nDim + nVar) : (added nDim nVar n pos vars w).length = n := by
  rcases Nat.lt_or_ge nDim w with h | h
  · obtain ⟨v, rfl⟩ : ∃ v, w = nDim + v + 1 := ⟨w - nDim - 1, by omega⟩
    have hlt : v < nVar := by omega
    rw [added_var hlt]
    exact take_drop_length (le_trans (mul_step hlt) hv)
  · obtain ⟨d, rfl⟩ : ∃ d, w = d + 1 := ⟨w - 1, by omega⟩
    rw [added_coord (by omega)]
    exact take_drop_length (le_trans (mul_step (by omega)) hp)

theorem added_nil {nDim nVar n : Nat} {pos vars : List α} {w : Nat} (h : w = 0 ∨ nDim + nVar < w) :
    added nDim nVar n pos vars w = [] := by
  simp only [added]
  rw [if_neg (by omega), if_neg (by omega)]

theorem grid_nodes {row dim : Nat} (h1 : 1 ≤ dim) (h3 : dim ≤ 3) : (gridOf row dim).nodes = row^dim := by
  obtain rfl | rfl | rfl : dim = 1 ∨ dim = 2 ∨ dim = 3 := by omega
  · simp [gridOf, Shape.nodes]
  · simp [gridOf, Shape.nodes]; ring
  · simp [gridOf, Shape.nodes]; ring

theorem grid_entries {row dim : Nat} : (gridOf row dim).entries = 0 := by
  unfold gridOf
  split <;> rfl

theorem grid_eq {row dim : Nat} (h1 : 1 ≤ dim) (h3 : dim ≤ 3) :
    Shape.ordered row (if 2 ≤ dim then row else 1) (if 3 ≤ dim then row else 1) = gridOf row dim := by
  obtain rfl | rfl | rfl : dim = 1 ∨ dim = 2 ∨ dim = 3 := by omega
  all_goals simp [gridOf]

theorem writeBlock_shows (f : File α) (b : Nat × List α × List α) (h1 : 1 ≤ f.nDimTopo) (h3 : f.nDimTopo ≤ 3)
    (hs : f.strandId = f.iZone + 1)
    (hp : f.nDim*b.1^f.nDimTopo ≤ b.2.1.length) (hv : f.nVar*b.1^f.nDimTopo ≤ b.2.2.length) :
    ∃ z, writeBlock f b.1 b.2.1 b.2.2 = some {f with iZone := f.iZone + 1, strandId := f.strandId + 1, zones := f.zones ++ [z]} ∧
      ShowsBlock f.nDim f.nVar f.nDimTopo f.time f.iZone b z := by
  have h0 : f.nDimTopo ≠ 0 := by omega
  refine ⟨{ name := "block".toList ++ (toString f.iZone).toList, shape := gridOf b.1 f.nDimTopo,
            data := fun w => [] ++ added f.nDim f.nVar (b.1^f.nDimTopo) b.2.1 b.2.2 w, map := [],
            time := some f.time, strand := f.strandId }, ?_, ?_⟩
  · simp only [writeBlock, structured, openZone, if_pos h0]
    rw [writeZone_eq {f with iZone := f.iZone + 1, strandId := f.strandId + 1} _ _ _ _ hp hv]
    simp only [Option.bind_eq_bind, Option.bind_some, closeZone, grid_eq h1 h3]
  · refine ⟨⟨?_, ?_, ?_, ?_, rfl⟩, rfl, ?_, ?_, rfl, hs, rfl⟩
    · intro v hv1 hv2
      simp only [List.nil_append]
      rw [added_length hp hv hv1 hv2]
      exact (grid_nodes h1 h3).symm
    · intro v hv'
      simp only [List.nil_append]
      exact added_nil hv'
    · exact grid_entries.symm
    · intro i hi
      cases hi
    · intro d hd i hi
      simp only [List.nil_append]
      rw [added_coord hd, take_drop_get hi]
    · intro v hv' i hi
      simp only [List.nil_append]
      rw [added_var hv', take_drop_get hi]

theorem writeBlocks_shows : ∀ (bs : List (Nat × List α × List α)) (f : File α), 1 ≤ f.nDimTopo → f.nDimTopo ≤ 3 →
    f.strandId = f.iZone + 1 →
    (∀ b ∈ bs, f.nDim*b.1^f.nDimTopo ≤ b.2.1.length ∧ f.nVar*b.1^f.nDimTopo ≤ b.2.2.length) →
    ∃ f' zs, writeBlocks bs f = some f' ∧ f'.zones = f.zones ++ zs ∧ zs.length = bs.length ∧
      f'.names = f.names ∧ f'.aux = f.aux ∧
      ∀ i b z, bs[i]? = some b → zs[i]? = some z →
        ShowsBlock f.nDim f.nVar f.nDimTopo f.time (f.iZone + i) b z := by
  intro bs
  induction bs with
  | nil =>
    intro f _ _ _ _
    exact ⟨f, [], rfl, by simp, rfl, rfl, rfl, by intro i b z h; simp at h⟩
  | cons b bs ih =>
    intro f h1 h3 hs hl
    obtain ⟨z, he, hz⟩ := writeBlock_shows f b h1 h3 hs (hl b (by simp)).1 (hl b (by simp)).2
    obtain ⟨f', zs, he', hzs, hlen, hn, ha, hsh⟩ := ih {f with iZone := f.iZone + 1, strandId := f.strandId + 1, zones := f.zones ++ [z]}
      h1 h3 (by simp only [hs]) (fun b' hb' => hl b' (by simp [hb']))
    refine ⟨f', z :: zs, ?_, ?_, ?_, hn, ha, ?_⟩
    · simp only [writeBlocks, he, Option.bind_eq_bind, Option.bind_some]
      exact he'
    · rw [hzs]; simp
    · simp [hlen]
    · intro i b' z' hb' hz'
      cases i with
      | zero =>
        simp only [List.getElem?_cons_zero, Option.some.injEq] at hb' hz'
        subst hb'; subst hz'
        exact hz
      | succ i =>
        simp only [List.getElem?_cons_succ] at hb' hz'
        have := hsh i b' z' hb' hz'
        simp only [Nat.add_assoc, Nat.add_comm 1 i] at this
        exact this

/-- Numbers of lists of the same length that are joined. -/
theorem flatMap_get {β γ : Type} (g : β → List γ) (k : Nat) : ∀ (l : List β), (∀ x ∈ l, (g x).length = k) →
    ∀ t c x, c < k → l[t]? = some x → (l.flatMap g)[k*t + c]? = (g x)[c]? := by
  intro l
  induction l with
  | nil => intro _ t c x _ h; simp at h
  | cons y l ih =>
    intro hk t c x hc hx
    have hy : (g y).length = k := hk y (by simp)
    cases t with
    | zero =>
      simp only [List.getElem?_cons_zero, Option.some.injEq] at hx
      subst hx
      rw [List.flatMap_cons, List.getElem?_append_left (by omega)]
      simp
    | succ t =>
      simp only [List.getElem?_cons_succ] at hx
      rw [List.flatMap_cons, List.getElem?_append_right (by rw [hy, Nat.mul_succ]; omega), hy,
        ← ih (fun x h => hk x (by simp [h])) t c x hc hx]
      congr 1
      rw [Nat.mul_succ]
      omega

theorem flatMap_length {β γ : Type} (g : β → List γ) (k : Nat) : ∀ (l : List β), (∀ x ∈ l, (g x).length = k) →
    (l.flatMap g).length = k*l.length := by
  intro l
  induction l with
  | nil => intro _; simp
  | cons y l ih =>
    intro hk
    rw [List.flatMap_cons, List.length_append, hk y (by simp), ih (fun x h => hk x (by simp [h])), List.length_cons, Nat.mul_succ]
    omega

theorem writeEach_eq (f : File α) : ∀ (calls : List (List α × List α)) (z : Zone α),
    (∀ c ∈ calls, f.nDim*3 ≤ c.1.length ∧ f.nVar*3 ≤ c.2.length) →
    writeEach f calls z = some {z with data := fun w => z.data w ++ calls.flatMap fun c => added f.nDim f.nVar 3 c.1 c.2 w} := by
  intro calls
  induction calls with
  | nil =>
    intro z _
    simp [writeEach]
  | cons c cs ih =>
    intro z h
    simp only [writeEach, writeZone_eq f 3 c.1 c.2 z (h c (by simp)).1 (h c (by simp)).2, Option.bind_eq_bind, Option.bind_some]
    rw [ih _ (fun c' h' => h c' (by simp [h']))]
    congr 2
    funext w
    simp

/-! The storage of line segments. -/

/-- The place of a value in the storage. -/
def place (nSegs row d s i : Nat) : Nat := (nSegs*d + s)*row + i

theorem place_inj {nSegs row d s i d' s' i' : Nat} (hi : i < row) (hi' : i' < row) (hs : s < nSegs) (hs' : s' < nSegs)
    (h : place nSegs row d s i = place nSegs row d' s' i') : d = d' ∧ s = s' ∧ i = i' := by
  unfold place at h
  have hr : 0 < row := by omega
  have hn : 0 < nSegs := by omega
  have e1 : i = i' := by
    have := congrArg (· % row) h
    simpa [Nat.mul_add_mod', Nat.mod_eq_of_lt hi, Nat.mod_eq_of_lt hi'] using this
  have e2 : nSegs*d + s = nSegs*d' + s' := by
    subst e1
    exact Nat.eq_of_mul_eq_mul_right hr (Nat.add_right_cancel h)
  have e3 : s = s' := by
    have := congrArg (· % nSegs) e2
    simpa [Nat.mul_add_mod, Nat.mod_eq_of_lt hs, Nat.mod_eq_of_lt hs'] using this
  have e4 : d = d' := by
    subst e3
    exact Nat.eq_of_mul_eq_mul_left hn (Nat.add_right_cancel e2)
  exact ⟨e4, e3, e1⟩

theorem place_lt {nSegs row d s i nv : Nat} (hi : i < row) (hs : s < nSegs) (hd : d < nv) :
    place nSegs row d s i < nv*(row*nSegs) := by
  unfold place
  have h1 : nSegs*d + s + 1 ≤ nSegs*nv := by
    have := Nat.mul_le_mul_left nSegs (show d + 1 ≤ nv from hd)
    rw [Nat.mul_succ] at this
    omega
  have h2 := Nat.mul_le_mul_right row h1
  have h3 : (nSegs*d + s + 1)*row = (nSegs*d + s)*row + row := Nat.succ_mul _ _
  have h4 : nSegs*nv*row = nv*(row*nSegs) := by ring
  omega

theorem array_lt {row nv d i : Nat} (hi : i < row) (hd : d < nv) : d*row + i < nv*row := by
  have := mul_step (n := row) hd
  omega

theorem storeVars_spec {nSegs row iSeg i nv : Nat} {a : List α} (hi : i < row) (hs : iSeg < nSegs) (ha : nv*row ≤ a.length)
    (st : Nat → α) : ∀ k ≤ nv, ∃ st', storeVars (nv*(row*nSegs)) nSegs row iSeg i a k st = some st' ∧
      (∀ d < k, a[d*row + i]? = some (st' (place nSegs row d iSeg i))) ∧
      (∀ m, (∀ d < k, m ≠ place nSegs row d iSeg i) → st' m = st m) := by
  intro k
  induction k with
  | zero => intro _; exact ⟨st, rfl, by intro d h; omega, fun _ _ => rfl⟩
  | succ k ih =>
    intro hk
    obtain ⟨st1, he, hit, miss⟩ := ih (by omega)
    have hlt : k*row + i < a.length := lt_of_lt_of_le (array_lt hi (show k < nv by omega)) ha
    have hpl : (nSegs*k + iSeg)*row + i < nv*(row*nSegs) := place_lt (nSegs := nSegs) hi hs (show k < nv by omega)
    refine ⟨fun m => if m = place nSegs row k iSeg i then a[k*row + i] else st1 m, ?_, ?_, ?_⟩
    · simp only [storeVars, he, Option.bind_eq_bind, Option.bind_some, List.getElem?_eq_getElem hlt, if_pos hpl, place]
      rfl
    · intro d hd
      beta_reduce
      by_cases hdk : d = k
      · subst hdk
        rw [if_pos rfl, List.getElem?_eq_getElem hlt]
      · rw [if_neg (fun h => hdk (place_inj hi hi hs hs h).1)]
        exact hit d (by omega)
    · intro m hm
      simp only
      rw [if_neg (hm k (by omega))]
      exact miss m (fun d hd => hm d (by omega))

theorem storeNodes_spec {nSegs row iSeg nv : Nat} {a : List α} (hs : iSeg < nSegs) (ha : nv*row ≤ a.length)
    (st : Nat → α) : ∀ k ≤ row, ∃ st', storeNodes (nv*(row*nSegs)) nSegs row iSeg nv a k st = some st' ∧
      (∀ i < k, ∀ d < nv, a[d*row + i]? = some (st' (place nSegs row d iSeg i))) ∧
      (∀ m, (∀ i < k, ∀ d < nv, m ≠ place nSegs row d iSeg i) → st' m = st m) := by
  intro k
  induction k with
  | zero => intro _; exact ⟨st, rfl, by intro i h; omega, fun _ _ => rfl⟩
  | succ k ih =>
    intro hk
    obtain ⟨st1, he, hit, miss⟩ := ih (by omega)
    obtain ⟨st2, he2, hit2, miss2⟩ := storeVars_spec (show k < row by omega) hs ha st1 nv (le_refl _)
    refine ⟨st2, ?_, ?_, ?_⟩
    · simp only [storeNodes, he, Option.bind_eq_bind, Option.bind_some, he2]
    · intro i hi d hd
      by_cases hik : i = k
      · subst hik; exact hit2 d hd
      · rw [miss2 _ (fun d' _ h => hik (place_inj (by omega) (by omega) hs hs h).2.2)]
        exact hit i (by omega) d hd
    · intro m hm
      rw [miss2 m (fun d hd => hm k (by omega) d hd)]
      exact miss m (fun i hi d hd => hm i (by omega) d hd)

theorem storeSegs_spec {nSegs row nv : Nat} : ∀ (as : List (List α)) (iSeg : Nat) (st : Nat → α),
    iSeg + as.length ≤ nSegs → (∀ a ∈ as, nv*row ≤ a.length) →
    ∃ st', storeSegs (nv*(row*nSegs)) nSegs row nv as iSeg st = some st' ∧
      (∀ s a, as[s]? = some a → ∀ i < row, ∀ d < nv, a[d*row + i]? = some (st' (place nSegs row d (iSeg + s) i))) ∧
      (∀ s < iSeg, ∀ i < row, ∀ d < nv, st' (place nSegs row d s i) = st (place nSegs row d s i)) := by
  intro as
  induction as with
  | nil => intro iSeg st _ _; exact ⟨st, rfl, by intro s a h; simp at h, fun _ _ _ _ _ _ => rfl⟩
  | cons a as ih =>
    intro iSeg st hl ha
    simp only [List.length_cons] at hl
    obtain ⟨st1, he, hit, miss⟩ := storeNodes_spec (show iSeg < nSegs by omega) (ha a (by simp)) st row (le_refl _)
    obtain ⟨st2, he2, hit2, miss2⟩ := ih (iSeg + 1) st1 (by omega) (fun a' h => ha a' (by simp [h]))
    refine ⟨st2, ?_, ?_, ?_⟩
    · simp only [storeSegs, he, Option.bind_eq_bind, Option.bind_some, he2]
    · intro s a' hs i hi d hd
      cases s with
      | zero =>
        simp only [List.getElem?_cons_zero, Option.some.injEq] at hs
        subst hs
        rw [Nat.add_zero, miss2 iSeg (by omega) i hi d hd]
        exact hit i hi d hd
      | succ s =>
        simp only [List.getElem?_cons_succ] at hs
        have := hit2 s a' hs i hi d hd
        rw [show iSeg + 1 + s = iSeg + (s + 1) by omega] at this
        exact this
    · intro s hs i hi d hd
      rw [miss2 s (by omega) i hi d hd]
      refine miss _ ?_
      intro i' hi' d' hd' h
      have := (place_inj hi hi' (by omega) (by omega) h).2.1
      omega

theorem lineMap_length (nSegs row : Nat) : (lineMap nSegs row).length = 2*(row - 1)*nSegs := by
  have inner : ∀ s ∈ List.range nSegs, ((List.range (row - 1)).flatMap fun e => [row*s + e, row*s + e + 1]).length = 2*(row - 1) := by
    intro s _
    rw [flatMap_length _ 2 _ (by intro x _; rfl)]
    simp
  rw [lineMap, flatMap_length _ _ _ inner]
  simp

theorem lineMap_get {nSegs row s e : Nat} (hs : s < nSegs) (he : e + 1 < row) :
    (lineMap nSegs row)[2*((row - 1)*s + e)]? = some (row*s + e) ∧
    (lineMap nSegs row)[2*((row - 1)*s + e) + 1]? = some (row*s + e + 1) := by
  have inner : ∀ s ∈ List.range nSegs, ((List.range (row - 1)).flatMap fun e => [row*s + e, row*s + e + 1]).length = 2*(row - 1) := by
    intro s _
    rw [flatMap_length _ 2 _ (by intro x _; rfl)]
    simp
  have key : ∀ c < 2, (lineMap nSegs row)[2*((row - 1)*s + e) + c]? = [row*s + e, row*s + e + 1][c]? := by
    intro c hc
    have e1 : 2*((row - 1)*s + e) + c = 2*(row - 1)*s + (2*e + c) := by
      rw [Nat.mul_add, Nat.mul_assoc]; omega
    rw [lineMap, e1, flatMap_get _ _ _ inner s (2*e + c) s (by omega) (by simp [hs]),
      flatMap_get _ 2 _ (by intro x _; rfl) e c e hc (List.getElem?_range (by omega))]
  exact ⟨by simpa using key 0 (by omega), by simpa using key 1 (by omega)⟩

theorem lineMap_lt {nSegs row m : Nat} (h : m ∈ lineMap nSegs row) : m < row*nSegs := by
  simp only [lineMap, List.mem_flatMap, List.mem_range, List.mem_cons, List.not_mem_nil, or_false] at h
  obtain ⟨s, hs, e, he, h⟩ := h
  have := Nat.mul_le_mul_left row (show s + 1 ≤ nSegs from hs)
  rw [Nat.mul_succ] at this
  omega

theorem split_flatMap : ∀ (l : List (List Char)), l ≠ [] → (∀ n ∈ l, ' ' ∉ n ∧ ',' ∉ n) →
    readNames ((l.flatMap fun n => ' ' :: n).drop 1) = l := by
  have good : ∀ n : List Char, ' ' ∉ n ∧ ',' ∉ n → ∀ c ∈ n, (c == ' ' || c == ',') = false := by
    intro n h c hc
    simp only [Bool.or_eq_false_iff, beq_eq_false_iff_ne]
    exact ⟨fun e => h.1 (e ▸ hc), fun e => h.2 (e ▸ hc)⟩
  intro l
  induction l with
  | nil => intro h; exact absurd rfl h
  | cons a l ih =>
    intro _ hg
    cases l with
    | nil =>
      simp only [List.flatMap_cons, List.flatMap_nil, List.append_nil, List.drop_succ_cons, List.drop_zero]
      exact List.splitOnP_eq_singleton (good a (hg a (by simp)))
    | cons b l =>
      have := ih (by simp) (fun n h => hg n (by simp [h]))
      simp only [List.flatMap_cons, List.cons_append, List.drop_succ_cons, List.drop_zero] at this ⊢
      rw [readNames, List.splitOnP_append_cons_of_forall_mem (good a (hg a (by simp))) _ (by rfl)]
      rw [readNames] at this
      rw [this]

theorem digits_plain (i : Nat) : ' ' ∉ "position".toList ++ (toString i).toList ∧ ',' ∉ "position".toList ++ (toString i).toList := by
  have h : ∀ c ∈ (toString i).toList, c.isDigit := by
    intro c hc
    have : (toString i).toList = Nat.toDigits 10 i := by
      simp [toString, Nat.repr]
    rw [this] at hc
    exact Nat.isDigit_of_mem_toDigits (by omega) (by omega) hc
  constructor
  · intro hc
    rcases List.mem_append.mp hc with hc | hc
    · revert hc; decide +kernel
    · have := h _ hc
      revert this; decide +kernel
  · intro hc
    rcases List.mem_append.mp hc with hc | hc
    · revert hc; decide +kernel
    · have := h _ hc
      revert this; decide +kernel

end Hexed.Tecplot
