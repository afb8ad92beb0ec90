import Verif.TreeFile.Model
import Verif.Tree.Flood

set_option autoImplicit false
set_option linter.unusedVariables false

/-! Helper lemmas for the tree section of the mesh file. -/

namespace Hexed.TreeFile
open Hexed Hexed.Tree
variable {nd : Nat}

/-- rows of consecutive subtrees -/
def childRows : Nat → List (Tree nd) → List Int
  | _, [] => []
  | row, t :: ts => (row : Int) :: childRows (row + t.count) ts

/-- the row of an element -/
def headRow (nv : Nat) (elem : Path → Option Nat) (p : Path) (row : Nat) (s : Int) (k : List (Tree nd)) : List Int :=
  elemEntry (elem p) :: s :: (childRows (row + 1) k ++ List.replicate (nv - k.length) (-1))

mutual
/-- the block of rows of a subtree -/
def layout (nv : Nat) (elem : Path → Option Nat) (p : Path) (row : Nat) : Tree nd → List (List Int)
  | mk _ _ s k => headRow nv elem p row s k :: layoutList nv elem p (row + 1) 0 k
/-- the rows of consecutive subtrees -/
def layoutList (nv : Nat) (elem : Path → Option Nat) (p : Path) (row i : Nat) : List (Tree nd) → List (List Int)
  | [] => []
  | t :: ts => layout nv elem (p ++ [i]) row t ++ layoutList nv elem p (row + t.count) (i + 1) ts
end

mutual
theorem layout_length (nv : Nat) (elem : Path → Option Nat) (p : Path) (row : Nat) (t : Tree nd) :
    (layout nv elem p row t).length = t.count := by
  cases t with
  | mk r c s k =>
    simp only [layout, List.length_cons, count, layoutList_length nv elem p (row + 1) 0 k]; omega
theorem layoutList_length (nv : Nat) (elem : Path → Option Nat) (p : Path) (row i : Nat) (k : List (Tree nd)) :
    (layoutList nv elem p row i k).length = countList k := by
  cases k with
  | nil => rfl
  | cons t ts =>
    simp only [layoutList, List.length_append, countList, layout_length nv elem (p ++ [i]) row t,
      layoutList_length nv elem p (row + t.count) (i + 1) ts]
end

/-- `F'` is `F` with the block `L` placed at `row` -/
def Placed (F F' : File) (row : Nat) (L : List (List Int)) : Prop :=
  F'.length = F.length ∧ (∀ j, j < L.length → F'[row + j]? = (L[j]?).map some) ∧
  ∀ j, (j < row ∨ row + L.length ≤ j) → F'[j]? = F[j]?

mutual
/-- every element has at most `nv` children -/
def Small (nv : Nat) : Tree nd → Prop
  | mk _ _ _ k => k.length ≤ nv ∧ SmallList nv k
def SmallList (nv : Nat) : List (Tree nd) → Prop
  | [] => True
  | t :: ts => Small nv t ∧ SmallList nv ts
end

theorem smallList_of {nv : Nat} {k : List (Tree nd)} (h : ∀ t ∈ k, Small nv t) : SmallList nv k := by
  induction k with
  | nil => trivial
  | cons a k ih => exact ⟨h a (by simp), ih fun t ht => h t (by simp [ht])⟩

theorem small_of_wf {t : Tree nd} (h : WF t) : Small (2 ^ nd) t := by
  induction t using induct with
  | h r c s k ih =>
    refine ⟨?_, smallList_of fun t ht => ?_⟩
    · by_cases hk : k = []
      · subst hk; simp
      · exact (h.len hk).le
    · obtain ⟨i, hi⟩ := List.getElem?_of_mem ht
      exact ih t ht (h.child hi).2.2

theorem childRows_length (row : Nat) (k : List (Tree nd)) : (childRows row k).length = k.length := by
  induction k generalizing row with
  | nil => rfl
  | cons a k ih => simp [childRows, ih]

mutual
theorem writeTree_spec (nv : Nat) (elem : Path → Option Nat) (p : Path) (row : Nat) (F : File) (t : Tree nd)
    (hs : Small nv t) (hF : row + t.count ≤ F.length) :
    ∃ F', writeTree nv elem p row F t = some (row, row + t.count, F') ∧ Placed F F' row (layout nv elem p row t) := by
  cases t with
  | mk r c s k =>
    simp only [Small] at hs
    simp only [count] at hF
    obtain ⟨F', h1, h2, h3, h4⟩ := writeChildren_spec nv elem p (row + 1) F (elemEntry (elem p)) s [] k
      (by simpa using hs.1) hs.2 (by omega)
    simp only [List.nil_append, List.length_nil, Nat.sub_zero] at h1 h3 h4
    have hrow : row < F'.length := by omega
    refine ⟨F'.set row (some (headRow nv elem p row s k)), ?_, ?_, ?_, ?_⟩
    · simp only [writeTree, h1, writeRow, if_pos hrow, count, headRow]
      simp; omega
    · simp [h2]
    · intro j hj
      simp only [layout]
      cases j with
      | zero => simp [hrow]
      | succ j =>
        rw [List.getElem?_set_ne (by omega)]
        simp only [layout, List.length_cons, Nat.succ_lt_succ_iff] at hj
        rw [show row + (j + 1) = row + 1 + j by omega, h3 j hj]; simp
    · intro j hj
      simp only [layout, List.length_cons] at hj
      rw [List.getElem?_set_ne (by omega)]
      exact h4 j (by omega)
theorem writeChildren_spec (nv : Nat) (elem : Path → Option Nat) (p : Path) (row : Nat) (F : File) (e s : Int)
    (done : List Int) (k : List (Tree nd)) (hlen : done.length + k.length ≤ nv) (hs : SmallList nv k)
    (hF : row + countList k ≤ F.length) :
    ∃ F', writeChildren nv elem p row F (e :: s :: (done ++ List.replicate (nv - done.length) (-1))) done.length k =
        some (e :: s :: (done ++ childRows row k ++ List.replicate (nv - (done.length + k.length)) (-1)), row + countList k, F') ∧
      Placed F F' row (layoutList nv elem p row done.length k) := by
  cases k with
  | nil =>
    exact ⟨F, by simp [writeChildren, childRows, countList], rfl, by simp [layoutList], by simp⟩
  | cons t ts =>
    simp only [SmallList] at hs
    simp only [countList] at hF
    simp only [List.length_cons] at hlen
    obtain ⟨F1, a1, a2, a3, a4⟩ := writeTree_spec nv elem (p ++ [done.length]) row F t hs.1 (by omega)
    obtain ⟨F2, b1, b2, b3, b4⟩ := writeChildren_spec nv elem p (row + t.count) F1 e s (done ++ [(row : Int)]) ts
      (by simp; omega) hs.2 (by omega)
    have hset : (e :: s :: (done ++ List.replicate (nv - done.length) (-1))).set (2 + done.length) (row : Int) =
        e :: s :: (done ++ [(row : Int)] ++ List.replicate (nv - (done ++ [(row : Int)]).length) (-1)) := by
      rw [show 2 + done.length = done.length + 1 + 1 by omega, List.set_cons_succ, List.set_cons_succ]
      congr 2
      rw [List.set_append_right _ _ (Nat.le_refl _), Nat.sub_self]
      obtain ⟨m, hm⟩ : ∃ m, nv - done.length = m + 1 := ⟨nv - done.length - 1, by omega⟩
      rw [hm, List.replicate_succ, List.set_cons_zero]
      simp; omega
    refine ⟨F2, ?_, ?_, ?_, ?_⟩
    · rw [writeChildren, a1]
      simp only
      rw [if_pos (by simp; omega), hset]
      have : (done ++ [(row : Int)]).length = done.length + 1 := by simp
      rw [← this, b1]
      simp [childRows, countList]
      omega
    · omega
    · intro j hj
      simp only [layoutList] at hj ⊢
      simp only [List.length_append, layout_length] at hj
      by_cases hj' : j < t.count
      · rw [b4 _ (by omega), a3 _ (by rw [layout_length]; exact hj'), List.getElem?_append_left (by rw [layout_length]; exact hj')]
      · rw [List.getElem?_append_right (by rw [layout_length]; omega), layout_length]
        have := b3 (j - t.count) (by simp; omega)
        rw [show row + t.count + (j - t.count) = row + j by omega] at this
        rw [this]; simp
    · intro j hj
      simp only [layoutList, List.length_append, layout_length] at hj
      rw [b4 _ (by simp; omega), a4 _ (by rw [layout_length]; omega)]
end

/-! ### reading -/

mutual
/-- the (path, element) pairs of a subtree -/
def assoc (elem : Path → Option Nat) (p : Path) : Tree nd → List (Path × Nat)
  | mk _ _ _ k => (match elem p with | some e => [([], e)] | none => []) ++ assocList elem p 0 k
def assocList (elem : Path → Option Nat) (p : Path) (i : Nat) : List (Tree nd) → List (Path × Nat)
  | [] => []
  | t :: ts => (assoc elem (p ++ [i]) t).map (fun x => (i :: x.1, x.2)) ++ assocList elem p (i + 1) ts
end

theorem readChildren_spec (nv : Nat) (elem : Path → Option Nat) (p : Path) (F : File)
    (rd : Tree nd → Int → Option (Tree nd × List (Path × Nat))) (rl : Nat) (co : Nat → Fin nd → Int) (junk : List Int) :
    ∀ (k : List (Tree nd)) (row i : Nat),
      (∀ (j : Nat) (t : Tree nd), k[j]? = some t → t.rl = rl ∧ t.coords = co (i + j)) →
      (∀ (t : Tree nd), t ∈ k → ∀ (q : Path) (row' : Nat), (∀ j, j < t.count → F[row' + j]? = ((layout nv elem q row' t)[j]?).map some) →
        rd (mk t.rl t.coords unprocessed []) row' = some (t, assoc elem q t)) →
      (∀ j, j < countList k → F[row + j]? = ((layoutList nv elem p row i k)[j]?).map some) →
      readChildren rd i ((List.range' i k.length).map fun j => mk rl (co j) unprocessed []) (childRows row k ++ junk) =
        some (k, assocList elem p i k)
  | [], row, i, _, _, _ => by simp [readChildren, assocList]
  | t :: ts, row, i, hc, hrd, hF => by
    have h0 := hc 0 t rfl
    have ht : rd (mk rl (co i) unprocessed []) (row : Int) = some (t, assoc elem (p ++ [i]) t) := by
      have := hrd t (by simp) (p ++ [i]) row (fun j hj => by
        rw [hF j (by simp only [countList]; omega), layoutList, List.getElem?_append_left (by rw [layout_length]; exact hj)])
      rwa [h0.1, h0.2] at this
    have hts := readChildren_spec nv elem p F rd rl co junk ts (row + t.count) (i + 1)
      (fun j a ha => by have := hc (j + 1) a ha; rwa [show i + (j + 1) = i + 1 + j by omega] at this)
      (fun a ha => hrd a (by simp [ha]))
      (fun j hj => by
        have := hF (t.count + j) (by simp only [countList]; omega)
        rw [show row + (t.count + j) = row + t.count + j by omega] at this
        rw [this, layoutList, List.getElem?_append_right (by rw [layout_length]; omega), layout_length,
          Nat.add_sub_cancel_left])
    simp only [List.length_cons, List.range'_succ, List.map_cons, childRows, List.cons_append, readChildren, ht, hts, assocList]

theorem countList_mem {k : List (Tree nd)} {t : Tree nd} (h : t ∈ k) : t.count ≤ countList k := by
  induction k with
  | nil => simp at h
  | cons a k ih =>
    simp only [countList]
    rcases List.mem_cons.1 h with rfl | h
    · omega
    · have := ih h; omega

theorem readTree_spec (elem : Path → Option Nat) (F : File) (t : Tree nd) (h : WF t) :
    ∀ (p : Path) (row : Nat) (st : Int) (fuel : Nat), t.count ≤ fuel →
      (∀ j, j < t.count → F[row + j]? = ((layout (2 ^ nd) elem p row t)[j]?).map some) →
      readTree F fuel (mk t.rl t.coords st []) row = some (t, assoc elem p t) := by
  induction t using induct with
  | h r c s k ih =>
    intro p row st fuel hf hF
    obtain ⟨f, rfl⟩ : ∃ f, fuel = f + 1 := ⟨fuel - 1, by simp only [count] at hf; omega⟩
    have h0 := hF 0 (by simp only [count]; omega)
    simp only [Nat.add_zero, layout, List.getElem?_cons_zero, Option.map_some] at h0
    have hr : readRow F (row : Int) = some (headRow (2 ^ nd) elem p row s k) := by
      simp [readRow, h0]
    have ha : (if elemEntry (elem p) ≥ 0 then [(([] : Path), (elemEntry (elem p)).toNat)] else []) =
        (match elem p with | some e => [([], e)] | none => []) := by
      cases elem p with
      | none => simp [elemEntry]
      | some e => simp [elemEntry]
    cases k with
    | nil =>
      obtain ⟨m, hm⟩ : ∃ m, 2 ^ nd = m + 1 := ⟨2 ^ nd - 1, by have := Nat.two_pow_pos nd; omega⟩
      rw [readTree, hr]
      simp only [headRow, childRows, List.nil_append, List.length_nil, Nat.sub_zero, hm, List.replicate_succ]
      rw [ha]
      simp [setStatusNode, assoc, assocList]
    | cons t ts =>
      have hk : t :: ts ≠ [] := by simp
      have hlen := h.len hk
      have hch := readChildren_spec (2 ^ nd) elem p F (readTree F f) (r + 1) (childCoords c) [] (t :: ts) (row + 1) 0
        (fun j a haj => by simpa using ⟨(h.child haj).1, (h.child haj).2.1⟩)
        (fun a ha' q row' hF' => by
          obtain ⟨i, hi⟩ := List.getElem?_of_mem ha'
          refine ih a ha' (h.child hi).2.2 q row' unprocessed f ?_ hF'
          have := countList_mem ha'
          simp only [count] at hf; omega)
        (fun j hj => by
          have := hF (j + 1) (by simp only [count]; omega)
          rw [show row + (j + 1) = row + 1 + j by omega] at this
          rw [this, layout, List.getElem?_cons_succ])
      rw [hlen, ← List.range_eq_range', List.append_nil] at hch
      rw [readTree, hr]
      simp only [headRow, childRows, List.cons_append]
      rw [ha, if_pos (by simp only [ge_iff_le]; omega), if_pos (by simp [isLeaf]), hlen, Nat.sub_self]
      simp only [childRows] at hch
      simp only [setStatusNode, rl_mk, coords_mk, refineNode, children_mk, List.replicate_zero, List.append_nil, hch, assoc]

mutual
theorem mem_assoc (elem : Path → Option Nat) (p : Path) (t : Tree nd) (q : Path) (e : Nat) :
    (q, e) ∈ assoc elem p t ↔ (∃ s, Tree.get q t = some s) ∧ elem (p ++ q) = some e := by
  cases t with
  | mk r c s k =>
    simp only [assoc, List.mem_append, mem_assocList elem p 0 k q e]
    cases q with
    | nil =>
      simp only [Tree.get_nil, List.append_nil]
      cases elem p <;> simp [eq_comm]
    | cons i q =>
      constructor
      · rintro (h | ⟨j, t, q', h1, h2, h3, h4⟩)
        · exfalso; revert h; cases elem p <;> simp
        · simp only [List.cons.injEq, Nat.zero_add] at h1
          obtain ⟨rfl, rfl⟩ := h1
          exact ⟨by obtain ⟨s, hs⟩ := h3; exact ⟨s, by simp [Tree.get_cons, h2, hs]⟩, by simpa using h4⟩
      · rintro ⟨⟨s', h1⟩, h2⟩
        simp only [Tree.get_cons, children_mk] at h1
        split at h1
        · simp at h1
        · rename_i t ht
          exact Or.inr ⟨i, t, q, by simp, ht, ⟨s', h1⟩, by simpa using h2⟩
theorem mem_assocList (elem : Path → Option Nat) (p : Path) (i : Nat) (k : List (Tree nd)) (q : Path) (e : Nat) :
    (q, e) ∈ assocList elem p i k ↔ ∃ j t q', q = (i + j) :: q' ∧ k[j]? = some t ∧ (∃ s, Tree.get q' t = some s) ∧
      elem (p ++ [i + j] ++ q') = some e := by
  cases k with
  | nil => simp [assocList]
  | cons t ts =>
    simp only [assocList, List.mem_append, List.mem_map, mem_assocList elem p (i + 1) ts q e]
    constructor
    · rintro (⟨⟨q', e'⟩, h1, h2⟩ | ⟨j, a, q', h1, h2, h3, h4⟩)
      · simp only [Prod.mk.injEq] at h2
        obtain ⟨rfl, rfl⟩ := h2
        rw [mem_assoc elem (p ++ [i]) t q' e'] at h1
        exact ⟨0, t, q', by simp, rfl, h1.1, by simpa using h1.2⟩
      · exact ⟨j + 1, a, q', by rw [h1]; congr 1; omega, by simpa using h2, h3, by
          rw [show i + (j + 1) = i + 1 + j by omega]; exact h4⟩
    · rintro ⟨j, a, q', h1, h2, h3, h4⟩
      cases j with
      | zero =>
        simp at h2; subst h2
        exact Or.inl ⟨(q', e), (mem_assoc elem (p ++ [i]) _ q' e).2 ⟨h3, by simpa using h4⟩, by simp [h1]⟩
      | succ j =>
        exact Or.inr ⟨j, a, q', by rw [h1]; congr 1; omega, by simpa using h2, h3, by
          rw [show i + 1 + j = i + (j + 1) by omega]; exact h4⟩
end

/-! ### references -/

/-- the child entries of a row that are not the filler -/
def refs (L : List (List Int)) : List Int := (L.flatMap fun d => d.drop 2).filter (0 ≤ ·)

theorem refs_append (L M : List (List Int)) : refs (L ++ M) = refs L ++ refs M := by simp [refs]

theorem refs_headRow (nv : Nat) (elem : Path → Option Nat) (p : Path) (row : Nat) (s : Int) (k : List (Tree nd)) (L : List (List Int)) :
    refs (headRow nv elem p row s k :: L) = childRows (row + 1) k ++ refs L := by
  have h1 : ∀ (k : List (Tree nd)) (row : Nat), (childRows row k).filter (0 ≤ ·) = childRows row k := by
    intro k
    induction k with
    | nil => intro row; rfl
    | cons a k ih => intro row; simp [childRows, ih]
  have h2 : ∀ n : Nat, (List.replicate n (-1 : Int)).filter (0 ≤ ·) = [] := by
    intro n; induction n with
    | zero => rfl
    | succ n ih => simp
  simp only [refs, List.flatMap_cons, List.filter_append, headRow, List.drop_succ_cons, List.drop_zero, h1, h2, List.append_nil]

mutual
theorem refs_layout (nv : Nat) (elem : Path → Option Nat) (p : Path) (row : Nat) (t : Tree nd) :
    (refs (layout nv elem p row t)).Perm ((List.range' (row + 1) (t.count - 1)).map Int.ofNat) := by
  cases t with
  | mk r c s k =>
    rw [layout, refs_headRow, count, Nat.add_sub_cancel_left]
    exact refs_layoutList nv elem p (row + 1) 0 k
theorem refs_layoutList (nv : Nat) (elem : Path → Option Nat) (p : Path) (row i : Nat) (k : List (Tree nd)) :
    (childRows row k ++ refs (layoutList nv elem p row i k)).Perm ((List.range' row (countList k)).map Int.ofNat) := by
  cases k with
  | nil => simp [childRows, layoutList, refs, countList]
  | cons t ts =>
    have h1 := refs_layout nv elem (p ++ [i]) row t
    have h2 := refs_layoutList nv elem p (row + t.count) (i + 1) ts
    obtain ⟨m, hm⟩ : ∃ m, t.count = m + 1 := ⟨t.count - 1, by cases t; simp only [count]; omega⟩
    rw [layoutList, refs_append, childRows, countList, ← List.range'_append_1, hm, List.range'_succ]
    rw [hm, Nat.add_sub_cancel] at h1
    rw [hm] at h2
    simp only [List.cons_append, List.map_cons, List.map_append]
    refine List.Perm.cons _ ?_
    refine List.Perm.trans ?_ (List.Perm.append h1 h2)
    rw [← List.append_assoc, ← List.append_assoc]
    exact List.Perm.append_right _ List.perm_append_comm
end

end Hexed.TreeFile
