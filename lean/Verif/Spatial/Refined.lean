import Verif.Spatial.Local
set_option autoImplicit false
set_option linter.unusedVariables false

/-!
# What `Prolong_refined` and `Restrict_refined` compute
-/

namespace Hexed.Spatial
open Hexed.Connection (Dir matchFaces restore strAt)
open Hexed.RowIndex (RowIndex rows)

theorem assign_range (n : Nat) (addr : Nat → Nat) (x : Nat → ℝ) (inj : ∀ i < n, ∀ j < n, addr i = addr j → i = j) (mem : Mem) :
    (∀ i < n, (List.range n).foldl (fun (mem : Mem) i a => if a = addr i then x i else mem a) mem (addr i) = x i) ∧
    ∀ a, (∀ i < n, a ≠ addr i) → (List.range n).foldl (fun (mem : Mem) i a => if a = addr i then x i else mem a) mem a = mem a := by
  induction n with
  | zero => exact ⟨by simp, by simp⟩
  | succ n ih =>
    obtain ⟨i1, i2⟩ := ih fun i hi j hj => inj i (by omega) j (by omega)
    constructor
    · intro i hi
      rw [List.range_succ, List.foldl_append, List.foldl_cons, List.foldl_nil]
      by_cases e : i = n
      · subst e; rw [if_pos rfl]
      · rw [if_neg, i1 i (by omega)]
        intro h; exact e (inj i hi n (by omega) h)
    · intro a h
      rw [List.range_succ, List.foldl_append, List.foldl_cons, List.foldl_nil, if_neg (h n (by omega)), i2 a fun i hi => h i (by omega)]

/-- Address of node `i` of the row (`o`, `j`). -/
def addr (n s base o j i : Nat) : Nat := base + ((o * n + i) * s + j)

theorem addr_eq {n s base o j i o' j' i' : Nat} (hj : j < s) (hj' : j' < s) (hi : i < n) (hi' : i' < n) (e : addr n s base o j i = addr n s base o' j' i') :
    o = o' ∧ j = j' ∧ i = i' := by
  obtain ⟨e1, e2⟩ := RowIndex.div_mod_unique hj hj' (Nat.add_left_cancel e)
  obtain ⟨e3, e4⟩ := RowIndex.div_mod_unique hi hi' e1
  exact ⟨e3, e2, e4⟩

theorem rowInPlace_apply (n : Nat) (m : Nat → Nat → ℝ) (s o j base : Nat) (mem : Mem) (hj : j < s) :
    (∀ i < n, rowInPlace n m s o j base mem (addr n s base o j i) = ∑ k ∈ Finset.range n, m i k * mem (addr n s base o j k)) ∧
    ∀ a, (∀ i < n, a ≠ addr n s base o j i) → rowInPlace n m s o j base mem a = mem a := by
  obtain ⟨h1, h2⟩ := assign_range n (addr n s base o j) (fun i => ((List.range n).map fun k => m i k * mem (addr n s base o j k)).sum)
    (fun i hi k hk e => (addr_eq hj hj hi hk e).2.2) mem
  exact ⟨h1, h2⟩

/-- Multiplication along one dimension in place: each entry becomes the product of the matrix and the entries of its row. -/
theorem dimInPlace_apply (n : Nat) (m : Nat → Nat → ℝ) (nfq s base : Nat) (mem : Mem) :
    (∀ o < nfq / (n * s), ∀ j < s, ∀ i < n, dimInPlace n m nfq s base mem (addr n s base o j i) = ∑ k ∈ Finset.range n, m i k * mem (addr n s base o j k)) ∧
    ∀ a, (∀ o < nfq / (n * s), ∀ j < s, ∀ i < n, a ≠ addr n s base o j i) → dimInPlace n m nfq s base mem a = mem a := by
  have hfl : dimInPlace n m nfq s base mem = ((List.range (nfq / (n * s))).flatMap fun o => (List.range s).map fun j => (o, j)).foldl
      (fun mem p => if p.2 < s then rowInPlace n m s p.1 p.2 base mem else mem) mem := by
    rw [dimInPlace, List.foldl_flatMap]
    congr 1
    funext mem o
    rw [List.foldl_map]
    have : ∀ (l : List Nat) (mem : Mem), (∀ j ∈ l, j < s) → l.foldl (fun mem j => rowInPlace n m s o j base mem) mem =
        l.foldl (fun mem j => if (o, j).2 < s then rowInPlace n m s (o, j).1 (o, j).2 base mem else mem) mem := by
      intro l
      induction l with
      | nil => intro _ _; rfl
      | cons j l ih =>
        intro mem hl
        rw [List.foldl_cons, List.foldl_cons, if_pos (hl j (by simp))]
        exact ih _ fun j hj => hl j (by simp [hj])
    exact this _ _ fun j hj => List.mem_range.1 hj
  obtain ⟨g1, g2⟩ := foldl_disjoint (fun (mem : Mem) (p : Nat × Nat) => if p.2 < s then rowInPlace n m s p.1 p.2 base mem else mem)
    (fun p a => p.2 < s ∧ ∃ i < n, a = addr n s base p.1 p.2 i)
    (by
      intro p mem a h
      split
      · next hp =>
        refine (rowInPlace_apply n m s p.1 p.2 base mem hp).2 a ?_
        intro i hi e
        exact h ⟨hp, i, hi, e⟩
      · rfl)
    (by
      rintro p mem mem' hmm a ⟨hp, i, hi, rfl⟩
      simp only [if_pos hp]
      rw [(rowInPlace_apply n m s p.1 p.2 base mem hp).1 i hi, (rowInPlace_apply n m s p.1 p.2 base mem' hp).1 i hi]
      refine Finset.sum_congr rfl fun k hk => ?_
      rw [hmm _ ⟨hp, k, Finset.mem_range.1 hk, rfl⟩])
    ((List.range (nfq / (n * s))).flatMap fun o => (List.range s).map fun j => (o, j)) mem
    (by
      have hnd : ((List.range (nfq / (n * s))).flatMap fun o => (List.range s).map fun j => (o, j)).Nodup := by
        rw [List.nodup_flatMap]
        refine ⟨fun d _ => List.nodup_range.map fun a b h => (Prod.mk.inj h).2, ?_⟩
        refine List.Pairwise.imp_of_mem ?_ (List.nodup_range (n := nfq / (n * s)))
        intro d d' _ _ hne
        rw [Function.onFun, List.disjoint_left]
        intro p h1 h2
        obtain ⟨k, _, rfl⟩ := List.mem_map.1 h1
        obtain ⟨k', _, e⟩ := List.mem_map.1 h2
        exact hne (Prod.mk.inj e).1.symm
      refine List.Pairwise.imp ?_ hnd
      rintro p p' hne a ⟨⟨hp, i, hi, rfl⟩, ⟨hp', i', hi', e⟩⟩
      obtain ⟨e1, e2, _⟩ := addr_eq hp hp' hi hi' e
      exact hne (Prod.ext e1 e2))
  rw [hfl]
  constructor
  · intro o ho j hj i hi
    rw [g1 (o, j) (by simp [ho, hj]) _ ⟨hj, i, hi, rfl⟩]
    simp only [if_pos hj]
    exact (rowInPlace_apply n m s o j base mem hj).1 i hi
  · intro a h
    refine g2 a ?_
    rintro ⟨o, j⟩ hp ⟨hj, i, hi, e⟩
    simp only [List.mem_flatMap, List.mem_map, List.mem_range] at hp
    obtain ⟨o', ho', j', hj', e'⟩ := hp
    obtain ⟨rfl, rfl⟩ := Prod.mk.inj e'
    exact h o' ho' j' hj i hi e

/-- Quadrature over the face data of one variable stored at `base`. -/
noncomputable def quadB (bs : BasisData) (nd base : Nat) (mem : Mem) : ℝ := ∑ k ∈ Finset.range (bs.n ^ (nd - 1)), qw bs.weight bs.n (nd - 1) k * mem (base + k)

theorem quadF_eq (bs : BasisData) (nd v : Nat) (mem : Mem) : quadF bs nd mem v = quadB bs nd (v * bs.n ^ (nd - 1)) mem := rfl

theorem outer_count (n : Nat) (hn : 0 < n) (nd d : Nat) (hd : d < nd - 1) : n ^ (nd - 1) / (n * n ^ (nd - 2 - d)) = n ^ d := by
  have : n ^ (nd - 1) = n ^ d * (n * n ^ (nd - 2 - d)) := by
    rw [← pow_succ', ← pow_add]; congr 1; omega
  rw [this, Nat.mul_div_cancel _ (Nat.mul_pos hn (Nat.pow_pos hn))]

/-- Points of a face as (outer, node, inner) along dimension `d` of the face. -/
theorem sum_face (n : Nat) (hn : 0 < n) (nd d : Nat) (hd : d < nd - 1) (g : Nat → ℝ) :
    ∑ k ∈ Finset.range (n ^ (nd - 1)), g k = ∑ x ∈ Finset.range (n ^ d), ∑ y ∈ Finset.range (n ^ (nd - 2 - d)), ∑ i ∈ Finset.range n, g ((x * n + i) * n ^ (nd - 2 - d) + y) := by
  have := sum_points n d (nd - 2 - d) hn g
  rwa [show d + 1 + (nd - 2 - d) = nd - 1 by omega] at this

theorem quadB_dim {bs : BasisData} (hn : 0 < bs.n) (A : Nat → Nat → ℝ) (nd d base : Nat) (hd : d < nd - 1) (mem : Mem) :
    quadB bs nd base (dimInPlace bs.n A (bs.n ^ (nd - 1)) (bs.n ^ (nd - 2 - d)) base mem) =
      ∑ x ∈ Finset.range (bs.n ^ d), ∑ y ∈ Finset.range (bs.n ^ (nd - 2 - d)), qw bs.weight bs.n (nd - 2) (x * bs.n ^ (nd - 2 - d) + y) *
        ∑ k ∈ Finset.range bs.n, (∑ i ∈ Finset.range bs.n, bs.weight i * A i k) * mem (base + ((x * bs.n + k) * bs.n ^ (nd - 2 - d) + y)) := by
  rw [quadB, sum_face bs.n hn nd d hd]
  refine Finset.sum_congr rfl fun x hx => Finset.sum_congr rfl fun y hy => ?_
  rw [Finset.mem_range] at hx hy
  obtain ⟨h1, _⟩ := dimInPlace_apply bs.n A (bs.n ^ (nd - 1)) (bs.n ^ (nd - 2 - d)) base mem
  have e : ∀ i ∈ Finset.range bs.n, qw bs.weight bs.n (nd - 1) ((x * bs.n + i) * bs.n ^ (nd - 2 - d) + y) *
      dimInPlace bs.n A (bs.n ^ (nd - 1)) (bs.n ^ (nd - 2 - d)) base mem (base + ((x * bs.n + i) * bs.n ^ (nd - 2 - d) + y)) =
      qw bs.weight bs.n (nd - 2) (x * bs.n ^ (nd - 2 - d) + y) * ∑ k ∈ Finset.range bs.n, bs.weight i * A i k * mem (base + ((x * bs.n + k) * bs.n ^ (nd - 2 - d) + y)) := by
    intro i hi
    have hq := qw_mid bs.weight hn d (nd - 2 - d) x i y (Finset.mem_range.1 hi) hy
    rw [show d + 1 + (nd - 2 - d) = nd - 1 by omega, show d + (nd - 2 - d) = nd - 2 by omega] at hq
    have h2 := h1 x (by rw [outer_count bs.n hn nd d hd]; exact hx) y hy i (Finset.mem_range.1 hi)
    rw [addr] at h2
    rw [hq, h2, mul_assoc, Finset.mul_sum]
    congr 1
    refine Finset.sum_congr rfl fun k _ => ?_
    rw [addr]; ring
  rw [Finset.sum_congr rfl e, ← Finset.mul_sum, Finset.sum_comm]
  congr 1
  refine Finset.sum_congr rfl fun k _ => ?_
  rw [Finset.sum_mul]

/-- The plain quadrature in the form of `quadB_dim`. -/
theorem quadB_rows {bs : BasisData} (hn : 0 < bs.n) (nd d base : Nat) (hd : d < nd - 1) (mem : Mem) :
    quadB bs nd base mem = ∑ x ∈ Finset.range (bs.n ^ d), ∑ y ∈ Finset.range (bs.n ^ (nd - 2 - d)), qw bs.weight bs.n (nd - 2) (x * bs.n ^ (nd - 2 - d) + y) *
        ∑ k ∈ Finset.range bs.n, bs.weight k * mem (base + ((x * bs.n + k) * bs.n ^ (nd - 2 - d) + y)) := by
  rw [quadB, sum_face bs.n hn nd d hd]
  refine Finset.sum_congr rfl fun x hx => Finset.sum_congr rfl fun y hy => ?_
  rw [Finset.mul_sum]
  refine Finset.sum_congr rfl fun i hi => ?_
  have hq := qw_mid bs.weight hn d (nd - 2 - d) x i y (Finset.mem_range.1 hi) (Finset.mem_range.1 hy)
  rw [show d + 1 + (nd - 2 - d) = nd - 1 by omega, show d + (nd - 2 - d) = nd - 2 by omega] at hq
  rw [hq]; ring

theorem quadB_dim_const {bs : BasisData} (hn : 0 < bs.n) (A : Nat → Nat → ℝ) (c : ℝ) (hA : ∀ k < bs.n, ∑ i ∈ Finset.range bs.n, bs.weight i * A i k = c * bs.weight k)
    (nd d base : Nat) (hd : d < nd - 1) (mem : Mem) :
    quadB bs nd base (dimInPlace bs.n A (bs.n ^ (nd - 1)) (bs.n ^ (nd - 2 - d)) base mem) = c * quadB bs nd base mem := by
  rw [quadB_dim hn A nd d base hd, quadB_rows hn nd d base hd, Finset.mul_sum]
  refine Finset.sum_congr rfl fun x _ => ?_
  rw [Finset.mul_sum]
  refine Finset.sum_congr rfl fun y _ => ?_
  rw [← mul_assoc, mul_comm c, mul_assoc, Finset.mul_sum (a := c)]
  congr 1
  refine Finset.sum_congr rfl fun k hk => ?_
  rw [hA k (Finset.mem_range.1 hk)]; ring

theorem quadB_dim_two {bs : BasisData} (hn : 0 < bs.n) (A B : Nat → Nat → ℝ) (c : ℝ)
    (hA : ∀ k < bs.n, ∑ i ∈ Finset.range bs.n, bs.weight i * A i k + ∑ i ∈ Finset.range bs.n, bs.weight i * B i k = c * bs.weight k)
    (nd d base : Nat) (hd : d < nd - 1) (mem : Mem) :
    quadB bs nd base (dimInPlace bs.n A (bs.n ^ (nd - 1)) (bs.n ^ (nd - 2 - d)) base mem) + quadB bs nd base (dimInPlace bs.n B (bs.n ^ (nd - 1)) (bs.n ^ (nd - 2 - d)) base mem) =
      c * quadB bs nd base mem := by
  rw [quadB_dim hn A nd d base hd, quadB_dim hn B nd d base hd, quadB_rows hn nd d base hd, Finset.mul_sum, ← Finset.sum_add_distrib]
  refine Finset.sum_congr rfl fun x _ => ?_
  rw [Finset.mul_sum, ← Finset.sum_add_distrib]
  refine Finset.sum_congr rfl fun y _ => ?_
  rw [← mul_assoc, mul_comm c, mul_assoc, Finset.mul_sum (a := c), ← mul_add, ← Finset.sum_add_distrib]
  congr 1
  refine Finset.sum_congr rfl fun k hk => ?_
  rw [← add_mul, hA k (Finset.mem_range.1 hk)]; ring

theorem dimInPlace_frame (n : Nat) (hn : 0 < n) (m : Nat → Nat → ℝ) (nd d base : Nat) (hd : d < nd - 1) (mem : Mem) (a : Nat) (h : a < base ∨ base + n ^ (nd - 1) ≤ a) :
    dimInPlace n m (n ^ (nd - 1)) (n ^ (nd - 2 - d)) base mem a = mem a := by
  refine (dimInPlace_apply n m (n ^ (nd - 1)) (n ^ (nd - 2 - d)) base mem).2 a ?_
  rintro o ho j hj i hi rfl
  rw [outer_count n hn nd d hd] at ho
  rw [addr] at h
  have h1 : (o * n + i) * n ^ (nd - 2 - d) + j < n ^ (nd - 1) := by
    have e : n ^ (nd - 1) = n ^ d * n * n ^ (nd - 2 - d) := by rw [← pow_succ, ← pow_add]; congr 1; omega
    have h2 : o * n + i + 1 ≤ n ^ d * n := by
      have := Nat.mul_le_mul_right n (show o + 1 ≤ n ^ d from ho)
      rw [Nat.add_mul] at this; omega
    have := Nat.mul_le_mul_right (n ^ (nd - 2 - d)) h2
    rw [e]; rw [Nat.add_one_mul] at this; omega
  omega

/-- The mode-by-mode loop leaves other addresses alone. -/
theorem dimsInPlace_frame (nd n : Nat) (hn : 0 < n) (mats : Nat → Nat → Nat → ℝ) (fac : ℝ) (str : Bool × Bool) (i_face base : Nat) (mem : Mem) (a : Nat)
    (h : a < base ∨ base + n ^ (nd - 1) ≤ a) : dimsInPlace nd n mats fac str i_face base mem a = mem a := by
  rw [dimsInPlace]
  have : ∀ (l : List Nat) (mem : Mem), (∀ d ∈ l, d < nd - 1) → l.foldl (fun mem i_dim =>
      if strAt str i_dim then fun a => if base ≤ a ∧ a < base + n ^ (nd - 1) then mem a * fac else mem a
      else dimInPlace n (mats (iHalf nd str i_dim i_face)) (n ^ (nd - 1)) (n ^ (nd - 2 - i_dim)) base mem) mem a = mem a := by
    intro l
    induction l with
    | nil => intro _ _; rfl
    | cons d l ih =>
      intro mem hl
      rw [List.foldl_cons, ih _ fun d hd => hl d (by simp [hd])]
      split
      · exact if_neg (by omega)
      · exact dimInPlace_frame n hn _ nd d base (hl d (by simp)) mem a h
  exact this _ _ fun d hd => List.mem_range.1 hd

/-- What it does depends only on the block at `base`. -/
theorem dimsInPlace_congr (nd n : Nat) (hn : 0 < n) (mats : Nat → Nat → Nat → ℝ) (fac : ℝ) (str : Bool × Bool) (i_face base : Nat) (mem mem' : Mem)
    (hm : ∀ a, base ≤ a → a < base + n ^ (nd - 1) → mem a = mem' a) (a : Nat) (h1 : base ≤ a) (h2 : a < base + n ^ (nd - 1)) :
    dimsInPlace nd n mats fac str i_face base mem a = dimsInPlace nd n mats fac str i_face base mem' a := by
  rw [dimsInPlace, dimsInPlace]
  have : ∀ (l : List Nat) (mem mem' : Mem), (∀ d ∈ l, d < nd - 1) → (∀ a, base ≤ a → a < base + n ^ (nd - 1) → mem a = mem' a) → ∀ a, base ≤ a → a < base + n ^ (nd - 1) →
      l.foldl (fun mem i_dim =>
      if strAt str i_dim then fun a => if base ≤ a ∧ a < base + n ^ (nd - 1) then mem a * fac else mem a
      else dimInPlace n (mats (iHalf nd str i_dim i_face)) (n ^ (nd - 1)) (n ^ (nd - 2 - i_dim)) base mem) mem a = l.foldl (fun mem i_dim =>
      if strAt str i_dim then fun a => if base ≤ a ∧ a < base + n ^ (nd - 1) then mem a * fac else mem a
      else dimInPlace n (mats (iHalf nd str i_dim i_face)) (n ^ (nd - 1)) (n ^ (nd - 2 - i_dim)) base mem) mem' a := by
    intro l
    induction l with
    | nil => intro mem mem' _ hm a h1 h2; exact hm a h1 h2
    | cons d l ih =>
      intro mem mem' hl hm a h1 h2
      rw [List.foldl_cons, List.foldl_cons]
      refine ih _ _ (fun d hd => hl d (by simp [hd])) ?_ a h1 h2
      intro a h1 h2
      have hd := hl d (by simp)
      split
      · simp only [if_pos (And.intro h1 h2), hm a h1 h2]
      · -- every address of the block is the address of some row entry
        obtain ⟨k, rfl⟩ := Nat.exists_eq_add_of_le h1
        have hk : k < n ^ (nd - 1) := by omega
        have hs : 0 < n ^ (nd - 2 - d) := Nat.pow_pos hn
        have hi : k / n ^ (nd - 2 - d) % n < n := Nat.mod_lt _ hn
        have hj : k % n ^ (nd - 2 - d) < n ^ (nd - 2 - d) := Nat.mod_lt _ hs
        have ho : k / n ^ (nd - 2 - d) / n < n ^ (nd - 1) / (n * n ^ (nd - 2 - d)) := by
          rw [outer_count n hn nd d hd, Nat.div_div_eq_div_mul, Nat.div_lt_iff_lt_mul (Nat.mul_pos hs hn), ← pow_succ, ← pow_add]
          rwa [show d + (nd - 2 - d + 1) = nd - 1 by omega]
        have ek : base + k = addr n (n ^ (nd - 2 - d)) base (k / n ^ (nd - 2 - d) / n) (k % n ^ (nd - 2 - d)) (k / n ^ (nd - 2 - d) % n) := by
          rw [addr, Nat.div_add_mod', Nat.div_add_mod']
        rw [ek, (dimInPlace_apply n _ _ _ base mem).1 _ ho _ hj _ hi, (dimInPlace_apply n _ _ _ base mem').1 _ ho _ hj _ hi]
        refine Finset.sum_congr rfl fun i hi => ?_
        have hlt : ((k / n ^ (nd - 2 - d) / n) * n + i) * n ^ (nd - 2 - d) + k % n ^ (nd - 2 - d) < n ^ (nd - 1) := by
          rw [outer_count n hn nd d hd] at ho
          have e : n ^ (nd - 1) = n ^ d * n * n ^ (nd - 2 - d) := by rw [← pow_succ, ← pow_add]; congr 1; omega
          have h2 : (k / n ^ (nd - 2 - d) / n) * n + i + 1 ≤ n ^ d * n := by
            have := Nat.mul_le_mul_right n (show (k / n ^ (nd - 2 - d) / n) + 1 ≤ n ^ d from ho)
            have h4 := Finset.mem_range.1 hi
            rw [Nat.add_mul] at this; omega
          have h5 := Nat.mul_le_mul_right (n ^ (nd - 2 - d)) h2
          rw [e]
          rw [Nat.add_one_mul] at h5
          exact Nat.lt_of_lt_of_le (Nat.add_lt_add_left hj _) h5
        rw [addr, hm _ (Nat.le_add_right _ _) (Nat.add_lt_add_left hlt _)]
  exact this _ _ _ (fun d hd => List.mem_range.1 hd) hm a h1 h2

theorem iHalf_lt (nd : Nat) (str : Bool × Bool) (d f : Nat) : iHalf nd str d f < 2 := Nat.mod_lt _ (by omega)

theorem quadB_scale (bs : BasisData) (nd base : Nat) (fac : ℝ) (mem : Mem) :
    quadB bs nd base (fun a => if base ≤ a ∧ a < base + bs.n ^ (nd - 1) then mem a * fac else mem a) = fac * quadB bs nd base mem := by
  rw [quadB, quadB, Finset.mul_sum]
  refine Finset.sum_congr rfl fun k hk => ?_
  rw [if_pos ⟨by omega, by have := Finset.mem_range.1 hk; omega⟩]; ring

/-- Restriction with scaling multiplies the integral over the reference face by `2^-(n_dim-1)`. -/
theorem quadB_restrict {bs : BasisData} (h : Conservative bs) (nd : Nat) (str : Bool × Bool) (i_face base : Nat) (mem : Mem) :
    quadB bs nd base (dimsInPlace nd bs.n bs.restrict (1 / stretchFac true) str i_face base mem) = (1 / 2) ^ (nd - 1) * quadB bs nd base mem := by
  rw [dimsInPlace]
  have : ∀ (l : List Nat) (mem : Mem), (∀ d ∈ l, d < nd - 1) → quadB bs nd base (l.foldl (fun mem i_dim =>
      if strAt str i_dim then fun a => if base ≤ a ∧ a < base + bs.n ^ (nd - 1) then mem a * (1 / stretchFac true) else mem a
      else dimInPlace bs.n (bs.restrict (iHalf nd str i_dim i_face)) (bs.n ^ (nd - 1)) (bs.n ^ (nd - 2 - i_dim)) base mem) mem) = (1 / 2) ^ l.length * quadB bs nd base mem := by
    intro l
    induction l with
    | nil => intro mem _; simp
    | cons d l ih =>
      intro mem hl
      rw [List.foldl_cons, ih _ fun d hd => hl d (by simp [hd]), List.length_cons, pow_succ, mul_assoc]
      congr 1
      split
      · rw [quadB_scale]; norm_num [stretchFac]
      · refine quadB_dim_const h.pos _ (1 / 2) (fun k hk => ?_) nd d base (hl d (by simp)) mem
        rw [h.restrict _ (iHalf_lt _ _ _ _) k hk]; ring
  rw [this _ _ fun d hd => List.mem_range.1 hd, List.length_range]

/-- The fine face afterwards, in closed form, and what is added to the coarse face. -/
theorem restrictFine_apply (bs : BasisData) (hn : 0 < bs.n) (nd nvar : Nat) (scale : Bool) (str : Bool × Bool) (i_face : Nat) (fine coarse : Mem) :
    (∀ v < nvar, ∀ k < bs.n ^ (nd - 1), (restrictFine bs nd nvar scale str i_face (fine, coarse)).2 (v * bs.n ^ (nd - 1) + k) =
      coarse (v * bs.n ^ (nd - 1) + k) + dimsInPlace nd bs.n bs.restrict (1 / stretchFac scale) str i_face (v * bs.n ^ (nd - 1)) fine (v * bs.n ^ (nd - 1) + k)) ∧
    (∀ a, nvar * bs.n ^ (nd - 1) ≤ a → (restrictFine bs nd nvar scale str i_face (fine, coarse)).2 a = coarse a) ∧
    ∀ a, nvar * bs.n ^ (nd - 1) ≤ a → (restrictFine bs nd nvar scale str i_face (fine, coarse)).1 a = fine a := by
  rw [restrictFine]
  dsimp only
  induction nvar with
  | zero => exact ⟨by simp, by simp, by simp⟩
  | succ m ih =>
    obtain ⟨i1, i2, i3⟩ := ih
    simp only [List.range_succ, List.foldl_append, List.foldl_cons, List.foldl_nil]
    set fc := (List.range m).foldl (fun (fc : Mem × Mem) i_var =>
      (dimsInPlace nd bs.n bs.restrict (1 / stretchFac scale) str i_face (i_var * bs.n ^ (nd - 1)) fc.1,
       fun a => if i_var * bs.n ^ (nd - 1) ≤ a ∧ a < i_var * bs.n ^ (nd - 1) + bs.n ^ (nd - 1) then fc.2 a + dimsInPlace nd bs.n bs.restrict (1 / stretchFac scale) str i_face (i_var * bs.n ^ (nd - 1)) fc.1 a else fc.2 a))
      (fine, coarse) with hfc
    have hs : (m + 1) * bs.n ^ (nd - 1) = m * bs.n ^ (nd - 1) + bs.n ^ (nd - 1) := Nat.add_one_mul _ _
    refine ⟨?_, ?_, ?_⟩
    · intro v hv k hk
      by_cases e : v = m
      · subst e
        rw [if_pos ⟨by omega, by omega⟩, i2 _ (by omega)]
        congr 1
        exact dimsInPlace_congr nd bs.n hn _ _ str i_face _ _ _ (fun a h1 h2 => i3 a h1) _ (by omega) (by omega)
      · have : v * bs.n ^ (nd - 1) + bs.n ^ (nd - 1) ≤ m * bs.n ^ (nd - 1) := by
          rw [← Nat.add_one_mul]; exact Nat.mul_le_mul_right _ (by omega)
        rw [if_neg (by omega), i1 v (by omega) k hk]
    · intro a ha
      rw [if_neg (by omega), i2 a (by omega)]
    · intro a ha
      rw [dimsInPlace_frame nd bs.n hn _ _ str i_face _ _ a (by omega), i3 a (by omega)]

theorem quadF_restrictFine {bs : BasisData} (h : Conservative bs) (nd nvar : Nat) (str : Bool × Bool) (i_face : Nat) (fine coarse : Mem) (v : Nat) (hv : v < nvar) :
    quadF bs nd (restrictFine bs nd nvar true str i_face (fine, coarse)).2 v = quadF bs nd coarse v + (1 / 2) ^ (nd - 1) * quadF bs nd fine v := by
  rw [quadF_eq bs nd v fine, ← quadB_restrict h nd str i_face, quadB, quadF, quadF, ← Finset.sum_add_distrib]
  refine Finset.sum_congr rfl fun k hk => ?_
  rw [(restrictFine_apply bs h.pos nd nvar true str i_face fine coarse).1 v hv k (Finset.mem_range.1 hk)]
  ring

/-! ## Prolongation -/

theorem prolongFine_apply (bs : BasisData) (hn : 0 < bs.n) (nd nvar : Nat) (scale : Bool) (str : Bool × Bool) (i_face : Nat) (coarse fine : Mem) :
    (∀ v < nvar, ∀ k < bs.n ^ (nd - 1), prolongFine bs nd nvar scale str i_face coarse fine (v * bs.n ^ (nd - 1) + k) =
      dimsInPlace nd bs.n bs.prolong (stretchFac scale) str i_face (v * bs.n ^ (nd - 1)) coarse (v * bs.n ^ (nd - 1) + k)) ∧
    ∀ a, nvar * bs.n ^ (nd - 1) ≤ a → prolongFine bs nd nvar scale str i_face coarse fine a = fine a := by
  rw [prolongFine]
  dsimp only
  induction nvar with
  | zero => exact ⟨by simp, by simp⟩
  | succ m ih =>
    obtain ⟨i1, i2⟩ := ih
    simp only [List.range_succ, List.foldl_append, List.foldl_cons, List.foldl_nil]
    have hs : (m + 1) * bs.n ^ (nd - 1) = m * bs.n ^ (nd - 1) + bs.n ^ (nd - 1) := Nat.add_one_mul _ _
    refine ⟨?_, ?_⟩
    · intro v hv k hk
      by_cases e : v = m
      · subst e
        exact dimsInPlace_congr nd bs.n hn _ _ str i_face _ _ _ (fun a h1 h2 => if_pos ⟨h1, h2⟩) _ (by omega) (by omega)
      · have : v * bs.n ^ (nd - 1) + bs.n ^ (nd - 1) ≤ m * bs.n ^ (nd - 1) := by
          rw [← Nat.add_one_mul]; exact Nat.mul_le_mul_right _ (by omega)
        rw [dimsInPlace_frame nd bs.n hn _ _ str i_face _ _ _ (by omega), if_neg (by omega), i1 v (by omega) k hk]
    · intro a ha
      rw [dimsInPlace_frame nd bs.n hn _ _ str i_face _ _ _ (by omega), if_neg (by omega), i2 a (by omega)]

/-- The integrals over the fine faces of a prolonged function add up to `2^(n_dim-1)` times the integral over the coarse face. -/
theorem quadF_prolong {bs : BasisData} (hn : 0 < bs.n) (hP : ∀ k < bs.n, ∑ i ∈ Finset.range bs.n, bs.weight i * bs.prolong 0 i k + ∑ i ∈ Finset.range bs.n, bs.weight i * bs.prolong 1 i k = 2 * bs.weight k)
    (nd : Nat) (hnd : 1 ≤ nd ∧ nd ≤ 3) (nvar : Nat) (str : Bool × Bool) (coarse : Mem) (fine : Nat → Mem) (v : Nat) (hv : v < nvar) :
    ((List.range (nFace nd str)).map fun i => quadF bs nd (prolongFine bs nd nvar true str i coarse (fine i)) v).sum = 2 ^ (nd - 1) * quadF bs nd coarse v := by
  have e : ∀ i, quadF bs nd (prolongFine bs nd nvar true str i coarse (fine i)) v =
      quadB bs nd (v * bs.n ^ (nd - 1)) (dimsInPlace nd bs.n bs.prolong (stretchFac true) str i (v * bs.n ^ (nd - 1)) coarse) := by
    intro i
    rw [quadF, quadB]
    refine Finset.sum_congr rfl fun k hk => ?_
    rw [(prolongFine_apply bs hn nd nvar true str i coarse (fine i)).1 v hv k (Finset.mem_range.1 hk)]
  simp only [e, quadF_eq]
  generalize v * bs.n ^ (nd - 1) = base
  have two : ∀ d < nd - 1, ∀ mem, quadB bs nd base (dimInPlace bs.n (bs.prolong 0) (bs.n ^ (nd - 1)) (bs.n ^ (nd - 2 - d)) base mem) +
      quadB bs nd base (dimInPlace bs.n (bs.prolong 1) (bs.n ^ (nd - 1)) (bs.n ^ (nd - 2 - d)) base mem) = 2 * quadB bs nd base mem :=
    fun d hd mem => quadB_dim_two hn _ _ 2 hP nd d base hd mem
  obtain ⟨s0, s1⟩ := str
  obtain ⟨h1, h3⟩ := hnd
  obtain rfl | rfl | rfl : nd = 1 ∨ nd = 2 ∨ nd = 3 := by omega
  · simp [nFace, dimsInPlace]
  · cases s0
    · have t := two 0 (by omega) coarse
      simp [nFace, dimsInPlace, strAt, iHalf, List.range_succ]
      simp at t
      linarith
    · simp [nFace, dimsInPlace, strAt, iHalf, List.range_succ]
      have := quadB_scale bs 2 base 2 coarse
      simp [stretchFac] at this ⊢
      linarith
  · cases s0 <;> cases s1
    · have t := two 0 (by omega) coarse
      have t0 := two 1 (by omega) (dimInPlace bs.n (bs.prolong 0) (bs.n ^ (3 - 1)) (bs.n ^ (3 - 2 - 0)) base coarse)
      have t1 := two 1 (by omega) (dimInPlace bs.n (bs.prolong 1) (bs.n ^ (3 - 1)) (bs.n ^ (3 - 2 - 0)) base coarse)
      simp [nFace, dimsInPlace, strAt, iHalf, List.range_succ]
      simp at t t0 t1
      linarith
    · have t := two 0 (by omega) coarse
      have s0 := quadB_scale bs 3 base 2 (dimInPlace bs.n (bs.prolong 0) (bs.n ^ (3 - 1)) (bs.n ^ (3 - 2 - 0)) base coarse)
      have s1 := quadB_scale bs 3 base 2 (dimInPlace bs.n (bs.prolong 1) (bs.n ^ (3 - 1)) (bs.n ^ (3 - 2 - 0)) base coarse)
      simp [nFace, dimsInPlace, strAt, iHalf, List.range_succ, stretchFac]
      simp at t s0 s1
      linarith
    · have t := two 1 (by omega) fun a => if base ≤ a ∧ a < base + bs.n ^ (3 - 1) then coarse a * 2 else coarse a
      have s0 := quadB_scale bs 3 base 2 coarse
      simp [nFace, dimsInPlace, strAt, iHalf, List.range_succ, stretchFac]
      simp at t s0
      linarith
    · have s0 := quadB_scale bs 3 base 2 coarse
      have s1 := quadB_scale bs 3 base 2 fun a => if base ≤ a ∧ a < base + bs.n ^ (3 - 1) then coarse a * 2 else coarse a
      simp [nFace, dimsInPlace, strAt, iHalf, List.range_succ, stretchFac]
      simp at s0 s1
      linarith

end Hexed.Spatial
