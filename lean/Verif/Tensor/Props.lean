import Verif.Tensor.Lemmas
set_option autoImplicit false
set_option linter.unusedVariables false

/-!
# C20: tensor-product operators are the Kronecker product

Specification: `idx d` is the position of the entry with coordinates `d` (first coordinate slowest), and
`kron m v d = ∑ c, (∏ k, m (d k) (c k)) * v (idx c)`, the sum over all coordinate tuples `c`.
-/

namespace Hexed.Tensor
open Finset Hexed.RowIndex
variable {K : Type} [CommRing K]

/-- Every position below `b^n` is that of some coordinates, so statements about all coordinates are about all entries. -/
theorem idx_surj {n b : Nat} (hb : 0 < b) (j : Nat) (hj : j < b ^ n) : ∃ d : Fin n → Fin b, idx d = j := by
  obtain ⟨ds, h1, h2, _⟩ := coords_unique b hb n j hj
  refine ⟨fun i => ⟨ds[i.1]'(by rw [h1.1]; exact i.2), h1.2 _ (List.getElem_mem _)⟩, ?_⟩
  unfold idx
  have : (List.ofFn fun i : Fin n => ((⟨ds[i.1]'(by rw [h1.1]; exact i.2), h1.2 _ (List.getElem_mem _)⟩ : Fin b) : Nat)) = ds := by
    apply List.ext_getElem
    · simp [h1.1]
    · intro i h3 h4; simp
  rw [this, h2]

/-- C20: `hypercube_matvec` of an `n`-dimensional array (n ≥ 1, a matrix with at least 2 columns) is the `n`-fold Kronecker
power of the matrix applied to the array, whatever the new vectors initially contain; the recursion is `n` deep. -/
theorem hypercube_kron (m : Mat K) (u : Nat → K) (hc : 2 ≤ m.cols) (hr : 1 ≤ m.rows) (n : Nat) (hn : 1 ≤ n) (v : Vec K)
    (hv : v.size = m.cols ^ n) (fuel : Nat) (hf : n ≤ fuel) :
    ∃ r, hypercube m u fuel v = some r ∧ r.size = m.rows ^ n ∧
      ∀ d : Fin n → Fin m.rows, r.val (idx d) = ∑ c : Fin n → Fin m.cols, (∏ k, m.val (d k) (c k)) * v.val (idx c) := by
  obtain ⟨k, rfl⟩ : ∃ k, n = k + 1 := ⟨n - 1, by omega⟩
  exact hypercube_ok m u hc hr k v hv fuel (by omega)

/-- C20, what is excluded: a 1-column matrix with more than one entry, or an array with a single entry and a matrix with
several columns, recurses or loops forever. -/
theorem hypercube_one_column (m : Mat K) (u : Nat → K) (hc : m.cols = 1) (v : Vec K) (hv : 1 < v.size) (fuel : Nat) :
    hypercube m u fuel v = none := by
  cases fuel with
  | zero => rfl
  | succ fuel =>
    rw [hypercube, if_neg (by omega)]
    simp only [hc, Nat.div_one]
    rw [if_neg (by omega), prodSize, dif_pos hv, dif_neg (by omega)]; rfl

/-- C20: `pow_outer` is the outer power: the entry at coordinates `d` is the product of the vector's entries at those
coordinates. -/
theorem pow_outer_prod (u : Nat → K) (v : Vec K) (hv : 1 ≤ v.size) (n : Nat) (fuel : Nat) (hf : n ≤ fuel) :
    ∃ r, powOuter u fuel v n = some r ∧ r.size = v.size ^ n ∧ ∀ d : Fin n → Fin v.size, r.val (idx d) = ∏ k, v.val (d k) := by
  unfold powOuter
  cases n with
  | zero => exact ⟨⟨1, fun _ => 1⟩, by simp, by simp, by simp⟩
  | succ n =>
    rw [if_neg (by omega)]
    obtain ⟨r, h1, h2, h3⟩ := hypercube_kron (⟨v.size, 2, fun i j => if j = 0 then v.val i else 0⟩ : Mat K) u (le_refl _) hv (n + 1) (by omega)
      ⟨MathFn.pow (K := Nat) 2 ((n + 1 : Nat) : Int), fun i => if i = 0 then 1 else 0⟩ (MathFn.pow_nat 2 (n + 1)) fuel hf
    refine ⟨r, h1, h2, ?_⟩
    intro d
    rw [h3]
    rw [Finset.sum_eq_single (fun _ => (0 : Fin 2))]
    · have h0 : ∀ k, idx (fun _ : Fin k => (0 : Fin 2)) = 0 := by
        intro k
        induction k with
        | zero => rfl
        | succ k ih =>
          have : (fun _ : Fin (k + 1) => (0 : Fin 2)) = Fin.cons 0 (fun _ => 0) := by
            funext i; refine Fin.cases ?_ (fun _ => ?_) i <;> rfl
          rw [this, idx_cons, ih]; simp
      simp [h0]
    · intro c _ hc
      have : ∃ k, c k ≠ 0 := by
        by_contra hcon; push Not at hcon; exact hc (funext hcon)
      obtain ⟨k, hk⟩ := this
      rw [Finset.prod_eq_zero (Finset.mem_univ k), zero_mul]
      have : ((c k : Fin 2) : Nat) ≠ 0 := fun h => hk (Fin.ext h)
      simp [this]
    · simp

/-- C20: `dimension_matvec` acts along dimension `i_dim` only: with the array seen as (leading dimensions) x (dimension i_dim)
x (trailing part of `n_cols` entries), the entry at (pre, r, post) is the sum over k of `m r k` times the entry at (pre, k,
post). -/
theorem dimension_sum (m : Mat K) (u : Nat → K) (v : Vec K) (i_dim n_cols : Nat) (hc : 1 ≤ m.cols)
    (hv : v.size = m.cols ^ (i_dim + 1) * n_cols) :
    ∃ r, dimension m u v i_dim = some r ∧ r.size = m.cols ^ i_dim * m.rows * n_cols ∧
      ∀ pre row post, pre < m.cols ^ i_dim → row < m.rows → post < n_cols →
        r.val ((pre * m.rows + row) * n_cols + post) = ∑ k ∈ range m.cols, m.val row k * v.val ((pre * m.cols + k) * n_cols + post) := by
  have hp : MathFn.pow (K := Nat) m.cols ((i_dim : Int) + 1) = m.cols ^ (i_dim + 1) := MathFn.pow_nat m.cols (i_dim + 1)
  have hpos : 0 < m.cols ^ (i_dim + 1) := Nat.pow_pos hc
  have hsz : v.size * m.rows / m.cols = m.cols ^ i_dim * m.rows * n_cols := by
    rw [hv, pow_succ, show m.cols ^ i_dim * m.cols * n_cols * m.rows = m.cols ^ i_dim * m.rows * n_cols * m.cols by ring,
      Nat.mul_div_cancel _ hc]
  have hnr : m.cols ^ (i_dim + 1) / m.cols = m.cols ^ i_dim := by rw [pow_succ, Nat.mul_div_cancel _ hc]
  have hncols : v.size / m.cols ^ (i_dim + 1) = n_cols := by rw [hv, Nat.mul_div_cancel_left _ hpos]
  unfold dimension
  simp only [hp]
  rw [if_neg (by omega), hsz, hnr, hncols]
  by_cases hB : m.rows * n_cols = 0
  · -- nothing to compute
    have hdeg : forLoop (m.cols ^ i_dim) (blockProduct m v n_cols) ⟨m.cols ^ i_dim * m.rows * n_cols, u⟩ =
        some ⟨m.cols ^ i_dim * m.rows * n_cols, u⟩ := by
      refine forLoop_eq _ (fun _ => (⟨m.cols ^ i_dim * m.rows * n_cols, u⟩ : Vec K)) _ ?_
      intro i hi
      unfold blockProduct
      have e1 : i * n_cols * m.rows = 0 := by rw [mul_assoc, mul_comm n_cols, hB, mul_zero]
      have e2 : i * n_cols * m.cols + m.cols * n_cols ≤ v.size := by
        rw [hv, pow_succ]
        have : (i + 1) * (m.cols * n_cols) ≤ m.cols ^ i_dim * (m.cols * n_cols) := Nat.mul_le_mul_right _ hi
        linarith [show (i + 1) * (m.cols * n_cols) = i * n_cols * m.cols + m.cols * n_cols by ring,
          show m.cols ^ i_dim * m.cols * n_cols = m.cols ^ i_dim * (m.cols * n_cols) by ring]
      simp only [e1, hB]
      rw [if_pos ⟨by omega, e2⟩]
      simp
    refine ⟨_, hdeg, rfl, ?_⟩
    intro pre row post _ h1 h2
    rcases Nat.mul_eq_zero.1 hB with h | h <;> omega
  · have hBp : 0 < m.rows * n_cols := Nat.pos_of_ne_zero hB
    have hn : 0 < n_cols := Nat.pos_of_mul_pos_left hBp
    refine ⟨_, forLoop_write _ _ u (fun j => j / (m.rows * n_cols)) (fun i j => ∑ k ∈ range m.cols,
      m.val ((j - i * n_cols * m.rows) / n_cols) k * v.val (i * n_cols * m.cols + k * n_cols + (j - i * n_cols * m.rows) % n_cols))
      _ ?_, rfl, ?_⟩
    · intro i hi val
      unfold blockProduct
      rw [if_pos]
      · congr 2
        funext j
        have hb := @div_eq_block (m.rows * n_cols) i j
        simp only [Nat.div_one, Nat.mod_one, true_and] at hb
        have e : i * n_cols * m.rows = i * (m.rows * n_cols) := by ring
        dsimp only
        simp only [e]
        by_cases hj : j / (m.rows * n_cols) = i
        · rw [if_pos (hb.2 ⟨hBp, hj⟩), if_pos hj]
        · rw [if_neg (fun h => hj (hb.1 h).2), if_neg hj]
      · constructor
        · show i * n_cols * m.rows + m.rows * n_cols ≤ m.cols ^ i_dim * m.rows * n_cols
          have : (i + 1) * (m.rows * n_cols) ≤ m.cols ^ i_dim * (m.rows * n_cols) := Nat.mul_le_mul_right _ hi
          linarith [show (i + 1) * (m.rows * n_cols) = i * n_cols * m.rows + m.rows * n_cols by ring,
            show m.cols ^ i_dim * m.rows * n_cols = m.cols ^ i_dim * (m.rows * n_cols) by ring]
        · rw [hv, pow_succ]
          have : (i + 1) * (m.cols * n_cols) ≤ m.cols ^ i_dim * (m.cols * n_cols) := Nat.mul_le_mul_right _ hi
          linarith [show (i + 1) * (m.cols * n_cols) = i * n_cols * m.cols + m.cols * n_cols by ring,
            show m.cols ^ i_dim * m.cols * n_cols = m.cols ^ i_dim * (m.cols * n_cols) by ring]
    · intro pre row post hpre hrow hpost
      have hlt : row * n_cols + post < m.rows * n_cols := by nlinarith
      have e0 : (pre * m.rows + row) * n_cols + post = pre * (m.rows * n_cols) + (row * n_cols + post) := by ring
      have e1 : ((pre * m.rows + row) * n_cols + post) / (m.rows * n_cols) = pre := by
        rw [e0, Nat.add_comm, Nat.add_mul_div_right _ _ hBp, Nat.div_eq_of_lt hlt, Nat.zero_add]
      dsimp only
      rw [e1, if_pos hpre]
      have e2 : (pre * m.rows + row) * n_cols + post - pre * n_cols * m.rows = row * n_cols + post := by
        rw [e0, show pre * n_cols * m.rows = pre * (m.rows * n_cols) by ring]; omega
      rw [e2]
      have e3 : (row * n_cols + post) / n_cols = row := by
        rw [Nat.add_comm, Nat.add_mul_div_right _ _ hn, Nat.div_eq_of_lt hpost, Nat.zero_add]
      have e4 : (row * n_cols + post) % n_cols = post := by
        rw [Nat.add_comm, Nat.add_mul_mod_self_right, Nat.mod_eq_of_lt hpost]
      rw [e3, e4]
      apply Finset.sum_congr rfl
      intro k _
      congr 2; ring

/-- Mixed-radix decomposition of a position into (pre, row, post). -/
theorem split3 {P R C j : Nat} (hj : j < P * R * C) : ∃ pre row post, pre < P ∧ row < R ∧ post < C ∧ j = (pre * R + row) * C + post := by
  have hC : 0 < C := Nat.pos_of_ne_zero (by rintro rfl; simp at hj)
  have hR : 0 < R := Nat.pos_of_ne_zero (by rintro rfl; simp at hj)
  refine ⟨j / C / R, j / C % R, j % C, ?_, Nat.mod_lt _ hR, Nat.mod_lt _ hC, ?_⟩
  · rw [Nat.div_div_eq_div_mul, Nat.div_lt_iff_lt_mul (Nat.mul_pos hC hR)]
    calc j < P * R * C := hj
      _ = P * (C * R) := by ring
  · rw [Nat.div_add_mod', Nat.div_add_mod']

/-- C20: for square matrices of the same size, applications along different dimensions commute, entry by entry. -/
theorem dimension_comm (a b : Mat K) (u : Nat → K) (v : Vec K) (i j n_cols N : Nat) (hN : 1 ≤ N) (ha : a.rows = N ∧ a.cols = N)
    (hb : b.rows = N ∧ b.cols = N) (hij : i < j) (hv : v.size = N ^ (j + 1) * n_cols) :
    ∃ va vab vb vba, dimension a u v i = some va ∧ dimension b u va j = some vab ∧ dimension b u v j = some vb ∧
      dimension a u vb i = some vba ∧ vab.size = v.size ∧ vba.size = v.size ∧ ∀ p, p < v.size → vab.val p = vba.val p := by
  obtain ⟨ar, ac, av⟩ := a
  obtain ⟨br, bc, bv⟩ := b
  obtain ⟨rfl, hac⟩ := ha
  dsimp only at hac; subst hac
  obtain ⟨hbr, hbc⟩ := hb
  dsimp only at hbr hbc; subst hbc; subst hbr
  -- trailing part seen from dimension i
  have hvi : v.size = br ^ (i + 1) * (br ^ (j - i - 1) * br * n_cols) := by
    rw [hv, show br ^ (j + 1) = br ^ (i + 1) * (br ^ (j - i - 1) * br) by rw [← pow_succ, ← pow_add]; congr 1; omega]; ring
  obtain ⟨va, h1, s1, f1⟩ := dimension_sum (⟨br, br, av⟩ : Mat K) u v i _ hN hvi
  have sva : va.size = br ^ (j + 1) * n_cols := by
    rw [s1, ← hv, hvi, pow_succ br i]
  obtain ⟨vab, h2, s2, f2⟩ := dimension_sum (⟨br, br, bv⟩ : Mat K) u va j n_cols hN sva
  obtain ⟨vb, h3, s3, f3⟩ := dimension_sum (⟨br, br, bv⟩ : Mat K) u v j n_cols hN hv
  have svb : vb.size = br ^ (i + 1) * (br ^ (j - i - 1) * br * n_cols) := by
    rw [← hvi, hv, s3, pow_succ br j]
  obtain ⟨vba, h4, s4, f4⟩ := dimension_sum (⟨br, br, av⟩ : Mat K) u vb i _ hN svb
  refine ⟨va, vab, vb, vba, h1, h2, h3, h4, by rw [s2, hv, pow_succ br j], by rw [s4, ← pow_succ, ← hvi], ?_⟩
  intro p hp
  dsimp only at f1 f2 f3 f4
  -- coordinates: pre, x (dim i), mid, y (dim j), post
  obtain ⟨pre, x, rest, hpre, hx, hrest, rfl⟩ := split3 (P := br ^ i) (R := br) (C := br ^ (j - i - 1) * br * n_cols)
    (by rw [← pow_succ, ← hvi]; exact hp)
  obtain ⟨mid, y, post, hmid, hy, hpost, rfl⟩ := split3 hrest
  have hpe : br ^ j = br ^ i * br * br ^ (j - i - 1) := by rw [← pow_succ, ← pow_add]; congr 1; omega
  have key : ∀ x', (pre * br + x') * (br ^ (j - i - 1) * br * n_cols) + ((mid * br + y) * n_cols + post) =
      (((pre * br + x') * br ^ (j - i - 1) + mid) * br + y) * n_cols + post := fun x' => by ring
  have hlt : ∀ x', x' < br → (pre * br + x') * br ^ (j - i - 1) + mid < br ^ j := by
    intro x' hx'
    rw [hpe]
    have h5 : pre * br + x' + 1 ≤ br ^ i * br := by nlinarith
    nlinarith
  have hrest' : ∀ y', y' < br → (mid * br + y') * n_cols + post < br ^ (j - i - 1) * br * n_cols := by
    intro y' hy'
    have h5 : mid * br + y' + 1 ≤ br ^ (j - i - 1) * br := by nlinarith
    nlinarith
  rw [f4 pre x _ hpre hx hrest, key x, f2 _ y post (hlt x hx) hy hpost]
  have l1 : ∀ l ∈ range br, va.val ((((pre * br + x) * br ^ (j - i - 1) + mid) * br + l) * n_cols + post) =
      ∑ k ∈ range br, av x k * v.val ((pre * br + k) * (br ^ (j - i - 1) * br * n_cols) + ((mid * br + l) * n_cols + post)) := by
    intro l hl
    rw [← f1 pre x ((mid * br + l) * n_cols + post) hpre hx (hrest' l (mem_range.1 hl))]
    congr 1; ring
  have l2 : ∀ k ∈ range br, vb.val ((pre * br + k) * (br ^ (j - i - 1) * br * n_cols) + ((mid * br + y) * n_cols + post)) =
      ∑ l ∈ range br, bv y l * v.val ((pre * br + k) * (br ^ (j - i - 1) * br * n_cols) + ((mid * br + l) * n_cols + post)) := by
    intro k hk
    rw [key k, f3 _ y post (hlt k (mem_range.1 hk)) hy hpost]
    apply Finset.sum_congr rfl
    intro l _
    congr 2; ring
  refine (Finset.sum_congr rfl (fun l hl => congrArg (bv y l * ·) (l1 l hl))).trans
    (Eq.trans ?_ (Finset.sum_congr rfl (fun k hk => congrArg (av x k * ·) (l2 k hk))).symm)
  simp only [Finset.mul_sum]
  rw [Finset.sum_comm]
  apply Finset.sum_congr rfl; intro k _
  apply Finset.sum_congr rfl; intro l _
  ring

/-- Non-vacuity: the 2x2 matrix [[1,2],[3,4]] on the array 0,1,2,3 of a 2-dimensional hypercube. -/
example : ∃ r, hypercube (K := ℤ) ⟨2, 2, fun i j => 2 * i + j + 1⟩ (fun _ => 99) 2 ⟨4, fun i => i⟩ = some r ∧ r.size = 4 ∧
    r.val 3 = 9 * 0 + 12 * 1 + 12 * 2 + 16 * 3 := by
  obtain ⟨r, h1, h2, h3⟩ := hypercube_kron (K := ℤ) ⟨2, 2, fun i j => 2 * i + j + 1⟩ (fun _ => 99) (le_refl _) (by norm_num) 2 (by norm_num)
    ⟨4, fun i => i⟩ (by norm_num) 2 (le_refl _)
  refine ⟨r, h1, h2, ?_⟩
  have h := h3 (fun _ => 1)
  have hi : idx (fun _ : Fin 2 => (1 : Fin 2)) = 3 := by decide
  rw [hi] at h
  rw [h]
  decide +kernel

end Hexed.Tensor
