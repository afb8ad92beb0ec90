import Verif.Metric.Refined
import Verif.Solver.Freestream
set_option autoImplicit false
set_option linter.unusedVariables false

/-!
# Uniform flow on meshes whose normals close

The linear algebra of free-stream preservation: nothing is said here about where the normals come from.
-/

namespace Hexed.Metric
open Hexed.Spatial Hexed.Pde Hexed.Solver
open Hexed.RowIndex (RowIndex)
open Hexed.Connection (Dir matchFaces restore strAt Legal matchFaces_eq tπ fπ)
noncomputable section

/-- The point of side 0's face that point `k` of side 1's face coincides with. -/
def partner (nd n : Nat) (c : ConRec) (k : Nat) : Nat := if c.deformed then fπ nd n c.dir (tπ nd n c.dir k) else k

/-- The normals of a mesh close: `N` assigns normals to face storage such that elements find the normals of their faces, the discrete divergence of the normals of an
element and its faces is zero, both sides of a connection have the connection's normal, and the normal of a coarse face is the
restriction of those of its fine faces. -/
structure Sealed (bs : BasisData) (m : Mesh) (N : Buf → Mem) : Prop where
  face : ∀ e ∈ m.elems, ∀ g, (m.elem e).geom = some g → ∀ f < 2 * m.nd, ∀ j < m.nd, ∀ k < bs.n ^ (m.nd - 1),
    faceNormals (m.elem e) (bs.n ^ (m.nd - 1)) f (j * bs.n ^ (m.nd - 1) + k) = N (.elem e f) (j * bs.n ^ (m.nd - 1) + k)
  closed : ∀ e ∈ m.elems, ∀ q < bs.n ^ m.nd, ∀ j < m.nd,
    ∑ d ∈ Finset.range m.nd, deriv2 bs (fun i _ => elemNormal m.nd (m.elem e) (pt m.nd bs.n d (rowOf m.nd bs.n d q) i) j d)
      (fun s _ => N (.elem e (2 * d + s)) (j * bs.n ^ (m.nd - 1) + rowOf m.nd bs.n d q)) (nodeOf m.nd bs.n d q) 0 = 0
  side0 : ∀ c ∈ m.cons, ∀ j < m.nd, ∀ k < bs.n ^ (m.nd - 1),
    N (c.side false) (j * bs.n ^ (m.nd - 1) + k) = sideSign c.deformed c.dir false * conNormal c.deformed c.dir (bs.n ^ (m.nd - 1)) c.normal k j
  side1 : ∀ c ∈ m.cons, (c.side true).isGhost = false → ∀ j < m.nd, ∀ k < bs.n ^ (m.nd - 1),
    N (c.side true) (j * bs.n ^ (m.nd - 1) + k) = sideSign c.deformed c.dir true * conNormal c.deformed c.dir (bs.n ^ (m.nd - 1)) c.normal (partner m.nd bs.n c k) j
  hang : ∀ r ∈ m.refs, ∀ j < m.nd, ∀ k < bs.n ^ (m.nd - 1),
    ∑ i ∈ Finset.range (nFace m.nd r.str), restricted bs m.nd true r i (N (r.fine i)) j k = N r.coarse (j * bs.n ^ (m.nd - 1) + k)

/-! ## Pieces -/

theorem flux_lin {nd : Nat} {s s' : Nat → ℝ} (h : ∀ v < nd + 2, s v = s' v) (n : Nat → ℝ) {v : Nat} (hv : v < nd + 2) :
    fluxConv nd s n v = ∑ j ∈ Finset.range nd, n j * fluxConv nd s' (fun i => if i = j then 1 else 0) v := by
  rw [flux_scale (a := 1) (n' := n) h (fun i _ => (one_mul _).symm) hv, one_mul]
  have hmf : ∀ j ∈ Finset.range nd, (sumN nd fun i => s' i * if i = j then 1 else 0) = s' j := by
    intro j hj
    rw [sumN_eq]; simp [Finset.mem_range.1 hj]
  simp only [fluxConv]
  rw [sumN_eq nd fun j => s' j * n j]
  by_cases h1 : v < nd
  · simp only [if_pos h1]
    rw [show (∑ j ∈ Finset.range nd, n j * (s' v * ((sumN nd fun i => s' i * if i = j then 1 else 0) / s' nd) + pressure nd s' * if v = j then 1 else 0)) =
      ∑ j ∈ Finset.range nd, (s' v * (s' j * n j / s' nd) + if v = j then pressure nd s' * n j else 0) from Finset.sum_congr rfl fun j hj => by rw [hmf j hj]; split <;> ring]
    rw [Finset.sum_add_distrib, ← Finset.mul_sum, ← Finset.sum_div]
    simp [h1]
  · simp only [if_neg h1]
    by_cases h2 : v = nd
    · simp only [if_pos h2]
      exact Finset.sum_congr rfl fun j hj => by rw [hmf j hj]; ring
    · simp only [if_neg h2]
      rw [Finset.sum_div, Finset.mul_sum]
      exact Finset.sum_congr rfl fun j hj => by rw [hmf j hj]; ring

/-- The numerical flux between equal states. -/
theorem numFlux_same (nd : Nat) (visc : Bool) (mu kappa : Transport) (fs : Nat → ℝ) {u0 u1 : Nat → ℝ} (h0 : ∀ v < nd + 2, u0 v = fs v) (h1 : ∀ v < nd + 2, u1 v = fs v) (n : Nat → ℝ) {v : Nat} (hv : v < nd + 2) :
    numFlux (ns nd visc mu kappa) nd n u0 u1 v = ∑ j ∈ Finset.range nd, n j * fluxConv nd fs (fun i => if i = j then 1 else 0) v := by
  obtain ⟨a1, a2, a3⟩ := ns_faceLocal nd visc mu kappa u0 fs h0
  obtain ⟨b1, b2, b3⟩ := ns_faceLocal nd visc mu kappa u1 fs h1
  rw [numFlux, a1, a2, a3, b1, b2, b3, sub_self, mul_zero, add_zero, ← two_mul, ← mul_assoc]
  norm_num
  show fluxConv nd (fetchExtrapState nd fs) n v = _
  exact flux_lin (fun v hv => by rw [fetchExtrapState, if_pos hv]) n hv

/-- The derivative does not see boundary values which are the extrapolated ones. -/
theorem deriv2_extrap {bs : BasisData} (row bound : Nat → Nat → ℝ) (i v : Nat) (h : ∀ s < 2, bound s v = ∑ j ∈ Finset.range bs.n, bs.bound s j * row j v) :
    deriv2 bs row bound i v = ∑ j ∈ Finset.range bs.n, bs.diff i j * row j v := by
  rw [deriv2, Basis.deriv]
  simp only [Basis.range_sum]
  rw [add_eq_left]
  refine Finset.sum_eq_zero fun s hs => ?_
  rw [h s (Finset.mem_range.1 hs)]
  simp

/-- The derivative is linear. -/
theorem deriv2_lin {bs : BasisData} (row bound : Nat → Nat → ℝ) (i v : Nat) (J : Nat) (a : Nat → ℝ) (row' bound' : Nat → Nat → Nat → ℝ) (hr : ∀ k < bs.n, row k v = ∑ j ∈ Finset.range J, a j * row' j k 0)
    (hb : ∀ s < 2, bound s v = ∑ j ∈ Finset.range J, a j * bound' j s 0) : deriv2 bs row bound i v = ∑ j ∈ Finset.range J, a j * deriv2 bs (row' j) (bound' j) i 0 := by
  simp only [deriv2, Basis.deriv, Basis.range_sum]
  have h1 : ∀ M : Nat → ℝ, ∑ k ∈ Finset.range bs.n, M k * row k v = ∑ j ∈ Finset.range J, a j * ∑ k ∈ Finset.range bs.n, M k * row' j k 0 := by
    intro M
    rw [Finset.sum_congr rfl fun k hk => by rw [hr k (Finset.mem_range.1 hk), Finset.mul_sum], Finset.sum_comm]
    refine Finset.sum_congr rfl fun j _ => ?_
    rw [Finset.mul_sum]
    exact Finset.sum_congr rfl fun k _ => by ring
  rw [h1]
  simp only [mul_add, Finset.sum_add_distrib]
  congr 1
  have h2 : ∀ s ∈ Finset.range 2, Basis.lift bs.weight bs.bound i s * (bound s v - ∑ k ∈ Finset.range bs.n, bs.bound s k * row k v) =
      ∑ j ∈ Finset.range J, a j * (Basis.lift bs.weight bs.bound i s * (bound' j s 0 - ∑ k ∈ Finset.range bs.n, bs.bound s k * row' j k 0)) := by
    intro s hs
    rw [h1, hb s (Finset.mem_range.1 hs), ← Finset.sum_sub_distrib, Finset.mul_sum]
    exact Finset.sum_congr rfl fun j _ => by ring
  rw [Finset.sum_congr rfl h2, Finset.sum_comm]
  exact Finset.sum_congr rfl fun j _ => by rw [Finset.mul_sum]

theorem dims_zero {nd n : Nat} (hn : 0 < n) (mats : Nat → Nat → Nat → ℝ) (fac : ℝ) (str : Bool × Bool) (i base : Nat) (mem : Mem) (h : ∀ k < n ^ (nd - 1), mem (base + k) = 0) :
    ∀ k < n ^ (nd - 1), dimsInPlace nd n mats fac str i base mem (base + k) = 0 := by
  intro k hk
  have := dims_lin hn mats fac str i base 0 (fun _ => 0) (fun _ => 0) mem (fun _ _ => 0) (by simpa using h) k hk
  simpa using this

theorem strFac_one (nd : Nat) (str : Bool × Bool) : strFac nd 1 str = 1 := by
  rw [strFac]; simp

/-- Restriction of constants. -/
theorem const_restrict {bs : BasisData} {b : Basis.Nodes ℝ} {deg : Nat} (hof : bs.IsOf b) (hb : b.Exact deg) (hn : 0 < b.n) (hdeg : b.n ≤ deg + 1) {nd : Nat} (hnd : 1 ≤ nd ∧ nd ≤ 3) (r : RefRec) (x : ℝ)
    (mem : Nat → Mem) (v : Nat) (h : ∀ i < nFace nd r.str, ∀ k < bs.n ^ (nd - 1), mem i (v * bs.n ^ (nd - 1) + k) = x) {k : Nat} (hk : k < bs.n ^ (nd - 1)) :
    ∑ i ∈ Finset.range (nFace nd r.str), restricted bs nd false r i (mem i) v k = x := by
  have := restrict_str hof hb hn hnd Nat.one_pos (by omega : 1 + b.n ≤ deg + 2) (f := fun _ => x) (polyIn_const nd x fun _ => rfl) (d := 0) (by omega) 0 (fun _ => 0) 1 (1 / stretchFac false) 1 r.str
    (by simp [stretchFac, strFac_one]) (v * bs.n ^ (nd - 1)) mem (fun i hi k hk => by rw [h i hi k (by rw [hof.n]; exact hk), one_mul]) k (by rw [← hof.n]; exact hk)
  exact this

/-- Prolongation of constants. -/
theorem const_prolong {bs : BasisData} {b : Basis.Nodes ℝ} (hof : bs.IsOf b) (hb : b.Distinct) (hn : 0 < b.n) {nd : Nat} (hnd : 1 ≤ nd ∧ nd ≤ 3) (str : Bool × Bool) (i base : Nat) (x : ℝ)
    (mem : Mem) (h : ∀ k < bs.n ^ (nd - 1), mem (base + k) = x) {k : Nat} (hk : k < bs.n ^ (nd - 1)) :
    dimsInPlace nd bs.n bs.prolong (stretchFac false) str i base mem (base + k) = x := by
  have := prolong_str hof hb hn hn (f := fun _ => x) (polyIn_const nd x fun _ => rfl) (d := 0) (by omega) 0 (fun _ => 0) (fun _ => 1) (stretchFac false) str i base mem
    (fun k hk => h k (by rw [hof.n]; exact hk)) k (by rw [← hof.n]; exact hk)
  rw [this]
  simp [stretchFac, strFac_one]

theorem bound_sum {bs : BasisData} {b : Basis.Nodes ℝ} (hof : bs.IsOf b) (hb : b.Distinct) (hn : 0 < b.n) {s : Nat} (hs : s < 2) : ∑ i ∈ Finset.range bs.n, bs.bound s i = 1 := by
  have := hof.mats.extrap hb hs (Polynomial.C 1) (lt_of_le_of_lt Polynomial.degree_C_le (by exact_mod_cast hn))
  simpa [hof.n] using this

theorem diff_sum {bs : BasisData} {b : Basis.Nodes ℝ} (hof : bs.IsOf b) (hb : b.Distinct) (hn : 0 < b.n) {i : Nat} (hi : i < bs.n) : ∑ j ∈ Finset.range bs.n, bs.diff i j = 0 := by
  rw [hof.n] at hi ⊢
  have := Basis.derivative_exact hb (Polynomial.C 1) (lt_of_le_of_lt Polynomial.degree_C_le (by exact_mod_cast hn)) hi
  rw [Finset.sum_congr rfl fun j hj => hof.mats.diff_eq hi (Finset.mem_range.1 hj)]
  simpa using this

/-- The gradient in a deformed element. -/
theorem gradient_def (p : Pde) (bs : BasisData) (hn : 0 < bs.n) (nd : Nat) {e : ElemRec} {g : Geom} (he : e.geom = some g) (state : Arr) (visc : Nat → Mem) {j : Nat} (hj : j < nd) {q : Nat} (hq : q < bs.n ^ nd)
    {u : Nat} (hu : u < p.nExtrap) :
    gradient p bs nd e state visc j (u, q) = ∑ d ∈ Finset.range nd,
      deriv2 bs (fun i _ => g.nrml (d * nd + j, pt nd bs.n d (rowOf nd bs.n d q) i) * p.fetchExtrap (fun v => state (v, pt nd bs.n d (rowOf nd bs.n d q) i)) u)
        (fun s _ => faceNormals e (bs.n ^ (nd - 1)) (2 * d + s) (j * bs.n ^ (nd - 1) + rowOf nd bs.n d q) * visc (2 * d + s) (u * bs.n ^ (nd - 1) + rowOf nd bs.n d q)) (nodeOf nd bs.n d q) 0 / e.size := by
  rw [← dk_sum hn hq, gradient, overRows_eq nd bs.n hn]
  simp only [he]
  set T : Nat → Nat → Nat → ℝ := fun d k i =>
    deriv2 bs (fun i _ => g.nrml (d * nd + j, pt nd bs.n d k i) * p.fetchExtrap (fun v => state (v, pt nd bs.n d k i)) u)
        (fun s _ => faceNormals e (bs.n ^ (nd - 1)) (2 * d + s) (j * bs.n ^ (nd - 1) + k) * visc (2 * d + s) (u * bs.n ^ (nd - 1) + k)) i 0 / e.size with hT
  have inner : ∀ (d k : Nat), d < nd → ∀ (gr : Nat → Arr),
      (List.range nd).foldl (fun gr j_dim => (List.range p.nExtrap).foldl (fun (gr : Nat → Arr) i_var =>
        fun d' => if d' = j_dim then writeRow 1 (fun i (_ : Nat) => deriv2 bs (fun i _ => readRow g.nrml (d * nd) (RowIndex.after nd bs.n d k) i j_dim *
            readRow (fun k => p.fetchExtrap (fun v => state (v, k.2)) k.1) 0 (RowIndex.after nd bs.n d k) i i_var)
          (fun s _ => readBound (faceNormals e (bs.n ^ (nd - 1))) (RowIndex.after nd bs.n d k) s j_dim * readBound visc (RowIndex.after nd bs.n d k) s i_var) i 0 / e.size) (gr d') i_var (RowIndex.after nd bs.n d k) 1 else gr d') gr) gr j (u, q) =
      gr j (u, q) + if rowOf nd bs.n d q = k then T d k (nodeOf nd bs.n d q) else 0 := by
    intro d k hd gr
    have hvar : ∀ (j_dim : Nat) (V : Nat) (gr : Nat → Arr), (List.range V).foldl (fun (gr : Nat → Arr) i_var =>
        fun d' => if d' = j_dim then writeRow 1 (fun i (_ : Nat) => deriv2 bs (fun i _ => readRow g.nrml (d * nd) (RowIndex.after nd bs.n d k) i j_dim *
            readRow (fun k => p.fetchExtrap (fun v => state (v, k.2)) k.1) 0 (RowIndex.after nd bs.n d k) i i_var)
          (fun s _ => readBound (faceNormals e (bs.n ^ (nd - 1))) (RowIndex.after nd bs.n d k) s j_dim * readBound visc (RowIndex.after nd bs.n d k) s i_var) i 0 / e.size) (gr d') i_var (RowIndex.after nd bs.n d k) 1 else gr d') gr j (u, q) =
        gr j (u, q) + if j = j_dim ∧ u < V ∧ rowOf nd bs.n d q = k then T d k (nodeOf nd bs.n d q) else 0 := by
      intro j_dim V gr
      induction V with
      | zero => simp
      | succ V ih =>
        rw [List.range_succ, List.foldl_append, List.foldl_cons, List.foldl_nil]
        beta_reduce
        by_cases hjd : j = j_dim
        · subst hjd
          rw [if_pos rfl, writeRow_at hn hd]
          by_cases hc : rowOf nd bs.n d q = k ∧ V ≤ u ∧ u < V + 1
          · obtain ⟨hc1, hc2, hc3⟩ := hc
            obtain rfl : u = V := by omega
            rw [if_pos ⟨hc1, hc2, hc3⟩, ih, if_neg (by omega), if_pos ⟨rfl, by omega, hc1⟩, add_zero, one_mul]
            congr 1
            simp only [hT]
            congr 1
            congr 1
            · funext i _
              rw [readRow_after hn hd, readRow, qpoint_pt nd bs.n d hn hd]
            · funext s _
              rw [readBound_after hn hd, readBound_after hn hd]
          · rw [if_neg hc, ih]
            congr 1
            by_cases h1 : u < V ∧ rowOf nd bs.n d q = k
            · rw [if_pos ⟨rfl, h1.1, h1.2⟩, if_pos ⟨rfl, by omega, h1.2⟩]
            · rw [if_neg fun h => h1 ⟨h.2.1, h.2.2⟩, if_neg fun h => h1 ⟨by by_contra h3; exact hc ⟨h.2.2, by omega, h.2.1⟩, h.2.2⟩]
        · rw [if_neg hjd, ih, if_neg fun h => hjd h.1, if_neg fun h => hjd h.1]
    have hdim : ∀ (D : Nat) (gr : Nat → Arr), (List.range D).foldl (fun gr j_dim => (List.range p.nExtrap).foldl (fun (gr : Nat → Arr) i_var =>
        fun d' => if d' = j_dim then writeRow 1 (fun i (_ : Nat) => deriv2 bs (fun i _ => readRow g.nrml (d * nd) (RowIndex.after nd bs.n d k) i j_dim *
            readRow (fun k => p.fetchExtrap (fun v => state (v, k.2)) k.1) 0 (RowIndex.after nd bs.n d k) i i_var)
          (fun s _ => readBound (faceNormals e (bs.n ^ (nd - 1))) (RowIndex.after nd bs.n d k) s j_dim * readBound visc (RowIndex.after nd bs.n d k) s i_var) i 0 / e.size) (gr d') i_var (RowIndex.after nd bs.n d k) 1 else gr d') gr) gr j (u, q) =
        gr j (u, q) + if j < D ∧ rowOf nd bs.n d q = k then T d k (nodeOf nd bs.n d q) else 0 := by
      intro D gr
      induction D with
      | zero => simp
      | succ D ih =>
        rw [List.range_succ, List.foldl_append, List.foldl_cons, List.foldl_nil, hvar, ih, add_assoc]
        congr 1
        by_cases hk : rowOf nd bs.n d q = k
        · rcases Nat.lt_trichotomy j D with h | h | h
          · rw [if_pos ⟨h, hk⟩, if_neg (by omega), if_pos ⟨by omega, hk⟩, add_zero]
          · rw [if_neg (by omega), if_pos ⟨h, hu, hk⟩, if_pos ⟨by omega, hk⟩, zero_add]
          · rw [if_neg (by omega), if_neg (by omega), if_neg (by omega), add_zero]
        · simp [hk]
    rw [hdim nd gr]
    simp [hj]
  have : ∀ (l : List (Nat × Nat)) (gr : Nat → Arr), (∀ x ∈ l, x.1 < nd ∧ x.2 < bs.n ^ (nd - 1)) →
      l.foldl (fun (gr : Nat → Arr) (x : Nat × Nat) => (List.range nd).foldl (fun gr j_dim => (List.range p.nExtrap).foldl (fun (gr : Nat → Arr) i_var =>
        fun d' => if d' = j_dim then writeRow 1 (fun i (_ : Nat) => deriv2 bs (fun i _ => readRow g.nrml (x.1 * nd) (RowIndex.after nd bs.n x.1 x.2) i j_dim *
            readRow (fun k => p.fetchExtrap (fun v => state (v, k.2)) k.1) 0 (RowIndex.after nd bs.n x.1 x.2) i i_var)
          (fun s _ => readBound (faceNormals e (bs.n ^ (nd - 1))) (RowIndex.after nd bs.n x.1 x.2) s j_dim * readBound visc (RowIndex.after nd bs.n x.1 x.2) s i_var) i 0 / e.size) (gr d') i_var (RowIndex.after nd bs.n x.1 x.2) 1 else gr d') gr) gr) gr j (u, q) =
      gr j (u, q) + (l.map fun x => if rowOf nd bs.n x.1 q = x.2 then T x.1 x.2 (nodeOf nd bs.n x.1 q) else 0).sum := by
    intro l
    induction l with
    | nil => intro gr _; simp
    | cons x l ih =>
      intro gr hl
      rw [List.foldl_cons, ih _ fun y hy => hl y (by simp [hy]), inner x.1 x.2 (hl x (by simp)).1 gr, List.map_cons, List.sum_cons, add_assoc]
  rw [this _ _ fun x hx => mem_dk.1 hx, zero_add]
  refine congrArg List.sum (List.map_congr_left fun x _ => ?_)
  split
  · next h => rw [h]
  · rfl

end
end Hexed.Metric
