import Verif.Vis.File
import Verif.Vis.Bounds
import Verif.Stats.Props
set_option autoImplicit false
set_option linter.unusedVariables false

/-!
# C78: visualization data

The functions of `Vis_data` evaluate the interpolating polynomial of the data at the points they are documented to, and the visualization files contain every element (edge, boundary face) once, as a block of points with positions and values of the interpolating polynomials, connected by cells between neighboring points.
-/

namespace Hexed.Vis
open Hexed.Tensor Hexed.Basis Hexed.Stats MvPolynomial

variable {b : Nodes ℝ}

/-- C78: whatever the values at the quadrature points are, they have exactly one interpolating polynomial. -/
theorem interp_unique (h : b.Distinct) (hb : 1 ≤ b.n) {nd : Nat} (g : Nat → ℝ) : ∃! p : MvPolynomial (Fin nd) ℝ, Interp b g p := by
  obtain ⟨p, hp⟩ := interp_exists h hb (nd := nd) g
  exact ⟨p, hp, fun q hq => interp_eq h hq hp⟩

theorem uniform_lin {nd n : Nat} (hn : 2 ≤ n) (d : Fin nd → Fin n) : (fun k => linSpaced n (d k)) = uniform n d := funext fun k => linSpaced_eq hn

/-- C78: `interior` gives the interpolating polynomial of each variable at a uniform block of points that includes the boundary of the element, in the documented layout. -/
theorem interior_interpolates (h : b.Distinct) (hb : 2 ≤ b.n) (u : Nat → ℝ) {nd nv n : Nat} (hnd : 1 ≤ nd) (hn : 2 ≤ n) (func : Nat → Nat → ℝ) (p : Nat → MvPolynomial (Fin nd) ℝ) (hp : ∀ v < nv, Interp b (func · v) (p v)) :
    ∃ r, interior b u nd nv (vars (MathFn.pow (K := Nat) b.n nd) nv func) n = some r ∧ r.size = n ^ nd * nv ∧ ∀ v < nv, ∀ d : Fin nd → Fin n, r.val (v * n ^ nd + idx d) = eval (uniform n d) (p v) := by
  obtain ⟨r, r1, r2, r3⟩ := interior_lag u hnd hb (by omega : 1 ≤ n) (nv := nv) func
  exact ⟨r, r1, r2, fun v hv d => by rw [r3 v hv d, uniform_lin hn, lag_eq h (hp v hv)]⟩

/-- C78: in two or more dimensions, `face` gives the interpolating polynomial at a uniform block of points on the face. -/
theorem face_interpolates (h : b.Distinct) (hb : 2 ≤ b.n) (u : Nat → ℝ) {m nv n : Nat} (hm : 1 ≤ m) (hn : 2 ≤ n) (func : Nat → Nat → ℝ) (p : Nat → MvPolynomial (Fin (m + 1)) ℝ) (hp : ∀ v < nv, Interp b (func · v) (p v)) (i : Fin (m + 1)) (s : Bool) :
    ∃ r, face b u (m + 1) nv (vars (MathFn.pow (K := Nat) b.n (m + 1 : Nat)) nv func) i s n = some r ∧ r.size = n ^ m * nv ∧
      ∀ v < nv, ∀ d : Fin m → Fin n, r.val (v * n ^ m + idx d) = eval (i.insertNth (if s then 1 else 0 : ℝ) (uniform n d) : Fin (m + 1) → ℝ) (p v) := by
  obtain ⟨r, r1, r2, r3⟩ := face_lag u hm hb (by omega : 1 ≤ n) (nv := nv) func i s
  refine ⟨r, r1, r2, fun v hv d => ?_⟩
  rw [r3 v hv d, uniform_lin hn, lag_eq h (hp v hv)]
  cases s <;> simp

/-- C78: in two or more dimensions, `edges` gives the interpolating polynomial at `n_sample` uniformly spaced points of all edges: edge `i*2^(n_dim - 1) + e` is the edge in direction `i` whose other coordinates are the digits of `e`. -/
theorem edges_interpolates (h : b.Distinct) (hb : 2 ≤ b.n) (u : Nat → ℝ) {m nv n : Nat} (hm : 1 ≤ m) (hn : 2 ≤ n) (func : Nat → Nat → ℝ) (p : Nat → MvPolynomial (Fin (m + 1)) ℝ) (hp : ∀ v < nv, Interp b (func · v) (p v)) :
    ∃ r, edges b u (m + 1) nv (vars (MathFn.pow (K := Nat) b.n (m + 1 : Nat)) nv func) n = some r ∧ r.size = nv * n * (2 ^ m * (m + 1)) ∧
      ∀ v < nv, ∀ s < n, ∀ i : Fin (m + 1), ∀ e : Fin m → Fin 2,
        r.val (((i * 2 ^ m + idx e) * nv + v) * n + s) = eval (i.insertNth ((s : ℝ) / ((n : ℝ) - 1)) fun l => ((e l : Nat) : ℝ) : Fin (m + 1) → ℝ) (p v) := by
  obtain ⟨r, r1, r2, r3⟩ := edges_lag u hm hb (by omega : 1 ≤ n) (nv := nv) func
  exact ⟨r, r1, r2, fun v hv s hs i e => by rw [r3 v hv s hs i e, linSpaced_eq hn, lag_eq h (hp v hv)]⟩

/-- C78: `sample` gives the interpolating polynomial at any points, inside or outside of the element. -/
theorem sample_interpolates (h : b.Distinct) (hb : 1 ≤ b.n) (u : Nat → ℝ) {nd nv : Nat} (func : Nat → Nat → ℝ) (p : Nat → MvPolynomial (Fin nd) ℝ) (hp : ∀ v < nv, Interp b (func · v) (p v)) (x : Nat → ℝ) (v : Nat) (hv : v < nv) :
    sample b u nd (vars (MathFn.pow (K := Nat) b.n nd) nv func) x v = some (eval (fun k : Fin nd => x k) (p v)) := by
  rw [sample_lag u hb func x hv, lag_eq h (hp v hv)]

/-- C78: a block of one point is the corner with the highest coordinates. -/
theorem interior_single (h : b.Distinct) (hb : 2 ≤ b.n) (u : Nat → ℝ) {nd nv : Nat} (hnd : 1 ≤ nd) (func : Nat → Nat → ℝ) (p : Nat → MvPolynomial (Fin nd) ℝ) (hp : ∀ v < nv, Interp b (func · v) (p v)) :
    ∃ r, interior b u nd nv (vars (MathFn.pow (K := Nat) b.n nd) nv func) 1 = some r ∧ r.size = nv ∧ ∀ v < nv, r.val v = eval (fun _ => 1) (p v) := by
  obtain ⟨r, r1, r2, r3⟩ := interior_lag u hnd hb (le_refl 1) (nv := nv) func
  refine ⟨r, r1, by simpa using r2, fun v hv => ?_⟩
  have e := r3 v hv fun _ => 0
  have h0 : idx (fun _ : Fin nd => (0 : Fin 1)) = 0 := by have := idx_lt (fun _ : Fin nd => (0 : Fin 1)); simpa using this
  rw [h0, one_pow, Nat.mul_one, Nat.add_zero] at e
  rw [e, lag_eq h (hp v hv)]
  congr 1

/-- Multiplying an array with fewer entries than columns never ends. -/
theorem hypercube_small (m : Mat ℝ) (u : Nat → ℝ) (hc : 2 ≤ m.cols) : ∀ (fuel : Nat) (v : Vec ℝ), v.size ≤ 1 → hypercube m u fuel v = none
  | 0, v, _ => rfl
  | fuel + 1, v, hv => by
    have e : v.size / m.cols = 0 := Nat.div_eq_of_lt (by omega)
    rw [hypercube, if_neg (by omega)]
    simp only [e]
    rw [if_neg (by omega), prodSize, dif_neg (by omega), Option.bind_some]
    split
    · rfl
    · rw [forLoop, show m.cols = (m.cols - 1) + 1 by omega, List.range_succ_eq_map, List.foldlM_cons]
      rw [readSeq, if_pos (Or.inl rfl), Option.bind_some, hypercube_small m u hc fuel _ (Nat.zero_le _)]
      rfl

/-- C78, where the full claim fails: in one dimension `edges` and `face` recurse forever instead of giving the values at the ends, whatever the depth of the stack. -/
theorem edges_1d_refuted (hb : 2 ≤ b.n) (u : Nat → ℝ) {nv n : Nat} (hv : 0 < nv) (func : Nat → Nat → ℝ) : edges b u 1 nv (vars (MathFn.pow (K := Nat) b.n 1) nv func) n = none := by
  have h1 : MathFn.pow (K := Nat) b.n ((1 : Nat) : Int) = b.n := (MathFn.pow_nat b.n 1).trans (pow_one _)
  have hq : ∀ vs v, edgeQpoints b u 1 vs 0 v = none := by
    intro vs v
    rw [edgeQpoints, forLoop, show b.n = (b.n - 1) + 1 by omega, List.range_succ_eq_map, List.foldlM_cons, hypercube_small (boundMat b) u hb _ _ (by
      simp only [slab, h1]; rw [Nat.div_self (by omega)])]
    rfl
  obtain ⟨k, rfl⟩ : ∃ k, nv = k + 1 := ⟨nv - 1, by omega⟩
  rw [edges, edgesMat, forLoop, List.range_one, List.foldlM_cons, forLoop, List.range_succ_eq_map, List.foldlM_cons, hq]
  rfl

/-! ## Extreme values -/

/-- C78: `bounds_field` gives the least and the greatest value of the interpolating polynomials at the sample points of all elements (compared with the largest number, as it must be without elements). -/
theorem bounds_extreme (h : b.Distinct) (hb : 2 ≤ b.n) (u : Nat → ℝ) (huge : ℝ) {nd nv n : Nat} (hnd : 1 ≤ nd) (hn : 2 ≤ n) (elems : List (Nat → Nat → ℝ)) (p : (Nat → Nat → ℝ) → Nat → MvPolynomial (Fin nd) ℝ)
    (hp : ∀ f ∈ elems, ∀ v < nv, Interp b (f · v) (p f v)) :
    ∃ bd, boundsField b u huge nd nv elems n = some bd ∧ ∀ v < nv,
      IsLeast (insert huge {y | ∃ f ∈ elems, ∃ d : Fin nd → Fin n, y = eval (uniform n d) (p f v)}) (bd v).1 ∧
      IsGreatest (insert (-huge) {y | ∃ f ∈ elems, ∃ d : Fin nd → Fin n, y = eval (uniform n d) (p f v)}) (bd v).2 := by
  obtain ⟨bd, h1, h2⟩ := boundsFold u hnd hb (by omega : 1 ≤ n) (nv := nv) elems fun _ => (huge, -huge)
  refine ⟨bd, h1, fun v hv => ?_⟩
  have := h2 v hv {huge} {-huge} (by simp) (by simp)
  have e : {y | ∃ f ∈ elems, ∃ d : Fin nd → Fin n, y = lag b (f · v) fun k => linSpaced n (d k)} = {y | ∃ f ∈ elems, ∃ d : Fin nd → Fin n, y = eval (uniform n d) (p f v)} := by
    ext y
    constructor
    · rintro ⟨f, hf, d, rfl⟩; exact ⟨f, hf, d, by rw [uniform_lin hn, lag_eq h (hp f hf v hv)]⟩
    · rintro ⟨f, hf, d, rfl⟩; exact ⟨f, hf, d, by rw [uniform_lin hn, lag_eq h (hp f hf v hv)]⟩
  rw [e] at this
  exact this

theorem uniform_unit {nd n : Nat} (hn : 2 ≤ n) (d : Fin nd → Fin n) (k : Fin nd) : 0 ≤ uniform n d k ∧ uniform n d k ≤ 1 := by
  have h1 : (0 : ℝ) < (n : ℝ) - 1 := by have : (2 : ℝ) ≤ n := by exact_mod_cast hn
                                        linarith
  have h2 : ((d k : Nat) : ℝ) ≤ (n : ℝ) - 1 := by
    have : ((d k : Nat) : ℝ) + 1 ≤ n := by exact_mod_cast (d k).2
    linarith
  exact ⟨div_nonneg (Nat.cast_nonneg _) h1.le, (div_le_one h1).2 h2⟩

/-- C78: with at least one element, and values smaller than the largest number, the bounds are values of the interpolating polynomials in the elements: the bounds are never too wide. -/
theorem bounds_attained (h : b.Distinct) (hb : 2 ≤ b.n) (u : Nat → ℝ) (huge : ℝ) {nd nv n : Nat} (hnd : 1 ≤ nd) (hn : 2 ≤ n) (elems : List (Nat → Nat → ℝ)) (p : (Nat → Nat → ℝ) → Nat → MvPolynomial (Fin nd) ℝ)
    (hp : ∀ f ∈ elems, ∀ v < nv, Interp b (f · v) (p f v)) (hne : elems ≠ []) (hhuge : ∀ f ∈ elems, ∀ v < nv, ∀ d : Fin nd → Fin n, |eval (uniform n d) (p f v)| ≤ huge) :
    ∃ bd, boundsField b u huge nd nv elems n = some bd ∧ ∀ v < nv,
      (∃ f ∈ elems, ∃ x : Fin nd → ℝ, (∀ k, 0 ≤ x k ∧ x k ≤ 1) ∧ (bd v).1 = eval x (p f v)) ∧ ∃ f ∈ elems, ∃ x : Fin nd → ℝ, (∀ k, 0 ≤ x k ∧ x k ≤ 1) ∧ (bd v).2 = eval x (p f v) := by
  obtain ⟨bd, h1, h2⟩ := bounds_extreme h hb u huge hnd hn elems p hp
  refine ⟨bd, h1, fun v hv => ?_⟩
  obtain ⟨⟨l1, l2⟩, g1, g2⟩ := h2 v hv
  obtain ⟨f0, hf0⟩ := List.exists_mem_of_ne_nil _ hne
  let d0 : Fin nd → Fin n := fun _ => ⟨0, by omega⟩
  have b0 := abs_le.1 (hhuge f0 hf0 v hv d0)
  have m0 : eval (uniform n d0) (p f0 v) ∈ {y | ∃ f ∈ elems, ∃ d : Fin nd → Fin n, y = eval (uniform n d) (p f v)} := ⟨f0, hf0, d0, rfl⟩
  refine ⟨?_, ?_⟩
  · rcases l1 with e | ⟨f, hf, d, e⟩
    · have := l2 (Or.inr m0)
      exact ⟨f0, hf0, uniform n d0, uniform_unit hn d0, by linarith⟩
    · exact ⟨f, hf, uniform n d, uniform_unit hn d, e⟩
  · rcases g1 with e | ⟨f, hf, d, e⟩
    · have := g2 (Or.inr m0)
      exact ⟨f0, hf0, uniform n d0, uniform_unit hn d0, by linarith⟩
    · exact ⟨f, hf, uniform n d, uniform_unit hn d, e⟩

/-- C78: with row size 2, the interpolating polynomials are between the bounds in all elements, so the bounds are exact. -/
theorem bounds_linear (h : b.Distinct) (hb : b.n = 2) (u : Nat → ℝ) (huge : ℝ) {nd nv n : Nat} (hnd : 1 ≤ nd) (hn : 2 ≤ n) (elems : List (Nat → Nat → ℝ)) (p : (Nat → Nat → ℝ) → Nat → MvPolynomial (Fin nd) ℝ)
    (hp : ∀ f ∈ elems, ∀ v < nv, Interp b (f · v) (p f v)) :
    ∃ bd, boundsField b u huge nd nv elems n = some bd ∧ ∀ v < nv, ∀ f ∈ elems, ∀ x : Fin nd → ℝ, (∀ k, 0 ≤ x k ∧ x k ≤ 1) → (bd v).1 ≤ eval x (p f v) ∧ eval x (p f v) ≤ (bd v).2 := by
  obtain ⟨bd, h1, h2⟩ := bounds_extreme h hb.ge u huge hnd hn elems p hp
  refine ⟨bd, h1, fun v hv f hf x hx => ?_⟩
  obtain ⟨⟨l1, l2⟩, g1, g2⟩ := h2 v hv
  refine corner_bounds (fun k => hb ▸ (hp f hf v hv).deg k) (fun c => ?_) hx
  let d : Fin nd → Fin n := fun k => ⟨c k * (n - 1), by have := (c k).2; rcases (show (c k : Nat) = 0 ∨ (c k : Nat) = 1 by omega) with e | e <;> rw [e] <;> omega⟩
  have e : uniform n d = fun k => ((c k : Nat) : ℝ) := by
    funext k
    have h3 : (0 : ℝ) < (n : ℝ) - 1 := by have : (2 : ℝ) ≤ n := by exact_mod_cast hn
                                          linarith
    simp only [uniform, d]
    push_cast [Nat.cast_sub (show 1 ≤ n by omega)]
    field_simp
  exact ⟨e ▸ l2 (Or.inr ⟨f, hf, d, rfl⟩), e ▸ g2 (Or.inr ⟨f, hf, d, rfl⟩)⟩

/-! ## Files -/

theorem foldlM_some {α β : Type} (f : β → α → Option β) (g : β → α → β) : ∀ (l : List α), (∀ a ∈ l, ∀ x, f x a = some (g x a)) → ∀ x, l.foldlM f x = some (l.foldl g x)
  | [], _, x => rfl
  | a :: l, h, x => by
    rw [List.foldlM_cons, h a (by simp), List.foldl_cons]
    exact foldlM_some f g l (fun c hc => h c (by simp [hc])) _

/-- C78: the file written by `visualize_field` shows each element once, as a block of points with the interpolated positions and output variables. -/
theorem visualize_field_shows (h : b.Distinct) (hb : 2 ≤ b.n) (u : Nat → ℝ) {nd nv n : Nat} (hnd : nd = 2 ∨ nd = 3) (hn : 2 ≤ n) (elems : List Elem) (p q : Nat → Nat → MvPolynomial (Fin nd) ℝ)
    (hp : ∀ e (he : e < elems.length), ∀ k < nd, Interp b ((elems[e]).pos · k) (p e k)) (hq : ∀ e (he : e < elems.length), ∀ v < nv, Interp b ((elems[e]).out · v) (q e v)) :
    ∃ x, visualizeField b u nd nv n false elems = some x ∧ Shows nd nd nv n elems.length (fun e d k => eval (uniform n d) (p e k)) (fun e d v => eval (uniform n d) (q e v)) x := by
  have hnd1 : 1 ≤ nd := by omega
  have H := fun (nv : Nat) (f : Nat → Nat → ℝ) => interior_lag (b := b) u hnd1 hb (by omega : 1 ≤ n) (nv := nv) f
  choose I i1 i2 i3 using H
  let blk : Elem → (Nat → ℝ) × (Nat → ℝ) := fun e => ((I nd e.pos).val, (I nv e.out).val)
  refine ⟨blocks nd nd nv n (elems.map blk) ⟨[], [], fun _ => [], 0⟩, ?_, ?_⟩
  · rw [visualizeField, if_pos hnd, blocks, List.foldl_map]
    refine foldlM_some _ _ _ (fun e he x => ?_) _
    simp only [Bool.false_eq_true, if_false, fieldBlock, i1, Option.bind_some, blk]
  · have := blocks_shows (ng := nd) (nv := nv) (by omega : nd = 1 ∨ nd = 2 ∨ nd = 3) hn (elems.map blk) (fun e d k => eval (uniform n d) (p e k)) (fun e d v => eval (uniform n d) (q e v))
      (fun e he d k hk => by
        rw [List.length_map] at he
        simp only [List.getElem_map, blk]
        rw [i3 nd _ k hk d, uniform_lin hn, lag_eq h (hp e he k hk)])
      (fun e he d v hv => by
        rw [List.length_map] at he
        simp only [List.getElem_map, blk]
        rw [i3 nv _ v hv d, uniform_lin hn, lag_eq h (hq e he v hv)])
    rwa [List.length_map] at this

/-- The edge of the unit cube in direction `i` whose other coordinates are `e`, at the point with coordinate `t`. -/
noncomputable def edgePoint {m : Nat} (i : Fin (m + 1)) (e : Fin m → Fin 2) (t : ℝ) : Fin (m + 1) → ℝ := i.insertNth t fun l => ((e l : Nat) : ℝ)

theorem foldl_flat {α β γ : Type} (f : β → γ → β) (g : α → List γ) : ∀ (l : List α) (x : β), l.foldl (fun x a => (g a).foldl f x) x = (l.flatMap g).foldl f x
  | [], x => rfl
  | a :: l, x => by rw [List.foldl_cons, List.flatMap_cons, List.foldl_append, foldl_flat f g l]

theorem flat_get {α γ : Type} {L : Nat} (g : α → List γ) (hg : ∀ a, (g a).length = L) (l : List α) (e j : Nat) (he : e < l.length) (hj : j < L) (hi : e * L + j < (l.flatMap g).length) :
    (l.flatMap g)[e * L + j] = (g l[e])[j]'(by rw [hg]; exact hj) := by
  have := chunk_get (L := L) (l.map g) (by intro x hx; obtain ⟨a, -, rfl⟩ := List.mem_map.1 hx; exact hg a) e (by simpa using he) j hj
  rw [← List.flatMap_def, List.getElem_map, List.getElem?_eq_getElem hi, List.getElem?_eq_getElem (by rw [hg]; exact hj)] at this
  exact Option.some.inj this

theorem flat_len {α γ : Type} {L : Nat} (g : α → List γ) (hg : ∀ a, (g a).length = L) (l : List α) : (l.flatMap g).length = l.length * L := by
  rw [List.flatMap_def, chunk_len (L := L) _ (by intro x hx; obtain ⟨a, -, rfl⟩ := List.mem_map.1 hx; exact hg a), List.length_map]

/-- Blocks of lines. -/
theorem line_shows {ng nv n L : Nat} {α : Type} (hn : 2 ≤ n) (l : List α) (g : α → List ((Nat → ℝ) × (Nat → ℝ))) (hg : ∀ a, (g a).length = L) (X V : Nat → (Fin 1 → Fin n) → Nat → ℝ)
    (hX : ∀ e (he : e < l.length), ∀ j (hj : j < L), ∀ s : Fin n, ∀ k < ng, ((g l[e])[j]'(by rw [hg]; exact hj)).1 (k * n + s) = X (e * L + j) (fun _ => s) k)
    (hV : ∀ e (he : e < l.length), ∀ j (hj : j < L), ∀ s : Fin n, ∀ k < nv, ((g l[e])[j]'(by rw [hg]; exact hj)).2 (k * n + s) = V (e * L + j) (fun _ => s) k) :
    Shows 1 ng nv n (l.length * L) X V (blocks 1 ng nv n (l.flatMap g) ⟨[], [], fun _ => [], 0⟩) := by
  have hlen := flat_len g hg l
  have key : ∀ B, B < l.length * L → ∃ e j, e < l.length ∧ j < L ∧ B = e * L + j := fun B hB => by
    have hL : 0 < L := Nat.pos_of_ne_zero fun h => by simp [h] at hB
    exact ⟨B / L, B % L, Nat.div_lt_of_lt_mul (by rwa [Nat.mul_comm] at hB), Nat.mod_lt _ hL, (Nat.div_add_mod' B L).symm⟩
  have hd : ∀ d : Fin 1 → Fin n, d = fun _ => d 0 := fun d => funext fun i => by rw [Subsingleton.elim i 0]
  have hi : ∀ d : Fin 1 → Fin n, idx d = d 0 := fun d => by simp [idx_sum]
  rw [← hlen]
  refine blocks_shows (Or.inl rfl) hn _ _ _ (fun B hB d k hk => ?_) fun B hB d k hk => ?_
  · obtain ⟨e, j, he, hj, rfl⟩ := key B (by rwa [hlen] at hB)
    rw [flat_get g hg l e j he hj hB, hd d, hi, pow_one]
    exact hX e he j hj (d 0) k hk
  · obtain ⟨e, j, he, hj, rfl⟩ := key B (by rwa [hlen] at hB)
    rw [flat_get g hg l e j he hj hB, hd d, hi, pow_one]
    exact hV e he j hj (d 0) k hk

/-- C78: the wireframe written by `visualize_field` shows each edge of each element once, as a row of points with the interpolated positions and output variables: block `e*n_edge + i*2^(n_dim - 1) + c` is an edge of element `e` in direction `i`. -/
theorem visualize_wire_shows (h : b.Distinct) (hb : 2 ≤ b.n) (u : Nat → ℝ) {m nv n : Nat} (hm : m = 1 ∨ m = 2) (hn : 2 ≤ n) (elems : List Elem) (p q : Nat → Nat → MvPolynomial (Fin (m + 1)) ℝ)
    (hp : ∀ e (he : e < elems.length), ∀ k < m + 1, Interp b ((elems[e]).pos · k) (p e k)) (hq : ∀ e (he : e < elems.length), ∀ v < nv, Interp b ((elems[e]).out · v) (q e v)) (X V : Nat → (Fin 1 → Fin n) → Nat → ℝ)
    (hX : ∀ e < elems.length, ∀ (i : Fin (m + 1)) (c : Fin m → Fin 2) (s : Fin n), ∀ k < m + 1, X (e * (2 ^ m * (m + 1)) + (i * 2 ^ m + idx c)) (fun _ => s) k = eval (edgePoint i c ((s : ℝ) / ((n : ℝ) - 1))) (p e k))
    (hV : ∀ e < elems.length, ∀ (i : Fin (m + 1)) (c : Fin m → Fin 2) (s : Fin n), ∀ v < nv, V (e * (2 ^ m * (m + 1)) + (i * 2 ^ m + idx c)) (fun _ => s) v = eval (edgePoint i c ((s : ℝ) / ((n : ℝ) - 1))) (q e v)) :
    ∃ x, visualizeField b u (m + 1) nv n true elems = some x ∧ Shows 1 (m + 1) nv n (elems.length * (2 ^ m * (m + 1))) X V x := by
  have hE : MathFn.pow (K := Nat) 2 (((m + 1 : Nat) : Int) - 1) = 2 ^ m := by push_cast; exact powi 2 m
  have H := fun (nv : Nat) (f : Nat → Nat → ℝ) => edges_lag (b := b) u (by omega : 1 ≤ m) hb (by omega : 1 ≤ n) (nv := nv) f
  choose I i1 i2 i3 using H
  let g : Elem → List ((Nat → ℝ) × (Nat → ℝ)) := fun e => (List.range (2 ^ m * (m + 1))).map fun i => (fun j => (I (m + 1) e.pos).val (i * (m + 1) * n + j), fun j => (I nv e.out).val (i * nv * n + j))
  have split : ∀ j < 2 ^ m * (m + 1), ∃ (i : Fin (m + 1)) (c : Fin m → Fin 2), j = i * 2 ^ m + idx c := fun j hj => by
    have hP : 0 < 2 ^ m := Nat.pow_pos (by norm_num)
    obtain ⟨c, hc⟩ := idx_surj (n := m) (b := 2) (by norm_num) (j % 2 ^ m) (Nat.mod_lt _ hP)
    exact ⟨⟨j / 2 ^ m, Nat.div_lt_of_lt_mul hj⟩, c, by rw [hc]; exact (Nat.div_add_mod' j _).symm⟩
  refine ⟨blocks 1 (m + 1) nv n (elems.flatMap g) ⟨[], [], fun _ => [], 0⟩, ?_, line_shows hn elems g (fun a => by simp [g]) X V ?_ ?_⟩
  · rw [visualizeField, if_pos (by omega), blocks, ← foldl_flat]
    refine foldlM_some _ _ _ (fun e he x => ?_) _
    simp only [if_true, wireBlock, i1, Option.bind_some, hE, g, List.foldl_map]
  · intro e he j hj s k hk
    obtain ⟨i, c, rfl⟩ := split j hj
    simp only [g, List.getElem_map, List.getElem_range]
    rw [hX e he i c s k hk, show ((i : Nat) * 2 ^ m + idx c) * (m + 1) * n + (k * n + s) = ((i * 2 ^ m + idx c) * (m + 1) + k) * n + s by ring, i3 _ _ k hk s s.2 i c, linSpaced_eq hn, lag_eq h (hp e he k hk), edgePoint]
  · intro e he j hj s v hv
    obtain ⟨i, c, rfl⟩ := split j hj
    simp only [g, List.getElem_map, List.getElem_range]
    rw [hV e he i c s v hv, show ((i : Nat) * 2 ^ m + idx c) * nv * n + (v * n + s) = ((i * 2 ^ m + idx c) * nv + v) * n + s by ring, i3 _ _ v hv s s.2 i c, linSpaced_eq hn, lag_eq h (hq e he v hv), edgePoint]

/-- The boundary faces with the given boundary condition, in order. -/
def chosen (bc_sn : Nat) (cons : List BoundFace) : List Elem := (cons.filter fun c => c.bc = bc_sn).map BoundFace.data

theorem foldlM_filter {α β : Type} (f : β → α → Option β) (P : α → Bool) (hP : ∀ a, P a = false → ∀ x, f x a = some x) : ∀ (l : List α) (x : β), l.foldlM f x = (l.filter P).foldlM f x
  | [], x => rfl
  | a :: l, x => by
    cases ha : P a with
    | false =>
      rw [List.filter_cons_of_neg (by simp [ha]), List.foldlM_cons, hP a ha]
      exact foldlM_filter f P hP l x
    | true =>
      rw [List.filter_cons_of_pos ha, List.foldlM_cons, List.foldlM_cons]
      congr 1
      funext y
      exact foldlM_filter f P hP l y

theorem nfq_eq (hb : 1 ≤ b.n) (m : Nat) : MathFn.pow (K := Nat) b.n (m + 1 : Nat) / b.n = MathFn.pow (K := Nat) b.n (m : Nat) := by
  rw [MathFn.pow_nat, MathFn.pow_nat, pow_succ, Nat.mul_div_cancel _ hb]

/-- C78: the file written by `visualize_surface` shows each boundary face with the given boundary condition once, and no other, as a block of points with the positions and output variables interpolated from the quadrature points of the face. -/
theorem visualize_surface_shows (h : b.Distinct) (hb : 2 ≤ b.n) (u : Nat → ℝ) {m nv n : Nat} (hm : m = 1 ∨ m = 2) (hn : 2 ≤ n) (bc_sn : Nat) (cons : List BoundFace) (p q : Nat → Nat → MvPolynomial (Fin m) ℝ)
    (hp : ∀ e (he : e < (chosen bc_sn cons).length), ∀ k < m + 1, Interp b (((chosen bc_sn cons)[e]).pos · k) (p e k)) (hq : ∀ e (he : e < (chosen bc_sn cons).length), ∀ v < nv, Interp b (((chosen bc_sn cons)[e]).out · v) (q e v)) :
    ∃ x, visualizeSurface b u (m + 1) nv n false bc_sn cons = some x ∧
      Shows m (m + 1) nv n (chosen bc_sn cons).length (fun e d k => eval (uniform n d) (p e k)) (fun e d v => eval (uniform n d) (q e v)) x := by
  have H := fun (nv : Nat) (f : Nat → Nat → ℝ) => interior_lag (b := b) u (by omega : 1 ≤ m) hb (by omega : 1 ≤ n) (nv := nv) f
  choose I i1 i2 i3 using H
  let blk : Elem → (Nat → ℝ) × (Nat → ℝ) := fun e => ((I (m + 1) e.pos).val, (I nv e.out).val)
  refine ⟨blocks m (m + 1) nv n ((chosen bc_sn cons).map blk) ⟨[], [], fun _ => [], 0⟩, ?_, ?_⟩
  · rw [visualizeSurface, if_pos (by rcases hm with rfl | rfl <;> simp), foldlM_filter _ (fun c => c.bc = bc_sn) (fun c hc x => by simp only [surfaceBlock]; rw [if_neg (by simpa using hc)]), blocks, List.foldl_map, chosen, List.foldl_map]
    refine foldlM_some _ _ _ (fun c hc x => ?_) _
    have hc' : c.bc = bc_sn := by simpa using (List.mem_filter.1 hc).2
    simp only [surfaceBlock, if_pos hc', Bool.false_eq_true, if_false, nfq_eq (by omega : 1 ≤ b.n), Nat.add_sub_cancel, i1, Option.bind_some, blk]
  · have := blocks_shows (ng := m + 1) (nv := nv) (by omega : m = 1 ∨ m = 2 ∨ m = 3) hn ((chosen bc_sn cons).map blk) (fun e d k => eval (uniform n d) (p e k)) (fun e d v => eval (uniform n d) (q e v))
      (fun e he d k hk => by
        rw [List.length_map] at he
        simp only [List.getElem_map, blk]
        rw [i3 _ _ k hk d, uniform_lin hn, lag_eq h (hp e he k hk)])
      (fun e he d v hv => by
        rw [List.length_map] at he
        simp only [List.getElem_map, blk]
        rw [i3 nv _ v hv d, uniform_lin hn, lag_eq h (hq e he v hv)])
    rwa [List.length_map] at this

/-- C78: the wireframe written by `visualize_surface` in three dimensions shows the four edges of each boundary face with the given boundary condition: block `4*e + 2*i + s` is the edge of face `e` where coordinate `i` of the face is `s`. -/
theorem visualize_surface_wire_shows (h : b.Distinct) (hb : 2 ≤ b.n) (u : Nat → ℝ) {nv n : Nat} (hn : 2 ≤ n) (bc_sn : Nat) (cons : List BoundFace) (p q : Nat → Nat → MvPolynomial (Fin 2) ℝ)
    (hp : ∀ e (he : e < (chosen bc_sn cons).length), ∀ k < 3, Interp b (((chosen bc_sn cons)[e]).pos · k) (p e k)) (hq : ∀ e (he : e < (chosen bc_sn cons).length), ∀ v < nv, Interp b (((chosen bc_sn cons)[e]).out · v) (q e v))
    (X V : Nat → (Fin 1 → Fin n) → Nat → ℝ)
    (hX : ∀ e < (chosen bc_sn cons).length, ∀ (i : Fin 2) (s : Fin 2) (t : Fin n), ∀ k < 3, X (e * 4 + (i * 2 + s)) (fun _ => t) k = eval (i.insertNth ((s : Nat) : ℝ) fun _ => (t : ℝ) / ((n : ℝ) - 1) : Fin 2 → ℝ) (p e k))
    (hV : ∀ e < (chosen bc_sn cons).length, ∀ (i : Fin 2) (s : Fin 2) (t : Fin n), ∀ v < nv, V (e * 4 + (i * 2 + s)) (fun _ => t) v = eval (i.insertNth ((s : Nat) : ℝ) fun _ => (t : ℝ) / ((n : ℝ) - 1) : Fin 2 → ℝ) (q e v)) :
    ∃ x, visualizeSurface b u 3 nv n true bc_sn cons = some x ∧ Shows 1 3 nv n ((chosen bc_sn cons).length * 4) X V x := by
  have H := fun (nv : Nat) (f : Nat → Nat → ℝ) (i : Fin 2) (s : Bool) => face_lag (b := b) u (le_refl 1) hb (by omega : 1 ≤ n) (nv := nv) f i s
  choose I i1 i2 i3 using H
  have i1' : ∀ (nv : Nat) (f : Nat → Nat → ℝ) (i : Fin 2) (s : Bool), face b u 2 nv (vars (MathFn.pow (K := Nat) b.n (2 : Nat)) nv f) i s n = some (I nv f i s) := i1
  let one : Elem → Fin 2 → Bool → (Nat → ℝ) × (Nat → ℝ) := fun e i s => ((I 3 e.pos i s).val, (I nv e.out i s).val)
  let g : Elem → List ((Nat → ℝ) × (Nat → ℝ)) := fun e => [one e 0 false, one e 0 true, one e 1 false, one e 1 true]
  have gval : ∀ (e : Elem) (i s : Fin 2) (hj : (i : Nat) * 2 + s < (g e).length), (g e)[(i : Nat) * 2 + s] = one e i (decide ((s : Nat) = 1)) := by
    intro e i s hj
    fin_cases i <;> fin_cases s <;> rfl
  have i3' : ∀ (nv : Nat) (f : Nat → Nat → ℝ) (i s : Fin 2), ∀ v < nv, ∀ t : Fin n, (I nv f i (decide ((s : Nat) = 1))).val (v * n + t) = lag b (f · v) (i.insertNth ((s : Nat) : ℝ) fun _ => (t : ℝ) / ((n : ℝ) - 1) : Fin 2 → ℝ) := by
    intro nv f i s v hv t
    have := i3 nv f i (decide ((s : Nat) = 1)) v hv fun _ => t
    rw [pow_one, show idx (fun _ : Fin 1 => t) = t by simp [idx_sum]] at this
    rw [this]
    simp only [linSpaced_eq hn]
    congr 2
    fin_cases s <;> simp
  have split : ∀ j < 4, ∃ i s : Fin 2, j = (i : Nat) * 2 + s := fun j hj => ⟨⟨j / 2, by omega⟩, ⟨j % 2, by omega⟩, by simp only; omega⟩
  refine ⟨blocks 1 3 nv n ((chosen bc_sn cons).flatMap g) ⟨[], [], fun _ => [], 0⟩, ?_, line_shows hn (chosen bc_sn cons) g (fun a => rfl) X V ?_ ?_⟩
  · rw [visualizeSurface, if_pos (Or.inl rfl), foldlM_filter _ (fun c => c.bc = bc_sn) (fun c hc x => by simp only [surfaceBlock]; rw [if_neg (by simpa using hc)]), blocks, ← foldl_flat, chosen, List.foldl_map]
    refine foldlM_some _ _ _ (fun c hc x => ?_) _
    have hc' : c.bc = bc_sn := by simpa using (List.mem_filter.1 hc).2
    have hq : MathFn.pow (K := Nat) b.n ((3 : Nat) : Int) / b.n = MathFn.pow (K := Nat) b.n ((2 : Nat) : Int) := nfq_eq (by omega : 1 ≤ b.n) 2
    have f0 := fun (nv : Nat) (f : Nat → Nat → ℝ) (s : Bool) => i1' nv f 0 s
    have f1 := fun (nv : Nat) (f : Nat → Nat → ℝ) (s : Bool) => i1' nv f 1 s
    simp only [Fin.val_zero, Fin.val_one] at f0 f1
    simp only [surfaceBlock, if_pos hc', if_true, hq, forLoop, List.range_succ, List.range_zero, List.nil_append, List.cons_append, List.foldlM_cons, List.foldlM_nil, Nat.reduceSub, Option.bind_eq_bind, Option.bind_some, f0, f1, g, one, List.foldl_cons, List.foldl_nil]
    rfl
  · intro e he j hj t k hk
    obtain ⟨i, s, rfl⟩ := split j hj
    rw [gval, hX e he i s t k hk]
    simp only [one]
    rw [i3' 3 _ i s k hk t, lag_eq h (hp e he k hk)]
  · intro e he j hj t v hv
    obtain ⟨i, s, rfl⟩ := split j hj
    rw [gval, hV e he i s t v hv]
    simp only [one]
    rw [i3' nv _ i s v hv t, lag_eq h (hq e he v hv)]

end Hexed.Vis
