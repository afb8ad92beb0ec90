import Verif.Spatial.Lemmas
set_option autoImplicit false
set_option linter.unusedVariables false

/-!
# The integral of what `Local` and `Reconcile_ldg_flux` add to one element
-/

namespace Hexed.Spatial
open Hexed.Connection (Dir matchFaces restore strAt)
open Hexed.RowIndex (RowIndex rows)

/-- What the kernels need of the basis to be conservative. -/
structure Conservative (bs : BasisData) : Prop where
  pos : 0 < bs.n
  deriv : ∀ q bv : Nat → ℝ, ∑ i ∈ Finset.range bs.n, bs.weight i * Basis.deriv bs.n bs.weight bs.diff bs.bound q bv i = bv 1 - bv 0
  bterm : ∀ bv : Nat → ℝ, ∑ i ∈ Finset.range bs.n, bs.weight i * Basis.boundaryTerm bs.weight bs.bound bv i = bv 1 - bv 0
  filter : ∀ j < bs.n, ∑ i ∈ Finset.range bs.n, bs.weight i * bs.filter i j = bs.weight j
  restrict : ∀ h < 2, ∀ j < bs.n, ∑ i ∈ Finset.range bs.n, bs.weight i * bs.restrict h i j = bs.weight j / 2
  prolong : ∀ k < bs.n, ∑ i ∈ Finset.range bs.n, bs.weight i * bs.prolong 0 i k + ∑ i ∈ Finset.range bs.n, bs.weight i * bs.prolong 1 i k = 2 * bs.weight k
  symm : ∀ i < bs.n, bs.weight (bs.n - 1 - i) = bs.weight i

theorem conservative_of {bs : BasisData} {b : Basis.Nodes ℝ} {deg : Nat} (h : GoodBasis b deg) (hb : bs.IsOf b) : Conservative bs := by
  have hw : ∀ i < b.n, b.weight i ≠ 0 := fun i hi => (h.weight_pos i hi).ne'
  refine ⟨?_, ?_, ?_, ?_, ?_, ?_, ?_⟩
  · rw [hb.n]; exact h.pos
  · intro q bv
    rw [hb.n, hb.weight]
    exact Basis.deriv_conservative h.exact h.pos (by have := h.pos; have := h.deg; omega) hb.mats q bv
  · intro bv
    rw [hb.n, hb.weight]
    exact Basis.lift_integral hb.mats h.exact.distinct h.pos hw bv
  · intro j hj
    rw [hb.n] at hj
    rw [hb.n, hb.weight, ← Basis.filter_conserves h.exact h.weight_pos h.deg hj]
    refine Finset.sum_congr rfl fun i hi => ?_
    have := hb.filter i (Finset.mem_range.1 hi) j hj
    rw [(Basis.filter_tables b (Finset.mem_range.1 hi) hj).1] at this
    rw [Option.some.inj this]
  · intro hf hhf j hj
    rw [hb.n] at hj
    rw [hb.n, hb.weight, ← Basis.restrict_conserves h.exact.distinct h.pos hw hj hf]
    refine Finset.sum_congr rfl fun i hi => ?_
    have := hb.restrict hf hhf i (Finset.mem_range.1 hi) j hj
    rw [(Basis.tables_exact b (Finset.mem_range.1 hi) hj).2.2.2 hf hhf] at this
    rw [Option.some.inj this]
  · intro k hk
    rw [hb.n] at hk
    rw [hb.n, hb.weight]
    have hP : ∀ hf < 2, ∀ i < b.n, bs.prolong hf i k = (Basis.ell b k).eval ((b.node i + (hf : Nat)) / 2) := by
      intro hf hhf i hi
      have := hb.prolong hf hhf i hi k hk
      rw [(Basis.tables_exact b hi hk).2.2.1 hf hhf] at this
      rw [← Option.some.inj this, Basis.prolong, Basis.interpolate_eq b _ k hk]
    have hq := Basis.quad_halves h.exact (Basis.ell b k) (by rw [Basis.ell_degree h.exact.distinct hk]; have := h.deg; omega)
    rw [Finset.sum_eq_single_of_mem k (by simpa using hk) (by
      intro i hi hne
      rw [Basis.ell_node h.exact.distinct (Finset.mem_range.1 hi) hk, if_neg hne, mul_zero]), Basis.ell_node h.exact.distinct hk hk, if_pos rfl, mul_one] at hq
    rw [hq, Finset.sum_range_succ, Finset.sum_range_one, mul_add, Finset.mul_sum, Finset.mul_sum]
    congr 1 <;> refine Finset.sum_congr rfl fun i hi => ?_
    · rw [hP 0 (by omega) i (Finset.mem_range.1 hi)]; ring
    · rw [hP 1 (by omega) i (Finset.mem_range.1 hi)]; ring
  · rw [hb.n, hb.weight]; exact h.weight_symm

theorem Conservative.interior {bs : BasisData} (h : Conservative bs) (q : Nat → ℝ) :
    ∑ i ∈ Finset.range bs.n, bs.weight i * Basis.derivInterior bs.n bs.diff q i =
      ((List.range bs.n).map fun j => bs.bound 1 j * q j).sum - ((List.range bs.n).map fun j => bs.bound 0 j * q j).sum := by
  have := h.deriv q fun s => ((List.range bs.n).map fun j => bs.bound s j * q j).sum
  simp only [Basis.deriv, sub_self, mul_zero, List.map_const', List.sum_replicate, smul_zero, add_zero] at this
  exact this

/-- Sum over the faces of the outward flux, where `faces f` is the flux in the positive direction of the axis normal to face `f`. -/
noncomputable def outflow (bs : BasisData) (nd : Nat) (faces : Nat → Mem) (v : Nat) : ℝ :=
  ∑ d ∈ Finset.range nd, (quadF bs nd (faces (2 * d + 1)) v - quadF bs nd (faces (2 * d)) v)

/-! ## Loops over rows as loops over pairs (dimension, row) -/

def dk (nd n : Nat) : List (Nat × Nat) := (List.range nd).flatMap fun d => (List.range (n ^ (nd - 1))).map fun k => (d, k)

theorem mem_dk {nd n : Nat} {p : Nat × Nat} : p ∈ dk nd n ↔ p.1 < nd ∧ p.2 < n ^ (nd - 1) := by
  obtain ⟨d, k⟩ := p
  simp [dk]

theorem overRows_eq {α : Type} (nd n : Nat) (hn : 0 < n) (f : α → Nat → RowIndex → α) (a : α) :
    overRows nd n f a = (dk nd n).foldl (fun a p => f a p.1 (RowIndex.after nd n p.1 p.2)) a := by
  rw [overRows, dk, List.foldl_flatMap]
  have : ∀ (l : List Nat) (a : α), (∀ d ∈ l, d < nd) →
      l.foldl (fun a i_dim => (rows (RowIndex.new nd n i_dim)).foldl (fun a r => f a i_dim r) a) a =
      l.foldl (fun b x => List.foldl (fun a p => f a p.1 (RowIndex.after nd n p.1 p.2)) b ((List.range (n ^ (nd - 1))).map fun k => (x, k))) a := by
    intro l
    induction l with
    | nil => intro a _; rfl
    | cons d l ih =>
      intro a hl
      rw [List.foldl_cons, List.foldl_cons, ih _ fun d hd => hl d (by simp [hd]), rows_new nd n d hn (hl d (by simp)), List.foldl_map, List.foldl_map]
  exact this _ _ fun d hd => List.mem_range.1 hd

theorem sum_dk (nd n : Nat) (g : Nat → Nat → ℝ) : ((dk nd n).map fun p => g p.1 p.2).sum = ∑ d ∈ Finset.range nd, ∑ k ∈ Finset.range (n ^ (nd - 1)), g d k := by
  rw [dk, List.map_flatMap, ← Basis.range_sum]
  have : ∀ l : List Nat, (l.flatMap fun a => ((List.range (n ^ (nd - 1))).map fun k => (a, k)).map fun p : Nat × Nat => g p.1 p.2).sum =
      (l.map fun d => ∑ k ∈ Finset.range (n ^ (nd - 1)), g d k).sum := by
    intro l
    induction l with
    | nil => rfl
    | cons d l ih => rw [List.flatMap_cons, List.sum_append, ih, List.map_cons, List.sum_cons, List.map_map]; rfl
  exact this _

theorem nodup_dk (nd n : Nat) : (dk nd n).Nodup := by
  rw [dk, List.nodup_flatMap]
  refine ⟨fun d _ => List.nodup_range.map fun a b h => (Prod.mk.inj h).2, ?_⟩
  refine List.Pairwise.imp_of_mem ?_ (List.nodup_range (n := nd))
  intro d d' _ _ hne
  rw [Function.onFun, List.disjoint_left]
  intro p h1 h2
  obtain ⟨k, _, rfl⟩ := List.mem_map.1 h1
  obtain ⟨k', _, e⟩ := List.mem_map.1 h2
  exact hne (Prod.mk.inj e).1.symm

/-! ## The integral after one write -/

theorem quadE_writeRow (bs : BasisData) (hn : 0 < bs.n) (nd d k : Nat) (hd : d < nd) (hk : k < bs.n ^ (nd - 1)) (nvar base : Nat) (w : Nat → Nat → ℝ) (m : Arr) (coef : ℝ) (v : Nat) :
    quadE bs nd (writeRow nvar w m base (RowIndex.after nd bs.n d k) coef) v = quadE bs nd m v +
      if base ≤ v ∧ v < base + nvar then qw bs.weight bs.n (nd - 1) k * ∑ i ∈ Finset.range bs.n, bs.weight i * ((coef - 1) * m (v, pt nd bs.n d k i) + w i (v - base)) else 0 := by
  have hf := after_fields nd bs.n d hn hd k
  obtain ⟨r1, r2⟩ := writeRow_apply nvar w m base (RowIndex.after nd bs.n d k) coef (by
      intro i hi j hj e
      rw [hf.2.1] at hi hj
      rw [qpoint_pt nd bs.n d hn hd, qpoint_pt nd bs.n d hn hd] at e
      exact (pt_inj hn hi hj e).2)
  simp only [hf.2.1, qpoint_pt nd bs.n d hn hd] at r1 r2
  rw [quadE, quadE, sum_rows nd bs.n d hn hd, sum_rows nd bs.n d hn hd]
  split
  · next hv =>
    obtain ⟨u, rfl⟩ : ∃ u, v = base + u := ⟨v - base, by omega⟩
    rw [← Finset.add_sum_erase _ _ (Finset.mem_range.2 hk), ← Finset.add_sum_erase _ (fun k => ∑ i ∈ Finset.range bs.n, qw bs.weight bs.n nd (pt nd bs.n d k i) * m (base + u, pt nd bs.n d k i)) (Finset.mem_range.2 hk)]
    have e1 : ∀ k' ∈ (Finset.range (bs.n ^ (nd - 1))).erase k, ∑ i ∈ Finset.range bs.n, qw bs.weight bs.n nd (pt nd bs.n d k' i) *
        writeRow nvar w m base (RowIndex.after nd bs.n d k) coef (base + u, pt nd bs.n d k' i) =
        ∑ i ∈ Finset.range bs.n, qw bs.weight bs.n nd (pt nd bs.n d k' i) * m (base + u, pt nd bs.n d k' i) := by
      intro k' hk'
      refine Finset.sum_congr rfl fun i hi => ?_
      rw [r2]
      intro v' hv' i' hi' e
      have := (pt_inj hn (Finset.mem_range.1 hi) hi' (Prod.mk.inj e).2).1
      exact (Finset.mem_erase.1 hk').1 this
    rw [Finset.sum_congr rfl e1]
    have e2 : ∑ i ∈ Finset.range bs.n, qw bs.weight bs.n nd (pt nd bs.n d k i) * writeRow nvar w m base (RowIndex.after nd bs.n d k) coef (base + u, pt nd bs.n d k i) =
        ∑ i ∈ Finset.range bs.n, qw bs.weight bs.n nd (pt nd bs.n d k i) * m (base + u, pt nd bs.n d k i) +
        qw bs.weight bs.n (nd - 1) k * ∑ i ∈ Finset.range bs.n, bs.weight i * ((coef - 1) * m (base + u, pt nd bs.n d k i) + w i u) := by
      rw [Finset.mul_sum, ← Finset.sum_add_distrib]
      refine Finset.sum_congr rfl fun i hi => ?_
      rw [r1 u (by omega) i (Finset.mem_range.1 hi), qw_pt bs.weight hn hd (Finset.mem_range.1 hi)]
      ring
    rw [e2, show base + u - base = u by omega]
    ring
  · next hv =>
    rw [add_zero]
    refine Finset.sum_congr rfl fun k' _ => Finset.sum_congr rfl fun i _ => ?_
    rw [r2]
    intro v' hv' i' hi' e
    have := (Prod.mk.inj e).1
    exact hv ⟨by omega, by omega⟩

/-- Filtering does not change the integral. -/
theorem quadE_filter {bs : BasisData} (h : Conservative bs) (nd nvar : Nat) (m : Arr) (v : Nat) : quadE bs nd (applyFilter bs nd nvar m) v = quadE bs nd m v := by
  rw [applyFilter, overRows_eq nd bs.n h.pos]
  have : ∀ (l : List (Nat × Nat)) (m : Arr), (∀ p ∈ l, p.1 < nd ∧ p.2 < bs.n ^ (nd - 1)) →
      quadE bs nd (l.foldl (fun a p => writeRow nvar (matRow bs.n bs.filter (readRow a 0 (RowIndex.after nd bs.n p.1 p.2))) a 0 (RowIndex.after nd bs.n p.1 p.2) 0) m) v = quadE bs nd m v := by
    intro l
    induction l with
    | nil => intro m _; rfl
    | cons p l ih =>
      intro m hl
      have hp := hl p (by simp)
      rw [List.foldl_cons, ih _ fun p hp => hl p (by simp [hp]), quadE_writeRow bs h.pos nd p.1 p.2 hp.1 hp.2]
      split
      · have e : ∑ i ∈ Finset.range bs.n, bs.weight i * ((0 - 1) * m (v, pt nd bs.n p.1 p.2 i) + matRow bs.n bs.filter (readRow m 0 (RowIndex.after nd bs.n p.1 p.2)) i (v - 0)) = 0 := by
          have e1 : ∀ i ∈ Finset.range bs.n, bs.weight i * ((0 - 1) * m (v, pt nd bs.n p.1 p.2 i) + matRow bs.n bs.filter (readRow m 0 (RowIndex.after nd bs.n p.1 p.2)) i (v - 0)) =
              ∑ j ∈ Finset.range bs.n, bs.weight i * bs.filter i j * m (v, pt nd bs.n p.1 p.2 j) - bs.weight i * m (v, pt nd bs.n p.1 p.2 i) := by
            intro i _
            rw [matRow, Basis.range_sum]
            simp only [readRow, Nat.zero_add, Nat.sub_zero, qpoint_pt nd bs.n p.1 h.pos hp.1]
            rw [mul_add, Finset.mul_sum]
            simp only [← mul_assoc]; ring
          rw [Finset.sum_congr rfl e1, Finset.sum_sub_distrib, Finset.sum_comm]
          have e2 : ∀ j ∈ Finset.range bs.n, ∑ i ∈ Finset.range bs.n, bs.weight i * bs.filter i j * m (v, pt nd bs.n p.1 p.2 j) = bs.weight j * m (v, pt nd bs.n p.1 p.2 j) := by
            intro j hj
            rw [← Finset.sum_mul, h.filter j (Finset.mem_range.1 hj)]
          rw [Finset.sum_congr rfl e2, sub_self]
        rw [e, mul_zero, add_zero]
      · rw [add_zero]
  exact this _ _ fun p hp => mem_dk.1 hp

/-! ## write_bound -/

theorem setFace_eq (faces : Nat → Mem) (i a : Nat) (x : ℝ) : Function.uncurry (setFace faces i a x) = set2 (Function.uncurry faces) (i, a) x := by
  funext ⟨f, b⟩
  simp [Function.uncurry, setFace, set2]

theorem bound_inner (faces : Nat → Mem) (x : Nat → ℝ) (d a : Nat) :
    (List.range 2).foldl (fun faces s => setFace faces (d * 2 + s) a (x s)) faces = fun f b => if (f = d * 2 ∨ f = d * 2 + 1) ∧ b = a then x (f - d * 2) else faces f b := by
  funext f b
  simp only [List.range_succ, List.range_zero, List.nil_append, List.foldl_append, List.foldl_cons, List.foldl_nil, setFace, Nat.add_zero]
  by_cases h1 : f = d * 2 + 1 ∧ b = a
  · rw [if_pos h1, if_pos ⟨Or.inr h1.1, h1.2⟩, h1.1, Nat.add_sub_cancel_left]
  · rw [if_neg h1]
    by_cases h0 : f = d * 2 ∧ b = a
    · rw [if_pos h0, if_pos ⟨Or.inl h0.1, h0.2⟩, h0.1, Nat.sub_self]
    · rw [if_neg h0, if_neg]
      rintro ⟨h | h, e⟩
      · exact h0 ⟨h, e⟩
      · exact h1 ⟨h, e⟩

theorem addr_inj {N v k v' k' : Nat} (hk : k < N) (hk' : k' < N) (e : v * N + k = v' * N + k') : v = v' ∧ k = k' := RowIndex.div_mod_unique hk hk' e

theorem writeBound_apply (nd n d k : Nat) (hn : 0 < n) (hd : d < nd) (hk : k < n ^ (nd - 1)) (nvar : Nat) (b : Nat → Nat → ℝ) (faces : Nat → Mem) :
    (∀ v < nvar, ∀ s < 2, writeBound nvar b faces (RowIndex.after nd n d k) (2 * d + s) (v * n ^ (nd - 1) + k) = b s v) ∧
    ∀ f a, (∀ v < nvar, ∀ s < 2, ¬(f = 2 * d + s ∧ a = v * n ^ (nd - 1) + k)) → writeBound nvar b faces (RowIndex.after nd n d k) f a = faces f a := by
  have hf := after_fields nd n d hn hd k
  rw [writeBound]
  simp only [hf.1, hf.2.2.1, hf.2.2.2, bound_inner]
  have : ∀ (m : Nat) (faces : Nat → Mem),
      (∀ v < m, ∀ s < 2, (List.range m).foldl (fun faces v => fun f b' => if (f = d * 2 ∨ f = d * 2 + 1) ∧ b' = v * n ^ (nd - 1) + k then b (f - d * 2) v else faces f b') faces (2 * d + s) (v * n ^ (nd - 1) + k) = b s v) ∧
      ∀ f a, (∀ v < m, ∀ s < 2, ¬(f = 2 * d + s ∧ a = v * n ^ (nd - 1) + k)) →
        (List.range m).foldl (fun faces v => fun f b' => if (f = d * 2 ∨ f = d * 2 + 1) ∧ b' = v * n ^ (nd - 1) + k then b (f - d * 2) v else faces f b') faces f a = faces f a := by
    intro m
    induction m with
    | zero => intro faces; exact ⟨by simp, by simp⟩
    | succ m ih =>
      intro faces
      obtain ⟨i1, i2⟩ := ih faces
      constructor
      · intro v hv s hs
        rw [List.range_succ, List.foldl_append, List.foldl_cons, List.foldl_nil]
        by_cases e : v = m
        · subst e
          rw [if_pos ⟨by omega, rfl⟩]; congr; omega
        · rw [if_neg, i1 v (by omega) s hs]
          rintro ⟨_, h⟩
          exact e (addr_inj hk hk h).1
      · intro f a h
        rw [List.range_succ, List.foldl_append, List.foldl_cons, List.foldl_nil, if_neg, i2 f a fun v hv => h v (by omega)]
        rintro ⟨h1 | h1, h2⟩
        · exact h m (by omega) 0 (by omega) ⟨by omega, h2⟩
        · exact h m (by omega) 1 (by omega) ⟨by omega, h2⟩
  exact this nvar faces

/-- `write_bound` for all rows, with values that do not depend on the faces. -/
theorem bounds_apply (nd n : Nat) (hn : 0 < n) (nvar : Nat) (b : Nat → RowIndex → Nat → Nat → ℝ) (faces : Nat → Mem) :
    (∀ v < nvar, ∀ d < nd, ∀ k < n ^ (nd - 1), ∀ s < 2,
      overRows nd n (fun faces i_dim r => writeBound nvar (b i_dim r) faces r) faces (2 * d + s) (v * n ^ (nd - 1) + k) = b d (RowIndex.after nd n d k) s v) ∧
    ∀ f a, (2 * nd ≤ f ∨ nvar * n ^ (nd - 1) ≤ a) → overRows nd n (fun faces i_dim r => writeBound nvar (b i_dim r) faces r) faces f a = faces f a := by
  rw [overRows_eq nd n hn]
  have : ∀ (l : List (Nat × Nat)) (faces : Nat → Mem), l.Nodup → (∀ p ∈ l, p.1 < nd ∧ p.2 < n ^ (nd - 1)) →
      (∀ p ∈ l, ∀ v < nvar, ∀ s < 2, l.foldl (fun a p => writeBound nvar (b p.1 (RowIndex.after nd n p.1 p.2)) a (RowIndex.after nd n p.1 p.2)) faces (2 * p.1 + s) (v * n ^ (nd - 1) + p.2) =
        b p.1 (RowIndex.after nd n p.1 p.2) s v) ∧
      ∀ f a, (∀ p ∈ l, ∀ v < nvar, ∀ s < 2, ¬(f = 2 * p.1 + s ∧ a = v * n ^ (nd - 1) + p.2)) →
        l.foldl (fun a p => writeBound nvar (b p.1 (RowIndex.after nd n p.1 p.2)) a (RowIndex.after nd n p.1 p.2)) faces f a = faces f a := by
    intro l
    induction l with
    | nil => intro faces _ _; exact ⟨by simp, by simp⟩
    | cons p l ih =>
      intro faces hnd hl
      rw [List.nodup_cons] at hnd
      have hp := hl p (by simp)
      obtain ⟨i1, i2⟩ := ih (writeBound nvar (b p.1 (RowIndex.after nd n p.1 p.2)) faces (RowIndex.after nd n p.1 p.2)) hnd.2 fun p hp => hl p (by simp [hp])
      obtain ⟨w1, w2⟩ := writeBound_apply nd n p.1 p.2 hn hp.1 hp.2 nvar (b p.1 (RowIndex.after nd n p.1 p.2)) faces
      constructor
      · intro p' hp' v hv s hs
        rw [List.foldl_cons]
        rcases List.mem_cons.1 hp' with rfl | hp'
        · rw [i2, w1 v hv s hs]
          rintro p'' hp'' v' _ s' hs' ⟨e1, e2⟩
          have h1 := addr_inj hp.2 (hl p'' (by simp [hp''])).2 e2
          have : p' = p'' := Prod.ext (by omega) h1.2
          exact hnd.1 (this ▸ hp'')
        · exact i1 p' hp' v hv s hs
      · intro f a h
        rw [List.foldl_cons, i2 f a fun p hp => h p (by simp [hp]), w2 f a (h p (by simp))]
  obtain ⟨t1, t2⟩ := this (dk nd n) faces (nodup_dk nd n) fun p hp => mem_dk.1 hp
  refine ⟨fun v hv d hd k hk s hs => t1 (d, k) (mem_dk.2 ⟨hd, hk⟩) v hv s hs, fun f a h => t2 f a ?_⟩
  rintro p hp v hv s hs ⟨e1, e2⟩
  have hp := mem_dk.1 hp
  rcases h with h | h
  · omega
  · have : (v + 1) * n ^ (nd - 1) ≤ nvar * n ^ (nd - 1) := Nat.mul_le_mul_right _ hv
    rw [Nat.add_mul] at this; omega

/-! ## The residual -/

theorem residual_visc (p : Pde) (bs : BasisData) (flux vs : Nat → Arr) (faces : Nat → Mem) (nd : Nat) (acc : Arr × (Nat → Mem)) :
    (overRows nd bs.n (residualRow p bs flux vs faces) acc).2 =
      if p.hasDiff then overRows nd bs.n (fun visc i_dim r => writeBound p.nUpdate (matRow bs.n bs.bound (readRow (vs i_dim) 0 r)) visc r) acc.2 else acc.2 := by
  have e : ∀ (a : Arr × (Nat → Mem)) d r, (residualRow p bs flux vs faces a d r).2 = if p.hasDiff then writeBound p.nUpdate (matRow bs.n bs.bound (readRow (vs d) 0 r)) a.2 r else a.2 := by
    intro a d r; rw [residualRow]; cases p.hasDiff <;> rfl
  have hr : ∀ (d : Nat) (l : List RowIndex) (acc : Arr × (Nat → Mem)), (l.foldl (fun a r => residualRow p bs flux vs faces a d r) acc).2 =
      if p.hasDiff then l.foldl (fun visc r => writeBound p.nUpdate (matRow bs.n bs.bound (readRow (vs d) 0 r)) visc r) acc.2 else acc.2 := by
    intro d l
    induction l with
    | nil => intro acc; simp
    | cons r l ih =>
      intro acc
      rw [List.foldl_cons, ih, e]
      split <;> rfl
  rw [overRows, overRows]
  generalize List.range nd = l
  induction l generalizing acc with
  | nil => simp
  | cons d l ih =>
    rw [List.foldl_cons, ih, hr]
    split <;> rfl

theorem quadE_residual {bs : BasisData} (h : Conservative bs) (p : Pde) (hM : p.blockSize = p.nUpdate) (flux vs : Nat → Arr) (faces : Nat → Mem) (nd : Nat) (acc : Arr × (Nat → Mem)) (v : Nat)
    (hv : v < p.nUpdate) :
    quadE bs nd (overRows nd bs.n (residualRow p bs flux vs faces) acc).1 v = quadE bs nd acc.1 v - (if p.hasConv then outflow bs nd faces v else 0) ∧
    quadE bs nd (overRows nd bs.n (residualRow p bs flux vs faces) acc).1 (p.blockSize + v) = quadE bs nd acc.1 (p.blockSize + v) -
      (if p.hasDiff then outflow bs nd (overRows nd bs.n (residualRow p bs flux vs faces) acc).2 v else 0) := by
  have hb : ∀ q, quadE bs nd (overRows nd bs.n (residualRow p bs flux vs faces) acc).1 q = quadE bs nd acc.1 q
      - (if p.hasConv = true ∧ q < p.nUpdate then ∑ d ∈ Finset.range nd, ∑ k ∈ Finset.range (bs.n ^ (nd - 1)), qw bs.weight bs.n (nd - 1) k * (readBound faces (RowIndex.after nd bs.n d k) 1 q - readBound faces (RowIndex.after nd bs.n d k) 0 q) else 0)
      - (if p.hasDiff = true ∧ p.blockSize ≤ q ∧ q < p.blockSize + p.nUpdate then ∑ d ∈ Finset.range nd, ∑ k ∈ Finset.range (bs.n ^ (nd - 1)), qw bs.weight bs.n (nd - 1) k *
          (matRow bs.n bs.bound (readRow (vs d) 0 (RowIndex.after nd bs.n d k)) 1 (q - p.blockSize) - matRow bs.n bs.bound (readRow (vs d) 0 (RowIndex.after nd bs.n d k)) 0 (q - p.blockSize)) else 0) := by
    intro q
    rw [overRows_eq nd bs.n h.pos]
    rw [← sum_dk nd bs.n fun d k => qw bs.weight bs.n (nd - 1) k * (readBound faces (RowIndex.after nd bs.n d k) 1 q - readBound faces (RowIndex.after nd bs.n d k) 0 q),
      ← sum_dk nd bs.n fun d k => qw bs.weight bs.n (nd - 1) k *
          (matRow bs.n bs.bound (readRow (vs d) 0 (RowIndex.after nd bs.n d k)) 1 (q - p.blockSize) - matRow bs.n bs.bound (readRow (vs d) 0 (RowIndex.after nd bs.n d k)) 0 (q - p.blockSize))]
    have hl : ∀ x ∈ dk nd bs.n, x.1 < nd ∧ x.2 < bs.n ^ (nd - 1) := fun x hx => mem_dk.1 hx
    revert hl
    generalize dk nd bs.n = l
    intro hl
    induction l generalizing acc with
    | nil => simp
    | cons x l ih =>
      have hx := hl x (by simp)
      rw [List.foldl_cons, ih _ fun y hy => hl y (by simp [hy])]
      have e : quadE bs nd (residualRow p bs flux vs faces acc x.1 (RowIndex.after nd bs.n x.1 x.2)).1 q = quadE bs nd acc.1 q
          - (if p.hasConv = true ∧ q < p.nUpdate then qw bs.weight bs.n (nd - 1) x.2 * (readBound faces (RowIndex.after nd bs.n x.1 x.2) 1 q - readBound faces (RowIndex.after nd bs.n x.1 x.2) 0 q) else 0)
          - (if p.hasDiff = true ∧ p.blockSize ≤ q ∧ q < p.blockSize + p.nUpdate then qw bs.weight bs.n (nd - 1) x.2 *
              (matRow bs.n bs.bound (readRow (vs x.1) 0 (RowIndex.after nd bs.n x.1 x.2)) 1 (q - p.blockSize) - matRow bs.n bs.bound (readRow (vs x.1) 0 (RowIndex.after nd bs.n x.1 x.2)) 0 (q - p.blockSize)) else 0) := by
        have c1 : ∀ m : Arr, quadE bs nd (if p.hasConv = true then writeRow p.nUpdate (fun i v => -deriv2 bs (readRow (flux x.1) 0 (RowIndex.after nd bs.n x.1 x.2)) (readBound faces (RowIndex.after nd bs.n x.1 x.2)) i v) m 0 (RowIndex.after nd bs.n x.1 x.2) 1 else m) q =
            quadE bs nd m q - (if p.hasConv = true ∧ q < p.nUpdate then qw bs.weight bs.n (nd - 1) x.2 * (readBound faces (RowIndex.after nd bs.n x.1 x.2) 1 q - readBound faces (RowIndex.after nd bs.n x.1 x.2) 0 q) else 0) := by
          intro m
          cases hc : p.hasConv
          · simp
          · rw [if_pos rfl, quadE_writeRow bs h.pos nd x.1 x.2 hx.1 hx.2]
            by_cases hq : q < p.nUpdate
            · rw [if_pos ⟨by omega, by omega⟩, if_pos ⟨rfl, hq⟩]
              have : ∑ i ∈ Finset.range bs.n, bs.weight i * ((1 - 1) * m (q, pt nd bs.n x.1 x.2 i) + -deriv2 bs (readRow (flux x.1) 0 (RowIndex.after nd bs.n x.1 x.2)) (readBound faces (RowIndex.after nd bs.n x.1 x.2)) i (q - 0)) =
                  -(readBound faces (RowIndex.after nd bs.n x.1 x.2) 1 q - readBound faces (RowIndex.after nd bs.n x.1 x.2) 0 q) := by
                rw [← h.deriv (fun j => readRow (flux x.1) 0 (RowIndex.after nd bs.n x.1 x.2) j q) (fun s => readBound faces (RowIndex.after nd bs.n x.1 x.2) s q), ← Finset.sum_neg_distrib]
                refine Finset.sum_congr rfl fun i _ => ?_
                rw [Nat.sub_zero, deriv2]; ring
              rw [this]; ring
            · rw [if_neg (by omega), if_neg (by tauto)]; ring
        rw [residualRow]
        cases hd : p.hasDiff
        · simp only [Bool.false_eq_true, if_false, false_and, sub_zero]
          exact c1 acc.1
        · simp only [if_true, true_and]
          rw [quadE_writeRow bs h.pos nd x.1 x.2 hx.1 hx.2, c1 acc.1]
          by_cases hq : p.blockSize ≤ q ∧ q < p.blockSize + p.nUpdate
          · rw [if_pos hq, if_pos hq]
            have : ∀ m : Arr, ∑ i ∈ Finset.range bs.n, bs.weight i * ((1 - 1) * m (q, pt nd bs.n x.1 x.2 i) + -Basis.derivInterior bs.n bs.diff (fun j => readRow (vs x.1) 0 (RowIndex.after nd bs.n x.1 x.2) j (q - p.blockSize)) i) =
                -(matRow bs.n bs.bound (readRow (vs x.1) 0 (RowIndex.after nd bs.n x.1 x.2)) 1 (q - p.blockSize) - matRow bs.n bs.bound (readRow (vs x.1) 0 (RowIndex.after nd bs.n x.1 x.2)) 0 (q - p.blockSize)) := by
              intro m
              rw [matRow, matRow, ← h.interior, ← Finset.sum_neg_distrib]
              refine Finset.sum_congr rfl fun i _ => ?_
              ring
            rw [this]; ring
          · rw [if_neg hq, if_neg hq]; ring
      rw [e]
      by_cases hc : p.hasConv = true ∧ q < p.nUpdate <;> by_cases hq : p.hasDiff = true ∧ p.blockSize ≤ q ∧ q < p.blockSize + p.nUpdate
      · simp only [if_pos hc, if_pos hq, List.map_cons, List.sum_cons]; ring
      · simp only [if_pos hc, if_neg hq, List.map_cons, List.sum_cons]; ring
      · simp only [if_neg hc, if_pos hq, List.map_cons, List.sum_cons]; ring
      · simp only [if_neg hc, if_neg hq]; ring
  have out : ∀ (f : Nat → Mem), outflow bs nd f v = ∑ d ∈ Finset.range nd, ∑ k ∈ Finset.range (bs.n ^ (nd - 1)), qw bs.weight bs.n (nd - 1) k *
      (f (2 * d + 1) (v * bs.n ^ (nd - 1) + k) - f (2 * d) (v * bs.n ^ (nd - 1) + k)) := by
    intro f
    refine Finset.sum_congr rfl fun d _ => ?_
    rw [quadF, quadF, ← Finset.sum_sub_distrib]
    refine Finset.sum_congr rfl fun k _ => by ring
  constructor
  · rw [hb v, if_neg (c := p.hasDiff = true ∧ _) (by rintro ⟨_, h1, _⟩; omega), sub_zero]
    congr 1
    cases p.hasConv
    · simp
    · rw [if_pos ⟨rfl, hv⟩, if_pos rfl, out]
      refine Finset.sum_congr rfl fun d hd => Finset.sum_congr rfl fun k hk => ?_
      have hf := after_fields nd bs.n d h.pos (Finset.mem_range.1 hd) k
      simp only [readBound, hf.1, hf.2.2.1, hf.2.2.2, Nat.mul_comm d 2, Nat.add_zero]
  · rw [hb (p.blockSize + v), if_neg (c := p.hasConv = true ∧ _) (by rintro ⟨_, h1⟩; omega), sub_zero]
    congr 1
    cases hd : p.hasDiff
    · simp
    · rw [if_pos ⟨rfl, by omega, by omega⟩, if_pos rfl, out, residual_visc, hd, if_pos rfl]
      obtain ⟨b1, _⟩ := bounds_apply nd bs.n h.pos p.nUpdate (fun d r => matRow bs.n bs.bound (readRow (vs d) 0 r)) acc.2
      refine Finset.sum_congr rfl fun d hd => Finset.sum_congr rfl fun k hk => ?_
      have h1 := b1 v hv d (Finset.mem_range.1 hd) k (Finset.mem_range.1 hk) 1 (by omega)
      have h0 := b1 v hv d (Finset.mem_range.1 hd) k (Finset.mem_range.1 hk) 0 (by omega)
      rw [Nat.add_zero] at h0
      rw [h1, h0, show p.blockSize + v - p.blockSize = v by omega]

end Hexed.Spatial
