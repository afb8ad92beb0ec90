import Verif.Spatial.Spec
set_option autoImplicit false
set_option linter.unusedVariables false

/-!
# Helper lemmas: loops over disjoint parts of an array, quadrature weights, rows
-/

namespace Hexed.Spatial
open Hexed.Connection (Dir matchFaces restore strAt)
open Hexed.RowIndex (RowIndex rows)

/-! ## Loops whose iterations work on disjoint parts of an array -/

theorem foldl_disjoint {ι A V : Type} (step : (A → V) → ι → A → V) (foot : ι → A → Prop)
    (h1 : ∀ i m a, ¬foot i a → step m i a = m a)
    (h2 : ∀ i m m', (∀ a, foot i a → m a = m' a) → ∀ a, foot i a → step m i a = step m' i a) :
    ∀ (l : List ι) (m : A → V), l.Pairwise (fun i j => ∀ a, ¬(foot i a ∧ foot j a)) →
      (∀ i ∈ l, ∀ a, foot i a → l.foldl step m a = step m i a) ∧ ∀ a, (∀ i ∈ l, ¬foot i a) → l.foldl step m a = m a
  | [], m, _ => ⟨by simp, by simp⟩
  | i :: l, m, hd => by
    rw [List.pairwise_cons] at hd
    obtain ⟨r1, r2⟩ := foldl_disjoint step foot h1 h2 l (step m i) hd.2
    refine ⟨?_, ?_⟩
    · intro j hj a ha
      rw [List.foldl_cons]
      rcases List.mem_cons.1 hj with rfl | hj
      · refine r2 a fun k hk hka => hd.1 k hk a ⟨ha, hka⟩
      · rw [r1 j hj a ha]
        refine h2 j _ _ (fun b hb => h1 i m b fun hib => hd.1 j hj b ⟨hib, hb⟩) a ha
    · intro a ha
      rw [List.foldl_cons, r2 a fun k hk => ha k (by simp [hk]), h1 i m a (ha i (by simp))]

/-! ## Quadrature weights in several dimensions -/

theorem qw_append (w : Nat → ℝ) {n : Nat} (hn : 0 < n) (a x : Nat) : ∀ (b y : Nat), y < n ^ b → qw w n (a + b) (x * n ^ b + y) = qw w n a x * qw w n b y
  | 0, y, hy => by
    have : y = 0 := by simpa using hy
    subst this; simp [qw]
  | b + 1, y, hy => by
    have e1 : (x * n ^ (b + 1) + y) / n = x * n ^ b + y / n := by
      rw [pow_succ, ← Nat.mul_assoc, Nat.add_comm, Nat.add_mul_div_right _ _ hn, Nat.add_comm]
    have e2 : (x * n ^ (b + 1) + y) % n = y % n := by
      rw [pow_succ, ← Nat.mul_assoc, Nat.add_comm, Nat.add_mul_mod_self_right]
    have e3 : y / n < n ^ b := by
      rw [Nat.div_lt_iff_lt_mul hn, ← pow_succ]; exact hy
    rw [← Nat.add_assoc, qw, e1, e2, qw_append w hn a x b (y / n) e3, qw, mul_assoc]

theorem qw_mid (w : Nat → ℝ) {n : Nat} (hn : 0 < n) (a b x i y : Nat) (hi : i < n) (hy : y < n ^ b) :
    qw w n (a + 1 + b) ((x * n + i) * n ^ b + y) = qw w n (a + b) (x * n ^ b + y) * w i := by
  rw [qw_append w hn (a + 1) _ b y hy, qw_append w hn a x b y hy]
  have e1 : (x * n + i) / n = x := by rw [Nat.add_comm, Nat.add_mul_div_right _ _ hn, Nat.div_eq_of_lt hi]; omega
  have e2 : (x * n + i) % n = i := by rw [Nat.add_comm, Nat.add_mul_mod_self_right, Nat.mod_eq_of_lt hi]
  rw [qw, e1, e2]; ring

/-! ## Sums over points, row by row -/

/-- The points as (outer, node, inner). -/
theorem sum_points (n a b : Nat) (hn : 0 < n) (g : Nat → ℝ) :
    ∑ q ∈ Finset.range (n ^ (a + 1 + b)), g q = ∑ x ∈ Finset.range (n ^ a), ∑ y ∈ Finset.range (n ^ b), ∑ i ∈ Finset.range n, g ((x * n + i) * n ^ b + y) := by
  have h1 : ∀ (p r : Nat) (f : Nat → ℝ), 0 < r → ∑ q ∈ Finset.range (p * r), f q = ∑ x ∈ Finset.range p, ∑ y ∈ Finset.range r, f (x * r + y) := by
    intro p r f hr
    induction p with
    | zero => simp
    | succ p ih =>
      rw [Nat.succ_mul, Finset.sum_range_add, ih, Finset.sum_range_succ]
  have hb : 0 < n ^ b := Nat.pow_pos hn
  rw [show n ^ (a + 1 + b) = n ^ a * n * n ^ b by rw [pow_add, pow_succ], h1 _ _ _ hb, h1 _ _ _ hn]
  refine Finset.sum_congr rfl fun x _ => ?_
  rw [Finset.sum_comm]

theorem sum_pairs (n a b : Nat) (hn : 0 < n) (g : Nat → ℝ) :
    ∑ q ∈ Finset.range (n ^ (a + b)), g q = ∑ x ∈ Finset.range (n ^ a), ∑ y ∈ Finset.range (n ^ b), g (x * n ^ b + y) := by
  have h1 : ∀ (p r : Nat) (f : Nat → ℝ), 0 < r → ∑ q ∈ Finset.range (p * r), f q = ∑ x ∈ Finset.range p, ∑ y ∈ Finset.range r, f (x * r + y) := by
    intro p r f hr
    induction p with
    | zero => simp
    | succ p ih =>
      rw [Nat.succ_mul, Finset.sum_range_add, ih, Finset.sum_range_succ]
  rw [pow_add, h1 _ _ _ (Nat.pow_pos hn)]

/-! ## Rows -/

theorem rows_new (nd n id : Nat) (hn : 0 < n) (hid : id < nd) :
    rows (RowIndex.new nd n id) = (List.range (n ^ (nd - 1))).map (RowIndex.after nd n id) := by
  have := RowIndex.rows_eq nd n id hn hid (n ^ (nd - 1)) 0 (by omega)
  rw [show RowIndex.new nd n id = RowIndex.after nd n id 0 from rfl, this, List.range_eq_range']

theorem after_fields (nd n id : Nat) (hn : 0 < n) (hid : id < nd) (k : Nat) :
    (RowIndex.after nd n id k).i_dim = id ∧ (RowIndex.after nd n id k).row_size = n ∧ (RowIndex.after nd n id k).n_fqpoint = n ^ (nd - 1) ∧
    (RowIndex.after nd n id k).i_face_qpoint = k := by
  rw [RowIndex.after_state nd n id hn hid]
  exact ⟨rfl, rfl, RowIndex.new_nfq nd n id hn hid, rfl⟩

/-- The point at `node` of row `k` along `id`. -/
def pt (nd n id k node : Nat) : Nat := ((k / n ^ (nd - 1 - id)) * n + node) * n ^ (nd - 1 - id) + k % n ^ (nd - 1 - id)

theorem pt_inj {nd n id k node k' node' : Nat} (hn : 0 < n) (h : node < n) (h' : node' < n) (e : pt nd n id k node = pt nd n id k' node') : k = k' ∧ node = node' := by
  have hp : 0 < n ^ (nd - 1 - id) := Nat.pow_pos hn
  obtain ⟨e1, e2⟩ := RowIndex.div_mod_unique (Nat.mod_lt _ hp) (Nat.mod_lt _ hp) e
  obtain ⟨e3, e4⟩ := RowIndex.div_mod_unique h h' e1
  refine ⟨?_, e4⟩
  rw [← Nat.div_add_mod k (n ^ (nd - 1 - id)), ← Nat.div_add_mod k' (n ^ (nd - 1 - id)), e3, e2]

theorem pt_surj {nd n id q : Nat} (hn : 0 < n) (hid : id < nd) (hq : q < n ^ nd) : ∃ k < n ^ (nd - 1), ∃ node < n, q = pt nd n id k node := by
  have hp : 0 < n ^ (nd - 1 - id) := Nat.pow_pos hn
  set s := n ^ (nd - 1 - id) with hs
  have h1 : q / s / n < n ^ id := by
    rw [Nat.div_div_eq_div_mul, Nat.div_lt_iff_lt_mul (Nat.mul_pos hp hn), hs, ← pow_succ, ← pow_add]
    rwa [show id + (nd - 1 - id + 1) = nd by omega]
  refine ⟨q / s / n * s + q % s, ?_, q / s % n, Nat.mod_lt _ hn, ?_⟩
  · calc q / s / n * s + q % s < q / s / n * s + s := by have := Nat.mod_lt q hp; omega
      _ = (q / s / n + 1) * s := by ring
      _ ≤ n ^ id * s := Nat.mul_le_mul_right _ h1
      _ = n ^ (nd - 1) := by rw [hs, ← pow_add]; congr 1; omega
  · rw [pt, ← hs]
    have e1 : (q / s / n * s + q % s) / s = q / s / n := by
      rw [Nat.add_comm, Nat.add_mul_div_right _ _ hp, Nat.div_eq_of_lt (Nat.mod_lt _ hp)]; omega
    have e2 : (q / s / n * s + q % s) % s = q % s := by
      rw [Nat.add_comm, Nat.add_mul_mod_self_right, Nat.mod_mod]
    rw [e1, e2]
    have e3 : q / s / n * n + q / s % n = q / s := by rw [Nat.mul_comm]; exact Nat.div_add_mod _ _
    rw [e3, Nat.mul_comm]; exact (Nat.div_add_mod _ _).symm

theorem pt_lt {nd n id k node : Nat} (hn : 0 < n) (hid : id < nd) (hk : k < n ^ (nd - 1)) (hnode : node < n) : pt nd n id k node < n ^ nd := by
  have hp : 0 < n ^ (nd - 1 - id) := Nat.pow_pos hn
  set s := n ^ (nd - 1 - id) with hs
  have h1 : k / s < n ^ id := by
    rw [Nat.div_lt_iff_lt_mul hp, hs, ← pow_add]; rwa [show id + (nd - 1 - id) = nd - 1 by omega]
  have h2 : k / s * n + node < n ^ id * n := by
    calc k / s * n + node < (k / s + 1) * n := by rw [Nat.add_mul]; omega
      _ ≤ n ^ id * n := Nat.mul_le_mul_right _ h1
  rw [pt, ← hs]
  calc (k / s * n + node) * s + k % s < (k / s * n + node + 1) * s := by have := Nat.mod_lt k hp; rw [Nat.add_one_mul]; omega
    _ ≤ n ^ id * n * s := Nat.mul_le_mul_right _ h2
    _ = n ^ nd := by rw [hs, ← pow_succ, ← pow_add]; congr 1; omega

theorem qpoint_pt (nd n id : Nat) (hn : 0 < n) (hid : id < nd) (k node : Nat) : (RowIndex.after nd n id k).i_qpoint node = pt nd n id k node :=
  RowIndex.qpoint_eq nd n id hn hid k node

theorem qw_pt (w : Nat → ℝ) {nd n id k node : Nat} (hn : 0 < n) (hid : id < nd) (hnode : node < n) :
    qw w n nd (pt nd n id k node) = qw w n (nd - 1) k * w node := by
  have hp : 0 < n ^ (nd - 1 - id) := Nat.pow_pos hn
  have := qw_mid w hn id (nd - 1 - id) (k / n ^ (nd - 1 - id)) node (k % n ^ (nd - 1 - id)) hnode (Nat.mod_lt _ hp)
  rw [show id + 1 + (nd - 1 - id) = nd by omega, show id + (nd - 1 - id) = nd - 1 by omega] at this
  rw [pt, this]
  congr 2
  rw [Nat.mul_comm]; exact Nat.div_add_mod _ _

theorem sum_rows (nd n id : Nat) (hn : 0 < n) (hid : id < nd) (g : Nat → ℝ) :
    ∑ q ∈ Finset.range (n ^ nd), g q = ∑ k ∈ Finset.range (n ^ (nd - 1)), ∑ i ∈ Finset.range n, g (pt nd n id k i) := by
  have h1 := sum_points n id (nd - 1 - id) hn g
  rw [show id + 1 + (nd - 1 - id) = nd by omega] at h1
  have h2 := sum_pairs n id (nd - 1 - id) hn fun k => ∑ i ∈ Finset.range n, g (pt nd n id k i)
  rw [show id + (nd - 1 - id) = nd - 1 by omega] at h2
  rw [h1, h2]
  refine Finset.sum_congr rfl fun x _ => Finset.sum_congr rfl fun y hy => Finset.sum_congr rfl fun i _ => ?_
  have hy := Finset.mem_range.1 hy
  have hp : 0 < n ^ (nd - 1 - id) := Nat.pow_pos hn
  rw [pt]
  rw [show (x * n ^ (nd - 1 - id) + y) / n ^ (nd - 1 - id) = x by rw [Nat.add_comm, Nat.add_mul_div_right _ _ hp, Nat.div_eq_of_lt hy]; omega,
    show (x * n ^ (nd - 1 - id) + y) % n ^ (nd - 1 - id) = y by rw [Nat.add_comm, Nat.add_mul_mod_self_right, Nat.mod_eq_of_lt hy]]

/-! ## write_row and write_bound -/

theorem writeRow_apply (nvar : Nat) (w : Nat → Nat → ℝ) (data : Arr) (base : Nat) (r : RowIndex) (coef : ℝ)
    (hinj : ∀ i < r.row_size, ∀ j < r.row_size, r.i_qpoint i = r.i_qpoint j → i = j) :
    (∀ v < nvar, ∀ i < r.row_size, writeRow nvar w data base r coef (base + v, r.i_qpoint i) = coef * data (base + v, r.i_qpoint i) + w i v) ∧
    ∀ k, (∀ v < nvar, ∀ i < r.row_size, k ≠ (base + v, r.i_qpoint i)) → writeRow nvar w data base r coef k = data k := by
  have inner : ∀ (v : Nat) (data : Arr),
      (∀ i < r.row_size, (List.range r.row_size).foldl (fun data i_row =>
        set2 data (base + v, r.i_qpoint i_row) (coef * data (base + v, r.i_qpoint i_row) + w i_row v)) data (base + v, r.i_qpoint i) =
          coef * data (base + v, r.i_qpoint i) + w i v) ∧
      ∀ k, (∀ i < r.row_size, k ≠ (base + v, r.i_qpoint i)) → (List.range r.row_size).foldl (fun data i_row =>
        set2 data (base + v, r.i_qpoint i_row) (coef * data (base + v, r.i_qpoint i_row) + w i_row v)) data k = data k := by
    intro v data
    obtain ⟨r1, r2⟩ := foldl_disjoint (fun (data : Arr) i_row => set2 data (base + v, r.i_qpoint i_row) (coef * data (base + v, r.i_qpoint i_row) + w i_row v))
      (fun i k => k = (base + v, r.i_qpoint i)) (fun i m a ha => by simp [set2, ha]) (fun i m m' hm a ha => by simp [set2, ha, hm _ rfl])
      (List.range r.row_size) data (by
        refine List.Pairwise.imp_of_mem ?_ (List.nodup_range (n := r.row_size))
        rintro i j hi hj hij a ⟨h1, h2⟩
        refine hij (hinj i (List.mem_range.1 hi) j (List.mem_range.1 hj) ?_)
        rw [h1] at h2; exact (Prod.mk.inj h2).2)
    refine ⟨fun i hi => ?_, fun k hk => r2 k fun i hi => hk i (List.mem_range.1 hi)⟩
    rw [r1 i (List.mem_range.2 hi) _ rfl]; simp [set2]
  obtain ⟨r1, r2⟩ := foldl_disjoint (fun (data : Arr) v => (List.range r.row_size).foldl (fun data i_row =>
        set2 data (base + v, r.i_qpoint i_row) (coef * data (base + v, r.i_qpoint i_row) + w i_row v)) data)
      (fun v k => ∃ i < r.row_size, k = (base + v, r.i_qpoint i))
      (fun v m a ha => (inner v m).2 a fun i hi e => ha ⟨i, hi, e⟩)
      (fun v m m' hm a ha => by
        obtain ⟨i, hi, rfl⟩ := ha
        rw [(inner v m).1 i hi, (inner v m').1 i hi, hm _ ⟨i, hi, rfl⟩])
      (List.range nvar) data (by
        refine List.Pairwise.imp_of_mem ?_ (List.nodup_range (n := nvar))
        rintro u v _ _ huv a ⟨⟨i, _, h1⟩, ⟨j, _, h2⟩⟩
        rw [h1] at h2
        have := (Prod.mk.inj h2).1
        omega)
  refine ⟨fun v hv i hi => ?_, fun k hk => r2 k fun v hv => ?_⟩
  · have := r1 v (List.mem_range.2 hv) (base + v, r.i_qpoint i) ⟨i, hi, rfl⟩
    exact this.trans ((inner v data).1 i hi)
  · rintro ⟨i, hi, e⟩
    exact hk v (List.mem_range.1 hv) i hi e

/-- All rows along one dimension. -/
theorem rows_write (nd n id : Nat) (hn : 0 < n) (hid : id < nd) (nvar base : Nat) (coef : ℝ) (w : Arr → RowIndex → Nat → Nat → ℝ)
    (hw : ∀ k m m', k < n ^ (nd - 1) → (∀ v < nvar, ∀ i < n, m (base + v, pt nd n id k i) = m' (base + v, pt nd n id k i)) →
      ∀ i v, v < nvar → w m (RowIndex.after nd n id k) i v = w m' (RowIndex.after nd n id k) i v) (data : Arr) :
    (∀ v < nvar, ∀ k < n ^ (nd - 1), ∀ i < n,
      (rows (RowIndex.new nd n id)).foldl (fun data r => writeRow nvar (w data r) data base r coef) data (base + v, pt nd n id k i) =
        coef * data (base + v, pt nd n id k i) + w data (RowIndex.after nd n id k) i v) ∧
    ∀ a, (∀ v < nvar, ∀ q < n ^ nd, a ≠ (base + v, q)) → (rows (RowIndex.new nd n id)).foldl (fun data r => writeRow nvar (w data r) data base r coef) data a = data a := by
  rw [rows_new nd n id hn hid, List.foldl_map]
  have step : ∀ (k : Nat) (m : Arr),
      (∀ v < nvar, ∀ i < n, writeRow nvar (w m (RowIndex.after nd n id k)) m base (RowIndex.after nd n id k) coef (base + v, pt nd n id k i) =
        coef * m (base + v, pt nd n id k i) + w m (RowIndex.after nd n id k) i v) ∧
      ∀ a, (∀ v < nvar, ∀ i < n, a ≠ (base + v, pt nd n id k i)) →
        writeRow nvar (w m (RowIndex.after nd n id k)) m base (RowIndex.after nd n id k) coef a = m a := by
    intro k m
    have hf := after_fields nd n id hn hid k
    have := writeRow_apply nvar (w m (RowIndex.after nd n id k)) m base (RowIndex.after nd n id k) coef (by
      intro i hi j hj e
      rw [hf.2.1] at hi hj
      rw [qpoint_pt nd n id hn hid, qpoint_pt nd n id hn hid] at e
      exact (pt_inj hn hi hj e).2)
    simp only [hf.2.1, qpoint_pt nd n id hn hid] at this
    exact this
  obtain ⟨r1, r2⟩ := foldl_disjoint (fun (m : Arr) k => writeRow nvar (w m (RowIndex.after nd n id k)) m base (RowIndex.after nd n id k) coef)
      (fun k a => k < n ^ (nd - 1) → ∃ v < nvar, ∃ i < n, a = (base + v, pt nd n id k i))
      (fun k m a ha => (step k m).2 a fun v hv i hi e => ha fun _ => ⟨v, hv, i, hi, e⟩)
      (fun k m m' hm a ha => by
        by_cases hk : k < n ^ (nd - 1)
        · obtain ⟨v, hv, i, hi, rfl⟩ := ha hk
          rw [(step k m).1 v hv i hi, (step k m').1 v hv i hi, hm _ fun _ => ⟨v, hv, i, hi, rfl⟩]
          rw [hw k m m' hk (fun v hv i hi => hm _ fun _ => ⟨v, hv, i, hi, rfl⟩) i v hv]
        · have e : m = m' := funext fun b => hm b fun h => absurd h hk
          rw [e])
      (List.range (n ^ (nd - 1))) data (by
        refine List.Pairwise.imp_of_mem ?_ (List.nodup_range (n := n ^ (nd - 1)))
        rintro k k' hk hk' hne a ⟨h1, h2⟩
        obtain ⟨v, _, i, hi, e1⟩ := h1 (List.mem_range.1 hk)
        obtain ⟨v', _, i', hi', e2⟩ := h2 (List.mem_range.1 hk')
        rw [e1] at e2
        exact hne (pt_inj hn hi hi' (Prod.mk.inj e2).2).1)
  refine ⟨fun v hv k hk i hi => ?_, fun a ha => r2 a fun k hk h => ?_⟩
  · rw [r1 k (List.mem_range.2 hk) _ fun _ => ⟨v, hv, i, hi, rfl⟩]
    exact (step k data).1 v hv i hi
  · obtain ⟨v, hv, i, hi, e⟩ := h (List.mem_range.1 hk)
    exact ha v hv _ (pt_lt hn hid (List.mem_range.1 hk) hi) e

end Hexed.Spatial
