import Verif.Repair.Steady
import Verif.Repair.Fresh
import Mathlib.Tactic.LinearCombination
import Mathlib.Tactic.FieldSimp
set_option autoImplicit false
set_option linter.unusedVariables false

/-!
# C90: what the repair of inadmissible states does to the flow
-/

namespace Hexed.Repair
open Hexed.Spatial Hexed.Pde Hexed.Solver Hexed.StateFile Hexed.Metric Hexed.ArtVisc
noncomputable section

variable {bs : BasisData} {b : Basis.Nodes ℝ} {deg : Nat} {m : Mesh} {N : Buf → Mem} {T : Steps} {st sr : ℝ} {flowTss : World → Nat → Nat → ℝ} {w w' : World}

/-! ## The two steps -/

theorem step_facts : 1 / 2 < step1 ∧ step0 + step1 = 1 ∧ step0 * step1 = 5 / 36 := by
  have h4 : (√(4 / 9 : ℝ)) = 2 / 3 := by
    rw [show (4 / 9 : ℝ) = (2 / 3) ^ 2 by norm_num]
    exact Real.sqrt_sq (by norm_num)
  have h1 : step1 = 5 / 6 := by
    rw [step1, linear, quadratic, show (1 * 1 - 4 * (1 * 1 / 8 / 0.9) : ℝ) = 4 / 9 by norm_num, h4]
    norm_num
  rw [step0, h1, quadratic]
  norm_num

/-- **C90.** The two steps of a pass are 1/6 and 5/6 of the time step, and no mode whose decay rate is at most 7.2 per time step grows; with one step of the same length the limit would be 2. -/
theorem steps : step0 = 1 / 6 ∧ step1 = 5 / 6 ∧ (∀ z, 0 ≤ z → z ≤ 7.2 → |growth step0 step1 z| ≤ 1) ∧ ∀ z, 7.2 < z → 1 < |growth step0 step1 z| := by
  obtain ⟨h0, h1, h2⟩ := step_facts
  have e0 : step0 = 1 - step1 := by linarith
  have e1 : (step1 - 5 / 6) * (step1 - 1 / 6) = 0 := by rw [e0] at h2; linarith
  have e2 : step1 = 5 / 6 := by
    rcases mul_eq_zero.1 e1 with h | h <;> linarith
  have e3 : step0 = 1 / 6 := by rw [e0, e2]; norm_num
  refine ⟨e3, e2, fun z hz hz' => ?_, fun z hz => ?_⟩
  · rw [growth, e2, e3, abs_le]
    constructor <;> nlinarith [sq_nonneg (z - 3.6)]
  · rw [growth, e2, e3, lt_abs]
    left
    nlinarith [sq_nonneg (z - 3.6)]

/-- **C90.** A pass sets the time step scale, takes two steps of 1/6 and 5/6 of it, in this order, and sets the time step scale for the flow. -/
theorem pass_steps (w : World) : smoothPass bs m T st sr flowTss w =
    ((repairStep bs m sr (1 / 6) (setTss bs m (fun _ e q => -2 / T.basis.min_eig * st * spacingAt T m.nd e q ^ 2) w)).bind (repairStep bs m sr (5 / 6))).map (setTss bs m flowTss) := by
  have ht : setTss bs m (repairTss m.nd T st) w = setTss bs m (fun _ e q => -2 / T.basis.min_eig * st * spacingAt T m.nd e q ^ 2) w := by
    simp only [setTss, tss_eq]
  rw [smoothPass, steps.1, steps.2.1, ht, Option.map_eq_bind, Option.bind_assoc]
  rfl

/-! ## What is conserved -/

theorem list_sum_congr {l : List Nat} {f g : Nat → ℝ} (h : ∀ e ∈ l, f e = g e) : (l.map f).sum = (l.map g).sum := congrArg List.sum (List.map_congr_left h)

theorem sum_mul_left' (l : List Nat) (c : ℝ) (f : Nat → ℝ) : (l.map fun e => c * f e).sum = c * (l.map f).sum := by
  induction l with
  | nil => simp
  | cons a l ih => simp only [List.map_cons, List.sum_cons, ih]; ring

theorem sum_sub' (l : List Nat) (f g : Nat → ℝ) : (l.map fun e => f e - g e).sum = (l.map f).sum - (l.map g).sum := by
  induction l with
  | nil => simp
  | cons a l ih => simp only [List.map_cons, List.sum_cons, ih]; ring

/-- One step with the time step scale of the repair. -/
theorem step_scaled (hb : GoodBasis b deg) (hof : bs.IsOf b) (hm : m.Ok bs) (hw : Bounded m) (hT : T.Ok bs m st) {s : ℝ} (h : repairStep bs m sr s w = some w')
    (ht : ∀ e ∈ m.elems, ∀ q < bs.n ^ m.nd, w.state e (m.nd + 2, q) = -2 / T.basis.min_eig * st * spacingAt T m.nd e q ^ 2) {v : Nat} (hv : v < m.nd + 2) : scaledTotal bs m T w' v = scaledTotal bs m T w v := by
  have hc : -2 / T.basis.min_eig * st ≠ 0 := mul_ne_zero (div_ne_zero (by norm_num) hT.eig) hT.safety
  have key := repairStep_balance hb hof hm hw h (fun e he q hq => by rw [ht e he q hq]; exact mul_ne_zero hc (pow_ne_zero _ (hT.spacing e he q hq))) hv
  have : (m.elems.map fun e => (-2 / T.basis.min_eig * st)⁻¹ * ((m.elem e).size ^ m.nd * ∑ q ∈ Finset.range (bs.n ^ m.nd), qw bs.weight bs.n m.nd q * (m.elem e).det q * (w'.state e (v, q) / spacingAt T m.nd e q ^ 2) -
      (m.elem e).size ^ m.nd * ∑ q ∈ Finset.range (bs.n ^ m.nd), qw bs.weight bs.n m.nd q * (m.elem e).det q * (w.state e (v, q) / spacingAt T m.nd e q ^ 2))).sum = 0 := by
    rw [← key]
    refine list_sum_congr fun e he => ?_
    rw [← mul_sub, ← Finset.sum_sub_distrib, mul_left_comm, Finset.mul_sum]
    congr 1
    refine Finset.sum_congr rfl fun q hq => ?_
    have hs := hT.spacing e he q (Finset.mem_range.1 hq)
    rw [ht e he q (Finset.mem_range.1 hq)]
    field_simp
  rw [sum_mul_left', sum_sub'] at this
  have h0 := (mul_eq_zero.1 this).resolve_left (inv_ne_zero hc)
  exact sub_eq_zero.1 h0

/-- **C90.** A pass keeps the integral of each of density, momentum and energy divided by the square of the mesh spacing. -/
theorem pass_keeps (hb : GoodBasis b deg) (hof : bs.IsOf b) (hm : m.Ok bs) (hw : Bounded m) (hT : T.Ok bs m st) (h : smoothPass bs m T st sr flowTss w = some w') {v : Nat} (hv : v < m.nd + 2) :
    scaledTotal bs m T w' v = scaledTotal bs m T w v := by
  rw [smoothPass] at h
  obtain ⟨w1, h1, h⟩ := Option.bind_eq_some_iff.1 h
  obtain ⟨w2, h2, h⟩ := Option.bind_eq_some_iff.1 h
  cases h
  have hset : ∀ (f : World → Nat → Nat → ℝ) (w : World), scaledTotal bs m T (setTss bs m f w) v = scaledTotal bs m T w v := by
    intro f w
    refine list_sum_congr fun e he => ?_
    congr 1
    refine Finset.sum_congr rfl fun q hq => ?_
    rw [setTss_state hm f w e (by omega) q]
  have t0 : ∀ e ∈ m.elems, ∀ q < bs.n ^ m.nd, (setTss bs m (repairTss m.nd T st) w).state e (m.nd + 2, q) = -2 / T.basis.min_eig * st * spacingAt T m.nd e q ^ 2 := by
    intro e he q hq
    rw [setTss, mapPoints_at _ _ he hq, if_pos rfl, tss_eq]
  have t1 : ∀ e ∈ m.elems, ∀ q < bs.n ^ m.nd, w1.state e (m.nd + 2, q) = -2 / T.basis.min_eig * st * spacingAt T m.nd e q ^ 2 := by
    intro e he q hq
    rw [repairStep_frame hm h1 e (by omega) q, t0 e he q hq]
  rw [hset, step_scaled hb hof hm hw hT h2 t1 hv, step_scaled hb hof hm hw hT h1 t0 hv, hset]

section whole
variable {nv nq : Nat} {V : Vertices m.elems.length nv nq} {enabled : Bool} {d d' : Admis.Data World m.elems.length nv nq}

/-- What a call does to the numerical data is some number of passes. -/
theorem fix_after (h : (∃ r, Admis.fix (setting bs m V T st sr flowTss enabled) d = .done r d') ∨ Admis.fix (setting bs m V T st sr flowTss enabled) d = .failed d') : ∃ k, d'.sol = (setting bs m V T st sr flowTss enabled).after d.sol k := by
  rcases h with ⟨r, h⟩ | h
  · cases r with
    | true =>
      obtain ⟨-, k, -, -, -, h, -⟩ := Admis.fix_true_partial _ _ _ h
      exact ⟨2 * k, h⟩
    | false =>
      refine ⟨0, ?_⟩
      by_cases he : enabled = true
      · exact (Admis.fix_false _ _ _ he h).2.1
      · rw [Admis.fix_off _ _ (show enabled = false by simpa using he)] at h
        cases h
        rfl
  · exact ⟨_, (Admis.fix_failed _ _ _ h).2.1⟩

theorem smooth_eq (w : World) : ∃ w', smoothPass bs m T st sr flowTss w = some w' ∧ (setting bs m V T st sr flowTss enabled).smooth w = w' := by
  obtain ⟨w', h⟩ := smoothPass_total (bs := bs) (m := m) (T := T) (st := st) (sr := sr) (flowTss := flowTss) w
  exact ⟨w', h, by show (smoothPass bs m T st sr flowTss w).getD w = w'; rw [h]; rfl⟩

theorem after_keeps (hb : GoodBasis b deg) (hof : bs.IsOf b) (hm : m.Ok bs) (hw : Bounded m) (hT : T.Ok bs m st) {v : Nat} (hv : v < m.nd + 2) (w : World) (k : Nat) :
    scaledTotal bs m T ((setting bs m V T st sr flowTss enabled).after w k) v = scaledTotal bs m T w v := by
  induction k with
  | zero => rfl
  | succ k ih =>
    rw [Admis.after_succ]
    obtain ⟨w', h1, h2⟩ := smooth_eq (bs := bs) (m := m) (V := V) (T := T) (st := st) (sr := sr) (flowTss := flowTss) (enabled := enabled) ((setting bs m V T st sr flowTss enabled).after w k)
    rw [h2, pass_keeps hb hof hm hw hT h1 hv, ih]

/-- **C90.** A call of `fix_admissibility`, however it ends, keeps the integral of each of density, momentum and energy divided by the square of the mesh spacing. -/
theorem fix_keeps (hb : GoodBasis b deg) (hof : bs.IsOf b) (hm : m.Ok bs) (hw : Bounded m) (hT : T.Ok bs m st)
    (h : (∃ r, Admis.fix (setting bs m V T st sr flowTss enabled) d = .done r d') ∨ Admis.fix (setting bs m V T st sr flowTss enabled) d = .failed d') {v : Nat} (hv : v < m.nd + 2) :
    scaledTotal bs m T d'.sol v = scaledTotal bs m T d.sol v := by
  obtain ⟨k, hk⟩ := fix_after h
  rw [hk, after_keeps hb hof hm hw hT hv]

theorem scaled_elem {c : ℝ} (e : Nat) (hc : ∀ q < bs.n ^ m.nd, spacingAt T m.nd e q = c) (w : World) (v : Nat) :
    (m.elem e).size ^ m.nd * ∑ q ∈ Finset.range (bs.n ^ m.nd), qw bs.weight bs.n m.nd q * (m.elem e).det q * (w.state e (v, q) / spacingAt T m.nd e q ^ 2) =
      (c ^ 2)⁻¹ * ((m.elem e).size ^ m.nd * ∑ q ∈ Finset.range (bs.n ^ m.nd), qw bs.weight bs.n m.nd q * (m.elem e).det q * w.state e (v, q)) := by
  have : ∑ q ∈ Finset.range (bs.n ^ m.nd), qw bs.weight bs.n m.nd q * (m.elem e).det q * (w.state e (v, q) / spacingAt T m.nd e q ^ 2) =
      (c ^ 2)⁻¹ * ∑ q ∈ Finset.range (bs.n ^ m.nd), qw bs.weight bs.n m.nd q * (m.elem e).det q * w.state e (v, q) := by
    rw [Finset.mul_sum]
    refine Finset.sum_congr rfl fun q hq => ?_
    rw [hc q (Finset.mem_range.1 hq), div_eq_mul_inv]
    ring
  rw [this]
  ring

theorem scaledTotal_const {c : ℝ} (hc : ∀ e ∈ m.elems, ∀ q < bs.n ^ m.nd, spacingAt T m.nd e q = c) (w : World) (v : Nat) : scaledTotal bs m T w v = (c ^ 2)⁻¹ * m.total bs w.state v := by
  rw [Mesh.total, ← sum_mul_left', scaledTotal]
  exact list_sum_congr fun e he => scaled_elem e (hc e he) w v

/-- **C90.** If the mesh spacing is the same everywhere, mass, momentum and energy are conserved. -/
theorem fix_conserves (hb : GoodBasis b deg) (hof : bs.IsOf b) (hm : m.Ok bs) (hw : Bounded m) (hT : T.Ok bs m st) {c : ℝ} (hc : ∀ e ∈ m.elems, ∀ q < bs.n ^ m.nd, spacingAt T m.nd e q = c)
    (h : (∃ r, Admis.fix (setting bs m V T st sr flowTss enabled) d = .done r d') ∨ Admis.fix (setting bs m V T st sr flowTss enabled) d = .failed d') {v : Nat} (hv : v < m.nd + 2) :
    m.total bs d'.sol.state v = m.total bs d.sol.state v := by
  have key := fix_keeps hb hof hm hw hT h hv
  rw [scaledTotal_const hc, scaledTotal_const hc] at key
  by_cases h0 : (c ^ 2)⁻¹ = 0
  · have hem : m.elems = [] ∨ bs.n ^ m.nd = 0 := by
      by_contra hcon
      push Not at hcon
      obtain ⟨e, he⟩ := List.exists_mem_of_ne_nil _ hcon.1
      have := hT.spacing e he 0 (Nat.pos_of_ne_zero hcon.2)
      rw [hc e he 0 (Nat.pos_of_ne_zero hcon.2)] at this
      exact this (by simpa using h0)
    rcases hem with hem | hem
    · simp [Mesh.total, hem]
    · simp [Mesh.total, hem]
  · exact mul_left_cancel₀ h0 key

theorem sum_split (l : List Nat) (part : Nat → Prop) [DecidablePred part] (f : Nat → ℝ) : (l.map f).sum = ((l.filter (part ·)).map f).sum + ((l.filter (¬part ·)).map f).sum := by
  induction l with
  | nil => simp
  | cons a l ih =>
    by_cases h : part a
    · simp [h, ih]; ring
    · simp [h, ih]; ring

/-- **C90.** If the mesh spacing is `ca` in some elements and `cb` in the others, then what is gained by the one part is `(ca / cb) ^ 2` times what is lost by the other: the total changes unless the spacings are equal or nothing was exchanged. -/
theorem fix_exchange (hb : GoodBasis b deg) (hof : bs.IsOf b) (hm : m.Ok bs) (hw : Bounded m) (hT : T.Ok bs m st) (part : Nat → Prop) [DecidablePred part] {ca cb : ℝ} (ha0 : ca ≠ 0) (hb0 : cb ≠ 0)
    (ha : ∀ e ∈ m.elems, part e → ∀ q < bs.n ^ m.nd, spacingAt T m.nd e q = ca) (hb' : ∀ e ∈ m.elems, ¬part e → ∀ q < bs.n ^ m.nd, spacingAt T m.nd e q = cb)
    (h : (∃ r, Admis.fix (setting bs m V T st sr flowTss enabled) d = .done r d') ∨ Admis.fix (setting bs m V T st sr flowTss enabled) d = .failed d') {v : Nat} (hv : v < m.nd + 2) :
    (partTotal bs m part d'.sol v - partTotal bs m part d.sol v) = -((ca / cb) ^ 2) * (partTotal bs m (¬part ·) d'.sol v - partTotal bs m (¬part ·) d.sol v) ∧
    m.total bs d'.sol.state v - m.total bs d.sol.state v = (1 - (cb / ca) ^ 2) * (partTotal bs m part d'.sol v - partTotal bs m part d.sol v) := by
  have key := fix_keeps hb hof hm hw hT h hv
  have hs : ∀ w : World, scaledTotal bs m T w v = (ca ^ 2)⁻¹ * partTotal bs m part w v + (cb ^ 2)⁻¹ * partTotal bs m (¬part ·) w v := by
    intro w
    rw [scaledTotal, sum_split _ part, partTotal, partTotal, ← sum_mul_left', ← sum_mul_left']
    congr 1
    · refine list_sum_congr fun e he => ?_
      obtain ⟨he, hp⟩ := List.mem_filter.1 he
      exact scaled_elem e (ha e he (by simpa using hp)) w v
    · refine list_sum_congr fun e he => ?_
      obtain ⟨he, hp⟩ := List.mem_filter.1 he
      exact scaled_elem e (hb' e he (by simpa using hp)) w v
  have ht : ∀ w : World, m.total bs w.state v = partTotal bs m part w v + partTotal bs m (¬part ·) w v := fun w => sum_split _ part _
  rw [hs, hs] at key
  rw [ht, ht]
  field_simp at key
  constructor
  · rw [div_pow, ← sub_eq_zero]
    field_simp
    linear_combination key
  · rw [div_pow, ← sub_eq_zero]
    field_simp
    linear_combination key

/-! ## When no repair is possible -/

theorem adm_physical (w : World) (h : (setting bs m V T st sr flowTss enabled).Adm w) : Physical bs m w := by
  intro e he q hq
  obtain ⟨i, hi⟩ := List.mem_iff_get.1 he
  have := h.1 i
  simp only [setting, elemCheck] at this
  split at this
  · rename_i hg
    rw [hi] at hg
    exact hg.1 q hq
  · cases this

theorem finite_always (w : World) : (setting bs m V T st sr flowTss enabled).Finite w := by
  refine ⟨fun i => ?_, ?_⟩
  · simp only [setting, elemCheck]
    split <;> simp
  · simp only [setting, refinedCheck]
    split <;> simp

theorem adm_iff (w : World) : (setting bs m V T st sr flowTss enabled).Adm w ↔ AllPhysical bs m w := by
  have hE : ∀ i : Fin m.elems.length, (setting bs m V T st sr flowTss enabled).elem w i = .good ↔
      ((∀ q < bs.n ^ m.nd, 0 < w.state (m.elems.get i) (m.nd, q) ∧ 0 < w.state (m.elems.get i) (m.nd + 1, q)) ∧ ∀ f < 2 * m.nd, PhysicalFace bs m w (.elem (m.elems.get i) f)) := by
    intro i
    simp only [setting, elemCheck]
    constructor
    · intro h
      split at h
      · assumption
      · cases h
    · exact fun h => if_pos h
  have hR : (setting bs m V T st sr flowTss enabled).refined w = .good ↔ ∀ r ∈ m.refs, ∀ i < nFace m.nd r.str, PhysicalFace bs m w (r.fine i) := by
    simp only [setting, refinedCheck]
    constructor
    · intro h
      split at h
      · assumption
      · cases h
    · exact fun h => if_pos h
  rw [Admis.Setting.Adm, hR]
  constructor
  · rintro ⟨h1, h2⟩
    refine ⟨adm_physical (V := V) (T := T) (st := st) (sr := sr) (flowTss := flowTss) (enabled := enabled) w ⟨h1, hR.2 h2⟩, fun f hf => ?_, fun f hf => ?_⟩
    · obtain ⟨e, he, f, hf', rfl⟩ := mem_elemFaces.1 hf
      obtain ⟨i, rfl⟩ := List.mem_iff_get.1 he
      exact ((hE i).1 (h1 i)).2 f hf'
    · obtain ⟨r, hr, i, hi, rfl⟩ := mem_fineBufs.1 hf
      exact h2 r hr i hi
  · intro h
    refine ⟨fun i => (hE i).2 ⟨h.inside _ (List.get_mem _ _), fun f hf => h.faces _ (mem_elemFaces.2 ⟨_, List.get_mem _ _, f, hf, rfl⟩)⟩, fun r hr i hi => h.mortar _ (mem_fineBufs.2 ⟨r, hr, i, hi, rfl⟩)⟩

/-- **C90.** A call (when repairs are enabled) reports that there was nothing to do exactly if density and energy are positive at all quadrature points, faces and mortar faces; the flow is then not touched. -/
theorem untouched_iff : (∃ d', Admis.fix (setting bs m V T st sr flowTss true) d = .done false d' ∧ d'.sol = d.sol) ↔ AllPhysical bs m d.sol := by
  rw [← adm_iff (V := V) (T := T) (st := st) (sr := sr) (flowTss := flowTss) (enabled := true)]
  constructor
  · rintro ⟨d', h, -⟩
    exact (Admis.fix_false _ _ _ rfl h).1
  · intro h
    obtain ⟨r, d', h'⟩ := (Admis.fix_returns_iff (setting bs m V T st sr flowTss true) d rfl fun i => finite_always _).1.2 (Or.inl h)
    cases r with
    | true => exact absurd h (Admis.fix_true_partial _ _ _ h').1
    | false => exact ⟨d', h', (Admis.fix_false _ _ _ rfl h').2.1⟩

/-- **C90.** If a call reports a repair, the flow was physical in half of the passes, after the `k`th one and each one that followed it except the last. -/
theorem repaired (h : Admis.fix (setting bs m V T st sr flowTss enabled) d = .done true d') :
    ∃ k, 1 ≤ k ∧ 2 * k ≤ 100000 ∧ d'.sol = (setting bs m V T st sr flowTss enabled).after d.sol (2 * k) ∧ ∀ i, k ≤ i → i < 2 * k → AllPhysical bs m ((setting bs m V T st sr flowTss enabled).after d.sol i) := by
  obtain ⟨-, k, hk, -, h1, h2, -⟩ := Admis.fix_true_partial _ _ _ h
  exact ⟨k, hk.1, h1, h2, fun i hi hi' => (adm_iff _).1 (hk.2 i hi hi')⟩

/-- A call that never sees a physical flow throws. -/
theorem never_fails (h : ∀ k, ¬Physical bs m ((setting bs m V T st sr flowTss true).after d.sol k)) : ∃ d', Admis.fix (setting bs m V T st sr flowTss true) d = .failed d' := by
  refine (Admis.fix_returns_iff _ d rfl fun i => finite_always _).2.1.2 ?_
  rintro (ha | ⟨k, hk, -⟩)
  · exact h 0 (adm_physical _ ha)
  · exact h k (adm_physical _ (hk.2 k le_rfl (by have := hk.1; omega)))

theorem qw_pos (h0 : ∀ i < bs.n, 0 < bs.weight i) (hn : 0 < bs.n) : ∀ d k, 0 < qw bs.weight bs.n d k
  | 0, k => by simp [qw]
  | d + 1, k => by
    rw [qw]
    exact mul_pos (by first | exact h0 _ (Nat.mod_lt _ hn) | exact qw_pos h0 hn d _) (by first | exact h0 _ (Nat.mod_lt _ hn) | exact qw_pos h0 hn d _)

theorem physical_total (hb : GoodBasis b deg) (hof : bs.IsOf b) (hm : m.Ok bs) (hT : T.Ok bs m st) (hdet : ∀ e ∈ m.elems, ∀ q < bs.n ^ m.nd, 0 < (m.elem e).det q) (hne : m.elems ≠ []) (h : Physical bs m w) :
    0 < scaledTotal bs m T w m.nd ∧ 0 < scaledTotal bs m T w (m.nd + 1) := by
  have hn : 0 < bs.n := by rw [hof.n]; exact hb.pos
  have key : ∀ v, (∀ e ∈ m.elems, ∀ q < bs.n ^ m.nd, 0 < w.state e (v, q)) → 0 < scaledTotal bs m T w v := by
    intro v hv
    refine List.sum_pos _ (fun x hx => ?_) (by simpa using hne)
    obtain ⟨e, he, rfl⟩ := List.mem_map.1 hx
    refine mul_pos (pow_pos (hm.size e he) _) (Finset.sum_pos (fun q hq => ?_) ⟨0, Finset.mem_range.2 (Nat.pow_pos hn)⟩)
    have hq := Finset.mem_range.1 hq
    have hw := hb.weight_pos
    refine mul_pos (mul_pos (qw_pos (fun i hi => ?_) hn _ _) (hdet e he q hq)) (div_pos (hv e he q hq) (pow_pos_of_ne (hT.spacing e he q hq)))
    rw [hof.weight]
    exact hw i (by rw [← hof.n]; exact hi)
  exact ⟨key _ fun e he q hq => (h e he q hq).1, key _ fun e he q hq => (h e he q hq).2⟩
where
  pow_pos_of_ne {x : ℝ} (h : x ≠ 0) : 0 < x ^ 2 := by positivity

/-- **C90.** If the integral of the density, or that of the energy, divided by the square of the mesh spacing is not positive, the flow can not be repaired: the call throws. -/
theorem hopeless (hb : GoodBasis b deg) (hof : bs.IsOf b) (hm : m.Ok bs) (hw : Bounded m) (hT : T.Ok bs m st) (hdet : ∀ e ∈ m.elems, ∀ q < bs.n ^ m.nd, 0 < (m.elem e).det q) (hne : m.elems ≠ [])
    (h : scaledTotal bs m T d.sol m.nd ≤ 0 ∨ scaledTotal bs m T d.sol (m.nd + 1) ≤ 0) : ∃ d', Admis.fix (setting bs m V T st sr flowTss true) d = .failed d' := by
  refine never_fails fun k hp => ?_
  obtain ⟨h1, h2⟩ := physical_total hb hof hm hT hdet hne hp
  rw [after_keeps hb hof hm hw hT (by omega)] at h1 h2
  rcases h with h | h
  · exact absurd h1 (not_lt.2 h)
  · exact absurd h2 (not_lt.2 h)

/-! ## Uniform flow -/

theorem fresh_holds (hof : bs.IsOf b) (hb : b.Exact deg) (hn : 0 < bs.n) (hm : m.Ok bs) (mu kappa : Transport) {x : Nat → ℝ} (hs : Uniform bs m x w) (hf : FEq (refresh mu kappa bs m w) w) : HoldsIn bs m (m.nd + 2) false x w := by
  have hn' : 0 < b.n := by rw [← hof.n]; exact hn
  have h : HoldsIn bs m (m.nd + 2) false x (refresh mu kappa bs m w) := by
    refine prolong_held (ns m.nd false mu kappa) (m.nd + 2) le_rfl hn hm false false x (fun str i base v mem hv h k hk => const_prolong hof hb.distinct hn' hm.dim str i base _ mem h hk) _ ?_
    intro e he f hf v hv k hk
    obtain ⟨a1, a2, a3, a4, a5⟩ := writeFaces_spec hm mu kappa w
    rw [a3 e he f hf]
    exact write_const (p := ns m.nd false mu kappa) hof hb.distinct hn m.nd x (w.state e) (fun q hq v hv => hs e he q hq v hv) _ f hf v hv k hk
  intro c hc s hg v hv k hk
  rw [← hf.buf]
  exact h c hc s hg v hv k hk

/-- One step in a uniform flow. -/
theorem step_uniform (hof : bs.IsOf b) (hb : b.Exact deg) (hn : 0 < bs.n) (hdeg : b.n ≤ deg + 1) (hm : m.Ok bs) (hN : Sealed bs m N) {s : ℝ} {x : Nat → ℝ} (h : repairStep bs m sr s w = some w') (hs : Uniform bs m x w)
    (hf : HoldsIn bs m (m.nd + 2) false x w) : Uniform bs m x w' ∧ HoldsIn bs m (m.nd + 2) false x w' := by
  rw [repairStep] at h
  have g := runBc_ghostOnly m.nd bs.n (m.nd + 2) false (fun _ _ => copyState) m.cons w
  have hh := bc_holds hm (m.nd + 2) false (fun _ _ => copyState) x le_rfl (fun c _ _ k _ inside hi v hv => hi v hv) w hf
  have key := fix_stage hof hb hn hdeg (readTss_ok hm _) (readTss_sealed hN _) s x (ftaFluxBc bs m) (runBc_ghostOnly _ _ _ _ _ _)
    (fun w hw => bc_holds hm (m.nd + 2) true (fun _ _ => negateFlux) (fun _ => 0) le_rfl (fun c _ _ k _ inside hi v hv => by show -inside v = 0; rw [hi v hv, neg_zero]) w hw) sr _ w'
    (fun e he q hq v hv => by rw [g.1]; exact hs e he q hq v hv) hh h
  exact ⟨fun e he q hq v hv => by rw [key.1 e he q hq v, g.1]; exact hs e he q hq v hv, key.2⟩

theorem setTss_uniform (hm : m.Ok bs) (f : World → Nat → Nat → ℝ) {x : Nat → ℝ} (hs : Uniform bs m x w) : Uniform bs m x (setTss bs m f w) := fun e he q hq v hv => by
  rw [setTss_state hm f w e (by omega) q]
  exact hs e he q hq v hv

theorem pass_uniform (hof : bs.IsOf b) (hb : b.Exact deg) (hn : 0 < bs.n) (hdeg : b.n ≤ deg + 1) (hm : m.Ok bs) (hN : Sealed bs m N) {x : Nat → ℝ} (h : smoothPass bs m T st sr flowTss w = some w') (hs : Uniform bs m x w)
    (hf : HoldsIn bs m (m.nd + 2) false x w) : Uniform bs m x w' ∧ HoldsIn bs m (m.nd + 2) false x w' := by
  rw [smoothPass] at h
  obtain ⟨w1, h1, h⟩ := Option.bind_eq_some_iff.1 h
  obtain ⟨w2, h2, h⟩ := Option.bind_eq_some_iff.1 h
  cases h
  obtain ⟨a1, a2⟩ := step_uniform hof hb hn hdeg hm hN h1 (setTss_uniform hm _ hs) hf
  obtain ⟨b1, b2⟩ := step_uniform hof hb hn hdeg hm hN h2 a1 a2
  exact ⟨setTss_uniform hm _ b1, b2⟩

theorem after_uniform (hof : bs.IsOf b) (hb : b.Exact deg) (hn : 0 < bs.n) (hdeg : b.n ≤ deg + 1) (hm : m.Ok bs) (hN : Sealed bs m N) {x : Nat → ℝ} (hs : Uniform bs m x w) (hf : HoldsIn bs m (m.nd + 2) false x w) (k : Nat) :
    Uniform bs m x ((setting bs m V T st sr flowTss enabled).after w k) ∧ HoldsIn bs m (m.nd + 2) false x ((setting bs m V T st sr flowTss enabled).after w k) := by
  induction k with
  | zero => exact ⟨hs, hf⟩
  | succ k ih =>
    rw [Admis.after_succ]
    obtain ⟨w', h1, h2⟩ := smooth_eq (bs := bs) (m := m) (V := V) (T := T) (st := st) (sr := sr) (flowTss := flowTss) (enabled := enabled) ((setting bs m V T st sr flowTss enabled).after w k)
    rw [h2]
    exact pass_uniform hof hb hn hdeg hm hN h1 ih.1 ih.2

/-- **C90.** On a mesh whose normals close, a uniform flow is left as it is, however the call ends. -/
theorem fix_uniform (hof : bs.IsOf b) (hb : b.Exact deg) (hn : 0 < bs.n) (hdeg : b.n ≤ deg + 1) (hm : m.Ok bs) (hN : Sealed bs m N) (mu kappa : Transport) {x : Nat → ℝ} (hs : Uniform bs m x d.sol) (hf : FEq (refresh mu kappa bs m d.sol) d.sol)
    (h : (∃ r, Admis.fix (setting bs m V T st sr flowTss enabled) d = .done r d') ∨ Admis.fix (setting bs m V T st sr flowTss enabled) d = .failed d') : Uniform bs m x d'.sol := by
  obtain ⟨k, hk⟩ := fix_after h
  rw [hk]
  exact (after_uniform hof hb hn hdeg hm hN hs (fresh_holds hof hb hn hm mu kappa hs hf) k).1

/-- **C90.** A uniform flow whose density or energy is not positive is never repaired: the call throws. -/
theorem uniform_hopeless (hof : bs.IsOf b) (hb : b.Exact deg) (hn : 0 < bs.n) (hdeg : b.n ≤ deg + 1) (hm : m.Ok bs) (hN : Sealed bs m N) (mu kappa : Transport) {x : Nat → ℝ} (hs : Uniform bs m x d.sol) (hf : FEq (refresh mu kappa bs m d.sol) d.sol)
    (hne : m.elems ≠ []) (hx : x m.nd ≤ 0 ∨ x (m.nd + 1) ≤ 0) : ∃ d', Admis.fix (setting bs m V T st sr flowTss true) d = .failed d' := by
  refine never_fails fun k hp => ?_
  obtain ⟨e, he⟩ := List.exists_mem_of_ne_nil _ hne
  have hu := (after_uniform (V := V) (T := T) (st := st) (sr := sr) (flowTss := flowTss) (enabled := true) hof hb hn hdeg hm hN hs (fresh_holds hof hb hn hm mu kappa hs hf) k).1
  have h0 := hp e he 0 (Nat.pow_pos hn)
  rw [hu e he 0 (Nat.pow_pos hn) _ (by omega), hu e he 0 (Nat.pow_pos hn) _ (by omega)] at h0
  rcases hx with hx | hx
  · exact absurd h0.1 (not_lt.2 hx)
  · exact absurd h0.2 (not_lt.2 hx)

/-! ## What else is touched -/

/-- **C90.** No other variable of the state is changed, except `time_step_scale`. -/
theorem fix_frame_state (hm : m.Ok bs) (h : (∃ r, Admis.fix (setting bs m V T st sr flowTss enabled) d = .done r d') ∨ Admis.fix (setting bs m V T st sr flowTss enabled) d = .failed d') (e : Nat) {v : Nat} (hv : m.nd + 3 ≤ v) (q : Nat) :
    d'.sol.state e (v, q) = d.sol.state e (v, q) := by
  obtain ⟨k, hk⟩ := fix_after h
  rw [hk]
  clear hk h
  induction k with
  | zero => rfl
  | succ k ih =>
    rw [Admis.after_succ]
    obtain ⟨w', h1, h2⟩ := smooth_eq (bs := bs) (m := m) (V := V) (T := T) (st := st) (sr := sr) (flowTss := flowTss) (enabled := enabled) ((setting bs m V T st sr flowTss enabled).after d.sol k)
    rw [h2, ← ih]
    rw [smoothPass] at h1
    obtain ⟨w1, e1, h1⟩ := Option.bind_eq_some_iff.1 h1
    obtain ⟨w2, e2, h1⟩ := Option.bind_eq_some_iff.1 h1
    cases h1
    rw [setTss_state hm _ _ e (by omega) q, repairStep_frame hm e2 e (by omega) q, repairStep_frame hm e1 e (by omega) q, setTss_state hm _ _ e (by omega) q]

/-- **C90.** The faces agree with the solution after the call if they did before: writing and prolonging them again changes nothing. -/
theorem fix_fresh (hm : m.Ok bs) (hn : 0 < bs.n) (mu kappa : Transport) (hf : FEq (refresh mu kappa bs m d.sol) d.sol)
    (h : (∃ r, Admis.fix (setting bs m V T st sr flowTss enabled) d = .done r d') ∨ Admis.fix (setting bs m V T st sr flowTss enabled) d = .failed d') : FEq (refresh mu kappa bs m d'.sol) d'.sol := by
  obtain ⟨k, hk⟩ := fix_after h
  rw [hk]
  cases k with
  | zero => exact hf
  | succ k =>
    rw [Admis.after_succ]
    obtain ⟨w', h1, h2⟩ := smooth_eq (bs := bs) (m := m) (V := V) (T := T) (st := st) (sr := sr) (flowTss := flowTss) (enabled := enabled) ((setting bs m V T st sr flowTss enabled).after d.sol k)
    rw [h2]
    rw [smoothPass] at h1
    obtain ⟨w1, e1, h1⟩ := Option.bind_eq_some_iff.1 h1
    obtain ⟨w2, e2, h1⟩ := Option.bind_eq_some_iff.1 h1
    cases h1
    exact step_fresh hm hn mu kappa e2

/-- **C90.** After a call that has repaired something, `time_step_scale` is what the flow asks for. -/
theorem fix_tss (h : Admis.fix (setting bs m V T st sr flowTss enabled) d = .done true d') :
    ∃ w, ∀ e ∈ m.elems, ∀ q < bs.n ^ m.nd, d'.sol.state e (m.nd + 2, q) = flowTss w e q ∧ ∀ v < m.nd + 2, d'.sol.state e (v, q) = w.state e (v, q) := by
  obtain ⟨-, k, hk, -, -, h, -⟩ := Admis.fix_true_partial _ _ _ h
  obtain ⟨j, hj⟩ : ∃ j, 2 * k = j + 1 := ⟨2 * k - 1, by have := hk.1; omega⟩
  rw [h, hj, Admis.after_succ]
  obtain ⟨w', h1, h2⟩ := smooth_eq (bs := bs) (m := m) (V := V) (T := T) (st := st) (sr := sr) (flowTss := flowTss) (enabled := enabled) ((setting bs m V T st sr flowTss enabled).after d.sol j)
  rw [h2]
  rw [smoothPass] at h1
  obtain ⟨w1, e1, h1⟩ := Option.bind_eq_some_iff.1 h1
  obtain ⟨w2, e2, h1⟩ := Option.bind_eq_some_iff.1 h1
  cases h1
  refine ⟨w2, fun e he q hq => ⟨?_, fun v hv => ?_⟩⟩
  · rw [setTss, mapPoints_at _ _ he hq, if_pos rfl]
  · rw [setTss, mapPoints_at _ _ he hq, if_neg (by omega)]

/-- **C90.** Which elements are marked, and how the marks are spread and interpolated, makes no difference to the flow: the same data with other vertices give the same outcome. -/
theorem marks_unused {nv' nq' : Nat} {V' : Vertices m.elems.length nv' nq'} {c : Admis.Data World m.elems.length nv' nq'} (hc : c.sol = d.sol) (r : Bool) (h : Admis.fix (setting bs m V T st sr flowTss enabled) d = .done r d') :
    ∃ c', Admis.fix (setting bs m V' T st sr flowTss enabled) c = .done r c' ∧ c'.sol = d'.sol := by
  by_cases he : enabled = true
  · subst he
    have hst : ∀ k, (setting bs m V T st sr flowTss true).Steady d.sol k ↔ (setting bs m V' T st sr flowTss true).Steady c.sol k := by
      intro k
      rw [hc]
      exact Iff.rfl
    have hadm : (setting bs m V T st sr flowTss true).Adm d.sol ↔ (setting bs m V' T st sr flowTss true).Adm c.sol := by
      rw [hc]
      exact Iff.rfl
    obtain ⟨r', c', h'⟩ := (Admis.fix_returns_iff (setting bs m V' T st sr flowTss true) c rfl fun i => finite_always _).1.2 (by
      rcases (Admis.fix_returns_iff (setting bs m V T st sr flowTss true) d rfl fun i => finite_always _).1.1 ⟨r, d', h⟩ with ha | ⟨k, hk, hk2⟩
      · exact Or.inl (hadm.1 ha)
      · exact Or.inr ⟨k, (hst k).1 hk, hk2⟩)
    cases r with
    | false =>
      obtain ⟨f1, f2, -⟩ := Admis.fix_false _ _ _ rfl h
      cases r' with
      | true => exact absurd (hadm.1 f1) (Admis.fix_true_partial _ _ _ h').1
      | false => exact ⟨c', h', by rw [(Admis.fix_false _ _ _ rfl h').2.1, f2, hc]⟩
    | true =>
      obtain ⟨f1, k, f2, f3, -, f4, -⟩ := Admis.fix_true_partial _ _ _ h
      cases r' with
      | false => exact absurd (hadm.2 (Admis.fix_false _ _ _ rfl h').1) f1
      | true =>
        obtain ⟨-, k', g2, g3, -, g4, -⟩ := Admis.fix_true_partial _ _ _ h'
        have hk : k = k' := by
          rcases lt_trichotomy k k' with hl | hl | hl
          · exact absurd ((hst k).1 f2) (g3 k hl)
          · exact hl
          · exact absurd ((hst k').2 g2) (f3 k' hl)
        refine ⟨c', h', ?_⟩
        rw [f4, g4, hc, hk]
        rfl
  · have he : enabled = false := by simpa using he
    subst he
    rw [Admis.fix_off _ _ rfl] at h
    cases h
    exact ⟨c, Admis.fix_off _ _ rfl, hc⟩

end whole

end
end Hexed.Repair
