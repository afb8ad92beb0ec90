import Verif.Atmos.Model
import Verif.Atmos.Spec
import Mathlib.Analysis.SpecialFunctions.Integrals.Basic
import Mathlib.Tactic.NormNum
import Mathlib.Tactic.FieldSimp
import Mathlib.Tactic.Linarith

set_option autoImplicit false
set_option linter.unusedVariables false

noncomputable section

namespace Hexed.Atmos

open MeasureTheory intervalIntegral

/-- The reciprocal of a linear function. -/
def lin (h0 t0 l s : ℝ) : ℝ := 1 / (t0 + l * (s - h0))

/-- What one layer contributes to the exponent. -/
def expo (h0 t0 l x : ℝ) : ℝ :=
  if l = 0 then (x - h0) / t0 else Real.log ((t0 + l * (x - h0)) / t0) / l

theorem expo_deriv {h0 t0 l x : ℝ} (ht : t0 ≠ 0) (hx : t0 + l * (x - h0) ≠ 0) :
    HasDerivAt (expo h0 t0 l) (lin h0 t0 l x) x := by
  by_cases hl : l = 0
  · subst hl
    have he : expo h0 t0 0 = fun x => (x - h0) / t0 := by funext y; simp [expo]
    rw [he]
    have : lin h0 t0 0 x = 1 / t0 := by simp [lin]
    rw [this]
    exact ((hasDerivAt_id x).sub_const h0).div_const t0
  · have he : expo h0 t0 l = fun x => Real.log ((t0 + l * (x - h0)) / t0) / l := by
      funext y; simp [expo, hl]
    rw [he]
    have h1 : HasDerivAt (fun x : ℝ => (t0 + l * (x - h0)) / t0) (l / t0) x := by
      have := ((((hasDerivAt_id x).sub_const h0).const_mul l).const_add t0).div_const t0
      simpa using this
    have h2 := (h1.log (div_ne_zero hx ht)).div_const l
    have h3 : lin h0 t0 l x = l / t0 / ((t0 + l * (x - h0)) / t0) / l := by
      unfold lin
      field_simp
    rw [h3]
    exact h2

/-- The contribution is the integral of the reciprocal temperature. -/
theorem integral_lin {h0 t0 l a b : ℝ} (hab : a ≤ b) (ht : t0 ≠ 0)
    (hpos : ∀ s ∈ Set.Icc a b, 0 < t0 + l * (s - h0)) :
    ∫ s in a..b, lin h0 t0 l s = expo h0 t0 l b - expo h0 t0 l a := by
  refine integral_eq_sub_of_hasDerivAt (fun x hx => ?_) ?_
  · rw [Set.uIcc_of_le hab] at hx
    exact expo_deriv ht (hpos x hx).ne'
  · refine ContinuousOn.intervalIntegrable ?_
    rw [Set.uIcc_of_le hab]
    unfold lin
    refine ContinuousOn.div continuousOn_const ?_ fun x hx => (hpos x hx).ne'
    fun_prop

theorem expo_base {h0 t0 l : ℝ} (ht : t0 ≠ 0) : expo h0 t0 l h0 = 0 := by
  unfold expo
  split_ifs with h
  · simp
  · simp [div_self ht]

/-- What one layer does, in one formula. -/
theorem layer_eq {alt h0 t0 h1 t1 l : ℝ} (s : ℝ × ℝ) (hl : (t1 - t0) / (h1 - h0) = l)
    (hz : l = 0 ∨ epsilon ≤ |l|) (ht : 0 < t0) (hpos : 0 < t0 + l * (min h1 alt - h0)) :
    layer alt h0 t0 h1 t1 s =
      (s.1 * Real.exp (-(stdGrav / gasAir) * expo h0 t0 l (min h1 alt)),
        t0 + l * (min h1 alt - h0)) := by
  unfold layer
  simp only [hl]
  have hg : gasAir ≠ 0 := by unfold gasAir; norm_num
  rcases hz with hz | hz
  · subst hz
    rw [if_pos (by rw [abs_zero]; unfold epsilon; norm_num)]
    unfold expo
    rw [if_pos rfl]
    congr 3
    field_simp
  · have hl0 : l ≠ 0 := by
      intro h; subst h
      simp only [abs_zero] at hz
      have : (0 : ℝ) < epsilon := by unfold epsilon; norm_num
      linarith
    rw [if_neg (not_lt.2 hz)]
    unfold expo
    rw [if_neg hl0]
    congr 2
    show ((t0 + l * (min h1 alt - h0)) / t0) ^ (-stdGrav / l / gasAir) = _
    rw [Real.rpow_def_of_pos (div_pos hpos ht)]
    congr 1
    field_simp

/-- Exponent of the exact pressure. -/
def total (h : ℝ) : ℝ := ∫ s in (0 : ℝ)..h, 1 / icaoTemp s

theorem icaoPres_eq (h : ℝ) : icaoPres h = atmosphere * Real.exp (-(stdGrav / gasAir) * total h) := rfl

theorem icaoPres_pos (h : ℝ) : 0 < icaoPres h := by
  rw [icaoPres_eq]; unfold atmosphere; positivity

/-- What has to hold of a row of the table and the next. -/
structure Seg (h0 t0 h1 t1 l : ℝ) : Prop where
  lapse : (t1 - t0) / (h1 - h0) = l
  zero : l = 0 ∨ epsilon ≤ |l|
  long : h0 + 1 ≤ h1
  small : |l| ≤ 0.007
  warm : 196 ≤ t0
  warm1 : 196 ≤ t1
  temp : ∀ s, h0 < s → s ≤ h1 → icaoTemp s = t0 + l * (s - h0)
  temp0 : icaoTemp h0 = t0
  integrable : IntervalIntegrable (fun s => 1 / icaoTemp s) volume 0 h0

theorem Seg.end_temp {h0 t0 h1 t1 l : ℝ} (g : Seg h0 t0 h1 t1 l) : t0 + l * (h1 - h0) = t1 := by
  have := g.long
  have hne : h1 - h0 ≠ 0 := by intro h; linarith
  rw [← g.lapse]
  field_simp
  ring

theorem Seg.temp' {h0 t0 h1 t1 l : ℝ} (g : Seg h0 t0 h1 t1 l) {s : ℝ} (h : h0 ≤ s) (h' : s ≤ h1) :
    icaoTemp s = t0 + l * (s - h0) := by
  rcases h.lt_or_eq with h | h
  · exact g.temp s h h'
  · rw [← h, g.temp0]; ring

theorem Seg.pos {h0 t0 h1 t1 l : ℝ} (g : Seg h0 t0 h1 t1 l) {s : ℝ} (h : h0 - epsilon ≤ s)
    (h' : s ≤ h1) : 190 ≤ t0 + l * (s - h0) := by
  have e1 := g.end_temp
  have e2 := g.warm
  have e3 := g.warm1
  have e4 := g.long
  have e5 := abs_le.1 g.small
  have e6 : epsilon ≤ 1 := by unfold epsilon; norm_num
  rcases le_total h0 s with hs | hs
  · rcases le_total 0 l with hl | hl
    · nlinarith [mul_nonneg hl (sub_nonneg.2 hs)]
    · nlinarith [mul_nonneg (neg_nonneg.2 hl) (sub_nonneg.2 h')]
  · nlinarith [e5.1, e5.2]

theorem Seg.integrable' {h0 t0 h1 t1 l : ℝ} (g : Seg h0 t0 h1 t1 l) {x : ℝ} (h : h0 ≤ x) (h' : x ≤ h1) :
    IntervalIntegrable (fun s => 1 / icaoTemp s) volume h0 x := by
  have hc : IntervalIntegrable (lin h0 t0 l) volume h0 x := by
    refine ContinuousOn.intervalIntegrable ?_
    rw [Set.uIcc_of_le h]
    unfold lin
    refine ContinuousOn.div continuousOn_const (by fun_prop) fun s hs => ?_
    have := g.pos (s := s) (by have : (0:ℝ) < epsilon := by (unfold epsilon; norm_num)
                               linarith [hs.1]) (hs.2.trans h')
    linarith
  refine hc.congr ?_
  intro s hs
  rw [Set.uIoc_of_le h] at hs
  show lin h0 t0 l s = 1 / icaoTemp s
  rw [g.temp s hs.1 (hs.2.trans h')]; rfl

theorem Seg.total {h0 t0 h1 t1 l : ℝ} (g : Seg h0 t0 h1 t1 l) {x : ℝ} (h : h0 ≤ x) (h' : x ≤ h1) :
    total x = total h0 + expo h0 t0 l x := by
  have ht : t0 ≠ 0 := by have := g.warm; intro hh; linarith
  have h1 : ∫ s in h0..x, 1 / icaoTemp s = ∫ s in h0..x, lin h0 t0 l s := by
    refine integral_congr fun s hs => ?_
    rw [Set.uIcc_of_le h] at hs
    show 1 / icaoTemp s = _
    rw [g.temp' hs.1 (hs.2.trans h')]; rfl
  have h2 := integral_lin (h0 := h0) (t0 := t0) (l := l) h ht fun s hs => by
    have := g.pos (s := s) (by have : (0:ℝ) < epsilon := by (unfold epsilon; norm_num)
                               linarith [hs.1]) (hs.2.trans h')
    linarith
  rw [expo_base ht, sub_zero] at h2
  unfold Atmos.total
  rw [← integral_add_adjacent_intervals g.integrable (g.integrable' h h'), h1, h2]

/-- A layer that ends at or below the altitude. -/
theorem Seg.full {h0 t0 h1 t1 l alt : ℝ} (g : Seg h0 t0 h1 t1 l) (s : ℝ × ℝ) (hs : s.1 = icaoPres h0)
    (ha : h1 ≤ alt) : layer alt h0 t0 h1 t1 s = (icaoPres h1, t1) := by
  have hl := g.long
  have hm : min h1 alt = h1 := min_eq_left ha
  have hp : 0 < t0 + l * (min h1 alt - h0) := by
    rw [hm, g.end_temp]; have := g.warm1; linarith
  rw [layer_eq s g.lapse g.zero (by have := g.warm; linarith) hp, hm, g.end_temp, hs, icaoPres_eq,
    icaoPres_eq, g.total (by linarith) le_rfl, mul_add, Real.exp_add, mul_assoc]

/-- The layer of the altitude. -/
theorem Seg.inside {h0 t0 h1 t1 l alt : ℝ} (g : Seg h0 t0 h1 t1 l) (s : ℝ × ℝ) (hs : s.1 = icaoPres h0)
    (ha : h0 ≤ alt) (hb : alt ≤ h1) : layer alt h0 t0 h1 t1 s = (icaoPres alt, icaoTemp alt) := by
  have hm : min h1 alt = alt := min_eq_right hb
  have he : (0 : ℝ) < epsilon := by unfold epsilon; norm_num
  have hp : 0 < t0 + l * (min h1 alt - h0) := by
    rw [hm]; have := g.pos (s := alt) (by linarith) hb; linarith
  rw [layer_eq s g.lapse g.zero (by have := g.warm; linarith) hp, hm, g.temp' ha hb, hs, icaoPres_eq,
    icaoPres_eq, g.total ha hb, mul_add, Real.exp_add, mul_assoc]

/-- Bounds on the exponent just below a layer. -/
theorem Seg.expo_below {h0 t0 h1 t1 l alt : ℝ} (g : Seg h0 t0 h1 t1 l) (ha : h0 - epsilon < alt)
    (hb : alt ≤ h0) : -(epsilon / 190) ≤ expo h0 t0 l alt ∧ expo h0 t0 l alt ≤ 0 := by
  have ht : t0 ≠ 0 := by have := g.warm; intro hh; linarith
  have hl := g.long
  have hpos : ∀ s ∈ Set.Icc alt h0, 190 ≤ t0 + l * (s - h0) := fun s hs =>
    g.pos (by linarith [hs.1]) (by linarith [hs.2])
  have h2 := integral_lin (h0 := h0) (t0 := t0) (l := l) hb ht fun s hs => by
    linarith [hpos s hs]
  rw [expo_base ht, zero_sub] at h2
  have h3 : 0 ≤ ∫ s in alt..h0, lin h0 t0 l s := integral_nonneg hb fun s hs => by
    unfold lin; have := hpos s hs; positivity
  have h4 : ‖∫ s in alt..h0, lin h0 t0 l s‖ ≤ 1 / 190 * |h0 - alt| :=
    norm_integral_le_of_norm_le_const fun s hs => by
      rw [Set.uIoc_of_le hb] at hs
      have := hpos s ⟨hs.1.le, hs.2⟩
      unfold lin
      rw [Real.norm_eq_abs, abs_of_pos (by positivity)]
      exact one_div_le_one_div_of_le (by norm_num) this
  rw [Real.norm_eq_abs, abs_of_nonneg h3, abs_of_nonneg (by linarith)] at h4
  constructor <;> linarith

/-- A layer that begins just above the altitude. -/
theorem Seg.extra {h0 t0 h1 t1 l alt : ℝ} (g : Seg h0 t0 h1 t1 l) (s : ℝ × ℝ)
    (ha : h0 - epsilon < alt) (hb : alt ≤ h0) :
    layer alt h0 t0 h1 t1 s =
      (s.1 * Real.exp (-(stdGrav / gasAir) * expo h0 t0 l alt), t0 + l * (alt - h0)) := by
  have hl := g.long
  have hm : min h1 alt = alt := min_eq_right (by linarith)
  have hp : 0 < t0 + l * (min h1 alt - h0) := by
    rw [hm]; have := g.pos (s := alt) (by linarith) (by linarith); linarith
  rw [layer_eq s g.lapse g.zero (by have := g.warm; linarith) hp, hm]

theorem factor_bounds {e : ℝ} (h1 : -(epsilon / 190) ≤ e) (h2 : e ≤ 0) :
    1 ≤ Real.exp (-(stdGrav / gasAir) * e) ∧ Real.exp (-(stdGrav / gasAir) * e) ≤ 1 + 1e-13 := by
  have hc : 0 ≤ stdGrav / gasAir ∧ stdGrav / gasAir ≤ 0.1 := by
    unfold stdGrav gasAir; norm_num
  set x := -(stdGrav / gasAir) * e with hx
  have hx0 : 0 ≤ x := by nlinarith [hc.1]
  have hx1 : x ≤ 6e-14 := by
    have : (epsilon : ℝ) / 190 ≤ 6e-13 := by unfold epsilon; norm_num
    nlinarith [hc.1, hc.2]
  refine ⟨Real.one_le_exp hx0, ?_⟩
  have h3 := Real.add_one_le_exp (-x)
  have h4 : Real.exp x * Real.exp (-x) = 1 := by rw [← Real.exp_add]; simp
  have h5 := Real.exp_pos x
  have h6 : Real.exp x * (1 - 6e-14) ≤ 1 := by nlinarith
  nlinarith

/-- A table whose rows are as they should be. -/
def Chain : List (ℝ × ℝ) → Prop
  | (h0, t0) :: (h1, t1) :: rest => (∃ l, Seg h0 t0 h1 t1 l) ∧ Chain ((h1, t1) :: rest)
  | _ => True

/-- Altitude of the last row. -/
def top : List (ℝ × ℝ) → ℝ
  | [] => 0
  | [r] => r.1
  | _ :: r :: rest => top (r :: rest)

/-- Altitudes of all rows but the first and the last. -/
def inner : List (ℝ × ℝ) → List ℝ
  | _ :: r :: r' :: rest => r.1 :: inner (r :: r' :: rest)
  | _ => []

/-- Just below a boundary of two layers. -/
def Near (t : List (ℝ × ℝ)) (alt : ℝ) : Prop := ∃ b ∈ inner t, b - epsilon < alt ∧ alt < b

/-- The loop, started with the right pressure. -/
theorem layers_good {alt : ℝ} (t : List (ℝ × ℝ)) (hc : Chain t) :
    ∀ h0 t0 r rest, t = (h0, t0) :: r :: rest → ∀ s : ℝ × ℝ, s.1 = icaoPres h0 → h0 ≤ alt → alt ≤ top t →
      (∃ e d : ℝ, layers alt t s = (icaoPres alt * Real.exp (-(stdGrav / gasAir) * e), icaoTemp alt + d) ∧
        -(epsilon / 190) ≤ e ∧ e ≤ 0 ∧ |d| ≤ 1e-11 ∧ (¬ Near t alt → e = 0 ∧ d = 0)) := by
  have he : (0 : ℝ) < epsilon := by unfold epsilon; norm_num
  induction t with
  | nil => intro _ _ _ _ h; simp at h
  | cons a t ih =>
    intro h0 t0 r rest ht s hs ha hb
    obtain ⟨h1, t1⟩ := r
    obtain ⟨rfl, rfl⟩ := List.cons.inj ht
    obtain ⟨⟨l, g⟩, hc'⟩ := hc
    rw [layers, if_pos (by linarith)]
    rcases le_total h1 alt with hle | hle
    · cases rest with
      | nil =>
        have hh : alt = h1 := le_antisymm hb hle
        refine ⟨0, 0, ?_, by linarith [div_nonneg he.le (by norm_num : (0:ℝ) ≤ 190)], le_rfl, by norm_num,
          fun _ => ⟨rfl, rfl⟩⟩
        rw [layers, g.inside s hs ha (by linarith)]
        · simp
        · simp
      | cons r2 rest2 =>
        obtain ⟨e, d, q1, q2, q3, q4, q5⟩ := ih hc' h1 t1 r2 rest2 rfl
          (layer alt h0 t0 h1 t1 s) (by rw [g.full s hs hle]) hle hb
        refine ⟨e, d, q1, q2, q3, q4, fun hn => q5 fun ⟨b, hb1, hb2⟩ => hn ⟨b, ?_, hb2⟩⟩
        exact List.mem_cons_of_mem _ hb1
    · rw [g.inside s hs ha hle]
      cases rest with
      | nil =>
        refine ⟨0, 0, ?_, by linarith [div_nonneg he.le (by norm_num : (0:ℝ) ≤ 190)], le_rfl, by norm_num,
          fun _ => ⟨rfl, rfl⟩⟩
        rw [layers]
        · simp
        · simp
      | cons r2 rest2 =>
        obtain ⟨h2, t2⟩ := r2
        obtain ⟨⟨l2, g2⟩, hc2⟩ := hc'
        rw [layers]
        by_cases hw : h1 - epsilon < alt
        · rw [if_pos hw, g2.extra _ hw hle]
          have hstop : ∀ s, layers alt ((h2, t2) :: rest2) s = s := by
            intro s
            cases rest2 with
            | nil => rw [layers]; simp
            | cons r3 rest3 =>
              obtain ⟨h3, t3⟩ := r3
              have := g2.long
              rw [layers, if_neg]
              have : epsilon ≤ 1 / 2 := by unfold epsilon; norm_num
              intro hh
              linarith
          rw [hstop]
          obtain ⟨e1, e2⟩ := g2.expo_below hw hle
          refine ⟨expo h1 t1 l2 alt, t1 + l2 * (alt - h1) - icaoTemp alt, by simp, e1, e2, ?_, ?_⟩
          · rw [g.temp' ha hle, ← g.end_temp]
            have f1 := abs_le.1 g.small
            have f2 := abs_le.1 g2.small
            rw [show t0 + l * (h1 - h0) + l2 * (alt - h1) - (t0 + l * (alt - h0)) =
              (l - l2) * (h1 - alt) by ring]
            rw [abs_mul, abs_of_nonneg (sub_nonneg.2 hle)]
            have f3 : |l - l2| ≤ 0.014 := abs_le.2 ⟨by linarith [f1.1, f2.2], by linarith [f1.2, f2.1]⟩
            have f4 : epsilon ≤ 1e-10 := le_rfl
            nlinarith [abs_nonneg (l - l2)]
          · intro hn
            have hh : alt = h1 := by
              by_contra hne
              exact hn ⟨h1, by simp [inner], hw, lt_of_le_of_ne hle hne⟩
            subst hh
            refine ⟨expo_base (by have := g2.warm; intro h; linarith), ?_⟩
            rw [g2.temp0]; ring
        · rw [if_neg hw]
          exact ⟨0, 0, by simp, by linarith [div_nonneg he.le (by norm_num : (0:ℝ) ≤ 190)], le_rfl,
            by norm_num, fun _ => ⟨rfl, rfl⟩⟩

theorem seg0 : Seg 0 288.15 11000 216.65 (-0.0065) where
  lapse := by norm_num
  zero := by right; unfold epsilon; rw [le_abs]; norm_num
  long := by norm_num
  small := by rw [abs_le]; constructor <;> norm_num
  warm := by norm_num
  warm1 := by norm_num
  temp := by
    intro s h h'
    unfold icaoTemp
    split_ifs <;> linarith
  temp0 := by
    unfold icaoTemp
    norm_num
  integrable := by simp

theorem seg1 : Seg 11000 216.65 20000 216.65 0 where
  lapse := by norm_num
  zero := by left; rfl
  long := by norm_num
  small := by rw [abs_le]; constructor <;> norm_num
  warm := by norm_num
  warm1 := by norm_num
  temp := by
    intro s h h'
    unfold icaoTemp
    split_ifs <;> linarith
  temp0 := by
    unfold icaoTemp
    norm_num
  integrable := seg0.integrable.trans (seg0.integrable' (by norm_num) le_rfl)

theorem seg2 : Seg 20000 216.65 32000 228.65 0.001 where
  lapse := by norm_num
  zero := by right; unfold epsilon; rw [le_abs]; norm_num
  long := by norm_num
  small := by rw [abs_le]; constructor <;> norm_num
  warm := by norm_num
  warm1 := by norm_num
  temp := by
    intro s h h'
    unfold icaoTemp
    split_ifs <;> linarith
  temp0 := by
    unfold icaoTemp
    norm_num
  integrable := seg1.integrable.trans (seg1.integrable' (by norm_num) le_rfl)

theorem seg3 : Seg 32000 228.65 47000 270.65 0.0028 where
  lapse := by norm_num
  zero := by right; unfold epsilon; rw [le_abs]; norm_num
  long := by norm_num
  small := by rw [abs_le]; constructor <;> norm_num
  warm := by norm_num
  warm1 := by norm_num
  temp := by
    intro s h h'
    unfold icaoTemp
    split_ifs <;> linarith
  temp0 := by
    unfold icaoTemp
    norm_num
  integrable := seg2.integrable.trans (seg2.integrable' (by norm_num) le_rfl)

theorem seg4 : Seg 47000 270.65 51000 270.65 0 where
  lapse := by norm_num
  zero := by left; rfl
  long := by norm_num
  small := by rw [abs_le]; constructor <;> norm_num
  warm := by norm_num
  warm1 := by norm_num
  temp := by
    intro s h h'
    unfold icaoTemp
    split_ifs <;> linarith
  temp0 := by
    unfold icaoTemp
    norm_num
  integrable := seg3.integrable.trans (seg3.integrable' (by norm_num) le_rfl)

theorem seg5 : Seg 51000 270.65 71000 214.65 (-0.0028) where
  lapse := by norm_num
  zero := by right; unfold epsilon; rw [le_abs]; norm_num
  long := by norm_num
  small := by rw [abs_le]; constructor <;> norm_num
  warm := by norm_num
  warm1 := by norm_num
  temp := by
    intro s h h'
    unfold icaoTemp
    split_ifs <;> linarith
  temp0 := by
    unfold icaoTemp
    norm_num
  integrable := seg4.integrable.trans (seg4.integrable' (by norm_num) le_rfl)

theorem seg6 : Seg 71000 214.65 80000 196.65 (-0.002) where
  lapse := by norm_num
  zero := by right; unfold epsilon; rw [le_abs]; norm_num
  long := by norm_num
  small := by rw [abs_le]; constructor <;> norm_num
  warm := by norm_num
  warm1 := by norm_num
  temp := by
    intro s h h'
    unfold icaoTemp
    split_ifs <;> linarith
  temp0 := by
    unfold icaoTemp
    norm_num
  integrable := seg5.integrable.trans (seg5.integrable' (by norm_num) le_rfl)

theorem altTemp_chain : Chain altTemp :=
  ⟨⟨_, seg0⟩, ⟨_, seg1⟩, ⟨_, seg2⟩, ⟨_, seg3⟩, ⟨_, seg4⟩, ⟨_, seg5⟩, ⟨_, seg6⟩, trivial⟩

end Hexed.Atmos

end
