import Verif.Visc.Lemmas
set_option autoImplicit false
set_option linter.unusedVariables false

/-!
# Properties: artificial viscosity set element by element (C77)
-/

namespace Hexed.Visc
open Hexed.Tensor Hexed.Basis Hexed.Stats

variable {b : Nodes ℝ} {deg : Nat}

/-- The stabilizing viscosity of an element is a ramp of the part of the specific volume that is in the modes of highest degree: zero well below the threshold, the full value
`(row_size - 1)*char_speed*nominal_size` well above it, monotone and continuous in between. -/
theorem stabilizing_ramp (hb : Rule b deg) (hd : 2 * b.n ≤ deg + 3) (hn : 2 ≤ b.n) : ∃ θ : ℝ → ℝ, IsRamp (threshold b.n) θ ∧
    ∀ (u : Nat → ℝ) (nd : Nat), 1 ≤ nd → ∀ (char_speed size : ℝ) (r : Nat → ℝ) (rho : Nat → Option ℝ), (∀ q < b.n ^ nd, rho q = some (r q) ∧ r q ≠ 0) →
      stabilizing b u nd char_speed size rho = some (((b.n : ℝ) - 1) * char_speed * size * θ (topFraction b fun c : Fin nd → Fin b.n => 1 / r (idx c))) := by
  refine ⟨_, isRamp_stab hn, fun u nd hnd cs size r rho hr => ?_⟩
  rw [stabilizing, nonsmooth_num hb hd u hnd r hr]
  rfl

theorem IsRamp.range {T : ℝ} {θ : ℝ → ℝ} (h : IsRamp T θ) (hT : 0 < T) {x : ℝ} (hx : 0 ≤ x) : 0 ≤ θ x ∧ θ x ≤ 1 := by
  have hs : (0 : ℝ) < √10 := Real.sqrt_pos.2 (by norm_num)
  have h0 := h.zero 0 le_rfl (by positivity)
  have h1 := h.one (max x (T * √10)) (le_max_right _ _)
  refine ⟨?_, ?_⟩
  · rw [← h0]; exact h.monotone (Set.mem_Ici.2 le_rfl) (Set.mem_Ici.2 hx) hx
  · rw [← h1]; exact h.monotone (Set.mem_Ici.2 hx) (Set.mem_Ici.2 (hx.trans (le_max_left _ _))) (le_max_left _ _)

/-- For every state, admissible or not, NaN included, the viscosity is a number between zero and the full value. -/
theorem stabilizing_range (hb : Rule b deg) (hd : 2 * b.n ≤ deg + 3) (hn : 2 ≤ b.n) (u : Nat → ℝ) {nd : Nat} (hnd : 1 ≤ nd) {char_speed size : ℝ} (hc : 0 ≤ char_speed) (hs : 0 ≤ size) (rho : Nat → Option ℝ) :
    ∃ x, stabilizing b u nd char_speed size rho = some x ∧ 0 ≤ x ∧ x ≤ ((b.n : ℝ) - 1) * char_speed * size := by
  have h1 : (0 : ℝ) ≤ b.n - 1 := by
    have : (2 : ℝ) ≤ b.n := by exact_mod_cast hn
    linarith
  have hf : 0 ≤ ((b.n : ℝ) - 1) * char_speed * size := by positivity
  by_cases hr : ∃ q < b.n ^ nd, rho q = none ∨ rho q = some 0
  · refine ⟨_, by rw [stabilizing, nonsmooth_nan hb u hr]; rfl, ?_⟩
    simp only [log10, Option.elim_none, ramp, mul_one]
    exact ⟨hf, le_rfl⟩
  · push Not at hr
    have hr' : ∀ q < b.n ^ nd, rho q = some ((rho q).getD 0) ∧ (rho q).getD 0 ≠ 0 := by
      intro q hq
      obtain ⟨a, c⟩ := hr q hq
      obtain ⟨x, hx⟩ := Option.ne_none_iff_exists'.1 a
      rw [hx] at c ⊢
      exact ⟨rfl, by simpa using c⟩
    obtain ⟨θ, hθ, h⟩ := stabilizing_ramp hb hd hn
    have := hθ.range (threshold_pos hn) (topFraction_range b fun c : Fin nd → Fin b.n => 1 / (rho (idx c)).getD 0).1
    exact ⟨_, h u nd hnd char_speed size _ rho hr', mul_nonneg hf this.1, mul_le_of_le_one_right hf this.2⟩

/-- Where the density is NaN or zero at any point, the viscosity is the full value. -/
theorem stabilizing_invalid (hb : Rule b deg) (u : Nat → ℝ) {nd : Nat} (char_speed size : ℝ) {rho : Nat → Option ℝ} (hr : ∃ q < b.n ^ nd, rho q = none ∨ rho q = some 0) :
    stabilizing b u nd char_speed size rho = some (((b.n : ℝ) - 1) * char_speed * size) := by
  rw [stabilizing, nonsmooth_nan hb u hr]
  simp [log10, ramp]

/-- Smooth flows are not changed: if the specific volume is a polynomial of lower than the highest degree in every variable then the viscosity is exactly zero. -/
theorem stabilizing_smooth (hb : Rule b deg) (hd : 2 * b.n ≤ deg + 3) (hn : 2 ≤ b.n) (u : Nat → ℝ) {nd : Nat} (hnd : 1 ≤ nd) (char_speed size : ℝ) {r : Nat → ℝ} {rho : Nat → Option ℝ}
    (hr : ∀ q < b.n ^ nd, rho q = some (r q) ∧ r q ≠ 0) {p : MvPolynomial (Fin nd) ℝ} (hp : ∀ i, p.degreeOf i ≤ b.n - 2) (hv : ∀ c : Fin nd → Fin b.n, 1 / r (idx c) = MvPolynomial.eval (point b c) p) :
    stabilizing b u nd char_speed size rho = some 0 := by
  obtain ⟨θ, hθ, h⟩ := stabilizing_ramp hb hd hn
  have hz := (nonsmooth_zero_iff hb hd hn u hnd fun q => 1 / r q).2 ⟨p, hp, hv⟩
  rw [nonsmooth_modes hb hd u hnd, Option.some.injEq, Real.sqrt_eq_zero (div_nonneg (Finset.sum_nonneg fun _ _ => Finset.sum_nonneg fun _ _ => sq_nonneg _) (Nat.cast_nonneg _)), div_eq_zero_iff,
    or_iff_left (Nat.cast_ne_zero.2 (by omega))] at hz
  have h0 : topFraction b (fun c : Fin nd → Fin b.n => 1 / r (idx c)) = 0 := by
    rw [topFraction, show (fun c : Fin nd → Fin b.n => 1 / r (idx c)) = at' fun q => 1 / r q from rfl, hz, zero_div]
  have hT := threshold_pos hn
  rw [h u nd hnd char_speed size r rho hr, h0, hθ.zero 0 le_rfl (by positivity), mul_zero]

/-- The unit in which density is measured makes no difference. -/
theorem stabilizing_unit (hb : Rule b deg) (hd : 2 * b.n ≤ deg + 3) (hn : 2 ≤ b.n) (u : Nat → ℝ) {nd : Nat} (hnd : 1 ≤ nd) (char_speed size : ℝ) (rho : Nat → Option ℝ) {k : ℝ} (hk : k ≠ 0) :
    stabilizing b u nd char_speed size (fun q => (rho q).map (k * ·)) = stabilizing b u nd char_speed size rho := by
  by_cases hr : ∃ q < b.n ^ nd, rho q = none ∨ rho q = some 0
  · rw [stabilizing_invalid hb u _ _ hr, stabilizing_invalid hb u]
    obtain ⟨q, hq, h⟩ := hr
    refine ⟨q, hq, ?_⟩
    rcases h with h | h <;> rw [h] <;> simp
  · push Not at hr
    have hr' : ∀ q < b.n ^ nd, rho q = some ((rho q).getD 0) ∧ (rho q).getD 0 ≠ 0 := by
      intro q hq
      obtain ⟨a, c⟩ := hr q hq
      obtain ⟨x, hx⟩ := Option.ne_none_iff_exists'.1 a
      rw [hx] at c ⊢
      exact ⟨rfl, by simpa using c⟩
    obtain ⟨θ, hθ, h⟩ := stabilizing_ramp hb hd hn
    rw [h u nd hnd char_speed size _ rho hr', h u nd hnd char_speed size (fun q => k * (rho q).getD 0) _ (fun q hq => ?_)]
    · rw [← topFraction_scale b (fun c : Fin nd → Fin b.n => 1 / (rho (idx c)).getD 0) (inv_ne_zero hk)]
      congr 5
      funext c
      rw [one_div, mul_inv, one_div]
    · obtain ⟨a, c⟩ := hr' q hq
      refine ⟨?_, mul_ne_zero hk c⟩
      conv_lhs => rw [a]
      rfl

/-- For row size 2 the full value is never reached in a valid state: the threshold is 1, which the indicator cannot exceed. -/
theorem stabilizing_linear (hb : Rule b deg) (hd : 2 * b.n ≤ deg + 3) (hn : b.n = 2) (u : Nat → ℝ) {nd : Nat} (hnd : 1 ≤ nd) {char_speed size : ℝ} (hc : 0 ≤ char_speed) (hs : 0 ≤ size) {r : Nat → ℝ} {rho : Nat → Option ℝ}
    (hr : ∀ q < b.n ^ nd, rho q = some (r q) ∧ r q ≠ 0) : ∃ x, stabilizing b u nd char_speed size rho = some x ∧ x ≤ char_speed * size / 2 := by
  obtain ⟨θ, hθ, h⟩ := stabilizing_ramp hb hd hn.ge
  refine ⟨_, h u nd hnd char_speed size r rho hr, ?_⟩
  have hT : threshold b.n = 1 := by rw [threshold, hn]; norm_num
  obtain ⟨h0, h1⟩ := topFraction_range b fun c : Fin nd → Fin b.n => 1 / r (idx c)
  have := hθ.monotone (Set.mem_Ici.2 h0) (Set.mem_Ici.2 zero_le_one) h1
  have hh := hθ.half
  rw [hT] at hh
  rw [hh] at this
  have e2 : (b.n : ℝ) = 2 := by exact_mod_cast hn
  have hcs := mul_nonneg hc hs
  rw [show ((b.n : ℝ) - 1) * char_speed * size = char_speed * size by rw [e2]; ring]
  nlinarith

/-! ## The whole mesh -/

section
variable {m : Share.Mesh} {order : Nat → List (Nat × Nat)}

theorem shareToQpoints_eq (hn : 1 ≤ b.n) (hnd : m.nd = 2 ∨ m.nd = 3) (u : Nat → ℝ) (uncert : Nat → ℝ) (old : Nat → Nat → ℝ) {val : Nat → Nat → ℝ}
    (hs : Share.shareVertexData m order u Share.vectorMax (fun e _ => uncert e) old = some val) : ∃ out, shareToQpoints b u m order uncert old = some out ∧
      ∀ e, ∃ av, out e = some av ∧ av.size = b.n ^ m.nd ∧ ∀ c : Fin m.nd → Fin b.n, av.val (idx c) = Share.field m.nd (val e) (at_ b c) :=
  ⟨_, by rw [shareToQpoints, hs]; rfl, fun e => toQpoints_eq hn u (by omega) (val e)⟩

theorem setArtViscAdmis_eq (hb : Rule b deg) (hd : 2 * b.n ≤ deg + 3) (hn : 2 ≤ b.n) (hnd : 1 ≤ m.nd) (u : Nat → ℝ) {speed sound : ℝ} (hc : 0 ≤ speed + sound) {size : Nat → ℝ} (hs : ∀ e, 0 ≤ size e)
    (rho : Nat → Nat → Option ℝ) (old : Nat → Nat → ℝ) : ∃ visc : Nat → ℝ, (∀ e, stabilizing b u m.nd (speed + sound) (size e) (rho e) = some (visc e)) ∧
      setArtViscAdmis b u m order speed sound size rho old = shareToQpoints b u m order visc old := by
  have key : ∀ e, ∃ x, stabilizing b u m.nd (speed + sound) (size e) (rho e) = some x := fun e => by
    obtain ⟨x, hx, -⟩ := stabilizing_range hb hd hn u hnd hc (hs e) (rho e)
    exact ⟨x, hx⟩
  choose visc hv using key
  refine ⟨visc, hv, ?_⟩
  rw [setArtViscAdmis, if_pos fun e _ => by rw [hv e]; rfl]
  congr 1
  funext e
  rw [hv e]; rfl

/-- `set_art_visc_admis` never fails. The viscosity at each quadrature point is the multilinear interpolation of values at the vertices, which are those of the elements shared with the maximum: so the theorems of
C76 give its values at the vertices and its continuity. -/
theorem admis_interpolates (hb : Rule b deg) (hd : 2 * b.n ≤ deg + 3) (hn : 2 ≤ b.n) (hc : Share.Consistent ℝ m) (ho : m.IsOrder order) (u : Nat → ℝ) {speed sound : ℝ} (hs : 0 ≤ speed + sound) {size : Nat → ℝ}
    (hsz : ∀ e, 0 ≤ size e) (rho : Nat → Nat → Option ℝ) (old : Nat → Nat → ℝ) :
    ∃ (visc : Nat → ℝ) (val : Nat → Nat → ℝ) (out : Nat → Option (Vec ℝ)), (∀ e, stabilizing b u m.nd (speed + sound) (size e) (rho e) = some (visc e)) ∧
      Share.shareVertexData m order u Share.vectorMax (fun e _ => visc e) old = some val ∧ setArtViscAdmis b u m order speed sound size rho old = some out ∧
      ∀ e, ∃ av, out e = some av ∧ av.size = b.n ^ m.nd ∧ ∀ c : Fin m.nd → Fin b.n, av.val (idx c) = Share.field m.nd (val e) (at_ b c) := by
  have hnd : 1 ≤ m.nd := by rcases hc.dim with h | h <;> omega
  obtain ⟨visc, hv, he⟩ := setArtViscAdmis_eq (order := order) hb hd hn hnd u hs hsz rho old
  obtain ⟨val, h1, -⟩ := Share.share_max hc ho u (fun e _ => visc e) old
  obtain ⟨out, o1, o2⟩ := shareToQpoints_eq (b := b) (by omega) hc.dim u visc old h1
  exact ⟨visc, val, out, hv, h1, by rw [he, o1], o2⟩

/-- In every mesh, whatever the state, the viscosity at every quadrature point is between zero and the full value for the largest element. -/
theorem admis_bounds (hb : Rule b deg) (hd : 2 * b.n ≤ deg + 3) (hn : 2 ≤ b.n) (hnd : m.nd = 2 ∨ m.nd = 3) (hok : ∀ h ∈ m.matchers, h.Ok m.nd m.ne) (ho : m.IsOrder order) (u : Nat → ℝ) {speed sound : ℝ}
    (hs : 0 ≤ speed + sound) {size : Nat → ℝ} {H : ℝ} (hsz : ∀ e, 0 ≤ size e ∧ size e ≤ H) (rho : Nat → Nat → Option ℝ) (old : Nat → Nat → ℝ) :
    ∃ out, setArtViscAdmis b u m order speed sound size rho old = some out ∧ ∀ e < m.ne, ∃ av, out e = some av ∧ av.size = b.n ^ m.nd ∧
      ∀ q < b.n ^ m.nd, 0 ≤ av.val q ∧ av.val q ≤ ((b.n : ℝ) - 1) * (speed + sound) * H := by
  have hnd' : 1 ≤ m.nd := by omega
  have h1 : (0 : ℝ) ≤ b.n - 1 := by
    have : (2 : ℝ) ≤ b.n := by exact_mod_cast hn
    linarith
  obtain ⟨visc, hv, he⟩ := setArtViscAdmis_eq (order := order) hb hd hn hnd' u hs (fun e => (hsz e).1) rho old
  have hr : ∀ e, 0 ≤ visc e ∧ visc e ≤ ((b.n : ℝ) - 1) * (speed + sound) * H := by
    intro e
    obtain ⟨x, hx, h0, h2⟩ := stabilizing_range hb hd hn u hnd' hs (hsz e).1 (rho e)
    obtain rfl := Option.some.inj (hx.symm.trans (hv e))
    exact ⟨h0, h2.trans (mul_le_mul_of_nonneg_left (hsz e).2 (mul_nonneg h1 hs))⟩
  obtain ⟨⟨val, v1, v2⟩, -⟩ := Share.share_bounds hnd hok ho u (fun e _ => visc e) old (fun e _ v _ => hr e)
  obtain ⟨out, o1, o2⟩ := shareToQpoints_eq (b := b) (by omega) hnd u visc old v1
  refine ⟨out, by rw [he, o1], fun e hee => ?_⟩
  obtain ⟨av, a1, a2, a3⟩ := o2 e
  refine ⟨av, a1, a2, fun q hq => ?_⟩
  obtain ⟨c, rfl⟩ := idx_surj hb.some q hq
  rw [a3 c]
  refine field_bounds (v2 e hee) fun k hk => ?_
  rw [at_, dif_pos hk]
  exact hb.unit _ (c ⟨k, hk⟩).2

/-- In a conforming mesh the viscosity at every point of an element is at least what the element itself requires: smoothing adds viscosity, but takes none away. -/
theorem admis_sufficient (hb : Rule b deg) (hd : 2 * b.n ≤ deg + 3) (hn : 2 ≤ b.n) (hnd : m.nd = 2 ∨ m.nd = 3) (hm : m.matchers = []) (ho : m.IsOrder order) (u : Nat → ℝ) {speed sound : ℝ}
    (hs : 0 ≤ speed + sound) {size : Nat → ℝ} (hsz : ∀ e, 0 ≤ size e) (rho : Nat → Nat → Option ℝ) (old : Nat → Nat → ℝ) :
    ∃ out, setArtViscAdmis b u m order speed sound size rho old = some out ∧ ∀ e < m.ne, ∃ x av, stabilizing b u m.nd (speed + sound) (size e) (rho e) = some x ∧ out e = some av ∧
      ∀ q < b.n ^ m.nd, x ≤ av.val q := by
  have hnd' : 1 ≤ m.nd := by omega
  obtain ⟨visc, hv, he⟩ := setArtViscAdmis_eq (order := order) hb hd hn hnd' u hs hsz rho old
  obtain ⟨val, v1, -, v2, -⟩ := Share.share_max (Share.conforming_consistent ℝ hnd hm) ho u (fun e _ => visc e) old
  obtain ⟨out, o1, o2⟩ := shareToQpoints_eq (b := b) (by omega) hnd u visc old v1
  refine ⟨out, by rw [he, o1], fun e hee => ?_⟩
  obtain ⟨av, a1, a2, a3⟩ := o2 e
  refine ⟨visc e, av, hv e, a1, fun q hq => ?_⟩
  obtain ⟨c, rfl⟩ := idx_surj hb.some q hq
  rw [a3 c]
  have hval : ∀ v < 2 ^ m.nd, visc e ≤ val e v ∧ val e v ≤ ∑ w ∈ Finset.range (2 ^ m.nd), |val e w| := by
    intro v hvv
    refine ⟨(v2 e hee v hvv (by rintro ⟨h, hh, -⟩; simp [hm] at hh)).2 e hee v hvv rfl, (le_abs_self _).trans ?_⟩
    exact Finset.single_le_sum (f := fun w => |val e w|) (fun _ _ => abs_nonneg _) (Finset.mem_range.2 hvv)
  refine (field_bounds hval fun k hk => ?_).1
  rw [at_, dif_pos hk]
  exact hb.unit _ (c ⟨k, hk⟩).2

/-! ## `update_art_visc_elwise` -/

/-- The viscosity of an element from its indicator is a ramp of the square of the indicator, with a threshold 10000 times smaller than that of the stabilizing viscosity. -/
theorem elwise_ramp {n : Nat} (hn : 2 ≤ n) : ∃ θ : ℝ → ℝ, IsRamp (threshold n / 10000) θ ∧
    ∀ (width speed sound : ℝ) (x : ℝ), 0 ≤ x → elwise n width speed sound (some x) = width / ((n : ℝ) - 1) * (speed + sound) * θ (x ^ 2) := by
  have h : ∀ x : ℝ, 0 ≤ x → (fun y => elwiseRamp (elwiseCenter n) 0.5 (twice (log10 (some (√y))))) (x ^ 2) = elwiseRamp (elwiseCenter n) 0.5 (twice (log10 (some x))) := fun x hx => by
    simp only [Real.sqrt_sq hx]
  refine ⟨fun y => elwiseRamp (elwiseCenter n) 0.5 (twice (log10 (some (√y)))), isRamp_elwise hn h, fun w sp so x hx => ?_⟩
  rw [elwise, mul_comm, ← h x hx]

/-- An element whose indicator is NaN, because its density is, gets no viscosity at all: the opposite of `set_art_visc_admis`. -/
theorem elwise_nan (n : Nat) (width speed sound : ℝ) : elwise n width speed sound none = 0 := by
  simp [elwise, log10, twice, elwiseRamp]

/-- In every mesh the viscosity at every quadrature point is between zero and `width/(row_size - 1)*(speed + sound)`. -/
theorem elwise_bounds {deg : Nat} (hb : Rule b deg) (hn : 2 ≤ b.n) (hnd : m.nd = 2 ∨ m.nd = 3) (hok : ∀ h ∈ m.matchers, h.Ok m.nd m.ne) (ho : m.IsOrder order) (u : Nat → ℝ) {width speed sound : ℝ} (hw : 0 ≤ width)
    (hs : 0 ≤ speed + sound) {ind : Nat → Option ℝ} (hi : ∀ e x, ind e = some x → 0 ≤ x) (old : Nat → Nat → ℝ) :
    ∃ out, updateArtViscElwise b u m order width speed sound ind old = some out ∧ ∀ e < m.ne, ∃ av, out e = some av ∧ av.size = b.n ^ m.nd ∧
      ∀ q < b.n ^ m.nd, 0 ≤ av.val q ∧ av.val q ≤ width / ((b.n : ℝ) - 1) * (speed + sound) := by
  have h1 : (0 : ℝ) ≤ b.n - 1 := by
    have : (2 : ℝ) ≤ b.n := by exact_mod_cast hn
    linarith
  have hf : 0 ≤ width / ((b.n : ℝ) - 1) * (speed + sound) := by positivity
  obtain ⟨θ, hθ, h⟩ := elwise_ramp hn
  have hT := threshold_pos hn
  have hr : ∀ e, 0 ≤ elwise b.n width speed sound (ind e) ∧ elwise b.n width speed sound (ind e) ≤ width / ((b.n : ℝ) - 1) * (speed + sound) := by
    intro e
    cases hx : ind e with
    | none => rw [elwise_nan]; exact ⟨le_rfl, hf⟩
    | some x =>
      rw [h _ _ _ x (hi e x hx)]
      have := hθ.range (by positivity) (sq_nonneg x)
      exact ⟨mul_nonneg hf this.1, mul_le_of_le_one_right hf this.2⟩
  obtain ⟨⟨val, v1, v2⟩, -⟩ := Share.share_bounds hnd hok ho u (fun e _ => elwise b.n width speed sound (ind e)) old (fun e _ v _ => hr e)
  obtain ⟨out, o1, o2⟩ := shareToQpoints_eq (b := b) (by omega) hnd u _ old v1
  refine ⟨out, o1, fun e hee => ?_⟩
  obtain ⟨av, a1, a2, a3⟩ := o2 e
  refine ⟨av, a1, a2, fun q hq => ?_⟩
  obtain ⟨c, rfl⟩ := idx_surj hb.some q hq
  rw [a3 c]
  refine field_bounds (v2 e hee) fun k hk => ?_
  rw [at_, dif_pos hk]
  exact hb.unit _ (c ⟨k, hk⟩).2

end

/-! ## `update_art_visc_smoothness` -/

/-- The momentum is put back exactly where mass and energy are positive. -/
theorem smoothness_restores {mass energy : ℝ} (hm : 0 < mass) (he : 0 < energy) (x : ℝ) : (scaleMomentum mass energy x).bind (restoreMomentum mass energy) = some x := by
  have hp : 0 < 2 * mass * energy := by positivity
  have hs : √(2 * mass * energy) ≠ 0 := (Real.sqrt_pos.2 hp).ne'
  simp only [scaleMomentum, restoreMomentum, momentumScale, if_neg (not_lt.2 hp.le), Option.bind_some, if_neg hs]
  rw [div_mul_cancel₀ _ hs]

/-- Where the product of mass and energy is not positive, the momentum is lost. -/
theorem smoothness_loses {mass energy : ℝ} (h : mass * energy ≤ 0) (x : ℝ) : (scaleMomentum mass energy x).bind (restoreMomentum mass energy) = none := by
  rcases h.lt_or_eq with h | h
  · simp [scaleMomentum, momentumScale, show 2 * mass * energy < 0 by linarith]
  · have : 2 * mass * energy = 0 := by linarith
    simp [scaleMomentum, momentumScale, this]

/-- For a smoothed forcing that is not negative, the coefficient is between zero and the maximum, and monotone in the forcing. -/
theorem smoothness_range {us_max mult f f' : ℝ} (hu : 0 < us_max) (hm : 0 ≤ mult) (hf : 0 ≤ f) (hff : f ≤ f') :
    ∃ x x', newAv us_max mult f = some x ∧ newAv us_max mult f' = some x' ∧ 0 ≤ x ∧ x ≤ x' ∧ x' < us_max := by
  have h1 : 0 ≤ mult * f := mul_nonneg hm hf
  have h2 : mult * f ≤ mult * f' := mul_le_mul_of_nonneg_left hff hm
  have p1 : 0 < us_max + mult * f := by linarith
  have p2 : 0 < us_max + mult * f' := by linarith
  refine ⟨_, _, if_neg p1.ne', if_neg p2.ne', by positivity, ?_, ?_⟩
  · rw [div_le_div_iff₀ p1 p2]
    nlinarith [mul_le_mul_of_nonneg_left h2 (mul_nonneg hu.le hu.le)]
  · rw [div_lt_iff₀ p2]
    nlinarith [mul_pos hu hu]

/-- There is no such bound for negative values, which high-order smoothing can produce: coefficients of any size and sign. -/
theorem smoothness_negative_refuted {us_max mult : ℝ} (hu : 0 < us_max) (hm : 0 < mult) (B : ℝ) :
    (∃ f < 0, ∃ x, newAv us_max mult f = some x ∧ B < x) ∧ (∃ f < 0, ∃ x, newAv us_max mult f = some x ∧ x < -B) ∧ ∃ f < 0, newAv us_max mult f = none := by
  -- `f = -us_max (1 + ε)/mult` gives `us_max (1 + ε)/ε`
  have key : ∀ ε : ℝ, ε ≠ 0 → newAv us_max mult (-(us_max * (1 + ε)) / mult) = some (us_max * (1 + ε) / ε) := by
    intro ε hε
    have e : mult * (-(us_max * (1 + ε)) / mult) = -(us_max * (1 + ε)) := by field_simp
    have e2 : us_max + -(us_max * (1 + ε)) = -(us_max * ε) := by ring
    rw [newAv, e, e2, if_neg (neg_ne_zero.2 (mul_ne_zero hu.ne' hε))]
    congr 1
    field_simp
  have hB : 0 < |B| + 1 := by positivity
  refine ⟨?_, ?_, ?_⟩
  · have hε : 0 < us_max / (|B| + 1) := by positivity
    refine ⟨_, ?_, _, key _ hε.ne', ?_⟩
    · rw [neg_div, neg_lt_zero]; positivity
    · rw [lt_div_iff₀ hε, mul_div_assoc', div_lt_iff₀ hB]
      have := le_abs_self B
      have h3 : us_max * (1 + us_max / (|B| + 1)) * (|B| + 1) = us_max * (|B| + 1) + us_max * us_max := by field_simp
      rw [h3]
      nlinarith [mul_pos hu hu]
  · set d := |B| + 1 + us_max with hd
    have hdp : 0 < d := by positivity
    have hε : -(us_max / (2 * d)) < 0 := by
      rw [neg_lt_zero]; positivity
    have hlt : us_max / (2 * d) < 1 := by
      rw [div_lt_one (by positivity)]
      have := abs_nonneg B
      linarith
    refine ⟨_, ?_, _, key _ hε.ne, ?_⟩
    · rw [neg_div, neg_lt_zero]
      refine div_pos (mul_pos hu (by linarith)) hm
    · rw [div_lt_iff_of_neg hε, neg_mul_neg, mul_div_assoc', div_lt_iff₀ (by positivity)]
      have h3 : us_max * (1 + -(us_max / (2 * d))) * (2 * d) = us_max * (2 * d) - us_max * us_max := by field_simp; ring
      rw [h3]
      have := le_abs_self B
      have := abs_nonneg B
      nlinarith [mul_pos hu hu]
  · refine ⟨-us_max / mult, by rw [neg_div, neg_lt_zero]; positivity, ?_⟩
    rw [newAv, if_pos (by field_simp; ring)]

/-! ## Examples -/

/-- A constant density needs no viscosity, one that is NaN at a point gets the full value. -/
example (u : Nat → ℝ) : stabilizing Spatial.gauss2 u 2 1 (1 / 2) (fun _ => some 3) = some 0 :=
  stabilizing_smooth gauss2_rule (by simp [Spatial.gauss2]) (by simp [Spatial.gauss2]) u (by norm_num) 1 (1 / 2) (r := fun _ => 3) (fun _ _ => ⟨rfl, by norm_num⟩) (p := MvPolynomial.C (1 / 3))
    (fun i => by rw [MvPolynomial.degreeOf_C]; omega) fun c => by simp

example (u : Nat → ℝ) : stabilizing Spatial.gauss2 u 2 1 (1 / 2) (fun q => if q = 3 then none else some 3) = some (1 / 2) := by
  rw [stabilizing_invalid gauss2_rule u 1 (1 / 2) ⟨3, by simp [Spatial.gauss2], Or.inl rfl⟩]
  simp [Spatial.gauss2]; norm_num

end Hexed.Visc
