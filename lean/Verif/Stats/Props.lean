import Verif.Stats.Lemmas
import Verif.Spatial.Props
import Mathlib.Algebra.MvPolynomial.Monad
import Mathlib.Topology.Algebra.MvPolynomial
set_option autoImplicit false
set_option linter.unusedVariables false

/-!
# Integrals and averages (C72)
-/

namespace Hexed.Stats
open Hexed.Tensor Hexed.Basis MeasureTheory

/-! ## Lemmas about one element -/

theorem poly_continuous {nd deg : Nat} {f : (Fin nd → ℝ) → ℝ} (hf : PolyOn deg f) : ContinuousOn f (Set.Icc 0 1) := by
  obtain ⟨p, _, h⟩ := hf
  exact (MvPolynomial.continuous_eval p).continuousOn.congr h

theorem shape_integral {b : Nodes ℝ} {nd deg : Nat} {el : Elem} {φ : (Fin nd → ℝ) → Fin nd → ℝ} {φ' : (Fin nd → ℝ) → (Fin nd → ℝ) →L[ℝ] (Fin nd → ℝ)}
    (hs : Shape b el φ φ') (g : (Fin nd → ℝ) → ℝ) : ∫ x in φ '' Set.Icc 0 1, g x = ∫ x in Set.Icc 0 1, g (φ x) * (φ' x).det := by
  rw [integral_image_eq_integral_abs_det_fderiv_smul volume measurableSet_Icc hs.deriv hs.inj]
  refine setIntegral_congr_fun measurableSet_Icc fun x hx => ?_
  simp only [abs_of_nonneg (hs.pos x hx), smul_eq_mul]; ring

theorem shape_integrable {b : Nodes ℝ} {nd deg : Nat} {el : Elem} {φ : (Fin nd → ℝ) → Fin nd → ℝ} {φ' : (Fin nd → ℝ) → (Fin nd → ℝ) →L[ℝ] (Fin nd → ℝ)}
    (hs : Shape b el φ φ') {g : (Fin nd → ℝ) → ℝ} (hg : PolyOn deg fun x => g (φ x) * (φ' x).det) : IntegrableOn g (φ '' Set.Icc 0 1) := by
  rw [integrableOn_image_iff_integrableOn_abs_det_fderiv_smul volume measurableSet_Icc hs.deriv hs.inj]
  refine IntegrableOn.congr_fun ((poly_continuous hg).integrableOn_compact isCompact_Icc) (fun x hx => ?_) measurableSet_Icc
  simp only [abs_of_nonneg (hs.pos x hx), smul_eq_mul]; ring

theorem shape_sum {b : Nodes ℝ} {deg : Nat} (hb : Rule b deg) {nd : Nat} {el : Elem} {φ : (Fin nd → ℝ) → Fin nd → ℝ} {φ' : (Fin nd → ℝ) → (Fin nd → ℝ) →L[ℝ] (Fin nd → ℝ)}
    (hs : Shape b el φ φ') {g : (Fin nd → ℝ) → ℝ} (hg : PolyOn deg fun x => g (φ x) * (φ' x).det) {val : Nat → ℝ} (hv : ∀ c : Fin nd → Fin b.n, val (idx c) = g (φ (point b c))) :
    (el.size ^ nd * elemSum b nd fun q => val q * el.det q) = ∫ x in φ '' Set.Icc 0 1, g x := by
  rw [shape_integral (deg := deg) hs, ← poly_quad hb hg, elemSum, Finset.mul_sum]
  refine Finset.sum_congr rfl fun c _ => ?_
  rw [hv, ← hs.det c]; ring

/-! ## Integrals -/

/-- C72: the integral over the field is the sum of the integrals over the elements, exactly, whenever integrand times Jacobian is
a polynomial in the reference coordinates of each element of at most the degree for which the quadrature rule is exact. -/
theorem integral_exact {b : Nodes ℝ} {deg : Nat} (hb : Rule b deg) (u : Nat → ℝ) {nd : Nat} (nv : Nat) (elems : List Nat) (elem : Nat → Elem)
    (φ : Nat → (Fin nd → ℝ) → Fin nd → ℝ) (φ' : Nat → (Fin nd → ℝ) → (Fin nd → ℝ) →L[ℝ] (Fin nd → ℝ)) (hs : ∀ e ∈ elems, Shape b (elem e) (φ e) (φ' e))
    (g : Nat → (Fin nd → ℝ) → ℝ) (hg : ∀ e ∈ elems, ∀ v < nv, PolyOn deg fun x => g v (φ e x) * (φ' e x).det)
    (f : Nat → Nat → Vec ℝ) (hf : ∀ e ∈ elems, ∀ q < b.n ^ nd, (f e q).size = nv)
    (hfg : ∀ e ∈ elems, ∀ (c : Fin nd → Fin b.n), ∀ v < nv, (f e (idx c)).val v = g v (φ e (point b c))) :
    ∃ r, integralField b u nd nv elems elem f = some r ∧ r.size = nv ∧ ∀ v < nv, r.val v = (elems.map fun e => ∫ x in φ e '' Set.Icc 0 1, g v x).sum := by
  obtain ⟨r, h1, h2, h3⟩ := integralField_eq hb.some u nd nv elems elem f hf
  refine ⟨r, h1, h2, fun v hv => ?_⟩
  rw [h3 v hv]
  congr 1
  exact List.map_congr_left fun e he => shape_sum hb (hs e he) (hg e he v hv) fun c => hfg e he c v hv

/-- C72: if the elements do not overlap (except in a set of measure zero, such as their faces), that is the integral over the domain. -/
theorem integral_domain {b : Nodes ℝ} {deg : Nat} (hb : Rule b deg) (u : Nat → ℝ) {nd : Nat} (nv : Nat) (elems : List Nat) (hnd : elems.Nodup) (elem : Nat → Elem)
    (φ : Nat → (Fin nd → ℝ) → Fin nd → ℝ) (φ' : Nat → (Fin nd → ℝ) → (Fin nd → ℝ) →L[ℝ] (Fin nd → ℝ)) (hs : ∀ e ∈ elems, Shape b (elem e) (φ e) (φ' e))
    (hdis : ∀ e ∈ elems, ∀ e' ∈ elems, e ≠ e' → volume (φ e '' Set.Icc 0 1 ∩ φ e' '' Set.Icc 0 1) = 0)
    (g : Nat → (Fin nd → ℝ) → ℝ) (hg : ∀ e ∈ elems, ∀ v < nv, PolyOn deg fun x => g v (φ e x) * (φ' e x).det)
    (f : Nat → Nat → Vec ℝ) (hf : ∀ e ∈ elems, ∀ q < b.n ^ nd, (f e q).size = nv)
    (hfg : ∀ e ∈ elems, ∀ (c : Fin nd → Fin b.n), ∀ v < nv, (f e (idx c)).val v = g v (φ e (point b c))) :
    ∃ r, integralField b u nd nv elems elem f = some r ∧ r.size = nv ∧ ∀ v < nv, r.val v = ∫ x in {x | ∃ e ∈ elems, x ∈ φ e '' Set.Icc 0 1}, g v x := by
  obtain ⟨r, h1, h2, h3⟩ := integral_exact hb u nv elems elem φ φ' hs g hg f hf hfg
  refine ⟨r, h1, h2, fun v hv => ?_⟩
  rw [h3 v hv]
  let s : {e // e ∈ elems} → Set (Fin nd → ℝ) := fun e => φ e.1 '' Set.Icc 0 1
  have hset : {x | ∃ e ∈ elems, x ∈ φ e '' Set.Icc 0 1} = ⋃ e, s e := by
    ext x; simp [s]
  have hm : ∀ e, NullMeasurableSet (s e) := fun e => by
    have hc : ContinuousOn (φ e.1) (Set.Icc 0 1) := fun x hx => ((hs e.1 e.2).deriv x hx).continuousWithinAt
    exact (isCompact_Icc.image_of_continuousOn hc).measurableSet.nullMeasurableSet
  have hd : Pairwise (Function.onFun (AEDisjoint volume) s) := fun e e' hee => hdis e.1 e.2 e'.1 e'.2 fun h => hee (Subtype.ext h)
  haveI : Finite {e // e ∈ elems} := Finite.of_equiv (Fin elems.length) (List.Nodup.getEquiv elems hnd)
  haveI : Fintype {e // e ∈ elems} := Fintype.ofFinite _
  rw [hset, integral_iUnion_ae hm hd]
  · rw [tsum_fintype, ← List.sum_toFinset _ hnd]
    refine Finset.sum_bij (fun e he => ⟨e, List.mem_toFinset.1 he⟩) (fun _ _ => Finset.mem_univ _) (fun a _ b _ h => by simpa using h) (fun e _ => ⟨e.1, by simp [e.2], rfl⟩) fun _ _ => rfl
  · exact integrableOn_finite_iUnion.2 fun e => shape_integrable (hs e.1 e.2) (hg e.1 e.2 v hv)

/-- C72: integration is linear, on any mesh and with any quadrature rule. -/
theorem integral_linear {b : Nodes ℝ} (hb : 0 < b.n) (u : Nat → ℝ) (nd nv : Nat) (elems : List Nat) (elem : Nat → Elem) (f g h : Nat → Nat → Vec ℝ) (x y : ℝ)
    (hf : ∀ e ∈ elems, ∀ q < b.n ^ nd, (f e q).size = nv) (hg : ∀ e ∈ elems, ∀ q < b.n ^ nd, (g e q).size = nv) (hh : ∀ e ∈ elems, ∀ q < b.n ^ nd, (h e q).size = nv)
    (hfg : ∀ e ∈ elems, ∀ q < b.n ^ nd, ∀ v < nv, (h e q).val v = x * (f e q).val v + y * (g e q).val v) :
    ∃ F G H, integralField b u nd nv elems elem f = some F ∧ integralField b u nd nv elems elem g = some G ∧ integralField b u nd nv elems elem h = some H ∧
      ∀ v < nv, H.val v = x * F.val v + y * G.val v := by
  obtain ⟨F, f1, _, f3⟩ := integralField_eq hb u nd nv elems elem f hf
  obtain ⟨G, g1, _, g3⟩ := integralField_eq hb u nd nv elems elem g hg
  obtain ⟨H, h1, _, h3⟩ := integralField_eq hb u nd nv elems elem h hh
  refine ⟨F, G, H, f1, g1, h1, fun v hv => ?_⟩
  rw [f3 v hv, g3 v hv, h3 v hv]
  clear f3 g3 h3 f1 g1 h1 hf hg hh
  induction elems with
  | nil => simp
  | cons e l ih =>
    simp only [List.map_cons, List.sum_cons]
    rw [ih fun e' he' => hfg e' (List.mem_cons_of_mem _ he')]
    have : (elemSum b nd fun q => (h e q).val v * (elem e).det q) =
        x * (elemSum b nd fun q => (f e q).val v * (elem e).det q) + y * (elemSum b nd fun q => (g e q).val v * (elem e).det q) := by
      simp only [elemSum, Finset.mul_sum, ← Finset.sum_add_distrib]
      refine Finset.sum_congr rfl fun c _ => ?_
      rw [hfg e (by simp) _ (idx_lt c) v hv]; ring
    rw [this]; ring

/-- The mapping of a Cartesian element: a cube of side `h` with lower corner `o`. -/
def cube {nd : Nat} (o : Fin nd → ℝ) (h : ℝ) (x : Fin nd → ℝ) : Fin nd → ℝ := o + h • x

theorem cube_image {nd : Nat} (o : Fin nd → ℝ) {h : ℝ} (hh : 0 < h) : cube o h '' Set.Icc 0 1 = Set.Icc o (o + fun _ => h) := by
  ext x
  constructor
  · rintro ⟨y, ⟨h0, h1⟩, rfl⟩
    refine ⟨fun k => ?_, fun k => ?_⟩
    · have := h0 k; simp only [cube, Pi.add_apply, Pi.smul_apply, smul_eq_mul, Pi.zero_apply] at this ⊢; nlinarith
    · have := h1 k; simp only [cube, Pi.add_apply, Pi.smul_apply, smul_eq_mul, Pi.one_apply] at this ⊢; nlinarith
  · rintro ⟨h0, h1⟩
    refine ⟨fun k => (x k - o k) / h, ⟨fun k => ?_, fun k => ?_⟩, ?_⟩
    · exact div_nonneg (by simpa using h0 k) hh.le
    · exact (div_le_one hh).2 (by have := h1 k; simp only [Pi.add_apply] at this; linarith)
    · funext k; simp only [cube, Pi.add_apply, Pi.smul_apply, smul_eq_mul]; field_simp; ring

theorem cube_shape (b : Nodes ℝ) {nd : Nat} (o : Fin nd → ℝ) {el : Elem} (hh : 0 < el.size) (hd : ∀ q < b.n ^ nd, el.det q = 1) :
    Shape b el (cube o el.size) fun _ => el.size • ContinuousLinearMap.id ℝ (Fin nd → ℝ) := by
  have hdet : (el.size • ContinuousLinearMap.id ℝ (Fin nd → ℝ)).det = el.size ^ nd := by
    rw [ContinuousLinearMap.det, ContinuousLinearMap.toLinearMap_smul, LinearMap.det_smul]; simp
  refine ⟨fun x _ => ?_, fun x _ y _ hxy => ?_, fun x _ => ?_, fun c => ?_⟩
  · exact (((hasFDerivAt_id x).const_smul el.size).const_add o).hasFDerivWithinAt
  · funext k
    have := congrFun hxy k
    simp only [cube, Pi.add_apply, Pi.smul_apply, smul_eq_mul, add_right_inj, mul_eq_mul_left_iff] at this
    exact this.resolve_right hh.ne'
  · rw [hdet]; positivity
  · rw [hdet, hd _ (idx_lt c), mul_one]

theorem eval_bind {nd : Nat} (x : Fin nd → ℝ) (g : Fin nd → MvPolynomial (Fin nd) ℝ) (p : MvPolynomial (Fin nd) ℝ) :
    MvPolynomial.eval x (MvPolynomial.bind₁ g p) = MvPolynomial.eval (fun i => MvPolynomial.eval x (g i)) p :=
  MvPolynomial.eval₂Hom_bind₁ (RingHom.id ℝ) x g p

theorem cube_poly {nd deg : Nat} (o : Fin nd → ℝ) (h k : ℝ) (p : MvPolynomial (Fin nd) ℝ) (hp : ∀ i, p.degreeOf i ≤ deg) :
    PolyOn deg fun x => MvPolynomial.eval (cube o h x) p * k := by
  refine ⟨MvPolynomial.bind₁ (fun i => MvPolynomial.C (o i) + MvPolynomial.C h * MvPolynomial.X i) p * MvPolynomial.C k, fun i => ?_, fun x _ => ?_⟩
  · refine (MvPolynomial.degreeOf_mul_le _ _ _).trans ?_
    rw [MvPolynomial.degreeOf_C, add_zero]
    conv_lhs => rw [p.as_sum, map_sum]
    refine (MvPolynomial.degreeOf_sum_le _ _ _).trans (Finset.sup_le fun s hs => ?_)
    rw [MvPolynomial.bind₁_monomial]
    refine (MvPolynomial.degreeOf_mul_le _ _ _).trans ?_
    rw [MvPolynomial.degreeOf_C, zero_add]
    refine (MvPolynomial.degreeOf_prod_le _ _ _).trans ?_
    have hle : ∀ j ∈ s.support, (MvPolynomial.degreeOf i ((MvPolynomial.C (o j) + MvPolynomial.C h * MvPolynomial.X j) ^ s j)) ≤ if j = i then s i else 0 := by
      intro j _
      refine (MvPolynomial.degreeOf_pow_le _ _ _).trans ?_
      have h1 : MvPolynomial.degreeOf i (MvPolynomial.C (o j) + MvPolynomial.C h * MvPolynomial.X j : MvPolynomial (Fin nd) ℝ) ≤ if j = i then 1 else 0 := by
        refine (MvPolynomial.degreeOf_add_le _ _ _).trans ?_
        rw [MvPolynomial.degreeOf_C, Nat.zero_max]
        refine (MvPolynomial.degreeOf_mul_le _ _ _).trans ?_
        rw [MvPolynomial.degreeOf_C, zero_add, MvPolynomial.degreeOf_X]
        by_cases hji : j = i
        · subst hji; simp
        · rw [if_neg hji, if_neg (Ne.symm hji)]
      split
      · next hji => rw [if_pos hji] at h1; subst hji; nlinarith
      · next hji => rw [if_neg hji] at h1; simp [Nat.le_zero.1 h1]
    refine (Finset.sum_le_sum hle).trans ?_
    rw [Finset.sum_ite_eq' s.support i]
    split
    · exact (MvPolynomial.le_degreeOf_of_mem_support i hs).trans (hp i)
    · exact Nat.zero_le _
  · dsimp only
    rw [map_mul, MvPolynomial.eval_C, eval_bind]
    have h2 : (fun i => MvPolynomial.eval x (MvPolynomial.C (o i) + MvPolynomial.C h * MvPolynomial.X i)) = cube o h x := by
      funext i; simp [cube]
    rw [h2]

/-- C72: on a mesh of cubes the integral of a polynomial (of at most the degree for which the rule is exact) is the sum of the integrals
over the cubes. -/
theorem integral_cartesian {b : Nodes ℝ} {deg : Nat} (hb : Rule b deg) (u : Nat → ℝ) {nd : Nat} (nv : Nat) (elems : List Nat) (elem : Nat → Elem) (o : Nat → Fin nd → ℝ)
    (hh : ∀ e ∈ elems, 0 < (elem e).size) (hd : ∀ e ∈ elems, ∀ q < b.n ^ nd, (elem e).det q = 1) (p : Nat → MvPolynomial (Fin nd) ℝ) (hp : ∀ v < nv, ∀ i, (p v).degreeOf i ≤ deg)
    (f : Nat → Nat → Vec ℝ) (hf : ∀ e ∈ elems, ∀ q < b.n ^ nd, (f e q).size = nv)
    (hfp : ∀ e ∈ elems, ∀ (c : Fin nd → Fin b.n), ∀ v < nv, (f e (idx c)).val v = MvPolynomial.eval (fun k => o e k + (elem e).size * b.node (c k)) (p v)) :
    ∃ r, integralField b u nd nv elems elem f = some r ∧ r.size = nv ∧
      ∀ v < nv, r.val v = (elems.map fun e => ∫ x in Set.Icc (o e) (o e + fun _ => (elem e).size), MvPolynomial.eval x (p v)).sum := by
  obtain ⟨r, h1, h2, h3⟩ := integral_exact hb u nv elems elem (fun e => cube (o e) (elem e).size) (fun e _ => (elem e).size • ContinuousLinearMap.id ℝ (Fin nd → ℝ))
    (fun e he => cube_shape b (o e) (hh e he) (hd e he)) (fun v x => MvPolynomial.eval x (p v)) (fun e he v hv => cube_poly _ _ _ _ (hp v hv)) f hf hfp
  refine ⟨r, h1, h2, fun v hv => ?_⟩
  rw [h3 v hv]
  congr 1
  refine List.map_congr_left fun e he => ?_
  rw [cube_image _ (hh e he)]

/-- C72: the integral of the constant 1 over a mesh of cubes is their volume. -/
theorem integral_volume {b : Nodes ℝ} {deg : Nat} (hb : Rule b deg) (u : Nat → ℝ) (nd : Nat) (elems : List Nat) (elem : Nat → Elem)
    (hh : ∀ e ∈ elems, 0 < (elem e).size) (hd : ∀ e ∈ elems, ∀ q < b.n ^ nd, (elem e).det q = 1) :
    ∃ r, integralField b u nd 1 elems elem (fun _ _ => ⟨1, fun _ => 1⟩) = some r ∧ r.val 0 = (elems.map fun e => (elem e).size ^ nd).sum := by
  obtain ⟨r, h1, h2, h3⟩ := integral_cartesian (nd := nd) hb u 1 elems elem (fun _ => 0) hh hd (fun _ => 1) (fun v _ i => (MvPolynomial.degreeOf_C (1 : ℝ) i).le.trans (Nat.zero_le _))
    (fun _ _ => ⟨1, fun _ => 1⟩) (fun _ _ _ _ => rfl) (by intros; simp)
  refine ⟨r, h1, ?_⟩
  rw [h3 0 one_pos]
  congr 1
  refine List.map_congr_left fun e he => ?_
  simp only [map_one, integral_const, smul_eq_mul, mul_one]
  rw [measureReal_restrict_apply_univ, measureReal_def, Real.volume_Icc_pi, ENNReal.toReal_prod]
  simp [(hh e he).le]

/-- The point weights of the model of the scheme (C47) are the same numbers. -/
theorem qw_idx (w : Nat → ℝ) {n : Nat} (hn : 0 < n) : ∀ {nd : Nat} (c : Fin nd → Fin n), Spatial.qw w n nd (idx c) = ∏ k, w (c k)
  | 0, c => by simp [Spatial.qw]
  | nd + 1, c => by
    have hc : c = Fin.cons (c 0) (Fin.tail c) := (Fin.cons_self_tail c).symm
    have key := Spatial.qw_append w hn 1 (c 0) nd (idx (Fin.tail c)) (idx_lt _)
    rw [Nat.add_comm 1 nd, qw_idx w hn] at key
    rw [hc, idx_cons, key, Fin.prod_univ_succ]
    simp [Spatial.qw, Nat.mod_eq_of_lt (c 0).2]

/-- C72: the integral of a state variable is the total which the scheme conserves (C47), on any mesh. -/
theorem integral_total {bs : Spatial.BasisData} {b : Nodes ℝ} {deg : Nat} (hb : Spatial.GoodBasis b deg) (hof : bs.IsOf b) (m : Spatial.Mesh) (u : Nat → ℝ) (st : Nat → Spatial.Arr) (nv : Nat) :
    ∃ r, integralField b u m.nd nv m.elems (fun e => ⟨(m.elem e).size, (m.elem e).det⟩) (fun e q => ⟨nv, fun v => st e (v, q)⟩) = some r ∧
      ∀ v < nv, r.val v = m.total bs st v := by
  obtain ⟨r, h1, h2, h3⟩ := integralField_eq (b := b) hb.pos u m.nd nv m.elems (fun e => ⟨(m.elem e).size, (m.elem e).det⟩) (fun e q => ⟨nv, fun v => st e (v, q)⟩) (fun _ _ _ _ => rfl)
  refine ⟨r, h1, fun v hv => ?_⟩
  rw [h3 v hv, Spatial.Mesh.total, hof.n, hof.weight]
  congr 1
  refine List.map_congr_left fun e he => ?_
  dsimp only
  congr 1
  rw [elemSum, sum_idx hb.pos]
  refine Finset.sum_congr rfl fun c _ => ?_
  rw [qw_idx _ hb.pos]; ring

/-- C72: the integrals of mass, momentum and energy that a user computes in a closed domain are the same before and after any number of
inviscid time steps. -/
theorem integral_conserved {bs : Spatial.BasisData} {b : Nodes ℝ} {deg : Nat} (hb : Spatial.GoodBasis b deg) (hof : bs.IsOf b) {m : Spatial.Mesh} (hm : m.Ok bs) (hcl : m.Closed)
    (ht : ∀ e ∈ m.elems, ∀ q < bs.n ^ m.nd, (m.elem e).tss q = 1) (mu kappa : Pde.Transport)
    {bc : Spatial.World → Spatial.World} (hbc : Spatial.GhostOnly bc) (steps : List (ℝ × ℝ × Bool)) (run : Spatial.World → ℝ × ℝ × Bool → Option Spatial.World)
    (hrun : ∀ w s, run w s = (Spatial.computeConvection (Pde.ns m.nd false mu kappa) bs m s.1 s.2.1 false false s.2.2 (bc w)).bind fun w1 =>
      Spatial.computeConvection (Pde.ns m.nd false mu kappa) bs m s.1 s.2.1 true false s.2.2 (bc w1))
    {w w' : Spatial.World} (hw : steps.foldlM run w = some w') (u : Nat → ℝ) :
    ∃ r r', integralField b u m.nd (m.nd + 2) m.elems (fun e => ⟨(m.elem e).size, (m.elem e).det⟩) (fun e q => ⟨m.nd + 2, fun v => w.state e (v, q)⟩) = some r ∧
      integralField b u m.nd (m.nd + 2) m.elems (fun e => ⟨(m.elem e).size, (m.elem e).det⟩) (fun e q => ⟨m.nd + 2, fun v => w'.state e (v, q)⟩) = some r' ∧
      ∀ v < m.nd + 2, r'.val v = r.val v := by
  obtain ⟨r, h1, h2⟩ := integral_total hb hof m u w.state (m.nd + 2)
  obtain ⟨r', h3, h4⟩ := integral_total hb hof m u w'.state (m.nd + 2)
  refine ⟨r, r', h1, h3, fun v hv => ?_⟩
  rw [h2 v hv, h4 v hv]
  exact Spatial.inviscid_conservation hb hof hm hcl ht mu kappa hbc steps run hrun hw v hv

/-- C72: the surface integral is the sum, over the faces with the requested boundary condition and no others, of the area of a reference
face times the integral of integrand times magnitude of the normal, exactly if that product is a polynomial of suitable degree. -/
theorem surface_exact {b : Nodes ℝ} {deg : Nat} (hb : Rule b deg) (u : Nat → ℝ) {nd : Nat} (hnd : 1 ≤ nd) (nv : Nat) (cons : List Nat) (con : Nat → BoundCon) (f : Nat → Nat → Vec ℝ) (bc : Nat)
    (hf : ∀ c ∈ cons, ∀ q < b.n ^ (nd - 1), (f c q).size = nv) (g : Nat → Nat → (Fin (nd - 1) → ℝ) → ℝ) (hg : ∀ c ∈ cons, ∀ v < nv, PolyOn deg (g c v))
    (hfg : ∀ c ∈ cons, ∀ (d : Fin (nd - 1) → Fin b.n), ∀ v < nv, g c v (point b d) =
      (f c (idx d)).val v * √(∑ i ∈ Finset.range nd, (con c).normal (i * b.n ^ (nd - 1) + idx d) ^ 2)) :
    ∃ r, integralSurface b u nd nv cons con f bc = some r ∧ r.size = nv ∧
      ∀ v < nv, r.val v = ((cons.filter fun c => (con c).bc = bc).map fun c => (con c).size ^ (nd - 1) * ∫ x in Set.Icc 0 1, g c v x).sum := by
  obtain ⟨r, h1, h2, h3⟩ := integralSurface_eq hb.some u hnd nv cons con f bc hf
  refine ⟨r, h1, h2, fun v hv => ?_⟩
  rw [h3 v hv]
  congr 1
  refine List.map_congr_left fun c hc => ?_
  have hc' := List.mem_of_mem_filter hc
  congr 1
  rw [elemSum, ← poly_quad hb (hg c hc' v hv)]
  refine Finset.sum_congr rfl fun d _ => ?_
  rw [hfg c hc' d v hv]

/-! ## Averages and norms -/

theorem elemSum_pos {b : Nodes ℝ} {deg : Nat} (hb : Rule b deg) (nd : Nat) {g : Nat → ℝ} (hg : ∀ q < b.n ^ nd, 0 < g q) : 0 < elemSum b nd g := by
  haveI : Nonempty (Fin nd → Fin b.n) := ⟨fun _ => ⟨0, hb.some⟩⟩
  exact Finset.sum_pos (fun c _ => mul_pos (Finset.prod_pos fun k _ => hb.pos _ (c k).2) (hg _ (idx_lt c))) Finset.univ_nonempty

theorem elemSum_mono {b : Nodes ℝ} {deg : Nat} (hb : Rule b deg) (nd : Nat) {g h : Nat → ℝ} (hg : ∀ q < b.n ^ nd, g q ≤ h q) : elemSum b nd g ≤ elemSum b nd h :=
  Finset.sum_le_sum fun c _ => mul_le_mul_of_nonneg_left (hg _ (idx_lt c)) (Finset.prod_nonneg fun k _ => (hb.pos _ (c k).2).le)

theorem elemSum_mul (b : Nodes ℝ) (nd : Nat) (k : ℝ) (g : Nat → ℝ) : (elemSum b nd fun q => k * g q) = k * elemSum b nd g := by
  rw [elemSum, elemSum, Finset.mul_sum]
  exact Finset.sum_congr rfl fun c _ => by ring

theorem elemSum_add (b : Nodes ℝ) (nd : Nat) (g h : Nat → ℝ) : (elemSum b nd fun q => g q + h q) = elemSum b nd g + elemSum b nd h := by
  rw [elemSum, elemSum, elemSum, ← Finset.sum_add_distrib]
  exact Finset.sum_congr rfl fun c _ => by ring

/-- C72: the average in an element with positive Jacobian lies between any bounds of the function; in particular the average of a constant
is that constant. -/
theorem average_between {b : Nodes ℝ} {deg : Nat} (hb : Rule b deg) (u : Nat → ℝ) (nd nv : Nat) {el : Elem} (hd : ∀ q < b.n ^ nd, 0 < el.det q) (f : Nat → Vec ℝ)
    (hf : ∀ q < b.n ^ nd, (f q).size = nv) :
    ∃ r, elemAverage b u nd nv el f = some r ∧ r.size = nv ∧ ∀ v < nv, ∀ lo hi, (∀ q < b.n ^ nd, lo ≤ (f q).val v ∧ (f q).val v ≤ hi) → lo ≤ r.val v ∧ r.val v ≤ hi := by
  have hp := elemSum_pos hb nd hd
  obtain ⟨r, h1, h2, h3⟩ := avg_eq hb.some u nd nv el f 1 hf hp.ne'
  refine ⟨r, h1, h2, fun v hv lo hi hlh => ?_⟩
  rw [h3 v hv, le_div_iff₀ hp, div_le_iff₀ hp, ← elemSum_mul, ← elemSum_mul]
  refine ⟨elemSum_mono hb nd fun q hq => ?_, elemSum_mono hb nd fun q hq => ?_⟩
  · rw [pow_one]; exact mul_le_mul_of_nonneg_right (hlh q hq).1 (hd q hq).le
  · rw [pow_one]; exact mul_le_mul_of_nonneg_right (hlh q hq).2 (hd q hq).le

/-- C72: the average and the L2 norm are those of the exact integrals: integral divided by volume, and the square root of the integral of
the square divided by volume. -/
theorem average_exact {b : Nodes ℝ} {deg : Nat} (hb : Rule b deg) (u : Nat → ℝ) {nd : Nat} (nv : Nat) {el : Elem} (hsz : 0 < el.size) (hd : ∀ q < b.n ^ nd, 0 < el.det q)
    {φ : (Fin nd → ℝ) → Fin nd → ℝ} {φ' : (Fin nd → ℝ) → (Fin nd → ℝ) →L[ℝ] (Fin nd → ℝ)} (hs : Shape b el φ φ') (hJ : PolyOn deg fun x => (φ' x).det)
    (g : Nat → (Fin nd → ℝ) → ℝ) (f : Nat → Vec ℝ) (hf : ∀ q < b.n ^ nd, (f q).size = nv) (hfg : ∀ (c : Fin nd → Fin b.n), ∀ v < nv, (f (idx c)).val v = g v (φ (point b c))) :
    (∃ r, elemAverage b u nd nv el f = some r ∧ ∀ v < nv, (PolyOn deg fun x => g v (φ x) * (φ' x).det) →
      r.val v = (∫ x in φ '' Set.Icc 0 1, g v x) / volume.real (φ '' Set.Icc 0 1)) ∧
    ∃ r, elemL2 b u nd nv el f = some r ∧ ∀ v < nv, (PolyOn deg fun x => g v (φ x) ^ 2 * (φ' x).det) →
      r.val v = √((∫ x in φ '' Set.Icc 0 1, g v x ^ 2) / volume.real (φ '' Set.Icc 0 1)) := by
  have hp := elemSum_pos hb nd hd
  have hvol : el.size ^ nd * elemSum b nd el.det = volume.real (φ '' Set.Icc 0 1) := by
    have h1 := shape_sum hb hs (g := fun _ => 1) (by simpa using hJ) (val := fun _ => 1) (fun _ => rfl)
    simpa using h1
  have hz : el.size ^ nd ≠ 0 := (pow_pos hsz nd).ne'
  obtain ⟨r, h1, h2, h3⟩ := avg_eq hb.some u nd nv el f 1 hf hp.ne'
  obtain ⟨s, s1, s2, s3⟩ := avg_eq hb.some u nd nv el f 2 hf hp.ne'
  refine ⟨⟨r, h1, fun v hv hg => ?_⟩, ⟨⟨s.size, fun i => √(s.val i)⟩, ?_, fun v hv hg => ?_⟩⟩
  · rw [h3 v hv, ← hvol, ← shape_sum hb hs hg (val := fun q => (f q).val v) fun c => hfg c v hv, mul_div_mul_left _ _ hz]
    simp only [pow_one]
  · rw [elemL2, show ((2 : Int)) = ((2 : Nat) : Int) from rfl, s1]; rfl
  · dsimp only
    rw [s3 v hv, ← hvol, ← shape_sum hb hs (g := fun x => g v x ^ 2) hg (val := fun q => (f q).val v ^ 2) fun c => by rw [hfg c v hv], mul_div_mul_left _ _ hz]

/-- C72: the magnitude of the average is at most the L2 norm, and the L2 norm is zero only for functions that are zero at every
quadrature point. -/
theorem average_le_l2 {b : Nodes ℝ} {deg : Nat} (hb : Rule b deg) (u : Nat → ℝ) (nd nv : Nat) {el : Elem} (hd : ∀ q < b.n ^ nd, 0 < el.det q) (f : Nat → Vec ℝ)
    (hf : ∀ q < b.n ^ nd, (f q).size = nv) :
    ∃ r s, elemAverage b u nd nv el f = some r ∧ elemL2 b u nd nv el f = some s ∧ ∀ v < nv, |r.val v| ≤ s.val v ∧ (s.val v = 0 ↔ ∀ q < b.n ^ nd, (f q).val v = 0) := by
  have hp := elemSum_pos hb nd hd
  obtain ⟨r, h1, h2, h3⟩ := avg_eq hb.some u nd nv el f 1 hf hp.ne'
  obtain ⟨s, s1, s2, s3⟩ := avg_eq hb.some u nd nv el f 2 hf hp.ne'
  refine ⟨r, ⟨s.size, fun i => √(s.val i)⟩, h1, by rw [elemL2, show ((2 : Int)) = ((2 : Nat) : Int) from rfl, s1]; rfl, fun v hv => ⟨?_, ?_⟩⟩
  · dsimp only
    apply Real.le_sqrt_of_sq_le
    rw [sq_abs]
    -- the average of (f - average)^2 is not negative
    have h0 : 0 ≤ elemSum b nd fun q => ((f q).val v - r.val v) ^ 2 * el.det q :=
      Finset.sum_nonneg fun c _ => mul_nonneg (Finset.prod_nonneg fun k _ => (hb.pos _ (c k).2).le) (mul_nonneg (sq_nonneg _) (hd _ (idx_lt c)).le)
    have e : (elemSum b nd fun q => ((f q).val v - r.val v) ^ 2 * el.det q) = (elemSum b nd fun q => (f q).val v ^ 2 * el.det q) +
        (-(2 * r.val v) * (elemSum b nd fun q => (f q).val v ^ 1 * el.det q) + r.val v ^ 2 * elemSum b nd el.det) := by
      rw [← elemSum_mul, ← elemSum_mul, ← elemSum_add, ← elemSum_add]
      congr 1; funext q; ring
    have hr : (elemSum b nd fun q => (f q).val v ^ 1 * el.det q) = r.val v * elemSum b nd el.det := by
      rw [h3 v hv, div_mul_cancel₀ _ hp.ne']
    rw [s3 v hv, le_div_iff₀ hp]
    rw [e, hr] at h0
    nlinarith
  · dsimp only
    have hnn : 0 ≤ s.val v := by
      rw [s3 v hv]
      exact div_nonneg (Finset.sum_nonneg fun c _ => mul_nonneg (Finset.prod_nonneg fun k _ => (hb.pos _ (c k).2).le) (mul_nonneg (sq_nonneg _) (hd _ (idx_lt c)).le)) hp.le
    rw [Real.sqrt_eq_zero hnn, s3 v hv, div_eq_zero_iff, or_iff_left hp.ne', elemSum, Finset.sum_eq_zero_iff_of_nonneg fun c _ =>
      mul_nonneg (Finset.prod_nonneg fun k _ => (hb.pos _ (c k).2).le) (mul_nonneg (sq_nonneg _) (hd _ (idx_lt c)).le)]
    constructor
    · intro h q hq
      obtain ⟨c, rfl⟩ := idx_surj hb.some q hq
      have := h c (Finset.mem_univ _)
      have hw := (Finset.prod_pos fun k (_ : k ∈ Finset.univ) => hb.pos _ (c k).2).ne'
      have := (mul_eq_zero.1 ((mul_eq_zero.1 this).resolve_left hw)).resolve_right (hd _ (idx_lt c)).ne'
      exact pow_eq_zero_iff two_ne_zero |>.1 this
    · intro h c _
      rw [h _ (idx_lt c)]; ring

/-! ## The hypotheses can be met -/

theorem gauss2_rule : Rule Spatial.gauss2 3 := by
  refine ⟨Spatial.gauss2_good.exact, Spatial.gauss2_good.weight_pos, fun i hi => ?_, by simp [Spatial.gauss2]⟩
  have h1 : (0 : ℝ) < 1 / √3 := by positivity
  have h2 : 1 / √3 ≤ (1 : ℝ) := by
    rw [div_le_one (by positivity)]
    exact Real.one_le_sqrt.2 (by norm_num)
  simp only [Spatial.gauss2]
  split <;> constructor <;> linarith

/-- The mapping `(x, y) ↦ (x, y (1 + x))` of the unit square to a trapezium, whose Jacobian determinant `1 + x` is not constant. -/
def trap (x : Fin 2 → ℝ) : Fin 2 → ℝ := ![x 0, x 1 * (1 + x 0)]

noncomputable def trap' (x : Fin 2 → ℝ) : (Fin 2 → ℝ) →L[ℝ] (Fin 2 → ℝ) :=
  ContinuousLinearMap.pi ![ContinuousLinearMap.proj 0, x 1 • ContinuousLinearMap.proj 0 + (1 + x 0) • ContinuousLinearMap.proj 1]

theorem trap_det (x : Fin 2 → ℝ) : (trap' x).det = 1 + x 0 := by
  rw [ContinuousLinearMap.det, ← LinearMap.det_toMatrix', Matrix.det_fin_two]
  simp [LinearMap.toMatrix'_apply, trap']

theorem trap_shape (el : Elem) (hs : el.size = 1) (hd : ∀ c : Fin 2 → Fin Spatial.gauss2.n, el.det (idx c) = 1 + Spatial.gauss2.node (c 0)) : Shape Spatial.gauss2 el trap trap' := by
  refine ⟨fun x _ => HasFDerivAt.hasFDerivWithinAt ?_, fun x hx y hy h => ?_, fun x hx => ?_, fun c => ?_⟩
  · rw [hasFDerivAt_pi']
    intro i
    fin_cases i
    · exact (ContinuousLinearMap.proj (R := ℝ) (φ := fun _ : Fin 2 => ℝ) 0).hasFDerivAt
    · have h0 := (ContinuousLinearMap.proj (R := ℝ) (φ := fun _ : Fin 2 => ℝ) 0).hasFDerivAt (x := x)
      have h1 := (ContinuousLinearMap.proj (R := ℝ) (φ := fun _ : Fin 2 => ℝ) 1).hasFDerivAt (x := x)
      exact h1.mul (h0.const_add 1)
  · have h0 : x 0 = y 0 := congrFun h 0
    have h1 : x 1 * (1 + x 0) = y 1 * (1 + y 0) := congrFun h 1
    have hp : 0 ≤ y 0 := hy.1 0
    rw [h0] at h1
    have h2 := mul_right_cancel₀ (by linarith : (1 + y 0) ≠ 0) h1
    funext i; fin_cases i
    · exact h0
    · exact h2
  · rw [trap_det]; have : 0 ≤ x 0 := hx.1 0; linarith
  · rw [trap_det, hs, hd]; simp [point]

/-- The integral of `y` over the trapezium, computed with two-point Gauss-Legendre quadrature. -/
example (u : Nat → ℝ) (el : Elem) (hs : el.size = 1) (hd : ∀ c : Fin 2 → Fin Spatial.gauss2.n, el.det (idx c) = 1 + Spatial.gauss2.node (c 0))
    (f : Nat → Vec ℝ) (hf : ∀ q < 2 ^ 2, (f q).size = 1) (hfy : ∀ c : Fin 2 → Fin Spatial.gauss2.n, (f (idx c)).val 0 = trap (point Spatial.gauss2 c) 1) :
    ∃ r, integralField Spatial.gauss2 u 2 1 [0] (fun _ => el) (fun _ => f) = some r ∧ r.size = 1 ∧ ∀ v < 1, r.val v = ([0].map fun _ => ∫ x in trap '' Set.Icc 0 1, x 1).sum := by
  refine integral_exact gauss2_rule u 1 [0] (fun _ => el) (fun _ => trap) (fun _ => trap') (fun _ _ => trap_shape el hs hd) (fun _ x => x 1) (fun _ _ v _ => ?_) (fun _ => f) (fun _ _ => hf) (fun _ _ c v hv => ?_)
  · refine ⟨MvPolynomial.X 1 * (MvPolynomial.C 1 + MvPolynomial.X 0) * (MvPolynomial.C 1 + MvPolynomial.X 0), fun i => ?_, fun x _ => ?_⟩
    · have h1 : MvPolynomial.degreeOf i (MvPolynomial.C 1 + MvPolynomial.X 0 : MvPolynomial (Fin 2) ℝ) ≤ 1 := by
        refine (MvPolynomial.degreeOf_add_le _ _ _).trans ?_
        rw [MvPolynomial.degreeOf_C, MvPolynomial.degreeOf_X]; split <;> simp
      have h2 : MvPolynomial.degreeOf i (MvPolynomial.X 1 : MvPolynomial (Fin 2) ℝ) ≤ 1 := by
        rw [MvPolynomial.degreeOf_X]; split <;> simp
      have h3 := MvPolynomial.degreeOf_mul_le i (MvPolynomial.X 1 : MvPolynomial (Fin 2) ℝ) (MvPolynomial.C 1 + MvPolynomial.X 0)
      have h4 := MvPolynomial.degreeOf_mul_le i (MvPolynomial.X 1 * (MvPolynomial.C 1 + MvPolynomial.X 0) : MvPolynomial (Fin 2) ℝ) (MvPolynomial.C 1 + MvPolynomial.X 0)
      omega
    · dsimp only; rw [trap_det]; simp [trap]
  · interval_cases v; exact hfy c

/-- The volume of two cubes of sides 1 and 1/2. -/
example (u : Nat → ℝ) : ∃ r, integralField Spatial.gauss2 u 3 1 [0, 1] (fun e => ⟨if e = 0 then 1 else 1 / 2, fun _ => 1⟩) (fun _ _ => ⟨1, fun _ => 1⟩) = some r ∧ r.val 0 = 9 / 8 := by
  obtain ⟨r, h1, h2⟩ := integral_volume gauss2_rule u 3 [0, 1] (fun e => ⟨if e = 0 then 1 else 1 / 2, fun _ => 1⟩) (fun e _ => by dsimp only; split <;> norm_num) (fun _ _ _ _ => rfl)
  refine ⟨r, h1, ?_⟩
  rw [h2]; norm_num

end Hexed.Stats
