import Verif.Solver.Farfield
import Verif.Solver.Props
import Verif.Spatial.Exact
set_option autoImplicit false
set_option linter.unusedVariables false

/-!
# Free-stream preservation (C53)
-/

namespace Hexed.Solver
open Hexed.Spatial Hexed.Pde
noncomputable section

theorem sumN_congr {nd : Nat} {f g : Nat → ℝ} (h : ∀ i < nd, f i = g i) : sumN nd f = sumN nd g := by
  rw [sumN_eq, sumN_eq]; exact Finset.sum_congr rfl fun i hi => h i (Finset.mem_range.1 hi)

/-! ## The boundary conditions use only the flow variables -/

theorem char_congr {nd : Nat} {s s' : Nat → ℝ} (h : ∀ v < nd + 2, s v = s' v) (n : Nat → ℝ) :
    (Characteristics.new nd s n).vals = (Characteristics.new nd s' n).vals ∧ (Characteristics.new nd s n).vecs = (Characteristics.new nd s' n).vecs ∧
    (Characteristics.new nd s n).dir = (Characteristics.new nd s' n).dir ∧ ∀ i < nd, (Characteristics.new nd s n).veloc i = (Characteristics.new nd s' n).veloc i := by
  have hm := h nd (by omega)
  have he := h (nd + 1) (by omega)
  have hv : (sumN nd fun i => s i / s nd * (s i / s nd)) = sumN nd fun i => s' i / s' nd * (s' i / s' nd) := sumN_congr fun i hi => by rw [h i (by omega), hm]
  have hn : ∀ dir : Nat → ℝ, (sumN nd fun i => dir i * (s i / s nd)) = sumN nd fun i => dir i * (s' i / s' nd) := fun dir => sumN_congr fun i hi => by rw [h i (by omega), hm]
  refine ⟨?_, ?_, rfl, fun i hi => ?_⟩
  · simp only [Characteristics.new, nrml, hv, hn]
    rw [hm, he]
  · simp only [Characteristics.new, nrml, hv, hn]
    rw [hm, he]
  · simp only [Characteristics.new, h i (by omega), hm]

theorem decomp_congr {nd : Nat} {s s' x x' : Nat → ℝ} (h : ∀ v < nd + 2, s v = s' v) (hx : ∀ v < nd + 2, x v = x' v) (n : Nat → ℝ) {v : Nat} (hv : v < nd + 2) (j : Fin 3) :
    (Characteristics.new nd s n).decomp nd x v j = (Characteristics.new nd s' n).decomp nd x' v j := by
  obtain ⟨-, h2, h3, h4⟩ := char_congr h n
  set c := Characteristics.new nd s n
  set c' := Characteristics.new nd s' n
  have n1 : nrml nd c'.dir x = nrml nd c'.dir x' := sumN_congr fun i hi => by rw [hx i (by omega)]
  have n2 : nrml nd c'.dir c.veloc = nrml nd c'.dir c'.veloc := sumN_congr fun i hi => by rw [h4 i hi]
  have t1 : ∀ i < nd, tang nd c'.dir x i = tang nd c'.dir x' i := fun i hi => by rw [tang, tang, n1, hx i (by omega)]
  have t2 : ∀ i < nd, tang nd c'.dir c.veloc i = tang nd c'.dir c'.veloc i := fun i hi => by rw [tang, tang, n2, h4 i hi]
  have hm := hx nd (by omega)
  have he := hx (nd + 1) (by omega)
  have hc : (sumN nd fun i => c.veloc i * (tang nd c'.dir x i - x' nd * tang nd c'.dir c.veloc i)) = sumN nd fun i => c'.veloc i * (tang nd c'.dir x' i - x' nd * tang nd c'.dir c'.veloc i) :=
    sumN_congr fun i hi => by rw [h4 i hi, t1 i hi, t2 i hi]
  simp only [Characteristics.decomp, h2, h3, n1, hm, he, hc]
  by_cases h1 : v < nd
  · rw [if_pos h1, if_pos h1, t1 v h1, t2 v h1]
  · rw [if_neg h1, if_neg h1]

theorem applyChar_congr {nd : Nat} {s s' x x' y y' : Nat → ℝ} (h : ∀ v < nd + 2, s v = s' v) (hx : ∀ v < nd + 2, x v = x' v) (hy : ∀ v < nd + 2, y v = y' v) (n : Nat → ℝ) (sign : ℝ) {v : Nat} (hv : v < nd + 2) :
    applyChar nd s n sign x y v = applyChar nd s' n sign x' y' v := by
  simp only [applyChar]
  congr 2
  funext j
  rw [(char_congr h n).1, decomp_congr h hx n hv, decomp_congr h hy n hv]

theorem riemann_congr {nd : Nat} {fs inside inside' normal : Nat → ℝ} {sign : ℝ} (h : ∀ v < nd + 2, inside v = inside' v) {v : Nat} (hv : v < nd + 2) :
    riemannState nd fs normal sign inside v = riemannState nd fs normal sign inside' v := by
  rw [riemannState, riemannState, limit_congr (fun v hv => applyChar_congr h h (fun _ _ => rfl) normal sign hv) v hv]
  have hs : (sumN nd fun i => inside i * inside i) = sumN nd fun i => inside' i * inside' i := sumN_congr fun i hi => by rw [h i (by omega)]
  simp only [riemannLimit, hs, h nd (by omega), h (nd + 1) (by omega)]

theorem decomp_zero (nd : Nat) (ch : Characteristics) (v : Nat) (j : Fin 3) : ch.decomp nd (fun _ => 0) v j = 0 := by
  have h := decomp_sub nd ch (fun _ => 0) (fun _ => 0) v j
  simp only [sub_self] at h
  exact h

/-- No diffusive flux inside gives no flux on the ghost side. -/
theorem riemannFlux_zero {nd : Nat} {cache normal inside : Nat → ℝ} {sign : ℝ} (h : ∀ v < nd + 2, inside v = 0) {v : Nat} (hv : v < nd + 2) : riemannFlux nd cache normal sign inside v = 0 := by
  rw [riemannFlux, applyChar_congr (fun _ _ => rfl) (fun _ _ => rfl) h normal sign hv, applyChar]
  simp only [decomp_zero, ite_self, List.sum_ofFn, Finset.sum_const_zero]

/-! ## The Navier-Stokes equations -/

theorem flux_scale {nd : Nat} {s s' : Nat → ℝ} (h : ∀ v < nd + 2, s v = s' v) {n n' : Nat → ℝ} {a : ℝ} (hn : ∀ i < nd, n i = a * n' i) {v : Nat} (hv : v < nd + 2) : fluxConv nd s n v = a * fluxConv nd s' n' v := by
  have hm := h nd (by omega)
  have he := h (nd + 1) (by omega)
  have hk : kinEner nd s = kinEner nd s' := by
    rw [kinEner, kinEner, hm]; congr 1; exact sumN_congr fun i hi => by rw [h i (by omega)]
  have hp : pressure nd s = pressure nd s' := by rw [pressure, pressure, he, hk]
  have hf : (sumN nd fun j => s j * n j) = a * sumN nd fun j => s' j * n' j := by
    rw [sumN_eq, sumN_eq, Finset.mul_sum]
    exact Finset.sum_congr rfl fun i hi => by rw [h i (by have := Finset.mem_range.1 hi; omega), hn i (Finset.mem_range.1 hi)]; ring
  simp only [fluxConv, hf, hm, he, hp]
  split
  · next h1 => rw [h v hv, hn v h1]; ring
  · split
    · rfl
    · ring

theorem ns_faceLocal (nd : Nat) (visc : Bool) (mu kappa : Transport) : (ns nd visc mu kappa).FaceLocal := by
  intro u u' h
  have e : fetchExtrapState nd u = fetchExtrapState nd u' := by
    funext i; simp only [fetchExtrapState]
    split
    · next hi => exact h i hi
    · rfl
  simp only [ns, e, and_self]

theorem ns_faceConsistent (nd : Nat) (visc : Bool) (mu kappa : Transport) (u : Nat → Field) : (ns nd visc mu kappa).FaceConsistent nd u := by
  intro x d hd v hv a normal hn
  show fluxConv nd (fetchExtrapState nd fun w => u w x) normal v = a * fluxConv nd (fetchState nd fun w => u w x) (fun j => if j = d then 1 else 0) v
  refine flux_scale (fun v hv => ?_) (fun i hi => ?_) hv
  · simp only [fetchExtrapState, fetchState, if_pos hv]
  · rw [hn i hi]; split <;> simp

theorem ns_diffLocal (nd : Nat) (visc : Bool) (mu kappa : Transport) : (ns nd visc mu kappa).DiffLocal nd := by
  intro data normal g g' h v hv d hd
  have h : ∀ v < nd + 2, ∀ i < nd, g v i = g' v i := h
  show sumN nd _ = sumN nd _
  refine sumN_congr fun j hj => ?_
  have hvg : ∀ i < nd, ∀ j < nd, velocGrad nd (fetchState nd data) g i j = velocGrad nd (fetchState nd data) g' i j := by
    intro i hi j hj
    rw [velocGrad, velocGrad, h i (by omega) j hj, h nd (by omega) j hj]
  have hst : ∀ c, ∀ i < nd, ∀ j < nd, stress nd c (fetchState nd data) g i j = stress nd c (fetchState nd data) g' i j := by
    intro c i hi j hj
    simp only [stress, hvg i hi j hj, hvg j hj i hi]
    rw [sumN_congr fun k hk => hvg k hk k hk]
  have hie : intEnerGrad nd (fetchState nd data) g j = intEnerGrad nd (fetchState nd data) g' j := by
    rw [intEnerGrad, intEnerGrad, h nd (by omega) j hj, h (nd + 1) (by omega) j hj]
    congr 1
    exact sumN_congr fun i hi => by rw [hvg i hi j hj]
  simp only [fluxDiff0, h v hv j hj, hie]
  rw [sumN_congr fun i hi => by rw [hst _ i hi j hj]]
  by_cases h1 : v < nd
  · rw [if_pos h1, if_pos h1, hst _ v h1 j hj]
  · rw [if_neg h1, if_neg h1]

/-- A uniform flow has no diffusive flux. -/
theorem fluxDiff_zero (nd : Nat) (mu kappa : Transport) (s : Nat → ℝ) (normal g : Nat → Nat → ℝ) (h : ∀ v i, g v i = 0) (v d : Nat) : fluxDiff nd mu kappa s normal g v d = 0 := by
  have hvg : ∀ i j, velocGrad nd s g i j = 0 := fun i j => by rw [velocGrad, h, h]; simp
  have hst : ∀ c i j, stress nd c s g i j = 0 := fun c i j => by simp only [stress, hvg]; simp [sumN]
  have hie : ∀ j, intEnerGrad nd s g j = 0 := fun j => by rw [intEnerGrad, h, h]; simp [hvg, sumN]
  simp only [fluxDiff, fluxDiff0, h, hst, hie]
  simp [sumN]

/-- Uniform flow; the variables that are not flow variables (time step scale, artificial viscosity and so on) are arbitrary fields. -/
def uniform (nd : Nat) (fs : Nat → ℝ) (aux : Nat → Field) (v : Nat) : Field := if v < nd + 2 then fun _ => fs v else aux v

theorem uniform_at {nd : Nat} (fs : Nat → ℝ) (aux : Nat → Field) (x : Nat → ℝ) {v : Nat} (hv : v < nd + 2) : uniform nd fs aux v x = fs v := by rw [uniform, if_pos hv]

theorem polyIn_const (nd : Nat) {f : Field} (c : ℝ) (h : ∀ x, f x = c) : PolyIn nd 1 f := by
  intro i _ x
  refine ⟨Polynomial.C c, lt_of_le_of_lt Polynomial.degree_C_le (by norm_num), fun t => ?_⟩
  rw [h, Polynomial.eval_C]

theorem partialD_const (i : Nat) {f : Field} (c : ℝ) (h : ∀ x, f x = c) (x : Nat → ℝ) : partialD i f x = 0 := by
  have : (fun t => f (Function.update x i t)) = fun _ => c := funext fun t => h _
  rw [partialD, this, deriv_const]

theorem uniform_flux (nd : Nat) (visc : Bool) (mu kappa : Transport) (fs : Nat → ℝ) (aux : Nat → Field) {d v : Nat} (hv : v < nd + 2) (x : Nat → ℝ) :
    (ns nd visc mu kappa).fluxField (uniform nd fs aux) d v x = fluxConv nd fs (fun j => if j = d then 1 else 0) v := by
  show fluxConv nd (fetchState nd fun w => uniform nd fs aux w x) (fun j => if j = d then 1 else 0) v = _
  rw [flux_scale (s' := fs) (n' := fun j => if j = d then 1 else 0) (a := 1) (fun w hw => ?_) (fun i hi => (one_mul _).symm) hv, one_mul]
  simp only [fetchState, if_pos hw, uniform_at fs aux x hw]

theorem uniform_extrap (nd : Nat) (visc : Bool) (mu kappa : Transport) (fs : Nat → ℝ) (aux : Nat → Field) {v : Nat} (hv : v < nd + 2) (x : Nat → ℝ) :
    (ns nd visc mu kappa).extrapField (uniform nd fs aux) v x = fs v := uniform_at fs aux x hv

theorem uniform_diff (nd : Nat) (visc : Bool) (mu kappa : Transport) (fs : Nat → ℝ) (aux : Nat → Field) {d v : Nat} (hd : d < nd) (hv : v < nd + 2) (x : Nat → ℝ) :
    (ns nd visc mu kappa).diffField (uniform nd fs aux) d v x = 0 := by
  rw [Pde.diffField]
  have := ns_diffLocal nd visc mu kappa (fun w => uniform nd fs aux w x) (fun j i => if j = i then 1 else 0) (fun v i => partialD i ((ns nd visc mu kappa).extrapField (uniform nd fs aux) v) x) (fun _ _ => 0)
    (fun v hv i hi => partialD_const i (fs v) (fun x => uniform_extrap nd visc mu kappa fs aux hv x) x) v hv d hd
  rw [this]
  exact fluxDiff_zero nd mu kappa (fetchState nd fun w => uniform nd fs aux w x) (fun j i => if j = i then 1 else 0) (fun _ _ => 0) (fun _ _ => rfl) v d

/-- Stages and steps from a uniform state, for any boundary conditions that map the uniform state to itself and a vanishing diffusive flux to itself. -/
theorem uniform_stages {bs : BasisData} {b : Basis.Nodes ℝ} {deg : Nat} {m : Mesh} {o : Nat → Nat → ℝ} (hof : bs.IsOf b) (hb : b.Exact deg) (hn : 0 < b.n) (hdeg : b.n ≤ deg + 1) (hm : m.Ok bs) (hc : m.Cubes b o)
    (fs : Nat → ℝ) (aux : Nat → Field) (rule frule : Rule)
    (hr : ∀ c ∈ m.cons, (c.side true).isGhost = true → ∀ k < b.n ^ (m.nd - 1), ∀ inside : Nat → ℝ, (∀ v < m.nd + 2, inside v = fs v) →
      ∀ v < m.nd + 2, rule c (fun i => c.normal (i * b.n ^ (m.nd - 1) + k)) inside v = fs v)
    (hfr : ∀ c ∈ m.cons, (c.side true).isGhost = true → ∀ k < b.n ^ (m.nd - 1), ∀ inside : Nat → ℝ, (∀ v < m.nd + 2, inside v = 0) →
      ∀ v < m.nd + 2, frule c (fun i => c.normal (i * b.n ^ (m.nd - 1) + k)) inside v = 0)
    (useLdg : Bool) (mu kappa : Transport) (sr : ℝ) (filter : Bool) :
    (∀ (dt : ℝ) (w w1 : World), m.Samples b o w.state (uniform m.nd fs aux) → m.InnerSamples b o (m.nd + 2) (fun B => w.buf B false) (fun v _ => fs v) →
      (if useLdg then computeDiffusion (ns m.nd true mu kappa) bs m (runBc m.nd bs.n (m.nd + 2) true frule m.cons) sr dt false false filter (runBc m.nd bs.n (m.nd + 2) false rule m.cons w)
       else computeConvection (ns m.nd false mu kappa) bs m sr dt false false filter (runBc m.nd bs.n (m.nd + 2) false rule m.cons w)) = some w1 →
      m.Samples b o w1.state (uniform m.nd fs aux) ∧ m.InnerSamples b o (m.nd + 2) (fun B => w1.buf B false) (fun v _ => fs v) ∧
        ∀ e ∈ m.elems, ∀ v < m.nd + 2, ∀ q < b.n ^ m.nd, w1.cache e (v, q) = 0) ∧
    ∀ (dts : List ℝ) (w w' : World), m.Samples b o w.state (uniform m.nd fs aux) → m.InnerSamples b o (m.nd + 2) (fun B => w.buf B false) (fun v _ => fs v) →
      flow useLdg mu kappa bs m sr filter (runBc m.nd bs.n (m.nd + 2) false rule m.cons) (runBc m.nd bs.n (m.nd + 2) true frule m.cons) dts w = some w' →
      m.Samples b o w'.state (uniform m.nd fs aux) ∧ m.InnerSamples b o (m.nd + 2) (fun B => w'.buf B false) fun v _ => fs v := by
  have hN : 0 < b.n ^ (m.nd - 1) := Nat.pow_pos hn
  have hbn := hof.n
  have conv : ∀ visc (buf : Buf → Mem), m.InnerSamples b o (ns m.nd visc mu kappa).nExtrap buf ((ns m.nd visc mu kappa).extrapField (uniform m.nd fs aux)) ↔ m.InnerSamples b o (m.nd + 2) buf fun v _ => fs v := by
    intro visc buf
    constructor
    · intro h c hc s hg v hv k hk
      rw [h c hc s hg v hv k hk]; exact uniform_extrap m.nd visc mu kappa fs aux hv _
    · intro h c hc s hg v hv k hk
      rw [h c hc s hg v hv k hk]; exact (uniform_extrap m.nd visc mu kappa fs aux hv _).symm
  have hbc : ∀ visc (w : World), m.InnerSamples b o (m.nd + 2) (fun B => w.buf B false) (fun v _ => fs v) →
      m.FaceSamples b o (ns m.nd visc mu kappa).nExtrap (fun B => (runBc m.nd bs.n (m.nd + 2) false rule m.cons w).buf B false) ((ns m.nd visc mu kappa).extrapField (uniform m.nd fs aux)) := by
    intro visc w h c hcm s v hv k hk
    rw [uniform_extrap m.nd visc mu kappa fs aux hv]
    beta_reduce
    by_cases hg : (c.side s).isGhost = true
    · cases s with
      | false => rw [hm.ghost c hcm] at hg; cases hg
      | true =>
        rw [runBc_at hm.sides_nodup hcm hg, hbn, faceBc, if_pos (block_lt (show v < m.nd + 2 from hv) hk)]
        obtain ⟨e1, e2⟩ := Connection.divmod_of (a := v) hk
        rw [e1, e2]
        exact hr c hcm hg k hk _ (fun v hv => h c hcm false (hm.ghost c hcm) v hv k hk) v hv
    · have hg : (c.side s).isGhost = false := by simpa using hg
      rw [(runBc_ghostOnly m.nd bs.n (m.nd + 2) false rule m.cons w).2.2 _ hg]
      exact h c hcm s hg v hv k hk
  have hfbc : ∀ (w : World), m.InnerAxisSamples b o (ns m.nd true mu kappa).nUpdate (fun B => w.buf B true) ((ns m.nd true mu kappa).diffField (uniform m.nd fs aux)) →
      m.AxisSamples b o (ns m.nd true mu kappa).nUpdate (fun B => (runBc m.nd bs.n (m.nd + 2) true frule m.cons w).buf B true) ((ns m.nd true mu kappa).diffField (uniform m.nd fs aux)) := by
    intro w h c hcm s v hv k hk
    have hax : c.dir.i0.val < m.nd := (hm.legal c hcm).1.1
    beta_reduce
    by_cases hg : (c.side s).isGhost = true
    · cases s with
      | false => rw [hm.ghost c hcm] at hg; cases hg
      | true =>
        rw [runBc_at hm.sides_nodup hcm hg, hbn, faceBc, if_pos (block_lt (show v < m.nd + 2 from hv) hk), uniform_diff m.nd true mu kappa fs aux hax hv]
        obtain ⟨e1, e2⟩ := Connection.divmod_of (a := v) hk
        rw [e1, e2]
        refine hfr c hcm hg k hk _ (fun v hv => ?_) v hv
        rw [← uniform_diff m.nd true mu kappa fs aux hax hv (m.bufPos b o (c.side false) k)]
        exact h c hcm false (hm.ghost c hcm) v hv k hk
    · have hg : (c.side s).isGhost = false := by simpa using hg
      rw [(runBc_ghostOnly m.nd bs.n (m.nd + 2) true frule m.cons w).2.2 _ hg]
      exact h c hcm s hg v hv k hk
  have hG : ∀ visc, ∀ i < m.nd, ∀ v < (ns m.nd visc mu kappa).nUpdate, PolyIn m.nd 1 ((ns m.nd visc mu kappa).fluxField (uniform m.nd fs aux) i v) :=
    fun visc i hi v hv => polyIn_const _ _ fun x => uniform_flux m.nd visc mu kappa fs aux hv x
  have hE1 : ∀ visc, ∀ v < (ns m.nd visc mu kappa).nExtrap, PolyIn m.nd 1 ((ns m.nd visc mu kappa).extrapField (uniform m.nd fs aux) v) :=
    fun visc v hv => polyIn_const _ _ fun x => uniform_extrap m.nd visc mu kappa fs aux hv x
  have hup : ∀ {f : Field}, PolyIn m.nd 1 f → PolyIn m.nd b.n f := by
    intro f h i hi x
    obtain ⟨P, h1, h2⟩ := h i hi x
    exact ⟨P, lt_of_lt_of_le h1 (by exact_mod_cast hn), h2⟩
  have hD : ∀ i < m.nd, ∀ v < (ns m.nd true mu kappa).nUpdate, PolyIn m.nd b.n ((ns m.nd true mu kappa).diffField (uniform m.nd fs aux) i v) :=
    fun i hi v hv => hup (polyIn_const _ 0 fun x => uniform_diff m.nd true mu kappa fs aux hi hv x)
  have hst : ∀ visc, ∀ v < (ns m.nd visc mu kappa).nUpdate, ∀ x, (ns m.nd visc mu kappa).convRate m.nd (uniform m.nd fs aux) v x = 0 := by
    intro visc v hv x
    rw [Pde.convRate, Finset.sum_eq_zero, neg_zero]
    exact fun d _ => partialD_const d _ (fun x => uniform_flux m.nd visc mu kappa fs aux hv x) x
  have hds : ∀ v < (ns m.nd true mu kappa).nUpdate, ∀ x, (ns m.nd true mu kappa).diffRate m.nd (uniform m.nd fs aux) v x = 0 := by
    intro v hv x
    rw [Pde.diffRate, Finset.sum_eq_zero, neg_zero]
    exact fun d hd => partialD_const d 0 (fun x => uniform_diff m.nd true mu kappa fs aux (Finset.mem_range.1 hd) hv x) x
  have hzero : ∀ visc f flag s, (∀ v < (ns m.nd visc mu kappa).nUpdate, f v = 0) → (ns m.nd visc mu kappa).writeUpdate f flag s = s := by
    intro visc f flag s h
    funext i
    show (if i < m.nd + 2 then s i + f i else s i) = s i
    split
    · next hi => rw [h i hi, add_zero]
    · rfl
  have hd1 : 1 + b.n ≤ deg + 2 := by omega
  have hgo := runBc_ghostOnly m.nd bs.n (m.nd + 2) false rule m.cons
  refine (and_iff_left_of_imp fun hstage => ?_).2 ?_
  rotate_left
  · intro dt w w1 hs hf hw1
    set sb := runBc m.nd bs.n (m.nd + 2) false rule m.cons with hsb
    cases useLdg with
    | true =>
      rw [if_pos rfl] at hw1
      obtain ⟨a1, a2, a3⟩ := steady_diffusion hof hb hn hm hc rfl rfl le_rfl (by show m.nd + 2 ≤ 2 * (m.nd + 2); omega) (ns_faceLocal _ _ _ _) (ns_diffLocal _ _ _ _) (fun _ => ns_faceConsistent m.nd true mu kappa (uniform m.nd fs aux))
        (hzero true) Nat.one_pos hn hd1 (fun _ => hG true) (hE1 true) hD (fun _ => hst true) hds _ (runBc_ghostOnly _ _ _ _ _ _) hfbc sr dt filter (sb w) w1 (by rw [(hgo w).1]; exact hs) (hbc true w hf) hw1
      exact ⟨a1, (conv true _).1 a2, a3 rfl⟩
    | false =>
      rw [if_neg (by simp)] at hw1
      obtain ⟨a1, a2, a3⟩ := steady_stage hof hb hn hm hc rfl rfl rfl le_rfl (ns_faceLocal _ _ _ _) (ns_faceConsistent m.nd false mu kappa (uniform m.nd fs aux))
        (hzero false) Nat.one_pos hn hd1 (hG false) (fun v hv => hup (hE1 false v hv)) (hst false) sr dt false filter (sb w) w1 (by rw [(hgo w).1]; exact hs) (hbc false w hf) (by simp) hw1
      exact ⟨a1, (conv false _).1 a2, a3 rfl⟩
  intro dts w w' hs hf hrun
  rw [flow] at hrun
  induction dts generalizing w with
  | nil =>
    simp only [List.foldlM_nil] at hrun
    cases hrun
    exact ⟨hs, hf⟩
  | cons dt l ih =>
    rw [List.foldlM_cons] at hrun
    obtain ⟨w2, hw2, hrest⟩ := Option.bind_eq_some_iff.1 hrun
    rw [flowStep] at hw2
    obtain ⟨w1, hw1, hw2⟩ := Option.bind_eq_some_iff.1 hw2
    set sb := runBc m.nd bs.n (m.nd + 2) false rule m.cons with hsb
    obtain ⟨a1, a2, a3⟩ := hstage dt w w1 hs hf hw1
    obtain ⟨c1, c2, _⟩ := steady_stage hof hb hn hm hc rfl rfl rfl le_rfl (ns_faceLocal _ _ _ _) (ns_faceConsistent m.nd false mu kappa (uniform m.nd fs aux))
      (hzero false) Nat.one_pos hn hd1 (hG false) (fun v hv => hup (hE1 false v hv)) (hst false) sr dt true filter (sb w1) w2 (by rw [(hgo w1).1]; exact a1) (hbc false w1 a2) (fun _ => by rw [(hgo w1).2.1]; exact a3) hw2
    exact ih w2 c1 ((conv false _).1 c2) hrest

/-- The same for any boundary conditions that map the uniform state to itself and a vanishing diffusive flux to itself. -/
theorem uniform_flow {bs : BasisData} {b : Basis.Nodes ℝ} {deg : Nat} {m : Mesh} {o : Nat → Nat → ℝ} (hof : bs.IsOf b) (hb : b.Exact deg) (hn : 0 < b.n) (hdeg : b.n ≤ deg + 1) (hm : m.Ok bs) (hc : m.Cubes b o)
    (fs : Nat → ℝ) (aux : Nat → Field) (rule frule : Rule)
    (hr : ∀ c ∈ m.cons, (c.side true).isGhost = true → ∀ k < b.n ^ (m.nd - 1), ∀ inside : Nat → ℝ, (∀ v < m.nd + 2, inside v = fs v) →
      ∀ v < m.nd + 2, rule c (fun i => c.normal (i * b.n ^ (m.nd - 1) + k)) inside v = fs v)
    (hfr : ∀ c ∈ m.cons, (c.side true).isGhost = true → ∀ k < b.n ^ (m.nd - 1), ∀ inside : Nat → ℝ, (∀ v < m.nd + 2, inside v = 0) →
      ∀ v < m.nd + 2, frule c (fun i => c.normal (i * b.n ^ (m.nd - 1) + k)) inside v = 0)
    (useLdg : Bool) (mu kappa : Transport) (sr : ℝ) (filter : Bool) (dts : List ℝ) (w w' : World)
    (hs : m.Samples b o w.state (uniform m.nd fs aux)) (hf : m.InnerSamples b o (m.nd + 2) (fun B => w.buf B false) fun v _ => fs v)
    (hrun : flow useLdg mu kappa bs m sr filter (runBc m.nd bs.n (m.nd + 2) false rule m.cons) (runBc m.nd bs.n (m.nd + 2) true frule m.cons) dts w = some w') :
    m.Samples b o w'.state (uniform m.nd fs aux) ∧ m.InnerSamples b o (m.nd + 2) (fun B => w'.buf B false) fun v _ => fs v :=
  (uniform_stages hof hb hn hdeg hm hc fs aux rule frule hr hfr useLdg mu kappa sr filter).2 dts w w' hs hf hrun

/-- Far field boundary conditions. -/
inductive Far where
  | freestream
  | riemann
  | outflow

/-- `Freestream::apply_state`, `Riemann_invariants::apply_state`, `Outflow::apply_state`, Boundary_condition.cpp:66-76, 97-141, 465-468. -/
def Far.state (nd : Nat) (fs : Nat → ℝ) (inside_face_sign : Bool) : Far → (Nat → ℝ) → (Nat → ℝ) → Nat → ℝ
  | .freestream => fun _ inside => freestreamState fs inside
  | .riemann => fun normal inside => riemannState nd fs normal (if inside_face_sign then -1 else 1) inside
  | .outflow => fun _ inside => copyState inside

/-- `Freestream::apply_flux`, `Riemann_invariants::apply_flux`, `Outflow::apply_flux`, Boundary_condition.cpp:299, 143-182, 470-477. -/
def Far.flux (nd : Nat) (cache : Nat → ℝ) (inside_face_sign : Bool) : Far → (Nat → ℝ) → (Nat → ℝ) → Nat → ℝ
  | .freestream => fun _ inside => copyState inside
  | .riemann => fun normal inside => riemannFlux nd cache normal (if inside_face_sign then -1 else 1) inside
  | .outflow => fun _ inside => negateFlux inside

/-- Uniform flow stays exactly uniform: on any mesh of cubes with hanging faces, with free-stream, characteristic or outflow conditions on the boundary faces, for inviscid and viscous
flow with any transport coefficients, any artificial viscosity and any (global or local) time steps, with and without filter. -/
theorem freestream_preserved {bs : BasisData} {b : Basis.Nodes ℝ} {deg : Nat} {m : Mesh} {o : Nat → Nat → ℝ} (hof : bs.IsOf b) (hb : b.Exact deg) (hn : 0 < b.n) (hdeg : b.n ≤ deg + 1) (hm : m.Ok bs) (hc : m.Cubes b o)
    (hg : ∀ c ∈ m.cons, (c.side true).isGhost = true → c.deformed = true) {fs : Nat → ℝ} (hfs : Admissible m.nd fs) (aux : Nat → Field) (far : ConRec → Far) (cache : ConRec → Nat → ℝ)
    (useLdg : Bool) (mu kappa : Transport) (sr : ℝ) (filter : Bool) (dts : List ℝ) (w w' : World)
    (hs : m.Samples b o w.state (uniform m.nd fs aux)) (hf : m.InnerSamples b o (m.nd + 2) (fun B => w.buf B false) fun v _ => fs v)
    (hrun : flow useLdg mu kappa bs m sr filter (runBc m.nd bs.n (m.nd + 2) false (fun c => (far c).state m.nd fs c.dir.s0) m.cons)
      (runBc m.nd bs.n (m.nd + 2) true (fun c => (far c).flux m.nd (cache c) c.dir.s0) m.cons) dts w = some w') :
    ∀ e ∈ m.elems, ∀ q < b.n ^ m.nd, ∀ v < m.nd + 2, w'.state e (v, q) = fs v := by
  have h := uniform_flow hof hb hn hdeg hm hc fs aux (fun c => (far c).state m.nd fs c.dir.s0) (fun c => (far c).flux m.nd (cache c) c.dir.s0) ?_ ?_ useLdg mu kappa sr filter dts w w' hs hf hrun
  · intro e he q hq v hv
    rw [h.1 e he q hq v, uniform_at fs aux _ hv]
  · intro c hcm hgh k hk inside hin v hv
    beta_reduce
    cases far c with
    | freestream => rfl
    | outflow => exact hin v hv
    | riemann =>
      show riemannState m.nd fs _ _ inside v = fs v
      rw [riemann_congr hin hv]
      refine riemann_freestream m.nd fs _ _ hfs ?_ v hv
      have hax : c.dir.i0.val < m.nd := (hm.legal c hcm).1.1
      have e : ∀ i < m.nd, c.normal (i * b.n ^ (m.nd - 1) + k) = if i = c.dir.i0.val then 1 else 0 := fun i hi => hc.normal c hcm (hg c hcm hgh) i hi k hk
      rw [dot_congr e e, dotN]
      simp [hax]
  · intro c hcm hgh k hk inside hin v hv
    beta_reduce
    cases far c with
    | freestream => exact hin v hv
    | outflow => show -inside v = 0; rw [hin v hv, neg_zero]
    | riemann => exact riemannFlux_zero hin hv

/-! ## An example: one square of edge 1 and, to its right, two squares of edge 1/2, with boundary conditions all around -/

/-- The mesh. -/
def exFar : Mesh where
  nd := 2
  elems := [0, 1, 2]
  elem e := ⟨if e = 0 then 1 else 1 / 2, fun q => 1 + q, none⟩
  cons :=
    let con (d : Fin 3) (a b : Buf) : ConRec := ⟨false, ⟨d, d, true, false⟩, fun s => if s then b else a, fun _ => 0⟩
    let bound (d : Fin 3) (s : Bool) (a : Buf) (g : Nat) : ConRec := ⟨true, ⟨d, d, s, !s⟩, fun s => if s then .ghost g else a, fun i => if i / 2 = d.val then 1 else 0⟩
    [con 0 (.mortar 0 0) (.elem 1 0), con 0 (.mortar 0 1) (.elem 2 0), con 1 (.elem 1 3) (.elem 2 2),
     bound 0 false (.elem 0 0) 0, bound 1 false (.elem 0 2) 1, bound 1 true (.elem 0 3) 2, bound 0 true (.elem 1 1) 3, bound 1 false (.elem 1 2) 4,
     bound 0 true (.elem 2 1) 5, bound 1 true (.elem 2 3) 6]
  refs := [⟨.elem 0 1, fun i => .mortar 0 i, (false, false)⟩]

/-- Lower corners of the squares. -/
def exCorner (e i : Nat) : ℝ := if e = 0 then 0 else if i = 0 then 1 else if i = 1 ∧ e = 2 then 1 / 2 else 0

theorem exFar_ok (bs : BasisData) : exFar.Ok bs := by
  refine ⟨by decide, ?_, ?_, by decide, by decide, ?_, ?_, ?_, ?_, ?_⟩
  · intro e _; simp only [exFar]; split <;> norm_num
  · intro e _ q _; simp [exFar, ElemRec.det]
  · intro k r hr
    match k, hr with
    | 0, hr => simp only [exFar, List.getElem?_cons_zero, Option.some.injEq] at hr; subst hr; exact ⟨⟨_, _, rfl⟩, fun _ _ => rfl⟩
    | k + 1, hr => simp [exFar] at hr
  · intro c hc
    simp only [exFar, List.mem_cons, List.not_mem_nil, or_false] at hc
    rcases hc with rfl | rfl | rfl | rfl | rfl | rfl | rfl | rfl | rfl | rfl <;> exact ⟨by decide, by simp⟩
  · intro c hc
    simp only [exFar, List.mem_cons, List.not_mem_nil, or_false] at hc
    rcases hc with rfl | rfl | rfl | rfl | rfl | rfl | rfl | rfl | rfl | rfl <;> rfl
  · intro c hc s hs
    simp only [exFar, List.mem_cons, List.not_mem_nil, or_false] at hc
    rcases hc with rfl | rfl | rfl | rfl | rfl | rfl | rfl | rfl | rfl | rfl <;> cases s <;> first | exact ⟨_, rfl⟩ | exact absurd hs (by simp [Buf.isGhost])
  · intro c hc hs
    simp only [exFar, List.mem_cons, List.not_mem_nil, or_false] at hc
    rcases hc with rfl | rfl | rfl | rfl | rfl | rfl | rfl | rfl | rfl | rfl <;> first | (cases hs; done) | simp [Mesh.bufSize, Mesh.faceOf, exFar]

theorem exFar_cubes (b : Basis.Nodes ℝ) (hb : b.n = 2) : exFar.Cubes b exCorner := by
  refine ⟨fun _ _ => rfl, ?_, ?_, ?_, ?_⟩
  · intro c hc
    simp only [exFar, List.mem_cons, List.not_mem_nil, or_false] at hc
    rcases hc with rfl | rfl | rfl | rfl | rfl | rfl | rfl | rfl | rfl | rfl <;> simp
  · intro c hc hd i hi k hk
    rw [hb] at hk ⊢
    simp only [exFar] at hi hk
    have hi' : (i * 2 ^ (2 - 1) + k) / 2 = i := by norm_num at hk ⊢; omega
    simp only [exFar, List.mem_cons, List.not_mem_nil, or_false] at hc
    rcases hc with rfl | rfl | rfl | rfl | rfl | rfl | rfl | rfl | rfl | rfl <;> first | (cases hd; done) | (show (if (i * 2 ^ (2 - 1) + k) / 2 = _ then (1 : ℝ) else 0) = _; rw [hi'])
  · intro c hc hs k hk
    simp only [exFar, List.mem_cons, List.not_mem_nil, or_false] at hc
    rcases hc with rfl | rfl | rfl | rfl | rfl | rfl | rfl | rfl | rfl | rfl <;>
      first
      | (cases hs; done)
      | (funext i
         match i with
         | 0 => simp [Mesh.bufPos, Mesh.faceOf, exFar, facePos, exCorner, fineOrigin, without] <;> norm_num
         | 1 => simp [Mesh.bufPos, Mesh.faceOf, exFar, facePos, exCorner, fineOrigin, without] <;> norm_num
         | i + 2 => simp [Mesh.bufPos, Mesh.faceOf, exFar, facePos, exCorner, fineOrigin, without])
  · intro r hr
    simp only [exFar, List.mem_cons, List.not_mem_nil, or_false] at hr
    rw [hr]

/-- Air at speed 1 in direction x. -/
def exAir (v : Nat) : ℝ := if v = 0 then 1 else if v = 1 then 0 else if v = 2 then 1 else 3

theorem exAir_adm : Admissible 2 exAir := by
  refine ⟨by norm_num [exAir], ?_⟩
  norm_num [Pres, dotN, exAir, Finset.sum_range_succ]

/-- The face of an element that a ghost face belongs to. -/
def exInside : Buf → Buf
  | .ghost 0 => .elem 0 0
  | .ghost 1 => .elem 0 2
  | .ghost 2 => .elem 0 3
  | .ghost 3 => .elem 1 1
  | .ghost 4 => .elem 1 2
  | .ghost 5 => .elem 2 1
  | .ghost 6 => .elem 2 3
  | b => b

/-- The world in which elements and faces hold samples of the fields `u`. -/
def exWorld (b : Basis.Nodes ℝ) (u : Nat → Field) : World where
  state e vq := u vq.1 (elemPos b 2 (exCorner e) (exFar.elem e).size vq.2)
  cache _ _ := 0
  buf B _ i := u (i / 2) (exFar.bufPos b exCorner (exInside B) (i % 2))

theorem exWorld_samples (b : Basis.Nodes ℝ) (u : Nat → Field) : exFar.Samples b exCorner (exWorld b u).state u := fun _ _ _ _ _ => rfl

theorem exWorld_faces (b : Basis.Nodes ℝ) (hb : b.n = 2) (u : Nat → Field) (nvar : Nat) : exFar.FaceSamples b exCorner nvar (fun B => (exWorld b u).buf B false) u := by
  intro c hc s v hv k hk
  have hmeet := (exFar_cubes b hb).meet c hc
  have hk2 : k < 2 := by have : exFar.nd = 2 := rfl; rw [hb, this] at hk; simpa using hk
  have hb' : b.n ^ (exFar.nd - 1) = 2 := by have : exFar.nd = 2 := rfl; rw [hb, this]; norm_num
  rw [hb'] at hmeet ⊢
  show u ((v * 2 + k) / 2) (exFar.bufPos b exCorner (exInside (c.side s)) ((v * 2 + k) % 2)) = _
  rw [show (v * 2 + k) / 2 = v by omega, show (v * 2 + k) % 2 = k by omega]
  congr 1
  cases s with
  | false =>
    congr 1
    simp only [exFar, List.mem_cons, List.not_mem_nil, or_false] at hc
    rcases hc with rfl | rfl | rfl | rfl | rfl | rfl | rfl | rfl | rfl | rfl <;> rfl
  | true =>
    by_cases hg : (c.side true).isGhost = false
    · rw [← hmeet hg k hk2]
      congr 1
      simp only [exFar, List.mem_cons, List.not_mem_nil, or_false] at hc
      rcases hc with rfl | rfl | rfl | rfl | rfl | rfl | rfl | rfl | rfl | rfl <;> first | rfl | (cases hg; done)
    · congr 1
      simp only [exFar, List.mem_cons, List.not_mem_nil, or_false] at hc
      rcases hc with rfl | rfl | rfl | rfl | rfl | rfl | rfl | rfl | rfl | rfl <;> first | rfl | exact absurd rfl hg

/-- Uniform viscous flow stays uniform for any number of steps, with any time step scale. -/
example (mu kappa : Transport) (sr : ℝ) (dts : List ℝ) :
    ∃ w', flow true mu kappa (ofNodes gauss2) exFar sr true
        (runBc 2 2 4 false (fun c => (if c.dir.s0 then Far.outflow else .riemann).state 2 exAir c.dir.s0) exFar.cons)
        (runBc 2 2 4 true (fun c => (if c.dir.s0 then Far.outflow else .riemann).flux 2 exAir c.dir.s0) exFar.cons) dts (exWorld gauss2 (uniform 2 exAir fun _ x => x 0 * x 1)) = some w' ∧
      ∀ q < 4, ∀ v < 4, w'.state 2 (v, q) = exAir v := by
  have hdef : ∀ w, ∃ w', flow true mu kappa (ofNodes gauss2) exFar sr true
        (runBc 2 2 4 false (fun c => (if c.dir.s0 then Far.outflow else .riemann).state 2 exAir c.dir.s0) exFar.cons)
        (runBc 2 2 4 true (fun c => (if c.dir.s0 then Far.outflow else .riemann).flux 2 exAir c.dir.s0) exFar.cons) dts w = some w' := by
    induction dts with
    | nil => exact fun w => ⟨w, rfl⟩
    | cons dt l ih =>
      intro w
      obtain ⟨w1, h1⟩ := flowStep_defined true mu kappa (ofNodes gauss2) exFar sr dt true
        (runBc 2 2 4 false (fun c => (if c.dir.s0 then Far.outflow else .riemann).state 2 exAir c.dir.s0) exFar.cons)
        (runBc 2 2 4 true (fun c => (if c.dir.s0 then Far.outflow else .riemann).flux 2 exAir c.dir.s0) exFar.cons) w
      obtain ⟨w2, h2⟩ := ih w1
      exact ⟨w2, by rw [flow] at h2 ⊢; rw [List.foldlM_cons, h1]; exact h2⟩
  obtain ⟨w', h⟩ := hdef (exWorld gauss2 (uniform 2 exAir fun _ x => x 0 * x 1))
  refine ⟨w', h, fun q hq v hv => ?_⟩
  refine freestream_preserved (ofNodes_isOf gauss2) Basis.gauss2_exact (by norm_num [gauss2]) (by norm_num [gauss2]) (exFar_ok _) (exFar_cubes gauss2 rfl) ?_ exAir_adm (fun _ x => x 0 * x 1)
    (fun c => if c.dir.s0 then Far.outflow else .riemann) (fun _ => exAir) true mu kappa sr true dts _ w' (exWorld_samples _ _) ?_ h 2 (by decide) q hq v hv
  · intro c hc hg
    simp only [exFar, List.mem_cons, List.not_mem_nil, or_false] at hc
    rcases hc with rfl | rfl | rfl | rfl | rfl | rfl | rfl | rfl | rfl | rfl <;> first | rfl | (cases hg; done)
  · intro c hc s hg v hv k hk
    rw [exWorld_faces gauss2 rfl _ 4 c hc s v hv k hk, uniform_at _ _ _ hv]

/-- Uniform density and velocity and energy `3 + x`. -/
def exRamp (v : Nat) : Field := if v = 3 then fun x => 3 + x 0 else fun _ => exAir v

theorem exRamp_flux (mu kappa : Transport) (i v : Nat) (x : Nat → ℝ) : (ns 2 false mu kappa).fluxField exRamp i v x =
    if v < 2 then (if v = 0 then (if i = 0 then 1 else 0) else 0) + 2 / 5 * (5 / 2 + x 0) * (if v = i then 1 else 0)
    else if v = 2 then (if i = 0 then 1 else 0) else (3 + x 0 + 2 / 5 * (5 / 2 + x 0)) * (if i = 0 then 1 else 0) := by
  show fluxConv 2 (fetchState 2 fun w => exRamp w x) (fun j => if j = i then 1 else 0) v = _
  have e0 : fetchState 2 (fun w => exRamp w x) 0 = 1 := by norm_num [fetchState, exRamp, exAir]
  have e1 : fetchState 2 (fun w => exRamp w x) 1 = 0 := by norm_num [fetchState, exRamp, exAir]
  have e2 : fetchState 2 (fun w => exRamp w x) 2 = 1 := by norm_num [fetchState, exRamp, exAir]
  have e3 : fetchState 2 (fun w => exRamp w x) 3 = 3 + x 0 := by norm_num [fetchState, exRamp]
  have hp : pressure 2 (fetchState 2 fun w => exRamp w x) = 2 / 5 * (5 / 2 + x 0) := by
    simp only [pressure, kinEner, sumN_eq, Finset.sum_range_succ, Finset.sum_range_zero, e0, e1, e2, e3, heatRat]; ring
  rw [fluxConv]
  simp only [hp, sumN_eq, Finset.sum_range_succ, Finset.sum_range_zero, e0, e1, e2, e3]
  match v with
  | 0 => simp [e0, eq_comm]
  | 1 => simp [e1, eq_comm]
  | 2 => simp [eq_comm]
  | v + 3 => simp [eq_comm]

/-- A pressure ramp accelerates the fluid by exactly minus the pressure gradient, in all elements. -/
example (mu kappa : Transport) (sr dt : ℝ) (w' : World) (hrun : computeConvection (ns 2 false mu kappa) (ofNodes gauss2) exFar sr dt false false false (exWorld gauss2 exRamp) = some w') :
    ∀ e ∈ [0, 1, 2], ∀ q < 4, w'.state e (0, q) = 1 - dt * (1 + q) * (2 / 5) := by
  intro e he q hq
  have hpoly : ∀ i < 2, ∀ v < 4, PolyIn 2 2 ((ns 2 false mu kappa).fluxField exRamp i v) := by
    intro i hi v hv j hj x
    have hlin : ∀ a c : ℝ, ∃ P : Polynomial ℝ, P.degree < 2 ∧ ∀ t, a + c * (Function.update x j t) 0 = P.eval t := by
      intro a c
      by_cases h : j = 0
      · subst h
        refine ⟨Polynomial.C c * Polynomial.X + Polynomial.C a, lt_of_le_of_lt Polynomial.degree_linear_le (by norm_num), fun t => ?_⟩
        simp; ring
      · refine ⟨Polynomial.C (a + c * x 0), lt_of_le_of_lt Polynomial.degree_C_le (by norm_num), fun t => ?_⟩
        rw [Function.update_of_ne (Ne.symm h), Polynomial.eval_C]
    simp only [exRamp_flux]
    obtain ⟨a, c, hac⟩ : ∃ a c : ℝ, ∀ y : ℝ, (if v < 2 then (if v = 0 then (if i = 0 then 1 else 0) else 0) + 2 / 5 * (5 / 2 + y) * (if v = i then 1 else 0)
        else if v = 2 then (if i = 0 then 1 else 0) else (3 + y + 2 / 5 * (5 / 2 + y)) * (if i = 0 then 1 else 0)) = a + c * y := by
      split
      · exact ⟨(if v = 0 then (if i = 0 then 1 else 0) else 0) + 1 * (if v = i then 1 else 0), 2 / 5 * (if v = i then 1 else 0), fun y => by ring⟩
      · split
        · exact ⟨(if i = 0 then 1 else 0), 0, fun y => by ring⟩
        · exact ⟨4 * (if i = 0 then 1 else 0), 7 / 5 * (if i = 0 then 1 else 0), fun y => by ring⟩
    simp only [hac]
    exact hlin a c
  obtain ⟨upd, h1, h2⟩ := convection_exact (p := ns 2 false mu kappa) (u := exRamp) (d := 2) (ofNodes_isOf gauss2) Basis.gauss2_exact (by norm_num [gauss2]) (exFar_ok _) (exFar_cubes gauss2 rfl) rfl rfl le_rfl (ns_faceLocal _ _ _ _)
    (ns_faceConsistent 2 false mu kappa exRamp) (by norm_num) (by norm_num [gauss2]) (by norm_num [gauss2]) hpoly sr dt _ w' (exWorld_samples _ _) (exWorld_faces gauss2 rfl _ _) hrun e he q hq
  rw [h2]
  show exRamp 0 _ + upd 0 = _
  rw [h1 0 (by show 0 < 4; norm_num)]
  have : ∀ x, (ns 2 false mu kappa).rhs 2 exRamp 0 x = -(2 / 5) := by
    intro x
    have d0 : partialD 0 ((ns 2 false mu kappa).fluxField exRamp 0 0) x = 2 / 5 := by
      simp only [partialD, exRamp_flux, Function.update_self]
      norm_num
    have d1 : partialD 1 ((ns 2 false mu kappa).fluxField exRamp 1 0) x = 0 := by
      simp [partialD, exRamp_flux]
    simp only [Pde.rhs, Pde.convRate, Finset.sum_range_succ, Finset.sum_range_zero, d0, d1]
    simp [ns]
  have hnd : exFar.nd = 2 := rfl
  rw [hnd, this]
  have : (exFar.elem e).tss q = 1 + q := rfl
  rw [this]
  norm_num [exRamp, exAir]
  ring

end
end Hexed.Solver
