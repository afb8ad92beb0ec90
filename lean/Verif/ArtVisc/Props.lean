import Verif.ArtVisc.Run
import Verif.Metric.Seal
set_option autoImplicit false
set_option linter.unusedVariables false

/-!
# C88: the smoothness-based artificial viscosity on a whole mesh
-/

namespace Hexed.ArtVisc
open Hexed.Spatial Hexed.Pde Hexed.Solver Hexed.StateFile Hexed.Metric
noncomputable section

variable {bs : BasisData} {b : Basis.Nodes ℝ} {deg : Nat} {m : Mesh} {N : Buf → Mem}
variable {mu kappa : Transport} {nodes : Nat → ℝ} {P : Params} {sr : ℝ} {bc : ConRec → AdvBc} {tssA tssD : World → Nat → Nat → ℝ} {w w' : World} {r : ℝ}

/-! ## Any flow, any mesh -/

/-- The flow is exactly what it was before: the momentum that was replaced by the advection velocity is put back, density, energy and the Laplacian artificial viscosity are not touched. -/
theorem flow_kept (hm : m.Ok bs) (h : update mu kappa b bs m nodes P sr bc tssA tssD w = some (w', r)) :
    ∀ e ∈ m.elems, ∀ q < bs.n ^ m.nd, ∀ v, (v < m.nd + 2 ∨ v = m.nd + 4) → w'.state e (v, q) = w.state e (v, q) := by
  obtain ⟨wf, w1, h1, h2, rfl⟩ := update_split hm h
  intro e he q hq v hv
  obtain ⟨hpos, hmom, hrest⟩ := forcing_frame hm h1 he hq
  obtain ⟨-, -, f1, f2⟩ := finish_some h2 e he q hq
  rw [refresh_state hm]
  by_cases hvn : v < m.nd
  · rw [f1 v hvn, hmom v hvn, hrest m.nd le_rfl (by omega) (by omega), hrest (m.nd + 1) (by omega) (by omega) (by omega), div_mul_cancel₀ _ (Real.sqrt_pos.2 hpos).ne']
  · rw [f2 v (by omega) (by omega), hrest v (by omega) (by omega) (by omega)]

/-- The face data is that of the flow: what `initialize` would leave for the same state, at all sides of connections but ghosts. -/
theorem faces_refreshed (hn : 0 < bs.n) (hm : m.Ok bs) (h : update mu kappa b bs m nodes P sr bc tssA tssD w = some (w', r)) :
    ∀ c ∈ m.cons, ∀ s, (c.side s).isGhost = false → ∀ v < m.nd + 2, ∀ k < bs.n ^ (m.nd - 1),
      w'.buf (c.side s) false (v * bs.n ^ (m.nd - 1) + k) = (refresh mu kappa bs m w).buf (c.side s) false (v * bs.n ^ (m.nd - 1) + k) := by
  have hk := flow_kept hm h
  obtain ⟨wf, w1, h1, h2, rfl⟩ := update_split hm h
  rw [refresh_state hm] at hk
  obtain ⟨_, _, a3, a4, _, _⟩ := refresh_spec hm mu kappa w
  obtain ⟨_, _, c3, c4, _, _⟩ := refresh_spec hm mu kappa w1
  have hel : ∀ e ∈ m.elems, ∀ f < 2 * m.nd, ∀ v < m.nd + 2, ∀ k < bs.n ^ (m.nd - 1),
      (refresh mu kappa bs m w1).buf (.elem e f) false (v * bs.n ^ (m.nd - 1) + k) = (refresh mu kappa bs m w).buf (.elem e f) false (v * bs.n ^ (m.nd - 1) + k) := by
    intro e he f hf v hv k hk'
    rw [a3 e he f hf, c3 e he f hf]
    have hb := fun (s : Arr) (faces : Nat → Mem) => (bounds_apply m.nd bs.n hn (m.nd + 2) (fun _ r => matRow bs.n bs.bound (readRow (fun k => (ns m.nd false mu kappa).fetchExtrap (fun v => s (v, k.2)) k.1) 0 r)) faces).1 v hv (f / 2) (by omega) k hk' (f % 2) (by omega)
    rw [show 2 * (f / 2) + f % 2 = f by omega] at hb
    refine (hb _ _).trans (Eq.trans ?_ (hb _ _).symm)
    rw [matRow, matRow, Basis.range_sum, Basis.range_sum]
    refine Finset.sum_congr rfl fun i hi => ?_
    rw [readRow_after hn (by omega : f / 2 < m.nd), readRow_after hn (by omega : f / 2 < m.nd)]
    congr 1
    exact hk e he _ (pt_lt hn (by omega) hk' (Finset.mem_range.1 hi)) v (Or.inl hv)
  intro c hc s hg v hv k hk'
  have hmem : c.side s ∈ m.sides := by
    refine List.mem_flatMap.2 ⟨c, hc, ?_⟩
    cases s <;> simp
  rcases (storage_sides hm (c.side s)).2 (Or.inl hmem) |> (fun h => by rw [faceStorage, List.mem_append, List.mem_append] at h; exact h) with (h5 | h5) | h5
  · obtain ⟨e, he, f, hf, hb⟩ := mem_elemFaces.1 h5
    rw [hb]
    exact hel e he f hf v hv k hk'
  · obtain ⟨r, hr, i, hi, hb⟩ := mem_fineBufs.1 h5
    obtain ⟨e, he, f, hf, hco⟩ := coarse_mem hm hr
    rw [hb, a4 r hr i hi, c4 r hr i hi, (prolongFine_apply bs hn m.nd (m.nd + 2) false r.str i _ _).1 v hv k hk', (prolongFine_apply bs hn m.nd (m.nd + 2) false r.str i _ _).1 v hv k hk']
    refine dimsInPlace_congr m.nd bs.n hn _ _ _ _ _ _ _ (fun a ha1 ha2 => ?_) _ (Nat.le_add_right _ _) (Nat.add_lt_add_left hk' _)
    obtain ⟨k, rfl⟩ : ∃ k, a = v * bs.n ^ (m.nd - 1) + k := ⟨a - v * bs.n ^ (m.nd - 1), by omega⟩
    rw [hco]
    exact hel e he f hf v hv k (by omega)
  · exact absurd (List.mem_filter.1 h5).2 (by rw [hg]; simp)

/-- The new bulk artificial viscosity at each point, from the smoothed forcing there: it saturates at `L·unscaled_max·√(2E/ρ)` with `E` and `ρ` of the free stream. -/
theorem new_value (hm : m.Ok bs) (h : update mu kappa b bs m nodes P sr bc tssA tssD w = some (w', r)) {U f : ℝ} (hU : U = P.length * P.unscaledMax * √(2 * P.fsEnergy / P.fsMass)) :
    ∀ e ∈ m.elems, ∀ q < bs.n ^ m.nd, f = P.viscMult * P.length * w'.state e (m.nd + 8, q) → U + f ≠ 0 ∧ w'.state e (m.nd + 3, q) = U * f / (U + f) := by
  obtain ⟨wf, w1, h1, h2, rfl⟩ := update_split hm h
  rintro e he q hq rfl
  obtain ⟨f0, f3, -, f2⟩ := finish_some h2 e he q hq
  rw [refresh_state hm, f2 (m.nd + 8) (by omega) (by omega)]
  subst hU
  exact ⟨f0, f3⟩

/-- It is at least zero and below the limit wherever the smoothed forcing is not negative. -/
theorem new_range (hm : m.Ok bs) (hu : 0 < P.usMax) (hmu : 0 ≤ P.mult) (h : update mu kappa b bs m nodes P sr bc tssA tssD w = some (w', r)) :
    ∀ e ∈ m.elems, ∀ q < bs.n ^ m.nd, 0 ≤ w'.state e (m.nd + 8, q) → 0 ≤ w'.state e (m.nd + 3, q) ∧ w'.state e (m.nd + 3, q) < P.usMax := by
  intro e he q hq hf
  obtain ⟨h0, h1⟩ := new_value hm h (U := P.usMax) rfl e he q hq rfl
  have hx : 0 ≤ P.viscMult * P.length * w'.state e (m.nd + 8, q) := mul_nonneg hmu hf
  rw [h1]
  refine ⟨by positivity, ?_⟩
  rw [div_lt_iff₀ (by linarith)]
  nlinarith

/-- `art_visc_residual` is the root of the volume-weighted sum of squares of the change. -/
theorem residual_value (hm : m.Ok bs) (h : update mu kappa b bs m nodes P sr bc tssA tssD w = some (w', r)) : r = √(changeSq bs m w w') := by
  obtain ⟨wf, w1, h1, h2, rfl⟩ := update_split hm h
  have hf := finish_some h2
  rw [finish] at h2
  split at h2
  · next hall =>
    have hr := (Prod.mk.inj (Option.some.inj h2)).2
    rw [← hr, changeSq]
    congr 2
    refine List.map_congr_left fun e he => ?_
    rw [Basis.range_sum, Finset.mul_sum]
    refine Finset.sum_congr rfl fun q hq => ?_
    have hq := Finset.mem_range.1 hq
    obtain ⟨f0, f3, -, -⟩ := hf e he q hq
    have hav : Visc.newAv P.usMax P.mult (wf.state e (m.nd + 5 + nReal, q)) = some (P.usMax * (P.mult * wf.state e (m.nd + 8, q)) / (P.usMax + P.mult * wf.state e (m.nd + 8, q))) := if_neg f0
    beta_reduce
    rw [refresh_state hm, f3, hav, Option.getD_some, (forcing_frame hm h1 he hq).2.2 (m.nd + 3) (by omega) (by omega) (by omega)]
    ring
  · cases h2

/-! ## When the result is defined -/

/-- Where density times energy is not positive, there is no result: the code divides by zero or takes the root of a negative number. -/
theorem undefined_flow (hm : m.Ok bs) {e q : Nat} (he : e ∈ m.elems) (hq : q < bs.n ^ m.nd) (hneg : w.state e (m.nd, q) * w.state e (m.nd + 1, q) ≤ 0) : update mu kappa b bs m nodes P sr bc tssA tssD w = none := by
  rw [update, forcing, scaleDown, if_neg]
  · rfl
  · intro h
    have := h e he q hq
    linarith

/-- If density times energy is positive everywhere and the row size is one that `set_art_visc_row_size` accepts, the only way in which the update can fail is that some smoothed forcing is exactly `-unscaled_max/mult`. -/
theorem defined (hm : m.Ok bs) (hr : 2 ≤ P.avRs ∧ P.avRs ≤ b.n) (hpos : ∀ e ∈ m.elems, ∀ q < bs.n ^ m.nd, 0 < w.state e (m.nd, q) * w.state e (m.nd + 1, q)) :
    ∃ wf, forcing mu kappa b bs m nodes P sr bc tssA tssD w = some wf ∧
      ((update mu kappa b bs m nodes P sr bc tssA tssD w = none) ↔ ∃ e ∈ m.elems, ∃ q < bs.n ^ m.nd, P.usMax + P.mult * wf.state e (m.nd + 8, q) = 0) := by
  obtain ⟨wf, h1⟩ := forcing_total (mu := mu) (kappa := kappa) (nodes := nodes) (P := P) (sr := sr) (bc := bc) (tssA := tssA) (tssD := tssD) hr (fun e he q hq => by have := hpos e he q hq; linarith : ∀ e ∈ m.elems, ∀ q < bs.n ^ m.nd, 0 < 2 * w.state e (m.nd, q) * w.state e (m.nd + 1, q))
  refine ⟨wf, h1, ?_⟩
  rw [update, h1, Option.bind_some, finish]
  constructor
  · intro h
    by_contra hno
    push Not at hno
    rw [if_pos] at h
    · cases h
    · intro e he q hq
      have : Visc.newAv P.usMax P.mult (wf.state e (m.nd + 5 + nReal, q)) = some _ := if_neg (hno e he q hq)
      beta_reduce
      rw [this]; rfl
  · rintro ⟨e, he, q, hq, h0⟩
    rw [if_neg]
    · rfl
    · intro h
      have h2 := h e he q hq
      beta_reduce at h2
      have : Visc.newAv P.usMax P.mult (wf.state e (m.nd + 5 + nReal, q)) = none := if_pos h0
      rw [this] at h2; cases h2

/-! ## What counts as smooth -/

/-- The indicator: the first forcing variable is the square of the component of the advected scalars along the Legendre polynomial of degree `row_size - 1`, times twice the specific energy. -/
theorem indicator_value (hm : m.Ok bs) (hof : bs.IsOf b) (hr : 2 ≤ P.avRs ∧ P.avRs ≤ b.n) (h : update mu kappa b bs m nodes P sr bc tssA tssD w = some (w', r)) : ∀ e ∈ m.elems, ∀ q < bs.n ^ m.nd,
    w'.state e (m.nd + 5, q) = (∑ i ∈ Finset.range b.n, w'.state e (m.nd + 9 + i, q) * b.weight i * (Basis.legendreVal (P.avRs - 1) (b.node i) / √(Basis.normSq b (P.avRs - 1)))) ^ 2 * 2 * w.state e (m.nd + 1, q) / w.state e (m.nd, q) := by
  obtain ⟨wf, w1, h1, h2, rfl⟩ := update_split hm h
  intro e he q hq
  have hfin := (finish_some h2 e he q hq).2.2.2
  have hfr := forcing_frame hm h1 he hq
  rw [forcing] at h1
  obtain ⟨w2, g1, g2⟩ := Option.bind_eq_some_iff.1 h1
  dsimp only at g2
  obtain ⟨w3, g3, g4⟩ := Option.bind_eq_some_iff.1 g2
  obtain ⟨orth, g5, g6⟩ := Option.bind_eq_some_iff.1 g4
  rw [orth_list hr] at g5
  obtain rfl := Option.some.inj g5
  have hd : ∀ v, m.nd ≤ v → v ≠ m.nd + 2 → v ≠ m.nd + 3 → ¬(m.nd + 6 ≤ v ∧ v < m.nd + 9) → w1.state e (v, q) = (project bs m (fun i => ((List.range b.n).map fun i => Basis.ortho b (P.avRs - 1) i).getD i 0) w3).state e (v, q) :=
    fun v hv0 hv1 hv2 hv3 => (hfin v hv0 hv2).trans (diffuse_frame hm g6 e hv3 hv1 q)
  have hp : ∀ v, v ≠ m.nd + 5 → (project bs m (fun i => ((List.range b.n).map fun i => Basis.ortho b (P.avRs - 1) i).getD i 0) w3).state e (v, q) = w3.state e (v, q) := fun v hv => by
    rw [project, mapPoints_at _ _ he hq, if_neg hv]
  have h9 : ∀ i, w1.state e (m.nd + 9 + i, q) = w3.state e (m.nd + 9 + i, q) := fun i => (hd _ (by omega) (by omega) (by omega) (by omega)).trans (hp _ (by omega))
  have hm0 : w3.state e (m.nd, q) = w.state e (m.nd, q) := by
    rw [← hp _ (by omega), ← hd _ (by omega) (by omega) (by omega) (by omega), hfin _ le_rfl (by omega), hfr.2.2 _ le_rfl (by omega) (by omega)]
  have hm1 : w3.state e (m.nd + 1, q) = w.state e (m.nd + 1, q) := by
    rw [← hp _ (by omega), ← hd _ (by omega) (by omega) (by omega) (by omega), hfin _ (by omega) (by omega), hfr.2.2 _ (by omega) (by omega) (by omega)]
  rw [refresh_state hm, hd (m.nd + 5) (by omega) (by omega) (by omega) (by omega), project, mapPoints_at _ _ he hq, if_pos rfl, proj_eq]
  beta_reduce
  rw [hm0, hm1, hof.n]
  have hsum : ∑ i ∈ Finset.range b.n, w3.state e (m.nd + 9 + i, q) * bs.weight i * (((List.range b.n).map fun i => Basis.ortho b (P.avRs - 1) i).getD i 0) =
      ∑ i ∈ Finset.range b.n, w1.state e (m.nd + 9 + i, q) * b.weight i * (Basis.legendreVal (P.avRs - 1) (b.node i) / √(Basis.normSq b (P.avRs - 1))) := by
    refine Finset.sum_congr rfl fun i hi => ?_
    have hi := Finset.mem_range.1 hi
    rw [h9, hof.weight, ← Basis.ortho_eq]
    simp [hi]
  rw [hsum]
  ring

/-- The indicator ignores scalars that are a polynomial of degree below `row_size - 1` in the advection direction. -/
theorem smooth_ignored (hof : bs.IsOf b) (hb : b.Exact deg) (hdeg : 2 * b.n ≤ deg + 3) (hr : 2 ≤ P.avRs ∧ P.avRs ≤ b.n) (nd : Nat) (s : Nat → ℝ) (p : Polynomial ℝ) (hp : p.natDegree < P.avRs - 1) (hs : ∀ i < bs.n, s (nd + 9 + i) = p.eval (b.node i)) {orth : List ℝ}
    (ho : (List.range b.n).mapM (fun i => Basis.orthogonal b (P.avRs - 1) i) = some orth) : proj bs nd (fun i => orth.getD i 0) s = 0 := by
  rw [orth_list hr] at ho
  obtain rfl := Option.some.inj ho
  rw [← proj_smooth hof hb hdeg hr nd s p hp hs, proj_eq, proj_eq]
  refine Finset.sum_congr rfl fun i hi => ?_
  have hi : i < b.n := by rw [← hof.n]; exact Finset.mem_range.1 hi
  simp [hi]

/-! ## Uniform flow -/

/-- Forcing in equilibrium (`[a, |a|, √|a|, √|a|]` everywhere) is a fixed point of `diffuse_art_visc`. -/
theorem forcing_fixed (hof : bs.IsOf b) (hb : b.Exact deg) (hn : 0 < bs.n) (hdeg : b.n ≤ deg + 1) (hm : m.Ok bs) (hN : Sealed bs m N) {T : ℝ} (hT : 0 < T) {a : ℝ} {di nc : Nat} (htss : ∀ w e q, 0 ≤ tssD w e q)
    (h0 : ∀ e ∈ m.elems, ∀ q < bs.n ^ m.nd, w.state e (m.nd + 5, q) = a ∧ w.state e (m.nd + 6, q) = |a| ∧ w.state e (m.nd + 7, q) = √|a| ∧ w.state e (m.nd + 8, q) = √|a|) :
    ∃ w', diffuse mu kappa bs m tssD T sr di nc w = some w' ∧ ∀ e ∈ m.elems, ∀ q < bs.n ^ m.nd, ∀ v, v ≠ m.nd + 2 → w'.state e (v, q) = w.state e (v, q) := by
  obtain ⟨w', h⟩ : ∃ w', diffuse mu kappa bs m tssD T sr di nc w = some w' := foldlM_total (fun w i => smoothStep_total (bs := bs) (m := m) (sr := sr) T nc w i) _ _
  refine ⟨w', h, fun e he q hq v hv => ?_⟩
  have hw : DiffReady bs m a w := ⟨fun e he q hq => (h0 e he q hq).1, fun e he q hq => (h0 e he q hq).2.1, fun e he q hq i hi => by
    obtain ⟨_, _, h3, h4⟩ := h0 e he q hq
    rcases i with _ | _ | i
    · exact h3
    · exact h4
    · omega⟩
  rw [diffuse_uniform hof hb hn hdeg hm hN hT htss hw h e he q hq, setTss, mapPoints_at _ _ he hq, if_neg hv]

/-- In uniform flow no artificial viscosity arises: with the indicator at rest and walls that fit the flow, the update succeeds, the bulk artificial viscosity becomes zero everywhere and the indicator stays at rest. -/
theorem uniform_none (hof : bs.IsOf b) (hb : b.Exact deg) (hn : 0 < bs.n) (hdeg : 2 * b.n ≤ deg + 3) (hm : m.Ok bs) (hN : Sealed bs m N) (hr : 2 ≤ P.avRs ∧ P.avRs ≤ b.n) (hL : 0 < P.length) (hd : 0 < P.diffRatio) (hu : 0 < P.usMax)
    (htA : ∀ w e q, 0 ≤ tssA w e q) (htD : ∀ w e q, 0 ≤ tssD w e q) {fs : Nat → ℝ} (hfs : UniformFlow bs m fs w) (hrest : Rest bs m w) (hwl : WallsFit bs m fs bc) :
    ∃ w' r, update mu kappa b bs m nodes P sr bc tssA tssD w = some (w', r) ∧ UniformFlow bs m fs w' ∧ Rest bs m w' ∧ ∀ e ∈ m.elems, ∀ q < bs.n ^ m.nd, w'.state e (m.nd + 3, q) = 0 := by
  have hpos : ∀ e ∈ m.elems, ∀ q < bs.n ^ m.nd, 0 < w.state e (m.nd, q) * w.state e (m.nd + 1, q) := by
    intro e he q hq
    rw [hfs.state e he q hq _ (by omega), hfs.state e he q hq _ (by omega)]
    exact mul_pos hfs.mass hfs.energy
  obtain ⟨wf, h1, hdef⟩ := defined (mu := mu) (kappa := kappa) (nodes := nodes) (P := P) (sr := sr) (bc := bc) (tssA := tssA) (tssD := tssD) hm hr hpos
  have hkey : ∀ e ∈ m.elems, ∀ q < bs.n ^ m.nd, ∀ v, m.nd + 5 ≤ v → wf.state e (v, q) = w.state e (v, q) := by
    have h := h1
    rw [forcing] at h
    obtain ⟨w1, g1, g2⟩ := Option.bind_eq_some_iff.1 h
    dsimp only at g2
    obtain ⟨w2, g3, g4⟩ := Option.bind_eq_some_iff.1 g2
    obtain ⟨orth, g5, g6⟩ := Option.bind_eq_some_iff.1 g4
    rw [scaleDown] at g1
    split at g1
    swap
    · cases g1
    obtain rfl := Option.some.inj g1
    have hpts : ∀ e ∈ m.elems, ∀ q < bs.n ^ m.nd, ∀ v, (setTss bs m tssA (refresh mu kappa bs m (mapPoints bs m (fun _ _ s v => if v < m.nd then s v / scaleOf m.nd s else s v) w))).state e (v, q) =
        if v = m.nd + 2 then tssA (refresh mu kappa bs m (mapPoints bs m (fun _ _ s v => if v < m.nd then s v / scaleOf m.nd s else s v) w)) e q
        else if v < m.nd then fs v / √(2 * fs m.nd * fs (m.nd + 1)) else w.state e (v, q) := by
      intro e he q hq v
      rw [setTss, mapPoints_at _ _ he hq]
      split
      · rfl
      · beta_reduce
        rw [refresh_state hm, mapPoints_at _ _ he hq]
        split
        · next h' => beta_reduce; rw [scaleOf, hfs.state e he q hq v (by omega), hfs.state e he q hq m.nd (by omega), hfs.state e he q hq (m.nd + 1) (by omega)]
        · rfl
    set w3 := setTss bs m tssA (refresh mu kappa bs m (mapPoints bs m (fun _ _ s v => if v < m.nd then s v / scaleOf m.nd s else s v) w)) with hw3
    have hA : AdvReady bs m (fun v => fs v / √(2 * fs m.nd * fs (m.nd + 1))) w3 := by
      refine ⟨fun e he q hq v hv => ?_, fun e he q hq i hi => ?_, fun e he q hq => ?_⟩
      · rw [hpts e he q hq, if_neg (by omega), if_pos hv]
      · rw [hpts e he q hq, if_neg (by omega), if_neg (by omega)]
        exact hrest.adv e he q hq i hi
      · rw [hpts e he q hq, if_pos rfl]
        exact htA _ e q
    have hwl' : WallsFit bs m (fun v => fs v / √(2 * fs m.nd * fs (m.nd + 1))) bc := by
      intro c hc hg
      have := hwl c hc hg
      cases hbc : bc c with
      | default => trivial
      | nonpenetration =>
        rw [hbc] at this
        intro k hk
        have h0 := this k hk
        have h2 : ∀ i, fs i / √(2 * fs m.nd * fs (m.nd + 1)) * c.normal (i * bs.n ^ (m.nd - 1) + k) = fs i * c.normal (i * bs.n ^ (m.nd - 1) + k) * (√(2 * fs m.nd * fs (m.nd + 1)))⁻¹ := fun i => by ring
        rw [Finset.sum_congr rfl fun i _ => h2 i, ← Finset.sum_mul, h0, zero_mul]
      | noSlip =>
        rw [hbc] at this
        intro v hv
        simp only [this v hv, zero_div]
    have hS : Same bs m w3 w2 := foldlM_same (fun w w' h hw => AdvReady.same h hw) (fun w _ w' hw h => iter_uniform hof hb.distinct hn hm hN hL hwl' hw h) _ w3 w2 hA g3
    have hB : AdvReady bs m (fun v => fs v / √(2 * fs m.nd * fs (m.nd + 1))) w2 := AdvReady.same hS hA
    have hp : ∀ e ∈ m.elems, ∀ q < bs.n ^ m.nd, ∀ v, m.nd + 5 ≤ v → (project bs m (fun i => orth.getD i 0) w2).state e (v, q) = w.state e (v, q) := by
      intro e he q hq v hv
      rw [project, mapPoints_at _ _ he hq]
      split
      · next h' =>
        rw [smooth_ignored hof hb hdeg hr m.nd _ 1 (by rw [Polynomial.natDegree_one]; omega) (fun i hi => by rw [Polynomial.eval_one]; exact hB.adv e he q hq i hi) g5, h', hrest.forcing e he q hq 0 (by omega)]
        simp
      · beta_reduce
        rw [hS e he q hq, hpts e he q hq, if_neg (by omega), if_neg (by omega)]
    have hD : DiffReady bs m 0 (project bs m (fun i => orth.getD i 0) w2) := by
      refine ⟨fun e he q hq => ?_, fun e he q hq => ?_, fun e he q hq i hi => ?_⟩
      · rw [hp e he q hq _ (by omega)]; exact hrest.forcing e he q hq 0 (by omega)
      · rw [hp e he q hq _ (by omega), abs_zero]; exact hrest.forcing e he q hq 1 (by omega)
      · rw [hp e he q hq _ (by omega), abs_zero, Real.sqrt_zero, show m.nd + 7 + i = m.nd + 5 + (2 + i) by omega]; exact hrest.forcing e he q hq (2 + i) (by omega)
    have hT : 0 < P.diffTime := by rw [Params.diffTime, nReal]; positivity
    intro e he q hq v hv
    rw [diffuse_uniform hof hb hn (by omega) hm hN hT htD hD g6 e he q hq, setTss, mapPoints_at _ _ he hq, if_neg (by omega)]
    exact hp e he q hq v hv
  have hz : ∀ e ∈ m.elems, ∀ q < bs.n ^ m.nd, wf.state e (m.nd + 8, q) = 0 := fun e he q hq => by rw [hkey e he q hq _ (by omega)]; exact hrest.forcing e he q hq 3 (by omega)
  obtain ⟨⟨w', r⟩, hrun⟩ : ∃ p, update mu kappa b bs m nodes P sr bc tssA tssD w = some p := by
    refine Option.ne_none_iff_exists'.1 fun h => ?_
    obtain ⟨e, he, q, hq, h0⟩ := hdef.1 h
    rw [hz e he q hq, mul_zero, add_zero] at h0
    exact hu.ne' h0
  have hk := flow_kept hm hrun
  obtain ⟨wf', w1, k1, k2, rfl⟩ := update_split hm hrun
  rw [h1] at k1
  obtain rfl := Option.some.inj k1
  have hfin := finish_some k2
  have hup : ∀ e ∈ m.elems, ∀ q < bs.n ^ m.nd, ∀ v, m.nd + 5 ≤ v → (refresh mu kappa bs m w1).state e (v, q) = w.state e (v, q) := by
    intro e he q hq v hv
    rw [refresh_state hm, (hfin e he q hq).2.2.2 v (by omega) (by omega), hkey e he q hq v hv]
  refine ⟨_, r, hrun, ⟨hfs.mass, hfs.energy, fun e he q hq v hv => (hk e he q hq v (Or.inl hv)).trans (hfs.state e he q hq v hv)⟩, ⟨fun e he q hq i hi => ?_, fun e he q hq i hi => ?_⟩, fun e he q hq => ?_⟩
  · rw [hup e he q hq _ (by omega)]; exact hrest.adv e he q hq i hi
  · rw [hup e he q hq _ (by omega)]; exact hrest.forcing e he q hq i hi
  · rw [refresh_state hm, (hfin e he q hq).2.1, hz e he q hq, mul_zero, mul_zero, zero_div]

/-- The same after any number of updates, each with its own parameters: an impulse in the artificial viscosity is gone after the first. -/
theorem uniform_forever (hof : bs.IsOf b) (hb : b.Exact deg) (hn : 0 < bs.n) (hdeg : 2 * b.n ≤ deg + 3) (hm : m.Ok bs) (hN : Sealed bs m N) (htA : ∀ w e q, 0 ≤ tssA w e q) (htD : ∀ w e q, 0 ≤ tssD w e q)
    {fs : Nat → ℝ} (hwl : WallsFit bs m fs bc) : ∀ (Ps : List Params), (∀ P ∈ Ps, 2 ≤ P.avRs ∧ P.avRs ≤ b.n ∧ 0 < P.length ∧ 0 < P.diffRatio ∧ 0 < P.usMax) → ∀ w : World, UniformFlow bs m fs w → Rest bs m w →
    ∃ w', Ps.foldlM (fun w P => (update mu kappa b bs m nodes P sr bc tssA tssD w).map Prod.fst) w = some w' ∧ UniformFlow bs m fs w' ∧ Rest bs m w' ∧ (Ps ≠ [] → ∀ e ∈ m.elems, ∀ q < bs.n ^ m.nd, w'.state e (m.nd + 3, q) = 0)
  | [], _, w, h1, h2 => ⟨w, rfl, h1, h2, fun h => absurd rfl h⟩
  | P :: Ps, hP, w, h1, h2 => by
    obtain ⟨p1, p2, p3, p4, p5⟩ := hP P (by simp)
    obtain ⟨w1, r, hrun, u1, u2, u3⟩ := uniform_none (mu := mu) (kappa := kappa) (nodes := nodes) (P := P) (sr := sr) (bc := bc) hof hb hn hdeg hm hN ⟨p1, p2⟩ p3 p4 p5 htA htD h1 h2 hwl
    obtain ⟨w2, hrun2, v1, v2, v3⟩ := uniform_forever hof hb hn hdeg hm hN htA htD hwl Ps (fun P h => hP P (by simp [h])) w1 u1 u2
    refine ⟨w2, ?_, v1, v2, fun _ => ?_⟩
    · rw [List.foldlM_cons, hrun]; exact hrun2
    · by_cases hps : Ps = []
      · subst hps
        cases hrun2
        exact u3
      · exact v3 hps

/-- On meshes of curved elements, with the metric that the solver computes. -/
theorem uniform_deformed {s : Shape} {X : Nat → Nat → MvPolynomial Nat ℝ} {mm : Nat} (hof : bs.IsOf b) (hb : GoodNodes b deg) (hm1 : 1 ≤ mm) (hmn : mm ≤ b.n) (hmd : (s.nd - 1) * (mm - 1) + b.n ≤ deg + 2) (hmr : s.refs ≠ [] → (s.nd - 1) * (mm - 1) ≤ b.n)
    (hm : s.kernel.Ok bs) (hX : InSpace s b mm X) (hK : Kinds s) (w0 : World) (hdeg : 2 * b.n ≤ deg + 3) (hr : 2 ≤ P.avRs ∧ P.avRs ≤ b.n) (hL : 0 < P.length) (hd : 0 < P.diffRatio) (hu : 0 < P.usMax)
    (htA : ∀ w e q, 0 ≤ tssA w e q) (htD : ∀ w e q, 0 ≤ tssD w e q) {fs : Nat → ℝ} (hfs : UniformFlow bs (s.calcJacobian b bs w0) fs w) (hrest : Rest bs (s.calcJacobian b bs w0) w) (hwl : WallsFit bs (s.calcJacobian b bs w0) fs bc) :
    ∃ w' r, update mu kappa b bs (s.calcJacobian b bs w0) nodes P sr bc tssA tssD w = some (w', r) ∧ ∀ e ∈ s.elems, ∀ q < b.n ^ s.nd, w'.state e (s.nd + 3, q) = 0 := by
  have h := uniform_none (mu := mu) (kappa := kappa) (nodes := nodes) (sr := sr) hof hb.exact (by rw [hof.n]; exact hb.pos) hdeg (metric_ok hof hb hmn hm hX w0) (metric_sealed hof hb hm1 hmn hmd hmr hm hX hK w0) hr hL hd hu htA htD hfs hrest hwl
  obtain ⟨w', r, h1, -, -, h4⟩ := h
  exact ⟨w', r, h1, fun e he q hq => h4 e he q (by rw [hof.n]; exact hq)⟩

end
end Hexed.ArtVisc
