import Verif.Setup.Props
import Verif.Pde.Visc
import Verif.Tree.Props
set_option autoImplicit false
set_option linter.unusedVariables false

/-!
# C84: a case is set up as the input file says — faces of the domain, transport models, domain, start of the flood fill, element variables
-/

namespace Hexed.Setup
open Hexed.Pde Hexed.Force
noncomputable section

/-- C84: each face of the root of the mesh gets the boundary condition that the variable with the indices of the face names. -/
theorem extremal_exact (nd : Nat) (s own : Space) (bcs : List Bc) (h : makeExtremalBcs nd s own = some bcs) :
    bcs.length = 2 * nd ∧ ∀ d < nd, ∀ sign < 2, ∃ name b, s.str (indexed "extremal_bc" d sign) = some name ∧ makeBc nd s own name = some b ∧ bcs[rootBc d sign]? = some b := by
  have key : ∀ n bcs, (List.range n).foldlM (fun bcs i_dim => (List.range 2).foldlM (fun (bcs : List Bc) sign =>
      (s.str (indexed "extremal_bc" i_dim sign)).bind fun name => (makeBc nd s own name).map fun bc => bcs ++ [bc]) bcs) [] = some bcs →
      bcs.length = 2 * n ∧ ∀ d < n, ∀ sign < 2, ∃ name b, s.str (indexed "extremal_bc" d sign) = some name ∧ makeBc nd s own name = some b ∧ bcs[rootBc d sign]? = some b := by
    intro n
    induction n with
    | zero => intro bcs h; simp at h; subst h; simp
    | succ n ih =>
      intro bcs h
      rw [List.range_succ (n := n), List.foldlM_append] at h
      obtain ⟨pre, hp, h⟩ := Option.bind_eq_some_iff.1 h
      obtain ⟨hl, hi⟩ := ih pre hp
      have h2 : List.range 2 = [0, 1] := rfl
      simp only [List.foldlM_cons, List.foldlM_nil, h2] at h
      rcases hn1 : s.str (indexed "extremal_bc" n 0) with _ | nm1
      · simp [hn1] at h
      rcases hb1 : makeBc nd s own nm1 with _ | b1
      · simp [hn1, hb1] at h
      rcases hn2 : s.str (indexed "extremal_bc" n 1) with _ | nm2
      · simp [hn1, hb1, hn2] at h
      rcases hb2 : makeBc nd s own nm2 with _ | b2
      · simp [hn1, hb1, hn2, hb2] at h
      simp only [hn1, hb1, hn2, hb2, Option.bind_some, Option.map_some] at h
      obtain rfl : pre ++ [b1] ++ [b2] = bcs := Option.some.inj h
      refine ⟨by simp [hl]; omega, fun d hd sign hs => ?_⟩
      rcases Nat.lt_succ_iff_lt_or_eq.1 hd with hd | rfl
      · obtain ⟨nm, b, g1, g2, g3⟩ := hi d hd sign hs
        refine ⟨nm, b, g1, g2, ?_⟩
        have : rootBc d sign < pre.length := by rw [hl, rootBc]; omega
        rw [List.append_assoc, List.getElem?_append_left this, g3]
      · rcases (by omega : sign = 0 ∨ sign = 1) with rfl | rfl
        · refine ⟨nm1, b1, hn1, hb1, ?_⟩
          rw [List.append_assoc, List.getElem?_append_right (by rw [hl, rootBc]; omega)]
          simp [hl, rootBc]
        · refine ⟨nm2, b2, hn2, hb2, ?_⟩
          rw [List.append_assoc, List.getElem?_append_right (by rw [hl, rootBc]; omega)]
          have : rootBc d 1 - pre.length = 1 := by rw [hl, rootBc]; omega
          rw [this]; rfl
  exact key nd bcs h

/-! ## Transport -/

/-- C84: a model that defines nothing has no transport: its coefficient is zero at every temperature. -/
theorem inviscid_exact (own outer : Space) (sqrt_temp : ℝ) : ∃ m, transport [] own outer = .ok m ∧ m.coefficient sqrt_temp = 0 := by
  refine ⟨_, rfl, ?_⟩
  simp [Transport.coefficient, Transport.inviscid]

/-- C84: a model that defines `ref_value`, `ref_temperature` and `offset` is Sutherland's law with these parameters; at the reference temperature it is the reference value. -/
theorem sutherland_exact (names : List (List Char)) (hn : names ≠ []) (own outer : Space) (mu T0 S : ℝ) (h1 : own.Is "ref_value" mu) (h2 : own.Is "ref_temperature" T0) (h3 : own.Is "offset" S) (hT : 0 < T0) (hS : 0 ≤ S) :
    ∃ m, transport names own outer = .ok m ∧ (∀ T, 0 ≤ T → m.coefficient (√T) = mu * (T / T0) ^ (3 / 2 : ℝ) * (T0 + S) / (T + S)) ∧ m.coefficient (√T0) = mu := by
  have hu : ∀ {x : String} {v : ℝ}, own.Is x v → (own.under outer).num x = some v := fun {x v} h => by
    rw [num_some, Space.Is, Space.under, h]; rfl
  refine ⟨Transport.sutherland mu T0 S, ?_, fun T hT' => sutherland_law mu T0 S T hT hT', sutherland_reference mu T0 S hT hS⟩
  rw [transport, if_neg hn, if_pos (has_of_is h3), hu h1, hu h2, hu h3]

/-- C84 is false of parameters that a model does not define: they are taken from a variable of the same name elsewhere in the case. -/
theorem transport_outer_refuted (mu T0 S : ℝ) : ∃ (own outer : Space) (m : Transport), own.Lacks "ref_value" ∧ outer.Is "ref_value" mu ∧
    transport ["ref_temperature".toList, "offset".toList] own outer = .ok m ∧ m = Transport.sutherland mu T0 S := by
  refine ⟨fun x => if x = "ref_temperature" then some (.num T0) else if x = "offset" then some (.num S) else none, fun x => if x = "ref_value" then some (.num mu) else none, _, rfl, rfl, ?_, rfl⟩
  have hu : ∀ (own outer : Space) (x : String) (v : ℝ), own.under outer x = some (.num v) → (own.under outer).num x = some v := fun own outer x v h => num_some.2 h
  rw [transport, if_neg (by simp), if_pos (by rfl), hu _ _ "ref_value" mu rfl, hu _ _ "ref_temperature" T0 rfl, hu _ _ "offset" S rfl]

/-- C84 is false of other models: the message of the exception is undefined behaviour. -/
theorem transport_bad_refuted (names : List (List Char)) (hn : names ≠ []) (own outer : Space) (h : own.Lacks "offset") : transport names own outer = .ub := by
  rw [transport, if_neg hn, if_neg (by rw [has_false.2 h]; simp)]

/-- C84 is false of the documented model `{sutherland}`: the flow is inviscid. Nor is it consistent: surfaces get the boundary condition of a viscous flow. -/
theorem transport_doc_refuted (own outer : Space) : ∃ names exprs, Structured.make "sutherland".toList = .ok names exprs ∧ transport names own outer = .ok Transport.inviscid ∧
    surfaceBc "auto" "sutherland" = "no_slip" :=
  ⟨[], [], by decide, rfl, by decide⟩

/-- C84: by default surfaces are no-slip walls in a case that has a viscosity model, and otherwise frictionless; a boundary condition that is named is kept. -/
theorem surface_exact (b v : String) : (b ≠ "auto" → surfaceBc b v = b) ∧ surfaceBc "auto" "" = "nonpenetration" ∧ (v ≠ "" → surfaceBc "auto" v = "no_slip") := by
  refine ⟨fun h => if_neg h, by decide, fun h => ?_⟩
  rw [surfaceBc, if_pos rfl, if_neg h]

/-! ## Domain -/

theorem le_maxCoeff (n : Nat) (f : Nat → ℝ) : ∀ d ≤ n, f d ≤ maxCoeff n f := by
  induction n with
  | zero => intro d hd; obtain rfl : d = 0 := by omega
            exact le_refl _
  | succ n ih =>
    intro d hd
    rcases Nat.le_succ_iff.1 hd with h | rfl
    · exact le_trans (ih d h) (le_max_left _ _)
    · exact le_max_right _ _

theorem maxCoeff_mem (n : Nat) (f : Nat → ℝ) : ∃ d ≤ n, maxCoeff n f = f d := by
  induction n with
  | zero => exact ⟨0, le_refl _, rfl⟩
  | succ n ih =>
    obtain ⟨d, h1, h2⟩ := ih
    rcases le_total (maxCoeff n f) (f (n + 1)) with h | h
    · exact ⟨n + 1, le_refl _, max_eq_right h⟩
    · exact ⟨d, by omega, by rw [maxCoeff, max_eq_left h, h2]⟩

theorem extremes_some {nd : Nat} {s : Space} {e : Nat → Nat → ℝ} (h : extremes nd s = some e) : ∀ d < nd, ∀ sign < 2, s.Is (indexed "mesh_extreme" d sign) (e d sign) := by
  intro d hd sign hs
  unfold extremes at h
  split_ifs at h with h0
  obtain rfl := Option.some.inj h
  have := List.all_eq_true.1 (List.all_eq_true.1 h0 d (List.mem_range.2 hd)) sign (List.mem_range.2 hs)
  obtain ⟨v, hv⟩ := Option.isSome_iff_exists.1 this
  simp only [hv, Option.getD_some]
  exact num_some.1 hv

theorem extremes_of {nd : Nat} {s : Space} {e : Nat → Nat → ℝ} (h : ∀ d < nd, ∀ sign < 2, s.Is (indexed "mesh_extreme" d sign) (e d sign)) :
    ∃ e', extremes nd s = some e' ∧ ∀ d < nd, ∀ sign < 2, e' d sign = e d sign := by
  refine ⟨_, if_pos ?_, fun d hd sign hs => ?_⟩
  · exact List.all_eq_true.2 fun d hd => List.all_eq_true.2 fun sign hs => by rw [num_some.2 (h d (List.mem_range.1 hd) sign (List.mem_range.1 hs))]; rfl
  · rw [num_some.2 (h d hd sign hs)]; rfl

theorem maxCoeff_congr (n : Nat) {f g : Nat → ℝ} (h : ∀ d ≤ n, f d = g d) : maxCoeff n f = maxCoeff n g := by
  induction n with
  | zero => exact h 0 (le_refl _)
  | succ n ih => rw [maxCoeff, maxCoeff, ih fun d hd => h d (by omega), h (n + 1) (le_refl _)]

/-- C84: for extremes `e` in `nd` + 1 dimensions that all have a positive distance, the mesh is the cube with the lower extremes as its corner and the largest distance as its side;
so it covers the box that is asked for. Otherwise the extremes are rejected. -/
theorem root_exact (nd : Nat) (s : Space) (e : Nat → Nat → ℝ) (h : ∀ d ≤ nd, ∀ sign < 2, s.Is (indexed "mesh_extreme" d sign) (e d sign)) :
    ((∀ d ≤ nd, e d 0 < e d 1) → ∃ sz o, root nd s = some (sz, o) ∧ (∀ d ≤ nd, o d = e d 0 ∧ e d 1 - e d 0 ≤ sz) ∧ (∃ d ≤ nd, sz = e d 1 - e d 0) ∧
      ∀ x, InBox nd e x → ∀ d ≤ nd, o d ≤ x d ∧ x d ≤ o d + sz) ∧
    ((∃ d ≤ nd, e d 1 ≤ e d 0) → root nd s = none) := by
  obtain ⟨e', h1, h2⟩ := extremes_of (nd := nd + 1) (s := s) (e := e) fun d hd => h d (by omega)
  constructor
  · intro hp
    have hp' : ∀ d ≤ nd, 0 < e' d 1 - e' d 0 := fun d hd => by rw [h2 d (by omega) 1 (by omega), h2 d (by omega) 0 (by omega)]; linarith [hp d hd]
    have hmax : ∀ d ≤ nd, e d 1 - e d 0 ≤ maxCoeff nd fun d => e' d 1 - e' d 0 := fun d hd => by
      have := le_maxCoeff nd (fun d => e' d 1 - e' d 0) d hd
      rwa [h2 d (by omega) 1 (by omega), h2 d (by omega) 0 (by omega)] at this
    refine ⟨maxCoeff nd fun d => e' d 1 - e' d 0, fun d => e' d 0, by rw [root, h1, Option.bind_some, if_pos hp'], fun d hd => ⟨h2 d (by omega) 0 (by omega), hmax d hd⟩, ?_, fun x hx d hd => ?_⟩
    · obtain ⟨d, hd, he⟩ := maxCoeff_mem nd fun d => e' d 1 - e' d 0
      exact ⟨d, hd, by rw [he, h2 d (by omega) 1 (by omega), h2 d (by omega) 0 (by omega)]⟩
    · have := hx d hd
      have hm := hmax d hd
      have h0 := h2 d (by omega) 0 (by omega)
      simp only [h0]
      constructor <;> linarith
  · rintro ⟨d, hd, hle⟩
    rw [root, h1, Option.bind_some, if_neg]
    intro hp
    have := hp d hd
    rw [h2 d (by omega) 1 (by omega), h2 d (by omega) 0 (by omega)] at this
    linarith

/-- C84: if one of the extremes is not set to a number, there is no mesh. -/
theorem root_missing (nd : Nat) (s : Space) (d sign : Nat) (hd : d ≤ nd) (hs : sign < 2) (h : ¬ ∃ x, s.Is (indexed "mesh_extreme" d sign) x) : root nd s = none := by
  rcases he : extremes (nd + 1) s with _ | e
  · rw [root, he]; rfl
  · exact absurd ⟨_, extremes_some he d (by omega) sign hs⟩ h

theorem root_position {nd : Nat} {t : Tree nd} (h : Tree.Reachable t) (sz : ℝ) (o : Fin nd → ℝ) : t.nominalSize sz = sz ∧ t.nominalPosition sz o = o := by
  have hr := h.root
  have h1 : t.nominalSize sz = sz := by rw [Tree.nominalSize, hr.rl0]; simp
  exact ⟨h1, funext fun d => by rw [Tree.nominalPosition, h1, hr.c0]; simp⟩

/-- C84 is false of the extent of the mesh unless the box is a cube: however the mesh has been refined, in each dimension that is not the longest some cell lies, in part, beyond the upper extreme. -/
theorem extent_refuted {nd : Nat} (s : Space) (e : Nat → Nat → ℝ) (h : ∀ d ≤ nd, ∀ sign < 2, s.Is (indexed "mesh_extreme" d sign) (e d sign)) (hp : ∀ d ≤ nd, e d 0 < e d 1)
    (d d' : Fin (nd + 1)) (hd : e d 1 - e d 0 < e d' 1 - e d' 0) {sz : ℝ} {o : Nat → ℝ} (hroot : root nd s = some (sz, o)) {t : Tree (nd + 1)} (ht : Tree.Reachable t) :
    ∃ p c, Tree.get p t = some c ∧ c.children = [] ∧ e d 1 < c.nominalPosition sz (fun i => o i) d + c.nominalSize sz := by
  obtain ⟨sz', o', h1, h2, _, _⟩ := (root_exact nd s e h).1 hp
  rw [hroot] at h1
  obtain ⟨rfl, rfl⟩ := Prod.mk.inj (Option.some.inj h1)
  have hd0 := (h2 d (by omega)).1
  have hsz : e d' 1 - e d' 0 ≤ sz := (h2 d' (by omega)).2
  have hpos : 0 < sz := lt_of_lt_of_le (by linarith [hp d (by omega)]) hsz
  obtain ⟨r1, r2⟩ := root_position ht sz (fun i : Fin (nd + 1) => o i)
  have hf := Tree.find_leaf_position ht (e := t) (pe := []) rfl sz (fun i => o i) fun i => o i + sz
  rcases hq : Tree.findLeafPos sz (fun i : Fin (nd + 1) => o i) (fun i => o i + sz) t with _ | p
  · refine absurd ?_ (hf.1.1 hq)
    intro i
    rw [r1, r2]
    exact ⟨by linarith, le_refl _⟩
  · obtain ⟨c, hc1, hc2, hc3⟩ := hf.2 p hq
    refine ⟨p, c, hc1, hc2, lt_of_lt_of_le ?_ (hc3 d).2⟩
    simp only [hd0]
    linarith

/-! ## Start of the flood fill -/

/-- C84: where the first coordinate is left at its default, the flood fill starts in a leaf that has the lower corner of the domain as its corner, provided that the tolerance is positive and
less than the relative size of the smallest cells. -/
theorem flood_default {nd : Nat} (s : Space) (e : Nat → Nat → ℝ) (h : ∀ d ≤ nd, ∀ sign < 2, s.Is (indexed "mesh_extreme" d sign) (e d sign)) (hp : ∀ d ≤ nd, e d 0 < e d 1)
    {sz : ℝ} {o : Nat → ℝ} (hroot : root nd s = some (sz, o)) {t : Tree (nd + 1)} (ht : Tree.Reachable t) (huge eps : ℝ) (he : 0 < eps) (he1 : eps < 1)
    (hsm : ∀ p c, Tree.get p t = some c → eps * sz < c.nominalSize sz) (start : Nat → ℝ) (hs : start 0 = huge) :
    ∃ c, Tree.get (floodCell sz (fun i => o i) (fun i => floodStart huge eps e start i) t) t = some c ∧ c.children = [] ∧ ∀ d : Fin (nd + 1), c.nominalPosition sz (fun i => o i) d = e d 0 := by
  obtain ⟨sz', o', h1, h2, _, _⟩ := (root_exact nd s e h).1 hp
  rw [hroot] at h1
  obtain ⟨rfl, rfl⟩ := Prod.mk.inj (Option.some.inj h1)
  obtain ⟨r1, r2⟩ := root_position ht sz (fun i : Fin (nd + 1) => o i)
  have hst : ∀ d : Fin (nd + 1), floodStart huge eps e start d = e d 0 + eps * (e d 1 - e d 0) := fun d => by rw [floodStart, if_pos hs]; ring
  have hb : ∀ d : Fin (nd + 1), 0 < eps * (e d 1 - e d 0) ∧ eps * (e d 1 - e d 0) ≤ eps * sz := fun d =>
    ⟨mul_pos he (by linarith [hp d (by omega)]), mul_le_mul_of_nonneg_left (h2 d (by omega)).2 he.le⟩
  have hsz : 0 < sz := lt_of_lt_of_le (by linarith [hp 0 (by omega)]) (h2 0 (by omega)).2
  have hf := Tree.find_leaf_position ht (e := t) (pe := []) rfl sz (fun i => o i) fun i => floodStart huge eps e start i
  rcases hq : Tree.findLeafPos sz (fun i : Fin (nd + 1) => o i) (fun i => floodStart huge eps e start i) t with _ | p
  · refine absurd ?_ (hf.1.1 hq)
    intro d
    have := hb d
    have ho := (h2 d (by omega)).1
    rw [r1, r2, hst]
    simp only [ho]
    constructor
    · linarith
    · nlinarith
  · obtain ⟨c, hc1, hc2, hc3⟩ := hf.2 p hq
    have hc1' : Tree.get p t = some c := hc1
    refine ⟨c, by rw [floodCell, hq, Option.getD_some]; exact hc1', hc2, fun d => ?_⟩
    have hcs : 0 < c.nominalSize sz := by rw [Tree.nominalSize]; positivity
    have hnn := Tree.nn_of_root ht.root hc1' d
    have hlt := (hc3 d).1
    rw [hst, Tree.nominalPosition, (h2 d (by omega)).1] at hlt
    have hz : (c.coords d : ℝ) < 1 := by
      have h3 : c.nominalSize sz * c.coords d < c.nominalSize sz * 1 := by linarith [(hb d).2, hsm p c hc1']
      exact lt_of_mul_lt_mul_left h3 hcs.le
    have hz' : c.coords d = 0 := by
      have : c.coords d < 1 := by exact_mod_cast hz
      omega
    rw [Tree.nominalPosition, hz', (h2 d (by omega)).1]
    simp

/-- C84: a start whose first coordinate is given is used as it is. -/
theorem flood_given (huge eps : ℝ) (e : Nat → Nat → ℝ) (start : Nat → ℝ) (h : start 0 ≠ huge) : floodStart huge eps e start = start := by
  funext d; rw [floodStart, if_neg h]

/-- C84 is false of a start of which only another coordinate is outside the domain: it is not replaced by the lower corner. In this mesh, the flood fill marks a leaf although the leaf at the lower
corner has been excluded. -/
theorem flood_refuted (huge eps : ℝ) (hh : 1 < huge) : ∃ (t : Tree 2) (c0 : Tree 2), Tree.Reachable t ∧ Tree.get [0, 0] t = some c0 ∧ c0.children = [] ∧ c0.status ≠ Tree.unprocessed ∧
    (∀ d : Fin 2, c0.nominalPosition (1 : ℝ) (fun _ => 0) d = 0) ∧
    ∃ t', Tree.step t (.floodFill (floodCell 1 (fun _ => 0) (fun i : Fin 2 => floodStart huge eps (fun _ i => i) (fun i => if i = 0 then 1 / 2 else huge) i) t) 1) = .ok t' ∧
      ∃ s s', Tree.get [2] t = some s ∧ Tree.get [2] t' = some s' ∧ s.children = [] ∧ s'.status ≠ s.status := by
  obtain ⟨t, ht⟩ : ∃ t, Tree.run Tree.c06Ops (Tree.new 2) = some t := ⟨_, rfl⟩
  have hre : Tree.Reachable t := Tree.reachable_run _ _ _ Tree.Reachable.new ht
  have ht' : t = _ := (Option.some.inj ht).symm
  have hst : (fun i : Fin 2 => floodStart huge eps (fun _ i => (i : ℝ)) (fun i => if i = 0 then 1 / 2 else huge) i) = fun i : Fin 2 => if (i : Nat) = 0 then 1 / 2 else huge :=
    funext fun i => by rw [floodStart, if_neg (by simp; linarith)]
  have hcell : floodCell (1 : ℝ) (fun _ => 0) (fun i : Fin 2 => floodStart huge eps (fun _ i => i) (fun i => if i = 0 then 1 / 2 else huge) i) t = [] := by
    rw [hst, floodCell, ((Tree.find_leaf_position hre (e := t) (pe := []) rfl (1 : ℝ) (fun _ => 0) fun i : Fin 2 => if (i : Nat) = 0 then 1 / 2 else huge).1.2 ?_)]
    · rfl
    · intro hall
      have := (hall 1).2
      obtain ⟨r1, r2⟩ := root_position hre 1 (fun _ => 0)
      rw [r1, r2] at this
      simp at this
      linarith
  obtain ⟨c0, hc0⟩ : ∃ c, Tree.get [0, 0] t = some c := ⟨_, by rw [ht']; rfl⟩
  have hc0' : c0 = _ := (Option.some.inj (hc0.symm.trans (by rw [ht']; rfl)))
  obtain ⟨t', h1, h2⟩ := Tree.flood_fill_any hre 1 (by decide) (p := []) (e := t) rfl
  refine ⟨t, c0, hre, hc0, by rw [hc0']; rfl, by rw [hc0']; decide, fun d => ?_, t', by rw [hcell]; exact h1, ?_⟩
  · rw [Tree.nominalPosition]
    have : c0.coords d = 0 := by rw [hc0']; fin_cases d <;> rfl
    rw [this]; simp
  · have hs : ∃ s, Tree.get [2] t = some s ∧ s.children = [] ∧ s.status = Tree.unprocessed ∧ s.rl = 1 ∧ s.coords 0 = 1 ∧ s.coords 1 = 0 :=
      ⟨_, by rw [ht']; rfl, rfl, rfl, rfl, rfl, rfl⟩
    obtain ⟨s, hs1, hs2, hs3, hs4, hs5, hs6⟩ := hs
    obtain ⟨e, he⟩ : ∃ e, Tree.get [0] t = some e := ⟨_, by rw [ht']; rfl⟩
    have he' : e = _ := (Option.some.inj (he.symm.trans (by rw [ht']; rfl)))
    have hee : e.status = Tree.unprocessed ∧ e.rl = 1 ∧ e.coords 0 = 0 ∧ e.coords 1 = 0 ∧ [0] ∈ Tree.floodStarts t := by
      rw [he', ht']; exact ⟨rfl, rfl, rfl, rfl, by decide⟩
    obtain ⟨k1, k2, k3, k4, k5⟩ := hee
    have hreach : Tree.FloodReach t ([] ++ [0]) [2] := by
      refine Tree.FloodReach.step (q := [0]) (Tree.FloodReach.start he k1) ?_ hs1 hs3
      refine ⟨e, s, he, hs1, hs2, 0, Or.inl ?_, ?_⟩
      · simp [Tree.hi, Tree.lo, k2, k3, hs4, hs5]
      · intro i hi0
        have : i = 1 := by omega
        subst this
        simp [Tree.hi, Tree.lo, k2, k4, hs4, hs6]
    have hgt : ∃ s', Tree.get [2] t' = some s' := by
      obtain ⟨t'', g1, _, g3, _⟩ := Tree.floodFill_spec 1 (by decide) [] t t hre.root rfl
      have : t'' = t' := by
        have := g1.symm.trans h1; simpa using this
      subst this
      obtain ⟨s', x, _⟩ := g3.get hs1
      exact ⟨s', x⟩
    obtain ⟨s', hs'⟩ := hgt
    refine ⟨s, s', hs1, hs', hs2, ?_⟩
    rw [(h2 [2] s s' hs1 hs').1 ⟨[0], k5, hreach⟩, hs3]
    decide

/-! ## Variables of elements -/

/-- C84: what refinement criteria can read of an element, and that no other variable changes. -/
theorem element_exact (s : Vars) (e : Elem) :
    element s e "is_extruded" = some (if e.in_tree then 0 else 1) ∧ element s e "ref_level" = some (e.refinement_level : ℝ) ∧ element s e "nom_sz" = some e.nominal_size ∧
    element s e "uncertainty" = some e.uncertainty ∧ element s e "snapping_problem" = some (if e.snapping_problem then 1 else 0) ∧
    (∀ d < 3, element s e (suffixed "center" d) = some ((∑ v ∈ Finset.range e.n_vertices, e.vertex v d) / e.n_vertices)) ∧
    ∀ x ∉ ["is_extruded", "ref_level", "nom_sz", "uncertainty", "snapping_problem", "center0", "center1", "center2"], element s e x = s x := by
  have nm : ∀ d < 3, suffixed "center" d ≠ "is_extruded" ∧ suffixed "center" d ≠ "ref_level" ∧ suffixed "center" d ≠ "nom_sz" ∧ suffixed "center" d ≠ "uncertainty" ∧ suffixed "center" d ≠ "snapping_problem" := by decide
  have c012 : suffixed "center" 0 = "center0" ∧ suffixed "center" 1 = "center1" ∧ suffixed "center" 2 = "center2" := by decide
  unfold element
  refine ⟨?_, ?_, ?_, ?_, ?_, fun d hd => ?_, fun x hx => ?_⟩
  · rw [Free.setVector_other fun i hi => (nm i hi).1.symm]; simp [Vars.assign]
  · rw [Free.setVector_other fun i hi => (nm i hi).2.1.symm]; simp [Vars.assign]
  · rw [Free.setVector_other fun i hi => (nm i hi).2.2.1.symm]; simp [Vars.assign]
  · rw [Free.setVector_other fun i hi => (nm i hi).2.2.2.1.symm]; simp [Vars.assign]
  · rw [Free.setVector_other fun i hi => (nm i hi).2.2.2.2.symm]; simp [Vars.assign]
  · rw [Free.setVector_at (by decide) hd, sumN_eq]
  · simp only [List.mem_cons, List.not_mem_nil, or_false, not_or] at hx
    obtain ⟨x1, x2, x3, x4, x5, x6, x7, x8⟩ := hx
    rw [Free.setVector_other]
    · simp [Vars.assign, x1, x2, x3, x4, x5]
    · intro i hi
      rcases (by omega : i = 0 ∨ i = 1 ∨ i = 2) with rfl | rfl | rfl
      · rw [c012.1]; exact x6
      · rw [c012.2.1]; exact x7
      · rw [c012.2.2]; exact x8

/-- C84 is false of the documented variable `is_def`: an expression that reads it reads a variable of the case, if there is one. -/
theorem element_doc_refuted (s : Vars) (e : Elem) : element s e "is_def" = s "is_def" := (element_exact s e).2.2.2.2.2.2 _ (by decide)

end
end Hexed.Setup
