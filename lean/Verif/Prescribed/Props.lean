import Verif.Prescribed.Lemmas
import Mathlib.Tactic.NormNum
set_option autoImplicit false
set_option linter.unusedVariables false

/-!
# C98: boundary values given by a function
-/

namespace Hexed.Prescribed
noncomputable section

/-- `Function_bc` sets every point of the ghost state to the value of the function at the position and the inside state of that very point,
time 0 and the stored normal, and changes nothing else. -/
theorem function_value (f : Func) (bf bf' : Face) (h : (Bc.function f).applyState bf = some bf') :
    Value f bf 0 (stored bf) bf'.ghState ∧ bf' = { bf with ghState := bf'.ghState } := by
  simp only [Bc.applyState, Option.map_eq_some_iff] at h
  obtain ⟨g, h, rfl⟩ := h
  exact ⟨evalTo_value f bf _ g h, rfl⟩

/-- It never reads outside of the result if, and only if, the function returns enough values at every point. -/
theorem function_defined (f : Func) (bf : Face) :
    ((Bc.function f).applyState bf).isSome ↔
      ∀ q < bf.nq, bf.nv ≤ (f (at_ bf.pos bf.nq bf.nd q) 0 (at_ bf.inState bf.nq bf.nv q) (stored bf q)).length := by
  simp only [Bc.applyState, Option.isSome_map]
  exact evalTo_isSome f bf _

/-- For a function that uses neither time nor normal this is what is documented, at any time. The full claim would be this for every
function; it is false, see `normal_refuted` and `time_refuted`. -/
theorem function_partial (f : Func) (hf : ∀ p s t t' n n', f p t s n = f p t' s n') (bf bf' : Face)
    (h : (Bc.function f).applyState bf = some bf') (t : ℝ) : AsDocumented f bf t bf'.ghState := by
  intro n hn q hq v hv
  rw [hf _ _ t 0 (n q) (stored bf q)]
  exact (function_value f bf bf' h).1 q hq v hv

/-- Applying the state conditions of a solver applies to every connection its own condition. -/
theorem every_connection (bcs : Nat → Bc) (s s' : Sim) (h : exec bcs s .stateBcs = some s') :
    s'.time = s.time ∧ List.Forall₂ (fun c c' => c'.id = c.id ∧ c'.sn = c.sn ∧ (bcs c.sn).applyState c.face = some c'.face) s.cons s'.cons := by
  simp only [exec, Option.map_eq_some_iff] at h
  obtain ⟨l, h, rfl⟩ := h
  refine ⟨rfl, (mapM_forall₂ _ _ _ h).imp ?_⟩
  intro a b hab
  cases hf : (bcs a.sn).applyState a.face with
  | none => simp [hf] at hab
  | some bf => simp [hf] at hab; subst hab; exact ⟨rfl, rfl, rfl⟩

/-- `Copy` makes both sides equal; so do the flux conditions of all three, for every connection. -/
theorem copy_mirrors (bf bf' : Face) (h : Bc.copy.applyState bf = some bf') :
    Mirrors bf' ∧ bf' = { bf with ghState := bf'.ghState, ghFlux := bf'.ghFlux } := by
  simp only [Bc.applyState, Option.some.injEq] at h
  subst h
  refine ⟨fun i hi => ?_, rfl⟩
  simp only [copyState] at hi ⊢
  simp [copyTo_val, hi]

theorem flux_mirrors (bcs : Nat → Bc) (s s' : Sim) (h : exec bcs s .fluxBcs = some s') : ∀ c ∈ s'.cons, Mirrors c.face ∧
    ∃ c1 ∈ s.cons, c1.id = c.id ∧ c.face.inState = c1.face.inState ∧ c.face.inFlux = c1.face.inFlux := by
  intro c hc
  simp only [exec, Option.map_eq_some_iff] at h
  obtain ⟨l, h1, rfl⟩ := h
  obtain ⟨c1, h2, h3, h4, h5⟩ := overCons_some _ _ _ _ h1 c hc
  simp only [Option.some.injEq] at h5
  refine ⟨?_, c1, h2, h3.symm, by rw [← h5]; rfl, by rw [← h5]; rfl⟩
  rw [← h5]
  intro i hi
  simp only [Bc.fluxStep, Bc.applyFlux, copyState] at hi ⊢
  simp [copyTo_val, hi]

/-- `Cache_bc`: whatever happens after the flow was initialized, applying the condition gives the value that the function had at that
initialization, at the position and with the state and the normal of that moment. -/
theorem cache_value (bcs : Nat → Bc) (f : Func) (ins : Nat → Nat → ℝ) (post : List Op) (k : Nat) (hpost : ∀ op ∈ post, KeepsRecord k op)
    (s0 s : Sim) (h : run bcs (.init ins :: post ++ [.stateBcs]) s0 = some s) (c : Conn) (hc : c ∈ s.cons) (hk : c.id = k)
    (hb : bcs c.sn = .cache f) :
    ∃ c0 ∈ s0.cons, c0.id = k ∧ c0.sn = c.sn ∧
      Value f { c0.face with inState := ins k } 0 (stored c0.face) c.face.ghState ∧
      ((∀ op ∈ post, KeepsPlace op) → c.face.pos = c0.face.pos ∧ c.face.nd = c0.face.nd ∧ c.face.nv = c0.face.nv ∧ c.face.nq = c0.face.nq) ∧
      ∀ i < c.face.nv * c.face.nq, c.face.ghFlux i = c.face.inFlux i := by
  unfold run at h
  rw [List.cons_append, List.foldlM_cons, show (exec bcs s0 (.init ins) >>= fun s' => List.foldlM (exec bcs) s' (post ++ [.stateBcs])) =
    (exec bcs s0 (.init ins)).bind fun s' => List.foldlM (exec bcs) s' (post ++ [.stateBcs]) from rfl, Option.bind_eq_some_iff] at h
  obtain ⟨s1, h1, h⟩ := h
  rw [List.foldlM_append] at h
  obtain ⟨s2, h2, h⟩ := Option.bind_eq_some_iff.mp h
  rw [List.foldlM_cons] at h
  obtain ⟨s3, h3, h⟩ := Option.bind_eq_some_iff.mp h
  simp only [List.foldlM_nil] at h
  obtain rfl : s3 = s := by simpa using h
  -- after the initialization
  have i1 : ∀ d ∈ s1.cons, d.id = k → bcs d.sn = .cache f → ∃ c0 ∈ s0.cons, c0.id = k ∧ c0.sn = d.sn ∧ d.face.nd = c0.face.nd ∧
      d.face.nv = c0.face.nv ∧ d.face.nq = c0.face.nq ∧ d.face.pos = c0.face.pos ∧
      Value f { c0.face with inState := ins k } 0 (stored c0.face) d.face.cache := by
    intro d hd hdk hdb
    simp only [exec, Option.map_eq_some_iff] at h1
    obtain ⟨l, h1, rfl⟩ := h1
    obtain ⟨c1, a1, a2, a3, a4⟩ := overCons_some _ _ _ _ h1 d hd
    obtain ⟨c0, b1, rfl⟩ := List.mem_map.mp a1
    simp only at a2 a3 a4
    have hk0 : c0.id = k := by rw [← a2, hdk]
    rw [← a3, hdb] at a4
    have fr := initCache_frame _ _ _ a4
    simp only [Bc.initCache, Option.map_eq_some_iff] at a4
    obtain ⟨g, g1, g2⟩ := a4
    have v := evalTo_value _ _ _ _ g1
    refine ⟨c0, b1, hk0, a3.symm, by rw [fr], by rw [fr], by rw [fr], by rw [fr], ?_⟩
    rw [← g2]
    rw [hk0] at v
    exact v
  -- until the condition is applied
  have i2 : ∀ d ∈ s2.cons, d.id = k → (bcs d.sn = .cache f → ∃ c0 ∈ s0.cons, c0.id = k ∧ c0.sn = d.sn ∧ d.face.nd = c0.face.nd ∧
      d.face.nv = c0.face.nv ∧ d.face.nq = c0.face.nq ∧
      Value f { c0.face with inState := ins k } 0 (stored c0.face) d.face.cache ∧ ((∀ op ∈ post, KeepsPlace op) → d.face.pos = c0.face.pos)) := by
    refine run_inv bcs k (fun op => KeepsRecord k op ∧ ((∀ op ∈ post, KeepsPlace op) → KeepsPlace op)) _ ?_ post
      (fun op ho => ⟨hpost op ho, fun h => h op ho⟩) s1 s2 h2 ?_
    · intro op u u' hp he hu d hd hdk hdb
      obtain ⟨c1, e1, e2, e3, e4, e5, e6, e7, e8⟩ := exec_from bcs u u' op he k hp.1 d hd hdk
      obtain ⟨c0, r1, r2, r3, r4, r5, r6, r7, r8⟩ := hu c1 e1 e2 (by rw [← e3]; exact hdb)
      refine ⟨c0, r1, r2, by rw [r3, e3], by rw [e4, r4], by rw [e5, r5], by rw [e6, r6], ?_, fun hp' => by rw [e8 (hp.2 hp'), r8 hp']⟩
      intro q hq v hv
      simp only at hq hv ⊢
      rw [e7 _ (by rw [r5, r6]; exact idx_lt hv hq)]
      exact r7 q hq v hv
    · intro d hd hdk hdb
      obtain ⟨c0, r1, r2, r3, r4, r5, r6, r7, r8⟩ := i1 d hd hdk hdb
      exact ⟨c0, r1, r2, r3, r4, r5, r6, r8, fun _ => r7⟩
  -- the condition
  simp only [exec, Option.map_eq_some_iff] at h3
  obtain ⟨l, h3, rfl⟩ := h3
  obtain ⟨d, e1, e2, e3, e4⟩ := overCons_some _ _ _ _ h3 c hc
  rw [← e3, hb] at e4
  obtain ⟨c0, r1, r2, r3, r4, r5, r6, r7, r8⟩ := i2 d e1 (by rw [← e2, hk]) (by rw [← e3]; exact hb)
  simp only [Bc.applyState, Option.some.injEq] at e4
  refine ⟨c0, r1, r2, by rw [r3, e3], ?_, ?_, ?_⟩
  · rw [← e4]
    intro q hq v hv
    simp only at hq hv ⊢
    rw [copyTo_val, if_pos (by rw [r5, r6]; exact idx_lt hv hq)]
    exact r7 q hq v hv
  · intro hp
    rw [← e4]
    exact ⟨r8 hp, r4, r5, r6⟩
  · rw [← e4]
    intro i hi
    simp only at hi ⊢
    rw [copyTo_val, if_pos hi]

/-- For a function of position alone, `Cache_bc` gives what is documented, whatever happens after the initialization, as long as the mesh
does not move. The full claim would include flows that are read from a file instead of initialized; it is false, see `restart_refuted`. -/
theorem cache_partial (bcs : Nat → Bc) (f : Func) (hf : ∀ p t t' s s' n n', f p t s n = f p t' s' n') (ins : Nat → Nat → ℝ) (post : List Op)
    (k : Nat) (hpost : ∀ op ∈ post, KeepsRecord k op ∧ KeepsPlace op) (s0 s : Sim)
    (h : run bcs (.init ins :: post ++ [.stateBcs]) s0 = some s) (c : Conn) (hc : c ∈ s.cons) (hk : c.id = k) (hb : bcs c.sn = .cache f)
    (t : ℝ) : AsDocumented f c.face t c.face.ghState := by
  obtain ⟨c0, _, _, _, r1, r2, _⟩ := cache_value bcs f ins post k (fun op ho => (hpost op ho).1) s0 s h c hc hk hb
  obtain ⟨p1, p2, p3, p4⟩ := r2 fun op ho => (hpost op ho).2
  intro n hn q hq v hv
  have := r1 q (by simpa [p4] using hq) v (by simpa [p3] using hv)
  simp only at this
  rw [p1, p2, p4, hf _ t 0 _ (at_ (ins k) c0.face.nq c0.face.nv q) _ (stored c0.face q)]
  exact this

/-- A face with one point in one dimension. -/
def pointFace (sign : Bool) (nrml : ℝ) : Face :=
  ⟨1, 3, 1, sign, fun i => if i = 0 then 0 else 1, fun _ => 0, fun _ => 0, fun _ => 0, fun _ => 0, fun _ => nrml, fun _ => 5⟩

/-- Mass flow 1 into the domain. -/
def inflow : Func := fun _ _ _ n => [n.headD 0, 1, 10]

/-- A flow that gets denser with time. -/
def ramp : Func := fun _ t _ _ => [0, 1 + t, 10]

/-- The density is the position. -/
def inPlace : Func := fun p _ _ _ => [0, p.headD 0, 10]

theorem at_one (a : Nat → ℝ) (q : Nat) : at_ a 1 1 q = [a q] := by simp [at_]

theorem pointFace_normal (sign : Bool) (nrml : ℝ) (hn : 0 < nrml) (q : Nat) : IsNormal (pointFace sign nrml) q [if sign then -1 else 1] := by
  refine ⟨rfl, by cases sign <;> simp, 1 / nrml, by positivity, ?_⟩
  intro i hi
  have : i = 0 := by simp only [pointFace] at hi; omega
  subst this
  have := hn.ne'
  cases sign <;> simp [pointFace, this]

theorem inflow_value (sign : Bool) (nrml : ℝ) (bf' : Face) (h : (Bc.function inflow).applyState (pointFace sign nrml) = some bf') :
    bf'.ghState 0 = nrml := by
  have := (function_value _ _ _ h).1 0 (by simp [pointFace]) 0 (by simp [pointFace])
  simp only [stored, pointFace, at_one, inflow] at this
  simpa using this.symm

/-- The normal is documented to be a unit vector into the domain, but `Function_bc` passes the stored one. At an upper face it has the
opposite direction: a function that prescribes inflow gets outflow. At a face of any other size than 1 it has the wrong length. -/
theorem normal_refuted :
    (∃ bf', (Bc.function inflow).applyState (pointFace true 1) = some bf' ∧ ¬AsDocumented inflow (pointFace true 1) 0 bf'.ghState ∧
      bf'.ghState 0 = 1 ∧ ∀ n, IsNormal (pointFace true 1) 0 n → n = [-1]) ∧
    ∃ bf', (Bc.function inflow).applyState (pointFace false 2) = some bf' ∧ ¬AsDocumented inflow (pointFace false 2) 0 bf'.ghState := by
  have key : ∀ sign nrml, 0 < nrml → ∃ bf', (Bc.function inflow).applyState (pointFace sign nrml) = some bf' ∧
      bf'.ghState 0 = nrml ∧ (nrml ≠ (if sign then -1 else 1) → ¬AsDocumented inflow (pointFace sign nrml) 0 bf'.ghState) := by
    intro sign nrml hn
    have hs := (function_defined inflow (pointFace sign nrml)).mpr (by intro q _; simp [inflow, pointFace])
    obtain ⟨bf', h⟩ := Option.isSome_iff_exists.mp hs
    have h0 := inflow_value sign nrml bf' h
    refine ⟨bf', h, h0, fun hne hd => ?_⟩
    have := hd (fun _ => [if sign then -1 else 1]) (fun q _ => pointFace_normal sign nrml hn q) 0 (by simp [pointFace]) 0 (by simp [pointFace])
    simp only [inflow] at this
    simp only [pointFace, Nat.zero_mul, Nat.zero_add, h0] at this
    simp at this
    exact hne (by rw [← this])
  obtain ⟨b1, h1, h2, h3⟩ := key true 1 (by norm_num)
  obtain ⟨b2, h4, h5, h6⟩ := key false 2 (by norm_num)
  refine ⟨⟨b1, h1, h3 (by norm_num), h2, ?_⟩, b2, h4, h6 (by norm_num)⟩
  intro n ⟨n1, n2, c, n3, n4⟩
  match n, n1 with
  | [x], _ =>
    have := n4 0 (by simp [pointFace])
    simp [pointFace] at this n2
    have hx : x < 0 := by rw [this]; linarith
    rcases mul_self_eq_one_iff.mp n2 with h | h
    · rw [h] at hx; norm_num at hx
    · rw [h]

/-- The function is documented to be evaluated in every stage, but always with time 0: when the flow is at time 2, the ghost state is still that
of the beginning. -/
theorem time_refuted : ∃ s, run (fun _ => .function ramp) [.advance 2, .stateBcs] ⟨[⟨0, 0, pointFace false 1⟩], 0⟩ = some s ∧ s.time = 2 ∧
    ∃ c ∈ s.cons, c.face.ghState 1 = 1 ∧ ¬AsDocumented ramp c.face s.time c.face.ghState := by
  have hs := (function_defined ramp (pointFace false 1)).mpr (by intro q _; simp [ramp, pointFace])
  obtain ⟨bf', h⟩ := Option.isSome_iff_exists.mp hs
  have hv := function_value _ _ _ h
  have h1 : bf'.ghState 1 = 1 := by
    have := hv.1 0 (by simp [pointFace]) 1 (by simp [pointFace])
    simp [pointFace, ramp] at this
    exact this.symm
  refine ⟨⟨[⟨0, 0, bf'⟩], 2⟩, ?_, rfl, _, List.mem_singleton.mpr rfl, h1, ?_⟩
  · simp [run, exec, overCons, h]
  · intro hd
    have hn : ∀ q < bf'.nq, IsNormal bf' q [1] := by
      intro q _
      have := pointFace_normal false 1 (by norm_num) q
      rw [hv.2]
      exact this
    have := hd (fun _ => [1]) hn 0 (by rw [hv.2]; simp [pointFace]) 1 (by rw [hv.2]; simp [pointFace])
    have hq : bf'.nq = 1 := by rw [hv.2]; rfl
    simp only [hq] at this
    simp only [Nat.one_mul, Nat.add_zero, h1, ramp] at this
    norm_num at this

/-- If the flow is read from a file instead of initialized, or the connection is made after the initialization, the ghost state is zero, even
the density, and not the value of the function. -/
theorem restart_refuted (ops : List Op) (hops : ops = [.readState, .stateBcs] ∨ ops = [.stateBcs]) (s0 : Sim) (hs0 : s0.cons = []) :
    ∃ s, run (fun _ => .cache inPlace) (.connect ⟨0, 0, pointFace false 1⟩ :: ops) s0 = some s ∧
      ∃ c ∈ s.cons, (∀ v < 3, c.face.ghState v = 0) ∧ ∀ t, ¬AsDocumented inPlace c.face t c.face.ghState := by
  obtain ⟨cons, time⟩ := s0
  simp only at hs0
  subst hs0
  let bf : Face := { pointFace false 1 with ghState := copyTo 3 (fun _ => 0) (fun _ => 0), ghFlux := copyTo 3 (fun _ => 0) (fun _ => 0) }
  refine ⟨⟨[⟨0, 0, bf⟩], time⟩, ?_, ⟨0, 0, bf⟩, List.mem_singleton.mpr rfl, ?_, ?_⟩
  · rcases hops with rfl | rfl <;> rfl
  · intro v hv
    show copyTo 3 (fun _ => 0) (fun _ => 0) v = (0 : ℝ)
    rw [copyTo_val, if_pos hv]
  · intro t hd
    have := hd (fun _ => [1]) (fun q _ => pointFace_normal false 1 (by norm_num) q) 0 (by simp [bf, pointFace]) 1 (by simp [bf, pointFace])
    simp [bf, pointFace, copyTo_val, inPlace, at_] at this

end
end Hexed.Prescribed
