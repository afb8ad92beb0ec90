import Mathlib.Data.Fintype.Basic
import Mathlib.Tactic.FinCases
import Mathlib.Tactic.IntervalCases
import Verif.Tecplot.Lemmas
set_option autoImplicit false
set_option linter.unusedVariables false

/-!
C100: what a Tecplot file shows.
-/

namespace Hexed.Tecplot

variable {α : Type}

/-- Every sequence of blocks becomes one complete zone for each block, in the order of the calls, with the coordinates and variables of the block at every node, the time of the file and the strand that belongs to its place in the sequence. -/
theorem blocks (nDim topo : Nat) (names : List (List Char)) (time : α) (bs : List (Nat × List α × List α))
    (h1 : 1 ≤ topo) (h3 : topo ≤ 3)
    (hl : ∀ b ∈ bs, nDim*b.1^topo ≤ b.2.1.length ∧ names.length*b.1^topo ≤ b.2.2.length) :
    ∃ f, writeBlocks bs (create nDim topo names time) = some f ∧ f.zones.length = bs.length ∧
      ∀ i b z, bs[i]? = some b → f.zones[i]? = some z → ShowsBlock nDim names.length topo time i b z := by
  obtain ⟨f, zs, he, hz, hlen, _, _, hsh⟩ := writeBlocks_shows bs (create nDim topo names time) h1 h3 rfl hl
  have hz' : f.zones = zs := by rw [hz]; rfl
  refine ⟨f, he, by rw [hz', hlen], ?_⟩
  intro i b z hb hz2
  rw [hz'] at hz2
  have := hsh i b z hb hz2
  simp only [create, Nat.zero_add] at this
  exact this

/-- A reader finds the coordinates and then the given names, if no name has a space or a comma, also after any blocks. -/
theorem columns_partial (nDim topo : Nat) (names : List (List Char)) (time : α) (bs : List (Nat × List α × List α))
    (hn : ∀ n ∈ names, ' ' ∉ n ∧ ',' ∉ n) (hne : 0 < nDim) (h1 : 1 ≤ topo) (h3 : topo ≤ 3)
    (hl : ∀ b ∈ bs, nDim*b.1^topo ≤ b.2.1.length ∧ names.length*b.1^topo ≤ b.2.2.length) :
    ∃ f, writeBlocks bs (create nDim topo names time) = some f ∧
      readNames f.names = ((List.range nDim).map fun i => "position".toList ++ (toString i).toList) ++ names := by
  obtain ⟨f, zs, he, _, _, hnm, _, _⟩ := writeBlocks_shows bs (create nDim topo names time) h1 h3 rfl hl
  refine ⟨f, he, ?_⟩
  have e : varList nDim names = ((((List.range nDim).map fun i => "position".toList ++ (toString i).toList) ++ names).flatMap fun n => ' ' :: n).drop 1 := by
    rw [varList, List.flatMap_append, List.flatMap_map]
    rfl
  rw [hnm]
  simp only [create]
  rw [e]
  refine split_flatMap _ ?_ ?_
  · intro h
    have := congrArg List.length h
    simp at this
    omega
  · intro n hmem
    rcases List.mem_append.mp hmem with hmem | hmem
    · obtain ⟨i, _, rfl⟩ := List.mem_map.mp hmem
      exact digits_plain i
    · exact hn n hmem

/-- A name with a space is two variables to a reader, so that the zones have fewer variables than the list. -/
theorem columns_refuted :
    ¬ ∀ (names : List (List Char)), (readNames (create (α := Nat) 1 1 names 0).names).length = 1 + names.length := by
  intro h
  have := h ["mach number".toList]
  revert this
  decide +kernel

/-- A zone of triangles is complete, and the corners of each cell have the coordinates and variables that were given for that triangle. -/
theorem triangles_shown (f : File α) (calls : List (List α × List α))
    (hl : ∀ c ∈ calls, f.nDim*3 ≤ c.1.length ∧ f.nVar*3 ≤ c.2.length) :
    ∃ f' z, triangles f calls.length calls = some f' ∧ f'.zones = f.zones ++ [z] ∧
      z.shape = .triangles (3*calls.length) calls.length ∧ z.Complete (f.nDim + f.nVar) ∧ z.time = some f.time ∧
      ∀ t call, calls[t]? = some call → ∀ c < 3, ∃ node, corner z t c = some node ∧
        (∀ d < f.nDim, valueAt z (d + 1) node = call.1[d*3 + c]?) ∧
        (∀ v < f.nVar, valueAt z (f.nDim + v + 1) node = call.2[v*3 + c]?) := by
  have len : ∀ w, 1 ≤ w → w ≤ f.nDim + f.nVar → ∀ c ∈ calls, (added f.nDim f.nVar 3 c.1 c.2 w).length = 3 :=
    fun w h1 h2 c hc => added_length (hl c hc).1 (hl c hc).2 h1 h2
  refine ⟨{f with iZone := f.iZone + 1, strandId := f.strandId + 1, zones := f.zones ++ [
    { name := "triangles".toList ++ (toString f.iZone).toList, shape := .triangles (3*calls.length) calls.length,
      data := fun w => [] ++ calls.flatMap fun c => added f.nDim f.nVar 3 c.1 c.2 w,
      map := List.range (3*calls.length), time := some f.time, strand := f.strandId }]}, _, ?_, rfl, rfl, ⟨?_, ?_, ?_, ?_, rfl⟩, rfl, ?_⟩
  · simp only [triangles, openZone]
    rw [writeEach_eq {f with iZone := f.iZone + 1, strandId := f.strandId + 1} calls _ hl]
    simp only [Option.bind_eq_bind, Option.bind_some, closeZone]
  · intro w h1 h2
    simp only [List.nil_append, Shape.nodes]
    exact flatMap_length _ 3 calls (len w h1 h2)
  · intro w hw
    simp only [List.nil_append, added_nil hw]
    simp
  · simp [Shape.entries]
  · intro i hi
    simpa [Shape.nodes] using hi
  · intro t call ht c hc
    have hlt : t < calls.length := by
      by_contra h
      rw [List.getElem?_eq_none (by omega)] at ht
      cases ht
    refine ⟨3*t + c, ?_, ?_, ?_⟩
    · simp only [corner]
      rw [List.getElem?_range (by omega)]
    · intro d hd
      simp only [valueAt, List.nil_append]
      rw [flatMap_get _ 3 calls (len (d + 1) (by omega) (by omega)) t c call hc ht, added_coord hd, take_drop_get hc]
    · intro v hv
      simp only [valueAt, List.nil_append]
      rw [flatMap_get _ 3 calls (len (f.nDim + v + 1) (by omega) (by omega)) t c call hc ht, added_var hv, take_drop_get hc]

/-- The picture of a triangulated geometry shows each of its triangles, with the right coordinates at each corner, and nothing else. -/
theorem geometry_shown (zero : α) (sims : List (Fin 3 → Fin 3 → α)) :
    ∃ f z, visualizeSimplices zero sims = some f ∧ f.zones = [z] ∧ z.shape = .triangles (3*sims.length) sims.length ∧
      z.Complete 3 ∧
      ∀ t sim, sims[t]? = some sim → ∀ c d : Fin 3, ∃ node, corner z t c = some node ∧
        valueAt z (d + 1) node = some (sim c d) := by
  obtain ⟨f, z, he, hz, hs, hc, _, hv⟩ := triangles_shown (create 3 2 [] zero) (sims.map fun s => (transposed s, [])) (by
    intro c hc
    obtain ⟨s, _, rfl⟩ := List.mem_map.mp hc
    exact ⟨by simp [create, transposed, List.finRange], by simp [create]⟩)
  simp only [List.length_map] at he hs
  refine ⟨f, z, he, by rw [hz]; rfl, hs, hc, ?_⟩
  intro t sim ht c d
  obtain ⟨node, hn, hcoord, _⟩ := hv t (transposed sim, []) (by simp [ht]) c c.isLt
  refine ⟨node, hn, ?_⟩
  rw [hcoord d d.isLt]
  fin_cases d <;> fin_cases c <;> rfl

/-- The nodes of line segments have the coordinates and variables that were given, the consecutive nodes of each segment are joined and nothing else is, if `write` is called once for each segment. -/
theorem lines_partial (zero : α) (f : File α) (row : Nat) (calls : List (List α × List α)) (hr : 1 ≤ row)
    (hl : ∀ c ∈ calls, f.nDim*row ≤ c.1.length ∧ f.nVar*row ≤ c.2.length) :
    ∃ f' z, lineSegments zero f calls.length row calls = some f' ∧ f'.zones = f.zones ++ [z] ∧
      z.time = some f.time ∧ z.shape.nodes = row*calls.length ∧
      z.map.length = 2*((row - 1)*calls.length) ∧
      (z.Complete (f.nDim + f.nVar) ↔ calls = [] ∨ row = 2) ∧
      ∀ s call, calls[s]? = some call →
        (∀ i < row, (∀ d < f.nDim, valueAt z (d + 1) (row*s + i) = call.1[d*row + i]?) ∧
          (∀ v < f.nVar, valueAt z (f.nDim + v + 1) (row*s + i) = call.2[v*row + i]?)) ∧
        (∀ e, e + 1 < row → z.map[2*((row - 1)*s + e)]? = some (row*s + e) ∧
          z.map[2*((row - 1)*s + e) + 1]? = some (row*s + e + 1)) := by
  obtain ⟨p, hp, hpv, _⟩ := storeSegs_spec (nSegs := calls.length) (row := row) (nv := f.nDim) (calls.map (·.1)) 0 (fun _ => zero) (by simp) (by
    intro a ha
    obtain ⟨c, hc, rfl⟩ := List.mem_map.mp ha
    exact (hl c hc).1)
  obtain ⟨v, hv, hvv, _⟩ := storeSegs_spec (nSegs := calls.length) (row := row) (nv := f.nVar) (calls.map (·.2)) 0 (fun _ => zero) (by simp) (by
    intro a ha
    obtain ⟨c, hc, rfl⟩ := List.mem_map.mp ha
    exact (hl c hc).2)
  have hlp : f.nDim*(row*calls.length) ≤ ((List.range (f.nDim*(row*calls.length))).map p).length := by simp
  have hlv : f.nVar*(row*calls.length) ≤ ((List.range (f.nVar*(row*calls.length))).map v).length := by simp
  have lm := lineMap_length calls.length row
  refine ⟨{f with iZone := f.iZone + 1, strandId := f.strandId + 1, zones := f.zones ++ [
    { name := "line_segments".toList ++ (toString f.iZone).toList, shape := .lines (row*calls.length) calls.length,
      data := fun w => [] ++ added f.nDim f.nVar (row*calls.length) ((List.range (f.nDim*(row*calls.length))).map p)
        ((List.range (f.nVar*(row*calls.length))).map v) w,
      map := lineMap calls.length row, time := some f.time, strand := f.strandId }]}, _, ?_, rfl, rfl, rfl, ?_, ⟨?_, ?_⟩, ?_⟩
  · simp only [lineSegments, openZone, hp, hv, Option.bind_eq_bind, Option.bind_some]
    rw [writeZone_eq {f with iZone := f.iZone + 1, strandId := f.strandId + 1} _ _ _ _ hlp hlv]
    simp only [Option.bind_some, closeZone]
  · simp only [lm, Nat.mul_assoc]
  · intro hc
    have := hc.map
    simp only [lm, Shape.entries] at this
    by_cases h0 : calls = []
    · exact Or.inl h0
    · right
      have hpos : 0 < calls.length := List.length_pos_iff.mpr h0
      have : 2*(row - 1) = 2 := Nat.eq_of_mul_eq_mul_right hpos this
      omega
  · intro h
    refine ⟨?_, ?_, ?_, ?_, rfl⟩
    · intro w h1 h2
      simp only [List.nil_append]
      exact added_length hlp hlv h1 h2
    · intro w hw
      simp only [List.nil_append]
      exact added_nil hw
    · simp only [lm, Shape.entries]
      rcases h with h | h
      · simp [h]
      · simp [h]
    · intro i hi
      exact lineMap_lt hi
  · intro s call hs
    have hlt : s < calls.length := by
      by_contra h
      rw [List.getElem?_eq_none (by omega)] at hs
      cases hs
    refine ⟨?_, fun e he => lineMap_get hlt he⟩
    intro i hi
    have hin : row*s + i < row*calls.length := by
      have := Nat.mul_le_mul_left row (show s + 1 ≤ calls.length from hlt)
      rw [Nat.mul_succ] at this
      omega
    have hpl : ∀ d, d*(row*calls.length) + (row*s + i) = place calls.length row d s i := by
      intro d; unfold place; ring
    constructor
    · intro d hd
      simp only [valueAt, List.nil_append]
      rw [added_coord hd, take_drop_get hin, hpl]
      have := hpv s call.1 (by simp [hs]) i hi d hd
      rw [Nat.zero_add] at this
      rw [this, List.getElem?_map, List.getElem?_range (place_lt hi hlt hd)]
      rfl
    · intro w hw
      simp only [valueAt, List.nil_append]
      rw [added_var hw, take_drop_get hin, hpl]
      have := hvv s call.2 (by simp [hs]) i hi w hw
      rw [Nat.zero_add] at this
      rw [this, List.getElem?_map, List.getElem?_range (place_lt hi hlt hw)]
      rfl

/-- Segments of more than two nodes, which are documented to be possible, make a zone whose node map is longer than declared. -/
theorem lines_refuted : ¬ ∀ (f : File Nat) (row : Nat) (calls : List (List Nat × List Nat)), 2 ≤ row →
    (∀ c ∈ calls, f.nDim*row ≤ c.1.length ∧ f.nVar*row ≤ c.2.length) →
    ∀ f', lineSegments 0 f calls.length row calls = some f' → ∀ z ∈ f'.zones.drop f.zones.length, z.Complete (f.nDim + f.nVar) := by
  intro h
  have hl : ∀ c ∈ [([0, 1, 2], ([] : List Nat))], (create 1 1 [] 0 : File Nat).nDim*3 ≤ c.1.length ∧ (create 1 1 [] 0 : File Nat).nVar*3 ≤ c.2.length := by
    intro c hc
    simp only [List.mem_cons, List.not_mem_nil, or_false] at hc
    subst hc
    exact ⟨by decide, by decide⟩
  obtain ⟨f', z, he, hz, _, _, _, hiff, _⟩ := lines_partial 0 (create 1 1 [] 0 : File Nat) 3 [([0, 1, 2], [])] (by omega) hl
  have hc := h (create 1 1 [] 0) 3 [([0, 1, 2], [])] (by omega) hl f' he z (by rw [hz]; simp)
  rcases hiff.mp hc with h | h
  · cases h
  · omega

/-- If the variables are the state (momentum, density, energy) of 1 to 3 dimensions, then the auxiliary data give the numbers of the coordinates, the momentum, the density and the energy in the variable list. -/
theorem roles_partial (nDim topo : Nat) (names : List (List Char)) (time : α) (h1 : 1 ≤ nDim) (h3 : nDim ≤ 3)
    (hlen : names.length = nDim + 2) (hn : ∀ n ∈ names, ' ' ∉ n ∧ ',' ∉ n) :
    let f := create nDim topo names time
    let column := fun role : List Char => (roleNumber f role).bind fun n => (readNames f.names)[n - 1]?
    (∀ d < nDim, column ("XYZ".toList.drop d |>.take 1) = some ("position".toList ++ (toString d).toList)) ∧
    (∀ d < nDim, column ("UVW".toList.drop d |>.take 1) = names[d]?) ∧
    column "Density".toList = names[nDim]? ∧ column "StagnationEnergy".toList = names[nDim + 1]? := by
  obtain ⟨f, he, hr⟩ := columns_partial nDim 1 names time [] hn (by omega) (by omega) (by omega) (by intro b hb; cases hb)
  simp only [writeBlocks, Option.some.injEq] at he
  subst he
  have hr' : readNames (varList nDim names) = ((List.range nDim).map fun i => "position".toList ++ (toString i).toList) ++ names := hr
  simp only [roleNumber, create, hr']
  obtain rfl | rfl | rfl : nDim = 1 ∨ nDim = 2 ∨ nDim = 3 := by omega
  all_goals
    refine ⟨?_, ?_, ?_, ?_⟩
    · intro d hd
      interval_cases d <;> rfl
    · intro d hd
      interval_cases d <;> simp [auxVars, axisName, velName, List.range_succ]
    · simp [auxVars, axisName, velName, List.range_succ]
    · simp [auxVars, axisName, velName, List.range_succ]

/-- The auxiliary data do not depend on the variables: in the picture of a geometry, which has only coordinates, they name variables that do not exist. -/
theorem roles_refuted (zero : α) : ∃ f, visualizeSimplices zero [fun _ _ => zero] = some f ∧
    ∃ n, roleNumber f "Density".toList = some n ∧ (readNames f.names).length < n := by
  refine ⟨_, rfl, 7, rfl, ?_⟩
  show (readNames (varList 3 [])).length < 7
  decide +kernel

end Hexed.Tecplot
