import Verif.CaseMesh.Spec
import Mathlib.Tactic.IntervalCases
import Mathlib.Data.List.Basic
import Mathlib.Tactic.Linarith
import Mathlib.Tactic.Ring
set_option autoImplicit false
set_option linter.unusedVariables false

/-!
# The meshing of a case (C97)
-/

namespace Hexed.CaseMesh

theorem lower_eq (c : Char) : lower c = c.toLower := by
  unfold lower
  by_cases h : 65 ≤ c.toNat ∧ c.toNat ≤ 90
  · rw [if_pos h]
    obtain ⟨n, hn⟩ : ∃ n, c.toNat = n := ⟨_, rfl⟩
    have hc : c = Char.ofNat n := by rw [← hn, Char.ofNat_toNat]
    rw [hn] at h ⊢
    obtain ⟨h1, h2⟩ := h
    subst hc
    clear hn
    interval_cases n <;> decide
  · rw [if_neg h]
    unfold Char.toLower
    rw [dif_neg]
    rintro ⟨h1, h2⟩
    exact h ⟨h1, h2⟩

theorem lower_map (l : List Char) : l.map Char.toLower = l.map lower := List.map_congr_left fun c _ => (lower_eq c).symm

theorem rdot_split (stem ext : List Char) (h : '.' ∉ ext) : rdot (stem ++ '.' :: ext) = stem.length := by
  rw [rdot, if_pos (by simp)]
  have : (stem ++ '.' :: ext).reverse.idxOf '.' = ext.length := by
    rw [List.reverse_append, List.reverse_cons, List.append_assoc, List.idxOf_append_of_notMem (by simpa using h)]
    simp
  rw [this]
  simp

/-- A name with a dot is a stem, a dot and an extension without dots. -/
theorem split_dot (name : List Char) (h : '.' ∈ name) : ∃ stem ext : List Char, name = stem ++ '.' :: ext ∧ '.' ∉ ext := by
  induction name with
  | nil => cases h
  | cons c l ih =>
    by_cases hl : '.' ∈ l
    · obtain ⟨s, e, h1, h2⟩ := ih hl
      exact ⟨c :: s, e, by rw [h1]; rfl, h2⟩
    · rcases List.mem_cons.1 h with h | h
      · exact ⟨[], l, by rw [h]; rfl, hl⟩
      · exact absurd h hl

theorem ext_unique {s e s' e' : List Char} (h : s ++ '.' :: e = s' ++ '.' :: e') (he : '.' ∉ e) (he' : '.' ∉ e') : s = s' ∧ e = e' := by
  have hl : s.length = s'.length := by rw [← rdot_split s e he, h, rdot_split s' e' he']
  have := List.append_inj h hl
  exact ⟨this.1, (List.cons.inj this.2).2⟩

theorem segments_curve (t : Table) : IsCurve t (segments t) := by
  refine ⟨by simp [segments], ?_⟩
  intro i s h d hd
  simp only [segments, List.getElem?_map, Option.map_eq_some_iff] at h
  obtain ⟨j, h1, h2⟩ := h
  obtain ⟨_, rfl⟩ := List.getElem?_eq_some_iff.1 h1
  rw [← h2]
  simp

/-- A file that is read is what it stands for. -/
theorem read_ok (x : Files) (hnd : x.nd = 2 ∨ x.nd = 3) (name : List Char) (hlen : name.length < 4294967295) (g : Option Geom) (h : x.read name = .ok g) : ∃ g', g = some g' ∧ Means x name g' := by
  unfold Files.read at h
  by_cases hdot : '.' ∈ name
  swap
  · rw [if_pos (by simp [rdot, hdot]; omega)] at h
    cases h
  obtain ⟨stem, ext, rfl, he⟩ := split_dot name hdot
  simp only [rdot_split stem ext he] at h
  rw [if_neg (by simp)] at h
  rw [show (stem ++ '.' :: ext).drop (stem.length + 1) = ext by simp] at h
  split at h
  · cases h
  rename_i hp
  have hp : x.present (stem ++ '.' :: ext) = true := by simpa using hp
  split at h
  · rename_i hc
    have hf : HasFormat (stem ++ '.' :: ext) .csv := ⟨stem, ext, rfl, he, by rw [lower_map, hc]; decide⟩
    split at h
    · cases h
    rename_i hd
    have hd : x.nd = 2 := by simpa using hd
    cases ht : x.csv (stem ++ '.' :: ext) with
    | none => rw [ht] at h; cases h
    | some t =>
      rw [ht] at h
      simp only [Option.elim] at h
      split at h
      · cases h
      rename_i hcol
      split at h
      · cases h
      · injection h with h
        exact ⟨_, h.symm, hp, hd.symm, .inl ⟨hf, hd, t, ht, by omega, segments_curve t⟩⟩
  split at h
  · rename_i hc
    have hf : HasFormat (stem ++ '.' :: ext) .cad := ⟨stem, ext, rfl, he, by rcases hc.2 with hc | hc | hc | hc <;> rw [lower_map, hc] <;> decide⟩
    split at h
    · rename_i hd
      cases ht : x.cad2 (stem ++ '.' :: ext) with
      | none => rw [ht] at h; cases h
      | some t =>
        rw [ht] at h
        injection h with h
        exact ⟨_, h.symm, hp, hd.symm, .inr (.inl ⟨hf, hd, ht⟩)⟩
    split at h
    · rename_i hd
      cases ht : x.cad3 (stem ++ '.' :: ext) with
      | none => rw [ht] at h; cases h
      | some t =>
        rw [ht] at h
        injection h with h
        exact ⟨_, h.symm, hp, hd.symm, .inr (.inr (.inl ⟨hf, hd, ht⟩))⟩
    · omega
  split at h
  · rename_i hc
    have hf : HasFormat (stem ++ '.' :: ext) .stl := ⟨stem, ext, rfl, he, by rw [lower_map, hc.2]; decide⟩
    split at h
    · cases h
    rename_i hd
    have hd : x.nd = 3 := by simpa using hd
    cases ht : x.stl (stem ++ '.' :: ext) with
    | none => rw [ht] at h; cases h
    | some t =>
      rw [ht] at h
      injection h with h
      exact ⟨_, h.symm, hp, hd.symm, .inr (.inr (.inr ⟨hf, hd, ht⟩))⟩
  · cases h

theorem ofList_mem {e : List Char} {l : List String} (h : String.ofList e ∈ l) : ∃ s ∈ l, e = s.toList := ⟨_, h, by simp⟩

/-- A file that stands for something is read. -/
theorem ok_read (x : Files) (hocct : x.occt = true) (name : List Char) (g : Geom) (h : Means x name g) (hcols : ∀ t, x.csv name = some t → t.cols ≤ 2) : ∃ g', x.read name = .ok (some g') := by
  obtain ⟨hp, hnd, h⟩ := h
  have key : ∀ f, HasFormat name f → ∃ ext : List Char, ¬ name.length ≤ rdot name ∧ name.drop (rdot name + 1) = ext ∧ ∃ s ∈ f.extensions, ext.map lower = s.toList := by
    rintro f ⟨stem, ext, rfl, he, hm⟩
    rw [rdot_split stem ext he]
    exact ⟨ext, by simp, by simp, by rw [lower_map] at hm; exact ofList_mem hm⟩
  unfold Files.read
  rcases h with ⟨hf, hd, t, ht, h2, _⟩ | ⟨hf, hd, ht⟩ | ⟨hf, hd, ht⟩ | ⟨hf, hd, ht⟩
  · obtain ⟨ext, h3, h4, s, hs, h5⟩ := key _ hf
    simp only [Format.extensions, List.mem_singleton] at hs
    subst hs
    have := hcols t ht
    rw [if_neg h3, if_neg (by simp [hp])]
    simp only [h4, h5]
    rw [if_pos (by decide), if_neg (by simp [hd]), ht]
    simp only [Option.elim]
    rw [if_neg (by omega), if_neg (by omega)]
    exact ⟨_, rfl⟩
  · obtain ⟨ext, h3, h4, s, hs, h5⟩ := key _ hf
    rw [if_neg h3, if_neg (by simp [hp])]
    simp only [h4, h5]
    simp only [Format.extensions, List.mem_cons, List.not_mem_nil, or_false] at hs
    rcases hs with rfl | rfl | rfl | rfl <;> (rw [if_neg (by decide), if_pos ⟨hocct, by decide⟩, if_pos hd, ht]; exact ⟨_, rfl⟩)
  · obtain ⟨ext, h3, h4, s, hs, h5⟩ := key _ hf
    rw [if_neg h3, if_neg (by simp [hp])]
    simp only [h4, h5]
    simp only [Format.extensions, List.mem_cons, List.not_mem_nil, or_false] at hs
    rcases hs with rfl | rfl | rfl | rfl <;> (rw [if_neg (by decide), if_pos ⟨hocct, by decide⟩, if_neg (by omega), if_pos hd, ht]; exact ⟨_, rfl⟩)
  · obtain ⟨ext, h3, h4, s, hs, h5⟩ := key _ hf
    rw [if_neg h3, if_neg (by simp [hp])]
    simp only [h4, h5]
    simp only [Format.extensions, List.mem_singleton] at hs
    subst hs
    rw [if_neg (by decide), if_neg (fun h => absurd h.2 (by decide)), if_pos ⟨hocct, by decide⟩, if_neg (by omega), ht]
    exact ⟨_, rfl⟩

/-- The loop over the files. -/
theorem loop_ok (x : Files) (hnd : x.nd = 2 ∨ x.nd = 3) (k : Nat) (name : Nat → List Char) (hk : ∀ i < k, x.geom i = some (name i)) (he : x.geom k = none) (hlen : ∀ i < k, (name i).length < 4294967295) :
    ∀ n i, i + n = k → ∀ fuel, n < fuel → ∀ acc, ∃ o, x.loop fuel i acc = some o ∧ (∀ r, o = .ok r → ∃ l, r = acc ++ l ∧ l.length = n ∧ ∀ j g, l[j]? = some g → Means x (name (i + j)) g) ∧
      ((∀ j, i ≤ j → j < k → ∃ g, x.read (name j) = .ok (some g)) → ∃ r, o = .ok r) := by
  intro n
  induction n with
  | zero =>
    intro i hi fuel hf acc
    obtain ⟨f, rfl⟩ : ∃ f, fuel = f + 1 := ⟨fuel - 1, by omega⟩
    have : x.geom i = none := by rw [show i = k by omega]; exact he
    refine ⟨.ok acc, by rw [Files.loop, this]; rfl, ?_, fun _ => ⟨_, rfl⟩⟩
    intro r hr
    injection hr with hr
    exact ⟨[], by simp [hr], rfl, by simp⟩
  | succ n ih =>
    intro i hi fuel hf acc
    obtain ⟨f, rfl⟩ : ∃ f, fuel = f + 1 := ⟨fuel - 1, by omega⟩
    rw [Files.loop, hk i (by omega)]
    simp only [Option.elim]
    cases hr : x.read (name i) with
    | error e => exact ⟨_, rfl, (by intro r h; cases h), fun h => by obtain ⟨g, hg⟩ := h i le_rfl (by omega); rw [hr] at hg; cases hg⟩
    | assertion => exact ⟨_, rfl, (by intro r h; cases h), fun h => by obtain ⟨g, hg⟩ := h i le_rfl (by omega); rw [hr] at hg; cases hg⟩
    | ok g =>
      obtain ⟨g', rfl, hm⟩ := read_ok x hnd _ (hlen i (by omega)) g hr
      obtain ⟨o, h1, h2, h3⟩ := ih (i + 1) (by omega) f (by omega) (acc ++ [g'])
      refine ⟨o, h1, ?_, fun h => h3 fun j hj => h j (by omega)⟩
      intro r ho
      obtain ⟨l, h4, h5, h6⟩ := h2 r ho
      refine ⟨g' :: l, by rw [h4]; simp, by simp [h5], ?_⟩
      intro j g hg
      cases j with
      | zero => simp only [List.getElem?_cons_zero, Option.some.injEq] at hg; rw [← hg]; exact hm
      | succ j =>
        rw [List.getElem?_cons_succ] at hg
        have := h6 j g hg
        rwa [show i + 1 + j = i + (j + 1) by omega] at this

/-- C97: if files `geom0`, ..., `geom(k-1)` are given (in 2D or 3D), reading them ends; if it succeeds, the geometry consists of exactly one
component for each, which is what the file stands for by its extension, in any letters: the polygonal curve through the points of a table, or
what the CAD library makes of it. Without files there is no geometry. -/
theorem geometry (x : Files) (hnd : x.nd = 2 ∨ x.nd = 3) (k : Nat) (name : Nat → List Char) (hk : ∀ i < k, x.geom i = some (name i)) (he : x.geom k = none) (hlen : ∀ i < k, (name i).length < 4294967295)
    (fuel : Nat) (hf : k < fuel) : ∃ o, x.makeGeom fuel = some o ∧ ∀ r, o = .ok r →
      (k = 0 ∧ r = none) ∨ ∃ l, r = some l ∧ l.length = k ∧ 0 < k ∧ ∀ i g, l[i]? = some g → Means x (name i) g := by
  obtain ⟨o, h1, h2, _⟩ := loop_ok x hnd k name hk he hlen k 0 (by omega) fuel hf []
  refine ⟨_, by rw [Files.makeGeom, h1]; rfl, ?_⟩
  intro r hr
  cases o with
  | error e => cases hr
  | assertion => cases hr
  | ok l =>
    obtain ⟨l', h3, h4, h5⟩ := h2 l rfl
    simp only [List.nil_append] at h3
    subst h3
    injection hr with hr
    by_cases h0 : k = 0
    · exact .inl ⟨h0, by rw [← hr, List.length_eq_zero_iff.1 (h4.trans h0)]; rfl⟩
    · refine .inr ⟨l, ?_, h4, by omega, fun i g hg => by have := h5 i g hg; rwa [Nat.zero_add] at this⟩
      rw [← hr, if_neg]
      intro hc
      rw [List.isEmpty_iff.1 hc] at h4
      exact h0 h4.symm

/-- C97: if every file stands for something, tables have two columns and CAD is available, reading them succeeds. -/
theorem geometry_read (x : Files) (hnd : x.nd = 2 ∨ x.nd = 3) (hocct : x.occt = true) (k : Nat) (name : Nat → List Char) (hk : ∀ i < k, x.geom i = some (name i)) (he : x.geom k = none)
    (hlen : ∀ i < k, (name i).length < 4294967295) (hm : ∀ i < k, (∃ g, Means x (name i) g) ∧ ∀ t, x.csv (name i) = some t → t.cols ≤ 2) (fuel : Nat) (hf : k < fuel) : ∃ r, x.makeGeom fuel = some (.ok r) := by
  obtain ⟨o, h1, _, h3⟩ := loop_ok x hnd k name hk he hlen k 0 (by omega) fuel hf []
  obtain ⟨r, rfl⟩ := h3 fun j _ hj => by obtain ⟨⟨g, hg⟩, hc⟩ := hm j hj; exact ok_read x hocct _ g hg hc
  exact ⟨_, by rw [Files.makeGeom, h1]; rfl⟩

/-- C97: variables after a gap in the numbering are ignored, as documented. -/
theorem geometry_gap (x y : Files) (hx : y = { x with geom := y.geom }) (k : Nat) (hk : ∀ i ≤ k, x.geom i = y.geom i) (he : x.geom k = none) (fuel : Nat) (hf : k < fuel) : x.makeGeom fuel = y.makeGeom fuel := by
  have hr : ∀ n, x.read n = y.read n := by intro n; rw [hx]; rfl
  have : ∀ n i, i + n = k → ∀ fuel, n < fuel → ∀ acc, x.loop fuel i acc = y.loop fuel i acc := by
    intro n
    induction n with
    | zero =>
      intro i hi fuel hf acc
      obtain ⟨f, rfl⟩ : ∃ f, fuel = f + 1 := ⟨fuel - 1, by omega⟩
      have h : x.geom i = none := by rw [show i = k by omega]; exact he
      rw [Files.loop, Files.loop, ← hk i (by omega), h]
      rfl
    | succ n ih =>
      intro i hi fuel hf acc
      obtain ⟨f, rfl⟩ : ∃ f, fuel = f + 1 := ⟨fuel - 1, by omega⟩
      rw [Files.loop, Files.loop, ← hk i (by omega)]
      cases hg : x.geom i with
      | none => rfl
      | some nm =>
        simp only [Option.elim]
        rw [← hr nm]
        cases x.read nm with
        | ok g => exact ih (i + 1) (by omega) f (by omega) _
        | error e => rfl
        | assertion => rfl
  rw [Files.makeGeom, Files.makeGeom, this k 0 (by omega) fuel hf]

/-- C97, what does not hold: a table with three columns, which is documented to be allowed and passes the check of the number of columns, violates a
precondition of the matrix library. -/
theorem columns_refuted : ∃ (x : Files) (name : List Char) (g : Geom), Means x name g ∧ x.read name = .assertion := by
  refine ⟨⟨2, fun _ => none, fun _ => true, fun _ => some ⟨2, 3, fun _ _ => 0⟩, fun _ => none, fun _ => none, fun _ => none, true⟩, ['a', '.', 'c', 's', 'v'], ⟨2, segments ⟨2, 3, fun _ _ => 0⟩⟩,
    ⟨rfl, rfl, .inl ⟨⟨['a'], ['c', 's', 'v'], rfl, by decide, by decide⟩, rfl, _, rfl, by decide, segments_curve _⟩⟩, ?_⟩
  have h : rdot ['a', '.', 'c', 's', 'v'] = 1 := by decide
  unfold Files.read
  simp only [h]
  rw [if_neg (by decide), if_neg (by decide), if_pos (by decide), if_neg (by decide)]
  rfl

/-- C97, what does not hold: in one dimension a CAD file is read without complaint and left out of the geometry. -/
theorem line_refuted : ∃ (x : Files) (name : List Char), x.nd = 1 ∧ x.geom 0 = some name ∧ x.makeGeom 2 = some (.ok none) := by
  refine ⟨⟨1, fun i => if i = 0 then some ['a', '.', 's', 't', 'p'] else none, fun _ => true, fun _ => none, fun _ => some [], fun _ => some [], fun _ => none, true⟩, ['a', '.', 's', 't', 'p'], rfl, rfl, ?_⟩
  have h : rdot ['a', '.', 's', 't', 'p'] = 1 := by decide
  have hr : ∀ x : Files, x.nd = 1 → x.present ['a', '.', 's', 't', 'p'] = true → x.occt = true → x.read ['a', '.', 's', 't', 'p'] = .ok none := by
    intro x h1 h2 h3
    unfold Files.read
    simp only [h]
    rw [if_neg (by decide), if_neg (by simp [h2]), if_neg (by decide), if_pos ⟨h3, by decide⟩, if_neg (by omega), if_neg (by omega)]
  unfold Files.makeGeom
  rw [Files.loop]
  simp only [if_pos, Option.elim]
  rw [hr _ rfl rfl rfl]
  rfl

/-! ## Meshing -/

/-- What has been done with the mesh after `k` sweeps. -/
def Params.iter (p : Params) (tr : List Act) : Nat → List Act
  | 0 => tr
  | k + 1 => (p.refine (p.iter tr k)).1

/-- Whether sweep `k` changes the mesh. -/
def Params.iterChanges (p : Params) (tr : List Act) (k : Nat) : Bool := (p.refine (p.iter tr k)).2

theorem iter_eq (p : Params) (tr : List Act) : ∀ k, p.iter tr k = tr ++ (List.replicate k p.sweep).flatten
  | 0 => by simp [Params.iter]
  | k + 1 => by
    rw [Params.iter, iter_eq p tr k, List.replicate_succ', List.flatten_append]
    simp [Params.refine, Params.sweep, Params.smooth]

theorem iterChanges_eq (p : Params) (tr : List Act) (k : Nat) : p.iterChanges tr k = p.changes tr k := by
  rw [Params.iterChanges, Params.changes, Params.refine, iter_eq]

theorem ratios_eq : ∀ (l : List ℝ) (x : ℝ), ratios l x = List.zipWith (fun a b => .extrude (a / b)) l (x :: l)
  | [], _ => rfl
  | a :: l, x => by rw [ratios, ratios_eq l a]; rfl

theorem splitLayers_eq (p : Params) (tr : List Act) : p.splitLayers tr = tr ++ p.split := by
  simp [Params.splitLayers, Params.split, ratios_eq]

theorem splitLayers_iter (p : Params) : ∀ k tr, p.splitLayers^[k] tr = tr ++ (List.replicate k p.split).flatten
  | 0, tr => by simp
  | k + 1, tr => by rw [Function.iterate_succ_apply, splitLayers_iter p k, splitLayers_eq, List.replicate_succ, List.flatten_cons, List.append_assoc]

theorem start_eq (p : Params) (hasGeom : Bool) (tr : List Act) : p.addGeom hasGeom (p.initRefinement tr) = tr ++ p.start hasGeom := by
  cases hasGeom <;> simp [Params.addGeom, Params.initRefinement, Params.start, Params.smooth]

theorem sweeps_eq (p : Params) (tr : List Act) : ∀ fuel (k : Nat), p.maxIters.toNat - k < fuel → (∀ j, j < k → p.iterChanges tr j = true) → (k : Int) ≤ max p.maxIters 0 → ∃ n, k ≤ n ∧ n ≤ p.maxIters.toNat ∧
    p.sweeps fuel k true (p.iter tr k) = p.iter tr n ∧ (∀ j, j + 1 < n → p.iterChanges tr j = true) ∧ (n = p.maxIters.toNat ∨ 0 < n ∧ p.iterChanges tr (n - 1) = false) := by
  intro fuel
  induction fuel with
  | zero => intro k h; omega
  | succ fuel ih =>
    intro k hk hc hmax
    rw [Params.sweeps]
    by_cases hi : (k : Int) < p.maxIters
    · rw [if_pos ⟨rfl, hi⟩]
      have e1 : (p.refine (p.iter tr k)).1 = p.iter tr (k + 1) := rfl
      have e2 : (p.refine (p.iter tr k)).2 = p.iterChanges tr k := rfl
      rw [e1, e2, Bool.true_and]
      cases hch : p.iterChanges tr k with
      | true =>
        obtain ⟨n, h1, h2, h3, h4⟩ := ih (k + 1) (by omega) (fun j hj => by
          rcases Nat.lt_succ_iff_lt_or_eq.1 hj with h | h
          · exact hc j h
          · rw [h]; exact hch) (by omega)
        exact ⟨n, by omega, h2, by rw [← h3]; push_cast; rfl, h4⟩
      | false =>
        refine ⟨k + 1, by omega, by omega, ?_, fun j hj => hc j (by omega), .inr ⟨by omega, by simpa using hch⟩⟩
        cases fuel with
        | zero => rfl
        | succ f => rw [Params.sweeps, if_neg (by simp)]
    · rw [if_neg (fun h => hi h.2)]
      exact ⟨k, le_rfl, by omega, rfl, fun j hj => hc j (by omega), .inl (by omega)⟩

theorem splits_eq (p : Params) : ∀ fuel (k : Nat) tr, p.layerSplits.toNat - k < fuel → p.splits fuel k tr = p.splitLayers^[p.layerSplits.toNat - k] tr := by
  intro fuel
  induction fuel with
  | zero => intro k tr h; omega
  | succ fuel ih =>
    intro k tr hk
    rw [Params.splits]
    by_cases hi : (k : Int) < p.layerSplits
    · rw [if_pos hi]
      have := ih (k + 1) (p.splitLayers tr) (by omega)
      push_cast at this
      rw [this, show p.layerSplits.toNat - k = (p.layerSplits.toNat - (k + 1)) + 1 by omega, Function.iterate_succ_apply]
    · rw [if_neg hi, show p.layerSplits.toNat - k = 0 by omega]
      rfl

/-- C97: meshing refines everywhere, inserts the geometry if there is one, and then does `n` sweeps of refinement and splits the layers as often as
asked. There are at most `max_refinement_iters` sweeps, all but the last one change the mesh, and fewer are done only if the last one changed
nothing. -/
theorem mesh_stages (p : Params) (hasGeom : Bool) (tr : List Act) : ∃ n, n ≤ p.maxIters.toNat ∧
    p.mesh hasGeom tr = tr ++ p.start hasGeom ++ (List.replicate n p.sweep).flatten ++ (List.replicate p.layerSplits.toNat p.split).flatten ∧
    (∀ j, j + 1 < n → p.changes (tr ++ p.start hasGeom) j = true) ∧
    (n = p.maxIters.toNat ∨ 0 < n ∧ p.changes (tr ++ p.start hasGeom) (n - 1) = false) := by
  obtain ⟨n, _, h2, h3, h4, h5⟩ := sweeps_eq p (p.addGeom hasGeom (p.initRefinement tr)) (p.maxIters.toNat + 1) 0 (by omega) (by intro j hj; omega) (by omega)
  simp only [iterChanges_eq, start_eq] at h4 h5
  refine ⟨n, h2, ?_, h4, h5⟩
  have := splits_eq p (p.layerSplits.toNat + 1) 0 (p.iter (p.addGeom hasGeom (p.initRefinement tr)) n) (by omega)
  rw [Nat.sub_zero, splitLayers_iter] at this
  rw [start_eq, iter_eq] at this
  rw [← this, ← iter_eq, ← start_eq, ← h3]
  rfl

theorem mesh_inv (p : Params) (P : List Act → Prop) (h0 : ∀ g, P (p.start g)) (hr : ∀ tr, P tr → P (tr ++ p.sweep)) (hs : ∀ tr, P tr → P (tr ++ p.split)) (hasGeom : Bool) : P (p.mesh hasGeom []) := by
  obtain ⟨n, _, h2, _⟩ := mesh_stages p hasGeom []
  rw [h2, List.nil_append]
  have key : ∀ l : List Act, (∀ tr, P tr → P (tr ++ l)) → ∀ k tr, P tr → P (tr ++ (List.replicate k l).flatten) := by
    intro l hl k
    induction k with
    | zero => intro tr h; simpa using h
    | succ k ih => intro tr h; rw [List.replicate_succ, List.flatten_cons, ← List.append_assoc]; exact ih _ (hl tr h)
  exact key _ hs _ _ (key _ hr _ _ (h0 _))

theorem fold_replicate (n : Nat) (a : Act) (h : Phase.next .idle a = some .idle) : (List.replicate n a).foldlM Phase.next .idle = some .idle := by
  induction n with
  | zero => rfl
  | succ n ih => rw [List.replicate_succ, List.foldlM_cons, h]; exact ih

theorem fold_ratios : ∀ (l : List ℝ) (x : ℝ), (ratios l x).foldlM Phase.next .opened = some .opened
  | [], _ => rfl
  | a :: l, x => by rw [ratios, List.foldlM_cons]; exact fold_ratios l a

theorem lawful_append {a b : List Act} (ha : Lawful a) (hb : Lawful b) : Lawful (a ++ b) := by
  unfold Lawful at *
  rw [List.foldlM_append, ha]
  exact hb

/-- C97: after meshing, whatever the parameters and the geometry, the Jacobian is that of the mesh. -/
theorem mesh_current (p : Params) (hasGeom : Bool) : Current (p.mesh hasGeom []) := by
  refine mesh_inv p Current ?_ ?_ ?_ hasGeom
  · intro g
    cases g with
    | false => exact ⟨List.replicate p.initRefLevel.toNat .update, [], by simp [Params.start], by simp⟩
    | true => exact ⟨List.replicate p.initRefLevel.toNat .update ++ [.jacobian] ++ [.setSurface] ++ List.replicate p.nSmooth.toNat .relax, [], by simp [Params.start], by simp⟩
  · exact fun tr _ => ⟨tr ++ [.uncertainty, .locks, .updateIf] ++ List.replicate p.nSmooth.toNat .relax, [], by simp [Params.sweep], by simp⟩
  · exact fun tr _ => ⟨tr ++ [.disconnect] ++ List.zipWith (fun a b => .extrude (a / b)) p.splitPoints (1 :: p.splitPoints) ++ [.connectRest], [], by simp [Params.split], by simp⟩

/-- C97: the mesh is only adapted directly after computing uncertainties and locking the extruded elements, layers are only split while the surface
is disconnected, nothing else is done while it is, and in the end it is connected. -/
theorem mesh_lawful (p : Params) (hasGeom : Bool) : Lawful (p.mesh hasGeom []) := by
  have sm : Lawful (List.replicate p.nSmooth.toNat .relax) := fold_replicate _ _ rfl
  have jac : Lawful [Act.jacobian] := rfl
  refine mesh_inv p Lawful ?_ ?_ ?_ hasGeom
  · intro g
    refine lawful_append (lawful_append (fold_replicate _ _ rfl) jac) ?_
    cases g with
    | false => rfl
    | true => exact lawful_append (lawful_append (show Lawful [.setSurface] from rfl) sm) jac
  · exact fun tr h => lawful_append h (lawful_append (lawful_append (show Lawful [.uncertainty, .locks, .updateIf] from rfl) sm) jac)
  · intro tr h
    refine lawful_append h ?_
    rw [Params.split, ← ratios_eq]
    unfold Lawful
    rw [List.append_assoc, List.foldlM_append]
    show (ratios p.splitPoints 1 ++ [Act.connectRest, Act.jacobian]).foldlM Phase.next .opened = _
    rw [List.foldlM_append, fold_ratios]
    rfl

/-- C97: the number of uniform refinements, adaptations, smoothings and splits. `n` is the number of sweeps. -/
theorem mesh_counts (p : Params) (hasGeom : Bool) : ∃ n, n ≤ p.maxIters.toNat ∧ (p.mesh hasGeom []).countP (fun a => a matches .update) = p.initRefLevel.toNat ∧
    (p.mesh hasGeom []).countP (fun a => a matches .updateIf) = n ∧
    (p.mesh hasGeom []).countP (fun a => a matches .setSurface) = (if hasGeom then 1 else 0) ∧
    (p.mesh hasGeom []).countP (fun a => a matches .relax) = ((if hasGeom then 1 else 0) + n) * p.nSmooth.toNat ∧
    (p.mesh hasGeom []).countP (fun a => a matches .extrude _) = p.layerSplits.toNat * p.splitPoints.length := by
  obtain ⟨n, h1, h2, _⟩ := mesh_stages p hasGeom []
  refine ⟨n, h1, ?_⟩
  rw [h2]
  have hrat : ∀ (l : List ℝ) x, (ratios l x).countP (fun a => a matches .update) = 0 ∧ (ratios l x).countP (fun a => a matches .updateIf) = 0 ∧ (ratios l x).countP (fun a => a matches .setSurface) = 0 ∧
      (ratios l x).countP (fun a => a matches .relax) = 0 ∧ (ratios l x).countP (fun a => a matches .extrude _) = l.length := by
    intro l
    induction l with
    | nil => intro x; simp [ratios]
    | cons a l ih => intro x; simp [ratios, ih a]
  have hflat : ∀ (f : Act → Bool) (l : List Act) k, ((List.replicate k l).flatten).countP f = k * l.countP f := by
    intro f l k
    induction k with
    | zero => simp
    | succ k ih => rw [List.replicate_succ, List.flatten_cons, List.countP_append, ih]; ring
  obtain ⟨b1, b2, b3, b4, b5⟩ := hrat p.splitPoints 1
  simp only [List.countP_append, hflat, List.nil_append, Params.split, ← ratios_eq, b1, b2, b3, b4, b5, Params.sweep, List.countP_replicate]
  cases hasGeom <;> simp [Params.start, List.countP_append, List.countP_replicate]
  ring

end Hexed.CaseMesh
