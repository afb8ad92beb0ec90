import Verif.Adapt.ConnectLemmas2
import Verif.Adapt.History2

set_option autoImplicit false
set_option linter.unusedVariables false

/-!
# Lemmas about the connection of tree elements: all faces, and what is left of earlier connections
-/

namespace Hexed.Adapt
open Hexed.Tree (Path get IsDir Borders IsLeafAt Reachable findNeighbors findNeighbor extremalLeaves faceDir)

variable {nd : Nat}

/-- When all faces have been treated, those that are not connected are exposed. -/
theorem treated_exposed {st : St nd} (h : Tidy st) {links : List Link} (hs : Sound st links)
    (ht : ∀ p i, Exists st p → i < 2 * nd → Treated st links p i) {p : Path} {i : Nat} (hp : Exists st p) (hi : i < 2 * nd) (hu : linked links (p, i) = false) {a : Tree nd}
    (ha : get p st.root = some a) : Exposed st a (direction nd i) := by
  have hc := h.cons
  rcases ht p i hp hi with hh | hh
  · rw [hu] at hh; exact absurd hh (by decide)
  · rcases hh a ha with hh | ⟨hmin, q, b, hb, hq, hbor, hlt⟩
    · exact hh
    · exfalso
      have hal := hp.leaf' hc ha
      have hbl := hq.leaf' hc hb
      have hsym := borders_symm hc.reach ha hal hb hbl hi hbor
      obtain ⟨m, g1, g2⟩ := h.quarters hb hq ha hp (opp_lt hi) hsym hlt
      obtain ⟨r, hr⟩ : ∃ r, m[0]? = some r := by
        have := g2.len
        have := Nat.two_pow_pos (nd - 1)
        exact ⟨m[0], List.getElem?_eq_getElem (by omega)⟩
      have hrm := List.mem_of_getElem? hr
      obtain ⟨b', c, hb', hcc, hbc, hrl⟩ := g2.mem r hrm
      have := get_uniq hb hb'; subst this
      have hre := g2.ex r hrm
      have hcl := hre.leaf' hc hcc
      have hsym' := borders_symm hc.reach hb hbl hcc hcl (opp_lt hi) hbc
      rw [opp_opp] at hsym'
      have hcmin : isMinCorner st.root r (i / 2) = true := by
        simp only [isMinCorner, hcc, Option.any_some, List.all_eq_true, List.mem_finRange, true_implies, Bool.or_eq_true, beq_iff_eq]
        intro e
        by_cases he : e.val = i / 2
        · exact .inl he
        · right
          have := g2.ord b 0 r c hb hr hcc e (by rw [opp_div]; exact he)
          rw [this]
          simp [Int.mul_tmod_right]
      have hlink : linked links (r, i) = true := by
        rcases ht r i hre hi with hh | hh
        · exact hh
        · exfalso
          rcases hh c hcc with ⟨q', b', k1, k2, k3, k4⟩ | ⟨k1, -⟩
          · have := coarse_unique hc.reach hcc hb hbl k1 k2 (isDir_direction i) hsym' k3 (by omega)
            rw [this] at k4; exact k4 hq
          · rw [hcmin] at k1; exact absurd k1 (by decide)
      obtain ⟨l, hl, hrl'⟩ := linked_iff.1 hlink
      have := ((hs.right l hl).mate h hrl' (p, i)).2 (.inr (.inr ⟨hp, rfl, c, a, q, b, hcc, ha, hb, hq, hsym', by omega, hsym⟩))
      have := linked_iff.2 ⟨l, hl, this⟩
      rw [hu] at this; exact absurd this (by decide)

theorem extrude_mem {st : St nd} (h : Tidy st) {links : List Link} {f : Face} :
    f ∈ extrudeFaces st links ↔ ExistsAs st true f.1 ∧ f.2 < 2 * nd ∧ linked links f = false := by
  simp only [extrudeFaces, List.mem_flatMap]
  constructor
  · rintro ⟨e, he, hf⟩
    split at hf
    · simp at hf
    · rename_i p ht
      simp only [List.mem_filter, List.mem_map, List.mem_range, Bool.not_eq_true'] at hf
      obtain ⟨⟨i, hi, rfl⟩, hu⟩ := hf
      exact ⟨⟨e, he, ht, by rw [h.stay _ e he (by rw [ht]; simp)]; decide⟩, hi, hu⟩
  · rintro ⟨⟨e, he, ht, -⟩, hi, hu⟩
    refine ⟨e, he, ?_⟩
    rw [ht]
    simp only [List.mem_filter, List.mem_map, List.mem_range, Bool.not_eq_true']
    exact ⟨⟨f.2, hi, rfl⟩, hu⟩

theorem extrude_nodup {st : St nd} (h : Tidy st) (links : List Link) : (extrudeFaces st links).Nodup := by
  have hu : ((st.els true).filterMap (·.tree)).Nodup := by
    have := h.cons.uniq
    simp only [St.all, List.filterMap_append, List.nodup_append] at this
    exact this.2.1
  unfold extrudeFaces
  generalize st.els true = l at hu
  induction l with
  | nil => simp
  | cons e l ih =>
    simp only [List.flatMap_cons]
    cases ht : e.tree with
    | none =>
      simp only [List.filterMap_cons, ht] at hu
      simpa using ih hu
    | some p =>
      simp only [List.filterMap_cons, ht, List.nodup_cons] at hu
      refine List.nodup_append.2 ⟨?_, ih hu.2, ?_⟩
      · exact (List.nodup_range.map (fun a b hab => (Prod.mk.inj hab).2)).filter _
      · rintro f hf g hg rfl
        simp only [List.mem_filter, List.mem_map] at hf
        obtain ⟨⟨i, -, rfl⟩, -⟩ := hf
        obtain ⟨e', he', hg⟩ := List.mem_flatMap.1 hg
        split at hg
        · simp at hg
        · rename_i p' ht'
          simp only [List.mem_filter, List.mem_map, Prod.mk.injEq] at hg
          obtain ⟨⟨_, -, rfl, -⟩, -⟩ := hg
          exact hu.1 (List.mem_filterMap.2 ⟨e', he', ht'⟩)

/-- Connecting all elements and extruding. -/
theorem connectAll_ok (hnd : 2 ≤ nd) {st : St nd} (h : Tidy st) (hk : ∀ p, Bent st p → ExistsAs st true p) {links : List Link} (hs : Sound st links) :
    ∃ links', connectAll st links = some links' ∧ Sound st links' ∧ Complete st links' := by
  obtain ⟨m1, a1, a2, a3⟩ := connectElems_ok hnd h (d := false) (st.els false) (fun _ he => he) hs
  obtain ⟨m2, b1, b2, b3⟩ := connectElems_ok hnd h (d := true) (st.els true) (fun _ he => he) a2
  have ht : ∀ p i, Exists st p → i < 2 * nd → Treated st (links ++ m1 ++ m2) p i := by
    rintro p i ⟨d, e, he, ht, -⟩ hi
    cases d
    · exact (a3 e he p ht i hi).mono
    · exact b3 e he p ht i hi
  simp only [connectAll, connectNew, a1, b1, Option.bind_some, Option.map_some]
  generalize links ++ m1 ++ m2 = L at b2 ht
  have hexp : ∀ f ∈ extrudeFaces st L, ∀ a, get f.1 st.root = some a → Exposed st a (direction nd f.2) := by
    intro f hf a ha
    obtain ⟨k1, k2, k3⟩ := (extrude_mem h).1 hf
    exact treated_exposed h b2 ht (exists_as.2 (.inl k1)) k2 k3 ha
  refine ⟨_, rfl, ⟨?_, ?_⟩, ?_⟩
  · intro l hl
    rcases List.mem_append.1 hl with hl | hl
    · exact b2.right l hl
    · obtain ⟨f, hf, rfl⟩ := List.mem_map.1 hl
      obtain ⟨k1, k2, k3⟩ := (extrude_mem h).1 hf
      exact ⟨k2, k1, hexp f hf⟩
  · rw [List.flatMap_append]
    have e : ((extrudeFaces st L).map Link.extr).flatMap Link.faces = extrudeFaces st L := by
      generalize extrudeFaces st L = X
      induction X with
      | nil => rfl
      | cons x X ih => simp only [List.map_cons, List.flatMap_cons, ih, Link.faces]; rfl
    rw [e]
    refine List.nodup_append.2 ⟨b2.once, extrude_nodup h L, ?_⟩
    rintro f hf g hg rfl
    obtain ⟨l, hl, hfl⟩ := List.mem_flatMap.1 hf
    have := linked_iff.2 ⟨l, hl, hfl⟩
    rw [((extrude_mem h).1 hg).2.2] at this; exact absurd this (by decide)
  · intro p i hp hi
    by_cases hu : linked L (p, i) = true
    · obtain ⟨l, hl, hpl⟩ := linked_iff.1 hu
      exact ⟨l, List.mem_append.2 (.inl hl), hpl⟩
    · simp only [Bool.not_eq_true] at hu
      obtain ⟨a, ha, -⟩ := hp.leaf h.cons
      have hx := treated_exposed h b2 ht hp hi hu ha
      have hd := hk p (.surface hp ha ⟨isDir_direction i, (loop_one hi).1⟩ hx)
      exact ⟨.extr (p, i), List.mem_append.2 (.inr (List.mem_map.2 ⟨(p, i), (extrude_mem h).2 ⟨hd, hi, hu⟩, rfl⟩)), by simp [Link.faces]⟩

/-! ### Surviving connections -/

theorem Survive.def_iff {st st' : St nd} (h : Consistent st) (h' : Consistent st') {links links' : List Link} (hs : Survive st st' links links') {l : Link} (hl : l ∈ links') {f : Face}
    (hf : f ∈ l.faces) (d : Bool) : ExistsAs st d f.1 ↔ ExistsAs st' d f.1 := by
  obtain ⟨d', k1, k2⟩ := hs.elems l hl f hf
  constructor
  · intro hh; rw [kind_unique h hh k1]; exact k2
  · intro hh; rw [kind_unique h' hh k2]; exact k1

theorem Survive.exists {st st' : St nd} {links links' : List Link} (hs : Survive st st' links links') {l : Link} (hl : l ∈ links') {f : Face}
    (hf : f ∈ l.faces) : Exists st f.1 ∧ Exists st' f.1 := by
  obtain ⟨d', ⟨e, k1⟩, ⟨e', k2⟩⟩ := hs.elems l hl f hf
  exact ⟨⟨d', e, k1⟩, ⟨d', e', k2⟩⟩

theorem meets_keep {st st' : St nd} (h : Consistent st) (h' : Consistent st') {p q : Path} (hp : Exists st' p) (hq : Exists st' q) {i up : Nat} (hm : Meets st p q i up) :
    Meets st' p q i up := by
  obtain ⟨a, b, ha, hb, hbor, hrl⟩ := hm
  obtain ⟨a', ha', -⟩ := hp.leaf h'
  obtain ⟨b', hb', -⟩ := hq.leaf h'
  have e1 := cell_eq h.reach h'.reach ha ha'
  have e2 := cell_eq h.reach h'.reach hb hb'
  exact ⟨a', b', ha', hb', (borders_congr e1 e2 _).1 hbor, by rw [← e1.1, ← e2.1]; exact hrl⟩

theorem Survive.sound {st st' : St nd} (h : Consistent st) (h' : Tidy st') {links links' : List Link} (hs : Survive st st' links links') (hl : Sound st links)
    (hx : ∀ p i, .extr (p, i) ∈ links' → ∀ a, get p st'.root = some a → Exposed st' a (direction nd i)) : Sound st' links' := by
  have hc' := h'.cons
  have once : (links'.flatMap Link.faces).Nodup := hl.once.sublist (hs.sub.flatMap _)
  refine ⟨fun l hm => ?_, once⟩
  have hr := hl.right l (hs.sub.mem hm)
  cases l with
  | conf d x y =>
    obtain ⟨p, i⟩ := x
    obtain ⟨q, j⟩ := y
    obtain ⟨hi, hj, hside, hmeet, hp, hq, hd⟩ := hr
    have hp' := (hs.exists hm (f := (p, i)) (by simp [Link.faces])).2
    have hq' := (hs.exists hm (f := (q, j)) (by simp [Link.faces])).2
    refine ⟨hi, hj, hside, meets_keep h hc' hp' hq' hmeet, hp', hq', ?_⟩
    rw [hd, hs.def_iff h hc' hm (f := (p, i)) (by simp [Link.faces]), hs.def_iff h hc' hm (f := (q, j)) (by simp [Link.faces])]
  | hang d x fine =>
    obtain ⟨p, i⟩ := x
    obtain ⟨hi, hp, hlen, hfine, hall, hord, hd⟩ := hr
    have hp' := (hs.exists hm (f := (p, i)) (by simp [Link.faces])).2
    have hf' : ∀ f ∈ fine, Exists st' f.1 := fun f hf => (hs.exists hm (f := f) (by simp [Link.faces, hf])).2
    have hfine' : ∀ f ∈ fine, f.2 = opp i ∧ Meets st' p f.1 i 1 ∧ Exists st' f.1 := fun f hf =>
      ⟨(hfine f hf).1, meets_keep h hc' hp' (hf' f hf) (hfine f hf).2.1, hf' f hf⟩
    have hdup : fine.Nodup := by
      have : (Link.hang d (p, i) fine).faces.Nodup := by
        have hsub : [Link.hang d (p, i) fine].Sublist links' := List.singleton_sublist.2 hm
        have := once.sublist (hsub.flatMap Link.faces)
        simpa using this
      simp only [Link.faces, List.nodup_cons] at this
      exact this.2
    obtain ⟨a', ha', hal'⟩ := hp'.leaf hc'
    refine ⟨hi, hp', hlen, hfine', ?_, ?_, ?_⟩
    · intro q b a ha hb hbl hbor
      obtain ⟨f0, hf0⟩ : ∃ f0, f0 ∈ fine := by
        cases fine with
        | nil => have := Nat.two_pow_pos (nd - 1); simp only [List.length_nil] at hlen; omega
        | cons x y => exact ⟨x, by simp⟩
      obtain ⟨-, ⟨c, b0, hc0, hb0, hbor0, hrl0⟩, hex0⟩ := hfine' f0 hf0
      have := get_uniq ha hc0; subst this
      obtain ⟨m, g1, g2⟩ := h'.quarters ha hp' hb0 hex0 hi hbor0 (by omega)
      have hsub : fine.map (·.1) ⊆ m := by
        intro x hx
        obtain ⟨f, hf, rfl⟩ := List.mem_map.1 hx
        obtain ⟨-, ⟨c, b1, hc1, hb1, hbor1, -⟩, hex1⟩ := hfine' f hf
        have := get_uniq ha hc1; subst this
        exact g2.all f.1 b1 a ha hb1 (hex1.leaf' hc' hb1) hbor1
      have hnd1 : (fine.map (·.1)).Nodup := by
        refine hdup.map_on ?_
        intro x hx y hy hxy
        exact Prod.ext hxy (by rw [(hfine x hx).1, (hfine y hy).1])
      have hperm := (List.subperm_of_subset hnd1 hsub).perm_of_length_le (by rw [List.length_map, hlen, g2.len])
      have : q ∈ fine.map (·.1) := hperm.mem_iff.2 (g2.all q b a ha hb hbl hbor)
      obtain ⟨f, hf, rfl⟩ := List.mem_map.1 this
      rw [show (f.1, opp i) = f from Prod.ext rfl (hfine f hf).1.symm]; exact hf
    · intro a k f b ha hk hb e he
      have hfm := List.mem_of_getElem? hk
      obtain ⟨-, ⟨a0, b0, ha0, hb0, -, -⟩, -⟩ := hfine f hfm
      have := hord a0 k f b0 ha0 hk hb0 e he
      rw [(cell_eq h.reach hc'.reach ha0 ha).2, (cell_eq h.reach hc'.reach hb0 hb).2] at this
      exact this
    · rw [hd, hs.def_iff h hc' hm (f := (p, i)) (by simp [Link.faces])]
      have : ∀ f ∈ fine, (ExistsAs st true f.1 ↔ ExistsAs st' true f.1) := fun f hf => hs.def_iff h hc' hm (f := f) (by simp [Link.faces, hf]) true
      constructor
      · rintro ⟨k1, k2⟩; exact ⟨k1, fun f hf => (this f hf).1 (k2 f hf)⟩
      · rintro ⟨k1, k2⟩; exact ⟨k1, fun f hf => (this f hf).2 (k2 f hf)⟩
  | bound d x bc =>
    obtain ⟨p, i⟩ := x
    obtain ⟨hi, hbc, hp, hbd⟩ := hr
    refine ⟨hi, hbc, (hs.def_iff h hc' hm (f := (p, i)) (by simp [Link.faces]) d).1 hp, ?_⟩
    intro a ha k hk
    obtain ⟨d', e, he, ht, hrec⟩ := (hs.exists hm (f := (p, i)) (by simp [Link.faces])).1
    obtain ⟨a0, ha0⟩ := h.valid d' e he p ht
    have e1 := cell_eq h.reach hc'.reach ha0 ha
    have := hbd a0 ha0 k hk
    simp only [Tree.hi, Tree.lo, e1.1, e1.2] at this ⊢
    exact this
  | extr x =>
    obtain ⟨p, i⟩ := x
    obtain ⟨hi, hp, -⟩ := hr
    exact ⟨hi, (hs.def_iff h hc' hm (f := (p, i)) (by simp [Link.faces]) true).1 hp, hx p i hm⟩

/-- Whether a cell is at the end of the domain only depends on its place. -/
theorem neighbor_keep {t t' a a' b : Tree nd} (h : Reachable t) (h' : Reachable t') {p q : Path} (ha : get p t = some a) (ha' : get p t' = some a') (hb : get q t = some b) (hbl : b.children = [])
    {i : Nat} (hbor : Borders a b (direction nd i)) : ∃ r c, findNeighbor t' p (direction nd i) = some r ∧ get r t' = some c ∧ c.children = [] ∧ Borders a' c (direction nd i) := by
  have e1 := cell_eq h h' ha ha'
  cases hf : findNeighbor t' p (direction nd i) with
  | none =>
    exfalso
    have := (Tree.find_neighbor_null h' ha' _ (isDir_direction i)).1 hf
    have h2 : findNeighbors t p (direction nd i) = some [] := by
      rw [Tree.find_neighbors_empty h ha _ (isDir_direction i)]
      simpa only [Tree.hi, Tree.lo, e1.1, e1.2] using this
    obtain ⟨l, h1, -, h3⟩ := Tree.find_neighbors_exact h ha _ (isDir_direction (nd := nd) i)
    rw [h2] at h1; simp only [Option.some.injEq] at h1; subst h1
    have := (h3 q).2 ⟨b, hb, hbl, hbor⟩
    simp at this
  | some r =>
    obtain ⟨c, g1, g2, g3⟩ := Tree.find_neighbor_borders h' ha' _ (isDir_direction i) hf
    exact ⟨r, c, rfl, g1, g2, g3⟩

/-- After `update`: extruded elements have been deleted where necessary. -/
theorem Survive.extr_update {st st' : St nd} (h : Consistent st) (h' : Consistent st') {links links' : List Link} (hs : Survive st st' links links') (hl : Sound st links) (hu : Uncovered st' links')
    (p : Path) (i : Nat) (hm : .extr (p, i) ∈ links') (a : Tree nd) (ha : get p st'.root = some a) : Exposed st' a (direction nd i) := by
  obtain ⟨hi, hp, hx⟩ := hl.right _ (hs.sub.mem hm)
  obtain ⟨e, he, ht, -⟩ := hp
  obtain ⟨a0, ha0⟩ := h.valid _ e he p ht
  obtain ⟨q, b, hb, hbl, hbor, -⟩ := hx a0 ha0
  obtain ⟨r, c, k1, k2, k3, k4⟩ := neighbor_keep h.reach h'.reach ha0 ha hb hbl hbor
  exact ⟨r, c, k2, k3, k4, hu p i hm r k1⟩

/-- After `set_surface`: no element is new. -/
theorem Survive.extr_surface {st st' : St nd} (h : Tidy st) (h' : Consistent st') {links links' : List Link} (hs : Survive st st' links links') (hl : Sound st links)
    (hold : ∀ p, Exists st' p → Exists st p) (p : Path) (i : Nat) (hm : .extr (p, i) ∈ links') (a : Tree nd) (ha : get p st'.root = some a) : Exposed st' a (direction nd i) := by
  obtain ⟨hi, hp, hx⟩ := hl.right _ (hs.sub.mem hm)
  have hp0 : Exists st p := exists_as.2 (.inl hp)
  obtain ⟨a0, ha0, -⟩ := hp0.leaf h.cons
  obtain ⟨q, b, hb, hbl, hbor, hqn⟩ := hx a0 ha0
  obtain ⟨r, c, k1, k2, k3, k4⟩ := neighbor_keep h.cons.reach h'.reach ha0 ha hb hbl hbor
  refine ⟨r, c, k2, k3, k4, fun hr => ?_⟩
  have hr0 := hold r hr
  obtain ⟨c0, hc0, hc0l⟩ := hr0.leaf h.cons
  have e1 := cell_eq h.cons.reach h'.reach ha0 ha
  have e2 := cell_eq h.cons.reach h'.reach hc0 k2
  rcases h.faces p a0 _ hp0 ha0 (isDir_direction i) (loop_one hi).1 with hh | hh
  · exact hqn (hh q b hb hbl hbor)
  · exact hh r c0 hc0 hc0l ((borders_congr e1 e2 _).2 k4) hr0

/-! ### Histories -/

theorem Fit.tidy {S : Option (Surface nd)} {st : St nd} (h : Fit S st) : Tidy st := ⟨h.consistent, h.stay, h.balanced, h.ready.faces⟩

theorem Rest.right {st st' : St nd} (h : Rest st st') {l : Link} (hl : l.Right st) : l.Right st' := by
  have e1 : ∀ p, Exists st' p ↔ Exists st p := h.same.cells
  have e2 := h.existsAs
  have e3 := h.root
  cases l with
  | conf d x y => simpa only [Link.Right, Meets, e1, e2, e3] using hl
  | hang d x y => simpa only [Link.Right, Meets, e1, e2, e3] using hl
  | bound d x y => simpa only [Link.Right, Meets, e1, e2, e3] using hl
  | extr x => simpa only [Link.Right, Exposed, Meets, e1, e2, e3] using hl

theorem Rest.sound {st st' : St nd} (h : Rest st st') {links : List Link} (hl : Sound st links) : Sound st' links := ⟨fun l hm => h.right (hl.right l hm), hl.once⟩

theorem Rest.complete {st st' : St nd} (h : Rest st st') {links : List Link} (hl : Complete st links) : Complete st' links :=
  fun p i hp hi => hl p i ((h.same.cells p).1 hp) hi

theorem Wired.mesh {S : Option (Surface nd)} {st : St nd} {links : List Link} (h : Wired S st links) : Mesh S st := by
  induction h with
  | new => exact .new
  | update _ hr ho he _ _ _ _ hrest ih => exact .update ih hr ho he hrest
  | setSurface _ hs ho he _ _ hrest ih => exact .setSurface ih hs ho he hrest

theorem newLinks_ok : Sound (newMesh nd) (newLinks nd) ∧ Complete (newMesh nd) (newLinks nd) := by
  have hel : ExistsAs (newMesh nd) false [] := ⟨⟨some [], 0, false⟩, by simp [newMesh], rfl, by decide⟩
  refine ⟨⟨fun l hl => ?_, ?_⟩, ?_⟩
  · obtain ⟨i, hi, rfl⟩ := List.mem_map.1 hl
    refine ⟨by simpa using hi, rfl, hel, ?_⟩
    intro a ha k hk
    simp only [newMesh, Tree.get, Option.some.injEq] at ha; subst ha
    simp [Tree.new, Tree.hi, Tree.lo]
  · have : (newLinks nd).flatMap Link.faces = (List.range (2 * nd)).map fun i => (([] : Path), i) := by
      unfold newLinks
      generalize List.range (2 * nd) = X
      induction X with
      | nil => rfl
      | cons x X ih => simp only [List.map_cons, List.flatMap_cons, ih, Link.faces]; rfl
    rw [this]
    exact List.nodup_range.map (fun a b hab => (Prod.mk.inj hab).2)
  · rintro p i ⟨d, e, he, ht, -⟩ hi
    have : p = [] := by
      cases d
      · simp [newMesh] at he; subst he; simpa using ht.symm
      · simp [newMesh] at he
    subst this
    exact ⟨.bound false ([], i) i, List.mem_map.2 ⟨i, by simpa using hi, rfl⟩, by simp [Link.faces]⟩

theorem update_fit {S : Option (Surface nd)} {st r s : St nd} {o : Orders nd} {fuel : Nat} (h : Mesh S st) (hr : Requests st r) (ho : o.Fair)
    (he : Adapt.update (hits S) (away S) o fuel r = some (some s)) : Fit S s := (mesh_ok (.update h hr ho he (.refl s))).1

theorem setSurface_fit {S0 : Option (Surface nd)} {S : Surface nd} {st s : St nd} {o : Orders nd} {fuel : Nat} {start : Path} (h : Mesh S0 st) (hs : ∃ c, get start st.root = some c) (ho : o.Fair)
    (he : Adapt.setSurface S.hits S.away o fuel start st = some (some s)) : Fit (some S) s ∧ ∀ p, Exists s p → Exists st p := by
  have hf := (mesh_ok h).1
  obtain ⟨n0, hall⟩ := setSurface_ok (S := S) ho hf.consistent hf.stay hf.balanced hs
  rcases hall fuel with ⟨x, e1, e2, e3, -⟩ | ⟨-, e1⟩
  · rw [he] at e1; simp only [Option.some.injEq] at e1; subst e1
    refine ⟨e2, fun p hp => ?_⟩
    obtain ⟨d, e, k1, k2, k3⟩ := id hp
    obtain ⟨c, hc⟩ := e2.consistent.valid d e k1 p k2
    exact (e3 p c hp hc).2.1
  · rw [he] at e1; simp at e1

theorem wired_ok (hnd : 2 ≤ nd) {S : Option (Surface nd)} {st : St nd} {links : List Link} (h : Wired S st links) : Sound st links ∧ Complete st links := by
  induction h with
  | new => exact newLinks_ok
  | @update S st r s s' o fuel links left links' hw hr ho he hkept hsv hun hcon hrest ih =>
    have hf := (mesh_ok hw.mesh).1
    have hf' := update_fit hw.mesh hr ho he
    have hleft := hsv.sound hf.consistent hf'.tidy ih.1 (hsv.extr_update hf.consistent hf'.consistent ih.1 hun)
    obtain ⟨x, k1, k2, k3⟩ := connectAll_ok hnd hf'.tidy (fun p hp => (hf'.kinds p).2 hp) hleft
    rw [hcon] at k1; simp only [Option.some.injEq] at k1; subst k1
    exact ⟨hrest.sound k2, hrest.complete k3⟩
  | @setSurface S0 S st s s' o fuel start links left links' hw hs ho he hsv hcon hrest ih =>
    have hf := (mesh_ok hw.mesh).1
    obtain ⟨hf', hold⟩ := setSurface_fit hw.mesh hs ho he
    have hleft := hsv.sound hf.consistent hf'.tidy ih.1 (hsv.extr_surface hf.tidy hf'.consistent ih.1 hold)
    obtain ⟨x, k1, k2, k3⟩ := connectAll_ok hnd hf'.tidy (fun p hp => (hf'.kinds p).2 hp) hleft
    rw [hcon] at k1; simp only [Option.some.injEq] at k1; subst k1
    exact ⟨hrest.sound k2, hrest.complete k3⟩

end Hexed.Adapt
