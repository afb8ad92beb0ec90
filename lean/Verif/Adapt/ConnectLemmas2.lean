import Verif.Adapt.ConnectLemmas

set_option autoImplicit false
set_option linter.unusedVariables false

/-!
# Lemmas about the connection of tree elements: which faces belong together, and one face after the other
-/

namespace Hexed.Adapt
open Hexed.Tree (Path get IsDir Borders IsLeafAt Reachable findNeighbors findNeighbor extremalLeaves faceDir)

variable {nd : Nat}

theorem get_uniq {t : Tree nd} {p : Path} {a b : Tree nd} (h : get p t = some a) (h' : get p t = some b) : a = b := by
  rw [h] at h'; exact Option.some.inj h'

theorem Exists.leaf' {st : St nd} (h : Consistent st) {p : Path} (hp : Exists st p) {a : Tree nd} (ha : get p st.root = some a) : a.children = [] := by
  obtain ⟨c, g1, g2⟩ := hp.leaf h
  rw [get_uniq ha g1]; exact g2

/-- Faces that belong to one connection, told from the mesh alone. -/
def Mate (st : St nd) (f g : Face) : Prop := g = f ∨ (Exists st g.1 ∧ g.2 = opp f.2 ∧ ∃ a b, get f.1 st.root = some a ∧ get g.1 st.root = some b ∧ Borders a b (direction nd f.2)) ∨
  (Exists st g.1 ∧ g.2 = f.2 ∧ ∃ a b r c, get f.1 st.root = some a ∧ get g.1 st.root = some b ∧ get r st.root = some c ∧ Exists st r ∧
    Borders a c (direction nd f.2) ∧ c.rl < a.rl ∧ Borders c b (direction nd (opp f.2)))

theorem not_boundary {t a b : Tree nd} (h : Reachable t) {p q : Path} (hp : get p t = some a) (hq : get q t = some b) (hql : b.children = []) {i : Nat} (hi : i < 2 * nd)
    (hb : Borders a b (direction nd i)) (hbd : ∀ k : Fin nd, k.val = i / 2 → if i % 2 = 1 then a.hi k = 1 else a.lo k = 0) : False := by
  have hh := hbd ⟨i / 2, by omega⟩ rfl
  obtain ⟨l, h1, -, h3⟩ := Tree.find_neighbors_exact h hp _ (isDir_direction (nd := nd) i)
  have := (Tree.find_neighbors_empty h hp _ (isDir_direction i)).2 ⟨⟨i / 2, by omega⟩, by
    simp only [direction, if_true, sign]
    rcases Nat.mod_two_eq_zero_or_one i with hz | hz <;> simp [hz] at hh ⊢ <;> exact hh⟩
  rw [h1] at this
  simp only [Option.some.injEq] at this; subst this
  have := (h3 q).2 ⟨b, hq, hql, hb⟩
  simp at this

theorem mate_conf {st : St nd} (h : Consistent st) {p q : Path} {i : Nat} (hi : i < 2 * nd) (hm : Meets st p q i 0) (hp : Exists st p) (hq : Exists st q) (g : Face) :
    (g = (p, i) ∨ g = (q, opp i)) ↔ Mate st (p, i) g := by
  obtain ⟨a, b, ha, hb, hbor, hrl⟩ := hm
  have hal := hp.leaf' h ha
  have hbl := hq.leaf' h hb
  constructor
  · rintro (rfl | rfl)
    · exact .inl rfl
    · exact .inr (.inl ⟨hq, rfl, a, b, ha, hb, hbor⟩)
  · rintro (rfl | ⟨g1, g2, a', b', ha', hb', hbor'⟩ | ⟨g1, g2, a', b', r, c, ha', hb', hc', hr, hbor', hlt, -⟩)
    · exact .inl rfl
    · right
      have := get_uniq ha ha'; subst this
      have := coarse_unique h.reach ha hb hbl hb' (g1.leaf' h hb') (isDir_direction i) hbor hbor' (by omega)
      exact Prod.ext this g2
    · exfalso
      have := get_uniq ha ha'; subst this
      have := coarse_unique h.reach ha hb hbl hc' (hr.leaf' h hc') (isDir_direction i) hbor hbor' (by omega)
      subst this
      have := get_uniq hb hc'; subst this
      omega

theorem meets_symm {st : St nd} (h : Consistent st) {p q : Path} {i : Nat} (hi : i < 2 * nd) (hm : Meets st p q i 0) (hp : Exists st p) (hq : Exists st q) :
    Meets st q p (opp i) 0 := by
  obtain ⟨a, b, ha, hb, hbor, hrl⟩ := hm
  exact ⟨b, a, hb, ha, borders_symm h.reach ha (hp.leaf' h ha) hb (hq.leaf' h hb) hi hbor, by omega⟩

/-- The faces of a right connection are those that belong together. -/
theorem Link.Right.mate {st : St nd} (h : Tidy st) {l : Link} (hl : l.Right st) {f : Face} (hf : f ∈ l.faces) (g : Face) : g ∈ l.faces ↔ Mate st f g := by
  have hc := h.cons
  cases l with
  | conf d a b =>
    obtain ⟨p, i⟩ := a
    obtain ⟨q, j⟩ := b
    obtain ⟨hi, rfl, -, hm, hp, hq, -⟩ := hl
    simp only [Link.faces, List.mem_cons, List.not_mem_nil, or_false] at hf ⊢
    rcases hf with rfl | rfl
    · exact mate_conf hc hi hm hp hq g
    · rw [← mate_conf hc (opp_lt hi) (meets_symm hc hi hm hp hq) hq hp g, opp_opp]
      exact Or.comm
  | hang d c fine =>
    obtain ⟨p, i⟩ := c
    obtain ⟨hi, hp, hlen, hfine, hall, -, -⟩ := hl
    simp only [Link.faces, List.mem_cons] at hf ⊢
    have hne : ∃ f0, f0 ∈ fine := by
      cases fine with
      | nil => have := Nat.two_pow_pos (nd - 1); simp only [List.length_nil] at hlen; omega
      | cons x y => exact ⟨x, by simp⟩
    rcases hf with rfl | hf
    · constructor
      · rintro (rfl | hg)
        · exact .inl rfl
        · obtain ⟨g2, ⟨a, b, ha, hb, hbor, -⟩, g3⟩ := hfine g hg
          exact .inr (.inl ⟨g3, g2, a, b, ha, hb, hbor⟩)
      · rintro (rfl | ⟨g1, g2, a, b, ha, hb, hbor⟩ | ⟨g1, g2, a, b, r, c, ha, hb, hcc, hr, hbor, hlt, -⟩)
        · exact .inl rfl
        · right
          have := hall g.1 b a ha hb (g1.leaf' hc hb) hbor
          rwa [show g = (g.1, opp i) from Prod.ext rfl g2]
        · exfalso
          obtain ⟨f0, hf0⟩ := hne
          obtain ⟨-, ⟨a', b', ha', hb', hbor', hrl⟩, hex⟩ := hfine f0 hf0
          have := get_uniq ha ha'; subst this
          have := coarse_unique hc.reach ha hcc (hr.leaf' hc hcc) hb' (hex.leaf' hc hb') (isDir_direction i) hbor hbor' hlt.le
          rw [this] at hb'
          have := get_uniq hcc hb'; subst this
          omega
    · obtain ⟨q, j⟩ := f
      obtain ⟨e, ⟨a, b, ha, hb, hbor, hrl⟩, hq⟩ := hfine _ hf
      simp only at e hb hq; subst e
      have hal := hp.leaf' hc ha
      have hbl := hq.leaf' hc hb
      have hsym := borders_symm hc.reach ha hal hb hbl hi hbor
      constructor
      · rintro (rfl | hg)
        · exact .inr (.inl ⟨hp, (opp_opp i).symm, b, a, hb, ha, hsym⟩)
        · obtain ⟨g2, ⟨a', b', ha', hb', hbor', -⟩, g3⟩ := hfine g hg
          have := get_uniq ha ha'; subst this
          exact .inr (.inr ⟨g3, g2, b, b', p, a, hb, hb', ha, hp, hsym, by omega, by simp only [opp_opp]; exact hbor'⟩)
      · rintro (rfl | ⟨g1, g2, b', c', hb', hc', hbor'⟩ | ⟨g1, g2, b', c', r, cc, hb', hc', hcc, hr, hbor', hlt, hbor''⟩)
        · exact .inr hf
        · left
          have := get_uniq hb hb'; subst this
          have := coarse_unique hc.reach hb ha hal hc' (g1.leaf' hc hc') (isDir_direction _) hsym hbor' (by omega)
          exact Prod.ext this (by rw [g2]; exact opp_opp i)
        · right
          have := get_uniq hb hb'; subst this
          have := coarse_unique hc.reach hb ha hal hcc (hr.leaf' hc hcc) (isDir_direction _) hsym hbor' (by omega)
          subst this
          have := get_uniq ha hcc; subst this
          simp only [opp_opp] at hbor''
          have := hall g.1 c' a ha hc' (g1.leaf' hc hc') hbor''
          rwa [show g = (g.1, opp i) from Prod.ext rfl g2]
  | bound d a bc =>
    obtain ⟨p, i⟩ := a
    obtain ⟨hi, -, hp, hbd⟩ := hl
    simp only [Link.faces, List.mem_singleton] at hf ⊢
    subst hf
    constructor
    · rintro rfl; exact .inl rfl
    · rintro (rfl | ⟨g1, g2, a, b, ha, hb, hbor⟩ | ⟨g1, g2, a, b, r, c, ha, hb, hcc, hr, hbor, hlt, -⟩)
      · rfl
      · exact (not_boundary hc.reach ha hb (g1.leaf' hc hb) hi hbor (hbd a ha)).elim
      · exact (not_boundary hc.reach ha hcc (hr.leaf' hc hcc) hi hbor (hbd a ha)).elim
  | extr a =>
    obtain ⟨p, i⟩ := a
    obtain ⟨hi, hp, hexp⟩ := hl
    have hp' : Exists st p := exists_as.2 (.inl hp)
    simp only [Link.faces, List.mem_singleton] at hf ⊢
    subst hf
    have key : ∀ a q b, get p st.root = some a → get q st.root = some b → Exists st q → Borders a b (direction nd i) → False := by
      intro a q b ha hb hq hbor
      obtain ⟨r, c, hr, hrl, hrb, hrn⟩ := hexp a ha
      rcases h.faces p a _ hp' ha (isDir_direction i) (loop_one hi).1 with hh | hh
      · exact hrn (hh r c hr hrl hrb)
      · exact hh q b hb (hq.leaf' hc hb) hbor hq
    constructor
    · rintro rfl; exact .inl rfl
    · rintro (rfl | ⟨g1, g2, a, b, ha, hb, hbor⟩ | ⟨g1, g2, a, b, r, c, ha, hb, hcc, hr, hbor, hlt, -⟩)
      · rfl
      · exact (key a _ b ha hb g1 hbor).elim
      · exact (key a _ c ha hcc hr hbor).elim

theorem linked_iff {links : List Link} {f : Face} : linked links f = true ↔ ∃ l ∈ links, f ∈ l.faces := by
  simp [linked]

/-- A right connection for a face that has none can be added. -/
theorem Sound.add {st : St nd} (h : Tidy st) {links : List Link} (hs : Sound st links) {l : Link} (hl : l.Right st) (hn : l.faces.Nodup) {f : Face} (hf : f ∈ l.faces)
    (hu : linked links f = false) : Sound st (links ++ [l]) := by
  refine ⟨fun x hx => ?_, ?_⟩
  · rcases List.mem_append.1 hx with hx | hx
    · exact hs.right x hx
    · simp only [List.mem_singleton] at hx; subst hx; exact hl
  · simp only [List.flatMap_append, List.flatMap_cons, List.flatMap_nil, List.append_nil]
    refine List.nodup_append.2 ⟨hs.once, hn, ?_⟩
    rintro g hg g' hg' rfl
    obtain ⟨x, hx, hgx⟩ := List.mem_flatMap.1 hg
    have h1 := (hl.mate h hg' f).1 hf
    have h2 := ((hs.right x hx).mate h hgx f).2 h1
    have := linked_iff.2 ⟨x, hx, h2⟩
    rw [hu] at this; exact absurd this (by decide)

/-- The kinds of elements exclude each other. -/
theorem kind_unique {st : St nd} (h : Consistent st) {p : Path} {d d' : Bool} (h1 : ExistsAs st d p) (h2 : ExistsAs st d' p) : d = d' := by
  have key : ExistsAs st false p → ExistsAs st true p → False := by
    rintro ⟨e1, k1, t1, -⟩ ⟨e2, k2, t2, -⟩
    have := h.uniq
    simp only [St.all, List.filterMap_append, List.nodup_append] at this
    exact this.2.2 p (List.mem_filterMap.2 ⟨e1, k1, t1⟩) p (List.mem_filterMap.2 ⟨e2, k2, t2⟩) rfl
  cases d <;> cases d'
  · rfl
  · exact (key h1 h2).elim
  · exact (key h2 h1).elim
  · rfl

theorem confLink_ok {st : St nd} (h : Tidy st) {p q : Path} {i : Nat} (hi : i < 2 * nd) (hm : Meets st p q i 0) (hp : Exists st p) (hq : Exists st q) :
    (confLink st p q (i / 2) (i % 2)).Right st ∧ (confLink st p q (i / 2) (i % 2)).faces.Nodup ∧ (p, i) ∈ (confLink st p q (i / 2) (i % 2)).faces := by
  have e0 : 2 * (i / 2) + i % 2 = i := by omega
  unfold confLink
  split
  · rename_i hd
    simp only [Bool.and_eq_true, h.isDef] at hd
    rw [e0, opp_eq]
    refine ⟨⟨hi, rfl, by simp, hm, hp, hq, by simp [hd]⟩, ?_, by simp [Link.faces]⟩
    simp only [Link.faces, List.nodup_cons, List.mem_singleton, Prod.mk.injEq, not_and, List.not_mem_nil, not_false_eq_true, List.nodup_nil, and_true]
    exact fun _ hh => opp_ne i hh.symm
  · rename_i hd
    have hd' : ¬(ExistsAs st true p ∧ ExistsAs st true q) := by
      rw [← h.isDef, ← h.isDef, ← Bool.and_eq_true]; exact hd
    have hne : ∀ x : Nat, ¬(2 * x + 1 = 2 * x) := by omega
    split
    · rename_i h1
      have e1 : 2 * (i / 2) + 1 = i := by omega
      have e2 : 2 * (i / 2) = opp i := by unfold opp; omega
      refine ⟨⟨by omega, by unfold opp; omega, by omega, by rw [e1]; exact hm, hp, hq, by simpa using hd'⟩, ?_, by simp [Link.faces, e1]⟩
      simp [Link.faces]
    · rename_i h1
      have e1 : 2 * (i / 2) = i := by omega
      have e2 : 2 * (i / 2) + 1 = opp i := by unfold opp; omega
      refine ⟨⟨by omega, by unfold opp; omega, by omega, by rw [e2]; exact meets_symm h.cons hi hm hp hq, hq, hp, by simp only [Bool.false_eq_true, false_iff]; rwa [and_comm]⟩, ?_,
        by simp [Link.faces, e1]⟩
      simp [Link.faces]

theorem refined_ok {st : St nd} (h : Tidy st) {c : Path} {i : Nat} {l : List Path} (hi : i < 2 * nd) (hc : Exists st c) (hq : Quarters st c i l) {k s : Nat} (hk : k = i / 2)
    (hs : s = 1 - i % 2) :
    ∃ x, connectRefined st c k s l = some x ∧ x.Right st ∧ x.faces.Nodup ∧ (c, i) ∈ x.faces ∧ ∀ q ∈ l, (q, opp i) ∈ x.faces := by
  subst hk hs
  have e0 : 2 * (i / 2) + (1 - (1 - i % 2)) = i := by omega
  have e1 : 2 * (i / 2) + (1 - i % 2) = opp i := rfl
  have e2 : 2 * (i / 2) + 1 - (1 - i % 2) = i := by omega
  have e3 : 2 * (i / 2) + 1 - (1 - (1 - i % 2)) = opp i := by unfold opp; omega
  unfold connectRefined
  rw [if_pos ⟨hq.len, by simp only [List.all_eq_true]; exact fun q hq' => (h.hasElem q).2 (hq.ex q hq')⟩]
  refine ⟨_, rfl, ?_⟩
  rw [e0, e1, e2, e3]
  have gen : ∀ d : Bool, (d = true ↔ ExistsAs st true c ∧ ∀ q ∈ l, ExistsAs st true q) → (Link.hang d (c, i) (l.map fun q => (q, opp i))).Right st ∧
      (Link.hang d (c, i) (l.map fun q => (q, opp i))).faces.Nodup ∧ (c, i) ∈ (Link.hang d (c, i) (l.map fun q => (q, opp i))).faces ∧
      ∀ q ∈ l, (q, opp i) ∈ (Link.hang d (c, i) (l.map fun q => (q, opp i))).faces := by
    intro d hd
    refine ⟨⟨hi, hc, by simpa using hq.len, ?_, ?_, ?_, ?_⟩, ?_, by simp [Link.faces], ?_⟩
    · intro f hf
      obtain ⟨q, hq', rfl⟩ := List.mem_map.1 hf
      exact ⟨rfl, hq.mem q hq', hq.ex q hq'⟩
    · intro q b a ha hb hbl hbor
      exact List.mem_map.2 ⟨q, hq.all q b a ha hb hbl hbor, rfl⟩
    · intro a k f b ha hk hb e he
      rw [List.getElem?_map, Option.map_eq_some_iff] at hk
      obtain ⟨q, hk, rfl⟩ := hk
      exact hq.ord a k q b ha hk hb e he
    · rw [hd]; simp
    · simp only [Link.faces, List.nodup_cons, List.mem_map, Prod.mk.injEq, not_exists, not_and]
      refine ⟨fun q _ _ hh => opp_ne i hh, hq.nodup.map (fun a b hab => (Prod.mk.inj hab).1)⟩
    · intro q hq'
      simp [Link.faces, hq']
  split
  · rename_i hd
    simp only [Bool.and_eq_true, List.all_eq_true, h.isDef] at hd
    exact gen true (by simp only [true_iff]; exact hd)
  · rename_i hd
    simp only [Bool.and_eq_true, List.all_eq_true, h.isDef] at hd
    exact gen false (by simp only [Bool.false_eq_true, false_iff]; exact hd)

/-- What is known about a face once `connect_new` has treated it. -/
def Treated (st : St nd) (links : List Link) (p : Path) (i : Nat) : Prop := linked links (p, i) = true ∨ ∀ a, get p st.root = some a → Exposed st a (direction nd i) ∨
  (isMinCorner st.root p (i / 2) = false ∧ ∃ q b, get q st.root = some b ∧ Exists st q ∧ Borders a b (direction nd i) ∧ b.rl < a.rl)

theorem linked_mono {links more : List Link} {f : Face} (h : linked links f = true) : linked (links ++ more) f = true := by
  obtain ⟨l, h1, h2⟩ := linked_iff.1 h
  exact linked_iff.2 ⟨l, List.mem_append.2 (.inl h1), h2⟩

theorem Treated.mono {st : St nd} {links more : List Link} {p : Path} {i : Nat} (h : Treated st links p i) : Treated st (links ++ more) p i := by
  rcases h with h | h
  · exact .inl (linked_mono h)
  · exact .inr h

/-- One face. -/
theorem connectFace_ok (hnd : 2 ≤ nd) {st : St nd} (h : Tidy st) {d : Bool} {p : Path} (hpd : ExistsAs st d p) {links : List Link} (hs : Sound st links) {i : Nat} (hi : i < 2 * nd) :
    ∃ more, connectFace st d p links i = some (links ++ more) ∧ Sound st (links ++ more) ∧ Treated st (links ++ more) p i := by
  have hp : Exists st p := exists_as.2 (by cases d; exacts [.inr hpd, .inl hpd])
  obtain ⟨a, ha, hal⟩ := hp.leaf h.cons
  have hc := h.cons
  unfold connectFace
  simp only
  split
  · rename_i hl
    exact ⟨[], by simp, by simpa using hs, by rw [List.append_nil]; exact .inl hl⟩
  · rename_i hu
    simp only [Bool.not_eq_true] at hu
    have added : ∀ l : Link, l.Right st → l.faces.Nodup → (p, i) ∈ l.faces → ∃ more, some (links ++ [l]) = some (links ++ more) ∧ Sound st (links ++ more) ∧ Treated st (links ++ more) p i :=
      fun l h1 h2 h3 => ⟨[l], rfl, hs.add h h1 h2 h3 hu, .inl (linked_iff.2 ⟨l, by simp, h3⟩)⟩
    have nothing : Treated st links p i → ∃ more, some links = some (links ++ more) ∧ Sound st (links ++ more) ∧ Treated st (links ++ more) p i :=
      fun ht => ⟨[], by simp, by simpa using hs, by simpa using ht⟩
    obtain ⟨l, h1, hnodup, h3⟩ := Tree.find_neighbors_exact hc.reach ha _ (isDir_direction (nd := nd) i)
    rw [h1, Option.bind_some]
    have exposed : ∀ q ∈ l, hasElem st q = false → Treated st links p i := by
      intro q hq he
      right; intro a' ha'
      have := get_uniq ha ha'; subst this
      obtain ⟨b, hb, hbl, hbor⟩ := (h3 q).1 hq
      exact .inl ⟨q, b, hb, hbl, hbor, fun hh => by rw [(h.hasElem q).2 hh] at he; simp at he⟩
    match l, h1, hnodup, h3, exposed with
    | [], h1, hnodup, h3, exposed =>
      simp only
      refine added _ ⟨hi, rfl, hpd, fun a' ha' k hk => ?_⟩ (by simp [Link.faces]) (by simp [Link.faces])
      have := get_uniq ha ha'; subst this
      obtain ⟨k', hk'⟩ := (Tree.find_neighbors_empty hc.reach ha _ (isDir_direction i)).1 h1
      have hkk : k' = k := by
        by_contra hne
        simp only [direction] at hk'
        rw [if_neg (fun hh => hne (Fin.ext (by rw [hh, hk])))] at hk'
        simp at hk'
      subst hkk
      simp only [direction, if_pos hk, sign] at hk'
      rcases Nat.mod_two_eq_zero_or_one i with hz | hz <;> simp [hz] at hk' ⊢ <;> exact hk'
    | [q], h1, hnodup, h3, exposed =>
      simp only
      obtain ⟨b, hb, hbl, hbor⟩ := (h3 q).1 (by simp)
      split
      · rename_i hqe
        have hq := (h.hasElem q).1 hqe
        rw [level_eq hc ha, level_eq hc hb, Option.bind_some, Option.bind_some]
        have e1 := rl_length hc ha
        have e2 := rl_length hc hb
        have hle : b.rl ≤ a.rl := by
          by_contra hgt
          obtain ⟨l, g1, g2⟩ := h.quarters ha hp hb hq hi hbor (by omega)
          rw [h1] at g1; simp only [Option.some.injEq] at g1; subst g1
          have := g2.len
          have h2 : 2 ^ 1 ≤ 2 ^ (nd - 1) := Nat.pow_le_pow_right (by decide) (by omega)
          simp only [List.length_singleton] at this
          omega
        split
        · rename_i heq
          obtain ⟨g1, g2, g3⟩ := confLink_ok h hi ⟨a, b, ha, hb, hbor, by omega⟩ hp hq
          exact added _ g1 g2 g3
        · rename_i hne
          have hsym := borders_symm hc.reach ha hal hb hbl hi hbor
          obtain ⟨m, g1, g2⟩ := h.quarters hb hq ha hp (opp_lt hi) hsym (by omega)
          split
          · rename_i hmin
            rw [dir_opp, g1, Option.bind_some]
            obtain ⟨x, k1, k2, k3, k4, k5⟩ := refined_ok h (opp_lt hi) hq g2 (k := i / 2) (s := i % 2) (by rw [opp_div]) (by rw [opp_mod]; omega)
            rw [k1, Option.map_some]
            have := k5 p (g2.all p a b hb ha hal hsym)
            rw [opp_opp] at this
            exact added x k2 k3 this
          · rename_i hmin
            refine nothing (.inr fun a' ha' => ?_)
            have := get_uniq ha ha'; subst this
            exact .inr ⟨by simpa using hmin, q, b, hb, hq, hbor, by omega⟩
      · rename_i hqe
        exact nothing (exposed q (by simp) (by simpa using hqe))
    | q :: q' :: l', h1, hnodup, h3, exposed =>
      simp only
      obtain ⟨b, hb, hbl, hbor⟩ := (h3 q).1 (by simp)
      split
      · rename_i hqe
        have hq := (h.hasElem q).1 hqe
        have hlt : a.rl < b.rl := by
          by_contra hle
          obtain ⟨b', hb', hbl', hbor'⟩ := (h3 q').1 (by simp)
          have := coarse_unique hc.reach ha hb hbl hb' hbl' (isDir_direction i) hbor hbor' (by omega)
          subst this
          simp at hnodup
        obtain ⟨m, g1, g2⟩ := h.quarters ha hp hb hq hi hbor hlt
        rw [h1] at g1; simp only [Option.some.injEq] at g1; subst g1
        obtain ⟨x, k1, k2, k3, k4, k5⟩ := refined_ok h hi hp g2 (k := i / 2) (s := 1 - i % 2) rfl rfl
        rw [k1, Option.map_some]
        exact added x k2 k3 k4
      · rename_i hqe
        exact nothing (exposed q (by simp) (by simpa using hqe))

/-- The faces of one element. -/
theorem connectFaces_ok (hnd : 2 ≤ nd) {st : St nd} (h : Tidy st) {d : Bool} {p : Path} (hpd : ExistsAs st d p) : ∀ (l : List Nat), (∀ i ∈ l, i < 2 * nd) → ∀ {links : List Link}, Sound st links →
    ∃ more, l.foldlM (connectFace st d p) links = some (links ++ more) ∧ Sound st (links ++ more) ∧ ∀ i ∈ l, Treated st (links ++ more) p i := by
  intro l
  induction l with
  | nil => intro _ links hs; exact ⟨[], by simp, by simpa using hs, by simp⟩
  | cons i l ih =>
    intro hl links hs
    obtain ⟨m1, a1, a2, a3⟩ := connectFace_ok hnd h hpd hs (hl i (by simp))
    obtain ⟨m2, b1, b2, b3⟩ := ih (fun j hj => hl j (by simp [hj])) a2
    refine ⟨m1 ++ m2, ?_, by rw [← List.append_assoc]; exact b2, ?_⟩
    · rw [List.foldlM_cons, a1]
      simp only [Option.bind_eq_bind, Option.bind_some]
      rw [b1, List.append_assoc]
    · intro j hj
      rw [← List.append_assoc]
      rcases List.mem_cons.1 hj with rfl | hj
      · exact a3.mono
      · exact b3 j hj

/-- The elements of one kind. -/
theorem connectElems_ok (hnd : 2 ≤ nd) {st : St nd} (h : Tidy st) {d : Bool} : ∀ (l : List El), (∀ e ∈ l, e ∈ st.els d) → ∀ {links : List Link}, Sound st links →
    ∃ more, l.foldlM (connectElem st d) links = some (links ++ more) ∧ Sound st (links ++ more) ∧
      ∀ e ∈ l, ∀ p, e.tree = some p → ∀ i < 2 * nd, Treated st (links ++ more) p i := by
  intro l
  induction l with
  | nil => intro _ links hs; exact ⟨[], by simp, by simpa using hs, by simp⟩
  | cons e l ih =>
    intro hl links hs
    have key : ∃ more, connectElem st d links e = some (links ++ more) ∧ Sound st (links ++ more) ∧ ∀ p, e.tree = some p → ∀ i < 2 * nd, Treated st (links ++ more) p i := by
      unfold connectElem
      split
      · rename_i ht; exact ⟨[], by simp, by simpa using hs, by simp [ht]⟩
      · rename_i p ht
        have he := hl e (by simp)
        obtain ⟨m, b1, b2, b3⟩ := connectFaces_ok hnd h (d := d) (p := p) ⟨e, he, ht, by rw [h.stay d e he (by rw [ht]; simp)]; decide⟩ (List.range (2 * nd)) (by simp) hs
        refine ⟨m, b1, b2, ?_⟩
        intro p' hp' i hi
        rw [ht] at hp'; simp only [Option.some.injEq] at hp'; subst hp'
        exact b3 i (by simpa using hi)
    obtain ⟨m1, a1, a2, a3⟩ := key
    obtain ⟨m2, b1, b2, b3⟩ := ih (fun j hj => hl j (by simp [hj])) a2
    refine ⟨m1 ++ m2, ?_, by rw [← List.append_assoc]; exact b2, ?_⟩
    · rw [List.foldlM_cons, a1]
      simp only [Option.bind_eq_bind, Option.bind_some]
      rw [b1, List.append_assoc]
    · intro j hj p hp i hi
      rw [← List.append_assoc]
      rcases List.mem_cons.1 hj with rfl | hj
      · exact (a3 p hp i hi).mono
      · exact b3 j hj p hp i hi

end Hexed.Adapt
