import Verif.Tree.Lemmas2

set_option autoImplicit false
set_option linter.unusedVariables false

/-! Helper lemmas: flood fill and point location by position. -/

namespace Hexed.Tree
variable {nd : Nat}

/-- same element up to status (and statuses of descendants) -/
def SameCell (a b : Tree nd) : Prop := a.rl = b.rl ∧ a.coords = b.coords ∧ a.children.length = b.children.length

theorem SameCell.lo {a b : Tree nd} (h : SameCell a b) (d) : a.lo d = b.lo d := by unfold Tree.lo; rw [h.1, h.2.1]
theorem SameCell.hi {a b : Tree nd} (h : SameCell a b) (d) : a.hi d = b.hi d := by unfold Tree.hi; rw [h.1, h.2.1]
theorem SameCell.leaf {a b : Tree nd} (h : SameCell a b) : a.children = [] ↔ b.children = [] := by
  rw [← List.length_eq_zero_iff, ← List.length_eq_zero_iff, h.2.2]
theorem SameCell.symm {a b : Tree nd} (h : SameCell a b) : SameCell b a := ⟨h.1.symm, h.2.1.symm, h.2.2.symm⟩
theorem SameCell.trans {a b c : Tree nd} (h : SameCell a b) (h' : SameCell b c) : SameCell a c :=
  ⟨h.1.trans h'.1, h.2.1.trans h'.2.1, h.2.2.trans h'.2.2⟩

/-- `set_status` on one existing element changes nothing else -/
theorem get_modify_status (n : Int) : ∀ (p : Path) (t s0 : Tree nd), get p t = some s0 → ∀ q,
    (get q t = none → get q (modify (setStatusNode n) p t) = none) ∧
    (∀ s, get q t = some s → ∃ s', get q (modify (setStatusNode n) p t) = some s' ∧ SameCell s s' ∧
      s'.status = if q = p then n else s.status)
  | [], mk r c st k, s0, h, q => by
    cases q with
    | nil => simp [get, modify, setStatusNode, SameCell]
    | cons j q =>
      simp only [modify, setStatusNode]
      constructor
      · intro hn; rw [← hn]; rfl
      · intro s hs; exact ⟨s, hs, ⟨rfl, rfl, rfl⟩, by simp⟩
  | i :: p, mk r c st k, s0, h, q => by
    obtain ⟨u, hu, hs0⟩ := get_cons_some.1 h
    simp only [children_mk] at hu
    cases q with
    | nil => simp [get, modify, SameCell]
    | cons j q =>
      simp only [modify, get, children_mk, List.getElem?_modify]
      by_cases hij : i = j
      · subst hij
        rw [hu]
        have ih := get_modify_status n p u s0 hs0 q
        simp only [Option.map_eq_map, Option.map_some, if_true]
        refine ⟨ih.1, fun s hs => ?_⟩
        obtain ⟨s', h1, h2, h3⟩ := ih.2 s hs
        exact ⟨s', h1, h2, by simpa using h3⟩
      · cases hkj : k[j]? with
        | none => simp
        | some v =>
          simp only [Option.map_eq_map, Option.map_some, hij, if_false]
          refine ⟨fun h => h, fun s hs => ⟨s, hs, ⟨rfl, rfl, rfl⟩, ?_⟩⟩
          rw [if_neg (by simp; intro h; exact absurd h.symm hij)]

/-- same tree up to statuses -/
def Sim (t t' : Tree nd) : Prop :=
  ∀ q, (get q t = none ↔ get q t' = none) ∧ ∀ s s', get q t = some s → get q t' = some s' → SameCell s s'

theorem Sim.get {t t' : Tree nd} (h : Sim t t') {q} {s : Tree nd} (hs : Tree.get q t = some s) :
    ∃ s', Tree.get q t' = some s' ∧ SameCell s s' := by
  cases h' : Tree.get q t' with
  | none => rw [(h q).1.2 h'] at hs; simp at hs
  | some s' => exact ⟨s', rfl, (h q).2 s s' hs h'⟩

theorem Sim.refl (t : Tree nd) : Sim t t := fun q => ⟨Iff.rfl, fun s s' h h' => by
  rw [h] at h'; simp at h'; subst h'; exact ⟨rfl, rfl, rfl⟩⟩

theorem Sim.symm {t t' : Tree nd} (h : Sim t t') : Sim t' t := fun q =>
  ⟨(h q).1.symm, fun s s' hs hs' => ((h q).2 s' s hs' hs).symm⟩

theorem Sim.trans {t t' t'' : Tree nd} (h : Sim t t') (h' : Sim t' t'') : Sim t t'' := fun q =>
  ⟨(h q).1.trans (h' q).1, fun s s'' hs hs'' => by
    obtain ⟨s', h1, h2⟩ := h.get hs
    exact h2.trans ((h' q).2 s' s'' h1 hs'')⟩

theorem sim_modify (n : Int) {p} {t s0 : Tree nd} (h : Tree.get p t = some s0) : Sim t (modify (setStatusNode n) p t) := by
  intro q
  have := get_modify_status n p t s0 h q
  refine ⟨⟨this.1, fun hn => ?_⟩, fun s s' hs hs' => ?_⟩
  · cases hq : Tree.get q t with
    | none => rfl
    | some s => obtain ⟨s', h1, _⟩ := this.2 s hq; rw [hn] at h1; simp at h1
  · obtain ⟨s'', h1, h2, _⟩ := this.2 s hs
    rw [hs'] at h1; simp at h1; subst h1; exact h2

theorem Sim.adjacent {t t' : Tree nd} (h : Sim t t') {p q} (ha : FaceAdjacent t p q) : FaceAdjacent t' p q := by
  obtain ⟨a, b, h1, h2, h4, d, h5, h6⟩ := ha
  obtain ⟨a', g1, s1⟩ := h.get h1
  obtain ⟨b', g2, s2⟩ := h.get h2
  refine ⟨a', b', g1, g2, s2.leaf.1 h4, d, ?_, fun e he => ?_⟩
  · rw [← s1.lo, ← s1.hi, ← s2.lo, ← s2.hi]; exact h5
  · rw [← s1.lo, ← s1.hi, ← s2.lo, ← s2.hi]; exact h6 e he

theorem isDir_faceDir (d : Fin nd) (sign : Int) (h : sign = -1 ∨ sign = 1) : IsDir (faceDir d sign) := by
  intro e; unfold faceDir; split <;> omega

/-- distinct leaves have non-overlapping cells -/
theorem leaves_disjoint {t a b : Tree nd} (h : WF t) {p q} (hp : Tree.get p t = some a) (hq : Tree.get q t = some b)
    (ha : a.children = []) (hb : b.children = []) (hpq : p ≠ q) : ∃ d, a.hi d ≤ b.lo d ∨ b.hi d ≤ a.lo d := by
  by_contra hcon
  push Not at hcon
  rcases prefix_of_overlap h hp hq (fun d => ⟨(hcon d).1, (hcon d).2⟩) with h1 | h1
  · exact hpq (leaf_prefix hp ha hq h1)
  · exact hpq (leaf_prefix hq hb hp h1).symm

/-- for an element and a leaf, bordering in a face direction is sharing a face -/
theorem borders_faceDir {t a b : Tree nd} (h : WF t) {p q} (hp : Tree.get p t = some a) (hq : Tree.get q t = some b)
    (hb : b.children = []) (d : Fin nd) (sign : Int) (hs : sign = -1 ∨ sign = 1) :
    Borders a b (faceDir d sign) ↔
      (if sign = 1 then a.hi d = b.lo d else b.hi d = a.lo d) ∧ ∀ e, e ≠ d → b.lo e < a.hi e ∧ a.lo e < b.hi e := by
  have wa := wd_pos a
  have wb := wd_pos b
  have ea := hi_eq a
  have eb := hi_eq b
  constructor
  · intro hbo
    have ho : ∀ e, e ≠ d → b.lo e < a.hi e ∧ a.lo e < b.hi e := by
      intro e he
      have := hbo e
      simpa [faceDir, he] using this
    refine ⟨?_, ho⟩
    have hd := hbo d
    simp only [faceDir, if_true] at hd
    have he : a.hi d ≤ b.lo d ∨ b.hi d ≤ a.lo d := by
      by_contra hcon
      push Not at hcon
      have hov : ∀ e, b.lo e < a.hi e ∧ a.lo e < b.hi e := by
        intro e
        by_cases he : e = d
        · subst he; exact hcon
        · exact ho e he
      have hsub : b.hi d ≤ a.hi d ∧ a.lo d ≤ b.lo d := by
        rcases prefix_of_overlap h hp hq hov with h1 | h1
        · obtain ⟨l, rfl⟩ := h1
          rw [get_append, hp] at hq
          have := sub_box (h.get hp) (by simpa using hq) d
          exact ⟨this.2, this.1⟩
        · have := leaf_prefix hq hb hp h1
          subst this
          rw [hp] at hq; simp at hq; subst hq; simp
      rcases hs with rfl | rfl
      · simp at hd; linarith [hd.1, hd.2, hsub.1, hsub.2]
      · simp at hd; linarith [hd.1, hd.2, hsub.1, hsub.2]
    rcases hs with rfl | rfl
    · simp at hd ⊢
      rcases he with he | he
      · linarith [hd.1, hd.2, ea d]
      · linarith [hd.1, hd.2]
    · simp at hd ⊢
      rcases he with he | he
      · linarith [hd.1, hd.2]
      · linarith [hd.1, hd.2, ea d]
  · rintro ⟨h1, h2⟩ e
    by_cases he : e = d
    · subst he
      simp only [faceDir, if_true]
      rcases hs with rfl | rfl
      · simp at h1 ⊢; constructor <;> linarith [eb e]
      · simp at h1 ⊢; constructor <;> linarith [eb e]
    · simpa [faceDir, he] using h2 e he

theorem pushDirs_spec {t : Tree nd} (hr : RootWF t) {p} {a : Tree nd} (hp : Tree.get p t = some a) :
    ∀ (ds : List (Fin nd → Int)), (∀ dir ∈ ds, IsDir dir) →
    ∃ l, pushDirs t p ds = some l ∧
      ∀ q, q ∈ l ↔ ∃ b, Tree.get q t = some b ∧ b.children = [] ∧ ∃ dir ∈ ds, Borders a b dir
  | [], _ => ⟨[], rfl, by simp⟩
  | dir :: ds, h => by
    obtain ⟨l, h1, h2⟩ := pushDirs_spec hr hp ds (fun d hd => h d (by simp [hd]))
    obtain ⟨m, g1, _, g2⟩ := findNeighbors_spec hr hp dir (h dir (by simp))
    refine ⟨m ++ l, by simp [pushDirs, h1, g1], ?_⟩
    intro q
    rw [List.mem_append, h2, g2]
    constructor
    · rintro (⟨b, x, y, z⟩ | ⟨b, x, y, d, hd, z⟩)
      · exact ⟨b, x, y, dir, by simp, z⟩
      · exact ⟨b, x, y, d, by simp [hd], z⟩
    · rintro ⟨b, x, y, d, hd, z⟩
      rcases List.mem_cons.1 hd with rfl | hd
      · exact Or.inl ⟨b, x, y, z⟩
      · exact Or.inr ⟨b, x, y, d, hd, z⟩

/-- what `flood_fill` pushes for an element: exactly the face-adjacent leaves -/
theorem push_elem {t : Tree nd} (hr : RootWF t) {p} {a : Tree nd} (hp : Tree.get p t = some a) :
    ∃ l, pushDirs t p (allFaceDirs nd) = some l ∧ ∀ q, q ∈ l ↔ FaceAdjacent t p q := by
  have hall : ∀ dir ∈ allFaceDirs nd, IsDir dir := by
    intro dir hd
    simp only [allFaceDirs, List.mem_flatMap, List.mem_finRange, true_and, List.mem_cons, List.not_mem_nil, or_false] at hd
    obtain ⟨d, rfl | rfl⟩ := hd
    · exact isDir_faceDir d _ (Or.inl rfl)
    · exact isDir_faceDir d _ (Or.inr rfl)
  obtain ⟨l, h1, h2⟩ := pushDirs_spec hr hp (allFaceDirs nd) hall
  refine ⟨l, h1, fun q => ?_⟩
  rw [h2]
  constructor
  · rintro ⟨b, hb, hbl, dir, hd, hbo⟩
    simp only [allFaceDirs, List.mem_flatMap, List.mem_finRange, true_and, List.mem_cons, List.not_mem_nil, or_false] at hd
    obtain ⟨d, rfl | rfl⟩ := hd
    · have := (borders_faceDir hr.wf hp hb hbl d (-1) (Or.inl rfl)).1 hbo
      exact ⟨a, b, hp, hb, hbl, d, Or.inr (by simpa using this.1), this.2⟩
    · have := (borders_faceDir hr.wf hp hb hbl d 1 (Or.inr rfl)).1 hbo
      exact ⟨a, b, hp, hb, hbl, d, Or.inl (by simpa using this.1), this.2⟩
  · rintro ⟨a', b, hp', hb, hbl, d, h5, h6⟩
    rw [hp] at hp'; simp at hp'; subst hp'
    refine ⟨b, hb, hbl, ?_⟩
    rcases h5 with h5 | h5
    · refine ⟨faceDir d 1, ?_, (borders_faceDir hr.wf hp hb hbl d 1 (Or.inr rfl)).2 ⟨by simpa using h5, h6⟩⟩
      simp only [allFaceDirs, List.mem_flatMap, List.mem_finRange, true_and]; exact ⟨d, by simp⟩
    · refine ⟨faceDir d (-1), ?_, (borders_faceDir hr.wf hp hb hbl d (-1) (Or.inl rfl)).2 ⟨by simpa using h5, h6⟩⟩
      simp only [allFaceDirs, List.mem_flatMap, List.mem_finRange, true_and]; exact ⟨d, by simp⟩

/-! ### the queue loop -/

/-- loop invariant of `flood_fill` -/
structure FInv (n : Int) (p : Path) (t0 t : Tree nd) (queue : List Path) : Prop where
  root : RootWF t
  sim : Sim t0 t
  /-- statuses change only from unprocessed to `n`, only on reachable leaves -/
  changed : ∀ q s0 s, get q t0 = some s0 → get q t = some s → s.status ≠ s0.status → s.status = n ∧ FloodReach t0 p q
  valid : ∀ q ∈ queue, ∃ s, get q t0 = some s
  reach : ∀ q ∈ queue, ∀ s0, get q t0 = some s0 → s0.status = unprocessed → FloodReach t0 p q
  closed : ∀ q r s0 s r0 rs, get q t0 = some s0 → get q t = some s → s.status ≠ s0.status → FaceAdjacent t0 q r →
      get r t0 = some r0 → get r t = some rs → r0.status = unprocessed → rs.status ≠ r0.status ∨ r ∈ queue
  start : ∀ s0 s, get p t0 = some s0 → get p t = some s → s0.status = unprocessed → s.status ≠ s0.status ∨ p ∈ queue

theorem reach_unprocessed {t0 : Tree nd} {p q} (h : FloodReach t0 p q) : ∃ s, get q t0 = some s ∧ s.status = unprocessed := by
  cases h with
  | start h1 h2 => exact ⟨_, h1, h2⟩
  | step _ _ h1 h2 => exact ⟨_, h1, h2⟩

theorem floodLoop_spec (n : Int) (hn : n ≠ unprocessed) (p : Path) (t0 : Tree nd) (t : Tree nd) (queue : List Path)
    (hI : FInv n p t0 t queue) : ∃ t', floodLoop n hn t queue = some t' ∧ FInv n p t0 t' [] := by
  induction t, queue using floodLoop.induct n hn with
  | case1 t => exact ⟨t, by simp [floodLoop], hI⟩
  | case2 t r q hr =>
    exfalso
    obtain ⟨s, h1⟩ := hI.valid r (by simp)
    obtain ⟨s', h3, _⟩ := hI.sim.get h1
    rw [hr] at h3; simp at h3
  | case3 t r q s hr hs t' hpush =>
    exfalso
    obtain ⟨s0, h1⟩ := hI.valid r (by simp)
    have hr' : RootWF t' := hI.root.modify _ (wf_setStatusNode n) r
    have hsim : Sim t0 t' := hI.sim.trans (sim_modify n hr)
    obtain ⟨s', h3, h4⟩ := hsim.get h1
    obtain ⟨l, h5, _⟩ := push_elem hr' h3
    rw [hpush] at h5; simp at h5
  | case4 t r q s hr hs t' l hpush ih =>
    have hr' : RootWF t' := hI.root.modify _ (wf_setStatusNode n) r
    have hsim : Sim t0 t' := hI.sim.trans (sim_modify n hr)
    obtain ⟨s0, hr0⟩ := hI.valid r (by simp)
    obtain ⟨s', h3, h4⟩ := hsim.get hr0
    obtain ⟨l', h5, h6⟩ := push_elem hr' h3
    have hl : l = l' := by simpa using hpush.symm.trans h5
    subst hl
    -- statuses of t'
    have hst : ∀ x sx, get x t = some sx → ∃ sx', get x t' = some sx' ∧ sx'.status = if x = r then n else sx.status := by
      intro x sx hx
      obtain ⟨sx', g1, _, g3⟩ := (get_modify_status n r t s hr x).2 sx hx
      exact ⟨sx', g1, g3⟩
    have hs0u : s0.status = unprocessed := by
      by_contra hne
      have := hI.changed r s0 s hr0 hr (by rw [hs]; exact fun h => hne h.symm)
      exact hn (this.1.symm.trans hs)
    have hreach : FloodReach t0 p r := hI.reach r (by simp) s0 hr0 hs0u
    have hI' : FInv n p t0 t' (q ++ l) := by
      refine ⟨hr', hsim, ?_, ?_, ?_, ?_, ?_⟩
      · intro x x0 xs hx0 hxs hne
        obtain ⟨xt, hxt, _⟩ := hI.sim.get hx0
        obtain ⟨xs', g1, g2⟩ := hst x xt hxt
        rw [hxs] at g1; simp at g1; subst g1
        by_cases hxr : x = r
        · subst hxr; exact ⟨by simpa using g2, hreach⟩
        · rw [if_neg hxr] at g2
          rw [g2] at hne ⊢
          exact hI.changed x x0 xt hx0 hxt hne
      · intro x hx
        rcases List.mem_append.1 hx with hx | hx
        · exact hI.valid x (by simp [hx])
        · obtain ⟨a, b, _, g2, g4, _⟩ := (h6 x).1 hx
          obtain ⟨b0, k1, k2⟩ := hsim.symm.get g2
          exact ⟨b0, k1⟩
      · intro x hx x0 hx0 hux
        rcases List.mem_append.1 hx with hx | hx
        · exact hI.reach x (by simp [hx]) x0 hx0 hux
        · exact FloodReach.step hreach (hsim.symm.adjacent ((h6 x).1 hx)) hx0 hux
      · intro x y x0 xs y0 ys hx0 hxs hne hadj hy0 hys huy
        obtain ⟨xt, hxt, _⟩ := hI.sim.get hx0
        obtain ⟨xs', g1, g2⟩ := hst x xt hxt
        rw [hxs] at g1; simp at g1; subst g1
        by_cases hxr : x = r
        · subst hxr
          right
          exact List.mem_append.2 (Or.inr ((h6 y).2 (hsim.adjacent hadj)))
        · rw [if_neg hxr] at g2
          rw [g2] at hne
          obtain ⟨yt, hyt, _⟩ := hI.sim.get hy0
          obtain ⟨ys', k1, k2⟩ := hst y yt hyt
          rw [hys] at k1; simp at k1; subst k1
          by_cases hyr : y = r
          · left; rw [if_pos hyr] at k2; rw [k2, huy]; exact hn
          · rw [if_neg hyr] at k2
            rcases hI.closed x y x0 xt y0 yt hx0 hxt hne hadj hy0 hyt huy with h | h
            · left; rw [k2]; exact h
            · right
              rcases List.mem_cons.1 h with h | h
              · exact absurd h hyr
              · exact List.mem_append.2 (Or.inl h)
      · intro x0 xs hx0 hxs hux
        obtain ⟨xt, hxt, _⟩ := hI.sim.get hx0
        obtain ⟨xs', g1, g2⟩ := hst p xt hxt
        rw [hxs] at g1; simp at g1; subst g1
        by_cases hxr : p = r
        · left; rw [if_pos hxr] at g2; rw [g2, hux]; exact hn
        · rw [if_neg hxr] at g2
          rcases hI.start x0 xt hx0 hxt hux with h | h
          · left; rw [g2]; exact h
          · right
            rcases List.mem_cons.1 h with h | h
            · exact absurd h hxr
            · exact List.mem_append.2 (Or.inl h)
    obtain ⟨tf, h7, h8⟩ := ih hI'
    refine ⟨tf, ?_, h8⟩
    rw [floodLoop]
    split
    · rename_i h; rw [hr] at h; simp at h
    · rename_i s1 h
      rw [hr] at h; simp at h; subst h
      simp only [hs, dif_pos]
      rw [show pushDirs (modify (setStatusNode n) r t) r (allFaceDirs nd) = some l from hpush]
      exact h7
  | case5 t r q s hr hs ih =>
    have hI' : FInv n p t0 t q := by
      refine ⟨hI.root, hI.sim, hI.changed, fun x hx => hI.valid x (by simp [hx]),
        fun x hx => hI.reach x (by simp [hx]), ?_, ?_⟩
      · intro x y x0 xs y0 ys hx0 hxs hne hadj hy0 hys huy
        rcases hI.closed x y x0 xs y0 ys hx0 hxs hne hadj hy0 hys huy with h | h
        · exact Or.inl h
        · rcases List.mem_cons.1 h with h | h
          · subst h
            rw [hr] at hys; simp at hys; subst hys
            left; rw [huy]; exact hs
          · exact Or.inr h
      · intro x0 xs hx0 hxs hux
        rcases hI.start x0 xs hx0 hxs hux with h | h
        · exact Or.inl h
        · rcases List.mem_cons.1 h with h | h
          · subst h
            rw [hr] at hxs; simp at hxs; subst hxs
            left; rw [hux]; exact hs
          · exact Or.inr h
    obtain ⟨tf, h7, h8⟩ := ih hI'
    refine ⟨tf, ?_, h8⟩
    rw [floodLoop]
    split
    · rename_i h; rw [hr] at h; simp at h
    · rename_i s1 h
      rw [hr] at h; simp at h; subst h
      simp only [hs, dif_neg, not_false_eq_true]
      exact h7

theorem finv_init (n : Int) (p : Path) (t : Tree nd) (hr : RootWF t) (hp : ∃ s, get p t = some s) : FInv n p t t [p] := by
  refine ⟨hr, Sim.refl t, ?_, ?_, ?_, ?_, ?_⟩
  · intro q s0 s h1 h2 h; rw [h1] at h2; simp at h2; subst h2; simp at h
  · simpa using hp
  · intro q hq s0 h1 h2; simp at hq; subst hq; exact FloodReach.start h1 h2
  · intro q r s0 s r0 rs h1 h2 h; rw [h1] at h2; simp at h2; subst h2; simp at h
  · intro s0 s h1 h2 h3; simp

/-- when the queue is empty every reachable leaf is marked -/
theorem finv_final {n : Int} {p : Path} {t0 t : Tree nd} (h : FInv n p t0 t []) {q} (hq : FloodReach t0 p q) :
    ∀ s0 s, get q t0 = some s0 → get q t = some s → s.status ≠ s0.status := by
  induction hq with
  | start h1 h2 =>
    intro s0 s g1 g2
    rw [h1] at g1; simp at g1; subst g1
    rcases h.start _ s h1 g2 h2 with h | h
    · exact h
    · simp at h
  | step hreach hadj h1 h2 ih =>
    intro s0 s g1 g2
    rw [h1] at g1; simp at g1; subst g1
    obtain ⟨a0, ha0, _⟩ := reach_unprocessed hreach
    obtain ⟨a, ha, _⟩ := h.sim.get ha0
    rcases h.closed _ _ a0 a _ s ha0 ha (ih a0 a ha0 ha) hadj h1 g2 h2 with h | h
    · exact h
    · simp at h

/-- the complete effect of the queue loop -/
theorem floodLoop_elem (n : Int) (hn : n ≠ unprocessed) (p : Path) (t : Tree nd) (hr : RootWF t) (hp : ∃ s, get p t = some s) :
    ∃ t', floodLoop n hn t [p] = some t' ∧ RootWF t' ∧ Sim t t' ∧
      ∀ q s s', get q t = some s → get q t' = some s' →
        (FloodReach t p q → s'.status = n) ∧ (¬ FloodReach t p q → s'.status = s.status) := by
  obtain ⟨t', h1, h2⟩ := floodLoop_spec n hn p t t [p] (finv_init n p t hr hp)
  refine ⟨t', h1, h2.root, h2.sim, ?_⟩
  intro q s s' hs hs'
  constructor
  · intro hre
    exact (h2.changed q s s' hs hs' (finv_final h2 hre s s' hs hs')).1
  · intro hre
    by_contra hne
    exact hre (h2.changed q s s' hs hs' hne).2

/-- the effect of several queue loops in a row -/
theorem floodSeq_spec (n : Int) (hn : n ≠ unprocessed) : ∀ (ps : List Path) (t : Tree nd), RootWF t →
    (∀ p ∈ ps, ∃ s, get p t = some s) →
    ∃ t', floodSeq n hn ps t = some t' ∧ RootWF t' ∧ Sim t t' ∧
      ∀ q s s', get q t = some s → get q t' = some s' →
        ((∃ p ∈ ps, FloodReach t p q) → s'.status = n) ∧ ((¬ ∃ p ∈ ps, FloodReach t p q) → s'.status = s.status)
  | [], t, hr, _ => ⟨t, rfl, hr, Sim.refl t, fun q s s' h h' => by
      rw [h] at h'; simp at h'; subst h'; simp⟩
  | p :: ps, t, hr, hv => by
    obtain ⟨t1, h1, h2, h3, h4⟩ := floodLoop_elem n hn p t hr (hv p (by simp))
    obtain ⟨t', g1, g2, g3, g4⟩ := floodSeq_spec n hn ps t1 h2 (fun q hq => by
      obtain ⟨s, hs⟩ := hv q (by simp [hq])
      obtain ⟨s', hs', _⟩ := h3.get hs
      exact ⟨s', hs'⟩)
    refine ⟨t', by simp [floodSeq, h1, g1], g2, h3.trans g3, ?_⟩
    -- regions in the intermediate tree
    have back : ∀ {p' q}, FloodReach t1 p' q → FloodReach t p' q := by
      have un : ∀ {q s1}, get q t1 = some s1 → s1.status = unprocessed → ∃ s, get q t = some s ∧ s.status = unprocessed := by
        intro q s1 hq hs1
        obtain ⟨s, hs, _⟩ := h3.symm.get hq
        refine ⟨s, hs, ?_⟩
        by_cases hre : FloodReach t p q
        · exact absurd (hs1.symm.trans ((h4 q s s1 hs hq).1 hre)).symm hn
        · rw [← (h4 q s s1 hs hq).2 hre]; exact hs1
      intro p' q h
      induction h with
      | start k1 k2 => obtain ⟨s, a, b⟩ := un k1 k2; exact FloodReach.start a b
      | step _ hadj k1 k2 ih => obtain ⟨s, a, b⟩ := un k1 k2; exact FloodReach.step ih (h3.symm.adjacent hadj) a b
    have forth : ∀ {p' q}, FloodReach t p' q → FloodReach t p q ∨ FloodReach t1 p' q := by
      have un : ∀ {q s}, get q t = some s → s.status = unprocessed → ¬ FloodReach t p q →
          ∃ s, get q t1 = some s ∧ s.status = unprocessed := by
        intro q s hq hs hre
        obtain ⟨s1, hs1, _⟩ := h3.get hq
        exact ⟨s1, hs1, by rw [(h4 q s s1 hq hs1).2 hre]; exact hs⟩
      intro p' q h
      induction h with
      | start k1 k2 =>
        by_cases hre : FloodReach t p p'
        · exact Or.inl hre
        · obtain ⟨s, a, b⟩ := un k1 k2 hre; exact Or.inr (FloodReach.start a b)
      | @step q r s _ hadj k1 k2 ih =>
        by_cases hre : FloodReach t p r
        · exact Or.inl hre
        · rcases ih with ih | ih
          · exact absurd (FloodReach.step ih hadj k1 k2) hre
          · obtain ⟨s, a, b⟩ := un k1 k2 hre
            exact Or.inr (FloodReach.step ih (h3.adjacent hadj) a b)
    intro q s s' hs hs'
    obtain ⟨s1, hs1, _⟩ := h3.get hs
    have k1 := h4 q s s1 hs hs1
    have k2 := g4 q s1 s' hs1 hs'
    constructor
    · rintro ⟨p', hp', hre⟩
      by_cases hex : ∃ p ∈ ps, FloodReach t1 p q
      · exact k2.1 hex
      · have hp : FloodReach t p q := by
          rcases List.mem_cons.1 hp' with rfl | hp'
          · exact hre
          · rcases forth hre with h | h
            · exact h
            · exact absurd ⟨p', hp', h⟩ hex
        rw [k2.2 hex, k1.1 hp]
    · intro hno
      have hp : ¬ FloodReach t p q := fun h => hno ⟨p, by simp, h⟩
      have hex : ¬ ∃ p ∈ ps, FloodReach t1 p q := by
        rintro ⟨p', hp', h⟩
        exact hno ⟨p', by simp [hp'], back h⟩
      rw [k2.2 hex, k1.2 hp]

theorem floodStarts_valid (s : Tree nd) : ∀ p ∈ floodStarts s, ∃ u, get p s = some u := by
  induction s using induct with
  | h r c st k ih =>
    cases k with
    | nil => simp [floodStarts, get]
    | cons a k =>
      intro p hp
      simp only [floodStarts, List.mem_append, List.mem_map, List.mem_singleton] at hp
      rcases hp with ⟨q, hq, rfl⟩ | rfl
      · obtain ⟨u, hu⟩ := ih a (by simp) q hq
        exact ⟨u, by simp [get, hu]⟩
      · exact ⟨_, rfl⟩

/-- the complete effect of `flood_fill` on any element -/
theorem floodFill_spec (n : Int) (hn : n ≠ unprocessed) (p : Path) (t e : Tree nd) (hr : RootWF t) (hp : get p t = some e) :
    ∃ t', floodFill n p t = .ok t' ∧ RootWF t' ∧ Sim t t' ∧
      ∀ q s s', get q t = some s → get q t' = some s' →
        ((∃ x ∈ floodStarts e, FloodReach t (p ++ x) q) → s'.status = n) ∧
        ((¬ ∃ x ∈ floodStarts e, FloodReach t (p ++ x) q) → s'.status = s.status) := by
  obtain ⟨t', h1, h2, h3, h4⟩ := floodSeq_spec n hn ((floodStarts e).map (p ++ ·)) t hr (by
    intro q hq
    obtain ⟨x, hx, rfl⟩ := List.mem_map.1 hq
    obtain ⟨u, hu⟩ := floodStarts_valid e x hx
    exact ⟨u, by rw [get_append, hp]; simpa using hu⟩)
  refine ⟨t', by simp [floodFill, hn, hp, h1], h2, h3, ?_⟩
  intro q s s' hs hs'
  have := h4 q s s' hs hs'
  simpa using this

/-- every tree obtainable through the API is well formed -/
theorem Reachable.root {t : Tree nd} (h : Reachable t) : RootWF t := by
  induction h with
  | new => exact ⟨WF.leaf _ _ _, rfl, rfl⟩
  | @ok t t' op _ hs ih =>
    cases op with
    | refine p =>
      simp only [step] at hs
      split at hs
      · simp at hs
      · split at hs
        · simp at hs; subst hs; exact ih.modify _ wf_refineNode p
        · simp at hs
    | unrefine p =>
      simp only [step] at hs
      split at hs
      · simp at hs
      · simp at hs; subst hs; exact ih.modify _ wf_unrefineNode p
    | setStatus p n =>
      simp only [step] at hs
      split at hs
      · simp at hs
      · simp at hs; subst hs; exact ih.modify _ (wf_setStatusNode n) p
    | clearStatus p =>
      simp only [step] at hs
      split at hs
      · simp at hs
      · simp at hs; subst hs; exact ih.modify _ wf_clearStatusNode p
    | floodFill p n =>
      simp only [step] at hs
      by_cases hn : n = unprocessed
      · simp [floodFill, hn] at hs
      · cases hp : get p t with
        | none => simp [floodFill, hn, hp] at hs
        | some e =>
          obtain ⟨t'', h1, h2, _⟩ := floodFill_spec n hn p t e ih hp
          rw [h1] at hs; simp at hs; subst hs; exact h2

/-! ### find_leaf by position -/

section pos
variable {K : Type} [Field K] [LinearOrder K] [IsStrictOrderedRing K]

/-- the closed nominal box of an element contains the position -/
def InBox (rootSz : K) (orig pos : Fin nd → K) (t : Tree nd) : Prop :=
  ∀ d, t.nominalPosition rootSz orig d ≤ pos d ∧ pos d ≤ t.nominalPosition rootSz orig d + t.nominalSize rootSz

omit [IsStrictOrderedRing K] in
theorem inBox_iff (rootSz : K) (orig pos : Fin nd → K) (t : Tree nd) :
    (∀ d, ¬ (pos d < t.nominalPosition rootSz orig d ∨ pos d > t.nominalPosition rootSz orig d + t.nominalSize rootSz)) ↔
    InBox rootSz orig pos t := by
  unfold InBox
  apply forall_congr'; intro d
  rw [not_or, not_lt, not_lt]

theorem child_cover_pos (rootSz : K) (orig pos : Fin nd → K) {r c s k} (h : WF (mk r c s k : Tree nd)) (hk : k ≠ [])
    (hx : InBox rootSz orig pos (mk r c s k)) : ∃ (i : Nat) (a : Tree nd), k[i]? = some a ∧ InBox rootSz orig pos a := by
  obtain ⟨i, hi, hbit⟩ := bits_surj_prop (fun d =>
    (mk r c s k : Tree nd).nominalPosition rootSz orig d + rootSz / 2 ^ (r + 1) ≤ pos d)
  have hl := h.len hk
  obtain ⟨a, hi2⟩ : ∃ a, k[i]? = some a := ⟨_, List.getElem?_eq_getElem (by omega)⟩
  refine ⟨i, a, hi2, ?_⟩
  obtain ⟨h1, h2, h3⟩ := h.child hi2
  intro d
  have p2 : (2 : K) ^ r ≠ 0 := by positivity
  have e2 : (mk r c s k : Tree nd).nominalSize rootSz = 2 * a.nominalSize rootSz := by
    simp only [nominalSize, h1, rl_mk, pow_succ]; field_simp
  have e3 : rootSz / 2 ^ (r + 1) = a.nominalSize rootSz := by simp only [nominalSize, h1]
  have e1 : a.nominalPosition rootSz orig d = (mk r c s k : Tree nd).nominalPosition rootSz orig d +
      ((i / 2 ^ (nd - 1 - d.val)) % 2 : Nat) * a.nominalSize rootSz := by
    simp only [nominalPosition, e2, h2, childCoords, coords_mk]
    generalize (i / 2 ^ (nd - 1 - d.val)) % 2 = b
    push_cast; ring
  have hd := hx d
  obtain ⟨b1, b2⟩ := hbit d
  simp only [e3, e2] at *
  by_cases hc : (mk r c s k : Tree nd).nominalPosition rootSz orig d + a.nominalSize rootSz ≤ pos d
  · rw [b1 hc] at e1; push_cast at e1
    constructor <;> linarith [hd.1, hd.2]
  · rw [b2 hc] at e1; push_cast at e1
    constructor <;> linarith [hd.1, hd.2]

omit [IsStrictOrderedRing K] in
theorem findLeafPos_none_iff (rootSz : K) (orig pos : Fin nd → K) (t : Tree nd) :
    findLeafPos rootSz orig pos t = none ↔ ¬ InBox rootSz orig pos t := by
  cases t with
  | mk r co s k =>
    rw [← inBox_iff]
    simp only [findLeafPos]
    split
    · rename_i h
      constructor
      · intro h'; exfalso; revert h'; split <;> simp
      · intro h'; exact absurd h h'
    · rename_i h
      exact ⟨fun _ => h, fun _ => rfl⟩

omit [IsStrictOrderedRing K] in
theorem findLeafPosList_exists {rootSz : K} {orig pos : Fin nd → K} {k : List (Tree nd)} {n p}
    (h : findLeafPosList rootSz orig pos k n = some p) :
    ∃ i a q, k[i]? = some a ∧ findLeafPos rootSz orig pos a = some q ∧ p = (n + i) :: q := by
  induction k generalizing n with
  | nil => simp [findLeafPosList] at h
  | cons b k ih =>
    simp only [findLeafPosList] at h
    split at h
    · rename_i q hq
      simp at h
      exact ⟨0, b, q, by simp, hq, by simp [h]⟩
    · obtain ⟨i, a, q, h1, h2, h3⟩ := ih h
      exact ⟨i + 1, a, q, by simpa using h1, h2, by rw [h3]; simp; omega⟩

theorem findLeafPos_sound {rootSz : K} {orig pos : Fin nd → K} {t : Tree nd} (h : WF t) {p}
    (hp : findLeafPos rootSz orig pos t = some p) :
    ∃ s, Tree.get p t = some s ∧ s.children = [] ∧ InBox rootSz orig pos s := by
  induction t using induct generalizing p with
  | h r co st k ih =>
    have hin : InBox rootSz orig pos (mk r co st k) := by
      by_contra hc
      rw [(findLeafPos_none_iff _ _ _ _).2 hc] at hp; simp at hp
    simp only [findLeafPos] at hp
    split at hp
    · split at hp
      · rename_i q hq
        simp at hp; subst hp
        obtain ⟨i, a, q', h1, h2, h3⟩ := findLeafPosList_exists hq
        obtain ⟨s, g1, g2, g3⟩ := ih a (List.mem_of_getElem? h1) (h.child h1).2.2 h2
        refine ⟨s, ?_, g2, g3⟩
        rw [h3, get_cons_some]
        exact ⟨a, by simpa using h1, g1⟩
      · rename_i hnone
        simp at hp; subst hp
        by_cases hk : k = []
        · subst hk; exact ⟨_, rfl, rfl, hin⟩
        · exfalso
          obtain ⟨i, a, h1, h2⟩ := child_cover_pos rootSz orig pos h hk hin
          have hne : findLeafPos rootSz orig pos a ≠ none := by
            rw [Ne, findLeafPos_none_iff]; simpa using h2
          have : ∀ (k : List (Tree nd)) n, a ∈ k → findLeafPosList rootSz orig pos k n ≠ none := by
            intro k
            induction k with
            | nil => intro n hmem; simp at hmem
            | cons b k ihk =>
              intro n hmem
              simp only [findLeafPosList]
              split
              · simp
              · rename_i hnb
                apply ihk
                rcases List.mem_cons.1 hmem with rfl | h
                · exact absurd hnb hne
                · exact h
          exact this k 0 (List.mem_of_getElem? h1) hnone
    · simp at hp
end pos

end Hexed.Tree
