import Verif.Adapt.Ops

set_option autoImplicit false
set_option linter.unusedVariables false

namespace Hexed.Adapt
open Hexed.Tree (Path get modify refineNode unrefineNode setStatusNode findNeighbors findNeighbor IsDir Borders IsLeafAt Reachable RootWF)

variable {nd : Nat}

/-! ### Deleting elements -/

/-- `st'` is `st` with some elements set to be deleted. -/
structure Evo (st st' : St nd) : Prop where
  root : st'.root = st.root
  len : ∀ d, (st'.els d).length = (st.els d).length
  get : ∀ (d : Bool) (i : Nat) (e e' : El), (st.els d)[i]? = some e → (st'.els d)[i]? = some e' → e' = e ∨ e' = { e with record := 2 }

def Strict (st st' : St nd) : Prop := ∃ q, Exists st q ∧ ¬Exists st' q

def Evolves (s s' : St nd × Bool) : Prop := Evo s.1 s'.1 ∧ (s' = s ∨ (s'.2 = true ∧ Strict s.1 s'.1))

theorem Evo.refl (st : St nd) : Evo st st := ⟨rfl, fun _ => rfl, fun d i e e' h h' => .inl (by rw [h] at h'; exact (Option.some.inj h').symm)⟩

theorem Evo.at {st st' : St nd} (h : Evo st st') {d : Bool} {i : Nat} {e' : El} (h' : (st'.els d)[i]? = some e') : ∃ e, (st.els d)[i]? = some e := by
  have hi : i < (st'.els d).length := by
    by_contra hn; rw [List.getElem?_eq_none (by omega)] at h'; simp at h'
  rw [h.len] at hi
  exact ⟨_, List.getElem?_eq_getElem hi⟩

theorem Evo.at' {st st' : St nd} (h : Evo st st') {d : Bool} {i : Nat} {e : El} (h' : (st.els d)[i]? = some e) : ∃ e', (st'.els d)[i]? = some e' := by
  have hi : i < (st.els d).length := by
    by_contra hn; rw [List.getElem?_eq_none (by omega)] at h'; simp at h'
  rw [← h.len] at hi
  exact ⟨_, List.getElem?_eq_getElem hi⟩

theorem Evo.trans {a b c : St nd} (h1 : Evo a b) (h2 : Evo b c) : Evo a c := by
  refine ⟨h2.root.trans h1.root, fun d => (h2.len d).trans (h1.len d), ?_⟩
  intro d i e e' he he'
  obtain ⟨x, hx⟩ := h1.at' he
  rcases h1.get d i e x he hx with rfl | rfl
  · exact h2.get d i x e' hx he'
  · rcases h2.get d i _ e' hx he' with rfl | rfl
    · exact .inr rfl
    · exact .inr rfl

theorem Evo.map {st st' : St nd} (h : Evo st st') (d : Bool) : (st'.els d).map (·.tree) = (st.els d).map (·.tree) := by
  apply List.ext_getElem?
  intro i
  rw [List.getElem?_map, List.getElem?_map]
  cases he' : (st'.els d)[i]? with
  | none =>
    cases he : (st.els d)[i]? with
    | none => rfl
    | some e => obtain ⟨x, hx⟩ := h.at' he; rw [hx] at he'; simp at he'
  | some e' =>
    obtain ⟨e, he⟩ := h.at he'
    rw [he]
    rcases h.get d i e e' he he' with rfl | rfl <;> rfl

theorem Evo.exists {st st' : St nd} (h : Evo st st') {q : Path} (hq : Exists st' q) : Exists st q := by
  obtain ⟨d, e', he', ht, hr⟩ := hq
  obtain ⟨i, hi⟩ := List.mem_iff_getElem?.1 he'
  obtain ⟨e, he⟩ := h.at hi
  rcases h.get d i e e' he hi with rfl | rfl
  · exact ⟨d, e', List.mem_of_getElem? he, ht, hr⟩
  · simp at hr

theorem Evo.cons {st st' : St nd} (h : Evo st st') (hc : Consistent st) : Consistent st' := by
  refine hc.update h.root h.map ?_
  intro d i e e' he he' hr
  rcases h.get d i e e' he he' with rfl | rfl
  · exact hr
  · simp at hr

theorem Evolves.refl (s : St nd × Bool) : Evolves s s := ⟨.refl _, .inl rfl⟩

theorem Evolves.trans {a b c : St nd × Bool} (h1 : Evolves a b) (h2 : Evolves b c) : Evolves a c := by
  refine ⟨h1.1.trans h2.1, ?_⟩
  rcases h2.2 with rfl | ⟨h, q, hq, hn⟩
  · exact h1.2
  · exact .inr ⟨h, q, h1.1.exists hq, hn⟩

theorem Evolves.same {a b : St nd × Bool} (h : Evolves a b) (hb : b.2 = false) : b = a := by
  rcases h.2 with h | ⟨h, -⟩
  · exact h
  · rw [hb] at h; simp at h

/-- What holds throughout: the elements are consistent with the tree, which stays as it is. -/
def Inv (r : Tree nd) (st : St nd) : Prop := Consistent st ∧ st.root = r

theorem Inv.evo {r : Tree nd} {st st' : St nd} (h : Inv r st) (he : Evo st st') : Inv r st' := ⟨he.cons h.1, he.root.trans h.2⟩

theorem foldlM_evo {α : Type} {r : Tree nd} (f : St nd × Bool → α → Option (St nd × Bool)) : ∀ (l : List α),
    (∀ s, Inv r s.1 → ∀ x ∈ l, ∃ s', f s x = some s' ∧ Evolves s s') → ∀ s, Inv r s.1 →
    ∃ s', l.foldlM f s = some s' ∧ Evolves s s' ∧ (s'.2 = false → s' = s ∧ ∀ x ∈ l, f s x = some s) := by
  intro l
  induction l with
  | nil => intro _ s _; exact ⟨s, rfl, .refl s, fun _ => ⟨rfl, by simp⟩⟩
  | cons x l ih =>
    intro hf s hs
    obtain ⟨s1, h1, h2⟩ := hf s hs x (by simp)
    obtain ⟨s2, g1, g2, g3⟩ := ih (fun s hs y hy => hf s hs y (by simp [hy])) s1 (hs.evo h2.1)
    refine ⟨s2, by rw [List.foldlM_cons, h1]; exact g1, h2.trans g2, ?_⟩
    intro hb
    obtain ⟨rfl, g4⟩ := g3 hb
    have e1 := h2.same hb
    subst e1
    refine ⟨rfl, ?_⟩
    intro y hy
    rcases List.mem_cons.1 hy with rfl | hy
    · exact h1
    · exact g4 y hy

theorem setAt_evo (st : St nd) (p : Path) : Evo st (setAt st p 2) := by
  refine ⟨rfl, fun d => by simp [setAt], ?_⟩
  intro d i e e' he he'
  simp only [setAt, List.getElem?_map, he, Option.map_some, Option.some.injEq] at he'
  subst he'
  split
  · exact .inr rfl
  · exact .inl rfl

theorem setRec_evo (st : St nd) (h : Bool × Nat) : Evo st (setRec st h 2) := by
  refine ⟨rfl, ?_, ?_⟩
  · intro d; simp only [setRec]; split <;> simp
  · intro d i e e' he he'
    simp only [setRec] at he'
    split at he'
    · rw [List.getElem?_modify, he] at he'
      simp only [Option.map_eq_map, Option.map_some, Option.some.injEq] at he'
      subst he'
      split
      · exact .inr rfl
      · exact .inl rfl
    · rw [he] at he'; exact .inl (Option.some.inj he').symm

theorem killAll_evo (st : St nd) (l : List Path) : Evo st (killAll st l) := by
  induction l generalizing st with
  | nil => exact .refl st
  | cons c l ih => exact (setAt_evo st c).trans (ih _)

/-- The leaves found in a direction. -/
def N (r : Tree nd) (p : Path) (dir : Fin nd → Int) : List Path := (findNeighbors r p dir).getD []

theorem N_eq {r : Tree nd} (h : Reachable r) {p : Path} (hp : Present r p) {dir : Fin nd → Int} (hd : IsDir dir) :
    findNeighbors r p dir = some (N r p dir) ∧ ∀ q ∈ N r p dir, Present r q := by
  obtain ⟨a, ha⟩ := hp
  obtain ⟨l, hl, -, hm⟩ := Tree.find_neighbors_exact h ha dir hd
  have : N r p dir = l := by simp [N, hl]
  rw [this]
  refine ⟨hl, fun q hq => ?_⟩
  obtain ⟨b, hb, -⟩ := (hm q).1 hq
  exact ⟨b, hb⟩

/-- No existing diagonal neighbour that is not coarser. -/
def QuietDiag (st : St nd) (rl : Nat) (l : List Path) : Prop := ∀ n ∈ l, exists_ st n = true → n.length < rl

theorem killDiag_evo {r : Tree nd} (p : Path) (rl : Nat) (l : List Path) (hl : ∀ n ∈ l, Present r n) (s : St nd × Bool) (hs : Inv r s.1) :
    ∃ s', killDiag p rl s l = some s' ∧ Evolves s s' ∧ (s'.2 = false → s' = s ∧ QuietDiag s.1 rl l) := by
  have step : ∀ s : St nd × Bool, Inv r s.1 → ∀ n ∈ l, ∃ s', (if exists_ s.1 n then (level s.1 n).map fun ln =>
      if ln ≥ rl then (if ln = rl then setAt (setAt s.1 n 2) p 2 else setAt s.1 n 2, true) else s else some s) = some s' ∧ Evolves s s' ∧
      (s'.2 = false → exists_ s.1 n = true → n.length < rl) := by
    intro s hs n hn
    by_cases hx : exists_ s.1 n = true
    · obtain ⟨c, hc⟩ := hl n hn
      rw [← hs.2] at hc
      rw [if_pos hx, level_eq hs.1 hc]
      simp only [Option.map_some]
      by_cases hge : n.length ≥ rl
      · rw [if_pos hge]
        refine ⟨_, rfl, ⟨?_, .inr ⟨rfl, n, (exists_iff hs.1 n).1 hx, ?_⟩⟩, by simp⟩
        · by_cases heq : n.length = rl
          · simp only [heq, if_true]; exact (setAt_evo s.1 n).trans (setAt_evo _ p)
          · simp only [heq, if_false]; exact setAt_evo s.1 n
        · have hk : ¬Exists (setAt s.1 n 2) n := fun h => ((setAt_exists s.1 n n).1 h).2 rfl
          by_cases heq : n.length = rl
          · simp only [heq, if_true]; intro h; exact hk ((setAt_evo _ p).exists h)
          · simp only [heq, if_false]; exact hk
      · rw [if_neg hge]; exact ⟨s, rfl, .refl s, fun _ _ => by omega⟩
    · rw [if_neg hx]; exact ⟨s, rfl, .refl s, fun _ h => absurd h hx⟩
  obtain ⟨s', h1, h2, h3⟩ := foldlM_evo _ l (fun s hs n hn => (step s hs n hn).imp fun _ h => ⟨h.1, h.2.1⟩) s hs
  refine ⟨s', h1, h2, fun hb => ⟨(h3 hb).1, ?_⟩⟩
  intro n hn hx
  obtain ⟨s1, g1, g2, g3⟩ := step s hs n hn
  have := (h3 hb).2 n hn
  rw [g1, Option.some.injEq] at this
  subst this
  exact g3 (by rw [← (h3 hb).1]; exact hb) hx

theorem killAll_evolves {r : Tree nd} {s : St nd × Bool} (hs : Inv r s.1) {l : List Path} (hp : partly s.1 l = true) :
    Evolves s (killAll s.1 l, true) := by
  refine ⟨killAll_evo s.1 l, .inr ⟨rfl, ?_⟩⟩
  simp only [partly, Bool.and_eq_true, List.any_eq_true] at hp
  obtain ⟨⟨n, hn, hx⟩, -⟩ := hp
  exact ⟨n, (exists_iff hs.1 n).1 hx, fun h => (((killAll_ok hs.1 l).2.2.2 n).1 h).2 hn⟩

def QuietK (st : St nd) (p : Path) (rl : Nat) (dir : Fin nd → Int) (ex : List Bool) (ks : List Nat) : Prop :=
  ∀ k ∈ ks, isExp ex k = true → QuietDiag st rl (N st.root p (withFace dir k))

theorem faceK_evo {r : Tree nd} {p : Path} (hp : Present r p) (rl : Nat) {dir : Fin nd → Int} (hd : IsDir dir) (ex : List Bool) (ks : List Nat)
    (s : St nd × Bool) (hs : Inv r s.1) : ∃ s', faceK p rl dir ex s ks = some s' ∧ Evolves s s' ∧ (s'.2 = false → s' = s ∧ QuietK s.1 p rl dir ex ks) := by
  have step : ∀ s : St nd × Bool, Inv r s.1 → ∀ k ∈ ks, ∃ s', (if isExp ex k then
      (findNeighbors s.1.root p (withFace dir k)).bind fun l => killDiag p rl s l else some s) = some s' ∧ Evolves s s' ∧
      (s'.2 = false → isExp ex k = true → QuietDiag s.1 rl (N s.1.root p (withFace dir k))) := by
    intro s hs k _
    by_cases hx : isExp ex k = true
    · rw [if_pos hx, hs.2]
      obtain ⟨h1, h2⟩ := N_eq (hs.2 ▸ hs.1.reach) hp (isDir_withFace hd k)
      rw [h1, Option.bind_some]
      obtain ⟨s', g1, g2, g3⟩ := killDiag_evo p rl _ h2 s hs
      exact ⟨s', g1, g2, fun hb _ => (g3 hb).2⟩
    · rw [if_neg hx]; exact ⟨s, rfl, .refl s, fun _ h => absurd h hx⟩
  obtain ⟨s', h1, h2, h3⟩ := foldlM_evo _ ks (fun s hs n hn => (step s hs n hn).imp fun _ h => ⟨h.1, h.2.1⟩) s hs
  refine ⟨s', h1, h2, fun hb => ⟨(h3 hb).1, ?_⟩⟩
  intro k hk hx
  obtain ⟨s1, g1, g2, g3⟩ := step s hs k hk
  have := (h3 hb).2 k hk
  rw [g1, Option.some.injEq] at this
  subst this
  exact g3 (by rw [← (h3 hb).1]; exact hb) hx

def QuietJ (st : St nd) (p : Path) (rl i : Nat) (ex : List Bool) (j : Nat) : Prop :=
  (isExp ex i = true → isExp ex j = true → QuietDiag st rl (N st.root p (withFace (direction nd i) j)) ∧
    QuietK st p rl (withFace (direction nd i) j) ex (List.range (2 * (j / 2)))) ∧
  (isExp ex i ≠ isExp ex j → nd = 3 → partly st (N st.root p (withFace (direction nd i) j)) = false)

theorem faceJ_evo {r : Tree nd} {p : Path} (hp : Present r p) (rl i : Nat) (ex : List Bool) (js : List Nat)
    (s : St nd × Bool) (hs : Inv r s.1) : ∃ s', faceJ p rl i ex s js = some s' ∧ Evolves s s' ∧
      (s'.2 = false → s' = s ∧ ∀ j ∈ js, QuietJ s.1 p rl i ex j) := by
  have step : ∀ s : St nd × Bool, Inv r s.1 → ∀ j ∈ js, ∃ s', (if isExp ex i || isExp ex j then
      let dir := withFace (direction nd i) j
      (findNeighbors s.1.root p dir).bind fun l =>
        if isExp ex i && isExp ex j then
          (killDiag p rl s l).bind fun s => faceK p rl dir ex s (List.range (2 * (j / 2)))
        else if nd = 3 then
          some (if partly s.1 l then (killAll s.1 l, true) else s)
        else some s
    else some s) = some s' ∧ Evolves s s' ∧ (s'.2 = false → QuietJ s.1 p rl i ex j) := by
    intro s hs j _
    have hd : IsDir (withFace (direction nd i) j) := isDir_withFace (isDir_direction i) j
    by_cases hx : (isExp ex i || isExp ex j) = true
    · rw [if_pos hx, hs.2]
      obtain ⟨h1, h2⟩ := N_eq (hs.2 ▸ hs.1.reach) hp hd
      simp only [h1, Option.bind_some]
      by_cases hb : (isExp ex i && isExp ex j) = true
      · rw [if_pos hb]
        obtain ⟨s1, g1, g2, g3⟩ := killDiag_evo p rl _ h2 s hs
        obtain ⟨s2, k1, k2, k3⟩ := faceK_evo hp rl hd ex (List.range (2 * (j / 2))) s1 (hs.evo g2.1)
        refine ⟨s2, by rw [g1, Option.bind_some, k1], g2.trans k2, fun hf => ?_⟩
        obtain ⟨rfl, k4⟩ := k3 hf
        obtain ⟨rfl, g4⟩ := g3 hf
        simp only [Bool.and_eq_true] at hb
        refine ⟨fun _ _ => ⟨by rw [hs.2]; exact g4, k4⟩, fun hne => ?_⟩
        rw [hb.1, hb.2] at hne; exact absurd rfl hne
      · rw [if_neg hb]
        have hno : ¬(isExp ex i = true ∧ isExp ex j = true) := by simpa using hb
        by_cases h3 : nd = 3
        · rw [if_pos h3]
          by_cases hpt : partly s.1 (N r p (withFace (direction nd i) j)) = true
          · rw [if_pos hpt]
            exact ⟨_, rfl, killAll_evolves hs hpt, by simp⟩
          · rw [if_neg hpt]
            exact ⟨s, rfl, .refl s, fun _ => ⟨fun h h' => absurd ⟨h, h'⟩ hno, fun _ _ => by rw [hs.2]; simpa using hpt⟩⟩
        · rw [if_neg h3]
          exact ⟨s, rfl, .refl s, fun _ => ⟨fun h h' => absurd ⟨h, h'⟩ hno, fun _ h => absurd h h3⟩⟩
    · rw [if_neg hx]
      simp only [Bool.or_eq_true, not_or, Bool.not_eq_true] at hx
      exact ⟨s, rfl, .refl s, fun _ => ⟨fun h => by rw [hx.1] at h; simp at h, fun h => by rw [hx.1, hx.2] at h; exact absurd rfl h⟩⟩
  obtain ⟨s', h1, h2, h3⟩ := foldlM_evo _ js (fun s hs n hn => (step s hs n hn).imp fun _ h => ⟨h.1, h.2.1⟩) s hs
  refine ⟨s', h1, h2, fun hb => ⟨(h3 hb).1, ?_⟩⟩
  intro k hk
  obtain ⟨s1, g1, g2, g3⟩ := step s hs k hk
  have := (h3 hb).2 k hk
  rw [g1, Option.some.injEq] at this
  subst this
  exact g3 (by rw [← (h3 hb).1]; exact hb)

/-- `exposed[i]` in a given state. -/
def expAt (st : St nd) (p : Path) (i : Nat) : Bool := !(N st.root p (direction nd i)).all (exists_ st)

def expList (st : St nd) (p : Path) (k : Nat) : List Bool := (List.range k).map (expAt st p)

def QuietI (st : St nd) (p : Path) (rl i : Nat) : Prop :=
  partly st (N st.root p (direction nd i)) = false ∧ ∀ j < 2 * (i / 2), QuietJ st p rl i (expList st p (i + 1)) j

theorem partly_len {st : St nd} {l : List Path} (h : partly st l = true) : l.length > 1 := by
  match l, h with
  | [], h => simp [partly] at h
  | [x], h => simp [partly] at h
  | _ :: _ :: _, _ => simp

theorem faces_evo {r : Tree nd} {p : Path} (hp : Present r p) (rl : Nat) (s : St nd × Bool) (hs : Inv r s.1) : ∀ k,
    ∃ s' ex, (List.range k).foldlM (faceI p rl) (s, []) = some (s', ex) ∧ Evolves s s' ∧
      (s'.2 = false → s' = s ∧ ex = expList s.1 p k ∧ ∀ i < k, QuietI s.1 p rl i) := by
  intro k
  induction k with
  | zero => exact ⟨s, [], rfl, .refl s, fun _ => ⟨rfl, rfl, by simp⟩⟩
  | succ k ih =>
    obtain ⟨s1, ex, h1, h2, h3⟩ := ih
    have hs1 := hs.evo h2.1
    obtain ⟨n1, n2⟩ := N_eq (hs1.2 ▸ hs1.1.reach) hp (isDir_direction (nd := nd) k)
    obtain ⟨s2, hs2, g2, g3⟩ : ∃ s2, (if (N r p (direction nd k)).length > 1 && partly s1.1 (N r p (direction nd k)) then
        (killAll s1.1 (N r p (direction nd k)), true) else s1) = s2 ∧ Evolves s1 s2 ∧
        (s2.2 = false → s2 = s1 ∧ partly s1.1 (N r p (direction nd k)) = false) := by
      by_cases hpt : partly s1.1 (N r p (direction nd k)) = true
      · rw [if_pos (by simp [hpt, partly_len hpt])]
        exact ⟨_, rfl, killAll_evolves hs1 hpt, by simp⟩
      · rw [if_neg (by simp [hpt])]
        exact ⟨s1, rfl, .refl s1, fun _ => ⟨rfl, by simpa using hpt⟩⟩
    obtain ⟨s3, k1, k2, k3⟩ := faceJ_evo hp rl k (ex ++ [!(N r p (direction nd k)).all (exists_ s1.1)]) (List.range (2 * (k / 2))) s2 (hs1.evo g2.1)
    refine ⟨s3, ex ++ [!(N r p (direction nd k)).all (exists_ s1.1)], ?_, h2.trans (g2.trans k2), ?_⟩
    · rw [List.range_succ, List.foldlM_append, h1]
      simp only [Option.bind_eq_bind, Option.bind_some, List.foldlM_cons, List.foldlM_nil, faceI]
      rw [hs1.2, n1]
      simp only [Option.bind_some]
      rw [hs2, k1]
      rfl
    · intro hb
      obtain ⟨rfl, k4⟩ := k3 hb
      obtain ⟨rfl, g4⟩ := g3 hb
      obtain ⟨rfl, rfl, h4⟩ := h3 hb
      have e : expList s3.1 p k ++ [!(N r p (direction nd k)).all (exists_ s3.1)] = expList s3.1 p (k + 1) := by
        simp [expList, List.range_succ, expAt, hs.2]
      refine ⟨rfl, e, ?_⟩
      intro i hi
      by_cases hik : i = k
      · subst hik
        exact ⟨by rw [hs.2]; exact g4, fun j hj => by rw [← e]; exact k4 j (by simpa using hj)⟩
      · exact h4 i (by omega)

/-- Nothing to delete at the element of cell `p`. -/
def Quiet (away : Tree nd → (Fin nd → Int) → Bool) (st : St nd) (p : Path) (c : Tree nd) : Prop :=
  (∀ i < 2 * nd, QuietI st p c.rl i) ∧ (evalDirs nd (expList st p (2 * nd))).any (away c) = false

theorem deleteOne_evo {r : Tree nd} (away : Tree nd → (Fin nd → Int) → Bool) (s : St nd × Bool) (hs : Inv r s.1) {x : Bool × Nat}
    (hx : x.2 < (s.1.els x.1).length) : ∃ s', deleteOne away s x = some s' ∧ Evolves s s' ∧
      (s'.2 = false → s' = s ∧ ∀ e p c, (s.1.els x.1)[x.2]? = some e → e.tree = some p → e.record ≠ 2 → get p s.1.root = some c → Quiet away s.1 p c) := by
  have he : (s.1.els x.1)[x.2]? = some (s.1.els x.1)[x.2] := List.getElem?_eq_getElem hx
  set e := (s.1.els x.1)[x.2] with hedef
  simp only [deleteOne, he, Option.bind_some]
  cases ht : e.tree with
  | none =>
    refine ⟨s, rfl, .refl s, fun _ => ⟨rfl, ?_⟩⟩
    rintro e' p c h1 h2
    rw [Option.some.injEq] at h1; subst h1
    rw [ht] at h2; simp at h2
  | some p =>
    simp only
    by_cases hr : e.record = 2
    · rw [if_neg (by simp [hr])]
      refine ⟨s, rfl, .refl s, fun _ => ⟨rfl, ?_⟩⟩
      rintro e' p c h1 h2 h3
      rw [Option.some.injEq] at h1; subst h1
      exact absurd hr h3
    · rw [if_pos hr]
      obtain ⟨c, hc⟩ := hs.1.valid x.1 e (List.mem_of_getElem? he) p ht
      rw [hc, Option.bind_some]
      obtain ⟨s1, ex, h1, h2, h3⟩ := faces_evo (r := r) ⟨c, by rw [← hs.2]; exact hc⟩ c.rl s hs (2 * nd)
      rw [h1, Option.map_some]
      simp only
      by_cases ha : (evalDirs nd ex).any (away c) = true
      · rw [if_pos ha]
        refine ⟨_, rfl, ⟨h2.1.trans (setRec_evo _ _), .inr ⟨rfl, p, ⟨x.1, e, List.mem_of_getElem? he, ht, hr⟩, ?_⟩⟩, by simp⟩
        obtain ⟨e1, he1⟩ := h2.1.at' he
        have ht1 : e1.tree = some p := by
          rcases h2.1.get _ _ _ _ he he1 with h | h <;> rw [h] <;> exact ht
        intro hx
        exact ((setRec_exists (hs.evo h2.1).1 he1 ht1 p).1 hx).2 rfl
      · rw [if_neg ha]
        refine ⟨s1, rfl, h2, fun hb => ?_⟩
        obtain ⟨rfl, rfl, h4⟩ := h3 hb
        refine ⟨rfl, ?_⟩
        intro e' p' c' g1 g2 g3 g4
        rw [Option.some.injEq] at g1; subst g1
        rw [ht, Option.some.injEq] at g2; subst g2
        rw [hc, Option.some.injEq] at g4; subst g4
        exact ⟨h4, by simpa using ha⟩

theorem deletePass_evo (away : Tree nd → (Fin nd → Int) → Bool) {st : St nd} (h : Consistent st) {order : List (Bool × Nat)}
    (ho : ∀ x, x ∈ order ↔ x.2 < (st.els x.1).length) :
    ∃ s', deletePass away order st = some s' ∧ Evolves (st, false) s' ∧
      (s'.2 = false → s'.1 = st ∧ ∀ p c, Exists st p → get p st.root = some c → Quiet away st p c) := by
  have key : ∀ (l : List (Bool × Nat)) (s : St nd × Bool), Inv st.root s.1 → (∀ x ∈ l, x.2 < (s.1.els x.1).length) →
      ∃ s', l.foldlM (deleteOne away) s = some s' ∧ Evolves s s' ∧ (s'.2 = false → s' = s ∧ ∀ x ∈ l,
        ∀ e p c, (s.1.els x.1)[x.2]? = some e → e.tree = some p → e.record ≠ 2 → get p s.1.root = some c → Quiet away s.1 p c) := by
    intro l
    induction l with
    | nil => intro s _ _; exact ⟨s, rfl, .refl s, fun _ => ⟨rfl, by simp⟩⟩
    | cons x l ih =>
      intro s hs hl
      obtain ⟨s1, h1, h2, h3⟩ := deleteOne_evo away s hs (hl x (by simp))
      obtain ⟨s2, g1, g2, g3⟩ := ih s1 (hs.evo h2.1) (fun y hy => by rw [h2.1.len]; exact hl y (by simp [hy]))
      refine ⟨s2, by rw [List.foldlM_cons, h1]; exact g1, h2.trans g2, fun hb => ?_⟩
      obtain ⟨rfl, g4⟩ := g3 hb
      obtain ⟨rfl, h4⟩ := h3 hb
      refine ⟨rfl, fun y hy => ?_⟩
      rcases List.mem_cons.1 hy with rfl | hy
      · exact h4
      · exact g4 y hy
  obtain ⟨s', h1, h2, h3⟩ := key order (st, false) ⟨h, rfl⟩ (fun x hx => (ho x).1 hx)
  refine ⟨s', h1, h2, fun hb => ?_⟩
  obtain ⟨rfl, h4⟩ := h3 hb
  refine ⟨rfl, ?_⟩
  rintro p c ⟨d, e, he, ht, hr⟩ hc
  obtain ⟨i, hi⟩ := List.mem_iff_getElem?.1 he
  refine h4 (d, i) ((ho _).2 ?_) e p c hi ht hr hc
  by_contra hn
  rw [List.getElem?_eq_none (by simpa using hn)] at hi
  simp at hi

end Hexed.Adapt
