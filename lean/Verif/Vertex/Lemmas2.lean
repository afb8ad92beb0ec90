import Verif.Vertex.Lemmas
set_option autoImplicit false
set_option linter.unusedVariables false

namespace Hexed.Vertex
variable {K : Type} [Field K]

theorem empty_inv : Inv (M.empty : M K) := by
  constructor <;> intros <;> simp_all [M.empty]

theorem newT_inv {m : M K} (h : Inv m) {p a : Nat} (pos : Fin 3 → K) (hp : m.tp p = none) (ha : m.verts a = none) : Inv (newT m p a pos) := by
  have hx : ∀ x y, (newT m p a pos).verts x = some y → (x = a ∧ y = ⟨pos, [], {p}, ∅, ∅, 1⟩) ∨ (x ≠ a ∧ m.verts x = some y) := by
    intro x y hy
    simp only [newT, upd] at hy
    split at hy
    · rename_i hxa; left; exact ⟨hxa, (Option.some.inj hy).symm⟩
    · right; exact ⟨by assumption, hy⟩
  have hne : ∀ x y, m.verts x = some y → x ≠ a := by rintro x y hy rfl; rw [ha] at hy; simp at hy
  have keep : ∀ x y, m.verts x = some y → (newT m p a pos).verts x = some y := by
    intro x y hy; simp [newT, upd, hne x y hy, hy]
  refine ⟨?_, ?_, ?_, ?_, ?_, ?_, ?_⟩
  · intro q x hq
    simp only [newT, upd] at hq
    split at hq
    · rename_i hqp; cases hq; exact ⟨⟨pos, [], {p}, ∅, ∅, 1⟩, by simp [newT, upd], by simp [hqp]⟩
    · obtain ⟨y, hy, hqy⟩ := h.tp q x hq
      exact ⟨y, keep x y hy, hqy⟩
  · intro x y q hy hq
    rcases hx x y hy with ⟨rfl, rfl⟩ | ⟨h1, h2⟩
    · simp only [Finset.mem_singleton] at hq; subst hq; simp [newT, upd]
    · have := h.tr x y q h2 hq
      have hqp : q ≠ p := by rintro rfl; rw [hp] at this; simp at this
      simp [newT, upd, hqp, this]
  · intro x y hy
    rcases hx x y hy with ⟨rfl, rfl⟩ | ⟨h1, h2⟩
    · simp
    · exact h.uc x y h2
  · intro x y hy
    rcases hx x y hy with ⟨rfl, rfl⟩ | ⟨h1, h2⟩
    · simp
    · exact h.own x y h2
  · intro n x hn
    obtain ⟨y, hy, hny⟩ := h.np n x hn
    exact ⟨y, keep x y hy, hny⟩
  · intro x y n hy hn
    rcases hx x y hy with ⟨rfl, rfl⟩ | ⟨h1, h2⟩
    · simp at hn
    · exact h.nt x y n h2 hn
  · intro x y b hy hb
    rcases hx x y hy with ⟨rfl, rfl⟩ | ⟨h1, h2⟩
    · simp at hb
    · obtain ⟨h3, w, h4, h5⟩ := h.nb x y b h2 hb
      exact ⟨h3, w, keep b w h4, h5⟩

theorem copyT_inv {m : M K} (h : Inv m) {p q : Nat} (hp : m.tp p = none) (hq : m.tp q ≠ none) : ∃ m', copyT m p q = some m' ∧ Inv m' := by
  obtain ⟨a, ha⟩ := Option.ne_none_iff_exists'.1 hq
  obtain ⟨v, hv, hqv⟩ := h.tp q a ha
  have hpv : p ∉ v.trbl := fun hh => by have := h.tr a v p hv hh; rw [hp] at this; simp at this
  refine ⟨{ m with verts := upd m.verts a (some { v with trbl := insert p v.trbl, uc := v.uc + 1 }), tp := upd m.tp p (some a) },
    by simp [copyT, ha, modV_some _ hv], ?_⟩
  have hx : ∀ x y, upd m.verts a (some { v with trbl := insert p v.trbl, uc := v.uc + 1 }) x = some y →
      (x = a ∧ y = { v with trbl := insert p v.trbl, uc := v.uc + 1 }) ∨ (x ≠ a ∧ m.verts x = some y) := by
    intro x y hy
    simp only [upd] at hy
    split at hy
    · rename_i hxa; left; exact ⟨hxa, (Option.some.inj hy).symm⟩
    · right; exact ⟨by assumption, hy⟩
  have keep : ∀ x y, m.verts x = some y → ∃ y', upd m.verts a (some { v with trbl := insert p v.trbl, uc := v.uc + 1 }) x = some y' ∧
      y.trbl ⊆ y'.trbl ∧ y'.nont = y.nont ∧ y'.neigh = y.neigh := by
    intro x y hy
    by_cases hxa : x = a
    · subst hxa; rw [hv] at hy; cases hy
      exact ⟨{ v with trbl := insert p v.trbl, uc := v.uc + 1 }, by simp [upd], by simp, rfl, rfl⟩
    · exact ⟨y, by simp [upd, hxa, hy], by simp, rfl, rfl⟩
  refine ⟨?_, ?_, ?_, ?_, ?_, ?_, ?_⟩
  · intro r x hr
    simp only [upd] at hr
    split at hr
    · rename_i hrp; cases hr; subst hrp; exact ⟨{ v with trbl := insert r v.trbl, uc := v.uc + 1 }, by simp [upd], by simp⟩
    · obtain ⟨y, hy, hry⟩ := h.tp r x hr
      obtain ⟨y', h1, h2, _⟩ := keep x y hy
      exact ⟨y', h1, h2 hry⟩
  · intro x y r hy hr
    rcases hx x y hy with ⟨rfl, rfl⟩ | ⟨h1, h2⟩
    · simp only [Finset.mem_insert] at hr
      by_cases hrp : r = p
      · simp [upd, hrp]
      · simp [upd, hrp, h.tr x v r hv (hr.resolve_left hrp)]
    · have := h.tr x y r h2 hr
      have hrp : r ≠ p := by rintro rfl; rw [hp] at this; simp at this
      simp [upd, hrp, this]
  · intro x y hy
    rcases hx x y hy with ⟨rfl, rfl⟩ | ⟨h1, h2⟩
    · simp [Finset.card_insert_of_notMem hpv, h.uc x v hv]
    · exact h.uc x y h2
  · intro x y hy
    rcases hx x y hy with ⟨rfl, rfl⟩ | ⟨h1, h2⟩
    · exact ⟨p, by simp⟩
    · exact h.own x y h2
  · intro n x hn
    obtain ⟨y, hy, hny⟩ := h.np n x hn
    obtain ⟨y', h1, _, h2, _⟩ := keep x y hy
    exact ⟨y', h1, by rw [h2]; exact hny⟩
  · intro x y n hy hn
    rcases hx x y hy with ⟨rfl, rfl⟩ | ⟨h1, h2⟩
    · exact h.nt x v n hv hn
    · exact h.nt x y n h2 hn
  · intro x y b hy hb
    have : ∃ y', m.verts x = some y' ∧ b ∈ y'.neigh := by
      rcases hx x y hy with ⟨rfl, rfl⟩ | ⟨h1, h2⟩
      · exact ⟨v, hv, hb⟩
      · exact ⟨y, h2, hb⟩
    obtain ⟨y', h1, h2⟩ := this
    obtain ⟨h3, w, h4, h5⟩ := h.nb x y' b h1 h2
    obtain ⟨w', h6, _, _, h7⟩ := keep b w h4
    exact ⟨h3, w', h6, by rw [h7]; exact h5⟩

theorem destroyT_inv {m : M K} (h : Inv m) {p : Nat} (hp : m.tp p ≠ none) : ∃ m', destroyT m p = some m' ∧ Inv m' := by
  obtain ⟨a, ha⟩ := Option.ne_none_iff_exists'.1 hp
  obtain ⟨v, hv, hpv⟩ := h.tp p a ha
  have huc := h.uc a v hv
  have hpos := Finset.card_pos.2 (h.own a v hv)
  simp only [destroyT, ha, Option.bind_some, modV_some _ hv]
  set m2 : M K := ⟨upd m.verts a (some { v with trbl := v.trbl.erase p }), upd m.tp p none, m.np⟩ with hm2
  have ha2 : m2.verts a = some { v with trbl := v.trbl.erase p } := by simp [hm2, upd]
  have hc2 : ∀ c, c ≠ a → m2.verts c = m.verts c := by intro c h1; simp [hm2, upd, h1]
  have keep : ∀ x y, m.verts x = some y → ∃ y', m2.verts x = some y' ∧ y'.nont = y.nont ∧ y'.neigh = y.neigh := by
    intro x y hy
    by_cases hxa : x = a
    · subst hxa; rw [hv] at hy; cases hy; exact ⟨_, ha2, rfl, rfl⟩
    · exact ⟨y, by rw [hc2 x hxa]; exact hy, rfl, rfl⟩
  have lift : ∀ x y, m2.verts x = some y → ∃ y', m.verts x = some y' ∧ y'.nont = y.nont ∧ y'.neigh = y.neigh := by
    intro x y hy
    by_cases hxa : x = a
    · subst hxa; rw [ha2] at hy; cases hy; exact ⟨_, hv, rfl, rfl⟩
    · exact ⟨y, by rw [← hc2 x hxa]; exact hy, rfl, rfl⟩
  have np2 : ∀ n x, m2.np n = some (some x) → ∃ v, m2.verts x = some v ∧ n ∈ v.nont := by
    intro n x hn
    obtain ⟨y, hy, hny⟩ := h.np n x hn
    obtain ⟨y', h1, h2, _⟩ := keep x y hy
    exact ⟨y', h1, by rw [h2]; exact hny⟩
  have nt2 : ∀ x v n, m2.verts x = some v → n ∈ v.nont → m2.np n = some (some x) := by
    intro x y n hy hn
    obtain ⟨y', h1, h2, _⟩ := lift x y hy
    exact h.nt x y' n h1 (by rw [h2]; exact hn)
  have nb2 : ∀ x v b, m2.verts x = some v → b ∈ v.neigh → b ≠ x ∧ ∃ w, m2.verts b = some w ∧ x ∈ w.neigh := by
    intro x y b hy hb
    obtain ⟨y', h1, _, h2⟩ := lift x y hy
    obtain ⟨h3, w, h4, h5⟩ := h.nb x y' b h1 (by rw [h2]; exact hb)
    obtain ⟨w', h6, _, h7⟩ := keep b w h4
    exact ⟨h3, w', h6, by rw [h7]; exact h5⟩
  by_cases hc : v.trbl.card = 1
  · have honly : ∀ q ∈ v.trbl, q = p := by
      obtain ⟨x, hx⟩ := Finset.card_eq_one.1 hc
      intro q hq; rw [hx] at hq hpv; rw [Finset.mem_singleton] at hq hpv; rw [hq, hpv]
    refine ⟨D m2 a, ?_, ?_⟩
    · simp only [release, ha2, Option.bind_some]
      rw [if_neg (by omega), if_pos (by omega)]
      refine destroyVertex_eq m2 a _ ha2 ?_ ?_ ?_
      · intro n
        refine ⟨fun hn => nt2 a _ n ha2 hn, fun hn => ?_⟩
        obtain ⟨v', h1, h2⟩ := np2 n a hn
        rw [ha2] at h1; cases h1; exact h2
      · intro b hb
        obtain ⟨h1, w, h2, _⟩ := nb2 a _ b ha2 hb
        exact ⟨h1, w, h2⟩
      · intro c w hw haw
        obtain ⟨_, v', h1, h2⟩ := nb2 c w a hw haw
        rw [ha2] at h1; cases h1; exact h2
    · refine D_inv ?_ ?_ ?_ ?_ np2 nt2 nb2
      · intro q x hq
        simp only [hm2, upd] at hq
        split at hq
        · simp at hq
        · rename_i hqp
          obtain ⟨y, hy, hqy⟩ := h.tp q x hq
          have hxa : x ≠ a := by rintro rfl; rw [hv] at hy; cases hy; exact hqp (honly q hqy)
          exact ⟨hxa, y, by rw [hc2 x hxa]; exact hy, hqy⟩
      · intro x y q hxa hy hq
        rw [hc2 x hxa] at hy
        have := h.tr x y q hy hq
        have hqp : q ≠ p := by rintro rfl; rw [ha] at this; exact hxa (Option.some.inj this).symm
        simp [hm2, upd, hqp, this]
      · intro x y hxa hy; rw [hc2 x hxa] at hy; exact h.uc x y hy
      · intro x y hxa hy; rw [hc2 x hxa] at hy; exact h.own x y hy
  · refine ⟨{ m2 with verts := upd m2.verts a (some { v with trbl := v.trbl.erase p, uc := v.uc - 1 }) }, ?_, ?_⟩
    · simp only [release, ha2, Option.bind_some]
      rw [if_neg (by omega), if_neg (by omega), modV_some _ ha2]
    · set m3 : M K := { m2 with verts := upd m2.verts a (some { v with trbl := v.trbl.erase p, uc := v.uc - 1 }) } with hm3
      have ha3 : m3.verts a = some { v with trbl := v.trbl.erase p, uc := v.uc - 1 } := by simp [hm3, upd]
      have hc3 : ∀ c, c ≠ a → m3.verts c = m.verts c := by intro c h1; simp [hm3, upd, h1, hc2 c h1]
      have keep3 : ∀ x y, m.verts x = some y → ∃ y', m3.verts x = some y' ∧ y'.nont = y.nont ∧ y'.neigh = y.neigh := by
        intro x y hy
        by_cases hxa : x = a
        · subst hxa; rw [hv] at hy; cases hy; exact ⟨_, ha3, rfl, rfl⟩
        · exact ⟨y, by rw [hc3 x hxa]; exact hy, rfl, rfl⟩
      have lift3 : ∀ x y, m3.verts x = some y → ∃ y', m.verts x = some y' ∧ y'.nont = y.nont ∧ y'.neigh = y.neigh := by
        intro x y hy
        by_cases hxa : x = a
        · subst hxa; rw [ha3] at hy; cases hy; exact ⟨_, hv, rfl, rfl⟩
        · exact ⟨y, by rw [← hc3 x hxa]; exact hy, rfl, rfl⟩
      refine ⟨?_, ?_, ?_, ?_, ?_, ?_, ?_⟩
      · intro q x hq
        simp only [hm3, hm2, upd] at hq
        split at hq
        · simp at hq
        · rename_i hqp
          obtain ⟨y, hy, hqy⟩ := h.tp q x hq
          by_cases hxa : x = a
          · subst hxa; rw [hv] at hy; cases hy; exact ⟨_, ha3, by simp [hqp, hqy]⟩
          · exact ⟨y, by rw [hc3 x hxa]; exact hy, hqy⟩
      · intro x y q hy hq
        by_cases hxa : x = a
        · subst hxa; rw [ha3] at hy; cases hy
          simp only [Finset.mem_erase] at hq
          simp [hm3, hm2, upd, hq.1, h.tr x v q hv hq.2]
        · rw [hc3 x hxa] at hy
          have := h.tr x y q hy hq
          have hqp : q ≠ p := by rintro rfl; rw [ha] at this; exact hxa (Option.some.inj this).symm
          simp [hm3, hm2, upd, hqp, this]
      · intro x y hy
        by_cases hxa : x = a
        · subst hxa; rw [ha3] at hy; cases hy; simp [Finset.card_erase_of_mem hpv, huc]
        · rw [hc3 x hxa] at hy; exact h.uc x y hy
      · intro x y hy
        by_cases hxa : x = a
        · subst hxa; rw [ha3] at hy; cases hy
          apply Finset.card_pos.1
          simp only [Finset.card_erase_of_mem hpv]; omega
        · rw [hc3 x hxa] at hy; exact h.own x y hy
      · intro n x hn
        obtain ⟨y, hy, hny⟩ := h.np n x hn
        obtain ⟨y', h1, h2, _⟩ := keep3 x y hy
        exact ⟨y', h1, by rw [h2]; exact hny⟩
      · intro x y n hy hn
        obtain ⟨y', h1, h2, _⟩ := lift3 x y hy
        exact h.nt x y' n h1 (by rw [h2]; exact hn)
      · intro x y b hy hb
        obtain ⟨y', h1, _, h2⟩ := lift3 x y hy
        obtain ⟨h3, w, h4, h5⟩ := h.nb x y' b h1 (by rw [h2]; exact hb)
        obtain ⟨w', h6, _, h7⟩ := keep3 b w h4
        exact ⟨h3, w', h6, by rw [h7]; exact h5⟩

/-- Changing neighbours, position or record of vertices. -/
theorem Inv.changeN {m : M K} (h : Inv m) (f : Nat → Vert K → Vert K)
    (h1 : ∀ c v, (f c v).trbl = v.trbl ∧ (f c v).nont = v.nont ∧ (f c v).uc = v.uc)
    (h2 : ∀ a v b, m.verts a = some v → b ∈ (f a v).neigh → b ≠ a ∧ ∃ w, m.verts b = some w ∧ a ∈ (f b w).neigh) :
    Inv { m with verts := fun c => (m.verts c).map (f c) } := by
  have lift : ∀ x y, (m.verts x).map (f x) = some y → ∃ y', m.verts x = some y' ∧ y = f x y' := by
    intro x y hy
    obtain ⟨y', h3, h4⟩ := Option.map_eq_some_iff.1 hy
    exact ⟨y', h3, h4.symm⟩
  refine ⟨?_, ?_, ?_, ?_, ?_, ?_, ?_⟩
  · intro p x hp
    obtain ⟨y, hy, hpy⟩ := h.tp p x hp
    exact ⟨f x y, by simp [hy], by rw [(h1 x y).1]; exact hpy⟩
  · intro x y p hy hp
    obtain ⟨y', h3, rfl⟩ := lift x y hy
    exact h.tr x y' p h3 (by rw [← (h1 x y').1]; exact hp)
  · intro x y hy
    obtain ⟨y', h3, rfl⟩ := lift x y hy
    rw [(h1 x y').1, (h1 x y').2.2]; exact h.uc x y' h3
  · intro x y hy
    obtain ⟨y', h3, rfl⟩ := lift x y hy
    rw [(h1 x y').1]; exact h.own x y' h3
  · intro n x hn
    obtain ⟨y, hy, hny⟩ := h.np n x hn
    exact ⟨f x y, by simp [hy], by rw [(h1 x y).2.1]; exact hny⟩
  · intro x y n hy hn
    obtain ⟨y', h3, rfl⟩ := lift x y hy
    exact h.nt x y' n h3 (by rw [← (h1 x y').2.1]; exact hn)
  · intro x y b hy hb
    obtain ⟨y', h3, rfl⟩ := lift x y hy
    obtain ⟨h4, w, h5, h6⟩ := h2 x y' b h3 hb
    exact ⟨h4, f b w, by simp [h5], h6⟩

/-- Memory after connecting `a` to all of `l`. -/
def S (m : M K) (a : Nat) (l : List Nat) : M K :=
  { m with verts := fun c => (m.verts c).map fun v => { v with neigh := (if c = a then v.neigh ∪ (List.toFinset l).erase a else if c ∈ l then insert a v.neigh else v.neigh) } }

theorem connect_eq {m : M K} {a b : Nat} {v w : Vert K} (ha : m.verts a = some v) (hb : m.verts b = some w) :
    connect m a b = some (S m a [b]) := by
  unfold connect
  split
  · rename_i hab
    rw [modV_some _ ha, Option.bind_some, modV_some (v := w) _ (by simp [upd, Ne.symm hab, hb])]
    congr 1
    refine M.ext' (fun c => ?_) (fun _ => rfl) (fun _ => rfl)
    simp only [upd, S]
    by_cases h1 : c = b
    · subst h1; simp [Ne.symm hab, hb]
    · by_cases h2 : c = a
      · subst h2
        have : ({b} : Finset Nat).erase c = {b} := Finset.erase_eq_of_notMem (by simp [hab])
        simp only [List.toFinset_cons, List.toFinset_nil, insert_empty_eq, this, h1, if_false, if_true, ha, Option.map_some]
        rw [Finset.union_comm, Finset.insert_eq]
      · simp only [h1, h2, if_false]; simp [h1]
  · rename_i hab
    have hab : a = b := by simpa using hab
    subst hab
    congr 1
    refine M.ext' (fun c => ?_) (fun _ => rfl) (fun _ => rfl)
    simp only [S]
    by_cases h2 : c = a
    · subst h2; simp [ha]
    · simp [h2]

theorem S_inv {m : M K} (h : Inv m) {a : Nat} {v : Vert K} (ha : m.verts a = some v) (l : List Nat)
    (hl : ∀ b ∈ l, ∃ w, m.verts b = some w) : Inv (S m a l) := by
  apply h.changeN
  · intros; exact ⟨rfl, rfl, rfl⟩
  · intro x y b hy hb
    by_cases hxa : x = a
    · subst hxa
      simp only [if_true, Finset.mem_union, Finset.mem_erase, List.mem_toFinset] at hb
      rcases hb with hb | ⟨h1, h2⟩
      · obtain ⟨h3, w, h4, h5⟩ := h.nb x y b hy hb
        refine ⟨h3, w, h4, ?_⟩
        simp only [h3, if_false]; split <;> simp [h5]
      · obtain ⟨w, hw⟩ := hl b h2
        exact ⟨h1, w, hw, by simp [h1, h2]⟩
    · simp only [hxa, if_false] at hb
      by_cases hxl : x ∈ l
      · simp only [hxl, if_true, Finset.mem_insert] at hb
        by_cases hba : b = a
        · subst hba
          exact ⟨fun h => hxa h.symm, v, ha, by simp [hxa, hxl]⟩
        · obtain ⟨h3, w, h4, h5⟩ := h.nb x y b hy (hb.resolve_left hba)
          refine ⟨h3, w, h4, ?_⟩
          simp only [hba, if_false]; split <;> simp [h5]
      · simp only [hxl, if_false] at hb
        obtain ⟨h3, w, h4, h5⟩ := h.nb x y b hy hb
        refine ⟨h3, w, h4, ?_⟩
        split
        · simp [h5]
        · split <;> simp [h5]

theorem S_alive {m : M K} {a b : Nat} {l : List Nat} {w : Vert K} (h : m.verts b = some w) : ∃ w', (S m a l).verts b = some w' := by
  simp [S, h]

theorem stealLoop_eq (a : Nat) : ∀ (l : List Nat) (m : M K) (v : Vert K), m.verts a = some v → (∀ b ∈ l, ∃ w, m.verts b = some w) →
    stealLoop a l m = some (S m a l)
  | [], m, v, ha, _ => by
    simp only [stealLoop, Option.some.injEq]
    refine M.ext' (fun c => ?_) (fun _ => rfl) (fun _ => rfl)
    simp only [S]
    by_cases h2 : c = a
    · subst h2; simp [ha]
    · simp [h2]
  | n :: l, m, v, ha, hl => by
    obtain ⟨w, hw⟩ := hl n (by simp)
    obtain ⟨v', hv'⟩ := S_alive (l := [n]) (a := a) ha
    simp only [stealLoop, connect_eq ha hw, Option.bind_some]
    rw [stealLoop_eq a l _ v' hv' (fun b hb => by obtain ⟨w, hw⟩ := hl b (by simp [hb]); exact S_alive hw)]
    congr 1
    refine M.ext' (fun c => ?_) (fun _ => rfl) (fun _ => rfl)
    simp only [S, Option.map_map]
    congr 1
    funext y
    simp only [Function.comp]
    congr 1
    by_cases h1 : c = a
    · simp only [h1, if_true]
      ext x
      simp only [Finset.mem_union, Finset.mem_erase, List.mem_toFinset, List.mem_cons, List.not_mem_nil, or_false]
      tauto
    · simp only [h1, if_false, List.mem_cons, List.not_mem_nil, or_false]
      by_cases h2 : c = n
      · subst h2; simp
      · simp [h2]

/-- Memory after all the `Transferable_ptr`s of `b` are moved to `a` and `b` is destroyed. -/
def E (m : M K) (a b : Nat) (tb : Finset Nat) : M K :=
  { verts := fun c => if c = b then none else (m.verts c).map fun v =>
      if c = a then { v with trbl := v.trbl ∪ tb, uc := v.uc + tb.card, neigh := v.neigh.erase b } else { v with neigh := v.neigh.erase b }
    tp := fun p => if m.tp p = some b then some a else m.tp p
    np := fun n => if m.np n = some (some b) then some none else m.np n }

theorem moveLoop_eq (a b t : Nat) (hab : a ≠ b) : ∀ (k : Nat) (m : M K) (v : Vert K), Inv m → m.verts b = some v → v.trbl.card = k + 1 →
    m.tp t = some a → moveLoop b t (k + 1) m = some (E m a b v.trbl) ∧ Inv (E m a b v.trbl)
  | 0, m, v, h, hv, hk, ht => by
    obtain ⟨q, hq, hqm⟩ := begin_mem (h.own b v hv)
    have htq := h.tr b v q hv hqm
    obtain ⟨w, hw, _⟩ := h.tp t a ht
    have honly : v.trbl = {q} := by
      obtain ⟨x, hx⟩ := Finset.card_eq_one.1 hk
      rw [hx] at hqm ⊢; rw [Finset.mem_singleton] at hqm; rw [hqm]
    simp only [moveLoop, hv, Option.bind_some, hq, assignT_last h (Ne.symm hab) htq ht hv hk]
    have heq : D (movePtr m q b a) b = E m a b v.trbl := by
      refine M.ext' (fun c => ?_) (fun p => ?_) (fun n => rfl)
      · simp only [D, movePtr, E]
        by_cases h1 : c = b
        · simp [h1]
        · simp only [h1, if_false]
          by_cases h2 : c = a
          · subst h2
            simp [hw, honly]
          · simp [h2]
      · simp only [D, movePtr, E, upd]
        by_cases h1 : p = q
        · subst h1; simp [htq]
        · simp only [h1, if_false]
          have : m.tp p ≠ some b := by
            intro hp
            obtain ⟨v', h2, h3⟩ := h.tp p b hp
            rw [hv] at h2; cases h2
            rw [honly, Finset.mem_singleton] at h3; exact h1 h3
          simp [this]
    rw [← heq]
    exact ⟨rfl, lastMove_inv h (Ne.symm hab) htq hw hv hk⟩
  | k + 1, m, v, h, hv, hk, ht => by
    obtain ⟨q, hq, hqm⟩ := begin_mem (h.own b v hv)
    have htq := h.tr b v q hv hqm
    obtain ⟨w, hw, _⟩ := h.tp t a ht
    have hqw : q ∉ w.trbl := fun hh => by
      have := h.tr a w q hw hh; rw [htq] at this; exact hab (Option.some.inj this).symm
    rw [moveLoop]
    simp only [hv, Option.bind_some, hq, assignT_move h (Ne.symm hab) htq ht hv (by omega)]
    have hinv := movePtr_inv h (Ne.symm hab) htq hw hv (by omega)
    have hb' : (movePtr m q b a).verts b = some { v with trbl := v.trbl.erase q, uc := v.uc - 1 } := by simp [movePtr, hv]
    have ht' : (movePtr m q b a).tp t = some a := by
      simp only [movePtr, upd]; split <;> simp [ht]
    have ih := moveLoop_eq a b t hab k _ _ hinv hb' (by simp [Finset.card_erase_of_mem hqm, hk]) ht'
    have heq : E (movePtr m q b a) a b (v.trbl.erase q) = E m a b v.trbl := by
      refine M.ext' (fun c => ?_) (fun p => ?_) (fun n => rfl)
      · simp only [E, movePtr]
        by_cases h1 : c = b
        · simp [h1]
        · simp only [h1, if_false]
          by_cases h2 : c = a
          · subst h2
            have e1 : insert q w.trbl ∪ v.trbl.erase q = w.trbl ∪ v.trbl := by
              ext x; simp only [Finset.mem_union, Finset.mem_insert, Finset.mem_erase]
              by_cases hx : x = q
              · subst hx; simp [hqm]
              · simp [hx]
            have e2 : w.uc + 1 + (v.trbl.erase q).card = w.uc + v.trbl.card := by
              rw [Finset.card_erase_of_mem hqm]; omega
            simp [hw, e1, e2]
          · simp [h2]
      · simp only [E, movePtr, upd]
        by_cases h1 : p = q
        · subst h1; simp [htq]
        · simp [h1]
    rw [← heq]
    exact ih

/-- Memory after `a` eats `b`, in terms of the memory before. -/
def eaten (m : M K) (a b : Nat) (va vb : Vert K) : M K :=
  { verts := fun c =>
      if c = b then none
      else if c = a then some
        { pos := fun i => (va.trbl.card * va.pos i + vb.trbl.card * vb.pos i) / (va.trbl.card + vb.trbl.card)
          record := va.record ++ vb.record
          trbl := va.trbl ∪ vb.trbl
          nont := va.nont
          neigh := ((va.neigh ∪ vb.neigh).erase a).erase b
          uc := va.uc + vb.trbl.card }
      else (m.verts c).map fun v => { v with neigh := (if b ∈ v.neigh then insert a v.neigh else v.neigh).erase b }
    tp := fun p => if m.tp p = some b then some a else m.tp p
    np := fun n => if m.np n = some (some b) then some none else m.np n }

theorem eat_eq {m : M K} (h : Inv m) {a b : Nat} (hab : a ≠ b) {va vb : Vert K} (ha : m.verts a = some va) (hb : m.verts b = some vb) :
    eat m a b = some (eaten m a b va vb) ∧ Inv (eaten m a b va vb) := by
  have hba : b ≠ a := Ne.symm hab
  unfold eat
  rw [if_pos hab, ha, Option.bind_some, hb, Option.bind_some]
  simp only [modV_some _ ha, Option.bind_some]
  set ps : Fin 3 → K := fun i => (va.trbl.card * va.pos i + vb.trbl.card * vb.pos i) / (va.trbl.card + vb.trbl.card) with hps
  set m1 : M K := { m with verts := upd m.verts a (some { va with pos := ps }) } with hm1
  have e1 : m1 = { m with verts := fun c => (m.verts c).map fun v => if c = a then { v with pos := ps } else v } := by
    refine M.ext' (fun c => ?_) (fun _ => rfl) (fun _ => rfl)
    simp only [hm1, upd]
    by_cases hc : c = a
    · subst hc; simp [ha]
    · simp [hc]
  have i1 : Inv m1 := by
    rw [e1]
    apply h.changeN
    · intro c v; split <;> exact ⟨rfl, rfl, rfl⟩
    · intro x v y hx hy
      have hy' : y ∈ v.neigh := by split at hy <;> exact hy
      obtain ⟨h1, w, h2, h3⟩ := h.nb x v y hx hy'
      exact ⟨h1, w, h2, by split <;> exact h3⟩
  have ha1 : m1.verts a = some { va with pos := ps } := by simp [hm1, upd]
  have hb1 : m1.verts b = some vb := by simp [hm1, upd, hba, hb]
  have hal : ∀ x ∈ vb.neigh.sort (· ≤ ·), ∃ w, m1.verts x = some w := by
    intro x hx
    obtain ⟨_, w, hw, _⟩ := i1.nb b vb x hb1 ((Finset.mem_sort _).1 hx)
    exact ⟨w, hw⟩
  rw [stealLoop_eq a _ m1 _ ha1 hal, Option.bind_some]
  have i2 := S_inv i1 ha1 _ hal
  set m2 : M K := S m1 a (vb.neigh.sort (· ≤ ·)) with hm2
  have hbnb : b ∉ vb.neigh := fun hh => (h.nb b vb b hb hh).1 rfl
  have hnb : (vb.neigh.sort (· ≤ ·)).toFinset = vb.neigh := Finset.sort_toFinset _ _
  have ha2 : m2.verts a = some { va with pos := ps, neigh := va.neigh ∪ vb.neigh.erase a } := by
    simp [hm2, S, ha1, hnb]
  have hb2 : m2.verts b = some vb := by
    have : b ∉ vb.neigh.sort (· ≤ ·) := fun hh => hbnb ((Finset.mem_sort _).1 hh)
    simp only [hm2, S, hb1, Option.map_some, hba, if_false, this]
  rw [modV_some _ ha2, Option.bind_some]
  set m3 : M K := { m2 with verts := upd m2.verts a (some { va with pos := ps, neigh := va.neigh ∪ vb.neigh.erase a, record := va.record ++ vb.record }) } with hm3
  have e3 : m3 = { m2 with verts := fun c => (m2.verts c).map fun v => if c = a then { v with record := va.record ++ vb.record } else v } := by
    refine M.ext' (fun c => ?_) (fun _ => rfl) (fun _ => rfl)
    simp only [hm3, upd]
    by_cases hc : c = a
    · subst hc; simp [ha2]
    · simp [hc]
  have i3 : Inv m3 := by
    rw [e3]
    apply i2.changeN
    · intro c v; split <;> exact ⟨rfl, rfl, rfl⟩
    · intro x v y hx hy
      have hy' : y ∈ v.neigh := by split at hy <;> exact hy
      obtain ⟨h1, w, h2, h3⟩ := i2.nb x v y hx hy'
      exact ⟨h1, w, h2, by split <;> exact h3⟩
  have ha3 : m3.verts a = some { va with pos := ps, neigh := va.neigh ∪ vb.neigh.erase a, record := va.record ++ vb.record } := by
    simp [hm3, upd]
  have hb3 : m3.verts b = some vb := by simp [hm3, upd, hba, hb2]
  obtain ⟨t, ht, htm⟩ := begin_mem (h.own a va ha)
  have htp : m3.tp t = some a := h.tr a va t ha htm
  simp only [ha3, Option.bind_some, ht, hb3]
  obtain ⟨k, hk⟩ : ∃ k, vb.trbl.card = k + 1 := ⟨vb.trbl.card - 1, by have := Finset.card_pos.2 (h.own b vb hb); omega⟩
  have hmv := moveLoop_eq a b t hab k m3 vb i3 hb3 hk htp
  have heq : E m3 a b vb.trbl = eaten m a b va vb := by
    refine M.ext' (fun c => ?_) (fun p => rfl) (fun n => rfl)
    simp only [E, eaten]
    by_cases h1 : c = b
    · simp [h1]
    · simp only [h1, if_false]
      by_cases h2 : c = a
      · subst h2
        rw [ha3]
        have hana : c ∉ va.neigh := fun hh => (h.nb c va c ha hh).1 rfl
        have : va.neigh ∪ vb.neigh.erase c = (va.neigh ∪ vb.neigh).erase c := by
          ext x; simp only [Finset.mem_union, Finset.mem_erase]
          constructor
          · rintro (h | h)
            · exact ⟨fun hx => hana (hx ▸ h), Or.inl h⟩
            · exact ⟨h.1, Or.inr h.2⟩
          · rintro ⟨h1, h2 | h2⟩
            · exact Or.inl h2
            · exact Or.inr ⟨h1, h2⟩
        simp [this, hps]
      · have e4 : m3.verts c = (m.verts c).map fun v => { v with neigh := if c ∈ vb.neigh.sort (· ≤ ·) then insert a v.neigh else v.neigh } := by
          simp only [hm3, upd, h2, if_false, hm2, S]
          simp only [hm1, upd, h2, if_false]
        rw [e4, Option.map_map]
        cases hv : m.verts c with
        | none => simp [h2]
        | some v =>
          have hiff : c ∈ vb.neigh.sort (· ≤ ·) ↔ b ∈ v.neigh := by
            rw [Finset.mem_sort]
            constructor
            · intro hc
              obtain ⟨_, w, h4, h5⟩ := h.nb b vb c hb hc
              rw [hv] at h4; cases h4; exact h5
            · intro hc
              obtain ⟨_, w, h4, h5⟩ := h.nb c v b hv hc
              rw [hb] at h4; cases h4; exact h5
          simp only [Option.map_some, Function.comp, h2, if_false, hiff]
  rw [hk, ← heq]
  exact hmv

theorem eat_self (m : M K) (a : Nat) : eat m a a = some m := by simp [eat]

theorem eat_inv {m : M K} (h : Inv m) {a b : Nat} {va vb : Vert K} (ha : m.verts a = some va) (hb : m.verts b = some vb) :
    ∃ m', eat m a b = some m' ∧ Inv m' := by
  by_cases hab : a = b
  · subst hab; exact ⟨m, eat_self m a, h⟩
  · exact ⟨_, (eat_eq h hab ha hb).1, (eat_eq h hab ha hb).2⟩

/-- Changing the `Non_transferable_ptr`s. -/
theorem Inv.changeP {m : M K} (h : Inv m) (f : Nat → Vert K → Vert K) (np' : Nat → Option (Option Nat))
    (h1 : ∀ c v, (f c v).trbl = v.trbl ∧ (f c v).neigh = v.neigh ∧ (f c v).uc = v.uc)
    (h2 : ∀ n a, np' n = some (some a) → ∃ v, m.verts a = some v ∧ n ∈ (f a v).nont)
    (h3 : ∀ a v n, m.verts a = some v → n ∈ (f a v).nont → np' n = some (some a)) :
    Inv { m with verts := fun c => (m.verts c).map (f c), np := np' } := by
  have lift : ∀ x y, (m.verts x).map (f x) = some y → ∃ y', m.verts x = some y' ∧ y = f x y' := by
    intro x y hy
    obtain ⟨y', h3, h4⟩ := Option.map_eq_some_iff.1 hy
    exact ⟨y', h3, h4.symm⟩
  refine ⟨?_, ?_, ?_, ?_, ?_, ?_, ?_⟩
  · intro p x hp
    obtain ⟨y, hy, hpy⟩ := h.tp p x hp
    exact ⟨f x y, by simp [hy], by rw [(h1 x y).1]; exact hpy⟩
  · intro x y p hy hp
    obtain ⟨y', h3, rfl⟩ := lift x y hy
    exact h.tr x y' p h3 (by rw [← (h1 x y').1]; exact hp)
  · intro x y hy
    obtain ⟨y', h3, rfl⟩ := lift x y hy
    rw [(h1 x y').1, (h1 x y').2.2]; exact h.uc x y' h3
  · intro x y hy
    obtain ⟨y', h3, rfl⟩ := lift x y hy
    rw [(h1 x y').1]; exact h.own x y' h3
  · intro n x hn
    obtain ⟨y, hy, hny⟩ := h2 n x hn
    exact ⟨f x y, by simp [hy], hny⟩
  · intro x y n hy hn
    obtain ⟨y', h4, rfl⟩ := lift x y hy
    exact h3 x y' n h4 hn
  · intro x y b hy hb
    obtain ⟨y', h4, rfl⟩ := lift x y hy
    rw [(h1 x y').2.1] at hb
    obtain ⟨h5, w, h6, h7⟩ := h.nb x y' b h4 hb
    exact ⟨h5, f b w, by simp [h6], by rw [(h1 b w).2.1]; exact h7⟩

/-- Memory with `Non_transferable_ptr` `n` (dead, null or not) set to `t`. -/
def setN (m : M K) (n : Nat) (t : Option (Option Nat)) : M K :=
  { m with
    verts := fun c => (m.verts c).map fun v => { v with nont := if t = some (some c) then insert n v.nont else v.nont.erase n }
    np := upd m.np n t }

theorem setN_inv {m : M K} (h : Inv m) (n : Nat) (t : Option (Option Nat)) (ht : ∀ a, t = some (some a) → m.verts a ≠ none) : Inv (setN m n t) := by
  apply h.changeP
  · intros; exact ⟨rfl, rfl, rfl⟩
  · intro k a hk
    simp only [upd] at hk
    split at hk
    · rename_i hkn; subst hkn
      obtain ⟨v, hv⟩ := Option.ne_none_iff_exists'.1 (ht a hk)
      exact ⟨v, hv, by simp [hk]⟩
    · rename_i hkn
      obtain ⟨v, hv, hkv⟩ := h.np k a hk
      refine ⟨v, hv, ?_⟩
      split <;> simp [hkn, hkv]
  · intro a v k hv hk
    dsimp only at hk
    split at hk
    · rename_i hta
      by_cases hkn : k = n
      · simp [upd, hkn, hta]
      · simp only [Finset.mem_insert, hkn, false_or] at hk
        simp [upd, hkn, h.nt a v k hv hk]
    · simp only [Finset.mem_erase] at hk
      simp [upd, hk.1, h.nt a v k hv hk.2]

theorem nullify_eq {m : M K} (h : Inv m) {n : Nat} (hn : m.np n ≠ none) : nullify m n = some (setN m n (some none)) := by
  obtain ⟨p, hp⟩ := Option.ne_none_iff_exists'.1 hn
  have hno : ∀ c v, m.verts c = some v → p ≠ some c → n ∉ v.nont := by
    intro c v hv hpc hh
    have := h.nt c v n hv hh
    rw [hp] at this; exact hpc (Option.some.inj this)
  cases p with
  | none =>
    simp only [nullify, hp, Option.bind_some]
    congr 1
    refine M.ext' (fun c => ?_) (fun _ => rfl) (fun k => ?_)
    · simp only [setN]
      cases hv : m.verts c with
      | none => rfl
      | some v => simp [Finset.erase_eq_of_notMem (hno c v hv (by simp))]
    · simp only [setN, upd]; split
      · rename_i hk; subst hk; exact hp
      · rfl
  | some a =>
    obtain ⟨v, hv, hnv⟩ := h.np n a hp
    simp only [nullify, hp, Option.bind_some, modV_some _ hv, Option.map_some]
    congr 1
    refine M.ext' (fun c => ?_) (fun _ => rfl) (fun k => rfl)
    simp only [setN, upd]
    by_cases hc : c = a
    · subst hc; simp [hv]
    · simp only [hc, if_false]
      cases hw : m.verts c with
      | none => rfl
      | some w => simp [Finset.erase_eq_of_notMem (hno c w hw (by simpa using fun h => hc h.symm))]

theorem newN_eq {m : M K} (h : Inv m) {n a : Nat} (hn : m.np n = none ∨ m.np n = some none) {v : Vert K} (hv : m.verts a = some v) :
    newN m n a = some (setN m n (some (some a))) := by
  have hno : ∀ c v, m.verts c = some v → n ∉ v.nont := by
    intro c v hv hh
    have := h.nt c v n hv hh
    rcases hn with hn | hn <;> rw [hn] at this <;> simp at this
  simp only [newN, modV_some _ hv, Option.map_some]
  congr 1
  refine M.ext' (fun c => ?_) (fun _ => rfl) (fun k => rfl)
  simp only [setN, upd]
  by_cases hc : c = a
  · subst hc; simp [hv]
  · simp only [hc, if_false]
    cases hw : m.verts c with
    | none => rfl
    | some w => simp [Finset.erase_eq_of_notMem (hno c w hw), Ne.symm hc]

theorem setN_none {m : M K} (h : Inv m) {n : Nat} (hn : m.np n = none ∨ m.np n = some none) (t : Option (Option Nat)) (ht : t = none ∨ t = some none) :
    setN m n t = { m with np := upd m.np n t } := by
  have hno : ∀ c v, m.verts c = some v → n ∉ v.nont := by
    intro c v hv hh
    have := h.nt c v n hv hh
    rcases hn with hn | hn <;> rw [hn] at this <;> simp at this
  refine M.ext' (fun c => ?_) (fun _ => rfl) (fun k => rfl)
  simp only [setN]
  cases hv : m.verts c with
  | none => rfl
  | some v => rcases ht with rfl | rfl <;> simp [Finset.erase_eq_of_notMem (hno c v hv)]

theorem copyN_inv {m : M K} (h : Inv m) {n k : Nat} (hn : m.np n = none) (hk : m.np k ≠ none) : ∃ m', copyN m n k = some m' ∧ Inv m' := by
  obtain ⟨p, hp⟩ := Option.ne_none_iff_exists'.1 hk
  cases p with
  | none =>
    refine ⟨setN m n (some none), ?_, setN_inv h n _ (by simp)⟩
    simp [copyN, hp, setN_none h (Or.inl hn)]
  | some a =>
    obtain ⟨v, hv, _⟩ := h.np k a hp
    exact ⟨setN m n (some (some a)), by simp [copyN, hp, newN_eq h (Or.inl hn) hv], setN_inv h n _ (by rintro b hb; cases hb; simp [hv])⟩

theorem destroyN_inv {m : M K} (h : Inv m) {n : Nat} (hn : m.np n ≠ none) : ∃ m', destroyN m n = some m' ∧ Inv m' := by
  have h1 := setN_inv h n (some none) (by simp)
  refine ⟨setN (setN m n (some none)) n none, ?_, setN_inv h1 n none (by simp)⟩
  rw [setN_none h1 (Or.inr (by simp [setN, upd])) none (Or.inl rfl)]
  simp [destroyN, nullify_eq h hn]

theorem assignN_inv {m : M K} (h : Inv m) {n k : Nat} (hn : m.np n ≠ none) (hk : m.np k ≠ none) : ∃ m', assignN m n k = some m' ∧ Inv m' := by
  have h1 := setN_inv h n (some none) (by simp)
  have hn1 : (setN m n (some none)).np n = some none := by simp [setN, upd]
  have hk1 : (setN m n (some none)).np k ≠ none := by
    simp only [setN, upd]; split
    · simp
    · exact hk
  obtain ⟨p, hp⟩ := Option.ne_none_iff_exists'.1 hk1
  cases p with
  | none =>
    refine ⟨setN (setN m n (some none)) n (some none), ?_, setN_inv h1 n _ (by simp)⟩
    simp [assignN, nullify_eq h hn, hp, setN_none h1 (Or.inr hn1)]
  | some a =>
    obtain ⟨v, hv, _⟩ := h1.np k a hp
    refine ⟨setN (setN m n (some none)) n (some (some a)), ?_, setN_inv h1 n _ (by rintro b hb; cases hb; simp [hv])⟩
    have := newN_eq h1 (Or.inr hn1) hv
    simp only [newN] at this
    simp only [assignN, nullify_eq h hn, Option.bind_some, hp, this]

theorem step_inv {m : M K} (h : Inv m) (op : Op K) (hl : Legal m op) : ∃ m', step m op = some m' ∧ Inv m' := by
  have alive : ∀ p, m.tp p ≠ none → ∃ a v, m.tp p = some a ∧ m.verts a = some v := by
    intro p hp
    obtain ⟨a, ha⟩ := Option.ne_none_iff_exists'.1 hp
    obtain ⟨v, hv, _⟩ := h.tp p a ha
    exact ⟨a, v, ha, hv⟩
  cases op with
  | newT p a pos => exact ⟨_, rfl, newT_inv h pos hl.1 hl.2⟩
  | copyT p q => exact copyT_inv h hl.1 hl.2
  | destroyT p => exact destroyT_inv h hl
  | assignT p q => exact assignT_inv h hl.1 hl.2
  | connect p q =>
    obtain ⟨a, v, ha, hv⟩ := alive p hl.1
    obtain ⟨b, w, hb, hw⟩ := alive q hl.2
    exact ⟨_, by simp [step, ha, hb, connect_eq hv hw], S_inv h hv [b] (by simp [hw])⟩
  | eat p q =>
    obtain ⟨a, v, ha, hv⟩ := alive p hl.1
    obtain ⟨b, w, hb, hw⟩ := alive q hl.2
    obtain ⟨m', h1, h2⟩ := eat_inv h hv hw
    exact ⟨m', by simp [step, ha, hb, h1], h2⟩
  | newN n q =>
    obtain ⟨a, v, ha, hv⟩ := alive q hl.2
    exact ⟨setN m n (some (some a)), by simp [step, ha, newN_eq h (Or.inl hl.1) hv], setN_inv h n _ (by rintro b hb; cases hb; simp [hv])⟩
  | copyN n k => exact copyN_inv h hl.1 hl.2
  | destroyN n => exact destroyN_inv h hl
  | assignN n k => exact assignN_inv h hl.1 hl.2

theorem reach_inv {m : M K} (h : Reach m) : Inv m := by
  induction h with
  | init => exact empty_inv
  | step h1 h2 h3 ih =>
    obtain ⟨m', h4, h5⟩ := step_inv ih _ h2
    rw [h3] at h4; cases h4; exact h5

end Hexed.Vertex
