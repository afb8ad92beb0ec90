import Verif.Vertex.Model
import Mathlib.Tactic.Ring
import Mathlib.Tactic.FieldSimp
import Mathlib.Algebra.BigOperators.Group.Finset.Basic
set_option autoImplicit false
set_option linter.unusedVariables false

namespace Hexed.Vertex
variable {K : Type} [Field K]

theorem M.ext' {m m' : M K} (h1 : ∀ c, m.verts c = m'.verts c) (h2 : ∀ p, m.tp p = m'.tp p) (h3 : ∀ n, m.np n = m'.np n) : m = m' := by
  obtain ⟨a, b, c⟩ := m; obtain ⟨a', b', c'⟩ := m'
  simp only [M.mk.injEq]
  exact ⟨funext h1, funext h2, funext h3⟩

theorem modV_some {m : M K} {a : Nat} {v : Vert K} (f : Vert K → Vert K) (h : m.verts a = some v) :
    modV m a f = some { m with verts := upd m.verts a (some (f v)) } := by simp [modV, h]

/-- The consistency invariant. -/
structure Inv (m : M K) : Prop where
  tp : ∀ p a, m.tp p = some a → ∃ v, m.verts a = some v ∧ p ∈ v.trbl
  tr : ∀ a v p, m.verts a = some v → p ∈ v.trbl → m.tp p = some a
  uc : ∀ a v, m.verts a = some v → v.uc = v.trbl.card
  own : ∀ a v, m.verts a = some v → v.trbl.Nonempty
  np : ∀ n a, m.np n = some (some a) → ∃ v, m.verts a = some v ∧ n ∈ v.nont
  nt : ∀ a v n, m.verts a = some v → n ∈ v.nont → m.np n = some (some a)
  nb : ∀ a v b, m.verts a = some v → b ∈ v.neigh → b ≠ a ∧ ∃ w, m.verts b = some w ∧ a ∈ w.neigh

theorem begin_mem {s : Finset Nat} (h : s.Nonempty) : ∃ x, begin_ s = some x ∧ x ∈ s :=
  ⟨s.min' h, by simp [begin_, h], s.min'_mem h⟩

theorem nullifyLoop_eq (a : Nat) : ∀ (k : Nat) (m : M K) (v : Vert K), m.verts a = some v → v.nont.card = k →
    (∀ n ∈ v.nont, m.np n = some (some a)) →
    nullifyLoop a k m = some ⟨upd m.verts a (some { v with nont := ∅ }), m.tp, fun n => if n ∈ v.nont then some none else m.np n⟩
  | 0, m, v, hv, hk, hn => by
    have h0 : v.nont = ∅ := Finset.card_eq_zero.1 hk
    simp only [nullifyLoop, Option.some.injEq]
    refine M.ext' (fun c => ?_) (fun _ => rfl) (fun n => ?_)
    · simp only [upd]; split
      · rename_i h; subst h; rw [hv]; cases v; simp_all
      · rfl
    · simp [h0]
  | k + 1, m, v, hv, hk, hn => by
    have hne : v.nont.Nonempty := Finset.card_pos.1 (by omega)
    obtain ⟨x, hx, hxm⟩ := begin_mem hne
    have hnull : nullify m x = some ⟨upd m.verts a (some { v with nont := v.nont.erase x }), m.tp, upd m.np x (some none)⟩ := by
      simp [nullify, hn x hxm, modV_some _ hv]
    simp only [nullifyLoop, hv, Option.bind_some, hx, hnull]
    rw [nullifyLoop_eq a k _ { v with nont := v.nont.erase x } (by simp [upd]) (by simp [Finset.card_erase_of_mem hxm, hk])]
    · congr 1
      refine M.ext' (fun c => ?_) (fun _ => rfl) (fun n => ?_)
      · simp only [upd]; split <;> rfl
      · simp only [upd, Finset.mem_erase]
        by_cases h1 : n = x
        · subst h1; simp [hxm]
        · simp [h1]
    · intro n hnm
      simp only [Finset.mem_erase] at hnm
      simp [upd, hnm.1, hn n hnm.2]

theorem forgetLoop_eq (a : Nat) : ∀ (l : List Nat) (m : M K), (∀ b ∈ l, b ≠ a ∧ ∃ w, m.verts b = some w) →
    forgetLoop a l m = some { m with verts := fun c => if c ∈ l then (m.verts c).map fun w => { w with neigh := w.neigh.erase a } else m.verts c }
  | [], m, _ => by simp [forgetLoop]
  | b :: l, m, h => by
    obtain ⟨hba, w, hw⟩ := h b (by simp)
    simp only [forgetLoop, if_neg hba, modV_some _ hw, Option.bind_some]
    rw [forgetLoop_eq a l]
    · congr 1
      refine M.ext' (fun c => ?_) (fun _ => rfl) (fun _ => rfl)
      simp only [upd, List.mem_cons]
      by_cases hcb : c = b
      · subst hcb
        simp only [hw, true_or, if_true, Option.map_some]
        split <;> simp
      · simp [hcb]
    · intro c hc
      obtain ⟨h1, w', hw'⟩ := h c (by simp [hc])
      refine ⟨h1, ?_⟩
      simp only [upd]
      split
      · exact ⟨_, rfl⟩
      · exact ⟨w', hw'⟩

/-- Memory after the destruction of vertex `a`. -/
def D (m : M K) (a : Nat) : M K :=
  { verts := fun c => if c = a then none else (m.verts c).map fun w => { w with neigh := w.neigh.erase a }
    tp := m.tp
    np := fun n => if m.np n = some (some a) then some none else m.np n }

theorem destroyVertex_eq (m : M K) (a : Nat) (v : Vert K) (hv : m.verts a = some v)
    (hn : ∀ n, n ∈ v.nont ↔ m.np n = some (some a)) (hb : ∀ b ∈ v.neigh, b ≠ a ∧ ∃ w, m.verts b = some w)
    (hb' : ∀ c w, m.verts c = some w → a ∈ w.neigh → c ∈ v.neigh) : destroyVertex m a = some (D m a) := by
  unfold destroyVertex
  rw [hv, Option.bind_some, nullifyLoop_eq a _ m v hv rfl (fun n h => (hn n).1 h), Option.bind_some, forgetLoop_eq]
  · rw [Option.map_some]
    congr 1
    refine M.ext' (fun c => ?_) (fun _ => rfl) (fun n => ?_)
    · simp only [upd, D, Finset.mem_sort]
      by_cases h1 : c = a
      · simp [h1]
      · simp only [h1, if_false]
        split
        · rfl
        · rename_i hc
          cases hw : m.verts c with
          | none => rfl
          | some w =>
            have : a ∉ w.neigh := fun h => hc (hb' c w hw h)
            simp [Finset.erase_eq_of_notMem this]
    · simp only [D, hn]
  · intro b hbm
    obtain ⟨h1, w, hw⟩ := hb b ((Finset.mem_sort _).1 hbm)
    exact ⟨h1, w, by simp [upd, h1, hw]⟩

/-- Memory after a `Transferable_ptr` `p` to `a` is made to point to `b ≠ a`. -/
def movePtr (m : M K) (p a b : Nat) : M K :=
  { m with
    verts := fun c =>
      if c = a then (m.verts a).map fun v => { v with trbl := v.trbl.erase p, uc := v.uc - 1 }
      else if c = b then (m.verts b).map fun v => { v with trbl := insert p v.trbl, uc := v.uc + 1 }
      else m.verts c
    tp := upd m.tp p (some b) }

theorem assignT_same {m : M K} (h : Inv m) {p q a : Nat} (hp : m.tp p = some a) (hq : m.tp q = some a) : assignT m p q = some m := by
  obtain ⟨v, hv, hpv⟩ := h.tp p a hp
  have h1 : ({ m with verts := upd m.verts a (some { v with trbl := v.trbl.erase p }) } : M K).verts a = some { v with trbl := v.trbl.erase p } := by
    simp [upd]
  simp only [assignT, hp, Option.bind_some, modV_some _ hv, hq, if_true, modV_some _ h1]
  congr 1
  refine M.ext' (fun c => ?_) (fun _ => rfl) (fun _ => rfl)
  simp only [upd]
  split
  · rename_i hc; subst hc; rw [hv, Finset.insert_erase hpv]
  · rfl

theorem assignT_move {m : M K} (h : Inv m) {p q a b : Nat} (hab : a ≠ b) (hp : m.tp p = some a) (hq : m.tp q = some b)
    {v : Vert K} (hv : m.verts a = some v) (hc : 2 ≤ v.trbl.card) : assignT m p q = some (movePtr m p a b) := by
  obtain ⟨w, hw, hqw⟩ := h.tp q b hq
  have huc := h.uc a v hv
  have hpv : p ∈ v.trbl := by
    obtain ⟨v', hv', h'⟩ := h.tp p a hp; rw [hv] at hv'; cases hv'; exact h'
  simp only [assignT, hp, Option.bind_some, modV_some _ hv, hq, if_neg hab]
  have hb1 : ({ m with verts := upd m.verts a (some { v with trbl := v.trbl.erase p }) } : M K).verts b = some w := by
    simp [upd, Ne.symm hab, hw]
  simp only [modV_some _ hb1, Option.bind_some]
  set m2 : M K := { m with
    verts := upd (upd m.verts a (some { v with trbl := v.trbl.erase p })) b (some { w with uc := w.uc + 1 })
    tp := upd m.tp p (some b) } with hm2
  have ha2 : m2.verts a = some { v with trbl := v.trbl.erase p } := by simp [hm2, upd, hab]
  have hb2 : m2.verts b = some { w with uc := w.uc + 1 } := by simp [hm2, upd]
  have hc2 : ∀ c, c ≠ a → c ≠ b → m2.verts c = m.verts c := by intro c h1 h2; simp [hm2, upd, h1, h2]
  have hrel : release m2 a = some { m2 with verts := upd m2.verts a (some { v with trbl := v.trbl.erase p, uc := v.uc - 1 }) } := by
    simp only [release, ha2, Option.bind_some]
    rw [if_neg (by omega), if_neg (by omega), modV_some _ ha2]
  have hb3 : ({ m2 with verts := upd m2.verts a (some { v with trbl := v.trbl.erase p, uc := v.uc - 1 }) } : M K).verts b =
      some { w with uc := w.uc + 1 } := by simp [upd, Ne.symm hab, hb2]
  rw [hrel, Option.bind_some, modV_some _ hb3]
  congr 1
  refine M.ext' (fun c => ?_) (fun _ => rfl) (fun _ => rfl)
  simp only [movePtr, upd]
  by_cases h1 : c = b
  · subst h1; simp [Ne.symm hab, hw]
  · by_cases h2 : c = a
    · subst h2; simp [h1, hv]
    · simp [h1, h2, hc2 c h2 h1]

theorem D_verts_ne {m : M K} {a c : Nat} {w : Vert K} (h : c ≠ a) (hw : m.verts c = some w) :
    (D m a).verts c = some { w with neigh := w.neigh.erase a } := by simp [D, h, hw]

theorem assignT_last {m : M K} (h : Inv m) {p q a b : Nat} (hab : a ≠ b) (hp : m.tp p = some a) (hq : m.tp q = some b)
    {v : Vert K} (hv : m.verts a = some v) (hc : v.trbl.card = 1) : assignT m p q = some (D (movePtr m p a b) a) := by
  obtain ⟨w, hw, hqw⟩ := h.tp q b hq
  have huc := h.uc a v hv
  simp only [assignT, hp, Option.bind_some, modV_some _ hv, hq, if_neg hab]
  have hb1 : ({ m with verts := upd m.verts a (some { v with trbl := v.trbl.erase p }) } : M K).verts b = some w := by
    simp [upd, Ne.symm hab, hw]
  simp only [modV_some _ hb1, Option.bind_some]
  set m2 : M K := { m with
    verts := upd (upd m.verts a (some { v with trbl := v.trbl.erase p })) b (some { w with uc := w.uc + 1 })
    tp := upd m.tp p (some b) } with hm2
  have ha2 : m2.verts a = some { v with trbl := v.trbl.erase p } := by simp [hm2, upd, hab]
  have hb2 : m2.verts b = some { w with uc := w.uc + 1 } := by simp [hm2, upd]
  have hc2 : ∀ c, c ≠ a → c ≠ b → m2.verts c = m.verts c := by intro c h1 h2; simp [hm2, upd, h1, h2]
  have hdest : destroyVertex m2 a = some (D m2 a) := by
    refine destroyVertex_eq m2 a _ ha2 ?_ ?_ ?_
    · intro n
      exact ⟨fun hn => h.nt a v n hv hn, fun hn => by
        obtain ⟨v', hv', hn'⟩ := h.np n a hn; rw [hv] at hv'; cases hv'; exact hn'⟩
    · intro x hx
      obtain ⟨h1, y, hy, _⟩ := h.nb a v x hv hx
      refine ⟨h1, ?_⟩
      by_cases hxb : x = b
      · subst hxb; exact ⟨_, hb2⟩
      · exact ⟨y, by rw [hc2 x h1 hxb]; exact hy⟩
    · intro c y hy hay
      have hex : ∃ y', m.verts c = some y' ∧ a ∈ y'.neigh := by
        by_cases hca : c = a
        · subst hca; rw [ha2] at hy; cases hy; exact ⟨v, hv, hay⟩
        · by_cases hcb : c = b
          · subst hcb; rw [hb2] at hy; cases hy; exact ⟨w, hw, hay⟩
          · rw [hc2 c hca hcb] at hy; exact ⟨y, hy, hay⟩
      obtain ⟨y', hy', hay'⟩ := hex
      obtain ⟨_, v', hv', hcv⟩ := h.nb c y' a hy' hay'
      rw [hv] at hv'; cases hv'; exact hcv
  have hrel : release m2 a = some (D m2 a) := by
    simp only [release, ha2, Option.bind_some]
    rw [if_neg (by omega), if_pos (by omega), hdest]
  rw [hrel, Option.bind_some, modV_some _ (D_verts_ne (Ne.symm hab) hb2)]
  congr 1
  refine M.ext' (fun c => ?_) (fun _ => rfl) (fun _ => rfl)
  simp only [D, upd, movePtr]
  by_cases h1 : c = b
  · subst h1; simp [Ne.symm hab, hw]
  · by_cases h2 : c = a
    · subst h2; simp [h1]
    · simp [h1, h2, hc2 c h2 h1]

theorem movePtr_inv {m : M K} (h : Inv m) {p a b : Nat} (hab : a ≠ b) (hp : m.tp p = some a) {w : Vert K} (hw : m.verts b = some w)
    {v : Vert K} (hv : m.verts a = some v) (hc : 2 ≤ v.trbl.card) : Inv (movePtr m p a b) := by
  have hpv : p ∈ v.trbl := by
    obtain ⟨v', hv', h'⟩ := h.tp p a hp; rw [hv] at hv'; cases hv'; exact h'
  have hpw : p ∉ w.trbl := fun hh => by have := h.tr b w p hw hh; rw [hp] at this; exact hab (Option.some.inj this)
  have hva : (movePtr m p a b).verts a = some { v with trbl := v.trbl.erase p, uc := v.uc - 1 } := by simp [movePtr, hv]
  have hvb : (movePtr m p a b).verts b = some { w with trbl := insert p w.trbl, uc := w.uc + 1 } := by simp [movePtr, Ne.symm hab, hw]
  have hvc : ∀ c, c ≠ a → c ≠ b → (movePtr m p a b).verts c = m.verts c := by intro c h1 h2; simp [movePtr, h1, h2]
  have lift : ∀ c y, (movePtr m p a b).verts c = some y → ∃ y', m.verts c = some y' ∧ y.neigh = y'.neigh ∧ y.nont = y'.nont := by
    intro c y hy
    by_cases h1 : c = a
    · subst h1; rw [hva] at hy; cases hy; exact ⟨v, hv, rfl, rfl⟩
    · by_cases h2 : c = b
      · subst h2; rw [hvb] at hy; cases hy; exact ⟨w, hw, rfl, rfl⟩
      · rw [hvc c h1 h2] at hy; exact ⟨y, hy, rfl, rfl⟩
  have down : ∀ c y, m.verts c = some y → ∃ y', (movePtr m p a b).verts c = some y' ∧ y'.neigh = y.neigh ∧ y'.nont = y.nont := by
    intro c y hy
    by_cases h1 : c = a
    · subst h1; rw [hv] at hy; cases hy; exact ⟨_, hva, rfl, rfl⟩
    · by_cases h2 : c = b
      · subst h2; rw [hw] at hy; cases hy; exact ⟨_, hvb, rfl, rfl⟩
      · exact ⟨y, by rw [hvc c h1 h2]; exact hy, rfl, rfl⟩
  refine ⟨?_, ?_, ?_, ?_, ?_, ?_, ?_⟩
  · intro q x hq
    by_cases hqp : q = p
    · subst hqp
      have : x = b := by simpa [movePtr, upd] using hq.symm
      subst this; exact ⟨_, hvb, by simp⟩
    · have hq' : m.tp q = some x := by simpa [movePtr, upd, hqp] using hq
      obtain ⟨y, hy, hqy⟩ := h.tp q x hq'
      by_cases h1 : x = a
      · subst h1; rw [hv] at hy; cases hy; exact ⟨_, hva, by simp [hqp, hqy]⟩
      · by_cases h2 : x = b
        · subst h2; rw [hw] at hy; cases hy; exact ⟨_, hvb, by simp [hqy]⟩
        · exact ⟨y, by rw [hvc x h1 h2]; exact hy, hqy⟩
  · intro x y q hy hq
    by_cases h1 : x = a
    · subst h1; rw [hva] at hy; cases hy
      simp only [Finset.mem_erase] at hq
      have := h.tr x v q hv hq.2
      simp [movePtr, upd, hq.1, this]
    · by_cases h2 : x = b
      · subst h2; rw [hvb] at hy; cases hy
        simp only [Finset.mem_insert] at hq
        by_cases hqp : q = p
        · simp [movePtr, upd, hqp]
        · have := h.tr x w q hw (hq.resolve_left hqp)
          simp [movePtr, upd, hqp, this]
      · rw [hvc x h1 h2] at hy
        have := h.tr x y q hy hq
        have hqp : q ≠ p := by rintro rfl; rw [hp] at this; exact h1 (Option.some.inj this).symm
        simp [movePtr, upd, hqp, this]
  · intro x y hy
    by_cases h1 : x = a
    · subst h1; rw [hva] at hy; cases hy
      simp [Finset.card_erase_of_mem hpv, h.uc x v hv]
    · by_cases h2 : x = b
      · subst h2; rw [hvb] at hy; cases hy
        simp [Finset.card_insert_of_notMem hpw, h.uc x w hw]
      · rw [hvc x h1 h2] at hy; exact h.uc x y hy
  · intro x y hy
    by_cases h1 : x = a
    · subst h1; rw [hva] at hy; cases hy
      apply Finset.card_pos.1
      simp only [Finset.card_erase_of_mem hpv]; omega
    · by_cases h2 : x = b
      · subst h2; rw [hvb] at hy; cases hy; exact ⟨p, by simp⟩
      · rw [hvc x h1 h2] at hy; exact h.own x y hy
  · intro n x hn
    obtain ⟨y, hy, hny⟩ := h.np n x hn
    obtain ⟨y', h1, h2, h3⟩ := down x y hy
    exact ⟨y', h1, by rw [h3]; exact hny⟩
  · intro x y n hy hn
    obtain ⟨y', h1, h2, h3⟩ := lift x y hy
    exact h.nt x y' n h1 (by rw [← h3]; exact hn)
  · intro x y z hy hz
    obtain ⟨y', h1, h2, h3⟩ := lift x y hy
    obtain ⟨h4, u, hu, hxu⟩ := h.nb x y' z h1 (by rw [← h2]; exact hz)
    obtain ⟨u', h5, h6, h7⟩ := down z u hu
    exact ⟨h4, u', h5, by rw [h6]; exact hxu⟩

/-- Destruction of a vertex that no `Transferable_ptr` holds restores the invariant. -/
theorem D_inv {m : M K} {a : Nat}
    (tp : ∀ p x, m.tp p = some x → x ≠ a ∧ ∃ v, m.verts x = some v ∧ p ∈ v.trbl)
    (tr : ∀ x v p, x ≠ a → m.verts x = some v → p ∈ v.trbl → m.tp p = some x)
    (uc : ∀ x v, x ≠ a → m.verts x = some v → v.uc = v.trbl.card)
    (own : ∀ x v, x ≠ a → m.verts x = some v → v.trbl.Nonempty)
    (np : ∀ n x, m.np n = some (some x) → ∃ v, m.verts x = some v ∧ n ∈ v.nont)
    (nt : ∀ x v n, m.verts x = some v → n ∈ v.nont → m.np n = some (some x))
    (nb : ∀ x v b, m.verts x = some v → b ∈ v.neigh → b ≠ x ∧ ∃ w, m.verts b = some w ∧ x ∈ w.neigh) : Inv (D m a) := by
  have lift : ∀ c y, (D m a).verts c = some y → c ≠ a ∧ ∃ y', m.verts c = some y' ∧ y = { y' with neigh := y'.neigh.erase a } := by
    intro c y hy
    simp only [D] at hy
    split at hy
    · simp at hy
    · rename_i hca
      rw [Option.map_eq_some_iff] at hy
      obtain ⟨y', h1, h2⟩ := hy
      exact ⟨hca, y', h1, h2.symm⟩
  refine ⟨?_, ?_, ?_, ?_, ?_, ?_, ?_⟩
  · intro p x hp
    obtain ⟨h1, v, h2, h3⟩ := tp p x hp
    exact ⟨_, D_verts_ne h1 h2, h3⟩
  · intro x y p hy hp
    obtain ⟨h1, y', h2, rfl⟩ := lift x y hy
    exact tr x y' p h1 h2 hp
  · intro x y hy
    obtain ⟨h1, y', h2, rfl⟩ := lift x y hy
    exact uc x y' h1 h2
  · intro x y hy
    obtain ⟨h1, y', h2, rfl⟩ := lift x y hy
    exact own x y' h1 h2
  · intro n x hn
    simp only [D] at hn
    split at hn
    · simp at hn
    · rename_i hne
      have hxa : x ≠ a := by rintro rfl; exact hne hn
      obtain ⟨v, h1, h2⟩ := np n x hn
      exact ⟨_, D_verts_ne hxa h1, h2⟩
  · intro x y n hy hn
    obtain ⟨h1, y', h2, rfl⟩ := lift x y hy
    have := nt x y' n h2 hn
    simp only [D, this]
    rw [if_neg (by simpa using h1)]
  · intro x y b hy hb
    obtain ⟨h1, y', h2, rfl⟩ := lift x y hy
    simp only [Finset.mem_erase] at hb
    obtain ⟨h3, w, h4, h5⟩ := nb x y' b h2 hb.2
    exact ⟨h3, _, D_verts_ne hb.1 h4, by simp [h1, h5]⟩

theorem lastMove_inv {m : M K} (h : Inv m) {p a b : Nat} (hab : a ≠ b) (hp : m.tp p = some a) {w : Vert K} (hw : m.verts b = some w)
    {v : Vert K} (hv : m.verts a = some v) (hc : v.trbl.card = 1) : Inv (D (movePtr m p a b) a) := by
  have hpv : p ∈ v.trbl := by
    obtain ⟨v', hv', h'⟩ := h.tp p a hp; rw [hv] at hv'; cases hv'; exact h'
  have honly : ∀ q ∈ v.trbl, q = p := by
    obtain ⟨x, hx⟩ := Finset.card_eq_one.1 hc
    intro q hq; rw [hx] at hq hpv; rw [Finset.mem_singleton] at hq hpv; rw [hq, hpv]
  have hpw : p ∉ w.trbl := fun hh => by have := h.tr b w p hw hh; rw [hp] at this; exact hab (Option.some.inj this)
  have hva : (movePtr m p a b).verts a = some { v with trbl := v.trbl.erase p, uc := v.uc - 1 } := by simp [movePtr, hv]
  have hvb : (movePtr m p a b).verts b = some { w with trbl := insert p w.trbl, uc := w.uc + 1 } := by simp [movePtr, Ne.symm hab, hw]
  have hvc : ∀ c, c ≠ a → c ≠ b → (movePtr m p a b).verts c = m.verts c := by intro c h1 h2; simp [movePtr, h1, h2]
  have lift : ∀ c y, (movePtr m p a b).verts c = some y → ∃ y', m.verts c = some y' ∧ y.neigh = y'.neigh ∧ y.nont = y'.nont := by
    intro c y hy
    by_cases h1 : c = a
    · subst h1; rw [hva] at hy; cases hy; exact ⟨v, hv, rfl, rfl⟩
    · by_cases h2 : c = b
      · subst h2; rw [hvb] at hy; cases hy; exact ⟨w, hw, rfl, rfl⟩
      · rw [hvc c h1 h2] at hy; exact ⟨y, hy, rfl, rfl⟩
  have down : ∀ c y, m.verts c = some y → ∃ y', (movePtr m p a b).verts c = some y' ∧ y'.neigh = y.neigh ∧ y'.nont = y.nont := by
    intro c y hy
    by_cases h1 : c = a
    · subst h1; rw [hv] at hy; cases hy; exact ⟨_, hva, rfl, rfl⟩
    · by_cases h2 : c = b
      · subst h2; rw [hw] at hy; cases hy; exact ⟨_, hvb, rfl, rfl⟩
      · exact ⟨y, by rw [hvc c h1 h2]; exact hy, rfl, rfl⟩
  apply D_inv
  · intro q x hq
    by_cases hqp : q = p
    · subst hqp
      have : x = b := by simpa [movePtr, upd] using hq.symm
      subst this; exact ⟨Ne.symm hab, _, hvb, by simp⟩
    · have hq' : m.tp q = some x := by simpa [movePtr, upd, hqp] using hq
      obtain ⟨y, hy, hqy⟩ := h.tp q x hq'
      have h1 : x ≠ a := by rintro rfl; rw [hv] at hy; cases hy; exact hqp (honly q hqy)
      refine ⟨h1, ?_⟩
      by_cases h2 : x = b
      · subst h2; rw [hw] at hy; cases hy; exact ⟨_, hvb, by simp [hqy]⟩
      · exact ⟨y, by rw [hvc x h1 h2]; exact hy, hqy⟩
  · intro x y q h1 hy hq
    by_cases h2 : x = b
    · subst h2; rw [hvb] at hy; cases hy
      simp only [Finset.mem_insert] at hq
      by_cases hqp : q = p
      · simp [movePtr, upd, hqp]
      · have := h.tr x w q hw (hq.resolve_left hqp)
        simp [movePtr, upd, hqp, this]
    · rw [hvc x h1 h2] at hy
      have := h.tr x y q hy hq
      have hqp : q ≠ p := by rintro rfl; rw [hp] at this; exact h1 (Option.some.inj this).symm
      simp [movePtr, upd, hqp, this]
  · intro x y h1 hy
    by_cases h2 : x = b
    · subst h2; rw [hvb] at hy; cases hy
      simp [Finset.card_insert_of_notMem hpw, h.uc x w hw]
    · rw [hvc x h1 h2] at hy; exact h.uc x y hy
  · intro x y h1 hy
    by_cases h2 : x = b
    · subst h2; rw [hvb] at hy; cases hy; exact ⟨p, by simp⟩
    · rw [hvc x h1 h2] at hy; exact h.own x y hy
  · intro n x hn
    obtain ⟨y, hy, hny⟩ := h.np n x hn
    obtain ⟨y', h1, h2, h3⟩ := down x y hy
    exact ⟨y', h1, by rw [h3]; exact hny⟩
  · intro x y n hy hn
    obtain ⟨y', h1, h2, h3⟩ := lift x y hy
    exact h.nt x y' n h1 (by rw [← h3]; exact hn)
  · intro x y z hy hz
    obtain ⟨y', h1, h2, h3⟩ := lift x y hy
    obtain ⟨h4, u, hu, hxu⟩ := h.nb x y' z h1 (by rw [← h2]; exact hz)
    obtain ⟨u', h5, h6, h7⟩ := down z u hu
    exact ⟨h4, u', h5, by rw [h6]; exact hxu⟩

theorem assignT_inv {m : M K} (h : Inv m) {p q : Nat} (hp : m.tp p ≠ none) (hq : m.tp q ≠ none) : ∃ m', assignT m p q = some m' ∧ Inv m' := by
  obtain ⟨a, ha⟩ := Option.ne_none_iff_exists'.1 hp
  obtain ⟨b, hb⟩ := Option.ne_none_iff_exists'.1 hq
  by_cases hab : a = b
  · subst hab; exact ⟨m, assignT_same h ha hb, h⟩
  · obtain ⟨v, hv, hpv⟩ := h.tp p a ha
    obtain ⟨w, hw, hqw⟩ := h.tp q b hb
    have hpos := Finset.card_pos.2 (h.own a v hv)
    by_cases hc : v.trbl.card = 1
    · exact ⟨_, assignT_last h hab ha hb hv hc, lastMove_inv h hab ha hw hv hc⟩
    · exact ⟨_, assignT_move h hab ha hb hv (by omega), movePtr_inv h hab ha hw hv (by omega)⟩

end Hexed.Vertex
