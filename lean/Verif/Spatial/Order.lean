import Verif.Spatial.Conserve
set_option autoImplicit false
set_option linter.unusedVariables false

/-!
# The order in which elements, connections and refined faces are processed does not matter
-/

namespace Hexed.Spatial
open Hexed.Connection (Dir matchFaces restore strAt Legal)

theorem World.ext' {w w' : World} (h1 : w.state = w'.state) (h2 : w.cache = w'.cache) (h3 : w.buf = w'.buf) : w = w' := by
  cases w; cases w'; simp only at h1 h2 h3; rw [h1, h2, h3]

theorem sidesOf_perm {l l' : List ConRec} (h : l.Perm l') : (sidesOf l).Perm (sidesOf l') := h.flatMap_right _

theorem sidesOf_mem {l : List ConRec} {b : Buf} (h : b ∈ sidesOf l) : ∃ c ∈ l, ∃ s, b = c.side s := by
  obtain ⟨c, hc, hb⟩ := List.mem_flatMap.1 h
  simp only [List.mem_cons, List.not_mem_nil, or_false] at hb
  rcases hb with rfl | rfl
  · exact ⟨c, hc, false, rfl⟩
  · exact ⟨c, hc, true, rfl⟩

theorem cons_perm (k : ConRec → Sides → Sides) {l l' : List ConRec} (h : l.Perm l') (w : World) (hn : (sidesOf l).Nodup) : l'.foldl (onCon k) w = l.foldl (onCon k) w := by
  have hn' := (sidesOf_perm h).nodup_iff.1 hn
  obtain ⟨a1, a2, a3, a4⟩ := cons_fold k l w hn
  obtain ⟨b1, b2, b3, b4⟩ := cons_fold k l' w hn'
  refine World.ext' (b3.trans a3.symm) (b4.trans a4.symm) (funext fun b => ?_)
  by_cases hb : b ∈ sidesOf l
  · obtain ⟨c, hc, s, rfl⟩ := sidesOf_mem hb
    rw [a1 c hc s, b1 c (h.mem_iff.1 hc) s]
  · rw [a2 b hb, b2 b fun h' => hb ((sidesOf_perm h).mem_iff.2 h')]

theorem elems_perm (nd : Nat) (k : Nat → Arr → Arr → (Nat → Mem) → (Nat → Mem) → LocalOut) {l l' : List Nat} (h : l.Perm l') (w : World) (hn : l.Nodup) :
    l'.foldl (onElem nd k) w = l.foldl (onElem nd k) w := by
  have hn' := h.nodup_iff.1 hn
  obtain ⟨a1, a2, a3⟩ := elems_fold nd k l w hn
  obtain ⟨b1, b2, b3⟩ := elems_fold nd k l' w hn'
  refine World.ext' (funext fun e => ?_) (funext fun e => ?_) (funext fun b => ?_)
  · by_cases he : e ∈ l
    · rw [(a1 e he).1, (b1 e (h.mem_iff.1 he)).1]
    · rw [(a2 e he).1, (b2 e fun h' => he (h.mem_iff.2 h')).1]
  · by_cases he : e ∈ l
    · rw [(a1 e he).2.1, (b1 e (h.mem_iff.1 he)).2.1]
    · rw [(a2 e he).2, (b2 e fun h' => he (h.mem_iff.2 h')).2]
  · by_cases hb : ∃ e ∈ l, ∃ f < 2 * nd, b = .elem e f
    · obtain ⟨e, he, f, hf, rfl⟩ := hb
      funext ld
      cases ld
      · rw [((a1 e he).2.2 f hf).1, ((b1 e (h.mem_iff.1 he)).2.2 f hf).1]
      · rw [((a1 e he).2.2 f hf).2, ((b1 e (h.mem_iff.1 he)).2.2 f hf).2]
    · have n1 : ∀ e ∈ l, ∀ f < 2 * nd, b ≠ .elem e f := fun e he f hf h' => hb ⟨e, he, f, hf, h'⟩
      rw [a3 b n1, b3 b fun e he => n1 e (h.mem_iff.2 he)]

theorem restrict_perm (p : Pde) (bs : BasisData) (hn : 0 < bs.n) (nd : Nat) (scale off : Bool) {l l' : List RefRec} (h : l.Perm l') (buf : Buf → Bool → Mem) (hnd : (l.flatMap (refBufs nd)).Nodup) :
    l'.foldl (restrictRef p bs nd scale off) buf = l.foldl (restrictRef p bs nd scale off) buf := by
  have hp : (l.flatMap (refBufs nd)).Perm (l'.flatMap (refBufs nd)) := h.flatMap_right _
  obtain ⟨a1, a2⟩ := restrict_fold p bs hn nd scale off l buf hnd
  obtain ⟨b1, b2⟩ := restrict_fold p bs hn nd scale off l' buf (hp.nodup_iff.1 hnd)
  funext b ld
  by_cases hb : b ∈ l.flatMap (refBufs nd) ∧ ld = off
  · obtain ⟨hb, rfl⟩ := hb
    obtain ⟨r, hr, hbr⟩ := List.mem_flatMap.1 hb
    obtain ⟨s1, s2, s3⟩ := a1 r hr
    obtain ⟨t1, t2, t3⟩ := b1 r (h.mem_iff.1 hr)
    rw [refBufs, List.mem_cons, List.mem_map] at hbr
    rcases hbr with rfl | ⟨i, hi, rfl⟩
    · funext a
      by_cases ha : a < p.nExtrap * bs.n ^ (nd - 1)
      · have hN : 0 < bs.n ^ (nd - 1) := Nat.pow_pos hn
        have hv : a / bs.n ^ (nd - 1) < p.nExtrap := Nat.div_lt_of_lt_mul (by rwa [Nat.mul_comm] at ha)
        have e1 := s1 _ hv _ (Nat.mod_lt a hN)
        have e2 := t1 _ hv _ (Nat.mod_lt a hN)
        rw [Nat.div_add_mod'] at e1 e2
        rw [e1, e2]
      · rw [s2 a (by omega), t2 a (by omega)]
    · rw [s3 i (List.mem_range.1 hi), t3 i (List.mem_range.1 hi)]
  · have hb' : b ∉ l.flatMap (refBufs nd) ∨ ld ≠ off := by tauto
    rw [a2 b ld hb', b2 b ld (by rcases hb' with h1 | h1; exact Or.inl fun h' => h1 (hp.mem_iff.2 h'); exact Or.inr h1)]

theorem prolong_perm (p : Pde) (bs : BasisData) (nd : Nat) (scale off : Bool) {l l' : List RefRec} (h : l.Perm l') (buf : Buf → Bool → Mem) (hnd : (l.flatMap (refBufs nd)).Nodup) :
    l'.foldl (prolongRef p bs nd scale off) buf = l.foldl (prolongRef p bs nd scale off) buf := by
  have hp : (l.flatMap (refBufs nd)).Perm (l'.flatMap (refBufs nd)) := h.flatMap_right _
  obtain ⟨a1, a2⟩ := prolong_fold p bs nd scale off l buf hnd
  obtain ⟨b1, b2⟩ := prolong_fold p bs nd scale off l' buf (hp.nodup_iff.1 hnd)
  funext b ld
  by_cases hb : (∃ r ∈ l, ∃ i < nFace nd r.str, b = r.fine i) ∧ ld = off
  · obtain ⟨⟨r, hr, i, hi, rfl⟩, rfl⟩ := hb
    rw [a1 r hr i hi, b1 r (h.mem_iff.1 hr) i hi]
  · have hb' : (∀ r ∈ l, ∀ i < nFace nd r.str, b ≠ r.fine i) ∨ ld ≠ off := by
      by_cases h1 : ld = off
      · left; intro r hr i hi e; exact hb ⟨⟨r, hr, i, hi, e⟩, h1⟩
      · exact Or.inr h1
    rw [a2 b ld hb', b2 b ld (by rcases hb' with h1 | h1; exact Or.inl fun r hr => h1 r (h.mem_iff.2 hr); exact Or.inr h1)]

/-- Two meshes that list the same things in different orders. -/
structure Mesh.Reordered (m m' : Mesh) : Prop where
  nd : m'.nd = m.nd
  elem : m'.elem = m.elem
  elems : m.elems.Perm m'.elems
  cons : m.cons.Perm m'.cons
  refs : m.refs.Perm m'.refs

variable {bs : BasisData} {m m' : Mesh}

theorem neighbor_order (hm : m.Ok bs) (h : m.Reordered m') (p : Pde) (w : World) : runNeighbor p bs m' w = runNeighbor p bs m w := by
  rw [runNeighbor, runNeighbor, h.nd]; exact cons_perm _ h.cons w hm.sides_nodup

theorem reconcileCons_order (hm : m.Ok bs) (h : m.Reordered m') (p : Pde) (w : World) : runReconcileCons p bs m' w = runReconcileCons p bs m w := by
  rw [runReconcileCons, runReconcileCons, h.nd]; exact cons_perm _ h.cons w hm.sides_nodup

theorem restrict_order (hm : m.Ok bs) (hn : 0 < bs.n) (h : m.Reordered m') (p : Pde) (s o : Bool) (w : World) : runRestrict p bs m' s o w = runRestrict p bs m s o w := by
  rw [runRestrict, runRestrict, h.nd, restrict_perm p bs hn m.nd s o h.refs w.buf hm.refs_nodup]

theorem prolong_order (hm : m.Ok bs) (h : m.Reordered m') (p : Pde) (s o : Bool) (w : World) : runProlong p bs m' s o w = runProlong p bs m s o w := by
  rw [runProlong, runProlong, h.nd, prolong_perm p bs m.nd s o h.refs w.buf hm.refs_nodup]

theorem local_order (hm : m.Ok bs) (h : m.Reordered m') (p : Pde) (o : Opts) (w : World) : runLocal p bs m' o w = runLocal p bs m o w := by
  rw [runLocal, runLocal, h.nd, h.elem]; exact elems_perm _ _ h.elems w hm.elems_nodup

theorem reconcileElems_order (hm : m.Ok bs) (h : m.Reordered m') (p : Pde) (o : Opts) (w : World) : runReconcileElems p bs m' o w = runReconcileElems p bs m o w := by
  rw [runReconcileElems, runReconcileElems, h.nd, h.elem]; exact elems_perm _ _ h.elems w hm.elems_nodup

end Hexed.Spatial
