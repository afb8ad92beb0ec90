import Verif.Spatial.Faces
set_option autoImplicit false
set_option linter.unusedVariables false

/-!
# The kernels on whole meshes, in closed form
-/

namespace Hexed.Spatial
open Hexed.Connection (Dir matchFaces restore strAt Legal)

def sidesOf (l : List ConRec) : List Buf := l.flatMap fun c => [c.side false, c.side true]

theorem mem_sidesOf {l : List ConRec} {c : ConRec} (h : c ∈ l) (s : Bool) : c.side s ∈ sidesOf l := by
  rw [sidesOf, List.mem_flatMap]
  exact ⟨c, h, by cases s <;> simp⟩

theorem cons_fold (k : ConRec → Sides → Sides) : ∀ (l : List ConRec) (w : World), (sidesOf l).Nodup →
    (∀ c ∈ l, ∀ s, (l.foldl (onCon k) w).buf (c.side s) = k c (fun s => w.buf (c.side s)) s) ∧
    (∀ b, b ∉ sidesOf l → (l.foldl (onCon k) w).buf b = w.buf b) ∧ (l.foldl (onCon k) w).state = w.state ∧ (l.foldl (onCon k) w).cache = w.cache
  | [], w, _ => ⟨by simp, by simp, rfl, rfl⟩
  | c :: l, w, hnd => by
    have hnd' : (c.side false ≠ c.side true) ∧ (∀ s, c.side s ∉ sidesOf l) ∧ (sidesOf l).Nodup := by
      have e : sidesOf (c :: l) = c.side false :: c.side true :: sidesOf l := by simp [sidesOf]
      rw [e, List.nodup_cons, List.nodup_cons] at hnd
      refine ⟨fun h => hnd.1 (by rw [h]; simp), ?_, hnd.2.2⟩
      intro s
      cases s
      · exact fun h => hnd.1 (by simp [h])
      · exact hnd.2.1
    obtain ⟨n1, n2, n3⟩ := hnd'
    obtain ⟨i1, i2, i3, i4⟩ := cons_fold k l (onCon k w c) n3
    rw [List.foldl_cons]
    have hc : ∀ s, (onCon k w c).buf (c.side s) = k c (fun s => w.buf (c.side s)) s := by
      intro s
      simp only [onCon]
      cases s
      · rw [if_neg n1, if_pos rfl]
      · rw [if_pos rfl]
    have ho : ∀ b, (∀ s, b ≠ c.side s) → (onCon k w c).buf b = w.buf b := by
      intro b hb
      simp only [onCon]
      rw [if_neg (hb true), if_neg (hb false)]
    refine ⟨?_, ?_, i3, i4⟩
    · intro c' hc' s
      rcases List.mem_cons.1 hc' with rfl | hc'
      · rw [i2 _ (n2 s), hc]
      · rw [i1 c' hc' s]
        congr 1
        funext s'
        refine ho _ fun s'' e => n2 s'' (e ▸ mem_sidesOf hc' s')
    · intro b hb
      have hb' : (∀ s, b ≠ c.side s) ∧ b ∉ sidesOf l := by
        constructor
        · rintro s rfl; exact hb (mem_sidesOf (by simp) s)
        · intro h; apply hb; simp only [sidesOf, List.flatMap_cons, List.mem_append]; exact Or.inr h
      rw [i2 b hb'.2, ho b hb'.1]

/-! ## Elements -/

theorem elems_fold (nd : Nat) (k : Nat → Arr → Arr → (Nat → Mem) → (Nat → Mem) → LocalOut) : ∀ (l : List Nat) (w : World), l.Nodup →
    (∀ e ∈ l, (l.foldl (onElem nd k) w).state e = (k e (w.state e) (w.cache e) (fun f => w.buf (.elem e f) false) fun f => w.buf (.elem e f) true).state ∧
      (l.foldl (onElem nd k) w).cache e = (k e (w.state e) (w.cache e) (fun f => w.buf (.elem e f) false) fun f => w.buf (.elem e f) true).cache ∧
      ∀ f < 2 * nd, (l.foldl (onElem nd k) w).buf (.elem e f) false = (k e (w.state e) (w.cache e) (fun f => w.buf (.elem e f) false) fun f => w.buf (.elem e f) true).faces f ∧
        (l.foldl (onElem nd k) w).buf (.elem e f) true = (k e (w.state e) (w.cache e) (fun f => w.buf (.elem e f) false) fun f => w.buf (.elem e f) true).visc f) ∧
    (∀ e, e ∉ l → (l.foldl (onElem nd k) w).state e = w.state e ∧ (l.foldl (onElem nd k) w).cache e = w.cache e) ∧
    ∀ b, (∀ e ∈ l, ∀ f < 2 * nd, b ≠ .elem e f) → (l.foldl (onElem nd k) w).buf b = w.buf b
  | [], w, _ => ⟨by simp, by simp, by simp⟩
  | e :: l, w, hnd => by
    rw [List.nodup_cons] at hnd
    obtain ⟨i1, i2, i3⟩ := elems_fold nd k l (onElem nd k w e) hnd.2
    rw [List.foldl_cons]
    have hother : ∀ e', e' ≠ e → (onElem nd k w e).state e' = w.state e' ∧ (onElem nd k w e).cache e' = w.cache e' ∧ ∀ f, (onElem nd k w e).buf (.elem e' f) = w.buf (.elem e' f) := by
      intro e' he
      refine ⟨by simp [onElem, he], by simp [onElem, he], fun f => by simp [onElem, he]⟩
    refine ⟨?_, ?_, ?_⟩
    · intro e' he'
      rcases List.mem_cons.1 he' with rfl | he'
      · have hb : ∀ f, (l.foldl (onElem nd k) (onElem nd k w e')).buf (.elem e' f) = (onElem nd k w e').buf (.elem e' f) := by
          intro f
          refine i3 _ ?_
          rintro e'' he'' f' _ h
          injection h with h1 h2
          exact hnd.1 (h1 ▸ he'')
        obtain ⟨s1, s2⟩ := i2 e' hnd.1
        refine ⟨by rw [s1]; simp [onElem], by rw [s2]; simp [onElem], fun f hf => ?_⟩
        rw [hb]
        exact ⟨by simp [onElem, hf], by simp [onElem, hf]⟩
      · have hne : e' ≠ e := fun h => hnd.1 (h ▸ he')
        obtain ⟨o1, o2, o3⟩ := hother e' hne
        have := i1 e' he'
        simp only [o1, o2, o3] at this
        exact this
    · intro e' he'
      have hne : e' ≠ e := fun h => he' (by simp [h])
      have hl : e' ∉ l := fun h => he' (by simp [h])
      obtain ⟨o1, o2, o3⟩ := hother e' hne
      obtain ⟨s1, s2⟩ := i2 e' hl
      rw [s1, s2, o1, o2]
      exact ⟨rfl, rfl⟩
    · intro b hb
      rw [i3 b fun e' he' => hb e' (by simp [he'])]
      cases b with
      | elem e' f =>
        simp only [onElem]
        rw [if_neg]
        rintro ⟨rfl, hf⟩
        exact hb e' (by simp) f hf rfl
      | mortar r i => rfl
      | ghost c => rfl

/-! ## Refined faces -/

/-- The storage a refined face works on. -/
def refBufs (nd : Nat) (r : RefRec) : List Buf := r.coarse :: (List.range (nFace nd r.str)).map r.fine

theorem refBufs_ne {nd : Nat} {r : RefRec} (h : (refBufs nd r).Nodup) :
    (∀ i < nFace nd r.str, r.fine i ≠ r.coarse) ∧ ∀ i < nFace nd r.str, ∀ j < nFace nd r.str, r.fine i = r.fine j → i = j := by
  rw [refBufs, List.nodup_cons] at h
  refine ⟨?_, ?_⟩
  · intro i hi e
    exact h.1 (List.mem_map.2 ⟨i, List.mem_range.2 hi, e⟩)
  · intro i hi j hj e
    exact List.inj_on_of_nodup_map h.2 (List.mem_range.2 hi) (List.mem_range.2 hj) e

/-- What is added to the coarse face from fine face `i`. -/
noncomputable def restricted (bs : BasisData) (nd : Nat) (scale : Bool) (r : RefRec) (i : Nat) (fine : Mem) (v k : Nat) : ℝ :=
  dimsInPlace nd bs.n bs.restrict (1 / stretchFac scale) r.str i (v * bs.n ^ (nd - 1)) fine (v * bs.n ^ (nd - 1) + k)

/-- The fine face does not depend on the coarse face. -/
theorem restrictFine_fst (bs : BasisData) (nd nvar : Nat) (scale : Bool) (str : Bool × Bool) (i : Nat) (fine coarse coarse' : Mem) :
    (restrictFine bs nd nvar scale str i (fine, coarse)).1 = (restrictFine bs nd nvar scale str i (fine, coarse')).1 := by
  rw [restrictFine, restrictFine]
  dsimp only
  induction nvar with
  | zero => rfl
  | succ m ih => simp only [List.range_succ, List.foldl_append, List.foldl_cons, List.foldl_nil]; rw [ih]

theorem restrictRef_spec (p : Pde) (bs : BasisData) (hn : 0 < bs.n) (nd : Nat) (scale off : Bool) (buf : Buf → Bool → Mem) (r : RefRec) (hr : (refBufs nd r).Nodup) :
    (∀ v < p.nExtrap, ∀ k < bs.n ^ (nd - 1), restrictRef p bs nd scale off buf r r.coarse off (v * bs.n ^ (nd - 1) + k) =
      ∑ i ∈ Finset.range (nFace nd r.str), restricted bs nd scale r i (buf (r.fine i) off) v k) ∧
    (∀ a, p.nExtrap * bs.n ^ (nd - 1) ≤ a → restrictRef p bs nd scale off buf r r.coarse off a = buf r.coarse off a) ∧
    (∀ i < nFace nd r.str, restrictRef p bs nd scale off buf r (r.fine i) off = (restrictFine bs nd p.nExtrap scale r.str i (buf (r.fine i) off, fun _ => 0)).1) ∧
    ∀ b l, (b ∉ refBufs nd r ∨ l ≠ off) → restrictRef p bs nd scale off buf r b l = buf b l := by
  obtain ⟨h1, h2⟩ := refBufs_ne hr
  let st := fun (buf : Buf → Bool → Mem) (i_face : Nat) =>
    setBuf (setBuf buf (r.fine i_face) off (restrictFine bs nd p.nExtrap scale r.str i_face (buf (r.fine i_face) off, buf r.coarse off)).1) r.coarse off
      (restrictFine bs nd p.nExtrap scale r.str i_face (buf (r.fine i_face) off, buf r.coarse off)).2
  let b0 := setBuf buf r.coarse off fun a => if a < p.nExtrap * bs.n ^ (nd - 1) then 0 else buf r.coarse off a
  have hst : restrictRef p bs nd scale off buf r = (List.range (nFace nd r.str)).foldl st b0 := rfl
  have b0c : b0 r.coarse off = fun a => if a < p.nExtrap * bs.n ^ (nd - 1) then 0 else buf r.coarse off a := by simp [b0, setBuf]
  have b0o : ∀ b l, (b ≠ r.coarse ∨ l ≠ off) → b0 b l = buf b l := by
    intro b l h
    simp only [b0, setBuf]
    rw [if_neg (by tauto)]
  have key : ∀ m, m ≤ nFace nd r.str →
      (∀ v < p.nExtrap, ∀ k < bs.n ^ (nd - 1), (List.range m).foldl st b0 r.coarse off (v * bs.n ^ (nd - 1) + k) = ∑ i ∈ Finset.range m, restricted bs nd scale r i (buf (r.fine i) off) v k) ∧
      (∀ a, p.nExtrap * bs.n ^ (nd - 1) ≤ a → (List.range m).foldl st b0 r.coarse off a = buf r.coarse off a) ∧
      (∀ i < m, (List.range m).foldl st b0 (r.fine i) off = (restrictFine bs nd p.nExtrap scale r.str i (buf (r.fine i) off, fun _ => 0)).1) ∧
      (∀ i, m ≤ i → i < nFace nd r.str → (List.range m).foldl st b0 (r.fine i) off = buf (r.fine i) off) ∧
      ∀ b l, (b ∉ refBufs nd r ∨ l ≠ off) → (List.range m).foldl st b0 b l = buf b l := by
    intro m
    induction m with
    | zero =>
      intro _
      refine ⟨?_, ?_, by simp, ?_, ?_⟩
      · intro v hv k hk
        simp only [List.range_zero, List.foldl_nil, Finset.range_zero, Finset.sum_empty, b0c]
        rw [if_pos (block_lt hv hk)]
      · intro a ha
        simp only [List.range_zero, List.foldl_nil, b0c]
        rw [if_neg (by omega)]
      · intro i _ hi
        exact b0o _ _ (Or.inl (h1 i hi))
      · intro b l h
        refine b0o _ _ ?_
        rcases h with h | h
        · left; rintro rfl; exact h (by simp [refBufs])
        · exact Or.inr h
    | succ m ih =>
      intro hm
      obtain ⟨i1, i2, i3, i4, i5⟩ := ih (by omega)
      set bm := (List.range m).foldl st b0 with hbm
      have hs : (List.range (m + 1)).foldl st b0 = st bm m := by rw [List.range_succ, List.foldl_append, List.foldl_cons, List.foldl_nil]
      have hc : st bm m r.coarse off = (restrictFine bs nd p.nExtrap scale r.str m (buf (r.fine m) off, bm r.coarse off)).2 := by
        simp only [st, setBuf, and_self, if_true]
        rw [i4 m (le_refl _) (by omega)]
      have hf : st bm m (r.fine m) off = (restrictFine bs nd p.nExtrap scale r.str m (buf (r.fine m) off, bm r.coarse off)).1 := by
        simp only [st, setBuf, and_true, if_true]
        rw [if_neg (h1 m (by omega)), i4 m (le_refl _) (by omega)]
      have ho : ∀ b l, (b ≠ r.coarse ∧ b ≠ r.fine m) ∨ l ≠ off → st bm m b l = bm b l := by
        intro b l h
        simp only [st, setBuf]
        rw [if_neg (by tauto), if_neg (by tauto)]
      obtain ⟨f1, f2, f3⟩ := restrictFine_apply bs hn nd p.nExtrap scale r.str m (buf (r.fine m) off) (bm r.coarse off)
      rw [hs]
      refine ⟨?_, ?_, ?_, ?_, ?_⟩
      · intro v hv k hk
        rw [hc, f1 v hv k hk, i1 v hv k hk, Finset.sum_range_succ]; rfl
      · intro a ha
        rw [hc, f2 a ha, i2 a ha]
      · intro i hi
        by_cases e : i = m
        · subst e
          rw [hf]; exact restrictFine_fst _ _ _ _ _ _ _ _ _
        · rw [ho _ _ (Or.inl ⟨h1 i (by omega), fun h => e (h2 i (by omega) m (by omega) h)⟩), i3 i (by omega)]
      · intro i hi hi'
        rw [ho _ _ (Or.inl ⟨h1 i hi', fun h => by have := h2 i hi' m (by omega) h; omega⟩), i4 i (by omega) hi']
      · intro b l h
        rw [ho b l, i5 b l h]
        rcases h with h | h
        · left
          constructor
          · rintro rfl; exact h (by simp [refBufs])
          · rintro rfl; exact h (by simp only [refBufs, List.mem_cons, List.mem_map, List.mem_range]; exact Or.inr ⟨m, by omega, rfl⟩)
        · exact Or.inr h
  obtain ⟨k1, k2, k3, k4, k5⟩ := key (nFace nd r.str) (le_refl _)
  rw [hst]
  exact ⟨k1, k2, k3, k5⟩

theorem prolongRef_spec (p : Pde) (bs : BasisData) (nd : Nat) (scale off : Bool) (buf : Buf → Bool → Mem) (r : RefRec) (hr : (refBufs nd r).Nodup) :
    (∀ i < nFace nd r.str, prolongRef p bs nd scale off buf r (r.fine i) off = prolongFine bs nd p.nExtrap scale r.str i (buf r.coarse off) (buf (r.fine i) off)) ∧
    ∀ b l, ((∀ i < nFace nd r.str, b ≠ r.fine i) ∨ l ≠ off) → prolongRef p bs nd scale off buf r b l = buf b l := by
  obtain ⟨h1, h2⟩ := refBufs_ne hr
  rw [prolongRef]
  have key : ∀ m, m ≤ nFace nd r.str →
      (∀ i < m, (List.range m).foldl (fun buf i_face => setBuf buf (r.fine i_face) off (prolongFine bs nd p.nExtrap scale r.str i_face (buf r.coarse off) (buf (r.fine i_face) off))) buf (r.fine i) off =
        prolongFine bs nd p.nExtrap scale r.str i (buf r.coarse off) (buf (r.fine i) off)) ∧
      ∀ b l, ((∀ i < m, b ≠ r.fine i) ∨ l ≠ off) →
        (List.range m).foldl (fun buf i_face => setBuf buf (r.fine i_face) off (prolongFine bs nd p.nExtrap scale r.str i_face (buf r.coarse off) (buf (r.fine i_face) off))) buf b l = buf b l := by
    intro m
    induction m with
    | zero => intro _; exact ⟨by simp, by simp⟩
    | succ m ih =>
      intro hm
      obtain ⟨i1, i2⟩ := ih (by omega)
      rw [List.range_succ, List.foldl_append, List.foldl_cons, List.foldl_nil]
      set bm := (List.range m).foldl (fun buf i_face => setBuf buf (r.fine i_face) off (prolongFine bs nd p.nExtrap scale r.str i_face (buf r.coarse off) (buf (r.fine i_face) off))) buf with hbm
      have hco : bm r.coarse off = buf r.coarse off := i2 _ _ (Or.inl fun i hi e => h1 i (by omega) e.symm)
      have hfm : bm (r.fine m) off = buf (r.fine m) off := i2 _ _ (Or.inl fun i hi e => by have := h2 m (by omega) i (by omega) e; omega)
      constructor
      · intro i hi
        simp only [setBuf]
        by_cases e : i = m
        · subst e; simp only [and_self, if_true]; rw [hco, hfm]
        · rw [if_neg (fun h => e (h2 i (by omega) m (by omega) h.1)), i1 i (by omega)]
      · intro b l h
        simp only [setBuf]
        rw [if_neg, i2 b l]
        · rcases h with h | h
          · exact Or.inl fun i hi => h i (by omega)
          · exact Or.inr h
        · rintro ⟨e1, e2⟩
          rcases h with h | h
          · exact h m (by omega) e1
          · exact h e2
  exact key _ (le_refl _)

/-- Running something on all refined faces, where it only reads and writes the storage of the refined face. -/
theorem refs_fold (nd : Nat) (off : Bool) (k : (Buf → Bool → Mem) → RefRec → Buf → Bool → Mem) (good : RefRec → Prop)
    (hframe : ∀ buf r b l, good r → (b ∉ refBufs nd r ∨ l ≠ off) → k buf r b l = buf b l)
    (hread : ∀ buf buf' r, good r → (∀ b ∈ refBufs nd r, buf b off = buf' b off) → ∀ b ∈ refBufs nd r, k buf r b off = k buf' r b off) :
    ∀ (l : List RefRec) (buf : Buf → Bool → Mem), (∀ r ∈ l, good r) → (l.flatMap (refBufs nd)).Nodup →
      (∀ r ∈ l, ∀ b ∈ refBufs nd r, l.foldl k buf b off = k buf r b off) ∧ ∀ b ld, (b ∉ l.flatMap (refBufs nd) ∨ ld ≠ off) → l.foldl k buf b ld = buf b ld
  | [], buf, _, _ => ⟨by simp, by simp⟩
  | r :: l, buf, hg, hnd => by
    rw [List.flatMap_cons, List.nodup_append] at hnd
    obtain ⟨n1, n2, n3⟩ := hnd
    have hgr := hg r (by simp)
    obtain ⟨i1, i2⟩ := refs_fold nd off k good hframe hread l (k buf r) (fun r' hr' => hg r' (by simp [hr'])) n2
    rw [List.foldl_cons]
    constructor
    · intro r' hr' b hb
      rcases List.mem_cons.1 hr' with rfl | hr'
      · exact i2 b off (Or.inl fun h => n3 b hb b h rfl)
      · rw [i1 r' hr' b hb]
        refine hread _ _ r' (hg r' (by simp [hr'])) (fun b' hb' => hframe buf r b' off hgr (Or.inl fun h => n3 b' h b' (List.mem_flatMap.2 ⟨r', hr', hb'⟩) rfl)) b hb
    · intro b ld h
      rw [i2 b ld, hframe buf r b ld hgr]
      · rcases h with h | h
        · left; intro h'; exact h (by simp [h'])
        · exact Or.inr h
      · rcases h with h | h
        · left; intro h'; exact h (by rw [List.flatMap_cons, List.mem_append]; exact Or.inr h')
        · exact Or.inr h

theorem restrict_fold (p : Pde) (bs : BasisData) (hn : 0 < bs.n) (nd : Nat) (scale off : Bool) (l : List RefRec) (buf : Buf → Bool → Mem) (hnd : (l.flatMap (refBufs nd)).Nodup) :
    (∀ r ∈ l, (∀ v < p.nExtrap, ∀ k < bs.n ^ (nd - 1), l.foldl (restrictRef p bs nd scale off) buf r.coarse off (v * bs.n ^ (nd - 1) + k) =
        ∑ i ∈ Finset.range (nFace nd r.str), restricted bs nd scale r i (buf (r.fine i) off) v k) ∧
      (∀ a, p.nExtrap * bs.n ^ (nd - 1) ≤ a → l.foldl (restrictRef p bs nd scale off) buf r.coarse off a = buf r.coarse off a) ∧
      ∀ i < nFace nd r.str, l.foldl (restrictRef p bs nd scale off) buf (r.fine i) off = (restrictFine bs nd p.nExtrap scale r.str i (buf (r.fine i) off, fun _ => 0)).1) ∧
    ∀ b ld, (b ∉ l.flatMap (refBufs nd) ∨ ld ≠ off) → l.foldl (restrictRef p bs nd scale off) buf b ld = buf b ld := by
  have hg : ∀ r ∈ l, (refBufs nd r).Nodup := fun r hr => (List.nodup_flatMap.1 hnd).1 r hr
  obtain ⟨f1, f2⟩ := refs_fold nd off (restrictRef p bs nd scale off) (fun r => (refBufs nd r).Nodup)
    (fun buf r b ld hr h => (restrictRef_spec p bs hn nd scale off buf r hr).2.2.2 b ld h)
    (by
      intro buf buf' r hr hb b hbr
      obtain ⟨s1, s2, s3, s4⟩ := restrictRef_spec p bs hn nd scale off buf r hr
      obtain ⟨t1, t2, t3, t4⟩ := restrictRef_spec p bs hn nd scale off buf' r hr
      have hfi : ∀ i < nFace nd r.str, buf (r.fine i) off = buf' (r.fine i) off := fun i hi => hb _ (by simp only [refBufs, List.mem_cons, List.mem_map, List.mem_range]; exact Or.inr ⟨i, hi, rfl⟩)
      rw [refBufs, List.mem_cons, List.mem_map] at hbr
      rcases hbr with rfl | ⟨i, hi, rfl⟩
      · funext a
        by_cases ha : a < p.nExtrap * bs.n ^ (nd - 1)
        · have hN : 0 < bs.n ^ (nd - 1) := Nat.pow_pos hn
          have hv : a / bs.n ^ (nd - 1) < p.nExtrap := Nat.div_lt_of_lt_mul (by rwa [Nat.mul_comm] at ha)
          have e1 := s1 _ hv _ (Nat.mod_lt a hN)
          have e2 := t1 _ hv _ (Nat.mod_lt a hN)
          rw [Nat.div_add_mod'] at e1 e2
          rw [e1, e2]
          refine Finset.sum_congr rfl fun i hi => ?_
          rw [hfi i (Finset.mem_range.1 hi)]
        · rw [s2 a (by omega), t2 a (by omega), hb _ (by simp [refBufs])]
      · have hi' := List.mem_range.1 hi
        rw [s3 i hi', t3 i hi', hfi i hi'])
    l buf hg hnd
  refine ⟨?_, f2⟩
  intro r hr
  obtain ⟨s1, s2, s3, s4⟩ := restrictRef_spec p bs hn nd scale off buf r (hg r hr)
  have hc := f1 r hr r.coarse (by simp [refBufs])
  refine ⟨fun v hv k hk => by rw [hc, s1 v hv k hk], fun a ha => by rw [hc, s2 a ha], fun i hi => ?_⟩
  rw [f1 r hr (r.fine i) (by simp only [refBufs, List.mem_cons, List.mem_map, List.mem_range]; exact Or.inr ⟨i, hi, rfl⟩), s3 i hi]

theorem prolong_fold (p : Pde) (bs : BasisData) (nd : Nat) (scale off : Bool) (l : List RefRec) (buf : Buf → Bool → Mem) (hnd : (l.flatMap (refBufs nd)).Nodup) :
    (∀ r ∈ l, ∀ i < nFace nd r.str, l.foldl (prolongRef p bs nd scale off) buf (r.fine i) off = prolongFine bs nd p.nExtrap scale r.str i (buf r.coarse off) (buf (r.fine i) off)) ∧
    ∀ b ld, ((∀ r ∈ l, ∀ i < nFace nd r.str, b ≠ r.fine i) ∨ ld ≠ off) → l.foldl (prolongRef p bs nd scale off) buf b ld = buf b ld := by
  have hg : ∀ r ∈ l, (refBufs nd r).Nodup := fun r hr => (List.nodup_flatMap.1 hnd).1 r hr
  obtain ⟨f1, f2⟩ := refs_fold nd off (prolongRef p bs nd scale off) (fun r => (refBufs nd r).Nodup)
    (by
      intro buf r b ld hr h
      refine (prolongRef_spec p bs nd scale off buf r hr).2 b ld ?_
      rcases h with h | h
      · left; rintro i hi rfl; exact h (by simp only [refBufs, List.mem_cons, List.mem_map, List.mem_range]; exact Or.inr ⟨i, hi, rfl⟩)
      · exact Or.inr h)
    (by
      intro buf buf' r hr hb b hbr
      obtain ⟨s1, s2⟩ := prolongRef_spec p bs nd scale off buf r hr
      obtain ⟨t1, t2⟩ := prolongRef_spec p bs nd scale off buf' r hr
      have hbr' := hbr
      rw [refBufs, List.mem_cons, List.mem_map] at hbr
      rcases hbr with rfl | ⟨i, hi, rfl⟩
      · rw [s2 _ _ (Or.inl fun i hi e => (refBufs_ne hr).1 i hi e.symm), t2 _ _ (Or.inl fun i hi e => (refBufs_ne hr).1 i hi e.symm), hb _ hbr']
      · have hi' := List.mem_range.1 hi
        rw [s1 i hi', t1 i hi', hb _ hbr', hb r.coarse (by simp [refBufs])])
    l buf hg hnd
  constructor
  · intro r hr i hi
    rw [f1 r hr (r.fine i) (by simp only [refBufs, List.mem_cons, List.mem_map, List.mem_range]; exact Or.inr ⟨i, hi, rfl⟩), (prolongRef_spec p bs nd scale off buf r (hg r hr)).1 i hi]
  · intro b ld h
    by_cases hb : b ∈ l.flatMap (refBufs nd) ∧ ld = off
    · obtain ⟨hb, rfl⟩ := hb
      obtain ⟨r, hr, hbr⟩ := List.mem_flatMap.1 hb
      rw [f1 r hr b hbr]
      refine (prolongRef_spec p bs nd scale ld buf r (hg r hr)).2 b ld (Or.inl ?_)
      rcases h with h | h
      · exact h r hr
      · exact absurd rfl h
    · exact f2 b ld (by tauto)

end Hexed.Spatial
