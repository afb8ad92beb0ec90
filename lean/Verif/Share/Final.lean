import Verif.Share.Lemmas
set_option autoImplicit false
set_option linter.unusedVariables false

/-! # Lemmas: the result of sharing vertex data -/

namespace Hexed.Share
open Hexed.Connection

set_option synthInstance.maxHeartbeats 400000 in
set_option synthInstance.maxSize 1000 in
theorem weight_table : ∀ nd ∈ [2, 3], ∀ id : Fin 3, id.val < nd → ∀ isp a b : Bool,
    (∀ c ∈ faceVerts nd id isp, ∀ v ∈ faceVerts nd id isp, ((faceAxes nd id).map fun k => 2 + corner nd c k * (2 * corner nd v k)).prod = if c = v then 4 ^ (nd - 1) else 0) ∧
    (∀ i ∈ List.range (nFine nd (a, b)), ∀ v ∈ faceVerts nd id isp, (∀ c ∈ faceVerts nd id isp, ∀ k ∈ faceAxes nd id, 0 ≤ 2 + corner nd c k * finePos nd id (a, b) i v k) ∧
      ((faceVerts nd id isp).map fun c => ((faceAxes nd id).map fun k => 2 + corner nd c k * finePos nd id (a, b) i v k).prod).sum = 4 ^ (nd - 1)) ∧
    (faceAxes nd id).length = nd - 1 ∧ (faceVerts nd id isp).Nodup ∧ ∀ v ∈ faceVerts nd id isp, v < 2 ^ nd := by
  decide +kernel

variable {K : Type} [Field K] [LinearOrder K] [IsStrictOrderedRing K]

theorem weight_eq {nd ne : Nat} (hnd : nd = 2 ∨ nd = 3) {h : Matcher} (hok : h.Ok nd ne) (i v c : Nat) :
    h.weight K nd i v c = (((faceAxes nd h.id).map fun k => 2 + corner nd c k * finePos nd h.id h.str i v k).prod : ℤ) / 4 ^ (nd - 1) := by
  obtain ⟨-, -, t3, -, -⟩ := weight_table nd (by simpa using hnd) h.id hok.id h.isp h.str.1 h.str.2
  rw [Matcher.weight, prod_div4, t3]

theorem weight_corner {nd ne : Nat} (hnd : nd = 2 ∨ nd = 3) {h : Matcher} (hok : h.Ok nd ne) {i v c : Nat} (hv : v ∈ faceVerts nd h.id h.isp) (hc : c ∈ faceVerts nd h.id h.isp)
    (ha : h.AtCorner nd i v) : h.weight K nd i v c = if c = v then 1 else 0 := by
  obtain ⟨t1, -, t3, -, -⟩ := weight_table nd (by simpa using hnd) h.id hok.id h.isp h.str.1 h.str.2
  have : ((faceAxes nd h.id).map fun k => 2 + corner nd c k * finePos nd h.id h.str i v k) = (faceAxes nd h.id).map fun k => 2 + corner nd c k * (2 * corner nd v k) :=
    List.map_congr_left fun k hk => by rw [ha k hk]
  rw [weight_eq hnd hok, this, t1 c hc v hv]
  split
  · push_cast
    rw [div_self (by positivity)]
  · simp

theorem weight_nonneg {nd ne : Nat} (hnd : nd = 2 ∨ nd = 3) {h : Matcher} (hok : h.Ok nd ne) {i v c : Nat} (hi : i < nFine nd h.str) (hv : v ∈ faceVerts nd h.id h.isp)
    (hc : c ∈ faceVerts nd h.id h.isp) : 0 ≤ h.weight K nd i v c := by
  obtain ⟨-, t2, -⟩ := weight_table nd (by simpa using hnd) h.id hok.id h.isp h.str.1 h.str.2
  rw [weight_eq hnd hok]
  have := List.prod_nonneg (s := (faceAxes nd h.id).map fun k => 2 + corner nd c k * finePos nd h.id h.str i v k) (by
    intro a ha
    obtain ⟨k, hk, rfl⟩ := List.mem_map.1 ha
    exact (t2 i (by simpa using hi) v hv).1 c hc k hk)
  have h2 : (0 : K) ≤ (((faceAxes nd h.id).map fun k => 2 + corner nd c k * finePos nd h.id h.str i v k).prod : ℤ) := by exact_mod_cast this
  positivity

theorem weight_sum {nd ne : Nat} (hnd : nd = 2 ∨ nd = 3) {h : Matcher} (hok : h.Ok nd ne) {i v : Nat} (hi : i < nFine nd h.str) (hv : v ∈ faceVerts nd h.id h.isp) :
    ((faceVerts nd h.id h.isp).map fun c => h.weight K nd i v c).sum = 1 := by
  obtain ⟨-, t2, -⟩ := weight_table nd (by simpa using hnd) h.id hok.id h.isp h.str.1 h.str.2
  have e := (t2 i (by simpa using hi) v hv).2
  have : ∀ l : List Nat, (l.map fun c => h.weight K nd i v c).sum = (((l.map fun c => ((faceAxes nd h.id).map fun k => 2 + corner nd c k * finePos nd h.id h.str i v k).prod).sum : ℤ) : K) / 4 ^ (nd - 1) := by
    intro l
    induction l with
    | nil => simp
    | cons a l ih => rw [List.map_cons, List.sum_cons, ih, List.map_cons, List.sum_cons, weight_eq hnd hok, Int.cast_add, add_div]
  rw [this, e]
  push_cast
  exact div_self (by positivity)

theorem average_bounds {α : Type} (w g : α → K) {lo hi : K} : ∀ l : List α, (∀ c ∈ l, 0 ≤ w c) → (∀ c ∈ l, lo ≤ g c ∧ g c ≤ hi) →
    (l.map w).sum * lo ≤ (l.map fun c => w c * g c).sum ∧ (l.map fun c => w c * g c).sum ≤ (l.map w).sum * hi
  | [], _, _ => by simp
  | a :: l, hw, hg => by
    obtain ⟨i1, i2⟩ := average_bounds w g l (fun c hc => hw c (by simp [hc])) (fun c hc => hg c (by simp [hc]))
    have h1 := hw a (by simp)
    obtain ⟨g1, g2⟩ := hg a (by simp)
    simp only [List.map_cons, List.sum_cons, add_mul]
    exact ⟨add_le_add (mul_le_mul_of_nonneg_left g1 h1) i1, add_le_add (mul_le_mul_of_nonneg_left g2 h1) i2⟩

variable {m : Mesh} {order : Nat → List (Nat × Nat)} {reduce : List K → Option K} {get set : Nat → Nat → K}

/-- The fine elements at the corners. -/
theorem corners_exist {nd ne : Nat} (hnd : nd = 2 ∨ nd = 3) {h : Matcher} (hok : h.Ok nd ne) :
    ∃ el : Nat → Nat, ∀ c ∈ faceVerts nd h.id h.isp, el c < nFine nd h.str ∧ h.AtCorner nd (el c) c := by
  obtain ⟨el, hel⟩ := at_corners_exists hnd h.id hok.id h.isp h.str
  exact ⟨el, fun c hc => ⟨(hel c hc).1, (atCorner_iff h _ _).2 (hel c hc).2⟩⟩

theorem getD_fine {nd ne : Nat} {h : Matcher} (hok : h.Ok nd ne) {i : Nat} (hi : i < nFine nd h.str) : h.fine[i]? = some (h.fine.getD i 0) := by
  have hl : i < h.fine.length := by rw [hok.length]; exact hi
  rw [List.getD_eq_getElem?_getD, List.getElem?_eq_getElem hl]; rfl

theorem isInterp_exists (hnd : m.nd = 2 ∨ m.nd = 3) {h : Matcher} (hok : h.Ok m.nd m.ne) (i v : Nat) (g : Nat → K) : ∃ x, m.IsInterp h i v g x := by
  obtain ⟨el, hel⟩ := corners_exist hnd hok
  exact ⟨_, fun c => m.vid (h.fine.getD (el c) 0) c, fun c hc => ⟨hc, el c, _, getD_fine hok (hel c hc).1, (hel c hc).2, rfl⟩, rfl⟩

/-- What holds between the matchers. -/
structure Inv (m : Mesh) (done : List Matcher) (s : Nat → K) (set val : Nat → Nat → K) : Prop where
  plain : ∀ e < m.ne, ∀ v < 2 ^ m.nd, ¬ m.HangingAt e v → val e v = s (m.vid e v)
  hang : ∀ h ∈ done, ∀ i e v, h.fine[i]? = some e → h.Hanging m.nd i v → ∀ x, m.IsInterp h i v s x → val e v = x
  out : ∀ e v, ¬ (e < m.ne ∧ v < 2 ^ m.nd) → val e v = set e v

theorem faceVerts_lt {nd : Nat} {id : Fin 3} {isp : Bool} {v : Nat} (hv : v ∈ faceVerts nd id isp) : v < 2 ^ nd := by
  have := (List.mem_filter.1 hv).1
  simpa using this

theorem inv_step (hc : Consistent K m) {done : List Matcher} {s : Nat → K} {set val : Nat → Nat → K} (u : Nat → K) (hd : ∀ h ∈ done, h ∈ m.matchers) (hi : Inv m done s set val)
    {h : Matcher} (hh : h ∈ m.matchers) : ∃ val', matchOn m.nd u val h = some val' ∧ Inv m (h :: done) s set val' := by
  have hok := hc.ok h hh
  obtain ⟨val', h1, h2, h3⟩ := matchOn_eq hc.dim hok u val
  obtain ⟨el, hel⟩ := corners_exist hc.dim hok
  have hread : ∀ c ∈ faceVerts m.nd h.id h.isp, val (h.fine.getD (el c) 0) c = s (m.vid (h.fine.getD (el c) 0) c) := by
    intro c hcf
    have hg := getD_fine hok (hel c hcf).1
    refine hi.plain _ (hok.exist _ (List.mem_of_getElem? hg)) c (faceVerts_lt hcf) ?_
    rintro ⟨h', hh', i', hf', hang⟩
    exact hc.corners h hh c _ ⟨hcf, el c, _, hg, (hel c hcf).2, rfl⟩ h' hh' i' _ c hf' hang rfl
  have hnew : ∀ i e v, h.fine[i]? = some e → v ∈ faceVerts m.nd h.id h.isp → m.IsInterp h i v s (val' e v) := by
    intro i e v hie hv
    refine ⟨fun c => m.vid (h.fine.getD (el c) 0) c, fun c hcf => ⟨hcf, el c, _, getD_fine hok (hel c hcf).1, (hel c hcf).2, rfl⟩, ?_⟩
    rw [h2 i e v hie hv el hel]
    exact congrArg List.sum (List.map_congr_left fun c hcf => by rw [hread c hcf])
  have hcor : ∀ i e v, h.fine[i]? = some e → v ∈ faceVerts m.nd h.id h.isp → h.AtCorner m.nd i v → val' e v = s (m.vid e v) := by
    intro i e v hie hv ha
    have hil : i < nFine m.nd h.str := by rw [← hok.length]; exact (List.getElem?_eq_some_iff.1 hie).1
    rw [h2 i e v hie hv (fun c => if c = v then i else el c) (fun c hcf => by
      split
      · rename_i e; subst e; exact ⟨hil, ha⟩
      · exact hel c hcf)]
    have : ((faceVerts m.nd h.id h.isp).map fun c => h.weight K m.nd i v c * val (h.fine.getD (if c = v then i else el c) 0) c) =
        (faceVerts m.nd h.id h.isp).map fun c => if c = v then val e v else 0 := by
      refine List.map_congr_left fun c hcf => ?_
      rw [weight_corner hc.dim hok hv hcf ha]
      split
      · rename_i ecv
        subst ecv
        rw [one_mul, List.getD_eq_getElem?_getD, hie, Option.getD_some]
      · rw [zero_mul]
    rw [this]
    obtain ⟨-, -, -, t4, -⟩ := weight_table m.nd (by simpa using hc.dim) h.id hok.id h.isp h.str.1 h.str.2
    rw [List.sum_map_ite_eq, List.count_eq_one_of_mem t4 hv, one_smul, sub_zero, List.sum_eq_zero (by simp), add_zero]
    refine hi.plain e (hok.exist e (List.mem_of_getElem? hie)) v (faceVerts_lt hv) ?_
    rintro ⟨h', hh', i', hf', hang⟩
    exact hc.corners h hh v _ ⟨hv, i, e, hie, ha, rfl⟩ h' hh' i' e v hf' hang rfl
  refine ⟨val', h1, ?_, ?_, ?_⟩
  · intro e he v hv hn
    by_cases hf : e ∈ h.fine ∧ v ∈ faceVerts m.nd h.id h.isp
    · obtain ⟨i, hil, hie⟩ := List.getElem_of_mem hf.1
      have hie' : h.fine[i]? = some e := List.getElem?_eq_some_iff.2 ⟨hil, hie⟩
      refine hcor i e v hie' hf.2 ?_
      by_contra hna
      exact hn ⟨h, hh, i, hie', by rw [← hok.length]; exact hil, hf.2, hna⟩
    · rw [h3 e v (by tauto)]
      exact hi.plain e he v hv hn
  · intro h' hh' i e v hie hang x hx
    by_cases hf : e ∈ h.fine ∧ v ∈ faceVerts m.nd h.id h.isp
    · obtain ⟨j, hjl, hje⟩ := List.getElem_of_mem hf.1
      have hje' : h.fine[j]? = some e := List.getElem?_eq_some_iff.2 ⟨hjl, hje⟩
      have hm' : h' ∈ m.matchers := by
        rcases List.mem_cons.1 hh' with rfl | h'
        · exact hh
        · exact hd _ h'
      by_cases ha : h.AtCorner m.nd j v
      · exact absurd rfl (hc.corners h hh v _ ⟨hf.2, j, e, hje', ha, rfl⟩ h' hm' i e v hie hang)
      · exact hc.same h hh h' hm' j e v i e v hje' ⟨by rw [← hok.length]; exact hjl, hf.2, ha⟩ hie hang rfl s _ _ (hnew j e v hje' hf.2) hx
    · rw [h3 e v (by tauto)]
      rcases List.mem_cons.1 hh' with rfl | h'
      · exact absurd ⟨List.mem_of_getElem? hie, hang.2.1⟩ hf
      · exact hi.hang _ h' i e v hie hang x hx
  · intro e v ho
    rw [h3 e v, hi.out e v ho]
    by_contra hn
    push Not at hn
    exact ho ⟨hok.exist e hn.1, faceVerts_lt hn.2⟩

theorem inv_fold (hc : Consistent K m) {s : Nat → K} {set : Nat → Nat → K} (u : Nat → K) : ∀ (l done : List Matcher) (val : Nat → Nat → K), (∀ h ∈ l, h ∈ m.matchers) → (∀ h ∈ done, h ∈ m.matchers) →
    Inv m done s set val → ∃ val', l.foldlM (matchOn m.nd u) val = some val' ∧ Inv m (l.reverse ++ done) s set val'
  | [], done, val, _, _, hi => ⟨val, rfl, by simpa using hi⟩
  | h :: l, done, val, hl, hd, hi => by
    obtain ⟨v1, e1, i1⟩ := inv_step hc u hd hi (hl h (by simp))
    obtain ⟨v2, e2, i2⟩ := inv_fold hc u l (h :: done) v1 (fun h' hh' => hl h' (by simp [hh'])) (by
      intro h' hh'
      rcases List.mem_cons.1 hh' with rfl | hh'
      · exact hl _ (by simp)
      · exact hd _ hh') i1
    refine ⟨v2, ?_, ?_⟩
    · rw [List.foldlM_cons, e1]; exact e2
    · simpa using i2

/-- The result. -/
theorem share_inv (hc : Consistent K m) (ho : m.IsOrder order) (hr : Picks reduce) (u : Nat → K) (get set : Nat → Nat → K) :
    ∃ val, shareVertexData m order u reduce get set = some val ∧ Inv m m.matchers (sv m reduce get) set val := by
  obtain ⟨v0, e0, p0, o0⟩ := fetch_eq (get := get) (set := set) ho hr
  obtain ⟨v1, e1, i1⟩ := inv_fold hc u m.matchers [] v0 (fun _ h => h) (by simp) (⟨fun e he v hv _ => p0 e he v hv, by simp, o0⟩ : Inv m [] (sv m reduce get) set v0)
  refine ⟨v1, by rw [shareVertexData, e0]; exact e1, i1.plain, fun h hh => i1.hang h (by simpa using hh), i1.out⟩

end Hexed.Share
