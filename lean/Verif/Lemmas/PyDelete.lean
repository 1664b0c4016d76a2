import Verif.Model.PyDelete
import Verif.Lemmas.PyIndex

namespace Alaya.Py

/-- Pointwise: some of the matching records with an item id are gone, nothing else changed. -/
def Sub (p : ScalarData → Bool) (l l' : List (Option Row)) : Prop :=
  ∀ i : Nat, l'[i]? = l[i]? ∨ ∃ r : Row, l[i]? = some (some r) ∧ p r.2 = true ∧ r.2.itemId ≠ [] ∧ l'[i]? = some none

theorem Sub.refl (p : ScalarData → Bool) (l : List (Option Row)) : Sub p l l := fun _ => Or.inl rfl

theorem Sub.trans {p : ScalarData → Bool} {a b c : List (Option Row)} (h1 : Sub p a b) (h2 : Sub p b c) : Sub p a c := by
  intro i
  rcases h1 i with h | ⟨r, ha, hp, hn, hb⟩
  · rcases h2 i with h' | ⟨r, hb, hp, hn, hc⟩
    · exact Or.inl (h'.trans h)
    · exact Or.inr ⟨r, by rw [← h]; exact hb, hp, hn, hc⟩
  · rcases h2 i with h' | ⟨r', hb', _⟩
    · exact Or.inr ⟨r, ha, hp, hn, h'.trans hb⟩
    · rw [hb] at hb'; cases hb'

/-- Clear the records whose (non-empty) item id is listed. -/
def kill (ids : List Bytes) (l : List (Option Row)) : List (Option Row) :=
  l.map fun o => match o with
    | some r => if r.2.itemId ∈ ids ∧ r.2.itemId ≠ [] then none else some r
    | none => none

theorem kill_get {ids : List Bytes} {l : List (Option Row)} {i : Nat} :
    (kill ids l)[i]? = match l[i]? with
      | some (some r) => if r.2.itemId ∈ ids ∧ r.2.itemId ≠ [] then some none else some (some r)
      | some none => some none
      | none => none := by
  unfold kill
  rw [List.getElem?_map]
  cases h : l[i]? with
  | none => rfl
  | some o =>
    cases o with
    | none => rfl
    | some r =>
      by_cases hr : r.2.itemId ∈ ids ∧ r.2.itemId ≠ []
      · simp only [Option.map_some, if_pos hr]
      · simp only [Option.map_some, if_neg hr]

theorem kill_nil (l : List (Option Row)) : kill [] l = l := by
  apply List.ext_getElem?
  intro i
  rw [kill_get]
  cases l[i]? with
  | none => rfl
  | some o => cases o <;> simp

theorem kill_kill (a b : List Bytes) (l : List (Option Row)) : kill b (kill a l) = kill (a ++ b) l := by
  apply List.ext_getElem?
  intro i
  rw [kill_get, kill_get, kill_get]
  cases l[i]? with
  | none => rfl
  | some o =>
    cases o with
    | none => rfl
    | some r =>
      by_cases h1 : r.2.itemId ∈ a <;> by_cases h2 : r.2.itemId ∈ b <;> by_cases h3 : r.2.itemId = [] <;> simp_all

theorem kill_uniq {l : List (Option Row)} (hu : Uniq l) (ids : List Bytes) : Uniq (kill ids l) := by
  have key : ∀ (i : Nat) (r : Row), (kill ids l)[i]? = some (some r) → l[i]? = some (some r) := by
    intro i r h
    rw [kill_get] at h
    cases hl : l[i]? with
    | none => rw [hl] at h; cases h
    | some o =>
      cases o with
      | none => rw [hl] at h; cases h
      | some q =>
        rw [hl] at h
        simp only at h
        by_cases hq : q.2.itemId ∈ ids ∧ q.2.itemId ≠ []
        · rw [if_pos hq] at h; cases h
        · rw [if_neg hq] at h; exact h
  intro a b r r' ha hb
  exact hu a b r r' (key a r ha) (key b r' hb)

theorem tryRemove_slots {s : Index} (hu : Uniq s.slots) (item : Bytes) :
    (tryRemove true s item).slots = kill [item] s.slots ∧ (tryRemove true s item).cap = s.cap ∧
      (tryRemove true s item).vecLen = s.vecLen := by
  have hk : ∀ r : Row, r.2.itemId ∈ [item] ↔ r.2.itemId = item := by intro r; simp
  show ((s.removeItem item).getD s).slots = _ ∧ _
  cases hf : s.find item with
  | none =>
    have : s.removeItem item = none := by unfold Index.removeItem; rw [hf]
    simp only [tryRemove, if_true, this, Option.getD_none, and_true]
    apply List.ext_getElem?
    intro i
    rw [kill_get]
    cases hl : s.slots[i]? with
    | none => rfl
    | some o =>
      cases o with
      | none => rfl
      | some r =>
        simp only
        rw [if_neg]
        rintro ⟨h1, h2⟩
        rw [hk] at h1
        rcases find_none.mp hf with h | h
        · exact h2 (h1.trans h)
        · exact h r (List.mem_of_getElem? hl) h1
  | some j =>
    obtain ⟨hne, r0, h0, h1⟩ := find_some hf
    have : s.removeItem item = some { s with slots := s.slots.set j none } := by unfold Index.removeItem; rw [hf]
    simp only [tryRemove, if_true, this, Option.getD_some, and_true]
    apply List.ext_getElem?
    intro i
    rw [kill_get, List.getElem?_set]
    by_cases hji : j = i
    · subst hji
      have hlt : j < s.slots.length := (List.getElem?_eq_some_iff.mp h0).1
      rw [if_pos rfl, if_pos hlt, h0]
      simp only
      rw [if_pos ⟨(hk _).mpr h1, by rw [h1]; exact hne⟩]
    · rw [if_neg hji]
      cases hl : s.slots[i]? with
      | none => rfl
      | some o =>
        cases o with
        | none => rfl
        | some r =>
          simp only
          rw [if_neg]
          rintro ⟨h2, h3⟩
          rw [hk] at h2
          exact hji (hu i j r r0 hl h0 (h2.trans h1.symm) h3).symm

theorem deleteIds_slots {s : Index} (hu : Uniq s.slots) (ids : List Bytes) :
    (deleteIds true s ids).slots = kill ids s.slots ∧ (deleteIds true s ids).cap = s.cap ∧
      (deleteIds true s ids).vecLen = s.vecLen := by
  induction ids generalizing s with
  | nil => exact ⟨(kill_nil _).symm, rfl, rfl⟩
  | cons it ids ih =>
    obtain ⟨h1, h2, h3⟩ := tryRemove_slots hu it
    obtain ⟨g1, g2, g3⟩ := ih (s := tryRemove true s it) (by rw [h1]; exact kill_uniq hu _)
    refine ⟨?_, g2.trans h2, g3.trans h3⟩
    rw [show (deleteIds true s (it :: ids)) = deleteIds true (tryRemove true s it) ids from rfl, g1, h1, kill_kill]
    rfl

theorem deleteIds_not_updatable (s : Index) (ids : List Bytes) : deleteIds false s ids = s := by
  unfold deleteIds
  induction ids with
  | nil => rfl
  | cons it ids ih => exact ih

theorem mem_matching {p : ScalarData → Bool} {l : List (Option Row)} {r : Row} :
    r ∈ matching p l ↔ some r ∈ l ∧ p r.2 = true := by
  unfold matching
  rw [List.mem_filterMap]
  constructor
  · rintro ⟨o, ho, h⟩
    cases o with
    | none => cases h
    | some q =>
      simp only at h
      by_cases hq : p q.2 = true
      · rw [if_pos hq] at h; cases h; exact ⟨ho, hq⟩
      · rw [if_neg hq] at h; cases h
  · rintro ⟨h1, h2⟩
    exact ⟨some r, h1, by simp [h2]⟩

theorem matching_kill (p : ScalarData → Bool) (ids : List Bytes) (l : List (Option Row)) :
    matching p (kill ids l) = (matching p l).filter fun r => !decide (r.2.itemId ∈ ids ∧ r.2.itemId ≠ []) := by
  induction l with
  | nil => rfl
  | cons o l ih =>
    unfold matching kill at ih ⊢
    cases o with
    | none => simpa using ih
    | some r =>
      rw [List.map_cons, List.filterMap_cons, List.filterMap_cons]
      by_cases hp : p r.2 = true
      · by_cases hr : r.2.itemId ∈ ids ∧ r.2.itemId ≠ []
        · simp only [hp, if_true, if_pos hr]
          rw [List.filter_cons_of_neg (by simp [hr])]
          exact ih
        · simp only [hp, if_true, if_neg hr]
          rw [List.filter_cons_of_pos (by rw [decide_eq_false hr]; rfl), ih]
      · by_cases hr : r.2.itemId ∈ ids ∧ r.2.itemId ≠ []
        · simp only [hp, if_pos hr]; exact ih
        · simp only [hp, if_neg hr]; exact ih

/-- Non-empty item ids of the listed rows are distinct. -/
def UniqM (m : List Row) : Prop := m.Pairwise fun a b => a.2.itemId = b.2.itemId → a.2.itemId = []

theorem uniqM_matching {l : List (Option Row)} (hu : Uniq l) (p : ScalarData → Bool) : UniqM (matching p l) := by
  induction l with
  | nil => exact List.Pairwise.nil
  | cons o l ih =>
    have hu' : Uniq l := by
      intro i j r r' hi hj he hn
      have := hu (i + 1) (j + 1) r r' (by simpa using hi) (by simpa using hj) he hn
      omega
    have ih := ih hu'
    unfold matching UniqM at ih ⊢
    cases o with
    | none => simpa using ih
    | some r =>
      rw [List.filterMap_cons]
      by_cases hp : p r.2 = true
      · simp only [hp, if_true]
        refine List.Pairwise.cons ?_ ih
        intro q hq he
        have hm := (mem_matching (p := p) (l := l)).mp hq
        obtain ⟨j, hj⟩ := List.mem_iff_getElem?.mp hm.1
        by_cases hn : r.2.itemId = []
        · exact hn
        · have := hu 0 (j + 1) r q (by simp) (by simpa using hj) he hn
          omega
      · simp only [hp]; exact ih

/-- One pass: of the first `b` matching records those with an item id are removed. -/
theorem filter_take {m : List Row} (hm : UniqM m) (b : Nat) :
    (m.filter fun r => !decide (r.2.itemId ∈ (m.take b).map (·.2.itemId) ∧ r.2.itemId ≠ [])) =
      (m.take b).filter (fun r => decide (r.2.itemId = [])) ++ m.drop b := by
  obtain ⟨f, hf⟩ : ∃ f : Row → Bool, f = fun r => !decide (r.2.itemId ∈ (m.take b).map (·.2.itemId) ∧ r.2.itemId ≠ []) :=
    ⟨_, rfl⟩
  rw [← hf]
  rw [show m.filter f = (m.take b ++ m.drop b).filter f by rw [List.take_append_drop], List.filter_append]
  congr 1
  · apply List.filter_congr
    intro r hr
    have : r.2.itemId ∈ (m.take b).map (·.2.itemId) := List.mem_map.mpr ⟨r, hr, rfl⟩
    rw [hf]
    by_cases he : r.2.itemId = []
    · simp [he]
    · simp only [this, he, ne_eq, not_false_eq_true, and_self, decide_true, Bool.not_true, decide_false]
  · rw [List.filter_eq_self]
    intro r hr
    have h' := hm
    unfold UniqM at h'
    rw [show m = m.take b ++ m.drop b from (List.take_append_drop b m).symm, List.pairwise_append] at h'
    rw [hf]
    simp only [Bool.not_eq_true', decide_eq_false_iff_not]
    rintro ⟨h1, h2⟩
    obtain ⟨q, hq, he⟩ := List.mem_map.mp h1
    exact h2 (he ▸ h'.2.2 q hq r hr he)

theorem kill_sub {l : List (Option Row)} (hu : Uniq l) (p : ScalarData → Bool) (b : Nat) :
    Sub p l (kill (((matching p l).take b).map (·.2.itemId)) l) := by
  intro i
  rw [kill_get]
  cases hl : l[i]? with
  | none => exact Or.inl rfl
  | some o =>
    cases o with
    | none => exact Or.inl rfl
    | some r =>
      simp only
      by_cases hr : r.2.itemId ∈ ((matching p l).take b).map (·.2.itemId) ∧ r.2.itemId ≠ []
      · right
        refine ⟨r, rfl, ?_, hr.2, if_pos hr⟩
        obtain ⟨q, hq, he⟩ := List.mem_map.mp hr.1
        obtain ⟨hq1, hq2⟩ := mem_matching.mp (List.mem_of_mem_take hq)
        obtain ⟨j, hj⟩ := List.mem_iff_getElem?.mp hq1
        have := hu i j r q hl hj he.symm hr.2
        subst this
        rw [hl] at hj
        cases hj
        exact hq2
      · exact Or.inl (if_neg hr)

/-- Records that match but have no item id. -/
def anon (p : ScalarData → Bool) (l : List (Option Row)) : List Row :=
  (matching p l).filter fun r => decide (r.2.itemId = [])

/-- One pass of the loop on an updatable index. -/
theorem pass {s : Index} (hu : Uniq s.slots) (p : ScalarData → Bool) (b : Nat) :
    Uniq (deleteIds true s (s.filterIds p b)).slots ∧
      Sub p s.slots (deleteIds true s (s.filterIds p b)).slots ∧
      matching p (deleteIds true s (s.filterIds p b)).slots =
        ((matching p s.slots).take b).filter (fun r => decide (r.2.itemId = [])) ++ (matching p s.slots).drop b ∧
      anon p (deleteIds true s (s.filterIds p b)).slots = anon p s.slots := by
  obtain ⟨h1, _, _⟩ := deleteIds_slots hu (s.filterIds p b)
  have hm : matching p (deleteIds true s (s.filterIds p b)).slots =
        ((matching p s.slots).take b).filter (fun r => decide (r.2.itemId = [])) ++ (matching p s.slots).drop b := by
    rw [h1, matching_kill]
    exact filter_take (uniqM_matching hu p) b
  refine ⟨by rw [h1]; exact kill_uniq hu _, by rw [h1]; exact kill_sub hu p b, hm, ?_⟩
  unfold anon
  rw [hm, List.filter_append, List.filter_filter]
  simp only [Bool.and_self]
  rw [← List.filter_append, List.take_append_drop]

theorem filterIds_length (s : Index) (p : ScalarData → Bool) (b : Nat) :
    (s.filterIds p b).length = min b (matching p s.slots).length := by
  unfold Index.filterIds
  rw [List.length_map, List.length_take]

theorem delLoop_more {upd : Bool} {p : ScalarData → Bool} {b : Nat} {f : Nat} :
    ∀ {total : Nat} {s : Index} {r : Nat × Index}, delLoop upd p b f total s = some r →
      delLoop upd p b (f + 1) total s = some r := by
  induction f with
  | zero => intro _ _ _ h; cases h
  | succ f ih =>
    intro total s r h
    rw [delLoop] at h ⊢
    by_cases hc : (s.filterIds p b).length = b
    · rw [if_pos hc] at h ⊢
      exact ih h
    · rw [if_neg hc] at h ⊢
      exact h

theorem delLoop_mono {upd : Bool} {p : ScalarData → Bool} {b f g : Nat} (hfg : f ≤ g) {total : Nat} {s : Index}
    {r : Nat × Index} (h : delLoop upd p b f total s = some r) : delLoop upd p b g total s = some r := by
  induction hfg with
  | refl => exact h
  | step _ ih => exact delLoop_more ih

theorem returns_unique {upd : Bool} {p : ScalarData → Bool} {b : Nat} {s s1 s2 : Index} {n1 n2 : Nat}
    (h1 : Returns upd p b s n1 s1) (h2 : Returns upd p b s n2 s2) : n1 = n2 ∧ s1 = s2 := by
  obtain ⟨f, hf⟩ := h1
  obtain ⟨g, hg⟩ := h2
  have a := delLoop_mono (Nat.le_max_left f g) hf
  rw [delLoop_mono (Nat.le_max_right f g) hg] at a
  cases a
  exact ⟨rfl, rfl⟩

/-- With fewer than `b` anonymous matches the loop ends; it removed the named matches and nothing else. -/
theorem delLoop_ends {p : ScalarData → Bool} {b : Nat} (hb : 0 < b) :
    ∀ (k : Nat) (s : Index) (total : Nat), Uniq s.slots → (anon p s.slots).length < b →
      (matching p s.slots).length ≤ k →
      ∃ n s', delLoop true p b (k + 1) total s = some (n, s') ∧ Sub p s.slots s'.slots ∧
        matching p s'.slots = anon p s.slots ∧ total + (matching p s.slots).length ≤ n ∧
        (anon p s.slots = [] → n = total + (matching p s.slots).length) := by
  intro k
  induction k with
  | zero =>
    intro s total hu ha hk
    obtain ⟨_, h2, h3, h4⟩ := pass hu p b
    have hz : matching p s.slots = [] := List.length_eq_zero_iff.mp (by omega)
    have hl : (s.filterIds p b).length = 0 := by rw [filterIds_length, hz]; simp
    rw [delLoop, if_neg (by omega)]
    refine ⟨_, _, rfl, h2, ?_, ?_, ?_⟩
    · rw [h3, hz]; unfold anon; rw [hz]; simp
    · rw [hl, hz]; simp
    · intro _; rw [hl, hz]; rfl
  | succ k ih =>
    intro s total hu ha hk
    obtain ⟨h1, h2, h3, h4⟩ := pass hu p b
    have hl := filterIds_length s p b
    rw [delLoop]
    by_cases hc : (s.filterIds p b).length = b
    · rw [if_pos hc]
      have hge : b ≤ (matching p s.slots).length := by omega
      have hlen : (matching p (deleteIds true s (s.filterIds p b)).slots).length + 1 ≤ (matching p s.slots).length := by
        rw [h3, List.length_append, List.length_drop]
        have : (((matching p s.slots).take b).filter fun r => decide (r.2.itemId = [])).length ≤
            (anon p s.slots).length := by
          unfold anon
          exact ((List.take_sublist b _).filter _).length_le
        omega
      obtain ⟨n, s', g1, g2, g3, g4, g5⟩ := ih (deleteIds true s (s.filterIds p b)) (total + (s.filterIds p b).length) h1
        (by rw [h4]; exact ha) (by omega)
      refine ⟨n, s', g1, h2.trans g2, g3.trans h4, ?_, ?_⟩
      · rw [h3, List.length_append, List.length_drop] at g4
        omega
      · intro he
        have := g5 (h4.trans he)
        rw [h3, List.length_append, List.length_drop] at this
        have hz : (((matching p s.slots).take b).filter fun r => decide (r.2.itemId = [])).length = 0 := by
          have : (((matching p s.slots).take b).filter fun r => decide (r.2.itemId = [])).length ≤
              (anon p s.slots).length := by
            unfold anon
            exact ((List.take_sublist b _).filter _).length_le
          rw [he] at this
          simpa using this
        omega
    · rw [if_neg hc]
      have hlt : (matching p s.slots).length < b := by omega
      refine ⟨_, _, rfl, h2, ?_, by omega, fun _ => by omega⟩
      rw [h3, List.take_of_length_le (by omega), List.drop_of_length_le (by omega), List.append_nil]
      rfl

/-- With `b` or more anonymous matches the loop never ends. -/
theorem delLoop_stuck {p : ScalarData → Bool} {b : Nat} :
    ∀ (k : Nat) (s : Index) (total : Nat), Uniq s.slots → b ≤ (anon p s.slots).length →
      delLoop true p b k total s = none := by
  intro k
  induction k with
  | zero => intros; rfl
  | succ k ih =>
    intro s total hu ha
    obtain ⟨h1, h2, h3, h4⟩ := pass hu p b
    have hle : (anon p s.slots).length ≤ (matching p s.slots).length := List.length_filter_le _ _
    rw [delLoop, if_pos (by rw [filterIds_length]; omega)]
    exact ih _ _ h1 (by rw [h4]; exact ha)

end Alaya.Py
