import Verif.Spec.ItemMap
import Verif.Spec.Recovery
import Verif.Props.C03
import Verif.Props.C08

namespace Alaya.Py
open Wal

/-- No two valid slots share a non-empty item id. -/
def Uniq (l : List (Option Row)) : Prop :=
  ∀ (i j : Nat) (r r' : Row), l[i]? = some (some r) → l[j]? = some (some r') → r.2.itemId = r'.2.itemId →
    r.2.itemId ≠ [] → i = j

theorem uniq_nil : Uniq [] := by
  intro i j r r' h; simp at h

theorem slotOf_some {item : Bytes} {l : List (Option Row)} {k i : Nat} (h : slotOf item l k = some i) :
    k ≤ i ∧ ∃ r, l[i - k]? = some (some r) ∧ r.2.itemId = item := by
  induction l generalizing k with
  | nil => simp [slotOf] at h
  | cons o rest ih =>
    have step : slotOf item rest (k + 1) = some i →
        k ≤ i ∧ ∃ r, (o :: rest)[i - k]? = some (some r) ∧ r.2.itemId = item := by
      intro h'
      obtain ⟨h1, r, h2, h3⟩ := ih h'
      refine ⟨by omega, r, ?_, h3⟩
      have : i - k = (i - (k + 1)) + 1 := by omega
      rw [this, List.getElem?_cons_succ]; exact h2
    cases o with
    | none => exact step h
    | some r =>
      unfold slotOf at h
      by_cases hr : r.2.itemId = item
      · rw [if_pos hr] at h
        cases h
        exact ⟨Nat.le_refl _, r, by simp, hr⟩
      · rw [if_neg hr] at h
        exact step h

theorem slotOf_none {item : Bytes} {l : List (Option Row)} {k : Nat} :
    slotOf item l k = none ↔ ∀ r, some r ∈ l → r.2.itemId ≠ item := by
  induction l generalizing k with
  | nil => simp [slotOf]
  | cons o rest ih =>
    have ih' : slotOf item rest (k + 1) = none ↔ ∀ r, some r ∈ rest → r.2.itemId ≠ item := ih
    cases o with
    | none =>
      unfold slotOf
      rw [ih']
      simp
    | some r =>
      unfold slotOf
      by_cases hr : r.2.itemId = item
      · rw [if_pos hr]
        constructor
        · intro h; cases h
        · intro h; exact absurd hr (h r (by simp))
      · rw [if_neg hr, ih']
        constructor
        · intro h r' h'
          rcases List.mem_cons.mp h' with h' | h'
          · cases h'; exact hr
          · exact h r' h'
        · intro h r' h'; exact h r' (by simp [h'])

theorem find_some {s : Index} {item : Bytes} {i : Nat} (h : s.find item = some i) :
    item ≠ [] ∧ ∃ r, s.slots[i]? = some (some r) ∧ r.2.itemId = item := by
  unfold Index.find at h
  by_cases hi : item = []
  · rw [if_pos hi] at h; cases h
  · rw [if_neg hi] at h
    exact ⟨hi, by simpa using (slotOf_some h).2⟩

theorem find_none {s : Index} {item : Bytes} :
    s.find item = none ↔ (item = [] ∨ ∀ r, some r ∈ s.slots → r.2.itemId ≠ item) := by
  unfold Index.find
  by_cases hi : item = []
  · simp [hi]
  · rw [if_neg hi, slotOf_none]; simp [hi]

theorem find_eq {s : Index} (hu : Uniq s.slots) {i : Nat} {r : Row} (h : s.slots[i]? = some (some r))
    (hne : r.2.itemId ≠ []) : s.find r.2.itemId = some i := by
  cases hf : s.find r.2.itemId with
  | none =>
    rcases find_none.mp hf with h' | h'
    · exact absurd h' hne
    · exact absurd rfl (h' r (List.mem_of_getElem? h))
  | some j =>
    obtain ⟨_, r', h1, h2⟩ := find_some hf
    rw [hu i j r r' h h1 h2.symm hne]

theorem get_some_iff {s : Index} (hu : Uniq s.slots) {item : Bytes} {r : Row} :
    s.get item = some r ↔ item ≠ [] ∧ some r ∈ s.slots ∧ r.2.itemId = item := by
  constructor
  · intro h
    unfold Index.get at h
    cases hf : s.find item with
    | none => rw [hf] at h; cases h
    | some i =>
      rw [hf] at h
      obtain ⟨h1, r', h2, h3⟩ := find_some hf
      simp only [h2, Option.join_some, Option.some.injEq] at h
      subst h
      exact ⟨h1, List.mem_of_getElem? h2, h3⟩
  · rintro ⟨h1, h2, rfl⟩
    obtain ⟨i, hi⟩ := List.mem_iff_getElem?.mp h2
    unfold Index.get
    rw [find_eq hu hi h1]
    simp [hi]

theorem get_none_iff {s : Index} {item : Bytes} : s.get item = none ↔ s.find item = none := by
  unfold Index.get
  cases hf : s.find item with
  | none => simp
  | some i =>
    obtain ⟨_, r, h, _⟩ := find_some hf
    simp [h]

theorem contains_eq {s : Index} {item : Bytes} : s.contains item = (s.get item).isSome := by
  unfold Index.contains
  cases hg : s.get item with
  | none => rw [get_none_iff.mp hg]; rfl
  | some r =>
    cases hf : s.find item with
    | none => rw [get_none_iff.mpr hf] at hg; cases hg
    | some i => rfl

/-- Two contents with the same live rows give the same lookups. -/
theorem get_congr {s s' : Index} (hu : Uniq s.slots) (hu' : Uniq s'.slots) {item item' : Bytes}
    (h : ∀ r, (item ≠ [] ∧ some r ∈ s.slots ∧ r.2.itemId = item) ↔ (item' ≠ [] ∧ some r ∈ s'.slots ∧ r.2.itemId = item')) :
    s.get item = s'.get item' := by
  cases hg : s.get item with
  | some r => exact ((get_some_iff hu').mpr ((h r).mp ((get_some_iff hu).mp hg))).symm
  | none =>
    cases hg' : s'.get item' with
    | none => rfl
    | some r =>
      rw [(get_some_iff hu).mpr ((h r).mpr ((get_some_iff hu').mp hg'))] at hg
      cases hg

/-- A successful insert. -/
theorem insertNd_slots {s s' : Index} {row : Row} {i : Nat} (h : s.insertNd row = some (s', some i)) :
    s' = { s with slots := s.slots ++ [some row] } ∧ i = s.slots.length ∧ s.find row.2.itemId = none ∧ s.slots.length < s.cap := by
  unfold Index.insertNd at h
  by_cases hc : s.contains row.2.itemId = true
  · rw [if_pos hc] at h; cases h
  · rw [if_neg hc] at h
    by_cases hl : s.slots.length ≥ s.cap
    · rw [if_pos hl] at h; simp at h
    · rw [if_neg hl] at h
      simp only [Option.some.injEq, Prod.mk.injEq] at h
      refine ⟨h.1.symm, h.2.symm, ?_, by omega⟩
      unfold Index.contains at hc
      cases hf : s.find row.2.itemId with
      | none => rfl
      | some j => rw [hf] at hc; simp at hc

theorem append_uniq {l : List (Option Row)} (hu : Uniq l) {row : Row}
    (h : row.2.itemId = [] ∨ ∀ r, some r ∈ l → r.2.itemId ≠ row.2.itemId) : Uniq (l ++ [some row]) := by
  have key : ∀ (i : Nat) (r : Row), (l ++ [some row])[i]? = some (some r) →
      l[i]? = some (some r) ∨ (i = l.length ∧ r = row) := by
    intro i r hi
    by_cases hl : i < l.length
    · rw [List.getElem?_append_left hl] at hi; exact Or.inl hi
    · rw [List.getElem?_append_right (by omega)] at hi
      have hlt : i - l.length < [some row].length := by
        rcases Nat.lt_or_ge (i - l.length) [some row].length with h' | h'
        · exact h'
        · rw [List.getElem?_eq_none h'] at hi; cases hi
      have h0 : i - l.length = 0 := by simpa using hlt
      rw [h0] at hi
      simp at hi
      exact Or.inr ⟨by omega, hi.symm⟩
  intro i j r r' hi hj he hne
  rcases key i r hi with hi1 | ⟨hi1, e1⟩ <;> rcases key j r' hj with hj1 | ⟨hj1, e2⟩
  · exact hu i j r r' hi1 hj1 he hne
  · rcases h with h | h
    · rw [he, e2] at hne; exact absurd h hne
    · exact absurd (he.trans (by rw [e2])) (h r (List.mem_of_getElem? hi1))
  · rcases h with h | h
    · rw [e1] at hne; exact absurd h hne
    · exact absurd (he.symm.trans (by rw [e1])) (h r' (List.mem_of_getElem? hj1))
  · omega

theorem insertNd_uniq {s s' : Index} (hu : Uniq s.slots) {row : Row} {i : Nat}
    (h : s.insertNd row = some (s', some i)) : Uniq s'.slots := by
  obtain ⟨rfl, _, hf, _⟩ := insertNd_slots h
  exact append_uniq hu (find_none.mp hf)

theorem insertNd_get {s s' : Index} (hu : Uniq s.slots) {row : Row} {i : Nat}
    (h : s.insertNd row = some (s', some i)) (k : Bytes) :
    s'.get k = if row.2.itemId = k ∧ k ≠ [] then some row else s.get k := by
  have hu' := insertNd_uniq hu h
  obtain ⟨rfl, _, hf, _⟩ := insertNd_slots h
  by_cases hk : row.2.itemId = k ∧ k ≠ []
  · rw [if_pos hk]
    rw [get_some_iff hu']
    exact ⟨hk.2, by simp, hk.1⟩
  · rw [if_neg hk]
    apply get_congr hu' hu
    intro r
    simp only [List.mem_append, List.mem_singleton, Option.some.injEq]
    constructor
    · rintro ⟨h1, h2 | rfl, h3⟩
      · exact ⟨h1, h2, h3⟩
      · exact absurd ⟨h3, h1⟩ hk
    · rintro ⟨h1, h2, h3⟩; exact ⟨h1, Or.inl h2, h3⟩

theorem set_none_get {l : List (Option Row)} {i j : Nat} {r : Row} (h : (l.set i none)[j]? = some (some r)) :
    j ≠ i ∧ l[j]? = some (some r) := by
  rw [List.getElem?_set] at h
  by_cases hij : i = j
  · rw [if_pos hij] at h
    by_cases hl : i < l.length
    · rw [if_pos hl] at h; cases h
    · rw [if_neg hl] at h; cases h
  · rw [if_neg hij] at h; exact ⟨fun e => hij e.symm, h⟩

theorem set_none_uniq {l : List (Option Row)} (hu : Uniq l) (i : Nat) : Uniq (l.set i none) := by
  intro a b r r' ha hb
  exact hu a b r r' (set_none_get ha).2 (set_none_get hb).2

theorem mem_set_none {l : List (Option Row)} {i : Nat} {r : Row} :
    some r ∈ l.set i none ↔ ∃ j, j ≠ i ∧ l[j]? = some (some r) := by
  rw [List.mem_iff_getElem?]
  constructor
  · rintro ⟨j, hj⟩; exact ⟨j, set_none_get hj⟩
  · rintro ⟨j, hne, hj⟩
    refine ⟨j, ?_⟩
    rw [List.getElem?_set, if_neg (fun e => hne e.symm)]; exact hj

theorem removeItem_slots {s s' : Index} {item : Bytes} (h : s.removeItem item = some s') :
    ∃ i, s.find item = some i ∧ s' = { s with slots := s.slots.set i none } := by
  unfold Index.removeItem at h
  cases hf : s.find item with
  | none => rw [hf] at h; cases h
  | some i => rw [hf] at h; exact ⟨i, rfl, by simpa using h.symm⟩

theorem removeItem_uniq {s s' : Index} (hu : Uniq s.slots) {item : Bytes} (h : s.removeItem item = some s') :
    Uniq s'.slots := by
  obtain ⟨i, _, rfl⟩ := removeItem_slots h
  exact set_none_uniq hu i

theorem removeItem_get {s s' : Index} (hu : Uniq s.slots) {item : Bytes} (h : s.removeItem item = some s') (k : Bytes) :
    s'.get k = if k = item then none else s.get k := by
  have hu' := removeItem_uniq hu h
  obtain ⟨i, hf, rfl⟩ := removeItem_slots h
  obtain ⟨hne, r0, h0, h1⟩ := find_some hf
  by_cases hk : k = item
  · rw [if_pos hk, get_none_iff, find_none]
    right
    intro r hr he
    obtain ⟨j, hj, hj'⟩ := mem_set_none.mp hr
    exact hj (hu j i r r0 hj' h0 (by rw [he, h1, hk]) (by rw [he, hk]; exact hne))
  · rw [if_neg hk]
    apply get_congr hu' hu
    intro r
    constructor
    · rintro ⟨h2, h3, h4⟩
      obtain ⟨j, _, hj'⟩ := mem_set_none.mp h3
      exact ⟨h2, List.mem_of_getElem? hj', h4⟩
    · rintro ⟨h2, h3, h4⟩
      obtain ⟨j, hj⟩ := List.mem_iff_getElem?.mp h3
      refine ⟨h2, mem_set_none.mpr ⟨j, ?_, hj⟩, h4⟩
      intro e
      subst e
      rw [h0] at hj
      cases hj
      exact hk (h4.symm.trans h1)

theorem removeId_uniq {s s' : Index} (hu : Uniq s.slots) {id : Nat} (h : s.removeId id = some s') : Uniq s'.slots := by
  unfold Index.removeId at h
  by_cases hl : id < s.slots.length
  · rw [if_pos hl] at h; cases h; exact set_none_uniq hu id
  · rw [if_neg hl] at h; cases h

/-- `upsert` of an existing item. -/
theorem upsertNd_existing {s : Index} (hu : Uniq s.slots) {row : Row} {old : Row} (h : s.get row.2.itemId = some old) :
    ∃ s1, s.removeItem row.2.itemId = some s1 ∧ s.upsertNd row = s1.insertNd row ∧ s1.find row.2.itemId = none := by
  have hc : s.contains row.2.itemId = true := by rw [contains_eq, h]; rfl
  have hrm : ∃ s1, s.removeItem row.2.itemId = some s1 := by
    unfold Index.contains at hc
    unfold Index.removeItem
    cases hf : s.find row.2.itemId with
    | none => rw [hf] at hc; cases hc
    | some i => exact ⟨_, rfl⟩
  obtain ⟨s1, hs1⟩ := hrm
  have hfn : s1.find row.2.itemId = none := by
    rw [← get_none_iff, removeItem_get hu hs1, if_pos rfl]
  refine ⟨s1, hs1, ?_, hfn⟩
  unfold Index.upsertNd
  rw [if_pos hc]
  simp only [h, hs1]
  cases hin : s1.insertNd row with
  | some r => rfl
  | none => cases s1.insertNd old <;> rfl

theorem upsertNd_new {s : Index} {row : Row} (h : s.get row.2.itemId = none) : s.upsertNd row = s.insertNd row := by
  unfold Index.upsertNd
  rw [if_neg (by rw [contains_eq, h]; decide)]

theorem insertNd_not_dup {s : Index} {row : Row} (h : s.find row.2.itemId = none) :
    s.insertNd row = if s.slots.length ≥ s.cap then some (s, none)
      else some ({ s with slots := s.slots ++ [some row] }, some s.slots.length) := by
  unfold Index.insertNd Index.contains
  rw [if_neg (by rw [h]; decide)]

/-- Below capacity an upsert succeeds. -/
theorem upsertNd_room {s : Index} (hu : Uniq s.slots) (row : Row) (hroom : s.slots.length < s.cap) :
    ∃ s' i, s.upsertNd row = some (s', some i) ∧ Uniq s'.slots ∧ s'.slots.length = s.slots.length + 1 ∧ s'.cap = s.cap ∧
      s'.vecLen = s.vecLen ∧
      ∀ k, s'.get k = if row.2.itemId = k ∧ k ≠ [] then some row else s.get k := by
  cases hg : s.get row.2.itemId with
  | none =>
    rw [upsertNd_new hg]
    have hi := insertNd_not_dup (get_none_iff.mp hg)
    rw [if_neg (by omega)] at hi
    exact ⟨_, _, hi, insertNd_uniq hu hi, by simp, rfl, rfl, insertNd_get hu hi⟩
  | some old =>
    obtain ⟨s1, h1, h2, h3⟩ := upsertNd_existing hu hg
    have hu1 := removeItem_uniq hu h1
    have hget := removeItem_get hu h1
    obtain ⟨i, _, hs1⟩ := removeItem_slots h1
    have hlen : s1.slots.length = s.slots.length := by rw [hs1]; simp
    have hcap : s1.cap = s.cap := by rw [hs1]
    have hvl : s1.vecLen = s.vecLen := by rw [hs1]
    have hi := insertNd_not_dup h3
    rw [if_neg (by omega)] at hi
    rw [h2]
    refine ⟨_, _, hi, insertNd_uniq hu1 hi, by simp [hlen], hcap, hvl, ?_⟩
    intro k
    rw [insertNd_get hu1 hi k, hget k]
    by_cases hk : row.2.itemId = k ∧ k ≠ []
    · rw [if_pos hk, if_pos hk]
    · rw [if_neg hk, if_neg hk]
      by_cases hk' : k = row.2.itemId
      · have : k = [] := by
          rcases Classical.em (k = []) with h | h
          · exact h
          · exact absurd ⟨hk'.symm, h⟩ hk
        exfalso
        rw [← hk', this] at hg
        have := ((get_some_iff hu).mp hg).1
        exact this rfl
      · rw [if_neg hk']

/-- Every call keeps the item ids unique. -/
theorem insertNd_uniq' {s s' : Index} (hu : Uniq s.slots) {row : Row} {o : Option Nat}
    (h : s.insertNd row = some (s', o)) : Uniq s'.slots := by
  cases o with
  | some i => exact insertNd_uniq hu h
  | none =>
    unfold Index.insertNd at h
    split at h
    · cases h
    · split at h
      · simp only [Option.some.injEq, Prod.mk.injEq, and_true] at h; rw [← h]; exact hu
      · simp at h

theorem upsertNd_uniq {s s' : Index} (hu : Uniq s.slots) {row : Row} {o : Option Nat}
    (h : s.upsertNd row = some (s', o)) : Uniq s'.slots := by
  cases hg : s.get row.2.itemId with
  | none => rw [upsertNd_new hg] at h; exact insertNd_uniq' hu h
  | some old =>
    obtain ⟨s1, h1, h2, h3⟩ := upsertNd_existing hu hg
    rw [h2] at h
    exact insertNd_uniq' (removeItem_uniq hu h1) h

theorem exec_uniq {s s' : Index} (hu : Uniq s.slots) {c : Call} (h : s.exec c = some s') : Uniq s'.slots := by
  cases c with
  | insert ef row =>
    simp only [Index.exec, Option.map_eq_some_iff] at h
    obtain ⟨⟨a, o⟩, h1, rfl⟩ := h
    exact insertNd_uniq' hu h1
  | upsert ef row =>
    simp only [Index.exec, Option.map_eq_some_iff] at h
    obtain ⟨⟨a, o⟩, h1, rfl⟩ := h
    exact upsertNd_uniq hu h1
  | removeItem item => exact removeItem_uniq hu h
  | removeId id => exact removeId_uniq hu h

/-! Payloads. -/

theorem serEntries_mem_length {m : MetaMap} {k : Bytes} {v : MetaValue} (h : (k, v) ∈ m) :
    k.length + (serValue v).length ≤ (serEntries m).length := by
  induction m with
  | nil => cases h
  | cons e rest ih =>
    obtain ⟨k', v'⟩ := e
    unfold serEntries
    simp only [List.length_append, serString]
    rcases List.mem_cons.mp h with h | h
    · cases h; omega
    · have := ih h; omega

theorem serEntries_length (m : MetaMap) : m.length ≤ (serEntries m).length := by
  induction m with
  | nil => simp
  | cons e rest ih =>
    obtain ⟨k', v'⟩ := e
    unfold serEntries
    simp only [List.length_append, serString, List.length_cons, leBytes_length]
    omega

/-- A record whose stored form is below 4 GiB is storable. -/
theorem storable_of_length {r : ScalarData} (hu : (r.metadata.map Prod.fst).Nodup) (h : r.serialize.length < 2 ^ 32) :
    Storable r := by
  have h' : (4 + r.itemId.length) + (4 + r.document.length) + (4 + (serEntries r.metadata).length) < 2 ^ 32 := by
    unfold ScalarData.serialize serMetadata serString at h
    simp only [List.length_append, leBytes_length] at h
    omega
  have hl := serEntries_length r.metadata
  refine ⟨by omega, by omega, by omega, ?_, hu⟩
  intro k v hkv
  have hm := serEntries_mem_length hkv
  refine ⟨by omega, ?_⟩
  rintro s rfl
  have : (serValue (.string s)).length = 1 + (4 + s.length) := by simp [serValue, serString]; omega
  omega

/-- What the C++ types guarantee about a call: a 32-bit `ef`, a vector of the index dimension, a 64-bit id; metadata is
a map. -/
def Call.WF (vecLen : Nat) : Call → Prop
  | .insert ef row => ef < 2 ^ 32 ∧ row.1.length = vecLen ∧ (row.2.metadata.map Prod.fst).Nodup
  | .upsert ef row => ef < 2 ^ 32 ∧ row.1.length = vecLen ∧ (row.2.metadata.map Prod.fst).Nodup
  | .removeItem _ => True
  | .removeId id => id < 2 ^ 64

theorem readAll_row (ef : Nat) (row : Row) (hef : ef < 2 ^ 32)
    (hlen : (BinIO.writeAll [.u32 ef, .blob row.1, .blob row.2.serialize]).length ≤ 2 ^ 30) :
    (BinIO.readAll [.u32, .blob, .blob] ⟨BinIO.writeAll [.u32 ef, .blob row.1, .blob row.2.serialize], 0⟩).1 =
      [.ok (.u32 ef), .ok (.blob row.1), .ok (.blob row.2.serialize)] := by
  have h := BinIO.C08_roundtrip [.u32 ef, .blob row.1, .blob row.2.serialize] [] (by
    intro v hv
    simp only [List.mem_cons, List.not_mem_nil, or_false] at hv
    rcases hv with rfl | rfl | rfl
    · exact hef
    · trivial
    · trivial) (by rw [List.append_nil]; omega)
  rw [List.append_nil] at h
  have h2 := congrArg Prod.fst h
  simpa [BinIO.opOf] using h2

theorem row_serialize_length (ef : Nat) (row : Row)
    (hlen : (BinIO.writeAll [.u32 ef, .blob row.1, .blob row.2.serialize]).length ≤ 2 ^ 30) :
    row.2.serialize.length < 2 ^ 32 := by
  rw [BinIO.writeAll_eq] at hlen
  simp only [List.map_cons, List.map_nil, List.flatten_cons, List.flatten_nil, List.length_append, BinIO.encVal] at hlen
  omega

/-- The log payload determines the call. -/
theorem decode_encode (vecLen : Nat) (c : Call) (hwf : c.WF vecLen) (hlen : c.payload.length ≤ 2 ^ 30) :
    decode vecLen c.kind c.payload = some c := by
  cases c with
  | insert ef row =>
    obtain ⟨h1, h2, h3⟩ := hwf
    simp only [Call.kind, Call.payload, decode] at hlen ⊢
    rw [readAll_row ef row h1 hlen]
    have hs := C03_roundtrip row.2 [] (storable_of_length h3 (row_serialize_length ef row hlen))
    rw [List.append_nil] at hs
    simp only [hs]
    rw [if_neg (by simp [h2])]
  | upsert ef row =>
    obtain ⟨h1, h2, h3⟩ := hwf
    simp only [Call.kind, Call.payload, decode] at hlen ⊢
    rw [readAll_row ef row h1 hlen]
    have hs := C03_roundtrip row.2 [] (storable_of_length h3 (row_serialize_length ef row hlen))
    rw [List.append_nil] at hs
    simp only [hs]
    rw [if_neg (by simp [h2])]
  | removeItem item =>
    have h := BinIO.C08_roundtrip [.string item] [] (by simp [BinIO.Fits]) (by
      rw [List.append_nil]; simp only [Call.payload] at hlen; omega)
    rw [List.append_nil] at h
    have h2 := congrArg Prod.fst h
    simp only [List.map_cons, List.map_nil, BinIO.opOf] at h2
    simp only [Call.kind, Call.payload, decode, h2]
  | removeId id =>
    have h := BinIO.C08_roundtrip [.u64 id] [] (by simpa [BinIO.Fits] using (show id < 2 ^ 64 from hwf)) (by
      rw [List.append_nil]; simp only [Call.payload] at hlen; omega)
    rw [List.append_nil] at h
    have h2 := congrArg Prod.fst h
    simp only [List.map_cons, List.map_nil, BinIO.opOf] at h2
    simp only [Call.kind, Call.payload, decode, h2]

theorem replay_of_exec {s s' : Index} {c : Call} (h : s.exec c = some s') : s.replay c = some s' := by
  cases c with
  | insert ef row => exact h
  | upsert ef row => exact h
  | removeItem item =>
    simp only [Index.exec, Index.replay] at *
    have hc : s.contains item = true := by
      unfold Index.contains
      unfold Index.removeItem at h
      cases hf : s.find item with
      | none => rw [hf] at h; cases h
      | some i => rfl
    rw [if_pos hc]; exact h
  | removeId id =>
    simp only [Index.exec, Index.replay] at *
    by_cases hl : id < s.slots.length
    · rw [if_pos hl]; exact h
    · unfold Index.removeId at h; rw [if_neg hl] at h; cases h

theorem sem_ok : Recovery.SemOk sem := by
  intro s kind payload s' h
  simp only [sem] at *
  cases hd : decode s.vecLen kind payload with
  | none => rw [hd] at h; cases h
  | some c => rw [hd] at h; exact replay_of_exec h

theorem insertNd_vecLen {s s' : Index} {row : Row} {o : Option Nat} (h : s.insertNd row = some (s', o)) :
    s'.vecLen = s.vecLen ∧ s'.cap = s.cap ∧ s'.slots.length ≤ s.slots.length + 1 := by
  unfold Index.insertNd at h
  split at h
  · cases h
  · split at h
    · simp only [Option.some.injEq, Prod.mk.injEq] at h; rw [← h.1]; exact ⟨rfl, rfl, by omega⟩
    · simp only [Option.some.injEq, Prod.mk.injEq] at h; rw [← h.1]; exact ⟨rfl, rfl, by simp⟩

theorem removeItem_vecLen {s s' : Index} {item : Bytes} (h : s.removeItem item = some s') :
    s'.vecLen = s.vecLen ∧ s'.cap = s.cap ∧ s'.slots.length = s.slots.length := by
  obtain ⟨i, _, rfl⟩ := removeItem_slots h
  exact ⟨rfl, rfl, by simp⟩

theorem upsertNd_vecLen {s s' : Index} (hu : Uniq s.slots) {row : Row} {o : Option Nat} (h : s.upsertNd row = some (s', o)) :
    s'.vecLen = s.vecLen ∧ s'.cap = s.cap ∧ s'.slots.length ≤ s.slots.length + 1 := by
  cases hg : s.get row.2.itemId with
  | none => rw [upsertNd_new hg] at h; exact insertNd_vecLen h
  | some old =>
    obtain ⟨s1, h1, h2, _⟩ := upsertNd_existing hu hg
    rw [h2] at h
    have := insertNd_vecLen h
    have h' := removeItem_vecLen h1
    exact ⟨this.1.trans h'.1, this.2.1.trans h'.2.1, by omega⟩

theorem exec_vecLen {s s' : Index} (hu : Uniq s.slots) {c : Call} (h : s.exec c = some s') :
    s'.vecLen = s.vecLen ∧ s'.cap = s.cap ∧ s'.slots.length ≤ s.slots.length + 1 := by
  cases c with
  | insert ef row =>
    simp only [Index.exec, Option.map_eq_some_iff] at h
    obtain ⟨⟨a, o⟩, h1, rfl⟩ := h
    exact insertNd_vecLen h1
  | upsert ef row =>
    simp only [Index.exec, Option.map_eq_some_iff] at h
    obtain ⟨⟨a, o⟩, h1, rfl⟩ := h
    exact upsertNd_vecLen hu h1
  | removeItem item => have := removeItem_vecLen h; exact ⟨this.1, this.2.1, by omega⟩
  | removeId id =>
    simp only [Index.exec, Index.removeId] at h
    split at h
    · cases h; exact ⟨rfl, rfl, by simp⟩
    · cases h

end Alaya.Py
