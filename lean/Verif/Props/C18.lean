import Verif.Props.C17

/-! C18: the record count equals the number of stored records. -/
namespace Alaya
open Spec

/-- Ids (below the bound of the id type) that hold a record. -/
def validIds (cfg : StoreCfg) (s : Store) : List Nat :=
  (List.range cfg.id.bound).filter fun id => s.isValid cfg id

/-- A strictly ascending list of ids below `n` is the filtered range. -/
theorem asc_eq_filter_range (l : List Nat) (hl : l.Pairwise (· < ·)) (n : Nat) (hn : ∀ x ∈ l, x < n) :
    (List.range n).filter (fun i => decide (i ∈ l)) = l := by
  have ext : ∀ {a b : List Nat}, a.Pairwise (· < ·) → b.Pairwise (· < ·) → (∀ x, x ∈ a ↔ x ∈ b) → a = b := by
    intro a
    induction a with
    | nil =>
      intro b _ _ h
      cases b with
      | nil => rfl
      | cons y b => exact absurd ((h y).2 (by simp)) (by simp)
    | cons x a ih =>
      intro b ha hb h
      cases b with
      | nil => exact absurd ((h x).1 (by simp)) (by simp)
      | cons y b =>
        rw [List.pairwise_cons] at ha hb
        have hxy : x = y := by
          rcases List.mem_cons.1 ((h x).1 (by simp)) with h1 | h1
          · exact h1
          · rcases List.mem_cons.1 ((h y).2 (by simp)) with h2 | h2
            · exact h2.symm
            · have := hb.1 x h1
              have := ha.1 y h2
              omega
        subst hxy
        congr 1
        apply ih ha.2 hb.2
        intro e
        constructor
        · intro he
          rcases List.mem_cons.1 ((h e).1 (by simp [he])) with h1 | h1
          · subst h1; exact absurd (ha.1 e he) (by omega)
          · exact h1
        · intro he
          rcases List.mem_cons.1 ((h e).2 (by simp [he])) with h1 | h1
          · subst h1; exact absurd (hb.1 e he) (by omega)
          · exact h1
  apply ext
  · exact List.Pairwise.sublist List.filter_sublist List.pairwise_lt_range
  · exact hl
  · intro x
    rw [List.mem_filter, List.mem_range, decide_eq_true_eq]
    exact ⟨fun h => h.2, fun h => ⟨hn x h, h⟩⟩

/-- In every represented state `count()` is the number of ids with a record. -/
theorem C18_count_eq_valid (cfg : StoreCfg) (s : Store) (m : RecordMap) (h : Represents cfg s m) :
    s.count = (validIds cfg s).length := by
  have hv : validIds cfg s = m.map Prod.fst := by
    rw [← asc_eq_filter_range (m.map Prod.fst) (by rw [List.pairwise_map]; exact h.rel.asc) cfg.id.bound]
    · unfold validIds
      apply List.filter_congr
      intro id hid
      rw [List.mem_range] at hid
      rw [isValid_spec h.rel hid, Bool.eq_iff_iff, decide_eq_true_eq, List.mem_map]
      constructor
      · intro hs
        obtain ⟨r, hr⟩ := Option.isSome_iff_exists.1 hs
        exact ⟨(id, r), (RecordMap.mem_iff_get h.rel.asc _ _).2 hr, rfl⟩
      · rintro ⟨⟨a, r⟩, ha, rfl⟩
        rw [(RecordMap.mem_iff_get h.rel.asc _ _).1 ha]; rfl
    · intro x hx
      obtain ⟨⟨a, r⟩, ha, rfl⟩ := List.mem_map.1 hx
      exact (h.rel.ids a r ((RecordMap.mem_iff_get h.rel.asc _ _).1 ha)).1
  rw [hv, List.length_map]; exact h.count

example : Represents sampleCfg Store.empty [] := repr_empty _

/-- After every history of calls (including flushes and clean reopens) on a fresh store, `count()` is the
number of ids with a record. The full property also ranges over crashes, where it fails (below). -/
theorem C18_count_history_partial (cfg : StoreCfg) (hc : cfg.id.Ok) (ops : List StoreOp)
    (hok : ∀ op ∈ ops, OpOk cfg op) (hsz : (ops.map opSize).sum < 2 ^ 64) (s : Store) (rets : List Bool)
    (hrun : Store.empty.run cfg ops = .ok (s, rets)) : s.count = (validIds cfg s).length := by
  obtain ⟨s', h1, h2⟩ := C17_history_refines cfg hc ops hok hsz
  rw [hrun] at h1
  injection h1 with h1
  rw [Prod.mk.injEq] at h1
  obtain ⟨rfl, _⟩ := h1
  exact C18_count_eq_valid cfg s _ h2

example : (∀ op ∈ sampleOps, OpOk sampleCfg op) ∧ (sampleOps.map opSize).sum < 2 ^ 64 :=
  ⟨sampleOps_ok, by decide⟩

/-- After a crash the count is the one of the last flush: the record is there, the count is 0. -/
theorem C18_count_crash_refuted : ∃ s rets,
    Store.empty.run sampleCfg [.insert 1 ⟨str "x", [], []⟩] = .ok (s, rets) ∧
    s.crashReopen.isValid sampleCfg 1 = true ∧ s.crashReopen.count = 0 := by
  refine ⟨⟨[(dataKey cfg32 1, ScalarData.serialize ⟨str "x", [], []⟩), (itemKey (str "x"), leBytes 4 1)], 1⟩,
    [true], by decide, by decide, by decide⟩

end Alaya
