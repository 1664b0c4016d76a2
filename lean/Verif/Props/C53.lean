import Verif.Props.C52
import Verif.Props.C12

/-! C53: recovery reproduces the logical state. -/
namespace Alaya.Py
open Wal Recovery

/-- What happens before the crash. -/
inductive Ev where
  | call (c : Call)
  | save (dt : Nat)
  deriving DecidableEq, Repr

/-- Where the crash happens. -/
inductive Crash where
  | idle (cut : Nat)
  | inCall (c : Call) (cut : Nat)
  | inSave (dt j cut : Nat)
  deriving DecidableEq, Repr

def Ev.event : Ev → Event
  | .call c => .op c.kind c.payload
  | .save dt => .checkpoint dt

def Crash.event : Crash → Event
  | .idle cut => .crash cut
  | .inCall c cut => .opCrash c.kind c.payload cut
  | .inSave dt j cut => .checkpointCrash dt j cut

/-- The calls of a history are calls the C++ types allow. -/
def Ev.WF (vecLen : Nat) : Ev → Prop
  | .call c => c.WF vecLen
  | .save _ => True

def Crash.WF (vecLen : Nat) : Crash → Prop
  | .inCall c _ => c.WF vecLen
  | _ => True

/-- A call on the running index: it takes effect or throws (a payload above 2^30 bytes is refused by the log). -/
def Index.live (s : Index) (c : Call) : Index := if c.payload.length > 2 ^ 30 then s else (s.exec c).getD s

/-- The running index after the history. -/
def Index.after (s : Index) : List Ev → Index
  | [] => s
  | .call c :: es => (s.live c).after es
  | .save _ :: es => s.after es

theorem live_props {s : Index} (hu : Uniq s.slots) (c : Call) :
    Uniq (s.live c).slots ∧ (s.live c).vecLen = s.vecLen ∧ (s.live c).cap = s.cap ∧ (s.live c).slots.length ≤ s.slots.length + 1 := by
  unfold Index.live
  split
  · exact ⟨hu, rfl, rfl, by omega⟩
  · cases h : s.exec c with
    | none => exact ⟨hu, rfl, rfl, by simp⟩
    | some s' => exact ⟨exec_uniq hu h, exec_vecLen hu h⟩

theorem effect_eq {s : Index} {c : Call} (hwf : c.WF s.vecLen) : effect sem s c.kind c.payload = s.live c := by
  unfold effect Index.live
  by_cases hl : c.payload.length > 2 ^ 30
  · rw [if_pos hl]
    split <;> rfl
  · rw [if_neg hl]
    have hd := decode_encode s.vecLen c hwf (by omega)
    simp only [sem, hd, Option.bind_some]
    by_cases hr : s.refuses c = true
    · rw [if_pos hr]
      cases c with
      | insert ef row =>
        simp only [Index.refuses] at hr
        simp only [Index.exec, Index.insertNd]
        rw [if_pos hr, if_neg hl]; rfl
      | _ => cases hr
    · rw [if_neg hr, if_neg hl]
      cases s.exec c <;> rfl

theorem specRun_retries {p q : Index × Bool} (hp : p.2 = false) (rs : List (Nat × Nat × Nat))
    (h : SpecRun sem p (rs.map fun r => Event.recoverCrash r.1 r.2.1 r.2.2) q) : q = p := by
  induction rs generalizing p with
  | nil => exact h
  | cons r rs ih =>
    obtain ⟨r1, h1, h2⟩ := h
    simp only [specNext, List.mem_singleton] at h1
    subst h1
    exact ih hp h2

theorem specRun_history {s : Index} (hu : Uniq s.slots) (hist : List Ev) (crash : Crash) (rs : List (Nat × Nat × Nat))
    (hwf : ∀ e ∈ hist, e.WF s.vecLen) (hwf' : crash.WF s.vecLen) {q : Index × Bool}
    (h : SpecRun sem (s, true) (hist.map Ev.event ++ crash.event :: rs.map fun r => Event.recoverCrash r.1 r.2.1 r.2.2) q) :
    q = (s.after hist, false) ∨ ∃ c cut, crash = .inCall c cut ∧ q = ((s.after hist).live c, false) := by
  induction hist generalizing s with
  | nil =>
    obtain ⟨r1, h1, h2⟩ := h
    cases crash with
    | idle cut =>
      simp only [Crash.event, specNext, List.mem_singleton] at h1
      subst h1
      exact Or.inl (specRun_retries rfl rs h2)
    | inSave dt j cut =>
      simp only [Crash.event, specNext, List.mem_singleton] at h1
      subst h1
      exact Or.inl (specRun_retries rfl rs h2)
    | inCall c cut =>
      simp only [Crash.event, specNext, if_true, List.mem_cons, List.not_mem_nil, or_false] at h1
      rcases h1 with h1 | h1
      · subst h1
        exact Or.inl (specRun_retries rfl rs h2)
      · rw [effect_eq hwf'] at h1
        subst h1
        exact Or.inr ⟨c, cut, rfl, specRun_retries rfl rs h2⟩
  | cons e es ih =>
    obtain ⟨r1, h1, h2⟩ := h
    cases e with
    | save dt =>
      simp only [Ev.event, specNext, List.mem_singleton] at h1
      subst h1
      exact ih hu (fun x hx => hwf x (by simp [hx])) hwf' h2
    | call c =>
      have hc : c.WF s.vecLen := hwf (.call c) (by simp)
      simp only [Ev.event, specNext, if_true, List.mem_singleton] at h1
      rw [effect_eq hc] at h1
      subst h1
      obtain ⟨p1, p2, _, _⟩ := live_props hu c
      exact ih p1 (fun x hx => by rw [p2]; exact hwf x (by simp [hx])) (by rw [p2]; exact hwf') h2

/-- For every index content, every history of calls and snapshots, every crash point and any number of crashes during
the following starts: `load` succeeds and looking up any item id gives exactly the vector and record which the running
index had after the returned calls; a call interrupted by the crash may have taken effect as a whole. -/
theorem C53_recovered_lookup (s : Index) (hu : Uniq s.slots) (ms : Nat) (hist : List Ev) (crash : Crash)
    (retries : List (Nat × Nat × Nat)) (hwf : ∀ e ∈ hist, e.WF s.vecLen) (hwf' : crash.WF s.vecLen)
    (hok : HistoryOk ms (hist.map Ev.event ++ crash.event :: retries.map fun r => Event.recoverCrash r.1 r.2.1 r.2.2)) :
    ∃ y m b, run sem (afterFit s ms)
        (hist.map Ev.event ++ crash.event :: retries.map fun r => Event.recoverCrash r.1 r.2.1 r.2.2) = some y ∧
      loadMem sem y.disk = some (m, b) ∧
      ((∀ item, m.state.get item = (s.after hist).get item) ∨
        ∃ c cut, crash = .inCall c cut ∧ ∀ item, m.state.get item = ((s.after hist).live c).get item) := by
  obtain ⟨y, q, h1, h2, h3, h4⟩ := acked_survive_mem sem sem_ok s ms _ hok (clean_of_no_recover sem _ _ (by
    intro e he dt
    rcases List.mem_append.mp he with he | he
    · obtain ⟨x, _, rfl⟩ := List.mem_map.mp he
      cases x <;> simp [Ev.event]
    · rcases List.mem_cons.mp he with rfl | he
      · cases crash <;> simp [Crash.event]
      · obtain ⟨x, _, rfl⟩ := List.mem_map.mp he
        simp))
  have hq := specRun_history hu hist crash retries hwf hwf' h2
  have hfalse : q.2 = false := by
    rcases hq with rfl | ⟨c, cut, _, rfl⟩ <;> rfl
  have hmem := h4 hfalse
  unfold Content at h3
  rw [hmem] at h3
  obtain ⟨m, b, h5, h6⟩ := h3
  refine ⟨y, m, b, h1, h5, ?_⟩
  rcases hq with rfl | ⟨c, cut, hc, rfl⟩
  · exact Or.inl (fun item => by rw [h6])
  · exact Or.inr ⟨c, cut, hc, fun item => by rw [h6]⟩

/-- A crash inside an upsert that follows a snapshot and two further calls, then two crashed starts. -/
def sampleHist : List Ev := [.call (.insert 10 rowA), .save 3, .call (.insert 10 rowB), .call (.removeItem (str "a"))]

example : Uniq ([] : List (Option Row)) ∧ (∀ e ∈ sampleHist, e.WF 4) ∧ (Crash.inCall (.upsert 10 rowA') 150).WF 4 ∧
    HistoryOk 7 (sampleHist.map Ev.event ++ (Crash.inCall (.upsert 10 rowA') 150).event ::
      [(1, 0, 0), (2, 3, 0)].map fun r => Event.recoverCrash r.1 r.2.1 r.2.2) := by
  refine ⟨uniq_nil, ?_, ⟨by decide, by decide, by decide⟩, by decide⟩
  intro e he
  simp only [sampleHist, List.mem_cons, List.not_mem_nil, or_false] at he
  rcases he with rfl | rfl | rfl | rfl
  · exact ⟨by decide, by decide, by decide⟩
  · trivial
  · exact ⟨by decide, by decide, by decide⟩
  · trivial

/-- The item-id map of the running index after calls by item id, while slots are left: what the user expects of a map. -/
theorem live_map {s : Index} (hu : Uniq s.slots) (c : Call) (hroom : s.slots.length < s.cap)
    (hid : ∀ i, c ≠ .removeId i) (hlen : c.payload.length ≤ 2 ^ 30) :
    (s.live c).get = Spec.ItemMap.call s.get c := by
  unfold Index.live
  rw [if_neg (by omega)]
  funext k
  cases c with
  | insert ef row =>
    simp only [Index.exec, Spec.ItemMap.call]
    by_cases hc : (s.get row.2.itemId).isSome = true
    · rw [if_pos (Or.inr hc)]
      unfold Index.insertNd
      rw [if_pos (by rw [contains_eq]; exact hc)]
      rfl
    · have hg : s.get row.2.itemId = none := by
        cases h : s.get row.2.itemId with
        | none => rfl
        | some r => rw [h] at hc; simp at hc
      have hi := insertNd_not_dup (get_none_iff.mp hg)
      rw [if_neg (by omega)] at hi
      have hget := insertNd_get hu hi k
      rw [hi]
      simp only [Option.map_some, Option.getD_some]
      rw [hget]
      by_cases hn : row.2.itemId = []
      · rw [if_pos (Or.inl hn), if_neg (by rintro ⟨h1, h2⟩; exact h2 (h1.symm.trans hn))]
      · rw [if_neg (show ¬ (row.2.itemId = [] ∨ (s.get row.2.itemId).isSome = true) from fun e => e.elim hn hc)]
        unfold Spec.ItemMap.put
        by_cases hk : k = row.2.itemId
        · rw [if_pos hk, if_pos ⟨hk.symm, by rw [hk]; exact hn⟩]
        · rw [if_neg hk, if_neg (fun e => hk e.1.symm)]
  | upsert ef row =>
    simp only [Index.exec, Spec.ItemMap.call]
    obtain ⟨s', i, h1, _, _, _, _, h6⟩ := upsertNd_room hu row hroom
    rw [h1]
    simp only [Option.map_some, Option.getD_some]
    rw [h6]
    by_cases hn : row.2.itemId = []
    · rw [if_pos hn, if_neg (by rintro ⟨h1, h2⟩; exact h2 (h1.symm.trans hn))]
    · rw [if_neg hn]
      unfold Spec.ItemMap.put
      by_cases hk : k = row.2.itemId
      · rw [if_pos hk, if_pos ⟨hk.symm, by rw [hk]; exact hn⟩]
      · rw [if_neg hk, if_neg (fun e => hk e.1.symm)]
  | removeItem item =>
    simp only [Index.exec, Spec.ItemMap.call, Spec.ItemMap.del]
    cases h : s.removeItem item with
    | none =>
      have hf : s.find item = none := by
        unfold Index.removeItem at h
        cases hf : s.find item with
        | none => rfl
        | some i => rw [hf] at h; cases h
      simp only [Option.getD_none]
      by_cases hk : k = item
      · rw [if_pos hk, hk, get_none_iff.mpr hf]
      · rw [if_neg hk]
    | some s' =>
      simp only [Option.getD_some]
      rw [removeItem_get hu h k]
  | removeId i => exact absurd rfl (hid i)

/-- The expected map after a history. -/
def mapAfter (m : Spec.ItemMap) : List Ev → Spec.ItemMap
  | [] => m
  | .call c :: es => mapAfter (m.call c) es
  | .save _ :: es => mapAfter m es

/-- While slots are left, the running index (hence by `C53_recovered_lookup` the recovered one) is the map that the
returned calls describe. -/
theorem C53_live_is_map (s : Index) (hu : Uniq s.slots) (hist : List Ev) (hroom : s.slots.length + hist.length ≤ s.cap)
    (hcalls : ∀ c, Ev.call c ∈ hist → (∀ i, c ≠ .removeId i) ∧ c.payload.length ≤ 2 ^ 30) :
    (s.after hist).get = mapAfter s.get hist := by
  induction hist generalizing s with
  | nil => rfl
  | cons e es ih =>
    simp only [List.length_cons] at hroom
    cases e with
    | save dt => exact ih s hu (by omega) (fun c hc => hcalls c (by simp [hc]))
    | call c =>
      obtain ⟨h1, h2, h3, h4⟩ := live_props hu c
      obtain ⟨k1, k2⟩ := hcalls c (by simp)
      show ((s.live c).after es).get = mapAfter (Spec.ItemMap.call s.get c) es
      rw [← live_map hu c (by omega) k1 k2]
      exact ih (s.live c) h1 (by omega) (fun c hc => hcalls c (by simp [hc]))

example : (∀ c, Ev.call c ∈ sampleHist → (∀ i, c ≠ .removeId i) ∧ c.payload.length ≤ 2 ^ 30) ∧
    ((Index.mk 4 9 []).after sampleHist).get (str "b") = some rowB := by
  refine ⟨?_, by decide⟩
  intro c hc
  simp only [sampleHist, List.mem_cons, Ev.call.injEq, List.not_mem_nil, or_false, reduceCtorEq, false_or] at hc
  rcases hc with rfl | rfl | rfl <;> exact ⟨by simp, by decide⟩

end Alaya.Py
