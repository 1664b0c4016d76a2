import Verif.Props.C06
import Verif.Lemmas.FilterMatcher

/-! C54: the three ways to execute a filter select the same live records. -/
namespace Alaya
open Spec

/-- Filters on which index and evaluation agree: whenever the filter is a single condition on an indexed field,
the field name is separated, the condition value and the stored values of the field are finite doubles other
than -0 (or other types), the bound is not the extreme double for GT/LT, and no stored string continues a searched
string with an underscore. Every other filter (several conditions, sub-filters, OR, NOT, non-indexed field) is
unrestricted. -/
def FilterSafe (cfg : StoreCfg) (m : RecordMap) (f : Filter) : Prop :=
  ∀ cond, f = .mk .and [cond] [] → cond.field ∈ cfg.fields →
    FieldSep cfg.fields cond.field ∧ SafeCond cond ∧ SafeRecs m cond

theorem eval_single (cond : FilterCond) (mm : MetaMap) :
    Filter.eval mm (.mk .and [cond] []) = cond.eval mm := by
  simp [Filter.eval, Filter.evalSubs, combine]

/-- What the constructor produces. -/
theorem exec_new_spec {cfg : StoreCfg} (hc : cfg.id.Ok) {s : Store} {m : RecordMap} (h : Rel cfg s.kv m)
    (f : Filter) (n : Nat) (hn : ∀ id r, m.get id = some r → id < n) (hs : FilterSafe cfg m f) :
    ∃ e, FilterExec.new cfg s f n = .ok e ∧ e.filter = f ∧ e.dataNum = n ∧
      ∀ p, e.fast = some p → f.isEmpty = false ∧ p.2.words.length = (n + 63) / 64 ∧ p.1.Nodup ∧
        (∀ q, q ∈ p.1 ↔ sel m f q = true) ∧ ∀ q, bitOf p.2.words q = decide (q ∈ p.1) := by
  unfold FilterExec.new
  split
  · rename_i cond
    have hl : lookupIndexed cfg s.kv cond = some none ∨
        ∃ l, lookupIndexed cfg s.kv cond = some (some l) ∧ l.Nodup ∧ ∀ id, id ∈ l ↔ condSel m cond id := by
      by_cases hf : cond.field ∈ cfg.fields
      · obtain ⟨h1, h2, h3⟩ := hs cond rfl hf
        exact lookup_spec hc h h1 h2 h3
      · left; unfold lookupIndexed; rw [if_neg hf]
    rcases hl with hl | ⟨l, hl, hnd, hm⟩
    · rw [hl]
      exact ⟨_, rfl, rfl, rfl, by intro p hp; simp at hp⟩
    · rw [hl]
      simp only
      have hsel : ∀ q, q ∈ l ↔ sel m (.mk .and [cond] []) q = true := by
        intro q
        rw [hm]
        unfold condSel sel
        cases hg : m.get q with
        | none => simp
        | some r => simp [eval_single]
      have hlt : ∀ id ∈ l, id < n := by
        intro id hid
        obtain ⟨r, hr, _⟩ := (hm id).1 hid
        exact hn id r hr
      obtain ⟨b, e1, e2, e3⟩ := setAllOf_spec l (DynBitset.new n) (by simp [DynBitset.new]) hlt
      rw [e1]
      refine ⟨_, rfl, rfl, rfl, ?_⟩
      intro p hp
      simp only [Option.some.injEq] at hp
      subst hp
      refine ⟨rfl, e2, hnd, hsel, ?_⟩
      intro q
      rw [e3]
      have : bitOf (DynBitset.new n).words q = false := bitOf_replicate _ _
      rw [this]; simp
  · exact ⟨_, rfl, rfl, rfl, by intro p hp; simp at hp⟩

theorem exec_test_spec {cfg : StoreCfg} {s : Store} {m : RecordMap} (h : Rel cfg s.kv m)
    {e : FilterExec} {f : Filter} {n : Nat} (hef : e.filter = f) (hnb : n ≤ cfg.id.bound)
    (hfast : ∀ p, e.fast = some p → f.isEmpty = false ∧ p.2.words.length = (n + 63) / 64 ∧ p.1.Nodup ∧
        (∀ q, q ∈ p.1 ↔ sel m f q = true) ∧ ∀ q, bitOf p.2.words q = decide (q ∈ p.1))
    {id : Nat} (hid : id < n) : e.test cfg s id = .ok (sel m f id) := by
  unfold FilterExec.test
  cases hp : e.fast with
  | none =>
    simp only
    rw [hef]
    exact rawMatch_spec h f (by omega)
  | some p =>
    obtain ⟨_, h1, _, h2, h3⟩ := hfast p hp
    simp only
    rw [p.2.get_eq (by omega), h3 id]
    simp only [PR.ok.injEq]
    by_cases hq : id ∈ p.1
    · simp [hq, (h2 id).1 hq]
    · have := mt (h2 id).2 hq
      simp [hq, this]

/-- Building the blocked bitset over all ids, whatever path is taken: no exception and no undefined behaviour;
a live record is blocked exactly when the filter evaluates to false on it; for a non-empty filter ids without
record are blocked and `matched_count_` is the number of selected ids; `match(id)` and the bitset over an
arbitrary id list give the same decisions. `_partial`: restricted to `FilterSafe`. -/
theorem C54_blocked_bitset_exact_partial (cfg : StoreCfg) (hc : cfg.id.Ok) (s : Store) (m : RecordMap)
    (h : Represents cfg s m) (f : Filter) (n : Nat) (hn : ∀ id r, m.get id = some r → id < n)
    (hnb : n ≤ cfg.id.bound) (hs : FilterSafe cfg m f) :
    ∃ e b cnt, FilterExec.new cfg s f n = .ok e ∧ e.blockAll cfg s = .ok (b, cnt) ∧
      (∀ id r, m.get id = some r → b.get id = some (!f.eval r.metadata)) ∧
      (f.isEmpty = false → (∀ id, id < n → m.get id = none → b.get id = some true) ∧
        cnt = (List.range n).countP (sel m f)) ∧
      (∀ id, id < n → e.match cfg s id = .ok (f.isEmpty || sel m f id)) ∧
      (∀ ids : List Nat, (∀ id ∈ ids, id < n) → ∃ b' cnt', e.blockIds cfg s ids = .ok (b', cnt') ∧
        ∀ i id, ids[i]? = some id → b'.get i = some (!(f.isEmpty || sel m f id))) := by
  obtain ⟨e, he, hef, hen, hfast⟩ := exec_new_spec hc h.rel f n hn hs
  have htest : ∀ id, id < n → e.test cfg s id = .ok (sel m f id) :=
    fun id hid => exec_test_spec h.rel hef hnb hfast hid
  have hempty : f.isEmpty = true → ∀ mm, f.eval mm = true := by
    intro hfe mm
    cases f with
    | mk op conds subs =>
      simp only [Filter.isEmpty] at hfe
      simp [Filter.eval, hfe]
  have hids : ∀ ids : List Nat, (∀ id ∈ ids, id < n) → ∃ b' cnt', e.blockIds cfg s ids = .ok (b', cnt') ∧
        ∀ i id, ids[i]? = some id → b'.get i = some (!(f.isEmpty || sel m f id)) := by
    intro ids hid
    unfold FilterExec.blockIds
    rw [hef]
    by_cases hfe : f.isEmpty = true
    · rw [if_pos hfe]
      refine ⟨_, _, rfl, ?_⟩
      intro i id hi
      have hil : i < ids.length := by
        apply Classical.byContradiction; intro hge
        rw [List.getElem?_eq_none (by omega)] at hi; simp at hi
      rw [DynBitset.get_eq (by simp [DynBitset.new]; omega)]
      have : bitOf (DynBitset.new ids.length).words i = false := bitOf_replicate _ _
      rw [this, hfe]; rfl
    · rw [if_neg hfe]
      obtain ⟨b', e1, e2, e3⟩ := blockIdsLoop_spec (e.test cfg s) (sel m f) ids 0 ids.length
        (DynBitset.new ids.length) 0 (fun id hi => htest id (hid id hi)) (by simp [DynBitset.new]) (by simp)
      refine ⟨b', _, e1, ?_⟩
      intro i id hi
      have hil : i < ids.length := by
        apply Classical.byContradiction; intro hge
        rw [List.getElem?_eq_none (by omega)] at hi; simp at hi
      rw [b'.get_eq (by omega), e3]
      have : bitOf (DynBitset.new ids.length).words i = false := bitOf_replicate _ _
      rw [this]
      simp [hi, hfe]
  have hmatch : ∀ id, id < n → e.match cfg s id = .ok (f.isEmpty || sel m f id) := by
    intro id hid
    unfold FilterExec.match
    rw [hef]
    by_cases hfe : f.isEmpty = true
    · rw [if_pos hfe, hfe]; rfl
    · rw [if_neg hfe, htest id hid]; simp [hfe]
  have hall : ∃ b cnt, e.blockAll cfg s = .ok (b, cnt) ∧
      (∀ id r, m.get id = some r → b.get id = some (!f.eval r.metadata)) ∧
      (f.isEmpty = false → (∀ id, id < n → m.get id = none → b.get id = some true) ∧
        cnt = (List.range n).countP (sel m f)) := by
    unfold FilterExec.blockAll
    rw [hef, hen]
    by_cases hfe : f.isEmpty = true
    · rw [if_pos hfe]
      refine ⟨_, _, rfl, ?_, ?_⟩
      · intro id r hr
        rw [DynBitset.get_eq (by have := hn id r hr; simp [DynBitset.new]; omega), hempty hfe]
        have : bitOf (DynBitset.new n).words id = false := bitOf_replicate _ _
        rw [this]; rfl
      · intro hx; rw [hfe] at hx; simp at hx
    · have hfe' : f.isEmpty = false := by simpa using hfe
      rw [if_neg hfe]
      have conclude : ∀ (b : DynBitset), b.words.length = (n + 63) / 64 →
          (∀ q, q < n → bitOf b.words q = !sel m f q) →
          (∀ id r, m.get id = some r → b.get id = some (!f.eval r.metadata)) ∧
          (∀ id, id < n → m.get id = none → b.get id = some true) := by
        intro b hl hb
        refine ⟨?_, ?_⟩
        · intro id r hr
          have hid := hn id r hr
          rw [b.get_eq (by omega), hb id hid]
          unfold sel; rw [hr]
        · intro id hid hnone
          rw [b.get_eq (by omega), hb id hid]
          unfold sel; rw [hnone]; rfl
      cases hp : e.fast with
      | none =>
        simp only
        obtain ⟨b', e1, e2, e3⟩ := batchLoop_spec cfg s e (sel m f) (by rw [hef]; exact hfe')
          (fun id hid => htest id (by omega)) e.dataNum 0 (by omega) (DynBitset.new n) 0
          (by simp [DynBitset.new, hen]) (by
            intro q hq
            have : bitOf (DynBitset.new n).words q = false := bitOf_replicate _ _
            rw [this]; simp) (by simp)
        rw [hen] at e1 e2 e3
        obtain ⟨c1, c2⟩ := conclude b' e2 e3
        exact ⟨b', _, e1, c1, fun _ => ⟨c2, rfl⟩⟩
      | some p =>
        obtain ⟨_, h1, h2, h3, h4⟩ := hfast p hp
        simp only
        have hlt : ∀ id ∈ p.1, id < n := by
          intro id hid
          have := (h3 id).1 hid
          unfold sel at this
          cases hg : m.get id with
          | none => rw [hg] at this; simp at this
          | some r => exact hn id r hg
        obtain ⟨b', e1, e2, e3⟩ := resetAllOf_spec p.1 (DynBitset.new n).setAll
          (by simp [DynBitset.new, DynBitset.setAll]) hlt
        rw [e1]
        obtain ⟨c1, c2⟩ := conclude b' e2 (by
          intro q hq
          rw [e3, DynBitset.setAll_eq _ (by simp [DynBitset.new]; omega)]
          by_cases hq2 : q ∈ p.1
          · simp [hq2, (h3 q).1 hq2]
          · have := mt (h3 q).2 hq2
            simp [hq2, this])
        refine ⟨b', _, rfl, c1, fun _ => ⟨c2, ?_⟩⟩
        rw [List.countP_eq_length_filter]
        apply List.Perm.length_eq
        rw [List.perm_ext_iff_of_nodup h2 (List.Nodup.sublist List.filter_sublist List.nodup_range)]
        intro q
        rw [List.mem_filter, List.mem_range, h3]
        exact ⟨fun hq => ⟨hlt q ((h3 q).2 hq), hq⟩, fun hq => hq.2⟩
  obtain ⟨b, cnt, h1, h2, h3⟩ := hall
  exact ⟨e, b, cnt, he, h1, h2, h3, hmatch, hids⟩

/-- Agreement of the bitset with `scan_with_filter`: an id is in the scan result exactly when it is live and
not blocked. -/
theorem C54_scan_agrees_partial (cfg : StoreCfg) (hc : cfg.id.Ok) (s : Store) (m : RecordMap)
    (h : Represents cfg s m) (f : Filter) (n : Nat) (hn : ∀ id r, m.get id = some r → id < n)
    (hnb : n ≤ cfg.id.bound) (hs : FilterSafe cfg m f) :
    ∃ e b cnt res, FilterExec.new cfg s f n = .ok e ∧ e.blockAll cfg s = .ok (b, cnt) ∧
      s.scan cfg (fun r => f.eval r.metadata) 0 = .ok res ∧
      ∀ id, id < n → (id ∈ res.map Prod.fst ↔ s.isValid cfg id = true ∧ b.get id = some false) := by
  obtain ⟨e, b, cnt, h1, h2, h3, _, _, _⟩ := C54_blocked_bitset_exact_partial cfg hc s m h f n hn hnb hs
  refine ⟨e, b, cnt, _, h1, h2, scan_spec hc h.rel _ 0, ?_⟩
  intro id hid
  rw [if_pos rfl, isValid_spec h.rel (by omega), List.mem_map]
  constructor
  · rintro ⟨⟨i, r⟩, hm, rfl⟩
    rw [List.mem_filter] at hm
    have hg := (RecordMap.mem_iff_get h.rel.asc _ _).1 hm.1
    rw [hg, h3 i r hg]
    simp only [Option.isSome_some, true_and]
    simpa using hm.2
  · rintro ⟨hv, hb⟩
    obtain ⟨r, hr⟩ := Option.isSome_iff_exists.1 hv
    refine ⟨(id, r), ?_, rfl⟩
    rw [List.mem_filter]
    refine ⟨(RecordMap.mem_iff_get h.rel.asc _ _).2 hr, ?_⟩
    rw [h3 id r hr] at hb
    simpa using hb

-- `c > 1` on the sample history: an indexed single condition that satisfies the hypotheses
example : FilterSafe sampleCfg (RecordMap.applyAll (2 ^ 32) [] sampleOps).1
    (.mk .and [⟨str "c", .gt, .int 1#64, []⟩] []) := by
  intro cond hcond _
  injection hcond with _ h2 _
  injection h2 with h2 _
  subst h2
  refine ⟨by decide, ⟨trivial, by decide⟩, ?_⟩
  intro id r w h1 h2
  have hm : (id, r) ∈ (RecordMap.applyAll (2 ^ 32) [] sampleOps).1 := by
    have : ∀ (m : RecordMap), m.get id = some r → (id, r) ∈ m := by
      intro m
      induction m with
      | nil => intro h; simp [RecordMap.get] at h
      | cons e m ih =>
        intro h
        simp only [RecordMap.get] at h
        by_cases he : e.1 = id
        · rw [if_pos he] at h; injection h with h
          rw [← he, ← h]; simp
        · rw [if_neg he] at h; exact List.mem_cons_of_mem _ (ih h)
    exact this _ h1
  rw [show (RecordMap.applyAll (2 ^ 32) [] sampleOps).1
    = [(3, ⟨str "z", [], [(str "c", .int 2#64)]⟩), (6, ⟨[], [], []⟩)] by decide] at hm
  simp only [List.mem_cons, Prod.mk.injEq, List.not_mem_nil, or_false] at hm
  rcases hm with ⟨_, rfl⟩ | ⟨_, rfl⟩
  · simp only [MetaMap.get, if_true, Option.some.injEq] at h2
    subst h2
    exact ⟨trivial, by simp [eqTargets]⟩
  · simp [MetaMap.get] at h2

/-! ### the full statement fails -/

/-- A store with one record at id 0 whose indexed field "c" has the given value. -/
def oneStore (v : MetaValue) : Store := storeOf sampleCfg [.insert 0 ⟨[], [], [(str "c", v)]⟩]

/-- Index lookup on the one-record store and evaluation of the same condition on the record. -/
def disagree (v : MetaValue) (op : FilterOp) (c : MetaValue) (viaIndex : List Nat) (viaEval : Bool) : Prop :=
  lookupIndexed sampleCfg (oneStore v).kv ⟨str "c", op, c, []⟩ = some (some viaIndex) ∧
    FilterCond.eval ⟨str "c", op, c, []⟩ [(str "c", v)] = viaEval

set_option exponentiation.threshold 2100 in
/-- `c == "a"`: the index selects the record "a_b", evaluation does not. -/
theorem C54_string_prefix_refuted : disagree (.string (str "a_b")) .eq (.string (str "a")) [0] false := by
  unfold disagree; decide

set_option exponentiation.threshold 2100 in
/-- `c == 0.0` on a record with -0.0: evaluation selects it, the index does not. -/
theorem C54_negative_zero_refuted :
    disagree (.double 0x8000000000000000#64) .eq (.double 0#64) [] true := by
  unfold disagree; decide

set_option exponentiation.threshold 2100 in
/-- `c == NaN`: the index selects the record with the same NaN bits, evaluation does not. -/
theorem C54_nan_refuted :
    disagree (.double 0x7FF8000000000000#64) .eq (.double 0x7FF8000000000000#64) [0] false := by
  unfold disagree; decide

set_option exponentiation.threshold 2100 in
/-- `c >= 1.0` on a record with +inf: evaluation selects it, the index stops at DBL_MAX. -/
theorem C54_infinity_refuted :
    disagree (.double 0x7FF0000000000000#64) .ge (.double 0x3FF0000000000000#64) [] true := by
  unfold disagree; decide

set_option exponentiation.threshold 2100 in
/-- `c > DBL_MAX` on a record with DBL_MAX: `nextafter(DBL_MAX, DBL_MAX)` is DBL_MAX, so the index selects it. -/
theorem C54_gt_max_refuted : disagree (.double dblMax) .gt (.double dblMax) [0] false := by
  unfold disagree; decide

set_option exponentiation.threshold 2100 in
/-- `c >= NaN` on a record with 1.0: `compare` returns 0 for unordered operands, so evaluation selects the record
while the index does not. -/
theorem C54_compare_nan_refuted :
    disagree (.double 0x3FF0000000000000#64) .ge (.double 0x7FF8000000000000#64) [] true := by
  unfold disagree; decide

end Alaya
